import Verif.Lemmas.EmphGeneral

/-!
# The removal of emphasis and the procedure of CommonMark
-/

set_option linter.unusedSimpArgs false

namespace MdToc.Cmark

open Spec

/-! ### The matches exist, are unique and use no more than there is -/

theorem first_unique {P : Mark → Prop} : ∀ {x x' : List Mark} {o o' : Mark} {y y' : List Mark}, x ++ o :: y = x' ++ o' :: y' → (∀ a ∈ x, ¬ P a) → (∀ a ∈ x', ¬ P a) → P o → P o' →
    x = x' ∧ o = o' ∧ y = y' := by
  intro x
  induction x with
  | nil =>
    intro x' o o' y y' e _ h' ho ho'
    cases x' with
    | nil => simpa using e
    | cons a x' =>
      injection e with e1 e2
      subst e1
      exact absurd ho (h' o (by simp))
  | cons a x ih =>
    intro x' o o' y y' e h h' ho ho'
    cases x' with
    | nil =>
      injection e with e1 e2
      subst e1
      exact absurd ho' (h a (by simp))
    | cons a' x' =>
      injection e with e1 e2
      subst e1
      obtain ⟨rfl, h2, h3⟩ := ih e2 (fun b hb => h b (by simp [hb])) (fun b hb => h' b (by simp [hb])) ho ho'
      exact ⟨rfl, h2, h3⟩

theorem matched_unique {b r : List Mark} {ms ms' : List Match} (h : Matched b r ms) (h' : Matched b r ms') : ms = ms' := by
  induction h generalizing ms' with
  | done => cases h'; rfl
  | skip hc _ ih =>
    cases h' with
    | skip _ h2 => exact ih h2
    | none hc' => rw [hc] at hc'; simp at hc'
    | some hc' => rw [hc] at hc'; simp at hc'
  | none hc hn _ ih =>
    cases h' with
    | skip hc' => rw [hc] at hc'; simp at hc'
    | none _ _ h2 => exact ih h2
    | some _ _ hf => exact absurd hf (hn _ (by simp))
  | @some x o y c r ms hc hn hf _ ih =>
    generalize hb : x ++ o :: y = b at h'
    cases h' with
    | skip hc' => rw [hc] at hc'; simp at hc'
    | none _ hn' => exact absurd hf (hn' _ (by rw [← hb]; simp))
    | some _ hn' hf' h2 =>
      obtain ⟨rfl, rfl, rfl⟩ := first_unique (P := fun a => Fits a c) hb hn hn' hf hf'
      rw [ih h2]

/-- What the search has still to do. -/
def todo (r : List Mark) : Nat := (r.map (fun m => m.left + 1)).sum

theorem less_left {m : Mark} {u : Nat} (hu : 1 ≤ u) (hm : u ≤ m.left) : todo (m.less u) ≤ m.left ∧ ∀ x ∈ m.less u, 1 ≤ x.left := by
  unfold Mark.less
  split
  · simp [todo]
  · simp [todo]
    omega

theorem todo_append (a b : List Mark) : todo (a ++ b) = todo a + todo b := by simp [todo]

theorem matched_exists : ∀ (n : Nat) (b r : List Mark), todo r ≤ n → (∀ m ∈ b ++ r, 1 ≤ m.left) → ∃ ms, Matched b r ms := by
  intro n
  induction n with
  | zero =>
    intro b r h _
    cases r with
    | nil => exact ⟨[], .done⟩
    | cons c r => simp [todo] at h
  | succ n ih =>
    intro b r h hl
    cases r with
    | nil => exact ⟨[], .done⟩
    | cons c r =>
      have hr : todo r + c.left + 1 ≤ n + 1 := by simp [todo] at h ⊢; omega
      have hcl := hl c (by simp)
      cases hc : c.closes with
      | false =>
        obtain ⟨ms, hm⟩ := ih (c :: b) r (by omega) (by intro m hm; simp at hm; rcases hm with rfl | hm | hm; exacts [hcl, hl m (by simp [hm]), hl m (by simp [hm])])
        exact ⟨ms, .skip hc hm⟩
      | true =>
        by_cases hf : ∃ o ∈ b, Fits o c
        · obtain ⟨x, o, y, rfl, hn, ho⟩ : ∃ x o y, b = x ++ o :: y ∧ (∀ a ∈ x, ¬ Fits a c) ∧ Fits o c := by
            clear * - hf
            induction b with
            | nil => simp at hf
            | cons a b ihb =>
              by_cases ha : Fits a c
              · exact ⟨[], a, b, rfl, by simp, ha⟩
              · obtain ⟨x, o, y, rfl, hn, ho⟩ := ihb (by obtain ⟨o, h1, h2⟩ := hf; rcases List.mem_cons.mp h1 with rfl | h1; exacts [absurd h2 ha, ⟨o, h1, h2⟩])
                exact ⟨a :: x, o, y, rfl, by intro z hz; rcases List.mem_cons.mp hz with rfl | hz; exacts [ha, hn z hz], ho⟩
          have hol := hl o (by simp)
          have hs := strength_le hol hcl
          have l1 := less_left hs.2.2 hs.1
          have l2 := less_left hs.2.2 hs.2.1
          obtain ⟨ms, hm⟩ := ih (o.less (strength o c) ++ y) (c.less (strength o c) ++ r) (by rw [todo_append]; omega) (by
            intro m hm
            simp only [List.mem_append] at hm
            rcases hm with (hm | hm) | hm | hm
            exacts [l1.2 m hm, hl m (by simp [hm]), l2.2 m hm, hl m (by simp [hm])])
          exact ⟨_, .some hc hn ho hm⟩
        · have hf' : ∀ o ∈ b, ¬ Fits o c := fun o ho h => hf ⟨o, ho, h⟩
          obtain ⟨ms, hm⟩ := ih (if c.opens then c :: b else b) r (by omega) (by
            intro m hm
            split at hm
            · simp at hm
              rcases hm with rfl | hm | hm
              exacts [hcl, hl m (by simp [hm]), hl m (by simp [hm])]
            · simp at hm
              rcases hm with hm | hm
              exacts [hl m (by simp [hm]), hl m (by simp [hm])])
          exact ⟨ms, .none hc hf' hm⟩

theorem matched_absent {b r : List Mark} {ms : List Match} (h : Matched b r ms) {k : Nat} (hk : ∀ d ∈ b ++ r, d.pos ≠ k) : closedAt ms k = 0 ∧ openedAt ms k = 0 := by
  have hp := matched_pos h
  exact ⟨closedAt_zero (fun m hm he => by obtain ⟨-, d, hd, e⟩ := hp m hm; exact hk d (by simp [hd]) (e.trans he)),
    openedAt_zero (fun m hm he => by obtain ⟨⟨d, hd, e⟩, -⟩ := hp m hm; exact hk d hd (e.trans he))⟩

theorem distinct_perm {a b : List Mark} (h : a.Perm b) : Distinct a → Distinct b := fun hd => (h.map Mark.pos).nodup hd

/-- A run does not lose more characters than it has. -/
theorem matched_bound {b r : List Mark} {ms : List Match} (h : Matched b r ms) : Distinct (b ++ r) → (∀ m ∈ b ++ r, 1 ≤ m.left) → ∀ d ∈ b ++ r, closedAt ms d.pos + openedAt ms d.pos ≤ d.left := by
  induction h with
  | done => intro _ _ d _; simp [closedAt, openedAt]
  | @skip b c r ms hc _ ih =>
    intro hd hl d hm
    have hp : (b ++ c :: r).Perm (c :: b ++ r) := List.perm_middle
    exact ih (distinct_perm hp hd) (fun m hm => hl m (hp.mem_iff.mpr hm)) d (hp.mem_iff.mp hm)
  | @none b c r ms hc _ hm ih =>
    intro hd hl d hmem
    have hp : (b ++ c :: r).Perm (c :: b ++ r) := List.perm_middle
    cases ho : c.opens with
    | true =>
      rw [ho] at ih
      exact ih (distinct_perm hp hd) (fun m hm => hl m (hp.mem_iff.mpr hm)) d (hp.mem_iff.mp hmem)
    | false =>
      rw [ho] at ih hm
      simp only [Bool.false_eq_true, if_false] at ih hm
      have hd2 := distinct_perm hp hd
      unfold Distinct at hd2
      rw [List.cons_append, List.map_cons, List.nodup_cons] at hd2
      rcases List.mem_cons.mp (hp.mem_iff.mp hmem) with rfl | h2
      · have := matched_absent hm (k := d.pos) (fun e he h => hd2.1 (by rw [← h]; exact List.mem_map_of_mem he))
        omega
      · exact ih hd2.2 (fun m hm => hl m (by simp at hm ⊢; tauto)) d h2
  | @some x o y c r ms hc hn hf hm ih =>
    intro hd hl d hmem
    have hs := strength_le (hl o (by simp)) (hl c (by simp))
    generalize strength o c = u at *
    have ih' := ih (distinct_match hd) (by
      intro m hm
      simp only [List.mem_append] at hm
      rcases hm with (hm | hm) | hm | hm
      exacts [(less_left hs.2.2 hs.1).2 m hm, hl m (by simp [hm]), (less_left hs.2.2 hs.2.1).2 m hm, hl m (by simp [hm])])
    have hpw : (x ++ (o :: (y ++ c :: r))).Pairwise (fun a b => a.pos ≠ b.pos) := by
      unfold Distinct at hd
      rw [List.Nodup, List.pairwise_map] at hd
      simpa using hd
    simp only [List.pairwise_append, List.pairwise_cons, List.mem_append, List.mem_cons] at hpw
    obtain ⟨-, ⟨hO, ⟨-, ⟨hN, -⟩, hYn⟩⟩, hX⟩ := hpw
    have hOn : o.pos ≠ c.pos := hO c (by simp)
    rw [closedAt_cons, openedAt_cons]
    simp only
    have key : ∀ k, (∀ e ∈ y, e.pos ≠ k) → (∀ e ∈ r, e.pos ≠ k) → (o.pos = k → o.left = u) → (c.pos = k → c.left = u) → closedAt ms k = 0 ∧ openedAt ms k = 0 := by
      intro k k1 k2 k3 k4
      apply matched_absent hm
      intro e he h
      simp only [List.mem_append] at he
      rcases he with (he | he) | he | he
      · have := less_pos he
        exact this.2.2.2 (k3 (by rw [← h, this.1]))
      · exact k1 e he h
      · have := less_pos he
        exact this.2.2.2 (k4 (by rw [← h, this.1]))
      · exact k2 e he h
    simp only [List.mem_append, List.mem_cons] at hmem
    rcases hmem with (h | rfl | h) | rfl | h
    · have n1 : d.pos ≠ o.pos := hX d h o (by simp)
      have n2 : d.pos ≠ c.pos := hX d h c (by simp)
      have := key d.pos (fun e he h' => hX d h e (by simp [he]) h'.symm) (fun e he h' => hX d h e (by simp [he]) h'.symm) (fun h' => absurd h'.symm n1) (fun h' => absurd h'.symm n2)
      rw [if_neg (Ne.symm n1), if_neg (Ne.symm n2)]
      omega
    · rw [if_pos rfl, if_neg (Ne.symm hOn)]
      by_cases hz : d.left = u
      · have := key d.pos (fun e he h' => hO e (by simp [he]) h'.symm) (fun e he h' => hO e (by simp [he]) h'.symm) (fun _ => hz) (fun h' => absurd h'.symm hOn)
        omega
      · have := ih' { d with left := d.left - u } (by simp [Mark.less, hz])
        simp only at this
        omega
    · rw [if_neg (fun h' => hO d (by simp [h]) h'), if_neg (fun h' => hYn d h c (by simp) h'.symm)]
      have := ih' d (by simp [h])
      omega
    · rw [if_pos rfl, if_neg hOn]
      by_cases hz : d.left = u
      · have := key d.pos (fun e he h' => hYn e he d (by simp) h') (fun e he h' => hN e he h'.symm) (fun h' => absurd h' hOn) (fun _ => hz)
        omega
      · have := ih' { d with left := d.left - u } (by simp [Mark.less, hz])
        simp only at this
        omega
    · rw [if_neg (fun h' => hO d (by simp [h]) h'), if_neg (fun h' => hN d h h')]
      have := ih' d (by simp [h])
      omega

/-! ### The runs of pieces -/

theorem marks_delims : ∀ (ps : List Piece) (k : Nat), (delimsOf k ps).map toMark = marks k ps := by
  intro ps
  induction ps with
  | nil => intro k; rfl
  | cons p ps ih =>
    intro k
    rw [delimsOf, marks, List.map_append, ih]
    congr 1
    cases p <;> rfl

theorem marks_ge : ∀ (ps : List Piece) (k : Nat), ∀ m ∈ marks k ps, k ≤ m.pos := by
  intro ps
  induction ps with
  | nil => intro k m hm; simp [marks] at hm
  | cons p ps ih =>
    intro k m hm
    rw [marks] at hm
    rcases List.mem_append.mp hm with hm | hm
    · cases p <;> simp [pieceMarks] at hm <;> subst hm <;> exact Nat.le_refl _
    · have := ih _ m hm
      omega

theorem marks_distinct : ∀ (ps : List Piece) (k : Nat), Distinct (marks k ps) := by
  intro ps
  induction ps with
  | nil => intro k; simp [marks, Distinct]
  | cons p ps ih =>
    intro k
    have h2 := ih (k + p.text.length)
    unfold Distinct at h2 ⊢
    rw [marks, List.map_append, List.nodup_append]
    refine ⟨?_, h2, ?_⟩
    · cases p <;> simp [pieceMarks]
    · intro a ha b hb e
      obtain ⟨m, hm, rfl⟩ := List.mem_map.mp ha
      obtain ⟨m', hm', rfl⟩ := List.mem_map.mp hb
      have := marks_ge _ _ m' hm'
      cases p <;> simp [pieceMarks] at hm <;> subst hm <;> simp [Piece.text] at this e <;> omega

theorem marks_left : ∀ (ps : List Piece) (k : Nat), ∀ m ∈ marks k ps, 1 ≤ m.left ∧ m.left = m.size := by
  intro ps
  induction ps with
  | nil => intro k m hm; simp [marks] at hm
  | cons p ps ih =>
    intro k m hm
    rw [marks] at hm
    rcases List.mem_append.mp hm with hm | hm
    · cases p <;> simp [pieceMarks] at hm <;> subst hm <;> simp
    · exact ih _ m hm

theorem mem_delimsOf : ∀ (ps : List Piece) (k : Nat) (d : Delim), d ∈ delimsOf k ps → ∃ p ∈ ps, ∃ k', d ∈ pieceDelims k' p := by
  intro ps
  induction ps with
  | nil => intro k d hd; simp [delimsOf] at hd
  | cons p ps ih =>
    intro k d hd
    rw [delimsOf] at hd
    rcases List.mem_append.mp hd with hd | hd
    · exact ⟨p, by simp, k, hd⟩
    · obtain ⟨q, hq, h⟩ := ih _ d hd
      exact ⟨q, by simp [hq], h⟩

theorem delimsOf_goodRun {punct : Char → Bool} {ps : List Piece} (h : Placed punct ps) (h1 : OneWayUnderscores ps) {k : Nat} : ∀ d ∈ delimsOf k ps, GoodRun d := by
  intro d hd
  obtain ⟨p, hp, k', hd'⟩ := mem_delimsOf ps k d hd
  have hch := placed_runs h p hp k' d hd'
  cases p with
  | char | escape | code | raw | run => simp [pieceDelims] at hd'
  | both c n =>
    simp [pieceDelims] at hd'
    subst hd'
    refine ⟨by simp, by simp, by simp, hch, ?_⟩
    rintro hc -
    simp only at hc
    subst hc
    exact absurd hp (h1 n)
  | opens c n | closes c n | strayOpen c n | strayClose c n =>
    simp [pieceDelims] at hd'
    subst hd'
    exact ⟨by simp, by simp, by simp, hch, by simp⟩

/-! ### The text that is left -/

/-- What the code keeps of a run of `n` characters which loses `k` as a closing and `m` as an opening run: it removes the first `k` characters and
the `m` characters before the last `k`. -/
def kept (n k m : Nat) : Nat := if m = 0 ∨ 2 * k + m ≤ n then n - k - m else if n ≤ 2 * k then n - k else k

theorem filter_run {rs : List Range} {a n k m : Nat} {c : Char} (hkm : k + m ≤ n)
    (h : ∀ i, a ≤ i → i < a + n → ((∃ r ∈ rs, InRange r i) ↔ (i < a + k ∨ (a + n ≤ i + k + m ∧ i + k < a + n)))) :
    filterIndicesFrom rs a (List.replicate n c) = List.replicate (kept n k m) c := by
  -- `p` removed, `q` kept, `r` removed, `s` kept
  have main : ∀ p q r s, p + q + r + s = n → (∀ i, a ≤ i → i < a + n → ((∃ r ∈ rs, InRange r i) ↔ (i < a + p ∨ (a + p + q ≤ i ∧ i < a + p + q + r)))) →
      filterIndicesFrom rs a (List.replicate n c) = List.replicate (q + s) c := by
    intro p q r s e h'
    have : List.replicate n c = List.replicate p c ++ (List.replicate q c ++ (List.replicate r c ++ List.replicate s c)) := by
      rw [← List.replicate_add, ← List.replicate_add, ← List.replicate_add]
      congr 1
      omega
    rw [this, filterIndicesFrom_append, filterIndicesFrom_append, filterIndicesFrom_append]
    rw [filterIndicesFrom_all rs (List.replicate p c), filterIndicesFrom_keep rs (List.replicate q c), filterIndicesFrom_all rs (List.replicate r c), filterIndicesFrom_keep rs (List.replicate s c)]
    · rw [List.nil_append, List.nil_append, ← List.replicate_add]
    all_goals
      simp only [List.length_replicate]
      intro i h1 h2
      have := h' i (by omega) (by omega)
      rw [this]
      omega
  unfold kept
  split
  · rename_i hh
    by_cases hm : m = 0
    · subst hm
      rw [main k (n - k) 0 0 (by omega) (fun i h1 h2 => by rw [h i h1 h2]; omega)]
      rfl
    · rw [main k (n - k - m - k) m k (by omega) (fun i h1 h2 => by rw [h i h1 h2]; omega)]
      congr 1
      omega
  · split
    · rw [main k (n - k) 0 0 (by omega) (fun i h1 h2 => by rw [h i h1 h2]; omega)]
      rfl
    · rw [main (n - k) k 0 0 (by omega) (fun i h1 h2 => by rw [h i h1 h2]; omega)]
      rfl

theorem delimsOf_range : ∀ (ps : List Piece) (k : Nat) (d : Delim), d ∈ delimsOf k ps → k ≤ d.pos ∧ d.pos + d.length ≤ k + (text ps).length ∧ d.offset = 0 := by
  intro ps
  induction ps with
  | nil => intro k d hd; simp [delimsOf] at hd
  | cons p ps ih =>
    intro k d hd
    rw [delimsOf] at hd
    rw [text_cons, List.length_append]
    rcases List.mem_append.mp hd with hd | hd
    · cases p <;> simp [pieceDelims] at hd <;> subst hd <;> simp [Piece.text]
    · have := ih _ d hd
      omega

theorem hit_range {d : Delim} {k m i : Nat} (ho : d.offset = 0) (hkm : k + m ≤ d.length) (h : Hit d k m i) : d.pos ≤ i ∧ i < d.pos + d.length := by
  unfold Hit at h
  omega

theorem filter_left {rs : List Range} {ms : List Match} : ∀ (ps : List Piece) (k : Nat), (∀ d ∈ delimsOf k ps, closedAt ms d.pos + openedAt ms d.pos ≤ d.length) →
    (∀ i, k ≤ i → i < k + (text ps).length → ((∃ r ∈ rs, InRange r i) ↔ ∃ d ∈ delimsOf k ps, Hit d (closedAt ms d.pos) (openedAt ms d.pos) i)) →
    filterIndicesFrom rs k (text ps) = leftBy kept ms k ps := by
  intro ps
  induction ps with
  | nil => intro k _ _; rfl
  | cons p ps ih =>
    intro k hb h
    rw [text_cons, List.length_append] at h
    rw [text_cons, leftBy, filterIndicesFrom_append]
    rw [delimsOf] at hb h
    congr 1
    · have here : ∀ i, k ≤ i → i < k + p.text.length → ((∃ r ∈ rs, InRange r i) ↔ ∃ d ∈ pieceDelims k p, Hit d (closedAt ms d.pos) (openedAt ms d.pos) i) := by
        intro i h1 h2
        rw [h i h1 (by omega)]
        constructor
        · rintro ⟨d, hd, hh⟩
          rcases List.mem_append.mp hd with hd' | hd'
          · exact ⟨d, hd', hh⟩
          · have r1 := delimsOf_range ps _ d hd'
            have r2 := hit_range r1.2.2 (hb d hd) hh
            omega
        · rintro ⟨d, hd, hh⟩
          exact ⟨d, List.mem_append_left _ hd, hh⟩
      have leaf : pieceDelims k p = [] → filterIndicesFrom rs k p.text = p.text := by
        intro e
        apply filterIndicesFrom_keep
        intro i h1 h2
        rw [here i h1 h2, e]
        simp
      have run : ∀ c n o cl, pieceDelims k p = [⟨k, n + 1, n + 1, c, o, cl, 0⟩] → p.text = List.replicate (n + 1) c →
          filterIndicesFrom rs k p.text = List.replicate (kept (n + 1) (closedAt ms k) (openedAt ms k)) c := by
        intro c n o cl e et
        rw [et]
        apply filter_run
        · have := hb ⟨k, n + 1, n + 1, c, o, cl, 0⟩ (by rw [e]; simp)
          exact this
        · intro i h1 h2
          rw [here i h1 (by rw [et, List.length_replicate]; exact h2), e]
          simp only [List.mem_singleton, exists_eq_left, Hit]
          omega
      cases p with
      | char | escape | code | raw | run => exact leaf rfl
      | opens c n | closes c n | strayOpen c n | strayClose c n | both c n => exact run c n _ _ rfl rfl
    · apply ih
      · intro d hd
        exact hb d (List.mem_append_right _ hd)
      · intro i h1 h2
        rw [h i (by omega) (by omega)]
        constructor
        · rintro ⟨d, hd, hh⟩
          rcases List.mem_append.mp hd with hd' | hd'
          · have r2 := hit_range (k := closedAt ms d.pos) (m := openedAt ms d.pos) (i := i) (by cases p <;> simp [pieceDelims] at hd' <;> subst hd' <;> rfl) (hb d hd) hh
            have : d.pos + d.length ≤ k + p.text.length := by cases p <;> simp [pieceDelims] at hd' <;> subst hd' <;> simp [Piece.text]
            omega
          · exact ⟨d, hd', hh⟩
        · rintro ⟨d, hd, hh⟩
          exact ⟨d, List.mem_append_right _ hd, hh⟩

/-- What the code does with the emphasis of any pieces. -/
theorem removeEmphasis_pieces {E : Env} {ps : List Piece} (h1 : Placed E.isPCat ps) (h2 : OneWayUnderscores ps) {ms : List Match} (hm : Matched [] (marks 0 ps) ms) (p : Parser) :
    removeEmphasis E (text ps) p = .ok (leftBy kept ms 0 ps) := by
  have hl : ∀ m ∈ [] ++ marks 0 ps, 1 ≤ m.left := fun m hm => (marks_left ps 0 m (by simpa using hm)).1
  obtain ⟨ds, R, e1, e2⟩ := general_loop hm [] (delimsOf 0 ps) (fun _ => none) (emphFuel (delimsOf 0 ps)) [] rfl (marks_delims ps 0)
    (by intro d hd; exact delimsOf_goodRun h1 h2 d (by simpa using hd)) (by simpa using marks_distinct ps 0) ⟨by simp, by simp⟩ (Nat.le_refl _)
  rw [List.nil_append] at e1
  rw [removeEmphasis_of_parse h1 (parseInlines_loop h1 e1)]
  congr 1
  apply filter_left
  · intro d hd
    have hmem : toMark d ∈ marks 0 ps := by rw [← marks_delims]; exact List.mem_map_of_mem hd
    have := matched_bound hm (by simpa using marks_distinct ps 0) hl (toMark d) (by simpa using hmem)
    have h3 := (marks_left ps 0 _ hmem).2
    rw [h3] at this
    exact this
  · intro i _ _
    rw [e2]
    simp

end MdToc.Cmark
