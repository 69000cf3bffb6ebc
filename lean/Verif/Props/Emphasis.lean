import Verif.Lemmas.EmphCommon
import Verif.Props.Markup
import Verif.Props.Slug

/-!
# Emphasis after the procedure of CommonMark: C72
-/

set_option linter.unusedSimpArgs false

namespace MdToc.Props

open MdToc.Spec Cmark

/-! ### The specification gives exactly one result -/

/-- Every sequence of pieces has a text without emphasis. -/
theorem C72_total (ps : List Piece) : ∃ t, WithoutEmphasis ps t := by
  obtain ⟨ms, h⟩ := matched_exists _ [] (marks 0 ps) (Nat.le_refl _) (fun m hm => (marks_left ps 0 m (by simpa using hm)).1)
  exact ⟨_, ms, h, rfl⟩

/-- It is unique. -/
theorem C72_unique {ps : List Piece} {t t' : Str} (h : WithoutEmphasis ps t) (h' : WithoutEmphasis ps t') : t = t' := by
  obtain ⟨ms, h1, rfl⟩ := h
  obtain ⟨ms', h2, rfl⟩ := h'
  rw [matched_unique h1 h2]

theorem marks_bound {ps : List Piece} {ms : List Match} (h : Matched [] (marks 0 ps) ms) : ∀ m ∈ marks 0 ps, closedAt ms m.pos + openedAt ms m.pos ≤ m.size := by
  intro m hm
  have := matched_bound h (by simpa using marks_distinct ps 0) (fun m hm => (marks_left ps 0 m (by simpa using hm)).1) m (by simpa using hm)
  rwa [(marks_left ps 0 m hm).2] at this

/-! ### The runs that the code shortens as it should -/

theorem kept_unused {n k m : Nat} (h : k + m ≤ n) : kept n k m = unused n k m ↔ m = 0 ∨ 2 * k + m ≤ n := by
  unfold kept unused
  split
  · simp_all
  · split <;> omega

theorem unused_le_kept {n k m : Nat} (h : k + m ≤ n) : unused n k m ≤ kept n k m := by
  unfold kept unused
  split
  · omega
  · split <;> omega

theorem leftBy_length {f g : Nat → Nat → Nat → Nat} {ms : List Match} : ∀ (ps : List Piece) (k : Nat),
    (∀ m ∈ marks k ps, f m.size (closedAt ms m.pos) (openedAt ms m.pos) ≤ g m.size (closedAt ms m.pos) (openedAt ms m.pos)) →
    (leftBy f ms k ps).length ≤ (leftBy g ms k ps).length ∧
      (leftBy f ms k ps = leftBy g ms k ps ↔ ∀ m ∈ marks k ps, f m.size (closedAt ms m.pos) (openedAt ms m.pos) = g m.size (closedAt ms m.pos) (openedAt ms m.pos)) := by
  intro ps
  induction ps with
  | nil => intro k _; simp [leftBy, marks]
  | cons p ps ih =>
    intro k h
    rw [marks] at h ⊢
    obtain ⟨h1, h2⟩ := ih (k + p.text.length) (fun m hm => h m (List.mem_append_right _ hm))
    have hp : (p.leftBy f ms k).length ≤ (p.leftBy g ms k).length ∧
        (p.leftBy f ms k = p.leftBy g ms k ↔ ∀ m ∈ pieceMarks k p, f m.size (closedAt ms m.pos) (openedAt ms m.pos) = g m.size (closedAt ms m.pos) (openedAt ms m.pos)) := by
      cases p with
      | char | escape | code | raw | run => simp [Piece.leftBy, pieceMarks]
      | opens c n | closes c n | strayOpen c n | strayClose c n | both c n =>
        simp only [Piece.leftBy, pieceMarks, List.length_replicate, List.mem_singleton, forall_eq]
        refine ⟨h _ (List.mem_append_left _ (List.Mem.head _)), fun e => ?_, fun e => by rw [e]⟩
        have := congrArg List.length e
        simpa using this
    simp only [leftBy, List.length_append, List.mem_append]
    refine ⟨by omega, fun e => ?_, fun e => ?_⟩
    · have hl := congrArg List.length e
      simp only [List.length_append] at hl
      have e1 := List.append_inj e (by omega)
      intro m hm
      rcases hm with hm | hm
      · exact hp.2.mp e1.1 m hm
      · exact h2.mp e1.2 m hm
    · rw [hp.2.mpr (fun m hm => e m (.inl hm)), h2.mpr (fun m hm => e m (.inr hm))]

/-! ### C72 -/

/-- **C72**, what the code does: it matches the runs as CommonMark does and shortens them as described by `kept`. -/
theorem C72_exact {E : Env} {ps : List Piece} (p : Parser) (h1 : Placed E.isPCat ps) (h2 : OneWayUnderscores ps) :
    ∃ ms, Matched [] (marks 0 ps) ms ∧ removeEmphasis E (text ps) p = .ok (leftBy kept ms 0 ps) := by
  obtain ⟨_, ms, hm, -⟩ := C72_total ps
  exact ⟨ms, hm, removeEmphasis_pieces h1 h2 hm p⟩

/-- **C72**: the result is the one of CommonMark.  Partial: a run of underscores which can both open and close emphasis, and a run which is used on
both sides, are treated differently by the code (`C72_violation_bottom`, `C72_violation_both`). -/
theorem C72_emphasis_partial {E : Env} {ps : List Piece} {t : Str} (p : Parser) (h1 : Placed E.isPCat ps) (h2 : OneWayUnderscores ps) (h3 : Clear ps) (ht : WithoutEmphasis ps t) :
    removeEmphasis E (text ps) p = .ok t := by
  obtain ⟨ms, hm, rfl⟩ := ht
  rw [removeEmphasis_pieces h1 h2 hm]
  congr 1
  have hb := marks_bound hm
  exact ((leftBy_length ps 0 (fun m hm' => unused_le_kept (hb m hm'))).2.mpr (fun m hm' => ((kept_unused (hb m hm')).mpr (h3 ms hm m hm')).symm)).symm

/-- **C72**, the limit is exact: without that kind of underscores, the result is the one of CommonMark if and only if no run is used on both sides. -/
theorem C72_iff {E : Env} {ps : List Piece} {t : Str} (p : Parser) (h1 : Placed E.isPCat ps) (h2 : OneWayUnderscores ps) (ht : WithoutEmphasis ps t) :
    removeEmphasis E (text ps) p = .ok t ↔ Clear ps := by
  refine ⟨?_, fun h3 => C72_emphasis_partial p h1 h2 h3 ht⟩
  obtain ⟨ms, hm, rfl⟩ := ht
  rw [removeEmphasis_pieces h1 h2 hm]
  intro e ms' hm' m hmem
  obtain rfl := matched_unique hm hm'
  have hb := marks_bound hm
  injection e with e
  have := (leftBy_length ps 0 (fun m hm' => unused_le_kept (hb m hm'))).2.mp e.symm m hmem
  exact (kept_unused (hb m hmem)).mp this.symm

/-- **C72**: the code never removes more characters than CommonMark does. -/
theorem C72_not_more {E : Env} {ps : List Piece} {t u : Str} (p : Parser) (h1 : Placed E.isPCat ps) (h2 : OneWayUnderscores ps) (ht : WithoutEmphasis ps t)
    (hu : removeEmphasis E (text ps) p = .ok u) : t.length ≤ u.length := by
  obtain ⟨ms, hm, rfl⟩ := ht
  rw [removeEmphasis_pieces h1 h2 hm] at hu
  injection hu with hu
  rw [← hu]
  have hb := marks_bound hm
  exact (leftBy_length ps 0 (fun m hm' => unused_le_kept (hb m hm'))).1

theorem mem_marks : ∀ (ps : List Piece) (k : Nat) (m : Mark), m ∈ marks k ps → ∃ p ∈ ps, ∃ k', m ∈ pieceMarks k' p := by
  intro ps
  induction ps with
  | nil => intro k d hd; simp [marks] at hd
  | cons p ps ih =>
    intro k d hd
    rw [marks] at hd
    rcases List.mem_append.mp hd with hd | hd
    · exact ⟨p, by simp, k, hd⟩
    · obtain ⟨q, hq, h⟩ := ih _ d hd
      exact ⟨q, by simp [hq], h⟩

theorem closer_closes {b r : List Mark} {ms : List Match} (h : Matched b r ms) : ∀ m ∈ ms, (∃ d ∈ r, d.pos = m.closer ∧ d.closes = true) ∧ ∃ d ∈ b ++ r, d.pos = m.opener ∧ d.opens = true := by
  induction h with
  | done => simp
  | @skip b c r ms hc _ ih =>
    intro m hm
    obtain ⟨⟨d, h1, h2⟩, d', h3, h4⟩ := ih m hm
    exact ⟨⟨d, by simp [h1], h2⟩, d', by simp at h3 ⊢; tauto, h4⟩
  | @none b c r ms hc _ _ ih =>
    intro m hm
    obtain ⟨⟨d, h1, h2⟩, d', h3, h4⟩ := ih m hm
    refine ⟨⟨d, by simp [h1], h2⟩, d', ?_, h4⟩
    split at h3 <;> simp at h3 ⊢ <;> tauto
  | @some x o y c r ms hc hn hf hm ih =>
    intro m hmem
    have key : ∀ (a d : Mark) (u : Nat), d ∈ a.less u → d.pos = a.pos ∧ d.closes = a.closes ∧ d.opens = a.opens := by
      intro a d u hd
      unfold Mark.less at hd
      split at hd
      · simp at hd
      · simp at hd
        subst hd
        exact ⟨rfl, rfl, rfl⟩
    rcases List.mem_cons.mp hmem with rfl | hmem
    · exact ⟨⟨c, by simp, rfl, hc⟩, o, by simp, rfl, hf.1⟩
    · obtain ⟨⟨d, h1, h2⟩, d', h3, h4⟩ := ih m hmem
      constructor
      · rcases List.mem_append.mp h1 with h1 | h1
        · obtain ⟨k1, k2, k3⟩ := key _ _ _ h1
          exact ⟨c, by simp, by rw [← k1]; exact h2.1, by rw [← k2]; exact h2.2⟩
        · exact ⟨d, by simp [h1], h2⟩
      · simp only [List.mem_append] at h3
        rcases h3 with (h3 | h3) | h3 | h3
        · obtain ⟨k1, k2, k3⟩ := key _ _ _ h3
          exact ⟨o, by simp, by rw [← k1]; exact h4.1, by rw [← k3]; exact h4.2⟩
        · exact ⟨d', by simp [h3], h4⟩
        · obtain ⟨k1, k2, k3⟩ := key _ _ _ h3
          exact ⟨c, by simp, by rw [← k1]; exact h4.1, by rw [← k3]; exact h4.2⟩
        · exact ⟨d', by simp [h3], h4⟩

theorem same_mark {l : List Mark} (h : Distinct l) {a b : Mark} (ha : a ∈ l) (hb : b ∈ l) (e : a.pos = b.pos) : a = b := by
  induction l with
  | nil => simp at ha
  | cons c l ih =>
    unfold Distinct at h
    rw [List.map_cons, List.nodup_cons] at h
    rcases List.mem_cons.mp ha with rfl | ha' <;> rcases List.mem_cons.mp hb with rfl | hb'
    · rfl
    · refine absurd (?_ : a.pos ∈ l.map Mark.pos) h.1
      rw [e]
      exact List.mem_map_of_mem hb'
    · refine absurd (?_ : b.pos ∈ l.map Mark.pos) h.1
      rw [← e]
      exact List.mem_map_of_mem ha'
    · exact ih h.2 ha' hb'

/-- Only single stars stand where they could both open and close emphasis. -/
def OneWay (ps : List Piece) : Prop := ∀ c n, .both c n ∈ ps → c = '*' ∧ n = 0

/-- Then no run is used on both sides. -/
theorem clear_of_oneWay {ps : List Piece} (h : OneWay ps) : Clear ps := by
  intro ms hm m hmem
  have hb := marks_bound hm m hmem
  obtain ⟨p, hp, k, hk⟩ := mem_marks ps 0 m hmem
  have h1 := closer_closes hm
  have hd := marks_distinct ps 0
  have noClose : m.closes = false → closedAt ms m.pos = 0 := by
    intro hc
    apply closedAt_zero
    intro x hx e
    obtain ⟨⟨d, d1, d2, d3⟩, -⟩ := h1 x hx
    have := same_mark hd d1 hmem (d2.trans e)
    subst this
    rw [hc] at d3
    simp at d3
  have noOpen : m.opens = false → openedAt ms m.pos = 0 := by
    intro hc
    apply openedAt_zero
    intro x hx e
    obtain ⟨-, d, d1, d2, d3⟩ := h1 x hx
    have := same_mark hd (by simpa using d1) hmem (d2.trans e)
    subst this
    rw [hc] at d3
    simp at d3
  cases p with
  | char | escape | code | raw | run => simp [pieceMarks] at hk
  | both c n =>
    obtain ⟨-, rfl⟩ := h c n hp
    simp [pieceMarks] at hk
    have hs : m.size = 1 := by rw [hk]
    omega
  | opens c n | strayOpen c n =>
    simp [pieceMarks] at hk
    have := noClose (by rw [hk])
    omega
  | closes c n | strayClose c n =>
    simp [pieceMarks] at hk
    exact .inl (noOpen (by rw [hk]))

/-- **C72**, with a condition that can be seen in the text: every run which can both open and close emphasis is a single star. -/
theorem C72_one_way_partial {E : Env} {ps : List Piece} {t : Str} (p : Parser) (h1 : Placed E.isPCat ps) (h2 : OneWay ps) (ht : WithoutEmphasis ps t) :
    removeEmphasis E (text ps) p = .ok t :=
  C72_emphasis_partial p h1 (fun n hn => absurd (h2 _ _ hn).1 (by decide)) (clear_of_oneWay h2) ht

theorem balanced_no_both {ps : List Piece} (h : Balanced ps) : ∀ c n, .both c n ∉ ps := by
  have hp : ∀ {qs : List Piece}, Paired qs → ∀ c n, .both c n ∉ qs := by
    intro qs hq
    induction hq with
    | nil => simp
    | @leaf p ps hp _ ih =>
      intro c n hm
      rcases List.mem_cons.mp hm with rfl | hm
      · exact hp
      · exact ih c n hm
    | @pair c n a b _ _ iha ihb =>
      intro c' n' hm
      simp only [List.mem_cons, List.mem_append] at hm
      rcases hm with h | h | h | h
      · simp at h
      · exact iha _ _ h
      · simp at h
      · exact ihb _ _ h
  induction h with
  | nil => simp
  | @leaf p ps hp _ ih =>
    intro c n hm
    rcases List.mem_cons.mp hm with rfl | hm
    · exact hp
    · exact ih c n hm
  | @pair c n a b ha _ ihb =>
    intro c' n' hm
    simp only [List.mem_cons, List.mem_append] at hm
    rcases hm with h | h | h | h
    · simp at h
    · exact hp ha _ _ h
    · simp at h
    · exact ihb _ _ h
  | strayOpen _ ih | strayClose _ ih =>
    intro c' n' hm
    rcases List.mem_cons.mp hm with h | h
    · simp at h
    · exact ih _ _ h

/-- The pieces of C64 have the same text without emphasis in both specifications. -/
theorem C72_covers_C64 {ps : List Piece} {E : Env} (h1 : Placed E.isPCat ps) (h2 : Balanced ps) (h3 : Uncrossed ps) : WithoutEmphasis ps (shown ps) := by
  obtain ⟨t, ht⟩ := C72_total ps
  have e1 := C72_one_way_partial .github h1 (fun c n hm => absurd hm (balanced_no_both h2 c n)) ht
  have e2 := C64_markup_removed (E := E) .github ⟨ps, rfl, rfl, h1, h2, h3⟩
  rw [e1] at e2
  injection e2 with e2
  rw [← e2]
  exact ht

/-- **C72**, for the slug of a heading: it is made from the text without the emphasis of CommonMark. -/
theorem C72_slug_partial {E : Env} (hE : E.Lawful) {p : Parser} (hp : p ≠ .redcarpet) {s t : Str} {ps : List Piece} (hn : ¬ HasInteriorNewline s)
    (h1 : WithoutTags (RemovedTag p) (E.lower s) (text ps)) (h2 : Placed E.isPCat ps) (h3 : OneWayUnderscores ps) (h4 : Clear ps) (ht : WithoutEmphasis ps t) :
    BaseSlug E p s (if p = .gitlab then collapse false (slug E.isWord t) else slug E.isWord t) :=
  slug_of_removed hE hp hn h1 (C72_emphasis_partial p h2 h3 h4 ht)

/-! ### Every text of plain characters and runs has pieces -/

theorem replicate_split (c : Char) : ∀ (s : Str), ∃ n t, s = List.replicate n c ++ t ∧ t.head? ≠ some c := by
  intro s
  induction s with
  | nil => exact ⟨0, [], rfl, by simp⟩
  | cons a s ih =>
    by_cases h : a = c
    · obtain ⟨n, t, rfl, h2⟩ := ih
      exact ⟨n + 1, t, by rw [h, List.replicate_succ]; rfl, h2⟩
    · exact ⟨0, a :: s, rfl, by simpa using h⟩

/-- A character which the parser for inlines does not interpret, and which it sees before a run. -/
def Seen (c : Char) : Prop := Plain c ∧ ¬ (128 ≤ c.toNat ∧ c.toNat ≤ 191)

theorem pieces_exist (punct : Char → Bool) (k : Nat) : ∀ (s pre : Str), s.length ≤ k → (∀ c ∈ s, Plain c ∨ c = '*' ∨ c = '_') →
    (∀ x c n y, pre ++ s = x ++ List.replicate (n + 1) c ++ y → c = '*' ∨ c = '_' → y.head? ≠ some c → IsRun punct c x y) → ∃ ps, s = text ps ∧ PlacedFrom punct pre ps := by
  induction k with
  | zero =>
    intro s pre hk _ _
    have : s = [] := by simpa using hk
    subst this
    exact ⟨[], rfl, trivial⟩
  | succ k ih =>
    intro s pre hk hs hr
    cases s with
    | nil => exact ⟨[], rfl, trivial⟩
    | cons c s =>
      by_cases hc : c = '*' ∨ c = '_'
      · obtain ⟨n, t, rfl, ht⟩ := replicate_split c s
        have e : c :: (List.replicate n c ++ t) = List.replicate (n + 1) c ++ t := by rw [List.replicate_succ]; rfl
        rw [e] at hs hk hr ⊢
        simp only [List.length_append, List.length_replicate] at hk
        obtain ⟨ps, rfl, h2⟩ := ih t (pre ++ List.replicate (n + 1) c) (by omega) (fun d hd => hs d (by simp [hd])) (by rw [List.append_assoc]; exact hr)
        have hrun : IsRun punct c pre (text ps) := hr pre c n (text ps) (by rw [List.append_assoc]) hc ht
        by_cases ho : CanOpen punct c pre.getLast? (text ps).head? <;> by_cases hl : CanClose punct c pre.getLast? (text ps).head?
        · exact ⟨.both c n :: ps, by rw [text_cons]; rfl, ⟨hrun, ho, hl⟩, h2⟩
        · exact ⟨.opens c n :: ps, by rw [text_cons]; rfl, ⟨hrun, ho, hl⟩, h2⟩
        · exact ⟨.closes c n :: ps, by rw [text_cons]; rfl, ⟨hrun, ho, hl⟩, h2⟩
        · exact ⟨.run c n :: ps, by rw [text_cons]; rfl, ⟨hrun, ho, hl⟩, h2⟩
      · obtain ⟨ps, rfl, h2⟩ := ih s (pre ++ [c]) (by simpa using hk) (fun d hd => hs d (by simp [hd])) (by rw [List.append_assoc]; exact hr)
        refine ⟨.char c :: ps, by rw [text_cons]; rfl, .inl ?_, h2⟩
        rcases hs c (by simp) with h | h
        · exact h
        · exact absurd h hc

/-- **C72** applies to every text of plain characters, stars and underscores in which it makes no difference for the runs that the code steps back over the characters from U+0080 to U+00BF. -/
theorem C72_pieces_any (punct : Char → Bool) {s : Str} (h : ∀ c ∈ s, Plain c ∨ c = '*' ∨ c = '_')
    (hr : ∀ x c n y, s = x ++ List.replicate (n + 1) c ++ y → c = '*' ∨ c = '_' → y.head? ≠ some c → IsRun punct c x y) : ∃ ps, s = text ps ∧ Placed punct ps := by
  obtain ⟨ps, h1, h2⟩ := pieces_exist punct s.length s [] (Nat.le_refl _) h (by simpa using hr)
  exact ⟨ps, h1, placed_iff.mpr h2⟩

/-- **C72** applies to every text of plain characters, stars and underscores. -/
theorem C72_pieces (punct : Char → Bool) {s : Str} (h : ∀ c ∈ s, Seen c ∨ c = '*' ∨ c = '_') : ∃ ps, s = text ps ∧ Placed punct ps := by
  refine C72_pieces_any punct (fun c hc => (h c hc).imp (·.1) id) ?_
  rintro x c n y rfl hc hy
  refine isRun_of hc hy ?_
  intro d hd hr
  rcases h d (by have : d ∈ x := List.mem_of_getLast? hd; simp [this]) with h | rfl | rfl
  · exact h.2 hr
  · revert hr; decide
  · revert hr; decide

/-! ### Examples -/

instance (o c : Mark) : Decidable (Fits o c) := by unfold Fits; infer_instance

/-- The first run that fits. -/
def firstFit (c : Mark) : List Mark → Option (Mark × List Mark)
  | [] => none
  | o :: y => if Fits o c then some (o, y) else firstFit c y

theorem firstFit_some {c o : Mark} {y : List Mark} : ∀ {b : List Mark}, firstFit c b = some (o, y) → ∃ x, b = x ++ o :: y ∧ (∀ a ∈ x, ¬ Fits a c) ∧ Fits o c := by
  intro b
  induction b with
  | nil => intro h; simp [firstFit] at h
  | cons a b ih =>
    intro h
    unfold firstFit at h
    split at h
    · rename_i hf
      injection h with h
      injection h with h1 h2
      subst h1 h2
      exact ⟨[], rfl, by simp, hf⟩
    · rename_i hf
      obtain ⟨x, rfl, h1, h2⟩ := ih h
      exact ⟨a :: x, rfl, by intro z hz; rcases List.mem_cons.mp hz with rfl | hz; exacts [hf, h1 z hz], h2⟩

theorem firstFit_none {c : Mark} : ∀ {b : List Mark}, firstFit c b = none → ∀ o ∈ b, ¬ Fits o c := by
  intro b
  induction b with
  | nil => intro _ o ho; simp at ho
  | cons a b ih =>
    intro h o ho
    unfold firstFit at h
    split at h
    · simp at h
    · rename_i hf
      rcases List.mem_cons.mp ho with rfl | ho
      · exact hf
      · exact ih h o ho

/-- The matches, computed. -/
def findMatches : Nat → List Mark → List Mark → Option (List Match)
  | 0, _, _ => none
  | _ + 1, _, [] => some []
  | f + 1, b, c :: r =>
    if c.closes then
      match firstFit c b with
      | none => findMatches f (if c.opens then c :: b else b) r
      | some (o, y) => (findMatches f (o.less (strength o c) ++ y) (c.less (strength o c) ++ r)).map (⟨o.pos, c.pos, strength o c⟩ :: ·)
    else findMatches f (c :: b) r

theorem findMatches_sound : ∀ (f : Nat) {b r : List Mark} {ms : List Match}, findMatches f b r = some ms → Matched b r ms := by
  intro f
  induction f with
  | zero => intro b r ms h; simp [findMatches] at h
  | succ f ih =>
    intro b r ms h
    cases r with
    | nil =>
      simp [findMatches] at h
      subst h
      exact .done
    | cons c r =>
      unfold findMatches at h
      split at h
      · rename_i hc
        split at h
        · rename_i hf
          exact .none hc (firstFit_none hf) (ih h)
        · rename_i o y hf
          obtain ⟨x, rfl, h1, h2⟩ := firstFit_some hf
          rw [Option.map_eq_some_iff] at h
          obtain ⟨ms', h3, rfl⟩ := h
          exact .some hc h1 h2 (ih h3)
      · rename_i hc
        exact .skip (by simpa using hc) (ih h)

theorem withoutEmphasis_of {ps : List Piece} {t : Str} (h : ((findMatches 100 [] (marks 0 ps)).map (fun ms => leftBy unused ms 0 ps)) = some t) : WithoutEmphasis ps t := by
  rw [Option.map_eq_some_iff] at h
  obtain ⟨ms, h1, rfl⟩ := h
  exact ⟨ms, findMatches_sound _ h1, rfl⟩

/-- Runs of different lengths: `***a** b* **c* _d`. -/
def unequalPieces : List Piece :=
  [.opens '*' 2, .char 'a', .closes '*' 1, .char ' ', .char 'b', .closes '*' 0, .char ' ', .opens '*' 1, .char 'c', .closes '*' 0, .char ' ', .opens '_' 0, .char 'd',
    .both '*' 0, .char 'e', .closes '*' 0]

example : text unequalPieces = "***a** b* **c* _d*e*".toList ∧ Placed asciiEnv.isPCat unequalPieces ∧ OneWay unequalPieces ∧ WithoutEmphasis unequalPieces "a b *c _de".toList := by
  refine ⟨by decide +kernel, ?_, ?_, withoutEmphasis_of (by decide +kernel)⟩
  · exact placed_of_safe (raws := []) (by simp) (by decide +kernel)
  · intro c n h
    simp [unequalPieces] at h
    simp [h]

example : removeEmphasis asciiEnv "***a** b* **c* _d*e*".toList .github = .ok "a b *c _de".toList := by decide +kernel

/-! ### Violations -/

/-- The pieces of `__a (_) b__`. -/
def bottomPieces : List Piece := [.opens '_' 1, .char 'a', .char ' ', .char '(', .both '_' 0, .char ')', .char ' ', .char 'b', .closes '_' 1]

/-- A run of underscores which can both open and close emphasis hides the opening runs before it (the code keeps one lower bound for all closing runs
of underscores): strong emphasis is not removed although CommonMark removes it. -/
theorem C72_violation_bottom : text bottomPieces = "__a (_) b__".toList ∧ Placed asciiEnv.isPCat bottomPieces ∧ WithoutEmphasis bottomPieces "a (_) b".toList ∧
    removeEmphasis asciiEnv "__a (_) b__".toList .github = .ok "__a (_) b__".toList := by
  refine ⟨by decide +kernel, ?_, withoutEmphasis_of (by decide +kernel), by decide +kernel⟩
  exact placed_of_safe (raws := []) (by simp) (by decide +kernel)

/-- The pieces of `*a***b**`. -/
def bothPieces : List Piece := [.opens '*' 0, .char 'a', .both '*' 2, .char 'b', .closes '*' 1]

/-- A run which is used on both sides loses too few characters. -/
theorem C72_violation_both : text bothPieces = "*a***b**".toList ∧ Placed asciiEnv.isPCat bothPieces ∧ OneWayUnderscores bothPieces ∧ WithoutEmphasis bothPieces "ab".toList ∧
    removeEmphasis asciiEnv "*a***b**".toList .github = .ok "a*b".toList := by
  refine ⟨by decide +kernel, ?_, ?_, withoutEmphasis_of (by decide +kernel), by decide +kernel⟩
  · exact placed_of_safe (raws := []) (by simp) (by decide +kernel)
  · intro n
    simp [bothPieces]

end MdToc.Props
