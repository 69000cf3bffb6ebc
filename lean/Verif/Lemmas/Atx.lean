import Verif.Lemmas.Newlines
import Verif.Spec.Atx

/-!
# Headings: the index loops in closed form
-/

set_option linter.unusedSimpArgs false

namespace MdToc

open MdToc.Spec

theorem isSpaceCh_eq (p : Parser) (hp : p.cmarkLike = true) : p.isSpaceCh = atxSpace p := by
  funext c; cases p <;> simp [Parser.isSpaceCh, atxSpace, Parser.gfm]

theorem isSpaceCh_hash (p : Parser) : p.isSpaceCh '#' = false := by cases p <;> decide

theorem isSpaceCh_imp {p : Parser} {c : Char} (h : p.isSpaceCh c = true) : c = ' ' ∨ c = '\t' := by
  unfold Parser.isSpaceCh at h
  split at h <;> simp at h
  · exact .inl h
  · exact h

/-! ### Scans -/

theorem scanUnguarded_eq {q : Char → Bool} {a b : Str} {c : Char} (ha : ∀ x ∈ a, q x = true)
    (hc : q c = false) (i : Nat) : scanUnguarded q (a ++ c :: b) i = .ok (i + a.length) := by
  induction a generalizing i with
  | nil => simp [scanUnguarded, hc]
  | cons x a ih =>
    rw [List.cons_append, scanUnguarded, if_pos (ha x (by simp)), ih (fun y hy => ha y (by simp [hy]))]
    simp; omega

theorem crlfScan_eq {s : Str} (h : ∀ c ∈ s, ¬ IsNewline c) (i m : Nat) : crlfScan s i m = m := by
  induction s generalizing i with
  | nil => rfl
  | cons c t ih =>
    have hc : ¬ (c = '\n' ∨ c = '\r') := h c (by simp)
    rw [crlfScan, if_neg hc, ih (fun x hx => h x (by simp [hx]))]

/-! ### The closing sequence -/

theorem span_split (q : Char → Bool) (s : Str) :
    ∃ a b, s = a ++ b ∧ (∀ x ∈ a, q x = true) ∧ (∀ x ∈ b.head?, q x = false) := by
  obtain ⟨a, h1, h2, h3⟩ := lstrip_eq q s
  exact ⟨a, _, h1, h2, h3⟩

theorem drop_length_append (a b : Str) : (a ++ b).drop a.length = b := by simp

section loop
variable {sp : Char → Bool} {rev : Str} {L cs : Nat}

theorem closing_done {i : Nat} (h : L - cs ≤ i) (f r hrs ce : Nat) :
    closingLoop sp rev L cs (f + 1) i r hrs ce = .ok ce := by
  rw [closingLoop, if_neg (by omega)]

theorem closing_stop {pre Q tail : Str} {c : Char} (hrev : rev = pre ++ c :: Q ++ tail) (hi : pre.length < L - cs)
    {r : Nat} (hs : (sp c = false ∧ c ≠ '#') ∨ r > 1) (f hrs ce : Nat) :
    closingLoop sp rev L cs (f + 1) pre.length r hrs ce =
      if pre.length > hrs ∧ r > 0 then .ok (L - hrs) else .ok (L - pre.length) := by
  have hd : rev.drop pre.length = c :: (Q ++ tail) := by rw [hrev]; simp
  rw [closingLoop, if_pos hi, hd]
  have : (!(sp c || c == '#') || decide (r > 1)) = true := by
    rcases hs with ⟨h1, h2⟩ | h <;> simp [*]
  simp only [this, if_true]
  by_cases h : pre.length > hrs ∧ r > 0
  · simp [h]
  · rw [if_neg h, if_neg (by simpa using h)]

theorem closing_step (hsp : sp '#' = false) {pre s h Q : Str} {x : Char} {tail : Str}
    (hrev : rev = pre ++ (s ++ h ++ Q) ++ x :: tail) (hlen : L - cs = (pre ++ (s ++ h ++ Q)).length)
    (hx : sp x = true) (hne : s ++ h ≠ []) (hlast : ∀ c ∈ (s ++ h ++ Q).getLast?, sp c = false)
    (hs : ∀ c ∈ s, sp c = true) (hh : ∀ c ∈ h, c = '#')
    (hQ : ∀ c ∈ Q.head?, c ≠ '#') (hhQ : h = [] → ∀ c ∈ Q.head?, sp c = false) {r : Nat} (hr : r ≤ 1) (f hrs ce : Nat) :
    closingLoop sp rev L cs (f + 1) pre.length r hrs ce =
      closingLoop sp rev L cs f (pre ++ (s ++ h)).length (if h = [] then r else r + 1) (pre ++ s).length ce := by
  -- after the white space there is something else
  have hx' : x ≠ '#' := by rintro rfl; rw [hsp] at hx; simp at hx
  obtain ⟨y, r1, hy1, hy2⟩ : ∃ y r1, h ++ Q ++ x :: tail = y :: r1 ∧ sp y = false := by
    cases h with
    | cons y h => exact ⟨y, _, rfl, by rw [hh y (by simp)]; exact hsp⟩
    | nil =>
      cases Q with
      | cons y Q => exact ⟨y, _, rfl, hhQ rfl y (by simp)⟩
      | nil =>
        exfalso
        simp only [List.append_nil] at hlast hne
        rcases List.eq_nil_or_concat s with rfl | ⟨s', y, rfl⟩
        · simp at hne
        · have h1 := hlast y (by simp)
          have h2 := hs y (by simp)
          rw [h2] at h1; simp at h1
  obtain ⟨z, r2, hz1, hz2⟩ : ∃ z r2, Q ++ x :: tail = z :: r2 ∧ (z == '#') = false := by
    cases Q with
    | cons z Q => exact ⟨z, _, rfl, by simpa using hQ z (by simp)⟩
    | nil => exact ⟨x, tail, rfl, by simpa using hx'⟩
  have e1 : rev.drop pre.length = s ++ (h ++ Q ++ x :: tail) := by rw [hrev]; simp
  have e2 : rev.drop (pre.length + s.length) = h ++ (Q ++ x :: tail) := by
    rw [← List.drop_drop, e1]; simp
  rw [closingLoop, if_pos (by
    rw [hlen]
    have : (s ++ h).length ≠ 0 := fun h0 => hne (List.eq_nil_of_length_eq_zero h0)
    simp only [List.length_append] at this ⊢
    omega)]
  obtain ⟨c, r3, hc⟩ : ∃ c r3, rev.drop pre.length = c :: r3 ∧ (sp c = true ∨ c = '#') := by
    rw [e1]
    cases s with
    | cons c s => exact ⟨c, _, rfl, .inl (hs c (by simp))⟩
    | nil =>
      cases h with
      | cons c h => exact ⟨c, _, rfl, .inr (hh c (by simp))⟩
      | nil => simp at hne
  obtain ⟨hc1, hc2⟩ := hc
  have hcond : (!(sp c || c == '#') || decide (r > 1)) = false := by
    have : ¬ r > 1 := by omega
    rcases hc2 with h | h <;> simp [h, this]
  rw [hc1]
  simp only [hcond, Bool.false_eq_true, if_false]
  rw [← hc1, e1, hy1, scanUnguarded_eq hs hy2]
  simp only [bind, Except.bind]
  rw [e2, hz1, scanUnguarded_eq (q := (· == '#')) (by simpa using hh) hz2]
  simp only [List.length_append]
  by_cases h0 : h = []
  · subst h0; simp
  · have : h.length > 0 := List.length_pos_iff.mpr h0
    rw [if_pos (by omega), if_neg h0]
    simp [Nat.add_assoc]

end loop

/-- The decomposition of the reversed text and the result. -/
inductive Close (sp : Char → Bool) : Str → Str → Prop
  | empty : Close sp [] []
  | oneRun {s0 h0} : (∀ c ∈ s0, sp c = true) → (∀ c ∈ h0, c = '#') → h0 ≠ [] → Close sp (s0 ++ h0) []
  | plain {s0 c Q} : (∀ c ∈ s0, sp c = true) → sp c = false → c ≠ '#' → Close sp (s0 ++ c :: Q) (c :: Q)
  | glued {s0 h0 c Q} : (∀ c ∈ s0, sp c = true) → (∀ c ∈ h0, c = '#') → h0 ≠ [] → sp c = false → c ≠ '#' →
      Close sp (s0 ++ h0 ++ c :: Q) (h0 ++ c :: Q)
  | twoRuns {s0 h0 s1 h1} : (∀ c ∈ s0, sp c = true) → (∀ c ∈ h0, c = '#') → h0 ≠ [] →
      (∀ c ∈ s1, sp c = true) → s1 ≠ [] → (∀ c ∈ h1, c = '#') → h1 ≠ [] → Close sp (s0 ++ h0 ++ s1 ++ h1) []
  | closed {s0 h0 s1 h1 c Q} : (∀ c ∈ s0, sp c = true) → (∀ c ∈ h0, c = '#') → h0 ≠ [] →
      (∀ c ∈ s1, sp c = true) → s1 ≠ [] → (∀ c ∈ h1, c = '#') → c ≠ '#' → (h1 = [] → sp c = false) →
      Close sp (s0 ++ h0 ++ s1 ++ (h1 ++ c :: Q)) (h1 ++ c :: Q)

theorem close_exists {sp : Char → Bool} {R : Str} (hl : ∀ c ∈ R.getLast?, sp c = false) :
    ∃ out, Close sp R out := by
  obtain ⟨s0, R1, rfl, hs0, hR1⟩ := span_split sp R
  obtain ⟨h0, Q1, rfl, hh0, hQ1⟩ := span_split (· == '#') R1
  replace hh0 : ∀ c ∈ h0, c = '#' := by simpa using hh0
  replace hQ1 : ∀ c ∈ Q1.head?, c ≠ '#' := by simpa using hQ1
  by_cases hne0 : h0 = []
  · subst hne0
    cases Q1 with
    | nil =>
      rcases List.eq_nil_or_concat s0 with rfl | ⟨s', y, rfl⟩
      · exact ⟨_, .empty⟩
      · have h1 := hl y (by simp)
        have h2 := hs0 y (by simp)
        rw [h2] at h1; simp at h1
    | cons c Q => exact ⟨_, .plain hs0 (hR1 c (by simp)) (hQ1 c (by simp))⟩
  · cases Q1 with
    | nil => simp only [List.append_nil]; exact ⟨_, .oneRun hs0 hh0 hne0⟩
    | cons c Q =>
      by_cases hc : sp c = true
      · obtain ⟨s1, R2, e1, hs1, hR2⟩ := span_split sp (c :: Q)
        have hs1' : s1 ≠ [] := by
          rintro rfl
          simp only [List.nil_append] at e1
          rw [← e1] at hR2
          have := hR2 c (by simp)
          rw [hc] at this; simp at this
        obtain ⟨h1, Q2, rfl, hh1, hQ2⟩ := span_split (· == '#') R2
        replace hh1 : ∀ c ∈ h1, c = '#' := by simpa using hh1
        replace hQ2 : ∀ c ∈ Q2.head?, c ≠ '#' := by simpa using hQ2
        rw [e1]
        cases Q2 with
        | nil =>
          by_cases hne1 : h1 = []
          · subst hne1
            exfalso
            rw [e1] at hl
            rcases List.eq_nil_or_concat s1 with rfl | ⟨s', y, rfl⟩
            · simp at hs1'
            · have h1 := hl y (by simp [List.getLast?_append])
              have h2 := hs1 y (by simp)
              rw [h2] at h1; simp at h1
          · have := Close.twoRuns hs0 hh0 hne0 hs1 hs1' hh1 hne1
            exact ⟨_, by simpa using this⟩
        | cons d Q =>
          have := Close.closed (Q := Q) hs0 hh0 hne0 hs1 hs1' hh1 (hQ2 d (by simp)) (by
            rintro rfl; exact hR2 d (by simp))
          exact ⟨_, by simpa using this⟩
      · exact ⟨_, by simpa using Close.glued (Q := Q) hs0 hh0 hne0 (by simpa using hc) (hQ1 c (by simp))⟩

/-- The loop in closed form. -/
theorem closingLoop_eq {sp : Char → Bool} (hsp : sp '#' = false) {R out : Str} (h : Close sp R out)
    (hl : ∀ c ∈ R.getLast?, sp c = false) {L cs : Nat} (hL : L = R.length + cs) {x : Char} {tail : Str}
    (hx : sp x = true) {f : Nat} (hf : R.length ≤ f) :
    ∃ ce, closingLoop sp (R ++ x :: tail) L cs (f + 1) 0 0 0 0 = .ok ce ∧
      ((ce = 0 ∧ out = []) ∨ (ce = cs + out.length ∧ out ≠ [] ∧ out <:+ R)) := by
  have hLc : L - cs = R.length := by omega
  cases h with
  | empty => exact ⟨0, closing_done (by simpa using hLc) _ _ _ _, .inl ⟨rfl, rfl⟩⟩
  | @oneRun s0 h0 a1 a2 a3 =>
    refine ⟨0, ?_, .inl ⟨rfl, rfl⟩⟩
    have := closing_step (L := L) (cs := cs) (rev := s0 ++ h0 ++ x :: tail) hsp (pre := []) (s := s0) (h := h0) (Q := [])
      (x := x) (tail := tail) (by simp) (by simpa using hLc) hx (by simp [a3]) (by simpa using hl) a1 a2 (by simp) (by simp) (r := 0) (by omega) f 0 0
    simp only [List.length_nil] at this
    rw [this]
    have : 0 < h0.length := List.length_pos_iff.mpr a3
    obtain ⟨f, rfl⟩ : ∃ f', f = f' + 1 := ⟨f - 1, by simp at hf; omega⟩
    exact closing_done (by rw [hLc]; simp) _ _ _ _
  | @plain s0 c Q a1 a2 a3 =>
    refine ⟨cs + (c :: Q).length, ?_, .inr ⟨rfl, by simp, by simp⟩⟩
    by_cases hs : s0 = []
    · subst hs
      have := closing_stop (sp := sp) (L := L) (cs := cs) (rev := c :: Q ++ x :: tail) (pre := []) (Q := Q) (c := c)
        (tail := x :: tail) (by simp) (by rw [hLc]; simp) (r := 0) (.inl ⟨a2, a3⟩) f 0 0
      simp only [List.length_nil, List.nil_append] at this ⊢
      rw [this]
      simp [hL]; omega
    · have := closing_step (L := L) (cs := cs) (rev := s0 ++ c :: Q ++ x :: tail) hsp (pre := []) (s := s0) (h := [])
        (Q := c :: Q) (x := x) (tail := tail) (by simp) (by simpa using hLc) hx (by simpa using hs) (by simpa using hl)
        a1 (by simp) (by simpa using a3) (by simpa using a2) (r := 0) (by omega) f 0 0
      simp only [List.length_nil, List.nil_append, List.append_nil, if_true] at this
      rw [this]
      obtain ⟨f, rfl⟩ : ∃ f', f = f' + 1 := ⟨f - 1, by simp at hf; omega⟩
      rw [closing_stop (pre := s0) (Q := Q) (c := c) (tail := x :: tail) rfl (by rw [hLc]; simp) (.inl ⟨a2, a3⟩)]
      simp [hL]; omega
  | @glued s0 h0 c Q a1 a2 a3 a4 a5 =>
    refine ⟨cs + (h0 ++ c :: Q).length, ?_, .inr ⟨rfl, by simp, ⟨s0, by simp⟩⟩⟩
    have := closing_step (L := L) (cs := cs) (rev := s0 ++ h0 ++ c :: Q ++ x :: tail) hsp (pre := []) (s := s0) (h := h0)
      (Q := c :: Q) (x := x) (tail := tail) (by simp) (by simpa using hLc) hx (by simp [a3]) (by simpa using hl)
      a1 a2 (by simpa using a5) (by simp [a3]) (r := 0) (by omega) f 0 0
    simp only [List.length_nil, List.nil_append, if_neg a3] at this
    rw [this]
    obtain ⟨f, rfl⟩ : ∃ f', f = f' + 1 := ⟨f - 1, by simp at hf; omega⟩
    have hp : 0 < h0.length := List.length_pos_iff.mpr a3
    rw [closing_stop (pre := s0 ++ h0) (Q := Q) (c := c) (tail := x :: tail) (by simp) (by rw [hLc]; simp) (.inl ⟨a4, a5⟩),
      if_pos (by simp; omega)]
    simp [hL]; omega
  | @twoRuns s0 h0 s1 h1 a1 a2 a3 a4 a5 a6 a7 =>
    refine ⟨0, ?_, .inl ⟨rfl, rfl⟩⟩
    have hp : 0 < h0.length := List.length_pos_iff.mpr a3
    have hp1 : 0 < s1.length := List.length_pos_iff.mpr a5
    have hp2 : 0 < h1.length := List.length_pos_iff.mpr a7
    have hhd : ∀ c ∈ (s1 ++ h1).head?, c ≠ '#' := by
      intro c hc
      cases s1 with
      | nil => simp at a5
      | cons y s1 =>
        simp at hc; subst hc
        rintro rfl
        have := a4 '#' (by simp)
        rw [hsp] at this; simp at this
    have := closing_step (L := L) (cs := cs) (rev := s0 ++ h0 ++ s1 ++ h1 ++ x :: tail) hsp (pre := []) (s := s0) (h := h0)
      (Q := s1 ++ h1) (x := x) (tail := tail) (by simp) (by simpa using hLc) hx (by simp [a3]) (by simpa using hl)
      a1 a2 hhd (by simp [a3]) (r := 0) (by omega) f 0 0
    simp only [List.length_nil, List.nil_append, if_neg a3] at this
    rw [this]
    obtain ⟨f, rfl⟩ : ∃ f', f = f' + 1 := ⟨f - 1, by simp at hf; omega⟩
    have := closing_step (L := L) (cs := cs) (rev := s0 ++ h0 ++ s1 ++ h1 ++ x :: tail) hsp (pre := s0 ++ h0) (s := s1) (h := h1)
      (Q := []) (x := x) (tail := tail) (by simp) (by simpa using hLc) hx (by simp [a7]) (by
        simp only [List.append_nil, List.getLast?_append] at hl ⊢
        intro c hc
        apply hl
        simp only [Option.mem_def, Option.or_eq_some_iff] at hc ⊢
        tauto)
      a4 a6 (by simp) (by simp) (r := 1) (by omega) f s0.length 0
    simp only [Nat.zero_add]
    rw [this]
    obtain ⟨f, rfl⟩ : ∃ f', f = f' + 1 := ⟨f - 1, by simp at hf; omega⟩
    exact closing_done (by rw [hLc]; simp) _ _ _ _
  | @closed s0 h0 s1 h1 c Q a1 a2 a3 a4 a5 a6 a7 a8 =>
    refine ⟨cs + (h1 ++ c :: Q).length, ?_, .inr ⟨rfl, by simp, ⟨s0 ++ h0 ++ s1, by simp⟩⟩⟩
    have hp : 0 < h0.length := List.length_pos_iff.mpr a3
    have hp1 : 0 < s1.length := List.length_pos_iff.mpr a5
    have hhd : ∀ y ∈ (s1 ++ (h1 ++ c :: Q)).head?, y ≠ '#' := by
      intro c hc
      cases s1 with
      | nil => simp at a5
      | cons y s1 =>
        simp at hc; subst hc
        rintro rfl
        have := a4 '#' (by simp)
        rw [hsp] at this; simp at this
    have := closing_step (L := L) (cs := cs) (rev := s0 ++ h0 ++ s1 ++ (h1 ++ c :: Q) ++ x :: tail) hsp (pre := [])
      (s := s0) (h := h0) (Q := s1 ++ (h1 ++ c :: Q)) (x := x) (tail := tail) (by simp) (by simpa using hLc) hx
      (by simp [a3]) (by simpa using hl) a1 a2 hhd (by simp [a3]) (r := 0) (by omega) f 0 0
    simp only [List.length_nil, List.nil_append, if_neg a3] at this
    rw [this]
    obtain ⟨f, rfl⟩ : ∃ f', f = f' + 1 := ⟨f - 1, by simp at hf; omega⟩
    have := closing_step (L := L) (cs := cs) (rev := s0 ++ h0 ++ s1 ++ (h1 ++ c :: Q) ++ x :: tail) hsp (pre := s0 ++ h0)
      (s := s1) (h := h1) (Q := c :: Q) (x := x) (tail := tail) (by simp) (by simpa using hLc) hx (by simp [a5]) (by
        intro y hy
        apply hl
        simp only [Option.mem_def, List.getLast?_append, List.getLast?_cons] at hy ⊢
        simpa using hy)
      a4 a6 (by simpa using a7) (by simpa using a8) (r := 1) (by omega) f s0.length 0
    simp only [Nat.zero_add]
    rw [this]
    obtain ⟨f, rfl⟩ : ∃ f', f = f' + 1 := ⟨f - 1, by simp at hf; omega⟩
    have hpre : s0 ++ h0 ++ (s1 ++ h1) = s0 ++ h0 ++ s1 ++ h1 := by simp
    rw [hpre]
    by_cases hh : h1 = []
    · rw [if_pos hh, closing_stop (pre := s0 ++ h0 ++ s1 ++ h1) (Q := Q) (c := c) (tail := x :: tail) (by simp) (by rw [hLc]; simp)
        (.inl ⟨a8 hh, a7⟩)]
      subst hh
      rw [if_neg (by simp)]
      simp [hL]; omega
    · have hp2 : 0 < h1.length := List.length_pos_iff.mpr hh
      rw [if_neg hh, closing_stop (pre := s0 ++ h0 ++ s1 ++ h1) (Q := Q) (c := c) (tail := x :: tail) (by simp)
        (by rw [hLc]; simp) (.inr (by omega)), if_pos (by simp; omega)]
      simp [hL]; omega

/-! ### The text of a heading -/

theorem span_unique {q : Char → Bool} {a b a' b' : Str} (h : a ++ b = a' ++ b') (ha : ∀ x ∈ a, q x = true)
    (ha' : ∀ x ∈ a', q x = true) (hb : ∀ x ∈ b.head?, q x = false) (hb' : ∀ x ∈ b'.head?, q x = false) :
    a = a' ∧ b = b' := by
  have h1 := lstrip_unique ha hb
  have h2 := lstrip_unique ha' hb'
  rw [h, h2] at h1
  subst h1
  exact ⟨by simpa using h, rfl⟩

/-- The closing sequence found in the reversed text. -/
theorem ClosedBy.rev {sp : Char → Bool} {rest a : Str} (hsp : sp '#' = false) (h : ClosedBy sp rest a) :
    ∃ b h' y t, rest.reverse = b ++ (h' ++ y :: t) ∧ h' ≠ [] ∧ (∀ x ∈ h', x = '#') ∧ (∀ x ∈ b, sp x = true) ∧
      sp y = true ∧ y ≠ '#' ∧ a.reverse = y :: t := by
  obtain ⟨h0, b, e, h1, h2, h3, y, hy, hy'⟩ := h
  obtain ⟨a', rfl⟩ := List.getLast?_eq_some_iff.mp hy
  refine ⟨b.reverse, h0.reverse, y, a'.reverse, by rw [e]; simp, by simpa using h1, by simpa using h2, by simpa using h3, hy',
    ?_, by simp⟩
  rintro rfl
  rw [hsp] at hy'; simp at hy'

theorem close_rawContent {sp : Char → Bool} (hsp : sp '#' = false) {l r out : Str} (hl : ∀ x ∈ l, sp x = true) (hne : r ≠ [] → l ≠ [])
    (hr : ∀ x ∈ r.head?, sp x = false) (h : Close sp r.reverse out) :
    RawContent sp (l ++ r) out.reverse ∨ (TwoRuns sp (l ++ r) ∧ out = []) := by
  have hrl : ∀ x ∈ r.reverse.getLast?, sp x = false := by simpa using hr
  have hrne : r.reverse ≠ [] → l ≠ [] := by simpa using hne
  have hlast : l ≠ [] → ∃ x ∈ l.getLast?, sp x = true := by
    intro h
    rcases List.eq_nil_or_concat l with rfl | ⟨l', y, rfl⟩
    · simp at h
    · exact ⟨y, by simp, hl y (by simp)⟩
  have er : r = r.reverse.reverse := by simp
  generalize r.reverse = R at h hrl er hrne
  subst er
  clear hne hr
  cases h with
  | empty =>
    left; right
    refine ⟨?_, ?_⟩
    · rintro ⟨a, h, b, e, h1, h2, h3, -⟩
      cases h with
      | nil => simp at h1
      | cons y h =>
        have := hl y (by simp at e; rw [e]; simp)
        rw [h2 y (by simp), hsp] at this; simp at this
    · exact ⟨l, [], by simp, hl, by simp, by simp, by simp⟩
  | @oneRun s0 h0 a1 a2 a3 =>
    left; left
    refine ⟨l, ⟨h0.reverse, s0.reverse, by simp, by simpa using a3, by simpa using a2, by simpa using a1, ?_⟩, l, [], by simp, hl,
      by simp, by simp, by simp⟩
    exact hlast (hrne (by simp [a3]))
  | @plain s0 c Q a1 a2 a3 =>
    left; right
    refine ⟨?_, ?_⟩
    · rintro ⟨a, ha⟩
      obtain ⟨b, h', y, t, e, h1, h2, h3, h4, h5, -⟩ := ClosedBy.rev hsp ha
      simp only [List.reverse_append, List.reverse_reverse, List.append_assoc] at e
      have := (span_unique e a1 h3 (by simpa using a2) (by
        cases h' with
        | nil => simp at h1
        | cons z h' => simp; rw [h2 z (by simp)]; exact hsp)).2
      cases h' with
      | nil => simp at h1
      | cons z h' =>
        simp at this
        exact a3 (by rw [this.1]; exact h2 z (by simp))
    · refine ⟨l, s0.reverse, by simp, hl, by simpa using a1, ?_, by simpa using a2⟩
      have : (s0 ++ c :: Q).getLast? = (c :: Q).getLast? := by simp [List.getLast?_append, List.getLast?_cons]
      rw [this] at hrl
      rw [List.head?_reverse]; exact hrl
  | @glued s0 h0 c Q a1 a2 a3 a4 a5 =>
    left; right
    refine ⟨?_, ?_⟩
    · rintro ⟨a, ha⟩
      obtain ⟨b, h', y, t, e, h1, h2, h3, h4, h5, -⟩ := ClosedBy.rev hsp ha
      simp only [List.reverse_append, List.reverse_reverse, List.append_assoc] at e
      have e2 := (span_unique e a1 h3 (by
        cases h0 with
        | nil => simp at a3
        | cons z h' => simp; rw [a2 z (by simp)]; exact hsp) (by
        cases h' with
        | nil => simp at h1
        | cons z h' => simp; rw [h2 z (by simp)]; exact hsp)).2
      have e3 := (span_unique (q := (· == '#')) e2 (by simpa using a2) (by simpa using h2) (by simpa using a5) (by simpa using h5)).2
      simp at e3
      rw [e3.1, h4] at a4; simp at a4
    · refine ⟨l, s0.reverse, by simp, hl, by simpa using a1, ?_, ?_⟩
      · have : (s0 ++ h0 ++ c :: Q).getLast? = (h0 ++ c :: Q).getLast? := by simp [List.getLast?_append, List.getLast?_cons]
        rw [this] at hrl
        rw [List.head?_reverse]; exact hrl
      · rw [List.getLast?_reverse]
        cases h0 with
        | nil => simp at a3
        | cons z h' => simp; rw [a2 z (by simp)]; exact hsp
  | @twoRuns s0 h0 s1 h1 a1 a2 a3 a4 a5 a6 a7 =>
    right
    refine ⟨⟨l, h1.reverse, s1.reverse, h0.reverse, s0.reverse, by simp, by simpa using a7, by simpa using a5, by simpa using a3, ?_, ?_⟩, rfl⟩
    · intro x hx
      rcases List.mem_append.mp hx with hx | hx
      · exact a6 x (by simpa using hx)
      · exact a2 x (by simpa using hx)
    · intro x hx
      rcases List.mem_append.mp hx with hx | hx
      · rcases List.mem_append.mp hx with hx | hx
        · exact hl x hx
        · exact a4 x (by simpa using hx)
      · exact a1 x (by simpa using hx)
  | @closed s0 h0 s1 h1 c Q a1 a2 a3 a4 a5 a6 a7 a8 =>
    left; left
    have hlne : l ≠ [] := hrne (by simp)
    refine ⟨l ++ (h1 ++ c :: Q).reverse ++ s1.reverse, ⟨h0.reverse, s0.reverse, by simp, by simpa using a3, by simpa using a2,
      by simpa using a1, ?_⟩, l, s1.reverse, by simp, hl, by simpa using a4, ?_, ?_⟩
    · cases s1 with
      | nil => simp at a5
      | cons z s1 =>
        refine ⟨z, ?_, a4 z (by simp)⟩
        rw [List.reverse_cons, ← List.append_assoc, Option.mem_def, List.getLast?_concat]
    · have : (s0 ++ h0 ++ s1 ++ (h1 ++ c :: Q)).getLast? = (h1 ++ c :: Q).getLast? := by
        simp [List.getLast?_append, List.getLast?_cons]
      rw [this] at hrl
      rw [List.head?_reverse]; exact hrl
    · rw [List.getLast?_reverse]
      cases h1 with
      | nil => simpa using a8 rfl
      | cons z h' => simp; rw [a6 z (by simp)]; exact hsp

/-- Two runs of `#` give an empty text. -/
theorem close_twoRuns {sp : Char → Bool} (hsp : sp '#' = false) {l r out : Str} (hl : ∀ x ∈ l, sp x = true)
    (hr : ∀ x ∈ r.head?, sp x = false) (ht : TwoRuns sp (l ++ r)) (h : Close sp r.reverse out) : out = [] := by
  obtain ⟨s0, h0, s1, h1, s2, e, n0, n1, n2, hh, hs⟩ := ht
  have hash : ∀ {g u : Str}, g ≠ [] → (∀ x ∈ g, x = '#') → ∀ x ∈ (g ++ u).head?, sp x = false := by
    intro g u a b x hx
    cases g with
    | nil => simp at a
    | cons z g => simp at hx; subst hx; rw [b z (by simp)]; exact hsp
  have space : ∀ {g u : Str}, g ≠ [] → (∀ x ∈ g, sp x = true) → ∀ x ∈ (g ++ u).head?, (x == '#') = false := by
    intro g u a b x hx
    cases g with
    | nil => simp at a
    | cons z g =>
      simp at hx; subst hx
      have := b z (by simp)
      by_contra hz
      simp at hz
      rw [hz, hsp] at this; simp at this
  have e1 : r = h0 ++ s1 ++ h1 ++ s2 := by
    have e' : l ++ r = s0 ++ (h0 ++ (s1 ++ h1 ++ s2)) := by rw [e]; simp
    have := (span_unique e' hl (fun x hx => hs x (by simp [hx])) hr (hash n0 (fun x hx => hh x (by simp [hx])))).2
    rw [this]; simp
  have hR : r.reverse = s2.reverse ++ (h1.reverse ++ (s1.reverse ++ h0.reverse)) := by rw [e1]; simp
  generalize r.reverse = R at hR h
  have q2 : ∀ x ∈ s2.reverse, sp x = true := fun x hx => hs x (by simp at hx; simp [hx])
  have q1 : ∀ x ∈ s1.reverse, sp x = true := fun x hx => hs x (by simp at hx; simp [hx])
  have g1 : ∀ x ∈ h1.reverse, x = '#' := fun x hx => hh x (by simp at hx; simp [hx])
  have g0 : ∀ x ∈ h0.reverse, x = '#' := fun x hx => hh x (by simp at hx; simp [hx])
  have m1 : h1.reverse ≠ [] := by simpa using n2
  have m0 : h0.reverse ≠ [] := by simpa using n0
  have m2 : s1.reverse ≠ [] := by simpa using n1
  have beq : ∀ {g : Str}, (∀ x ∈ g, x = '#') → ∀ x ∈ g, (x == '#') = true := by
    intro g hg x hx; simp [hg x hx]
  cases h with
  | empty => rfl
  | oneRun => rfl
  | twoRuns => rfl
  | @plain s c Q a1 a2 a3 =>
    have := (span_unique hR a1 q2 (by simpa using a2) (hash m1 g1)).2
    cases h' : h1.reverse with
    | nil => exact absurd h' m1
    | cons z t =>
      rw [h'] at this
      simp at this
      exact absurd (g1 c (by rw [h', this.1]; simp)) a3
  | @glued s h c Q a1 a2 a3 a4 a5 =>
    rw [List.append_assoc] at hR
    have e2 := (span_unique hR a1 q2 (hash a3 a2) (hash m1 g1)).2
    have e3 := (span_unique (q := (· == '#')) e2 (beq a2) (beq g1) (by simpa using a5) (space m2 q1)).2
    cases h' : s1.reverse with
    | nil => exact absurd h' m2
    | cons z t =>
      rw [h'] at e3
      simp at e3
      have := q1 c (by rw [h', e3.1]; simp)
      rw [a4] at this; simp at this
  | @closed s h s' h' c Q a1 a2 a3 a4 a5 a6 a7 a8 =>
    rw [List.append_assoc, List.append_assoc] at hR
    have e2 := (span_unique hR a1 q2 (hash a3 a2) (hash m1 g1)).2
    have e3 := (span_unique (q := (· == '#')) e2 (beq a2) (beq g1) (space a5 a4) (space m2 q1)).2
    have hd : ∀ x ∈ (h' ++ c :: Q).head?, sp x = false := by
      by_cases hn : h' = []
      · subst hn; simpa using a8 rfl
      · exact hash hn a6
    have hd0 : ∀ x ∈ h0.reverse.head?, sp x = false := by simpa using hash (u := []) m0 g0
    have e4 := (span_unique e3 a4 q1 hd hd0).2
    exfalso
    exact a7 (g0 c (by rw [← e4]; simp))

theorem slice_eq (a b c : Str) : slice (a ++ b ++ c) a.length (a.length + b.length) = b := by
  unfold slice
  rw [List.take_append_of_le_length (by simp), ← List.length_append, List.take_length]
  simp

/-- The text of a heading in terms of what follows the opening sequence. -/
theorem atxContent_eq {p : Parser} {P rest : Str} (hrest : ∀ c ∈ rest.head?, p.isSpaceCh c = true)
    (hnl : ∀ c ∈ P ++ rest, ¬ IsNewline c) :
    ∃ c, atxContent p (P ++ rest) (scanWhile (fun _ c => p.isSpaceCh c) ((P ++ rest).drop (P.length + 1)) (P.length + 1)) = .ok c ∧
      HeadingText p.isSpaceCh rest c := by
  have hsp := isSpaceCh_hash p
  have hscan : ∀ n, crlfScan ((P ++ rest).reverse.take n) 0 0 = 0 := by
    intro n
    apply crlfScan_eq
    intro c hc
    exact hnl c (List.mem_reverse.mp (List.mem_of_mem_take hc))
  cases rest with
  | nil =>
    refine ⟨[], ?_, fun _ => rfl, fun _ => .inr ⟨?_, [], [], by simp, by simp, by simp, by simp, by simp⟩⟩
    · simp only [List.append_nil] at hscan ⊢
      have : P.drop (P.length + 1) = [] := by simp
      rw [this]
      simp only [scanWhile, atxContent, bind, Except.bind, hscan]
      rw [closing_done (by omega)]
      simp [slice]
    · rintro ⟨a, h, b, e, h1, -⟩
      simp at e
      exact h1 e.2.1
  | cons x t =>
    have hx := hrest x (by simp)
    obtain ⟨s, r, rfl, hs, hr⟩ := span_split p.isSpaceCh t
    have hdrop : (P ++ x :: (s ++ r)).drop (P.length + 1) = s ++ r := by
      rw [← List.drop_drop]; simp
    have htw : ((s ++ r).takeWhile p.isSpaceCh).length = s.length := by
      rw [List.takeWhile_append_of_pos hs]
      cases r with
      | nil => simp
      | cons c r => simp [hr c (by simp)]
    rw [hdrop, scanWhile_const, htw]
    have hl : ∀ c ∈ x :: s, p.isSpaceCh c = true := by
      intro c hc
      rcases List.mem_cons.mp hc with rfl | hc
      · exact hx
      · exact hs c hc
    obtain ⟨s', y, hsy⟩ : ∃ s' y, x :: s = s' ++ [y] := by
      rcases List.eq_nil_or_concat (x :: s) with h | ⟨s', y, h⟩
      · simp at h
      · exact ⟨s', y, by simpa using h⟩
    have hy : p.isSpaceCh y = true := hl y (by rw [hsy]; simp)
    have hlast : ∀ c ∈ r.reverse.getLast?, p.isSpaceCh c = false := by simpa using hr
    obtain ⟨out, hc⟩ := close_exists hlast
    have hsplit : P ++ x :: (s ++ r) = (P ++ (x :: s)) ++ r := by simp
    have hrev : (P ++ x :: (s ++ r)).reverse = r.reverse ++ y :: (P ++ s').reverse := by
      rw [hsplit, hsy]; simp
    have hlen : P.length + 1 + s.length = (P ++ (x :: s)).length := by simp; omega
    obtain ⟨ce, h1, h2⟩ := closingLoop_eq hsp hc hlast (L := (P ++ x :: (s ++ r)).length)
      (cs := P.length + 1 + s.length) (by simp; omega) (tail := (P ++ s').reverse) hy
      (f := (P ++ x :: (s ++ r)).length) (by simp; omega)
    refine ⟨out.reverse, ?_, ?_⟩
    · simp only [atxContent, bind, Except.bind, hscan]
      rw [hrev, h1]
      simp only
      congr 1
      rcases h2 with ⟨rfl, rfl⟩ | ⟨rfl, -, ⟨z, hz⟩⟩
      · simp [slice]
      · have er : r = out.reverse ++ z.reverse := by
          have := congrArg List.reverse hz
          simpa using this.symm
        rw [hlen, hsplit, er, ← List.length_reverse (as := out), ← List.append_assoc]
        exact slice_eq _ _ _
    · have := close_rawContent hsp (l := x :: s) hl (by simp) hr hc
      refine ⟨fun ht => ?_, fun ht => ?_⟩
      · rw [close_twoRuns hsp (l := x :: s) hl hr (by simpa using ht) hc]; rfl
      · rcases this with h | h
        · simpa using h
        · exact absurd (by simpa using h.1) ht

theorem replicate_split (a : Char) (s : Str) : ∃ k t, s = List.replicate k a ++ t ∧ ∀ c ∈ t.head?, c ≠ a := by
  obtain ⟨u, t, e, h1, h2⟩ := span_split (· == a) s
  refine ⟨u.length, t, ?_, by simpa using h2⟩
  rw [e]; congr 1
  exact List.eq_replicate_of_mem (by simpa using h1)

theorem scanWhile_bounded (a : Char) (m : Nat) : ∀ (k : Nat) (t : Str) (i : Nat), (∀ c ∈ t.head?, c ≠ a) →
    scanWhile (fun i c => c == a && decide (i ≤ m)) (List.replicate k a ++ t) i = i + min k (m + 1 - i) := by
  intro k
  induction k with
  | zero =>
    intro t i h
    cases t with
    | nil => simp [scanWhile]
    | cons c t => simp [scanWhile, h c (by simp)]
  | succ k ih =>
    intro t i h
    rw [List.replicate_succ, List.cons_append, scanWhile]
    by_cases hi : i ≤ m
    · simp only [beq_self_eq_true, hi, decide_true, Bool.and_self, if_true]
      rw [ih t (i + 1) h]; omega
    · simp only [hi, decide_false, Bool.and_false, Bool.false_eq_true, if_false]; omega

/-- The opening sequence is unique. -/
theorem isAtx_unique {p : Parser} {line rest rest' : Str} {n n' : Nat} (h : IsAtx p line n rest)
    (h' : IsAtx p line n' rest') : n = n' ∧ rest = rest' := by
  have hh : ∀ {r : Str}, (∀ c ∈ r.head?, atxSpace p c = true) → ∀ c ∈ r.head?, (c == '#') = false := by
    intro r h c hc
    have := h c hc
    cases h : (c == '#') with
    | false => rfl
    | true =>
      have : c = '#' := by simpa using h
      subst this
      have : atxSpace p '#' = false := by cases p <;> decide
      simp_all
  obtain ⟨k, h1, h2, h3, h4, h5⟩ := h
  obtain ⟨k', h1', h2', h3', h4', h5'⟩ := h'
  rw [h4, List.append_assoc, List.append_assoc] at h4'
  have hd : ∀ (m : Nat) (r : Str), 1 ≤ m → ∀ c ∈ (List.replicate m '#' ++ r).head?, (c == ' ') = false := by
    intro m r hm c hc
    obtain ⟨m, rfl⟩ : ∃ m', m = m' + 1 := ⟨m - 1, by omega⟩
    simp [List.replicate_succ] at hc
    subst hc; decide
  have e1 := (span_unique (q := (· == ' ')) h4' (by simp) (by simp) (hd _ _ h2) (hd _ _ h2')).2
  have e2 := span_unique (q := (· == '#')) e1 (by simp) (by simp) (hh h5) (hh h5')
  exact ⟨by simpa using congrArg List.length e2.1, e2.2⟩

/-- The result for a heading. -/
theorem atxCmark_heading {p : Parser} (hp : p.cmarkLike = true) {line rest : Str} {n : Nat} (h : IsAtx p line n rest)
    (hnl : ∀ c ∈ line, ¬ IsNewline c) :
    ∃ c, HeadingText (atxSpace p) rest c ∧
      ∀ (keep : Int) (noLinks vis : Bool), atxCmark p keep noLinks vis line =
        (if noLinks then .ok c else linkText c).map (fun t =>
          (⟨some n, some t, if (n : Int) > keep then false else vis⟩, if (n : Int) > keep then false else vis)) := by
  obtain ⟨k, hk, hn1, hn6, e, hh⟩ := h
  rw [← isSpaceCh_eq p hp] at hh ⊢
  have hlen : (List.replicate k ' ' ++ List.replicate n '#').length = k + n := by simp
  obtain ⟨c, hc1, hc2⟩ := atxContent_eq (p := p) (P := List.replicate k ' ' ++ List.replicate n '#') (rest := rest) hh
    (by rw [← e]; exact hnl)
  rw [hlen] at hc1
  refine ⟨c, hc2, ?_⟩
  intro keep noLinks vis
  obtain ⟨n', rfl⟩ : ∃ n', n = n' + 1 := ⟨n - 1, by omega⟩
  have hne : ¬ (line.length = 0 ∨ line.head? = some '\\') := by
    rw [e]
    rintro (h | h)
    · simp at h
    · cases k <;> simp [List.replicate_succ] at h
  have hhash : ∀ c ∈ rest.head?, c ≠ '#' := by
    rintro c hc rfl
    have := hh '#' hc
    rw [isSpaceCh_hash] at this; simp at this
  have hoff : scanWhile (fun i c => c == ' ' && decide (i ≤ maxSpaceIndentation)) line 0 = k := by
    rw [e, List.append_assoc, scanWhile_bounded _ _ _ _ _ (by simp [List.replicate_succ])]
    simp [maxSpaceIndentation]; omega
  have hi : scanWhile (fun i c => c == '#' && decide (i ≤ maxLevels + k)) (line.drop k) k = k + (n' + 1) := by
    have : line.drop k = List.replicate (n' + 1) '#' ++ rest := by rw [e]; simp
    rw [this, scanWhile_bounded _ _ _ _ _ hhash]
    simp [maxLevels]; omega
  have hdrop : line.drop (k + (n' + 1)) = rest := by
    rw [e, ← hlen, List.drop_left]
  unfold atxCmark
  rw [if_neg hne]
  simp only [hoff]
  rw [if_neg (by simp [maxSpaceIndentation]; omega)]
  simp only [hi]
  have e1 : k + (n' + 1) - k = n' + 1 := by omega
  rw [e1, if_neg (by simp [maxLevels]; omega)]
  rw [hdrop]
  have hbad : badAfterHashes p rest = false := by
    cases rest with
    | nil => rfl
    | cons c r => simp [badAfterHashes, hh c (by simp)]
  simp only [hbad, Bool.false_eq_true, if_false]
  rw [← e] at hc1
  simp only [bind, Except.bind, hc1]
  cases noLinks
  · simp only [Bool.false_eq_true, if_false]
    cases linkText c <;> rfl
  · simp [Except.map]

/-- The result for another line. -/
theorem atxCmark_other {p : Parser} (hp : p.cmarkLike = true) {line : Str} (h : ∀ n rest, ¬ IsAtx p line n rest)
    (hnl : ∀ c ∈ line, ¬ IsNewline c) (keep : Int) (noLinks vis : Bool) :
    ∃ v, atxCmark p keep noLinks vis line = .ok (.none, v) := by
  obtain ⟨k, t, e1, ht⟩ := replicate_split ' ' line
  obtain ⟨n, rest, e2, hrest⟩ := replicate_split '#' t
  have hoff : scanWhile (fun i c => c == ' ' && decide (i ≤ maxSpaceIndentation)) line 0 = min k 4 := by
    rw [e1, scanWhile_bounded _ _ _ _ _ ht]
    simp [maxSpaceIndentation]
  unfold atxCmark
  split
  · exact ⟨_, rfl⟩
  · simp only [hoff]
    split
    · exact ⟨_, rfl⟩
    · rename_i hk
      have hk3 : k ≤ 3 := by simp only [maxSpaceIndentation] at hk; omega
      have hk : min k 4 = k := by omega
      have hi : scanWhile (fun i c => c == '#' && decide (i ≤ maxLevels + k)) (line.drop k) k = k + min n 7 := by
        have : line.drop k = List.replicate n '#' ++ rest := by rw [e1, e2]; simp
        rw [this, scanWhile_bounded _ _ _ _ _ hrest]
        have : maxLevels + k + 1 - k = 7 := by simp [maxLevels]; omega
        rw [this]
      simp only [hk, hi]
      split
      · exact ⟨_, rfl⟩
      · rename_i hn
        have hn' : min n 7 = n := by simp [maxLevels] at hn; omega
        have hdrop : line.drop (k + n) = rest := by
          have : (List.replicate k ' ' ++ List.replicate n '#').length = k + n := by simp
          rw [e1, e2, ← List.append_assoc, ← this, List.drop_left]
        rw [hn', hdrop]
        have hbad : badAfterHashes p rest = true := by
          cases rest with
          | nil =>
            exfalso
            refine h n [] ⟨k, hk3, ?_, ?_, by rw [e1, e2]; simp, by simp⟩ <;>
              (simp only [maxLevels] at hn; omega)
          | cons c r =>
            have hc : p.isSpaceCh c = false := by
              cases hc : p.isSpaceCh c with
              | false => rfl
              | true =>
                exfalso
                refine h n (c :: r) ⟨k, hk3, ?_, ?_, by rw [e1, e2]; simp, by
                  rw [← isSpaceCh_eq p hp]; simpa using hc⟩ <;>
                  (simp only [maxLevels] at hn; omega)
            have := hnl c (by rw [e1, e2]; simp)
            have h1 : c ≠ '\n' := fun h => this (.inl h)
            have h2 : c ≠ '\r' := fun h => this (.inr h)
            simp [badAfterHashes, hc, h1, h2]
        simp only [hbad, if_true]
        exact ⟨_, rfl⟩

end MdToc
