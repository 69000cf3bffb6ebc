import Verif.Lemmas.WriteMore

/-!
# Intervals of lines: C77
-/

set_option linter.unusedSimpArgs false

namespace MdToc.Spec

/-- The lines whose numbers are in `q`; the first line of the list has the number `n`. -/
def linesIn (q : Nat → Bool) (n : Nat) (lines : List Str) : List Str :=
  ((lines.zipIdx n).filter (fun x => q x.2)).map Prod.fst

/-- The number `i` is in none of the intervals. -/
def outside (ivs : List (Nat × Nat)) (i : Nat) : Bool := ivs.all (fun v => decide (i < v.1) || decide (v.2 < i))

/-- Each interval lies before the one in front of it in the list. -/
def Descending (ivs : List (Nat × Nat)) : Prop := ivs.Pairwise (fun v w => w.2 < v.1)

/-- Each interval starts not before the ones in front of it in the list. -/
def InFileOrder (ivs : List (Nat × Nat)) : Prop := ivs.Pairwise (fun v w => v.1 ≤ w.1)

/-- The intervals, the first moved down by `s` lines and each of the others also by the number of lines of those in front of it. -/
def shifted : Nat → List (Nat × Nat) → List (Nat × Nat)
  | _, [] => []
  | s, v :: t => (v.1 + s, v.2 + s) :: shifted (s + (v.2 + 1 - v.1)) t

end MdToc.Spec

namespace MdToc.Props

open MdToc.Spec

theorem linesIn_append (q : Nat → Bool) (n : Nat) (x y : List Str) : linesIn q n (x ++ y) = linesIn q n x ++ linesIn q (n + x.length) y := by
  simp [linesIn, List.zipIdx_append, List.filter_append]

theorem linesIn_cons (q : Nat → Bool) (n : Nat) (l : Str) (x : List Str) :
    linesIn q n (l :: x) = if q n then l :: linesIn q (n + 1) x else linesIn q (n + 1) x := by
  simp only [linesIn, List.zipIdx_cons, List.filter_cons]
  split <;> simp

theorem linesIn_all {q : Nat → Bool} {n : Nat} {x : List Str} (h : ∀ i, n ≤ i → i < n + x.length → q i = true) : linesIn q n x = x := by
  induction x generalizing n with
  | nil => rfl
  | cons l x ih =>
    simp only [List.length_cons] at h
    rw [linesIn_cons, if_pos (h n (by omega) (by omega)), ih (fun i h1 h2 => h i (by omega) (by omega))]

theorem linesIn_none {q : Nat → Bool} {n : Nat} {x : List Str} (h : ∀ i, n ≤ i → i < n + x.length → q i = false) : linesIn q n x = [] := by
  induction x generalizing n with
  | nil => rfl
  | cons l x ih =>
    simp only [List.length_cons] at h
    rw [linesIn_cons, if_neg (by simp [h n (by omega) (by omega)]), ih (fun i h1 h2 => h i (by omega) (by omega))]

theorem linesIn_congr {q r : Nat → Bool} {n : Nat} {x : List Str} (h : ∀ i, n ≤ i → i < n + x.length → q i = r i) : linesIn q n x = linesIn r n x := by
  induction x generalizing n with
  | nil => rfl
  | cons l x ih =>
    simp only [List.length_cons] at h
    rw [linesIn_cons, linesIn_cons, h n (by omega) (by omega), ih (fun i h1 h2 => h i (by omega) (by omega))]

theorem extractLoop_eq (a b : Nat) (x : List Str) (n : Nat) : extractLoop a b x n = linesIn (fun i => decide (a ≤ i) && decide (i ≤ b)) n x := by
  induction x generalizing n with
  | nil => rfl
  | cons l x ih => simp [extractLoop, linesIn_cons, ih]

/-- **C77**: the lines from number `a` to number `b` are extracted, both included, as far as they exist; the bounds are wrong exactly if the first is less than
one or greater than the second. -/
theorem C77_extract (lines : List Str) (a b : Nat) :
    extractLines lines a b = if 1 ≤ a ∧ a ≤ b then .ok (linesIn (fun i => decide (a ≤ i) && decide (i ≤ b)) 1 lines).flatten else .error .ValueError := by
  unfold extractLines
  by_cases h : 1 ≤ a ∧ a ≤ b
  · rw [if_neg (by omega), if_pos h, extractLoop_eq]
  · rw [if_pos (by omega), if_neg h]

/-- **C77**: removing one interval removes exactly the lines in it; it fails exactly if the bounds are wrong or the file is shorter. -/
theorem C77_remove (lines : List Str) (a b : Nat) :
    removeLineIntervals lines [(a, b)] =
      if ¬ (1 ≤ a ∧ a ≤ b) then .error .ValueError else if lines.length < b then .error .LineOutOfFileBoundsError
      else .ok [linesIn (outside [(a, b)]) 1 lines] := by
  unfold removeLineIntervals
  by_cases h : 1 ≤ a ∧ a ≤ b
  · rw [if_neg (by omega), if_neg (by simpa using h)]
    unfold removeLineInterval
    rw [if_neg (by omega), if_neg (by omega)]
    by_cases hb : lines.length < b
    · rw [if_pos hb, if_pos hb]
      rfl
    · rw [if_neg (by omega), if_neg hb]
      simp only [bind, Except.bind, removeLineIntervals]
      congr 2
      have e : lines = lines.take (a - 1) ++ ((lines.drop (a - 1)).take (b + 1 - a) ++ lines.drop b) := by
        conv => lhs; rw [← List.take_append_drop (a - 1) lines, ← List.take_append_drop (b + 1 - a) (lines.drop (a - 1)), List.drop_drop]
        rw [show a - 1 + (b + 1 - a) = b by omega]
      conv => rhs; rw [e]
      rw [linesIn_append, linesIn_append, linesIn_all, linesIn_none, linesIn_all, List.nil_append]
      · intro i h1 _
        simp at h1
        simp [outside]; omega
      · intro i h1 h2
        simp at h1 h2
        simp [outside]; omega
      · intro i h1 h2
        simp at h2
        simp [outside]; omega
  · rw [if_pos (by omega), if_pos h]

theorem remove_descending {ivs : List (Nat × Nat)} (hd : Descending ivs) : ∀ {lines : List Str} {cs : List (List Str)}, removeLineIntervals lines ivs = .ok cs →
    cs.length = ivs.length ∧ cs.getLast?.getD lines = linesIn (outside ivs) 1 lines := by
  induction ivs with
  | nil =>
    intro lines cs h
    simp only [removeLineIntervals, Except.ok.injEq] at h
    subst h
    exact ⟨rfl, (linesIn_all (by simp [outside])).symm⟩
  | cons v ivs ih =>
    obtain ⟨a, b⟩ := v
    intro lines cs h
    have one := C77_remove lines a b
    unfold removeLineIntervals at h one
    split at h
    · simp at h
    · rename_i hab
      rw [if_neg hab] at one
      cases h1 : removeLineInterval lines a b with
      | error e => rw [h1] at h; simp [bind, Except.bind] at h
      | ok l1 =>
        rw [h1] at h one
        simp only [bind, Except.bind, removeLineIntervals] at h one
        split at one
        · simp at one
        · split at one
          · simp at one
          · rename_i hb
            simp only [Except.ok.injEq, List.cons.injEq, and_true] at one
            cases h2 : removeLineIntervals l1 ivs with
            | error e => rw [h2] at h; simp at h
            | ok r =>
              rw [h2] at h
              simp only [Except.ok.injEq] at h
              subst h
              obtain ⟨hlt, hd'⟩ := List.pairwise_cons.mp hd
              obtain ⟨i1, i2⟩ := ih hd' h2
              refine ⟨by simp [i1], ?_⟩
              have e1 : (l1 :: r).getLast?.getD lines = r.getLast?.getD l1 := by
                cases r with
                | nil => rfl
                | cons y r => simp [List.getLast?_cons_cons, List.getLast?_cons]
              rw [e1, i2, one]
              -- the lines before the interval keep their numbers, those behind it are in no other interval
              have e : lines = lines.take (a - 1) ++ ((lines.drop (a - 1)).take (b + 1 - a) ++ lines.drop b) := by
                conv => lhs; rw [← List.take_append_drop (a - 1) lines, ← List.take_append_drop (b + 1 - a) (lines.drop (a - 1)), List.drop_drop]
                rw [show a - 1 + (b + 1 - a) = b by omega]
              have hla : (lines.take (a - 1)).length = a - 1 := by simp; omega
              have hlb : ((lines.drop (a - 1)).take (b + 1 - a)).length = b + 1 - a := by simp; omega
              have e2 : linesIn (outside [(a, b)]) 1 lines = lines.take (a - 1) ++ lines.drop b := by
                conv => lhs; rw [e]
                rw [linesIn_append, linesIn_append, linesIn_all, linesIn_none, linesIn_all, List.nil_append]
                · intro i g1 _; rw [hla, hlb] at g1; simp [outside]; omega
                · intro i g1 g2; rw [hla] at g1; rw [hla, hlb] at g2; simp [outside]; omega
                · intro i g1 g2; rw [hla] at g2; simp [outside]; omega
              have late : ∀ i, a ≤ i → outside ivs i = true := by
                intro i hi
                simp only [outside, List.all_eq_true, Bool.or_eq_true, decide_eq_true_eq]
                intro w hw
                have := hlt w hw
                simp only at this
                omega
              rw [e2]
              conv => rhs; rw [e]
              rw [linesIn_append, linesIn_append, linesIn_append, linesIn_none (x := (lines.drop (a - 1)).take (b + 1 - a)), List.nil_append,
                linesIn_all (x := lines.drop b), linesIn_all (x := lines.drop b)]
              · congr 1
                refine linesIn_congr (fun i g1 g2 => ?_)
                rw [hla] at g2
                have : i < a := by omega
                simp [outside, this]
              · intro i g1 _
                rw [hla, hlb] at g1
                have h3 := late i (by omega)
                simp only [outside, List.all_cons, Bool.and_eq_true] at h3 ⊢
                exact ⟨by simp; omega, h3⟩
              · intro i g1 _
                rw [hla] at g1
                exact late i (by omega)
              · intro i g1 g2
                rw [hla] at g1; rw [hla, hlb] at g2
                have : ¬ i < a ∧ ¬ b < i := by omega
                simp [outside, this]

/-- **C77**, part: removing several intervals removes exactly the lines in them, if each interval comes before the one removed before it.
Missing: intervals in the order of the file, as in the comment in the code, see `C77_violation`. -/
theorem C77_remove_partial {ivs : List (Nat × Nat)} (hd : Descending ivs) {lines : List Str} {cs : List (List Str)} (h : removeLineIntervals lines ivs = .ok cs) :
    cs.getLast?.getD lines = linesIn (outside ivs) 1 lines :=
  (remove_descending hd h).2

/-- **C77**: with any number of intervals each of them removes exactly its lines, counted in the file as the intervals before have left it. -/
theorem C77_steps {ivs : List (Nat × Nat)} : ∀ {lines : List Str} {cs : List (List Str)}, removeLineIntervals lines ivs = .ok cs →
    cs.length = ivs.length ∧ ∀ (i : Nat) (v : Nat × Nat) (old new : List Str), ivs[i]? = some v → (lines :: cs)[i]? = some old → (lines :: cs)[i + 1]? = some new →
      1 ≤ v.1 ∧ v.1 ≤ v.2 ∧ v.2 ≤ old.length ∧ new = linesIn (outside [v]) 1 old := by
  induction ivs with
  | nil =>
    intro lines cs h
    simp only [removeLineIntervals, Except.ok.injEq] at h
    subst h
    exact ⟨rfl, by simp⟩
  | cons v ivs ih =>
    obtain ⟨a, b⟩ := v
    intro lines cs h
    have one := C77_remove lines a b
    unfold removeLineIntervals at h one
    split at h
    · simp at h
    · rename_i hab
      rw [if_neg hab] at one
      cases h1 : removeLineInterval lines a b with
      | error e => rw [h1] at h; simp [bind, Except.bind] at h
      | ok l1 =>
        rw [h1] at h one
        simp only [bind, Except.bind, removeLineIntervals] at h one
        split at one
        · simp at one
        · split at one
          · simp at one
          · rename_i hb
            simp only [Except.ok.injEq, List.cons.injEq, and_true] at one
            cases h2 : removeLineIntervals l1 ivs with
            | error e => rw [h2] at h; simp at h
            | ok r =>
              rw [h2] at h
              simp only [Except.ok.injEq] at h
              subst h
              obtain ⟨i1, i2⟩ := ih h2
              refine ⟨by simp [i1], ?_⟩
              intro i v old new e1 e2 e3
              cases i with
              | zero =>
                simp only [List.getElem?_cons_zero, List.getElem?_cons_succ, Option.some.injEq] at e1 e2 e3
                subst e1 e2 e3
                exact ⟨by omega, by simp only []; omega, by simp only []; omega, one⟩
              | succ i =>
                rw [List.getElem?_cons_succ] at e1 e2 e3
                exact i2 i v old new e1 e2 e3

theorem outside_shifted (n : Nat) (ivs : List (Nat × Nat)) : ∀ s i, outside (shifted (s + n) ivs) (i + n) = outside (shifted s ivs) i := by
  induction ivs with
  | nil => intro s i; rfl
  | cons v ivs ih =>
    intro s i
    simp only [shifted, outside, List.all_cons]
    have := ih (s + (v.2 + 1 - v.1)) i
    simp only [outside] at this
    rw [show s + n + (v.2 + 1 - v.1) = s + (v.2 + 1 - v.1) + n by omega, this]
    congr 1
    rw [Bool.eq_iff_iff]
    simp only [Bool.or_eq_true, decide_eq_true_eq]
    omega

theorem shifted_starts {ivs : List (Nat × Nat)} {a : Nat} (h : ∀ v ∈ ivs, a ≤ v.1) : ∀ s, ∀ w ∈ shifted s ivs, a + s ≤ w.1 := by
  induction ivs with
  | nil => intro s w hw; simp [shifted] at hw
  | cons v ivs ih =>
    intro s w hw
    have h1 := h v (by simp)
    simp only [shifted, List.mem_cons] at hw
    rcases hw with rfl | hw
    · simp only []; omega
    · have := ih (fun v hv => h v (by simp [hv])) _ w hw
      omega

theorem remove_ascending {ivs : List (Nat × Nat)} (hd : InFileOrder ivs) : ∀ {lines : List Str} {cs : List (List Str)}, removeLineIntervals lines ivs = .ok cs →
    cs.getLast?.getD lines = linesIn (outside (shifted 0 ivs)) 1 lines := by
  induction ivs with
  | nil =>
    intro lines cs h
    simp only [removeLineIntervals, Except.ok.injEq] at h
    subst h
    exact (linesIn_all (by simp [outside, shifted])).symm
  | cons v ivs ih =>
    obtain ⟨a, b⟩ := v
    intro lines cs h
    unfold removeLineIntervals at h
    split at h
    · simp at h
    · rename_i hab
      cases h1 : removeLineInterval lines a b with
      | error e => rw [h1] at h; simp [bind, Except.bind] at h
      | ok l1 =>
        rw [h1] at h
        simp only [bind, Except.bind] at h
        cases h2 : removeLineIntervals l1 ivs with
        | error e => rw [h2] at h; simp at h
        | ok r =>
          rw [h2] at h
          simp only [Except.ok.injEq] at h
          subst h
          unfold removeLineInterval at h1
          rw [if_neg (by omega), if_neg (by omega)] at h1
          split at h1
          · simp at h1
          · rename_i hb
            simp only [Except.ok.injEq] at h1
            obtain ⟨hlt, hd'⟩ := List.pairwise_cons.mp hd
            have e1 : (l1 :: r).getLast?.getD lines = r.getLast?.getD l1 := by
              cases r with
              | nil => rfl
              | cons y r => simp [List.getLast?_cons_cons, List.getLast?_cons]
            rw [e1, ih hd' h2, ← h1]
            have e : lines = lines.take (a - 1) ++ ((lines.drop (a - 1)).take (b + 1 - a) ++ lines.drop b) := by
              conv => lhs; rw [← List.take_append_drop (a - 1) lines, ← List.take_append_drop (b + 1 - a) (lines.drop (a - 1)), List.drop_drop]
              rw [show a - 1 + (b + 1 - a) = b by omega]
            have hla : (lines.take (a - 1)).length = a - 1 := by simp; omega
            have hlb : ((lines.drop (a - 1)).take (b + 1 - a)).length = b + 1 - a := by simp; omega
            have early : ∀ s i, i < a → outside (shifted s ivs) i = true := by
              intro s i hi
              simp only [outside, List.all_eq_true, Bool.or_eq_true, decide_eq_true_eq]
              intro w hw
              have := shifted_starts hlt s w hw
              omega
            conv => rhs; rw [e]
            rw [linesIn_append, linesIn_append, linesIn_append, linesIn_none (x := (lines.drop (a - 1)).take (b + 1 - a)), List.nil_append,
              linesIn_all (x := lines.take (a - 1)), linesIn_all (x := lines.take (a - 1)), hla, hlb]
            · congr 1
              have key : ∀ (x : List Str) (m : Nat), b < m + (b + 1 - a) → linesIn (outside (shifted 0 ivs)) m x = linesIn (outside (shifted 0 ((a, b) :: ivs))) (m + (b + 1 - a)) x := by
                intro x
                induction x with
                | nil => intro m _; rfl
                | cons l x ih =>
                  intro m hm
                  rw [linesIn_cons, linesIn_cons, ih (m + 1) (by omega), show m + (b + 1 - a) + 1 = m + 1 + (b + 1 - a) by omega]
                  have : outside (shifted 0 ((a, b) :: ivs)) (m + (b + 1 - a)) = outside (shifted 0 ivs) m := by
                    rw [← outside_shifted (b + 1 - a) ivs 0 m]
                    simp only [shifted, outside, List.all_cons]
                    rw [show decide (b + 0 < m + (b + 1 - a)) = true by simp; omega]
                    simp
                  rw [this]
              exact key _ _ (by omega)
            · intro i g1 g2
              rw [hla] at g2
              have h3 := early (0 + (b + 1 - a)) i (by omega)
              simp only [shifted, outside, List.all_cons, Bool.and_eq_true] at h3 ⊢
              exact ⟨by simp; omega, h3⟩
            · intro i g1 g2
              rw [hla] at g2
              exact early 0 i (by omega)
            · intro i g1 g2
              rw [hla] at g1; rw [hla, hlb] at g2
              have : ¬ i < a ∧ ¬ b < i := by omega
              simp [outside, shifted, this]

/-- **C77**: for intervals in the order of the file, what is removed are these intervals, each moved down by the number of lines of those before it. -/
theorem C77_ascending {ivs : List (Nat × Nat)} (hd : InFileOrder ivs) {lines : List Str} {cs : List (List Str)} (h : removeLineIntervals lines ivs = .ok cs) :
    cs.getLast?.getD lines = linesIn (outside (shifted 0 ivs)) 1 lines :=
  remove_ascending hd h

example : InFileOrder [(1, 1), (3, 3)] ∧ shifted 0 [(1, 1), (3, 3)] = [(1, 1), (4, 4)] := by
  constructor
  · simp [InFileOrder]
  · decide

/-- **C77** is false for intervals in the order of the file: the second interval is counted without the lines already removed. -/
theorem C77_violation : removeLineIntervals ["1\n".toList, "2\n".toList, "3\n".toList, "4\n".toList, "5\n".toList] [(1, 1), (3, 3)] =
      .ok [["2\n".toList, "3\n".toList, "4\n".toList, "5\n".toList], ["2\n".toList, "3\n".toList, "5\n".toList]] ∧
    linesIn (outside [(1, 1), (3, 3)]) 1 ["1\n".toList, "2\n".toList, "3\n".toList, "4\n".toList, "5\n".toList] = ["2\n".toList, "4\n".toList, "5\n".toList] := by
  decide +kernel

example : Descending [(3, 4), (1, 1)] ∧ removeLineIntervals ["1\n".toList, "2\n".toList, "3\n".toList, "4\n".toList, "5\n".toList] [(3, 4), (1, 1)] =
      .ok [["1\n".toList, "2\n".toList, "5\n".toList], ["2\n".toList, "5\n".toList]] := by
  constructor
  · simp [Descending]
  · decide +kernel

end MdToc.Props
