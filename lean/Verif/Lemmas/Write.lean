import Verif.Lemmas.Region

/-!
# The existing table of contents of a file
-/

set_option linter.unusedSimpArgs false

namespace MdToc

open MdToc.Spec

theorem extractLoop_append (a b : Nat) (x y : List Str) (n : Nat) :
    extractLoop a b (x ++ y) n = extractLoop a b x n ++ extractLoop a b y (n + x.length) := by
  induction x generalizing n with
  | nil => rfl
  | cons l x ih =>
    have e : n + 1 + x.length = n + (l :: x).length := by simp; omega
    simp only [List.cons_append, extractLoop, ih, e]
    split <;> rfl

theorem extractLoop_out {a b : Nat} (x : List Str) {n : Nat} (h : n + x.length ≤ a ∨ b < n) : extractLoop a b x n = [] := by
  induction x generalizing n with
  | nil => rfl
  | cons l x ih =>
    simp only [List.length_cons] at h
    rw [extractLoop, if_neg (by omega), ih (by omega)]

theorem extractLoop_in {a b : Nat} (x : List Str) {n : Nat} (h1 : a ≤ n) (h2 : n + x.length ≤ b + 1) : extractLoop a b x n = x := by
  induction x generalizing n with
  | nil => rfl
  | cons l x ih =>
    simp only [List.length_cons] at h2
    rw [extractLoop, if_pos (by omega), ih (by omega) (by omega)]

theorem trimmed_pyStrip (s : Str) : Trimmed isPySpace s (pyStrip s) := by
  obtain ⟨a, c, h1, h2, h3, h4, h5⟩ := strip_eq isPySpace s
  exact ⟨a, c, h1, h2, h3, h4, h5⟩

theorem trimmed_iff {s c : Str} : Trimmed isPySpace s c ↔ pyStrip s = c := by
  constructor
  · rintro ⟨a, b, rfl, h2, h3, h4, h5⟩
    exact strip_unique h2 h3 h4 h5
  · rintro rfl; exact trimmed_pyStrip s

theorem isMarker_iff {marker l : Str} : IsMarker marker l ↔ pyStrip l = pyStrip marker := by
  unfold IsMarker
  constructor
  · rintro ⟨c, h1, h2⟩
    rw [trimmed_iff.mp h1, trimmed_iff.mp h2]
  · intro h
    exact ⟨_, trimmed_pyStrip l, by rw [h]; exact trimmed_pyStrip marker⟩

theorem trimmedRight_iff {s c : Str} : TrimmedRight isPySpace s c ↔ pyRstrip s = c := by
  constructor
  · rintro ⟨r, rfl, h2, h3⟩
    exact rstrip_unique h2 h3
  · rintro rfl
    obtain ⟨a, h1, h2, h3⟩ := rstrip_eq isPySpace s
    exact ⟨a, h1, h2, h3⟩

/-! ### Positions of markers -/

theorem matches_none {marker : Str} {ls : List Str} (h : ∀ l ∈ ls, ¬ IsMarker marker l) (n : Nat) :
    lineMatchesFrom marker n ls = [] := by
  induction ls generalizing n with
  | nil => rfl
  | cons l ls ih =>
    rw [lineMatchesFrom, if_neg (fun h' => h l (by simp) (isMarker_iff.mpr h'))]
    exact ih (fun l hl => h l (by simp [hl])) _

theorem matches_skip {marker : Str} {a : List Str} (h : ∀ l ∈ a, ¬ IsMarker marker l) (b : List Str) (n : Nat) :
    lineMatchesFrom marker n (a ++ b) = lineMatchesFrom marker (n + a.length) b := by
  induction a generalizing n with
  | nil => rfl
  | cons l ls ih =>
    rw [List.cons_append, lineMatchesFrom, if_neg (fun h' => h l (by simp) (isMarker_iff.mpr h')),
      ih (fun l hl => h l (by simp [hl]))]
    congr 1
    simp; omega

theorem matches_marker {marker m : Str} (h : IsMarker marker m) (b : List Str) (n : Nat) :
    lineMatchesFrom marker n (m :: b) = n :: lineMatchesFrom marker (n + 1) b := by
  rw [lineMatchesFrom, if_pos (isMarker_iff.mp h)]

/-- The first marker of a list of lines. -/
theorem first_marker {marker : Str} {ls : List Str} (h : ∃ l ∈ ls, IsMarker marker l) :
    ∃ a m b, ls = a ++ m :: b ∧ (∀ l ∈ a, ¬ IsMarker marker l) ∧ IsMarker marker m := by
  induction ls with
  | nil => simp at h
  | cons l ls ih =>
    by_cases hl : IsMarker marker l
    · exact ⟨[], l, ls, rfl, by simp, hl⟩
    · obtain ⟨x, hx, hx'⟩ := h
      obtain ⟨a, m, b, rfl, h1, h2⟩ := ih ⟨x, by
        rcases List.mem_cons.mp hx with rfl | hx
        · exact absurd hx' hl
        · exact hx, hx'⟩
      refine ⟨l :: a, m, b, rfl, ?_, h2⟩
      intro y hy
      rcases List.mem_cons.mp hy with rfl | hy
      · exact hl
      · exact h1 y hy

theorem first_unique {P : Str → Prop} {a b a' b' : List Str} {m m' : Str} (e : a ++ m :: b = a' ++ m' :: b')
    (ha : ∀ l ∈ a, ¬ P l) (ha' : ∀ l ∈ a', ¬ P l) (hm : P m) (hm' : P m') : a = a' ∧ m = m' ∧ b = b' := by
  induction a generalizing a' with
  | nil =>
    cases a' with
    | nil => simpa using e
    | cons c a' =>
      simp only [List.nil_append, List.cons_append] at e
      injection e with e1 e2
      subst e1
      exact absurd hm (ha' _ (by simp))
  | cons d a ih =>
    cases a' with
    | nil =>
      simp only [List.nil_append, List.cons_append] at e
      injection e with e1 e2
      subst e1
      exact absurd hm' (ha _ (by simp))
    | cons c a' =>
      simp only [List.cons_append] at e
      injection e with e1 e2
      obtain ⟨h1, h2, h3⟩ := ih e2 (fun l hl => ha l (by simp [hl])) (fun l hl => ha' l (by simp [hl]))
      exact ⟨by rw [e1, h1], h2, h3⟩

/-! ### Tables -/

theorem Spec.NoTable.suffix {d : Char → Bool} {marker : Str} {a b : List Str} (h : NoTable d marker (a ++ b)) :
    NoTable d marker b := by
  intro x m mid m' y e hm hm' hmid
  exact h (a ++ x) m mid m' y (by rw [e]; simp) hm hm' hmid

theorem Spec.NoTable.prefix {d : Char → Bool} {marker : Str} {a b : List Str} (h : NoTable d marker (a ++ b)) :
    NoTable d marker a := by
  intro x m mid m' y e hm hm' hmid
  exact h x m mid m' (y ++ b) (by rw [e]; simp) hm hm' hmid

theorem Spec.NoTable.single (d : Char → Bool) (marker m : Str) : NoTable d marker [m] := by
  intro x m1 mid m' y e
  have := congrArg List.length e
  simp at this
  omega

/-- Lines before the first marker do not matter. -/
theorem Spec.NoTable.skip {d : Char → Bool} {marker : Str} {a b : List Str} (ha : ∀ l ∈ a, ¬ IsMarker marker l)
    (h : NoTable d marker b) : NoTable d marker (a ++ b) := by
  induction a with
  | nil => exact h
  | cons l a ih =>
    intro x m mid m' y e hm hm' hmid
    cases x with
    | nil =>
      simp only [List.nil_append, List.cons_append] at e
      injection e with e1 e2
      subst e1
      exact absurd hm (ha _ (by simp))
    | cons c x =>
      simp only [List.cons_append] at e
      injection e with e1 e2
      exact ih (fun l hl => ha l (by simp [hl])) x m mid m' y e2 hm hm' hmid

theorem Spec.NoTable.cons {d : Char → Bool} {marker : Str} {m m' : Str} {mid b : List Str} (_hm : IsMarker marker m) (hm' : IsMarker marker m')
    (hmid : ∀ l ∈ mid, ¬ IsMarker marker l) (hr : ¬ Recognised d mid) (h : NoTable d marker (m' :: b)) :
    NoTable d marker (m :: mid ++ m' :: b) := by
  intro x m1 mid1 m1' y e h1 h1' hmid1
  cases x with
  | nil =>
    simp only [List.nil_append, List.cons_append] at e
    injection e with e1 e2
    obtain ⟨rfl, -, -⟩ := first_unique (P := IsMarker marker) e2 hmid hmid1 hm' h1'
    exact hr
  | cons c x =>
    simp only [List.cons_append] at e
    injection e with e1 e2
    exact NoTable.skip hmid h x m1 mid1 m1' y e2 h1 h1' hmid1

/-- Every file with a marker can be cut. -/
theorem table_or_none (d : Char → Bool) (marker : Str) : ∀ (rest : List Str) (m : Str), IsMarker marker m →
    NoTable d marker (m :: rest) ∨
    ∃ A m1 mid m2 after, FirstTable d marker (m :: rest) A m1 mid m2 after := by
  intro rest
  generalize hn : rest.length = n
  induction n using Nat.strongRecOn generalizing rest with
  | _ n ih =>
  intro m hm
  by_cases hx : ∃ l ∈ rest, IsMarker marker l
  · obtain ⟨mid, m', b, rfl, hmid, hm'⟩ := first_marker hx
    by_cases hr : Recognised d mid
    · exact .inr ⟨[], m, mid, m', b, by simp, hm, hm', hmid, hr, .single _ _ _⟩
    · rcases ih b.length (by rw [← hn]; simp; omega) b rfl m' hm' with h | ⟨A, m1, mid1, m2, after, e, h1, h2, h3, h4, h5⟩
      · left
        have := NoTable.cons hm hm' hmid hr h
        simpa using this
      · right
        refine ⟨m :: mid ++ A, m1, mid1, m2, after, by simp [e], h1, h2, h3, h4, ?_⟩
        obtain ⟨z, hz⟩ : ∃ z, A ++ [m1] = m' :: z := by
          cases A with
          | nil =>
            simp only [List.nil_append, List.cons_append] at e
            injection e with e1 e2
            exact ⟨[], by simp [e1]⟩
          | cons c A =>
            simp only [List.cons_append] at e
            injection e with e1 e2
            exact ⟨A ++ [m1], by simp [e1]⟩
        rw [hz] at h5
        rw [List.append_assoc, hz]
        exact NoTable.cons hm hm' hmid hr h5
  · left
    intro x m1 mid m2 y e h1 h2 h3
    exfalso
    have : m2 ∈ rest := by
      cases x with
      | nil =>
        simp only [List.nil_append, List.cons_append] at e
        injection e with e1 e2
        rw [e2]; simp
      | cons c x =>
        simp only [List.cons_append] at e
        injection e with e1 e2
        rw [e2]; simp
    exact hx ⟨m2, this, h2⟩

theorem cut_exists (d : Char → Bool) (marker : Str) {ls : List Str} (h : ∃ l ∈ ls, IsMarker marker l) :
    ∃ before removed after, Cut d marker ls before removed after := by
  obtain ⟨a, m, rest, rfl, ha, hm⟩ := first_marker h
  by_cases hx : ∃ l ∈ rest, IsMarker marker l
  · rcases table_or_none d marker rest m hm with h1 | ⟨A, m1, mid, m2, after, e, h1, h2, h3, h4, h5⟩
    · obtain ⟨mid, m', b, rfl, hmid, hm'⟩ := first_marker hx
      exact ⟨a, [], m :: (mid ++ m' :: b), .inr (.inr ⟨⟨m, mid, m', b, rfl, rfl, ha, hm, hm', NoTable.skip ha h1⟩, rfl⟩)⟩
    · refine ⟨a ++ A, m1 :: mid ++ [m2], after, .inr (.inl ⟨m1, mid, m2, ⟨by simp [e], h1, h2, h3, h4, ?_⟩, rfl⟩)⟩
      rw [List.append_assoc]
      exact NoTable.skip ha h5
  · exact ⟨a, [m], rest, .inl ⟨m, ⟨rfl, hm, ha, fun l hl hl' => hx ⟨l, hl, hl'⟩⟩, rfl⟩⟩

/-! ### The loop -/

theorem tocRegion_iff {E : Env} {text : Str} {ls pre mid post : List Str} {x y : Str} (hR : Reads text ls)
    (e : ls = pre ++ x :: mid ++ y :: post) :
    tocRegion E ls.flatten (pre.length + 1) (pre.length + mid.length + 2) = true ↔ Recognised E.isDigit mid := by
  have hn : ∀ (k : List Str), ∀ c ∈ joined k, c ≠ '\n' := by
    intro k c hc
    have := (List.mem_filter.mp hc).2
    simpa using this
  have hsub : ∀ c ∈ joined mid, c ≠ '\r' := by
    rintro c hc rfl
    refine reads_no_cr hR ?_
    rw [e]
    simp only [List.flatten_append, List.flatten_cons, List.mem_append]
    have := (List.mem_filter.mp hc).1
    exact .inl (.inr (.inr this))
  have h1 : readLineInterval ls.flatten (((pre.length + 1 : Nat) : Int) + 1) (((pre.length + mid.length + 2 : Nat) : Int) - 1) = joined mid := by
    have e1 : ((pre.length + 1 : Nat) : Int) + 1 = ((pre.length + 2 : Nat) : Int) := by omega
    have e2 : ((pre.length + mid.length + 2 : Nat) : Int) - 1 = ((pre.length + mid.length + 1 : Nat) : Int) := by omega
    rw [e1, e2, readLineInterval_eq hR _ _ (by omega), e]
    congr 1
    have e3 : pre ++ x :: mid ++ y :: post = (pre ++ [x]) ++ mid ++ y :: post := by simp
    rw [e3, List.take_left' (by simp; omega), List.drop_left' (by simp)]
  have h2 : readLineInterval ls.flatten (((pre.length + 1 : Nat) : Int) + 2) (((pre.length + mid.length + 2 : Nat) : Int) - 2) =
      joined mid.tail.dropLast := by
    have e1 : ((pre.length + 1 : Nat) : Int) + 2 = ((pre.length + 3 : Nat) : Int) := by omega
    have e2 : ((pre.length + mid.length + 2 : Nat) : Int) - 2 = ((pre.length + mid.length : Nat) : Int) := by omega
    rw [e1, e2, readLineInterval_eq hR _ _ (by omega), e]
    congr 1
    rcases List.eq_nil_or_concat mid with rfl | ⟨mid', z, rfl⟩
    · rw [List.drop_eq_nil_of_le (by simp)]; simp
    · cases mid' with
      | nil =>
        rw [List.drop_eq_nil_of_le (by simp)]; simp
      | cons w mid' =>
        have e3 : pre ++ x :: (w :: mid').concat z ++ y :: post = ((pre ++ [x] ++ [w]) ++ mid') ++ z :: y :: post := by simp
        rw [e3, List.take_left' (by simp), List.drop_left' (by simp)]
        simp
  unfold tocRegion
  simp only
  rw [h1, h2, Bool.or_eq_true, detectTocList_iff E (hn _), stringEmpty_iff E (hn _) hsub]
  unfold Recognised
  exact or_comm

theorem loop_found {E : Env} {marker text : Str} {ls : List Str} (hR : Reads text ls) : ∀ (n : Nat) (pre rest A : List Str) (x m : Str)
    (mid : List Str) (m' : Str) (after : List Str), rest.length = n → ls = pre ++ x :: rest → IsMarker marker x →
    FirstTable E.isDigit marker (x :: rest) A m mid m' after →
    existingLoop E ls.flatten ls ((pre.length + 1) :: lineMatchesFrom marker (pre.length + 2) rest) =
      .ok (some (pyStrip mid.flatten, pre.length + A.length + 1, pre.length + A.length + mid.length + 2),
        (lineMatchesFrom marker (pre.length + A.length + mid.length + 2) (m' :: after)).length) := by
  intro n
  induction n using Nat.strongRecOn with
  | _ n ih =>
  rintro pre rest A x m mid m' after hn e hx ⟨e', hm, hm', hmid, hr, hno⟩
  cases A with
  | nil =>
    simp only [List.nil_append, List.cons_append] at e'
    injection e' with e1 e2
    subst e1; subst e2
    rw [matches_skip hmid, matches_marker hm', existingLoop]
    have hreg := (tocRegion_iff (E := E) hR (show ls = pre ++ x :: mid ++ m' :: after by simp [e])).mpr hr
    have ea : pre.length + 2 + mid.length = pre.length + mid.length + 2 := by omega
    simp only [ea, hreg, if_true]
    cases mid with
    | nil =>
      rw [if_neg (by simp)]
      simp [bind, Except.bind, matches_marker hm', pyStrip, strip, rstrip, lstrip]
    | cons c mid =>
      have e3 : ls = (pre ++ [x]) ++ (c :: mid) ++ m' :: after := by simp [e]
      have hold : extractLines ls (pre.length + 1 + 1) (pre.length + (c :: mid).length + 2 - 1) = .ok (c :: mid).flatten := by
        rw [extractLines, if_neg (by simp), e3, extractLoop_append, extractLoop_append, extractLoop_out (pre ++ [x]) (by simp; omega),
          extractLoop_in (c :: mid) (by simp; omega) (by simp; omega), extractLoop_out (m' :: after) (by simp; omega)]
        simp
      rw [if_pos (by simp), hold]
      simp [bind, Except.bind, Except.map, matches_marker hm']
  | cons x' A =>
    simp only [List.cons_append] at e'
    injection e' with e1 e2
    subst e1
    -- the first marker after `x`
    obtain ⟨c, y, z, ec, hc, hy⟩ := first_marker (marker := marker) (ls := A ++ [m]) ⟨m, by simp, hm⟩
    have hnr : ¬ Recognised E.isDigit c := by
      refine hno [] x c y z ?_ hx hy hc
      simp [ec]
    obtain ⟨A', hA'⟩ : ∃ A', y :: z = A' ++ [m] := by
      rcases List.eq_nil_or_concat (y :: z) with h | ⟨A', w, h⟩
      · cases h
      · rw [h] at ec
        simp only [List.concat_eq_append] at ec h
        rw [← List.append_assoc] at ec
        have := (List.append_inj' ec (by simp)).2
        injection this with this _
        exact ⟨A', by rw [h, this]⟩
    have eA : A = c ++ A' := by
      have : A ++ [m] = (c ++ A') ++ [m] := by rw [ec, hA']; simp
      exact List.append_cancel_right this
    obtain ⟨rest', er⟩ : ∃ rest', rest = c ++ y :: rest' := by
      refine ⟨z ++ mid ++ m' :: after, ?_⟩
      rw [e2]
      have : A ++ m :: mid ++ m' :: after = (A ++ [m]) ++ mid ++ m' :: after := by simp
      rw [this, ec]; simp
    have ey : y :: rest' = A' ++ m :: mid ++ m' :: after := by
      have : c ++ y :: rest' = c ++ (A' ++ m :: mid ++ m' :: after) := by
        rw [← er, e2, eA]; simp
      exact List.append_cancel_left this
    rw [er, matches_skip hc, matches_marker hy, existingLoop]
    have hreg : tocRegion E ls.flatten (pre.length + 1) (pre.length + c.length + 2) = false := by
      rw [Bool.eq_false_iff]
      intro h
      exact hnr ((tocRegion_iff (E := E) hR (show ls = pre ++ x :: c ++ y :: rest' by simp [e, er])).mp h)
    have ea : pre.length + 2 + c.length = pre.length + c.length + 2 := by omega
    simp only [ea, hreg, Bool.false_eq_true, if_false]
    have := ih rest'.length (by rw [← hn, er]; simp; omega) (pre ++ x :: c) rest' A' y m mid m' after rfl (by simp [e, er]) hy
      ⟨ey, hm, hm', hmid, hr, by
        have : x :: A ++ [m] = (x :: c) ++ (A' ++ [m]) := by simp [eA]
        rw [this] at hno
        exact hno.suffix⟩
    have l1 : (pre ++ x :: c).length + 1 = pre.length + c.length + 2 := by simp; omega
    have l2 : (pre ++ x :: c).length + 2 = pre.length + c.length + 2 + 1 := by simp; omega
    have l3 : (pre ++ x :: c).length + A'.length = pre.length + (x :: A).length := by simp [eA]; omega
    rw [l1, l2, l3] at this
    exact this

theorem loop_none {E : Env} {marker text : Str} {ls : List Str} (hR : Reads text ls) : ∀ (n : Nat) (pre rest : List Str) (x : Str),
    rest.length = n → ls = pre ++ x :: rest → IsMarker marker x → NoTable E.isDigit marker (x :: rest) →
    existingLoop E ls.flatten ls ((pre.length + 1) :: lineMatchesFrom marker (pre.length + 2) rest) = .ok (none, 1) := by
  intro n
  induction n using Nat.strongRecOn with
  | _ n ih =>
  intro pre rest x hn e hx hno
  by_cases h : ∃ l ∈ rest, IsMarker marker l
  · obtain ⟨c, y, rest', er, hc, hy⟩ := first_marker h
    have hnr : ¬ Recognised E.isDigit c := hno [] x c y rest' (by simp [er]) hx hy hc
    rw [er, matches_skip hc, matches_marker hy, existingLoop]
    have hreg : tocRegion E ls.flatten (pre.length + 1) (pre.length + c.length + 2) = false := by
      rw [Bool.eq_false_iff]
      intro h
      exact hnr ((tocRegion_iff (E := E) hR (show ls = pre ++ x :: c ++ y :: rest' by simp [e, er])).mp h)
    have ea : pre.length + 2 + c.length = pre.length + c.length + 2 := by omega
    simp only [ea, hreg, Bool.false_eq_true, if_false]
    have := ih rest'.length (by rw [← hn, er]; simp; omega) (pre ++ x :: c) rest' y rfl (by simp [e, er]) hy (by
        have e3 : x :: rest = (x :: c) ++ (y :: rest') := by simp [er]
        rw [e3] at hno
        exact hno.suffix)
    have l1 : (pre ++ x :: c).length + 1 = pre.length + c.length + 2 := by simp; omega
    have l2 : (pre ++ x :: c).length + 2 = pre.length + c.length + 2 + 1 := by simp; omega
    rw [l1, l2] at this
    exact this
  · rw [matches_none (fun l hl hl' => h ⟨l, hl, hl'⟩)]
    rfl

/-! ### The existing table of contents -/

theorem existing_none {E : Env} {marker : Str} {ls : List Str} (h : ∀ l ∈ ls, ¬ IsMarker marker l) :
    getExistingToc E ls marker = .ok ⟨[], [], false, 0, [], 0⟩ := by
  unfold getExistingToc lineMatches
  rw [matches_none h]
  rfl

theorem existing_one {E : Env} {marker m : Str} {ls before after : List Str} (h : OneMarker marker ls before m after) :
    getExistingToc E ls marker = .ok ⟨marker, [], false, 1, [before.length + 1], before.length + 1⟩ := by
  obtain ⟨rfl, hm, hb, ha⟩ := h
  unfold getExistingToc lineMatches
  rw [matches_skip hb, matches_marker hm, matches_none ha]
  simp [existingLoop, bind, Except.bind, Nat.add_comm]

theorem existing_table {E : Env} {marker text m m' : Str} {ls before mid after : List Str} (hR : Reads text ls)
    (h : FirstTable E.isDigit marker ls before m mid m' after) :
    ∃ n pos, getExistingToc E ls marker = .ok ⟨pyStrip mid.flatten, [(before.length + 1, before.length + mid.length + 2)], true, n + 1, pos,
      before.length + 1⟩ := by
  obtain ⟨e, hm, hm', hmid, hr, hno⟩ := h
  obtain ⟨a, x, b, eab, ha, hx⟩ := first_marker (marker := marker) (ls := before ++ [m]) ⟨m, by simp, hm⟩
  obtain ⟨A, hA⟩ : ∃ A, x :: b = A ++ [m] := by
    rcases List.eq_nil_or_concat (x :: b) with h | ⟨A', w, h⟩
    · cases h
    · rw [h] at eab
      simp only [List.concat_eq_append] at eab h
      rw [← List.append_assoc] at eab
      have := (List.append_inj' eab (by simp)).2
      injection this with this _
      exact ⟨A', by rw [h, this]⟩
  have eb : before = a ++ A := by
    have : before ++ [m] = (a ++ A) ++ [m] := by rw [eab, hA]; simp
    exact List.append_cancel_right this
  have els : ls = a ++ x :: (b ++ mid ++ m' :: after) := by
    rw [e]
    have : before ++ m :: mid ++ m' :: after = (before ++ [m]) ++ mid ++ m' :: after := by simp
    rw [this, eab]; simp
  have ft : FirstTable E.isDigit marker (x :: (b ++ mid ++ m' :: after)) A m mid m' after := by
    refine ⟨?_, hm, hm', hmid, hr, ?_⟩
    · have : x :: (b ++ mid ++ m' :: after) = (x :: b) ++ mid ++ m' :: after := by simp
      rw [this, hA]; simp
    · rw [eb, List.append_assoc] at hno
      exact hno.suffix
  have hl := loop_found (E := E) hR _ a _ A x m mid m' after rfl els hx ft
  have hpos : lineMatches marker ls = (a.length + 1) :: lineMatchesFrom marker (a.length + 2) (b ++ mid ++ m' :: after) := by
    unfold lineMatches
    rw [els, matches_skip ha, matches_marker hx, Nat.add_comm 1 a.length]
  have htwo : 2 ≤ (lineMatches marker ls).length := by
    unfold lineMatches
    have hl : ∀ (n : Nat) (k : List Str), (lineMatchesFrom marker n k).length = (k.filter (fun l => pyStrip l = pyStrip marker)).length := by
      intro n k
      induction k generalizing n with
      | nil => rfl
      | cons c k ih =>
        rw [lineMatchesFrom]
        by_cases hc : pyStrip c = pyStrip marker <;> simp [hc, ih]
    rw [hl, e]
    simp only [List.filter_append, List.filter_cons, isMarker_iff.mp hm, isMarker_iff.mp hm']
    simp
    omega
  unfold getExistingToc
  simp only [hpos]
  rw [hl]
  rw [hpos] at htwo
  have e1 : a.length + A.length = before.length := by simp [eb]
  simp only [e1, bind, Except.bind]
  rw [matches_marker hm']
  simp only [htwo, decide_true]
  exact ⟨_, _, rfl⟩

theorem existing_many {E : Env} {marker text : Str} {ls before after : List Str} (hR : Reads text ls)
    (h : ManyMarkers E.isDigit marker ls before after) :
    ∃ pos, getExistingToc E ls marker = .ok ⟨[], [], true, 1, pos, before.length + 1⟩ := by
  obtain ⟨m, mid, m', b, e, rfl, hb, hm, hm', hno⟩ := h
  have hl := loop_none (E := E) hR _ before (mid ++ m' :: b) m rfl e hm (by rw [e] at hno; exact hno.suffix)
  have hpos : lineMatches marker ls = (before.length + 1) :: lineMatchesFrom marker (before.length + 2) (mid ++ m' :: b) := by
    unfold lineMatches
    rw [e, matches_skip hb, List.cons_append, matches_marker hm, Nat.add_comm 1 before.length]
  have htwo : 2 ≤ ((before.length + 1) :: lineMatchesFrom marker (before.length + 2) (mid ++ m' :: b)).length := by
    have hl : ∀ (n : Nat) (k : List Str), (lineMatchesFrom marker n k).length = (k.filter (fun l => pyStrip l = pyStrip marker)).length := by
      intro n k
      induction k generalizing n with
      | nil => rfl
      | cons c k ih =>
        rw [lineMatchesFrom]
        by_cases hc : pyStrip c = pyStrip marker <;> simp [hc, ih]
    rw [List.length_cons, hl]
    simp only [List.filter_append, List.filter_cons, isMarker_iff.mp hm']
    simp
    omega
  unfold getExistingToc
  simp only [hpos]
  rw [hl]
  simp only [bind, Except.bind, htwo, decide_true]
  exact ⟨_, rfl⟩

end MdToc
