import Verif.Entities
import Verif.Spec.Helpers
import Verif.Props.Regions

/-!
# Helper functions on strings: C73, C74; more on C56
-/

set_option linter.unusedSimpArgs false

namespace MdToc.Props

open MdToc.Spec

/-! ### C73: replacement and comparison -/

theorem replaceLoop_after (repl : Str) {a b : Int} : ∀ (s : Str) (i : Nat), b < (i : Int) → ∀ d, replaceSubstringLoop repl a b s i d = s := by
  intro s
  induction s with
  | nil => intro i _ d; rfl
  | cons c s ih =>
    intro i h d
    unfold replaceSubstringLoop
    rw [if_pos (.inr h), ih (i + 1) (by omega)]

theorem replaceLoop_inside (repl : Str) {a b : Nat} : ∀ (s : Str) (i : Nat), a ≤ i → replaceSubstringLoop repl a b s i true = s.drop (b + 1 - i) := by
  intro s
  induction s with
  | nil => intro i _; simp [replaceSubstringLoop]
  | cons c s ih =>
    intro i h
    by_cases hb : b < i
    · rw [replaceLoop_after repl _ _ (by omega), show b + 1 - i = 0 by omega, List.drop_zero]
    · unfold replaceSubstringLoop
      rw [if_neg (by omega), show b + 1 - i = (b + 1 - (i + 1)) + 1 by omega, List.drop_succ_cons, ← ih (i + 1) (by omega)]
      simp

theorem replaceLoop_before (repl : Str) {a b : Nat} (hab : a ≤ b) : ∀ (s : Str) (i : Nat), i ≤ a →
    replaceSubstringLoop repl a b s i false = if a - i < s.length then s.take (a - i) ++ repl ++ s.drop (b + 1 - i) else s := by
  intro s
  induction s with
  | nil => intro i _; simp [replaceSubstringLoop]
  | cons c s ih =>
    intro i h
    unfold replaceSubstringLoop
    by_cases hi : i < a
    · rw [if_pos (.inl (by omega)), ih (i + 1) (by omega)]
      obtain ⟨k, hk⟩ : ∃ k, a - i = k + 1 := ⟨a - i - 1, by omega⟩
      have h1 : a - (i + 1) = k := by omega
      have h2 : b + 1 - i = b + 1 - (i + 1) + 1 := by omega
      rw [hk, h1, h2, List.length_cons, List.drop_succ_cons, List.take_succ_cons]
      by_cases hl : k < s.length
      · rw [if_pos hl, if_pos (by omega)]
        simp
      · rw [if_neg hl, if_neg (by omega)]
    · have : i = a := by omega
      subst this
      rw [if_neg (by omega), Nat.sub_self, if_pos (by simp : 0 < (c :: s).length)]
      simp only [Bool.not_false, if_true, List.take_zero, List.nil_append]
      rw [replaceLoop_inside repl _ _ (by omega), show b + 1 - i = (b + 1 - (i + 1)) + 1 by omega, List.drop_succ_cons]

/-- **C73**: the characters from `a` to `b` (both included) are replaced; a text which ends before `a` stays as it is. -/
theorem C73_replace (source repl : Str) {a b : Nat} (h : a ≤ b) :
    replaceSubstring source repl a b = .ok (if a < source.length then source.take a ++ repl ++ source.drop (b + 1) else source) := by
  unfold replaceSubstring
  rw [if_neg (by omega), replaceLoop_before repl h _ _ (by omega)]
  simp

/-- **C73**: a start behind the end is an error. -/
theorem C73_replace_error (source repl : Str) (a b : Int) : replaceSubstring source repl a b = .error .ValueError ↔ b < a := by
  unfold replaceSubstring
  split
  · simp; omega
  · simp; omega

example : replaceSubstring "abcdef".toList "--".toList 2 3 = .ok "ab--ef".toList := by decide +kernel

theorem strncmpLoop_cases : ∀ (s t : Str), s.length = t.length →
    (strncmpLoop s t = 0 ∧ s = t) ∨ (strncmpLoop s t = -1 ∧ SmallerAt s t) ∨ (strncmpLoop s t = 1 ∧ SmallerAt t s) := by
  intro s
  induction s with
  | nil =>
    intro t h
    have : t = [] := by simpa using h.symm
    subst this
    exact .inl ⟨rfl, rfl⟩
  | cons a s ih =>
    intro t h
    cases t with
    | nil => simp at h
    | cons b t =>
      unfold strncmpLoop
      by_cases h1 : a.toNat < b.toNat
      · rw [if_pos h1]
        exact .inr (.inl ⟨rfl, [], a, b, s, t, rfl, rfl, h1⟩)
      · rw [if_neg h1]
        by_cases h2 : a.toNat > b.toNat
        · rw [if_pos h2]
          exact .inr (.inr ⟨rfl, [], b, a, t, s, rfl, rfl, h2⟩)
        · rw [if_neg h2]
          have hab : a = b := by
            apply Char.ext
            apply UInt32.toNat_inj.mp
            have e1 : a.val.toNat = a.toNat := rfl
            have e2 : b.val.toNat = b.toNat := rfl
            omega
          subst hab
          rcases ih t (by simpa using h) with ⟨h3, h4⟩ | ⟨h3, p, x, y, u, v, rfl, rfl, h4⟩ | ⟨h3, p, x, y, u, v, rfl, rfl, h4⟩
          · exact .inl ⟨h3, by rw [h4]⟩
          · exact .inr (.inl ⟨h3, a :: p, x, y, u, v, rfl, rfl, h4⟩)
          · exact .inr (.inr ⟨h3, a :: p, x, y, u, v, rfl, rfl, h4⟩)

theorem smallerAt_irrefl {s t : Str} (h : SmallerAt s t) : s ≠ t ∧ ¬ SmallerAt t s := by
  obtain ⟨p, a, b, u, v, rfl, rfl, h1⟩ := h
  induction p with
  | nil =>
    constructor
    · intro e
      injection e with e
      subst e
      omega
    · rintro ⟨p, x, y, u', v', e1, e2, h2⟩
      cases p with
      | nil =>
        injection e1 with e1
        injection e2 with e2
        subst e1 e2
        omega
      | cons c p =>
        injection e1 with e1
        injection e2 with e2
        subst e1 e2
        omega
  | cons c p ih =>
    constructor
    · intro e
      injection e with _ e
      exact ih.1 e
    · rintro ⟨q, x, y, u', v', e1, e2, h2⟩
      cases q with
      | nil =>
        injection e1 with e1
        injection e2 with e2
        subst e1 e2
        omega
      | cons d q =>
        injection e1 with _ e1
        injection e2 with _ e2
        exact ih.2 ⟨q, x, y, u', v', e1, e2, h2⟩

theorem strncmp_cases (s t : Str) (n : Nat) :
    (strncmp s t n = 0 ∧ s.take n = t.take n) ∨
      (strncmp s t n = -1 ∧ ((s.take n).length < (t.take n).length ∨ ((s.take n).length = (t.take n).length ∧ SmallerAt (s.take n) (t.take n)))) ∨
      (strncmp s t n = 1 ∧ ((t.take n).length < (s.take n).length ∨ ((t.take n).length = (s.take n).length ∧ SmallerAt (t.take n) (s.take n)))) := by
  unfold strncmp
  by_cases h1 : (s.take n).length < (t.take n).length
  · simp only [h1, if_true]
    exact .inr (.inl ⟨trivial, .inl trivial⟩)
  · by_cases h2 : (s.take n).length > (t.take n).length
    · simp only [h1, h2, if_false, if_true]
      exact .inr (.inr ⟨trivial, .inl trivial⟩)
    · simp only [h1, h2, if_false]
      have he : (s.take n).length = (t.take n).length := by omega
      rcases strncmpLoop_cases _ _ he with ⟨h3, h4⟩ | ⟨h3, h4⟩ | ⟨h3, h4⟩
      · exact .inl ⟨h3, h4⟩
      · exact .inr (.inl ⟨h3, .inr ⟨he, h4⟩⟩)
      · exact .inr (.inr ⟨h3, .inr ⟨he.symm, h4⟩⟩)

/-- **C73**: the comparison of the first `n` characters gives 0 exactly if they are equal, -1 if the first string has fewer of them or, at equal number, the smaller
character at the first difference, and 1 otherwise. -/
theorem C73_compare (s t : Str) (n : Nat) :
    (strncmp s t n = 0 ↔ s.take n = t.take n) ∧
      (strncmp s t n = -1 ↔ (s.take n).length < (t.take n).length ∨ ((s.take n).length = (t.take n).length ∧ SmallerAt (s.take n) (t.take n))) ∧
      (strncmp s t n = 1 ↔ (t.take n).length < (s.take n).length ∨ ((t.take n).length = (s.take n).length ∧ SmallerAt (t.take n) (s.take n))) := by
  rcases strncmp_cases s t n with ⟨h, h'⟩ | ⟨h, h'⟩ | ⟨h, h'⟩
  · have hn : ¬ SmallerAt (t.take n) (t.take n) := fun hs => (smallerAt_irrefl hs).1 rfl
    rw [h, h']
    simp [hn]
  · have hne : s.take n ≠ t.take n := by
      rcases h' with h' | ⟨-, h'⟩
      · intro e; rw [e] at h'; omega
      · exact (smallerAt_irrefl h').1
    have hnot : ¬ ((t.take n).length < (s.take n).length ∨ ((t.take n).length = (s.take n).length ∧ SmallerAt (t.take n) (s.take n))) := by
      rintro (h2 | ⟨h2, h3⟩)
      · rcases h' with h' | ⟨h', -⟩ <;> omega
      · rcases h' with h' | ⟨-, h'⟩
        · omega
        · exact (smallerAt_irrefl h').2 h3
    rw [h]
    exact ⟨⟨by simp, fun e => absurd e hne⟩, ⟨fun _ => h', fun _ => rfl⟩, ⟨by simp, fun e => absurd e hnot⟩⟩
  · have hne : s.take n ≠ t.take n := by
      rcases h' with h' | ⟨-, h'⟩
      · intro e; rw [e] at h'; omega
      · exact fun e => (smallerAt_irrefl h').1 e.symm
    have hnot : ¬ ((s.take n).length < (t.take n).length ∨ ((s.take n).length = (t.take n).length ∧ SmallerAt (s.take n) (t.take n))) := by
      rintro (h2 | ⟨h2, h3⟩)
      · rcases h' with h' | ⟨h', -⟩ <;> omega
      · rcases h' with h' | ⟨-, h'⟩
        · omega
        · exact (smallerAt_irrefl h').2 h3
    rw [h]
    exact ⟨⟨by simp, fun e => absurd e hne⟩, ⟨by simp, fun e => absurd e hnot⟩, ⟨fun _ => h', fun _ => rfl⟩⟩

/-- **C73**: there is no other result. -/
theorem C73_compare_values (s t : Str) (n : Nat) : strncmp s t n = 0 ∨ strncmp s t n = -1 ∨ strncmp s t n = 1 := by
  rcases strncmp_cases s t n with h | h | h
  · exact .inl h.1
  · exact .inr (.inl h.1)
  · exact .inr (.inr h.1)

/-- **C73**: exchanging the strings changes the sign. -/
theorem C73_compare_swap (s t : Str) (n : Nat) : strncmp t s n = - strncmp s t n := by
  have h1 := C73_compare s t n
  have h2 := C73_compare t s n
  rcases C73_compare_values s t n with h | h | h
  · rw [h, h2.1.mpr (h1.1.mp h).symm]; rfl
  · rw [h, h2.2.2.mpr (h1.2.1.mp h)]; rfl
  · rw [h, h2.2.1.mpr (h1.2.2.mp h)]

example : strncmp "abd".toList "abcde".toList 3 = 1 ∧ strncmp "abc".toList "abcde".toList 3 = 0 ∧ strncmp "z".toList "abcde".toList 3 = -1 := by decide +kernel

/-! ### C74: named entities -/

theorem entLookup_sound {table : List (Str × Str)} {s : Str} {n : Nat} : ∀ (f i low hi : Nat) {e : Str},
    entLookup table s n f i low hi = .ok (some e) → (s.take n, e) ∈ table := by
  intro f
  induction f with
  | zero => intro i low hi e h; simp [entLookup] at h
  | succ f ih =>
    intro i low hi e h
    unfold entLookup at h
    split at h
    · simp at h
    · rename_i name bytes hg
      simp only at h
      split at h
      · rename_i hc
        injection h with h
        injection h with h
        subst h
        have := (C73_compare s name n).1.mp hc.1
        rw [hc.2, List.take_length] at this
        rw [hc.2, this]
        exact List.mem_of_getElem? hg
      · split at h
        · exact ih _ _ _ h
        · split at h
          · exact ih _ _ _ h
          · simp at h

/-- **C74**: a text which is found is the one of the entity with that name. -/
theorem C74_sound {fuel : Nat} {table : List (Str × Str)} {s e : Str} {n : Nat} (h : lookupEntity fuel table s n = .ok (some e)) : (s.take n, e) ∈ table :=
  entLookup_sound _ _ _ _ h

theorem entLookup_total {table : List (Str × Str)} {s : Str} {n : Nat} : ∀ (f i low hi : Nat), low ≤ i → i ≤ hi → hi < table.length → i - low ≤ 2 ^ f → hi - i ≤ 2 ^ f →
    ∃ r, entLookup table s n (f + 2) i low hi = .ok r := by
  intro f
  induction f with
  | zero =>
    intro i low hi h1 h2 h3 h4 h5
    have one : ∀ i, i < table.length → ∃ r, entLookup table s n 1 i i i = .ok r := by
      intro i hi'
      unfold entLookup
      rw [List.getElem?_eq_getElem hi']
      simp only [gt_iff_lt, Nat.lt_irrefl, and_false, if_false]
      split
      · exact ⟨_, rfl⟩
      · exact ⟨_, rfl⟩
    unfold entLookup
    rw [List.getElem?_eq_getElem (by omega)]
    simp only
    split
    · exact ⟨_, rfl⟩
    · split
      · rename_i hc
        have : i = low + 1 := by simp at h4; omega
        subst this
        have e : (if low + 1 - (low + 1 - low) / 2 = low + 1 then low + 1 - (low + 1 - low) / 2 - 1 else low + 1 - (low + 1 - low) / 2) = low := by
          rw [show (low + 1 - low) / 2 = 0 by omega]
          simp
        rw [e, show low + 1 - 1 = low by omega]
        exact one low (by omega)
      · split
        · rename_i hc
          have : hi = i + 1 := by simp at h5; omega
          subst this
          have e : (if i + (i + 1 - i) / 2 = i then i + (i + 1 - i) / 2 + 1 else i + (i + 1 - i) / 2) = i + 1 := by
            rw [show (i + 1 - i) / 2 = 0 by omega]
            simp
          rw [e]
          exact one (i + 1) (by omega)
        · exact ⟨_, rfl⟩
  | succ f ih =>
    intro i low hi h1 h2 h3 h4 h5
    have hp : 2 ^ (f + 1) = 2 * 2 ^ f := by rw [Nat.pow_succ]; omega
    have hpos : 1 ≤ 2 ^ f := Nat.one_le_two_pow
    unfold entLookup
    rw [List.getElem?_eq_getElem (by omega)]
    simp only
    split
    · exact ⟨_, rfl⟩
    · split
      · rename_i hc
        apply ih
        all_goals first | omega | (split <;> omega)
      · split
        · rename_i hc
          apply ih
          all_goals first | omega | (split <;> omega)
        · exact ⟨_, rfl⟩

/-- **C74**: the search raises no exception: the positions stay in the table, and for a table of at most `2 ^ d` entities there are at most `d + 2` nested calls. -/
theorem C74_no_exception (table : List (Str × Str)) (s : Str) (n : Nat) (hne : table ≠ []) {d : Nat} (hd : table.length ≤ 2 ^ d) : ∃ r, lookupEntity (d + 2) table s n = .ok r := by
  have hpos : 0 < table.length := List.length_pos_iff.mpr hne
  exact entLookup_total d _ _ _ (by omega) (by omega) (by omega) (by omega) (by omega)

theorem before_trans : ∀ {s t u : Str}, Before s t → Before t u → Before s u := by
  intro s
  induction s with
  | nil =>
    intro t u h1 h2
    cases t with
    | nil => simp [Before] at h1
    | cons b t =>
      cases u with
      | nil => simp [Before] at h2
      | cons c u => simp [Before]
  | cons a s ih =>
    intro t u h1 h2
    cases t with
    | nil => simp [Before] at h1
    | cons b t =>
      cases u with
      | nil => simp [Before] at h2
      | cons c u =>
        simp only [Before] at h1 h2 ⊢
        rcases h1 with h1 | ⟨rfl, h1⟩ <;> rcases h2 with h2 | ⟨rfl, h2⟩
        · exact .inl (by omega)
        · exact .inl h1
        · exact .inl h2
        · exact .inr ⟨rfl, ih h1 h2⟩

theorem before_cases : ∀ {s t : Str}, Before s t → SmallerAt s t ∨ s <+: t := by
  intro s
  induction s with
  | nil => intro t _; exact .inr (List.nil_prefix)
  | cons a s ih =>
    intro t h
    cases t with
    | nil => simp [Before] at h
    | cons b t =>
      simp only [Before] at h
      rcases h with h | ⟨rfl, h⟩
      · exact .inl ⟨[], a, b, s, t, rfl, rfl, h⟩
      · rcases ih h with ⟨p, x, y, u, v, rfl, rfl, h2⟩ | h2
        · exact .inl ⟨a :: p, x, y, u, v, rfl, rfl, h2⟩
        · exact .inr (List.cons_prefix_cons.mpr ⟨rfl, h2⟩)

theorem before_irrefl : ∀ {s : Str}, ¬ Before s s := by
  intro s
  induction s with
  | nil => simp [Before]
  | cons a s ih => simp [Before, ih]

/-- The first difference is also one of the parts of equal length. -/
theorem smallerAt_take {s t : Str} (h : SmallerAt s t) (hl : s.length ≤ t.length) : SmallerAt s (t.take s.length) := by
  obtain ⟨p, a, b, u, v, rfl, rfl, h1⟩ := h
  refine ⟨p, a, b, u, v.take u.length, rfl, ?_, h1⟩
  rw [List.length_append, List.length_cons, List.take_append, List.take_of_length_le (by omega)]
  congr 1
  rw [show p.length + (u.length + 1) - p.length = u.length + 1 by omega, List.take_succ_cons]

theorem smallerAt_take' {s t : Str} (h : SmallerAt s t) (hl : t.length ≤ s.length) : SmallerAt (s.take t.length) t := by
  obtain ⟨p, a, b, u, v, rfl, rfl, h1⟩ := h
  refine ⟨p, a, b, u.take v.length, v, ?_, rfl, h1⟩
  rw [List.length_append, List.length_cons, List.take_append, List.take_of_length_le (by omega)]
  congr 1
  rw [show p.length + (v.length + 1) - p.length = v.length + 1 by omega, List.take_succ_cons]

/-- A smaller name, whatever its length, sends the search to the right. -/
theorem cmp_smaller {x y : Str} (h : Before y x) : strncmp x y x.length = 1 := by
  rw [(C73_compare x y x.length).2.2, List.take_length]
  by_cases hl : y.length < x.length
  · left
    rw [List.length_take]
    omega
  · right
    refine ⟨by rw [List.length_take]; omega, ?_⟩
    rcases before_cases h with h1 | h1
    · exact smallerAt_take' h1 (by omega)
    · have := h1.eq_of_length (by have := h1.length_le; omega)
      subst this
      exact absurd h before_irrefl

/-- A larger name that is long enough and is not an extension sends it to the left. -/
theorem cmp_larger {x y : Str} (h : Before x y) (hl : x.length ≤ y.length) (hp : ¬ x <+: y) : strncmp x y x.length = -1 := by
  rw [(C73_compare x y x.length).2.1, List.take_length]
  right
  refine ⟨by rw [List.length_take]; omega, ?_⟩
  rcases before_cases h with h1 | h1
  · exact smallerAt_take h1 hl
  · exact absurd h1 hp

theorem entLookup_found {table : List (Str × Str)} (hs : Ascending (table.map Prod.fst)) {x e : Str} {k : Nat} (hk : table[k]? = some (x, e))
    (hx : ∀ y ∈ table.map Prod.fst, Before x y → x.length ≤ y.length ∧ ¬ x <+: y) : ∀ (f i low hi : Nat), low ≤ i → i ≤ hi → hi < table.length → low ≤ k → k ≤ hi →
    i - low ≤ 2 ^ f → hi - i ≤ 2 ^ f → entLookup table x x.length (f + 2) i low hi = .ok (some e) := by
  have hkl : k < table.length := (List.getElem?_eq_some_iff.mp hk).1
  have ord : ∀ i j (hi : i < table.length) (hj : j < table.length), i < j → Before table[i].1 table[j].1 := by
    intro i j hi hj hij
    have := List.pairwise_iff_getElem.mp hs i j (by simpa using hi) (by simpa using hj) hij
    simpa using this
  have hkx : table[k].1 = x := by rw [(List.getElem?_eq_some_iff.mp hk).2]
  have step : ∀ (f i low hi : Nat), low ≤ i → i ≤ hi → hi < table.length → low ≤ k → k ≤ hi →
      (∀ j, low ≤ j → j ≤ i - 1 → low ≤ k → k < i → j - low ≤ (i - low) - (i - low) / 2 → i - 1 - j ≤ (i - low) / 2 → entLookup table x x.length f j low (i - 1) = .ok (some e)) →
      (∀ j, i + 1 ≤ j → j ≤ hi → i < k → k ≤ hi → hi - j ≤ (hi - i) - (hi - i) / 2 → j - (i + 1) ≤ (hi - i) / 2 → entLookup table x x.length f j (i + 1) hi = .ok (some e)) →
      entLookup table x x.length (f + 1) i low hi = .ok (some e) := by
    intro f i low hi h1 h2 h3 h4 h5 hleft hright
    unfold entLookup
    have hil : i < table.length := by omega
    rw [List.getElem?_eq_getElem hil]
    simp only
    rcases Nat.lt_trichotomy k i with hki | hki | hki
    · have hb := ord k i hkl hil hki
      rw [hkx] at hb
      have hc := hx table[i].1 (List.mem_map_of_mem (List.getElem_mem _)) hb
      rw [cmp_larger hb hc.1 hc.2, if_neg (by simp), if_pos ⟨rfl, by omega⟩]
      apply hleft
      all_goals first | omega | (split <;> omega)
    · subst hki
      have e1 : table[k] = (x, e) := (List.getElem?_eq_some_iff.mp hk).2
      simp only [e1]
      rw [if_pos ⟨(C73_compare x x x.length).1.mpr rfl, trivial⟩]
    · have hb := ord i k hil hkl hki
      rw [hkx] at hb
      rw [cmp_smaller hb, if_neg (by simp), if_neg (by simp), if_pos ⟨rfl, by omega⟩]
      apply hright
      all_goals first | omega | (split <;> omega)
  intro f
  induction f with
  | zero =>
    intro i low hi h1 h2 h3 h4 h5 h6 h7
    simp only [Nat.pow_zero] at h6 h7
    have one : ∀ i low hi, low ≤ i → i ≤ hi → hi < table.length → low ≤ k → k ≤ hi → low = hi → entLookup table x x.length 1 i low hi = .ok (some e) := by
      intro i low hi h1 h2 h3 h4 h5 h6
      refine step 0 i low hi h1 h2 h3 h4 h5 ?_ ?_
      · intros; omega
      · intros; omega
    refine step 1 i low hi h1 h2 h3 h4 h5 ?_ ?_
    · intro j a1 a2 a3 a4 a5 a6
      exact one j low (i - 1) a1 a2 (by omega) a3 (by omega) (by omega)
    · intro j a1 a2 a3 a4 a5 a6
      exact one j (i + 1) hi a1 a2 h3 (by omega) a4 (by omega)
  | succ f ih =>
    intro i low hi h1 h2 h3 h4 h5 h6 h7
    have hp : 2 ^ (f + 1) = 2 * 2 ^ f := by rw [Nat.pow_succ]; omega
    have hpos : 1 ≤ 2 ^ f := Nat.one_le_two_pow
    refine step (f + 2) i low hi h1 h2 h3 h4 h5 ?_ ?_
    · intro j a1 a2 a3 a4 a5 a6
      exact ih j low (i - 1) a1 a2 (by omega) a3 (by omega) (by omega) (by omega)
    · intro j a1 a2 a3 a4 a5 a6
      exact ih j (i + 1) hi a1 a2 h3 (by omega) a4 (by omega) (by omega)

/-- **C74**: in a sorted table every name is found.  Partial: if no name behind it is shorter or starts with it (`C74_violation`). -/
theorem C74_found_partial {table : List (Str × Str)} (hs : Ascending (table.map Prod.fst)) {x e : Str} (hm : (x, e) ∈ table)
    (hx : ∀ y ∈ table.map Prod.fst, Before x y → x.length ≤ y.length ∧ ¬ x <+: y) {d : Nat} (hd : table.length ≤ 2 ^ d) :
    lookupEntity (d + 2) table x x.length = .ok (some e) := by
  obtain ⟨k, hk, hk'⟩ := List.getElem_of_mem hm
  have hne : 0 < table.length := by omega
  exact entLookup_found hs (k := k) (by rw [List.getElem?_eq_getElem hk, hk']) hx d _ _ _ (by omega) (by omega) (by omega) (by omega) (by omega) (by omega) (by omega)

/-- Only the first `n` characters of the text are looked at. -/
theorem C74_prefix {fuel : Nat} (table : List (Str × Str)) (s t : Str) (n : Nat) (h : s.take n = t.take n) : lookupEntity fuel table s n = lookupEntity fuel table t n := by
  have hc : ∀ name, strncmp s name n = strncmp t name n := by
    intro name
    unfold strncmp
    rw [h]
  have : ∀ f i low hi, entLookup table s n f i low hi = entLookup table t n f i low hi := by
    intro f
    induction f with
    | zero => intro i low hi; rfl
    | succ f ih =>
      intro i low hi
      unfold entLookup
      simp only [hc, ih]
  exact this _ _ _ _

/-- A sorted table of four entities. -/
def smallTable : List (Str × Str) := [("gt".toList, ">".toList), ("lt".toList, "<".toList), ("nbsp".toList, "\xa0".toList), ("quot".toList, "\"".toList)]

example : Ascending (smallTable.map Prod.fst) ∧ smallTable.length ≤ 2 ^ 2 ∧ (∀ y ∈ smallTable.map Prod.fst, Before "lt".toList y → "lt".toList.length ≤ y.length ∧ ¬ "lt".toList <+: y) := by
  refine ⟨?_, by decide, ?_⟩
  · simp [Ascending, smallTable, Before]
  · intro y hy hb
    simp [smallTable] at hy
    rcases hy with rfl | rfl | rfl | rfl <;> simp [Before] at hb ⊢

/-- In a sorted table the search misses a name if a longer one starts with it, or if a shorter one comes behind it: it stops, or goes the wrong way. -/
theorem C74_violation :
    (Ascending [("lt".toList), ("ltcc".toList)] ∧ lookupEntity 100 [("lt".toList, "<".toList), ("ltcc".toList, "⪦".toList)] "lt".toList 2 = .ok none) ∧
    (Ascending [("amp".toList), ("gt".toList)] ∧ lookupEntity 100 [("amp".toList, "&".toList), ("gt".toList, ">".toList)] "amp".toList 3 = .ok none) := by
  refine ⟨⟨?_, by decide +kernel⟩, ?_, by decide +kernel⟩ <;> simp [Ascending, Before]

/-! ### C56 for other newlines -/

/-- The text with another newline. -/
def withNewline (nl : Str) (t : Str) : Str := t.flatMap (fun c => if c = '\n' then nl else [c])

theorem skipNR_noCr : ∀ {t : Str}, '\r' ∉ t → skipNR t false = (t, false) := by
  intro t h
  unfold skipNR
  split
  · simp at h
  · rfl

theorem skipRN_noCr : ∀ {t : Str} (n : Nat), '\r' ∉ t → skipRN t n = (t, n) := by
  intro t n h
  unfold skipRN
  split
  · simp at h
  · rfl

theorem withNewline_cons (nl : Str) (c : Char) (t : Str) : withNewline nl (c :: t) = (if c = '\n' then nl else [c]) ++ withNewline nl t := rfl

/-- The newlines at the start, then a character. -/
theorem newlines_first (t : Str) : ∃ k u, t = List.replicate k '\n' ++ u ∧ ∀ c ∈ u.head?, c ≠ '\n' := by
  induction t with
  | nil => exact ⟨0, [], rfl, by simp⟩
  | cons c t ih =>
    by_cases h : c = '\n'
    · obtain ⟨k, u, rfl, h2⟩ := ih
      exact ⟨k + 1, u, by rw [h, List.replicate_succ]; rfl, h2⟩
    · exact ⟨0, c :: t, rfl, by simpa using h⟩

theorem skipNl_newlines : ∀ (k n : Nat) (u : Str), (∀ c ∈ u.head?, c ≠ '\n' ∧ c ≠ '\r') → skipNl (List.replicate k '\n' ++ u) n = (u, n + k) := by
  intro k
  induction k with
  | zero =>
    intro n u h
    cases u with
    | nil => rfl
    | cons c u =>
      have := h c rfl
      simp [skipNl, this.1, this.2]
  | succ k ih =>
    intro n u h
    rw [List.replicate_succ, List.cons_append, skipNl, if_pos (.inr rfl), ih _ u h]
    simp; omega

theorem skipNl_crs : ∀ (k n : Nat) (u : Str), (∀ c ∈ u.head?, c ≠ '\n' ∧ c ≠ '\r') → skipNl (List.replicate k '\r' ++ u) n = (u, n + k) := by
  intro k
  induction k with
  | zero =>
    intro n u h
    cases u with
    | nil => rfl
    | cons c u =>
      have := h c rfl
      simp [skipNl, this.1, this.2]
  | succ k ih =>
    intro n u h
    rw [List.replicate_succ, List.cons_append, skipNl, if_pos (.inl rfl), ih _ u h]
    simp; omega

theorem skipRN_pairs : ∀ (k n : Nat) (u : Str), (∀ c ∈ u.head?, c ≠ '\r') → skipRN ((List.replicate k "\r\n".toList).flatten ++ u) n = (u, n + k) := by
  intro k
  induction k with
  | zero =>
    intro n u h
    unfold skipRN
    split
    · rename_i e
      simp at e
      subst e
      simp at h
    · rfl
  | succ k ih =>
    intro n u h
    have : (List.replicate (k + 1) "\r\n".toList).flatten ++ u = '\r' :: '\n' :: ((List.replicate k "\r\n".toList).flatten ++ u) := by
      rw [List.replicate_succ, List.flatten_cons]
      rfl
    rw [this, skipRN, ih _ u h]
    simp; omega

theorem withNewline_replicate (nl : Str) (k : Nat) (u : Str) : withNewline nl (List.replicate k '\n' ++ u) = (List.replicate k nl).flatten ++ withNewline nl u := by
  induction k with
  | zero => rfl
  | succ k ih =>
    rw [List.replicate_succ, List.cons_append, withNewline_cons, if_pos rfl, ih, List.replicate_succ, List.flatten_cons, List.append_assoc]

theorem withNewline_head {nl u : Str} (h : ∀ c ∈ u.head?, c ≠ '\n') : (withNewline nl u).head? = u.head? := by
  cases u with
  | nil => rfl
  | cons c u =>
    rw [withNewline_cons, if_neg (h c rfl)]
    rfl

/-- The three scans over newlines see the same number of lines. -/
theorem skip_same {nl : Str} (hnl : nl = "\r\n".toList ∨ nl = "\r".toList) {t : Str} (hr : '\r' ∉ t) (n : Nat) :
    ∃ k u, t = List.replicate k '\n' ++ u ∧ (∀ c ∈ u.head?, c ≠ '\n') ∧ skipNl t n = (u, n + k) ∧ skipNR (withNewline nl t) false = (withNewline nl t, false) ∧
      skipNl (skipRN (withNewline nl t) n).1 (skipRN (withNewline nl t) n).2 = (withNewline nl u, n + k) := by
  obtain ⟨k, u, rfl, hu⟩ := newlines_first t
  have hu2 : ∀ c ∈ u.head?, c ≠ '\n' ∧ c ≠ '\r' := by
    intro c hc
    refine ⟨hu c hc, ?_⟩
    rintro rfl
    exact hr (by simp [List.mem_of_mem_head? hc])
  have hw : ∀ c ∈ (withNewline nl u).head?, c ≠ '\n' ∧ c ≠ '\r' := by rw [withNewline_head hu]; exact hu2
  refine ⟨k, u, rfl, hu, skipNl_newlines k n u hu2, ?_, ?_⟩
  · have hh : (withNewline nl (List.replicate k '\n' ++ u)).head? ≠ some '\n' := by
      rw [withNewline_replicate]
      cases k with
      | zero => exact fun e => (hw _ e).1 rfl
      | succ k => rcases hnl with rfl | rfl <;> simp [List.replicate_succ]
    unfold skipNR
    split
    · rename_i e
      rw [e] at hh
      simp at hh
    · rfl
  · rw [withNewline_replicate]
    rcases hnl with rfl | rfl
    · rw [skipRN_pairs k n _ (fun c hc => (hw c hc).2)]
      exact (skipNl_newlines 0 (n + k) _ hw)
    · have e : (List.replicate k "\r".toList).flatten = List.replicate k '\r' := by
        induction k with
        | zero => rfl
        | succ k ih => rw [List.replicate_succ, List.flatten_cons, ih (by intro hm; exact hr (by simpa [List.replicate_succ] using hm))]; rfl
      rw [e]
      have : skipRN (List.replicate k '\r' ++ withNewline "\r".toList u) n = (List.replicate k '\r' ++ withNewline "\r".toList u, n) := by
        unfold skipRN
        split
        · rename_i e2
          exfalso
          cases k with
          | zero =>
            rw [List.replicate_zero, List.nil_append] at e2
            exact (hw '\r' (by rw [e2]; rfl)).2 rfl
          | succ k =>
            rw [List.replicate_succ, List.cons_append] at e2
            injection e2 with _ e2
            cases k with
            | zero =>
              rw [List.replicate_zero, List.nil_append] at e2
              exact (hw '\n' (by rw [e2]; rfl)).1 rfl
            | succ k =>
              rw [List.replicate_succ, List.cons_append] at e2
              injection e2 with e2 _
              exact absurd e2 (by decide)
        · rfl
      rw [this]
      exact skipNl_crs k n _ hw

theorem interval_same {nl : Str} (hnl : nl = "\r\n".toList ∨ nl = "\r".toList) {a b : Int} : ∀ (f g : Nat) (t : Str) (n : Nat), '\r' ∉ t → t.length < f → (withNewline nl t).length < g →
    readLineIntervalLoop a b g (withNewline nl t) n = readLineIntervalLoop a b f t n := by
  intro f
  induction f with
  | zero => intro g t n _ h; omega
  | succ f ih =>
    intro g t n hr hf hg
    cases g with
    | zero => omega
    | succ g =>
      obtain ⟨k, u, e, hu, h1, h2, h3⟩ := skip_same hnl hr n
      unfold readLineIntervalLoop
      simp only [skipNR_noCr hr, skipRN_noCr n hr, h1, h2, h3]
      cases u with
      | nil => rfl
      | cons c u =>
        have hc : c ≠ '\n' := hu c rfl
        rw [withNewline_cons, if_neg hc]
        simp only [List.singleton_append]
        congr 1
        apply ih
        · intro hm
          exact hr (by rw [e]; simp [hm])
        · rw [e] at hf
          simp at hf
          omega
        · rw [e, withNewline_replicate, withNewline_cons, if_neg hc] at hg
          simp at hg
          omega

/-- **C56** for texts with another newline: the lines are the same. -/
theorem C56_newlines {nl : Str} (hnl : nl = "\r\n".toList ∨ nl = "\r".toList) {t : Str} (hr : '\r' ∉ t) (a b : Int) :
    readLineInterval (withNewline nl t) a b = readLineInterval t a b := by
  unfold readLineInterval
  split
  · rfl
  · exact interval_same hnl _ _ t 1 hr (by omega) (by omega)

example : withNewline "\r\n".toList "a\n\nb c\nd".toList = "a\r\n\r\nb c\r\nd".toList ∧ readLineInterval "a\r\n\r\nb c\r\nd".toList 2 3 = "b c".toList := by decide +kernel

end MdToc.Props
