import Verif.Env
import Mathlib.Tactic.Common
import Mathlib.Data.List.Basic

/-!
# Facts about the string operations
-/

namespace MdToc

/-! ### `strip` -/

theorem mem_takeWhile_true {p : α → Bool} {s : List α} {c : α} (h : c ∈ s.takeWhile p) : p c = true := by
  induction s with
  | nil => simp at h
  | cons a t ih =>
    rw [List.takeWhile_cons] at h
    split at h
    · simp at h; rcases h with rfl | h; exacts [by assumption, ih h]
    · simp at h

theorem lstrip_eq (p : Char → Bool) (s : Str) :
    ∃ a, s = a ++ lstrip p s ∧ (∀ c ∈ a, p c = true) ∧ (∀ c ∈ (lstrip p s).head?, p c = false) := by
  refine ⟨s.takeWhile p, (List.takeWhile_append_dropWhile).symm, fun c hc => mem_takeWhile_true hc, ?_⟩
  intro c hc
  unfold lstrip at hc
  cases h : s.dropWhile p with
  | nil => simp [h] at hc
  | cons d t =>
    have := List.head?_dropWhile_not p s
    simp only [h, List.head?_cons, Option.mem_some_iff] at *
    subst hc; simpa using this

theorem rstrip_eq (p : Char → Bool) (s : Str) :
    ∃ a, s = rstrip p s ++ a ∧ (∀ c ∈ a, p c = true) ∧ (∀ c ∈ (rstrip p s).getLast?, p c = false) := by
  obtain ⟨a, h1, h2, h3⟩ := lstrip_eq p s.reverse
  refine ⟨a.reverse, ?_, by simpa using h2, ?_⟩
  · have := congrArg List.reverse h1
    simpa [rstrip, lstrip] using this
  · simpa [rstrip, lstrip] using h3

theorem lstrip_unique {p : Char → Bool} {a b : Str} (ha : ∀ c ∈ a, p c = true)
    (hb : ∀ c ∈ b.head?, p c = false) : lstrip p (a ++ b) = b := by
  unfold lstrip
  rw [List.dropWhile_append_of_pos ha]
  cases b with
  | nil => rfl
  | cons c t => simp at hb; simp [hb]

theorem rstrip_unique {p : Char → Bool} {a b : Str} (ha : ∀ c ∈ a, p c = true)
    (hb : ∀ c ∈ b.getLast?, p c = false) : rstrip p (b ++ a) = b := by
  have := lstrip_unique (p := p) (a := a.reverse) (b := b.reverse) (by simpa using ha) (by simpa using hb)
  unfold rstrip
  unfold lstrip at this
  rw [List.reverse_append, this, List.reverse_reverse]

theorem lstrip_of_head {p : Char → Bool} {b : Str} (hb : ∀ c ∈ b.head?, p c = false) : lstrip p b = b := by
  simpa using lstrip_unique (a := []) (by simp) hb

theorem rstrip_of_last {p : Char → Bool} {b : Str} (hb : ∀ c ∈ b.getLast?, p c = false) :
    rstrip p b = b := by
  simpa using rstrip_unique (a := []) (by simp) hb

theorem lstrip_all {p : Char → Bool} {a : Str} (ha : ∀ c ∈ a, p c = true) : lstrip p a = [] := by
  simpa using lstrip_unique (b := []) ha (by simp)

theorem rstrip_all {p : Char → Bool} {a : Str} (ha : ∀ c ∈ a, p c = true) : rstrip p a = [] := by
  simpa using rstrip_unique (b := []) ha (by simp)

/-- The middle of a decomposition with stripped ends. -/
theorem strip_unique {p : Char → Bool} {a b c : Str} (ha : ∀ x ∈ a, p x = true) (hc : ∀ x ∈ c, p x = true)
    (hb : ∀ x ∈ b.head?, p x = false) (hb' : ∀ x ∈ b.getLast?, p x = false) :
    strip p (a ++ b ++ c) = b := by
  unfold strip
  cases b with
  | nil =>
    rw [List.append_nil, lstrip_all]
    · rfl
    · intro x hx; rcases List.mem_append.mp hx with h | h; exacts [ha x h, hc x h]
  | cons d t =>
    rw [List.append_assoc, lstrip_unique ha (by simpa using hb), rstrip_unique hc hb']

theorem strip_eq (p : Char → Bool) (s : Str) :
    ∃ a c, s = a ++ strip p s ++ c ∧ (∀ x ∈ a, p x = true) ∧ (∀ x ∈ c, p x = true) ∧
      (∀ x ∈ (strip p s).head?, p x = false) ∧ (∀ x ∈ (strip p s).getLast?, p x = false) := by
  obtain ⟨a, h1, h2, h3⟩ := lstrip_eq p s
  obtain ⟨c, h4, h5, h6⟩ := rstrip_eq p (lstrip p s)
  refine ⟨a, c, ?_, h2, h5, ?_, h6⟩
  · unfold strip; rw [List.append_assoc, ← h4, ← h1]
  · intro x hx
    apply h3 x
    rw [h4]
    unfold strip at hx
    rw [List.head?_append, Option.mem_def.mp hx]; rfl

theorem strip_eq_nil_iff {p : Char → Bool} {s : Str} : strip p s = [] ↔ ∀ c ∈ s, p c = true := by
  constructor
  · intro h
    obtain ⟨a, c, h1, h2, h3, _⟩ := strip_eq p s
    rw [h] at h1
    intro x hx; rw [h1] at hx
    simp at hx
    rcases hx with h | h; exacts [h2 x h, h3 x h]
  · intro h
    have := strip_unique (p := p) (a := s) (b := []) (c := []) h (by simp) (by simp) (by simp)
    simpa using this

theorem rstrip_prefix (p : Char → Bool) (s : Str) : rstrip p s <+: s := by
  obtain ⟨a, h, _⟩ := rstrip_eq p s
  exact ⟨a, h.symm⟩

theorem lstrip_suffix (p : Char → Bool) (s : Str) : lstrip p s <:+ s := List.dropWhile_suffix p

theorem rstrip_length_le (p : Char → Bool) (s : Str) : (rstrip p s).length ≤ s.length :=
  (rstrip_prefix p s).length_le

theorem strip_sublist (p : Char → Bool) (s : Str) : (strip p s).Sublist s :=
  (rstrip_prefix p _).sublist.trans (lstrip_suffix p s).sublist

/-! ### Index loops -/

theorem scanWhile_const (p : Char → Bool) : ∀ (s : Str) (i : Nat),
    scanWhile (fun _ c => p c) s i = i + (s.takeWhile p).length := by
  intro s
  induction s with
  | nil => intro i; simp [scanWhile]
  | cons c t ih =>
    intro i
    simp only [scanWhile, List.takeWhile_cons]
    split
    · rw [ih]; simp; omega
    · simp

/-! ### Numbers in decimal -/

theorem natStrAux_eq : ∀ (f n : Nat) (acc : Str), n < f →
    natStrAux f n acc = Nat.toDigitsCore 10 f n acc := by
  intro f
  induction f with
  | zero => intro n acc h; omega
  | succ f ih =>
    intro n acc h
    have hd : ∀ m < 10, digitChar m = Nat.digitChar m := by decide
    simp only [natStrAux, Nat.toDigitsCore]
    by_cases h10 : n < 10
    · have h0 : n / 10 = 0 := by omega
      have hm : n % 10 = n := by omega
      simp [h10, h0, hm, hd n h10]
    · have h0 : n / 10 ≠ 0 := by omega
      simp only [h10, h0, if_false]
      rw [ih _ _ (by omega), hd _ (by omega)]

/-- `str(n)` is the decimal representation of Lean. -/
theorem natStr_eq (n : Nat) : natStr n = (toString n).toList := by
  show natStrAux (n + 1) n [] = (Nat.repr n).toList
  rw [natStrAux_eq _ _ _ (by omega)]
  simp [Nat.repr, Nat.toDigits]

theorem natStrAux_append : ∀ (f n : Nat) (acc : Str), natStrAux f n acc = natStrAux f n [] ++ acc := by
  intro f
  induction f with
  | zero => intro n acc; simp [natStrAux]
  | succ f ih =>
    intro n acc
    simp only [natStrAux]
    split
    · simp
    · rw [ih, ih _ [_]]; simp

/-- The number read from decimal digits. -/
def ofDigits : Str → Nat := List.foldl (fun n c => n * 10 + (c.toNat - 48)) 0

theorem ofDigits_natStrAux : ∀ (f n : Nat), n < f → ofDigits (natStrAux f n []) = n := by
  intro f
  induction f with
  | zero => intro n h; omega
  | succ f ih =>
    intro n h
    have hd : ∀ m < 10, (digitChar m).toNat - 48 = m := by decide
    simp only [natStrAux]
    split
    · rename_i h10; simp [ofDigits, hd n h10]
    · rename_i h10
      rw [natStrAux_append]
      have := ih (n / 10) (by omega)
      unfold ofDigits at *
      rw [List.foldl_append, this]
      simp [hd (n % 10) (by omega)]
      omega

theorem ofDigits_natStr (n : Nat) : ofDigits (natStr n) = n := ofDigits_natStrAux _ _ (by omega)

theorem natStr_injective {m n : Nat} (h : natStr m = natStr n) : m = n := by
  rw [← ofDigits_natStr m, h, ofDigits_natStr]

theorem natStrAux_digits : ∀ (f n : Nat) (acc : Str), n < f → (∀ c ∈ acc, isAsciiDigit c = true) →
    ∀ c ∈ natStrAux f n acc, isAsciiDigit c = true := by
  intro f
  induction f with
  | zero => intro n acc h; omega
  | succ f ih =>
    intro n acc h hacc
    have hd : ∀ m < 10, isAsciiDigit (digitChar m) = true := by decide
    simp only [natStrAux]
    split
    · rename_i h10; simpa [hd n h10] using hacc
    · exact ih _ _ (by omega) (by simpa [hd (n % 10) (by omega)] using hacc)

theorem natStr_digits (n : Nat) : ∀ c ∈ natStr n, isAsciiDigit c = true :=
  natStrAux_digits _ _ _ (by omega) (by simp)

theorem natStr_ne_nil (n : Nat) : natStr n ≠ [] := by
  unfold natStr
  simp only [natStrAux]
  split
  · simp
  · rw [natStrAux_append]; simp

/-! ### Newlines -/

theorem splitNl_ne_nil (s : Str) : splitNl s ≠ [] := by
  induction s with
  | nil => simp [splitNl]
  | cons c t ih =>
    simp only [splitNl]
    split
    · simp
    · split <;> simp

theorem splitNl_no_nl : ∀ s, '\n' ∉ s → splitNl s = [s] := by
  intro s
  induction s with
  | nil => intro _; rfl
  | cons c t ih =>
    intro h
    simp at h
    simp [splitNl, ih h.2, Ne.symm h.1]

theorem splitNl_length (s : Str) : (splitNl s).length = s.count '\n' + 1 := by
  induction s with
  | nil => rfl
  | cons c t ih =>
    simp only [splitNl]
    split
    · subst_vars; simp [ih]
    · rename_i hc
      rw [List.count_cons_of_ne hc, ← ih]
      cases h : splitNl t with
      | nil => exact absurd h (splitNl_ne_nil t)
      | cons a b => simp

theorem splitNl_mem_no_nl : ∀ s, ∀ l ∈ splitNl s, '\n' ∉ l := by
  intro s
  induction s with
  | nil => simp [splitNl]
  | cons c t ih =>
    intro l hl
    simp only [splitNl] at hl
    split at hl
    · simp at hl; rcases hl with rfl | h; exacts [by simp, ih l h]
    · rename_i hc
      cases h : splitNl t with
      | nil => exact absurd h (splitNl_ne_nil t)
      | cons a b =>
        rw [h] at hl ih
        simp at hl
        rcases hl with rfl | hl
        · simp [Ne.symm hc]; exact ih a (by simp)
        · exact ih l (by simp [hl])

theorem crlfToLf_no_cr : ∀ s, '\r' ∉ s → crlfToLf s = s := by
  intro s
  induction s using crlfToLf.induct with
  | case1 => intro _; rfl
  | case2 c => intro _; rfl
  | case3 a b t hab ih => intro h; simp at h; exact absurd hab.1.symm h.1
  | case4 a b t hab ih =>
    intro h
    rw [crlfToLf, if_neg hab, ih (by simp at h ⊢; exact h.2)]

theorem replaceChar_not_mem {a b : Char} {s : Str} (h : a ∉ s) : replaceChar a b s = s := by
  unfold replaceChar
  conv => rhs; rw [← List.map_id s]
  apply List.map_congr_left
  intro c hc
  have : c ≠ a := by rintro rfl; exact h hc
  simp [this]

theorem replaceChar_no_mem {a b : Char} (h : a ≠ b) (s : Str) : a ∉ replaceChar a b s := by
  unfold replaceChar
  simp only [List.mem_map, not_exists, not_and]
  intro c _ hc
  split at hc
  · exact h hc.symm
  · rename_i hn; exact hn hc

theorem universalNewlines_no_cr {s : Str} (h : '\r' ∉ s) : universalNewlines s = s := by
  unfold universalNewlines; rw [crlfToLf_no_cr s h, replaceChar_not_mem h]

theorem universalNewlines_cr (s : Str) : '\r' ∉ universalNewlines s :=
  replaceChar_no_mem (by decide) _

end MdToc
