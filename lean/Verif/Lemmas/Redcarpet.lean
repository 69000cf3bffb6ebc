import Verif.Lemmas.Newlines
import Verif.Anchor

/-!
# The redcarpet anchor is the hyphenated list of lower case words
-/

set_option linter.unusedSimpArgs false

namespace MdToc

open MdToc.Spec

/-- What follows in the hyphenated text after a character of a word. -/
def afterChar (sep : Char → Bool) : Str → Str
  | [] => []
  | c :: t =>
    if sep c then
      (if words sep t = [] then [] else '-' :: hyphenate ((words sep t).map (·.map asciiLower)))
    else asciiLower c :: afterChar sep t

theorem hyphenate_cons_cons (a b : Str) (r : List Str) :
    hyphenate (a :: b :: r) = a ++ '-' :: hyphenate (b :: r) := rfl

theorem hyphenate_cons_char (c : Char) (a : Str) (r : List Str) :
    hyphenate ((c :: a) :: r) = c :: hyphenate (a :: r) := by
  cases r <;> simp [hyphenate]

theorem words_cons_ne_nil {sep : Char → Bool} {c : Char} (hc : sep c = false) (t : Str) :
    words sep (c :: t) ≠ [] := by
  simp only [words, hc, Bool.false_eq_true, if_false]
  split
  · simp
  · split
    · simp
    · split <;> simp

theorem words_cons_sep {sep : Char → Bool} {c : Char} (hc : sep c = true) (t : Str) :
    words sep (c :: t) = words sep t := by
  simp [words, hc]

theorem hyphenate_words_cons {sep : Char → Bool} : ∀ (t : Str) (c : Char), sep c = false →
    hyphenate ((words sep (c :: t)).map (·.map asciiLower)) = asciiLower c :: afterChar sep t := by
  intro t
  induction t with
  | nil => intro c hc; simp [words, hc, hyphenate, afterChar]
  | cons d t ih =>
    intro c hc
    by_cases hd : sep d = true
    · have e : words sep (c :: d :: t) = [c] :: words sep t := by
        rw [words]
        simp [hc, hd, words_cons_sep hd]
      rw [e, afterChar, if_pos hd]
      cases hw : words sep t with
      | nil => simp [hyphenate]
      | cons w r => simp [hyphenate]
    · have hd : sep d = false := by simpa using hd
      have ih' := ih d hd
      have hne := words_cons_ne_nil hd t
      rw [afterChar, if_neg (by simp [hd])]
      cases hw : words sep (d :: t) with
      | nil => exact absurd hw hne
      | cons w r =>
        have e : words sep (c :: d :: t) = (c :: w) :: r := by
          rw [words]
          simp [hc, hd, hw]
        rw [hw] at ih'
        rw [e]
        simp only [List.map_cons] at ih' ⊢
        rw [hyphenate_cons_char, ih']

theorem redcarpet_sep {c : Char} (h : c ≠ '&') :
    (!isascii c || redcarpetStripped.contains c) = redcarpetSep c := by
  have e1 : redcarpetStripped = [' ', '-'] ++ '&' :: "+$,/:;=?@\"#{}|^~[]`\\*()%.!'".toList := by decide
  have e2 : " -+$,/:;=?@\"#{}|^~[]`\\*()%.!'".toList = [' ', '-'] ++ "+$,/:;=?@\"#{}|^~[]`\\*()%.!'".toList := by
    decide
  rw [redcarpetSep, e1, e2]
  generalize "+$,/:;=?@\"#{}|^~[]`\\*()%.!'".toList = l
  congr 1
  · unfold isascii
    by_cases hn : c.toNat ≥ 128
    · have : ¬ c.toNat ≤ 127 := by omega
      simp [hn, this]
    · have : c.toNat ≤ 127 := by omega
      simp [hn, this]
  · simp [h]

/-- The end of the loop. -/
def redcarpetMid (r : Str × Nat × Bool) : Str := if r.2.2 && r.2.1 > 0 then r.1.dropLast else r.1

theorem redcarpetLoop_ins (t : Str) (acc : Str) (ins : Nat) (str : Bool) :
    (redcarpetLoop t acc ins str).2.1 =
      ins + (t.filter (fun c => c != '<' && c != '&' && !redcarpetSep c)).length := by
  induction t generalizing acc ins str with
  | nil => rfl
  | cons c t ih =>
    simp only [redcarpetLoop]
    split
    · rename_i h; subst h; rw [ih]; simp
    · split
      · rename_i h; subst h; rw [ih]; simp
      · rename_i h1 h2
        have hsep := redcarpet_sep h2
        rw [hsep]
        split
        · rename_i h; rw [ih]; simp [h]
        · rename_i h; rw [ih]; simp [h, h1, h2]; omega

theorem redcarpetLoop_words (t : Str) : (∀ str,
      redcarpetMid (redcarpetLoop t [] 0 str) = hyphenate ((redcarpetWords t).map (·.map asciiLower))) ∧
    (∀ acc ins, redcarpetMid (redcarpetLoop t acc (ins + 1) false) =
      acc ++ afterChar redcarpetSep (t.filter (fun c => c != '<' && c != '&'))) ∧
    (∀ acc ins, redcarpetMid (redcarpetLoop t (acc ++ ['-']) (ins + 1) true) =
      acc ++ (if redcarpetWords t = [] then []
        else '-' :: hyphenate ((redcarpetWords t).map (·.map asciiLower)))) := by
  induction t with
  | nil => simp [redcarpetLoop, redcarpetMid, redcarpetWords, words, hyphenate, afterChar]
  | cons c t ih =>
    simp only [redcarpetLoop]
    by_cases h1 : c = '<'
    · subst h1
      have hf : ('<' :: t).filter (fun c => c != '<' && c != '&') = t.filter (fun c => c != '<' && c != '&') := by
        simp
      unfold redcarpetWords at ih ⊢
      rw [hf]
      exact ih
    · by_cases h2 : c = '&'
      · subst h2
        have hf : ('&' :: t).filter (fun c => c != '<' && c != '&') = t.filter (fun c => c != '<' && c != '&') := by
          simp
        unfold redcarpetWords at ih ⊢
        rw [hf]
        exact ih
      · have hsep := redcarpet_sep h2
        simp only [if_neg h1, if_neg h2, hsep]
        obtain ⟨i1, i2, i3⟩ := ih
        have hf : (c :: t).filter (fun c => c != '<' && c != '&') =
            c :: t.filter (fun c => c != '<' && c != '&') := by simp [h1, h2]
        by_cases hs : redcarpetSep c = true
        · have hw : redcarpetWords (c :: t) = redcarpetWords t := by
            unfold redcarpetWords; rw [hf, words_cons_sep hs]
          simp only [if_pos hs, hw, hf, afterChar]
          refine ⟨fun str => by simpa using i1 true, fun acc ins => ?_, fun acc ins => ?_⟩
          · have h := i3 acc ins
            simp [redcarpetWords, hs] at h ⊢
            rw [h]
            congr
          · simpa using i3 acc ins
        · have hs' : redcarpetSep c = false := by simpa using hs
          have hw : hyphenate ((redcarpetWords (c :: t)).map (·.map asciiLower)) =
              asciiLower c :: afterChar redcarpetSep (t.filter (fun c => c != '<' && c != '&')) := by
            unfold redcarpetWords; rw [hf]; exact hyphenate_words_cons _ _ hs'
          have hne : redcarpetWords (c :: t) ≠ [] := by
            unfold redcarpetWords; rw [hf]; exact words_cons_ne_nil hs' _
          simp only [if_neg hs, hf, afterChar]
          refine ⟨fun str => ?_, fun acc ins => ?_, fun acc ins => ?_⟩
          · rw [hw]; simpa using i2 [asciiLower c] 0
          · rw [i2]; simp
          · rw [i2, if_neg hne, hw]; simp

theorem words_eq_nil {sep : Char → Bool} {s : Str} : words sep s = [] ↔ ∀ c ∈ s, sep c = true := by
  induction s with
  | nil => simp [words]
  | cons c t ih =>
    by_cases hc : sep c = true
    · rw [words_cons_sep hc, ih]; simp [hc]
    · simp [words_cons_ne_nil (by simpa using hc) t, hc]

theorem hexChar_eq {n : Nat} (h : n < 16) : hexChar n = Nat.digitChar n := by
  revert n; decide

theorem hexStrAux_eq : ∀ (f n : Nat) (acc : Str), n < f →
    hexStrAux f n acc = Nat.toDigitsCore 16 f n acc := by
  intro f
  induction f with
  | zero => intro n acc h; omega
  | succ f ih =>
    intro n acc h
    simp only [hexStrAux, Nat.toDigitsCore]
    by_cases h16 : n < 16
    · have : n / 16 = 0 := by omega
      simp [h16, this, hexChar_eq h16, Nat.mod_eq_of_lt h16]
    · have : n / 16 ≠ 0 := by omega
      simp only [h16, if_false, this]
      rw [ih _ _ (by omega), hexChar_eq (Nat.mod_lt _ (by omega))]

theorem hexStr_eq (n : Nat) : hexStr n = hex n := hexStrAux_eq _ _ _ (by omega)

theorem redcarpetHash_eq (s : Str) : redcarpetHash s = djb2 5381 s := by
  unfold redcarpetHash
  generalize 5381 = h
  induction s generalizing h with
  | nil => rfl
  | cons c t ih =>
    simp only [List.foldl_cons, djb2]
    rw [ih]
    congr 1
    omega

theorem redcarpetAnchor_eq (s : Str) : redcarpetAnchor s =
    if s ≠ [] ∧ redcarpetWords s = [] then "part-".toList ++ hex (djb2 5381 s)
    else hyphenate ((redcarpetWords s).map (·.map asciiLower)) := by
  have h1 := (redcarpetLoop_words s).1 false
  have h2 := redcarpetLoop_ins s [] 0 false
  unfold redcarpetAnchor
  rcases hl : redcarpetLoop s [] 0 false with ⟨acc, ins, str⟩
  rw [hl] at h1 h2
  simp only [redcarpetMid] at h1
  simp only at h2 ⊢
  rw [h1, hexStr_eq, redcarpetHash_eq]
  have : (ins = 0 ∧ s.length > 0) ↔ (s ≠ [] ∧ redcarpetWords s = []) := by
    rw [h2, redcarpetWords, words_eq_nil]
    simp only [Nat.zero_add, List.length_eq_zero_iff, List.filter_eq_nil_iff, List.length_pos_iff]
    rw [And.comm]
    refine and_congr_right fun _ => ?_
    simp only [List.mem_filter]
    constructor
    · rintro h c ⟨hc, h'⟩
      have := h c hc
      cases hs : redcarpetSep c with
      | true => rfl
      | false => simp [hs] at this; simp at h'; exact absurd (this h'.1) h'.2
    · intro h c hc h'
      simp only [Bool.and_eq_true, Bool.not_eq_true'] at h'
      rw [h c ⟨hc, by simpa using h'.1⟩] at h'
      simp at h'
  by_cases hc : ins = 0 ∧ s.length > 0
  · rw [if_pos hc, if_pos (this.mp hc)]
  · rw [if_neg hc, if_neg (fun h => hc (this.mpr h))]

/-- Words are not empty and have no separators. -/
theorem words_mem {sep : Char → Bool} (s : Str) : ∀ w ∈ words sep s, w ≠ [] ∧ ∀ c ∈ w, sep c = false := by
  induction s with
  | nil => simp [words]
  | cons c t ih =>
    by_cases hc : sep c = true
    · rw [words_cons_sep hc]; exact ih
    · have hc' : sep c = false := by simpa using hc
      rw [words.eq_def]
      simp only [hc', Bool.false_eq_true, if_false]
      split
      · simp [hc']
      · split
        · intro w hw
          rcases List.mem_cons.mp hw with rfl | hw
          · simp [hc']
          · exact ih w hw
        · split
          · simp [hc']
          · rename_i w r hw
            rw [hw] at ih
            intro w' hw'
            rcases List.mem_cons.mp hw' with rfl | hw'
            · have := ih w (by simp)
              simp [hc']; exact this.2
            · exact ih w' (by simp [hw'])

theorem hyphenate_mem {ws : List Str} {c : Char} (h : c ∈ hyphenate ws) : c = '-' ∨ ∃ w ∈ ws, c ∈ w := by
  induction ws with
  | nil => simp [hyphenate] at h
  | cons w r ih =>
    cases r with
    | nil => simp [hyphenate] at h; exact .inr ⟨w, by simp, h⟩
    | cons v r =>
      rw [hyphenate_cons_cons, List.mem_append, List.mem_cons] at h
      rcases h with h | h | h
      · exact .inr ⟨w, by simp, h⟩
      · exact .inl h
      · rcases ih h with h | ⟨x, hx, hc⟩
        · exact .inl h
        · exact .inr ⟨x, by simp [List.mem_cons.mp hx], hc⟩

/-- A hyphenated list of words without hyphens. -/
theorem hyphenate_shape {ws : List Str} (h : ∀ w ∈ ws, w ≠ [] ∧ '-' ∉ w) :
    (hyphenate ws).head? ≠ some '-' ∧ (hyphenate ws).getLast? ≠ some '-' ∧
      ¬ ['-', '-'] <:+: hyphenate ws := by
  induction ws with
  | nil => simp [hyphenate]
  | cons w r ih =>
    obtain ⟨hw1, hw2⟩ := h w (by simp)
    have hh : ∀ x, (w ++ x).head? ≠ some '-' := by
      intro x
      cases w with
      | nil => exact absurd rfl hw1
      | cons c w => simp; rintro rfl; simp at hw2
    cases r with
    | nil =>
      simp only [hyphenate]
      refine ⟨by simpa using hh [], ?_, ?_⟩
      · intro hl; exact hw2 (List.mem_of_getLast? hl)
      · rintro ⟨a, b, hab⟩; exact hw2 (by rw [← hab]; simp)
    | cons v r =>
      obtain ⟨i1, i2, i3⟩ := ih (fun x hx => h x (by simp [List.mem_cons.mp hx]))
      have hne : hyphenate (v :: r) ≠ [] := by
        have := (h v (by simp)).1
        cases r <;> simp [hyphenate, this]
      rw [hyphenate_cons_cons]
      refine ⟨hh _, ?_, ?_⟩
      · rw [List.getLast?_append]
        have : ('-' :: hyphenate (v :: r)).getLast? = (hyphenate (v :: r)).getLast? := by
          cases hv : hyphenate (v :: r) with
          | nil => exact absurd hv hne
          | cons a b => simp [List.getLast?_cons_cons]
        rw [this]
        cases hv : (hyphenate (v :: r)).getLast? with
        | none => simp at hv; exact absurd hv hne
        | some a => rw [hv] at i2; simpa using i2
      · have base : ¬ ['-', '-'] <:+: '-' :: hyphenate (v :: r) := by
          rintro ⟨a, b, hab⟩
          cases a with
          | nil =>
            simp at hab
            rw [← hab] at i1; simp at i1
          | cons a0 a =>
            simp at hab
            exact i3 ⟨a, b, by simp [← hab.2]⟩
        clear hh hw1
        generalize '-' :: hyphenate (v :: r) = tl at base
        clear ih h
        induction w with
        | nil => simpa using base
        | cons c w ihw =>
          rintro ⟨a, b, hab⟩
          cases a with
          | nil => simp at hab; exact hw2 (by rw [← hab.1]; simp)
          | cons a0 a =>
            simp at hab
            exact ihw (by simp at hw2; exact hw2.2) ⟨a, b, by simp [← hab.2]⟩

end MdToc
