import Verif.Lemmas.Strings
import Verif.Spec.Anchor
import Verif.Atx

/-!
# `replace_and_split_newlines` and newlines inside a text
-/

set_option linter.unusedSimpArgs false

namespace MdToc

open MdToc.Spec

theorem scanBack_eq (p : Char → Bool) : ∀ (s : Str) (e : Nat), s.length ≤ e →
    scanBack p s e = e - (s.takeWhile p).length := by
  intro s
  induction s with
  | nil => intro e _; simp [scanBack]
  | cons c t ih =>
    intro e h
    simp only [scanBack, List.takeWhile_cons]
    simp at h
    split
    · rw [ih _ (by omega)]; simp; omega
    · simp

theorem crlfToLf_cons_ne {c : Char} (h : c ≠ '\r') (t : Str) : crlfToLf (c :: t) = c :: crlfToLf t := by
  cases t with
  | nil => simp [crlfToLf]
  | cons d t => rw [crlfToLf, if_neg (fun h' => h h'.1)]

theorem crlfToLf_cons_ne' {c d : Char} (h : ¬ (c = '\r' ∧ d = '\n')) (t : Str) :
    crlfToLf (c :: d :: t) = c :: crlfToLf (d :: t) := by
  rw [crlfToLf, if_neg h]

theorem crlfToLf_append {x : Char} (hx : ¬ IsNewline x) (a b : Str) :
    crlfToLf (a ++ x :: b) = crlfToLf a ++ x :: crlfToLf b := by
  have hx'' : x ≠ '\r' := fun h => hx (.inr h)
  induction a using crlfToLf.induct with
  | case1 =>
    simp only [List.nil_append, crlfToLf]
    exact crlfToLf_cons_ne hx'' b
  | case2 c =>
    simp only [List.cons_append, List.nil_append]
    rw [crlfToLf_cons_ne' (fun h => hx (.inl h.2)), crlfToLf_cons_ne hx'']
    rfl
  | case3 c d t h ih => simp [crlfToLf, h, ih]
  | case4 c d t h ih =>
    simp only [List.cons_append] at ih ⊢
    rw [crlfToLf_cons_ne' h, crlfToLf_cons_ne' h, ih]
    rfl

theorem universalNewlines_append {x : Char} (hx : ¬ IsNewline x) (a b : Str) :
    universalNewlines (a ++ x :: b) = universalNewlines a ++ x :: universalNewlines b := by
  have hx'' : x ≠ '\r' := fun h => hx (.inr h)
  simp [universalNewlines, crlfToLf_append hx, replaceChar, hx'']

theorem crlfToLf_newline (s : Str) : (∃ c ∈ s, IsNewline c) ↔ ∃ c ∈ crlfToLf s, IsNewline c := by
  induction s using crlfToLf.induct with
  | case1 => simp [crlfToLf]
  | case2 c => simp [crlfToLf]
  | case3 c d t h ih => simp [crlfToLf, h, IsNewline]
  | case4 c d t h ih =>
    rw [crlfToLf_cons_ne' h]
    simp only [List.mem_cons, exists_eq_or_imp] at ih ⊢
    rw [ih]

theorem universalNewlines_newline (s : Str) : (∃ c ∈ s, IsNewline c) ↔ '\n' ∈ universalNewlines s := by
  rw [crlfToLf_newline]
  simp only [universalNewlines, replaceChar, List.mem_map]
  constructor
  · rintro ⟨c, hc, rfl | rfl⟩
    · exact ⟨'\n', hc, by decide⟩
    · exact ⟨'\r', hc, by decide⟩
  · rintro ⟨c, hc, h⟩
    refine ⟨c, hc, ?_⟩
    split at h
    · next h' => exact .inr (by simpa using h')
    · exact .inl h

/-- Splitting the text with uniform newlines at another character. -/
theorem universalNewlines_split {x : Char} (hx : ¬ IsNewline x) {s a' b' : Str}
    (h : universalNewlines s = a' ++ x :: b') :
    ∃ a b, s = a ++ x :: b ∧ universalNewlines a = a' ∧ universalNewlines b = b' := by
  generalize hn : s.length = n
  induction n using Nat.strongRecOn generalizing s a' with
  | _ n ih =>
  cases s with
  | nil => simp [universalNewlines, crlfToLf, replaceChar] at h
  | cons c t =>
    by_cases hc : IsNewline c
    · -- one newline, of one or two characters
      have key : ∃ n' t', c :: t = n' ++ t' ∧ t'.length < (c :: t).length ∧
          ∀ r, universalNewlines (c :: t) = '\n' :: universalNewlines t' ∧
            (t' = r → universalNewlines (n' ++ r) = '\n' :: universalNewlines r) := by
        rcases hc with rfl | rfl
        · refine ⟨['\n'], t, by simp, by simp, fun r => ⟨?_, ?_⟩⟩
          · simp [universalNewlines, crlfToLf_cons_ne, replaceChar]
          · intro _; simp [universalNewlines, crlfToLf_cons_ne, replaceChar]
        · cases t with
          | nil => exact ⟨['\r'], [], rfl, by simp, fun r => ⟨by decide, fun h => by subst h; decide⟩⟩
          | cons d t =>
            by_cases hd : d = '\n'
            · subst hd
              refine ⟨['\r', '\n'], t, by simp, by simp; omega, fun r => ⟨?_, ?_⟩⟩
              · simp [universalNewlines, crlfToLf, replaceChar]
              · intro _; simp [universalNewlines, crlfToLf, replaceChar]
            · refine ⟨['\r'], d :: t, by simp, by simp, fun r => ⟨?_, ?_⟩⟩
              · simp only [universalNewlines]
                rw [crlfToLf_cons_ne' (fun h => hd h.2)]
                simp [replaceChar]
              · rintro rfl
                simp only [universalNewlines, List.cons_append, List.nil_append]
                rw [crlfToLf_cons_ne' (fun h => hd h.2)]
                simp [replaceChar]
      obtain ⟨n', t', e1, e2, e3⟩ := key
      rw [(e3 []).1] at h
      cases a' with
      | nil => simp at h; exact absurd (.inl h.1.symm) hx
      | cons y a' =>
        simp at h
        obtain ⟨rfl, h⟩ := h
        obtain ⟨a, b, h1, h2, h3⟩ := ih t'.length (by rw [← hn]; exact e2) h rfl
        refine ⟨n' ++ a, b, by rw [e1, h1]; simp, ?_, h3⟩
        have e4 := (e3 t').2 rfl
        rw [h1] at e4
        rw [← List.append_assoc, universalNewlines_append hx, universalNewlines_append hx, ← List.cons_append] at e4
        have := List.append_inj e4 (by
          have := congrArg List.length e4
          simp at this
          simp
          omega)
        rw [this.1, h2]
    · have e := universalNewlines_append hc [] t
      simp only [List.nil_append] at e
      rw [e] at h
      have en : universalNewlines [] = [] := by decide
      rw [en] at h
      cases a' with
      | nil =>
        simp at h
        exact ⟨[], t, by simp [h.1], en, h.2⟩
      | cons y a' =>
        simp at h
        obtain ⟨rfl, h⟩ := h
        obtain ⟨a, b, h1, h2, h3⟩ := ih t.length (by rw [← hn]; simp) h rfl
        refine ⟨c :: a, b, by rw [h1]; simp, ?_, h3⟩
        have e' := universalNewlines_append hc [] a
        rw [en] at e'
        simp only [List.nil_append] at e'
        rw [e', h2]

theorem lstrip_append_of_not {p : Char → Bool} {x : Char} (hx : p x = false) (a r : Str) :
    lstrip p (a ++ x :: r) = lstrip p a ++ x :: r := by
  unfold lstrip
  induction a with
  | nil => simp [hx]
  | cons c a ih =>
    simp only [List.cons_append, List.dropWhile_cons]
    split
    · exact ih
    · rfl

theorem rstrip_append_of_not {p : Char → Bool} {x : Char} (hx : p x = false) (a r : Str) :
    rstrip p (a ++ x :: r) = a ++ x :: rstrip p r := by
  have := lstrip_append_of_not hx r.reverse a.reverse
  unfold lstrip at this
  unfold rstrip
  simp only [List.reverse_append, List.reverse_cons, List.append_assoc, List.singleton_append] at this ⊢
  rw [this]
  simp

theorem replaceAndSplitNewlines_eq (s : Str) :
    replaceAndSplitNewlines s = splitNl (strip (· == '\n') (universalNewlines s)) := rfl

theorem splitNl_length_gt (s : Str) : (splitNl s).length > 1 ↔ '\n' ∈ s := by
  rw [splitNl_length, ← List.count_pos_iff]; omega

theorem mem_split {x : Char} {s : Str} (h : x ∈ s) : ∃ a b, s = a ++ x :: b :=
  List.append_of_mem h

/-- More than one line exactly when there is a newline between two other characters. -/
theorem split_length_gt_iff (s : Str) :
    (replaceAndSplitNewlines s).length > 1 ↔ HasInteriorNewline s := by
  rw [replaceAndSplitNewlines_eq, splitNl_length_gt]
  constructor
  · intro h
    obtain ⟨A, C, h1, -, -, h4, h5⟩ := strip_eq (· == '\n') (universalNewlines s)
    generalize strip (· == '\n') (universalNewlines s) = m at h h1 h4 h5
    obtain ⟨b, c, hm⟩ := mem_split h
    cases b with
    | nil => rw [hm] at h4; simp at h4
    | cons x b =>
      rcases List.eq_nil_or_concat c with rfl | ⟨c, y, rfl⟩
      · rw [hm] at h5; simp [List.getLast?_cons, List.getLast?_append] at h5
      · have hx : x ≠ '\n' := by rw [hm] at h4; simpa using h4
        have hy : y ≠ '\n' := by rw [hm] at h5; simpa [List.getLast?_cons, List.getLast?_append] using h5
        have hcr := universalNewlines_cr s
        have hx' : ¬ IsNewline x := by
          rintro (h | rfl)
          · exact hx h
          · apply hcr; rw [h1, hm]; simp
        have hy' : ¬ IsNewline y := by
          rintro (h | rfl)
          · exact hy h
          · apply hcr; rw [h1, hm]; simp
        have e : universalNewlines s = A ++ x :: (b ++ '\n' :: c ++ y :: C) := by
          rw [h1, hm]; simp
        obtain ⟨a0, r0, e1, -, e2⟩ := universalNewlines_split hx' e
        obtain ⟨m0, d0, e3, e4, -⟩ := universalNewlines_split hy' e2
        obtain ⟨n, hn1, hn2⟩ := (universalNewlines_newline m0).mpr (by rw [e4]; simp)
        obtain ⟨b0, c0, e5⟩ := mem_split hn1
        refine ⟨a0, x, b0, n, c0, y, d0, ?_, hx', hn2, hy'⟩
        rw [e1, e3, e5]; simp
  · rintro ⟨a, x, b, n, c, y, d, rfl, hx, hn, hy⟩
    have e : a ++ x :: b ++ n :: c ++ y :: d = a ++ x :: ((b ++ n :: c) ++ y :: d) := by simp
    rw [e, universalNewlines_append hx, universalNewlines_append hy]
    have hm : '\n' ∈ universalNewlines (b ++ n :: c) := (universalNewlines_newline _).mp ⟨n, by simp, hn⟩
    have hx' : (x == '\n') = false := by
      cases h : x == '\n' with
      | false => rfl
      | true => exact absurd (.inl (by simpa using h)) hx
    have hy' : (y == '\n') = false := by
      cases h : y == '\n' with
      | false => rfl
      | true => exact absurd (.inl (by simpa using h)) hy
    unfold strip
    have e2 : ∀ u v w : Str, u ++ x :: (v ++ y :: w) = (u ++ x :: v) ++ y :: w := by intros; simp
    rw [lstrip_append_of_not (p := (· == '\n')) hx', e2, rstrip_append_of_not (p := (· == '\n')) hy']
    simp [hm]

end MdToc
