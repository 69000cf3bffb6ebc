import Verif.Anchor
import Verif.Lemmas.Regex
import Verif.Lemmas.Strings
import Verif.Spec.Anchor

/-!
# Lemmas for anchors
-/

set_option linter.unusedSimpArgs false

namespace MdToc

open Spec

/-! ### `re.sub` for the expressions of anchors -/

/-- Deleting one class of characters is `filter`. -/
theorem sub_cls (w f : Char → Bool) : ∀ n p s, s.length ≤ n →
    Re.subLoop w (.cls f) [] n p s = s.filter (fun c => !f c) := by
  intro n
  induction n with
  | zero => intro p s h; cases s <;> simp_all [Re.subLoop]
  | succ n ih =>
    intro p s h
    cases s with
    | nil => simp [Re.subLoop]
    | cons c t =>
      simp at h
      simp only [Re.subLoop, Re.m]
      by_cases hf : f c = true
      · simp [hf, ih _ t h]
      · simp [hf, ih _ t h]

theorem starLoop_cls_greedy (w f : Char → Bool) : ∀ n p s, s.length ≤ n →
    Re.starLoop ((Re.cls f).m w) n p s (fun _ s' => some s') = some (s.dropWhile f) := by
  intro n
  induction n with
  | zero => intro p s h; cases s <;> simp_all [Re.starLoop]
  | succ n ih =>
    intro p s h
    cases s with
    | nil => simp [Re.starLoop, Re.cls_m_nil]
    | cons c t =>
      simp at h
      by_cases hf : f c = true
      · simp [Re.starLoop, Re.cls_m_cons, hf, ih _ t h]
      · simp [Re.starLoop, Re.cls_m_cons, hf]

theorem plus_chr_m (w : Char → Bool) (c d : Char) (p : Option Char) (t : Str) :
    (Re.plus (Re.chr c)).m w p (d :: t) (fun _ s' => some s') =
      if d = c then some (t.dropWhile (· == c)) else none := by
  simp only [Re.plus, Re.chr, Re.m]
  by_cases h : d = c
  · simp only [h, beq_self_eq_true, if_true]
    exact starLoop_cls_greedy w _ _ _ _ (Nat.le_refl _)
  · simp [h]

theorem collapse_true_dropWhile : ∀ s, collapse true s = collapse false (s.dropWhile (· == '-')) := by
  intro s
  induction s with
  | nil => rfl
  | cons c t ih =>
    by_cases h : c = '-'
    · simp [collapse, h, ih]
    · simp [collapse, h]

/-- Replacing runs of hyphens by one hyphen. -/
theorem sub_hyphens (w : Char → Bool) : ∀ n p s, s.length ≤ n →
    Re.subLoop w (Re.plus (Re.chr '-')) ['-'] n p s = collapse false s := by
  intro n
  induction n with
  | zero => intro p s h; cases s <;> simp_all [Re.subLoop, collapse]
  | succ n ih =>
    intro p s h
    cases s with
    | nil => simp [Re.subLoop, collapse]
    | cons c t =>
      simp at h
      simp only [Re.subLoop, plus_chr_m]
      by_cases hc : c = '-'
      · have hl : (t.dropWhile (· == '-')).length ≤ t.length := (List.dropWhile_suffix _).length_le
        simp only [hc, if_true, collapse]
        rw [if_pos (by omega), ih _ _ (by omega), collapse_true_dropWhile]
        simp
      · simp [hc, collapse, ih _ t h]

theorem collapse_mem {b s c} (h : c ∈ collapse b s) : c ∈ s := by
  induction s generalizing b with
  | nil => simp [collapse] at h
  | cons d t ih =>
    simp only [collapse] at h
    split at h
    · split at h
      · exact List.mem_cons_of_mem _ (ih h)
      · simp at h; rcases h with rfl | h
        · simp_all
        · exact List.mem_cons_of_mem _ (ih h)
    · simp at h; rcases h with rfl | h
      · simp
      · exact List.mem_cons_of_mem _ (ih h)

theorem noDouble_cons {c : Char} {s : Str} (h : NoDoubleHyphen s) (hc : c = '-' → s.head? ≠ some '-') :
    NoDoubleHyphen (c :: s) := by
  rintro ⟨a, b, hab⟩
  cases a with
  | nil =>
    simp at hab
    obtain ⟨rfl, rfl⟩ := hab
    exact hc rfl (by simp)
  | cons d a =>
    simp at hab
    exact h ⟨a, b, by simpa using hab.2⟩

theorem collapse_noDouble : ∀ s b, NoDoubleHyphen (collapse b s) ∧
    (b = true → (collapse b s).head? ≠ some '-') := by
  intro s
  induction s with
  | nil =>
    intro b
    refine ⟨?_, by simp [collapse]⟩
    rintro ⟨a, c, h⟩; simp [collapse] at h
  | cons c t ih =>
    intro b
    by_cases hc : c = '-'
    · cases b with
      | true => simpa [collapse, hc] using ih true
      | false =>
        simp only [collapse, hc, if_true]
        exact ⟨noDouble_cons (ih true).1 (fun _ => (ih true).2 rfl), by simp⟩
    · simp only [collapse, hc, if_false]
      exact ⟨noDouble_cons (ih false).1 (fun h => absurd h hc), by simp [hc]⟩

/-! ### The parts of `build_anchor_link` -/

theorem punctuationFilter_eq (E : Env) (s : Str) (p : Parser) :
    punctuationFilter E s p = s.filter (isAnchorChar E) := by
  unfold punctuationFilter Re.sub
  rw [sub_cls _ _ _ _ _ (Nat.le_refl _)]
  simp

/-- The counter plays no role for success, and only for the suffix of the anchor. -/
theorem buildAnchorLink_cmark {E : Env} {p : Parser} (hp : p.cmarkLike = true) (t : Str) (dup : Dup) :
    buildAnchorLink E t dup p =
      (buildAnchorLink E t (fun _ => 0) p).map (fun r =>
        (tagged r.1 (dup (E.sha1 r.1)),
          fun k => if k = E.sha1 r.1 then dup (E.sha1 r.1) + 1 else dup k)) := by
  unfold buildAnchorLink
  split
  · rfl
  · simp only [hp, if_true]
    cases h : baseAnchor E t p with
    | error e => rfl
    | ok b =>
      simp only [bind, Except.bind, Except.map, tagged, gt_iff_lt, Nat.lt_irrefl, if_false]
      congr 2
      by_cases h0 : dup (E.sha1 b) = 0
      · simp [h0]
      · rw [if_pos (by omega), if_neg h0, natStr_eq]; simp

theorem buildAnchorLink_fresh {E : Env} {p : Parser} (hp : p.cmarkLike = true) {t b : Str} {d : Dup}
    (h : buildAnchorLink E t (fun _ => 0) p = .ok (b, d)) : baseAnchor E t p = .ok b := by
  unfold buildAnchorLink at h
  split at h
  · simp at h
  · simp only [hp, if_true] at h
    cases h' : baseAnchor E t p with
    | error e => rw [h'] at h; simp [bind, Except.bind] at h
    | ok b' =>
      rw [h'] at h
      simp [bind, Except.bind] at h
      rw [h.1]

/-- What the base anchor is made of. -/
theorem baseAnchor_mem {E : Env} {p : Parser} {t b : Str} (h : baseAnchor E t p = .ok b) :
    ∀ c ∈ b, c ≠ ' ' ∧ (E.isWord c = true ∨ c = '-') := by
  unfold baseAnchor at h
  simp only [bind, Except.bind] at h
  split at h
  · simp at h
  · rename_i x _
    simp only [Except.ok.injEq] at h
    have key : ∀ c ∈ replaceChar ' ' '-' (punctuationFilter E x p), c ≠ ' ' ∧ (E.isWord c = true ∨ c = '-') := by
      intro c hc
      refine ⟨?_, ?_⟩
      · rintro rfl
        exact replaceChar_no_mem (by decide) _ hc
      · unfold replaceChar at hc
        obtain ⟨d, hd, rfl⟩ := List.mem_map.mp hc
        rw [punctuationFilter_eq] at hd
        have := (List.mem_filter.mp hd).2
        by_cases hsp : d = ' '
        · simp [hsp]
        · simp [isAnchorChar, hsp] at this ⊢
          exact this
    subst h
    intro c hc
    split at hc
    · unfold Re.sub at hc
      rw [sub_hyphens _ _ _ _ (Nat.le_refl _)] at hc
      exact key c (collapse_mem hc)
    · exact key c hc

end MdToc
