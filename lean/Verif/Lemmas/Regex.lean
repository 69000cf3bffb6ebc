import Verif.Regex
import Mathlib.Tactic.Common

/-!
# The matcher against a declarative semantics of regular expressions
-/

namespace MdToc
namespace Re

/-- Repetition of a relation on states (previous character, rest). -/
inductive Star (R : Option Char → Str → Option Char → Str → Prop) :
    Option Char → Str → Option Char → Str → Prop
  | refl (p s) : Star R p s p s
  | step {p s p1 s1 p' s'} : R p s p1 s1 → Star R p1 s1 p' s' → Star R p s p' s'

/-- Declarative semantics: the expression can match from one state to another. -/
def Lang (w : Char → Bool) : Re → Option Char → Str → Option Char → Str → Prop
  | .eps, p, s, p', s' => p' = p ∧ s' = s
  | .cls f, _, s, p', s' => ∃ c, s = c :: s' ∧ f c = true ∧ p' = some c
  | .seq a b, p, s, p', s' => ∃ p1 s1, a.Lang w p s p1 s1 ∧ b.Lang w p1 s1 p' s'
  | .alt a b, p, s, p', s' => a.Lang w p s p' s' ∨ b.Lang w p s p' s'
  | .star a, p, s, p', s' => Star (a.Lang w) p s p' s'
  | .nla a, p, s, p', s' => (¬ ∃ p1 s1, a.Lang w p s p1 s1) ∧ p' = p ∧ s' = s
  | .wb, p, s, p', s' =>
    wordBefore w p ≠ wordAfter w s ∧ p' = p ∧ s' = s
  | .bos, p, s, p', s' => p = none ∧ p' = p ∧ s' = s

/-- A step consumes a prefix, and the previous character is the last one consumed. -/
def Consumes (p : Option Char) (s : Str) (p' : Option Char) (s' : Str) : Prop :=
  ∃ e, s = e ++ s' ∧ p' = e.getLast?.or p

theorem Consumes.refl (p s) : Consumes p s p s := ⟨[], by simp⟩

theorem Consumes.trans {p s p1 s1 p2 s2} (h : Consumes p s p1 s1) (h' : Consumes p1 s1 p2 s2) :
    Consumes p s p2 s2 := by
  obtain ⟨e, rfl, rfl⟩ := h
  obtain ⟨e', rfl, rfl⟩ := h'
  refine ⟨e ++ e', by simp, ?_⟩
  cases h : e'.getLast? <;> simp [List.getLast?_append, h]

theorem Consumes.length_le {p s p' s'} (h : Consumes p s p' s') : s'.length ≤ s.length := by
  obtain ⟨e, rfl, rfl⟩ := h; simp

theorem Consumes.eq_of_length {p s p' s'} (h : Consumes p s p' s') (hl : ¬ s'.length < s.length) :
    p' = p ∧ s' = s := by
  obtain ⟨e, rfl, rfl⟩ := h
  have : e = [] := by
    cases e with
    | nil => rfl
    | cons a e => simp at hl; omega
  subst this; simp

theorem Star.consumes {R} (hR : ∀ p s p' s', R p s p' s' → Consumes p s p' s') {p s p' s'}
    (h : Star R p s p' s') : Consumes p s p' s' := by
  induction h with
  | refl p s => exact .refl p s
  | step h _ ih => exact (hR _ _ _ _ h).trans ih

theorem Lang.consumes {w r} : ∀ {p s p' s'}, Lang w r p s p' s' → Consumes p s p' s' := by
  induction r with
  | eps => rintro p s p' s' ⟨rfl, rfl⟩; exact .refl _ _
  | cls f => rintro p s p' s' ⟨c, rfl, _, rfl⟩; exact ⟨[c], by simp⟩
  | seq a b iha ihb => rintro p s p' s' ⟨p1, s1, ha, hb⟩; exact (iha ha).trans (ihb hb)
  | alt a b iha ihb => rintro p s p' s' (h | h); exacts [iha h, ihb h]
  | star a ih => intro p s p' s' h; exact Star.consumes (fun _ _ _ _ => ih) h
  | nla a _ => rintro p s p' s' ⟨_, rfl, rfl⟩; exact .refl _ _
  | wb => rintro p s p' s' ⟨_, rfl, rfl⟩; exact .refl _ _
  | bos => rintro p s p' s' ⟨_, rfl, rfl⟩; exact .refl _ _

/-- The matcher of one expression is right: it succeeds exactly when the expression can match and
the continuation succeeds there, and then gives a value of the continuation. -/
def Right (body : Option Char → Str → Cont → Option Str)
    (R : Option Char → Str → Option Char → Str → Prop) : Prop :=
  (∀ p s k p' s', R p s p' s' → (k p' s').isSome → (body p s k).isSome) ∧
  (∀ p s k x, body p s k = some x → ∃ p' s', R p s p' s' ∧ k p' s' = some x)

theorem starLoop_right {body R} (h : Right body R) (hR : ∀ p s p' s', R p s p' s' → Consumes p s p' s') :
    ∀ n p s k, s.length ≤ n →
      (∀ p' s', Star R p s p' s' → (k p' s').isSome → (starLoop body n p s k).isSome) ∧
      (∀ x, starLoop body n p s k = some x → ∃ p' s', Star R p s p' s' ∧ k p' s' = some x) := by
  intro n
  induction n with
  | zero =>
    intro p s k hs
    have : s = [] := by cases s <;> simp_all
    subst this
    refine ⟨?_, ?_⟩
    · intro p' s' hst hk
      obtain ⟨rfl, rfl⟩ := (Star.consumes hR hst).eq_of_length (by simp)
      simpa [starLoop] using hk
    · intro x hx; exact ⟨p, [], .refl _ _, by simpa [starLoop] using hx⟩
  | succ n ih =>
    intro p s k hs
    refine ⟨?_, ?_⟩
    · intro p' s' hst hk
      induction hst with
      | refl p s =>
        simp only [starLoop]
        split
        · rfl
        · exact hk
      | @step p s p1 s1 p' s' hr hst' ihst =>
        by_cases hl : s1.length < s.length
        · have : (body p s (fun p' s' =>
              if s'.length < s.length then starLoop body n p' s' k else k p' s')).isSome := by
            refine h.1 _ _ _ _ _ hr ?_
            simp only [hl, if_true]
            exact (ih p1 s1 k (by omega)).1 _ _ hst' hk
          simp only [starLoop]
          split
          · rfl
          · rename_i hn; rw [hn] at this; simp at this
        · obtain ⟨rfl, rfl⟩ := (hR _ _ _ _ hr).eq_of_length hl
          exact ihst hs hk
    · intro x hx
      simp only [starLoop] at hx
      split at hx
      · rename_i r hb
        cases hx
        obtain ⟨p1, s1, hr, hk⟩ := h.2 _ _ _ _ hb
        by_cases hl : s1.length < s.length
        · simp only [hl, if_true] at hk
          obtain ⟨p', s', hst, hk'⟩ := (ih p1 s1 k (by omega)).2 _ hk
          exact ⟨p', s', .step hr hst, hk'⟩
        · simp only [hl, if_false] at hk
          exact ⟨p1, s1, .step hr (.refl _ _), hk⟩
      · exact ⟨p, s, .refl _ _, hx⟩

theorem m_right (w : Char → Bool) (r : Re) : Right (r.m w) (r.Lang w) := by
  induction r with
  | eps =>
    refine ⟨?_, ?_⟩
    · rintro p s k p' s' ⟨rfl, rfl⟩ hk; exact hk
    · intro p s k x hx; exact ⟨p, s, ⟨rfl, rfl⟩, hx⟩
  | cls f =>
    refine ⟨?_, ?_⟩
    · rintro p s k p' s' ⟨c, rfl, hf, rfl⟩ hk; simpa [Re.m, hf] using hk
    · intro p s k x hx
      cases s with
      | nil => simp [Re.m] at hx
      | cons c t =>
        simp only [Re.m] at hx
        split at hx
        · exact ⟨some c, t, ⟨c, rfl, by assumption, rfl⟩, hx⟩
        · simp at hx
  | seq a b iha ihb =>
    refine ⟨?_, ?_⟩
    · rintro p s k p' s' ⟨p1, s1, ha, hb⟩ hk
      exact iha.1 _ _ _ _ _ ha (ihb.1 _ _ _ _ _ hb hk)
    · intro p s k x hx
      obtain ⟨p1, s1, ha, hk⟩ := iha.2 _ _ _ _ hx
      obtain ⟨p2, s2, hb, hk⟩ := ihb.2 _ _ _ _ hk
      exact ⟨p2, s2, ⟨p1, s1, ha, hb⟩, hk⟩
  | alt a b iha ihb =>
    refine ⟨?_, ?_⟩
    · rintro p s k p' s' h hk
      simp only [Re.m]
      split
      · rfl
      · rename_i hn
        rcases h with h | h
        · have := iha.1 _ _ _ _ _ h hk; rw [hn] at this; simp at this
        · exact ihb.1 _ _ _ _ _ h hk
    · intro p s k x hx
      simp only [Re.m] at hx
      split at hx
      · rename_i hb
        cases hx
        obtain ⟨p', s', h, hk⟩ := iha.2 _ _ _ _ hb
        exact ⟨p', s', .inl h, hk⟩
      · obtain ⟨p', s', h, hk⟩ := ihb.2 _ _ _ _ hx
        exact ⟨p', s', .inr h, hk⟩
  | star a ih =>
    refine ⟨?_, ?_⟩
    · intro p s k p' s' h hk
      exact (starLoop_right ih (fun _ _ _ _ => Lang.consumes) _ _ _ _ (Nat.le_refl _)).1 _ _ h hk
    · intro p s k x hx
      exact (starLoop_right ih (fun _ _ _ _ => Lang.consumes) _ _ _ _ (Nat.le_refl _)).2 _ hx
  | nla a ih =>
    refine ⟨?_, ?_⟩
    · rintro p s k p' s' ⟨hn, rfl, rfl⟩ hk
      simp only [Re.m]
      split
      · rename_i x hx
        obtain ⟨p1, s1, h, _⟩ := ih.2 _ _ _ _ hx
        exact absurd ⟨p1, s1, h⟩ hn
      · exact hk
    · intro p s k x hx
      simp only [Re.m] at hx
      split at hx
      · simp at hx
      · rename_i hn
        refine ⟨p, s, ⟨?_, rfl, rfl⟩, hx⟩
        rintro ⟨p1, s1, h⟩
        have := ih.1 p s (fun _ s' => some s') p1 s1 h rfl
        rw [hn] at this; simp at this
  | wb =>
    refine ⟨?_, ?_⟩
    · rintro p s k p' s' ⟨hn, rfl, rfl⟩ hk
      simp only [Re.m]
      rw [if_pos]
      · exact hk
      · simpa using hn
    · intro p s k x hx
      simp only [Re.m] at hx
      split at hx
      · rename_i h; exact ⟨p, s, ⟨by simpa using h, rfl, rfl⟩, hx⟩
      · simp at hx
  | bos =>
    refine ⟨?_, ?_⟩
    · rintro p s k p' s' ⟨rfl, rfl, rfl⟩ hk; exact hk
    · intro p s k x hx
      cases p with
      | none => exact ⟨none, s, ⟨rfl, rfl, rfl⟩, hx⟩
      | some c => simp [Re.m] at hx

theorem m_isSome_iff (w : Char → Bool) (r : Re) (p s k) :
    (r.m w p s k).isSome = true ↔ ∃ p' s', r.Lang w p s p' s' ∧ (k p' s').isSome = true := by
  constructor
  · intro h
    obtain ⟨x, hx⟩ := Option.isSome_iff_exists.mp h
    obtain ⟨p', s', h1, h2⟩ := (m_right w r).2 _ _ _ _ hx
    exact ⟨p', s', h1, by simp [h2]⟩
  · rintro ⟨p', s', h1, h2⟩; exact (m_right w r).1 _ _ _ _ _ h1 h2

/-- `re.match` succeeds exactly when the expression matches a prefix. -/
theorem matchRest_isSome_iff (w : Char → Bool) (r : Re) (s : Str) :
    (r.matchRest w s).isSome = true ↔ ∃ p' s', r.Lang w none s p' s' := by
  simp [matchRest, m_isSome_iff]

theorem matchRest_some {w r s x} (h : matchRest w r s = some x) : ∃ p', r.Lang w none s p' x := by
  obtain ⟨p', s', h1, h2⟩ := (m_right w r).2 _ _ _ _ h
  cases h2; exact ⟨p', h1⟩

/-- `re.fullmatch` succeeds exactly when the expression matches the whole string. -/
theorem fullmatch_iff (w : Char → Bool) (r : Re) (s : Str) :
    r.fullmatch w s = true ↔ ∃ p', r.Lang w none s p' [] := by
  simp only [fullmatch, m_isSome_iff]
  constructor
  · rintro ⟨p', s', h, hk⟩
    split at hk
    · subst_vars; exact ⟨p', h⟩
    · simp at hk
  · rintro ⟨p', h⟩; exact ⟨p', [], h, by simp⟩

/-! ### Building blocks -/

theorem cls_m_nil (w f : Char → Bool) (p k) : (cls f).m w p [] k = none := rfl

theorem cls_m_cons (w f : Char → Bool) (p c t k) :
    (cls f).m w p (c :: t) k = if f c then k (some c) t else none := rfl

theorem lang_chr {w c p s p' s'} : (chr c).Lang w p s p' s' ↔ s = c :: s' ∧ p' = some c := by
  simp only [chr, Lang]
  constructor
  · rintro ⟨d, rfl, hd, rfl⟩
    have : d = c := by simpa using hd
    subst this; exact ⟨rfl, rfl⟩
  · rintro ⟨rfl, rfl⟩; exact ⟨c, rfl, by simp, rfl⟩

theorem star_cls_iff {w f p s p' s'} :
    (star (cls f)).Lang w p s p' s' ↔ ∃ e, s = e ++ s' ∧ (∀ c ∈ e, f c = true) ∧ p' = e.getLast?.or p := by
  constructor
  · intro h
    change Star _ _ _ _ _ at h
    induction h with
    | refl p s => exact ⟨[], by simp⟩
    | step h _ ih =>
      obtain ⟨c, rfl, hf, rfl⟩ := h
      obtain ⟨e, rfl, he, rfl⟩ := ih
      refine ⟨c :: e, by simp, by simpa [hf] using he, ?_⟩
      cases e with
      | nil => simp
      | cons a e => simp [List.getLast?_cons]
  · rintro ⟨e, rfl, he, rfl⟩
    change Star _ _ _ _ _
    induction e generalizing p with
    | nil => simpa using Star.refl _ _
    | cons a e ih =>
      refine .step (p1 := some a) (s1 := e ++ s') ⟨a, rfl, he a (by simp), rfl⟩ ?_
      have := ih (p := some a) (fun c hc => he c (by simp [hc]))
      have h2 : (a :: e).getLast?.or p = e.getLast?.or (some a) := by
        cases e <;> simp [List.getLast?_cons]
      rw [h2]; exact this

theorem plus_cls_iff {w f p s p' s'} :
    (plus (cls f)).Lang w p s p' s' ↔
      ∃ e, e ≠ [] ∧ s = e ++ s' ∧ (∀ c ∈ e, f c = true) ∧ p' = e.getLast?.or p := by
  constructor
  · rintro ⟨p1, s1, ⟨c, rfl, hf, rfl⟩, h⟩
    obtain ⟨e, rfl, he, rfl⟩ := star_cls_iff.mp h
    refine ⟨c :: e, by simp, by simp, by simpa [hf] using he, ?_⟩
    cases e with
    | nil => simp
    | cons a e => simp [List.getLast?_cons]
  · rintro ⟨e, hne, rfl, he, rfl⟩
    cases e with
    | nil => exact absurd rfl hne
    | cons a e =>
      refine ⟨some a, e ++ s', ⟨a, rfl, he a (by simp), rfl⟩, star_cls_iff.mpr ⟨e, rfl, fun c hc => he c (by simp [hc]), ?_⟩⟩
      cases e with
      | nil => simp
      | cons b e => simp [List.getLast?_cons]

/-! ### Substitution -/

/-- What `re.sub` with the empty replacement gives is a subsequence. -/
theorem subLoop_sublist (w : Char → Bool) (r : Re) :
    ∀ n p s, (subLoop w r [] n p s).Sublist s := by
  intro n
  induction n with
  | zero => intro p s; simp [subLoop]
  | succ n ih =>
    intro p s
    cases s with
    | nil => simp [subLoop]
    | cons c t =>
      simp only [subLoop]
      split
      · rename_i rest hm
        split
        · obtain ⟨p', s', h, hk⟩ := (m_right w r).2 _ _ _ _ hm
          cases hk
          obtain ⟨e, he, _⟩ := h.consumes
          have := ih ((c :: t).take (t.length + 1 - rest.length)).getLast? rest
          simp only [List.nil_append]
          refine this.trans ?_
          rw [he]; exact List.sublist_append_right _ _
        · exact (ih (some c) t).cons_cons c
      · exact (ih (some c) t).cons_cons c

theorem sub_sublist (w : Char → Bool) (r : Re) (s : Str) : (r.sub w [] s).Sublist s :=
  subLoop_sublist w r _ _ _

/-- If the expression matches nowhere, `re.sub` changes nothing. -/
theorem subLoop_of_no_match {w r repl} : ∀ n p s,
    (∀ p t, t <:+ s → ¬ ∃ p' s', r.Lang w p t p' s') → subLoop w r repl n p s = s := by
  intro n
  induction n with
  | zero => intro p s _; simp [subLoop]
  | succ n ih =>
    intro p s h
    cases s with
    | nil => simp [subLoop]
    | cons c t =>
      have hn : r.m w p (c :: t) (fun _ s' => some s') = none := by
        rw [← Option.not_isSome_iff_eq_none]
        intro hs
        obtain ⟨p', s', hl, _⟩ := (m_isSome_iff w r _ _ _).mp hs
        exact h p (c :: t) (List.suffix_refl _) ⟨p', s', hl⟩
      simp only [subLoop, hn]
      rw [ih]
      intro p t' ht'
      exact h p t' (ht'.trans (List.suffix_cons _ _))

end Re
end MdToc
