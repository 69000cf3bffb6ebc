import Verif.Spec.Raw
import Verif.Lemmas.HtmlExact

/-!
# The regular expressions of the inline parser against their specification
-/

set_option linter.unusedSimpArgs false

namespace MdToc

open Spec

namespace Re

open Rx

variable {w : Char → Bool}

/-! ### Expressions whose pieces are not beginnings of other ones -/

theorem matchRest_piece {r : Re} {L : Str → Prop} (h : Is w r L) (hL : PrefixFree L) {x : Str} (hx : L x) (y : Str) : r.matchRest w (x ++ y) = some y := by
  cases hm : r.matchRest w (x ++ y) with
  | none =>
    obtain ⟨p', hp⟩ := (h none (x ++ y) y).mpr ⟨x, rfl, hx⟩
    have := (matchRest_isSome_iff w r (x ++ y)).mpr ⟨p', y, hp⟩
    rw [hm] at this
    cases this
  | some z =>
    obtain ⟨p', hp⟩ := matchRest_some hm
    obtain ⟨x', e, hx'⟩ := (h _ _ _).mp ⟨p', hp⟩
    rw [(hL _ _ _ _ hx hx' e).2]

theorem matchRest_nothing {r : Re} {L : Str → Prop} (h : Is w r L) {s : Str} (hs : ∀ x y, s = x ++ y → ¬ L x) : r.matchRest w s = none := by
  cases hm : r.matchRest w s with
  | none => rfl
  | some z =>
    obtain ⟨p', hp⟩ := matchRest_some hm
    obtain ⟨x', e, hx'⟩ := (h _ _ _).mp ⟨p', hp⟩
    exact absurd hx' (hs _ _ e)

/-! ### Greedy repetition -/

/-- Greedy repetition at the end of an expression stops where nothing more matches. -/
theorem star_stuck {a : Re} (ha : ∀ p s p' s', a.Lang w p s p' s' → s'.length < s.length) {p : Option Char} {s r : Str} (h : (star a).m w p s (fun _ s' => some s') = some r) :
    ∃ p', Star (a.Lang w) p s p' r ∧ ∀ p2 s2, ¬ a.Lang w p' r p2 s2 := by
  have key : ∀ n p s, s.length ≤ n → starLoop (a.m w) n p s (fun _ s' => some s') = some r → ∃ p', Star (a.Lang w) p s p' r ∧ ∀ p2 s2, ¬ a.Lang w p' r p2 s2 := by
    intro n
    induction n with
    | zero =>
      intro p s hs h
      simp only [starLoop, Option.some.injEq] at h
      subst h
      refine ⟨p, .refl _ _, fun p2 s2 hl => ?_⟩
      have := ha _ _ _ _ hl
      omega
    | succ n ih =>
      intro p s hs h
      simp only [starLoop] at h
      split at h
      · rename_i x hb
        injection h with h
        subst h
        obtain ⟨p', s', hl, hk⟩ := (m_right w a).2 _ _ _ _ hb
        have hlt := ha _ _ _ _ hl
        simp only [hlt, if_true] at hk
        obtain ⟨p2, h1, h2⟩ := ih p' s' (by omega) hk
        exact ⟨p2, .step hl h1, h2⟩
      · rename_i hb
        injection h with h
        subst h
        refine ⟨p, .refl _ _, fun p2 s2 hl => ?_⟩
        have hlt := ha _ _ _ _ hl
        have := (m_right w a).1 p s (fun p' s' => if s'.length < s.length then starLoop (a.m w) n p' s' (fun _ s' => some s') else some s') p2 s2 hl
          (by
            simp only [hlt, if_true]
            exact (starLoop_right (m_right w a) (fun p s p' s' h => Lang.consumes h) n p2 s2 (fun _ s' => some s') (by omega)).1 p2 s2 (.refl _ _) rfl)
        rw [hb] at this
        cases this
  exact key _ _ _ (Nat.le_refl _) h

theorem star_m_some {a : Re} (p : Option Char) (s : Str) : ∃ r, (star a).m w p s (fun _ s' => some s') = some r :=
  Option.isSome_iff_exists.mp ((m_isSome_iff w (star a) p s _).mpr ⟨p, s, Star.refl _ _, rfl⟩)

/-- Tokens which do not cross the end of `b`, do not end before it and do not go on behind it. -/
structure Tokens (w : Char → Bool) (a : Re) (b z : Str) : Prop where
  more : ∀ u v p, b = u ++ v → v ≠ [] → ∃ p2 s2, a.Lang w p (v ++ z) p2 s2
  inside : ∀ u v p p2 s2, b = u ++ v → v ≠ [] → a.Lang w p (v ++ z) p2 s2 → ∃ v', s2 = v' ++ z ∧ v' <:+ v
  done : ∀ p p2 s2, ¬ a.Lang w p z p2 s2

theorem Tokens.star {a : Re} {b z : Str} (h : Tokens w a b z) {p p' : Option Char} {v r : Str} (hv : v <:+ b) (hs : Star (a.Lang w) p (v ++ z) p' r) (hr : ∀ p2 s2, ¬ a.Lang w p' r p2 s2) : r = z := by
  generalize e : v ++ z = s at hs
  induction hs generalizing v with
  | refl p s =>
    subst e
    by_cases hn : v = []
    · rw [hn]; rfl
    · obtain ⟨u, hu⟩ := hv
      obtain ⟨p2, s2, h1⟩ := h.more u v p hu.symm hn
      exact absurd h1 (hr _ _)
  | @step p s p1 s1 p' s' h1 _ ih =>
    subst e
    by_cases hn : v = []
    · subst hn
      exact absurd h1 (h.done _ _ _)
    · obtain ⟨u, hu⟩ := hv
      obtain ⟨v', rfl, hv'⟩ := h.inside u v p _ _ hu.symm hn h1
      exact ih (hv'.trans ⟨u, hu⟩) hr rfl

theorem tokens_star {a : Re} (ha : ∀ p s p' s', a.Lang w p s p' s' → s'.length < s.length) {b z : Str} (h : Tokens w a b z) (p : Option Char) : (star a).m w p (b ++ z) (fun _ s' => some s') = some z := by
  obtain ⟨r, hr⟩ := star_m_some (w := w) (a := a) p (b ++ z)
  obtain ⟨p', h1, h2⟩ := star_stuck ha hr
  rw [hr, h.star (List.suffix_refl b) h1 h2]

theorem seq_some {a b : Re} {p : Option Char} {s r : Str} (h : (seq a b).m w p s (fun _ s' => some s') = some r) :
    ∃ p1 s1, a.Lang w p s p1 s1 ∧ b.m w p1 s1 (fun _ s' => some s') = some r := (m_right w a).2 _ _ _ _ h

theorem tokens_plus {a : Re} (ha : ∀ p s p' s', a.Lang w p s p' s' → s'.length < s.length) {b z : Str} (h : Tokens w a b z) (hb : b ≠ []) : (plus a).matchRest w (b ++ z) = some z := by
  cases hm : (plus a).matchRest w (b ++ z) with
  | none =>
    obtain ⟨p2, s2, h1⟩ := h.more [] b none rfl hb
    have := (matchRest_isSome_iff w (plus a) (b ++ z)).mpr ⟨p2, s2, p2, s2, h1, .refl _ _⟩
    rw [hm] at this
    cases this
  | some r =>
    obtain ⟨p1, s1, h1, h2⟩ := seq_some hm
    obtain ⟨p', h3, h4⟩ := star_stuck ha h2
    obtain ⟨v', rfl, hv'⟩ := h.inside [] b none _ _ rfl hb h1
    rw [h.star hv' h3 h4]

theorem tokens_plus_nil {a : Re} {z : Str} (h : Tokens w a [] z) : (plus a).matchRest w z = none := by
  cases hm : (plus a).matchRest w z with
  | none => rfl
  | some r =>
    obtain ⟨p1, s1, h1, -⟩ := seq_some hm
    exact absurd h1 (h.done _ _ _)

/-- A literal, then an expression. -/
theorem lit_m {l : Str} {b : Re} {p : Option Char} {s : Str} (k : Cont) : (seq (lit l) b).m w p (l ++ s) k = b.m w (l.getLast?.or p) s k := by
  induction l generalizing p with
  | nil => simp [lit, m]
  | cons c l ih =>
    have := ih (p := some c)
    simp only [lit, m, chr, List.cons_append, beq_self_eq_true, if_true] at this ⊢
    rw [this]
    cases l <;> simp [List.getLast?_cons]

theorem Is.shorter {a : Re} {A : Str → Prop} (h : Is w a A) (h0 : ¬ A []) : ∀ p s p' s', a.Lang w p s p' s' → s'.length < s.length := by
  intro p s p' s' hl
  obtain ⟨x, rfl, hx⟩ := (h p s s').mp ⟨p', hl⟩
  cases x with
  | nil => exact absurd hx h0
  | cons c x => simp; omega

theorem Is.tokens {a : Re} {A : Str → Prop} (h : Is w a A) {b z : Str} (h1 : ∀ u v, b = u ++ v → v ≠ [] → ∃ x t, v ++ z = x ++ t ∧ A x)
    (h2 : ∀ u v x t, b = u ++ v → v ≠ [] → v ++ z = x ++ t → A x → x.length ≤ v.length) (h3 : ∀ x t, z = x ++ t → ¬ A x) : Tokens w a b z where
  more := by
    intro u v p e hv
    obtain ⟨x, t, e1, hx⟩ := h1 u v e hv
    obtain ⟨p2, hl⟩ := (h p (v ++ z) t).mpr ⟨x, e1, hx⟩
    exact ⟨p2, t, hl⟩
  inside := by
    intro u v p p2 s2 e hv hl
    obtain ⟨x, e1, hx⟩ := (h p (v ++ z) s2).mp ⟨p2, hl⟩
    have hle := h2 u v x s2 e hv e1 hx
    obtain ⟨v', e2⟩ := List.prefix_of_prefix_length_le ⟨s2, e1.symm⟩ (List.prefix_append v z) hle
    refine ⟨v', ?_, ⟨x, e2⟩⟩
    rw [← e2, List.append_assoc] at e1
    exact (List.append_cancel_left e1).symm
  done := by
    intro p p2 s2 hl
    obtain ⟨x, e1, hx⟩ := (h p z s2).mp ⟨p2, hl⟩
    exact h3 x s2 e1 hx

theorem run_before {v x z t : Str} {c : Char} (e : v ++ c :: z = x ++ t) (hx : c ∉ x) : x.length ≤ v.length := by
  by_contra hlt
  have h1 : v ++ [c] <+: v ++ c :: z := ⟨z, by simp⟩
  have h2 : x <+: v ++ c :: z := ⟨t, e.symm⟩
  have := List.prefix_of_prefix_length_le h1 h2 (by simp; omega)
  exact hx (this.subset (by simp))

/-- The tokens of the text of a processing instruction. -/
def piToken : Re := alts [plus (cls (fun c => !(c == '?' || c == '>' || c == '\x00'))), seq (chr '?') (cls (fun c => !(c == '>' || c == '\x00'))), chr '>']

theorem is_piToken : Is w piToken (fun x => (x ≠ [] ∧ ∀ c ∈ x, c ≠ '?' ∧ c ≠ '>' ∧ c ≠ '\x00') ∨ (∃ d, x = ['?', d] ∧ d ≠ '>' ∧ d ≠ '\x00') ∨ x = ['>']) := by
  refine (is_alt (is_plus_cls _) (is_alt (is_seq (is_chr _) (is_cls _)) (is_chr _))).congr ?_
  intro x
  refine or_congr ?_ (or_congr ?_ Iff.rfl)
  · refine and_congr_right fun _ => forall_congr' fun c => forall_congr' fun _ => ?_
    simp only [Bool.not_eq_true', Bool.or_eq_false_iff, beq_eq_false_iff_ne]
    tauto
  · constructor
    · rintro ⟨_, _, rfl, rfl, d, rfl, hd⟩
      exact ⟨d, rfl, by simpa using hd⟩
    · rintro ⟨d, rfl, hd⟩
      exact ⟨['?'], [d], rfl, rfl, d, rfl, by simpa using hd⟩

theorem tokens_pi {b : Str} (y : Str) (hb : Followed '?' (· = '>') b) (h0 : '\x00' ∉ b) : Tokens w piToken b ('?' :: '>' :: y) := by
  refine is_piToken.tokens ?_ ?_ ?_
  · intro u v e hv
    cases v with
    | nil => exact absurd rfl hv
    | cons c v =>
      have hc : c ≠ '\x00' := by rintro rfl; exact h0 (by simp [e])
      by_cases h1 : c = '?'
      · subst h1
        obtain ⟨d, hd, h2, h3⟩ := hb u v e
        cases v with
        | nil => simp at hd
        | cons d' v =>
          simp at hd
          subst hd
          have : d' ≠ '\x00' := by rintro rfl; exact h0 (by simp [e])
          exact ⟨['?', d'], _, rfl, .inr (.inl ⟨d', rfl, h3, this⟩)⟩
      · by_cases h2 : c = '>'
        · subst h2
          exact ⟨['>'], _, rfl, .inr (.inr rfl)⟩
        · exact ⟨[c], _, rfl, .inl ⟨by simp, by simp [h1, h2, hc]⟩⟩
  · intro u v x t e hv e1 hx
    rcases hx with ⟨-, hx⟩ | ⟨d, rfl, hd, -⟩ | rfl
    · exact run_before e1 (fun h => (hx _ h).1 rfl)
    · cases v with
      | nil => exact absurd rfl hv
      | cons c v =>
        injection e1 with e1 e2
        subst e1
        obtain ⟨d', hd', -⟩ := hb u v e
        cases v with
        | nil => simp at hd'
        | cons _ _ => simp
    · cases v with
      | nil => exact absurd rfl hv
      | cons c v => simp
  · intro x t e hx
    rcases hx with ⟨h1, hx⟩ | ⟨d, rfl, hd, -⟩ | rfl
    · cases x with
      | nil => exact h1 rfl
      | cons c x =>
        injection e with e1 e2
        exact (hx c (by simp)).1 e1.symm
    · injection e with _ e
      injection e with e _
      exact hd e.symm
    · injection e with e _
      revert e
      decide

/-- The tokens of the text of a CDATA section. -/
def cdToken : Re := alts [plus (cls (fun c => !(c == ']' || c == '\x00'))), seq (chr ']') (cls (fun c => !(c == ']' || c == '\x00'))), seqs [chr ']', chr ']', cls (fun c => !(c == '>' || c == '\x00'))]]

theorem is_cdToken : Is w cdToken (fun x => (x ≠ [] ∧ ∀ c ∈ x, c ≠ ']' ∧ c ≠ '\x00') ∨ (∃ d, x = [']', d] ∧ d ≠ ']' ∧ d ≠ '\x00') ∨ ∃ d, x = [']', ']', d] ∧ d ≠ '>' ∧ d ≠ '\x00') := by
  refine (is_alt (is_plus_cls _) (is_alt (is_seq (is_chr _) (is_cls _)) (is_seq (is_chr _) (is_seq (is_chr _) (is_cls _))))).congr ?_
  intro x
  refine or_congr ?_ (or_congr ?_ ?_)
  · refine and_congr_right fun _ => forall_congr' fun c => forall_congr' fun _ => ?_
    simp only [Bool.not_eq_true', Bool.or_eq_false_iff, beq_eq_false_iff_ne]
  · constructor
    · rintro ⟨_, _, rfl, rfl, d, rfl, hd⟩
      exact ⟨d, rfl, by simpa using hd⟩
    · rintro ⟨d, rfl, hd⟩
      exact ⟨[']'], [d], rfl, rfl, d, rfl, by simpa using hd⟩
  · constructor
    · rintro ⟨_, _, rfl, rfl, _, _, rfl, rfl, d, rfl, hd⟩
      exact ⟨d, rfl, by simpa using hd⟩
    · rintro ⟨d, rfl, hd⟩
      exact ⟨[']'], [']', d], rfl, rfl, [']'], [d], rfl, rfl, d, rfl, by simpa using hd⟩

theorem tokens_cd {b : Str} (y : Str) (hb : Followed ']' (fun _ => False) b) (h0 : '\x00' ∉ b) : Tokens w cdToken b (']' :: ']' :: '>' :: y) := by
  refine is_cdToken.tokens ?_ ?_ ?_
  · intro u v e hv
    cases v with
    | nil => exact absurd rfl hv
    | cons c v =>
      have hc : c ≠ '\x00' := by rintro rfl; exact h0 (by simp [e])
      by_cases h1 : c = ']'
      · subst h1
        obtain ⟨d, hd, h2, -⟩ := hb u v e
        cases v with
        | nil => simp at hd
        | cons d' v =>
          simp at hd
          subst hd
          have : d' ≠ '\x00' := by rintro rfl; exact h0 (by simp [e])
          exact ⟨[']', d'], _, rfl, .inr (.inl ⟨d', rfl, h2, this⟩)⟩
      · exact ⟨[c], _, rfl, .inl ⟨by simp, by simp [h1, hc]⟩⟩
  · intro u v x t e hv e1 hx
    rcases hx with ⟨-, hx⟩ | ⟨d, rfl, hd, -⟩ | ⟨d, rfl, hd, -⟩
    · exact run_before e1 (fun h => (hx _ h).1 rfl)
    · cases v with
      | nil => exact absurd rfl hv
      | cons c v =>
        injection e1 with e1 e2
        subst e1
        obtain ⟨d', hd', -⟩ := hb u v e
        cases v with
        | nil => simp at hd'
        | cons _ _ => simp
    · cases v with
      | nil => exact absurd rfl hv
      | cons c v =>
        injection e1 with e1 e2
        subst e1
        obtain ⟨d', hd', h2, -⟩ := hb u v e
        cases v with
        | nil => simp at hd'
        | cons _ _ =>
          injection e2 with e2 _
          simp at hd'
          exact absurd (hd'.symm.trans e2) h2
  · intro x t e hx
    rcases hx with ⟨h1, hx⟩ | ⟨d, rfl, hd, -⟩ | ⟨d, rfl, hd, -⟩
    · cases x with
      | nil => exact h1 rfl
      | cons c x =>
        injection e with e1 e2
        exact (hx c (by simp)).1 e1.symm
    · injection e with _ e
      injection e with e _
      exact hd e.symm
    · injection e with _ e
      injection e with _ e
      injection e with e _
      exact hd e.symm

theorem pi_rest {b : Str} (y : Str) (hb : Followed '?' (· = '>') b) (h0 : '\x00' ∉ b) : processinginstruction.matchRest w (b ++ '?' :: '>' :: y) = if b = [] then none else some ('?' :: '>' :: y) := by
  by_cases h : b = []
  · subst h
    rw [if_pos rfl]
    exact tokens_plus_nil (tokens_pi y hb h0)
  · rw [if_neg h]
    exact tokens_plus (is_piToken.shorter (by simp)) (tokens_pi y hb h0) h

theorem cd_rest {b : Str} (y : Str) (hb : Followed ']' (fun _ => False) b) (h0 : '\x00' ∉ b) :
    cdata.matchRest w ("CDATA[".toList ++ (b ++ ']' :: ']' :: '>' :: y)) = some (']' :: ']' :: '>' :: y) := by
  unfold matchRest cdata
  rw [lit_m]
  exact tokens_star (is_cdToken.shorter (by simp)) (tokens_cd y hb h0) _

theorem de_rest {n a b : Str} (y : Str) (hn : n ≠ []) (hu : ∀ c ∈ n, Upper c) (ha : a ≠ []) (hw : ∀ c ∈ a, WhiteSpace c) (hb : '>' ∉ b) (h0 : '\x00' ∉ b) :
    declaration.matchRest w (n ++ (a ++ (b ++ '>' :: y))) = some ('>' :: y) := by
  have h1 : Is w (cls (fun c => !(c == '>' || c == '\x00'))) (fun x => ∃ c, x = [c] ∧ (c ≠ '>' ∧ c ≠ '\x00')) :=
    (is_cls _).congr (fun x => exists_congr fun c => and_congr_right fun _ => by simp)
  have hden : Is w den (fun x => x ≠ [] ∧ ∀ c ∈ x, Upper c) := (is_plus_cls _).congr (fun x => by simp [Upper])
  have hws : Is w (plus spacechar) (fun x => x ≠ [] ∧ ∀ c ∈ x, WhiteSpace c) :=
    (is_plus_cls _).congr (fun x => and_congr_right fun _ => forall_congr' fun c => forall_congr' fun _ => by
      simp only [Bool.or_eq_true, beq_iff_eq, WhiteSpace]; tauto)
  have hstar := is_star h1
  have huw : ∀ c, Upper c → ¬ WhiteSpace c := by
    intro c h1 h2
    unfold Upper at h1
    rcases h2 with rfl | rfl | rfl | rfl | rfl | rfl <;> revert h1 <;> decide
  have hu' : ∀ c, Upper c → c ≠ '>' ∧ c ≠ '\x00' := by
    intro c h
    unfold Upper at h
    constructor <;> (rintro rfl; revert h; decide)
  have hw' : ∀ c, WhiteSpace c → c ≠ '>' ∧ c ≠ '\x00' := by
    intro c h
    rcases h with rfl | rfl | rfl | rfl | rfl | rfl <;> decide
  have hall : ∀ c ∈ n ++ (a ++ b), c ≠ '>' ∧ c ≠ '\x00' := by
    intro c hc
    simp only [List.mem_append] at hc
    rcases hc with hc | hc | hc
    · exact hu' c (hu c hc)
    · exact hw' c (hw c hc)
    · exact ⟨fun h => hb (h ▸ hc), fun h => h0 (h ▸ hc)⟩
  cases hm : declaration.matchRest w (n ++ (a ++ (b ++ '>' :: y))) with
  | none =>
    obtain ⟨p1, e1⟩ := (hden none (n ++ (a ++ (b ++ '>' :: y))) _).mpr ⟨n, rfl, hn, hu⟩
    obtain ⟨p2, e2⟩ := (hws p1 (a ++ (b ++ '>' :: y)) _).mpr ⟨a, rfl, ha, hw⟩
    have := (matchRest_isSome_iff w declaration (n ++ (a ++ (b ++ '>' :: y)))).mpr ⟨p2, _, p1, _, e1, p2, _, e2, .refl _ _⟩
    rw [hm] at this
    cases this
  | some r =>
    obtain ⟨p1, s1, e1, hm⟩ := seq_some hm
    obtain ⟨p2, s2, e2, hm⟩ := seq_some hm
    obtain ⟨p3, e3, hs⟩ := star_stuck (h1.shorter (by simp)) hm
    obtain ⟨x1, q1, -, hx1⟩ := (hden _ _ _).mp ⟨_, e1⟩
    obtain ⟨x2, q2, -, hx2⟩ := (hws _ _ _).mp ⟨_, e2⟩
    obtain ⟨x3, q3, hx3⟩ := (hstar p2 s2 r).mp ⟨_, e3⟩
    rw [many_one] at hx3
    have hx : '>' ∉ x1 ++ (x2 ++ x3) := by
      simp only [List.mem_append, not_or]
      exact ⟨fun h => (hu' _ (hx1 _ h)).1 rfl, fun h => (hw' _ (hx2 _ h)).1 rfl, fun h => (hx3 _ h).1 rfl⟩
    have q : (n ++ (a ++ b)) ++ '>' :: y = (x1 ++ (x2 ++ x3)) ++ r := by
      rw [List.append_assoc, List.append_assoc, q1, q2, q3]
      simp
    have hle := run_before q hx
    obtain ⟨v, hv⟩ := List.prefix_of_prefix_length_le ⟨r, q.symm⟩ (List.prefix_append (n ++ (a ++ b)) ('>' :: y)) hle
    rw [← hv, List.append_assoc] at q
    have q' := List.append_cancel_left q
    cases v with
    | nil => rw [← q']; rfl
    | cons c v =>
      have hc := hall c (by rw [← hv]; simp)
      obtain ⟨p4, h4⟩ := (h1 p3 r (v ++ '>' :: y)).mpr ⟨[c], by rw [← q']; rfl, c, rfl, hc⟩
      exact absurd h4 (hs _ _)

/-! ### Tags and autolinks -/

theorem is_value' : Is w attributevalue (AttrValue False) := is_value is_unquoted

theorem is_scanAttr : Is w attr ScanAttribute := by
  have hws : Is w (plus spacechar) (fun x => x ≠ [] ∧ ∀ c ∈ x, WhiteSpace c) :=
    (is_plus_cls _).congr (fun x => and_congr_right fun _ => forall_congr' fun c => forall_congr' fun _ => by
      simp only [Bool.or_eq_true, beq_iff_eq, WhiteSpace]; tauto)
  refine (is_seq hws (is_seq is_attributename (is_seq is_white (is_seq (is_chr _) (is_seq is_white (is_opt is_value')))))).congr ?_
  intro x
  constructor
  · rintro ⟨b, _, rfl, ⟨hb0, hb⟩, n, _, rfl, hn, a, _, rfl, ha, _, _, rfl, rfl, c, v, rfl, hc, hv⟩
    exact ⟨b, n, a, c, v, by simp, hb0, hb, hn, ha, hc, hv.symm⟩
  · rintro ⟨b, n, a, c, v, rfl, hb0, hb, hn, ha, hc, hv⟩
    exact ⟨b, n ++ (a ++ '=' :: c ++ v), by simp, ⟨hb0, hb⟩, n, a ++ '=' :: c ++ v, rfl, hn, a, '=' :: c ++ v, by simp, ha, ['='], c ++ v, by simp, rfl, c, v, rfl, hc, hv.symm⟩

theorem is_htmltag : Is w htmltag (fun u => ScanOpen ('<' :: u) ∨ ScanClose ('<' :: u)) := by
  refine (is_alt (is_seq is_tagname (is_seq (is_star is_scanAttr) (is_seq is_white (is_seq is_slash (is_chr _)))))
    (is_seq (is_chr _) (is_seq is_tagname (is_seq is_white (is_chr _))))).congr ?_
  intro x
  refine or_congr ?_ ?_
  · constructor
    · rintro ⟨n, _, rfl, hn, a, _, rfl, ha, b, _, rfl, hb, e, _, rfl, he, rfl⟩
      exact ⟨n, a, b, e, by simp, hn, ha, hb, he⟩
    · rintro ⟨n, a, b, e, h, hn, ha, hb, he⟩
      injection h with _ h
      exact ⟨n, a ++ (b ++ (e ++ ['>'])), by rw [h]; simp, hn, a, _, rfl, ha, b, _, rfl, hb, e, _, rfl, he, rfl⟩
  · constructor
    · rintro ⟨_, _, rfl, rfl, n, _, rfl, hn, b, _, rfl, hb, rfl⟩
      exact ⟨n, hn, b, by simp, hb⟩
    · rintro ⟨n, hn, b, h, hb⟩
      injection h with _ h
      exact ⟨['/'], n ++ (b ++ ['>']), by rw [h]; simp, rfl, n, _, rfl, hn, b, _, rfl, hb, rfl⟩

theorem afterTag_scanAttr {x : Str} (h : ScanAttribute x) (y : Str) : afterTag none (x ++ y) = afterTag none y := by
  obtain ⟨b, n, a, c, v, rfl, -, hb, hn, ha, hc, hv⟩ := h
  rw [show b ++ n ++ a ++ '=' :: c ++ v ++ y = b ++ (n ++ (a ++ (['='] ++ (c ++ (v ++ y))))) by simp, afterTag_plain _ (fun c hc => plain_white (hb c hc)),
    afterTag_plain _ (plain_attrName hn), afterTag_plain _ (fun c hc => plain_white (ha c hc)), afterTag_plain _ (by decide), afterTag_plain _ (fun d hd => plain_white (hc d hd))]
  rcases hv with rfl | hv
  · rfl
  · exact afterTag_value hv y

theorem afterTag_scanOpen {x : Str} (h : ScanOpen x) (y : Str) : afterTag none (x ++ y) = some y := by
  obtain ⟨n, a, b, e, rfl, hn, ha, hb, he⟩ := h
  have h1 : ∀ z, afterTag none (a ++ z) = afterTag none z := by
    intro z
    clear hb he
    induction ha with
    | nil => rfl
    | cons hx _ ih => rw [List.append_assoc, afterTag_scanAttr hx, ih]
  rw [show '<' :: n ++ a ++ b ++ e ++ ['>'] ++ y = ['<'] ++ (n ++ (a ++ (b ++ (e ++ ('>' :: y))))) by simp, afterTag_plain _ (by decide), afterTag_plain _ (plain_name hn), h1,
    afterTag_plain _ (fun c hc => plain_white (hb c hc))]
  rcases he with rfl | rfl <;> simp [afterTag]

theorem afterTag_scanClose {x : Str} (h : ScanClose x) (y : Str) : afterTag none (x ++ y) = some y := by
  obtain ⟨n, hn, b, rfl, hb⟩ := h
  rw [show '<' :: '/' :: n ++ b ++ ['>'] ++ y = ['<', '/'] ++ (n ++ (b ++ ('>' :: y))) by simp, afterTag_plain _ (by decide), afterTag_plain _ (plain_name hn),
    afterTag_plain _ (fun c hc => plain_white (hb c hc))]
  simp [afterTag]

theorem prefixFree_htmltag : PrefixFree (fun u => ScanOpen ('<' :: u) ∨ ScanClose ('<' :: u)) := by
  have key : ∀ {x : Str} (y : Str), ScanOpen x ∨ ScanClose x → afterTag none (x ++ y) = some y := by
    rintro x y (h | h)
    · exact afterTag_scanOpen h y
    · exact afterTag_scanClose h y
  intro x y x' y' h h' e
  have h1 := key y h
  rw [List.cons_append, e, ← List.cons_append, key y' h'] at h1
  injection h1 with h1
  subst h1
  exact ⟨List.append_cancel_right e, rfl⟩

theorem is_uri : Is w autolinkUri (fun u => ScanUri ('<' :: u)) := by
  refine (is_seq (is_chr _) (is_seq (is_star_cls _) (is_chr _))).congr ?_
  intro x
  constructor
  · rintro ⟨_, _, rfl, rfl, u, _, rfl, hu, rfl⟩
    refine ⟨u, by simp, fun c hc => ?_⟩
    have := hu c hc
    simp only [Bool.not_eq_true', Bool.or_eq_false_iff, beq_eq_false_iff_ne, decide_eq_false_iff_not] at this
    exact ⟨by omega, this.1.2, this.2⟩
  · rintro ⟨u, h, hu⟩
    injection h with _ h
    refine ⟨[':'], u ++ ['>'], by rw [h]; simp, rfl, u, _, rfl, fun c hc => ?_, rfl⟩
    obtain ⟨h1, h2, h3⟩ := hu c hc
    simp only [Bool.not_eq_true', Bool.or_eq_false_iff, beq_eq_false_iff_ne, decide_eq_false_iff_not]
    exact ⟨⟨by omega, h2⟩, h3⟩

theorem prefixFree_uri : PrefixFree (fun u => ScanUri ('<' :: u)) := by
  refine prefixFree_of [':'] ['>'] [] ?_
  rintro x ⟨u, h, hu⟩
  injection h with _ h
  refine ⟨u, by rw [h]; simp, ?_⟩
  simp only [List.dropLast_singleton, List.append_nil]
  exact fun h => (hu _ (h.subset (by simp))).2.2 rfl

theorem is_upTo {f : Char → Bool} : ∀ n, Is w (upTo n (cls f)) (fun x => x.length ≤ n ∧ ∀ c ∈ x, f c = true) := by
  intro n
  induction n with
  | zero =>
    refine is_eps.congr ?_
    intro x
    constructor
    · rintro rfl; simp
    · rintro ⟨h, -⟩; exact List.length_eq_zero_iff.mp (by omega)
  | succ n ih =>
    refine (is_opt (is_seq (is_cls f) ih)).congr ?_
    intro x
    constructor
    · rintro (⟨_, y, rfl, ⟨c, rfl, hc⟩, h1, h2⟩ | rfl)
      · refine ⟨by simp; omega, ?_⟩
        simpa [hc] using h2
      · simp
    · rintro ⟨h1, h2⟩
      cases x with
      | nil => exact .inr rfl
      | cons c x => exact .inl ⟨[c], x, rfl, ⟨c, rfl, h2 c (by simp)⟩, by simpa using h1, fun d hd => h2 d (by simp [hd])⟩

theorem is_emailLabel : Is w emailLabel EmailLabel := by
  refine (is_seq (is_cls _) (is_opt (is_seq (is_upTo 61) (is_cls _)))).congr ?_
  have hand : ∀ c, (isAsciiAlpha c || isAsciiDigit c) = true ↔ Letter c ∨ Digit c := by
    intro c
    rw [Bool.or_eq_true, letter_alpha, digit_digit]
  have hhyp : ∀ c, (Letter c ∨ Digit c) → c ≠ '-' := by
    rintro c h rfl
    unfold Letter Digit at h
    revert h
    decide
  intro x
  constructor
  · rintro ⟨_, y, rfl, ⟨c, rfl, hc⟩, ⟨z, _, rfl, ⟨h1, h2⟩, d, rfl, hd⟩ | rfl⟩
    · rw [hand] at hc hd
      refine ⟨by simp; omega, ?_, ⟨c, rfl, hhyp c hc⟩, d, ?_, hhyp d hd⟩
      · intro e he
        simp only [List.singleton_append, List.mem_cons, List.mem_append, List.not_mem_nil, or_false] at he
        rcases he with rfl | he | rfl
        · tauto
        · have := h2 e he
          rw [Bool.or_eq_true, hand, beq_iff_eq] at this
          tauto
        · tauto
      · rw [← List.append_assoc, List.getLast?_concat]; rfl
    · rw [hand] at hc
      exact ⟨by simp, by simpa using by tauto, ⟨c, rfl, hhyp c hc⟩, c, rfl, hhyp c hc⟩
  · rintro ⟨h1, h2, ⟨c, hc, hc'⟩, d, hd, hd'⟩
    cases x with
    | nil => simp at hc
    | cons c' x =>
      simp at hc
      subst hc
      have hc1 : Letter c' ∨ Digit c' := by have := h2 c' (by simp); tauto
      refine ⟨[c'], x, rfl, ⟨c', rfl, (hand _).mpr hc1⟩, ?_⟩
      rcases List.eq_nil_or_concat x with rfl | ⟨z, e, rfl⟩
      · exact .inr rfl
      · rw [List.concat_eq_append] at hd h1 h2 ⊢
        rw [show c' :: (z ++ [e]) = (c' :: z) ++ [e] from rfl, List.getLast?_concat] at hd
        injection hd with hd
        subst hd
        refine .inl ⟨z, [e], rfl, ⟨by simp at h1; omega, fun a ha => ?_⟩, e, rfl, (hand _).mpr (by have := h2 e (by simp); tauto)⟩
        have := h2 a (by simp [ha])
        rw [Bool.or_eq_true, hand, beq_iff_eq]
        tauto

theorem is_email : Is w autolinkEmail (fun u => ScanEmail ('<' :: u)) := by
  refine (is_seq (is_plus_cls _) (is_seq (is_chr _) (is_seq is_emailLabel (is_seq (is_star (is_seq (is_chr _) is_emailLabel)) (is_chr _))))).congr ?_
  have hchar : ∀ c, (isAsciiAlpha c || isAsciiDigit c || ".!#$%&'*+/=?^_`{|}~-".toList.contains c) = true ↔ EmailChar c := by
    intro c
    rw [Bool.or_eq_true, Bool.or_eq_true, ← letter_alpha, ← digit_digit, List.contains_iff_mem, or_assoc]
    rfl
  have hdot : ∀ x, Many (fun z => ∃ x y, z = x ++ y ∧ x = ['.'] ∧ EmailLabel y) x ↔ Many (fun y => ∃ k, y = '.' :: k ∧ EmailLabel k) x := by
    have : ∀ z, (∃ x y, z = x ++ y ∧ x = ['.'] ∧ EmailLabel y) ↔ ∃ k, z = '.' :: k ∧ EmailLabel k := by
      intro z
      constructor
      · rintro ⟨_, y, rfl, rfl, h⟩; exact ⟨y, rfl, h⟩
      · rintro ⟨k, rfl, h⟩; exact ⟨['.'], k, rfl, rfl, h⟩
    intro x
    rw [show (fun z => ∃ x y, z = x ++ y ∧ x = ['.'] ∧ EmailLabel y) = (fun y => ∃ k, y = '.' :: k ∧ EmailLabel k) from funext fun z => propext (this z)]
  intro x
  constructor
  · rintro ⟨u, _, rfl, ⟨hu0, hu⟩, _, _, rfl, rfl, l, _, rfl, hl, m, _, rfl, hm, rfl⟩
    exact ⟨u, l, m, by simp, hu0, fun c hc => (hchar c).mp (hu c hc), hl, (hdot m).mp hm⟩
  · rintro ⟨u, l, m, h, hu0, hu, hl, hm⟩
    injection h with _ h
    exact ⟨u, ['@'] ++ (l ++ (m ++ ['>'])), by rw [h]; simp, ⟨hu0, fun c hc => (hchar c).mpr (hu c hc)⟩, ['@'], _, rfl, rfl, l, _, rfl, hl, m, _, rfl, (hdot m).mpr hm, rfl⟩

theorem email_plain {c : Char} (h : EmailChar c) : c ≠ '>' ∧ c ≠ ';' ∧ c ≠ '\x00' := by
  rcases h with h | h | h
  · unfold Letter at h
    refine ⟨?_, ?_, ?_⟩ <;> (rintro rfl; revert h; decide)
  · unfold Digit at h
    refine ⟨?_, ?_, ?_⟩ <;> (rintro rfl; revert h; decide)
  · refine ⟨?_, ?_, ?_⟩ <;> (rintro rfl; revert h; decide)

theorem label_plain {l : Str} (h : EmailLabel l) : ∀ c ∈ l, c ≠ '>' ∧ c ≠ ';' ∧ c ≠ '\x00' := by
  intro c hc
  have := h.2.1 c hc
  refine email_plain ?_
  rcases this with h | h | rfl
  · exact .inl h
  · exact .inr (.inl h)
  · exact .inr (.inr (by decide))

/-- The inside of an email address. -/
theorem email_inside {x : Str} (h : ScanEmail x) : ∃ b, x = '<' :: b ++ ['>'] ∧ b ≠ [] ∧ ∀ c ∈ b, c ≠ '>' ∧ c ≠ ';' ∧ c ≠ '\x00' := by
  obtain ⟨u, l, m, rfl, hu0, hu, hl, hm⟩ := h
  refine ⟨u ++ '@' :: l ++ m, by simp, by simp, ?_⟩
  have hm' : ∀ c ∈ m, c ≠ '>' ∧ c ≠ ';' ∧ c ≠ '\x00' := by
    induction hm with
    | nil => simp
    | cons h _ ih =>
      obtain ⟨k, rfl, hk⟩ := h
      intro c hc
      simp only [List.cons_append, List.mem_cons, List.mem_append] at hc
      rcases hc with rfl | hc | hc
      · decide
      · exact label_plain hk c hc
      · exact ih c hc
  intro c hc
  simp only [List.mem_append, List.mem_cons, or_assoc] at hc
  rcases hc with hc | rfl | hc | hc
  · exact email_plain (hu c hc)
  · decide
  · exact label_plain hl c hc
  · exact hm' c hc

theorem prefixFree_email : PrefixFree (fun u => ScanEmail ('<' :: u)) := by
  refine prefixFree_of [] ['>'] [] ?_
  intro x h
  obtain ⟨b, e, -, hb⟩ := email_inside h
  injection e with _ e
  refine ⟨b, by rw [e]; simp, ?_⟩
  simp only [List.dropLast_singleton, List.append_nil]
  exact fun h => (hb _ (h.subset (by simp))).1 rfl

/-! ### Comments -/

theorem dashes {b : Str} : Many (fun x => ∃ c, (x = [c] ∨ x = ['-', c]) ∧ c ≠ '\x00' ∧ c ≠ '-') b ↔ '\x00' ∉ b ∧ ¬ ['-', '-'] <:+: b ∧ ¬ ['-'] <:+ b := by
  constructor
  · intro h
    induction h with
    | nil => simp
    | @cons x t h _ ih =>
      obtain ⟨h1, h2, h3⟩ := ih
      have key : ∀ c : Char, c ≠ '\x00' → c ≠ '-' → ('\x00' ∉ c :: t ∧ ¬ ['-', '-'] <:+: c :: t ∧ ¬ ['-'] <:+ c :: t) := by
        intro c hc hd
        refine ⟨by simp [h1, Ne.symm hc], ?_, ?_⟩
        · rw [List.infix_cons_iff]
          rintro (h | h)
          · rw [List.cons_prefix_cons] at h
            exact hd h.1.symm
          · exact h2 h
        · rw [List.suffix_cons_iff]
          rintro (h | h)
          · injection h with h
            exact hd h.symm
          · exact h3 h
      obtain ⟨c, rfl | rfl, hc, hd⟩ := h
      · exact key c hc hd
      · obtain ⟨k1, k2, k3⟩ := key c hc hd
        refine ⟨by simpa using k1, ?_, ?_⟩
        · rw [show ['-', c] ++ t = '-' :: (c :: t) from rfl, List.infix_cons_iff]
          rintro (h | h)
          · rw [List.cons_prefix_cons, List.cons_prefix_cons] at h
            exact hd h.2.1.symm
          · exact k2 h
        · rw [show ['-', c] ++ t = '-' :: (c :: t) from rfl, List.suffix_cons_iff]
          rintro (h | h)
          · cases h
          · exact k3 h
  · rintro ⟨h1, h2, h3⟩
    induction hn : b.length using Nat.strongRecOn generalizing b with
    | _ n ih =>
      cases b with
      | nil => exact .nil
      | cons c t =>
        by_cases hc : c = '-'
        · subst hc
          cases t with
          | nil => exact absurd (List.suffix_refl _) h3
          | cons d t =>
            have hd : d ≠ '-' := by
              rintro rfl
              exact h2 ⟨[], t, rfl⟩
            refine .cons (x := ['-', d]) ⟨d, .inr rfl, fun h => h1 (by simp [h]), hd⟩ (ih t.length (by rw [← hn]; simp; omega) (fun h => h1 (by simp [h])) (fun h => h2 (h.trans ⟨['-', d], [], by simp⟩))
              (fun h => h3 (h.trans ⟨['-', d], rfl⟩)) rfl)
        · refine .cons (x := [c]) ⟨c, .inl rfl, fun h => h1 (by simp [h]), hc⟩ (ih t.length (by rw [← hn]; simp) (fun h => h1 (by simp [h])) (fun h => h2 (h.trans ⟨[c], [], by simp⟩))
              (fun h => h3 (h.trans ⟨[c], rfl⟩)) rfl)

theorem is_htmlcomment : Is w htmlcomment (fun u => ∃ b, u = '-' :: b ++ "-->".toList ∧ '\x00' ∉ b ∧ ¬ ['>'] <+: b ∧ ¬ ['-', '>'] <+: b ∧ ¬ ['-'] <:+ b ∧ ¬ ['-', '-'] <:+: b) := by
  have h1 : Is w (seq (opt (chr '-')) (cls (fun c => !(c == '\x00' || c == '-')))) (fun x => ∃ c, (x = [c] ∨ x = ['-', c]) ∧ c ≠ '\x00' ∧ c ≠ '-') := by
    refine (is_seq (is_opt (is_chr _)) (is_cls _)).congr ?_
    intro x
    constructor
    · rintro ⟨_, _, rfl, rfl | rfl, c, rfl, hc⟩
      · exact ⟨c, .inr rfl, by simpa using hc⟩
      · exact ⟨c, .inl rfl, by simpa using hc⟩
    · rintro ⟨c, rfl | rfl, hc⟩
      · exact ⟨[], [c], rfl, .inr rfl, c, rfl, by simpa using hc⟩
      · exact ⟨['-'], [c], rfl, .inl rfl, c, rfl, by simpa using hc⟩
  have h2 : Is w (seq (opt (chr '-')) (cls (fun c => !(c == '\x00' || c == '>' || c == '-')))) (fun x => ∃ c, (x = [c] ∨ x = ['-', c]) ∧ c ≠ '\x00' ∧ c ≠ '>' ∧ c ≠ '-') := by
    refine (is_seq (is_opt (is_chr _)) (is_cls _)).congr ?_
    intro x
    constructor
    · rintro ⟨_, _, rfl, rfl | rfl, c, rfl, hc⟩
      · exact ⟨c, .inr rfl, by simpa [and_assoc] using hc⟩
      · exact ⟨c, .inl rfl, by simpa [and_assoc] using hc⟩
    · rintro ⟨c, rfl | rfl, hc⟩
      · exact ⟨[], [c], rfl, .inr rfl, c, rfl, by simpa [and_assoc] using hc⟩
      · exact ⟨['-'], [c], rfl, .inl rfl, c, rfl, by simpa [and_assoc] using hc⟩
  refine (is_alt (is_lit _) (is_seq (is_chr _) (is_seq h2 (is_seq (is_star h1) (is_lit _))))).congr ?_
  intro x
  constructor
  · rintro (rfl | ⟨_, _, rfl, rfl, a, _, rfl, ⟨c, hc, hc0, hc1, hc2⟩, m, _, rfl, hm, rfl⟩)
    · exact ⟨[], rfl, by simp⟩
    · have hall : Many (fun x => ∃ c, (x = [c] ∨ x = ['-', c]) ∧ c ≠ '\x00' ∧ c ≠ '-') (a ++ m) := .cons ⟨c, hc, hc0, hc2⟩ hm
      rw [dashes] at hall
      refine ⟨a ++ m, by simp, hall.1, ?_, ?_, hall.2.2, hall.2.1⟩
      · rcases hc with rfl | rfl
        · rintro ⟨z, hz⟩
          injection hz with hz
          exact hc1 hz.symm
        · rintro ⟨z, hz⟩
          injection hz with hz
          revert hz
          decide
      · rcases hc with rfl | rfl
        · rintro ⟨z, hz⟩
          injection hz with hz
          exact hc2 hz.symm
        · rintro ⟨z, hz⟩
          injection hz with _ hz
          injection hz with hz
          exact hc1 hz.symm
  · rintro ⟨b, rfl, h0, hg, hd, hs, hi⟩
    by_cases hb : b = []
    · subst hb
      exact .inl rfl
    · refine .inr ⟨['-'], b ++ "-->".toList, rfl, rfl, ?_⟩
      have := dashes.mpr ⟨h0, hi, hs⟩
      cases this with
      | nil => exact absurd rfl hb
      | @cons x t hx ht =>
        obtain ⟨c, hc, hc0, hc2⟩ := hx
        refine ⟨x, t ++ "-->".toList, by simp, ⟨c, hc, hc0, ?_, hc2⟩, t, _, rfl, ht, rfl⟩
        rintro rfl
        rcases hc with rfl | rfl
        · exact hg ⟨t, rfl⟩
        · exact hd ⟨t, rfl⟩

theorem prefixFree_scanComment : PrefixFree (fun u => ∃ b, u = '-' :: b ++ "-->".toList ∧ '\x00' ∉ b ∧ ¬ ['>'] <+: b ∧ ¬ ['-', '>'] <+: b ∧ ¬ ['-'] <:+ b ∧ ¬ ['-', '-'] <:+: b) := by
  refine prefixFree_of ['-'] "--".toList ['>'] ?_
  rintro x ⟨b, rfl, -, -, -, hs, hi⟩
  refine ⟨b, by simp, ?_⟩
  intro h
  rw [show "--".toList.dropLast = ['-'] by decide, List.infix_concat_iff] at h
  rcases h with h | h
  · obtain ⟨z, hz⟩ := h
    rw [show "--".toList = ['-'] ++ ['-'] by decide, ← List.append_assoc] at hz
    exact hs ⟨z, List.append_cancel_right hz⟩
  · exact hi h

end Re

end MdToc
