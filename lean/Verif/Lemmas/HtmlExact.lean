import Verif.Spec.Html
import Verif.Lemmas.Html
import Verif.Lemmas.Tags
import Mathlib.Data.List.Induction

/-!
# The regular expressions of inline HTML against their specification
-/

set_option linter.unusedSimpArgs false

namespace MdToc

open Spec

namespace Re

variable {w : Char → Bool}

/-- The expression matches exactly the pieces `L`, wherever they stand. -/
def Is (w : Char → Bool) (r : Re) (L : Str → Prop) : Prop := ∀ p s s', (∃ p', r.Lang w p s p' s') ↔ ∃ x, s = x ++ s' ∧ L x

theorem Is.congr {r : Re} {L L' : Str → Prop} (h : Is w r L) (hL : ∀ x, L x ↔ L' x) : Is w r L' := by
  intro p s s'
  rw [h p s s']
  constructor
  · rintro ⟨x, e, hx⟩; exact ⟨x, e, (hL x).mp hx⟩
  · rintro ⟨x, e, hx⟩; exact ⟨x, e, (hL x).mpr hx⟩

theorem is_eps : Is w eps (fun x => x = []) := by
  intro p s s'
  constructor
  · rintro ⟨p', rfl, rfl⟩; exact ⟨[], rfl, rfl⟩
  · rintro ⟨x, rfl, rfl⟩; exact ⟨p, rfl, rfl⟩

theorem is_cls (f : Char → Bool) : Is w (cls f) (fun x => ∃ c, x = [c] ∧ f c = true) := by
  intro p s s'
  constructor
  · rintro ⟨p', c, rfl, hc, rfl⟩; exact ⟨[c], rfl, c, rfl, hc⟩
  · rintro ⟨x, rfl, c, rfl, hc⟩; exact ⟨some c, c, rfl, hc, rfl⟩

theorem is_chr (c : Char) : Is w (chr c) (fun x => x = [c]) :=
  (is_cls _).congr (fun x => ⟨fun ⟨d, h, hd⟩ => by have : d = c := by simpa using hd
                                                   rw [h, this], fun h => ⟨c, h, by simp⟩⟩)

theorem is_seq {a b : Re} {A B : Str → Prop} (ha : Is w a A) (hb : Is w b B) : Is w (seq a b) (fun z => ∃ x y, z = x ++ y ∧ A x ∧ B y) := by
  intro p s s'
  constructor
  · rintro ⟨p', p1, s1, h1, h2⟩
    obtain ⟨x, rfl, hx⟩ := (ha p s s1).mp ⟨p1, h1⟩
    obtain ⟨y, rfl, hy⟩ := (hb p1 s1 s').mp ⟨p', h2⟩
    exact ⟨x ++ y, by simp, x, y, rfl, hx, hy⟩
  · rintro ⟨z, rfl, x, y, rfl, hx, hy⟩
    obtain ⟨p1, h1⟩ := (ha p (x ++ y ++ s') (y ++ s')).mpr ⟨x, by simp, hx⟩
    obtain ⟨p', h2⟩ := (hb p1 (y ++ s') s').mpr ⟨y, rfl, hy⟩
    exact ⟨p', p1, _, h1, h2⟩

theorem is_alt {a b : Re} {A B : Str → Prop} (ha : Is w a A) (hb : Is w b B) : Is w (alt a b) (fun z => A z ∨ B z) := by
  intro p s s'
  constructor
  · rintro ⟨p', h | h⟩
    · obtain ⟨x, e, hx⟩ := (ha p s s').mp ⟨p', h⟩
      exact ⟨x, e, .inl hx⟩
    · obtain ⟨x, e, hx⟩ := (hb p s s').mp ⟨p', h⟩
      exact ⟨x, e, .inr hx⟩
  · rintro ⟨x, e, hx | hx⟩
    · obtain ⟨p', h⟩ := (ha p s s').mpr ⟨x, e, hx⟩
      exact ⟨p', .inl h⟩
    · obtain ⟨p', h⟩ := (hb p s s').mpr ⟨x, e, hx⟩
      exact ⟨p', .inr h⟩

theorem is_opt {a : Re} {A : Str → Prop} (ha : Is w a A) : Is w (opt a) (fun z => A z ∨ z = []) := is_alt ha is_eps

theorem is_star {a : Re} {A : Str → Prop} (ha : Is w a A) : Is w (star a) (Many A) := by
  intro p s s'
  constructor
  · rintro ⟨p', h⟩
    change Star _ _ _ _ _ at h
    induction h with
    | refl p s => exact ⟨[], rfl, .nil⟩
    | step h _ ih =>
      obtain ⟨t, rfl, ht⟩ := ih
      obtain ⟨x, rfl, hx⟩ := (ha _ _ _).mp ⟨_, h⟩
      exact ⟨x ++ t, by simp, .cons hx ht⟩
  · rintro ⟨x, rfl, hx⟩
    induction hx generalizing p with
    | nil => exact ⟨p, Star.refl _ _⟩
    | @cons x t hx _ ih =>
      obtain ⟨p1, h1⟩ := (ha p (x ++ t ++ s') (t ++ s')).mpr ⟨x, by simp, hx⟩
      obtain ⟨p', h2⟩ := ih p1
      exact ⟨p', Star.step h1 h2⟩

theorem is_star_cls (f : Char → Bool) : Is w (star (cls f)) (fun x => ∀ c ∈ x, f c = true) := by
  intro p s s'
  constructor
  · rintro ⟨p', h⟩
    obtain ⟨e, h1, h2, -⟩ := star_cls_iff.mp h
    exact ⟨e, h1, h2⟩
  · rintro ⟨x, h1, h2⟩
    exact ⟨_, star_cls_iff.mpr ⟨x, h1, h2, rfl⟩⟩

theorem is_plus_cls (f : Char → Bool) : Is w (plus (cls f)) (fun x => x ≠ [] ∧ ∀ c ∈ x, f c = true) := by
  intro p s s'
  constructor
  · rintro ⟨p', h⟩
    obtain ⟨e, h0, h1, h2, -⟩ := plus_cls_iff.mp h
    exact ⟨e, h1, h0, h2⟩
  · rintro ⟨x, h1, h0, h2⟩
    exact ⟨_, plus_cls_iff.mpr ⟨x, h0, h1, h2, rfl⟩⟩

theorem is_lit (l : Str) : Is w (lit l) (fun x => x = l) := by
  intro p s s'
  constructor
  · rintro ⟨p', h⟩
    exact ⟨l, (lang_lit.mp h).1, rfl⟩
  · rintro ⟨x, rfl, rfl⟩
    exact ⟨_, lang_lit.mpr ⟨rfl, rfl⟩⟩

/-! ### The removal of all matches -/

theorem subLoop_deleted {r : Re} {L : Str → Prop} (h : Is w r L) (h0 : ¬ L []) : ∀ n p s, s.length ≤ n → Deleted L s (subLoop w r [] n p s) := by
  intro n
  induction n with
  | zero =>
    intro p s hs
    have : s = [] := List.length_eq_zero_iff.mp (by omega)
    subst this
    exact .nil
  | succ n ih =>
    intro p s hs
    cases s with
    | nil => exact .nil
    | cons c t =>
      simp only [subLoop]
      cases hm : r.m w p (c :: t) (fun _ s' => some s') with
      | none =>
        refine .char ?_ (ih _ _ (by simpa using hs))
        intro x y e hx
        obtain ⟨p', hp⟩ := (h p (c :: t) y).mpr ⟨x, e, hx⟩
        have := (m_isSome_iff w r p (c :: t) (fun _ s' => some s')).mpr ⟨p', y, hp, rfl⟩
        rw [hm] at this
        cases this
      | some rest =>
        obtain ⟨p', s', hl, hk⟩ := (m_right w r).2 _ _ _ _ hm
        cases hk
        obtain ⟨x, e, hx⟩ := (h p (c :: t) rest).mp ⟨p', hl⟩
        have hx0 : x ≠ [] := by rintro rfl; exact h0 hx
        have hlen : rest.length < t.length + 1 := by
          have := congrArg List.length e
          have hp : 0 < x.length := List.length_pos_iff.mpr hx0
          simp at this
          omega
        simp only [if_pos hlen, List.nil_append]
        conv => arg 2; rw [e]
        exact .piece hx (ih _ _ (by simp at hs; omega))

theorem sub_deleted {r : Re} {L : Str → Prop} (h : Is w r L) (h0 : ¬ L []) (s : Str) : Deleted L s (r.sub w [] s) := subLoop_deleted h h0 _ _ _ (Nat.le_refl _)

end Re

/-! ### The result is unique -/

/-- No piece is the beginning of another one. -/
def PrefixFree (L : Str → Prop) : Prop := ∀ x y x' y', L x → L x' → x ++ y = x' ++ y' → x = x' ∧ y = y'

theorem Spec.Deleted.unique {L : Str → Prop} (hL : PrefixFree L) (h0 : ¬ L []) {s t t' : Str} (h : Deleted L s t) (h' : Deleted L s t') : t = t' := by
  induction h generalizing t' with
  | nil =>
    generalize e : ([] : Str) = s at h'
    cases h' with
    | nil => rfl
    | @piece x s t hx _ =>
      obtain ⟨rfl, -⟩ := List.append_eq_nil_iff.mp e.symm
      exact absurd hx h0
    | char _ _ => cases e
  | @piece x s t hx _ ih =>
    generalize e : x ++ s = z at h'
    cases h' with
    | nil =>
      obtain ⟨rfl, -⟩ := List.append_eq_nil_iff.mp e
      exact absurd hx h0
    | @piece x' s' t' hx' hs' =>
      obtain ⟨-, rfl⟩ := hL _ _ _ _ hx hx' e
      exact ih hs'
    | char hc _ => exact absurd hx (hc _ _ e.symm)
  | @char c s t hc _ ih =>
    generalize e : c :: s = z at h'
    cases h' with
    | nil => cases e
    | piece hx _ => exact absurd hx (hc _ _ e)
    | char _ hs =>
      cases e
      rw [ih hs]

/-! ### The languages of the expressions -/

namespace Re

open Rx

variable {w : Char → Bool}

theorem many_one {A : Char → Prop} {x : Str} : Many (fun y => ∃ c, y = [c] ∧ A c) x ↔ ∀ c ∈ x, A c := by
  constructor
  · intro h
    induction h with
    | nil => simp
    | cons h _ ih =>
      obtain ⟨c, rfl, hc⟩ := h
      simpa [hc] using ih
  · intro h
    induction x with
    | nil => exact .nil
    | cons c x ih => exact .cons (x := [c]) ⟨c, rfl, h c (by simp)⟩ (ih (fun d hd => h d (by simp [hd])))

theorem is_tagname : Is w tagname TagName := by
  refine (is_seq (is_cls _) (is_star_cls _)).congr ?_
  intro x
  constructor
  · rintro ⟨a, t, rfl, ⟨c, rfl, hc⟩, ht⟩
    refine ⟨c, t, rfl, letter_alpha.mpr hc, ?_⟩
    intro d hd
    have := ht d hd
    simp only [Bool.or_eq_true, beq_iff_eq] at this
    rcases this with (h | h) | h
    · exact .inl (letter_alpha.mpr h)
    · exact .inr (.inl (digit_digit.mpr h))
    · exact .inr (.inr h)
  · rintro ⟨c, t, rfl, hc, ht⟩
    refine ⟨[c], t, rfl, ⟨c, rfl, letter_alpha.mp hc⟩, ?_⟩
    intro d hd
    simp only [Bool.or_eq_true, beq_iff_eq]
    rcases ht d hd with h | h | h
    · exact .inl (.inl (letter_alpha.mp h))
    · exact .inl (.inr (digit_digit.mp h))
    · exact .inr h

theorem is_attributename : Is w attributename AttrName := by
  refine (is_seq (is_cls _) (is_star_cls _)).congr ?_
  intro x
  constructor
  · rintro ⟨a, t, rfl, ⟨c, rfl, hc⟩, ht⟩
    simp only [Bool.or_eq_true, beq_iff_eq] at hc
    refine ⟨c, t, rfl, ?_, ?_⟩
    · rcases hc with (h | h) | h
      · exact .inl (letter_alpha.mpr h)
      · exact .inr (.inl h)
      · exact .inr (.inr h)
    · intro d hd
      have := ht d hd
      simp only [Bool.or_eq_true, beq_iff_eq, ← letter_alpha, ← digit_digit] at this
      tauto
  · rintro ⟨c, t, rfl, hc, ht⟩
    refine ⟨[c], t, rfl, ⟨c, rfl, ?_⟩, ?_⟩
    · simp only [Bool.or_eq_true, beq_iff_eq, ← letter_alpha]
      tauto
    · intro d hd
      have := ht d hd
      simp only [Bool.or_eq_true, beq_iff_eq, ← letter_alpha, ← digit_digit]
      tauto

theorem is_white : Is w (star spacechar) (fun x => ∀ c ∈ x, WhiteSpace c) :=
  (is_star_cls _).congr (fun x => forall_congr' fun c => forall_congr' fun _ => by
    simp only [Bool.or_eq_true, beq_iff_eq, WhiteSpace]; tauto)

theorem is_ws : Is w (star ws) (fun x => ∀ c ∈ x, WhiteSpace c) :=
  (is_star_cls _).congr (fun x => forall_congr' fun c => forall_congr' fun _ => by
    simp only [Bool.or_eq_true, beq_iff_eq, WhiteSpace]; tauto)

theorem is_quoted (q : Char) : Is w (seqs [chr q, star (cls (fun c => !(c == q || c == '\x00'))), chr q])
    (fun v => ∃ u, v = q :: u ++ [q] ∧ ∀ c ∈ u, c ≠ q ∧ c ≠ '\x00') := by
  refine (is_seq (is_chr q) (is_seq (is_star_cls _) (is_chr q))).congr ?_
  intro x
  constructor
  · rintro ⟨_, _, rfl, rfl, u, _, rfl, hu, rfl⟩
    refine ⟨u, by simp, fun c hc => by simpa using hu c hc⟩
  · rintro ⟨u, rfl, hu⟩
    exact ⟨[q], u ++ [q], by simp, rfl, u, [q], rfl, fun c hc => by simpa using hu c hc, rfl⟩

theorem is_value {r : Re} {g : Prop} (hr : Is w r (fun v => v ≠ [] ∧ ∀ c ∈ v, Unquoted g c)) :
    Is w (alts [r, singlequotedvalue, doublequotedvalue]) (AttrValue g) := is_alt hr (is_alt (is_quoted '\'') (is_quoted '"'))

theorem is_unquoted : Is w unquotedvalue (fun v => v ≠ [] ∧ ∀ c ∈ v, Unquoted False c) :=
  (is_plus_cls _).congr (fun x => and_congr_right fun _ => forall_congr' fun c => forall_congr' fun _ => by
    simp only [Bool.not_eq_true', Bool.or_eq_false_iff, beq_eq_false_iff_ne, Unquoted, WhiteSpace]; tauto)

theorem is_unquotedGithub : Is w uavGithub (fun v => v ≠ [] ∧ ∀ c ∈ v, Unquoted True c) :=
  (is_plus_cls _).congr (fun x => and_congr_right fun _ => forall_congr' fun c => forall_congr' fun _ => by
    simp only [Bool.not_eq_true', Bool.or_eq_false_iff, beq_eq_false_iff_ne, Unquoted, WhiteSpace]; tauto)

theorem is_spec {r v : Re} {g : Prop} (hr : Is w r (fun x => ∀ c ∈ x, WhiteSpace c)) (hv : Is w v (AttrValue g)) :
    Is w (seqs [r, chr '=', r, v]) (ValueSpec g) := by
  refine (is_seq hr (is_seq (is_chr _) (is_seq hr hv))).congr ?_
  intro x
  constructor
  · rintro ⟨a, _, rfl, ha, _, _, rfl, rfl, b, v, rfl, hb, hv⟩
    exact ⟨a, b, v, by simp, ha, hb, hv⟩
  · rintro ⟨a, b, v, rfl, ha, hb, hv⟩
    exact ⟨a, '=' :: b ++ v, by simp, ha, ['='], b ++ v, by simp, rfl, b, v, rfl, hb, hv⟩

theorem is_attribute {r v : Re} {g : Prop} (hr : Is w r (Gap g)) (hv : Is w v (ValueSpec g)) : Is w (seqs [r, attributename, opt v]) (Attribute g) := by
  refine (is_seq hr (is_seq is_attributename (is_opt hv))).congr ?_
  intro x
  constructor
  · rintro ⟨b, _, rfl, hb, n, v, rfl, hn, hv⟩
    exact ⟨b, n, v, by simp, hb, hn, hv.symm⟩
  · rintro ⟨b, n, v, rfl, hb, hn, hv⟩
    exact ⟨b, n ++ v, by simp, hb, n, v, rfl, hn, hv.symm⟩

theorem is_le : Is w le LineEnd := by
  refine (is_alt (is_chr _) (is_alt (is_chr _) (is_seq (is_chr _) (is_chr _)))).congr ?_
  intro x
  constructor
  · rintro (h | h | ⟨_, _, rfl, rfl, rfl⟩)
    · exact .inl h
    · exact .inr (.inl h)
    · exact .inr (.inr rfl)
  · rintro (h | h | h)
    · exact .inl h
    · exact .inr (.inl h)
    · exact .inr (.inr ⟨_, _, h, rfl, rfl⟩)

theorem is_gapCmark : Is w (.alt (plus spacetab) le) (Gap False) := by
  refine (is_alt (is_plus_cls _) is_le).congr ?_
  intro x
  simp only [Bool.or_eq_true, beq_iff_eq, Gap, false_and, false_or, not_false_eq_true, true_and]
  refine or_congr_left (and_congr_right fun _ => forall_congr' fun c => forall_congr' fun _ => by tauto)

theorem is_gapGithub : Is w (plus ws) (Gap True) := by
  refine (is_plus_cls _).congr ?_
  intro x
  simp only [Bool.or_eq_true, beq_iff_eq, Gap, true_and, not_true_eq_false, false_and, or_false]
  exact and_congr_right fun _ => forall_congr' fun c => forall_congr' fun _ => by unfold WhiteSpace; tauto

theorem is_atCmark : Is w atCmark (Attribute False) := is_attribute is_gapCmark (is_spec is_white (is_value is_unquoted))

theorem is_atGithub : Is w atGithub (Attribute True) := is_attribute is_gapGithub (is_spec is_ws (is_value is_unquotedGithub))

theorem is_endCmark : Is w (.alt (.star spacetab) (opt le)) (fun b => b = [] ∨ Gap False b) := by
  refine (is_alt (is_star_cls _) (is_opt is_le)).congr ?_
  intro x
  simp only [Bool.or_eq_true, beq_iff_eq, Gap, false_and, false_or, not_false_eq_true, true_and]
  constructor
  · rintro (h | h | h)
    · by_cases hx : x = []
      · exact .inl hx
      · exact .inr (.inl ⟨hx, fun c hc => (h c hc).symm⟩)
    · exact .inr (.inr h)
    · exact .inl h
  · rintro (h | ⟨-, h⟩ | h)
    · exact .inr (.inr h)
    · exact .inl (fun c hc => (h c hc).symm)
    · exact .inr (.inl h)

theorem is_endGithub : Is w (.star ws) (fun b => b = [] ∨ Gap True b) := by
  refine is_ws.congr ?_
  intro x
  simp only [Gap, true_and, not_true_eq_false, false_and, or_false]
  constructor
  · intro h
    by_cases hx : x = []
    · exact .inl hx
    · exact .inr ⟨hx, h⟩
  · rintro (h | ⟨-, h⟩)
    · simp [h]
    · exact h

theorem is_slash : Is w (opt (chr '/')) (fun e => e = [] ∨ e = ['/']) := (is_opt (is_chr '/')).congr (fun _ => Or.comm)

theorem is_otCmark : Is w otCmark (HtmlOpen False) := by
  refine (is_seq (is_chr _) (is_seq is_tagname (is_seq (is_star is_atCmark) (is_seq is_endCmark (is_seq is_slash (is_chr _)))))).congr ?_
  intro x
  constructor
  · rintro ⟨_, _, rfl, rfl, n, _, rfl, hn, a, _, rfl, ha, b, _, rfl, hb, e, _, rfl, he, rfl⟩
    exact ⟨n, a, b, e, by simp, hn, False.elim, ha, hb, he⟩
  · rintro ⟨n, a, b, e, rfl, hn, -, ha, hb, he⟩
    exact ⟨['<'], n ++ (a ++ (b ++ (e ++ ['>']))), by simp, rfl, n, _, rfl, hn, a, _, rfl, ha, b, _, rfl, hb, e, _, rfl, he, rfl⟩

theorem is_ctCmark : Is w ctCmark (HtmlClose False) := by
  refine (is_seq (is_lit _) (is_seq is_tagname (is_seq is_endCmark (is_chr _)))).congr ?_
  intro x
  constructor
  · rintro ⟨_, _, rfl, rfl, n, _, rfl, hn, b, _, rfl, hb, rfl⟩
    exact ⟨n, b, by simp, hn, False.elim, hb.imp_right (fun h => ⟨h, False.elim⟩)⟩
  · rintro ⟨n, b, rfl, hn, -, hb⟩
    exact ⟨"</".toList, n ++ (b ++ ['>']), by simp, rfl, n, _, rfl, hn, b, _, rfl, hb.imp_right (fun h => h.1), rfl⟩

/-! ### Bodies with lookahead -/

theorem star_good {r : Re} {Good : Str → Prop} (hr : ∀ p s s', (∃ p', r.Lang w p s p' s') ↔ ∃ c, s = c :: s' ∧ Good s) (p : Option Char) (s s' : Str) :
    (∃ p', (star r).Lang w p s p' s') ↔ ∃ b, s = b ++ s' ∧ ∀ u v, b = u ++ v → v ≠ [] → Good (v ++ s') := by
  constructor
  · rintro ⟨p', h⟩
    change Star _ _ _ _ _ at h
    induction h with
    | refl p s => exact ⟨[], rfl, fun u v e hv => absurd (List.append_eq_nil_iff.mp e.symm).2 hv⟩
    | step h _ ih =>
      obtain ⟨b, rfl, hb⟩ := ih
      obtain ⟨c, rfl, hc⟩ := (hr _ _ _).mp ⟨_, h⟩
      refine ⟨c :: b, rfl, ?_⟩
      intro u v e hv
      cases u with
      | nil =>
        rw [List.nil_append] at e
        subst e
        exact hc
      | cons d u =>
        injection e with _ e
        exact hb u v e hv
  · rintro ⟨b, rfl, hb⟩
    induction b generalizing p with
    | nil => exact ⟨p, Star.refl _ _⟩
    | cons c b ih =>
      obtain ⟨p1, h1⟩ := (hr p (c :: (b ++ s')) (b ++ s')).mpr ⟨c, rfl, hb [] (c :: b) rfl (by simp)⟩
      obtain ⟨p', h2⟩ := ih p1 (fun u v e hv => hb (c :: u) v (by rw [e]; rfl) hv)
      exact ⟨p', Star.step h1 h2⟩

theorem nla_dot {a : Re} {A : Str → Prop} (ha : Is w a A) (p : Option Char) (s s' : Str) :
    (∃ p', (seq (nla a) dot).Lang w p s p' s') ↔ ∃ c, s = c :: s' ∧ ∀ x y, s = x ++ y → ¬ A x := by
  constructor
  · rintro ⟨p', p1, s1, ⟨hn, rfl, rfl⟩, c, rfl, -, -⟩
    refine ⟨c, rfl, ?_⟩
    intro x y e hx
    obtain ⟨p2, h2⟩ := (ha p1 (c :: s') y).mpr ⟨x, e, hx⟩
    exact hn ⟨_, _, h2⟩
  · rintro ⟨c, rfl, hc⟩
    refine ⟨some c, p, c :: s', ⟨?_, rfl, rfl⟩, c, rfl, rfl, rfl⟩
    rintro ⟨p1, s1, h⟩
    obtain ⟨x, e, hx⟩ := (ha _ _ _).mp ⟨_, h⟩
    exact hc x s1 e hx

/-- A literal does not start anywhere in `b` if it is not in `b` and cannot reach over its end. -/
theorem body_iff {e b s' : Str} {d : Char} {e0 : Str} (he : e = e0 ++ [d]) (hd : d ∉ e0) :
    (∀ u v, b = u ++ v → v ≠ [] → ∀ x y, v ++ (e ++ s') = x ++ y → ¬ x = e) ↔ ¬ e <:+: b := by
  constructor
  · rintro h ⟨u, y, rfl⟩
    refine h u (e ++ y) (by simp) (by simp [he]) e (y ++ (e ++ s')) (by simp) rfl
  · rintro h u v rfl hv x y e1 rfl
    apply h
    by_cases hl : x.length ≤ v.length
    · obtain ⟨z, hz⟩ := List.prefix_of_prefix_length_le (List.prefix_append x y) (e1 ▸ List.prefix_append v (x ++ s')) hl
      exact ⟨u, z, by rw [List.append_assoc, hz]⟩
    · exfalso
      -- the last character of the literal would stand at a place before the last one of the literal
      have hvl : 0 < v.length := List.length_pos_iff.mpr hv
      have h1 : (v ++ (x ++ s'))[x.length - 1]? = some d := by
        rw [e1, List.getElem?_append_left (by omega), he]
        simp
      rw [List.getElem?_append_right (by omega), List.getElem?_append_left (by omega), he, List.getElem?_append_left (by subst he; simp at hl ⊢; omega)] at h1
      exact hd (List.mem_of_getElem? h1)

theorem is_pi : Is w pi HtmlInstruction := by
  intro p s s'
  constructor
  · rintro ⟨p', p1, s1, h1, p2, s2, h2, h3⟩
    obtain ⟨rfl, -⟩ := lang_lit.mp h1
    obtain ⟨b, rfl, hb⟩ := (star_good (nla_dot (is_lit _)) p1 s1 s2).mp ⟨p2, h2⟩
    obtain ⟨rfl, -⟩ := lang_lit.mp h3
    exact ⟨_, by simp, b, rfl, (body_iff (d := '>') (e0 := ['?']) rfl (by decide)).mp hb⟩
  · rintro ⟨_, rfl, b, rfl, hb⟩
    obtain ⟨p1, h1⟩ := (is_lit (w := w) "<?".toList p ("<?".toList ++ b ++ "?>".toList ++ s') (b ++ ("?>".toList ++ s'))).mpr ⟨_, by simp, rfl⟩
    obtain ⟨p2, h2⟩ := (star_good (w := w) (nla_dot (is_lit "?>".toList)) p1 (b ++ ("?>".toList ++ s')) ("?>".toList ++ s')).mpr
      ⟨b, rfl, (body_iff (d := '>') (e0 := ['?']) rfl (by decide)).mpr hb⟩
    obtain ⟨p3, h3⟩ := (is_lit (w := w) "?>".toList p2 ("?>".toList ++ s') s').mpr ⟨_, rfl, rfl⟩
    exact ⟨p3, p1, _, h1, p2, _, h2, h3⟩

theorem plus_good {r : Re} {Good : Str → Prop} (hr : ∀ p s s', (∃ p', r.Lang w p s p' s') ↔ ∃ c, s = c :: s' ∧ Good s) (p : Option Char) (s s' : Str) :
    (∃ p', (plus r).Lang w p s p' s') ↔ ∃ b, s = b ++ s' ∧ b ≠ [] ∧ ∀ u v, b = u ++ v → v ≠ [] → Good (v ++ s') := by
  constructor
  · rintro ⟨p', p1, s1, h1, h2⟩
    obtain ⟨c, rfl, hc⟩ := (hr _ _ _).mp ⟨_, h1⟩
    obtain ⟨b, rfl, hb⟩ := (star_good hr _ _ _).mp ⟨_, h2⟩
    refine ⟨c :: b, rfl, by simp, ?_⟩
    intro u v e hv
    cases u with
    | nil =>
      rw [List.nil_append] at e
      subst e
      exact hc
    | cons d u =>
      injection e with _ e
      exact hb u v e hv
  · rintro ⟨b, rfl, hb0, hb⟩
    cases b with
    | nil => exact absurd rfl hb0
    | cons c b =>
      obtain ⟨p1, h1⟩ := (hr p (c :: (b ++ s')) (b ++ s')).mpr ⟨c, rfl, hb [] (c :: b) rfl (by simp)⟩
      obtain ⟨p', h2⟩ := (star_good hr p1 (b ++ s') s').mpr ⟨b, rfl, fun u v e hv => hb (c :: u) v (by rw [e]; rfl) hv⟩
      exact ⟨p', p1, _, h1, h2⟩

theorem is_cd : Is w cd HtmlCData := by
  intro p s s'
  constructor
  · rintro ⟨p', p1, s1, h1, p2, s2, h2, h3⟩
    obtain ⟨rfl, -⟩ := lang_lit.mp h1
    obtain ⟨b, rfl, hb0, hb⟩ := (plus_good (nla_dot (is_lit _)) p1 s1 s2).mp ⟨p2, h2⟩
    obtain ⟨rfl, -⟩ := lang_lit.mp h3
    exact ⟨_, by simp, b, rfl, hb0, (body_iff (d := '>') (e0 := [']', ']']) rfl (by decide)).mp hb⟩
  · rintro ⟨_, rfl, b, rfl, hb0, hb⟩
    obtain ⟨p1, h1⟩ := (is_lit (w := w) "<![CDATA[".toList p ("<![CDATA[".toList ++ b ++ "]]>".toList ++ s') (b ++ ("]]>".toList ++ s'))).mpr ⟨_, by simp, rfl⟩
    obtain ⟨p2, h2⟩ := (plus_good (w := w) (nla_dot (is_lit "]]>".toList)) p1 (b ++ ("]]>".toList ++ s')) ("]]>".toList ++ s')).mpr
      ⟨b, rfl, hb0, (body_iff (d := '>') (e0 := [']', ']']) rfl (by decide)).mpr hb⟩
    obtain ⟨p3, h3⟩ := (is_lit (w := w) "]]>".toList p2 ("]]>".toList ++ s') s').mpr ⟨_, rfl, rfl⟩
    exact ⟨p3, p1, _, h1, p2, _, h2, h3⟩

theorem is_notGt : Is w (plus (.seq (.nla (chr '>')) dot)) (fun b => b ≠ [] ∧ '>' ∉ b) := by
  intro p s s'
  rw [plus_good (nla_dot (is_chr _))]
  constructor
  · rintro ⟨b, rfl, hb0, hb⟩
    refine ⟨b, rfl, hb0, ?_⟩
    intro hm
    obtain ⟨u, v, rfl⟩ := List.append_of_mem hm
    exact hb u ('>' :: v) rfl (by simp) ['>'] (v ++ s') rfl rfl
  · rintro ⟨b, rfl, hb0, hb⟩
    refine ⟨b, rfl, hb0, ?_⟩
    rintro u v rfl hv x y e rfl
    cases v with
    | nil => exact hv rfl
    | cons c v =>
      injection e with e1 _
      exact hb (by simp [e1])

theorem is_den : Is w den (fun n => n ≠ [] ∧ ∀ c ∈ n, Upper c) :=
  (is_plus_cls _).congr (fun x => and_congr_right fun _ => forall_congr' fun c => forall_congr' fun _ => by
    simp [Upper])

theorem is_deCmark : Is w deCmark (HtmlDeclaration False) := by
  refine (is_seq (is_lit _) (is_seq is_den (is_seq is_notGt (is_chr _)))).congr ?_
  intro x
  constructor
  · rintro ⟨_, _, rfl, rfl, n, _, rfl, ⟨hn0, hn⟩, b, _, rfl, ⟨hb0, hb⟩, rfl⟩
    exact ⟨n, b, by simp, hn0, hn, hb, .inl ⟨id, hb0⟩⟩
  · rintro ⟨n, b, rfl, hn0, hn, hb, hg⟩
    rcases hg with ⟨-, hb0⟩ | ⟨hg, -⟩
    · exact ⟨_, n ++ (b ++ ['>']), by simp, rfl, n, _, rfl, ⟨hn0, hn⟩, b, _, rfl, ⟨hb0, hb⟩, rfl⟩
    · exact hg.elim

theorem is_deGithub : Is w deGithub (HtmlDeclaration True) := by
  refine (is_seq (is_lit _) (is_seq is_den (is_seq is_gapGithub (is_seq is_notGt (is_chr _))))).congr ?_
  intro x
  constructor
  · rintro ⟨_, _, rfl, rfl, n, _, rfl, ⟨hn0, hn⟩, a, _, rfl, ha, b, _, rfl, ⟨hb0, hb⟩, rfl⟩
    rcases ha with ⟨-, ha0, ha⟩ | ⟨h, -⟩
    · refine ⟨n, a ++ b, by simp, hn0, hn, ?_, .inr ⟨trivial, ?_⟩⟩
      · rw [List.mem_append]
        rintro (h | h)
        · have := ha _ h
          unfold WhiteSpace at this
          revert this
          decide
        · exact hb h
      · cases a with
        | nil => exact absurd rfl ha0
        | cons c a => exact ⟨c, a ++ b, rfl, ha c (by simp), by simp [hb0]⟩
    · exact absurd trivial h
  · rintro ⟨n, b, rfl, hn0, hn, hb, hg⟩
    rcases hg with ⟨hg, -⟩ | ⟨-, c, t, rfl, hc, ht⟩
    · exact absurd trivial hg
    · exact ⟨_, n ++ ([c] ++ (t ++ ['>'])), by simp, rfl, n, _, rfl, ⟨hn0, hn⟩, [c], _, rfl, .inl ⟨trivial, by simp, by simpa using hc⟩, t, _, rfl,
        ⟨ht, fun h => hb (by simp [h])⟩, rfl⟩

/-! ### Comments -/

theorem commentStep (p : Option Char) (s s' : Str) :
    (∃ p', (seqs [.nla (.alt (chr '>') (lit "->".toList)), .nla (lit "--".toList), dot]).Lang w p s p' s') ↔
      ∃ c, s = c :: s' ∧ (∀ y, s ≠ '>' :: y ∧ s ≠ '-' :: '>' :: y ∧ s ≠ '-' :: '-' :: y) := by
  constructor
  · rintro ⟨p', p1, s1, ⟨hn, rfl, rfl⟩, p2, s2, ⟨hm, rfl, rfl⟩, c, rfl, -, -⟩
    refine ⟨c, rfl, fun y => ⟨?_, ?_, ?_⟩⟩
    · intro e
      rw [e] at hn
      exact hn ⟨_, y, .inl (lang_chr.mpr ⟨rfl, rfl⟩)⟩
    · intro e
      rw [e] at hn
      exact hn ⟨_, y, .inr (lang_lit.mpr ⟨rfl, rfl⟩)⟩
    · intro e
      rw [e] at hm
      exact hm ⟨_, y, lang_lit.mpr ⟨rfl, rfl⟩⟩
  · rintro ⟨c, rfl, h⟩
    refine ⟨some c, p, c :: s', ⟨?_, rfl, rfl⟩, p, c :: s', ⟨?_, rfl, rfl⟩, c, rfl, rfl, rfl⟩
    · rintro ⟨p1, s1, h1 | h1⟩
      · exact (h s1).1 (lang_chr.mp h1).1
      · exact (h s1).2.1 (lang_lit.mp h1).1
    · rintro ⟨p1, s1, h1⟩
      exact (h s1).2.2 (lang_lit.mp h1).1

theorem comment_body {u t : Str} {c : Char} (hc : c ≠ '-') :
    (∀ a v, u = a ++ v → v ≠ [] → ∀ y, v ++ (c :: t) ≠ '>' :: y ∧ v ++ (c :: t) ≠ '-' :: '>' :: y ∧ v ++ (c :: t) ≠ '-' :: '-' :: y) ↔
      '>' ∉ u ∧ ¬ ['-', '-'] <:+: u ∧ ¬ ['-', '>'] <:+: u ++ [c] := by
  constructor
  · intro h
    refine ⟨?_, ?_, ?_⟩
    · intro hm
      obtain ⟨a, v, rfl⟩ := List.append_of_mem hm
      exact (h a ('>' :: v) rfl (by simp) _).1 rfl
    · rintro ⟨a, v, rfl⟩
      exact (h a ('-' :: '-' :: v) (by simp) (by simp) _).2.2 rfl
    · rintro ⟨a, v, e⟩
      rcases List.eq_nil_or_concat v with rfl | ⟨v', d, rfl⟩
      · have e1 : a ++ ['-'] ++ ['>'] = u ++ [c] := by simpa using e
        obtain ⟨rfl, h2⟩ := List.append_inj' e1 rfl
        injection h2 with h2
        subst h2
        exact (h a ['-'] rfl (by simp) t).2.1 rfl
      · have e1 : (a ++ ['-', '>'] ++ v') ++ [d] = u ++ [c] := by simpa using e
        obtain ⟨rfl, -⟩ := List.append_inj' e1 rfl
        exact (h a ('-' :: '>' :: v') (by simp) (by simp) _).2.1 rfl
  · rintro ⟨h1, h2, h3⟩ a v rfl hv y
    refine ⟨?_, ?_, ?_⟩
    · intro e
      cases v with
      | nil => exact hv rfl
      | cons d v =>
        injection e with e _
        exact h1 (by simp [e])
    · intro e
      cases v with
      | nil => exact hv rfl
      | cons d v =>
        injection e with e e'
        cases v with
        | nil =>
          injection e' with e' _
          apply h3
          exact ⟨a, [], by simp [e, e']⟩
        | cons d' v =>
          injection e' with e' _
          exact h1 (by simp [e'])
    · intro e
      cases v with
      | nil => exact hv rfl
      | cons d v =>
        injection e with e e'
        cases v with
        | nil =>
          injection e' with e' _
          exact hc e'
        | cons d' v =>
          injection e' with e' _
          exact h2 ⟨a, v, by simp [e, e']⟩

theorem is_co : Is w co HtmlComment := by
  intro p s s'
  constructor
  · rintro ⟨p', p1, s1, h1, p2, s2, h2, p3, s3, ⟨hn, rfl, rfl⟩, p4, s4, h4, h5⟩
    obtain ⟨rfl, -⟩ := lang_lit.mp h1
    obtain ⟨u, rfl, hu0, hu⟩ := (plus_good commentStep p1 s1 s3).mp ⟨_, h2⟩
    obtain ⟨rfl, -⟩ := lang_lit.mp h5
    rcases h4 with ⟨c, rfl, -, -⟩ | ⟨-, rfl⟩
    · have hc : c ≠ '-' := by
        rintro rfl
        exact hn ⟨_, _, lang_chr.mpr ⟨rfl, rfl⟩⟩
      obtain ⟨h6, h7, h8⟩ := (comment_body hc).mp hu
      exact ⟨_, by simp, u, c, rfl, hu0, hc, h6, h7, h8⟩
    · exact absurd ⟨_, _, lang_chr.mpr ⟨rfl, rfl⟩⟩ hn
  · rintro ⟨_, rfl, u, c, rfl, hu0, hc, h6, h7, h8⟩
    obtain ⟨p1, h1⟩ := (is_lit (w := w) "<!--".toList p ("<!--".toList ++ (u ++ [c]) ++ "-->".toList ++ s') (u ++ (c :: ("-->".toList ++ s')))).mpr ⟨_, by simp, rfl⟩
    obtain ⟨p2, h2⟩ := (plus_good (w := w) commentStep p1 (u ++ (c :: ("-->".toList ++ s'))) (c :: ("-->".toList ++ s'))).mpr
      ⟨u, rfl, hu0, (comment_body hc).mpr ⟨h6, h7, h8⟩⟩
    obtain ⟨p3, h3⟩ := (is_lit (w := w) "-->".toList (some c) ("-->".toList ++ s') s').mpr ⟨_, rfl, rfl⟩
    refine ⟨p3, p1, _, h1, p2, _, h2, p2, _, ⟨?_, rfl, rfl⟩, some c, _, .inl ⟨c, rfl, rfl, rfl⟩, h3⟩
    rintro ⟨p4, s4, h4⟩
    have := (lang_chr.mp h4).1
    injection this with this _
    exact hc this

/-! ### The filtered names -/

theorem lang_litCI : ∀ {l : Str} {p s p' s'}, (litCI l).Lang w p s p' s' ↔ ∃ x, s = x ++ s' ∧ x.map asciiLower = l ∧ p' = x.getLast?.or p := by
  intro l
  induction l with
  | nil =>
    intro p s p' s'
    simp only [litCI, Lang, List.map_eq_nil_iff]
    constructor
    · rintro ⟨rfl, rfl⟩; exact ⟨[], by simp⟩
    · rintro ⟨x, rfl, rfl, rfl⟩; simp
  | cons c t ih =>
    intro p s p' s'
    simp only [litCI]
    constructor
    · rintro ⟨p1, s1, ⟨d, rfl, hd, rfl⟩, h2⟩
      obtain ⟨x, rfl, rfl, rfl⟩ := ih.mp h2
      refine ⟨d :: x, rfl, by simpa using hd, ?_⟩
      cases x <;> simp [List.getLast?_cons]
    · rintro ⟨x, rfl, hx, rfl⟩
      cases x with
      | nil => cases hx
      | cons d x =>
        injection hx with h1 h2
        refine ⟨some d, x ++ s', ⟨d, rfl, by simpa using h1, rfl⟩, ih.mpr ⟨x, rfl, h2, ?_⟩⟩
        cases x <;> simp [List.getLast?_cons]

theorem lang_alts {p s p' s'} : ∀ {l : List Re}, l ≠ [] → ((alts l).Lang w p s p' s' ↔ ∃ r ∈ l, r.Lang w p s p' s') := by
  intro l
  induction l with
  | nil => intro h; exact absurd rfl h
  | cons a l ih =>
    intro _
    cases l with
    | nil => simp [alts]
    | cons b l =>
      have := ih (by simp)
      simp only [alts, Lang, this, List.mem_cons, exists_eq_or_imp]

theorem raw_letters : ∀ l ∈ rawWords, l ≠ [] ∧ ∀ d ∈ l, 97 ≤ d.toNat ∧ d.toNat ≤ 122 := by decide +kernel

/-- At the beginning of a name, the lookahead finds a filtered name exactly if the name is one. -/
theorem gdrh_iff (hw : AsciiWord w) {n y : Str} {p : Option Char} (hp : wordBefore w p = false) (hn : TagName n) (hy : ∀ c ∈ y.head?, w c = false ∧ ¬ (Letter c ∨ Digit c ∨ c = '-')) :
    (∃ p' s', gdrh.Lang w p (n ++ y) p' s') ↔ RawName n := by
  have hname : ∀ c ∈ n, Letter c ∨ Digit c ∨ c = '-' := by
    obtain ⟨c, t, rfl, hc, ht⟩ := hn
    intro d hd
    rcases List.mem_cons.mp hd with rfl | hd
    · exact .inl hc
    · exact ht d hd
  have hyp : w '-' = false := by rw [hw _ (by decide)]; decide
  have key : (∃ p' s', gdrh.Lang w p (n ++ y) p' s') ↔ ∃ l ∈ rawWords, ∃ x z, n ++ y = x ++ z ∧ x.map asciiLower = l ∧ wordAfter w z = false := by
    have hl : ∀ p' s', gdrh.Lang w p (n ++ y) p' s' ↔ ∃ l ∈ rawWords, (seqs [.wb, litCI l, .wb]).Lang w p (n ++ y) p' s' := by
      intro p' s'
      unfold gdrh
      rw [lang_alts (by simp)]
      simp [rawWords]
    constructor
    · rintro ⟨p', s', h⟩
      obtain ⟨l, hl', p1, s1, ⟨h1, rfl, rfl⟩, p2, s2, h2, h3, rfl, rfl⟩ := (hl _ _).mp h
      obtain ⟨x, e, hx, rfl⟩ := lang_litCI.mp h2
      refine ⟨l, hl', x, _, e, hx, ?_⟩
      have hx0 : x ≠ [] := by
        rintro rfl
        exact (raw_letters l hl').1 hx.symm
      obtain ⟨x', d, rfl⟩ := (List.eq_nil_or_concat x).resolve_left hx0
      have hd : Letter d := asciiLower_letter rfl ((raw_letters l hl').2 _ (by rw [← hx]; simp))
      have hdw : w d = true := letter_word hw (.inl hd)
      simp [wordBefore, hdw] at h3
      exact h3
    · rintro ⟨l, hl', x, z, e, hx, hz⟩
      have hx0 : x ≠ [] := by
        rintro rfl
        exact (raw_letters l hl').1 hx.symm
      obtain ⟨x', d, rfl⟩ := (List.eq_nil_or_concat x).resolve_left hx0
      have hd : Letter d := asciiLower_letter rfl ((raw_letters l hl').2 _ (by rw [← hx]; simp))
      have hdw : w d = true := letter_word hw (.inl hd)
      obtain ⟨c, t, rfl, hc, ht⟩ := hn
      have hcw : w c = true := letter_word hw (.inl hc)
      refine ⟨_, z, (hl _ _).mpr ⟨l, hl', p, _, ⟨?_, rfl, rfl⟩, _, z, lang_litCI.mpr ⟨_, e, hx, rfl⟩, ?_, rfl, rfl⟩⟩
      · simp [hp, wordAfter, hcw]
      · simp [wordBefore, hdw, hz]
  rw [key]
  have hraw : RawName n ↔ (n.takeWhile (· != '-')).map asciiLower ∈ rawWords := Iff.rfl
  rw [hraw]
  constructor
  · rintro ⟨l, hl, x, z, e, hx, hz⟩
    have hxl : ∀ c ∈ x, Letter c := fun c hc => asciiLower_letter rfl ((raw_letters l hl).2 _ (by rw [← hx]; exact List.mem_map_of_mem hc))
    -- the word lies in the name
    have hin : ∃ z', n = x ++ z' ∧ z = z' ++ y := by
      rcases List.append_eq_append_iff.mp e with ⟨a, rfl, rfl⟩ | ⟨a, rfl, rfl⟩
      · cases a with
        | nil => exact ⟨[], by simp, by simp⟩
        | cons d a => exact absurd (.inl (hxl d (by simp))) (hy d (by simp)).2
      · exact ⟨a, rfl, rfl⟩
    obtain ⟨z', rfl, rfl⟩ := hin
    have htk : (x ++ z').takeWhile (· != '-') = x := by
      rw [List.takeWhile_append_of_pos (by
        intro c hc
        have := hxl c hc
        unfold Letter at this
        simp only [bne_iff_ne, ne_eq]
        rintro rfl
        revert this
        decide)]
      cases z' with
      | nil => simp
      | cons d z' =>
        have hd : d = '-' := by
          rcases hname d (by simp) with h | h | h
          · rw [show wordAfter w (d :: z' ++ y) = w d from rfl, letter_word hw (.inl h)] at hz
            cases hz
          · rw [show wordAfter w (d :: z' ++ y) = w d from rfl, letter_word hw (.inr h)] at hz
            cases hz
          · exact h
        subst hd
        simp
    rw [htk, hx]
    exact hl
  · intro h
    refine ⟨_, h, n.takeWhile (· != '-'), n.dropWhile (· != '-') ++ y, ?_, rfl, ?_⟩
    · rw [← List.append_assoc, List.takeWhile_append_dropWhile]
    · cases hd : n.dropWhile (· != '-') with
      | nil =>
        cases y with
        | nil => rfl
        | cons c y => exact (hy c (by simp)).1
      | cons d t =>
        have : ¬ (d != '-') = true := by
          have := List.head_dropWhile_not (l := n) (· != '-') (by simp [hd])
          simpa [hd] using this
        have : d = '-' := by simpa using this
        subst this
        exact hyp

theorem gap_head {g : Prop} {b : Str} (h : Gap g b) : ∃ c t, b = c :: t ∧ WhiteSpace c := by
  rcases h with ⟨-, h0, h⟩ | ⟨-, ⟨h0, h⟩ | h⟩
  · cases b with
    | nil => exact absurd rfl h0
    | cons c t => exact ⟨c, t, rfl, h c (by simp)⟩
  · cases b with
    | nil => exact absurd rfl h0
    | cons c t =>
      refine ⟨c, t, rfl, ?_⟩
      unfold WhiteSpace
      rcases h c (by simp) with h | h <;> simp [h]
  · rcases h with rfl | rfl | rfl
    · exact ⟨_, _, rfl, by simp [WhiteSpace]⟩
    · exact ⟨_, _, rfl, by simp [WhiteSpace]⟩
    · exact ⟨_, _, rfl, by simp [WhiteSpace]⟩

/-- What follows a name in a tag. -/
theorem after_name (hw : AsciiWord w) {c : Char} (h : WhiteSpace c ∨ c = '/' ∨ c = '>') : w c = false ∧ ¬ (Letter c ∨ Digit c ∨ c = '-') := by
  unfold WhiteSpace at h
  rcases h with (rfl | rfl | rfl | rfl | rfl | rfl) | rfl | rfl <;>
    exact ⟨by rw [hw _ (by decide)]; decide, by unfold Letter Digit; decide⟩

theorem open_tail_head {g : Prop} {a b e s' : Str} (ha : Many (Attribute g) a) (hb : b = [] ∨ Gap g b) (he : e = [] ∨ e = ['/']) :
    ∀ c ∈ (a ++ (b ++ (e ++ ('>' :: s')))).head?, WhiteSpace c ∨ c = '/' ∨ c = '>' := by
  intro c hc
  cases ha with
  | cons hx _ =>
    obtain ⟨b', n, v, rfl, hb', -⟩ := hx
    obtain ⟨d, t, rfl, hd⟩ := gap_head hb'
    simp at hc
    subst hc
    exact .inl hd
  | nil =>
    rcases hb with rfl | hb
    · rcases he with rfl | rfl
      · simp at hc; exact .inr (.inr hc.symm)
      · simp at hc; exact .inr (.inl hc.symm)
    · obtain ⟨d, t, rfl, hd⟩ := gap_head hb
      simp at hc
      subst hc
      exact .inl hd

theorem word_lt (hw : AsciiWord w) : wordBefore w (some '<') = false ∧ wordBefore w (some '/') = false := by
  constructor <;> (simp only [wordBefore]; rw [hw _ (by decide)]; decide)

theorem is_otGithub (hw : AsciiWord w) : Is w otGithub (HtmlOpen True) := by
  have hrest : Is w (seqs [.star atGithub, .star ws, opt (chr '/'), chr '>']) (fun z => ∃ a b e, z = a ++ (b ++ (e ++ ['>'])) ∧ Many (Attribute True) a ∧ (b = [] ∨ Gap True b) ∧ (e = [] ∨ e = ['/'])) := by
    refine (is_seq (is_star is_atGithub) (is_seq is_endGithub (is_seq is_slash (is_chr _)))).congr ?_
    intro x
    constructor
    · rintro ⟨a, _, rfl, ha, b, _, rfl, hb, e, _, rfl, he, rfl⟩
      exact ⟨a, b, e, rfl, ha, hb, he⟩
    · rintro ⟨a, b, e, rfl, ha, hb, he⟩
      exact ⟨a, _, rfl, ha, b, _, rfl, hb, e, _, rfl, he, rfl⟩
  intro p s s'
  constructor
  · rintro ⟨p', p1, s1, h1, p2, s2, ⟨p3, s3, ⟨hn, rfl, rfl⟩, h3⟩, h4⟩
    obtain ⟨rfl, rfl⟩ := lang_chr.mp h1
    obtain ⟨n, rfl, hname⟩ := (is_tagname _ _ _).mp ⟨_, h3⟩
    obtain ⟨_, rfl, a, b, e, rfl, ha, hb, he⟩ := (hrest _ _ _).mp ⟨_, h4⟩
    refine ⟨'<' :: n ++ a ++ b ++ e ++ ['>'], by simp, n, a, b, e, rfl, hname, ?_, ha, hb, he⟩
    intro _ hr
    refine hn ((gdrh_iff hw (word_lt hw).1 hname ?_).mpr hr)
    intro c hc
    refine after_name hw (open_tail_head (s' := s') ha hb he c ?_)
    simpa using hc
  · rintro ⟨_, rfl, n, a, b, e, rfl, hname, hr, ha, hb, he⟩
    obtain ⟨p2, h2⟩ := (is_tagname (w := w) (some '<') (n ++ (a ++ (b ++ (e ++ ['>'])) ++ s')) (a ++ (b ++ (e ++ ['>'])) ++ s')).mpr ⟨n, rfl, hname⟩
    obtain ⟨p3, h3⟩ := (hrest p2 (a ++ (b ++ (e ++ ['>'])) ++ s') s').mpr ⟨_, rfl, a, b, e, rfl, ha, hb, he⟩
    refine ⟨p3, some '<', n ++ (a ++ (b ++ (e ++ ['>'])) ++ s'), lang_chr.mpr ⟨by simp, rfl⟩, p2, _, ⟨_, _, ⟨?_, rfl, rfl⟩, h2⟩, h3⟩
    intro h
    refine hr trivial ((gdrh_iff hw (word_lt hw).1 hname ?_).mp h)
    intro c hc
    refine after_name hw (open_tail_head (s' := s') ha hb he c ?_)
    simpa using hc

theorem is_ctGithub (hw : AsciiWord w) : Is w ctGithub (HtmlClose True) := by
  have hrest : Is w (seqs [opt ws, chr '>']) (fun z => ∃ b, z = b ++ ['>'] ∧ (b = [] ∨ Gap True b ∧ (True → b.length = 1))) := by
    refine (is_seq (is_opt (is_cls _)) (is_chr _)).congr ?_
    intro x
    constructor
    · rintro ⟨b, _, rfl, hb, rfl⟩
      refine ⟨b, rfl, ?_⟩
      rcases hb with ⟨c, rfl, hc⟩ | rfl
      · refine .inr ⟨.inl ⟨trivial, by simp, ?_⟩, fun _ => rfl⟩
        simp only [Bool.or_eq_true, beq_iff_eq] at hc
        simp only [List.mem_singleton, forall_eq, WhiteSpace]
        tauto
      · exact .inl rfl
    · rintro ⟨b, rfl, hb⟩
      refine ⟨b, _, rfl, ?_, rfl⟩
      rcases hb with rfl | ⟨hb, hl⟩
      · exact .inr rfl
      · obtain ⟨c, t, rfl, hc⟩ := gap_head hb
        have : t = [] := by simpa using hl trivial
        subst this
        refine .inl ⟨c, rfl, ?_⟩
        simp only [Bool.or_eq_true, beq_iff_eq]
        unfold WhiteSpace at hc
        tauto
  have hhead : ∀ {b s' : Str}, (b = [] ∨ Gap True b ∧ (True → b.length = 1)) → ∀ c ∈ (b ++ '>' :: s').head?, WhiteSpace c ∨ c = '/' ∨ c = '>' := by
    intro b s' hb c hc
    rcases hb with rfl | ⟨hb, -⟩
    · simp at hc; exact .inr (.inr hc.symm)
    · obtain ⟨d, t, rfl, hd⟩ := gap_head hb
      simp at hc
      subst hc
      exact .inl hd
  intro p s s'
  constructor
  · rintro ⟨p', p1, s1, h1, p2, s2, ⟨p3, s3, ⟨hn, rfl, rfl⟩, h3⟩, h4⟩
    obtain ⟨rfl, rfl⟩ := lang_lit.mp h1
    obtain ⟨n, rfl, hname⟩ := (is_tagname _ _ _).mp ⟨_, h3⟩
    obtain ⟨_, rfl, b, rfl, hb⟩ := (hrest _ _ _).mp ⟨_, h4⟩
    refine ⟨'<' :: '/' :: n ++ b ++ ['>'], by simp, n, b, rfl, hname, ?_, hb⟩
    intro _ hr
    refine hn ((gdrh_iff hw (word_lt hw).2 hname ?_).mpr hr)
    intro c hc
    refine after_name hw (hhead (s' := s') hb c ?_)
    simpa using hc
  · rintro ⟨_, rfl, n, b, rfl, hname, hr, hb⟩
    obtain ⟨p2, h2⟩ := (is_tagname (w := w) (some '/') (n ++ (b ++ ['>'] ++ s')) (b ++ ['>'] ++ s')).mpr ⟨n, rfl, hname⟩
    obtain ⟨p3, h3⟩ := (hrest p2 (b ++ ['>'] ++ s') s').mpr ⟨_, rfl, b, rfl, hb⟩
    refine ⟨p3, some '/', n ++ (b ++ ['>'] ++ s'), lang_lit.mpr ⟨by simp, rfl⟩, p2, _, ⟨_, _, ⟨?_, rfl, rfl⟩, h2⟩, h3⟩
    intro h
    refine hr trivial ((gdrh_iff hw (word_lt hw).2 hname ?_).mp h)
    intro c hc
    refine after_name hw (hhead (s' := s') hb c ?_)
    simpa using hc

end Re

/-! ### No piece is the beginning of another one -/

/-- The rest of a text behind the first `>` that does not stand in quotes. -/
def afterTag : Option Char → Str → Option Str
  | _, [] => none
  | none, c :: s => if c = '>' then some s else if c = '"' ∨ c = '\'' then afterTag (some c) s else afterTag none s
  | some q, c :: s => if c = q then afterTag none s else afterTag (some q) s

theorem afterTag_plain : ∀ {x : Str} (y : Str), (∀ c ∈ x, c ≠ '>' ∧ c ≠ '"' ∧ c ≠ '\'') → afterTag none (x ++ y) = afterTag none y := by
  intro x
  induction x with
  | nil => intro y _; rfl
  | cons c x ih =>
    intro y h
    obtain ⟨h1, h2, h3⟩ := h c (by simp)
    simp only [List.cons_append, afterTag, h1, h2, h3, or_self, if_false]
    exact ih y (fun d hd => h d (by simp [hd]))

theorem afterTag_in {q : Char} : ∀ {x : Str} (y : Str), (∀ c ∈ x, c ≠ q) → afterTag (some q) (x ++ q :: y) = afterTag none y := by
  intro x
  induction x with
  | nil => intro y _; simp [afterTag]
  | cons c x ih =>
    intro y h
    have h1 := h c (by simp)
    simp only [List.cons_append, afterTag, h1, if_false]
    exact ih y (fun d hd => h d (by simp [hd]))

theorem plain_white {c : Char} (h : WhiteSpace c) : c ≠ '>' ∧ c ≠ '"' ∧ c ≠ '\'' := by
  unfold WhiteSpace at h
  rcases h with rfl | rfl | rfl | rfl | rfl | rfl <;> decide

theorem plain_gap {g : Prop} {b : Str} (h : Gap g b) : ∀ c ∈ b, WhiteSpace c := by
  rcases h with ⟨-, -, h⟩ | ⟨-, ⟨-, h⟩ | h⟩
  · exact h
  · intro c hc
    unfold WhiteSpace
    rcases h c hc with h | h <;> simp [h]
  · rcases h with rfl | rfl | rfl <;> simp [WhiteSpace]

theorem plain_name {n : Str} (h : TagName n) : ∀ c ∈ n, c ≠ '>' ∧ c ≠ '"' ∧ c ≠ '\'' := by
  obtain ⟨c, t, rfl, hc, ht⟩ := h
  have h1 : ∀ d, (Letter d ∨ Digit d ∨ d = '-') → d ≠ '>' ∧ d ≠ '"' ∧ d ≠ '\'' := by
    intro d hd
    unfold Letter Digit at hd
    refine ⟨?_, ?_, ?_⟩ <;> (rintro rfl; revert hd; decide)
  intro d hd
  rcases List.mem_cons.mp hd with rfl | hd
  · exact h1 _ (.inl hc)
  · exact h1 _ (ht d hd)

theorem plain_attrName {n : Str} (h : AttrName n) : ∀ c ∈ n, c ≠ '>' ∧ c ≠ '"' ∧ c ≠ '\'' := by
  obtain ⟨c, t, rfl, hc, ht⟩ := h
  have h1 : ∀ d, (Letter d ∨ Digit d ∨ d = '_' ∨ d = '.' ∨ d = ':' ∨ d = '-') → d ≠ '>' ∧ d ≠ '"' ∧ d ≠ '\'' := by
    intro d hd
    unfold Letter Digit at hd
    refine ⟨?_, ?_, ?_⟩ <;> (rintro rfl; revert hd; decide)
  intro d hd
  rcases List.mem_cons.mp hd with rfl | hd
  · exact h1 _ (by tauto)
  · exact h1 _ (ht d hd)

theorem afterTag_value {g : Prop} {v : Str} (h : AttrValue g v) (y : Str) : afterTag none (v ++ y) = afterTag none y := by
  rcases h with ⟨-, h⟩ | ⟨u, rfl, h⟩ | ⟨u, rfl, h⟩
  · refine afterTag_plain y (fun c hc => ?_)
    obtain ⟨-, h1, h2, -, -, h3, -⟩ := h c hc
    exact ⟨h3, h1, h2⟩
  · have := afterTag_in (q := '\'') (x := u) y (fun c hc => (h c hc).1)
    simpa [afterTag] using this
  · have := afterTag_in (q := '"') (x := u) y (fun c hc => (h c hc).1)
    simpa [afterTag] using this

theorem afterTag_attribute {g : Prop} {x : Str} (h : Attribute g x) (y : Str) : afterTag none (x ++ y) = afterTag none y := by
  obtain ⟨b, n, v, rfl, hb, hn, hv⟩ := h
  rw [List.append_assoc, List.append_assoc, afterTag_plain _ (fun c hc => plain_white (plain_gap hb c hc)), afterTag_plain _ (plain_attrName hn)]
  rcases hv with rfl | ⟨a, b, v, rfl, ha, hb, hv⟩
  · rfl
  · rw [List.append_assoc, List.append_assoc, afterTag_plain _ (fun c hc => plain_white (ha c hc)),
      show '=' :: b ++ (v ++ y) = ['='] ++ (b ++ (v ++ y)) from rfl, afterTag_plain _ (by decide), afterTag_plain _ (fun c hc => plain_white (hb c hc)), afterTag_value hv]

theorem afterTag_open {g : Prop} {x : Str} (h : HtmlOpen g x) (y : Str) : afterTag none (x ++ y) = some y := by
  obtain ⟨n, a, b, e, rfl, hn, -, ha, hb, he⟩ := h
  have e1 : '<' :: n ++ a ++ b ++ e ++ ['>'] ++ y = ['<'] ++ (n ++ (a ++ (b ++ (e ++ ('>' :: y))))) := by simp
  rw [e1, afterTag_plain _ (by decide), afterTag_plain _ (plain_name hn)]
  clear e1
  have h1 : ∀ z, afterTag none (a ++ z) = afterTag none z := by
    intro z
    clear hb he
    induction ha with
    | nil => rfl
    | cons hx _ ih => rw [List.append_assoc, afterTag_attribute hx, ih]
  rw [h1]
  have h2 : afterTag none (b ++ (e ++ '>' :: y)) = afterTag none (e ++ '>' :: y) := by
    rcases hb with rfl | hb
    · rfl
    · exact afterTag_plain _ (fun c hc => plain_white (plain_gap hb c hc))
  rw [h2]
  rcases he with rfl | rfl <;> simp [afterTag]

theorem prefixFree_open (g : Prop) : PrefixFree (HtmlOpen g) := by
  intro x y x' y' h h' e
  have h1 := afterTag_open h y
  rw [e, afterTag_open h' y'] at h1
  injection h1 with h1
  subst h1
  exact ⟨List.append_cancel_right e, rfl⟩

theorem afterTag_close {g : Prop} {x : Str} (h : HtmlClose g x) (y : Str) : afterTag none (x ++ y) = some y := by
  obtain ⟨n, b, rfl, hn, -, hb⟩ := h
  have e1 : '<' :: '/' :: n ++ b ++ ['>'] ++ y = ['<', '/'] ++ (n ++ (b ++ ('>' :: y))) := by simp
  rw [e1, afterTag_plain _ (by decide), afterTag_plain _ (plain_name hn)]
  have h2 : afterTag none (b ++ ('>' :: y)) = afterTag none ('>' :: y) := by
    rcases hb with rfl | ⟨hb, -⟩
    · rfl
    · exact afterTag_plain _ (fun c hc => plain_white (plain_gap hb c hc))
  rw [h2]
  simp [afterTag]

theorem prefixFree_close (g : Prop) : PrefixFree (HtmlClose g) := by
  intro x y x' y' h h' e
  have h1 := afterTag_close h y
  rw [e, afterTag_close h' y'] at h1
  injection h1 with h1
  subst h1
  exact ⟨List.append_cancel_right e, rfl⟩

/-- A text up to the first place where `e` stands. -/
theorem first_place {e b b' y y' : Str} (h : ¬ e <:+: b ++ e.dropLast) (h' : ¬ e <:+: b' ++ e.dropLast) (heq : b ++ (e ++ y) = b' ++ (e ++ y')) : b = b' := by
  have aux : ∀ {b b' y y' : Str}, ¬ e <:+: b' ++ e.dropLast → b ++ (e ++ y) = b' ++ (e ++ y') → ¬ b.length < b'.length := by
    intro b b' y y' h' heq hl
    apply h'
    by_cases he : e = []
    · subst he; exact List.nil_infix
    have h1 : b ++ e <+: b' ++ (e ++ y') := ⟨y, by rw [List.append_assoc]; exact heq⟩
    have h2 : b' ++ e.dropLast <+: b' ++ (e ++ y') := by
      refine (List.prefix_append_right_inj _).mpr ?_
      exact (List.dropLast_prefix e).trans (List.prefix_append _ _)
    have hpos : 0 < e.length := List.length_pos_iff.mpr he
    have h3 := List.prefix_of_prefix_length_le h1 h2 (by simp; omega)
    exact (List.suffix_append b e).isInfix.trans h3.isInfix
  have l1 := aux h' heq
  have l2 := aux h heq.symm
  exact (List.append_inj heq (by omega)).1

/-- `e` does not reach over the end if its last character is not there. -/
theorem infix_drop {e b t : Str} {d : Char} {e0 : Str} (he : e = e0 ++ [d]) (hd : d ∉ t) (h : e <:+: b ++ t) : e <:+: b := by
  induction t using List.reverseRecOn with
  | nil => simpa using h
  | append_singleton t c ih =>
    rw [← List.append_assoc, List.infix_concat_iff] at h
    rcases h with h | h
    · obtain ⟨z, hz⟩ := h
      rw [he, ← List.append_assoc] at hz
      have := (List.append_inj' hz rfl).2
      injection this with this
      exact absurd (by simp [this]) hd
    · exact ih (fun hm => hd (by simp [hm])) h

theorem prefixFree_of {L : Str → Prop} (a e e' : Str) (h : ∀ x, L x → ∃ b, x = a ++ b ++ (e ++ e') ∧ ¬ e <:+: b ++ e.dropLast) : PrefixFree L := by
  intro x y x' y' hx hx' heq
  obtain ⟨b, rfl, hb⟩ := h x hx
  obtain ⟨b', rfl, hb'⟩ := h x' hx'
  have e1 : b ++ (e ++ (e' ++ y)) = b' ++ (e ++ (e' ++ y')) := by simpa using heq
  have := first_place hb hb' e1
  subst this
  refine ⟨rfl, ?_⟩
  simpa using heq

theorem prefixFree_instruction : PrefixFree HtmlInstruction := by
  refine prefixFree_of "<?".toList "?>".toList [] ?_
  rintro x ⟨b, rfl, hb⟩
  exact ⟨b, rfl, fun h => hb (infix_drop (d := '>') (e0 := ['?']) rfl (by decide) h)⟩

theorem prefixFree_cdata : PrefixFree HtmlCData := by
  refine prefixFree_of "<![CDATA[".toList "]]>".toList [] ?_
  rintro x ⟨b, rfl, -, hb⟩
  exact ⟨b, rfl, fun h => hb (infix_drop (d := '>') (e0 := [']', ']']) rfl (by decide) h)⟩

theorem prefixFree_comment : PrefixFree HtmlComment := by
  refine prefixFree_of "<!--".toList "--".toList ['>'] ?_
  rintro x ⟨u, c, rfl, -, hc, -, hu, -⟩
  refine ⟨u ++ [c], rfl, ?_⟩
  intro h
  change ['-', '-'] <:+: (u ++ [c]) ++ ['-'] at h
  rw [List.infix_concat_iff] at h
  rcases h with ⟨z, hz⟩ | h
  · have e1 : (z ++ ['-']) ++ ['-'] = (u ++ [c]) ++ ['-'] := by simpa using hz
    have e2 := (List.append_inj' e1 rfl).1
    have := (List.append_inj' e2 rfl).2
    injection this with this
    exact hc this.symm
  · rw [List.infix_concat_iff] at h
    rcases h with ⟨z, hz⟩ | h
    · have e1 : (z ++ ['-']) ++ ['-'] = u ++ [c] := by simpa using hz
      have := (List.append_inj' e1 rfl).2
      injection this with this
      exact hc this.symm
    · exact hu h

theorem prefixFree_declaration (g : Prop) : PrefixFree (HtmlDeclaration g) := by
  refine prefixFree_of "<!".toList ['>'] [] ?_
  rintro x ⟨n, b, rfl, -, hn, hb, -⟩
  refine ⟨n ++ b, rfl, ?_⟩
  intro h
  have : '>' ∈ n ++ b := by
    have := h.subset (a := '>') (by simp)
    simpa using this
  rcases List.mem_append.mp this with h | h
  · have := hn _ h
    unfold Upper at this
    revert this
    decide
  · exact hb h

/-! ### The whole removal -/

theorem html_nonempty (g : Prop) : ¬ HtmlOpen g [] ∧ ¬ HtmlClose g [] ∧ ¬ HtmlComment [] ∧ ¬ HtmlInstruction [] ∧ ¬ HtmlDeclaration g [] ∧ ¬ HtmlCData [] := by
  refine ⟨?_, ?_, ?_, ?_, ?_, ?_⟩
  · rintro ⟨n, a, b, e, h, -⟩; simp at h
  · rintro ⟨n, b, h, -⟩; simp at h
  · rintro ⟨u, c, h, -⟩; simp at h
  · rintro ⟨b, h, -⟩; simp at h
  · rintro ⟨n, b, h, -⟩; simp at h
  · rintro ⟨b, h, -⟩; simp at h

theorem asciiWord_of {E : Env} (hE : E.Lawful) : Re.AsciiWord E.isWord := fun c hc => hE.word_ascii c hc

theorem htmlDeleted_of {E : Env} (hE : E.Lawful) {p : Parser} (hp : p.cmarkLike = true) (s : Str) : HtmlDeleted (p.gfm = true) s (removeHtmlTags E s p) := by
  unfold removeHtmlTags
  rw [if_pos hp]
  obtain ⟨h1, h2, h3, h4, h5, h6⟩ := html_nonempty (p.gfm = true)
  by_cases hg : p.gfm = true
  · simp only [Rx.htmlRegexes, if_pos hg, List.foldl]
    rw [eq_true hg] at h1 h2 h5 ⊢
    exact ⟨_, _, _, _, _, Re.sub_deleted (Re.is_otGithub (asciiWord_of hE)) h1 _, Re.sub_deleted (Re.is_ctGithub (asciiWord_of hE)) h2 _,
      Re.sub_deleted Re.is_co h3 _, Re.sub_deleted Re.is_pi h4 _, Re.sub_deleted Re.is_deGithub h5 _, Re.sub_deleted Re.is_cd h6 _⟩
  · simp only [Rx.htmlRegexes, if_neg hg, List.foldl]
    rw [eq_false hg] at h1 h2 h5 ⊢
    exact ⟨_, _, _, _, _, Re.sub_deleted Re.is_otCmark h1 _, Re.sub_deleted Re.is_ctCmark h2 _,
      Re.sub_deleted Re.is_co h3 _, Re.sub_deleted Re.is_pi h4 _, Re.sub_deleted Re.is_deCmark h5 _, Re.sub_deleted Re.is_cd h6 _⟩

theorem Spec.HtmlDeleted.unique {g : Prop} {s t t' : Str} (h : HtmlDeleted g s t) (h' : HtmlDeleted g s t') : t = t' := by
  obtain ⟨h1, h2, h3, h4, h5, h6⟩ := html_nonempty g
  obtain ⟨s1, s2, s3, s4, s5, a1, a2, a3, a4, a5, a6⟩ := h
  obtain ⟨r1, r2, r3, r4, r5, b1, b2, b3, b4, b5, b6⟩ := h'
  obtain rfl := a1.unique (prefixFree_open g) h1 b1
  obtain rfl := a2.unique (prefixFree_close g) h2 b2
  obtain rfl := a3.unique prefixFree_comment h3 b3
  obtain rfl := a4.unique prefixFree_instruction h4 b4
  obtain rfl := a5.unique (prefixFree_declaration g) h5 b5
  exact a6.unique prefixFree_cdata h6 b6

/-! ### Texts in which `<` only starts inline HTML -/

/-- One pass: the pieces `A` go, the pieces `B` stay. -/
theorem pass {A B : Str → Prop} (hA : ∀ x, A x → ∃ u, x = '<' :: u) (hB : ∀ x, B x → ∃ u, x = '<' :: u ∧ '<' ∉ u ∧ ∀ y z, x ++ y = z → ∀ a b, z = a ++ b → ¬ A a) {s t : Str}
    (h : WithoutTags (fun x => A x ∨ B x) s t) : ∃ s1, Deleted A s s1 ∧ WithoutTags B s1 t := by
  induction h with
  | nil => exact ⟨[], .nil, .nil⟩
  | @char c s t hc _ ih =>
    obtain ⟨s1, h1, h2⟩ := ih
    refine ⟨c :: s1, .char ?_ h1, .char hc h2⟩
    intro x y e hx
    obtain ⟨u, rfl⟩ := hA x hx
    injection e with e _
    exact hc e
  | @tag x s t hx _ ih =>
    obtain ⟨s1, h1, h2⟩ := ih
    rcases hx with hx | hx
    · exact ⟨s1, .piece hx h1, h2⟩
    · refine ⟨x ++ s1, ?_, .tag hx h2⟩
      obtain ⟨u, rfl, hu, hn⟩ := hB x hx
      refine .char (fun a b e => hn s _ rfl a b e) ?_
      clear hn hx
      induction u with
      | nil => exact h1
      | cons c u ih =>
        refine .char ?_ (ih (fun hm => hu (by simp [hm])))
        intro a b e ha
        obtain ⟨v, rfl⟩ := hA a ha
        injection e with e _
        exact hu (by simp [e])

/-- The second and the third character tell the kinds apart. -/
theorem open_second {g : Prop} {x : Str} (h : HtmlOpen g x) : ∃ c u, x = '<' :: c :: u ∧ Letter c := by
  obtain ⟨n, a, b, e, rfl, ⟨c, t, rfl, hc, -⟩, -⟩ := h
  exact ⟨c, t ++ a ++ b ++ e ++ ['>'], by simp, hc⟩

theorem close_second {g : Prop} {x : Str} (h : HtmlClose g x) : ∃ u, x = '<' :: '/' :: u ∧ '<' ∉ u := by
  obtain ⟨n, b, rfl, hn, -, hb⟩ := h
  refine ⟨n ++ b ++ ['>'], by simp, ?_⟩
  simp only [List.mem_append, List.mem_singleton, not_or]
  refine ⟨⟨?_, ?_⟩, by decide⟩
  · obtain ⟨c, t, rfl, hc, ht⟩ := hn
    have h1 : ∀ d, (Letter d ∨ Digit d ∨ d = '-') → d ≠ '<' := by
      intro d hd
      unfold Letter Digit at hd
      rintro rfl
      revert hd
      decide
    intro hm
    rcases List.mem_cons.mp hm with h | h
    · exact h1 c (.inl hc) h.symm
    · exact h1 _ (ht _ h) rfl
  · intro hm
    rcases hb with rfl | ⟨hb, -⟩
    · simp at hm
    · have := plain_gap hb _ hm
      unfold WhiteSpace at this
      revert this
      decide

theorem comment_second {x : Str} (h : HtmlComment x) : ∃ u, x = '<' :: '!' :: '-' :: u := by
  obtain ⟨u, c, rfl, -⟩ := h
  exact ⟨'-' :: (u ++ [c]) ++ "-->".toList, by simp⟩

theorem instruction_second {x : Str} (h : HtmlInstruction x) : ∃ u, x = '<' :: '?' :: u := by
  obtain ⟨b, rfl, -⟩ := h
  exact ⟨b ++ "?>".toList, by simp⟩

theorem declaration_second {g : Prop} {x : Str} (h : HtmlDeclaration g x) : ∃ c u, x = '<' :: '!' :: c :: u ∧ Upper c := by
  obtain ⟨n, b, rfl, h0, hn, -⟩ := h
  cases n with
  | nil => exact absurd rfl h0
  | cons c n => exact ⟨c, n ++ b ++ ['>'], by simp, hn c (by simp)⟩

theorem cdata_second {x : Str} (h : HtmlCData x) : ∃ u, x = '<' :: '!' :: '[' :: u := by
  obtain ⟨b, rfl, -⟩ := h
  exact ⟨"CDATA[".toList ++ b ++ "]]>".toList, by simp⟩

theorem withoutTags_none {s t : Str} (h : WithoutTags (fun _ => False) s t) : s = t := by
  induction h with
  | nil => rfl
  | char _ _ ih => rw [ih]
  | tag hx _ _ => exact hx.elim

theorem htmlDeleted_of_pieces {g : Prop} {s t : Str} (h : WithoutTags (HtmlPiece g) s t) : HtmlDeleted g s t := by
  have hl : ∀ c, Letter c → c ≠ '/' ∧ c ≠ '!' ∧ c ≠ '?' := by
    intro c hc
    unfold Letter at hc
    refine ⟨?_, ?_, ?_⟩ <;> (rintro rfl; revert hc; decide)
  have hu : ∀ c, Upper c → c ≠ '-' ∧ c ≠ '[' := by
    intro c hc
    unfold Upper at hc
    refine ⟨?_, ?_⟩ <;> (rintro rfl; revert hc; decide)
  obtain ⟨s1, d1, h⟩ := pass (A := HtmlOpen g) (B := fun x => HtmlClose g x ∨ ((HtmlComment x ∨ HtmlInstruction x ∨ HtmlDeclaration g x ∨ HtmlCData x) ∧ '<' ∉ x.tail))
    (fun x hx => by obtain ⟨c, u, rfl, -⟩ := open_second hx; exact ⟨_, rfl⟩)
    (by
      rintro x (hx | ⟨hx | hx | hx | hx, ht⟩)
      · obtain ⟨u, rfl, hn⟩ := close_second hx
        refine ⟨_, rfl, by simp [hn], ?_⟩
        rintro y z rfl a b e ha
        obtain ⟨c, v, rfl, hc⟩ := open_second ha
        injection e with _ e; injection e with e _
        exact (hl c hc).1 e.symm
      · obtain ⟨u, rfl⟩ := comment_second hx
        refine ⟨_, rfl, ht, ?_⟩
        rintro y z rfl a b e ha
        obtain ⟨c, v, rfl, hc⟩ := open_second ha
        injection e with _ e; injection e with e _
        exact (hl c hc).2.1 e.symm
      · obtain ⟨u, rfl⟩ := instruction_second hx
        refine ⟨_, rfl, ht, ?_⟩
        rintro y z rfl a b e ha
        obtain ⟨c, v, rfl, hc⟩ := open_second ha
        injection e with _ e; injection e with e _
        exact (hl c hc).2.2 e.symm
      · obtain ⟨d, u, rfl, hd⟩ := declaration_second hx
        refine ⟨_, rfl, ht, ?_⟩
        rintro y z rfl a b e ha
        obtain ⟨c, v, rfl, hc⟩ := open_second ha
        injection e with _ e; injection e with e _
        exact (hl c hc).2.1 e.symm
      · obtain ⟨u, rfl⟩ := cdata_second hx
        refine ⟨_, rfl, ht, ?_⟩
        rintro y z rfl a b e ha
        obtain ⟨c, v, rfl, hc⟩ := open_second ha
        injection e with _ e; injection e with e _
        exact (hl c hc).2.1 e.symm) (h.mono (fun x hx => hx))
  obtain ⟨s2, d2, h⟩ := pass (A := HtmlClose g) (B := fun x => (HtmlComment x ∨ HtmlInstruction x ∨ HtmlDeclaration g x ∨ HtmlCData x) ∧ '<' ∉ x.tail)
    (fun x hx => by obtain ⟨u, rfl, -⟩ := close_second hx; exact ⟨_, rfl⟩)
    (by
      rintro x ⟨hx | hx | hx | hx, ht⟩
      · obtain ⟨u, rfl⟩ := comment_second hx
        refine ⟨_, rfl, ht, ?_⟩
        rintro y z rfl a b e ha
        obtain ⟨v, rfl, -⟩ := close_second ha
        injection e with _ e; injection e with e _
        exact absurd e (by decide)
      · obtain ⟨u, rfl⟩ := instruction_second hx
        refine ⟨_, rfl, ht, ?_⟩
        rintro y z rfl a b e ha
        obtain ⟨v, rfl, -⟩ := close_second ha
        injection e with _ e; injection e with e _
        exact absurd e (by decide)
      · obtain ⟨d, u, rfl, hd⟩ := declaration_second hx
        refine ⟨_, rfl, ht, ?_⟩
        rintro y z rfl a b e ha
        obtain ⟨v, rfl, -⟩ := close_second ha
        injection e with _ e; injection e with e _
        exact absurd e (by decide)
      · obtain ⟨u, rfl⟩ := cdata_second hx
        refine ⟨_, rfl, ht, ?_⟩
        rintro y z rfl a b e ha
        obtain ⟨v, rfl, -⟩ := close_second ha
        injection e with _ e; injection e with e _
        exact absurd e (by decide)) (h.mono (fun x hx => hx))
  obtain ⟨s3, d3, h⟩ := pass (A := HtmlComment) (B := fun x => (HtmlInstruction x ∨ HtmlDeclaration g x ∨ HtmlCData x) ∧ '<' ∉ x.tail)
    (fun x hx => by obtain ⟨u, rfl⟩ := comment_second hx; exact ⟨_, rfl⟩)
    (by
      rintro x ⟨hx | hx | hx, ht⟩
      · obtain ⟨u, rfl⟩ := instruction_second hx
        refine ⟨_, rfl, ht, ?_⟩
        rintro y z rfl a b e ha
        obtain ⟨v, rfl⟩ := comment_second ha
        injection e with _ e; injection e with e _
        exact absurd e (by decide)
      · obtain ⟨d, u, rfl, hd⟩ := declaration_second hx
        refine ⟨_, rfl, ht, ?_⟩
        rintro y z rfl a b e ha
        obtain ⟨v, rfl⟩ := comment_second ha
        injection e with _ e; injection e with _ e; injection e with e _
        exact (hu d hd).1 e
      · obtain ⟨u, rfl⟩ := cdata_second hx
        refine ⟨_, rfl, ht, ?_⟩
        rintro y z rfl a b e ha
        obtain ⟨v, rfl⟩ := comment_second ha
        injection e with _ e; injection e with _ e; injection e with e _
        exact absurd e (by decide)) (h.mono (fun x hx => by
          obtain ⟨hx | hx, ht⟩ := hx
          · exact .inl hx
          · exact .inr ⟨hx, ht⟩))
  obtain ⟨s4, d4, h⟩ := pass (A := HtmlInstruction) (B := fun x => (HtmlDeclaration g x ∨ HtmlCData x) ∧ '<' ∉ x.tail)
    (fun x hx => by obtain ⟨u, rfl⟩ := instruction_second hx; exact ⟨_, rfl⟩)
    (by
      rintro x ⟨hx | hx, ht⟩
      · obtain ⟨d, u, rfl, hd⟩ := declaration_second hx
        refine ⟨_, rfl, ht, ?_⟩
        rintro y z rfl a b e ha
        obtain ⟨v, rfl⟩ := instruction_second ha
        injection e with _ e; injection e with e _
        exact absurd e (by decide)
      · obtain ⟨u, rfl⟩ := cdata_second hx
        refine ⟨_, rfl, ht, ?_⟩
        rintro y z rfl a b e ha
        obtain ⟨v, rfl⟩ := instruction_second ha
        injection e with _ e; injection e with e _
        exact absurd e (by decide)) (h.mono (fun x hx => by
          obtain ⟨hx | hx, ht⟩ := hx
          · exact .inl hx
          · exact .inr ⟨hx, ht⟩))
  obtain ⟨s5, d5, h⟩ := pass (A := HtmlDeclaration g) (B := fun x => HtmlCData x ∧ '<' ∉ x.tail)
    (fun x hx => by obtain ⟨c, u, rfl, -⟩ := declaration_second hx; exact ⟨_, rfl⟩)
    (by
      rintro x ⟨hx, ht⟩
      obtain ⟨u, rfl⟩ := cdata_second hx
      refine ⟨_, rfl, ht, ?_⟩
      rintro y z rfl a b e ha
      obtain ⟨c, v, rfl, hc⟩ := declaration_second ha
      injection e with _ e; injection e with _ e; injection e with e _
      exact (hu c hc).2 e.symm) (h.mono (fun x hx => by
          obtain ⟨hx | hx, ht⟩ := hx
          · exact .inl hx
          · exact .inr ⟨hx, ht⟩))
  obtain ⟨s6, d6, h⟩ := pass (A := HtmlCData) (B := fun _ => False)
    (fun x hx => by obtain ⟨u, rfl⟩ := cdata_second hx; exact ⟨_, rfl⟩) (fun x hx => hx.elim) (h.mono (fun x hx => .inl hx.1))
  obtain rfl := withoutTags_none h
  exact ⟨s1, s2, s3, s4, s5, d1, d2, d3, d4, d5, d6⟩

end MdToc
