import Verif.Props.Case
import Verif.Props.Slug

/-!
# The link targets depend on nothing but the slugs: C112
-/

set_option linter.unusedSimpArgs false

namespace MdToc.Props

open MdToc MdToc.Spec

/-- The two texts have the same slug. -/
def SameSlug (E : Env) (p : Parser) (t t' : Str) : Prop := ∃ b, BaseSlug E p t b ∧ BaseSlug E p t' b

/-- **C112**: the anchors of two texts with the same slug are the same, whatever headings came before, and count as the same heading for later ones. -/
theorem C112_anchor {E : Env} {p : Parser} {t t' : Str} (h : SameSlug E p t t') {d d1 d1' : Dup} {a a' : Str} (h1 : buildAnchorLink E t d p = .ok (a, d1))
    (h2 : buildAnchorLink E t' d p = .ok (a', d1')) : a = a' ∧ d1 = d1' := by
  obtain ⟨b, ⟨d0, hb⟩, ⟨d0', hb'⟩⟩ := h
  unfold buildAnchorLink at h1 h2 hb hb'
  split at h1
  · cases h1
  split at h2
  · cases h2
  rename_i n1 n2
  rw [if_neg n1] at hb
  rw [if_neg n2] at hb'
  by_cases hp : p.cmarkLike = true
  · rw [if_pos hp] at h1 h2 hb hb'
    cases e1 : baseAnchor E t p with
    | error e => rw [e1] at hb; cases hb
    | ok x =>
      cases e2 : baseAnchor E t' p with
      | error e => rw [e2] at hb'; cases hb'
      | ok x' =>
        rw [e1] at h1 hb
        rw [e2] at h2 hb'
        simp [bind, Except.bind] at h1 h2 hb hb'
        have hx : x = x' := by rw [hb.1, hb'.1]
        subst hx
        exact ⟨by rw [← h1.1, ← h2.1], by rw [← h1.2, ← h2.2]⟩
  · rw [if_neg hp] at h1 h2 hb hb'
    simp only [Except.ok.injEq, Prod.mk.injEq] at h1 h2 hb hb'
    exact ⟨by rw [← h1.1, ← h2.1, hb.1, hb'.1], by rw [← h1.2, ← h2.2]⟩

theorem anchorRun_slugs {E : Env} {p : Parser} {ts ts' : List Str} (h : List.Forall₂ (SameSlug E p) ts ts') : ∀ {d d1 d1' : Dup} {as as' : List Str},
    anchorRun E p d ts = .ok (as, d1) → anchorRun E p d ts' = .ok (as', d1') → as = as' := by
  induction h with
  | nil =>
    intro d d1 d1' as as' h1 h2
    rw [h1] at h2
    injection h2 with h2
    exact (Prod.mk.inj h2).1
  | @cons t t' ts ts' ht _ ih =>
    intro d d1 d1' as as' h1 h2
    simp only [anchorRun] at h1 h2
    cases e1 : buildAnchorLink E t d p with
    | error e => rw [e1] at h1; cases h1
    | ok x =>
      cases e2 : buildAnchorLink E t' d p with
      | error e => rw [e2] at h2; cases h2
      | ok x' =>
        obtain ⟨a, b⟩ := x
        obtain ⟨a', b'⟩ := x'
        obtain ⟨rfl, rfl⟩ := C112_anchor ht e1 e2
        rw [e1] at h1
        rw [e2] at h2
        simp only at h1 h2
        cases e3 : anchorRun E p b ts with
        | error e => rw [e3] at h1; cases h1
        | ok y =>
          cases e4 : anchorRun E p b ts' with
          | error e => rw [e4] at h2; cases h2
          | ok y' =>
            obtain ⟨u, v⟩ := y
            obtain ⟨u', v'⟩ := y'
            have := ih e3 e4
            subst this
            rw [e3] at h1
            rw [e4] at h2
            simp only [Except.ok.injEq, Prod.mk.injEq] at h1 h2
            rw [← h1.1, ← h2.1]

theorem listedInfo_anchors {q : Nat → Bool} : ∀ {heads heads' : List (Nat × Str)}, heads.map Prod.fst = heads'.map Prod.fst → ∀ as : List Str,
    List.Forall₂ (fun x y => x.2.2 = y.2.2) (listedInfo q heads as) (listedInfo q heads' as)
  | [], [], _, as => by simp [listedInfo]
  | [], _ :: _, h, _ => by simp at h
  | _ :: _, [], h, _ => by simp at h
  | (n, t) :: heads, (n', t') :: heads', h, as => by
    simp only [List.map_cons, List.cons.injEq] at h
    obtain ⟨rfl, h⟩ := h
    cases as with
    | nil => simp [listedInfo]
    | cons a as =>
      rw [listedInfo_cons, listedInfo_cons]
      by_cases hq : q n = true
      · rw [if_pos hq, if_pos hq]
        exact .cons rfl (listedInfo_anchors h as)
      · rw [if_neg hq, if_neg hq]
        exact listedInfo_anchors h as

/-- **C112**: if the headings of two documents have the same levels and the same slugs then the tables have entries at the same places with the same link targets, whatever the texts are. -/
theorem C112_documents {E : Env} {o : Options} {fn fn' text text' out out' : Str} (h : buildToc E o fn (some ⟨text, false⟩) = .ok out) (h' : buildToc E o fn' (some ⟨text', false⟩) = .ok out')
    {vs vs' : List Str} (hv : Looks o fn text vs) (hv' : Looks o fn' text' vs') {heads heads' : List (Nat × Str)} (hh : Headings o.parser o.noLinks vs heads)
    (hh' : Headings o.parser o.noLinks vs' heads') (hc : List.Forall₂ (fun x y => x.1 = y.1 ∧ SameSlug E o.parser x.2 y.2) heads heads') :
    ∃ es es', Table E o vs out es ∧ Table E o vs' out' es' ∧ List.Forall₂ (fun e e' => e.level = e'.level ∧ e.number = e'.number ∧ e.indent = e'.indent ∧ e.anchor = e'.anchor) es es' := by
  have hl : heads.map Prod.fst = heads'.map Prod.fst := by
    clear hh hh'
    induction hc with
    | nil => rfl
    | cons h _ ih => rw [List.map_cons, List.map_cons, h.1, ih]
  have ht2 : List.Forall₂ (SameSlug E o.parser) (heads.map Prod.snd) (heads'.map Prod.snd) := by
    clear hh hh' hl
    induction hc with
    | nil => exact .nil
    | cons h _ ih => exact .cons h.2 ih
  obtain ⟨es, es', t1, t2, hplace⟩ := C87_places h h' hv hv' hh hh' (by rw [hl])
  refine ⟨es, es', t1, t2, ?_⟩
  obtain ⟨⟨hd, as, d, g1, g2, -, g4⟩, -⟩ := t1
  obtain ⟨⟨hd', as', d', k1, k2, -, k4⟩, -⟩ := t2
  have := headings_unique g1 hh
  subst this
  have := headings_unique k1 hh'
  subst this
  have := anchorRun_slugs ht2 g2 k2
  subst this
  have hrel := listedInfo_anchors (q := listed o.parser o.keep) hl as
  have g4' : es.map Entry.info = listedInfo (listed o.parser o.keep) hd as := g4
  have k4' : es'.map Entry.info = listedInfo (listed o.parser o.keep) hd' as := k4
  rw [← g4', ← k4'] at hrel
  refine forall2_imp ?_ (entries_rel hplace hrel)
  rintro e e' ⟨x1, x2⟩
  simp only [Entry.place, Prod.mk.injEq] at x1
  exact ⟨x1.1, x1.2.1, x1.2.2, x2⟩

/-- The letters of a text without markup: letters and digits of ASCII, spaces and hyphens. -/
def letter (c : Char) : Bool :=
  decide (('A' ≤ c ∧ c ≤ 'Z') ∨ ('a' ≤ c ∧ c ≤ 'z') ∨ ('0' ≤ c ∧ c ≤ '9') ∨ c = ' ' ∨ c = '-')

theorem slug_letters {E : Env} (hE : E.Lawful) : ∀ {s : Str}, (∀ c ∈ s, c.toNat < 128) → (∀ c ∈ s, Plain c) → slug E.isWord (s.map asciiLower) = slug E.isWord ((s.filter letter).map asciiLower)
  | [], _, _ => rfl
  | c :: s, ha, hp => by
    have ih := slug_letters hE (s := s) (fun x hx => ha x (by simp [hx])) (fun x hx => hp x (by simp [hx]))
    by_cases hc : letter c = true
    · rw [List.filter_cons_of_pos hc, List.map_cons, List.map_cons, slug, slug, ih]
    · rw [List.filter_cons_of_neg hc, List.map_cons, slug, ← ih]
      have hall : ∀ n < 128, letter (Char.ofNat n) = false → Char.ofNat n ≠ '_' → asciiLower (Char.ofNat n) ≠ ' ' ∧ asciiLower (Char.ofNat n) ≠ '-' ∧ (asciiLower (Char.ofNat n)).toNat < 128 ∧
          (isAsciiAlpha (asciiLower (Char.ofNat n)) || isAsciiDigit (asciiLower (Char.ofNat n)) || asciiLower (Char.ofNat n) == '_') = false := by decide +kernel
      have h1 := hall c.toNat (ha c (by simp))
      rw [Char.ofNat_toNat] at h1
      obtain ⟨i1, i2, i3, i4⟩ := h1 (by simpa using hc) (hp c (by simp)).2.2.2.2.2.2.2.2.2.1
      rw [if_neg i1, if_neg]
      rw [hE.word_ascii _ i3, i4]
      simp [i2]

/-- **C112**: headings in ASCII without markup that differ in nothing but punctuation and capital letters have the same slug; so a colon or an exclamation mark more or less changes no link target. -/
theorem C112_punctuation {E : Env} (hE : E.Lawful) {p : Parser} (hp : p ≠ .redcarpet) {t t' : Str} (ha : ∀ c ∈ t ++ t', c.toNat < 128) (hpl : ∀ c ∈ t ++ t', Plain c)
    (h : List.Forall₂ AsciiCase (t.filter letter) (t'.filter letter)) : SameSlug E p t t' := by
  have h1 := C60_plain hE hp (s := t) (fun c hc => ha c (by simp [hc])) (fun c hc => hpl c (by simp [hc]))
  have h2 := C60_plain hE hp (s := t') (fun c hc => ha c (by simp [hc])) (fun c hc => hpl c (by simp [hc]))
  rw [slug_letters hE (fun c hc => ha c (by simp [hc])) (fun c hc => hpl c (by simp [hc]))] at h1 h2
  have e : (t.filter letter).map asciiLower = (t'.filter letter).map asciiLower := by
    generalize t.filter letter = x at h
    generalize t'.filter letter = y at h
    clear * - h
    induction h with
    | nil => rfl
    | cons hc _ ih =>
      rw [List.map_cons, List.map_cons, ih]
      rcases asciiCase_class hc with rfl | ⟨-, -, -, -, -, -, hc⟩
      · rfl
      · rw [hc]
  rw [← e] at h2
  exact ⟨_, h1, h2⟩

/-! ### The theorems apply -/

/-- Two documents with other punctuation and markup. -/
example : buildToc asciiEnv {} "a.md".toList (some ⟨"# What now?\n## *What* now\n".toList, false⟩) = .ok "- [What now?](#what-now)\n  - [*What* now](#what-now-1)\n".toList ∧
    buildToc asciiEnv {} "a.md".toList (some ⟨"# what, now!\n## What (now)\n".toList, false⟩) = .ok "- [what, now!](#what-now)\n  - [What (now)](#what-now-1)\n".toList := by
  decide +kernel

/-- The headings of these documents have the same slugs: the first ones by `C112_punctuation`, the second ones as computed. -/
example : SameSlug asciiEnv .github "What now?".toList "what, now!".toList ∧ SameSlug asciiEnv .github "*What* now".toList "What (now)".toList := by
  constructor
  · refine C112_punctuation asciiEnv_lawful (by decide) (by decide +kernel) (by decide +kernel) ?_
    rw [show "What now?".toList.filter letter = "What now".toList by decide +kernel, show "what, now!".toList.filter letter = "what now".toList by decide +kernel]
    exact .cons (.inr ⟨22, by decide, .inl (by decide)⟩) (.cons (.inl rfl) (.cons (.inl rfl) (.cons (.inl rfl) (.cons (.inl rfl) (.cons (.inl rfl) (.cons (.inl rfl) (.cons (.inl rfl) .nil)))))))
  · have key : ∀ t : Str, (buildAnchorLink asciiEnv t (fun _ => 0) .github).map Prod.fst = .ok "what-now".toList → BaseSlug asciiEnv .github t "what-now".toList := by
      intro t h
      cases e : buildAnchorLink asciiEnv t (fun _ => 0) .github with
      | error x => rw [e] at h; cases h
      | ok x =>
        rw [e] at h
        injection h with h
        exact ⟨x.2, by rw [e, ← h]⟩
    exact ⟨_, key _ (by decide +kernel), key _ (by decide +kernel)⟩

end MdToc.Props
