import Verif.Props.SameSlugs
import Verif.Props.TocMore
import Verif.Props.NoLinks

/-!
# The slug of a slug: C115
-/

set_option linter.unusedSimpArgs false

namespace MdToc.Props

open MdToc MdToc.Spec

theorem without_mem {P : Char → Prop} {s t : Str} (h : Without P s t) : ∀ c ∈ t, c ∈ s := by
  induction h with
  | nil => simp
  | keep _ ih =>
    intro c hc
    rcases List.mem_cons.mp hc with rfl | hc
    · simp
    · simp [ih c hc]
  | drop _ _ ih => exact fun c hc => by simp [ih c hc]

/-- The characters of a slug are hyphens and characters of the text in small letters. -/
theorem baseAnchor_from {E : Env} {p : Parser} {t b : Str} (h : baseAnchor E t p = .ok b) : ∀ c ∈ b, c = '-' ∨ c ∈ E.lower t := by
  unfold baseAnchor at h
  cases he : removeEmphasis E (removeHtmlTags E (E.lower t) p) p with
  | error e =>
    simp only [bind, Except.bind] at h
    rw [he] at h
    cases h
  | ok x =>
    simp only [bind, Except.bind] at h
    rw [he] at h
    simp only [Except.ok.injEq] at h
    have key : ∀ c ∈ replaceChar ' ' '-' (punctuationFilter E x p), c = '-' ∨ c ∈ E.lower t := by
      intro c hc
      unfold replaceChar at hc
      obtain ⟨d, hd, rfl⟩ := List.mem_map.mp hc
      rw [punctuationFilter_eq] at hd
      have h1 := without_mem (C49_only_delimiters he) d (List.mem_filter.mp hd).1
      have h2 := (C48_sublist E (E.lower t) p).subset (List.mem_filter.mp h1).1
      by_cases hs : d = ' '
      · simp [hs]
      · simp [hs, h2]
    subst h
    intro c hc
    split at hc
    · unfold Re.sub at hc
      rw [sub_hyphens _ _ _ _ (Nat.le_refl _)] at hc
      exact key c (collapse_mem hc)
    · exact key c hc

theorem slug_same {w : Char → Bool} : ∀ {s : Str}, (∀ c ∈ s, c ≠ ' ' ∧ (w c = true ∨ c = '-')) → slug w s = s
  | [], _ => rfl
  | c :: s, h => by
    have hc := h c (by simp)
    rw [slug, if_neg hc.1, if_pos hc.2.symm, slug_same (fun x hx => h x (by simp [hx]))]

theorem collapse_same : ∀ {s : Str} {b : Bool}, NoDoubleHyphen s → (b = true → s.head? ≠ some '-') → collapse b s = s
  | [], _, _, _ => rfl
  | c :: s, b, h, hb => by
    have hs : NoDoubleHyphen s := fun ⟨x, y, e⟩ => h ⟨c :: x, y, by rw [← e]; simp⟩
    rw [collapse]
    split
    · next hc =>
      subst hc
      rw [if_neg (by intro hb'; exact hb hb' rfl), collapse_same hs]
      intro _ hh
      cases s with
      | nil => simp at hh
      | cons d s =>
        simp at hh
        subst hh
        exact h ⟨[], s, rfl⟩
    · rw [collapse_same hs (by simp)]

/-- **C115**: a slug without underscores is its own slug. -/
theorem C115_slug {E : Env} (hE : E.Lawful) {p : Parser} (hp : p ≠ .redcarpet) {t b : Str} (ha : ∀ c ∈ t, c.toNat < 128) (h : BaseSlug E p t b) (hu : '_' ∉ b) : BaseSlug E p b b := by
  obtain ⟨d, hd⟩ := h
  have hb := buildAnchorLink_fresh (cmarkLike_of_ne hp) hd
  have hf := baseAnchor_from hb
  have hm := baseAnchor_mem hb
  rw [hE.lower_ascii t ha] at hf
  have hall : ∀ n < 128, (asciiLower (Char.ofNat n)).toNat < 128 ∧ asciiLower (asciiLower (Char.ofNat n)) = asciiLower (Char.ofNat n) := by decide +kernel
  have h1 : ∀ c ∈ b, c.toNat < 128 ∧ asciiLower c = c := by
    intro c hc
    rcases hf c hc with rfl | hc
    · decide
    · obtain ⟨x, hx, rfl⟩ := List.mem_map.mp hc
      have := hall x.toNat (ha x hx)
      rwa [Char.ofNat_toNat] at this
  have hpl : ∀ n < 128, ((isAsciiAlpha (Char.ofNat n) || isAsciiDigit (Char.ofNat n) || Char.ofNat n == '_') = true ∨ Char.ofNat n = '-') → Char.ofNat n ≠ '_' → Plain (Char.ofNat n) := by decide +kernel
  have h2 : ∀ c ∈ b, Plain c := by
    intro c hc
    have := hpl c.toNat (h1 c hc).1
    rw [Char.ofNat_toNat] at this
    refine this ?_ (fun e => hu (e ▸ hc))
    rw [← hE.word_ascii c (h1 c hc).1]
    exact (hm c hc).2
  have hmap : b.map asciiLower = b := by
    conv_rhs => rw [← List.map_id b]
    exact List.map_congr_left (fun c hc => (h1 c hc).2)
  have h3 := C60_plain hE hp (fun c hc => (h1 c hc).1) h2
  rw [hmap, slug_same hm] at h3
  split at h3
  · next e =>
    subst e
    rwa [collapse_same (C05_gitlab_collapse ⟨d, hd⟩).1 (by simp)] at h3
  · exact h3

/-- **C115**, in any language: a slug without underscores that is in small letters is its own slug. (`Ā` has a small letter, so it does not occur in such a slug.) -/
theorem C115_letters {E : Env} (hE : E.Lawful) {p : Parser} (hp : p ≠ .redcarpet) {t b : Str} (h : BaseSlug E p t b) (hl : E.lower b = b) (hu : '_' ∉ b) (hA : 'Ā' ∉ b) : BaseSlug E p b b := by
  obtain ⟨d, hd⟩ := h
  have hb := buildAnchorLink_fresh (cmarkLike_of_ne hp) hd
  have hm := baseAnchor_mem hb
  have hpl : ∀ n < 128, ((isAsciiAlpha (Char.ofNat n) || isAsciiDigit (Char.ofNat n) || Char.ofNat n == '_') = true ∨ Char.ofNat n = '-') → Char.ofNat n ≠ '_' → Plain (Char.ofNat n) := by decide +kernel
  have h2 : ∀ c ∈ b, Plain c := by
    intro c hc
    by_cases ha : c.toNat < 128
    · have := hpl c.toNat ha
      rw [Char.ofNat_toNat] at this
      refine this ?_ (fun e => hu (e ▸ hc))
      rw [← hE.word_ascii c ha]
      exact (hm c hc).2
    · have key : ∀ x : Char, x.toNat < 128 → c ≠ x := fun x hx e => ha (e ▸ hx)
      refine ⟨key _ (by decide), key _ (by decide), key _ (by decide), key _ (by decide), key _ (by decide), key _ (by decide), key _ (by decide), key _ (by decide), key _ (by decide), key _ (by decide),
        key _ (by decide), fun e => hA ?_⟩
      have : c = 'Ā' := by rw [← Char.ofNat_toNat c, e]
      rwa [← this]
  have hn : ¬ HasInteriorNewline b := by
    rintro ⟨a, x, b, n, c, y, d, rfl, -, hn, -⟩
    have := h2 n (by simp)
    rcases hn with rfl | rfl
    · exact this.2.1 rfl
    · exact this.2.2.1 rfl
  have h3 := C60_slug hE hp hn (u := b) (v := b) (by rw [hl]; exact withoutTags_plain (fun hm => (h2 _ hm).2.2.2.2.2.1 rfl)) (linksUnmarked_of_unmarked (unmarked_of_unwrapped (.plain h2)))
  rw [slug_same hm] at h3
  split at h3
  · next e =>
    subst e
    rwa [collapse_same (C05_gitlab_collapse ⟨d, hd⟩).1 (by simp)] at h3
  · exact h3

theorem words_one {sep : Char → Bool} : ∀ {w : Str}, w ≠ [] → (∀ c ∈ w, sep c = false) → words sep w = [w]
  | [], h, _ => absurd rfl h
  | [c], _, h => by simp [words, h c (by simp)]
  | c :: d :: w, _, h => by
    have ih := words_one (w := d :: w) (by simp) (fun x hx => h x (by simp [List.mem_cons.mp hx]))
    rw [words, h c (by simp), ih]
    simp [h d (by simp)]

theorem words_more {sep : Char → Bool} {x : Char} (hx : sep x = true) (r : Str) : ∀ {w : Str}, w ≠ [] → (∀ c ∈ w, sep c = false) → words sep (w ++ x :: r) = w :: words sep r
  | [], h, _ => absurd rfl h
  | [c], _, h => by simp [words, h c (by simp), hx]
  | c :: d :: w, _, h => by
    have ih := words_more hx r (w := d :: w) (by simp) (fun x hx => h x (by simp [List.mem_cons.mp hx]))
    rw [List.cons_append, List.cons_append, words, h c (by simp), ← List.cons_append, ih]
    simp [h d (by simp)]

theorem words_hyphenate {sep : Char → Bool} (hx : sep '-' = true) : ∀ {ws : List Str}, (∀ w ∈ ws, w ≠ [] ∧ ∀ c ∈ w, sep c = false) → words sep (hyphenate ws) = ws
  | [], _ => rfl
  | [w], h => words_one (h w (by simp)).1 (h w (by simp)).2
  | w :: v :: ws, h => by
    rw [hyphenate_cons_cons, words_more hx _ (h w (by simp)).1 (h w (by simp)).2, words_hyphenate hx (fun u hu => h u (by simp [List.mem_cons.mp hu]))]

/-- A small letter or another character that redcarpet leaves as it is. -/
def Settled (c : Char) : Prop := redcarpetSep c = false ∧ c ≠ '<' ∧ c ≠ '&' ∧ asciiLower c = c ∧ ¬ IsNewline c

theorem settled_again {E : Env} {ws : List Str} (h : ∀ w ∈ ws, w ≠ [] ∧ ∀ c ∈ w, Settled c) : BaseSlug E .redcarpet (hyphenate ws) (hyphenate ws) := by
  have hn : ¬ HasInteriorNewline (hyphenate ws) := by
    rintro ⟨a, x, b, n, c, y, d, e, -, hn, -⟩
    have hm : n ∈ hyphenate ws := by rw [e]; simp
    rcases hyphenate_mem hm with rfl | ⟨w, hw, hc⟩
    · rcases hn with hn | hn <;> cases hn
    · exact ((h w hw).2 n hc).2.2.2.2 hn
  have hfil : (hyphenate ws).filter (fun c => c != '<' && c != '&') = hyphenate ws := by
    rw [List.filter_eq_self]
    intro c hc
    rcases hyphenate_mem hc with rfl | ⟨w, hw, hc⟩
    · decide
    · have := (h w hw).2 c hc
      simp [this.2.1, this.2.2.1]
  have hw : redcarpetWords (hyphenate ws) = ws := by
    unfold redcarpetWords
    rw [hfil]
    exact words_hyphenate (by decide) (fun w hw => ⟨(h w hw).1, fun c hc => ((h w hw).2 c hc).1⟩)
  refine ⟨fun _ => 0, ?_⟩
  rw [C04_redcarpet_anchor E hn, hw, if_neg]
  · congr 3
    conv_rhs => rw [← List.map_id ws]
    refine List.map_congr_left (fun w hw => ?_)
    conv_rhs => rw [id, ← List.map_id w]
    exact List.map_congr_left (fun c hc => ((h w hw).2 c hc).2.2.2.1)
  · rintro ⟨h1, rfl⟩
    exact h1 rfl

/-- **C115**: with redcarpet every anchor is its own anchor, whatever the heading is. -/
theorem C115_redcarpet {E : Env} {t b : Str} (hn : ∀ c ∈ t, ¬ IsNewline c) (h : BaseSlug E .redcarpet t b) : BaseSlug E .redcarpet b b := by
  obtain ⟨d, hd⟩ := h
  have hi : ¬ HasInteriorNewline t := by
    rintro ⟨a, x, b, n, c, y, d, rfl, -, hn', -⟩
    exact hn n (by simp) hn'
  rw [C04_redcarpet_anchor E hi] at hd
  simp only [Except.ok.injEq, Prod.mk.injEq] at hd
  obtain ⟨hd, -⟩ := hd
  split at hd
  · rw [← hd]
    have e : "part-".toList ++ hex (djb2 5381 t) = hyphenate ["part".toList, hex (djb2 5381 t)] := by simp [hyphenate]
    rw [e]
    refine settled_again (fun w hw => ?_)
    simp only [List.mem_cons, List.not_mem_nil, or_false] at hw
    have hk : ∀ k < 16, Settled (Nat.digitChar k) := by unfold Settled IsNewline; decide +kernel
    rcases hw with rfl | rfl
    · refine ⟨by decide, ?_⟩
      unfold Settled IsNewline
      decide +kernel
    · refine ⟨?_, ?_⟩
      · unfold hex
        exact Nat.toDigits_ne_nil
      · intro c hc
        unfold hex Nat.toDigits at hc
        rcases toDigitsCore_mem _ _ _ hc with hc | ⟨k, hk', rfl⟩
        · cases hc
        · exact hk k hk'
  · rw [← hd]
    refine settled_again (fun w hw => ?_)
    obtain ⟨v, hv, rfl⟩ := List.mem_map.mp hw
    obtain ⟨h1, h2⟩ := words_mem (sep := redcarpetSep) _ v hv
    refine ⟨by simpa using h1, fun c hc => ?_⟩
    obtain ⟨x, hx, rfl⟩ := List.mem_map.mp hc
    have hfil := mem_words hv hx
    have hx' := List.mem_filter.mp hfil
    have hall : ∀ n < 128, (redcarpetSep (Char.ofNat n) = false ∧ Char.ofNat n ≠ '<' ∧ Char.ofNat n ≠ '&' ∧ ¬ IsNewline (Char.ofNat n)) → Settled (asciiLower (Char.ofNat n)) := by
      unfold Settled IsNewline
      intro n hn
      revert n
      decide +kernel
    have h3 := h2 x hx
    have h4 : x.toNat < 128 := by
      simp only [redcarpetSep, Bool.or_eq_false_iff, decide_eq_false_iff_not] at h3
      omega
    have := hall x.toNat h4
    rw [Char.ofNat_toNat] at this
    simp only [bne_iff_ne, Bool.and_eq_true] at hx'
    exact this ⟨h3, hx'.2.1, hx'.2.2, hn x hx'.1⟩

/-- **C115**, for documents: if all headings are replaced by their slugs then the entries of the table keep their places and their link targets, numbers of duplicates included. -/
theorem C115_documents {E : Env} (hE : E.Lawful) {o : Options} {fn fn' text text' out out' : Str} (h : buildToc E o fn (some ⟨text, false⟩) = .ok out)
    (h' : buildToc E o fn' (some ⟨text', false⟩) = .ok out') {vs vs' : List Str} (hv : Looks o fn text vs) (hv' : Looks o fn' text' vs') {heads heads' : List (Nat × Str)}
    (hh : Headings o.parser o.noLinks vs heads) (hh' : Headings o.parser o.noLinks vs' heads') (hc : List.Forall₂ (fun x y => x.1 = y.1 ∧ BaseSlug E o.parser x.2 y.2) heads heads')
    (hs : if o.parser = .redcarpet then ∀ x ∈ heads, ∀ c ∈ x.2, ¬ IsNewline c else ∀ y ∈ heads', E.lower y.2 = y.2 ∧ '_' ∉ y.2 ∧ 'Ā' ∉ y.2) :
    ∃ es es', Table E o vs out es ∧ Table E o vs' out' es' ∧ List.Forall₂ (fun e e' => e.level = e'.level ∧ e.number = e'.number ∧ e.indent = e'.indent ∧ e.anchor = e'.anchor) es es' := by
  refine C112_documents h h' hv hv' hh hh' ?_
  clear hh hh'
  induction hc with
  | nil => exact .nil
  | @cons x y xs ys hxy _ ih =>
    by_cases hp : o.parser = .redcarpet
    · rw [if_pos hp] at hs ih
      refine .cons ⟨hxy.1, _, hxy.2, ?_⟩ (ih (fun z hz => hs z (by simp [hz])))
      have h2 := hxy.2
      rw [hp] at h2 ⊢
      exact C115_redcarpet (hs x (by simp)) h2
    · rw [if_neg hp] at hs ih
      obtain ⟨s1, s2, s3⟩ := hs y (by simp)
      exact .cons ⟨hxy.1, _, hxy.2, C115_letters hE hp hxy.2 s1 s2 s3⟩ (ih (fun z hz => hs z (by simp [hz])))

/-- With underscores this is false: the slug of `\_a\_` is `_a_`, whose own slug is `a`. -/
theorem C115_underscores : (∃ b, BaseSlug asciiEnv .github "\\_a\\_".toList b ∧ ¬ BaseSlug asciiEnv .github b b) := by
  have h1 : (buildAnchorLink asciiEnv "\\_a\\_".toList (fun _ => 0) .github).map Prod.fst = .ok "_a_".toList := by decide +kernel
  have h2 : (buildAnchorLink asciiEnv "_a_".toList (fun _ => 0) .github).map Prod.fst = .ok "a".toList := by decide +kernel
  cases e : buildAnchorLink asciiEnv "\\_a\\_".toList (fun _ => 0) .github with
  | error x => rw [e] at h1; cases h1
  | ok x =>
    rw [e] at h1
    injection h1 with h1
    refine ⟨"_a_".toList, ⟨x.2, by rw [e, ← h1]⟩, ?_⟩
    rintro ⟨d, hd⟩
    rw [hd] at h2
    injection h2 with h2
    exact absurd (show "_a_".toList = "a".toList from h2) (by decide)

/-! ### The theorems apply -/

/-- A heading with markup, and its slug as a heading. -/
example : (buildAnchorLink asciiEnv "What's *new*, <b>v2</b>?".toList (fun _ => 0) .github).map Prod.fst = .ok "whats-new-v2".toList ∧
    (buildAnchorLink asciiEnv "Ab, <cd> e!".toList (fun _ => 0) .redcarpet).map Prod.fst = .ok "ab-cd>-e".toList := by decide +kernel

example : BaseSlug asciiEnv .github "whats-new-v2".toList "whats-new-v2".toList := by
  have h1 : (buildAnchorLink asciiEnv "What's *new*, <b>v2</b>?".toList (fun _ => 0) .github).map Prod.fst = .ok "whats-new-v2".toList := by decide +kernel
  cases e : buildAnchorLink asciiEnv "What's *new*, <b>v2</b>?".toList (fun _ => 0) .github with
  | error x => rw [e] at h1; cases h1
  | ok x =>
    rw [e] at h1
    injection h1 with h1
    exact C115_slug (t := "What's *new*, <b>v2</b>?".toList) asciiEnv_lawful (by decide) (by decide +kernel) ⟨x.2, by rw [e, ← h1]⟩ (by decide)

/-- A document, and the same with its headings replaced by their slugs. -/
example : buildToc asciiEnv {} "a.md".toList (some ⟨"# What's *new*?\n## Old\n## What's new\n".toList, false⟩) = .ok "- [What's *new*?](#whats-new)\n  - [Old](#old)\n  - [What's new](#whats-new-1)\n".toList ∧
    buildToc asciiEnv {} "a.md".toList (some ⟨"# whats-new\n## old\n## whats-new\n".toList, false⟩) = .ok "- [whats-new](#whats-new)\n  - [old](#old)\n  - [whats-new](#whats-new-1)\n".toList := by
  decide +kernel

/-- A heading line of which the label is computed. -/
theorem heading_linked {b r c t : Str} {n : Nat} {v w : Bool} (hnl : ∀ c ∈ b, ¬ IsNewline c) (hatx : IsAtx .github b n r)
    (h : atxCmark .github 3 true true b = .ok (⟨some n, some c, v⟩, w)) (ht : label c = t) : Heading .github false (b ++ ['\n']) n t := by
  obtain ⟨c', h1, h2⟩ := atxCmark_heading (p := .github) rfl hatx hnl
  have h3 := h2 3 true true
  rw [h] at h3
  have hc : c' = c := by
    simp only [if_true, Except.map, Except.ok.injEq, Prod.mk.injEq, AtxElem.mk.injEq, Option.some.injEq] at h3
    exact h3.1.2.1.symm
  subst hc
  exact ⟨_, _, _, body_line hnl, ⟨hatx, h1, ht.symm⟩⟩

/-- `C115_documents` for two such documents. -/
example : ∃ es es', Table asciiEnv {} ["# *New*?\n".toList, "## Old!\n".toList] "- [*New*?](#new)\n  - [Old!](#old)\n".toList es ∧
    Table asciiEnv {} ["# new\n".toList, "## old\n".toList] "- [new](#new)\n  - [old](#old)\n".toList es' ∧
    List.Forall₂ (fun e e' => e.level = e'.level ∧ e.number = e'.number ∧ e.indent = e'.indent ∧ e.anchor = e'.anchor) es es' := by
  have slugOf : ∀ t b : Str, (buildAnchorLink asciiEnv t (fun _ => 0) .github).map Prod.fst = .ok b → BaseSlug asciiEnv .github t b := by
    intro t b h
    cases e : buildAnchorLink asciiEnv t (fun _ => 0) .github with
    | error x => rw [e] at h; cases h
    | ok x =>
      rw [e] at h
      injection h with h
      exact ⟨x.2, by rw [e, ← h]⟩
  refine C115_documents (o := {}) (fn := "a.md".toList) (fn' := "a.md".toList) (text := "# *New*?\n## Old!\n".toList) (text' := "# new\n## old\n".toList)
    (heads := [(1, "*New*?".toList), (2, "Old!".toList)]) (heads' := [(1, "new".toList), (2, "old".toList)]) asciiEnv_lawful (by decide +kernel) (by decide +kernel) ?_ ?_ ?_ ?_
    (.cons ⟨rfl, slugOf _ _ (by decide +kernel)⟩ (.cons ⟨rfl, slugOf _ _ (by decide +kernel)⟩ .nil)) ?_
  · refine looks_headings (o := {}) (ms := ["# *New*?\n".toList, "## Old!\n".toList]) (by decide) rfl ?_
    intro m hm
    simp only [List.mem_cons, List.not_mem_nil, or_false] at hm
    rcases hm with rfl | rfl
    · exact ⟨" *New*?".toList, by decide, by decide⟩
    · exact ⟨"# Old!".toList, by decide, by decide⟩
  · refine looks_headings (o := {}) (ms := ["# new\n".toList, "## old\n".toList]) (by decide) rfl ?_
    intro m hm
    simp only [List.mem_cons, List.not_mem_nil, or_false] at hm
    rcases hm with rfl | rfl
    · exact ⟨" new".toList, by decide, by decide⟩
    · exact ⟨"# old".toList, by decide, by decide⟩
  · refine .heading (heading_linked (b := "# *New*?".toList) (r := " *New*?".toList) (c := "*New*?".toList) (v := true) (w := true) (by unfold IsNewline; decide) ?_ (by decide +kernel) (by decide +kernel))
      (.heading (heading_linked (b := "## Old!".toList) (r := " Old!".toList) (c := "Old!".toList) (v := true) (w := true) (by unfold IsNewline; decide) ?_ (by decide +kernel) (by decide +kernel)) .nil)
    · exact ⟨0, by decide, by decide, by decide, by decide +kernel, by intro c hc; injection hc with hc; subst hc; rfl⟩
    · exact ⟨0, by decide, by decide, by decide, by decide +kernel, by intro c hc; injection hc with hc; subst hc; rfl⟩
  · refine .heading (heading_linked (b := "# new".toList) (r := " new".toList) (c := "new".toList) (v := true) (w := true) (by unfold IsNewline; decide) ?_ (by decide +kernel) (by decide +kernel))
      (.heading (heading_linked (b := "## old".toList) (r := " old".toList) (c := "old".toList) (v := true) (w := true) (by unfold IsNewline; decide) ?_ (by decide +kernel) (by decide +kernel)) .nil)
    · exact ⟨0, by decide, by decide, by decide, by decide +kernel, by intro c hc; injection hc with hc; subst hc; rfl⟩
    · exact ⟨0, by decide, by decide, by decide, by decide +kernel, by intro c hc; injection hc with hc; subst hc; rfl⟩
  · rw [if_neg (by decide)]
    decide +kernel

/-- An environment with one letter outside of ASCII. -/
def frenchEnv : Env := { asciiEnv with lower := fun s => s.map (fun c => if c = 'É' then 'é' else asciiLower c), isWord := fun c => asciiEnv.isWord c || c == 'é' }

theorem frenchEnv_lawful : frenchEnv.Lawful where
  word_ascii c hc := by
    have : c ≠ 'é' := by rintro rfl; revert hc; decide
    show (asciiEnv.isWord c || c == 'é') = _
    simp [this, asciiEnv]
  digit_ascii _ _ := rfl
  lower_ascii s hs := by
    refine List.map_congr_left (fun c hc => if_neg ?_)
    rintro rfl
    have := hs _ hc
    revert this
    decide

example : BaseSlug frenchEnv .github "été-1".toList "été-1".toList := by
  have h1 : (buildAnchorLink frenchEnv "*Été* (1)".toList (fun _ => 0) .github).map Prod.fst = .ok "été-1".toList := by decide +kernel
  cases e : buildAnchorLink frenchEnv "*Été* (1)".toList (fun _ => 0) .github with
  | error x => rw [e] at h1; cases h1
  | ok x =>
    rw [e] at h1
    injection h1 with h1
    exact C115_letters (t := "*Été* (1)".toList) frenchEnv_lawful (by decide) ⟨x.2, by rw [e, ← h1]⟩ (by decide +kernel) (by decide) (by decide)

end MdToc.Props
