import Verif.Props.References
import Verif.Props.Problems

/-!
# When there is a table without links (C71)
-/

set_option linter.unusedSimpArgs false

namespace MdToc.Props

open MdToc.Spec

/-- If a heading has no problem with links, then its only problem without links can be its slug. -/
theorem problem_noLinks {E : Env} {o : Options} (hp : o.parser ≠ .redcarpet) {L : List Nat} {n : Nat} {c : Str} (h : problem E { o with noLinks := false } L n c = none) :
    problem E { o with noLinks := true } L n c = match buildAnchorLink E c (fun _ => 0) o.parser with | .error e => some e | .ok _ => none := by
  unfold problem at h ⊢
  simp only [shownText, if_neg hp, if_true] at h ⊢
  rw [if_neg (by simp), if_neg (by simp)]
  split at h
  · simp at h
  · split at h
    · simp at h
    · cases h1 : buildAnchorLink E (if false = true then c else label c) (fun _ => 0) o.parser with
      | error e => rw [h1] at h; simp at h
      | ok r =>
        rw [h1] at h
        simp only at h
        cases h2 : buildAnchorLink E c (fun _ => 0) o.parser with
        | error e => rfl
        | ok r2 => exact h

/-- **C71**, exactly: if a document has a table with links, then the run without links ends with the exception of the first heading whose text, as it is in the document, has no slug;
if there is no such heading, there is a table. -/
theorem C71_iff {E : Env} {o : Options} (hp : o.parser ≠ .redcarpet) (hk : o.keep ≥ 1) {fn text out : Str} {vs : List Str} (hv : Looks o fn text vs)
    {heads : List (Nat × Str)} (hh : Headings o.parser true vs heads) (h : buildToc E { o with noLinks := false } fn (some ⟨text, false⟩) = .ok out) :
    ((∃ out', buildToc E { o with noLinks := true } fn (some ⟨text, false⟩) = .ok out') ↔ ∀ x ∈ heads, HasSlug E o.parser x.2) ∧
    ∀ e, (buildToc E { o with noLinks := true } fn (some ⟨text, false⟩) = .error e ↔
      ∃ a n c b, heads = a ++ (n, c) :: b ∧ (∀ x ∈ a, HasSlug E o.parser x.2) ∧ buildAnchorLink E c (fun _ => 0) o.parser = .error e) := by
  have hs : o.skipLines ≥ 0 := buildToc_skip (o := { o with noLinks := false }) h
  have hown : ∀ b, ownLinks { o with noLinks := b } = true := fun b => by unfold ownLinks; rw [if_neg hp]
  have h1 := C96_first_problem (E := E) (o := { o with noLinks := false }) hs hk (fn := fn) (text := text) hv (heads := heads) (by rw [hown]; exact hh)
  have h0 : firstProblem E { o with noLinks := false } [] heads = none := by
    cases hf : firstProblem E { o with noLinks := false } [] heads with
    | none => rfl
    | some e =>
      rw [hf] at h1
      simp only at h1
      rw [h1] at h
      cases h
  have hnone : ∀ a n c b, heads = a ++ (n, c) :: b → problem E { o with noLinks := true } (levelsOf o a) n c =
      match buildAnchorLink E c (fun _ => 0) o.parser with | .error e => some e | .ok _ => none := by
    intro a n c b e
    exact problem_noLinks hp (by simpa using firstProblem_none.mp h0 a n c b e)
  have hslug : ∀ a n c b, heads = a ++ (n, c) :: b → (problem E { o with noLinks := true } (levelsOf o a) n c = none ↔ HasSlug E o.parser c) := by
    intro a n c b e
    rw [hnone a n c b e, hasSlug_iff hp (d := fun _ => 0)]
    cases buildAnchorLink E c (fun _ => 0) o.parser <;> simp
  have h2 := C96_exception (E := E) (o := { o with noLinks := true }) hs hk (fn := fn) (text := text) hv (heads := heads) (by rw [hown]; exact hh)
  have h3 := C96_first_problem (E := E) (o := { o with noLinks := true }) hs hk (fn := fn) (text := text) hv (heads := heads) (by rw [hown]; exact hh)
  have hall : ∀ a b, heads = a ++ b → ((∀ a' n' c' b', a = a' ++ (n', c') :: b' → problem E { o with noLinks := true } (levelsOf o a') n' c' = none) ↔ ∀ x ∈ a, HasSlug E o.parser x.2) := by
    intro a b e
    constructor
    · intro ha x hx
      obtain ⟨a', b', rfl⟩ := List.append_of_mem hx
      exact (hslug a' x.1 x.2 (b' ++ b) (by rw [e]; simp)).mp (ha a' x.1 x.2 b' rfl)
    · rintro ha a' n' c' b' rfl
      exact (hslug a' n' c' (b' ++ b) (by rw [e]; simp)).mpr (ha (n', c') (by simp))
  constructor
  · rw [← hall heads [] (by simp)]
    have h4 : firstProblem E { o with noLinks := true } [] heads = none ↔
        ∀ a n c b, heads = a ++ (n, c) :: b → problem E { o with noLinks := true } (levelsOf o a) n c = none := by
      rw [firstProblem_none]
      simp only [List.nil_append]
    rw [← h4]
    cases hf : firstProblem E { o with noLinks := true } [] heads with
    | none => rw [hf] at h3; simp only at h3; simp [h3]
    | some e => rw [hf] at h3; simp only at h3; simp [h3]
  · intro e
    rw [h2 e]
    constructor
    · rintro ⟨a, n, c, b, e1, e2, e3⟩
      refine ⟨a, n, c, b, e1, (hall a _ e1).mp e3, ?_⟩
      have := hnone a n c b e1
      rw [show problem E { o with noLinks := true } (levelsOf o a) n c = some e from e2] at this
      cases hb : buildAnchorLink E c (fun _ => 0) o.parser with
      | error e' => rw [hb] at this; simp only [Option.some.injEq] at this; rw [this]
      | ok r => rw [hb] at this; simp at this
    · rintro ⟨a, n, c, b, e1, e2, e3⟩
      refine ⟨a, n, c, b, e1, ?_, (hall a _ e1).mpr e2⟩
      have := hnone a n c b e1
      rw [e3] at this
      exact this

/-- The slug of a text without `<`: it fails exactly if the removal of emphasis does. -/
theorem slug_emphasis {E : Env} {p : Parser} (hp : p ≠ .redcarpet) {c : Str} (hn : ∀ x ∈ c, ¬ IsNewline x) (hlt : '<' ∉ E.lower c) :
    (∀ e, buildAnchorLink E c (fun _ => 0) p = .error e ↔ removeEmphasis E (E.lower c) p = .error e) ∧ (HasSlug E p c ↔ ∃ t, removeEmphasis E (E.lower c) p = .ok t) := by
  have hlen : ¬ (replaceAndSplitNewlines c).length > 1 := by
    rw [split_body (body := c) ⟨[], [], by simp, by simp, fun x hx => ⟨fun h => hn x hx (.inl h), fun h => hn x hx (.inr h)⟩⟩]
    simp
  have hsame : removeHtmlTags E (E.lower c) p = E.lower c := (removeHtmlTags_cut E p (E.lower c)).same (.inl hlt)
  rw [hasSlug_iff hp (d := fun _ => 0)]
  unfold buildAnchorLink baseAnchor
  simp only [if_neg hlen, if_pos (cmarkLike_of_ne hp), hsame, bind, Except.bind]
  cases removeEmphasis E (E.lower c) p <;> simp

/-- A closed bracket of the text has a label behind it that is not empty. -/
def RefersTo (s : Str) : Prop := ∃ x y, s = x ++ ']' :: '[' :: y ∧ 1 ≤ openIn 0 x ∧ y.head? ≠ some '[' ∧ y.head? ≠ some ']'

/-- **C71**, exactly, for documents whose headings have plain characters and square brackets without inline links: if the document has a table with links, then it has one
without links if and only if no heading has a reference link; if one has, the exception is `KeyError`. -/
theorem C71_references_exact {E : Env} {o : Options} (hp : o.parser ≠ .redcarpet) (hk : o.keep ≥ 1) {fn text out : Str} {vs : List Str} (hv : Looks o fn text vs)
    {heads : List (Nat × Str)} (hh : Headings o.parser true vs heads) (h : buildToc E { o with noLinks := false } fn (some ⟨text, false⟩) = .ok out)
    (hc : ∀ x ∈ heads, (∀ c ∈ E.lower x.2, Plain c ∨ c = '[' ∨ c = ']') ∧ ¬ [']', '('] <:+: E.lower x.2) :
    ((∃ out', buildToc E { o with noLinks := true } fn (some ⟨text, false⟩) = .ok out') ↔ ∀ x ∈ heads, ¬ RefersTo (E.lower x.2)) ∧
    (buildToc E { o with noLinks := true } fn (some ⟨text, false⟩) = .error .KeyError ↔ ∃ x ∈ heads, RefersTo (E.lower x.2)) := by
  have hone : ∀ x ∈ heads, (buildAnchorLink E x.2 (fun _ => 0) o.parser = .error .KeyError ↔ RefersTo (E.lower x.2)) ∧ (HasSlug E o.parser x.2 ↔ ¬ RefersTo (E.lower x.2)) := by
    intro x hx
    obtain ⟨h1, h2⟩ := hc x hx
    have hlt : '<' ∉ E.lower x.2 := by
      intro hm
      rcases h1 _ hm with h | h | h
      · exact h.2.2.2.2.2.1 rfl
      · revert h; decide
      · revert h; decide
    obtain ⟨s1, s2⟩ := slug_emphasis (E := E) hp (headings_bounds hh x hx).2.2 hlt
    obtain ⟨r1, r2⟩ := C52_brackets_exact (E := E) h1 h2 o.parser
    refine ⟨(s1 _).trans r1, s2.trans ?_⟩
    constructor
    · rintro ⟨t, ht⟩ hr
      have := r1.mpr hr
      rw [ht] at this
      cases this
    · intro hr
      exact ⟨_, r2.mpr hr⟩
  obtain ⟨c1, c2⟩ := C71_iff hp hk hv hh h
  constructor
  · rw [c1]
    exact ⟨fun hx x hm => (hone x hm).2.mp (hx x hm), fun hx x hm => (hone x hm).2.mpr (hx x hm)⟩
  · rw [c2]
    constructor
    · rintro ⟨a, n, c, b, e, -, hb⟩
      exact ⟨(n, c), by rw [e]; simp, (hone (n, c) (by rw [e]; simp)).1.mp hb⟩
    · rintro ⟨x, hx, hr⟩
      by_contra hno
      have hall : ∀ a b, heads = a ++ b → ∀ x ∈ a, HasSlug E o.parser x.2 := by
        intro a
        induction a using List.reverseRecOn with
        | nil => simp
        | append_singleton a y ih =>
          intro b e x hx
          have iha := ih (y :: b) (by rw [e]; simp)
          rcases List.mem_append.mp hx with hx | hx
          · exact iha x hx
          · rw [List.mem_singleton.mp hx]
            rw [(hone y (by rw [e]; simp)).2]
            intro hry
            exact hno ⟨a, y.1, y.2, b, by rw [e]; simp, iha, (hone y (by rw [e]; simp)).1.mpr hry⟩
      exact (hone x hx).2.mp (hall heads [] (by simp) x hx) hr

/-- A heading line of which the text is computed. -/
theorem heading_computed {b r c : Str} {n : Nat} {v w : Bool} (hnl : ∀ c ∈ b, ¬ IsNewline c) (hatx : IsAtx .github b n r)
    (h : atxCmark .github 3 true true b = .ok (⟨some n, some c, v⟩, w)) : Heading .github true (b ++ ['\n']) n c := by
  obtain ⟨c', h1, h2⟩ := atxCmark_heading (p := .github) rfl hatx hnl
  have h3 := h2 3 true true
  rw [h] at h3
  have hc : c' = c := by
    simp only [if_true, Except.map, Except.ok.injEq, Prod.mk.injEq, AtxElem.mk.injEq, Option.some.injEq] at h3
    exact h3.1.2.1.symm
  subst hc
  exact ⟨_, _, _, body_line hnl, ⟨hatx, h1, rfl⟩⟩

/-- The theorem applied to a document with a reference link in a heading. -/
example : buildToc asciiEnv { noLinks := true } "a".toList (some ⟨"# a [1]\n## See [b][c]\n".toList, false⟩) = .error .KeyError := by
  have hv : Looks {} "a".toList "# a [1]\n## See [b][c]\n".toList ["# a [1]\n".toList, "## See [b][c]\n".toList] := by
    refine looks_headings (o := {}) (ms := ["# a [1]\n".toList, "## See [b][c]\n".toList]) (by decide) rfl ?_
    intro m hm
    simp only [List.mem_cons, List.not_mem_nil, or_false] at hm
    rcases hm with rfl | rfl
    · exact ⟨" a [1]".toList, by decide, by decide⟩
    · exact ⟨"# See [b][c]".toList, by decide, by decide⟩
  have hh : Headings .github true ["# a [1]\n".toList, "## See [b][c]\n".toList] [(1, "a [1]".toList), (2, "See [b][c]".toList)] := by
    refine .heading (heading_computed (b := "# a [1]".toList) (r := " a [1]".toList) (v := true) (w := true) (by unfold IsNewline; decide) ?_ (by decide +kernel))
      (.heading (heading_computed (b := "## See [b][c]".toList) (r := " See [b][c]".toList) (v := true) (w := true) (by unfold IsNewline; decide) ?_ (by decide +kernel)) .nil)
    · exact ⟨0, by decide, by decide, by decide, by decide +kernel, by intro c hc; injection hc with hc; subst hc; rfl⟩
    · exact ⟨0, by decide, by decide, by decide, by decide +kernel, by intro c hc; injection hc with hc; subst hc; rfl⟩
  refine (C71_references_exact (E := asciiEnv) (o := {}) (by decide) (by decide) hv hh (out := "- [a \\[1\\]](#a-1)\n  - [See \\[b\\]\\[c\\]](#see-bc)\n".toList) (by decide +kernel) ?_).2.mpr
    ⟨(2, "See [b][c]".toList), by simp, "see [b".toList, "c]".toList, by decide +kernel, by decide, by decide, by decide⟩
  unfold Plain
  decide +kernel

/-- With a space between the brackets there is a table. -/
example : buildToc asciiEnv { noLinks := false } "a".toList (some ⟨"# a [1]\n## See [b] [c]\n".toList, false⟩) = .ok "- [a \\[1\\]](#a-1)\n  - [See \\[b\\] \\[c\\]](#see-b-c)\n".toList ∧
    buildToc asciiEnv { noLinks := true } "a".toList (some ⟨"# a [1]\n## See [b] [c]\n".toList, false⟩) = .ok "- a [1]\n  - See [b] [c]\n".toList := by
  decide +kernel

end MdToc.Props
