import Verif.Lemmas.Atx

/-!
# Headings: C08 to C15
-/

set_option linter.unusedSimpArgs false

namespace MdToc

open MdToc.Spec

/-! ### One line -/

theorem universalNewlines_plain {b : Str} (hb : ∀ c ∈ b, ¬ IsNewline c) (r : Str) :
    universalNewlines (b ++ r) = b ++ universalNewlines r := by
  induction b with
  | nil => rfl
  | cons x b ih =>
    have h1 := universalNewlines_append (hb x (by simp)) [] (b ++ r)
    have en : universalNewlines [] = [] := by decide
    rw [en] at h1
    simp only [List.nil_append] at h1
    rw [List.cons_append, h1, ih (fun c hc => hb c (by simp [hc]))]
    rfl

theorem universalNewlines_all {a : Str} (ha : ∀ c ∈ a, IsNewline c) : ∀ c ∈ universalNewlines a, c = '\n' := by
  intro c hc
  by_cases h : IsNewline c
  · rcases h with h | rfl
    · exact h
    · exact absurd hc (universalNewlines_cr a)
  · obtain ⟨u, v, e⟩ := mem_split hc
    obtain ⟨a', b', e', -⟩ := universalNewlines_split h e
    exact absurd (ha c (by rw [e']; simp)) h

theorem split_body {line body : Str} (h : Body line body) : replaceAndSplitNewlines line = [body] := by
  obtain ⟨a, b, e, h1, h2⟩ := h
  have hb : ∀ c ∈ body, ¬ IsNewline c := fun c hc h => h.elim (h2 c hc).1 (h2 c hc).2
  have ha : ∀ c ∈ universalNewlines a, c = '\n' := universalNewlines_all (fun c hc => h1 c (by simp [hc]))
  have hb' : ∀ c ∈ universalNewlines b, c = '\n' := universalNewlines_all (fun c hc => h1 c (by simp [hc]))
  rw [replaceAndSplitNewlines_eq, e]
  have hs : strip (· == '\n') (universalNewlines (a ++ body ++ b)) = body := by
    cases body with
    | nil =>
      rw [strip_eq_nil_iff]
      intro c hc
      have := universalNewlines_all (a := a ++ [] ++ b) (by simpa [IsNewline] using h1) c hc
      simp [this]
    | cons x t =>
      rw [List.append_assoc, List.cons_append, universalNewlines_append (hb x (by simp)),
        universalNewlines_plain (fun c hc => hb c (by simp [hc]))]
      have := strip_unique (p := (· == '\n')) (a := universalNewlines a) (b := x :: t) (c := universalNewlines b)
        (by simpa using ha) (by simpa using hb') (by simpa using (h2 x (by simp)).1) (by
          intro c hc
          simpa using (h2 c (List.mem_of_getLast? hc)).1)
      rw [List.append_assoc] at this
      exact this
  rw [hs]
  exact splitNl_no_nl _ (fun h => (h2 _ h).1 rfl)

theorem getAtxHeading_body {line body : Str} (h : Body line body) (hne : line ≠ []) {keep : Int} (hk : keep ≥ 1)
    (p : Parser) (noLinks : Bool) :
    getAtxHeading line keep p noLinks = (atxSubline p keep noLinks true body).map (fun r => [r.1]) := by
  unfold getAtxHeading
  have : line.length ≠ 0 := fun h => hne (List.eq_nil_of_length_eq_zero h)
  rw [if_neg (by simpa using hk), if_neg this, split_body h]
  simp only [atxSublines, bind, Except.bind]
  cases atxSubline p keep noLinks true body <;> rfl

theorem atxSubline_cmark {p : Parser} (hp : p.cmarkLike = true) (keep : Int) (noLinks vis : Bool) (s : Str) :
    atxSubline p keep noLinks vis s = atxCmark p keep noLinks vis s := by
  simp [atxSubline, hp]

namespace Props

/-! ### C08 -/

/-- **C08.** For the cmark-like parsers a line is recognised as a heading of level `n` exactly when it has at most
three spaces, then `n` hashes, `1 ≤ n ≤ 6`, and then white space or the end of the line. -/
theorem C08_recognition {p : Parser} (hp : p.cmarkLike = true) {line body : Str} (hb : Body line body)
    (hne : line ≠ []) {keep : Int} (hk : keep ≥ 1) (n : Nat) :
    (∃ text vis, getAtxHeading line keep p true = .ok [⟨some n, some text, vis⟩]) ↔ ∃ rest, IsAtx p body n rest := by
  have hnl : ∀ c ∈ body, ¬ IsNewline c := by
    obtain ⟨a, b, -, -, h2⟩ := hb
    exact fun c hc h => h.elim (h2 c hc).1 (h2 c hc).2
  rw [getAtxHeading_body hb hne hk, atxSubline_cmark hp]
  constructor
  · rintro ⟨text, vis, h⟩
    by_cases hex : ∃ m rest, IsAtx p body m rest
    · obtain ⟨m, rest, hm⟩ := hex
      obtain ⟨c, -, hc⟩ := atxCmark_heading hp hm hnl
      rw [hc] at h
      simp [Except.map] at h
      exact ⟨rest, h.1 ▸ hm⟩
    · obtain ⟨v, hv⟩ := atxCmark_other hp (fun m rest hm => hex ⟨m, rest, hm⟩) hnl keep true true
      rw [hv] at h
      simp [Except.map, AtxElem.none] at h
  · rintro ⟨rest, hm⟩
    obtain ⟨c, -, hc⟩ := atxCmark_heading hp hm hnl
    rw [hc]
    exact ⟨c, _, rfl⟩

/-- **C08**, visibility and other lines: the heading is visible exactly when its level is requested; any other line gives an empty element, also with links. -/
theorem C08_levels {p : Parser} (hp : p.cmarkLike = true) {line body : Str} (hb : Body line body)
    (hne : line ≠ []) {keep : Int} (hk : keep ≥ 1) (noLinks : Bool) :
    (∀ n rest, IsAtx p body n rest → ∀ r, getAtxHeading line keep p noLinks = .ok r →
      ∃ text, r = [⟨some n, some text, decide ((n : Int) ≤ keep)⟩]) ∧
    ((¬ ∃ n rest, IsAtx p body n rest) → getAtxHeading line keep p noLinks = .ok [⟨none, none, false⟩]) := by
  have hnl : ∀ c ∈ body, ¬ IsNewline c := by
    obtain ⟨a, b, -, -, h2⟩ := hb
    exact fun c hc h => h.elim (h2 c hc).1 (h2 c hc).2
  rw [getAtxHeading_body hb hne hk, atxSubline_cmark hp]
  refine ⟨?_, ?_⟩
  · intro n rest hm r hr
    obtain ⟨c, -, hc⟩ := atxCmark_heading hp hm hnl
    rw [hc] at hr
    have hv : (if (n : Int) > keep then false else true) = decide ((n : Int) ≤ keep) := by
      by_cases h : (n : Int) > keep
      · simp [h]
      · have : (n : Int) ≤ keep := by omega
        simp [h, this]
    rw [hv] at hr
    cases ht : (if noLinks then Except.ok c else linkText c) with
    | error e => rw [ht] at hr; simp [Except.map] at hr
    | ok t =>
      rw [ht] at hr
      simp [Except.map] at hr
      exact ⟨t, hr.symm⟩
  · intro h
    obtain ⟨v, hv⟩ := atxCmark_other hp (fun m rest hm => h ⟨m, rest, hm⟩) hnl keep noLinks true
    rw [hv]
    rfl

/-- A heading of level 2 with three spaces in front, for each parser. -/
example : IsAtx .github "   ## foo".toList 2 " foo".toList ∧ Body "   ## foo\r\n".toList "   ## foo".toList ∧
    IsAtx .cmark "##\tfoo".toList 2 "\tfoo".toList ∧ ¬ ∃ n rest, IsAtx .github "##\tfoo".toList n rest := by
  refine ⟨⟨3, by decide⟩, ⟨[], "\r\n".toList, by decide⟩, ⟨0, by decide⟩, ?_⟩
  rintro ⟨n, rest, h⟩
  have := (C08_recognition (p := .github) rfl (line := "##\tfoo".toList) (body := "##\tfoo".toList) ⟨[], [], by decide⟩
    (by decide) (keep := 3) (by decide) n).mpr ⟨rest, h⟩
  obtain ⟨t, v, h⟩ := this
  have e : getAtxHeading "##\tfoo".toList 3 .github true = .ok [⟨none, none, false⟩] := by decide +kernel
  rw [e] at h
  simp at h

/-! ### C09 -/

/-- **C09**, except for two runs of `#`: with links disabled the text is the raw content of the heading. -/
theorem C09_heading_text_partial {p : Parser} (hp : p.cmarkLike = true) {line body : Str} (hb : Body line body)
    (hne : line ≠ []) {keep : Int} (hk : keep ≥ 1) {n : Nat} {rest : Str} (h : IsAtx p body n rest)
    (h2 : ¬ TwoRuns (atxSpace p) rest) :
    ∃ text, getAtxHeading line keep p true = .ok [⟨some n, some text, decide ((n : Int) ≤ keep)⟩] ∧
      RawContent (atxSpace p) rest text := by
  have hnl : ∀ c ∈ body, ¬ IsNewline c := by
    obtain ⟨a, b, -, -, h2⟩ := hb
    exact fun c hc h => h.elim (h2 c hc).1 (h2 c hc).2
  obtain ⟨c, hc1, hc⟩ := atxCmark_heading hp h hnl
  rw [getAtxHeading_body hb hne hk, atxSubline_cmark hp, hc]
  refine ⟨c, ?_, ?_⟩
  · have hv : (if (n : Int) > keep then false else true) = decide ((n : Int) ≤ keep) := by
      by_cases h : (n : Int) > keep
      · simp [h]
      · have : (n : Int) ≤ keep := by omega
        simp [h, this]
    rw [hv]; rfl
  · exact hc1.2 h2

/-- The exception of C09 in general: a heading with two runs of `#` gets the empty text, whatever its level and its raw content. -/
theorem C09_two_runs {p : Parser} (hp : p.cmarkLike = true) {line body : Str} (hb : Body line body)
    (hne : line ≠ []) {keep : Int} (hk : keep ≥ 1) {n : Nat} {rest : Str} (h : IsAtx p body n rest)
    (h2 : TwoRuns (atxSpace p) rest) :
    getAtxHeading line keep p true = .ok [⟨some n, some [], decide ((n : Int) ≤ keep)⟩] := by
  have hnl : ∀ c ∈ body, ¬ IsNewline c := by
    obtain ⟨a, b, -, -, h2⟩ := hb
    exact fun c hc h => h.elim (h2 c hc).1 (h2 c hc).2
  obtain ⟨c, hc1, hc⟩ := atxCmark_heading hp h hnl
  rw [getAtxHeading_body hb hne hk, atxSubline_cmark hp, hc, hc1.1 h2]
  have hv : (if (n : Int) > keep then false else true) = decide ((n : Int) ≤ keep) := by
    by_cases h : (n : Int) > keep
    · simp [h]
    · have : (n : Int) ≤ keep := by omega
      simp [h, this]
  rw [hv]; rfl

theorem trimmed_unique {sp : Char → Bool} {s c d : Str} (h : Trimmed sp s c) (h' : Trimmed sp s d) : c = d := by
  obtain ⟨l, r, e, h1, h2, h3, h4⟩ := h
  obtain ⟨l', r', e', h1', h2', h3', h4'⟩ := h'
  rw [← strip_unique h1 h2 h3 h4, ← e, e', strip_unique h1' h2' h3' h4']

/-- The raw content is unique, so that C09 determines the text. -/
theorem C09_raw_content_unique {sp : Char → Bool} (hsp : sp '#' = false) {rest c d : Str} (h : RawContent sp rest c)
    (h' : RawContent sp rest d) : c = d := by
  rcases h with ⟨a, ha, hc⟩ | ⟨ha, hc⟩
  · rcases h' with ⟨a', ha', hd⟩ | ⟨ha', -⟩
    · have : a = a' := by
        obtain ⟨b, g, y, t, e, g1, g2, g3, g4, g5, g6⟩ := ClosedBy.rev hsp ha
        obtain ⟨b', g', y', t', e', g1', g2', g3', g4', g5', g6'⟩ := ClosedBy.rev hsp ha'
        rw [e] at e'
        have hhd : ∀ {g : Str} {u : Str}, g ≠ [] → (∀ x ∈ g, x = '#') → ∀ x ∈ (g ++ u).head?, sp x = false := by
          intro g u h1 h2 x hx
          cases g with
          | nil => simp at h1
          | cons z g => simp at hx; subst hx; rw [h2 z (by simp)]; exact hsp
        have e2 := (span_unique e' g3 g3' (hhd g1 g2) (hhd g1' g2')).2
        have e3 := (span_unique (q := (· == '#')) e2 (by simpa using g2) (by simpa using g2') (by simpa using g5)
          (by simpa using g5')).2
        rw [← g6, ← g6'] at e3
        simpa using e3
      subst this
      exact trimmed_unique hc hd
    · exact absurd ⟨a, ha⟩ ha'
  · rcases h' with ⟨a', ha', -⟩ | ⟨-, hd⟩
    · exact absurd ⟨a', ha'⟩ ha
    · exact trimmed_unique hc hd

/-- **C09 is false** for contents made of two runs of `#`: `# # ##` has the raw content `#`, the code
returns the empty text. -/
theorem C09_violation : getAtxHeading "# # ##".toList 3 .github true = .ok [⟨some 1, some [], true⟩] ∧
    IsAtx .github "# # ##".toList 1 " # ##".toList ∧ RawContent (atxSpace .github) " # ##".toList "#".toList := by
  refine ⟨by decide +kernel, ⟨0, by decide⟩, .inl ⟨" # ".toList, ⟨"##".toList, [], by decide⟩, " ".toList, " ".toList, by decide⟩⟩

/-- The hypothesis of C09 with a closing sequence. -/
example : IsAtx .github "## foo # bar ##  ".toList 2 " foo # bar ##  ".toList ∧
    ¬ TwoRuns (atxSpace .github) " foo # bar ##  ".toList ∧
    getAtxHeading "## foo # bar ##  ".toList 3 .github true = .ok [⟨some 2, some "foo # bar".toList, true⟩] := by
  refine ⟨⟨0, by decide⟩, ?_, by decide +kernel⟩
  rintro ⟨s0, h0, s1, h1, s2, e, -, -, -, hh, hs⟩
  have : 'f' ∈ " foo # bar ##  ".toList := by decide
  rw [e] at this
  have hx : 'f' ∈ h0 ++ h1 ∨ 'f' ∈ s0 ++ s1 ++ s2 := by
    simp only [List.mem_append] at this ⊢; tauto
  rcases hx with hx | hx
  · exact absurd (hh _ hx) (by decide)
  · exact absurd (hs _ hx) (by decide)

/-! ### C10, C11 -/

theorem trailing_concat (d : Str) (c : Char) :
    trailingBackslashes (d ++ [c]) = if c = '\\' then trailingBackslashes d + 1 else 0 := by
  unfold trailingBackslashes
  by_cases h : c = '\\' <;> simp [h, List.takeWhile_cons]

theorem escapeLoop_eq (s : Str) : ∀ d, escapeLoop d s =
    d.reverse ++ escapeBrackets (decide (trailingBackslashes d.reverse % 2 = 1)) s := by
  induction s with
  | nil => intro d; simp [escapeLoop, escapeBrackets]
  | cons c t ih =>
    intro d
    have hn : (d.takeWhile (· == '\\')).length = trailingBackslashes d.reverse := by
      simp [trailingBackslashes]
    rw [escapeLoop, escapeBrackets, hn]
    generalize hm : trailingBackslashes d.reverse = m
    by_cases hb : c = '[' ∨ c = ']'
    · have hc : c ≠ '\\' := by rintro rfl; revert hb; decide
      rw [if_pos hb, if_neg hc]
      have hcond : ((m > 0 && m % 2 == 0) || m == 0) = decide (m % 2 = 0) := by
        by_cases h0 : m = 0
        · simp [h0]
        · have h1 : decide (m > 0) = true := by simp; omega
          have h2 : (m == 0) = false := by simpa using h0
          rw [h1, h2]
          by_cases h3 : m % 2 = 0 <;> simp [h3]
      simp only [hcond]
      by_cases hpar : m % 2 = 0
      · have h1 : ¬ m % 2 = 1 := by omega
        simp only [hpar, decide_true, if_true]
        rw [ih, if_pos ⟨hb, by simp⟩]
        have : trailingBackslashes (c :: '\\' :: d).reverse = 0 := by
          rw [List.reverse_cons, trailing_concat, if_neg hc]
        rw [this]
        simp
      · have h1 : m % 2 = 1 := by omega
        rw [if_neg (by simpa using h1)]
        simp only [h1, decide_true]
        have : trailingBackslashes (c :: d).reverse = 0 := by
          rw [List.reverse_cons, trailing_concat, if_neg hc]
        rw [ih, this, if_neg (by simp)]
        simp
    · rw [if_neg hb, ih]
      have : trailingBackslashes (c :: d).reverse = if c = '\\' then m + 1 else 0 := by
        rw [List.reverse_cons, trailing_concat, hm]
      rw [this]
      by_cases hc : c = '\\'
      · simp only [hc, if_true, List.reverse_cons, List.append_assoc, List.singleton_append, List.append_cancel_left_eq,
          List.cons.injEq, true_and]
        congr 1
        by_cases h : m % 2 = 1
        · have : ¬ (m + 1) % 2 = 1 := by omega
          simp [h, this]
        · have : (m + 1) % 2 = 1 := by omega
          simp [h, this]
      · rw [if_neg hc, if_neg hc, if_neg (fun h => hb h.1)]
        simp

theorem linkText_eq (c : Str) : linkText c =
    if stripChain (padded c) = [] then .error .GithubEmptyLinkLabel
    else if (padded c).length > 999 then .error .GithubOverflowCharsLinkLabel
    else .ok (label c) := by
  have hif : (if c.length > 0 ∧ c.getLast? = some '\\' then c ++ [' '] else c) = padded c := by
    unfold padded
    by_cases h : c.getLast? = some '\\'
    · have : c.length > 0 := by
        cases c with
        | nil => simp at h
        | cons => simp
      simp [h, this]
    · simp [h]
  unfold linkText label
  rw [hif]
  generalize padded c = fl
  simp only [maxCharsLabel, List.length_eq_zero_iff, escapeLoop_eq]
  simp [trailingBackslashes]

/-- The same heading with and without links. -/
theorem links_of_noLinks {p : Parser} (hp : p.cmarkLike = true) {line body : Str} (hb : Body line body) (hne : line ≠ [])
    {keep : Int} {ty : Option Nat} {text : Str} {v : Bool}
    (h : getAtxHeading line keep p true = .ok [⟨ty, some text, v⟩]) :
    getAtxHeading line keep p false = (linkText text).map (fun t => [⟨ty, some t, v⟩]) := by
  have hk : keep ≥ 1 := by
    by_contra hk
    simp [getAtxHeading, hk] at h
  have hnl : ∀ c ∈ body, ¬ IsNewline c := by
    obtain ⟨a, b, -, -, h2⟩ := hb
    exact fun c hc h => h.elim (h2 c hc).1 (h2 c hc).2
  rw [getAtxHeading_body hb hne hk, atxSubline_cmark hp] at h ⊢
  by_cases hex : ∃ m rest, IsAtx p body m rest
  · obtain ⟨m, rest, hm⟩ := hex
    obtain ⟨c, -, hc⟩ := atxCmark_heading hp hm hnl
    rw [hc] at h ⊢
    simp only [if_true, Except.map, Except.ok.injEq, List.cons.injEq, AtxElem.mk.injEq, Option.some.injEq, and_true] at h
    obtain ⟨rfl, rfl, rfl⟩ := h
    simp only [Bool.false_eq_true, if_false]
    generalize linkText c = r
    cases r <;> rfl
  · obtain ⟨v', hv⟩ := atxCmark_other hp (fun m rest hm => hex ⟨m, rest, hm⟩) hnl keep true true
    rw [hv] at h
    simp [Except.map, AtxElem.none] at h

theorem noLinks_of_links {p : Parser} (hp : p.cmarkLike = true) {line body : Str} (hb : Body line body) (hne : line ≠ [])
    {keep : Int} {ty : Option Nat} {text : Str} {v : Bool}
    (h : getAtxHeading line keep p false = .ok [⟨ty, some text, v⟩]) :
    ∃ c, getAtxHeading line keep p true = .ok [⟨ty, some c, v⟩] ∧ linkText c = .ok text := by
  have hk : keep ≥ 1 := by
    by_contra hk
    simp [getAtxHeading, hk] at h
  have hnl : ∀ c ∈ body, ¬ IsNewline c := by
    obtain ⟨a, b, -, -, h2⟩ := hb
    exact fun c hc h => h.elim (h2 c hc).1 (h2 c hc).2
  rw [getAtxHeading_body hb hne hk, atxSubline_cmark hp] at h ⊢
  by_cases hex : ∃ m rest, IsAtx p body m rest
  · obtain ⟨m, rest, hm⟩ := hex
    obtain ⟨c, -, hc⟩ := atxCmark_heading hp hm hnl
    rw [hc] at h ⊢
    simp only [Bool.false_eq_true, if_false] at h
    cases hl : linkText c with
    | error e => rw [hl] at h; simp [Except.map] at h
    | ok t =>
      rw [hl] at h
      simp only [Except.map, Except.ok.injEq, List.cons.injEq, AtxElem.mk.injEq, Option.some.injEq, and_true] at h
      obtain ⟨rfl, rfl, rfl⟩ := h
      exact ⟨c, rfl, hl⟩
  · obtain ⟨v', hv⟩ := atxCmark_other hp (fun m rest hm => hex ⟨m, rest, hm⟩) hnl keep false true
    rw [hv] at h
    simp [Except.map, AtxElem.none] at h

theorem linkText_ok {c t : Str} (h : linkText c = .ok t) :
    stripChain (padded c) ≠ [] ∧ (padded c).length ≤ 999 ∧ t = label c := by
  rw [linkText_eq] at h
  split at h
  · simp at h
  · split at h
    · simp at h
    · rename_i h1 h2
      simp at h
      exact ⟨h1, by omega, h.symm⟩

/-- **C11.** With links enabled the text is the text obtained with links disabled, with a space appended if it
ended with a backslash, and with a backslash inserted before each square bracket that was not escaped. -/
theorem C11_escaping {p : Parser} (hp : p.cmarkLike = true) {line body : Str} (hb : Body line body) (hne : line ≠ [])
    {keep : Int} {ty : Option Nat} {text : Str} {v : Bool}
    (h : getAtxHeading line keep p false = .ok [⟨ty, some text, v⟩]) :
    ∃ text', getAtxHeading line keep p true = .ok [⟨ty, some text', v⟩] ∧ text = label text' := by
  obtain ⟨c, h1, h2⟩ := noLinks_of_links hp hb hne h
  exact ⟨c, h1, (linkText_ok h2).2.2⟩

theorem inserted_refl (s : Str) : Inserted s s := by
  induction s with
  | nil => exact .nil
  | cons c s ih => exact .keep c ih

/-- **C11**, nothing is removed or reordered: escaping only inserts backslashes in front of square brackets. -/
theorem C11_only_inserts (b : Bool) (s : Str) : Inserted s (escapeBrackets b s) := by
  induction s generalizing b with
  | nil => exact .nil
  | cons c t ih =>
    rw [escapeBrackets]
    split
    · exact .keep c (ih _)
    · split
      · rename_i h; exact .ins c h.1 (ih _)
      · exact .keep c (ih _)

/-- **C11**, escaping twice is the same as escaping once. -/
theorem C11_idempotent (b : Bool) (s : Str) : escapeBrackets b (escapeBrackets b s) = escapeBrackets b s := by
  induction s generalizing b with
  | nil => rfl
  | cons c t ih =>
    rw [escapeBrackets]
    split
    · rename_i h
      rw [escapeBrackets, if_pos h, ih]
    · rename_i h
      split
      · rename_i h'
        obtain ⟨h1, rfl⟩ := h'
        rw [escapeBrackets, if_pos rfl, escapeBrackets, if_neg h, if_neg (by simp), ih]
      · rename_i h'
        rw [escapeBrackets, if_neg h, if_neg h', ih]

/-- Every bracket of the output is escaped, when the text in front ends with an odd number of backslashes
exactly if `b`. -/
theorem escapeBrackets_escaped (s : Str) : ∀ (b : Bool) (d : Str), (trailingBackslashes d % 2 = 1 ↔ b = true) →
    ∀ pre c post, escapeBrackets b s = pre ++ c :: post → IsBracket c → Escaped (d ++ pre) := by
  induction s with
  | nil => intro b d _ pre c post h; simp [escapeBrackets] at h
  | cons x t ih =>
    intro b d hd pre c post h hc
    rw [escapeBrackets] at h
    split at h
    · rename_i hx
      subst hx
      cases pre with
      | nil =>
        simp at h
        rw [← h.1] at hc
        exact absurd hc (by rintro (h | h) <;> revert h <;> decide)
      | cons y pre =>
        simp at h
        have := ih (!b) (d ++ ['\\']) (by
          rw [trailing_concat, if_pos rfl]
          cases b <;> simp at hd ⊢ <;> omega) pre c post h.2 hc
        simpa [← h.1] using this
    · rename_i hx
      split at h
      · rename_i hb
        obtain ⟨h1, rfl⟩ := hb
        cases pre with
        | nil =>
          simp at h
          rw [← h.1] at hc
          exact absurd hc (by rintro (h | h) <;> revert h <;> decide)
        | cons y pre =>
          simp at h
          obtain ⟨rfl, h⟩ := h
          cases pre with
          | nil =>
            unfold Escaped
            rw [trailing_concat, if_pos rfl]
            simp at hd; omega
          | cons z pre =>
            simp at h
            have := ih false (d ++ ['\\'] ++ [z]) (by rw [trailing_concat, if_neg (by rw [← h.1]; exact hx)]; simp) pre c post h.2 hc
            simpa using this
      · rename_i hb
        cases pre with
        | nil =>
          simp at h
          rw [← h.1] at hc
          unfold Escaped
          have : b = true := by
            cases b
            · exact absurd ⟨hc, rfl⟩ hb
            · rfl
          simpa using hd.mpr this
        | cons y pre =>
          simp at h
          have := ih false (d ++ [y]) (by rw [trailing_concat, if_neg (by rw [← h.1]; exact hx)]; simp) pre c post h.2 hc
          simpa using this

theorem escapeBrackets_last (b : Bool) (s : Str) : (escapeBrackets b s).getLast? = s.getLast? := by
  have key : ∀ b t, (∀ b, (escapeBrackets b t).getLast? = t.getLast?) → ∀ c : Char,
      (c :: escapeBrackets b t).getLast? = (c :: t).getLast? := by
    intro b t h c
    rw [List.getLast?_cons, List.getLast?_cons, h]
  induction s generalizing b with
  | nil => rfl
  | cons c t ih =>
    rw [escapeBrackets]
    split
    · exact key _ t ih c
    · split
      · rw [List.getLast?_cons_cons]; exact key _ t ih c
      · exact key _ t ih c

theorem label_getLast (c : Str) : (label c).getLast? ≠ some '\\' := by
  unfold label
  rw [escapeBrackets_last, padded]
  split
  · simp
  · assumption

theorem label_allEscaped (c : Str) : AllEscaped (label c) := by
  intro pre x post h hx
  have := escapeBrackets_escaped _ false [] (by simp [trailingBackslashes]) pre x post h hx
  simpa using this

/-- **C10.** With links enabled every square bracket of a heading text is escaped and the text does not end with
a backslash. -/
theorem C10_brackets_escaped {p : Parser} (hp : p.cmarkLike = true) {line body : Str} (hb : Body line body)
    (hne : line ≠ []) {keep : Int} {ty : Option Nat} {text : Str} {v : Bool}
    (h : getAtxHeading line keep p false = .ok [⟨ty, some text, v⟩]) :
    AllEscaped text ∧ text.getLast? ≠ some '\\' := by
  obtain ⟨t, -, rfl⟩ := C11_escaping hp hb hne h
  exact ⟨label_allEscaped t, label_getLast t⟩

/-- A text with escaped and unescaped brackets and a backslash at the end. -/
example : Body "# [a\\] \\\\[ b \\\n".toList "# [a\\] \\\\[ b \\".toList ∧
    getAtxHeading "# [a\\] \\\\[ b \\\n".toList 3 .github false =
      .ok [⟨some 1, some "\\[a\\] \\\\\\[ b \\ ".toList, true⟩] := by
  exact ⟨⟨[], "\n".toList, by decide⟩, by decide +kernel⟩

/-- For redcarpet nothing is escaped and the label may end with a backslash. -/
theorem C10_redcarpet_violation : getAtxHeading "# [a foo\\ ##".toList 3 .redcarpet false =
    .ok [⟨some 1, some "[a foo\\".toList, true⟩] := by decide +kernel

/-! ### C12, C13 -/

theorem escapeBrackets_length (b : Bool) (s : Str) :
    s.length ≤ (escapeBrackets b s).length ∧ (escapeBrackets b s).length ≤ 2 * s.length := by
  induction s generalizing b with
  | nil => simp [escapeBrackets]
  | cons c t ih =>
    rw [escapeBrackets]
    split
    · have := ih (!b); simp; omega
    · have := ih false
      split <;> (simp; omega)

theorem padded_length (c : Str) : c.length ≤ (padded c).length := by
  unfold padded; split <;> simp

/-- **C12.** With links enabled a label is not empty, the text with links disabled has at most 999 characters
and the label at most twice as many. -/
theorem C12_label_length {p : Parser} (hp : p.cmarkLike = true) {line body : Str} (hb : Body line body)
    (hne : line ≠ []) {keep : Int} {ty : Option Nat} {text : Str} {v : Bool}
    (h : getAtxHeading line keep p false = .ok [⟨ty, some text, v⟩]) :
    0 < text.length ∧ text.length ≤ 1998 ∧
      ∃ text', getAtxHeading line keep p true = .ok [⟨ty, some text', v⟩] ∧ 0 < text'.length ∧ text'.length ≤ 999 := by
  obtain ⟨c, h1, h2⟩ := noLinks_of_links hp hb hne h
  obtain ⟨h3, h4, rfl⟩ := linkText_ok h2
  have h5 := escapeBrackets_length false (padded c)
  have h6 := padded_length c
  have h7 : 0 < c.length := by
    cases c with
    | nil => exact absurd (by decide) h3
    | cons => simp
  unfold label
  exact ⟨by omega, by omega, c, h1, h7, by omega⟩

/-- **C12**, a text longer than 999 characters always raises. -/
theorem C12_overflow {p : Parser} (hp : p.cmarkLike = true) {line body : Str} (hb : Body line body)
    (hne : line ≠ []) {keep : Int} {ty : Option Nat} {text : Str} {v : Bool}
    (h : getAtxHeading line keep p true = .ok [⟨ty, some text, v⟩]) (hl : text.length > 999) :
    getAtxHeading line keep p false = .error .GithubOverflowCharsLinkLabel ∨
      getAtxHeading line keep p false = .error .GithubEmptyLinkLabel := by
  rw [links_of_noLinks hp hb hne h, linkText_eq]
  have h6 := padded_length text
  split
  · exact .inr rfl
  · rw [if_pos (by omega)]
    exact .inl rfl

/-- **C12**, a text of at most 998 characters never raises GithubOverflowCharsLinkLabel. -/
theorem C12_no_overflow {p : Parser} (hp : p.cmarkLike = true) {line body : Str} (hb : Body line body)
    (hne : line ≠ []) {keep : Int} {ty : Option Nat} {text : Str} {v : Bool}
    (h : getAtxHeading line keep p true = .ok [⟨ty, some text, v⟩]) (hl : text.length ≤ 998) :
    getAtxHeading line keep p false ≠ .error .GithubOverflowCharsLinkLabel := by
  rw [links_of_noLinks hp hb hne h, linkText_eq]
  have h6 : (padded text).length ≤ 999 := by
    unfold padded; split
    · simp; omega
    · omega
  rw [if_neg (c := (padded text).length > 999) (by omega)]
  split <;> simp [Except.map]

/-- **C12**, the limit does not hold for the final label: 999 brackets give 1998 characters. -/
theorem C12_violation :
    (getAtxHeading ("# ".toList ++ List.replicate 999 '[') 3 .github false).map
      (List.map fun e => e.text.map List.length) = .ok [some 1998] := by decide +kernel

theorem stripChain_sublist (s : Str) : (stripChain s).Sublist s := by
  unfold stripChain
  refine (strip_sublist _ _).trans ?_
  refine (strip_sublist _ _).trans ?_
  refine (strip_sublist _ _).trans ?_
  refine (strip_sublist _ _).trans ?_
  refine (strip_sublist _ _).trans ?_
  exact strip_sublist _ _

theorem strip_keeps {q : Char → Bool} {c : Char} (hc : q c = false) {s : Str} (h : c ∈ s) : c ∈ strip q s := by
  obtain ⟨a, d, h1, h2, h3, -⟩ := strip_eq q s
  rw [h1] at h
  simp only [List.mem_append] at h
  rcases h with (h | h) | h
  · rw [h2 c h] at hc; simp at hc
  · exact h
  · rw [h3 c h] at hc; simp at hc

theorem stripChain_keeps {c : Char} (hc : isBlankChar c = false) {s : Str} (h : c ∈ s) : c ∈ stripChain s := by
  simp only [isBlankChar, Bool.or_eq_false_iff] at hc
  obtain ⟨⟨⟨⟨⟨h1, h2⟩, h3⟩, h4⟩, h5⟩, h6⟩ := hc
  unfold stripChain
  apply strip_keeps (q := (· == '\r')) h6
  apply strip_keeps (q := (· == '\x0c')) h5
  apply strip_keeps (q := (· == '\x0b')) h4
  apply strip_keeps (q := (· == '\n')) h3
  apply strip_keeps (q := (· == '\t')) h2
  exact strip_keeps (q := (· == ' ')) h1 h

theorem strip_of_all {q : Char → Bool} {s : Str} (h : ∀ c ∈ s, q c = true) : strip q s = [] :=
  strip_eq_nil_iff.mpr h

theorem strip_same (q : Char → Bool) {c : Char} {s : Str} (h : ∀ x ∈ s, x = c) :
    strip q s = if q c then [] else s := by
  by_cases hq : q c = true
  · rw [if_pos hq]
    exact strip_of_all (fun x hx => by rw [h x hx]; exact hq)
  · rw [if_neg hq]
    have := strip_unique (p := q) (a := []) (b := s) (c := []) (by simp) (by simp)
      (fun x hx => by rw [h x (List.mem_of_head? hx)]; simpa using hq)
      (fun x hx => by rw [h x (List.mem_of_getLast? hx)]; simpa using hq)
    simpa using this

/-- One kind of white space is stripped. -/
theorem stripChain_same {c : Char} (hc : isBlankChar c = true) {s : Str} (h : ∀ x ∈ s, x = c) : stripChain s = [] := by
  have step : ∀ (q : Char → Bool) (s : Str), (∀ x ∈ s, x = c) → (∀ x ∈ strip q s, x = c) ∧ (q c = true → strip q s = []) ∧
      (s = [] → strip q s = []) := by
    intro q s h
    refine ⟨fun x hx => h x ((strip_sublist q s).subset hx), fun hq => ?_, ?_⟩
    · rw [strip_same q h, if_pos hq]
    · rintro rfl; exact strip_of_all (by simp)
  unfold stripChain
  obtain ⟨a1, b1, -⟩ := step (· == ' ') _ h
  obtain ⟨a2, b2, c2⟩ := step (· == '\t') _ a1
  obtain ⟨a3, b3, c3⟩ := step (· == '\n') _ a2
  obtain ⟨a4, b4, c4⟩ := step (· == '\x0b') _ a3
  obtain ⟨a5, b5, c5⟩ := step (· == '\x0c') _ a4
  obtain ⟨-, b6, c6⟩ := step (· == '\r') _ a5
  simp only [isBlankChar, Bool.or_eq_true] at hc
  rcases hc with (((((h | h) | h) | h) | h) | h)
  · exact c6 (c5 (c4 (c3 (c2 (b1 h)))))
  · exact c6 (c5 (c4 (c3 (b2 h))))
  · exact c6 (c5 (c4 (b3 h)))
  · exact c6 (c5 (b4 h))
  · exact c6 (b5 h)
  · exact b6 h

/-- **C13**, in part: with links enabled a heading with a visible character in its text is never rejected as
empty, and a heading whose text is empty or has only one kind of white space is always rejected. -/
theorem C13_blank_partial {p : Parser} (hp : p.cmarkLike = true) {line body : Str} (hb : Body line body)
    (hne : line ≠ []) {keep : Int} {ty : Option Nat} {text : Str} {v : Bool}
    (h : getAtxHeading line keep p true = .ok [⟨ty, some text, v⟩]) :
    ((∃ c ∈ text, isBlankChar c = false) → getAtxHeading line keep p false ≠ .error .GithubEmptyLinkLabel) ∧
    ((∃ c, isBlankChar c = true ∧ ∀ x ∈ text, x = c) → getAtxHeading line keep p false = .error .GithubEmptyLinkLabel) := by
  rw [links_of_noLinks hp hb hne h, linkText_eq]
  constructor
  · rintro ⟨x, hx1, hx2⟩
    have hx3 : x ∈ padded text := by unfold padded; split <;> simp [hx1]
    have hx4 := stripChain_keeps hx2 hx3
    rw [if_neg (by intro h0; rw [h0] at hx4; simp at hx4)]
    split <;> simp [Except.map]
  · rintro ⟨x, hx1, hx2⟩
    have hif : padded text = text := by
      unfold padded
      rw [if_neg]
      intro h
      have := hx2 _ (List.mem_of_getLast? h)
      subst this
      revert hx1; decide
    rw [hif, if_pos (stripChain_same hx1 hx2)]
    rfl

/-- **C13 is false** for mixed white space: the label TAB SPACE TAB is accepted. -/
theorem C13_violation : getAtxHeading "# \t \t".toList 3 .github false = .ok [⟨some 1, some "\t \t".toList, true⟩] := by
  decide +kernel

example : getAtxHeading "# \x0b\x0b".toList 3 .github true = .ok [⟨some 1, some "\x0b\x0b".toList, true⟩] ∧
    getAtxHeading "# \x0b\x0b".toList 3 .github false = .error .GithubEmptyLinkLabel := by decide +kernel

end Props

end MdToc
