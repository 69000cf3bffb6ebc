import Verif.Lemmas.Doc

/-!
# Code fences: C16 to C20
-/

set_option linter.unusedSimpArgs false

namespace MdToc

open MdToc.Spec

/-- The result of `build_toc` from the state at the end of the loop. -/
def TocState.out (st : TocState) : Str := st.toc.flatten

theorem buildToc_lines (E : Env) {o : Options} (hs : o.skipLines ≥ 0) (fn : Str) {text : Str} {ls : List Str} (h : Reads text ls) :
    buildToc E o fn (some ⟨text, false⟩) =
      tocLoop E o fn false (ls.drop o.skipLines.toNat) (TocState.init o.effMarker) := by
  unfold buildToc
  simp only [reads_lines h]
  rw [if_neg (by simpa using hs), if_neg (by simp)]

theorem buildToc_lines_bad (E : Env) {o : Options} (hs : o.skipLines ≥ 0) (fn : Str) {text : Str} {bad : Bool} {ls : List Str} (h : Reads text ls)
    (hl : o.skipLines.toNat ≤ ls.length) :
    buildToc E o fn (some ⟨text, bad⟩) =
      tocLoop E o fn bad (ls.drop o.skipLines.toNat) (TocState.init o.effMarker) := by
  unfold buildToc
  simp only [reads_lines h]
  rw [if_neg (by simpa using hs), if_neg (by simp; intro _; omega)]

theorem out_norm (r : Except Exn TocState) : (r.map TocState.norm).map TocState.out = r.map TocState.out := by
  cases r <;> rfl

theorem norm_init (m : Str) : (TocState.init m).norm = TocState.init m := rfl

/-- A line that is not a heading does nothing. -/
theorem hdrStep_other {E : Env} {o : Options} {l : Str}
    (h : ∀ noLinks, getAtxHeading l o.keep o.parser noLinks = .ok [⟨none, none, false⟩]) (st : TocState) :
    hdrStep E o st l = .ok st := by
  unfold hdrStep getMdHeader
  rw [h]
  rfl

theorem hdrStep_not_atx {E : Env} {o : Options} (hp : o.parser.cmarkLike = true) (hk : o.keep ≥ 1) {l b : Str} (hl : Body l b) (hne : l ≠ [])
    (h : ¬ ∃ n rest, IsAtx o.parser b n rest) (st : TocState) : hdrStep E o st l = .ok st :=
  hdrStep_other (fun nl => (Props.C08_levels hp hl hne hk nl).2 h) st

theorem hdrStep_not_redcarpet {E : Env} {o : Options} (hp : o.parser = .redcarpet) (hk : o.keep ≥ 1) {l b : Str} (hl : Body l b) (hne : l ≠ [])
    (h : ¬ ∃ n rest c, IsRedcarpetAtx b n rest ∧ RedcarpetContent rest c ∧ c ≠ []) (st : TocState) : hdrStep E o st l = .ok st :=
  hdrStep_other (fun nl => by rw [hp]; exact (Props.C15_redcarpet hl hne hk).2 h nl) st

theorem tocLoop_redcarpet {E : Env} {o : Options} (hp : o.parser.cmarkLike = false) (fn : Str) (ls : List Str) :
    ∀ st : TocState, st.within = false → tocLoop E o fn false ls st = (hdrRun E o ls st.norm).map TocState.out := by
  induction ls with
  | nil => intro st _; rfl
  | cons l ls ih =>
    intro st hw
    rw [tocLoop, if_neg (by simp), tocStep_line _ hw (isOpening_redcarpet hp l), hdrRun, hdrStep_norm]
    cases hdrStep E o st l with
    | error e => rfl
    | ok st' => exact ih st'.norm rfl

/-- The state after lines that end outside of code blocks is outside. -/
theorem within_after {E : Env} {o : Options} (hp : o.parser.cmarkLike = true) {ls : List Str} (ho : Outside o.parser ls)
    {st st' : TocState} (hw : st.within = false) (h : tocRun E o ls st = .ok st') : st'.within = false :=
  tocLoop_outside.tocRun_outside_within hp ho hw h

namespace Props

/-! ### C16 -/

/-- **C16.** A line opens a code block exactly when the specification says so, and the fence returned is the run of
fence characters. -/
theorem C16_opening {p : Parser} (hp : p.cmarkLike = true) (line fence : Str) :
    isOpeningCodeFence line p = some fence ↔ ∃ c n, OpensWith line c n ∧ fence = List.replicate n c :=
  isOpening_iff hp line fence

/-- **C16**: there is at most one way to read a line as an opening fence. -/
theorem C16_unique {line : Str} {c d : Char} {n m : Nat} (h : OpensWith line c n) (h' : OpensWith line d m) :
    c = d ∧ n = m := opensWith_unique h h'

/-- **C16** for redcarpet: no line opens a code block. -/
theorem C16_redcarpet (line : Str) : isOpeningCodeFence line .redcarpet = none := rfl

example : OpensWith "  ~~~~ `a` ~~~\n".toList '~' 4 ∧ isOpeningCodeFence "  ~~~~ `a` ~~~\n".toList .cmark = some "~~~~".toList ∧
    isOpeningCodeFence "``` a`b\n".toList .cmark = none ∧ isOpeningCodeFence "    ```\n".toList .cmark = none := by
  refine ⟨⟨2, " `a` ~~~\n".toList, by decide⟩, by decide +kernel⟩

/-! ### C17 -/

/-- **C17.** Before the end of the document a line closes a code block exactly when the specification says so. -/
theorem C17_closing {p : Parser} (hp : p.cmarkLike = true) (line : Str) {c : Char} {n : Nat} (hc : IsFenceChar c) (hn : 3 ≤ n) :
    isClosingCodeFence line (List.replicate n c) false p = true ↔ ClosesWith p line c n :=
  isClosing_iff hp line hc hn

/-- **C17** at the end of the document: every line with at most three spaces in front closes the block. -/
theorem C17_document_end {p : Parser} (hp : p.cmarkLike = true) (line : Str) {c : Char} {n : Nat} (hc : IsFenceChar c) (hn : 3 ≤ n) :
    isClosingCodeFence line (List.replicate n c) true p = true ↔
      ∃ k s, line = List.replicate k ' ' ++ s ∧ k ≤ 3 ∧ s.head? ≠ some ' ' :=
  isClosing_docEnd hp line hc hn

/-- **C17** for any text given as the fence: it has to be a fence, except for blanks around it. -/
theorem C17_any_fence (p : Parser) (line fence : Str) : isClosingCodeFence line fence false p = true ↔ p ≠ .redcarpet ∧ ∃ c n, FenceText fence c n ∧ ClosesWith p line c n := by
  constructor
  · intro h
    obtain ⟨hp, c, n, a, r, hc, hn, hr, h3, rfl⟩ := isClosing_needs h
    exact ⟨by rintro rfl; simp [Parser.cmarkLike] at hp, c, n, ⟨a, r, hc, hn, hr, h3, rfl⟩, (isClosing_arg_iff hp line hc hn hr h3).mp h⟩
  · rintro ⟨hp, c, n, ⟨a, r, hc, hn, hr, h3, rfl⟩, h⟩
    exact (isClosing_arg_iff (by cases p <;> first | rfl | exact absurd rfl hp) line hc hn hr h3).mpr h

/-- The same at the end of the document. -/
theorem C17_any_fence_end (p : Parser) (line fence : Str) : isClosingCodeFence line fence true p = true ↔
    p ≠ .redcarpet ∧ (∃ c n, FenceText fence c n) ∧ ∃ k s, line = List.replicate k ' ' ++ s ∧ k ≤ 3 ∧ s.head? ≠ some ' ' := by
  constructor
  · intro h
    obtain ⟨hp, c, n, a, r, hc, hn, hr, h3, rfl⟩ := isClosing_needs h
    exact ⟨by rintro rfl; simp [Parser.cmarkLike] at hp, ⟨c, n, a, r, hc, hn, hr, h3, rfl⟩, (isClosing_arg_docEnd hp line hc hn hr h3).mp h⟩
  · rintro ⟨hp, ⟨c, n, a, r, hc, hn, hr, h3, rfl⟩, h⟩
    exact (isClosing_arg_docEnd (by cases p <;> first | rfl | exact absurd rfl hp) line hc hn hr h3).mpr h

example : FenceText " ```\n".toList '`' 3 ∧ ClosesWith .github "  ````  \n".toList '`' 3 ∧ isClosingCodeFence "  ````  \n".toList " ```\n".toList false .github = true ∧
    isClosingCodeFence "```".toList "abc".toList true .github = false :=
  ⟨⟨1, "\n".toList, .inl rfl, by decide, by decide, by decide, by decide⟩, ⟨2, 4, "  \n".toList, by decide +kernel⟩, by decide +kernel, by decide +kernel⟩

/-- **C16**: at most three spaces may stand before a fence; redcarpet has no fences. -/
theorem C16_indent (p : Parser) (k : Nat) {s : Str} (hs : s.head? ≠ some ' ') : isValidCodeFenceIndent (List.replicate k ' ' ++ s) p = true ↔ p ≠ .redcarpet ∧ k ≤ 3 := by
  have h : ∀ c ∈ s.head?, c ≠ ' ' := by
    intro c hc e
    exact hs (by rw [← e]; exact hc)
  have hi := indent_ok (k := k) h
  unfold isValidCodeFenceIndent at hi ⊢
  cases p <;> simp_all [Parser.cmarkLike]

/-- **C16** and **C17** together: what opens a block is closed by the same fence on a line of its own. -/
theorem C17_closes_own_fence {p : Parser} (hp : p.cmarkLike = true) {line fence : Str} (h : isOpeningCodeFence line p = some fence) :
    isClosingCodeFence fence fence false p = true := by
  obtain ⟨c, n, ho, rfl⟩ := (isOpening_iff hp line fence).mp h
  obtain ⟨hc, hn⟩ := opensWith_props ho
  exact (isClosing_iff hp _ hc hn).mpr ⟨0, n, [], by omega, Nat.le_refl _, by simp, by simp⟩

example : ClosesWith .cmark " `````\t \n".toList '`' 3 ∧ ¬ ClosesWith .github " `````\t \n".toList '`' 3 ∧
    isClosingCodeFence "```a\n".toList "```".toList false .github = false ∧ isClosingCodeFence "``\n".toList "```".toList false .github = false := by
  refine ⟨⟨1, 5, "\t \n".toList, by decide⟩, ?_, by decide +kernel⟩
  intro h
  have := (C17_closing (p := .github) rfl _ (.inl rfl) (by decide)).mpr h
  revert this; decide +kernel

/-! ### C18 -/

/-- **C18.** Two documents that differ only in lines after an opening fence, none of which closes it, up to any line `e` (the closing fence, for instance) have the same table of contents, for files and the standard
input, with or without a decoding error later on. -/
theorem C18_content_invisible {E : Env} {o : Options} (hp : o.parser.cmarkLike = true) (hs : o.skipLines ≥ 0) (fn : Str) (bad : Bool)
    {pre ms ms' post : List Str} {l e t t' : Str} {c : Char} {n : Nat}
    (h : Reads t (pre ++ (l :: ms ++ e :: post))) (h' : Reads t' (pre ++ (l :: ms' ++ e :: post)))
    (hpre : o.skipLines.toNat ≤ pre.length) (hout : Outside o.parser (pre.drop o.skipLines.toNat))
    (hl : OpensWith l c n) (hm : ∀ m ∈ ms, ¬ ClosesWith o.parser m c n) (hm' : ∀ m ∈ ms', ¬ ClosesWith o.parser m c n) :
    buildToc E o fn (some ⟨t, bad⟩) = buildToc E o fn (some ⟨t', bad⟩) := by
  obtain ⟨hc, hn⟩ := opensWith_props hl
  rw [buildToc_lines_bad E hs fn h (by simp; omega), buildToc_lines_bad E hs fn h' (by simp; omega),
    List.drop_append_of_le_length hpre, List.drop_append_of_le_length hpre,
    tocLoop_append _ _ _ _ _ (by simp), tocLoop_append _ _ _ _ _ (by simp)]
  cases hr : tocRun E o (pre.drop o.skipLines.toNat) (TocState.init o.effMarker) with
  | error e => rfl
  | ok st =>
    have hw : st.within = false := within_after hp hout rfl hr
    have key : ∀ ms : List Str, (∀ m ∈ ms, ¬ ClosesWith o.parser m c n) →
        tocRun E o (l :: ms) st = .ok { st with within := true, fence := some (List.replicate n c) } := by
      intro ms hm
      rw [tocRun, tocStep_open false hw ((isOpening_iff hp l _).mpr ⟨c, n, hl, rfl⟩)]
      exact tocRun_inside rfl rfl (fun m h => notClosing hp hc hn (hm m h))
    simp only [bind, Except.bind]
    rw [tocLoop_append _ _ _ _ _ (by simp), tocLoop_append _ _ _ _ _ (by simp), key ms hm, key ms' hm']

/-- **C18**, in general: the table of contents of the standard input is determined by the lines outside of code blocks. -/
theorem C18_only_visible_stdin {E : Env} {o : Options} (hp : o.parser.cmarkLike = true) (hs : o.skipLines ≥ 0)
    {ls ls' vs : List Str} {t t' : Str} (h : Reads t ls) (h' : Reads t' ls')
    (hv : Visible o.parser (ls.drop o.skipLines.toNat) vs) (hv' : Visible o.parser (ls'.drop o.skipLines.toNat) vs) :
    buildToc E o stdinName (some ⟨t, false⟩) = buildToc E o stdinName (some ⟨t', false⟩) := by
  have key : ∀ {ls : List Str}, Visible o.parser ls vs → tocLoop E o stdinName false ls (TocState.init o.effMarker) =
      (hdrRun E o vs (TocState.init o.effMarker)).map TocState.out := by
    intro ls hv
    rw [tocLoop_stdin]
    have := tocRun_visible (E := E) hp hv (TocState.init o.effMarker) rfl
    rw [norm_init] at this
    rw [← this, out_norm]; rfl
  rw [buildToc_lines E hs _ h, buildToc_lines E hs _ h', key hv, key hv']

/-- **C18**, in general, for any file name when all code blocks are closed. -/
theorem C18_only_visible_closed {E : Env} {o : Options} (hp : o.parser.cmarkLike = true) (hs : o.skipLines ≥ 0) (fn : Str)
    {ls ls' vs : List Str} {t t' : Str} (h : Reads t ls) (h' : Reads t' ls')
    (hv : Visible o.parser (ls.drop o.skipLines.toNat) vs) (hv' : Visible o.parser (ls'.drop o.skipLines.toNat) vs)
    (ho : Outside o.parser (ls.drop o.skipLines.toNat)) (ho' : Outside o.parser (ls'.drop o.skipLines.toNat)) :
    buildToc E o fn (some ⟨t, false⟩) = buildToc E o fn (some ⟨t', false⟩) := by
  have key : ∀ {ls : List Str}, Visible o.parser ls vs → Outside o.parser ls → tocLoop E o fn false ls (TocState.init o.effMarker) =
      (hdrRun E o vs (TocState.init o.effMarker)).map TocState.out := by
    intro ls hv ho
    rw [tocLoop_outside hp fn ho rfl]
    have := tocRun_visible (E := E) hp hv (TocState.init o.effMarker) rfl
    rw [norm_init] at this
    rw [← this, out_norm]; rfl
  rw [buildToc_lines E hs _ h, buildToc_lines E hs _ h', key hv ho, key hv' ho']

/-- Every document has exactly one list of visible lines. -/
theorem C18_visible_exists (p : Parser) (ls : List Str) : ∃ vs, Visible p ls vs := visible_exists p ls

/-- A block with a heading in it and one without. -/
example : ∃ t t' : Str, ∃ pre ms ms' post : List Str, ∃ l e : Str,
    Reads t (pre ++ (l :: ms ++ e :: post)) ∧ Reads t' (pre ++ (l :: ms' ++ e :: post)) ∧ Outside .github pre ∧
    OpensWith l '`' 3 ∧ (∀ m ∈ ms, ¬ ClosesWith .github m '`' 3) ∧ (∀ m ∈ ms', ¬ ClosesWith .github m '`' 3) ∧
    ClosesWith .github e '`' 3 ∧ ms ≠ ms' ∧
    buildToc asciiEnv {} "f".toList (some ⟨t, false⟩) = .ok "- [a](#a)\n".toList ∧
    buildToc asciiEnv {} "f".toList (some ⟨t', false⟩) = .ok "- [a](#a)\n".toList := by
  have hno : ¬ ∃ c n, OpensWith "# a\n".toList c n := by
    rw [← isOpening_none_iff (p := .github) rfl]; decide +kernel
  have hm : ¬ ClosesWith .github "# b\n".toList '`' 3 := by
    rw [← isClosing_iff (p := .github) rfl _ (.inl rfl) (by decide)]; decide +kernel
  refine ⟨"# a\n```\n# b\n```\n".toList, "# a\r```\r\n```\n".toList, ["# a\n".toList], ["# b\n".toList], [], [], "```\n".toList, "```\n".toList,
    (reads_iff (bad := false)).mpr (by decide +kernel), (reads_iff (bad := false)).mpr (by decide +kernel), ?_, ⟨0, "\n".toList, by decide⟩, ?_, by simp,
    ⟨0, 3, "\n".toList, by decide⟩, by simp, by decide +kernel, by decide +kernel⟩
  · exact Outside.line (ls := []) .nil hno
  · intro m h; simp at h; subst h; exact hm

/-! ### C19 -/

/-- **C19** for the standard input: nothing after an unclosed fence is listed. -/
theorem C19_unclosed_stdin {E : Env} {o : Options} (hp : o.parser.cmarkLike = true) (hs : o.skipLines ≥ 0)
    {pre ms : List Str} {l t t' : Str} {c : Char} {n : Nat} (h : Reads t (pre ++ l :: ms)) (h' : Reads t' pre)
    (hpre : o.skipLines.toNat ≤ pre.length) (hout : Outside o.parser (pre.drop o.skipLines.toNat))
    (hl : OpensWith l c n) (hm : ∀ m ∈ ms, ¬ ClosesWith o.parser m c n) :
    buildToc E o stdinName (some ⟨t, false⟩) = buildToc E o stdinName (some ⟨t', false⟩) := by
  obtain ⟨vs, hv⟩ := visible_of_outside hout
  refine C18_only_visible_stdin (vs := vs ++ []) hp hs h h' ?_ ?_
  · rw [List.drop_append_of_le_length hpre]
    exact hv _ _ (.unclosed hl hm)
  · have := hv _ _ Visible.nil
    rwa [List.append_nil] at this

/-- **C19** for files: nothing after an unclosed fence is listed, if the last line is not a heading or is the opening fence itself. What is missing: the last line, see `C19_violation`. -/
theorem C19_unclosed_file_partial {E : Env} {o : Options} (hp : o.parser.cmarkLike = true) (hs : o.skipLines ≥ 0) (hk : o.keep ≥ 1) (fn : Str)
    {pre ms : List Str} {l t t' : Str} {c : Char} {n : Nat} (h : Reads t (pre ++ l :: ms)) (h' : Reads t' pre)
    (hpre : o.skipLines.toNat ≤ pre.length) (hout : Outside o.parser (pre.drop o.skipLines.toNat))
    (hl : OpensWith l c n) (hm : ∀ m ∈ ms, ¬ ClosesWith o.parser m c n)
    (hlast : ∀ m ∈ ms.getLast?, ∀ b, Body m b → ¬ ∃ k rest, IsAtx o.parser b k rest) :
    buildToc E o fn (some ⟨t, false⟩) = buildToc E o fn (some ⟨t', false⟩) := by
  obtain ⟨hc, hn⟩ := opensWith_props hl
  rw [buildToc_lines E hs fn h, buildToc_lines E hs fn h', List.drop_append_of_le_length hpre,
    tocLoop_append _ _ _ _ _ (by simp), tocLoop_outside hp fn hout rfl]
  cases hr : tocRun E o (pre.drop o.skipLines.toNat) (TocState.init o.effMarker) with
  | error e => rfl
  | ok st =>
    have hw : st.within = false := within_after hp hout rfl hr
    have hopen : ∀ d, tocStep E o st l d = .ok { st with within := true, fence := some (List.replicate n c) } :=
      fun d => tocStep_open d hw ((isOpening_iff hp l _).mpr ⟨c, n, hl, rfl⟩)
    simp only [bind, Except.bind, Except.map]
    rcases List.eq_nil_or_concat ms with rfl | ⟨ms0, m, rfl⟩
    · rw [tocLoop, if_neg (by simp), hopen]
      rfl
    · have hm' : ∀ x ∈ ms0 ++ [m], ¬ ClosesWith o.parser x c n := by simpa using hm
      have hins : tocRun E o (l :: ms0) st = .ok { st with within := true, fence := some (List.replicate n c) } := by
        rw [tocRun, hopen]
        exact tocRun_inside rfl rfl (fun x hx => notClosing hp hc hn (hm' x (by simp [hx])))
      have hrw : l :: ms0.concat m = (l :: ms0) ++ [m] := by simp
      rw [hrw, tocLoop_append _ _ _ _ _ (by simp), hins]
      simp only [bind, Except.bind]
      rw [tocLoop, if_neg (by simp)]
      have hline : IsLine m := reads_isLine h m (by simp)
      obtain ⟨b, hb, hne, -⟩ := hline.body
      have hnot := hlast m (by simp) b hb
      generalize (decide (fn ≠ stdinName) && ([] : List Str).isEmpty) = d
      cases hcl : isClosingCodeFence m (List.replicate n c) d o.parser with
      | false =>
        rw [tocStep_inside rfl rfl hcl]
        rfl
      | true =>
        rw [tocStep_close rfl rfl hcl, hdrStep_not_atx hp hk hb hne hnot]
        rfl

/-- **C19** is violated by files: a heading on the last line of an unclosed code block is listed. -/
theorem C19_violation :
    buildToc asciiEnv {} "f".toList (some ⟨"```\n# a\n# b".toList, false⟩) = .ok "- [b](#b)\n".toList ∧
    buildToc asciiEnv {} stdinName (some ⟨"```\n# a\n# b".toList, false⟩) = .ok [] := by decide +kernel

example : Reads "# x\n~~~\n# a\nb".toList (["# x\n".toList] ++ "~~~\n".toList :: ["# a\n".toList, "b".toList]) ∧
    OpensWith "~~~\n".toList '~' 3 ∧ ¬ ClosesWith .github "b".toList '~' 3 ∧
    buildToc asciiEnv {} "f".toList (some ⟨"# x\n~~~\n# a\nb".toList, false⟩) = .ok "- [x](#x)\n".toList := by
  refine ⟨(reads_iff (bad := false)).mpr (by decide +kernel), ⟨0, "\n".toList, by decide⟩, ?_, by decide +kernel⟩
  rw [← isClosing_iff (p := .github) rfl _ (.inr rfl) (by decide)]; decide +kernel

/-! ### C20 -/

/-- **C20.** Removing a line outside of code blocks which neither is a heading nor opens a code block does not change the table of
contents. -/
theorem C20_other_lines {E : Env} {o : Options} (hp : o.parser.cmarkLike = true) (hs : o.skipLines ≥ 0) (hk : o.keep ≥ 1) (fn : Str)
    {pre post : List Str} {l t t' : Str} (h : Reads t (pre ++ l :: post)) (h' : Reads t' (pre ++ post))
    (hpre : o.skipLines.toNat ≤ pre.length) (hout : Outside o.parser (pre.drop o.skipLines.toNat))
    (hl : ¬ ∃ c n, OpensWith l c n) (hh : ∀ b, Body l b → ¬ ∃ n rest, IsAtx o.parser b n rest) :
    buildToc E o fn (some ⟨t, false⟩) = buildToc E o fn (some ⟨t', false⟩) := by
  obtain ⟨b, hb, hne, -⟩ := (reads_isLine h l (by simp)).body
  have hstep : ∀ st : TocState, st.within = false → ∀ d, tocStep E o st l d = .ok st.norm := by
    intro st hw d
    rw [tocStep_line d hw ((isOpening_none_iff hp l).mpr hl), hdrStep_not_atx hp hk hb hne (hh b hb)]
    rfl
  rw [buildToc_lines E hs fn h, buildToc_lines E hs fn h', List.drop_append_of_le_length hpre, List.drop_append_of_le_length hpre]
  by_cases hpost : post = []
  · subst hpost
    rw [List.append_nil, tocLoop_outside hp fn hout rfl, tocLoop_append _ _ _ _ _ (by simp)]
    cases hr : tocRun E o (pre.drop o.skipLines.toNat) (TocState.init o.effMarker) with
    | error e => rfl
    | ok st =>
      simp only [bind, Except.bind]
      rw [tocLoop, if_neg (by simp), hstep st (within_after hp hout rfl hr)]
      rfl
  · rw [tocLoop_append _ _ _ _ _ (by simp), tocLoop_append _ _ _ _ _ hpost]
    cases hr : tocRun E o (pre.drop o.skipLines.toNat) (TocState.init o.effMarker) with
    | error e => rfl
    | ok st =>
      have hw := within_after hp hout rfl hr
      simp only [bind, Except.bind]
      have := tocLoop_append E o fn false [l] hpost st
      rw [List.singleton_append] at this
      rw [this]
      simp only [tocRun, bind, Except.bind]
      rw [hstep st hw]
      simp only
      cases post with
      | nil => exact absurd rfl hpost
      | cons x post =>
        rw [tocLoop, tocLoop, tocStep_norm _ _ _ _ _ hw]

/-- **C20** for redcarpet, which has no code blocks: only the headings matter. -/
theorem C20_other_lines_redcarpet {E : Env} {o : Options} (hp : o.parser = .redcarpet) (hs : o.skipLines ≥ 0) (hk : o.keep ≥ 1) (fn : Str)
    {pre post : List Str} {l t t' : Str} (h : Reads t (pre ++ l :: post)) (h' : Reads t' (pre ++ post))
    (hpre : o.skipLines.toNat ≤ pre.length)
    (hh : ∀ b, Body l b → ¬ ∃ n rest c, IsRedcarpetAtx b n rest ∧ RedcarpetContent rest c ∧ c ≠ []) :
    buildToc E o fn (some ⟨t, false⟩) = buildToc E o fn (some ⟨t', false⟩) := by
  obtain ⟨b, hb, hne, -⟩ := (reads_isLine h l (by simp)).body
  have hp' : o.parser.cmarkLike = false := by rw [hp]; rfl
  rw [buildToc_lines E hs fn h, buildToc_lines E hs fn h', List.drop_append_of_le_length hpre, List.drop_append_of_le_length hpre,
    tocLoop_redcarpet hp' _ _ _ rfl, tocLoop_redcarpet hp' _ _ _ rfl, hdrRun_append, hdrRun_append]
  cases hdrRun E o (pre.drop o.skipLines.toNat) (TocState.init o.effMarker).norm with
  | error e => rfl
  | ok st =>
    simp only [bind, Except.bind, hdrRun]
    rw [hdrStep_not_redcarpet hp hk hb hne (hh b hb)]

/-- Text, an indented line and a list item are such lines. -/
example : ∀ l ∈ ["foo\n".toList, "    # a\n".toList, "- # b\n".toList, "\\# c\n".toList, "#d\n".toList],
    (¬ ∃ c n, OpensWith l c n) ∧ ∀ b, Body l b → ¬ ∃ n rest, IsAtx .github b n rest := by
  intro l hl
  constructor
  · rw [← isOpening_none_iff (p := .github) rfl]
    revert l; decide +kernel
  · rintro b hb ⟨n, rest, hn⟩
    have hne : l ≠ [] := by clear hb; revert l; decide
    obtain ⟨text, vis, h⟩ := (C08_recognition (p := .github) rfl hb hne (keep := 6) (by decide) n).mpr ⟨rest, hn⟩
    have : getAtxHeading l 6 .github true = .ok [⟨none, none, false⟩] := by
      clear h hn hb hne
      revert l; decide +kernel
    rw [this] at h
    simp at h

end Props

end MdToc
