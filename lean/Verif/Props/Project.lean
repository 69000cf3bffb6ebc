import Verif.Props.Separate

/-!
# A check of several files: C108
-/

set_option linter.unusedSimpArgs false

namespace MdToc.Props

open MdToc.Spec

/-- The exit code of a command for one file depends on this file only, in place or not. -/
theorem code_local {E : Env} (a : CliArgs) {f : Str} (hne : f ≠ stdinName) {s s' : FS} (stdin : Stdin) (hs : s' f = s f) :
    (cliMain E (CliArgs.one a f) s' stdin).code = (cliMain E (CliArgs.one a f) s stdin).code := by
  cases hi : a.inPlace with
  | true => exact ((one_local hi hne s stdin).2 s' hs).2
  | false =>
    have hi' : (CliArgs.one a f).inPlace = false := hi
    have hb : ∀ g : FS, buildMultipleTocs E (CliArgs.one a f).options g stdin (CliArgs.one a f).filenames = (buildToc E a.options f (g f)).map fun o => [o] := by
      intro g
      change buildMultipleTocs E a.options g stdin [f] = _
      unfold buildMultipleTocs defaultNames
      simp only [List.length_cons, List.length_nil, Nat.zero_add, Nat.one_ne_zero, if_false, buildTocs, if_neg hne, bind, Except.bind]
      cases buildToc E a.options f (g f) <;> rfl
    have hp : ∀ o : Str, printLoop E s' (CliArgs.one a f).diff (CliArgs.one a f).tocMarker [(f, o)] true = printLoop E s (CliArgs.one a f).diff (CliArgs.one a f).tocMarker [(f, o)] true := by
      intro o
      simp only [printLoop, hs]
    unfold cliMain writeToc
    rw [hb s', hb s, hs]
    cases buildToc E a.options f (s f) with
    | error e => rfl
    | ok o =>
      simp only [Except.map, hi', Bool.false_eq_true, if_false]
      change (match (match printLoop E s' (CliArgs.one a f).diff (CliArgs.one a f).tocMarker [(f, o)] true with
          | (.error e, out) => ((.error e, out, []) : Except Exn Bool × Str × List FS)
          | (.ok eq, out) => (.ok (!eq && (CliArgs.one a f).diff), out, [])) with
        | (.error _, out, tr) => (⟨1, out, tr⟩ : Outcome)
        | (.ok d, out, tr) => ⟨if d then 128 else 0, out, tr⟩).code = _
      rw [hp o]
      rfl

/-- One of the files: it has a place for a table, and it was edited outside of the table after the update. `out1` is the table of the text before the edit with the options of the update, `out2`
the table of the text behind it with the options of the check. -/
def CheckedFile (E : Env) (marker : Str) (a c : CliArgs) (s t t2 : FS) (f out1 out2 : Str) : Prop :=
  ∃ b1 a1 b2 a2 region doc1 doc2, Round.Good f marker ⟨b1, a1, CliArgs.one a f⟩ ∧ Round.Good f marker ⟨b2, a2, CliArgs.one c f⟩ ∧ HasLines s f (b1 ++ region ++ a1) ∧
    Region E.isDigit marker region ∧ (∀ p, ∀ l ∈ region, PlainLine p l) ∧ Reads doc1 (b1 ++ a1) ∧ Reads doc2 (b2 ++ a2) ∧
    buildToc E a.options f (some ⟨doc1, false⟩) = .ok out1 ∧ buildToc E c.options f (some ⟨doc2, false⟩) = .ok out2 ∧
    ∃ b' region' a', HasLines t f (b' ++ region' ++ a') ∧ Region E.isDigit marker region' ∧ (∀ l ∈ b' ++ a', ¬ IsMarker marker l) ∧ HasLines t2 f (b2 ++ region' ++ a2)

/-- **C108**: several files are updated by one run, then all of them are edited outside of their tables, and checked by one run with `--diff`, with the same options or other ones, in place
or not. The update does not fail, and the exit code of the check is 0 if each file has the table it had at the update, else 128. -/
theorem C108_check_files {E : Env} (hE : E.Lawful) {marker : Str} (hg : PlainMarker marker) (hpm : ∀ p, PlainLine p (marker ++ ['\n'])) {a c : CliArgs} (stdin stdin' : Stdin) {s s2 : FS}
    (hin : a.inPlace = true) (hne : a.filenames ≠ []) (hnd : a.filenames.Nodup) (hnames : c.filenames = a.filenames) (out1 out2 : Str → Str)
    (hfiles : ∀ f ∈ a.filenames, CheckedFile E marker a c s (filesAfter E a stdin s) s2 f (out1 f) (out2 f)) (i : Bool) :
    (cliMain E a s stdin).code ≠ 1 ∧ (cliMain E { c with diff := true, inPlace := i } s2 stdin').code = if ∀ f ∈ a.filenames, out1 f = out2 f then 0 else 128 := by
  have hstd' : ∀ f ∈ a.filenames, f ≠ stdinName := by
    intro f hf
    obtain ⟨b1, a1, b2, a2, region, doc1, doc2, -, -, h, -⟩ := hfiles f hf
    exact h.1
  have hstd : "-".toList ∉ a.filenames := fun h => hstd' _ h rfl
  -- the update
  have hone : ∀ f ∈ a.filenames, (cliMain E (CliArgs.one a f) s stdin).code ≠ 1 := by
    intro f hf
    obtain ⟨b1, a1, b2, a2, region, doc1, doc2, g1, -, h, hreg, hpl, hd1, -, ho1, -⟩ := hfiles f hf
    have hed : Edited E.isDigit marker f b1 a1 s s := ⟨b1, region, a1, h, hreg, g1.noMarker, h, fun _ _ => rfl⟩
    exact ((round_step hE hg hpm stdin g1 ⟨b1, region, a1, h, hreg, g1.noMarker, hpl⟩ hed).2.2 doc1 _ _ hd1 ho1 (trimmedRight_iff.mpr rfl)).1
  have hok : (cliMain E a s stdin).code ≠ 1 := fun h => by
    obtain ⟨f, hf, h1⟩ := (C107_separate hin hne hnd hstd s stdin).1.mp h
    exact hone f hf h1
  refine ⟨hok, ?_⟩
  -- the checks of the single files
  have hchk : ∀ f ∈ a.filenames, (cliMain E (CliArgs.one { c with diff := true, inPlace := i } f) s2 stdin').code = if out1 f = out2 f then 0 else 128 := by
    intro f hf
    obtain ⟨b1, a1, b2, a2, region, doc1, doc2, g1, g2, h, hreg, hpl, hd1, hd2, ho1, ho2, b', region', a', t1, t2, t3, t4⟩ := hfiles f hf
    have hsame : filesAfter E a stdin s f = filesAfter E (CliArgs.one a f) stdin s f := by
      rw [C107_each hin hne hnd hstd s stdin hok f, if_pos hf]
    let s3 : FS := fun g => if g = f then s2 f else filesAfter E (CliArgs.one a f) stdin s g
    have hs3 : s3 f = s2 f := by simp [s3]
    rw [← code_local (s := s2) (s' := s3) { c with diff := true, inPlace := i } (hstd' f hf) stdin' hs3]
    obtain ⟨x1, x2, x3, x4⟩ := t1
    obtain ⟨y1, y2, y3, y4⟩ := t4
    exact C106_check hE hg hpm stdin stdin' g1 g2 h hreg hpl hd1 hd2 ho1 ho2
      ⟨b', region', a', ⟨x1, x2, by rw [← hsame]; exact x3, x4⟩, t2, t3, ⟨y1, y2, by rw [hs3]; exact y3, y4⟩, fun g hg' => by simp [s3, hg']⟩ i
  -- the check of all files
  have hne2 : ({ c with diff := true, inPlace := i } : CliArgs).filenames ≠ [] := by simpa [hnames] using hne
  have hnd2 : ({ c with diff := true, inPlace := i } : CliArgs).filenames.Nodup := by simpa [hnames] using hnd
  have hstd2 : "-".toList ∉ ({ c with diff := true, inPlace := i } : CliArgs).filenames := by simpa [hnames] using hstd
  have key : ((cliMain E { c with diff := true, inPlace := i } s2 stdin').code = 1 ↔
        ∃ f ∈ a.filenames, (cliMain E (CliArgs.one { c with diff := true, inPlace := i } f) s2 stdin').code = 1) ∧
      ((cliMain E { c with diff := true, inPlace := i } s2 stdin').code = 128 ↔
        (∀ f ∈ a.filenames, (cliMain E (CliArgs.one { c with diff := true, inPlace := i } f) s2 stdin').code ≠ 1) ∧
        ∃ f ∈ a.filenames, (cliMain E (CliArgs.one { c with diff := true, inPlace := i } f) s2 stdin').code = 128) := by
    rw [← hnames]
    cases i with
    | true =>
      have := C107_separate (E := E) (a := { c with diff := true, inPlace := true }) rfl hne2 hnd2 hstd2 s2 stdin'
      exact ⟨this.1, this.2.1⟩
    | false =>
      have := C107_print (E := E) (a := { c with diff := true, inPlace := false }) rfl hne2 hstd2 s2 stdin'
      exact ⟨this.1, this.2.1⟩
  have hno1 : ∀ f ∈ a.filenames, (cliMain E (CliArgs.one { c with diff := true, inPlace := i } f) s2 stdin').code ≠ 1 := by
    intro f hf
    rw [hchk f hf]
    split <;> simp
  have h1 : (cliMain E { c with diff := true, inPlace := i } s2 stdin').code ≠ 1 := fun h => by
    obtain ⟨f, hf, h⟩ := key.1.mp h
    exact hno1 f hf h
  split
  · rename_i hall
    rcases C46_codes E { c with diff := true, inPlace := i } s2 stdin' with h | h | h
    · exact h
    · exact absurd h h1
    · obtain ⟨-, f, hf, h⟩ := key.2.mp h
      rw [hchk f hf, if_pos (hall f hf)] at h
      simp at h
  · rename_i hall
    refine key.2.mpr ⟨hno1, ?_⟩
    by_contra hc
    refine hall fun f hf => ?_
    by_contra hd
    exact hc ⟨f, hf, by rw [hchk f hf, if_neg hd]⟩

namespace ProjectCase

/-! Two files, the update, and the files after an edit: a line is added to the first one, and the heading of the second one is `h`. -/

def fa : Str := "a.md".toList
def fb : Str := "b.md".toList
def mk : Str := "<!--TOC-->".toList
def aa : CliArgs := { filenames := [fa, fb], inPlace := true }
def text (h : Char) : Str := "<!--TOC-->\n# ".toList ++ [h, '\n']
def text2 (h h' : Char) (x : String) : Str := "<!--TOC-->\n\n- [".toList ++ [h] ++ "](#".toList ++ [h] ++ ")\n\n<!--TOC-->\n".toList ++ x.toList ++ "# ".toList ++ [h', '\n']
def sa : FS := fun g => if g = fa then some ⟨text 'a', false⟩ else if g = fb then some ⟨text 'b', false⟩ else none
def sb (h : Char) : FS := fun g => if g = fa then some ⟨text2 'a' 'a' "x\n", false⟩ else if g = fb then some ⟨text2 'b' h "", false⟩ else none
def table (h : Char) : List Str := ["<!--TOC-->\n".toList, "\n".toList, "- [".toList ++ [h] ++ "](#".toList ++ [h] ++ ")\n".toList, "\n".toList, "<!--TOC-->\n".toList]

theorem good (f : Str) (ls : List Str) (hx : ∀ l ∈ ls, ¬ IsMarker mk l) : Round.Good f mk ⟨[], ls, CliArgs.one aa f⟩ :=
  ⟨rfl, rfl, rfl, ⟨.inl (show aa.options.parser ≠ .redcarpet by decide), rfl, rfl⟩, (show 1 ≤ aa.headerLevels by decide), (show aa.skipLines.toNat ≤ 0 by decide), fun _ => .nil, by simpa using hx⟩

theorem fileA (h : Char) : CheckedFile asciiEnv mk aa aa sa (filesAfter asciiEnv aa none sa) (sb h) fa "- [a](#a)\n".toList "- [a](#a)\n".toList := by
  refine ⟨[], ["# a\n".toList], [], ["x\n".toList, "# a\n".toList], ["<!--TOC-->\n".toList], "# a\n".toList, "x\n# a\n".toList, good _ _ ?_, good _ _ ?_,
    ⟨by decide, text 'a', by simp [sa], (reads_iff (bad := false)).mpr (by decide +kernel)⟩, .inl ⟨_, rfl, isMarker_iff.mpr (by decide +kernel)⟩,
    fun p l hl => by simp at hl; subst hl; exact default_plain p, (reads_iff (bad := false)).mpr (by decide +kernel), (reads_iff (bad := false)).mpr (by decide +kernel),
    by decide +kernel, by decide +kernel, [], table 'a', ["# a\n".toList], ⟨by decide, text2 'a' 'a' "", by decide +kernel, (reads_iff (bad := false)).mpr (by decide +kernel)⟩, ?_, ?_,
    ⟨by decide, text2 'a' 'a' "x\n", by simp [sb], (reads_iff (bad := false)).mpr (by decide +kernel)⟩⟩
  · simp only [isMarker_iff]; decide +kernel
  · simp only [isMarker_iff]; decide +kernel
  · refine .inr ⟨_, ["\n".toList, "- [a](#a)\n".toList, "\n".toList], _, rfl, isMarker_iff.mpr (by decide +kernel), isMarker_iff.mpr (by decide +kernel), ?_,
      .inr ⟨0, ['-'], "[a](#a)".toList, by omega, by decide +kernel, .inl rfl, by simp [IsBlank]⟩⟩
    simp only [isMarker_iff]; decide +kernel
  · simp only [isMarker_iff]; decide +kernel

theorem fileB (h : Char) (hh : h = 'b' ∨ h = 'c') :
    CheckedFile asciiEnv mk aa aa sa (filesAfter asciiEnv aa none sa) (sb h) fb "- [b](#b)\n".toList ("- [".toList ++ [h] ++ "](#".toList ++ [h] ++ ")\n".toList) := by
  refine ⟨[], ["# b\n".toList], [], ["# ".toList ++ [h, '\n']], ["<!--TOC-->\n".toList], "# b\n".toList, "# ".toList ++ [h, '\n'], good _ _ ?_, good _ _ ?_,
    ⟨by decide, text 'b', by decide +kernel, (reads_iff (bad := false)).mpr (by decide +kernel)⟩, .inl ⟨_, rfl, isMarker_iff.mpr (by decide +kernel)⟩,
    fun p l hl => by simp at hl; subst hl; exact default_plain p, (reads_iff (bad := false)).mpr (by decide +kernel), (reads_iff (bad := false)).mpr (by rcases hh with rfl | rfl <;> decide +kernel),
    by decide +kernel, by rcases hh with rfl | rfl <;> decide +kernel, [], table 'b', ["# b\n".toList],
    ⟨by decide, text2 'b' 'b' "", by decide +kernel, (reads_iff (bad := false)).mpr (by decide +kernel)⟩, ?_, ?_,
    ⟨by decide, text2 'b' h "", by rcases hh with rfl | rfl <;> decide +kernel, (reads_iff (bad := false)).mpr (by rcases hh with rfl | rfl <;> decide +kernel)⟩⟩
  · simp only [isMarker_iff]; decide +kernel
  · rcases hh with rfl | rfl <;> (simp only [isMarker_iff]; decide +kernel)
  · refine .inr ⟨_, ["\n".toList, "- [b](#b)\n".toList, "\n".toList], _, rfl, isMarker_iff.mpr (by decide +kernel), isMarker_iff.mpr (by decide +kernel), ?_,
      .inr ⟨0, ['-'], "[b](#b)".toList, by omega, by decide +kernel, .inl rfl, by simp [IsBlank]⟩⟩
    simp only [isMarker_iff]; decide +kernel
  · simp only [isMarker_iff]; decide +kernel

/-- The heading of the second file is left as it is or renamed: the hypotheses are met, and both exit codes occur. -/
example : (cliMain asciiEnv { aa with diff := true, inPlace := false } (sb 'b') none).code = 0 ∧ (cliMain asciiEnv { aa with diff := true, inPlace := false } (sb 'c') none).code = 128 := by
  have h : ∀ h : Char, h = 'b' ∨ h = 'c' → _ := fun h hh =>
    (C108_check_files (a := aa) (c := aa) asciiEnv_lawful ⟨default_good, default_notItem⟩ (fun p => default_plain p) none none (s := sa) (s2 := sb h) rfl (by decide) (by decide) rfl
      (fun f => if f = fa then "- [a](#a)\n".toList else "- [b](#b)\n".toList)
      (fun f => if f = fa then "- [a](#a)\n".toList else "- [".toList ++ [h] ++ "](#".toList ++ [h] ++ ")\n".toList) (by
        intro f hf
        have hf' : f = fa ∨ f = fb := by simpa [aa] using hf
        rcases hf' with rfl | rfl
        · exact fileA h
        · exact fileB h hh) false).2
  exact ⟨(h 'b' (.inl rfl)).trans (by decide), (h 'c' (.inr rfl)).trans (by decide)⟩

end ProjectCase

end MdToc.Props
