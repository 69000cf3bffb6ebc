import Verif.Props.Join
import Verif.Props.Blocks
import Verif.Props.Args
import Verif.Props.Concurrent
import Verif.Props.Stable

/-!
# Concrete cases

Theorems applied to concrete inputs, for those which have no such case in their own file.
-/

set_option linter.unusedSimpArgs false

namespace MdToc.Props

open MdToc.Spec

/-! ### C12 -/

theorem body_of {b : Str} (h : ∀ c ∈ b, ¬ IsNewline c) : Body (b ++ ['\n']) b := body_line h

/-- **C12**: a label with two brackets, four characters without them, and the same without links. -/
example : getAtxHeading "# a [b\n".toList 3 .github false = .ok [⟨some 1, some "a \\[b".toList, true⟩] ∧
    0 < "a \\[b".toList.length ∧ "a \\[b".toList.length ≤ 1998 ∧
      ∃ text', getAtxHeading "# a [b\n".toList 3 .github true = .ok [⟨some 1, some text', true⟩] ∧ 0 < text'.length ∧ text'.length ≤ 999 := by
  have h : getAtxHeading "# a [b\n".toList 3 .github false = .ok [⟨some 1, some "a \\[b".toList, true⟩] := by decide +kernel
  exact ⟨h, C12_label_length (p := .github) rfl (line := "# a [b\n".toList) (body := "# a [b".toList)
    (by have := body_of (b := "# a [b".toList) (by unfold IsNewline; decide); exact this) (by decide) h⟩

/-- **C12**: a label of 1000 characters is too long, one of 998 is not. -/
example : (getAtxHeading ("# ".toList ++ List.replicate 1000 'a' ++ ['\n']) 3 .cmark false = .error .GithubOverflowCharsLinkLabel ∨
      getAtxHeading ("# ".toList ++ List.replicate 1000 'a' ++ ['\n']) 3 .cmark false = .error .GithubEmptyLinkLabel) ∧
    getAtxHeading ("# ".toList ++ List.replicate 998 'a' ++ ['\n']) 3 .cmark false ≠ .error .GithubOverflowCharsLinkLabel := by
  have hb : ∀ k, Body ("# ".toList ++ List.replicate k 'a' ++ ['\n']) ("# ".toList ++ List.replicate k 'a') := by
    intro k
    refine body_of ?_
    intro c hc
    rcases List.mem_append.mp hc with hc | hc
    · have : ∀ c ∈ "# ".toList, ¬ IsNewline c := by unfold IsNewline; decide
      exact this c hc
    · rw [List.eq_of_mem_replicate hc]; unfold IsNewline; decide
  have h1 : getAtxHeading ("# ".toList ++ List.replicate 1000 'a' ++ ['\n']) 3 .cmark true = .ok [⟨some 1, some (List.replicate 1000 'a'), true⟩] := by decide +kernel
  have h2 : getAtxHeading ("# ".toList ++ List.replicate 998 'a' ++ ['\n']) 3 .cmark true = .ok [⟨some 1, some (List.replicate 998 'a'), true⟩] := by decide +kernel
  exact ⟨C12_overflow (p := .cmark) rfl (hb 1000) (List.append_ne_nil_of_right_ne_nil _ (List.cons_ne_nil _ _)) h1 (by rw [List.length_replicate]; omega),
    C12_no_overflow (p := .cmark) rfl (hb 998) (List.append_ne_nil_of_right_ne_nil _ (List.cons_ne_nil _ _)) h2 (Nat.le_of_eq List.length_replicate)⟩

/-! ### C57 -/

/-- **C57**: each exception that the theorem names and a document that raises it, except for the overflow of the numbers (C33_reached). -/
example : buildToc asciiEnv { skipLines := -1 } "a.md".toList (some ⟨"# a\n".toList, false⟩) = .error .ValueError ∧
    buildToc asciiEnv {} "a.md".toList none = .error .FileNotFoundError ∧
    buildToc asciiEnv { skipLines := 2 } "a.md".toList (some ⟨"# a\n".toList, true⟩) = .error .UnicodeDecodeError ∧
    buildToc asciiEnv { keep := 0 } "a.md".toList (some ⟨"# a\n".toList, false⟩) = .error .ValueError ∧
    buildToc asciiEnv { listMarker := ['x'] } "a.md".toList (some ⟨"# a\n".toList, false⟩) = .error .ValueError ∧
    buildToc asciiEnv {} "a.md".toList (some ⟨"# a\n#\n".toList, false⟩) = .error .GithubEmptyLinkLabel ∧
    buildToc asciiEnv {} "a.md".toList (some ⟨"# a\n### b\n".toList, false⟩) = .error .TocDoesNotRenderAsCoherentList := by decide +kernel

/-- **C57**: writing, each exception. -/
example : writeString asciiEnv (fun _ => none) "-".toList "- a\n".toList "m".toList "\n".toList = .error .StdinIsNotAFileToBeWritten ∧
    writeString asciiEnv (fun _ => none) "a".toList "- a\n".toList "m".toList "\n".toList = .error .FileNotFoundError ∧
    writeString asciiEnv (fun _ => some ⟨"m\n".toList, true⟩) "a".toList "- a\n".toList "m".toList "\n".toList = .error .UnicodeDecodeError := by decide +kernel

/-- **C57**: the name of the file. -/
example : buildToc asciiEnv {} "a.md".toList (some ⟨"# a\n```\n# b".toList, false⟩) = buildToc asciiEnv {} "b.md".toList (some ⟨"# a\n```\n# b".toList, false⟩) :=
  C57_name asciiEnv {} (by decide) _

/-! ### C22, C69, C68 -/

/-- **C22**: a document with a code block and a heading with a form feed. -/
example : ∃ es : List Entry, (∀ e ∈ es, ∀ c ∈ Entry.line false false ['-'] [] e, ¬ IsNewline c) ∧
    "- [a\x0cb](#ab)\n  - [c](#c)\n".toList.count '\n' = es.length := by
  have h : buildToc asciiEnv {} "a.md".toList (some ⟨"# a\x0cb\n~~~\n# x\n~~~\n## c\n".toList, false⟩) = .ok "- [a\x0cb](#ab)\n  - [c](#c)\n".toList := by decide +kernel
  obtain ⟨vs, hv⟩ := looks_exists {} "a.md".toList "# a\x0cb\n~~~\n# x\n~~~\n## c\n".toList
  obtain ⟨es, -, h1, h2⟩ := C22_one_line_each asciiEnv_lawful h hv
  exact ⟨es, h1, h2 rfl⟩

/-! ### C45, C46, C62 -/

/-- The lines of a file with one marker. -/
theorem cut_one : Cut asciiEnv.isDigit "<!--TOC-->".toList ["<!--TOC-->\n".toList, "# a\n".toList] [] ["<!--TOC-->\n".toList] ["# a\n".toList] := by
  refine .inl ⟨_, ⟨rfl, isMarker_iff.mpr (by decide +kernel), ?_, ?_⟩, rfl⟩ <;>
  · simp only [isMarker_iff]; decide +kernel

/-- **C45**: the program run twice on this file. -/
example : ∃ fs', (cliMain asciiEnv { parser := .github, filenames := ["a.md".toList], inPlace := true } (fun _ => some ⟨"<!--TOC-->\n# a\n".toList, false⟩) none).trace.getLast? = some fs' ∧
    (cliMain asciiEnv { parser := .github, filenames := ["a.md".toList], inPlace := true } fs' none).code ≠ 1 ∧
      ∀ fs'', (cliMain asciiEnv { parser := .github, filenames := ["a.md".toList], inPlace := true } fs' none).trace.getLast? = some fs'' → fs'' = fs' := by
  refine C45_run_twice (E := asciiEnv) asciiEnv_lawful rfl rfl (.inl (by decide)) rfl (by decide) (.inl rfl) (ls := ["<!--TOC-->\n".toList, "# a\n".toList])
    ⟨by decide, _, rfl, (reads_iff (bad := false)).mpr (by decide +kernel)⟩ ⟨by unfold IsNewline; decide, '<', by decide, by decide⟩ default_notItem cut_one (.inl rfl)
    ⟨by decide, fun _ => .nil, ?_, default_plain _⟩ none (by decide +kernel)
  intro l hl
  simp only [List.mem_singleton] at hl
  subst hl
  exact default_plain _

/-- **C46**: the codes of four runs with `--diff`: equal tables, different tables, an exception, a file that cannot be read. -/
example : (cliMain asciiEnv { parser := .github, filenames := ["a".toList], diff := true } (fun _ => some ⟨"<!--TOC-->\n\n- [a](#a)\n\n<!--TOC-->\n# a\n".toList, false⟩) none).code = 0 ∧
    (cliMain asciiEnv { parser := .github, filenames := ["a".toList], diff := true } (fun _ => some ⟨"<!--TOC-->\n\n- [b](#b)\n\n<!--TOC-->\n# a\n".toList, false⟩) none).code = 128 ∧
    (cliMain asciiEnv { parser := .github, filenames := ["a".toList], diff := true } (fun _ => some ⟨"# a\n#\n".toList, false⟩) none).code = 1 ∧
    (cliMain asciiEnv { parser := .github, filenames := ["a".toList], diff := true } (fun _ => none) none).code = 1 := by decide +kernel

/-- A heading of one letter. -/
theorem heading_letter {x : Char} (hx : x ∈ ['a', 'b', 'c']) : Heading .github true ['#', ' ', x, '\n'] 1 [x] := by
  have hnl : ∀ c ∈ ['#', ' ', x], ¬ IsNewline c := by
    unfold IsNewline
    simp only [List.mem_cons, List.not_mem_nil, or_false] at hx
    rcases hx with rfl | rfl | rfl <;> decide
  have hatx : IsAtx .github ['#', ' ', x] 1 [' ', x] := by
    refine ⟨0, by decide, by decide, by decide, rfl, by intro c hc; injection hc with hc; subst hc; rfl⟩
  obtain ⟨c, h1, h2⟩ := atxCmark_heading (p := .github) rfl hatx hnl
  have h3 := h2 3 true true
  have h4 : atxCmark .github 3 true true ['#', ' ', x] = .ok (⟨some 1, some [x], true⟩, true) := by
    simp only [List.mem_cons, List.not_mem_nil, or_false] at hx
    rcases hx with rfl | rfl | rfl <;> decide +kernel
  rw [h4] at h3
  have hc : c = [x] := by
    simp only [if_true, Except.map, Except.ok.injEq, Prod.mk.injEq, AtxElem.mk.injEq, Option.some.injEq] at h3
    exact h3.1.2.1.symm
  subst hc
  refine ⟨_, [' ', x], [x], (by simpa using body_line hnl), ?_⟩
  rw [if_neg (by decide)]
  exact ⟨hatx, h1, rfl⟩

/-- **C69**: a file that ends with a heading in an open code block has another table than the same text on the standard input. -/
example : buildToc asciiEnv {} "a.md".toList (some ⟨"```\n# a\n".toList, false⟩) ≠ buildToc asciiEnv {} "-".toList (some ⟨"```\n# a\n".toList, false⟩) := by
  have ho : OpensWith "```\n".toList '`' 3 := ⟨0, ['\n'], by omega, by omega, .inl rfl, rfl, by simp, by simp⟩
  have hc : ∀ m ∈ ["# a\n".toList], ¬ ClosesWith .github m '`' 3 := by
    intro m hm
    simp only [List.mem_singleton] at hm
    subst hm
    rintro ⟨k, j, rest, h1, h2, h3, -⟩
    have h4 : ∀ y ∈ (['#', ' ', 'a', '\n'] : Str).head?, y ≠ '#' := by
      have h3 : (['#', ' ', 'a', '\n'] : Str) = List.replicate k ' ' ++ List.replicate j '`' ++ rest := h3
      rw [h3]
      obtain ⟨j, rfl⟩ : ∃ j', j = j' + 1 := ⟨j - 1, by omega⟩
      cases k <;> simp [List.replicate_succ]
    exact h4 '#' (by decide) rfl
  have hr : Reads "```\n# a\n".toList ["```\n".toList, "# a\n".toList] := (reads_iff (bad := false)).mpr (by decide +kernel)
  have hv : Looks {} "-".toList "```\n# a\n".toList [] :=
    ⟨_, hr, by unfold SeenLines; rw [if_neg (by decide)]; exact .unclosed ho hc (fun h => absurd h (by decide))⟩
  refine (C69_exact (E := asciiEnv) (o := {}) (by decide) (by decide) (by decide) (by decide) hr hv .nil).mpr ⟨⟨[], by decide +kernel⟩, "# a\n".toList, 1, ['a'], ?_, heading_letter (by decide), .inl rfl⟩
  exact ⟨[], "```\n".toList, [], '`', 3, rfl, .nil, ho, hc⟩

/-- **C62**: a command line for one file, in place, with two options. -/
example : ∃ (es : List Entry) (core : Str) (fs' : FS),
    (program asciiEnv { parser := "github".toList, filenames := ["a.md".toList], inPlace := true, newline := some "\\r\\n".toList, noLinks := true } (fun _ => some ⟨"<!--TOC-->\n# a\n".toList, false⟩) none).trace.getLast? =
      some fs' ∧
    fs' "a.md".toList = some ⟨block core "<!--TOC-->".toList "\r\n".toList ++ "# a\n".toList, false⟩ ∧ es.map (fun e => (e.level, e.text)) = [(1, ['a'])] := by
  have hvc : ValidCommand { parser := "github".toList, filenames := ["a.md".toList], inPlace := true, newline := some "\\r\\n".toList, noLinks := true } :=
    { parser := ⟨.github, by simp [parserNames]⟩
      bullet := by simp
      delimiter := by simp
      levels := by simp
      newline := by intro s hs; simp at hs; subst hs; decide
      lists := by simp
      indent := by simp }
  have hseen : SeenLines .github true ["<!--TOC-->\n".toList, "# a\n".toList] ["<!--TOC-->\n".toList, "# a\n".toList] := by
    unfold SeenLines
    rw [if_neg (by decide)]
    exact .line ((isOpening_none_iff (p := .github) rfl _).mp (by decide +kernel)) (.line ((isOpening_none_iff (p := .github) rfl _).mp (by decide +kernel)) .nil)
  have hh : Headings .github true ["<!--TOC-->\n".toList, "# a\n".toList] [(1, ['a'])] := by
    refine .other ?_ (.heading (heading_letter (by decide)) .nil)
    exact (default_plain .github).2
  obtain ⟨es, core, fs', -, h1, h2, -, -, h3⟩ := C62_region_partial (E := asciiEnv) (p := .github) hvc (by simp [parserNames]) rfl (f := "a.md".toList) rfl
    (fs := fun _ => some ⟨"<!--TOC-->\n# a\n".toList, false⟩) (ls := ["<!--TOC-->\n".toList, "# a\n".toList]) ⟨by decide, _, rfl, (reads_iff (bad := false)).mpr (by decide +kernel)⟩
    (stdin := none) (by decide +kernel) cut_one hseen hh
  refine ⟨es, core, fs', h1, ?_, ?_⟩
  · simpa [commandNewline] using h2
  · rw [h3]; decide

/-! ### C82, C88 -/

/-- **C82**: two processes and a file without their marker: it stays as it is, in every schedule. -/
example (sched : List Nat) : (runAll asciiEnv sched (fun _ => some ⟨"a\nm m\n".toList, false⟩) (fun _ => ⟨"m".toList, "\n".toList, [("f".toList, "- b\n".toList)], true, .start, none⟩)).1 =
    fun _ => some ⟨"a\nm m\n".toList, false⟩ := by
  refine C82_no_marker asciiEnv sched _ _ (fun _ => trivial) ?_
  intro i f _ src hs l hl
  injection hs with hs
  subst hs
  have : ∀ l ∈ (⟨"a\nm m\n".toList, false⟩ : Source).lines, ¬ IsMarker "m".toList l := by
    simp only [isMarker_iff]
    decide +kernel
  exact this l hl

end MdToc.Props
