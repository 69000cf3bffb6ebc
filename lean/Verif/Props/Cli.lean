import Verif.Props.WriteToc
import Verif.Cli

/-!
# Properties of the command line (C46, C47)
-/

set_option linter.unusedSimpArgs false

namespace MdToc.Props

open MdToc.Spec

/-- The names of the files of a run: no name is the standard input. -/
def namesOf (a : CliArgs) : List Str := if a.filenames = [] then ["-".toList] else a.filenames

theorem defaultNames_eq (a : CliArgs) : defaultNames a.filenames = namesOf a := by
  unfold defaultNames namesOf
  cases a.filenames <;> simp [stdinName]

/-! ### C46 -/

theorem printLoop_diff (E : Env) (fs : FS) (marker : Str) (ps : List (Str × Str)) : ∀ eq : Bool,
    ((∃ e, (printLoop E fs true marker ps eq).1 = .error e) ↔ ∃ p ∈ ps, ∃ e, tocsEqual E p.2 (fs p.1) marker = .error e) ∧
    ∀ b, (printLoop E fs true marker ps eq).1 = .ok b →
      (b = false ↔ eq = false ∨ ∃ p ∈ ps, tocsEqual E p.2 (fs p.1) marker = .ok false) ∧ (printLoop E fs true marker ps eq).2 = (ps.map Prod.snd).flatten := by
  induction ps with
  | nil =>
    intro eq
    simp [printLoop]
  | cons p ps ih =>
    obtain ⟨f, toc⟩ := p
    intro eq
    unfold printLoop
    simp only [if_true]
    cases h : tocsEqual E toc (fs f) marker with
    | error e => simp [h]
    | ok b =>
      obtain ⟨i1, i2⟩ := ih (eq && b)
      simp only [List.mem_cons, exists_eq_or_imp, h, i1]
      refine ⟨by simp, ?_⟩
      intro b' hb'
      obtain ⟨j1, j2⟩ := i2 b' hb'
      refine ⟨?_, by simp [j2]⟩
      rw [j1]
      cases eq <;> cases b <;> simp

theorem printLoop_plain (E : Env) (fs : FS) (marker : Str) (ps : List (Str × Str)) : ∀ eq : Bool,
    printLoop E fs false marker ps eq = (.ok eq, (ps.map Prod.snd).flatten) := by
  induction ps with
  | nil => intro eq; rfl
  | cons p ps ih =>
    intro eq
    obtain ⟨f, toc⟩ := p
    simp [printLoop, ih]

theorem buildTocs_length {E : Env} {o : Options} {fs : FS} {names : List Str} {stdin : Stdin} {tocs : List Str}
    (h : buildTocs E o fs names stdin = .ok tocs) : tocs.length = names.length := by
  induction names generalizing stdin tocs with
  | nil => simp [buildTocs] at h; simp [← h]
  | cons f t ih =>
    unfold buildTocs at h
    by_cases hf : f = stdinName
    · rw [if_pos hf] at h
      by_cases hs : ¬ o.skipLines ≥ 0
      · rw [if_pos hs] at h; simp at h
      · rw [if_neg hs] at h
        cases stdin with
        | none => simp at h
        | some src =>
          simp only [bind, Except.bind] at h
          cases ha : buildToc E o f (some src) with
          | error e => rw [ha] at h; simp at h
          | ok a =>
            rw [ha] at h
            simp only at h
            cases hb : buildTocs E o fs t none with
            | error e => rw [hb] at h; simp at h
            | ok r =>
              rw [hb] at h
              simp only at h
              injection h with h
              simp [← h, ih hb]
    · rw [if_neg hf] at h
      simp only [bind, Except.bind] at h
      cases ha : buildToc E o f (fs f) with
      | error e => rw [ha] at h; simp at h
      | ok a =>
        rw [ha] at h
        simp only at h
        cases hb : buildTocs E o fs t stdin with
        | error e => rw [hb] at h; simp at h
        | ok r =>
          rw [hb] at h
          simp only at h
          injection h with h
          simp [← h, ih hb]

theorem tocs_length {E : Env} {a : CliArgs} {fs : FS} {stdin : Stdin} {tocs : List Str}
    (h : buildMultipleTocs E a.options fs stdin a.filenames = .ok tocs) : (namesOf a).length = tocs.length := by
  unfold buildMultipleTocs at h
  rw [defaultNames_eq] at h
  exact (buildTocs_length h).symm

theorem zip_snd {names tocs : List Str} (h : names.length = tocs.length) : ((names.zip tocs).map Prod.snd) = tocs := by
  rw [List.map_snd_zip (by omega)]

/-- **C46**: the exit code is 0, 1 or 128. -/
theorem C46_codes (E : Env) (a : CliArgs) (fs : FS) (stdin : Stdin) :
    (cliMain E a fs stdin).code = 0 ∨ (cliMain E a fs stdin).code = 1 ∨ (cliMain E a fs stdin).code = 128 := by
  unfold cliMain
  split
  · exact .inr (.inl rfl)
  · rename_i d _ _ _
    cases d <;> simp

/-- **C46**: when a table of contents cannot be built the exit code is 1 and nothing is printed or written. -/
theorem C46_build_fails {E : Env} {a : CliArgs} {fs : FS} {stdin : Stdin} {e : Exn} (h : buildMultipleTocs E a.options fs stdin a.filenames = .error e) :
    cliMain E a fs stdin = ⟨1, [], []⟩ := by
  unfold cliMain writeToc
  simp only [h]

/-- **C46**, the tables of contents are printed: the exit code is 1 exactly if a comparison fails, 128 exactly if all comparisons succeed and at least one table of contents
differs from the one in the file. -/
theorem C46_print {E : Env} {a : CliArgs} {fs : FS} {stdin : Stdin} {tocs : List Str} (hi : a.inPlace = false)
    (h : buildMultipleTocs E a.options fs stdin a.filenames = .ok tocs) :
    ((cliMain E a fs stdin).code = 1 ↔ a.diff = true ∧ ∃ p ∈ (namesOf a).zip tocs, ∃ e, tocsEqual E p.2 (fs p.1) a.tocMarker = .error e) ∧
    ((cliMain E a fs stdin).code = 128 ↔ a.diff = true ∧ (∀ p ∈ (namesOf a).zip tocs, ∃ b, tocsEqual E p.2 (fs p.1) a.tocMarker = .ok b) ∧
      ∃ p ∈ (namesOf a).zip tocs, tocsEqual E p.2 (fs p.1) a.tocMarker = .ok false) ∧
    ((cliMain E a fs stdin).code ≠ 1 → (cliMain E a fs stdin).out = tocs.flatten) ∧ (cliMain E a fs stdin).trace = [] := by
  unfold cliMain writeToc
  simp only [h, hi, Bool.false_eq_true, if_false, defaultNames_eq]
  have hz := zip_snd (tocs_length h)
  cases hd : a.diff
  · rw [printLoop_plain, hz]
    simp
  · obtain ⟨h1, h2⟩ := printLoop_diff E fs a.tocMarker ((namesOf a).zip tocs) true
    cases hp : printLoop E fs true a.tocMarker ((namesOf a).zip tocs) true with
    | mk r out =>
      rw [hp] at h1 h2
      have hall : (∀ p ∈ (namesOf a).zip tocs, ∃ b, tocsEqual E p.2 (fs p.1) a.tocMarker = .ok b) ↔
          ¬ ∃ p ∈ (namesOf a).zip tocs, ∃ e, tocsEqual E p.2 (fs p.1) a.tocMarker = .error e := by
        constructor
        · rintro h ⟨p, hp, e, he⟩
          obtain ⟨b, hb⟩ := h p hp
          rw [hb] at he; simp at he
        · intro h p hp
          cases hv : tocsEqual E p.2 (fs p.1) a.tocMarker with
          | error e => exact absurd ⟨p, hp, e, hv⟩ h
          | ok b => exact ⟨b, rfl⟩
      rw [hall, ← h1]
      cases r with
      | error e => simp
      | ok b =>
        obtain ⟨j1, j2⟩ := h2 b rfl
        simp only at j2
        rw [hz] at j2
        cases b
        · simp only [true_iff, Bool.true_eq_false, false_or] at j1
          simp [j1, j2]
        · simp only [Bool.true_eq_false, false_iff, false_or] at j1
          simp [j2]
          simpa using j1

/-- **C46**, in place: the exit code is 1 exactly if the writing fails, 128 exactly if it succeeds with `False` and the differences are asked for; nothing is printed. -/
theorem C46_in_place {E : Env} {a : CliArgs} {fs : FS} {stdin : Stdin} {tocs : List Str} (hi : a.inPlace = true)
    (h : buildMultipleTocs E a.options fs stdin a.filenames = .ok tocs) :
    ∃ r, Writes E a.tocMarker a.options.newline fs ((namesOf a).zip tocs) (cliMain E a fs stdin).trace r ∧
      (cliMain E a fs stdin).code = (match r with | .error _ => 1 | .ok b => if a.diff = true ∧ b = false then 128 else 0) ∧
      (cliMain E a fs stdin).out = [] := by
  obtain ⟨tr, r, h1, h2⟩ := C42_sequence E fs (tocs_length h) a.tocMarker a.options.newline
  have hc : cliNewline a.newline = a.options.newline := rfl
  unfold cliMain writeToc
  simp only [h, hi, if_true, defaultNames_eq, hc, h1]
  cases r with
  | error e => exact ⟨_, h2, rfl, rfl⟩
  | ok b =>
    refine ⟨_, h2, ?_, rfl⟩
    cases b <;> cases hd : a.diff <;> rfl

theorem lastFS_other {fs : FS} {f g : Str} (h : g ≠ f) (tr : List Str) : lastFS fs f tr g = fs g := by
  unfold lastFS
  cases tr.getLast? with
  | none => rfl
  | some t => simp [FS.write, h]

theorem writeString_flag {E : Env} {fs : FS} {f string marker nl : Str} {b : Bool} {tr : List Str} (h : writeString E fs f string marker nl = .ok (b, tr)) :
    tocsEqual E string (fs f) marker = .ok b := by
  have : ∃ ls, HasLines fs f ls := by
    unfold writeString at h
    by_cases hf : f = stdinName
    · rw [if_pos hf] at h; simp at h
    · rw [if_neg hf] at h
      cases hs : fs f with
      | none => rw [hs] at h; simp at h
      | some src =>
        rw [hs] at h
        simp only at h
        by_cases hb : src.bad
        · rw [if_pos hb] at h; simp at h
        · obtain ⟨ls, hr⟩ := reads_exists src.text
          refine ⟨ls, hf, src.text, ?_, hr⟩
          rw [hs]
          cases src
          simp at hb
          subst hb
          rfl
  obtain ⟨ls, hf⟩ := this
  rw [← C40_flag E hf string marker nl, h]
  rfl

/-- The result of writing different files: whether all the tables of contents were already there. -/
theorem writes_result {E : Env} {marker nl : Str} {fs : FS} {ps : List (Str × Str)} {tr : List FS} {r : Except Exn Bool}
    (h : Writes E marker nl fs ps tr r) (hd : (ps.map Prod.fst).Nodup) {b : Bool} (hb : r = .ok b) :
    (b = true ↔ ∀ p ∈ ps, tocsEqual E p.2 (fs p.1) marker = .ok true) ∧
      ∀ p ∈ ps, ∃ x, tocsEqual E p.2 (fs p.1) marker = .ok x := by
  induction h generalizing b with
  | nil => simp at hb; simp [hb]
  | failed => simp at hb
  | @ok fs f s rest b0 contents tr r hw hr ih =>
    simp only [List.map_cons, List.nodup_cons] at hd
    cases r with
    | error e => simp [Except.map] at hb
    | ok x =>
      simp only [Except.map] at hb
      injection hb with hb
      obtain ⟨i1, i2⟩ := ih hd.2 rfl
      have hfl := writeString_flag hw
      have hsame : ∀ p ∈ rest, lastFS fs f contents p.1 = fs p.1 := by
        intro p hp
        refine lastFS_other ?_ _
        rintro he
        exact hd.1 (he ▸ List.mem_map.mpr ⟨p, hp, rfl⟩)
      constructor
      · rw [← hb, Bool.and_eq_true, i1]
        constructor
        · rintro ⟨h1, h2⟩ p hp
          rcases List.mem_cons.mp hp with rfl | hp
          · simp [hfl, h1]
          · rw [← hsame p hp]; exact h2 p hp
        · intro h
          refine ⟨?_, fun p hp => by rw [hsame p hp]; exact h p (by simp [hp])⟩
          have := h (f, s) (by simp)
          simp only at this
          rw [hfl] at this
          simpa using this
      · intro p hp
        rcases List.mem_cons.mp hp with rfl | hp
        · exact ⟨_, hfl⟩
        · obtain ⟨x, hx⟩ := i2 p hp
          exact ⟨x, by rw [← hsame p hp]; exact hx⟩

/-- **C46**, in place and different files: the exit code 128 means that nothing failed and at least one of the files had another table of contents before. -/
theorem C46_in_place_files {E : Env} {a : CliArgs} {fs : FS} {stdin : Stdin} {tocs : List Str} (hi : a.inPlace = true)
    (h : buildMultipleTocs E a.options fs stdin a.filenames = .ok tocs) (hn : (namesOf a).Nodup) (h1 : (cliMain E a fs stdin).code ≠ 1) :
    (cliMain E a fs stdin).code = 128 ↔ a.diff = true ∧ ∃ p ∈ (namesOf a).zip tocs, tocsEqual E p.2 (fs p.1) a.tocMarker = .ok false := by
  obtain ⟨r, hw, hc, -⟩ := C46_in_place hi h (stdin := stdin)
  cases r with
  | error e => exact absurd hc h1
  | ok b =>
    simp only at hc
    have hl := tocs_length h
    obtain ⟨w1, w2⟩ := writes_result hw (by rw [List.map_fst_zip (by omega)]; exact hn) rfl
    have hb : b = false ↔ ∃ p ∈ (namesOf a).zip tocs, tocsEqual E p.2 (fs p.1) a.tocMarker = .ok false := by
      constructor
      · intro hb
        by_contra hno
        have : b = true := w1.mpr (fun p hp => by
          obtain ⟨x, hx⟩ := w2 p hp
          cases x
          · exact absurd ⟨p, hp, hx⟩ hno
          · exact hx)
        rw [hb] at this
        simp at this
      · rintro ⟨p, hp, hf⟩
        cases hb : b
        · rfl
        · have := w1.mp hb p hp
          rw [hf] at this
          simp at this
    rw [hc, ← hb]
    split
    · rename_i h; simp [h]
    · rename_i h
      simp only [Nat.reduceEqDiff, false_iff]
      exact h

/-- **C46**: with `--diff` and without `--in-place` the standard input is compared with a file named `-`, which fails if there is none. -/
theorem C46_violation_stdin : (cliMain asciiEnv { filenames := ["-".toList], diff := true } (fun _ => none) (some ⟨"# a\n".toList, false⟩)).code = 1 ∧
    (cliMain asciiEnv { filenames := ["-".toList] } (fun _ => none) (some ⟨"# a\n".toList, false⟩)).code = 0 := by
  decide +kernel

/-- The three exit codes with `--diff`. -/
example : (cliMain asciiEnv { filenames := ["a".toList], diff := true } (fun _ => some ⟨"<!--TOC-->\n\n- [a](#a)\n\n<!--TOC-->\n# a\n".toList, false⟩) none).code = 0 ∧
    (cliMain asciiEnv { filenames := ["a".toList], diff := true } (fun _ => some ⟨"<!--TOC-->\n\n- [b](#b)\n\n<!--TOC-->\n# a\n".toList, false⟩) none).code = 128 ∧
    (cliMain asciiEnv { filenames := ["a".toList], diff := true } (fun _ => some ⟨"<!--TOC-->\n## b\n# a\n".toList, false⟩) none).code = 1 ∧
    (cliMain asciiEnv { filenames := ["a".toList], diff := true, inPlace := true } (fun _ => some ⟨"<!--TOC-->\n\n- [b](#b)\n\n<!--TOC-->\n# a\n".toList, false⟩) none).code = 128 := by
  decide +kernel

/-! ### C47 -/

/-- Building the table of contents of the file fails. -/
def BuildFails (E : Env) (o : Options) (fs : FS) (stdin : Stdin) (f : Str) : Prop :=
  ∃ e, buildToc E o f (if f = "-".toList then stdin else fs f) = .error e

theorem mapM_error {α : Type} {f : α → Except Exn Str} {l : List α} (h : ∃ x ∈ l, ∃ e, f x = .error e) : ∃ e, l.mapM f = .error e := by
  induction l with
  | nil => simp at h
  | cons a l ih =>
    rw [List.mapM_cons]
    cases ha : f a with
    | error e => exact ⟨e, rfl⟩
    | ok v =>
      obtain ⟨e, he⟩ := ih (by
        obtain ⟨x, hx, e, he⟩ := h
        rcases List.mem_cons.mp hx with rfl | hx
        · rw [ha] at he; simp at he
        · exact ⟨x, hx, e, he⟩)
      exact ⟨e, by simp [bind, Except.bind, he]⟩

/-- **C47**: if the table of contents of one of the files cannot be built then no file is modified, nothing is printed, and the exit code is 1. -/
theorem C47_all_or_nothing {E : Env} {a : CliArgs} {fs : FS} {src : Source} (hn : (namesOf a).count "-".toList ≤ 1)
    (h : ∃ f ∈ namesOf a, BuildFails E a.options fs (some src) f) : cliMain E a fs (some src) = ⟨1, [], []⟩ := by
  have he : ∃ e, buildMultipleTocs E a.options fs (some src) a.filenames = .error e := by
    have h1 : buildMultipleTocs E a.options fs (some src) a.filenames = buildMultipleTocs E a.options fs (some src) (namesOf a) := by
      unfold buildMultipleTocs
      rw [defaultNames_eq]
      congr 1
      unfold namesOf defaultNames
      cases a.filenames <;> simp
    rw [h1, C34_independent E a.options fs src (namesOf a) (by unfold namesOf; split <;> simp_all) hn]
    exact mapM_error h
  obtain ⟨e, he⟩ := he
  exact C46_build_fails he

/-- The second of two files has no proper list: the first one is not written. -/
example : ∃ fs : FS, (cliMain asciiEnv { filenames := ["a".toList, "b".toList], inPlace := true } fs (some ⟨[], false⟩)).trace.length = 0 ∧
    (cliMain asciiEnv { filenames := ["a".toList], inPlace := true } fs (some ⟨[], false⟩)).trace.length = 2 ∧
    BuildFails asciiEnv {} fs none "b".toList :=
  ⟨fun f => if f = "a".toList then some ⟨"<!--TOC-->\n# a\n".toList, false⟩ else some ⟨"## b\n# a\n".toList, false⟩, by decide +kernel, by decide +kernel,
    _, by rw [if_neg (by decide)]; exact (by decide +kernel : buildToc asciiEnv {} "b".toList (some ⟨"## b\n# a\n".toList, false⟩) = .error .TocDoesNotRenderAsCoherentList)⟩

/-- A whole run on one file with a marker, twice: the second time the file stays as it is. -/
theorem C45_run_twice {E : Env} (hE : E.Lawful) {a : CliArgs} (hin : a.inPlace = true) {f : Str} (hf1 : a.filenames = [f])
    (hp : a.parser ≠ .redcarpet ∨ a.noIndentation = true) (hl : a.noLinks = false) (hk : 1 ≤ a.headerLevels) (hn : IsEol a.options.newline [])
    {fs : FS} {ls : List Str} (hf : HasLines fs f ls) (hg : GoodMarker a.tocMarker) (hm : NotItem a.tocMarker) {before removed after : List Str}
    (hc : Cut E.isDigit a.tocMarker ls before removed after) (he : IsEol a.options.newline after.flatten)
    (hr : CleanRegion a.options a.tocMarker before removed) (stdin : Stdin) (h : (cliMain E a fs stdin).code ≠ 1) :
    ∃ fs', (cliMain E a fs stdin).trace.getLast? = some fs' ∧ (cliMain E a fs' stdin).code ≠ 1 ∧
      ∀ fs'', (cliMain E a fs' stdin).trace.getLast? = some fs'' → fs'' = fs' := by
  have hne : f ≠ stdinName := hf.1
  have hb : ∀ g : FS, buildMultipleTocs E a.options g stdin a.filenames = (buildToc E a.options f (g f)).map (fun x => [x]) := by
    intro g
    unfold buildMultipleTocs defaultNames
    rw [hf1]
    simp only [List.length_cons, List.length_nil, Nat.zero_add, Nat.one_ne_zero, if_false, buildTocs, if_neg hne, bind, Except.bind]
    cases buildToc E a.options f (g f) <;> rfl
  have hc' : cliNewline a.newline = a.options.newline := rfl
  have hrun : ∀ (g : FS) (out : Str) (b : Bool) (tr : List Str), buildToc E a.options f (g f) = .ok out →
      writeString E g f out a.tocMarker a.options.newline = .ok (b, tr) →
      (cliMain E a g stdin).trace = tr.map (g.write f) ∧ (cliMain E a g stdin).code ≠ 1 := by
    intro g out b tr h1 h2
    have hbg := hb g
    rw [h1] at hbg
    simp only [Except.map] at hbg
    unfold cliMain writeToc
    simp only [hbg, hin, if_true, hc']
    rw [hf1]
    simp only [defaultNames, writeStrings, List.length_cons, List.length_nil, Nat.zero_add, Nat.one_ne_zero, if_false, ne_eq, not_true, List.zip_cons_cons, List.zip_nil_right,
      writeLoop, h2, traceFS, List.append_nil, true_and]
    cases b <;> cases a.diff <;> decide
  cases hbt : buildToc E a.options f (fs f) with
  | error e =>
    have hbg := hb fs
    rw [hbt] at hbg
    simp only [Except.map] at hbg
    rw [C46_build_fails hbg] at h
    exact absurd rfl h
  | ok out =>
    have h2 := hbt
    obtain ⟨hfn, text, hft, hR⟩ := hf
    rw [hft] at h2
    obtain ⟨core, hcore⟩ := C44_recognisable_partial (o := a.options) hE hp hl hn h2 hm
    obtain ⟨b, tr, hw, hlast⟩ := C37_outside_preserved E ⟨hfn, text, hft, hR⟩ out a.tocMarker a.options.newline hc hcore.1
    obtain ⟨t1, c1⟩ := hrun fs out b tr hbt hw
    have hst := C45_stable hE (o := a.options) hk hn ⟨hfn, text, hft, hR⟩ hg hc he hr hbt hw
    obtain ⟨b', tr', hw', hl'⟩ := C38_twice_partial E ⟨hfn, text, hft, hR⟩ hc hg hcore he hw
    obtain ⟨t2, c2⟩ := hrun (lastFS fs f tr) out b' tr' hst hw'
    refine ⟨lastFS fs f tr, ?_, c2, ?_⟩
    · rw [t1, List.getLast?_map, lastFS, hlast]
      rfl
    · intro fs'' h''
      rw [t2, List.getLast?_map, hl', hlast] at h''
      simp only [Option.map_some, Option.some.injEq] at h''
      rw [← h'']
      funext g
      unfold lastFS
      rw [hlast]
      by_cases hgf : g = f <;> simp [FS.write, hgf]

end MdToc.Props
