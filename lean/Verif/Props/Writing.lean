import Verif.Lemmas.WriteMore

/-!
# Properties of writing the table of contents (C36 - C43)
-/

set_option linter.unusedSimpArgs false

namespace MdToc.Props

open MdToc.Spec

/-- The file can be read and has the lines `ls`. -/
def HasLines (fs : FS) (f : Str) (ls : List Str) : Prop := f ≠ "-".toList ∧ ∃ text, fs f = some ⟨text, false⟩ ∧ Reads text ls

theorem writeString_eq {E : Env} {fs : FS} {f string marker nl : Str} {ls : List Str} (h : HasLines fs f ls) :
    writeString E fs f string marker nl = writeLines E ls string marker nl := by
  obtain ⟨h1, text, h2, h3⟩ := h
  unfold writeString
  rw [if_neg (show f ≠ stdinName from h1), h2]
  simp [reads_lines h3]

theorem tocsEqual_eq {E : Env} {fs : FS} {f string marker : Str} {ls : List Str} (h : HasLines fs f ls) :
    tocsEqual E string (fs f) marker = (getExistingToc E ls marker).map (fun e => pyStrip string == e.oldToc) := by
  obtain ⟨h1, text, h2, h3⟩ := h
  unfold tocsEqual
  rw [h2]
  simp only [reads_lines h3, Bool.false_eq_true, if_false, bind, Except.bind, Except.map]

/-- The file system after the successive contents `tr` of the file. -/
def lastFS (fs : FS) (f : Str) (tr : List Str) : FS :=
  match tr.getLast? with
  | none => fs
  | some t => fs.write f t

/-! ### C36 -/

/-- **C36**: nothing is written to a file without a line equal to the marker. -/
theorem C36_no_marker (E : Env) {fs : FS} {f : Str} {ls : List Str} (hf : HasLines fs f ls) (string : Str) {marker : Str} (nl : Str)
    (h : ∀ l ∈ ls, ¬ IsMarker marker l) : ∃ b, writeString E fs f string marker nl = .ok (b, []) := by
  rw [writeString_eq hf]
  exact ⟨_, write_none h⟩

/-- A marker in the middle of a line is not a line equal to the marker. -/
example : Reads "# a\nx <!--TOC-->\n".toList ["# a\n".toList, "x <!--TOC-->\n".toList] ∧
    ∀ l ∈ ["# a\n".toList, "x <!--TOC-->\n".toList], ¬ IsMarker "<!--TOC-->".toList l := by
  refine ⟨(reads_iff (bad := false)).mpr (by decide +kernel), ?_⟩
  simp only [isMarker_iff]
  decide +kernel

/-! ### C37 -/

/-- **C37**: a file with a marker is rewritten: the lines before the region and the lines after it stay. -/
theorem C37_outside_preserved (E : Env) {fs : FS} {f : Str} {ls : List Str} (hf : HasLines fs f ls) (string marker nl : Str)
    {before removed after : List Str} (h : Cut E.isDigit marker ls before removed after) {core : Str} (hc : TrimmedRight isPySpace string core) :
    ∃ b tr, writeString E fs f string marker nl = .ok (b, tr) ∧
      tr.getLast? = some (before.flatten ++ block core marker nl ++ after.flatten) := by
  obtain ⟨h1, text, h2, h3⟩ := hf
  obtain ⟨e, -, hw⟩ := write_cut (string := string) (nl := nl) h3 h
  rw [writeString_eq ⟨h1, text, h2, h3⟩, hw]
  rw [trimmedRight_iff.mp hc]
  exact ⟨_, _, rfl, by simp⟩

/-- **C37**: every file with a marker can be cut, in one way only, and the three parts are the whole file. -/
theorem C37_cut (d : Char → Bool) {marker text : Str} {ls : List Str} (hR : Reads text ls) (h : ∃ l ∈ ls, IsMarker marker l) :
    ∃ before removed after, (Cut d marker ls before removed after ∧ ls = before ++ removed ++ after) ∧
      ∀ b r a, Cut d marker ls b r a → b = before ∧ r = removed ∧ a = after := by
  obtain ⟨b, r, a, h⟩ := cut_exists d marker h
  exact ⟨b, r, a, ⟨h, cut_lines h⟩, fun b' r' a' h' => cut_unique hR h' h⟩

/-- Two files without a newline at the end, with a single marker and with a table of contents. -/
example : writeString asciiEnv (fun _ => some ⟨"# a\n  <!--TOC--> \nend".toList, false⟩) "a.md".toList "- b\n\n".toList "<!--TOC-->".toList "\n".toList =
      .ok (false, ["# a\nend".toList, "# a\n<!--TOC-->\n\n- b\n\n<!--TOC-->\nend".toList]) ∧
    writeString asciiEnv (fun _ => some ⟨"<!--TOC-->\n\n- b\n\n<!--TOC-->".toList, false⟩) "a.md".toList "- b".toList "<!--TOC-->".toList "\n".toList =
      .ok (true, ["".toList, "<!--TOC-->\n\n- b\n\n<!--TOC-->\n".toList]) := by
  decide +kernel

/-- The three kinds of cuts. -/
example : Cut asciiEnv.isDigit "m".toList ["a\n".toList, "m\n".toList, "b\n".toList] ["a\n".toList] ["m\n".toList] ["b\n".toList] := by
  refine .inl ⟨_, ⟨rfl, isMarker_iff.mpr (by decide +kernel), ?_, ?_⟩, rfl⟩ <;>
  · simp only [isMarker_iff]; decide +kernel

example : Cut asciiEnv.isDigit "m".toList ["m\n".toList, "\n".toList, "- b\n".toList, "\n".toList, "m".toList]
    [] ["m\n".toList, "\n".toList, "- b\n".toList, "\n".toList, "m".toList] [] := by
  refine .inr (.inl ⟨"m\n".toList, ["\n".toList, "- b\n".toList, "\n".toList], "m".toList,
    ⟨rfl, isMarker_iff.mpr (by decide +kernel), isMarker_iff.mpr (by decide +kernel), ?_, ?_, .single _ _ _⟩, rfl⟩)
  · simp only [isMarker_iff]; decide +kernel
  · exact .inr ⟨0, ['-'], "b".toList, by omega, by decide +kernel, .inl rfl, by simp [IsBlank]⟩

example : Cut asciiEnv.isDigit "m".toList ["a\n".toList, "m\n".toList, "b\n".toList, "m\n".toList]
    ["a\n".toList] [] ["m\n".toList, "b\n".toList, "m\n".toList] := by
  have hb : ¬ Recognised asciiEnv.isDigit ["b\n".toList] := by
    rintro (h | ⟨n, m, r, h1, h2, -⟩)
    · have := h 'b' (by decide)
      simp [IsBlank] at this
    · have := congrArg List.length h2
      simp [joined] at this
  have m1 : IsMarker "m".toList "m\n".toList := isMarker_iff.mpr (by decide +kernel)
  have nb : ¬ IsMarker "m".toList "b\n".toList := by rw [isMarker_iff]; decide +kernel
  have na : ¬ IsMarker "m".toList "a\n".toList := by rw [isMarker_iff]; decide +kernel
  refine .inr (.inr ⟨⟨"m\n".toList, ["b\n".toList], "m\n".toList, [], rfl, rfl, by simpa using na, m1, m1, ?_⟩, rfl⟩)
  have := NoTable.cons m1 m1 (by simpa using nb) hb (NoTable.single asciiEnv.isDigit "m".toList "m\n".toList)
  exact NoTable.skip (a := ["a\n".toList]) (by simpa using na) this

/-! ### C38, C39 -/

/-- **C38**: writing a second time does not change the file, if the string is recognisable as a table of contents. -/
theorem C38_twice_partial (E : Env) {fs : FS} {f : Str} {ls : List Str} (hf : HasLines fs f ls) {string core marker nl : Str}
    {before removed after : List Str} (h : Cut E.isDigit marker ls before removed after) (hg : GoodMarker marker)
    (hw : Recognisable E.isDigit string core marker nl) (he : IsEol nl after.flatten) {b : Bool} {tr : List Str}
    (h1 : writeString E fs f string marker nl = .ok (b, tr)) :
    ∃ b' tr', writeString E (lastFS fs f tr) f string marker nl = .ok (b', tr') ∧ tr'.getLast? = tr.getLast? := by
  obtain ⟨_, _, hw1, hl⟩ := C37_outside_preserved E hf string marker nl h hw.1
  rw [h1] at hw1
  injection hw1 with hw1
  injection hw1 with e1 e2
  subst e1; subst e2
  obtain ⟨hf1, text, hf2, hR⟩ := hf
  obtain ⟨mid, hr, ht, -⟩ := written_lines hR h hg hw he
  have hf' : HasLines (lastFS fs f tr) f (before ++ (marker ++ ['\n']) :: mid ++ (marker ++ ['\n']) :: after) := by
    refine ⟨hf1, _, ?_, hr⟩
    unfold lastFS
    rw [hl]
    simp [FS.write]
  rw [hl]
  exact C37_outside_preserved E hf' string marker nl (.inr (.inl ⟨_, _, _, ht, rfl⟩)) hw.1

/-- **C39**: after writing, `tocs_equal` is `True`. -/
theorem C39_up_to_date_partial (E : Env) {fs : FS} {f : Str} {ls : List Str} (hf : HasLines fs f ls) {string core marker nl : Str}
    {before removed after : List Str} (h : Cut E.isDigit marker ls before removed after) (hg : GoodMarker marker)
    (hw : Recognisable E.isDigit string core marker nl) (he : IsEol nl after.flatten) (hcr : '\r' ∉ core) {b : Bool} {tr : List Str}
    (h1 : writeString E fs f string marker nl = .ok (b, tr)) :
    tocsEqual E string (lastFS fs f tr f) marker = .ok true := by
  obtain ⟨_, _, hw1, hl⟩ := C37_outside_preserved E hf string marker nl h hw.1
  rw [h1] at hw1
  injection hw1 with hw1
  injection hw1 with e1 e2
  subst e1; subst e2
  obtain ⟨hf1, text, hf2, hR⟩ := hf
  obtain ⟨mid, hr, ht, -, hs⟩ := written_lines hR h hg hw he
  have hf' : HasLines (lastFS fs f tr) f (before ++ (marker ++ ['\n']) :: mid ++ (marker ++ ['\n']) :: after) := by
    refine ⟨hf1, _, ?_, hr⟩
    unfold lastFS
    rw [hl]
    simp [FS.write]
  rw [tocsEqual_eq hf']
  obtain ⟨n, pos, hx⟩ := existing_table (E := E) hr ht
  rw [hx]
  simp [Except.map, hs hcr]

/-- The hypotheses are met by the table of contents of two headings. -/
example : GoodMarker "<!--TOC-->".toList ∧
    Recognisable asciiEnv.isDigit "- [a](#a)\n  - [b](#b)\n".toList "- [a](#a)\n  - [b](#b)".toList "<!--TOC-->".toList "\n".toList := by
  refine ⟨⟨by simp [IsNewline], '<', by decide, by decide⟩, ⟨['\n'], by decide, by decide, by decide⟩, .inr ?_, ?_, .inl rfl⟩
  · exact ⟨0, ['-'], "[a](#a)  - [b](#b)".toList, by omega, by decide +kernel, .inl rfl, by simp [IsBlank]⟩
  · intro ls hls
    rw [← reads_lines hls false]
    simp only [isMarker_iff]
    decide +kernel

/-- **C38** does not hold for all strings: this is the table of contents of a heading which starts with an encoded tab, without links; the file grows at
each call. -/
theorem C38_violation :
    (writeString asciiEnv (fun _ => some ⟨"<!--TOC-->\n".toList, false⟩) "a.md".toList "- \tb\n".toList "<!--TOC-->".toList "\n".toList).map (·.2.getLast?) =
      .ok (some "<!--TOC-->\n\n- \tb\n\n<!--TOC-->\n".toList) ∧
    (writeString asciiEnv (fun _ => some ⟨"<!--TOC-->\n\n- \tb\n\n<!--TOC-->\n".toList, false⟩) "a.md".toList "- \tb\n".toList "<!--TOC-->".toList "\n".toList).map (·.2.getLast?) =
      .ok (some "<!--TOC-->\n\n- \tb\n\n<!--TOC-->\n<!--TOC-->\n\n- \tb\n\n<!--TOC-->\n".toList) := by
  decide +kernel

/-- **C38** does not hold with CR as newline string: each call removes a blank line after the table. -/
theorem C38_violation_cr :
    (writeString asciiEnv (fun _ => some ⟨"m\n\n\nb\n".toList, false⟩) "a.md".toList "- a".toList "m".toList "\r".toList).map (·.2.getLast?) =
      .ok (some "m\r\r- a\r\rm\r\n\nb\n".toList) ∧
    (writeString asciiEnv (fun _ => some ⟨"m\r\r- a\r\rm\r\n\nb\n".toList, false⟩) "a.md".toList "- a".toList "m".toList "\r".toList).map (·.2.getLast?) =
      .ok (some "m\r\r- a\r\rm\r\nb\n".toList) ∧
    (writeString asciiEnv (fun _ => some ⟨"m\r\r- a\r\rm\r\nb\n".toList, false⟩) "a.md".toList "- a".toList "m".toList "\r".toList).map (·.2.getLast?) =
      .ok (some "m\r\r- a\r\rm\rb\n".toList) := by
  decide +kernel

/-- **C39** does not hold with CR LF as newline string and two entries: the file is never up to date. -/
theorem C39_violation :
    (writeString asciiEnv (fun _ => some ⟨"m\n".toList, false⟩) "a.md".toList "- a\r\n- b\r\n".toList "m".toList "\r\n".toList).map (·.2.getLast?) =
      .ok (some "m\r\n\r\n- a\r\n- b\r\n\r\nm\r\n".toList) ∧
    tocsEqual asciiEnv "- a\r\n- b\r\n".toList (some ⟨"m\r\n\r\n- a\r\n- b\r\n\r\nm\r\n".toList, false⟩) "m".toList = .ok false := by
  decide +kernel

/-! ### C40 -/

/-- **C40**: the returned flag is that of `tocs_equal` before the call. -/
theorem C40_flag (E : Env) {fs : FS} {f : Str} {ls : List Str} (hf : HasLines fs f ls) (string marker nl : Str) :
    (writeString E fs f string marker nl).map (·.1) = tocsEqual E string (fs f) marker := by
  rw [tocsEqual_eq hf, writeString_eq hf]
  obtain ⟨h1, text, h2, h3⟩ := hf
  by_cases h : ∃ l ∈ ls, IsMarker marker l
  · obtain ⟨b, r, a, h⟩ := cut_exists E.isDigit marker h
    obtain ⟨e, he, hw⟩ := write_cut (string := string) (nl := nl) h3 h
    rw [he, hw]
    rfl
  · have h' : ∀ l ∈ ls, ¬ IsMarker marker l := fun l hl hl' => h ⟨l, hl, hl'⟩
    rw [existing_none h', write_none h']
    rfl

/-- **C40**: what the flag says: the text between the markers is the string up to white space around them; with a single marker the
string would have to be the marker; in all other cases, to be blank. -/
theorem C40_meaning (E : Env) {fs : FS} {f : Str} {ls : List Str} (hf : HasLines fs f ls) (string marker : Str) :
    ∃ b, tocsEqual E string (fs f) marker = .ok b ∧
      (∀ before m mid m' after, FirstTable E.isDigit marker ls before m mid m' after →
        (b = true ↔ ∃ c, Trimmed isPySpace string c ∧ Trimmed isPySpace mid.flatten c)) ∧
      (∀ before m after, OneMarker marker ls before m after → (b = true ↔ Trimmed isPySpace string marker)) ∧
      (∀ before after, ManyMarkers E.isDigit marker ls before after → (b = true ↔ ∀ c ∈ string, isPySpace c = true)) ∧
      ((∀ l ∈ ls, ¬ IsMarker marker l) → (b = true ↔ ∀ c ∈ string, isPySpace c = true)) := by
  rw [tocsEqual_eq hf]
  obtain ⟨h1, text, h2, h3⟩ := hf
  obtain ⟨e, he⟩ := existing_ok E (marker := marker) h3
  rw [he]
  obtain ⟨o1, o2, o3, o4⟩ := existing_old h3 he
  refine ⟨pyStrip string == e.oldToc, rfl, ?_, ?_, ?_, ?_⟩
  · intro before m mid m' after h
    rw [o3 before m mid m' after h, beq_iff_eq]
    constructor
    · intro h'
      exact ⟨_, trimmed_pyStrip string, by rw [h']; exact trimmed_pyStrip _⟩
    · rintro ⟨c, h1, h2⟩
      rw [trimmed_iff.mp h1, trimmed_iff.mp h2]
  · intro before m after h
    rw [o2 before m after h, beq_iff_eq, trimmed_iff]
  · intro before after h
    rw [o4 before after h, beq_iff_eq]
    exact strip_eq_nil_iff
  · intro h
    rw [o1 h, beq_iff_eq]
    exact strip_eq_nil_iff

/-! ### C41, C42 -/

/-- **C41** -/
theorem C41_stdin (E : Env) (fs : FS) (string marker nl : Str) :
    writeString E fs "-".toList string marker nl = .error .StdinIsNotAFileToBeWritten := by
  unfold writeString
  rw [if_pos (show "-".toList = stdinName from rfl)]

/-- The files are written one after the other: `fs` is the file system before, `tr` the successive ones, and `r` the outcome. -/
inductive Writes (E : Env) (marker nl : Str) : FS → List (Str × Str) → List FS → Except Exn Bool → Prop
  | nil (fs) : Writes E marker nl fs [] [] (.ok true)
  | failed {fs f s rest e} : writeString E fs f s marker nl = .error e → Writes E marker nl fs ((f, s) :: rest) [] (.error e)
  | ok {fs f s rest b contents tr r} : writeString E fs f s marker nl = .ok (b, contents) →
      Writes E marker nl (lastFS fs f contents) rest tr r →
      Writes E marker nl fs ((f, s) :: rest) (contents.map (fs.write f) ++ tr) (r.map (fun x => b && x))

theorem lastFS_eq (fs : FS) (f : Str) (contents : List Str) : ((traceFS fs f contents).getLast?).getD fs = lastFS fs f contents := by
  unfold traceFS lastFS
  rw [List.getLast?_map]
  cases contents.getLast? <;> rfl

theorem writeLoop_writes (E : Env) (marker nl : Str) (pairs : List (Str × Str)) : ∀ (fs : FS) (eq : Bool),
    ∃ r, Writes E marker nl fs pairs (writeLoop E marker nl fs pairs eq).2 r ∧ (writeLoop E marker nl fs pairs eq).1 = r.map (fun x => eq && x) := by
  induction pairs with
  | nil => intro fs eq; exact ⟨_, .nil fs, by simp [writeLoop, Except.map]⟩
  | cons p pairs ih =>
    obtain ⟨f, s⟩ := p
    intro fs eq
    unfold writeLoop
    cases h : writeString E fs f s marker nl with
    | error e => exact ⟨_, .failed h, rfl⟩
    | ok v =>
      obtain ⟨b, contents⟩ := v
      simp only [lastFS_eq]
      obtain ⟨r, h1, h2⟩ := ih (lastFS fs f contents) (eq && b)
      refine ⟨_, .ok h h1, ?_⟩
      rw [h2]
      cases r with
      | error e => rfl
      | ok x => simp [Except.map, Bool.and_assoc]

/-- **C42**: several files are written one after the other, until one fails; the result is the conjunction of the results. -/
theorem C42_sequence (E : Env) (fs : FS) {names strings : List Str} (h : names.length = strings.length) (marker nl : Str) :
    ∃ tr r, writeStrings E fs names strings marker nl = (r, tr) ∧ Writes E marker nl fs (names.zip strings) tr r := by
  unfold writeStrings
  rw [if_neg (by simpa using h)]
  obtain ⟨r, h1, h2⟩ := writeLoop_writes E marker nl (names.zip strings) fs true
  refine ⟨_, r, ?_, h1⟩
  have : r.map (fun x => true && x) = r := by cases r <;> rfl
  rw [this] at h2
  exact Prod.ext h2 rfl

/-- **C42** -/
theorem C42_lengths (E : Env) (fs : FS) {names strings : List Str} (h : names.length ≠ strings.length) (marker nl : Str) :
    writeStrings E fs names strings marker nl = (.error .ValueError, []) := by
  unfold writeStrings
  rw [if_pos h]

/-- **C42**: the files that are not named are never modified. -/
theorem C42_others {E : Env} {fs : FS} {names strings : List Str} {marker nl : Str} {f : Str} (hf : f ∉ names) :
    ∀ fs' ∈ (writeStrings E fs names strings marker nl).2, fs' f = fs f := by
  unfold writeStrings
  split
  · simp
  · have key : ∀ (pairs : List (Str × Str)) (g : FS) (eq : Bool), (∀ p ∈ pairs, p.1 ≠ f) → ∀ fs' ∈ (writeLoop E marker nl g pairs eq).2, fs' f = g f := by
      intro pairs
      induction pairs with
      | nil => intro g eq _ fs' h; simp [writeLoop] at h
      | cons p pairs ih =>
        obtain ⟨n, s⟩ := p
        intro g eq hp fs' h
        unfold writeLoop at h
        cases hw : writeString E g n s marker nl with
        | error e => rw [hw] at h; simp at h
        | ok v =>
          obtain ⟨b, contents⟩ := v
          rw [hw] at h
          simp only [lastFS_eq, List.mem_append] at h
          have hn : f ≠ n := fun h => hp (n, s) (by simp) h.symm
          rcases h with h | h
          · simp only [traceFS, List.mem_map] at h
            obtain ⟨t, -, rfl⟩ := h
            simp [FS.write, hn]
          · rw [ih _ _ (fun p hp' => hp p (by simp [hp'])) fs' h]
            unfold lastFS
            cases contents.getLast? with
            | none => rfl
            | some t => simp [FS.write, hn]
    exact key _ fs true (fun p hp h => hf (h ▸ (List.of_mem_zip hp).1))

/-- **C41**: nothing after the standard input is written. -/
theorem C41_nothing_after (E : Env) (fs : FS) (a : List (Str × Str)) (s : Str) (b : List (Str × Str)) (marker nl : Str) {tr : List FS}
    {r : Except Exn Bool} (h : Writes E marker nl fs (a ++ ("-".toList, s) :: b) tr r) :
    (∃ e, r = .error e) ∧ ∃ r', Writes E marker nl fs a tr r' := by
  induction a generalizing fs tr r with
  | nil =>
    cases h with
    | failed h => exact ⟨⟨_, rfl⟩, _, .nil fs⟩
    | ok h => rw [C41_stdin] at h; cases h
  | cons p a ih =>
    cases h with
    | failed h => exact ⟨⟨_, rfl⟩, _, .failed h⟩
    | ok h h' =>
      obtain ⟨⟨e, rfl⟩, r', h2⟩ := ih _ h'
      exact ⟨⟨e, rfl⟩, _, .ok h h2⟩

/-- The first of three files is written, the second is the standard input, the third is not written. -/
example : (writeStrings asciiEnv (fun _ => some ⟨"m\n".toList, false⟩) ["a".toList, "-".toList, "b".toList] ["- x".toList, "- x".toList, "- x".toList]
      "m".toList "\n".toList).1 = .error .StdinIsNotAFileToBeWritten ∧
    ((writeStrings asciiEnv (fun _ => some ⟨"m\n".toList, false⟩) ["a".toList, "-".toList, "b".toList] ["- x".toList, "- x".toList, "- x".toList]
      "m".toList "\n".toList).2.map (fun g => (g "a".toList, g "b".toList))) =
      [(some ⟨"".toList, false⟩, some ⟨"m\n".toList, false⟩), (some ⟨"m\n\n- x\n\nm\n".toList, false⟩, some ⟨"m\n".toList, false⟩)] := by
  decide +kernel

/-! ### C43 -/

/-- **C43**: while a file with a marker is rewritten its content is the original one, then perhaps the lines before and after the region, then the final one. -/
theorem C43_states (E : Env) {fs : FS} {f : Str} {ls : List Str} (hf : HasLines fs f ls) (string marker nl : Str)
    {before removed after : List Str} (h : Cut E.isDigit marker ls before removed after) {core : Str} (hc : TrimmedRight isPySpace string core) :
    ∃ b, writeString E fs f string marker nl = .ok (b, (if removed = [] then [] else [(before ++ after).flatten]) ++
      [before.flatten ++ block core marker nl ++ after.flatten]) := by
  rw [writeString_eq hf]
  obtain ⟨h1, text, h2, h3⟩ := hf
  obtain ⟨e, -, hw⟩ := write_cut (string := string) (nl := nl) h3 h
  rw [hw, trimmedRight_iff.mp hc]
  exact ⟨_, rfl⟩

theorem reads_remove {text : Str} {ls before removed after : List Str} (hR : Reads text ls) (e : ls = before ++ removed ++ after) :
    Reads (before ++ after).flatten (before ++ after) := by
  have ha : Reads after.flatten after := reads_suffix hR (before ++ removed) after e
  by_cases hn : removed ++ after = []
  · have hn' : after = [] := by simp at hn; exact hn.2
    have hr : removed = [] := by simp at hn; exact hn.1
    subst hn'; subst hr
    simp only [List.append_nil] at e ⊢
    rw [← e]
    exact reads_self hR
  · rw [List.flatten_append]
    exact reads_split hR before (removed ++ after) (by rw [e, List.append_assoc]) hn _ _ ha

/-- **C43**, the defect: a run that is killed between the two steps loses the markers: later runs do nothing. -/
theorem C43_violation (E : Env) {fs : FS} {f : Str} {ls : List Str} (hf : HasLines fs f ls) (string marker nl : Str)
    {before removed after : List Str} (h : Cut E.isDigit marker ls before removed after) (hr : removed ≠ [])
    (ho : ∀ l ∈ before ++ after, ¬ IsMarker marker l) :
    ∃ b t rest, writeString E fs f string marker nl = .ok (b, t :: rest) ∧ rest ≠ [] ∧
      ∃ b', writeString E (fs.write f t) f string marker nl = .ok (b', []) := by
  obtain ⟨core, hc⟩ : ∃ core, TrimmedRight isPySpace string core := ⟨_, trimmedRight_iff.mpr rfl⟩
  obtain ⟨b, hw⟩ := C43_states E hf string marker nl h hc
  rw [if_neg hr] at hw
  refine ⟨b, _, _, hw, by simp, ?_⟩
  obtain ⟨h1, text, h2, h3⟩ := hf
  refine C36_no_marker E (ls := before ++ after) ⟨h1, _, by simp [FS.write]; rfl, ?_⟩ string nl ho
  have := reads_remove h3 (cut_lines h)
  simpa using this

/-- A file with a table of contents loses it. -/
example : ∃ fs : FS, ∃ t, (∃ b rest, writeString asciiEnv fs "a.md".toList "- b".toList "m".toList "\n".toList = .ok (b, t :: rest)) ∧
    t = "x\ny\n".toList ∧ fs "a.md".toList = some ⟨"x\nm\n\n- a\n\nm\ny\n".toList, false⟩ :=
  ⟨fun _ => some ⟨"x\nm\n\n- a\n\nm\ny\n".toList, false⟩, "x\ny\n".toList,
    ⟨false, ["x\nm\n\n- b\n\nm\ny\n".toList], by decide +kernel⟩, rfl, rfl⟩

end MdToc.Props
