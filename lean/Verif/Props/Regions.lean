import Verif.Props.Cli

/-!
# Properties of the detection of regions, and of whole runs (C55, C56, C57)
-/

set_option linter.unusedSimpArgs false

namespace MdToc.Props

open MdToc.Spec

/-! ### C55 -/

/-- **C55**: blank lines without their newlines. -/
theorem C55_blank (E : Env) {s : Str} (h : ∀ c ∈ s, ¬ IsNewline c) : stringEmpty E s = true ↔ ∀ c ∈ s, IsBlank c :=
  stringEmpty_iff E (fun c hc e => h c hc (.inl e)) (fun c hc e => h c hc (.inr e))

/-- **C55**: lists. -/
theorem C55_list (E : Env) {s : Str} (h : ∀ c ∈ s, c ≠ '\n') : detectTocList E s = true ↔ ListLike E.isDigit s := detectTocList_iff E h

/-- **C55**: the region between the markers in the lines number `pre.length + 1` and `pre.length + mid.length + 2`. -/
theorem C55_region {E : Env} {text : Str} {ls pre mid post : List Str} {m m' : Str} (hR : Reads text ls) (e : ls = pre ++ m :: mid ++ m' :: post) :
    tocRegion E ls.flatten (pre.length + 1) (pre.length + mid.length + 2) = true ↔ Recognised E.isDigit mid :=
  tocRegion_iff hR e

/-- Two regions: a list with an empty line on both sides is recognised, a list directly after the marker is not. -/
example : Recognised asciiEnv.isDigit ["\n".toList, "1) a\n".toList, "\n".toList] ∧ ¬ Recognised asciiEnv.isDigit ["- a\n".toList, "x\n".toList] := by
  refine ⟨.inr ⟨0, "1)".toList, "a".toList, by omega, by decide +kernel, .inr (.inr (.inr ⟨['1'], ')', by decide, by decide, by decide, .inr rfl⟩)), by simp [IsBlank]⟩, ?_⟩
  rintro (h | ⟨n, m, r, h1, h2, -⟩)
  · have := h '-' (by decide)
    simp [IsBlank] at this
  · have := congrArg List.length h2
    simp [joined] at this

/-- The region as a text with newlines: a CR LF before other white space is blank, LF CR is not. -/
example : stringEmpty asciiEnv "\r\n \t\x0b\n".toList = true ∧ stringEmpty asciiEnv "\n\r".toList = false := by decide +kernel

/-! ### C56 -/

/-- **C56** -/
theorem C56_interval {text : Str} {ls : List Str} (h : Reads text ls) (hr : '\r' ∉ text) (a b : Nat) (ha : 1 ≤ a) :
    readLineInterval text (a : Int) (b : Int) = joined ((ls.take b).drop (a - 1)) := by
  rw [reads_flatten h hr]
  exact readLineInterval_eq h a b ha

/-- **C56** -/
theorem C56_empty (text : Str) {a b : Int} (h : a > b ∨ a < 1) : readLineInterval text a b = [] := by
  unfold readLineInterval
  rw [if_pos h]

example : readLineInterval "a\n\nb c\nd".toList 2 3 = "b c".toList ∧ Reads "a\n\nb c\nd".toList ["a\n".toList, "\n".toList, "b c\n".toList, "d".toList] :=
  ⟨by decide +kernel, (reads_iff (bad := false)).mpr (by decide +kernel)⟩

/-! ### C57 -/

/-- An exception while reading a binary file also happens with the readable part. -/
theorem tocLoop_bad {E : Env} {o : Options} {fn : Str} {ls : List Str} {st : TocState} {e : Exn} (h : tocLoop E o fn true ls st = .error e) :
    tocLoop E o fn false ls st = .error e := by
  induction ls generalizing st with
  | nil => simp [tocLoop] at h
  | cons l ls ih =>
    unfold tocLoop at h ⊢
    rw [if_neg (by simp)]
    split at h
    · simp at h
    · simp only [bind, Except.bind] at h ⊢
      cases ht : tocStep E o st l (decide (fn ≠ stdinName) && ls.isEmpty) with
      | error e' => rw [ht] at h; exact h
      | ok st' => rw [ht] at h; exact ih h

/-- **C57**: all the exceptions of `build_toc`, with their reasons. -/
theorem C57_exceptions {E : Env} {o : Options} {fn : Str} {src : Option Source} {e : Exn} (h : buildToc E o fn src = .error e) :
    (e = .ValueError ∧ o.skipLines < 0) ∨
    (e = .FileNotFoundError ∧ src = none) ∨
    ∃ text bad vs, src = some ⟨text, bad⟩ ∧ Looks o fn text vs ∧
      ((e = .UnicodeDecodeError ∧ bad = true) ∨
       (e = .ValueError ∧ o.keep < 1) ∨
       (o.parser ≠ .redcarpet ∧ (∃ l ∈ vs, ∃ n t, Heading o.parser true l n t) ∧ (e = .ValueError ∨ e = .IndexError ∨ e = .KeyError)) ∨
       (o.noLinks = false ∧ o.parser ≠ .redcarpet ∧ (∃ l ∈ vs, ∃ n t, Heading o.parser true l n t) ∧ (e = .GithubEmptyLinkLabel ∨ e = .GithubOverflowCharsLinkLabel)) ∨
       (e = .GithubOverflowOrderedListMarker ∧ isOrdered o = true ∧ o.constantOrdered = false) ∨
       (e = .TocDoesNotRenderAsCoherentList ∧ o.noIndentation = false ∧ o.noListCoherence = false) ∨
       (e = .ValueError ∧ isOrdered o = false ∧ o.listMarker ∉ bullets)) := by
  by_cases hs : o.skipLines ≥ 0
  · right
    cases src with
    | none =>
      left
      unfold buildToc at h
      rw [if_neg (by simpa using hs)] at h
      simp at h
      exact ⟨h.symm, rfl⟩
    | some src =>
      right
      obtain ⟨text, bad⟩ := src
      obtain ⟨vs, hv⟩ := looks_exists o fn text
      refine ⟨text, bad, vs, rfl, hv, ?_⟩
      have h' : (e = .UnicodeDecodeError ∧ bad = true) ∨ buildToc E o fn (some ⟨text, false⟩) = .error e := by
        cases bad
        · exact .inr h
        · unfold buildToc at h ⊢
          rw [if_neg (by simpa using hs)] at h ⊢
          simp only at h ⊢
          rw [if_neg (by simp)]
          split at h
          · left
            injection h with h
            exact ⟨h.symm, by first | rfl | trivial⟩
          · right
            exact tocLoop_bad h
      rcases h' with h' | h'
      · exact .inl h'
      right
      obtain ⟨pre, l, post, hds, es, st, d, rfl, hl, hrun, ht, hlev, hprev, h | ⟨n, t, a, d', h1, h2, h3, h4, h5, h6⟩⟩ := buildToc_failed hs h' hv
      · rcases getMdHeader_err hl h with ⟨h1, h2⟩ | ⟨hp, n, t, hh, h | h | h | ⟨hnl, h⟩⟩
        · exact .inl ⟨h2, h1⟩
        · exact .inr (.inl ⟨hp, ⟨l, by simp, n, t, hh⟩, .inl h⟩)
        · exact .inr (.inl ⟨hp, ⟨l, by simp, n, t, hh⟩, .inr (.inl h)⟩)
        · exact .inr (.inl ⟨hp, ⟨l, by simp, n, t, hh⟩, .inr (.inr h)⟩)
        · exact .inr (.inr (.inl ⟨hnl, hp, ⟨l, by simp, n, t, hh⟩, h⟩))
      · rcases addHeader_err h6 h4 h5 hprev with ⟨h, hc⟩ | ⟨h, hni, hin⟩ | ⟨h, hm⟩
        · have hcnt := (nextCounter_err hc h4).2.1
          unfold Options.counts at hcnt
          simp only [Bool.and_eq_true, Bool.not_eq_true'] at hcnt
          rw [effOrdered_eq] at hcnt
          exact .inr (.inr (.inr (.inl ⟨h, hcnt.1, hcnt.2⟩)))
        · have hnc : o.noListCoherence = false := by
            unfold incoherent at hin
            simp at hin
            exact hin.1
          exact .inr (.inr (.inr (.inr (.inl ⟨h, hni, hnc⟩))))
        · rw [markerOk_eq] at hm
          simp at hm
          exact .inr (.inr (.inr (.inr (.inr ⟨h, by simpa using hm.1, hm.2⟩))))
  · left
    unfold buildToc at h
    rw [if_pos hs] at h
    injection h with h
    exact ⟨h.symm, by omega⟩

/-- **C57**: the loop bounds of the model are never reached. -/
theorem C57_terminates (E : Env) (o : Options) (fn : Str) (src : Option Source) : buildToc E o fn src ≠ .error .OutOfFuel := by
  intro h
  rcases C57_exceptions h with ⟨h, -⟩ | ⟨h, -⟩ | ⟨_, _, _, -, -, ⟨h, -⟩ | ⟨h, -⟩ | ⟨-, -, h | h | h⟩ | ⟨-, -, -, h | h⟩ | ⟨h, -⟩ | ⟨h, -⟩ | ⟨h, -⟩⟩ <;>
    exact absurd h (by decide)

/-- **C57**: the name of the file does not matter, except for the standard input and in the comment for binary files. -/
theorem C57_name (E : Env) (o : Options) {fn fn' : Str} (h : fn = "-".toList ↔ fn' = "-".toList) (text : Str) :
    buildToc E o fn (some ⟨text, false⟩) = buildToc E o fn' (some ⟨text, false⟩) := by
  have hd : (decide (fn ≠ stdinName)) = decide (fn' ≠ stdinName) := by
    have : (fn ≠ stdinName) ↔ (fn' ≠ stdinName) := not_congr h
    simp only [this]
  have key : ∀ (ls : List Str) (st : TocState), tocLoop E o fn false ls st = tocLoop E o fn' false ls st := by
    intro ls
    induction ls with
    | nil => intro st; rfl
    | cons l ls ih =>
      intro st
      unfold tocLoop
      rw [if_neg (by simp), if_neg (by simp), hd]
      simp only [bind, Except.bind]
      cases tocStep E o st l (decide (fn' ≠ stdinName) && ls.isEmpty) with
      | error e => rfl
      | ok st' => exact ih st'
  unfold buildToc
  simp only [key]

/-- **C57**: writing raises only these exceptions. -/
theorem C57_write_exceptions {E : Env} {fs : FS} {f string marker nl : Str} {e : Exn} (h : writeString E fs f string marker nl = .error e) :
    (e = .StdinIsNotAFileToBeWritten ∧ f = "-".toList) ∨ (e = .FileNotFoundError ∧ fs f = none) ∨
      (e = .UnicodeDecodeError ∧ ∃ text, fs f = some ⟨text, true⟩) := by
  by_cases hf : f = stdinName
  · left
    unfold writeString at h
    rw [if_pos hf] at h
    injection h with h
    exact ⟨h.symm, hf⟩
  · right
    cases hs : fs f with
    | none =>
      left
      unfold writeString at h
      rw [if_neg hf, hs] at h
      simp at h
      exact ⟨h.symm, rfl⟩
    | some src =>
      obtain ⟨text, bad⟩ := src
      cases bad
      · exfalso
        obtain ⟨ls, hr⟩ := reads_exists text
        have hl : HasLines fs f ls := ⟨hf, text, hs, hr⟩
        by_cases hm : ∃ l ∈ ls, IsMarker marker l
        · obtain ⟨b, r, a, hc⟩ := cut_exists E.isDigit marker hm
          obtain ⟨_, _, hw, -⟩ := C37_outside_preserved E hl string marker nl hc (trimmedRight_iff.mpr rfl)
          rw [h] at hw
          simp at hw
        · obtain ⟨_, hw⟩ := C36_no_marker E hl string nl (fun l hl' hm' => hm ⟨l, hl', hm'⟩)
          rw [h] at hw
          simp at hw
      · right
        unfold writeString at h
        rw [if_neg hf, hs] at h
        simp at h
        exact ⟨h.symm, text, rfl⟩

end MdToc.Props
