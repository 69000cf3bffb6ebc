import Verif.Spec.Args
import Verif.Props.Cli
import Verif.Props.Regions

/-!
# Arguments: C61, C62
-/

set_option linter.unusedSimpArgs false

namespace MdToc.Props

open MdToc.Spec

theorem parserOf_eq (s : Str) (p : Parser) : parserOf s = some p ↔ (s, p) ∈ parserNames := by
  unfold parserOf parserNames
  simp only [List.mem_cons, List.not_mem_nil, or_false, Prod.mk.injEq]
  split
  · rename_i h; subst h; simp; exact ⟨fun h => h.symm, fun h => h.symm⟩
  · rename_i h1
    split
    · rename_i h; subst h; simp; exact ⟨fun h => h.symm, fun h => h.symm⟩
    · rename_i h2
      split
      · rename_i h; subst h; simp; exact ⟨fun h => h.symm, fun h => h.symm⟩
      · rename_i h3
        split
        · rename_i h; subst h; simp; exact ⟨fun h => h.symm, fun h => h.symm⟩
        · rename_i h4
          split
          · rename_i h; subst h; simp; exact ⟨fun h => h.symm, fun h => h.symm⟩
          · rename_i h5
            split
            · rename_i h; subst h; simp; exact ⟨fun h => h.symm, fun h => h.symm⟩
            · rename_i h6; simp_all

/-- The value of an accepted option. -/
def optPick {α β : Type} (const : α) (default : β) (inject : α → β) : Option (Option α) → β
  | none => default
  | some none => inject const
  | some (some x) => inject x

theorem optValue_ok {α β : Type} {const : α} {default : β} {inject : α → β} {ok : α → Bool} {v : Option (Option α)} (h : ∀ x, v = some (some x) → ok x = true) :
    optValue const default inject ok v = some (optPick const default inject v) := by
  rcases v with _ | _ | x
  · rfl
  · rfl
  · unfold optValue
    simp only
    rw [if_pos (h x rfl)]
    rfl

theorem optValue_bad {α β : Type} {const : α} {default : β} {inject : α → β} {ok : α → Bool} {v : Option (Option α)} {x : α} (h : v = some (some x)) (hx : ok x = false) :
    optValue const default inject ok v = none := by
  subst h
  unfold optValue
  simp only
  rw [if_neg (by simp [hx])]

theorem argUnordered_eq (r : RawArgs) (h : ∀ v, r.unordered = some (some v) → v ∈ bullets) :
    argUnordered r = some (match r.unordered with | some (some v) => v | _ => "-".toList) := by
  unfold argUnordered
  rw [optValue_ok (fun x hx => by rw [bulletMarkers_eq]; simpa using h x hx)]
  clear h
  rcases r.unordered with _ | _ | x <;> rfl

theorem argOrdered_eq (p : Parser) (r : RawArgs) (h : ∀ v, r.ordered = some (some v) → v ∈ delimiters p) :
    argOrdered p r = some (match r.ordered with | none => none | some none => some ".".toList | some (some v) => some v) := by
  unfold argOrdered
  rw [optValue_ok (fun x hx => by rw [closingMarkers_eq]; simpa using h x hx)]
  clear h
  rcases r.ordered with _ | _ | x <;> rfl

theorem argLevels_eq (r : RawArgs) (h : ∀ l, r.headerLevels = some (some l) → 1 ≤ l ∧ l ≤ 6) : argLevels r = some (commandLevels r) := by
  unfold argLevels
  rw [optValue_ok (fun x hx => by
    have := h x hx
    have h6 : ((maxLevels : Nat) : Int) = 6 := rfl
    simp only [h6, Bool.and_eq_true, decide_eq_true_eq]
    omega)]
  unfold commandLevels
  clear h
  rcases r.headerLevels with _ | _ | x <;> rfl

theorem argNewline_eq (r : RawArgs) (h : ∀ s, r.newline = some s → s ∈ ["\\n".toList, "\\r".toList, "\\r\\n".toList]) :
    argNewline r = some (r.newline.getD "\n".toList) ∧ cliNewline (r.newline.getD "\n".toList) = commandNewline r := by
  unfold argNewline commandNewline
  cases hr : r.newline with
  | none => exact ⟨rfl, rfl⟩
  | some s =>
    have := h s hr
    simp only [List.mem_cons, List.not_mem_nil, or_false] at this
    rcases this with rfl | rfl | rfl <;> exact ⟨rfl, by decide⟩

/-- The parsed arguments of a valid command line. -/
theorem parseArgs_valid {r : RawArgs} {p : Parser} (h : ValidCommand r) (hp : (r.parser, p) ∈ parserNames) : ∃ a, parseArgs r = some a ∧
    a.filenames = r.filenames ∧ a.inPlace = r.inPlace ∧ a.diff = r.diff ∧ a.tocMarker = r.tocMarker.getD "<!--TOC-->".toList ∧
    a.options.parser = p ∧ isOrdered a.options = commandOrdered r ∧ usedMarker p (commandOrdered r) a.options.listMarker = commandMarker r ∧
    a.options.keep = commandLevels r ∧ a.options.newline = commandNewline r ∧ a.options.noLinks = r.noLinks ∧ a.options.noIndentation = r.noIndentation ∧
    a.options.noListCoherence = r.noListCoherence ∧ a.options.skipLines = r.skipLines.getD 0 ∧ a.options.constantOrdered = r.constantOrdered ∧
    (commandOrdered r = false → a.options.listMarker ∈ bullets) := by
  obtain ⟨hn1, hn2⟩ := argNewline_eq r h.newline
  have hu := argUnordered_eq r h.bullet
  have ho := argOrdered_eq p r (fun v hv => h.delimiter p v hp hv)
  have hconf : argConflict r (match r.unordered with | some (some v) => v | _ => "-".toList) = false := by
    unfold argConflict
    have h1 := h.lists
    have h2 := h.indent
    rw [Bool.or_eq_false_iff]
    constructor
    · rcases hu : r.unordered with _ | _ | v
      · simp
      · simp [defaultBullet]
      · by_cases hv : v = "-".toList
        · simp [hv, defaultBullet]
        · rw [h1 v hu hv]; simp
    · simpa using h2
  unfold parseArgs
  rw [(parserOf_eq _ _).mpr hp, hu]
  simp only [Option.bind_eq_bind, Option.bind_some]
  rw [ho, argLevels_eq r h.levels, hn1]
  simp only [Option.bind_some]
  rw [hconf]
  refine ⟨_, rfl, rfl, rfl, rfl, rfl, rfl, ?_, ?_, rfl, hn2, rfl, rfl, rfl, rfl, rfl, ?_⟩
  · unfold isOrdered CliArgs.options commandOrdered
    simp only
    rcases r.ordered with _ | _ | v <;> simp
  · unfold usedMarker CliArgs.options commandMarker
    simp only
    by_cases hc : commandOrdered r = true
    · simp only [hc, if_true]
      rcases hv : r.ordered with _ | _ | v
      · simp only [Option.getD_none]
        rcases hu' : r.unordered with _ | _ | x
        · simp only; split <;> rename_i hx
          · revert hx; unfold delimiters; split <;> decide
          · rfl
        · simp only; split <;> rename_i hx
          · revert hx; unfold delimiters; split <;> decide
          · rfl
        · simp only
          have hb := h.bullet x hu'
          rw [if_neg]
          intro hx
          revert hb hx
          unfold bullets delimiters
          split <;> simp <;> rintro (rfl | rfl | rfl) <;> decide
      · simp only [Option.getD_some]
        split <;> rfl
      · simp only [Option.getD_some]
        rw [if_pos (h.delimiter p v hp hv)]
    · have hc' : commandOrdered r = false := by simpa using hc
      simp only [hc', Bool.false_eq_true, if_false]
      unfold commandOrdered at hc
      simp only [Bool.or_eq_true, not_or] at hc
      have : r.ordered = none := by simpa using hc.1
      rw [this]
      simp only [Option.getD_none]
      rcases r.unordered with _ | _ | x <;> rfl
  · intro hc
    unfold commandOrdered at hc
    simp only [Bool.or_eq_false_iff] at hc
    have : r.ordered = none := by simpa using hc.1
    unfold CliArgs.options
    simp only [this, Option.getD_none]
    rcases hu' : r.unordered with _ | _ | x
    · decide
    · decide
    · exact h.bullet x hu'

theorem parseArgs_invalid {r : RawArgs} (h : ¬ ValidCommand r) : parseArgs r = none := by
  by_contra hne
  apply h
  obtain ⟨a, ha⟩ := Option.ne_none_iff_exists'.mp hne
  unfold parseArgs at ha
  simp only [Option.bind_eq_bind, Option.bind_eq_some_iff] at ha
  obtain ⟨p, h1, u, h2, o, h3, l, h4, n, h5, h6⟩ := ha
  have hc : argConflict r u = false := by
    by_contra hc
    rw [if_pos (by simpa using hc)] at h6
    simp at h6
  have hp := (parserOf_eq _ _).mp h1
  unfold argConflict at hc
  rw [Bool.or_eq_false_iff] at hc
  have huniq : ∀ q, (r.parser, q) ∈ parserNames → q = p := by
    intro q hq
    rw [← parserOf_eq, h1] at hq
    injection hq with hq
    exact hq.symm
  refine ⟨⟨p, hp⟩, ?_, ?_, ?_, ?_, ?_, ?_⟩
  · intro v hv
    by_contra hb
    unfold argUnordered at h2
    rw [optValue_bad hv (by rw [bulletMarkers_eq]; simpa using hb)] at h2
    simp at h2
  · intro q v hq hv
    rw [huniq q hq]
    by_contra hb
    unfold argOrdered at h3
    rw [optValue_bad hv (by rw [closingMarkers_eq]; simpa using hb)] at h3
    simp at h3
  · intro x hx
    by_contra hb
    unfold argLevels at h4
    have hb' : (decide (1 ≤ x) && decide (x < ((maxLevels : Nat) : Int) + 1)) = false := by
      have e6 : ((maxLevels : Nat) : Int) = 6 := rfl
      rw [Bool.and_eq_false_iff]
      simp only [e6, decide_eq_false_iff_not]
      omega
    rw [optValue_bad hx hb'] at h4
    simp at h4
  · intro s hs
    unfold argNewline at h5
    rw [hs] at h5
    simp only at h5
    by_contra hb
    rw [if_neg (by simpa using hb)] at h5
    simp at h5
  · intro v hv hd
    have : u = v := by
      unfold argUnordered at h2
      rw [hv] at h2
      unfold optValue at h2
      simp only at h2
      split at h2
      · injection h2 with h2; exact h2.symm
      · simp at h2
    subst this
    have := hc.1
    rw [hv] at this
    simp only [Option.isSome_some, Bool.and_true, Bool.and_eq_false_iff] at this
    rcases this with h | h
    · simpa using h
    · exact absurd (by simpa [defaultBullet] using h) hd
  · simpa using hc.2

/-- **C61**: an invalid command line gives the exit code 2, prints nothing and writes nothing; a valid one never gives this code. -/
theorem C61_rejected (E : Env) (r : RawArgs) (fs : FS) (stdin : Stdin) :
    ((program E r fs stdin).code = 2 ↔ ¬ ValidCommand r) ∧ (¬ ValidCommand r → (program E r fs stdin).out = [] ∧ (program E r fs stdin).trace = []) := by
  by_cases h : ValidCommand r
  · obtain ⟨p, hp⟩ := h.parser
    obtain ⟨a, ha, -⟩ := parseArgs_valid h hp
    unfold program
    rw [ha]
    simp only [h, not_true_eq_false, iff_false, false_implies, and_true]
    rcases C46_codes E a fs stdin with h | h | h <;> rw [h] <;> decide
  · unfold program
    rw [parseArgs_invalid h]
    simp [h]

/-- **C61**: a valid command line for one file, not in place: the printed text is the list of the headings of the file, with the parser, levels, marker, newline and links of the
command line. -/
theorem C61_list {E : Env} {r : RawArgs} {p : Parser} (h : ValidCommand r) (hp : (r.parser, p) ∈ parserNames) (hi : r.inPlace = false) {f : Str} (hf : r.filenames = [f])
    (hs : f ≠ "-".toList) {fs : FS} {text : Str} (ht : fs f = some ⟨text, false⟩) {stdin : Stdin} (hc : (program E r fs stdin).code ≠ 1) {ls vs : List Str} (hl : Reads text ls)
    (hv : SeenLines p true (ls.drop (r.skipLines.getD 0).toNat) vs) {heads : List (Nat × Str)} (hh : Headings p r.noLinks vs heads) :
    ∃ es : List Entry, (program E r fs stdin).out = (es.map (Entry.line (commandOrdered r) r.noLinks (commandMarker r) (commandNewline r))).flatten ∧
      es.map (fun e => (e.level, e.text)) = heads.filter (fun x => decide (p = .redcarpet) || decide ((x.1 : Int) ≤ commandLevels r)) ∧
      (r.constantOrdered = true → ∀ e ∈ es, e.number = 1) ∧ (r.noIndentation = true → ∀ e ∈ es, e.indent = 0) := by
  obtain ⟨a, ha, e1, e2, e3, e4, e5, e6, e7, e8, e9, e10, e11, e12, e13, e14, e15⟩ := parseArgs_valid h hp
  have hprog : program E r fs stdin = cliMain E a fs stdin := by unfold program; rw [ha]
  rw [hprog] at hc ⊢
  cases hb : buildMultipleTocs E a.options fs stdin a.filenames with
  | error e => rw [C46_build_fails hb] at hc; simp at hc
  | ok tocs =>
    obtain ⟨-, -, ho, -⟩ := C46_print (by rw [e2, hi]) hb
    rw [ho hc]
    have hb' : ∃ out, tocs = [out] ∧ buildToc E a.options f (some ⟨text, false⟩) = .ok out := by
      rw [e1, hf] at hb
      unfold buildMultipleTocs defaultNames at hb
      simp only [List.length_singleton, Nat.one_ne_zero, if_false] at hb
      unfold buildTocs at hb
      rw [if_neg (show ¬ f = stdinName from hs), ht] at hb
      cases hb2 : buildToc E a.options f (some ⟨text, false⟩) with
      | error e => rw [hb2] at hb; simp [bind, Except.bind] at hb
      | ok out =>
        rw [hb2] at hb
        simp [bind, Except.bind, buildTocs] at hb
        exact ⟨out, hb.symm, rfl⟩
    obtain ⟨out, rfl, hb2⟩ := hb'
    have hlk : Looks a.options f text vs := by
      refine ⟨ls, hl, ?_⟩
      rw [e5, e13, decide_eq_true (show f ≠ "-".toList from hs)]
      exact hv
    obtain ⟨hs', es, st, hr, htab⟩ := buildToc_run hb2 hlk
    have hlev := table_levels htab (by rw [e5, e10]; exact hh)
    refine ⟨es, ?_, ?_, ?_, ?_⟩
    · have := htab.2
      rw [e5, e6, e7, e9, e10] at this
      simpa using this
    · rw [hlev]
      unfold listed
      rw [e5, e8]
    · intro hco
      exact hr.no_count (by simp [Options.counts, e14, hco])
    · intro hni
      exact hr.no_indent (by rw [e11, hni])

theorem buildTocs_ok {E : Env} {o : Options} {fs : FS} {names : List Str} (h : ∀ f ∈ names, f ≠ "-".toList ∧ ∃ out, buildToc E o f (fs f) = .ok out) (stdin : Stdin) :
    ∃ tocs, buildTocs E o fs names stdin = .ok tocs := by
  induction names with
  | nil => exact ⟨[], rfl⟩
  | cons f t ih =>
    obtain ⟨tocs, ht⟩ := ih (fun g hg => h g (by simp [hg]))
    obtain ⟨hf, out, ho⟩ := h f (by simp)
    refine ⟨out :: tocs, ?_⟩
    unfold buildTocs
    rw [if_neg (show ¬ f = stdinName from hf), ho]
    simp only [bind, Except.bind, ht]

/-- **C61**: a valid command line for redcarpet without the checks of the list, whose list has no numbers or constant ones, succeeds on all readable text files. -/
theorem C61_succeeds (E : Env) {r : RawArgs} (h : ValidCommand r) (hp : r.parser = "redcarpet".toList) (hi : r.inPlace = false) (hd : r.diff = false)
    (hc : r.noListCoherence = true ∨ r.noIndentation = true) (ho : r.ordered = none ∨ r.constantOrdered = true) (hk : ∀ k, r.skipLines = some k → 0 ≤ k)
    (hne : r.filenames ≠ []) {fs : FS} (hf : ∀ f ∈ r.filenames, f ≠ "-".toList ∧ ∃ text, fs f = some ⟨text, false⟩) (stdin : Stdin) :
    (program E r fs stdin).code = 0 := by
  obtain ⟨a, ha, e1, e2, e3, e4, e5, e6, e7, e8, e9, e10, e11, e12, e13, e14, e15⟩ := parseArgs_valid (p := .redcarpet) h (by rw [hp]; simp [parserNames])
  have hprog : program E r fs stdin = cliMain E a fs stdin := by unfold program; rw [ha]
  rw [hprog]
  have hb : ∃ tocs, buildMultipleTocs E a.options fs stdin a.filenames = .ok tocs := by
    unfold buildMultipleTocs defaultNames
    rw [e1, if_neg (by simpa using hne)]
    apply buildTocs_ok
    intro f hm
    obtain ⟨h1, text, h2⟩ := hf f hm
    refine ⟨h1, ?_⟩
    rw [h2]
    cases hb : buildToc E a.options f (some ⟨text, false⟩) with
    | ok out => exact ⟨out, rfl⟩
    | error e =>
      exfalso
      have hskip : ¬ a.options.skipLines < 0 := by
        rw [e13]
        cases hs : r.skipLines with
        | none => simp
        | some k => have := hk k hs; simp; omega
      have hkeep : ¬ a.options.keep < 1 := by
        rw [e8]
        unfold commandLevels
        rcases hl : r.headerLevels with _ | _ | l
        · simp
        · simp
        · have := h.levels l hl
          simp only
          omega
      rcases C57_exceptions hb with ⟨-, h3⟩ | ⟨-, h3⟩ | ⟨text', bad, vs, h3, -, h4⟩
      · exact hskip h3
      · simp at h3
      · rcases h4 with ⟨-, h4⟩ | ⟨-, h4⟩ | ⟨h4, -⟩ | ⟨-, h4, -⟩ | ⟨-, h4, h5⟩ | ⟨-, h4, h5⟩ | ⟨-, h4, h5⟩
        · simp at h3; rw [h4] at h3; simp at h3
        · exact hkeep h4
        · exact h4 e5
        · exact h4 e5
        · rcases ho with ho | ho
          · rw [e6] at h4
            rw [e14] at h5
            simp [commandOrdered, ho, h5] at h4
          · rw [e14, ho] at h5; simp at h5
        · rcases hc with hc | hc
          · rw [e12, hc] at h5; simp at h5
          · rw [e11, hc] at h4; simp at h4
        · exact h5 (e15 (by rw [← e6]; exact h4))
  obtain ⟨tocs, hb⟩ := hb
  obtain ⟨h1, h2, -⟩ := C46_print (by rw [e2, hi]) hb
  rcases C46_codes E a fs stdin with h3 | h3 | h3
  · exact h3
  · have := (h1.mp h3).1; rw [e3, hd] at this; simp at this
  · have := (h2.mp h3).1; rw [e3, hd] at this; simp at this

/-- A command line with many options. -/
example : ValidCommand { parser := "gitlab".toList, filenames := ["a.md".toList], ordered := some (some ")".toList), headerLevels := some (some 2), noListCoherence := true, newline := some "\\r\\n".toList, skipLines := some 1 } where
  parser := ⟨.gitlab, by simp [parserNames]⟩
  bullet := by simp
  delimiter := by
    intro p v hp hv
    have : p = .gitlab := by revert hp; simp [parserNames]
    subst this
    simp at hv
    subst hv
    decide
  levels := by intro l hl; simp at hl; omega
  newline := by intro s hs; simp at hs; subst hs; decide
  lists := by simp
  indent := by simp

example : (program asciiEnv { parser := "gitlab".toList, filenames := ["a.md".toList], ordered := some (some ")".toList), headerLevels := some (some 2), noListCoherence := true, newline := some "\\r\\n".toList, skipLines := some 1 }
      (fun _ => some ⟨"# t\n# a\n### b\n## c\n".toList, false⟩) none).out =
    "1) [a](#a)\r\n   1) [c](#c)\r\n".toList := by decide +kernel

/-- Rejected command lines. -/
example : (program asciiEnv { parser := "github".toList, headerLevels := some (some 7) } (fun _ => none) none).code = 2 ∧
    (program asciiEnv { parser := "pandoc".toList } (fun _ => none) none).code = 2 ∧
    (program asciiEnv { parser := "redcarpet".toList, ordered := some (some ")".toList) } (fun _ => none) none).code = 2 ∧
    (program asciiEnv { parser := "github".toList, ordered := some none, unordered := some (some "+".toList) } (fun _ => none) none).code = 2 ∧
    (program asciiEnv { parser := "github".toList, newline := some "\n".toList } (fun _ => none) none).code = 2 := by decide +kernel

/-! ### C62 -/

/-- **C62**, partial: a valid command line for one file, in place: the lines before and after the region stay, the new region is the list of the headings with the marker, the
newline and the options of the command line.  Missing (and false): the newlines outside of the region are replaced too. -/
theorem C62_region_partial {E : Env} {r : RawArgs} {p : Parser} (h : ValidCommand r) (hp : (r.parser, p) ∈ parserNames) (hi : r.inPlace = true) {f : Str} (hf : r.filenames = [f])
    {fs : FS} {ls : List Str} (hls : HasLines fs f ls) {stdin : Stdin} (hc : (program E r fs stdin).code ≠ 1) {before removed after : List Str}
    (hcut : Cut E.isDigit (r.tocMarker.getD "<!--TOC-->".toList) ls before removed after) {vs : List Str}
    (hv : SeenLines p true (ls.drop (r.skipLines.getD 0).toNat) vs) {heads : List (Nat × Str)} (hh : Headings p r.noLinks vs heads) :
    ∃ (es : List Entry) (core : Str) (fs' : FS), (program E r fs stdin).out = [] ∧ (program E r fs stdin).trace.getLast? = some fs' ∧
      fs' f = some ⟨before.flatten ++ block core (r.tocMarker.getD "<!--TOC-->".toList) (commandNewline r) ++ after.flatten, false⟩ ∧ (∀ g, g ≠ f → fs' g = fs g) ∧
      TrimmedRight isPySpace (es.map (Entry.line (commandOrdered r) r.noLinks (commandMarker r) (commandNewline r))).flatten core ∧
      es.map (fun e => (e.level, e.text)) = heads.filter (fun x => decide (p = .redcarpet) || decide ((x.1 : Int) ≤ commandLevels r)) := by
  obtain ⟨a, ha, e1, e2, e3, e4, e5, e6, e7, e8, e9, e10, e11, e12, e13, e14, e15⟩ := parseArgs_valid h hp
  have hprog : program E r fs stdin = cliMain E a fs stdin := by unfold program; rw [ha]
  rw [hprog] at hc ⊢
  obtain ⟨hs, text, ht, hl⟩ := id hls
  cases hb : buildMultipleTocs E a.options fs stdin a.filenames with
  | error e => rw [C46_build_fails hb] at hc; simp at hc
  | ok tocs =>
    have hb' : ∃ out, tocs = [out] ∧ buildToc E a.options f (some ⟨text, false⟩) = .ok out := by
      rw [e1, hf] at hb
      unfold buildMultipleTocs defaultNames at hb
      simp only [List.length_singleton, Nat.one_ne_zero, if_false] at hb
      unfold buildTocs at hb
      rw [if_neg (show ¬ f = stdinName from hs), ht] at hb
      cases hb2 : buildToc E a.options f (some ⟨text, false⟩) with
      | error e => rw [hb2] at hb; simp [bind, Except.bind] at hb
      | ok out =>
        rw [hb2] at hb
        simp [bind, Except.bind, buildTocs] at hb
        exact ⟨out, hb.symm, rfl⟩
    obtain ⟨out, rfl, hb2⟩ := hb'
    have hlk : Looks a.options f text vs := by
      refine ⟨ls, hl, ?_⟩
      rw [e5, e13, decide_eq_true (show f ≠ "-".toList from hs)]
      exact hv
    obtain ⟨hs', es, st, hr, htab⟩ := buildToc_run hb2 hlk
    have hlev := table_levels htab (by rw [e5, e10]; exact hh)
    have hout : out = (es.map (Entry.line (commandOrdered r) r.noLinks (commandMarker r) (commandNewline r))).flatten := by
      have := htab.2
      rw [e5, e6, e7, e9, e10] at this
      exact this
    obtain ⟨core, hcore⟩ : ∃ core, TrimmedRight isPySpace out core := ⟨_, trimmedRight_iff.mpr rfl⟩
    obtain ⟨r', hw, -, ho⟩ := C46_in_place (by rw [e2, hi]) hb
    have hnames : (namesOf a).zip [out] = [(f, out)] := by
      unfold namesOf
      rw [e1, hf]
      simp
    rw [hnames, e4, e9] at hw
    obtain ⟨b, tr, hws, hlast⟩ := C37_outside_preserved E hls out (r.tocMarker.getD "<!--TOC-->".toList) (commandNewline r) hcut hcore
    refine ⟨es, core, fs.write f (before.flatten ++ block core (r.tocMarker.getD "<!--TOC-->".toList) (commandNewline r) ++ after.flatten), ho, ?_, by simp [FS.write], ?_, by rw [← hout]; exact hcore, ?_⟩
    · generalize (cliMain E a fs stdin).trace = t at hw
      cases hw with
      | failed h => rw [hws] at h; cases h
      | ok h h' =>
        rw [hws] at h
        cases h
        cases h'
        rw [List.append_nil, List.getLast?_map, hlast]
        rfl
    · intro g hg
      simp [FS.write, hg]
    · rw [hlev]
      unfold listed
      rw [e5, e8]

/-- **C62 is false**: the help text says that in place all the newlines of the file are replaced by the newline string; they are not. -/
theorem C62_violation : ((program asciiEnv { parser := "github".toList, filenames := ["a.md".toList], inPlace := true, newline := some "\\r\\n".toList }
      (fun _ => some ⟨"<!--TOC-->\n# a\n".toList, false⟩) none).trace.getLast?.bind (fun fs => fs "a.md".toList)).map (·.text) =
    some "<!--TOC-->\r\n\r\n- [a](#a)\r\n\r\n<!--TOC-->\r\n# a\n".toList := by decide +kernel

end MdToc.Props
