import Verif.Props.Workflow

/-!
# Repeating a run that was stopped (C92)
-/

set_option linter.unusedSimpArgs false

namespace MdToc.Props

open MdToc.Spec

/-- The file system is between those of the start and of the end: every file is as before or as after the run. -/
def Between (fs fin g : FS) : Prop := ∀ f, g f = fs f ∨ g f = fin f

/-- **C92**: a run is repeated with some of the files as before and the others as after it: the second run does not fail and ends with the same files as the first one. -/
theorem C92_resume {E : Env} (hE : E.Lawful) {a : CliArgs} (hin : a.inPlace = true) (hne : a.filenames ≠ []) (hnd : a.filenames.Nodup)
    (hk : 1 ≤ a.headerLevels) (hn : IsEol a.options.newline []) (hg : GoodMarker a.tocMarker) {fs : FS} (hf : ∀ f ∈ a.filenames, HasPlace E a fs f ∨ NoPlace a fs f)
    (hrec : ∀ f ∈ a.filenames, HasPlace E a fs f → ∀ out, buildToc E a.options f (fs f) = .ok out → ∃ core, Recognisable E.isDigit out core a.tocMarker a.options.newline)
    {stdin : Stdin} (h : (cliMain E a fs stdin).code ≠ 1) {g : FS} (hb : Between fs (after E a fs stdin) g) :
    (cliMain E a g stdin).code ≠ 1 ∧ after E a g stdin = after E a fs stdin := by
  obtain ⟨hnames, hstd⟩ := names_place hne hf
  obtain ⟨tocs, b, hbt, hw, hfst, hoth, key⟩ := update_run hE hin hne hnd hk hn hg hf hrec h
  obtain ⟨hlen, hbs⟩ := (tables_iff hnames hstd fs stdin tocs).mp hbt
  have hnd' : ((a.filenames.zip tocs).map Prod.fst).Nodup := by rw [hfst]; exact hnd
  -- each file in the second run
  have key2 : ∀ p ∈ a.filenames.zip tocs, buildToc E a.options p.1 (g p.1) = .ok p.2 ∧
      ∃ x cs, writeString E g p.1 p.2 a.tocMarker a.options.newline = .ok (x, cs) ∧ lastFS g p.1 cs p.1 = after E a fs stdin p.1 := by
    intro p hp
    obtain ⟨⟨x, cs, k1, k2⟩, k3, ⟨y, ds, k4, k5⟩, -⟩ := key p hp
    have hcongr : ∀ {g' : FS} (es : List Str), g p.1 = g' p.1 → lastFS g p.1 es p.1 = lastFS g' p.1 es p.1 := by
      intro g' es he
      unfold lastFS
      cases es.getLast? with
      | none => exact he
      | some t => simp [FS.write]
    rcases hb p.1 with he | he
    · exact ⟨by rw [he]; exact hbs p hp, x, cs, by rw [writeString_congr he]; exact k1, by rw [hcongr cs he, k2]⟩
    · exact ⟨by rw [he]; exact k3, y, ds, by rw [writeString_congr he]; exact k4, by rw [hcongr ds he, k5]⟩
  have hbt2 := (tables_iff hnames hstd g stdin tocs).mpr ⟨hlen, fun p hp => (key2 p hp).1⟩
  obtain ⟨r, hw2, hcode, -⟩ := C46_in_place hin hbt2 (stdin := stdin)
  rw [hnames] at hw2
  obtain ⟨b2, rfl⟩ := writes_ok hw2 hnd' (fun p hp => by
    obtain ⟨-, x, cs, h1, -⟩ := key2 p hp
    exact ⟨x, cs, h1⟩)
  refine ⟨by rw [hcode]; simp only; split <;> decide, ?_⟩
  obtain ⟨v1, v2⟩ := writes_final hw2 hnd' rfl
  funext f
  by_cases hfm : f ∈ (a.filenames.zip tocs).map Prod.fst
  · obtain ⟨p, hp, rfl⟩ := List.mem_map.mp hfm
    obtain ⟨-, x, cs, h1, h2⟩ := key2 p hp
    obtain ⟨x', cs', h1', h2'⟩ := v1 p hp
    rw [h1] at h1'
    injection h1' with h1'
    injection h1' with _ e2
    subst e2
    rw [← h2, ← h2']
    rfl
  · have e1 : after E a g stdin f = g f := v2 f hfm
    rw [hfst] at hfm
    rw [e1, hoth f hfm]
    exact (hb f).elim id (fun e => by rw [e, hoth f hfm])

/-- The states of several writes: between the start and the end, or one file has a content which is not the last one of its write. -/
theorem writes_states {E : Env} {marker nl : Str} {fs : FS} {ps : List (Str × Str)} {tr : List FS} {r : Except Exn Bool}
    (h : Writes E marker nl fs ps tr r) (hd : (ps.map Prod.fst).Nodup) {b : Bool} (hb : r = .ok b) :
    ∀ s ∈ tr, Between fs (tr.getLast?.getD fs) s ∨
      ∃ p ∈ ps, ∃ x cs t, writeString E fs p.1 p.2 marker nl = .ok (x, cs) ∧ t ∈ cs.dropLast ∧ s p.1 = some ⟨t, false⟩ ∧
        ∀ f, f ≠ p.1 → s f = fs f ∨ s f = (tr.getLast?.getD fs) f := by
  induction h generalizing b with
  | nil => simp
  | failed => simp at hb
  | @ok fs f s rest b0 contents tr r hw hr ih =>
    simp only [List.map_cons, List.nodup_cons] at hd
    cases r with
    | error e => simp [Except.map] at hb
    | ok x =>
      have hlast : ((contents.map (fs.write f) ++ tr).getLast?).getD fs = (tr.getLast?).getD (lastFS fs f contents) := by
        rw [List.getLast?_append]
        cases ht : tr.getLast? with
        | some t => simp
        | none =>
          have := lastFS_eq fs f contents
          unfold traceFS at this
          simpa using this
      have hfin := (writes_final hr hd.2 rfl).2 f hd.1
      rw [hlast]
      intro st hst
      rcases List.mem_append.mp hst with hst | hst
      · obtain ⟨t, ht, rfl⟩ := List.mem_map.mp hst
        by_cases hl : contents.getLast? = some t
        · left
          intro g
          by_cases hgf : g = f
          · subst hgf
            right
            rw [hfin]
            simp [lastFS, hl]
          · left
            simp [FS.write, hgf]
        · right
          refine ⟨(f, s), List.mem_cons_self, b0, contents, t, hw, ?_, by simp [FS.write], fun g hgf => .inl (by simp [FS.write, hgf])⟩
          rcases List.eq_nil_or_concat contents with rfl | ⟨cs, z, rfl⟩
          · simp at ht
          · rw [List.concat_eq_append] at *
            simp only [List.getLast?_append, List.getLast?_singleton, Option.some_or, Option.some.injEq] at hl
            simp only [List.mem_append, List.mem_singleton] at ht
            simp only [List.dropLast_concat]
            exact ht.resolve_right (fun h => hl h.symm)
      · rcases ih hd.2 rfl st hst with h1 | ⟨p, hp, x', cs, t, h1, h2, h3, h4⟩
        · left
          intro g
          by_cases hgf : g = f
          · subst hgf
            right
            rcases h1 g with h1 | h1
            · rw [h1, hfin]
            · exact h1
          · rcases h1 g with h1 | h1
            · left; rw [h1]; exact lastFS_other hgf _
            · exact .inr h1
        · right
          have hne : p.1 ≠ f := fun he => hd.1 (he ▸ List.mem_map.mpr ⟨p, hp, rfl⟩)
          refine ⟨p, by simp [hp], x', cs, t, ?_, h2, h3, ?_⟩
          · rw [← h1]; exact (writeString_congr (lastFS_other hne _) _ _ _).symm
          · intro g hg
            by_cases hgf : g = f
            · subst hgf
              right
              rcases h4 g hg with h4 | h4
              · rw [h4, hfin]
              · exact h4
            · rcases h4 g hg with h4 | h4
              · left; rw [h4]; exact lastFS_other hgf _
              · exact .inr h4

/-- **C92**: the states in which a run can be stopped.  Every file is as before or as after the run, with the exception of at most one; this one has lost its old
table and its markers. -/
theorem C92_states {E : Env} (hE : E.Lawful) {a : CliArgs} (hin : a.inPlace = true) (hne : a.filenames ≠ []) (hnd : a.filenames.Nodup)
    (hk : 1 ≤ a.headerLevels) (hn : IsEol a.options.newline []) (hg : GoodMarker a.tocMarker) {fs : FS} (hf : ∀ f ∈ a.filenames, HasPlace E a fs f ∨ NoPlace a fs f)
    (hrec : ∀ f ∈ a.filenames, HasPlace E a fs f → ∀ out, buildToc E a.options f (fs f) = .ok out → ∃ core, Recognisable E.isDigit out core a.tocMarker a.options.newline)
    {stdin : Stdin} (h : (cliMain E a fs stdin).code ≠ 1) :
    ∀ s ∈ (cliMain E a fs stdin).trace, Between fs (after E a fs stdin) s ∨
      ∃ f ∈ a.filenames, ∃ ls before removed aft, HasLines fs f ls ∧ Cut E.isDigit a.tocMarker ls before removed aft ∧ removed ≠ [] ∧
        s f = some ⟨(before ++ aft).flatten, false⟩ ∧ ∀ f', f' ≠ f → s f' = fs f' ∨ s f' = after E a fs stdin f' := by
  obtain ⟨tocs, b, hbt, hw, hfst, hoth, key⟩ := update_run hE hin hne hnd hk hn hg hf hrec h
  intro s hs
  rcases writes_states hw (by rw [hfst]; exact hnd) rfl s hs with h1 | ⟨p, hp, x, cs, t, h1, h2, h3, h4⟩
  · exact .inl h1
  · right
    have hmem : p.1 ∈ a.filenames := by rw [← hfst]; exact List.mem_map.mpr ⟨p, hp, rfl⟩
    rcases hf p.1 hmem with ⟨ls, before, removed, aft, hls, hc, -⟩ | hno
    · refine ⟨p.1, hmem, ls, before, removed, aft, hls, hc, ?_⟩
      obtain ⟨_, hw'⟩ := C43_states E hls p.2 a.tocMarker a.options.newline hc (trimmedRight_iff.mpr rfl)
      rw [h1] at hw'
      injection hw' with hw'
      injection hw' with _ e
      rw [e] at h2
      simp only [List.dropLast_concat] at h2
      by_cases hr : removed = []
      · rw [if_pos hr] at h2; simp at h2
      · rw [if_neg hr] at h2
        simp only [List.mem_singleton] at h2
        subst h2
        exact ⟨hr, h3, h4⟩
    · rw [noPlace_update hno h1] at h2
      simp at h2

/-- **C92** for tables with links, except for redcarpet with indentation: a run that was stopped while no file was without its table can be repeated. -/
theorem C92_stopped_partial {E : Env} (hE : E.Lawful) {a : CliArgs} (hin : a.inPlace = true) (hne : a.filenames ≠ []) (hnd : a.filenames.Nodup)
    (hp : a.parser ≠ .redcarpet ∨ a.noIndentation = true) (hl : a.noLinks = false) (hk : 1 ≤ a.headerLevels) (hn : IsEol a.options.newline [])
    (hg : GoodMarker a.tocMarker) (hm : NotItem a.tocMarker) {fs : FS} (hf : ∀ f ∈ a.filenames, HasPlace E a fs f ∨ NoPlace a fs f) {stdin : Stdin}
    (h : (cliMain E a fs stdin).code ≠ 1) :
    ∀ s ∈ (cliMain E a fs stdin).trace,
      ((cliMain E a s stdin).code ≠ 1 ∧ after E a s stdin = after E a fs stdin) ∨
      ∃ f ∈ a.filenames, ∃ ls before removed aft, HasLines fs f ls ∧ Cut E.isDigit a.tocMarker ls before removed aft ∧ removed ≠ [] ∧
        s f = some ⟨(before ++ aft).flatten, false⟩ ∧ ∀ f', f' ≠ f → s f' = fs f' ∨ s f' = after E a fs stdin f' := by
  have hrec : ∀ f ∈ a.filenames, HasPlace E a fs f → ∀ out, buildToc E a.options f (fs f) = .ok out →
      ∃ core, Recognisable E.isDigit out core a.tocMarker a.options.newline := by
    rintro f - ⟨_, _, _, _, ⟨-, text, hft, -⟩, -⟩ out hb
    rw [hft] at hb
    exact C44_recognisable_partial (o := a.options) hE hp hl hn hb hm
  intro s hs
  exact (C92_states hE hin hne hnd hk hn hg hf hrec h s hs).imp_left (C92_resume hE hin hne hnd hk hn hg hf hrec h)

/-- **C92** is false for the state in which a file has lost its table: a second run leaves it like that. -/
theorem C92_violation :
    let a : CliArgs := { filenames := ["a".toList], inPlace := true }
    let fs : FS := fun _ => some ⟨"x\n<!--TOC-->\n# a\n".toList, false⟩
    let s := ((cliMain asciiEnv a fs none).trace.head?).getD fs
    (cliMain asciiEnv a fs none).code = 0 ∧ after asciiEnv a fs none "a".toList = some ⟨"x\n<!--TOC-->\n\n- [a](#a)\n\n<!--TOC-->\n# a\n".toList, false⟩ ∧
    (cliMain asciiEnv a fs none).trace.length = 2 ∧ s "a".toList = some ⟨"x\n# a\n".toList, false⟩ ∧ (cliMain asciiEnv a s none).code = 0 ∧
    after asciiEnv a s none "a".toList = some ⟨"x\n# a\n".toList, false⟩ := by
  decide +kernel

/-- Two files: the run is stopped after the first one, and repeated. -/
example :
    let a : CliArgs := { filenames := ["a".toList, "b".toList], inPlace := true }
    let fs : FS := fun _ => some ⟨"x\n<!--TOC-->\n# a\n".toList, false⟩
    let s := ((cliMain asciiEnv a fs none).trace[1]?).getD fs
    (cliMain asciiEnv a fs none).trace.length = 4 ∧ s "a".toList = after asciiEnv a fs none "a".toList ∧ s "a".toList ≠ s "b".toList ∧
      after asciiEnv a s none "b".toList = after asciiEnv a fs none "b".toList ∧ after asciiEnv a s none "a".toList = s "a".toList := by
  decide +kernel

end MdToc.Props
