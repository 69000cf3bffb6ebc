import Verif.Props.Cli
import Verif.Props.Stable

/-!
# Updating the tables of several files and then checking them (C91)

The usual way to use the program: `md_toc --in-place` after editing, `md_toc --diff` before a change is accepted.
-/

set_option linter.unusedSimpArgs false

namespace MdToc.Props

open MdToc.Spec

/-- The file has a marker, where the table of contents can be put: see `Cut` and `CleanRegion`. -/
def HasPlace (E : Env) (a : CliArgs) (fs : FS) (f : Str) : Prop :=
  ∃ ls before removed after, HasLines fs f ls ∧ Cut E.isDigit a.tocMarker ls before removed after ∧ IsEol a.options.newline after.flatten ∧
    CleanRegion a.options a.tocMarker before removed

/-- The file has no marker. -/
def NoPlace (a : CliArgs) (fs : FS) (f : Str) : Prop := ∃ ls, HasLines fs f ls ∧ ∀ l ∈ ls, ¬ IsMarker a.tocMarker l

/-- Writing a file depends on the content of this file only. -/
theorem writeString_congr {E : Env} {fs fs' : FS} {f : Str} (h : fs' f = fs f) (string marker nl : Str) :
    writeString E fs' f string marker nl = writeString E fs f string marker nl := by
  unfold writeString
  rw [h]

/-- With line feeds, the table has no carriage return. -/
theorem toc_no_cr {E : Env} (hE : E.Lawful) {o : Options} (hn : o.newline = ['\n']) {fn text out : Str} (h : buildToc E o fn (some ⟨text, false⟩) = .ok out) :
    '\r' ∉ out := by
  obtain ⟨es, f, ho, hi, -⟩ := entries_items hE h
  rw [ho, hn]
  intro hr
  simp only [List.map_map, List.mem_flatten, List.mem_map, Function.comp] at hr
  obtain ⟨_, ⟨e, he, rfl⟩, hr⟩ := hr
  rcases List.mem_append.mp hr with hr | hr
  · exact (hi e he).1 _ hr (by simp [IsNewline])
  · simp at hr

theorem lastFS_self {fs : FS} {f : Str} {tr : List Str} (h : ∀ t ∈ tr.getLast?, fs f = some ⟨t, false⟩) : lastFS fs f tr = fs := by
  unfold lastFS
  cases ht : tr.getLast? with
  | none => rfl
  | some t =>
    funext g
    by_cases hg : g = f
    · subst hg; simp [FS.write, h t (by simp [ht])]
    · simp [FS.write, hg]

/-- One file with a marker: it is written, and then neither the table nor the file change any more. -/
theorem place_update {E : Env} (hE : E.Lawful) {a : CliArgs} (hk : 1 ≤ a.headerLevels) (hn : IsEol a.options.newline []) (hg : GoodMarker a.tocMarker) {fs : FS} {f : Str}
    (hf : HasPlace E a fs f) {out : Str} (hb : buildToc E a.options f (fs f) = .ok out) {core : Str} (hcore : Recognisable E.isDigit out core a.tocMarker a.options.newline)
    {b : Bool} {tr : List Str}
    (hw : writeString E fs f out a.tocMarker a.options.newline = .ok (b, tr)) :
    tr ≠ [] ∧ buildToc E a.options f (lastFS fs f tr f) = .ok out ∧
      (∃ b' tr', writeString E (lastFS fs f tr) f out a.tocMarker a.options.newline = .ok (b', tr') ∧ lastFS (lastFS fs f tr) f tr' = lastFS fs f tr) ∧
      (a.options.newline = ['\n'] → tocsEqual E out (lastFS fs f tr f) a.tocMarker = .ok true) := by
  obtain ⟨ls, before, removed, after, ⟨hfn, text, hft, hR⟩, hc, he, hr⟩ := hf
  have h2 := hb
  rw [hft] at h2
  obtain ⟨_, _, hw1, hlast⟩ := C37_outside_preserved E ⟨hfn, text, hft, hR⟩ out a.tocMarker a.options.newline hc hcore.1
  rw [hw] at hw1
  injection hw1 with hw1
  injection hw1 with e1 e2
  subst e1; subst e2
  refine ⟨fun e => by rw [e] at hlast; simp at hlast, C45_stable hE (o := a.options) hk hn ⟨hfn, text, hft, hR⟩ hg hc he hr hb hw, ?_, ?_⟩
  · obtain ⟨b', tr', hw', hl'⟩ := C38_twice_partial E ⟨hfn, text, hft, hR⟩ hc hg hcore he hw
    refine ⟨b', tr', hw', lastFS_self ?_⟩
    intro t ht
    rw [hl'] at ht
    unfold lastFS
    simp only [Option.mem_def] at ht
    rw [ht]
    simp [FS.write]
  · intro hnl
    refine C39_up_to_date_partial E ⟨hfn, text, hft, hR⟩ hc hg hcore he ?_ hw
    obtain ⟨r, er, -⟩ := hcore.1
    exact fun hcr => toc_no_cr hE hnl h2 (er ▸ List.mem_append_left _ hcr)

theorem noPlace_update {E : Env} {a : CliArgs} {fs : FS} {f : Str} (hf : NoPlace a fs f) {out : Str} {b : Bool} {tr : List Str}
    (hw : writeString E fs f out a.tocMarker a.options.newline = .ok (b, tr)) : tr = [] := by
  obtain ⟨ls, hls, hno⟩ := hf
  obtain ⟨b', h⟩ := C36_no_marker E hls out a.options.newline hno
  rw [hw] at h
  injection h with h
  injection h

theorem buildTocs_iff {E : Env} {o : Options} {fs : FS} {names : List Str} (hs : "-".toList ∉ names) {stdin : Stdin} {tocs : List Str} :
    buildTocs E o fs names stdin = .ok tocs ↔ names.length = tocs.length ∧ ∀ p ∈ names.zip tocs, buildToc E o p.1 (fs p.1) = .ok p.2 := by
  induction names generalizing tocs with
  | nil => cases tocs <;> simp [buildTocs]
  | cons f t ih =>
    have hf : f ≠ stdinName := fun e => hs (by rw [e]; exact List.mem_cons_self)
    have iht := fun ts => ih (fun h => hs (List.mem_cons_of_mem _ h)) (tocs := ts)
    unfold buildTocs
    rw [if_neg hf]
    simp only [bind, Except.bind]
    cases ha : buildToc E o f (fs f) with
    | error e => cases tocs <;> simp [ha]
    | ok x =>
      simp only
      cases hb : buildTocs E o fs t stdin with
      | error e =>
        cases tocs with
        | nil => simp
        | cons y ts =>
          simp only [reduceCtorEq, false_iff, List.length_cons, Nat.add_right_cancel_iff, List.zip_cons_cons, List.mem_cons, forall_eq_or_imp, ha]
          rintro ⟨h1, h2, h3⟩
          have := (iht ts).mpr ⟨h1, h3⟩
          rw [hb] at this
          simp at this
      | ok r =>
        cases tocs with
        | nil => simp
        | cons y ts =>
          simp only [Except.ok.injEq, List.cons.injEq, List.length_cons, Nat.add_right_cancel_iff, List.zip_cons_cons, List.mem_cons, forall_eq_or_imp, ha]
          have i := iht ts
          rw [hb] at i
          simp only [Except.ok.injEq] at i
          rw [i]
          exact and_left_comm

/-- What the files are after different files were written. -/
theorem writes_final {E : Env} {marker nl : Str} {fs : FS} {ps : List (Str × Str)} {tr : List FS} {r : Except Exn Bool}
    (h : Writes E marker nl fs ps tr r) (hd : (ps.map Prod.fst).Nodup) {b : Bool} (hb : r = .ok b) :
    (∀ p ∈ ps, ∃ x cs, writeString E fs p.1 p.2 marker nl = .ok (x, cs) ∧ (tr.getLast?.getD fs) p.1 = lastFS fs p.1 cs p.1) ∧
      ∀ f, f ∉ ps.map Prod.fst → (tr.getLast?.getD fs) f = fs f := by
  induction h generalizing b with
  | nil => simp
  | failed => simp at hb
  | @ok fs f s rest b0 contents tr r hw hr ih =>
    simp only [List.map_cons, List.nodup_cons] at hd
    cases r with
    | error e => simp [Except.map] at hb
    | ok x =>
      obtain ⟨i1, i2⟩ := ih hd.2 rfl
      have hlast : ((contents.map (fs.write f) ++ tr).getLast?).getD fs = (tr.getLast?).getD (lastFS fs f contents) := by
        rw [List.getLast?_append]
        cases ht : tr.getLast? with
        | some t => simp
        | none =>
          have := lastFS_eq fs f contents
          unfold traceFS at this
          simpa using this
      rw [hlast]
      constructor
      · intro p hp
        rcases List.mem_cons.mp hp with rfl | hp
        · exact ⟨_, _, hw, i2 f hd.1⟩
        · have hne : p.1 ≠ f := fun he => hd.1 (he ▸ List.mem_map.mpr ⟨p, hp, rfl⟩)
          obtain ⟨y, cs, h1, h2⟩ := i1 p hp
          refine ⟨y, cs, ?_, ?_⟩
          · rw [← h1]; exact (writeString_congr (lastFS_other hne _) _ _ _).symm
          · rw [h2]
            unfold lastFS
            cases cs.getLast? with
            | none => exact lastFS_other hne _
            | some t => simp [FS.write]
      · intro g hgn
        simp only [List.map_cons, List.mem_cons, not_or] at hgn
        rw [i2 g hgn.2]
        exact lastFS_other hgn.1 _

/-- Writing tables that are there already changes nothing. -/
theorem writes_same {E : Env} {marker nl : Str} {fs : FS} {ps : List (Str × Str)} {tr : List FS} {r : Except Exn Bool} (h : Writes E marker nl fs ps tr r)
    (hs : ∀ p ∈ ps, ∃ x cs, writeString E fs p.1 p.2 marker nl = .ok (x, cs) ∧ lastFS fs p.1 cs = fs) :
    (∃ b, r = .ok b) ∧ (tr.getLast?).getD fs = fs := by
  induction h with
  | nil => simp
  | failed hw =>
    obtain ⟨x, cs, h1, -⟩ := hs _ List.mem_cons_self
    rw [hw] at h1
    simp at h1
  | @ok fs f s rest b0 contents tr r hw hr ih =>
    obtain ⟨x, cs, h1, h2⟩ := hs _ List.mem_cons_self
    rw [hw] at h1
    injection h1 with h1
    injection h1 with e1 e2
    subst e1; subst e2
    simp only at h2
    rw [h2] at ih
    obtain ⟨⟨b, hb⟩, i2⟩ := ih (fun p hp => hs p (by simp [hp]))
    refine ⟨⟨b0 && b, by rw [hb]; rfl⟩, ?_⟩
    rw [List.getLast?_append]
    cases ht : tr.getLast? with
    | some t => rw [ht] at i2; simpa using i2
    | none =>
      have := lastFS_eq fs f contents
      unfold traceFS at this
      simpa [h2] using this

/-- The file systems before and after a run. -/
def after (E : Env) (a : CliArgs) (fs : FS) (stdin : Stdin) : FS := ((cliMain E a fs stdin).trace.getLast?).getD fs

/-- The names of the files of the run, none of which is the standard input. -/
theorem names_place {E : Env} {a : CliArgs} (hne : a.filenames ≠ []) {fs : FS} (hf : ∀ f ∈ a.filenames, HasPlace E a fs f ∨ NoPlace a fs f) :
    namesOf a = a.filenames ∧ "-".toList ∉ a.filenames := by
  refine ⟨by unfold namesOf; rw [if_neg hne], fun hi => ?_⟩
  rcases hf _ hi with ⟨_, _, _, _, h, _⟩ | ⟨_, h, _⟩ <;> exact h.1 rfl

theorem tables_iff {E : Env} {a : CliArgs} (hnames : namesOf a = a.filenames) (hstd : "-".toList ∉ a.filenames) (g : FS) (stdin : Stdin) (tocs : List Str) :
    buildMultipleTocs E a.options g stdin a.filenames = .ok tocs ↔
      a.filenames.length = tocs.length ∧ ∀ p ∈ a.filenames.zip tocs, buildToc E a.options p.1 (g p.1) = .ok p.2 := by
  unfold buildMultipleTocs
  rw [defaultNames_eq, hnames]
  exact buildTocs_iff hstd

/-- A run in place that does not fail: the tables, the states, each file after it. -/
theorem update_run {E : Env} (hE : E.Lawful) {a : CliArgs} (hin : a.inPlace = true) (hne : a.filenames ≠ []) (hnd : a.filenames.Nodup)
    (hk : 1 ≤ a.headerLevels) (hn : IsEol a.options.newline []) (hg : GoodMarker a.tocMarker) {fs : FS} (hf : ∀ f ∈ a.filenames, HasPlace E a fs f ∨ NoPlace a fs f)
    (hrec : ∀ f ∈ a.filenames, HasPlace E a fs f → ∀ out, buildToc E a.options f (fs f) = .ok out → ∃ core, Recognisable E.isDigit out core a.tocMarker a.options.newline)
    {stdin : Stdin} (h : (cliMain E a fs stdin).code ≠ 1) :
    ∃ tocs b, buildMultipleTocs E a.options fs stdin a.filenames = .ok tocs ∧ Writes E a.tocMarker a.options.newline fs (a.filenames.zip tocs) (cliMain E a fs stdin).trace (.ok b) ∧
      (a.filenames.zip tocs).map Prod.fst = a.filenames ∧ (∀ f, f ∉ a.filenames → after E a fs stdin f = fs f) ∧
      ∀ p ∈ a.filenames.zip tocs, (∃ x cs, writeString E fs p.1 p.2 a.tocMarker a.options.newline = .ok (x, cs) ∧ after E a fs stdin p.1 = lastFS fs p.1 cs p.1) ∧
          buildToc E a.options p.1 (after E a fs stdin p.1) = .ok p.2 ∧
          (∃ x cs, writeString E (after E a fs stdin) p.1 p.2 a.tocMarker a.options.newline = .ok (x, cs) ∧
            lastFS (after E a fs stdin) p.1 cs = after E a fs stdin) ∧
          (a.options.newline = ['\n'] → HasPlace E a fs p.1 → tocsEqual E p.2 (after E a fs stdin p.1) a.tocMarker = .ok true) := by
  obtain ⟨hnames, hstd⟩ := names_place hne hf
  cases hbt : buildMultipleTocs E a.options fs stdin a.filenames with
  | error e =>
    rw [C46_build_fails hbt] at h
    exact absurd rfl h
  | ok tocs =>
    obtain ⟨hlen, hbs⟩ := (tables_iff hnames hstd fs stdin tocs).mp hbt
    obtain ⟨r, hw, hcode, -⟩ := C46_in_place hin hbt (stdin := stdin)
    rw [hnames] at hw
    cases r with
    | error e => exact absurd hcode h
    | ok b =>
      have hfst : ((a.filenames.zip tocs).map Prod.fst) = a.filenames := by rw [List.map_fst_zip (by omega)]
      obtain ⟨w1, w2⟩ := writes_final hw (by rw [hfst]; exact hnd) rfl
      refine ⟨tocs, b, rfl, hw, hfst, fun f hff => w2 f (by rw [hfst]; exact hff), ?_⟩
      have key : ∀ p ∈ a.filenames.zip tocs, buildToc E a.options p.1 (after E a fs stdin p.1) = .ok p.2 ∧
          (∃ x cs, writeString E (after E a fs stdin) p.1 p.2 a.tocMarker a.options.newline = .ok (x, cs) ∧
            lastFS (after E a fs stdin) p.1 cs = after E a fs stdin) ∧
          (a.options.newline = ['\n'] → HasPlace E a fs p.1 → tocsEqual E p.2 (after E a fs stdin p.1) a.tocMarker = .ok true) := by
        intro p hpm
        have hmem : p.1 ∈ a.filenames := by rw [← hfst]; exact List.mem_map.mpr ⟨p, hpm, rfl⟩
        obtain ⟨x, cs, hx, hlast⟩ := w1 p hpm
        have hb := hbs p hpm
        have hlast' : after E a fs stdin p.1 = lastFS fs p.1 cs p.1 := hlast
        rcases hf p.1 hmem with hpl | hno
        · obtain ⟨core, hcore⟩ := hrec p.1 hmem hpl _ hb
          obtain ⟨-, u1, ⟨b', tr', u2, u3⟩, u4⟩ := place_update hE hk hn hg hpl hb hcore hx
          refine ⟨by rw [hlast']; exact u1, ⟨b', tr', ?_, lastFS_self ?_⟩, fun h1 _ => by rw [hlast']; exact u4 h1⟩
          · rw [← u2]; exact writeString_congr hlast' _ _ _
          · intro t ht
            have := congrFun u3 p.1
            rw [hlast', ← this]
            simp only [Option.mem_def] at ht
            simp [lastFS, ht, FS.write]
        · have hcs := noPlace_update hno hx
          subst hcs
          have hsame : after E a fs stdin p.1 = fs p.1 := hlast'
          refine ⟨by rw [hsame]; exact hb, ⟨x, [], by rw [← hx]; exact writeString_congr hsame _ _ _, rfl⟩, ?_⟩
          rintro - ⟨ls, before, removed, after', hls, hc, -⟩
          exfalso
          obtain ⟨ls', hls', hno'⟩ := hno
          obtain ⟨_, t1, e1, r1⟩ := hls
          obtain ⟨_, t2, e2, r2⟩ := hls'
          rw [e1] at e2
          injection e2 with e2
          injection e2 with e2 _
          subst e2
          have : ls = ls' := by rw [← reads_lines r1 false, ← reads_lines r2 false]
          subst this
          obtain ⟨_, _, hw1, hw2⟩ := C37_outside_preserved E (fs := fs) (f := p.1) ⟨fun e => hstd (e ▸ hmem), t1, e1, r1⟩ p.2 a.tocMarker a.options.newline hc (trimmedRight_iff.mpr rfl)
          rw [hx] at hw1
          injection hw1 with hw1
          injection hw1 with _ hw1
          subst hw1
          simp at hw2
      intro p hpm
      obtain ⟨x, cs, h1, h2⟩ := w1 p hpm
      exact ⟨⟨x, cs, h1, h2⟩, key p hpm⟩

/-- **C91**, several different files, each with or without a marker, whose tables are recognisable: after a run in place that does not fail, a second run in place does not fail
and leaves all files as they are.  With `--diff` it is successful if every file has a marker and lines end with line feeds; so is a run that only compares; and it prints
the tables. -/
theorem C91_recognisable {E : Env} (hE : E.Lawful) {a : CliArgs} (hin : a.inPlace = true) (hne : a.filenames ≠ []) (hnd : a.filenames.Nodup)
    (hk : 1 ≤ a.headerLevels) (hn : IsEol a.options.newline []) (hg : GoodMarker a.tocMarker) {fs : FS} (hf : ∀ f ∈ a.filenames, HasPlace E a fs f ∨ NoPlace a fs f)
    (hrec : ∀ f ∈ a.filenames, HasPlace E a fs f → ∀ out, buildToc E a.options f (fs f) = .ok out → ∃ core, Recognisable E.isDigit out core a.tocMarker a.options.newline)
    {stdin : Stdin} (h : (cliMain E a fs stdin).code ≠ 1) :
    (∀ d, (cliMain E { a with diff := d } (after E a fs stdin) stdin).code ≠ 1 ∧ after E { a with diff := d } (after E a fs stdin) stdin = after E a fs stdin) ∧
    (a.options.newline = ['\n'] → (∀ f ∈ a.filenames, HasPlace E a fs f) →
      (cliMain E { a with diff := true } (after E a fs stdin) stdin).code = 0 ∧
      (cliMain E { a with diff := true, inPlace := false } (after E a fs stdin) stdin).code = 0 ∧
      (cliMain E { a with diff := true, inPlace := false } (after E a fs stdin) stdin).out = (cliMain E { a with inPlace := false, diff := false } fs stdin).out) := by
  obtain ⟨hnames, hstd⟩ := names_place hne hf
  obtain ⟨tocs, b, hbt, hw, hfst, -, key0⟩ := update_run hE hin hne hnd hk hn hg hf hrec h
  obtain ⟨hlen, hbs⟩ := (tables_iff hnames hstd fs stdin tocs).mp hbt
  have key := fun p hpm => (key0 p hpm).2
  have hbt2 : buildMultipleTocs E a.options (after E a fs stdin) stdin a.filenames = .ok tocs := (tables_iff hnames hstd _ _ _).mpr ⟨hlen, fun p hpm => (key p hpm).1⟩
  constructor
  · intro d
    obtain ⟨r2, hw2, hcode2, -⟩ := C46_in_place (a := { a with diff := d }) hin hbt2 (stdin := stdin)
    have hw2' : Writes E a.tocMarker a.options.newline (after E a fs stdin) (a.filenames.zip tocs)
        (cliMain E { a with diff := d } (after E a fs stdin) stdin).trace r2 := by
        rw [show namesOf { a with diff := d } = a.filenames from hnames] at hw2
        exact hw2
    obtain ⟨⟨b2, hb2⟩, hsame⟩ := writes_same hw2' (fun p hpm => (key p hpm).2.1)
    subst hb2
    refine ⟨?_, hsame⟩
    rw [hcode2]
    simp only
    split <;> decide
  · intro hnl hall
    have heq : ∀ p ∈ (namesOf a).zip tocs, tocsEqual E p.2 (after E a fs stdin p.1) a.tocMarker = .ok true := by
      intro p hpm
      rw [hnames] at hpm
      exact (key p hpm).2.2 hnl (hall p.1 (by rw [← hfst]; exact List.mem_map.mpr ⟨p, hpm, rfl⟩))
    have hcodes : ∀ c : Nat, (c = 0 ∨ c = 1 ∨ c = 128) → c ≠ 1 → c ≠ 128 → c = 0 := by omega
    refine ⟨?_, ?_, ?_⟩
    · obtain ⟨r2, hw2, hcode2, -⟩ := C46_in_place (a := { a with diff := true }) hin hbt2 (stdin := stdin)
      have hw2' : Writes E a.tocMarker a.options.newline (after E a fs stdin) (a.filenames.zip tocs)
        (cliMain E { a with diff := true } (after E a fs stdin) stdin).trace r2 := by
        rw [show namesOf { a with diff := true } = a.filenames from hnames] at hw2
        exact hw2
      obtain ⟨⟨b2, hb2⟩, hsame⟩ := writes_same hw2' (fun p hpm => (key p hpm).2.1)
      subst hb2
      have := (writes_result hw2' (by rw [hfst]; exact hnd) rfl).1.mpr (by rw [← hnames]; exact heq)
      rw [hcode2, this]
      simp
    · obtain ⟨c1, c2, -, -⟩ := C46_print (a := { a with diff := true, inPlace := false }) rfl hbt2 (stdin := stdin)
      refine hcodes _ (C46_codes _ _ _ _) ?_ ?_
      · rw [ne_eq, c1]
        rintro ⟨-, p, hpm, e, he⟩
        have := heq p hpm
        rw [he] at this
        simp at this
      · rw [ne_eq, c2]
        rintro ⟨-, -, p, hpm, he⟩
        have := heq p hpm
        rw [he] at this
        simp at this
    · obtain ⟨c1, c2, c3, -⟩ := C46_print (a := { a with diff := true, inPlace := false }) rfl hbt2 (stdin := stdin)
      obtain ⟨d1, d2, d3, -⟩ := C46_print (a := { a with inPlace := false, diff := false }) rfl hbt (stdin := stdin)
      rw [c3 ?_, d3 ?_]
      · rw [ne_eq, d1]; simp
      · rw [ne_eq, c1]
        rintro ⟨-, p, hpm, e, he⟩
        have := heq p hpm
        rw [he] at this
        simp at this

/-- **C91** for tables with links, except for redcarpet with indentation. -/
theorem C91_update_check_partial {E : Env} (hE : E.Lawful) {a : CliArgs} (hin : a.inPlace = true) (hne : a.filenames ≠ []) (hnd : a.filenames.Nodup)
    (hp : a.parser ≠ .redcarpet ∨ a.noIndentation = true) (hl : a.noLinks = false) (hk : 1 ≤ a.headerLevels) (hn : IsEol a.options.newline [])
    (hg : GoodMarker a.tocMarker) (hm : NotItem a.tocMarker) {fs : FS} (hf : ∀ f ∈ a.filenames, HasPlace E a fs f ∨ NoPlace a fs f) {stdin : Stdin}
    (h : (cliMain E a fs stdin).code ≠ 1) :
    (∀ d, (cliMain E { a with diff := d } (after E a fs stdin) stdin).code ≠ 1 ∧ after E { a with diff := d } (after E a fs stdin) stdin = after E a fs stdin) ∧
    (a.options.newline = ['\n'] → (∀ f ∈ a.filenames, HasPlace E a fs f) →
      (cliMain E { a with diff := true } (after E a fs stdin) stdin).code = 0 ∧
      (cliMain E { a with diff := true, inPlace := false } (after E a fs stdin) stdin).code = 0 ∧
      (cliMain E { a with diff := true, inPlace := false } (after E a fs stdin) stdin).out = (cliMain E { a with inPlace := false, diff := false } fs stdin).out) := by
  refine C91_recognisable hE hin hne hnd hk hn hg hf ?_ h
  rintro f - ⟨_, _, _, _, ⟨-, text, hft, -⟩, -⟩ out hb
  rw [hft] at hb
  exact C44_recognisable_partial (o := a.options) hE hp hl hn hb hm

theorem write_total (E : Env) {fs : FS} {f : Str} {ls : List Str} (hf : HasLines fs f ls) (string marker nl : Str) :
    ∃ b tr, writeString E fs f string marker nl = .ok (b, tr) := by
  obtain ⟨b, hb, -⟩ := C40_meaning E hf string marker
  rw [← C40_flag E hf string marker nl] at hb
  cases hw : writeString E fs f string marker nl with
  | error e => rw [hw] at hb; simp [Except.map] at hb
  | ok v => exact ⟨v.1, v.2, rfl⟩

theorem writes_ok {E : Env} {marker nl : Str} {fs : FS} {ps : List (Str × Str)} {tr : List FS} {r : Except Exn Bool} (h : Writes E marker nl fs ps tr r)
    (hd : (ps.map Prod.fst).Nodup) (hs : ∀ p ∈ ps, ∃ x cs, writeString E fs p.1 p.2 marker nl = .ok (x, cs)) : ∃ b, r = .ok b := by
  induction h with
  | nil => exact ⟨_, rfl⟩
  | failed hw =>
    obtain ⟨x, cs, h1⟩ := hs _ List.mem_cons_self
    rw [hw] at h1
    simp at h1
  | @ok fs f s rest b0 contents tr r hw hr ih =>
    simp only [List.map_cons, List.nodup_cons] at hd
    obtain ⟨b, hb⟩ := ih hd.2 (fun p hp => by
      obtain ⟨x, cs, h1⟩ := hs p (by simp [hp])
      refine ⟨x, cs, ?_⟩
      rw [← h1]
      have hne : p.1 ≠ f := fun he => hd.1 (he ▸ List.mem_map.mpr ⟨p, hp, rfl⟩)
      exact writeString_congr (lastFS_other hne _) _ _ _)
    exact ⟨b0 && b, by rw [hb]; rfl⟩

theorem cut_marker {digit : Char → Bool} {marker : Str} {ls before removed after : List Str} (h : Cut digit marker ls before removed after) : ∃ l ∈ ls, IsMarker marker l := by
  rcases h with ⟨m, ⟨rfl, hm, -⟩, -⟩ | ⟨m, mid, m', ⟨rfl, hm, -⟩, -⟩ | ⟨⟨m, mid, m', b, rfl, rfl, -, hm, -⟩, -⟩ <;> exact ⟨m, by simp, hm⟩

/-- **C91**, exactly, for all parsers and options: a second run in place never fails, and it changes no file if and only if the table of every file with a marker looks
like a table of contents (see `C44_exact`, `C44_noLinks_exact` for when it does). -/
theorem C91_exact {E : Env} (hE : E.Lawful) {a : CliArgs} (hin : a.inPlace = true) (hne : a.filenames ≠ []) (hnd : a.filenames.Nodup) (hk : 1 ≤ a.headerLevels)
    (hn : a.options.newline = ['\n'] ∨ a.options.newline = ['\r', '\n']) (hg : GoodMarker a.tocMarker) (hm : NotItem a.tocMarker) {fs : FS}
    (hf : ∀ f ∈ a.filenames, HasPlace E a fs f ∨ NoPlace a fs f) {stdin : Stdin} (h : (cliMain E a fs stdin).code ≠ 1) :
    (cliMain E a (after E a fs stdin) stdin).code ≠ 1 ∧
      (after E a (after E a fs stdin) stdin = after E a fs stdin ↔
        ∀ f ∈ a.filenames, HasPlace E a fs f → ∀ out core, buildToc E a.options f (fs f) = .ok out → TrimmedRight isPySpace out core → LooksLikeToc E.isDigit core) := by
  have hnames : namesOf a = a.filenames := by unfold namesOf; rw [if_neg hne]
  have hstd : "-".toList ∉ a.filenames := by
    intro hi
    rcases hf _ hi with ⟨_, _, _, _, h, _⟩ | ⟨_, h, _⟩ <;> exact h.1 rfl
  have hbm : ∀ (g : FS) (tocs : List Str), (buildMultipleTocs E a.options g stdin a.filenames = .ok tocs ↔
      a.filenames.length = tocs.length ∧ ∀ p ∈ a.filenames.zip tocs, buildToc E a.options p.1 (g p.1) = .ok p.2) := by
    intro g tocs
    unfold buildMultipleTocs
    rw [defaultNames_eq, hnames]
    exact buildTocs_iff hstd
  have hn' : IsEol a.options.newline [] := hn.imp id .inl
  cases hbt : buildMultipleTocs E a.options fs stdin a.filenames with
  | error e =>
    rw [C46_build_fails hbt] at h
    exact absurd rfl h
  | ok tocs =>
    obtain ⟨hlen, hbs⟩ := (hbm fs tocs).mp hbt
    obtain ⟨r, hw, hcode, -⟩ := C46_in_place hin hbt (stdin := stdin)
    rw [hnames] at hw
    cases r with
    | error e => exact absurd hcode h
    | ok b =>
      have hfst : ((a.filenames.zip tocs).map Prod.fst) = a.filenames := by rw [List.map_fst_zip (by omega)]
      have hnd' : ((a.filenames.zip tocs).map Prod.fst).Nodup := by rw [hfst]; exact hnd
      obtain ⟨w1, -⟩ := writes_final hw hnd' rfl
      -- each file after the run: the table is the same, it can be written, and when this changes nothing
      have key : ∀ p ∈ a.filenames.zip tocs, buildToc E a.options p.1 (after E a fs stdin p.1) = .ok p.2 ∧
          ∃ x cs, writeString E (after E a fs stdin) p.1 p.2 a.tocMarker a.options.newline = .ok (x, cs) ∧
            (lastFS (after E a fs stdin) p.1 cs p.1 = after E a fs stdin p.1 ↔
              (HasPlace E a fs p.1 → ∀ core, TrimmedRight isPySpace p.2 core → LooksLikeToc E.isDigit core)) := by
        intro p hpm
        have hmem : p.1 ∈ a.filenames := by rw [← hfst]; exact List.mem_map.mpr ⟨p, hpm, rfl⟩
        obtain ⟨x, cs, hx, hlast⟩ := w1 p hpm
        have hb := hbs p hpm
        have hlast' : after E a fs stdin p.1 = lastFS fs p.1 cs p.1 := hlast
        by_cases hpl : HasPlace E a fs p.1
        · obtain ⟨ls, before, removed, aft, ⟨hfn, text, hft, hR⟩, hc, he, hr⟩ := id hpl
          have h2 := hb
          rw [hft] at h2
          obtain ⟨core, cl, ht, hcl, hitems, heol⟩ := toc_core hE hn' h2
          obtain ⟨_, _, hw1, hlst⟩ := C37_outside_preserved E ⟨hfn, text, hft, hR⟩ p.2 a.tocMarker a.options.newline hc ht
          rw [hx] at hw1
          injection hw1 with hw1
          injection hw1 with e1 e2
          subst e1; subst e2
          have hcm : ∀ cl, Reads core cl → ∀ l ∈ cl, ¬ IsMarker a.tocMarker l := by
            intro cl' hcl' l hl
            have := reads_lines hcl false
            rw [reads_lines hcl' false] at this
            subst this
            obtain ⟨b, hb1, hb2⟩ := hitems l hl
            exact item_not_marker hm hb1 hb2
          have hex := C38_exact E ⟨hfn, text, hft, hR⟩ (cut_marker hc) hg ht hcm hn hx
          have hst := C45_stable hE (o := a.options) hk hn' ⟨hfn, text, hft, hR⟩ hg hc he hr hb hx
          refine ⟨by rw [hlast']; exact hst, ?_⟩
          have hnew : lastFS fs p.1 cs p.1 = some ⟨before.flatten ++ block core a.tocMarker a.options.newline ++ aft.flatten, false⟩ := by
            simp [lastFS, hlst, FS.write]
          obtain ⟨mid, hls2, -⟩ := written_any hR hc hg ht heol he
          obtain ⟨x2, cs2, hx2⟩ := write_total E (fs := after E a fs stdin) (f := p.1) ⟨hfn, _, by rw [hlast', hnew], hls2⟩ p.2 a.tocMarker a.options.newline
          refine ⟨x2, cs2, hx2, ?_⟩
          have hx2' : writeString E (lastFS fs p.1 cs) p.1 p.2 a.tocMarker a.options.newline = .ok (x2, cs2) := by
            rw [← hx2]; exact (writeString_congr hlast' _ _ _).symm
          have hne2 : ∃ t, cs2.getLast? = some t := by
            obtain ⟨b2, r2, a2, hc2⟩ := cut_exists E.isDigit a.tocMarker
              (ls := before ++ (a.tocMarker ++ ['\n']) :: mid ++ (a.tocMarker ++ ['\n']) :: aft) ⟨a.tocMarker ++ ['\n'], by simp, isMarker_nl.mpr (isMarker_iff.mpr rfl)⟩
            obtain ⟨_, _, hw2, hl2⟩ := C37_outside_preserved E (fs := after E a fs stdin) (f := p.1) ⟨hfn, _, by rw [hlast', hnew], hls2⟩ p.2 a.tocMarker a.options.newline hc2 ht
            rw [hx2] at hw2
            injection hw2 with hw2
            injection hw2 with _ e2
            subst e2
            exact ⟨_, hl2⟩
          obtain ⟨t2, ht2⟩ := hne2
          have hlooks : LooksLikeToc E.isDigit core ↔ (HasPlace E a fs p.1 → ∀ core, TrimmedRight isPySpace p.2 core → LooksLikeToc E.isDigit core) := by
            constructor
            · intro hlk _ core' hc'
              rw [← trimmedRight_iff.mp hc', trimmedRight_iff.mp ht]
              exact hlk
            · exact fun hall => hall hpl core ht
          have hthe : lastFS (after E a fs stdin) p.1 cs2 p.1 = some ⟨t2, false⟩ := by simp [lastFS, ht2, FS.write]
          rw [← hlooks, ← hex, hlast', hnew, hthe]
          constructor
          · intro e
            refine ⟨x2, cs2, hx2', ?_⟩
            injection e with e
            injection e with e
            rw [ht2, hlst, e]
          · rintro ⟨b', tr', hb', htr'⟩
            rw [hx2'] at hb'
            injection hb' with hb'
            injection hb' with _ e2
            subst e2
            rw [ht2, hlst] at htr'
            injection htr' with e
            rw [e]
        · have hno := (hf p.1 hmem).resolve_left hpl
          have hcs := noPlace_update hno hx
          subst hcs
          have hsame : after E a fs stdin p.1 = fs p.1 := hlast'
          exact ⟨by rw [hsame]; exact hb, x, [], by rw [← hx]; exact writeString_congr hsame _ _ _, fun _ h => absurd h hpl, fun _ => rfl⟩
      have hbt2 : buildMultipleTocs E a.options (after E a fs stdin) stdin a.filenames = .ok tocs := (hbm _ _).mpr ⟨hlen, fun p hpm => (key p hpm).1⟩
      obtain ⟨r2, hw2, hcode2, -⟩ := C46_in_place hin hbt2 (stdin := stdin)
      rw [hnames] at hw2
      obtain ⟨b2, hb2⟩ := writes_ok hw2 hnd' (fun p hpm => by
        obtain ⟨-, x, cs, h1, -⟩ := key p hpm
        exact ⟨x, cs, h1⟩)
      subst hb2
      refine ⟨by rw [hcode2]; simp only; split <;> decide, ?_⟩
      obtain ⟨v1, v2⟩ := writes_final hw2 hnd' rfl
      have v1' : ∀ p ∈ a.filenames.zip tocs, (after E a (after E a fs stdin) stdin p.1 = after E a fs stdin p.1 ↔
          (HasPlace E a fs p.1 → ∀ core, TrimmedRight isPySpace p.2 core → LooksLikeToc E.isDigit core)) := by
        intro p hpm
        obtain ⟨-, x, cs, h1, h2⟩ := key p hpm
        obtain ⟨x', cs', h1', h2'⟩ := v1 p hpm
        rw [h1] at h1'
        injection h1' with h1'
        injection h1' with _ e2
        subst e2
        rw [← h2, ← h2']
        rfl
      constructor
      · intro e f hfm hpl out core ho hc
        obtain ⟨p, hpm, rfl⟩ := List.mem_map.mp (show f ∈ (a.filenames.zip tocs).map Prod.fst by rw [hfst]; exact hfm)
        have := hbs p hpm
        rw [ho] at this
        injection this with this
        subst this
        exact (v1' p hpm).mp (congrFun e p.1) hpl core hc
      · intro hall
        funext g
        by_cases hgm : g ∈ (a.filenames.zip tocs).map Prod.fst
        · obtain ⟨p, hpm, rfl⟩ := List.mem_map.mp hgm
          exact (v1' p hpm).mpr (fun hpl core hc => hall p.1 (hfst ▸ hgm) hpl p.2 core (hbs p hpm) hc)
        · exact v2 g hgm

/-- Three files: one with a marker after a fenced code block, one with an older table of contents, one without a marker. -/
example : ∃ fs : FS, (∀ f ∈ ["a".toList, "b".toList], HasPlace asciiEnv { filenames := ["a".toList, "b".toList, "c".toList], inPlace := true } fs f) ∧
    NoPlace { filenames := ["a".toList, "b".toList, "c".toList], inPlace := true } fs "c".toList ∧
    (cliMain asciiEnv { filenames := ["a".toList, "b".toList, "c".toList], inPlace := true } fs none).code ≠ 1 := by
  refine ⟨fun f => if f = "a".toList then some ⟨"x\n<!--TOC-->\n# a\n".toList, false⟩ else if f = "b".toList then some ⟨"<!--TOC-->\n\n- [c](#c)\n\n<!--TOC-->\n# d\n".toList, false⟩
    else some ⟨"# e\n".toList, false⟩, ?_, ?_, by decide +kernel⟩
  · intro f hf
    rcases List.mem_cons.mp hf with rfl | hf
    · refine ⟨["x\n".toList, "<!--TOC-->\n".toList, "# a\n".toList], ["x\n".toList], ["<!--TOC-->\n".toList], ["# a\n".toList], ⟨by decide, _, rfl, (reads_iff (bad := false)).mpr (by decide +kernel)⟩,
        .inl ⟨_, ⟨rfl, isMarker_iff.mpr (by decide +kernel), ?_, ?_⟩, rfl⟩, .inl rfl, ⟨by decide, fun _ => ?_, ?_, default_plain _⟩⟩
      · simp only [isMarker_iff]; decide +kernel
      · simp only [isMarker_iff]; decide +kernel
      · exact Outside.line (ls := []) .nil (not_opening_line (by simp [IsFenceChar]))
      · intro l hl
        rw [List.mem_singleton.mp hl]
        exact default_plain _
    · rw [List.mem_singleton.mp hf]
      refine ⟨["<!--TOC-->\n".toList, "\n".toList, "- [c](#c)\n".toList, "\n".toList, "<!--TOC-->\n".toList, "# d\n".toList], [],
        ["<!--TOC-->\n".toList, "\n".toList, "- [c](#c)\n".toList, "\n".toList, "<!--TOC-->\n".toList], ["# d\n".toList],
        ⟨by decide, _, rfl, (reads_iff (bad := false)).mpr (by decide +kernel)⟩,
        .inr (.inl ⟨"<!--TOC-->\n".toList, ["\n".toList, "- [c](#c)\n".toList, "\n".toList], "<!--TOC-->\n".toList,
          ⟨rfl, isMarker_iff.mpr (by decide +kernel), isMarker_iff.mpr (by decide +kernel), ?_, ?_, ?_⟩, rfl⟩), .inl rfl, ⟨by decide, fun _ => .nil, ?_, default_plain _⟩⟩
      · simp only [isMarker_iff]; decide +kernel
      · exact .inr ⟨0, "-".toList, "[c](#c)".toList, by omega, by decide, .inl rfl, by simp [IsBlank]⟩
      · intro a m mid m' b e
        have := congrArg List.length e
        simp at this
        omega
      · intro l hl
        simp only [List.mem_cons, List.not_mem_nil, or_false] at hl
        rcases hl with rfl | rfl | rfl | rfl | rfl
        · exact default_plain _
        · exact newline_plain _
        · exact isItem_plain _ (b := "- [c](#c)".toList) ⟨by simp [IsNewline], 0, '-', " [c](#c)".toList, rfl, .inl rfl⟩ (.inr rfl)
        · exact newline_plain _
        · exact default_plain _
  · refine ⟨["# e\n".toList], ⟨by decide, _, rfl, (reads_iff (bad := false)).mpr (by decide +kernel)⟩, ?_⟩
    simp only [isMarker_iff]; decide +kernel

/-- **C91** is false with carriage returns: the comparison after an update fails, and so does every further one. -/
theorem C91_violation_newline :
    let a : CliArgs := { filenames := ["a".toList], newline := "\\r\\n".toList, inPlace := true }
    let fs : FS := fun _ => some ⟨"<!--TOC-->\n# a\n# b\n".toList, false⟩
    (cliMain asciiEnv a fs none).code = 0 ∧ after asciiEnv a fs none "a".toList = some ⟨"<!--TOC-->\r\n\r\n- [a](#a)\r\n- [b](#b)\r\n\r\n<!--TOC-->\r\n# a\n# b\n".toList, false⟩ ∧
    after asciiEnv a (after asciiEnv a fs none) none "a".toList = after asciiEnv a fs none "a".toList ∧
    (cliMain asciiEnv { a with inPlace := false, diff := true } (after asciiEnv a fs none) none).code = 128 := by
  decide +kernel

/-- **C91** is false for redcarpet: every run in place adds a further table. -/
theorem C91_violation_redcarpet :
    let a : CliArgs := { filenames := ["a".toList], parser := .redcarpet, inPlace := true }
    let fs : FS := fun _ => some ⟨"<!--TOC-->\n### a\n".toList, false⟩
    (cliMain asciiEnv a fs none).code = 0 ∧
    after asciiEnv a (after asciiEnv a fs none) none "a".toList ≠ after asciiEnv a fs none "a".toList ∧
    (cliMain asciiEnv { a with inPlace := false, diff := true } (after asciiEnv a fs none) none).code = 128 := by
  decide +kernel

end MdToc.Props
