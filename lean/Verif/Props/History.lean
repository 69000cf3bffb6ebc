import Verif.Props.Rest

/-!
# Only the last run counts: C104

A file is edited and updated again and again. What the file is in the end depends on the last edit and the options of the last run alone.
-/

set_option linter.unusedSimpArgs false

namespace MdToc.Props

open MdToc.Spec

/-- A round of work with a file: the lines before and behind the table are replaced by these ones, then the command is run. -/
structure Round where
  before : List Str
  after : List Str
  args : CliArgs

/-- The lines outside of the table are edited, the table and the other files are left as they are. -/
def Edited (d : Char → Bool) (marker f : Str) (before after : List Str) (s s' : FS) : Prop :=
  ∃ b region a, HasLines s f (b ++ region ++ a) ∧ Region d marker region ∧ (∀ l ∈ b ++ a, ¬ IsMarker marker l) ∧
    HasLines s' f (before ++ region ++ after) ∧ ∀ g, g ≠ f → s' g = s g

/-- Some rounds, one after the other. -/
inductive History (E : Env) (marker f : Str) (stdin : Stdin) : FS → List Round → FS → Prop
  | nil {s : FS} : History E marker f stdin s [] s
  | snoc {s s1 s2 : FS} {rs : List Round} {r : Round} : History E marker f stdin s rs s1 → Edited E.isDigit marker f r.before r.after s1 s2 →
      History E marker f stdin s (rs ++ [r]) (filesAfter E r.args stdin s2)

/-- A command in place for this file and this marker, with any of the options that keep tables recognisable; the edited lines have no markers, and the table comes after the skipped
lines and outside of code blocks. -/
structure Round.Good (f marker : Str) (r : Round) : Prop where
  inPlace : r.args.inPlace = true
  names : r.args.filenames = [f]
  sameMarker : r.args.tocMarker = marker
  steady : Steady r.args.options
  keep : 1 ≤ r.args.headerLevels
  skip : r.args.skipLines.toNat ≤ r.before.length
  outside : r.args.parser ≠ .redcarpet → Outside r.args.parser (r.before.drop r.args.skipLines.toNat)
  noMarker : ∀ l ∈ r.before ++ r.after, ¬ IsMarker marker l

theorem takeWhile_marker {p : Str → Bool} : ∀ {b : List Str} {m : Str} {t : List Str}, (∀ l ∈ b, p l = true) → p m = false → (b ++ m :: t).takeWhile p = b := by
  intro b m t h hm
  induction b with
  | nil => simp [hm]
  | cons x b ih => simp [h x (by simp), ih (fun l hl => h l (by simp [hl]))]

theorem region_ends {d : Char → Bool} {marker : Str} {r : List Str} (h : Region d marker r) :
    (∃ m t, r = m :: t ∧ IsMarker marker m) ∧ ∃ t m, r = t ++ [m] ∧ IsMarker marker m := by
  rcases h with ⟨m, rfl, hm⟩ | ⟨m, mid, m', rfl, hm, hm', -⟩
  · exact ⟨⟨m, [], rfl, hm⟩, [], m, rfl, hm⟩
  · exact ⟨⟨m, mid ++ [m'], rfl, hm⟩, m :: mid, m', rfl, hm'⟩

/-- The region of a file is determined. -/
theorem region_unique {d : Char → Bool} {marker : Str} {b r a b' r' a' : List Str} (h : Region d marker r) (h' : Region d marker r') (hn : ∀ l ∈ b ++ a, ¬ IsMarker marker l)
    (hn' : ∀ l ∈ b' ++ a', ¬ IsMarker marker l) (e : b ++ r ++ a = b' ++ r' ++ a') : r = r' := by
  classical
  let p : Str → Bool := fun l => decide (¬ IsMarker marker l)
  obtain ⟨⟨m, t, e1, h1⟩, u, n, e2, h2⟩ := region_ends h
  obtain ⟨⟨m', t', e1', h1'⟩, u', n', e2', h2'⟩ := region_ends h'
  have hb : b = b' := by
    have k1 : (b ++ r ++ a).takeWhile p = b := by
      rw [e1, List.append_assoc]
      exact takeWhile_marker (fun l hl => by simpa [p] using hn l (by simp [hl])) (by simpa [p] using h1)
    have k2 : (b' ++ r' ++ a').takeWhile p = b' := by
      rw [e1', List.append_assoc]
      exact takeWhile_marker (fun l hl => by simpa [p] using hn' l (by simp [hl])) (by simpa [p] using h1')
    rw [← k1, e, k2]
  have ha : a = a' := by
    have k1 : (b ++ r ++ a).reverse.takeWhile p = a.reverse := by
      rw [e2, List.reverse_append, List.reverse_append, List.reverse_append]
      exact takeWhile_marker (fun l hl => by simpa [p] using hn l (by simp at hl; simp [hl])) (by simpa [p] using h2)
    have k2 : (b' ++ r' ++ a').reverse.takeWhile p = a'.reverse := by
      rw [e2', List.reverse_append, List.reverse_append, List.reverse_append]
      exact takeWhile_marker (fun l hl => by simpa [p] using hn' l (by simp at hl; simp [hl])) (by simpa [p] using h2')
    have : a.reverse = a'.reverse := by rw [← k1, e, k2]
    simpa using this
  subst hb
  subst ha
  simpa using e

/-- What is kept from round to round. -/
def Tidy (d : Char → Bool) (marker f : Str) (s : FS) : Prop :=
  ∃ b region a, HasLines s f (b ++ region ++ a) ∧ Region d marker region ∧ (∀ l ∈ b ++ a, ¬ IsMarker marker l) ∧ ∀ p, ∀ l ∈ region, PlainLine p l

/-- One round. -/
theorem round_step {E : Env} (hE : E.Lawful) {marker f : Str} (hg : PlainMarker marker) (hpm : ∀ p, PlainLine p (marker ++ ['\n'])) (stdin : Stdin) {r : Round} (hr : r.Good f marker)
    {s s' : FS} (hs : Tidy E.isDigit marker f s) (he : Edited E.isDigit marker f r.before r.after s s') :
    Tidy E.isDigit marker f (filesAfter E r.args stdin s') ∧ (∀ g, g ≠ f → filesAfter E r.args stdin s' g = s g) ∧
      ∀ doc out core, Reads doc (r.before ++ r.after) → buildToc E r.args.options f (some ⟨doc, false⟩) = .ok out → TrimmedRight isPySpace out core →
        (cliMain E r.args s' stdin).code ≠ 1 ∧
        filesAfter E r.args stdin s' f = some ⟨r.before.flatten ++ block core marker ['\n'] ++ r.after.flatten, false⟩ := by
  obtain ⟨b0, reg0, a0, ⟨-, t0, f0, R0⟩, hreg0, hn0, hpl0⟩ := hs
  obtain ⟨b1, reg, a1, ⟨-, t1, f1, R1⟩, hreg, hn1, ⟨hne, text, hft, hR⟩, hoth⟩ := he
  have hsame : reg = reg0 := by
    rw [f0] at f1
    injection f1 with f1
    injection f1 with f1
    subst f1
    have := MdToc.reads_lines R1 false
    rw [MdToc.reads_lines R0 false] at this
    exact region_unique hreg hreg0 hn1 hn0 this.symm
  subst hsame
  have hkeep : 1 ≤ r.args.options.keep := hr.keep
  have hf' : HasLines s' f (r.before ++ reg ++ r.after) := ⟨hne, text, hft, hR⟩
  have hbn : ∀ l ∈ r.before, ¬ IsMarker marker l := fun l hl => hr.noMarker l (by simp [hl])
  have han : ∀ l ∈ r.after, ¬ IsMarker marker l := fun l hl => hr.noMarker l (by simp [hl])
  cases hb : buildToc E r.args.options f (s' f) with
  | error e =>
    have hfail := failed_command hr.names hne stdin hb
    rw [hfail]
    refine ⟨⟨_, reg, _, hf', hreg, hr.noMarker, hpl0⟩, hoth, fun doc out core hdoc hout hcore => ?_⟩
    have := replace_plain (ms := []) (ms' := reg) hkeep (by simpa using hdoc) hR hr.skip hr.outside (by simp) (fun l hl => hpl0 _ l hl) hout
    rw [hft, this] at hb
    cases hb
  | ok out =>
    obtain ⟨core, hcore⟩ : ∃ core, TrimmedRight isPySpace out core := ⟨_, trimmedRight_iff.mpr rfl⟩
    obtain ⟨r', k1, k2, k3, k4, k5, k6, k7⟩ := update_step hE hr.steady.parser hr.steady.links hr.steady.newline hf' hg.1 hg.2 hreg hbn han hb hcore
    have k2' : Update E r.args.options r.args.tocMarker f s' (s'.write f (r.before ++ r' ++ r.after).flatten) := by rw [hr.sameMarker]; exact k2
    obtain ⟨e1, e2⟩ := update_command hr.inPlace hr.names hne stdin k2'
    rw [e1]
    refine ⟨⟨_, r', _, k3, k4, hr.noMarker, fun p => k6 p (hpm p)⟩, fun g hgf => ?_, fun doc out' core' hdoc hout hcore' => ⟨e2, ?_⟩⟩
    · rw [← hoth g hgf]
      simp [FS.write, hgf]
    · have := replace_plain (ms := []) (ms' := reg) hkeep (by simpa using hdoc) hR hr.skip hr.outside (by simp) (fun l hl => hpl0 _ l hl) hout
      rw [hft, this] at hb
      injection hb with hb
      subst hb
      have : core' = core := by rw [← trimmedRight_iff.mp hcore', trimmedRight_iff.mp hcore]
      subst this
      simp [FS.write, ← k1]

theorem history_tidy {E : Env} (hE : E.Lawful) {marker f : Str} (hg : PlainMarker marker) (hpm : ∀ p, PlainLine p (marker ++ ['\n'])) {stdin : Stdin} {s s' : FS} {rs : List Round}
    (h : History E marker f stdin s rs s') (hs : Tidy E.isDigit marker f s) (hr : ∀ r ∈ rs, r.Good f marker) : Tidy E.isDigit marker f s' ∧ ∀ g, g ≠ f → s' g = s g := by
  induction h with
  | nil => exact ⟨hs, fun _ _ => rfl⟩
  | snoc h1 h2 ih =>
    obtain ⟨i1, i2⟩ := ih (fun r hr' => hr r (by simp [hr']))
    obtain ⟨k1, k2, -⟩ := round_step hE hg hpm stdin (hr _ (by simp)) i1 h2
    exact ⟨k1, fun g hg => by rw [k2 g hg, i2 g hg]⟩

theorem history_last {E : Env} {marker f : Str} {stdin : Stdin} {s s' : FS} {rs : List Round} {r : Round} (h : History E marker f stdin s (rs ++ [r]) s') :
    ∃ s1 s2, History E marker f stdin s rs s1 ∧ Edited E.isDigit marker f r.before r.after s1 s2 ∧ s' = filesAfter E r.args stdin s2 := by
  generalize hrs : rs ++ [r] = l at h
  cases h with
  | nil => simp at hrs
  | snoc h1 h2 =>
    obtain ⟨e1, e2⟩ := List.append_inj' hrs rfl
    simp at e2
    subst e1
    subst e2
    exact ⟨_, _, h1, h2, rfl⟩

/-- **C104**: a file with one marker, or with a table between its only markers, is edited outside of the table and updated any number of times, each time with other options of the command.
If the table of the last document, that is of the lines without the table, can be built then the file is this document with its table at the place of the marker, and nothing
else of the earlier rounds is left; the other files are as at first. -/
theorem C104_last_run {E : Env} (hE : E.Lawful) {marker f : Str} (hg : PlainMarker marker) (hpm : ∀ p, PlainLine p (marker ++ ['\n'])) {stdin : Stdin} {s s' : FS} {rs : List Round}
    {r : Round} (h : History E marker f stdin s (rs ++ [r]) s') {b region a : List Str} (hf : HasLines s f (b ++ region ++ a)) (hreg : Region E.isDigit marker region)
    (hn : ∀ l ∈ b ++ a, ¬ IsMarker marker l) (hpl : ∀ p, ∀ l ∈ region, PlainLine p l) (hr : ∀ x ∈ rs ++ [r], x.Good f marker) :
    (∀ g, g ≠ f → s' g = s g) ∧
    ∀ doc out core, Reads doc (r.before ++ r.after) → buildToc E r.args.options f (some ⟨doc, false⟩) = .ok out → TrimmedRight isPySpace out core →
      s' f = some ⟨r.before.flatten ++ block core marker ['\n'] ++ r.after.flatten, false⟩ := by
  have hs : Tidy E.isDigit marker f s := ⟨b, region, a, hf, hreg, hn, hpl⟩
  refine ⟨(history_tidy hE hg hpm h hs hr).2, ?_⟩
  obtain ⟨s1, s2, h1, h2, rfl⟩ := history_last h
  obtain ⟨i1, -⟩ := history_tidy hE hg hpm h1 hs (fun x hx => hr x (by simp [hx]))
  obtain ⟨-, -, k⟩ := round_step hE hg hpm stdin (hr r (by simp)) i1 h2
  exact fun doc out core hd ho hc => (k doc out core hd ho hc).2

/-- **C104**: two histories of the same file with the same last round end with the same file, if the table of the last document can be built. -/
theorem C104_same_end {E : Env} (hE : E.Lawful) {marker f : Str} (hg : PlainMarker marker) (hpm : ∀ p, PlainLine p (marker ++ ['\n'])) {stdin stdin' : Stdin} {s s' t t' : FS} {rs rs' : List Round}
    {r : Round} (h : History E marker f stdin s (rs ++ [r]) s') (h' : History E marker f stdin' t (rs' ++ [r]) t') {b region a b' region' a' : List Str}
    (hf : HasLines s f (b ++ region ++ a)) (hreg : Region E.isDigit marker region) (hn : ∀ l ∈ b ++ a, ¬ IsMarker marker l) (hpl : ∀ p, ∀ l ∈ region, PlainLine p l)
    (hr : ∀ x ∈ rs ++ [r], x.Good f marker) (hf' : HasLines t f (b' ++ region' ++ a')) (hreg' : Region E.isDigit marker region') (hn' : ∀ l ∈ b' ++ a', ¬ IsMarker marker l)
    (hpl' : ∀ p, ∀ l ∈ region', PlainLine p l) (hr' : ∀ x ∈ rs' ++ [r], x.Good f marker) {doc out : Str} (hd : Reads doc (r.before ++ r.after))
    (ho : buildToc E r.args.options f (some ⟨doc, false⟩) = .ok out) : s' f = t' f := by
  rw [(C104_last_run hE hg hpm h hf hreg hn hpl hr).2 doc out _ hd ho (trimmedRight_iff.mpr rfl), (C104_last_run hE hg hpm h' hf' hreg' hn' hpl' hr').2 doc out _ hd ho (trimmedRight_iff.mpr rfl)]

/-- **C104**: the old table does not matter. Whatever table the file has at its place (a marker alone, two markers with blank lines, a table written by hand, or one whose entries have been
edited), the file after the run is the text with its own table. -/
theorem C104_any_table {E : Env} (hE : E.Lawful) {marker f : Str} (hg : PlainMarker marker) (hpm : ∀ p, PlainLine p (marker ++ ['\n'])) (stdin stdin' : Stdin) {s s' : FS} {r : Round}
    (hr : r.Good f marker) {region region' : List Str} (hf : HasLines s f (r.before ++ region ++ r.after)) (hf' : HasLines s' f (r.before ++ region' ++ r.after))
    (hreg : Region E.isDigit marker region) (hreg' : Region E.isDigit marker region') (hpl : ∀ p, ∀ l ∈ region, PlainLine p l) (hpl' : ∀ p, ∀ l ∈ region', PlainLine p l)
    {doc out core : Str} (hd : Reads doc (r.before ++ r.after)) (ho : buildToc E r.args.options f (some ⟨doc, false⟩) = .ok out) (hc : TrimmedRight isPySpace out core) :
    filesAfter E r.args stdin s f = some ⟨r.before.flatten ++ block core marker ['\n'] ++ r.after.flatten, false⟩ ∧
    filesAfter E r.args stdin' s' f = filesAfter E r.args stdin s f := by
  have key : ∀ (t : FS) (i : Stdin) (g : List Str), HasLines t f (r.before ++ g ++ r.after) → Region E.isDigit marker g → (∀ p, ∀ l ∈ g, PlainLine p l) →
      filesAfter E r.args i t f = some ⟨r.before.flatten ++ block core marker ['\n'] ++ r.after.flatten, false⟩ := fun t i g h1 h2 h3 =>
    ((round_step hE hg hpm i hr ⟨_, g, _, h1, h2, hr.noMarker, h3⟩ ⟨_, g, _, h1, h2, hr.noMarker, h1, fun _ _ => rfl⟩).2.2 doc out core hd ho hc).2
  rw [key s stdin region hf hreg hpl, key s' stdin' region' hf' hreg' hpl']
  exact ⟨rfl, rfl⟩

/-- The table of the text of this round cannot be built with the options of this round. -/
def Round.Fails (E : Env) (f : Str) (r : Round) : Prop :=
  ∃ doc e, Reads doc (r.before ++ r.after) ∧ buildToc E r.args.options f (some ⟨doc, false⟩) = .error e

/-- A round that fails leaves the files as edited. -/
theorem round_failed {E : Env} {marker f : Str} (stdin : Stdin) {r : Round} (hr : r.Good f marker) {region : List Str} {s' : FS} (hpl : ∀ p, ∀ l ∈ region, PlainLine p l)
    (hf' : HasLines s' f (r.before ++ region ++ r.after)) (hfail : r.Fails E f) : filesAfter E r.args stdin s' = s' ∧ (cliMain E r.args s' stdin).code = 1 := by
  obtain ⟨hne, text, hft, hR⟩ := hf'
  obtain ⟨doc, e, hdoc, he⟩ := hfail
  have hkeep : 1 ≤ r.args.options.keep := hr.keep
  cases hb : buildToc E r.args.options f (s' f) with
  | error e' =>
    refine ⟨failed_command hr.names hne stdin hb, ?_⟩
    have hm : buildMultipleTocs E r.args.options s' stdin r.args.filenames = .error e' := by
      unfold buildMultipleTocs defaultNames
      rw [hr.names]
      have hne' : f ≠ stdinName := hne
      simp only [List.length_cons, List.length_nil, Nat.zero_add, Nat.one_ne_zero, if_false, buildTocs, if_neg hne', bind, Except.bind, hb]
    unfold cliMain writeToc
    simp only [hm]
  | ok out =>
    rw [hft] at hb
    have := replace_plain (ms := region) (ms' := []) (text' := doc) hkeep hR (by simpa using hdoc) hr.skip hr.outside (fun l hl => hpl _ l hl) (by simp) hb
    rw [he] at this
    cases this

/-- The lines of the table of a file are these ones, wherever they stand. -/
theorem edited_region {E : Env} {marker f : Str} {b region a before after : List Str} {s s' : FS} (hf : HasLines s f (b ++ region ++ a)) (hreg : Region E.isDigit marker region)
    (hn : ∀ l ∈ b ++ a, ¬ IsMarker marker l) (he : Edited E.isDigit marker f before after s s') : HasLines s' f (before ++ region ++ after) := by
  obtain ⟨-, t0, f0, R0⟩ := hf
  obtain ⟨b1, reg, a1, ⟨-, t1, f1, R1⟩, hreg1, hn1, h, -⟩ := he
  rw [f0] at f1
  injection f1 with f1
  injection f1 with f1
  subst f1
  have := MdToc.reads_lines R1 false
  rw [MdToc.reads_lines R0 false] at this
  rw [region_unique hreg hreg1 hn hn1 this]
  exact h

/-- **C104**: runs that fail have no effect. After a run whose table could be built and any number of edits with runs that fail, the file has the lines of the last edit, and at the place of
the table the table of the last run that did not fail. -/
theorem C104_failures {E : Env} (hE : E.Lawful) {marker f : Str} (hg : PlainMarker marker) (hpm : ∀ p, PlainLine p (marker ++ ['\n'])) {stdin : Stdin} {s s' : FS} {rs ls : List Round}
    {r : Round} (h : History E marker f stdin s (rs ++ [r] ++ ls) s') {b region a : List Str} (hf : HasLines s f (b ++ region ++ a)) (hreg : Region E.isDigit marker region)
    (hn : ∀ l ∈ b ++ a, ¬ IsMarker marker l) (hpl : ∀ p, ∀ l ∈ region, PlainLine p l) (hr : ∀ x ∈ rs ++ [r] ++ ls, x.Good f marker) {doc out core : Str}
    (hd : Reads doc (r.before ++ r.after)) (ho : buildToc E r.args.options f (some ⟨doc, false⟩) = .ok out) (hc : TrimmedRight isPySpace out core) (hls : ∀ x ∈ ls, x.Fails E f) :
    ∃ table, table.flatten = block core marker ['\n'] ∧
      HasLines s' f (((r :: ls).getLast (by simp)).before ++ table ++ ((r :: ls).getLast (by simp)).after) := by
  suffices H : ∃ table, table.flatten = block core marker ['\n'] ∧ Region E.isDigit marker table ∧ (∀ p, ∀ l ∈ table, PlainLine p l) ∧
      HasLines s' f (((r :: ls).getLast (by simp)).before ++ table ++ ((r :: ls).getLast (by simp)).after) by
    obtain ⟨table, h1, -, -, h2⟩ := H
    exact ⟨table, h1, h2⟩
  induction ls using List.reverseRecOn generalizing s' with
  | nil =>
    rw [List.append_nil] at h hr
    obtain ⟨s1, s2, h1, h2, rfl⟩ := history_last h
    obtain ⟨⟨b0, reg0, a0, hf0, hreg0, hn0, hpl0⟩, -⟩ := history_tidy hE hg hpm h1 ⟨b, region, a, hf, hreg, hn, hpl⟩ (fun x hx => hr x (by simp [hx]))
    have hgood := hr r (by simp)
    have hf2 := edited_region hf0 hreg0 hn0 h2
    obtain ⟨hne, text, hft, hR⟩ := id hf2
    have hb : buildToc E r.args.options f (s2 f) = .ok out := by
      rw [hft]
      exact replace_plain (ms := []) (ms' := reg0) hgood.keep (by simpa using hd) hR hgood.skip hgood.outside (by simp) (fun l hl => hpl0 _ l hl) ho
    obtain ⟨r', k1, k2, k3, k4, k5, k6, k7⟩ := update_step hE hgood.steady.parser hgood.steady.links hgood.steady.newline hf2 hg.1 hg.2 hreg0 (fun l hl => hgood.noMarker l (by simp [hl]))
      (fun l hl => hgood.noMarker l (by simp [hl])) hb hc
    have k2' : Update E r.args.options r.args.tocMarker f s2 (s2.write f (r.before ++ r' ++ r.after).flatten) := by rw [hgood.sameMarker]; exact k2
    rw [(update_command hgood.inPlace hgood.names hne stdin k2').1]
    exact ⟨r', k1, k4, fun p => k6 p (hpm p), by simpa using k3⟩
  | append_singleton ls x ih =>
    rw [← List.append_assoc] at h hr
    obtain ⟨s1, s2, h1, h2, rfl⟩ := history_last h
    obtain ⟨table, t1, t2, t3, t4⟩ := ih h1 (fun y hy => hr y (by simp only [List.mem_append] at hy ⊢; exact .inl hy)) (fun y hy => hls y (by simp [hy]))
    have hx := hr x (by simp)
    have hlast : ∀ l ∈ ((r :: ls).getLast (by simp)).before ++ ((r :: ls).getLast (by simp)).after, ¬ IsMarker marker l := by
      refine (hr _ ?_).noMarker
      have := List.getLast_mem (l := r :: ls) (by simp)
      simp only [List.mem_append, List.mem_cons, List.not_mem_nil, or_false] at this ⊢
      rcases this with h | h
      · exact .inl (.inl (.inr h))
      · exact .inl (.inr h)
    have h3 := edited_region t4 t2 hlast h2
    rw [(round_failed stdin hx t3 h3 (hls x (by simp))).1]
    refine ⟨table, t1, t2, t3, ?_⟩
    simpa [List.getLast_cons] using h3

section
private def f0 : Str := "a.md".toList
private def m0 : Str := "<!--TOC-->".toList
private def s0 : FS := fun _ => some ⟨"<!--TOC-->\n# a\n".toList, false⟩
private def r1 : Round := ⟨["x\n".toList], ["# b\n".toList], { filenames := [f0], inPlace := true }⟩
private def r2 : Round := ⟨[], ["# c\n".toList, "## d\n".toList], { filenames := [f0], inPlace := true, orderedMarker := some ['.'], parser := .gitlab }⟩
private def s1 : FS := s0.write f0 "x\n<!--TOC-->\n# b\n".toList
private def s2 : FS := s1.write f0 "<!--TOC-->\n\n- [b](#b)\n\n<!--TOC-->\n# c\n## d\n".toList

private theorem good1 : r1.Good f0 m0 := by
  refine ⟨rfl, rfl, rfl, ⟨.inl (by decide), rfl, rfl⟩, by decide, by decide, fun _ => ?_, ?_⟩
  · exact outside_plain (by intro l hl; simp [r1] at hl; subst hl; exact plain_lit _ (b := "x".toList) (by decide))
  · simp only [isMarker_iff]; decide +kernel

private theorem good2 : r2.Good f0 m0 := by
  refine ⟨rfl, rfl, rfl, ⟨.inl (by decide), rfl, rfl⟩, by decide, by decide, fun _ => .nil, ?_⟩
  simp only [isMarker_iff]; decide +kernel

private def region0 : List Str := ["<!--TOC-->\n".toList, "\n".toList, "- [b](#b)\n".toList, "\n".toList, "<!--TOC-->\n".toList]

private theorem first0 : HasLines s0 f0 ([] ++ ["<!--TOC-->\n".toList] ++ ["# a\n".toList]) := ⟨by decide, _, rfl, (reads_iff (bad := false)).mpr (by decide +kernel)⟩

private theorem edited1 : Edited asciiEnv.isDigit m0 f0 r1.before r1.after s0 s1 := by
  refine ⟨[], ["<!--TOC-->\n".toList], ["# a\n".toList], first0, .inl ⟨_, rfl, isMarker_iff.mpr (by decide +kernel)⟩, ?_,
    ⟨by decide, "x\n<!--TOC-->\n# b\n".toList, by simp [s1, FS.write], (reads_iff (bad := false)).mpr (by decide +kernel)⟩, fun g hg => by simp [s1, FS.write, hg]⟩
  simp only [isMarker_iff]; decide +kernel

/-- Two rounds with different options meet the hypotheses. -/
example : ∃ s', History asciiEnv m0 f0 none s0 [r1, r2] s' ∧ s' f0 = some ⟨"<!--TOC-->\n\n1. [c](#c)\n   1. [d](#d)\n\n<!--TOC-->\n# c\n## d\n".toList, false⟩ := by
  refine ⟨_, .snoc (rs := [r1]) (.snoc (rs := []) .nil (s2 := s1) ?_) (s2 := s2) ?_, ?_⟩
  · exact edited1
  · refine ⟨["x\n".toList], region0, ["# b\n".toList], ⟨by decide, "x\n<!--TOC-->\n\n- [b](#b)\n\n<!--TOC-->\n# b\n".toList, by decide +kernel,
      (reads_iff (bad := false)).mpr (by decide +kernel)⟩, ?_, ?_,
      ⟨by decide, "<!--TOC-->\n\n- [b](#b)\n\n<!--TOC-->\n# c\n## d\n".toList, by simp [s2, FS.write], (reads_iff (bad := false)).mpr (by decide +kernel)⟩, ?_⟩
    · refine .inr ⟨_, ["\n".toList, "- [b](#b)\n".toList, "\n".toList], _, rfl, isMarker_iff.mpr (by decide +kernel), isMarker_iff.mpr (by decide +kernel), ?_,
        .inr ⟨0, ['-'], "[b](#b)".toList, by omega, by decide +kernel, .inl rfl, by simp [IsBlank]⟩⟩
      simp only [isMarker_iff]; decide +kernel
    · simp only [isMarker_iff]; decide +kernel
    · intro g hg
      have hsame : filesAfter asciiEnv r1.args none s1 g = s1 g := by
        have ht : Tidy asciiEnv.isDigit m0 f0 s0 := ⟨[], ["<!--TOC-->\n".toList], ["# a\n".toList], first0, .inl ⟨_, rfl, isMarker_iff.mpr (by decide +kernel)⟩,
          by simp only [isMarker_iff]; decide +kernel, fun p l hl => by simp at hl; subst hl; exact default_plain p⟩
        rw [(round_step asciiEnv_lawful ⟨default_good, default_notItem⟩ (fun p => default_plain p) none good1 ht edited1).2.1 g hg]
        simp [s1, FS.write, hg]
      rw [hsame]
      simp [s2, FS.write, hg]
  · decide +kernel

/-- A marker alone and a table written by hand meet the hypotheses about the old table. -/
example : (Region asciiEnv.isDigit m0 ["<!--TOC-->\n".toList] ∧ ∀ p, ∀ l ∈ ["<!--TOC-->\n".toList], PlainLine p l) ∧
    Region asciiEnv.isDigit m0 ["<!--TOC-->\n".toList, "\n".toList, "* mine\n".toList, "\n".toList, "<!--TOC-->\n".toList] ∧
    ∀ p, ∀ l ∈ ["<!--TOC-->\n".toList, "\n".toList, "* mine\n".toList, "\n".toList, "<!--TOC-->\n".toList], PlainLine p l := by
  refine ⟨⟨.inl ⟨_, rfl, isMarker_iff.mpr (by decide +kernel)⟩, fun p l hl => by simp at hl; subst hl; exact default_plain p⟩, ?_, ?_⟩
  · refine .inr ⟨_, ["\n".toList, "* mine\n".toList, "\n".toList], _, rfl, isMarker_iff.mpr (by decide +kernel), isMarker_iff.mpr (by decide +kernel), ?_,
      .inr ⟨0, ['*'], "mine".toList, by omega, by decide +kernel, by simp, by simp [IsBlank]⟩⟩
    simp only [isMarker_iff]; decide +kernel
  · intro p l hl
    simp only [List.mem_cons, List.not_mem_nil, or_false] at hl
    rcases hl with rfl | rfl | rfl | rfl | rfl
    · exact default_plain p
    · exact plain_lit _ (b := []) (by decide)
    · exact plain_lit _ (b := "* mine".toList) (by decide)
    · exact plain_lit _ (b := []) (by decide)
    · exact default_plain p

private def r3 : Round := ⟨["y\n".toList], ["# aĀ\n".toList], { filenames := [f0], inPlace := true }⟩
private def s3 : FS := s1.write f0 "y\n<!--TOC-->\n\n- [b](#b)\n\n<!--TOC-->\n# aĀ\n".toList

private theorem good3 : r3.Good f0 m0 := by
  refine ⟨rfl, rfl, rfl, ⟨.inl (by decide), rfl, rfl⟩, by decide, by decide, fun _ => ?_, ?_⟩
  · exact outside_plain (by intro l hl; simp [r3] at hl; subst hl; exact plain_lit _ (b := "y".toList) (by decide))
  · simp only [isMarker_iff]; decide +kernel

/-- A round that fails, because of a character in a heading (see C52). -/
example : r3.Fails asciiEnv f0 :=
  ⟨"y\n# aĀ\n".toList, .IndexError, (reads_iff (bad := false)).mpr (by decide +kernel), by decide +kernel⟩

/-- A round that succeeds and one that fails: the text is the one of the second round, the table the one of the first. -/
example : (∀ x ∈ [] ++ [r1] ++ [r3], x.Good f0 m0) ∧ ∃ s', History asciiEnv m0 f0 none s0 ([] ++ [r1] ++ [r3]) s' ∧
    s' f0 = some ⟨"y\n<!--TOC-->\n\n- [b](#b)\n\n<!--TOC-->\n# aĀ\n".toList, false⟩ := by
  refine ⟨by intro x hx; simp at hx; rcases hx with rfl | rfl; exacts [good1, good3], _, .snoc (.snoc .nil edited1) (s2 := s3) ?_, by decide +kernel⟩
  refine ⟨["x\n".toList], region0, ["# b\n".toList], ⟨by decide, "x\n<!--TOC-->\n\n- [b](#b)\n\n<!--TOC-->\n# b\n".toList, by decide +kernel,
    (reads_iff (bad := false)).mpr (by decide +kernel)⟩, ?_, ?_,
    ⟨by decide, "y\n<!--TOC-->\n\n- [b](#b)\n\n<!--TOC-->\n# aĀ\n".toList, by simp [s3, FS.write], (reads_iff (bad := false)).mpr (by decide +kernel)⟩, ?_⟩
  · refine .inr ⟨_, ["\n".toList, "- [b](#b)\n".toList, "\n".toList], _, rfl, isMarker_iff.mpr (by decide +kernel), isMarker_iff.mpr (by decide +kernel), ?_,
      .inr ⟨0, ['-'], "[b](#b)".toList, by omega, by decide +kernel, .inl rfl, by simp [IsBlank]⟩⟩
    simp only [isMarker_iff]; decide +kernel
  · simp only [isMarker_iff]; decide +kernel
  · intro g hg
    have ht : Tidy asciiEnv.isDigit m0 f0 s0 := ⟨[], ["<!--TOC-->\n".toList], ["# a\n".toList], first0, .inl ⟨_, rfl, isMarker_iff.mpr (by decide +kernel)⟩,
      by simp only [isMarker_iff]; decide +kernel, fun p l hl => by simp at hl; subst hl; exact default_plain p⟩
    rw [(round_step asciiEnv_lawful ⟨default_good, default_notItem⟩ (fun p => default_plain p) none good1 ht edited1).2.1 g hg]
    simp [s3, s1, FS.write, hg]
end

end MdToc.Props
