import Verif.Props.Project

/-!
# Histories of several files: C109
-/

set_option linter.unusedSimpArgs false

namespace MdToc.Props

open MdToc.Spec

/-- One round of the work on several files: for each file the edited text, without the table (`doc`), its lines before and behind the place of the table, and then a command for some of the
files. -/
structure PRound where
  doc : Str → Str
  before : Str → List Str
  after : Str → List Str
  args : CliArgs

/-- All files of the project are edited outside of their tables, and no other ones. -/
def EditedAll (d : Char → Bool) (marker : Str) (P : List Str) (r : PRound) (s s' : FS) : Prop :=
  (∀ f ∈ P, ∃ b region a, HasLines s f (b ++ region ++ a) ∧ Region d marker region ∧ (∀ l ∈ b ++ a, ¬ IsMarker marker l) ∧ HasLines s' f (r.before f ++ region ++ r.after f)) ∧
  ∀ g, g ∉ P → s' g = s g

/-- A command in place for some of the files, each named once, with any of the options that keep tables recognisable; the edited lines have no markers, and the tables come after the skipped
lines and outside of code blocks. -/
structure PRound.Good (P : List Str) (marker : Str) (r : PRound) : Prop where
  inPlace : r.args.inPlace = true
  some : r.args.filenames ≠ []
  once : r.args.filenames.Nodup
  names : ∀ f ∈ r.args.filenames, f ∈ P
  sameMarker : r.args.tocMarker = marker
  steady : Steady r.args.options
  keep : 1 ≤ r.args.headerLevels
  skip : ∀ f ∈ r.args.filenames, r.args.skipLines.toNat ≤ (r.before f).length
  outside : ∀ f ∈ r.args.filenames, r.args.parser ≠ .redcarpet → Outside r.args.parser ((r.before f).drop r.args.skipLines.toNat)
  noMarker : ∀ f ∈ P, ∀ l ∈ r.before f ++ r.after f, ¬ IsMarker marker l
  reads : ∀ f ∈ P, Reads (r.doc f) (r.before f ++ r.after f)

/-- Some rounds, one after the other. -/
inductive PHistory (E : Env) (marker : Str) (P : List Str) (stdin : Stdin) : FS → List PRound → FS → Prop
  | nil {s : FS} : PHistory E marker P stdin s [] s
  | snoc {s s1 s2 : FS} {rs : List PRound} {r : PRound} : PHistory E marker P stdin s rs s1 → EditedAll E.isDigit marker P r s1 s2 →
      PHistory E marker P stdin s (rs ++ [r]) (filesAfter E r.args stdin s2)

theorem editedAll_region {E : Env} {marker : Str} {P : List Str} {r : PRound} {s s' : FS} (hs : ∀ f ∈ P, Tidy E.isDigit marker f s) (he : EditedAll E.isDigit marker P r s s') {f : Str} (hf : f ∈ P) :
    ∃ region, HasLines s' f (r.before f ++ region ++ r.after f) ∧ Region E.isDigit marker region ∧ ∀ p, ∀ l ∈ region, PlainLine p l := by
  obtain ⟨b, region, a, h, hreg, hn, hpl⟩ := hs f hf
  obtain ⟨b', region', a', h', hreg', hn', ⟨y1, y2, y3, y4⟩⟩ := he.1 f hf
  let s3 : FS := fun g => if g = f then s' f else s g
  have hs3 : s3 f = s' f := by simp [s3]
  have hed : Edited E.isDigit marker f (r.before f) (r.after f) s s3 :=
    ⟨b', region', a', h', hreg', hn', ⟨y1, y2, by rw [hs3]; exact y3, y4⟩, fun g hg => by simp [s3, hg]⟩
  obtain ⟨z1, z2, z3, z4⟩ := edited_region h hreg hn hed
  exact ⟨region, ⟨z1, z2, by rw [← hs3]; exact z3, z4⟩, hreg, hpl⟩

/-- One round. -/
theorem pround_step {E : Env} (hE : E.Lawful) {marker : Str} (hg : PlainMarker marker) (hpm : ∀ p, PlainLine p (marker ++ ['\n'])) (stdin : Stdin) {P : List Str} {r : PRound}
    (hr : r.Good P marker) {s s' : FS} (hs : ∀ f ∈ P, Tidy E.isDigit marker f s) (he : EditedAll E.isDigit marker P r s s') :
    (∀ f ∈ P, Tidy E.isDigit marker f (filesAfter E r.args stdin s')) ∧ (∀ g, g ∉ r.args.filenames → filesAfter E r.args stdin s' g = s' g) ∧
    ((cliMain E r.args s' stdin).code = 1 ↔ ∃ f ∈ r.args.filenames, ∃ e, buildToc E r.args.options f (some ⟨r.doc f, false⟩) = .error e) ∧
    ((cliMain E r.args s' stdin).code = 1 → filesAfter E r.args stdin s' = s') ∧
    ((cliMain E r.args s' stdin).code ≠ 1 → ∀ f ∈ r.args.filenames, ∃ out core, buildToc E r.args.options f (some ⟨r.doc f, false⟩) = .ok out ∧ TrimmedRight isPySpace out core ∧
      filesAfter E r.args stdin s' f = some ⟨(r.before f).flatten ++ block core marker ['\n'] ++ (r.after f).flatten, false⟩) := by
  have hreg := fun f (hf : f ∈ P) => editedAll_region hs he hf
  have hstd' : ∀ f ∈ r.args.filenames, f ≠ stdinName := by
    intro f hf
    obtain ⟨_, h, -⟩ := hreg f (hr.names f hf)
    exact h.1
  have hstd : "-".toList ∉ r.args.filenames := fun h => hstd' _ h rfl
  have hgood : ∀ f ∈ r.args.filenames, Round.Good f marker ⟨r.before f, r.after f, CliArgs.one r.args f⟩ := fun f hf =>
    ⟨hr.inPlace, rfl, hr.sameMarker, hr.steady, hr.keep, hr.skip f hf, hr.outside f hf, hr.noMarker f (hr.names f hf)⟩
  have htidy : ∀ f ∈ P, Tidy E.isDigit marker f s' := by
    intro f hf
    obtain ⟨region, h1, h2, h3⟩ := hreg f hf
    exact ⟨_, region, _, h1, h2, hr.noMarker f hf, h3⟩
  -- the commands for one file
  have hstep : ∀ f ∈ r.args.filenames, Tidy E.isDigit marker f (filesAfter E (CliArgs.one r.args f) stdin s') ∧
      (∀ out core, buildToc E r.args.options f (some ⟨r.doc f, false⟩) = .ok out → TrimmedRight isPySpace out core →
        (cliMain E (CliArgs.one r.args f) s' stdin).code ≠ 1 ∧
        filesAfter E (CliArgs.one r.args f) stdin s' f = some ⟨(r.before f).flatten ++ block core marker ['\n'] ++ (r.after f).flatten, false⟩) ∧
      ∀ e, buildToc E r.args.options f (some ⟨r.doc f, false⟩) = .error e → (cliMain E (CliArgs.one r.args f) s' stdin).code = 1 ∧ ∃ e', buildToc E r.args.options f (s' f) = .error e' := by
    intro f hf
    obtain ⟨region, h1, h2, h3⟩ := hreg f (hr.names f hf)
    have hed : Edited E.isDigit marker f (r.before f) (r.after f) s' s' := ⟨_, region, _, h1, h2, hr.noMarker f (hr.names f hf), h1, fun _ _ => rfl⟩
    obtain ⟨k1, -, k3⟩ := round_step hE hg hpm stdin (hgood f hf) (htidy f (hr.names f hf)) hed
    refine ⟨k1, fun out core ho hc => k3 _ out core (hr.reads f (hr.names f hf)) ho hc, fun e hb => ⟨(round_failed stdin (hgood f hf) h3 h1 ⟨_, e, hr.reads f (hr.names f hf), hb⟩).2, ?_⟩⟩
    cases hb' : buildToc E r.args.options f (s' f) with
    | error e' => exact ⟨e', rfl⟩
    | ok out =>
      obtain ⟨-, text, hft, hR⟩ := h1
      have hkeep : 1 ≤ r.args.options.keep := hr.keep
      rw [hft] at hb'
      have := replace_plain (ms := region) (ms' := []) (text' := r.doc f) hkeep hR (by simpa using hr.reads f (hr.names f hf)) (hr.skip f hf) (hr.outside f hf) (fun l hl => h3 _ l hl) (by simp) hb'
      rw [hb] at this
      cases this
  have hiff : (cliMain E r.args s' stdin).code = 1 ↔ ∃ f ∈ r.args.filenames, ∃ e, buildToc E r.args.options f (some ⟨r.doc f, false⟩) = .error e := by
    rw [(C107_separate hr.inPlace hr.some hr.once hstd s' stdin).1]
    constructor
    · rintro ⟨f, hf, h⟩
      cases hb : buildToc E r.args.options f (some ⟨r.doc f, false⟩) with
      | error e => exact ⟨f, hf, e, hb⟩
      | ok out => exact absurd h ((hstep f hf).2.1 out _ hb (trimmedRight_iff.mpr rfl)).1
    · rintro ⟨f, hf, e, h⟩
      exact ⟨f, hf, ((hstep f hf).2.2 e h).1⟩
  have hfail : (cliMain E r.args s' stdin).code = 1 → filesAfter E r.args stdin s' = s' := by
    intro h
    obtain ⟨f, hf, e, hb⟩ := hiff.mp h
    obtain ⟨-, e', hb'⟩ := (hstep f hf).2.2 e hb
    have hnames : namesOf r.args = r.args.filenames := by unfold namesOf; rw [if_neg hr.some]
    cases hbm : buildMultipleTocs E r.args.options s' stdin r.args.filenames with
    | error e'' =>
      unfold filesAfter
      rw [C46_build_fails hbm]
      rfl
    | ok tocs =>
      exfalso
      obtain ⟨hlen, hbs⟩ := (tables_iff hnames hstd s' stdin tocs).mp hbm
      have hfst : (r.args.filenames.zip tocs).map Prod.fst = r.args.filenames := List.map_fst_zip (by omega)
      rw [← hfst] at hf
      obtain ⟨p, hp, rfl⟩ := List.mem_map.mp hf
      rw [hbs p hp] at hb'
      cases hb'
  have heach := fun (h : (cliMain E r.args s' stdin).code ≠ 1) g => C107_each hr.inPlace hr.some hr.once hstd s' stdin h g
  refine ⟨?_, ?_, hiff, hfail, ?_⟩
  · intro f hf
    by_cases h : (cliMain E r.args s' stdin).code = 1
    · rw [hfail h]
      exact htidy f hf
    · have e := heach h f
      by_cases hm : f ∈ r.args.filenames
      · rw [if_pos hm] at e
        obtain ⟨b, region, a, ⟨z1, z2, z3, z4⟩, t2, t3, t4⟩ := (hstep f hm).1
        exact ⟨b, region, a, ⟨z1, z2, by rw [e]; exact z3, z4⟩, t2, t3, t4⟩
      · rw [if_neg hm] at e
        obtain ⟨b, region, a, ⟨z1, z2, z3, z4⟩, t2, t3, t4⟩ := htidy f hf
        exact ⟨b, region, a, ⟨z1, z2, by rw [e]; exact z3, z4⟩, t2, t3, t4⟩
  · intro g hm
    by_cases h : (cliMain E r.args s' stdin).code = 1
    · rw [hfail h]
    · rw [heach h g, if_neg hm]
  · intro h f hf
    cases hb : buildToc E r.args.options f (some ⟨r.doc f, false⟩) with
    | error e => exact absurd (hiff.mpr ⟨f, hf, e, hb⟩) h
    | ok out =>
      refine ⟨out, _, rfl, trimmedRight_iff.mpr rfl, ?_⟩
      rw [heach h f, if_pos hf]
      exact ((hstep f hf).2.1 out _ hb (trimmedRight_iff.mpr rfl)).2

theorem phistory_tidy {E : Env} (hE : E.Lawful) {marker : Str} (hg : PlainMarker marker) (hpm : ∀ p, PlainLine p (marker ++ ['\n'])) {stdin : Stdin} {P : List Str} {s s' : FS} {rs : List PRound}
    (h : PHistory E marker P stdin s rs s') (hs : ∀ f ∈ P, Tidy E.isDigit marker f s) (hr : ∀ r ∈ rs, r.Good P marker) :
    (∀ f ∈ P, Tidy E.isDigit marker f s') ∧ ∀ g, g ∉ P → s' g = s g := by
  induction h with
  | nil => exact ⟨hs, fun _ _ => rfl⟩
  | snoc h1 h2 ih =>
    obtain ⟨i1, i2⟩ := ih (fun r hr' => hr r (by simp [hr']))
    obtain ⟨k1, k2, -⟩ := pround_step hE hg hpm stdin (hr _ (by simp)) i1 h2
    exact ⟨k1, fun g hg => by rw [k2 g (fun h => hg ((hr _ (by simp)).names g h)), h2.2 g hg, i2 g hg]⟩

/-- **C109**: the files of a project are edited and updated, again and again, each time with a command for some of the files and with other options. Files outside of the project are not touched.
The last command (on the files `s2`, as edited last) fails exactly if one of the tables of the files named by it cannot be built, and then it changes no file at all. Else each file named by it is its text
as edited last, with the table of that text, and the files not named by it are left as edited last. -/
theorem C109_project {E : Env} (hE : E.Lawful) {marker : Str} (hg : PlainMarker marker) (hpm : ∀ p, PlainLine p (marker ++ ['\n'])) {stdin : Stdin} {P : List Str} {s s1 s2 : FS} {rs : List PRound}
    {r : PRound} (h : PHistory E marker P stdin s rs s1) (he : EditedAll E.isDigit marker P r s1 s2) (hs : ∀ f ∈ P, Tidy E.isDigit marker f s) (hr : ∀ x ∈ rs ++ [r], x.Good P marker) :
    (∀ g, g ∉ P → filesAfter E r.args stdin s2 g = s g) ∧
    ((cliMain E r.args s2 stdin).code = 1 ↔ ∃ f ∈ r.args.filenames, ∃ e, buildToc E r.args.options f (some ⟨r.doc f, false⟩) = .error e) ∧
    ((cliMain E r.args s2 stdin).code = 1 → filesAfter E r.args stdin s2 = s2) ∧
    ((cliMain E r.args s2 stdin).code ≠ 1 →
      (∀ f ∈ r.args.filenames, ∃ out core, buildToc E r.args.options f (some ⟨r.doc f, false⟩) = .ok out ∧ TrimmedRight isPySpace out core ∧
        filesAfter E r.args stdin s2 f = some ⟨(r.before f).flatten ++ block core marker ['\n'] ++ (r.after f).flatten, false⟩) ∧
      ∀ g, g ∉ r.args.filenames → filesAfter E r.args stdin s2 g = s2 g) := by
  obtain ⟨i1, i2⟩ := phistory_tidy hE hg hpm h hs (fun x hx => hr x (by simp [hx]))
  have hr' := hr r (by simp)
  obtain ⟨-, k2, k3, k4, k5⟩ := pround_step hE hg hpm stdin hr' i1 he
  exact ⟨fun g hg => by rw [k2 g (fun h => hg (hr'.names g h)), he.2 g hg, i2 g hg], k3, k4, fun h => ⟨k5 h, k2⟩⟩

/-- **C109**: two histories with the same last edits and the same last command, which does not fail, end with the same contents of all files named by that command, whatever was done before. -/
theorem C109_same_end {E : Env} (hE : E.Lawful) {marker : Str} (hg : PlainMarker marker) (hpm : ∀ p, PlainLine p (marker ++ ['\n'])) {stdin stdin' : Stdin} {P : List Str}
    {s s1 s2 t t1 t2 : FS} {rs rs' : List PRound} {r : PRound} (h : PHistory E marker P stdin s rs s1) (he : EditedAll E.isDigit marker P r s1 s2)
    (h' : PHistory E marker P stdin' t rs' t1) (he' : EditedAll E.isDigit marker P r t1 t2) (hs : ∀ f ∈ P, Tidy E.isDigit marker f s) (ht : ∀ f ∈ P, Tidy E.isDigit marker f t)
    (hr : ∀ x ∈ rs ++ [r], x.Good P marker) (hr' : ∀ x ∈ rs' ++ [r], x.Good P marker) :
    ((cliMain E r.args s2 stdin).code = 1 ↔ (cliMain E r.args t2 stdin').code = 1) ∧
    ((cliMain E r.args s2 stdin).code ≠ 1 → ∀ f ∈ r.args.filenames, filesAfter E r.args stdin s2 f = filesAfter E r.args stdin' t2 f) := by
  obtain ⟨-, k1, -, k2⟩ := C109_project hE hg hpm h he hs hr
  obtain ⟨-, m1, -, m2⟩ := C109_project hE hg hpm h' he' ht hr'
  have hc := k1.trans m1.symm
  refine ⟨hc, fun hok f hf => ?_⟩
  obtain ⟨out, core, o1, o2, o3⟩ := (k2 hok).1 f hf
  obtain ⟨out', core', p1, p2, p3⟩ := (m2 (fun h => hok (hc.mpr h))).1 f hf
  rw [o1] at p1
  injection p1 with p1
  subst p1
  rw [trimmedRight_iff] at o2 p2
  rw [o3, p3, ← o2, ← p2]

namespace ProjectCase

/-! Both files are updated; then a line is added to the first one and the heading of the second one is renamed, and the second one is updated. -/

def r1 : PRound := ⟨fun f => if f = fa then "# a\n".toList else "# b\n".toList, fun _ => [], fun f => if f = fa then ["# a\n".toList] else ["# b\n".toList], aa⟩
def r2 : PRound := ⟨fun f => if f = fa then "x\n# a\n".toList else "# c\n".toList, fun _ => [], fun f => if f = fa then ["x\n".toList, "# a\n".toList] else ["# c\n".toList],
  { aa with filenames := [fb] }⟩

theorem both {p : Str → Prop} (h1 : p fa) (h2 : p fb) : ∀ f ∈ [fa, fb], p f := by
  intro f hf
  have : f = fa ∨ f = fb := by simpa using hf
  rcases this with rfl | rfl
  · exact h1
  · exact h2

theorem good1 : r1.Good [fa, fb] mk := by
  refine ⟨rfl, by decide, by decide, by decide, rfl, ⟨.inl (by decide), rfl, rfl⟩, by decide, by decide, fun _ _ _ => .nil, both ?_ ?_, both ?_ ?_⟩
  · simp only [isMarker_iff]; decide +kernel
  · simp only [isMarker_iff]; decide +kernel
  · exact (reads_iff (bad := false)).mpr (by decide +kernel)
  · exact (reads_iff (bad := false)).mpr (by decide +kernel)

theorem good2 : r2.Good [fa, fb] mk := by
  refine ⟨rfl, by decide, by decide, by decide, rfl, ⟨.inl (by decide), rfl, rfl⟩, by decide, by decide, fun _ _ _ => .nil, both ?_ ?_, both ?_ ?_⟩
  · simp only [isMarker_iff]; decide +kernel
  · simp only [isMarker_iff]; decide +kernel
  · exact (reads_iff (bad := false)).mpr (by decide +kernel)
  · exact (reads_iff (bad := false)).mpr (by decide +kernel)

theorem oneRegion : Region asciiEnv.isDigit mk ["<!--TOC-->\n".toList] := .inl ⟨_, rfl, isMarker_iff.mpr (by decide +kernel)⟩

theorem tableRegion (h : Char) (hh : h = 'a' ∨ h = 'b') : Region asciiEnv.isDigit mk (table h) := by
  rcases hh with rfl | rfl
  · refine .inr ⟨_, ["\n".toList, "- [a](#a)\n".toList, "\n".toList], _, rfl, isMarker_iff.mpr (by decide +kernel), isMarker_iff.mpr (by decide +kernel), ?_,
      .inr ⟨0, ['-'], "[a](#a)".toList, by omega, by decide +kernel, .inl rfl, by simp [IsBlank]⟩⟩
    simp only [isMarker_iff]; decide +kernel
  · refine .inr ⟨_, ["\n".toList, "- [b](#b)\n".toList, "\n".toList], _, rfl, isMarker_iff.mpr (by decide +kernel), isMarker_iff.mpr (by decide +kernel), ?_,
      .inr ⟨0, ['-'], "[b](#b)".toList, by omega, by decide +kernel, .inl rfl, by simp [IsBlank]⟩⟩
    simp only [isMarker_iff]; decide +kernel

theorem linesA : HasLines sa fa ([] ++ ["<!--TOC-->\n".toList] ++ ["# a\n".toList]) := ⟨by decide, text 'a', by decide +kernel, (reads_iff (bad := false)).mpr (by decide +kernel)⟩
theorem linesB : HasLines sa fb ([] ++ ["<!--TOC-->\n".toList] ++ ["# b\n".toList]) := ⟨by decide, text 'b', by decide +kernel, (reads_iff (bad := false)).mpr (by decide +kernel)⟩

theorem first : EditedAll asciiEnv.isDigit mk [fa, fb] r1 sa sa := by
  refine ⟨both ⟨[], _, ["# a\n".toList], linesA, oneRegion, ?_, linesA⟩ ⟨[], _, ["# b\n".toList], linesB, oneRegion, ?_, linesB⟩, fun _ _ => rfl⟩
  · simp only [isMarker_iff]; decide +kernel
  · simp only [isMarker_iff]; decide +kernel

theorem tidy : ∀ f ∈ [fa, fb], Tidy asciiEnv.isDigit mk f sa := by
  refine both ⟨[], _, ["# a\n".toList], linesA, oneRegion, ?_, ?_⟩ ⟨[], _, ["# b\n".toList], linesB, oneRegion, ?_, ?_⟩
  · simp only [isMarker_iff]; decide +kernel
  · exact fun p l hl => by simp at hl; subst hl; exact default_plain p
  · simp only [isMarker_iff]; decide +kernel
  · exact fun p l hl => by simp at hl; subst hl; exact default_plain p

theorem hist1 : PHistory asciiEnv mk [fa, fb] none sa [r1] (filesAfter asciiEnv aa none sa) := .snoc .nil first

theorem second : EditedAll asciiEnv.isDigit mk [fa, fb] r2 (filesAfter asciiEnv aa none sa) (sb 'c') := by
  refine ⟨both ⟨[], table 'a', ["# a\n".toList], ⟨by decide, text2 'a' 'a' "", by decide +kernel, (reads_iff (bad := false)).mpr (by decide +kernel)⟩, tableRegion 'a' (.inl rfl), ?_,
      ⟨by decide, text2 'a' 'a' "x\n", by decide +kernel, (reads_iff (bad := false)).mpr (by decide +kernel)⟩⟩
    ⟨[], table 'b', ["# b\n".toList], ⟨by decide, text2 'b' 'b' "", by decide +kernel, (reads_iff (bad := false)).mpr (by decide +kernel)⟩, tableRegion 'b' (.inr rfl), ?_,
      ⟨by decide, text2 'b' 'c' "", by decide +kernel, (reads_iff (bad := false)).mpr (by decide +kernel)⟩⟩, ?_⟩
  · simp only [isMarker_iff]; decide +kernel
  · simp only [isMarker_iff]; decide +kernel
  · intro g hg'
    have hga : g ≠ fa := fun e => hg' (by simp [e])
    have hgb : g ≠ fb := fun e => hg' (by simp [e])
    have := (pround_step asciiEnv_lawful ⟨default_good, default_notItem⟩ (fun p => default_plain p) none good1 tidy first).2.1 g hg'
    change filesAfter asciiEnv aa none sa g = sa g at this
    rw [this]
    simp [sa, sb, hga, hgb]

/-- The hypotheses are met: the second file has the table of its new heading, the first one is left as edited. -/
example : filesAfter asciiEnv r2.args none (sb 'c') fb = some ⟨text2 'c' 'c' "", false⟩ ∧ filesAfter asciiEnv r2.args none (sb 'c') fa = some ⟨text2 'a' 'a' "x\n", false⟩ := by
  obtain ⟨-, k2, -, k4⟩ := C109_project asciiEnv_lawful ⟨default_good, default_notItem⟩ (fun p => default_plain p) hist1 second tidy
    (by intro x hx; simp at hx; rcases hx with rfl | rfl; exacts [good1, good2])
  have hc : (cliMain asciiEnv r2.args (sb 'c') none).code ≠ 1 := by
    rw [Ne, k2]
    rintro ⟨f, hf, e, h⟩
    have : f = fb := by simpa [r2] using hf
    subst this
    have ho : buildToc asciiEnv r2.args.options fb (some ⟨r2.doc fb, false⟩) = .ok "- [c](#c)\n".toList := by decide +kernel
    rw [ho] at h
    cases h
  obtain ⟨h1, h2⟩ := k4 hc
  obtain ⟨out, core, o1, o2, o3⟩ := h1 fb (by decide)
  have ho : buildToc asciiEnv r2.args.options fb (some ⟨r2.doc fb, false⟩) = .ok "- [c](#c)\n".toList := by decide +kernel
  rw [ho] at o1
  injection o1 with o1
  subst o1
  refine ⟨?_, (h2 fa (by decide)).trans (by decide +kernel)⟩
  rw [o3, ← trimmedRight_iff.mp o2]
  decide +kernel

end ProjectCase

end MdToc.Props
