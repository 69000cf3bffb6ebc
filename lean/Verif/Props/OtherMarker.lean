import Verif.Props.Move

/-!
# The choice of the marker does not matter: C113
-/

set_option linter.unusedSimpArgs false

namespace MdToc.Props

open MdToc.Spec

/-- The file has these lines before and after the place of the table, at the place one marker or an old table, and no other markers. -/
structure Marked (E : Env) (marker f : Str) (before after : List Str) (s : FS) : Prop where
  place : ∃ region, HasLines s f (before ++ region ++ after) ∧ Region E.isDigit marker region ∧ ∀ p, ∀ l ∈ region, PlainLine p l
  none : ∀ l ∈ before ++ after, ¬ IsMarker marker l

theorem marked_tidy {E : Env} {marker f : Str} {before after : List Str} {s : FS} (h : Marked E marker f before after s) :
    Tidy E.isDigit marker f s ∧ Edited E.isDigit marker f before after s s := by
  obtain ⟨⟨region, h1, h2, h3⟩, h4⟩ := h
  exact ⟨⟨before, region, after, h1, h2, h4, h3⟩, before, region, after, h1, h2, h4, h1, fun _ _ => rfl⟩

/-- One update, in terms of the text without the table. -/
theorem marked_update {E : Env} (hE : E.Lawful) {marker f : Str} (hg : PlainMarker marker) (hpm : ∀ p, PlainLine p (marker ++ ['\n'])) {a : CliArgs} {stdin : Stdin} {before after : List Str}
    (hr : Round.Good f marker ⟨before, after, a⟩) {s : FS} (hs : Marked E marker f before after s) {doc : Str} (hd : Reads doc (before ++ after)) :
    ((cliMain E a s stdin).code ≠ 1 ↔ ∃ out, buildToc E a.options f (some ⟨doc, false⟩) = .ok out) ∧
      ∀ out core, buildToc E a.options f (some ⟨doc, false⟩) = .ok out → TrimmedRight isPySpace out core →
        filesAfter E a stdin s f = some ⟨before.flatten ++ block core marker ['\n'] ++ after.flatten, false⟩ := by
  obtain ⟨ht, he⟩ := marked_tidy hs
  obtain ⟨-, -, h3⟩ := round_step hE hg hpm stdin hr ht he
  refine ⟨⟨fun hok => ?_, ?_⟩, fun out core ho hc => (h3 doc out core hd ho hc).2⟩
  · obtain ⟨⟨region, ⟨hne, text, hft, hR⟩, -, hpl⟩, -⟩ := hs
    obtain ⟨out, ho⟩ := built_of_code hr.names hne hok
    rw [hft] at ho
    exact ⟨out, replace_plain (ms := region) (ms' := []) hr.keep hR (by simpa using hd) hr.skip hr.outside (fun l hl => hpl _ l hl) (by simp) ho⟩
  · rintro ⟨out, ho⟩
    exact (h3 doc out _ hd ho (trimmedRight_iff.mpr rfl)).1

/-- **C113**: two files have the same text, the one with the marker `m` and the other with the marker `m'`, with or without old tables. The update with `m` fails if and only if the one with
`m'` fails; if not, the two files are the same afterwards except for the markers around the table. -/
theorem C113_marker {E : Env} (hE : E.Lawful) {m m' f : Str} (hg : PlainMarker m) (hg' : PlainMarker m') (hpm : ∀ p, PlainLine p (m ++ ['\n'])) (hpm' : ∀ p, PlainLine p (m' ++ ['\n']))
    {a : CliArgs} {stdin : Stdin} {before after : List Str} (hr : Round.Good f m ⟨before, after, a⟩) {s s' : FS} (hs : Marked E m f before after s) (hs' : Marked E m' f before after s')
    {doc : Str} (hd : Reads doc (before ++ after)) :
    ((cliMain E a s stdin).code = 1 ↔ (cliMain E { a with tocMarker := m' } s' stdin).code = 1) ∧
      ((cliMain E a s stdin).code ≠ 1 → ∃ table, filesAfter E a stdin s f = some ⟨before.flatten ++ block table m ['\n'] ++ after.flatten, false⟩ ∧
        filesAfter E { a with tocMarker := m' } stdin s' f = some ⟨before.flatten ++ block table m' ['\n'] ++ after.flatten, false⟩) := by
  have hr' : Round.Good f m' ⟨before, after, { a with tocMarker := m' }⟩ := ⟨hr.inPlace, hr.names, rfl, hr.steady, hr.keep, hr.skip, hr.outside, hs'.none⟩
  obtain ⟨h1, h2⟩ := marked_update hE hg hpm (stdin := stdin) hr hs hd
  obtain ⟨h1', h2'⟩ := marked_update hE hg' hpm' (stdin := stdin) hr' hs' hd
  refine ⟨not_iff_not.mp (h1.trans h1'.symm), fun hok => ?_⟩
  obtain ⟨out, ho⟩ := h1.mp hok
  exact ⟨_, h2 out _ ho (trimmedRight_iff.mpr rfl), h2' out _ ho (trimmedRight_iff.mpr rfl)⟩

/-- A file with the table of its text between markers is marked. -/
theorem marked_table {E : Env} (hE : E.Lawful) {m m' f : Str} (hg' : PlainMarker m') (hpm' : ∀ p, PlainLine p (m' ++ ['\n'])) {a : CliArgs} {before after : List Str}
    (hr : Round.Good f m ⟨before, after, a⟩) {s s' : FS} (hs : Marked E m f before after s) (hn : ∀ l ∈ before ++ after, ¬ IsMarker m' l) {doc : Str} (hd : Reads doc (before ++ after))
    {out core : Str} (ho : buildToc E a.options f (some ⟨doc, false⟩) = .ok out) (hc : TrimmedRight isPySpace out core)
    (hf : s' f = some ⟨before.flatten ++ block core m' ['\n'] ++ after.flatten, false⟩) : Marked E m' f before after s' := by
  obtain ⟨⟨region, ⟨hne, text, -, hR⟩, hreg, -⟩, -⟩ := hs
  have hafter : Reads after.flatten after := reads_suffix hR (before ++ region) after rfl
  have hline : Reads (m' ++ ['\n'] ++ after.flatten) ((m' ++ ['\n']) :: after) := Reads.line hg'.1.1 (.inl rfl) hafter
  have hra : region ++ after ≠ [] := by
    rcases hreg with ⟨x, rfl, -⟩ | ⟨x, mid, y, rfl, -⟩ <;> simp
  have hR0 : Reads (before.flatten ++ (m' ++ ['\n'] ++ after.flatten)) (before ++ [m' ++ ['\n']] ++ after) := by
    have := reads_split hR before (region ++ after) (by simp) hra _ _ hline
    simpa using this
  have hf0 : HasLines (s'.write f (before.flatten ++ (m' ++ ['\n'] ++ after.flatten))) f (before ++ [m' ++ ['\n']] ++ after) := ⟨hne, _, by simp [FS.write], hR0⟩
  have ho0 : buildToc E a.options f ((s'.write f (before.flatten ++ (m' ++ ['\n'] ++ after.flatten))) f) = .ok out := by
    rw [show (s'.write f (before.flatten ++ (m' ++ ['\n'] ++ after.flatten))) f = some ⟨before.flatten ++ (m' ++ ['\n'] ++ after.flatten), false⟩ by simp [FS.write]]
    exact replace_plain (ms := []) (ms' := [m' ++ ['\n']]) hr.keep (by simpa using hd) hR0 hr.skip hr.outside (by simp)
      (fun l hl => by simp only [List.mem_singleton] at hl; subst hl; exact hpm' _) ho
  obtain ⟨r', k1, -, ⟨-, t, k3, k3'⟩, k4, -, k6, -⟩ := update_step hE hr.steady.parser hr.steady.links hr.steady.newline hf0 hg'.1 hg'.2
    (.inl ⟨_, rfl, isMarker_nl.mpr (isMarker_self m')⟩) (fun l hl => hn l (by simp [hl])) (fun l hl => hn l (by simp [hl])) ho0 hc
  refine ⟨⟨r', ⟨hne, t, ?_, k3'⟩, k4, fun p => k6 p (hpm' p)⟩, hn⟩
  rw [hf, ← k3, ← k1]
  simp [FS.write]

/-- **C113**: a file is updated, then the markers around the table are replaced by other ones. The next run with the new marker changes nothing, and with `--diff` it says that the file is up
to date, in place or not. -/
theorem C113_replace {E : Env} (hE : E.Lawful) {m m' f : Str} (hg : PlainMarker m) (hg' : PlainMarker m') (hpm : ∀ p, PlainLine p (m ++ ['\n'])) (hpm' : ∀ p, PlainLine p (m' ++ ['\n']))
    {a : CliArgs} {stdin : Stdin} {before after : List Str} (hr : Round.Good f m ⟨before, after, a⟩) {s s' : FS} (hs : Marked E m f before after s) (hn : ∀ l ∈ before ++ after, ¬ IsMarker m' l)
    {doc : Str} (hd : Reads doc (before ++ after)) (hok : (cliMain E a s stdin).code ≠ 1)
    {table : Str} (htab : filesAfter E a stdin s f = some ⟨before.flatten ++ block table m ['\n'] ++ after.flatten, false⟩)
    (hrep : s' f = some ⟨before.flatten ++ block table m' ['\n'] ++ after.flatten, false⟩) :
    filesAfter E { a with tocMarker := m' } stdin s' = s' ∧ (cliMain E { a with tocMarker := m', diff := true } s' stdin).code = 0 ∧
      (cliMain E { a with tocMarker := m', diff := true, inPlace := false } s' stdin).code = 0 := by
  have hr' : Round.Good f m' ⟨before, after, { a with tocMarker := m' }⟩ := ⟨hr.inPlace, hr.names, rfl, hr.steady, hr.keep, hr.skip, hr.outside, hn⟩
  obtain ⟨h1, h2⟩ := marked_update hE hg hpm (stdin := stdin) hr hs hd
  obtain ⟨out, ho⟩ := h1.mp hok
  have hcore : TrimmedRight isPySpace out _ := trimmedRight_iff.mpr rfl
  have e := h2 out _ ho hcore
  have ht : table = pyRstrip out := by
    rw [htab] at e
    injection e with e
    injection e with e
    unfold block at e
    simpa [List.append_assoc] using e
  have hs' := marked_table (s' := s') hE hg' hpm' hr hs hn hd ho hcore (by rw [hrep, ht])
  obtain ⟨h1', h2'⟩ := marked_update hE hg' hpm' (stdin := stdin) hr' hs' hd
  have hok' := h1'.mpr ⟨out, ho⟩
  have e' := h2' out _ ho hcore
  have hsame : filesAfter E { a with tocMarker := m' } stdin s' = s' := by
    funext g
    by_cases hgf : g = f
    · subst hgf
      rw [e', hrep, ht]
    · obtain ⟨ht, he⟩ := marked_tidy hs'
      exact (round_step hE hg' hpm' stdin hr' ht he).2.1 g hgf
  refine ⟨hsame, ?_⟩
  have hplace : ∀ g ∈ ({ a with tocMarker := m' } : CliArgs).filenames, HasPlace E { a with tocMarker := m' } s' g := by
    intro g hgm
    have hgf : g = f := by rw [show ({ a with tocMarker := m' } : CliArgs).filenames = [f] from hr.names] at hgm; simpa using hgm
    subst hgf
    obtain ⟨region, k1, k2, k3⟩ := hs'.place
    exact ⟨_, before, region, after, k1, region_cut k2 (fun l hl => hs'.none l (by simp [hl])) (fun l hl => hs'.none l (by simp [hl])), .inl hr.steady.newline, hr.skip, hr.outside,
      fun l hl => k3 _ l hl, hpm' _⟩
  have hnames : ({ a with tocMarker := m' } : CliArgs).filenames = [f] := hr.names
  have := (C91_update_check_partial hE hr'.inPlace (by rw [hnames]; simp) (by rw [hnames]; simp) hr'.steady.parser hr'.steady.links hr'.keep (.inl hr'.steady.newline)
    hg'.1 hg'.2 (fun g hgm => .inl (hplace g hgm)) hok').2 hr'.steady.newline hplace
  rw [show Props.after E { a with tocMarker := m' } s' stdin = s' from hsame] at this
  exact ⟨this.1, this.2.1⟩

namespace MarkerCase

open MoveCase

/-! The file of C105 with the default marker, and the same text with another marker. -/

def m2 : Str := "<!--MENU-->".toList
def s2 : FS := fun g => if g = fm then some ⟨"<!--MENU-->\nx\n# a\n".toList, false⟩ else none
def s3 : FS := fun g => if g = fm then some ⟨"<!--MENU-->\n\n- [a](#a)\n\n<!--MENU-->\nx\n# a\n".toList, false⟩ else none

theorem plain2 : PlainMarker m2 := by
  unfold m2
  refine ⟨⟨by unfold IsNewline; decide, '<', by decide, by decide⟩, ?_⟩
  intro c hc
  rw [trimmed_iff] at hc
  subst hc
  decide

theorem line2 (p : Parser) : PlainLine p (m2 ++ ['\n']) := plain_lit p (by decide)

theorem none2 : ∀ l ∈ [] ++ ["x\n".toList, "# a\n".toList], ¬ IsMarker m2 l := by
  simp only [isMarker_iff]; decide +kernel

theorem marked1 : Marked asciiEnv mm fm [] ["x\n".toList, "# a\n".toList] sm :=
  ⟨⟨["<!--TOC-->\n".toList], hasm, .inl ⟨_, rfl, isMarker_iff.mpr (by decide +kernel)⟩, fun p l hl => by simp at hl; subst hl; exact default_plain p⟩,
    by simp only [isMarker_iff]; decide +kernel⟩

theorem marked2 : Marked asciiEnv m2 fm [] ["x\n".toList, "# a\n".toList] s2 :=
  ⟨⟨["<!--MENU-->\n".toList], ⟨by decide, "<!--MENU-->\nx\n# a\n".toList, by simp only [s2, if_true], (reads_iff (bad := false)).mpr (by decide +kernel)⟩, .inl ⟨_, rfl, isMarker_iff.mpr (by decide +kernel)⟩,
    fun p l hl => by simp at hl; subst hl; exact line2 p⟩, none2⟩

/-- The hypotheses of `C113_marker` are met, and the command does not fail. -/
example : ∃ table, filesAfter asciiEnv am none sm fm = some ⟨[].flatten ++ block table mm ['\n'] ++ ["x\n".toList, "# a\n".toList].flatten, false⟩ ∧
    filesAfter asciiEnv { am with tocMarker := m2 } none s2 fm = some ⟨[].flatten ++ block table m2 ['\n'] ++ ["x\n".toList, "# a\n".toList].flatten, false⟩ :=
  (C113_marker asciiEnv_lawful ⟨default_good, default_notItem⟩ plain2 (fun p => default_plain p) line2 goodm1 marked1 marked2 (doc := "x\n# a\n".toList)
    ((reads_iff (bad := false)).mpr (by decide +kernel))).2 (by decide +kernel)

/-- The hypotheses of `C113_replace` are met: the markers of the updated file are replaced. -/
example : filesAfter asciiEnv { am with tocMarker := m2 } none s3 = s3 ∧ (cliMain asciiEnv { am with tocMarker := m2, diff := true } s3 none).code = 0 := by
  have h := C113_replace (stdin := none) (s' := s3) (table := "- [a](#a)".toList) asciiEnv_lawful ⟨default_good, default_notItem⟩ plain2 (fun p => default_plain p) line2 goodm1 marked1 none2
    (doc := "x\n# a\n".toList) ((reads_iff (bad := false)).mpr (by decide +kernel)) (by decide +kernel) (by rw [afterm]; simp only [FS.write, if_true]; decide +kernel)
    (by simp only [s3, if_true]; decide +kernel)
  exact ⟨h.1, h.2.1⟩

end MarkerCase

end MdToc.Props
