import Verif.Props.History

/-!
# The table can be moved: C105

The table with its markers is cut out of an up to date file and put in elsewhere. The file is up to date still.
-/

set_option linter.unusedSimpArgs false

namespace MdToc.Props

open MdToc.Spec

/-- A command that does not fail has built the table of its only file. -/
theorem built_of_code {E : Env} {a : CliArgs} {f : Str} (hf : a.filenames = [f]) (hne : f ≠ stdinName) {fs : FS} {stdin : Stdin} (h : (cliMain E a fs stdin).code ≠ 1) :
    ∃ out, buildToc E a.options f (fs f) = .ok out := by
  cases hb : buildToc E a.options f (fs f) with
  | ok out => exact ⟨out, rfl⟩
  | error e =>
    have hm : buildMultipleTocs E a.options fs stdin a.filenames = .error e := by
      unfold buildMultipleTocs defaultNames
      rw [hf]
      simp only [List.length_cons, List.length_nil, Nat.zero_add, Nat.one_ne_zero, if_false, buildTocs, if_neg hne, bind, Except.bind, hb]
    refine absurd ?_ h
    unfold cliMain writeToc
    simp only [hm]

/-- **C105**: a file is updated, then the table with its markers is moved to another place in the text. Then the next run changes nothing, and with `--diff` it says that the file is up to
date, in place or not. Here `b1 ++ a1` is the text without the table, and the second place of the table is between `b2` and `a2`. -/
theorem C105_move {E : Env} (hE : E.Lawful) {marker f : Str} (hg : PlainMarker marker) (hpm : ∀ p, PlainLine p (marker ++ ['\n'])) {a : CliArgs} {stdin : Stdin}
    {b1 a1 b2 a2 region : List Str} {s s2 : FS} (h1 : Round.Good f marker ⟨b1, a1, a⟩) (h2 : Round.Good f marker ⟨b2, a2, a⟩) (hmove : b2 ++ a2 = b1 ++ a1)
    (hf : HasLines s f (b1 ++ region ++ a1)) (hreg : Region E.isDigit marker region) (hpl : ∀ p, ∀ l ∈ region, PlainLine p l) {doc : Str} (hd : Reads doc (b1 ++ a1))
    (hok : (cliMain E a s stdin).code ≠ 1) (he : Edited E.isDigit marker f b2 a2 (filesAfter E a stdin s) s2) (hlf : ∀ t, s2 f = some ⟨t, false⟩ → '\r' ∉ t) :
    filesAfter E a stdin s2 = s2 ∧ (cliMain E { a with diff := true } s2 stdin).code = 0 ∧ (cliMain E { a with diff := true, inPlace := false } s2 stdin).code = 0 := by
  have hne := hf.1
  obtain ⟨out, ho⟩ := built_of_code h1.names hne hok
  obtain ⟨core, hc⟩ : ∃ core, TrimmedRight isPySpace out core := ⟨_, trimmedRight_iff.mpr rfl⟩
  obtain ⟨text, hft, hR⟩ := hf.2
  have hk : 1 ≤ a.options.keep := h1.keep
  -- the first run
  obtain ⟨table, k1, k2, k3, k4, -, k6, -⟩ := update_step hE h1.steady.parser h1.steady.links h1.steady.newline hf hg.1 hg.2 hreg (fun l hl => h1.noMarker l (by simp [hl]))
    (fun l hl => h1.noMarker l (by simp [hl])) ho hc
  have k2' : Update E a.options a.tocMarker f s (s.write f (b1 ++ table ++ a1).flatten) := by rw [show a.tocMarker = marker from h1.sameMarker]; exact k2
  have e1 := (update_command h1.inPlace h1.names hne stdin k2').1
  rw [e1] at he
  have hplt : ∀ p, ∀ l ∈ table, PlainLine p l := fun p => k6 p (hpm p)
  have hf2 := edited_region k3 k4 h1.noMarker he
  -- the text without the table has the same table
  have hodoc : buildToc E a.options f (some ⟨doc, false⟩) = .ok out := by
    rw [hft] at ho
    exact replace_plain (ms := region) (ms' := []) hk hR (by simpa using hd) h1.skip h1.outside (fun l hl => hpl _ l hl) (by simp) ho
  -- the second run
  have hs : Tidy E.isDigit marker f (s.write f (b1 ++ table ++ a1).flatten) := ⟨b1, table, a1, k3, k4, h1.noMarker, hplt⟩
  obtain ⟨-, j2, j3⟩ := round_step hE hg hpm stdin h2 hs he
  obtain ⟨j4, j5⟩ := j3 doc out core (by simpa [hmove] using hd) hodoc hc
  have hsame : filesAfter E a stdin s2 = s2 := by
    funext g
    by_cases hgf : g = f
    · subst hgf
      obtain ⟨-, t2, ht2, hR2⟩ := hf2
      have j5' : filesAfter E a stdin s2 g = some ⟨b2.flatten ++ block core marker ['\n'] ++ a2.flatten, false⟩ := j5
      rw [j5', ht2, reads_flatten hR2 (hlf _ ht2), ← k1]
      simp
    · obtain ⟨_, _, _, -, -, -, -, hoth⟩ := he
      rw [hoth g hgf]
      exact j2 g hgf
  refine ⟨hsame, ?_⟩
  have hplace : ∀ g ∈ a.filenames, HasPlace E a s2 g := by
    intro g hgm
    have hgf : g = f := by rw [show a.filenames = [f] from h1.names] at hgm; simpa using hgm
    subst hgf
    refine ⟨_, b2, table, a2, hf2, ?_, .inl h1.steady.newline, h2.skip, h2.outside, fun l hl => hplt _ l hl, ?_⟩
    · rw [show a.tocMarker = marker from h1.sameMarker]
      exact region_cut k4 (fun l hl => h2.noMarker l (by simp [hl])) (fun l hl => h2.noMarker l (by simp [hl]))
    · rw [show a.tocMarker = marker from h1.sameMarker]
      exact hpm _
  have hnames : a.filenames = [f] := h1.names
  have := (C91_update_check_partial hE h1.inPlace (by rw [hnames]; simp) (by rw [hnames]; simp) h1.steady.parser h1.steady.links h1.keep (.inl h1.steady.newline)
    (by rw [show a.tocMarker = marker from h1.sameMarker]; exact hg.1) (by rw [show a.tocMarker = marker from h1.sameMarker]; exact hg.2) (fun g hgm => .inl (hplace g hgm)) j4).2
    h1.steady.newline hplace
  rw [show after E a s2 stdin = s2 from hsame] at this
  exact ⟨this.1, this.2.1⟩

namespace MoveCase

/-! A file, the update and the moved table. -/

def fm : Str := "a.md".toList
def mm : Str := "<!--TOC-->".toList
def am : CliArgs := { filenames := [fm], inPlace := true }
def sm : FS := fun g => if g = fm then some ⟨"<!--TOC-->\nx\n# a\n".toList, false⟩ else none
def sm2 : FS := sm.write fm "x\n<!--TOC-->\n\n- [a](#a)\n\n<!--TOC-->\n# a\n".toList
def tm : List Str := ["<!--TOC-->\n".toList, "\n".toList, "- [a](#a)\n".toList, "\n".toList, "<!--TOC-->\n".toList]

theorem goodm1 : Round.Good fm mm ⟨[], ["x\n".toList, "# a\n".toList], am⟩ := by
  refine ⟨rfl, rfl, rfl, ⟨.inl (by decide), rfl, rfl⟩, by decide, by decide, fun _ => .nil, ?_⟩
  simp only [isMarker_iff]; decide +kernel

theorem goodm2 : Round.Good fm mm ⟨["x\n".toList], ["# a\n".toList], am⟩ := by
  refine ⟨rfl, rfl, rfl, ⟨.inl (by decide), rfl, rfl⟩, by decide, by decide, fun _ => ?_, ?_⟩
  · exact outside_plain (by intro l hl; simp [am] at hl; subst hl; exact plain_lit _ (b := "x".toList) (by decide))
  · simp only [isMarker_iff]; decide +kernel

theorem hasm : HasLines sm fm ([] ++ ["<!--TOC-->\n".toList] ++ ["x\n".toList, "# a\n".toList]) :=
  ⟨by decide, "<!--TOC-->\nx\n# a\n".toList, by simp [sm], (reads_iff (bad := false)).mpr (by decide +kernel)⟩

theorem afterm : filesAfter asciiEnv am none sm = sm.write fm "<!--TOC-->\n\n- [a](#a)\n\n<!--TOC-->\nx\n# a\n".toList := by
  funext g
  by_cases hg : g = fm
  · subst hg
    simp only [FS.write, if_true]
    decide +kernel
  · have ht : Tidy asciiEnv.isDigit mm fm sm := ⟨[], ["<!--TOC-->\n".toList], _, hasm, .inl ⟨_, rfl, isMarker_iff.mpr (by decide +kernel)⟩,
      by simp only [isMarker_iff]; decide +kernel, fun p l hl => by simp at hl; subst hl; exact default_plain p⟩
    have he : Edited asciiEnv.isDigit mm fm [] ["x\n".toList, "# a\n".toList] sm sm :=
      ⟨[], ["<!--TOC-->\n".toList], _, hasm, .inl ⟨_, rfl, isMarker_iff.mpr (by decide +kernel)⟩, by simp only [isMarker_iff]; decide +kernel, hasm, fun _ _ => rfl⟩
    rw [show filesAfter asciiEnv am none sm g = sm g from
      (round_step asciiEnv_lawful ⟨default_good, default_notItem⟩ (fun p => default_plain p) none goodm1 ht he).2.1 g hg]
    simp [FS.write, hg]

/-- The table at the top of a file is moved behind the first line: the hypotheses are met. -/
example : filesAfter asciiEnv am none sm2 = sm2 ∧ (cliMain asciiEnv { am with diff := true } sm2 none).code = 0 := by
  have h := C105_move (stdin := none) asciiEnv_lawful (f := fm) ⟨default_good, default_notItem⟩ (fun p => default_plain p) goodm1 goodm2 rfl hasm (s2 := sm2)
    (.inl ⟨_, rfl, isMarker_iff.mpr (by decide +kernel)⟩) (fun p l hl => by simp at hl; subst hl; exact default_plain p) (doc := "x\n# a\n".toList)
    ((reads_iff (bad := false)).mpr (by decide +kernel)) (by decide +kernel) ?_ ?_
  · exact ⟨h.1, h.2.1⟩
  · rw [afterm]
    refine ⟨[], tm, ["x\n".toList, "# a\n".toList], ⟨by decide, "<!--TOC-->\n\n- [a](#a)\n\n<!--TOC-->\nx\n# a\n".toList, by simp [FS.write],
      (reads_iff (bad := false)).mpr (by decide +kernel)⟩, ?_, ?_, ⟨by decide, "x\n<!--TOC-->\n\n- [a](#a)\n\n<!--TOC-->\n# a\n".toList, by simp [sm2, FS.write],
      (reads_iff (bad := false)).mpr (by decide +kernel)⟩, fun g hg => by simp [sm2, FS.write, hg]⟩
    · refine .inr ⟨_, ["\n".toList, "- [a](#a)\n".toList, "\n".toList], _, rfl, isMarker_iff.mpr (by decide +kernel), isMarker_iff.mpr (by decide +kernel), ?_,
        .inr ⟨0, ['-'], "[a](#a)".toList, by omega, by decide +kernel, .inl rfl, by simp [IsBlank]⟩⟩
      simp only [isMarker_iff]; decide +kernel
    · simp only [isMarker_iff]; decide +kernel
  · intro t ht
    simp only [sm2, FS.write, if_true, Option.some.injEq] at ht
    injection ht with ht
    subst ht
    decide +kernel
end MoveCase

end MdToc.Props
