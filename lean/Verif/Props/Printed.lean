import Verif.Props.OtherMarker

/-!
# What is printed is what is written: C114
-/

set_option linter.unusedSimpArgs false

namespace MdToc.Props

open MdToc.Spec

/-- The same command without `--in-place` and `--diff`. -/
def printing (a : CliArgs) : CliArgs := { a with inPlace := false, diff := false }

theorem printed {E : Env} {a : CliArgs} {f : Str} (hf : a.filenames = [f]) (hne : f ≠ stdinName) {s : FS} {stdin : Stdin} {out : Str} (h : buildToc E a.options f (s f) = .ok out) :
    (cliMain E (printing a) s stdin).code = 0 ∧ (cliMain E (printing a) s stdin).out = out ∧ (cliMain E (printing a) s stdin).trace = [] := by
  have hb : buildMultipleTocs E (printing a).options s stdin (printing a).filenames = .ok [out] := by
    show buildMultipleTocs E a.options s stdin a.filenames = .ok [out]
    unfold buildMultipleTocs defaultNames
    rw [hf]
    simp only [List.length_cons, List.length_nil, Nat.zero_add, Nat.one_ne_zero, if_false, buildTocs, if_neg hne, bind, Except.bind, h]
  obtain ⟨h1, h2, h3, h4⟩ := C46_print (stdin := stdin) rfl hb
  have c1 : (cliMain E (printing a) s stdin).code ≠ 1 := fun h => by simpa [printing] using (h1.mp h).1
  have c2 : (cliMain E (printing a) s stdin).code ≠ 128 := fun h => by simpa [printing] using (h2.mp h).1
  refine ⟨?_, by simpa using h3 c1, h4⟩
  rcases C46_codes E (printing a) s stdin with h | h | h
  · exact h
  · exact absurd h c1
  · exact absurd h c2

/-- The text of the file `f` without the place of the table. -/
def OnlyText (s : FS) (f : Str) (before after : List Str) : Prop := HasLines s f (before ++ after)

/-- **C114**: the command without `--in-place` prints the same table for the text without a marker, for the text with a marker or an old table, and for the updated file; and this is the table that the
command with `--in-place` writes, but for white space at its end. If the one fails, so do the others. -/
theorem C114_printed {E : Env} (hE : E.Lawful) {m f : Str} (hg : PlainMarker m) (hpm : ∀ p, PlainLine p (m ++ ['\n'])) {a : CliArgs} {stdin : Stdin} {before after : List Str}
    (hr : Round.Good f m ⟨before, after, a⟩) {s0 s : FS} (h0 : OnlyText s0 f before after) (hs : Marked E m f before after s) :
    ((cliMain E a s stdin).code = 1 ↔ (cliMain E (printing a) s0 stdin).code = 1) ∧ ((cliMain E a s stdin).code = 1 ↔ (cliMain E (printing a) s stdin).code = 1) ∧
      ((cliMain E a s stdin).code ≠ 1 → ∃ table core, TrimmedRight isPySpace table core ∧
        filesAfter E a stdin s f = some ⟨before.flatten ++ block core m ['\n'] ++ after.flatten, false⟩ ∧
        (cliMain E (printing a) s0 stdin).out = table ∧ (cliMain E (printing a) s stdin).out = table ∧ (cliMain E (printing a) (filesAfter E a stdin s) stdin).out = table) := by
  obtain ⟨hne, doc, hf0, hd⟩ := h0
  obtain ⟨h1, h2⟩ := marked_update hE hg hpm (stdin := stdin) hr hs hd
  have hnames : a.filenames = [f] := hr.names
  -- the table of a marked file is the one of its text
  have same : ∀ {t : FS} {out : Str}, Marked E m f before after t → buildToc E a.options f (some ⟨doc, false⟩) = .ok out → buildToc E a.options f (t f) = .ok out := by
    rintro t out ⟨⟨region, ⟨-, text, hft, hR⟩, -, hpl⟩, -⟩ ho
    rw [hft]
    exact replace_plain (ms := []) (ms' := region) hr.keep (by simpa using hd) hR hr.skip hr.outside (by simp) (fun l hl => hpl _ l hl) ho
  have hp0 : (cliMain E (printing a) s0 stdin).code ≠ 1 ↔ ∃ out, buildToc E a.options f (some ⟨doc, false⟩) = .ok out := by
    constructor
    · intro h
      obtain ⟨out, ho⟩ := built_of_code (a := printing a) hnames hne h
      exact ⟨out, by rw [hf0] at ho; exact ho⟩
    · rintro ⟨out, ho⟩
      rw [(printed (stdin := stdin) hnames hne (by rw [hf0]; exact ho)).1]
      decide
  have hps : (cliMain E (printing a) s stdin).code ≠ 1 ↔ ∃ out, buildToc E a.options f (some ⟨doc, false⟩) = .ok out := by
    constructor
    · intro h
      obtain ⟨out, ho⟩ := built_of_code (a := printing a) hnames hne h
      obtain ⟨⟨region, ⟨-, text, hft, hR⟩, -, hpl⟩, -⟩ := hs
      rw [hft] at ho
      exact ⟨out, replace_plain (ms := region) (ms' := []) hr.keep hR (by simpa using hd) hr.skip hr.outside (fun l hl => hpl _ l hl) (by simp) ho⟩
    · rintro ⟨out, ho⟩
      rw [(printed (stdin := stdin) hnames hne (same hs ho)).1]
      decide
  refine ⟨not_iff_not.mp (h1.trans hp0.symm), not_iff_not.mp (h1.trans hps.symm), fun hok => ?_⟩
  obtain ⟨out, ho⟩ := h1.mp hok
  have hc : TrimmedRight isPySpace out _ := trimmedRight_iff.mpr rfl
  have hfile := h2 out _ ho hc
  refine ⟨out, _, hc, hfile, (printed hnames hne (by rw [hf0]; exact ho)).2.1, (printed hnames hne (same hs ho)).2.1, ?_⟩
  exact (printed hnames hne (same (marked_table hE hg hpm hr hs hs.none hd ho hc hfile) ho)).2.1

namespace PrintedCase

open MoveCase MarkerCase

def st : FS := fun g => if g = fm then some ⟨"x\n# a\n".toList, false⟩ else none

/-- The hypotheses are met, and the command does not fail. -/
example : (cliMain asciiEnv (printing am) st none).out = "- [a](#a)\n".toList ∧ (cliMain asciiEnv (printing am) (filesAfter asciiEnv am none sm) none).out = "- [a](#a)\n".toList := by
  have h := C114_printed (stdin := none) (s0 := st) asciiEnv_lawful ⟨default_good, default_notItem⟩ (fun p => default_plain p) goodm1
    ⟨by decide, "x\n# a\n".toList, by simp [st], (reads_iff (bad := false)).mpr (by decide +kernel)⟩ marked1
  obtain ⟨table, core, -, -, h1, -, h3⟩ := h.2.2 (by decide +kernel)
  have e : (cliMain asciiEnv (printing am) st none).out = "- [a](#a)\n".toList := by decide +kernel
  exact ⟨e, by rw [h3, ← h1, e]⟩

end PrintedCase

end MdToc.Props
