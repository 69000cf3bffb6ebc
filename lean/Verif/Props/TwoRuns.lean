import Verif.Props.TwoMarkers
import Verif.Props.Cli

/-!
# Two tables in one file, by the command: C99
-/

set_option linter.unusedSimpArgs false

namespace MdToc.Props

open MdToc.Spec

/-- The files after a run of the command. -/
def filesAfter (E : Env) (a : CliArgs) (stdin : Stdin) (fs : FS) : FS := (cliMain E a fs stdin).trace.getLast?.getD fs

theorem update_command {E : Env} {a : CliArgs} (hin : a.inPlace = true) {f : Str} (hf : a.filenames = [f]) (hne : f ≠ stdinName) {fs fs' : FS} (stdin : Stdin)
    (h : Update E a.options a.tocMarker f fs fs') : filesAfter E a stdin fs = fs' ∧ (cliMain E a fs stdin).code ≠ 1 := by
  obtain ⟨out, b, tr, h1, h2, rfl⟩ := h
  have hb : buildMultipleTocs E a.options fs stdin a.filenames = .ok [out] := by
    unfold buildMultipleTocs defaultNames
    rw [hf]
    simp only [List.length_cons, List.length_nil, Nat.zero_add, Nat.one_ne_zero, if_false, buildTocs, if_neg hne, bind, Except.bind, h1]
  have hc' : cliNewline a.newline = a.options.newline := rfl
  have key : (cliMain E a fs stdin).trace = tr.map (fs.write f) ∧ (cliMain E a fs stdin).code ≠ 1 := by
    unfold cliMain writeToc
    simp only [hb, hin, if_true, hc']
    rw [hf]
    simp only [defaultNames, writeStrings, List.length_cons, List.length_nil, Nat.zero_add, Nat.one_ne_zero, if_false, ne_eq, not_true, List.zip_cons_cons, List.zip_nil_right,
      writeLoop, h2, traceFS, List.append_nil, true_and]
    cases b <;> cases a.diff <;> decide
  refine ⟨?_, key.2⟩
  unfold filesAfter lastFS
  rw [key.1, List.getLast?_map]
  cases tr.getLast? <;> rfl

/-- **C99** for the command: two commands in place for the same file with different markers and options may come in any order; they end without an error, the files are the same in
the end, both tables are in the file and the rest is as it was, and each of the commands, given again, changes nothing. -/
theorem C99_command {E : Env} (hE : E.Lawful) {a1 a2 : CliArgs} (i1 : a1.inPlace = true) (i2 : a2.inPlace = true) {f : Str} (n1 : a1.filenames = [f]) (n2 : a2.filenames = [f])
    (s1 : Steady a1.options) (s2 : Steady a2.options) (g1 : PlainMarker a1.tocMarker) (g2 : PlainMarker a2.tocMarker) {fs : FS} {A r1 B r2 C : List Str}
    (hf : HasLines fs f (A ++ r1 ++ B ++ r2 ++ C)) (h : TwoRegions E.isDigit a1.tocMarker a2.tocMarker A r1 B r2 C)
    (q1 : Quiet a1.options a1.tocMarker a2.tocMarker A r1 B r2) (q2 : Quiet a2.options a1.tocMarker a2.tocMarker A r1 B r2) {out1 out2 core1 core2 : Str}
    (b1 : buildToc E a1.options f (fs f) = .ok out1) (b2 : buildToc E a2.options f (fs f) = .ok out2) (c1 : TrimmedRight isPySpace out1 core1)
    (c2 : TrimmedRight isPySpace out2 core2) (stdin : Stdin) :
    ∃ fs', filesAfter E a2 stdin (filesAfter E a1 stdin fs) = fs' ∧ filesAfter E a1 stdin (filesAfter E a2 stdin fs) = fs' ∧
      (cliMain E a1 fs stdin).code ≠ 1 ∧ (cliMain E a2 (filesAfter E a1 stdin fs) stdin).code ≠ 1 ∧
      (cliMain E a2 fs stdin).code ≠ 1 ∧ (cliMain E a1 (filesAfter E a2 stdin fs) stdin).code ≠ 1 ∧
      fs' f = some ⟨A.flatten ++ block core1 a1.tocMarker ['\n'] ++ B.flatten ++ block core2 a2.tocMarker ['\n'] ++ C.flatten, false⟩ ∧ (∀ g, g ≠ f → fs' g = fs g) ∧
      filesAfter E a1 stdin fs' = fs' ∧ filesAfter E a2 stdin fs' = fs' := by
  obtain ⟨fs1, fs2, fs', u1, u2, u3, u4, h5, h6, u7, u8⟩ := C99_order hE s1 s2 g1 g2 hf h q1 q2 b1 b2 c1 c2
  have hne : f ≠ stdinName := hf.1
  obtain ⟨e1, d1⟩ := update_command i1 n1 hne stdin u1
  obtain ⟨e2, d2⟩ := update_command i2 n2 hne stdin u2
  obtain ⟨e3, d3⟩ := update_command i2 n2 hne stdin u3
  obtain ⟨e4, d4⟩ := update_command i1 n1 hne stdin u4
  obtain ⟨e7, -⟩ := update_command i1 n1 hne stdin u7
  obtain ⟨e8, -⟩ := update_command i2 n2 hne stdin u8
  exact ⟨fs', by rw [e1, e2], by rw [e3, e4], d1, by rw [e1]; exact d2, d3, by rw [e3]; exact d4, h5, h6, e7, e8⟩

/-- Two commands, in both orders. -/
example :
    let fs : FS := fun _ => some ⟨"<!--A-->\n# x\n## y\n<!--B-->\n".toList, false⟩
    let a1 : CliArgs := { filenames := ["a.md".toList], inPlace := true, tocMarker := "<!--A-->".toList }
    let a2 : CliArgs := { filenames := ["a.md".toList], inPlace := true, tocMarker := "<!--B-->".toList, headerLevels := 1, parser := .gitlab }
    (filesAfter asciiEnv a2 none (filesAfter asciiEnv a1 none fs)) "a.md".toList = (filesAfter asciiEnv a1 none (filesAfter asciiEnv a2 none fs)) "a.md".toList ∧
    ((filesAfter asciiEnv a2 none (filesAfter asciiEnv a1 none fs)) "a.md".toList).map Source.text =
      some "<!--A-->\n\n- [x](#x)\n  - [y](#y)\n\n<!--A-->\n# x\n## y\n<!--B-->\n\n- [x](#x)\n\n<!--B-->\n".toList := by
  decide +kernel

end MdToc.Props
