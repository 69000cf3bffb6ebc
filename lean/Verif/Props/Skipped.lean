import Verif.Props.WriteToc
import Verif.Props.TocMore

/-!
# Skipped lines and the place of the table: C102

The number of lines to skip does not change when a table is written among these lines, but the number of lines does.
-/

set_option linter.unusedSimpArgs false

namespace MdToc.Props

open MdToc.Spec

/-- Lines that are neither headings nor code fences in front of a text do not matter. -/
theorem buildToc_front {E : Env} {o : Options} (hs : o.skipLines = 0) (hk : 1 ≤ o.keep) {fn t t' : Str} {ms ls : List Str} (h : Reads t (ms ++ ls)) (h' : Reads t' ls)
    (hp : ∀ l ∈ ms, PlainLine o.parser l) : buildToc E o fn (some ⟨t, false⟩) = buildToc E o fn (some ⟨t', false⟩) := by
  obtain ⟨va, vb, hv⟩ := seenLines_around (p := o.parser) (a := []) (fun _ => .nil) (decide (fn ≠ stdinName)) ls
  have hs' : o.skipLines ≥ 0 := by omega
  have hv1 : SeenLines o.parser (decide (fn ≠ stdinName)) ((ms ++ ls).drop o.skipLines.toNat) (va ++ (ms ++ vb)) := by
    have := hv ms hp
    rw [hs]; simpa using this
  have hv2 : SeenLines o.parser (decide (fn ≠ stdinName)) (ls.drop o.skipLines.toNat) (va ++ ([] ++ vb)) := by
    have := hv [] (by simp)
    rw [hs]; simpa using this
  rw [buildToc_seen hs' h hv1, buildToc_seen hs' h' hv2]
  have hl1 := seen_isLine h hv1
  congr 1
  rw [hdrRun_append, hdrRun_append]
  congr 1
  funext st
  rw [hdrRun_append, hdrRun_plain hk (fun l hl => hl1 l (by simp [hl])) hp]
  rfl

/-- **C102**: the table stands in the skipped lines. After an update the next table is the one of the file before the update with another number of skipped lines: the lines of the
new table count, those of the old one do not, and the skipped lines end behind the table at least. -/
theorem C102_exact {E : Env} (hE : E.Lawful) {o : Options} (hk : 1 ≤ o.keep) (hn : IsEol o.newline []) {fs : FS} {f : Str} {ls : List Str} (hf : HasLines fs f ls)
    {marker : Str} (hg : GoodMarker marker) {before removed after : List Str} (hc : Cut E.isDigit marker ls before removed after)
    (he : IsEol o.newline after.flatten) (hm : PlainLine o.parser (marker ++ ['\n'])) (hin : (before.length : Int) ≤ o.skipLines)
    {out : Str} (h : buildToc E o f (fs f) = .ok out) {b : Bool} {tr : List Str} (hw : writeString E fs f out marker o.newline = .ok (b, tr)) :
    ∃ region : List Str, HasLines (lastFS fs f tr) f (before ++ region ++ after) ∧ region.head? = some (marker ++ ['\n']) ∧
      buildToc E o f (lastFS fs f tr f) =
        buildToc E { o with skipLines := max (before.length + removed.length) (o.skipLines + removed.length - region.length) } f (fs f) := by
  obtain ⟨hf1, text, hf2, hR⟩ := hf
  rw [hf2] at h
  obtain ⟨core, cl, ht, hcl, hitems, heol⟩ := toc_core hE hn h
  obtain ⟨_, _, hw1, hlast⟩ := C37_outside_preserved E ⟨hf1, text, hf2, hR⟩ out marker o.newline hc ht
  rw [hw] at hw1
  injection hw1 with hw1
  injection hw1 with e1 e2
  subst e1; subst e2
  obtain ⟨mid, hR', hmid⟩ := written_reads hR hc hg hcl (by obtain ⟨_, _, _, h⟩ := ht; exact h) heol he
  have hfs : lastFS fs f tr f = some ⟨before.flatten ++ block core marker o.newline ++ after.flatten, false⟩ := by
    unfold lastFS
    rw [hlast]
    simp [FS.write]
  have els := cut_lines hc
  have hplain : ∀ l ∈ (marker ++ ['\n']) :: mid ++ [marker ++ ['\n']], PlainLine o.parser l := by
    intro l hl
    have : l = marker ++ ['\n'] ∨ l ∈ mid := by
      simp at hl
      rcases hl with h | h | h
      · exact .inl h
      · exact .inr h
      · exact .inl h
    rcases this with rfl | hl
    · exact hm
    · rcases hmid l hl with rfl | hl | ⟨z, hz, rfl, hz'⟩
      · exact newline_plain _
      · obtain ⟨i, hi, hi'⟩ := hitems l hl
        exact isItem_plain _ hi hi'
      · obtain ⟨i, hi, hi'⟩ := hitems z hz
        rcases hi' with rfl | rfl
        · exact isItem_plain _ hi (.inr rfl)
        · simp at hz'
  generalize hreg : (marker ++ ['\n']) :: mid ++ [marker ++ ['\n']] = region at hR' hplain
  rw [← List.append_assoc] at hR'
  refine ⟨region, ⟨hf1, _, hfs, hR'⟩, by rw [← hreg]; rfl, ?_⟩
  rw [hfs, hf2]
  -- both tables are those of the lines which are left
  obtain ⟨n, hn'⟩ : ∃ n : Nat, o.skipLines = n := ⟨o.skipLines.toNat, by omega⟩
  rw [hn'] at hin ⊢
  have hin' : before.length ≤ n := by omega
  obtain ⟨s, hs1, hs2⟩ : ∃ s : Nat, (max (before.length + removed.length : Int) ((n : Int) + removed.length - region.length)) = s ∧
      s = max (before.length + removed.length) (n + removed.length - region.length) := ⟨_, by omega, rfl⟩
  rw [hs1]
  have eo : buildToc E o f (some ⟨before.flatten ++ block core marker o.newline ++ after.flatten, false⟩) =
      buildToc E { o with skipLines := (n : Int) } f (some ⟨before.flatten ++ block core marker o.newline ++ after.flatten, false⟩) := by
    rw [← hn']
  rw [eo, C30_skip_lines E o n f hR' (C30_drop hR' n), C30_skip_lines E o s f hR (C30_drop hR s)]
  have d1 : (before ++ region ++ after).drop n = region.drop (n - before.length) ++ after.drop (n - before.length - region.length) := by
    rw [List.append_assoc, List.drop_append, List.drop_append, List.drop_eq_nil_of_le hin', List.nil_append]
  have d2 : ls.drop s = after.drop (s - before.length - removed.length) := by
    rw [els, List.append_assoc, List.drop_append, List.drop_append, List.drop_eq_nil_of_le (show before.length ≤ s by omega), List.nil_append,
      List.drop_eq_nil_of_le (show removed.length ≤ s - before.length by omega), List.nil_append]
  have d3 : s - before.length - removed.length = n - before.length - region.length := by omega
  have r1 := C30_drop hR' n
  have r2 := C30_drop hR s
  rw [d2, d3] at r2 ⊢
  rw [d1] at r1 ⊢
  exact buildToc_front (o := { o with skipLines := 0 }) rfl hk r1 r2 (fun l hl => hplain l (List.mem_of_mem_drop hl))

/-- **C102**, partial: the next table is the same if the new table takes as many lines as were replaced, and the skipped lines do not end inside of these. Missing: tables with
another number of lines (false: `C102_violation`). -/
theorem C102_stable_partial {E : Env} (hE : E.Lawful) {o : Options} (hk : 1 ≤ o.keep) (hn : IsEol o.newline []) {fs : FS} {f : Str} {ls : List Str} (hf : HasLines fs f ls)
    {marker : Str} (hg : GoodMarker marker) {before removed after : List Str} (hc : Cut E.isDigit marker ls before removed after)
    (he : IsEol o.newline after.flatten) (hm : PlainLine o.parser (marker ++ ['\n'])) (hin : (before.length + removed.length : Int) ≤ o.skipLines)
    {out : Str} (h : buildToc E o f (fs f) = .ok out) {b : Bool} {tr : List Str} (hw : writeString E fs f out marker o.newline = .ok (b, tr)) {ls' : List Str}
    (hf' : HasLines (lastFS fs f tr) f ls') (hsame : ls'.length = ls.length) : buildToc E o f (lastFS fs f tr f) = .ok out := by
  obtain ⟨region, h1, -, h3⟩ := C102_exact hE hk hn hf hg hc he hm (by omega) h hw
  obtain ⟨-, t, e1, r1⟩ := hf'
  obtain ⟨-, t', e2, r2⟩ := h1
  rw [e1] at e2
  injection e2 with e2
  injection e2 with e2
  subst e2
  have := MdToc.reads_lines r1 false
  rw [MdToc.reads_lines r2 false] at this
  have hl := congrArg List.length this
  have els := congrArg List.length (cut_lines hc)
  simp at hl els
  have : max (before.length + removed.length : Int) (o.skipLines + removed.length - region.length) = o.skipLines := by omega
  rw [h3, this]
  exact h

/-- **C102** is violated: with five skipped lines the table is `B` alone; after it was written, the heading `A` is not among the first five lines any more. -/
theorem C102_violation :
    buildToc asciiEnv { skipLines := 5 } "a.md".toList (some ⟨"---\n# x: y\n---\n<!--TOC-->\n# A\n# B\n".toList, false⟩) = .ok "- [B](#b)\n".toList ∧
    (writeString asciiEnv (fun _ => some ⟨"---\n# x: y\n---\n<!--TOC-->\n# A\n# B\n".toList, false⟩) "a.md".toList "- [B](#b)\n".toList "<!--TOC-->".toList "\n".toList).map
      (·.2.getLast?) = .ok (some "---\n# x: y\n---\n<!--TOC-->\n\n- [B](#b)\n\n<!--TOC-->\n# A\n# B\n".toList) ∧
    buildToc asciiEnv { skipLines := 5 } "a.md".toList (some ⟨"---\n# x: y\n---\n<!--TOC-->\n\n- [B](#b)\n\n<!--TOC-->\n# A\n# B\n".toList, false⟩) =
      .ok "- [A](#a)\n- [B](#b)\n".toList := by
  decide +kernel

/-- The file of `C102_violation` meets the hypotheses of `C102_exact`; the region then has five lines instead of one, and the first line behind it is seen. -/
example : ∃ before removed after, Cut asciiEnv.isDigit "<!--TOC-->".toList
      ["---\n".toList, "# x: y\n".toList, "---\n".toList, "<!--TOC-->\n".toList, "# A\n".toList, "# B\n".toList] before removed after ∧
    before.length = 3 ∧ removed.length = 1 ∧ IsEol ['\n'] after.flatten ∧ PlainLine .github ("<!--TOC-->".toList ++ ['\n']) := by
  refine ⟨["---\n".toList, "# x: y\n".toList, "---\n".toList], ["<!--TOC-->\n".toList], ["# A\n".toList, "# B\n".toList],
    .inl ⟨_, ⟨rfl, isMarker_iff.mpr (by decide +kernel), ?_, ?_⟩, rfl⟩, rfl, rfl, .inl rfl, default_plain _⟩
  · simp only [isMarker_iff]; decide +kernel
  · simp only [isMarker_iff]; decide +kernel

/-- The hypothesis of `C102_stable_partial` on the number of lines: a heading behind the skipped lines gets another name. -/
example : buildToc asciiEnv { skipLines := 6 } "a.md".toList (some ⟨"<!--TOC-->\n\n- [B](#b)\n\n<!--TOC-->\n# A\n# C\n".toList, false⟩) = .ok "- [C](#c)\n".toList ∧
    (writeString asciiEnv (fun _ => some ⟨"<!--TOC-->\n\n- [B](#b)\n\n<!--TOC-->\n# A\n# C\n".toList, false⟩) "a.md".toList "- [C](#c)\n".toList "<!--TOC-->".toList "\n".toList).map
      (·.2.getLast?) = .ok (some "<!--TOC-->\n\n- [C](#c)\n\n<!--TOC-->\n# A\n# C\n".toList) := by
  decide +kernel

end MdToc.Props
