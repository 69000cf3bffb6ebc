import Verif.Props.Move

/-!
# What a check says after edits: C106

A file is updated, then its text is edited. The check (`--diff`) finds the file up to date exactly if the edited text has the same table as the old one.
-/

set_option linter.unusedSimpArgs false

namespace MdToc.Props

open MdToc.Spec

/-- A table is empty, or it starts and ends with characters which are not white space, but for one line feed. -/
theorem steady_strip {E : Env} (hE : E.Lawful) {o : Options} (ho : Steady o) {fn text out : Str} (h : buildToc E o fn (some ⟨text, false⟩) = .ok out) :
    out = [] ∨ (pyStrip out ≠ [] ∧ out = pyStrip out ++ ['\n']) := by
  obtain ⟨es, f, hout, hi, hf, hmk, hind⟩ := entries_items hE h
  rcases List.eq_nil_or_concat es with rfl | ⟨es', l, rfl⟩
  · exact .inl (by simpa using hout)
  right
  rw [List.concat_eq_append] at *
  have hlast : ∃ w, f l = w ++ [')'] :=
    ⟨List.replicate l.indent ' ' ++ markerText (isOrdered o) (usedMarker o.parser (isOrdered o) o.listMarker) l.number ++ " ".toList ++ "[".toList ++ l.text ++ "](#".toList ++ l.anchor, by
      rw [hf l (by simp)]
      simp [Entry.content, ho.links]⟩
  obtain ⟨w, hw⟩ := hlast
  obtain ⟨e0, t0, he0⟩ : ∃ e t, es' ++ [l] = e :: t := by
    cases es' with
    | nil => exact ⟨l, [], rfl⟩
    | cons e t => exact ⟨e, t ++ [l], rfl⟩
  have hne : es' ++ [l] ≠ [] := by simp
  -- the first character
  have hfirst : ∃ x r, f e0 = x :: r ∧ isPySpace x = false := by
    have hmem : e0 ∈ es' ++ [l] := by rw [he0]; simp
    have hz : e0.indent = 0 := hind ho.parser e0 (by rw [he0]; simp)
    obtain ⟨-, n, x, r, hx, hc⟩ := hi e0 hmem
    cases n with
    | zero => exact ⟨x, r, by simpa using hx, itemChar_space hc⟩
    | succ n =>
      exfalso
      have hm := markerText_list hE o (hmk hne) e0.number rfl
      have e1 := hf e0 hmem
      rw [hx, hz] at e1
      rcases hm with h | h | h | ⟨d, y, h, h2, h3, -⟩
      · rw [h] at e1; simp [List.replicate_succ] at e1
      · rw [h] at e1; simp [List.replicate_succ] at e1
      · rw [h] at e1; simp [List.replicate_succ] at e1
      · rw [h] at e1
        cases d with
        | nil => exact h2 rfl
        | cons z d =>
          simp only [List.replicate_succ, List.replicate_zero, List.nil_append, List.cons_append, List.cons.injEq] at e1
          have := h3 z (by simp)
          rw [← e1.1, hE.digit_ascii ' ' (by decide)] at this
          exact absurd this (by decide)
  obtain ⟨x, r, hx, hsp⟩ := hfirst
  have hc : out = ((es'.map f).map (· ++ ['\n'])).flatten ++ f l ++ ['\n'] := by
    rw [hout, ho.newline]
    simp
  have hstrip : pyStrip out = ((es'.map f).map (· ++ ['\n'])).flatten ++ f l := by
    refine trimmed_iff.mp ⟨[], ['\n'], by rw [hc]; simp, by simp, by simp; decide, ?_, ?_⟩
    · intro y hy
      cases es' with
      | nil =>
        simp at he0
        obtain ⟨rfl, -⟩ := he0
        simp [hx] at hy
        exact hy ▸ hsp
      | cons e t =>
        simp at he0
        obtain ⟨rfl, -⟩ := he0
        simp [hx] at hy
        exact hy ▸ hsp
    · intro y hy
      rw [hw, ← List.append_assoc, List.getLast?_append] at hy
      simp at hy
      subst hy
      decide
  rw [hstrip]
  exact ⟨by rw [hw]; simp, hc⟩

/-- Tables with links are equal if they are equal up to white space at the ends. -/
theorem steady_inj {E : Env} (hE : E.Lawful) {o o' : Options} (ho : Steady o) (ho' : Steady o') {fn fn' text text' out out' : Str} (h : buildToc E o fn (some ⟨text, false⟩) = .ok out)
    (h' : buildToc E o' fn' (some ⟨text', false⟩) = .ok out') : pyStrip out = pyStrip out' ↔ out = out' := by
  refine ⟨fun e => ?_, fun e => by rw [e]⟩
  rcases steady_strip hE ho h with rfl | ⟨h1, h2⟩
  · rcases steady_strip hE ho' h' with rfl | ⟨h3, h4⟩
    · rfl
    · exact absurd (e ▸ rfl : pyStrip out' = []) h3
  · rcases steady_strip hE ho' h' with rfl | ⟨h3, h4⟩
    · exact absurd (e.trans rfl) h1
    · rw [h2, h4, e]

/-- The table found in a file depends on the region only. -/
theorem old_of_region {E : Env} {marker : Str} {region : List Str} (hreg : Region E.isDigit marker region) :
    ∃ old, ∀ (fs : FS) (f : Str) (b a : List Str), HasLines fs f (b ++ region ++ a) → (∀ l ∈ b ++ a, ¬ IsMarker marker l) →
      ∀ s, tocsEqual E s (fs f) marker = .ok (pyStrip s == old) := by
  rcases hreg with ⟨m, rfl, hm⟩ | ⟨m, mid, m', rfl, hm, hm', hmid, hrec⟩
  · refine ⟨marker, fun fs f b a hf hn s => ?_⟩
    rw [tocsEqual_eq hf, existing_one (before := b) (m := m) (after := a) ⟨by simp, hm, fun l hl => hn l (by simp [hl]), fun l hl => hn l (by simp [hl])⟩]
    rfl
  · refine ⟨pyStrip mid.flatten, fun fs f b a hf hn s => ?_⟩
    rw [tocsEqual_eq hf]
    obtain ⟨-, text, -, hR⟩ := hf
    obtain ⟨n, pos, h⟩ := existing_table (E := E) (marker := marker) (m := m) (m' := m') (before := b) (mid := mid) (after := a) hR
      ⟨by simp, hm, hm', hmid, hrec, NoTable.skip (fun l hl => hn l (by simp [hl])) (.single _ _ _)⟩
    rw [h]
    rfl

/-- **C106**: a file is updated with the table `out1` of its text. Then the text is edited and the table is left as it is; the edited text has the table `out2`, which is made with
other options or the same ones. With `--diff` and these options the exit code is 0 if the tables are equal, and 128 if not, in place or not: the check finds every edit that matters and no other. -/
theorem C106_check {E : Env} (hE : E.Lawful) {marker f : Str} (hg : PlainMarker marker) (hpm : ∀ p, PlainLine p (marker ++ ['\n'])) {a c : CliArgs} (stdin stdin' : Stdin)
    {b1 a1 b2 a2 region : List Str} {s s2 : FS} (h1 : Round.Good f marker ⟨b1, a1, a⟩) (h2 : Round.Good f marker ⟨b2, a2, c⟩) (hf : HasLines s f (b1 ++ region ++ a1))
    (hreg : Region E.isDigit marker region) (hpl : ∀ p, ∀ l ∈ region, PlainLine p l) {doc1 doc2 out1 out2 : Str} (hd1 : Reads doc1 (b1 ++ a1)) (hd2 : Reads doc2 (b2 ++ a2))
    (ho1 : buildToc E a.options f (some ⟨doc1, false⟩) = .ok out1) (ho2 : buildToc E c.options f (some ⟨doc2, false⟩) = .ok out2)
    (he : Edited E.isDigit marker f b2 a2 (filesAfter E a stdin s) s2) (i : Bool) :
    (cliMain E { c with diff := true, inPlace := i } s2 stdin').code = if out1 = out2 then 0 else 128 := by
  have hne := hf.1
  have hne' : f ≠ stdinName := hne
  have hnames : a.filenames = [f] := h1.names
  have hmark : a.tocMarker = marker := h1.sameMarker
  have hk : 1 ≤ a.options.keep := h1.keep
  obtain ⟨core, hc⟩ : ∃ core, TrimmedRight isPySpace out1 core := ⟨_, trimmedRight_iff.mpr rfl⟩
  obtain ⟨text, hft, hR⟩ := hf.2
  -- the update
  have ho : buildToc E a.options f (s f) = .ok out1 := by
    rw [hft]
    exact replace_plain (ms := []) (ms' := region) hk (by simpa using hd1) hR h1.skip h1.outside (by simp) (fun l hl => hpl _ l hl) ho1
  obtain ⟨table, -, k2, k3, k4, -, k6, -⟩ := update_step hE h1.steady.parser h1.steady.links h1.steady.newline hf hg.1 hg.2 hreg (fun l hl => h1.noMarker l (by simp [hl]))
    (fun l hl => h1.noMarker l (by simp [hl])) ho hc
  have k2' : Update E a.options a.tocMarker f s (s.write f (b1 ++ table ++ a1).flatten) := by rw [hmark]; exact k2
  obtain ⟨e1, e2⟩ := update_command h1.inPlace h1.names hne stdin k2'
  have hplt : ∀ p, ∀ l ∈ table, PlainLine p l := fun p => k6 p (hpm p)
  -- the updated file is up to date
  have hold : ∀ (c : CliArgs) (t : FS) (b' a' : List Str) (out : Str), Round.Good f marker ⟨b', a', c⟩ → HasLines t f (b' ++ table ++ a') → buildToc E c.options f (t f) = .ok out →
      ∀ (j : Stdin) (i : Bool) (b : Bool), tocsEqual E out (t f) marker = .ok b → (cliMain E { c with diff := true, inPlace := i } t j).code = if b = true then 0 else 128 := by
    intro c t b' a' out hgood ht hout j i b hb
    have hnames : c.filenames = [f] := hgood.names
    have hmark : c.tocMarker = marker := hgood.sameMarker
    have hbm : buildMultipleTocs E { c with diff := true, inPlace := i }.options t j c.filenames = .ok [out] := by
      change buildMultipleTocs E c.options t j c.filenames = .ok [out]
      unfold buildMultipleTocs defaultNames
      rw [hnames]
      simp only [List.length_cons, List.length_nil, Nat.zero_add, Nat.one_ne_zero, if_false, buildTocs, if_neg hne', bind, Except.bind, hout]
    have hnm : namesOf { c with diff := true, inPlace := i } = [f] := by simp [namesOf, hnames]
    have hcodes := C46_codes E { c with diff := true, inPlace := i } t j
    have hb' : tocsEqual E out (t f) c.tocMarker = .ok b := by rw [hmark]; exact hb
    have h128 : (cliMain E { c with diff := true, inPlace := i } t j).code ≠ 1 ∧ ((cliMain E { c with diff := true, inPlace := i } t j).code = 128 ↔ b = false) := by
      cases i with
      | false =>
        obtain ⟨p1, p2, -⟩ := C46_print (a := { c with diff := true, inPlace := false }) (stdin := j) rfl hbm
        rw [hnm] at p1 p2
        rw [Ne, p1, p2]
        simp [hb']
      | true =>
        have hupd : (cliMain E { c with diff := true, inPlace := true } t j).code ≠ 1 := by
          obtain ⟨core', hc'⟩ : ∃ core, TrimmedRight isPySpace out core := ⟨_, trimmedRight_iff.mpr rfl⟩
          obtain ⟨_, -, u, -⟩ := update_step hE hgood.steady.parser hgood.steady.links hgood.steady.newline ht hg.1 hg.2 k4 (fun l hl => hgood.noMarker l (by simp [hl]))
            (fun l hl => hgood.noMarker l (by simp [hl])) hout hc'
          rw [← hmark] at u
          exact (update_command (a := { c with diff := true, inPlace := true }) rfl hnames hne j u).2
        refine ⟨hupd, ?_⟩
        rw [C46_in_place_files (a := { c with diff := true, inPlace := true }) rfl hbm (by rw [hnm]; simp) hupd, hnm]
        simp [hb']
    cases b <;> simp_all
  obtain ⟨old, hu⟩ := old_of_region k4
  have q1 := hu _ _ _ _ k3 h1.noMarker out1
  have hfirst : pyStrip out1 = old := by
    have hplace : ∀ g ∈ a.filenames, HasPlace E a s g := by
      intro g hgm
      have hgf : g = f := by rw [hnames] at hgm; simpa using hgm
      subst hgf
      refine ⟨_, b1, region, a1, hf, ?_, .inl h1.steady.newline, h1.skip, h1.outside, fun l hl => hpl _ l hl, ?_⟩
      · rw [hmark]
        exact region_cut hreg (fun l hl => h1.noMarker l (by simp [hl])) (fun l hl => h1.noMarker l (by simp [hl]))
      · rw [hmark]
        exact hpm _
    have hz := ((C91_update_check_partial hE h1.inPlace (by rw [hnames]; simp) (by rw [hnames]; simp) h1.steady.parser h1.steady.links h1.keep (.inl h1.steady.newline)
      (by rw [hmark]; exact hg.1) (by rw [hmark]; exact hg.2) (fun g hgm => .inl (hplace g hgm)) e2).2 h1.steady.newline hplace).2.1
    rw [show after E a s stdin = _ from e1] at hz
    have ho1' : buildToc E a.options f ((s.write f (b1 ++ table ++ a1).flatten) f) = .ok out1 := by
      obtain ⟨-, t1, hf1, hR1⟩ := k3
      rw [hf1]
      exact replace_plain (ms := []) (ms' := table) hk (by simpa using hd1) hR1 h1.skip h1.outside (by simp) (fun l hl => hplt _ l hl) ho1
    rw [hold a _ b1 a1 out1 h1 k3 ho1' stdin false _ q1] at hz
    by_contra hneq
    simp [hneq] at hz
  -- the check after the edit
  rw [e1] at he
  have hf2 := edited_region k3 k4 h1.noMarker he
  have ho2' : buildToc E c.options f (s2 f) = .ok out2 := by
    obtain ⟨-, t2, hf2', hR2⟩ := hf2
    rw [hf2']
    exact replace_plain (ms := []) (ms' := table) h2.keep (by simpa using hd2) hR2 h2.skip h2.outside (by simp) (fun l hl => hplt _ l hl) ho2
  rw [hold c s2 b2 a2 out2 h2 hf2 ho2' stdin' i _ (hu _ _ _ _ hf2 h2.noMarker out2), ← hfirst]
  have := steady_inj hE h1.steady h2.steady ho1 ho2
  by_cases hq : out1 = out2
  · simp [hq]
  · have : pyStrip out2 ≠ pyStrip out1 := fun e => hq (this.mp e.symm)
    simp [hq, this]

section
open MoveCase
private def edited (t : String) : FS := sm.write fm ("<!--TOC-->\n\n- [a](#a)\n\n<!--TOC-->\n".toList ++ t.toList)

private theorem good4 (x y : String) (hx : ∀ l ∈ [x.toList, y.toList], ¬ IsMarker mm l) : Round.Good fm mm ⟨[], [x.toList, y.toList], am⟩ :=
  ⟨rfl, rfl, rfl, goodm1.steady, goodm1.keep, goodm1.skip, fun _ => .nil, by simpa using hx⟩

private theorem edited4 {t : String} {a : List Str} (h : Reads ("<!--TOC-->\n\n- [a](#a)\n\n<!--TOC-->\n".toList ++ t.toList) ([] ++ tm ++ a)) :
    Edited asciiEnv.isDigit mm fm [] a (filesAfter asciiEnv am none sm) (edited t) := by
  rw [afterm]
  refine ⟨[], tm, ["x\n".toList, "# a\n".toList], ⟨by decide, "<!--TOC-->\n\n- [a](#a)\n\n<!--TOC-->\nx\n# a\n".toList, by simp [FS.write],
    (reads_iff (bad := false)).mpr (by decide +kernel)⟩, ?_, ?_, ⟨by decide, _, by simp only [edited, FS.write, if_true], h⟩, fun g hg => by simp [edited, FS.write, hg]⟩
  · refine .inr ⟨_, ["\n".toList, "- [a](#a)\n".toList, "\n".toList], _, rfl, isMarker_iff.mpr (by decide +kernel), isMarker_iff.mpr (by decide +kernel), ?_,
      .inr ⟨0, ['-'], "[a](#a)".toList, by omega, by decide +kernel, .inl rfl, by simp [IsBlank]⟩⟩
    simp only [isMarker_iff]; decide +kernel
  · simp only [isMarker_iff]; decide +kernel

/-- An edit of the text and an edit of a heading: the hypotheses are met, and both exit codes occur. -/
example : (cliMain asciiEnv { am with diff := true, inPlace := false } (edited "y\n# a\n") none).code = 0 ∧
    (cliMain asciiEnv { am with diff := true, inPlace := false } (edited "x\n# b\n") none).code = 128 := by
  constructor
  · exact C106_check (out1 := "- [a](#a)\n".toList) (out2 := "- [a](#a)\n".toList) asciiEnv_lawful (f := fm) ⟨default_good, default_notItem⟩ (fun p => default_plain p) none none goodm1
      (good4 "y\n" "# a\n" (by simp only [isMarker_iff]; decide +kernel)) hasm (.inl ⟨_, rfl, isMarker_iff.mpr (by decide +kernel)⟩)
      (fun p l hl => by simp at hl; subst hl; exact default_plain p) (doc1 := "x\n# a\n".toList) (doc2 := "y\n# a\n".toList) ((reads_iff (bad := false)).mpr (by decide +kernel))
      ((reads_iff (bad := false)).mpr (by decide +kernel)) (by decide +kernel) (by decide +kernel) (edited4 ((reads_iff (bad := false)).mpr (by decide +kernel))) false
  · exact C106_check (out1 := "- [a](#a)\n".toList) (out2 := "- [b](#b)\n".toList) asciiEnv_lawful (f := fm) ⟨default_good, default_notItem⟩ (fun p => default_plain p) none none goodm1
      (good4 "x\n" "# b\n" (by simp only [isMarker_iff]; decide +kernel)) hasm (.inl ⟨_, rfl, isMarker_iff.mpr (by decide +kernel)⟩)
      (fun p l hl => by simp at hl; subst hl; exact default_plain p) (doc1 := "x\n# a\n".toList) (doc2 := "x\n# b\n".toList) ((reads_iff (bad := false)).mpr (by decide +kernel))
      ((reads_iff (bad := false)).mpr (by decide +kernel)) (by decide +kernel) (by decide +kernel) (edited4 ((reads_iff (bad := false)).mpr (by decide +kernel))) false
end

end MdToc.Props
