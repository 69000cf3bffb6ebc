import Verif.Props.TwoMarkers

/-!
# The code blocks of a file with a table (C100)
-/

set_option linter.unusedSimpArgs false

namespace MdToc.Props

open MdToc.Spec

/-- `op`, `ms`, `cl` is a code block of the document `ls`: its first line, its content and its last line. -/
def CodeBlock (p : Parser) (ls : List Str) (op : Str) (ms : List Str) (cl : Str) : Prop :=
  ∃ a rest c n, ls = a ++ op :: ms ++ cl :: rest ∧ Outside p a ∧ OpensWith op c n ∧ (∀ m ∈ ms, ¬ ClosesWith p m c n) ∧ ClosesWith p cl c n

open Classical in
/-- The block that is open after a line. -/
noncomputable def fenceAfter (p : Parser) : Option (Char × Nat) → Str → Option (Char × Nat)
  | none, l => if h : ∃ x : Char × Nat, OpensWith l x.1 x.2 then some h.choose else none
  | some x, l => if ClosesWith p l x.1 x.2 then none else some x

theorem fenceAfter_opens {p : Parser} {l : Str} {c : Char} {n : Nat} (h : OpensWith l c n) : fenceAfter p none l = some (c, n) := by
  have hx : ∃ x : Char × Nat, OpensWith l x.1 x.2 := ⟨(c, n), h⟩
  simp only [fenceAfter, dif_pos hx]
  have := opensWith_unique hx.choose_spec h
  exact congrArg some (Prod.ext this.1 this.2)

theorem fenceAfter_line {p : Parser} {l : Str} (h : ¬ ∃ c n, OpensWith l c n) : fenceAfter p none l = none := by
  have hx : ¬ ∃ x : Char × Nat, OpensWith l x.1 x.2 := fun ⟨x, hx⟩ => h ⟨_, _, hx⟩
  simp only [fenceAfter, dif_neg hx]

theorem fenceAfter_closes {p : Parser} {l : Str} {c : Char} {n : Nat} (h : ClosesWith p l c n) : fenceAfter p (some (c, n)) l = none := by
  simp only [fenceAfter, if_pos h]

theorem fenceAfter_stays {p : Parser} {l : Str} {c : Char} {n : Nat} (h : ¬ ClosesWith p l c n) : fenceAfter p (some (c, n)) l = some (c, n) := by
  simp only [fenceAfter, if_neg h]

theorem fenceAfter_inside {p : Parser} {ms : List Str} {c : Char} {n : Nat} (h : ∀ m ∈ ms, ¬ ClosesWith p m c n) :
    ms.foldl (fenceAfter p) (some (c, n)) = some (c, n) := by
  induction ms with
  | nil => rfl
  | cons m ms ih =>
    rw [List.foldl_cons]
    rw [fenceAfter_stays (h m (by simp))]
    exact ih fun x hx => h x (by simp [hx])

theorem outside_state {p : Parser} {ls : List Str} (h : Outside p ls) : ls.foldl (fenceAfter p) none = none := by
  induction h with
  | nil => rfl
  | line _ hl ih => rw [List.foldl_append, ih]; exact fenceAfter_line (p := p) hl
  | @block ls l c n ms e _ h1 h2 h3 ih =>
    rw [List.foldl_append, List.foldl_append, ih, List.foldl_cons (l := ms), fenceAfter_opens h1, fenceAfter_inside h2]
    exact fenceAfter_closes h3

theorem state_cases (p : Parser) (ls : List Str) : Outside p ls ∨
    ∃ a op ms c n, ls = a ++ op :: ms ∧ Outside p a ∧ OpensWith op c n ∧ ∀ m ∈ ms, ¬ ClosesWith p m c n := by
  induction ls using List.reverseRecOn with
  | nil => exact .inl .nil
  | append_singleton ls l ih =>
    rcases ih with h | ⟨a, op, ms, c, n, rfl, h1, h2, h3⟩
    · by_cases hl : ∃ c n, OpensWith l c n
      · obtain ⟨c, n, hl⟩ := hl
        exact .inr ⟨ls, l, [], c, n, rfl, h, hl, by simp⟩
      · exact .inl (.line h hl)
    · by_cases hl : ClosesWith p l c n
      · exact .inl (.block h1 h2 h3 hl)
      · refine .inr ⟨a, op, ms ++ [l], c, n, by simp, h1, h2, ?_⟩
        intro m hm
        rcases List.mem_append.mp hm with hm | hm
        · exact h3 m hm
        · simp at hm; subst hm; exact hl

theorem state_open {p : Parser} {a ms : List Str} {op : Str} {c : Char} {n : Nat} (h1 : Outside p a) (h2 : OpensWith op c n) (h3 : ∀ m ∈ ms, ¬ ClosesWith p m c n) :
    (a ++ op :: ms).foldl (fenceAfter p) none = some (c, n) := by
  rw [List.foldl_append, outside_state h1, List.foldl_cons, fenceAfter_opens h2, fenceAfter_inside h3]

theorem outside_iff {p : Parser} {ls : List Str} : Outside p ls ↔ ls.foldl (fenceAfter p) none = none := by
  refine ⟨outside_state, fun h => ?_⟩
  rcases state_cases p ls with h' | ⟨a, op, ms, c, n, rfl, h1, h2, h3⟩
  · exact h'
  · rw [state_open h1 h2 h3] at h
    cases h

theorem outside_suffix {p : Parser} {a b : List Str} (ha : Outside p a) : Outside p (a ++ b) ↔ Outside p b := by
  rw [outside_iff, outside_iff, List.foldl_append, outside_state ha]

theorem outside_lines {p : Parser} {ls : List Str} (h : ∀ l ∈ ls, ¬ ∃ c n, OpensWith l c n) : Outside p ls := by
  induction ls using List.reverseRecOn with
  | nil => exact .nil
  | append_singleton ls l ih => exact .line (ih fun x hx => h x (by simp [hx])) (h l (by simp))

/-- Lines that open no code block can be replaced by other such lines: the code blocks stay. -/
theorem codeBlock_replace {p : Parser} {before xs ys after : List Str} (hb : Outside p before) (hx : ∀ l ∈ xs, ¬ ∃ c n, OpensWith l c n)
    (hy : ∀ l ∈ ys, ¬ ∃ c n, OpensWith l c n) {op cl : Str} {ms : List Str} (h : CodeBlock p (before ++ xs ++ after) op ms cl) :
    CodeBlock p (before ++ ys ++ after) op ms cl := by
  obtain ⟨a, rest, c, n, e, h1, h2, h3, h4⟩ := h
  rcases List.append_eq_append_iff.mp (by rw [List.append_assoc] at e; simpa using e : before ++ (xs ++ after) = a ++ (op :: (ms ++ cl :: rest))) with
    ⟨w, rfl, ew⟩ | ⟨w, rfl, ew⟩
  · -- the block is not in the lines before
    have hw : Outside p w := (outside_suffix hb).mp h1
    rcases List.append_eq_append_iff.mp ew with ⟨v, rfl, ev⟩ | ⟨v, rfl, ev⟩
    · refine ⟨before ++ ys ++ v, rest, c, n, by rw [ev]; simp, ?_, h2, h3, h4⟩
      rw [List.append_assoc]
      exact outside_append hb (outside_append (outside_lines hy) ((outside_suffix (outside_lines hx)).mp hw))
    · cases v with
      | nil =>
        refine ⟨before ++ ys, rest, c, n, ?_, outside_append hb (outside_lines hy), h2, h3, h4⟩
        simp at ev
        rw [← ev]; simp
      | cons l v =>
        simp at ev
        exact absurd ⟨c, n, by rw [← ev.1]; exact h2⟩ (hx l (by simp))
  · -- it begins in the lines before
    cases w with
    | nil =>
      simp at ew
      cases xs with
      | nil =>
        refine ⟨a ++ ys, rest, c, n, ?_, outside_append h1 (outside_lines hy), h2, h3, h4⟩
        simp at ew
        rw [← ew]; simp
      | cons l xs =>
        simp at ew
        exact absurd ⟨c, n, by rw [← ew.1]; exact h2⟩ (hx l (by simp))
    | cons l w =>
      simp at ew
      obtain ⟨rfl, ew⟩ := ew
      rcases List.append_eq_append_iff.mp ew with ⟨v, rfl, ev⟩ | ⟨v, rfl, ev⟩
      · cases v with
        | nil =>
          exfalso
          have := state_open (p := p) h1 h2 h3
          simp only [List.append_nil] at hb
          rw [outside_state hb] at this
          cases this
        | cons z v =>
          simp at ev
          obtain ⟨rfl, ev⟩ := ev
          exact ⟨a, v ++ (ys ++ after), c, n, by simp, h1, h2, h3, h4⟩
      · exfalso
        have := state_open (p := p) (ms := w) h1 h2 (fun m hm => h3 m (by simp [hm]))
        rw [outside_state hb] at this
        cases this

/-- **C100**: if the place for the table is not in a code block then the code blocks of the file are the same after the table was written. -/
theorem C100_code_kept_partial {E : Env} (hE : E.Lawful) {o : Options} (hn : IsEol o.newline []) {fs : FS} {f : Str} {ls : List Str} (hf : HasLines fs f ls)
    {marker : Str} (hg : GoodMarker marker) {before removed after : List Str} (hc : Cut E.isDigit marker ls before removed after)
    (he : IsEol o.newline after.flatten) {p : Parser} (hb : Outside p before) (hr : ∀ l ∈ removed, ¬ ∃ c n, OpensWith l c n)
    (hm : ¬ ∃ c n, OpensWith (marker ++ ['\n']) c n) {out : Str} (h : buildToc E o f (fs f) = .ok out)
    {b : Bool} {tr : List Str} (hw : writeString E fs f out marker o.newline = .ok (b, tr)) :
    ∃ ls', HasLines (lastFS fs f tr) f ls' ∧ ∀ op ms cl, CodeBlock p ls' op ms cl ↔ CodeBlock p ls op ms cl := by
  obtain ⟨hf1, text, hf2, hR⟩ := hf
  rw [hf2] at h
  obtain ⟨core, cl, ht, hcl, hitems, heol⟩ := toc_core hE hn h
  obtain ⟨_, _, hw1, hlast⟩ := C37_outside_preserved E ⟨hf1, text, hf2, hR⟩ out marker o.newline hc ht
  rw [hw] at hw1
  injection hw1 with hw1
  injection hw1 with e1 e2
  subst e1; subst e2
  obtain ⟨mid, hR', hmid⟩ := written_reads hR hc hg hcl (by obtain ⟨_, _, _, h⟩ := ht; exact h) heol he
  have hopen : ∀ l ∈ (marker ++ ['\n']) :: mid ++ [marker ++ ['\n']], ¬ ∃ c n, OpensWith l c n := by
    intro l hl
    have : l = marker ++ ['\n'] ∨ l ∈ mid := by
      simp at hl
      rcases hl with h | h | h
      · exact .inl h
      · exact .inr h
      · exact .inl h
    rcases this with rfl | hl
    · exact hm
    · rcases hmid l hl with rfl | hl | ⟨z, hz, rfl, hz'⟩
      · exact (newline_plain .github).1
      · obtain ⟨i, hi, hi'⟩ := hitems l hl
        exact (isItem_plain .github hi hi').1
      · obtain ⟨i, hi, hi'⟩ := hitems z hz
        rcases hi' with rfl | rfl
        · exact (isItem_plain .github hi (.inr rfl)).1
        · simp at hz'
  refine ⟨_, ⟨hf1, before.flatten ++ block core marker o.newline ++ after.flatten, ?_, hR'⟩, ?_⟩
  · unfold lastFS
    rw [hlast]
    simp [FS.write]
  · intro op ms cl
    rw [cut_lines hc, ← List.append_assoc before]
    exact ⟨codeBlock_replace hb hopen hr, codeBlock_replace hb hr hopen⟩

theorem closes_opens {p : Parser} {l : Str} {c : Char} {n : Nat} (hn : 3 ≤ n) (hc : IsFenceChar c) (h : ClosesWith p l c n) : ∃ c n, OpensWith l c n := by
  obtain ⟨k, m, rest, h1, h2, rfl, h3⟩ := h
  have hcs : ∀ x ∈ rest, x ≠ c := by
    rintro x hx rfl
    rcases h3 x hx with h | h
    · rcases hc with rfl | rfl <;> cases p <;> exact absurd h (by decide)
    · rcases hc with rfl | rfl <;> exact absurd h (by decide)
  refine ⟨c, m, k, rest, h1, by omega, hc, rfl, fun x hx => hcs x (List.mem_of_mem_head? hx), ?_⟩
  rintro rfl hx
  exact hcs _ hx rfl

/-- **C100** is false for each file whose marker stands in a code block: the table becomes a part of the code. -/
theorem C100_violation {E : Env} (hE : E.Lawful) {o : Options} (hs : Steady o) {marker : Str} (hg : PlainMarker marker) {p : Parser} (hp : PlainLine p (marker ++ ['\n']))
    {fs : FS} {f : Str} {a ms1 r ms2 rest : List Str} {op cl : Str} {c : Char} {n : Nat} (hf : HasLines fs f (a ++ op :: (ms1 ++ r ++ ms2) ++ cl :: rest)) (ha : Outside p a)
    (hop : OpensWith op c n) (hms : ∀ m ∈ ms1 ++ ms2, ¬ ClosesWith p m c n) (hcl : ClosesWith p cl c n) (hr : Region E.isDigit marker r)
    (hother : ∀ l ∈ a ++ op :: ms1 ++ ms2 ++ cl :: rest, ¬ IsMarker marker l) {out core : Str} (h : buildToc E o f (fs f) = .ok out) (ht : TrimmedRight isPySpace out core) :
    ∃ fs' ls' r', Update E o marker f fs fs' ∧ HasLines fs' f ls' ∧ r'.flatten = block core marker ['\n'] ∧ CodeBlock p ls' op (ms1 ++ r' ++ ms2) cl := by
  have e : ∀ r : List Str, a ++ op :: (ms1 ++ r ++ ms2) ++ cl :: rest = (a ++ op :: ms1) ++ r ++ (ms2 ++ cl :: rest) := fun r => by simp
  simp only [List.mem_append, List.mem_cons] at hother
  rw [e] at hf
  obtain ⟨r', h1, h2, h3, -, -, h4, -⟩ := update_step hE hs.parser hs.links hs.newline hf hg.1 hg.2 hr
    (fun l hl => hother l (by simp at hl; tauto)) (fun l hl => hother l (by simp at hl; tauto)) h ht
  refine ⟨_, _, r', h2, h3, h1, a, rest, c, n, (e r').symm, ha, hop, ?_, hcl⟩
  intro m hm
  simp only [List.mem_append] at hm hms
  by_cases hx : m ∈ r'
  · intro hc
    obtain ⟨_, _, _, hn, hf, _⟩ := hop
    exact (h4 p hp m hx).1 (closes_opens hn hf hc)
  · exact hms m (by tauto)

theorem ticks_open : OpensWith "```\n".toList '`' 3 := ⟨0, ['\n'], by omega, by omega, .inl rfl, rfl, by simp, by simp⟩

theorem ticks_close (p : Parser) : ClosesWith p "```\n".toList '`' 3 := ⟨0, 3, ['\n'], by omega, by omega, rfl, by simp⟩

theorem not_closing {p : Parser} {l : Str} {c : Char} {n : Nat} (hn : 1 ≤ n) (h : c ∉ l) : ¬ ClosesWith p l c n := by
  rintro ⟨k, m, rest, -, h2, rfl, -⟩
  exact h (by simp; omega)

/-- The hypotheses of `C100_violation` are met: the only marker of the file is an example in a code block. -/
example : ∃ fs' ls' r', Update asciiEnv {} "<!--TOC-->".toList "a.md".toList (fun _ => some ⟨"```\n<!--TOC-->\n```\n# a\n".toList, false⟩) fs' ∧
    HasLines fs' "a.md".toList ls' ∧ r'.flatten = "<!--TOC-->\n\n- [a](#a)\n\n<!--TOC-->\n".toList ∧ CodeBlock .github ls' "```\n".toList ([] ++ r' ++ []) "```\n".toList :=
  C100_violation (E := asciiEnv) asciiEnv_lawful (o := {}) ⟨.inl (by decide), rfl, rfl⟩ ⟨default_good, default_notItem⟩ (default_plain _)
    (a := []) (ms1 := []) (r := ["<!--TOC-->\n".toList]) (ms2 := []) (rest := ["# a\n".toList])
    ⟨by decide, _, rfl, (reads_iff (bad := false)).mpr (by decide +kernel)⟩ .nil ticks_open (by simp) (ticks_close _)
    (.inl ⟨_, rfl, isMarker_iff.mpr (by decide +kernel)⟩) (by simp only [isMarker_iff]; decide +kernel)
    (out := "- [a](#a)\n".toList) (core := "- [a](#a)".toList) (by decide +kernel) (trimmedRight_iff.mpr (by decide +kernel))

/-- The hypotheses of `C100_code_kept_partial` are met: a code block before the marker. -/
example {b : Bool} {tr : List Str} (hw : writeString asciiEnv (fun _ => some ⟨"```\nx\n```\n<!--TOC-->\n# a\n".toList, false⟩) "a.md".toList "- [a](#a)\n".toList "<!--TOC-->".toList "\n".toList = .ok (b, tr)) :
    ∃ ls', HasLines (lastFS (fun _ => some ⟨"```\nx\n```\n<!--TOC-->\n# a\n".toList, false⟩) "a.md".toList tr) "a.md".toList ls' ∧
      CodeBlock .github ls' "```\n".toList ["x\n".toList] "```\n".toList := by
  have hO : Outside .github ["```\n".toList, "x\n".toList, "```\n".toList] :=
    Outside.block (ls := []) (ms := ["x\n".toList]) .nil ticks_open (by intro m hm; simp at hm; subst hm; exact not_closing (by omega) (by decide)) (ticks_close _)
  obtain ⟨ls', h1, h2⟩ := C100_code_kept_partial (E := asciiEnv) asciiEnv_lawful (o := {}) (.inl rfl)
    (fs := fun _ => some ⟨"```\nx\n```\n<!--TOC-->\n# a\n".toList, false⟩) (f := "a.md".toList)
    (ls := ["```\n".toList, "x\n".toList, "```\n".toList, "<!--TOC-->\n".toList, "# a\n".toList])
    ⟨by decide, _, rfl, (reads_iff (bad := false)).mpr (by decide +kernel)⟩ default_good
    (before := ["```\n".toList, "x\n".toList, "```\n".toList]) (removed := ["<!--TOC-->\n".toList]) (after := ["# a\n".toList])
    (.inl ⟨_, ⟨rfl, isMarker_iff.mpr (by decide +kernel), by simp only [isMarker_iff]; decide +kernel, by simp only [isMarker_iff]; decide +kernel⟩, rfl⟩)
    (.inl rfl) hO (by intro l hl; simp at hl; subst hl; exact (default_plain .github).1) (default_plain .github).1 (out := "- [a](#a)\n".toList) (by decide +kernel) hw
  exact ⟨ls', h1, (h2 _ _ _).mpr ⟨[], ["<!--TOC-->\n".toList, "# a\n".toList], '`', 3, rfl, .nil, ticks_open,
    by intro m hm; simp at hm; subst hm; exact not_closing (by omega) (by decide), ticks_close _⟩⟩

end MdToc.Props
