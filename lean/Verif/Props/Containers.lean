import Verif.Props.Layout

/-!
# Block quotes and list items: C88
-/

set_option linter.unusedSimpArgs false

namespace MdToc

open MdToc.Spec

namespace Props

theorem first_container {b : Str} (h : Container b) : ∃ c, First b c ∧ (c = '>' ∨ c = '-' ∨ c = '+' ∨ c = '*' ∨ Digit c) := by
  rcases h with ⟨r, h⟩ | ⟨m, r, h, -, hm⟩
  · exact ⟨'>', first_starts h (by decide), .inl rfl⟩
  · rcases hm with hm | ⟨ds, d, rfl, h1, -, h2, -⟩
    · simp only [List.mem_cons, List.not_mem_nil, or_false] at hm
      rcases hm with rfl | rfl | rfl
      · exact ⟨'-', first_starts h (by decide), .inr (.inl rfl)⟩
      · exact ⟨'+', first_starts h (by decide), .inr (.inr (.inl rfl))⟩
      · exact ⟨'*', first_starts h (by decide), .inr (.inr (.inr (.inl rfl)))⟩
    · cases ds with
      | nil => simp at h1
      | cons c ds =>
        have hc := h2 c (by simp)
        refine ⟨c, first_starts h ?_, .inr (.inr (.inr (.inr hc)))⟩
        rintro rfl
        revert hc
        unfold Digit
        decide

theorem container_not {b : Str} (h : Container b) : ∃ c, First b c ∧ c ≠ '#' ∧ ¬ IsFenceChar c := by
  obtain ⟨c, h1, h2⟩ := first_container h
  refine ⟨c, h1, ?_⟩
  unfold IsFenceChar
  rcases h2 with rfl | rfl | rfl | rfl | h2
  · decide
  · decide
  · decide
  · decide
  · refine ⟨?_, ?_⟩
    · rintro rfl; revert h2; unfold Digit; decide
    · rintro (rfl | rfl) <;> revert h2 <;> unfold Digit <;> decide

theorem container_not_opens {l b : Str} (hb : Body l b) (h : Container b) : ¬ ∃ c n, OpensWith l c n := by
  obtain ⟨c, h1, -, h3⟩ := container_not h
  exact not_opens hb fun d hd => by rw [← first_unique h1 hd]; exact h3

theorem container_not_atx {p : Parser} {b : Str} (h : Container b) : ¬ ∃ n r, IsAtx p b n r := by
  rintro ⟨n, r, h'⟩
  obtain ⟨c, h1, h2, -⟩ := container_not h
  exact h2 (first_unique h1 (first_atx h'))

/-- **C88** is violated by every heading in the first line of a block quote or a list item: the table is the one without this line. -/
theorem C88_violation_container {E : Env} {o : Options} (hp : o.parser ≠ .redcarpet) (hs : o.skipLines ≥ 0) (hk : o.keep ≥ 1) (fn : Str)
    {pre post : List Str} {l b t t' : Str} (hr : Reads t (pre ++ l :: post)) (hr' : Reads t' (pre ++ post)) (hpre : o.skipLines.toNat ≤ pre.length)
    (hout : Outside o.parser (pre.drop o.skipLines.toNat)) (hb : Body l b) (hc : Container b) :
    buildToc E o fn (some ⟨t, false⟩) = buildToc E o fn (some ⟨t', false⟩) :=
  C20_other_lines (cmarkLike_of_ne hp) hs hk fn hr hr' hpre hout (container_not_opens hb hc) fun b' hb' => by
    rw [body_unique hb' hb]
    exact container_not_atx hc

/-- **C88** is violated by every code block in a list item: its first line `l` is not read as a fence, its content `ms` is read as text, its last line `e` opens a code block, and all that follows is hidden,
until a line that closes the block for the program. -/
theorem C88_violation_item {E : Env} {o : Options} (hp : o.parser ≠ .redcarpet) (hs : o.skipLines = 0) (hk : o.keep ≥ 1) {t t' : Str} {pre ms post : List Str} {l b e : Str} {c : Char} {n : Nat}
    (hr : Reads t (pre ++ l :: (ms ++ e :: post))) (hr' : Reads t' (pre ++ ms)) (hout : Outside o.parser pre) (hb : Body l b) (hc : Container b) (hms : Outside o.parser ms) (he : OpensWith e c n)
    (hpost : ∀ m ∈ post, ¬ ClosesWith o.parser m c n) :
    buildToc E o "-".toList (some ⟨t, false⟩) = buildToc E o "-".toList (some ⟨t', false⟩) := by
  obtain ⟨va, ha⟩ := seen_of_outside hout false
  obtain ⟨vm, hm⟩ := seen_of_outside hms false
  have s1 : Seen o.parser false (pre ++ l :: (ms ++ e :: post)) (va ++ l :: (vm ++ [])) :=
    ha _ _ (.line (container_not_opens hb hc) (hm _ _ (.unclosed he hpost (by simp))))
  have s2 : Seen o.parser false (pre ++ ms) (va ++ vm) := by
    have := ha _ _ (hm _ _ .nil)
    simpa using this
  refine C89_headings E hk (vs := va ++ l :: (vm ++ [])) (vs' := va ++ vm) ⟨_, hr, ?_⟩ ⟨_, hr', ?_⟩ fun nl => ?_
  · rw [hs, SeenLines, if_neg hp]
    exact s1
  · rw [hs, SeenLines, if_neg hp]
    exact s2
  · obtain ⟨x, hx⟩ := headings_exists o.parser nl va
    obtain ⟨y, hy⟩ := headings_exists o.parser nl vm
    refine ⟨x ++ y, headings_append hx (.other ?_ (by simpa using hy)), headings_append hx hy⟩
    rintro ⟨n, t, b', rest, c', hb', hh⟩
    rw [if_neg hp, body_unique hb' hb] at hh
    exact container_not_atx hc ⟨n, rest, hh.1⟩

/-- Such documents: a heading in a list item, and a list item with a code block, after which nothing is listed any more. -/
example : buildToc asciiEnv {} "-".toList (some ⟨"# a\n- # b\n# c\n".toList, false⟩) = .ok "- [a](#a)\n- [c](#c)\n".toList ∧
    buildToc asciiEnv {} "-".toList (some ⟨"# a\n- ```\n  # x\n  ```\n\n# b\n# c\n".toList, false⟩) = .ok "- [a](#a)\n- [x](#x)\n".toList := by
  decide +kernel

/-- The hypotheses of `C88_violation_item` for the second document. -/
example : Reads "# a\n- ```\n  # x\n  ```\n\n# b\n# c\n".toList (["# a\n".toList] ++ "- ```\n".toList :: (["  # x\n".toList] ++ "  ```\n".toList :: ["\n".toList, "# b\n".toList, "# c\n".toList])) ∧
    Outside .github ["# a\n".toList] ∧ Body "- ```\n".toList "- ```".toList ∧ Container "- ```".toList ∧ Outside .github ["  # x\n".toList] ∧ OpensWith "  ```\n".toList '`' 3 ∧
    ∀ m ∈ ["\n".toList, "# b\n".toList, "# c\n".toList], ¬ ClosesWith .github m '`' 3 := by
  refine ⟨(reads_iff (bad := false)).mpr (by decide +kernel), .line (ls := []) .nil ?_, ⟨[], ['\n'], by decide, by decide, by decide⟩,
    .inr ⟨['-'], " ```".toList, ⟨0, by decide, by decide⟩, by decide, .inl (by decide)⟩, .line (ls := []) .nil ?_, ?_, ?_⟩
  · rw [← isOpening_none_iff (p := .github) rfl]; decide +kernel
  · rw [← isOpening_none_iff (p := .github) rfl]; decide +kernel
  · exact ⟨2, ['\n'], by decide, by decide, .inl rfl, by decide, by decide, by decide⟩
  · intro m hm
    rw [← isClosing_iff (p := .github) rfl _ (.inl rfl) (by decide)]
    revert m
    decide +kernel

end Props

end MdToc
