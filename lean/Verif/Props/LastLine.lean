import Verif.Props.Problems
import Verif.Props.Exact
import Verif.Props.Meta

/-!
# C69, C68: files and standard input, exactly
-/

set_option linter.unusedSimpArgs false

namespace MdToc

namespace Spec

/-- The line `m` is the last one of the lines `ls` and stands in a code block that is not closed. -/
def EndsInBlock (p : Parser) (ls : List Str) (m : Str) : Prop :=
  ∃ pre l ms c n, ls = pre ++ l :: ms ++ [m] ∧ Outside p pre ∧ OpensWith l c n ∧ ∀ x ∈ ms ++ [m], ¬ ClosesWith p x c n

end Spec

namespace Props

open MdToc.Spec

theorem outside_append {p : Parser} {a b : List Str} (ha : Outside p a) (hb : Outside p b) : Outside p (a ++ b) := by
  induction hb with
  | nil => simpa using ha
  | line _ h ih => rw [← List.append_assoc]; exact .line ih h
  | @block ls l c n ms e _ h1 h2 h3 ih =>
    have := Outside.block ih h1 h2 h3
    simpa using this

theorem split_unique {α : Type} {P : α → Prop} {x y : α} : ∀ {a b s t : List α}, (∀ m ∈ a, ¬ P m) → (∀ m ∈ b, ¬ P m) → P x → P y → a ++ x :: s = b ++ y :: t → a = b ∧ x = y ∧ s = t
  | [], [], s, t, _, _, _, _, e => by simpa using e
  | [], m :: b, s, t, _, hb, hx, _, e => by
    simp only [List.nil_append, List.cons_append, List.cons.injEq] at e
    exact absurd (e.1 ▸ hx) (hb m (by simp))
  | m :: a, [], s, t, ha, _, _, hy, e => by
    simp only [List.nil_append, List.cons_append, List.cons.injEq] at e
    exact absurd (e.1 ▸ hy) (ha m (by simp))
  | m :: a, m' :: b, s, t, ha, hb, hx, hy, e => by
    simp only [List.cons_append, List.cons.injEq] at e
    obtain ⟨h1, h2, h3⟩ := split_unique (fun x h => ha x (by simp [h])) (fun x h => hb x (by simp [h])) hx hy e.2
    exact ⟨by rw [e.1, h1], h2, h3⟩

/-- What is looked at, by the first line. -/
theorem seen_cons {p : Parser} {file : Bool} {l : Str} {ls vs : List Str} (h : Seen p file (l :: ls) vs) :
    ((¬ ∃ c n, OpensWith l c n) ∧ ∃ w, vs = l :: w ∧ Seen p file ls w) ∨
      ∃ c n, OpensWith l c n ∧
        ((∃ ms e rest w, ls = ms ++ e :: rest ∧ (∀ m ∈ ms, ¬ ClosesWith p m c n) ∧ ClosesWith p e c n ∧ vs = e :: w ∧ Seen p file rest w) ∨
          ((∀ m ∈ ls, ¬ ClosesWith p m c n) ∧ ((vs = [] ∧ (file = true → ∀ m ∈ ls.getLast?, ¬ SmallIndent m)) ∨ (file = true ∧ ∃ m ∈ ls.getLast?, SmallIndent m ∧ vs = [m])))) := by
  generalize hx : l :: ls = x at h
  cases h with
  | nil => cases hx
  | line h1 h2 => injection hx with e1 e2; subst e1 e2; exact .inl ⟨h1, _, rfl, h2⟩
  | @block l' c n ms e rest w h1 h2 h3 h4 =>
    simp only [List.cons_append, List.cons.injEq] at hx
    obtain ⟨rfl, rfl⟩ := hx
    exact .inr ⟨c, n, h1, .inl ⟨ms, e, rest, w, rfl, h2, h3, rfl, h4⟩⟩
  | @unclosed l' c n ms h1 h2 h3 =>
    injection hx with e1 e2; subst e1 e2
    exact .inr ⟨c, n, h1, .inr ⟨h2, .inl ⟨rfl, h3⟩⟩⟩
  | @lastLine l' c n ms m h1 h2 h3 h4 h5 =>
    simp only [List.cons_append, List.cons.injEq] at hx
    obtain ⟨rfl, rfl⟩ := hx
    refine .inr ⟨c, n, h1, .inr ⟨?_, .inr ⟨h4, m, by simp, h5, rfl⟩⟩⟩
    intro x hx
    rcases List.mem_append.mp hx with hx | hx
    · exact h2 x hx
    · rw [List.mem_singleton.mp hx]; exact h3

/-- The lines looked at are determined by the document. -/
theorem seen_unique {p : Parser} {file : Bool} : ∀ {ls vs vs' : List Str}, Seen p file ls vs → Seen p file ls vs' → vs = vs'
  | [], vs, vs', h, h' => by
    have key : ∀ {vs}, Seen p file [] vs → vs = [] := by
      intro vs h
      generalize hx : ([] : List Str) = x at h
      cases h <;> first | rfl | simp at hx
    rw [key h, key h']
  | l :: ls, vs, vs', h, h' => by
    rcases seen_cons h with ⟨h1, w, rfl, h2⟩ | ⟨c, n, ho, g⟩
    · rcases seen_cons h' with ⟨-, w', rfl, h2'⟩ | ⟨c, n, ho, -⟩
      · rw [seen_unique h2 h2']
      · exact absurd ⟨c, n, ho⟩ h1
    · rcases seen_cons h' with ⟨h1, -⟩ | ⟨c', n', ho', g'⟩
      · exact absurd ⟨c, n, ho⟩ h1
      · obtain ⟨rfl, rfl⟩ := opensWith_unique ho ho'
        rcases g with ⟨ms, e, rest, w, e1, h1, h2, rfl, h3⟩ | ⟨h1, g⟩
        · rcases g' with ⟨ms', e', rest', w', e1', h1', h2', rfl, h3'⟩ | ⟨h1', -⟩
          · obtain ⟨-, rfl, rfl⟩ := split_unique h1 h1' h2 h2' (e1.symm.trans e1')
            have : rest.length < (l :: ls).length := by rw [e1]; simp; omega
            rw [seen_unique h3 h3']
          · exact absurd h2 (h1' e (by rw [e1]; simp))
        · rcases g' with ⟨ms', e', rest', w', e1', h1', h2', rfl, h3'⟩ | ⟨-, g'⟩
          · exact absurd h2' (h1 e' (by rw [e1']; simp))
          · rcases g with ⟨rfl, g⟩ | ⟨hf, m, hm, hs, rfl⟩
            · rcases g' with ⟨rfl, -⟩ | ⟨hf, m, hm, hs, rfl⟩
              · rfl
              · exact absurd hs (g hf m hm)
            · rcases g' with ⟨rfl, g'⟩ | ⟨-, m', hm', -, rfl⟩
              · exact absurd hs (g' hf m hm)
              · rw [Option.mem_def] at hm hm'
                rw [hm] at hm'
                injection hm' with hm'
                rw [hm']
termination_by ls => ls.length

/-- The lines looked at in a file are those of the standard input, and perhaps the last line. -/
theorem seen_file {p : Parser} {ls vs : List Str} (h : Seen p false ls vs) : Seen p true ls vs ∨ ∃ m, EndsInBlock p ls m ∧ Seen p true ls (vs ++ [m]) := by
  induction h with
  | nil => exact .inl .nil
  | @line l ls vs hl _ ih =>
    rcases ih with h | ⟨m, ⟨pre, l', ms, c, n, rfl, h1, h2, h3⟩, h⟩
    · exact .inl (.line hl h)
    · exact .inr ⟨m, ⟨l :: pre, l', ms, c, n, rfl, outside_append (a := [l]) (.line .nil hl) h1, h2, h3⟩, .line hl h⟩
  | @block l c n ms e ls vs ho hm he _ ih =>
    rcases ih with h | ⟨m, ⟨pre, l', ms', c', n', rfl, h1, h2, h3⟩, h⟩
    · exact .inl (.block ho hm he h)
    · refine .inr ⟨m, ⟨l :: ms ++ [e] ++ pre, l', ms', c', n', by simp, outside_append (Outside.block (ls := []) .nil ho hm he) h1, h2, h3⟩, .block ho hm he h⟩
  | @unclosed l c n ms ho hm _ =>
    by_cases hs : ∃ m ∈ ms.getLast?, SmallIndent m
    · obtain ⟨m, hl, hs⟩ := hs
      obtain ⟨ms, rfl⟩ := List.getLast?_eq_some_iff.mp hl
      exact .inr ⟨m, ⟨[], l, ms, c, n, by simp, .nil, ho, hm⟩, .lastLine ho (fun x hx => hm x (by simp [hx])) (hm m (by simp)) rfl hs⟩
    · exact .inl (.unclosed ho hm (fun _ m hl h => hs ⟨m, hl, h⟩))
  | lastLine _ _ _ hf _ => cases hf

theorem endsInBlock_seen {p : Parser} {ls : List Str} {m : Str} (h : EndsInBlock p ls m) (hm : SmallIndent m) : ∃ vs, Seen p false ls vs ∧ Seen p true ls (vs ++ [m]) := by
  obtain ⟨pre, l, ms, c, n, rfl, h1, h2, h3⟩ := h
  obtain ⟨vs, -, hv⟩ := seen_outside h1
  refine ⟨vs, ?_, ?_⟩
  · have := hv false (l :: (ms ++ [m])) [] (.unclosed h2 h3 (by simp))
    simpa using this
  · have := hv true (l :: ms ++ [m]) [m] (.lastLine h2 (fun x hx => h3 x (by simp [hx])) (h3 m (by simp)) rfl hm)
    simpa using this

theorem heading_small {p : Parser} (hp : p ≠ .redcarpet) {nl : Bool} {m t : Str} {k : Nat} (hl : IsLine m) (h : Heading p nl m k t) : SmallIndent m := by
  by_contra hs
  obtain ⟨b, hb, hne, hb'⟩ := hl.body
  obtain ⟨b', rest, c, hb2, h⟩ := h
  rw [if_neg hp] at h
  rw [body_unique hb2 hb] at h
  exact indented_not_atx hs hb' ⟨k, rest, h.1⟩

/-- **C69**, exactly: a document has different results as a file and on the standard input if and only if it has a table on the standard input, ends in a code block that is not closed, and
its last line looks like a heading that is listed or raises an exception.  Then the file has this heading as its last entry, or the exception is raised. -/
theorem C69_exact {E : Env} {o : Options} (hp : o.parser ≠ .redcarpet) (hs : o.skipLines ≥ 0) (hk : o.keep ≥ 1) {fn : Str} (hf : fn ≠ "-".toList) {text : Str} {ls va : List Str}
    (hr : Reads text ls) (hv : Looks o "-".toList text va) {heads : List (Nat × Str)} (hh : Headings o.parser true va heads) :
    buildToc E o fn (some ⟨text, false⟩) ≠ buildToc E o "-".toList (some ⟨text, false⟩) ↔
      (∃ out, buildToc E o "-".toList (some ⟨text, false⟩) = .ok out) ∧
        ∃ m k c, EndsInBlock o.parser (ls.drop o.skipLines.toNat) m ∧ Heading o.parser true m k c ∧
          (listed o.parser o.keep k = true ∨ ∃ e, problem E o (levelsOf o heads) k c = some e) := by
  have hstd : decide ("-".toList ≠ stdinName) = false := by decide
  have hfile : decide (fn ≠ stdinName) = true := decide_eq_true hf
  have hown : ownLinks o = true := by unfold ownLinks; rw [if_neg hp]
  have hl := looks_isLine hv
  obtain ⟨ls', hr', hv⟩ := hv
  have hls : ls' = ls := by rw [← (reads_iff (bad := false)).mp hr', (reads_iff (bad := false)).mp hr]
  rw [hls] at hv
  change SeenLines o.parser (decide ("-".toList ≠ stdinName)) _ va at hv
  rw [hstd] at hv
  have e0 : buildToc E o "-".toList (some ⟨text, false⟩) = (hdrRun E o va (TocState.init o.effMarker)).map TocState.out :=
    buildToc_seen hs hr (by rw [hstd]; exact hv)
  rw [e0]
  unfold SeenLines at hv
  rw [if_neg hp] at hv
  have hlast : ∀ {m m' : Str}, EndsInBlock o.parser (ls.drop o.skipLines.toNat) m → EndsInBlock o.parser (ls.drop o.skipLines.toNat) m' → m = m' := by
    rintro m m' ⟨pre, l, ms, c, n, e1, -⟩ ⟨pre', l', ms', c', n', e2, -⟩
    rw [e1] at e2
    have := (List.append_inj' e2 rfl).2
    simpa using this
  have hmem : ∀ {m : Str}, EndsInBlock o.parser (ls.drop o.skipLines.toNat) m → IsLine m := by
    rintro m ⟨pre, l, ms, c, n, e1, -⟩
    exact reads_isLine hr m (List.mem_of_mem_drop (by rw [e1]; simp))
  rcases seen_file hv with hfv | ⟨m, hm, hfv⟩
  · rw [buildToc_seen (fn := fn) hs hr (vs := va) (by rw [hfile]; unfold SeenLines; rw [if_neg hp]; exact hfv)]
    refine iff_of_false (by simp) ?_
    rintro ⟨-, m, k, c, h1, h2, -⟩
    obtain ⟨vs, g1, g2⟩ := endsInBlock_seen h1 (heading_small hp (hmem h1) h2)
    rw [seen_unique g1 hv] at g2
    have := congrArg List.length (seen_unique g2 hfv)
    simp at this
  · rw [buildToc_seen (fn := fn) hs hr (vs := va ++ [m]) (by rw [hfile]; unfold SeenLines; rw [if_neg hp]; exact hfv), hdrRun_append]
    by_cases hhd : ∃ k c, Heading o.parser true m k c
    · obtain ⟨k, c, hhd⟩ := hhd
      have hrun := hdrRun_headings (E := E) (o := o) hk (by rw [hown]; exact hh) hl (TocState.init o.effMarker)
      have hone : ∀ st, hdrRun E o [m] st = headStep E o st (k, c) := by
        intro st
        have := hdrRun_headings (E := E) (o := o) hk (vs := [m]) (heads := [(k, c)]) (by rw [hown]; exact .heading hhd .nil) (by simpa using hmem hm) st
        rw [this]
        simp only [headRun, bind, Except.bind]
        cases headStep E o st (k, c) <;> rfl
      have h0 : AtLevels o [] (TocState.init o.effMarker) := ⟨by simp, rfl, fun _ _ => rfl, fun _ _ => rfl⟩
      have hout := headRun_outcome (E := E) h0 (fun x hx => ⟨(headings_bounds hh x hx).1, (headings_bounds hh x hx).2.1⟩)
      rw [← hrun] at hout
      split at hout
      · rw [hout]
        refine iff_of_false (by simp [bind, Except.bind]) ?_
        rintro ⟨⟨out, h⟩, -⟩
        cases h
      · obtain ⟨st, h1, h2⟩ := hout
        rw [h1]
        simp only [bind, Except.bind, hone, List.nil_append] at h2 ⊢
        have hb := headings_bounds (Headings.heading hhd .nil) (k, c) (by simp)
        have hstep := headStep_outcome (E := E) (c := c) h2 hb.1 hb.2.1
        constructor
        · intro hne
          refine ⟨⟨_, rfl⟩, m, k, c, hm, hhd, ?_⟩
          by_contra hcon
          push Not at hcon
          obtain ⟨hc1, hc2⟩ := hcon
          cases hpr : problem E o (levelsOf o heads) k c with
          | some e => exact hc2 e hpr
          | none =>
            rw [hpr] at hstep
            obtain ⟨st', g1, -, g3⟩ := hstep
            rw [if_neg hc1] at g3
            apply hne
            rw [g1]
            simp [Except.map, TocState.out, g3]
        · rintro ⟨-, m', k', c', h3, h4, h5⟩
          have := hlast h3 hm
          subst this
          obtain ⟨rfl, rfl⟩ := heading_unique h4 hhd
          cases hpr : problem E o (levelsOf o heads) k' c' with
          | some e =>
            rw [hpr] at hstep
            simp only at hstep
            rw [hstep]
            simp [Except.map]
          | none =>
            rw [hpr] at hstep h5
            rcases h5 with h5 | ⟨e, h5⟩
            · obtain ⟨st', g1, -, g3⟩ := hstep
              rw [if_pos h5] at g3
              obtain ⟨line, g4, g5⟩ := g3
              rw [g1]
              simp only [Except.map, TocState.out, g5, ne_eq, Except.ok.injEq]
              simpa using g4
            · cases h5
    · have hone : ∀ st, hdrRun E o [m] st = .ok st := by
        intro st
        exact hdrRun_headings (E := E) (o := o) hk (vs := [m]) (heads := []) (by rw [hown]; exact .other hhd .nil) (by simpa using hmem hm) st
      refine iff_of_false ?_ ?_
      · simp only [ne_eq, not_not]
        cases hdrRun E o va (TocState.init o.effMarker) with
        | error e => rfl
        | ok st => simp only [bind, Except.bind, hone]
      · rintro ⟨-, m', k, c, h1, h2, -⟩
        rw [hlast h1 hm] at h2
        exact hhd ⟨k, c, h2⟩

/-- **C68** for all documents: the table of the longer document, as a file or not, starts with the table of the shorter one as it is on the standard input. -/
theorem C68_stdin {E : Env} {o : Options} {fn text text' out' : Str} {ls ms : List Str} (hr : Reads text ls) (hr' : Reads text' (ls ++ ms))
    (h : buildToc E o fn (some ⟨text', false⟩) = .ok out') : ∃ out, buildToc E o "-".toList (some ⟨text, false⟩) = .ok out ∧ out <+: out' := by
  have hs := buildToc_skip h
  have hstd : decide ("-".toList ≠ stdinName) = false := by decide
  have key : ∃ va vb, SeenLines o.parser (decide ("-".toList ≠ stdinName)) (ls.drop o.skipLines.toNat) va ∧
      SeenLines o.parser (decide (fn ≠ stdinName)) ((ls ++ ms).drop o.skipLines.toNat) (va ++ vb) := by
    rw [List.drop_append, hstd]
    generalize ls.drop o.skipLines.toNat = a
    generalize ms.drop (o.skipLines.toNat - ls.length) = b
    unfold SeenLines
    by_cases hp : o.parser = .redcarpet
    · exact ⟨a, b, by rw [if_pos hp], by rw [if_pos hp]⟩
    · simp only [if_neg hp]
      obtain ⟨va, h1⟩ := seen_exists o.parser false a
      obtain ⟨w, h2⟩ := seen_stdin_append h1 b
      by_cases hf : fn = stdinName
      · exact ⟨va, w, h1, by simpa [hf] using h2⟩
      · rw [decide_eq_true hf]
        rcases seen_file h2 with h3 | ⟨m, -, h3⟩
        · exact ⟨va, w, h1, h3⟩
        · exact ⟨va, w ++ [m], h1, by simpa using h3⟩
  obtain ⟨va, vb, k1, k2⟩ := key
  rw [buildToc_seen hs hr' k2] at h
  rw [buildToc_seen hs hr k1]
  cases hh : hdrRun E o (va ++ vb) (TocState.init o.effMarker) with
  | error e => rw [hh] at h; simp [Except.map] at h
  | ok st2 =>
    rw [hh] at h
    simp only [Except.map] at h
    injection h with h
    obtain ⟨st1, h1, h2⟩ := hdrRun_prefix hh
    exact ⟨_, by rw [h1]; rfl, by rw [← h]; exact h2⟩

/-- **C68** for all documents but those of `C69_exact`: if the longer document does not start with the table of the shorter one, then the shorter one ends in a code block that is not closed,
and its last line looks like a heading that is listed or raises an exception. -/
theorem C68_unless {E : Env} {o : Options} (hp : o.parser ≠ .redcarpet) (hk : o.keep ≥ 1) {fn text text' out' : Str} {ls ms va : List Str} (hr : Reads text ls) (hr' : Reads text' (ls ++ ms))
    (h : buildToc E o fn (some ⟨text', false⟩) = .ok out') (hv : Looks o "-".toList text va) {heads : List (Nat × Str)} (hh : Headings o.parser true va heads)
    (hno : ¬ ∃ out, buildToc E o fn (some ⟨text, false⟩) = .ok out ∧ out <+: out') :
    ∃ m k c, EndsInBlock o.parser (ls.drop o.skipLines.toNat) m ∧ Heading o.parser true m k c ∧ (listed o.parser o.keep k = true ∨ ∃ e, problem E o (levelsOf o heads) k c = some e) := by
  obtain ⟨out, h1, h2⟩ := C68_stdin hr hr' h
  have hne : buildToc E o fn (some ⟨text, false⟩) ≠ buildToc E o "-".toList (some ⟨text, false⟩) := by
    intro he
    exact hno ⟨out, he.trans h1, h2⟩
  have hf : fn ≠ "-".toList := by
    rintro rfl
    exact hne rfl
  exact ((C69_exact hp (buildToc_skip h) hk hf hr hv hh).mp hne).2

/-! ### Concrete cases -/

/-- The last line is in an open block: as a file the document has one more entry, or the last line raises an exception. -/
example : EndsInBlock .github ["# a\n".toList, "```\n".toList, "# b\n".toList] "# b\n".toList ∧
    EndsInBlock .github ["# a\n".toList, "```\n".toList, "### b\n".toList] "### b\n".toList ∧
    problem asciiEnv {} [1] 3 ['b'] = some .TocDoesNotRenderAsCoherentList ∧
    buildToc asciiEnv {} "f".toList (some ⟨"# a\n```\n### b\n".toList, false⟩) = .error .TocDoesNotRenderAsCoherentList ∧
    buildToc asciiEnv {} "-".toList (some ⟨"# a\n```\n### b\n".toList, false⟩) = .ok "- [a](#a)\n".toList ∧
    buildToc asciiEnv {} "f".toList (some ⟨"# a\n```\n#### b\n".toList, false⟩) = .ok "- [a](#a)\n".toList := by
  have h1 : Outside .github ([] ++ ["# a\n".toList]) := .line .nil ((isOpening_none_iff (p := .github) rfl _).mp (by decide +kernel))
  have hb : ∀ l : Str, isClosingCodeFence l ['`', '`', '`'] false .github = false → ¬ ClosesWith .github l '`' 3 := by
    intro l hl hc
    rw [← isClosing_iff (p := .github) rfl _ (.inl rfl) (by decide)] at hc
    exact absurd hc (by rw [show List.replicate 3 '`' = ['`', '`', '`'] from rfl, hl]; decide)
  refine ⟨⟨["# a\n".toList], "```\n".toList, [], '`', 3, rfl, h1, ⟨0, "\n".toList, by decide⟩, ?_⟩,
    ⟨["# a\n".toList], "```\n".toList, [], '`', 3, rfl, h1, ⟨0, "\n".toList, by decide⟩, ?_⟩, by decide +kernel, by decide +kernel, by decide +kernel, by decide +kernel⟩
  · intro x hx
    rw [List.mem_singleton.mp hx]
    exact hb _ (by decide +kernel)
  · intro x hx
    rw [List.mem_singleton.mp hx]
    exact hb _ (by decide +kernel)

end Props

end MdToc
