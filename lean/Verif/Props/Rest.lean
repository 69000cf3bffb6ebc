import Verif.Props.Skipped
import Verif.Props.TwoRuns
import Verif.Props.Workflow
import Verif.Props.Stable
import Mathlib.Logic.Function.Iterate

/-!
# Repeated runs come to rest: C103
-/

set_option linter.unusedSimpArgs false

namespace MdToc.Props

open MdToc.Spec

/-- The number of lines of a table of contents with its markers and blank lines, once it is written. -/
def Height (out : Str) (r : Nat) : Prop := ∃ core cl, TrimmedRight isPySpace out core ∧ Reads core cl ∧ r = max 1 cl.length + 4

theorem height_unique {out : Str} {r r' : Nat} (h : Height out r) (h' : Height out r') : r = r' := by
  obtain ⟨c, cl, h1, h2, rfl⟩ := h
  obtain ⟨c', cl', h1', h2', rfl⟩ := h'
  have := trimmedRight_iff.mp h1
  have h3 := trimmedRight_iff.mp h1'
  subst this
  subst h3
  have := MdToc.reads_lines h2 false
  rw [MdToc.reads_lines h2' false] at this
  rw [this]

theorem items_lines {nl : Str} (he : IsEol nl []) : ∀ bs : List Str, bs ≠ [] → (∀ b ∈ bs, IsItem b) →
    ∃ core ls, TrimmedRight isPySpace (bs.map (· ++ nl)).flatten core ∧ core ≠ [] ∧ Reads core ls ∧ core.head? ≠ some '\n' ∧ ls.length = bs.length := by
  intro bs
  induction bs with
  | nil => intro h; exact absurd rfl h
  | cons b bs ih =>
    intro _ hb
    by_cases hbs : bs = []
    · subst hbs
      obtain ⟨core, r, e, h1, h2, h3, h4⟩ := (hb b (by simp)).rstrip
      refine ⟨core, [core], ⟨r ++ nl, by simp [e], ?_, h2⟩, h3.ne_nil, .last h3.ne_nil h3.1, ?_, rfl⟩
      · intro x hx
        rcases List.mem_append.mp hx with hx | hx
        · exact h1 x hx
        · exact eol_white he x hx
      · simpa using h3.head []
    · obtain ⟨core, ls, ⟨r, h1, h2, h3⟩, h4, h5, h7, h8⟩ := ih hbs (fun x hx => hb x (by simp [hx]))
      have hib := hb b (by simp)
      refine ⟨b ++ nl ++ core, (b ++ ['\n']) :: ls, ⟨r, by simp [h1], h2, ?_⟩, by simp [h4], .line hib.1 (eol_of_head he h7) h5, ?_, by simp [h8]⟩
      · intro x hx
        rw [List.getLast?_append_of_ne_nil _ h4] at hx
        exact h3 x hx
      · rw [List.append_assoc]; exact hib.head _

/-- The height of a table is given by the number of its entries. -/
theorem height_entries {E : Env} (hE : E.Lawful) {o : Options} (hn : IsEol o.newline []) {fn text out : Str} (h : buildToc E o fn (some ⟨text, false⟩) = .ok out)
    {vs : List Str} (hv : Looks o fn text vs) {heads : List (Nat × Str)} (hh : Headings o.parser o.noLinks vs heads) :
    Height out (max 1 (heads.filter (fun x => listed o.parser o.keep x.1)).length + 4) := by
  obtain ⟨es, f, ht, ho, hi, -⟩ := entries_items_at hE h hv
  have hl := congrArg List.length (table_levels ht hh)
  rw [List.length_map] at hl
  rw [← hl]
  by_cases hes : es = []
  · subst hes
    simp at ho
    subst ho
    exact ⟨[], [], ⟨[], by simp, by simp, by simp⟩, .nil, rfl⟩
  · obtain ⟨core, ls, h1, -, h3, -, h5⟩ := items_lines hn (es.map f) (by simpa using hes) (by
      intro b hb
      obtain ⟨e, he, rfl⟩ := List.mem_map.mp hb
      exact hi e he)
    exact ⟨core, ls, by rw [ho]; exact h1, h3, by rw [h5, List.length_map]⟩

theorem seen_all {p : Parser} {file : Bool} {ls : List Str} (h : p ≠ .redcarpet → ∀ l ∈ ls, ¬ ∃ c n, OpensWith l c n) : SeenLines p file ls ls := by
  unfold SeenLines
  split
  · rfl
  · rename_i hp
    replace h := h hp
    induction ls with
    | nil => exact .nil
    | cons l ls ih => exact .line (h l (by simp)) (ih (fun l hl => h l (by simp [hl])))

/-- Without code fences, fewer lines have fewer headings. -/
theorem height_mono {E : Env} (hE : E.Lawful) {o : Options} (hn : IsEol o.newline []) (hs : o.skipLines = 0) {f t t' : Str} {pre ls : List Str} (hR : Reads t (pre ++ ls)) (hR' : Reads t' ls)
    (hc : o.parser ≠ .redcarpet → ∀ l ∈ pre ++ ls, ¬ ∃ c n, OpensWith l c n) {out out' : Str} (h : buildToc E o f (some ⟨t, false⟩) = .ok out)
    (h' : buildToc E o f (some ⟨t', false⟩) = .ok out') {r r' : Nat} (hr : Height out r) (hr' : Height out' r') : r' ≤ r := by
  obtain ⟨h1, g1⟩ := headings_exists o.parser o.noLinks pre
  obtain ⟨h2, g2⟩ := headings_exists o.parser o.noLinks ls
  have k1 := height_entries hE hn h ⟨_, hR, by rw [hs]; exact seen_all hc⟩ (headings_append g1 g2)
  have k2 := height_entries hE hn h' ⟨_, hR', by rw [hs]; exact seen_all (fun hp l hl => hc hp l (by simp at hl ⊢; exact .inr hl))⟩ g2
  rw [height_unique hr k1, height_unique hr' k2, List.filter_append, List.length_append]
  omega

/-! ### The states of a file between runs -/

/-- The file has a table of `r` lines between these lines, the other files are as in `fs`. -/
def WithTable (E : Env) (o : Options) (marker f : Str) (fs : FS) (before after : List Str) (s : FS) (r : Nat) : Prop :=
  ∃ text region, s = fs.write f text ∧ Reads text (before ++ region ++ after) ∧ Cut E.isDigit marker (before ++ region ++ after) before region after ∧
    (∀ l ∈ region, PlainLine o.parser l) ∧ region.length = r

theorem write_write (fs : FS) (f x y : Str) : (fs.write f x).write f y = fs.write f y := by
  funext g
  unfold FS.write
  split <;> rfl

/-- An update of a file: the new content is determined by the table. -/
theorem update_states {E : Env} (hE : E.Lawful) {o : Options} (hp : o.parser ≠ .redcarpet ∨ o.noIndentation = true) (hl : o.noLinks = false)
    (hn : IsEol o.newline []) {marker : Str} (hm : NotItem marker) (hg : GoodMarker marker) (hpm : PlainLine o.parser (marker ++ ['\n'])) {f : Str} {ls before removed after : List Str}
    (hfn : f ≠ stdinName) {s : FS} {text : Str} (ht : s f = some ⟨text, false⟩) (hR : Reads text ls) (hc : Cut E.isDigit marker ls before removed after) (he : IsEol o.newline after.flatten)
    {out : Str} (h : buildToc E o f (s f) = .ok out) :
    ∃ core r, TrimmedRight isPySpace out core ∧ Height out r ∧ Update E o marker f s (s.write f (before.flatten ++ block core marker o.newline ++ after.flatten)) ∧
      WithTable E o marker f s before after (s.write f (before.flatten ++ block core marker o.newline ++ after.flatten)) r := by
  have hf : HasLines s f ls := ⟨hfn, text, ht, hR⟩
  have h0 := h
  rw [ht] at h
  obtain ⟨core, cl, htr, hcl, hitems, heol⟩ := toc_core hE hn h
  obtain ⟨core', hrec⟩ := C44_recognisable_partial hE hp hl hn h hm
  have : core' = core := by rw [← trimmedRight_iff.mp hrec.1, trimmedRight_iff.mp htr]
  subst this
  obtain ⟨b, tr, hw, hlast⟩ := C37_outside_preserved E hf out marker o.newline hc htr
  have els := cut_lines hc
  have hafter : Reads after.flatten after := reads_suffix hR (before ++ removed) after els
  have hne : marker ≠ [] := by
    obtain ⟨_, x, hx, -⟩ := hg
    rintro rfl; simp at hx
  have hlc : ∀ c ∈ core'.getLast?, isPySpace c = false := by obtain ⟨_, _, _, h⟩ := htr; exact h
  obtain ⟨mid, hmid, hr⟩ := reads_block hcl hlc hg.1 hne heol he hafter
  obtain ⟨mid2, hrd, hft, -, -⟩ := written_lines hR hc hg hrec he
  obtain ⟨mid3, hrd3, hmem⟩ := written_reads hR hc hg hcl hlc heol he
  have hra : removed ++ after ≠ [] := by
    intro hra
    rcases hc with ⟨m, h1, rfl⟩ | ⟨m, mid, m', h1, rfl⟩ | ⟨h1, rfl⟩
    · simp at hra
    · simp at hra
    · obtain ⟨m, mid, m', b, -, e, -⟩ := h1
      rw [e] at hra; simp at hra
  have hrd1 := reads_split hR before (removed ++ after) (by rw [els, List.append_assoc]) hra _ _ hr
  rw [← List.append_assoc] at hrd1
  have q1 := MdToc.reads_lines hrd false
  have q2 := q1
  rw [MdToc.reads_lines hrd1 false] at q1
  rw [MdToc.reads_lines hrd3 false] at q2
  have e1 : mid = mid2 := by simpa using q1
  have e3 : mid3 = mid2 := by simpa using q2
  subst e1
  subst e3
  refine ⟨core', max 1 cl.length + 4, htr, ⟨core', cl, htr, hcl, rfl⟩, ⟨out, b, tr, h0, hw, by unfold lastFS; rw [hlast]⟩, _,
    (marker ++ ['\n']) :: mid3 ++ [marker ++ ['\n']], rfl, by simpa using hrd, ?_, ?_, ?_⟩
  · exact .inr (.inl ⟨marker ++ ['\n'], mid3, marker ++ ['\n'], by simpa using hft, rfl⟩)
  · intro l hl
    have : l = marker ++ ['\n'] ∨ l ∈ mid3 := by
      simp at hl
      rcases hl with h | h | h
      · exact .inl h
      · exact .inr h
      · exact .inl h
    rcases this with rfl | hl
    · exact hpm
    · rcases hmem l hl with rfl | hl | ⟨z, hz, rfl, hz'⟩
      · exact newline_plain _
      · obtain ⟨i, hi, hi'⟩ := hitems l hl
        exact isItem_plain _ hi hi'
      · obtain ⟨i, hi, hi'⟩ := hitems z hz
        rcases hi' with rfl | rfl
        · exact isItem_plain _ hi (.inr rfl)
        · simp at hz'
  · rcases hmid with ⟨rfl, rfl⟩ | ⟨cl', z, rfl, hc0, rfl⟩
    · have : cl = [] := by rw [← MdToc.reads_lines hcl false]; rfl
      subst this
      rfl
    · simp

/-- The table of a file with a table in the skipped lines is the one of the lines behind which are not skipped. -/
theorem between_toc {E : Env} {o : Options} (hk : 1 ≤ o.keep) {marker f : Str} {fs s : FS} {before after : List Str} {r n : Nat} (hn : o.skipLines = n) (hin : before.length ≤ n)
    (h : WithTable E o marker f fs before after s r) :
    buildToc E o f (s f) = buildToc E { o with skipLines := 0 } f (some ⟨(after.drop (n - before.length - r)).flatten, false⟩) := by
  obtain ⟨text, region, rfl, hR, -, hpl, rfl⟩ := h
  have e0 : fs.write f text f = some ⟨text, false⟩ := by simp [FS.write]
  have eo : buildToc E o f (some ⟨text, false⟩) = buildToc E { o with skipLines := (n : Int) } f (some ⟨text, false⟩) := by rw [← hn]
  rw [e0, eo, C30_skip_lines E o n f hR (C30_drop hR n)]
  have d1 : (before ++ region ++ after).drop n = region.drop (n - before.length) ++ after.drop (n - before.length - region.length) := by
    rw [List.append_assoc, List.drop_append, List.drop_append, List.drop_eq_nil_of_le hin, List.nil_append]
  have r1 := C30_drop hR n
  rw [d1] at r1 ⊢
  refine buildToc_front (o := { o with skipLines := 0 }) rfl hk r1 ?_ (fun l hl => hpl l (List.mem_of_mem_drop hl))
  exact reads_suffix r1 _ _ rfl

/-- A command that cannot build the table changes no file. -/
theorem failed_command {E : Env} {a : CliArgs} {f : Str} (hf : a.filenames = [f]) (hne : f ≠ stdinName) {fs : FS} (stdin : Stdin) {e : Exn}
    (h : buildToc E a.options f (fs f) = .error e) : filesAfter E a stdin fs = fs := by
  have hb : buildMultipleTocs E a.options fs stdin a.filenames = .error e := by
    unfold buildMultipleTocs defaultNames
    rw [hf]
    simp only [List.length_cons, List.length_nil, Nat.zero_add, Nat.one_ne_zero, if_false, buildTocs, if_neg hne, bind, Except.bind, h]
  unfold filesAfter cliMain writeToc
  simp only [hb]
  rfl

/-- A sequence that goes on by a monotone number comes to rest. -/
theorem rest_of_mono {α : Type} (F : α → α) (S : α → Nat → Prop) (hs : ∀ s d, S s d → F s = s ∨ ∃ d', S (F s) d')
    (heq : ∀ s d, S s d → S (F s) d → F (F s) = F s)
    (hmono : ∀ s d d' s' e e', S s d → S (F s) d' → F s ≠ s → S s' e → S (F s') e' → F s' ≠ s' → d ≤ e → d' ≤ e') {N : Nat} (hN : ∀ s d, S s d → d ≤ N)
    {s : α} {d : Nat} (h : S s d) : F^[N + 2] s = F^[N + 1] s := by
  have key : ∀ (m : Nat) (s : α), F (F s) = F s → F^[m + 2] s = F^[m + 1] s := by
    intro m s h
    rw [Function.iterate_succ_apply, Function.iterate_succ_apply, h, Function.iterate_succ_apply]
  have down : ∀ (m : Nat) (s : α) (d d' : Nat), S s d → S (F s) d' → d' ≤ d → d ≤ m → F^[m + 2] s = F^[m + 1] s := by
    intro m
    induction m with
    | zero =>
      intro s d d' h1 h2 h3 h4
      have : d' = d := by omega
      subst this
      exact key _ _ (heq _ _ h1 h2)
    | succ m ih =>
      intro s d d' h1 h2 h3 h4
      by_cases hff : F (F s) = F s
      · exact key _ _ hff
      · have hf : F s ≠ s := fun h => hff (by rw [h, h])
        have hd : d' ≠ d := by
          rintro rfl
          exact hff (heq _ _ h1 h2)
        rcases hs _ _ h2 with h5 | ⟨e, h5⟩
        · exact absurd h5 hff
        · exact ih (F s) d' e h2 h5 (hmono _ _ _ _ _ _ h2 h5 hff h1 h2 hf h3) (by omega)
  have up : ∀ (m : Nat) (s : α) (d d' : Nat), S s d → S (F s) d' → d ≤ d' → N ≤ d + m → F^[m + 2] s = F^[m + 1] s := by
    intro m
    induction m with
    | zero =>
      intro s d d' h1 h2 h3 h4
      have := hN _ _ h2
      have : d' = d := by omega
      subst this
      exact key _ _ (heq _ _ h1 h2)
    | succ m ih =>
      intro s d d' h1 h2 h3 h4
      by_cases hff : F (F s) = F s
      · exact key _ _ hff
      · have hf : F s ≠ s := fun h => hff (by rw [h, h])
        have hd : d' ≠ d := by
          rintro rfl
          exact hff (heq _ _ h1 h2)
        rcases hs _ _ h2 with h5 | ⟨e, h5⟩
        · exact absurd h5 hff
        · exact ih (F s) d' e h2 h5 (hmono _ _ _ _ _ _ h1 h2 hf h2 h5 hff h3) (by omega)
  rcases hs s d h with h1 | ⟨d', h1⟩
  · exact key _ _ (by rw [h1, h1])
  · rcases Nat.le_total d' d with hd | hd
    · exact down N s d d' h h1 hd (hN _ _ h)
    · exact up N s d d' h h1 hd (by omega)

theorem between_unique {E : Env} {o : Options} {marker f : Str} {fs s : FS} {before after : List Str} {r r' : Nat} (h : WithTable E o marker f fs before after s r)
    (h' : WithTable E o marker f fs before after s r') : r = r' := by
  obtain ⟨t, reg, e, h1, -, -, rfl⟩ := h
  obtain ⟨t', reg', e', h1', -, -, rfl⟩ := h'
  rw [e] at e'
  have := congrFun e' f
  simp [FS.write] at this
  subst this
  have := MdToc.reads_lines h1 false
  rw [MdToc.reads_lines h1' false] at this
  have := congrArg List.length this
  simp at this
  omega

/-- **C103**, partial: a command in place that is repeated comes to rest, at the latest after two runs more than lines are skipped, also if the table stands in the skipped lines. Missing:
files with code fences behind the table (false: `C103_violation`) and tables which are not recognised (C91). -/
theorem C103_rest_partial {E : Env} (hE : E.Lawful) {a : CliArgs} (hin : a.inPlace = true) {f : Str} (hfn : a.filenames = [f])
    (hp : a.parser ≠ .redcarpet ∨ a.noIndentation = true) (hl : a.noLinks = false) (hk : 1 ≤ a.headerLevels) (hn : IsEol a.options.newline [])
    (hg : GoodMarker a.tocMarker) (hm : NotItem a.tocMarker) (hpm : PlainLine a.parser (a.tocMarker ++ ['\n'])) {fs : FS} {ls before removed after : List Str} (hf : HasLines fs f ls)
    (hc : Cut E.isDigit a.tocMarker ls before removed after) (he : IsEol a.options.newline after.flatten) (hskip : (before.length : Int) ≤ a.skipLines)
    (hcode : a.parser ≠ .redcarpet → ∀ l ∈ after, ¬ ∃ c n, OpensWith l c n) (stdin : Stdin) :
    ∀ k ≥ a.skipLines.toNat + 2, (filesAfter E a stdin)^[k + 1] fs = (filesAfter E a stdin)^[k] fs := by
  obtain ⟨n, hsk⟩ : ∃ n : Nat, a.skipLines = n := ⟨a.skipLines.toNat, by omega⟩
  have hso : a.options.skipLines = n := hsk
  have hb : before.length ≤ n := by omega
  obtain ⟨hne, text, ht, hR⟩ := hf
  have els := cut_lines hc
  have hafter : Reads after.flatten after := reads_suffix hR (before ++ removed) after els
  -- one run, from any of the states
  have step : ∀ s r, WithTable E a.options a.tocMarker f fs before after s r → ∀ out,
      buildToc E { a.options with skipLines := 0 } f (some ⟨(after.drop (n - before.length - r)).flatten, false⟩) = .ok out →
      ∃ core r', TrimmedRight isPySpace out core ∧ Height out r' ∧
        filesAfter E a stdin s = fs.write f (before.flatten ++ block core a.tocMarker a.options.newline ++ after.flatten) ∧
        WithTable E a.options a.tocMarker f fs before after (filesAfter E a stdin s) r' := by
    intro s r hs out hout
    rw [← between_toc hk hso hb hs] at hout
    obtain ⟨text', region, rfl, hR', hc', hpl, hlen⟩ := hs
    obtain ⟨core, r', h1, h2, h3, h4⟩ := update_states hE hp hl hn hm hg hpm hne (by simp [FS.write]) hR' hc' he hout
    obtain ⟨e1, -⟩ := update_command hin hfn hne stdin h3
    rw [write_write] at e1
    obtain ⟨tx, rg, g1, g2⟩ := h4
    rw [write_write, write_write] at g1
    refine ⟨core, r', h1, h2, e1, tx, rg, by rw [e1]; exact g1, g2⟩
  have fail : ∀ s r, WithTable E a.options a.tocMarker f fs before after s r → ∀ e,
      buildToc E { a.options with skipLines := 0 } f (some ⟨(after.drop (n - before.length - r)).flatten, false⟩) = .error e → filesAfter E a stdin s = s := by
    intro s r hs e hout
    rw [← between_toc hk hso hb hs] at hout
    exact failed_command hfn hne stdin hout
  have main : ∀ s r, WithTable E a.options a.tocMarker f fs before after s r → (filesAfter E a stdin)^[n + 2] s = (filesAfter E a stdin)^[n + 1] s := by
    intro s r hs
    refine rest_of_mono (filesAfter E a stdin) (fun s d => ∃ r, WithTable E a.options a.tocMarker f fs before after s r ∧ d = n - before.length - r) ?_ ?_ ?_ ?_ ⟨r, hs, rfl⟩
    · rintro s d ⟨r, hs, rfl⟩
      cases ho : buildToc E { a.options with skipLines := 0 } f (some ⟨(after.drop (n - before.length - r)).flatten, false⟩) with
      | error e => exact .inl (fail s r hs e ho)
      | ok out =>
        obtain ⟨core, r', -, -, -, h4⟩ := step s r hs out ho
        exact .inr ⟨_, r', h4, rfl⟩
    · rintro s d ⟨r, hs, rfl⟩ ⟨r', hs', hd⟩
      cases ho : buildToc E { a.options with skipLines := 0 } f (some ⟨(after.drop (n - before.length - r)).flatten, false⟩) with
      | error e => rw [fail s r hs e ho, fail s r hs e ho]
      | ok out =>
        obtain ⟨core, r1, c1, -, e1, -⟩ := step s r hs out ho
        obtain ⟨core', r2, c2, -, e2, -⟩ := step _ r' hs' out (by rw [← hd]; exact ho)
        have : core' = core := by rw [← trimmedRight_iff.mp c2, trimmedRight_iff.mp c1]
        rw [e2, this, e1]
    · rintro s d d' s' e e' ⟨r, hs, rfl⟩ ⟨r1, hs1, rfl⟩ hx ⟨q, hq, rfl⟩ ⟨q1, hq1, rfl⟩ hy hle
      cases ho : buildToc E { a.options with skipLines := 0 } f (some ⟨(after.drop (n - before.length - r)).flatten, false⟩) with
      | error e => exact absurd (fail s r hs e ho) hx
      | ok out =>
        cases ho' : buildToc E { a.options with skipLines := 0 } f (some ⟨(after.drop (n - before.length - q)).flatten, false⟩) with
        | error e => exact absurd (fail s' q hq e ho') hy
        | ok out' =>
          obtain ⟨core, r2, -, h1, -, h2⟩ := step s r hs out ho
          obtain ⟨core', q2, -, k1, -, k2⟩ := step s' q hq out' ho'
          have := between_unique hs1 h2
          have := between_unique hq1 k2
          subst r1
          subst q1
          have hsub : after.drop (n - before.length - r) = (after.drop (n - before.length - r)).take (n - before.length - q - (n - before.length - r)) ++ after.drop (n - before.length - q) := by
            conv_lhs => rw [← List.take_append_drop (n - before.length - q - (n - before.length - r)) (after.drop (n - before.length - r))]
            rw [List.drop_drop]
            congr 2
            omega
          have ra := C30_drop hafter (n - before.length - r)
          have ra' := C30_drop hafter (n - before.length - q)
          have := height_mono (o := { a.options with skipLines := 0 }) hE hn rfl (by rw [← hsub]; exact ra) ra'
            (fun hpr l hl' => hcode hpr l (by rw [← hsub] at hl'; exact List.mem_of_mem_drop hl')) ho ho' h1 k1
          omega
    · rintro s d ⟨r, -, rfl⟩
      omega
  -- the first run
  have first : (filesAfter E a stdin)^[n + 3] fs = (filesAfter E a stdin)^[n + 2] fs := by
    rw [show n + 3 = (n + 2) + 1 from rfl, Function.iterate_succ_apply _ (n + 2), show n + 2 = (n + 1) + 1 from rfl, Function.iterate_succ_apply _ (n + 1) fs]
    cases ho : buildToc E a.options f (fs f) with
    | error e =>
      have := failed_command hfn hne stdin ho
      have hfix : ∀ k, (filesAfter E a stdin)^[k] fs = fs := fun k => Function.iterate_fixed this k
      rw [this, hfix, hfix]
    | ok out =>
      obtain ⟨core, r', h1, h2, h3, h4⟩ := update_states hE hp hl hn hm hg hpm hne ht hR hc he ho
      obtain ⟨e1, -⟩ := update_command hin hfn hne stdin h3
      rw [e1]
      exact main _ _ h4
  intro k hk'
  obtain ⟨j, rfl⟩ : ∃ j, k = j + (n + 2) := ⟨k - (n + 2), by omega⟩
  have : j + (n + 2) + 1 = j + (n + 3) := by omega
  rw [this, Function.iterate_add_apply _ j, Function.iterate_add_apply _ j, first]

/-- **C103**, partial, for tables behind the skipped lines, for several files and with code blocks: one run is enough. Missing: tables which are not recognised (false: C91). -/
theorem C103_behind_partial {E : Env} (hE : E.Lawful) {a : CliArgs} (hin : a.inPlace = true) (hne : a.filenames ≠ []) (hnd : a.filenames.Nodup)
    (hp : a.parser ≠ .redcarpet ∨ a.noIndentation = true) (hl : a.noLinks = false) (hk : 1 ≤ a.headerLevels) (hn : IsEol a.options.newline [])
    (hg : GoodMarker a.tocMarker) (hm : NotItem a.tocMarker) {fs : FS} (hf : ∀ f ∈ a.filenames, HasPlace E a fs f ∨ NoPlace a fs f) {stdin : Stdin}
    (h : (cliMain E a fs stdin).code ≠ 1) : ∀ k ≥ 1, (filesAfter E a stdin)^[k] fs = filesAfter E a stdin fs := by
  have h1 : filesAfter E a stdin (filesAfter E a stdin fs) = filesAfter E a stdin fs :=
    ((C91_update_check_partial hE hin hne hnd hp hl hk hn hg hm hf h).1 a.diff).2
  intro k hk
  obtain ⟨j, rfl⟩ : ∃ j, k = j + 1 := ⟨k - 1, by omega⟩
  rw [Function.iterate_succ_apply]
  exact Function.iterate_fixed h1 j

/-- **C103** is violated: the table stands in the skipped lines, and a code block behind it. With one heading the table is short and the first code fence is skipped, so that the next
table has the three lines of the code; then the fence is not skipped any more, and the next table has one heading again. No run ever leaves the file as it is. -/
theorem C103_violation :
    let a : CliArgs := { filenames := ["a.md".toList], inPlace := true, skipLines := 6 }
    let fs : FS := fun _ => some ⟨"<!--TOC-->\n```\n# A\n# B\n# C\n```\n# D\nx\n".toList, false⟩
    ∀ k, (filesAfter asciiEnv a none)^[k + 1] fs ≠ (filesAfter asciiEnv a none)^[k] fs := by
  intro a fs
  let f : Str := "a.md".toList
  let C : Str := "```\n# A\n# B\n# C\n```\n# D\nx\n".toList
  let A : Str := "<!--TOC-->\n\n- [D](#d)\n\n<!--TOC-->\n```\n# A\n# B\n# C\n```\n# D\nx\n".toList
  let B : Str := "<!--TOC-->\n\n- [A](#a)\n- [B](#b)\n- [C](#c)\n\n<!--TOC-->\n```\n# A\n# B\n# C\n```\n# D\nx\n".toList
  have hne : f ≠ stdinName := by decide
  have step : ∀ (t out t0 t' : Str) (b : Bool) (s : FS), s f = some ⟨t, false⟩ → buildToc asciiEnv a.options f (some ⟨t, false⟩) = .ok out →
      writeString asciiEnv (fun _ => some ⟨t, false⟩) f out a.tocMarker a.options.newline = .ok (b, [t0, t']) → filesAfter asciiEnv a none s = s.write f t' := by
    intro t out t0 t' b s hs h1 h2
    refine (update_command (a := a) rfl rfl hne none ⟨out, b, [t0, t'], by rw [hs]; exact h1, ?_, rfl⟩).1
    rw [← h2]
    exact writeString_congr hs _ _ _
  have h0 : filesAfter asciiEnv a none fs = fs.write f A := step _ "- [D](#d)\n".toList C A false fs rfl (by decide +kernel) (by decide +kernel)
  have hA : filesAfter asciiEnv a none (fs.write f A) = fs.write f B := by
    rw [step A "- [A](#a)\n- [B](#b)\n- [C](#c)\n".toList C B false (fs.write f A) (by simp [FS.write]) (by decide +kernel) (by decide +kernel), write_write]
  have hB : filesAfter asciiEnv a none (fs.write f B) = fs.write f A := by
    rw [step B "- [D](#d)\n".toList C A false (fs.write f B) (by simp [FS.write]) (by decide +kernel) (by decide +kernel), write_write]
  have hAB : fs.write f A ≠ fs.write f B := by
    intro h
    have := congrFun h f
    simp only [FS.write, if_true, Option.some.injEq, Source.mk.injEq, and_true] at this
    exact absurd this (by decide +kernel)
  have hfA : fs ≠ fs.write f A := by
    intro h
    have := congrFun h f
    simp only [FS.write, if_true, Option.some.injEq, Source.mk.injEq, and_true, fs] at this
    exact absurd this (by decide +kernel)
  have all : ∀ k, (filesAfter asciiEnv a none)^[k + 1] fs = fs.write f A ∨ (filesAfter asciiEnv a none)^[k + 1] fs = fs.write f B := by
    intro k
    induction k with
    | zero => exact .inl h0
    | succ k ih =>
      rw [Function.iterate_succ_apply']
      rcases ih with h | h <;> rw [h]
      · exact .inr hA
      · exact .inl hB
  intro k
  cases k with
  | zero => exact fun h => hfA (by rw [← h0]; exact h.symm)
  | succ k =>
    rw [Function.iterate_succ_apply']
    rcases all k with h | h <;> rw [h]
    · rw [hA]; exact hAB.symm
    · rw [hB]; exact hAB

/-- A marker cannot stand behind the last marker. -/
theorem marker_front {marker : Str} : ∀ {P Q x y : List Str} {m : Str}, x ++ m :: y = P ++ Q → IsMarker marker m → (∀ l ∈ Q, ¬ IsMarker marker l) →
    ∃ z, P = x ++ m :: z ∧ y = z ++ Q := by
  intro P Q x y m h hm hQ
  rcases List.append_eq_append_iff.mp h with ⟨w, h1, h2⟩ | ⟨w, h1, h2⟩
  · cases w with
    | nil => exact absurd hm (hQ m (by simp at h2; rw [← h2]; simp))
    | cons c w =>
      simp at h2
      exact ⟨w, by rw [h1, h2.1], h2.2⟩
  · exact absurd hm (hQ m (by rw [h2]; simp))

/-- **C103** is violated by every table that is not recognised, as those of redcarpet that begin with a deep heading and some without links: if the lines up to the last marker have
neither headings nor code fences, then every run changes the file, for ever. -/
theorem C103_never {E : Env} (hE : E.Lawful) {a : CliArgs} (hin : a.inPlace = true) {f : Str} (hfn : a.filenames = [f]) (hk : 1 ≤ a.headerLevels) (hs : a.skipLines = 0)
    (hn : a.options.newline = ['\n'] ∨ a.options.newline = ['\r', '\n']) (hg : GoodMarker a.tocMarker) (hpm : PlainLine a.parser (a.tocMarker ++ ['\n'])) {fs : FS} {P Q : List Str}
    (hf : HasLines fs f (P ++ Q)) (hP : ∀ l ∈ P, PlainLine a.parser l) (hM : ∃ l ∈ P, IsMarker a.tocMarker l) (hQ : ∀ l ∈ Q, ¬ IsMarker a.tocMarker l) {out core : Str}
    (hb : buildToc E a.options f (fs f) = .ok out) (ht : TrimmedRight isPySpace out core) (hw : ¬ LooksLikeToc E.isDigit core) (stdin : Stdin) :
    ∀ k, (filesAfter E a stdin)^[k + 1] fs ≠ (filesAfter E a stdin)^[k] fs := by
  have hn' : IsEol a.options.newline [] := hn.imp id .inl
  have step : ∀ s : FS, (∃ P, HasLines s f (P ++ Q) ∧ (∀ l ∈ P, PlainLine a.parser l) ∧ (∃ l ∈ P, IsMarker a.tocMarker l) ∧ buildToc E a.options f (s f) = .ok out) →
      filesAfter E a stdin s ≠ s ∧ ∃ P, HasLines (filesAfter E a stdin s) f (P ++ Q) ∧ (∀ l ∈ P, PlainLine a.parser l) ∧ (∃ l ∈ P, IsMarker a.tocMarker l) ∧
        buildToc E a.options f (filesAfter E a stdin s f) = .ok out := by
    rintro s ⟨P, hf, hP, hM, hb⟩
    obtain ⟨hne, text, hft, hR⟩ := hf
    have hM' : ∃ l ∈ P ++ Q, IsMarker a.tocMarker l := by
      obtain ⟨l, h1, h2⟩ := hM
      exact ⟨l, by simp [h1], h2⟩
    obtain ⟨b, tr, text', h1, h2, h3⟩ := C38_always_changed E hne hft hR hM' hg ht hn hw
    have hup : Update E a.options a.tocMarker f s (s.write f text') := ⟨out, b, tr, hb, h1, by unfold lastFS; rw [h2]⟩
    obtain ⟨e1, -⟩ := update_command hin hfn hne stdin hup
    rw [e1]
    refine ⟨?_, ?_⟩
    · intro h
      have := congrFun h f
      rw [hft] at this
      simp [FS.write] at this
      exact h3 this
    · obtain ⟨before, removed, after, hc⟩ := cut_exists E.isDigit a.tocMarker hM'
      have els := cut_lines hc
      -- the replaced lines are among the first ones
      obtain ⟨z, hz1, hz2⟩ : ∃ z, P = before ++ removed ++ z ∧ after = z ++ Q := by
        rcases hc with ⟨m, ⟨-, hm, -⟩, rfl⟩ | ⟨m, mid, m', ⟨-, -, hm, -⟩, rfl⟩ | ⟨⟨m, mid, m', b, -, rfl, -, hm, -⟩, rfl⟩
        · obtain ⟨z, h1, h2⟩ := marker_front (x := before) (y := after) (by simpa using els.symm) hm hQ
          exact ⟨z, by simp [h1], h2⟩
        · obtain ⟨z, h1, h2⟩ := marker_front (x := before ++ m :: mid) (y := after) (by simpa using els.symm) hm hQ
          exact ⟨z, by simp [h1], h2⟩
        · obtain ⟨z, h1, h2⟩ := marker_front (x := before) (y := mid ++ m' :: b) (by simpa using els.symm) hm hQ
          exact ⟨m :: z, by simp [h1], by simp [h2]⟩
      have h0 := hb
      rw [hft] at h0
      obtain ⟨core', cl, ht', hcl, hitems, heol⟩ := toc_core hE hn' h0
      have : core' = core := by rw [← trimmedRight_iff.mp ht', trimmedRight_iff.mp ht]
      subst this
      obtain ⟨_, _, hw1, hlast⟩ := C37_outside_preserved E ⟨hne, text, hft, hR⟩ out a.tocMarker a.options.newline hc ht
      rw [h1] at hw1
      injection hw1 with hw1
      injection hw1 with q1 q2
      subst q1; subst q2
      rw [h2] at hlast
      injection hlast with hlast
      obtain ⟨mid, hR', hmid⟩ := written_reads hR hc hg hcl (by obtain ⟨_, _, _, h⟩ := ht; exact h) heol (hn.imp id .inl)
      rw [← hlast] at hR'
      have hreg : ∀ l ∈ (a.tocMarker ++ ['\n']) :: mid ++ [a.tocMarker ++ ['\n']], PlainLine a.parser l := by
        intro l hl
        have : l = a.tocMarker ++ ['\n'] ∨ l ∈ mid := by
          simp at hl
          rcases hl with h | h | h
          · exact .inl h
          · exact .inr h
          · exact .inl h
        rcases this with rfl | hl
        · exact hpm
        · rcases hmid l hl with rfl | hl | ⟨y, hy, rfl, hy'⟩
          · exact newline_plain _
          · obtain ⟨i, hi, hi'⟩ := hitems l hl
            exact isItem_plain _ hi hi'
          · obtain ⟨i, hi, hi'⟩ := hitems y hy
            rcases hi' with rfl | rfl
            · exact isItem_plain _ hi (.inr rfl)
            · simp at hy'
      have hpl : ∀ l ∈ before ++ ((a.tocMarker ++ ['\n']) :: mid ++ [a.tocMarker ++ ['\n']]) ++ z, PlainLine a.parser l := by
        intro l hl
        rcases List.mem_append.mp hl with hl | hl
        · rcases List.mem_append.mp hl with hl | hl
          · exact hP l (by rw [hz1]; simp [hl])
          · exact hreg l hl
        · exact hP l (by rw [hz1]; simp [hl])
      have hR2 : Reads text' (before ++ ((a.tocMarker ++ ['\n']) :: mid ++ [a.tocMarker ++ ['\n']]) ++ z ++ Q) := by
        rw [hz2] at hR'
        simpa using hR'
      have efs : s.write f text' f = some ⟨text', false⟩ := by simp [FS.write]
      refine ⟨_, ⟨hne, text', efs, hR2⟩, hpl, ⟨a.tocMarker ++ ['\n'], by simp, isMarker_nl.mpr (isMarker_self _)⟩, ?_⟩
      have hQr := reads_suffix hR P Q rfl
      rw [efs, buildToc_front (o := a.options) hs hk hR2 hQr hpl, ← buildToc_front (o := a.options) hs hk hR hQr hP, ← hft]
      exact hb
  have all : ∀ k, ∃ P, HasLines ((filesAfter E a stdin)^[k] fs) f (P ++ Q) ∧ (∀ l ∈ P, PlainLine a.parser l) ∧ (∃ l ∈ P, IsMarker a.tocMarker l) ∧
      buildToc E a.options f ((filesAfter E a stdin)^[k] fs f) = .ok out := by
    intro k
    induction k with
    | zero => exact ⟨P, hf, hP, hM, hb⟩
    | succ k ih =>
      rw [Function.iterate_succ_apply']
      exact (step _ ih).2
  intro k
  rw [Function.iterate_succ_apply']
  exact (step _ (all k)).1

/-- A file for redcarpet that meets the hypotheses. -/
example : ∀ k, (filesAfter asciiEnv { filenames := ["a.md".toList], inPlace := true, parser := .redcarpet } none)^[k + 1] (fun _ => some ⟨"<!--TOC-->\n### a\n".toList, false⟩) ≠
    (filesAfter asciiEnv { filenames := ["a.md".toList], inPlace := true, parser := .redcarpet } none)^[k] (fun _ => some ⟨"<!--TOC-->\n### a\n".toList, false⟩) := by
  refine C103_never (a := { filenames := ["a.md".toList], inPlace := true, parser := .redcarpet }) (P := ["<!--TOC-->\n".toList]) (Q := ["### a\n".toList])
    (out := "        - [a](#a)\n".toList) (core := "        - [a](#a)".toList) asciiEnv_lawful rfl rfl (by decide) rfl
    (.inl rfl) default_good (default_plain _) ⟨by decide, _, rfl, (reads_iff (bad := false)).mpr (by decide +kernel)⟩ ?_ ?_ ?_ (by decide +kernel) (trimmedRight_iff.mpr (by decide +kernel)) ?_ none
  · simp only [List.mem_singleton, forall_eq]
    exact default_plain _
  · exact ⟨_, List.mem_singleton.mpr rfl, isMarker_iff.mpr (by decide +kernel)⟩
  · simp only [isMarker_iff]; decide +kernel
  · rintro (h | h)
    · simp at h
    · have := listLike_spaces (k := 8) (x := '-') (t := " [a](#a)".toList) (by decide +kernel) (by decide) h
      omega

/-- A file which needs three runs: each run shows more of the lines that were skipped. -/
example :
    let a : CliArgs := { filenames := ["a.md".toList], inPlace := true, skipLines := 7 }
    let fs : FS := fun _ => some ⟨"<!--TOC-->\n# A\n# B\n# C\n# D\n# E\n# F\n# G\n".toList, false⟩
    (List.range 6).map (fun k => ((filesAfter asciiEnv a none)^[k] fs "a.md".toList).map (fun t => t.text.count '[')) = [some 0, some 1, some 5, some 7, some 7, some 7] := by
  decide +kernel

/-- The file of the example meets the hypotheses of `C103_rest_partial`, so that every later run leaves it as it is. -/
example :
    let a : CliArgs := { filenames := ["a.md".toList], inPlace := true, skipLines := 7 }
    let fs : FS := fun _ => some ⟨"<!--TOC-->\n# A\n# B\n# C\n# D\n# E\n# F\n# G\n".toList, false⟩
    ∀ k ≥ 9, (filesAfter asciiEnv a none)^[k + 1] fs = (filesAfter asciiEnv a none)^[k] fs := by
  intro a fs
  refine C103_rest_partial (a := a) asciiEnv_lawful rfl rfl (.inl (by decide)) rfl (by decide) (.inl rfl) default_good default_notItem (default_plain _)
    (ls := (["<!--TOC-->\n", "# A\n", "# B\n", "# C\n", "# D\n", "# E\n", "# F\n", "# G\n"] : List String).map String.toList) (before := [])
    (removed := ["<!--TOC-->\n".toList]) (after := (["# A\n", "# B\n", "# C\n", "# D\n", "# E\n", "# F\n", "# G\n"] : List String).map String.toList)
    ⟨by decide, _, rfl, (reads_iff (bad := false)).mpr (by decide +kernel)⟩ (.inl ⟨_, ⟨rfl, isMarker_iff.mpr (by decide +kernel), by simp, ?_⟩, rfl⟩) (.inl rfl) (by decide) ?_ none
  · simp only [isMarker_iff]; decide +kernel
  · intro _ l hl
    rw [← isOpening_none_iff (p := a.parser) rfl]
    revert l
    decide +kernel

end MdToc.Props
