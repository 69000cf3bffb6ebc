import Verif.Spec.Doc
import Verif.Lemmas.Fence
import Verif.Props.AtxMore
import Verif.Toc

/-!
# Documents as lists of lines
-/

set_option linter.unusedSimpArgs false

namespace MdToc

open MdToc.Spec

/-! ### Lines -/

theorem universalNewlines_eol {eol t : Str} (h : IsEol eol t) :
    universalNewlines (eol ++ t) = '\n' :: universalNewlines t := by
  rcases h with rfl | rfl | ⟨rfl, h⟩
  · simp only [universalNewlines, List.cons_append, List.nil_append]
    rw [crlfToLf_cons_ne (by decide)]
    simp [replaceChar]
  · simp only [universalNewlines, List.cons_append, List.nil_append]
    rw [crlfToLf]
    simp [replaceChar]
  · simp only [universalNewlines, List.cons_append, List.nil_append]
    cases t with
    | nil => rfl
    | cons d t =>
      have hd : d ≠ '\n' := by rintro rfl; exact h rfl
      rw [crlfToLf, if_neg (by simp [hd])]
      simp [replaceChar]

theorem linesKeep_no_nl {b : Str} (hb : b ≠ []) (h : '\n' ∉ b) : linesKeep b = [b] := by
  induction b with
  | nil => exact absurd rfl hb
  | cons c t ih =>
    have hc : c ≠ '\n' := by rintro rfl; simp at h
    rw [linesKeep, if_neg hc]
    cases t with
    | nil => rfl
    | cons d t =>
      rw [ih (by simp) (fun h' => h (by simp [h']))]

theorem linesKeep_line {b t : Str} (h : '\n' ∉ b) : linesKeep (b ++ '\n' :: t) = (b ++ ['\n']) :: linesKeep t := by
  induction b with
  | nil => simp [linesKeep]
  | cons c b ih =>
    have hc : c ≠ '\n' := by rintro rfl; simp at h
    rw [List.cons_append, linesKeep, if_neg hc, ih (fun h' => h (by simp [h']))]
    rfl

theorem reads_lines {text : Str} {ls : List Str} (h : Reads text ls) (bad : Bool) :
    Source.lines ⟨text, bad⟩ = ls := by
  unfold Source.lines
  simp only
  induction h with
  | nil => rfl
  | @last b hb hn =>
    have : '\n' ∉ b := fun h => hn _ h (.inl rfl)
    have e := universalNewlines_plain hn []
    simp only [List.append_nil] at e
    have en : universalNewlines [] = [] := by decide
    rw [e, en, List.append_nil]
    exact linesKeep_no_nl hb this
  | @line b eol t ls hn he _ ih =>
    have : '\n' ∉ b := fun h => hn _ h (.inl rfl)
    rw [List.append_assoc, universalNewlines_plain hn, universalNewlines_eol he, linesKeep_line this, ih]

theorem reads_exists : ∀ (text : Str), ∃ ls, Reads text ls := by
  intro text
  generalize hn : text.length = n
  induction n using Nat.strongRecOn generalizing text with
  | _ n ih =>
  obtain ⟨b, r, e, hb, hr⟩ := span_split (fun c => !(c == '\n' || c == '\r')) text
  have hb' : ∀ c ∈ b, ¬ IsNewline c := by
    intro c hc h
    have := hb c hc
    rcases h with rfl | rfl <;> simp at this
  cases r with
  | nil =>
    simp at e
    subst e
    by_cases h0 : text = []
    · subst h0; exact ⟨[], .nil⟩
    · exact ⟨[text], .last h0 hb'⟩
  | cons x r =>
    have hx : x = '\n' ∨ x = '\r' := by
      have := hr x (by simp)
      simp at this
      by_cases h : x = '\n'
      · exact .inl h
      · exact .inr (this h)
    rcases hx with rfl | rfl
    · obtain ⟨ls, hl⟩ := ih r.length (by rw [← hn, e]; simp; omega) r rfl
      exact ⟨_, by have := Reads.line hb' (.inl rfl) hl; simpa [e] using this⟩
    · cases r with
      | nil => exact ⟨_, by have := Reads.line hb' (.inr (.inr ⟨rfl, by simp⟩)) .nil; simpa [e] using this⟩
      | cons y r =>
        by_cases hy : y = '\n'
        · subst hy
          obtain ⟨ls, hl⟩ := ih r.length (by rw [← hn, e]; simp; omega) r rfl
          exact ⟨_, by have := Reads.line hb' (.inr (.inl rfl)) hl; simpa [e] using this⟩
        · obtain ⟨ls, hl⟩ := ih (y :: r).length (by rw [← hn, e]; simp; omega) (y :: r) rfl
          exact ⟨_, by have := Reads.line hb' (.inr (.inr ⟨rfl, by simpa using hy⟩)) hl; simpa [e] using this⟩

theorem reads_iff {text : Str} {ls : List Str} {bad : Bool} : Reads text ls ↔ Source.lines ⟨text, bad⟩ = ls := by
  constructor
  · exact fun h => reads_lines h bad
  · rintro rfl
    obtain ⟨ls, h⟩ := reads_exists text
    rw [reads_lines h bad]; exact h

/-- A line as read from a file. -/
def IsLine (l : Str) : Prop := ∃ b, l ≠ [] ∧ (l = b ++ ['\n'] ∨ l = b) ∧ ∀ c ∈ b, ¬ IsNewline c

theorem reads_isLine {text : Str} {ls : List Str} (h : Reads text ls) : ∀ l ∈ ls, IsLine l := by
  induction h with
  | nil => simp
  | @last b hb hn => intro l hl; simp at hl; subst hl; exact ⟨l, hb, .inr rfl, hn⟩
  | @line b eol t ls hn he _ ih =>
    intro l hl
    rcases List.mem_cons.mp hl with rfl | hl
    · exact ⟨b, by simp, .inl rfl, hn⟩
    · exact ih l hl

/-- The text of a line without its newline. -/
theorem IsLine.body {l : Str} (h : IsLine l) : ∃ b, Body l b ∧ l ≠ [] ∧ (l = b ++ ['\n'] ∨ l = b) := by
  obtain ⟨b, h0, h1, h2⟩ := h
  have hb : ∀ c ∈ b, c ≠ '\n' ∧ c ≠ '\r' := fun c hc => ⟨fun h => h2 c hc (.inl h), fun h => h2 c hc (.inr h)⟩
  refine ⟨b, ?_, h0, h1⟩
  rcases h1 with rfl | rfl
  · exact ⟨[], ['\n'], by simp, by simp, hb⟩
  · exact ⟨[], [], by simp, by simp, hb⟩

/-! ### Runs over lines -/

/-- The loop of `build_toc` over lines which are not the last one. -/
def tocRun (E : Env) (o : Options) : List Str → TocState → Except Exn TocState
  | [], st => .ok st
  | l :: ls, st => tocStep E o st l false >>= tocRun E o ls

/-- The state without the fences. -/
def TocState.norm (st : TocState) : TocState := { st with within := false, fence := none }

/-- The part of the loop after the fence detection, for one line. -/
def hdrStep (E : Env) (o : Options) (st : TocState) (line : Str) : Except Exn TocState := do
  let (hs, dup) ← getMdHeader E line st.dup o.keep o.parser o.noLinks
  let st := { st with dup := dup }
  match hs with
  | some h :: _ => if h.visible then addHeader o st h else .ok st
  | _ => .ok st

/-- That part for several lines. -/
def hdrRun (E : Env) (o : Options) : List Str → TocState → Except Exn TocState
  | [], st => .ok st
  | l :: ls, st => hdrStep E o st l >>= hdrRun E o ls

theorem tocRun_append (E : Env) (o : Options) (a b : List Str) (st : TocState) :
    tocRun E o (a ++ b) st = tocRun E o a st >>= tocRun E o b := by
  induction a generalizing st with
  | nil => rfl
  | cons l a ih =>
    simp only [List.cons_append, tocRun, bind, Except.bind]
    cases tocStep E o st l false with
    | error e => rfl
    | ok st => exact ih st

theorem hdrRun_append (E : Env) (o : Options) (a b : List Str) (st : TocState) :
    hdrRun E o (a ++ b) st = hdrRun E o a st >>= hdrRun E o b := by
  induction a generalizing st with
  | nil => rfl
  | cons l a ih =>
    simp only [List.cons_append, hdrRun, bind, Except.bind]
    cases hdrStep E o st l with
    | error e => rfl
    | ok st => exact ih st

theorem incoherent_congr {o : Options} {st st' : TocState} (h1 : st.first = st'.first) (h2 : st.prev = st'.prev) (c : Nat) :
    incoherent o st c = incoherent o st' c ∧ firstFor o st c = firstFor o st' c ∧ prevFor o st c = prevFor o st' c := by
  have e1 : firstFor o st c = firstFor o st' c := by simp only [firstFor, h1]
  have e2 : prevFor o st c = prevFor o st' c := by simp only [prevFor, h2]
  exact ⟨by simp only [incoherent, e1, e2], e1, e2⟩

/-- Adding a header does not look at the fences. -/
theorem addHeader_set (o : Options) (st : TocState) (h : Header) (w : Bool) (f : Option Str) :
    addHeader o { st with within := w, fence := f } h =
      (addHeader o st h).map (fun st => { st with within := w, fence := f }) := by
  unfold addHeader
  obtain ⟨e1, e2, e3⟩ := incoherent_congr (o := o) (st := { st with within := w, fence := f }) (st' := st) rfl rfl h.headerType
  simp only [bind, Except.bind, Except.map, e1, e2, e3]
  repeat' (split <;> try rfl)

theorem hdrStep_set (E : Env) (o : Options) (st : TocState) (l : Str) (w : Bool) (f : Option Str) :
    hdrStep E o { st with within := w, fence := f } l =
      (hdrStep E o st l).map (fun st => { st with within := w, fence := f }) := by
  unfold hdrStep
  simp only [bind, Except.bind]
  cases getMdHeader E l st.dup o.keep o.parser o.noLinks with
  | error e => rfl
  | ok r =>
    simp only
    split
    · split
      · exact addHeader_set o { st with dup := r.2 } _ w f
      · rfl
    · rfl

theorem tocStep_eq (E : Env) (o : Options) (st : TocState) (l : Str) (d : Bool) :
    tocStep E o st l d =
      let wf := fenceStep o.parser st.within st.fence l d
      if !wf.1 || wf.2.isNone then (hdrStep E o st l).map (fun st => { st with within := wf.1, fence := wf.2 })
      else .ok { st with within := wf.1, fence := wf.2 } := by
  simp only
  rw [← hdrStep_set]
  rfl

theorem hdrStep_keeps {E : Env} {o : Options} {st st' : TocState} {l : Str} (h : hdrStep E o st l = .ok st') :
    st'.within = st.within ∧ st'.fence = st.fence := by
  have h1 := hdrStep_set E o st l st.within st.fence
  have h2 : { st with within := st.within, fence := st.fence } = st := rfl
  rw [h2, h] at h1
  simp only [Except.map] at h1
  injection h1 with h1
  rw [h1]
  exact ⟨rfl, rfl⟩

/-- Outside of fences, for a line that opens none. -/
theorem tocStep_line {E : Env} {o : Options} {st : TocState} {l : Str} (d : Bool) (hw : st.within = false)
    (hl : isOpeningCodeFence l o.parser = none) :
    tocStep E o st l d = (hdrStep E o st l).map TocState.norm := by
  rw [tocStep_eq]
  simp only [fenceStep, hw, hl, Bool.false_eq_true, if_false, Bool.not_false, Bool.true_or, if_true]
  rfl

theorem tocStep_open {E : Env} {o : Options} {st : TocState} {l f : Str} (d : Bool) (hw : st.within = false)
    (hl : isOpeningCodeFence l o.parser = some f) :
    tocStep E o st l d = .ok { st with within := true, fence := some f } := by
  rw [tocStep_eq]
  simp [fenceStep, hw, hl]

theorem tocStep_inside {E : Env} {o : Options} {st : TocState} {l f : Str} {d : Bool} (hw : st.within = true) (hf : st.fence = some f)
    (hl : isClosingCodeFence l f d o.parser = false) :
    tocStep E o st l d = .ok st := by
  rw [tocStep_eq]
  obtain ⟨c, p, fi, du, lo, w, fe, t⟩ := st
  simp only at hw hf
  subst hw hf
  simp [fenceStep, hl]

theorem tocStep_close {E : Env} {o : Options} {st : TocState} {l f : Str} {d : Bool} (hw : st.within = true) (hf : st.fence = some f)
    (hl : isClosingCodeFence l f d o.parser = true) :
    tocStep E o st l d = (hdrStep E o st l).map (fun st => { st with within := false, fence := some f }) := by
  rw [tocStep_eq]
  obtain ⟨c, p, fi, du, lo, w, fe, t⟩ := st
  simp only at hw hf
  subst hw hf
  simp [fenceStep, hl]

theorem tocRun_inside {E : Env} {o : Options} {st : TocState} {f : Str} (hw : st.within = true) (hf : st.fence = some f) {ms : List Str}
    (h : ∀ m ∈ ms, isClosingCodeFence m f false o.parser = false) : tocRun E o ms st = .ok st := by
  induction ms with
  | nil => rfl
  | cons m ms ih =>
    rw [tocRun, tocStep_inside hw hf (h m (by simp))]
    exact ih (fun m hm => h m (by simp [hm]))

/-- The state does not depend on the fences. -/
theorem hdrStep_norm (E : Env) (o : Options) (st : TocState) (l : Str) :
    hdrStep E o st.norm l = (hdrStep E o st l).map TocState.norm := hdrStep_set E o st l false none

theorem hdrRun_norm (E : Env) (o : Options) (ls : List Str) (st : TocState) :
    hdrRun E o ls st.norm = (hdrRun E o ls st).map TocState.norm := by
  induction ls generalizing st with
  | nil => rfl
  | cons l ls ih =>
    simp only [hdrRun, hdrStep_norm, bind, Except.bind]
    cases hdrStep E o st l with
    | error e => rfl
    | ok st => exact ih st

theorem norm_norm (st : TocState) : st.norm.norm = st.norm := rfl

/-- Outside of fences the state of the fences does not matter. -/
theorem tocStep_norm (E : Env) (o : Options) (st : TocState) (l : Str) (d : Bool) (hw : st.within = false) :
    tocStep E o st.norm l d = tocStep E o st l d := by
  cases hl : isOpeningCodeFence l o.parser with
  | none =>
    rw [tocStep_line d hw hl, tocStep_line d (by rfl) hl, hdrStep_norm]
    cases hdrStep E o st l <;> rfl
  | some f =>
    rw [tocStep_open d hw hl, tocStep_open d (by rfl) hl]
    rfl

theorem isOpening_redcarpet {p : Parser} (hp : p.cmarkLike = false) (l : Str) : isOpeningCodeFence l p = none := by
  simp [isOpeningCodeFence, hp]

/-! ### Visible lines -/

theorem notClosing {p : Parser} (hp : p.cmarkLike = true) {line : Str} {c : Char} {n : Nat} (hc : IsFenceChar c)
    (hn : 3 ≤ n) (h : ¬ ClosesWith p line c n) : isClosingCodeFence line (List.replicate n c) false p = false := by
  rw [Bool.eq_false_iff]
  exact fun h' => h ((isClosing_iff hp line hc hn).mp h')

theorem opensWith_props {l : Str} {c : Char} {n : Nat} (h : OpensWith l c n) : IsFenceChar c ∧ 3 ≤ n := by
  obtain ⟨k, r, -, hn, hc, -⟩ := h
  exact ⟨hc, hn⟩

/-- The loop of `build_toc` looks at the visible lines. -/
theorem tocRun_visible {E : Env} {o : Options} (hp : o.parser.cmarkLike = true) {ls vs : List Str} (h : Visible o.parser ls vs) :
    ∀ st : TocState, st.within = false → (tocRun E o ls st).map TocState.norm = hdrRun E o vs st.norm := by
  induction h with
  | nil => intro st _; rfl
  | @line l ls vs hl _ ih =>
    intro st hw
    rw [tocRun, tocStep_line false hw ((isOpening_none_iff hp l).mpr hl), hdrRun, hdrStep_norm]
    cases hdrStep E o st l with
    | error e => rfl
    | ok st' => exact ih st'.norm rfl
  | @block l c n ms e ls vs ho hm he _ ih =>
    intro st hw
    obtain ⟨hc, hn⟩ := opensWith_props ho
    rw [List.cons_append, tocRun, tocStep_open false hw ((isOpening_iff hp l _).mpr ⟨c, n, ho, rfl⟩)]
    simp only [bind, Except.bind]
    rw [tocRun_append, tocRun_inside rfl rfl (fun m h => notClosing hp hc hn (hm m h))]
    simp only [bind, Except.bind]
    rw [tocRun, tocStep_close rfl rfl (closing_of_closes hp hc hn he false), hdrRun, hdrStep_norm, hdrStep_set]
    cases hdrStep E o st e with
    | error e => rfl
    | ok st' => exact ih { st' with within := false, fence := some (List.replicate n c) } rfl
  | @unclosed l c n ms ho hm =>
    intro st hw
    obtain ⟨hc, hn⟩ := opensWith_props ho
    rw [tocRun, tocStep_open false hw ((isOpening_iff hp l _).mpr ⟨c, n, ho, rfl⟩)]
    simp only [bind, Except.bind]
    rw [tocRun_inside rfl rfl (fun m h => notClosing hp hc hn (hm m h))]
    rfl

theorem tocRun_redcarpet {E : Env} {o : Options} (hp : o.parser.cmarkLike = false) (ls : List Str) :
    ∀ st : TocState, st.within = false → (tocRun E o ls st).map TocState.norm = hdrRun E o ls st.norm := by
  induction ls with
  | nil => intro st _; rfl
  | cons l ls ih =>
    intro st hw
    rw [tocRun, tocStep_line false hw (isOpening_redcarpet hp l), hdrRun, hdrStep_norm]
    cases hdrStep E o st l with
    | error e => rfl
    | ok st' => exact ih st'.norm rfl

/-- Every document has visible lines. -/
theorem visible_exists (p : Parser) : ∀ ls : List Str, ∃ vs, Visible p ls vs := by
  intro ls
  generalize hn : ls.length = n
  induction n using Nat.strongRecOn generalizing ls with
  | _ n ih =>
  cases ls with
  | nil => exact ⟨[], .nil⟩
  | cons l ls =>
    by_cases ho : ∃ c n, OpensWith l c n
    · obtain ⟨c, k, ho⟩ := ho
      by_cases hcl : ∃ e ∈ ls, ClosesWith p e c k
      · -- the first closing line
        have : ∃ ms e rest, ls = ms ++ e :: rest ∧ (∀ m ∈ ms, ¬ ClosesWith p m c k) ∧ ClosesWith p e c k := by
          clear ih hn
          induction ls with
          | nil => simp at hcl
          | cons x ls ih2 =>
            by_cases hx : ClosesWith p x c k
            · exact ⟨[], x, ls, rfl, by simp, hx⟩
            · obtain ⟨e, he, he'⟩ := hcl
              rcases List.mem_cons.mp he with rfl | he
              · exact absurd he' hx
              · obtain ⟨ms, e, rest, h1, h2, h3⟩ := ih2 ⟨e, he, he'⟩
                refine ⟨x :: ms, e, rest, by rw [h1]; rfl, ?_, h3⟩
                intro m hm
                rcases List.mem_cons.mp hm with rfl | hm
                · exact hx
                · exact h2 m hm
        obtain ⟨ms, e, rest, h1, h2, h3⟩ := this
        obtain ⟨vs, hv⟩ := ih rest.length (by rw [← hn, h1]; simp; omega) rest rfl
        exact ⟨e :: vs, by rw [h1, ← List.cons_append]; exact .block ho h2 h3 hv⟩
      · exact ⟨[], .unclosed ho (fun m hm h => hcl ⟨m, hm, h⟩)⟩
    · obtain ⟨vs, hv⟩ := ih ls.length (by rw [← hn]; simp) ls rfl
      exact ⟨l :: vs, .line ho hv⟩

/-- The visible lines before a point outside of code blocks do not depend on what follows. -/
theorem visible_of_outside {p : Parser} {a : List Str} (ho : Outside p a) :
    ∃ vs, ∀ b' vb', Visible p b' vb' → Visible p (a ++ b') (vs ++ vb') := by
  induction ho with
  | nil => exact ⟨[], fun b' vb' h => h⟩
  | @line ls l _ hl ih =>
    obtain ⟨vs, h⟩ := ih
    refine ⟨vs ++ [l], fun b' vb' hb => ?_⟩
    rw [List.append_assoc, List.append_assoc]
    exact h _ _ (.line hl hb)
  | @block ls l c n ms e _ hl hm he ih =>
    obtain ⟨vs, h⟩ := ih
    refine ⟨vs ++ [e], fun b' vb' hb => ?_⟩
    rw [List.append_assoc, List.append_assoc, List.append_assoc]
    exact h _ _ (.block hl hm he hb)

/-! ### The loop -/

/-- The flag for the last line. -/
theorem tocLoop_append (E : Env) (o : Options) (fn : Str) (bad : Bool) (a : List Str) {b : List Str} (hb : b ≠ []) (st : TocState) :
    tocLoop E o fn bad (a ++ b) st = tocRun E o a st >>= tocLoop E o fn bad b := by
  induction a generalizing st with
  | nil => rfl
  | cons l a ih =>
    have h : a ++ b ≠ [] := by simp [hb]
    rw [List.cons_append, tocLoop, if_neg (by simp [h])]
    have : (a ++ b).isEmpty = false := by simpa using fun _ => hb
    rw [this, Bool.and_false, tocRun]
    simp only [bind, Except.bind]
    cases tocStep E o st l false with
    | error e => rfl
    | ok st => exact ih st

theorem tocLoop_stdin (E : Env) (o : Options) (ls : List Str) (st : TocState) :
    tocLoop E o stdinName false ls st = (tocRun E o ls st).map (fun st => st.toc.flatten) := by
  induction ls generalizing st with
  | nil => rfl
  | cons l ls ih =>
    rw [tocLoop, if_neg (by simp), tocRun]
    simp only [bind, Except.bind, ne_eq, not_true_eq_false, decide_false, Bool.false_and]
    cases tocStep E o st l false with
    | error e => rfl
    | ok st => exact ih st

/-- If the document ends outside of a code block, the flag for the last line does not matter. -/
theorem tocLoop_outside {E : Env} {o : Options} (hp : o.parser.cmarkLike = true) (fn : Str) {ls : List Str} (ho : Outside o.parser ls)
    {st : TocState} (hw : st.within = false) :
    tocLoop E o fn false ls st = (tocRun E o ls st).map (fun st => st.toc.flatten) := by
  cases ho with
  | nil => rfl
  | @line ls l ho hl =>
    rw [tocLoop_append _ _ _ _ _ (by simp), tocRun_append]
    have hwi : ∀ st', tocRun E o ls st = .ok st' → st'.within = false := by
      intro st' h
      exact tocRun_outside_within hp ho hw h
    cases hr : tocRun E o ls st with
    | error e => rfl
    | ok st' =>
      have hw' := hwi st' hr
      simp only [bind, Except.bind, tocLoop, tocRun]
      rw [if_neg (by simp), tocStep_line _ hw' ((isOpening_none_iff hp l).mpr hl), tocStep_line _ hw' ((isOpening_none_iff hp l).mpr hl)]
      cases hdrStep E o st' l <;> rfl
  | @block ls l c n ms e ho hl hm he =>
    obtain ⟨hc, hn⟩ := opensWith_props hl
    rw [tocLoop_append _ _ _ _ (ls ++ l :: ms) (by simp), tocRun_append E o (ls ++ l :: ms)]
    have hwi : ∀ st', tocRun E o (ls ++ l :: ms) st = .ok st' → st'.within = true ∧ st'.fence = some (List.replicate n c) := by
      intro st' h
      rw [tocRun_append] at h
      cases hr : tocRun E o ls st with
      | error e => rw [hr] at h; simp [bind, Except.bind] at h
      | ok st1 =>
        rw [hr] at h
        have hw' := tocRun_outside_within hp ho hw hr
        simp only [bind, Except.bind] at h
        rw [tocRun, tocStep_open false hw' ((isOpening_iff hp l _).mpr ⟨c, n, hl, rfl⟩)] at h
        simp only [bind, Except.bind] at h
        rw [tocRun_inside rfl rfl (fun m h => notClosing hp hc hn (hm m h))] at h
        injection h with h
        subst h
        exact ⟨rfl, rfl⟩
    cases hr : tocRun E o (ls ++ l :: ms) st with
    | error e => rfl
    | ok st' =>
      obtain ⟨h1, h2⟩ := hwi st' hr
      simp only [bind, Except.bind, tocLoop, tocRun]
      rw [if_neg (by simp), tocStep_close h1 h2 (closing_of_closes hp hc hn he _), tocStep_close h1 h2 (closing_of_closes hp hc hn he _)]
      cases hdrStep E o st' e <;> rfl
where
  tocRun_outside_within {E : Env} {o : Options} (hp : o.parser.cmarkLike = true) {ls : List Str} (ho : Outside o.parser ls)
      {st st' : TocState} (hw : st.within = false) (h : tocRun E o ls st = .ok st') : st'.within = false := by
    induction ho generalizing st' with
    | nil => injection h with h; subst h; exact hw
    | @line ls l _ hl ih =>
      rw [tocRun_append] at h
      cases hr : tocRun E o ls st with
      | error e => rw [hr] at h; simp [bind, Except.bind] at h
      | ok st1 =>
        rw [hr] at h
        have hw1 := ih hr
        simp only [bind, Except.bind, tocRun] at h
        rw [tocStep_line _ hw1 ((isOpening_none_iff hp l).mpr hl)] at h
        cases hh : hdrStep E o st1 l with
        | error e => rw [hh] at h; simp [Except.map] at h
        | ok st2 => rw [hh] at h; simp [Except.map] at h; subst h; rfl
    | @block ls l c n ms e _ hl hm he ih =>
      obtain ⟨hc, hn⟩ := opensWith_props hl
      rw [List.append_assoc, tocRun_append] at h
      cases hr : tocRun E o ls st with
      | error e => rw [hr] at h; simp [bind, Except.bind] at h
      | ok st1 =>
        rw [hr] at h
        have hw1 := ih hr
        simp only [bind, Except.bind] at h
        rw [List.cons_append, tocRun, tocStep_open false hw1 ((isOpening_iff hp l _).mpr ⟨c, n, hl, rfl⟩)] at h
        simp only [bind, Except.bind] at h
        rw [tocRun_append, tocRun_inside rfl rfl (fun m h => notClosing hp hc hn (hm m h))] at h
        simp only [bind, Except.bind, tocRun] at h
        rw [tocStep_close rfl rfl (closing_of_closes hp hc hn he _)] at h
        cases hh : hdrStep E o { st1 with within := true, fence := some (List.replicate n c) } e with
        | error e => rw [hh] at h; simp [Except.map] at h
        | ok st2 => rw [hh] at h; simp [Except.map] at h; subst h; rfl

end MdToc
