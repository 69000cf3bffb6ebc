import Verif.Spec.Toc
import Verif.Props.Fences

/-!
# The table of contents
-/

set_option linter.unusedSimpArgs false

namespace MdToc

open MdToc.Spec

/-! ### The lines looked at -/

theorem tocLoop_seen {E : Env} {o : Options} (hp : o.parser.cmarkLike = true) {fn : Str} {file : Bool} (hf : file = decide (fn ≠ stdinName))
    {ls vs : List Str} (h : Seen o.parser file ls vs) :
    ∀ st : TocState, st.within = false → tocLoop E o fn false ls st = (hdrRun E o vs st.norm).map TocState.out := by
  induction h with
  | nil => intro st _; rfl
  | @line l ls vs hl _ ih =>
    intro st hw
    rw [tocLoop, if_neg (by simp), tocStep_line _ hw ((isOpening_none_iff hp l).mpr hl), hdrRun, hdrStep_norm]
    cases hdrStep E o st l with
    | error e => rfl
    | ok st' => exact ih st'.norm rfl
  | @block l c n ms e ls vs ho hm he _ ih =>
    intro st hw
    obtain ⟨hc, hn⟩ := opensWith_props ho
    rw [tocLoop_append _ _ _ _ _ (by simp), tocRun, tocStep_open false hw ((isOpening_iff hp l _).mpr ⟨c, n, ho, rfl⟩)]
    simp only [bind, Except.bind]
    rw [tocRun_inside rfl rfl (fun m h => notClosing hp hc hn (hm m h))]
    simp only
    rw [tocLoop, if_neg (by simp), tocStep_close rfl rfl (closing_of_closes hp hc hn he _), hdrRun, hdrStep_norm, hdrStep_set]
    cases hdrStep E o st e with
    | error e => rfl
    | ok st' => exact ih { st' with within := false, fence := some (List.replicate n c) } rfl
  | @unclosed l c n ms ho hm hlast =>
    intro st hw
    obtain ⟨hc, hn⟩ := opensWith_props ho
    rcases List.eq_nil_or_concat ms with rfl | ⟨ms0, m, rfl⟩
    · rw [tocLoop, if_neg (by simp), tocStep_open _ hw ((isOpening_iff hp l _).mpr ⟨c, n, ho, rfl⟩)]
      rfl
    · have hrw : l :: ms0.concat m = (l :: ms0) ++ [m] := by simp
      have hm' : ∀ x ∈ ms0 ++ [m], ¬ ClosesWith o.parser x c n := by simpa using hm
      rw [hrw, tocLoop_append _ _ _ _ _ (by simp), tocRun, tocStep_open false hw ((isOpening_iff hp l _).mpr ⟨c, n, ho, rfl⟩)]
      simp only [bind, Except.bind]
      rw [tocRun_inside rfl rfl (fun x hx => notClosing hp hc hn (hm' x (by simp [hx])))]
      simp only
      have hcl : isClosingCodeFence m (List.replicate n c) (decide (fn ≠ stdinName) && ([] : List Str).isEmpty) o.parser = false := by
        rw [List.isEmpty_nil, Bool.and_true, ← hf]
        cases file with
        | false => exact notClosing hp hc hn (hm' m (by simp))
        | true =>
          rw [Bool.eq_false_iff]
          intro h
          exact hlast rfl m (by simp) ((isClosing_docEnd hp m hc hn).mp h)
      rw [tocLoop, if_neg (by simp), tocStep_inside rfl rfl hcl]
      rfl
  | @lastLine l c n ms m ho hm hm' hfile hi =>
    intro st hw
    obtain ⟨hc, hn⟩ := opensWith_props ho
    rw [tocLoop_append _ _ _ _ _ (by simp), tocRun, tocStep_open false hw ((isOpening_iff hp l _).mpr ⟨c, n, ho, rfl⟩)]
    simp only [bind, Except.bind]
    rw [tocRun_inside rfl rfl (fun x hx => notClosing hp hc hn (hm x hx))]
    simp only
    have hcl : isClosingCodeFence m (List.replicate n c) (decide (fn ≠ stdinName) && ([] : List Str).isEmpty) o.parser = true := by
      rw [List.isEmpty_nil, Bool.and_true, ← hf, hfile]
      exact (isClosing_docEnd hp m hc hn).mpr hi
    rw [tocLoop, if_neg (by simp), tocStep_close rfl rfl hcl, hdrRun, hdrStep_norm, hdrStep_set]
    cases hdrStep E o st m <;> rfl

theorem seen_exists (p : Parser) (file : Bool) : ∀ ls : List Str, ∃ vs, Seen p file ls vs := by
  intro ls
  obtain ⟨vs, h⟩ := visible_exists p ls
  induction h with
  | nil => exact ⟨_, .nil⟩
  | line hl _ ih => obtain ⟨vs, h⟩ := ih; exact ⟨_, .line hl h⟩
  | block ho hm he _ ih => obtain ⟨vs, h⟩ := ih; exact ⟨_, .block ho hm he h⟩
  | @unclosed l c n ms ho hm =>
    cases file with
    | false => exact ⟨_, .unclosed ho hm (by simp)⟩
    | true =>
      rcases List.eq_nil_or_concat ms with rfl | ⟨ms0, m, rfl⟩
      · exact ⟨_, .unclosed ho hm (by simp)⟩
      · have hm' : ∀ x ∈ ms0 ++ [m], ¬ ClosesWith p x c n := by simpa using hm
        by_cases hi : SmallIndent m
        · refine ⟨[m], ?_⟩
          have : l :: ms0.concat m = l :: ms0 ++ [m] := by simp
          rw [this]
          exact .lastLine ho (fun x hx => hm' x (by simp [hx])) (hm' m (by simp)) rfl hi
        · exact ⟨_, .unclosed ho hm (by simpa using hi)⟩

theorem cmarkLike_of_ne {p : Parser} (h : p ≠ .redcarpet) : p.cmarkLike = true := by
  cases p <;> first | rfl | exact absurd rfl h

theorem buildToc_seen {E : Env} {o : Options} (hs : o.skipLines ≥ 0) {fn text : Str} {ls vs : List Str} (h : Reads text ls)
    (hv : SeenLines o.parser (decide (fn ≠ stdinName)) (ls.drop o.skipLines.toNat) vs) :
    buildToc E o fn (some ⟨text, false⟩) = (hdrRun E o vs (TocState.init o.effMarker)).map TocState.out := by
  rw [buildToc_lines E hs fn h]
  unfold SeenLines at hv
  split at hv
  · rename_i hp
    rw [hv, tocLoop_redcarpet (by rw [hp]; rfl) _ _ _ rfl, norm_init]
  · rename_i hp
    rw [tocLoop_seen (cmarkLike_of_ne hp) rfl hv _ rfl, norm_init]

theorem seenLines_exists (p : Parser) (file : Bool) (ls : List Str) : ∃ vs, SeenLines p file ls vs := by
  unfold SeenLines
  split
  · exact ⟨ls, rfl⟩
  · exact seen_exists _ _ _

/-! ### The headings -/

/-- The visible headings of the lines, from `get_md_header` with one counter. -/
def listedHeaders (E : Env) (o : Options) : Dup → List Str → Except Exn (List Header)
  | _, [] => .ok []
  | d, l :: ls =>
    match getMdHeader E l d o.keep o.parser o.noLinks with
    | .error e => .error e
    | .ok (hs, d') =>
      match listedHeaders E o d' ls with
      | .error e => .error e
      | .ok r => .ok ((hs.take 1).filterMap (fun h => h.filter (·.visible)) ++ r)

/-- `add_header` for several headings. -/
def addRun (o : Options) : List Header → TocState → Except Exn TocState
  | [], st => .ok st
  | h :: hs, st => addHeader o st h >>= addRun o hs

theorem addHeader_dup (o : Options) (st : TocState) (h : Header) (d : Dup) :
    addHeader o { st with dup := d } h = (addHeader o st h).map (fun st => { st with dup := d }) := by
  unfold addHeader
  obtain ⟨e1, e2, e3⟩ := incoherent_congr (o := o) (st := { st with dup := d }) (st' := st) rfl rfl h.headerType
  simp only [bind, Except.bind, Except.map, e1, e2, e3]
  repeat' (split <;> try rfl)

theorem addRun_dup (o : Options) (hs : List Header) (st : TocState) (d : Dup) :
    addRun o hs { st with dup := d } = (addRun o hs st).map (fun st => { st with dup := d }) := by
  induction hs generalizing st with
  | nil => rfl
  | cons h hs ih =>
    simp only [addRun, addHeader_dup, bind, Except.bind]
    cases addHeader o st h with
    | error e => rfl
    | ok st' => exact ih st'

theorem addRun_append (o : Options) (a b : List Header) (st : TocState) :
    addRun o (a ++ b) st = addRun o a st >>= addRun o b := by
  induction a generalizing st with
  | nil => rfl
  | cons l a ih =>
    simp only [List.cons_append, addRun, bind, Except.bind]
    cases addHeader o st l with
    | error e => rfl
    | ok st => exact ih st

/-- A step for one line is a step for its visible heading, if there is one. -/
theorem hdrStep_eq (E : Env) (o : Options) (st : TocState) (l : Str) :
    hdrStep E o st l =
      match getMdHeader E l st.dup o.keep o.parser o.noLinks with
      | .error e => .error e
      | .ok (hs, d) => addRun o ((hs.take 1).filterMap (fun h => h.filter (·.visible))) { st with dup := d } := by
  unfold hdrStep
  simp only [bind, Except.bind]
  cases getMdHeader E l st.dup o.keep o.parser o.noLinks with
  | error e => rfl
  | ok r =>
    obtain ⟨hs, d⟩ := r
    match hs with
    | [] => rfl
    | none :: _ => rfl
    | some h :: _ =>
      simp only [List.take_succ_cons, List.take_zero, List.filterMap_cons, List.filterMap_nil]
      cases hv : h.visible
      · simp [Option.filter, hv, addRun]
      · simp only [Option.filter, hv, if_true, addRun, bind, Except.bind]
        cases addHeader o { st with dup := d } h <;> rfl

theorem addHeader_keeps_dup {o : Options} {st st' : TocState} {h : Header} (e : addHeader o st h = .ok st') : st'.dup = st.dup := by
  have h1 := addHeader_dup o st h st.dup
  have h2 : { st with dup := st.dup } = st := rfl
  rw [h2, e] at h1
  simp only [Except.map] at h1
  injection h1 with h1
  rw [h1]

theorem addRun_keeps_dup {o : Options} {hs : List Header} {st st' : TocState} (e : addRun o hs st = .ok st') : st'.dup = st.dup := by
  have h1 := addRun_dup o hs st st.dup
  have h2 : { st with dup := st.dup } = st := rfl
  rw [h2, e] at h1
  simp only [Except.map] at h1
  injection h1 with h1
  rw [h1]

/-- When the run succeeds. -/
theorem hdrRun_ok {E : Env} {o : Options} {vs : List Str} {st st' : TocState} (h : hdrRun E o vs st = .ok st') :
    ∃ hs, listedHeaders E o st.dup vs = .ok hs ∧ ∃ st'', addRun o hs st = .ok st'' ∧ ∃ d, st' = { st'' with dup := d } := by
  induction vs generalizing st with
  | nil => injection h with h; subst h; exact ⟨[], rfl, st, rfl, st.dup, rfl⟩
  | cons l vs ih =>
    rw [hdrRun, hdrStep_eq] at h
    simp only [listedHeaders]
    cases hg : getMdHeader E l st.dup o.keep o.parser o.noLinks with
    | error e => rw [hg] at h; simp [bind, Except.bind] at h
    | ok r =>
      obtain ⟨hs, d⟩ := r
      rw [hg] at h
      simp only [bind, Except.bind] at h
      generalize hA : (hs.take 1).filterMap (fun h => h.filter (·.visible)) = a at h
      cases ha : addRun o a { st with dup := d } with
      | error e => rw [ha] at h; simp at h
      | ok st1 =>
        rw [ha] at h
        simp only at h
        obtain ⟨r, h1, st2, h2, d2, h3⟩ := ih h
        have hd := addRun_keeps_dup ha
        simp only at hd
        rw [hd] at h1
        simp only [h1]
        refine ⟨a ++ r, by rw [hA], ?_⟩
        rw [addRun_append]
        rw [addRun_dup] at ha
        cases ha' : addRun o a st with
        | error e => rw [ha'] at ha; simp [Except.map] at ha
        | ok st1' =>
          rw [ha'] at ha
          simp only [Except.map] at ha
          injection ha with ha
          rw [← ha, addRun_dup] at h2
          simp only [bind, Except.bind]
          cases hr : addRun o r st1' with
          | error e => rw [hr] at h2; simp [Except.map] at h2
          | ok st3 =>
            rw [hr] at h2
            simp only [Except.map] at h2
            injection h2 with h2
            exact ⟨st3, rfl, d2, by rw [h3, ← h2]⟩

/-- The converse. -/
theorem hdrRun_of_ok {E : Env} {o : Options} {vs : List Str} {st st'' : TocState} {hs : List Header}
    (h1 : listedHeaders E o st.dup vs = .ok hs) (h2 : addRun o hs st = .ok st'') :
    ∃ st', hdrRun E o vs st = .ok st' ∧ ∃ d, st' = { st'' with dup := d } := by
  induction vs generalizing st st'' hs with
  | nil =>
    simp [listedHeaders] at h1
    subst h1
    injection h2 with h2
    subst h2
    exact ⟨st, rfl, st.dup, rfl⟩
  | cons l vs ih =>
    rw [hdrRun, hdrStep_eq]
    simp only [listedHeaders] at h1
    cases hg : getMdHeader E l st.dup o.keep o.parser o.noLinks with
    | error e => rw [hg] at h1; simp at h1
    | ok r =>
      obtain ⟨hs0, d⟩ := r
      rw [hg] at h1
      simp only [bind, Except.bind] at h1 ⊢
      generalize (hs0.take 1).filterMap (fun h => h.filter (·.visible)) = a at h1 ⊢
      cases hr : listedHeaders E o d vs with
      | error e => rw [hr] at h1; simp at h1
      | ok r =>
        rw [hr] at h1
        simp only at h1
        injection h1 with h1
        subst h1
        rw [addRun_append] at h2
        rw [addRun_dup]
        cases ha : addRun o a st with
        | error e => rw [ha] at h2; simp [bind, Except.bind] at h2
        | ok st1 =>
          rw [ha] at h2
          simp only [bind, Except.bind] at h2
          simp only [Except.map]
          exact ih (st := { st1 with dup := d }) (hs := r) (st'' := { st'' with dup := d }) hr (by rw [addRun_dup, h2]; rfl)

/-- When the run fails: at a line, after lines for which it succeeds. -/
theorem hdrRun_error {E : Env} {o : Options} {vs : List Str} {st : TocState} {e : Exn} (h : hdrRun E o vs st = .error e) :
    ∃ pre l post st1, vs = pre ++ l :: post ∧ hdrRun E o pre st = .ok st1 ∧
      (getMdHeader E l st1.dup o.keep o.parser o.noLinks = .error e ∨
        ∃ hd hs d, getMdHeader E l st1.dup o.keep o.parser o.noLinks = .ok (some hd :: hs, d) ∧ hd.visible = true ∧ addHeader o st1 hd = .error e) := by
  induction vs generalizing st with
  | nil => simp [hdrRun] at h
  | cons l vs ih =>
    rw [hdrRun] at h
    cases hs : hdrStep E o st l with
    | ok st1 =>
      rw [hs] at h
      obtain ⟨pre, l', post, st2, rfl, h2, h3⟩ := ih h
      refine ⟨l :: pre, l', post, st2, rfl, ?_, h3⟩
      rw [hdrRun, hs]; exact h2
    | error e' =>
      rw [hs] at h
      simp only [bind, Except.bind] at h
      injection h with h
      subst h
      refine ⟨[], l, vs, st, rfl, rfl, ?_⟩
      unfold hdrStep at hs
      simp only [bind, Except.bind] at hs
      cases hg : getMdHeader E l st.dup o.keep o.parser o.noLinks with
      | error e => rw [hg] at hs; simp only at hs; injection hs with hs; subst hs; exact .inl rfl
      | ok r =>
        obtain ⟨hs0, d⟩ := r
        rw [hg] at hs
        simp only at hs
        match hs0, hs with
        | [], hs => simp at hs
        | none :: _, hs => simp at hs
        | some hd :: t, hs =>
          simp only at hs
          split at hs
          · rename_i hv
            rw [addHeader_dup] at hs
            cases ha : addHeader o st hd with
            | ok st2 => rw [ha] at hs; simp [Except.map] at hs
            | error e =>
              rw [ha] at hs
              simp only [Except.map] at hs
              injection hs with hs
              subst hs
              exact .inr ⟨hd, t, d, rfl, hv, ha⟩
          · simp at hs

end MdToc
