import Verif.Props.Insert
import Verif.Props.Layout

/-!
# C95: all headings one level down
-/

set_option linter.unusedSimpArgs false

namespace MdToc.Props

open MdToc.Spec

/-- The states of `build_toc` for two documents, where the headings of the second one are `k` levels below those of the first. -/
structure Shifted (k : Nat) (st st' : TocState) : Prop where
  counter : ∀ i, 1 ≤ i → st'.counter (i + k) = st.counter i
  prev : st'.prev = if st.prev = 0 then 0 else st.prev + k
  first : st'.first = if st.first = 0 then 0 else st.first + k
  bound : st.prev ≠ 0 → st.prev + k ≤ 6
  dup : st'.dup = st.dup
  toc : st'.toc = st.toc
  log : ∀ i, 1 ≤ i → i + k ≤ 6 → st'.log (i + k) = st.log i

/-- The two runs go on, or end with the same exception. -/
def SameRun (k : Nat) : Except Exn TocState → Except Exn TocState → Prop
  | .ok a, .ok b => Shifted k a b
  | .error e, .error e' => e = e'
  | _, _ => False

theorem shifted_init (k : Nat) (m : Str) : Shifted k (TocState.init m) (TocState.init m) :=
  ⟨fun _ _ => rfl, rfl, rfl, fun h => absurd rfl h, rfl, rfl, fun _ _ _ => rfl⟩

theorem increase_shift {k : Nat} {st st' : TocState} (h : Shifted k st st') {c : Nat} (hc : 1 ≤ c) (p : Parser) :
    (∃ e, increaseIndex st.counter st.prev c p = .error e ∧ increaseIndex st'.counter st'.prev (c + k) p = .error e) ∨
    ∃ a b, increaseIndex st.counter st.prev c p = .ok a ∧ increaseIndex st'.counter st'.prev (c + k) p = .ok b ∧ ∀ i, 1 ≤ i → b (i + k) = a i := by
  have e1 : st'.counter (c + k) = st.counter c := h.counter c hc
  have e2 : ((if st'.prev = 0 then c + k else st'.prev) < c + k) ↔ ((if st.prev = 0 then c else st.prev) < c) := by
    rw [h.prev]
    by_cases h0 : st.prev = 0
    · simp [h0]
    · rw [if_neg h0, if_neg (by omega), if_neg h0]
      omega
  unfold increaseIndex
  rw [if_neg (by omega : ¬ ¬ c ≥ 1), if_neg (by omega : ¬ ¬ c + k ≥ 1), e1]
  dsimp only
  simp only [e2]
  generalize (if (st.counter c).isNone = true ∨ (if st.prev = 0 then c else st.prev) < c then 0 else (st.counter c).getD 0) + 1 = n
  by_cases hlim : p.limited = true ∧ n > maxMarkerNumber
  · rw [if_pos hlim, if_pos hlim]
    exact .inl ⟨_, rfl, rfl⟩
  · rw [if_neg hlim, if_neg hlim]
    refine .inr ⟨_, _, rfl, rfl, ?_⟩
    intro i hi
    by_cases hic : i = c
    · simp [hic]
    · rw [if_neg (by omega), if_neg hic]
      exact h.counter i hi

theorem incoherent_shift {k : Nat} {st st' : TocState} (h : Shifted k st st') (o : Options) (K : Int) (c : Nat) (hc : 1 ≤ c) :
    incoherent { o with keep := K } st' (c + k) = incoherent o st c ∧ (prevFor { o with keep := K } st' (c + k) = if prevFor o st c = 0 then 0 else prevFor o st c + k) ∧
      (firstFor { o with keep := K } st' (c + k) = if firstFor o st c = 0 then 0 else firstFor o st c + k) := by
  have e1 : prevFor { o with keep := K } st' (c + k) = if prevFor o st c = 0 then 0 else prevFor o st c + k := by
    unfold prevFor
    rw [h.prev]
    by_cases h0 : st.prev = 0
    · cases o.noListCoherence <;> simp [h0] <;> omega
    · have : st.prev + k ≠ 0 := by omega
      simp [h0, this]
  have e2 : firstFor { o with keep := K } st' (c + k) = if firstFor o st c = 0 then 0 else firstFor o st c + k := by
    unfold firstFor
    rw [h.first]
    by_cases h0 : st.first = 0
    · cases o.noListCoherence <;> simp [h0] <;> omega
    · have : st.first + k ≠ 0 := by omega
      simp [h0, this]
  refine ⟨?_, e1, e2⟩
  unfold incoherent
  rw [e1, e2]
  cases hco : o.noListCoherence with
  | true => rfl
  | false =>
    have n1 : prevFor o st c ≠ 0 := by unfold prevFor; rw [hco]; by_cases h0 : st.prev = 0 <;> simp [h0]; omega
    have n2 : firstFor o st c ≠ 0 := by unfold firstFor; rw [hco]; by_cases h0 : st.first = 0 <;> simp [h0]; omega
    rw [if_neg n1, if_neg n2]
    congr 1
    congr 1
    · exact decide_eq_decide.mpr (by omega)
    · exact decide_eq_decide.mpr (by omega)

theorem final_shift {k : Nat} {L L' : Log} (h : ∀ i, 1 ≤ i → i + k ≤ 6 → L' (i + k) = L i) {c : Nat} (hc : 1 ≤ c) (hc6 : c + k ≤ 6) (ordered : Bool) (index : Nat) (m : Str) :
    ∀ i, 1 ≤ i → i + k ≤ 6 →
      Log.set (if ordered = true then L'.set (c + k) { L' (c + k) with index := index } else L') (c + k)
        { (if ordered = true then L'.set (c + k) { L' (c + k) with index := index } else L') (c + k) with marker := m } (i + k) =
      Log.set (if ordered = true then L.set c { L c with index := index } else L) c { (if ordered = true then L.set c { L c with index := index } else L) c with marker := m } i := by
  intro i hi hi6
  by_cases hic : i = c
  · subst hic
    cases ordered <;> simp [Log.set, h i hi hi6]
  · have : i + k ≠ c + k := by omega
    cases ordered <;> simp [Log.set, hic, this, h i hi hi6]

theorem indent_shift {k : Nat} {log log' : Log} (h : ∀ i, 1 ≤ i → i + k ≤ 6 → log' (i + k) = log i) {c q q' : Nat} (hc : 1 ≤ c) (hc6 : c + k ≤ 6) (hq : q' = if q = 0 then 0 else q + k)
    (hq6 : q ≠ 0 → q + k ≤ 6) {p : Parser} (hp : p.cmarkLike = true) (ordered : Bool) (m : Str) (index : Nat) :
    (∃ e, computeIndent c q p ordered m log index = .error e ∧ computeIndent (c + k) q' p ordered m log' index = .error e) ∨
    ∃ a b, computeIndent c q p ordered m log index = .ok a ∧ computeIndent (c + k) q' p ordered m log' index = .ok b ∧ ∀ i, 1 ≤ i → i + k ≤ 6 → b (i + k) = a i := by
  have in1 : inLog c = true := by unfold inLog maxLevels; simp; omega
  have in2 : inLog (c + k) = true := by unfold inLog maxLevels; simp; omega
  unfold computeIndent
  rw [if_neg (by omega : ¬ ¬ c ≥ 1), if_neg (by omega : ¬ ¬ c + k ≥ 1)]
  by_cases hi : ¬ index ≥ 1
  · rw [if_pos hi, if_pos hi]
    exact .inl ⟨_, rfl, rfl⟩
  rw [if_neg hi, if_neg hi]
  cases hm : markerOk p ordered m with
  | false => exact .inl ⟨_, rfl, rfl⟩
  | true =>
    rw [in1, in2, hp]
    by_cases h0 : q = 0
    · subst h0
      rw [if_pos rfl] at hq
      subst hq
      refine .inr ⟨_, _, rfl, rfl, ?_⟩
      intro i hi hi6
      by_cases hic : i = c
      · subst hic
        cases ordered <;> simp [Log.set, h i hi hi6]
      · have : i + k ≠ c + k := by omega
        cases ordered <;> simp [Log.set, hic, this, h i hi hi6]
    · rw [if_neg h0] at hq
      subst hq
      have hq1 : 1 ≤ q := by omega
      have in3 : inLog q = true := by have := hq6 h0; unfold inLog maxLevels; simp; omega
      have in4 : inLog (q + k) = true := by have := hq6 h0; unfold inLog maxLevels; simp; omega
      have hqk : q + k ≠ 0 := by omega
      have hlq := h q hq1 (hq6 h0)
      simp only [in3, in4, h0, hqk, hlq, ne_eq, not_false_eq_true, not_true_eq_false, Bool.not_true, Bool.false_eq_true, and_false, if_false, if_true, gt_iff_lt]
      refine .inr ⟨_, _, rfl, rfl, ?_⟩
      have key : ∀ i, 1 ≤ i → i + k ≤ 6 →
          (if q + k < c + k then log'.set (c + k) { log' (c + k) with spaces := (log q).spaces + (log q).marker.length + (if ordered = true then (natStr (log q).index).length else 0) + 1 }
            else if c + k < q + k then resetBelow log' (c + k) m else log') (i + k) =
          (if q < c then log.set c { log c with spaces := (log q).spaces + (log q).marker.length + (if ordered = true then (natStr (log q).index).length else 0) + 1 }
            else if c < q then resetBelow log c m else log) i := by
        intro i hi hi6
        by_cases h1 : q < c
        · rw [if_pos h1, if_pos (by omega)]
          by_cases hic : i = c
          · subst hic
            simp [Log.set, h i hi hi6]
          · have : i + k ≠ c + k := by omega
            simp [Log.set, hic, this, h i hi hi6]
        · rw [if_neg h1, if_neg (by omega)]
          by_cases h2 : c < q
          · rw [if_pos h2, if_pos (by omega)]
            unfold resetBelow maxLevels
            by_cases h3 : c < i
            · rw [if_pos (by omega), if_pos (by omega)]
            · rw [if_neg (by omega), if_neg (by omega), h i hi hi6]
          · rw [if_neg h2, if_neg (by omega), h i hi hi6]
      exact final_shift key hc hc6 ordered index m

theorem addHeader_shift {k : Nat} {st st' : TocState} (h : Shifted k st st') {o : Options} (hp : o.parser ≠ .redcarpet ∨ o.noIndentation = true) (K : Int) {x : Header} (h1 : 1 ≤ x.headerType)
    (h6 : x.headerType + k ≤ 6) : SameRun k (addHeader o st x) (addHeader { o with keep := K } st' { x with headerType := x.headerType + k }) := by
  unfold addHeader
  have eO : Options.effOrdered { o with keep := K } = o.effOrdered := rfl
  have eM : Options.effMarker { o with keep := K } = o.effMarker := rfl
  dsimp only
  rw [eO, eM]
  obtain ⟨i1, i2, i3⟩ := incoherent_shift h o K x.headerType h1
  have hline : ∀ index, buildTocLineNoIndent { x with headerType := x.headerType + k } o.effOrdered o.noLinks index o.parser o.effMarker =
      buildTocLineNoIndent x o.effOrdered o.noLinks index o.parser o.effMarker := by
    intro index
    unfold buildTocLineNoIndent
    dsimp only
    rw [if_neg (by omega : ¬ ¬ x.headerType + k ≥ 1), if_neg (by omega : ¬ ¬ x.headerType ≥ 1)]
  -- what follows the counter
  have tail : ∀ (a b : Counter) (index : Nat), (∀ i, 1 ≤ i → b (i + k) = a i) →
      SameRun k
        (do
          let (spaces, log, first) ← if o.noIndentation = true then .ok (0, st.log, st.first)
            else if incoherent o st x.headerType = true then .error .TocDoesNotRenderAsCoherentList
            else do
              let log ← computeIndent x.headerType (prevFor o st x.headerType) o.parser o.effOrdered o.effMarker st.log index
              .ok ((log x.headerType).spaces, log, firstFor o st x.headerType)
          let line ← buildTocLineNoIndent x o.effOrdered o.noLinks index o.parser o.effMarker
          .ok { st with counter := a, prev := x.headerType, first := first, log := log, toc := st.toc ++ [buildTocLine line spaces ++ o.newline] })
        (do
          let (spaces, log, first) ← if o.noIndentation = true then .ok (0, st'.log, st'.first)
            else if incoherent { o with keep := K } st' (x.headerType + k) = true then .error .TocDoesNotRenderAsCoherentList
            else do
              let log ← computeIndent (x.headerType + k) (prevFor { o with keep := K } st' (x.headerType + k)) o.parser o.effOrdered o.effMarker st'.log index
              .ok ((log (x.headerType + k)).spaces, log, firstFor { o with keep := K } st' (x.headerType + k))
          let line ← buildTocLineNoIndent { x with headerType := x.headerType + k } o.effOrdered o.noLinks index o.parser o.effMarker
          .ok { st' with counter := b, prev := x.headerType + k, first := first, log := log, toc := st'.toc ++ [buildTocLine line spaces ++ o.newline] }) := by
    intro a b index hab
    rw [hline]
    by_cases hni : o.noIndentation = true
    · rw [if_pos hni, if_pos hni]
      cases hb : buildTocLineNoIndent x o.effOrdered o.noLinks index o.parser o.effMarker with
      | error e => simp only [bind, Except.bind]; exact rfl
      | ok line =>
        simp only [bind, Except.bind]
        exact ⟨hab, by simp; omega, h.first, fun _ => h6, h.dup, by simp [h.toc], h.log⟩
    · rw [if_neg hni, if_neg hni]
      have hp' : o.parser.cmarkLike = true := cmarkLike_of_ne (hp.resolve_right hni)
      rw [i1]
      by_cases hin : incoherent o st x.headerType = true
      · rw [if_pos hin, if_pos hin]
        simp only [bind, Except.bind]; exact rfl
      · rw [if_neg hin, if_neg hin]
        have hq6 : prevFor o st x.headerType ≠ 0 → prevFor o st x.headerType + k ≤ 6 := by
          unfold prevFor
          split
          · intro _; exact h6
          · exact h.bound
        rcases indent_shift h.log h1 h6 i2 hq6 hp' o.effOrdered o.effMarker index with ⟨e, g1, g2⟩ | ⟨l, l', g1, g2, g3⟩
        · rw [g1, g2]
          simp only [bind, Except.bind]; exact rfl
        · rw [g1, g2]
          cases hb : buildTocLineNoIndent x o.effOrdered o.noLinks index o.parser o.effMarker with
          | error e => simp only [bind, Except.bind]; exact rfl
          | ok line =>
            simp only [bind, Except.bind]
            refine ⟨hab, by simp; omega, i3, fun _ => h6, h.dup, ?_, g3⟩
            simp [h.toc, g3 _ h1 h6]
  by_cases hc : (o.effOrdered && !o.constantOrdered) = true
  · rw [if_pos hc, if_pos hc]
    rcases increase_shift h h1 o.parser with ⟨e, g1, g2⟩ | ⟨a, b, g1, g2, g3⟩
    · rw [g1, g2]
      simp only [bind, Except.bind]; exact rfl
    · rw [g1, g2]
      have := tail a b ((a x.headerType).getD 0) g3
      simp only [bind, Except.bind, if_pos hc, g3 _ h1] at this ⊢
      exact this
  · rw [if_neg hc, if_neg hc]
    have := tail st.counter st'.counter 1 h.counter
    simp only [bind, Except.bind, if_neg hc] at this ⊢
    exact this

theorem headersOf_one (E : Env) (p : Parser) (n : Nat) (t : Str) (v : Bool) (dup : Dup) :
    headersOf E p [⟨some n, some t, v⟩] dup = (buildAnchorLink E t dup p).map (fun r => ([some ⟨n, t, r.1, v⟩], r.2)) := by
  simp only [headersOf, bind, Except.bind, Except.map]

theorem headStep_shift {E : Env} {k : Nat} {st st' : TocState} (h : Shifted k st st') {o : Options} (hp : o.parser ≠ .redcarpet ∨ o.noIndentation = true) {K : Int} {n : Nat} {t : Str} (h1 : 1 ≤ n)
    (h6 : n + k ≤ 6) (hK : (n : Int) ≤ o.keep ↔ ((n + k : Nat) : Int) ≤ K) : SameRun k (headStep E o st (n, t)) (headStep E { o with keep := K } st' (n + k, t)) := by
  have tail : ∀ (u : Str) (v : Bool), SameRun k
      (do
        let (hs, dup) ← headersOf E o.parser [⟨some n, some u, v⟩] st.dup
        let st := { st with dup := dup }
        match hs with
        | some h :: _ => if h.visible then addHeader o st h else .ok st
        | _ => .ok st)
      (do
        let (hs, dup) ← headersOf E o.parser [⟨some (n + k), some u, v⟩] st'.dup
        let st := { st' with dup := dup }
        match hs with
        | some h :: _ => if h.visible then addHeader { o with keep := K } st h else .ok st
        | _ => .ok st) := by
    intro u v
    rw [headersOf_one, headersOf_one, h.dup]
    cases hb : buildAnchorLink E u st.dup o.parser with
    | error e => simp only [bind, Except.bind, Except.map]; exact rfl
    | ok r =>
      have hsh : Shifted k { st with dup := r.2 } { st' with dup := r.2 } := ⟨h.counter, h.prev, h.first, h.bound, rfl, h.toc, h.log⟩
      simp only [bind, Except.bind, Except.map]
      cases v with
      | false => exact hsh
      | true => exact addHeader_shift hsh hp K (x := ⟨n, u, r.1, true⟩) h1 h6
  unfold headStep
  dsimp only
  by_cases hr : o.parser = .redcarpet
  · rw [if_pos hr, if_pos hr]
    exact tail t true
  · rw [if_neg hr, if_neg hr]
    have hv : (if ((n + k : Nat) : Int) > K then false else true) = (if (n : Int) > o.keep then false else true) := by
      by_cases hx : (n : Int) ≤ o.keep
      · rw [if_neg (by have := hK.mp hx; omega), if_neg (by omega)]
      · rw [if_pos (by have := (not_congr hK).mp hx; omega), if_pos (by omega)]
    rw [hv]
    cases hb : (if o.noLinks = true then Except.ok t else linkText t) with
    | error e => simp only [bind, Except.bind, Except.map]; exact rfl
    | ok u => exact tail u _

theorem headRun_shift {E : Env} {k : Nat} {o : Options} (hp : o.parser ≠ .redcarpet ∨ o.noIndentation = true) {K : Int} :
    ∀ {heads : List (Nat × Str)} {st st' : TocState}, (∀ x ∈ heads, 1 ≤ x.1 ∧ x.1 + k ≤ 6 ∧ ((x.1 : Int) ≤ o.keep ↔ ((x.1 + k : Nat) : Int) ≤ K)) → Shifted k st st' →
      SameRun k (headRun E o heads st) (headRun E { o with keep := K } (heads.map fun x => (x.1 + k, x.2)) st')
  | [], st, st', _, h => h
  | x :: heads, st, st', hx, h => by
    rw [List.map_cons, headRun, headRun]
    obtain ⟨a1, a2, a3⟩ := hx x (by simp)
    have hs := headStep_shift (E := E) (t := x.2) h hp a1 a2 a3
    cases ha : headStep E o st (x.1, x.2) with
    | error e =>
      cases hb : headStep E { o with keep := K } st' (x.1 + k, x.2) with
      | error e' =>
        rw [ha, hb] at hs
        have hs : e = e' := hs
        subst hs
        simp only [bind, Except.bind]; exact rfl
      | ok b => rw [ha, hb] at hs; exact hs.elim
    | ok a =>
      cases hb : headStep E { o with keep := K } st' (x.1 + k, x.2) with
      | error e' => rw [ha, hb] at hs; exact hs.elim
      | ok b =>
        rw [ha, hb] at hs
        simp only [bind, Except.bind]
        exact headRun_shift hp (fun y hy => hx y (by simp [hy])) hs

/-- **C95**: if the headings of a document are those of another one, each `k` levels below, and as many levels are listed more, the table, or the exception, is the same.  For redcarpet without indentation. -/
theorem C95_shift (E : Env) {o : Options} (hp : o.parser ≠ .redcarpet ∨ o.noIndentation = true) (hk : o.keep ≥ 1) {K : Int} (hK : K ≥ 1) {k : Nat} {fn fn' text text' : Str} {vs vs' : List Str}
    (hv : Looks o fn text vs) (hv' : Looks o fn' text' vs')
    (h : ∀ nl, ∃ heads, Headings o.parser nl vs heads ∧ Headings o.parser nl vs' (heads.map fun x => (x.1 + k, x.2)) ∧
      ∀ x ∈ heads, ((x.1 : Int) ≤ o.keep ↔ (x.1 : Int) + k ≤ K)) :
    buildToc E { o with keep := K } fn' (some ⟨text', false⟩) = buildToc E o fn (some ⟨text, false⟩) := by
  by_cases hs : o.skipLines ≥ 0
  · obtain ⟨heads, h1, h2, h3⟩ := h (ownLinks o)
    have hl := looks_isLine hv
    have hl' := looks_isLine hv'
    obtain ⟨ls, hr, hv⟩ := hv
    obtain ⟨ls', hr', hv'⟩ := hv'
    rw [buildToc_seen hs hr hv, buildToc_seen (o := { o with keep := K }) hs hr' hv', hdrRun_headings hk h1 hl, hdrRun_headings (o := { o with keep := K }) hK h2 hl']
    have := headRun_shift (E := E) (k := k) (K := K) hp (heads := heads) (fun x hx => ⟨(headings_bounds h1 x hx).1, ?_, ?_⟩) (shifted_init k o.effMarker)
    · cases ha : headRun E o heads (TocState.init o.effMarker) with
      | error e =>
        cases hb : headRun E { o with keep := K } (heads.map fun x => (x.1 + k, x.2)) (TocState.init o.effMarker) with
        | error e' =>
          rw [ha, hb] at this
          have this : e = e' := this
          subst this
          exact (congrArg (Except.map TocState.out) hb).trans rfl
        | ok b => rw [ha, hb] at this; exact this.elim
      | ok a =>
        cases hb : headRun E { o with keep := K } (heads.map fun x => (x.1 + k, x.2)) (TocState.init o.effMarker) with
        | error e' => rw [ha, hb] at this; exact this.elim
        | ok b =>
          rw [ha, hb] at this
          refine (congrArg (Except.map TocState.out) hb).trans ?_
          simp only [Except.map, TocState.out, this.toc]
    · exact (headings_bounds h2 (x.1 + k, x.2) (List.mem_map.mpr ⟨x, hx, rfl⟩)).2.1
    · have := h3 x hx
      push_cast
      exact this
  · rw [C30_negative E o (by omega), C30_negative E { o with keep := K } (by simpa using hs)]

/-! ### One more `#` -/

/-- A line that starts with `#` gets one more. -/
def raised (l : Str) : Str := if l.head? = some '#' then '#' :: l else l

theorem raised_pos {r : Str} : raised ('#' :: r) = '#' :: '#' :: r := rfl

theorem raised_neg {l : Str} (h : l.head? ≠ some '#') : raised l = l := if_neg h

theorem raised_opens {l : Str} {c : Char} {n : Nat} : OpensWith (raised l) c n ↔ OpensWith l c n := by
  by_cases h : l.head? = some '#'
  · have no : ∀ m : Str, m.head? = some '#' → ¬ OpensWith m c n := by
      rintro m hm ⟨k, rest, -, h3, hf, rfl, -, -⟩
      cases k with
      | zero =>
        cases n with
        | zero => omega
        | succ n =>
          simp [List.replicate_succ] at hm
          subst hm
          revert hf
          unfold IsFenceChar
          decide
      | succ k => simp [List.replicate_succ] at hm
    exact ⟨fun hx => absurd hx (no _ (by simp [raised, h])), fun hx => absurd hx (no _ h)⟩
  · rw [raised_neg h]

theorem raised_closes {p : Parser} {l : Str} {c : Char} {n : Nat} (hc : IsFenceChar c) (h3 : 3 ≤ n) : ClosesWith p (raised l) c n ↔ ClosesWith p l c n := by
  by_cases h : l.head? = some '#'
  · have no : ∀ m : Str, m.head? = some '#' → ¬ ClosesWith p m c n := by
      rintro m hm ⟨k, j, rest, -, h4, rfl, -⟩
      cases k with
      | zero =>
        cases j with
        | zero => omega
        | succ n =>
          simp [List.replicate_succ] at hm
          subst hm
          revert hc
          unfold IsFenceChar
          decide
      | succ k => simp [List.replicate_succ] at hm
    exact ⟨fun hx => absurd hx (no _ (by simp [raised, h])), fun hx => absurd hx (no _ h)⟩
  · rw [raised_neg h]

theorem raised_indent {l : Str} : SmallIndent (raised l) ↔ SmallIndent l := by
  by_cases h : l.head? = some '#'
  · exact ⟨fun _ => ⟨0, l, rfl, by omega, by rw [h]; simp⟩, fun _ => ⟨0, raised l, rfl, by omega, by simp [raised, h]⟩⟩
  · rw [raised_neg h]

theorem opens_info {l : Str} {c : Char} {n : Nat} (h : OpensWith l c n) : IsFenceChar c ∧ 3 ≤ n := by
  obtain ⟨_, _, -, h1, h2, -⟩ := h
  exact ⟨h2, h1⟩

theorem seen_raised {p : Parser} {file : Bool} {ls vs : List Str} (h : Seen p file ls vs) : Seen p file (ls.map raised) (vs.map raised) := by
  induction h with
  | nil => exact .nil
  | line h _ ih => exact .line (fun ⟨c, n, hx⟩ => h ⟨c, n, raised_opens.mp hx⟩) ih
  | @block l c n ms e ls vs h1 h2 h3 _ ih =>
    obtain ⟨hf, hn⟩ := opens_info h1
    rw [List.map_append, List.map_cons, List.map_cons, List.map_cons]
    refine .block (raised_opens.mpr h1) ?_ ((raised_closes hf hn).mpr h3) ih
    intro m hm
    obtain ⟨m', hm', rfl⟩ := List.mem_map.mp hm
    exact fun hx => h2 m' hm' ((raised_closes hf hn).mp hx)
  | @unclosed l c n ms h1 h2 h3 =>
    obtain ⟨hf, hn⟩ := opens_info h1
    refine .unclosed (raised_opens.mpr h1) ?_ ?_
    · intro m hm
      obtain ⟨m', hm', rfl⟩ := List.mem_map.mp hm
      exact fun hx => h2 m' hm' ((raised_closes hf hn).mp hx)
    · intro hfile m hm
      rw [List.getLast?_map] at hm
      obtain ⟨m', hm', rfl⟩ := Option.map_eq_some_iff.mp hm
      exact fun hx => h3 hfile m' hm' (raised_indent.mp hx)
  | @lastLine l c n ms m h1 h2 h3 h4 h5 =>
    obtain ⟨hf, hn⟩ := opens_info h1
    rw [List.map_append, List.map_cons]
    refine .lastLine (raised_opens.mpr h1) ?_ (fun hx => h3 ((raised_closes hf hn).mp hx)) h4 (raised_indent.mpr h5)
    intro m hm
    obtain ⟨m', hm', rfl⟩ := List.mem_map.mp hm
    exact fun hx => h2 m' hm' ((raised_closes hf hn).mp hx)

theorem body_hash {r body : Str} (h : Body ('#' :: r) body) : ∃ s, body = '#' :: s ∧ ∀ x : Str, (∀ c ∈ x, c = '#') → Body (x ++ r) (x ++ s) := by
  obtain ⟨a, b, e, h1, h2⟩ := h
  cases a with
  | cons c a =>
    rw [List.cons_append, List.cons_append] at e
    injection e with e1 _
    have := h1 c (by simp)
    subst e1
    exact absurd this (by decide)
  | nil =>
    cases body with
    | nil =>
      rw [List.nil_append, List.nil_append] at e
      have := h1 '#' (by simp [← e])
      exact absurd this (by decide)
    | cons d s =>
      rw [List.nil_append, List.cons_append] at e
      injection e with e1 e2
      subst e1
      refine ⟨s, rfl, ?_⟩
      intro x hx
      refine ⟨[], b, by simp [e2], h1, ?_⟩
      intro c hc
      rcases List.mem_append.mp hc with hc | hc
      · rw [hx c hc]; decide
      · exact h2 c (by simp [hc])

theorem atx_hash {p : Parser} {s : Str} {m : Nat} {rest : Str} (h : IsAtx p ('#' :: s) m rest) : '#' :: s = List.replicate m '#' ++ rest ∧ 1 ≤ m ∧ m ≤ 6 ∧ ∀ c ∈ rest.head?, atxSpace p c = true := by
  obtain ⟨k, -, h1, h6, e, h7⟩ := h
  cases k with
  | zero => exact ⟨by simpa using e, h1, h6, h7⟩
  | succ k => simp [List.replicate_succ] at e

theorem heading_raised {p : Parser} (hp : p ≠ .redcarpet) {nl : Bool} {r : Str} {m : Nat} {t : Str} :
    Heading p nl ('#' :: '#' :: r) m t ↔ ∃ n, m = n + 1 ∧ n ≤ 5 ∧ Heading p nl ('#' :: r) n t := by
  constructor
  · rintro ⟨body, rest, c, hb, hh⟩
    rw [if_neg hp] at hh
    obtain ⟨ha, ht⟩ := hh
    obtain ⟨s, rfl, hbx⟩ := body_hash hb
    obtain ⟨e, h1, h6, h7⟩ := atx_hash ha
    have hb2 := hbx [] (by simp)
    rw [List.nil_append, List.nil_append] at hb2
    obtain ⟨s', rfl, -⟩ := body_hash hb2
    obtain ⟨m, rfl⟩ : ∃ j, m = j + 1 := ⟨m - 1, by omega⟩
    rw [List.replicate_succ, List.cons_append, List.cons.injEq] at e
    have e := e.2
    cases m with
    | zero =>
      exfalso
      rw [List.replicate_zero, List.nil_append] at e
      have := h7 '#' (by rw [← e]; simp)
      rw [atxSpace_not.1] at this
      cases this
    | succ m =>
      refine ⟨m + 1, rfl, by omega, '#' :: s', rest, c, hb2, ?_⟩
      rw [if_neg hp]
      exact ⟨⟨0, by omega, by omega, by omega, by simpa using e, h7⟩, ht⟩
  · rintro ⟨n, rfl, h5, body, rest, c, hb, hh⟩
    rw [if_neg hp] at hh
    obtain ⟨ha, ht⟩ := hh
    obtain ⟨s, rfl, hbx⟩ := body_hash hb
    obtain ⟨e, h1, h6, h7⟩ := atx_hash ha
    refine ⟨'#' :: '#' :: s, rest, c, by simpa using hbx ['#', '#'] (by simp), ?_⟩
    rw [if_neg hp]
    exact ⟨⟨0, by omega, by omega, by omega, by rw [e]; simp [List.replicate_succ], h7⟩, ht⟩

theorem headings_raised {p : Parser} (hp : p ≠ .redcarpet) {nl : Bool} {vs : List Str} {heads : List (Nat × Str)} (h : Headings p nl vs heads) :
    (∀ l ∈ vs, ∀ n t, Heading p nl l n t → l.head? = some '#' ∧ n ≤ 5) → Headings p nl (vs.map raised) (heads.map fun x => (x.1 + 1, x.2)) := by
  induction h with
  | nil => intro _; exact .nil
  | @other l ls hs hn _ ih =>
    intro hx
    rw [List.map_cons]
    refine .other ?_ (ih fun l hl => hx l (by simp [hl]))
    rintro ⟨m, t, hm⟩
    by_cases hl : l.head? = some '#'
    · obtain ⟨r, rfl⟩ : ∃ r, l = '#' :: r := by
        cases l with
        | nil => simp at hl
        | cons a r => simp at hl; exact ⟨r, by rw [hl]⟩
      rw [raised_pos] at hm
      obtain ⟨n, -, -, h⟩ := (heading_raised hp).mp hm
      exact hn ⟨n, t, h⟩
    · rw [raised_neg hl] at hm
      exact hn ⟨m, t, hm⟩
  | @heading l n t ls hs hh _ ih =>
    intro hx
    rw [List.map_cons, List.map_cons]
    obtain ⟨hl, h5⟩ := hx l (by simp) n t hh
    obtain ⟨r, rfl⟩ : ∃ r, l = '#' :: r := by
      cases l with
      | nil => simp at hl
      | cons a r => simp at hl; exact ⟨r, by rw [hl]⟩
    exact .heading (raised_pos ▸ (heading_raised hp).mpr ⟨n, rfl, h5, hh⟩) (ih fun l hl => hx l (by simp [hl]))

/-- **C95**: if every line of a document that starts with `#` gets one more, and one more level is listed, the table, or the exception, is the same; headings must not be indented or have level 6. -/
theorem C95_raise (E : Env) {o : Options} (hp : o.parser ≠ .redcarpet) (hk : o.keep ≥ 1) {fn text text' : Str} {ls : List Str} (hr : Reads text ls) (hr' : Reads text' (ls.map raised))
    (h : ∀ l ∈ ls, ∀ n t, Heading o.parser true l n t → l.head? = some '#' ∧ n ≤ 5) :
    buildToc E { o with keep := o.keep + 1 } fn (some ⟨text', false⟩) = buildToc E o fn (some ⟨text, false⟩) := by
  obtain ⟨vs, hvs⟩ := seenLines_exists o.parser (decide (fn ≠ "-".toList)) (ls.drop o.skipLines.toNat)
  have hsub : ∀ l ∈ vs, l ∈ ls := by
    intro l hl
    have : ∀ {ls vs : List Str}, Seen o.parser (decide (fn ≠ "-".toList)) ls vs → ∀ l ∈ vs, l ∈ ls := by
      intro ls vs h
      induction h with
      | nil => simp
      | line _ _ ih => intro l hl; rcases List.mem_cons.mp hl with rfl | hl <;> simp_all
      | block _ _ _ _ ih => intro l hl; rcases List.mem_cons.mp hl with rfl | hl <;> simp_all
      | unclosed => simp
      | lastLine => intro l hl; simp at hl; simp [hl]
    unfold SeenLines at hvs
    rw [if_neg hp] at hvs
    exact List.mem_of_mem_drop (this hvs l hl)
  have hvs' : SeenLines o.parser (decide (fn ≠ "-".toList)) ((ls.map raised).drop o.skipLines.toNat) (vs.map raised) := by
    unfold SeenLines at hvs ⊢
    rw [if_neg hp] at hvs ⊢
    rw [← List.map_drop]
    exact seen_raised hvs
  refine C95_shift E (.inl hp) hk (K := o.keep + 1) (by omega) (k := 1) ⟨ls, hr, hvs⟩ ⟨_, hr', hvs'⟩ ?_
  intro nl
  obtain ⟨heads, hh⟩ := headings_exists o.parser nl vs
  refine ⟨heads, hh, headings_raised hp hh ?_, fun x _ => by omega⟩
  rintro l hl n t ⟨body, rest, c, hb, hx⟩
  rw [if_neg hp] at hx
  refine h l (hsub l hl) n c ⟨body, rest, c, hb, ?_⟩
  rw [if_neg hp]
  exact ⟨hx.1, hx.2.1, rfl⟩

theorem lastNumber_shift (k n : Nat) : ∀ L : List Nat, lastNumber (n + k) (L.map (· + k)) = lastNumber n L
  | [] => rfl
  | m :: L => by
    rw [List.map_cons, lastNumber, lastNumber, lastNumber_shift k n L, List.head?_map]
    by_cases h : m = n
    · subst h
      rw [if_pos rfl, if_pos rfl]
      cases hL : L.head? with
      | none => simp
      | some q => simp
    · rw [if_neg h, if_neg (by omega)]

theorem numberAfter_shift (k n : Nat) (L : List Nat) : numberAfter (L.map (· + k)) (n + k) = numberAfter L n := by
  unfold numberAfter
  rw [← List.map_reverse, lastNumber_shift, List.getLast?_map]
  cases L.getLast? <;> simp

/-- **C95** for redcarpet: the entries are the same, with indentation `4 k` columns to the right. -/
theorem C95_redcarpet {E : Env} {o : Options} (hp : o.parser = .redcarpet) {k : Nat} {fn fn' text text' out out' : Str} (h : buildToc E o fn (some ⟨text, false⟩) = .ok out)
    (h' : buildToc E o fn' (some ⟨text', false⟩) = .ok out') {vs vs' : List Str} (hv : Looks o fn text vs) (hv' : Looks o fn' text' vs') {heads : List (Nat × Str)}
    (hh : Headings o.parser o.noLinks vs heads) (hh' : Headings o.parser o.noLinks vs' (heads.map fun x => (x.1 + k, x.2))) :
    ∃ es, Table E o vs out es ∧ Table E o vs' out' (es.map fun e => { e with level := e.level + k, indent := if o.noIndentation then 0 else e.indent + 4 * k }) := by
  obtain ⟨_, es, _, hr, ht⟩ := buildToc_run h hv
  obtain ⟨_, es', _, hr', ht'⟩ := buildToc_run h' hv'
  refine ⟨es, ht, ?_⟩
  have hcm : o.parser.cmarkLike = false := by rw [hp]; rfl
  have key : ∀ {vs : List Str} {out : Str} {es : List Entry} {heads : List (Nat × Str)}, Table E o vs out es → Headings o.parser o.noLinks vs heads →
      es.map Entry.info = heads.map (fun x => (x.1, x.2, redcarpetSlug x.2)) := by
    intro vs out es heads ht hh
    obtain ⟨⟨heads', as, d, g1, g2, g3, g4⟩, -⟩ := ht
    have := headings_unique g1 hh
    subst this
    have ha := anchorRun_redcarpet (E := E) (ts := heads'.map Prod.snd) (fun t ht => by
      obtain ⟨x, hx, rfl⟩ := List.mem_map.mp ht
      exact noInterior (headings_bounds hh x hx).2.2) (fun _ => 0)
    rw [hp] at g2
    rw [g2] at ha
    injection ha with ha
    have has : as = _ := congrArg Prod.fst ha
    rw [has] at g4
    refine g4.trans ?_
    rw [List.filter_eq_self.mpr (fun x _ => by simp [listed, hp])]
    clear * -
    induction heads' with
    | nil => rfl
    | cons x t ih => simpa using ih
  have k1 := key ht hh
  have k2 := key ht' hh'
  have hpos : ∀ e ∈ es, 1 ≤ e.level := by
    intro e he
    have : e.info ∈ es.map Entry.info := List.mem_map_of_mem he
    rw [k1] at this
    obtain ⟨x, hx, hxe⟩ := List.mem_map.mp this
    have := (headings_bounds hh x hx).1
    have e1 : x.1 = e.level := congrArg Prod.fst hxe
    omega
  have hes : es' = es.map fun e => { e with level := e.level + k, indent := if o.noIndentation then 0 else e.indent + 4 * k } := by
    refine entries_ext (k2.trans ?_) (run_placed hr') ?_
    · have := congrArg (List.map fun x : Nat × Str × Str => (x.1 + k, x.2.1, x.2.2)) k1
      rw [List.map_map, List.map_map] at this
      rw [List.map_map, List.map_map]
      exact this.symm
    · intro a e b hab
      obtain ⟨a0, r, hes, rfl, hr0⟩ := List.map_eq_append_iff.mp hab
      obtain ⟨e0, b0, rfl, rfl, rfl⟩ := List.map_eq_cons_iff.mp hr0
      have hpl := run_placed hr a0 e0 b0 hes
      have h1 := hpos e0 (by rw [hes]; simp)
      rw [hcm] at hpl ⊢
      refine ⟨?_, ?_⟩
      · refine hpl.1.trans ?_
        unfold placeNumber
        split
        · rw [List.map_map]
          have := numberAfter_shift k e0.level (a0.map (·.level))
          rw [List.map_map] at this
          exact this.symm
        · rfl
      · have hi := hpl.2
        unfold placeIndent at hi ⊢
        cases hni : o.noIndentation with
        | true => simp
        | false =>
          rw [hni] at hi
          simp at hi ⊢
          omega
  rw [← hes]
  exact ht'

/-! ### The theorems apply -/

example : buildToc asciiEnv { ordered := true } "a.md".toList (some ⟨"# a\n## b\n#x\n```\n# y\n```\n# c #\n".toList, false⟩) = .ok "1. [a](#a)\n   1. [b](#b)\n2. [c](#c)\n".toList ∧
    buildToc asciiEnv { ordered := true, keep := 4 } "a.md".toList (some ⟨"## a\n### b\n##x\n```\n## y\n```\n## c #\n".toList, false⟩) = .ok "1. [a](#a)\n   1. [b](#b)\n2. [c](#c)\n".toList ∧
    buildToc asciiEnv { parser := .redcarpet } "a.md".toList (some ⟨"# a\n## b\n".toList, false⟩) = .ok "- [a](#a)\n    - [b](#b)\n".toList ∧
    buildToc asciiEnv { parser := .redcarpet } "a.md".toList (some ⟨"## a\n### b\n".toList, false⟩) = .ok "    - [a](#a)\n        - [b](#b)\n".toList := by
  decide +kernel

/-- The same exception. -/
example : buildToc asciiEnv {} "a.md".toList (some ⟨"# a\n### b\n".toList, false⟩) = .error .TocDoesNotRenderAsCoherentList ∧
    buildToc asciiEnv { keep := 4 } "a.md".toList (some ⟨"## a\n#### b\n".toList, false⟩) = .error .TocDoesNotRenderAsCoherentList := by
  decide +kernel

/-- The hypotheses of `C95_raise`. -/
example : Reads "# a\n#x\n```\n# y\n".toList ["# a\n".toList, "#x\n".toList, "```\n".toList, "# y\n".toList] ∧
    Reads "## a\n##x\n```\n## y\n".toList (["# a\n".toList, "#x\n".toList, "```\n".toList, "# y\n".toList].map raised) ∧
    ∀ l ∈ ["# a\n".toList, "#x\n".toList, "```\n".toList, "# y\n".toList], ∀ n t, Heading .github true l n t → l.head? = some '#' ∧ n ≤ 5 := by
  refine ⟨(reads_iff (bad := false)).mpr (by decide +kernel), (reads_iff (bad := false)).mpr (by decide +kernel), ?_⟩
  intro l hl n t h
  have hn : n ≤ l.count '#' := by
    obtain ⟨body, rest, c, ⟨a, b, rfl, -, -⟩, hh⟩ := h
    rw [if_neg (by decide)] at hh
    obtain ⟨⟨k, -, -, -, rfl, -⟩, -⟩ := hh
    simp only [List.count_append, List.count_replicate_self]
    omega
  have h1 : 1 ≤ n := by
    obtain ⟨body, rest, c, -, hh⟩ := h
    rw [if_neg (by decide)] at hh
    exact hh.1.choose_spec.2.1
  simp only [List.mem_cons, List.not_mem_nil, or_false] at hl
  rcases hl with rfl | rfl | rfl | rfl
  · exact ⟨rfl, Nat.le_trans hn (by decide)⟩
  · exact ⟨rfl, Nat.le_trans hn (by decide)⟩
  · exact absurd (Nat.le_trans h1 hn) (by decide)
  · exact ⟨rfl, Nat.le_trans hn (by decide)⟩

/-- An indented heading, and one of level 6, must be left out: the other headings go down without it, or it is lost. -/
theorem C95_needs :
    buildToc asciiEnv {} "a.md".toList (some ⟨"# a\n ## b\n".toList, false⟩) = .ok "- [a](#a)\n  - [b](#b)\n".toList ∧
    buildToc asciiEnv { keep := 4 } "a.md".toList (some ⟨"## a\n ## b\n".toList, false⟩) = .ok "- [a](#a)\n- [b](#b)\n".toList ∧
    buildToc asciiEnv { keep := 6 } "a.md".toList (some ⟨"###### a\n".toList, false⟩) = .ok "- [a](#a)\n".toList ∧
    buildToc asciiEnv { keep := 7 } "a.md".toList (some ⟨"####### a\n".toList, false⟩) = .ok [] := by
  decide +kernel

end MdToc.Props
