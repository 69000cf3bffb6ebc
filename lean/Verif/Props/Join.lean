import Verif.Props.Insert
import Verif.Props.LastLine

/-!
# C97: two documents, one after the other
-/

set_option linter.unusedSimpArgs false

namespace MdToc.Props

open MdToc.Spec

/-- The indentation of an entry, the log and the first level after it, for lists without counted numbers. -/
def indentPart (o : Options) (st : TocState) (n : Nat) : Except Exn (Nat × Log × Nat) :=
  if o.noIndentation then .ok (0, st.log, st.first)
  else if incoherent o st n then .error .TocDoesNotRenderAsCoherentList
  else (computeIndent n (prevFor o st n) o.parser o.effOrdered o.effMarker st.log 1).map (fun log => ((log n).spaces, log, firstFor o st n))

theorem addHeader_part {o : Options} (hc : o.counts = false) (st : TocState) (x : Header) :
    addHeader o st x = (indentPart o st x.headerType >>= fun r =>
      buildTocLineNoIndent x o.effOrdered o.noLinks 1 o.parser o.effMarker >>= fun line =>
      .ok { st with prev := x.headerType, first := r.2.2, log := r.2.1, toc := st.toc ++ [buildTocLine line r.1 ++ o.newline] }) := by
  have hn : nextCounter o st x.headerType = .ok st.counter := by
    unfold nextCounter
    rw [hc]
    rfl
  rw [addHeader_eq, hn]
  simp only [bind, Except.bind, hc, indentPart]
  rfl

/-- The slugs agree outside of `K`, and the lines of the second state are those of the first behind `T`. -/
structure Behind (K : Str → Prop) (T : List Str) (st st' : TocState) : Prop where
  toc : st'.toc = T ++ st.toc
  dup : ∀ k, ¬ K k → st'.dup k = st.dup k

/-- The two runs are in the same place of the list. -/
structure SamePlace (K : Str → Prop) (T : List Str) (st st' : TocState) : Prop extends Behind K T st st' where
  log : st'.log = st.log
  prev : st'.prev = st.prev
  first : st'.first = st.first

/-- Two results, related by `R` unless both are the same exception. -/
def Both (R : TocState → TocState → Prop) : Except Exn TocState → Except Exn TocState → Prop
  | .ok a, .ok b => R a b
  | .error e, .error e' => e = e'
  | _, _ => False

theorem addHeader_join {o : Options} (hc : o.counts = false) {K : Str → Prop} {T : List Str} {st st' : TocState} (h : Behind K T st st') {x : Header}
    (hi : indentPart o st' x.headerType = indentPart o st x.headerType) : Both (SamePlace K T) (addHeader o st x) (addHeader o st' x) := by
  rw [addHeader_part hc, addHeader_part hc, hi]
  cases indentPart o st x.headerType with
  | error e => exact rfl
  | ok r =>
    simp only [bind, Except.bind]
    cases buildTocLineNoIndent x o.effOrdered o.noLinks 1 o.parser o.effMarker with
    | error e => exact rfl
    | ok line => exact ⟨⟨by simp [h.toc], h.dup⟩, rfl, rfl, rfl⟩

theorem samePlace_part {o : Options} {K : Str → Prop} {T : List Str} {st st' : TocState} (h : SamePlace K T st st') (n : Nat) : indentPart o st' n = indentPart o st n := by
  unfold indentPart incoherent prevFor firstFor
  rw [h.log, h.prev, h.first]

/-- The text and the slug of a heading come first. -/
theorem headStep_eq {E : Env} {o : Options} (hp : o.parser ≠ .redcarpet) (st : TocState) (n : Nat) (c : Str) :
    headStep E o st (n, c) = ((if o.noLinks then .ok c else linkText c) >>= fun t =>
      buildAnchorLink E t st.dup o.parser >>= fun r =>
      if listed o.parser o.keep n then addHeader o { st with dup := r.2 } ⟨n, t, r.1, true⟩ else .ok { st with dup := r.2 }) := by
  unfold headStep
  dsimp only
  rw [if_neg hp]
  have hv : (if (n : Int) > o.keep then false else true) = listed o.parser o.keep n := by
    unfold listed
    by_cases hx : (n : Int) > o.keep
    · simp [hx, hp]
    · simp [hx, hp]; omega
  rw [hv]
  cases (if o.noLinks then .ok c else linkText c : Except Exn Str) with
  | error e => rfl
  | ok t =>
    simp only [bind, Except.bind, Except.map, headersOf]
    cases buildAnchorLink E t st.dup o.parser with
    | error e => rfl
    | ok r => cases hl : listed o.parser o.keep n <;> rfl

theorem shown_ok {o : Options} (hp : o.parser ≠ .redcarpet) {c t : Str} (h : (if o.noLinks then .ok c else linkText c : Except Exn Str) = .ok t) : t = shownText o c := by
  unfold shownText
  rw [if_neg hp]
  cases hn : o.noLinks with
  | true => rw [hn] at h; injection h with h; exact h.symm
  | false =>
    rw [hn, if_neg (by decide)] at h
    rw [if_neg (by decide)]
    exact (linkText_ok h).2.2

/-- One heading of the second document. -/
theorem headStep_join {E : Env} {o : Options} (hp : o.parser ≠ .redcarpet) (hc : o.counts = false) {K : Str → Prop} {T : List Str} {st st' : TocState} (h : Behind K T st st') {n : Nat} {c : Str}
    (hs : ∀ b, BaseSlug E o.parser (shownText o c) b → ¬ K (E.sha1 b)) (hi : ∀ d d', listed o.parser o.keep n = true → indentPart o { st' with dup := d' } n = indentPart o { st with dup := d } n) :
    Both (fun a b => if listed o.parser o.keep n then SamePlace K T a b else Behind K T a b ∧ (∃ d, a = { st with dup := d }) ∧ ∃ d, b = { st' with dup := d })
      (headStep E o st (n, c)) (headStep E o st' (n, c)) := by
  rw [headStep_eq hp, headStep_eq hp]
  cases ht : (if o.noLinks then .ok c else linkText c : Except Exn Str) with
  | error e => simp only [bind, Except.bind, Both]
  | ok t =>
    have := shown_ok hp ht
    subst this
    simp only [bind, Except.bind]
    rw [buildAnchorLink_cmark (cmarkLike_of_ne hp) _ st.dup, buildAnchorLink_cmark (cmarkLike_of_ne hp) _ st'.dup]
    cases hb : buildAnchorLink E (shownText o c) (fun _ => 0) o.parser with
    | error e => simp only [Except.map, Both]
    | ok r =>
      simp only [Except.map]
      have hk := hs r.1 ⟨_, hb⟩
      rw [h.dup _ hk]
      have hbeh : Behind K T { st with dup := fun k => if k = E.sha1 r.1 then st.dup (E.sha1 r.1) + 1 else st.dup k }
          { st' with dup := fun k => if k = E.sha1 r.1 then st.dup (E.sha1 r.1) + 1 else st'.dup k } := by
        refine ⟨h.toc, fun k hk => ?_⟩
        simp only
        split
        · rfl
        · exact h.dup k hk
      cases hl : listed o.parser o.keep n with
      | false => exact ⟨hbeh, ⟨_, rfl⟩, ⟨_, rfl⟩⟩
      | true => exact addHeader_join hc hbeh (hi _ _ hl)

theorem headRun_samePlace {E : Env} {o : Options} (hp : o.parser ≠ .redcarpet) (hc : o.counts = false) {K : Str → Prop} {T : List Str} : ∀ {heads : List (Nat × Str)} {st st' : TocState},
    SamePlace K T st st' → (∀ x ∈ heads, ∀ b, BaseSlug E o.parser (shownText o x.2) b → ¬ K (E.sha1 b)) → Both (Behind K T) (headRun E o heads st) (headRun E o heads st')
  | [], st, st', h, _ => h.toBehind
  | (n, c) :: heads, st, st', h, hs => by
    rw [headRun, headRun]
    have hstep := headStep_join (E := E) hp hc h.toBehind (n := n) (hs (n, c) (by simp)) (fun d d' _ => by
      have := samePlace_part (o := o) h n
      exact this)
    cases h1 : headStep E o st (n, c) with
    | error e =>
      rw [h1] at hstep
      cases h2 : headStep E o st' (n, c) with
      | error e' => rw [h2] at hstep; exact hstep
      | ok b => rw [h2] at hstep; exact hstep.elim
    | ok a =>
      rw [h1] at hstep
      cases h2 : headStep E o st' (n, c) with
      | error e' => rw [h2] at hstep; exact hstep.elim
      | ok b =>
        rw [h2] at hstep
        have hsp : SamePlace K T a b := by
          unfold Both at hstep
          dsimp only at hstep
          split at hstep
          · exact hstep
          · obtain ⟨hb, ⟨d, rfl⟩, ⟨d', rfl⟩⟩ := hstep
            exact ⟨hb, h.log, h.prev, h.first⟩
        exact headRun_samePlace hp hc hsp (fun x hx => hs x (by simp [hx]))

/-- The run before the first entry of the second document: only slugs have been counted. -/
theorem headRun_behind {E : Env} {o : Options} (hp : o.parser ≠ .redcarpet) (hc : o.counts = false) {K : Str → Prop} {T : List Str} : ∀ {heads : List (Nat × Str)} {st st' : TocState},
    Behind K T st st' → (∀ x ∈ heads, ∀ b, BaseSlug E o.parser (shownText o x.2) b → ¬ K (E.sha1 b)) →
    (∀ f ∈ (levelsOf o heads).head?, ∀ d d', indentPart o { st' with dup := d' } f = indentPart o { st with dup := d } f) → Both (Behind K T) (headRun E o heads st) (headRun E o heads st')
  | [], st, st', h, _, _ => h
  | (n, c) :: heads, st, st', h, hs, hi => by
    rw [headRun, headRun]
    have hstep := headStep_join (E := E) hp hc h (n := n) (hs (n, c) (by simp)) (fun d d' hl => hi n (by simp [levelsOf, hl]) d d')
    cases h1 : headStep E o st (n, c) with
    | error e =>
      rw [h1] at hstep
      cases h2 : headStep E o st' (n, c) with
      | error e' => rw [h2] at hstep; exact hstep
      | ok b => rw [h2] at hstep; exact hstep.elim
    | ok a =>
      rw [h1] at hstep
      cases h2 : headStep E o st' (n, c) with
      | error e' => rw [h2] at hstep; exact hstep.elim
      | ok b =>
        rw [h2] at hstep
        unfold Both at hstep
        dsimp only at hstep
        cases hl : listed o.parser o.keep n with
        | true =>
          rw [hl, if_pos rfl] at hstep
          exact headRun_samePlace hp hc hstep (fun x hx => hs x (by simp [hx]))
        | false =>
          rw [hl, if_neg (by decide)] at hstep
          obtain ⟨hb, ⟨d, rfl⟩, ⟨d', rfl⟩⟩ := hstep
          refine headRun_behind hp hc hb (fun x hx => hs x (by simp [hx])) ?_
          intro f hf d d'
          exact hi f (by simpa [levelsOf, hl] using hf) d d'

/-- An element of the log at the beginning. -/
abbrev fresh (m : Str) : LogEl := ⟨minMarkerNumber, m, 0⟩

/-- An element of the log without indentation. -/
def Unindented (ordered : Bool) (m : Str) (e : LogEl) : Prop := e.marker = m ∧ e.spaces = 0 ∧ (ordered = false → e.index = minMarkerNumber)

/-- The log is as at the beginning for the levels above `f` and for those below the entry before. -/
structure LogClean (o : Options) (f : Nat) (st : TocState) : Prop where
  flat : o.noIndentation = true → st.log = initLog o.effMarker ∧ st.first = 0
  top : o.noIndentation = false → Unindented o.effOrdered o.effMarker (st.log f)
  upper : o.noIndentation = false → ∀ i, i < f → st.log i = fresh o.effMarker
  lower : o.noIndentation = false → ∀ i, st.prev < i → st.log i = fresh o.effMarker
  bound : o.noIndentation = false → st.prev ≤ 6 ∧ (st.prev = 0 ∨ f ≤ st.prev)
  free : o.noListCoherence = true → st.first = 0

theorem computeIndent_clean {c q : Nat} {p : Parser} (hp : p.cmarkLike = true) {ordered : Bool} {m : Str} {log : Log} (h1 : 1 ≤ c) (h6 : c ≤ 6) (hq6 : q ≤ 6) (hq : q = 0 ∨ c ≤ q)
    (ht : Unindented ordered m (log c)) (hu : ∀ i, i < c → log i = fresh m) (hl : ∀ i, q < i → log i = fresh m) :
    computeIndent c q p ordered m log 1 = if markerOk p ordered m then .ok (Log.set (initLog m) c ⟨if ordered then 1 else minMarkerNumber, m, 0⟩) else .error .ValueError := by
  have in1 : inLog c = true := by unfold inLog maxLevels; simp; omega
  unfold computeIndent
  rw [if_neg (by omega : ¬ ¬ c ≥ 1), if_neg (by omega : ¬ ¬ 1 ≥ 1)]
  cases hm : markerOk p ordered m with
  | false => rfl
  | true =>
    rw [in1, hp]
    have in3 : q ≠ 0 → inLog q = true := by intro h; unfold inLog maxLevels; simp; omega
    have e : ¬ (q ≠ 0 ∧ (!inLog q) = true) := by
      rintro ⟨g1, g2⟩
      rw [in3 g1] at g2
      cases g2
    simp only [Bool.not_true, Bool.false_eq_true, if_false, if_true, if_neg e]
    congr 1
    obtain ⟨t1, t2, t3⟩ := ht
    have key : ∀ L : Log, Unindented ordered m (L c) → (∀ i, i ≠ c → L i = fresh m) → ∀ i,
        Log.set (if ordered = true then L.set c { L c with index := 1 } else L) c
          { (if ordered = true then L.set c { L c with index := 1 } else L) c with marker := m } i = Log.set (initLog m) c ⟨if ordered then 1 else minMarkerNumber, m, 0⟩ i := by
      rintro L ⟨u1, u2, u3⟩ hL i
      by_cases hic : i = c
      · subst hic
        cases ordered with
        | true => simp [Log.set, u2]
        | false => simp [Log.set, u2, u3 rfl]
      · have := hL i hic
        cases ordered <;> simp [Log.set, hic, initLog, this]
    funext i
    refine key _ ?_ ?_ i
    · by_cases h0 : q = 0
      · rw [if_pos h0]
        simp only [Log.set, if_true]
        exact ⟨t1, rfl, t3⟩
      · rw [if_neg h0, if_neg (by omega : ¬ c > q)]
        by_cases hlt : c < q
        · rw [if_pos hlt]
          simp only [resetBelow, Nat.lt_irrefl, false_and, if_false]
          exact ⟨t1, t2, t3⟩
        · rw [if_neg hlt]
          exact ⟨t1, t2, t3⟩
    · intro i hic
      by_cases h0 : q = 0
      · rw [if_pos h0]
        simp only [Log.set, hic, if_false]
        by_cases g : i < c
        · exact hu i g
        · exact hl i (by omega)
      · rw [if_neg h0, if_neg (by omega : ¬ c > q)]
        by_cases hlt : c < q
        · rw [if_pos hlt]
          unfold resetBelow maxLevels
          by_cases g : c < i ∧ i ≤ 6
          · rw [if_pos g]
          · rw [if_neg g]
            by_cases g' : i < c
            · exact hu i g'
            · exact hl i (by omega)
        · rw [if_neg hlt]
          by_cases g : i < c
          · exact hu i g
          · exact hl i (by omega)

theorem computeIndent_keeps {c q f : Nat} {p : Parser} (hp : p.cmarkLike = true) {ordered : Bool} {m : Str} {log log' : Log} (h6 : c ≤ 6) (hf : f ≤ c) (hq : q = 0 ∨ f ≤ q) (hq6 : q ≤ 6)
    (ht : Unindented ordered m (log f)) (hu : ∀ i, i < f → log i = fresh m) (hl : ∀ i, q < i → log i = fresh m) (h : computeIndent c q p ordered m log 1 = .ok log') :
    Unindented ordered m (log' f) ∧ (∀ i, i < f → log' i = fresh m) ∧ ∀ i, c < i → log' i = fresh m := by
  unfold computeIndent at h
  split at h
  · cases h
  split at h
  · cases h
  split at h
  · cases h
  split at h
  · cases h
  split at h
  · cases h
  dsimp only at h
  injection h with h
  subst h
  obtain ⟨t1, t2, t3⟩ := ht
  have fin : ∀ (L : Log), Unindented ordered m (L f) → (∀ i, (i < f ∨ c < i) → L i = fresh m) →
      Unindented ordered m (Log.set (if ordered = true then L.set c { L c with index := 1 } else L) c
        { (if ordered = true then L.set c { L c with index := 1 } else L) c with marker := m } f) ∧
      ∀ i, (i < f ∨ c < i) → Log.set (if ordered = true then L.set c { L c with index := 1 } else L) c
        { (if ordered = true then L.set c { L c with index := 1 } else L) c with marker := m } i = fresh m := by
    rintro L ⟨u1, u2, u3⟩ hL
    refine ⟨?_, ?_⟩
    · by_cases hfc : f = c
      · subst hfc
        cases ordered with
        | true => simp [Log.set, u2, Unindented]
        | false => simp [Log.set, u2, u3 rfl, Unindented]
      · cases ordered with
        | true => simp [Log.set, hfc, u1, u2, Unindented]
        | false => simp [Log.set, hfc, u1, u2, u3 rfl, Unindented]
    · intro i hi
      have hic : i ≠ c := by omega
      have := hL i hi
      cases ordered <;> simp [Log.set, hic, this]
  have := fin (if q = 0 then log.set c { log c with spaces := 0 }
        else if c > q then log.set c { log c with spaces := (log q).spaces + (log q).marker.length + (if ordered = true then (if q = 0 then 0 else (natStr (log q).index).length) else 0) + 1 }
        else if c < q then resetBelow log c m else log) ?_ ?_
  · exact ⟨this.1, fun i hi => this.2 i (.inl hi), fun i hi => this.2 i (.inr hi)⟩
  · by_cases h0 : q = 0
    · rw [if_pos h0]
      by_cases hfc : f = c
      · subst hfc
        simp only [Log.set, if_true]
        exact ⟨t1, rfl, t3⟩
      · simp only [Log.set, hfc, if_false]
        exact ⟨t1, t2, t3⟩
    · rw [if_neg h0]
      by_cases h1 : c > q
      · rw [if_pos h1]
        have hfc : f ≠ c := by omega
        simp only [Log.set, hfc, if_false]
        exact ⟨t1, t2, t3⟩
      · rw [if_neg h1]
        by_cases h2 : c < q
        · rw [if_pos h2]
          unfold resetBelow
          rw [if_neg (by omega)]
          exact ⟨t1, t2, t3⟩
        · rw [if_neg h2]
          exact ⟨t1, t2, t3⟩
  · intro i hi
    have hic : i ≠ c := by omega
    by_cases h0 : q = 0
    · rw [if_pos h0]
      simp only [Log.set, hic, if_false]
      rcases hi with hi | hi
      · exact hu i hi
      · exact hl i (by omega)
    · rw [if_neg h0]
      by_cases h1 : c > q
      · rw [if_pos h1]
        simp only [Log.set, hic, if_false]
        rcases hi with hi | hi
        · exact hu i hi
        · exact hl i (by omega)
      · rw [if_neg h1]
        by_cases h2 : c < q
        · rw [if_pos h2]
          unfold resetBelow maxLevels
          by_cases g : c < i ∧ i ≤ 6
          · rw [if_pos g]
          · rw [if_neg g]
            rcases hi with hi | hi
            · exact hu i hi
            · exact hl i (by omega)
        · rw [if_neg h2]
          rcases hi with hi | hi
          · exact hu i hi
          · exact hl i (by omega)

theorem addHeader_clean {o : Options} (hp : o.parser ≠ .redcarpet) (hc : o.counts = false) {f : Nat} {st st' : TocState} (h : LogClean o f st) {x : Header} (hx1 : 1 ≤ x.headerType)
    (hx6 : x.headerType ≤ 6) (hf : o.noIndentation = false → f ≤ x.headerType) (e : addHeader o st x = .ok st') : LogClean o f st' := by
  rw [addHeader_part hc] at e
  cases hi : indentPart o st x.headerType with
  | error e' => rw [hi] at e; cases e
  | ok r =>
    rw [hi] at e
    simp only [bind, Except.bind] at e
    cases hl : buildTocLineNoIndent x o.effOrdered o.noLinks 1 o.parser o.effMarker with
    | error e' => rw [hl] at e; cases e
    | ok line =>
      rw [hl] at e
      injection e with e
      subst e
      unfold indentPart at hi
      cases hni : o.noIndentation with
      | true =>
        rw [hni, if_pos rfl] at hi
        injection hi with hi
        subst hi
        refine ⟨fun _ => h.flat hni, ?_, ?_, ?_, ?_, h.free⟩ <;> (intro g; cases hni.symm.trans g)
      | false =>
        rw [hni, if_neg (by decide)] at hi
        split at hi
        · cases hi
        · cases hcomp : computeIndent x.headerType (prevFor o st x.headerType) o.parser o.effOrdered o.effMarker st.log 1 with
          | error e' => rw [hcomp] at hi; cases hi
          | ok log' =>
            rw [hcomp] at hi
            injection hi with hi
            subst hi
            have hb := h.bound hni
            have hfx := hf hni
            have hq : prevFor o st x.headerType = st.prev ∨ (st.prev = 0 ∧ prevFor o st x.headerType = x.headerType) := by
              unfold prevFor
              by_cases h0 : st.prev = 0
              · cases o.noListCoherence
                · right; simp [h0]
                · left; simp
              · left; simp [h0]
            obtain ⟨k1, k2, k3⟩ := computeIndent_keeps (cmarkLike_of_ne hp) hx6 hfx (q := prevFor o st x.headerType) (by omega) (by omega) (h.top hni) (h.upper hni)
              (fun i hi => h.lower hni i (by omega)) hcomp
            refine ⟨?_, fun _ => k1, fun _ => k2, fun _ => k3, fun _ => ⟨hx6, .inr hfx⟩, ?_⟩
            · intro g; cases hni.symm.trans g
            · intro g
              simp only [firstFor, g]
              exact h.free g

theorem headRun_clean {E : Env} {o : Options} (hp : o.parser ≠ .redcarpet) (hc : o.counts = false) {f : Nat} : ∀ {heads : List (Nat × Str)} {st st' : TocState}, LogClean o f st →
    (∀ x ∈ heads, 1 ≤ x.1 ∧ x.1 ≤ 6) → (o.noIndentation = false → ∀ n ∈ levelsOf o heads, f ≤ n) → headRun E o heads st = .ok st' → LogClean o f st'
  | [], st, st', h, _, _, e => by injection e with e; subst e; exact h
  | (n, c) :: heads, st, st', h, hb, hf, e => by
    rw [headRun, headStep_eq hp] at e
    cases ht : (if o.noLinks then .ok c else linkText c : Except Exn Str) with
    | error e' => rw [ht] at e; cases e
    | ok t =>
      rw [ht] at e
      simp only [bind, Except.bind] at e
      cases ha : buildAnchorLink E t st.dup o.parser with
      | error e' => rw [ha] at e; cases e
      | ok r =>
        rw [ha] at e
        have hd : LogClean o f { st with dup := r.2 } := ⟨h.flat, h.top, h.upper, h.lower, h.bound, h.free⟩
        cases hl : listed o.parser o.keep n with
        | false =>
          simp only [hl, Bool.false_eq_true, if_false] at e
          exact headRun_clean hp hc hd (fun x hx => hb x (by simp [hx])) (fun g n hn => hf g n (by simpa [levelsOf, hl] using hn)) e
        | true =>
          simp only [hl, if_true] at e
          cases hadd : addHeader o { st with dup := r.2 } ⟨n, t, r.1, true⟩ with
          | error e' => rw [hadd] at e; cases e
          | ok st2 =>
            rw [hadd] at e
            have := addHeader_clean hp hc hd (hb (n, c) (by simp)).1 (hb (n, c) (by simp)).2 (fun g => hf g n (by simp [levelsOf, hl])) hadd
            refine headRun_clean hp hc this (fun x hx => hb x (by simp [hx])) (fun g m hm => hf g m ?_) e
            simp only [levelsOf, List.map_cons, hl, List.filter_cons_of_pos] at hm ⊢
            exact List.mem_cons_of_mem _ hm

theorem addHeader_dup {o : Options} (hc : o.counts = false) {st st' : TocState} {x : Header} (e : addHeader o st x = .ok st') : st'.dup = st.dup := by
  rw [addHeader_part hc] at e
  cases hi : indentPart o st x.headerType with
  | error e' => rw [hi] at e; cases e
  | ok r =>
    rw [hi] at e
    simp only [bind, Except.bind] at e
    cases hl : buildTocLineNoIndent x o.effOrdered o.noLinks 1 o.parser o.effMarker with
    | error e' => rw [hl] at e; cases e
    | ok line =>
      rw [hl] at e
      injection e with e
      subst e
      rfl

theorem headRun_dup {E : Env} {o : Options} (hp : o.parser ≠ .redcarpet) (hc : o.counts = false) {k : Str} : ∀ {heads : List (Nat × Str)} {st st' : TocState},
    (∀ x ∈ heads, ∀ b, BaseSlug E o.parser (shownText o x.2) b → k ≠ E.sha1 b) → headRun E o heads st = .ok st' → st'.dup k = st.dup k
  | [], st, st', _, e => by injection e with e; subst e; rfl
  | (n, c) :: heads, st, st', hk, e => by
    rw [headRun, headStep_eq hp] at e
    cases ht : (if o.noLinks then .ok c else linkText c : Except Exn Str) with
    | error e' => rw [ht] at e; cases e
    | ok t =>
      have := shown_ok hp ht
      subst this
      rw [ht] at e
      simp only [bind, Except.bind] at e
      rw [buildAnchorLink_cmark (cmarkLike_of_ne hp) _ st.dup] at e
      cases ha : buildAnchorLink E (shownText o c) (fun _ => 0) o.parser with
      | error e' => rw [ha] at e; cases e
      | ok r =>
        rw [ha] at e
        simp only [Except.map] at e
        have hne := hk (n, c) (by simp) r.1 ⟨_, ha⟩
        have hrest : ∀ x ∈ heads, ∀ b, BaseSlug E o.parser (shownText o x.2) b → k ≠ E.sha1 b := fun x hx => hk x (by simp [hx])
        cases hl : listed o.parser o.keep n with
        | false =>
          simp only [hl, Bool.false_eq_true, if_false] at e
          rw [headRun_dup hp hc hrest e]
          simp [hne]
        | true =>
          simp only [hl, if_true] at e
          split at e
          · cases e
          · rename_i st2 hadd
            rw [headRun_dup hp hc hrest e, addHeader_dup hc hadd]
            simp [hne]

theorem indentPart_init {o : Options} (hp : o.parser ≠ .redcarpet) {st : TocState} {f : Nat} (h1 : 1 ≤ f) (h6 : f ≤ 6) (hcl : LogClean o f st)
    (hfst : o.noIndentation = false → o.noListCoherence = false → st.first = 0 ∨ st.first = f) (d d' : Dup) :
    indentPart o { st with dup := d' } f = indentPart o { TocState.init o.effMarker with dup := d } f := by
  unfold indentPart
  cases hni : o.noIndentation with
  | true =>
    obtain ⟨g1, g2⟩ := hcl.flat hni
    simp only [if_true, g1, g2]
    rfl
  | false =>
    have hb := hcl.bound hni
    have e1 : incoherent o { st with dup := d' } f = false := by
      unfold incoherent firstFor prevFor
      cases hnc : o.noListCoherence with
      | true => rfl
      | false =>
        have := hfst hni hnc
        dsimp only
        simp only [Bool.not_false, Bool.true_and, beq_iff_eq, Bool.or_eq_false_iff, decide_eq_false_iff_not]
        constructor <;> split <;> omega
    have e2 : incoherent o { TocState.init o.effMarker with dup := d } f = false := by
      unfold incoherent firstFor prevFor TocState.init
      cases hnc : o.noListCoherence <;> simp
    rw [if_neg Bool.false_ne_true, if_neg Bool.false_ne_true, e1, e2, if_neg Bool.false_ne_true, if_neg Bool.false_ne_true]
    have hq : prevFor o { st with dup := d' } f = st.prev ∨ (st.prev = 0 ∧ prevFor o { st with dup := d' } f = f) := by
      unfold prevFor
      dsimp only
      by_cases h0 : st.prev = 0
      · cases o.noListCoherence
        · right; simp [h0]
        · left; simp
      · left; simp [h0]
    have hq0 : prevFor o { TocState.init o.effMarker with dup := d } f = 0 ∨ prevFor o { TocState.init o.effMarker with dup := d } f = f := by
      unfold prevFor TocState.init
      cases o.noListCoherence <;> simp
    have hf : firstFor o { st with dup := d' } f = firstFor o { TocState.init o.effMarker with dup := d } f := by
      unfold firstFor TocState.init
      dsimp only
      cases hnc : o.noListCoherence with
      | true => simp [hcl.free hnc]
      | false =>
        rcases hfst hni hnc with g | g
        · simp [g]
        · have : f ≠ 0 := by omega
          simp [g, this]
    have k1 := computeIndent_clean (cmarkLike_of_ne hp) (q := prevFor o { st with dup := d' } f) h1 h6 (by omega) (by omega) (hcl.top hni) (hcl.upper hni)
      (fun i hi => hcl.lower hni i (by omega))
    have k2 := computeIndent_clean (cmarkLike_of_ne hp) (ordered := o.effOrdered) (q := prevFor o { TocState.init o.effMarker with dup := d } f) (m := o.effMarker)
      (log := initLog o.effMarker) h1 h6 (by omega) (by omega) ⟨rfl, rfl, fun _ => rfl⟩ (fun _ _ => rfl) (fun _ _ => rfl)
    rw [hf]
    exact congrArg _ (k1.trans k2.symm)

/-- What may come behind a document: the first entry is at the top of the list. -/
def StartsAtTop (o : Options) (heads heads' : List (Nat × Str)) : Prop :=
  o.noIndentation = true ∨ ∀ f ∈ (levelsOf o heads').head?, (∀ n ∈ levelsOf o heads, f ≤ n) ∧ (o.noListCoherence = false → ∀ g ∈ (levelsOf o heads).head?, g = f)

/-- The headings of the two documents have no slug in common. -/
def NoCommonSlug (E : Env) (o : Options) (heads heads' : List (Nat × Str)) : Prop :=
  ∀ x ∈ heads, ∀ y ∈ heads', ∀ b, ¬ (BaseSlug E o.parser (shownText o x.2) b ∧ BaseSlug E o.parser (shownText o y.2) b)

theorem headRun_join {E : Env} {o : Options} (hp : o.parser ≠ .redcarpet) (hsha : ∀ b b', E.sha1 b = E.sha1 b' → b = b') (hc : o.counts = false) {h1 h2 : List (Nat × Str)}
    (hb1 : ∀ x ∈ h1, 1 ≤ x.1 ∧ x.1 ≤ 6) (hb2 : ∀ x ∈ h2, 1 ≤ x.1 ∧ x.1 ≤ 6) (htop : StartsAtTop o h1 h2) (hslug : NoCommonSlug E o h1 h2) {st1 : TocState}
    (hr : headRun E o h1 (TocState.init o.effMarker) = .ok st1) :
    (headRun E o h2 st1).map TocState.out = ((headRun E o h2 (TocState.init o.effMarker)).map TocState.out).map (fun s => st1.out ++ s) := by
  have h0 : AtLevels o [] (TocState.init o.effMarker) := ⟨by simp, rfl, fun _ _ => rfl, fun _ _ => rfl⟩
  have hat : AtLevels o (levelsOf o h1) st1 := by
    have := headRun_outcome (E := E) h0 hb1
    split at this
    · rw [hr] at this; cases this
    · obtain ⟨st', g1, g2⟩ := this
      rw [hr] at g1
      injection g1 with g1
      subst g1
      simpa using g2
  let K : Str → Prop := fun k => ∃ x ∈ h1, ∃ b, BaseSlug E o.parser (shownText o x.2) b ∧ k = E.sha1 b
  have hbeh : Behind K st1.toc (TocState.init o.effMarker) st1 := by
    refine ⟨by simp [TocState.init], ?_⟩
    intro k hk
    exact headRun_dup hp hc (fun x hx b hb e => hk ⟨x, hx, b, hb, e⟩) hr
  have hK : ∀ x ∈ h2, ∀ b, BaseSlug E o.parser (shownText o x.2) b → ¬ K (E.sha1 b) := by
    rintro y hy b hb ⟨x, hx, b', hb', e⟩
    rw [hsha _ _ e] at hb
    exact hslug x hx y hy b' ⟨hb', hb⟩
  have hboth := headRun_behind (E := E) hp hc hbeh hK (by
    intro f hf d d'
    have hfm : f ∈ levelsOf o h2 := List.mem_of_mem_head? hf
    obtain ⟨x, hx, rfl⟩ := List.mem_map.mp (List.mem_filter.mp hfm).1
    obtain ⟨hx1, hx6⟩ := hb2 x hx
    refine indentPart_init hp hx1 hx6 ?_ ?_ d d'
    · refine headRun_clean hp hc (f := x.1) ⟨fun _ => ⟨rfl, rfl⟩, fun _ => ⟨rfl, rfl, fun _ => rfl⟩, fun _ _ _ => rfl, fun _ _ _ => rfl, fun _ => ⟨by simp [TocState.init], .inl rfl⟩, fun _ => rfl⟩ hb1 ?_ hr
      intro g
      rcases htop with htop | htop
      · rw [g] at htop; cases htop
      · exact (htop _ hf).1
    · intro g1 g2
      rw [hat.first g1 g2]
      rcases htop with htop | htop
      · rw [g1] at htop; cases htop
      · cases hh : (levelsOf o h1).head? with
        | none => exact .inl rfl
        | some g => exact .inr ((htop _ hf).2 g2 g hh))
  cases g1 : headRun E o h2 (TocState.init o.effMarker) with
  | error e =>
    rw [g1] at hboth
    cases g2 : headRun E o h2 st1 with
    | error e' => rw [g2] at hboth; simp only [Both] at hboth; rw [hboth]; rfl
    | ok b => rw [g2] at hboth; exact hboth.elim
  | ok a =>
    rw [g1] at hboth
    cases g2 : headRun E o h2 st1 with
    | error e' => rw [g2] at hboth; exact hboth.elim
    | ok b =>
      rw [g2] at hboth
      have : Behind K st1.toc a b := hboth
      simp [Except.map, TocState.out, this.toc]

/-- The lines of two texts one after the other, when the first one ends with a line feed. -/
theorem reads_join {t t' : Str} {ls ls' : List Str} (h : Reads t ls) (h' : Reads t' ls') : (t = [] ∨ t.getLast? = some '\n') → Reads (t ++ t') (ls ++ ls') := by
  induction h with
  | nil => intro _; exact h'
  | @last b hb hn =>
    rintro (he | he)
    · exact absurd he hb
    · exact absurd (.inl rfl) (hn _ (List.mem_of_getLast? he))
  | @line b eol t ls hb he _ ih =>
    intro hx
    have hne : eol ≠ [] := by rcases he with rfl | rfl | ⟨rfl, -⟩ <;> simp
    have hlast : (b ++ eol ++ t).getLast? = some '\n' := by
      rcases hx with hx | hx
      · simp [hne] at hx
      · exact hx
    have ht : t = [] ∨ t.getLast? = some '\n' := by
      by_cases h0 : t = []
      · exact .inl h0
      · rw [List.getLast?_append_of_ne_nil _ h0] at hlast
        exact .inr hlast
    have he' : IsEol eol (t ++ t') := by
      rcases he with rfl | rfl | ⟨rfl, he⟩
      · exact .inl rfl
      · exact .inr (.inl rfl)
      · refine .inr (.inr ⟨rfl, ?_⟩)
        by_cases h0 : t = []
        · subst h0; simp at hlast
        · cases t with
          | nil => exact absurd rfl h0
          | cons x t => exact he
    have := Reads.line hb he' (ih ht)
    simpa using this

theorem headRun_append {E : Env} {o : Options} : ∀ (a b : List (Nat × Str)) (st : TocState), headRun E o (a ++ b) st = (headRun E o a st >>= headRun E o b)
  | [], _, _ => rfl
  | (n, c) :: a, b, st => by
    rw [List.cons_append, headRun, headRun]
    cases headStep E o st (n, c) with
    | error e => rfl
    | ok st2 => exact headRun_append a b st2

/-- **C97**: the table of contents of two documents one after the other is the table of the first one and after it the table of the second one: no code block is open at the end of the
first one, they have no slug in common and the first entry of the second one is at the top of the list.  If the second one alone raises an exception, so do the two of them. -/
theorem C97_join {E : Env} {o : Options} (hp : o.parser ≠ .redcarpet) (hs : o.skipLines = 0) (hk : o.keep ≥ 1) (hc : (isOrdered o && !o.constantOrdered) = false)
    (hsha : ∀ b b', E.sha1 b = E.sha1 b' → b = b') {fn fn1 fn2 t1 t2 : Str} {ls1 : List Str} (hr1 : Reads t1 ls1) (hend : t1 = [] ∨ t1.getLast? = some '\n')
    (hout : Outside o.parser ls1) {v1 v2 : List Str} (hv1 : Looks o fn1 t1 v1) (hv2 : Looks o fn2 t2 v2) {h1 h2 : List (Nat × Str)} (hh1 : Headings o.parser true v1 h1)
    (hh2 : Headings o.parser true v2 h2) (htop : StartsAtTop o h1 h2) (hslug : NoCommonSlug E o h1 h2) (hsame : fn2 = "-".toList ↔ fn = "-".toList) {out1 : Str}
    (hok : buildToc E o fn1 (some ⟨t1, false⟩) = .ok out1) :
    buildToc E o fn (some ⟨t1 ++ t2, false⟩) = (buildToc E o fn2 (some ⟨t2, false⟩)).map (fun s => out1 ++ s) := by
  have hs0 : o.skipLines ≥ 0 := by omega
  have hl1 := looks_isLine hv1
  have hl2 := looks_isLine hv2
  have hown : ownLinks o = true := by unfold ownLinks; rw [if_neg hp]
  have hcnt : o.counts = false := by
    unfold Options.counts
    rw [effOrdered_eq]
    exact hc
  obtain ⟨ls', hr1', hv1⟩ := hv1
  have hls : ls' = ls1 := by rw [← (reads_iff (bad := false)).mp hr1', (reads_iff (bad := false)).mp hr1]
  subst hls
  obtain ⟨ls2, hr2, hv2⟩ := hv2
  rw [buildToc_seen hs0 hr1 hv1, hdrRun_headings hk (by rw [hown]; exact hh1) hl1] at hok
  rw [buildToc_seen hs0 hr2 hv2, hdrRun_headings hk (by rw [hown]; exact hh2) hl2]
  have hd : decide (fn2 ≠ "-".toList) = decide (fn ≠ "-".toList) := by rw [decide_eq_decide]; exact not_congr hsame
  have hv12 : SeenLines o.parser (decide (fn ≠ "-".toList)) ((ls' ++ ls2).drop o.skipLines.toNat) (v1 ++ v2) := by
    rw [hd] at hv2
    unfold SeenLines at hv1 hv2 ⊢
    rw [hs, if_neg hp] at hv1 hv2 ⊢
    obtain ⟨vs, g1, g2⟩ := seen_outside hout
    have := seen_unique hv1 (g1 _)
    subst this
    exact g2 _ _ _ hv2
  rw [buildToc_seen hs0 (reads_join hr1 hr2 hend) hv12, hdrRun_headings hk (by rw [hown]; exact headings_append hh1 hh2)
    (by intro l hl; rcases List.mem_append.mp hl with hl | hl; exacts [hl1 l hl, hl2 l hl])]
  cases g1 : headRun E o h1 (TocState.init o.effMarker) with
  | error e => rw [g1] at hok; cases hok
  | ok st1 =>
    rw [g1] at hok
    injection hok with hok
    rw [headRun_append, g1]
    simp only [bind, Except.bind]
    rw [headRun_join hp hsha hcnt (fun x hx => ⟨(headings_bounds hh1 x hx).1, (headings_bounds hh1 x hx).2.1⟩)
      (fun x hx => ⟨(headings_bounds hh2 x hx).1, (headings_bounds hh2 x hx).2.1⟩) htop hslug g1]
    rw [← hok]

/-- A part of a document that stands alone: it ends with a line feed and outside of code blocks, its entries are at the level `f` or below it and the first one is at `f`. -/
structure Chapter (E : Env) (o : Options) (f : Nat) (t : Str) (heads : List (Nat × Str)) (out : Str) : Prop where
  ends : t = [] ∨ t.getLast? = some '\n'
  outside : ∃ ls, Reads t ls ∧ Outside o.parser ls
  headings : ∃ v, Looks o "-".toList t v ∧ Headings o.parser true v heads
  levels : ∀ n ∈ levelsOf o heads, f ≤ n
  first : ∀ g ∈ (levelsOf o heads).head?, g = f
  table : buildToc E o "-".toList (some ⟨t, false⟩) = .ok out

theorem chapter_looks {E : Env} {o : Options} (hp : o.parser ≠ .redcarpet) (hs : o.skipLines = 0) {f : Nat} {t : Str} {heads : List (Nat × Str)} {out : Str} (h : Chapter E o f t heads out) (fn : Str) :
    ∃ v, Looks o fn t v ∧ Headings o.parser true v heads := by
  obtain ⟨ls, hr, ho⟩ := h.outside
  obtain ⟨v, ⟨ls', hr', hv⟩, hh⟩ := h.headings
  have hls : ls' = ls := by rw [← (reads_iff (bad := false)).mp hr', (reads_iff (bad := false)).mp hr]
  subst hls
  refine ⟨v, ⟨_, hr, ?_⟩, hh⟩
  unfold SeenLines at hv ⊢
  rw [hs, if_neg hp] at hv ⊢
  obtain ⟨vs, g1, -⟩ := seen_outside ho
  have := seen_unique hv (g1 _)
  subst this
  exact g1 _

theorem levelsOf_append (o : Options) (a b : List (Nat × Str)) : levelsOf o (a ++ b) = levelsOf o a ++ levelsOf o b := by
  simp [levelsOf]

theorem chapter_join {E : Env} {o : Options} (hp : o.parser ≠ .redcarpet) (hs : o.skipLines = 0) (hk : o.keep ≥ 1) (hc : (isOrdered o && !o.constantOrdered) = false)
    (hsha : ∀ b b', E.sha1 b = E.sha1 b' → b = b') {f : Nat} {t t' : Str} {heads heads' : List (Nat × Str)} {out out' : Str} (h : Chapter E o f t heads out) (h' : Chapter E o f t' heads' out')
    (hslug : NoCommonSlug E o heads heads') : Chapter E o f (t ++ t') (heads ++ heads') (out ++ out') where
  ends := by
    rcases h'.ends with rfl | g
    · simpa using h.ends
    · right
      have : t' ≠ [] := by rintro rfl; simp at g
      rw [List.getLast?_append_of_ne_nil _ this, g]
  outside := by
    obtain ⟨ls, hr, ho⟩ := h.outside
    obtain ⟨ls', hr', ho'⟩ := h'.outside
    exact ⟨_, reads_join hr hr' h.ends, outside_append ho ho'⟩
  headings := by
    obtain ⟨ls, hr, ho⟩ := h.outside
    obtain ⟨v, ⟨l1, hr1, hv⟩, hh⟩ := h.headings
    obtain ⟨v', ⟨l2, hr', hv'⟩, hh'⟩ := h'.headings
    have hls : l1 = ls := by rw [← (reads_iff (bad := false)).mp hr1, (reads_iff (bad := false)).mp hr]
    subst hls
    refine ⟨v ++ v', ⟨_, reads_join hr hr' h.ends, ?_⟩, headings_append hh hh'⟩
    unfold SeenLines at hv hv' ⊢
    rw [hs, if_neg hp] at hv hv' ⊢
    obtain ⟨vs, g1, g2⟩ := seen_outside ho
    have := seen_unique hv (g1 _)
    subst this
    exact g2 _ _ _ hv'
  levels := by
    intro n hn
    rw [levelsOf_append] at hn
    rcases List.mem_append.mp hn with hn | hn
    exacts [h.levels n hn, h'.levels n hn]
  first := by
    intro g hg
    rw [levelsOf_append] at hg
    cases hl : levelsOf o heads with
    | nil => rw [hl] at hg; exact h'.first g hg
    | cons x l =>
      have := h.first
      rw [hl] at hg this
      exact this g hg
  table := by
    obtain ⟨ls, hr, ho⟩ := h.outside
    obtain ⟨v, hv, hh⟩ := h.headings
    obtain ⟨v', hv', hh'⟩ := h'.headings
    rw [C97_join hp hs hk hc hsha hr h.ends ho hv hv' hh hh' (.inr ?_) hslug Iff.rfl h.table, h'.table]
    · rfl
    · intro g hg
      have := h'.first g hg
      subst this
      exact ⟨h.levels, fun _ => h.first⟩

/-- The same file name or the standard input: a chapter has the same table. -/
theorem chapter_file {E : Env} {o : Options} (hp : o.parser ≠ .redcarpet) (hs : o.skipLines = 0) (hk : o.keep ≥ 1) {f : Nat} {t : Str} {heads : List (Nat × Str)} {out : Str}
    (h : Chapter E o f t heads out) (fn : Str) : buildToc E o fn (some ⟨t, false⟩) = .ok out := by
  have hs0 : o.skipLines ≥ 0 := by omega
  have hown : ownLinks o = true := by unfold ownLinks; rw [if_neg hp]
  obtain ⟨v, hv, hh⟩ := h.headings
  obtain ⟨v', hv', hh'⟩ := chapter_looks hp hs h fn
  have hl := looks_isLine hv
  have hl' := looks_isLine hv'
  have ht := h.table
  obtain ⟨ls, hr, hv⟩ := hv
  obtain ⟨ls', hr', hv'⟩ := hv'
  rw [buildToc_seen hs0 hr hv, hdrRun_headings hk (by rw [hown]; exact hh) hl] at ht
  rw [buildToc_seen hs0 hr' hv', hdrRun_headings hk (by rw [hown]; exact hh') hl', ht]

/-- **C97**: a document made of chapters, with no slug in two of them: its table of contents is made of the tables of the chapters. -/
theorem C97_chapters {E : Env} {o : Options} (hp : o.parser ≠ .redcarpet) (hs : o.skipLines = 0) (hk : o.keep ≥ 1) (hc : (isOrdered o && !o.constantOrdered) = false)
    (hsha : ∀ b b', E.sha1 b = E.sha1 b' → b = b') {f : Nat} {cs : List (Str × List (Nat × Str) × Str)} (h : ∀ c ∈ cs, Chapter E o f c.1 c.2.1 c.2.2)
    (hslug : cs.Pairwise (fun c c' => NoCommonSlug E o c.2.1 c'.2.1)) (fn : Str) :
    buildToc E o fn (some ⟨(cs.map (·.1)).flatten, false⟩) = .ok (cs.map (·.2.2)).flatten := by
  have key : ∀ {cs : List (Str × List (Nat × Str) × Str)}, (∀ c ∈ cs, Chapter E o f c.1 c.2.1 c.2.2) → cs.Pairwise (fun c c' => NoCommonSlug E o c.2.1 c'.2.1) →
      Chapter E o f (cs.map (·.1)).flatten (cs.map (·.2.1)).flatten (cs.map (·.2.2)).flatten := by
    intro cs
    induction cs with
    | nil =>
      intro _ _
      refine ⟨.inl rfl, ⟨[], .nil, .nil⟩, ⟨[], ⟨[], .nil, ?_⟩, .nil⟩, by simp [levelsOf], by simp [levelsOf], ?_⟩
      · unfold SeenLines
        rw [if_neg hp, List.drop_nil]
        exact .nil
      · have hs0 : o.skipLines ≥ 0 := by omega
        rw [List.map_nil, List.flatten_nil, buildToc_seen (vs := []) hs0 .nil (by unfold SeenLines; rw [if_neg hp, List.drop_nil]; exact .nil)]
        rfl
    | cons c cs ih =>
      intro h hx
      rw [List.pairwise_cons] at hx
      have := chapter_join hp hs hk hc hsha (h c (by simp)) (ih (fun d hd => h d (by simp [hd])) hx.2) (by
        intro x hx1 y hy b hb
        rw [List.mem_flatten] at hy
        obtain ⟨l, hl, hy⟩ := hy
        obtain ⟨d, hd, rfl⟩ := List.mem_map.mp hl
        exact hx.1 d hd x hx1 y hy b hb)
      simpa using this
  exact chapter_file hp hs hk (key h hslug) fn

/-- **C97**: moving a chapter moves its entries and changes nothing else: two orders of the same chapters have the same tables in the two orders. -/
theorem C97_swap {E : Env} {o : Options} (hp : o.parser ≠ .redcarpet) (hs : o.skipLines = 0) (hk : o.keep ≥ 1) (hc : (isOrdered o && !o.constantOrdered) = false)
    (hsha : ∀ b b', E.sha1 b = E.sha1 b' → b = b') {f : Nat} {cs cs' : List (Str × List (Nat × Str) × Str)} (h : ∀ c ∈ cs, Chapter E o f c.1 c.2.1 c.2.2)
    (hslug : cs.Pairwise (fun c c' => NoCommonSlug E o c.2.1 c'.2.1)) (hperm : cs.Perm cs') (fn : Str) :
    buildToc E o fn (some ⟨(cs.map (·.1)).flatten, false⟩) = .ok (cs.map (·.2.2)).flatten ∧ buildToc E o fn (some ⟨(cs'.map (·.1)).flatten, false⟩) = .ok (cs'.map (·.2.2)).flatten := by
  refine ⟨C97_chapters hp hs hk hc hsha h hslug fn, C97_chapters hp hs hk hc hsha (fun c hcs => h c (hperm.mem_iff.mpr hcs)) ?_ fn⟩
  exact (hperm.pairwise_iff (fun {c c'} g x hx y hy b hb => g y hy x hx b ⟨hb.2, hb.1⟩)).mp hslug

/-- **C97** for redcarpet, whatever the slugs, the levels and the code blocks are. -/
theorem C97_redcarpet {E : Env} {o : Options} (hp : o.parser = .redcarpet) (hs : o.skipLines = 0) (hc : o.ordered = false ∨ o.constantOrdered = true) {fn fn1 fn2 t1 t2 out1 out2 out : Str}
    (hend : t1 = [] ∨ t1.getLast? = some '\n') (h1 : buildToc E o fn1 (some ⟨t1, false⟩) = .ok out1) (h2 : buildToc E o fn2 (some ⟨t2, false⟩) = .ok out2)
    (h : buildToc E o fn (some ⟨t1 ++ t2, false⟩) = .ok out) : out = out1 ++ out2 := by
  have look : ∀ {fn t : Str} {ls : List Str}, Reads t ls → Looks o fn t ls := by
    intro fn t ls hr
    refine ⟨ls, hr, ?_⟩
    unfold SeenLines
    rw [if_pos hp, hs]
    rfl
  obtain ⟨ls1, hr1⟩ := reads_exists t1
  obtain ⟨ls2, hr2⟩ := reads_exists t2
  have hr := reads_join hr1 hr2 hend
  obtain ⟨hd1, hh1⟩ := headings_exists o.parser o.noLinks ls1
  obtain ⟨hd2, hh2⟩ := headings_exists o.parser o.noLinks ls2
  obtain ⟨_, es1, _, r1, g1⟩ := buildToc_run h1 (look hr1)
  obtain ⟨_, es2, _, r2, g2⟩ := buildToc_run h2 (look hr2)
  obtain ⟨_, es, _, r, g⟩ := buildToc_run h (look hr)
  have e1 := redcarpet_entries hp hc g1 hh1 r1
  have e2 := redcarpet_entries hp hc g2 hh2 r2
  have e := redcarpet_entries hp hc g (headings_append hh1 hh2) r
  rw [List.map_append, ← e1, ← e2] at e
  rw [g.2, g1.2, g2.2, e, List.map_append, List.flatten_append]

theorem firstProblem_free {E : Env} {o : Options} (hc : o.ordered = false ∨ o.constantOrdered = true) (hn : o.noIndentation = true ∨ o.noListCoherence = true) (L L' : List Nat) :
    ∀ heads : List (Nat × Str), firstProblem E o L heads = firstProblem E o L' heads := by
  have key : ∀ (L L' : List Nat) (n : Nat) (c : Str), problem E o L n c = problem E o L' n c := by
    intro L L' n c
    have k1 : ∀ L : List Nat, ¬ (o.ordered = true ∧ o.constantOrdered = false ∧ o.parser ≠ .redcarpet ∧ o.parser ≠ .goldmark ∧ numberAfter L n > 999999999) := by
      rintro L ⟨g1, g2, -⟩
      rcases hc with h | h <;> simp_all
    have k2 : ∀ L : List Nat, ¬ (o.noIndentation = false ∧ o.noListCoherence = false ∧ ((∃ f ∈ L.head?, n < f) ∨ ∃ q ∈ L.getLast?, q + 1 < n)) := by
      rintro L ⟨g1, g2, -⟩
      rcases hn with h | h <;> simp_all
    unfold problem
    rw [if_neg (k1 L), if_neg (k1 L'), if_neg (k2 L), if_neg (k2 L')]
  intro heads
  induction heads generalizing L L' with
  | nil => rfl
  | cons x heads ih =>
    obtain ⟨n, c⟩ := x
    rw [firstProblem, firstProblem, key L L' n c]
    cases problem E o L' n c with
    | some e => rfl
    | none => exact ih _ _

/-- **C97** for redcarpet: without the check of the list the table of the two exists if both tables exist. -/
theorem C97_redcarpet_exists {E : Env} {o : Options} (hp : o.parser = .redcarpet) (hs : o.skipLines = 0) (hk : o.keep ≥ 1) (hc : o.ordered = false ∨ o.constantOrdered = true)
    (hn : o.noIndentation = true ∨ o.noListCoherence = true) {fn fn1 fn2 t1 t2 out1 out2 : Str} (hend : t1 = [] ∨ t1.getLast? = some '\n')
    (h1 : buildToc E o fn1 (some ⟨t1, false⟩) = .ok out1) (h2 : buildToc E o fn2 (some ⟨t2, false⟩) = .ok out2) :
    buildToc E o fn (some ⟨t1 ++ t2, false⟩) = .ok (out1 ++ out2) := by
  have look : ∀ {fn t : Str} {ls : List Str}, Reads t ls → Looks o fn t ls := by
    intro fn t ls hr
    refine ⟨ls, hr, ?_⟩
    unfold SeenLines
    rw [if_pos hp, hs]
    rfl
  obtain ⟨ls1, hr1⟩ := reads_exists t1
  obtain ⟨ls2, hr2⟩ := reads_exists t2
  obtain ⟨hd1, hh1⟩ := headings_exists o.parser (ownLinks o) ls1
  obtain ⟨hd2, hh2⟩ := headings_exists o.parser (ownLinks o) ls2
  have p1 := C96_first_problem (E := E) (by omega) hk (look (fn := fn1) hr1) hh1
  have p2 := C96_first_problem (E := E) (by omega) hk (look (fn := fn2) hr2) hh2
  have p := C96_first_problem (E := E) (by omega) hk (look (fn := fn) (reads_join hr1 hr2 hend)) (headings_append hh1 hh2)
  have f1 : firstProblem E o [] hd1 = none := by
    cases hf : firstProblem E o [] hd1 with
    | none => rfl
    | some e => rw [hf] at p1; rw [h1] at p1; cases p1
  have f2 : firstProblem E o [] hd2 = none := by
    cases hf : firstProblem E o [] hd2 with
    | none => rfl
    | some e => rw [hf] at p2; rw [h2] at p2; cases p2
  rw [firstProblem_append, f1] at p
  simp only at p
  rw [firstProblem_free hc hn _ [], f2] at p
  obtain ⟨out, h⟩ := p
  rw [h, C97_redcarpet hp hs hc hend h1 h2 h]

/-- The conditions matter: a common slug is numbered, a deeper first entry is indented, an open code block hides the second document. -/
theorem C97_needs :
    buildToc asciiEnv {} "a.md".toList (some ⟨"# a\n# a\n".toList, false⟩) = .ok "- [a](#a)\n- [a](#a-1)\n".toList ∧
      buildToc asciiEnv {} "a.md".toList (some ⟨"# a\n".toList, false⟩) = .ok "- [a](#a)\n".toList ∧
      buildToc asciiEnv {} "a.md".toList (some ⟨"# a\n## b\n".toList, false⟩) = .ok "- [a](#a)\n  - [b](#b)\n".toList ∧
      buildToc asciiEnv {} "a.md".toList (some ⟨"## b\n".toList, false⟩) = .ok "- [b](#b)\n".toList ∧
      buildToc asciiEnv {} "a.md".toList (some ⟨"# a\n```\n# c\n\n".toList, false⟩) = .ok "- [a](#a)\n".toList := by decide +kernel

/-- The theorem applied to two chapters, the second one before the first one and behind it. -/
example : buildToc asciiEnv {} "a.md".toList (some ⟨"# a\n## b\n# c\n".toList, false⟩) = .ok "- [a](#a)\n  - [b](#b)\n- [c](#c)\n".toList ∧
    buildToc asciiEnv {} "a.md".toList (some ⟨"# c\n# a\n## b\n".toList, false⟩) = .ok "- [c](#c)\n- [a](#a)\n  - [b](#b)\n".toList := by
  have hhead : ∀ {x : Char} {k : Nat}, (x = 'a' ∧ k = 1) ∨ (x = 'b' ∧ k = 2) ∨ (x = 'c' ∧ k = 1) → Heading .github true (List.replicate k '#' ++ [' ', x, '\n']) k [x] := by
    intro x k hx
    have hnl : ∀ c ∈ List.replicate k '#' ++ [' ', x], ¬ IsNewline c := by
      unfold IsNewline
      rcases hx with ⟨rfl, rfl⟩ | ⟨rfl, rfl⟩ | ⟨rfl, rfl⟩ <;> decide
    have hatx : IsAtx .github (List.replicate k '#' ++ [' ', x]) k [' ', x] := by
      refine ⟨0, by decide, ?_, ?_, ?_, by intro c hc; injection hc with hc; subst hc; rfl⟩
      all_goals rcases hx with ⟨rfl, rfl⟩ | ⟨rfl, rfl⟩ | ⟨rfl, rfl⟩ <;> decide
    obtain ⟨c, h1, h2⟩ := atxCmark_heading (p := .github) rfl hatx hnl
    have h3 := h2 3 true true
    have h4 : atxCmark .github 3 true true (List.replicate k '#' ++ [' ', x]) = .ok (⟨some k, some [x], if (k : Int) > 3 then false else true⟩, true) := by
      rcases hx with ⟨rfl, rfl⟩ | ⟨rfl, rfl⟩ | ⟨rfl, rfl⟩ <;> decide +kernel
    rw [h4] at h3
    have hc : c = [x] := by
      simp only [if_true, Except.map, Except.ok.injEq, Prod.mk.injEq, AtxElem.mk.injEq, Option.some.injEq] at h3
      exact h3.1.2.1.symm
    subst hc
    refine ⟨_, [' ', x], [x], (by simpa using body_line (b := List.replicate k '#' ++ [' ', x]) hnl), ?_⟩
    rw [if_neg (by decide)]
    exact ⟨hatx, h1, rfl⟩
  have c1 : Chapter asciiEnv {} 1 "# a\n## b\n".toList [(1, ['a']), (2, ['b'])] "- [a](#a)\n  - [b](#b)\n".toList := by
    refine ⟨.inr (by decide), ⟨["# a\n".toList, "## b\n".toList], (reads_iff (bad := false)).mpr (by decide +kernel), ?_⟩, ⟨["# a\n".toList, "## b\n".toList], ?_, ?_⟩, ?_, ?_, ?_⟩
    · exact .line (ls := ["# a\n".toList]) (.line (ls := []) .nil ((isOpening_none_iff (p := .github) rfl _).mp (by decide +kernel))) ((isOpening_none_iff (p := .github) rfl _).mp (by decide +kernel))
    · refine looks_headings (o := {}) (ms := ["# a\n".toList, "## b\n".toList]) (by decide) rfl ?_
      intro m hm
      simp only [List.mem_cons, List.not_mem_nil, or_false] at hm
      rcases hm with rfl | rfl
      · exact ⟨" a".toList, by decide, by decide⟩
      · exact ⟨"# b".toList, by decide, by decide⟩
    · exact .heading (hhead (.inl ⟨rfl, rfl⟩)) (.heading (hhead (.inr (.inl ⟨rfl, rfl⟩))) .nil)
    · decide +kernel
    · decide +kernel
    · decide +kernel
  have c2 : Chapter asciiEnv {} 1 "# c\n".toList [(1, ['c'])] "- [c](#c)\n".toList := by
    refine ⟨.inr (by decide), ⟨["# c\n".toList], (reads_iff (bad := false)).mpr (by decide +kernel), ?_⟩, ⟨["# c\n".toList], ?_, ?_⟩, ?_, ?_, ?_⟩
    · exact .line (ls := []) .nil ((isOpening_none_iff (p := .github) rfl _).mp (by decide +kernel))
    · refine looks_headings (o := {}) (ms := ["# c\n".toList]) (by decide) rfl ?_
      intro m hm
      simp only [List.mem_cons, List.not_mem_nil, or_false] at hm
      subst hm
      exact ⟨" c".toList, by decide, by decide⟩
    · exact .heading (hhead (.inr (.inr ⟨rfl, rfl⟩))) .nil
    · decide +kernel
    · decide +kernel
    · decide +kernel
  have slug : ∀ x ∈ ['a', 'b', 'c'], ∀ b, BaseSlug asciiEnv .github (shownText {} [x]) b → b = [x] := by
    intro x hx b hb
    have : (buildAnchorLink asciiEnv (shownText {} [x]) (fun _ => 0) .github).map (·.1) = .ok [x] := by
      simp only [List.mem_cons, List.not_mem_nil, or_false] at hx
      rcases hx with rfl | rfl | rfl <;> decide +kernel
    obtain ⟨d, hb⟩ := hb
    rw [hb] at this
    injection this
  have hno : NoCommonSlug asciiEnv {} [(1, ['a']), (2, ['b'])] [(1, ['c'])] := by
    rintro x hx y hy b ⟨h1, h2⟩
    simp only [List.mem_cons, List.not_mem_nil, or_false] at hx hy
    subst hy
    have g2 := slug 'c' (by decide) b h2
    rcases hx with rfl | rfl
    · have g1 := slug 'a' (by decide) b h1
      rw [g2] at g1
      exact absurd g1 (by decide)
    · have g1 := slug 'b' (by decide) b h1
      rw [g2] at g1
      exact absurd g1 (by decide)
  exact C97_swap (E := asciiEnv) (o := {}) (cs := [("# a\n## b\n".toList, [(1, ['a']), (2, ['b'])], "- [a](#a)\n  - [b](#b)\n".toList), ("# c\n".toList, [(1, ['c'])], "- [c](#c)\n".toList)])
    (cs' := [("# c\n".toList, [(1, ['c'])], "- [c](#c)\n".toList), ("# a\n## b\n".toList, [(1, ['a']), (2, ['b'])], "- [a](#a)\n  - [b](#b)\n".toList)])
    (by decide) rfl (by decide) rfl (fun _ _ h => h) (f := 1) (by simpa using ⟨c1, c2⟩) (by simpa using hno) (.swap _ _ _) "a.md".toList

/-- The theorem for redcarpet, with a common slug, a code block that is not closed and a second document that starts with a deeper heading. -/
example : buildToc asciiEnv { parser := .redcarpet, noListCoherence := true } "a.md".toList (some ⟨"# a\n```\n### a\n".toList, false⟩) = .ok "- [a](#a)\n        - [a](#a)\n".toList :=
  C97_redcarpet_exists (E := asciiEnv) (o := { parser := .redcarpet, noListCoherence := true }) rfl rfl (by decide) (.inl rfl) (.inr rfl) (fn1 := "b".toList) (fn2 := "c".toList)
    (t1 := "# a\n```\n".toList) (t2 := "### a\n".toList) (out1 := "- [a](#a)\n".toList) (out2 := "        - [a](#a)\n".toList) (.inr (by decide)) (by decide +kernel) (by decide +kernel)

end MdToc.Props
