import Verif.Lemmas.Toc

/-!
# Entries of the table of contents
-/

set_option linter.unusedSimpArgs false

namespace MdToc

open MdToc.Spec

/-- The entries are numbered. -/
def Options.counts (o : Options) : Bool := o.effOrdered && !o.constantOrdered

/-- The entry for a heading, from the state after it. -/
def entryOf (o : Options) (st' : TocState) (h : Header) : Entry where
  level := h.headerType
  number := if o.counts then (st'.counter h.headerType).getD 0 else 1
  indent := if o.noIndentation then 0 else (st'.log h.headerType).spaces
  text := h.textOriginal
  anchor := h.anchor

/-- The line of an entry with the options. -/
def Options.line (o : Options) (e : Entry) : Str := e.line o.effOrdered o.noLinks o.effMarker o.newline

/-- The counter after a heading. -/
def nextCounter (o : Options) (st : TocState) (c : Nat) : Except Exn Counter :=
  if o.counts then increaseIndex st.counter st.prev c o.parser else .ok st.counter

/-- `addHeader` in steps. -/
theorem addHeader_eq (o : Options) (st : TocState) (h : Header) :
    addHeader o st h =
      (nextCounter o st h.headerType >>= fun counter =>
        let index := if o.counts then (counter h.headerType).getD 0 else 1
        (if o.noIndentation then .ok (0, st.log, st.first)
          else if incoherent o st h.headerType then .error .TocDoesNotRenderAsCoherentList
          else (computeIndent h.headerType (prevFor o st h.headerType) o.parser o.effOrdered o.effMarker st.log index).map
            (fun log => ((log h.headerType).spaces, log, firstFor o st h.headerType))) >>= fun r =>
        (buildTocLineNoIndent h o.effOrdered o.noLinks index o.parser o.effMarker) >>= fun line =>
        .ok { st with
          counter := counter
          prev := h.headerType
          first := r.2.2
          log := r.2.1
          toc := st.toc ++ [buildTocLine line r.1 ++ o.newline] }) := by
  unfold addHeader nextCounter
  simp only [bind, Except.bind, Except.map, Options.counts]
  rcases Bool.eq_false_or_eq_true (o.effOrdered && !o.constantOrdered) with ho | ho
  · simp only [ho, if_true]
    cases increaseIndex st.counter st.prev h.headerType o.parser with
    | error e => rfl
    | ok counter =>
      simp only
      rcases Bool.eq_false_or_eq_true o.noIndentation with hn | hn
      · simp only [hn, if_true]
      · simp only [hn, Bool.false_eq_true, if_false]
        split
        · rfl
        · cases computeIndent h.headerType (prevFor o st h.headerType) o.parser o.effOrdered o.effMarker st.log
            ((counter h.headerType).getD 0) <;> rfl
  · simp only [ho, Bool.false_eq_true, if_false]
    rcases Bool.eq_false_or_eq_true o.noIndentation with hn | hn
    · simp only [hn, if_true]
    · simp only [hn, Bool.false_eq_true, if_false]
      split
      · rfl
      · cases computeIndent h.headerType (prevFor o st h.headerType) o.parser o.effOrdered o.effMarker st.log 1 <;> rfl

theorem buildTocLineNoIndent_ok {h : Header} {ordered noLinks : Bool} {index : Nat} {p : Parser} {marker line : Str}
    (e : buildTocLineNoIndent h ordered noLinks index p marker = .ok line) :
    1 ≤ h.headerType ∧ 1 ≤ index ∧ markerOk p ordered marker = true ∧ ∀ spaces nl lev,
      buildTocLine line spaces ++ nl =
        Entry.line ordered noLinks marker nl ⟨lev, index, spaces, h.textOriginal, h.anchor⟩ := by
  unfold buildTocLineNoIndent at e
  split at e
  · simp at e
  · rename_i h1
    split at e
    · simp at e
    · rename_i h2
      split at e
      · simp at e
      · rename_i h3
        injection e with e
        subst e
        refine ⟨not_not.mp h1, not_not.mp h2, by simpa using h3, ?_⟩
        intro spaces nl lev
        simp only [buildTocLine, Entry.line, markerText, natStr_eq, Entry.content]
        cases ordered <;> cases noLinks <;> simp [List.append_assoc]

/-- What holds after a heading was added. -/
theorem addHeader_ok {o : Options} {st st' : TocState} {h : Header} (e : addHeader o st h = .ok st') :
    st'.toc = st.toc ++ [o.line (entryOf o st' h)] ∧ st'.prev = h.headerType ∧ 1 ≤ h.headerType ∧
    markerOk o.parser o.effOrdered o.effMarker = true ∧ 1 ≤ (entryOf o st' h).number ∧
    nextCounter o st h.headerType = .ok st'.counter ∧
    (o.noIndentation = true → st'.log = st.log ∧ st'.first = st.first) ∧
    (o.noIndentation = false → incoherent o st h.headerType = false ∧ st'.first = firstFor o st h.headerType ∧
      computeIndent h.headerType (prevFor o st h.headerType) o.parser o.effOrdered o.effMarker st.log (entryOf o st' h).number = .ok st'.log) := by
  rw [addHeader_eq] at e
  simp only [bind, Except.bind] at e
  cases hc : nextCounter o st h.headerType with
  | error e' => rw [hc] at e; simp at e
  | ok counter =>
    rw [hc] at e
    simp only at e
    cases hni : o.noIndentation
    · rw [hni] at e
      simp only [Bool.false_eq_true, if_false] at e
      cases hin : incoherent o st h.headerType
      · rw [hin] at e
        simp only [Bool.false_eq_true, if_false] at e
        cases hci : computeIndent h.headerType (prevFor o st h.headerType) o.parser o.effOrdered o.effMarker st.log
            (if o.counts then (counter h.headerType).getD 0 else 1) with
        | error e' => rw [hci] at e; simp [Except.map] at e
        | ok log =>
          rw [hci] at e
          simp only [Except.map] at e
          cases hl : buildTocLineNoIndent h o.effOrdered o.noLinks (if o.counts then (counter h.headerType).getD 0 else 1)
              o.parser o.effMarker with
          | error e' => rw [hl] at e; simp at e
          | ok line =>
            rw [hl] at e
            simp only at e
            injection e with e
            subst e
            obtain ⟨h1, h2, h3, h4⟩ := buildTocLineNoIndent_ok hl
            refine ⟨?_, rfl, h1, h3, h2, rfl, by simp, fun _ => ⟨rfl, rfl, hci⟩⟩
            simp only [entryOf, hni, Bool.false_eq_true, if_false, Options.line]
            rw [h4 _ _ h.headerType]
      · rw [hin] at e; simp at e
    · rw [hni] at e
      simp only [if_true] at e
      cases hl : buildTocLineNoIndent h o.effOrdered o.noLinks (if o.counts then (counter h.headerType).getD 0 else 1)
          o.parser o.effMarker with
      | error e' => rw [hl] at e; simp at e
      | ok line =>
        rw [hl] at e
        simp only at e
        injection e with e
        subst e
        obtain ⟨h1, h2, h3, h4⟩ := buildTocLineNoIndent_ok hl
        refine ⟨?_, rfl, h1, h3, h2, rfl, fun _ => ⟨rfl, rfl⟩, by simp⟩
        simp only [entryOf, hni, if_true, Options.line]
        rw [h4 _ _ h.headerType]

/-- A run with its entries. -/
inductive Run (o : Options) (st : TocState) : List Header → List Entry → TocState → Prop
  | nil : Run o st [] [] st
  | snoc {hs : List Header} {es : List Entry} {st1 st2 : TocState} {h : Header} : Run o st hs es st1 →
      addHeader o st1 h = .ok st2 → Run o st (hs ++ [h]) (es ++ [entryOf o st2 h]) st2

theorem Run.nil_inv {o : Options} {st st' : TocState} {hs : List Header} {es : List Entry} (h : Run o st hs es st') (he : es = []) :
    st' = st ∧ hs = [] := by
  cases h with
  | nil => exact ⟨rfl, rfl⟩
  | snoc _ _ => simp at he

theorem run_of_addRun {o : Options} {hs : List Header} {st st' : TocState} (h : addRun o hs st = .ok st') :
    ∃ es, Run o st hs es st' := by
  generalize hn : hs.length = n
  induction n generalizing hs st' with
  | zero =>
    have := List.eq_nil_of_length_eq_zero hn
    subst this
    injection h with h
    subst h
    exact ⟨[], .nil⟩
  | succ n ih =>
    rcases List.eq_nil_or_concat hs with rfl | ⟨hs0, x, rfl⟩
    · simp at hn
    · rw [List.concat_eq_append] at *
      rw [addRun_append] at h
      cases ha : addRun o hs0 st with
      | error e => rw [ha] at h; simp [bind, Except.bind] at h
      | ok st1 =>
        rw [ha] at h
        simp only [bind, Except.bind, addRun] at h
        cases hx : addHeader o st1 x with
        | error e => rw [hx] at h; simp at h
        | ok st2 =>
          rw [hx] at h
          injection h with h
          subst h
          obtain ⟨es, hr⟩ := ih ha (by simpa using hn)
          exact ⟨_, .snoc hr hx⟩

/-- The fields of the entries that come from the headings. -/
def Header.info (h : Header) : Nat × Str × Str := (h.headerType, h.textOriginal, h.anchor)

theorem Run.info {o : Options} {st st' : TocState} {hs : List Header} {es : List Entry} (h : Run o st hs es st') :
    es.map (fun e => (e.level, e.text, e.anchor)) = hs.map Header.info ∧ st'.toc = st.toc ++ es.map o.line ∧
      st'.prev = ((es.map (·.level)).getLast?).getD st.prev ∧ (∀ e ∈ es, 1 ≤ e.level ∧ 1 ≤ e.number) ∧
      (es ≠ [] → markerOk o.parser o.effOrdered o.effMarker = true) := by
  induction h with
  | nil => simp
  | @snoc hs es st1 st2 h hr ha ih =>
    obtain ⟨i1, i2, i3, i4, i5⟩ := ih
    obtain ⟨a1, a2, a3, a4, a5, -⟩ := addHeader_ok ha
    refine ⟨?_, ?_, ?_, ?_, fun _ => a4⟩
    · simp [i1, entryOf, Header.info]
    · rw [a1, i2]; simp
    · rw [a2]; simp [entryOf]
    · intro e he
      rcases List.mem_append.mp he with he | he
      · exact i4 e he
      · simp at he; subst he; exact ⟨a3, a5⟩

theorem each_snoc {α : Type} {P : List α → α → Prop} {es : List α} {e : α} (h : Each P es) (he : P es e) : Each P (es ++ [e]) := by
  intro pre x post heq
  rcases List.eq_nil_or_concat post with rfl | ⟨post', y, rfl⟩
  · have := List.append_inj' heq rfl
    obtain ⟨h1, h2⟩ := this
    simp at h2
    rw [← h1, ← h2]; exact he
  · have heq' : es ++ [e] = (pre ++ x :: post') ++ [y] := by simpa using heq
    have := (List.append_inj' heq' rfl).1
    exact h pre x post' this

theorem each_nil {α : Type} {P : List α → α → Prop} : Each P ([] : List α) := by
  intro pre x post h; simp at h

/-! ### Coherence -/

/-- The conditions of the coherence check for a level after others. -/
def CoherentStep (before : List Nat) (n : Nat) : Prop :=
  (∀ f ∈ before.head?, f ≤ n) ∧ ∀ a ∈ before.getLast?, n ≤ a + 1

theorem coherent_nil : Coherent [] := ⟨by simp, by intro pre a b post h; simp at h⟩

theorem coherent_snoc {ls : List Nat} {n : Nat} : Coherent (ls ++ [n]) ↔ Coherent ls ∧ CoherentStep ls n := by
  constructor
  · rintro ⟨h1, h2⟩
    refine ⟨⟨?_, ?_⟩, ?_, ?_⟩
    · intro f hf m hm
      exact h1 f (by cases ls <;> simp_all) m (by simp [hm])
    · intro pre a b post h
      exact h2 pre a b (post ++ [n]) (by rw [h]; simp)
    · intro f hf
      exact h1 f (by cases ls <;> simp_all) n (by simp)
    · intro a ha
      obtain ⟨pre, rfl⟩ := List.getLast?_eq_some_iff.mp ha
      exact h2 pre a n [] (by simp)
  · rintro ⟨⟨h1, h2⟩, h3, h4⟩
    refine ⟨?_, ?_⟩
    · intro f hf m hm
      rcases List.mem_append.mp hm with hm | hm
      · exact h1 f (by cases ls <;> simp_all) m hm
      · simp at hm; subst hm
        cases ls with
        | nil => simp at hf; omega
        | cons x ls => exact h3 f (by simpa using hf)
    · intro pre a b post h
      rcases List.eq_nil_or_concat post with rfl | ⟨post', y, rfl⟩
      · have h' : ls ++ [n] = (pre ++ [a]) ++ [b] := by simpa using h
        obtain ⟨e1, e2⟩ := List.append_inj' h' rfl
        simp at e2
        subst e2
        exact h4 a (by rw [e1]; simp)
      · have h' : ls ++ [n] = (pre ++ a :: b :: post') ++ [y] := by simpa using h
        exact h2 pre a b post' (List.append_inj' h' rfl).1

/-- With the coherence check the levels so far are coherent and the state has the first one. -/
theorem Run.coherent {o : Options} {hs : List Header} {es : List Entry} {st' : TocState} {m : Str} (h : Run o (TocState.init m) hs es st')
    (h1 : o.noIndentation = false) (h2 : o.noListCoherence = false) :
    Coherent (es.map (·.level)) ∧ st'.first = (es.map (·.level)).head?.getD 0 := by
  induction h with
  | nil => exact ⟨coherent_nil, rfl⟩
  | @snoc hs es st1 st2 h hr ha ih =>
    obtain ⟨i1, i2⟩ := ih
    obtain ⟨j1, j2, j3, j4, j5⟩ := hr.info
    obtain ⟨a1, a2, a3, a4, a5, a6, a7, a8⟩ := addHeader_ok ha
    obtain ⟨b1, b2, b3⟩ := a8 h1
    have hlev : (entryOf o st2 h).level = h.headerType := rfl
    rw [List.map_append, List.map_singleton, hlev]
    have hpos : ∀ n ∈ es.map (·.level), 1 ≤ n := by
      intro n hn
      obtain ⟨e, he, rfl⟩ := List.mem_map.mp hn
      exact (j4 e he).1
    simp only [incoherent, firstFor, prevFor, h2, Bool.not_false, Bool.true_and, Bool.or_eq_false_iff, decide_eq_false_iff_not] at b1
    rw [coherent_snoc]
    generalize es.map (·.level) = L at *
    refine ⟨⟨i1, ?_, ?_⟩, ?_⟩
    · intro f hf
      rw [Option.mem_def] at hf
      rw [i2, hf] at b1
      have : 1 ≤ f := hpos f (List.mem_of_mem_head? hf)
      have hf0 : ((some f).getD 0 == 0) = false := by simp; omega
      rw [hf0] at b1
      simp at b1
      exact b1.1
    · intro a ha
      rw [Option.mem_def] at ha
      rw [j3, ha] at b1
      have : 1 ≤ a := hpos a (List.mem_of_getLast? ha)
      have ha0 : ((some a).getD (TocState.init m).prev == 0) = false := by simp; omega
      rw [ha0] at b1
      simp at b1
      exact b1.2
    · rw [b2, firstFor, h2, i2]
      cases L with
      | nil => simp
      | cons x L =>
        have : 1 ≤ x := hpos x (by simp)
        have hx0 : (x == 0) = false := by simp; omega
        simp [hx0]

/-! ### Numbers -/

theorem increaseIndex_ok {cnt cnt' : Counter} {prev curr : Nat} {p : Parser} (h : increaseIndex cnt prev curr p = .ok cnt') :
    1 ≤ curr ∧ cnt' = (fun i => if i = curr then
      some ((if (cnt curr).isNone ∨ (if prev = 0 then curr else prev) < curr then 0 else (cnt curr).getD 0) + 1) else cnt i) ∧
    (p.limited = true → (cnt' curr).getD 0 ≤ maxMarkerNumber) := by
  unfold increaseIndex at h
  split at h
  · simp at h
  · rename_i h1
    simp only at h
    by_cases h2 : p.limited = true ∧ (if (cnt curr).isNone = true ∨ (if prev = 0 then curr else prev) < curr then 0 else (cnt curr).getD 0) + 1 > maxMarkerNumber
    · rw [if_pos h2] at h; simp at h
    · rw [if_neg h2] at h
      injection h with h
      refine ⟨not_not.mp h1, h.symm, ?_⟩
      intro hl
      rw [← h]
      simp only [if_true, Option.getD_some]
      simp only [hl, true_and, gt_iff_lt, Nat.not_lt] at h2
      exact h2

/-- Entries of level `n` since the last one of a smaller level. -/
def since (n : Nat) (before : List Nat) : Nat := (before.reverse.takeWhile (fun m => n ≤ m)).count n

theorem since_snoc (n m : Nat) (before : List Nat) :
    since n (before ++ [m]) = if m < n then 0 else since n before + (if m = n then 1 else 0) := by
  unfold since
  rw [List.reverse_append, List.reverse_singleton, List.singleton_append, List.takeWhile_cons]
  by_cases h : m < n
  · have : ¬ n ≤ m := by omega
    simp [h, this]
  · have : n ≤ m := by omega
    simp only [this, decide_true, if_true, h, if_false, List.count_cons]
    congr 1
    by_cases e : m = n <;> simp [e]

/-- The counter for levels not deeper than the last one. -/
theorem Run.numbers {o : Options} {hs : List Header} {es : List Entry} {st' : TocState} {m : Str} (h : Run o (TocState.init m) hs es st')
    (hc : o.counts = true) (hcoh : Coherent (es.map (·.level))) :
    (∀ n, n ≤ st'.prev → ((st'.counter n).getD 0 = since n (es.map (·.level)))) ∧
    Each (fun before e => e.number = siblingNumber (before.map (·.level)) e.level) es := by
  induction h with
  | nil =>
    refine ⟨?_, each_nil⟩
    intro n hn
    simp [TocState.init, since]
  | @snoc hs es st1 st2 h hr ha ih =>
    have hlev : (entryOf o st2 h).level = h.headerType := rfl
    rw [List.map_append, List.map_singleton, hlev, coherent_snoc] at hcoh
    obtain ⟨i1, i2⟩ := ih hcoh.1
    obtain ⟨j1, j2, j3, j4, j5⟩ := hr.info
    obtain ⟨a1, a2, a3, a4, a5, a6, -⟩ := addHeader_ok ha
    rw [nextCounter, hc, if_pos rfl] at a6
    obtain ⟨b1, b2, -⟩ := increaseIndex_ok a6
    have hpos : ∀ n ∈ es.map (·.level), 1 ≤ n := by
      intro n hn
      obtain ⟨e, he, rfl⟩ := List.mem_map.mp hn
      exact (j4 e he).1
    have key : (st2.counter h.headerType).getD 0 = since h.headerType (es.map (·.level)) + 1 := by
      rw [b2]
      simp only [if_true, Option.getD_some]
      congr 1
      by_cases hp0 : st1.prev = 0
      · -- the first entry
        have hes : es.map (·.level) = [] := by
          generalize es.map (·.level) = L at *
          rcases List.eq_nil_or_concat L with rfl | ⟨L', x, rfl⟩
          · rfl
          · rw [List.concat_eq_append] at *
            have : 1 ≤ x := hpos x (by simp)
            simp at j3
            omega
        rw [hes, if_pos hp0]
        cases hcc : st1.counter h.headerType with
        | none => simp [since]
        | some v =>
          exfalso
          have hes' : es = [] := by simpa using hes
          rw [(hr.nil_inv hes').1] at hcc
          simp [TocState.init] at hcc
      · rw [if_neg hp0]
        have hlast : (es.map (·.level)).getLast? = some st1.prev := by
          cases hg : (es.map (·.level)).getLast? with
          | none => rw [hg] at j3; simp [TocState.init] at j3; exact absurd j3 hp0
          | some x => rw [hg] at j3; simp at j3; rw [j3]
        by_cases hlt : st1.prev < h.headerType
        · rw [if_pos (.inr hlt)]
          obtain ⟨L', hL'⟩ := List.getLast?_eq_some_iff.mp hlast
          rw [hL', since_snoc, if_pos hlt]
        · have := i1 h.headerType (by omega)
          rw [← this]
          by_cases hn : (st1.counter h.headerType).isNone
          · rw [if_pos (.inl hn)]
            have : st1.counter h.headerType = none := by simpa using hn
            rw [this]; rfl
          · rw [if_neg (by rintro (h | h); exact hn h; exact hlt h)]
    refine ⟨?_, ?_⟩
    · intro n hn
      rw [a2] at hn
      rw [List.map_append, List.map_singleton, hlev, since_snoc]
      by_cases e : h.headerType = n
      · subst e
        rw [if_neg (by omega), key]; simp
      · rw [if_neg (by omega), if_neg e, b2]
        simp only [if_neg (Ne.symm e)]
        rw [Nat.add_zero]
        rcases List.eq_nil_or_concat es with hes | ⟨es', x, hes⟩
        · rw [(hr.nil_inv hes).1, hes]
          simp [TocState.init, since]
        · apply i1
          have := hcoh.2.2 x.level (by rw [hes]; simp)
          rw [hes] at j3
          simp at j3
          omega
    · refine each_snoc i2 ?_
      show (if o.counts then (st2.counter h.headerType).getD 0 else 1) = _
      rw [hc, if_pos rfl, key]
      rfl

/-! ### Indentation -/

theorem parent_snoc (es : List Entry) (x : Entry) (n : Nat) :
    parent (es ++ [x]) n = if x.level < n then some x else parent es n := by
  unfold parent
  rw [List.reverse_append, List.reverse_singleton, List.singleton_append, List.find?_cons]
  by_cases h : x.level < n <;> simp [h]

theorem parent_append_ge (es post : List Entry) (n : Nat) (h : ∀ x ∈ post, n ≤ x.level) : parent (es ++ post) n = parent es n := by
  generalize hk : post.length = k
  induction k generalizing post with
  | zero => have := List.eq_nil_of_length_eq_zero hk; subst this; simp
  | succ k ih =>
    rcases List.eq_nil_or_concat post with rfl | ⟨post', x, rfl⟩
    · simp at hk
    · rw [List.concat_eq_append] at *
      rw [← List.append_assoc, parent_snoc, if_neg (by have := h x (by simp); omega)]
      exact ih post' (fun y hy => h y (by simp [hy])) (by simpa using hk)

theorem parent_split {es : List Entry} {n : Nat} {e : Entry} (h : parent es n = some e) :
    ∃ pre post, es = pre ++ e :: post ∧ e.level < n ∧ ∀ x ∈ post, n ≤ x.level := by
  unfold parent at h
  obtain ⟨h1, as, bs, h2, h3⟩ := List.find?_eq_some_iff_append.mp h
  refine ⟨bs.reverse, as.reverse, ?_, by simpa using h1, ?_⟩
  · have := congrArg List.reverse h2
    simpa using this
  · intro x hx
    have := h3 x (by simpa using hx)
    simpa using this

theorem computeIndent_ok {curr prev : Nat} {p : Parser} {ordered : Bool} {marker : Str} {log log' : Log} {index : Nat}
    (h : computeIndent curr prev p ordered marker log index = .ok log') :
    1 ≤ curr ∧ curr ≤ 6 ∧ (p.cmarkLike = false → log' = log.set curr { log curr with spaces := 4 * (curr - 1) }) ∧
    (p.cmarkLike = true → (∀ i, i < curr → log' i = log i) ∧ (log' curr).marker = marker ∧
      (ordered = true → (log' curr).index = index) ∧
      (log' curr).spaces = (if prev = 0 then 0 else if curr > prev then
        (log prev).spaces + (log prev).marker.length + (if ordered then (natStr (log prev).index).length else 0) + 1
        else (log curr).spaces)) := by
  unfold computeIndent at h
  split at h
  · simp at h
  rename_i h1
  split at h
  · simp at h
  split at h
  · simp at h
  split at h
  · simp at h
  rename_i h4
  have h4' : 1 ≤ curr ∧ curr ≤ 6 := by
    simp only [inLog, maxLevels, Bool.not_eq_true', Bool.not_eq_false, Bool.and_eq_true, decide_eq_true_eq] at h4
    exact ⟨h4.1, of_decide_eq_true h4.2⟩
  refine ⟨h4'.1, h4'.2, ?_⟩
  split at h
  · rename_i hc
    split at h
    · simp at h
    · refine ⟨by simp [hc], fun _ => ?_⟩
      injection h with h
      subst h
      refine ⟨?_, ?_, ?_, ?_⟩
      · intro i hi
        have hne : i ≠ curr := by omega
        have hni : ¬ (curr < i ∧ i ≤ maxLevels) := by omega
        by_cases hp : prev = 0
        · cases ordered <;> simp [Log.set, hne, hp]
        · by_cases hg : prev < curr
          · cases ordered <;> simp [Log.set, hne, hp, hg]
          · by_cases hl : curr < prev
            · cases ordered <;> simp [Log.set, hne, hp, hg, hl, resetBelow, hni]
            · cases ordered <;> simp [Log.set, hne, hp, hg, hl]
      · simp [Log.set]
      · intro ho; simp [ho, Log.set]
      · by_cases hp : prev = 0
        · cases ordered <;> simp [Log.set, hp]
        · by_cases hg : prev < curr
          · cases ordered <;> simp [Log.set, hp, hg]
          · by_cases hl : curr < prev
            · cases ordered <;> simp [Log.set, hp, hg, hl, resetBelow]
            · cases ordered <;> simp [Log.set, hp, hg, hl]
  · rename_i hc
    injection h with h
    exact ⟨fun _ => h.symm, fun h' => absurd h' hc⟩

theorem initLog_spaces (m : Str) (i : Nat) : (initLog m i).spaces = 0 := rfl

/-- Indentation, for the parsers with nested lists. -/
theorem Run.nested {o : Options} {hs : List Header} {es : List Entry} {st' : TocState} {m : Str} (h : Run o (TocState.init m) hs es st')
    (hc : o.parser.cmarkLike = true) (hni : o.noIndentation = false) (hcoh : Coherent (es.map (·.level))) :
    (∀ n, (∀ f ∈ (es.map (·.level)).head?, f ≤ n) → 1 ≤ n → n ≤ st'.prev → ∃ e, parent es (n + 1) = some e ∧ e.level = n ∧
      (st'.log n).spaces = e.indent ∧ (st'.log n).marker = o.effMarker ∧ (o.effOrdered = true → (st'.log n).index = e.number)) ∧
    Each (Nested o.effOrdered o.effMarker) es := by
  induction h with
  | nil =>
    refine ⟨?_, each_nil⟩
    intro n _ h1 h2
    simp [TocState.init] at h2
    omega
  | @snoc hs es st1 st2 h hr ha ih =>
    have hlev : (entryOf o st2 h).level = h.headerType := rfl
    have hind : (entryOf o st2 h).indent = (st2.log h.headerType).spaces := by simp [entryOf, hni]
    rw [List.map_append, List.map_singleton, hlev, coherent_snoc] at hcoh
    obtain ⟨i1, i2⟩ := ih hcoh.1
    obtain ⟨j1, j2, j3, j4, j5⟩ := hr.info
    obtain ⟨a1, a2, a3, a4, a5, a6, a7, a8⟩ := addHeader_ok ha
    obtain ⟨-, b2, b3⟩ := a8 hni
    obtain ⟨c1, c2, -, c3⟩ := computeIndent_ok b3
    obtain ⟨d1, d2, d3, d4⟩ := c3 hc
    have hprev : st1.prev ≠ 0 → prevFor o st1 h.headerType = st1.prev := by
      intro h0
      have : (st1.prev == 0) = false := by simpa using h0
      simp [prevFor, this]
    rcases List.eq_nil_or_concat es with hes | ⟨es', x, hes⟩
    · -- the first entry
      obtain ⟨hst, -⟩ := hr.nil_inv hes
      have hsp : (st2.log h.headerType).spaces = 0 := by
        rw [d4, hst]
        cases hn : o.noListCoherence <;> simp [prevFor, hn, TocState.init, initLog_spaces]
      refine ⟨?_, each_snoc i2 ?_⟩
      · intro n hn h1 h2
        rw [a2] at h2
        have : n = h.headerType := by
          have := hn h.headerType (by simp [hes, hlev])
          omega
        subst this
        refine ⟨_, by rw [parent_snoc, if_pos (by rw [hlev]; omega)], hlev, hind.symm, d2, fun ho => d3 ho⟩
      · subst hes
        simp [Nested, parent, hind, hsp]
    · rw [List.concat_eq_append] at hes
      have hx : 1 ≤ x.level := (j4 x (by rw [hes]; simp)).1
      have hp : st1.prev = x.level := by rw [j3, hes]; simp
      have hp0 : st1.prev ≠ 0 := by omega
      rw [hprev hp0] at d4
      rw [if_neg hp0] at d4
      have hstep := hcoh.2.2 x.level (by rw [hes]; simp)
      have hhead : ∀ n : Nat, (∀ f ∈ ((es ++ [entryOf o st2 h]).map (·.level)).head?, f ≤ n) ↔ (∀ f ∈ (es.map (·.level)).head?, f ≤ n) := by
        intro n
        rw [hes]
        cases es' <;> simp
      have hfirst : ∀ f ∈ (es.map (·.level)).head?, f ≤ h.headerType := hcoh.2.1
      have hfx : ∀ f ∈ (es.map (·.level)).head?, f ≤ x.level := fun f hf => hcoh.1.1 f hf x.level (by rw [hes]; simp)
      refine ⟨?_, each_snoc i2 ?_⟩
      · intro n hn h1 h2
        rw [hhead] at hn
        rw [a2] at h2
        by_cases e : n = h.headerType
        · subst e
          exact ⟨_, by rw [parent_snoc, if_pos (by rw [hlev]; omega)], hlev, hind.symm, d2, fun ho => d3 ho⟩
        · obtain ⟨q, q1, q2, q3, q4, q5⟩ := i1 n hn h1 (by omega)
          refine ⟨q, by rw [parent_snoc, if_neg (by rw [hlev]; omega)]; exact q1, q2, ?_⟩
          rw [d1 n (by omega)]
          exact ⟨q3, q4, q5⟩
      · unfold Nested
        rw [hlev, hind, d4]
        by_cases hgt : h.headerType > st1.prev
        · rw [if_pos hgt]
          obtain ⟨q, q1, q2, q3, q4, q5⟩ := i1 st1.prev (by rw [hp]; exact hfx) (by omega) (Nat.le_refl _)
          have : h.headerType = st1.prev + 1 := by omega
          rw [this, q1]
          simp only
          rw [q3, q4]
          cases ho : o.effOrdered
          · simp [markerText]
          · rw [q5 ho]
            simp [markerText, natStr_eq]
            omega
        · rw [if_neg hgt]
          obtain ⟨q, q1, q2, q3, q4, q5⟩ := i1 h.headerType hfirst a3 (by omega)
          obtain ⟨pre, post, r1, r2, r3⟩ := parent_split q1
          have : parent es h.headerType = parent pre h.headerType := by
            rw [r1, parent_append_ge]
            intro y hy
            rcases List.mem_cons.mp hy with rfl | hy
            · omega
            · have := r3 y hy; omega
          have hq := i2 pre q post r1
          unfold Nested at hq
          rw [q2] at hq
          rw [this, q3]
          exact hq

/-- Indentation for redcarpet. -/
theorem Run.redcarpet_indent {o : Options} {hs : List Header} {es : List Entry} {st st' : TocState} (h : Run o st hs es st')
    (hc : o.parser.cmarkLike = false) (hni : o.noIndentation = false) : ∀ e ∈ es, e.indent = 4 * (e.level - 1) := by
  induction h with
  | nil => simp
  | @snoc hs es st1 st2 h hr ha ih =>
    intro e he
    rcases List.mem_append.mp he with he | he
    · exact ih e he
    · simp only [List.mem_singleton] at he
      subst he
      obtain ⟨a1, a2, a3, a4, a5, a6, a7, a8⟩ := addHeader_ok ha
      obtain ⟨-, -, b3⟩ := a8 hni
      obtain ⟨c1, c2, c3, -⟩ := computeIndent_ok b3
      simp only [entryOf, hni, Bool.false_eq_true, if_false]
      rw [c3 hc]
      simp [Log.set]

/-- No indentation. -/
theorem Run.no_indent {o : Options} {hs : List Header} {es : List Entry} {st st' : TocState} (h : Run o st hs es st')
    (hni : o.noIndentation = true) : ∀ e ∈ es, e.indent = 0 := by
  induction h with
  | nil => simp
  | @snoc hs es st1 st2 h hr ha ih =>
    intro e he
    rcases List.mem_append.mp he with he | he
    · exact ih e he
    · simp only [List.mem_singleton] at he
      subst he
      simp [entryOf, hni]

/-- Numbers without counting. -/
theorem Run.no_count {o : Options} {hs : List Header} {es : List Entry} {st st' : TocState} (h : Run o st hs es st')
    (hni : o.counts = false) : ∀ e ∈ es, e.number = 1 := by
  induction h with
  | nil => simp
  | @snoc hs es st1 st2 h hr ha ih =>
    intro e he
    rcases List.mem_append.mp he with he | he
    · exact ih e he
    · simp only [List.mem_singleton] at he
      subst he
      simp [entryOf, hni]

/-- Limited numbers. -/
theorem Run.limit {o : Options} {hs : List Header} {es : List Entry} {st st' : TocState} (h : Run o st hs es st')
    (hl : o.parser.limited = true) : ∀ e ∈ es, e.number ≤ 999999999 := by
  induction h with
  | nil => simp
  | @snoc hs es st1 st2 h hr ha ih =>
    intro e he
    rcases List.mem_append.mp he with he | he
    · exact ih e he
    · simp only [List.mem_singleton] at he
      subst he
      obtain ⟨a1, a2, a3, a4, a5, a6, a7, a8⟩ := addHeader_ok ha
      cases hc : o.counts
      · simp [entryOf, hc]
      · rw [nextCounter, hc, if_pos rfl] at a6
        obtain ⟨-, -, b3⟩ := increaseIndex_ok a6
        simpa [entryOf, hc, maxMarkerNumber] using b3 hl

/-- The deepest level with indentation. -/
theorem Run.levels {o : Options} {hs : List Header} {es : List Entry} {st st' : TocState} (h : Run o st hs es st')
    (hni : o.noIndentation = false) : ∀ e ∈ es, e.level ≤ 6 := by
  induction h with
  | nil => simp
  | @snoc hs es st1 st2 h hr ha ih =>
    intro e he
    rcases List.mem_append.mp he with he | he
    · exact ih e he
    · simp only [List.mem_singleton] at he
      subst he
      obtain ⟨a1, a2, a3, a4, a5, a6, a7, a8⟩ := addHeader_ok ha
      obtain ⟨-, -, b3⟩ := a8 hni
      obtain ⟨c1, c2, -⟩ := computeIndent_ok b3
      exact c2

/-- The counters are numbers of entries. -/
theorem Run.counter_mem {o : Options} {hs : List Header} {es : List Entry} {st' : TocState} {m : Str} (h : Run o (TocState.init m) hs es st')
    (hc : o.counts = true) {c k : Nat} (hk : st'.counter c = some k) : ∃ e ∈ es, e.level = c ∧ e.number = k := by
  induction h with
  | nil => simp [TocState.init] at hk
  | @snoc hs es st1 st2 h hr ha ih =>
    obtain ⟨-, -, -, -, -, hn, -⟩ := addHeader_ok ha
    unfold nextCounter at hn
    rw [if_pos hc] at hn
    obtain ⟨-, e, -⟩ := increaseIndex_ok hn
    by_cases hcc : c = h.headerType
    · refine ⟨entryOf o st2 h, by simp, hcc.symm, ?_⟩
      simp [entryOf, hc, ← hcc, hk]
    · rw [e] at hk
      simp [hcc] at hk
      obtain ⟨x, hx, h1, h2⟩ := ih hk
      exact ⟨x, by simp [hx], h1, h2⟩

end MdToc
