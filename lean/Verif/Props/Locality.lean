import Verif.Props.Numbers

/-!
# Renaming a heading: C87
-/

set_option linter.unusedSimpArgs false

namespace MdToc

open MdToc.Spec

/-- The fields of an entry that do not come from the text of the heading. -/
def Spec.Entry.place (e : Entry) : Nat × Nat × Nat := (e.level, e.number, e.indent)

theorem run_places {o : Options} {st : TocState} {hs : List Header} {es : List Entry} {st1 : TocState} (h : Run o st hs es st1) :
    ∀ {hs' : List Header} {es' : List Entry} {st1' : TocState}, Run o st hs' es' st1' → hs.map (·.headerType) = hs'.map (·.headerType) →
      es.map Entry.place = es'.map Entry.place ∧ st1.counter = st1'.counter ∧ st1.prev = st1'.prev ∧ st1.first = st1'.first ∧ st1.log = st1'.log := by
  induction h with
  | nil =>
    intro hs' es' st1' h' hl
    cases h' with
    | nil => exact ⟨rfl, rfl, rfl, rfl, rfl⟩
    | snoc _ _ => simp at hl
  | @snoc hs es st1 st2 h hr ha ih =>
    intro hs' es' st1' h' hl
    cases h' with
    | nil => simp at hl
    | @snoc hs' es' st3 st4 h' hr' ha' =>
      rw [List.map_append, List.map_append] at hl
      obtain ⟨hl1, hl2⟩ := List.append_inj' hl rfl
      simp only [List.map_cons, List.map_nil, List.cons.injEq, and_true] at hl2
      obtain ⟨i1, i2, i3, i4, i5⟩ := ih hr' hl1
      obtain ⟨a1, a2, a3, a4, a5, a6, a7, a8⟩ := addHeader_ok ha
      obtain ⟨b1, b2, b3, b4, b5, b6, b7, b8⟩ := addHeader_ok ha'
      have hcnt : st2.counter = st1'.counter := by
        unfold nextCounter at a6 b6
        rw [i2, i3, hl2] at a6
        rw [a6] at b6
        injection b6
      have hprev : st2.prev = st1'.prev := by rw [a2, b2, hl2]
      have hnum : (entryOf o st2 h).number = (entryOf o st1' h').number := by
        unfold entryOf
        simp only [hcnt, hl2]
      have hrest : st2.first = st1'.first ∧ st2.log = st1'.log := by
        cases hn : o.noIndentation with
        | true =>
          obtain ⟨c1, c2⟩ := a7 hn
          obtain ⟨d1, d2⟩ := b7 hn
          rw [c1, c2, d1, d2]
          exact ⟨i4, i5⟩
        | false =>
          obtain ⟨-, c2, c3⟩ := a8 hn
          obtain ⟨-, d2, d3⟩ := b8 hn
          have hp : prevFor o st1 h.headerType = prevFor o st3 h'.headerType := by unfold prevFor; rw [i3, hl2]
          have hf : firstFor o st1 h.headerType = firstFor o st3 h'.headerType := by unfold firstFor; rw [i4, hl2]
          refine ⟨by rw [c2, d2, hf], ?_⟩
          rw [hp, hl2, i5, hnum, d3] at c3
          injection c3 with c3
          exact c3.symm
      refine ⟨?_, hcnt, hprev, hrest.1, hrest.2⟩
      rw [List.map_append, List.map_append, i1]
      congr 1
      simp only [List.map_cons, List.map_nil, List.cons.injEq, and_true]
      unfold Entry.place
      rw [hnum]
      simp only [entryOf, hl2, hrest.2]

theorem run_levels {o : Options} {st st' : TocState} {hs : List Header} {es : List Entry} (h : Run o st hs es st') : hs.map (·.headerType) = es.map (·.level) := by
  have := congrArg (List.map Prod.fst) h.info.1
  simpa [List.map_map, Function.comp_def, Header.info] using this.symm

/-- The levels, texts and anchors of the listed headings. -/
def listedInfo (q : Nat → Bool) (heads : List (Nat × Str)) (as : List Str) : List (Nat × Str × Str) :=
  ((heads.zip as).filter (fun x => q x.1.1)).map (fun x => (x.1.1, x.1.2, x.2))

theorem listedInfo_append {q : Nat → Bool} {x y : List (Nat × Str)} {u v : List Str} (h : x.length = u.length) :
    listedInfo q (x ++ y) (u ++ v) = listedInfo q x u ++ listedInfo q y v := by
  unfold listedInfo
  rw [List.zip_append h, List.filter_append, List.map_append]

theorem listedInfo_cons {q : Nat → Bool} {n : Nat} {t a : Str} {y : List (Nat × Str)} {v : List Str} :
    listedInfo q ((n, t) :: y) (a :: v) = (if q n then [(n, t, a)] else []) ++ listedInfo q y v := by
  unfold listedInfo
  rw [List.zip_cons_cons, List.filter_cons]
  by_cases h : q n = true <;> simp [h]

/-- The fields of an entry that come from the heading. -/
def Spec.Entry.info (e : Entry) : Nat × Str × Str := (e.level, e.text, e.anchor)

theorem entry_ext {e e' : Entry} (h1 : e.place = e'.place) (h2 : e.info = e'.info) : e = e' := by
  cases e; cases e'
  simp [Entry.place, Entry.info] at h1 h2
  simp [h1, h2]

theorem entries_same : ∀ {a a' : List Entry}, a.map Entry.place = a'.map Entry.place → a.map Entry.info = a'.map Entry.info → a = a'
  | [], [], _, _ => rfl
  | [], _ :: _, h, _ => by simp at h
  | _ :: _, [], h, _ => by simp at h
  | e :: a, e' :: a', h1, h2 => by
    simp only [List.map_cons, List.cons.injEq] at h1 h2
    rw [entry_ext h1.1 h2.1, entries_same h1.2 h2.2]

theorem entries_rel {R : Nat × Str × Str → Nat × Str × Str → Prop} : ∀ {c c' : List Entry}, c.map Entry.place = c'.map Entry.place →
    List.Forall₂ R (c.map Entry.info) (c'.map Entry.info) → List.Forall₂ (fun e e' => e.place = e'.place ∧ R e.info e'.info) c c'
  | [], [], _, _ => .nil
  | [], _ :: _, h, _ => by simp at h
  | _ :: _, [], h, _ => by simp at h
  | e :: a, e' :: a', h1, h2 => by
    simp only [List.map_cons, List.cons.injEq, List.forall₂_cons] at h1 h2
    exact .cons ⟨h1.1, h2.1⟩ (entries_rel h1.2 h2.2)

namespace Props

theorem baseSlug_unique {E : Env} {p : Parser} {t b b' : Str} (h : BaseSlug E p t b) (h' : BaseSlug E p t b') : b = b' := by
  obtain ⟨d, h⟩ := h
  obtain ⟨d', h'⟩ := h'
  rw [h] at h'
  injection h' with h'
  exact (Prod.mk.inj h').1

theorem numberedFrom_append : ∀ (x y done : List Str), numberedFrom done (x ++ y) = numberedFrom done x ++ numberedFrom (done ++ x) y
  | [], y, done => by simp [numberedFrom]
  | b :: x, y, done => by simp [numberedFrom, numberedFrom_append x y]

theorem numberedFrom_length : ∀ (x done : List Str), (numberedFrom done x).length = x.length
  | [], _ => rfl
  | _ :: x, done => by simp [numberedFrom, numberedFrom_length x]

theorem numbered_eq (bs : List Str) : numbered bs = numberedFrom [] bs := by
  rw [mapIdx_numbered]
  simp [numbered]

theorem forall2_split {α β : Type} {R : α → β → Prop} : ∀ {x y : List α} {z : List β}, List.Forall₂ R (x ++ y) z → ∃ u v, z = u ++ v ∧ List.Forall₂ R x u ∧ List.Forall₂ R y v
  | [], _, z, h => ⟨[], z, rfl, .nil, h⟩
  | _ :: x, _, _, h => by
    cases h with
    | cons h1 h2 =>
      obtain ⟨u, v, rfl, h3, h4⟩ := forall2_split h2
      exact ⟨_ :: u, v, rfl, .cons h1 h3, h4⟩

theorem forall2_length {α β : Type} {R : α → β → Prop} : ∀ {x : List α} {y : List β}, List.Forall₂ R x y → x.length = y.length
  | _, _, .nil => rfl
  | _, _, .cons _ h => by simp [forall2_length h]

theorem forall2_imp {α β : Type} {R S : α → β → Prop} (hRS : ∀ a b, R a b → S a b) : ∀ {x : List α} {y : List β}, List.Forall₂ R x y → List.Forall₂ S x y
  | _, _, .nil => .nil
  | _, _, .cons h1 h => .cons (hRS _ _ h1) (forall2_imp hRS h)

theorem slugs_unique {E : Env} {p : Parser} : ∀ {ts u v : List Str}, List.Forall₂ (BaseSlug E p) ts u → List.Forall₂ (BaseSlug E p) ts v → u = v
  | [], _, _, h, h' => by cases h; cases h'; rfl
  | _ :: _, _, _, h, h' => by
    cases h with
    | cons h1 h2 =>
      cases h' with
      | cons h3 h4 => rw [baseSlug_unique h1 h3, slugs_unique h2 h4]

/-- The anchors after two different sequences of headings. -/
theorem listedInfo_after {E : Env} {p : Parser} {q : Nat → Bool} {Q : Str → Prop} : ∀ (heads : List (Nat × Str)) (bs done done' : List Str), List.Forall₂ (BaseSlug E p) (heads.map Prod.snd) bs →
    (∀ s, Q s → done.count s = done'.count s) →
    List.Forall₂ (fun x y => x.1 = y.1 ∧ x.2.1 = y.2.1 ∧ ∀ s, BaseSlug E p x.2.1 s → Q s → x.2.2 = y.2.2) (listedInfo q heads (numberedFrom done bs)) (listedInfo q heads (numberedFrom done' bs))
  | [], bs, done, done', h, _ => by cases h; exact .nil
  | (n, t) :: heads, bs, done, done', h, hd => by
    cases h with
    | @cons _ b _ bs h1 h2 =>
      rw [numberedFrom, numberedFrom, listedInfo_cons, listedInfo_cons]
      have ih := listedInfo_after (q := q) (Q := Q) heads bs (done ++ [b]) (done' ++ [b]) h2 (fun s hs => by rw [List.count_append, List.count_append, hd s hs])
      by_cases hq : q n = true
      · rw [if_pos hq, if_pos hq]
        refine .cons ⟨rfl, rfl, ?_⟩ ih
        intro s hs hQ
        have := baseSlug_unique h1 hs
        subst this
        simp only
        rw [hd b hQ]
      · rw [if_neg hq, if_neg hq]
        exact ih

/-- The two tables have entries at the same places. -/
theorem rename_tables {E : Env} {o : Options} {fn text text' out : Str} (h : buildToc E o fn (some ⟨text, false⟩) = .ok out) {pre post : List Str} {l l' : Str}
    (hv : Looks o fn text (pre ++ l :: post)) (hv' : Looks o fn text' (pre ++ l' :: post)) {n : Nat} {t t' : Str} (hl : Heading o.parser o.noLinks l n t)
    (hl' : Heading o.parser o.noLinks l' n t') (hr : Readable E o.parser o.noLinks l') :
    ∃ out' es es' hpre hpost, buildToc E o fn (some ⟨text', false⟩) = .ok out' ∧ Table E o (pre ++ l :: post) out es ∧ Table E o (pre ++ l' :: post) out' es' ∧
      Headings o.parser o.noLinks (pre ++ l :: post) (hpre ++ (n, t) :: hpost) ∧ Headings o.parser o.noLinks (pre ++ l' :: post) (hpre ++ (n, t') :: hpost) ∧
      es.map Entry.place = es'.map Entry.place := by
  obtain ⟨hpre, h1⟩ := headings_exists o.parser o.noLinks pre
  obtain ⟨hpost, h2⟩ := headings_exists o.parser o.noLinks post
  have hh : Headings o.parser o.noLinks (pre ++ l :: post) (hpre ++ (n, t) :: hpost) := headings_append h1 (.heading hl h2)
  have hh' : Headings o.parser o.noLinks (pre ++ l' :: post) (hpre ++ (n, t') :: hpost) := headings_append h1 (.heading hl' h2)
  obtain ⟨out', h'⟩ : ∃ out', buildToc E o fn (some ⟨text', false⟩) = .ok out' := by
    obtain ⟨g1, g2, g3, g4, g5, g6⟩ := (C75_exact hv hh).mp ⟨out, h⟩
    have e1 : (hpre ++ (n, t') :: hpost).map Prod.fst = (hpre ++ (n, t) :: hpost).map Prod.fst := by simp
    refine (C75_exact hv' hh').mpr ⟨g1, fun _ => g2 (by simp), ?_, ?_, by rw [e1]; exact g5, by rw [e1]; exact g6⟩
    · intro x hx
      simp only [List.mem_append, List.mem_cons] at hx
      rcases hx with hx | rfl | hx
      · exact g3 x (by simp [hx])
      · exact hr
      · exact g3 x (by simp [hx])
    · rcases g4 with g4 | g4 | g4
      · exact .inl g4
      · exact .inr (.inl g4)
      · refine .inr (.inr ?_)
        intro x hx
        have hx1 : x.1 ∈ (hpre ++ (n, t') :: hpost).map Prod.fst := List.mem_map_of_mem hx
        rw [e1] at hx1
        obtain ⟨y, hy, e⟩ := List.mem_map.mp hx1
        rw [← e]
        exact g4 y hy
  obtain ⟨hs, es, st, hrun, ht⟩ := buildToc_run h hv
  obtain ⟨hs', es', st', hrun', ht'⟩ := buildToc_run h' hv'
  have hlev : es.map (·.level) = es'.map (·.level) := by
    rw [entry_levels (table_levels ht hh), entry_levels (table_levels ht' hh')]
    simp
  have hplace := (run_places hrun hrun' (by rw [run_levels hrun, run_levels hrun', hlev])).1
  exact ⟨out', es, es', hpre, hpost, h', ht, ht', hh, hh', hplace⟩

/-- **C87**: if a heading is given another text, the document has a table again, provided that the new heading can be read at all; the entries before it are the same, its own entry has the same place, and the entries after it have
the same places and texts.  Their anchors are the same, too, unless the slug is the one of the old or the new text. -/
theorem C87_rename {E : Env} {o : Options} (hp : o.parser ≠ .redcarpet) (hsha : ∀ b b', E.sha1 b = E.sha1 b' → b = b') {fn text text' out : Str}
    (h : buildToc E o fn (some ⟨text, false⟩) = .ok out) {pre post : List Str} {l l' : Str} (hv : Looks o fn text (pre ++ l :: post)) (hv' : Looks o fn text' (pre ++ l' :: post))
    {n : Nat} {t t' : Str} (hl : Heading o.parser o.noLinks l n t) (hl' : Heading o.parser o.noLinks l' n t') (hr : Readable E o.parser o.noLinks l')
    {b b' : Str} (hb : BaseSlug E o.parser t b) (hb' : BaseSlug E o.parser t' b') :
    ∃ out' before mid mid' after after', buildToc E o fn (some ⟨text', false⟩) = .ok out' ∧
      Table E o (pre ++ l :: post) out (before ++ (mid ++ after)) ∧ Table E o (pre ++ l' :: post) out' (before ++ (mid' ++ after')) ∧
      mid.map (fun e => (e.level, e.text)) = (if listed o.parser o.keep n then [(n, t)] else []) ∧
      mid'.map (fun e => (e.level, e.text)) = (if listed o.parser o.keep n then [(n, t')] else []) ∧
      mid.map (fun e => (e.level, e.number, e.indent)) = mid'.map (fun e => (e.level, e.number, e.indent)) ∧
      List.Forall₂ (fun e e' => e.level = e'.level ∧ e.number = e'.number ∧ e.indent = e'.indent ∧ e.text = e'.text ∧
        ∀ s, BaseSlug E o.parser e.text s → b = b' ∨ (s ≠ b ∧ s ≠ b') → e = e') after after' := by
  have hcm := cmarkLike_of_ne hp
  obtain ⟨out', es, es', hpre, hpost, h', ht, ht', hh, hh', hplace⟩ := rename_tables h hv hv' hl hl' hr
  obtain ⟨⟨heads, as, d, g1, g2, g3, g4⟩, gout⟩ := id ht
  obtain ⟨⟨heads', as', d', k1, k2, k3, k4⟩, kout⟩ := id ht'
  have := headings_unique g1 hh
  subst this
  have := headings_unique k1 hh'
  subst this
  obtain ⟨bs, s1, rfl⟩ := C01_duplicates_numbered_of_ok hcm g2 hsha
  obtain ⟨bs', s2, rfl⟩ := C01_duplicates_numbered_of_ok hcm k2 hsha
  rw [List.map_append, List.map_cons] at s1 s2
  obtain ⟨bpre, bpost, rfl, p1, p2, p3⟩ : ∃ bpre bpost, bs = bpre ++ b :: bpost ∧ List.Forall₂ (BaseSlug E o.parser) (hpre.map Prod.snd) bpre ∧
      List.Forall₂ (BaseSlug E o.parser) (hpost.map Prod.snd) bpost ∧ bs' = bpre ++ b' :: bpost := by
    obtain ⟨u, v, rfl, q1, q2⟩ := forall2_split s1
    obtain ⟨u', v', rfl, q1', q2'⟩ := forall2_split s2
    cases q2 with
    | @cons _ c _ v q3 q4 =>
      cases q2' with
      | @cons _ c' _ v' q3' q4' =>
        have := baseSlug_unique q3 hb
        subst this
        have := baseSlug_unique q3' hb'
        subst this
        have := slugs_unique q1 q1'
        subst this
        have := slugs_unique q4 q4'
        subst this
        exact ⟨u, v, rfl, q1, q4, rfl⟩
  subst p3
  have hlen : hpre.length = (numberedFrom [] bpre).length := by
    rw [numberedFrom_length]
    simpa using forall2_length p1
  have i1 : es.map Entry.info = listedInfo (listed o.parser o.keep) hpre (numberedFrom [] bpre) ++
      ((if listed o.parser o.keep n then [(n, t, tagged b (bpre.count b))] else []) ++ listedInfo (listed o.parser o.keep) hpost (numberedFrom (bpre ++ [b]) bpost)) := by
    rw [numbered_eq, numberedFrom_append, numberedFrom, List.nil_append] at g4
    rw [← listedInfo_cons, ← listedInfo_append hlen]
    exact g4
  have i2 : es'.map Entry.info = listedInfo (listed o.parser o.keep) hpre (numberedFrom [] bpre) ++
      ((if listed o.parser o.keep n then [(n, t', tagged b' (bpre.count b'))] else []) ++ listedInfo (listed o.parser o.keep) hpost (numberedFrom (bpre ++ [b']) bpost)) := by
    rw [numbered_eq, numberedFrom_append, numberedFrom, List.nil_append] at k4
    rw [← listedInfo_cons, ← listedInfo_append hlen]
    exact k4
  obtain ⟨a, r, rfl, j1, j2⟩ := List.map_eq_append_iff.mp i1
  obtain ⟨m, c, rfl, j3, j4⟩ := List.map_eq_append_iff.mp j2
  obtain ⟨a', r', rfl, j1', j2'⟩ := List.map_eq_append_iff.mp i2
  obtain ⟨m', c', rfl, j3', j4'⟩ := List.map_eq_append_iff.mp j2'
  have la : a.length = a'.length := by
    have := congrArg List.length (j1.trans j1'.symm)
    simpa using this
  have lm : m.length = m'.length := by
    have e1 := congrArg List.length j3
    have e2 := congrArg List.length j3'
    by_cases hq : listed o.parser o.keep n = true
    · simp [hq] at e1 e2; omega
    · simp [hq] at e1 e2; simp [e1, e2]
  rw [List.map_append, List.map_append, List.map_append, List.map_append] at hplace
  obtain ⟨w1, w2⟩ := List.append_inj hplace (by simpa using la)
  obtain ⟨w3, w4⟩ := List.append_inj w2 (by simpa using lm)
  have ea := entries_same w1 (j1.trans j1'.symm)
  subst ea
  refine ⟨out', a, m, m', c, c', h', ht, ht', ?_, ?_, w3, ?_⟩
  · have := congrArg (List.map (fun x : Nat × Str × Str => (x.1, x.2.1))) j3
    rw [List.map_map] at this
    rw [show (fun e : Entry => (e.level, e.text)) = (fun x : Nat × Str × Str => (x.1, x.2.1)) ∘ Entry.info from rfl, this]
    split <;> rfl
  · have := congrArg (List.map (fun x : Nat × Str × Str => (x.1, x.2.1))) j3'
    rw [List.map_map] at this
    rw [show (fun e : Entry => (e.level, e.text)) = (fun x : Nat × Str × Str => (x.1, x.2.1)) ∘ Entry.info from rfl, this]
    split <;> rfl
  · have hrel := listedInfo_after (q := listed o.parser o.keep) (Q := fun s => b = b' ∨ (s ≠ b ∧ s ≠ b')) hpost bpost (bpre ++ [b]) (bpre ++ [b']) p2 (by
      rintro s (rfl | ⟨h1, h2⟩)
      · rfl
      · rw [List.count_append, List.count_append, List.count_singleton, List.count_singleton]
        simp [Ne.symm h1, Ne.symm h2])
    rw [← j4, ← j4'] at hrel
    refine forall2_imp ?_ (entries_rel w4 hrel)
    rintro e e' ⟨x1, x2, x3, x4⟩
    have y := x1
    simp only [Entry.place, Prod.mk.injEq] at y
    refine ⟨y.1, y.2.1, y.2.2, x3, fun s hs hQ => entry_ext x1 ?_⟩
    have := x4 s hs hQ
    simp only [Entry.info] at x2 x3 this ⊢
    rw [x2, x3, this]

/-- **C87** for redcarpet: nothing but the entry of the heading changes. -/
theorem C87_redcarpet {E : Env} {o : Options} (hp : o.parser = .redcarpet) {fn text text' out : Str} (h : buildToc E o fn (some ⟨text, false⟩) = .ok out) {pre post : List Str} {l l' : Str}
    (hv : Looks o fn text (pre ++ l :: post)) (hv' : Looks o fn text' (pre ++ l' :: post)) {n : Nat} {t t' : Str} (hl : Heading o.parser o.noLinks l n t)
    (hl' : Heading o.parser o.noLinks l' n t') :
    ∃ out' before e e' after, buildToc E o fn (some ⟨text', false⟩) = .ok out' ∧ Table E o (pre ++ l :: post) out (before ++ e :: after) ∧
      Table E o (pre ++ l' :: post) out' (before ++ e' :: after) ∧ e.text = t ∧ e'.text = t' ∧ e.level = n ∧ e'.level = n ∧ e.number = e'.number ∧ e.indent = e'.indent := by
  obtain ⟨out', es, es', hpre, hpost, h', ht, ht', hh, hh', hplace⟩ := rename_tables h hv hv' hl hl' (.inl hp)
  have key : ∀ {vs : List Str} {out : Str} {es : List Entry} {heads : List (Nat × Str)}, Table E o vs out es → Headings o.parser o.noLinks vs heads →
      es.map Entry.info = heads.map (fun x => (x.1, x.2, redcarpetSlug x.2)) := by
    intro vs out es heads ht hh
    obtain ⟨⟨heads', as, d, g1, g2, g3, g4⟩, -⟩ := ht
    have := headings_unique g1 hh
    subst this
    have ha := anchorRun_redcarpet (E := E) (ts := heads'.map Prod.snd) (fun t ht => by
      obtain ⟨x, hx, rfl⟩ := List.mem_map.mp ht
      exact noInterior (headings_bounds hh x hx).2.2) (fun _ => 0)
    rw [hp] at g2
    rw [g2] at ha
    injection ha with ha
    have has : as = _ := congrArg Prod.fst ha
    rw [has] at g4
    refine g4.trans ?_
    rw [List.filter_eq_self.mpr (fun x _ => by simp [listed, hp])]
    clear * -
    induction heads' with
    | nil => rfl
    | cons x t ih => simpa using ih
  have i1 := key ht hh
  have i2 := key ht' hh'
  rw [List.map_append, List.map_cons] at i1 i2
  obtain ⟨a, r, rfl, j1, j2⟩ := List.map_eq_append_iff.mp i1
  obtain ⟨e, c, rfl, j3, j4⟩ := List.map_eq_cons_iff.mp j2
  obtain ⟨a', r', rfl, j1', j2'⟩ := List.map_eq_append_iff.mp i2
  obtain ⟨e', c', rfl, j3', j4'⟩ := List.map_eq_cons_iff.mp j2'
  have la : a.length = a'.length := by
    have := congrArg List.length (j1.trans j1'.symm)
    simpa using this
  rw [List.map_append, List.map_append, List.map_cons, List.map_cons] at hplace
  obtain ⟨w1, w2⟩ := List.append_inj hplace (by simpa using la)
  obtain ⟨w3, w4⟩ := List.cons.inj w2
  have ea := entries_same w1 (j1.trans j1'.symm)
  subst ea
  have ec := entries_same w4 (j4.trans j4'.symm)
  subst ec
  simp only [Entry.info, Entry.place, Prod.mk.injEq] at j3 j3' w3
  exact ⟨out', a, e, e', c, h', ht, ht', j3.2.1, j3'.2.1, j3.1, j3'.1, w3.2.1, w3.2.2⟩

/-- **C87**: the numbers and the indentation depend on nothing but the levels of the listed headings: two documents with the same levels have entries at the same places. -/
theorem C87_places {E E' : Env} {o : Options} {fn fn' text text' out out' : Str} (h : buildToc E o fn (some ⟨text, false⟩) = .ok out)
    (h' : buildToc E' o fn' (some ⟨text', false⟩) = .ok out') {vs vs' : List Str} (hv : Looks o fn text vs) (hv' : Looks o fn' text' vs') {heads heads' : List (Nat × Str)}
    (hh : Headings o.parser o.noLinks vs heads) (hh' : Headings o.parser o.noLinks vs' heads')
    (hl : (heads.map Prod.fst).filter (listed o.parser o.keep) = (heads'.map Prod.fst).filter (listed o.parser o.keep)) :
    ∃ es es', Table E o vs out es ∧ Table E' o vs' out' es' ∧ es.map (fun e => (e.level, e.number, e.indent)) = es'.map (fun e => (e.level, e.number, e.indent)) := by
  obtain ⟨hs, es, st, hrun, ht⟩ := buildToc_run h hv
  obtain ⟨hs', es', st', hrun', ht'⟩ := buildToc_run h' hv'
  have hlev : es.map (·.level) = es'.map (·.level) := by
    rw [entry_levels (table_levels ht hh), entry_levels (table_levels ht' hh'), hl]
  exact ⟨es, es', ht, ht', (run_places hrun hrun' (by rw [run_levels hrun, run_levels hrun', hlev])).1⟩

/-! ### The theorems apply -/

theorem isLine_of {s : Str} (h : ∀ c ∈ s, c ≠ '\n' ∧ c ≠ '\r') : IsLine (s ++ ['\n']) :=
  ⟨s, by simp, .inl rfl, fun c hc e => e.elim (h c hc).1 (h c hc).2⟩

theorem looks_headings {o : Options} {fn : Str} {ms : List Str} (hp : o.parser ≠ .redcarpet) (hs : o.skipLines = 0)
    (h : ∀ m ∈ ms, ∃ b, m = '#' :: b ++ ['\n'] ∧ ∀ c ∈ b, c ≠ '\n' ∧ c ≠ '\r') : Looks o fn ms.flatten ms := by
  have hr : Reads ms.flatten ms := by
    have := reads_lines (ms := ms) (fun m hm => by
      obtain ⟨b, rfl, hb⟩ := h m hm
      refine ⟨'#' :: b, rfl, fun c hc e => ?_⟩
      rcases List.mem_cons.mp hc with rfl | hc
      · revert e; unfold IsNewline; decide
      · exact e.elim (hb c hc).1 (hb c hc).2) Reads.nil
    simpa using this
  refine ⟨ms, hr, ?_⟩
  rw [hs]
  unfold SeenLines
  rw [if_neg hp]
  have hno : ∀ l : Str, l.head? = some '#' → ¬ ∃ c n, OpensWith l c n := by
    intro l hl
    refine not_opening_start ?_
    rw [hl]
    rintro c hc
    injection hc with hc
    subst hc
    refine ⟨by decide, ?_⟩
    unfold IsFenceChar
    decide
  clear hr
  show Seen _ _ ms ms
  induction ms with
  | nil => exact .nil
  | cons m t ih =>
    refine .line (hno _ ?_) (ih fun m hm => h m (List.mem_cons_of_mem _ hm))
    obtain ⟨b, rfl, -⟩ := h m List.mem_cons_self
    rfl

/-- The second heading gets the text of the first and the last one: its entry keeps its place, the entry `c` is the same, and the anchor of the last entry has another number. -/
example : buildToc asciiEnv { ordered := true } "a.md".toList (some ⟨"# a\n## b\n## c\n# A\n".toList, false⟩) = .ok "1. [a](#a)\n   1. [b](#b)\n   2. [c](#c)\n2. [A](#a-1)\n".toList ∧
    buildToc asciiEnv { ordered := true } "a.md".toList (some ⟨"# a\n## a\n## c\n# A\n".toList, false⟩) = .ok "1. [a](#a)\n   1. [a](#a-1)\n   2. [c](#c)\n2. [A](#a-2)\n".toList := by
  decide +kernel

/-- The hypotheses of `C87_rename` for this document. -/
example : Looks { ordered := true } "a.md".toList "# a\n## b\n## c\n# A\n".toList (["# a\n".toList] ++ "## b\n".toList :: ["## c\n".toList, "# A\n".toList]) ∧
    Looks { ordered := true } "a.md".toList "# a\n## a\n## c\n# A\n".toList (["# a\n".toList] ++ "## a\n".toList :: ["## c\n".toList, "# A\n".toList]) ∧
    Heading .github false "## b\n".toList 2 "b".toList ∧ Heading .github false "## a\n".toList 2 "a".toList ∧ Readable asciiEnv .github false "## a\n".toList ∧
    BaseSlug asciiEnv .github "b".toList "b".toList ∧ BaseSlug asciiEnv .github "a".toList "a".toList := by
  have hlooks : ∀ x : Char, x ≠ '\n' → x ≠ '\r' → Looks { ordered := true } "a.md".toList (["# a\n".toList] ++ ['#', '#', ' ', x, '\n'] :: ["## c\n".toList, "# A\n".toList]).flatten
      (["# a\n".toList] ++ ['#', '#', ' ', x, '\n'] :: ["## c\n".toList, "# A\n".toList]) := by
    intro x h1 h2
    refine looks_headings (by decide) rfl ?_
    intro m hm
    simp only [List.cons_append, List.nil_append, List.mem_cons, List.not_mem_nil, or_false] at hm
    rcases hm with rfl | rfl | rfl | rfl
    · exact ⟨" a".toList, by decide, by decide⟩
    · refine ⟨['#', ' ', x], rfl, ?_⟩
      intro c hc
      simp only [List.mem_cons, List.not_mem_nil, or_false] at hc
      rcases hc with rfl | rfl | rfl
      · decide
      · decide
      · exact ⟨h1, h2⟩
    · exact ⟨"# c".toList, by decide, by decide⟩
    · exact ⟨" A".toList, by decide, by decide⟩
  have hread : Readable asciiEnv .github false "## a\n".toList := by
    refine (C75_line (d := fun _ => 0) (isLine_of (s := "## a".toList) (by decide)) (keep := 3) (by decide)).mp ?_
    have hok : (getMdHeader asciiEnv "## a\n".toList (fun _ => 0) 3 .github false).isOk = true := by decide +kernel
    cases h : getMdHeader asciiEnv ("## a".toList ++ ['\n']) (fun _ => 0) 3 .github false with
    | error e =>
      rw [show "## a\n".toList = "## a".toList ++ ['\n'] by decide, h] at hok
      exact absurd hok (by simp [Except.isOk, Except.toBool])
    | ok r => exact ⟨r, rfl⟩
  have hhead : ∀ x : Char, x = 'a' ∨ x = 'b' → Heading .github false ['#', '#', ' ', x, '\n'] 2 [x] := by
    intro x hx
    have hnl : ∀ c ∈ ['#', '#', ' ', x], ¬ IsNewline c := by
      unfold IsNewline
      rcases hx with rfl | rfl <;> decide
    have hatx : IsAtx .github ['#', '#', ' ', x] 2 [' ', x] := ⟨0, by decide, by decide, by decide, rfl, by intro c hc; injection hc with hc; subst hc; rfl⟩
    obtain ⟨c, h1, h2⟩ := atxCmark_heading (p := .github) rfl hatx hnl
    have h3 := h2 3 true true
    have h4 : atxCmark .github 3 true true ['#', '#', ' ', x] = .ok (⟨some 2, some [x], true⟩, true) := by rcases hx with rfl | rfl <;> decide +kernel
    rw [h4] at h3
    have hc : c = [x] := by
      simp only [if_true, Except.map, Except.ok.injEq, Prod.mk.injEq, AtxElem.mk.injEq, Option.some.injEq] at h3
      exact h3.1.2.1.symm
    subst hc
    refine ⟨_, [' ', x], [x], body_line (b := ['#', '#', ' ', x]) hnl, ?_⟩
    rw [if_neg (by decide)]
    refine ⟨hatx, h1, ?_⟩
    rcases hx with rfl | rfl <;> decide +kernel
  refine ⟨?_, ?_, hhead 'b' (.inr rfl), hhead 'a' (.inl rfl), hread, ⟨_, rfl⟩, ⟨_, rfl⟩⟩
  · exact hlooks 'b' (by decide) (by decide)
  · exact hlooks 'a' (by decide) (by decide)

/-- The last entry does change if the renamed heading had the same slug. -/
example : buildToc asciiEnv {} "a.md".toList (some ⟨"# a\n# a\n".toList, false⟩) = .ok "- [a](#a)\n- [a](#a-1)\n".toList ∧
    buildToc asciiEnv {} "a.md".toList (some ⟨"# b\n# a\n".toList, false⟩) = .ok "- [b](#b)\n- [a](#a)\n".toList ∧
    buildToc asciiEnv { parser := .redcarpet } "a.md".toList (some ⟨"# a\n# a\n".toList, false⟩) = .ok "- [a](#a)\n- [a](#a)\n".toList ∧
    buildToc asciiEnv { parser := .redcarpet } "a.md".toList (some ⟨"# b\n# a\n".toList, false⟩) = .ok "- [b](#b)\n- [a](#a)\n".toList := by
  decide +kernel

end Props

end MdToc
