import Verif.Props.ListOptions

/-!
# C94: a new section adds one entry
-/

set_option linter.unusedSimpArgs false

namespace MdToc.Props

open MdToc.Spec

theorem each_prefix {α : Type} {P : List α → α → Prop} {a b : List α} (h : Each P (a ++ b)) : Each P a := by
  intro pre x post e
  exact h pre x (post ++ b) (by rw [e]; simp)

theorem entries_infos {R : Nat × Str × Str → Nat × Str × Str → Prop} : ∀ {c c' : List Entry}, List.Forall₂ R (c.map Entry.info) (c'.map Entry.info) → List.Forall₂ (fun e e' => R e.info e'.info) c c'
  | [], [], _ => .nil
  | [], _ :: _, h => by cases h
  | _ :: _, [], h => by cases h
  | e :: a, e' :: a', h => by
    simp only [List.map_cons, List.forall₂_cons] at h
    exact .cons h.1 (entries_infos h.2)

theorem takeWhile_stops {p : Nat → Bool} {q : Nat} (hq : p q = false) : ∀ {u v : List Nat}, q ∈ u → (u ++ v).takeWhile p = u.takeWhile p
  | [], _, h => by simp at h
  | a :: u, v, h => by
    rw [List.cons_append, List.takeWhile_cons, List.takeWhile_cons]
    rcases List.mem_cons.mp h with rfl | h
    · rw [hq]; rfl
    · rw [takeWhile_stops hq h]

theorem slug_of_mem {E : Env} {p : Parser} : ∀ {ts bs : List Str}, List.Forall₂ (BaseSlug E p) ts bs → ∀ t ∈ ts, ∃ s, BaseSlug E p t s
  | _, _, .nil, _, h => by simp at h
  | _, _, .cons h1 h2, t, h => by
    rcases List.mem_cons.mp h with rfl | h
    · exact ⟨_, h1⟩
    · exact slug_of_mem h2 t h

/-- The entries of the two documents. -/
theorem insert_core {E : Env} {o : Options} (hp : o.parser ≠ .redcarpet) (hsha : ∀ b b', E.sha1 b = E.sha1 b' → b = b') {fn text text' out out' : Str}
    (h : buildToc E o fn (some ⟨text, false⟩) = .ok out) (h' : buildToc E o fn (some ⟨text', false⟩) = .ok out') {pre post : List Str} {l : Str} (hv : Looks o fn text (pre ++ post))
    (hv' : Looks o fn text' (pre ++ l :: post)) {n : Nat} {t : Str} (hl : Heading o.parser o.noLinks l n t) {b : Str} (hb : BaseSlug E o.parser t b)
    {hpost : List (Nat × Str)} (hh : Headings o.parser o.noLinks post hpost) :
    ∃ before mid after after' hs hs' st st', Run o (TocState.init o.effMarker) hs (before ++ after) st ∧ Run o (TocState.init o.effMarker) hs' (before ++ (mid ++ after')) st' ∧
      Table E o (pre ++ post) out (before ++ after) ∧ Table E o (pre ++ l :: post) out' (before ++ (mid ++ after')) ∧
      mid.map (fun e => (e.level, e.text)) = (if listed o.parser o.keep n then [(n, t)] else []) ∧ after.map (·.level) = (hpost.map Prod.fst).filter (listed o.parser o.keep) ∧
      List.Forall₂ (fun e e' => e.level = e'.level ∧ e.text = e'.text ∧ ∀ s, BaseSlug E o.parser e.text s → s ≠ b → e.anchor = e'.anchor) after after' ∧
      ∀ e ∈ after, ∃ x ∈ hpost, x.2 = e.text := by
  have hcm := cmarkLike_of_ne hp
  obtain ⟨hpre, h1⟩ := headings_exists o.parser o.noLinks pre
  have hh1 := headings_append h1 hh
  have hh2 : Headings o.parser o.noLinks (pre ++ l :: post) (hpre ++ (n, t) :: hpost) := headings_append h1 (.heading hl hh)
  obtain ⟨hs, es, st, hr, ht⟩ := buildToc_run h hv
  obtain ⟨hs', es', st', hr', ht'⟩ := buildToc_run h' hv'
  obtain ⟨⟨heads, as, d, g1, g2, g3, g4⟩, gout⟩ := id ht
  obtain ⟨⟨heads', as', d', k1, k2, k3, k4⟩, kout⟩ := id ht'
  have := headings_unique g1 hh1
  subst this
  have := headings_unique k1 hh2
  subst this
  obtain ⟨bs, s1, rfl⟩ := C01_duplicates_numbered_of_ok hcm g2 hsha
  obtain ⟨bs', s2, rfl⟩ := C01_duplicates_numbered_of_ok hcm k2 hsha
  rw [List.map_append] at s1 s2
  rw [List.map_cons] at s2
  obtain ⟨bpre, bpost, rfl, p1, p2, p3⟩ : ∃ bpre bpost, bs = bpre ++ bpost ∧ List.Forall₂ (BaseSlug E o.parser) (hpre.map Prod.snd) bpre ∧
      List.Forall₂ (BaseSlug E o.parser) (hpost.map Prod.snd) bpost ∧ bs' = bpre ++ b :: bpost := by
    obtain ⟨u, v, rfl, q1, q2⟩ := forall2_split s1
    obtain ⟨u', v', rfl, q1', q2'⟩ := forall2_split s2
    cases q2' with
    | @cons _ c' _ v' q3' q4' =>
      have := baseSlug_unique q3' hb
      subst this
      have := slugs_unique q1 q1'
      subst this
      have := slugs_unique q2 q4'
      subst this
      exact ⟨u, v, rfl, q1, q2, rfl⟩
  subst p3
  have hlen : hpre.length = (numberedFrom [] bpre).length := by
    rw [numberedFrom_length]
    simpa using forall2_length p1
  have i1 : es.map Entry.info = listedInfo (listed o.parser o.keep) hpre (numberedFrom [] bpre) ++ listedInfo (listed o.parser o.keep) hpost (numberedFrom bpre bpost) := by
    rw [numbered_eq, numberedFrom_append, List.nil_append] at g4
    rw [← listedInfo_append hlen]
    exact g4
  have i2 : es'.map Entry.info = listedInfo (listed o.parser o.keep) hpre (numberedFrom [] bpre) ++
      ((if listed o.parser o.keep n then [(n, t, tagged b (bpre.count b))] else []) ++ listedInfo (listed o.parser o.keep) hpost (numberedFrom (bpre ++ [b]) bpost)) := by
    rw [numbered_eq, numberedFrom_append, numberedFrom, List.nil_append] at k4
    rw [← listedInfo_cons, ← listedInfo_append hlen]
    exact k4
  obtain ⟨a, c, rfl, j1, j2⟩ := List.map_eq_append_iff.mp i1
  obtain ⟨a', r', rfl, j1', j2'⟩ := List.map_eq_append_iff.mp i2
  obtain ⟨m', c', rfl, j3', j4'⟩ := List.map_eq_append_iff.mp j2'
  have ea : a = a' := entries_ext (j1.trans j1'.symm) (each_prefix (run_placed hr)) (each_prefix (run_placed hr'))
  subst ea
  refine ⟨a, m', c, c', hs, hs', st, st', hr, hr', ht, ht', ?_, ?_, ?_, ?_⟩
  · have := congrArg (List.map (fun x : Nat × Str × Str => (x.1, x.2.1))) j3'
    rw [List.map_map] at this
    rw [show (fun e : Entry => (e.level, e.text)) = (fun x : Nat × Str × Str => (x.1, x.2.1)) ∘ Entry.info from rfl, this]
    split <;> rfl
  · have := congrArg (List.map Prod.fst) j2
    rw [List.map_map] at this
    rw [show (fun e : Entry => e.level) = Prod.fst ∘ Entry.info from rfl, this]
    have hl2 : (numberedFrom bpre bpost).length = hpost.length := by
      rw [numberedFrom_length]
      simpa using (forall2_length p2).symm
    unfold listedInfo
    rw [List.map_map, show (Prod.fst ∘ fun x : (Nat × Str) × Str => (x.1.1, x.1.2, x.2)) = Prod.fst ∘ (Prod.fst : (Nat × Str) × Str → Nat × Str) from rfl, ← List.map_map, List.filter_map]
    congr 1
    rw [show (fun x : (Nat × Str) × Str => listed o.parser o.keep x.1.1) = (listed o.parser o.keep ∘ Prod.fst) ∘ Prod.fst from rfl, ← List.filter_map,
      List.map_fst_zip (by omega)]
  · have hrel := listedInfo_after (q := listed o.parser o.keep) (Q := fun s => s ≠ b) hpost bpost bpre (bpre ++ [b]) p2 (by
      intro s h1
      rw [List.count_append, List.count_singleton]
      simp [Ne.symm h1])
    rw [← j2, ← j4'] at hrel
    exact entries_infos hrel
  · intro e he
    have hm : e.info ∈ c.map Entry.info := List.mem_map_of_mem he
    rw [j2] at hm
    unfold listedInfo at hm
    obtain ⟨x, hx, hxe⟩ := List.mem_map.mp hm
    have hx := (List.mem_filter.mp hx).1
    refine ⟨x.1, (List.of_mem_zip hx).1, ?_⟩
    exact congrArg (fun y : Nat × Str × Str => y.2.1) hxe

/-- **C94**: a heading which is added to a document leaves the entries before it as they are; the entries after it have the same levels and texts, and the same anchors unless their slug is that of the new heading. -/
theorem C94_insert {E : Env} {o : Options} (hp : o.parser ≠ .redcarpet) (hsha : ∀ b b', E.sha1 b = E.sha1 b' → b = b') {fn text text' out out' : Str}
    (h : buildToc E o fn (some ⟨text, false⟩) = .ok out) (h' : buildToc E o fn (some ⟨text', false⟩) = .ok out') {pre post : List Str} {l : Str} (hv : Looks o fn text (pre ++ post))
    (hv' : Looks o fn text' (pre ++ l :: post)) {n : Nat} {t : Str} (hl : Heading o.parser o.noLinks l n t) {b : Str} (hb : BaseSlug E o.parser t b) :
    ∃ before mid after after', Table E o (pre ++ post) out (before ++ after) ∧ Table E o (pre ++ l :: post) out' (before ++ (mid ++ after')) ∧
      mid.map (fun e => (e.level, e.text)) = (if listed o.parser o.keep n then [(n, t)] else []) ∧
      List.Forall₂ (fun e e' => e.level = e'.level ∧ e.text = e'.text ∧ ∀ s, BaseSlug E o.parser e.text s → s ≠ b → e.anchor = e'.anchor) after after' := by
  obtain ⟨hpost, hh⟩ := headings_exists o.parser o.noLinks post
  obtain ⟨before, mid, after, after', _, _, _, _, -, -, ht, ht', hm, -, hf, -⟩ := insert_core hp hsha h h' hv hv' hl hb hh
  exact ⟨before, mid, after, after', ht, ht', hm, hf⟩

/-- Entries with an entry in between that is not their parent or sibling. -/
theorem insert_determined {counts flat ordered : Bool} {marker : Str} {before : List Entry} {x : Entry} {after after' : List Entry}
    (hinfo : after.map (fun e => (e.level, e.text, e.anchor)) = after'.map (fun e => (e.level, e.text, e.anchor)))
    (h1 : Each (fun b e => e.number = numberOf counts b e.level ∧ e.indent = indentOf flat ordered marker b e.level) (before ++ after))
    (h2 : Each (fun b e => e.number = numberOf counts b e.level ∧ e.indent = indentOf flat ordered marker b e.level) (before ++ (x :: after')))
    (hn : ∀ e ∈ after.head?, e.level < x.level ∨ (e.level = x.level ∧ counts = false)) : after = after' := by
  induction after using List.reverseRecOn generalizing after' with
  | nil => simpa using hinfo.symm
  | append_singleton es e ih =>
    rw [List.map_append] at hinfo
    obtain ⟨es1, es2, rfl, e1, e2⟩ := List.map_eq_append_iff.mp hinfo.symm
    obtain ⟨e', es3, rfl, e3, e4⟩ := List.map_eq_cons_iff.mp e2
    have : es3 = [] := by simpa using e4
    subst this
    rw [← List.append_assoc] at h1
    rw [← List.cons_append, ← List.append_assoc] at h2
    obtain ⟨g1, g2⟩ := each_snoc_iff.mp h1
    obtain ⟨g3, g4⟩ := each_snoc_iff.mp h2
    have := ih e1.symm g1 g3 (by
      intro q hq
      refine hn q ?_
      cases es with
      | nil => simp at hq
      | cons r es => simpa using hq)
    subst this
    simp only [Prod.mk.injEq] at e3
    obtain ⟨e5, e6, e7⟩ := e3
    rw [e5] at g4
    -- the entries of a smaller level are the same
    have hcase : (∃ q ∈ es, q.level < e.level) ∨ ((∀ q ∈ es, e.level ≤ q.level) ∧ (e.level < x.level ∨ (e.level = x.level ∧ counts = false))) := by
      by_cases hq : ∃ q ∈ es, q.level < e.level
      · exact .inl hq
      · have hq : ∀ q ∈ es, e.level ≤ q.level := fun q hm => Nat.le_of_not_lt (fun hc => hq ⟨q, hm, hc⟩)
        refine .inr ⟨hq, ?_⟩
        cases es with
        | nil => exact hn e (by simp)
        | cons r es =>
          have hr := hq r (by simp)
          rcases hn r (by simp) with h | ⟨h, h'⟩
          · exact .inl (by omega)
          · rcases Nat.lt_or_ge e.level x.level with h4 | h4
            · exact .inl h4
            · exact .inr ⟨by omega, h'⟩
    have hpar : parent (before ++ x :: es) e.level = parent (before ++ es) e.level := by
      unfold parent
      rw [List.reverse_append, List.reverse_append, List.reverse_cons, List.find?_append, List.find?_append, List.find?_append]
      rcases hcase with ⟨q, hq, hlt⟩ | ⟨hq, hx⟩
      · cases hf : es.reverse.find? (fun y => decide (y.level < e.level)) with
        | none =>
          have := List.find?_eq_none.mp hf q (by simpa using hq)
          simp [hlt] at this
        | some z => simp
      · have : ¬ x.level < e.level := by omega
        simp [this]
    have hsib : counts = true → siblingNumber ((before ++ x :: es).map (·.level)) e.level = siblingNumber ((before ++ es).map (·.level)) e.level := by
      intro hco
      unfold siblingNumber
      congr 1
      rw [List.map_append, List.map_append, List.map_cons, List.reverse_append, List.reverse_append, List.reverse_cons, List.append_assoc]
      rcases hcase with ⟨q, hq, hlt⟩ | ⟨hq, hx⟩
      · have hst : (fun m => decide (e.level ≤ m)) q.level = false := by simp; omega
        have hmm : q.level ∈ (es.map (·.level)).reverse := by
          rw [List.mem_reverse]
          exact List.mem_map_of_mem hq
        rw [takeWhile_stops hst hmm, takeWhile_stops hst hmm]
      · have hxl : e.level < x.level := by
          rcases hx with h | ⟨-, h⟩
          · exact h
          · rw [hco] at h; cases h
        have hall : ∀ m ∈ (es.map (·.level)).reverse, decide (e.level ≤ m) = true := by
          intro m hm
          simp only [List.mem_reverse, List.mem_map] at hm
          obtain ⟨q, hq', rfl⟩ := hm
          simpa using hq q hq'
        rw [List.takeWhile_append_of_pos hall, List.takeWhile_append_of_pos hall, List.singleton_append, List.takeWhile_cons, if_pos (by simp; omega)]
        rw [List.count_append, List.count_append, List.count_cons]
        have : ¬ x.level = e.level := by omega
        simp [this]
    have hnum : e.number = e'.number := by
      rw [g2.1, g4.1]
      unfold numberOf
      cases hco : counts with
      | false => rfl
      | true => rw [if_pos rfl, if_pos rfl, hsib hco]
    have hind : e.indent = e'.indent := by
      rw [g2.2, g4.2]
      unfold indentOf
      rw [hpar]
    have : e = e' := by
      cases e; cases e'
      simp_all
    rw [this]

theorem insert_infos {E : Env} {o : Options} (hp : o.parser ≠ .redcarpet) (hsha : ∀ b b', E.sha1 b = E.sha1 b' → b = b') {pre post : List Str} {b out : Str} {before after after' : List Entry}
    (ht : Table E o (pre ++ post) out (before ++ after))
    (hf : List.Forall₂ (fun e e' => e.level = e'.level ∧ e.text = e'.text ∧ ∀ s, BaseSlug E o.parser e.text s → s ≠ b → e.anchor = e'.anchor) after after')
    {hpost : List (Nat × Str)} (hmem : ∀ e ∈ after, ∃ x ∈ hpost, x.2 = e.text) (hh : Headings o.parser o.noLinks post hpost) (hs : ∀ x ∈ hpost, ¬ BaseSlug E o.parser x.2 b) :
    after.map (fun e => (e.level, e.text, e.anchor)) = after'.map (fun e => (e.level, e.text, e.anchor)) := by
  have hslug : ∀ e ∈ after, ∃ s, BaseSlug E o.parser e.text s ∧ s ≠ b := by
    intro q hq
    obtain ⟨x, hx, hxq⟩ := hmem q hq
    obtain ⟨⟨heads, as, d, g1, g2, -, -⟩, -⟩ := id ht
    obtain ⟨hpre, h1⟩ := headings_exists o.parser o.noLinks pre
    have := headings_unique g1 (headings_append h1 hh)
    subst this
    obtain ⟨bs, s1, -⟩ := C01_duplicates_numbered_of_ok (cmarkLike_of_ne hp) g2 hsha
    have hx2 : x.2 ∈ (hpre ++ hpost).map Prod.snd := List.mem_map_of_mem (by simp [hx])
    obtain ⟨s, hbs⟩ := slug_of_mem s1 x.2 hx2
    rw [← hxq]
    refine ⟨s, hbs, ?_⟩
    rintro rfl
    exact hs x hx hbs
  clear hmem ht
  induction hf with
  | nil => rfl
  | @cons q q' u v q1 q2 ih =>
    obtain ⟨s, hs1, hs2⟩ := hslug q (by simp)
    rw [List.map_cons, List.map_cons, ih (fun e he => hslug e (by simp [he])), q1.1, q1.2.1, q1.2.2 s hs1 hs2]

/-- **C94**: if the new section is listed, its slug is not that of a heading behind it, and the next listed heading is not below it (in numbered lists: is above it), the new table is the old one with one entry added.  The list
is checked, or it is neither indented nor numbered. -/
theorem C94_one_entry {E : Env} {o : Options} (hp : o.parser ≠ .redcarpet) (hsha : ∀ b b', E.sha1 b = E.sha1 b' → b = b')
    (ho : (o.noIndentation = true ∧ (o.ordered = false ∨ o.constantOrdered = true)) ∨ (o.noIndentation = false ∧ o.noListCoherence = false)) {fn text text' out out' : Str}
    (h : buildToc E o fn (some ⟨text, false⟩) = .ok out) (h' : buildToc E o fn (some ⟨text', false⟩) = .ok out') {pre post : List Str} {l : Str} (hv : Looks o fn text (pre ++ post))
    (hv' : Looks o fn text' (pre ++ l :: post)) {n : Nat} {t : Str} (hl : Heading o.parser o.noLinks l n t) (hk : (n : Int) ≤ o.keep) {b : Str} (hb : BaseSlug E o.parser t b)
    {hpost : List (Nat × Str)} (hh : Headings o.parser o.noLinks post hpost) (hs : ∀ x ∈ hpost, ¬ BaseSlug E o.parser x.2 b)
    (hn : ∀ m ∈ ((hpost.map Prod.fst).filter (fun m : Nat => decide ((m : Int) ≤ o.keep))).head?, m < n ∨ (m = n ∧ (o.ordered = false ∨ o.constantOrdered = true))) :
    ∃ before e after, Table E o (pre ++ post) out (before ++ after) ∧ Table E o (pre ++ l :: post) out' (before ++ e :: after) ∧ e.level = n ∧ e.text = t := by
  obtain ⟨before, mid, after, after', _, _, _, _, hr, hr', ht, ht', hm, hlev, hf, hmem⟩ := insert_core hp hsha h h' hv hv' hl hb hh
  have hli : ∀ m, listed o.parser o.keep m = decide ((m : Int) ≤ o.keep) := by intro m; simp [listed, hp]
  rw [hli, if_pos (by simpa using hk)] at hm
  obtain ⟨e, mid', rfl, he, hm'⟩ := List.map_eq_cons_iff.mp hm
  have : mid' = [] := by simpa using hm'
  subst this
  injection he with he1 he2
  have hcounts : (o.ordered = false ∨ o.constantOrdered = true) → o.counts = false := by
    unfold Options.counts Options.effOrdered
    rintro (h | h)
    · rw [h]; cases o.constantOrdered <;> rfl
    · rw [h]; simp
  have hinfo := insert_infos hp hsha ht hf hmem hh hs
  have hdet : ∀ {hs es st}, Run o (TocState.init o.effMarker) hs es st →
      Each (fun b e => e.number = numberOf o.counts b e.level ∧ e.indent = indentOf o.noIndentation o.effOrdered o.effMarker b e.level) es := by
    intro hs es st hr
    refine hr.determined hp ?_
    rcases ho with ⟨h1, h2⟩ | ⟨h1, h2⟩
    · exact .inl ⟨h1, hcounts h2⟩
    · exact .inr (hr.coherent h1 h2).1
  have hsame := insert_determined (counts := o.counts) hinfo (hdet hr) (hdet hr') (by
    intro q hq
    have hq' : q.level ∈ ((hpost.map Prod.fst).filter (fun m : Nat => decide ((m : Int) ≤ o.keep))).head? := by
      rw [show (fun m : Nat => decide ((m : Int) ≤ o.keep)) = listed o.parser o.keep from (funext hli).symm, ← hlev]
      cases after with
      | nil => simp at hq
      | cons r u =>
        simp at hq
        subst hq
        simp
    rw [he1]
    exact (hn _ hq').imp_right (fun h => ⟨h.1, hcounts h.2⟩))
  subst hsame
  exact ⟨before, e, after, ht, ht', he1, he2⟩

/-- **C94**: the text of the table is the old one with one line added. -/
theorem C94_one_line {E : Env} {o : Options} (hp : o.parser ≠ .redcarpet) (hsha : ∀ b b', E.sha1 b = E.sha1 b' → b = b')
    (ho : (o.noIndentation = true ∧ (o.ordered = false ∨ o.constantOrdered = true)) ∨ (o.noIndentation = false ∧ o.noListCoherence = false)) {fn text text' out out' : Str}
    (h : buildToc E o fn (some ⟨text, false⟩) = .ok out) (h' : buildToc E o fn (some ⟨text', false⟩) = .ok out') {pre post : List Str} {l : Str} (hv : Looks o fn text (pre ++ post))
    (hv' : Looks o fn text' (pre ++ l :: post)) {n : Nat} {t : Str} (hl : Heading o.parser o.noLinks l n t) (hk : (n : Int) ≤ o.keep) {b : Str} (hb : BaseSlug E o.parser t b)
    {hpost : List (Nat × Str)} (hh : Headings o.parser o.noLinks post hpost) (hs : ∀ x ∈ hpost, ¬ BaseSlug E o.parser x.2 b)
    (hn : ∀ m ∈ ((hpost.map Prod.fst).filter (fun m : Nat => decide ((m : Int) ≤ o.keep))).head?, m < n ∨ (m = n ∧ (o.ordered = false ∨ o.constantOrdered = true))) :
    ∃ x y e, out = x ++ y ∧ e.level = n ∧ e.text = t ∧
      out' = x ++ (Entry.line (isOrdered o) o.noLinks (usedMarker o.parser (isOrdered o) o.listMarker) o.newline e ++ y) := by
  obtain ⟨before, e, after, ht, ht', h1, h2⟩ := C94_one_entry hp hsha ho h h' hv hv' hl hk hb hh hs hn
  obtain ⟨-, ho1⟩ := ht
  obtain ⟨-, ho2⟩ := ht'
  rw [List.map_append, List.flatten_append] at ho1 ho2
  rw [List.map_cons, List.flatten_cons] at ho2
  exact ⟨_, _, e, ho1, h1, h2, ho2⟩

/-- **C94**: a new heading which is not listed, and whose slug is not that of a heading behind it, changes nothing. -/
theorem C94_unlisted {E : Env} {o : Options} (hp : o.parser ≠ .redcarpet) (hsha : ∀ b b', E.sha1 b = E.sha1 b' → b = b') {fn text text' out out' : Str}
    (h : buildToc E o fn (some ⟨text, false⟩) = .ok out) (h' : buildToc E o fn (some ⟨text', false⟩) = .ok out') {pre post : List Str} {l : Str} (hv : Looks o fn text (pre ++ post))
    (hv' : Looks o fn text' (pre ++ l :: post)) {n : Nat} {t : Str} (hl : Heading o.parser o.noLinks l n t) (hk : o.keep < (n : Int)) {b : Str} (hb : BaseSlug E o.parser t b)
    {hpost : List (Nat × Str)} (hh : Headings o.parser o.noLinks post hpost) (hs : ∀ x ∈ hpost, ¬ BaseSlug E o.parser x.2 b) : out' = out := by
  obtain ⟨before, mid, after, after', _, _, _, _, hr, hr', ht, ht', hm, hlev, hf, hmem⟩ := insert_core hp hsha h h' hv hv' hl hb hh
  have hinfo := insert_infos hp hsha ht hf hmem hh hs
  rw [if_neg (by simpa [listed, hp] using hk)] at hm
  have : mid = [] := by simpa using hm
  subst this
  rw [List.nil_append] at hr' ht'
  have := entries_ext (by rw [List.map_append, List.map_append, hinfo]) (run_placed hr) (run_placed hr')
  rw [ht.2, ht'.2, this]

/-- The entries for redcarpet in lists without counting: each is a function of its heading. -/
theorem redcarpet_entries {E : Env} {o : Options} (hp : o.parser = .redcarpet) (hc : o.ordered = false ∨ o.constantOrdered = true) {vs : List Str} {out : Str} {es : List Entry}
    {heads : List (Nat × Str)} {hs st} (ht : Table E o vs out es) (hh : Headings o.parser o.noLinks vs heads) (hr : Run o (TocState.init o.effMarker) hs es st) :
    es = heads.map (fun x => ⟨x.1, 1, if o.noIndentation then 0 else 4 * (x.1 - 1), x.2, redcarpetSlug x.2⟩) := by
  have hco : o.counts = false := by
    unfold Options.counts Options.effOrdered
    rcases hc with h | h
    · rw [h]; cases o.constantOrdered <;> rfl
    · rw [h]; simp
  have hcm : o.parser.cmarkLike = false := by rw [hp]; rfl
  have hinfo : es.map Entry.info = heads.map (fun x => (x.1, x.2, redcarpetSlug x.2)) := by
    obtain ⟨⟨heads', as, d, g1, g2, g3, g4⟩, -⟩ := ht
    have := headings_unique g1 hh
    subst this
    have ha := anchorRun_redcarpet (E := E) (ts := heads'.map Prod.snd) (fun t ht => by
      obtain ⟨x, hx, rfl⟩ := List.mem_map.mp ht
      exact noInterior (headings_bounds hh x hx).2.2) (fun _ => 0)
    rw [hp] at g2
    rw [g2] at ha
    injection ha with ha
    have has : as = _ := congrArg Prod.fst ha
    rw [has] at g4
    refine g4.trans ?_
    rw [List.filter_eq_self.mpr (fun x _ => by simp [listed, hp])]
    clear * -
    induction heads' with
    | nil => rfl
    | cons x t ih => simpa using ih
  have hpl : ∀ e ∈ es, e.number = 1 ∧ e.indent = if o.noIndentation then 0 else 4 * (e.level - 1) := by
    intro e he
    obtain ⟨u, v, rfl⟩ := List.append_of_mem he
    have := run_placed hr u e v rfl
    rw [hco, hcm] at this
    simpa [placeNumber, placeIndent] using this
  clear ht hh hr
  induction es generalizing heads with
  | nil =>
    cases heads with
    | nil => rfl
    | cons => simp at hinfo
  | cons e es ih =>
    cases heads with
    | nil => simp at hinfo
    | cons x heads =>
      rw [List.map_cons, List.map_cons, List.cons.injEq] at hinfo
      rw [List.map_cons, ← ih hinfo.2 (fun e he => hpl e (by simp [he]))]
      have hp1 := hpl e (by simp)
      have hi := hinfo.1
      simp only [Entry.info, Prod.mk.injEq] at hi
      cases e
      simp_all

/-- **C94** for redcarpet, for lists without counting: whatever the new heading, one entry is added. -/
theorem C94_redcarpet {E : Env} {o : Options} (hp : o.parser = .redcarpet) (hc : o.ordered = false ∨ o.constantOrdered = true) {fn text text' out out' : Str}
    (h : buildToc E o fn (some ⟨text, false⟩) = .ok out) (h' : buildToc E o fn (some ⟨text', false⟩) = .ok out') {pre post : List Str} {l : Str} (hv : Looks o fn text (pre ++ post))
    (hv' : Looks o fn text' (pre ++ l :: post)) {n : Nat} {t : Str} (hl : Heading o.parser o.noLinks l n t) :
    ∃ before e after, Table E o (pre ++ post) out (before ++ after) ∧ Table E o (pre ++ l :: post) out' (before ++ e :: after) ∧ e.level = n ∧ e.text = t := by
  obtain ⟨hpre, h1⟩ := headings_exists o.parser o.noLinks pre
  obtain ⟨hpost, h2⟩ := headings_exists o.parser o.noLinks post
  have hh := headings_append h1 h2
  have hh' : Headings o.parser o.noLinks (pre ++ l :: post) (hpre ++ (n, t) :: hpost) := headings_append h1 (.heading hl h2)
  obtain ⟨_, es, _, hr, ht⟩ := buildToc_run h hv
  obtain ⟨_, es', _, hr', ht'⟩ := buildToc_run h' hv'
  have k1 := redcarpet_entries hp hc ht hh hr
  have k2 := redcarpet_entries hp hc ht' hh' hr'
  rw [List.map_append] at k1 k2
  rw [List.map_cons] at k2
  rw [k1] at ht
  rw [k2] at ht'
  exact ⟨_, _, _, ht, ht', rfl, rfl⟩

/-! ### The theorems apply -/

/-- A new section, a new last subsection (numbered list), and a heading which is not listed. -/
example : buildToc asciiEnv { ordered := true } "a.md".toList (some ⟨"# a\n# d\n".toList, false⟩) = .ok "1. [a](#a)\n2. [d](#d)\n".toList ∧
    buildToc asciiEnv { ordered := true } "a.md".toList (some ⟨"# a\n## b\n# d\n".toList, false⟩) = .ok "1. [a](#a)\n   1. [b](#b)\n2. [d](#d)\n".toList ∧
    buildToc asciiEnv { ordered := true } "a.md".toList (some ⟨"# a\n#### b\n# d\n".toList, false⟩) = .ok "1. [a](#a)\n2. [d](#d)\n".toList := by
  decide +kernel

/-- The hypotheses of `C94_one_entry` for this document. -/
example : Looks { ordered := true } "a.md".toList "# a\n# d\n".toList (["# a\n".toList] ++ ["# d\n".toList]) ∧
    Looks { ordered := true } "a.md".toList "# a\n## b\n# d\n".toList (["# a\n".toList] ++ "## b\n".toList :: ["# d\n".toList]) ∧
    Heading .github false "## b\n".toList 2 "b".toList ∧ BaseSlug asciiEnv .github "b".toList "b".toList ∧ Headings .github false ["# d\n".toList] [(1, "d".toList)] ∧
    ¬ BaseSlug asciiEnv .github "d".toList "b".toList := by
  have hhead : ∀ {x : Char} {k : Nat}, (x = 'b' ∧ k = 2) ∨ (x = 'd' ∧ k = 1) → Heading .github false (List.replicate k '#' ++ [' ', x, '\n']) k [x] := by
    intro x k hx
    have hnl : ∀ c ∈ List.replicate k '#' ++ [' ', x], ¬ IsNewline c := by
      unfold IsNewline
      rcases hx with ⟨rfl, rfl⟩ | ⟨rfl, rfl⟩ <;> decide
    have hatx : IsAtx .github (List.replicate k '#' ++ [' ', x]) k [' ', x] := by
      refine ⟨0, by decide, ?_, ?_, ?_, by intro c hc; injection hc with hc; subst hc; rfl⟩
      all_goals rcases hx with ⟨rfl, rfl⟩ | ⟨rfl, rfl⟩ <;> decide
    obtain ⟨c, h1, h2⟩ := atxCmark_heading (p := .github) rfl hatx hnl
    have h3 := h2 3 true true
    have h4 : atxCmark .github 3 true true (List.replicate k '#' ++ [' ', x]) = .ok (⟨some k, some [x], true⟩, true) := by rcases hx with ⟨rfl, rfl⟩ | ⟨rfl, rfl⟩ <;> decide +kernel
    rw [h4] at h3
    have hc : c = [x] := by
      simp only [if_true, Except.map, Except.ok.injEq, Prod.mk.injEq, AtxElem.mk.injEq, Option.some.injEq] at h3
      exact h3.1.2.1.symm
    subst hc
    refine ⟨_, [' ', x], [x], (by simpa using body_line (b := List.replicate k '#' ++ [' ', x]) hnl), ?_⟩
    rw [if_neg (by decide)]
    refine ⟨hatx, h1, ?_⟩
    rcases hx with ⟨rfl, rfl⟩ | ⟨rfl, rfl⟩ <;> decide +kernel
  refine ⟨?_, ?_, hhead (.inl ⟨rfl, rfl⟩), ⟨_, rfl⟩, .heading (hhead (.inr ⟨rfl, rfl⟩)) .nil, ?_⟩
  · refine looks_headings (o := { ordered := true }) (ms := ["# a\n".toList] ++ ["# d\n".toList]) (by decide) rfl ?_
    intro m hm
    simp only [List.cons_append, List.nil_append, List.mem_cons, List.not_mem_nil, or_false] at hm
    rcases hm with rfl | rfl
    · exact ⟨" a".toList, by decide, by decide⟩
    · exact ⟨" d".toList, by decide, by decide⟩
  · refine looks_headings (o := { ordered := true }) (ms := ["# a\n".toList] ++ "## b\n".toList :: ["# d\n".toList]) (by decide) rfl ?_
    intro m hm
    simp only [List.cons_append, List.nil_append, List.mem_cons, List.not_mem_nil, or_false] at hm
    rcases hm with rfl | rfl | rfl
    · exact ⟨" a".toList, by decide, by decide⟩
    · exact ⟨"# b".toList, by decide, by decide⟩
    · exact ⟨" d".toList, by decide, by decide⟩
  · intro h
    have := baseSlug_unique h (⟨_, rfl⟩ : BaseSlug asciiEnv .github "d".toList "d".toList)
    exact absurd this (by decide)

/-- The conditions are needed: in a numbered list a sibling changes the numbers behind it; a slug which repeats changes the anchors;
and without the check of the list any heading can change the places of the entries behind it. -/
theorem C94_needs :
    (buildToc asciiEnv { ordered := true } "a.md".toList (some ⟨"# a\n# b\n".toList, false⟩) = .ok "1. [a](#a)\n2. [b](#b)\n".toList ∧
      buildToc asciiEnv { ordered := true } "a.md".toList (some ⟨"# a\n# x\n# b\n".toList, false⟩) = .ok "1. [a](#a)\n2. [x](#x)\n3. [b](#b)\n".toList) ∧
    (buildToc asciiEnv {} "a.md".toList (some ⟨"# x\n# b\n".toList, false⟩) = .ok "- [x](#x)\n- [b](#b)\n".toList ∧
      buildToc asciiEnv {} "a.md".toList (some ⟨"# b\n# x\n# b\n".toList, false⟩) = .ok "- [b](#b)\n- [x](#x)\n- [b](#b-1)\n".toList) ∧
    (buildToc asciiEnv { noListCoherence := true } "a.md".toList (some ⟨"# b\n## c\n### d\n".toList, false⟩) = .ok "- [b](#b)\n  - [c](#c)\n    - [d](#d)\n".toList ∧
      buildToc asciiEnv { noListCoherence := true } "a.md".toList (some ⟨"# b\n### x\n## c\n### d\n".toList, false⟩) =
        .ok "- [b](#b)\n  - [x](#x)\n- [c](#c)\n  - [d](#d)\n".toList) := by
  decide +kernel

end MdToc.Props
