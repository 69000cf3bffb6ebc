import Verif.Lemmas.Tree
import Verif.Lemmas.Emph

/-!
# The steps of the parser keep the tree a forest

Every step with the tree gives what the step without it gives.
-/

set_option linter.unusedSimpArgs false
set_option linter.unusedVariables false

namespace MdToc.Cmark

/-- A live object without children, not the parent. -/
def Leaf (G : Forest) (x : Nat) : Prop := G.live x ∧ G.kids x = [] ∧ x ≠ 0

theorem insertAfter_ok {t : Tree} {G : Forest} (h : WF t G) {p o x : Nat} {A B : List Nat} (hp : G.live p) (hx : G.live x)
    (hk : G.kids p = A ++ o :: B) (ho : (t.nodes x).parent = none) (hr : G.rank p < G.rank x) :
    ∃ t' G', insertAfter t o x = .ok t' ∧ WF t' G' ∧ t'.inl = t.inl ∧ G'.live = G.live ∧
      (∀ q, G.kids q = [] → G'.kids q = []) := by
  simp only [insertAfter, (h.kid p o hp (by rw [hk]; simp)).2]
  obtain ⟨b, hb⟩ := h.canContain hp x
  rw [hb]
  simp only [bind, Except.bind]
  cases b with
  | false => exact ⟨t, G, rfl, h, rfl, rfl, fun _ hq => hq⟩
  | true =>
    refine ⟨_, _, rfl, h.linkAfter hp hx hk ho hr, linkAfter_inl t o x, rfl, ?_⟩
    intro q hq
    by_cases hqp : q = p
    · subst hqp; rw [hk] at hq; simp at hq
    · simp [Forest.setKids, hqp, hq]

theorem freeIf_ok {t : Tree} {G : Forest} (h : WF t G) {x : Nat} (hx : Leaf G x) (h0 : G.live 0) (b : Bool) :
    ∃ t' G', freeIf t b x = .ok t' ∧ WF t' G' ∧ t'.inl = t.inl ∧ G'.live 0 ∧
      (∀ y, Leaf G y → (y = x → b = false) → Leaf G' y) := by
  cases b with
  | false => exact ⟨t, G, rfl, h, rfl, h0, fun y hy _ => hy⟩
  | true =>
    obtain ⟨t', G', f1, f2, f3, f4, f5⟩ := h.free hx.1 hx.2.1
    refine ⟨t', G', f1, f2, f3, f4 0 h0 (Ne.symm hx.2.2), ?_⟩
    intro y hy hne
    exact ⟨f4 y hy.1 (fun hc => by simpa using hne hc), f5 y hy.2.1, hy.2.2⟩

theorem emphTree_ok {t : Tree} {G : Forest} (h : WF t G) (o c : Delim) (use : Nat) (h0 : G.live 0)
    (ho : Leaf G (t.inl o.pos)) (hc : Leaf G (t.inl c.pos)) (hne : t.inl o.pos ≠ t.inl c.pos) :
    ∃ t' G', emphTree t o c use = .ok t' ∧ WF t' G' ∧ t'.inl = t.inl ∧ G'.live 0 ∧
      (∀ y, Leaf G y → (y = t.inl o.pos → o.inlLen - use ≠ 0) → (y = t.inl c.pos → c.inlLen - use ≠ 0) → Leaf G' y) := by
  have hnf : ∀ y, G.live y → y ≠ t.fresh := fun y hy => by have := h.lt y hy; omega
  -- moving and inserting
  obtain ⟨t3, G3, q1, q2, q3, q4, q5⟩ : ∃ t3 G3, (do
      let t1 := t.new (if use = 1 then .emph else .strong)
      let t2 ← moveLoop t.fresh (some (t1.inl c.pos)) (t1.fresh + 1) t1 (t1.nodes (t1.inl o.pos)).next
      insertAfter t2 (t2.inl o.pos) t.fresh) = Except.ok t3 ∧ WF t3 G3 ∧ t3.inl = t.inl ∧ G3.live 0 ∧
      (∀ y, Leaf G y → Leaf G3 y) := by
    have hno : (t.new (if use = 1 then .emph else .strong)).nodes (t.inl o.pos) = t.nodes (t.inl o.pos) := by
      simp [Tree.new, hnf _ ho.1]
    have hinl : (t.new (if use = 1 then .emph else .strong)).inl = t.inl := rfl
    simp only [hinl, hno]
    cases hpar : (t.nodes (t.inl o.pos)).parent with
    | none =>
      have w := h.new (if use = 1 then .emph else .strong) 0
      rw [(h.orphan _ ho.1 hpar).1]
      simp only [moveLoop, bind, Except.bind, insertAfter]
      simp only [hinl, hno, hpar]
      refine ⟨_, _, rfl, w, rfl, .inl h0, ?_⟩
      intro y hy
      exact ⟨.inl hy.1, by simp [hnf y hy.1, hy.2.1], hy.2.2⟩
    | some p =>
      obtain ⟨hp, A, B, hAB⟩ := h.split ho.1 hpar
      have w := h.rescale.new (if use = 1 then .emph else .strong) (2 * G.rank p + 1)
      have hpf := hnf p hp
      have hof := hnf _ ho.1
      rw [(h.neighbours hp hAB).2]
      have hkp : (if p = t.fresh then [] else G.kids p) = (A ++ [t.inl o.pos]) ++ B := by simp [hpf, hAB]
      have hB : ∀ x ∈ B, G.live x ∧ G.rank p < G.rank x := by
        intro x hx
        have := h.kid p x hp (by rw [hAB]; simp [hx])
        exact ⟨this.1, h.rank x p this.1 this.2⟩
      have hlen : B.length < (t.new (if use = 1 then .emph else .strong)).fresh + 1 := by
        have := nodup_length (h.nodup p hp) (n := t.fresh) (fun x hx => h.lt x (h.kid p x hp hx).1)
        rw [hAB] at this
        simp at this
        simp [Tree.new]
        omega
      obtain ⟨t2, G2, m1, m2, m3, m4, m5, m6, ⟨B', m7⟩, m8, m9⟩ := WF.move t.fresh p (some (t.inl c.pos)) hpf _ _ _
        (A ++ [t.inl o.pos]) B w (.inl hp) (.inr rfl) hkp
        (by
          intro x hx
          have := hB x hx
          simp [hnf x this.1]
          omega) hlen
      rw [m1]
      simp only [bind, Except.bind, m3, hinl]
      have hm7 : G2.kids p = A ++ t.inl o.pos :: B' := by rw [m7]; simp
      obtain ⟨t3, G3, i1, i2, i3, i4, i5⟩ := insertAfter_ok m2 (p := p) (o := t.inl o.pos) (x := t.fresh) (A := A) (B := B')
        (by rw [m5]; exact .inl hp) (by rw [m5]; exact .inr rfl) hm7
        (by
          rw [m9 t.fresh (fun hc => hnf _ (hB _ hc).1 rfl)]
          simp [Tree.new, Node.new])
        (by rw [m6]; simp [hpf])
      refine ⟨t3, G3, i1, i2, by rw [i3, m3]; rfl, by rw [i4, m5]; exact .inl h0, ?_⟩
      intro y hy
      have hyf := hnf y hy.1
      refine ⟨by rw [i4, m5]; exact .inl hy.1, i5 y ?_, hy.2.2⟩
      have hyp : y ≠ p := by
        rintro rfl
        have := hy.2.1
        rw [hAB] at this
        simp at this
      rw [m8 y hyp hyf]
      simp [hyf, hy.2.1]
  obtain ⟨t4, G4, r1, r2, r3, r4, r5⟩ := freeIf_ok q2 (q5 _ ho) q4 (decide (o.inlLen - use = 0))
  have hc4 : Leaf G4 (t.inl c.pos) := r5 _ (q5 _ hc) (fun e => absurd e.symm hne)
  obtain ⟨t5, G5, u1, u2, u3, u4, u5⟩ := freeIf_ok r2 hc4 r4 (decide (c.inlLen - use = 0))
  refine ⟨t5, G5, ?_, u2, by rw [u3, r3, q3], u4, ?_⟩
  · simp only [emphTree]
    simp only [bind, Except.bind] at q1 ⊢
    cases hm : moveLoop t.fresh (some ((t.new (if use = 1 then .emph else .strong)).inl c.pos))
        ((t.new (if use = 1 then .emph else .strong)).fresh + 1) (t.new (if use = 1 then .emph else .strong))
        ((t.new (if use = 1 then .emph else .strong)).nodes ((t.new (if use = 1 then .emph else .strong)).inl o.pos)).next with
    | error e => rw [hm] at q1; simp at q1
    | ok t2 =>
      rw [hm] at q1
      simp only at q1 ⊢
      rw [q1]
      simp only [q3]
      rw [r1]
      simp only [r3, q3]
      exact u1
  · intro y hy h1 h2
    refine u5 y (r5 y (q5 y hy) ?_) ?_
    · intro e; simpa using h1 e
    · intro e; simpa using h2 e

/-- The objects of delimiters. -/
def nodesOf (t : Tree) (ds : List Delim) : List Nat := ds.map (fun d => t.inl d.pos)

/-- The objects of delimiters and brackets are distinct leaves. -/
structure Good (t : Tree) (G : Forest) (ds : List Delim) (bs : List Nat) : Prop where
  wf : WF t G
  zero : G.live 0
  nodup : (nodesOf t ds ++ bs).Nodup
  leaf : ∀ y ∈ nodesOf t ds ++ bs, Leaf G y

theorem Good.mono {t : Tree} {G : Forest} {ds ds' : List Delim} {bs : List Nat} (h : Good t G ds bs) (hs : ds'.Subperm ds) : Good t G ds' bs := by
  obtain ⟨l, hl, hsub⟩ := hs
  have hsub2 : (nodesOf t l ++ bs).Sublist (nodesOf t ds ++ bs) := (hsub.map _).append (List.Sublist.refl _)
  have hperm : (nodesOf t l ++ bs).Perm (nodesOf t ds' ++ bs) := (hl.map _).append_right _
  exact ⟨h.wf, h.zero, hperm.nodup_iff.1 (h.nodup.sublist hsub2),
    fun y hy => h.leaf y (hsub2.subset (hperm.mem_iff.2 hy))⟩

theorem Good.monoBs {t : Tree} {G : Forest} {ds : List Delim} {bs bs' : List Nat} (h : Good t G ds bs) (hs : bs'.Sublist bs) : Good t G ds bs' := by
  have hsub2 : (nodesOf t ds ++ bs').Sublist (nodesOf t ds ++ bs) := (List.Sublist.refl _).append hs
  exact ⟨h.wf, h.zero, h.nodup.sublist hsub2, fun y hy => h.leaf y (hsub2.subset hy)⟩

theorem findOpener_split {c : Delim} {b : Option Nat} (older : List Delim) : ∀ {o below}, findOpener c b older = some (o, below) →
    ∃ pre, older = pre ++ o :: below := by
  induction older with
  | nil => intro o below h; simp [findOpener] at h
  | cons d l ih =>
    intro o below h
    simp only [findOpener] at h
    split at h
    · simp at h
    · split at h
      · simp at h
        exact ⟨[], by simp [h.1, h.2]⟩
      · obtain ⟨pre, hp⟩ := ih h
        exact ⟨d :: pre, by simp [hp]⟩

theorem keepDelim_map (t : Tree) (d : Delim) (use : Nat) (l : List Delim) :
    nodesOf t (keepDelim (d.consume use) l) = if d.inlLen - use = 0 then nodesOf t l else t.inl d.pos :: nodesOf t l := by
  simp only [keepDelim, Delim.consume]
  by_cases h : d.inlLen - use = 0
  · simp [h]
  · simp [h, nodesOf]

theorem emphLoop_tree (bs : List Nat) (f : Nat) : ∀ older newer bots ig t G, Good t G (older ++ newer) bs →
    (∀ e, emphLoop f older newer bots ig = .error e → emphLoopTree f older newer bots ig t = .error e) ∧
    (∀ r, emphLoop f older newer bots ig = .ok r → ∃ t' G', emphLoopTree f older newer bots ig t = .ok (r, t') ∧
      t'.inl = t.inl ∧ Good t' G' r.1 bs) := by
  induction f with
  | zero =>
    intro older newer bots ig t G h
    exact ⟨fun e he => by simpa [emphLoop, emphLoopTree] using he, fun r hr => by simp [emphLoop] at hr⟩
  | succ f ih =>
    intro older newer bots ig t G h
    cases newer with
    | nil =>
      refine ⟨fun e he => by simp [emphLoop] at he, fun r hr => ?_⟩
      simp [emphLoop] at hr
      subst hr
      exact ⟨t, G, by simp [emphLoopTree], rfl, by simpa using h⟩
    | cons c rest =>
      have hmove : Good t G ((c :: older) ++ rest) bs := h.mono (by
        refine List.Perm.subperm ?_
        simpa using List.perm_middle.symm)
      have hdrop : Good t G (older ++ rest) bs := h.mono (by
        refine List.Sublist.subperm ?_
        simp)
      simp only [emphLoop, emphLoopTree]
      split
      · cases hb : bottomIndex c with
        | error e =>
          simp only [bind, Except.bind]
          exact ⟨fun e' he => by simpa using he, fun r hr => by simp at hr⟩
        | ok idx =>
          simp only [bind, Except.bind]
          cases hf : findOpener c (bots idx) older with
          | none =>
            simp only []
            split
            · exact ih _ _ _ _ _ _ hmove
            · exact ih _ _ _ _ _ _ hdrop
          | some ob =>
            obtain ⟨o, below⟩ := ob
            obtain ⟨pre, hpre⟩ := findOpener_split older hf
            simp only []
            have hlo : Leaf G (t.inl o.pos) := h.leaf _ (by simp [nodesOf, hpre])
            have hlc : Leaf G (t.inl c.pos) := h.leaf _ (by simp [nodesOf])
            have hnd := h.nodup
            simp only [nodesOf, hpre, List.map_append, List.map_cons, List.append_assoc, List.cons_append] at hnd
            have hnd2 := (List.nodup_append.1 hnd).2.1
            have hne : t.inl o.pos ≠ t.inl c.pos := by
              intro hc
              rw [List.nodup_cons] at hnd2
              exact hnd2.1 (by simp [hc])
            obtain ⟨t', G', k1, k2, k3, k4, k5⟩ := emphTree_ok h.wf o c (useDelims o c) h.zero hlo hlc hne
            rw [k1]
            simp only []
            have hgood : Good t' G' (keepDelim (o.consume (useDelims o c)) below ++ keepDelim (c.consume (useDelims o c)) rest) bs := by
              have hmap : nodesOf t' (keepDelim (o.consume (useDelims o c)) below ++ keepDelim (c.consume (useDelims o c)) rest) =
                  (if o.inlLen - useDelims o c = 0 then nodesOf t below else t.inl o.pos :: nodesOf t below) ++
                  (if c.inlLen - useDelims o c = 0 then nodesOf t rest else t.inl c.pos :: nodesOf t rest) := by
                have : nodesOf t' = nodesOf t := by funext l; simp [nodesOf, k3]
                rw [this]
                simp only [nodesOf, List.map_append]
                have e1 := keepDelim_map t o (useDelims o c) below
                have e2 := keepDelim_map t c (useDelims o c) rest
                simp only [nodesOf] at e1 e2
                rw [e1, e2]
              have hsub : (nodesOf t' (keepDelim (o.consume (useDelims o c)) below ++ keepDelim (c.consume (useDelims o c)) rest) ++ bs).Sublist
                  (t.inl o.pos :: (nodesOf t below ++ (t.inl c.pos :: (nodesOf t rest ++ bs)))) := by
                rw [hmap]
                split <;> split <;> simp
              have hnd3 : (t.inl o.pos :: (nodesOf t below ++ (t.inl c.pos :: (nodesOf t rest ++ bs)))).Nodup := hnd2
              refine ⟨k2, k4, hnd3.sublist hsub, ?_⟩
              intro y hy
              have hy2 := hsub.subset hy
              have hall : nodesOf t (older ++ c :: rest) ++ bs =
                  nodesOf t pre ++ (t.inl o.pos :: (nodesOf t below ++ (t.inl c.pos :: (nodesOf t rest ++ bs)))) := by
                simp [nodesOf, hpre]
              have hleaf : Leaf G y := h.leaf y (by rw [hall]; exact List.mem_append_right _ hy2)
              refine k5 y hleaf ?_ ?_
              · intro he hz
                rw [hmap, if_pos hz, he] at hy
                rw [List.nodup_cons] at hnd3
                refine hnd3.1 ?_
                rw [List.append_assoc, List.mem_append, List.mem_append] at hy
                rcases hy with hy | hy | hy
                · simp [hy]
                · split at hy
                  · simp [hy]
                  · rcases List.mem_cons.1 hy with hy | hy
                    · exact absurd hy hne
                    · simp [hy]
                · simp [hy]
              · intro he hz
                rw [hmap, if_pos hz, he] at hy
                have hnd4 := (List.nodup_cons.1 hnd3).2
                have hnd5 := List.nodup_append.1 hnd4
                have hnd6 := (List.nodup_cons.1 hnd5.2.1).1
                rw [List.append_assoc, List.mem_append] at hy
                rcases hy with hy | hy
                · have : t.inl c.pos ∈ nodesOf t below := by
                    split at hy
                    · exact hy
                    · rcases List.mem_cons.1 hy with hy | hy
                      · exact absurd hy.symm hne
                      · exact hy
                  exact hnd5.2.2 _ this _ (by simp) rfl
                · exact hnd6 hy
            obtain ⟨i1, i2⟩ := ih (keepDelim (o.consume (useDelims o c)) below) (keepDelim (c.consume (useDelims o c)) rest) bots
              (ig ++ emphRanges o c (useDelims o c)) t' G' hgood
            refine ⟨i1, ?_⟩
            intro r hr
            obtain ⟨t'', G'', j1, j2, j3⟩ := i2 r hr
            exact ⟨t'', G'', j1, by rw [j2, k3], j3⟩
      · exact ih _ _ _ _ _ _ hmove

theorem processEmphasis_tree {s : Subj} {bottom : Option Nat} {t : Tree} {G : Forest} {bs : List Nat} (h : Good t G s.delims bs) :
    (∀ e, processEmphasis s bottom = .error e → processEmphasisTree s bottom t = .error e) ∧
    (∀ s', processEmphasis s bottom = .ok s' → ∃ t' G', processEmphasisTree s bottom t = .ok (s', t') ∧
      t'.inl = t.inl ∧ Good t' G' s'.delims bs) := by
  simp only [processEmphasis, processEmphasisTree]
  cases hsp : splitAtBottom bottom s.delims with
  | none =>
    refine ⟨fun e he => by simp at he, fun s' hs => ?_⟩
    injection hs with hs
    subst hs
    exact ⟨t, G, rfl, rfl, h.mono (List.nil_subperm)⟩
  | some on =>
    obtain ⟨older, newer⟩ := on
    have hperm : (older ++ newer).Subperm s.delims := by
      rw [splitAtBottom_spec hsp]
      exact (List.perm_append_comm.trans (List.Perm.append_right _ (List.reverse_perm _).symm)).subperm
    obtain ⟨i1, i2⟩ := emphLoop_tree bs (emphFuel newer) older newer (fun _ => bottom) s.ignore t G (h.mono hperm)
    simp only [bind, Except.bind]
    cases hl : emphLoop (emphFuel newer) older newer (fun _ => bottom) s.ignore with
    | error e =>
      rw [i1 e hl]
      exact ⟨fun e' he => by simpa using he, fun s' hs => by simp at hs⟩
    | ok r =>
      obtain ⟨t', G', j1, j2, j3⟩ := i2 r hl
      rw [j1]
      obtain ⟨ds, ig⟩ := r
      refine ⟨fun e' he => by simp at he, fun s' hs => ?_⟩
      injection hs with hs
      subst hs
      refine ⟨t', G', rfl, j2, ?_⟩
      cases bottom with
      | none => exact j3.mono (List.nil_subperm)
      | some b => exact j3.mono (List.dropWhile_sublist _).subperm

theorem linkTree_ok {t : Tree} {G : Forest} (h : WF t G) (b : Bracket) (h0 : G.live 0)
    (hb : Leaf G (t.inl (b.position - 1))) :
    ∃ t' G', linkTree t b = .ok t' ∧ WF t' G' ∧ t'.inl = t.inl ∧ G'.live 0 ∧
      (∀ y, Leaf G y → y ≠ t.inl (b.position - 1) → Leaf G' y) := by
  have hnf : ∀ y, G.live y → y ≠ t.fresh := fun y hy => by have := h.lt y hy; omega
  generalize hx : t.inl (b.position - 1) = x at *
  have hxf := hnf x hb.1
  have hno : (t.new .link).nodes x = t.nodes x := by simp [Tree.new, hxf]
  have hinl : (t.new .link).inl = t.inl := rfl
  obtain ⟨t3, G3, q1, q2, q3, q4, q5⟩ : ∃ t3 G3, (do
      let t1 ← insertBefore (t.new .link) x t.fresh
      moveLoop t.fresh none (t1.fresh + 1) t1 (t1.nodes x).next) = Except.ok t3 ∧ WF t3 G3 ∧ t3.inl = t.inl ∧ G3.live 0 ∧
      (∀ y, Leaf G y → Leaf G3 y) := by
    cases hpar : (t.nodes x).parent with
    | none =>
      have w := h.new .link 0
      simp only [insertBefore, hno, hpar, bind, Except.bind, (h.orphan x hb.1 hpar).1, moveLoop]
      refine ⟨_, _, rfl, w, rfl, .inl h0, ?_⟩
      intro y hy
      exact ⟨.inl hy.1, by simp [hnf y hy.1, hy.2.1], hy.2.2⟩
    | some p =>
      obtain ⟨hp, A, B, hAB⟩ := h.split hb.1 hpar
      have hpf := hnf p hp
      have w := h.rescale.new .link (2 * G.rank p + 1)
      have hB : ∀ y ∈ B, G.live y ∧ G.rank p < G.rank y := by
        intro y hy
        have := h.kid p y hp (by rw [hAB]; simp [hy])
        exact ⟨this.1, h.rank y p this.1 this.2⟩
      have hlen : B.length < t.fresh + 1 := by
        have := nodup_length (h.nodup p hp) (n := t.fresh) (fun x hx => h.lt x (h.kid p x hp hx).1)
        rw [hAB] at this
        simp at this
        omega
      have hleafp : ∀ y, Leaf G y → y ≠ p := by
        rintro y hy rfl
        have := hy.2.1
        rw [hAB] at this
        simp at this
      simp only [insertBefore, hno, hpar]
      obtain ⟨cc, hcc⟩ := w.canContain (p := p) (.inl hp) t.fresh
      rw [hcc]
      simp only [bind, Except.bind]
      cases cc with
      | false =>
        simp only [Bool.false_eq_true, if_false]
        rw [hno, (h.neighbours hp hAB).2]
        have hkp : (if p = t.fresh then [] else G.kids p) = (A ++ [x]) ++ B := by simp [hpf, hAB]
        obtain ⟨t2, G2, m1, m2, m3, m4, m5, m6, m7, m8, m9⟩ := WF.move t.fresh p none hpf ((t.new .link).fresh + 1) _ _
          (A ++ [x]) B w (.inl hp) (.inr rfl) hkp
          (by
            intro y hy
            have := hB y hy
            simp [hnf y this.1]
            omega) (by simp [Tree.new]; omega)
        refine ⟨t2, G2, m1, m2, by rw [m3]; rfl, by rw [m5]; exact .inl h0, ?_⟩
        intro y hy
        have hyf := hnf y hy.1
        refine ⟨by rw [m5]; exact .inl hy.1, ?_, hy.2.2⟩
        rw [m8 y (hleafp y hy) hyf]
        simp [hyf, hy.2.1]
      | true =>
        simp only [if_true]
        have hkp : (if p = t.fresh then [] else G.kids p) = A ++ x :: B := by simp [hpf, hAB]
        have w2 := w.linkBefore (p := p) (o := x) (x := t.fresh) (A := A) (B := B) (.inl hp) (.inr rfl) hkp
          (by simp [Tree.new, Node.new]) (by simp [hpf])
        have hk2 : A ++ t.fresh :: x :: B = (A ++ [t.fresh]) ++ x :: B := by simp
        rw [hk2] at w2
        have hn2 := (w2.neighbours (p := p) (x := x) (A := A ++ [t.fresh]) (B := B) (.inl hp) (by simp [Forest.setKids])).2
        rw [hn2]
        obtain ⟨t2, G2, m1, m2, m3, m4, m5, m6, m7, m8, m9⟩ := WF.move t.fresh p none hpf
          ((Cmark.linkBefore (t.new .link) x t.fresh).fresh + 1) _ _
          (A ++ [t.fresh, x]) B w2 (.inl hp) (.inr rfl) (by simp [Forest.setKids])
          (by
            intro y hy
            have := hB y hy
            simp [Forest.setKids, hnf y this.1]
            omega) (by rw [linkBefore_fresh]; simp [Tree.new]; omega)
        refine ⟨t2, G2, m1, m2, by rw [m3, linkBefore_inl]; rfl, by rw [m5]; exact .inl h0, ?_⟩
        intro y hy
        have hyf := hnf y hy.1
        refine ⟨by rw [m5]; exact .inl hy.1, ?_, hy.2.2⟩
        rw [m8 y (hleafp y hy) hyf]
        simp [Forest.setKids, hleafp y hy, hyf, hy.2.1]
  obtain ⟨t4, G4, f1, f2, f3, f4, f5⟩ := q2.free (q5 _ hb).1 (q5 _ hb).2.1
  refine ⟨t4, G4, ?_, f2, by rw [f3, q3], f4 0 q4 (Ne.symm hb.2.2), ?_⟩
  · simp only [linkTree, hinl, hx]
    simp only [bind, Except.bind] at q1 ⊢
    cases hi : insertBefore (t.new .link) x t.fresh with
    | error e => rw [hi] at q1; simp at q1
    | ok t1 =>
      rw [hi] at q1
      simp only at q1 ⊢
      have hinl1 : t1.inl = t.inl := by
        simp only [insertBefore] at hi
        split at hi
        · injection hi with hi; subst hi; rfl
        · simp only [bind, Except.bind] at hi
          split at hi
          · simp at hi
          · split at hi
            · injection hi with hi; subst hi; rw [linkBefore_inl]; rfl
            · injection hi with hi; subst hi; rfl
      rw [hinl1, hx, q1]
      simp only [q3, hx]
      exact f1
  · intro y hy hne
    exact ⟨f4 y (q5 y hy).1 hne, f5 y (q5 y hy).2.1, hy.2.2⟩

theorem WF.withInl {t : Tree} {G : Forest} (h : WF t G) (i : Nat → Nat) : WF { t with inl := i } G :=
  ⟨h.lt, h.first, h.last, h.seg, h.nodup, h.kid, h.parent, h.orphan, h.rank⟩

theorem addLeaf_ok {t : Tree} {G : Forest} (h : WF t G) (h0 : G.live 0) (pos : Nat) :
    ∃ G', WF (addLeaf t pos) G' ∧ G'.live 0 ∧ (∀ y, Leaf G y → Leaf G' y) ∧ Leaf G' t.fresh := by
  have hnf : ∀ y, G.live y → y ≠ t.fresh := fun y hy => by have := h.lt y hy; omega
  have h0f := hnf 0 h0
  have w := (h.new .leaf (G.rank 0 + 1)).append (e := 0) (x := t.fresh) (.inl h0) (.inr rfl)
    (by simp [Tree.new, Node.new]) (by simp [h0f])
  refine ⟨_, w.withInl _, .inl h0, ?_, ?_⟩
  · intro y hy
    exact ⟨.inl hy.1, by simp [Forest.setKids, hy.2.2, hnf y hy.1, hy.2.1], hy.2.2⟩
  · exact ⟨.inr rfl, by simp [Forest.setKids, Ne.symm h0f], Ne.symm h0f⟩

theorem addAutolink_ok {t : Tree} {G : Forest} (h : WF t G) (h0 : G.live 0) (pos : Nat) :
    ∃ G', WF (addAutolink t pos) G' ∧ G'.live 0 ∧ (∀ y, Leaf G y → Leaf G' y) := by
  have hnf : ∀ y, G.live y → y ≠ t.fresh := fun y hy => by have := h.lt y hy; omega
  have hnf1 : ∀ y, G.live y → y ≠ t.fresh + 1 := fun y hy => by have := h.lt y hy; omega
  have h0f := hnf 0 h0
  have h0f1 := hnf1 0 h0
  have w1 := (h.new .link (G.rank 0 + 1)).new .leaf (G.rank 0 + 2)
  have w2 := w1.append (e := t.fresh) (x := t.fresh + 1) (.inl (.inr rfl)) (.inr rfl)
    (by simp [Tree.new, Node.new]) (by simp [Tree.new])
  have w3 := w2.append (e := 0) (x := t.fresh) (.inl (.inl h0)) (.inl (.inr rfl))
    (by
      simp only [appendChild]
      split <;> simp only [mod_nodes] <;> simp [Tree.new, Node.new] <;> split <;> simp [Node.new])
    (by simp [Tree.new, Forest.setKids, h0f, h0f1])
  refine ⟨_, w3.withInl _, .inl (.inl h0), ?_⟩
  intro y hy
  refine ⟨.inl (.inl hy.1), ?_, hy.2.2⟩
  simp [Forest.setKids, hy.2.2, hnf y hy.1, hnf1 y hy.1, hy.2.1, Tree.new]

/-- The objects of brackets. -/
def bracketNodes (t : Tree) (bs : List Bracket) : List Nat := bs.map (fun b => t.inl (b.position - 1))

/-- The invariant of the parser with the tree. -/
structure TreeOk (s : Subj) (t : Tree) : Prop where
  subj : SubjOk s
  brackets : ∀ b ∈ s.brackets, 1 ≤ b.position ∧ b.position ≤ s.pos
  good : ∃ G, Good t G s.delims (bracketNodes t s.brackets)

theorem deactivate_positions (bs : List Bracket) : (deactivate bs).map (·.position) = bs.map (·.position) := by
  induction bs with
  | nil => rfl
  | cons b bs ih =>
    simp only [deactivate]
    split
    · rfl
    · simp [ih]

theorem bracketNodes_eq {t t' : Tree} {bs bs' : List Bracket} (h : bs'.map (·.position) = bs.map (·.position)) (hi : t'.inl = t.inl) :
    bracketNodes t' bs' = bracketNodes t bs := by
  have e : ∀ l : List Bracket, bracketNodes t l = (l.map (·.position)).map (fun p => t.inl (p - 1)) := by
    intro l; simp [bracketNodes]
  have e' : ∀ l : List Bracket, bracketNodes t' l = (l.map (·.position)).map (fun p => t.inl (p - 1)) := by
    intro l; simp [bracketNodes, hi]
  rw [e, e', h]

theorem positions_mem {bs bs' : List Bracket} (h : bs'.map (·.position) = bs.map (·.position)) {b : Bracket} (hb : b ∈ bs') :
    ∃ c ∈ bs, c.position = b.position := by
  have : b.position ∈ bs'.map (·.position) := List.mem_map_of_mem hb
  rw [h] at this
  simpa using this

theorem handleCloseBracket_tree {E : Env} {s : Subj} {t : Tree} (h : TreeOk s t) :
    (∀ e, handleCloseBracket E s = .error e → handleCloseBracketTree E s t = .error e) ∧
    (∀ s', handleCloseBracket E s = .ok s' → ∃ t', handleCloseBracketTree E s t = .ok (s', t') ∧ TreeOk s' t') := by
  obtain ⟨G, hG⟩ := h.good
  have hok : ∀ s', handleCloseBracket E s = .ok s' → SubjOk s' := fun s' hs => handleCloseBracket_ok h.subj hs
  simp only [handleCloseBracket, handleCloseBracketTree] at hok ⊢
  cases hbr : s.brackets with
  | nil =>
    simp only [hbr] at hok ⊢
    refine ⟨fun e he => by simp at he, fun s' hs => ?_⟩
    have ho := hok s' hs
    injection hs with hs
    subst hs
    refine ⟨t, rfl, ho, by simp, G, ?_⟩
    rw [hbr] at hG
    exact hG
  | cons opener bs =>
    have hbs : Good t G s.delims (bracketNodes t bs) := hG.monoBs (by rw [hbr]; simp [bracketNodes])
    have hpos : ∀ b ∈ bs, 1 ≤ b.position ∧ b.position ≤ s.pos := fun b hb => h.brackets b (by rw [hbr]; simp [hb])
    simp only [hbr] at hok ⊢
    split
    · rename_i hact
      rw [if_pos hact] at hok
      refine ⟨fun e he => by simp at he, fun s' hs => ?_⟩
      have ho := hok s' hs
      injection hs with hs
      subst hs
      refine ⟨t, rfl, ho, ?_, G, hbs⟩
      intro b hb
      have := hpos b hb
      exact ⟨this.1, by simp; omega⟩
    · rename_i hact
      rw [if_neg hact] at hok
      simp only [bind, Except.bind] at hok ⊢
      cases hi : inlineLink E { s with pos := s.pos + 1, brackets := opener :: bs } with
      | error e =>
        exact ⟨fun e' he => by simpa using he, fun s' hs => by simp at hs⟩
      | ok r =>
        rw [hi] at hok
        cases r with
        | none =>
          simp only at hok ⊢
          cases hl : linkLabel { s with pos := s.pos + 1, brackets := opener :: bs } with
          | error e =>
            exact ⟨fun e' he => by simpa using he, fun s' hs => by simp at hs⟩
          | ok u =>
            rw [hl] at hok
            simp only at hok ⊢
            refine ⟨fun e he => by simp at he, fun s' hs => ?_⟩
            have ho := hok s' hs
            injection hs with hs
            subst hs
            refine ⟨t, rfl, ho, ?_, G, hbs⟩
            intro b hb
            have := hpos b hb
            exact ⟨this.1, by simp; omega⟩
        | some p =>
          simp only at hok ⊢
          have hpos2 := inlineLink_pos hi
          simp only at hpos2
          have hlb : Leaf G (t.inl (opener.position - 1)) := hG.leaf _ (by rw [hbr]; simp [bracketNodes])
          have hnb : ∀ y ∈ nodesOf t s.delims ++ bracketNodes t bs, y ≠ t.inl (opener.position - 1) := by
            have := hG.nodup
            rw [hbr] at this
            intro y hy he
            subst he
            have hp := (List.perm_middle (a := t.inl (opener.position - 1)) (l₁ := nodesOf t s.delims) (l₂ := bracketNodes t bs)).nodup_iff.1 this
            exact (List.nodup_cons.1 hp).1 hy
          obtain ⟨t1, G1, k1, k2, k3, k4, k5⟩ := linkTree_ok hG.wf opener hG.zero hlb
          rw [k1]
          simp only
          have hn1 : nodesOf t1 = nodesOf t := by funext l; simp [nodesOf, k3]
          have hg1 : Good t1 G1 s.delims (bracketNodes t bs) :=
            ⟨k2, k4, by rw [hn1]; exact hbs.nodup, fun y hy => by
              rw [hn1] at hy
              exact k5 y (hbs.leaf y hy) (hnb y hy)⟩
          obtain ⟨i1, i2⟩ := processEmphasis_tree (s := { s with pos := p, brackets := opener :: bs }) (bottom := opener.prevDelim) hg1
          cases hpe : processEmphasis { s with pos := p, brackets := opener :: bs } opener.prevDelim with
          | error e =>
            rw [i1 e hpe]
            exact ⟨fun e' he => by simpa using he, fun s' hs => by simp at hs⟩
          | ok s1 =>
            obtain ⟨t2, G2, j1, j2, j3⟩ := i2 s1 hpe
            rw [hpe] at hok
            rw [j1]
            refine ⟨fun e he => by simp at he, fun s' hs => ?_⟩
            have ho := hok s' hs
            injection hs with hs
            subst hs
            have hk := processEmphasis_keeps hpe
            refine ⟨t2, rfl, ho, ?_, G2, ?_⟩
            · intro b hb
              obtain ⟨c, hc, hcb⟩ := positions_mem (deactivate_positions bs) hb
              have := hpos c hc
              have hps : s1.pos = p := hk.2.2.1
              rw [← hcb]
              exact ⟨this.1, by simp only [hps]; omega⟩
            · simp only
              rw [bracketNodes_eq (deactivate_positions bs) (show t2.inl = t.inl by rw [j2, k3])]
              exact j3

/-- How the handlers other than that of `]` change the lists. -/
theorem parseInline_lists {E : Env} {s s' : Subj} {c : Char} (hc : c ≠ ']') (h : parseInline E s c = .ok s') :
    (s'.delims = s.delims ∧ s'.brackets.map (·.position) = s.brackets.map (·.position)) ∨
    (c ≠ '<' ∧ (∃ d, s'.delims = d :: s.delims ∧ d.pos = s.pos) ∧ s'.brackets.map (·.position) = s.brackets.map (·.position)) ∨
    (c ≠ '<' ∧ s'.delims = s.delims ∧ s'.brackets.map (·.position) = (s.pos + 1) :: s.brackets.map (·.position)) := by
  unfold parseInline at h
  by_cases h1 : c = '\r' ∨ c = '\n'
  · rw [if_pos h1] at h; exact .inl ⟨(handleNewline_same h).1, by rw [(handleNewline_same h).2.2]⟩
  rw [if_neg h1] at h; clear h1
  by_cases h1 : c = '`'
  · rw [if_pos h1] at h; exact .inl ⟨(handleBackticks_same h).1, by rw [(handleBackticks_same h).2.2]⟩
  rw [if_neg h1] at h; clear h1
  by_cases h1 : c = '\\'
  · rw [if_pos h1] at h; injection h with h; subst h; exact .inl ⟨(handleBackslash_same s).1, by rw [(handleBackslash_same s).2.2]⟩
  rw [if_neg h1] at h; clear h1
  by_cases h1 : c = '&'
  · rw [if_pos h1] at h; exact .inl ⟨(handleEntity_same h).1, by rw [(handleEntity_same h).2.2]⟩
  rw [if_neg h1] at h; clear h1
  by_cases hlt : c = '<'
  · rw [if_pos hlt] at h; exact .inl ⟨(handlePointyBrace_same h).1, by rw [(handlePointyBrace_same h).2.2]⟩
  rw [if_neg hlt] at h
  by_cases h1 : c = '*' ∨ c = '_' ∨ c = '\'' ∨ c = '"'
  · rw [if_pos h1] at h
    injection h with h
    subst h
    simp only [handleDelim]
    split
    · exact .inr (.inl ⟨hlt, ⟨_, rfl, rfl⟩, rfl⟩)
    · exact .inl ⟨rfl, rfl⟩
  rw [if_neg h1] at h; clear h1
  by_cases h1 : c = '-'
  · rw [if_pos h1] at h; injection h with h; subst h; exact .inl ⟨rfl, rfl⟩
  rw [if_neg h1] at h; clear h1
  by_cases h1 : c = '.'
  · rw [if_pos h1] at h; injection h with h; subst h; exact .inl ⟨rfl, rfl⟩
  rw [if_neg h1] at h; clear h1
  by_cases h1 : c = '['
  · rw [if_pos h1] at h
    injection h with h
    subst h
    refine .inr (.inr ⟨hlt, rfl, ?_⟩)
    simp only [pushBracket]
    cases s.brackets <;> simp
  rw [if_neg h1, if_neg hc] at h; clear h1
  by_cases h1 : c = '!'
  · rw [if_pos h1] at h; injection h with h; subst h; exact .inl ⟨rfl, rfl⟩
  rw [if_neg h1] at h; clear h1
  simp only [bind, Except.bind] at h
  split at h
  · simp at h
  · injection h with h; subst h; exact .inl ⟨rfl, rfl⟩

theorem parseInline_tree {E : Env} {s : Subj} {t : Tree} {c : Char} (hp : peek s = some c) (h : TreeOk s t) :
    (∀ e, parseInline E s c = .error e → parseInlineTree E s t c = .error e) ∧
    (∀ s', parseInline E s c = .ok s' → ∃ t', parseInlineTree E s t c = .ok (s', t') ∧ TreeOk s' t') := by
  by_cases hc : c = ']'
  · subst hc
    have e : parseInline E s ']' = handleCloseBracket E s := by
      simp [parseInline]
    have e' : parseInlineTree E s t ']' = handleCloseBracketTree E s t := by
      simp [parseInlineTree]
    rw [e, e']
    exact handleCloseBracket_tree h
  · obtain ⟨G, hG⟩ := h.good
    simp only [parseInlineTree, if_neg hc, bind, Except.bind]
    cases hpi : parseInline E s c with
    | error e => exact ⟨fun e' he => by simpa using he, fun s' hs => by simp at hs⟩
    | ok s1 =>
      refine ⟨fun e he => by simp at he, fun s' hs => ?_⟩
      injection hs with hs
      subst hs
      have hok := parseInline_ok hp h.subj hpi
      have hmv := parseInline_moves hp hpi
      have hd : ∀ d ∈ s.delims, d.pos ≠ s.pos := by
        intro d hd
        have h1 := h.subj.before d hd
        have h2 := h.subj.delims d hd
        have h3 := h2.count
        have h4 := h2.left
        omega
      have hb : ∀ b ∈ s.brackets, b.position - 1 ≠ s.pos := by
        intro b hb
        have := h.brackets b hb
        omega
      refine ⟨_, rfl, hok, ?_, ?_⟩
      · intro b hbm
        have hmem : b.position ∈ s1.brackets.map (·.position) := List.mem_map_of_mem hbm
        have h3 := hmv.2.2
        have hold : b.position ∈ s.brackets.map (·.position) → 1 ≤ b.position ∧ b.position ≤ s1.pos := by
          intro hm
          obtain ⟨b', hb', he⟩ := List.mem_map.1 hm
          have := h.brackets b' hb'
          omega
        rcases parseInline_lists hc hpi with ⟨-, hl⟩ | ⟨-, -, hl⟩ | ⟨-, -, hl⟩
        · rw [hl] at hmem; exact hold hmem
        · rw [hl] at hmem; exact hold hmem
        · rw [hl] at hmem
          rcases List.mem_cons.1 hmem with hm | hm
          · omega
          · exact hold hm
      · -- the objects
        obtain ⟨Gl, l1, l2, l3, l4⟩ := addLeaf_ok hG.wf hG.zero s.pos
        obtain ⟨Ga, a1, a2, a3⟩ := addAutolink_ok hG.wf hG.zero s.pos
        have hfresh : ∀ y ∈ nodesOf t s.delims ++ bracketNodes t s.brackets, y ≠ t.fresh := by
          intro y hy he
          have := hG.wf.lt y (hG.leaf y hy).1
          omega
        have hil : ∀ p, (addLeaf t s.pos).inl p = if p = s.pos then t.fresh else t.inl p := by
          intro p; simp [addLeaf, appendChild_inl]; rfl
        have hia : ∀ p, (addAutolink t s.pos).inl p = if p = s.pos then t.fresh else t.inl p := by
          intro p; simp [addAutolink, appendChild_inl]; rfl
        have hnl : nodesOf (addLeaf t s.pos) s.delims = nodesOf t s.delims := by
          simp only [nodesOf]
          refine List.map_congr_left (fun d hdm => ?_)
          rw [hil, if_neg (hd d hdm)]
        have hna : nodesOf (addAutolink t s.pos) s.delims = nodesOf t s.delims := by
          simp only [nodesOf]
          refine List.map_congr_left (fun d hdm => ?_)
          rw [hia, if_neg (hd d hdm)]
        have hbl : bracketNodes (addLeaf t s.pos) s.brackets = bracketNodes t s.brackets := by
          simp only [bracketNodes]
          refine List.map_congr_left (fun b hbm => ?_)
          rw [hil, if_neg (hb b hbm)]
        have hba : bracketNodes (addAutolink t s.pos) s.brackets = bracketNodes t s.brackets := by
          simp only [bracketNodes]
          refine List.map_congr_left (fun b hbm => ?_)
          rw [hia, if_neg (hb b hbm)]
        rcases parseInline_lists hc hpi with ⟨hl1, hl2⟩ | ⟨hlt, ⟨d, hl1, hl3⟩, hl2⟩ | ⟨hlt, hl1, hl2⟩
        · split
          · refine ⟨Ga, a1, a2, ?_, ?_⟩
            · rw [hl1, hna, bracketNodes_eq hl2 rfl, hba]; exact hG.nodup
            · intro y hy
              rw [hl1, hna, bracketNodes_eq hl2 rfl, hba] at hy
              exact a3 y (hG.leaf y hy)
          · refine ⟨Gl, l1, l2, ?_, ?_⟩
            · rw [hl1, hnl, bracketNodes_eq hl2 rfl, hbl]; exact hG.nodup
            · intro y hy
              rw [hl1, hnl, bracketNodes_eq hl2 rfl, hbl] at hy
              exact l3 y (hG.leaf y hy)
        · rw [if_neg (fun hh => hlt hh.1)]
          have hm : nodesOf (addLeaf t s.pos) s1.delims ++ bracketNodes (addLeaf t s.pos) s1.brackets =
              t.fresh :: (nodesOf t s.delims ++ bracketNodes t s.brackets) := by
            rw [hl1, bracketNodes_eq hl2 rfl, hbl]
            have : nodesOf (addLeaf t s.pos) (d :: s.delims) = t.fresh :: nodesOf (addLeaf t s.pos) s.delims := by
              simp [nodesOf, hil, hl3]
            rw [this, hnl]
            rfl
          refine ⟨Gl, l1, l2, ?_, ?_⟩
          · rw [hm, List.nodup_cons]
            exact ⟨fun hh => hfresh _ hh rfl, hG.nodup⟩
          · intro y hy
            rw [hm] at hy
            rcases List.mem_cons.1 hy with hy | hy
            · rw [hy]; exact l4
            · exact l3 y (hG.leaf y hy)
        · rw [if_neg (fun hh => hlt hh.1)]
          have hb2 : bracketNodes (addLeaf t s.pos) s1.brackets = t.fresh :: bracketNodes t s.brackets := by
            have e : ∀ l : List Bracket, bracketNodes (addLeaf t s.pos) l = (l.map (·.position)).map (fun p => (addLeaf t s.pos).inl (p - 1)) := by
              intro l; simp [bracketNodes]
            rw [e, hl2, List.map_cons, ← e, hbl]
            simp [hil]
          have hperm : (nodesOf (addLeaf t s.pos) s1.delims ++ bracketNodes (addLeaf t s.pos) s1.brackets).Perm
              (t.fresh :: (nodesOf t s.delims ++ bracketNodes t s.brackets)) := by
            rw [hl1, hnl, hb2]
            exact List.perm_middle
          refine ⟨Gl, l1, l2, ?_, ?_⟩
          · rw [hperm.nodup_iff, List.nodup_cons]
            exact ⟨fun hh => hfresh _ hh rfl, hG.nodup⟩
          · intro y hy
            rw [hperm.mem_iff] at hy
            rcases List.mem_cons.1 hy with hy | hy
            · rw [hy]; exact l4
            · exact l3 y (hG.leaf y hy)

theorem inlinesLoop_tree {E : Env} (f : Nat) : ∀ {s : Subj} {t : Tree}, TreeOk s t →
    (∀ e, inlinesLoop E f s = .error e → inlinesLoopTree E f s t = .error e) ∧
    (∀ s', inlinesLoop E f s = .ok s' → ∃ t', inlinesLoopTree E f s t = .ok (s', t') ∧ TreeOk s' t') := by
  induction f with
  | zero =>
    intro s t h
    exact ⟨fun e he => by simpa [inlinesLoop, inlinesLoopTree] using he, fun s' hs => by simp [inlinesLoop] at hs⟩
  | succ f ih =>
    intro s t h
    simp only [inlinesLoop, inlinesLoopTree]
    cases hp : peek s with
    | none =>
      refine ⟨fun e he => by simp at he, fun s' hs => ?_⟩
      injection hs with hs
      subst hs
      exact ⟨t, rfl, h⟩
    | some c =>
      simp only [bind, Except.bind]
      obtain ⟨i1, i2⟩ := parseInline_tree (E := E) hp h
      cases hpi : parseInline E s c with
      | error e =>
        rw [i1 e hpi]
        exact ⟨fun e' he => by simpa using he, fun s' hs => by simp at hs⟩
      | ok s1 =>
        obtain ⟨t1, j1, j2⟩ := i2 s1 hpi
        rw [j1]
        exact ih j2

theorem treeOk_init (line : Str) : TreeOk (initSubj line) Tree.init := by
  refine ⟨⟨by simp [initSubj], List.Pairwise.nil, by simp [initSubj], PairsOk.nil⟩, by simp [initSubj], ?_⟩
  refine ⟨⟨fun x => x = 0, fun _ => [], fun _ => 0⟩, ⟨?_, ?_, ?_, ?_, ?_, ?_, ?_, ?_, ?_⟩, rfl, by simp [initSubj, nodesOf, bracketNodes],
    by simp [initSubj, nodesOf, bracketNodes]⟩ <;> simp [Tree.init, Node.new, Seg]

/-- The parser with the tree gives the ranges of the parser without it. -/
theorem parseInlinesTree_eq (E : Env) (line : Str) :
    (∀ e, parseInlines E line = .error e → parseInlinesTree E line = .error e) ∧
    (∀ rs, parseInlines E line = .ok rs → ∃ t, parseInlinesTree E line = .ok (rs, t) ∧ ∃ G, WF t G ∧ G.live 0) := by
  obtain ⟨i1, i2⟩ := inlinesLoop_tree (E := E) (line.length + 1) (treeOk_init line)
  simp only [parseInlines, parseInlinesTree, bind, Except.bind]
  cases hl : inlinesLoop E (line.length + 1) (initSubj line) with
  | error e =>
    rw [i1 e hl]
    exact ⟨fun e' he => by simpa using he, fun s' hs => by simp at hs⟩
  | ok s =>
    obtain ⟨t, j1, j2⟩ := i2 s hl
    obtain ⟨G, hG⟩ := j2.good
    obtain ⟨k1, k2⟩ := processEmphasis_tree (bottom := none) hG
    rw [j1]
    simp only
    cases hpe : processEmphasis s none with
    | error e =>
      rw [k1 e hpe]
      exact ⟨fun e' he => by simpa using he, fun s' hs => by simp at hs⟩
    | ok s1 =>
      obtain ⟨t1, G1, m1, m2, m3⟩ := k2 s1 hpe
      rw [m1]
      refine ⟨fun e he => by simp at he, fun rs hs => ?_⟩
      injection hs with hs
      subst hs
      exact ⟨t1, rfl, G1, m3.wf, m3.zero⟩

end MdToc.Cmark
