import Verif.Cmark.Tree
import Mathlib.Tactic.SplitIfs
import Mathlib.Data.List.Nodup
import Mathlib.Data.List.Perm.Subperm

/-!
# The heap of nodes is a forest

A ghost forest: which objects are live, the children of every node as a list, and a rank that
grows from parent to child.  Every operation on pointers is a list operation on the forest.
-/

set_option linter.unusedSimpArgs false
set_option linter.unusedVariables false

namespace MdToc.Cmark

/-- The nodes of a list are linked; `p` is before the first, `e` after the last. -/
def Seg (nx pv : Nat → Option Nat) : Option Nat → List Nat → Option Nat → Prop
  | _, [], _ => True
  | p, x :: l, e => pv x = p ∧ nx x = l.head?.or e ∧ Seg nx pv (some x) l e

theorem seg_append {nx pv : Nat → Option Nat} (l m : List Nat) : ∀ p e, Seg nx pv p (l ++ m) e ↔
    Seg nx pv p l (m.head?.or e) ∧ Seg nx pv (l.getLast?.or p) m e := by
  induction l with
  | nil => intro p e; simp [Seg]
  | cons x l ih =>
    intro p e
    simp only [List.cons_append, Seg, ih]
    cases l with
    | nil => simp [Seg, and_assoc]
    | cons y l => simp [Seg, and_assoc, List.getLast?_cons_cons]; simp [List.getLast?_cons]

theorem seg_congr {nx pv nx' pv' : Nat → Option Nat} (l : List Nat) : ∀ p e, (∀ x ∈ l, nx' x = nx x) → (∀ x ∈ l, pv' x = pv x) →
    Seg nx pv p l e → Seg nx' pv' p l e := by
  induction l with
  | nil => intro p e _ _ _; trivial
  | cons x l ih =>
    intro p e hn hp h
    obtain ⟨h1, h2, h3⟩ := h
    exact ⟨by rw [hp x (by simp)]; exact h1, by rw [hn x (by simp)]; exact h2,
      ih _ _ (fun y hy => hn y (by simp [hy])) (fun y hy => hp y (by simp [hy])) h3⟩

/-- Another node after the last one. -/
theorem seg_end {nx pv nx' pv' : Nat → Option Nat} (l : List Nat) : ∀ p e e', l.Nodup → (∀ x ∈ l, some x ≠ l.getLast? → nx' x = nx x) →
    (∀ x, l.getLast? = some x → nx' x = e') → (∀ x ∈ l, pv' x = pv x) → Seg nx pv p l e → Seg nx' pv' p l e' := by
  induction l with
  | nil => intros; trivial
  | cons x l ih =>
    intro p e e' hd hn hl hp h
    obtain ⟨h1, h2, h3⟩ := h
    rw [List.nodup_cons] at hd
    refine ⟨by rw [hp x (by simp)]; exact h1, ?_, ?_⟩
    · cases l with
      | nil => simpa using hl x (by simp)
      | cons y l =>
        rw [hn x (by simp)]
        · simpa using h2
        · rw [List.getLast?_cons_cons]
          intro hc
          exact hd.1 (List.mem_of_getLast? hc.symm)
    · cases l with
      | nil => trivial
      | cons y l =>
        refine ih _ e e' hd.2 ?_ ?_ (fun z hz => hp z (by simp [hz])) h3
        · intro z hz hne
          exact hn z (by simp [hz]) (by rw [List.getLast?_cons_cons]; exact hne)
        · intro z hz
          exact hl z (by rw [List.getLast?_cons_cons]; exact hz)

/-- Another node before the first one. -/
theorem seg_start {nx pv nx' pv' : Nat → Option Nat} (l : List Nat) (p p' e : Option Nat) (hd : l.Nodup)
    (hp : ∀ x ∈ l, some x ≠ l.head? → pv' x = pv x)
    (hf : ∀ x, l.head? = some x → pv' x = p') (hn : ∀ x ∈ l, nx' x = nx x) (h : Seg nx pv p l e) : Seg nx' pv' p' l e := by
  cases l with
  | nil => trivial
  | cons x l =>
    obtain ⟨h1, h2, h3⟩ := h
    rw [List.nodup_cons] at hd
    refine ⟨hf x (by simp), by rw [hn x (by simp)]; exact h2, ?_⟩
    refine seg_congr _ _ _ (fun y hy => hn y (by simp [hy])) ?_ h3
    intro y hy
    refine hp y (by simp [hy]) ?_
    simp
    rintro rfl
    exact hd.1 hy

/-- The ghost forest. -/
structure Forest where
  live : Nat → Prop
  kids : Nat → List Nat
  rank : Nat → Nat

/-- The pointers of the live objects are those of the forest. -/
structure WF (t : Tree) (G : Forest) : Prop where
  lt : ∀ x, G.live x → x < t.fresh
  first : ∀ p, G.live p → (t.nodes p).first = (G.kids p).head?
  last : ∀ p, G.live p → (t.nodes p).last = (G.kids p).getLast?
  seg : ∀ p, G.live p → Seg (fun x => (t.nodes x).next) (fun x => (t.nodes x).prev) none (G.kids p) none
  nodup : ∀ p, G.live p → (G.kids p).Nodup
  kid : ∀ p x, G.live p → x ∈ G.kids p → G.live x ∧ (t.nodes x).parent = some p
  parent : ∀ x p, G.live x → (t.nodes x).parent = some p → G.live p ∧ x ∈ G.kids p
  orphan : ∀ x, G.live x → (t.nodes x).parent = none → (t.nodes x).next = none ∧ (t.nodes x).prev = none
  rank : ∀ x p, G.live x → (t.nodes x).parent = some p → G.rank p < G.rank x

/-- The children of one node changed. -/
def Forest.setKids (G : Forest) (p : Nat) (l : List Nat) : Forest :=
  { G with kids := fun x => if x = p then l else G.kids x }

theorem WF.neighbours {t : Tree} {G : Forest} (h : WF t G) {p x : Nat} {A B : List Nat} (hp : G.live p)
    (hk : G.kids p = A ++ x :: B) :
    (t.nodes x).prev = A.getLast? ∧ (t.nodes x).next = B.head? := by
  have := h.seg p hp
  rw [hk, seg_append] at this
  obtain ⟨_, h1, h2, _⟩ := this
  simp at h1 h2
  exact ⟨h1, h2⟩

theorem WF.mem_unique {t : Tree} {G : Forest} (h : WF t G) {p q x : Nat} (hp : G.live p) (hq : G.live q)
    (hx : x ∈ G.kids p) (hy : x ∈ G.kids q) : p = q := by
  have h1 := (h.kid p x hp hx).2
  have h2 := (h.kid q x hq hy).2
  rw [h1] at h2
  exact Option.some.inj h2

theorem WF.ne_parent {t : Tree} {G : Forest} (h : WF t G) {p x : Nat} (hp : G.live p) (hx : x ∈ G.kids p) : x ≠ p := by
  rintro rfl
  have := h.rank x x hp (h.kid x x hp hx).2
  omega

theorem mod_nodes (t : Tree) (x : Nat) (f : Node → Node) (y : Nat) :
    (t.mod x f).nodes y = if y = x then f (t.nodes y) else t.nodes y := rfl

theorem modIf_nodes (t : Tree) (x : Option Nat) (f : Node → Node) (y : Nat) :
    (t.modIf x f).nodes y = if some y = x then f (t.nodes y) else t.nodes y := by
  cases x <;> simp [Tree.modIf, Tree.mod]

theorem modIf_fresh (t : Tree) (x : Option Nat) (f : Node → Node) : (t.modIf x f).fresh = t.fresh := by
  cases x <;> rfl

theorem modIf_inl (t : Tree) (x : Option Nat) (f : Node → Node) : (t.modIf x f).inl = t.inl := by
  cases x <;> rfl

/-- The pointers after `_cmark_S_node_unlink`. -/
theorem sUnlink_nodes (t : Tree) (x : Nat) (h1 : (t.nodes x).prev ≠ some x) (h2 : (t.nodes x).next ≠ some x)
    (y : Nat) :
    (sUnlink t x).nodes y =
      { next := if some y = (t.nodes x).prev then (t.nodes x).next else (t.nodes y).next
        prev := if some y = (t.nodes x).next then (t.nodes x).prev else (t.nodes y).prev
        parent := (t.nodes y).parent
        first := if some y = (t.nodes x).parent ∧ (t.nodes y).first = some x then (t.nodes x).next else (t.nodes y).first
        last := if some y = (t.nodes x).parent ∧ (t.nodes y).last = some x then (t.nodes x).prev else (t.nodes y).last
        ty := (t.nodes y).ty } := by
  unfold sUnlink
  extract_lets t1 t2
  have e1 : t1.nodes x = t.nodes x := by
    simp only [t1, modIf_nodes]
    rw [if_neg (Ne.symm h1)]
  have e2 : t2.nodes x = t.nodes x := by
    simp only [t2, modIf_nodes, e1]
    rw [if_neg (Ne.symm h2)]
  rw [modIf_nodes, e2]
  have e3 : t2.nodes y = { t.nodes y with
      next := if some y = (t.nodes x).prev then (t.nodes x).next else (t.nodes y).next
      prev := if some y = (t.nodes x).next then (t.nodes x).prev else (t.nodes y).prev } := by
    simp only [t2, modIf_nodes, e1]
    simp only [t1, modIf_nodes]
    by_cases a : some y = (t.nodes x).prev
    · by_cases b : some y = (t.nodes x).next
      · simp only [if_pos a, if_pos b]
      · simp only [if_pos a, if_neg b]
    · by_cases b : some y = (t.nodes x).next
      · simp only [if_neg a, if_pos b]
      · simp only [if_neg a, if_neg b]
  rw [e3]
  by_cases a : some y = (t.nodes x).parent
  · simp only [if_pos a]; simp only [eq_true a, true_and]
  · simp only [if_neg a]; simp only [eq_false a, false_and, if_false]

theorem sUnlink_fresh (t : Tree) (x : Nat) : (sUnlink t x).fresh = t.fresh := by
  simp [sUnlink, modIf_fresh]

theorem sUnlink_inl (t : Tree) (x : Nat) : (sUnlink t x).inl = t.inl := by
  simp [sUnlink, modIf_inl]

theorem head_mem {l : List Nat} {x : Nat} (h : some x = l.head?) : x ∈ l := List.mem_of_head? h.symm

theorem last_mem {l : List Nat} {x : Nat} (h : some x = l.getLast?) : x ∈ l := List.mem_of_getLast? h.symm

theorem head_or (A B : List Nat) : (A ++ B).head? = A.head?.or B.head? := by cases A <;> simp

theorem last_or (A B : List Nat) : (A ++ B).getLast? = B.getLast?.or A.getLast? := by
  rw [List.getLast?_append]

/-- Taking a node out of the list of its parent. -/
theorem WF.sUnlink {t : Tree} {G : Forest} (h : WF t G) {p x : Nat} {A B : List Nat} (hp : G.live p)
    (hk : G.kids p = A ++ x :: B) (t' : Tree) (hf : t'.fresh = t.fresh)
    (hn : ∀ y, y ≠ x → t'.nodes y = (Cmark.sUnlink t x).nodes y)
    (L : Nat → Prop) (hL : ∀ y, L y → G.live y) (hL' : ∀ y, G.live y → y ≠ x → L y)
    (hx : L x → (t'.nodes x).parent = none ∧ (t'.nodes x).next = none ∧ (t'.nodes x).prev = none ∧
      (t'.nodes x).first = (t.nodes x).first ∧ (t'.nodes x).last = (t.nodes x).last) :
    L x ∨ G.kids x = [] → WF t' ⟨L, fun q => if q = p then A ++ B else G.kids q, G.rank⟩ := by
  intro hleaf
  have hxp : x ≠ p := h.ne_parent hp (by rw [hk]; simp)
  have hnd := h.nodup p hp
  rw [hk] at hnd
  obtain ⟨e1, e2⟩ := h.neighbours hp hk
  obtain ⟨hlx, hpar⟩ := h.kid p x hp (by rw [hk]; simp)
  have hxA : x ∉ A := by
    intro hc
    rw [List.nodup_append] at hnd
    exact hnd.2.2 x hc x (by simp) rfl
  have hxB : x ∉ B := by
    intro hc
    rw [List.nodup_append] at hnd
    exact (List.nodup_cons.1 hnd.2.1).1 hc
  have hAB : ∀ y ∈ A, y ∉ B := by
    intro y hy hc
    rw [List.nodup_append] at hnd
    exact hnd.2.2 y hy y (by simp [hc]) rfl
  have hA : A.Nodup := (List.nodup_append.1 hnd).1
  have hB : B.Nodup := (List.nodup_cons.1 (List.nodup_append.1 hnd).2.1).2
  have key : ∀ y, y ≠ x → t'.nodes y =
      { next := if some y = A.getLast? then B.head? else (t.nodes y).next
        prev := if some y = B.head? then A.getLast? else (t.nodes y).prev
        parent := (t.nodes y).parent
        first := if y = p ∧ (t.nodes y).first = some x then B.head? else (t.nodes y).first
        last := if y = p ∧ (t.nodes y).last = some x then A.getLast? else (t.nodes y).last
        ty := (t.nodes y).ty } := by
    intro y hy
    rw [hn y hy, sUnlink_nodes t x, e1, e2, hpar]
    · simp
    · rw [e1]; intro hc; exact hxA (last_mem hc.symm)
    · rw [e2]; intro hc; exact hxB (head_mem hc.symm)
  have hlp : L p := hL' p hp (Ne.symm hxp)
  have hother : ∀ q, G.live q → q ≠ p → ∀ y ∈ G.kids q, y ≠ x ∧ y ∉ A ∧ y ∉ B := by
    intro q hq hqp y hy
    refine ⟨?_, ?_, ?_⟩
    · rintro rfl; exact hqp (h.mem_unique hq hp hy (by rw [hk]; simp))
    · intro hc; exact hqp (h.mem_unique hq hp hy (by rw [hk]; simp [hc]))
    · intro hc; exact hqp (h.mem_unique hq hp hy (by rw [hk]; simp [hc]))
  refine ⟨?_, ?_, ?_, ?_, ?_, ?_, ?_, ?_, ?_⟩
  · intro y hy
    rw [hf]
    exact h.lt y (hL y hy)
  · intro q hq
    by_cases hqx : q = x
    · subst hqx
      rw [(hx hq).2.2.2.1, h.first _ hlx]
      simp [hxp]
    · rw [key q hqx]
      by_cases hqp : q = p
      · subst hqp
        have := h.first q hp
        rw [hk] at this
        cases A with
        | nil => simp [this]
        | cons a A =>
          simp only [true_and, if_true]
          simp at this
          have hax : a ≠ x := by rintro rfl; exact hxA (by simp)
          simp [this, hax]
      · simp [hqp, h.first q (hL q hq)]
  · intro q hq
    by_cases hqx : q = x
    · subst hqx
      rw [(hx hq).2.2.2.2, h.last _ hlx]
      simp [hxp]
    · rw [key q hqx]
      by_cases hqp : q = p
      · subst hqp
        have := h.last q hp
        rw [hk] at this
        cases hb : B.getLast? with
        | none =>
          rw [List.getLast?_eq_none_iff] at hb
          subst hb
          simp at this
          simp [this]
        | some b =>
          have hbx : b ≠ x := by rintro rfl; exact hxB (last_mem hb.symm)
          have : (t.nodes q).last = some b := by
            rw [this, last_or, List.getLast?_cons]
            simp [hb]
          simp [this, hbx, last_or, hb]
      · simp [hqp, h.last q (hL q hq)]
  · intro q hq
    have hs := h.seg q (hL q hq)
    by_cases hqp : q = p
    · subst hqp
      simp only [if_true]
      rw [hk, seg_append] at hs
      obtain ⟨s1, s2⟩ := hs
      rw [seg_append]
      constructor
      · refine seg_end _ _ _ _ hA ?_ ?_ ?_ s1
        · intro y hy hl
          rw [key y (by rintro rfl; exact hxA hy)]
          simp [hl]
        · intro y hy
          rw [key y (by rintro rfl; exact hxA (last_mem hy.symm))]
          simp [hy]
        · intro y hy
          rw [key y (by rintro rfl; exact hxA hy)]
          have : ¬ some y = B.head? := fun hc => hAB y hy (head_mem hc)
          simp [this]
      · refine seg_start _ _ _ _ hB ?_ ?_ ?_ s2.2.2
        · intro y hy hl
          rw [key y (by rintro rfl; exact hxB hy)]
          simp [hl]
        · intro y hy
          rw [key y (by rintro rfl; exact hxB (head_mem hy.symm))]
          simp [hy]
        · intro y hy
          rw [key y (by rintro rfl; exact hxB hy)]
          have : ¬ some y = A.getLast? := fun hc => hAB y (last_mem hc) hy
          simp [this]
    · simp only [if_neg hqp]
      refine seg_congr _ _ _ ?_ ?_ hs
      · intro y hy
        obtain ⟨h1, h2, h3⟩ := hother q (hL q hq) hqp y hy
        rw [key y h1]
        have : ¬ some y = A.getLast? := fun hc => h2 (last_mem hc)
        simp [this]
      · intro y hy
        obtain ⟨h1, h2, h3⟩ := hother q (hL q hq) hqp y hy
        rw [key y h1]
        have : ¬ some y = B.head? := fun hc => h3 (head_mem hc)
        simp [this]
  · intro q hq
    by_cases hqp : q = p
    · simp only [if_pos hqp]
      exact List.nodup_append.2 ⟨hA, hB, fun a ha b hb hab => hAB a ha (hab ▸ hb)⟩
    · simp only [if_neg hqp]
      exact h.nodup q (hL q hq)
  · intro q y hq hy
    have hmem : y ∈ G.kids q ∧ y ≠ x := by
      by_cases hqp : q = p
      · simp only [if_pos hqp] at hy
        rw [hqp, hk]
        rw [List.mem_append] at hy
        rcases hy with hy | hy
        · exact ⟨by simp [hy], by rintro rfl; exact hxA hy⟩
        · exact ⟨by simp [hy], by rintro rfl; exact hxB hy⟩
      · simp only [if_neg hqp] at hy
        exact ⟨hy, (hother q (hL q hq) hqp y hy).1⟩
    obtain ⟨k1, k2⟩ := h.kid q y (hL q hq) hmem.1
    refine ⟨hL' y k1 hmem.2, ?_⟩
    rw [key y hmem.2]
    exact k2
  · intro y q hy hq
    by_cases hyx : y = x
    · subst hyx
      rw [(hx hy).1] at hq
      simp at hq
    · rw [key y hyx] at hq
      obtain ⟨k1, k2⟩ := h.parent y q (hL y hy) hq
      have hqx : q ≠ x ∨ L x := by
        rcases hleaf with hl | hl
        · exact .inr hl
        · left; rintro rfl; rw [hl] at k2; simp at k2
      refine ⟨?_, ?_⟩
      · by_cases hq2 : q = x
        · rcases hqx with hqx | hqx
          · exact absurd hq2 hqx
          · rw [hq2]; exact hqx
        · exact hL' q k1 hq2
      · by_cases hqp : q = p
        · simp only [if_pos hqp]
          rw [hqp, hk] at k2
          simp [hyx] at k2
          simpa using k2
        · simp only [if_neg hqp]
          exact k2
  · intro y hy hq
    by_cases hyx : y = x
    · subst hyx
      exact ⟨(hx hy).2.1, (hx hy).2.2.1⟩
    · rw [key y hyx] at hq
      obtain ⟨k1, k2⟩ := h.orphan y (hL y hy) hq
      have hyp : y ∉ G.kids p := by
        intro hc
        have := (h.kid p y hp hc).2
        rw [this] at hq
        simp at hq
      rw [hk] at hyp
      simp at hyp
      rw [key y hyx]
      have n1 : ¬ some y = A.getLast? := fun hc => hyp.1 (last_mem hc)
      have n2 : ¬ some y = B.head? := fun hc => hyp.2.2 (head_mem hc)
      simp [n1, n2, k1, k2]
  · intro y q hy hq
    by_cases hyx : y = x
    · subst hyx
      rw [(hx hy).1] at hq
      simp at hq
    · rw [key y hyx] at hq
      exact h.rank y q (hL y hy) hq

/-- Putting a node without parent into the list of a node. -/
theorem WF.insert {t : Tree} {G : Forest} (h : WF t G) {p x : Nat} {A B : List Nat} (hp : G.live p) (hx : G.live x)
    (hk : G.kids p = A ++ B) (ho : (t.nodes x).parent = none) (hr : G.rank p < G.rank x)
    (t' : Tree) (hf : t'.fresh = t.fresh)
    (hn : ∀ y, (t'.nodes y).next = if y = x then B.head? else if some y = A.getLast? then some x else (t.nodes y).next)
    (hv : ∀ y, (t'.nodes y).prev = if y = x then A.getLast? else if some y = B.head? then some x else (t.nodes y).prev)
    (ha : ∀ y, (t'.nodes y).parent = if y = x then some p else (t.nodes y).parent)
    (hi : ∀ y, (t'.nodes y).first = if y = p ∧ A = [] then some x else (t.nodes y).first)
    (hl : ∀ y, (t'.nodes y).last = if y = p ∧ B = [] then some x else (t.nodes y).last) :
    WF t' (G.setKids p (A ++ x :: B)) := by
  have hnk : ∀ q, G.live q → x ∉ G.kids q := by
    intro q hq hc
    rw [(h.kid q x hq hc).2] at ho
    simp at ho
  have hxk := hnk p hp
  rw [hk] at hxk
  have hxA : x ∉ A := fun hc => hxk (by simp [hc])
  have hxB : x ∉ B := fun hc => hxk (by simp [hc])
  have hnd := h.nodup p hp
  rw [hk] at hnd
  have hA : A.Nodup := (List.nodup_append.1 hnd).1
  have hB : B.Nodup := (List.nodup_append.1 hnd).2.1
  have hAB : ∀ y ∈ A, y ∉ B := fun y hy hc => (List.nodup_append.1 hnd).2.2 y hy y hc rfl
  have hother : ∀ q, G.live q → q ≠ p → ∀ y ∈ G.kids q, y ≠ x ∧ y ∉ A ∧ y ∉ B := by
    intro q hq hqp y hy
    refine ⟨?_, ?_, ?_⟩
    · rintro rfl; exact hnk q hq hy
    · intro hc; exact hqp (h.mem_unique hq hp hy (by rw [hk]; simp [hc]))
    · intro hc; exact hqp (h.mem_unique hq hp hy (by rw [hk]; simp [hc]))
  refine ⟨?_, ?_, ?_, ?_, ?_, ?_, ?_, ?_, ?_⟩
  · intro y hy
    rw [hf]
    exact h.lt y hy
  · intro q hq
    rw [hi, h.first q hq]
    by_cases hqp : q = p
    · subst hqp
      simp only [Forest.setKids, if_true, hk]
      cases A <;> simp
    · simp [hqp, Forest.setKids]
  · intro q hq
    rw [hl, h.last q hq]
    by_cases hqp : q = p
    · subst hqp
      simp only [Forest.setKids, if_true, hk]
      cases B with
      | nil => simp
      | cons b B => simp [List.getLast?_append, List.getLast?_cons_cons]
    · simp [hqp, Forest.setKids]
  · intro q hq
    have hs := h.seg q hq
    by_cases hqp : q = p
    · subst hqp
      simp only [Forest.setKids, if_true]
      rw [hk, seg_append] at hs
      obtain ⟨s1, s2⟩ := hs
      rw [seg_append]
      constructor
      · refine seg_end _ _ _ _ hA ?_ ?_ ?_ s1
        · intro y hy hl
          have : y ≠ x := by rintro rfl; exact hxA hy
          simp [hn, hl, this]
        · intro y hy
          have : y ≠ x := by rintro rfl; exact hxA (last_mem hy.symm)
          simp [hn, hy, this]
        · intro y hy
          have h1 : y ≠ x := by rintro rfl; exact hxA hy
          have h2 : ¬ some y = B.head? := fun hc => hAB y hy (head_mem hc)
          simp [hv, h1, h2]
      · refine ⟨by simp [hv], by simp [hn], ?_⟩
        refine seg_start _ _ _ _ hB ?_ ?_ ?_ s2
        · intro y hy hl
          have : y ≠ x := by rintro rfl; exact hxB hy
          simp [hv, this, hl]
        · intro y hy
          have : y ≠ x := by rintro rfl; exact hxB (head_mem hy.symm)
          simp [hv, hy, this]
        · intro y hy
          have h1 : y ≠ x := by rintro rfl; exact hxB hy
          have h2 : ¬ some y = A.getLast? := fun hc => hAB y (last_mem hc) hy
          simp [hn, h1, h2]
    · simp only [Forest.setKids, if_neg hqp]
      refine seg_congr _ _ _ ?_ ?_ hs
      · intro y hy
        obtain ⟨h1, h2, h3⟩ := hother q hq hqp y hy
        have : ¬ some y = A.getLast? := fun hc => h2 (last_mem hc)
        simp [hn, h1, this]
      · intro y hy
        obtain ⟨h1, h2, h3⟩ := hother q hq hqp y hy
        have : ¬ some y = B.head? := fun hc => h3 (head_mem hc)
        simp [hv, h1, this]
  · intro q hq
    by_cases hqp : q = p
    · simp only [Forest.setKids, if_pos hqp]
      refine List.nodup_append.2 ⟨hA, List.nodup_cons.2 ⟨hxB, hB⟩, ?_⟩
      intro a hm b hb hab
      subst hab
      rcases List.mem_cons.1 hb with hb | hb
      · rw [hb] at hm; exact hxA hm
      · exact hAB a hm hb
    · simp only [Forest.setKids, if_neg hqp]
      exact h.nodup q hq
  · intro q y hq hy
    by_cases hyx : y = x
    · subst hyx
      refine ⟨hx, ?_⟩
      by_cases hqp : q = p
      · simp [ha, hqp]
      · simp only [Forest.setKids, if_neg hqp] at hy
        exact absurd hy (hnk q hq)
    · have hmem : y ∈ G.kids q := by
        by_cases hqp : q = p
        · simp only [Forest.setKids, if_pos hqp] at hy
          rw [hqp, hk]
          simpa [hyx] using hy
        · simpa only [Forest.setKids, if_neg hqp] using hy
      obtain ⟨k1, k2⟩ := h.kid q y hq hmem
      exact ⟨k1, by simp [ha, hyx, k2]⟩
  · intro y q hy hq
    rw [ha] at hq
    by_cases hyx : y = x
    · subst hyx
      simp at hq
      subst hq
      exact ⟨hp, by simp [Forest.setKids]⟩
    · simp only [if_neg hyx] at hq
      obtain ⟨k1, k2⟩ := h.parent y q hy hq
      refine ⟨k1, ?_⟩
      by_cases hqp : q = p
      · simp only [Forest.setKids, if_pos hqp]
        rw [hqp, hk] at k2
        simpa [hyx] using k2
      · simpa only [Forest.setKids, if_neg hqp] using k2
  · intro y hy hq
    rw [ha] at hq
    by_cases hyx : y = x
    · simp [hyx] at hq
    · simp only [if_neg hyx] at hq
      obtain ⟨k1, k2⟩ := h.orphan y hy hq
      have hyp : y ∉ G.kids p := by
        intro hc
        have := (h.kid p y hp hc).2
        rw [this] at hq
        simp at hq
      rw [hk] at hyp
      simp at hyp
      have n1 : ¬ some y = A.getLast? := fun hc => hyp.1 (last_mem hc)
      have n2 : ¬ some y = B.head? := fun hc => hyp.2 (head_mem hc)
      simp [hn, hv, hyx, n1, n2, k1, k2]
  · intro y q hy hq
    rw [ha] at hq
    by_cases hyx : y = x
    · subst hyx
      simp at hq
      subst hq
      exact hr
    · simp only [if_neg hyx] at hq
      exact h.rank y q hy hq

/-- A new object. -/
theorem WF.new {t : Tree} {G : Forest} (h : WF t G) (ty : NodeType) (r : Nat) :
    WF (t.new ty) ⟨fun x => G.live x ∨ x = t.fresh, fun x => if x = t.fresh then [] else G.kids x,
      fun x => if x = t.fresh then r else G.rank x⟩ := by
  have hne : ∀ x, G.live x → x ≠ t.fresh := fun x hx => by have := h.lt x hx; omega
  have hnf : (t.new ty).nodes t.fresh = Node.new ty := by simp [Tree.new]
  have hno : ∀ x, x ≠ t.fresh → (t.new ty).nodes x = t.nodes x := by intro x hx; simp [Tree.new, hx]
  refine ⟨?_, ?_, ?_, ?_, ?_, ?_, ?_, ?_, ?_⟩
  · rintro x (hx | hx)
    · have := h.lt x hx; simp [Tree.new]; omega
    · simp [Tree.new, hx]
  · rintro p (hp | hp)
    · rw [hno p (hne p hp), h.first p hp]; simp [hne p hp]
    · subst hp; rw [hnf]; simp [Node.new]
  · rintro p (hp | hp)
    · rw [hno p (hne p hp), h.last p hp]; simp [hne p hp]
    · subst hp; rw [hnf]; simp [Node.new]
  · rintro p (hp | hp)
    · simp only [if_neg (hne p hp)]
      refine seg_congr _ _ _ ?_ ?_ (h.seg p hp)
      · intro y hy; rw [hno y (hne y (h.kid p y hp hy).1)]
      · intro y hy; rw [hno y (hne y (h.kid p y hp hy).1)]
    · simp [hp, Seg]
  · rintro p (hp | hp)
    · simp only [if_neg (hne p hp)]; exact h.nodup p hp
    · simp [hp]
  · rintro p x (hp | hp) hx
    · simp only [if_neg (hne p hp)] at hx
      obtain ⟨k1, k2⟩ := h.kid p x hp hx
      exact ⟨.inl k1, by rw [hno x (hne x k1)]; exact k2⟩
    · simp [hp] at hx
  · rintro x p (hx | hx) hp
    · rw [hno x (hne x hx)] at hp
      obtain ⟨k1, k2⟩ := h.parent x p hx hp
      exact ⟨.inl k1, by simp only [if_neg (hne p k1)]; exact k2⟩
    · rw [hx, hnf] at hp
      simp [Node.new] at hp
  · rintro x (hx | hx) hp
    · rw [hno x (hne x hx)] at hp ⊢
      exact h.orphan x hx hp
    · rw [hx, hnf]; simp [Node.new]
  · rintro x p (hx | hx) hp
    · rw [hno x (hne x hx)] at hp
      simp only [if_neg (hne x hx), if_neg (hne p (h.parent x p hx hp).1)]
      exact h.rank x p hx hp
    · rw [hx, hnf] at hp
      simp [Node.new] at hp

theorem appendChild_fresh (t : Tree) (e x : Nat) : (appendChild t e x).fresh = t.fresh := by
  simp only [appendChild]; split <;> rfl

theorem appendChild_inl (t : Tree) (e x : Nat) : (appendChild t e x).inl = t.inl := by
  simp only [appendChild]; split <;> rfl

theorem WF.not_kid {t : Tree} {G : Forest} (h : WF t G) {x q : Nat} (hq : G.live q) (ho : (t.nodes x).parent = none) : x ∉ G.kids q := by
  intro hc
  rw [(h.kid q x hq hc).2] at ho
  simp at ho

theorem WF.append {t : Tree} {G : Forest} (h : WF t G) {e x : Nat} (he : G.live e) (hx : G.live x)
    (ho : (t.nodes x).parent = none) (hr : G.rank e < G.rank x) :
    WF (appendChild t e x) (G.setKids e (G.kids e ++ [x])) := by
  have hxe : x ≠ e := by rintro rfl; omega
  have hl := h.last e he
  have hxk := h.not_kid he ho
  cases hlast : (G.kids e).getLast? with
  | none =>
    have hnil : G.kids e = [] := List.getLast?_eq_none_iff.1 hlast
    rw [hlast] at hl
    refine h.insert he hx (by simp) ho hr _ (appendChild_fresh t e x) ?_ ?_ ?_ ?_ ?_ <;> intro y <;>
      by_cases hyx : y = x <;> by_cases hye : y = e <;>
      simp_all [appendChild, mod_nodes]
  | some l =>
    have hmem := last_mem hlast.symm
    have hlx : l ≠ x := by rintro rfl; exact hxk hmem
    have hle : l ≠ e := h.ne_parent he hmem
    have hnil : G.kids e ≠ [] := by rintro hc; rw [hc] at hmem; simp at hmem
    rw [hlast] at hl
    refine h.insert he hx (by simp) ho hr _ (appendChild_fresh t e x) ?_ ?_ ?_ ?_ ?_ <;> intro y <;>
      by_cases hyx : y = x <;> by_cases hye : y = e <;> by_cases hyl : y = l <;>
      simp_all [appendChild, mod_nodes]

theorem sUnlink_orphan {t : Tree} {x : Nat} (h1 : (t.nodes x).prev = none) (h2 : (t.nodes x).next = none)
    (h3 : (t.nodes x).parent = none) : Cmark.sUnlink t x = t := by
  simp [Cmark.sUnlink, Tree.modIf, h1, h2, h3]

theorem mod_fresh (t : Tree) (x : Nat) (f : Node → Node) : (t.mod x f).fresh = t.fresh := rfl

theorem mod_inl (t : Tree) (x : Nat) (f : Node → Node) : (t.mod x f).inl = t.inl := rfl

theorem linkAfter_fresh (t : Tree) (o x : Nat) : (Cmark.linkAfter t o x).fresh = t.fresh := by
  simp only [Cmark.linkAfter]; split <;> simp only [modIf_fresh, mod_fresh, sUnlink_fresh]

theorem linkAfter_inl (t : Tree) (o x : Nat) : (Cmark.linkAfter t o x).inl = t.inl := by
  simp only [Cmark.linkAfter]; split <;> simp only [modIf_inl, mod_inl, sUnlink_inl]

theorem linkBefore_fresh (t : Tree) (o x : Nat) : (Cmark.linkBefore t o x).fresh = t.fresh := by
  simp only [Cmark.linkBefore]; split <;> simp only [modIf_fresh, mod_fresh, sUnlink_fresh]

theorem linkBefore_inl (t : Tree) (o x : Nat) : (Cmark.linkBefore t o x).inl = t.inl := by
  simp only [Cmark.linkBefore]; split <;> simp only [modIf_inl, mod_inl, sUnlink_inl]

theorem WF.linkAfter {t : Tree} {G : Forest} (h : WF t G) {p o x : Nat} {A B : List Nat} (hp : G.live p) (hx : G.live x)
    (hk : G.kids p = A ++ o :: B) (ho : (t.nodes x).parent = none) (hr : G.rank p < G.rank x) :
    WF (Cmark.linkAfter t o x) (G.setKids p (A ++ o :: x :: B)) := by
  have hk' : G.kids p = (A ++ [o]) ++ B := by simp [hk]
  obtain ⟨h1, h2⟩ := h.orphan x hx ho
  have hop := (h.kid p o hp (by rw [hk]; simp)).2
  have hon := (h.neighbours hp hk).2
  have hopne : o ≠ p := h.ne_parent hp (by rw [hk]; simp)
  have hxp : x ≠ p := by rintro rfl; omega
  have hxk := h.not_kid hp ho
  rw [hk] at hxk
  simp at hxk
  have hnd := h.nodup p hp
  rw [hk] at hnd
  have hoB : o ∉ B := (List.nodup_cons.1 (List.nodup_append.1 hnd).2.1).1
  have e : A ++ o :: x :: B = (A ++ [o]) ++ x :: B := by simp
  rw [e]
  have hso := sUnlink_orphan h2 h1 ho
  cases hB : B with
  | nil =>
    subst hB
    have hox : o ≠ x := Ne.symm hxk.2.1
    refine h.insert hp hx hk' ho hr _ ?_ ?_ ?_ ?_ ?_ ?_
    · exact linkAfter_fresh t o x
    all_goals
      intro y
      clear hk hk' hnd hoB h hp hx hr e h1 h2 ho hxk
      simp only [Cmark.linkAfter, hso, hon, List.head?_nil, mod_nodes, modIf_nodes, if_neg hox, if_true]
      simp only [hop]
      by_cases hyx : y = x <;> by_cases hyo : y = o <;> by_cases hyp : y = p <;> simp_all
  | cons b B' =>
    have hbx : b ≠ x := by rintro rfl; simp [hB] at hxk
    have hbo : b ≠ o := by rintro rfl; simp [hB] at hoB
    have hox : o ≠ x := Ne.symm hxk.2.1
    have hob : o ≠ b := Ne.symm hbo
    have hbp : b ≠ p := h.ne_parent hp (by rw [hk, hB]; simp)
    subst hB
    refine h.insert hp hx hk' ho hr _ ?_ ?_ ?_ ?_ ?_ ?_
    · exact linkAfter_fresh t o x
    all_goals
      intro y
      clear hk hk' hnd hoB h hp hx hr e h1 h2 ho hxk
      by_cases hyx : y = x <;> by_cases hyo : y = o <;> by_cases hyp : y = p <;> by_cases hyb : y = b <;>
      simp_all [Cmark.linkAfter, mod_nodes, modIf_nodes]

theorem WF.linkBefore {t : Tree} {G : Forest} (h : WF t G) {p o x : Nat} {A B : List Nat} (hp : G.live p) (hx : G.live x)
    (hk : G.kids p = A ++ o :: B) (ho : (t.nodes x).parent = none) (hr : G.rank p < G.rank x) :
    WF (Cmark.linkBefore t o x) (G.setKids p (A ++ x :: o :: B)) := by
  obtain ⟨h1, h2⟩ := h.orphan x hx ho
  have hop := (h.kid p o hp (by rw [hk]; simp)).2
  have hon := (h.neighbours hp hk).1
  have hopne : o ≠ p := h.ne_parent hp (by rw [hk]; simp)
  have hxp : x ≠ p := by rintro rfl; omega
  have hxk := h.not_kid hp ho
  rw [hk] at hxk
  simp at hxk
  have hnd := h.nodup p hp
  rw [hk] at hnd
  have hoA : o ∉ A := fun hc => (List.nodup_append.1 hnd).2.2 o hc o (by simp) rfl
  have hso := sUnlink_orphan h2 h1 ho
  cases hA : A.getLast? with
  | none =>
    have hnil : A = [] := List.getLast?_eq_none_iff.1 hA
    subst hnil
    have hox : o ≠ x := Ne.symm hxk.2.1
    refine h.insert hp hx hk ho hr _ ?_ ?_ ?_ ?_ ?_ ?_
    · exact linkBefore_fresh t o x
    all_goals
      intro y
      clear hk hnd hoA h hp hx hr h1 h2 ho hxk
      simp only [Cmark.linkBefore, hso, hon, hA, List.getLast?_nil, mod_nodes, modIf_nodes, if_neg hox, if_true]
      simp only [hop]
      by_cases hyx : y = x <;> by_cases hyo : y = o <;> by_cases hyp : y = p <;> simp_all
  | some a =>
    have hmem := last_mem hA.symm
    have hax : a ≠ x := by rintro rfl; exact hxk.1 hmem
    have hao : a ≠ o := by rintro rfl; exact hoA hmem
    have hnil : A ≠ [] := by rintro rfl; simp at hmem
    have hox : o ≠ x := Ne.symm hxk.2.1
    have hoa : o ≠ a := Ne.symm hao
    have hap : a ≠ p := h.ne_parent hp (by rw [hk]; simp [hmem])
    rw [hA] at hon
    refine h.insert hp hx hk ho hr _ ?_ ?_ ?_ ?_ ?_ ?_
    · exact linkBefore_fresh t o x
    all_goals
      intro y
      clear hk hnd hoA h hp hx hr h1 h2 ho hmem hxk
      by_cases hyx : y = x <;> by_cases hyo : y = o <;> by_cases hyp : y = p <;> by_cases hya : y = a <;>
      simp_all [Cmark.linkBefore, mod_nodes, modIf_nodes]

theorem WF.split {t : Tree} {G : Forest} (h : WF t G) {x p : Nat} (hx : G.live x) (hp : (t.nodes x).parent = some p) :
    G.live p ∧ ∃ A B, G.kids p = A ++ x :: B := by
  obtain ⟨h1, h2⟩ := h.parent x p hx hp
  exact ⟨h1, List.append_of_mem h2⟩

theorem unlink_fresh (t : Tree) (x : Nat) : (Cmark.unlink t x).fresh = t.fresh := sUnlink_fresh t x

theorem unlink_inl (t : Tree) (x : Nat) : (Cmark.unlink t x).inl = t.inl := sUnlink_inl t x

theorem WF.unlink {t : Tree} {G : Forest} (h : WF t G) {p x : Nat} {A B : List Nat} (hp : G.live p)
    (hk : G.kids p = A ++ x :: B) :
    WF (Cmark.unlink t x) (G.setKids p (A ++ B)) ∧ ((Cmark.unlink t x).nodes x).parent = none ∧
      ∀ y, y ≠ x → ((Cmark.unlink t x).nodes y).parent = (t.nodes y).parent := by
  have hx := (h.kid p x hp (by rw [hk]; simp)).1
  obtain ⟨e1, e2⟩ := h.neighbours hp hk
  have hpar := (h.kid p x hp (by rw [hk]; simp)).2
  have hxp : x ≠ p := h.ne_parent hp (by rw [hk]; simp)
  have hnd := h.nodup p hp
  rw [hk] at hnd
  have n1 : (t.nodes x).prev ≠ some x := by
    rw [e1]; intro hc
    exact (List.nodup_append.1 hnd).2.2 x (last_mem hc.symm) x (by simp) rfl
  have n2 : (t.nodes x).next ≠ some x := by
    rw [e2]; intro hc
    exact (List.nodup_cons.1 (List.nodup_append.1 hnd).2.1).1 (head_mem hc.symm)
  refine ⟨?_, ?_, ?_⟩
  · refine h.sUnlink hp hk (Cmark.unlink t x) (unlink_fresh t x) ?_ G.live (fun _ hy => hy) (fun _ hy _ => hy) ?_ (.inl hx)
    · intro y hy
      simp [Cmark.unlink, mod_nodes, hy]
    · intro _
      simp [Cmark.unlink, mod_nodes, sUnlink_nodes t x n1 n2, hpar, hxp]
  · simp [Cmark.unlink, mod_nodes]
  · intro y hy
    simp [Cmark.unlink, mod_nodes, hy, sUnlink_nodes t x n1 n2]

/-- A leaf without parent is forgotten. -/
theorem WF.drop {t : Tree} {G : Forest} (h : WF t G) {x : Nat} (hx : G.live x) (hk : G.kids x = []) (ho : (t.nodes x).parent = none) :
    WF t ⟨fun y => G.live y ∧ y ≠ x, G.kids, G.rank⟩ := by
  refine ⟨fun y hy => h.lt y hy.1, fun y hy => h.first y hy.1, fun y hy => h.last y hy.1, fun y hy => h.seg y hy.1,
    fun y hy => h.nodup y hy.1, ?_, ?_, fun y hy => h.orphan y hy.1, fun y p hy => h.rank y p hy.1⟩
  · intro p y hp hy
    refine ⟨⟨(h.kid p y hp.1 hy).1, ?_⟩, (h.kid p y hp.1 hy).2⟩
    rintro rfl
    exact h.not_kid hp.1 ho hy
  · intro y p hy hp
    obtain ⟨k1, k2⟩ := h.parent y p hy.1 hp
    refine ⟨⟨k1, ?_⟩, k2⟩
    rintro rfl
    rw [hk] at k2
    simp at k2

/-- Freeing a leaf. -/
theorem WF.free {t : Tree} {G : Forest} (h : WF t G) {x : Nat} (hx : G.live x) (hk : G.kids x = []) :
    ∃ t' G', nodeFree t x = .ok t' ∧ WF t' G' ∧ t'.inl = t.inl ∧ (∀ y, G.live y → y ≠ x → G'.live y) ∧
      (∀ y, G.kids y = [] → G'.kids y = []) := by
  have hlast := h.last x hx
  rw [hk] at hlast
  simp at hlast
  have hlt := h.lt x hx
  cases hpar : (t.nodes x).parent with
  | none =>
    obtain ⟨o1, o2⟩ := h.orphan x hx hpar
    have e : (Cmark.sUnlink t x).mod x (fun n => { n with next := none }) = t := by
      rw [sUnlink_orphan o2 o1 hpar]
      simp only [Tree.mod]
      congr 1
      funext y
      split_ifs with hy
      · subst hy
        ext1 <;> simp [o1]
      · rfl
    refine ⟨t, _, ?_, h.drop hx hk hpar, rfl, fun y hy hne => ⟨hy, hne⟩, fun y hy => hy⟩
    rw [nodeFree, e]
    obtain ⟨f, hf⟩ : ∃ f, t.fresh = f + 1 := ⟨t.fresh - 1, by omega⟩
    simp [hf, freeNodes, hlast, o1]
  | some p =>
    obtain ⟨hp, A, B, hAB⟩ := h.split hx hpar
    have hxp : x ≠ p := h.ne_parent hp (by rw [hAB]; simp)
    obtain ⟨e1, e2⟩ := h.neighbours hp hAB
    have hnd := h.nodup p hp
    rw [hAB] at hnd
    have n1 : (t.nodes x).prev ≠ some x := by
      rw [e1]; intro hc
      exact (List.nodup_append.1 hnd).2.2 x (last_mem hc.symm) x (by simp) rfl
    have n2 : (t.nodes x).next ≠ some x := by
      rw [e2]; intro hc
      exact (List.nodup_cons.1 (List.nodup_append.1 hnd).2.1).1 (head_mem hc.symm)
    have hw := h.sUnlink hp hAB ((Cmark.sUnlink t x).mod x (fun n => { n with next := none }))
      (by rw [mod_fresh, sUnlink_fresh]) (by intro y hy; simp [mod_nodes, hy])
      (fun y => G.live y ∧ y ≠ x) (fun y hy => hy.1) (fun y hy hne => ⟨hy, hne⟩) (fun hc => absurd rfl hc.2) (.inr hk)
    refine ⟨_, _, ?_, hw, by rw [mod_inl, sUnlink_inl], fun y hy hne => ⟨hy, hne⟩, ?_⟩
    · rw [nodeFree]
      obtain ⟨f, hf⟩ : ∃ f, t.fresh = f + 1 := ⟨t.fresh - 1, by omega⟩
      have hl2 : (((Cmark.sUnlink t x).mod x (fun n => { n with next := none })).nodes x).last = none := by
        simp [mod_nodes, sUnlink_nodes t x n1 n2, hlast]
      simp only [mod_fresh, sUnlink_fresh, hf, freeNodes, hl2]
      simp [mod_nodes, freeNodes]
    · intro y hy
      by_cases hyp : y = p
      · subst hyp
        rw [hAB] at hy
        simp at hy
      · simp [hyp, hy]

/-- Moving a part of the children of a node under another one. -/
theorem WF.move (e p : Nat) (stop : Option Nat) (hpe : p ≠ e) : ∀ (f : Nat) (t : Tree) (G : Forest) (A B : List Nat), WF t G →
    G.live p → G.live e → G.kids p = A ++ B → (∀ x ∈ B, G.rank e < G.rank x) → B.length < f →
    ∃ t' G', moveLoop e stop f t B.head? = .ok t' ∧ WF t' G' ∧ t'.inl = t.inl ∧ t'.fresh = t.fresh ∧ G'.live = G.live ∧
      G'.rank = G.rank ∧ (∃ B', G'.kids p = A ++ B') ∧ (∀ q, q ≠ p → q ≠ e → G'.kids q = G.kids q) ∧
      (∀ y, y ∉ B → (t'.nodes y).parent = (t.nodes y).parent) := by
  intro f
  induction f with
  | zero => intro t G A B _ _ _ _ _ hl; omega
  | succ f ih =>
    intro t G A B h hp he hk hr hl
    cases B with
    | nil => exact ⟨t, G, by simp [moveLoop], h, rfl, rfl, rfl, rfl, ⟨[], hk⟩, fun _ _ _ => rfl, fun _ _ => rfl⟩
    | cons x B =>
      simp only [List.head?_cons, moveLoop]
      by_cases hs : some x = stop
      · rw [if_pos hs]
        exact ⟨t, G, rfl, h, rfl, rfl, rfl, rfl, ⟨x :: B, hk⟩, fun _ _ _ => rfl, fun _ _ => rfl⟩
      · rw [if_neg hs]
        have hx := (h.kid p x hp (by rw [hk]; simp)).1
        have hxe : x ≠ e := by
          rintro rfl
          have := hr x (by simp)
          omega
        obtain ⟨w1, w2, w3⟩ := h.unlink hp hk
        have w4 := w1.append (e := e) he hx w2 (hr x (by simp))
        rw [(h.neighbours hp hk).2]
        obtain ⟨t', G', m1, m2, m3, m4, m5, m6, m7, m8, m9⟩ := ih _ _ A B w4 hp he
          (by simp [Forest.setKids, hpe])
          (fun y hy => hr y (by simp [hy])) (by simp at hl; omega)
        refine ⟨t', G', m1, m2, ?_, ?_, m5, m6, m7, ?_, ?_⟩
        · rw [m3, appendChild_inl, unlink_inl]
        · rw [m4, appendChild_fresh, unlink_fresh]
        · intro q hqp hqe
          rw [m8 q hqp hqe]
          simp [Forest.setKids, hqp, hqe]
        · intro y hy
          simp at hy
          rw [m9 y hy.2]
          rw [← w3 y hy.1]
          simp only [appendChild]
          split
          · simp only [mod_nodes]
            split_ifs <;> simp_all
          · simp only [mod_nodes]
            split_ifs <;> simp_all

/-- Lists of distinct objects are not longer than the heap. -/
theorem nodup_length {l : List Nat} {n : Nat} (h : l.Nodup) (hn : ∀ x ∈ l, x < n) : l.length ≤ n := by
  have := (List.subperm_of_subset h (fun x hx => List.mem_range.2 (hn x hx))).length_le
  simpa using this

theorem WF.ancestor {t : Tree} {G : Forest} (h : WF t G) (child : Nat) : ∀ (f : Nat) (cur : Option Nat) (V : List Nat),
    (∀ q, cur = some q → G.live q) → V.Nodup → (∀ v ∈ V, v < t.fresh) → (∀ q, cur = some q → ∀ v ∈ V, G.rank q < G.rank v) →
    V.length + f = t.fresh + 1 → ∃ b, ancestorLoop t child f cur = .ok b := by
  intro f
  induction f with
  | zero =>
    intro cur V _ hV hlt _ hf
    have := nodup_length hV hlt
    omega
  | succ f ih =>
    intro cur V hc hV hlt hr hf
    cases cur with
    | none => exact ⟨false, rfl⟩
    | some q =>
      simp only [ancestorLoop]
      by_cases hq : q = child
      · rw [if_pos hq]; exact ⟨true, rfl⟩
      · rw [if_neg hq]
        have hl := hc q rfl
        refine ih _ (q :: V) ?_ ?_ ?_ ?_ ?_
        · intro p hp
          exact (h.parent q p hl hp).1
        · rw [List.nodup_cons]
          refine ⟨fun hm => ?_, hV⟩
          have := hr q rfl q hm
          omega
        · intro v hv
          rcases List.mem_cons.1 hv with hv | hv
          · rw [hv]; exact h.lt q hl
          · exact hlt v hv
        · intro p hp v hv
          have := h.rank q p hl hp
          rcases List.mem_cons.1 hv with hv | hv
          · rw [hv]; exact this
          · have := hr q rfl v hv
            omega
        · simp; omega

theorem WF.canContain {t : Tree} {G : Forest} (h : WF t G) {p : Nat} (hp : G.live p) (child : Nat) :
    ∃ b, Cmark.canContain t p child = .ok b := by
  simp only [Cmark.canContain]
  by_cases hc : p = child
  · rw [if_pos hc]; exact ⟨false, rfl⟩
  · rw [if_neg hc]
    obtain ⟨b, hb⟩ : ∃ b, isAncestor t p child = Except.ok b := by
      simp only [isAncestor]
      split
      · refine h.ancestor child _ _ [] ?_ (by simp) (by simp) (by simp) (by simp)
        intro q hq
        exact (h.parent p q hp hq).1
      · exact ⟨false, rfl⟩
    rw [hb]
    simp only [bind, Except.bind]
    split
    · exact ⟨_, rfl⟩
    · split <;> exact ⟨_, rfl⟩

theorem WF.rescale {t : Tree} {G : Forest} (h : WF t G) : WF t { G with rank := fun x => 2 * G.rank x } :=
  ⟨h.lt, h.first, h.last, h.seg, h.nodup, h.kid, h.parent, h.orphan, fun x p hx hp => by
    have := h.rank x p hx hp
    simp only
    omega⟩

end MdToc.Cmark
