import Verif.Lemmas.TreeSteps

/-!
# The tree of nodes (C51, C52)

`remove_emphasis` builds a tree of nodes and moves parts of it around.  The loops over the pointers
always end, no step fails because of the tree, and the result does not depend on it.
-/

set_option linter.unusedSimpArgs false

namespace MdToc.Props

open MdToc.Cmark

/-- **C52**: with the tree of nodes the result is the same, exceptions included, as without it.  So all
that is proved about `removeEmphasis` holds for the program with the tree. -/
theorem C52_tree_harmless (E : Env) (s : Str) (p : Parser) : removeEmphasisTree E s p = removeEmphasis E s p := by
  simp only [removeEmphasisTree, removeEmphasis, bind, Except.bind]
  obtain ⟨h1, h2⟩ := parseInlinesTree_eq E (s.filter (· != '\x00'))
  cases h : parseInlines E (s.filter (· != '\x00')) with
  | error e => rw [h1 e h]
  | ok rs =>
    obtain ⟨t, ht, -⟩ := h2 rs h
    rw [ht]

/-- **C51**: the loops over the pointers of the nodes end, for every text. -/
theorem C51_tree_terminates (E : Env) (s : Str) (p : Parser) : removeEmphasisTree E s p ≠ .error .OutOfFuel := by
  rw [C52_tree_harmless]
  have := removeEmphasis_err E s p
  intro h
  have := this _ h
  simp at this

/-- The objects met by following `next` from an object: the walk ends. -/
inductive Walk (t : Tree) : Option Nat → List Nat → Prop
  | done : Walk t none []
  | step {x : Nat} {l : List Nat} : Walk t (t.nodes x).next l → Walk t (some x) (x :: l)

theorem walk_of_seg {t : Tree} (l : List Nat) : ∀ p, Seg (fun x => (t.nodes x).next) (fun x => (t.nodes x).prev) p l none →
    Walk t l.head? l := by
  induction l with
  | nil => intro p _; exact .done
  | cons x l ih =>
    intro p h
    obtain ⟨-, h2, h3⟩ := h
    simp at h2
    refine .step ?_
    rw [h2]
    exact ih _ h3

/-- **C51**: afterwards the children of the parent are a list that ends, without repetition, each with the
parent as its parent and with the pointers in both directions. -/
theorem C51_tree_children (E : Env) (line : Str) (rs : List Range) (t : Tree) (h : parseInlinesTree E line = .ok (rs, t)) :
    ∃ l : List Nat, Walk t (t.nodes 0).first l ∧ l.Nodup ∧ (t.nodes 0).last = l.getLast? ∧
      (∀ x ∈ l, (t.nodes x).parent = some 0) ∧
      (∀ x y, x ∈ l → (t.nodes x).next = some y → (t.nodes y).prev = some x) := by
  obtain ⟨h1, h2⟩ := parseInlinesTree_eq E line
  cases hp : parseInlines E line with
  | error e => rw [h1 e hp] at h; simp at h
  | ok rs' =>
    obtain ⟨t', ht, G, w, h0⟩ := h2 rs' hp
    rw [ht] at h
    injection h with h
    injection h with h h'
    subst h'
    refine ⟨G.kids 0, ?_, w.nodup 0 h0, w.last 0 h0, fun x hx => (w.kid 0 x h0 hx).2, ?_⟩
    · rw [w.first 0 h0]
      exact walk_of_seg _ _ (w.seg 0 h0)
    · intro x y hx hy
      obtain ⟨A, B, hAB⟩ := List.append_of_mem hx
      have h3 := (w.neighbours h0 hAB).2
      rw [hy] at h3
      cases B with
      | nil => simp at h3
      | cons b B =>
        simp at h3
        subst h3
        have := (w.neighbours (p := 0) (x := y) (A := A ++ [x]) (B := B) h0 (by rw [hAB]; simp)).1
        simpa using this

/-- The program with the tree on a text with nested emphasis and links. -/
example : removeEmphasisTree asciiEnv "*a [b **c** _d_](e) g* _j [k* l](m) n_".toList .github
    = .ok "a [b c d](e) g j [k* l](m) n".toList := by
  rw [C52_tree_harmless]; decide +kernel

/-- Emphasis across the border of a link: the opener and the closer are in different lists of children. -/
example : removeEmphasisTree asciiEnv "_a [*b c_ d* e_](u) f".toList .github = .ok "a [b c_ d e](u) f".toList := by
  rw [C52_tree_harmless]; decide +kernel

/-- The heap itself on a small text: the nodes of `*` and of the emphasis are gone, `b` is left. -/
example : ((parseInlinesTree asciiEnv "*a*b".toList).toOption.map (fun r => ((r.2.nodes 0).first, (r.2.nodes 0).last, r.2.fresh)))
    = some (some 4, some 4, 6) := by decide +kernel

end MdToc.Props
