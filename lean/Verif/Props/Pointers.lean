import Verif.Lemmas.PointersMain
import Verif.Props.Tree

/-!
# The linked lists of the inline parser (C76)

Delimiters and brackets are kept in linked lists, and the removal of a delimiter raises `ValueError`
if the list is broken.  Here: that never happens, the lists are proper in every state, the loops over them end, and the
program with linked lists and Python integers gives the same as the model with lists and natural numbers.
-/

set_option linter.unusedSimpArgs false

namespace MdToc.Props

open MdToc.Cmark

/-- **C76**: with linked lists the result is the same, exceptions included, as with lists.  So all that is proved about
`removeEmphasis` holds for the program with linked lists. -/
theorem C76_same (E : Env) (s : Str) (p : Parser) : removeEmphasisPtr E s p = removeEmphasis E s p :=
  (removeEmphasisPtr_eq E s p).trans (C52_tree_harmless E s p)

/-- **C76**: the loops over the linked lists end, for every text. -/
theorem C76_terminates (E : Env) (s : Str) (p : Parser) : removeEmphasisPtr E s p ≠ .error .OutOfFuel := by
  rw [C76_same]
  intro h
  have := removeEmphasis_err E s p _ h
  simp at this

/-- The objects met by following a pointer: the walk ends. -/
inductive Chain (nx : Nat → Option Nat) : Option Nat → List Nat → Prop
  | done : Chain nx none []
  | step {x : Nat} {l : List Nat} : Chain nx (nx x) l → Chain nx (some x) (x :: l)

/-- `l` is the list of delimiters, first one first: it is met forwards from its first element and backwards from `last_delim`. -/
structure Proper (h : Heap) (l : List Nat) : Prop where
  forward : Chain (fun x => (h.dl x).next) l.head? l
  backward : Chain (fun x => (h.dl x).prev) h.last l.reverse
  nodup : l.Nodup

/-- The states of the parser on a text. -/
inductive Reach (E : Env) (line : Str) : PSubj → Prop
  | init : Reach E line ⟨initSubj line, Heap.init⟩
  | step {q q' : PSubj} {c : Char} : Reach E line q → peek q.s = some c → parseInlineP E q c = .ok q' → Reach E line q'

theorem chain_forward {h : Heap} (l : List Nat) : ∀ p, Seg (fun x => (h.dl x).next) (fun x => (h.dl x).prev) p l none → Chain (fun x => (h.dl x).next) l.head? l := by
  induction l with
  | nil => intro p _; exact .done
  | cons x l ih =>
    intro p w
    obtain ⟨-, h2, h3⟩ := w
    simp at h2
    exact .step (by simp only [h2]; exact ih _ h3)

theorem chain_backward {h : Heap} (l : List Nat) : ∀ e, Seg (fun x => (h.dl x).next) (fun x => (h.dl x).prev) none l e → Chain (fun x => (h.dl x).prev) l.getLast? l.reverse := by
  induction hn : l.length generalizing l with
  | zero =>
    intro e _
    have : l = [] := List.length_eq_zero_iff.mp hn
    subst this
    exact .done
  | succ n ih =>
    intro e w
    obtain ⟨m, x, rfl⟩ : ∃ m x, l = m ++ [x] := by
      rcases List.eq_nil_or_concat l with rfl | ⟨m, x, rfl⟩
      · simp at hn
      · exact ⟨m, x, by simp⟩
    have hs := (seg_append m [x] none e).mp w
    have hp : (h.dl x).prev = m.getLast? := by simpa using hs.2.1
    rw [getLast?_concat', List.reverse_append]
    refine .step ?_
    simp only [hp]
    exact ih m (by simpa using hn) _ hs.1

theorem links_proper {h : Heap} {l : List Nat} (w : Links h l) : Proper h l :=
  ⟨chain_forward l none w.seg, by rw [w.last]; exact chain_backward l none w.seg, w.nodup⟩

theorem Reach.tree {E : Env} {line : Str} {q : PSubj} (hr : Reach E line q) : ∃ s t, SR q s t ∧ TreeOk s t ∧ s.data = line := by
  induction hr with
  | init => exact ⟨_, _, sr_init line, treeOk_init line, rfl⟩
  | @step q q' c _ hp hs ih =>
    obtain ⟨s, t, w, ok, hd⟩ := ih
    have hp' : peek s = some c := by rw [← hp, w.subj]; rfl
    have := parseInlineP_sim (E := E) w hp'
    rw [hs] at this
    obtain ⟨k1, k2⟩ := parseInline_tree (E := E) hp' ok
    cases hT : parseInline E s c with
    | error e => rw [k1 e hT] at this; exact this.elim
    | ok s' =>
      obtain ⟨t', h1, h2⟩ := k2 s' hT
      rw [h1] at this
      exact ⟨s', t', this, h2, (parseInline_moves hp' hT).1.trans hd⟩

theorem Reach.sr {E : Env} {line : Str} {q : PSubj} (hr : Reach E line q) : ∃ s t, SR q s t := by
  obtain ⟨s, t, w, -⟩ := hr.tree
  exact ⟨s, t, w⟩

/-- **C76**: in every state the delimiters form a proper list; each of them can be removed, and the others are a proper list then. -/
theorem C76_lists {E : Env} {line : Str} {q : PSubj} (hr : Reach E line q) :
    ∃ l, Proper q.h l ∧ ∀ d ∈ l, ∃ h', removeDelimiter q.h d = .ok h' ∧ Proper h' (l.erase d) := by
  obtain ⟨s, t, w⟩ := hr.sr
  obtain ⟨ids, l1⟩ := w.dl
  have hL : Links q.h ids.reverse := by have := l1.links; simpa using this
  refine ⟨ids.reverse, links_proper hL, fun d hd => ?_⟩
  obtain ⟨a, b, hab⟩ := List.append_of_mem hd
  rw [hab] at hL
  obtain ⟨h', r1, -, r3⟩ := removeDelimiter_ok hL
  refine ⟨h', r1, ?_⟩
  have hda : d ∉ a := by
    have := hL.nodup
    rw [List.nodup_append] at this
    exact fun hc => this.2.2 d hc d (by simp) rfl
  rw [hab, List.erase_append_right _ hda, List.erase_cons_head]
  exact links_proper r3

/-- **C76**: in every state the brackets form a list that ends, and no bracket is an image. -/
theorem C76_brackets {E : Env} {line : Str} {q : PSubj} (hr : Reach E line q) :
    ∃ l, Chain (fun x => (q.h.br x).prev) q.h.lastBr l ∧ l.Nodup ∧ ∀ b ∈ l, (q.h.br b).image = false ∧ 1 ≤ (q.h.br b).position ∧ (q.h.br b).position ≤ q.s.pos := by
  obtain ⟨s, t, w⟩ := hr.sr
  obtain ⟨bids, c1, c2, c3⟩ := w.br
  have e2 : q.s.pos = s.pos := by rw [w.subj]; rfl
  have key : ∀ l : List Nat, BChain q.h l → Chain (fun x => (q.h.br x).prev) l.head? l ∧ l.Nodup := by
    intro l
    induction l with
    | nil => intro _; exact ⟨.done, List.nodup_nil⟩
    | cons b l ih =>
      rintro ⟨a1, a2, a3, a4⟩
      obtain ⟨i1, i2⟩ := ih a4
      exact ⟨.step (by simp only [a1]; exact i1), List.nodup_cons.mpr ⟨fun hc => by have := a3 b hc; omega, i2⟩⟩
  obtain ⟨k1, k2⟩ := key bids c2
  refine ⟨bids, by rw [c1]; exact k1, k2, fun b hb => ?_⟩
  obtain ⟨b', -, r⟩ := forall₂_mem c3 hb
  rw [e2, r.position]
  exact ⟨r.image, r.lo, r.hi⟩

theorem forall₂_pairwise {α β : Type} {R : α → β → Prop} {P : α → α → Prop} {Q : β → β → Prop} {l : List α} {m : List β} (h : List.Forall₂ R l m)
    (hq : m.Pairwise Q) (hpq : ∀ a a' b b', R a b → R a' b' → Q b b' → P a a') : l.Pairwise P := by
  induction h with
  | nil => exact .nil
  | cons h1 h2 ih =>
    rw [List.pairwise_cons] at hq ⊢
    refine ⟨fun a' ha' => ?_, ih hq.2⟩
    obtain ⟨b', hb', r'⟩ := forall₂_mem h2 ha'
    exact hpq _ _ _ _ h1 r' (hq.1 b' hb')

/-- **C76**: the columns and counters of the delimiters in the list: they come in the order of the text and do not overlap; the columns of each are those of a run of its character
in the text; what is left and what was used up make the whole run, and something is left. -/
theorem C76_counters {E : Env} {line : Str} {q : PSubj} (hr : Reach E line q) :
    ∃ l, Proper q.h l ∧ l.Pairwise (fun d e => (q.h.text (q.h.dl d).inl).endCol < (q.h.text (q.h.dl e).inl).startCol) ∧
      ∀ d ∈ l, ((q.h.dl d).ch = '*' ∨ (q.h.dl d).ch = '_') ∧ 1 ≤ (q.h.text (q.h.dl d).inl).length ∧ 0 ≤ (q.h.dl d).offset ∧
        (q.h.text (q.h.dl d).inl).length + (q.h.dl d).offset = (q.h.dl d).length ∧
        (q.h.text (q.h.dl d).inl).endCol = (q.h.text (q.h.dl d).inl).startCol + (q.h.dl d).length - 1 ∧
        (∀ i : Nat, (q.h.text (q.h.dl d).inl).startCol ≤ i + 1 → (i : Int) + 1 ≤ (q.h.text (q.h.dl d).inl).endCol → line[i]? = some (q.h.dl d).ch) := by
  obtain ⟨s, t, w, ok, hdata⟩ := hr.tree
  obtain ⟨ids, l1⟩ := w.dl
  have hL : Links q.h ids.reverse := by have := l1.links; simpa using this
  have hs := ok.subj
  refine ⟨ids.reverse, links_proper hL, ?_, ?_⟩
  · rw [List.pairwise_reverse]
    refine forall₂_pairwise l1.old hs.sorted ?_
    intro a a' b b' h1 h2 hle
    rw [h2.stop, h1.start]
    omega
  · intro d hd
    obtain ⟨d', hd', r⟩ := forall₂_mem l1.old (by simpa using hd : d ∈ ids)
    have k := hs.delims d' hd'
    have k1 := k.left
    have k2 := k.count
    rw [r.ch, r.inlLen, r.offset, r.len, r.stop, r.start]
    refine ⟨k.char, by omega, by omega, by omega, by omega, ?_⟩
    intro i hi1 hi2
    rw [← hdata]
    exact k.run i (by omega) (by omega)

theorem pairsOk_bounds {data : Str} {rs : List Range} (h : PairsOk data rs) : ∀ r ∈ rs, r.1 < r.2 ∧ r.2 ≤ data.length := by
  induction h with
  | nil => simp
  | @snoc rs r r' _ h2 ih =>
    obtain ⟨c, u, -, hu, e1, e2, -, ha, hb⟩ := h2
    have bound : ∀ r : Range, r.2 = r.1 + u → (∀ i, r.1 ≤ i → i < r.2 → data[i]? = some c) → r.1 < r.2 ∧ r.2 ≤ data.length := by
      intro r e hc
      have h1 : data[r.2 - 1]? = some c := hc (r.2 - 1) (by omega) (by omega)
      have := (List.getElem?_eq_some_iff.mp h1).1
      omega
    intro x hx
    simp only [List.mem_append, List.mem_cons, List.not_mem_nil, or_false] at hx
    rcases hx with hx | rfl | rfl
    · exact ih x hx
    · exact bound _ e1 ha
    · exact bound _ e2 hb

/-- **C76**: afterwards both lists are empty, and every range to ignore is a non-empty part of the text: no bound is negative. -/
theorem C76_ranges {E : Env} {line : Str} {rs : List (Int × Int)} {h : Heap} (hp : parseInlinesP E line = .ok (rs, h)) :
    h.last = none ∧ h.lastBr = none ∧ ∀ r ∈ rs, 0 ≤ r.1 ∧ r.1 < r.2 ∧ r.2 ≤ line.length := by
  have hs := parseInlinesP_sim E line
  rw [hp] at hs
  obtain ⟨t1, t2⟩ := parseInlinesTree_eq E line
  cases hv : parseInlines E line with
  | error e => rw [t1 e hv] at hs; exact hs.elim
  | ok rs' =>
    obtain ⟨t, ht, -⟩ := t2 rs' hv
    rw [ht] at hs
    obtain ⟨a1, a2, a3, a4⟩ := hs
    refine ⟨a3, a4, fun r hr => ?_⟩
    simp only at a1
    rw [a1] at hr
    obtain ⟨x, hx, rfl⟩ := List.mem_map.mp hr
    have := pairsOk_bounds (parseInlines_pairs hv) x hx
    simp only [castR]
    omega

/-- The program with linked lists on a text with nested emphasis and links. -/
example : removeEmphasisPtr asciiEnv "*a [b **c** _d_](e) g* _j [k* l](m) n_".toList .github = .ok "a [b c d](e) g j [k* l](m) n".toList := by
  rw [C76_same]; decide +kernel

/-- A state with two delimiters in the list and a bracket: after `**a _[`. -/
example : ∃ q, Reach asciiEnv "**a _[b".toList q ∧ q.h.last = some 1 ∧ (q.h.dl 1).prev = some 0 ∧ (q.h.dl 0).next = some 1 ∧ q.h.lastBr = some 0 :=
  ⟨_, .step (c := '[') (.step (c := '_') (.step (c := 'a') (.step (c := '*') .init (by decide +kernel) rfl) (by decide +kernel) rfl) (by decide +kernel) rfl) (by decide +kernel) rfl,
    by decide +kernel, by decide +kernel, by decide +kernel, by decide +kernel⟩

end MdToc.Props
