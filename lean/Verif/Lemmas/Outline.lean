import Verif.Spec.Outline
import Verif.Lemmas.Strings

/-!
# Lemmas on reading lists
-/

set_option linter.unusedSimpArgs false

namespace MdToc

open Spec

/-! ### Lists are read in one way -/

theorem replicate_head_unique {k m : Nat} {x y : Char} {s t : Str} (hx : x ≠ ' ') (hy : y ≠ ' ') (h : List.replicate k ' ' ++ x :: s = List.replicate m ' ' ++ y :: t) :
    k = m ∧ x = y ∧ s = t := by
  induction k generalizing m with
  | zero =>
    cases m with
    | zero => simpa using h
    | succ m =>
      simp only [List.replicate_zero, List.nil_append, List.replicate_succ, List.cons_append, List.cons.injEq] at h
      exact absurd h.1 hx
  | succ k ih =>
    cases m with
    | zero =>
      simp only [List.replicate_zero, List.nil_append, List.replicate_succ, List.cons_append, List.cons.injEq] at h
      exact absurd h.1.symm hy
    | succ m =>
      simp only [List.replicate_succ, List.cons_append, List.cons.injEq, true_and] at h
      obtain ⟨h1, h2⟩ := ih h
      exact ⟨by omega, h2⟩

theorem digits_unique {d e : Str} {x y : Char} {s t : Str} (hd : ∀ c ∈ d, '0' ≤ c ∧ c ≤ '9') (he : ∀ c ∈ e, '0' ≤ c ∧ c ≤ '9') (hx : ¬ ('0' ≤ x ∧ x ≤ '9')) (hy : ¬ ('0' ≤ y ∧ y ≤ '9'))
    (h : d ++ x :: s = e ++ y :: t) : d = e ∧ x = y ∧ s = t := by
  induction d generalizing e with
  | nil =>
    cases e with
    | nil => simpa using h
    | cons a e =>
      simp only [List.nil_append, List.cons_append, List.cons.injEq] at h
      exact absurd (h.1 ▸ he a (by simp)) hx
  | cons a d ih =>
    cases e with
    | nil =>
      simp only [List.nil_append, List.cons_append, List.cons.injEq] at h
      exact absurd (h.1 ▸ hd a (by simp)) hy
    | cons b e =>
      simp only [List.cons_append, List.cons.injEq] at h
      obtain ⟨rfl, h⟩ := h
      obtain ⟨h1, h2⟩ := ih (fun c hc => hd c (by simp [hc])) (fun c hc => he c (by simp [hc])) h
      exact ⟨by rw [h1], h2⟩

theorem follows_unique {a b : Nat} {s t : Str} (hs : Follows a s) (ht : Follows b t) (h : List.replicate a ' ' ++ s = List.replicate b ' ' ++ t) : a = b ∧ s = t := by
  obtain ⟨-, -, x, s, rfl, hx, -⟩ := hs
  obtain ⟨-, -, y, t, rfl, hy, -⟩ := ht
  obtain ⟨h1, h2, h3⟩ := replicate_head_unique hx hy h
  exact ⟨h1, by rw [h2, h3]⟩

theorem itemLine_unique {line c c' : _} {k k' off off' : Nat} {content content' : Str} {d d' : Str} (h : ItemLine line c d k off content) (h' : ItemLine line c' d' k' off' content') :
    c = c' ∧ k = k' ∧ off = off' ∧ content = content' := by
  have nb : ∀ c : Char, c = '-' ∨ c = '+' ∨ c = '*' → c ≠ ' ' ∧ ¬ ('0' ≤ c ∧ c ≤ '9') := by rintro c (rfl | rfl | rfl) <;> decide
  have nn : ∀ c : Char, c = '.' ∨ c = ')' → ¬ ('0' ≤ c ∧ c ≤ '9') := by rintro c (rfl | rfl) <;> decide
  have nd : ∀ c : Char, '0' ≤ c ∧ c ≤ '9' → c ≠ ' ' := by rintro c h rfl; exact absurd h (by decide)
  cases h with
  | @bullet _ s _ _ hc hf =>
    generalize hl : List.replicate k ' ' ++ [c] ++ List.replicate s ' ' ++ content = l at h'
    cases h' with
    | @bullet _ s' _ _ hc' hf' =>
      rw [List.append_assoc, List.append_assoc, List.append_assoc, List.append_assoc] at hl
      obtain ⟨rfl, rfl, h⟩ := replicate_head_unique (nb _ hc).1 (nb _ hc').1 hl
      obtain ⟨rfl, rfl⟩ := follows_unique hf hf' h
      exact ⟨rfl, rfl, rfl, rfl⟩
    | @number _ s' d _ _ hne hlen hd hc' hf' =>
      obtain ⟨x, d, rfl⟩ := List.exists_cons_of_ne_nil hne
      simp only [List.append_assoc, List.singleton_append, List.cons_append] at hl
      obtain ⟨rfl, rfl, h⟩ := replicate_head_unique (nb _ hc).1 (nd _ (hd x (by simp))) hl
      exact absurd (hd _ (by simp)) (nb _ hc).2
  | @number _ s d _ _ hne hlen hd hc hf =>
    generalize hl : List.replicate k ' ' ++ d ++ [c] ++ List.replicate s ' ' ++ content = l at h'
    cases h' with
    | @bullet _ s' _ _ hc' hf' =>
      obtain ⟨x, d, rfl⟩ := List.exists_cons_of_ne_nil hne
      simp only [List.append_assoc, List.singleton_append, List.cons_append] at hl
      obtain ⟨rfl, rfl, h⟩ := replicate_head_unique (nd _ (hd x (by simp))) (nb _ hc').1 hl
      exact absurd (hd _ (by simp)) (nb _ hc').2
    | @number _ s' e _ _ hne' hlen' he hc' hf' =>
      obtain ⟨x, d, rfl⟩ := List.exists_cons_of_ne_nil hne
      obtain ⟨y, e, rfl⟩ := List.exists_cons_of_ne_nil hne'
      simp only [List.append_assoc, List.singleton_append, List.cons_append] at hl
      obtain ⟨rfl, rfl, h⟩ := replicate_head_unique (nd _ (hd x (by simp))) (nd _ (he y (by simp))) hl
      obtain ⟨rfl, rfl, h'⟩ := digits_unique (fun c hc => hd c (by simp [hc])) (fun c hc => he c (by simp [hc])) (nn _ hc) (nn _ hc') h
      obtain ⟨rfl, rfl⟩ := follows_unique hf hf' h'
      exact ⟨rfl, rfl, rfl, rfl⟩

theorem stay_unique {closed stay closed' stay' : List Nat} {k : Nat} (h : closed ++ stay = closed' ++ stay') (h1 : ∀ o ∈ stay, o ≤ k) (h1' : ∀ o ∈ stay', o ≤ k)
    (h2 : ∀ o ∈ closed.getLast?, k < o) (h2' : ∀ o ∈ closed'.getLast?, k < o) : stay = stay' := by
  rcases List.append_eq_append_iff.mp h with ⟨a, ha, hb⟩ | ⟨a, ha, hb⟩
  · rcases List.eq_nil_or_concat a with rfl | ⟨a', x, rfl⟩
    · simpa using hb
    · exfalso
      have e1 : k < x := h2' x (by rw [ha]; simp)
      have e2 : x ≤ k := h1 x (by rw [hb]; simp)
      omega
  · rcases List.eq_nil_or_concat a with rfl | ⟨a', x, rfl⟩
    · simpa using hb.symm
    · exfalso
      have e1 : k < x := h2 x (by rw [ha]; simp)
      have e2 : x ≤ k := h1' x (by rw [hb]; simp)
      omega

/-- Lines of list items are read in at most one way. -/
theorem outline_unique {c c' : Char} {opened : List Nat} {lines : List Str} {items items' : List (Nat × Str)} (h : Outline c opened lines items) (h' : Outline c' opened lines items') :
    items = items' := by
  induction h generalizing items' with
  | nil => cases h'; rfl
  | @item line _ content k off closed stay lines items hi h1 h2 h3 _ _ ih =>
    generalize hop : closed ++ stay = op at h'
    cases h' with
    | @item _ _ content' k' off' closed' stay' _ items' hi' h1' h2' h3' _ h4' =>
      obtain ⟨-, rfl, rfl, rfl⟩ := itemLine_unique hi hi'
      obtain rfl := stay_unique hop h1 h1' h2 h2'
      rw [ih h4']

/-! ### Numbers -/

theorem natStrAux_length : ∀ (f n k : Nat) (acc : Str), n < f → n < 10 ^ (k + 1) → (natStrAux f n acc).length ≤ k + 1 + acc.length := by
  intro f
  induction f with
  | zero => intro n k acc h; omega
  | succ f ih =>
    intro n k acc h hn
    unfold natStrAux
    split
    · simp only [List.length_cons]; omega
    · rename_i h10
      cases k with
      | zero => simp at hn; omega
      | succ k =>
        have := ih (n / 10) k (digitChar (n % 10) :: acc) (by omega) (by rw [Nat.pow_succ] at hn; omega)
        simp only [List.length_cons] at this
        omega

theorem natStr_length {n : Nat} (h : n ≤ 999999999) : (natStr n).length ≤ 9 := by
  have := natStrAux_length (n + 1) n 8 [] (by omega) (by omega)
  exact this

/-! ### The lines of entries -/

/-- The column of the content of an entry. -/
def entryOffset (ordered : Bool) (marker : Str) (e : Entry) : Nat := e.indent + (markerText ordered marker e.number).length + 1

theorem entry_itemLine {ordered noLinks : Bool} {c : Char} (hc : if ordered then c = '.' ∨ c = ')' else c = '-' ∨ c = '+' ∨ c = '*') {e : Entry} (hn : e.number ≤ 999999999) {x : Char} {t : Str}
    (hx : e.content noLinks = x :: t) (h1 : x ≠ ' ') (h2 : x ≠ '\t') :
    ItemLine (e.line ordered noLinks [c] []) c (if ordered then natStr e.number else []) e.indent (entryOffset ordered [c] e) (e.content noLinks) := by
  have hf : Follows 1 (e.content noLinks) := ⟨Nat.le_refl _, by omega, x, t, hx, h1, h2⟩
  unfold Entry.line entryOffset markerText
  cases ordered with
  | false =>
    simp only [Bool.false_eq_true, if_false] at hc ⊢
    have := ItemLine.bullet (indent := e.indent) hc hf
    simpa using this
  | true =>
    simp only [if_true] at hc ⊢
    rw [← natStr_eq]
    have := ItemLine.number (indent := e.indent) (natStr_ne_nil e.number) (natStr_length hn) (fun d hd => by
      have := natStr_digits _ d hd
      simp only [isAsciiDigit, Bool.and_eq_true, decide_eq_true_eq] at this
      constructor <;> simp only [Char.le_def, UInt32.le_iff_toNat_le] <;> first | exact this.1 | exact this.2) hc hf
    have e1 : e.indent + (natStr e.number ++ [c]).length + 1 = e.indent + (natStr e.number).length + 1 + 1 := by simp; omega
    rw [e1]
    simpa using this

/-! ### Nested entries -/

/-- The entries that are open after some entries: the last one and its ancestors, from the inside to the outside. -/
inductive Stack (ordered : Bool) (marker : Str) (first : Nat) : List Entry → Prop
  | one {e : Entry} : e.level = first → e.indent = 0 → Stack ordered marker first [e]
  | cons {e q : Entry} {post : List Entry} : Stack ordered marker first (q :: post) → e.level = q.level + 1 → e.indent = entryOffset ordered marker q →
      Stack ordered marker first (e :: q :: post)

theorem Stack.length {ordered : Bool} {marker : Str} {first : Nat} {st : List Entry} (h : Stack ordered marker first st) : ∀ e ∈ st.head?, e.level + 1 = first + st.length := by
  induction h with
  | one h _ => simp [h]
  | cons _ h _ ih => simp [h] at ih ⊢; omega

theorem Stack.offsets {ordered : Bool} {marker : Str} {first : Nat} {st : List Entry} (h : Stack ordered marker first st) : ∀ e ∈ st.head?, ∀ q ∈ st,
    entryOffset ordered marker q ≤ entryOffset ordered marker e ∧ q.level ≤ e.level := by
  induction h with
  | one h _ => simp
  | @cons e q post _ h1 h2 ih =>
    simp only [List.head?_cons, Option.mem_def, Option.some.injEq, forall_eq'] at ih ⊢
    intro x hx
    rw [List.mem_cons] at hx
    rcases hx with rfl | hx
    · exact ⟨Nat.le_refl _, Nat.le_refl _⟩
    · obtain ⟨a, b⟩ := ih x hx
      have : entryOffset ordered marker q < entryOffset ordered marker e := by
        conv => rhs; unfold entryOffset
        omega
      omega

/-- The next entry. -/
theorem Stack.next {ordered : Bool} {marker : Str} {first : Nat} {st : List Entry} (h : Stack ordered marker first st) {e : Entry} (hlo : first ≤ e.level)
    (hhi : ∀ q ∈ st.head?, e.level ≤ q.level + 1)
    (hin : e.indent = ((st.find? (fun q => decide (q.level < e.level))).map (entryOffset ordered marker)).getD 0) :
    ∃ closed stay, st = closed ++ stay ∧ (∀ q ∈ closed, e.level ≤ q.level) ∧ (∀ q ∈ stay, q.level < e.level) ∧ Stack ordered marker first (e :: stay) ∧
      (∀ q ∈ stay, entryOffset ordered marker q ≤ e.indent) ∧ (∀ q ∈ closed.getLast?, e.indent < entryOffset ordered marker q) ∧
      e.indent = (stay.head?.map (entryOffset ordered marker)).getD 0 := by
  induction h with
  | @one q h1 h2 =>
    simp only [List.head?_cons, Option.mem_def, Option.some.injEq, forall_eq'] at hhi
    by_cases hl : q.level < e.level
    · simp only [List.find?_cons, hl, decide_true, Option.map_some, Option.getD_some] at hin
      refine ⟨[], [q], rfl, by simp, by simpa using hl, .cons (.one h1 h2) (by omega) hin, by simp [hin], by simp, by simp [hin]⟩
    · simp only [List.find?_cons, hl, decide_false, List.find?_nil, Option.map_none, Option.getD_none] at hin
      refine ⟨[q], [], rfl, by simp; omega, by simp, .one (by omega) hin, by simp, ?_, by simp [hin]⟩
      simp only [List.getLast?_singleton, Option.mem_def, Option.some.injEq, forall_eq']
      unfold entryOffset; omega
  | @cons x q post hst h1 h2 ih =>
    simp only [List.head?_cons, Option.mem_def, Option.some.injEq, forall_eq'] at hhi ih
    by_cases hl : x.level < e.level
    · simp only [List.find?_cons, hl, decide_true, Option.map_some, Option.getD_some] at hin
      have hall := (Stack.cons hst h1 h2).offsets
      simp only [List.head?_cons, Option.mem_def, Option.some.injEq, forall_eq'] at hall
      refine ⟨[], x :: q :: post, rfl, by simp, fun y hy => ?_, .cons (.cons hst h1 h2) (by omega) hin, fun y hy => ?_, by simp, by simp [hin]⟩
      · have := hall y hy; omega
      · have := hall y hy; omega
    · rw [List.find?_cons_of_neg (by simp; omega)] at hin
      by_cases hq : q.level < e.level
      · simp only [List.find?_cons, hq, decide_true, Option.map_some, Option.getD_some] at hin
        have hall := hst.offsets
        simp only [List.head?_cons, Option.mem_def, Option.some.injEq, forall_eq'] at hall
        refine ⟨[x], q :: post, rfl, by simp; omega, fun y hy => ?_, .cons hst (by omega) hin, fun y hy => ?_, ?_, by simp [hin]⟩
        · have := hall y hy; omega
        · have := hall y hy; omega
        · simp only [List.getLast?_singleton, Option.mem_def, Option.some.injEq, forall_eq']
          conv => rhs; unfold entryOffset
          omega
      · obtain ⟨closed, stay, e1, e2, e3, e4, e5, e6, e7⟩ := ih (by omega) hin
        refine ⟨x :: closed, stay, by rw [e1]; rfl, ?_, e3, e4, e5, ?_, e7⟩
        · intro y hy
          rw [List.mem_cons] at hy
          rcases hy with rfl | hy
          · omega
          · exact e2 y hy
        · cases closed with
          | nil =>
            simp only [List.nil_append] at e1
            exact absurd (e3 q (by rw [← e1]; simp)) hq
          | cons y closed => rw [List.getLast?_cons_cons]; exact e6

theorem coherent_tail {before : List Nat} {n : Nat} {after : List Nat} (h : Coherent (before ++ n :: after)) : (∀ f ∈ before.head?, f ≤ n) ∧ ∀ q ∈ before.getLast?, n ≤ q + 1 := by
  constructor
  · intro f hf
    refine h.1 f ?_ n (by simp)
    cases before with
    | nil => simp at hf
    | cons a t => simpa using hf
  · intro q hq
    rcases List.eq_nil_or_concat before with rfl | ⟨b, x, rfl⟩
    · simp at hq
    · simp at hq
      subst hq
      exact h.2 b x n after (by simp)

/-- Entries in their places are read with the depths of their levels, after some other entries. -/
theorem outline_after {ordered noLinks : Bool} {c : Char} (hc : if ordered then c = '.' ∨ c = ')' else c = '-' ∨ c = '+' ∨ c = '*') {first : Nat} (es : List Entry) :
    ∀ (before : List Entry) (st : List Entry), Stack ordered [c] first st → (∀ n, parent before n = st.find? (fun q => decide (q.level < n))) →
      (before.head?.map (·.level) = some first) → (before.getLast? = st.head?) →
      Each (Nested ordered [c]) (before ++ es) → Coherent ((before ++ es).map (·.level)) →
      (ordered = true → Each (fun b q => (∀ l ∈ b.getLast?, l.level < q.level) → q.number = 1) (before ++ es)) →
      (∀ e ∈ es, e.number ≤ 999999999 ∧ ∃ x t, e.content noLinks = x :: t ∧ x ≠ ' ' ∧ x ≠ '\t') →
      Outline c (st.map (entryOffset ordered [c])) (es.map (Entry.line ordered noLinks [c] [])) (es.map (fun e => (e.level + 1 - first, e.content noLinks))) := by
  induction es with
  | nil => intro before st _ _ _ _ _ _ _ _; exact .nil
  | cons e es ih =>
    intro before st hst hpar hfirst hlast hnest hcoh hone hall
    obtain ⟨hnum, x, t, hx, hx1, hx2⟩ := hall e (by simp)
    rw [List.map_append, List.map_cons] at hcoh
    obtain ⟨hf, hl⟩ := coherent_tail hcoh
    have hlo : first ≤ e.level := by
      refine hf first ?_
      rw [List.head?_map, hfirst]; rfl
    have hhi : ∀ q ∈ st.head?, e.level ≤ q.level + 1 := by
      intro q hq
      refine hl q.level ?_
      rw [List.getLast?_map, hlast, hq]; rfl
    have hin : e.indent = ((st.find? (fun q => decide (q.level < e.level))).map (entryOffset ordered [c])).getD 0 := by
      have := hnest before e es rfl
      unfold Nested at this
      rw [hpar] at this
      cases hf : st.find? (fun q => decide (q.level < e.level)) with
      | none => rw [hf] at this; simpa using this
      | some q => rw [hf] at this; simpa [entryOffset] using this
    obtain ⟨closed, stay, e1, e2, e3, e4, e5, e6, e7⟩ := hst.next hlo hhi hin
    have hlen := e4.length e rfl
    simp only [List.length_cons] at hlen
    have hpar' : ∀ n, parent (before ++ [e]) n = (e :: stay).find? (fun q => decide (q.level < n)) := by
      intro n
      have h1 : parent (before ++ [e]) n = if e.level < n then some e else parent before n := by
        unfold parent
        rw [List.reverse_append, List.reverse_singleton, List.singleton_append, List.find?_cons]
        by_cases h : e.level < n <;> simp [h]
      rw [h1, List.find?_cons]
      by_cases h : e.level < n
      · simp [h]
      · simp only [h, if_false, decide_false]
        rw [hpar, e1, List.find?_append]
        have : closed.find? (fun q => decide (q.level < n)) = none := by
          rw [List.find?_eq_none]
          intro q hq
          have := e2 q hq
          simp; omega
        rw [this]; rfl
    have rest := ih (before ++ [e]) (e :: stay) e4 hpar' (by
        cases before with
        | nil => simp at hfirst
        | cons b t => simpa using hfirst) (by simp) (by rw [List.append_assoc]; exact hnest) (by rw [List.append_assoc, List.map_append, List.singleton_append, List.map_cons]; exact hcoh) (fun ho => by rw [List.append_assoc]; exact hone ho)
        (fun q hq => hall q (by simp [hq]))
    rw [e1, List.map_append, List.map_cons, List.map_cons, show e.level + 1 - first = (stay.map (entryOffset ordered [c])).length + 1 by simp; omega]
    refine .item (entry_itemLine hc hnum hx hx1 hx2) ?_ ?_ ?_ ?_ rest
    · intro o ho
      obtain ⟨q, hq, rfl⟩ := List.mem_map.mp ho
      exact e5 q hq
    · intro o ho
      rw [List.getLast?_map] at ho
      simp only [Option.mem_def, Option.map_eq_some_iff] at ho
      obtain ⟨q, hq, rfl⟩ := ho
      exact e6 q hq
    · rw [List.head?_map, ← e7]; omega
    · intro hcl
      right
      cases ho : ordered with
      | false => exact .inl rfl
      | true =>
        refine .inr ?_
        have hn1 : e.number = 1 := by
          refine hone ho before e es rfl (fun l hl => e3 l ?_)
          have : closed = [] := by simpa using hcl
          rw [this, List.nil_append] at e1
          rw [← e1]
          rw [hlast] at hl
          exact List.mem_of_head? hl
        rw [if_pos rfl, hn1]
        decide

/-- Entries in their places are read with the depths of their levels. -/
theorem outline_entries {ordered noLinks : Bool} {c : Char} (hc : if ordered then c = '.' ∨ c = ')' else c = '-' ∨ c = '+' ∨ c = '*') {e : Entry} {es : List Entry}
    (hnest : Each (Nested ordered [c]) (e :: es)) (hcoh : Coherent ((e :: es).map (·.level)))
    (hone : ordered = true → Each (fun b q => (∀ l ∈ b.getLast?, l.level < q.level) → q.number = 1) (e :: es))
    (hall : ∀ q ∈ e :: es, q.number ≤ 999999999 ∧ ∃ x t, q.content noLinks = x :: t ∧ x ≠ ' ' ∧ x ≠ '\t') :
    Outline c [] ((e :: es).map (Entry.line ordered noLinks [c] [])) ((e :: es).map (fun q => (q.level + 1 - e.level, q.content noLinks))) := by
  obtain ⟨hnum, x, t, hx, hx1, hx2⟩ := hall e (by simp)
  have hin : e.indent = 0 := by simpa [Nested, parent] using hnest [] e es rfl
  have rest := outline_after (noLinks := noLinks) hc (first := e.level) es [e] [e] (.one rfl hin) (fun n => by unfold parent; rfl) rfl rfl hnest hcoh hone
    (fun q hq => hall q (by simp [hq]))
  rw [List.map_cons, List.map_cons, show e.level + 1 - e.level = ([] : List Nat).length + 1 by simp]
  exact .item (closed := []) (stay := []) (entry_itemLine hc hnum hx hx1 hx2) (by simp) (by simp) (by simp [hin]) (by simp) rest

/-- Entries without indentation are read as one list. -/
theorem outline_flat {ordered noLinks : Bool} {c : Char} (hc : if ordered then c = '.' ∨ c = ')' else c = '-' ∨ c = '+' ∨ c = '*') (es : List Entry) :
    ∀ (opened : List Nat), (∀ o ∈ opened, 0 < o) → (∀ q ∈ es, q.indent = 0 ∧ q.number ≤ 999999999 ∧ ∃ x t, q.content noLinks = x :: t ∧ x ≠ ' ' ∧ x ≠ '\t') →
    Outline c opened (es.map (Entry.line ordered noLinks [c] [])) (es.map (fun q => (1, q.content noLinks))) := by
  induction es with
  | nil => intro opened _ _; exact .nil
  | cons e es ih =>
    intro opened ho hall
    obtain ⟨hin, hnum, x, t, hx, hx1, hx2⟩ := hall e (by simp)
    have rest := ih [entryOffset ordered [c] e] (by simp [entryOffset]) (fun q hq => hall q (by simp [hq]))
    have := Outline.item (closed := opened) (stay := []) (entry_itemLine hc hnum hx hx1 hx2) (by simp) (fun o h => by
      have := ho o (List.mem_of_getLast? h); omega) (by simp [hin]) (by simp) rest
    simpa using this

end MdToc
