import Verif.Props.AtxMore
import Verif.Spec.ManyLines
import Verif.Anchor

/-!
# Several lines in one call: C101

`get_atx_heading` and `get_md_header` take a text of several lines. Every line is treated as if it were alone, except that a line can make the
headings of the lines after it invisible.
-/

set_option linter.unusedSimpArgs false

namespace MdToc

open MdToc.Spec MdToc.Props

/-! ### The lines of a text -/

theorem splitNl_line : ∀ (l t : Str), '\n' ∉ l → splitNl (l ++ '\n' :: t) = l :: splitNl t := by
  intro l
  induction l with
  | nil => intro t _; simp [splitNl]
  | cons c l ih =>
    intro t h
    simp only [List.mem_cons, not_or] at h
    rw [List.cons_append, splitNl, if_neg (Ne.symm h.1), ih t h.2]

theorem universalNewlines_lf (t : Str) : universalNewlines ('\n' :: t) = '\n' :: universalNewlines t := by
  simp [universalNewlines, crlfToLf_cons_ne, replaceChar]

theorem universalNewlines_crlf (t : Str) : universalNewlines ('\r' :: '\n' :: t) = '\n' :: universalNewlines t := by
  simp [universalNewlines, crlfToLf, replaceChar]

theorem universalNewlines_cr' {t : Str} (h : t.head? ≠ some '\n') : universalNewlines ('\r' :: t) = '\n' :: universalNewlines t := by
  cases t with
  | nil => decide
  | cons d t =>
    have : d ≠ '\n' := by simpa using h
    rw [universalNewlines, crlfToLf_cons_ne' (by simp [this])]
    simp [universalNewlines, replaceChar]

theorem rows_split {t : Str} {ls : List Str} (h : Rows t ls) : splitNl (universalNewlines t) = ls := by
  have hp : ∀ {l : Str}, (∀ c ∈ l, c ≠ '\n' ∧ c ≠ '\r') → ∀ c ∈ l, ¬ IsNewline c :=
    fun hl c hc h => h.elim (hl c hc).1 (hl c hc).2
  have hn : ∀ {l : Str}, (∀ c ∈ l, c ≠ '\n' ∧ c ≠ '\r') → '\n' ∉ l := fun hl hc => (hl _ hc).1 rfl
  induction h with
  | one hl =>
    have := universalNewlines_plain (hp hl) []
    rw [List.append_nil] at this
    rw [this]
    have e : universalNewlines [] = [] := by decide
    rw [e, List.append_nil, splitNl_no_nl _ (hn hl)]
  | lf hl _ ih => rw [universalNewlines_plain (hp hl), universalNewlines_lf, splitNl_line _ _ (hn hl), ih]
  | crlf hl _ ih => rw [universalNewlines_plain (hp hl), universalNewlines_crlf, splitNl_line _ _ (hn hl), ih]
  | cr hl h0 _ ih => rw [universalNewlines_plain (hp hl), universalNewlines_cr' h0, splitNl_line _ _ (hn hl), ih]

theorem rows_ne {t : Str} {ls : List Str} (h : Rows t ls) : ls ≠ [] := by cases h <;> simp

theorem rows_plain {t : Str} {ls : List Str} (h : Rows t ls) : ∀ l ∈ ls, ∀ c ∈ l, c ≠ '\n' ∧ c ≠ '\r' := by
  induction h with
  | one hl => intro l h; rw [List.mem_singleton] at h; exact h ▸ hl
  | lf hl _ ih | crlf hl _ ih | cr hl _ _ ih =>
    intro l h
    rcases List.mem_cons.mp h with h | h
    · exact h ▸ hl
    · exact ih l h

theorem rows_head {t : Str} {ls : List Str} (h : Rows t ls) (h0 : ∀ l ∈ ls.head?, l ≠ []) :
    ∃ x r, t = x :: r ∧ x ≠ '\n' ∧ x ≠ '\r' := by
  cases h with
  | one hl =>
    cases t with
    | nil => exact absurd rfl (h0 [] (by simp))
    | cons x r => exact ⟨x, r, rfl, hl x (by simp)⟩
  | @lf l _ _ hl _ | @crlf l _ _ hl _ | @cr l _ _ hl _ _ =>
    cases l with
    | nil => exact absurd rfl (h0 [] (by simp))
    | cons x r => exact ⟨x, _, rfl, hl x (by simp)⟩

theorem rows_last {t : Str} {ls : List Str} (h : Rows t ls) (h0 : ∀ l ∈ ls.getLast?, l ≠ []) :
    ∃ x, t.getLast? = some x ∧ x ≠ '\n' ∧ x ≠ '\r' := by
  have key : ∀ {u t : Str} {x : Char}, t.getLast? = some x → (u ++ t).getLast? = some x := by
    intro u t x h
    have : t ≠ [] := by rintro rfl; simp at h
    rw [getLast?_append_ne this, h]
  have step : ∀ {l : Str} {ls : List Str}, ls ≠ [] → (l :: ls).getLast? = ls.getLast? := by
    intro l ls h
    cases ls with
    | nil => exact absurd rfl h
    | cons a b => simp [List.getLast?_cons_cons]
  induction h with
  | @one l hl =>
    cases e : l.getLast? with
    | none => exact absurd (List.getLast?_eq_none_iff.mp e) (h0 l (by simp))
    | some x => exact ⟨x, rfl, hl x (List.mem_of_getLast? e)⟩
  | @lf l t ls hl hr ih =>
    obtain ⟨x, e, hx⟩ := ih (by rw [step (rows_ne hr)] at h0; exact h0)
    exact ⟨x, key (key (u := ['\n']) e), hx⟩
  | @crlf l t ls hl hr ih =>
    obtain ⟨x, e, hx⟩ := ih (by rw [step (rows_ne hr)] at h0; exact h0)
    exact ⟨x, key (key (u := ['\r', '\n']) e), hx⟩
  | @cr l t ls hl _ hr ih =>
    obtain ⟨x, e, hx⟩ := ih (by rw [step (rows_ne hr)] at h0; exact h0)
    exact ⟨x, key (key (u := ['\r']) e), hx⟩

theorem hasRows_split {text : Str} {ls : List Str} (h : HasRows text ls) : replaceAndSplitNewlines text = ls := by
  obtain ⟨a, t, b, rfl, hab, hr, h1, h2⟩ := h
  obtain ⟨x, r, rfl, hx⟩ := rows_head hr h1
  obtain ⟨y, ey, hy⟩ := rows_last hr h2
  have nx : ¬ IsNewline x := fun h => h.elim hx.1 hx.2
  have ny : ¬ IsNewline y := fun h => h.elim hy.1 hy.2
  obtain ⟨q, eq⟩ : ∃ q, x :: r = q ++ [y] := List.getLast?_eq_some_iff.mp ey
  rw [replaceAndSplitNewlines_eq, ← rows_split hr]
  congr 1
  have e0 : universalNewlines [] = [] := by decide
  have e1 : universalNewlines (a ++ (x :: r) ++ b) = universalNewlines a ++ universalNewlines (x :: r) ++ universalNewlines b := by
    rw [List.append_assoc, List.cons_append, universalNewlines_append nx, List.append_assoc]
    congr 1
    have h3 := universalNewlines_append nx [] (r ++ b)
    rw [e0, List.nil_append, List.nil_append] at h3
    rw [← h3, ← List.cons_append, eq, List.append_assoc, List.singleton_append, universalNewlines_append ny,
      universalNewlines_append ny, e0]
    simp
  have e2 : universalNewlines (x :: r) = x :: universalNewlines r := by
    have h3 := universalNewlines_append nx [] r
    rw [e0, List.nil_append, List.nil_append] at h3
    exact h3
  have e3 : universalNewlines (x :: r) = universalNewlines q ++ [y] := by
    rw [eq, universalNewlines_append ny, e0]
  rw [e1]
  refine strip_unique ?_ ?_ ?_ ?_
  · have := universalNewlines_all (a := a) (fun c hc => hab c (by simp [hc]))
    simpa using this
  · have := universalNewlines_all (a := b) (fun c hc => hab c (by simp [hc]))
    simpa using this
  · rw [e2]; simpa using hx.1
  · rw [e3]; simpa using hy.1

/-! ### One line -/

theorem getAtxHeading_line {l : Str} (h : ∀ c ∈ l, c ≠ '\n' ∧ c ≠ '\r') {keep : Int} (hk : keep ≥ 1) (p : Parser) (noLinks : Bool) :
    getAtxHeading l keep p noLinks = (atxSubline p keep noLinks true l).map (fun r => [r.1]) := by
  cases l with
  | nil =>
    unfold getAtxHeading
    rw [if_neg (by simpa using hk), if_pos (by rfl)]
    cases hp : p.cmarkLike <;> simp [atxSubline, atxCmark, atxRedcarpet, hp, Except.map]
  | cons x r => exact getAtxHeading_body ⟨[], [], by simp, by simp, h⟩ (by simp) hk p noLinks

/-- An element seen from a state. -/
def AtxElem.seen (vis : Bool) (e : AtxElem) : AtxElem := { e with visible := e.visible && vis }

theorem atxSubline_vis (p : Parser) (keep : Int) (noLinks vis : Bool) (l : Str) :
    atxSubline p keep noLinks vis l = (atxSubline p keep noLinks true l).map (fun r => (r.1.seen vis, r.2 && vis)) := by
  unfold atxSubline
  by_cases hp : p.cmarkLike = true
  · rw [if_pos hp, if_pos hp]
    unfold atxCmark
    split
    · simp [Except.map, AtxElem.seen, AtxElem.none]
    · simp only []
      split
      · simp [Except.map, AtxElem.seen, AtxElem.none]
      · split
        · simp [Except.map, AtxElem.seen, AtxElem.none]
        · split
          · simp only [Except.map, AtxElem.seen, AtxElem.none]
            split <;> simp
          · generalize atxContent p l _ = x
            cases x with
            | error e => rfl
            | ok fl =>
              simp only [bind, Except.bind]
              cases noLinks
              · cases linkText fl with
                | error e => rfl
                | ok fl => simp only [Except.map, AtxElem.seen, if_neg Bool.false_ne_true]; split <;> simp
              · simp only [Except.map, AtxElem.seen, if_true]; split <;> simp
  · rw [if_neg hp, if_neg hp]
    unfold atxRedcarpet
    simp only [Except.map, AtxElem.seen, AtxElem.none]
    split
    · simp
    · split
      · simp
      · split <;> simp

theorem replicate_unique {a : Char} {k k' : Nat} {t t' : Str} (h : ∀ c ∈ t.head?, c ≠ a) (h' : ∀ c ∈ t'.head?, c ≠ a)
    (e : List.replicate k a ++ t = List.replicate k' a ++ t') : k = k' ∧ t = t' := by
  induction k generalizing k' with
  | zero =>
    cases k' with
    | zero => simpa using e
    | succ n =>
      simp [List.replicate_succ] at e
      subst e
      exact absurd rfl (h a (by simp))
  | succ k ih =>
    cases k' with
    | zero =>
      simp [List.replicate_succ] at e
      subst e
      exact absurd rfl (h' a (by simp))
    | succ n =>
      simp only [List.replicate_succ, List.cons_append, List.cons.injEq, true_and] at e
      obtain ⟨a, b⟩ := ih e
      exact ⟨by omega, b⟩

theorem atxCmark_hides {p : Parser} (hp : p.cmarkLike = true) {l : Str} {keep : Int} {noLinks : Bool} {e : AtxElem} {v : Bool}
    (h : atxCmark p keep noLinks true l = .ok (e, v)) : v = false ↔ Hides p keep l := by
  have hH : Hides p keep l ↔ ∃ (k n : Nat) (rest : Str), k ≤ 3 ∧ keep < n ∧ 1 ≤ n ∧ n ≤ 6 ∧ rest.head? ≠ some '#' ∧
      l = List.replicate k ' ' ++ List.replicate n '#' ++ rest := by
    cases p <;> first | exact Iff.rfl | exact absurd hp (by decide)
  rw [hH]
  obtain ⟨k, t, e1, ht⟩ := replicate_split ' ' l
  obtain ⟨n, rest, e2, hrest⟩ := replicate_split '#' t
  -- the decomposition is the only one
  have huniq : (∃ (k n : Nat) (rest : Str), k ≤ 3 ∧ keep < n ∧ 1 ≤ n ∧ n ≤ 6 ∧ rest.head? ≠ some '#' ∧
      l = List.replicate k ' ' ++ List.replicate n '#' ++ rest) ↔ k ≤ 3 ∧ keep < n ∧ 1 ≤ n ∧ n ≤ 6 := by
    constructor
    · rintro ⟨k', n', rest', h1, h2, h3, h4, h5, h6⟩
      rw [List.append_assoc, e1] at h6
      have hd : ∀ c ∈ (List.replicate n' '#' ++ rest').head?, c ≠ ' ' := by
        obtain ⟨m, rfl⟩ : ∃ m, n' = m + 1 := ⟨n' - 1, by omega⟩
        simp [List.replicate_succ]
      obtain ⟨rfl, h7⟩ := replicate_unique ht hd h6
      rw [e2] at h7
      obtain ⟨rfl, -⟩ := replicate_unique hrest (by rintro c hc rfl; exact h5 hc) h7
      exact ⟨h1, h2, h3, h4⟩
    · rintro ⟨h1, h2, h3, h4⟩
      exact ⟨k, n, rest, h1, h2, h3, h4, fun h => hrest _ h rfl, by rw [e1, e2]; simp⟩
  rw [huniq]
  have hoff : scanWhile (fun i c => c == ' ' && decide (i ≤ maxSpaceIndentation)) l 0 = min k 4 := by
    rw [e1, scanWhile_bounded _ _ _ _ _ ht]
    simp [maxSpaceIndentation]
  unfold atxCmark at h
  split at h
  · rename_i h0
    simp only [Except.ok.injEq, Prod.mk.injEq] at h
    rw [← h.2]
    simp only [Bool.true_eq_false, false_iff]
    rintro ⟨-, -, h3, -⟩
    have hlen : l.length ≠ 0 := by rw [e1, e2]; simp; omega
    rcases h0 with h0 | h0
    · exact hlen h0
    · rw [e1, e2] at h0
      obtain ⟨m, rfl⟩ : ∃ m, n = m + 1 := ⟨n - 1, by omega⟩
      cases k <;> simp [List.replicate_succ] at h0
  · simp only [hoff] at h
    split at h
    · rename_i hk
      simp only [Except.ok.injEq, Prod.mk.injEq] at h
      rw [← h.2]
      simp only [Bool.true_eq_false, false_iff]
      rintro ⟨h1, -⟩
      simp only [maxSpaceIndentation] at hk
      omega
    · rename_i hk
      have hk3 : k ≤ 3 := by simp only [maxSpaceIndentation] at hk; omega
      have hk : min k 4 = k := by omega
      have hi : scanWhile (fun i c => c == '#' && decide (i ≤ maxLevels + k)) (l.drop k) k = k + min n 7 := by
        have : l.drop k = List.replicate n '#' ++ rest := by rw [e1, e2]; simp
        rw [this, scanWhile_bounded _ _ _ _ _ hrest]
        have : maxLevels + k + 1 - k = 7 := by simp [maxLevels]; omega
        rw [this]
      simp only [hk, hi] at h
      have hsub : k + min n 7 - k = min n 7 := by omega
      rw [hsub] at h
      split at h
      · rename_i hn
        simp only [Except.ok.injEq, Prod.mk.injEq] at h
        rw [← h.2]
        simp only [Bool.true_eq_false, false_iff]
        simp only [maxLevels] at hn
        rintro ⟨-, -, h3, h4⟩
        omega
      · rename_i hn
        simp only [maxLevels] at hn
        have hn' : min n 7 = n := by omega
        rw [hn'] at h hn
        have hv : (if ((n : Nat) : Int) > keep then false else true) = v := by
          split at h
          · simp only [Except.ok.injEq, Prod.mk.injEq] at h
            exact h.2
          · cases hc : atxContent p l (scanWhile (fun _ c => p.isSpaceCh c) (l.drop (k + n + 1)) (k + n + 1)) with
            | error x => simp [hc, bind, Except.bind] at h
            | ok fl =>
              simp only [hc, bind, Except.bind] at h
              split at h
              · simp only [Except.ok.injEq, Prod.mk.injEq] at h
                exact h.2
              · cases ht : linkText fl with
                | error x => simp [ht] at h
                | ok t =>
                  simp only [ht, Except.ok.injEq, Prod.mk.injEq] at h
                  exact h.2
        rw [← hv]
        constructor
        · intro h
          refine ⟨hk3, ?_, by omega, by omega⟩
          by_contra h1
          rw [if_neg (by omega)] at h
          exact absurd h (by decide)
        · rintro ⟨-, h1, -⟩
          rw [if_pos (by omega)]

theorem atxRedcarpet_hides {l : Str} (hnl : '\n' ∉ l) (keep : Int) (noLinks : Bool) :
    (atxRedcarpet noLinks true l).2 = false ↔ Hides .redcarpet keep l := by
  constructor
  · intro h
    by_cases hex : ∃ n rest, IsRedcarpetAtx l n rest
    · obtain ⟨n, rest, h1⟩ := hex
      obtain ⟨c, hc⟩ := redcarpetContent_exists rest
      rw [atxRedcarpet_opening h1 hnl hc] at h
      split at h
      · rename_i h0
        subst h0
        obtain ⟨a, m, hs, er, hlm, hhs, hc1, -, hc3⟩ := hc
        obtain ⟨h1, h6, e, hh⟩ := h1
        have em : m = [] := by
          cases m with
          | nil => rfl
          | cons x m => exact absurd (hlm x (by simp)) (hc3 x (by simp))
        subst em
        have ea : a = List.replicate a.length ' ' := List.eq_replicate_of_mem (fun x hx => hlm x (by simp [hx]))
        have eh : hs = List.replicate hs.length '#' := List.eq_replicate_of_mem hhs
        refine ⟨n, a.length, hs.length, h1, h6, ?_, ?_⟩
        · intro h0
          have ha : a = [] := List.eq_nil_of_length_eq_zero h0
          subst ha
          cases hs with
          | nil => rfl
          | cons x r =>
            have h7 := hh x (by rw [er]; simp)
            have h8 := hhs x (by simp)
            rw [h7] at h8
            exact absurd h8 (by decide)
        · rw [← ea, ← eh, e, er]; simp
      · simp at h
    · rw [atxRedcarpet_other (fun n rest h1 => hex ⟨n, rest, h1⟩)] at h
      exact absurd h (by decide)
  · rintro ⟨n, k, m, h1, h6, hkm, e⟩
    have h2 : IsRedcarpetAtx l n (List.replicate k ' ' ++ List.replicate m '#') := by
      refine ⟨h1, h6, by rw [e]; simp, ?_⟩
      cases k with
      | zero => rw [hkm rfl]; simp
      | succ k => simp [List.replicate_succ]
    have h3 : RedcarpetContent (List.replicate k ' ' ++ List.replicate m '#') [] := by
      refine ⟨List.replicate k ' ', [], List.replicate m '#', by simp, ?_, ?_, by simp, by simp, ?_⟩
      · intro x hx
        simp only [List.append_nil] at hx
        exact List.eq_of_mem_replicate hx
      · intro x hx; exact List.eq_of_mem_replicate hx
      · intro x hx
        have : x ∈ List.replicate m '#' := List.mem_of_mem_head? (by simpa using hx)
        rw [List.eq_of_mem_replicate this]; decide
    rw [atxRedcarpet_opening h2 hnl h3, if_pos rfl]

theorem atxSubline_hides {p : Parser} {l : Str} (hl : ∀ c ∈ l, c ≠ '\n' ∧ c ≠ '\r') {keep : Int} {noLinks : Bool} {e : AtxElem}
    {v : Bool} (h : atxSubline p keep noLinks true l = .ok (e, v)) : v = false ↔ Hides p keep l := by
  by_cases hp : p.cmarkLike = true
  · rw [atxSubline_cmark hp] at h
    exact atxCmark_hides hp h
  · have : p = .redcarpet := by cases p <;> first | rfl | exact absurd rfl hp
    subst this
    have h' : (Except.ok (atxRedcarpet noLinks true l) : Except Exn _) = .ok (e, v) := h
    simp only [Except.ok.injEq] at h'
    have := atxRedcarpet_hides (l := l) (fun hc => (hl _ hc).1 rfl) keep noLinks
    rw [h'] at this
    exact this

/-! ### All lines -/

/-- An element of a text of several lines and the element of its line alone. -/
def SameBut (hidden : Prop) (e e' : AtxElem) : Prop :=
  e'.headerType = e.headerType ∧ e'.text = e.text ∧ (e'.visible = true ↔ e.visible = true ∧ ¬ hidden)

theorem atxSublines_rows {p : Parser} {keep : Int} {noLinks : Bool} : ∀ (ls : List Str), (∀ l ∈ ls, ∀ c ∈ l, c ≠ '\n' ∧ c ≠ '\r') →
    ∀ (vis : Bool) (rs : List AtxElem), atxSublines p keep noLinks vis ls = .ok rs →
    rs.length = ls.length ∧ ∀ (i : Nat) (l : Str) (r : AtxElem), ls[i]? = some l → rs[i]? = some r →
      ∃ e v, atxSubline p keep noLinks true l = .ok (e, v) ∧
        SameBut (vis = false ∨ ∃ (j : Nat) (l' : Str), j < i ∧ ls[j]? = some l' ∧ Hides p keep l') e r := by
  intro ls
  induction ls with
  | nil =>
    intro _ vis rs h
    simp only [atxSublines, Except.ok.injEq] at h
    subst h
    exact ⟨rfl, by simp⟩
  | cons l ls ih =>
    intro hl vis rs h
    simp only [atxSublines, bind, Except.bind, atxSubline_vis p keep noLinks vis l] at h
    cases h1 : atxSubline p keep noLinks true l with
    | error x => simp [h1, Except.map] at h
    | ok ev =>
      obtain ⟨e, v⟩ := ev
      simp only [h1, Except.map] at h
      cases h2 : atxSublines p keep noLinks (v && vis) ls with
      | error x => simp [h2] at h
      | ok es =>
        simp only [h2, Except.ok.injEq] at h
        subst h
        obtain ⟨h3, h4⟩ := ih (fun l h => hl l (by simp [h])) _ _ h2
        have hh := atxSubline_hides (hl l (by simp)) h1
        refine ⟨by simp [h3], ?_⟩
        intro i l' r e1 e2
        cases i with
        | zero =>
          simp only [List.getElem?_cons_zero, Option.some.injEq] at e1 e2
          subst e1 e2
          refine ⟨e, v, h1, rfl, rfl, ?_⟩
          simp [AtxElem.seen]
        | succ i =>
          simp only [List.getElem?_cons_succ] at e1 e2
          obtain ⟨e', v', h5, h6, h7, h8⟩ := h4 i l' r e1 e2
          refine ⟨e', v', h5, h6, h7, ?_⟩
          rw [h8]
          refine and_congr_right fun _ => not_congr ?_
          simp only [Bool.and_eq_false_iff]
          rw [hh]
          constructor
          · rintro ((h | h) | ⟨j, m, hj, em, hm⟩)
            · exact .inr ⟨0, l, by omega, rfl, h⟩
            · exact .inl h
            · exact .inr ⟨j + 1, m, by omega, by simpa using em, hm⟩
          · rintro (h | ⟨j, m, hj, em, hm⟩)
            · exact .inl (.inr h)
            · cases j with
              | zero =>
                simp only [List.getElem?_cons_zero, Option.some.injEq] at em
                exact .inl (.inl (em ▸ hm))
              | succ j => exact .inr ⟨j, m, by omega, by simpa using em, hm⟩

theorem atxSublines_error {p : Parser} {keep : Int} {noLinks : Bool} {x : Exn} : ∀ (ls : List Str) (vis : Bool),
    atxSublines p keep noLinks vis ls = .error x ↔ ∃ (i : Nat) (l : Str), ls[i]? = some l ∧ atxSubline p keep noLinks true l = .error x ∧
      ∀ (j : Nat) (l' : Str), j < i → ls[j]? = some l' → ∃ r, atxSubline p keep noLinks true l' = .ok r := by
  intro ls
  induction ls with
  | nil => intro vis; simp [atxSublines]
  | cons l ls ih =>
    intro vis
    simp only [atxSublines, bind, Except.bind, atxSubline_vis p keep noLinks vis l]
    cases h1 : atxSubline p keep noLinks true l with
    | error y =>
      simp only [Except.map, Except.error.injEq]
      constructor
      · rintro rfl
        exact ⟨0, l, rfl, h1, by omega⟩
      · rintro ⟨i, l', e1, e2, h⟩
        cases i with
        | zero =>
          simp only [List.getElem?_cons_zero, Option.some.injEq] at e1
          subst e1
          rw [h1] at e2
          simpa using e2
        | succ i =>
          obtain ⟨r, hr⟩ := h 0 l (by omega) rfl
          rw [h1] at hr
          simp at hr
    | ok ev =>
      simp only [Except.map]
      refine Iff.trans (b := atxSublines p keep noLinks (ev.2 && vis) ls = .error x) ?_ ((ih _).trans ?_)
      · cases atxSublines p keep noLinks (ev.2 && vis) ls <;> simp
      constructor
      · rintro ⟨i, l', e1, e2, h⟩
        refine ⟨i + 1, l', by simpa using e1, e2, ?_⟩
        intro j m hj em
        cases j with
        | zero =>
          simp only [List.getElem?_cons_zero, Option.some.injEq] at em
          subst em
          exact ⟨ev, h1⟩
        | succ j => exact h j m (by omega) (by simpa using em)
      · rintro ⟨i, l', e1, e2, h⟩
        cases i with
        | zero =>
          simp only [List.getElem?_cons_zero, Option.some.injEq] at e1
          subst e1
          rw [h1] at e2
          simp at e2
        | succ i =>
          exact ⟨i, l', by simpa using e1, e2, fun j m hj em => h (j + 1) m (by omega) (by simpa using em)⟩

theorem hasRows_plain {text : Str} {ls : List Str} (h : HasRows text ls) : ∀ l ∈ ls, ∀ c ∈ l, c ≠ '\n' ∧ c ≠ '\r' := by
  obtain ⟨_, _, _, _, _, hr, _, _⟩ := h
  exact rows_plain hr

theorem getAtxHeading_rows {text : Str} {ls : List Str} (h : HasRows text ls) {keep : Int} (hk : keep ≥ 1) (p : Parser) (noLinks : Bool) :
    getAtxHeading text keep p noLinks = atxSublines p keep noLinks true ls := by
  have hs := hasRows_split h
  have hne : text.length ≠ 0 := by
    obtain ⟨a, t, b, rfl, -, hr, h1, -⟩ := h
    obtain ⟨x, r, rfl, -⟩ := rows_head hr h1
    simp
  unfold getAtxHeading
  rw [if_neg (by simpa using hk), if_neg hne, hs]

namespace Props

/-- **C101**, partial: the headings of a text of several lines are those of its lines, each alone: the same levels and texts, in the order
of the lines, and a heading is visible if it is visible alone and no line before it hides it. Missing: that no line hides the headings
after it (false: `C101_violation`). -/
theorem C101_lines_partial {text : Str} {ls : List Str} (h : HasRows text ls) {keep : Int} (hk : keep ≥ 1) {p : Parser} {noLinks : Bool}
    {rs : List AtxElem} (hr : getAtxHeading text keep p noLinks = .ok rs) :
    rs.length = ls.length ∧ ∀ (i : Nat) (l : Str) (r : AtxElem), ls[i]? = some l → rs[i]? = some r →
      ∃ e, getAtxHeading l keep p noLinks = .ok [e] ∧ r.headerType = e.headerType ∧ r.text = e.text ∧
        (r.visible = true ↔ e.visible = true ∧ ¬ ∃ (j : Nat) (l' : Str), j < i ∧ ls[j]? = some l' ∧ Hides p keep l') := by
  rw [getAtxHeading_rows h hk] at hr
  obtain ⟨h1, h2⟩ := atxSublines_rows ls (hasRows_plain h) true rs hr
  refine ⟨h1, fun i l r e1 e2 => ?_⟩
  obtain ⟨e, v, h3, h4, h5, h6⟩ := h2 i l r e1 e2
  refine ⟨e, ?_, h4, h5, by simpa using h6⟩
  rw [getAtxHeading_line (hasRows_plain h l (List.mem_of_getElem? e1)) hk, h3]
  rfl

/-- **C101**: the call fails exactly if it fails for one of the lines, with the exception of the first such line. -/
theorem C101_exception {text : Str} {ls : List Str} (h : HasRows text ls) {keep : Int} (hk : keep ≥ 1) {p : Parser} {noLinks : Bool}
    {x : Exn} : getAtxHeading text keep p noLinks = .error x ↔ ∃ (i : Nat) (l : Str), ls[i]? = some l ∧ getAtxHeading l keep p noLinks = .error x ∧
      ∀ (j : Nat) (l' : Str), j < i → ls[j]? = some l' → ∃ r, getAtxHeading l' keep p noLinks = .ok r := by
  have e1 : ∀ {l}, l ∈ ls → (getAtxHeading l keep p noLinks = .error x ↔ atxSubline p keep noLinks true l = .error x) := by
    intro l hl
    rw [getAtxHeading_line (hasRows_plain h l hl) hk]
    cases atxSubline p keep noLinks true l <;> simp [Except.map]
  have e2 : ∀ {l}, l ∈ ls → ((∃ r, getAtxHeading l keep p noLinks = .ok r) ↔ ∃ r, atxSubline p keep noLinks true l = .ok r) := by
    intro l hl
    rw [getAtxHeading_line (hasRows_plain h l hl) hk]
    cases atxSubline p keep noLinks true l <;> simp [Except.map]
  rw [getAtxHeading_rows h hk, atxSublines_error]
  constructor
  · rintro ⟨i, l, a, b, c⟩
    exact ⟨i, l, a, (e1 (List.mem_of_getElem? a)).mpr b, fun j m hj em => (e2 (List.mem_of_getElem? em)).mpr (c j m hj em)⟩
  · rintro ⟨i, l, a, b, c⟩
    exact ⟨i, l, a, (e1 (List.mem_of_getElem? a)).mp b, fun j m hj em => (e2 (List.mem_of_getElem? em)).mp (c j m hj em)⟩

end Props

/-! ### Headers -/

/-- The lines are given one after the other to `call`, which gives one header each and changes the counter. -/
inductive InTurn {D H : Type} (call : Str → D → Except Exn (List H × D)) : D → List Str → List H → D → Prop
  | nil (d : D) : InTurn call d [] [] d
  | cons {d d1 d2 : D} {l : Str} {ls : List Str} {h : H} {hs : List H} :
      call l d = .ok ([h], d1) → InTurn call d1 ls hs d2 → InTurn call d (l :: ls) (h :: hs) d2

theorem headersOf_rows {E : Env} {p : Parser} {keep : Int} {noLinks : Bool} : ∀ (ls : List Str) (rs : List AtxElem) (d d' : Dup)
    (out : List (Option Header)), rs.length = ls.length →
    (∀ (i : Nat) (l : Str) (r : AtxElem), ls[i]? = some l → rs[i]? = some r →
      ∃ e, getAtxHeading l keep p noLinks = .ok [e] ∧ r.headerType = e.headerType ∧ r.text = e.text) →
    headersOf E p rs d = .ok (out, d') →
    ∃ hs, InTurn (fun l d => getMdHeader E l d keep p noLinks) d ls hs d' ∧ out.length = ls.length ∧ hs.length = ls.length ∧
      ∀ (i : Nat) (l : Str) (r e : AtxElem) (o h : Option Header), ls[i]? = some l → rs[i]? = some r → out[i]? = some o → hs[i]? = some h →
        getAtxHeading l keep p noLinks = .ok [e] →
        (o = none ∧ h = none) ∨ ∃ x y, o = some x ∧ h = some y ∧ x.headerType = y.headerType ∧ x.textOriginal = y.textOriginal ∧
          x.anchor = y.anchor ∧ x.visible = r.visible ∧ y.visible = e.visible := by
  intro ls
  induction ls with
  | nil =>
    intro rs d d' out hl _ h
    have : rs = [] := List.eq_nil_of_length_eq_zero hl
    subst this
    simp only [headersOf, Except.ok.injEq, Prod.mk.injEq] at h
    obtain ⟨rfl, rfl⟩ := h
    exact ⟨[], .nil _, rfl, rfl, by simp⟩
  | cons l ls ih =>
    intro rs d d' out hl hall h
    cases rs with
    | nil => simp at hl
    | cons r rs =>
      obtain ⟨e, he, ht, hx⟩ := hall 0 l r rfl rfl
      have hall' := fun (i : Nat) (l' : Str) (r' : AtxElem) (h1 : ls[i]? = some l') (h2 : rs[i]? = some r') =>
        hall (i + 1) l' r' (by simpa using h1) (by simpa using h2)
      have hl' : rs.length = ls.length := by simpa using hl
      -- the header of the first line
      have key : ∃ (o h0 : Option Header) (d1 : Dup) (out' : List (Option Header)), out = o :: out' ∧
          headersOf E p rs d1 = .ok (out', d') ∧ getMdHeader E l d keep p noLinks = .ok ([h0], d1) ∧
          ((o = none ∧ h0 = none) ∨ ∃ x y, o = some x ∧ h0 = some y ∧ x.headerType = y.headerType ∧
            x.textOriginal = y.textOriginal ∧ x.anchor = y.anchor ∧ x.visible = r.visible ∧ y.visible = e.visible) := by
        unfold headersOf at h
        have hm : getMdHeader E l d keep p noLinks = headersOf E p [e] d := by
          simp only [getMdHeader, he, bind, Except.bind]
        cases h1 : r.headerType with
        | none =>
          simp only [h1] at h
          cases h3 : headersOf E p rs d with
          | error x => simp [h3, bind, Except.bind] at h
          | ok q =>
            simp only [h3, bind, Except.bind, Except.ok.injEq, Prod.mk.injEq] at h
            refine ⟨none, none, d, q.1, h.1.symm, ?_, by rw [hm]; simp [headersOf, ← ht, ← hx, h1, bind, Except.bind], .inl ⟨rfl, rfl⟩⟩
            rw [h3, ← h.2]
        | some ty =>
          cases h2 : r.text with
          | none =>
            simp only [h1, h2] at h
            cases h3 : headersOf E p rs d with
            | error x => simp [h3, bind, Except.bind] at h
            | ok q =>
              simp only [h3, bind, Except.bind, Except.ok.injEq, Prod.mk.injEq] at h
              refine ⟨none, none, d, q.1, h.1.symm, ?_, by rw [hm]; simp [headersOf, ← ht, ← hx, h1, h2, bind, Except.bind], .inl ⟨rfl, rfl⟩⟩
              rw [h3, ← h.2]
          | some txt =>
            simp only [h1, h2] at h
            cases h4 : buildAnchorLink E txt d p with
            | error x => simp [h4, bind, Except.bind] at h
            | ok a =>
              simp only [h4, bind, Except.bind] at h
              cases h3 : headersOf E p rs a.2 with
              | error x => simp [h3] at h
              | ok q =>
                simp only [h3, Except.ok.injEq, Prod.mk.injEq] at h
                refine ⟨some ⟨ty, txt, a.1, r.visible⟩, some ⟨ty, txt, a.1, e.visible⟩, a.2, q.1, h.1.symm, ?_,
                  by rw [hm]; simp [headersOf, ← ht, ← hx, h1, h2, bind, Except.bind, h4], .inr ⟨_, _, rfl, rfl, rfl, rfl, rfl, rfl, rfl⟩⟩
                rw [h3, ← h.2]
      obtain ⟨o, h0, d1, out', rfl, h1, h2, h3⟩ := key
      obtain ⟨hs, h4, h5, h6, h7⟩ := ih rs d1 d' out' hl' hall' h1
      refine ⟨h0 :: hs, .cons h2 h4, by simp [h5], by simp [h6], ?_⟩
      intro i l' r' e' o' h' e1 e2 e3 e4 e5
      cases i with
      | zero =>
        simp only [List.getElem?_cons_zero, Option.some.injEq] at e1 e2 e3 e4
        subst e1 e2 e3 e4
        rw [he] at e5
        simp only [Except.ok.injEq, List.cons.injEq, and_true] at e5
        subst e5
        exact h3
      | succ i =>
        simp only [List.getElem?_cons_succ] at e1 e2 e3 e4
        exact h7 i l' r' e' o' h' e1 e2 e3 e4 e5

theorem rows_exists : ∀ (n : Nat) (t : Str), t.length ≤ n → ∃ ls, Rows t ls ∧
    (∀ x ∈ t.head?, x ≠ '\n' → x ≠ '\r' → ∀ l ∈ ls.head?, l ≠ []) ∧
    (∀ x ∈ t.getLast?, x ≠ '\n' → x ≠ '\r' → ∀ l ∈ ls.getLast?, l ≠ []) := by
  intro n
  induction n with
  | zero =>
    intro t ht
    have : t = [] := List.eq_nil_of_length_eq_zero (by omega)
    subst this
    exact ⟨[[]], .one (by simp), by simp, by simp⟩
  | succ n ih =>
    intro t ht
    obtain ⟨l, r, e, h1, h2⟩ := span_split (fun c => !(c == '\n' || c == '\r')) t
    have hl : ∀ c ∈ l, c ≠ '\n' ∧ c ≠ '\r' := by
      intro c hc
      have := h1 c hc
      simpa using this
    -- a line before others
    have hhead : ∀ {r : Str} {ls : List Str}, (∀ x ∈ r.head?, x = '\n' ∨ x = '\r') →
        ∀ x ∈ (l ++ r).head?, x ≠ '\n' → x ≠ '\r' → ∀ m ∈ (l :: ls).head?, m ≠ [] := by
      intro r ls hr x hx n1 n2 m hm
      simp only [List.head?_cons, Option.mem_def, Option.some.injEq] at hm
      subst hm
      rintro rfl
      rcases hr x (by simpa using hx) with h | h
      · exact n1 h
      · exact n2 h
    have hlast : ∀ {q t' : Str} {ls : List Str}, ls ≠ [] → (∀ y ∈ q.getLast?, y = '\n' ∨ y = '\r') → q ≠ [] →
        (∀ x ∈ t'.getLast?, x ≠ '\n' → x ≠ '\r' → ∀ l ∈ ls.getLast?, l ≠ []) →
        ∀ x ∈ (l ++ q ++ t').getLast?, x ≠ '\n' → x ≠ '\r' → ∀ m ∈ (l :: ls).getLast?, m ≠ [] := by
      intro q t' ls hne hq hq0 hall x hx n1 n2 m hm
      have e1 : (l :: ls).getLast? = ls.getLast? := by
        cases ls with
        | nil => exact absurd rfl hne
        | cons a b => simp [List.getLast?_cons_cons]
      rw [e1] at hm
      by_cases ht' : t' = []
      · subst ht'
        rw [List.append_nil, getLast?_append_ne hq0] at hx
        rcases hq x hx with h | h
        · exact absurd h n1
        · exact absurd h n2
      · rw [getLast?_append_ne ht'] at hx
        exact hall x hx n1 n2 m hm
    cases r with
    | nil =>
      rw [List.append_nil] at e
      subst e
      refine ⟨[t], .one hl, ?_, ?_⟩
      · intro x hx _ _ m hm
        simp only [List.head?_cons, Option.mem_def, Option.some.injEq] at hm
        subst hm
        rintro rfl
        simp at hx
      · intro x hx _ _ m hm
        simp only [List.getLast?_singleton, Option.mem_def, Option.some.injEq] at hm
        subst hm
        rintro rfl
        simp at hx
    | cons c r =>
      have hc : c = '\n' ∨ c = '\r' := by
        have := h2 c (by simp)
        simp only [Bool.not_eq_false', Bool.or_eq_true, beq_iff_eq] at this
        exact this
      have hlen : r.length ≤ n := by
        rw [e] at ht
        simp only [List.length_append, List.length_cons] at ht
        omega
      subst e
      by_cases hc1 : c = '\n'
      · subst hc1
        obtain ⟨ls, h3, h4, h5⟩ := ih r hlen
        refine ⟨l :: ls, .lf hl h3, hhead (by simp), ?_⟩
        have := hlast (q := ['\n']) (t' := r) (rows_ne h3) (by simp) (by simp) h5
        simpa using this
      · have hc2 : c = '\r' := hc.resolve_left hc1
        subst hc2
        by_cases hr : r.head? = some '\n'
        · cases r with
          | nil => simp at hr
          | cons d r =>
            simp only [List.head?_cons, Option.some.injEq] at hr
            subst hr
            obtain ⟨ls, h3, h4, h5⟩ := ih r (by simp only [List.length_cons] at hlen; omega)
            refine ⟨l :: ls, .crlf hl h3, hhead (by simp), ?_⟩
            have := hlast (q := ['\r', '\n']) (t' := r) (rows_ne h3) (by simp) (by simp) h5
            simpa using this
        · obtain ⟨ls, h3, h4, h5⟩ := ih r hlen
          refine ⟨l :: ls, .cr hl hr h3, hhead (by simp), ?_⟩
          have := hlast (q := ['\r']) (t' := r) (rows_ne h3) (by simp) (by simp) h5
          simpa using this

namespace Props

/-- **C101**: every text that is not only line ends has lines. -/
theorem C101_has_lines {text : Str} (h : ∃ c ∈ text, c ≠ '\n' ∧ c ≠ '\r') : ∃ ls, HasRows text ls := by
  obtain ⟨a, t, e, h1, h2⟩ := span_split (fun c => c == '\n' || c == '\r') text
  obtain ⟨b, u, e', h3, h4⟩ := span_split (fun c => c == '\n' || c == '\r') t.reverse
  have et : t = u.reverse ++ b.reverse := by
    have := congrArg List.reverse e'
    simpa using this
  have hu : u.reverse ≠ [] := by
    intro h0
    rw [h0, List.nil_append] at et
    obtain ⟨c, hc, n1, n2⟩ := h
    rw [e, et] at hc
    rcases List.mem_append.mp hc with hc | hc
    · have := h1 c hc; simp [n1, n2] at this
    · have := h3 c (by simpa using hc); simp [n1, n2] at this
  obtain ⟨ls, h5, h6, h7⟩ := rows_exists _ u.reverse (Nat.le_refl _)
  refine ⟨ls, a, u.reverse, b.reverse, by rw [e, et]; simp, ?_, h5, ?_, ?_⟩
  · intro c hc
    rcases List.mem_append.mp hc with hc | hc
    · simpa using h1 c hc
    · simpa using h3 c (by simpa using hc)
  · cases hx : u.reverse.head? with
    | none => exact absurd (List.head?_eq_none_iff.mp hx) hu
    | some x =>
      have hxt : x ∈ t.head? := by
        rw [et, List.head?_append, hx]; rfl
      have := h2 x hxt
      simp only [Bool.or_eq_false_iff, beq_eq_false_iff_ne] at this
      exact h6 x hx this.1 this.2
  · cases hx : u.reverse.getLast? with
    | none => exact absurd (List.getLast?_eq_none_iff.mp hx) hu
    | some x =>
      have := h4 x (by rw [List.getLast?_reverse] at hx; exact hx)
      simp only [Bool.or_eq_false_iff, beq_eq_false_iff_ne] at this
      exact h7 x hx this.1 this.2

/-- **C101**: and only one list of lines. -/
theorem C101_lines_unique {text : Str} {ls ls' : List Str} (h : HasRows text ls) (h' : HasRows text ls') : ls = ls' := by
  rw [← hasRows_split h, hasRows_split h']

/-- **C101**, partial, for the headers: they are those of calls for the lines one after the other with the same counter, except that a
header is invisible after a line that hides it. -/
theorem C101_headers_partial {E : Env} {text : Str} {ls : List Str} (h : HasRows text ls) {keep : Int} (hk : keep ≥ 1) {p : Parser}
    {noLinks : Bool} {d d' : Dup} {out : List (Option Header)} (hr : getMdHeader E text d keep p noLinks = .ok (out, d')) :
    ∃ hs, InTurn (fun l d => getMdHeader E l d keep p noLinks) d ls hs d' ∧ out.length = ls.length ∧ hs.length = ls.length ∧
      ∀ (i : Nat) (o h : Option Header), out[i]? = some o → hs[i]? = some h →
        (o = none ∧ h = none) ∨ ∃ x y, o = some x ∧ h = some y ∧ x.headerType = y.headerType ∧ x.textOriginal = y.textOriginal ∧
          x.anchor = y.anchor ∧
          (x.visible = true ↔ y.visible = true ∧ ¬ ∃ (j : Nat) (l' : Str), j < i ∧ ls[j]? = some l' ∧ Hides p keep l') := by
  unfold getMdHeader at hr
  cases h1 : getAtxHeading text keep p noLinks with
  | error x => simp [h1, bind, Except.bind] at hr
  | ok rs =>
    simp only [h1, bind, Except.bind] at hr
    obtain ⟨h2, h3⟩ := C101_lines_partial h hk h1
    obtain ⟨hs, h4, h5, h6, h7⟩ := headersOf_rows (keep := keep) (noLinks := noLinks) ls rs d d' out h2 (fun i l r e1 e2 => by
      obtain ⟨e, a, b, c, -⟩ := h3 i l r e1 e2
      exact ⟨e, a, b, c⟩) hr
    refine ⟨hs, h4, h5, h6, ?_⟩
    intro i o h' e3 e4
    have hi : i < ls.length := by
      rw [← h5]
      exact (List.getElem?_eq_some_iff.mp e3).1
    have e1 : ls[i]? = some ls[i] := List.getElem?_eq_getElem hi
    have e2 : rs[i]? = some rs[i] := List.getElem?_eq_getElem (by omega)
    obtain ⟨e, a, -, -, hv⟩ := h3 i _ _ e1 e2
    rcases h7 i _ _ e o h' e1 e2 e3 e4 a with h8 | ⟨x, y, rfl, rfl, b1, b2, b3, b4, b5⟩
    · exact .inl h8
    · exact .inr ⟨x, y, rfl, rfl, b1, b2, b3, by rw [b4, b5]; exact hv⟩

/-- **C101**: a heading of a level that is not kept, a line that is no heading at all and, for redcarpet, a heading without text make the
heading of the next line invisible, which is visible in a call of its own. -/
theorem C101_violation :
    getAtxHeading "#### a\n# b".toList 3 .github false =
      .ok [⟨some 4, some "a".toList, false⟩, ⟨some 1, some "b".toList, false⟩] ∧
    getAtxHeading "####a\n# b".toList 3 .github false = .ok [⟨none, none, false⟩, ⟨some 1, some "b".toList, false⟩] ∧
    getAtxHeading "##\n# b".toList 3 .redcarpet false = .ok [⟨none, none, false⟩, ⟨some 1, some "b".toList, false⟩] ∧
    getAtxHeading "# b".toList 3 .github false = .ok [⟨some 1, some "b".toList, true⟩] ∧
    getAtxHeading "# b".toList 3 .redcarpet false = .ok [⟨some 1, some "b".toList, true⟩] := by decide +kernel

/-- The hypothesis of the theorems: three lines with three kinds of line ends, one of them empty, and the lines are not all the same. -/
example : HasRows "\n# a\r\n\r#### b\n# c\r\n".toList ["# a".toList, [], "#### b".toList, "# c".toList] :=
  ⟨"\n".toList, "# a\r\n\r#### b\n# c".toList, "\r\n".toList, by decide +kernel, by decide +kernel,
    .crlf (l := "# a".toList) (by decide +kernel) (.cr (l := []) (by decide) (by decide +kernel)
      (.lf (l := "#### b".toList) (by decide +kernel) (.one (by decide +kernel)))), by simp, by simp⟩

example : Hides .github 3 "#### b".toList := ⟨0, 4, " b".toList, by decide, by decide, by decide, by decide, by decide, by decide +kernel⟩
example : Hides .cmark 1 "  ##b".toList := ⟨2, 2, "b".toList, by decide, by decide, by decide, by decide, by decide, by decide +kernel⟩
example : Hides .redcarpet 3 "## ##".toList := ⟨2, 1, 2, by decide, by decide, by decide, by decide +kernel⟩

example : (getMdHeader asciiEnv "# a\n\n#### b\n# a".toList (fun _ => 0) 3 .github false).map (·.1) =
    .ok [some ⟨1, "a".toList, "a".toList, true⟩, none, some ⟨4, "b".toList, "b".toList, false⟩,
      some ⟨1, "a".toList, "a-1".toList, false⟩] := by decide +kernel

end Props

end MdToc
