import Verif.Props.Layout
import Verif.Props.Numbers
import Verif.Props.Locality
import Verif.Props.TocMore

/-!
# C96: the first problem decides the exception
-/

set_option linter.unusedSimpArgs false

namespace MdToc

namespace Spec

/-- The text of a heading in the table. -/
def shownText (o : Options) (c : Str) : Str := if o.parser = .redcarpet then c else if o.noLinks then c else label c

end Spec

namespace Props

open MdToc.Spec

instance (c : Str) : Decidable (EmptyLabel c) := inferInstanceAs (Decidable (_ = _))

/-- What is wrong with a heading of level `n` and the text `c`, if headings of the levels `L` are listed before it.  In this order: the label, the slug, the number, the list, the list marker. -/
def problem (E : Env) (o : Options) (L : List Nat) (n : Nat) (c : Str) : Option Exn :=
  if o.parser ≠ .redcarpet ∧ o.noLinks = false ∧ EmptyLabel c then some .GithubEmptyLinkLabel
  else if o.parser ≠ .redcarpet ∧ o.noLinks = false ∧ (padded c).length > 999 then some .GithubOverflowCharsLinkLabel
  else match buildAnchorLink E (shownText o c) (fun _ => 0) o.parser with
    | .error e => some e
    | .ok _ =>
      if listed o.parser o.keep n = false then none
      else if o.ordered = true ∧ o.constantOrdered = false ∧ o.parser ≠ .redcarpet ∧ o.parser ≠ .goldmark ∧ numberAfter L n > 999999999 then some .GithubOverflowOrderedListMarker
      else if o.noIndentation = false ∧ o.noListCoherence = false ∧ ((∃ f ∈ L.head?, n < f) ∨ ∃ q ∈ L.getLast?, q + 1 < n) then some .TocDoesNotRenderAsCoherentList
      else if isOrdered o = false ∧ o.listMarker ∉ bullets then some .ValueError
      else none

/-- The first problem of the headings, if those of the levels `L` are listed before. -/
def firstProblem (E : Env) (o : Options) : List Nat → List (Nat × Str) → Option Exn
  | _, [] => none
  | L, (n, c) :: heads =>
    match problem E o L n c with
    | some e => some e
    | none => firstProblem E o (if listed o.parser o.keep n then L ++ [n] else L) heads

/-- The levels of the headings that are listed. -/
abbrev levelsOf (o : Options) (heads : List (Nat × Str)) : List Nat := (heads.map Prod.fst).filter (listed o.parser o.keep)

/-- The state after entries of the levels `L`. -/
structure AtLevels (o : Options) (L : List Nat) (st : TocState) : Prop where
  bounds : ∀ n ∈ L, 1 ≤ n ∧ n ≤ 6
  prev : st.prev = L.getLast?.getD 0
  first : o.noIndentation = false → o.noListCoherence = false → st.first = L.head?.getD 0
  counter : o.counts = true → ∀ n, (st.counter n).getD 0 = lastNumber n L.reverse

theorem counts_iff (o : Options) : o.counts = true ↔ o.ordered = true ∧ o.constantOrdered = false := by
  unfold Options.counts Options.effOrdered
  cases o.ordered <;> cases o.constantOrdered <;> simp

theorem limited_iff (p : Parser) : p.limited = true ↔ p ≠ .redcarpet ∧ p ≠ .goldmark := by
  cases p <;> simp [Parser.limited]

theorem incoherent_levels {o : Options} {L : List Nat} {st : TocState} (h : AtLevels o L st) (hni : o.noIndentation = false) (n : Nat) :
    incoherent o st n = true ↔ o.noListCoherence = false ∧ ((∃ f ∈ L.head?, n < f) ∨ ∃ q ∈ L.getLast?, q + 1 < n) := by
  unfold incoherent
  cases hnc : o.noListCoherence with
  | true => simp
  | false =>
    have hf := h.first hni hnc
    have hp := h.prev
    unfold firstFor prevFor
    rw [hnc]
    cases L with
    | nil => simp_all
    | cons a t =>
      have ha : 1 ≤ a := (h.bounds a (by simp)).1
      have hl : ∃ q, (a :: t).getLast? = some q ∧ 1 ≤ q := by
        cases hq : (a :: t).getLast? with
        | none => simp at hq
        | some q => exact ⟨q, rfl, (h.bounds q (List.mem_of_getLast? hq)).1⟩
      obtain ⟨q, hq, hq1⟩ := hl
      rw [hq] at hp ⊢
      simp only [List.head?_cons, Option.getD_some] at hf hp
      have n1 : a ≠ 0 := by omega
      have n2 : q ≠ 0 := by omega
      simp [hf, hp, n1, n2]

theorem counter_levels {o : Options} {L : List Nat} {st : TocState} (h : AtLevels o L st) {n : Nat} (h1 : 1 ≤ n) :
    if o.ordered = true ∧ o.constantOrdered = false ∧ o.parser ≠ .redcarpet ∧ o.parser ≠ .goldmark ∧ numberAfter L n > 999999999 then nextCounter o st n = .error .GithubOverflowOrderedListMarker
    else ∃ a, nextCounter o st n = .ok a ∧ (o.counts = true → ∀ m, (a m).getD 0 = lastNumber m (L ++ [n]).reverse) := by
  unfold nextCounter
  by_cases hc : o.counts = true
  · obtain ⟨hc1, hc2⟩ := (counts_iff o).mp hc
    rw [if_pos hc]
    have hb := base_number (fun n hn => (h.bounds n hn).1) h.prev (h.counter hc) n
    unfold increaseIndex
    rw [if_neg (not_not.mpr h1)]
    dsimp only
    rw [hb]
    by_cases hl : o.parser.limited = true ∧ numberAfter L n > maxMarkerNumber
    · rw [if_pos hl]
      obtain ⟨h2, h3⟩ := (limited_iff _).mp hl.1
      rw [if_pos ⟨hc1, hc2, h2, h3, hl.2⟩]
    · rw [if_neg hl, if_neg (by
        rintro ⟨-, -, h2, h3, h4⟩
        exact hl ⟨(limited_iff _).mpr ⟨h2, h3⟩, h4⟩)]
      refine ⟨_, rfl, fun _ m => ?_⟩
      rw [lastNumber_snoc]
      by_cases hm : n = m
      · subst hm
        simp
      · rw [if_neg hm, if_neg (fun e => hm e.symm)]
        exact h.counter hc m
  · rw [if_neg hc, if_neg (by
      rintro ⟨h2, h3, -⟩
      exact hc ((counts_iff o).mpr ⟨h2, h3⟩))]
    exact ⟨_, rfl, fun h => absurd h hc⟩

theorem addHeader_outcome {o : Options} {L : List Nat} {st : TocState} (h : AtLevels o L st) {x : Header} (h1 : 1 ≤ x.headerType) (h6 : x.headerType ≤ 6) :
    if o.ordered = true ∧ o.constantOrdered = false ∧ o.parser ≠ .redcarpet ∧ o.parser ≠ .goldmark ∧ numberAfter L x.headerType > 999999999 then addHeader o st x = .error .GithubOverflowOrderedListMarker
    else if o.noIndentation = false ∧ o.noListCoherence = false ∧ ((∃ f ∈ L.head?, x.headerType < f) ∨ ∃ q ∈ L.getLast?, q + 1 < x.headerType) then
      addHeader o st x = .error .TocDoesNotRenderAsCoherentList
    else if isOrdered o = false ∧ o.listMarker ∉ bullets then addHeader o st x = .error .ValueError
    else ∃ st', addHeader o st x = .ok st' ∧ AtLevels o (L ++ [x.headerType]) st' ∧ ∃ line, line ≠ [] ∧ st'.toc = st.toc ++ [line] := by
  have hc := counter_levels h h1
  split
  · rename_i hn
    rw [if_pos hn] at hc
    rw [addHeader_eq, hc]
    rfl
  · rename_i hn
    rw [if_neg hn] at hc
    obtain ⟨a, ha, hcnt⟩ := hc
    have hprev : st.prev ≤ 6 := by
      rw [h.prev]
      cases hq : L.getLast? with
      | none => simp
      | some q => exact (h.bounds q (List.mem_of_getLast? hq)).2
    have hinc : (o.noIndentation = false ∧ o.noListCoherence = false ∧ ((∃ f ∈ L.head?, x.headerType < f) ∨ ∃ q ∈ L.getLast?, q + 1 < x.headerType)) ↔
        o.noIndentation = false ∧ incoherent o st x.headerType = true := by
      constructor
      · rintro ⟨g1, g2⟩
        exact ⟨g1, (incoherent_levels h g1 _).mpr g2⟩
      · rintro ⟨g1, g2⟩
        exact ⟨g1, (incoherent_levels h g1 _).mp g2⟩
    have hmark : (isOrdered o = false ∧ o.listMarker ∉ bullets) ↔ markerOk o.parser o.effOrdered o.effMarker = false := by
      rw [markerOk_eq]
      simp
    split
    · rename_i hi
      obtain ⟨g1, g2⟩ := hinc.mp hi
      rw [addHeader_eq, ha]
      simp [bind, Except.bind, g1, g2]
    · rename_i hi
      split
      · rename_i hm
        cases hr : addHeader o st x with
        | ok st' =>
          have := (addHeader_ok hr).2.2.2.1
          rw [hmark.mp hm] at this
          cases this
        | error e =>
          rcases addHeader_err hr h1 h6 hprev with ⟨-, g⟩ | ⟨-, g1, g2⟩ | ⟨g, -⟩
          · rw [ha] at g; cases g
          · exact absurd (hinc.mpr ⟨g1, g2⟩) hi
          · rw [g]
      · rename_i hm
        cases hr : addHeader o st x with
        | error e =>
          exfalso
          rcases addHeader_err hr h1 h6 hprev with ⟨-, g⟩ | ⟨-, g1, g2⟩ | ⟨-, g⟩
          · rw [ha] at g; cases g
          · exact hi (hinc.mpr ⟨g1, g2⟩)
          · exact hm (hmark.mpr g)
        | ok st' =>
          obtain ⟨a1, a2, -, -, -, a6, -, a8⟩ := addHeader_ok hr
          refine ⟨st', rfl, ?_, _, ?_, a1⟩
          swap
          · simp [Options.line, Entry.line]
          rw [ha] at a6
          injection a6 with a6
          refine ⟨?_, by simp [a2], ?_, ?_⟩
          · intro n hn
            rcases List.mem_append.mp hn with hn | hn
            · exact h.bounds n hn
            · simp at hn; subst hn; exact ⟨h1, h6⟩
          · intro g1 g2
            rw [(a8 g1).2.1]
            unfold firstFor
            rw [g2, h.first g1 g2]
            cases L with
            | nil => simp
            | cons b t =>
              have := (h.bounds b (by simp)).1
              have : b ≠ 0 := by omega
              simp [this]
          · intro g
            rw [← a6]
            exact hcnt g

theorem headersOf_single (E : Env) (p : Parser) (n : Nat) (t : Str) (v : Bool) (dup : Dup) :
    headersOf E p [⟨some n, some t, v⟩] dup = (buildAnchorLink E t dup p).map (fun r => ([some ⟨n, t, r.1, v⟩], r.2)) := by
  simp only [headersOf, bind, Except.bind, Except.map]

theorem anchor_dup (E : Env) (p : Parser) (t : Str) (d : Dup) :
    match buildAnchorLink E t (fun _ => 0) p with
    | .error e => buildAnchorLink E t d p = .error e
    | .ok _ => ∃ r, buildAnchorLink E t d p = .ok r := by
  by_cases hp : p.cmarkLike = true
  · rw [buildAnchorLink_cmark hp t d]
    cases buildAnchorLink E t (fun _ => 0) p with
    | error e => rfl
    | ok r => exact ⟨_, rfl⟩
  · unfold buildAnchorLink
    simp only [hp]
    split
    · rename_i hx; split at hx <;> simp_all
    · rename_i hx
      split at hx
      · cases hx
      · rename_i hn
        exact ⟨_, if_neg hn⟩

theorem headStep_outcome {E : Env} {o : Options} {L : List Nat} {st : TocState} (h : AtLevels o L st) {n : Nat} {c : Str} (h1 : 1 ≤ n) (h6 : n ≤ 6) :
    match problem E o L n c with
    | some e => headStep E o st (n, c) = .error e
    | none => ∃ st', headStep E o st (n, c) = .ok st' ∧ AtLevels o (if listed o.parser o.keep n then L ++ [n] else L) st' ∧
        if listed o.parser o.keep n then ∃ line, line ≠ [] ∧ st'.toc = st.toc ++ [line] else st'.toc = st.toc := by
  have tail : ∀ (t : Str), 
      match (match buildAnchorLink E t (fun _ => 0) o.parser with
        | .error e => some e
        | .ok _ =>
          if listed o.parser o.keep n = false then none
          else if o.ordered = true ∧ o.constantOrdered = false ∧ o.parser ≠ .redcarpet ∧ o.parser ≠ .goldmark ∧ numberAfter L n > 999999999 then some Exn.GithubOverflowOrderedListMarker
          else if o.noIndentation = false ∧ o.noListCoherence = false ∧ ((∃ f ∈ L.head?, n < f) ∨ ∃ q ∈ L.getLast?, q + 1 < n) then some .TocDoesNotRenderAsCoherentList
          else if isOrdered o = false ∧ o.listMarker ∉ bullets then some .ValueError
          else none) with
      | some e => (do
          let (hs, dup) ← headersOf E o.parser [⟨some n, some t, listed o.parser o.keep n⟩] st.dup
          let st := { st with dup := dup }
          match hs with
          | some h :: _ => if h.visible then addHeader o st h else .ok st
          | _ => .ok st) = Except.error e
      | none => ∃ st', (do
          let (hs, dup) ← headersOf E o.parser [⟨some n, some t, listed o.parser o.keep n⟩] st.dup
          let st := { st with dup := dup }
          match hs with
          | some h :: _ => if h.visible then addHeader o st h else .ok st
          | _ => .ok st) = Except.ok st' ∧ AtLevels o (if listed o.parser o.keep n then L ++ [n] else L) st' ∧
        if listed o.parser o.keep n then ∃ line, line ≠ [] ∧ st'.toc = st.toc ++ [line] else st'.toc = st.toc := by
    intro t
    rw [headersOf_single]
    have ha := anchor_dup E o.parser t st.dup
    cases hb : buildAnchorLink E t (fun _ => 0) o.parser with
    | error e =>
      rw [hb] at ha
      simp only at ha
      rw [ha]
      rfl
    | ok r =>
      rw [hb] at ha
      obtain ⟨r', hr'⟩ := ha
      rw [hr']
      have hd : AtLevels o L { st with dup := r'.2 } := ⟨h.bounds, h.prev, h.first, h.counter⟩
      simp only [bind, Except.bind, Except.map]
      cases hl : listed o.parser o.keep n with
      | false => exact ⟨_, rfl, hd, rfl⟩
      | true =>
        have ho := addHeader_outcome hd (x := ⟨n, t, r'.1, true⟩) h1 h6
        simp only at ho ⊢
        rw [if_neg (by decide)]
        split at ho
        · rename_i hx
          rw [if_pos hx]
          exact ho
        · rename_i hx
          rw [if_neg hx]
          split at ho
          · rename_i hy
            rw [if_pos hy]
            exact ho
          · rename_i hy
            rw [if_neg hy]
            split at ho
            · rename_i hz
              rw [if_pos hz]
              exact ho
            · rename_i hz
              rw [if_neg hz]
              exact ho
  unfold headStep problem shownText
  dsimp only
  by_cases hp : o.parser = .redcarpet
  · have hl : listed o.parser o.keep n = true := by simp [listed, hp]
    have := tail c
    rw [hl] at this ⊢
    simp only [hp, ne_eq, not_true_eq_false, false_and, if_false, if_true] at this ⊢
    exact this
  · have hv : (if (n : Int) > o.keep then false else true) = listed o.parser o.keep n := by
      unfold listed
      by_cases hx : (n : Int) > o.keep
      · simp [hx, hp]
      · simp [hx, hp]; omega
    rw [if_neg hp, if_neg hp, hv]
    cases hnl : o.noLinks with
    | true =>
      have := tail c
      simp only [hp, ne_eq, not_false_eq_true, true_and, Bool.true_eq_false, false_and, if_false, if_true] at this ⊢
      exact this
    | false =>
      have := tail (label c)
      rw [linkText_eq]
      by_cases he : EmptyLabel c
      · rw [if_pos ((stripChain_fold c).mpr he)]
        simp only [hp, he, ne_eq, not_false_eq_true, and_self, if_true]
        rfl
      · rw [if_neg (fun hx => he ((stripChain_fold c).mp hx))]
        by_cases hlen : (padded c).length > 999
        · rw [if_pos hlen]
          simp only [hp, he, hlen, ne_eq, not_false_eq_true, and_self, and_false, if_true, if_false]
          rfl
        · rw [if_neg hlen]
          simp only [hp, he, hlen, ne_eq, not_false_eq_true, and_false, if_false] at this ⊢
          exact this

theorem headRun_outcome {E : Env} {o : Options} : ∀ {heads : List (Nat × Str)} {L : List Nat} {st : TocState}, AtLevels o L st → (∀ x ∈ heads, 1 ≤ x.1 ∧ x.1 ≤ 6) →
    match firstProblem E o L heads with
    | some e => headRun E o heads st = .error e
    | none => ∃ st', headRun E o heads st = .ok st' ∧ AtLevels o (L ++ levelsOf o heads) st'
  | [], L, st, h, _ => ⟨st, rfl, by simpa [levelsOf] using h⟩
  | (n, c) :: heads, L, st, h, hb => by
    rw [firstProblem, headRun]
    have ho := headStep_outcome (E := E) (c := c) h (hb (n, c) (by simp)).1 (hb (n, c) (by simp)).2
    cases hx : problem E o L n c with
    | some e =>
      rw [hx] at ho
      simp only at ho ⊢
      rw [ho]
      rfl
    | none =>
      rw [hx] at ho
      obtain ⟨st', h1, h2, -⟩ := ho
      rw [h1]
      have := headRun_outcome (E := E) (heads := heads) h2 (fun x hx => hb x (by simp [hx]))
      have e : (if listed o.parser o.keep n then L ++ [n] else L) ++ levelsOf o heads = L ++ levelsOf o ((n, c) :: heads) := by
        cases hl : listed o.parser o.keep n <;> simp [hl, levelsOf]
      rw [e] at this
      exact this

/-- **C96**: the exception of `build_toc` is that of the first heading with a problem, and there is none if no heading has a problem. -/
theorem C96_first_problem {E : Env} {o : Options} (hs : o.skipLines ≥ 0) (hk : o.keep ≥ 1) {fn text : Str} {vs : List Str} (hv : Looks o fn text vs) {heads : List (Nat × Str)}
    (hh : Headings o.parser (ownLinks o) vs heads) :
    match firstProblem E o [] heads with
    | some e => buildToc E o fn (some ⟨text, false⟩) = .error e
    | none => ∃ out, buildToc E o fn (some ⟨text, false⟩) = .ok out := by
  have hl := looks_isLine hv
  obtain ⟨ls, hr, hv⟩ := hv
  rw [buildToc_seen hs hr hv, hdrRun_headings hk hh hl]
  have h0 : AtLevels o [] (TocState.init o.effMarker) := ⟨by simp, rfl, fun _ _ => rfl, fun _ _ => rfl⟩
  have := headRun_outcome (E := E) h0 (fun x hx => ⟨(headings_bounds hh x hx).1, (headings_bounds hh x hx).2.1⟩)
  split at this
  · rw [this]; rfl
  · obtain ⟨st', h, -⟩ := this
    exact ⟨_, by rw [h]; rfl⟩

theorem firstProblem_append {E : Env} {o : Options} : ∀ (a b : List (Nat × Str)) (L : List Nat),
    firstProblem E o L (a ++ b) = match firstProblem E o L a with
      | some e => some e
      | none => firstProblem E o (L ++ levelsOf o a) b
  | [], b, L => by simp [firstProblem, levelsOf]
  | (n, c) :: a, b, L => by
    rw [List.cons_append, firstProblem, firstProblem]
    cases problem E o L n c with
    | some e => rfl
    | none =>
      simp only
      rw [firstProblem_append a b]
      cases hl : listed o.parser o.keep n <;> simp [hl, levelsOf]

theorem firstProblem_some {E : Env} {o : Options} {e : Exn} : ∀ {heads : List (Nat × Str)} {L : List Nat},
    firstProblem E o L heads = some e ↔
      ∃ a n c b, heads = a ++ (n, c) :: b ∧ firstProblem E o L a = none ∧ problem E o (L ++ levelsOf o a) n c = some e := by
  intro heads L
  constructor
  · intro h
    induction heads generalizing L with
    | nil => cases h
    | cons x heads ih =>
      obtain ⟨n, c⟩ := x
      rw [firstProblem] at h
      cases hp : problem E o L n c with
      | some e' =>
        rw [hp] at h
        exact ⟨[], n, c, heads, rfl, rfl, by simpa [hp, levelsOf] using h⟩
      | none =>
        rw [hp] at h
        obtain ⟨a, n', c', b, rfl, h2, h3⟩ := ih h
        refine ⟨(n, c) :: a, n', c', b, rfl, by rw [firstProblem, hp]; exact h2, ?_⟩
        cases hl : listed o.parser o.keep n <;> simpa [hl, levelsOf] using h3
  · rintro ⟨a, n, c, b, rfl, h2, h3⟩
    rw [firstProblem_append, h2]
    simp only
    rw [firstProblem, h3]

theorem firstProblem_none {E : Env} {o : Options} {heads : List (Nat × Str)} {L : List Nat} :
    firstProblem E o L heads = none ↔ ∀ a n c b, heads = a ++ (n, c) :: b → problem E o (L ++ levelsOf o a) n c = none := by
  constructor
  · rintro h a n c b rfl
    rw [firstProblem_append] at h
    cases ha : firstProblem E o L a with
    | some e => rw [ha] at h; cases h
    | none =>
      rw [ha, firstProblem] at h
      cases hp : problem E o (L ++ levelsOf o a) n c with
      | none => rfl
      | some e => rw [hp] at h; cases h
  · intro h
    cases hf : firstProblem E o L heads with
    | none => rfl
    | some e =>
      obtain ⟨a, n, c, b, h1, -, h3⟩ := firstProblem_some.mp hf
      rw [h a n c b h1] at h3
      cases h3

/-- **C96**: `build_toc` raises an exception if and only if a heading has that problem and no heading before it has any. -/
theorem C96_exception {E : Env} {o : Options} (hs : o.skipLines ≥ 0) (hk : o.keep ≥ 1) {fn text : Str} {vs : List Str} (hv : Looks o fn text vs) {heads : List (Nat × Str)}
    (hh : Headings o.parser (ownLinks o) vs heads) (e : Exn) :
    buildToc E o fn (some ⟨text, false⟩) = .error e ↔
      ∃ a n c b, heads = a ++ (n, c) :: b ∧ problem E o (levelsOf o a) n c = some e ∧ ∀ a' n' c' b', a = a' ++ (n', c') :: b' → problem E o (levelsOf o a') n' c' = none := by
  have h := C96_first_problem (E := E) hs hk hv hh
  have h2 : (∃ a n c b, heads = a ++ (n, c) :: b ∧ problem E o (levelsOf o a) n c = some e ∧ ∀ a' n' c' b', a = a' ++ (n', c') :: b' → problem E o (levelsOf o a') n' c' = none) ↔
      firstProblem E o [] heads = some e := by
    rw [firstProblem_some]
    constructor
    · rintro ⟨a, n, c, b, h1, h2, h3⟩
      exact ⟨a, n, c, b, h1, firstProblem_none.mpr (by simpa using h3), by simpa using h2⟩
    · rintro ⟨a, n, c, b, h1, h2, h3⟩
      exact ⟨a, n, c, b, h1, by simpa using h3, by simpa using firstProblem_none.mp h2⟩
  rw [h2]
  cases hf : firstProblem E o [] heads with
  | some e' =>
    rw [hf] at h
    simp only at h
    rw [h]
    simp
  | none =>
    rw [hf] at h
    obtain ⟨out, h⟩ := h
    rw [h]
    simp

/-- **C96**: two documents whose headings agree up to the first problem raise the same exception, whatever follows. -/
theorem C96_same {E : Env} {o : Options} (hs : o.skipLines ≥ 0) (hk : o.keep ≥ 1) {fn fn' text text' : Str} {vs vs' : List Str} (hv : Looks o fn text vs)
    (hv' : Looks o fn' text' vs') {a b b' : List (Nat × Str)} (hh : Headings o.parser (ownLinks o) vs (a ++ b)) (hh' : Headings o.parser (ownLinks o) vs' (a ++ b'))
    {n : Nat} {c : Str} {b₀ : List (Nat × Str)} {e : Exn} (hp : a = b₀ ++ [(n, c)]) (he : problem E o (levelsOf o b₀) n c = some e) :
    ∃ e', buildToc E o fn (some ⟨text, false⟩) = .error e' ∧ buildToc E o fn' (some ⟨text', false⟩) = .error e' := by
  have h1 := C96_first_problem (E := E) hs hk hv hh
  have h2 := C96_first_problem (E := E) hs hk hv' hh'
  have h3 : ∃ e', firstProblem E o [] a = some e' := by
    cases hf : firstProblem E o [] a with
    | some e' => exact ⟨e', rfl⟩
    | none =>
      have := firstProblem_none.mp hf b₀ n c [] hp
      rw [List.nil_append, he] at this
      cases this
  obtain ⟨e', h3⟩ := h3
  rw [firstProblem_append, h3] at h1 h2
  exact ⟨e', h1, h2⟩

/-- **C96**: with a wrong list marker and a list that is not numbered, the first listed heading raises the exception, whatever the headings after it are. -/
theorem C96_marker {E : Env} {o : Options} (hm : isOrdered o = false) (hb : o.listMarker ∉ bullets) {n : Nat} {c : Str} (hl : listed o.parser o.keep n = true)
    (L : List Nat) : ∃ e, problem E o L n c = some e := by
  unfold problem
  split
  · exact ⟨_, rfl⟩
  · split
    · exact ⟨_, rfl⟩
    · split
      · exact ⟨_, rfl⟩
      · rw [if_neg (by simp [hl])]
        split
        · exact ⟨_, rfl⟩
        · split
          · exact ⟨_, rfl⟩
          · rw [if_pos ⟨hm, hb⟩]
            exact ⟨_, rfl⟩

theorem mapM_first_error {α β : Type} {f : α → Except Exn β} {e : Exn} : ∀ {l : List α},
    l.mapM f = .error e ↔ ∃ a x b, l = a ++ x :: b ∧ f x = .error e ∧ ∀ y ∈ a, ∃ r, f y = .ok r
  | [] => by simp [pure, Except.pure]
  | x :: l => by
    rw [List.mapM_cons]
    cases hx : f x with
    | error e' =>
      simp only [bind, Except.bind, Except.error.injEq]
      constructor
      · rintro rfl
        exact ⟨[], x, l, rfl, hx, by simp⟩
      · rintro ⟨a, y, b, h1, h2, h3⟩
        cases a with
        | nil =>
          injection h1 with h1 _
          rw [h1, h2] at hx
          injection hx with hx
          exact hx.symm
        | cons z a =>
          injection h1 with h1 _
          obtain ⟨r, hr⟩ := h3 z (by simp)
          rw [← h1, hx] at hr
          cases hr
    | ok r =>
      have ih := mapM_first_error (f := f) (e := e) (l := l)
      have : ((do let rs ← l.mapM f; pure (r :: rs)) : Except Exn (List β)) = .error e ↔ l.mapM f = .error e := by
        cases l.mapM f <;> simp [bind, Except.bind, pure, Except.pure]
      simp only [bind, Except.bind] at this ⊢
      rw [this, ih]
      constructor
      · rintro ⟨a, y, b, rfl, h2, h3⟩
        refine ⟨x :: a, y, b, rfl, h2, ?_⟩
        intro z hz
        rcases List.mem_cons.mp hz with rfl | hz
        · exact ⟨r, hx⟩
        · exact h3 z hz
      · rintro ⟨a, y, b, h1, h2, h3⟩
        cases a with
        | nil =>
          injection h1 with h1 _
          rw [h1, h2] at hx
          cases hx
        | cons z a =>
          injection h1 with _ h1
          exact ⟨a, y, b, h1, h2, fun w hw => h3 w (by simp [hw])⟩

/-- **C96** for several files: the exception is that of the first file that raises one. -/
theorem C96_files (E : Env) (o : Options) (fs : FS) (src : Source) {names : List Str} (hne : names ≠ []) (h : names.count "-".toList ≤ 1) (e : Exn) :
    buildMultipleTocs E o fs (some src) names = .error e ↔
      ∃ a f b, names = a ++ f :: b ∧ buildToc E o f (if f = "-".toList then some src else fs f) = .error e ∧
        ∀ g ∈ a, ∃ out, buildToc E o g (if g = "-".toList then some src else fs g) = .ok out := by
  rw [C34_independent E o fs src names hne h]
  exact mapM_first_error

/-! ### Concrete cases -/

/-- The problem of each kind: an empty label, a label that is too long, the list, the marker. -/
example : problem asciiEnv {} [1] 2 [] = some .GithubEmptyLinkLabel ∧ problem asciiEnv {} [1] 2 ['a'] = none ∧
    problem asciiEnv {} [1] 3 ['a'] = some .TocDoesNotRenderAsCoherentList ∧ problem asciiEnv {} [2] 1 ['a'] = some .TocDoesNotRenderAsCoherentList ∧
    problem asciiEnv { listMarker := ['x'] } [1] 2 ['a'] = some .ValueError ∧ problem asciiEnv { listMarker := ['x'] } [1] 3 [] = some .GithubEmptyLinkLabel ∧
    problem asciiEnv { listMarker := ['x'] } [1] 4 ['a'] = none := by decide +kernel

/-- The label comes before the list, even for a heading that is not listed. -/
example : firstProblem asciiEnv {} [] [(1, ['a']), (5, []), (3, ['b'])] = some .GithubEmptyLinkLabel ∧
    firstProblem asciiEnv {} [] [(1, ['a']), (3, ['b']), (5, [])] = some .TocDoesNotRenderAsCoherentList := by decide +kernel

/-- The theorem applied to a document: the second heading is too deep. -/
example : buildToc asciiEnv {} "a.md".toList (some ⟨"# a\n### b\n".toList, false⟩) = .error .TocDoesNotRenderAsCoherentList := by
  have hhead : ∀ {x : Char} {k : Nat}, (x = 'a' ∧ k = 1) ∨ (x = 'b' ∧ k = 3) → Heading .github true (List.replicate k '#' ++ [' ', x, '\n']) k [x] := by
    intro x k hx
    have hnl : ∀ c ∈ List.replicate k '#' ++ [' ', x], ¬ IsNewline c := by
      unfold IsNewline
      rcases hx with ⟨rfl, rfl⟩ | ⟨rfl, rfl⟩ <;> decide
    have hatx : IsAtx .github (List.replicate k '#' ++ [' ', x]) k [' ', x] := by
      refine ⟨0, by decide, ?_, ?_, ?_, by intro c hc; injection hc with hc; subst hc; rfl⟩
      all_goals rcases hx with ⟨rfl, rfl⟩ | ⟨rfl, rfl⟩ <;> decide
    obtain ⟨c, h1, h2⟩ := atxCmark_heading (p := .github) rfl hatx hnl
    have h3 := h2 3 true true
    have h4 : atxCmark .github 3 true true (List.replicate k '#' ++ [' ', x]) = .ok (⟨some k, some [x], if (k : Int) > 3 then false else true⟩, true) := by
      rcases hx with ⟨rfl, rfl⟩ | ⟨rfl, rfl⟩ <;> decide +kernel
    rw [h4] at h3
    have hc : c = [x] := by
      simp only [if_true, Except.map, Except.ok.injEq, Prod.mk.injEq, AtxElem.mk.injEq, Option.some.injEq] at h3
      exact h3.1.2.1.symm
    subst hc
    refine ⟨_, [' ', x], [x], (by simpa using body_line (b := List.replicate k '#' ++ [' ', x]) hnl), ?_⟩
    rw [if_neg (by decide)]
    exact ⟨hatx, h1, rfl⟩
  have hv : Looks {} "a.md".toList "# a\n### b\n".toList ["# a\n".toList, "### b\n".toList] := by
    refine looks_headings (o := {}) (ms := ["# a\n".toList, "### b\n".toList]) (by decide) rfl ?_
    intro m hm
    simp only [List.mem_cons, List.not_mem_nil, or_false] at hm
    rcases hm with rfl | rfl
    · exact ⟨" a".toList, by decide, by decide⟩
    · exact ⟨"## b".toList, by decide, by decide⟩
  have hh : Headings .github true ["# a\n".toList, "### b\n".toList] ([(1, ['a'])] ++ [(3, ['b'])]) :=
    .heading (hhead (.inl ⟨rfl, rfl⟩)) (.heading (hhead (.inr ⟨rfl, rfl⟩)) .nil)
  have hp1 : problem asciiEnv {} [1] 3 ['b'] = some .TocDoesNotRenderAsCoherentList := by decide +kernel
  have hp2 : problem asciiEnv {} [] 1 ['a'] = none := by decide +kernel
  have key := C96_exception (E := asciiEnv) (o := {}) (by decide) (by decide) hv hh .TocDoesNotRenderAsCoherentList
  apply key.mpr
  refine ⟨[(1, ['a'])], 3, ['b'], [], rfl, hp1, ?_⟩
  intro a' n' c' b' h
  cases a' with
  | nil =>
    simp only [List.nil_append, List.cons.injEq, Prod.mk.injEq] at h
    rw [← h.1.1, ← h.1.2]
    exact hp2
  | cons x t => simp at h

end Props

end MdToc
