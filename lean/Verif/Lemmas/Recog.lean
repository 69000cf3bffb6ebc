import Verif.Lemmas.WriteMore
import Verif.Props.TocMore

/-!
# Generated tables of contents as text in a file
-/

set_option linter.unusedSimpArgs false

namespace MdToc

open MdToc.Spec MdToc.Props

/-- The first character of a list item. -/
def ItemChar (x : Char) : Prop := x = '-' ∨ x = '+' ∨ x = '*' ∨ isAsciiDigit x = true

/-- A line of a list, without its newline. -/
def IsItem (b : Str) : Prop := (∀ c ∈ b, ¬ IsNewline c) ∧ ∃ n x r, b = List.replicate n ' ' ++ x :: r ∧ ItemChar x

theorem itemChar_space {x : Char} (h : ItemChar x) : isPySpace x = false := by
  rcases h with rfl | rfl | rfl | h
  · decide
  · decide
  · decide
  · simp [isAsciiDigit] at h
    obtain ⟨h1, h2⟩ := h
    have h1 : 48 ≤ x.toNat := h1
    have h2 : x.toNat ≤ 57 := h2
    simp only [isPySpace, Bool.or_eq_false_iff, Bool.and_eq_false_iff, decide_eq_false_iff_not, beq_eq_false_iff_ne]
    omega

theorem IsItem.rstrip {b : Str} (h : IsItem b) : ∃ core r, b = core ++ r ∧ (∀ x ∈ r, isPySpace x = true) ∧ (∀ x ∈ core.getLast?, isPySpace x = false) ∧
    IsItem core ∧ ((∀ c ∈ b.getLast?, isPySpace c = false) → core = b) := by
  obtain ⟨r, h1, h2, h3⟩ := (trimmedRight_iff (s := b)).mpr rfl
  obtain ⟨hn, n, x, t, e, hx⟩ := h
  refine ⟨_, r, h1, h2, h3, ⟨fun c hc => hn c (by rw [h1]; simp [hc]), ?_⟩, ?_⟩
  · generalize pyRstrip b = core at h1 h3
    rw [e] at h1
    rcases List.append_eq_append_iff.mp h1 with ⟨s, h4, h5⟩ | ⟨s, h4, h5⟩
    · cases s with
      | nil =>
        simp only [List.nil_append] at h5
        have := h2 x (by rw [← h5]; simp)
        rw [itemChar_space hx] at this
        simp at this
      | cons y s =>
        simp only [List.cons_append] at h5
        injection h5 with h5 h6
        subst h5
        exact ⟨n, x, s, h4, hx⟩
    · have : x ∈ r := by rw [h5]; simp
      have := h2 x this
      rw [itemChar_space hx] at this
      simp at this
  · intro hl
    rcases List.eq_nil_or_concat r with rfl | ⟨r', y, rfl⟩
    · simpa using h1.symm
    · have := hl y (by rw [h1]; simp)
      rw [h2 y (by simp)] at this
      simp at this

theorem IsItem.head {b : Str} (h : IsItem b) (t : Str) : (b ++ t).head? ≠ some '\n' := by
  obtain ⟨hn, n, x, r, rfl, hx⟩ := h
  intro e
  cases n with
  | zero =>
    simp at e
    exact hn x (by simp) (.inl e)
  | succ n =>
    simp [List.replicate_succ] at e

theorem IsItem.ne_nil {b : Str} (h : IsItem b) : b ≠ [] := by
  obtain ⟨hn, n, x, r, rfl, hx⟩ := h
  simp

theorem eol_of_head {nl t : Str} (h : IsEol nl []) (ht : t.head? ≠ some '\n') : IsEol nl t := by
  rcases h with h | h | ⟨h, -⟩
  · exact .inl h
  · exact .inr (.inl h)
  · exact .inr (.inr ⟨h, ht⟩)

theorem eol_white {nl t : Str} (h : IsEol nl t) : ∀ x ∈ nl, isPySpace x = true := by
  rcases h with h | h | ⟨h, -⟩ <;> subst h <;> decide

theorem item_filter {b : Str} (h : ∀ c ∈ b, ¬ IsNewline c) : b.filter (fun c => c != '\n' && c != '\r') = b := by
  rw [List.filter_eq_self]
  intro c hc
  have := h c hc
  simp only [IsNewline, not_or] at this
  simp [this.1, this.2]

theorem eol_filter {nl t : Str} (h : IsEol nl t) : nl.filter (fun c => c != '\n' && c != '\r') = [] := by
  rcases h with h | h | ⟨h, -⟩ <;> subst h <;> decide

/-- The text of some items, each followed by a newline, has a core without the white space at its end. -/
theorem items_core {nl : Str} (he : IsEol nl []) : ∀ bs : List Str, bs ≠ [] → (∀ b ∈ bs, IsItem b) →
    ∃ core ls, TrimmedRight isPySpace (bs.map (· ++ nl)).flatten core ∧ core ≠ [] ∧ Reads core ls ∧
      (∀ l ∈ ls, ∃ b, IsItem b ∧ (l = b ∨ l = b ++ ['\n'])) ∧ core.head? ≠ some '\n' ∧
      ((∀ b ∈ bs.getLast?, ∀ c ∈ b.getLast?, isPySpace c = false) → core.filter (fun c => c != '\n' && c != '\r') = bs.flatten) := by
  intro bs
  induction bs with
  | nil => intro h; exact absurd rfl h
  | cons b bs ih =>
    intro _ hb
    by_cases hbs : bs = []
    · subst hbs
      obtain ⟨core, r, e, h1, h2, h3, h4⟩ := (hb b (by simp)).rstrip
      refine ⟨core, [core], ⟨r ++ nl, by simp [e], ?_, h2⟩, h3.ne_nil, .last h3.ne_nil h3.1, ?_, ?_, ?_⟩
      · intro x hx
        rcases List.mem_append.mp hx with hx | hx
        · exact h1 x hx
        · exact eol_white he x hx
      · intro l hl
        simp only [List.mem_singleton] at hl
        exact ⟨core, h3, .inl hl⟩
      · simpa using h3.head []
      · intro hl
        have := h4 (hl b (by simp))
        subst this
        simpa using item_filter h3.1
    · obtain ⟨core, ls, ⟨r, h1, h2, h3⟩, h4, h5, h6, h7, h8⟩ := ih hbs (fun x hx => hb x (by simp [hx]))
      have hib := hb b (by simp)
      have he' := eol_of_head he h7
      refine ⟨b ++ nl ++ core, (b ++ ['\n']) :: ls, ⟨r, by simp [h1], h2, ?_⟩, by simp [h4], .line hib.1 he' h5, ?_, ?_, ?_⟩
      · intro x hx
        rw [List.getLast?_append_of_ne_nil _ h4] at hx
        exact h3 x hx
      · intro l hl
        rcases List.mem_cons.mp hl with hl | hl
        · exact ⟨b, hib, .inr hl⟩
        · exact h6 l hl
      · rw [List.append_assoc]; exact hib.head _
      · intro hl
        have := h8 (by
          intro x hx
          refine hl x ?_
          cases bs with
          | nil => exact absurd rfl hbs
          | cons y ys => simpa [List.getLast?_cons_cons] using hx)
        rw [List.filter_append, List.filter_append, item_filter hib.1, eol_filter he, this]
        simp

/-- The first entry is at the left. -/
theorem Run.first_indent {o : Options} {hs : List Header} {es : List Entry} {st' : TocState} {m : Str} (h : Run o (TocState.init m) hs es st')
    (hc : o.parser.cmarkLike = true ∨ o.noIndentation = true) : ∀ e ∈ es.head?, e.indent = 0 := by
  cases hni : o.noIndentation
  · have hc : o.parser.cmarkLike = true := by simpa [hni] using hc
    induction h with
    | nil => simp
    | @snoc hs es st1 st2 h hr ha ih =>
      cases es with
      | nil =>
        have hr' := Run.snoc hr ha
        have := (hr'.nested hc hni (by
          refine ⟨by simp, ?_⟩
          intro pre a b post e
          have := congrArg List.length e
          simp at this
          omega)).2 [] _ [] rfl
        intro e he
        simp at he
        subst he
        simpa [Nested, parent] using this
      | cons e es => simpa using ih
  · intro e he
    exact h.no_indent hni e (List.mem_of_mem_head? he)

theorem markerText_item (o : Options) (hm : isOrdered o = true ∨ o.listMarker ∈ bullets) (k : Nat) :
    ∃ x r, markerText (isOrdered o) (usedMarker o.parser (isOrdered o) o.listMarker) k = x :: r ∧ ItemChar x := by
  unfold markerText
  by_cases ho : isOrdered o = true
  · rw [if_pos ho, ← natStr_eq]
    cases hn : natStr k with
    | nil =>
      have : (toString k).toList = [] := by rw [← natStr_eq, hn]
      simp at this
    | cons x r =>
      exact ⟨x, _, rfl, .inr (.inr (.inr (natStr_digits k x (by simp [hn]))))⟩
  · rw [if_neg ho]
    rcases hm with h | h
    · exact absurd h ho
    · simp only [usedMarker, if_neg ho]
      simp [bullets] at h
      rcases h with h | h | h <;> rw [h]
      · exact ⟨_, _, rfl, .inl rfl⟩
      · exact ⟨_, _, rfl, .inr (.inl rfl)⟩
      · exact ⟨_, _, rfl, .inr (.inr (.inl rfl))⟩

/-- The lines of a table of contents are items. -/
theorem entries_items_at {E : Env} (hE : E.Lawful) {o : Options} {fn text out : Str} (h : buildToc E o fn (some ⟨text, false⟩) = .ok out) {vs : List Str}
    (hv : Looks o fn text vs) :
    ∃ (es : List Entry) (f : Entry → Str), Table E o vs out es ∧ out = ((es.map f).map (· ++ o.newline)).flatten ∧ (∀ e ∈ es, IsItem (f e)) ∧
      (∀ e ∈ es, f e = List.replicate e.indent ' ' ++ markerText (isOrdered o) (usedMarker o.parser (isOrdered o) o.listMarker) e.number ++
        " ".toList ++ e.content o.noLinks) ∧
      (es ≠ [] → isOrdered o = true ∨ o.listMarker ∈ bullets) ∧
      (o.parser ≠ .redcarpet ∨ o.noIndentation = true → ∀ e ∈ es.head?, e.indent = 0) := by
  obtain ⟨hs, es, st, hr, ht⟩ := buildToc_run h hv
  have hmk : es ≠ [] → isOrdered o = true ∨ o.listMarker ∈ bullets := fun hne => by
    have := hr.info.2.2.2.2 hne
    rw [markerOk_eq] at this
    simpa using this
  have hno := entries_no_newline hE ht hmk
  refine ⟨es, Entry.line (isOrdered o) o.noLinks (usedMarker o.parser (isOrdered o) o.listMarker) [], ht, ?_, ?_, ?_, hmk, ?_⟩
  · rw [ht.2, List.map_map]
    congr 1
    apply List.map_congr_left
    intro e _
    simp [Entry.line]
  · intro e he
    refine ⟨hno e he, e.indent, ?_⟩
    obtain ⟨x, r, h1, h2⟩ := markerText_item o (hmk (List.ne_nil_of_mem he)) e.number
    refine ⟨x, r ++ " ".toList ++ e.content o.noLinks, ?_, h2⟩
    simp [Entry.line, h1]
  · intro e _
    simp [Entry.line]
  · intro hc
    refine hr.first_indent (hc.imp cmarkLike_of_ne id)

theorem entries_items {E : Env} (hE : E.Lawful) {o : Options} {fn text out : Str} (h : buildToc E o fn (some ⟨text, false⟩) = .ok out) :
    ∃ (es : List Entry) (f : Entry → Str), out = ((es.map f).map (· ++ o.newline)).flatten ∧ (∀ e ∈ es, IsItem (f e)) ∧
      (∀ e ∈ es, f e = List.replicate e.indent ' ' ++ markerText (isOrdered o) (usedMarker o.parser (isOrdered o) o.listMarker) e.number ++
        " ".toList ++ e.content o.noLinks) ∧
      (es ≠ [] → isOrdered o = true ∨ o.listMarker ∈ bullets) ∧
      (o.parser ≠ .redcarpet ∨ o.noIndentation = true → ∀ e ∈ es.head?, e.indent = 0) := by
  obtain ⟨vs, hv⟩ := looks_exists o fn text
  obtain ⟨es, f, -, h⟩ := entries_items_at hE h hv
  exact ⟨es, f, h⟩

end MdToc
