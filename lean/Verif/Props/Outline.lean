import Verif.Props.TocMore
import Verif.Props.Document
import Verif.Lemmas.Outline

/-!
# C80: how the table is read as Markdown

The table is a nested list.  A reader of CommonMark finds each entry in the depth of its heading.
-/

set_option linter.unusedSimpArgs false

namespace MdToc

open MdToc.Spec

theorem Run.number_le {o : Options} {hs : List Header} {es : List Entry} {st' : TocState} {m : Str} (h : Run o (TocState.init m) hs es st') :
    ∀ e ∈ es, e.number ≤ es.length := by
  induction h with
  | nil => simp
  | @snoc hs es st1 st2 h hr ha ih =>
    intro e he
    rcases List.mem_append.mp he with he | he
    · have := ih e he
      rw [List.length_append]; omega
    · simp only [List.mem_singleton] at he
      subst he
      cases hc : o.counts
      · simp [entryOf, hc]
      · have := Run.counter_le (hr.snoc ha) h.headerType
        simpa [entryOf, hc] using this

/-- The numbers have at most nine digits. -/
theorem Run.number_small {o : Options} (hp : o.parser ≠ .redcarpet) {hs : List Header} {es : List Entry} {st' : TocState} {m : Str} (h : Run o (TocState.init m) hs es st')
    (hn : o.parser = .goldmark → es.length ≤ 999999999) : ∀ e ∈ es, e.number ≤ 999999999 := by
  intro e he
  cases hl : o.parser.limited
  · have : o.parser = .goldmark := by
      revert hl hp
      cases o.parser <;> simp [Parser.limited]
    exact Nat.le_trans (h.number_le e he) (hn this)
  · exact h.limit hl e he

/-- The first entry below another one has the number one. -/
theorem Run.first_one {o : Options} {hs : List Header} {es : List Entry} {st' : TocState} {m : Str} (h : Run o (TocState.init m) hs es st')
    (hcoh : Coherent (es.map (·.level))) : Each (fun b q => (∀ l ∈ b.getLast?, l.level < q.level) → q.number = 1) es := by
  intro b q post heq hl
  cases hc : o.counts
  · exact h.no_count hc q (by rw [heq]; simp)
  · rw [(h.numbers hc hcoh).2 b q post heq]
    unfold siblingNumber
    rcases List.eq_nil_or_concat b with rfl | ⟨b, x, rfl⟩
    · simp
    · have := hl x (by simp)
      rw [List.concat_eq_append, List.map_append, List.reverse_append]
      simp only [List.map_cons, List.map_nil, List.reverse_singleton, List.singleton_append]
      rw [List.takeWhile_cons_of_neg (by simp; omega)]
      simp

namespace Props

theorem usedMarker_single {o : Options} (h : markerOk o.parser o.effOrdered o.effMarker = true) :
    ∃ c, usedMarker o.parser (isOrdered o) o.listMarker = [c] ∧ (if isOrdered o then c = '.' ∨ c = ')' else c = '-' ∨ c = '+' ∨ c = '*') := by
  rw [markerOk_eq] at h
  cases ho : isOrdered o with
  | false =>
    rw [ho] at h
    simp only [Bool.false_eq_true, if_false]
    have : usedMarker o.parser false o.listMarker ∈ bullets := by simpa [usedMarker] using h
    simp only [bullets, List.mem_cons, List.not_mem_nil, or_false] at this
    rcases this with h | h | h
    · exact ⟨'-', h, by simp⟩
    · exact ⟨'+', h, by simp⟩
    · exact ⟨'*', h, by simp⟩
  | true =>
    have := C32_used_marker o.parser o.listMarker
    unfold delimiters at this
    simp only [if_true]
    split at this
    · simp only [List.mem_cons, List.not_mem_nil, or_false] at this
      exact ⟨'.', this, by simp⟩
    · simp only [List.mem_cons, List.not_mem_nil, or_false] at this
      rcases this with h | h
      · exact ⟨'.', h, by simp⟩
      · exact ⟨')', h, by simp⟩

theorem content_start {e : Entry} : ∃ x t, e.content false = x :: t ∧ x ≠ ' ' ∧ x ≠ '\t' := by
  refine ⟨'[', e.text ++ "](#".toList ++ e.anchor ++ ")".toList, ?_, by decide, by decide⟩
  unfold Entry.content
  simp

theorem line_newline (ordered noLinks : Bool) (m : Str) (nl : Str) (e : Entry) : e.line ordered noLinks m nl = e.line ordered noLinks m [] ++ nl := by
  unfold Entry.line; simp

theorem table_length {E : Env} {o : Options} {vs : List Str} {out : Str} {es : List Entry} (h : Table E o vs out es) {heads : List (Nat × Str)}
    (hh : Headings o.parser o.noLinks vs heads) : es.length ≤ heads.length := by
  have := congrArg List.length (table_levels h hh)
  rw [List.length_map] at this
  rw [this]
  exact List.length_filter_le _ _

/-- **C80**: the text of the table is a sequence of lines, and a reader of CommonMark finds in them exactly one nested list, in which each entry has the depth of its heading below
the first one.  (A table for goldmark must not have a billion of entries: its numbers are not limited, see C33.) -/
theorem C80_outline {E : Env} (hE : E.Lawful) {o : Options} (hp : o.parser ≠ .redcarpet) (h1 : o.noIndentation = false) (h2 : o.noLinks = false) {fn text out : Str}
    (h : buildToc E o fn (some ⟨text, false⟩) = .ok out) {vs : List Str} (hv : Looks o fn text vs) {heads : List (Nat × Str)}
    (hh : Headings o.parser o.noLinks vs heads) (hc : Coherent ((heads.map Prod.fst).filter (listed o.parser o.keep)))
    (hn : o.parser = .goldmark → heads.length ≤ 999999999) :
    ∃ es lines kind, Table E o vs out es ∧ out = (lines.map (· ++ o.newline)).flatten ∧ (∀ l ∈ lines, ∀ c ∈ l, ¬ IsNewline c) ∧
      Outline kind [] lines (es.map (fun e => (e.level + 1 - (es.head?.map (·.level)).getD 0, "[".toList ++ e.text ++ "](#".toList ++ e.anchor ++ ")".toList))) := by
  obtain ⟨hs, es, st, hr, ht⟩ := buildToc_run h hv
  have hlen := table_length ht hh
  rw [← entry_levels (table_levels ht hh)] at hc
  have hnest := (hr.nested (cmarkLike_of_ne hp) h1 hc).2
  have hone := hr.first_one hc
  have hsmall := hr.number_small hp (fun hg => Nat.le_trans hlen (hn hg))
  have hno := entries_no_newline hE ht (fun hne => by
    have := hr.info.2.2.2.2 hne
    rw [markerOk_eq] at this
    simpa using this)
  rw [effMarker_eq, effOrdered_eq] at hnest
  cases es with
  | nil =>
    refine ⟨[], [], '-', ht, ?_, by simp, .nil⟩
    rw [ht.2]; rfl
  | cons e es =>
    obtain ⟨c, hcm, hck⟩ := usedMarker_single (hr.info.2.2.2.2 (by simp))
    rw [hcm] at hnest hno
    refine ⟨e :: es, (e :: es).map (Entry.line (isOrdered o) false [c] []), c, ht, ?_, ?_, ?_⟩
    · rw [ht.2, hcm, h2, List.map_map]
      congr 2
      funext q
      exact line_newline _ _ _ _ _
    · intro l hl
      obtain ⟨q, hq, rfl⟩ := List.mem_map.mp hl
      rw [h2] at hno
      exact hno q hq
    · have := outline_entries (noLinks := false) hck hnest hc (fun _ => hone) (fun q hq => ⟨hsmall q hq, content_start⟩)
      simpa [Entry.content] using this

/-- **C80** with the coherence check: the levels need not be coherent, because otherwise there is no table. -/
theorem C80_checked {E : Env} (hE : E.Lawful) {o : Options} (hp : o.parser ≠ .redcarpet) (h1 : o.noIndentation = false) (h2 : o.noLinks = false) (h3 : o.noListCoherence = false)
    {fn text out : Str} (h : buildToc E o fn (some ⟨text, false⟩) = .ok out) {vs : List Str} (hv : Looks o fn text vs)
    (hn : o.parser = .goldmark → vs.length ≤ 999999999) :
    ∃ es lines kind, Table E o vs out es ∧ out = (lines.map (· ++ o.newline)).flatten ∧ (∀ l ∈ lines, ∀ c ∈ l, ¬ IsNewline c) ∧
      Outline kind [] lines (es.map (fun e => (e.level + 1 - (es.head?.map (·.level)).getD 0, "[".toList ++ e.text ++ "](#".toList ++ e.anchor ++ ")".toList))) := by
  obtain ⟨heads, hh⟩ := headings_exists o.parser o.noLinks vs
  refine C80_outline hE hp h1 h2 h hv hh (C28_ok_coherent h1 h3 h hv hh) (fun hg => Nat.le_trans ?_ (hn hg))
  clear h hv hn hE
  induction hh with
  | nil => simp
  | other _ _ ih => simp only [List.length_cons]; omega
  | heading _ _ ih => simp only [List.length_cons]; omega

/-- **C80** without indentation: a reader finds one list with all the entries. -/
theorem C80_flat {E : Env} (hE : E.Lawful) {o : Options} (hp : o.parser ≠ .redcarpet) (h1 : o.noIndentation = true) (h2 : o.noLinks = false) {fn text out : Str}
    (h : buildToc E o fn (some ⟨text, false⟩) = .ok out) {vs : List Str} (hv : Looks o fn text vs) {heads : List (Nat × Str)}
    (hh : Headings o.parser o.noLinks vs heads) (hn : o.parser = .goldmark → heads.length ≤ 999999999) :
    ∃ es lines kind, Table E o vs out es ∧ out = (lines.map (· ++ o.newline)).flatten ∧ (∀ l ∈ lines, ∀ c ∈ l, ¬ IsNewline c) ∧
      Outline kind [] lines (es.map (fun e => (1, "[".toList ++ e.text ++ "](#".toList ++ e.anchor ++ ")".toList))) := by
  obtain ⟨hs, es, st, hr, ht⟩ := buildToc_run h hv
  have hlen := table_length ht hh
  have hsmall := hr.number_small hp (fun hg => Nat.le_trans hlen (hn hg))
  have hno := entries_no_newline hE ht (fun hne => by
    have := hr.info.2.2.2.2 hne
    rw [markerOk_eq] at this
    simpa using this)
  by_cases hne : es = []
  · subst hne
    refine ⟨[], [], '-', ht, ?_, by simp, .nil⟩
    rw [ht.2]; rfl
  · obtain ⟨c, hcm, hck⟩ := usedMarker_single (hr.info.2.2.2.2 hne)
    rw [hcm] at hno
    refine ⟨es, es.map (Entry.line (isOrdered o) false [c] []), c, ht, ?_, ?_, ?_⟩
    · rw [ht.2, hcm, h2, List.map_map]
      congr 2
      funext q
      exact line_newline _ _ _ _ _
    · intro l hl
      obtain ⟨q, hq, rfl⟩ := List.mem_map.mp hl
      rw [h2] at hno
      exact hno q hq
    · have := outline_flat (noLinks := false) hck es [] (by simp) (fun q hq => ⟨hr.no_indent h1 q hq, hsmall q hq, content_start⟩)
      simpa [Entry.content] using this

/-- A table with three levels and several entries meets the conditions of C80. -/
example : buildToc asciiEnv { ordered := true, keep := 6 } "a.md".toList (some ⟨"## a\n### b\n#### c\n### d\n## e\n### f\n".toList, false⟩) =
    .ok "1. [a](#a)\n   1. [b](#b)\n      1. [c](#c)\n   2. [d](#d)\n2. [e](#e)\n   1. [f](#f)\n".toList := by decide +kernel

/-- The items of a table for C80. -/
theorem itemLine_bullet (k : Nat) (x : Char) (t : Str) (h : x ≠ ' ') (h' : x ≠ '\t') : ItemLine (List.replicate k ' ' ++ "- ".toList ++ x :: t) '-' [] k (k + 2) (x :: t) := by
  have := ItemLine.bullet (indent := k) (spaces := 1) (kind := '-') (content := x :: t) (.inl rfl) ⟨Nat.le_refl _, by omega, x, t, rfl, h, h'⟩
  simpa using this

/-- **C80 fails without the coherence check**: the level of `c` is between those of `a` and `b`, but a reader finds it beside `a`. -/
theorem C80_violation : ∃ lines, buildToc asciiEnv { noListCoherence := true } "a.md".toList (some ⟨"# a\n### b\n## c\n".toList, false⟩) =
      .ok (lines.map (· ++ "\n".toList)).flatten ∧
    Outline '-' [] lines [(1, "[a](#a)".toList), (2, "[b](#b)".toList), (1, "[c](#c)".toList)] := by
  refine ⟨["- [a](#a)".toList, "  - [b](#b)".toList, "- [c](#c)".toList], by decide +kernel, ?_⟩
  refine .item (closed := []) (stay := []) (itemLine_bullet 0 '[' "a](#a)".toList (by decide) (by decide)) (by simp) (by simp) (by simp) (by simp) ?_
  refine .item (closed := []) (stay := [2]) (itemLine_bullet 2 '[' "b](#b)".toList (by decide) (by decide)) (by simp) (by simp) (by simp) (fun _ => .inr (.inl rfl)) ?_
  exact .item (closed := [4, 2]) (stay := []) (itemLine_bullet 0 '[' "c](#c)".toList (by decide) (by decide)) (by simp) (by simp) (by simp) (by simp) .nil

/-- **C80**: a reader finds at most one outline in given lines. -/
theorem C80_unique {kind kind' : Char} {lines : List Str} {items items' : List (Nat × Str)} (h : Outline kind [] lines items) (h' : Outline kind' [] lines items') : items = items' :=
  outline_unique h h'

/-! ### C81 -/

theorem readText_label {s t : Str} : ∀ {odd : Bool}, (odd = true → s ≠ []) → s.getLast? ≠ some '\\' →
    readText odd (escapeBrackets odd s ++ ']' :: t) = some (escapeBrackets odd s, t) := by
  induction s with
  | nil =>
    intro odd h _
    cases odd with
    | true => exact absurd rfl (h rfl)
    | false => simp [escapeBrackets, readText]
  | cons c s ih =>
    intro odd _ hl
    have hl' : s.getLast? ≠ some '\\' := by
      cases s with
      | nil => simp
      | cons d s => rwa [List.getLast?_cons_cons] at hl
    rw [escapeBrackets]
    split
    · rename_i hc
      subst hc
      rw [List.cons_append, readText, if_neg (by simp), if_neg (by simp)]
      have : (!odd && ('\\' == '\\')) = !odd := by simp
      rw [this, ih ?_ hl']
      · rfl
      · intro _ hs
        subst hs
        exact hl rfl
    · rename_i hc
      have h1 : ∀ b : Bool, (b && (c == '\\')) = false := by intro b; simp [hc]
      split
      · rename_i hb
        obtain ⟨hb, rfl⟩ := hb
        rw [List.cons_append, List.cons_append, readText, if_neg (by simp), if_neg (by simp), readText, if_neg (by simp), if_neg (by simp)]
        rw [h1, ih (by simp) hl']
        rfl
      · rename_i hb
        rw [List.cons_append, readText, if_neg ?_, if_neg ?_, h1, ih (by simp) hl']
        · rfl
        · rintro ⟨h2, rfl⟩; exact hb ⟨.inl rfl, h2⟩
        · rintro ⟨h2, rfl⟩; exact hb ⟨.inr rfl, h2⟩

theorem readDest_anchor {a t : Str} (h : ∀ c ∈ a, destChar c = true) : readDest (a ++ ')' :: t) = some (a, t) := by
  induction a with
  | nil => simp [readDest]
  | cons c a ih =>
    have hc := h c (by simp)
    rw [List.cons_append, readDest, if_neg ?_, if_pos hc, ih (fun x hx => h x (by simp [hx]))]
    · rfl
    · rintro rfl; exact absurd hc (by decide)

theorem anchorRun_alphabet {E : Env} (hE : E.Lawful) {p : Parser} (hp : p.cmarkLike = true) {ts as : List Str} {d d' : Dup} (h : anchorRun E p d ts = .ok (as, d')) :
    ∀ a ∈ as, ∀ c ∈ a, E.isWord c = true ∨ c = '-' := by
  induction ts generalizing d d' as with
  | nil => simp [anchorRun] at h; rw [h.1]; simp
  | cons t ts ih =>
    rw [anchorRun] at h
    cases hb : buildAnchorLink E t d p with
    | error e => rw [hb] at h; simp at h
    | ok r =>
      rw [hb] at h
      simp only at h
      cases hr : anchorRun E p r.2 ts with
      | error e => rw [hr] at h; simp at h
      | ok q =>
        rw [hr] at h
        simp only [Except.ok.injEq, Prod.mk.injEq] at h
        intro a ha
        rw [← h.1, List.mem_cons] at ha
        rcases ha with rfl | ha
        · exact C03_anchor_alphabet hE hp hb
        · exact ih hr a ha

theorem word_destChar {E : Env} (hE : E.Lawful) {c : Char} (h : E.isWord c = true ∨ c = '-') : destChar c = true ∧ c ≠ '`' := by
  rcases h with h | rfl
  · by_cases hc : c.toNat < 128
    · rw [hE.word_ascii c hc] at h
      have key : ∀ n : Fin 128, (isAsciiAlpha (Char.ofNat n) || isAsciiDigit (Char.ofNat n) || Char.ofNat n == '_') = true → destChar (Char.ofNat n) = true ∧ Char.ofNat n ≠ '`' := by decide
      have := key ⟨c.toNat, hc⟩
      simp only [Char.ofNat_toNat] at this
      exact this h
    · constructor
      · unfold destChar
        have : ("()<>\\&".toList.contains c) = false := by
          rw [List.contains_eq_mem, decide_eq_false_iff_not]
          intro hm
          have : ∀ x ∈ "()<>\\&".toList, x.toNat < 128 := by decide
          exact hc (this c hm)
        rw [this]
        simp; omega
      · rintro rfl; exact hc (by decide)
  · decide

/-- The parts of an entry of a table with links. -/
theorem entry_parts {E : Env} (hE : E.Lawful) {o : Options} (hp : o.parser ≠ .redcarpet) (h2 : o.noLinks = false) {vs : List Str} {out : Str} {es : List Entry} (ht : Table E o vs out es) :
    ∀ e ∈ es, (∃ c, e.text = label c) ∧ ∀ c ∈ e.anchor, destChar c = true ∧ c ≠ '`' := by
  obtain ⟨⟨heads, as, d, g1, g2, g3, g4⟩, -⟩ := ht
  intro e he
  have hmem : (e.level, e.text, e.anchor) ∈ es.map (fun e => (e.level, e.text, e.anchor)) := List.mem_map.mpr ⟨e, he, rfl⟩
  rw [g4] at hmem
  obtain ⟨y, hy, e1⟩ := List.mem_map.mp hmem
  have hy' := List.of_mem_zip (List.mem_filter.mp hy).1
  simp at e1
  obtain ⟨-, e2, e3⟩ := e1
  constructor
  · have : ∀ x ∈ heads, ∃ c, x.2 = label c := by
      rw [h2] at g1
      clear g2 g3 g4 hmem hy hy' e2 e3
      induction g1 with
      | nil => simp
      | other _ _ ih => exact ih
      | heading hh _ ih =>
        intro x hx
        rw [List.mem_cons] at hx
        rcases hx with rfl | hx
        · obtain ⟨body, rest, c, -, hh⟩ := hh
          rw [if_neg hp] at hh
          exact ⟨c, by simpa using hh.2.2⟩
        · exact ih x hx
    rw [← e2]
    exact this _ hy'.1
  · intro c hc
    rw [← e3] at hc
    exact word_destChar hE (anchorRun_alphabet hE (cmarkLike_of_ne hp) g2 _ hy'.2 c hc)

theorem padded_getLast (c : Str) : (padded c).getLast? ≠ some '\\' := by
  unfold padded
  split
  · simp
  · assumption

/-- **C81**: a reader of CommonMark finds one link in the content of each entry: its text is the label of the heading and its destination is the anchor. -/
theorem C81_link {E : Env} (hE : E.Lawful) {o : Options} (hp : o.parser ≠ .redcarpet) (h2 : o.noLinks = false) {vs : List Str} {out : Str} {es : List Entry} (ht : Table E o vs out es) :
    ∀ e ∈ es, readLink (e.content o.noLinks) = some (e.text, '#' :: e.anchor, []) := by
  intro e he
  obtain ⟨⟨c, hc⟩, ha⟩ := entry_parts hE hp h2 ht e he
  have h1 := readText_label (s := padded c) (t := "(#".toList ++ e.anchor ++ ")".toList) (odd := false) (by simp) (padded_getLast c)
  have h3 := readDest_anchor (a := '#' :: e.anchor) (t := []) (by
    intro x hx
    rw [List.mem_cons] at hx
    rcases hx with rfl | hx
    · decide
    · exact (ha x hx).1)
  have e1 : e.content o.noLinks = '[' :: (label c ++ ']' :: '(' :: ('#' :: e.anchor ++ [')'])) := by
    unfold Entry.content
    rw [h2, hc]
    simp
  change readText false (label c ++ ']' :: '(' :: '#' :: (e.anchor ++ [')'])) = some (label c, '(' :: '#' :: (e.anchor ++ [')'])) at h1
  rw [e1]
  unfold readLink
  simp only [List.head?_cons, List.drop_succ_cons, List.drop_zero, List.cons_append, h1, guard, if_true, bind, Option.bind, pure]
  rw [← List.cons_append, h3, hc]

/-- **C81**: code spans, autolinks and HTML tags bind tighter than brackets, but none of them that starts in the text of an entry goes beyond it: whatever part of the content ends with a
backtick or with a closing pointy bracket ends in the text. -/
theorem C81_segments {E : Env} (hE : E.Lawful) {o : Options} (hp : o.parser ≠ .redcarpet) (h2 : o.noLinks = false) {vs : List Str} {out : Str} {es : List Entry} (ht : Table E o vs out es) :
    ∀ e ∈ es, ∀ pre c post, e.content o.noLinks = pre ++ c :: post → c = '`' ∨ c = '>' → pre.length ≤ e.text.length := by
  intro e he pre c post heq hc
  obtain ⟨-, ha⟩ := entry_parts hE hp h2 ht e he
  by_contra hlt
  have e1 : e.content o.noLinks = ('[' :: e.text) ++ ("](#".toList ++ e.anchor ++ ")".toList) := by
    unfold Entry.content
    rw [h2]
    simp
  rw [e1] at heq
  rcases List.append_eq_append_iff.mp heq with ⟨q, h3, h4⟩ | ⟨q, h3, h4⟩
  · have : c ∈ "](#".toList ++ e.anchor ++ ")".toList := by rw [h4]; simp
    rw [List.mem_append, List.mem_append] at this
    rcases this with (h | h) | h
    · rcases hc with rfl | rfl <;> exact absurd h (by decide)
    · have h5 := ha c h
      rcases hc with rfl | rfl
      · exact h5.2 rfl
      · exact absurd h5.1 (by decide)
    · rcases hc with rfl | rfl <;> exact absurd h (by decide)
  · have := congrArg List.length h3
    simp only [List.length_cons, List.length_append] at this
    cases q with
    | nil =>
      have h6 : c = ']' := by simp at h4; exact h4.1
      subst h6
      rcases hc with h | h <;> exact absurd h (by decide)
    | cons x q => simp at this; omega

/-- An entry with brackets and a backslash at the end. -/
example : buildToc asciiEnv {} "a.md".toList (some ⟨"# [a] `b\\` c\\\n".toList, false⟩) = .ok "- [\\[a\\] `b\\` c\\ ](#a-b-c-)\n".toList ∧
    readLink "[\\[a\\] `b\\` c\\ ](#a-b-c-)".toList = some ("\\[a\\] `b\\` c\\ ".toList, "#a-b-c-".toList, []) := by decide +kernel

/-- **C81 fails for redcarpet**: brackets are not escaped. -/
theorem C81_redcarpet : buildToc asciiEnv { parser := .redcarpet } "a.md".toList (some ⟨"# a [b\n".toList, false⟩) = .ok "- [a [b](#a-b)\n".toList ∧
    readLink "[a [b](#a-b)".toList = none := by decide +kernel

end Props

end MdToc
