import Verif.Lemmas.Html
import Verif.Lemmas.EmphSafe
import Verif.Lemmas.EmphPairs
import Verif.Lemmas.HtmlExact
import Verif.Lemmas.EmphSimple

/-!
# Properties of the removal of HTML and of emphasis (C48 to C54)
-/

set_option linter.unusedSimpArgs false

namespace MdToc.Props

open MdToc.Spec

/-! ### C48 -/

/-- **C48**: only pieces from `<` to `>` are deleted. -/
theorem C48_only_tags (E : Env) (s : Str) (p : Parser) : CutTags s (removeHtmlTags E s p) := removeHtmlTags_cut E p s

/-- **C48** -/
theorem C48_sublist (E : Env) (s : Str) (p : Parser) : (removeHtmlTags E s p).Sublist s := (removeHtmlTags_cut E p s).sublist

/-- **C48** -/
theorem C48_unchanged (E : Env) {s : Str} (p : Parser) (h : '<' ∉ s ∨ '>' ∉ s) : removeHtmlTags E s p = s := (removeHtmlTags_cut E p s).same h

/-- **C48** -/
theorem C48_redcarpet (E : Env) (s : Str) : removeHtmlTags E s .redcarpet = s := rfl

example : removeHtmlTags asciiEnv "a <b c='d>'>e</b> > <!-- f -->g < h".toList .github = "a e > g < h".toList := by decide +kernel

/-! ### C58 -/

/-- The inline HTML that is removed: opening and closing tags (for github and commonmarker without the filtered names), and comments, processing instructions, declarations and CDATA sections without `<` in them. -/
def RemovedTag (p : Parser) (x : Str) : Prop := HtmlPiece (p = .github ∨ p = .commonmarker) x

theorem gfm_eq (p : Parser) : (p.gfm = true) = (p = .github ∨ p = .commonmarker) := by cases p <;> simp [Parser.gfm]

/-- **C58**: the tags are removed and nothing else. -/
theorem C58_tags_removed {E : Env} (hE : E.Lawful) {p : Parser} (hp : p ≠ .redcarpet) {s t : Str} (h : WithoutTags (RemovedTag p) s t) : removeHtmlTags E s p = t := by
  have h1 := htmlDeleted_of hE (p := p) (by cases p <;> simp_all [Parser.cmarkLike]) s
  rw [gfm_eq] at h1
  exact h1.unique (htmlDeleted_of_pieces h)

/-- A tag without attributes. -/
theorem removed_open (p : Parser) {n e : Str} (h : TagName n) (hr : ¬ RawName n) (he : e = [] ∨ e = ['/']) : RemovedTag p ('<' :: n ++ e ++ ['>']) :=
  .inl ⟨n, [], [], e, by simp, h, fun _ => hr, .nil, .inl rfl, he⟩

theorem removed_close (p : Parser) {n : Str} (h : TagName n) (hr : ¬ RawName n) : RemovedTag p ('<' :: '/' :: n ++ ['>']) :=
  .inr (.inl ⟨n, [], by simp, h, fun _ => hr, .inl rfl⟩)

/-- A text to which `C58_tags_removed` applies, with attributes of all forms, a comment and a processing instruction. -/
example (p : Parser) : WithoutTags (RemovedTag p) "x<br/><a href=\"y>z\" id = 1 k='v' >b</a><!-- c --><?d?>".toList "xb".toList := by
  have name : ∀ n : Str, n = ['b', 'r'] ∨ n = ['a'] → TagName n ∧ ¬ RawName n := by
    rintro n (rfl | rfl)
    · exact ⟨⟨'b', ['r'], rfl, by unfold Letter; decide, by unfold Letter Digit; decide⟩, by unfold RawName; decide +kernel⟩
    · exact ⟨⟨'a', [], rfl, by unfold Letter; decide, by simp⟩, by unfold RawName; decide +kernel⟩
  have gap : ∀ g : Prop, Gap g [' '] := by
    intro g
    by_cases hg : g
    · exact .inl ⟨hg, by simp, by simp [WhiteSpace]⟩
    · exact .inr ⟨hg, .inl ⟨by simp, by simp⟩⟩
  have attr : ∀ n : Str, n = "href".toList ∨ n = "id".toList ∨ n = ['k'] → AttrName n := by
    rintro n (rfl | rfl | rfl)
    · exact ⟨'h', "ref".toList, rfl, by unfold Letter; decide, by unfold Letter Digit; decide⟩
    · exact ⟨'i', ['d'], rfl, by unfold Letter; decide, by unfold Letter Digit; decide⟩
    · exact ⟨'k', [], rfl, by unfold Letter; decide, by simp⟩
  refine .char (by decide) (.tag (x := "<br/>".toList) (removed_open p (name _ (.inl rfl)).1 (name _ (.inl rfl)).2 (.inr rfl)) ?_)
  refine .tag (x := "<a href=\"y>z\" id = 1 k='v' >".toList) (.inl ⟨['a'], " href=\"y>z\" id = 1 k='v'".toList, [' '], [], rfl, (name _ (.inr rfl)).1, fun _ => (name _ (.inr rfl)).2, ?_, .inr (gap _), .inl rfl⟩) ?_
  · refine .cons (x := " href=\"y>z\"".toList) ⟨[' '], "href".toList, "=\"y>z\"".toList, rfl, gap _, attr _ (.inl rfl), .inr ⟨[], [], "\"y>z\"".toList, rfl, by simp, by simp, .inr (.inr ⟨"y>z".toList, rfl, by decide⟩)⟩⟩ ?_
    refine .cons (x := " id = 1".toList) ⟨[' '], "id".toList, " = 1".toList, rfl, gap _, attr _ (.inr (.inl rfl)), .inr ⟨[' '], [' '], ['1'], rfl, by simp [WhiteSpace], by simp [WhiteSpace], .inl ⟨by simp, by simp [Unquoted, WhiteSpace]⟩⟩⟩ ?_
    exact .cons (x := " k='v'".toList) (t := []) ⟨[' '], ['k'], "='v'".toList, rfl, gap _, attr _ (.inr (.inr rfl)), .inr ⟨[], [], "'v'".toList, rfl, by simp, by simp, .inr (.inl ⟨['v'], rfl, by decide⟩)⟩⟩ .nil
  · refine .char (by decide) (.tag (x := "</a>".toList) (removed_close p (name _ (.inr rfl)).1 (name _ (.inr rfl)).2) ?_)
    refine .tag (x := "<!-- c -->".toList) (.inr (.inr ⟨.inl ⟨" c".toList, ' ', rfl, by simp, by decide, by decide, by decide, by decide⟩, by decide +kernel⟩)) ?_
    exact .tag (x := "<?d?>".toList) (s := []) (.inr (.inr ⟨.inr (.inl ⟨['d'], rfl, by decide⟩), by decide +kernel⟩)) .nil

/-- **C58**: the filtered tags stay for github, they go for cmark; a tag inside a tag leaves a tag. -/
theorem C58_limits :
    removeHtmlTags asciiEnv "<script>a</script>".toList .github = "<script>a</script>".toList ∧
    removeHtmlTags asciiEnv "<script>a</script>".toList .cmark = "a".toList ∧
    removeHtmlTags asciiEnv "<<a>a>".toList .github = "<a>".toList := by
  refine ⟨?_, ?_, ?_⟩ <;> decide +kernel

/-! ### C54 -/

/-- **C54** -/
theorem C54_positions (s : Str) (rs : List (Nat × Nat)) :
    ∃ is, (∀ i, i ∈ is ↔ i < s.length ∧ ¬ ∃ r ∈ rs, InRange r i) ∧ AtPositions s is (filterIndices s rs) := by
  obtain ⟨is, h1, h2, h3⟩ := Cmark.filterIndicesFrom_positions rs s 0
  refine ⟨is, ?_, h1, ?_⟩
  · intro i
    rw [h2]
    simp
  · unfold filterIndices; simpa using h3

example : filterIndices "abcdef".toList [(1, 3), (2, 4), (5, 5), (5, 9)] = "ae".toList := by decide +kernel

/-! ### C49 -/

theorem removeEmphasis_ok {E : Env} {s t : Str} {p : Parser} (h : removeEmphasis E s p = .ok t) :
    ∃ rs, Cmark.parseInlines E (s.filter (· != '\x00')) = .ok rs ∧ t = filterIndices (s.filter (· != '\x00')) rs := by
  unfold removeEmphasis at h
  simp only [bind, Except.bind] at h
  split at h
  · simp at h
  · rename_i rs hrs
    injection h with h
    exact ⟨rs, hrs, h.symm⟩

/-- **C49** -/
theorem C49_only_delimiters {E : Env} {s t : Str} {p : Parser} (h : removeEmphasis E s p = .ok t) :
    Without (fun c => c = '*' ∨ c = '_') (s.filter (· != '\x00')) t := by
  obtain ⟨rs, h1, rfl⟩ := removeEmphasis_ok h
  apply Cmark.filterIndicesFrom_without
  intro r hr i c hi hc
  rcases (Cmark.parseInlines_pairs h1).mem r hr i (by simpa using hi.1) (by simpa using hi.2) with e | e
  · rw [hc] at e; exact .inl (Option.some.inj e)
  · rw [hc] at e; exact .inr (Option.some.inj e)

example : removeEmphasis asciiEnv "a *b __c__ \\*d* `*e*` [*f](g*)".toList .github = .ok "a b c \\*d `*e*` [*f](g*)".toList := by decide +kernel

/-! ### C50 -/

/-- **C50** -/
theorem C50_unchanged {E : Env} {s t : Str} {p : Parser} (h1 : '*' ∉ s) (h2 : '_' ∉ s) (h : removeEmphasis E s p = .ok t) : t = s.filter (· != '\x00') := by
  obtain ⟨rs, hr, rfl⟩ := removeEmphasis_ok h
  have : rs = [] := Cmark.parseInlines_none (fun hm => h1 (List.mem_filter.mp hm).1) (fun hm => h2 (List.mem_filter.mp hm).1) hr
  subst this
  exact Cmark.filterIndicesFrom_nil _ _

/-! ### C52 -/

/-- **C52**, partial: no exception for the texts of `Spec.Tame`.  Missing: link destinations with titles, backslashes, parentheses or
`&`; reference links; the other texts raise an exception or are not characterised. -/
theorem C52_no_exception_partial {E : Env} {s : Str} (p : Parser) (h : Tame E.isDigit (s.filter (· != '\x00'))) : ∃ t, removeEmphasis E s p = .ok t := by
  obtain ⟨rs, hrs⟩ := Cmark.parseInlines_total (Cmark.tame_safe h)
  unfold removeEmphasis
  simp only [bind, Except.bind, hrs]
  exact ⟨_, rfl⟩

/-- A text without the characters that have a meaning. -/
theorem tame_plain {isDigit : Char → Bool} {s : Str} (h : ∀ c ∈ s, c ∉ "\r&]".toList ∧ c.toNat ≠ 256) : Tame isDigit s where
  no_cr := fun hc => (h _ hc).1 (by decide)
  no_256 := fun c hc => (h c hc).2
  digits := fun hc => absurd (by decide) (h _ hc).1
  label := by rintro a b rfl; exact (h ']' (by simp)).1 (by decide)
  dest := by rintro a b rfl; exact absurd (by decide) (h ']' (by simp)).1

/-- **C50**: always unchanged without any character that has a meaning. -/
theorem C50_plain (E : Env) {s : Str} (p : Parser) (h : ∀ c ∈ s, c ∉ "\x00\n\r!&*<[\\]_`".toList ∧ c.toNat ≠ 256) : removeEmphasis E s p = .ok s := by
  have hf : s.filter (· != '\x00') = s := by
    rw [List.filter_eq_self]
    intro c hc
    simp only [bne_iff_ne, ne_eq]
    rintro rfl
    exact (h _ hc).1 (by decide)
  obtain ⟨t, ht⟩ := C52_no_exception_partial (E := E) (s := s) p (tame_plain (by
    rw [hf]
    intro c hc
    refine ⟨?_, (h c hc).2⟩
    intro hm
    apply (h c hc).1
    have : ∀ d ∈ "\r&]".toList, d ∈ "\x00\n\r!&*<[\\]_`".toList := by decide
    exact this c hm))
  rw [ht, C50_unchanged (fun hm => (h _ hm).1 (by decide)) (fun hm => (h _ hm).1 (by decide)) ht, hf]

example : ∀ c ∈ "Plain 'text' - \"with\" (marks), 100% déjà vu…".toList, c ∉ "\x00\n\r!&*<[\\]_`".toList ∧ c.toNat ≠ 256 := by decide +kernel

/-- Another text of `Spec.Tame`, with links. -/
example : Tame asciiEnv.isDigit "[*a*](#b) &amp; <c@d.e> [f] `g` x".toList where
  no_cr := by decide +kernel
  no_256 := by decide +kernel
  digits := by decide +kernel
  label := by
    intro a b e
    have : ∀ i : Fin 40, ("[*a*](#b) &amp; <c@d.e> [f] `g` x".toList)[i.val]? = some ']' → ("[*a*](#b) &amp; <c@d.e> [f] `g` x".toList)[i.val + 1]? ≠ some '[' := by decide +kernel
    have hl := congrArg List.length e
    simp at hl
    refine this ⟨a.length, by omega⟩ ?_ ?_
    · simp only; rw [e]; simp
    · simp only; rw [e]; simp
  dest := by
    intro a b e
    have : ∀ i : Fin 40, ("[*a*](#b) &amp; <c@d.e> [f] `g` x".toList)[i.val]? = some ']' → ("[*a*](#b) &amp; <c@d.e> [f] `g` x".toList)[i.val + 1]? = some '(' → i.val = 4 := by decide +kernel
    have hl := congrArg List.length e
    simp at hl
    have ha : a.length = 4 := this ⟨a.length, by omega⟩ (by simp only; rw [e]; simp) (by simp only; rw [e]; simp)
    have hb : b = "#b) &amp; <c@d.e> [f] `g` x".toList := by
      have := congrArg (List.drop 6) e
      rw [List.drop_append (l₁ := a), List.drop_eq_nil_of_le (as := a) (by omega), ha] at this
      exact this.symm
    exact ⟨"#b".toList, " &amp; <c@d.e> [f] `g` x".toList, hb, by decide +kernel⟩

/-- **C52**: the exceptions. -/
theorem C52_violation :
    removeEmphasis asciiEnv "[a][b]".toList .github = .error .KeyError ∧
    removeEmphasis asciiEnv "[a](b \"t\"".toList .github = .error .IndexError ∧
    removeEmphasis asciiEnv "[a](b\\ )".toList .github = .error .IndexError ∧
    removeEmphasis asciiEnv "[a](b \"t\\\")".toList .github = .error .IndexError ∧
    removeEmphasis asciiEnv "aĀ".toList .github = .error .IndexError ∧
    removeEmphasis asciiEnv "`a\r`".toList .github = .error .IndexError := by
  refine ⟨?_, ?_, ?_, ?_, ?_, ?_⟩ <;> decide +kernel

/-- **C52**: a reference with a Bengali digit (which `\d` matches). -/
theorem C52_violation_digit : removeEmphasis { asciiEnv with isDigit := fun c => isAsciiDigit c || c == '১' } "&#x১;".toList .github = .error .ValueError := by
  decide +kernel

/-! ### C51 -/

/-- **C51**: the bounds on the loops of the model are never reached. -/
theorem C51_terminates (E : Env) (s : Str) (p : Parser) : removeEmphasis E s p ≠ .error .OutOfFuel := by
  intro h
  rcases removeEmphasis_err E s p _ h with h | h | h <;> exact absurd h (by decide)

/-- **C51**: every round of the main loop moves on. -/
theorem C51_progress {E : Env} {s s' : Cmark.Subj} {c : Char} (hp : Cmark.peek s = some c) (h : Cmark.parseInline E s c = .ok s') : s.pos < s'.pos :=
  (Cmark.parseInline_moves hp h).2.2

/-! ### C53 -/

theorem pairs_list {s : Str} {rs : List (Nat × Nat)} (h : Cmark.PairsOk s rs) :
    ∃ ps : List (Nat × Nat × Nat), (∀ p ∈ ps, DelimPair s p.1 p.2.1 p.2.2) ∧ ∀ i, (∃ r ∈ rs, InRange r i) ↔ InPairs ps i := by
  induction h with
  | nil => exact ⟨[], by simp, by simp [InPairs]⟩
  | @snoc rs r r' _ hp ih =>
    obtain ⟨ps, h1, h2⟩ := ih
    obtain ⟨c, u, hc, hu, e1, e2, hlt, ha, hb⟩ := hp
    refine ⟨ps ++ [(r.1, r'.1, u)], ?_, ?_⟩
    · intro p hp
      rcases List.mem_append.mp hp with hp | hp
      · exact h1 p hp
      · rw [List.mem_singleton] at hp
        subst hp
        refine ⟨hu, by simp only; omega, c, hc, ?_, ?_⟩
        · intro i hi
          exact ha i hi.1 (by have := hi.2; simp only at this; omega)
        · intro i hi
          exact hb i hi.1 (by have := hi.2; simp only at this; omega)
    · intro i
      have e : (∃ q ∈ rs ++ [r, r'], InRange q i) ↔ (∃ q ∈ rs, InRange q i) ∨ InRange r i ∨ InRange r' i := by
        simp only [List.mem_append, List.mem_cons, List.not_mem_nil, or_false]
        constructor
        · rintro ⟨q, hq | rfl | rfl, hi⟩
          · exact .inl ⟨q, hq, hi⟩
          · exact .inr (.inl hi)
          · exact .inr (.inr hi)
        · rintro (⟨q, hq, hi⟩ | hi | hi)
          · exact ⟨q, .inl hq, hi⟩
          · exact ⟨r, .inr (.inl rfl), hi⟩
          · exact ⟨r', .inr (.inr rfl), hi⟩
      rw [e, h2]
      have er : InRange r i ↔ InRange (r.1, r.1 + u) i := by unfold InRange; simp only; omega
      have er' : InRange r' i ↔ InRange (r'.1, r'.1 + u) i := by unfold InRange; simp only; omega
      rw [er, er']
      unfold InPairs
      simp only [List.mem_append, List.mem_singleton]
      constructor
      · rintro (⟨p, hp, hi⟩ | hi)
        · exact ⟨p, .inl hp, hi⟩
        · exact ⟨_, .inr rfl, hi⟩
      · rintro ⟨p, hp | rfl, hi⟩
        · exact .inl ⟨p, hp, hi⟩
        · exact .inr hi

/-- **C53**, partial: what is removed is a union of pairs of pieces of the same size and character.  Missing: that the pieces do not
overlap (false in general: `C53_violation`). -/
theorem C53_pairs_partial {E : Env} {s t : Str} {p : Parser} (hn : '\x00' ∉ s) (h : removeEmphasis E s p = .ok t) :
    ∃ ps : List (Nat × Nat × Nat), (∀ p ∈ ps, DelimPair s p.1 p.2.1 p.2.2) ∧
      ∃ is, (∀ i, i ∈ is ↔ i < s.length ∧ ¬ InPairs ps i) ∧ AtPositions s is t := by
  obtain ⟨rs, h1, rfl⟩ := removeEmphasis_ok h
  have hf : s.filter (· != '\x00') = s := by
    rw [List.filter_eq_self]
    intro c hc
    simp only [bne_iff_ne, ne_eq]
    rintro rfl
    exact hn hc
  rw [hf] at h1 ⊢
  obtain ⟨ps, a, b⟩ := pairs_list (Cmark.parseInlines_pairs h1)
  obtain ⟨is, c, d⟩ := C54_positions s rs
  exact ⟨ps, a, is, fun i => by rw [c, b], d⟩

/-- **C53**, partial: if every run of delimiters is one-sided, an even number of each character is removed. -/
theorem C53_even_partial {E : Env} {s t : Str} {p : Parser} (hs : OneSided E.isPCat (s.filter (· != '\x00'))) (h : removeEmphasis E s p = .ok t) (c : Char) (hc : c ≠ '\x00') :
    ∃ k, s.count c = t.count c + 2 * k := by
  obtain ⟨rs, h1, rfl⟩ := removeEmphasis_ok h
  have he := Cmark.pairs_even (Cmark.parseInlines_pairs h1) c (Cmark.parseInlines_apart (Cmark.oneSided_runs hs) h1)
  have hcount := Cmark.filterIndicesFrom_count c rs (s.filter (· != '\x00')) 0
  simp only [Nat.add_zero] at hcount
  have hfc : (s.filter (· != '\x00')).count c = s.count c := by
    rw [List.count_filter]
    simpa using hc
  rw [hfc] at hcount
  refine ⟨(s.count c - (filterIndices (s.filter (· != '\x00')) rs).count c) / 2, ?_⟩
  unfold filterIndices
  omega

instance : DecidablePred AsciiWhite := fun _ => by unfold AsciiWhite; infer_instance
instance : DecidablePred AsciiPunct := fun _ => by unfold AsciiPunct; infer_instance

/-- A text whose runs are one-sided, to which `C53_even_partial` applies. -/
example : OneSided asciiEnv.isPCat "*a **b** c* __d__ e*".toList := by
  intro x c n y e hc hy
  generalize hs : "*a **b** c* __d__ e*".toList = s at e
  have key : ∀ k i : Fin 20, k ≤ i → ∀ c ∈ ['*', '_'], (∀ j : Fin 20, k ≤ j → j ≤ i → s[j.val]? = some c) → s[i.val + 1]? ≠ some c →
      (∀ d ∈ s[i.val + 1]?, AsciiWhite d) ∨
      ((∀ d ∈ s[i.val + 1]?, ¬ AsciiPunct d ∧ asciiEnv.isPCat d = false) ∧ ∀ d ∈ (s.take k.val).getLast?, AsciiWhite d ∨ AsciiPunct d) := by
    clear e
    subst hs
    decide +kernel
  have hl : s.length = 20 := by subst hs; decide +kernel
  rw [e] at hl
  simp only [List.length_append, List.length_replicate] at hl
  have hy' : s[x.length + n + 1]? = y.head? := by
    rw [e, List.getElem?_append_right (by simp only [List.length_append, List.length_replicate]; omega), List.head?_eq_getElem?]
    congr 1
    simp only [List.length_append, List.length_replicate]
    omega
  have hx : s.take x.length = x := by rw [e]; simp
  have := key ⟨x.length, by omega⟩ ⟨x.length + n, by omega⟩ (by simp) c (by simpa using hc) (by
    intro j h1 h2
    rw [Fin.le_def] at h1 h2
    simp only at h1 h2
    rw [e, List.append_assoc, List.getElem?_append_right h1, List.getElem?_append_left (by simp; omega), List.getElem?_replicate, if_pos (by omega)]) (by
    simp only
    rw [hy']
    exact hy)
  simpa only [hy', hx] using this

/-- **C53**: an odd number of characters is removed. -/
theorem C53_violation : removeEmphasis asciiEnv "*a***b**".toList .github = .ok "a*b".toList ∧
    "*a***b**".toList.count '*' = 6 ∧ "a*b".toList.count '*' = 1 := by decide +kernel

/-! ### C59 -/

/-- **C59**: the delimiters of emphasised phrases are removed. -/
theorem C59_emphasis_removed {E : Env} {s t : Str} (p : Parser) (h : Unwrapped E.isPCat s t) : removeEmphasis E s p = .ok t := by
  have hplain : ∀ {s t : Str}, Unwrapped E.isPCat s t → ∀ c ∈ s, c ≠ '\x00' := by
    intro s t h
    induction h with
    | plain hu => exact fun c hc => (hu c hc).1
    | @emph u w s t n ch hu _ hch hw _ _ _ _ ih =>
      intro c hc
      simp only [List.mem_append] at hc
      have hr : ∀ {c}, c ∈ List.replicate (n + 1) ch → c ≠ '\x00' := by
        intro c hc
        rw [(List.mem_replicate.mp hc).2]
        rcases hch with rfl | rfl <;> decide
      rcases hc with (((hc | hc) | hc) | hc) | hc
      · exact (hu c hc).1
      · exact hr hc
      · exact (hw c hc).1
      · exact hr hc
      · exact ih c hc
  have hf : s.filter (· != '\x00') = s := by
    rw [List.filter_eq_self]
    intro c hc
    simpa using hplain h c hc
  obtain ⟨rs, h1, h2⟩ := Cmark.parseInlines_unwrapped h
  unfold removeEmphasis
  simp only [bind, Except.bind, hf, h1, h2]

instance (c : Char) : Decidable (Plain c) := by unfold Plain; infer_instance
instance (c : Char) : Decidable (UniSpace c) := by unfold UniSpace; infer_instance
instance (punct : Char → Bool) (c : Char) : Decidable (WordChar punct c) := by unfold WordChar; infer_instance

/-- Two phrases, with one and three delimiters. -/
example : Unwrapped asciiEnv.isPCat "A *short, simple* and ___héllo___ !".toList "A short, simple and héllo !".toList :=
  .emph (u := "A ".toList) (w := "short, simple".toList) (s := " and ___héllo___ !".toList) (t := " and héllo !".toList) (n := 0) (ch := '*')
    (by decide +kernel) (by simp [Blank]) (.inl rfl) (by decide +kernel) ⟨'s', rfl, by decide +kernel⟩ ⟨'e', rfl, by decide +kernel⟩ (by simp [Blank])
    (.emph (u := " and ".toList) (w := "héllo".toList) (s := " !".toList) (t := " !".toList) (n := 2) (ch := '_')
      (by decide +kernel) (by simp [Blank]) (.inr rfl) (by decide +kernel) ⟨'h', rfl, by decide +kernel⟩ ⟨'o', rfl, by decide +kernel⟩ (by simp [Blank])
      (.plain (by decide +kernel)))

end MdToc.Props
