import Verif.Props.Locality

/-!
# Capital and small letters in headings: C111
-/

set_option linter.unusedSimpArgs false

namespace MdToc.Props

open MdToc MdToc.Spec

/-- The characters are the same, or the capital and the small form of one of the 26 letters. -/
def AsciiCase (c c' : Char) : Prop :=
  c = c' ∨ ∃ k < 26, (c = Char.ofNat (65 + k) ∧ c' = Char.ofNat (97 + k)) ∨ (c = Char.ofNat (97 + k) ∧ c' = Char.ofNat (65 + k))

/-- The texts differ in nothing but capital and small letters: with redcarpet in those of ASCII, with the other parsers in those known to Python's `lower`. -/
def SameButCase (E : Env) (p : Parser) (t t' : Str) : Prop :=
  if p = .redcarpet then List.Forall₂ AsciiCase t t' else E.lower t = E.lower t'

/-- The loop treats the characters the same. -/
theorem asciiCase_class {c c' : Char} (h : AsciiCase c c') :
    c = c' ∨ (c ≠ '<' ∧ c ≠ '&' ∧ (!isascii c || redcarpetStripped.contains c) = false ∧ c' ≠ '<' ∧ c' ≠ '&' ∧ (!isascii c' || redcarpetStripped.contains c') = false ∧
      asciiLower c = asciiLower c') := by
  rcases h with h | ⟨k, hk, h⟩
  · exact .inl h
  · right
    have key : ∀ k < 26, Char.ofNat (65 + k) ≠ '<' ∧ Char.ofNat (65 + k) ≠ '&' ∧ (!isascii (Char.ofNat (65 + k)) || redcarpetStripped.contains (Char.ofNat (65 + k))) = false ∧
        Char.ofNat (97 + k) ≠ '<' ∧ Char.ofNat (97 + k) ≠ '&' ∧ (!isascii (Char.ofNat (97 + k)) || redcarpetStripped.contains (Char.ofNat (97 + k))) = false ∧
        asciiLower (Char.ofNat (65 + k)) = asciiLower (Char.ofNat (97 + k)) := by decide +kernel
    obtain ⟨h1, h2, h3, h4, h5, h6, h7⟩ := key k hk
    rcases h with ⟨rfl, rfl⟩ | ⟨rfl, rfl⟩
    · exact ⟨h1, h2, h3, h4, h5, h6, h7⟩
    · exact ⟨h4, h5, h6, h1, h2, h3, h7.symm⟩

theorem redcarpetLoop_case {t t' : Str} (h : List.Forall₂ AsciiCase t t') : ∀ acc ins str, redcarpetLoop t acc ins str = redcarpetLoop t' acc ins str := by
  induction h with
  | nil => intros; rfl
  | @cons c c' t t' hc _ ih =>
    intro acc ins str
    rcases asciiCase_class hc with rfl | ⟨h1, h2, h3, h4, h5, h6, h7⟩
    · simp only [redcarpetLoop, ih]
    · rw [redcarpetLoop, redcarpetLoop, if_neg h1, if_neg h2, if_neg (by rw [h3]; decide), if_neg h4, if_neg h5, if_neg (by rw [h6]; decide), h7, ih]

/-- The number of kept characters does not go down. -/
theorem redcarpetLoop_count : ∀ (t acc : Str) (ins : Nat) (str : Bool), ins ≤ (redcarpetLoop t acc ins str).2.1
  | [], _, _, _ => by simp [redcarpetLoop]
  | c :: t, acc, ins, str => by
    rw [redcarpetLoop]
    split
    · exact redcarpetLoop_count t _ _ _
    · split
      · exact redcarpetLoop_count t _ _ _
      · split
        · exact redcarpetLoop_count t _ _ _
        · exact Nat.le_trans (Nat.le_succ _) (redcarpetLoop_count t _ _ _)

/-- A text of which nothing is kept has no ASCII letters. -/
theorem nothing_kept {t t' : Str} (h : List.Forall₂ AsciiCase t t') : ∀ acc str, (redcarpetLoop t acc 0 str).2.1 = 0 → t = t' := by
  induction h with
  | nil => intros; rfl
  | @cons c c' t t' hc _ ih =>
    intro acc str h0
    rcases asciiCase_class hc with rfl | ⟨h1, h2, h3, -⟩
    · rw [redcarpetLoop] at h0
      split at h0
      · rw [ih _ _ h0]
      · split at h0
        · rw [ih _ _ h0]
        · split at h0
          · rw [ih _ _ h0]
          · have := redcarpetLoop_count t (acc ++ [asciiLower c]) (0 + 1) false
            omega
    · rw [redcarpetLoop, if_neg h1, if_neg h2, if_neg (by rw [h3]; decide)] at h0
      have := redcarpetLoop_count t (acc ++ [asciiLower c]) (0 + 1) false
      omega

theorem redcarpetAnchor_case {t t' : Str} (h : List.Forall₂ AsciiCase t t') : redcarpetAnchor t = redcarpetAnchor t' := by
  by_cases h0 : (redcarpetLoop t [] 0 false).2.1 = 0
  · rw [nothing_kept h _ _ h0]
  · have e := redcarpetLoop_case h [] 0 false
    unfold redcarpetAnchor
    rw [← e]
    clear e
    revert h0
    rcases redcarpetLoop t [] 0 false with ⟨acc, ins, str⟩
    intro h0
    have h0 : ¬ ins = 0 := h0
    simp only [h0, false_and, if_false]

/-- **C111**: the anchors of two texts that differ in capital and small letters only are the same, whatever headings came before, and count as the same heading for later ones. -/
theorem C111_anchor {E : Env} {p : Parser} {t t' : Str} (h : SameButCase E p t t') {d d1 d1' : Dup} {a a' : Str} (h1 : buildAnchorLink E t d p = .ok (a, d1))
    (h2 : buildAnchorLink E t' d p = .ok (a', d1')) : a = a' ∧ d1 = d1' := by
  unfold SameButCase at h
  unfold buildAnchorLink at h1 h2
  split at h1
  · cases h1
  split at h2
  · cases h2
  by_cases hp : p = .redcarpet
  · subst hp
    rw [if_pos rfl] at h
    rw [if_neg (by decide)] at h1 h2
    injection h1 with h1
    injection h2 with h2
    rw [redcarpetAnchor_case h, h2] at h1
    exact ⟨(Prod.mk.inj h1).1.symm, (Prod.mk.inj h1).2.symm⟩
  · rw [if_neg hp] at h
    rw [if_pos (cmarkLike_of_ne hp)] at h1 h2
    have e : baseAnchor E t p = baseAnchor E t' p := by
      unfold baseAnchor
      rw [h]
    rw [e] at h1
    rw [h1] at h2
    injection h2 with h2
    exact ⟨(Prod.mk.inj h2).1, (Prod.mk.inj h2).2⟩

theorem anchorRun_case {E : Env} {p : Parser} {ts ts' : List Str} (h : List.Forall₂ (SameButCase E p) ts ts') : ∀ {d d1 d1' : Dup} {as as' : List Str},
    anchorRun E p d ts = .ok (as, d1) → anchorRun E p d ts' = .ok (as', d1') → as = as' := by
  induction h with
  | nil =>
    intro d d1 d1' as as' h1 h2
    rw [h1] at h2
    injection h2 with h2
    exact (Prod.mk.inj h2).1
  | @cons t t' ts ts' ht _ ih =>
    intro d d1 d1' as as' h1 h2
    simp only [anchorRun, bind, Except.bind] at h1 h2
    cases e1 : buildAnchorLink E t d p with
    | error e => rw [e1] at h1; cases h1
    | ok x =>
      cases e2 : buildAnchorLink E t' d p with
      | error e => rw [e2] at h2; cases h2
      | ok x' =>
        obtain ⟨a, b⟩ := x
        obtain ⟨a', b'⟩ := x'
        obtain ⟨rfl, rfl⟩ := C111_anchor ht e1 e2
        rw [e1] at h1
        rw [e2] at h2
        simp only at h1 h2
        cases e3 : anchorRun E p b ts with
        | error e => rw [e3] at h1; cases h1
        | ok y =>
          cases e4 : anchorRun E p b ts' with
          | error e => rw [e4] at h2; cases h2
          | ok y' =>
            obtain ⟨u, v⟩ := y
            obtain ⟨u', v'⟩ := y'
            have := ih e3 e4
            subst this
            rw [e3] at h1
            rw [e4] at h2
            simp only [Except.ok.injEq, Prod.mk.injEq] at h1 h2
            rw [← h1.1, ← h2.1]

theorem listedInfo_case {E : Env} {p : Parser} {q : Nat → Bool} {heads heads' : List (Nat × Str)} (h : List.Forall₂ (fun x y => x.1 = y.1 ∧ SameButCase E p x.2 y.2) heads heads') :
    ∀ as : List Str, List.Forall₂ (fun x y => SameButCase E p x.2.1 y.2.1 ∧ x.2.2 = y.2.2) (listedInfo q heads as) (listedInfo q heads' as) := by
  induction h with
  | nil => intro as; simp [listedInfo]
  | @cons x y _ _ hx _ ih =>
    intro as
    obtain ⟨n, t⟩ := x
    obtain ⟨n', t'⟩ := y
    obtain ⟨h1, h2⟩ := hx
    simp only at h1 h2
    subst h1
    cases as with
    | nil => simp [listedInfo]
    | cons a as =>
      rw [listedInfo_cons, listedInfo_cons]
      by_cases hq : q n = true
      · rw [if_pos hq, if_pos hq]
        exact .cons ⟨h2, rfl⟩ (ih as)
      · rw [if_neg hq, if_neg hq]
        exact ih as

/-- **C111**: if two documents have the same headings but for capital and small letters then their tables have entries at the same places with the same link targets; nothing but capital and small letters in the
texts of the entries is different. -/
theorem C111_documents {E : Env} {o : Options} {fn fn' text text' out out' : Str} (h : buildToc E o fn (some ⟨text, false⟩) = .ok out) (h' : buildToc E o fn' (some ⟨text', false⟩) = .ok out')
    {vs vs' : List Str} (hv : Looks o fn text vs) (hv' : Looks o fn' text' vs') {heads heads' : List (Nat × Str)} (hh : Headings o.parser o.noLinks vs heads)
    (hh' : Headings o.parser o.noLinks vs' heads') (hc : List.Forall₂ (fun x y => x.1 = y.1 ∧ SameButCase E o.parser x.2 y.2) heads heads') :
    ∃ es es', Table E o vs out es ∧ Table E o vs' out' es' ∧ List.Forall₂ (fun e e' => e.level = e'.level ∧ e.number = e'.number ∧ e.indent = e'.indent ∧ e.anchor = e'.anchor ∧
      SameButCase E o.parser e.text e'.text) es es' := by
  have hl : heads.map Prod.fst = heads'.map Prod.fst := by
    clear hh hh'
    induction hc with
    | nil => rfl
    | cons h _ ih => rw [List.map_cons, List.map_cons, h.1, ih]
  have ht2 : List.Forall₂ (SameButCase E o.parser) (heads.map Prod.snd) (heads'.map Prod.snd) := by
    clear hh hh' hl
    induction hc with
    | nil => exact .nil
    | cons h _ ih => exact .cons h.2 ih
  obtain ⟨es, es', t1, t2, hplace⟩ := C87_places h h' hv hv' hh hh' (by rw [hl])
  refine ⟨es, es', t1, t2, ?_⟩
  obtain ⟨⟨hd, as, d, g1, g2, -, g4⟩, -⟩ := t1
  obtain ⟨⟨hd', as', d', k1, k2, -, k4⟩, -⟩ := t2
  have := headings_unique g1 hh
  subst this
  have := headings_unique k1 hh'
  subst this
  have := anchorRun_case ht2 g2 k2
  subst this
  have hrel := listedInfo_case (q := listed o.parser o.keep) hc as
  have g4' : es.map Entry.info = listedInfo (listed o.parser o.keep) hd as := g4
  have k4' : es'.map Entry.info = listedInfo (listed o.parser o.keep) hd' as := k4
  rw [← g4', ← k4'] at hrel
  refine forall2_imp ?_ (entries_rel hplace hrel)
  rintro e e' ⟨x1, x2, x3⟩
  simp only [Entry.place, Prod.mk.injEq] at x1
  exact ⟨x1.1, x1.2.1, x1.2.2, x3, x2⟩

/-! ### The theorems apply -/

/-- Two headings of one document that differ in capital letters only, and the same document with other capital letters. -/
example : buildToc asciiEnv {} "a.md".toList (some ⟨"# Big One\n# big one\n".toList, false⟩) = .ok "- [Big One](#big-one)\n- [big one](#big-one-1)\n".toList ∧
    buildToc asciiEnv {} "a.md".toList (some ⟨"# BIG one\n# Big one\n".toList, false⟩) = .ok "- [BIG one](#big-one)\n- [Big one](#big-one-1)\n".toList ∧
    SameButCase asciiEnv .github "Big One".toList "BIG one".toList ∧ SameButCase asciiEnv .github "big one".toList "Big one".toList ∧
    ¬ SameButCase asciiEnv .github "Big One".toList "Big Two".toList := by
  unfold SameButCase
  simp only [show ¬ Parser.github = Parser.redcarpet by decide, if_false]
  decide +kernel

/-- With redcarpet. -/
example : buildToc asciiEnv { parser := .redcarpet } "a.md".toList (some ⟨"# Up & Down\n".toList, false⟩) = .ok "- [Up & Down](#up-down)\n".toList ∧
    buildToc asciiEnv { parser := .redcarpet } "a.md".toList (some ⟨"# up & doWn\n".toList, false⟩) = .ok "- [up & doWn](#up-down)\n".toList ∧
    SameButCase asciiEnv .redcarpet "Up & Down".toList "up & doWn".toList := by
  refine ⟨by decide +kernel, by decide +kernel, ?_⟩
  unfold SameButCase
  rw [if_pos rfl]
  refine .cons (.inr ⟨20, by decide, .inl (by decide)⟩) (.cons (.inl rfl) (.cons (.inl rfl) (.cons (.inl rfl) (.cons (.inl rfl) (.cons (.inr ⟨3, by decide, .inl (by decide)⟩)
    (.cons (.inl rfl) (.cons (.inr ⟨22, by decide, .inr (by decide)⟩) (.cons (.inl rfl) .nil))))))))

/-- Letters outside of ASCII do matter with redcarpet. -/
theorem C111_other_letters : redcarpetAnchor "É".toList ≠ redcarpetAnchor "é".toList := by decide +kernel

end MdToc.Props
