import Verif.Props.Atx

/-!
# Headings: C14 and C15
-/

set_option linter.unusedSimpArgs false

namespace MdToc

open MdToc.Spec

theorem splitNl_mem_sub : ∀ (s l : Str), l ∈ splitNl s → ∀ c ∈ l, c ∈ s := by
  intro s
  induction s with
  | nil => intro l hl c hc; simp [splitNl] at hl; subst hl; simp at hc
  | cons x t ih =>
    intro l hl c hc
    simp only [splitNl] at hl
    split at hl
    · rcases List.mem_cons.mp hl with rfl | hl
      · simp at hc
      · exact List.mem_cons_of_mem _ (ih l hl c hc)
    · split at hl
      · simp at hl; subst hl; simp at hc; simp [hc]
      · rename_i a b he
        rcases List.mem_cons.mp hl with rfl | hl
        · rcases List.mem_cons.mp hc with rfl | hc
          · simp
          · exact List.mem_cons_of_mem _ (ih a (by rw [he]; simp) c hc)
        · exact List.mem_cons_of_mem _ (ih l (by rw [he]; simp [hl]) c hc)

/-- The sublines have no newline. -/
theorem sublines_no_newline (line l : Str) (h : l ∈ replaceAndSplitNewlines line) : ∀ c ∈ l, ¬ IsNewline c := by
  rw [replaceAndSplitNewlines_eq] at h
  rintro c hc (rfl | rfl)
  · exact splitNl_mem_no_nl _ _ h hc
  · have h1 := splitNl_mem_sub _ _ h _ hc
    exact universalNewlines_cr line ((strip_sublist _ _).subset h1)

theorem linkText_error {c : Str} {e : Exn} (h : linkText c = .error e) :
    e = .GithubEmptyLinkLabel ∨ e = .GithubOverflowCharsLinkLabel := by
  rw [Props.linkText_eq] at h
  split at h
  · simp at h; exact .inl h.symm
  · split at h
    · simp at h; exact .inr h.symm
    · simp at h

theorem atxSubline_total (p : Parser) (keep : Int) (noLinks vis : Bool) {s : Str} (hs : ∀ c ∈ s, ¬ IsNewline c) :
    (∃ r, atxSubline p keep noLinks vis s = .ok r) ∨
      (noLinks = false ∧ p.cmarkLike = true ∧ ∃ e, atxSubline p keep noLinks vis s = .error e ∧
        (e = .GithubEmptyLinkLabel ∨ e = .GithubOverflowCharsLinkLabel)) := by
  cases hp : p.cmarkLike with
  | false => left; simp [atxSubline, hp]
  | true =>
    rw [atxSubline_cmark hp]
    by_cases hex : ∃ m rest, IsAtx p s m rest
    · obtain ⟨m, rest, hm⟩ := hex
      obtain ⟨c, -, hc⟩ := atxCmark_heading hp hm hs
      rw [hc]
      cases noLinks
      · simp only [Bool.false_eq_true, if_false]
        cases hl : linkText c with
        | ok t => exact .inl ⟨_, rfl⟩
        | error e => exact .inr ⟨by simp, by simp, e, rfl, linkText_error hl⟩
      · exact .inl ⟨_, rfl⟩
    · obtain ⟨v, hv⟩ := atxCmark_other hp (fun m rest hm => hex ⟨m, rest, hm⟩) hs keep noLinks vis
      exact .inl ⟨_, hv⟩

theorem atxSublines_total (p : Parser) (keep : Int) (noLinks : Bool) (ls : List Str) :
    ∀ vis, (∀ s ∈ ls, ∀ c ∈ s, ¬ IsNewline c) →
    (∃ r, atxSublines p keep noLinks vis ls = .ok r ∧ r.length = ls.length) ∨
      (noLinks = false ∧ p.cmarkLike = true ∧ ∃ e, atxSublines p keep noLinks vis ls = .error e ∧
        (e = .GithubEmptyLinkLabel ∨ e = .GithubOverflowCharsLinkLabel)) := by
  induction ls with
  | nil => intro vis _; exact .inl ⟨[], rfl, rfl⟩
  | cons s t ih =>
    intro vis h
    simp only [atxSublines, bind, Except.bind]
    rcases atxSubline_total p keep noLinks vis (h s (by simp)) with ⟨r, hr⟩ | ⟨h1, h2, e, h3, h4⟩
    · rw [hr]
      simp only
      rcases ih r.2 (fun s hs => h s (by simp [hs])) with ⟨r', hr', hlen⟩ | ⟨h1, h2, e, h3, h4⟩
      · rw [hr']; exact .inl ⟨_, rfl, by simp [hlen]⟩
      · rw [h3]; exact .inr ⟨h1, h2, e, rfl, h4⟩
    · rw [h3]; exact .inr ⟨h1, h2, e, rfl, h4⟩

namespace Props

/-! ### C14 -/

/-- **C14.** `get_atx_heading` raises `ValueError` exactly when `keep_header_levels` is less than one; otherwise,
with links disabled or for redcarpet it never raises, and with links enabled it can only raise the two exceptions
about labels. -/
theorem C14_total (line : Str) (keep : Int) (p : Parser) (noLinks : Bool) :
    (getAtxHeading line keep p noLinks = .error .ValueError ↔ keep < 1) ∧
    (keep ≥ 1 → (noLinks = true ∨ p = .redcarpet) → ∃ r, getAtxHeading line keep p noLinks = .ok r) ∧
    (∀ e, getAtxHeading line keep p noLinks = .error e →
      e = .ValueError ∨ e = .GithubEmptyLinkLabel ∨ e = .GithubOverflowCharsLinkLabel) := by
  unfold getAtxHeading
  by_cases hk : keep ≥ 1
  · rw [if_neg (by simpa using hk)]
    split
    · refine ⟨by simp; omega, fun _ _ => ⟨_, rfl⟩, by simp⟩
    · rcases atxSublines_total p keep noLinks (replaceAndSplitNewlines line) true
        (fun s hs => sublines_no_newline line s hs) with ⟨r, hr, -⟩ | ⟨h1, h2, e, h3, h4⟩
      · rw [hr]; refine ⟨by simp; omega, fun _ _ => ⟨_, rfl⟩, by simp⟩
      · rw [h3]
        refine ⟨?_, ?_, ?_⟩
        · rcases h4 with rfl | rfl <;> simp <;> omega
        · rintro - (h | rfl)
          · rw [h] at h1; simp at h1
          · simp [Parser.cmarkLike] at h2
        · intro e' he; simp at he; subst he; exact .inr h4
  · rw [if_pos hk]
    refine ⟨by simp; omega, fun h => absurd h hk, ?_⟩
    intro e he; simp at he; exact .inl he.symm

/-- **C14**, one result for each line of the argument. -/
theorem C14_one_per_line (line : Str) (hne : line ≠ []) (keep : Int) (p : Parser) (noLinks : Bool) {r : List AtxElem}
    (h : getAtxHeading line keep p noLinks = .ok r) : r.length = (replaceAndSplitNewlines line).length := by
  unfold getAtxHeading at h
  split at h
  · simp at h
  · rw [if_neg (by simpa using hne)] at h
    rcases atxSublines_total p keep noLinks (replaceAndSplitNewlines line) true
        (fun s hs => sublines_no_newline line s hs) with ⟨r', hr, hl⟩ | ⟨-, -, e, h3, -⟩
    · rw [hr] at h; simp at h; rw [← h]; exact hl
    · rw [h3] at h; simp at h

example : getAtxHeading "#\n# a\r\n\\b".toList 1 .github true =
    .ok [⟨some 1, some [], true⟩, ⟨some 1, some "a".toList, true⟩, ⟨none, none, false⟩] ∧
  getAtxHeading "# a\n#".toList 1 .github false = .error .GithubEmptyLinkLabel := by decide +kernel

/-! ### C15 -/

theorem scanBack_append (q : Char → Bool) (s : Str) : scanBack q s.reverse s.length = (rstrip q s).length := by
  rw [scanBack_eq _ _ _ (by simp)]
  have h : (s.reverse.takeWhile q).length + (s.reverse.dropWhile q).length = s.length := by
    rw [← List.length_append, List.takeWhile_append_dropWhile]; simp
  have : (rstrip q s).length = (s.reverse.dropWhile q).length := by simp [rstrip]
  omega

theorem scanWhile_const_bounded (a : Char) (m : Nat) : ∀ (k : Nat) (t : Str) (i : Nat), (∀ c ∈ t.head?, c ≠ a) →
    scanWhile (fun i c => decide (i < m) && c == a) (List.replicate k a ++ t) i = i + min k (m - i) := by
  intro k
  induction k with
  | zero =>
    intro t i h
    cases t with
    | nil => simp [scanWhile]
    | cons c t => simp [scanWhile, h c (by simp)]
  | succ k ih =>
    intro t i h
    rw [List.replicate_succ, List.cons_append, scanWhile]
    by_cases hi : i < m
    · simp only [beq_self_eq_true, hi, decide_true, Bool.and_self, if_true]
      rw [ih t (i + 1) h]; omega
    · simp only [hi, decide_false, Bool.false_and, Bool.false_eq_true, if_false]; omega

/-- The parts of the rest of a redcarpet heading. -/
theorem redcarpetContent_exists (rest : Str) : ∃ c, RedcarpetContent rest c := by
  obtain ⟨l, r, e, hl, hr⟩ := span_split (· == ' ') rest
  obtain ⟨h, e2, hh, hh'⟩ := rstrip_eq (· == '#') r
  obtain ⟨m, e3, hm, hm'⟩ := rstrip_eq (· == ' ') (rstrip (· == '#') r)
  refine ⟨rstrip (· == ' ') (rstrip (· == '#') r), l, m, h, ?_, ?_, by simpa using hh, ?_, by simpa using hm', ?_⟩
  · rw [List.append_assoc, List.append_assoc, ← List.append_assoc _ m h, ← e3, ← e2, e]
  · intro x hx
    rcases List.mem_append.mp hx with hx | hx
    · simpa using hl x hx
    · simpa using hm x hx
  · rw [← e3]; simpa using hh'
  · rw [← e3, ← e2]; simpa using hr

theorem redcarpetContent_unique {rest c d : Str} (h : RedcarpetContent rest c) (h' : RedcarpetContent rest d) : c = d := by
  have key : ∀ {c}, RedcarpetContent rest c →
      c = rstrip (· == ' ') (rstrip (· == '#') (lstrip (· == ' ') rest)) := by
    rintro c ⟨l, m, h, e, h1, h2, h3, h4, h5⟩
    have e1 : lstrip (· == ' ') rest = c ++ m ++ h := by
      rw [e, List.append_assoc, List.append_assoc]
      have := lstrip_unique (p := (· == ' ')) (a := l) (b := c ++ m ++ h) (fun x hx => by simpa using h1 x (by simp [hx]))
        (by simpa using h5)
      rw [List.append_assoc] at this
      rw [this, List.append_assoc]
    have e2 := rstrip_unique (p := (· == '#')) (a := h) (b := c ++ m) (by simpa using h2) (by simpa using h3)
    have e3 := rstrip_unique (p := (· == ' ')) (a := m) (b := c) (fun x hx => by simpa using h1 x (by simp [hx])) (by simpa using h4)
    rw [e1, e2, e3]
  rw [key h, key h']

theorem scanWhile_all (q : Char → Bool) (s : Str) (i : Nat) (h : ∀ c ∈ s, q c = true) :
    scanWhile (fun _ c => q c) s i = i + s.length := by
  rw [scanWhile_const q]
  have := List.takeWhile_append_of_pos (l₂ := []) h
  simp only [List.append_nil, List.takeWhile_nil] at this
  rw [this]

/-- Stripping both kinds of characters never goes past the start, if the start is where the first kind ends. -/
theorem redcarpetEnd_eq (line : Str) (i : Nat) (hi : i ≤ line.length) (hnl : '\n' ∉ line) :
    redcarpetEnd line i = (rstrip (· == ' ') (rstrip (· == '#') line)).length := by
  have he : scanWhile (fun _ c => c != '\n') (line.drop i) i = line.length := by
    rw [scanWhile_all (· != '\n')]
    · simp; omega
    · intro x hx
      have hm := List.mem_of_mem_drop hx
      cases hxn : (x != '\n') with
      | true => rfl
      | false =>
        have : x = '\n' := by simpa using hxn
        subst this; contradiction
  have ht : line.take (rstrip (· == '#') line).length = rstrip (· == '#') line :=
    (List.prefix_iff_eq_take.mp (rstrip_prefix _ _)).symm
  unfold redcarpetEnd
  simp only [he, List.take_length]
  rw [scanBack_append, ht, scanBack_append]

theorem rstrip_append_all {q : Char → Bool} (a : Str) {b : Str} (hb : ∀ c ∈ b, q c = true) :
    rstrip q (a ++ b) = rstrip q a := by
  obtain ⟨x, e, hx, hx'⟩ := rstrip_eq q a
  conv_lhs => rw [e, List.append_assoc]
  refine rstrip_unique ?_ hx'
  intro c hc
  rcases List.mem_append.mp hc with h | h
  · exact hx c h
  · exact hb c h

theorem getLast?_append_ne {a b : Str} (hb : b ≠ []) : (a ++ b).getLast? = b.getLast? := by
  rw [List.getLast?_append]
  cases hg : b.getLast? with
  | none => rw [List.getLast?_eq_none_iff] at hg; exact absurd hg hb
  | some y => simp

/-- The result of the redcarpet part for a line with an opening sequence. -/
theorem atxRedcarpet_opening {line rest : Str} {n : Nat} (h : IsRedcarpetAtx line n rest) (hnl : '\n' ∉ line) {c : Str}
    (hc : RedcarpetContent rest c) (noLinks vis : Bool) :
    atxRedcarpet noLinks vis line =
      if c = [] then (⟨none, none, false⟩, false)
      else (⟨some n, some (if noLinks = false ∧ line.getLast? = some '\\' then c ++ [' '] else c), vis⟩, vis) := by
  obtain ⟨h1, h6, e, hh⟩ := h
  obtain ⟨l, m, hs, er, hlm, hhs, hc1, hc2, hc3⟩ := hc
  have hhash : ∀ c ∈ rest.head?, c ≠ '#' := by
    rintro c hc rfl; exact absurd (hh _ hc) (by decide)
  have hl : ∀ x ∈ l, (x == ' ') = true := fun x hx => by simpa using hlm x (by simp [hx])
  have hm : ∀ x ∈ m, (x == ' ') = true := fun x hx => by simpa using hlm x (by simp [hx])
  have hi : scanWhile (fun i c => decide (i < maxLevels) && c == '#') line 0 = n := by
    rw [e, scanWhile_const_bounded _ _ _ _ _ hhash]; simp only [maxLevels]; omega
  have hd : line.drop n = rest := by rw [e]; simp
  have hne : ¬ (line.length = 0 ∨ line.head? ≠ some '#') := by
    obtain ⟨n', rfl⟩ : ∃ n', n = n' + 1 := ⟨n - 1, by omega⟩
    rw [e]; simp [List.replicate_succ]
  have hbad : badAfterHashesRedcarpet (line.drop n) = false := by
    rw [hd]
    cases rest with
    | nil => rfl
    | cons x r => simpa [badAfterHashesRedcarpet] using hh x (by simp)
  have hi2 : scanWhile (fun _ c => c == ' ') (line.drop n) n = n + l.length := by
    rw [hd, scanWhile_const (· == ' '), er, List.append_assoc, List.append_assoc, List.takeWhile_append_of_pos hl]
    have : (c ++ (m ++ hs)).takeWhile (· == ' ') = [] := by
      have h0 : ∀ x ∈ (c ++ (m ++ hs)).head?, x ≠ ' ' := by rw [← List.append_assoc]; exact hc3
      cases hx : c ++ (m ++ hs) with
      | nil => rfl
      | cons y z => rw [hx] at h0; simp [h0 y (by simp)]
    rw [this]; simp
  have hline : line = (List.replicate n '#' ++ l ++ c ++ m) ++ hs := by rw [e, er]; simp
  have hlen : line.length = n + l.length + c.length + m.length + hs.length := by
    rw [hline]; simp only [List.length_append, List.length_replicate]
  have hend := redcarpetEnd_eq line (n + l.length) (by omega) hnl
  unfold atxRedcarpet
  rw [if_neg hne]
  simp only [hi, hbad, Bool.false_eq_true, if_false, hi2, hend]
  have hr1 : rstrip (· == '#') line = rstrip (· == '#') (List.replicate n '#' ++ l ++ c ++ m) := by
    conv_lhs => rw [hline]
    exact rstrip_append_all _ (by simpa using hhs)
  rw [hr1]
  by_cases hc0 : c = []
  · subst hc0
    have hm0 : m = [] := by
      cases m with
      | nil => rfl
      | cons y m => exact absurd (hlm y (by simp)) (hc3 y (by simp))
    subst hm0
    simp only [List.append_nil, if_true]
    rw [if_neg]
    have h1 := rstrip_length_le (· == ' ') (rstrip (· == '#') (List.replicate n '#' ++ l))
    have h2 := rstrip_length_le (· == '#') (List.replicate n '#' ++ l)
    have h3 : (List.replicate n '#' ++ l).length = n + l.length := by simp
    omega
  · have hr2 : rstrip (· == '#') (List.replicate n '#' ++ l ++ c ++ m) = List.replicate n '#' ++ l ++ c ++ m := by
      refine rstrip_of_last ?_
      intro x hx
      rw [List.append_assoc _ c m, getLast?_append_ne (by simp [hc0])] at hx
      simpa using hc1 x hx
    have hr3 : rstrip (· == ' ') (List.replicate n '#' ++ l ++ c ++ m) = List.replicate n '#' ++ l ++ c := by
      refine rstrip_unique hm ?_
      intro x hx
      rw [getLast?_append_ne hc0] at hx
      simpa using hc2 x hx
    have hel : (List.replicate n '#' ++ l ++ c).length = n + l.length + c.length := by
      simp only [List.length_append, List.length_replicate]
    have hcl : 0 < c.length := List.length_pos_iff.mpr hc0
    rw [hr2, hr3, if_neg hc0, hel, if_pos (by omega)]
    have hline' : line = (List.replicate n '#' ++ l) ++ c ++ (m ++ hs) := by rw [hline]; simp
    have hll : n + l.length = (List.replicate n '#' ++ l).length := by simp
    have hpos : line.length > 0 := by omega
    unfold redcarpetText
    by_cases hlk : noLinks = false ∧ line.getLast? = some '\\'
    · -- the line ends with a backslash: nothing was cut
      have hmhs : m ++ hs = [] := by
        by_contra h0
        have h1 : (m ++ hs).getLast? = some '\\' := by
          rw [← hlk.2, hline', getLast?_append_ne h0]
        have : '\\' ∈ m ++ hs := List.mem_of_getLast? h1
        rcases List.mem_append.mp this with h | h
        · exact absurd (hlm '\\' (by simp [h])) (by decide)
        · exact absurd (hhs '\\' h) (by decide)
      have hcond : (!noLinks && decide (line.length > 0) && line.getLast? == some '\\') = true := by
        rw [hlk.1, hlk.2, decide_eq_true hpos]; rfl
      rw [if_pos hlk, hcond, if_pos rfl]
      rw [hmhs, List.append_nil] at hline'
      have := slice_eq (List.replicate n '#' ++ l) (c ++ [' ']) []
      simp only [List.append_nil] at this
      rw [← hll, ← List.append_assoc, ← hline'] at this
      rw [List.length_append, List.length_singleton, ← Nat.add_assoc] at this
      rw [this]
    · have hcond : (!noLinks && decide (line.length > 0) && line.getLast? == some '\\') = false := by
        cases noLinks
        · have : ¬ line.getLast? = some '\\' := fun h => hlk ⟨rfl, h⟩
          rw [decide_eq_true hpos]
          simpa using this
        · rfl
      rw [if_neg hlk, hcond, if_neg (by decide)]
      have := slice_eq (List.replicate n '#' ++ l) c (m ++ hs)
      rw [← hline', ← hll] at this
      rw [this]

theorem atxRedcarpet_other {line : Str} (h : ∀ n rest, ¬ IsRedcarpetAtx line n rest) (noLinks vis : Bool) :
    atxRedcarpet noLinks vis line = (⟨none, none, false⟩, vis) := by
  obtain ⟨n, rest, e, hh⟩ := replicate_split '#' line
  unfold atxRedcarpet
  split
  · rfl
  · rename_i hne
    have hi : scanWhile (fun i c => decide (i < maxLevels) && c == '#') line 0 = min n 6 := by
      rw [e, scanWhile_const_bounded _ _ _ _ _ hh]; simp only [maxLevels]; omega
    have hn : n ≥ 1 := by
      by_contra h0
      have : n = 0 := by omega
      subst this
      simp at e
      rw [← e] at hh
      simp only [not_or, ne_eq, Classical.not_not] at hne
      exact hh _ hne.2 rfl
    have hbad : badAfterHashesRedcarpet (line.drop (min n 6)) = true := by
      by_cases h6 : n ≤ 6
      · have : min n 6 = n := by omega
        rw [this]
        have hd : line.drop n = rest := by rw [e]; simp
        rw [hd]
        cases rest with
        | nil => exact absurd ⟨hn, h6, e, by simp⟩ (h n [])
        | cons y r =>
          have : y ≠ ' ' := by
            rintro rfl
            exact h n (' ' :: r) ⟨hn, h6, e, by simp⟩
          simpa [badAfterHashesRedcarpet] using this
      · have : min n 6 = 6 := by omega
        rw [this]
        obtain ⟨k, rfl⟩ : ∃ k, n = 6 + (k + 1) := ⟨n - 7, by omega⟩
        have hd : line.drop 6 = '#' :: (List.replicate k '#' ++ rest) := by
          have h0 : line = List.replicate 6 '#' ++ ('#' :: (List.replicate k '#' ++ rest)) := by
            rw [e, ← List.replicate_append_replicate, List.replicate_succ (n := k), List.append_assoc, List.cons_append]
          rw [h0]; rfl
        rw [hd]; rfl
    simp only [hi, hbad, if_true]
    rfl

/-- **C15.** For redcarpet with links disabled a line is a heading exactly when it starts with one to six hashes followed by a space or the
end of the line, and its content is not empty; the content is the text. -/
theorem C15_redcarpet {line body : Str} (hb : Body line body) (hne : line ≠ []) {keep : Int} (hk : keep ≥ 1) :
    (∀ n rest c, IsRedcarpetAtx body n rest → RedcarpetContent rest c → c ≠ [] →
      getAtxHeading line keep .redcarpet true = .ok [⟨some n, some c, true⟩]) ∧
    ((¬ ∃ n rest c, IsRedcarpetAtx body n rest ∧ RedcarpetContent rest c ∧ c ≠ []) →
      ∀ noLinks, getAtxHeading line keep .redcarpet noLinks = .ok [⟨none, none, false⟩]) := by
  have hnl : '\n' ∉ body := by
    obtain ⟨a, b, -, -, h2⟩ := hb
    exact fun h => (h2 _ h).1 rfl
  have hsub : ∀ nl, atxSubline .redcarpet keep nl true body = .ok (atxRedcarpet nl true body) := fun nl => rfl
  constructor
  · intro n rest c h1 h2 h3
    rw [getAtxHeading_body hb hne hk, hsub, atxRedcarpet_opening h1 hnl h2, if_neg h3]
    simp [Except.map]
  · intro h nl
    rw [getAtxHeading_body hb hne hk, hsub]
    by_cases hex : ∃ n rest, IsRedcarpetAtx body n rest
    · obtain ⟨n, rest, h1⟩ := hex
      obtain ⟨c, hc⟩ := redcarpetContent_exists rest
      have hc0 : c = [] := by
        by_contra h0
        exact h ⟨n, rest, c, h1, hc, h0⟩
      rw [atxRedcarpet_opening h1 hnl hc, if_pos hc0]
      rfl
    · rw [atxRedcarpet_other (fun n rest h1 => hex ⟨n, rest, h1⟩)]
      rfl

/-- **C15** with links: the same heading, with a space appended to the text if the line ends with a backslash. -/
theorem C15_redcarpet_links {line body : Str} (hb : Body line body) (hne : line ≠ []) {keep : Int} (hk : keep ≥ 1)
    {n : Nat} {rest c : Str} (h1 : IsRedcarpetAtx body n rest) (h2 : RedcarpetContent rest c) (h3 : c ≠ []) :
    getAtxHeading line keep .redcarpet false =
      .ok [⟨some n, some (if body.getLast? = some '\\' then c ++ [' '] else c), true⟩] := by
  have hnl : '\n' ∉ body := by
    obtain ⟨a, b, -, -, h2⟩ := hb
    exact fun h => (h2 _ h).1 rfl
  have hsub : ∀ nl, atxSubline .redcarpet keep nl true body = .ok (atxRedcarpet nl true body) := fun nl => rfl
  rw [getAtxHeading_body hb hne hk, hsub, atxRedcarpet_opening h1 hnl h2, if_neg h3]
  simp [Except.map]

example : IsRedcarpetAtx "## foo # bar ###".toList 2 " foo # bar ###".toList ∧
    RedcarpetContent " foo # bar ###".toList "foo # bar".toList ∧
    getAtxHeading "## foo # bar ###".toList 3 .redcarpet true = .ok [⟨some 2, some "foo # bar".toList, true⟩] := by
  refine ⟨by unfold IsRedcarpetAtx; decide, ⟨" ".toList, " ".toList, "###".toList, by decide⟩, by decide +kernel⟩

end Props

end MdToc
