import Verif.Spec.Fence
import Verif.Lemmas.Atx

/-!
# Code fences
-/

set_option linter.unusedSimpArgs false

namespace MdToc

open MdToc.Spec

theorem lstrip_replicate {a : Char} {k : Nat} {s : Str} (h : ∀ x ∈ s.head?, x ≠ a) :
    lstrip (· == a) (List.replicate k a ++ s) = s :=
  lstrip_unique (p := (· == a)) (by intro c hc; simpa using List.eq_of_mem_replicate hc) (by simpa using h)

theorem indent_ok {k : Nat} {s : Str} (h : ∀ x ∈ s.head?, x ≠ ' ') :
    isValidCodeFenceIndent (List.replicate k ' ' ++ s) .github = decide (k ≤ 3) := by
  unfold isValidCodeFenceIndent
  rw [lstrip_replicate h]
  simp [Parser.cmarkLike, minMarkerCharacters]

theorem replicate_head {c : Char} {n : Nat} {s : Str} (hn : n ≠ 0) : (List.replicate n c ++ s).head? = some c := by
  obtain ⟨m, rfl⟩ : ∃ m, n = m + 1 := ⟨n - 1, by omega⟩
  simp [List.replicate_succ]

/-- Three equal characters at the start. -/
theorem startsWith_replicate {c d : Char} {n m : Nat} {s : Str} (hs : ∀ x ∈ s.head?, x ≠ c) (hn : n ≠ 0) (hm : m ≠ 0) :
    startsWith (List.replicate m d) (List.replicate n c ++ s) = true ↔ d = c ∧ m ≤ n := by
  unfold startsWith
  rw [List.isPrefixOf_iff_prefix]
  constructor
  · rintro ⟨t, ht⟩
    have hd : d = c := by
      have h1 := congrArg List.head? ht
      rw [replicate_head hm, replicate_head hn] at h1
      simpa using h1
    subst hd
    refine ⟨rfl, ?_⟩
    by_contra hlt
    have : m = n + (m - n - 1 + 1) := by omega
    rw [this, ← List.replicate_append_replicate, List.append_assoc] at ht
    have ht := List.append_cancel_left ht
    rw [List.replicate_succ] at ht
    exact hs d (by rw [← ht]; simp) rfl
  · rintro ⟨rfl, h⟩
    refine ⟨List.replicate (n - m) d ++ s, ?_⟩
    rw [← List.append_assoc, List.replicate_append_replicate]
    congr 2; omega

/-- The run at the start of a nonempty text. -/
theorem run_exists {s : Str} (hs : s ≠ []) : ∃ c n t, s = List.replicate (n + 1) c ++ t ∧ ∀ x ∈ t.head?, x ≠ c := by
  cases s with
  | nil => exact absurd rfl hs
  | cons c s =>
    obtain ⟨n, t, e, ht⟩ := replicate_split c s
    exact ⟨c, n, t, by rw [e]; simp [List.replicate_succ], ht⟩

theorem info_eq {c0 : Char} {n : Nat} {t : Str} (ht : ∀ x ∈ t.head?, x ≠ c0) :
    infoStringStart c0 (List.replicate n c0 ++ t) = n := by
  unfold infoStringStart
  rw [scanWhile_const (· == c0), List.takeWhile_append_of_pos (by intro x hx; simpa using List.eq_of_mem_replicate hx)]
  have : t.takeWhile (· == c0) = [] := by
    cases t with
    | nil => rfl
    | cons y t => simp [ht y (by simp)]
  simp [this]

theorem replicate_iff {c0 : Char} {n : Nat} {t : Str} (ht : ∀ x ∈ t.head?, x ≠ c0) :
    List.replicate n c0 ++ t = List.replicate (List.replicate n c0 ++ t).length c0 ↔ t = [] := by
  constructor
  · intro h
    rw [List.length_append, ← List.replicate_append_replicate, List.length_replicate] at h
    have h := List.append_cancel_left h
    cases t with
    | nil => rfl
    | cons y t =>
      simp only [List.length_cons, List.replicate_succ, List.cons.injEq] at h
      exact absurd h.1 (ht y (by simp))
  · rintro rfl; simp

theorem mem_strip_of_not {p : Char → Bool} {s : Str} {c : Char} (hc : p c = false) : c ∈ strip p s ↔ c ∈ s := by
  constructor
  · exact fun h => (strip_sublist p s).subset h
  · intro h
    obtain ⟨a, b, e, ha, hb, -⟩ := strip_eq p s
    rw [e] at h
    simp only [List.mem_append] at h
    rcases h with (h | h) | h
    · rw [ha c h] at hc; simp at hc
    · exact h
    · rw [hb c h] at hc; simp at hc

theorem isSpaceCh_tick (p : Parser) : p.isSpaceCh '`' = false := by cases p <;> decide

/-- A fence character run followed by the rest, with the trailing line feeds removed from the rest. -/
theorem rstrip_run {c : Char} {n : Nat} {t : Str} (hn : n ≠ 0) (hc : c ≠ '\n') :
    rstrip (· == '\n') (List.replicate n c ++ t) = List.replicate n c ++ rstrip (· == '\n') t := by
  obtain ⟨b, e, hb, hb'⟩ := rstrip_eq (· == '\n') t
  conv_lhs => rw [e, ← List.append_assoc]
  refine rstrip_unique hb ?_
  intro x hx
  rw [List.getLast?_append] at hx
  cases hg : (rstrip (· == '\n') t).getLast? with
  | some y => rw [hg] at hx; simp at hx; subst hx; exact hb' _ hg
  | none =>
    rw [hg] at hx
    simp at hx
    obtain ⟨m, rfl⟩ : ∃ m, n = m + 1 := ⟨n - 1, by omega⟩
    rw [List.getLast?_replicate] at hx
    simp at hx
    subst hx; simpa using hc

theorem opensWith_unique {line : Str} {c d : Char} {n m : Nat} (h : OpensWith line c n) (h' : OpensWith line d m) :
    c = d ∧ n = m := by
  obtain ⟨k, r, -, hn, hc, e, hr, -⟩ := h
  obtain ⟨k', r', -, hm, hd, e', hr', -⟩ := h'
  have hcs : ∀ {c : Char} {n : Nat} {r : Str}, IsFenceChar c → 3 ≤ n → ∀ x ∈ (List.replicate n c ++ r).head?, (x == ' ') = false := by
    intro c n r hc hn x hx
    rw [replicate_head (by omega)] at hx
    simp at hx; subst hx
    rcases hc with rfl | rfl <;> decide
  rw [e, List.append_assoc, List.append_assoc] at e'
  have h1 := (span_unique (q := (· == ' ')) e' (by intro x hx; simpa using List.eq_of_mem_replicate hx)
    (by intro x hx; simpa using List.eq_of_mem_replicate hx) (hcs hc hn) (hcs hd hm)).2
  have hcd : c = d := by
    have := congrArg List.head? h1
    rw [replicate_head (by omega), replicate_head (by omega)] at this
    simpa using this
  subst hcd
  have h2 := (span_unique (q := (· == c)) h1 (by intro x hx; simpa using List.eq_of_mem_replicate hx)
    (by intro x hx; simpa using List.eq_of_mem_replicate hx) (by simpa using hr) (by simpa using hr')).1
  exact ⟨rfl, by simpa using congrArg List.length h2⟩

/-- `is_opening_code_fence` of a line with its parts. -/
theorem isOpening_parts {p : Parser} (hp : p.cmarkLike = true) {k n : Nat} {c : Char} {t : Str} (hc : c ≠ ' ') (hcn : c ≠ '\n')
    (ht : ∀ x ∈ t.head?, x ≠ c) :
    isOpeningCodeFence (List.replicate k ' ' ++ (List.replicate (n + 1) c ++ t)) p =
      if k ≤ 3 ∧ IsFenceChar c ∧ 3 ≤ n + 1 ∧ (c = '`' → '`' ∉ t) then some (List.replicate (n + 1) c) else none := by
  have hhead : ∀ x ∈ (List.replicate (n + 1) c ++ t).head?, x ≠ ' ' := by
    rw [replicate_head (by omega)]; simpa using hc
  unfold isOpeningCodeFence
  rw [if_pos hp, indent_ok hhead, lstrip_replicate hhead, rstrip_run (by omega) hcn]
  obtain ⟨b, eb, hb, hb'⟩ := rstrip_eq (· == '\n') t
  generalize rstrip (· == '\n') t = u at eb hb'
  have hu : ∀ x ∈ u.head?, x ≠ c := by
    intro x hx
    cases u with
    | nil => simp at hx
    | cons y u => simp at hx; subst hx; exact ht _ (by rw [eb]; simp)
  have htick : '`' ∈ u ↔ '`' ∈ t := by
    rw [eb]
    simp only [List.mem_append]
    constructor
    · exact .inl
    · rintro (h | h)
      · exact h
      · have := hb _ h; simp at this
  have hst : (!(startsWith ['`', '`', '`'] (List.replicate (n + 1) c ++ u) ||
      startsWith ['~', '~', '~'] (List.replicate (n + 1) c ++ u))) = decide (¬ (IsFenceChar c ∧ 3 ≤ n + 1)) := by
    have h1 := startsWith_replicate (d := '`') (m := 3) hu (Nat.succ_ne_zero n) (by decide)
    have h2 := startsWith_replicate (d := '~') (m := 3) hu (Nat.succ_ne_zero n) (by decide)
    have e1 : startsWith ['`', '`', '`'] (List.replicate (n + 1) c ++ u) = decide ('`' = c ∧ 3 ≤ n + 1) := by
      rw [Bool.eq_iff_iff, decide_eq_true_iff]; exact h1
    have e2 : startsWith ['~', '~', '~'] (List.replicate (n + 1) c ++ u) = decide ('~' = c ∧ 3 ≤ n + 1) := by
      rw [Bool.eq_iff_iff, decide_eq_true_iff]; exact h2
    rw [e1, e2, Bool.eq_iff_iff]
    rw [decide_eq_true_iff]
    simp only [Bool.not_eq_true', Bool.or_eq_false_iff, decide_eq_false_iff_not]
    constructor
    · rintro ⟨a, b⟩ ⟨rfl | rfl, h⟩
      · exact a ⟨rfl, h⟩
      · exact b ⟨rfl, h⟩
    · intro h
      exact ⟨fun ⟨h1, h2⟩ => h ⟨.inl h1.symm, h2⟩, fun ⟨h1, h2⟩ => h ⟨.inr h1.symm, h2⟩⟩
  by_cases hk : k ≤ 3
  swap
  · simp [hk]
  simp only [hk, decide_true, Bool.not_true, Bool.false_eq_true, if_false, true_and]
  by_cases hf : IsFenceChar c ∧ 3 ≤ n + 1
  swap
  · rw [hst, if_pos (decide_eq_true hf), if_neg]
    rintro ⟨h1, h2, -⟩; exact hf ⟨h1, h2⟩
  rw [hst, if_neg (by simpa using hf)]
  have hcons : List.replicate (n + 1) c ++ u = c :: (List.replicate n c ++ u) := by simp [List.replicate_succ]
  generalize hL : List.replicate (n + 1) c ++ u = L at *
  rw [hcons]
  simp only
  rw [← hcons, ← hL]
  simp only [replicate_iff hu]
  have hslice : slice (List.replicate (n + 1) c ++ u) 0 (n + 1) = List.replicate (n + 1) c := by
    have := slice_eq [] (List.replicate (n + 1) c) u
    simpa using this
  by_cases hu0 : u = []
  · subst hu0
    have : '`' ∉ t := fun h => by simpa using htick.mpr h
    have hcond : IsFenceChar c ∧ 3 ≤ n + 1 ∧ (c = '`' → '`' ∉ t) := ⟨hf.1, hf.2, fun _ => this⟩
    rw [if_pos (c := IsFenceChar c ∧ 3 ≤ n + 1 ∧ (c = '`' → '`' ∉ t)) hcond]
    have hsl : slice (List.replicate (n + 1) c) 0 (n + 1) = List.replicate (n + 1) c := by simpa using hslice
    simp [hsl]
  · rw [if_neg hu0]
    simp only [info_eq hu, hslice]
    have hsl2 : slice (List.replicate (n + 1) c ++ u) (n + 1) (List.replicate (n + 1) c ++ u).length = u := by
      have := slice_eq (List.replicate (n + 1) c) u []
      simpa using this
    rw [hsl2]
    have hcont : (strip p.isSpaceCh u).contains '`' = decide ('`' ∈ t) := by
      rw [Bool.eq_iff_iff, List.contains_iff_mem, mem_strip_of_not (isSpaceCh_tick p), htick, decide_eq_true_iff]
    rw [hcont]
    rcases hf.1 with rfl | rfl
    · by_cases h : '`' ∈ t
      · rw [if_pos (by simp [h]), if_neg]
        rintro ⟨-, -, h'⟩; exact h' rfl h
      · rw [if_neg (by simp [h]), if_pos ⟨hf.1, hf.2, fun _ => h⟩]
    · rw [if_neg (by simp), if_pos ⟨hf.1, hf.2, by simp⟩]

/-- The parts of any line. -/
theorem line_parts (line : Str) : ∃ k s, line = List.replicate k ' ' ++ s ∧ ∀ x ∈ s.head?, x ≠ ' ' := by
  obtain ⟨k, s, e, h⟩ := replicate_split ' ' line
  exact ⟨k, s, e, h⟩

/-- `is_opening_code_fence` against the specification. -/
theorem isOpening_iff {p : Parser} (hp : p.cmarkLike = true) (line f : Str) :
    isOpeningCodeFence line p = some f ↔ ∃ c n, OpensWith line c n ∧ f = List.replicate n c := by
  constructor
  · intro h
    obtain ⟨k, s, rfl, hs⟩ := line_parts line
    by_cases hs0 : s = []
    · subst hs0
      exfalso
      unfold isOpeningCodeFence at h
      rw [if_pos hp] at h
      split at h
      · simp at h
      · have := lstrip_replicate (a := ' ') (k := k) (s := []) (by simp)
        rw [this] at h
        revert h
        have : (startsWith ['`', '`', '`'] (rstrip (· == '\n') []) || startsWith ['~', '~', '~'] (rstrip (· == '\n') [])) = false := by decide
        simp only [this]
        simp
    obtain ⟨c, n, t, rfl, ht⟩ := run_exists hs0
    have hc : c ≠ ' ' := hs c (by rw [replicate_head (by omega)]; rfl)
    by_cases hcn : c = '\n'
    · -- a run of line feeds first: no fence
      exfalso
      subst hcn
      unfold isOpeningCodeFence at h
      rw [if_pos hp] at h
      split at h
      · simp at h
      · rw [lstrip_replicate hs] at h
        have h0 : ∀ d : Char, d ≠ '\n' → startsWith [d, d, d] (rstrip (· == '\n') (List.replicate (n + 1) '\n' ++ t)) = false := by
          intro d hd
          rw [Bool.eq_false_iff]
          intro h1
          unfold startsWith at h1
          rw [List.isPrefixOf_iff_prefix] at h1
          obtain ⟨w, hw⟩ := h1
          obtain ⟨v, hv⟩ := rstrip_prefix (· == '\n') (List.replicate (n + 1) '\n' ++ t)
          rw [← hw] at hv
          have := congrArg List.head? hv
          rw [replicate_head (by omega)] at this
          simp at this
          exact hd this
        simp only [h0 '`' (by decide), h0 '~' (by decide), Bool.or_self, Bool.not_false, if_true] at h
        simp at h
    · rw [isOpening_parts hp hc hcn ht] at h
      split at h
      · rename_i hh
        simp at h
        exact ⟨c, n + 1, ⟨k, t, hh.1, hh.2.2.1, hh.2.1, by simp, ht, hh.2.2.2⟩, h.symm⟩
      · simp at h
  · rintro ⟨c, n, ⟨k, t, hk, hn, hc, rfl, ht, htick⟩, rfl⟩
    obtain ⟨m, rfl⟩ : ∃ m, n = m + 1 := ⟨n - 1, by omega⟩
    rw [List.append_assoc, isOpening_parts hp (by rcases hc with rfl | rfl <;> decide) (by rcases hc with rfl | rfl <;> decide) ht,
      if_pos ⟨hk, hc, hn, htick⟩]

theorem isOpening_none_iff {p : Parser} (hp : p.cmarkLike = true) (line : Str) :
    isOpeningCodeFence line p = none ↔ ¬ ∃ c n, OpensWith line c n := by
  rw [Option.eq_none_iff_forall_not_mem]
  constructor
  · rintro h ⟨c, n, hc⟩
    exact h _ ((isOpening_iff hp line _).mpr ⟨c, n, hc, rfl⟩)
  · rintro h f hf
    obtain ⟨c, n, hc, -⟩ := (isOpening_iff hp line f).mp hf
    exact h ⟨c, n, hc⟩

/-- The checks on the fence do nothing for a fence, which may have blanks around it. -/
theorem isClosing_arg {p : Parser} (hp : p.cmarkLike = true) (line : Str) (docEnd : Bool) {c : Char} {n a : Nat} {r : Str} (hc : IsFenceChar c) (hn : 1 ≤ n)
    (hr : ∀ x ∈ r, x = ' ' ∨ x = '\n') (h3 : 3 ≤ n + r.length) :
    isClosingCodeFence line (List.replicate a ' ' ++ (List.replicate n c ++ r)) docEnd p =
      (isValidCodeFenceIndent line .github && (docEnd ||
        (let l := rstrip (fun x => p.isSpaceCh x || x == '\n') (lstrip (· == ' ') line)
         startsWith (List.replicate n c) (lstrip (· == ' ') line) && decide (n ≤ l.length) &&
          decide (l = List.replicate l.length c)))) := by
  have hc1 : c ≠ ' ' := by rcases hc with rfl | rfl <;> decide
  have hc2 : c ≠ '\n' := by rcases hc with rfl | rfl <;> decide
  have e1 : lstrip (· == ' ') (List.replicate a ' ' ++ (List.replicate n c ++ r)) = List.replicate n c ++ r :=
    lstrip_replicate (by rw [replicate_head (by omega : n ≠ 0)]; simpa using hc1)
  have e2 : rstrip (fun c => c == ' ' || c == '\n') (List.replicate n c ++ r) = List.replicate n c :=
    rstrip_unique (by intro x hx; rcases hr x hx with rfl | rfl <;> decide)
      (by intro x hx; have := List.mem_of_getLast? hx; have := List.eq_of_mem_replicate this; simp [this, hc1, hc2])
  have e3 : (startsWith ['`'] (List.replicate n c ++ r) || startsWith ['~'] (List.replicate n c ++ r)) = true := by
    obtain ⟨m, rfl⟩ : ∃ m, n = m + 1 := ⟨n - 1, by omega⟩
    rcases hc with rfl | rfl <;> simp [startsWith, List.replicate_succ]
  have e4 : ¬ (List.replicate n c ++ r).length < minMarkerCharacters := by simp [minMarkerCharacters]; omega
  unfold isClosingCodeFence
  rw [if_pos hp]
  cases hv : isValidCodeFenceIndent line .github
  · simp
  simp only [Bool.not_true, Bool.false_eq_true, if_false, Bool.true_and, e1, e2, e3, e4]
  have hcons : List.replicate n c = c :: List.replicate (n - 1) c := by
    conv_lhs => rw [show n = (n - 1) + 1 by omega]
    rw [List.replicate_succ]
  generalize hF : List.replicate n c = F at *
  rw [hcons]
  simp only
  rw [← hcons, ← hF, List.length_replicate, if_neg (by simp)]
  cases docEnd
  swap
  · simp
  simp only [Bool.false_eq_true, if_false, Bool.false_or]
  cases hs : startsWith (List.replicate n c) (lstrip (· == ' ') line)
  · simp
  simp only [Bool.not_true, Bool.false_eq_true, if_false, Bool.true_and]
  generalize hl : rstrip (fun x => p.isSpaceCh x || x == '\n') (lstrip (· == ' ') line) = l
  by_cases hlen : l.length < n
  · rw [if_pos hlen, decide_eq_false (by omega : ¬ n ≤ l.length)]; rfl
  · rw [if_neg hlen, decide_eq_true (by omega : n ≤ l.length), Bool.true_and]
    have hpre : rstrip (fun x => p.isSpaceCh x || x == '\n') (lstrip (· == ' ') line) <+: lstrip (· == ' ') line := rstrip_prefix _ _
    rw [hl] at hpre
    unfold startsWith at hs
    rw [List.isPrefixOf_iff_prefix] at hs
    cases l with
    | nil => simp at hlen; omega
    | cons y l =>
      have hy : y = c := by
        obtain ⟨v, hv⟩ := hpre
        obtain ⟨w, hw⟩ := hs
        rw [← hv] at hw
        have := congrArg List.head? hw
        rw [replicate_head (by omega)] at this
        simpa using this.symm
      subst hy
      simp only
      by_cases h : y :: l = List.replicate (y :: l).length y
      · rw [if_neg (by simpa using h), decide_eq_true h]
      · rw [if_pos h, decide_eq_false h]

theorem isClosing_arg_iff {p : Parser} (hp : p.cmarkLike = true) (line : Str) {c : Char} {n a : Nat} {r : Str} (hc : IsFenceChar c) (hn : 1 ≤ n)
    (hr : ∀ x ∈ r, x = ' ' ∨ x = '\n') (h3 : 3 ≤ n + r.length) :
    isClosingCodeFence line (List.replicate a ' ' ++ (List.replicate n c ++ r)) false p = true ↔ ClosesWith p line c n := by
  have hc1 : c ≠ ' ' := by rcases hc with rfl | rfl <;> decide
  have hc2 : c ≠ '\n' := by rcases hc with rfl | rfl <;> decide
  have hc3 : p.isSpaceCh c = false := by rcases hc with rfl | rfl <;> cases p <;> decide
  obtain ⟨k, s, e, hs⟩ := line_parts line
  rw [isClosing_arg hp line false hc hn hr h3]
  have hl : lstrip (· == ' ') line = s := by rw [e]; exact lstrip_replicate hs
  simp only [hl, Bool.false_or, Bool.and_eq_true, decide_eq_true_iff]
  have hi : isValidCodeFenceIndent line .github = decide (k ≤ 3) := by rw [e]; exact indent_ok hs
  rw [hi, decide_eq_true_iff]
  constructor
  · rintro ⟨hk, ⟨-, h2⟩, h3⟩
    obtain ⟨b, eb, hb, -⟩ := rstrip_eq (fun x => p.isSpaceCh x || x == '\n') s
    refine ⟨k, _, b, hk, h2, ?_, ?_⟩
    · rw [← h3, List.append_assoc, ← eb, e]
    · intro x hx
      have := hb x hx
      rw [isSpaceCh_eq p hp] at this
      simpa using this
  · rintro ⟨k', m, b, hk', hm, e', hb⟩
    have hh : ∀ x ∈ (List.replicate m c ++ b).head?, (x == ' ') = false := by
      rw [replicate_head (by omega)]; simpa using hc1
    rw [e, List.append_assoc] at e'
    obtain ⟨h1, h2⟩ := span_unique (q := (· == ' ')) e' (by intro x hx; simpa using List.eq_of_mem_replicate hx)
      (by intro x hx; simpa using List.eq_of_mem_replicate hx) (by simpa using hs) hh
    have hkk : k = k' := by simpa using congrArg List.length h1
    have hr : rstrip (fun x => p.isSpaceCh x || x == '\n') s = List.replicate m c := by
      rw [h2]
      refine rstrip_unique ?_ ?_
      · intro x hx
        rw [isSpaceCh_eq p hp]; simpa using hb x hx
      · intro x hx
        have := List.eq_of_mem_replicate (List.mem_of_getLast? hx)
        subst this; simp [hc3, hc2]
    refine ⟨by omega, ⟨?_, ?_⟩, ?_⟩
    · unfold startsWith
      rw [List.isPrefixOf_iff_prefix, h2]
      refine ⟨List.replicate (m - n) c ++ b, ?_⟩
      rw [← List.append_assoc, List.replicate_append_replicate]
      congr 2; omega
    · rw [hr]; simpa using hm
    · rw [hr]; simp

theorem isClosing_arg_docEnd {p : Parser} (hp : p.cmarkLike = true) (line : Str) {c : Char} {n a : Nat} {r : Str} (hc : IsFenceChar c) (hn : 1 ≤ n)
    (hr : ∀ x ∈ r, x = ' ' ∨ x = '\n') (h3 : 3 ≤ n + r.length) :
    isClosingCodeFence line (List.replicate a ' ' ++ (List.replicate n c ++ r)) true p = true ↔
      ∃ k s, line = List.replicate k ' ' ++ s ∧ k ≤ 3 ∧ s.head? ≠ some ' ' := by
  obtain ⟨k, s, e, hs⟩ := line_parts line
  rw [isClosing_arg hp line true hc hn hr h3]
  have hi : isValidCodeFenceIndent line .github = decide (k ≤ 3) := by rw [e]; exact indent_ok hs
  simp only [Bool.true_or, Bool.and_true, hi, decide_eq_true_iff]
  constructor
  · exact fun h => ⟨k, s, e, h, fun h' => hs ' ' (by rw [h']; rfl) rfl⟩
  · rintro ⟨k', s', e', hk', hs'⟩
    rw [e] at e'
    obtain ⟨h1, -⟩ := span_unique (q := (· == ' ')) e' (by intro x hx; simpa using List.eq_of_mem_replicate hx)
      (by intro x hx; simpa using List.eq_of_mem_replicate hx) (by simpa using hs) (by
        intro x hx
        have : x ≠ ' ' := by rintro rfl; exact hs' hx
        simpa using this)
    have hkk : k = k' := by simpa using congrArg List.length h1
    omega

theorem isClosing_fence {p : Parser} (hp : p.cmarkLike = true) (line : Str) (docEnd : Bool) {c : Char} {n : Nat} (hc : IsFenceChar c)
    (hn : 3 ≤ n) :
    isClosingCodeFence line (List.replicate n c) docEnd p =
      (isValidCodeFenceIndent line .github && (docEnd ||
        (let l := rstrip (fun x => p.isSpaceCh x || x == '\n') (lstrip (· == ' ') line)
         startsWith (List.replicate n c) (lstrip (· == ' ') line) && decide (n ≤ l.length) &&
          decide (l = List.replicate l.length c)))) := by
  have := isClosing_arg hp line docEnd (a := 0) (r := []) hc (by omega : 1 ≤ n) (by simp) (by simpa using hn)
  simpa using this

theorem isClosing_iff {p : Parser} (hp : p.cmarkLike = true) (line : Str) {c : Char} {n : Nat} (hc : IsFenceChar c)
    (hn : 3 ≤ n) : isClosingCodeFence line (List.replicate n c) false p = true ↔ ClosesWith p line c n := by
  have := isClosing_arg_iff hp line (a := 0) (r := []) hc (by omega : 1 ≤ n) (by simp) (by simpa using hn)
  simpa using this

theorem isClosing_docEnd {p : Parser} (hp : p.cmarkLike = true) (line : Str) {c : Char} {n : Nat} (hc : IsFenceChar c)
    (hn : 3 ≤ n) : isClosingCodeFence line (List.replicate n c) true p = true ↔
      ∃ k s, line = List.replicate k ' ' ++ s ∧ k ≤ 3 ∧ s.head? ≠ some ' ' := by
  have := isClosing_arg_docEnd hp line (a := 0) (r := []) hc (by omega : 1 ≤ n) (by simp) (by simpa using hn)
  simpa using this

/-- Only such arguments are fences. -/
theorem isClosing_needs {p : Parser} {line fence : Str} {docEnd : Bool} (h : isClosingCodeFence line fence docEnd p = true) :
    p.cmarkLike = true ∧ ∃ c n a r, IsFenceChar c ∧ 1 ≤ n ∧ (∀ x ∈ r, x = ' ' ∨ x = '\n') ∧ 3 ≤ n + r.length ∧ fence = List.replicate a ' ' ++ (List.replicate n c ++ r) := by
  unfold isClosingCodeFence at h
  split at h
  swap
  · simp at h
  rename_i hp
  refine ⟨hp, ?_⟩
  split at h
  · simp at h
  obtain ⟨a, F, e, hF⟩ := line_parts fence
  have e1 : lstrip (· == ' ') fence = F := by rw [e]; exact lstrip_replicate hF
  simp only [e1] at h
  split at h
  · simp at h
  rename_i hst
  split at h
  · simp at h
  rename_i hlen
  obtain ⟨r, er, hr, -⟩ := rstrip_eq (fun c => c == ' ' || c == '\n') F
  generalize hG : rstrip (fun c => c == ' ' || c == '\n') F = G at h er
  cases G with
  | nil => simp at h
  | cons f0 G =>
    simp only at h
    split at h
    · simp at h
    rename_i heq
    have heq : f0 :: G = List.replicate (f0 :: G).length f0 := by simpa using heq
    refine ⟨f0, (f0 :: G).length, a, r, ?_, by simp, ?_, ?_, ?_⟩
    · rw [er] at hst
      unfold IsFenceChar
      by_cases h1 : f0 = '`'
      · exact .inl h1
      · by_cases h2 : f0 = '~'
        · exact .inr h2
        · exfalso
          apply hst
          simp [startsWith, List.isPrefixOf, Ne.symm h1, Ne.symm h2]
    · intro x hx
      have := hr x hx
      simpa using this
    · have : F.length = (f0 :: G).length + r.length := by conv_lhs => rw [er, List.length_append]
      unfold minMarkerCharacters at hlen
      omega
    · rw [← heq, ← er, e]

theorem closing_of_closes {p : Parser} (hp : p.cmarkLike = true) {line : Str} {c : Char} {n : Nat} (hc : IsFenceChar c)
    (hn : 3 ≤ n) (h : ClosesWith p line c n) (docEnd : Bool) :
    isClosingCodeFence line (List.replicate n c) docEnd p = true := by
  have h1 := (isClosing_iff hp line hc hn).mpr h
  rw [isClosing_fence hp line _ hc hn] at h1 ⊢
  simp only [Bool.false_or, Bool.and_eq_true] at h1
  cases docEnd
  · simpa using h1
  · simp [h1.1]

end MdToc
