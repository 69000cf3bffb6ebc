import Verif.Lemmas.EmphPairs

/-!
# Emphasised phrases are unwrapped
-/

set_option linter.unusedSimpArgs false

namespace MdToc.Cmark

open Spec

/-! ### Plain characters -/

theorem plain_special {c : Char} (h : Plain c) : isSpecial c = true → c = '!' := by
  obtain ⟨-, h1, h2, h3, h4, h5, h6, h7, h8, h9, h10, -⟩ := h
  unfold isSpecial
  simp [h1, h2, h3, h4, h5, h6, h7, h8, h9, h10]

theorem findSpecialLoop_plain {y : Str} (hy : ∀ c ∈ y.head?, isSpecial c = true) : ∀ (u : Str) (n : Nat), (∀ c ∈ u, Plain c) →
    ∃ e, findSpecialLoop (u ++ y) n = .ok e ∧ n ≤ e ∧ e ≤ n + u.length := by
  intro u
  induction u with
  | nil =>
    intro n _
    cases y with
    | nil => exact ⟨n, rfl, by simp⟩
    | cons c y =>
      have hc := hy c rfl
      refine ⟨n, ?_, by simp⟩
      rw [List.nil_append]
      unfold findSpecialLoop
      have : c.toNat < 256 := by
        unfold isSpecial at hc
        simp only [Bool.or_eq_true, beq_iff_eq] at hc
        rcases hc with ((((((((((rfl | rfl) | rfl) | rfl) | rfl) | rfl) | rfl) | rfl) | rfl) | rfl) | rfl) <;> decide
      rw [if_neg (by omega), if_neg (by omega), if_pos hc]
  | cons c u ih =>
    intro n hu
    have hc := hu c (by simp)
    rw [List.cons_append]
    unfold findSpecialLoop
    by_cases h1 : c.toNat > 256
    · rw [if_pos h1]; exact ⟨n, rfl, by simp⟩
    · rw [if_neg h1, if_neg hc.2.2.2.2.2.2.2.2.2.2.2]
      by_cases h2 : isSpecial c = true
      · rw [if_pos h2]; exact ⟨n, rfl, by simp⟩
      · rw [if_neg h2]
        obtain ⟨e, h, h3, h4⟩ := ih (n + 1) (fun d hd => hu d (by simp [hd]))
        exact ⟨e, h, by omega, by simp; omega⟩

theorem parseInline_plain {E : Env} {s : Subj} {c : Char} {u y : Str} (hc : Plain c) (hu : ∀ c ∈ u, Plain c) (hy : ∀ c ∈ y.head?, isSpecial c = true)
    (hr : restFrom s (s.pos + 1) = u ++ y) : ∃ e, parseInline E s c = .ok { s with pos := e } ∧ s.pos < e ∧ e ≤ s.pos + 1 + u.length := by
  obtain ⟨-, h1, h2, h3, h4, h5, h6, h7, h8, h9, h10, -⟩ := id hc
  unfold parseInline
  rw [if_neg (by simp [h1, h2]), if_neg h10, if_neg h7, if_neg h3, if_neg h5]
  by_cases hq : c = '\'' ∨ c = '"'
  · rw [if_pos (by tauto)]
    refine ⟨s.pos + 1, ?_, by omega, by omega⟩
    have hn : runLength c (restFrom s s.pos) = 1 := by unfold runLength; rw [if_pos hq]
    unfold handleDelim
    have hsd : (scanDelims E s c).1 = 1 := by unfold scanDelims; simp only; exact hn
    rcases he : scanDelims E s c with ⟨n, o, cl⟩
    rw [he] at hsd
    simp only at hsd
    subst hsd
    simp only
    rw [if_neg (by rcases hq with rfl | rfl <;> simp)]
  · rw [if_neg (by tauto)]
    by_cases ha : c = '-'
    · rw [if_pos ha]; exact ⟨_, rfl, by omega, by omega⟩
    rw [if_neg ha]
    by_cases hb : c = '.'
    · rw [if_pos hb]; exact ⟨_, rfl, by omega, by omega⟩
    rw [if_neg hb, if_neg h6, if_neg h8]
    by_cases hx : c = '!'
    · rw [if_pos hx]; exact ⟨_, rfl, by omega, by omega⟩
    rw [if_neg hx]
    obtain ⟨e, he, h11, h12⟩ := findSpecialLoop_plain hy u (s.pos + 1) hu
    rw [hr, he]
    exact ⟨e, rfl, by omega, by omega⟩

/-- The text without the white space at its end is `D`. -/
structure On (s : Subj) (D : Str) : Prop where
  data : ∃ t, s.data = D ++ t
  len : s.len = D.length

theorem On.rest {s : Subj} {D : Str} (h : On s D) (i : Nat) : restFrom s i = D.drop i := by
  obtain ⟨⟨t, ht⟩, hl⟩ := h
  unfold restFrom
  rw [ht, hl]
  simp

theorem On.peek {s : Subj} {D pre y : Str} {c : Char} (h : On s D) (hD : D = pre ++ c :: y) (hp : s.pos = pre.length) : peek s = some c := by
  obtain ⟨⟨t, ht⟩, hl⟩ := h
  unfold Cmark.peek
  rw [if_pos (by rw [hl, hD, hp]; simp), ht, hp, hD]
  simp

theorem On.peek_end {s : Subj} {D : Str} (h : On s D) (hp : s.pos = D.length) : Cmark.peek s = none := by
  unfold Cmark.peek
  rw [if_neg (by rw [h.len, hp]; omega)]

theorem On.pos {s : Subj} {D : Str} (h : On s D) (p : Nat) : On { s with pos := p } D := ⟨h.data, h.len⟩

theorem inlinesLoop_plain {E : Env} {y : Str} (hy : ∀ c ∈ y.head?, isSpecial c = true) (n : Nat) : ∀ (u pre D : Str) (s : Subj) (f : Nat), u.length ≤ n → (∀ c ∈ u, Plain c) →
    On s D → D = pre ++ u ++ y → s.pos = pre.length → D.length - s.pos < f →
    ∃ f', inlinesLoop E f s = inlinesLoop E f' { s with pos := pre.length + u.length } ∧ D.length - (pre.length + u.length) < f' := by
  induction n with
  | zero =>
    intro u pre D s f hn hu hs hD hp hf
    have : u = [] := by simpa using hn
    subst this
    refine ⟨f, ?_, by simp; omega⟩
    congr 1
    rw [List.length_nil, Nat.add_zero, ← hp]
  | succ n ih =>
    intro u pre D s f hn hu hs hD hp hf
    cases u with
    | nil =>
      refine ⟨f, ?_, by simp; omega⟩
      congr 1
      rw [List.length_nil, Nat.add_zero, ← hp]
    | cons c u =>
      have hpk : peek s = some c := hs.peek (pre := pre) (y := u ++ y) (by rw [hD]; simp) hp
      obtain ⟨e, he, h1, h2⟩ := parseInline_plain (E := E) (hu c (by simp)) (u := u) (fun d hd => hu d (by simp [hd])) hy
        (s := s) (by rw [hs.rest, hD, hp, show pre ++ c :: u ++ y = (pre ++ [c]) ++ (u ++ y) by simp, show pre.length + 1 = (pre ++ [c]).length by simp, List.drop_left])
      cases f with
      | zero => omega
      | succ f =>
        have hsplit : c :: u = (c :: u).take (e - s.pos) ++ (c :: u).drop (e - s.pos) := (List.take_append_drop ..).symm
        have hlt : ((c :: u).take (e - s.pos)).length = e - s.pos := by
          rw [List.length_take, List.length_cons]; omega
        obtain ⟨f', hf', hlt'⟩ := ih ((c :: u).drop (e - s.pos)) (pre ++ (c :: u).take (e - s.pos)) D { s with pos := e } f
          (by rw [List.length_drop]; simp only [List.length_cons] at hn ⊢; omega) (fun d hd => hu d (List.mem_of_mem_drop hd)) (hs.pos e)
          (by rw [hD]; conv_lhs => rw [hsplit]
              simp) (by simp only [List.length_append, hlt]; omega)
          (by have : s.pos < D.length := by rw [hp, hD]; simp
              simp only; omega)
        refine ⟨f', ?_, ?_⟩
        · conv_lhs => unfold inlinesLoop
          rw [hpk]
          simp only [he, bind, Except.bind]
          rw [hf']
          congr 2
          rw [List.length_append, hlt, List.length_drop]
          simp only [List.length_cons]
          simp only [List.length_cons] at hn
          omega
        · rw [List.length_append, hlt, List.length_drop] at hlt'
          simp only [List.length_cons] at hlt' ⊢
          omega

/-! ### Runs -/

theorem blank_space {c : Char} (h : Blank c) : isSpace c = true := by rcases h with rfl | rfl <;> decide

theorem word_space {E : Env} {c : Char} (h : WordChar E.isPCat c) : isSpace c = false ∧ isUPunct E c = false := by
  obtain ⟨-, h1, h2, h3, -⟩ := h
  constructor
  · unfold UniSpace AsciiWhite at h1
    unfold isSpace isZs
    simp only [not_or, not_and] at h1
    obtain ⟨⟨a1, a2, a3, a4, a5⟩, b1, b2, b3, b4, b5, b6⟩ := h1
    have : c.toNat ≠ 32 := by
      intro h; apply a1; apply Char.toNat_inj.mp; simpa using h
    simp [a2, a3, a4, a5, b1, b2, b4, b5, b6, this]
    omega
  · unfold isUPunct
    rw [h3]
    simp
    intro _
    rw [punct_iff] at h2
    simpa using h2

theorem before_last {x : Str} {c : Char} (hl : x.getLast? = some c) (hc : ¬ (128 ≤ c.toNat ∧ c.toNat ≤ 191)) : beforeChar x.reverse = c := by
  obtain ⟨y, rfl⟩ : ∃ y, x = y ++ [c] := by
    rw [List.getLast?_eq_some_iff] at hl
    exact hl
  rw [List.reverse_append]
  simp only [List.reverse_cons, List.reverse_nil, List.nil_append, List.singleton_append]
  cases y.reverse with
  | nil => rfl
  | cons d t =>
    unfold beforeChar
    rw [if_neg hc]

theorem takeWhile_run {ch : Char} {y : Str} (hy : ∀ c ∈ y.head?, c ≠ ch) : ∀ n, (List.replicate n ch ++ y).takeWhile (· == ch) = List.replicate n ch := by
  intro n
  induction n with
  | zero =>
    cases y with
    | nil => rfl
    | cons c y =>
      simp only [List.replicate_zero, List.nil_append]
      rw [List.takeWhile_cons_of_neg (by simpa using hy c rfl)]
  | succ n ih => rw [List.replicate_succ, List.cons_append, List.takeWhile_cons_of_pos (by simp), ih]

theorem parseInline_run {E : Env} {s : Subj} {D pre y : Str} {ch : Char} {n : Nat} (hs : On s D) (hD : D = pre ++ List.replicate (n + 1) ch ++ y) (hp : s.pos = pre.length)
    (hch : ch = '*' ∨ ch = '_') (hy : ∀ c ∈ y.head?, c ≠ ch) {o cl : Bool} (ho : o = true ∨ cl = true)
    (hf : flanking E ch (if pre = [] then '\n' else beforeChar pre.reverse) (y.headD '\n') (n + 1) = (o, cl)) :
    peek s = some ch ∧ parseInline E s ch = .ok { s with pos := s.pos + (n + 1), delims := ⟨s.pos, n + 1, n + 1, ch, o, cl, 0⟩ :: s.delims } := by
  have hpk : peek s = some ch := hs.peek (pre := pre) (y := List.replicate n ch ++ y) (by rw [hD, List.replicate_succ]; simp) hp
  refine ⟨hpk, ?_⟩
  have hsd : scanDelims E s ch = (n + 1, o, cl) := by
    unfold scanDelims
    have hn : runLength ch (restFrom s s.pos) = n + 1 := by
      unfold runLength
      rw [if_neg (by rcases hch with rfl | rfl <;> decide), hs.rest, hD, hp]
      rw [List.append_assoc, List.drop_left, takeWhile_run hy]
      simp
    have hb : (if s.pos = 0 then '\n' else beforeChar (s.data.take s.pos).reverse) = if pre = [] then '\n' else beforeChar pre.reverse := by
      obtain ⟨t, ht⟩ := hs.data
      have : s.data.take s.pos = pre := by rw [ht, hD, hp]; simp
      rw [this, hp]
      cases pre <;> simp
    have ha : restFrom s (s.pos + (n + 1)) = y := by
      rw [hs.rest, hD, hp]
      rw [show pre.length + (n + 1) = (pre ++ List.replicate (n + 1) ch).length by simp, List.drop_left]
    simp only [hn]
    rw [hb, ha]
    cases y with
    | nil => rw [List.headD_nil] at hf; simp only [hf]
    | cons a y => rw [List.headD_cons] at hf; simp only [hf]
  unfold parseInline
  rw [if_neg (by rcases hch with rfl | rfl <;> decide), if_neg (by rcases hch with rfl | rfl <;> decide), if_neg (by rcases hch with rfl | rfl <;> decide),
    if_neg (by rcases hch with rfl | rfl <;> decide), if_neg (by rcases hch with rfl | rfl <;> decide), if_pos (by tauto)]
  unfold handleDelim
  rw [hsd]
  simp only
  rw [if_pos (by rcases hch with rfl | rfl <;> rcases ho with h | h <;> simp [h])]

theorem flanking_open {E : Env} {ch b a : Char} {n : Nat} (hch : ch = '*' ∨ ch = '_') (hb : isSpace b = true) (ha : isSpace a = false ∧ isUPunct E a = false) :
    flanking E ch b a (n + 1) = (true, false) := by
  unfold flanking
  rcases hch with rfl | rfl <;> simp [hb, ha.1, ha.2]

theorem flanking_close {E : Env} {ch b a : Char} {n : Nat} (hch : ch = '*' ∨ ch = '_') (ha : isSpace a = true) (hb : isSpace b = false ∧ isUPunct E b = false) :
    flanking E ch b a (n + 1) = (false, true) := by
  unfold flanking
  rcases hch with rfl | rfl <;> simp [ha, hb.1, hb.2]

/-! ### Pairs of runs -/

/-- A pair of runs: character, positions, length. -/
structure RunPair where
  ch : Char
  a : Nat
  b : Nat
  n : Nat

/-- The delimiters of a pair. -/
def RunPair.opener (p : RunPair) : Delim := ⟨p.a, p.n + 1, p.n + 1, p.ch, true, false, 0⟩

/-- The delimiters of a pair. -/
def RunPair.closer (p : RunPair) : Delim := ⟨p.b, p.n + 1, p.n + 1, p.ch, false, true, 0⟩

/-- The positions of the pairs. -/
def InRuns (ps : List RunPair) (i : Nat) : Prop := ∃ p ∈ ps, InRange (p.a, p.a + (p.n + 1)) i ∨ InRange (p.b, p.b + (p.n + 1)) i

theorem pair_loop (ch : Char) (hch : ch = '*' ∨ ch = '_') (a b n : Nat) (rest : List Delim) (k : Nat) : ∀ (m f : Nat) (ig : List Range), m ≤ k → 1 ≤ m → m ≤ n →
    emphFuel (⟨b, n, m, ch, false, true, n - m⟩ :: rest) ≤ f →
    ∃ R f', emphLoop f [⟨a, n, m, ch, true, false, n - m⟩] (⟨b, n, m, ch, false, true, n - m⟩ :: rest) (fun _ => none) ig = emphLoop f' [] rest (fun _ => none) (ig ++ R) ∧
      emphFuel rest ≤ f' ∧ ∀ i, (∃ r ∈ R, InRange r i) ↔ InRange (a, a + m) i ∨ InRange (b + (n - m), b + n) i := by
  induction k with
  | zero => intro m f ig h1 h2; omega
  | succ k ih =>
    intro m f ig h1 h2 h3 hf
    have hfp := emphFuel_pos rest
    unfold emphFuel at hf
    simp only at hf
    cases f with
    | zero => omega
    | succ f =>
      have hstep : ∀ older c rest bots ig, emphLoop (f + 1) older (c :: rest) bots ig = _ := fun older c rest bots ig => by
        unfold emphLoop
        exact rfl
      rw [hstep, if_pos rfl]
      have hbi : ∃ x, bottomIndex ⟨b, n, m, ch, false, true, n - m⟩ = .ok x := by
        unfold bottomIndex
        rcases hch with rfl | rfl <;> simp
      obtain ⟨x, hbi⟩ := hbi
      simp only [hbi, bind, Except.bind]
      have hfo : findOpener ⟨b, n, m, ch, false, true, n - m⟩ none [⟨a, n, m, ch, true, false, n - m⟩] = some (⟨a, n, m, ch, true, false, n - m⟩, []) := by
        unfold findOpener
        rw [if_neg (by simp), if_pos (by simp [openerMatches])]
      rw [hfo]
      simp only
      by_cases hm : m ≤ 2
      · -- everything is used
        have huse : useDelims ⟨a, n, m, ch, true, false, n - m⟩ ⟨b, n, m, ch, false, true, n - m⟩ = m := by
          unfold useDelims
          simp only
          split <;> omega
        rw [huse]
        refine ⟨emphRanges ⟨a, n, m, ch, true, false, n - m⟩ ⟨b, n, m, ch, false, true, n - m⟩ m, f, ?_, by omega, ?_⟩
        · congr 1
          · simp [keepDelim, Delim.consume]
          · simp [keepDelim, Delim.consume]
        · intro i
          unfold emphRanges InRange
          simp only [List.mem_cons, List.not_mem_nil, or_false, exists_eq_or_imp, exists_eq_left]
          omega
      · have huse : useDelims ⟨a, n, m, ch, true, false, n - m⟩ ⟨b, n, m, ch, false, true, n - m⟩ = 2 := by
          unfold useDelims
          simp only
          split <;> omega
        rw [huse]
        have e1 : keepDelim (Delim.consume ⟨a, n, m, ch, true, false, n - m⟩ 2) [] = [⟨a, n, m - 2, ch, true, false, n - (m - 2)⟩] := by
          unfold keepDelim Delim.consume
          simp only
          rw [if_neg (by omega), show n - m + 2 = n - (m - 2) by omega]
        have e2 : keepDelim (Delim.consume ⟨b, n, m, ch, false, true, n - m⟩ 2) rest = ⟨b, n, m - 2, ch, false, true, n - (m - 2)⟩ :: rest := by
          unfold keepDelim Delim.consume
          simp only
          rw [if_neg (by omega), show n - m + 2 = n - (m - 2) by omega]
        rw [e1, e2]
        obtain ⟨R, f', h4, h5, h6⟩ := ih (m - 2) f (ig ++ emphRanges ⟨a, n, m, ch, true, false, n - m⟩ ⟨b, n, m, ch, false, true, n - m⟩ 2) (by omega) (by omega) (by omega)
          (by unfold emphFuel; simp only; omega)
        refine ⟨emphRanges ⟨a, n, m, ch, true, false, n - m⟩ ⟨b, n, m, ch, false, true, n - m⟩ 2 ++ R, f', by rw [h4, List.append_assoc], h5, ?_⟩
        intro i
        have : (∃ r ∈ emphRanges ⟨a, n, m, ch, true, false, n - m⟩ ⟨b, n, m, ch, false, true, n - m⟩ 2 ++ R, InRange r i) ↔
            (∃ r ∈ emphRanges ⟨a, n, m, ch, true, false, n - m⟩ ⟨b, n, m, ch, false, true, n - m⟩ 2, InRange r i) ∨ ∃ r ∈ R, InRange r i := by
          simp only [List.mem_append, or_and_right, exists_or]
        rw [this, h6]
        unfold emphRanges InRange
        simp only [List.mem_cons, List.not_mem_nil, or_false, exists_eq_or_imp, exists_eq_left]
        omega

theorem pairs_loop : ∀ (ps : List RunPair) (f : Nat) (ig : List Range), (∀ p ∈ ps, p.ch = '*' ∨ p.ch = '_') →
    emphFuel (ps.flatMap (fun p => [p.opener, p.closer])) ≤ f →
    ∃ R, emphLoop f [] (ps.flatMap (fun p => [p.opener, p.closer])) (fun _ => none) ig = .ok ([], ig ++ R) ∧ ∀ i, (∃ r ∈ R, InRange r i) ↔ InRuns ps i := by
  intro ps
  induction ps with
  | nil =>
    intro f ig _ hf
    cases f with
    | zero => simp [emphFuel] at hf
    | succ f => exact ⟨[], by simp [emphLoop], by simp [InRuns]⟩
  | cons p ps ih =>
    intro f ig hp hf
    rw [List.flatMap_cons] at hf ⊢
    simp only [List.cons_append, List.nil_append] at hf ⊢
    have e : emphFuel (p.opener :: p.closer :: ps.flatMap (fun p => [p.opener, p.closer])) = p.opener.inlLen + 1 + emphFuel (p.closer :: ps.flatMap (fun p => [p.opener, p.closer])) := rfl
    cases f with
    | zero => have := emphFuel_pos (p.opener :: p.closer :: ps.flatMap (fun p => [p.opener, p.closer])); omega
    | succ f =>
      have h1 : emphLoop (f + 1) [] (p.opener :: p.closer :: ps.flatMap (fun p => [p.opener, p.closer])) (fun _ => none) ig =
          emphLoop f [p.opener] (p.closer :: ps.flatMap (fun p => [p.opener, p.closer])) (fun _ => none) ig := by
        conv_lhs => unfold emphLoop
        rw [if_neg (by simp [RunPair.opener])]
      rw [h1]
      obtain ⟨R, f', h2, h3, h4⟩ := pair_loop p.ch (hp p (by simp)) p.a p.b (p.n + 1) (ps.flatMap (fun p => [p.opener, p.closer])) (p.n + 1) (p.n + 1) f ig
        (by omega) (by omega) (by omega) (by rw [e] at hf; rw [Nat.sub_self]; show emphFuel (p.closer :: _) ≤ f; omega)
      rw [Nat.sub_self] at h2
      have h2' : emphLoop f [p.opener] (p.closer :: ps.flatMap (fun p => [p.opener, p.closer])) (fun _ => none) ig =
          emphLoop f' [] (ps.flatMap (fun p => [p.opener, p.closer])) (fun _ => none) (ig ++ R) := h2
      rw [h2']
      obtain ⟨R', h5, h6⟩ := ih f' (ig ++ R) (fun q hq => hp q (by simp [hq])) h3
      refine ⟨R ++ R', by rw [h5, List.append_assoc], ?_⟩
      intro i
      have : (∃ r ∈ R ++ R', InRange r i) ↔ (∃ r ∈ R, InRange r i) ∨ ∃ r ∈ R', InRange r i := by
        simp only [List.mem_append, or_and_right, exists_or]
      rw [this, h4, h6]
      unfold InRuns
      simp only [List.mem_cons, or_and_right, exists_or, exists_eq_left, Nat.sub_self, Nat.add_zero]

/-! ### The filter -/

theorem filterIndicesFrom_append (rs : List Range) : ∀ (a b : Str) (k : Nat), filterIndicesFrom rs k (a ++ b) = filterIndicesFrom rs k a ++ filterIndicesFrom rs (k + a.length) b := by
  intro a
  induction a with
  | nil => intro b k; simp [filterIndicesFrom]
  | cons c a ih =>
    intro b k
    have step : ∀ t, filterIndicesFrom rs k (c :: t) = if rs.any (fun r => r.1 ≤ k && k < r.2) then filterIndicesFrom rs (k + 1) t else c :: filterIndicesFrom rs (k + 1) t :=
      fun t => by conv_lhs => unfold filterIndicesFrom
    rw [List.cons_append, step, step, ih, List.length_cons, show k + 1 + a.length = k + (a.length + 1) by omega]
    split <;> simp

theorem any_iff (rs : List Range) (i : Nat) : rs.any (fun r => decide (r.1 ≤ i) && decide (i < r.2)) = true ↔ ∃ r ∈ rs, InRange r i := by
  rw [List.any_eq_true]
  constructor
  · rintro ⟨r, h1, h2⟩
    exact ⟨r, h1, by simpa [InRange] using h2⟩
  · rintro ⟨r, h1, h2⟩
    exact ⟨r, h1, by simpa [InRange] using h2⟩

theorem filterIndicesFrom_all (rs : List Range) : ∀ (a : Str) (k : Nat), (∀ i, k ≤ i → i < k + a.length → ∃ r ∈ rs, InRange r i) → filterIndicesFrom rs k a = [] := by
  intro a
  induction a with
  | nil => intro k _; rfl
  | cons c a ih =>
    intro k h
    unfold filterIndicesFrom
    rw [if_pos ((any_iff rs k).mpr (h k (by omega) (by simp)))]
    exact ih (k + 1) (fun i h1 h2 => h i (by omega) (by simp; omega))

theorem filterIndicesFrom_keep (rs : List Range) : ∀ (a : Str) (k : Nat), (∀ i, k ≤ i → i < k + a.length → ¬ ∃ r ∈ rs, InRange r i) → filterIndicesFrom rs k a = a := by
  intro a
  induction a with
  | nil => intro k _; rfl
  | cons c a ih =>
    intro k h
    unfold filterIndicesFrom
    rw [if_neg (fun h' => h k (by omega) (by simp) ((any_iff rs k).mp h'))]
    rw [ih (k + 1) (fun i h1 h2 => h i (by omega) (by simp; omega))]

/-! ### The whole text -/

theorem Unwrapped_trim {punct : Char → Bool} {s t : Str} (h : Unwrapped punct s t) : ∀ (D tail : Str), s = D ++ tail → (∀ c ∈ tail, isSpace c = true) →
    ∃ t', t = t' ++ tail ∧ Unwrapped punct D t' := by
  induction h with
  | plain hu =>
    intro D tail e _
    exact ⟨D, e, .plain (fun c hc => hu c (by rw [e]; simp [hc]))⟩
  | @emph u w s t n ch h1 h2 h3 h4 h5 h6 h7 _ ih =>
    intro D tail e ht
    rcases List.append_eq_append_iff.mp e with ⟨D', e1, e2⟩ | ⟨z, e1, e2⟩
    · obtain ⟨t', e3, h9⟩ := ih D' tail e2 ht
      refine ⟨u ++ w ++ t', by rw [e3]; simp, ?_⟩
      rw [e1]
      refine .emph h1 h2 h3 h4 h5 h6 ?_ h9
      intro c hc
      apply h7
      rw [e2]
      cases D' with
      | nil => simp at hc
      | cons d D' => simpa using hc
    · cases hz : z.getLast? with
      | none =>
        have : z = [] := by simpa using hz
        subst this
        rw [List.append_nil] at e1
        rw [List.nil_append] at e2
        obtain ⟨t', e3, h9⟩ := ih [] tail e2.symm ht
        refine ⟨u ++ w ++ t', by rw [e3]; simp, ?_⟩
        rw [← e1]
        have := Unwrapped.emph (punct := punct) (n := n) h1 h2 h3 h4 h5 h6 (s := []) (by simp) h9
        rw [List.append_nil] at this
        exact this
      | some c =>
        exfalso
        have hc : isSpace c = true := ht c (by rw [e2]; exact List.mem_append_left _ (List.mem_of_getLast? hz))
        have : (u ++ List.replicate (n + 1) ch ++ w ++ List.replicate (n + 1) ch).getLast? = some ch := by
          rw [List.replicate_succ', ← List.append_assoc, List.getLast?_concat]
        rw [e1, List.getLast?_append, hz] at this
        simp at this
        subst this
        rcases h3 with rfl | rfl <;> simp [isSpace, isZs] at hc

theorem run_special {ch : Char} (h : ch = '*' ∨ ch = '_') : isSpecial ch = true := by rcases h with rfl | rfl <;> decide

theorem word_ne {punct : Char → Bool} {c ch : Char} (h : WordChar punct c) (hch : ch = '*' ∨ ch = '_') : c ≠ ch := by
  obtain ⟨⟨-, -, -, -, h4, -, -, -, -, h9, -⟩, -⟩ := h
  rcases hch with rfl | rfl <;> assumption

theorem inlinesLoop_unwrapped {E : Env} {rest t : Str} (h : Unwrapped E.isPCat rest t) : ∀ (pre D : Str) (s : Subj) (f : Nat), On s D → D = pre ++ rest → s.pos = pre.length →
    D.length - s.pos < f → (pre = [] ∨ ∀ c ∈ rest.head?, Blank c) →
    ∃ ps s', inlinesLoop E f s = .ok s' ∧ s'.ignore = s.ignore ∧ s'.delims = (ps.flatMap (fun p => [p.opener, p.closer])).reverse ++ s.delims ∧
      (∀ p ∈ ps, p.ch = '*' ∨ p.ch = '_') ∧ (∀ p ∈ ps, pre.length ≤ p.a ∧ p.a ≤ p.b ∧ p.b + (p.n + 1) ≤ pre.length + rest.length) ∧
      ∀ rs, (∀ i, pre.length ≤ i → ((∃ r ∈ rs, InRange r i) ↔ InRuns ps i)) → filterIndicesFrom rs pre.length rest = t := by
  induction h with
  | @plain u hu =>
    intro pre D s f hs hD hp hf _
    obtain ⟨f', h1, h2⟩ := inlinesLoop_plain (E := E) (y := []) (by simp) u.length u pre D s f (Nat.le_refl _) hu hs (by rw [hD]; simp) hp hf
    refine ⟨[], { s with pos := pre.length + u.length }, ?_, rfl, by simp, by simp, by simp, ?_⟩
    · rw [h1]
      cases f' with
      | zero => omega
      | succ f' =>
        unfold inlinesLoop
        rw [(hs.pos _).peek_end (by rw [hD]; simp)]
    · intro rs hrs
      apply filterIndicesFrom_keep
      intro i h3 _
      rw [hrs i h3]
      simp [InRuns]
  | @emph u w x t n ch hu hul hch hw hwh hwl hxh hx ih =>
    intro pre D s f hs hD hp hf hpre
    obtain ⟨c1, hc1, hw1⟩ := hwh
    obtain ⟨c2, hc2, hw2⟩ := hwl
    obtain ⟨f1, e1, g1⟩ := inlinesLoop_plain (E := E) (y := List.replicate (n + 1) ch ++ (w ++ (List.replicate (n + 1) ch ++ x)))
      (by intro c hc; rw [List.replicate_succ] at hc; simp at hc; subst hc; exact run_special hch) u.length u pre D s f (Nat.le_refl _) hu hs (by rw [hD]; simp) hp hf
    -- the opener
    have hD1 : D = (pre ++ u) ++ List.replicate (n + 1) ch ++ (w ++ (List.replicate (n + 1) ch ++ x)) := by rw [hD]; simp
    have hwhead : (w ++ (List.replicate (n + 1) ch ++ x)).head? = some c1 := by
      cases w with
      | nil => simp at hc1
      | cons d w => simpa using hc1
    have hb1 : isSpace (if pre ++ u = [] then '\n' else beforeChar (pre ++ u).reverse) = true := by
      by_cases he : pre ++ u = []
      · rw [if_pos he]; rfl
      · rw [if_neg he]
        have hun : u ≠ [] := by
          rintro rfl
          rcases hpre with rfl | hpre
          · exact he rfl
          · have := hpre ch (by rw [List.replicate_succ]; simp)
            rcases hch with rfl | rfl <;> rcases this with h | h <;> revert h <;> decide
        have hl : (pre ++ u).getLast? = some (u.getLast hun) := by rw [List.getLast?_append_of_ne_nil _ hun, List.getLast?_eq_some_getLast hun]
        have hbl : Blank (u.getLast hun) := hul _ (List.getLast?_eq_some_getLast hun)
        rw [before_last hl (by rcases hbl with h | h <;> rw [h] <;> decide)]
        exact blank_space hbl
    obtain ⟨k1, e2⟩ := parseInline_run (E := E) (s := { s with pos := pre.length + u.length }) (hs.pos _) hD1 (by simp) hch
      (by intro c hc; rw [hwhead] at hc; injection hc with hc; subst hc; exact word_ne hw1 hch) (.inl rfl)
      (flanking_open hch hb1 (by rw [List.headD_eq_head?_getD, hwhead]; exact word_space hw1))
    -- the phrase
    have hD2 : D = (pre ++ u ++ List.replicate (n + 1) ch) ++ w ++ (List.replicate (n + 1) ch ++ x) := by rw [hD]; simp
    have hDl : D.length = pre.length + (u.length + ((n + 1) + (w.length + ((n + 1) + x.length)))) := by rw [hD]; simp
    cases f1 with
    | zero => omega
    | succ f1 =>
    have e3 : inlinesLoop E (f1 + 1) { s with pos := pre.length + u.length } = inlinesLoop E f1
        { s with pos := pre.length + u.length + (n + 1), delims := ⟨pre.length + u.length, n + 1, n + 1, ch, true, false, 0⟩ :: s.delims } := by
      conv_lhs => unfold inlinesLoop
      rw [k1]
      simp only [e2, bind, Except.bind]
    obtain ⟨f2, e4, g2⟩ := inlinesLoop_plain (E := E) (y := List.replicate (n + 1) ch ++ x)
      (by intro c hc; rw [List.replicate_succ] at hc; simp at hc; subst hc; exact run_special hch) w.length w (pre ++ u ++ List.replicate (n + 1) ch) D
      { s with pos := pre.length + u.length + (n + 1), delims := ⟨pre.length + u.length, n + 1, n + 1, ch, true, false, 0⟩ :: s.delims } f1 (Nat.le_refl _) hw
      ⟨hs.data, hs.len⟩ hD2 (by simp; omega) (by simp only; omega)
    -- the closer
    have hD3 : D = (pre ++ u ++ List.replicate (n + 1) ch ++ w) ++ List.replicate (n + 1) ch ++ x := by rw [hD]; simp
    have hlast : (pre ++ u ++ List.replicate (n + 1) ch ++ w).getLast? = some c2 := by
      have : w ≠ [] := by rintro rfl; simp at hc2
      rw [List.getLast?_append_of_ne_nil _ this]
      exact hc2
    have hb2 : (if pre ++ u ++ List.replicate (n + 1) ch ++ w = [] then '\n' else beforeChar (pre ++ u ++ List.replicate (n + 1) ch ++ w).reverse) = c2 := by
      rw [if_neg (by rw [List.replicate_succ]; simp), before_last hlast hw2.2.2.2.2]
    have ha2 : isSpace (x.headD '\n') = true := by
      cases x with
      | nil => rfl
      | cons d x => exact blank_space (hxh d rfl)
    obtain ⟨k3, e5⟩ := parseInline_run (E := E)
      (s := { s with pos := (pre ++ u ++ List.replicate (n + 1) ch).length + w.length, delims := ⟨pre.length + u.length, n + 1, n + 1, ch, true, false, 0⟩ :: s.delims })
      ⟨hs.data, hs.len⟩ hD3 (by simp; omega) hch
      (by intro c hc; have := hxh c hc; rcases hch with rfl | rfl <;> rcases this with rfl | rfl <;> decide) (.inr rfl)
      (flanking_close hch ha2 (by rw [hb2]; exact word_space hw2))
    cases f2 with
    | zero => omega
    | succ f2 =>
    have e6 : inlinesLoop E (f2 + 1) { s with pos := (pre ++ u ++ List.replicate (n + 1) ch).length + w.length, delims := ⟨pre.length + u.length, n + 1, n + 1, ch, true, false, 0⟩ :: s.delims } =
        inlinesLoop E f2 { s with pos := (pre ++ u ++ List.replicate (n + 1) ch).length + w.length + (n + 1), delims := ⟨(pre ++ u ++ List.replicate (n + 1) ch).length + w.length, n + 1, n + 1, ch, false, true, 0⟩ :: ⟨pre.length + u.length, n + 1, n + 1, ch, true, false, 0⟩ :: s.delims } := by
      conv_lhs => unfold inlinesLoop
      rw [k3]
      simp only [e5, bind, Except.bind]
    have hlen : (pre ++ u ++ List.replicate (n + 1) ch).length + w.length = pre.length + u.length + (n + 1) + w.length := by simp; omega
    obtain ⟨ps, s', e7, e8, e9, e10, e11, e12⟩ := ih (pre ++ u ++ List.replicate (n + 1) ch ++ w ++ List.replicate (n + 1) ch) D
      { s with pos := (pre ++ u ++ List.replicate (n + 1) ch).length + w.length + (n + 1), delims := ⟨(pre ++ u ++ List.replicate (n + 1) ch).length + w.length, n + 1, n + 1, ch, false, true, 0⟩ :: ⟨pre.length + u.length, n + 1, n + 1, ch, true, false, 0⟩ :: s.delims } f2
      ⟨hs.data, hs.len⟩ (by rw [hD]; simp) (by simp; omega) (by rw [hlen] at g2 ⊢; simp only; omega) (.inr hxh)
    have hlen' : (pre ++ u ++ List.replicate (n + 1) ch ++ w ++ List.replicate (n + 1) ch).length = pre.length + u.length + (n + 1) + w.length + (n + 1) := by simp; omega
    rw [hlen'] at e11 e12
    refine ⟨⟨ch, pre.length + u.length, pre.length + u.length + (n + 1) + w.length, n⟩ :: ps, s', by rw [e1, e3, e4, e6, e7], e8, ?_, ?_, ?_, ?_⟩
    · rw [e9, hlen]
      simp [RunPair.opener, RunPair.closer]
    · intro p hp
      rcases List.mem_cons.mp hp with rfl | hp
      · exact hch
      · exact e10 p hp
    · intro p hp
      rcases List.mem_cons.mp hp with rfl | hp
      · refine ⟨?_, ?_, ?_⟩ <;> simp <;> omega
      · have := e11 p hp
        simp
        omega
    · intro rs hrs
      have key : ∀ i, InRuns (⟨ch, pre.length + u.length, pre.length + u.length + (n + 1) + w.length, n⟩ :: ps) i ↔
          (InRange (pre.length + u.length, pre.length + u.length + (n + 1)) i ∨ InRange (pre.length + u.length + (n + 1) + w.length, pre.length + u.length + (n + 1) + w.length + (n + 1)) i) ∨ InRuns ps i := by
        intro i
        unfold InRuns
        simp only [List.mem_cons, or_and_right, exists_or, exists_eq_left]
      have later : ∀ i, InRuns ps i → pre.length + u.length + (n + 1) + w.length + (n + 1) ≤ i := by
        rintro i ⟨p, hp, h⟩
        have := e11 p hp
        unfold InRange at h
        simp only at h
        omega
      rw [filterIndicesFrom_append, filterIndicesFrom_append, filterIndicesFrom_append, filterIndicesFrom_append]
      simp only [List.length_append, List.length_replicate]
      rw [filterIndicesFrom_keep rs u, filterIndicesFrom_all rs, filterIndicesFrom_keep rs w, filterIndicesFrom_all rs]
      · have e := e12 rs (by
          intro i hi
          rw [hrs i (by omega), key]
          unfold InRange
          simp only
          constructor
          · rintro (h | h)
            · omega
            · exact h
          · exact fun h => .inr h)
        rw [show pre.length + (u.length + (n + 1) + w.length + (n + 1)) = pre.length + u.length + (n + 1) + w.length + (n + 1) by omega, e]
        simp
      · intro i h1 h2
        rw [List.length_replicate] at h2
        rw [hrs i (by omega), key]
        unfold InRange
        simp only
        omega
      · intro i h1 h2
        rw [hrs i (by omega), key]
        intro h
        rcases h with h | h
        · unfold InRange at h
          simp only at h
          omega
        · have := later i h
          omega
      · intro i h1 h2
        rw [List.length_replicate] at h2
        rw [hrs i (by omega), key]
        unfold InRange
        simp only
        omega
      · intro i h1 h2
        rw [hrs i (by omega), key]
        intro h
        rcases h with h | h
        · unfold InRange at h
          simp only at h
          omega
        · have := later i h
          omega

theorem parseInlines_unwrapped {E : Env} {s t : Str} (h : Unwrapped E.isPCat s t) : ∃ rs, parseInlines E s = .ok rs ∧ filterIndices s rs = t := by
  obtain ⟨tail, hs, htail⟩ := rtrim_split s
  obtain ⟨t', rfl, h'⟩ := Unwrapped_trim h _ _ hs htail
  have hlen : (s.take (rtrimLen s)).length = rtrimLen s := by
    rw [List.length_take]
    have : rtrimLen s ≤ s.length := by
      unfold rtrimLen
      exact (rstrip_prefix isSpace s).length_le
    omega
  obtain ⟨ps, s', e1, e2, e3, e4, e5, e6⟩ := inlinesLoop_unwrapped h' [] (s.take (rtrimLen s)) (initSubj s) (s.length + 1) ⟨⟨tail, hs⟩, hlen.symm⟩ rfl rfl
    (by rw [hlen]; have : rtrimLen s ≤ s.length := (rstrip_prefix isSpace s).length_le
        omega) (.inl rfl)
  have hd : s'.delims = (ps.flatMap (fun p => [p.opener, p.closer])).reverse := by rw [e3]; simp [initSubj]
  have hi : s'.ignore = [] := by rw [e2]; rfl
  obtain ⟨R, e7, e8⟩ := pairs_loop ps (emphFuel (ps.flatMap (fun p => [p.opener, p.closer]))) [] e4 (Nat.le_refl _)
  refine ⟨R, ?_, ?_⟩
  · unfold parseInlines
    simp only [bind, Except.bind, e1]
    unfold processEmphasis
    simp only [splitAtBottom, hd, List.reverse_reverse, hi, bind, Except.bind]
    rw [e7]
    simp
  · unfold filterIndices
    conv_lhs => rw [hs]
    rw [filterIndicesFrom_append]
    have e6' := e6 R (fun i _ => e8 i)
    rw [List.length_nil] at e6'
    rw [e6']
    congr 1
    apply filterIndicesFrom_keep
    intro i h1 _
    rw [e8]
    rintro ⟨p, hp, h2⟩
    have := e5 p hp
    unfold InRange at h2
    simp at this h2 h1
    omega

end MdToc.Cmark
