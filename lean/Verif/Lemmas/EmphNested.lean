import Verif.Spec.Markup
import Verif.Lemmas.EmphSimple

/-!
# Nested emphasis, code spans and escapes
-/

set_option linter.unusedSimpArgs false

namespace MdToc.Cmark

open Spec

/-! ### Flanking -/

theorem space_iff {c : Char} : isSpace c = true ↔ UniSpace c := by
  unfold isSpace isZs UniSpace AsciiWhite
  have h : c.toNat = 32 ↔ c = ' ' := by
    constructor
    · intro h; apply Char.toNat_inj.mp; simpa using h
    · rintro rfl; rfl
  simp only [Bool.or_eq_true, beq_iff_eq, Bool.and_eq_true, decide_eq_true_eq, h]
  tauto

theorem upunct_iff {E : Env} {c : Char} : isUPunct E c = true ↔ AsciiPunct c ∨ E.isPCat c = true := by
  unfold isUPunct
  simp only [Bool.or_eq_true, Bool.and_eq_true, decide_eq_true_eq]
  rw [← punct_iff (c := c)]
  constructor
  · rintro (⟨-, h⟩ | h)
    · exact .inl h
    · exact .inr h
  · rintro (h | h)
    · refine .inl ⟨?_, h⟩
      unfold AsciiPunct at h
      omega
    · exact .inr h

theorem white_iff {o : Option Char} : White o ↔ isSpace (o.getD '\n') = true := by
  cases o with
  | none => simp [White, isSpace]
  | some c => simp [White, space_iff]

theorem upunct_iff' {E : Env} {o : Option Char} (h : ¬ White o) : Punct E.isPCat o ↔ isUPunct E (o.getD '\n') = true := by
  cases o with
  | none => simp [White] at h
  | some c => simp [Punct, upunct_iff]

theorem flanking_iff {E : Env} {ch : Char} {b a : Option Char} {n : Nat} (hch : ch = '*' ∨ ch = '_') :
    ((flanking E ch (b.getD '\n') (a.getD '\n') (n + 1)).1 = true ↔ CanOpen E.isPCat ch b a) ∧
    ((flanking E ch (b.getD '\n') (a.getD '\n') (n + 1)).2 = true ↔ CanClose E.isPCat ch b a) := by
  have hb := white_iff (o := b)
  have ha := white_iff (o := a)
  have hb' := fun h => upunct_iff' (E := E) (o := b) h
  have ha' := fun h => upunct_iff' (E := E) (o := a) h
  unfold CanOpen CanClose LeftFlanking RightFlanking flanking
  generalize White b = wb at *
  generalize White a = wa at *
  generalize Punct E.isPCat b = pb at *
  generalize Punct E.isPCat a = pa at *
  generalize isSpace (b.getD '\n') = sb at *
  generalize isSpace (a.getD '\n') = sa at *
  generalize isUPunct E (b.getD '\n') = ub at *
  generalize isUPunct E (a.getD '\n') = ua at *
  rcases hch with rfl | rfl <;> cases sb <;> cases sa <;> simp at hb ha <;> simp [hb, ha] at hb' ha' ⊢ <;> simp [hb, ha, hb', ha']

/-! ### The delimiters of the pieces -/

/-- The delimiters of a piece at a position. -/
def pieceDelims (k : Nat) : Piece → List Delim
  | .opens c n | .strayOpen c n => [⟨k, n + 1, n + 1, c, true, false, 0⟩]
  | .closes c n | .strayClose c n => [⟨k, n + 1, n + 1, c, false, true, 0⟩]
  | .both c n => [⟨k, n + 1, n + 1, c, true, true, 0⟩]
  | _ => []

/-- The delimiters of a sequence of pieces at a position. -/
def delimsOf (k : Nat) : List Piece → List Delim
  | [] => []
  | p :: ps => pieceDelims k p ++ delimsOf (k + p.text.length) ps

/-- The position belongs to a run which opens or closes emphasis. -/
def Removed (k : Nat) : List Piece → Nat → Prop
  | [], _ => False
  | p :: ps, i => (p.shown = [] ∧ k ≤ i ∧ i < k + p.text.length) ∨ Removed (k + p.text.length) ps i

theorem text_cons (p : Piece) (ps : List Piece) : text (p :: ps) = p.text ++ text ps := rfl

theorem text_append (a b : List Piece) : text (a ++ b) = text a ++ text b := by unfold text; rw [List.flatMap_append]

theorem shown_cons (p : Piece) (ps : List Piece) : shown (p :: ps) = p.shown ++ shown ps := rfl

theorem shown_append (a b : List Piece) : shown (a ++ b) = shown a ++ shown b := by unfold shown; rw [List.flatMap_append]

theorem delimsOf_append : ∀ (a b : List Piece) (k : Nat), delimsOf k (a ++ b) = delimsOf k a ++ delimsOf (k + (text a).length) b := by
  intro a
  induction a with
  | nil => intro b k; simp [delimsOf, text]
  | cons p a ih =>
    intro b k
    rw [List.cons_append, delimsOf, delimsOf, ih, text_cons, List.length_append, List.append_assoc, Nat.add_assoc]

theorem Removed_append : ∀ (a b : List Piece) (k i : Nat), Removed k (a ++ b) i ↔ Removed k a i ∨ Removed (k + (text a).length) b i := by
  intro a
  induction a with
  | nil => intro b k i; simp [Removed, text]
  | cons p a ih =>
    intro b k i
    rw [List.cons_append, Removed, Removed, ih, text_cons, List.length_append, Nat.add_assoc, or_assoc]

theorem Removed_ge : ∀ (ps : List Piece) (k i : Nat), Removed k ps i → k ≤ i := by
  intro ps
  induction ps with
  | nil => intro k i h; exact h.elim
  | cons p ps ih =>
    intro k i h
    rcases h with h | h
    · exact h.2.1
    · have := ih _ _ h; omega

theorem Removed_lt : ∀ (ps : List Piece) (k i : Nat), Removed k ps i → i < k + (text ps).length := by
  intro ps
  induction ps with
  | nil => intro k i h; exact h.elim
  | cons p ps ih =>
    intro k i h
    rw [text_cons, List.length_append]
    rcases h with h | h
    · omega
    · have := ih _ _ h; omega

theorem text_pos (p : Piece) : 0 < p.text.length := by
  cases p <;> simp [Piece.text] <;> omega

theorem filter_pieces_on (rs : List Range) : ∀ (ps : List Piece) (k : Nat), (∀ i, k ≤ i → i < k + (text ps).length → ((∃ r ∈ rs, InRange r i) ↔ Removed k ps i)) →
    filterIndicesFrom rs k (text ps) = shown ps := by
  intro ps
  induction ps with
  | nil => intro k _; rfl
  | cons p ps ih =>
    intro k h
    rw [text_cons, List.length_append] at h
    rw [text_cons, shown_cons, filterIndicesFrom_append, ih]
    · congr 1
      by_cases hp : p.shown = []
      · rw [hp]
        apply filterIndicesFrom_all
        intro i h1 h2
        exact (h i h1 (by omega)).mpr (.inl ⟨hp, h1, h2⟩)
      · have : p.shown = p.text := by
          cases p <;> first | rfl | (exfalso; exact hp rfl)
        rw [this]
        apply filterIndicesFrom_keep
        intro i h1 h2 h3
        rcases (h i h1 (by omega)).mp h3 with h4 | h4
        · exact hp h4.1
        · have := Removed_ge _ _ _ h4
          omega
    · intro i hi hi2
      rw [h i (by omega) (by omega)]
      rw [Removed]
      constructor
      · rintro (h1 | h1)
        · omega
        · exact h1
      · exact .inr

theorem filter_pieces (rs : List Range) (ps : List Piece) (k : Nat) (h : ∀ i, k ≤ i → ((∃ r ∈ rs, InRange r i) ↔ Removed k ps i)) :
    filterIndicesFrom rs k (text ps) = shown ps := filter_pieces_on rs ps k (fun i hi _ => h i hi)

/-! ### The loop over the delimiters -/

theorem pair_loop' (ch : Char) (hch : ch = '*' ∨ ch = '_') (a b n : Nat) (rest below : List Delim) (bots : Nat → Option Nat) (hbots : ∀ i, bots i ≠ some a) (k : Nat) :
    ∀ (m f : Nat) (ig : List Range), m ≤ k → 1 ≤ m → m ≤ n → emphFuel (⟨b, n, m, ch, false, true, n - m⟩ :: rest) ≤ f →
    ∃ R f', emphLoop f (⟨a, n, m, ch, true, false, n - m⟩ :: below) (⟨b, n, m, ch, false, true, n - m⟩ :: rest) bots ig = emphLoop f' below rest bots (ig ++ R) ∧
      emphFuel rest ≤ f' ∧ ∀ i, (∃ r ∈ R, InRange r i) ↔ InRange (a, a + m) i ∨ InRange (b + (n - m), b + n) i := by
  induction k with
  | zero => intro m f ig h1 h2; omega
  | succ k ih =>
    intro m f ig h1 h2 h3 hf
    have hfp := emphFuel_pos rest
    unfold emphFuel at hf
    simp only at hf
    cases f with
    | zero => omega
    | succ f =>
      have hstep : ∀ older c rest bots ig, emphLoop (f + 1) older (c :: rest) bots ig = _ := fun older c rest bots ig => by
        unfold emphLoop
        exact rfl
      rw [hstep, if_pos rfl]
      have hbi : ∃ x, bottomIndex ⟨b, n, m, ch, false, true, n - m⟩ = .ok x := by
        unfold bottomIndex
        rcases hch with rfl | rfl <;> simp
      obtain ⟨x, hbi⟩ := hbi
      simp only [hbi, bind, Except.bind]
      have hfo : findOpener ⟨b, n, m, ch, false, true, n - m⟩ (bots x) (⟨a, n, m, ch, true, false, n - m⟩ :: below) = some (⟨a, n, m, ch, true, false, n - m⟩, below) := by
        unfold findOpener
        rw [if_neg (fun h => hbots x h.symm), if_pos (by simp [openerMatches])]
      rw [hfo]
      simp only
      by_cases hm : m ≤ 2
      · -- everything is used
        have huse : useDelims ⟨a, n, m, ch, true, false, n - m⟩ ⟨b, n, m, ch, false, true, n - m⟩ = m := by
          unfold useDelims
          simp only
          split <;> omega
        rw [huse]
        refine ⟨emphRanges ⟨a, n, m, ch, true, false, n - m⟩ ⟨b, n, m, ch, false, true, n - m⟩ m, f, ?_, by omega, ?_⟩
        · congr 1
          · simp [keepDelim, Delim.consume]
          · simp [keepDelim, Delim.consume]
        · intro i
          unfold emphRanges InRange
          simp only [List.mem_cons, List.not_mem_nil, or_false, exists_eq_or_imp, exists_eq_left]
          omega
      · have huse : useDelims ⟨a, n, m, ch, true, false, n - m⟩ ⟨b, n, m, ch, false, true, n - m⟩ = 2 := by
          unfold useDelims
          simp only
          split <;> omega
        rw [huse]
        have e1 : keepDelim (Delim.consume ⟨a, n, m, ch, true, false, n - m⟩ 2) below = ⟨a, n, m - 2, ch, true, false, n - (m - 2)⟩ :: below := by
          unfold keepDelim Delim.consume
          simp only
          rw [if_neg (by omega), show n - m + 2 = n - (m - 2) by omega]
        have e2 : keepDelim (Delim.consume ⟨b, n, m, ch, false, true, n - m⟩ 2) rest = ⟨b, n, m - 2, ch, false, true, n - (m - 2)⟩ :: rest := by
          unfold keepDelim Delim.consume
          simp only
          rw [if_neg (by omega), show n - m + 2 = n - (m - 2) by omega]
        rw [e1, e2]
        obtain ⟨R, f', h4, h5, h6⟩ := ih (m - 2) f (ig ++ emphRanges ⟨a, n, m, ch, true, false, n - m⟩ ⟨b, n, m, ch, false, true, n - m⟩ 2) (by omega) (by omega) (by omega)
          (by unfold emphFuel; simp only; omega)
        refine ⟨emphRanges ⟨a, n, m, ch, true, false, n - m⟩ ⟨b, n, m, ch, false, true, n - m⟩ 2 ++ R, f', by rw [h4, List.append_assoc], h5, ?_⟩
        intro i
        have : (∃ r ∈ emphRanges ⟨a, n, m, ch, true, false, n - m⟩ ⟨b, n, m, ch, false, true, n - m⟩ 2 ++ R, InRange r i) ↔
            (∃ r ∈ emphRanges ⟨a, n, m, ch, true, false, n - m⟩ ⟨b, n, m, ch, false, true, n - m⟩ 2, InRange r i) ∨ ∃ r ∈ R, InRange r i := by
          simp only [List.mem_append, or_and_right, exists_or]
        rw [this, h6]
        unfold emphRanges InRange
        simp only [List.mem_cons, List.not_mem_nil, or_false, exists_eq_or_imp, exists_eq_left]
        omega

theorem exists_range_append {R R' : List Range} {i : Nat} : (∃ r ∈ R ++ R', InRange r i) ↔ (∃ r ∈ R, InRange r i) ∨ ∃ r ∈ R', InRange r i := by
  simp only [List.mem_append, or_and_right, exists_or]

theorem emphFuel_append : ∀ (a b : List Delim), emphFuel b ≤ emphFuel (a ++ b) := by
  intro a
  induction a with
  | nil => intro b; exact Nat.le_refl _
  | cons d a ih =>
    intro b
    have := ih b
    rw [List.cons_append, emphFuel]
    omega

theorem leaf_delims {p : Piece} (h : p.Leaf) (k : Nat) : pieceDelims k p = [] := by
  cases p <;> first | rfl | exact h.elim

theorem leaf_shown {p : Piece} (h : p.Leaf) : p.shown ≠ [] := by
  cases p <;> first | exact h.elim | simp [Piece.shown, Piece.text]

/-- Every run is made of `*` or `_`. -/
def RunsOk (ps : List Piece) : Prop := ∀ p ∈ ps, ∀ k, ∀ d ∈ pieceDelims k p, d.ch = '*' ∨ d.ch = '_'

theorem nested_loop {ps : List Piece} (h : Paired ps) : RunsOk ps → ∀ (k : Nat) (rest older : List Delim) (bots : Nat → Option Nat) (f : Nat) (ig : List Range), (∀ i p, bots i = some p → p < k) →
    emphFuel (delimsOf k ps ++ rest) ≤ f →
    ∃ R f', emphLoop f older (delimsOf k ps ++ rest) bots ig = emphLoop f' older rest bots (ig ++ R) ∧ emphFuel rest ≤ f' ∧ ∀ i, (∃ r ∈ R, InRange r i) ↔ Removed k ps i := by
  induction h with
  | nil =>
    intro _ k rest older bots f ig _ hf
    exact ⟨[], f, by simp [delimsOf], hf, by simp [Removed]⟩
  | @leaf p ps hp _ ih =>
    intro hr k rest older bots f ig hb hf
    rw [delimsOf, leaf_delims hp, List.nil_append] at hf ⊢
    obtain ⟨R, f', h1, h2, h3⟩ := ih (fun q hq => hr q (by simp [hq])) (k + p.text.length) rest older bots f ig (fun i q hq => by have := hb i q hq; omega) hf
    refine ⟨R, f', h1, h2, fun i => ?_⟩
    rw [h3, Removed]
    constructor
    · exact .inr
    · rintro (h4 | h4)
      · exact absurd h4.1 (leaf_shown hp)
      · exact h4
  | @pair c n a b _ _ iha ihb =>
    intro hr k rest older bots f ig hb hf
    have hch : c = '*' ∨ c = '_' := hr (.opens c n) (by simp) 0 _ (List.mem_singleton.mpr rfl)
    have e : delimsOf k (.opens c n :: (a ++ .closes c n :: b)) ++ rest = ⟨k, n + 1, n + 1, c, true, false, 0⟩ :: (delimsOf (k + (n + 1)) a ++
        (⟨k + (n + 1) + (text a).length, n + 1, n + 1, c, false, true, 0⟩ :: (delimsOf (k + (n + 1) + (text a).length + (n + 1)) b ++ rest))) := by
      rw [delimsOf, delimsOf_append, delimsOf]
      simp [pieceDelims, Piece.text]
    rw [e] at hf ⊢
    rw [emphFuel] at hf
    simp only at hf
    cases f with
    | zero => omega
    | succ f =>
      have hstep : ∀ rest, emphLoop (f + 1) older (⟨k, n + 1, n + 1, c, true, false, 0⟩ :: rest) bots ig = emphLoop f (⟨k, n + 1, n + 1, c, true, false, 0⟩ :: older) rest bots ig := by
        intro rest
        conv_lhs => unfold emphLoop
        rw [if_neg (by simp)]
      rw [hstep]
      obtain ⟨R1, f1, h1, h2, h3⟩ := iha (fun q hq => hr q (by simp [hq])) (k + (n + 1))
        (⟨k + (n + 1) + (text a).length, n + 1, n + 1, c, false, true, 0⟩ :: (delimsOf (k + (n + 1) + (text a).length + (n + 1)) b ++ rest)) (⟨k, n + 1, n + 1, c, true, false, 0⟩ :: older) bots f ig (fun i q hq => by have := hb i q hq; omega)
        (by omega)
      rw [h1]
      obtain ⟨R2, f2, h4, h5, h6⟩ := pair_loop' c hch k (k + (n + 1) + (text a).length) (n + 1) (delimsOf (k + (n + 1) + (text a).length + (n + 1)) b ++ rest) older bots
        (fun i h => by have := hb i k h; omega) (n + 1) (n + 1) f1 (ig ++ R1) (by omega) (by omega) (by omega) (by rw [Nat.sub_self]; exact h2)
      rw [Nat.sub_self] at h4
      rw [h4]
      obtain ⟨R3, f3, h7, h8, h9⟩ := ihb (fun q hq => hr q (by simp [hq])) (k + (n + 1) + (text a).length + (n + 1)) rest older bots f2 (ig ++ R1 ++ R2) (fun i q hq => by have := hb i q hq; omega) h5
      refine ⟨R1 ++ R2 ++ R3, f3, by rw [h7]; simp, h8, fun i => ?_⟩
      rw [exists_range_append, exists_range_append, h3, h6, h9, Removed, Removed_append, Removed]
      simp only [Piece.text, Piece.shown, List.length_replicate, true_and, Nat.sub_self, Nat.add_zero, InRange]
      have key : ∀ A B P Q : Prop, ((A ∨ (P ∨ Q)) ∨ B) ↔ (P ∨ (A ∨ (Q ∨ B))) := by tauto
      exact key _ _ _ _

/-- The delimiters are opening runs of characters which satisfy the condition, before the position. -/
def OpensOf (P : Char → Prop) (k : Nat) (ds : List Delim) : Prop := ∀ d ∈ ds, P d.ch ∧ d.pos < k

theorem findOpener_none {c : Delim} {bottom : Option Nat} : ∀ {ds : List Delim}, (∀ d ∈ ds, d.ch ≠ c.ch) → findOpener c bottom ds = none := by
  intro ds
  induction ds with
  | nil => intro _; rfl
  | cons d ds ih =>
    intro h
    unfold findOpener
    split
    · rfl
    · rw [if_neg (by have := h d (by simp); simp [openerMatches, this])]
      exact ih (fun e he => h e (by simp [he]))

theorem findOpener_stops {c : Delim} {bottom : Option Nat} {old : List Delim} : ∀ {ds : List Delim}, (∀ d ∈ ds, d.ch ≠ c.ch) →
    (bottom = old.head?.map (·.pos) ∨ ∃ d ∈ ds, bottom = some d.pos) → findOpener c bottom (ds ++ old) = none := by
  intro ds
  induction ds with
  | nil =>
    intro _ h
    rcases h with rfl | ⟨d, hd, -⟩
    · cases old with
      | nil => rfl
      | cons d old => simp [findOpener]
    · simp at hd
  | cons d ds ih =>
    intro h hb
    rw [List.cons_append]
    unfold findOpener
    split
    · rfl
    · rename_i hne
      rw [if_neg (by have := h d (by simp); simp [openerMatches, this])]
      refine ih (fun e he => h e (by simp [he])) ?_
      rcases hb with hb | ⟨e, he, hb⟩
      · exact .inl hb
      · rcases List.mem_cons.mp he with rfl | he
        · exact absurd hb.symm hne
        · exact .inr ⟨e, he, hb⟩

/-- The delimiters from `k0` on are handled among themselves. -/
theorem balanced_loop {ps : List Piece} (h : Balanced ps) : RunsOk ps → Uncrossed ps → ∀ (k0 k : Nat) (news old : List Delim) (bots : Nat → Option Nat) (f : Nat) (ig : List Range), k0 ≤ k →
    (∀ d ∈ old, d.pos < k) → (∀ i, bots i = old.head?.map (·.pos) ∨ ∃ d ∈ news, bots i = some d.pos) → (∀ d ∈ news, k0 ≤ d.pos) →
    OpensOf (fun c => ∀ m, .strayClose c m ∉ ps) k news → emphFuel (delimsOf k ps) ≤ f →
    ∃ R news', emphLoop f (news ++ old) (delimsOf k ps) bots ig = .ok (news' ++ old, ig ++ R) ∧ (∀ d ∈ news', k0 ≤ d.pos) ∧ ∀ i, (∃ r ∈ R, InRange r i) ↔ Removed k ps i := by
  induction h with
  | nil =>
    intro _ _ k0 k news old bots f ig hk hold hb hn ho hf
    cases f with
    | zero => simp [delimsOf, emphFuel] at hf
    | succ f => exact ⟨[], news, by simp [delimsOf, emphLoop], hn, by simp [Removed]⟩
  | @leaf p ps hp _ ih =>
    intro hr hap k0 k news old bots f ig hk hold hb hn ho hf
    rw [delimsOf, leaf_delims hp, List.nil_append] at hf ⊢
    obtain ⟨R, ds, h1, h2, h3⟩ := ih (fun q hq => hr q (by simp [hq])) (fun c n m x y z e => hap c n m (p :: x) y z (by rw [e]; rfl)) k0 (k + p.text.length) news old bots f ig (by omega)
      (fun d hd => by have := hold d hd; omega) hb hn (fun d hd => ⟨fun m hm => (ho d hd).1 m (by simp [hm]), by have := (ho d hd).2; omega⟩) hf
    refine ⟨R, ds, h1, h2, fun i => ?_⟩
    rw [h3, Removed]
    constructor
    · exact .inr
    · rintro (h4 | h4)
      · exact absurd h4.1 (leaf_shown hp)
      · exact h4
  | @pair c n a b ha _ ih =>
    intro hr hap k0 k news old bots f ig hk hold hb hn ho hf
    have e : .opens c n :: (a ++ .closes c n :: b) = (.opens c n :: (a ++ [.closes c n])) ++ b := by simp
    have hnp : Paired (.opens c n :: (a ++ [.closes c n])) := .pair ha .nil
    rw [e] at hr hap ho hf ⊢
    rw [delimsOf_append] at hf ⊢
    obtain ⟨R1, f1, h1, h2, h3⟩ := nested_loop hnp (fun q hq => hr q (List.mem_append_left _ hq)) k _ (news ++ old) bots f ig
      (by
        intro i q hq
        rcases hb i with h | ⟨d, hd, h⟩
        · rw [h] at hq
          cases old with
          | nil => simp at hq
          | cons d old =>
            simp at hq
            have := hold d (by simp)
            omega
        · rw [h] at hq
          injection hq with hq
          have := (ho d hd).2
          omega) hf
    rw [h1]
    obtain ⟨R, ds, h4, h6, h5⟩ := ih (fun q hq => hr q (List.mem_append_right _ hq))
      (fun c' n' m x y z e' => hap c' n' m ((.opens c n :: (a ++ [.closes c n])) ++ x) y z (by rw [e', List.append_assoc])) k0 (k + (text (.opens c n :: (a ++ [.closes c n]))).length) news old bots f1 (ig ++ R1)
      (by omega) (fun d hd => by have := hold d hd; omega) hb hn
      (fun d hd => ⟨fun m hm => (ho d hd).1 m (List.mem_append_right _ hm), by have := (ho d hd).2; omega⟩) h2
    refine ⟨R1 ++ R, ds, by rw [h4, List.append_assoc], h6, fun i => ?_⟩
    rw [exists_range_append, h3, h5, Removed_append]
  | @strayOpen c n ps _ ih =>
    intro hr hap k0 k news old bots f ig hk hold hb hn ho hf
    have e : delimsOf k (.strayOpen c n :: ps) = ⟨k, n + 1, n + 1, c, true, false, 0⟩ :: delimsOf (k + (n + 1)) ps := by simp [delimsOf, pieceDelims, Piece.text]
    rw [e] at hf ⊢
    rw [emphFuel] at hf
    simp only at hf
    cases f with
    | zero => omega
    | succ f =>
      have hstep : ∀ rest, emphLoop (f + 1) (news ++ old) (⟨k, n + 1, n + 1, c, true, false, 0⟩ :: rest) bots ig = emphLoop f (⟨k, n + 1, n + 1, c, true, false, 0⟩ :: news ++ old) rest bots ig := by
        intro rest
        conv_lhs => unfold emphLoop
        rw [if_neg (by simp)]
        rfl
      rw [hstep]
      obtain ⟨R, ds, h4, h6, h5⟩ := ih (fun q hq => hr q (List.mem_cons_of_mem _ hq))
        (fun c' n' m x y z e' => hap c' n' m (.strayOpen c n :: x) y z (by rw [e']; rfl)) k0 (k + (n + 1)) (⟨k, n + 1, n + 1, c, true, false, 0⟩ :: news) old bots f ig
        (by omega) (fun d hd => by have := hold d hd; omega)
        (fun i => by
          rcases hb i with h | ⟨d, hd, h⟩
          · exact .inl h
          · exact .inr ⟨d, by simp [hd], h⟩)
        (by
          intro d hd
          rcases List.mem_cons.mp hd with rfl | hd
          · exact hk
          · exact hn d hd)
        (by
          intro d hd
          rcases List.mem_cons.mp hd with rfl | hd
          · refine ⟨fun m hm => ?_, by simp⟩
            obtain ⟨y, z, e'⟩ := List.append_of_mem hm
            exact hap c n m [] y z (by rw [e']; rfl)
          · exact ⟨fun m hm => (ho d hd).1 m (List.mem_cons_of_mem _ hm), by have := (ho d hd).2; omega⟩) (by omega)
      refine ⟨R, ds, h4, h6, fun i => ?_⟩
      rw [h5, Removed]
      simp [Piece.text, Piece.shown]
  | @strayClose c n ps _ ih =>
    intro hr hap k0 k news old bots f ig hk hold hb hn ho hf
    have hch : c = '*' ∨ c = '_' := hr (.strayClose c n) (by simp) 0 _ (List.mem_singleton.mpr rfl)
    have e : delimsOf k (.strayClose c n :: ps) = ⟨k, n + 1, n + 1, c, false, true, 0⟩ :: delimsOf (k + (n + 1)) ps := by simp [delimsOf, pieceDelims, Piece.text]
    rw [e] at hf ⊢
    rw [emphFuel] at hf
    simp only at hf
    cases f with
    | zero => omega
    | succ f =>
      have hbi : ∃ x, bottomIndex ⟨k, n + 1, n + 1, c, false, true, 0⟩ = .ok x := by
        unfold bottomIndex
        rcases hch with rfl | rfl <;> simp
      obtain ⟨x, hbi⟩ := hbi
      have hfo : findOpener ⟨k, n + 1, n + 1, c, false, true, 0⟩ (bots x) (news ++ old) = none := by
        apply findOpener_stops
        · intro d hd hc
          simp only at hc
          exact (ho d hd).1 n (by rw [hc]; simp)
        · exact hb x
      have hstep : ∀ rest, emphLoop (f + 1) (news ++ old) (⟨k, n + 1, n + 1, c, false, true, 0⟩ :: rest) bots ig =
          emphLoop f (news ++ old) rest (fun i => if i = x then (news ++ old).head?.map (·.pos) else bots i) ig := by
        intro rest
        conv_lhs => unfold emphLoop
        rw [if_pos rfl]
        simp only [hbi, bind, Except.bind, hfo]
        simp
      rw [hstep]
      obtain ⟨R, ds, h4, h6, h5⟩ := ih (fun q hq => hr q (List.mem_cons_of_mem _ hq))
        (fun c' n' m x y z e' => hap c' n' m (.strayClose c n :: x) y z (by rw [e']; rfl)) k0 (k + (n + 1)) news old (fun i => if i = x then (news ++ old).head?.map (·.pos) else bots i) f ig
        (by omega) (fun d hd => by have := hold d hd; omega)
        (by
          intro i
          split
          · cases news with
            | nil => exact .inl rfl
            | cons d news => exact .inr ⟨d, by simp, rfl⟩
          · exact hb i)
        hn
        (fun d hd => ⟨fun m hm => (ho d hd).1 m (List.mem_cons_of_mem _ hm), by have := (ho d hd).2; omega⟩) (by omega)
      refine ⟨R, ds, h4, h6, fun i => ?_⟩
      rw [h5, Removed]
      simp [Piece.text, Piece.shown]

end MdToc.Cmark
