import Verif.Lemmas.EmphScan
import Verif.Props.Inline

/-!
# Nested emphasis, code spans and escapes: C64
-/

set_option linter.unusedSimpArgs false

namespace MdToc.Props

open MdToc.Spec Cmark

/-- **C64**: the runs which open and close emphasis are removed, also when they are nested, and nothing else: code spans, escaped characters,
runs inside words or between blanks and runs without a partner stay. -/
theorem C64_markup_removed {E : Env} {s t : Str} (p : Parser) (h : Unmarked E.isPCat s t) : removeEmphasis E s p = .ok t :=
  removeEmphasis_unmarked h p

/-- The pieces are what they say, after a text. -/
def PlacedFrom (punct : Char → Bool) (pre : Str) : List Piece → Prop
  | [] => True
  | p :: ps => p.Ok punct pre (text ps) ∧ PlacedFrom punct (pre ++ p.text) ps

theorem placedFrom_iff {punct : Char → Bool} : ∀ (ps : List Piece) (pre : Str),
    PlacedFrom punct pre ps ↔ ∀ x p y, ps = x ++ p :: y → p.Ok punct (pre ++ text x) (text y) := by
  intro ps
  induction ps with
  | nil => intro pre; simp [PlacedFrom]
  | cons q ps ih =>
    intro pre
    rw [PlacedFrom, ih]
    constructor
    · rintro ⟨h1, h2⟩ x p y e
      cases x with
      | nil =>
        injection e with e1 e2
        subst e1 e2
        simpa [text] using h1
      | cons z x =>
        injection e with e1 e2
        subst e1
        have := h2 x p y e2
        rwa [text_cons, ← List.append_assoc]
    · intro h
      refine ⟨by simpa [text] using h [] q ps rfl, ?_⟩
      intro x p y e
      have := h (q :: x) p y (by rw [e]; rfl)
      rwa [text_cons, ← List.append_assoc] at this

theorem placed_iff {punct : Char → Bool} {ps : List Piece} : Placed punct ps ↔ PlacedFrom punct [] ps := by
  rw [placedFrom_iff]
  rfl

theorem placedFrom_append {punct : Char → Bool} : ∀ (a b : List Piece) (pre : Str),
    (∀ x p y, a = x ++ p :: y → p.Ok punct (pre ++ text x) (text y ++ text b)) → PlacedFrom punct (pre ++ text a) b → PlacedFrom punct pre (a ++ b) := by
  intro a
  induction a with
  | nil => intro b pre _ h; simpa [text] using h
  | cons q a ih =>
    intro b pre h1 h2
    rw [List.cons_append, PlacedFrom]
    refine ⟨?_, ih b (pre ++ q.text) ?_ ?_⟩
    · rw [text_append]
      simpa [text] using h1 [] q a rfl
    · intro x p y e
      have := h1 (q :: x) p y (by rw [e]; rfl)
      rwa [text_cons, ← List.append_assoc] at this
    · rw [text_cons, ← List.append_assoc] at h2
      exact h2

theorem placedFrom_chars {punct : Char → Bool} : ∀ (u : Str) (b : List Piece) (pre : Str), (∀ c ∈ u, Plain c) → PlacedFrom punct (pre ++ u) b → PlacedFrom punct pre (u.map .char ++ b) := by
  intro u
  induction u with
  | nil => intro b pre _ h; simpa using h
  | cons c u ih =>
    intro b pre hu h
    rw [List.map_cons, List.cons_append, PlacedFrom]
    refine ⟨.inl (hu c (by simp)), ih b (pre ++ [c]) (fun d hd => hu d (by simp [hd])) ?_⟩
    rw [List.append_assoc]
    exact h

theorem nested_chars {ps : List Piece} (h : Paired ps) (u : Str) : Paired (u.map .char ++ ps) := by
  induction u with
  | nil => exact h
  | cons c u ih => exact .leaf trivial ih

theorem balanced_chars {ps : List Piece} (h : Balanced ps) (u : Str) : Balanced (u.map .char ++ ps) := by
  induction u with
  | nil => exact h
  | cons c u ih => exact .leaf trivial ih

theorem shown_chars (u : Str) : shown (u.map .char) = u := by
  induction u with
  | nil => rfl
  | cons c u ih => rw [List.map_cons, shown_cons, ih]; rfl

theorem white_blank {c : Char} (h : Blank c) : White (some c) := by
  intro d hd
  injection hd with hd
  subst hd
  rcases h with rfl | rfl
  · exact .inl (.inl rfl)
  · exact .inl (.inr (.inl rfl))

/-- The characters of words are neither white space nor punctuation. -/
theorem word_flank {punct : Char → Bool} {c : Char} (h : WordChar punct c) : ¬ White (some c) ∧ ¬ Punct punct (some c) := by
  obtain ⟨-, h1, h2, h3, -⟩ := h
  constructor
  · intro hw
    exact h1 (hw c rfl)
  · rintro ⟨d, hd, h⟩
    injection hd with hd
    subst hd
    rcases h with h | h
    · exact h2 h
    · rw [h3] at h; simp at h

/-- The phrases of C59 are pieces of C64. -/
theorem unwrapped_pieces {punct : Char → Bool} {s t : Str} (h : Unwrapped punct s t) : ∃ ps, s = text ps ∧ t = shown ps ∧ Balanced ps ∧
    (∀ c n, .strayOpen c n ∉ ps) ∧ ∀ pre, pre = [] ∨ (∀ c ∈ s.head?, Blank c) → PlacedFrom punct pre ps := by
  induction h with
  | @plain u hu =>
    refine ⟨u.map .char, (text_chars u).symm, (shown_chars u).symm, ?_, ?_, ?_⟩
    · have := balanced_chars .nil u
      rwa [List.append_nil] at this
    · intro c n hm
      simp at hm
    · intro pre _
      have := placedFrom_chars (punct := punct) u [] pre hu trivial
      rwa [List.append_nil] at this
  | @emph u w s t n ch hu hul hch hw hwh hwl hsh _ ih =>
    obtain ⟨ps, rfl, rfl, h1, h2, h3⟩ := ih
    obtain ⟨c1, hc1, hw1⟩ := hwh
    obtain ⟨c2, hc2, hw2⟩ := hwl
    refine ⟨u.map .char ++ .opens ch n :: (w.map .char ++ .closes ch n :: ps), ?_, ?_, ?_, ?_, ?_⟩
    · rw [text_append, text_cons, text_append, text_cons, text_chars, text_chars]
      simp [Piece.text]
    · rw [shown_append, shown_cons, shown_append, shown_cons, shown_chars, shown_chars]
      simp [Piece.shown]
    · apply balanced_chars
      refine .pair ?_ h1
      have := nested_chars .nil w
      rwa [List.append_nil] at this
    · intro c m hm
      simp at hm
      exact h2 c m hm
    · intro pre hpre
      apply placedFrom_chars _ _ _ hu
      rw [PlacedFrom]
      have hbw : White (pre ++ u).getLast? ∧ ∀ d ∈ (pre ++ u).getLast?, ¬ (128 ≤ d.toNat ∧ d.toNat ≤ 191) := by
        cases hun : u.getLast? with
        | some d =>
          have hu' : u ≠ [] := by rintro rfl; simp at hun
          rw [List.getLast?_append_of_ne_nil _ hu', hun]
          have hb := hul d hun
          refine ⟨white_blank hb, ?_⟩
          intro e he
          injection he with he
          subst he
          rcases hb with rfl | rfl <;> decide
        | none =>
          have hu' : u = [] := by simpa using hun
          subst hu'
          rcases hpre with rfl | hpre
          · exact ⟨by simp [White], by simp⟩
          · exfalso
            have := hpre ch (by rw [List.nil_append, List.replicate_succ]; rfl)
            rcases hch with rfl | rfl <;> rcases this with h | h <;> revert h <;> decide
      have hah : (text (w.map .char ++ .closes ch n :: ps)).head? = some c1 := by
        rw [text_append, text_chars]
        cases w with
        | nil => simp at hc1
        | cons d w => simpa using hc1
      have hf1 := word_flank hw1
      have hf2 := word_flank hw2
      refine ⟨⟨isRun_of hch ?_ hbw.2, ?_, ?_⟩, placedFrom_chars _ _ _ hw ?_⟩
      · rw [hah]
        intro e
        injection e with e
        exact word_ne hw1 hch e
      · rw [hah]
        exact ⟨⟨hf1.1, .inl hf1.2⟩, fun _ => .inl (fun hr => hr.1 hbw.1)⟩
      · rintro ⟨⟨hr, -⟩, -⟩
        exact hr hbw.1
      · rw [PlacedFrom]
        have hbl : (pre ++ u ++ (Piece.opens ch n).text ++ w).getLast? = some c2 := by
          have : w ≠ [] := by rintro rfl; simp at hc2
          rw [List.getLast?_append_of_ne_nil _ this]
          exact hc2
        have haw : White (text ps).head? := by
          intro d hd
          exact white_blank (hsh d hd) d rfl
        refine ⟨⟨isRun_of hch ?_ ?_, ?_, ?_⟩, h3 _ (.inr hsh)⟩
        · intro e
          have := hsh ch e
          rcases hch with rfl | rfl <;> rcases this with h | h <;> revert h <;> decide
        · rw [hbl]
          intro d hd
          injection hd with hd
          subst hd
          exact hw2.2.2.2.2
        · rintro ⟨⟨hl, -⟩, -⟩
          exact hl haw
        · rw [hbl]
          exact ⟨⟨hf2.1, .inl hf2.2⟩, fun _ => .inl (fun hl => hl.1 haw)⟩

/-- C64 covers C59. -/
theorem unmarked_of_unwrapped {punct : Char → Bool} {s t : Str} (h : Unwrapped punct s t) : Unmarked punct s t := by
  obtain ⟨ps, h1, h2, h3, h4, h5⟩ := unwrapped_pieces h
  refine ⟨ps, h1, h2, placed_iff.mpr (h5 [] (.inl rfl)), h3, ?_⟩
  intro c n m x y z e
  exact h4 c n (by rw [e]; simp)

/-! ### A concrete text -/

instance (o : Option Char) : Decidable (White o) := by unfold White; infer_instance
instance (c : Char) : Decidable (AsciiPunct c) := by unfold AsciiPunct; infer_instance
instance (punct : Char → Bool) (o : Option Char) : Decidable (Punct punct o) :=
  match o with
  | none => .isFalse (by simp [Punct])
  | some c => decidable_of_iff (AsciiPunct c ∨ punct c = true) (by simp [Punct])
instance (punct : Char → Bool) (b a : Option Char) : Decidable (LeftFlanking punct b a) := by unfold LeftFlanking; infer_instance
instance (punct : Char → Bool) (b a : Option Char) : Decidable (RightFlanking punct b a) := by unfold RightFlanking; infer_instance
instance (punct : Char → Bool) (c : Char) (b a : Option Char) : Decidable (CanOpen punct c b a) := by unfold CanOpen; infer_instance
instance (punct : Char → Bool) (c : Char) (b a : Option Char) : Decidable (CanClose punct c b a) := by unfold CanClose; infer_instance
instance (punct : Char → Bool) (c : Char) (b a : Str) : Decidable (IsRun punct c b a) := by unfold IsRun; infer_instance

theorem ticks_iff {n : Nat} {body : Str} : (∀ i < body.length + 1, (body.drop i).take n = List.replicate n '`' → (body.take i).getLast? = some '`' ∨ (body.drop (i + n)).head? = some '`') ↔
    ∀ x y, body = x ++ List.replicate n '`' ++ y → x.getLast? = some '`' ∨ y.head? = some '`' := by
  constructor
  · intro h x y e
    have h1 := h x.length (by rw [e]; simp; omega)
    have e1 : body.take x.length = x := by rw [e]; simp
    have e2 : body.drop x.length = List.replicate n '`' ++ y := by rw [e]; simp
    have e3 : body.drop (x.length + n) = y := by rw [← List.drop_drop, e2]; exact List.drop_left' (by simp)
    rw [e1, e2, e3] at h1
    exact h1 (List.take_left' (by simp))
  · intro h i _ hi
    apply h
    rw [← hi, List.append_assoc, ← List.drop_drop, List.take_append_drop, List.take_append_drop]

/-- A condition that can be computed and that is enough for `AfterAmp`. -/
def AmpSafe (y : Str) : Prop :=
  ';' ∉ y ∨ (y.head? ≠ some '#' ∧ (y.dropWhile (fun c => decide (Plain c ∧ c ≠ ';' ∧ c ≠ ' ')) = [] ∨ (2 ≤ (y.takeWhile (fun c => decide (Plain c ∧ c ≠ ';' ∧ c ≠ ' '))).length ∧
    ((y.dropWhile (fun c => decide (Plain c ∧ c ≠ ';' ∧ c ≠ ' '))).head? = some ';' ∨ (y.dropWhile (fun c => decide (Plain c ∧ c ≠ ';' ∧ c ≠ ' '))).head? = some ' '))))

instance (y : Str) : Decidable (AmpSafe y) := by unfold AmpSafe; infer_instance

theorem ampSafe_ok {y : Str} (h : AmpSafe y) : AfterAmp y := by
  rcases h with h | ⟨h0, h⟩
  · exact .inl h
  · exact .inr ⟨h0, _, _, List.takeWhile_append_dropWhile.symm, fun c hc => by have := mem_takeWhile_true hc; simp only [decide_eq_true_eq] at this; exact this.1, h⟩

instance (y : Str) : Decidable (NoLabel y) := by unfold NoLabel; infer_instance

/-- A condition on a piece that can be computed and that is enough for `Piece.Ok`: the inline HTML is one of the given texts. -/
def Safe (raws : List Str) (punct : Char → Bool) (x y : Str) : Piece → Prop
  | .char c => Plain c ∨ (c = '&' ∧ AmpSafe y) ∨ (c = '<' ∧ '>' ∉ y ∧ y.head? ≠ some '!' ∧ y.head? ≠ some '?') ∨ c = '[' ∨ (c = ']' ∧ y.head? ≠ some '(' ∧ NoLabel y)
  | .raw ins => '<' :: (ins ++ ['>']) ∈ raws
  | .code n body =>
    n < 1000 ∧ body ≠ [] ∧ '\x00' ∉ body ∧ body.getLast? ≠ some '\r' ∧ body.head? ≠ some '`' ∧ body.getLast? ≠ some '`' ∧ y.head? ≠ some '`' ∧
      ∀ i < body.length + 1, (body.drop i).take (n + 1) = List.replicate (n + 1) '`' → (body.take i).getLast? = some '`' ∨ (body.drop (i + (n + 1))).head? = some '`'
  | p => p.Ok punct x y

theorem safe_ok {raws : List Str} (hr : ∀ x ∈ raws, RawInline x) {punct : Char → Bool} {x y : Str} {p : Piece} (h : Safe raws punct x y p) : p.Ok punct x y := by
  cases p with
  | char c =>
    rcases h with h | h | ⟨h, h1, h2⟩ | h | h
    · exact .inl h
    · exact .inr (.inl ⟨h.1, ampSafe_ok h.2⟩)
    · refine .inr (.inr (.inl ⟨h, fun u v e hu => h1 ?_, h2⟩))
      obtain ⟨w, rfl⟩ := tag_end hu
      have : '>' ∈ '<' :: y := by rw [e]; simp
      simpa using this
    · exact .inr (.inr (.inr (.inl h)))
    · exact .inr (.inr (.inr (.inr h)))
  | raw ins => exact hr _ h
  | code n body =>
    obtain ⟨h1, h2, h3, h4, h5, h6, h7, h8⟩ := h
    exact ⟨h1, h2, h3, h4, h5, h6, h7, ticks_iff.mp h8⟩
  | _ => exact h

instance (raws : List Str) (punct : Char → Bool) (x y : Str) (p : Piece) : Decidable (Safe raws punct x y p) :=
  match p with
  | .char c => inferInstanceAs (Decidable (Plain c ∨ (c = '&' ∧ AmpSafe y) ∨ (c = '<' ∧ '>' ∉ y ∧ y.head? ≠ some '!' ∧ y.head? ≠ some '?') ∨
      c = '[' ∨ (c = ']' ∧ y.head? ≠ some '(' ∧ NoLabel y)))
  | .raw ins => inferInstanceAs (Decidable ('<' :: (ins ++ ['>']) ∈ raws))
  | .escape c => inferInstanceAs (Decidable (AsciiPunct c))
  | .code n body =>
    inferInstanceAs (Decidable (n < 1000 ∧ body ≠ [] ∧ '\x00' ∉ body ∧ body.getLast? ≠ some '\r' ∧ body.head? ≠ some '`' ∧ body.getLast? ≠ some '`' ∧ y.head? ≠ some '`' ∧
      ∀ i < body.length + 1, (body.drop i).take (n + 1) = List.replicate (n + 1) '`' → (body.take i).getLast? = some '`' ∨ (body.drop (i + (n + 1))).head? = some '`'))
  | .run c _ => inferInstanceAs (Decidable (IsRun punct c x y ∧ ¬ CanOpen punct c x.getLast? y.head? ∧ ¬ CanClose punct c x.getLast? y.head?))
  | .opens c _ => inferInstanceAs (Decidable (IsRun punct c x y ∧ CanOpen punct c x.getLast? y.head? ∧ ¬ CanClose punct c x.getLast? y.head?))
  | .strayOpen c _ => inferInstanceAs (Decidable (IsRun punct c x y ∧ CanOpen punct c x.getLast? y.head? ∧ ¬ CanClose punct c x.getLast? y.head?))
  | .closes c _ => inferInstanceAs (Decidable (IsRun punct c x y ∧ ¬ CanOpen punct c x.getLast? y.head? ∧ CanClose punct c x.getLast? y.head?))
  | .strayClose c _ => inferInstanceAs (Decidable (IsRun punct c x y ∧ ¬ CanOpen punct c x.getLast? y.head? ∧ CanClose punct c x.getLast? y.head?))
  | .both c _ => inferInstanceAs (Decidable (IsRun punct c x y ∧ CanOpen punct c x.getLast? y.head? ∧ CanClose punct c x.getLast? y.head?))

/-- All the pieces are safe, after a text. -/
def SafeFrom (raws : List Str) (punct : Char → Bool) (pre : Str) : List Piece → Prop
  | [] => True
  | p :: ps => Safe raws punct pre (text ps) p ∧ SafeFrom raws punct (pre ++ p.text) ps

instance safeFromDecidable (raws : List Str) (punct : Char → Bool) : ∀ (ps : List Piece) (pre : Str), Decidable (SafeFrom raws punct pre ps)
  | [], _ => .isTrue trivial
  | p :: ps, pre => @instDecidableAnd _ _ inferInstance (safeFromDecidable raws punct ps (pre ++ p.text))

theorem placedFrom_of_safe {raws : List Str} (hr : ∀ x ∈ raws, RawInline x) {punct : Char → Bool} : ∀ {ps : List Piece} {pre : Str}, SafeFrom raws punct pre ps → PlacedFrom punct pre ps
  | [], _, _ => trivial
  | _ :: _, _, h => ⟨safe_ok hr h.1, placedFrom_of_safe hr h.2⟩

theorem placed_of_safe {raws : List Str} (hr : ∀ x ∈ raws, RawInline x) {punct : Char → Bool} {ps : List Piece} (h : SafeFrom raws punct [] ps) : Placed punct ps :=
  placed_iff.mpr (placedFrom_of_safe hr h)

theorem uncrossed_of {ps : List Piece} (h : ps.all (fun p => match p with | .strayClose _ _ => false | _ => true) = true) : Uncrossed ps := by
  intro c n m x y z e
  rw [List.all_eq_true] at h
  have := h (.strayClose c m) (by rw [e]; simp)
  simp at this

/-- The pieces of the example below. -/
def demoPieces : List Piece :=
  .opens '*' 1 :: (("Nested ".toList.map .char ++ .opens '_' 0 :: ("phrases".toList.map .char ++ .closes '_' 0 :: (" here".toList.map .char ++ []))) ++ .closes '*' 1 ::
    (", ".toList.map .char ++ .code 0 "**code**".toList :: (", snake".toList.map .char ++ .run '_' 0 :: ("case ".toList.map .char ++ .escape '*' ::
      (", 2 ".toList.map .char ++ .run '*' 0 :: (" 3 & ".toList.map .char ++ .strayOpen '*' 0 :: ("args".toList.map .char ++ [])))))))

/-- A text with nested emphasis, a code span, a run inside a word, an escaped character, a run between blanks and a run without a partner. -/
example : Unmarked asciiEnv.isPCat "**Nested _phrases_ here**, `**code**`, snake_case \\*, 2 * 3 & *args".toList
    "Nested phrases here, `**code**`, snake_case \\*, 2 * 3 & *args".toList := by
  refine ⟨demoPieces, by decide +kernel, by decide +kernel, ?_, ?_, uncrossed_of (by decide +kernel)⟩
  · exact placed_of_safe (raws := []) (by simp) (by decide +kernel)
  · have h1 : Paired ("phrases".toList.map .char ++ []) := nested_chars .nil _
    rw [List.append_nil] at h1
    unfold demoPieces
    refine .pair (nested_chars (.pair h1 (nested_chars .nil _)) _) ?_
    refine balanced_chars ?_ _
    refine .leaf trivial ?_
    refine balanced_chars ?_ _
    refine .leaf trivial ?_
    refine balanced_chars ?_ _
    refine .leaf trivial ?_
    refine balanced_chars ?_ _
    refine .leaf trivial ?_
    refine balanced_chars ?_ _
    exact .strayOpen (balanced_chars .nil _)

/-- A text with a named character reference between emphasised words. -/
example : Unmarked asciiEnv.isPCat "*Salt* &amp; _pepper_; R&D".toList "Salt &amp; pepper; R&D".toList := by
  refine ⟨.opens '*' 0 :: ("Salt".toList.map .char ++ .closes '*' 0 :: (" &amp; ".toList.map .char ++ .opens '_' 0 :: ("pepper".toList.map .char ++ .closes '_' 0 :: ("; R&D".toList.map .char ++ [])))),
    by decide +kernel, by decide +kernel, ?_, ?_, uncrossed_of (by decide +kernel)⟩
  · exact placed_of_safe (raws := []) (by simp) (by decide +kernel)
  · have h1 := nested_chars .nil "Salt".toList
    have h2 := nested_chars .nil "pepper".toList
    rw [List.append_nil] at h1 h2
    exact .pair h1 (balanced_chars (.pair h2 (balanced_chars .nil _)) _)

/-- Quotation marks, which are among the characters that the code steps back over. -/
example : Unmarked (fun c => c == '«' || c == '»') "À «**Bon appétit**» et _plus_".toList "À «Bon appétit» et plus".toList := by
  refine ⟨"À «".toList.map .char ++ .opens '*' 1 :: ("Bon appétit".toList.map .char ++ .closes '*' 1 :: ("» et ".toList.map .char ++ .opens '_' 0 :: ("plus".toList.map .char ++ .closes '_' 0 :: []))),
    by decide +kernel, by decide +kernel, ?_, ?_, uncrossed_of (by decide +kernel)⟩
  · exact placed_of_safe (raws := []) (by simp) (by decide +kernel)
  · have h1 := nested_chars .nil "Bon appétit".toList
    have h2 := nested_chars .nil "plus".toList
    rw [List.append_nil] at h1 h2
    exact balanced_chars (.pair h1 (balanced_chars (.pair h2 .nil) _)) _

theorem balanced_leaves {ps : List Piece} (h : ∀ p ∈ ps, p.Leaf) : Balanced ps := by
  induction ps with
  | nil => exact .nil
  | cons p ps ih => exact .leaf (h p (by simp)) (ih (fun q hq => h q (by simp [hq])))

theorem shown_leaves {ps : List Piece} (h : ∀ p ∈ ps, p.Leaf) : shown ps = text ps := by
  induction ps with
  | nil => rfl
  | cons p ps ih =>
    rw [shown_cons, text_cons, ih (fun q hq => h q (by simp [hq]))]
    congr 1
    have := h p (by simp)
    cases p <;> first | rfl | exact this.elim

/-- **C64**, for a text without emphasis. -/
theorem C64_no_emphasis {E : Env} (p : Parser) {ps : List Piece} (h : ∀ q ∈ ps, q.Leaf) (hp : Placed E.isPCat ps) : removeEmphasis E (text ps) p = .ok (text ps) := by
  refine C64_markup_removed p ⟨ps, rfl, (shown_leaves h).symm, hp, balanced_leaves h, ?_⟩
  intro c n m x y z e
  exact h (.strayOpen c n) (by rw [e]; simp)

/-! ### C65 -/

theorem inWord_flank {punct : Char → Bool} {c : Char} (h : InWord punct c) : ¬ White (some c) ∧ ¬ Punct punct (some c) := by
  obtain ⟨-, h2, h3, h4⟩ := h
  constructor
  · intro h
    exact h2 (h c rfl)
  · rintro ⟨d, hd, h⟩
    injection hd with hd
    subst hd
    rcases h with h | h
    · exact h3 h
    · rw [h4] at h; simp at h

theorem inWord_of_word {punct : Char → Bool} {c : Char} (h : WordChar punct c) : InWord punct c := ⟨h.1, h.2.1, h.2.2.1, h.2.2.2.1⟩

theorem inside_pieces {punct : Char → Bool} (k : Nat) : ∀ (s pre : Str), s.length ≤ k → (∀ c ∈ s, Plain c ∨ c = '_') → InsideWords punct (pre ++ s) → pre.getLast? ≠ some '_' ∨ s.head? ≠ some '_' →
    ∃ ps, s = text ps ∧ (∀ p ∈ ps, p.Leaf) ∧ PlacedFrom punct pre ps := by
  induction k with
  | zero =>
    intro s pre hk _ _ _
    have : s = [] := by simpa using hk
    subst this
    exact ⟨[], rfl, by simp, trivial⟩
  | succ k ih =>
    intro s pre hk hs hi hpre
    cases s with
    | nil => exact ⟨[], rfl, by simp, trivial⟩
    | cons c s =>
      by_cases hc : c = '_'
      · subst hc
        have hsplit : ∀ t : Str, ∃ m r, t = List.replicate m '_' ++ r ∧ r.head? ≠ some '_' := by
          intro t
          induction t with
          | nil => exact ⟨0, [], rfl, by simp⟩
          | cons c t iht =>
            by_cases hc : c = '_'
            · obtain ⟨m, r, e, h⟩ := iht
              exact ⟨m + 1, r, by rw [hc, e, List.replicate_succ]; rfl, h⟩
            · exact ⟨0, c :: t, rfl, by simpa using hc⟩
        obtain ⟨m, r, rfl, hr⟩ := hsplit s
        have e : '_' :: (List.replicate m '_' ++ r) = List.replicate (m + 1) '_' ++ r := by rw [List.replicate_succ]; rfl
        rw [e] at hk hs hi ⊢
        have hpl : pre.getLast? ≠ some '_' := by
          rcases hpre with h | h
          · exact h
          · simp at h
        obtain ⟨⟨c1, h1, hw1⟩, ⟨c3, h3, hw3⟩, ⟨c2, h2, hw2⟩⟩ := hi pre m r (by simp) hpl hr
        obtain ⟨ps, e1, e2, e3⟩ := ih r (pre ++ List.replicate (m + 1) '_') (by simp at hk; omega) (fun d hd => hs d (by simp [hd])) (by rwa [List.append_assoc]) (.inr hr)
        subst e1
        refine ⟨.run '_' m :: ps, rfl, ?_, ?_⟩
        · intro q hq
          rcases List.mem_cons.mp hq with rfl | hq
          · trivial
          · exact e2 q hq
        · have h1' : pre.getLast? = some c1 := h1
          have h2' : (text ps).head? = some c2 := h2
          have h3' : seenBefore pre = some c3 := h3
          have f1 := inWord_flank hw1
          have f2 := inWord_flank hw2
          have f3 := inWord_flank hw3
          have hno : ∀ {d : Char}, ¬ White (some d) ∧ ¬ Punct punct (some d) → ¬ CanOpen punct '_' (some d) (some c2) ∧ ¬ CanClose punct '_' (some d) (some c2) := by
            intro d fd
            constructor
            · rintro ⟨-, h⟩
              rcases h rfl with h | h
              · exact h ⟨fd.1, .inl fd.2⟩
              · exact fd.2 h
            · rintro ⟨-, h⟩
              rcases h rfl with h | h
              · exact h ⟨f2.1, .inl f2.2⟩
              · exact f2.2 h
          refine ⟨⟨⟨.inr rfl, hr, ?_, ?_⟩, ?_, ?_⟩, e3⟩
          · rw [h1', h2', h3']
            exact iff_of_false (hno f3).1 (hno f1).1
          · rw [h1', h2', h3']
            exact iff_of_false (hno f3).2 (hno f1).2
          · rw [h1', h2']
            exact (hno f1).1
          · rw [h1', h2']
            exact (hno f1).2
      · have hcp : Plain c := (hs c (by simp)).resolve_right hc
        obtain ⟨ps, e1, e2, e3⟩ := ih s (pre ++ [c]) (by simp at hk; omega) (fun d hd => hs d (by simp [hd])) (by rwa [List.append_assoc])
          (.inl (by rw [List.getLast?_concat]; simpa using hc))
        subst e1
        refine ⟨.char c :: ps, rfl, ?_, .inl hcp, e3⟩
        intro q hq
        rcases List.mem_cons.mp hq with rfl | hq
        · trivial
        · exact e2 q hq

/-- **C65**, part: underscores inside words are kept, if the code does not see white space or punctuation when it steps back over characters from U+0080 to U+00BF. -/
theorem C65_inside_words_partial {E : Env} (p : Parser) {s : Str} (hs : ∀ c ∈ s, Plain c ∨ c = '_') (h : InsideWords E.isPCat s) : removeEmphasis E s p = .ok s := by
  obtain ⟨ps, rfl, h1, h2⟩ := inside_pieces s.length s [] (Nat.le_refl _) hs h (.inl (by simp))
  exact C64_no_emphasis p h1 (placed_iff.mpr h2)

instance (punct : Char → Bool) (c : Char) : Decidable (InWord punct c) := by unfold InWord; infer_instance

instance (punct : Char → Bool) (o : Option Char) : Decidable (∃ c ∈ o, InWord punct c) :=
  match o with
  | none => .isFalse (by simp)
  | some c => decidable_of_iff (InWord punct c) (by simp)

set_option synthInstance.maxSize 1000 in
/-- A text with identifiers, one of them with a character which the code does not see. -/
example : (∀ c ∈ "The foo_bar__baz flag (xµ_1)".toList, Plain c ∨ c = '_') ∧ InsideWords asciiEnv.isPCat "The foo_bar__baz flag (xµ_1)".toList := by
  refine ⟨by decide +kernel, ?_⟩
  intro x n y e h1 h2
  have key : ∀ i < 29, ∀ n < 29, ("The foo_bar__baz flag (xµ_1)".toList.drop i).take (n + 1) = List.replicate (n + 1) '_' →
      ("The foo_bar__baz flag (xµ_1)".toList.take i).getLast? ≠ some '_' → ("The foo_bar__baz flag (xµ_1)".toList.drop (i + (n + 1))).head? ≠ some '_' →
      (∃ c ∈ ("The foo_bar__baz flag (xµ_1)".toList.take i).getLast?, InWord asciiEnv.isPCat c) ∧
      (∃ c ∈ seenBefore ("The foo_bar__baz flag (xµ_1)".toList.take i), InWord asciiEnv.isPCat c) ∧
      ∃ c ∈ ("The foo_bar__baz flag (xµ_1)".toList.drop (i + (n + 1))).head?, InWord asciiEnv.isPCat c := by decide +kernel
  have hl := congrArg List.length e
  simp only [List.length_append, List.length_replicate] at hl
  have hl' : "The foo_bar__baz flag (xµ_1)".toList.length = 28 := by decide +kernel
  rw [hl'] at hl
  have e1 : "The foo_bar__baz flag (xµ_1)".toList.take x.length = x := by rw [e]; simp
  have e2 : ("The foo_bar__baz flag (xµ_1)".toList.drop x.length) = List.replicate (n + 1) '_' ++ y := by rw [e]; simp
  have e3 : ("The foo_bar__baz flag (xµ_1)".toList.drop (x.length + (n + 1))) = y := by rw [← List.drop_drop, e2]; exact List.drop_left' (by simp)
  have := key x.length (by omega) n (by omega)
  rw [e1, e2, e3] at this
  exact this (List.take_left' (by simp)) h1 h2

/-- **C65**: after a micro sign (U+00B5, a letter) the underscore inside a word is taken for emphasis, because the code looks at the character before it. -/
theorem C65_violation : removeEmphasis asciiEnv "in µ_m_".toList .github = .ok "in µm".toList ∧ removeEmphasis asciiEnv "in u_m_".toList .github = .ok "in u_m_".toList := by decide +kernel

/-- **C64** needs the condition on stray runs: an opening run is not stray if a closing run of the same character follows. -/
example : removeEmphasis asciiEnv "*a b*".toList .github = .ok "a b".toList := by decide +kernel

end MdToc.Props
