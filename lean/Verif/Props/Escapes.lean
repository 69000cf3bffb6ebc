import Verif.Lemmas.EmphEscaped
import Verif.Spec.Ordinary
import Verif.Props.Success

/-!
# Headings with escaped brackets: C52, C78
-/

set_option linter.unusedSimpArgs false

namespace MdToc.Props

open MdToc.Spec

/-! ### C52 when every bracket is escaped -/

/-- **C52**, part: no exception for a text where every opening square bracket is escaped; what follows the brackets does not matter.
Missing: the texts with other brackets, see `C52_calm_partial`. -/
theorem C52_escaped_partial {E : Env} {s : Str} (p : Parser) (hcr : '\r' ∉ s) (h256 : ∀ c ∈ s, c.toNat ≠ 256) (hdig : '&' ∈ s → ∀ c ∈ s, E.isDigit c = true → '0' ≤ c ∧ c ≤ '9')
    (hesc : OpensEscaped (s.filter (· != '\x00'))) : ∃ t, removeEmphasis E s p = .ok t := by
  have hm : ∀ c ∈ s.filter (· != '\x00'), c ∈ s := fun c hc => (List.mem_filter.mp hc).1
  obtain ⟨rs, hrs⟩ := Cmark.parseInlines_escaped (E := E) (s := s.filter (· != '\x00')) (fun h => hcr (hm _ h)) (fun h => by simpa using (List.mem_filter.mp h).2)
    (fun c hc => h256 c (hm c hc)) (fun ha c hc hd => hdig (hm _ ha) c (hm c hc) hd) hesc
  unfold removeEmphasis
  simp only [bind, Except.bind, hrs]
  exact ⟨_, rfl⟩

/-! ### Escaped brackets through lower case and removal of tags -/

/-- `AllEscaped` from left to right. -/
def escFrom : Bool → Str → Prop
  | _, [] => True
  | odd, c :: t => if c = '\\' then escFrom (!odd) t else (IsBracket c → odd = true) ∧ escFrom false t

theorem escFrom_iff : ∀ (s d : Str), (∀ pre c post, s = pre ++ c :: post → IsBracket c → Escaped (d ++ pre)) ↔ escFrom (decide (trailingBackslashes d % 2 = 1)) s := by
  intro s
  induction s with
  | nil => intro d; simp [escFrom]
  | cons x s ih =>
    intro d
    have hstep : (∀ pre c post, x :: s = pre ++ c :: post → IsBracket c → Escaped (d ++ pre)) ↔
        (IsBracket x → Escaped d) ∧ ∀ pre c post, s = pre ++ c :: post → IsBracket c → Escaped ((d ++ [x]) ++ pre) := by
      constructor
      · intro h
        refine ⟨fun hx => by simpa using h [] x s rfl hx, fun pre c post e hc => ?_⟩
        have := h (x :: pre) c post (by rw [e]; rfl) hc
        rwa [List.append_assoc, List.singleton_append]
      · rintro ⟨h1, h2⟩ pre c post e hc
        cases pre with
        | nil =>
          injection e with e1 e2
          subst e1
          simpa using h1 hc
        | cons y pre =>
          injection e with e1 e2
          subst e1
          have := h2 pre c post e2 hc
          rwa [List.append_assoc, List.singleton_append] at this
    rw [hstep, ih (d ++ [x]), trailing_concat, escFrom]
    by_cases hx : x = '\\'
    · rw [if_pos hx, if_pos hx]
      have hb : ¬ IsBracket x := by rw [hx]; simp [IsBracket]
      have : decide ((trailingBackslashes d + 1) % 2 = 1) = !decide (trailingBackslashes d % 2 = 1) := by
        rw [← decide_not]
        congr 1
        rw [eq_iff_iff]
        omega
      rw [this]
      exact ⟨fun h => h.2, fun h => ⟨fun h' => absurd h' hb, h⟩⟩
    · rw [if_neg hx, if_neg hx]
      simp only [Escaped, decide_eq_true_eq, Nat.zero_mod, Nat.zero_ne_one, decide_false]

theorem allEscaped_iff (s : Str) : AllEscaped s ↔ escFrom false s := by
  have := escFrom_iff s []
  simpa [trailingBackslashes, AllEscaped] using this

theorem escFrom_plain {u t : Str} (hu : u ≠ []) (h : ∀ d ∈ u, d ≠ '\\' ∧ ¬ IsBracket d) (ht : escFrom false t) (odd : Bool) : escFrom odd (u ++ t) := by
  induction u generalizing odd with
  | nil => exact absurd rfl hu
  | cons c u ih =>
    obtain ⟨h1, h2⟩ := h c (by simp)
    rw [List.cons_append, escFrom, if_neg h1]
    refine ⟨fun h' => absurd h' h2, ?_⟩
    by_cases hu' : u = []
    · subst hu'; exact ht
    · exact ih hu' (fun d hd => h d (by simp [hd])) false

theorem asciiLower_cases (c : Char) : asciiLower c = c ∧ isAsciiAlpha (asciiLower c) = isAsciiAlpha c ∨ isAsciiAlpha c = true ∧ isAsciiAlpha (asciiLower c) = true := by
  unfold asciiLower
  split
  · rename_i h
    right
    have : ∀ n : Fin 128, 65 ≤ n.val → n.val ≤ 90 → isAsciiAlpha (Char.ofNat n.val) = true ∧ isAsciiAlpha (Char.ofNat (n.val + 32)) = true := by decide +kernel
    have := this ⟨c.toNat, by omega⟩ h.1 h.2
    simpa [Char.ofNat_toNat] using this
  · exact .inl ⟨rfl, rfl⟩

theorem alpha_plain {c : Char} (h : isAsciiAlpha c = true) : c ≠ '\\' ∧ ¬ IsBracket c ∧ c ≠ '<' ∧ c ≠ '\r' ∧ c ≠ '\x00' ∧ c ≠ '&' ∧ c.toNat ≠ 256 ∧ c ≠ '\n' ∧ c ≠ '>' ∧ isAsciiDigit c = false ∧ c.toNat < 128 := by
  have hn : ∀ d : Char, isAsciiAlpha d = false → c ≠ d := by
    rintro d hd rfl
    rw [h] at hd
    simp at hd
  refine ⟨hn _ (by decide), ?_, hn _ (by decide), hn _ (by decide), hn _ (by decide), hn _ (by decide), ?_, hn _ (by decide), hn _ (by decide), ?_, ?_⟩
  · rintro (hb | hb)
    · exact hn '[' (by decide) hb
    · exact hn ']' (by decide) hb
  all_goals
    simp only [isAsciiAlpha, isAsciiDigit, Bool.or_eq_true, Bool.and_eq_true, decide_eq_true_eq, Bool.and_eq_false_iff, decide_eq_false_iff_not] at h ⊢
    omega

theorem high_plain {c : Char} (h : 128 ≤ c.toNat) : c ≠ '\\' ∧ ¬ IsBracket c ∧ c ≠ '<' ∧ c ≠ '\r' ∧ c ≠ '\x00' ∧ c ≠ '&' := by
  have hn : ∀ d : Char, d.toNat < 128 → c ≠ d := by
    rintro d hd rfl
    omega
  refine ⟨hn _ (by decide), ?_, hn _ (by decide), hn _ (by decide), hn _ (by decide), hn _ (by decide)⟩
  rintro (hb | hb)
  · exact hn '[' (by decide) hb
  · exact hn ']' (by decide) hb

/-- What is in a text in lower case. -/
theorem lowered_mem {isDigit : Char → Bool} {s t : Str} (h : Lowered isDigit s t) : ∀ d ∈ t,
    isAsciiAlpha d = true ∨ (d.toNat < 128 ∧ d ∈ s) ∨ (128 ≤ d.toNat ∧ d.toNat ≠ 256 ∧ (isDigit d = true → ∃ c ∈ s, isDigit c = true ∧ 128 ≤ c.toNat)) := by
  induction h with
  | nil => simp
  | @ascii c s t hc _ ih =>
    intro d hd
    rcases List.mem_cons.mp hd with rfl | hd
    · rcases asciiLower_cases c with ⟨e, -⟩ | ⟨-, h2⟩
      · rw [e]; exact .inr (.inl ⟨hc, by simp⟩)
      · exact .inl h2
    · rcases ih d hd with h | ⟨h1, h2⟩ | ⟨h1, h2, h3⟩
      · exact .inl h
      · exact .inr (.inl ⟨h1, by simp [h2]⟩)
      · refine .inr (.inr ⟨h1, h2, fun hd => ?_⟩)
        obtain ⟨x, hx, hx2⟩ := h3 hd
        exact ⟨x, by simp [hx], hx2⟩
  | @other c s t u hc hu hdd _ ih =>
    intro d hd
    rcases List.mem_append.mp hd with hd | hd
    · rcases hdd d hd with h | ⟨h1, h2, h3⟩
      · exact .inl h
      · exact .inr (.inr ⟨h1, h2, fun hd => ⟨c, by simp, h3 hd, hc⟩⟩)
    · rcases ih d hd with h | ⟨h1, h2⟩ | ⟨h1, h2, h3⟩
      · exact .inl h
      · exact .inr (.inl ⟨h1, by simp [h2]⟩)
      · refine .inr (.inr ⟨h1, h2, fun hd => ?_⟩)
        obtain ⟨x, hx, hx2⟩ := h3 hd
        exact ⟨x, by simp [hx], hx2⟩

/-- Reading a text from left to right: `k` is the number of backslashes right before, `gt` says that a `>` comes before them, and `seen` that a `<` right after a backslash was read.  Every opening
bracket is escaped, and none stands after a `>` if `seen`. -/
def scan : Nat → Prop → Prop → Str → Prop
  | _, _, _, [] => True
  | k, gt, seen, c :: t =>
    if c = '\\' then scan (k + 1) gt seen t
    else if c = '[' then (k % 2 = 1 ∧ (gt → ¬ seen)) ∧ scan 0 False seen t
    else if c = '<' then scan 0 False (seen ∨ 0 < k) t
    else if c = '>' then scan 0 True seen t
    else scan 0 False seen t

theorem scan_mono (s : Str) : ∀ {k : Nat} {gt gt' seen seen' : Prop}, (gt' → gt) → (seen' → seen) → scan k gt seen s → scan k gt' seen' s := by
  induction s with
  | nil => intros; trivial
  | cons c s ih =>
    intro k gt gt' seen seen' h1 h2 h
    unfold scan at h ⊢
    split
    · rename_i hc
      rw [if_pos hc] at h
      exact ih h1 h2 h
    · rename_i hc
      rw [if_neg hc] at h
      split
      · rename_i hc
        rw [if_pos hc] at h
        exact ⟨⟨h.1.1, fun a b => h.1.2 (h1 a) (h2 b)⟩, ih id h2 h.2⟩
      · rename_i hc
        rw [if_neg hc] at h
        split
        · rename_i hc
          rw [if_pos hc] at h
          exact ih id (fun x => x.imp_left h2) h
        · rename_i hc
          rw [if_neg hc] at h
          split
          · rename_i hc
            rw [if_pos hc] at h
            exact ih id h2 h
          · rename_i hc
            rw [if_neg hc] at h
            exact ih id h2 h

/-- A text after a tag that is removed. -/
theorem scan_join (s : Str) : ∀ {k j : Nat} {gt seen seen' : Prop}, (seen ∨ 0 < k → seen') → scan j True seen' s → scan (k + j) gt seen s := by
  induction s with
  | nil => intros; trivial
  | cons c s ih =>
    intro k j gt seen seen' h1 h
    unfold scan at h ⊢
    split
    · rename_i hc
      rw [if_pos hc] at h
      exact ih (k := k) (j := j + 1) h1 h
    · rename_i hc
      rw [if_neg hc] at h
      split
      · rename_i hc
        rw [if_pos hc] at h
        have hs := h.1.2 trivial
        have hk : k = 0 := by
          rcases Nat.eq_zero_or_pos k with h | h
          · exact h
          · exact absurd (h1 (.inr h)) hs
        subst hk
        exact ⟨⟨by simpa using h.1.1, fun _ b => hs (h1 (.inl b))⟩, scan_mono s id (fun x => h1 (.inl x)) h.2⟩
      · rename_i hc
        rw [if_neg hc] at h
        split
        · rename_i hc
          rw [if_pos hc] at h
          refine scan_mono s id ?_ h
          rintro (x | x)
          · exact .inl (h1 (.inl x))
          · rcases Nat.eq_zero_or_pos k with hk | hk
            · exact .inr (by omega)
            · exact .inl (h1 (.inr hk))
        · rename_i hc
          rw [if_neg hc] at h
          split
          · rename_i hc
            rw [if_pos hc] at h
            exact scan_mono s id (fun x => h1 (.inl x)) h
          · rename_i hc
            rw [if_neg hc] at h
            exact scan_mono s id (fun x => h1 (.inl x)) h

theorem scan_gt (b m : Str) : ∀ {k : Nat} {gt seen : Prop}, scan k gt seen (m ++ '>' :: b) → ∃ seen' : Prop, (seen → seen') ∧ scan 0 True seen' b := by
  induction m with
  | nil =>
    intro k gt seen h
    rw [List.nil_append, scan, if_neg (by decide), if_neg (by decide), if_neg (by decide), if_pos rfl] at h
    exact ⟨seen, id, h⟩
  | cons c m ih =>
    intro k gt seen h
    rw [List.cons_append, scan] at h
    split at h
    · exact ih h
    · split at h
      · exact ih h.2
      · split at h
        · obtain ⟨s', h1, h2⟩ := ih h
          exact ⟨s', fun x => h1 (.inl x), h2⟩
        · split at h
          · exact ih h
          · exact ih h

theorem scan_cut (m b a : Str) : ∀ {k : Nat} {gt seen : Prop}, scan k gt seen (a ++ '<' :: (m ++ '>' :: b)) → scan k gt seen (a ++ b) := by
  induction a with
  | nil =>
    intro k gt seen h
    rw [List.nil_append, scan, if_neg (by decide), if_neg (by decide), if_pos rfl] at h
    obtain ⟨s', h1, h2⟩ := scan_gt b m h
    exact scan_join b (k := k) (j := 0) h1 h2
  | cons c a ih =>
    intro k gt seen h
    rw [List.cons_append, scan] at h ⊢
    split
    · rename_i hc
      rw [if_pos hc] at h
      exact ih h
    · rename_i hc
      rw [if_neg hc] at h
      split
      · rename_i hc
        rw [if_pos hc] at h
        exact ⟨h.1, ih h.2⟩
      · rename_i hc
        rw [if_neg hc] at h
        split
        · rename_i hc
          rw [if_pos hc] at h
          exact ih h
        · rename_i hc
          rw [if_neg hc] at h
          split
          · rename_i hc
            rw [if_pos hc] at h
            exact ih h
          · rename_i hc
            rw [if_neg hc] at h
            exact ih h

theorem scan_cutTags {s t : Str} (h : CutTags s t) : scan 0 False False s → scan 0 False False t := by
  induction h with
  | refl s => exact id
  | step h1 _ ih =>
    obtain ⟨a, m, b, rfl, rfl⟩ := h1
    exact fun h => ih (scan_cut m b a h)

theorem scan_plain {u t : Str} (hu : u ≠ []) (h : ∀ d ∈ u, d ≠ '\\' ∧ ¬ IsBracket d ∧ d ≠ '<' ∧ d ≠ '>') : ∀ {k : Nat} {gt seen : Prop}, scan 0 False seen t → scan k gt seen (u ++ t) := by
  induction u with
  | nil => exact absurd rfl hu
  | cons c u ih =>
    intro k gt seen ht
    obtain ⟨h1, h2, h3, h4⟩ := h c (by simp)
    rw [List.cons_append, scan, if_neg h1, if_neg (fun hc => h2 (.inl hc)), if_neg h3, if_neg h4]
    by_cases hu' : u = []
    · subst hu'; exact ht
    · exact ih hu' (fun d hd => h d (by simp [hd])) ht

theorem scan_other {c : Char} {s : Str} (h : c ≠ '\\' ∧ ¬ IsBracket c ∧ c ≠ '<' ∧ c ≠ '>') {k : Nat} {gt seen : Prop} (hs : scan k gt seen (c :: s)) : scan 0 False seen s := by
  rwa [scan, if_neg h.1, if_neg (fun hc => h.2.1 (.inl hc)), if_neg h.2.2.1, if_neg h.2.2.2] at hs

theorem high_gt {c : Char} (h : 128 ≤ c.toNat) : c ≠ '>' := by
  rintro rfl
  exact absurd h (by decide)

theorem alpha_four {c : Char} (h : isAsciiAlpha c = true) : c ≠ '\\' ∧ ¬ IsBracket c ∧ c ≠ '<' ∧ c ≠ '>' := by
  have := alpha_plain h
  exact ⟨this.1, this.2.1, this.2.2.1, this.2.2.2.2.2.2.2.2.1⟩

theorem high_four {c : Char} (h : 128 ≤ c.toNat) : c ≠ '\\' ∧ ¬ IsBracket c ∧ c ≠ '<' ∧ c ≠ '>' := by
  have := high_plain h
  exact ⟨this.1, this.2.1, this.2.2.1, high_gt h⟩

theorem lowered_scan {isDigit : Char → Bool} {s t : Str} (h : Lowered isDigit s t) : ∀ {k : Nat} {gt seen : Prop}, scan k gt seen s → scan k gt seen t := by
  induction h with
  | nil => exact id
  | @ascii c s t hc _ ih =>
    intro k gt seen hs
    rcases asciiLower_cases c with ⟨e, -⟩ | ⟨h1, h2⟩
    · rw [e]
      rw [scan] at hs ⊢
      split
      · rename_i hc
        rw [if_pos hc] at hs
        exact ih hs
      · rename_i hc
        rw [if_neg hc] at hs
        split
        · rename_i hc
          rw [if_pos hc] at hs
          exact ⟨hs.1, ih hs.2⟩
        · rename_i hc
          rw [if_neg hc] at hs
          split
          · rename_i hc
            rw [if_pos hc] at hs
            exact ih hs
          · rename_i hc
            rw [if_neg hc] at hs
            split
            · rename_i hc
              rw [if_pos hc] at hs
              exact ih hs
            · rename_i hc
              rw [if_neg hc] at hs
              exact ih hs
    · exact scan_plain (u := [asciiLower c]) (by simp) (by intro d hd; simp at hd; subst hd; exact alpha_four h2) (ih (scan_other (alpha_four h1) hs))
  | @other c s t u hc hu hd _ ih =>
    intro k gt seen hs
    refine scan_plain hu ?_ (ih (scan_other (high_four hc) hs))
    intro d hdm
    rcases hd d hdm with h1 | h1
    · exact alpha_four h1
    · exact high_four h1.1

/-- The brackets of a text that was read are escaped. -/
theorem scan_opens (s : Str) : ∀ (d : Str) {gt seen : Prop}, scan (trailingBackslashes d) gt seen s → ∀ pre post, s = pre ++ '[' :: post → Escaped (d ++ pre) := by
  induction s with
  | nil => intro d gt seen _ pre post e; simp at e
  | cons c s ih =>
    intro d gt seen h pre post e
    have step : ∀ {gt seen : Prop}, scan (trailingBackslashes (d ++ [c])) gt seen s → ∀ x pre, pre = x :: pre.tail → c :: s = pre ++ '[' :: post → Escaped (d ++ pre) := by
      intro gt seen h x pre hp e
      rw [hp] at e ⊢
      simp only [List.cons_append, List.cons.injEq] at e
      have := ih (d ++ [c]) h pre.tail post e.2
      rwa [e.1, List.append_assoc, List.singleton_append] at this
    rw [trailing_concat] at step
    rw [scan] at h
    cases pre with
    | nil =>
      simp only [List.nil_append, List.cons.injEq] at e
      rw [if_neg (by rw [e.1]; decide), if_pos e.1] at h
      rw [List.append_nil]
      exact h.1.1
    | cons x pre =>
      split at h
      · rename_i hc
        rw [if_pos hc] at step
        exact step h x _ rfl e
      · rename_i hc
        rw [if_neg hc] at step
        split at h
        · exact step h.2 x _ rfl e
        · split at h
          · exact step h x _ rfl e
          · split at h
            · exact step h x _ rfl e
            · exact step h x _ rfl e

theorem scan_opensEscaped {s : Str} (h : scan 0 False False s) : OpensEscaped s := by
  intro pre post e
  have := scan_opens s [] (gt := False) (seen := False) h pre post e
  simpa using this

/-- As `scan`, without the number of backslashes. -/
def loose : Prop → Prop → Prop → Str → Prop
  | _, _, _, [] => True
  | bs, gt, seen, c :: t =>
    if c = '\\' then loose True gt seen t
    else if c = '[' then (gt → ¬ seen) ∧ loose False False seen t
    else if c = '<' then loose False False (seen ∨ bs) t
    else if c = '>' then loose False True seen t
    else loose False False seen t

theorem scan_of (s : Str) : ∀ {k : Nat} {bs gt seen : Prop}, (0 < k → bs) → loose bs gt seen s → escFrom (decide (k % 2 = 1)) s → scan k gt seen s := by
  induction s with
  | nil => intros; trivial
  | cons c s ih =>
    intro k bs gt seen hb hl he
    rw [loose] at hl
    rw [escFrom] at he
    rw [scan]
    have h0 : decide (0 % 2 = 1) = false := by decide
    split
    · rename_i hc
      rw [if_pos hc] at hl he
      refine ih (fun _ => trivial) hl ?_
      have : decide ((k + 1) % 2 = 1) = !decide (k % 2 = 1) := by
        rw [← decide_not]
        congr 1
        rw [eq_iff_iff]
        omega
      rwa [this]
    · rename_i hc
      rw [if_neg hc] at hl he
      split
      · rename_i hc
        rw [if_pos hc] at hl
        exact ⟨⟨by simpa using he.1 (.inl hc), hl.1⟩, ih (by omega) hl.2 he.2⟩
      · rename_i hc
        rw [if_neg hc] at hl
        split
        · rename_i hc
          rw [if_pos hc] at hl
          refine scan_mono s id ?_ (ih (k := 0) (by omega) hl he.2)
          exact fun x => x.imp_right hb
        · rename_i hc
          rw [if_neg hc] at hl
          split
          · rename_i hc
            rw [if_pos hc] at hl
            exact ih (by omega) hl he.2
          · rename_i hc
            rw [if_neg hc] at hl
            exact ih (by omega) hl he.2

theorem loose_mono (s : Str) : ∀ {bs bs' gt gt' seen seen' : Prop}, (bs' → bs) → (gt' → gt) → (seen' → seen) → loose bs gt seen s → loose bs' gt' seen' s := by
  induction s with
  | nil => intros; trivial
  | cons c s ih =>
    intro bs bs' gt gt' seen seen' h0 h1 h2 h
    unfold loose at h ⊢
    split
    · rename_i hc
      rw [if_pos hc] at h
      exact ih id h1 h2 h
    · rename_i hc
      rw [if_neg hc] at h
      split
      · rename_i hc
        rw [if_pos hc] at h
        exact ⟨fun a b => h.1 (h1 a) (h2 b), ih id id h2 h.2⟩
      · rename_i hc
        rw [if_neg hc] at h
        split
        · rename_i hc
          rw [if_pos hc] at h
          exact ih id id (Or.imp h2 h0) h
        · rename_i hc
          rw [if_neg hc] at h
          split
          · rename_i hc
            rw [if_pos hc] at h
            exact ih id id h2 h
          · rename_i hc
            rw [if_neg hc] at h
            exact ih id id h2 h

theorem inserted_loose {s t : Str} (h : Inserted s t) : ∀ {bs gt seen : Prop}, loose bs gt seen s → loose bs gt seen t := by
  induction h with
  | nil => exact id
  | @keep c s t _ ih =>
    intro bs gt seen h
    rw [loose] at h ⊢
    split
    · rename_i hc
      rw [if_pos hc] at h
      exact ih h
    · rename_i hc
      rw [if_neg hc] at h
      split
      · rename_i hc
        rw [if_pos hc] at h
        exact ⟨h.1, ih h.2⟩
      · rename_i hc
        rw [if_neg hc] at h
        split
        · rename_i hc
          rw [if_pos hc] at h
          exact ih h
        · rename_i hc
          rw [if_neg hc] at h
          split
          · rename_i hc
            rw [if_pos hc] at h
            exact ih h
          · rename_i hc
            rw [if_neg hc] at h
            exact ih h
  | @ins c s t hc _ ih =>
    intro bs gt seen h
    rw [loose, if_pos rfl]
    rcases hc with rfl | rfl
    · rw [loose, if_neg (by decide), if_pos rfl] at h ⊢
      exact ⟨h.1, ih h.2⟩
    · rw [loose, if_neg (by decide), if_neg (by decide), if_neg (by decide), if_neg (by decide)] at h ⊢
      exact ih h

theorem loose_concat {c : Char} (hc : c ≠ '[') (s : Str) : ∀ {bs gt seen : Prop}, loose bs gt seen s → loose bs gt seen (s ++ [c]) := by
  induction s with
  | nil =>
    intro bs gt seen _
    rw [List.nil_append, loose, if_neg hc]
    simp [loose]
  | cons x s ih =>
    intro bs gt seen h
    rw [List.cons_append, loose]
    rw [loose] at h
    split
    · rename_i hc
      rw [if_pos hc] at h
      exact ih h
    · rename_i hc
      rw [if_neg hc] at h
      split
      · rename_i hc
        rw [if_pos hc] at h
        exact ⟨h.1, ih h.2⟩
      · rename_i hc
        rw [if_neg hc] at h
        split
        · rename_i hc
          rw [if_pos hc] at h
          exact ih h
        · rename_i hc
          rw [if_neg hc] at h
          split
          · rename_i hc
            rw [if_pos hc] at h
            exact ih h
          · rename_i hc
            rw [if_neg hc] at h
            exact ih h

/-- The condition on ordinary texts, for the text `d ++ s` where `d` was read. -/
theorem loose_of (s : Str) : ∀ (d : Str), (∀ a k b, d ++ s = a ++ '>' :: (List.replicate k '\\' ++ '[' :: b) → ∀ x y, a ≠ x ++ '\\' :: '<' :: y) →
    loose (d.getLast? = some '\\') (∃ a k, d = a ++ '>' :: List.replicate k '\\') (∃ x y, d = x ++ '\\' :: '<' :: y) s := by
  induction s with
  | nil => intros; trivial
  | cons c s ih =>
    intro d h
    have h' := ih (d ++ [c]) (by simpa using h)
    have hseen : (∃ x y, d = x ++ '\\' :: '<' :: y) → ∃ x y, d ++ [c] = x ++ '\\' :: '<' :: y := by
      rintro ⟨x, y, rfl⟩
      exact ⟨x, y ++ [c], by simp⟩
    rw [loose]
    split
    · rename_i hc
      subst hc
      refine loose_mono s (fun _ => by simp) ?_ hseen h'
      rintro ⟨a, k, rfl⟩
      exact ⟨a, k + 1, by rw [List.replicate_succ']; simp⟩
    · split
      · rename_i hc
        subst hc
        refine ⟨?_, loose_mono s (fun x => x.elim) (fun x => x.elim) hseen h'⟩
        rintro ⟨a, k, rfl⟩ ⟨x, y, e⟩
        -- the `<` is not among the last characters
        have hn := h a k s (by simp)
        rcases List.append_eq_append_iff.mp e with ⟨w, rfl, ew⟩ | ⟨w, rfl, ew⟩
        · have : '<' ∈ '>' :: List.replicate k '\\' := by rw [ew]; simp
          simp at this
        · cases w with
          | nil =>
            simp at ew
          | cons z w =>
            simp only [List.cons_append, List.cons.injEq] at ew
            cases w with
            | nil => simp at ew
            | cons z' w =>
              simp only [List.cons_append, List.cons.injEq] at ew
              exact hn x w (by rw [ew.1, ew.2.1])
      · split
        · rename_i hc
          subst hc
          refine loose_mono s (fun x => x.elim) (fun x => x.elim) ?_ h'
          rintro (hx | hx)
          · exact hseen hx
          · obtain ⟨d', rfl⟩ := List.getLast?_eq_some_iff.mp hx
            exact ⟨d', [], by simp⟩
        · split
          · rename_i hc
            subst hc
            exact loose_mono s (fun x => x.elim) (fun _ => ⟨d, 0, by simp⟩) hseen h'
          · exact loose_mono s (fun x => x.elim) (fun x => x.elim) hseen h'

/-! ### C78 -/

theorem inserted_mem {s t : Str} (h : Inserted s t) : ∀ x ∈ t, x ∈ s ∨ x = '\\' := by
  induction h with
  | nil => simp
  | keep c _ ih =>
    intro x hx
    rcases List.mem_cons.mp hx with rfl | hx
    · simp
    · exact (ih x hx).imp_left (by simp +contextual)
  | ins c _ _ ih =>
    intro x hx
    rcases List.mem_cons.mp hx with rfl | hx
    · exact .inr rfl
    · rcases List.mem_cons.mp hx with rfl | hx
      · simp
      · exact (ih x hx).imp_left (by simp +contextual)

theorem label_mem (c : Str) : ∀ x ∈ label c, x ∈ c ∨ x = ' ' ∨ x = '\\' := by
  intro x hx
  rcases inserted_mem (C11_only_inserts false (padded c)) x hx with h | h
  · unfold padded at h
    split at h
    · rcases List.mem_append.mp h with h | h
      · exact .inl h
      · exact .inr (.inl (by simpa using h))
    · exact .inl h
  · exact .inr (.inr h)

/-- The label of an ordinary text. -/
theorem label_scan {isDigit : Char → Bool} {c : Str} (h : Ordinary isDigit c) : scan 0 False False (label c) := by
  have h1 : loose False False False c := loose_mono c (fun x => x.elim) (fun x => x.elim) (fun x => x.elim) (loose_of c [] h.no_escaped)
  refine scan_of _ (bs := False) (by omega) (inserted_loose (C11_only_inserts false (padded c)) ?_) ((allEscaped_iff _).mp (label_allEscaped c))
  unfold padded
  split
  · exact loose_concat (by decide) c h1
  · exact h1

/-- The anchor of a text where every opening bracket is escaped. -/
theorem slug_of_escaped {E : Env} (hE : E.Lawful) (hL : LowerOk E) {p : Parser} (hp : p ≠ .redcarpet) {c : Str} (hnl : ∀ x ∈ c, ¬ IsNewline x)
    (hnul : '\x00' ∉ c) (hdig : '&' ∈ c → ∀ d ∈ c, E.isDigit d = true → '0' ≤ d ∧ d ≤ '9') (he : scan 0 False False c) : HasSlug E p c := by
  have hl := hL c
  have hmem := lowered_mem hl
  have hcut := removeHtmlTags_cut E p (E.lower c)
  have hesc := scan_opensEscaped (scan_cutTags hcut (lowered_scan hl he))
  have hsub : ∀ d ∈ removeHtmlTags E (E.lower c) p, d ∈ E.lower c := fun d hd => hcut.sublist.mem hd
  have hctl : ∀ x : Char, x.toNat < 128 → isAsciiAlpha x = false → x ∈ removeHtmlTags E (E.lower c) p → x ∈ c := by
    intro x h1 h2 hx
    rcases hmem x (hsub x hx) with h | h | h
    · rw [h2] at h; simp at h
    · exact h.2
    · omega
  have h0 : '\x00' ∉ removeHtmlTags E (E.lower c) p := fun hm => hnul (hctl _ (by decide) (by decide) hm)
  obtain ⟨t, ht⟩ := C52_escaped_partial (E := E) (s := removeHtmlTags E (E.lower c) p) p
    (fun hm => hnl _ (hctl _ (by decide) (by decide) hm) (.inr rfl))
    (by
      intro d hd
      rcases hmem d (hsub d hd) with h1 | h1 | h1
      · exact (alpha_plain h1).2.2.2.2.2.2.1
      · omega
      · exact h1.2.1)
    (by
      intro ha d hd hdd
      have ha' := hctl _ (by decide) (by decide) ha
      rcases hmem d (hsub d hd) with h1 | h1 | h1
      · have h2 := alpha_plain h1
        rw [hE.digit_ascii d h2.2.2.2.2.2.2.2.2.2.2, h2.2.2.2.2.2.2.2.2.2.1] at hdd
        simp at hdd
      · exact hdig ha' d h1.2 hdd
      · obtain ⟨x, hx, hx1, hx2⟩ := h1.2.2 hdd
        have := (hdig ha' x hx hx1).2
        have : x.toNat ≤ 57 := this
        omega)
    (by rw [List.filter_eq_self.mpr (by intro d hd; simp only [bne_iff_ne, ne_eq]; rintro rfl; exact h0 hd)]; exact hesc)
  rw [hasSlug_iff hp (d := fun _ => 0)]
  unfold buildAnchorLink
  rw [if_neg (by rw [split_length_gt_iff]; exact noInterior hnl), if_pos (cmarkLike_of_ne hp)]
  unfold baseAnchor
  simp only [bind, Except.bind, ht]
  exact ⟨_, rfl⟩

/-- **C78**, part: with links, the anchor of an ordinary heading text can always be computed, whatever square brackets it has.
Missing: an opening bracket right after a tag, with a `<` right after a backslash before it (`C78_violation`), null characters. -/
theorem C78_slug_partial {E : Env} (hE : E.Lawful) (hL : LowerOk E) {p : Parser} (hp : p ≠ .redcarpet) {c : Str} (hnl : ∀ x ∈ c, ¬ IsNewline x) (h : Ordinary E.isDigit c) :
    HasSlug E p (label c) := by
  have hm := label_mem c
  have hmem : ∀ x, x ≠ ' ' → x ≠ '\\' → x ∈ label c → x ∈ c := by
    intro x h1 h2 hx
    rcases hm x hx with h | h | h
    · exact h
    · exact absurd h h1
    · exact absurd h h2
  refine slug_of_escaped hE hL hp ?_ (fun h0 => h.no_nul (hmem _ (by decide) (by decide) h0)) ?_ (label_scan h)
  · intro x hx
    rcases label_mem c x hx with h | rfl | rfl
    · exact hnl x h
    · rintro (h | h) <;> simp at h
    · rintro (h | h) <;> simp at h
  · intro ha d hdm hdd
    refine h.digits (hmem _ (by decide) (by decide) ha) d ?_ hdd
    refine hmem d ?_ ?_ hdm
    · rintro rfl; rw [hE.digit_ascii _ (by decide)] at hdd; exact absurd hdd (by decide)
    · rintro rfl; rw [hE.digit_ascii _ (by decide)] at hdd; exact absurd hdd (by decide)

/-- **C78**, part: with links, a document whose heading texts are ordinary has a table exactly if no label is empty or too long and the options and the levels are right.
Missing: as in `C78_slug_partial`. -/
theorem C78_success_partial {E : Env} (hE : E.Lawful) (hL : LowerOk E) {o : Options} (hp : o.parser ≠ .redcarpet) (hno : o.noLinks = false) {fn text : Str} {vs : List Str}
    (hv : Looks o fn text vs) {heads : List (Nat × Str)} (hh : Headings o.parser o.noLinks vs heads) (hn : heads.length ≤ 999999999)
    (hord : ∀ l ∈ vs, ∀ n c, Heading o.parser true l n c → Ordinary E.isDigit c) :
    (∃ out, buildToc E o fn (some ⟨text, false⟩) = .ok out) ↔
      o.skipLines ≥ 0 ∧ (vs ≠ [] → o.keep ≥ 1) ∧ (∀ l ∈ vs, ∀ n c, Heading o.parser true l n c → ¬ EmptyLabel c ∧ (padded c).length ≤ 999) ∧
        (isOrdered o = true ∨ o.listMarker ∈ bullets ∨ ∀ x ∈ heads, listed o.parser o.keep x.1 = false) ∧
        (o.noIndentation = true ∨ o.noListCoherence = true ∨ Coherent ((heads.map Prod.fst).filter (listed o.parser o.keep))) := by
  rw [C75_success hv hh hn]
  have : (∀ l ∈ vs, Readable E o.parser o.noLinks l) ↔ ∀ l ∈ vs, ∀ n c, Heading o.parser true l n c → ¬ EmptyLabel c ∧ (padded c).length ≤ 999 := by
    constructor
    · intro h l hl n c hc
      rcases h l hl with h | h
      · exact absurd h hp
      · have := h n c hc
        rw [hno, if_neg (by simp)] at this
        exact ⟨this.1, this.2.1⟩
    · intro h l hl
      right
      intro n c hc
      rw [hno, if_neg (by simp)]
      obtain ⟨h1, h2⟩ := h l hl n c hc
      exact ⟨h1, h2, C78_slug_partial hE hL hp (heading_no_newline hc).1 (hord l hl n c hc)⟩
  rw [this]

/-- **C78** is false in general: removing a tag after a backslash undoes the escaping.  Without links the heading `[a][b]` cannot be read, with links it can. -/
theorem C78_violation :
    (getMdHeader asciiEnv "# \\<i>[a\\<i>](b \"t\"\n".toList (fun _ => 0) 3 .github false).map (·.1) = .error .IndexError ∧
    (getMdHeader asciiEnv "# [a][b] [c](d \"t\"\n".toList (fun _ => 0) 3 .github true).map (·.1) = .error .KeyError ∧
    (getMdHeader asciiEnv "# [a][b] [c](d \"t\"\n".toList (fun _ => 0) 3 .github false).map (·.1.map (·.map (·.anchor))) = .ok [some "ab-cd-t".toList] := by
  refine ⟨?_, ?_, ?_⟩ <;> decide +kernel

/-! ### Concrete cases -/

/-- ASCII, and U+0100 in lower case. -/
def lowerEnv : Env := { asciiEnv with lower := fun s => s.map (fun c => if c.toNat = 256 then Char.ofNat 257 else asciiLower c) }

theorem lowerEnv_lawful : lowerEnv.Lawful where
  word_ascii _ _ := rfl
  digit_ascii _ _ := rfl
  lower_ascii s h := by
    show s.map _ = s.map _
    apply List.map_congr_left
    intro c hc
    have := h c hc
    rw [if_neg (by omega)]

theorem lowerEnv_ok : LowerOk lowerEnv := by
  intro s
  induction s with
  | nil => exact .nil
  | cons c s ih =>
    have e : lowerEnv.lower (c :: s) = (if c.toNat = 256 then Char.ofNat 257 else asciiLower c) :: lowerEnv.lower s := rfl
    rw [e]
    by_cases h : c.toNat < 128
    · rw [if_neg (by omega)]
      exact .ascii h ih
    · refine .other [_] (by omega) (by simp) ?_ ih
      intro d hd
      simp only [List.mem_singleton] at hd
      subst hd
      right
      split
      · exact ⟨by decide, by decide, fun h => absurd h (by decide)⟩
      · rename_i h2
        have : asciiLower c = c := by
          unfold asciiLower
          rw [if_neg (by omega)]
        rw [this]
        exact ⟨by omega, h2, id⟩

/-- A way to check the second condition of `Ordinary`: no `>` has a bracket or a backslash right after it, or there is no `<` right after a backslash. -/
def tagsApart (c : Str) : Bool :=
  (c.zip c.tail).all (fun q => q.1 != '>' || (q.2 != '[' && q.2 != '\\')) || (c.zip c.tail).all (fun q => q.1 != '\\' || q.2 != '<')

theorem zip_tail_mem (x y : Char) (a b : Str) : (x, y) ∈ (a ++ x :: y :: b).zip (a ++ x :: y :: b).tail := by
  induction a with
  | nil => simp
  | cons c a ih =>
    cases a with
    | nil => simp
    | cons d a => simp only [List.cons_append, List.tail_cons, List.zip_cons_cons, List.mem_cons] at ih ⊢; exact .inr ih

theorem no_escaped_of {c : Str} (h : tagsApart c = true) : ∀ a k b, c = a ++ '>' :: (List.replicate k '\\' ++ '[' :: b) → ∀ x y, a ≠ x ++ '\\' :: '<' :: y := by
  rintro a k b rfl x y rfl
  unfold tagsApart at h
  rw [Bool.or_eq_true, List.all_eq_true, List.all_eq_true] at h
  rcases h with h | h
  · cases k with
    | zero => exact absurd (h _ (zip_tail_mem '>' '[' _ b)) (by decide)
    | succ k => exact absurd (h _ (zip_tail_mem '>' '\\' _ _)) (by decide)
  · rw [List.append_assoc] at h
    exact absurd (h _ (zip_tail_mem '\\' '<' x _)) (by decide)

/-- A heading text with reference links, unclosed titles, backslashes, code, tags and a letter outside of ASCII. -/
theorem ordinaryDemo : Ordinary lowerEnv.isDigit "[a][b] Ā [c](d \"t\" \\[e] `[f` <b>[g](<h</b> &amp; [".toList where
  no_nul := by decide +kernel
  no_escaped := no_escaped_of (by decide +kernel)
  digits := by intro _; decide +kernel

example : HasSlug lowerEnv .github (label "[a][b] Ā [c](d \"t\" \\[e] `[f` <b>[g](<h</b> &amp; [".toList) :=
  C78_slug_partial lowerEnv_lawful lowerEnv_ok (by decide) (by unfold IsNewline; decide +kernel) ordinaryDemo

/-- A heading text with a `<` after a backslash, and brackets in other places. -/
theorem ordinaryDemo_angle : Ordinary lowerEnv.isDigit "Vec\\<T> [a](b \"t\" <i>x</i>".toList where
  no_nul := by decide +kernel
  no_escaped := no_escaped_of (by decide +kernel)
  digits := by intro _; decide +kernel

example : HasSlug lowerEnv .github (label "Vec\\<T> [a](b \"t\" <i>x</i>".toList) :=
  C78_slug_partial lowerEnv_lawful lowerEnv_ok (by decide) (by unfold IsNewline; decide +kernel) ordinaryDemo_angle

/-- A document with that heading has a table (by `C78_success_partial` the conditions are necessary and sufficient). -/
example : (buildToc lowerEnv { parser := .github } "f".toList (some ⟨"# [a][b] Ā [c](d \"t\" \\[e] `[f` <b>[g](<h</b> &amp; [\n".toList, false⟩)).toBool = true := by
  decide +kernel

end MdToc.Props
