import Verif.Lemmas.Strings
import Verif.Cmark.Inlines
import Mathlib.Tactic.Common
import Mathlib.Data.List.Basic

/-!
# The inline parser: exceptions and termination
-/

set_option linter.unusedSimpArgs false

namespace MdToc

/-- The result is a value or one of the exceptions of Python itself. -/
def PyErr {α : Type} (x : Except Exn α) : Prop :=
  ∀ e, x = .error e → e = .ValueError ∨ e = .IndexError ∨ e = .KeyError

namespace PyErr

theorem ok {α : Type} (a : α) : PyErr (.ok a) := by intro e h; simp at h

theorem value {α : Type} : PyErr (.error .ValueError : Except Exn α) := by intro e h; simp at h; simp [← h]
theorem index {α : Type} : PyErr (.error .IndexError : Except Exn α) := by intro e h; simp at h; simp [← h]
theorem key {α : Type} : PyErr (.error .KeyError : Except Exn α) := by intro e h; simp at h; simp [← h]

theorem bind {α β : Type} {x : Except Exn α} {f : α → Except Exn β} (hx : PyErr x) (hf : ∀ a, x = .ok a → PyErr (f a)) :
    PyErr (x >>= f) := by
  cases x with
  | error e => intro e' h; injection h with h; subst h; exact hx _ rfl
  | ok a => exact hf a rfl

end PyErr

namespace Cmark

theorem encodeChar_err (uc : Int) (b : Buf) : PyErr (encodeChar uc b) := by
  unfold encodeChar
  split
  · exact PyErr.value
  · split <;> exact PyErr.ok _

theorem numericEnd_err (skip m : Nat) (r : Int × Nat × Str) (b : Buf) : PyErr (numericEnd skip m r b) := by
  unfold numericEnd
  split
  · split
    · exact (encodeChar_err _ _).bind (fun _ _ => PyErr.ok _)
    · exact PyErr.ok _
  · exact PyErr.ok _

theorem unescapeEnt_err (E : Env) (src : Str) (b : Buf) : PyErr (unescapeEnt E src b) := by
  unfold unescapeEnt
  split
  · split
    · exact numericEnd_err _ _ _ _
    · split
      · exact numericEnd_err _ _ _ _
      · exact PyErr.ok _
  · exact PyErr.ok _
  · exact PyErr.ok _

theorem unescapeHtml_err (E : Env) (f : Nat) : ∀ (src : Str) (b : Buf), src.length < f → PyErr (unescapeHtml E f src b) := by
  induction f with
  | zero => intro src b h; omega
  | succ f ih =>
    intro src b h
    unfold unescapeHtml
    simp only
    have hd : (src.dropWhile (· != '&')).length ≤ src.length := (List.dropWhile_suffix _).length_le
    cases hc : src.dropWhile (· != '&') with
    | nil => exact PyErr.ok _
    | cons x t =>
      rw [hc] at hd
      simp only
      refine (unescapeEnt_err E t _).bind ?_
      rintro ⟨ent, b'⟩ -
      apply ih
      simp at hd ⊢
      omega

theorem strbufUnescape_err : ∀ (n : Nat) (s : Str), s.length ≤ n → PyErr (strbufUnescape s) := by
  intro n
  induction n with
  | zero =>
    intro s h
    have := List.eq_nil_of_length_eq_zero (Nat.le_zero.mp h)
    subst this
    exact PyErr.ok _
  | succ n ih =>
    intro s h
    cases s with
    | nil => exact PyErr.ok _
    | cons c t =>
      unfold strbufUnescape
      split
      · cases t with
        | nil => exact PyErr.index
        | cons d t' =>
          simp only
          simp at h
          split
          · exact ih _ (by omega)
          · exact ih _ (by simp; omega)
      · exact ih _ (by simpa using h)

theorem cleanUrl_err (E : Env) (u : Str) : PyErr (cleanUrl E u) := by
  unfold cleanUrl
  exact (unescapeHtml_err E _ _ _ (by omega)).bind (fun _ _ => strbufUnescape_err _ _ (Nat.le_refl _))

theorem cleanTitle_err (E : Env) (u : Str) : PyErr (cleanTitle E u) := by
  unfold cleanTitle
  cases u with
  | nil => exact PyErr.ok _
  | cons a t => exact (unescapeHtml_err E _ _ _ (by omega)).bind (fun _ _ => strbufUnescape_err _ _ (Nat.le_refl _))

theorem makeAutolink_err (E : Env) (u : Str) : PyErr (makeAutolink E u) := by
  unfold makeAutolink
  exact (unescapeHtml_err E _ _ _ (by omega)).bind (fun _ _ => PyErr.ok _)

theorem inlineLink_err (E : Env) (s : Subj) : PyErr (inlineLink E s) := by
  unfold inlineLink
  split
  · simp only
    split
    · exact PyErr.ok _
    · split
      · exact PyErr.index
      · split
        · exact (cleanUrl_err E _).bind (fun _ _ => (cleanTitle_err E _).bind (fun _ _ => PyErr.ok _))
        · exact PyErr.ok _
  · exact PyErr.ok _

theorem linkLabel_err (s : Subj) : PyErr (linkLabel s) := by
  unfold linkLabel
  split
  · split
    · split
      · exact PyErr.ok _
      · exact PyErr.key
    · exact PyErr.key
  · exact PyErr.ok _

theorem bottomIndex_err (d : Delim) : PyErr (bottomIndex d) := by
  unfold bottomIndex
  split
  · exact PyErr.ok _
  · split
    · exact PyErr.ok _
    · exact PyErr.value

theorem useDelims_pos (o c : Delim) : 1 ≤ useDelims o c := by
  unfold useDelims; split <;> omega

/-- A closer that is used makes the work less. -/
theorem emphFuel_keep (o c : Delim) (rest : List Delim) :
    emphFuel (keepDelim (c.consume (useDelims o c)) rest) < emphFuel (c :: rest) := by
  have := useDelims_pos o c
  unfold keepDelim Delim.consume
  simp only
  split
  · simp only [emphFuel]; omega
  · simp only [emphFuel]; omega

theorem emphFuel_pos (ds : List Delim) : 1 ≤ emphFuel ds := by
  cases ds <;> simp [emphFuel] <;> omega

theorem emphLoop_err (f : Nat) : ∀ older newer bots ig, emphFuel newer ≤ f → PyErr (emphLoop f older newer bots ig) := by
  induction f with
  | zero => intro older newer bots ig h; have := emphFuel_pos newer; omega
  | succ f ih =>
    intro older newer bots ig h
    cases newer with
    | nil => exact PyErr.ok _
    | cons c rest =>
      have h1 : emphFuel rest ≤ f := by simp only [emphFuel] at h; omega
      unfold emphLoop
      split
      · refine (bottomIndex_err c).bind (fun idx _ => ?_)
        split
        · rename_i o below _
          have := emphFuel_keep o c rest
          exact ih _ _ _ _ (by omega)
        · simp only
          split <;> exact ih _ _ _ _ h1
      · exact ih _ _ _ _ h1

theorem processEmphasis_err (s : Subj) (b : Option Nat) : PyErr (processEmphasis s b) := by
  unfold processEmphasis
  split
  · exact PyErr.ok _
  · exact (emphLoop_err _ _ _ _ _ (Nat.le_refl _)).bind (fun _ _ => PyErr.ok _)

/-! ### Progress -/

/-- A handler moves on and keeps the text. -/
def Moves (s s' : Subj) : Prop := s'.data = s.data ∧ s'.len = s.len ∧ s.pos < s'.pos

theorem processEmphasis_keeps {s s' : Subj} {b : Option Nat} (h : processEmphasis s b = .ok s') :
    s'.data = s.data ∧ s'.len = s.len ∧ s'.pos = s.pos ∧ s'.brackets = s.brackets := by
  unfold processEmphasis at h
  split at h
  · injection h with h; subst h; exact ⟨rfl, rfl, rfl, rfl⟩
  · simp only [bind, Except.bind] at h
    split at h
    · simp at h
    · injection h with h; subst h; exact ⟨rfl, rfl, rfl, rfl⟩

theorem handleCloseBracket_err (E : Env) (s : Subj) : PyErr (handleCloseBracket E s) := by
  unfold handleCloseBracket
  simp only
  split
  · exact PyErr.ok _
  · split
    · exact PyErr.ok _
    · refine (inlineLink_err E _).bind (fun r _ => ?_)
      split
      · exact (processEmphasis_err _ _).bind (fun _ _ => PyErr.ok _)
      · exact (linkLabel_err _).bind (fun _ _ => PyErr.ok _)

theorem inlineLink_pos {E : Env} {s : Subj} {p : Nat} (h : inlineLink E s = .ok (some p)) : s.pos < p := by
  unfold inlineLink at h
  split at h
  · simp only at h
    split at h
    · simp at h
    · split at h
      · simp at h
      · split at h
        · simp only [bind, Except.bind] at h
          split at h
          · simp at h
          · split at h
            · simp at h
            · injection h with h
              injection h with h
              subst h
              split <;> omega
        · simp at h
  · simp at h

theorem handleCloseBracket_moves {E : Env} {s s' : Subj} (h : handleCloseBracket E s = .ok s') : Moves s s' := by
  unfold handleCloseBracket at h
  simp only at h
  split at h
  · injection h with h; subst h; exact ⟨rfl, rfl, by simp⟩
  · split at h
    · injection h with h; subst h; exact ⟨rfl, rfl, by simp⟩
    · simp only [bind, Except.bind] at h
      cases hi : inlineLink E { s with pos := s.pos + 1 } with
      | error e => rw [hi] at h; simp at h
      | ok r =>
        rw [hi] at h
        cases r with
        | none =>
          simp only at h
          split at h
          · simp at h
          · injection h with h; subst h; exact ⟨rfl, rfl, by simp⟩
        | some p =>
          simp only at h
          split at h
          · simp at h
          · rename_i s1 hp
            injection h with h
            subst h
            obtain ⟨e1, e2, e3, -⟩ := processEmphasis_keeps hp
            refine ⟨e1, e2, ?_⟩
            have := inlineLink_pos hi
            simp only at this e3 ⊢
            omega

theorem peek_some {s : Subj} {c : Char} (h : peek s = some c) : s.pos < s.len ∧ s.data[s.pos]? = some c := by
  unfold peek at h
  split at h
  · exact ⟨by assumption, h⟩
  · simp at h

theorem restFrom_pos {s : Subj} {c : Char} (h : peek s = some c) : ∃ t, restFrom s s.pos = c :: t := by
  obtain ⟨h1, h2⟩ := peek_some h
  unfold restFrom
  obtain ⟨h3, h4⟩ := List.getElem?_eq_some_iff.mp h2
  have : s.pos < (s.data.take s.len).length := by simp; omega
  rw [List.drop_eq_getElem_cons this]
  exact ⟨_, by simp [h4]; rfl⟩

theorem handleNewline_err (s : Subj) : PyErr (handleNewline s) := by
  unfold handleNewline
  split
  · exact PyErr.index
  · simp only
    split
    · exact PyErr.index
    · exact PyErr.ok _

theorem handleNewline_moves {s s' : Subj} {c : Char} (hp : peek s = some c) (hc : c = '\r' ∨ c = '\n')
    (h : handleNewline s = .ok s') : Moves s s' := by
  obtain ⟨h1, h2⟩ := peek_some hp
  unfold handleNewline at h
  rw [h2] at h
  simp only at h
  split at h
  · simp at h
  · rename_i d hd
    injection h with h
    subst h
    refine ⟨rfl, rfl, ?_⟩
    simp only
    rcases hc with rfl | rfl
    · rw [if_pos rfl]; split <;> omega
    · have hne : ¬ '\n' = '\r' := by decide
      rw [if_neg hne] at hd ⊢
      rw [h2] at hd
      injection hd with hd
      subst hd
      rw [if_pos rfl]; omega

theorem handleBackticks_err (s : Subj) : PyErr (handleBackticks s) := by
  unfold handleBackticks
  simp only
  split
  · exact PyErr.ok _
  · split
    · exact PyErr.ok _
    · split
      · exact PyErr.ok _
      · split
        · exact PyErr.index
        · exact PyErr.ok _

theorem closingTicksLoop_pos (openLen : Nat) (f : Nat) : ∀ rest pos bt e bt',
    closingTicksLoop openLen f rest pos bt = (some e, bt') → pos ≤ e := by
  induction f with
  | zero => intro rest pos bt e bt' h; simp [closingTicksLoop] at h
  | succ f ih =>
    intro rest pos bt e bt' h
    unfold closingTicksLoop at h
    simp only at h
    split at h
    · simp at h
    · by_cases hn : ((rest.dropWhile (· != '`')).takeWhile (· == '`')).length = openLen
      · rw [if_pos hn] at h
        simp at h
        omega
      · rw [if_neg hn] at h
        have := ih _ _ _ _ _ h
        omega

theorem handleBackticks_moves {s s' : Subj} (hp : peek s = some '`') (h : handleBackticks s = .ok s') : Moves s s' := by
  obtain ⟨t, ht⟩ := restFrom_pos hp
  have hn : 1 ≤ ((restFrom s s.pos).takeWhile (· == '`')).length := by
    rw [ht]; simp
  unfold handleBackticks at h
  simp only at h
  split at h
  · injection h with h; subst h; exact ⟨rfl, rfl, by simp only; omega⟩
  · split at h
    · injection h with h; subst h; exact ⟨rfl, rfl, by simp only; omega⟩
    · split at h
      · injection h with h; subst h; exact ⟨rfl, rfl, by simp only; omega⟩
      · rename_i e bt hc
        split at h
        · simp at h
        · injection h with h; subst h
          have := closingTicksLoop_pos _ _ _ _ _ _ _ hc
          exact ⟨rfl, rfl, by simp only; omega⟩

theorem handleBackslash_moves (s : Subj) : Moves s (handleBackslash s) := by
  unfold handleBackslash
  simp only
  split
  · exact ⟨rfl, rfl, by simp⟩
  · split
    · exact ⟨rfl, rfl, by simp only; omega⟩
    · split <;> split <;> exact ⟨rfl, rfl, by simp only; omega⟩

theorem handleEntity_err (E : Env) (s : Subj) : PyErr (handleEntity E s) := by
  unfold handleEntity
  exact (unescapeEnt_err E _ _).bind (fun _ _ => PyErr.ok _)

theorem handleEntity_moves {E : Env} {s s' : Subj} (h : handleEntity E s = .ok s') : Moves s s' := by
  unfold handleEntity at h
  simp only [bind, Except.bind] at h
  split at h
  · simp at h
  · injection h with h; subst h; exact ⟨rfl, rfl, by simp only; omega⟩

theorem handlePointyBrace_err (E : Env) (s : Subj) : PyErr (handlePointyBrace E s) := by
  unfold handlePointyBrace
  simp only
  split
  · exact (makeAutolink_err E _).bind (fun _ _ => PyErr.ok _)
  · split
    · exact (makeAutolink_err E _).bind (fun _ _ => PyErr.ok _)
    · exact PyErr.ok _

theorem pointyHtml_keeps (E : Env) (s : Subj) : (pointyHtml E s).2.data = s.data ∧ (pointyHtml E s).2.len = s.len ∧
    (pointyHtml E s).2.pos = s.pos ∧ (pointyHtml E s).2.delims = s.delims ∧ (pointyHtml E s).2.ignore = s.ignore ∧
    (pointyHtml E s).2.brackets = s.brackets := by
  unfold pointyHtml
  split
  · repeat' (first | exact ⟨rfl, rfl, rfl, rfl, rfl, rfl⟩ | split | simp only)
  · exact ⟨rfl, rfl, rfl, rfl, rfl, rfl⟩

theorem handlePointyBrace_moves {E : Env} {s s' : Subj} (h : handlePointyBrace E s = .ok s') : Moves s s' := by
  unfold handlePointyBrace at h
  simp only [bind, Except.bind] at h
  split at h
  · split at h
    · simp at h
    · injection h with h; subst h; exact ⟨rfl, rfl, by simp only; omega⟩
  · split at h
    · split at h
      · simp at h
      · injection h with h; subst h; exact ⟨rfl, rfl, by simp only; omega⟩
    · injection h with h; subst h
      obtain ⟨e1, e2, e3, -⟩ := pointyHtml_keeps E { s with pos := s.pos + 1 }
      refine ⟨e1, e2, ?_⟩
      simp only at e3 ⊢
      omega

theorem runLength_pos (c : Char) (t : Str) : 1 ≤ runLength c (c :: t) := by
  unfold runLength
  split
  · omega
  · simp

theorem handleDelim_moves {E : Env} {s : Subj} {c : Char} (hp : peek s = some c) : Moves s (handleDelim E s c) := by
  obtain ⟨t, ht⟩ := restFrom_pos hp
  have hn : (scanDelims E s c).1 = runLength c (restFrom s s.pos) := rfl
  have := runLength_pos c t
  rw [ht] at hn
  unfold handleDelim
  generalize scanDelims E s c = r at hn ⊢
  obtain ⟨n, o, cl⟩ := r
  simp only at hn ⊢
  split <;> exact ⟨rfl, rfl, by simp only; omega⟩

theorem findSpecialLoop_err (rest : Str) : ∀ n, PyErr (findSpecialLoop rest n) := by
  induction rest with
  | nil => intro n; exact PyErr.ok _
  | cons c t ih =>
    intro n
    unfold findSpecialLoop
    split
    · exact PyErr.ok _
    · split
      · exact PyErr.index
      · split
        · exact PyErr.ok _
        · exact ih _

theorem findSpecialLoop_pos (rest : Str) : ∀ n m, findSpecialLoop rest n = .ok m → n ≤ m := by
  induction rest with
  | nil => intro n m h; injection h with h; omega
  | cons c t ih =>
    intro n m h
    unfold findSpecialLoop at h
    split at h
    · injection h with h; omega
    · split at h
      · simp at h
      · split at h
        · injection h with h; omega
        · have := ih _ _ h; omega

theorem parseInline_err (E : Env) (s : Subj) (c : Char) : PyErr (parseInline E s c) := by
  unfold parseInline
  by_cases hc : c = '\r' ∨ c = '\n'
  · rw [if_pos hc]; exact handleNewline_err _
  rw [if_neg hc]; clear hc
  by_cases hc : c = '`'
  · rw [if_pos hc]; exact handleBackticks_err _
  rw [if_neg hc]; clear hc
  by_cases hc : c = '\\'
  · rw [if_pos hc]; exact PyErr.ok _
  rw [if_neg hc]; clear hc
  by_cases hc : c = '&'
  · rw [if_pos hc]; exact handleEntity_err _ _
  rw [if_neg hc]; clear hc
  by_cases hc : c = '<'
  · rw [if_pos hc]; exact handlePointyBrace_err _ _
  rw [if_neg hc]; clear hc
  by_cases hc : c = '*' ∨ c = '_' ∨ c = '\'' ∨ c = '"'
  · rw [if_pos hc]; exact PyErr.ok _
  rw [if_neg hc]; clear hc
  by_cases hc : c = '-'
  · rw [if_pos hc]; exact PyErr.ok _
  rw [if_neg hc]; clear hc
  by_cases hc : c = '.'
  · rw [if_pos hc]; exact PyErr.ok _
  rw [if_neg hc]; clear hc
  by_cases hc : c = '['
  · rw [if_pos hc]; exact PyErr.ok _
  rw [if_neg hc]; clear hc
  by_cases hc : c = ']'
  · rw [if_pos hc]; exact handleCloseBracket_err _ _
  rw [if_neg hc]; clear hc
  by_cases hc : c = '!'
  · rw [if_pos hc]; exact PyErr.ok _
  rw [if_neg hc]; clear hc
  exact (findSpecialLoop_err _ _).bind (fun _ _ => PyErr.ok _)

theorem parseInline_moves {E : Env} {s s' : Subj} {c : Char} (hp : peek s = some c) (h : parseInline E s c = .ok s') :
    Moves s s' := by
  have one : ∀ s'', s'' = ({ s with pos := s.pos + 1 } : Subj) → Moves s s'' := by
    rintro _ rfl; exact ⟨rfl, rfl, by simp⟩
  unfold parseInline at h
  by_cases hc : c = '\r' ∨ c = '\n'
  · rw [if_pos hc] at h; exact handleNewline_moves hp hc h
  rw [if_neg hc] at h; clear hc
  by_cases hc : c = '`'
  · rw [if_pos hc] at h; subst hc; exact handleBackticks_moves hp h
  rw [if_neg hc] at h; clear hc
  by_cases hc : c = '\\'
  · rw [if_pos hc] at h; injection h with h; subst h; exact handleBackslash_moves s
  rw [if_neg hc] at h; clear hc
  by_cases hc : c = '&'
  · rw [if_pos hc] at h; exact handleEntity_moves h
  rw [if_neg hc] at h; clear hc
  by_cases hc : c = '<'
  · rw [if_pos hc] at h; exact handlePointyBrace_moves h
  rw [if_neg hc] at h; clear hc
  by_cases hc : c = '*' ∨ c = '_' ∨ c = '\'' ∨ c = '"'
  · rw [if_pos hc] at h; injection h with h; subst h; exact handleDelim_moves hp
  rw [if_neg hc] at h; clear hc
  by_cases hc : c = '-'
  · rw [if_pos hc] at h; injection h with h; exact one _ h.symm
  rw [if_neg hc] at h; clear hc
  by_cases hc : c = '.'
  · rw [if_pos hc] at h; injection h with h; exact one _ h.symm
  rw [if_neg hc] at h; clear hc
  by_cases hc : c = '['
  · rw [if_pos hc] at h; injection h with h; subst h; exact ⟨rfl, rfl, by simp [pushBracket]⟩
  rw [if_neg hc] at h; clear hc
  by_cases hc : c = ']'
  · rw [if_pos hc] at h; exact handleCloseBracket_moves h
  rw [if_neg hc] at h; clear hc
  by_cases hc : c = '!'
  · rw [if_pos hc] at h; injection h with h; exact one _ h.symm
  rw [if_neg hc] at h; clear hc
  simp only [bind, Except.bind] at h
  split at h
  · simp at h
  · rename_i e he
    injection h with h; subst h
    have := findSpecialLoop_pos _ _ _ he
    exact ⟨rfl, rfl, by simp only; omega⟩

/-- The main loop ends: the bound of the model is never reached. -/
theorem inlinesLoop_err (E : Env) (f : Nat) : ∀ s : Subj, s.len - s.pos < f → PyErr (inlinesLoop E f s) := by
  induction f with
  | zero => intro s h; omega
  | succ f ih =>
    intro s h
    unfold inlinesLoop
    split
    · exact PyErr.ok _
    · rename_i c hp
      refine (parseInline_err E s c).bind (fun s' hs' => ?_)
      obtain ⟨-, h2, h3⟩ := parseInline_moves hp hs'
      have := (peek_some hp).1
      exact ih s' (by omega)

theorem rtrimLen_le (s : Str) : rtrimLen s ≤ s.length := by
  unfold rtrimLen rstrip
  have := (List.dropWhile_suffix isSpace (l := s.reverse)).length_le
  simpa using this

theorem parseInlines_err (E : Env) (line : Str) : PyErr (parseInlines E line) := by
  unfold parseInlines
  refine PyErr.bind (inlinesLoop_err E _ _ ?_) (fun s _ => PyErr.bind (processEmphasis_err s none) (fun _ _ => PyErr.ok _))
  have := rtrimLen_le line
  simp only [initSubj]
  omega

end Cmark

theorem removeEmphasis_err (E : Env) (line : Str) (p : Parser) : PyErr (removeEmphasis E line p) := by
  unfold removeEmphasis
  exact PyErr.bind (Cmark.parseInlines_err E _) (fun _ _ => PyErr.ok _)

end MdToc
