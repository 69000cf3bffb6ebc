import Verif.Constants
import Verif.Spec.Tags
import Mathlib.Tactic.Common

/-!
# Characters of tags and the removal of pieces
-/

set_option linter.unusedSimpArgs false

namespace MdToc

open Spec

theorem Spec.WithoutTags.mono {A B : Str → Prop} {s t : Str} (h : WithoutTags A s t) (hAB : ∀ x, A x → B x) : WithoutTags B s t := by
  induction h with
  | nil => exact .nil
  | char hc _ ih => exact .char hc ih
  | tag hx _ ih => exact .tag (hAB _ hx) ih

theorem letter_alpha {c : Char} : Letter c ↔ isAsciiAlpha c = true := by
  unfold Letter isAsciiAlpha
  simp

theorem digit_digit {c : Char} : Digit c ↔ isAsciiDigit c = true := by
  unfold Digit isAsciiDigit
  simp

namespace Re

variable {w : Char → Bool}

/-- The class `\w` agrees with ASCII. -/
def AsciiWord (w : Char → Bool) : Prop := ∀ c : Char, c.toNat < 128 → w c = (isAsciiAlpha c || isAsciiDigit c || c == '_')

theorem letter_word (hw : AsciiWord w) {c : Char} (h : Letter c ∨ Digit c) : w c = true := by
  rw [hw c (by unfold Letter Digit at h; omega)]
  rw [letter_alpha, digit_digit] at h
  rcases h with h | h <;> simp [h]

theorem asciiLower_letter {c d : Char} (h : asciiLower c = d) (hd : 97 ≤ d.toNat ∧ d.toNat ≤ 122) : Letter c := by
  unfold asciiLower at h
  unfold Letter
  split at h
  · rename_i hc
    exact .inl hc
  · subst h; exact .inr hd

/-- The filtered words. -/
def rawWords : List Str := ["title", "textarea", "style", "xmp", "iframe", "noembed", "noframes", "script", "plaintext"].map String.toList

end Re

end MdToc
