import Verif.Anchor
import Verif.Spec.Inline
import Verif.Lemmas.Regex

/-!
# Removal of HTML tags
-/

set_option linter.unusedSimpArgs false

namespace MdToc

open Spec

namespace Re

theorem lang_seqs_cons {w : Char → Bool} {a b : Re} {t : List Re} {p s p' s'} (h : (seqs (a :: b :: t)).Lang w p s p' s') :
    ∃ p1 s1, a.Lang w p s p1 s1 ∧ (seqs (b :: t)).Lang w p1 s1 p' s' := h

theorem lang_lit {w : Char → Bool} : ∀ {l : Str} {p s p' s'}, (lit l).Lang w p s p' s' ↔ s = l ++ s' ∧ p' = l.getLast?.or p := by
  intro l
  induction l with
  | nil =>
    intro p s p' s'
    simp only [lit, Lang]
    constructor
    · rintro ⟨rfl, rfl⟩; simp
    · rintro ⟨rfl, rfl⟩; simp
  | cons c t ih =>
    intro p s p' s'
    simp only [lit]
    constructor
    · rintro ⟨p1, s1, h1, h2⟩
      obtain ⟨rfl, rfl⟩ := lang_chr.mp h1
      obtain ⟨rfl, rfl⟩ := ih.mp h2
      refine ⟨rfl, ?_⟩
      cases t <;> simp [List.getLast?_cons]
    · rintro ⟨rfl, rfl⟩
      refine ⟨some c, t ++ s', lang_chr.mpr ⟨rfl, rfl⟩, ih.mpr ⟨rfl, ?_⟩⟩
      cases t <;> simp [List.getLast?_cons]

/-- The match starts with `a` and ends with `z`. -/
def Between (w : Char → Bool) (r : Re) : Prop :=
  ∀ p s p' s', r.Lang w p s p' s' → ∃ m, s = '<' :: (m ++ '>' :: s')

theorem Ends.seqs {w : Char → Bool} {z : Re} {x : Str} (hz : ∀ p s p' s', z.Lang w p s p' s' → ∃ m, s = m ++ x ++ s') : ∀ (l : List Re) {p s p' s'},
    (seqs (l ++ [z])).Lang w p s p' s' → ∃ m, s = m ++ x ++ s' := by
  intro l
  induction l with
  | nil => intro p s p' s' h; exact hz _ _ _ _ h
  | cons a l ih =>
    intro p s p' s' h
    have h' : ∃ p1 s1, a.Lang w p s p1 s1 ∧ (Re.seqs (l ++ [z])).Lang w p1 s1 p' s' := by
      cases l with
      | nil => exact h
      | cons b l => exact h
    obtain ⟨p1, s1, h1, h2⟩ := h'
    obtain ⟨m, rfl⟩ := ih h2
    obtain ⟨e, rfl, -⟩ := h1.consumes
    exact ⟨e ++ m, by simp⟩

theorem between_of {w : Char → Bool} {r z : Re} {a : Str} {l : List Re} (hl : l ≠ []) (hr : r = seqs (lit ('<' :: a) :: l ++ [z]))
    (hz : ∀ p s p' s', z.Lang w p s p' s' → ∃ m, s = m ++ ['>'] ++ s') : Between w r := by
  intro p s p' s' h
  subst hr
  cases l with
  | nil => exact absurd rfl hl
  | cons b l =>
    obtain ⟨p1, s1, h1, h2⟩ := lang_seqs_cons h
    obtain ⟨rfl, -⟩ := lang_lit.mp h1
    obtain ⟨m, rfl⟩ := Ends.seqs hz (b :: l) h2
    exact ⟨a ++ m, by simp⟩

theorem between_chr {w : Char → Bool} {r z : Re} {l : List Re} (hl : l ≠ []) (hr : r = seqs (chr '<' :: l ++ [z]))
    (hz : ∀ p s p' s', z.Lang w p s p' s' → ∃ m, s = m ++ ['>'] ++ s') : Between w r := by
  intro p s p' s' h
  subst hr
  cases l with
  | nil => exact absurd rfl hl
  | cons b l =>
    obtain ⟨p1, s1, h1, h2⟩ := lang_seqs_cons h
    obtain ⟨rfl, -⟩ := lang_chr.mp h1
    obtain ⟨m, rfl⟩ := Ends.seqs hz (b :: l) h2
    exact ⟨m, by simp⟩

theorem ends_chr {w : Char → Bool} : ∀ p s p' s', (chr '>').Lang w p s p' s' → ∃ m, s = m ++ ['>'] ++ s' := by
  intro p s p' s' h
  obtain ⟨rfl, -⟩ := lang_chr.mp h
  exact ⟨[], rfl⟩

theorem ends_lit {w : Char → Bool} (a : Str) : ∀ p s p' s', (lit (a ++ ['>'])).Lang w p s p' s' → ∃ m, s = m ++ ['>'] ++ s' := by
  intro p s p' s' h
  obtain ⟨rfl, -⟩ := lang_lit.mp h
  exact ⟨a, rfl⟩

open Rx in
theorem htmlRegexes_between (w : Char → Bool) (p : Parser) : ∀ r ∈ Rx.htmlRegexes p, Between w r := by
  intro r hr
  have h1 : Between w otGithub := between_chr (l := [tnGithub, .star atGithub, .star ws, opt (chr '/')]) (by simp) rfl ends_chr
  have h2 : Between w ctGithub := between_of (a := ['/']) (l := [tnGithub, opt ws]) (by simp) rfl ends_chr
  have h3 : Between w co := between_of (a := "!--".toList) (l := [_, _, _]) (by simp) rfl (ends_lit ['-', '-'])
  have h4 : Between w pi := between_of (a := "?".toList) (l := [_]) (by simp) rfl (ends_lit ['?'])
  have h5 : Between w deGithub := between_of (a := "!".toList) (l := [_, _, _]) (by simp) rfl ends_chr
  have h6 : Between w cd := between_of (a := "![CDATA[".toList) (l := [_]) (by simp) rfl (ends_lit [']', ']'])
  have h7 : Between w otCmark := between_chr (l := [tagname, .star atCmark, _, opt (chr '/')]) (by simp) rfl ends_chr
  have h8 : Between w ctCmark := between_of (a := ['/']) (l := [tagname, _]) (by simp) rfl ends_chr
  have h9 : Between w deCmark := between_of (a := "!".toList) (l := [_, _]) (by simp) rfl ends_chr
  unfold Rx.htmlRegexes at hr
  split at hr <;> simp only [List.mem_cons, List.not_mem_nil, or_false] at hr
  · rcases hr with rfl | rfl | rfl | rfl | rfl | rfl <;> assumption
  · rcases hr with rfl | rfl | rfl | rfl | rfl | rfl <;> assumption

end Re

theorem Spec.CutTags.trans {s t u : Str} (h : CutTags s t) (h' : CutTags t u) : CutTags s u := by
  induction h with
  | refl s => exact h'
  | step h _ ih => exact .step h (ih h')

theorem Spec.CutTags.cons {c : Char} {s t : Str} (h : CutTags s t) : CutTags (c :: s) (c :: t) := by
  induction h with
  | refl s => exact .refl _
  | step h _ ih =>
    obtain ⟨a, m, b, rfl, rfl⟩ := h
    exact .step ⟨c :: a, m, b, rfl, rfl⟩ ih

theorem subLoop_cut {w : Char → Bool} {r : Re} (hr : Re.Between w r) : ∀ n p s, CutTags s (Re.subLoop w r [] n p s) := by
  intro n
  induction n with
  | zero => intro p s; exact .refl _
  | succ n ih =>
    intro p s
    cases s with
    | nil => exact .refl _
    | cons c t =>
      simp only [Re.subLoop]
      split
      · rename_i rest hm
        split
        · obtain ⟨p', s', h, hk⟩ := (Re.m_right w r).2 _ _ _ _ hm
          cases hk
          obtain ⟨m, e⟩ := hr _ _ _ _ h
          exact .step ⟨[], m, _, e, rfl⟩ (ih _ _)
        · exact (ih _ _).cons
      · exact (ih _ _).cons

theorem sub_cut {w : Char → Bool} {r : Re} (hr : Re.Between w r) (s : Str) : CutTags s (r.sub w [] s) := subLoop_cut hr _ _ _

theorem removeHtmlTags_cut (E : Env) (p : Parser) (s : Str) : CutTags s (removeHtmlTags E s p) := by
  unfold removeHtmlTags
  split
  · have : ∀ (rs : List Re), (∀ r ∈ rs, Re.Between E.isWord r) → ∀ s, CutTags s (rs.foldl (fun l r => r.sub E.isWord [] l) s) := by
      intro rs
      induction rs with
      | nil => intro _ s; exact .refl _
      | cons r rs ih =>
        intro h s
        exact (sub_cut (h r (by simp)) s).trans (ih (fun r hr => h r (by simp [hr])) _)
    exact this _ (Re.htmlRegexes_between _ p) s
  · exact .refl _

theorem Spec.CutTags.sublist {s t : Str} (h : CutTags s t) : t.Sublist s := by
  induction h with
  | refl s => exact List.Sublist.refl _
  | step h _ ih =>
    obtain ⟨a, m, b, rfl, rfl⟩ := h
    refine ih.trans (List.Sublist.append (List.Sublist.refl a) ?_)
    have h1 : List.Sublist b (m ++ '>' :: b) := (List.sublist_cons_self _ _).trans (List.sublist_append_right _ _)
    exact h1.trans (List.sublist_cons_self _ _)

theorem Spec.CutTags.same {s t : Str} (h : CutTags s t) (hn : '<' ∉ s ∨ '>' ∉ s) : t = s := by
  cases h with
  | refl s => rfl
  | step h _ =>
    obtain ⟨a, m, b, rfl, rfl⟩ := h
    rcases hn with hn | hn <;> simp at hn

end MdToc
