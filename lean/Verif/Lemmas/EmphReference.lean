import Verif.Lemmas.EmphLinks

/-!
# The inline parser on reference links
-/

set_option linter.unusedSimpArgs false

namespace MdToc.Cmark

open Spec

theorem linkLabel_fails {s : Subj} {D pre r : Str} (hs : On s D) (hD : D = pre ++ '[' :: r) (hp : s.pos = pre.length) (h1 : r.head? ≠ some '[') (h2 : r.head? ≠ some ']') :
    linkLabel s = .error .KeyError := by
  unfold linkLabel
  rw [if_pos (hs.peek hD hp)]
  have hs' : On { s with pos := s.pos + 1 } D := ⟨hs.data, hs.len⟩
  cases r with
  | nil =>
    rw [hs'.peek_end (by rw [hD]; simp [hp])]
  | cons c r =>
    rw [hs'.peek (c := c) (pre := pre ++ ['[']) (y := r) (by rw [hD]; simp) (by simp [hp])]
    simp only [List.head?_cons, ne_eq, Option.some.injEq] at h1 h2
    simp only
    rw [if_neg (by simp [h1, h2])]

theorem inlineLink_none {E : Env} {s : Subj} {D pre r : Str} {c : Char} (hs : On s D) (hD : D = pre ++ c :: r) (hp : s.pos = pre.length) (hc : c ≠ '(') : inlineLink E s = .ok none := by
  unfold inlineLink
  rw [hs.peek hD hp, if_neg (by simpa using hc)]

theorem parseInlines_reference {E : Env} {a b : List Piece} {r : Str}
    (ha : ∀ x p y, a = x ++ p :: y → p.Ok E.isPCat (text x) (text y ++ ('[' :: (text b ++ (']' :: '[' :: r)))))
    (hb : ∀ x p y, b = x ++ p :: y → p.Ok E.isPCat (text a ++ '[' :: text x) (text y ++ (']' :: '[' :: r)))
    (hbr : Spec.brackets 0 b = some 0) (h1 : r.head? ≠ some '[') (h2 : r.head? ≠ some ']') :
    parseInlines E (text a ++ '[' :: (text b ++ (']' :: '[' :: r))) = .error .KeyError := by
  generalize hS : text a ++ '[' :: (text b ++ (']' :: '[' :: r)) = S
  obtain ⟨tail, hs, htail⟩ := rtrim_split S
  have hle : rtrimLen S ≤ S.length := by
    unfold rtrimLen
    exact (rstrip_prefix isSpace S).length_le
  have hlen : (S.take (rtrimLen S)).length = rtrimLen S := by
    rw [List.length_take]
    omega
  have hge : (text a ++ '[' :: (text b ++ [']'])).length + 1 ≤ rtrimLen S := by
    have := rtrimLen_ge (x := text a ++ '[' :: (text b ++ [']'])) (y := r) (c := '[') (by decide)
    rw [← hS]
    simpa using this
  generalize hDD : S.take (rtrimLen S) = D at hs hlen
  obtain ⟨r', hr, hDr⟩ : ∃ r', r = r' ++ tail ∧ D = text a ++ '[' :: (text b ++ (']' :: '[' :: r')) := by
    have hp : text a ++ '[' :: (text b ++ (']' :: ['['])) <+: D := by
      refine List.prefix_of_prefix_length_le (l₃ := S) ⟨r, by rw [← hS]; simp⟩ ⟨tail, hs.symm⟩ ?_
      rw [hlen]
      simp at hge ⊢
      omega
    obtain ⟨r', hr'⟩ := hp
    refine ⟨r', ?_, by rw [← hr']; simp⟩
    have := hS.trans hs
    rw [← hr'] at this
    have e : text a ++ '[' :: (text b ++ (']' :: ['['])) ++ r = text a ++ '[' :: (text b ++ (']' :: ['['])) ++ (r' ++ tail) := by simpa using this
    exact List.append_cancel_left e
  subst hr
  have g1 : r'.head? ≠ some '[' := by cases r' with
    | nil => simp
    | cons => simpa using h1
  have g2 : r'.head? ≠ some ']' := by cases r' with
    | nil => simp
    | cons => simpa using h2
  have hon : On (initSubj S) D := ⟨⟨tail, hs⟩, hlen.symm⟩
  have hgt : ∀ t, (initSubj S).data = D ++ t → '>' ∉ t := by
    intro t ht hgt
    have ht : S = D ++ t := ht
    have : t = tail := List.append_cancel_left (ht.symm.trans hs)
    subst this
    have := htail _ hgt
    revert this
    decide
  have hDlen := congrArg List.length hDr
  simp only [List.length_append, List.length_cons] at hDlen
  obtain ⟨f1, s1, e1, q1, d1, l1, p1, c1, i1, m1, -⟩ := inlinesLoop_segment (E := E) (z := '[' :: (text b ++ (']' :: '[' :: r'))) (by simp [Plain]; rfl) a.length a [] D (initSubj S) (S.length + 1) (Nat.le_refl _)
    hon hgt (by rw [hDr]; rfl) rfl ⟨rfl, rfl, rfl, rfl⟩ (by omega)
    (by
      intro x p y e
      rw [List.nil_append]
      apply Ok_trim htail
      have := ha x p y e
      rw [show text y ++ '[' :: (text b ++ ']' :: '[' :: r') ++ tail = text y ++ '[' :: (text b ++ ']' :: '[' :: (r' ++ tail)) by simp]
      exact this)
  have hs1 : On s1 D := ⟨by rw [d1]; exact hon.data, by rw [l1]; exact hon.len⟩
  have p1' : s1.pos = (text a).length := by rw [p1]; simp
  cases f1 with
  | zero => omega
  | succ f1 =>
    have hpk : peek s1 = some '[' := hs1.peek hDr p1'
    have hst : inlinesLoop E (f1 + 1) s1 = inlinesLoop E f1 (pushBracket { s1 with pos := s1.pos + 1 }) := by
      conv_lhs => unfold inlinesLoop
      rw [hpk]
      rfl
    obtain ⟨f2, s2, e2, q2, d2, l2, p2, c2, i2, m2, u2⟩ := inlinesLoop_segment (E := E) (z := ']' :: '[' :: r') (by simp [Plain]; rfl) b.length b (text a ++ ['[']) D
      (pushBracket { s1 with pos := s1.pos + 1 }) f1 (Nat.le_refl _) ⟨hs1.data, hs1.len⟩ (by rw [show (pushBracket { s1 with pos := s1.pos + 1 }).data = s1.data from rfl, d1]; exact hgt) (by rw [hDr]; simp)
      (by simp [pushBracket, p1']) c1 (by simp [pushBracket, p1'] at q1 ⊢; omega)
      (by
        intro x p y e
        apply Ok_trim htail
        have := hb x p y e
        rw [show text a ++ ['['] ++ text x = text a ++ '[' :: text x by simp, show text y ++ ']' :: '[' :: r' ++ tail = text y ++ (']' :: '[' :: (r' ++ tail)) by simp]
        exact this)
    obtain ⟨bs0, hup⟩ : ∃ bs0, Upto bs0 0 ⟨s1.pos + 1, s1.delims.head?.map (·.pos), true, false⟩ (pushBracket { s1 with pos := s1.pos + 1 }) :=
      ⟨_, [], _, rfl, rfl, rfl, rfl⟩
    obtain ⟨inner, b', v1, v2, v3, v4⟩ := u2 _ 0 0 _ hup hbr
    have hinner : inner = [] := by simpa using v2
    subst hinner
    simp only [List.nil_append] at v1
    have hs2 : On s2 D := ⟨by rw [d2]; exact hs1.data, by rw [l2]; exact hs1.len⟩
    have p2' : s2.pos = (text a ++ ['['] ++ text b).length := by rw [p2]; simp; omega
    cases f2 with
    | zero => omega
    | succ f2 =>
      have hpk2 : peek s2 = some ']' := hs2.peek (pre := text a ++ ['['] ++ text b) (y := '[' :: r') (by rw [hDr]; simp) p2'
      have hon3 : On { s2 with pos := s2.pos + 1, brackets := b' :: bs0 } D := ⟨hs2.data, hs2.len⟩
      have hD4 : D = (text a ++ ['['] ++ text b ++ [']']) ++ '[' :: r' := by rw [hDr]; simp
      have hil := inlineLink_none (E := E) hon3 hD4 (by simp [p2']; omega) (by decide)
      have hlab := linkLabel_fails hon3 hD4 (by simp [p2']; omega) g1 g2
      have hst2 : parseInline E s2 ']' = .error .KeyError := by
        unfold parseInline
        simp only [Char.reduceEq, or_self, if_false, if_true]
        unfold handleCloseBracket
        simp only [v1, v4, Bool.not_true, Bool.false_eq_true, if_false, hil, bind, Except.bind, hlab]
      have hfin : inlinesLoop E (f2 + 1) s2 = .error .KeyError := by
        conv_lhs => unfold inlinesLoop
        rw [hpk2]
        simp only [hst2, bind, Except.bind]
      unfold parseInlines
      simp only [bind, Except.bind]
      rw [e1, hst, e2, hfin]

end MdToc.Cmark
