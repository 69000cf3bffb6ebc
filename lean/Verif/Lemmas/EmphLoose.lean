import Verif.Lemmas.EmphReference

/-!
# The inline parser on texts which may have reference links
-/

set_option linter.unusedSimpArgs false

namespace MdToc.Cmark

open Spec

/-- Plain characters at the start of a text are pieces, also with any closing brackets. -/
theorem chars_of_text_loose {punct : Char → Bool} : ∀ (w y' : Str) (ps : List Piece) (pre : Str), text ps = w ++ y' → (∀ c ∈ w, Plain c) →
    (∀ x p y, ps = x ++ p :: y → p.Ok punct (pre ++ text x) (text y) ∨ p = .char ']') → ∃ qs, ps = w.map .char ++ qs ∧ y' = text qs := by
  intro w
  induction w with
  | nil => intro y' ps pre e _ _; exact ⟨ps, rfl, by rw [e]; rfl⟩
  | cons c w ih =>
    intro y' ps pre e hw hok
    have hc : Plain c := hw c (by simp)
    cases ps with
    | nil => simp [text] at e
    | cons p ps =>
      by_cases hp : ∃ d, p = .char d ∧ Plain d
      · obtain ⟨d, rfl, -⟩ := hp
        rw [text_cons] at e
        injection e with e0 e
        have e0 : d = c := e0
        subst e0
        obtain ⟨qs, rfl, e2⟩ := ih y' ps (pre ++ [d]) e (fun c hc => hw c (by simp [hc])) (by
          intro x p y e3
          have := hok (.char d :: x) p y (by rw [e3]; rfl)
          rw [text_cons] at this
          rw [show pre ++ [d] ++ text x = pre ++ ((Piece.char d).text ++ text x) by simp [Piece.text]]
          exact this)
        exact ⟨qs, rfl, e2⟩
      · have : ∃ d, p.text.head? = some d ∧ ¬ Plain d := by
          rcases hok [] p ps rfl with h | rfl
          · exact not_plain_head (fun c hc hpl => hp ⟨c, hc, hpl⟩) h
          · exact ⟨']', rfl, fun h => hp ⟨']', rfl, h⟩⟩
        obtain ⟨d, h1, h2⟩ := this
        rw [text_cons] at e
        have := congrArg List.head? e
        rw [List.head?_append, h1] at this
        have h3 : d = c := by simpa using this
        exact absurd hc (h3 ▸ h2)

theorem openAfter_append : ∀ (k : Nat) (a b : List Piece), openAfter k (a ++ b) = openAfter (openAfter k a) b := by
  intro k a
  induction a generalizing k with
  | nil => intro b; rfl
  | cons p a ih =>
    intro b
    simp only [List.cons_append, openAfter]
    split
    · exact ih _ _
    · split
      · exact ih _ _
      · exact ih _ _

theorem plain_not_bracket {c : Char} (h : Plain c) : c ≠ '[' ∧ c ≠ ']' := by
  constructor
  · rintro rfl; revert h; simp [Plain]
  · rintro rfl; revert h; simp [Plain]

theorem openAfter_chars {u : Str} (hu : ∀ c ∈ u, Plain c) (k : Nat) : openAfter k (u.map .char) = k := by
  induction u with
  | nil => rfl
  | cons c u ih =>
    obtain ⟨h1, h2⟩ := plain_not_bracket (hu c (by simp))
    rw [List.map_cons, openAfter, if_neg (by simpa using h1), if_neg (by simpa using h2)]
    exact ih (fun d hd => hu d (by simp [hd]))

theorem refers_chars {u : Str} (hu : ∀ c ∈ u, Plain c) {k : Nat} {rest : List Piece} : RefersFrom k (u.map .char ++ rest) ↔ RefersFrom k rest := by
  constructor
  · rintro ⟨x, y, e, h1, h2⟩
    rcases List.append_eq_append_iff.mp e with ⟨v, e1, e2⟩ | ⟨v, e1, e2⟩
    · rw [e1, openAfter_append, openAfter_chars hu] at h1
      exact ⟨v, y, e2, h1, h2⟩
    · cases v with
      | nil => exact ⟨[], y, by simpa using e2.symm, by rw [List.append_nil] at e1; rw [← e1, openAfter_chars hu] at h1; exact h1, h2⟩
      | cons q v =>
        injection e2 with e3 e4
        subst e3
        have : Piece.char ']' ∈ u.map .char := by rw [e1]; simp
        obtain ⟨c, hc, hcc⟩ := List.mem_map.mp this
        injection hcc with hcc
        exact absurd hcc (plain_not_bracket (hu c hc)).2
  · rintro ⟨x, y, e, h1, h2⟩
    exact ⟨u.map .char ++ x, y, by rw [e]; simp, by rw [openAfter_append, openAfter_chars hu]; exact h1, h2⟩

/-- The brackets behind a piece. -/
theorem refers_cons {k : Nat} {p : Piece} {rest : List Piece} :
    RefersFrom k (p :: rest) ↔ (p = .char ']' ∧ 1 ≤ k ∧ ¬ NoLabel (text rest)) ∨ RefersFrom (openAfter k [p]) rest := by
  constructor
  · rintro ⟨x, y, e, h1, h2⟩
    cases x with
    | nil =>
      injection e with e1 e2
      subst e1 e2
      exact .inl ⟨rfl, h1, h2⟩
    | cons q x =>
      injection e with e1 e2
      subst e1
      rw [show p :: x = [p] ++ x from rfl, openAfter_append] at h1
      exact .inr ⟨x, y, e2, h1, h2⟩
  · rintro (⟨rfl, h1, h2⟩ | ⟨x, y, e, h1, h2⟩)
    · exact ⟨[], rest, rfl, h1, h2⟩
    · exact ⟨p :: x, y, by rw [e]; rfl, by rw [show p :: x = [p] ++ x from rfl, openAfter_append]; exact h1, h2⟩

theorem pieceBrackets_open {s : Subj} {p : Piece} (h : ∀ b ∈ s.brackets, b.active = true) :
    (∀ b ∈ pieceBrackets s p, b.active = true) ∧ (pieceBrackets s p).length = openAfter s.brackets.length [p] := by
  unfold pieceBrackets
  split
  · refine ⟨?_, ?_⟩
    · intro b hb
      simp only [pushBracket] at hb
      rcases List.mem_cons.mp hb with rfl | hb
      · rfl
      · first
        | exact h b hb
        | (split at hb
           · simp at hb
           · rename_i b0 t0 hbr
             rcases List.mem_cons.mp hb with rfl | hb
             · exact h b0 (by rw [hbr]; simp)
             · exact h b (by rw [hbr]; simp [hb]))
    · simp only [pushBracket, openAfter]
      split <;> simp_all
  · refine ⟨fun b hb => h b (List.mem_of_mem_tail hb), ?_⟩
    simp [openAfter]
  · rename_i h1 h2
    refine ⟨h, ?_⟩
    rw [openAfter, if_neg h1, if_neg h2, openAfter]

theorem noLabel_fails {y : Str} (h : ¬ NoLabel y) : ∃ r, y = '[' :: r ∧ r.head? ≠ some '[' ∧ r.head? ≠ some ']' := by
  unfold NoLabel at h
  simp only [not_or, not_not] at h
  obtain ⟨h1, h2, h3⟩ := h
  cases y with
  | nil => simp at h1
  | cons c r =>
    simp only [List.head?_cons, Option.some.injEq] at h1
    subst h1
    refine ⟨r, rfl, ?_, ?_⟩
    · cases r <;> simp_all
    · cases r <;> simp_all

/-- A closing bracket with a label behind it. -/
theorem close_label {E : Env} {s : Subj} {D pre y : Str} (hs : On s D) (hD : D = pre ++ ']' :: y) (hp : s.pos = pre.length) (ha : ∀ b ∈ s.brackets, b.active = true) (hl : ¬ NoLabel y) :
    parseInline E s ']' = if s.brackets = [] then .ok { s with pos := s.pos + 1 } else .error .KeyError := by
  obtain ⟨r, rfl, h1, h2⟩ := noLabel_fails hl
  unfold parseInline
  simp only [Char.reduceEq, or_self, if_false, if_true]
  unfold handleCloseBracket
  cases hb : s.brackets with
  | nil => simp [hb]
  | cons b bs =>
    have hact : b.active = true := ha b (by rw [hb]; simp)
    have hs' : On { s with pos := s.pos + 1 } D := ⟨hs.data, hs.len⟩
    have hD' : D = (pre ++ [']']) ++ '[' :: r := by rw [hD]; simp
    have hil := inlineLink_none (E := E) hs' hD' (by simp [hp]) (by decide)
    have hlab := linkLabel_fails hs' hD' (by simp [hp]) h1 h2
    rw [hb] at hil hlab
    simp only [hb, hact, Bool.not_true, Bool.false_eq_true, if_false, hil, bind, Except.bind, hlab, reduceCtorEq]

theorem inlinesLoop_loose {E : Env} (n : Nat) : ∀ (ps : List Piece) (pre D : Str) (s : Subj) (f : Nat), ps.length ≤ n → On s D → (∀ t, s.data = D ++ t → '>' ∉ t) →
    D = pre ++ text ps → s.pos = pre.length → Unflagged s → D.length - s.pos < f → (∀ b ∈ s.brackets, b.active = true) →
    (∀ x p y, ps = x ++ p :: y → p.Ok E.isPCat (pre ++ text x) (text y) ∨ (p = .char ']' ∧ (text y).head? ≠ some '(')) →
    (RefersFrom s.brackets.length ps → inlinesLoop E f s = .error .KeyError) ∧ (¬ RefersFrom s.brackets.length ps → ∃ s', inlinesLoop E f s = .ok s') := by
  induction n with
  | zero =>
    intro ps pre D s f hn hs hgt hD hp hsc hf hact hok
    have : ps = [] := by simpa using hn
    subst this
    cases f with
    | zero => omega
    | succ f =>
      refine ⟨fun ⟨x, y, e, _⟩ => by simp at e, fun _ => ⟨s, ?_⟩⟩
      unfold inlinesLoop
      rw [hs.peek_end (by rw [hp, hD]; simp [text])]
  | succ n ih =>
    intro ps pre D s f hn hs hgt hD hp hsc hf hact hok
    obtain ⟨u, rest, rfl, hu, hrest⟩ := plain_stretch ps
    rw [text_append, text_chars] at hD
    have hy : ∀ c ∈ (text rest).head?, isSpecial c = true := by
      intro c hc
      cases rest with
      | nil => simp [text] at hc
      | cons p rest =>
        have : ∃ d, p.text.head? = some d ∧ isSpecial d = true := by
          rcases hok (u.map .char) p rest rfl with h | ⟨rfl, -⟩
          · exact special_head (hrest p rfl) h
          · exact ⟨']', rfl, rfl⟩
        obtain ⟨d, h1, h2⟩ := this
        rw [text_cons, List.head?_append, h1] at hc
        injection hc with hc
        rwa [← hc]
    obtain ⟨f1, e1, g1⟩ := inlinesLoop_plain (E := E) hy u.length u pre D s f (Nat.le_refl _) hu hs (by rw [hD]; simp) hp hf
    rw [e1, refers_chars hu]
    have hs1 : On { s with pos := pre.length + u.length } D := hs.pos _
    cases f1 with
    | zero => omega
    | succ f1 =>
      cases rest with
      | nil =>
        refine ⟨fun ⟨x, y, e, _⟩ => by simp at e, fun _ => ⟨{ s with pos := pre.length + u.length }, ?_⟩⟩
        unfold inlinesLoop
        rw [hs1.peek_end (by rw [hD]; simp [text])]
      | cons p rest =>
        have hpos := text_pos p
        have hnext : ∀ x q y, rest = x ++ q :: y → q.Ok E.isPCat (pre ++ u ++ p.text ++ text x) (text y) ∨ (q = .char ']' ∧ (text y).head? ≠ some '(') := by
          intro x q y e
          have := hok (u.map .char ++ p :: x) q y (by rw [e]; simp)
          rw [text_append, text_chars, text_cons] at this
          rw [show pre ++ u ++ p.text ++ text x = pre ++ (u ++ (p.text ++ text x)) by simp]
          exact this
        have hDp : D = pre ++ u ++ p.text ++ text rest := by rw [hD, text_cons]; simp
        have hDl : D.length = pre.length + (u.length + (p.text.length + (text rest).length)) := by rw [hDp]; simp [Nat.add_assoc]
        by_cases hbad : p = .char ']' ∧ ¬ NoLabel (text rest)
        · obtain ⟨rfl, hl⟩ := hbad
          have hD2 : D = (pre ++ u) ++ ']' :: text rest := by rw [hDp]; simp [Piece.text]
          have hstep := close_label (E := E) hs1 hD2 (by simp) hact hl
          have hpk : peek { s with pos := pre.length + u.length } = some ']' := hs1.peek hD2 (by simp)
          rw [refers_cons]
          by_cases hb : s.brackets = []
          · rw [show ({ s with pos := pre.length + u.length } : Subj).brackets = s.brackets from rfl, if_pos hb] at hstep
            have hloop : inlinesLoop E (f1 + 1) { s with pos := pre.length + u.length } = inlinesLoop E f1 { s with pos := pre.length + u.length + 1 } := by
              conv_lhs => unfold inlinesLoop
              rw [hpk]
              simp only [hstep, bind, Except.bind]
            have hx := ih rest (pre ++ u ++ [']']) D { s with pos := pre.length + u.length + 1 } f1 (by simp at hn; omega) (hs.pos _) hgt (by rw [hD2]; simp) (by simp [Nat.add_assoc])
              hsc (by simp [Piece.text] at hDl; show D.length - (pre.length + u.length + 1) < f1; omega) hact hnext
            rw [hloop]
            have hk : openAfter s.brackets.length [.char ']'] = s.brackets.length := by rw [hb]; rfl
            rw [hk]
            refine ⟨?_, ?_⟩
            · rintro (⟨-, h, -⟩ | h)
              · rw [hb] at h; simp at h
              · exact hx.1 h
            · intro h
              exact hx.2 (fun h' => h (.inr h'))
          · rw [show ({ s with pos := pre.length + u.length } : Subj).brackets = s.brackets from rfl, if_neg hb] at hstep
            have hloop : inlinesLoop E (f1 + 1) { s with pos := pre.length + u.length } = .error .KeyError := by
              conv_lhs => unfold inlinesLoop
              rw [hpk]
              simp only [hstep, bind, Except.bind]
            refine ⟨fun _ => hloop, fun h => absurd (.inl ⟨rfl, ?_, hl⟩) h⟩
            exact List.length_pos_of_ne_nil hb
        · have hok1 : p.Ok E.isPCat (pre ++ u) (text rest) := by
            rcases hok (u.map .char) p rest rfl with h | ⟨rfl, h⟩
            · rwa [text_chars] at h
            · refine .inr (.inr (.inr (.inr ⟨rfl, h, ?_⟩)))
              by_contra hl
              exact hbad ⟨rfl, hl⟩
          obtain ⟨w, y', c, s1, hy', hw, h1, h2, h3, h4, h5, h6, h7, h8, h9, h10⟩ := steps_piece (E := E) (pre := pre ++ u) hs1 hDp (by simp) hsc hgt (hrest p rfl) hok1
          simp only at h4 h5 h6 h7 h8 h9
          obtain ⟨qs, rfl, -⟩ := chars_of_text_loose (punct := E.isPCat) w y' rest (pre ++ u ++ p.text) hy' hw (fun x q y e => (hnext x q y e).imp_right And.left)
          have hDl : D.length = pre.length + (u.length + (p.text.length + (w.length + (text qs).length))) := by rw [hDl, text_append, text_chars]; simp
          obtain ⟨b1, b2⟩ := pieceBrackets_open (s := { s with pos := pre.length + u.length }) (p := p) hact
          rw [← h10] at b1 b2
          have hx := ih qs (pre ++ u ++ p.text ++ w) D s1 f1 (by simp at hn; omega) ⟨by rw [h4]; exact hs.data, by rw [h5]; exact hs.len⟩ (by rw [h4]; exact hgt)
            (by rw [hDp, text_append, text_chars]; simp) (by rw [h6]; simp; omega) (h8 hsc) (by rw [h6]; omega) b1
            (by
              intro x q y e
              have := hnext (w.map .char ++ x) q y (by rw [e]; simp)
              rwa [text_append, text_chars, ← List.append_assoc] at this)
          have hloop : inlinesLoop E (f1 + 1) { s with pos := pre.length + u.length } = inlinesLoop E f1 s1 := by
            conv_lhs => unfold inlinesLoop
            rw [h2]
            simp only [h3, bind, Except.bind]
          have hiff : RefersFrom s.brackets.length (p :: (w.map .char ++ qs)) ↔ RefersFrom s1.brackets.length qs := by
            rw [refers_cons, refers_chars hw, b2]
            constructor
            · rintro (⟨h, -, h'⟩ | h)
              · exact absurd ⟨h, h'⟩ hbad
              · exact h
            · exact .inr
          rw [hloop, hiff]
          exact hx

theorem noLabel_trim_iff {u tail : Str} (ht : ∀ c ∈ tail, isSpace c = true) : NoLabel (u ++ tail) ↔ NoLabel u := by
  have hh : ∀ c, tail.head? = some c → c ≠ '[' ∧ c ≠ ']' := by
    intro c hc
    have := ht c (List.mem_of_mem_head? hc)
    constructor <;> rintro rfl <;> revert this <;> decide
  unfold NoLabel
  cases u with
  | nil =>
    refine iff_of_true (.inl ?_) (.inl (by simp))
    intro h
    exact (hh _ h).1 rfl
  | cons c u =>
    cases u with
    | nil =>
      cases tail with
      | nil => simp
      | cons d tail =>
        obtain ⟨h1, h2⟩ := hh d rfl
        simp [h1, h2]
    | cons d u => simp

theorem refers_trim {ps : List Piece} {tail : Str} (ht : ∀ c ∈ tail, isSpace c = true) {k : Nat} : RefersFrom k (ps ++ tail.map .char) ↔ RefersFrom k ps := by
  constructor
  · rintro ⟨x, y, e, h1, h2⟩
    rcases List.append_eq_append_iff.mp e with ⟨v, e1, e2⟩ | ⟨v, e1, e2⟩
    · exfalso
      have : Piece.char ']' ∈ tail.map .char := by rw [e2]; simp
      obtain ⟨c, hc, hcc⟩ := List.mem_map.mp this
      injection hcc with hcc
      have := ht c hc
      rw [hcc] at this
      revert this
      decide
    · cases v with
      | nil =>
        exfalso
        have : Piece.char ']' ∈ tail.map .char := by rw [List.nil_append] at e2; rw [← e2]; simp
        obtain ⟨c, hc, hcc⟩ := List.mem_map.mp this
        injection hcc with hcc
        have := ht c hc
        rw [hcc] at this
        revert this
        decide
      | cons q v =>
        injection e2 with e3 e4
        subst e3
        refine ⟨x, v, e1, h1, ?_⟩
        have e4 : y = v ++ tail.map .char := e4
        rwa [e4, text_append, text_chars, noLabel_trim_iff ht] at h2
  · rintro ⟨x, y, rfl, h1, h2⟩
    refine ⟨x, y ++ tail.map .char, by simp, h1, ?_⟩
    rwa [text_append, text_chars, noLabel_trim_iff ht]

/-- Exactly the texts with a reference link raise the exception. -/
theorem parseInlines_loose {E : Env} {ps : List Piece} (h : PlacedLoose E.isPCat ps) :
    (RefersFrom 0 ps → parseInlines E (text ps) = .error .KeyError) ∧ (¬ RefersFrom 0 ps → ∃ rs, parseInlines E (text ps) = .ok rs) := by
  obtain ⟨tail, hs, htail⟩ := rtrim_split (text ps)
  have hle : rtrimLen (text ps) ≤ (text ps).length := by
    unfold rtrimLen
    exact (rstrip_prefix isSpace (text ps)).length_le
  have hlen : ((text ps).take (rtrimLen (text ps))).length = rtrimLen (text ps) := by
    rw [List.length_take]
    omega
  obtain ⟨ps', e1, e2⟩ := pieces_trim tail.length tail _ ps (Nat.le_refl _) hs htail (by
    intro p hp
    obtain ⟨x, y, e⟩ := List.append_of_mem hp
    rcases h x p y e with h | ⟨rfl, -⟩
    · exact solid_of h
    · exact .inl ⟨']', rfl⟩)
  have hloop := inlinesLoop_loose (E := E) ps'.length ps' [] ((text ps).take (rtrimLen (text ps))) (initSubj (text ps)) ((text ps).length + 1) (Nat.le_refl _)
    ⟨⟨tail, hs⟩, hlen.symm⟩
    (by
      intro t ht hgt
      have ht : text ps = (text ps).take (rtrimLen (text ps)) ++ t := ht
      have : t = tail := List.append_cancel_left (ht.symm.trans hs)
      subst this
      have := htail _ hgt
      revert this
      decide)
    (by rw [e2]; rfl) rfl ⟨rfl, rfl, rfl, rfl⟩ (by rw [hlen]; omega) (by simp [initSubj])
    (by
      intro x p y e
      have := h x p (y ++ tail.map .char) (by rw [e1, e]; simp)
      rw [text_append, text_chars] at this
      rw [List.nil_append]
      exact this.imp (Ok_trim htail) (fun h => ⟨h.1, head_trim h.2⟩))
  rw [show (initSubj (text ps)).brackets.length = 0 from rfl] at hloop
  have hiff : RefersFrom 0 ps ↔ RefersFrom 0 ps' := by
    conv_lhs => rw [e1]
    exact refers_trim htail
  rw [hiff]
  refine ⟨fun hr => ?_, fun hr => ?_⟩
  · unfold parseInlines
    simp only [bind, Except.bind, hloop.1 hr]
  · obtain ⟨s', hs'⟩ := hloop.2 hr
    obtain ⟨q, hq⟩ := processEmphasis_total (inlinesLoop_ok _ (initSubj_ok (text ps)) hs').1 none
    unfold parseInlines
    simp only [bind, Except.bind, hs', hq]
    exact ⟨_, rfl⟩

/-- A text of such pieces has no zero. -/
theorem loose_nul {punct : Char → Bool} {ps : List Piece} (h : PlacedLoose punct ps) : (text ps).filter (· != '\x00') = text ps := by
  rw [List.filter_eq_self]
  intro c hc
  simp only [bne_iff_ne, ne_eq]
  rintro rfl
  obtain ⟨q, hq, hc⟩ := List.mem_flatMap.mp hc
  obtain ⟨x, y, e⟩ := List.append_of_mem hq
  rcases h x q y e with h | ⟨rfl, -⟩
  · exact placed_nul_piece h hc
  · simp [Piece.text] at hc

end MdToc.Cmark
