import Verif.Spec.Linked
import Verif.Lemmas.EmphScan
import Verif.Lemmas.EmphSafe

/-!
# The inline parser on a sequence of pieces and links
-/

set_option linter.unusedSimpArgs false

namespace MdToc.Cmark

open Spec

/-! ### Destinations -/

theorem put_mem {b : Buf} {t : Str} {n : Nat} : ∀ c ∈ (b.put t n).ptr, c ∈ b.ptr ∨ c ∈ t := by
  intro c hc
  unfold Buf.put at hc
  split at hc
  · exact .inl hc
  · simp only [List.mem_append] at hc
    rcases hc with (hc | hc) | hc
    · exact .inl (List.mem_of_mem_take hc)
    · exact .inr (List.mem_of_mem_take hc)
    · exact .inl (List.mem_of_mem_drop hc)

theorem unescapeHtml_noref {E : Env} : ∀ (f : Nat) (src : Str) (b : Buf), src.length < f → ';' ∉ src →
    ∃ b', unescapeHtml E f src b = .ok b' ∧ ∀ c ∈ b'.ptr, c ∈ b.ptr ∨ c ∈ src ∨ c = '&' := by
  intro f
  induction f with
  | zero => intro src b h; omega
  | succ f ih =>
    intro src b hf hs
    unfold unescapeHtml
    simp only
    have htw : ∀ c ∈ src.takeWhile (· != '&'), c ∈ src := fun c hc => (List.takeWhile_sublist _).subset hc
    cases hd : src.dropWhile (· != '&') with
    | nil =>
      refine ⟨_, rfl, ?_⟩
      intro c hc
      rcases put_mem c hc with h | h
      · exact .inl h
      · exact .inr (.inl (htw c h))
    | cons a t =>
      have hsub : (a :: t).Sublist src := hd ▸ List.dropWhile_sublist _
      have ht : ∀ c ∈ t, c ∈ src := fun c hc => hsub.subset (by simp [hc])
      simp only [unescapeEnt_none (fun h => hs (ht _ h)), bind, Except.bind, List.drop_zero, if_true]
      obtain ⟨b', h1, h2⟩ := ih t ((b.put (src.takeWhile (· != '&')) (src.takeWhile (· != '&')).length).putc '&') (by have := hsub.length_le; simp at this; omega) (fun h => hs (ht _ h))
      refine ⟨b', h1, ?_⟩
      intro c hc
      rcases h2 c hc with h | h | h
      · simp only [Buf.putc, List.mem_append, List.mem_singleton] at h
        rcases h with h | h
        · rcases put_mem c h with h | h
          · exact .inl h
          · exact .inr (.inl (htw c h))
        · exact .inr (.inr h)
      · exact .inr (.inl (ht c h))
      · exact .inr (.inr h)

theorem clean_ok {E : Env} {u : Str} (h1 : '\\' ∉ u) (h2 : '&' ∈ u → ';' ∉ u) :
    ∃ b, unescapeHtml E (u.length + 1) u ⟨[], 0⟩ = .ok b ∧ strbufUnescape b.ptr = .ok () := by
  have key : ∃ b, unescapeHtml E (u.length + 1) u ⟨[], 0⟩ = .ok b ∧ ∀ c ∈ b.ptr, c ∈ u ∨ c = '&' := by
    by_cases h3 : '&' ∈ u
    · obtain ⟨b, e1, e2⟩ := unescapeHtml_noref (E := E) (u.length + 1) u ⟨[], 0⟩ (by omega) (h2 h3)
      exact ⟨b, e1, fun c hc => (e2 c hc).elim (fun h => by simp at h) id⟩
    · have hp : ∀ c ∈ u, (c != '&') = true := by
        intro c hc
        simp only [bne_iff_ne, ne_eq]
        rintro rfl
        exact h3 hc
      unfold unescapeHtml
      simp only [dropWhile_eq_nil hp, takeWhile_eq_self hp]
      refine ⟨_, rfl, fun c hc => ?_⟩
      rcases put_mem c hc with h | h
      · simp at h
      · exact .inl h
  obtain ⟨b, e1, e2⟩ := key
  obtain ⟨x, hx⟩ := strbufUnescape_total b.ptr (by
    intro hb
    rcases e2 _ hb with h | h
    · exact h1 h
    · revert h; decide)
  exact ⟨b, e1, hx⟩

theorem cleanUrl_dest {E : Env} {u : Str} (h1 : '\\' ∉ u) (h2 : '&' ∈ u → ';' ∉ u) : cleanUrl E u = .ok () := by
  have hs : ∀ c ∈ chunkTrim u, c ∈ u := fun c hc => (strip_sublist _ _).subset hc
  obtain ⟨b, e1, e2⟩ := clean_ok (E := E) (u := chunkTrim u) (fun h => h1 (hs _ h)) (fun ha h => h2 (hs _ ha) (hs _ h))
  unfold cleanUrl
  simp only [e1, bind, Except.bind, e2]

theorem linkUrl2_dest : ∀ (u v : Str) (e : Char) (nb n : Nat), (∀ c ∈ u, 33 ≤ c.toNat ∧ ¬ UniSpace c ∧ c ≠ '\\') → parens nb u = some 0 →
    (e = ')' ∨ (isSpace e = true ∧ e ≠ '(' ∧ e ≠ '\\' ∧ 0 < n + u.length)) → linkUrl2 (u ++ e :: v) nb n = some (n + u.length) := by
  intro u
  induction u with
  | nil =>
    intro v e nb n _ h he
    simp [parens] at h
    subst h
    rcases he with rfl | ⟨h1, h2, h3, h4⟩
    · cases v <;> simp [linkUrl2]
    · have h5 : n ≠ 0 := by simpa [Nat.pos_iff_ne_zero] using h4
      have h6 : e ≠ ')' := by rintro rfl; revert h1; decide
      cases v <;> simp [linkUrl2, h1, h2, h3, h5, h6]
  | cons c u ih =>
    intro v e nb n h hp he
    obtain ⟨h1, h2, h3⟩ := h c (by simp)
    have hsp : isSpace c = false := by
      rw [← Bool.not_eq_true, space_iff]
      exact h2
    have hu : ∀ c ∈ u, 33 ≤ c.toNat ∧ ¬ UniSpace c ∧ c ≠ '\\' := fun d hd => h d (by simp [hd])
    have he' : e = ')' ∨ (isSpace e = true ∧ e ≠ '(' ∧ e ≠ '\\' ∧ 0 < n + 1 + u.length) := he.imp_right (fun q => ⟨q.1, q.2.1, q.2.2.1, by omega⟩)
    cases hq : u ++ e :: v with
    | nil => simp at hq
    | cons d t =>
      rw [List.cons_append, hq]
      unfold linkUrl2
      simp only
      rw [if_neg (by simp [h3])]
      unfold parens at hp
      by_cases hc : c = '('
      · rw [if_pos hc] at hp ⊢
        split at hp
        · rw [if_neg (by omega), ← hq, ih v e _ _ hu hp he']
          simp; omega
        · simp at hp
      · rw [if_neg hc] at hp ⊢
        by_cases hc2 : c = ')'
        · rw [if_pos hc2] at hp ⊢
          split at hp
          · simp at hp
          · rename_i hnb
            rw [if_neg hnb, ← hq, ih v e _ _ hu hp he']
            simp; omega
        · rw [if_neg hc2] at hp ⊢
          rw [if_neg (by simp [hsp]), ← hq, ih v e _ _ hu hp he']
          simp; omega

theorem pointyUrl_run : ∀ (b v : Str) (n : Nat), (∀ c ∈ b, c ≠ '<' ∧ c ≠ '>' ∧ c ≠ '\\' ∧ c ≠ '\n' ∧ c ≠ '\x00') → v ≠ [] → pointyUrl (b ++ '>' :: v) n = some (n + b.length + 1) := by
  intro b
  induction b with
  | nil =>
    intro v n _ hv
    rw [List.nil_append]
    unfold pointyUrl
    rw [if_pos rfl, if_neg hv]
    simp
  | cons c b ih =>
    intro v n h hv
    obtain ⟨h1, h2, h3, h4, -⟩ := h c (by simp)
    rw [List.cons_append]
    unfold pointyUrl
    rw [if_neg h2, if_neg h3, if_neg (by simp [h1, h4]), ih v _ (fun d hd => h d (by simp [hd])) hv]
    simp; omega

theorem scanSpacechars_blanks {E : Env} {s : Subj} {k : Nat} {w z : Str} {c : Char} (hk : k ≤ s.len) (hd : s.data.drop k = w ++ c :: z) (hw : Blanks w) (hc : 33 ≤ c.toNat) :
    scanSpacechars E s k = w.length := by
  by_cases h0 : w = []
  · subst h0
    exact scanSpacechars_zero hd hc
  · refine scanAt_eq hk hd ?_
    have hcls : Re.Is E.isWord Rx.spacechar (fun x => ∃ c, x = [c] ∧ (c == ' ' || c == '\t' || c == '\x0b' || c == '\x0c' || c == '\r' || c == '\n') = true) := Re.is_cls _
    have hnc : ∀ x t, c :: z = x ++ t → ¬ ∃ c, x = [c] ∧ (c == ' ' || c == '\t' || c == '\x0b' || c == '\x0c' || c == '\r' || c == '\n') = true := by
      rintro x t e ⟨d, rfl, hd⟩
      injection e with e1 e2
      subst e1
      simp only [Bool.or_eq_true, beq_iff_eq] at hd
      rcases hd with ((((rfl | rfl) | rfl) | rfl) | rfl) | rfl <;> exact absurd hc (by decide)
    refine Re.tokens_plus (hcls.shorter (by simp)) (hcls.tokens ?_ ?_ hnc) h0
    · intro u v e hv
      cases v with
      | nil => exact absurd rfl hv
      | cons d v =>
        refine ⟨[d], v ++ c :: z, rfl, d, rfl, ?_⟩
        rcases hw d (by rw [e]; simp) with rfl | rfl <;> decide
    · rintro u v x t e hv e' ⟨d, rfl, -⟩
      cases v with
      | nil => exact absurd rfl hv
      | cons d v => simp

/-! ### Titles -/

theorem is_escaped {w : Char → Bool} : Re.Is w Rx.escapedChar (fun x => x = "}~-]".toList) := by
  intro p s s'
  constructor
  · rintro ⟨p', h⟩
    rcases h with ⟨p1, s1, h1, p2, s2, h2, -⟩ | h
    · obtain ⟨c, -, -, hp⟩ := h1
      obtain ⟨h3, -⟩ := h2
      rw [hp] at h3
      cases h3
    · exact (Re.is_lit _ p s s').mp ⟨p', h⟩
  · intro h
    obtain ⟨p', h'⟩ := (Re.is_lit _ p s s').mpr h
    exact ⟨p', .inr h'⟩

/-- The texts a title can have in between, if it must not contain some characters. -/
theorem is_titleBody {w : Char → Bool} (f : Char → Bool) (h : ∀ c ∈ "}~-]".toList, f c = true) :
    Re.Is w (.star (.alt Rx.escapedChar (.cls f))) (fun x => ∀ c ∈ x, f c = true) :=
  (Re.is_star (Re.is_alt is_escaped (Re.is_cls f))).congr (fun x => by
    constructor
    · intro hm
      induction hm with
      | nil => simp
      | cons hx _ ih =>
        intro c hc
        rw [List.mem_append] at hc
        rcases hc with hc | hc
        · rcases hx with rfl | ⟨d, rfl, hd⟩
          · exact h c hc
          · rw [List.mem_singleton.mp hc]; exact hd
        · exact ih c hc
    · intro hx
      induction x with
      | nil => exact .nil
      | cons c x ih => exact .cons (x := [c]) (.inr ⟨c, rfl, hx c (by simp)⟩) (ih (fun d hd => hx d (by simp [hd]))))

theorem is_quotedTitle {w : Char → Bool} (q e : Char) (f : Char → Bool) (h : ∀ c ∈ "}~-]".toList, f c = true) :
    Re.Is w (Re.seqs [Re.chr q, .star (.alt Rx.escapedChar (.cls f)), Re.chr e]) (fun x => ∃ b, x = q :: (b ++ [e]) ∧ ∀ c ∈ b, f c = true) :=
  (Re.is_seq (Re.is_chr q) (Re.is_seq (is_titleBody f h) (Re.is_chr e))).congr (fun x => by
    constructor
    · rintro ⟨_, _, rfl, rfl, b, _, rfl, hb, rfl⟩
      exact ⟨b, rfl, hb⟩
    · rintro ⟨b, rfl, hb⟩
      exact ⟨[q], b ++ [e], rfl, rfl, b, [e], rfl, hb, rfl⟩)

theorem is_linkTitle {w : Char → Bool} : Re.Is w Rx.linkTitle (fun x => (∃ b, x = '"' :: (b ++ ['"']) ∧ ∀ c ∈ b, (!(c == '"' || c == '\x00')) = true) ∨
    (∃ b, x = '\'' :: (b ++ ['\'']) ∧ ∀ c ∈ b, (!(c == '\'' || c == '\x00')) = true) ∨ ∃ b, x = '(' :: (b ++ ['\'']) ∧ ∀ c ∈ b, (!(c == '(' || c == ')' || c == '\x00')) = true) :=
  Re.is_alt (is_quotedTitle '"' '"' (fun c => !(c == '"' || c == '\x00')) (by decide))
    (Re.is_alt (is_quotedTitle '\'' '\'' (fun c => !(c == '\'' || c == '\x00')) (by decide))
      (is_quotedTitle '(' '\'' (fun c => !(c == '(' || c == ')' || c == '\x00')) (by decide)))

theorem linkTitle_rest {w : Char → Bool} {t : Str} (ht : Title t) (y : Str) : Rx.linkTitle.matchRest w (t ++ y) = some y := by
  have hL := is_linkTitle (w := w)
  obtain ⟨q, b, rfl, hq, hb, -⟩ := ht
  have hbq : q ∉ b := fun h => (hb q h).1 rfl
  cases hm : Rx.linkTitle.matchRest w (q :: (b ++ [q]) ++ y) with
  | none =>
    exfalso
    have hx : ∃ p', Re.Lang w Rx.linkTitle none (q :: (b ++ [q]) ++ y) p' y := by
      refine (hL none (q :: (b ++ [q]) ++ y) y).mpr ⟨_, rfl, ?_⟩
      rcases hq with rfl | rfl
      · exact .inl ⟨b, rfl, fun c hc => by simp [(hb c hc).1, (hb c hc).2.2]⟩
      · exact .inr (.inl ⟨b, rfl, fun c hc => by simp [(hb c hc).1, (hb c hc).2.2]⟩)
    obtain ⟨p', hx⟩ := hx
    have := (Re.matchRest_isSome_iff w Rx.linkTitle _).mpr ⟨p', y, hx⟩
    rw [hm] at this
    cases this
  | some z =>
    obtain ⟨p', hp⟩ := Re.matchRest_some hm
    obtain ⟨x', e, hx'⟩ := (hL _ _ _).mp ⟨p', hp⟩
    have key : ∀ b', x' = q :: (b' ++ [q]) → q ∉ b' → some z = some y := by
      rintro b' rfl hb'
      simp only [List.cons_append, List.append_assoc, List.nil_append, List.cons.injEq, true_and] at e
      have h1 := Re.run_before e hb'
      have h2 := Re.run_before e.symm hbq
      have := (List.append_inj e (by omega)).2
      injection this with _ this
      exact congrArg some this.symm
    rcases hx' with ⟨b', rfl, hb'⟩ | ⟨b', rfl, hb'⟩ | ⟨b', rfl, hb'⟩
    · injection e with e1 e2
      subst e1
      exact key b' rfl (fun h => by simpa using hb' _ h)
    · injection e with e1 e2
      subst e1
      exact key b' rfl (fun h => by simpa using hb' _ h)
    · injection e with e1 e2
      subst e1
      rcases hq with h | h <;> exact absurd h (by decide)

theorem cleanTitle_ok {E : Env} {t : Str} (ht : Title t) : cleanTitle E t = .ok () := by
  obtain ⟨q, b, rfl, hq, hb, ha⟩ := ht
  unfold cleanTitle
  have hl : (q :: (b ++ [q])).getLast? = some q := by rw [List.getLast?_cons_of_ne_nil (by simp)]; simp
  have hc : (q = '\'' ∧ (q :: (b ++ [q])).getLast? = some '\'') ∨ (q = '(' ∧ (q :: (b ++ [q])).getLast? = some ')') ∨
        (q = '"' ∧ (q :: (b ++ [q])).getLast? = some '"') := by
    rw [hl]
    rcases hq with rfl | rfl <;> simp
  simp only
  rw [if_pos hc, List.dropLast_concat]
  obtain ⟨x, h1, h2⟩ := clean_ok (E := E) (u := b) (fun h => (hb _ h).2.1 rfl) ha
  rw [h1]
  exact h2

/-- What stands between the parentheses is read to its end. -/
theorem inlineLink_target {E : Env} {s : Subj} {D pre d y : Str} (hs : On s D) (hD : D = pre ++ '(' :: (d ++ ')' :: y)) (hp : s.pos = pre.length) (hd : Target d) :
    inlineLink E s = .ok (some (s.pos + 1 + d.length + 1)) := by
  obtain ⟨w, u, r, rfl, hw, hu, hur, hr⟩ := hd
  obtain ⟨t, ht⟩ := hs.data
  unfold inlineLink
  rw [if_pos (hs.peek hD hp)]
  have hlen := congrArg List.length hD
  simp only [List.length_append, List.length_cons, ← hs.len, ← hp] at hlen
  have hd0 : s.data.drop (s.pos + 1) = w ++ (u ++ (r ++ ')' :: (y ++ t))) := by
    rw [ht, hD, hp, show pre ++ '(' :: (w ++ (u ++ r) ++ ')' :: y) ++ t = (pre ++ ['(']) ++ (w ++ (u ++ (r ++ ')' :: (y ++ t)))) by simp, show pre.length + 1 = (pre ++ ['(']).length by simp, List.drop_left]
  have hd1 : s.data.drop (s.pos + 1 + w.length) = u ++ (r ++ ')' :: (y ++ t)) := by
    rw [← List.drop_drop, hd0, List.drop_left]
  have hd2 : s.data.drop (s.pos + 1 + w.length + u.length) = r ++ ')' :: (y ++ t) := by
    rw [← List.drop_drop, hd1, List.drop_left]
  have hd3 : s.data.drop (s.pos + 1 + w.length + u.length + r.length) = ')' :: (y ++ t) := by
    rw [← List.drop_drop, hd2, List.drop_left]
  have hget : s.data[s.pos + 1 + w.length + u.length + r.length]? = some ')' := by
    have := congrArg (fun l => l[0]?) hd3
    simpa [List.getElem?_drop] using this
  have h1 : scanSpacechars E s (s.pos + 1) = w.length := by
    cases u with
    | nil =>
      rw [hur rfl] at hd0
      exact scanSpacechars_blanks (by omega) hd0 hw (by decide)
    | cons c u =>
      refine scanSpacechars_blanks (by omega) hd0 hw ?_
      rcases hu with hu | ⟨b, hb, -⟩
      · exact (hu.1 c (by simp)).1
      · injection hb with hb _
        rw [hb]; decide
  have h2 : ∃ url, linkUrl s (s.pos + 1 + w.length) = some (u.length, url) ∧ cleanUrl E url = .ok () := by
    have hr' : restFrom s (s.pos + 1 + w.length) = u ++ (r ++ ')' :: y) := by
      rw [hs.rest, hD, hp, show pre ++ '(' :: (w ++ (u ++ r) ++ ')' :: y) = (pre ++ '(' :: w) ++ (u ++ (r ++ ')' :: y)) by simp, show pre.length + 1 + w.length = (pre ++ '(' :: w).length by simp; omega, List.drop_left]
    unfold linkUrl
    rw [hr']
    rcases hu with ⟨hu1, hu2, hu3, hu4⟩ | ⟨b, rfl, hb, ha⟩
    · refine ⟨u, ?_, cleanUrl_dest (fun h => (hu1 _ h).2.2 rfl) hu3⟩
      split
      · rename_i t ht
        exfalso
        cases u with
        | nil => rw [hur rfl] at ht; simp at ht
        | cons c u =>
          simp at ht
          rw [ht.1] at hu2
          exact absurd rfl hu2
      · cases r with
        | nil =>
          rw [List.nil_append, linkUrl2_dest u _ _ 0 0 hu1 hu4 (.inl rfl)]
          simp
        | cons e r =>
          have he : e = ' ' ∨ e = '\t' := by
            rcases hr with hr | ⟨w2, t2, w3, hr, h0, hw2, -⟩
            · exact hr e (by simp)
            · cases w2 with
              | nil => exact absurd rfl h0
              | cons c w2 =>
                injection hr with hr _
                rw [hr]
                exact hw2 c (by simp)
          have hu0 : u ≠ [] := fun h => by simpa using hur h
          rw [List.cons_append, linkUrl2_dest u _ _ 0 0 hu1 hu4 (.inr ⟨by rcases he with rfl | rfl <;> decide, by rcases he with rfl | rfl <;> decide, by rcases he with rfl | rfl <;> decide, by
            have := List.length_pos_iff.mpr hu0
            omega⟩)]
          simp
    · refine ⟨b, ?_, cleanUrl_dest (fun h => (hb _ h).2.2.1 rfl) ha⟩
      simp only [List.cons_append, List.append_assoc, List.nil_append]
      rw [pointyUrl_run b _ 1 hb (by simp)]
      simp only [Option.map_some, List.length_cons, List.length_append, List.length_nil, Option.some.injEq, Prod.mk.injEq]
      refine ⟨by omega, ?_⟩
      rw [show 1 + b.length + 1 - 2 = b.length by omega, List.take_left]
  obtain ⟨url, h2, h3⟩ := h2
  simp only [h1, h2]
  rcases hr with hr | ⟨w2, t2, w3, rfl, hw0, hw2, ht2, hw3⟩
  · have h4 : scanSpacechars E s (s.pos + 1 + w.length + u.length) = r.length := scanSpacechars_blanks (by omega) hd2 hr (by decide)
    have h5 : scanAt E Rx.linkTitle s (s.pos + 1 + w.length + u.length + r.length) = 0 := by
      refine scanAt_zero ?_
      rw [hd3]
      refine Re.matchRest_nothing is_linkTitle ?_
      rintro x y' e (⟨b, rfl, -⟩ | ⟨b, rfl, -⟩ | ⟨b, rfl, -⟩) <;> (injection e with e _; exact absurd e (by decide))
    have h6 : scanSpacechars E s (s.pos + 1 + w.length + u.length + r.length) = 0 := scanSpacechars_zero hd3 (by decide)
    rw [h4, h5]
    simp only [Nat.add_zero, ite_self, h6, hget, if_true, h3, bind, Except.bind, Nat.sub_self, List.take_zero, cleanTitle]
    simp only [List.length_append, Nat.add_assoc]
  · have hd4 : s.data.drop (s.pos + 1 + w.length + u.length) = w2 ++ (t2 ++ (w3 ++ ')' :: (y ++ t))) := by rw [hd2]; simp
    have hd5 : s.data.drop (s.pos + 1 + w.length + u.length + w2.length) = t2 ++ (w3 ++ ')' :: (y ++ t)) := by
      rw [← List.drop_drop, hd4, List.drop_left]
    have hd6 : s.data.drop (s.pos + 1 + w.length + u.length + w2.length + t2.length) = w3 ++ ')' :: (y ++ t) := by
      rw [← List.drop_drop, hd5, List.drop_left]
    simp only [List.length_append] at hlen hget
    have h4 : scanSpacechars E s (s.pos + 1 + w.length + u.length) = w2.length := by
      obtain ⟨q, b, e, hq, -⟩ := ht2
      rw [e] at hd4
      exact scanSpacechars_blanks (by omega) hd4 hw2 (by rcases hq with rfl | rfl <;> decide)
    have h5 : scanAt E Rx.linkTitle s (s.pos + 1 + w.length + u.length + w2.length) = t2.length := scanAt_eq (by omega) hd5 (linkTitle_rest ht2 _)
    have h6 : scanSpacechars E s (s.pos + 1 + w.length + u.length + w2.length + t2.length) = w3.length := scanSpacechars_blanks (by omega) hd6 hw3 (by decide)
    have h7 : w2.length ≠ 0 := by simpa using hw0
    rw [h4, h5, if_neg (by omega)]
    simp only [h6]
    rw [show s.pos + 1 + w.length + u.length + w2.length + t2.length + w3.length = s.pos + 1 + w.length + u.length + (w2.length + (t2.length + w3.length)) by omega, hget]
    simp only [if_true, h3, bind, Except.bind]
    rw [Nat.add_sub_cancel_left, hd5, List.take_left, cleanTitle_ok ht2]
    simp only [List.length_append, Nat.add_assoc]

theorem target_nul {d : Str} (h : Target d) : '\x00' ∉ d := by
  obtain ⟨w, u, r, rfl, hw, hu, -, hr⟩ := h
  have hbl : ∀ {w : Str}, Blanks w → '\x00' ∉ w := fun hw h => by rcases hw _ h with h | h <;> exact absurd h (by decide)
  simp only [List.mem_append, not_or]
  refine ⟨hbl hw, ?_, ?_⟩
  · rcases hu with hu | ⟨b, rfl, hb, -⟩
    · intro h
      exact absurd (hu.1 _ h).1 (by decide)
    · simp only [List.mem_cons, List.mem_append, List.not_mem_nil, or_false, not_or]
      exact ⟨by decide, fun h => (hb _ h).2.2.2.2 rfl, by decide⟩
  · rcases hr with hr | ⟨w2, t2, w3, rfl, -, hw2, ⟨q, b, rfl, hq, hb, -⟩, hw3⟩
    · exact hbl hr
    · simp only [List.mem_cons, List.mem_append, List.not_mem_nil, or_false, not_or]
      have : '\x00' ≠ q := by rcases hq with rfl | rfl <;> decide
      exact ⟨hbl hw2, ⟨this, fun h => (hb _ h).2.2 rfl, this⟩, hbl hw3⟩

/-! ### The text of a link -/

theorem delimsOf_ge : ∀ (ps : List Piece) (k : Nat), ∀ d ∈ delimsOf k ps, k ≤ d.pos := by
  intro ps
  induction ps with
  | nil => intro k d hd; simp [delimsOf] at hd
  | cons p ps ih =>
    intro k d hd
    rw [delimsOf, List.mem_append] at hd
    rcases hd with hd | hd
    · cases p <;> simp [pieceDelims] at hd <;> subst hd <;> exact Nat.le_refl _
    · have := ih _ d hd
      omega

theorem delimsOf_lt : ∀ (ps : List Piece) (k : Nat), ∀ d ∈ delimsOf k ps, d.pos < k + (text ps).length := by
  intro ps
  induction ps with
  | nil => intro k d hd; simp [delimsOf] at hd
  | cons p ps ih =>
    intro k d hd
    rw [delimsOf, List.mem_append] at hd
    rw [text_cons, List.length_append]
    have := text_pos p
    rcases hd with hd | hd
    · cases p <;> simp [pieceDelims] at hd <;> subst hd <;> simp only <;> omega
    · have := ih _ d hd
      omega

theorem dropWhile_front {b : Nat} {a old : List Delim} (ha : ∀ d ∈ a, d.pos ≠ b) (ho : old.head?.map (·.pos) = some b) :
    (a ++ old).dropWhile (fun d => d.pos != b) = old ∧ (a ++ old).takeWhile (fun d => d.pos != b) = a := by
  cases old with
  | nil => simp at ho
  | cons d old =>
    simp at ho
    subst ho
    induction a with
    | nil => simp
    | cons e a ih =>
      have he := ha e (by simp)
      obtain ⟨h1, h2⟩ := ih (fun x hx => ha x (by simp [hx]))
      rw [List.cons_append, List.dropWhile_cons_of_pos (by simpa using he), List.takeWhile_cons_of_pos (by simpa using he), h1, h2]
      exact ⟨rfl, rfl⟩

/-- The emphasis in the text of a link. -/
theorem processEmphasis_link {s : Subj} {a : List Piece} {k : Nat} {old : List Delim} (hs : s.delims = (delimsOf k a).reverse ++ old) (ho : ∀ d ∈ old, d.pos < k)
    (h1 : Balanced a) (h2 : Uncrossed a) (h3 : RunsOk a) :
    ∃ R, processEmphasis s (old.head?.map (·.pos)) = .ok { s with delims := old, ignore := s.ignore ++ R } ∧ ∀ i, (∃ r ∈ R, InRange r i) ↔ Removed k a i := by
  obtain ⟨R, news, e1, e2, e3⟩ := balanced_loop h1 h3 h2 k k [] old (fun _ => old.head?.map (·.pos)) (emphFuel (delimsOf k a)) s.ignore (Nat.le_refl _) ho (fun _ => .inl rfl) (by simp)
    (by intro d hd; simp at hd) (Nat.le_refl _)
  rw [List.nil_append] at e1
  refine ⟨R, ?_, e3⟩
  unfold processEmphasis
  cases hold : old with
  | nil =>
    subst hold
    simp only [List.append_nil] at hs e1
    simp only [splitAtBottom, hs, List.head?_nil, Option.map_none, List.reverse_reverse, bind, Except.bind]
    rw [show (fun _ : Nat => (none : Option Nat)) = (fun _ => ([] : List Delim).head?.map (·.pos)) from rfl, e1]
  | cons o old' =>
    have hne : ∀ d ∈ (delimsOf k a).reverse, d.pos ≠ o.pos := by
      intro d hd
      have := delimsOf_ge a k d (by simpa using hd)
      have := ho o (by rw [hold]; simp)
      omega
    have hne' : ∀ d ∈ news, d.pos ≠ o.pos := by
      intro d hd
      have := e2 d hd
      have := ho o (by rw [hold]; simp)
      omega
    obtain ⟨d1, d2⟩ := dropWhile_front (b := o.pos) (old := o :: old') hne rfl
    obtain ⟨d3, -⟩ := dropWhile_front (b := o.pos) (old := o :: old') hne' rfl
    rw [hold] at hs e1
    have hsp : splitAtBottom ((o :: old').head?.map (·.pos)) s.delims = some (o :: old', delimsOf k a) := by
      unfold splitAtBottom
      simp only [List.head?_cons, Option.map_some, hs, d1, d2, List.reverse_reverse]
      rw [if_pos (by simp)]
    rw [hsp]
    simp only [bind, Except.bind]
    rw [e1]
    simp only [List.head?_cons, Option.map_some, d3]

/-- The innermost brackets `inner` and one more. -/
def Upto (bs : List Bracket) (k : Nat) (b : Bracket) (s : Subj) : Prop :=
  ∃ inner b', s.brackets = inner ++ b' :: bs ∧ inner.length = k ∧ b'.prevDelim = b.prevDelim ∧ b'.active = b.active

theorem upto_piece {bs : List Bracket} {k k' : Nat} {b : Bracket} {s s' : Subj} {p : Piece} {ps : List Piece} (h : Upto bs k b s) (hs : s'.brackets = pieceBrackets s p)
    (hk : Spec.brackets k (p :: ps) = some k') : ∃ k1, Upto bs k1 b s' ∧ Spec.brackets k1 ps = some k' := by
  obtain ⟨inner, b', e1, e2, e3, e4⟩ := h
  unfold Spec.brackets at hk
  by_cases h1 : p = .char '['
  · rw [if_pos h1] at hk
    subst h1
    refine ⟨k + 1, ?_, hk⟩
    simp only [pieceBrackets, pushBracket, e1] at hs
    cases inner with
    | nil => exact ⟨[_], _, hs, by simp at e2 ⊢; omega, e3, e4⟩
    | cons i inner => exact ⟨_ :: _ :: inner, b', hs, by simp at e2 ⊢; omega, e3, e4⟩
  · rw [if_neg h1] at hk
    by_cases h2 : p = .char ']'
    · rw [if_pos h2] at hk
      subst h2
      split at hk
      · simp at hk
      · rename_i hk0
        refine ⟨k - 1, ?_, hk⟩
        simp only [pieceBrackets, e1] at hs
        cases inner with
        | nil => simp at e2; omega
        | cons i inner => exact ⟨inner, b', hs, by simp at e2 ⊢; omega, e3, e4⟩
    · rw [if_neg h2] at hk
      refine ⟨k, ⟨inner, b', ?_, e2, e3, e4⟩, hk⟩
      rw [hs, ← e1]
      unfold pieceBrackets
      split
      · exact absurd rfl h1
      · exact absurd rfl h2
      · rfl

theorem upto_chars {u : Str} {k k' : Nat} {ps : List Piece} (hu : ∀ c ∈ u, Plain c) (h : Spec.brackets k (u.map .char ++ ps) = some k') : Spec.brackets k ps = some k' := by
  induction u with
  | nil => exact h
  | cons c u ih =>
    rw [List.map_cons, List.cons_append, Spec.brackets, if_neg, if_neg] at h
    · exact ih (fun d hd => hu d (by simp [hd])) h
    · intro e
      injection e with e
      have := (hu c (by simp)).2.2.2.2.2.2.2.2.1
      exact this e
    · intro e
      injection e with e
      have := (hu c (by simp)).2.2.2.2.2.2.1
      exact this e

/-- The parser goes over pieces before a special character or the end. -/
theorem inlinesLoop_segment {E : Env} {z : Str} (hz : ∀ c ∈ z.head?, isSpecial c = true ∧ ¬ Plain c) (n : Nat) : ∀ (ps : List Piece) (pre D : Str) (s : Subj) (f : Nat), ps.length ≤ n → On s D →
    (∀ t, s.data = D ++ t → '>' ∉ t) → D = pre ++ (text ps ++ z) → s.pos = pre.length → Unflagged s → D.length - s.pos < f →
    (∀ x p y, ps = x ++ p :: y → p.Ok E.isPCat (pre ++ text x) (text y ++ z)) →
    ∃ f' s', inlinesLoop E f s = inlinesLoop E f' s' ∧ D.length - s'.pos < f' ∧ s'.data = s.data ∧ s'.len = s.len ∧ s'.pos = pre.length + (text ps).length ∧ Unflagged s' ∧
      s'.ignore = s.ignore ∧ s'.delims = (delimsOf pre.length ps).reverse ++ s.delims ∧ ∀ bs k k' b, Upto bs k b s → Spec.brackets k ps = some k' → Upto bs k' b s' := by
  induction n with
  | zero =>
    intro ps pre D s f hn hs hgt hD hp hsc hf hok
    have : ps = [] := by simpa using hn
    subst this
    exact ⟨f, s, rfl, hf, rfl, rfl, by simp [hp, text], hsc, rfl, rfl, fun bs k k' b h hk => by simp [Spec.brackets] at hk; subst hk; exact h⟩
  | succ n ih =>
    intro ps pre D s f hn hs hgt hD hp hsc hf hok
    obtain ⟨u, rest, rfl, hu, hrest⟩ := plain_stretch ps
    rw [text_append, text_chars] at hD
    have hy : ∀ c ∈ (text rest ++ z).head?, isSpecial c = true := by
      intro c hc
      cases rest with
      | nil => exact (hz c (by simpa [text] using hc)).1
      | cons p rest =>
        obtain ⟨d, h1, h2⟩ := special_head (hrest p rfl) (hok (u.map .char) p rest rfl)
        rw [text_cons, List.append_assoc, List.head?_append, h1] at hc
        injection hc with hc
        rwa [← hc]
    obtain ⟨f1, e1, g1⟩ := inlinesLoop_plain (E := E) hy u.length u pre D s f (Nat.le_refl _) hu hs (by rw [hD]; simp) hp hf
    rw [e1, delimsOf_append, delimsOf_chars, text_chars, List.nil_append]
    cases rest with
    | nil =>
      refine ⟨f1, { s with pos := pre.length + u.length }, rfl, g1, rfl, rfl, ?_, hsc, rfl, rfl, ?_⟩
      · rw [text_append, text_chars]; simp [text]
      · intro bs k k' b h hk
        have := upto_chars hu hk
        simp [Spec.brackets] at this
        subst this
        exact h
    | cons p rest =>
      cases f1 with
      | zero => omega
      | succ f1 =>
        have hok1 := hok (u.map .char) p rest rfl
        rw [text_chars] at hok1
        obtain ⟨w, y', c, s1, hy', hw, h1, h2, h3, h4, h5, h6, h7, h8, h9, h10⟩ := steps_piece (E := E) (s := { s with pos := pre.length + u.length }) (pre := pre ++ u) (y := text rest ++ z) (hs.pos _)
          (by rw [hD, text_cons]; simp) (by simp) hsc hgt (hrest p rfl) hok1
        simp only at h4 h5 h6 h7 h8 h9
        have hpos := text_pos p
        have hnext : ∀ x q y, rest = x ++ q :: y → q.Ok E.isPCat (pre ++ u ++ p.text ++ text x) (text y ++ z) := by
          intro x q y e
          have := hok (u.map .char ++ p :: x) q y (by rw [e]; simp)
          rw [text_append, text_chars, text_cons] at this
          rw [show pre ++ u ++ p.text ++ text x = pre ++ (u ++ (p.text ++ text x)) by simp]
          exact this
        obtain ⟨qs, rfl, -⟩ := chars_of_text (punct := E.isPCat) (fun c hc => (hz c hc).2) w y' rest (pre ++ u ++ p.text) hy' hw hnext
        have hDl : D.length = pre.length + (u.length + (p.text.length + (w.length + ((text qs).length + z.length)))) := by rw [hD, text_cons, text_append, text_chars]; simp
        obtain ⟨f', s', e2, e3, e4, e5, e6, e7, e8, e9, e10⟩ := ih qs (pre ++ u ++ p.text ++ w) D s1 f1 (by simp at hn; omega) ⟨by rw [h4]; exact hs.data, by rw [h5]; exact hs.len⟩ (by rw [h4]; exact hgt)
          (by rw [hD, text_cons, text_append, text_chars]; simp) (by rw [h6]; simp; omega) (h8 hsc) (by rw [h6]; omega)
          (by
            intro x q y e
            have := hnext (w.map .char ++ x) q y (by rw [e]; simp)
            rwa [text_append, text_chars, ← List.append_assoc] at this)
        refine ⟨f', s', ?_, e3, by rw [e4, h4], by rw [e5, h5], ?_, e7, by rw [e8, h9], ?_, ?_⟩
        · conv_lhs => unfold inlinesLoop
          rw [h2]
          simp only [h3, bind, Except.bind]
          exact e2
        · rw [e6, text_append, text_chars, text_cons, text_append, text_chars]; simp; omega
        · rw [e9, h7, delimsOf, delimsOf_append, delimsOf_chars, text_chars]
          simp [Nat.add_assoc]
        · intro bs k k' b h hk
          obtain ⟨k1, g1, g2⟩ := upto_piece (s := { s with pos := pre.length + u.length }) (s' := s1) (bs := bs) (b := b) h h10 (upto_chars hu hk)
          exact e10 bs k1 k' b g1 (upto_chars hw g2)

/-! ### Parts -/

/-- The position belongs to a run in the text of a link which opens or closes emphasis. -/
def InLinks (k : Nat) : List Part → Nat → Prop
  | [], _ => False
  | .piece p :: ps, i => InLinks (k + p.text.length) ps i
  | .link a d :: ps, i => Removed (k + 1) a i ∨ InLinks (k + (Part.link a d).text.length) ps i

theorem fullText_cons (p : Part) (ps : List Part) : fullText (p :: ps) = p.text ++ fullText ps := rfl

theorem fullText_append (a b : List Part) : fullText (a ++ b) = fullText a ++ fullText b := by unfold fullText; rw [List.flatMap_append]

theorem fullText_pieces (a : List Piece) : fullText (a.map .piece) = text a := by
  induction a with
  | nil => rfl
  | cons p a ih => rw [List.map_cons, fullText_cons, ih]; rfl

theorem outer_length (p : Part) : p.outer.text.length = p.text.length := by
  cases p with
  | piece p => rfl
  | link a d => simp [Part.outer, Part.text, Piece.text]

theorem outer_pieces (a : List Piece) : (a.map Part.piece).map Part.outer = a := by
  induction a with
  | nil => rfl
  | cons p a ih => rw [List.map_cons, List.map_cons, ih]; rfl

theorem inLinks_pieces (a : List Piece) : ∀ (ps : List Part) (k i : Nat), InLinks k (a.map .piece ++ ps) i ↔ InLinks (k + (text a).length) ps i := by
  induction a with
  | nil => intro ps k i; rfl
  | cons p a ih => intro ps k i; rw [List.map_cons, List.cons_append, InLinks, ih, text_cons, List.length_append, Nat.add_assoc]

theorem inLinks_ge : ∀ (ps : List Part) (k i : Nat), InLinks k ps i → k ≤ i := by
  intro ps
  induction ps with
  | nil => intro k i h; exact h.elim
  | cons p ps ih =>
    intro k i h
    cases p with
    | piece p => have := ih _ _ h; omega
    | link a d =>
      rcases h with h | h
      · have := Removed_ge _ _ _ h; omega
      · have := ih _ _ h; omega

theorem split_links (ps : List Part) : ∃ (a : List Piece) (rest : List Part), ps = a.map .piece ++ rest ∧ (rest = [] ∨ ∃ b d rest', rest = .link b d :: rest') := by
  induction ps with
  | nil => exact ⟨[], [], rfl, .inl rfl⟩
  | cons p ps ih =>
    cases p with
    | link b d => exact ⟨[], _, rfl, .inr ⟨b, d, ps, rfl⟩⟩
    | piece p =>
      obtain ⟨a, rest, e, h⟩ := ih
      exact ⟨p :: a, rest, by rw [e]; rfl, h⟩

theorem ok_runs {punct : Char → Bool} {a : List Piece} {f g : List Piece → Str} (h : ∀ x p y, a = x ++ p :: y → p.Ok punct (f x) (g y)) : RunsOk a := by
  intro p hp k d hd
  obtain ⟨x, y, e⟩ := List.append_of_mem hp
  have h1 := h x p y e
  cases p <;> simp [pieceDelims] at hd <;> subst hd <;> exact h1.1.1

theorem inlinesLoop_parts {E : Env} (n : Nat) : ∀ (ps : List Part) (pre D : Str) (s : Subj) (f : Nat), ps.length ≤ n → On s D → (∀ t, s.data = D ++ t → '>' ∉ t) →
    D = pre ++ fullText ps → s.pos = pre.length → Unflagged s → D.length - s.pos < f → (∀ d ∈ s.delims, d.pos < s.pos) →
    (∀ x p y, ps = x ++ p :: y → p.Ok E.isPCat (pre ++ fullText x) (fullText y)) →
    ∃ s' R, inlinesLoop E f s = .ok s' ∧ s'.delims = (delimsOf pre.length (ps.map Part.outer)).reverse ++ s.delims ∧ s'.ignore = s.ignore ++ R ∧
      ∀ i, (∃ r ∈ R, InRange r i) ↔ InLinks pre.length ps i := by
  induction n with
  | zero =>
    intro ps pre D s f hn hs hgt hD hp hsc hf hdl hok
    have : ps = [] := by simpa using hn
    subst this
    cases f with
    | zero => omega
    | succ f =>
      refine ⟨s, [], ?_, rfl, by simp, by simp [InLinks]⟩
      unfold inlinesLoop
      rw [hs.peek_end (by rw [hp, hD]; simp [fullText])]
  | succ n ih =>
    intro ps pre D s f hn hs hgt hD hp hsc hf hdl hok
    obtain ⟨a, rest, rfl, hrest⟩ := split_links ps
    rw [fullText_append, fullText_pieces] at hD
    have hz : ∀ c ∈ (fullText rest).head?, isSpecial c = true ∧ ¬ Plain c := by
      intro c hc
      rcases hrest with rfl | ⟨b, d, rest', rfl⟩
      · simp [fullText] at hc
      · rw [fullText_cons] at hc
        simp [Part.text] at hc
        subst hc
        exact ⟨rfl, by simp [Plain]⟩
    obtain ⟨f1, s1, e1, g1, d1, l1, p1, c1, i1, m1, -⟩ := inlinesLoop_segment (E := E) hz a.length a pre D s f (Nat.le_refl _) hs hgt hD hp hsc hf
      (by
        intro x p y e
        have := hok (x.map .piece) (.piece p) (y.map .piece ++ rest) (by rw [e]; simp)
        rw [fullText_pieces, fullText_append, fullText_pieces] at this
        exact this)
    rw [e1]
    have hmap : (a.map Part.piece ++ rest).map Part.outer = a ++ rest.map Part.outer := by rw [List.map_append, outer_pieces]
    rw [hmap, delimsOf_append]
    have hs1 : On s1 D := ⟨by rw [d1]; exact hs.data, by rw [l1]; exact hs.len⟩
    have hgt1 : ∀ t, s1.data = D ++ t → '>' ∉ t := by rw [d1]; exact hgt
    rcases hrest with rfl | ⟨b, d, rest', rfl⟩
    · cases f1 with
      | zero => omega
      | succ f1 =>
        refine ⟨s1, [], ?_, by rw [m1]; simp [delimsOf], by simp [i1], fun i => by rw [inLinks_pieces]; simp [InLinks]⟩
        unfold inlinesLoop
        rw [hs1.peek_end (by rw [p1, hD]; simp [fullText])]
    · -- the bracket
      have hlink := hok (a.map .piece) (.link b d) rest' rfl
      rw [fullText_pieces] at hlink
      obtain ⟨hdest, hbr, hbal, hunc, hin⟩ := hlink
      have hDl : D = (pre ++ text a) ++ '[' :: (text b ++ (']' :: '(' :: (d ++ ')' :: fullText rest'))) := by rw [hD, fullText_cons]; simp [Part.text]
      have hD2 : D = (pre ++ text a ++ ['[']) ++ (text b ++ (']' :: '(' :: (d ++ ')' :: fullText rest'))) := by rw [hDl]; simp
      have hlen := congrArg List.length hDl
      simp only [List.length_append, List.length_cons] at hlen
      cases f1 with
      | zero => omega
      | succ f1 =>
        have hpk : peek s1 = some '[' := hs1.peek hDl (by rw [p1]; simp)
        have hst : inlinesLoop E (f1 + 1) s1 = inlinesLoop E f1 (pushBracket { s1 with pos := s1.pos + 1 }) := by
          conv_lhs => unfold inlinesLoop
          rw [hpk]
          rfl
        rw [hst]
        -- the text of the link
        obtain ⟨f2, s2, e2, g2, d2, l2, p2, c2, i2, m2, u2⟩ := inlinesLoop_segment (E := E) (z := ']' :: '(' :: (d ++ ')' :: fullText rest')) (by simp [Plain]; rfl) b.length b (pre ++ text a ++ ['[']) D
          (pushBracket { s1 with pos := s1.pos + 1 }) f1 (Nat.le_refl _) ⟨hs1.data, hs1.len⟩ hgt1 hD2 (by simp [pushBracket, p1]; omega) c1 (by simp [pushBracket, p1]; omega)
          (by
            intro x p y e
            have := hin x p y e
            rw [show pre ++ text a ++ ['['] ++ text x = pre ++ text a ++ '[' :: text x by simp]
            exact this)
        rw [e2]
        obtain ⟨bs0, hup⟩ : ∃ bs0, Upto bs0 0 ⟨s1.pos + 1, s1.delims.head?.map (·.pos), true, false⟩ (pushBracket { s1 with pos := s1.pos + 1 }) :=
          ⟨_, [], _, rfl, rfl, rfl, rfl⟩
        obtain ⟨inner, b', q1, q2, q3, q4⟩ := u2 _ 0 0 _ hup hbr
        have hinner : inner = [] := by simpa using q2
        subst hinner
        simp only [List.nil_append] at q1
        have hs2 : On s2 D := ⟨by rw [d2]; exact hs1.data, by rw [l2]; exact hs1.len⟩
        cases f2 with
        | zero => omega
        | succ f2 =>
          have hD3 : D = (pre ++ text a ++ ['['] ++ text b) ++ ']' :: ('(' :: (d ++ ')' :: fullText rest')) := by rw [hDl]; simp
          have hD4 : D = (pre ++ text a ++ ['['] ++ text b ++ [']']) ++ '(' :: (d ++ ')' :: fullText rest') := by rw [hDl]; simp
          have hpk2 : peek s2 = some ']' := hs2.peek hD3 (by rw [p2]; simp; omega)
          have hil := inlineLink_target (E := E) (s := { s2 with pos := s2.pos + 1, brackets := b' :: bs0 }) ⟨hs2.data, hs2.len⟩ hD4 (by simp [p2]; omega) hdest
          have hdel : s2.delims = (delimsOf (pre.length + (text a).length + 1) b).reverse ++ s1.delims := by
            rw [m2]
            simp [pushBracket]
            rfl
          have hold : ∀ e ∈ s1.delims, e.pos < pre.length + (text a).length + 1 := by
            intro e he
            rw [m1, List.mem_append] at he
            rcases he with he | he
            · have := delimsOf_lt a pre.length e (by simpa using he)
              omega
            · have := hdl e he
              omega
          obtain ⟨R, hpe, hR⟩ := processEmphasis_link (s := { s2 with pos := s2.pos + 1 + 1 + d.length + 1, brackets := b' :: bs0 }) (a := b) (k := pre.length + (text a).length + 1) (old := s1.delims) hdel hold hbal hunc
            (ok_runs (f := fun x => pre ++ text a ++ '[' :: text x) hin)
          simp only at hil
          have hst2 : parseInline E s2 ']' = .ok { s2 with pos := s2.pos + 1 + 1 + d.length + 1, delims := s1.delims, ignore := s2.ignore ++ R, brackets := deactivate bs0 } := by
            unfold parseInline
            simp only [Char.reduceEq, or_self, if_false, if_true]
            unfold handleCloseBracket
            simp only [q1, q4, Bool.not_true, Bool.false_eq_true, if_false, hil, bind, Except.bind]
            rw [show b'.prevDelim = s1.delims.head?.map (·.pos) from q3, hpe]
          have hst3 : inlinesLoop E (f2 + 1) s2 = inlinesLoop E f2 { s2 with pos := s2.pos + 1 + 1 + d.length + 1, delims := s1.delims, ignore := s2.ignore ++ R, brackets := deactivate bs0 } := by
            conv_lhs => unfold inlinesLoop
            rw [hpk2]
            simp only [hst2, bind, Except.bind]
          rw [hst3]
          have hpp : s2.pos + 1 + 1 + d.length + 1 = (pre ++ text a ++ (Part.link b d).text).length := by rw [p2]; simp [Part.text]; omega
          obtain ⟨s', R', e3, e4, e5, e6⟩ := ih rest' (pre ++ text a ++ (Part.link b d).text) D { s2 with pos := s2.pos + 1 + 1 + d.length + 1, delims := s1.delims, ignore := s2.ignore ++ R, brackets := deactivate bs0 } f2
            (by simp at hn; omega) ⟨hs2.data, hs2.len⟩ (by simp only [d2]; exact hgt1) (by rw [hDl]; simp [Part.text]) hpp c2
            (by rw [p2] at g2; simp at g2 ⊢; rw [p2]; simp; omega)
            (by
              intro e he
              have := hold e he
              simp only
              rw [p2]
              simp
              omega)
            (by
              intro x p y e
              have := hok (a.map .piece ++ .link b d :: x) p y (by rw [e]; simp)
              rw [fullText_append, fullText_pieces, fullText_cons] at this
              rw [show pre ++ text a ++ (Part.link b d).text ++ fullText x = pre ++ (text a ++ ((Part.link b d).text ++ fullText x)) by simp]
              exact this)
          refine ⟨s', R ++ R', e3, ?_, ?_, fun i => ?_⟩
          · rw [e4]
            simp only
            rw [m1, List.map_cons, delimsOf, outer_length]
            simp [Part.outer, pieceDelims, Nat.add_assoc]
          · rw [e5]
            simp only
            rw [i2]
            simp [pushBracket, i1]
          · rw [exists_range_append, hR, e6, inLinks_pieces, InLinks]
            rw [show (pre ++ text a ++ (Part.link b d).text).length = pre.length + (text a).length + (Part.link b d).text.length by simp; omega]

/-! ### White space at the end -/

theorem part_pos (p : Part) : 0 < p.text.length := by
  cases p with
  | piece p => exact text_pos p
  | link a d => simp [Part.text]

theorem PartOk_trim {punct : Char → Bool} {p : Part} {x y tail : Str} (ht : ∀ c ∈ tail, isSpace c = true) (h : p.Ok punct x (y ++ tail)) : p.Ok punct x y := by
  cases p with
  | piece p => exact Ok_trim ht h
  | link a d =>
    obtain ⟨h1, h2, h3, h4, h5⟩ := h
    refine ⟨h1, h2, h3, h4, ?_⟩
    intro u q v e
    apply Ok_trim ht
    have := h5 u q v e
    rw [show text v ++ ']' :: '(' :: (d ++ ')' :: y) ++ tail = text v ++ ']' :: '(' :: (d ++ ')' :: (y ++ tail)) by simp]
    exact this

theorem parts_trim {punct : Char → Bool} (k : Nat) : ∀ (tail D : Str) (ps : List Part), tail.length ≤ k → fullText ps = D ++ tail → (∀ c ∈ tail, isSpace c = true) →
    (∀ p ∈ ps, ∃ x y, p.Ok punct x y) → ∃ ps', ps = ps' ++ (tail.map .char).map .piece ∧ fullText ps' = D := by
  induction k with
  | zero =>
    intro tail D ps hk e _ _
    have : tail = [] := by simpa using hk
    subst this
    exact ⟨ps, by simp, by simpa using e⟩
  | succ k ih =>
    intro tail D ps hk e ht hs
    rcases List.eq_nil_or_concat tail with rfl | ⟨t, c, rfl⟩
    · exact ⟨ps, by simp, by simpa using e⟩
    · rw [List.concat_eq_append] at e ht hk ⊢
      rcases List.eq_nil_or_concat ps with rfl | ⟨q, p, rfl⟩
      · simp [fullText] at e
      · rw [List.concat_eq_append] at e hs ⊢
        have hc := ht c (by simp)
        rw [fullText_append, ← List.append_assoc] at e
        have hpt : fullText [p] = p.text := by simp [fullText]
        rw [hpt] at e
        have hpos := part_pos p
        have hl : p.text.getLast? = some c := by
          have := congrArg List.getLast? e
          rwa [List.getLast?_append_of_ne_nil _ (by intro h; rw [h] at hpos; simp at hpos), List.getLast?_concat] at this
        have hsolid : (∃ c, p = .piece (.char c)) ∨ ∃ c, p.text.getLast? = some c ∧ isSpace c = false := by
          cases p with
          | piece p =>
            obtain ⟨x, y, h⟩ := hs (.piece p) (by simp)
            rcases solid_of h with ⟨d, rfl⟩ | h
            · exact .inl ⟨d, rfl⟩
            · exact .inr h
          | link a d =>
            refine .inr ⟨')', ?_, by decide⟩
            show ('[' :: (text a ++ (']' :: '(' :: (d ++ [')'])))).getLast? = _
            rw [show '[' :: (text a ++ (']' :: '(' :: (d ++ [')']))) = ('[' :: (text a ++ (']' :: '(' :: d))) ++ [')'] by simp, List.getLast?_concat]
        rcases hsolid with ⟨d, rfl⟩ | ⟨d, h1, h2⟩
        · simp [Part.text, Piece.text] at hl
          subst hl
          have e' : fullText q = D ++ t := List.append_cancel_right e
          obtain ⟨ps', h3, h4⟩ := ih t D q (by simp at hk; omega) e' (fun x hx => ht x (by simp [hx])) (fun x hx => hs x (by simp [hx]))
          exact ⟨ps', by rw [h3]; simp, h4⟩
        · rw [h1] at hl
          injection hl with hl
          subst hl
          rw [h2] at hc
          exact absurd hc (by simp)

/-! ### The whole text -/

theorem filter_parts (rs : List Range) : ∀ (ps : List Part) (k : Nat), (∀ i, k ≤ i → ((∃ r ∈ rs, InRange r i) ↔ InLinks k ps i ∨ Removed k (ps.map Part.outer) i)) →
    filterIndicesFrom rs k (fullText ps) = fullShown ps := by
  intro ps
  induction ps with
  | nil => intro k _; rfl
  | cons p ps ih =>
    intro k h
    have hcons : fullShown (p :: ps) = p.shown ++ fullShown ps := rfl
    rw [fullText_cons, hcons, filterIndicesFrom_append]
    have hnext : filterIndicesFrom rs (k + p.text.length) (fullText ps) = fullShown ps := by
      apply ih
      intro i hi
      rw [h i (by omega), List.map_cons, Removed, outer_length]
      have hr : ¬ (p.outer.shown = [] ∧ k ≤ i ∧ i < k + p.text.length) := by omega
      cases p with
      | piece p =>
        rw [InLinks]
        simp only [hr, false_or]
        rfl
      | link a d =>
        rw [InLinks]
        have hr' : ¬ Removed (k + 1) a i := by
          intro hh
          have := Removed_lt _ _ _ hh
          simp [Part.text] at hi
          omega
        simp only [hr, hr', false_or]
    rw [hnext]
    congr 1
    have houter : ∀ i, k ≤ i → i < k + p.text.length → ¬ InLinks (k + p.text.length) ps i ∧ ¬ Removed (k + p.text.length) (ps.map Part.outer) i := by
      intro i h1 h2
      constructor
      · intro hh
        have := inLinks_ge _ _ _ hh
        omega
      · intro hh
        have := Removed_ge _ _ _ hh
        omega
    cases p with
    | piece p =>
      by_cases hp : p.shown = []
      · rw [show (Part.piece p).shown = [] from hp]
        apply filterIndicesFrom_all
        intro i h1 h2
        exact (h i h1).mpr (.inr (.inl ⟨hp, h1, h2⟩))
      · have hpt : (Part.piece p).shown = p.text := by
          cases p <;> first | rfl | (exfalso; exact hp rfl)
        rw [hpt]
        apply filterIndicesFrom_keep
        intro i h1 h2 h3
        obtain ⟨n1, n2⟩ := houter i h1 h2
        rcases (h i h1).mp h3 with h4 | h4 | h4
        · exact n1 h4
        · exact hp h4.1
        · exact n2 h4
    | link a d =>
      have hin : ∀ i, k ≤ i → i < k + (Part.link a d).text.length → ((∃ r ∈ rs, InRange r i) ↔ Removed (k + 1) a i) := by
        intro i h1 h2
        obtain ⟨n1, n2⟩ := houter i h1 h2
        rw [h i h1]
        constructor
        · rintro ((h4 | h4) | h4 | h4)
          · exact h4
          · exact absurd h4 n1
          · have := h4.1
            simp [Part.outer, Piece.shown, Piece.text] at this
          · exact absurd (by rwa [outer_length] at h4) n2
        · intro h4
          exact .inl (.inl h4)
      have hl : (Part.link a d).text.length = 1 + ((text a).length + (d.length + 3)) := by simp [Part.text]; omega
      rw [hl] at hin
      show filterIndicesFrom rs k (['['] ++ (text a ++ (']' :: '(' :: (d ++ [')'])))) = ['['] ++ (shown a ++ (']' :: '(' :: (d ++ [')'])))
      rw [filterIndicesFrom_append, filterIndicesFrom_append]
      congr 1
      · apply filterIndicesFrom_keep
        intro i h1 h2 h3
        have := Removed_ge _ _ _ ((hin i h1 (by simp at h2; omega)).mp h3)
        simp at h2
        omega
      · congr 1
        · apply filter_pieces_on
          intro i h1 h2
          exact hin i (by simp at h1; omega) (by simp at h2; omega)
        · apply filterIndicesFrom_keep
          intro i h1 h2 h3
          simp at h1 h2
          have := Removed_lt _ _ _ ((hin i (by omega) (by omega)).mp h3)
          omega

theorem allPlaced_mem {punct : Char → Bool} {ps : List Part} (h : AllPlaced punct ps) {p : Part} (hp : p ∈ ps) : ∃ x y, p.Ok punct x y := by
  obtain ⟨x, y, e⟩ := List.append_of_mem hp
  exact ⟨_, _, h x p y e⟩

theorem allPlaced_runs {punct : Char → Bool} {ps : List Part} (h : AllPlaced punct ps) : RunsOk (ps.map Part.outer) := by
  intro p hp k d hd
  obtain ⟨q, hq, rfl⟩ := List.mem_map.mp hp
  obtain ⟨x, y, h1⟩ := allPlaced_mem h hq
  cases q with
  | link a d => simp [Part.outer, pieceDelims] at hd
  | piece p => cases p <;> simp [Part.outer, pieceDelims] at hd <;> subst hd <;> exact h1.1.1

theorem parseInlines_parts {E : Env} {ps : List Part} (h1 : AllPlaced E.isPCat ps) (h2 : Balanced (ps.map Part.outer)) (h3 : Uncrossed (ps.map Part.outer)) :
    ∃ rs, parseInlines E (fullText ps) = .ok rs ∧ filterIndices (fullText ps) rs = fullShown ps := by
  obtain ⟨tail, hs, htail⟩ := rtrim_split (fullText ps)
  have hle : rtrimLen (fullText ps) ≤ (fullText ps).length := by
    unfold rtrimLen
    exact (rstrip_prefix isSpace (fullText ps)).length_le
  have hlen : ((fullText ps).take (rtrimLen (fullText ps))).length = rtrimLen (fullText ps) := by
    rw [List.length_take]
    omega
  obtain ⟨ps', e1, e2⟩ := parts_trim (punct := E.isPCat) tail.length tail _ ps (Nat.le_refl _) hs htail (fun p hp => allPlaced_mem h1 hp)
  obtain ⟨s', R0, e3, e5, e4, e0⟩ := inlinesLoop_parts (E := E) ps'.length ps' [] ((fullText ps).take (rtrimLen (fullText ps))) (initSubj (fullText ps)) ((fullText ps).length + 1) (Nat.le_refl _)
    ⟨⟨tail, hs⟩, hlen.symm⟩
    (by
      intro t ht hgt
      have ht : fullText ps = (fullText ps).take (rtrimLen (fullText ps)) ++ t := ht
      have : t = tail := List.append_cancel_left (ht.symm.trans hs)
      subst this
      have := htail _ hgt
      revert this
      decide)
    (by rw [e2]; rfl) rfl ⟨rfl, rfl, rfl, rfl⟩ (by rw [hlen]; omega) (by simp [initSubj])
    (by
      intro x p y e
      rw [List.nil_append]
      apply PartOk_trim (tail := tail) htail
      have := h1 x p (y ++ (tail.map .char).map .piece) (by rw [e1, e]; simp)
      rwa [fullText_append, fullText_pieces, text_chars] at this)
  have hd : s'.delims = (delimsOf 0 (ps.map Part.outer)).reverse := by
    rw [e5, e1, List.map_append, outer_pieces, delimsOf_append, delimsOf_chars]
    simp [initSubj]
  have hi : s'.ignore = R0 := by rw [e4]; rfl
  obtain ⟨R, ds, e6, -, e7⟩ := balanced_loop h2 (allPlaced_runs h1) h3 0 0 [] [] (fun _ => none) (emphFuel (delimsOf 0 (ps.map Part.outer))) R0 (Nat.le_refl _) (by simp) (by simp) (by simp)
    (by intro d hd; simp at hd) (Nat.le_refl _)
  rw [List.nil_append, List.append_nil] at e6
  refine ⟨R0 ++ R, ?_, ?_⟩
  · unfold parseInlines
    simp only [bind, Except.bind, e3]
    unfold processEmphasis
    simp only [splitAtBottom, hd, List.reverse_reverse, hi, bind, Except.bind]
    rw [e6]
  · apply filter_parts
    intro i _
    rw [exists_range_append, e0, e7, e1]
    have : InLinks 0 (ps' ++ (tail.map .char).map .piece) i ↔ InLinks 0 ps' i := by
      have key : ∀ (a : List Part) (u : List Piece) (k : Nat), InLinks k (a ++ u.map .piece) i ↔ InLinks k a i := by
        intro a u
        induction a with
        | nil =>
          intro k
          have := inLinks_pieces u [] k i
          rw [List.append_nil] at this
          rw [List.nil_append, this]
          rfl
        | cons q a ih =>
          intro k
          cases q with
          | piece p => rw [List.cons_append, InLinks, InLinks, ih]
          | link b d => rw [List.cons_append, InLinks, InLinks, ih]
      exact key ps' _ 0
    rw [this]
    rfl

theorem removeEmphasis_parts {E : Env} {s t : Str} (h : LinksUnmarked E.isPCat s t) (p : Parser) : removeEmphasis E s p = .ok t := by
  obtain ⟨ps, rfl, rfl, h1, h2, h3⟩ := h
  obtain ⟨rs, h4, h5⟩ := parseInlines_parts (E := E) h1 h2 h3
  have : (fullText ps).filter (· != '\x00') = fullText ps := by
    rw [List.filter_eq_self]
    intro c hc
    simp only [bne_iff_ne, ne_eq]
    rintro rfl
    obtain ⟨q, hq, hc⟩ := List.mem_flatMap.mp hc
    obtain ⟨x, y, h⟩ := allPlaced_mem h1 hq
    cases q with
    | piece q => exact placed_nul_piece h hc
    | link a d =>
      obtain ⟨g1, -, -, -, g5⟩ := h
      simp [Part.text] at hc
      rcases hc with hc | hc
      · obtain ⟨q, hq, hc⟩ := List.mem_flatMap.mp hc
        obtain ⟨u, v, e⟩ := List.append_of_mem hq
        exact placed_nul_piece (g5 u q v e) hc
      · exact target_nul g1 hc
  unfold removeEmphasis
  simp only [this, h4, bind, Except.bind, h5]

end MdToc.Cmark
