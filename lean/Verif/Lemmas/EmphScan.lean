import Verif.Lemmas.EmphNested
import Verif.Lemmas.Scanners

/-!
# The inline parser on a sequence of pieces
-/

set_option linter.unusedSimpArgs false

namespace MdToc.Cmark

open Spec

/-! ### Runs -/

theorem after_getD (y : Str) : y.headD '\n' = y.head?.getD '\n' := by cases y <;> rfl

theorem beforeChar_seen : ∀ {r : Str}, r ≠ [] → beforeChar r = ((r.dropWhile (fun c => decide (128 ≤ c.toNat ∧ c.toNat ≤ 191))).head?.or r.getLast?).getD '\n' := by
  intro r
  induction r with
  | nil => intro h; exact absurd rfl h
  | cons c t ih =>
    intro _
    cases t with
    | nil => by_cases h : 128 ≤ c.toNat ∧ c.toNat ≤ 191 <;> simp [beforeChar, List.dropWhile_cons, h]
    | cons d t =>
      rw [beforeChar]
      · by_cases h : 128 ≤ c.toNat ∧ c.toNat ≤ 191
        · rw [if_pos h, ih (by simp), List.dropWhile_cons_of_pos (a := c) (l := d :: t) (by simpa using h)]
          simp
        · rw [if_neg h, List.dropWhile_cons_of_neg (by simpa using h)]
          rfl
      · simp

theorem before_getD (x : Str) : (if x = [] then '\n' else beforeChar x.reverse) = (seenBefore x).getD '\n' := by
  by_cases h : x = []
  · subst h; rfl
  · rw [if_neg h, beforeChar_seen (by simpa using h), List.getLast?_reverse]
    rfl

theorem seenBefore_last {x : Str} (h : ∀ d ∈ x.getLast?, ¬ (128 ≤ d.toNat ∧ d.toNat ≤ 191)) : seenBefore x = x.getLast? := by
  rcases List.eq_nil_or_concat x with rfl | ⟨x, c, rfl⟩
  · rfl
  · have hc := h c (by simp)
    unfold seenBefore
    rw [List.concat_eq_append, List.reverse_append, List.reverse_singleton, List.singleton_append, List.dropWhile_cons_of_neg (by simpa using hc)]
    simp

/-- Before a run there is usually a character which the code sees. -/
theorem isRun_of {punct : Char → Bool} {c : Char} {x y : Str} (h1 : c = '*' ∨ c = '_') (h2 : y.head? ≠ some c) (h3 : ∀ d ∈ x.getLast?, ¬ (128 ≤ d.toNat ∧ d.toNat ≤ 191)) : IsRun punct c x y := by
  refine ⟨h1, h2, ?_⟩
  rw [seenBefore_last h3]
  exact ⟨Iff.rfl, Iff.rfl⟩

theorem parseInline_silent {E : Env} {s : Subj} {D pre y : Str} {ch : Char} {n : Nat} (hs : On s D) (hD : D = pre ++ List.replicate (n + 1) ch ++ y) (hp : s.pos = pre.length)
    (hch : ch = '*' ∨ ch = '_') (hy : ∀ c ∈ y.head?, c ≠ ch)
    (hf : flanking E ch (if pre = [] then '\n' else beforeChar pre.reverse) (y.headD '\n') (n + 1) = (false, false)) :
    peek s = some ch ∧ parseInline E s ch = .ok { s with pos := s.pos + (n + 1) } := by
  have hpk : peek s = some ch := hs.peek (pre := pre) (y := List.replicate n ch ++ y) (by rw [hD, List.replicate_succ]; simp) hp
  refine ⟨hpk, ?_⟩
  have hsd : scanDelims E s ch = (n + 1, false, false) := by
    unfold scanDelims
    have hn : runLength ch (restFrom s s.pos) = n + 1 := by
      unfold runLength
      rw [if_neg (by rcases hch with rfl | rfl <;> decide), hs.rest, hD, hp]
      rw [List.append_assoc, List.drop_left, takeWhile_run hy]
      simp
    have hb : (if s.pos = 0 then '\n' else beforeChar (s.data.take s.pos).reverse) = if pre = [] then '\n' else beforeChar pre.reverse := by
      obtain ⟨t, ht⟩ := hs.data
      have : s.data.take s.pos = pre := by rw [ht, hD, hp]; simp
      rw [this, hp]
      cases pre <;> simp
    have ha : restFrom s (s.pos + (n + 1)) = y := by
      rw [hs.rest, hD, hp]
      rw [show pre.length + (n + 1) = (pre ++ List.replicate (n + 1) ch).length by simp, List.drop_left]
    simp only [hn]
    rw [hb, ha]
    cases y with
    | nil => rw [List.headD_nil] at hf; simp only [hf]
    | cons a y => rw [List.headD_cons] at hf; simp only [hf]
  unfold parseInline
  rw [if_neg (by rcases hch with rfl | rfl <;> decide), if_neg (by rcases hch with rfl | rfl <;> decide), if_neg (by rcases hch with rfl | rfl <;> decide),
    if_neg (by rcases hch with rfl | rfl <;> decide), if_neg (by rcases hch with rfl | rfl <;> decide), if_pos (by tauto)]
  unfold handleDelim
  rw [hsd]
  simp

theorem flanking_eq {E : Env} {ch : Char} {n : Nat} {x y : Str} {o cl : Bool} (h : IsRun E.isPCat ch x y) (ho : o = true ↔ CanOpen E.isPCat ch x.getLast? y.head?)
    (hcl : cl = true ↔ CanClose E.isPCat ch x.getLast? y.head?) : flanking E ch (if x = [] then '\n' else beforeChar x.reverse) (y.headD '\n') (n + 1) = (o, cl) := by
  rw [before_getD, after_getD]
  have := flanking_iff (E := E) (b := seenBefore x) (a := y.head?) (n := n) h.1
  rw [h.2.2.1, h.2.2.2, ← ho, ← hcl] at this
  apply Prod.ext
  · exact Bool.eq_iff_iff.mpr this.1
  · exact Bool.eq_iff_iff.mpr this.2

/-! ### Code spans -/

theorem tick_split (t : Str) : ∃ m r, t = List.replicate m '`' ++ r ∧ r.head? ≠ some '`' := by
  induction t with
  | nil => exact ⟨0, [], rfl, by simp⟩
  | cons c t ih =>
    by_cases hc : c = '`'
    · obtain ⟨m, r, e, h⟩ := ih
      exact ⟨m + 1, r, by rw [hc, e, List.replicate_succ]; rfl, h⟩
    · exact ⟨0, c :: t, rfl, by simpa using hc⟩

theorem notick_split (t : Str) : ∃ a r, t = a ++ r ∧ (∀ c ∈ a, c ≠ '`') ∧ (r = [] ∨ r.head? = some '`') := by
  induction t with
  | nil => exact ⟨[], [], rfl, by simp, .inl rfl⟩
  | cons c t ih =>
    by_cases hc : c = '`'
    · exact ⟨[], c :: t, rfl, by simp, .inr (by simp [hc])⟩
    · obtain ⟨a, r, e, h1, h2⟩ := ih
      refine ⟨c :: a, r, by rw [e]; rfl, ?_, h2⟩
      intro d hd
      rcases List.mem_cons.mp hd with rfl | hd
      · exact hc
      · exact h1 d hd

theorem takeWhile_notick {a r : Str} (h : ∀ c ∈ a, c ≠ '`') (hr : r.head? = some '`') : (a ++ r).takeWhile (· != '`') = a ∧ (a ++ r).dropWhile (· != '`') = r := by
  induction a with
  | nil =>
    cases r with
    | nil => simp at hr
    | cons c r =>
      simp at hr
      subst hr
      exact ⟨by rw [List.nil_append, List.takeWhile_cons_of_neg (by simp)], by rw [List.nil_append, List.dropWhile_cons_of_neg (by simp)]⟩
  | cons c a ih =>
    have := ih (fun d hd => h d (by simp [hd]))
    have hc := h c (by simp)
    exact ⟨by rw [List.cons_append, List.takeWhile_cons_of_pos (by simpa using hc), this.1], by rw [List.cons_append, List.dropWhile_cons_of_pos (by simpa using hc), this.2]⟩

theorem closingTicks_step {f n pos : Nat} {a y : Str} {m : Nat} {bt : Nat → Nat} (h : ∀ c ∈ a, c ≠ '`') (hy : y.head? ≠ some '`') :
    ∃ bt', closingTicksLoop n (f + 1) (a ++ (List.replicate (m + 1) '`' ++ y)) pos bt =
      if m + 1 = n then (some (pos + a.length + (m + 1)), bt') else closingTicksLoop n f y (pos + a.length + (m + 1)) bt' := by
  have h1 := takeWhile_notick (a := a) (r := List.replicate (m + 1) '`' ++ y) h (by rw [List.replicate_succ]; rfl)
  have hn : ((List.replicate (m + 1) '`' ++ y).takeWhile (· == '`')).length = m + 1 := by
    rw [takeWhile_run (by intro c hc hcc; exact hy (by rw [← hcc]; exact hc))]
    simp
  have e : List.replicate (m + 1) '`' ++ y = '`' :: (List.replicate m '`' ++ y) := by rw [List.replicate_succ]; rfl
  have hd : (List.replicate (m + 1) '`' ++ y).drop (m + 1) = y := List.drop_left' (by simp)
  refine ⟨if m + 1 ≤ 1000 then fun i => if i = m + 1 then pos + a.length + (m + 1) - (m + 1) else bt i else bt, ?_⟩
  conv_lhs => unfold closingTicksLoop
  rw [h1.1, h1.2]
  rw [e] at hn hd ⊢
  simp only [hn, hd]

theorem closingTicks_found {n : Nat} {y : Str} (hy : y.head? ≠ some '`') (k : Nat) : ∀ (body : Str) (f pos : Nat) (bt : Nat → Nat), body.length ≤ k → body.length < f →
    body.getLast? ≠ some '`' → (∀ u v, body = u ++ List.replicate (n + 1) '`' ++ v → u.getLast? = some '`' ∨ v.head? = some '`') →
    ∃ bt', closingTicksLoop (n + 1) f (body ++ (List.replicate (n + 1) '`' ++ y)) pos bt = (some (pos + body.length + (n + 1)), bt') := by
  induction k with
  | zero =>
    intro body f pos bt hk hf hl hn
    have : body = [] := by simpa using hk
    subst this
    cases f with
    | zero => omega
    | succ f =>
      obtain ⟨bt', h⟩ := closingTicks_step (f := f) (n := n + 1) (pos := pos) (a := []) (m := n) (bt := bt) (by simp) hy
      exact ⟨bt', by rw [h, if_pos rfl]⟩
  | succ k ih =>
    intro body f pos bt hk hf hl hn
    cases f with
    | zero => omega
    | succ f =>
      obtain ⟨a, r, e, ha, hr⟩ := notick_split body
      rcases hr with rfl | hr
      · rw [List.append_nil] at e
        subst e
        obtain ⟨bt', h⟩ := closingTicks_step (f := f) (n := n + 1) (pos := pos) (m := n) (bt := bt) ha hy
        exact ⟨bt', by rw [h, if_pos rfl]⟩
      · obtain ⟨m, b, e', hb⟩ := tick_split r
        cases m with
        | zero => rw [e'] at hr; exact absurd hr hb
        | succ m =>
          subst e' e
          have hbn : b ≠ [] := by
            rintro rfl
            apply hl
            rw [List.append_nil, List.replicate_succ', ← List.append_assoc, List.getLast?_concat]
          have hlast : b.getLast? ≠ some '`' := by
            rwa [List.getLast?_append_of_ne_nil _ (by simp [hbn]), List.getLast?_append_of_ne_nil _ hbn] at hl
          have hmn : m + 1 ≠ n + 1 := by
            intro hmn
            rcases hn a b (by rw [hmn, List.append_assoc]) with h | h
            · exact ha _ (List.mem_of_getLast? h) rfl
            · exact hb h
          obtain ⟨bt1, h1⟩ := closingTicks_step (f := f) (n := n + 1) (pos := pos) (m := m) (bt := bt) ha (y := b ++ (List.replicate (n + 1) '`' ++ y))
            (by cases b with
                | nil => exact absurd rfl hbn
                | cons d b => simpa using hb)
          simp only [List.length_append, List.length_replicate] at hk hf
          obtain ⟨bt2, h2⟩ := ih b f (pos + a.length + (m + 1)) bt1 (by omega) (by omega) hlast (by
            intro u v e
            have h3 := hn (a ++ List.replicate (m + 1) '`' ++ u) v (by rw [e]; simp)
            rcases h3 with h3 | h3
            · cases u with
              | nil =>
                exfalso
                apply hb
                rw [e, List.nil_append, List.replicate_succ]
                rfl
              | cons d u =>
                rw [List.getLast?_append_of_ne_nil _ (by simp)] at h3
                exact .inl h3
            · exact .inr h3)
          refine ⟨bt2, ?_⟩
          rw [show a ++ (List.replicate (m + 1) '`' ++ b) ++ (List.replicate (n + 1) '`' ++ y) = a ++ (List.replicate (m + 1) '`' ++ (b ++ (List.replicate (n + 1) '`' ++ y))) by simp,
            h1, if_neg hmn, h2]
          simp only [List.length_append, List.length_replicate]
          congr 2
          omega

/-! ### Ampersands and angle brackets -/

theorem namedLoop_none {E : Env} : ∀ (f : Nat) (name t : Str) (b : Buf), ';' ∉ t → namedLoop E f name t b = (0, b) := by
  intro f
  induction f with
  | zero => intro name t b _; rfl
  | succ f ih =>
    intro name t b h
    cases t with
    | nil => rfl
    | cons c t =>
      unfold namedLoop
      split
      · rfl
      · rw [if_neg (by rintro rfl; simp at h)]
        exact ih _ _ _ (fun hh => h (by simp [hh]))

theorem decDigits_rest {E : Env} : ∀ (t : Str) (cp : Int) (n : Nat), ∀ c ∈ (decDigits E t cp n).2.2, c ∈ t := by
  intro t
  induction t with
  | nil => intro cp n c hc; exact hc
  | cons d t ih =>
    intro cp n c hc
    unfold decDigits at hc
    split at hc
    · exact List.mem_cons_of_mem _ (ih _ _ c hc)
    · exact hc

theorem hexDigits_rest {E : Env} : ∀ (t : Str) (cp : Int) (n : Nat), ∀ c ∈ (hexDigits E t cp n).2.2, c ∈ t := by
  intro t
  induction t with
  | nil => intro cp n c hc; exact hc
  | cons d t ih =>
    intro cp n c hc
    unfold hexDigits at hc
    split at hc
    · exact List.mem_cons_of_mem _ (ih _ _ c hc)
    · exact hc

theorem numericEnd_none {skip mx : Nat} {r : Int × Nat × Str} {b : Buf} (h : ';' ∉ r.2.2) : numericEnd skip mx r b = .ok (0, b) := by
  obtain ⟨cp, n, t⟩ := r
  unfold numericEnd
  split
  · rename_i heq
    obtain ⟨-, -, rfl⟩ := heq
    simp at h
  · rfl

theorem unescapeEnt_none {E : Env} {t : Str} {b : Buf} (h : ';' ∉ t) : unescapeEnt E t b = .ok (0, b) := by
  unfold unescapeEnt
  split
  · rename_i d e u
    split
    · exact numericEnd_none (fun hh => h (List.mem_cons_of_mem _ (decDigits_rest _ _ _ _ hh)))
    · split
      · exact numericEnd_none (fun hh => h (List.mem_cons_of_mem _ (List.mem_cons_of_mem _ (hexDigits_rest _ _ _ _ hh))))
      · rfl
  · rw [namedLoop_none]
    intro hh
    exact h (by simp [hh])
  · rfl

theorem namedLoop_jump {E : Env} : ∀ (f : Nat) (name t : Str) (b : Buf), (namedLoop E f name t b).1 = 0 ∨
    ∃ a v, t = a ++ ';' :: v ∧ ' ' ∉ a ∧ ';' ∉ a ∧ (namedLoop E f name t b).1 = name.length + a.length + 1 := by
  intro f
  induction f with
  | zero => intro name t b; exact .inl rfl
  | succ f ih =>
    intro name t b
    cases t with
    | nil => exact .inl rfl
    | cons c t =>
      unfold namedLoop
      split
      · exact .inl rfl
      · rename_i hc1
        split
        · rename_i hc2
          subst hc2
          split
          · exact .inr ⟨[], t, rfl, by simp, by simp, by simp⟩
          · exact .inl rfl
        · rename_i hc2
          rcases ih (c :: name) t b with h | ⟨a, v, rfl, h1, h2, h3⟩
          · exact .inl h
          · refine .inr ⟨c :: a, v, rfl, ?_, ?_, ?_⟩
            · simp [h1, Ne.symm hc1]
            · simp [h2, Ne.symm hc2]
            · rw [h3]; simp; omega

theorem plain_semi : Plain ';' := by unfold Plain; decide

theorem unescapeEnt_jump {E : Env} {src : Str} {b : Buf} (h : AfterAmp src) : ∃ w y b', src = w ++ y ∧ (∀ c ∈ w, Plain c) ∧ unescapeEnt E src b = .ok (w.length, b') := by
  rcases h with h | ⟨h0, u, v, rfl, hu, hv⟩
  · exact ⟨[], src, b, rfl, by simp, unescapeEnt_none h⟩
  · generalize hs : u ++ v = src at h0
    unfold unescapeEnt
    split
    · simp at h0
    · rename_i c0 c1 t _
      rcases namedLoop_jump (E := E) 30 [c1, c0] t b with h | ⟨a, z, rfl, h1, h2, h3⟩
      · exact ⟨[], _, _, rfl, by simp, congrArg Except.ok (Prod.ext_iff.mpr ⟨h, rfl⟩)⟩
      · refine ⟨c0 :: c1 :: (a ++ [';']), z, (namedLoop E 30 [c1, c0] (a ++ ';' :: z) b).2, by simp, ?_, ?_⟩
        · rcases hv with rfl | ⟨h4, h5⟩
          · intro c hc
            rw [List.append_nil] at hs
            refine hu c ?_
            rw [hs]
            simp only [List.mem_cons, List.mem_append, List.mem_nil_iff, or_false] at hc ⊢
            tauto
          · obtain ⟨d0, d1, u, rfl⟩ : ∃ d0 d1 u', u = d0 :: d1 :: u' := by
              match u, h4 with
              | d0 :: d1 :: u', _ => exact ⟨d0, d1, u', rfl⟩
            injection hs with e0 hs
            injection hs with e1 hs
            subst e0 e1
            have ha : ∀ c ∈ a, Plain c := by
              rcases List.append_eq_append_iff.mp hs with ⟨x, rfl, e⟩ | ⟨x, rfl, e⟩
              · cases x with
                | nil => intro c hc; exact hu c (by simp at hc; simp [hc])
                | cons d x =>
                  rw [e] at h5
                  simp only [List.cons_append, List.head?_cons, Option.some.injEq] at h5
                  rcases h5 with rfl | rfl
                  · simp at h2
                  · simp at h1
              · intro c hc
                exact hu c (by simp [hc])
            intro c hc
            simp only [List.mem_cons, List.mem_append, List.mem_nil_iff, or_false] at hc
            rcases hc with rfl | rfl | hc | rfl
            · exact hu _ (by simp)
            · exact hu _ (by simp)
            · exact ha c hc
            · exact plain_semi
        · refine congrArg Except.ok (Prod.ext_iff.mpr ⟨h3.trans ?_, rfl⟩)
          simp
          omega
    · exact ⟨[], _, b, rfl, by simp, rfl⟩

theorem parseInline_amp {E : Env} {s : Subj} {y : Str} (hr : restFrom s (s.pos + 1) = y) (hy : AfterAmp y) :
    ∃ w y', y = w ++ y' ∧ (∀ c ∈ w, Plain c) ∧ parseInline E s '&' = .ok { s with pos := s.pos + 1 + w.length } := by
  obtain ⟨w, y', b', e, hw, h⟩ := unescapeEnt_jump (E := E) (b := ⟨[], 0⟩) hy
  refine ⟨w, y', e, hw, ?_⟩
  unfold parseInline
  rw [if_neg (by decide), if_neg (by decide), if_neg (by decide), if_pos rfl]
  unfold handleEntity
  rw [hr, h]
  rfl

/-! ### Angle brackets -/

theorem scanAt_eq {E : Env} {r : Re} {s : Subj} {k : Nat} {x z : Str} (hk : k ≤ s.len) (hd : s.data.drop k = x ++ z) (hm : r.matchRest E.isWord (x ++ z) = some z) : scanAt E r s k = x.length := by
  unfold scanAt
  rw [if_neg (by omega), hd, hm]
  have := congrArg List.length hd
  simp only [List.length_drop, List.length_append] at this
  simp only
  omega

theorem scanAt_zero {E : Env} {r : Re} {s : Subj} {k : Nat} (hm : r.matchRest E.isWord (s.data.drop k) = none) : scanAt E r s k = 0 := by
  unfold scanAt
  rw [hm]
  simp

theorem unescapeHtml_ok {E : Env} {f : Nat} : ∀ {src : Str} {b : Buf}, src.length < f → (';' ∉ src ∨ '&' ∉ src) → ∃ b', unescapeHtml E f src b = .ok b' := by
  induction f with
  | zero => intro src b h; omega
  | succ f ih =>
    intro src b hf h
    unfold unescapeHtml
    simp only
    have hsub : ∀ c ∈ src.dropWhile (· != '&'), c ∈ src := fun c hc => (List.dropWhile_sublist _).subset hc
    have hle : (src.dropWhile (· != '&')).length ≤ src.length := (List.dropWhile_sublist _).length_le
    have hhead : ∀ c ∈ (src.dropWhile (· != '&')).head?, c = '&' := by
      intro c hc
      have := List.head?_dropWhile_not (fun c => c != '&') src
      rw [hc] at this
      simpa using this
    cases hd : src.dropWhile (· != '&') with
    | nil => exact ⟨_, rfl⟩
    | cons c t =>
      rw [hd] at hsub hle hhead
      have hc : c = '&' := hhead c rfl
      subst hc
      have h1 : ';' ∉ t := by
        rcases h with h | h
        · exact fun hh => h (hsub _ (by simp [hh]))
        · exact absurd (hsub '&' (by simp)) h
      simp only [unescapeEnt_none h1, bind, Except.bind, if_true, List.drop_zero]
      refine ih (by simp at hle; omega) (.inl h1)

theorem makeAutolink_ok {E : Env} {u : Str} (h : ';' ∉ u ∨ '&' ∉ u) : makeAutolink E u = .ok () := by
  unfold makeAutolink
  have hsub : ∀ c, c ∈ chunkTrim u → c ∈ u := by
    intro c hc
    unfold chunkTrim strip at hc
    exact (List.dropWhile_sublist _).subset ((rstrip_prefix _ _).subset hc)
  obtain ⟨b', hb⟩ := unescapeHtml_ok (E := E) (f := (chunkTrim u).length + 1) (src := chunkTrim u) (b := ⟨[], 0⟩) (Nat.lt_succ_self _)
    (h.imp (fun h hh => h (hsub _ hh)) (fun h hh => h (hsub _ hh)))
  simp only [hb, bind, Except.bind]

theorem uri_none {w : Char → Bool} {s : Str} (h : s.head? ≠ some ':') : Rx.autolinkUri.matchRest w s = none := by
  refine Re.matchRest_nothing Re.is_uri ?_
  rintro x y rfl ⟨u, hu, -⟩
  injection hu with _ hu
  rw [hu] at h
  simp at h

theorem email_none {w : Char → Bool} {ins z : Str} (h : ∀ e, e <+: '<' :: (ins ++ ['>']) → ¬ ScanEmail e) : Rx.autolinkEmail.matchRest w (ins ++ '>' :: z) = none := by
  refine Re.matchRest_nothing Re.is_email ?_
  intro x y e hx
  refine h _ ?_ hx
  obtain ⟨b, e1, -, hb⟩ := Re.email_inside hx
  have e1 := (List.cons.inj e1).2
  change x = b ++ ['>'] at e1
  subst e1
  rw [List.append_assoc] at e
  have hle := Re.run_before e (fun hh => (hb _ hh).1 rfl)
  rw [List.cons_prefix_cons]
  refine ⟨rfl, List.prefix_of_prefix_length_le (l₃ := ins ++ '>' :: z) ⟨y, by rw [e]; simp⟩ ⟨z, by simp⟩ (by simp; omega)⟩

theorem autolinkUri_ends {w : Char → Bool} : ∀ p s p' s', Rx.autolinkUri.Lang w p s p' s' → ∃ m, s = m ++ ['>'] ++ s' :=
  fun _ _ _ _ h => Re.Ends.seqs Re.ends_chr [_, _] h

theorem autolinkEmail_ends {w : Char → Bool} : ∀ p s p' s', Rx.autolinkEmail.Lang w p s p' s' → ∃ m, s = m ++ ['>'] ++ s' :=
  fun _ _ _ _ h => Re.Ends.seqs Re.ends_chr [_, _, _, _] h

theorem htmltag_ends {w : Char → Bool} : ∀ p s p' s', Rx.htmltag.Lang w p s p' s' → ∃ m, s = m ++ ['>'] ++ s' := by
  intro p s p' s' h
  rcases h with h | h
  · exact Re.Ends.seqs Re.ends_chr [_, _, _, _] h
  · exact Re.Ends.seqs Re.ends_chr [_, _, _] h

/-- Where a tag, a comment and so on can be found by the parser. -/
structure At (s : Subj) (ins y : Str) : Prop where
  rest : restFrom s (s.pos + 1) = ins ++ '>' :: y
  data : ∃ t, s.data.drop (s.pos + 1) = ins ++ '>' :: (y ++ t)
  len : s.pos + 1 + (ins.length + 1) ≤ s.len

theorem pointy_autolink {E : Env} {s : Subj} {ins y : Str} (ha : At s ins y) (h : (ScanUri ('<' :: (ins ++ ['>'])) ∧ '&' ∉ ins) ∨ ScanEmail ('<' :: (ins ++ ['>']))) :
    handlePointyBrace E s = .ok { s with pos := s.pos + 1 + (ins.length + 1) } := by
  obtain ⟨t, hd⟩ := ha.data
  have hlen := ha.len
  have hd' : s.data.drop (s.pos + 1) = (ins ++ ['>']) ++ (y ++ t) := by rw [hd]; simp
  have htake : (s.data.drop (s.pos + 1)).take (ins.length + 1 - 1) = ins := by rw [hd]; simp
  unfold handlePointyBrace
  rcases h with ⟨h, ha⟩ | h
  · have h1 : scanAt E Rx.autolinkUri { s with pos := s.pos + 1 } (s.pos + 1) = ins.length + 1 := by
      rw [scanAt_eq (s := { s with pos := s.pos + 1 }) (by simp only; omega) hd' (Re.matchRest_piece Re.is_uri Re.prefixFree_uri h _)]
      simp
    simp only [h1, htake]
    rw [if_pos (by omega), makeAutolink_ok (.inr ha)]
    rfl
  · obtain ⟨b, e, hb0, hb⟩ := Re.email_inside h
    have e2 : ins = b := by
      injection e with _ e
      exact List.append_cancel_right e
    subst e2
    have h0 : scanAt E Rx.autolinkUri { s with pos := s.pos + 1 } (s.pos + 1) = 0 := by
      refine scanAt_zero ?_
      rw [hd]
      refine uri_none ?_
      obtain ⟨u, l, m, hu, hu0, hu1, -⟩ := h
      cases u with
      | nil => exact absurd rfl hu0
      | cons c u =>
        injection hu with _ hu
        have hc := hu1 c (by simp)
        cases ins with
        | nil => exact absurd rfl hb0
        | cons d ins =>
          injection hu with hu _
          subst hu
          simp only [List.cons_append, List.head?_cons, ne_eq, Option.some.injEq]
          rintro rfl
          rcases hc with hc | hc | hc
          · unfold Letter at hc; revert hc; decide
          · unfold Digit at hc; revert hc; decide
          · revert hc; decide
    have h1 : scanAt E Rx.autolinkEmail { s with pos := s.pos + 1 } (s.pos + 1) = ins.length + 1 := by
      rw [scanAt_eq (s := { s with pos := s.pos + 1 }) (by simp only; omega) hd' (Re.matchRest_piece Re.is_email Re.prefixFree_email h _)]
      simp
    simp only [h0, h1, htake]
    rw [if_neg (by omega), if_pos (by omega), makeAutolink_ok (.inl (fun hh => (hb _ hh).2.1 rfl))]
    rfl

theorem pointy_html {E : Env} {s : Subj} {ins y : Str} (ha : At s ins y) (h0 : ins.head? ≠ some ':') (h1 : ins ≠ []) (h2 : ∀ e, e <+: '<' :: (ins ++ ['>']) → ¬ ScanEmail e)
    (h3 : pointyHtml E { s with pos := s.pos + 1 } = (ins.length + 1, { s with pos := s.pos + 1 })) : handlePointyBrace E s = .ok { s with pos := s.pos + 1 + (ins.length + 1) } := by
  obtain ⟨t, hd⟩ := ha.data
  unfold handlePointyBrace
  have e1 : scanAt E Rx.autolinkUri { s with pos := s.pos + 1 } (s.pos + 1) = 0 := by
    refine scanAt_zero ?_
    rw [hd]
    refine uri_none ?_
    cases ins with
    | nil => exact absurd rfl h1
    | cons c ins => simpa using h0
  have e2 : scanAt E Rx.autolinkEmail { s with pos := s.pos + 1 } (s.pos + 1) = 0 := by
    refine scanAt_zero ?_
    rw [hd]
    exact email_none h2
  simp only [e1, e2, h3]
  rw [if_neg (by omega), if_neg (by omega)]

theorem tag_head {ins : Str} (h : ScanOpen ('<' :: (ins ++ ['>'])) ∨ ScanClose ('<' :: (ins ++ ['>']))) : ∃ c t, ins = c :: t ∧ c ≠ '!' ∧ c ≠ '?' ∧ c ≠ ':' := by
  have hl : ∀ c, Letter c → c ≠ '!' ∧ c ≠ '?' ∧ c ≠ ':' := by
    intro c hc
    unfold Letter at hc
    refine ⟨?_, ?_, ?_⟩ <;> (rintro rfl; revert hc; decide)
  rcases h with ⟨n, a, b, e, h, ⟨c, t, rfl, hc, -⟩, -⟩ | ⟨n, -, b, h, -⟩
  · injection h with _ h
    have h' : ins = c :: (t ++ a ++ b ++ e) := by
      apply List.append_cancel_right (bs := ['>'])
      rw [h]
      simp
    exact ⟨c, _, h', hl c hc⟩
  · injection h with _ h
    have h' : ins = '/' :: (n ++ b) := by
      apply List.append_cancel_right (bs := ['>'])
      rw [h]
      simp
    exact ⟨'/', _, h', by decide⟩

theorem html_tag {E : Env} {s : Subj} {ins y : Str} (ha : At s ins y) (h : ScanOpen ('<' :: (ins ++ ['>'])) ∨ ScanClose ('<' :: (ins ++ ['>']))) :
    pointyHtml E { s with pos := s.pos + 1 } = (ins.length + 1, { s with pos := s.pos + 1 }) := by
  obtain ⟨c, t, e, h1, h2, -⟩ := tag_head h
  obtain ⟨z, hd⟩ := ha.data
  have hd' : s.data.drop (s.pos + 1) = (ins ++ ['>']) ++ (y ++ z) := by rw [hd]; simp
  have hlen := ha.len
  have hr : restFrom { s with pos := s.pos + 1 } (s.pos + 1) = c :: (t ++ '>' :: y) := by rw [← List.cons_append, ← e]; exact ha.rest
  have hm : scanAt E Rx.htmltag { s with pos := s.pos + 1 } (s.pos + 1) = ins.length + 1 := by
    rw [scanAt_eq (s := { s with pos := s.pos + 1 }) (by simp only; omega) hd' (Re.matchRest_piece Re.is_htmltag Re.prefixFree_htmltag h _)]
    simp
  unfold pointyHtml
  simp only [hr]
  cases t with
  | nil => simp only [List.nil_append]; rw [if_neg h1, if_neg h2, hm]
  | cons d t => simp only [List.cons_append]; rw [if_neg h1, if_neg h2, hm]

theorem html_comment {E : Env} {s : Subj} {ins y : Str} (ha : At s ins y) (h0 : '\x00' ∉ ins) (h : CMComment ('<' :: (ins ++ ['>']))) :
    pointyHtml E { s with pos := s.pos + 1 } = (ins.length + 1, { s with pos := s.pos + 1 }) := by
  obtain ⟨b, e, h1, h2, h3, h4⟩ := h
  have e' : ins = '!' :: '-' :: '-' :: (b ++ ['-', '-']) := by
    have h : '<' :: (ins ++ ['>']) = '<' :: (('!' :: '-' :: '-' :: (b ++ ['-', '-'])) ++ ['>']) := e.trans (by simp)
    exact List.append_cancel_right (List.cons.inj h).2
  obtain ⟨z, hd⟩ := ha.data
  have hlen := ha.len
  have hd' : s.data.drop (s.pos + 1 + 2) = ('-' :: b ++ "-->".toList) ++ (y ++ z) := by
    rw [← List.drop_drop, hd, e']
    simp
  have hr : restFrom { s with pos := s.pos + 1 } (s.pos + 1) = '!' :: '-' :: ('-' :: (b ++ ['-', '-']) ++ '>' :: y) := by rw [← List.cons_append, ← List.cons_append, ← e']; exact ha.rest
  have hm : scanAt E Rx.htmlcomment { s with pos := s.pos + 1 } (s.pos + 1 + 2) = ('-' :: b ++ "-->".toList).length :=
    scanAt_eq (s := { s with pos := s.pos + 1 }) (by simp only; rw [e'] at hlen; simp at hlen; omega) hd'
      (Re.matchRest_piece Re.is_htmlcomment Re.prefixFree_scanComment ⟨b, rfl, fun hh => h0 (by rw [e']; simp [hh]), h1, h2, h3, h4⟩ _)
  unfold pointyHtml
  simp only [hr]
  rw [if_pos trivial, if_pos trivial, hm, if_pos (by simp)]
  simp [e']

theorem html_instruction {E : Env} {s : Subj} {ins y : Str} (ha : At s ins y) (h0 : '\x00' ∉ ins) (hf : s.skipPi = false) (h : ScanInstruction ('<' :: (ins ++ ['>']))) :
    pointyHtml E { s with pos := s.pos + 1 } = (ins.length + 1, { s with pos := s.pos + 1 }) := by
  obtain ⟨b, e, h1⟩ := h
  have e' : ins = '?' :: (b ++ ['?']) := by
    have h : '<' :: (ins ++ ['>']) = '<' :: (('?' :: (b ++ ['?'])) ++ ['>']) := e.trans (by simp)
    exact List.append_cancel_right (List.cons.inj h).2
  obtain ⟨z, hd⟩ := ha.data
  have hlen := ha.len
  have hb0 : '\x00' ∉ b := fun hh => h0 (by rw [e']; simp [hh])
  have hd' : s.data.drop (s.pos + 1 + 1) = b ++ '?' :: '>' :: (y ++ z) := by
    rw [← List.drop_drop, hd, e']
    simp
  have hr : ∃ d u, restFrom { s with pos := s.pos + 1 } (s.pos + 1) = '?' :: d :: u := by
    have : restFrom { s with pos := s.pos + 1 } (s.pos + 1) = '?' :: ((b ++ ['?']) ++ '>' :: y) := by rw [← List.cons_append, ← e']; exact ha.rest
    rw [this]
    cases b with
    | nil => exact ⟨_, _, rfl⟩
    | cons d b => exact ⟨_, _, rfl⟩
  obtain ⟨d, u, hr⟩ := hr
  have hm : scanAt E Rx.processinginstruction { s with pos := s.pos + 1 } (s.pos + 1 + 1) = b.length := by
    have := Re.pi_rest (w := E.isWord) (y ++ z) h1 hb0
    by_cases hb : b = []
    · subst hb
      rw [if_pos rfl] at this
      refine scanAt_zero ?_
      rw [hd']
      exact this
    · rw [if_neg hb] at this
      exact scanAt_eq (s := { s with pos := s.pos + 1 }) (by simp only; rw [e'] at hlen; simp at hlen; omega) hd' this
  unfold pointyHtml
  simp only [hr]
  rw [if_neg (by decide), if_pos trivial, if_neg (by simp [hf]), hm]
  rw [e'] at hlen
  simp only [List.length_cons, List.length_append, List.length_nil] at hlen
  rw [if_neg (by omega)]
  simp [e']

theorem html_declaration {E : Env} {s : Subj} {ins y : Str} (ha : At s ins y) (h0 : '\x00' ∉ ins) (hf : s.skipDecl = false) (h : CMDeclaration ('<' :: (ins ++ ['>']))) :
    pointyHtml E { s with pos := s.pos + 1 } = (ins.length + 1, { s with pos := s.pos + 1 }) := by
  obtain ⟨n, a, b, e, hn, hu, ha0, haw, hb⟩ := h
  have e' : ins = '!' :: (n ++ (a ++ b)) := by
    have h : '<' :: (ins ++ ['>']) = '<' :: (('!' :: (n ++ (a ++ b))) ++ ['>']) := e.trans (by simp)
    exact List.append_cancel_right (List.cons.inj h).2
  obtain ⟨z, hd⟩ := ha.data
  have hlen := ha.len
  have hb0 : '\x00' ∉ b := fun hh => h0 (by rw [e']; simp [hh])
  have hd' : s.data.drop (s.pos + 1 + 1) = (n ++ (a ++ b)) ++ '>' :: (y ++ z) := by
    rw [← List.drop_drop, hd, e']
    simp
  have hm : scanAt E Rx.declaration { s with pos := s.pos + 1 } (s.pos + 1 + 1) = (n ++ (a ++ b)).length := by
    refine scanAt_eq (s := { s with pos := s.pos + 1 }) (by simp only; omega) hd' ?_
    have := Re.de_rest (w := E.isWord) (y ++ z) hn hu ha0 haw hb hb0
    rwa [show n ++ (a ++ b) ++ '>' :: (y ++ z) = n ++ (a ++ (b ++ '>' :: (y ++ z))) by simp]
  have hpos : 0 < (n ++ (a ++ b)).length := by
    cases n with
    | nil => exact absurd rfl hn
    | cons c n => simp
  have hr : ∃ d u, restFrom { s with pos := s.pos + 1 } (s.pos + 1) = '!' :: d :: u ∧ d ≠ '-' ∧ d ≠ '[' := by
    have : restFrom { s with pos := s.pos + 1 } (s.pos + 1) = '!' :: ((n ++ (a ++ b)) ++ '>' :: y) := by rw [← List.cons_append, ← e']; exact ha.rest
    rw [this]
    cases n with
    | nil => exact absurd rfl hn
    | cons d n =>
      have hd := hu d (by simp)
      unfold Upper at hd
      refine ⟨_, _, rfl, ?_, ?_⟩ <;> (rintro rfl; revert hd; decide)
  obtain ⟨d, u, hr, h1, h2⟩ := hr
  unfold pointyHtml
  simp only [hr]
  rw [if_pos trivial, if_neg h1, if_neg h2, if_neg (by simp [hf]), hm]
  rw [if_pos hpos, if_neg]
  · rw [e']; rfl
  · rw [e'] at hlen
    simp only [List.length_cons] at hlen
    omega

theorem html_cdata {E : Env} {s : Subj} {ins y : Str} (ha : At s ins y) (h0 : '\x00' ∉ ins) (hf : s.skipCdata = false) (h : ScanCData ('<' :: (ins ++ ['>']))) :
    pointyHtml E { s with pos := s.pos + 1 } = (ins.length + 1, { s with pos := s.pos + 1 }) := by
  obtain ⟨b, e, h1⟩ := h
  have e' : ins = '!' :: '[' :: ("CDATA[".toList ++ (b ++ [']', ']'])) := by
    have h : '<' :: (ins ++ ['>']) = '<' :: (('!' :: '[' :: ("CDATA[".toList ++ (b ++ [']', ']']))) ++ ['>']) := e.trans (by simp)
    exact List.append_cancel_right (List.cons.inj h).2
  obtain ⟨z, hd⟩ := ha.data
  have hlen := ha.len
  have hb0 : '\x00' ∉ b := fun hh => h0 (by rw [e']; simp [hh])
  have hd' : s.data.drop (s.pos + 1 + 2) = ("CDATA[".toList ++ b) ++ ']' :: ']' :: '>' :: (y ++ z) := by
    rw [← List.drop_drop, hd, e']
    simp
  have hm : scanAt E Rx.cdata { s with pos := s.pos + 1 } (s.pos + 1 + 2) = ("CDATA[".toList ++ b).length := by
    refine scanAt_eq (s := { s with pos := s.pos + 1 }) (by simp only; rw [e'] at hlen; simp at hlen; omega) hd' ?_
    rw [List.append_assoc]
    exact Re.cd_rest (w := E.isWord) (y ++ z) h1 hb0
  have hr : restFrom { s with pos := s.pos + 1 } (s.pos + 1) = '!' :: '[' :: (("CDATA[".toList ++ (b ++ [']', ']'])) ++ '>' :: y) := by rw [← List.cons_append, ← List.cons_append, ← e']; exact ha.rest
  unfold pointyHtml
  simp only [hr]
  rw [if_pos trivial, if_neg (by decide), if_pos trivial, if_neg (by simp [hf]), hm]
  rw [if_pos (by simp), if_neg]
  · rw [e']; simp
  · rw [e'] at hlen
    simp only [List.length_cons, List.length_append, List.length_nil] at hlen ⊢
    omega

/-- The flags that the parser sets when it finds no end of a code span or of inline HTML are not set. -/
def Unflagged (s : Subj) : Prop := s.scanned = false ∧ s.skipCdata = false ∧ s.skipDecl = false ∧ s.skipPi = false

theorem parseInline_raw {E : Env} {s : Subj} {ins y : Str} (ha : At s ins y) (hf : Unflagged s) (h : RawInline ('<' :: (ins ++ ['>']))) :
    parseInline E s '<' = .ok { s with pos := s.pos + 1 + (ins.length + 1) } := by
  obtain ⟨h0, h⟩ := h
  have h0' : '\x00' ∉ ins := fun hh => h0 (by simp [hh])
  obtain ⟨-, f1, f2, f3⟩ := hf
  unfold parseInline
  rw [if_neg (by decide), if_neg (by decide), if_neg (by decide), if_neg (by decide), if_pos rfl]
  have hhead : ∀ {l : Str} {c : Char} {t : Str}, '<' :: (ins ++ ['>']) = l → l = '<' :: c :: t → c ≠ '>' → ins.head? = some c := by
    intro l c t e e2 hc
    rw [e2] at e
    injection e with _ e
    cases ins with
    | nil => injection e with e _; exact absurd e.symm hc
    | cons d ins => injection e with e _; rw [e]; rfl
  have hne : ∀ {c : Char}, ins.head? = some c → ins ≠ [] := by
    rintro c h rfl
    simp at h
  rcases h with h | ⟨hm, h | h | ⟨h, hamp⟩ | h | h | h | h⟩
  · exact pointy_autolink ha (.inr h)
  · obtain ⟨c, t, e, -, -, hc⟩ := tag_head (.inl h)
    exact pointy_html ha (by rw [e]; simpa using hc) (by rw [e]; simp) hm (html_tag ha (.inl h))
  · obtain ⟨c, t, e, -, -, hc⟩ := tag_head (.inr h)
    exact pointy_html ha (by rw [e]; simpa using hc) (by rw [e]; simp) hm (html_tag ha (.inr h))
  · exact pointy_autolink ha (.inl ⟨h, fun hh => hamp (by simp [hh])⟩)
  · have hh := hhead (c := '!') h.choose_spec.1 rfl (by decide)
    exact pointy_html ha (by rw [hh]; decide) (hne hh) hm (html_comment ha h0' h)
  · have hh := hhead (c := '?') h.choose_spec.1 rfl (by decide)
    exact pointy_html ha (by rw [hh]; decide) (hne hh) hm (html_instruction ha h0' f3 h)
  · obtain ⟨n, a, b, e, -⟩ := id h
    have hh := hhead (c := '!') e rfl (by decide)
    exact pointy_html ha (by rw [hh]; decide) (hne hh) hm (html_declaration ha h0' f2 h)
  · have hh := hhead (c := '!') h.choose_spec.1 rfl (by decide)
    exact pointy_html ha (by rw [hh]; decide) (hne hh) hm (html_cdata ha h0' f1 h)

theorem tag_end {x : Str} (h : ScanTag x) : ∃ u, x = u ++ ['>'] := by
  rcases h with ⟨n, a, b, e, rfl, -⟩ | ⟨n, -, b, rfl, -⟩ | ⟨u, rfl, -⟩ | ⟨u, l, m, rfl, -⟩
  · exact ⟨_, rfl⟩
  · exact ⟨_, rfl⟩
  · exact ⟨_, rfl⟩
  · exact ⟨_, rfl⟩

theorem no_tag {y t : Str} (ht : '>' ∉ t) (h : ∀ x z, '<' :: y = x ++ z → ¬ ScanTag x) : ∀ x z, '<' :: (y ++ t) = x ++ z → ¬ ScanTag x := by
  intro x z e hx
  obtain ⟨u, rfl⟩ := tag_end hx
  have hle : (u ++ ['>']).length ≤ ('<' :: y).length := by
    by_contra hlt
    have h1 : '<' :: y <+: u ++ ['>'] := List.prefix_of_prefix_length_le (l₃ := '<' :: (y ++ t)) ⟨t, rfl⟩ ⟨z, e.symm⟩ (by omega)
    obtain ⟨v, hv⟩ := h1
    rw [← hv, List.append_assoc, ← List.cons_append] at e
    have e := List.append_cancel_left e
    have hlv : v ≠ [] := by
      rintro rfl
      rw [List.append_nil] at hv
      rw [← hv] at hlt
      exact hlt (Nat.le_refl _)
    have : v.getLast? = some '>' := by
      have := congrArg List.getLast? hv
      rwa [List.getLast?_append_of_ne_nil _ hlv, List.getLast?_concat] at this
    exact ht (by rw [e]; exact List.mem_append_left _ (List.mem_of_getLast? this))
  obtain ⟨v, hv⟩ := List.prefix_of_prefix_length_le (l₃ := '<' :: (y ++ t)) ⟨z, e.symm⟩ ⟨t, rfl⟩ hle
  exact h _ v hv.symm hx

theorem parseInline_lt {E : Env} {s : Subj} {y : Str} (hr : restFrom s (s.pos + 1) = y) (hd : ∀ x z, '<' :: s.data.drop (s.pos + 1) = x ++ z → ¬ ScanTag x) (h1 : y.head? ≠ some '!') (h2 : y.head? ≠ some '?') :
    parseInline E s '<' = .ok { s with pos := s.pos + 1 } := by
  unfold parseInline
  rw [if_neg (by decide), if_neg (by decide), if_neg (by decide), if_neg (by decide), if_pos rfl]
  unfold handlePointyBrace
  have hd' : ∀ u v, s.data.drop (s.pos + 1) = u ++ v → ¬ ScanTag ('<' :: u) := fun u v e => hd ('<' :: u) v (by rw [e]; rfl)
  have e1 : scanAt E Rx.autolinkUri { s with pos := s.pos + 1 } (s.pos + 1) = 0 :=
    scanAt_zero (Re.matchRest_nothing Re.is_uri (fun u v e h => hd' u v e (.inr (.inr (.inl h)))))
  have e2 : scanAt E Rx.autolinkEmail { s with pos := s.pos + 1 } (s.pos + 1) = 0 :=
    scanAt_zero (Re.matchRest_nothing Re.is_email (fun u v e h => hd' u v e (.inr (.inr (.inr h)))))
  have e3 : scanAt E Rx.htmltag { s with pos := s.pos + 1 } (s.pos + 1) = 0 :=
    scanAt_zero (Re.matchRest_nothing Re.is_htmltag (fun u v e h => hd' u v e (h.elim .inl (fun h => .inr (.inl h)))))
  simp only [e1, e2]
  rw [if_neg (by decide), if_neg (by decide)]
  have : pointyHtml E { s with pos := s.pos + 1 } = (0, { s with pos := s.pos + 1 }) := by
    unfold pointyHtml
    have hr' : restFrom { s with pos := s.pos + 1 } (s.pos + 1) = y := hr
    simp only [hr']
    split
    · rename_i c d t
      rw [if_neg (by rintro rfl; simp at h1), if_neg (by rintro rfl; simp at h2), e3]
    · rfl
  rw [this]
  rfl

/-! ### Pieces -/

/-- The brackets after a piece. -/
def pieceBrackets (s : Subj) : Piece → List Bracket
  | .char '[' => (pushBracket { s with pos := s.pos + 1 }).brackets
  | .char ']' => s.brackets.tail
  | _ => s.brackets

/-- What the parser does with a piece. -/
def StepsTo (E : Env) (s : Subj) (p : Piece) : Prop :=
  ∃ c s', p.text.head? = some c ∧ peek s = some c ∧ parseInline E s c = .ok s' ∧ s'.data = s.data ∧ s'.len = s.len ∧ s'.pos = s.pos + p.text.length ∧
    s'.delims = (pieceDelims s.pos p).reverse ++ s.delims ∧ (Unflagged s → Unflagged s') ∧ s'.ignore = s.ignore ∧ s'.brackets = pieceBrackets s p

/-- The same if the parser may jump over plain characters behind the piece, as behind `&`. -/
def JumpsTo (E : Env) (s : Subj) (p : Piece) (y : Str) : Prop :=
  ∃ w y' c s', y = w ++ y' ∧ (∀ d ∈ w, Plain d) ∧ p.text.head? = some c ∧ peek s = some c ∧ parseInline E s c = .ok s' ∧ s'.data = s.data ∧ s'.len = s.len ∧
    s'.pos = s.pos + p.text.length + w.length ∧
    s'.delims = (pieceDelims s.pos p).reverse ++ s.delims ∧ (Unflagged s → Unflagged s') ∧ s'.ignore = s.ignore ∧ s'.brackets = pieceBrackets s p

theorem StepsTo.jumps {E : Env} {s : Subj} {p : Piece} (h : StepsTo E s p) (y : Str) : JumpsTo E s p y := by
  obtain ⟨c, s', h1, h2, h3, h4, h5, h6, h7⟩ := h
  exact ⟨[], y, c, s', rfl, by simp, h1, h2, h3, h4, h5, h6, h7⟩

theorem steps_run {E : Env} {s : Subj} {D pre y : Str} {ch : Char} {n : Nat} {p : Piece} {o cl : Bool} (hs : On s D) (hD : D = pre ++ p.text ++ y) (hp : s.pos = pre.length)
    (ht : p.text = List.replicate (n + 1) ch) (h : IsRun E.isPCat ch pre y) (ho : o = true ↔ CanOpen E.isPCat ch pre.getLast? y.head?)
    (hcl : cl = true ↔ CanClose E.isPCat ch pre.getLast? y.head?) (hd : ∀ k, pieceDelims k p = if (o || cl) = true then [⟨k, n + 1, n + 1, ch, o, cl, 0⟩] else []) (hbr : pieceBrackets s p = s.brackets) : StepsTo E s p := by
  have hf := flanking_eq (E := E) (n := n) h ho hcl
  have hy : ∀ c ∈ y.head?, c ≠ ch := by
    intro c hc hcc
    subst hcc
    exact h.2.1 hc
  rw [ht] at hD
  have hth : p.text.head? = some ch := by rw [ht, List.replicate_succ]; rfl
  by_cases hoc : (o || cl) = true
  · obtain ⟨h1, h2⟩ := parseInline_run (E := E) hs hD hp h.1 hy (by simpa using hoc) hf
    exact ⟨ch, _, hth, h1, h2, rfl, rfl, by rw [ht]; simp, by rw [hd, if_pos hoc]; rfl, id, rfl, hbr.symm⟩
  · have ho' : o = false := by cases o <;> simp_all
    have hc' : cl = false := by cases cl <;> simp_all
    subst ho' hc'
    obtain ⟨h1, h2⟩ := parseInline_silent (E := E) hs hD hp h.1 hy hf
    exact ⟨ch, _, hth, h1, h2, rfl, rfl, by rw [ht]; simp, by rw [hd, if_neg hoc]; rfl, id, rfl, hbr.symm⟩

theorem steps_code {E : Env} {s : Subj} {D pre y : Str} {n : Nat} {body : Str} (hs : On s D) (hD : D = pre ++ (Piece.code n body).text ++ y) (hp : s.pos = pre.length)
    (hsc : Unflagged s) (h : (Piece.code n body).Ok E.isPCat pre y) : StepsTo E s (.code n body) := by
  obtain ⟨h1, h2, -, h3, h4, h5, h6, h7⟩ := h
  have hD1 : D = pre ++ (List.replicate (n + 1) '`' ++ (body ++ (List.replicate (n + 1) '`' ++ y))) := by rw [hD]; simp [Piece.text]
  have hpk : peek s = some '`' := hs.peek (pre := pre) (y := List.replicate n '`' ++ (body ++ (List.replicate (n + 1) '`' ++ y))) (by rw [hD1, List.replicate_succ]; rfl) hp
  have hr : restFrom s s.pos = List.replicate (n + 1) '`' ++ (body ++ (List.replicate (n + 1) '`' ++ y)) := by rw [hs.rest, hD1, hp, List.drop_left]
  have hn : ((restFrom s s.pos).takeWhile (· == '`')).length = n + 1 := by
    rw [hr, takeWhile_run]
    · simp
    · intro c hc
      cases body with
      | nil => exact absurd rfl h2
      | cons d body =>
        rintro rfl
        exact h4 (by simpa using hc)
  have hr2 : restFrom s (s.pos + (n + 1)) = body ++ (List.replicate (n + 1) '`' ++ y) := by
    rw [hs.rest, hD1, hp, ← List.append_assoc, show pre.length + (n + 1) = (pre ++ List.replicate (n + 1) '`').length by simp, List.drop_left]
  have hlen : body.length < s.len + 1 := by
    rw [hs.len, hD1]
    simp only [List.length_append, List.length_replicate]
    omega
  obtain ⟨bt, hbt⟩ := closingTicks_found h6 body.length body (s.len + 1) (s.pos + (n + 1)) s.backticks (Nat.le_refl _) hlen h5 h7
  have hcont : (s.data.drop (s.pos + (n + 1))).take (s.pos + (n + 1) + body.length + (n + 1) - (s.pos + (n + 1)) - (n + 1)) = body := by
    obtain ⟨t, ht⟩ := hs.data
    rw [ht, hD1, hp, show pre ++ (List.replicate (n + 1) '`' ++ (body ++ (List.replicate (n + 1) '`' ++ y))) ++ t = (pre ++ List.replicate (n + 1) '`') ++ (body ++ (List.replicate (n + 1) '`' ++ y ++ t)) by simp,
      show pre.length + (n + 1) = (pre ++ List.replicate (n + 1) '`').length by simp, List.drop_left]
    rw [show (pre ++ List.replicate (n + 1) '`').length + body.length + (n + 1) - (pre ++ List.replicate (n + 1) '`').length - (n + 1) = body.length by omega]
    simp
  refine ⟨'`', { s with pos := s.pos + (n + 1) + body.length + (n + 1), backticks := bt }, by simp [Piece.text, List.replicate_succ], hpk, ?_, rfl, rfl, ?_, rfl, id, rfl, rfl⟩
  · unfold parseInline
    rw [if_neg (by decide), if_pos rfl]
    unfold handleBackticks
    simp only [hn]
    rw [if_neg (by omega), if_neg (by simp [hsc.1]), hr2, hbt]
    simp only [hcont]
    rw [if_neg h3]
  · simp [Piece.text]
    omega

theorem steps_escape {E : Env} {s : Subj} {D pre y : Str} {c : Char} (hs : On s D) (hD : D = pre ++ (Piece.escape c).text ++ y) (hp : s.pos = pre.length)
    (h : AsciiPunct c) : StepsTo E s (.escape c) := by
  have hpk : peek s = some '\\' := hs.peek (pre := pre) (y := c :: y) (by rw [hD]; simp [Piece.text]) hp
  have hpk2 : peek { s with pos := s.pos + 1 } = some c := (hs.pos (s.pos + 1)).peek (pre := pre ++ ['\\']) (y := y) (by rw [hD]; simp [Piece.text]) (by simp [hp])
  refine ⟨'\\', { s with pos := s.pos + 1 + 1 }, rfl, hpk, ?_, rfl, rfl, ?_, rfl, id, rfl, rfl⟩
  · unfold parseInline
    rw [if_neg (by decide), if_neg (by decide), if_pos rfl]
    unfold handleBackslash
    simp only [hpk2]
    rw [if_pos (punct_iff.mp h)]
  · simp [Piece.text]

theorem peek_head {s : Subj} {D : Str} (hs : On s D) : peek s = (restFrom s s.pos).head? := by
  obtain ⟨⟨t, ht⟩, hl⟩ := hs
  unfold peek restFrom
  rw [List.head?_drop]
  by_cases h : s.pos < s.len
  · rw [if_pos h, List.getElem?_take_of_lt h]
  · rw [if_neg h, List.getElem?_eq_none (by simp; omega)]

theorem parseInline_ket {E : Env} {s : Subj} {D y : Str} (hs : On { s with pos := s.pos + 1 } D) (hr : restFrom s (s.pos + 1) = y) (h1 : y.head? ≠ some '(') (h2 : NoLabel y) :
    parseInline E s ']' = .ok { s with pos := s.pos + 1, brackets := s.brackets.tail } := by
  have hpk : ∀ bs, peek { s with pos := s.pos + 1, brackets := bs } = y.head? := by
    intro bs
    have := peek_head hs
    rw [← hr]
    exact this
  unfold parseInline
  simp only [Char.reduceEq, or_self, if_false, if_true]
  unfold handleCloseBracket
  cases hb : s.brackets with
  | nil => simp [hb]
  | cons b bs =>
    simp only [hb]
    by_cases ha : b.active = true
    · simp only [ha, Bool.not_true, Bool.false_eq_true, if_false]
      have hi : inlineLink E { s with pos := s.pos + 1, brackets := b :: bs } = .ok none := by
        unfold inlineLink
        rw [if_neg]
        rw [hpk]
        exact h1
      have hl : linkLabel { s with pos := s.pos + 1, brackets := b :: bs } = .ok () := by
        unfold linkLabel
        rcases h2 with h2 | h2
        · rw [if_neg]
          rw [hpk]
          exact h2
        · have hpk2 : peek { s with pos := s.pos + 1 + 1, brackets := b :: bs } = y[1]? := by
            have := peek_head (hs.pos (s.pos + 1 + 1))
            rw [show y[1]? = (restFrom s (s.pos + 1 + 1)).head? by
              rw [← hr]
              unfold restFrom
              rw [List.head?_drop, List.getElem?_drop]]
            exact this
          simp only [hpk2]
          rcases h2 with h2 | h2 <;> simp [h2]
      simp only [hi, hl, bind, Except.bind, List.tail_cons]
    · simp [ha]

theorem steps_piece {E : Env} {s : Subj} {D pre y : Str} {p : Piece} (hs : On s D) (hD : D = pre ++ p.text ++ y) (hp : s.pos = pre.length) (hsc : Unflagged s)
    (hgt : ∀ t, s.data = D ++ t → '>' ∉ t) (hpl : ∀ c, p = .char c → ¬ Plain c) (h : p.Ok E.isPCat pre y) : JumpsTo E s p y := by
  cases p with
  | char c =>
    have hD' : D = pre ++ c :: y := by rw [hD]; simp [Piece.text]
    have hpk : peek s = some c := hs.peek hD' hp
    have hr : restFrom s (s.pos + 1) = y := by
      rw [hs.rest, hD', hp, show pre ++ c :: y = (pre ++ [c]) ++ y by simp, show pre.length + 1 = (pre ++ [c]).length by simp, List.drop_left]
    rcases h with h | ⟨rfl, h⟩ | ⟨rfl, h, h1, h2⟩ | rfl | ⟨rfl, h1, h2⟩
    · exact absurd h (hpl c rfl)
    · obtain ⟨w, y', e, hw, h3⟩ := parseInline_amp (E := E) hr h
      exact ⟨w, y', '&', { s with pos := s.pos + 1 + w.length }, e, hw, rfl, hpk, h3, rfl, rfl, rfl, rfl, id, rfl, rfl⟩
    all_goals refine StepsTo.jumps ?_ y
    rotate_left
    · exact ⟨'[', pushBracket { s with pos := s.pos + 1 }, rfl, hpk, rfl, rfl, rfl, rfl, rfl, id, rfl, rfl⟩
    · refine ⟨']', { s with pos := s.pos + 1, brackets := s.brackets.tail }, rfl, hpk, ?_, rfl, rfl, rfl, rfl, id, rfl, rfl⟩
      exact parseInline_ket (hs := hs.pos (s.pos + 1)) hr h1 h2
    · refine ⟨'<', { s with pos := s.pos + 1 }, rfl, hpk, parseInline_lt hr ?_ h1 h2, rfl, rfl, rfl, rfl, id, rfl, rfl⟩
      obtain ⟨t, ht⟩ := hs.data
      have hgt' := hgt t ht
      rw [ht, hD', hp, show pre ++ '<' :: y ++ t = (pre ++ ['<']) ++ (y ++ t) by simp, show pre.length + 1 = (pre ++ ['<']).length by simp, List.drop_left]
      exact no_tag hgt' h
  | escape c => exact (steps_escape hs hD hp h).jumps y
  | code n body => exact (steps_code hs hD hp hsc h).jumps y
  | raw ins =>
    have hD' : D = pre ++ '<' :: (ins ++ '>' :: y) := by rw [hD]; simp [Piece.text]
    have hr : restFrom s (s.pos + 1) = ins ++ '>' :: y := by
      rw [hs.rest, hD', hp, show pre ++ '<' :: (ins ++ '>' :: y) = (pre ++ ['<']) ++ (ins ++ '>' :: y) by simp, show pre.length + 1 = (pre ++ ['<']).length by simp, List.drop_left]
    refine StepsTo.jumps ?_ y
    refine ⟨'<', { s with pos := s.pos + 1 + (ins.length + 1) }, rfl, hs.peek hD' hp, parseInline_raw ⟨hr, ?_, ?_⟩ hsc h, rfl, rfl, ?_, rfl, id, rfl, rfl⟩
    · obtain ⟨t, ht⟩ := hs.data
      refine ⟨t, ?_⟩
      rw [ht, hD', hp, show pre ++ '<' :: (ins ++ '>' :: y) ++ t = (pre ++ ['<']) ++ (ins ++ '>' :: (y ++ t)) by simp, show pre.length + 1 = (pre ++ ['<']).length by simp, List.drop_left]
    · rw [hs.len, hD', hp]
      simp only [List.length_append, List.length_cons]
      omega
    · simp [Piece.text]
      omega
  | run c n => exact (steps_run (o := false) (cl := false) hs hD hp rfl h.1 (by simp [h.2.1]) (by simp [h.2.2]) (fun _ => rfl) rfl).jumps y
  | opens c n => exact (steps_run (o := true) (cl := false) hs hD hp rfl h.1 (by simp [h.2.1]) (by simp [h.2.2]) (fun _ => rfl) rfl).jumps y
  | closes c n => exact (steps_run (o := false) (cl := true) hs hD hp rfl h.1 (by simp [h.2.1]) (by simp [h.2.2]) (fun _ => rfl) rfl).jumps y
  | strayOpen c n => exact (steps_run (o := true) (cl := false) hs hD hp rfl h.1 (by simp [h.2.1]) (by simp [h.2.2]) (fun _ => rfl) rfl).jumps y
  | strayClose c n => exact (steps_run (o := false) (cl := true) hs hD hp rfl h.1 (by simp [h.2.1]) (by simp [h.2.2]) (fun _ => rfl) rfl).jumps y
  | both c n => exact (steps_run (o := true) (cl := true) hs hD hp rfl h.1 (by simp [h.2.1]) (by simp [h.2.2]) (fun _ => rfl) rfl).jumps y

theorem special_head {punct : Char → Bool} {x y : Str} {p : Piece} (hpl : ∀ c, p = .char c → ¬ Plain c) (h : p.Ok punct x y) : ∃ c, p.text.head? = some c ∧ isSpecial c = true := by
  have hrun : ∀ {c : Char}, IsRun punct c x y → isSpecial c = true := fun h => run_special h.1
  cases p with
  | char c =>
    rcases h with h | ⟨rfl, -⟩ | ⟨rfl, -⟩ | rfl | ⟨rfl, -⟩
    · exact absurd h (hpl c rfl)
    all_goals exact ⟨_, rfl, rfl⟩
  | escape c => exact ⟨'\\', rfl, rfl⟩
  | code n body => exact ⟨'`', by simp [Piece.text, List.replicate_succ], rfl⟩
  | raw ins => exact ⟨'<', rfl, rfl⟩
  | run c n => exact ⟨c, by simp [Piece.text, List.replicate_succ], hrun h.1⟩
  | opens c n => exact ⟨c, by simp [Piece.text, List.replicate_succ], hrun h.1⟩
  | closes c n => exact ⟨c, by simp [Piece.text, List.replicate_succ], hrun h.1⟩
  | strayOpen c n => exact ⟨c, by simp [Piece.text, List.replicate_succ], hrun h.1⟩
  | strayClose c n => exact ⟨c, by simp [Piece.text, List.replicate_succ], hrun h.1⟩
  | both c n => exact ⟨c, by simp [Piece.text, List.replicate_succ], hrun h.1⟩

theorem not_plain_head {punct : Char → Bool} {x y : Str} {p : Piece} (hpl : ∀ c, p = .char c → ¬ Plain c) (h : p.Ok punct x y) : ∃ c, p.text.head? = some c ∧ ¬ Plain c := by
  have hrun : ∀ {c : Char}, IsRun punct c x y → ¬ Plain c := fun h hp => by
    obtain ⟨-, -, -, -, h4, -, -, -, -, h9, -⟩ := hp
    rcases h.1 with rfl | rfl <;> contradiction
  cases p with
  | char c => exact ⟨c, rfl, hpl c rfl⟩
  | escape c => exact ⟨'\\', rfl, by unfold Plain; decide⟩
  | code n body => exact ⟨'`', by simp [Piece.text, List.replicate_succ], by unfold Plain; decide⟩
  | raw ins => exact ⟨'<', rfl, by unfold Plain; decide⟩
  | run c n => exact ⟨c, by simp [Piece.text, List.replicate_succ], hrun h.1⟩
  | opens c n => exact ⟨c, by simp [Piece.text, List.replicate_succ], hrun h.1⟩
  | closes c n => exact ⟨c, by simp [Piece.text, List.replicate_succ], hrun h.1⟩
  | strayOpen c n => exact ⟨c, by simp [Piece.text, List.replicate_succ], hrun h.1⟩
  | strayClose c n => exact ⟨c, by simp [Piece.text, List.replicate_succ], hrun h.1⟩
  | both c n => exact ⟨c, by simp [Piece.text, List.replicate_succ], hrun h.1⟩

theorem plain_stretch (ps : List Piece) : ∃ (u : Str) (rest : List Piece), ps = u.map .char ++ rest ∧ (∀ c ∈ u, Plain c) ∧ ∀ p ∈ rest.head?, ∀ c, p = .char c → ¬ Plain c := by
  induction ps with
  | nil => exact ⟨[], [], rfl, by simp, by simp⟩
  | cons p ps ih =>
    by_cases h : ∃ c, p = .char c ∧ Plain c
    · obtain ⟨c, rfl, hc⟩ := h
      obtain ⟨u, rest, e, h1, h2⟩ := ih
      refine ⟨c :: u, rest, by rw [e]; rfl, ?_, h2⟩
      intro d hd
      rcases List.mem_cons.mp hd with rfl | hd
      · exact hc
      · exact h1 d hd
    · refine ⟨[], p :: ps, rfl, by simp, ?_⟩
      intro q hq c hc hpl
      injection hq with hq
      exact h ⟨c, by rw [hq, hc], hpl⟩

theorem text_chars (u : Str) : text (u.map .char) = u := by
  induction u with
  | nil => rfl
  | cons c u ih => rw [List.map_cons, text_cons, ih]; rfl

theorem delimsOf_chars (u : Str) : ∀ k, delimsOf k (u.map .char) = [] := by
  induction u with
  | nil => intro k; rfl
  | cons c u ih => intro k; rw [List.map_cons, delimsOf, ih]; rfl

/-- Plain characters at the start of a text are pieces. -/
theorem chars_of_text {punct : Char → Bool} {z : Str} (hz : ∀ c ∈ z.head?, ¬ Plain c) : ∀ (w y' : Str) (ps : List Piece) (pre : Str), text ps ++ z = w ++ y' → (∀ c ∈ w, Plain c) →
    (∀ x p y, ps = x ++ p :: y → p.Ok punct (pre ++ text x) (text y ++ z)) → ∃ qs, ps = w.map .char ++ qs ∧ y' = text qs ++ z := by
  intro w
  induction w with
  | nil => intro y' ps pre e _ _; exact ⟨ps, rfl, by rw [e]; rfl⟩
  | cons c w ih =>
    intro y' ps pre e hw hok
    have hc : Plain c := hw c (by simp)
    cases ps with
    | nil =>
      have : z = c :: (w ++ y') := by simpa [text] using e
      exact absurd hc (hz c (by rw [this]; rfl))
    | cons p ps =>
      by_cases hp : ∃ d, p = .char d ∧ Plain d
      · obtain ⟨d, rfl, -⟩ := hp
        rw [text_cons] at e
        injection e with e0 e
        have e0 : d = c := e0
        subst e0
        obtain ⟨qs, rfl, e2⟩ := ih y' ps (pre ++ [d]) e (fun c hc => hw c (by simp [hc])) (by
          intro x p y e3
          have := hok (.char d :: x) p y (by rw [e3]; rfl)
          rw [text_cons] at this
          rw [show pre ++ [d] ++ text x = pre ++ ((Piece.char d).text ++ text x) by simp [Piece.text]]
          exact this)
        exact ⟨qs, rfl, e2⟩
      · obtain ⟨d, h1, h2⟩ := not_plain_head (fun c hc hpl => hp ⟨c, hc, hpl⟩) (hok [] p ps rfl)
        rw [text_cons] at e
        have := congrArg List.head? e
        rw [List.append_assoc, List.head?_append, h1] at this
        have h3 : d = c := by simpa using this
        exact absurd hc (h3 ▸ h2)

theorem inlinesLoop_pieces {E : Env} (n : Nat) : ∀ (ps : List Piece) (pre D : Str) (s : Subj) (f : Nat), ps.length ≤ n → On s D → (∀ t, s.data = D ++ t → '>' ∉ t) →
    D = pre ++ text ps → s.pos = pre.length → Unflagged s → D.length - s.pos < f → (∀ x p y, ps = x ++ p :: y → p.Ok E.isPCat (pre ++ text x) (text y)) →
    ∃ s', inlinesLoop E f s = .ok s' ∧ s'.ignore = s.ignore ∧ s'.delims = (delimsOf pre.length ps).reverse ++ s.delims := by
  induction n with
  | zero =>
    intro ps pre D s f hn hs hgt hD hp hsc hf hok
    have : ps = [] := by simpa using hn
    subst this
    cases f with
    | zero => omega
    | succ f =>
      refine ⟨s, ?_, rfl, rfl⟩
      unfold inlinesLoop
      rw [hs.peek_end (by rw [hp, hD]; simp [text])]
  | succ n ih =>
    intro ps pre D s f hn hs hgt hD hp hsc hf hok
    obtain ⟨u, rest, rfl, hu, hrest⟩ := plain_stretch ps
    rw [text_append, text_chars] at hD
    have hy : ∀ c ∈ (text rest).head?, isSpecial c = true := by
      intro c hc
      cases rest with
      | nil => simp [text] at hc
      | cons p rest =>
        obtain ⟨d, h1, h2⟩ := special_head (hrest p rfl) (hok (u.map .char) p rest rfl)
        rw [text_cons, List.head?_append, h1] at hc
        injection hc with hc
        rwa [← hc]
    obtain ⟨f1, e1, g1⟩ := inlinesLoop_plain (E := E) hy u.length u pre D s f (Nat.le_refl _) hu hs (by rw [hD, List.append_assoc]) hp hf
    rw [e1, delimsOf_append, delimsOf_chars, text_chars, List.nil_append]
    cases f1 with
    | zero => omega
    | succ f1 =>
      cases rest with
      | nil =>
        refine ⟨{ s with pos := pre.length + u.length }, ?_, rfl, rfl⟩
        unfold inlinesLoop
        rw [(hs.pos _).peek_end (by rw [hD]; simp [text])]
      | cons p rest =>
        have hok1 := hok (u.map .char) p rest rfl
        rw [text_chars] at hok1
        obtain ⟨w, y', c, s1, hy', hw, h1, h2, h3, h4, h5, h6, h7, h8, h9, h10⟩ := steps_piece (E := E) (s := { s with pos := pre.length + u.length }) (pre := pre ++ u) (y := text rest) (hs.pos _)
          (by rw [hD, text_cons]; simp) (by simp) hsc hgt (hrest p rfl) hok1
        simp only at h4 h5 h6 h7 h8 h9
        have hpos := text_pos p
        have hnext : ∀ x q y, rest = x ++ q :: y → q.Ok E.isPCat (pre ++ u ++ p.text ++ text x) (text y) := by
          intro x q y e
          have := hok (u.map .char ++ p :: x) q y (by rw [e]; simp)
          rw [text_append, text_chars, text_cons] at this
          rw [show pre ++ u ++ p.text ++ text x = pre ++ (u ++ (p.text ++ text x)) by simp]
          exact this
        obtain ⟨qs, rfl, -⟩ := chars_of_text (punct := E.isPCat) (z := []) (by simp) w y' rest (pre ++ u ++ p.text) (by rw [List.append_nil]; exact hy') hw (by simpa using hnext)
        rw [text_append, text_chars] at hy'
        have hDl : D.length = pre.length + (u.length + (p.text.length + (w.length + (text qs).length))) := by rw [hD, text_cons, text_append, text_chars]; simp
        obtain ⟨s', e2, e3, e4⟩ := ih qs (pre ++ u ++ p.text ++ w) D s1 f1 (by simp at hn; omega) ⟨by rw [h4]; exact hs.data, by rw [h5]; exact hs.len⟩ (by rw [h4]; exact hgt)
          (by rw [hD, text_cons, text_append, text_chars]; simp) (by rw [h6]; simp; omega) (h8 hsc) (by rw [h6]; omega)
          (by
            intro x q y e
            have := hnext (w.map .char ++ x) q y (by rw [e]; simp)
            rwa [text_append, text_chars, ← List.append_assoc] at this)
        refine ⟨s', ?_, by rw [e3, h9], ?_⟩
        · conv_lhs => unfold inlinesLoop
          rw [h2]
          simp only [h3, bind, Except.bind]
          exact e2
        · rw [e4, h7, delimsOf, delimsOf_append, delimsOf_chars, text_chars]
          simp [Nat.add_assoc]

/-! ### White space at the end -/

theorem can_white {punct : Char → Bool} {c : Char} {b a a' : Option Char} (h : White a) (h' : White a') :
    (CanOpen punct c b a ↔ CanOpen punct c b a') ∧ (CanClose punct c b a ↔ CanClose punct c b a') := by
  unfold CanOpen CanClose LeftFlanking RightFlanking
  simp [h, h']

theorem can_trim {punct : Char → Bool} {c : Char} {b : Option Char} {y tail : Str} (ht : ∀ c ∈ tail, isSpace c = true) :
    (CanOpen punct c b (y ++ tail).head? ↔ CanOpen punct c b y.head?) ∧ (CanClose punct c b (y ++ tail).head? ↔ CanClose punct c b y.head?) := by
  cases y with
  | nil =>
    apply can_white
    · intro d hd
      exact space_iff.mp (ht d (List.mem_of_mem_head? hd))
    · simp [White]
  | cons d y => simp

theorem head_trim {y tail : Str} {c : Char} (h : (y ++ tail).head? ≠ some c) : y.head? ≠ some c := by
  cases y with
  | nil => simp
  | cons d y => simpa using h

theorem noLabel_trim {y tail : Str} (ht : ∀ c ∈ tail, isSpace c = true) (h : NoLabel (y ++ tail)) : NoLabel y := by
  rcases h with h | h
  · exact .inl (head_trim h)
  · by_cases hy : 1 < y.length
    · rw [List.getElem?_append_left hy] at h
      exact .inr h
    · rw [List.getElem?_append_right (by omega)] at h
      rcases h with h | h <;> exact absurd (ht _ (List.mem_of_getElem? h)) (by decide +kernel)

theorem afterAmp_trim {y tail : Str} (h : AfterAmp (y ++ tail)) : AfterAmp y := by
  rcases h with h | ⟨h0, u, v, e, hu, hv⟩
  · exact .inl (fun hh => h (by simp [hh]))
  · refine .inr ⟨head_trim h0, ?_⟩
    rcases List.append_eq_append_iff.mp e with ⟨a, rfl, e2⟩ | ⟨a, rfl, e2⟩
    · exact ⟨y, [], by simp, fun c hc => hu c (by simp [hc]), .inl rfl⟩
    · refine ⟨u, a, rfl, hu, ?_⟩
      cases a with
      | nil => exact .inl rfl
      | cons d a =>
        rcases hv with rfl | ⟨h1, h2⟩
        · simp at e2
        · rw [e2] at h2
          exact .inr ⟨h1, by simpa using h2⟩

theorem Ok_trim {punct : Char → Bool} {p : Piece} {x y tail : Str} (ht : ∀ c ∈ tail, isSpace c = true) (h : p.Ok punct x (y ++ tail)) : p.Ok punct x y := by
  have hrun : ∀ {c}, IsRun punct c x (y ++ tail) → IsRun punct c x y := fun h =>
    ⟨h.1, head_trim h.2.1, by have := h.2.2.1; rwa [(can_trim ht).1, (can_trim ht).1] at this, by have := h.2.2.2; rwa [(can_trim ht).2, (can_trim ht).2] at this⟩
  cases p with
  | char c =>
    rcases h with h | ⟨h1, h2⟩ | ⟨h1, h2, h3, h4⟩ | h | ⟨h1, h2, h3⟩
    · exact .inl h
    · exact .inr (.inl ⟨h1, afterAmp_trim h2⟩)
    · exact .inr (.inr (.inl ⟨h1, fun x z e => h2 x (z ++ tail) (by rw [← List.append_assoc, ← e]; rfl), head_trim h3, head_trim h4⟩))
    · exact .inr (.inr (.inr (.inl h)))
    · exact .inr (.inr (.inr (.inr ⟨h1, head_trim h2, noLabel_trim ht h3⟩)))
  | escape c => exact h
  | code n body =>
    obtain ⟨h1, h2, h3, h4, h5, h6, h7, h8⟩ := h
    exact ⟨h1, h2, h3, h4, h5, h6, head_trim h7, h8⟩
  | raw ins => exact h
  | run c n => exact ⟨hrun h.1, by rw [← (can_trim ht).1]; exact h.2.1, by rw [← (can_trim ht).2]; exact h.2.2⟩
  | opens c n => exact ⟨hrun h.1, by rw [← (can_trim ht).1]; exact h.2.1, by rw [← (can_trim ht).2]; exact h.2.2⟩
  | closes c n => exact ⟨hrun h.1, by rw [← (can_trim ht).1]; exact h.2.1, by rw [← (can_trim ht).2]; exact h.2.2⟩
  | strayOpen c n => exact ⟨hrun h.1, by rw [← (can_trim ht).1]; exact h.2.1, by rw [← (can_trim ht).2]; exact h.2.2⟩
  | strayClose c n => exact ⟨hrun h.1, by rw [← (can_trim ht).1]; exact h.2.1, by rw [← (can_trim ht).2]; exact h.2.2⟩
  | both c n => exact ⟨hrun h.1, by rw [← (can_trim ht).1]; exact h.2.1, by rw [← (can_trim ht).2]; exact h.2.2⟩

/-- The text of a piece ends with a character which is not white space, except for single characters. -/
def Solid (p : Piece) : Prop := (∃ c, p = .char c) ∨ ∃ c, p.text.getLast? = some c ∧ isSpace c = false

theorem run_solid {c : Char} {n : Nat} (h : c = '*' ∨ c = '_') : ∃ d, (List.replicate (n + 1) c).getLast? = some d ∧ isSpace d = false := by
  refine ⟨c, by rw [List.replicate_succ', List.getLast?_concat], ?_⟩
  rcases h with rfl | rfl <;> decide

theorem solid_of {punct : Char → Bool} {p : Piece} {x y : Str} (h : p.Ok punct x y) : Solid p := by
  cases p with
  | char c => exact .inl ⟨c, rfl⟩
  | escape c =>
    refine .inr ⟨c, rfl, ?_⟩
    have : ∀ n < 127, AsciiPunct (Char.ofNat n) → isSpace (Char.ofNat n) = false := by
      unfold AsciiPunct
      decide +kernel
    have h' : AsciiPunct c := h
    have h2 : c.toNat < 127 := by unfold AsciiPunct at h'; omega
    have := this c.toNat h2
    rw [Char.ofNat_toNat] at this
    exact this h'
  | code n body => exact .inr ⟨'`', by show (List.replicate (n + 1) '`' ++ body ++ List.replicate (n + 1) '`').getLast? = _; rw [List.replicate_succ', ← List.append_assoc, List.getLast?_concat], rfl⟩
  | raw ins => exact .inr ⟨'>', by show ('<' :: ins ++ ['>']).getLast? = _; rw [List.getLast?_concat], rfl⟩
  | run c n => exact .inr (run_solid h.1.1)
  | opens c n => exact .inr (run_solid h.1.1)
  | closes c n => exact .inr (run_solid h.1.1)
  | strayOpen c n => exact .inr (run_solid h.1.1)
  | strayClose c n => exact .inr (run_solid h.1.1)
  | both c n => exact .inr (run_solid h.1.1)

theorem pieces_trim (k : Nat) : ∀ (tail D : Str) (ps : List Piece), tail.length ≤ k → text ps = D ++ tail → (∀ c ∈ tail, isSpace c = true) → (∀ p ∈ ps, Solid p) →
    ∃ ps', ps = ps' ++ tail.map .char ∧ text ps' = D := by
  induction k with
  | zero =>
    intro tail D ps hk e _ _
    have : tail = [] := by simpa using hk
    subst this
    exact ⟨ps, by simp, by simpa using e⟩
  | succ k ih =>
    intro tail D ps hk e ht hs
    rcases List.eq_nil_or_concat tail with rfl | ⟨t, c, rfl⟩
    · exact ⟨ps, by simp, by simpa using e⟩
    · rw [List.concat_eq_append] at e ht hk ⊢
      rcases List.eq_nil_or_concat ps with rfl | ⟨q, p, rfl⟩
      · simp [text] at e
      · rw [List.concat_eq_append] at e hs ⊢
        have hc := ht c (by simp)
        rw [text_append, ← List.append_assoc] at e
        have hpt : text [p] = p.text := by simp [text]
        rw [hpt] at e
        have hpos := text_pos p
        have hl : p.text.getLast? = some c := by
          have := congrArg List.getLast? e
          rwa [List.getLast?_append_of_ne_nil _ (by intro h; rw [h] at hpos; simp at hpos), List.getLast?_concat] at this
        rcases hs p (by simp) with ⟨d, rfl⟩ | ⟨d, h1, h2⟩
        · simp [Piece.text] at hl
          subst hl
          have e' : text q = D ++ t := List.append_cancel_right e
          obtain ⟨ps', h3, h4⟩ := ih t D q (by simp at hk; omega) e' (fun x hx => ht x (by simp [hx])) (fun x hx => hs x (by simp [hx]))
          exact ⟨ps', by rw [h3]; simp, h4⟩
        · rw [h1] at hl
          injection hl with hl
          subst hl
          rw [h2] at hc
          exact absurd hc (by simp)

/-! ### The whole text -/

theorem placed_mem {punct : Char → Bool} {ps : List Piece} (h : Placed punct ps) {p : Piece} (hp : p ∈ ps) : ∃ x y, p.Ok punct x y := by
  obtain ⟨x, y, e⟩ := List.append_of_mem hp
  exact ⟨_, _, h x p y e⟩

theorem placed_runs {punct : Char → Bool} {ps : List Piece} (h : Placed punct ps) : RunsOk ps := by
  intro p hp k d hd
  obtain ⟨x, y, h1⟩ := placed_mem h hp
  cases p <;> simp [pieceDelims] at hd <;> subst hd <;> exact h1.1.1

/-- The parse of the text of pieces is the loop over their delimiters. -/
theorem parseInlines_loop {E : Env} {ps : List Piece} (h1 : Placed E.isPCat ps) {ds : List Delim} {R : List Range}
    (e6 : emphLoop (emphFuel (delimsOf 0 ps)) [] (delimsOf 0 ps) (fun _ => none) [] = .ok (ds, R)) : parseInlines E (text ps) = .ok R := by
  obtain ⟨tail, hs, htail⟩ := rtrim_split (text ps)
  have hle : rtrimLen (text ps) ≤ (text ps).length := by
    unfold rtrimLen
    exact (rstrip_prefix isSpace (text ps)).length_le
  have hlen : ((text ps).take (rtrimLen (text ps))).length = rtrimLen (text ps) := by
    rw [List.length_take]
    omega
  obtain ⟨ps', e1, e2⟩ := pieces_trim tail.length tail _ ps (Nat.le_refl _) hs htail (fun p hp => by
    obtain ⟨x, y, h⟩ := placed_mem h1 hp
    exact solid_of h)
  obtain ⟨s', e3, e4, e5⟩ := inlinesLoop_pieces (E := E) ps'.length ps' [] ((text ps).take (rtrimLen (text ps))) (initSubj (text ps)) ((text ps).length + 1) (Nat.le_refl _)
    ⟨⟨tail, hs⟩, hlen.symm⟩
    (by
      intro t ht hgt
      have ht : text ps = (text ps).take (rtrimLen (text ps)) ++ t := ht
      have : t = tail := List.append_cancel_left (ht.symm.trans hs)
      subst this
      have := htail _ hgt
      revert this
      decide)
    (by rw [e2]; rfl) rfl ⟨rfl, rfl, rfl, rfl⟩ (by rw [hlen]; omega)
    (by
      intro x p y e
      rw [List.nil_append]
      apply Ok_trim (tail := tail) htail
      have := h1 x p (y ++ tail.map .char) (by rw [e1, e]; simp)
      rwa [text_append, text_chars] at this)
  have hd : s'.delims = (delimsOf 0 ps).reverse := by
    rw [e5, e1, delimsOf_append, delimsOf_chars]
    simp [initSubj]
  have hi : s'.ignore = [] := by rw [e4]; rfl
  unfold parseInlines
  simp only [bind, Except.bind, e3]
  unfold processEmphasis
  simp only [splitAtBottom, hd, List.reverse_reverse, hi, bind, Except.bind]
  rw [e6]

theorem parseInlines_pieces {E : Env} {ps : List Piece} (h1 : Placed E.isPCat ps) (h2 : Balanced ps) (h3 : Uncrossed ps) :
    ∃ rs, parseInlines E (text ps) = .ok rs ∧ filterIndices (text ps) rs = shown ps := by
  obtain ⟨R, ds, e6, -, e7⟩ := balanced_loop h2 (placed_runs h1) h3 0 0 [] [] (fun _ => none) (emphFuel (delimsOf 0 ps)) [] (Nat.le_refl _) (by simp) (by simp) (by simp) (by intro d hd; simp at hd) (Nat.le_refl _)
  rw [List.nil_append, List.nil_append] at e6
  exact ⟨R, parseInlines_loop h1 e6, filter_pieces R ps 0 (fun i _ => e7 i)⟩

theorem placed_nul_piece {punct : Char → Bool} {p : Piece} {x y : Str} (h1 : p.Ok punct x y) : '\x00' ∉ p.text := by
  intro hc
  have hrun : ∀ {c : Char} {n : Nat}, IsRun punct c x y → '\x00' ∉ List.replicate (n + 1) c := by
    intro c n hr hh
    have := List.eq_of_mem_replicate hh
    rcases hr.1 with rfl | rfl <;> revert this <;> decide
  cases p with
  | char c =>
    simp [Piece.text] at hc
    subst hc
    rcases h1 with h1 | ⟨h1, -⟩ | ⟨h1, -⟩ | h1 | ⟨h1, -⟩
    · exact h1.1 rfl
    all_goals revert h1; decide
  | escape c =>
    simp [Piece.text] at hc
    subst hc
    have h2 : AsciiPunct '\x00' := h1
    revert h2
    unfold AsciiPunct
    decide
  | code n body =>
    simp [Piece.text] at hc
    exact h1.2.2.1 hc
  | raw ins => exact h1.1 hc
  | run c n => exact hrun h1.1 hc
  | opens c n => exact hrun h1.1 hc
  | closes c n => exact hrun h1.1 hc
  | strayOpen c n => exact hrun h1.1 hc
  | strayClose c n => exact hrun h1.1 hc
  | both c n => exact hrun h1.1 hc

theorem placed_nul {punct : Char → Bool} {ps : List Piece} (h : Placed punct ps) : '\x00' ∉ text ps := by
  intro hn
  obtain ⟨p, hp, hc⟩ := List.mem_flatMap.mp hn
  obtain ⟨x, y, h1⟩ := placed_mem h hp
  exact placed_nul_piece h1 hc

theorem removeEmphasis_of_parse {E : Env} {ps : List Piece} (h1 : Placed E.isPCat ps) {rs : List Range} (h4 : parseInlines E (text ps) = .ok rs) (p : Parser) :
    removeEmphasis E (text ps) p = .ok (filterIndices (text ps) rs) := by
  have : (text ps).filter (· != '\x00') = text ps := by
    rw [List.filter_eq_self]
    intro c hc
    simp only [bne_iff_ne, ne_eq]
    rintro rfl
    exact placed_nul h1 hc
  unfold removeEmphasis
  simp only [this, h4, bind, Except.bind]

theorem removeEmphasis_unmarked {E : Env} {s t : Str} (h : Unmarked E.isPCat s t) (p : Parser) : removeEmphasis E s p = .ok t := by
  obtain ⟨ps, rfl, rfl, h1, h2, h3⟩ := h
  obtain ⟨rs, h4, h5⟩ := parseInlines_pieces (E := E) h1 h2 h3
  rw [removeEmphasis_of_parse h1 h4, h5]

end MdToc.Cmark
