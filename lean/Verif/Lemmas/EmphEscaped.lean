import Verif.Lemmas.EmphClosed
import Verif.Spec.Atx

/-!
# The inline parser: texts where every opening bracket is escaped
-/

set_option linter.unusedSimpArgs false

namespace MdToc

/-- Every opening square bracket of `s` is escaped. -/
def Spec.OpensEscaped (s : Str) : Prop := ∀ pre post, s = pre ++ '[' :: post → Spec.Escaped pre


namespace Re

/-- A star with a continuation that always succeeds stops only where nothing more can be matched. -/
theorem starLoop_stops {body : Option Char → Str → Cont → Option Str} {R : Option Char → Str → Option Char → Str → Prop} (h : Right body R)
    (hR : ∀ p s p' s', R p s p' s' → s'.length < s.length) :
    ∀ n p s x, s.length ≤ n → starLoop body n p s (fun _ s' => some s') = some x → ∃ p', ∀ p'' s'', ¬ R p' x p'' s'' := by
  intro n
  induction n with
  | zero =>
    intro p s x hs hx
    have : s = [] := by cases s <;> simp_all
    subst this
    simp only [starLoop, Option.some.injEq] at hx
    subst hx
    exact ⟨p, fun p'' s'' hr => by have := hR _ _ _ _ hr; simp at this⟩
  | succ n ih =>
    intro p s x hs hx
    simp only [starLoop] at hx
    split at hx
    · rename_i r hb
      cases hx
      obtain ⟨p1, s1, hr, hk⟩ := h.2 _ _ _ _ hb
      have hl := hR _ _ _ _ hr
      simp only [hl, if_true] at hk
      exact ih p1 s1 x (by omega) hk
    · rename_i hb
      simp only [Option.some.injEq] at hx
      subst hx
      refine ⟨p, fun p'' s'' hr => ?_⟩
      have hl := hR _ _ _ _ hr
      have hsome : ∀ n p t, (starLoop body n p t (fun _ s' => some s')).isSome := by
        intro n
        induction n with
        | zero => intro p t; rfl
        | succ n ih2 =>
          intro p t
          simp only [starLoop]
          split <;> rfl
      have := h.1 p s (fun p' s' => if s'.length < s.length then starLoop body n p' s' (fun _ s' => some s') else some s') _ _ hr
        (by simp only [hl, if_true]; exact hsome _ _ _)
      rw [hb] at this
      simp at this

theorem star_stops {w : Char → Bool} {r : Re} (hR : ∀ p s p' s', r.Lang w p s p' s' → s'.length < s.length) {p s x} (h : (Re.star r).m w p s (fun _ s' => some s') = some x) :
    ∃ p', ∀ p'' s'', ¬ r.Lang w p' x p'' s'' := by
  unfold Re.m at h
  exact starLoop_stops (m_right w r) hR _ _ _ _ (Nat.le_refl _) h

theorem seq_last {w : Char → Bool} {a b : Re} {p s k x} (h : (Re.seq a b).m w p s k = some x) : ∃ p1 s1, b.m w p1 s1 k = some x := by
  unfold Re.m at h
  obtain ⟨p1, s1, -, h⟩ := (m_right w a).2 _ _ _ _ h
  exact ⟨p1, s1, h⟩

end Re

namespace Cmark

open Spec

theorem trailing_snoc (d : Str) (c : Char) : trailingBackslashes (d ++ [c]) = if c = '\\' then trailingBackslashes d + 1 else 0 := by
  unfold trailingBackslashes
  by_cases h : c = '\\' <;> simp [h]

theorem trailing_take {d : Str} {n : Nat} {c : Char} (h : d[n]? = some c) : trailingBackslashes (d.take (n + 1)) = if c = '\\' then trailingBackslashes (d.take n) + 1 else 0 := by
  obtain ⟨h1, h2⟩ := List.getElem?_eq_some_iff.mp h
  rw [List.take_succ_eq_append_getElem h1, h2, trailing_snoc]

/-! ### Where the scanners stop -/

theorem declaration_stops {w : Char → Bool} {s x : Str} (h0 : '\x00' ∉ s) (h : Rx.declaration.matchRest w s = some x) : x = [] ∨ ∃ y, x = '>' :: y := by
  have hsub : ∀ c ∈ x, c ∈ s := by
    obtain ⟨p, hl⟩ := Re.matchRest_some h
    obtain ⟨e, he, -⟩ := hl.consumes
    intro c hc
    rw [he]; simp [hc]
  unfold Re.matchRest Rx.declaration Re.seqs Re.seqs Re.seqs at h
  obtain ⟨p1, s1, h⟩ := Re.seq_last h
  obtain ⟨p2, s2, h⟩ := Re.seq_last h
  obtain ⟨p', h'⟩ := Re.star_stops (by rintro p s p' s' ⟨c, rfl, -⟩; simp) h
  cases x with
  | nil => exact .inl rfl
  | cons c y =>
    right
    by_cases hc : c = '>'
    · exact ⟨y, by rw [hc]⟩
    · refine absurd ⟨c, rfl, ?_, rfl⟩ (h' (some c) y)
      have : c ≠ '\x00' := by rintro rfl; exact h0 (hsub _ (by simp))
      simp [hc, this]

/-- One step of a processing instruction. -/
def piStep : Re := Re.alts [Re.plus (.cls (fun c => !(c == '?' || c == '>' || c == '\x00'))), .seq (Re.chr '?') (.cls (fun c => !(c == '>' || c == '\x00'))), Re.chr '>']

theorem piStep_short {w : Char → Bool} : ∀ p s p' s', piStep.Lang w p s p' s' → s'.length < s.length := by
  rintro p s p' s' (⟨p1, s1, ⟨c, rfl, -⟩, h⟩ | ⟨p1, s1, h1, ⟨c, rfl, -⟩⟩ | h)
  · have := Re.Lang.consumes (r := .star _) h
    have := this.length_le
    simp; omega
  · obtain ⟨rfl, -⟩ := Re.lang_chr.mp h1
    simp
    omega
  · obtain ⟨rfl, -⟩ := Re.lang_chr.mp h
    simp

theorem piStep_stuck {w : Char → Bool} {p : Option Char} {x : Str} (h0 : '\x00' ∉ x) (h : ∀ p'' s'', ¬ piStep.Lang w p x p'' s'') : x = [] ∨ x = ['?'] ∨ ∃ y, x = '?' :: '>' :: y := by
  cases x with
  | nil => exact .inl rfl
  | cons c y =>
    right
    by_cases h1 : c = '?'
    · subst h1
      cases y with
      | nil => exact .inl rfl
      | cons d z =>
        right
        by_cases h2 : d = '>'
        · exact ⟨z, by rw [h2]⟩
        · refine absurd (.inr (.inl ⟨_, _, Re.lang_chr.mpr ⟨rfl, rfl⟩, d, rfl, ?_, rfl⟩)) (h (some d) z)
          have : d ≠ '\x00' := by rintro rfl; exact h0 (by simp)
          simp [h2, this]
    · by_cases h2 : c = '>'
      · subst h2
        exact absurd (.inr (.inr (Re.lang_chr.mpr ⟨rfl, rfl⟩))) (h (some '>') y)
      · refine absurd (.inl ⟨_, _, ⟨c, rfl, ?_, rfl⟩, .refl _ _⟩) (h (some c) y)
        have : c ≠ '\x00' := by rintro rfl; exact h0 (by simp)
        simp [h1, h2, this]

theorem pi_stops {w : Char → Bool} {s x : Str} (h0 : '\x00' ∉ s) (h : Rx.processinginstruction.matchRest w s = some x) : x = [] ∨ x = ['?'] ∨ ∃ y, x = '?' :: '>' :: y := by
  have hsub : ∀ c ∈ x, c ∈ s := by
    obtain ⟨p, hl⟩ := Re.matchRest_some h
    obtain ⟨e, he, -⟩ := hl.consumes
    intro c hc
    rw [he]; simp [hc]
  have h : (Re.seq piStep (.star piStep)).m w none s (fun _ s' => some s') = some x := h
  obtain ⟨p1, s1, h⟩ := Re.seq_last h
  obtain ⟨p', h'⟩ := Re.star_stops piStep_short h
  exact piStep_stuck (fun hm => h0 (hsub _ hm)) h'

theorem pi_fails {w : Char → Bool} {s : Str} (h0 : '\x00' ∉ s) (h : Rx.processinginstruction.matchRest w s = none) : s = [] ∨ s = ['?'] ∨ ∃ y, s = '?' :: '>' :: y := by
  refine piStep_stuck (w := w) (p := none) h0 (fun p'' s'' hl => ?_)
  have : (Rx.processinginstruction.matchRest w s).isSome := (Re.matchRest_isSome_iff w _ s).mpr ⟨p'', s'', p'', s'', hl, .refl _ _⟩
  rw [h] at this
  simp at this

theorem htmlcomment_ends {w : Char → Bool} : ∀ p s p' s', Rx.htmlcomment.Lang w p s p' s' → ∃ m, s = m ++ ['>'] ++ s' := by
  intro p s p' s' h
  rcases h with h | h
  · exact Re.ends_lit "---".toList _ _ _ _ h
  · exact Re.Ends.seqs (Re.ends_lit ['-', '-']) [_, _, _] h

/-- A match that ends with `>`. -/
theorem scanAt_ends {E : Env} {r : Re} {s : Subj} {k : Nat} (hr : ∀ p s p' s', r.Lang E.isWord p s p' s' → ∃ m, s = m ++ ['>'] ++ s') (h : scanAt E r s k > 0) :
    s.data[k + scanAt E r s k - 1]? = some '>' := by
  rcases scanAt_match (E := E) (r := r) (s := s) (o := k) with h' | ⟨p, x, hl, e, he, hp, hn⟩
  · omega
  · obtain ⟨m, hm⟩ := hr _ _ _ _ hl
    have : e = m ++ ['>'] := List.append_cancel_right (he.symm.trans hm)
    rw [hn]
    exact (drop_prefix_get he (c := '>') (by rw [this]; simp)).1

/-! ### Where the handlers stop -/

/-- The character before the position is not a backslash. -/
def Landed (d : Str) (pos : Nat) : Prop := ∃ n c, pos = n + 1 ∧ d[n]? = some c ∧ c ≠ '\\'

theorem restFrom_prefix {s : Subj} {o : Nat} {a y : Str} (h : restFrom s o = a ++ y) {c : Char} (hc : a.getLast? = some c) :
    ∃ n, o + a.length = n + 1 ∧ s.data[n]? = some c := by
  have hne : a ≠ [] := by rintro rfl; simp at hc
  have hl : 1 ≤ a.length := List.length_pos_iff.mpr hne
  refine ⟨o + (a.length - 1), by omega, ?_⟩
  refine (restFrom_get (s := s) ?_).1
  rw [h, List.getElem?_append_left (by omega), ← List.getLast?_eq_getElem?, hc]

theorem takeWhile_lands {s : Subj} {o : Nat} {q : Char → Bool} (hq : q '\\' = false) (h : (restFrom s o).takeWhile q ≠ []) :
    Landed s.data (o + ((restFrom s o).takeWhile q).length) := by
  obtain ⟨c, hc⟩ : ∃ c, ((restFrom s o).takeWhile q).getLast? = some c := by
    cases h' : ((restFrom s o).takeWhile q).getLast? with
    | none => exact absurd (by simpa using h') h
    | some c => exact ⟨c, rfl⟩
  obtain ⟨n, h1, h2⟩ := restFrom_prefix (s := s) (o := o) (a := (restFrom s o).takeWhile q) (y := (restFrom s o).dropWhile q) (List.takeWhile_append_dropWhile.symm) hc
  refine ⟨n, c, h1, h2, ?_⟩
  rintro rfl
  have := mem_takeWhile_true (List.mem_of_getLast? hc)
  rw [hq] at this
  simp at this

theorem handleNewline_lands {s s' : Subj} (hp : peek s = some '\n') (h : handleNewline s = .ok s') : Landed s.data s'.pos := by
  obtain ⟨h1, h2⟩ := peek_some hp
  unfold handleNewline at h
  rw [h2] at h
  simp only at h
  rw [if_neg (by decide), h2] at h
  simp only [if_pos, Except.ok.injEq] at h
  subst h
  simp only
  by_cases ht : (restFrom s (s.pos + 1)).takeWhile (fun c => c == ' ' || c == '\t') = []
  · rw [ht]
    exact ⟨s.pos, '\n', rfl, h2, by decide⟩
  · exact takeWhile_lands (by decide) ht

theorem closingTicks_lands (n : Nat) (hn : 1 ≤ n) (f : Nat) : ∀ (rest : Str) (pos : Nat) (bt bt' : Nat → Nat) (e : Nat), closingTicksLoop n f rest pos bt = (some e, bt') →
    ∃ a y, rest = a ++ y ∧ a.getLast? = some '`' ∧ e = pos + a.length := by
  induction f with
  | zero => intro rest pos bt bt' e h; simp [closingTicksLoop] at h
  | succ f ih =>
    intro rest pos bt bt' e h
    unfold closingTicksLoop at h
    simp only at h
    have hsplit : rest = rest.takeWhile (· != '`') ++ rest.dropWhile (· != '`') := List.takeWhile_append_dropWhile.symm
    split at h
    · simp at h
    · have hd : ∀ r : Str, r.drop (r.takeWhile (· == '`')).length = r.dropWhile (· == '`') := by
        intro r
        have := List.drop_left (l₁ := r.takeWhile (· == '`')) (l₂ := r.dropWhile (· == '`'))
        rwa [List.takeWhile_append_dropWhile] at this
      rw [hd] at h
      split at h
      · rename_i hl
        injection h with h1 h2
        injection h1 with h1
        refine ⟨rest.takeWhile (· != '`') ++ (rest.dropWhile (· != '`')).takeWhile (· == '`'), (rest.dropWhile (· != '`')).dropWhile (· == '`'), ?_, ?_, ?_⟩
        · rw [List.append_assoc, List.takeWhile_append_dropWhile, List.takeWhile_append_dropWhile]
        · have hne' : (rest.dropWhile (· != '`')).takeWhile (· == '`') ≠ [] := by
            intro h0
            rw [h0] at hl
            simp at hl
            omega
          rw [List.getLast?_append_of_ne_nil _ hne']
          obtain ⟨c, hc⟩ : ∃ c, ((rest.dropWhile (· != '`')).takeWhile (· == '`')).getLast? = some c := by
            cases h' : ((rest.dropWhile (· != '`')).takeWhile (· == '`')).getLast? with
            | none => exact absurd (by simpa using h') hne'
            | some c => exact ⟨c, rfl⟩
          have := mem_takeWhile_true (List.mem_of_getLast? hc)
          simp only [beq_iff_eq] at this
          rw [hc, this]
        · rw [← h1]; simp; omega
      · obtain ⟨a, y, h1, h2, h3⟩ := ih _ _ _ _ _ h
        refine ⟨rest.takeWhile (· != '`') ++ (rest.dropWhile (· != '`')).takeWhile (· == '`') ++ a, y, ?_, ?_, ?_⟩
        · rw [List.append_assoc, ← h1, List.append_assoc, List.takeWhile_append_dropWhile, List.takeWhile_append_dropWhile]
        · rw [List.getLast?_append_of_ne_nil _ (by rintro rfl; simp at h2), h2]
        · rw [h3]; simp; omega

theorem handleBackticks_lands {s s' : Subj} (hp : peek s = some '`') (h : handleBackticks s = .ok s') : Landed s.data s'.pos := by
  obtain ⟨t, ht⟩ := restFrom_pos hp
  have hne : (restFrom s s.pos).takeWhile (· == '`') ≠ [] := by rw [ht]; simp [List.takeWhile_cons]
  have hstart : Landed s.data (s.pos + ((restFrom s s.pos).takeWhile (· == '`')).length) := takeWhile_lands (by decide) hne
  unfold handleBackticks at h
  simp only at h
  split at h
  · injection h with h; subst h; exact hstart
  · split at h
    · injection h with h; subst h; exact hstart
    · split at h
      · injection h with h; subst h; exact hstart
      · rename_i e bt hcl
        split at h
        · simp at h
        · injection h with h; subst h
          obtain ⟨a, y, h1, h2, h3⟩ := closingTicks_lands _ (List.length_pos_iff.mpr hne) _ _ _ _ _ _ hcl
          obtain ⟨n, h4, h5⟩ := restFrom_prefix h1 h2
          exact ⟨n, '`', by simp only; omega, h5, by decide⟩

theorem namedLoop_lands {E : Env} (f : Nat) : ∀ (name t : Str) (b : Buf), (namedLoop E f name t b).1 = 0 ∨
    ∃ k, (namedLoop E f name t b).1 = name.length + k + 1 ∧ t[k]? = some ';' := by
  induction f with
  | zero => intro name t b; exact .inl rfl
  | succ f ih =>
    intro name t b
    cases t with
    | nil => exact .inl rfl
    | cons c t =>
      unfold namedLoop
      split
      · exact .inl rfl
      · split
        · rename_i hc
          split
          · exact .inr ⟨0, rfl, by rw [hc]; rfl⟩
          · exact .inl rfl
        · rcases ih (c :: name) t b with h | ⟨k, h1, h2⟩
          · exact .inl h
          · refine .inr ⟨k + 1, ?_, by simpa using h2⟩
            rw [h1]; simp; omega

theorem decDigits_split {E : Env} : ∀ (t : Str) (cp : Int) (n : Nat), ∃ a, t = a ++ (decDigits E t cp n).2.2 ∧ (decDigits E t cp n).2.1 = n + a.length := by
  intro t
  induction t with
  | nil => intro cp n; exact ⟨[], rfl, rfl⟩
  | cons c t ih =>
    intro cp n
    unfold decDigits
    split
    · obtain ⟨a, h1, h2⟩ := ih (if cp * 10 + ((c.toNat : Int) - 48) ≥ 0x110000 then 0x110000 else cp * 10 + ((c.toNat : Int) - 48)) (n + 1)
      refine ⟨c :: a, ?_, ?_⟩
      · rw [List.cons_append, ← h1]
      · rw [h2]; simp; omega
    · exact ⟨[], rfl, rfl⟩

theorem hexDigits_split {E : Env} : ∀ (t : Str) (cp : Int) (n : Nat), ∃ a, t = a ++ (hexDigits E t cp n).2.2 ∧ (hexDigits E t cp n).2.1 = n + a.length := by
  intro t
  induction t with
  | nil => intro cp n; exact ⟨[], rfl, rfl⟩
  | cons c t ih =>
    intro cp n
    unfold hexDigits
    split
    · obtain ⟨a, h1, h2⟩ := ih (if cp * 16 + ((((c.toNat ||| 32) % 39 : Nat) : Int) - 9) ≥ 0x110000 then 0x110000 else cp * 16 + ((((c.toNat ||| 32) % 39 : Nat) : Int) - 9)) (n + 1)
      refine ⟨c :: a, ?_, ?_⟩
      · rw [List.cons_append, ← h1]
      · rw [h2]; simp; omega
    · exact ⟨[], rfl, rfl⟩

theorem numericEnd_lands {skip m n : Nat} {r : Int × Nat × Str} {b b' : Buf} (he : numericEnd skip m r b = .ok (n, b')) :
    n = 0 ∨ n = skip + r.2.1 + 1 ∧ r.2.2.head? = some ';' := by
  unfold numericEnd at he
  split at he
  · split at he
    · simp only [bind, Except.bind] at he
      split at he
      · simp at he
      · injection he with he
        injection he with he _
        exact .inr ⟨he.symm, rfl⟩
    · injection he with he
      injection he with he _
      exact .inl he.symm
  · injection he with he
    injection he with he _
    exact .inl he.symm

theorem unescapeEnt_lands {E : Env} {src : Str} {b b' : Buf} {n : Nat} (he : unescapeEnt E src b = .ok (n, b')) :
    n = 0 ∨ ∃ k, n = k + 1 ∧ src[k]? = some ';' := by
  unfold unescapeEnt at he
  split at he
  · rename_i d e t
    split at he
    · rcases numericEnd_lands he with h | ⟨h1, h2⟩
      · exact .inl h
      · obtain ⟨a, h3, h4⟩ := decDigits_split (E := E) (d :: e :: t) 0 0
        refine .inr ⟨1 + a.length, by omega, ?_⟩
        rw [Nat.add_comm, List.getElem?_cons_succ, h3, List.getElem?_append_right (Nat.le_refl _), Nat.sub_self, ← List.head?_eq_getElem?]
        exact h2
    · split at he
      · rcases numericEnd_lands he with h | ⟨h1, h2⟩
        · exact .inl h
        · obtain ⟨a, h3, h4⟩ := hexDigits_split (E := E) (e :: t) 0 0
          refine .inr ⟨2 + a.length, by omega, ?_⟩
          rw [show 2 + a.length = a.length + 1 + 1 by omega, List.getElem?_cons_succ, List.getElem?_cons_succ, h3, List.getElem?_append_right (Nat.le_refl _), Nat.sub_self, ← List.head?_eq_getElem?]
          exact h2
      · injection he with he
        injection he with he _
        exact .inl he.symm
  · rename_i c0 c1 t _
    injection he with he
    have := namedLoop_lands (E := E) 30 [c1, c0] t b
    rw [he] at this
    rcases this with h | ⟨k, h1, h2⟩
    · exact .inl h
    · refine .inr ⟨k + 2, by simp at h1; omega, by simpa using h2⟩
  · injection he with he
    injection he with he _
    exact .inl he.symm

theorem handleEntity_lands {E : Env} {s s' : Subj} (hp : peek s = some '&') (h : handleEntity E s = .ok s') : Landed s.data s'.pos := by
  obtain ⟨h1, h2⟩ := peek_some hp
  unfold handleEntity at h
  simp only [bind, Except.bind] at h
  split at h
  · simp at h
  · rename_i r hr
    obtain ⟨n, b⟩ := r
    injection h with h; subst h
    simp only
    rcases unescapeEnt_lands hr with rfl | ⟨k, rfl, hk⟩
    · exact ⟨s.pos, '&', rfl, h2, by decide⟩
    · exact ⟨s.pos + 1 + k, ';', by omega, (restFrom_get hk).1, by decide⟩

theorem pointyHtml_same (E : Env) (s : Subj) : (pointyHtml E s).2.pos = s.pos := by
  unfold pointyHtml
  split
  · split
    · split
      · rfl
      · split
        · split
          · rfl
          · simp only
            split
            · split <;> rfl
            · rfl
        · split
          · rfl
          · simp only
            split
            · split <;> rfl
            · rfl
    · split
      · split
        · rfl
        · simp only
          split <;> rfl
      · rfl
  · rfl

theorem pointyHtml_lands {E : Env} {s : Subj} (hlen : s.len ≤ s.data.length) (h0 : '\x00' ∉ s.data) (hcd : ∀ i, s.data[i]? = some '!' → s.data[i + 1]? ≠ some '[') :
    (pointyHtml E s).1 = 0 ∨ ∃ n, s.pos + (pointyHtml E s).1 = n + 1 ∧ s.data[n]? = some '>' := by
  have hz : ∀ k, '\x00' ∉ s.data.drop k := fun k hm => h0 (List.mem_of_mem_drop hm)
  unfold pointyHtml
  split
  · rename_i c d t hr
    have hc : s.data[s.pos]? = some c ∧ s.pos < s.len := restFrom_get (s := s) (o := s.pos) (i := 0) (by rw [hr]; rfl)
    have hd : s.data[s.pos + 1]? = some d ∧ s.pos + 1 < s.len := restFrom_get (s := s) (o := s.pos) (i := 1) (by rw [hr]; rfl)
    split
    · rename_i hc'
      subst hc'
      split
      · simp only
        split
        · rename_i hm
          right
          refine ⟨s.pos + 2 + scanAt E Rx.htmlcomment s (s.pos + 2) - 1, by omega, scanAt_ends htmlcomment_ends hm⟩
        · exact .inl rfl
      · split
        · rename_i hd'
          subst hd'
          exact absurd hd.1 (hcd _ hc.1)
        · split
          · exact .inl rfl
          · simp only
            split
            · rename_i hm
              split
              · exact .inl rfl
              · rename_i hle
                right
                simp only
                generalize hk : scanAt E Rx.declaration s (s.pos + 1) = k at hm hle
                unfold scanAt at hk
                rw [if_neg (by omega)] at hk
                split at hk
                · rename_i rest hmr
                  obtain ⟨p, hl⟩ := Re.matchRest_some hmr
                  obtain ⟨e, he, -⟩ := hl.consumes
                  have hel : s.data.length - (s.pos + 1) = e.length + rest.length := by
                    have := congrArg List.length he
                    simpa using this
                  rcases declaration_stops (hz _) hmr with rfl | ⟨y, rfl⟩
                  · simp only [List.length_nil] at hel hk
                    omega
                  · have hke : k = e.length := by
                      simp only [List.length_cons] at hk hel
                      omega
                    refine ⟨s.pos + 1 + k, by omega, ?_⟩
                    rw [← List.getElem?_drop, he, hke, List.getElem?_append_right (Nat.le_refl _)]
                    simp
                · omega
            · exact .inl rfl
    · split
      · split
        · exact .inl rfl
        · simp only
          split
          · exact .inl rfl
          · rename_i hle
            right
            simp only
            generalize hk : scanAt E Rx.processinginstruction s (s.pos + 1) = k at hle
            unfold scanAt at hk
            rw [if_neg (by omega)] at hk
            have fin : ∀ e rest : Str, s.data.drop (s.pos + 1) = e ++ rest → k = e.length → (rest = [] ∨ rest = ['?'] ∨ ∃ y, rest = '?' :: '>' :: y) →
                ∃ n, s.pos + (k + 3) = n + 1 ∧ s.data[n]? = some '>' := by
              intro e rest he hke hcase
              have hel : s.data.length - (s.pos + 1) = e.length + rest.length := by
                have := congrArg List.length he
                simpa using this
              rcases hcase with rfl | rfl | ⟨y, rfl⟩
              · simp at hel; omega
              · simp at hel; omega
              · refine ⟨s.pos + 1 + (k + 1), by omega, ?_⟩
                rw [← List.getElem?_drop, he, hke, List.getElem?_append_right (by omega)]
                simp
            split at hk
            · rename_i rest hmr
              obtain ⟨p, hl⟩ := Re.matchRest_some hmr
              obtain ⟨e, he, -⟩ := hl.consumes
              refine fin e rest he ?_ (pi_stops (hz _) hmr)
              have := congrArg List.length he
              simp at this
              omega
            · rename_i hmr
              exact fin [] _ rfl (by simp [← hk]) (pi_fails (hz _) hmr)
      · simp only
        by_cases hm : scanAt E Rx.htmltag s s.pos > 0
        · right
          exact ⟨s.pos + scanAt E Rx.htmltag s s.pos - 1, by omega, scanAt_ends htmltag_ends hm⟩
        · left; omega
  · exact .inl rfl

theorem handlePointyBrace_lands {E : Env} {s s' : Subj} (hp : peek s = some '<') (hlen : s.len ≤ s.data.length) (h0 : '\x00' ∉ s.data)
    (hcd : ∀ i, s.data[i]? = some '!' → s.data[i + 1]? ≠ some '[') (h : handlePointyBrace E s = .ok s') : Landed s.data s'.pos := by
  obtain ⟨h1, h2⟩ := peek_some hp
  unfold handlePointyBrace at h
  simp only [bind, Except.bind] at h
  split at h
  · rename_i hm
    split at h
    · simp at h
    · injection h with h; subst h
      refine ⟨s.pos + 1 + scanAt E Rx.autolinkUri { s with pos := s.pos + 1 } (s.pos + 1) - 1, '>', ?_, scanAt_ends (s := { s with pos := s.pos + 1 }) autolinkUri_ends hm, by decide⟩
      simp only at hm ⊢
      omega
  · split at h
    · rename_i hm
      split at h
      · simp at h
      · injection h with h; subst h
        refine ⟨s.pos + 1 + scanAt E Rx.autolinkEmail { s with pos := s.pos + 1 } (s.pos + 1) - 1, '>', ?_, scanAt_ends (s := { s with pos := s.pos + 1 }) autolinkEmail_ends hm, by decide⟩
        simp only at hm ⊢
        omega
    · injection h with h; subst h
      simp only [pointyHtml_same]
      rcases pointyHtml_lands (E := E) (s := { s with pos := s.pos + 1 }) hlen h0 hcd with hz | ⟨n, h3, h4⟩
      · rw [hz]
        exact ⟨s.pos, '<', rfl, h2, by decide⟩
      · exact ⟨n, '>', h3, h4, by decide⟩

theorem handleDelim_lands {E : Env} {s : Subj} {c : Char} (hp : peek s = some c) (hc : c ≠ '\\') : Landed s.data (handleDelim E s c).pos ∧ (handleDelim E s c).brackets = s.brackets := by
  obtain ⟨h1, h2⟩ := peek_some hp
  have hl : Landed s.data (s.pos + runLength c (restFrom s s.pos)) := by
    unfold runLength
    split
    · exact ⟨s.pos, c, rfl, h2, hc⟩
    · obtain ⟨t, ht⟩ := restFrom_pos hp
      exact takeWhile_lands (by simp [Ne.symm hc]) (by rw [ht]; simp [List.takeWhile_cons])
  have hn : (scanDelims E s c).1 = runLength c (restFrom s s.pos) := rfl
  unfold handleDelim
  generalize scanDelims E s c = r at hn
  obtain ⟨n, o, cl⟩ := r
  simp only at hn ⊢
  subst hn
  split <;> exact ⟨hl, rfl⟩

theorem findSpecialLoop_lands : ∀ (rest : Str) (n e : Nat), findSpecialLoop rest n = .ok e → e = n ∨ ∃ k c, e = n + k + 1 ∧ rest[k]? = some c ∧ c ≠ '\\' := by
  intro rest
  induction rest with
  | nil => intro n e h; simp [findSpecialLoop] at h; exact .inl h.symm
  | cons c t ih =>
    intro n e h
    unfold findSpecialLoop at h
    split at h
    · injection h with h; exact .inl h.symm
    · split at h
      · simp at h
      · split at h
        · injection h with h; exact .inl h.symm
        · rename_i hsp
          right
          rcases ih _ _ h with h' | ⟨k, d, h1, h2, h3⟩
          · refine ⟨0, c, by omega, rfl, ?_⟩
            rintro rfl
            exact hsp (by decide)
          · exact ⟨k + 1, d, by omega, by simpa using h2, h3⟩

/-- Everything but a backslash and an opening bracket. -/
theorem parseInline_lands {E : Env} {s s' : Subj} {c : Char} (hp : peek s = some c) (h : parseInline E s c = .ok s') (hb : s.brackets = []) (hlen : s.len ≤ s.data.length)
    (hcr : '\r' ∉ s.data) (h0 : '\x00' ∉ s.data) (hcd : ∀ i, s.data[i]? = some '!' → s.data[i + 1]? ≠ some '[') (h1 : c ≠ '\\') (h2 : c ≠ '[') :
    s'.brackets = [] ∧ Landed s.data s'.pos := by
  obtain ⟨hp1, hp2⟩ := peek_some hp
  have hmem : c ∈ s.data := List.mem_of_getElem? hp2
  have hone : Landed s.data (s.pos + 1) := ⟨s.pos, c, rfl, hp2, h1⟩
  unfold parseInline at h
  by_cases hc : c = '\r' ∨ c = '\n'
  · rw [if_pos hc] at h
    rcases hc with rfl | rfl
    · exact absurd hmem hcr
    · exact ⟨(handleNewline_same h).2.2.trans hb, handleNewline_lands hp h⟩
  rw [if_neg hc] at h; clear hc
  by_cases hc : c = '`'
  · rw [if_pos hc] at h; subst hc; exact ⟨(handleBackticks_same h).2.2.trans hb, handleBackticks_lands hp h⟩
  rw [if_neg hc] at h; clear hc
  rw [if_neg h1] at h
  by_cases hc : c = '&'
  · rw [if_pos hc] at h; subst hc; exact ⟨(handleEntity_same h).2.2.trans hb, handleEntity_lands hp h⟩
  rw [if_neg hc] at h; clear hc
  by_cases hc : c = '<'
  · rw [if_pos hc] at h; subst hc; exact ⟨(handlePointyBrace_same h).2.2.trans hb, handlePointyBrace_lands hp hlen h0 hcd h⟩
  rw [if_neg hc] at h; clear hc
  by_cases hc : c = '*' ∨ c = '_' ∨ c = '\'' ∨ c = '"'
  · rw [if_pos hc] at h; injection h with h; subst h
    obtain ⟨a, b⟩ := handleDelim_lands (E := E) hp h1
    exact ⟨b.trans hb, a⟩
  rw [if_neg hc] at h; clear hc
  by_cases hc : c = '-'
  · rw [if_pos hc] at h; injection h with h; subst h; exact ⟨hb, hone⟩
  rw [if_neg hc] at h; clear hc
  by_cases hc : c = '.'
  · rw [if_pos hc] at h; injection h with h; subst h; exact ⟨hb, hone⟩
  rw [if_neg hc] at h; clear hc
  rw [if_neg h2] at h
  by_cases hc : c = ']'
  · rw [if_pos hc] at h
    unfold handleCloseBracket at h
    rw [hb] at h
    simp only [Except.ok.injEq] at h
    subst h
    exact ⟨rfl, hone⟩
  rw [if_neg hc] at h; clear hc
  by_cases hc : c = '!'
  · rw [if_pos hc] at h; injection h with h; subst h; exact ⟨hb, hone⟩
  rw [if_neg hc] at h; clear hc
  simp only [bind, Except.bind] at h
  split at h
  · simp at h
  · rename_i e he
    injection h with h; subst h
    refine ⟨hb, ?_⟩
    simp only
    rcases findSpecialLoop_lands _ _ _ he with rfl | ⟨k, d, rfl, hk, hd⟩
    · exact hone
    · exact ⟨s.pos + 1 + k, d, by omega, (restFrom_get hk).1, hd⟩

/-! ### The loop -/

/-- The brackets are empty, and an even number of backslashes precedes the position, unless the next character cannot be escaped. -/
def Even (s : Subj) : Prop :=
  s.brackets = [] ∧ ∀ c, peek s = some c → trailingBackslashes (s.data.take s.pos) % 2 = 0 ∨ isPunct c = false

theorem landed_even {s : Subj} (hb : s.brackets = []) (h : Landed s.data s.pos) : Even s := by
  refine ⟨hb, fun c _ => .inl ?_⟩
  obtain ⟨n, d, h1, h2, h3⟩ := h
  rw [h1, trailing_take h2, if_neg h3]

theorem opensEscaped_get {d : Str} (h : OpensEscaped d) {i : Nat} (hi : d[i]? = some '[') : trailingBackslashes (d.take i) % 2 = 1 :=
  h (d.take i) (d.drop (i + 1)) (getElem_split hi)

theorem parseInline_even {E : Env} {s s' : Subj} {c : Char} (hp : peek s = some c) (h : parseInline E s c = .ok s') (hs : Even s) (hlen : s.len ≤ s.data.length)
    (hcr : '\r' ∉ s.data) (h0 : '\x00' ∉ s.data) (he : OpensEscaped s.data) : Even s' := by
  obtain ⟨hp1, hp2⟩ := peek_some hp
  obtain ⟨hm1, hm2, -⟩ := parseInline_moves hp h
  have h2 : c ≠ '[' := by
    rintro rfl
    have h3 := opensEscaped_get he hp2
    rcases hs.2 _ hp with h4 | h4
    · omega
    · exact absurd h4 (by decide)
  by_cases h1 : c = '\\'
  swap
  · have hcd : ∀ i, s.data[i]? = some '!' → s.data[i + 1]? ≠ some '[' := by
      intro i hi hb
      have := opensEscaped_get he hb
      rw [trailing_take hi, if_neg (by decide)] at this
      simp at this
    obtain ⟨a, b⟩ := parseInline_lands hp h hs.1 hlen hcr h0 hcd h1 h2
    exact landed_even a (by rw [hm1]; exact b)
  subst h1
  have hev : trailingBackslashes (s.data.take s.pos) % 2 = 0 := by
    rcases hs.2 _ hp with h4 | h4
    · exact h4
    · exact absurd h4 (by decide)
  have h : .ok (handleBackslash s) = (.ok s' : Except Exn Subj) := h
  injection h with h
  have hb' : s'.brackets = [] := by rw [← h, (handleBackslash_same s).2.2]; exact hs.1
  unfold handleBackslash at h
  simp only at h
  split at h
  · rename_i hn
    subst h
    exact ⟨hb', fun c hc => by rw [hn] at hc; simp at hc⟩
  · rename_i c hc
    obtain ⟨-, hc2⟩ := peek_some hc
    simp only at hc2
    split at h
    · rename_i hpu
      subst h
      by_cases hcb : c = '\\'
      · refine ⟨hb', fun d _ => .inl ?_⟩
        simp only
        rw [trailing_take hc2, if_pos hcb, trailing_take hp2, if_pos rfl]
        omega
      · exact landed_even hb' ⟨s.pos + 1, c, rfl, hc2, hcb⟩
    · rename_i hpu
      simp only [if_neg (show ¬ c = '\r' by rintro rfl; exact hcr (List.mem_of_getElem? hc2))] at h
      split at h
      · rename_i hnl
        obtain ⟨-, hnl2⟩ := peek_some hnl
        subst h
        exact landed_even hb' ⟨s.pos + 1, '\n', rfl, hnl2, by decide⟩
      · subst h
        refine ⟨hb', fun d hd => .inr ?_⟩
        rw [hc] at hd
        injection hd with hd
        subst hd
        simpa using hpu

theorem inlinesLoop_escaped {E : Env} (f : Nat) : ∀ s : Subj, s.len - s.pos < f → SubjOk s → s.len = rtrimLen s.data → Even s → '\r' ∉ s.data → '\x00' ∉ s.data →
    (∀ c ∈ s.data, c.toNat ≠ 256) → ('&' ∈ s.data → DigitsOk E s.data) → OpensEscaped s.data → Total (inlinesLoop E f s) := by
  induction f with
  | zero => intro s h; omega
  | succ f ih =>
    intro s h hs hlen hev hcr h0 h256 hdig hesc
    unfold inlinesLoop
    split
    · exact Total.ok _
    · rename_i c hp
      refine (parseInline_total_of hp hcr h256 hdig ?_).bind (fun s' hs' => ?_)
      · intro _
        unfold handleCloseBracket
        rw [hev.1]
        exact Total.ok _
      · obtain ⟨h1, h2, h3⟩ := parseInline_moves hp hs'
        have := (peek_some hp).1
        have hle : s.len ≤ s.data.length := by rw [hlen]; exact rtrimLen_le _
        exact ih s' (by omega) (parseInline_ok hp hs hs') (by rw [h1, h2]; exact hlen) (parseInline_even hp hs' hev hle hcr h0 hesc) (by rw [h1]; exact hcr)
          (by rw [h1]; exact h0) (by rw [h1]; exact h256) (by rw [h1]; exact hdig) (by rw [h1]; exact hesc)

theorem parseInlines_escaped {E : Env} {s : Str} (hcr : '\r' ∉ s) (h0 : '\x00' ∉ s) (h256 : ∀ c ∈ s, c.toNat ≠ 256) (hdig : '&' ∈ s → DigitsOk E s) (hesc : OpensEscaped s) :
    Total (parseInlines E s) := by
  unfold parseInlines
  refine Total.bind (inlinesLoop_escaped _ _ ?_ (initSubj_ok s) rfl ⟨rfl, fun _ _ => .inl rfl⟩ hcr h0 h256 hdig hesc) (fun q hq => ?_)
  · have := rtrimLen_le s
    simp only [initSubj]
    omega
  · exact (processEmphasis_total (inlinesLoop_ok _ (initSubj_ok s) hq).1 none).bind (fun _ _ => Total.ok _)

end Cmark

end MdToc
