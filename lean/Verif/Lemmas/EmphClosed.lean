import Verif.Lemmas.EmphLinks

/-!
# The inline parser: links with any destination and title
-/

set_option linter.unusedSimpArgs false

namespace MdToc.Cmark

open Spec

/-! ### Buffers -/

/-- The text in the buffer is not longer than `size`: what is put comes behind it. -/
def Buf.Wide (b : Buf) : Prop := b.ptr.length ≤ b.size

theorem Buf.put_wide {b : Buf} (h : b.Wide) {dt : Str} {n : Nat} : (b.put dt n).ptr = b.ptr ++ dt.take n ∧ (b.put dt n).Wide := by
  unfold Buf.Wide at *
  unfold Buf.put
  split
  · rename_i h0; subst h0; simp [h]
  · have h1 : b.ptr.take b.size = b.ptr := List.take_of_length_le h
    have h2 : b.ptr.drop (b.size + 1 + n) = [] := List.drop_eq_nil_of_le (by omega)
    simp only [h1, h2, List.append_nil, true_and, List.length_append, List.length_take]
    omega

theorem Buf.putc_wide {b : Buf} (h : b.Wide) (c : Char) : (b.putc c).Wide := by
  unfold Buf.Wide Buf.putc at *
  simp; omega

/-- The text does not end with a backslash. -/
def NoTail (s : Str) : Prop := s.getLast? ≠ some '\\'

theorem noTail_append {s t : Str} (h : t ≠ []) (ht : NoTail t) : NoTail (s ++ t) := by
  unfold NoTail at *
  rw [List.getLast?_append_of_ne_nil _ h]
  exact ht

theorem strbufUnescape_noTail : ∀ (n : Nat) (s : Str), s.length ≤ n → NoTail s → Total (strbufUnescape s) := by
  intro n
  induction n with
  | zero =>
    intro s h _
    have : s = [] := List.eq_nil_of_length_eq_zero (by omega)
    subst this
    exact Total.ok _
  | succ n ih =>
    intro s h ht
    cases s with
    | nil => exact Total.ok _
    | cons c t =>
      have tl : ∀ {a : Char} {l : Str}, NoTail (a :: l) → NoTail l := by
        intro a l hl
        cases l with
        | nil => simp [NoTail]
        | cons b l => unfold NoTail at *; rwa [List.getLast?_cons_cons] at hl
      unfold strbufUnescape
      by_cases hc : c = '\\'
      · rw [if_pos hc]
        cases t with
        | nil => subst hc; simp [NoTail] at ht
        | cons d t' =>
          simp only
          simp at h
          split
          · exact ih _ (by omega) (tl (tl ht))
          · exact ih _ (by simp; omega) (tl ht)
      · rw [if_neg hc]
        simp at h
        exact ih _ (by omega) (tl ht)

theorem utf8Size_ge (e : Str) : e.length ≤ utf8Size e := by
  unfold utf8Size
  induction e with
  | nil => simp
  | cons c t ih =>
    have := Char.utf8Size_pos c
    simp
    omega

/-- Something is put that does not end with a backslash. -/
def Puts (b b' : Buf) : Prop := b'.Wide ∧ ∃ t, t ≠ [] ∧ NoTail t ∧ b'.ptr = b.ptr ++ t

theorem encodeChar_puts {uc : Int} {b b' : Buf} (h : b.Wide) (he : encodeChar uc b = .ok b') : Puts b b' := by
  unfold encodeChar at he
  split at he
  · simp at he
  · split at he
    · injection he with he
      subst he
      obtain ⟨h1, h2⟩ := Buf.put_wide h (dt := ['\t']) (n := 3)
      exact ⟨h2, ['\t'], by simp, by simp [NoTail], h1⟩
    · rename_i h0 h1
      have : uc = 0 ∨ uc = 1 := by omega
      injection he with he
      subst he
      obtain ⟨h1, h2⟩ := Buf.put_wide h (dt := natStr uc.toNat) (n := 1)
      refine ⟨h2, _, ?_, ?_, h1⟩
      · rcases this with rfl | rfl <;> decide
      · rcases this with rfl | rfl <;> (unfold NoTail; decide)

theorem numericEnd_puts {skip m n : Nat} {r : Int × Nat × Str} {b b' : Buf} (h : b.Wide) (he : numericEnd skip m r b = .ok (n, b')) :
    (n = 0 ∧ b' = b) ∨ Puts b b' := by
  unfold numericEnd at he
  split at he
  · split at he
    · simp only [bind, Except.bind] at he
      split at he
      · simp at he
      · rename_i b1 h1
        injection he with he
        injection he with _ he
        subst he
        exact .inr (encodeChar_puts h h1)
    · injection he with he; injection he with h1 h2; exact .inl ⟨h1.symm, h2.symm⟩
  · injection he with he; injection he with h1 h2; exact .inl ⟨h1.symm, h2.symm⟩

theorem namedLoop_puts {E : Env} (f : Nat) : ∀ (name rest : Str) (b b' : Buf) (n : Nat), b.Wide → namedLoop E f name rest b = (n, b') →
    (n = 0 ∧ b' = b) ∨ Puts b b' := by
  induction f with
  | zero => intro name rest b b' n _ h; simp [namedLoop] at h; exact .inl ⟨h.1.symm, h.2.symm⟩
  | succ f ih =>
    intro name rest b b' n hb h
    cases rest with
    | nil => simp [namedLoop] at h; exact .inl ⟨h.1.symm, h.2.symm⟩
    | cons c t =>
      unfold namedLoop at h
      split at h
      · simp at h; exact .inl ⟨h.1.symm, h.2.symm⟩
      · split at h
        · split at h
          · rename_i e _
            injection h with _ h
            subst h
            obtain ⟨h1, h2⟩ := Buf.put_wide hb (dt := e ++ ['\x00']) (n := utf8Size e + 1)
            have : (e ++ ['\x00']).take (utf8Size e + 1) = e ++ ['\x00'] :=
              List.take_of_length_le (by have := utf8Size_ge e; simp; omega)
            rw [this] at h1
            exact .inr ⟨h2, e ++ ['\x00'], by simp, by simp [NoTail], h1⟩
          · simp at h; exact .inl ⟨h.1.symm, h.2.symm⟩
        · exact ih _ _ _ _ _ hb h

theorem unescapeEnt_puts {E : Env} {src : Str} {b b' : Buf} {n : Nat} (h : b.Wide) (he : unescapeEnt E src b = .ok (n, b')) :
    (n = 0 ∧ b' = b) ∨ Puts b b' := by
  unfold unescapeEnt at he
  split at he
  · split at he
    · exact numericEnd_puts h he
    · split at he
      · exact numericEnd_puts h he
      · injection he with he; injection he with h1 h2; exact .inl ⟨h1.symm, h2.symm⟩
  · injection he with he
    exact namedLoop_puts _ _ _ _ _ _ h he
  · injection he with he; injection he with h1 h2; exact .inl ⟨h1.symm, h2.symm⟩

theorem noTail_suffix {s t : Str} (h : t <:+ s) (hs : NoTail s) : NoTail t := by
  obtain ⟨a, rfl⟩ := h
  unfold NoTail at *
  cases t with
  | nil => simp
  | cons c t => rwa [List.getLast?_append_of_ne_nil _ (by simp)] at hs

theorem unescapeHtml_noTail {E : Env} (f : Nat) : ∀ (src : Str) (b b' : Buf), b.Wide → NoTail b.ptr → NoTail src →
    unescapeHtml E f src b = .ok b' → NoTail b'.ptr := by
  induction f with
  | zero => intro src b b' _ _ _ h; simp [unescapeHtml] at h
  | succ f ih =>
    intro src b b' hw hb hs h
    unfold unescapeHtml at h
    simp only at h
    have hsp := List.takeWhile_append_dropWhile (p := (· != '&')) (l := src)
    have hsuf : src.dropWhile (· != '&') <:+ src := List.dropWhile_suffix _
    obtain ⟨hp, hw'⟩ := Buf.put_wide hw (dt := src.takeWhile (· != '&')) (n := (src.takeWhile (· != '&')).length)
    rw [List.take_length] at hp
    cases hd : src.dropWhile (· != '&') with
    | nil =>
      rw [hd] at h hsp
      simp only at h
      injection h with h
      subst h
      rw [hp]
      rw [List.append_nil] at hsp
      rw [hsp]
      cases src with
      | nil => simpa using hb
      | cons c t => exact noTail_append (by simp) hs
    | cons x t =>
      rw [hd] at h hsuf
      simp only [bind, Except.bind] at h
      split at h
      · simp at h
      · rename_i r hr
        obtain ⟨n, b1⟩ := r
        simp only at h
        have hst : NoTail (t.drop n) := noTail_suffix ((List.drop_suffix n t).trans ((List.suffix_cons x t).trans hsuf)) hs
        rcases unescapeEnt_puts hw' hr with ⟨h1, h2⟩ | ⟨h1, u, hu1, hu2, hu3⟩
        · subst h1 h2
          rw [if_pos rfl] at h
          refine ih _ _ _ (Buf.putc_wide hw' _) ?_ hst h
          simp [Buf.putc, NoTail]
        · by_cases hn : n = 0
          · rw [if_pos hn] at h
            refine ih _ _ _ (Buf.putc_wide h1 _) ?_ hst h
            simp [Buf.putc, NoTail]
          · rw [if_neg hn] at h
            refine ih _ _ _ h1 ?_ hst h
            rw [hu3]
            exact noTail_append hu1 hu2

theorem unescapeHtml_any {E : Env} {src : Str} (h : '&' ∈ src → DigitsOk E src) : Total (unescapeHtml E (src.length + 1) src ⟨[], 0⟩) := by
  by_cases ha : '&' ∈ src
  · exact unescapeHtml_total _ _ _ (by omega) (h ha)
  · exact unescapeHtml_plain ha

theorem clean_total {E : Env} {src : Str} (hd : '&' ∈ src → DigitsOk E src) (hs : NoTail src) :
    Total (unescapeHtml E (src.length + 1) src ⟨[], 0⟩ >>= fun b => strbufUnescape b.ptr) := by
  refine (unescapeHtml_any hd).bind (fun b hb => ?_)
  exact strbufUnescape_noTail _ _ (Nat.le_refl _) (unescapeHtml_noTail _ _ _ _ (by simp [Buf.Wide]) (by simp [NoTail]) hs hb)

/-! ### Scanning -/

/-- What `_cmark__scan_at` matched. -/
theorem scanAt_match {E : Env} {r : Re} {s : Subj} {o : Nat} : scanAt E r s o = 0 ∨
    ∃ p x, r.Lang E.isWord none (s.data.drop o) p x ∧ ∃ e, s.data.drop o = e ++ x ∧ p = e.getLast? ∧ scanAt E r s o = e.length := by
  unfold scanAt
  split
  · exact .inl rfl
  · split
    · rename_i rest hm
      obtain ⟨p, hl⟩ := Re.matchRest_some hm
      obtain ⟨e, he, hp⟩ := hl.consumes
      refine .inr ⟨p, rest, hl, e, he, by simpa using hp, ?_⟩
      have := congrArg List.length he
      simp at this
      omega
    · exact .inl rfl

theorem drop_prefix_get {d e x : Str} {o : Nat} (h : d.drop o = e ++ x) {c : Char} (hc : e.getLast? = some c) :
    d[o + e.length - 1]? = some c ∧ 1 ≤ e.length := by
  have hne : e ≠ [] := by rintro rfl; simp at hc
  have hl : 1 ≤ e.length := List.length_pos_iff.mpr hne
  refine ⟨?_, hl⟩
  have h1 : (d.drop o)[e.length - 1]? = some c := by
    rw [h, List.getElem?_append_left (by omega), ← List.getLast?_eq_getElem?, hc]
  rw [List.getElem?_drop] at h1
  rw [show o + e.length - 1 = o + (e.length - 1) by omega]
  exact h1

theorem scanSpacechars_last {E : Env} {s : Subj} {o : Nat} : scanSpacechars E s o = 0 ∨
    (1 ≤ scanSpacechars E s o ∧ ∃ c, s.data[o + scanSpacechars E s o - 1]? = some c ∧ c.toNat < 33) := by
  unfold scanSpacechars
  rcases scanAt_match (E := E) (r := Re.plus Rx.spacechar) (s := s) (o := o) with h | ⟨p, x, hl, e, he, hp, hn⟩
  · exact .inl h
  · right
    obtain ⟨e', hne, he', hall, hp'⟩ := Re.plus_cls_iff.mp hl
    rw [Option.or_none] at hp'
    have hee : e = e' := List.append_cancel_right (he.symm.trans he')
    subst hee
    cases hg : e.getLast? with
    | none => rw [List.getLast?_eq_none_iff] at hg; exact absurd hg hne
    | some c =>
      obtain ⟨h1, h2⟩ := drop_prefix_get he hg
      rw [hn]
      refine ⟨h2, c, h1, ?_⟩
      have := hall c (List.mem_of_getLast? hg)
      simp only [Bool.or_eq_true, beq_iff_eq] at this
      rcases this with ((((rfl | rfl) | rfl) | rfl) | rfl) | rfl <;> decide

theorem linkTitle_last {w : Char → Bool} {p : Option Char} {s : Str} {q : Option Char} {x : Str} (h : Rx.linkTitle.Lang w p s q x) :
    q = some '"' ∨ q = some '\'' := by
  unfold Rx.linkTitle at h
  simp only [Re.alts, Re.seqs] at h
  rcases h with ⟨_, _, _, _, _, _, h⟩ | ⟨_, _, _, _, _, _, h⟩ | ⟨_, _, _, _, _, _, h⟩
  · exact .inl (Re.lang_chr.mp h).2
  · exact .inr (Re.lang_chr.mp h).2
  · exact .inr (Re.lang_chr.mp h).2

theorem scanTitle_last {E : Env} {s : Subj} {o : Nat} : scanAt E Rx.linkTitle s o = 0 ∨
    (1 ≤ scanAt E Rx.linkTitle s o ∧ ∃ c, s.data[o + scanAt E Rx.linkTitle s o - 1]? = some c ∧ (c = '"' ∨ c = '\'')) := by
  rcases scanAt_match (E := E) (r := Rx.linkTitle) (s := s) (o := o) with h | ⟨p, x, hl, e, he, hp, hn⟩
  · exact .inl h
  · right
    rw [hn]
    rcases linkTitle_last hl with hq | hq
    · rw [hq] at hp
      obtain ⟨h1, h2⟩ := drop_prefix_get he hp.symm
      exact ⟨h2, _, h1, .inl rfl⟩
    · rw [hq] at hp
      obtain ⟨h1, h2⟩ := drop_prefix_get he hp.symm
      exact ⟨h2, _, h1, .inr rfl⟩

/-! ### Destinations -/

theorem linkUrl2_stop : ∀ (k : Nat) (r : Str) (nb n m : Nat), r.length ≤ k → linkUrl2 r nb n = some m → n ≤ m ∧ ∃ c, r[m - n]? = some c ∧ (c = ')' ∨ isSpace c = true) := by
  intro k
  induction k with
  | zero =>
    intro r nb n m hk h
    have : r = [] := List.eq_nil_of_length_eq_zero (by omega)
    subst this
    simp [linkUrl2] at h
  | succ k ih =>
    intro r nb n m hk h
    cases r with
    | nil => simp [linkUrl2] at h
    | cons c t =>
      have here : ∀ {P : Prop}, (c = ')' ∨ isSpace c = true) → some n = some m → n ≤ m ∧ ∃ d, (c :: t)[m - n]? = some d ∧ (d = ')' ∨ isSpace d = true) := by
        intro _ hc hm
        injection hm with hm
        subst hm
        exact ⟨Nat.le_refl _, c, by simp, hc⟩
      cases t with
      | nil =>
        unfold linkUrl2 at h
        simp only at h
        split at h
        · simp at h
        · split at h
          · rename_i hc
            split at h
            · exact here (P := True) (.inl hc) h
            · simp at h
          · split at h
            · rename_i hc
              split at h
              · simp at h
              · split at h
                · exact here (P := True) (.inr hc) h
                · simp at h
            · simp at h
      | cons d t' =>
        simp at hk
        have go1 : ∀ nb', linkUrl2 (d :: t') nb' (n + 1) = some m → n ≤ m ∧ ∃ e, (c :: d :: t')[m - n]? = some e ∧ (e = ')' ∨ isSpace e = true) := by
          intro nb' h'
          obtain ⟨h1, e, h2, h3⟩ := ih _ _ _ _ (by simp; omega) h'
          refine ⟨by omega, e, ?_, h3⟩
          rw [show m - n = (m - (n + 1)) + 1 by omega, List.getElem?_cons_succ]
          exact h2
        unfold linkUrl2 at h
        simp only at h
        split at h
        · obtain ⟨h1, e, h2, h3⟩ := ih _ _ _ _ (by omega) h
          refine ⟨by omega, e, ?_, h3⟩
          rw [show m - n = (m - (n + 2)) + 1 + 1 by omega, List.getElem?_cons_succ, List.getElem?_cons_succ]
          exact h2
        · split at h
          · split at h
            · simp at h
            · exact go1 _ h
          · split at h
            · rename_i hc
              split at h
              · exact here (P := True) (.inl hc) h
              · exact go1 _ h
            · split at h
              · rename_i hc
                split at h
                · simp at h
                · split at h
                  · exact here (P := True) (.inr hc) h
                  · simp at h
              · exact go1 _ h

theorem pointyUrl_stop : ∀ (k : Nat) (t : Str) (n m : Nat), t.length ≤ k → pointyUrl t n = some m → n + 1 ≤ m ∧ t[m - n - 1]? = some '>' ∧ m - n < t.length := by
  intro k
  induction k with
  | zero =>
    intro t n m hk h
    have : t = [] := List.eq_nil_of_length_eq_zero (by omega)
    subst this
    simp [pointyUrl] at h
  | succ k ih =>
    intro t n m hk h
    cases t with
    | nil => simp [pointyUrl] at h
    | cons c t =>
      simp at hk
      unfold pointyUrl at h
      split at h
      · rename_i hc
        split at h
        · simp at h
        · rename_i hne
          injection h with h
          subst h
          have := List.length_pos_iff.mpr hne
          refine ⟨by omega, by simp [hc], by simp; omega⟩
      · split at h
        · split at h
          · simp at h
          · rename_i d t'
            simp at hk
            obtain ⟨h1, h2, h3⟩ := ih _ _ _ (by omega) h
            refine ⟨by omega, ?_, by simp; omega⟩
            rw [show m - n - 1 = (m - (n + 2) - 1) + 1 + 1 by omega, List.getElem?_cons_succ, List.getElem?_cons_succ]
            exact h2
        · split at h
          · simp at h
          · obtain ⟨h1, h2, h3⟩ := ih _ _ _ (by omega) h
            refine ⟨by omega, ?_, by simp; omega⟩
            rw [show m - n - 1 = (m - (n + 1) - 1) + 1 by omega, List.getElem?_cons_succ]
            exact h2

theorem restFrom_get {s : Subj} {o i : Nat} {c : Char} (h : (restFrom s o)[i]? = some c) : s.data[o + i]? = some c ∧ o + i < s.len := by
  unfold restFrom at h
  rw [List.getElem?_drop, List.getElem?_take] at h
  split at h
  · exact ⟨h, by assumption⟩
  · simp at h

/-- The destination is a piece of the text, followed by a parenthesis, white space or `>`, and not at the end of the text. -/
theorem linkUrl_piece {s : Subj} {o n : Nat} {url : Str} (h : linkUrl s o = some (n, url)) :
    o + n < s.len ∧ (∃ c, s.data[o + n]? = some c) ∧ ∃ a, o ≤ a ∧ (∀ i, i < url.length → url[i]? = s.data[a + i]?) ∧
      ∃ c, s.data[a + url.length]? = some c ∧ (c = ')' ∨ c = '>' ∨ isSpace c = true) := by
  unfold linkUrl at h
  split at h
  · rename_i t ht
    cases hp : pointyUrl t 1 with
    | none => rw [hp] at h; simp at h
    | some m =>
      rw [hp] at h
      simp only [Option.map_some, Option.some.injEq, Prod.mk.injEq] at h
      obtain ⟨rfl, rfl⟩ := h
      obtain ⟨h1, h2, h3⟩ := pointyUrl_stop _ _ _ _ (Nat.le_refl _) hp
      have hget : ∀ i, i < t.length → s.data[o + 1 + i]? = t[i]? ∧ o + 1 + i < s.len := by
        intro i hi
        have : (restFrom s o)[i + 1]? = some t[i] := by rw [ht]; simp [hi]
        obtain ⟨h4, h5⟩ := restFrom_get this
        refine ⟨?_, by omega⟩
        rw [show o + 1 + i = o + (i + 1) by omega, h4, List.getElem?_eq_getElem hi]
      obtain ⟨h4, h5⟩ := hget (m - 1) h3
      rw [show o + 1 + (m - 1) = o + m by omega] at h4 h5
      refine ⟨h5, ⟨_, h4.trans (List.getElem?_eq_getElem h3)⟩, o + 1, by omega, ?_, '>', ?_, .inr (.inl rfl)⟩
      · intro i hi
        simp at hi
        rw [(hget i (by omega)).1, List.getElem?_take_of_lt (by omega)]
      · have : (t.take (m - 2)).length = m - 2 := by simp; omega
        rw [this, (hget (m - 2) (by omega)).1, ← h2]
        congr 1
  · rename_i r _
    cases hp : linkUrl2 (restFrom s o) 0 0 with
    | none => rw [hp] at h; simp at h
    | some m =>
      rw [hp] at h
      simp only [Option.map_some, Option.some.injEq, Prod.mk.injEq] at h
      obtain ⟨rfl, rfl⟩ := h
      obtain ⟨-, c, h2, h3⟩ := linkUrl2_stop _ _ _ _ _ (Nat.le_refl _) hp
      rw [Nat.sub_zero] at h2
      obtain ⟨h4, h5⟩ := restFrom_get h2
      have hm : m < (restFrom s o).length := (List.getElem?_eq_some_iff.mp h2).1
      refine ⟨h5, ⟨c, h4⟩, o, Nat.le_refl _, ?_, c, ?_, ?_⟩
      · intro i hi
        simp at hi
        rw [List.getElem?_take_of_lt (by omega), List.getElem?_eq_getElem (by omega)]
        exact (restFrom_get (List.getElem?_eq_getElem (by omega))).1.symm
      · have : ((restFrom s o).take m).length = m := by simp; omega
        rw [this]; exact h4
      · rcases h3 with h3 | h3
        · exact .inl h3
        · exact .inr (.inr h3)

/-- No backslash after the position stands before one of these characters. -/
def EscOk (data : Str) (p : Nat) : Prop :=
  ∀ i, p ≤ i → data[i]? = some '\\' → ∃ d, data[i + 1]? = some d ∧ isSpace d = false ∧ d ≠ ')' ∧ d ≠ '>' ∧ d ≠ '"' ∧ d ≠ '\''

/-- A piece of the text, without white space at its ends, followed by one of the characters, does not end with a backslash. -/
theorem trim_noTail {data u : Str} {a p : Nat} (he : EscOk data p) (hp : p ≤ a) (hu : ∀ i, i < u.length → u[i]? = data[a + i]?)
    (hc : ∃ c, data[a + u.length]? = some c ∧ (c = ')' ∨ c = '>' ∨ isSpace c = true)) : NoTail (chunkTrim u) := by
  intro hl
  obtain ⟨pre, suf, e, h1, h2⟩ : ∃ pre suf, u = pre ++ chunkTrim u ++ suf ∧ (∀ c ∈ pre, isSpace c = true) ∧ ∀ c ∈ suf, isSpace c = true := by
    obtain ⟨t, e, ht, -⟩ := rstrip_eq isSpace (lstrip isSpace u)
    refine ⟨u.takeWhile isSpace, t, ?_, ?_, ht⟩
    · unfold chunkTrim strip
      rw [List.append_assoc, ← e]
      unfold lstrip
      exact (List.takeWhile_append_dropWhile).symm
    · intro c hc
      exact mem_takeWhile_true hc
  generalize chunkTrim u = m at hl e
  have hm : 1 ≤ m.length := by
    cases m with
    | nil => simp at hl
    | cons _ _ => simp
  have hlen : u.length = pre.length + m.length + suf.length := by rw [e]; simp; omega
  have hat : data[a + (pre.length + m.length - 1)]? = some '\\' := by
    rw [← hu _ (by omega), e, List.append_assoc, List.getElem?_append_right (by omega), List.getElem?_append_left (by omega),
      show pre.length + m.length - 1 - pre.length = m.length - 1 by omega, ← List.getLast?_eq_getElem?, hl]
  obtain ⟨d, hd, hd1, hd2, hd3, -⟩ := he _ (by omega) hat
  rw [show a + (pre.length + m.length - 1) + 1 = a + (pre.length + m.length) by omega] at hd
  cases suf with
  | nil =>
    obtain ⟨c, hc1, hc2⟩ := hc
    rw [hlen, List.length_nil, Nat.add_zero, hd] at hc1
    injection hc1 with hc1
    subst hc1
    rcases hc2 with h | h | h
    · exact hd2 h
    · exact hd3 h
    · rw [hd1] at h; simp at h
  | cons x y =>
    rw [← hu _ (by rw [hlen]; simp), e, List.getElem?_append_right (by simp)] at hd
    simp at hd
    have := h2 x (by simp)
    rw [hd, hd1] at this
    simp at this

theorem cleanTitle_total {E : Env} {data : Str} {o k p : Nat} (hp : p ≤ o) (he : EscOk data p) (hd : '&' ∈ data → DigitsOk E data)
    (hk : k = 0 ∨ (1 ≤ k ∧ ∃ c, data[o + k - 1]? = some c ∧ (c = '"' ∨ c = '\''))) : Total (cleanTitle E ((data.drop o).take k)) := by
  rcases hk with rfl | ⟨hk, q, hq, hqq⟩
  · simp [cleanTitle]; exact Total.ok _
  have hlt : o + k - 1 < data.length := (List.getElem?_eq_some_iff.mp hq).1
  have hlen : ((data.drop o).take k).length = k := by simp; omega
  have hget : ∀ i, i < k → ((data.drop o).take k)[i]? = data[o + i]? := by
    intro i hi
    rw [List.getElem?_take_of_lt hi, List.getElem?_drop]
  have hmem : ∀ c ∈ (data.drop o).take k, c ∈ data := fun c hc => List.mem_of_mem_drop (List.mem_of_mem_take hc)
  generalize (data.drop o).take k = title at *
  have hdig : ∀ src : Str, (∀ c ∈ src, c ∈ title) → '&' ∈ src → DigitsOk E src :=
    fun src hs ha => (hd (hmem _ (hs _ ha))).sub (fun c hc => hmem _ (hs _ hc))
  unfold cleanTitle
  cases title with
  | nil => exact Total.ok _
  | cons first t =>
    simp only
    split
    · rename_i hcond
      apply clean_total
      · apply hdig
        intro c hc
        exact List.mem_cons_of_mem _ (List.dropLast_subset t hc)
      · intro hl
        rw [List.getLast?_eq_getElem?] at hl
        have h1 : t.dropLast.length - 1 < t.dropLast.length := (List.getElem?_eq_some_iff.mp hl).1
        rw [List.getElem?_dropLast] at hl
        simp only [List.length_dropLast] at hl h1
        rw [if_pos (by omega)] at hl
        simp only [List.length_cons] at hlen
        have h2 := hget (t.length - 1) (by omega)
        rw [show t.length - 1 = (t.length - 1 - 1) + 1 by omega, List.getElem?_cons_succ, hl] at h2
        obtain ⟨d, hd1, -, -, -, hd4, hd5⟩ := he _ (by omega) h2.symm
        rw [show o + (t.length - 1 - 1 + 1) + 1 = o + k - 1 by omega, hq] at hd1
        injection hd1 with hd1
        subst hd1
        rcases hqq with h | h
        · exact hd4 h
        · exact hd5 h
    · apply clean_total
      · exact hdig _ (fun _ h => h)
      · intro hl
        rw [List.getLast?_eq_getElem?, hlen, hget _ (by omega), show o + (k - 1) = o + k - 1 by omega, hq] at hl
        injection hl with hl
        subst hl
        rcases hqq with h | h <;> exact absurd h (by decide)

theorem inlineLink_closed {E : Env} {s : Subj} {c : Char} (hlen : s.len ≤ s.data.length) (hd : '&' ∈ s.data → DigitsOk E s.data)
    (hl : s.data.getLast? = some c) (h1 : 33 ≤ c.toNat) (h2 : c ≠ '"') (h3 : c ≠ '\'') (he : EscOk s.data (s.pos + 1)) : Total (inlineLink E s) := by
  unfold inlineLink
  split
  swap
  · exact Total.ok _
  simp only
  generalize ho : s.pos + 1 + scanSpacechars E s (s.pos + 1) = off
  cases hu : linkUrl s off with
  | none => exact Total.ok _
  | some r =>
    obtain ⟨n, url⟩ := r
    obtain ⟨e1, -, a, e2, e3, e4⟩ := linkUrl_piece hu
    have hcu : Total (cleanUrl E url) := by
      unfold cleanUrl
      refine clean_total ?_ (trim_noTail he (by omega) e3 e4)
      have hm : ∀ c ∈ chunkTrim url, c ∈ s.data := by
        intro c hc
        obtain ⟨i, hi, hi2⟩ := List.mem_iff_getElem.mp ((strip_sublist _ _).subset hc)
        have := e3 i hi
        rw [List.getElem?_eq_getElem hi, hi2] at this
        exact List.mem_of_getElem? this.symm
      exact fun ha => (hd (hm _ ha)).sub hm
    have last : ∀ k d, s.data[k - 1]? = some d → 1 ≤ k → s.data[k]? = none → (d.toNat < 33 ∨ d = '"' ∨ d = '\'') → False := by
      intro k d hk h1k hn hd'
      have hk1 := (List.getElem?_eq_some_iff.mp hk).1
      have hk2 : s.data.length ≤ k := by simpa using hn
      rw [List.getLast?_eq_getElem?, show s.data.length - 1 = k - 1 by omega, hk] at hl
      injection hl with hl
      subst hl
      rcases hd' with h | h | h
      · omega
      · exact h2 h
      · exact h3 h
    simp only
    generalize hst : off + n + scanSpacechars E s (off + n) = st
    generalize het : (if st = off + n then st else st + scanAt E Rx.linkTitle s st) = et
    have hsp1 := scanSpacechars_last (E := E) (s := s) (o := off + n)
    rw [hst] at hsp1
    have hti := scanTitle_last (E := E) (s := s) (o := st)
    have hsp2 := scanSpacechars_last (E := E) (s := s) (o := et)
    have htitle : et - st = 0 ∨ (1 ≤ et - st ∧ ∃ c, s.data[st + (et - st) - 1]? = some c ∧ (c = '"' ∨ c = '\'')) := by
      split at het
      · left; omega
      · rcases hti with h | ⟨h, q, hq, hqq⟩
        · left; omega
        · right
          refine ⟨by omega, q, ?_, hqq⟩
          rw [show st + (et - st) = st + scanAt E Rx.linkTitle s st by omega]
          exact hq
    have hle : st ≤ et := by split at het <;> omega
    cases hg : s.data[et + scanSpacechars E s et]? with
    | none =>
      exfalso
      rcases hsp2 with h | ⟨h, q, hq, hqq⟩
      · rw [h, Nat.add_zero] at hg
        rcases htitle with h' | ⟨h', q, hq, hqq⟩
        · have hets : et = st := by omega
          rw [hets] at hg
          rcases hsp1 with h'' | ⟨h'', q, hq, hqq⟩
          · have hk2 : s.data.length ≤ st := by simpa using hg
            omega
          · exact last _ q hq (by omega) hg (.inl hqq)
        · rw [show st + (et - st) = et by omega] at hq
          exact last _ q hq (by omega) hg (.inr hqq)
      · exact last _ q hq (by omega) hg (.inl hqq)
    | some d =>
      simp only
      split
      · refine hcu.bind (fun _ _ => ?_)
        exact (cleanTitle_total (p := s.pos + 1) (by omega) he hd htitle).bind (fun _ _ => Total.ok _)
      · exact Total.ok _

theorem getElem_split {s : Str} {n : Nat} {c : Char} (h : s[n]? = some c) : s = s.take n ++ c :: s.drop (n + 1) := by
  obtain ⟨h1, h2⟩ := List.getElem?_eq_some_iff.mp h
  rw [← h2, ← List.drop_eq_getElem_cons h1, List.take_append_drop]

theorem calm_safe {E : Env} {s : Str} (h : Calm E.isDigit s) : Safe E s where
  no_cr := h.no_cr
  no_256 := h.no_256
  digits := fun ha c hc hd => h.digits ha c hc hd
  label := by
    intro n b e
    exact h.label (s.take n) b (by rw [← e, List.take_append_drop])
  link := by
    rintro q hq hl ⟨n, hp, hn⟩
    by_cases hpk : peek q = some '('
    swap
    · unfold inlineLink
      rw [if_neg hpk]
      exact Total.ok _
    obtain ⟨-, h2⟩ := peek_some hpk
    rw [hq, hp] at h2
    have e1 := getElem_split hn
    have e2 : s.drop (n + 1) = '(' :: s.drop (n + 2) := by
      obtain ⟨h3, h4⟩ := List.getElem?_eq_some_iff.mp h2
      rw [← h4, ← List.drop_eq_getElem_cons h3]
    rw [e2] at e1
    have hlen : q.len ≤ q.data.length := by
      rw [hl, hq]
      exact rtrimLen_le s
    rcases h.dest _ _ e1 with ⟨d, v, hb, hd⟩ | ⟨⟨c, hc, c1, c2, c3⟩, hesc⟩
    · have hsplit : s = (s.take (n + 1) ++ '(' :: d) ++ ')' :: v := by
        have : s = s.take (n + 1) ++ s.drop (n + 1) := (List.take_append_drop _ _).symm
        rw [e2, hb] at this
        conv => lhs; rw [this]
        simp
      have hn1 : (s.take (n + 1)).length = n + 1 := by
        have := (List.getElem?_eq_some_iff.mp hn).1
        simp; omega
      have hge : n + 1 + 1 + d.length + 1 ≤ q.len := by
        rw [hl]
        have := rtrimLen_ge (x := s.take (n + 1) ++ '(' :: d) (y := v) (c := ')') (by decide)
        rw [← hsplit] at this
        simp only [List.length_append, List.length_cons, hn1] at this
        omega
      have hon : On q (s.take q.len) := by
        refine ⟨⟨s.drop q.len, ?_⟩, ?_⟩
        · rw [hq, List.take_append_drop]
        · rw [hq] at hlen
          simp; omega
      refine ⟨_, inlineLink_target (pre := s.take (n + 1)) (d := d) (y := v.take (q.len - (n + 1 + 1 + d.length + 1))) hon ?_ (by rw [hp, hn1]) hd⟩
      conv => lhs; rw [hsplit]
      rw [List.take_append, List.take_of_length_le (by simp only [List.length_append, List.length_cons, hn1]; omega)]
      simp only [List.length_append, List.length_cons, hn1, List.append_assoc, List.cons_append]
      rw [show q.len - (n + 1 + (d.length + 1)) = (q.len - (n + 1 + 1 + d.length + 1)) + 1 by omega, List.take_succ_cons]
    · have hlast : s.getLast? = some c := by
        rw [e1, List.getLast?_append_of_ne_nil _ (by simp), List.getLast?_cons_of_ne_nil (by simp), List.getLast?_cons_of_ne_nil (by rintro h0; rw [h0] at hc; simp at hc)]
        exact hc
      refine inlineLink_closed hlen ?_ (by rw [hq]; exact hlast) c1 c2 c3 ?_
      · rw [hq]
        exact fun ha c hc hd => h.digits ha c hc hd
      · intro i hi hb
        rw [hq] at hb ⊢
        obtain ⟨j, rfl⟩ : ∃ j, i = n + 2 + j := ⟨i - (n + 2), by omega⟩
        have hb' : (s.drop (n + 2))[j]? = some '\\' := by rw [List.getElem?_drop]; exact hb
        obtain ⟨d, z, hz, hd1, hd2⟩ := hesc _ _ (getElem_split hb')
        refine ⟨d, ?_, ?_, ?_⟩
        · have := congrArg (fun l => l[0]?) hz
          simp only [List.getElem?_drop, List.getElem?_cons_zero] at this
          rw [← this]
          congr 1
        · rw [← Bool.not_eq_true, space_iff]; exact hd1
        · simpa using hd2

end MdToc.Cmark
