import Verif.Lemmas.Emph
import Verif.Lemmas.Regex
import Verif.Spec.Inline

/-!
# The inline parser: texts without exceptions
-/

set_option linter.unusedSimpArgs false

namespace MdToc.Cmark

open Spec

/-- No exception. -/
def Total {α : Type} (x : Except Exn α) : Prop := ∃ a, x = .ok a

theorem Total.bind {α β : Type} {x : Except Exn α} {f : α → Except Exn β} (hx : Total x) (hf : ∀ a, x = .ok a → Total (f a)) :
    Total (x >>= f) := by
  obtain ⟨a, rfl⟩ := hx
  exact hf a rfl

theorem Total.ok {α : Type} (a : α) : Total (.ok a : Except Exn α) := ⟨a, rfl⟩

/-- Only ASCII digits. -/
def DigitsOk (E : Env) (s : Str) : Prop := ∀ c ∈ s, E.isDigit c = true → 48 ≤ c.toNat ∧ c.toNat ≤ 57

theorem DigitsOk.tail {E : Env} {c : Char} {s : Str} (h : DigitsOk E (c :: s)) : DigitsOk E s := fun d hd => h d (by simp [hd])

theorem DigitsOk.sub {E : Env} {s t : Str} (h : DigitsOk E s) (ht : ∀ c ∈ t, c ∈ s) : DigitsOk E t := fun d hd => h d (ht d hd)

theorem decDigits_nonneg {E : Env} : ∀ (s : Str) (cp : Int) (n : Nat), DigitsOk E s → 0 ≤ cp → 0 ≤ (decDigits E s cp n).1 := by
  intro s
  induction s with
  | nil => intro cp n _ h; exact h
  | cons c t ih =>
    intro cp n hd h
    unfold decDigits
    split
    · rename_i hc
      simp only
      apply ih _ _ hd.tail
      have := hd c (by simp) hc
      split <;> omega
    · exact h

theorem hex_value {c : Char} (h : (48 ≤ c.toNat ∧ c.toNat ≤ 57) ∨ (65 ≤ c.toNat ∧ c.toNat ≤ 70) ∨ (97 ≤ c.toNat ∧ c.toNat ≤ 102)) :
    9 ≤ (c.toNat ||| 32) % 39 := by
  generalize c.toNat = n at h
  have : ∀ n : Fin 128, (48 ≤ n.val ∧ n.val ≤ 57) ∨ (65 ≤ n.val ∧ n.val ≤ 70) ∨ (97 ≤ n.val ∧ n.val ≤ 102) → 9 ≤ (n.val ||| 32) % 39 := by decide +kernel
  exact this ⟨n, by omega⟩ h

theorem hexDigits_nonneg {E : Env} : ∀ (s : Str) (cp : Int) (n : Nat), DigitsOk E s → 0 ≤ cp → 0 ≤ (hexDigits E s cp n).1 := by
  intro s
  induction s with
  | nil => intro cp n _ h; exact h
  | cons c t ih =>
    intro cp n hd h
    unfold hexDigits
    split
    · rename_i hc
      simp only
      apply ih _ _ hd.tail
      have : 9 ≤ (c.toNat ||| 32) % 39 := by
        apply hex_value
        unfold isHex at hc
        simp only [Bool.or_eq_true, Bool.and_eq_true, decide_eq_true_eq] at hc
        rcases hc with (hc | hc) | hc
        · exact .inl (hd c (by simp) hc)
        · exact .inr (.inl hc)
        · exact .inr (.inr hc)
      split <;> omega
    · exact h

theorem numericEnd_total {skip m : Nat} {r : Int × Nat × Str} {b : Buf} (h : 0 ≤ r.1) : Total (numericEnd skip m r b) := by
  unfold numericEnd
  split
  · rename_i cp n _
    split
    · refine Total.bind ?_ (fun _ _ => Total.ok _)
      unfold encodeChar
      rw [if_neg]
      · generalize (if cp = 0 ∨ cp ≥ 0xD800 ∧ cp < 0xE000 ∨ cp ≥ 0x110000 then (0xFFFD : Int) else cp) = x
        by_cases hx : x > 1 ∨ x ≥ 0x110000
        · rw [if_pos hx]; exact Total.ok _
        · rw [if_neg hx]; exact Total.ok _
      · simp only at h
        split <;> omega
    · exact Total.ok _
  · exact Total.ok _

theorem unescapeEnt_total {E : Env} {src : Str} {b : Buf} (h : DigitsOk E src) : Total (unescapeEnt E src b) := by
  unfold unescapeEnt
  split
  · split
    · exact numericEnd_total (decDigits_nonneg _ _ _ h.tail (by omega))
    · split
      · exact numericEnd_total (hexDigits_nonneg _ _ _ h.tail.tail (by omega))
      · exact Total.ok _
  · exact Total.ok _
  · exact Total.ok _

theorem unescapeHtml_total {E : Env} (f : Nat) : ∀ (src : Str) (b : Buf), src.length < f → DigitsOk E src → Total (unescapeHtml E f src b) := by
  induction f with
  | zero => intro src b h; omega
  | succ f ih =>
    intro src b h hd
    unfold unescapeHtml
    simp only
    have hs : src.dropWhile (· != '&') <:+ src := List.dropWhile_suffix _
    cases hc : src.dropWhile (· != '&') with
    | nil => exact Total.ok _
    | cons x t =>
      rw [hc] at hs
      have hl := hs.length_le
      simp only
      refine (unescapeEnt_total (hd.sub (fun c hc => hs.subset (by simp [hc])))).bind ?_
      rintro ⟨ent, b'⟩ -
      apply ih
      · simp at hl ⊢
        omega
      · exact hd.sub (fun c hc => hs.subset (by simp [List.mem_of_mem_drop hc]))

theorem takeWhile_eq_self {p : Char → Bool} {s : Str} (h : ∀ c ∈ s, p c = true) : s.takeWhile p = s := by
  induction s with
  | nil => rfl
  | cons c t ih => rw [List.takeWhile_cons, if_pos (h c (by simp)), ih (fun d hd => h d (by simp [hd]))]

theorem dropWhile_eq_nil {p : Char → Bool} {s : Str} (h : ∀ c ∈ s, p c = true) : s.dropWhile p = [] := by
  induction s with
  | nil => rfl
  | cons c t ih => rw [List.dropWhile_cons, if_pos (h c (by simp)), ih (fun d hd => h d (by simp [hd]))]

theorem unescapeHtml_plain {E : Env} {f : Nat} {src : Str} {b : Buf} (h : '&' ∉ src) : Total (unescapeHtml E (f + 1) src b) := by
  have hp : ∀ c ∈ src, (c != '&') = true := by
    intro c hc
    simp only [bne_iff_ne, ne_eq]
    rintro rfl
    exact h hc
  have hd : src.dropWhile (· != '&') = [] := dropWhile_eq_nil hp
  unfold unescapeHtml
  simp only [hd]
  exact Total.ok _

theorem makeAutolink_total {E : Env} {u : Str} (h : '&' ∈ u → DigitsOk E u) : Total (makeAutolink E u) := by
  unfold makeAutolink
  by_cases ha : '&' ∉ u
  · exact (unescapeHtml_plain (fun hc => ha ((strip_sublist _ _).subset hc))).bind (fun _ _ => Total.ok _)
  replace h := h (by simpa using ha)
  have hs : DigitsOk E (chunkTrim u) := h.sub (fun c hc => (strip_sublist _ _).subset hc)
  exact (unescapeHtml_total _ _ _ (by omega) hs).bind (fun _ _ => Total.ok _)

theorem strbufUnescape_total : ∀ (s : Str), '\\' ∉ s → Total (strbufUnescape s) := by
  intro s
  induction s with
  | nil => intro _; exact Total.ok _
  | cons c t ih =>
    intro h
    unfold strbufUnescape
    rw [if_neg (by rintro rfl; simp at h)]
    exact ih (by simp at h; exact h.2)

theorem cleanUrl_total {E : Env} {u : Str} (h1 : '\\' ∉ u) (h2 : '&' ∉ u) : Total (cleanUrl E u) := by
  unfold cleanUrl
  have hs : ∀ c ∈ chunkTrim u, c ∈ u := fun c hc => (strip_sublist _ _).subset hc
  have hp : ∀ c ∈ chunkTrim u, (c != '&') = true := by
    intro c hc
    simp only [bne_iff_ne, ne_eq]
    rintro rfl
    exact h2 (hs _ hc)
  refine Total.bind (x := unescapeHtml E ((chunkTrim u).length + 1) (chunkTrim u) ⟨[], 0⟩) ?_ ?_
  · unfold unescapeHtml
    simp only [dropWhile_eq_nil hp]
    exact Total.ok _
  · intro b hb
    unfold unescapeHtml at hb
    simp only [dropWhile_eq_nil hp, takeWhile_eq_self hp] at hb
    injection hb with hb
    apply strbufUnescape_total
    rw [← hb]
    unfold Buf.put
    split
    · simp
    · simp
      intro hc
      exact h1 (hs _ hc)

/-! ### Emphasis -/

theorem bottomIndex_total {data : Str} {d : Delim} (h : DelimOk data d) : Total (bottomIndex d) := by
  unfold bottomIndex
  rcases h.char with hc | hc
  · rw [if_neg (by rw [hc]; decide), if_pos hc]; exact Total.ok _
  · rw [if_pos hc]; exact Total.ok _

theorem emphLoop_total {data : Str} (f : Nat) : ∀ older newer bots ig, emphFuel newer ≤ f → (∀ d ∈ older, DelimOk data d) → (∀ d ∈ newer, DelimOk data d) →
    Total (emphLoop f older newer bots ig) := by
  induction f with
  | zero => intro older newer bots ig h; have := emphFuel_pos newer; omega
  | succ f ih =>
    intro older newer bots ig h ho hn
    cases newer with
    | nil => exact Total.ok _
    | cons c rest =>
      have h1 : emphFuel rest ≤ f := by simp only [emphFuel] at h; omega
      have hc := hn c (by simp)
      have hr : ∀ d ∈ rest, DelimOk data d := fun d hd => hn d (by simp [hd])
      have hco : ∀ d ∈ c :: older, DelimOk data d := by
        intro d hd
        rcases List.mem_cons.mp hd with rfl | hd
        · exact hc
        · exact ho d hd
      unfold emphLoop
      split
      · refine (bottomIndex_total hc).bind (fun idx _ => ?_)
        split
        · rename_i o below hf
          obtain ⟨sk, e, -⟩ := findOpener_spec hf
          subst e
          have hoo := ho o (by simp)
          obtain ⟨u1, u2, -⟩ := useDelims_le hoo hc
          have := emphFuel_keep o c rest
          exact ih _ _ _ _ (by omega) (hoo.keep u1 (fun d hd => ho d (by simp [hd]))) (hc.keep u2 hr)
        · simp only
          split
          · exact ih _ _ _ _ h1 hco hr
          · exact ih _ _ _ _ h1 ho hr
      · exact ih _ _ _ _ h1 hco hr

theorem processEmphasis_total {s : Subj} (hs : SubjOk s) (b : Option Nat) : Total (processEmphasis s b) := by
  unfold processEmphasis
  split
  · exact Total.ok _
  · rename_i older newer hsp
    have e := splitAtBottom_spec hsp
    have hd := hs.delims
    rw [e] at hd
    exact (emphLoop_total (data := s.data) _ _ _ _ _ (Nat.le_refl _) (fun d h => hd d (by simp [h])) (fun d h => hd d (by simp [h]))).bind (fun _ _ => Total.ok _)

/-! ### Links -/

theorem rtrimLen_ge {x y : Str} {c : Char} (hc : isSpace c = false) : x.length + 1 ≤ rtrimLen (x ++ c :: y) := by
  unfold rtrimLen
  obtain ⟨t, e, ht, hl⟩ := rstrip_eq isSpace (x ++ c :: y)
  by_contra hn
  have hlen : (rstrip isSpace (x ++ c :: y)).length ≤ x.length := by omega
  have : (x ++ c :: y)[x.length]? = some c := by simp
  rw [e, List.getElem?_append_right hlen] at this
  have hm := List.mem_of_getElem? this
  rw [ht c hm] at hc
  simp at hc

theorem scanSpacechars_zero {E : Env} {s : Subj} {off : Nat} {c : Char} {t : Str} (h : s.data.drop off = c :: t)
    (hc : 33 ≤ c.toNat) : scanSpacechars E s off = 0 := by
  unfold scanSpacechars scanAt
  split
  · rfl
  · rw [h]
    have : (Re.plus Rx.spacechar).matchRest E.isWord (c :: t) = none := by
      rw [← Option.not_isSome_iff_eq_none]
      intro hs
      obtain ⟨p', s', hl⟩ := (Re.matchRest_isSome_iff _ _ _).mp hs
      obtain ⟨p1, s1, ⟨d, e, hd, -⟩, -⟩ := hl
      injection e with e1 e2
      subst e1
      simp only [Bool.or_eq_true, beq_iff_eq] at hd
      rcases hd with ((((rfl | rfl) | rfl) | rfl) | rfl) | rfl <;> revert hc <;> decide
    rw [this]

theorem linkUrl2_plain : ∀ (u v : Str) (n : Nat), (∀ c ∈ u, 33 ≤ c.toNat ∧ c.toNat ≤ 126 ∧ c ∉ "\\()<&".toList) →
    linkUrl2 (u ++ ')' :: v) 0 n = some (n + u.length) := by
  intro u
  induction u with
  | nil =>
    intro v n _
    cases v <;> simp [linkUrl2]
  | cons c u ih =>
    intro v n h
    obtain ⟨h1, h2, h3⟩ := h c (by simp)
    have hsp : isSpace c = false := by
      unfold isSpace isZs
      simp only [Bool.or_eq_false_iff, beq_eq_false_iff_ne, Bool.and_eq_false_iff, decide_eq_false_iff_not]
      have hne : ∀ d : Char, d.toNat < 33 → c ≠ d := by rintro d hd rfl; omega
      refine ⟨⟨⟨⟨?_, hne _ (by decide)⟩, hne _ (by decide)⟩, hne _ (by decide)⟩, hne _ (by decide)⟩
      omega
    simp only [String.toList, List.mem_cons, List.not_mem_nil, or_false, not_or] at h3
    have h3 : c ≠ '\\' ∧ c ≠ '(' ∧ c ≠ ')' := by
      refine ⟨?_, ?_, ?_⟩ <;> rintro rfl <;> revert h3 <;> decide
    cases hq : u ++ ')' :: v with
    | nil => simp at hq
    | cons d t =>
      rw [List.cons_append, hq]
      unfold linkUrl2
      simp only
      rw [if_neg (by simp [h3.1]), if_neg h3.2.1, if_neg h3.2.2, if_neg (by simp [hsp]), ← hq, ih v _ (fun c hc => h c (by simp [hc]))]
      simp; omega

theorem take_drop_split {data : Str} {len off : Nat} {u v : Str} (h : data.drop off = u ++ ')' :: v) (hl : off + u.length + 1 ≤ len) :
    (data.take len).drop off = u ++ ')' :: v.take (len - off - u.length - 1) := by
  rw [List.drop_take, h, List.take_append, List.take_of_length_le (by omega)]
  congr 1
  have : len - off - u.length = (len - off - u.length - 1) + 1 := by omega
  rw [this, List.take_succ_cons]
  simp

theorem getElem_drop_head {data : Str} {n : Nat} {c : Char} (h : data[n]? = some c) : ∃ t, data.drop n = c :: t := by
  obtain ⟨h1, h2⟩ := List.getElem?_eq_some_iff.mp h
  exact ⟨_, by rw [List.drop_eq_getElem_cons h1, h2]⟩

theorem inlineLink_total {E : Env} {s : Subj} (hlen : s.len = rtrimLen s.data)
    (hd : ∀ b, s.data.drop s.pos = '(' :: b → PlainDest b) : Total (inlineLink E s) := by
  unfold inlineLink
  by_cases hp : peek s = some '('
  swap
  · rw [if_neg hp]; exact Total.ok _
  rw [if_pos hp]
  obtain ⟨h1, h2⟩ := peek_some hp
  obtain ⟨b, hb⟩ := getElem_drop_head h2
  obtain ⟨u, v, rfl, hu⟩ := hd b hb
  have hdrop : s.data.drop (s.pos + 1) = u ++ ')' :: v := by
    rw [← List.drop_drop, hb]; rfl
  have hpos : s.pos + 1 ≤ s.data.length := by
    have := List.getElem?_eq_some_iff.mp h2
    exact this.1
  have hdec : s.data = (s.data.take (s.pos + 1) ++ u) ++ ')' :: v := by
    rw [List.append_assoc, ← hdrop, List.take_append_drop]
  have hge : s.pos + 1 + u.length + 1 ≤ s.len := by
    rw [hlen]
    have := rtrimLen_ge (x := s.data.take (s.pos + 1) ++ u) (y := v) (c := ')') (by decide)
    rw [← hdec] at this
    simp at this
    omega
  have h0 : scanSpacechars E s (s.pos + 1) = 0 := by
    cases u with
    | nil => exact scanSpacechars_zero hdrop (by decide)
    | cons c u => exact scanSpacechars_zero hdrop (hu c (by simp)).1
  have hend : s.data.drop (s.pos + 1 + u.length) = ')' :: v := by
    rw [← List.drop_drop, hdrop]; simp
  have h0' : scanSpacechars E s (s.pos + 1 + u.length) = 0 := scanSpacechars_zero hend (by decide)
  have hurl : linkUrl s (s.pos + 1) = some (u.length, u) := by
    unfold linkUrl restFrom
    rw [take_drop_split hdrop (by omega)]
    split
    · rename_i t ht
      cases u with
      | nil => simp at ht
      | cons c u =>
        simp at ht
        have := (hu c (by simp)).2.2
        rw [ht.1] at this
        exact absurd (by decide) this
    · rw [linkUrl2_plain u _ 0 hu]
      simp
  simp only [h0, Nat.add_zero, hurl, h0', if_true]
  have hget : s.data[s.pos + 1 + u.length]? = some ')' := by
    have := congrArg (fun l => l[0]?) hend
    simpa [List.getElem?_drop] using this
  rw [hget]
  simp only [if_true]
  have hn : ∀ c ∈ "\\()<&".toList, c ∉ u := fun c hc hm => (hu c hm).2.2 hc
  refine (cleanUrl_total (hn _ (by decide)) (hn _ (by decide))).bind (fun _ _ => ?_)
  have : (s.data.drop (s.pos + 1 + u.length)).take (s.pos + 1 + u.length - (s.pos + 1 + u.length)) = [] := by simp
  rw [this]
  exact Total.ok _

theorem mem_restFrom {s : Subj} {i : Nat} {c : Char} (h : c ∈ restFrom s i) : c ∈ s.data :=
  List.mem_of_mem_take (List.mem_of_mem_drop h)

/-- What has to hold of the text for the parser to succeed. -/
structure Safe (E : Env) (data : Str) : Prop where
  no_cr : '\r' ∉ data
  no_256 : ∀ c ∈ data, c.toNat ≠ 256
  digits : '&' ∈ data → DigitsOk E data
  label : ∀ n b, data.drop n = ']' :: b → NoLabel b
  link : ∀ s : Subj, s.data = data → s.len = rtrimLen data → (∃ n, s.pos = n + 1 ∧ data[n]? = some ']') → Total (inlineLink E s)

theorem handleCloseBracket_total {E : Env} {s : Subj} (hp : peek s = some ']') (hs : SubjOk s) (hlen : s.len = rtrimLen s.data) (h : Safe E s.data) :
    Total (handleCloseBracket E s) := by
  obtain ⟨h1, h2⟩ := peek_some hp
  obtain ⟨t, ht⟩ := getElem_drop_head h2
  have ht' : s.data.drop (s.pos + 1) = t := by rw [← List.drop_drop, ht]; rfl
  unfold handleCloseBracket
  simp only
  split
  · exact Total.ok _
  · rename_i opener bs _
    split
    · exact Total.ok _
    · have hil : Total (inlineLink E { s with pos := s.pos + 1 }) := h.link _ rfl hlen ⟨s.pos, rfl, h2⟩
      refine hil.bind (fun r hr => ?_)
      cases r with
      | some p =>
        simp only
        have hpos := inlineLink_pos hr
        have hmv : SubjOk { s with pos := p } := hs.move rfl (by simp only at hpos ⊢; omega) rfl rfl
        exact (processEmphasis_total hmv _).bind (fun _ _ => Total.ok _)
      | none =>
        simp only
        refine Total.bind ?_ (fun _ _ => Total.ok _)
        have hno := h.label s.pos t ht
        unfold linkLabel
        by_cases hpk : peek { s with pos := s.pos + 1 } = some '['
        swap
        · rw [if_neg hpk]
          exact Total.ok _
        · rw [if_pos hpk]
          obtain ⟨-, h4⟩ := peek_some hpk
          have h5 : t.head? = some '[' := by rw [← ht', List.head?_drop]; exact h4
          have h6 : ∃ d, (d = '[' ∨ d = ']') ∧ s.data[s.pos + 1 + 1]? = some d := by
            rcases hno with h | h | h
            · exact absurd h5 h
            · exact ⟨_, .inl rfl, by rw [← h, ← ht', List.getElem?_drop]⟩
            · exact ⟨_, .inr rfl, by rw [← h, ← ht', List.getElem?_drop]⟩
          obtain ⟨d, hd, h7⟩ := h6
          have hsp : isSpace d = false := by rcases hd with rfl | rfl <;> decide +kernel
          have h8 : s.pos + 1 + 1 < s.len := by
            rw [hlen]
            obtain ⟨hl7, e7⟩ := List.getElem?_eq_some_iff.mp h7
            have := rtrimLen_ge (x := s.data.take (s.pos + 1 + 1)) (y := s.data.drop (s.pos + 1 + 1 + 1)) hsp
            rw [← e7, ← List.drop_eq_getElem_cons hl7, List.take_append_drop, List.length_take] at this
            omega
          have h9 : peek { s with pos := s.pos + 1 + 1 } = some d := by
            unfold peek
            simp only
            rw [if_pos h8, h7]
          simp only [h9]
          rw [if_pos hd]
          exact Total.ok _

theorem findSpecialLoop_total : ∀ (rest : Str) (n : Nat), (∀ c ∈ rest, c.toNat ≠ 256) → Total (findSpecialLoop rest n) := by
  intro rest
  induction rest with
  | nil => intro n _; exact Total.ok _
  | cons c t ih =>
    intro n h
    unfold findSpecialLoop
    split
    · exact Total.ok _
    · rw [if_neg (h c (by simp))]
      split
      · exact Total.ok _
      · exact ih _ (fun d hd => h d (by simp [hd]))

theorem handleBackticks_total {s : Subj} (h : '\r' ∉ s.data) : Total (handleBackticks s) := by
  unfold handleBackticks
  simp only
  split
  · exact Total.ok _
  · split
    · exact Total.ok _
    · split
      · exact Total.ok _
      · split
        · rename_i hl
          exact absurd (List.mem_of_mem_drop (List.mem_of_mem_take (List.mem_of_getLast? hl))) h
        · exact Total.ok _

theorem handlePointyBrace_total {E : Env} {s : Subj} (h : '&' ∈ s.data → DigitsOk E s.data) : Total (handlePointyBrace E s) := by
  have hsub : ∀ n m, '&' ∈ (s.data.drop n).take m → DigitsOk E ((s.data.drop n).take m) := fun n m ha =>
    (h (List.mem_of_mem_drop (List.mem_of_mem_take ha))).sub (fun c hc => List.mem_of_mem_drop (List.mem_of_mem_take hc))
  unfold handlePointyBrace
  simp only
  split
  · exact (makeAutolink_total (hsub _ _)).bind (fun _ _ => Total.ok _)
  · split
    · exact (makeAutolink_total (hsub _ _)).bind (fun _ _ => Total.ok _)
    · exact Total.ok _

theorem parseInline_total_of {E : Env} {s : Subj} {c : Char} (hp : peek s = some c) (no_cr : '\r' ∉ s.data) (no_256 : ∀ c ∈ s.data, c.toNat ≠ 256)
    (digits : '&' ∈ s.data → DigitsOk E s.data) (hcl : c = ']' → Total (handleCloseBracket E s)) : Total (parseInline E s c) := by
  obtain ⟨h1, h2⟩ := peek_some hp
  have hmem : c ∈ s.data := List.mem_of_getElem? h2
  unfold parseInline
  by_cases hc : c = '\r' ∨ c = '\n'
  · rw [if_pos hc]
    have hc : c = '\n' := by
      rcases hc with rfl | hc
      · exact absurd hmem no_cr
      · exact hc
    subst hc
    unfold handleNewline
    rw [h2]
    simp only
    rw [if_neg (by decide), h2]
    exact Total.ok _
  rw [if_neg hc]; clear hc
  by_cases hc : c = '`'
  · rw [if_pos hc]; exact handleBackticks_total no_cr
  rw [if_neg hc]; clear hc
  by_cases hc : c = '\\'
  · rw [if_pos hc]; exact Total.ok _
  rw [if_neg hc]; clear hc
  by_cases hc : c = '&'
  · rw [if_pos hc]
    subst hc
    unfold handleEntity
    exact (unescapeEnt_total ((digits hmem).sub (fun c hc => mem_restFrom hc))).bind (fun _ _ => Total.ok _)
  rw [if_neg hc]; clear hc
  by_cases hc : c = '<'
  · rw [if_pos hc]; exact handlePointyBrace_total digits
  rw [if_neg hc]; clear hc
  by_cases hc : c = '*' ∨ c = '_' ∨ c = '\'' ∨ c = '"'
  · rw [if_pos hc]; exact Total.ok _
  rw [if_neg hc]; clear hc
  by_cases hc : c = '-'
  · rw [if_pos hc]; exact Total.ok _
  rw [if_neg hc]; clear hc
  by_cases hc : c = '.'
  · rw [if_pos hc]; exact Total.ok _
  rw [if_neg hc]; clear hc
  by_cases hc : c = '['
  · rw [if_pos hc]; exact Total.ok _
  rw [if_neg hc]; clear hc
  by_cases hc : c = ']'
  · rw [if_pos hc]; exact hcl hc
  rw [if_neg hc]; clear hc
  by_cases hc : c = '!'
  · rw [if_pos hc]; exact Total.ok _
  rw [if_neg hc]; clear hc
  exact (findSpecialLoop_total _ _ (fun d hd => no_256 d (mem_restFrom hd))).bind (fun _ _ => Total.ok _)

theorem parseInline_total {E : Env} {s : Subj} {c : Char} (hp : peek s = some c) (hs : SubjOk s) (hlen : s.len = rtrimLen s.data) (h : Safe E s.data) :
    Total (parseInline E s c) :=
  parseInline_total_of hp h.no_cr h.no_256 h.digits (by rintro rfl; exact handleCloseBracket_total hp hs hlen h)

theorem inlinesLoop_total {E : Env} (f : Nat) : ∀ s : Subj, s.len - s.pos < f → SubjOk s → s.len = rtrimLen s.data → Safe E s.data →
    Total (inlinesLoop E f s) := by
  induction f with
  | zero => intro s h; omega
  | succ f ih =>
    intro s h hs hlen hsafe
    unfold inlinesLoop
    split
    · exact Total.ok _
    · rename_i c hp
      refine (parseInline_total hp hs hlen hsafe).bind (fun s' hs' => ?_)
      obtain ⟨h1, h2, h3⟩ := parseInline_moves hp hs'
      have := (peek_some hp).1
      exact ih s' (by omega) (parseInline_ok hp hs hs') (by rw [h1, h2]; exact hlen) (by rw [h1]; exact hsafe)

theorem parseInlines_total {E : Env} {line : Str} (h : Safe E line) : Total (parseInlines E line) := by
  unfold parseInlines
  refine Total.bind (inlinesLoop_total _ _ ?_ (initSubj_ok line) rfl h) (fun s hs => ?_)
  · have := rtrimLen_le line
    simp only [initSubj]
    omega
  · exact (processEmphasis_total (inlinesLoop_ok _ (initSubj_ok line) hs).1 none).bind (fun _ _ => Total.ok _)

theorem tame_safe {E : Env} {s : Str} (h : Tame E.isDigit s) : Safe E s where
  no_cr := h.no_cr
  no_256 := h.no_256
  digits := by
    intro ha c hc hd
    obtain ⟨h1, h2⟩ := h.digits ha c hc hd
    exact ⟨h1, h2⟩
  label := by
    intro n b e
    cases b with
    | nil => exact .inl (by simp)
    | cons c b =>
      by_cases hc : c = '['
      · subst hc
        exact absurd (by rw [← e, List.take_append_drop]) (h.label (s.take n) b)
      · exact .inl (by simpa using hc)
  link := by
    rintro q hq hl ⟨n, hp, hn⟩
    refine inlineLink_total (by rw [hl, hq]) (fun b hb => ?_)
    obtain ⟨t, ht⟩ := getElem_drop_head hn
    refine h.dest (s.take n) b ?_
    rw [hq, hp, ← List.drop_drop, ht] at hb
    simp only [List.drop_succ_cons, List.drop_zero] at hb
    rw [← hb, ← ht, List.take_append_drop]

/-! ### Nothing to remove -/

theorem handleCloseBracket_none {E : Env} {s s' : Subj} (hd : s.delims = []) (hi : s.ignore = []) (h : handleCloseBracket E s = .ok s') : s'.delims = [] ∧ s'.ignore = [] := by
  unfold handleCloseBracket at h
  simp only at h
  split at h
  · injection h with h; subst h; exact ⟨hd, hi⟩
  · rename_i opener bs _
    split at h
    · injection h with h; subst h; exact ⟨hd, hi⟩
    · simp only [bind, Except.bind] at h
      cases hl : inlineLink E { s with pos := s.pos + 1 } with
      | error e => rw [hl] at h; simp at h
      | ok r =>
        rw [hl] at h
        cases r with
        | none =>
          simp only at h
          split at h
          · simp at h
          · injection h with h; subst h; exact ⟨hd, hi⟩
        | some p =>
          simp only at h
          split at h
          · simp at h
          · rename_i s1 hp
            injection h with h
            subst h
            unfold processEmphasis at hp
            simp only [hd, hi] at hp
            cases hb : opener.prevDelim with
            | none =>
              rw [hb] at hp
              simp [splitAtBottom, emphFuel, emphLoop, bind, Except.bind] at hp
              rw [← hp]
              exact ⟨rfl, rfl⟩
            | some b =>
              rw [hb] at hp
              simp [splitAtBottom] at hp
              rw [← hp]
              exact ⟨rfl, rfl⟩

theorem parseInline_none {E : Env} {s s' : Subj} {c : Char} (hd : s.delims = []) (hi : s.ignore = []) (h1 : c ≠ '*') (h2 : c ≠ '_') (h : parseInline E s c = .ok s') :
    s'.delims = [] ∧ s'.ignore = [] := by
  have hsame : s'.delims = s.delims ∧ s'.ignore = s.ignore → s'.delims = [] ∧ s'.ignore = [] := by
    rintro ⟨a, b⟩; rw [a, b]; exact ⟨hd, hi⟩
  unfold parseInline at h
  by_cases hc : c = '\r' ∨ c = '\n'
  · rw [if_pos hc] at h; exact hsame ⟨(handleNewline_same h).1, (handleNewline_same h).2.1⟩
  rw [if_neg hc] at h; clear hc
  by_cases hc : c = '`'
  · rw [if_pos hc] at h; exact hsame ⟨(handleBackticks_same h).1, (handleBackticks_same h).2.1⟩
  rw [if_neg hc] at h; clear hc
  by_cases hc : c = '\\'
  · rw [if_pos hc] at h; injection h with h; subst h; exact hsame ⟨(handleBackslash_same s).1, (handleBackslash_same s).2.1⟩
  rw [if_neg hc] at h; clear hc
  by_cases hc : c = '&'
  · rw [if_pos hc] at h; exact hsame ⟨(handleEntity_same h).1, (handleEntity_same h).2.1⟩
  rw [if_neg hc] at h; clear hc
  by_cases hc : c = '<'
  · rw [if_pos hc] at h; exact hsame ⟨(handlePointyBrace_same h).1, (handlePointyBrace_same h).2.1⟩
  rw [if_neg hc] at h; clear hc
  by_cases hc : c = '*' ∨ c = '_' ∨ c = '\'' ∨ c = '"'
  · rw [if_pos hc] at h; injection h with h; subst h
    unfold handleDelim
    generalize scanDelims E s c = r
    obtain ⟨n, o, cl⟩ := r
    simp only
    split
    · rename_i hq
      simp only [Bool.and_eq_true, Bool.not_eq_true', Bool.or_eq_false_iff, beq_eq_false_iff_ne] at hq
      rcases hc with hc | hc | hc | hc
      · exact absurd hc h1
      · exact absurd hc h2
      · exact absurd hc hq.2.1
      · exact absurd hc hq.2.2
    · exact ⟨hd, hi⟩
  rw [if_neg hc] at h; clear hc
  by_cases hc : c = '-'
  · rw [if_pos hc] at h; injection h with h; subst h; exact ⟨hd, hi⟩
  rw [if_neg hc] at h; clear hc
  by_cases hc : c = '.'
  · rw [if_pos hc] at h; injection h with h; subst h; exact ⟨hd, hi⟩
  rw [if_neg hc] at h; clear hc
  by_cases hc : c = '['
  · rw [if_pos hc] at h; injection h with h; subst h; exact ⟨hd, hi⟩
  rw [if_neg hc] at h; clear hc
  by_cases hc : c = ']'
  · rw [if_pos hc] at h; exact handleCloseBracket_none hd hi h
  rw [if_neg hc] at h; clear hc
  by_cases hc : c = '!'
  · rw [if_pos hc] at h; injection h with h; subst h; exact ⟨hd, hi⟩
  rw [if_neg hc] at h; clear hc
  simp only [bind, Except.bind] at h
  split at h
  · simp at h
  · injection h with h; subst h; exact ⟨hd, hi⟩

theorem inlinesLoop_none {E : Env} (f : Nat) : ∀ {s s' : Subj}, '*' ∉ s.data → '_' ∉ s.data → s.delims = [] → s.ignore = [] → inlinesLoop E f s = .ok s' →
    s'.delims = [] ∧ s'.ignore = [] := by
  induction f with
  | zero => intro s s' _ _ _ _ h; simp [inlinesLoop] at h
  | succ f ih =>
    intro s s' h1 h2 hd hi h
    unfold inlinesLoop at h
    split at h
    · injection h with h; subst h; exact ⟨hd, hi⟩
    · rename_i c hp
      simp only [bind, Except.bind] at h
      split at h
      · simp at h
      · rename_i s1 hs1
        have hmem : c ∈ s.data := List.mem_of_getElem? (peek_some hp).2
        obtain ⟨a, b⟩ := parseInline_none hd hi (by rintro rfl; exact h1 hmem) (by rintro rfl; exact h2 hmem) hs1
        have e := (parseInline_moves hp hs1).1
        exact ih (by rw [e]; exact h1) (by rw [e]; exact h2) a b h

theorem parseInlines_none {E : Env} {line : Str} {rs : List Range} (h1 : '*' ∉ line) (h2 : '_' ∉ line) (h : parseInlines E line = .ok rs) : rs = [] := by
  unfold parseInlines at h
  simp only [bind, Except.bind] at h
  split at h
  · simp at h
  · rename_i s hs
    obtain ⟨a, b⟩ := inlinesLoop_none _ (s := initSubj line) h1 h2 rfl rfl hs
    simp [processEmphasis, a, b, splitAtBottom, emphFuel, emphLoop, bind, Except.bind] at h
    exact h

end MdToc.Cmark
