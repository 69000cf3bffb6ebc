import Verif.Spec.Write
import Verif.Lemmas.Regex
import Verif.Lemmas.Doc
import Verif.Write

/-!
# Regions of files: blank ones, lists, and line intervals
-/

set_option linter.unusedSimpArgs false

namespace MdToc

open MdToc.Spec MdToc.Re

/-! ### Line intervals -/

/-- The characters other than line feeds of the lines `start` to `stop`; the text starts in line `lc`. -/
def pick (start stop : Int) : Str → Nat → Str
  | [], _ => []
  | c :: t, lc =>
    if c = '\n' then pick start stop t (lc + 1)
    else (if start ≤ (lc : Int) ∧ (lc : Int) ≤ stop then [c] else []) ++ pick start stop t lc

theorem skipNR_no_cr {s : Str} (h : '\r' ∉ s) (b : Bool) : skipNR s b = (s, b) := by
  unfold skipNR
  split
  · rename_i t _; simp at h
  · rfl

theorem skipRN_no_cr {s : Str} (h : '\r' ∉ s) (n : Nat) : skipRN s n = (s, n) := by
  unfold skipRN
  split
  · simp at h
  · rfl

theorem pick_skipNl (start stop : Int) : ∀ (s : Str) (n : Nat), '\r' ∉ s →
    pick start stop s n = pick start stop (skipNl s n).1 (skipNl s n).2 ∧ (skipNl s n).1.length ≤ s.length ∧
      '\r' ∉ (skipNl s n).1 ∧ ∀ c ∈ (skipNl s n).1.head?, c ≠ '\n' := by
  intro s
  induction s with
  | nil => intro n _; simp [skipNl]
  | cons c t ih =>
    intro n h
    have hc : c ≠ '\r' := by rintro rfl; simp at h
    have ht : '\r' ∉ t := fun h' => h (by simp [h'])
    unfold skipNl
    by_cases hn : c = '\n'
    · rw [if_pos (.inr hn)]
      obtain ⟨h1, h2, h3, h4⟩ := ih (n + 1) ht
      refine ⟨?_, by simp; omega, h3, h4⟩
      rw [← h1, pick, if_pos hn]
    · rw [if_neg (by simp [hc, hn])]
      exact ⟨rfl, by simp, h, by simpa using hn⟩

theorem readLoop_eq (start stop : Int) : ∀ (f : Nat) (s : Str) (lc : Nat), s.length < f → '\r' ∉ s →
    readLineIntervalLoop start stop f s lc = pick start stop s lc := by
  intro f
  induction f with
  | zero => intro s lc h; omega
  | succ f ih =>
    intro s lc hf h
    unfold readLineIntervalLoop
    rw [skipNR_no_cr h]
    simp only
    rw [skipRN_no_cr h]
    simp only
    obtain ⟨h1, h2, h3, h4⟩ := pick_skipNl start stop s lc h
    rw [h1]
    generalize (skipNl s lc).1 = s3 at *
    generalize (skipNl s lc).2 = n3 at *
    cases s3 with
    | nil => rfl
    | cons c t =>
      simp only [Bool.false_eq_true, if_false]
      rw [ih t n3 (by simp at h2; omega) (fun h' => h3 (by simp [h'])), pick, if_neg (h4 c (by simp))]

theorem pick_body (start stop : Int) (n : Nat) (t : Str) : ∀ b : Str, '\n' ∉ b →
    pick start stop (b ++ t) n = (if start ≤ (n : Int) ∧ (n : Int) ≤ stop then b else []) ++ pick start stop t n := by
  intro b
  induction b with
  | nil => intro _; simp
  | cons c b ih =>
    intro h
    rw [List.cons_append, pick, if_neg (by rintro rfl; simp at h), ih (fun h' => h (by simp [h']))]
    split <;> simp

theorem joined_cons (l : Str) (ls : List Str) : joined (l :: ls) = l.filter (fun c => c != '\n') ++ joined ls := by
  simp [joined]

theorem filter_no_nl {b : Str} (h : '\n' ∉ b) : b.filter (fun c => c != '\n') = b := by
  rw [List.filter_eq_self]
  intro c hc
  simp only [bne_iff_ne, ne_eq]
  rintro rfl; exact h hc

theorem pick_lines {text : Str} {ls : List Str} (h : Reads text ls) (start stop : Nat) (_hs : 1 ≤ start) :
    ∀ n, pick (start : Int) (stop : Int) ls.flatten n = joined ((ls.take (stop + 1 - n)).drop (start - n)) := by
  induction h with
  | nil => intro n; simp [pick, joined]
  | @last b hb hn =>
    intro n
    have hb' : '\n' ∉ b := fun h' => hn _ h' (.inl rfl)
    have := pick_body (start : Int) (stop : Int) n [] b hb'
    simp only [List.append_nil, pick] at this
    simp only [List.flatten_cons, List.flatten_nil, List.append_nil]
    rw [this]
    by_cases h1 : start ≤ n ∧ n ≤ stop
    · rw [if_pos (by omega)]
      have e1 : start - n = 0 := by omega
      obtain ⟨k, e2⟩ : ∃ k, stop + 1 - n = k + 1 := ⟨stop - n, by omega⟩
      rw [e1, e2]
      simp [joined, filter_no_nl hb']
    · rw [if_neg (by omega)]
      by_cases h2 : n ≤ stop
      · obtain ⟨k, e2⟩ : ∃ k, start - n = k + 1 := ⟨start - n - 1, by omega⟩
        obtain ⟨k', e3⟩ : ∃ k, stop + 1 - n = k + 1 := ⟨stop - n, by omega⟩
        rw [e2, e3]; simp [joined]
      · have e3 : stop + 1 - n = 0 := by omega
        rw [e3]; simp [joined]
  | @line b eol t ls hn he _ ih =>
    intro n
    have hb' : '\n' ∉ b := fun h' => hn _ h' (.inl rfl)
    have := pick_body (start : Int) (stop : Int) n ('\n' :: ls.flatten) b hb'
    simp only [List.flatten_cons, List.append_assoc, List.cons_append, List.nil_append]
    rw [this, pick, if_pos rfl, ih (n + 1)]
    by_cases h1 : n ≤ stop
    · obtain ⟨k', e3⟩ : ∃ k, stop + 1 - n = k + 1 := ⟨stop - n, by omega⟩
      have e3' : stop + 1 - (n + 1) = k' := by omega
      rw [e3, e3']
      by_cases h2 : start ≤ n
      · have e1 : start - n = 0 := by omega
        have e1' : start - (n + 1) = 0 := by omega
        rw [e1, e1', if_pos (by omega)]
        simp only [List.take_succ_cons, List.drop_zero]
        rw [joined_cons, List.filter_append, filter_no_nl hb']
        simp
      · obtain ⟨k, e2⟩ : ∃ k, start - n = k + 1 := ⟨start - n - 1, by omega⟩
        have e2' : start - (n + 1) = k := by omega
        rw [e2, e2', if_neg (by omega)]
        simp
    · have e3 : stop + 1 - n = 0 := by omega
      have e3' : stop + 1 - (n + 1) = 0 := by omega
      rw [e3, e3', if_neg (by omega)]
      simp [joined]

theorem reads_no_cr {text : Str} {ls : List Str} (h : Reads text ls) : '\r' ∉ ls.flatten := by
  induction h with
  | nil => simp
  | @last b hb hn => simp; exact fun h' => hn _ h' (.inr rfl)
  | @line b eol t ls hn he _ ih =>
    simp only [List.flatten_cons, List.mem_append, not_or]
    exact ⟨⟨fun h' => hn _ h' (.inr rfl), by simp⟩, ih⟩

/-- The text read is that of the lines. -/
theorem reads_flatten {text : Str} {ls : List Str} (h : Reads text ls) (hr : '\r' ∉ text) : text = ls.flatten := by
  induction h with
  | nil => rfl
  | last => simp
  | @line b eol t ls hn he _ ih =>
    simp only [List.mem_append, not_or] at hr
    have := ih hr.2
    rcases he with rfl | rfl | ⟨rfl, -⟩
    · simp [← this]
    · simp at hr
    · simp at hr

theorem reads_self {text : Str} {ls : List Str} (h : Reads text ls) : Reads ls.flatten ls := by
  induction h with
  | nil => exact .nil
  | last hb hn => simpa using Reads.last hb hn
  | @line b eol t ls hn he _ ih =>
    have := Reads.line hn (.inl rfl) ih
    simpa using this

theorem readLineInterval_eq {text : Str} {ls : List Str} (h : Reads text ls) (a b : Nat) (ha : 1 ≤ a) :
    readLineInterval ls.flatten (a : Int) (b : Int) = joined ((ls.take b).drop (a - 1)) := by
  unfold readLineInterval
  by_cases hab : a ≤ b
  · rw [if_neg (by omega), readLoop_eq _ _ _ _ _ (by omega) (reads_no_cr h), pick_lines h a b ha 1]
    simp
  · rw [if_pos (by omega)]
    rw [List.drop_eq_nil_of_le (by simp; omega)]
    simp [joined]

/-! ### Blank regions -/

theorem star_mono {R R' : Option Char → Str → Option Char → Str → Prop}
    (h : ∀ p s p' s', R p s p' s' → R' p s p' s') {p s p' s'} (hs : Star R p s p' s') : Star R' p s p' s' := by
  induction hs with
  | refl p s => exact .refl p s
  | step h1 _ ih => exact .step (h _ _ _ _ h1) ih

/-- The repeated part of the expression of `_string_empty`. -/
def emptyBody : Re :=
  Re.alts [Re.nla (.seq (Re.chr '\n') (Re.chr '\r')), Re.seqs [Re.nla (.seq (Re.chr '\n') (Re.chr '\r')), Re.chr '\r', Re.chr '\n'],
    .seq (Re.nla (.seq (Re.chr '\n') (Re.chr '\r'))) (Re.chr '\r'),
    .seq (Re.nla (.seq (Re.chr '\n') (Re.chr '\r'))) (Re.chr '\n'), .seq (Re.nla (.seq (Re.chr '\n') (Re.chr '\r'))) (Re.chr '\x0b'),
    .seq (Re.nla (.seq (Re.chr '\n') (Re.chr '\r'))) (Re.chr ' '), .seq (Re.nla (.seq (Re.chr '\n') (Re.chr '\r'))) (Re.chr '\t')]

theorem empty_step {w : Char → Bool} {p s p' s'} (hn : ∀ c ∈ s, c ≠ '\n') (hr : ∀ c ∈ s, c ≠ '\r')
    (h : emptyBody.Lang w p s p' s') :
    s' = s ∨ ∃ c, IsBlank c ∧ s = c :: s' := by
  simp only [emptyBody, alts, seqs, Lang, lang_chr] at h
  rcases h with ⟨-, -, rfl⟩ | ⟨p1, s1, ⟨-, -, rfl⟩, p2, s2, ⟨rfl, -⟩, -⟩ | ⟨p1, s1, ⟨-, -, rfl⟩, rfl, -⟩ | ⟨p1, s1, ⟨-, -, rfl⟩, rfl, -⟩ |
    ⟨p1, s1, ⟨-, -, rfl⟩, rfl, -⟩ | ⟨p1, s1, ⟨-, -, rfl⟩, rfl, -⟩ | ⟨p1, s1, ⟨-, -, rfl⟩, rfl, -⟩
  · exact .inl rfl
  · exact absurd rfl (hr _ (by simp))
  · exact absurd rfl (hr _ (by simp))
  · exact absurd rfl (hn _ (by simp))
  · exact .inr ⟨_, .inr (.inr rfl), rfl⟩
  · exact .inr ⟨_, .inl rfl, rfl⟩
  · exact .inr ⟨_, .inr (.inl rfl), rfl⟩

theorem blank_step {w : Char → Bool} {p c s} (h : IsBlank c) :
    emptyBody.Lang w p
        (c :: s) (some c) s := by
  simp only [emptyBody, alts, seqs, Lang, lang_chr]
  have hne : c ≠ '\n' := by rcases h with rfl | rfl | rfl <;> decide
  have hn : ¬ ∃ p1 s1 p2 s2, (c :: s = '\n' :: s2 ∧ p2 = some '\n') ∧ s2 = '\r' :: s1 ∧ p1 = some '\r' := by
    rintro ⟨_, _, _, _, ⟨h', -⟩, -⟩
    injection h' with h' _; exact hne h'
  rcases h with rfl | rfl | rfl
  · exact .inr (.inr (.inr (.inr (.inr (.inl ⟨p, _, ⟨hn, rfl, rfl⟩, rfl, rfl⟩)))))
  · exact .inr (.inr (.inr (.inr (.inr (.inr ⟨p, _, ⟨hn, rfl, rfl⟩, rfl, rfl⟩)))))
  · exact .inr (.inr (.inr (.inr (.inl ⟨p, _, ⟨hn, rfl, rfl⟩, rfl, rfl⟩))))

theorem stringEmpty_iff (E : Env) {s : Str} (hn : ∀ c ∈ s, c ≠ '\n') (hr : ∀ c ∈ s, c ≠ '\r') :
    stringEmpty E s = true ↔ ∀ c ∈ s, IsBlank c := by
  have he : emptyRe = plus emptyBody := rfl
  unfold stringEmpty
  rw [fullmatch_iff, he]
  simp only [plus, Lang]
  constructor
  · rintro ⟨p', p1, s1, h1, h2⟩
    have key : ∀ {p s p' s'}, Star (Re.Lang E.isWord emptyBody) p s p' s' → (∀ c ∈ s, c ≠ '\n') → (∀ c ∈ s, c ≠ '\r') → s' = [] → ∀ c ∈ s, IsBlank c := by
      intro p s p' s' hs
      induction hs with
      | refl p s => rintro - - rfl; simp
      | @step p s p1 s1 p' s' h1 _ ih =>
        intro hn hr he
        rcases empty_step hn hr h1 with rfl | ⟨c, hc, rfl⟩
        · exact ih hn hr he
        · intro d hd
          rcases List.mem_cons.mp hd with rfl | hd
          · exact hc
          · exact ih (fun c hc => hn c (by simp [hc])) (fun c hc => hr c (by simp [hc])) he d hd
    exact key (.step h1 h2) hn hr rfl
  · intro h
    clear hn hr
    have key : ∀ (s : Str) (p : Option Char), (∀ c ∈ s, IsBlank c) → ∃ p', Star (Re.Lang E.isWord emptyBody) p s p' [] := by
      intro s
      induction s with
      | nil => intro p _; exact ⟨p, .refl p []⟩
      | cons c s ih =>
        intro p h
        obtain ⟨p', hp⟩ := ih (some c) (fun d hd => h d (by simp [hd]))
        exact ⟨p', .step (blank_step (h c (by simp))) hp⟩
    obtain ⟨p', hp⟩ := key s none h
    refine ⟨p', none, s, ?_, hp⟩
    cases s with
    | nil =>
      simp only [emptyBody, alts, seqs, Lang, lang_chr]
      refine .inl ⟨?_, by simp⟩
      rintro ⟨_, _, _, _, ⟨h', -⟩, -⟩
      exact absurd h' (by simp)
    | cons c s =>
      have hne : c ≠ '\n' := by rcases h c (by simp) with rfl | rfl | rfl <;> decide
      simp only [emptyBody, alts, seqs, Lang, lang_chr]
      refine .inl ⟨?_, by simp⟩
      rintro ⟨_, _, _, _, ⟨h', -⟩, -⟩
      injection h' with h' _; exact hne h'

/-! ### Lists -/

theorem lang_upTo {w : Char → Bool} (c : Char) : ∀ (n : Nat) {p s p' s'}, (upTo n (chr c)).Lang w p s p' s' ↔
    ∃ k, k ≤ n ∧ s = List.replicate k c ++ s' ∧ p' = if k = 0 then p else some c := by
  intro n
  induction n with
  | zero =>
    intro p s p' s'
    simp only [upTo, Lang]
    constructor
    · rintro ⟨rfl, rfl⟩; exact ⟨0, by simp⟩
    · rintro ⟨k, hk, rfl, rfl⟩
      have : k = 0 := by omega
      subst this; simp
  | succ n ih =>
    intro p s p' s'
    simp only [upTo, opt, Lang, lang_chr, ih]
    constructor
    · rintro (⟨p1, s1, ⟨rfl, rfl⟩, k, hk, rfl, rfl⟩ | ⟨rfl, rfl⟩)
      · refine ⟨k + 1, by omega, by simp [List.replicate_succ], ?_⟩
        by_cases hk0 : k = 0 <;> simp [hk0]
      · exact ⟨0, by simp⟩
    · rintro ⟨k, hk, rfl, rfl⟩
      cases k with
      | zero => exact .inr (by simp)
      | succ k =>
        refine .inl ⟨some c, List.replicate k c ++ s', ⟨by simp [List.replicate_succ], rfl⟩, k, by omega, rfl, ?_⟩
        by_cases hk0 : k = 0 <;> simp [hk0]

theorem detectTocList_iff (E : Env) {s : Str} (hn : ∀ c ∈ s, c ≠ '\n') : detectTocList E s = true ↔ ListLike E.isDigit s := by
  unfold detectTocList tocListRe
  rw [fullmatch_iff]
  simp only [seqs]
  constructor
  · rintro ⟨p', p1, s1, h1, p2, s2, h2, p3, s3, h3, p4, s4, h4, h5⟩
    obtain ⟨k, hk, rfl, -⟩ := (lang_upTo ' ' 3).mp h1
    obtain ⟨rfl, rfl⟩ := lang_chr.mp h3
    obtain ⟨h4, rfl, rfl⟩ := h4
    have hr : ∀ c ∈ s4.head?, ¬ IsBlank c := by
      intro c hc hb
      cases s4 with
      | nil => simp at hc
      | cons d t =>
        simp at hc; subst hc
        apply h4
        refine ⟨some d, t, plus_cls_iff.mpr ⟨[d], by simp, by simp, ?_, by simp⟩⟩
        rcases hb with rfl | rfl | rfl <;> simp
    rcases h2 with ⟨c, rfl, hc, rfl⟩ | ⟨p5, s5, h6, c, rfl, hc, rfl⟩
    · refine ⟨k, [c], s4, hk, by simp, ?_, hr⟩
      simp at hc
      rcases hc with rfl | rfl | rfl <;> simp
    · obtain ⟨d, hd, rfl, hd', -⟩ := plus_cls_iff.mp h6
      refine ⟨k, d ++ [c], s4, hk, by simp, .inr (.inr (.inr ⟨d, c, rfl, hd, hd', by simpa using hc⟩)), hr⟩
  · rintro ⟨k, m, r, hk, rfl, hm, hr⟩
    have h3 : (chr ' ').Lang E.isWord m.getLast? (' ' :: r) (some ' ') r := lang_chr.mpr ⟨rfl, rfl⟩
    have h4 : (nla (plus (.cls (fun c => c == ' ' || c == '\t' || c == '\x0b')))).Lang E.isWord (some ' ') r (some ' ') r := by
      refine ⟨?_, rfl, rfl⟩
      rintro ⟨p1, s1, h⟩
      obtain ⟨e, he, rfl, h', -⟩ := plus_cls_iff.mp h
      cases e with
      | nil => exact he rfl
      | cons c e =>
        refine hr c (by simp) ?_
        have := h' c (by simp)
        simp only [Bool.or_eq_true, beq_iff_eq] at this
        rcases this with (h | h) | h
        · exact .inl h
        · exact .inr (.inl h)
        · exact .inr (.inr h)
    have h5 : (star (.cls (fun c => c != '\n'))).Lang E.isWord (some ' ') r (r.getLast?.or (some ' ')) [] :=
      star_cls_iff.mpr ⟨r, by simp, by intro c hc; simpa using hn c (by simp [hc]), rfl⟩
    have h2 : ∀ p, (alt (oneOf "-+*") (.seq (plus (.cls E.isDigit)) (oneOf ".)"))).Lang E.isWord p (m ++ ' ' :: r) m.getLast? (' ' :: r) := by
      intro p
      rcases hm with rfl | rfl | rfl | ⟨d, e, rfl, hd, hd', he⟩
      · exact .inl ⟨_, rfl, by simp, rfl⟩
      · exact .inl ⟨_, rfl, by simp, rfl⟩
      · exact .inl ⟨_, rfl, by simp, rfl⟩
      · refine .inr ⟨_, _, plus_cls_iff.mpr ⟨d, hd, by simp, hd', rfl⟩, e, rfl, ?_, by simp⟩
        rcases he with rfl | rfl <;> simp
    refine ⟨_, _, m ++ ' ' :: r, (lang_upTo ' ' 3).mpr ⟨k, hk, by simp, rfl⟩, _, _, h2 _, _, _, h3, _, _, h4, h5⟩

end MdToc
