import Verif.Lemmas.Inline

/-!
# The inline parser: what is deleted
-/

set_option linter.unusedSimpArgs false

namespace MdToc.Cmark

/-- A delimiter run of the text, not used up. -/
structure DelimOk (data : Str) (d : Delim) : Prop where
  char : d.ch = '*' ∨ d.ch = '_'
  count : d.offset + d.inlLen = d.length
  left : 1 ≤ d.inlLen
  run : ∀ i, d.pos ≤ i → i < d.pos + d.length → data[i]? = some d.ch

/-- Two ranges of the same size, 1 or 2, the first before the second, on the same character. -/
def PairOk (data : Str) (r r' : Range) : Prop :=
  ∃ c u, (c = '*' ∨ c = '_') ∧ (u = 1 ∨ u = 2) ∧ r.2 = r.1 + u ∧ r'.2 = r'.1 + u ∧ r.2 ≤ r'.1 ∧
    (∀ i, r.1 ≤ i → i < r.2 → data[i]? = some c) ∧ (∀ i, r'.1 ≤ i → i < r'.2 → data[i]? = some c)

/-- The list of ranges is a sequence of pairs. -/
inductive PairsOk (data : Str) : List Range → Prop
  | nil : PairsOk data []
  | snoc {rs r r'} : PairsOk data rs → PairOk data r r' → PairsOk data (rs ++ [r, r'])

/-- Delimiters in the order of the text, the last one first. -/
def Sorted (ds : List Delim) : Prop := ds.Pairwise (fun d e => e.pos + e.length ≤ d.pos)

theorem useDelims_le {data : Str} {o c : Delim} (ho : DelimOk data o) (hc : DelimOk data c) :
    useDelims o c ≤ o.inlLen ∧ useDelims o c ≤ c.inlLen ∧ (useDelims o c = 1 ∨ useDelims o c = 2) := by
  have := ho.left
  have := hc.left
  unfold useDelims
  split
  · omega
  · omega

theorem DelimOk.keep {data : Str} {d : Delim} (h : DelimOk data d) {u : Nat} (hu : u ≤ d.inlLen) {t : List Delim}
    (ht : ∀ e ∈ t, DelimOk data e) : ∀ e ∈ keepDelim (d.consume u) t, DelimOk data e := by
  intro e he
  unfold keepDelim at he
  split at he
  · exact ht e he
  · rename_i hne
    rcases List.mem_cons.mp he with rfl | he
    · have := h.count
      simp only [Delim.consume] at hne
      exact ⟨h.char, by simp only [Delim.consume]; omega, by simp only [Delim.consume]; omega, h.run⟩
    · exact ht e he

theorem keep_sublist (d : Delim) (t : List Delim) : List.Sublist (keepDelim d t) (d :: t) := by
  unfold keepDelim
  split
  · exact List.sublist_cons_self _ _
  · exact List.Sublist.refl _

theorem findOpener_spec {c : Delim} {b : Option Nat} : ∀ {ds : List Delim} {o : Delim} {below : List Delim},
    findOpener c b ds = some (o, below) → ∃ skipped, ds = skipped ++ o :: below ∧ openerMatches o c = true := by
  intro ds
  induction ds with
  | nil => intro o below h; simp [findOpener] at h
  | cons d t ih =>
    intro o below h
    unfold findOpener at h
    split at h
    · simp at h
    · split at h
      · simp at h
        obtain ⟨rfl, rfl⟩ := h
        exact ⟨[], rfl, by assumption⟩
      · obtain ⟨sk, e, hm⟩ := ih h
        exact ⟨d :: sk, by rw [e]; rfl, hm⟩

theorem opener_char {o c : Delim} (h : openerMatches o c = true) : o.ch = c.ch := by
  unfold openerMatches at h
  simp only [Bool.and_eq_true, beq_iff_eq] at h
  exact h.1.2

theorem emphRanges_ok {data : Str} {o c : Delim} (ho : DelimOk data o) (hc : DelimOk data c) (hm : o.ch = c.ch) (hp : o.pos + o.length ≤ c.pos) :
    ∃ r r', emphRanges o c (useDelims o c) = [r, r'] ∧ PairOk data r r' := by
  obtain ⟨h1, h2, h3⟩ := useDelims_le ho hc
  have := ho.count
  have := hc.count
  refine ⟨_, _, rfl, c.ch, useDelims o c, hc.char, h3, ?_, ?_, ?_, ?_, ?_⟩
  · simp only; omega
  · simp only; omega
  · simp only; omega
  · intro i hi hi'
    rw [← hm]
    exact ho.run i (by simp only at hi; omega) (by simp only at hi'; omega)
  · intro i hi hi'
    exact hc.run i (by simp only at hi; omega) (by simp only at hi'; omega)

/-- All delimiters of the loop: those before and those after. -/
def Ordered (older newer : List Delim) : Prop := Sorted (newer.reverse ++ older)

theorem Ordered.sub {older newer older' newer' : List Delim} (h : Ordered older newer) (h1 : List.Sublist older' older)
    (h2 : List.Sublist newer' newer) : Ordered older' newer' :=
  List.Pairwise.sublist (List.Sublist.append h2.reverse h1) h

theorem Ordered.shift {older rest : List Delim} {c : Delim} (h : Ordered older (c :: rest)) : Ordered (c :: older) rest := by
  unfold Ordered at h ⊢
  simpa using h

theorem Ordered.skip {older rest : List Delim} {c : Delim} (h : Ordered older (c :: rest)) : Ordered older rest :=
  h.sub (List.Sublist.refl _) (List.sublist_cons_self _ _)

/-- Changing counters does not matter for the order. -/
theorem Ordered.consume {older rest : List Delim} {o c : Delim} {u v : Nat} (h : Ordered (o :: older) (c :: rest)) :
    Ordered (o.consume u :: older) (c.consume v :: rest) := by
  unfold Ordered Sorted at h ⊢
  simp only [List.reverse_cons, List.append_assoc, List.singleton_append, List.pairwise_append, List.pairwise_cons, List.mem_cons, List.pairwise_reverse] at h ⊢
  simp only [Delim.consume]
  obtain ⟨h1, ⟨h2, h3, h4⟩, h5⟩ := h
  refine ⟨h1, ⟨?_, h3, h4⟩, ?_⟩
  · rintro a (rfl | ha)
    · simpa using h2 o (.inl rfl)
    · exact h2 a (.inr ha)
  · rintro a ha b (rfl | rfl | hb)
    · exact h5 a ha c (.inl rfl)
    · exact h5 a ha o (.inr (.inl rfl))
    · exact h5 a ha b (.inr (.inr hb))

theorem Ordered.lt {older rest : List Delim} {o c : Delim} (h : Ordered (o :: older) (c :: rest)) : o.pos + o.length ≤ c.pos := by
  unfold Ordered Sorted at h
  simp only [List.reverse_cons, List.append_assoc, List.singleton_append, List.pairwise_append, List.pairwise_cons, List.mem_cons] at h
  exact h.2.1.1 o (.inl rfl)

/-- Delimiters whose positions and lengths are taken from a list. -/
def From (ds es : List Delim) : Prop := ∀ d ∈ ds, ∃ e ∈ es, d.pos = e.pos ∧ d.length = e.length

/-- The loop with the delimiters keeps the invariant. -/
theorem emphLoop_ok {data : Str} (f : Nat) : ∀ {older newer : List Delim} {bots : Nat → Option Nat} {ig : List Range} {ds : List Delim} {ig' : List Range},
    (∀ d ∈ older, DelimOk data d) → (∀ d ∈ newer, DelimOk data d) → Ordered older newer → PairsOk data ig →
    emphLoop f older newer bots ig = .ok (ds, ig') →
    (∀ d ∈ ds, DelimOk data d) ∧ Sorted ds ∧ PairsOk data ig' ∧ (∀ e, (∀ d ∈ older, d.pos + d.length ≤ e) → (∀ d ∈ newer, d.pos + d.length ≤ e) → ∀ d ∈ ds, d.pos + d.length ≤ e) := by
  induction f with
  | zero => intro older newer bots ig ds ig' _ _ _ _ h; simp [emphLoop] at h
  | succ f ih =>
    intro older newer bots ig ds ig' h1 h2 h3 h4 h
    cases newer with
    | nil =>
      unfold emphLoop at h
      simp at h
      obtain ⟨rfl, rfl⟩ := h
      exact ⟨h1, by simpa [Ordered] using h3, h4, fun e a _ => a⟩
    | cons c rest =>
      have hc := h2 c (by simp)
      have hr : ∀ d ∈ rest, DelimOk data d := fun d hd => h2 d (by simp [hd])
      have hco : ∀ d ∈ c :: older, DelimOk data d := by
        intro d hd
        rcases List.mem_cons.mp hd with rfl | hd
        · exact hc
        · exact h1 d hd
      unfold emphLoop at h
      split at h
      · simp only [bind, Except.bind] at h
        split at h
        · simp at h
        · rename_i idx _
          split at h
          · rename_i o below hf
            obtain ⟨sk, e, hm⟩ := findOpener_spec hf
            subst e
            have ho := h1 o (by simp)
            have h3' : Ordered (o :: below) (c :: rest) := h3.sub (List.sublist_append_right _ _) (List.Sublist.refl _)
            obtain ⟨r, r', er, hp⟩ := emphRanges_ok ho hc (opener_char hm) h3'.lt
            obtain ⟨u1, u2, -⟩ := useDelims_le ho hc
            obtain ⟨a1, a2, a3, a4⟩ := ih (ho.keep u1 (fun d hd => h1 d (by simp [hd]))) (hc.keep u2 hr)
              ((h3'.consume (u := useDelims o c) (v := useDelims o c)).sub (keep_sublist _ _) (keep_sublist _ _)) (by rw [er]; exact h4.snoc hp) h
            refine ⟨a1, a2, a3, fun e b1 b2 => a4 e ?_ ?_⟩
            · intro d hd
              rcases List.mem_cons.mp ((keep_sublist _ _).subset hd) with rfl | hd
              · exact b1 o (by simp)
              · exact b1 d (by simp [hd])
            · intro d hd
              rcases List.mem_cons.mp ((keep_sublist _ _).subset hd) with rfl | hd
              · exact b2 c (by simp)
              · exact b2 d (by simp [hd])
          · split at h
            · obtain ⟨a1, a2, a3, a4⟩ := ih hco hr h3.shift h4 h
              refine ⟨a1, a2, a3, fun e b1 b2 => a4 e ?_ (fun d hd => b2 d (by simp [hd]))⟩
              intro d hd
              rcases List.mem_cons.mp hd with rfl | hd
              · exact b2 d (by simp)
              · exact b1 d hd
            · obtain ⟨a1, a2, a3, a4⟩ := ih h1 hr h3.skip h4 h
              exact ⟨a1, a2, a3, fun e b1 b2 => a4 e b1 (fun d hd => b2 d (by simp [hd]))⟩
      · obtain ⟨a1, a2, a3, a4⟩ := ih hco hr h3.shift h4 h
        refine ⟨a1, a2, a3, fun e b1 b2 => a4 e ?_ (fun d hd => b2 d (by simp [hd]))⟩
        intro d hd
        rcases List.mem_cons.mp hd with rfl | hd
        · exact b2 d (by simp)
        · exact b1 d hd

/-- The invariant of the parser. -/
structure SubjOk (s : Subj) : Prop where
  delims : ∀ d ∈ s.delims, DelimOk s.data d
  sorted : Sorted s.delims
  before : ∀ d ∈ s.delims, d.pos + d.length ≤ s.pos
  pairs : PairsOk s.data s.ignore

theorem splitAtBottom_spec {b : Option Nat} {ds older newer : List Delim} (h : splitAtBottom b ds = some (older, newer)) :
    ds = newer.reverse ++ older := by
  unfold splitAtBottom at h
  split at h
  · simp at h
    obtain ⟨rfl, rfl⟩ := h
    simp
  · split at h
    · simp at h
      obtain ⟨rfl, rfl⟩ := h
      simp [List.takeWhile_append_dropWhile]
    · simp at h

theorem processEmphasis_ok {s s' : Subj} {b : Option Nat} (hs : SubjOk s) (h : processEmphasis s b = .ok s') : SubjOk s' := by
  unfold processEmphasis at h
  split at h
  · injection h with h
    subst h
    exact ⟨by simp, List.Pairwise.nil, by simp, hs.pairs⟩
  · rename_i older newer hsp
    simp only [bind, Except.bind] at h
    split at h
    · simp at h
    · rename_i v hv
      obtain ⟨ds, ig⟩ := v
      injection h with h
      subst h
      have e := splitAtBottom_spec hsp
      have hd := hs.delims
      have hso := hs.sorted
      have hb := hs.before
      rw [e] at hd hso hb
      obtain ⟨a1, a2, a3, a4⟩ := emphLoop_ok _ (fun d hd' => hd d (by simp [hd'])) (fun d hd' => hd d (by simp [hd'])) hso hs.pairs hv
      have a4 := a4 s.pos (fun d hd' => hb d (by simp [hd'])) (fun d hd' => hb d (by simp [hd']))
      cases b with
      | none => exact ⟨by simp, List.Pairwise.nil, by simp, a3⟩
      | some b =>
        have hsub : List.Sublist (ds.dropWhile (fun d => d.pos != b)) ds := List.dropWhile_sublist _
        exact ⟨fun d hd' => a1 d (hsub.subset hd'), List.Pairwise.sublist hsub a2, fun d hd' => a4 d (hsub.subset hd'), a3⟩

/-- Moving on keeps the invariant. -/
theorem SubjOk.move {s s' : Subj} (hs : SubjOk s) (h1 : s'.data = s.data) (h2 : s.pos ≤ s'.pos) (h3 : s'.delims = s.delims) (h4 : s'.ignore = s.ignore) :
    SubjOk s' := by
  refine ⟨?_, ?_, ?_, ?_⟩
  · rw [h3, h1]; exact hs.delims
  · rw [h3]; exact hs.sorted
  · rw [h3]; intro d hd; have := hs.before d hd; omega
  · rw [h1, h4]; exact hs.pairs

theorem takeWhile_get (c : Char) : ∀ (t : Str) (i : Nat), i < (t.takeWhile (· == c)).length → t[i]? = some c := by
  intro t
  induction t with
  | nil => intro i h; simp at h
  | cons d t ih =>
    intro i h
    rw [List.takeWhile_cons] at h
    split at h
    · rename_i hd
      cases i with
      | zero => simpa using hd
      | succ i => simp at h ⊢; exact ih i (by omega)
    · simp at h

theorem handleDelim_ok {E : Env} {s : Subj} {c : Char} (hp : peek s = some c) (hs : SubjOk s) (hc : c = '*' ∨ c = '_' ∨ c = '\'' ∨ c = '"') :
    SubjOk (handleDelim E s c) := by
  obtain ⟨t, ht⟩ := restFrom_pos hp
  have hn : (scanDelims E s c).1 = runLength c (restFrom s s.pos) := rfl
  have hl := runLength_pos c t
  unfold handleDelim
  generalize scanDelims E s c = r at hn ⊢
  obtain ⟨n, o, cl⟩ := r
  simp only at hn ⊢
  split
  · rename_i hq
    simp only [Bool.and_eq_true, Bool.not_eq_true', Bool.or_eq_false_iff, beq_eq_false_iff_ne] at hq
    obtain ⟨-, hq1, hq2⟩ := hq
    have hc : c = '*' ∨ c = '_' := by
      rcases hc with h | h | h | h
      · exact .inl h
      · exact .inr h
      · exact absurd h hq1
      · exact absurd h hq2
    have hn1 : 1 ≤ n := by rw [hn, ht]; exact hl
    refine ⟨?_, ?_, ?_, hs.pairs⟩
    · intro d hd
      rcases List.mem_cons.mp hd with rfl | hd
      · refine ⟨hc, by simp, hn1, ?_⟩
        simp only
        intro i hi hi'
        unfold runLength at hn
        rw [if_neg (by rintro (h | h) <;> contradiction)] at hn
        have := takeWhile_get c (restFrom s s.pos) (i - s.pos) (by omega)
        unfold restFrom at this
        rw [List.getElem?_drop, List.getElem?_take] at this
        split at this
        · rw [← this]; congr 1; omega
        · simp at this
      · exact hs.delims d hd
    · refine List.Pairwise.cons ?_ hs.sorted
      intro d hd
      exact hs.before d hd
    · intro d hd
      rcases List.mem_cons.mp hd with rfl | hd
      · exact Nat.le_refl _
      · have := hs.before d hd
        simp only; omega
  · exact hs.move rfl (by simp only; omega) rfl rfl

theorem handleNewline_same {s s' : Subj} (h : handleNewline s = .ok s') : s'.delims = s.delims ∧ s'.ignore = s.ignore ∧ s'.brackets = s.brackets := by
  unfold handleNewline at h
  split at h
  · simp at h
  · simp only at h
    split at h
    · simp at h
    · injection h with h; subst h; exact ⟨rfl, rfl, rfl⟩

theorem handleBackticks_same {s s' : Subj} (h : handleBackticks s = .ok s') : s'.delims = s.delims ∧ s'.ignore = s.ignore ∧ s'.brackets = s.brackets := by
  unfold handleBackticks at h
  simp only at h
  split at h
  · injection h with h; subst h; exact ⟨rfl, rfl, rfl⟩
  · split at h
    · injection h with h; subst h; exact ⟨rfl, rfl, rfl⟩
    · split at h
      · injection h with h; subst h; exact ⟨rfl, rfl, rfl⟩
      · split at h
        · simp at h
        · injection h with h; subst h; exact ⟨rfl, rfl, rfl⟩

theorem handleBackslash_same (s : Subj) : (handleBackslash s).delims = s.delims ∧ (handleBackslash s).ignore = s.ignore ∧
    (handleBackslash s).brackets = s.brackets := by
  unfold handleBackslash
  simp only
  split
  · exact ⟨rfl, rfl, rfl⟩
  · split
    · exact ⟨rfl, rfl, rfl⟩
    · split <;> split <;> exact ⟨rfl, rfl, rfl⟩

theorem handleEntity_same {E : Env} {s s' : Subj} (h : handleEntity E s = .ok s') : s'.delims = s.delims ∧ s'.ignore = s.ignore ∧ s'.brackets = s.brackets := by
  unfold handleEntity at h
  simp only [bind, Except.bind] at h
  split at h
  · simp at h
  · injection h with h; subst h; exact ⟨rfl, rfl, rfl⟩

theorem handlePointyBrace_same {E : Env} {s s' : Subj} (h : handlePointyBrace E s = .ok s') : s'.delims = s.delims ∧ s'.ignore = s.ignore ∧
    s'.brackets = s.brackets := by
  unfold handlePointyBrace at h
  simp only [bind, Except.bind] at h
  split at h
  · split at h
    · simp at h
    · injection h with h; subst h; exact ⟨rfl, rfl, rfl⟩
  · split at h
    · split at h
      · simp at h
      · injection h with h; subst h; exact ⟨rfl, rfl, rfl⟩
    · injection h with h; subst h
      obtain ⟨-, -, -, e4, e5, e6⟩ := pointyHtml_keeps E { s with pos := s.pos + 1 }
      exact ⟨e4, e5, e6⟩

theorem handleCloseBracket_ok {E : Env} {s s' : Subj} (hs : SubjOk s) (h : handleCloseBracket E s = .ok s') : SubjOk s' := by
  unfold handleCloseBracket at h
  simp only at h
  split at h
  · injection h with h; subst h; exact hs.move rfl (by simp) rfl rfl
  · rename_i opener bs _
    split at h
    · injection h with h; subst h; exact hs.move rfl (by simp) rfl rfl
    · simp only [bind, Except.bind] at h
      cases hi : inlineLink E { s with pos := s.pos + 1 } with
      | error e => rw [hi] at h; simp at h
      | ok r =>
        rw [hi] at h
        cases r with
        | none =>
          simp only at h
          split at h
          · simp at h
          · injection h with h; subst h; exact hs.move rfl (by simp) rfl rfl
        | some p =>
          simp only at h
          split at h
          · simp at h
          · rename_i s1 hp
            injection h with h
            subst h
            have hpos := inlineLink_pos hi
            have hmv : SubjOk { s with pos := p } := hs.move rfl (by simp only at hpos ⊢; omega) rfl rfl
            have : SubjOk s1 := processEmphasis_ok hmv hp
            exact this.move rfl (Nat.le_refl _) rfl rfl

/-- Every handler: how the delimiters and the ranges change. -/
theorem parseInline_ok {E : Env} {s s' : Subj} {c : Char} (hp : peek s = some c) (hs : SubjOk s) (h : parseInline E s c = .ok s') : SubjOk s' := by
  have hm := parseInline_moves hp h
  have hmove : s'.delims = s.delims → s'.ignore = s.ignore → SubjOk s' := fun a b => hs.move hm.1 (by have := hm.2.2; omega) a b
  unfold parseInline at h
  by_cases hc : c = '\r' ∨ c = '\n'
  · rw [if_pos hc] at h; exact hmove (handleNewline_same h).1 (handleNewline_same h).2.1
  rw [if_neg hc] at h; clear hc
  by_cases hc : c = '`'
  · rw [if_pos hc] at h; exact hmove (handleBackticks_same h).1 (handleBackticks_same h).2.1
  rw [if_neg hc] at h; clear hc
  by_cases hc : c = '\\'
  · rw [if_pos hc] at h; injection h with h; subst h; exact hmove (handleBackslash_same s).1 (handleBackslash_same s).2.1
  rw [if_neg hc] at h; clear hc
  by_cases hc : c = '&'
  · rw [if_pos hc] at h; exact hmove (handleEntity_same h).1 (handleEntity_same h).2.1
  rw [if_neg hc] at h; clear hc
  by_cases hc : c = '<'
  · rw [if_pos hc] at h; exact hmove (handlePointyBrace_same h).1 (handlePointyBrace_same h).2.1
  rw [if_neg hc] at h; clear hc
  by_cases hc : c = '*' ∨ c = '_' ∨ c = '\'' ∨ c = '"'
  · rw [if_pos hc] at h; injection h with h; subst h; exact handleDelim_ok hp hs hc
  rw [if_neg hc] at h; clear hc
  by_cases hc : c = '-'
  · rw [if_pos hc] at h; injection h with h; subst h; exact hmove rfl rfl
  rw [if_neg hc] at h; clear hc
  by_cases hc : c = '.'
  · rw [if_pos hc] at h; injection h with h; subst h; exact hmove rfl rfl
  rw [if_neg hc] at h; clear hc
  by_cases hc : c = '['
  · rw [if_pos hc] at h; injection h with h; subst h; exact hmove rfl rfl
  rw [if_neg hc] at h; clear hc
  by_cases hc : c = ']'
  · rw [if_pos hc] at h; exact handleCloseBracket_ok hs h
  rw [if_neg hc] at h; clear hc
  by_cases hc : c = '!'
  · rw [if_pos hc] at h; injection h with h; subst h; exact hmove rfl rfl
  rw [if_neg hc] at h; clear hc
  simp only [bind, Except.bind] at h
  split at h
  · simp at h
  · injection h with h; subst h; exact hmove rfl rfl

theorem inlinesLoop_ok {E : Env} (f : Nat) : ∀ {s s' : Subj}, SubjOk s → inlinesLoop E f s = .ok s' → SubjOk s' ∧ s'.data = s.data := by
  induction f with
  | zero => intro s s' _ h; simp [inlinesLoop] at h
  | succ f ih =>
    intro s s' hs h
    unfold inlinesLoop at h
    split at h
    · injection h with h; subst h; exact ⟨hs, rfl⟩
    · rename_i c hp
      simp only [bind, Except.bind] at h
      split at h
      · simp at h
      · rename_i s1 h1
        obtain ⟨a, b⟩ := ih (parseInline_ok hp hs h1) h
        exact ⟨a, b.trans (parseInline_moves hp h1).1⟩

theorem initSubj_ok (line : Str) : SubjOk (initSubj line) :=
  ⟨by simp [initSubj], List.Pairwise.nil, by simp [initSubj], PairsOk.nil⟩

/-- The ranges to ignore come in pairs. -/
theorem parseInlines_pairs {E : Env} {line : Str} {rs : List Range} (h : parseInlines E line = .ok rs) : PairsOk line rs := by
  unfold parseInlines at h
  simp only [bind, Except.bind] at h
  split at h
  · simp at h
  · rename_i s hs
    split at h
    · simp at h
    · rename_i s' hs'
      injection h with h
      subst h
      obtain ⟨a, b⟩ := inlinesLoop_ok _ (initSubj_ok line) hs
      have := processEmphasis_ok a hs'
      have hd := (processEmphasis_keeps hs').1
      rw [b] at hd
      have hp := this.pairs
      rw [hd] at hp
      exact hp

theorem PairsOk.mem {data : Str} {rs : List Range} (h : PairsOk data rs) : ∀ r ∈ rs, ∀ i, r.1 ≤ i → i < r.2 → data[i]? = some '*' ∨ data[i]? = some '_' := by
  induction h with
  | nil => simp
  | snoc h1 h2 ih =>
    obtain ⟨c, u, hc, -, -, -, -, ha, hb⟩ := h2
    intro r hr i hi hi'
    simp only [List.mem_append, List.mem_cons, List.mem_singleton, List.not_mem_nil, or_false] at hr
    have hcc : ∀ {x : Option Char}, x = some c → x = some '*' ∨ x = some '_' := by
      rintro x rfl
      rcases hc with rfl | rfl
      · exact .inl rfl
      · exact .inr rfl
    rcases hr with hr | rfl | rfl
    · exact ih r hr i hi hi'
    · exact hcc (ha i hi hi')
    · exact hcc (hb i hi hi')

end MdToc.Cmark
