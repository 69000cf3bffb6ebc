import Verif.Props.Toc

/-!
# Properties of the table of contents: anchors and levels, newlines, skipped lines, binary files, several files (C06, C07, C22, C30, C31, C34, C35)
-/

set_option linter.unusedSimpArgs false

namespace MdToc.Props

open MdToc.Spec

/-! ### C06 -/

/-- **C06**: with a smaller `keep_header_levels` the table has the entries of these levels, with the same texts and anchors. -/
theorem C06_anchors_stable {E : Env} {o : Options} (hp : o.parser ≠ .redcarpet) {k : Int} (hk : k ≤ o.keep) {fn text out out' : Str}
    (h : buildToc E o fn (some ⟨text, false⟩) = .ok out) (h' : buildToc E { o with keep := k } fn (some ⟨text, false⟩) = .ok out') {vs : List Str}
    (hv : Looks o fn text vs) :
    ∃ es es', Table E o vs out es ∧ Table E { o with keep := k } vs out' es' ∧
      es'.map (fun e => (e.level, e.text, e.anchor)) =
        (es.filter (fun e => decide ((e.level : Int) ≤ k))).map (fun e => (e.level, e.text, e.anchor)) := by
  obtain ⟨es, ht⟩ := C21_entries h hv
  obtain ⟨es', ht'⟩ := C21_entries (o := { o with keep := k }) h' hv
  refine ⟨es, es', ht, ht', ?_⟩
  obtain ⟨⟨heads, as, d, g1, g2, g3, g4⟩, -⟩ := ht
  obtain ⟨⟨heads', as', d', g1', g2', g3', g4'⟩, -⟩ := ht'
  simp only at g1' g2' g4'
  have := headings_unique g1 g1'
  subst this
  rw [g2] at g2'
  injection g2' with g2'
  injection g2' with g2'
  subst g2'
  rw [g4']
  have e1 : (es.filter (fun e => decide ((e.level : Int) ≤ k))).map (fun e => (e.level, e.text, e.anchor)) =
      (es.map (fun e => (e.level, e.text, e.anchor))).filter (fun x => decide ((x.1 : Int) ≤ k)) := by
    rw [List.filter_map]; rfl
  rw [e1, g4, List.filter_map, List.filter_filter]
  congr 1
  apply List.filter_congr
  intro x _
  simp only [listed, hp, decide_false, Bool.false_or, Function.comp]
  by_cases hx : ((x.1.1 : Nat) : Int) ≤ k
  · have : ((x.1.1 : Nat) : Int) ≤ o.keep := by omega
    simp [hx, this]
  · simp [hx]

/-- The anchor of the second `a` is the same although the first one is hidden. -/
example : buildToc asciiEnv { keep := 3 } "a.md".toList (some ⟨"# b\n## a\n# a\n".toList, false⟩) = .ok "- [b](#b)\n  - [a](#a)\n- [a](#a-1)\n".toList ∧
    buildToc asciiEnv { keep := 1 } "a.md".toList (some ⟨"# b\n## a\n# a\n".toList, false⟩) = .ok "- [b](#b)\n- [a](#a-1)\n".toList := by
  decide +kernel

/-! ### C07 -/

/-- **C07** -/
theorem C07_newlines (E : Env) (s : Str) (d : Dup) (p : Parser) :
    buildAnchorLink E s d p = .error .StringCannotContainNewlines ↔ HasInteriorNewline s := by
  constructor
  · intro h
    rcases buildAnchorLink_err h with ⟨-, h⟩ | ⟨-, h | h | h⟩
    · exact h
    all_goals exact absurd h (by decide)
  · intro h
    unfold buildAnchorLink
    rw [if_pos ((split_length_gt_iff s).mpr h)]

example : HasInteriorNewline "\na\r\nb\n".toList := ⟨"\n".toList, 'a', "\r".toList, '\n', [], 'b', "\n".toList, by decide, by simp [IsNewline],
    by simp [IsNewline], by simp [IsNewline]⟩

/-! ### C30 -/

theorem tocLoop_skip (E : Env) (o : Options) (k : Int) (fn : Str) (bad : Bool) (ls : List Str) (st : TocState) :
    tocLoop E { o with skipLines := k } fn bad ls st = tocLoop E o fn bad ls st := by
  induction ls generalizing st with
  | nil => rfl
  | cons l ls ih =>
    simp only [tocLoop]
    have : tocStep E { o with skipLines := k } = tocStep E o := rfl
    rw [this]
    split
    · rfl
    · simp only [bind, Except.bind]
      cases tocStep E o st l _ with
      | error e => rfl
      | ok st' => exact ih st'

/-- **C30**: skipping `n` lines is the same as dropping them from the text. -/
theorem C30_skip_lines (E : Env) (o : Options) (n : Nat) (fn : Str) {text text' : Str} {ls : List Str} (h : Reads text ls) (h' : Reads text' (ls.drop n)) :
    buildToc E { o with skipLines := n } fn (some ⟨text, false⟩) = buildToc E { o with skipLines := 0 } fn (some ⟨text', false⟩) := by
  rw [buildToc_lines E (by simp) fn h, buildToc_lines E (by simp) fn h', tocLoop_skip E o n, tocLoop_skip E o 0]
  simp
  rfl

/-- The text without its first lines exists. -/
theorem C30_drop {text : Str} {ls : List Str} (h : Reads text ls) (n : Nat) : Reads (ls.drop n).flatten (ls.drop n) := by
  induction h generalizing n with
  | nil => simp; exact .nil
  | @last b hb hn =>
    cases n with
    | zero => simp; exact .last hb hn
    | succ n => simp; exact .nil
  | @line b eol t ls hn he _ ih =>
    cases n with
    | zero =>
      have := ih 0
      simp only [List.drop_zero, List.flatten_cons] at this ⊢
      exact .line hn (.inl rfl) this
    | succ n => exact ih n

/-- **C30** -/
theorem C30_negative (E : Env) (o : Options) (h : o.skipLines < 0) (fn : Str) (src : Option Source) : buildToc E o fn src = .error .ValueError := by
  unfold buildToc
  rw [if_pos (by omega)]

example : Reads "# a\r\n# b\r# c".toList ["# a\n".toList, "# b\n".toList, "# c".toList] := (reads_iff (bad := false)).mpr (by decide +kernel)

/-! ### C31 -/

/-- **C31**: a stream that cannot be decoded gives the comment, or an exception. -/
theorem C31_comment {E : Env} {o : Options} {fn text out : Str} (h : buildToc E o fn (some ⟨text, true⟩) = .ok out) :
    out = "<!--stop reading ".toList ++ fn ++ ": probably a binary file-->".toList := by
  have key : ∀ (ls : List Str) (st : TocState), tocLoop E o fn true ls st = .ok out → out = binaryComment fn := by
    intro ls
    induction ls with
    | nil => intro st h; simp [tocLoop] at h; exact h.symm
    | cons l ls ih =>
      intro st h
      simp only [tocLoop] at h
      split at h
      · injection h with h; exact h.symm
      · simp only [bind, Except.bind] at h
        cases ht : tocStep E o st l (decide (fn ≠ stdinName) && ls.isEmpty) with
        | error e => rw [ht] at h; simp at h
        | ok st' => rw [ht] at h; exact ih st' h
  obtain ⟨ls, hr⟩ := reads_exists text
  have hs := buildToc_skip h
  by_cases hl : o.skipLines.toNat ≤ ls.length
  · rw [buildToc_lines_bad E hs fn hr hl] at h
    exact key _ _ h
  · unfold buildToc at h
    simp only [reads_lines hr] at h
    rw [if_neg (by simpa using hs), if_pos ⟨by simp, by omega⟩] at h
    simp at h

/-- **C31**: no exception if the readable part of the stream is fine as a document. -/
theorem C31_no_exception {E : Env} {o : Options} {fn text out : Str} (h : buildToc E o fn (some ⟨text, false⟩) = .ok out) {ls : List Str} (hr : Reads text ls)
    (hl : o.skipLines.toNat ≤ ls.length) :
    buildToc E o fn (some ⟨text, true⟩) = .ok ("<!--stop reading ".toList ++ fn ++ ": probably a binary file-->".toList) := by
  have key : ∀ (ls : List Str) (st : TocState), tocLoop E o fn false ls st = .ok out → tocLoop E o fn true ls st = .ok (binaryComment fn) := by
    intro ls
    induction ls with
    | nil => intro st h; rfl
    | cons l ls ih =>
      intro st h
      simp only [tocLoop] at h ⊢
      rw [if_neg (by simp)] at h
      split
      · rfl
      · simp only [bind, Except.bind] at h ⊢
        cases ht : tocStep E o st l (decide (fn ≠ stdinName) && ls.isEmpty) with
        | error e => rw [ht] at h; simp at h
        | ok st' => rw [ht] at h; exact ih st' h
  have hs := buildToc_skip h
  rw [buildToc_lines E hs fn hr] at h
  rw [buildToc_lines_bad E hs fn hr hl]
  exact key _ _ h

/-- If decoding fails in the skipped lines the exception is not caught. -/
theorem C31_skipped {E : Env} {o : Options} (hs : o.skipLines ≥ 0) {fn text : Str} {ls : List Str} (hr : Reads text ls)
    (hl : ls.length < o.skipLines.toNat) : buildToc E o fn (some ⟨text, true⟩) = .error .UnicodeDecodeError := by
  unfold buildToc
  simp only [reads_lines hr]
  rw [if_neg (by simpa using hs), if_pos ⟨by simp, hl⟩]

example : buildToc asciiEnv {} "a.md".toList (some ⟨"# a\n# b\n".toList, true⟩) = .ok "<!--stop reading a.md: probably a binary file-->".toList := by
  decide +kernel

/-! ### C34 -/

theorem buildTocs_no_stdin (E : Env) (o : Options) (fs : FS) (names : List Str) (h : "-".toList ∉ names) (stdin : Stdin) :
    buildTocs E o fs names stdin = names.mapM (fun f => buildToc E o f (fs f)) := by
  induction names with
  | nil => rfl
  | cons f t ih =>
    have hf : f ≠ stdinName := fun e => h (by rw [e]; simp [stdinName])
    rw [List.mapM_cons]
    unfold buildTocs
    rw [if_neg hf]
    simp only [ih (fun h' => h (List.mem_cons_of_mem _ h'))]
    rfl

/-- **C34**: `build_multiple_tocs` is `build_toc` on each file in order, up to the first exception, as long as the standard input is not named twice. -/
theorem C34_independent (E : Env) (o : Options) (fs : FS) (src : Source) (names : List Str) (hne : names ≠ []) (h : names.count "-".toList ≤ 1) :
    buildMultipleTocs E o fs (some src) names = names.mapM (fun f => buildToc E o f (if f = "-".toList then some src else fs f)) := by
  unfold buildMultipleTocs defaultNames
  rw [if_neg (by simpa using hne)]
  clear hne
  induction names with
  | nil => rfl
  | cons f t ih =>
    rw [buildTocs, List.mapM_cons]
    by_cases hf : f = stdinName
    · have hf' : f = "-".toList := hf
      rw [if_pos hf, if_pos hf']
      have hn : "-".toList ∉ t := by
        rw [hf', List.count_cons_self] at h
        exact List.count_eq_zero.mp (by omega)
      have e : t.mapM (fun f => buildToc E o f (if f = "-".toList then some src else fs f)) = t.mapM (fun f => buildToc E o f (fs f)) := by
        clear ih h
        induction t with
        | nil => rfl
        | cons g t ih =>
          have hg : g ≠ "-".toList := fun e => hn (by rw [e]; simp)
          rw [List.mapM_cons, List.mapM_cons, if_neg hg, ih (fun h' => hn (List.mem_cons_of_mem _ h'))]
      rw [e, buildTocs_no_stdin E o fs t hn]
      by_cases hs : o.skipLines ≥ 0
      · rw [if_neg (by simpa using hs)]; rfl
      · rw [if_pos hs, C30_negative E o (by omega)]; rfl
    · have hf' : f ≠ "-".toList := hf
      rw [if_neg hf, if_neg hf']
      rw [List.count_cons_of_ne hf'] at h
      simp only [ih h]
      rfl

/-- **C34**: no files means the standard input. -/
theorem C34_default (E : Env) (o : Options) (fs : FS) (stdin : Stdin) :
    buildMultipleTocs E o fs stdin [] = buildMultipleTocs E o fs stdin ["-".toList] := rfl

/-- The standard input named twice: the second time it is closed. -/
theorem C34_stdin_twice : buildMultipleTocs asciiEnv {} (fun _ => none) (some ⟨"# a\n".toList, false⟩) ["-".toList, "-".toList] = .error .ValueError ∧
    buildMultipleTocs asciiEnv {} (fun _ => none) (some ⟨"# a\n".toList, false⟩) ["-".toList] = .ok ["- [a](#a)\n".toList] := by
  decide +kernel

/-- Nothing leaks from one file to the next: the anchors and numbers start anew. -/
example : buildMultipleTocs asciiEnv { ordered := true } (fun f => if f = "a.md".toList then some ⟨"# a\n# a\n".toList, false⟩ else some ⟨"## a\n".toList, false⟩) none
      ["a.md".toList, "b.md".toList, "a.md".toList] =
    .ok ["1. [a](#a)\n2. [a](#a-1)\n".toList, "1. [a](#a)\n".toList, "1. [a](#a)\n2. [a](#a-1)\n".toList] := by
  decide +kernel

/-! ### C35 -/

/-- **C35**: the table of contents depends only on the lines, not on how they end. -/
theorem C35_lines (E : Env) (o : Options) (fn : Str) {text text' : Str} {ls : List Str} (h : Reads text ls) (h' : Reads text' ls) (bad : Bool) :
    buildToc E o fn (some ⟨text, bad⟩) = buildToc E o fn (some ⟨text', bad⟩) := by
  unfold buildToc
  simp only [reads_lines h, reads_lines h']

/-- A text with other line ends. -/
def withEol (eol : Str) (s : Str) : Str := s.flatMap (fun c => if c = '\n' then eol else [c])

theorem withEol_plain {eol b : Str} (h : ∀ c ∈ b, ¬ IsNewline c) (t : Str) : withEol eol (b ++ t) = b ++ withEol eol t := by
  unfold withEol
  rw [List.flatMap_append]
  congr 1
  induction b with
  | nil => rfl
  | cons c b ih =>
    have hc : c ≠ '\n' := fun e => h c (by simp) (.inl e)
    rw [List.flatMap_cons, if_neg hc, ih (fun c hc => h c (by simp [hc]))]
    rfl

theorem reads_withEol {eol : Str} (he : eol = ['\n'] ∨ eol = ['\r', '\n'] ∨ eol = ['\r']) {text : Str} {ls : List Str} (h : Reads text ls)
    (hcr : '\r' ∉ text) : Reads (withEol eol text) ls := by
  induction h with
  | nil => exact .nil
  | @last b hb hn =>
    have := withEol_plain (eol := eol) hn []
    simp only [List.append_nil] at this
    rw [this]
    simpa [withEol] using Reads.last hb hn
  | @line b e t ls hn hE hr ih =>
    have e1 : e = ['\n'] := by
      rcases hE with h | h | ⟨h, -⟩
      · exact h
      · rw [h] at hcr; simp at hcr
      · rw [h] at hcr; simp at hcr
    subst e1
    have ih' := ih (fun h => hcr (by simp [h]))
    rw [List.append_assoc, withEol_plain hn]
    have e2 : withEol eol (['\n'] ++ t) = eol ++ withEol eol t := by simp [withEol]
    rw [e2, ← List.append_assoc]
    have hE' : IsEol eol (withEol eol t) := by
      rcases he with h | h | h
      · exact .inl h
      · exact .inr (.inl h)
      · refine .inr (.inr ⟨h, ?_⟩)
        rw [h]
        cases t with
        | nil => simp [withEol]
        | cons c t =>
          by_cases hc : c = '\n'
          · simp [withEol, hc]
          · simp [withEol, hc]
    exact .line hn hE' ih'

/-- **C35** -/
theorem C35_newline_convention (E : Env) (o : Options) (fn : Str) {eol : Str} (he : eol = ['\n'] ∨ eol = ['\r', '\n'] ∨ eol = ['\r']) {text : Str}
    (hcr : '\r' ∉ text) (bad : Bool) : buildToc E o fn (some ⟨withEol eol text, bad⟩) = buildToc E o fn (some ⟨text, bad⟩) := by
  obtain ⟨ls, h⟩ := reads_exists text
  exact C35_lines E o fn (reads_withEol he h hcr) h bad

example : buildToc asciiEnv {} "a.md".toList (some ⟨"# a\r\n\r\n```\r\n# b\r\n```\r\n## c\r\n".toList, false⟩) = .ok "- [a](#a)\n  - [c](#c)\n".toList := by
  decide +kernel

/-! ### C22 -/

theorem mem_hyphenate {ws : List Str} {c : Char} (h : c ∈ hyphenate ws) : c = '-' ∨ ∃ w ∈ ws, c ∈ w := by
  induction ws with
  | nil => simp [hyphenate] at h
  | cons a t ih =>
    cases t with
    | nil => simp [hyphenate] at h; simp [h]
    | cons b t =>
      rw [hyphenate] at h
      rcases List.mem_append.mp h with h | h
      · exact .inr ⟨a, by simp, h⟩
      · rcases List.mem_cons.mp h with h | h
        · exact .inl h
        · rcases ih h with h | ⟨w, hw, h⟩
          · exact .inl h
          · exact .inr ⟨w, by simp [List.mem_cons.mp hw], h⟩
      · simp

theorem mem_words {sep : Char → Bool} {s w : Str} {c : Char} (hw : w ∈ words sep s) (hc : c ∈ w) : c ∈ s := by
  induction s generalizing w with
  | nil => simp [words] at hw
  | cons a t ih =>
    unfold words at hw
    split at hw
    · simp [ih hw hc]
    · cases t with
      | nil => simp at hw; subst hw; simpa using hc
      | cons d t =>
        simp only at hw
        split at hw
        · rcases List.mem_cons.mp hw with rfl | hw
          · simp at hc; simp [hc]
          · simp [List.mem_cons.mp (ih hw hc)]
        · cases hws : words sep (d :: t) with
          | nil => rw [hws] at hw; simp at hw; subst hw; simp at hc; simp [hc]
          | cons v r =>
            rw [hws] at hw ih
            simp only [List.mem_cons] at hw
            rcases hw with rfl | hw
            · rcases List.mem_cons.mp hc with rfl | hc
              · simp
              · have := ih (w := v) (by simp) hc
                simp [List.mem_cons.mp this]
            · have := ih (w := w) (by simp [hw]) hc
              simp [List.mem_cons.mp this]

theorem asciiLower_newline {c : Char} (h : IsNewline (asciiLower c)) : IsNewline c := by
  by_cases hc : c.toNat < 128
  · have : ∀ n : Fin 128, (asciiLower (Char.ofNat n) = '\n' → Char.ofNat n = '\n') ∧ (asciiLower (Char.ofNat n) = '\r' → Char.ofNat n = '\r') := by
      decide
    have := this ⟨c.toNat, hc⟩
    simp only [Char.ofNat_toNat] at this
    exact h.imp this.1 this.2
  · unfold asciiLower at h
    rwa [if_neg (by omega)] at h

theorem toDigitsCore_mem {c : Char} : ∀ (f n : Nat) (acc : List Char), c ∈ Nat.toDigitsCore 16 f n acc → c ∈ acc ∨ ∃ k, k < 16 ∧ c = Nat.digitChar k := by
  intro f
  induction f with
  | zero => intro n acc h; exact .inl h
  | succ f ih =>
    intro n acc h
    rw [Nat.toDigitsCore] at h
    have key : ∀ {x}, x ∈ Nat.digitChar (n % 16) :: acc → x ∈ acc ∨ ∃ k, k < 16 ∧ x = Nat.digitChar k := by
      intro x hx
      rcases List.mem_cons.mp hx with h | h
      · exact .inr ⟨n % 16, Nat.mod_lt _ (by decide), h⟩
      · exact .inl h
    split at h
    · exact key h
    · rcases ih _ _ h with h | h
      · exact key h
      · exact .inr h

theorem hex_newline {n : Nat} {c : Char} (h : c ∈ hex n) : ¬ IsNewline c := by
  unfold hex Nat.toDigits at h
  rcases toDigitsCore_mem _ _ _ h with h | ⟨k, hk, rfl⟩
  · simp at h
  · have : ∀ k : Fin 16, ¬ (Nat.digitChar k = '\n' ∨ Nat.digitChar k = '\r') := by decide
    exact this ⟨k, hk⟩

/-- Anchors have no newlines. -/
theorem anchor_no_newline {E : Env} (hE : E.Lawful) {p : Parser} {t a : Str} {d d' : Dup} (h : buildAnchorLink E t d p = .ok (a, d'))
    (ht : ∀ c ∈ t, ¬ IsNewline c) : ∀ c ∈ a, ¬ IsNewline c := by
  by_cases hp : p = .redcarpet
  · subst hp
    rw [C04_redcarpet_anchor E (noInterior ht)] at h
    injection h with h
    injection h with h
    intro c hc hn
    rw [← h] at hc
    split at hc
    · rcases List.mem_append.mp hc with hc | hc
      · rcases hn with rfl | rfl <;> exact absurd hc (by decide)
      · exact hex_newline hc hn
    · rcases mem_hyphenate hc with rfl | ⟨w, hw, hc⟩
      · rcases hn with hn | hn <;> exact absurd hn (by decide)
      · obtain ⟨v, hv, rfl⟩ := List.mem_map.mp hw
        obtain ⟨x, hx, rfl⟩ := List.mem_map.mp hc
        exact ht x (List.mem_filter.mp (mem_words hv hx)).1 (asciiLower_newline hn)
  · have := C03_anchor_safe hE (cmarkLike_of_ne hp) h
    rintro c hc (rfl | rfl)
    · exact this _ (by decide) hc
    · exact this _ (by decide) hc

theorem anchorRun_no_newline {E : Env} (hE : E.Lawful) {p : Parser} {ts as : List Str} {d d' : Dup} (h : anchorRun E p d ts = .ok (as, d'))
    (ht : ∀ t ∈ ts, ∀ c ∈ t, ¬ IsNewline c) : ∀ a ∈ as, ∀ c ∈ a, ¬ IsNewline c := by
  induction ts generalizing d d' as with
  | nil => simp [anchorRun] at h; rw [h.1]; simp
  | cons t ts ih =>
    rw [anchorRun] at h
    cases hb : buildAnchorLink E t d p with
    | error e => rw [hb] at h; simp at h
    | ok r =>
      obtain ⟨a, d1⟩ := r
      rw [hb] at h
      simp only at h
      cases hr : anchorRun E p d1 ts with
      | error e => rw [hr] at h; simp [Except.map] at h
      | ok r =>
        obtain ⟨as', d2⟩ := r
        rw [hr] at h
        simp [Except.map] at h
        obtain ⟨rfl, -⟩ := h
        intro x hx
        rcases List.mem_cons.mp hx with rfl | hx
        · exact anchor_no_newline hE hb (ht t (by simp))
        · exact ih hr (fun t h => ht t (by simp [h])) x hx

/-- The entries have no newlines. -/
theorem entries_no_newline {E : Env} (hE : E.Lawful) {o : Options} {vs : List Str} {out : Str} {es : List Entry} (h : Table E o vs out es)
    (hm : es ≠ [] → isOrdered o = true ∨ o.listMarker ∈ bullets) :
    ∀ e ∈ es, ∀ c ∈ Entry.line (isOrdered o) o.noLinks (usedMarker o.parser (isOrdered o) o.listMarker) [] e, ¬ IsNewline c := by
  obtain ⟨⟨heads, as, d, g1, g2, g3, g4⟩, -⟩ := h
  have hh := headings_bounds g1
  have ha := anchorRun_no_newline hE g2 (by
    intro t ht
    obtain ⟨x, hx, rfl⟩ := List.mem_map.mp ht
    exact (hh x hx).2.2)
  intro e he
  have hmem : (e.level, e.text, e.anchor) ∈ es.map (fun e => (e.level, e.text, e.anchor)) := List.mem_map.mpr ⟨e, he, rfl⟩
  rw [g4] at hmem
  obtain ⟨y, hy, e1⟩ := List.mem_map.mp hmem
  have hy' := List.of_mem_zip (List.mem_filter.mp hy).1
  simp at e1
  obtain ⟨-, e2, e3⟩ := e1
  have ht : ∀ c ∈ e.text, ¬ IsNewline c := by rw [← e2]; exact (hh y.1 hy'.1).2.2
  have han : ∀ c ∈ e.anchor, ¬ IsNewline c := by rw [← e3]; exact ha _ hy'.2
  have hlit : ∀ (s : Str) (c : Char), c ∈ s → s ∈ [" ".toList, "[".toList, "](#".toList, ")".toList, "-".toList, "+".toList, "*".toList, ".".toList] → ¬ IsNewline c := by
    rintro s c hc hs (rfl | rfl)
    · revert s; decide
    · revert s; decide
  have hmark : ∀ c ∈ usedMarker o.parser (isOrdered o) o.listMarker, ¬ IsNewline c := by
    intro c hc
    by_cases ho : isOrdered o = true
    · rw [ho] at hc
      have := C32_used_marker o.parser o.listMarker
      refine hlit _ c hc ?_
      unfold delimiters at this
      split at this
      · simp at this; rw [this]; decide
      · simp at this; rcases this with h | h <;> rw [h] <;> decide
    · rcases hm (List.ne_nil_of_mem he) with h | h
      · exact absurd h ho
      · simp only [usedMarker, if_neg ho] at hc
        refine hlit _ c hc ?_
        simp [bullets] at h
        rcases h with h | h | h <;> rw [h] <;> decide
  intro c hc hn
  unfold Entry.line at hc
  simp only [List.mem_append, List.append_nil] at hc
  rcases hc with ((hc | hc) | hc) | hc
  · rw [(List.mem_replicate.mp hc).2] at hn
    rcases hn with hn | hn <;> exact absurd hn (by decide)
  · unfold markerText at hc
    split at hc
    · rcases List.mem_append.mp hc with hc | hc
      · rw [← natStr_eq] at hc
        have := natStr_digits _ _ hc
        rcases hn with rfl | rfl <;> exact absurd this (by decide)
      · exact hmark c hc hn
    · exact hmark c hc hn
  · exact hlit _ c hc (by decide) hn
  · unfold Entry.content at hc
    split at hc
    · exact ht c hc hn
    · simp only [List.mem_append] at hc
      rcases hc with (((hc | hc) | hc) | hc) | hc
      · exact hlit _ c hc (by decide) hn
      · exact ht c hc hn
      · exact hlit _ c hc (by decide) hn
      · exact han c hc hn
      · exact hlit _ c hc (by decide) hn

/-- **C22**: there are no newlines in the entries, so that the table has as many line feeds as entries. -/
theorem C22_one_line_each {E : Env} (hE : E.Lawful) {o : Options} {fn text out : Str} (h : buildToc E o fn (some ⟨text, false⟩) = .ok out) {vs : List Str}
    (hv : Looks o fn text vs) :
    ∃ es, Table E o vs out es ∧
      (∀ e ∈ es, ∀ c ∈ Entry.line (isOrdered o) o.noLinks (usedMarker o.parser (isOrdered o) o.listMarker) [] e, ¬ IsNewline c) ∧
      (o.newline = "\n".toList → out.count '\n' = es.length) := by
  obtain ⟨hs, es, st, hr, ht⟩ := buildToc_run h hv
  have hno := entries_no_newline hE ht (fun hne => by
    have := hr.info.2.2.2.2 hne
    rw [markerOk_eq] at this
    simpa using this)
  refine ⟨es, ht, hno, ?_⟩
  intro hnl
  obtain ⟨-, rfl⟩ := ht
  clear hr h
  induction es with
  | nil => rfl
  | cons e es ih =>
    rw [List.map_cons, List.flatten_cons, List.count_append, ih (fun e he => hno e (by simp [he]))]
    have : Entry.line (isOrdered o) o.noLinks (usedMarker o.parser (isOrdered o) o.listMarker) o.newline e =
        Entry.line (isOrdered o) o.noLinks (usedMarker o.parser (isOrdered o) o.listMarker) [] e ++ "\n".toList := by
      unfold Entry.line; rw [hnl]; simp
    rw [this, List.count_append, List.count_eq_zero.mpr (fun hc => hno e (by simp) _ hc (.inl rfl))]
    simp
    omega

end MdToc.Props
