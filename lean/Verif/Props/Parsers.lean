import Verif.Props.Escapes

/-!
# C83: parsers with the same rules
-/

set_option linter.unusedSimpArgs false

namespace MdToc.Props

open MdToc.Spec

/-- The options with another parser. -/
def withParser (o : Options) (p : Parser) : Options := { o with parser := p }

/-- The results are equal, or the first one is the exception for large numbers, if it is allowed. -/
def SameResult {α : Type} (b : Bool) (x y : Except Exn α) : Prop := x = y ∨ (b = true ∧ x = .error .GithubOverflowOrderedListMarker)

theorem SameResult.bind {α β : Type} {b : Bool} {x y : Except Exn α} (h : SameResult b x y) {f g : α → Except Exn β} (hf : ∀ a, SameResult b (f a) (g a)) :
    SameResult b (x >>= f) (y >>= g) := by
  rcases h with rfl | ⟨hb, rfl⟩
  · cases x with
    | error e => exact .inl rfl
    | ok a => exact hf a
  · exact .inr ⟨hb, rfl⟩

theorem closing_eq {p q : Parser} (h : p.cmarkLike = q.cmarkLike) : p.closingMarkers = q.closingMarkers := by
  cases p <;> cases q <;> first | rfl | (exact absurd h (by decide))

theorem increase_same {p q : Parser} {b : Bool} (hb : p.limited = q.limited ∨ (b = true ∧ q.limited = false)) (cnt : Counter) (prev curr : Nat) :
    SameResult b (increaseIndex cnt prev curr p) (increaseIndex cnt prev curr q) := by
  unfold increaseIndex
  rcases hb with h | ⟨h1, h2⟩
  · rw [h]; exact .inl rfl
  · by_cases hc : ¬ curr ≥ 1
    · rw [if_pos hc, if_pos hc]; exact .inl rfl
    · rw [if_neg hc, if_neg hc]
      simp only [h2, Bool.false_eq_true, false_and, if_false]
      generalize (fun i => if i = curr then some ((if (cnt curr).isNone = true ∨ (if prev = 0 then curr else prev) < curr then 0 else (cnt curr).getD 0) + 1) else cnt i) = r
      generalize (if (cnt curr).isNone = true ∨ (if prev = 0 then curr else prev) < curr then 0 else (cnt curr).getD 0) + 1 = n
      split
      · exact .inr ⟨h1, rfl⟩
      · exact .inl rfl

theorem addHeader_same {p q : Parser} (hc : p.cmarkLike = q.cmarkLike) {b : Bool} (hb : p.limited = q.limited ∨ (b = true ∧ q.limited = false)) (o : Options) (st : TocState) (h : Header) :
    SameResult b (addHeader (withParser o p) st h) (addHeader (withParser o q) st h) := by
  have hm : (withParser o p).effMarker = (withParser o q).effMarker := by
    unfold Options.effMarker withParser Options.effOrdered
    simp only [closing_eq hc]
  have hok : markerOk p = markerOk q := by
    funext a b
    unfold markerOk
    rw [closing_eq hc]
  have hci : ∀ a b c d e f, computeIndent a b p c d e f = computeIndent a b q c d e f := by
    intro a b c d e f
    unfold computeIndent
    rw [hok, hc]
  have hl : ∀ a b c d e, buildTocLineNoIndent a b c d p e = buildTocLineNoIndent a b c d q e := by
    intro a b c d e
    unfold buildTocLineNoIndent
    rw [hok]
  have e1 : (withParser o p).effOrdered = (withParser o q).effOrdered := rfl
  have e2 : (withParser o p).constantOrdered = (withParser o q).constantOrdered := rfl
  have e3 : (withParser o p).noIndentation = (withParser o q).noIndentation := rfl
  have e4 : (withParser o p).noLinks = (withParser o q).noLinks := rfl
  have e5 : (withParser o p).newline = (withParser o q).newline := rfl
  have e6 : incoherent (withParser o p) = incoherent (withParser o q) := rfl
  have e7 : prevFor (withParser o p) = prevFor (withParser o q) := rfl
  have e8 : firstFor (withParser o p) = firstFor (withParser o q) := rfl
  have e9 : (withParser o p).parser = p := rfl
  have e0 : (withParser o q).parser = q := rfl
  unfold addHeader
  simp only [hm, hci, hl, e1, e2, e3, e4, e5, e6, e7, e8, e9, e0]
  by_cases hx : ((withParser o q).effOrdered && !(withParser o q).constantOrdered) = true
  · simp only [hx, if_true]
    exact SameResult.bind (increase_same hb _ _ _) (fun counter => .inl rfl)
  · simp only [hx, Bool.false_eq_true, if_false]
    exact .inl rfl

/-- The two parsers read this line in the same way. -/
def SameLine (E : Env) (keep : Int) (noLinks : Bool) (p q : Parser) (line : Str) : Prop :=
  isOpeningCodeFence line p = isOpeningCodeFence line q ∧ (∀ f d, isClosingCodeFence line f d p = isClosingCodeFence line f d q) ∧
    ∀ dup, getMdHeader E line dup keep p noLinks = getMdHeader E line dup keep q noLinks

theorem toc_same {E : Env} {p q : Parser} (hc : p.cmarkLike = q.cmarkLike) {b : Bool} (hb : p.limited = q.limited ∨ (b = true ∧ q.limited = false)) (o : Options) (fn : Str) (src : Source)
    (hs : ∀ l ∈ src.lines, SameLine E o.keep o.noLinks p q l) :
    SameResult b (buildToc E (withParser o p) fn (some src)) (buildToc E (withParser o q) fn (some src)) := by
  have hm : (withParser o p).effMarker = (withParser o q).effMarker := by
    unfold Options.effMarker withParser Options.effOrdered
    simp only [closing_eq hc]
  have hstep : ∀ st line d, SameLine E o.keep o.noLinks p q line → SameResult b (tocStep E (withParser o p) st line d) (tocStep E (withParser o q) st line d) := by
    intro st line d ⟨h1, h2, h3⟩
    have hf : fenceStep p st.within st.fence line d = fenceStep q st.within st.fence line d := by
      unfold fenceStep
      rw [h1, h2]
    have e1 : (withParser o p).parser = p := rfl
    have e2 : (withParser o q).parser = q := rfl
    have e3 : (withParser o p).keep = o.keep := rfl
    have e4 : (withParser o q).keep = o.keep := rfl
    have e5 : (withParser o p).noLinks = o.noLinks := rfl
    have e6 : (withParser o q).noLinks = o.noLinks := rfl
    unfold tocStep
    simp only [e1, e2, e3, e4, e5, e6, hf, h3]
    generalize fenceStep q st.within st.fence line d = r
    obtain ⟨w, f⟩ := r
    simp only
    split
    · refine SameResult.bind (.inl rfl) ?_
      rintro ⟨hs, dup⟩
      simp only
      split
      · split
        · exact addHeader_same hc hb o _ _
        · exact .inl rfl
      · exact .inl rfl
    · exact .inl rfl
  have hloop : ∀ (ls : List Str), (∀ l ∈ ls, SameLine E o.keep o.noLinks p q l) → ∀ st, SameResult b (tocLoop E (withParser o p) fn src.bad ls st) (tocLoop E (withParser o q) fn src.bad ls st) := by
    intro ls
    induction ls with
    | nil => intro _ st; exact .inl rfl
    | cons l ls ih =>
      intro hl st
      unfold tocLoop
      split
      · exact .inl rfl
      · exact SameResult.bind (hstep _ _ _ (hl l (by simp))) (fun st' => ih (fun x hx => hl x (by simp [hx])) st')
  unfold buildToc
  show SameResult b (if ¬ o.skipLines ≥ 0 then _ else _) (if ¬ o.skipLines ≥ 0 then _ else _)
  split
  · exact .inl rfl
  · simp only [hm]
    show SameResult b (if src.bad ∧ src.lines.length < o.skipLines.toNat then _ else _) (if src.bad ∧ src.lines.length < o.skipLines.toNat then _ else _)
    split
    · exact .inl rfl
    · exact hloop _ (fun l hl => hs l (List.mem_of_mem_drop hl)) _

/-! ### Lines on which the blanks are the same -/

theorem dropWhile_congr {P Q : Char → Bool} : ∀ {s : Str}, (∀ c ∈ s, P c = Q c) → s.dropWhile P = s.dropWhile Q := by
  intro s
  induction s with
  | nil => intro _; rfl
  | cons a t ih =>
    intro h
    rw [List.dropWhile_cons, List.dropWhile_cons, h a (by simp), ih (fun c hc => h c (by simp [hc]))]

theorem rstrip_congr {P Q : Char → Bool} {s : Str} (h : ∀ c ∈ s, P c = Q c) : rstrip P s = rstrip Q s := by
  unfold rstrip
  rw [dropWhile_congr (fun c hc => h c (by simpa using hc))]

theorem strip_congr {P Q : Char → Bool} {s : Str} (h : ∀ c ∈ s, P c = Q c) : strip P s = strip Q s := by
  unfold strip
  have e : lstrip P s = lstrip Q s := dropWhile_congr h
  rw [e]
  exact rstrip_congr (fun c hc => h c (List.dropWhile_sublist _ |>.subset hc))

theorem scanWhile_congr {P Q : Char → Bool} : ∀ {s : Str} (i : Nat), (∀ c ∈ s, P c = Q c) → scanWhile (fun _ c => P c) s i = scanWhile (fun _ c => Q c) s i := by
  intro s
  induction s with
  | nil => intro i _; rfl
  | cons a t ih =>
    intro i h
    unfold scanWhile
    simp only [h a (by simp), ih (i + 1) (fun c hc => h c (by simp [hc]))]

theorem scanUnguarded_congr {P Q : Char → Bool} : ∀ {s : Str} (i : Nat), (∀ c ∈ s, P c = Q c) → scanUnguarded P s i = scanUnguarded Q s i := by
  intro s
  induction s with
  | nil => intro i _; rfl
  | cons a t ih =>
    intro i h
    unfold scanUnguarded
    simp only [h a (by simp), ih (i + 1) (fun c hc => h c (by simp [hc]))]

theorem closingLoop_congr {P Q : Char → Bool} {rev : Str} (h : ∀ c ∈ rev, P c = Q c) (n cs : Nat) :
    ∀ f i r hr ce, closingLoop P rev n cs f i r hr ce = closingLoop Q rev n cs f i r hr ce := by
  intro f
  induction f with
  | zero => intros; rfl
  | succ f ih =>
    intro i r hr ce
    unfold closingLoop
    have h1 : scanUnguarded P (rev.drop i) i = scanUnguarded Q (rev.drop i) i := scanUnguarded_congr i (fun c hc => h c (List.mem_of_mem_drop hc))
    cases hd : rev.drop i with
    | nil => rfl
    | cons a t =>
      have ha : P a = Q a := h a (List.mem_of_mem_drop (by rw [hd]; simp))
      rw [hd] at h1
      simp only [ha, h1, ih]

theorem opening_congr {p q : Parser} (hc : p.cmarkLike = q.cmarkLike) {line : Str} (h : ∀ c ∈ line, p.isSpaceCh c = q.isSpaceCh c) :
    isOpeningCodeFence line p = isOpeningCodeFence line q := by
  unfold isOpeningCodeFence
  rw [hc]
  split
  · split
    · rfl
    · have hsub : ∀ c ∈ rstrip (· == '\n') (lstrip (· == ' ') line), p.isSpaceCh c = q.isSpaceCh c := by
        intro c hcm
        refine h c ?_
        unfold rstrip lstrip at hcm
        have := (List.dropWhile_sublist _).subset (List.mem_reverse.mp hcm)
        exact (List.dropWhile_sublist _).subset (List.mem_reverse.mp this)
      simp only
      generalize rstrip (· == '\n') (lstrip (· == ' ') line) = l at hsub ⊢
      have e : ∀ a b, strip p.isSpaceCh (slice l a b) = strip q.isSpaceCh (slice l a b) := by
        intro a b
        exact strip_congr (fun c hcm => hsub c (List.mem_of_mem_take (List.mem_of_mem_drop hcm)))
      simp only [e]
  · rfl

theorem closing_congr {p q : Parser} (hc : p.cmarkLike = q.cmarkLike) {line : Str} (h : ∀ c ∈ line, p.isSpaceCh c = q.isSpaceCh c) (f : Str) (d : Bool) :
    isClosingCodeFence line f d p = isClosingCodeFence line f d q := by
  have e : rstrip (fun c => p.isSpaceCh c || c == '\n') (lstrip (· == ' ') line) = rstrip (fun c => q.isSpaceCh c || c == '\n') (lstrip (· == ' ') line) := by
    refine rstrip_congr (fun c hcm => ?_)
    rw [h c ((List.dropWhile_sublist _).subset hcm)]
  unfold isClosingCodeFence
  simp only [hc, e]

theorem atxCmark_congr {p q : Parser} {l : Str} (h : ∀ c ∈ l, p.isSpaceCh c = q.isSpaceCh c) (keep : Int) (nl vis : Bool) :
    atxCmark p keep nl vis l = atxCmark q keep nl vis l := by
  have e1 : ∀ i, badAfterHashes p (l.drop i) = badAfterHashes q (l.drop i) := by
    intro i
    cases hd : l.drop i with
    | nil => rfl
    | cons a t =>
      have ha := h a (List.mem_of_mem_drop (by rw [hd]; simp))
      unfold badAfterHashes
      simp only [ha]
  have e2 : ∀ i, scanWhile (fun _ c => p.isSpaceCh c) (l.drop i) i = scanWhile (fun _ c => q.isSpaceCh c) (l.drop i) i :=
    fun i => scanWhile_congr i (fun c hc => h c (List.mem_of_mem_drop hc))
  have e3 : ∀ i, atxContent p l i = atxContent q l i := by
    intro i
    unfold atxContent
    have e := closingLoop_congr (P := p.isSpaceCh) (Q := q.isSpaceCh) (rev := l.reverse) (fun c hc => h c (by simpa using hc)) l.length i
    simp only [e]
  unfold atxCmark
  simp only [e1, e2, e3]

theorem crlfToLf_sub : ∀ (s : Str), ∀ c ∈ crlfToLf s, c ∈ s := by
  intro s
  induction s using crlfToLf.induct with
  | case1 => intro c hc; exact hc
  | case2 a => intro c hc; exact hc
  | case3 a b t h ih =>
    intro c hc
    unfold crlfToLf at hc
    rw [if_pos h] at hc
    rcases List.mem_cons.mp hc with rfl | hc
    · simp [h.2]
    · simp [ih c hc]
  | case4 a b t h ih =>
    intro c hc
    unfold crlfToLf at hc
    rw [if_neg h] at hc
    rcases List.mem_cons.mp hc with rfl | hc
    · simp
    · exact List.mem_cons_of_mem _ (ih c hc)

theorem universal_sub (s : Str) : ∀ c ∈ universalNewlines s, c = '\n' ∨ c ∈ s := by
  intro c hc
  unfold universalNewlines replaceChar at hc
  obtain ⟨d, hd, rfl⟩ := List.mem_map.mp hc
  by_cases e : d = '\r'
  · simp [e]
  · rw [if_neg e]; exact .inr (crlfToLf_sub s d hd)

theorem subline_sub (line : Str) : ∀ l ∈ replaceAndSplitNewlines line, ∀ c ∈ l, c = '\n' ∨ c ∈ line := by
  intro l hl c hc
  have := splitNl_mem_sub _ l hl c hc
  unfold rstrip lstrip at this
  have := (List.dropWhile_sublist _).subset (List.mem_reverse.mp this)
  have := (List.dropWhile_sublist _).subset (List.mem_reverse.mp this)
  exact universal_sub line c this

theorem linesKeep_sub : ∀ (s : Str), ∀ l ∈ linesKeep s, ∀ c ∈ l, c ∈ s := by
  intro s
  induction s with
  | nil => intro l hl; simp [linesKeep] at hl
  | cons a t ih =>
    intro l hl c hc
    unfold linesKeep at hl
    split at hl
    · rcases List.mem_cons.mp hl with rfl | hl
      · simp_all
      · exact List.mem_cons_of_mem _ (ih l hl c hc)
    · split at hl
      · rename_i h; simp only [List.mem_singleton] at hl; subst hl; simp_all
      · rename_i h r heq
        rcases List.mem_cons.mp hl with rfl | hl
        · rcases List.mem_cons.mp hc with rfl | hc
          · simp
          · exact List.mem_cons_of_mem _ (ih h (by rw [heq]; simp) c hc)
        · exact List.mem_cons_of_mem _ (ih l (by rw [heq]; simp [hl]) c hc)

theorem atx_congr {p q : Parser} (hc : p.cmarkLike = q.cmarkLike) {line : Str} (h : ∀ c ∈ line, p.isSpaceCh c = q.isSpaceCh c) (keep : Int) (nl : Bool) :
    getAtxHeading line keep p nl = getAtxHeading line keep q nl := by
  have hnl : p.isSpaceCh '\n' = q.isSpaceCh '\n' := by cases p <;> cases q <;> rfl
  have hs : ∀ (ls : List Str), (∀ l ∈ ls, ∀ c ∈ l, p.isSpaceCh c = q.isSpaceCh c) → ∀ vis, atxSublines p keep nl vis ls = atxSublines q keep nl vis ls := by
    intro ls
    induction ls with
    | nil => intro _ _; rfl
    | cons l ls ih =>
      intro hl vis
      have e : atxSubline p keep nl vis l = atxSubline q keep nl vis l := by
        unfold atxSubline
        rw [hc, atxCmark_congr (hl l (by simp))]
      unfold atxSublines
      rw [e]
      simp only [ih (fun x hx => hl x (by simp [hx]))]
  unfold getAtxHeading
  rw [hs]
  intro l hl c hcm
  rcases subline_sub line l hl c hcm with rfl | h'
  · exact hnl
  · exact h c h'

theorem anchors_congr {E : Env} {p q : Parser} (hc : p.cmarkLike = q.cmarkLike) : ∀ {rs : List AtxElem}, (∀ r ∈ rs, ∀ t, r.text = some t → baseAnchor E t p = baseAnchor E t q) →
    ∀ dup, headersOf E p rs dup = headersOf E q rs dup := by
  intro rs
  induction rs with
  | nil => intro _ _; rfl
  | cons r rs ih =>
    intro h dup
    have ih' := ih (fun x hx => h x (by simp [hx]))
    unfold headersOf
    cases hty : r.headerType with
    | none => simp only [ih']
    | some ty =>
      cases htx : r.text with
      | none => simp only [ih']
      | some txt =>
        have e : buildAnchorLink E txt dup p = buildAnchorLink E txt dup q := by
          unfold buildAnchorLink
          rw [hc, h r (by simp) txt htx]
        simp only [ih', e]

/-- Two parsers with the same rules read every line in the same way. -/
theorem sameLine_rules (E : Env) (keep : Int) (nl : Bool) {p q : Parser} (hc : p.cmarkLike = q.cmarkLike) (hg : p.gfm = q.gfm) (hl : p = .gitlab ↔ q = .gitlab) (line : Str) :
    SameLine E keep nl p q line := by
  have hsp : ∀ c ∈ line, p.isSpaceCh c = q.isSpaceCh c := by
    intro c _
    unfold Parser.isSpaceCh
    rw [hg]
  refine ⟨opening_congr hc hsp, closing_congr hc hsp, fun dup => ?_⟩
  unfold getMdHeader
  rw [atx_congr hc hsp]
  have e : ∀ t, baseAnchor E t p = baseAnchor E t q := by
    intro t
    unfold baseAnchor removeHtmlTags Rx.htmlRegexes
    simp only [hc, hg, hl]
    rfl
  simp only [anchors_congr hc (fun _ _ t _ => e t)]

/-- **C83** -/
theorem C83_github_commonmarker (E : Env) (o : Options) (fn : Str) (src : Source) :
    buildToc E { o with parser := .github } fn (some src) = buildToc E { o with parser := .commonmarker } fn (some src) := by
  rcases toc_same (E := E) (p := .github) (q := .commonmarker) rfl (b := false) (.inl rfl) o fn src (fun l _ => sameLine_rules E _ _ (p := .github) (q := .commonmarker) rfl rfl (by decide) l) with h | ⟨h, _⟩
  · exact h
  · exact absurd h (by decide)

/-- **C83** -/
theorem C83_cmark_goldmark (E : Env) (o : Options) (fn : Str) (src : Source) :
    buildToc E { o with parser := .cmark } fn (some src) = buildToc E { o with parser := .goldmark } fn (some src) ∨
      buildToc E { o with parser := .cmark } fn (some src) = .error .GithubOverflowOrderedListMarker := by
  rcases toc_same (E := E) (p := .cmark) (q := .goldmark) rfl (b := true) (.inr ⟨rfl, rfl⟩) o fn src (fun l _ => sameLine_rules E _ _ (p := .cmark) (q := .goldmark) rfl rfl (by decide) l) with h | ⟨_, h⟩
  · exact .inl h
  · exact .inr h

/-! ### Documents without tabs and tags -/

theorem escape_sub {c : Char} (hc : c ≠ '\\') : ∀ (t d : Str), c ∈ escapeLoop d t → c ∈ d ∨ c ∈ t := by
  intro t
  induction t with
  | nil => intro d h; unfold escapeLoop at h; exact .inl (by simpa using h)
  | cons a t ih =>
    intro d h
    unfold escapeLoop at h
    simp only at h
    split at h
    · split at h
      · rcases ih _ h with h | h
        · rcases List.mem_cons.mp h with rfl | h
          · simp
          · rcases List.mem_cons.mp h with rfl | h
            · exact absurd rfl hc
            · exact .inl h
        · simp [h]
      · rcases ih _ h with h | h
        · rcases List.mem_cons.mp h with rfl | h
          · simp
          · exact .inl h
        · simp [h]
    · rcases ih _ h with h | h
      · rcases List.mem_cons.mp h with rfl | h
        · simp
        · exact .inl h
      · simp [h]

theorem text_sub {c : Char} (h1 : c ≠ '\\') (h2 : c ≠ ' ') {p : Parser} {line : Str} {keep : Int} {nl : Bool} {rs : List AtxElem} (hr : getAtxHeading line keep p nl = .ok rs) (hp : p.cmarkLike = true)
    (hn : c ≠ '\n') : ∀ r ∈ rs, ∀ t, r.text = some t → c ∈ t → c ∈ line := by
  have hcm : ∀ {vis l e v}, atxCmark p keep nl vis l = .ok (e, v) → ∀ t, e.text = some t → c ∈ t → c ∈ l := by
    intro vis l e v h t ht hct
    have hnone : ∀ {x : AtxElem × Bool}, x = (e, v) → x.1 = .none → c ∈ l := by
      intro x hx hx1
      subst hx
      simp only at hx1
      rw [hx1] at ht
      exact absurd ht (by simp [AtxElem.none])
    unfold atxCmark at h
    simp only at h
    split at h
    · exact hnone (Except.ok.inj h) rfl
    split at h
    · exact hnone (Except.ok.inj h) rfl
    split at h
    · exact hnone (Except.ok.inj h) rfl
    split at h
    · exact hnone (Except.ok.inj h) rfl
    generalize hcs : scanWhile (fun _ c => p.isSpaceCh c) _ _ = cs at h
    cases hfl : atxContent p l cs with
    | error e => rw [hfl] at h; exact absurd h (by simp [bind, Except.bind])
    | ok fl =>
      have hsub : c ∈ fl → c ∈ l := by
        intro hm
        unfold atxContent at hfl
        cases hcl : closingLoop p.isSpaceCh l.reverse l.length cs (l.length + 1) (crlfScan (l.reverse.take (l.length - cs)) 0 0) 0 0 (crlfScan (l.reverse.take (l.length - cs)) 0 0) with
        | error e => simp only [hcl, bind, Except.bind] at hfl; exact absurd hfl (by simp)
        | ok n =>
          simp only [hcl, bind, Except.bind] at hfl
          rw [← Except.ok.inj hfl] at hm
          exact List.mem_of_mem_take (List.mem_of_mem_drop hm)
      rw [hfl] at h
      simp only [bind, Except.bind] at h
      cases nl with
      | true =>
        simp only [if_true] at h
        have h := (Prod.mk.inj (Except.ok.inj h)).1
        rw [← h] at ht
        simp only [Option.some.injEq] at ht
        rw [ht] at hsub
        exact hsub hct
      | false =>
        simp only [Bool.false_eq_true, if_false] at h
        cases hlt : linkText fl with
        | error e => rw [hlt] at h; exact absurd h (by simp)
        | ok x =>
          rw [hlt] at h
          have h := (Prod.mk.inj (Except.ok.inj h)).1
          rw [← h] at ht
          simp only [Option.some.injEq] at ht
          subst ht
          unfold linkText at hlt
          simp only at hlt
          have hadd : c ∈ (if fl.length > 0 ∧ fl.getLast? = some '\\' then fl ++ [' '] else fl) → c ∈ l := by
            intro h
            split at h
            · rcases List.mem_append.mp h with h | h
              · exact hsub h
              · exact absurd (List.mem_singleton.mp h) h2
            · exact hsub h
          generalize (if fl.length > 0 ∧ fl.getLast? = some '\\' then fl ++ [' '] else fl) = fl' at hlt hadd
          split at hlt
          · exact absurd hlt (by simp)
          split at hlt
          · exact absurd hlt (by simp)
          rw [← Except.ok.inj hlt] at hct
          rcases escape_sub h1 _ _ hct with h | h
          · exact absurd h (by simp)
          · exact hadd h
  have hs : ∀ (ls : List Str) vis rs, atxSublines p keep nl vis ls = .ok rs → ∀ r ∈ rs, ∀ t, r.text = some t → c ∈ t → ∃ l ∈ ls, c ∈ l := by
    intro ls
    induction ls with
    | nil => intro vis rs h r hr; unfold atxSublines at h; rw [← Except.ok.inj h] at hr; exact absurd hr (by simp)
    | cons l ls ih =>
      intro vis rs h r hr t ht hct
      unfold atxSublines atxSubline at h
      rw [if_pos hp] at h
      cases ha : atxCmark p keep nl vis l with
      | error e => rw [ha] at h; exact absurd h (by simp [bind, Except.bind])
      | ok ev =>
        rw [ha] at h
        simp only [bind, Except.bind] at h
        cases hb : atxSublines p keep nl ev.2 ls with
        | error e => rw [hb] at h; exact absurd h (by simp)
        | ok rs' =>
          rw [hb] at h
          have h := Except.ok.inj h
          rw [← h] at hr
          rcases List.mem_cons.mp hr with rfl | hr
          · exact ⟨l, by simp, hcm ha t ht hct⟩
          · obtain ⟨x, hx, hxc⟩ := ih _ _ hb r hr t ht hct
            exact ⟨x, by simp [hx], hxc⟩
  intro r hrm t ht hct
  unfold getAtxHeading at hr
  split at hr
  · exact absurd hr (by simp)
  split at hr
  · rw [← Except.ok.inj hr, List.mem_singleton] at hrm
    rw [hrm] at ht
    exact absurd ht (by simp [AtxElem.none])
  obtain ⟨l, hl, hlc⟩ := hs _ _ _ hr r hrm t ht hct
  rcases subline_sub line l hl c hlc with h | h
  · exact absurd h hn
  · exact h

/-- Lower case does not make a `<`. -/
def LowerKeeps (E : Env) : Prop := ∀ s, '<' ∈ E.lower s → '<' ∈ s

theorem sameLine_plain {E : Env} (hE : LowerKeeps E) (keep : Int) (nl : Bool) {p q : Parser} (hp : p.cmarkLike = true) (hq : q.cmarkLike = true) (hl : p = .gitlab ↔ q = .gitlab) {line : Str}
    (h1 : '\t' ∉ line) (h2 : '<' ∉ line) : SameLine E keep nl p q line := by
  have hc : p.cmarkLike = q.cmarkLike := by rw [hp, hq]
  have hsp : ∀ c ∈ line, p.isSpaceCh c = q.isSpaceCh c := by
    intro c hc
    have : c ≠ '\t' := fun h => h1 (h ▸ hc)
    unfold Parser.isSpaceCh
    have : (c == '\t') = false := by simpa using this
    rw [this]
    simp
  refine ⟨opening_congr hc hsp, closing_congr hc hsp, fun dup => ?_⟩
  unfold getMdHeader
  rw [atx_congr hc hsp]
  cases hr : getAtxHeading line keep q nl with
  | error e => rfl
  | ok rs =>
    simp only [bind, Except.bind]
    refine anchors_congr hc (fun r hrm t ht => ?_) dup
    have hlt : '<' ∉ E.lower t := fun h => h2 (text_sub (by decide) (by decide) hr hq (by decide) r hrm t ht (hE t h))
    unfold baseAnchor
    simp only [C48_unchanged E p (.inl hlt), C48_unchanged E q (.inl hlt), hl]
    rfl

/-- **C83** -/
theorem C83_plain {E : Env} (hE : LowerKeeps E) (o : Options) (fn : Str) {src : Source} (h1 : '\t' ∉ src.text) (h2 : '<' ∉ src.text) :
    buildToc E { o with parser := .github } fn (some src) = buildToc E { o with parser := .cmark } fn (some src) := by
  have hsub : ∀ l ∈ src.lines, ∀ c ∈ l, c = '\n' ∨ c ∈ src.text := by
    intro l hl c hc
    exact universal_sub _ c (linesKeep_sub _ l hl c hc)
  have hs : ∀ l ∈ src.lines, SameLine E o.keep o.noLinks .github .cmark l := by
    intro l hl
    refine sameLine_plain hE _ _ rfl rfl (by decide) ?_ ?_
    · intro h
      rcases hsub l hl _ h with h | h
      · exact absurd h (by decide)
      · exact h1 h
    · intro h
      rcases hsub l hl _ h with h | h
      · exact absurd h (by decide)
      · exact h2 h
  rcases toc_same (E := E) (p := .github) (q := .cmark) rfl (b := false) (.inl rfl) o fn src hs with h | ⟨h, _⟩
  · exact h
  · exact absurd h (by decide)

/-! ### GitLab: only the anchors are different -/

/-- Both fail with the same exception, or both succeed with related results. -/
def Related {α β : Type} (R : α → β → Prop) : Except Exn α → Except Exn β → Prop
  | .error e, .error e' => e = e'
  | .ok a, .ok b => R a b
  | _, _ => False

theorem Related.bind {α β γ δ : Type} {R : α → β → Prop} {S : γ → δ → Prop} {x : Except Exn α} {y : Except Exn β} (h : Related R x y) {f : α → Except Exn γ} {g : β → Except Exn δ}
    (hf : ∀ a b, R a b → Related S (f a) (g b)) : Related S (x >>= f) (y >>= g) := by
  cases x <;> cases y
  · exact h
  · exact h.elim
  · exact h.elim
  · exact hf _ _ h

theorem Related.refl {α : Type} {R : α → α → Prop} (h : ∀ a, R a a) (x : Except Exn α) : Related R x x := by
  cases x
  · exact rfl
  · exact h _

/-- The entries of two tables: the part up to the anchor, the first anchor, the second anchor. -/
def SameButAnchors (nl : Str) (es : List (Str × Str × Str)) (t u : Str) : Prop :=
  (∀ e ∈ es, ∃ b, e.1 = b ++ "](#".toList) ∧ t = (es.map (fun e => e.1 ++ e.2.1 ++ [')'] ++ nl)).flatten ∧ u = (es.map (fun e => e.1 ++ e.2.2 ++ [')'] ++ nl)).flatten

def HeaderRel (h h' : Header) : Prop := h.headerType = h'.headerType ∧ h.textOriginal = h'.textOriginal ∧ h.visible = h'.visible

def HeadersRel : List (Option Header) → List (Option Header) → Prop
  | [], [] => True
  | none :: t, none :: t' => HeadersRel t t'
  | some h :: t, some h' :: t' => HeaderRel h h' ∧ HeadersRel t t'
  | _, _ => False

def TocRel (noLinks : Bool) (nl : Str) (t u : List Str) : Prop :=
  if noLinks then t = u
  else ∃ es : List (Str × Str × Str), (∀ e ∈ es, ∃ b, e.1 = b ++ "](#".toList) ∧ t = es.map (fun e => e.1 ++ e.2.1 ++ [')'] ++ nl) ∧ u = es.map (fun e => e.1 ++ e.2.2 ++ [')'] ++ nl)

def StateRel (noLinks : Bool) (nl : Str) (st st' : TocState) : Prop :=
  st.counter = st'.counter ∧ st.prev = st'.prev ∧ st.first = st'.first ∧ st.log = st'.log ∧ st.within = st'.within ∧ st.fence = st'.fence ∧ TocRel noLinks nl st.toc st'.toc

theorem base_related (E : Env) (txt : Str) : Related (fun _ _ => True) (baseAnchor E txt .cmark) (baseAnchor E txt .gitlab) := by
  have e : removeEmphasis E (removeHtmlTags E (E.lower txt) .cmark) .cmark = removeEmphasis E (removeHtmlTags E (E.lower txt) .gitlab) .gitlab := rfl
  unfold baseAnchor
  simp only
  rw [e]
  generalize removeEmphasis E (removeHtmlTags E (E.lower txt) .gitlab) .gitlab = x
  cases x
  · exact rfl
  · exact trivial

theorem anchor_related (E : Env) (txt : Str) (dup dup' : Dup) : Related (fun _ _ => True) (buildAnchorLink E txt dup .cmark) (buildAnchorLink E txt dup' .gitlab) := by
  have hb := base_related E txt
  unfold buildAnchorLink
  generalize baseAnchor E txt .cmark = x at hb ⊢
  generalize baseAnchor E txt .gitlab = y at hb ⊢
  by_cases hl : (replaceAndSplitNewlines txt).length > 1
  · rw [if_pos hl, if_pos hl]; exact rfl
  · rw [if_neg hl, if_neg hl, if_pos (show Parser.cmarkLike .cmark = true from rfl), if_pos (show Parser.cmarkLike .gitlab = true from rfl)]
    cases x <;> cases y
    · exact hb
    · exact hb.elim
    · exact hb.elim
    · exact trivial

theorem headers_related {E : Env} : ∀ (rs : List AtxElem) (dup dup' : Dup), Related (fun a b => HeadersRel a.1 b.1) (headersOf E .cmark rs dup) (headersOf E .gitlab rs dup') := by
  intro rs
  induction rs with
  | nil => intro dup dup'; exact trivial
  | cons r rs ih =>
    intro dup dup'
    unfold headersOf
    have hnone : ∀ d d', Related (fun a b => HeadersRel a.1 b.1) (headersOf E .cmark rs d >>= fun x => (.ok (none :: x.1, x.2) : Except Exn (List (Option Header) × Dup)))
        (headersOf E .gitlab rs d' >>= fun x => (.ok (none :: x.1, x.2) : Except Exn (List (Option Header) × Dup))) :=
      fun d d' => Related.bind (ih d d') (fun a b h => h)
    cases hty : r.headerType with
    | none => exact hnone _ _
    | some ty =>
      cases htx : r.text with
      | none => exact hnone _ _
      | some txt =>
        simp only
        refine Related.bind (R := fun _ _ => True) ?_ ?_
        · exact anchor_related E txt dup dup'
        · rintro ⟨a, d⟩ ⟨a', d'⟩ _
          refine Related.bind (ih d d') (fun x y h => ?_)
          exact ⟨⟨rfl, rfl, rfl⟩, h⟩

theorem line_related {h h' : Header} (hh : HeaderRel h h') (ordered nl : Bool) (index : Nat) (marker : Str) (spaces : Nat) (newline : Str) :
    Related (fun a b => ∀ t u, TocRel nl newline t u → TocRel nl newline (t ++ [buildTocLine a spaces ++ newline]) (u ++ [buildTocLine b spaces ++ newline]))
      (buildTocLineNoIndent h ordered nl index .cmark marker) (buildTocLineNoIndent h' ordered nl index .gitlab marker) := by
  obtain ⟨h1, h2, _⟩ := hh
  unfold buildTocLineNoIndent
  rw [h1, h2]
  split
  · exact rfl
  split
  · exact rfl
  show Related _ (if (!markerOk .gitlab ordered marker) = true then _ else _) _
  split
  · exact rfl
  simp only
  intro t u htu
  unfold TocRel at htu ⊢
  cases nl with
  | true =>
    simp only [if_true] at htu ⊢
    rw [htu]
  | false =>
    simp only [Bool.false_eq_true, if_false] at htu ⊢
    obtain ⟨es, hes, rfl, rfl⟩ := htu
    refine ⟨es ++ [(List.replicate spaces ' ' ++ (if ordered then natStr index ++ marker else marker) ++ [' '] ++ ['['] ++ h'.textOriginal ++ "](#".toList, h.anchor, h'.anchor)], ?_, ?_, ?_⟩
    · intro e he
      rcases List.mem_append.mp he with he | he
      · exact hes e he
      · rw [List.mem_singleton.mp he]
        exact ⟨_, rfl⟩
    · simp [buildTocLine]
    · simp [buildTocLine]

theorem addHeader_related (o : Options) {st st' : TocState} (hs : StateRel o.noLinks o.newline st st') {h h' : Header} (hh : HeaderRel h h') :
    Related (StateRel o.noLinks o.newline) (addHeader (withParser o .cmark) st h) (addHeader (withParser o .gitlab) st' h') := by
  obtain ⟨c1, c2, c3, c4, c5, c6, ht⟩ := hs
  have hh' := hh
  obtain ⟨h1, h2, h3⟩ := hh
  have e1 : ∀ p, (withParser o p).effOrdered = o.effOrdered := fun _ => rfl
  have e2 : ∀ p, (withParser o p).constantOrdered = o.constantOrdered := fun _ => rfl
  have e3 : ∀ p, (withParser o p).noIndentation = o.noIndentation := fun _ => rfl
  have e4 : ∀ p, (withParser o p).noLinks = o.noLinks := fun _ => rfl
  have e5 : ∀ p, (withParser o p).newline = o.newline := fun _ => rfl
  have e9 : ∀ p, (withParser o p).parser = p := fun _ => rfl
  have e10 : (withParser o .cmark).effMarker = (withParser o .gitlab).effMarker := rfl
  have e6 : ∀ c, incoherent (withParser o .cmark) st c = incoherent (withParser o .gitlab) st' c := by
    intro c
    unfold incoherent firstFor prevFor
    rw [c2, c3]; rfl
  have e7 : ∀ c, prevFor (withParser o .cmark) st c = prevFor (withParser o .gitlab) st' c := by
    intro c
    unfold prevFor
    rw [c2]; rfl
  have e8 : ∀ c, firstFor (withParser o .cmark) st c = firstFor (withParser o .gitlab) st' c := by
    intro c
    unfold firstFor
    rw [c3]; rfl
  have e11 : ∀ a b c d e f, computeIndent a b .cmark c d e f = computeIndent a b .gitlab c d e f := fun _ _ _ _ _ _ => rfl
  have e12 : ∀ a b c, increaseIndex a b c .cmark = increaseIndex a b c .gitlab := fun _ _ _ => rfl
  have hfin : ∀ (counter : Counter) (index spaces : Nat) (log : Log) (first : Nat),
      Related (StateRel o.noLinks o.newline)
        (buildTocLineNoIndent h o.effOrdered o.noLinks index .cmark (withParser o .gitlab).effMarker >>= fun line => (.ok { st with counter := counter, prev := h'.headerType, first := first, log := log, toc := st.toc ++ [buildTocLine line spaces ++ o.newline] } : Except Exn TocState))
        (buildTocLineNoIndent h' o.effOrdered o.noLinks index .gitlab (withParser o .gitlab).effMarker >>= fun line => (.ok { st' with counter := counter, prev := h'.headerType, first := first, log := log, toc := st'.toc ++ [buildTocLine line spaces ++ o.newline] } : Except Exn TocState)) := by
    intro counter index spaces log first
    refine Related.bind (line_related hh' _ _ _ _ spaces o.newline) (fun a b hab => ?_)
    exact ⟨rfl, rfl, rfl, rfl, c5, c6, hab _ _ ht⟩
  unfold addHeader
  simp only [e1, e2, e3, e4, e5, e9, e10, h1, c1, c2, c3, c4, e6, e7, e8, e11, e12]
  by_cases hx : (o.effOrdered && !o.constantOrdered) = true
  · simp only [hx, if_true]
    refine Related.bind (R := fun a b => a = b) (Related.refl (fun _ => rfl) _) ?_
    rintro counter _ rfl
    by_cases hn : o.noIndentation = true
    · simp only [hn, if_true]
      exact hfin _ _ 0 _ _
    · simp only [hn, Bool.false_eq_true, if_false]
      by_cases hi : incoherent (withParser o .gitlab) st' h'.headerType = true
      · simp only [hi, if_true]; exact rfl
      · simp only [hi, Bool.false_eq_true, if_false]
        refine Related.bind (R := fun a b => a = b) (Related.refl (fun _ => rfl) _) ?_
        rintro log _ rfl
        exact hfin _ _ _ _ _
  · simp only [hx, Bool.false_eq_true, if_false]
    refine Related.bind (R := fun a b => a = b) (Related.refl (fun _ => rfl) (.ok st'.counter)) ?_
    rintro counter _ rfl
    by_cases hn : o.noIndentation = true
    · simp only [hn, if_true]
      exact hfin _ _ 0 _ _
    · simp only [hn, Bool.false_eq_true, if_false]
      by_cases hi : incoherent (withParser o .gitlab) st' h'.headerType = true
      · simp only [hi, if_true]; exact rfl
      · simp only [hi, Bool.false_eq_true, if_false]
        refine Related.bind (R := fun a b => a = b) (Related.refl (fun _ => rfl) _) ?_
        rintro log _ rfl
        exact hfin _ _ _ _ _

theorem tocStep_related {E : Env} (o : Options) {st st' : TocState} (hs : StateRel o.noLinks o.newline st st') (line : Str) (d : Bool) :
    Related (StateRel o.noLinks o.newline) (tocStep E (withParser o .cmark) st line d) (tocStep E (withParser o .gitlab) st' line d) := by
  obtain ⟨c1, c2, c3, c4, c5, c6, ht⟩ := hs
  have e1 : fenceStep (withParser o .cmark).parser st.within st.fence line d = fenceStep (withParser o .gitlab).parser st'.within st'.fence line d := by
    rw [c5, c6]; rfl
  unfold tocStep
  simp only [e1]
  generalize fenceStep (withParser o .gitlab).parser st'.within st'.fence line d = r
  obtain ⟨w, f⟩ := r
  simp only
  split
  · refine Related.bind (R := fun a b => HeadersRel a.1 b.1) ?_ ?_
    · unfold getMdHeader
      refine Related.bind (R := fun a b => a = b) ?_ ?_
      · have e : getAtxHeading line (withParser o .cmark).keep (withParser o .cmark).parser (withParser o .cmark).noLinks = getAtxHeading line (withParser o .gitlab).keep (withParser o .gitlab).parser (withParser o .gitlab).noLinks :=
          atx_congr (p := .cmark) (q := .gitlab) rfl (fun _ _ => rfl) o.keep o.noLinks
        rw [e]
        exact Related.refl (fun _ => rfl) _
      · rintro rs _ rfl
        exact headers_related rs _ _
    · rintro ⟨hs, dup⟩ ⟨hs', dup'⟩ hh
      simp only at hh ⊢
      match hs, hs', hh with
      | [], [], _ => exact ⟨c1, c2, c3, c4, rfl, rfl, ht⟩
      | none :: _, none :: _, _ => exact ⟨c1, c2, c3, c4, rfl, rfl, ht⟩
      | some h :: _, some h' :: _, ⟨hr, _⟩ =>
        simp only
        rw [hr.2.2]
        split
        · exact addHeader_related o (st := { st with within := w, fence := f, dup := dup }) (st' := { st' with within := w, fence := f, dup := dup' }) ⟨c1, c2, c3, c4, rfl, rfl, ht⟩ hr
        · exact ⟨c1, c2, c3, c4, rfl, rfl, ht⟩
  · exact ⟨c1, c2, c3, c4, rfl, rfl, ht⟩

/-- The texts are equal, or the same up to anchors. -/
def TextRel (noLinks : Bool) (nl : Str) (t u : Str) : Prop := t = u ∨ (noLinks = false ∧ ∃ es, SameButAnchors nl es t u)

theorem tocLoop_related {E : Env} (o : Options) (fn : Str) (bad : Bool) : ∀ (ls : List Str) {st st' : TocState}, StateRel o.noLinks o.newline st st' →
    Related (TextRel o.noLinks o.newline) (tocLoop E (withParser o .cmark) fn bad ls st) (tocLoop E (withParser o .gitlab) fn bad ls st') := by
  intro ls
  induction ls with
  | nil =>
    intro st st' hs
    unfold tocLoop
    split
    · exact .inl rfl
    · obtain ⟨_, _, _, _, _, _, ht⟩ := hs
      unfold TocRel at ht
      cases hn : o.noLinks with
      | true =>
        rw [hn, if_pos rfl] at ht
        exact .inl (by rw [ht])
      | false =>
        rw [hn, if_neg (by decide)] at ht
        obtain ⟨es, h1, h2, h3⟩ := ht
        exact .inr ⟨rfl, es, h1, by rw [h2], by rw [h3]⟩
  | cons l ls ih =>
    intro st st' hs
    unfold tocLoop
    split
    · exact .inl rfl
    · exact Related.bind (tocStep_related o hs l _) (fun a b hab => ih hab)

theorem buildToc_related (E : Env) (o : Options) (fn : Str) (src : Source) :
    Related (TextRel o.noLinks o.newline) (buildToc E { o with parser := .cmark } fn (some src)) (buildToc E { o with parser := .gitlab } fn (some src)) := by
  unfold buildToc
  show Related _ (if ¬ o.skipLines ≥ 0 then _ else _) (if ¬ o.skipLines ≥ 0 then _ else _)
  split
  · exact rfl
  · simp only
    split
    · exact rfl
    · refine tocLoop_related o fn _ _ ⟨rfl, rfl, rfl, rfl, rfl, rfl, ?_⟩
      unfold TocRel
      split
      · rfl
      · exact ⟨[], by simp, rfl, rfl⟩

/-- **C83** -/
theorem C83_gitlab_text (E : Env) (o : Options) (fn : Str) (src : Source) (h : o.noLinks = true) :
    buildToc E { o with parser := .cmark } fn (some src) = buildToc E { o with parser := .gitlab } fn (some src) := by
  have := buildToc_related E o fn src
  revert this
  generalize buildToc E { o with parser := .cmark } fn (some src) = x
  generalize buildToc E { o with parser := .gitlab } fn (some src) = y
  intro this
  cases x <;> cases y
  · exact congrArg _ this
  · exact this.elim
  · exact this.elim
  · rcases this with h' | ⟨h', _⟩
    · exact congrArg _ h'
    · exact absurd (h.symm.trans h') (by decide)

/-- **C83** -/
theorem C83_gitlab_links (E : Env) (o : Options) (fn : Str) (src : Source) :
    buildToc E { o with parser := .cmark } fn (some src) = buildToc E { o with parser := .gitlab } fn (some src) ∨
      ∃ t u es, buildToc E { o with parser := .cmark } fn (some src) = .ok t ∧ buildToc E { o with parser := .gitlab } fn (some src) = .ok u ∧ SameButAnchors o.newline es t u := by
  have := buildToc_related E o fn src
  revert this
  generalize buildToc E { o with parser := .cmark } fn (some src) = x
  generalize buildToc E { o with parser := .gitlab } fn (some src) = y
  intro this
  cases x <;> cases y
  · exact .inl (congrArg _ this)
  · exact this.elim
  · exact this.elim
  · rcases this with h | ⟨_, es, h⟩
    · exact .inl (congrArg _ h)
    · exact .inr ⟨_, _, es, rfl, rfl, h⟩

/-! ### Concrete cases -/

theorem asciiLower_lt {c : Char} (e : asciiLower c = '<') : c = '<' := by
  rcases asciiLower_cases c with ⟨h, _⟩ | ⟨_, h⟩
  · exact h.symm.trans e
  · rw [e] at h
    exact absurd h (by decide)

/-- What `str.lower` does in every CPython is enough. -/
theorem lowerKeeps_of_ok {E : Env} (h : LowerOk E) : LowerKeeps E := by
  intro s hs
  have hl := h s
  generalize E.lower s = t at hl hs
  induction hl with
  | nil => exact hs
  | ascii hc _ ih =>
    rcases List.mem_cons.mp hs with e | hs
    · rw [asciiLower_lt e.symm]; simp
    · exact List.mem_cons_of_mem _ (ih hs)
  | other u hc hu hd _ ih =>
    rcases List.mem_append.mp hs with hm | hs
    · rcases hd _ hm with h | ⟨h, _⟩
      · exact absurd h (by decide)
      · exact absurd h (by decide)
    · exact List.mem_cons_of_mem _ (ih hs)

theorem asciiEnv_lowerKeeps : LowerKeeps asciiEnv := by
  intro s h
  obtain ⟨c, hc, e⟩ := List.mem_map.mp (show '<' ∈ s.map asciiLower from h)
  exact asciiLower_lt e ▸ hc

/-- A document on which the parsers fall into the groups above: a tab after the `#`, two hyphens in a row in an anchor. -/
example : [Parser.github, .commonmarker].map (fun p => buildToc asciiEnv { parser := p } ['f'] (some ⟨"# A\n#\tB\n## c - d\n".toList, false⟩)) =
      [.ok "- [A](#a)\n  - [c - d](#c---d)\n".toList, .ok "- [A](#a)\n  - [c - d](#c---d)\n".toList] ∧
    [Parser.cmark, .goldmark].map (fun p => buildToc asciiEnv { parser := p } ['f'] (some ⟨"# A\n#\tB\n## c - d\n".toList, false⟩)) =
      [.ok "- [A](#a)\n- [B](#b)\n  - [c - d](#c---d)\n".toList, .ok "- [A](#a)\n- [B](#b)\n  - [c - d](#c---d)\n".toList] ∧
    buildToc asciiEnv { parser := .gitlab } ['f'] (some ⟨"# A\n#\tB\n## c - d\n".toList, false⟩) = .ok "- [A](#a)\n- [B](#b)\n  - [c - d](#c-d)\n".toList := by decide +kernel

/-- A tag for which the anchors of `github` and of `cmark` are different: without a `<` they are the same. -/
example : buildToc asciiEnv { parser := .github } ['f'] (some ⟨"# <title>a\n".toList, false⟩) = .ok "- [<title>a](#titlea)\n".toList ∧
    buildToc asciiEnv { parser := .cmark } ['f'] (some ⟨"# <title>a\n".toList, false⟩) = .ok "- [<title>a](#a)\n".toList := by decide +kernel

/-- A document for which the hypotheses of `C83_plain` hold: a fence, a skipped level and an exception included. -/
example : buildToc asciiEnv { parser := .github } ['f'] (some ⟨"# a > b\n``` x\n# c\n```\n### d\n".toList, false⟩) = .error .TocDoesNotRenderAsCoherentList ∧
    buildToc asciiEnv { parser := .cmark } ['f'] (some ⟨"# a > b\n``` x\n# c\n```\n### d\n".toList, false⟩) = .error .TocDoesNotRenderAsCoherentList ∧
    '\t' ∉ "# a > b\n``` x\n# c\n```\n### d\n".toList ∧ '<' ∉ "# a > b\n``` x\n# c\n```\n### d\n".toList := by decide +kernel

end MdToc.Props
