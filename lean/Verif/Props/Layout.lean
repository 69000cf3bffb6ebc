import Verif.Spec.Layout
import Verif.Props.Blocks

/-!
# Documents with the same headings: C89, and byte order marks: C90
-/

set_option linter.unusedSimpArgs false

namespace MdToc

open MdToc.Spec

namespace Props

/-! ### The table depends on the headings alone -/

/-- What `build_toc` does with a heading of level `n` and text `c`. -/
def headStep (E : Env) (o : Options) (st : TocState) (x : Nat × Str) : Except Exn TocState := do
  let r ← if o.parser = .redcarpet then .ok ⟨some x.1, some x.2, true⟩
    else (if o.noLinks then .ok x.2 else linkText x.2).map fun t => (⟨some x.1, some t, if (x.1 : Int) > o.keep then false else true⟩ : AtxElem)
  let (hs, dup) ← headersOf E o.parser [r] st.dup
  let st := { st with dup := dup }
  match hs with
  | some h :: _ => if h.visible then addHeader o st h else .ok st
  | _ => .ok st

def headRun (E : Env) (o : Options) : List (Nat × Str) → TocState → Except Exn TocState
  | [], st => .ok st
  | x :: xs, st => headStep E o st x >>= headRun E o xs

/-- How the texts of headings are compared: for redcarpet with the option for links, for the other parsers before the brackets are escaped. -/
def ownLinks (o : Options) : Bool := if o.parser = .redcarpet then o.noLinks else true

theorem hdrStep_heading {E : Env} {o : Options} (hk : o.keep ≥ 1) {l : Str} (hl : IsLine l) {n : Nat} {c : Str} (h : Heading o.parser (ownLinks o) l n c) (st : TocState) :
    hdrStep E o st l = headStep E o st (n, c) := by
  obtain ⟨b, hb, hne, -⟩ := hl.body
  have hnl : ∀ c ∈ b, c ≠ '\n' ∧ c ≠ '\r' := by
    obtain ⟨u, v, -, -, h2⟩ := hb
    exact h2
  obtain ⟨b', rest, c', hb', hh⟩ := h
  rw [body_unique hb' hb] at hh
  unfold hdrStep headStep getMdHeader
  rw [getAtxHeading_body hb hne hk]
  by_cases hp : o.parser = .redcarpet
  · rw [if_pos hp] at hh
    obtain ⟨h1, h2, h3, h4⟩ := hh
    simp only [ownLinks, if_pos hp] at h4
    have hsub : atxSubline o.parser o.keep o.noLinks true b = .ok (atxRedcarpet o.noLinks true b) := by rw [hp]; rfl
    rw [hsub, atxRedcarpet_opening h1 (fun h => (hnl _ h).1 rfl) h2, if_neg h3, ← h4, if_pos hp]
    rfl
  · rw [if_neg hp] at hh
    obtain ⟨h1, h2, h3⟩ := hh
    simp only [ownLinks, if_neg hp, if_true] at h3
    subst h3
    obtain ⟨d, hd, hg⟩ := atxCmark_heading (cmarkLike_of_ne hp) h1 (fun c hc h => h.elim (hnl c hc).1 (hnl c hc).2)
    have g1 : Heading o.parser true l n d := ⟨b, rest, d, hb, by rw [if_neg hp]; exact ⟨h1, hd, rfl⟩⟩
    have g2 : Heading o.parser true l n c := ⟨b, rest, c, hb, by rw [if_neg hp]; exact ⟨h1, h2, rfl⟩⟩
    have hdc : d = c := (heading_unique g1 g2).2
    subst hdc
    rw [atxSubline_cmark (cmarkLike_of_ne hp), hg, if_neg hp]
    cases (if o.noLinks then Except.ok d else linkText d) with
    | error e => rfl
    | ok t => rfl

theorem hdrStep_other_line {E : Env} {o : Options} (hk : o.keep ≥ 1) {l : Str} (hl : IsLine l) (h : ¬ ∃ n c, Heading o.parser (ownLinks o) l n c) (st : TocState) :
    hdrStep E o st l = .ok st := by
  obtain ⟨b, hb, hne, -⟩ := hl.body
  by_cases hp : o.parser = .redcarpet
  · refine hdrStep_not_redcarpet hp hk hb hne ?_ st
    rintro ⟨n, rest, c, h1, h2, h3⟩
    exact h ⟨n, _, b, rest, c, hb, by rw [if_pos hp]; exact ⟨h1, h2, h3, rfl⟩⟩
  · refine hdrStep_not_atx (cmarkLike_of_ne hp) hk hb hne ?_ st
    rintro ⟨n, rest, h1⟩
    have hnl : ∀ c ∈ b, ¬ IsNewline c := by
      obtain ⟨u, v, -, -, h2⟩ := hb
      exact fun c hc h => h.elim (h2 c hc).1 (h2 c hc).2
    obtain ⟨c, hc, -⟩ := atxCmark_heading (cmarkLike_of_ne hp) h1 hnl
    exact h ⟨n, c, b, rest, c, hb, by rw [if_neg hp]; exact ⟨h1, hc, by simp [ownLinks, hp]⟩⟩

theorem hdrRun_headings {E : Env} {o : Options} (hk : o.keep ≥ 1) {vs : List Str} {heads : List (Nat × Str)} (h : Headings o.parser (ownLinks o) vs heads) :
    (∀ l ∈ vs, IsLine l) → ∀ st, hdrRun E o vs st = headRun E o heads st := by
  induction h with
  | nil => intros; rfl
  | other hn _ ih =>
    intro hl st
    rw [hdrRun, hdrStep_other_line hk (hl _ (by simp)) hn]
    exact ih (fun l h => hl l (by simp [h])) st
  | heading hh _ ih =>
    intro hl st
    rw [hdrRun, headRun, hdrStep_heading hk (hl _ (by simp)) hh]
    cases headStep E o st (_, _) with
    | error e => rfl
    | ok st => exact ih (fun l h => hl l (by simp [h])) st

/-- **C89**: two documents with the same headings have the same table, or the same exception. -/
theorem C89_headings (E : Env) {o : Options} (hk : o.keep ≥ 1) {fn fn' text text' : Str} {vs vs' : List Str} (hv : Looks o fn text vs) (hv' : Looks o fn' text' vs')
    (h : ∀ nl, ∃ heads, Headings o.parser nl vs heads ∧ Headings o.parser nl vs' heads) :
    buildToc E o fn (some ⟨text, false⟩) = buildToc E o fn' (some ⟨text', false⟩) := by
  by_cases hs : o.skipLines ≥ 0
  · obtain ⟨heads, h1, h2⟩ := h (ownLinks o)
    have hl := looks_isLine hv
    have hl' := looks_isLine hv'
    obtain ⟨ls, hr, hv⟩ := hv
    obtain ⟨ls', hr', hv'⟩ := hv'
    rw [buildToc_seen hs hr hv, buildToc_seen hs hr' hv', hdrRun_headings hk h1 hl, hdrRun_headings hk h2 hl']
  · rw [C30_negative E o (by omega), C30_negative E o (by omega)]

/-! ### Ways to write a heading -/

theorem append_sp {sp : Char → Bool} : ∀ {x e y b : Str}, x ++ e = y ++ b → (∀ c ∈ e, sp c = true) → (∀ c ∈ b, sp c = true) → (∀ c ∈ x.getLast?, sp c = false) →
    (∀ c ∈ y.getLast?, sp c = false) → x ≠ [] → y ≠ [] → x = y := by
  intro x e y b h he hb hx hy hx0 hy0
  rcases List.append_eq_append_iff.mp h with ⟨a, rfl, rfl⟩ | ⟨a, rfl, rfl⟩
  · cases ha : a.getLast? with
    | none => rw [List.getLast?_eq_none_iff] at ha; simp [ha]
    | some c =>
      have h1 := hy c (by simp [List.getLast?_append, ha])
      have h2 := he c (by simp [List.mem_of_getLast? ha])
      rw [h1] at h2
      simp at h2
  · cases ha : a.getLast? with
    | none => rw [List.getLast?_eq_none_iff] at ha; simp [ha]
    | some c =>
      have h1 := hx c (by simp [List.getLast?_append, ha])
      have h2 := hb c (by simp [List.mem_of_getLast? ha])
      rw [h1] at h2
      simp at h2

theorem ownText_other {sp : Char → Bool} {c : Str} (h : OwnText sp c) : ∃ x ∈ c, x ≠ '#' ∧ sp x = false := by
  obtain ⟨h0, -, h2, -, h4⟩ := h
  by_contra hno
  simp only [not_exists, not_and, Bool.not_eq_false] at hno
  obtain ⟨i, t, e, ht⟩ := replicate_split '#' c.reverse
  have e' : c = t.reverse ++ List.replicate i '#' := by
    have := congrArg List.reverse e
    simpa using this
  by_cases hi : i = 0
  · subst hi
    simp at e'
    subst e'
    cases t with
    | nil => simp at h0
    | cons x t =>
      have h1 := hno x (by simp) (ht x (by simp))
      have := h2 x (by simp)
      rw [this] at h1
      simp at h1
  · obtain ⟨g1, g2⟩ := h4 t.reverse _ e' (by simp [hi]) (fun x hx => List.eq_of_mem_replicate hx)
    cases t with
    | nil => simp at g1
    | cons x t =>
      have h1 := hno x (by rw [e']; simp) (ht x (by simp))
      have := g2 x (by simp)
      rw [this] at h1
      simp at h1

theorem written_text {sp : Char → Bool} {s c e : Str} (hs0 : s ≠ []) (hs : ∀ x ∈ s, sp x = true) (hc : OwnText sp c) (he : Ending sp e) (hh : sp '#' = false) :
    HeadingText sp (s ++ c ++ e) c := by
  constructor
  · rintro ⟨s0, h0, s1, h1, s2, e1, -, -, -, e2, e3⟩
    exfalso
    obtain ⟨x, hx, hx1, hx2⟩ := ownText_other hc
    have : x ∈ s0 ++ h0 ++ s1 ++ h1 ++ s2 := by rw [← e1]; simp [hx]
    simp only [List.mem_append] at this
    rcases this with (((h | h) | h) | h) | h
    · have := e3 x (by simp [h]); rw [hx2] at this; simp at this
    · exact hx1 (e2 x (by simp [h]))
    · have := e3 x (by simp [h]); rw [hx2] at this; simp at this
    · exact hx1 (e2 x (by simp [h]))
    · have := e3 x (by simp [h]); rw [hx2] at this; simp at this
  · intro _
    obtain ⟨c0, c1, c2, -, c4⟩ := hc
    rcases he with he | ⟨u, h, v, rfl, hu, h0, huv, hh'⟩
    · refine .inr ⟨?_, s, e, rfl, hs, he, c1, c2⟩
      rintro ⟨a, h, b, e1, h0, hh', hb, x, hx, hx'⟩
      have e2 : s ++ c = a ++ h := by
        refine append_sp (sp := sp) e1 he hb ?_ ?_ (by simp [c0]) (by simp [h0])
        · intro y hy
          rw [List.getLast?_append_of_ne_nil _ c0] at hy
          exact c2 y hy
        · intro y hy
          rw [List.getLast?_append_of_ne_nil _ h0] at hy
          rw [hh' y (List.mem_of_getLast? hy)]
          exact hh
      rcases List.append_eq_append_iff.mp e2 with ⟨a', rfl, rfl⟩ | ⟨c', rfl, rfl⟩
      · obtain ⟨g1, g2⟩ := c4 a' h rfl h0 hh'
        rw [List.getLast?_append_of_ne_nil _ g1] at hx
        rw [g2 x hx] at hx'
        simp at hx'
      · exact (c4 [] c rfl c0 (fun x hx => hh' x (by simp [hx]))).1 rfl
    · refine .inl ⟨s ++ c ++ u, ⟨h, v, by simp, h0, hh', fun x hx => huv x (by simp [hx]), ?_⟩, s, u, by simp, hs, fun x hx => huv x (by simp [hx]), c1, c2⟩
      rw [List.getLast?_append_of_ne_nil _ hu]
      cases hl : u.getLast? with
      | none => rw [List.getLast?_eq_none_iff] at hl; exact absurd hl hu
      | some x => exact ⟨x, rfl, huv x (by simp [List.mem_of_getLast? hl])⟩

theorem atxSpace_not {p : Parser} : atxSpace p '#' = false ∧ atxSpace p '\n' = false ∧ atxSpace p '\r' = false := by
  cases p <;> decide

/-- **C89**: each way to write a heading gives the same level and the same text. -/
theorem C89_written {p : Parser} (hp : p ≠ .redcarpet) {n : Nat} (h1 : 1 ≤ n) (h6 : n ≤ 6) {c l : Str} (hc : OwnText (atxSpace p) c) (hl : Written (atxSpace p) n c l) (nl : Bool) :
    Heading p nl l n (if nl then c else label c) := by
  obtain ⟨k, s, e, f, hk, hs0, hs, he, hf, rfl⟩ := hl
  obtain ⟨n1, n2, n3⟩ := atxSpace_not (p := p)
  refine ⟨List.replicate k ' ' ++ List.replicate n '#' ++ (s ++ c ++ e), s ++ c ++ e, c, ⟨[], f, by simp, ?_, ?_⟩, ?_⟩
  · rcases hf with rfl | rfl <;> simp
  · have sp : ∀ x, atxSpace p x = true → x ≠ '\n' ∧ x ≠ '\r' := by
      intro x hx
      constructor
      · rintro rfl; rw [n2] at hx; simp at hx
      · rintro rfl; rw [n3] at hx; simp at hx
    intro x hx
    simp only [List.mem_append] at hx
    rcases hx with (hx | hx) | (hx | hx) | hx
    · rw [List.eq_of_mem_replicate hx]; decide
    · rw [List.eq_of_mem_replicate hx]; decide
    · exact sp x (hs x hx)
    · exact hc.2.2.2.1 x hx
    · rcases he with he | ⟨u, h, v, rfl, -, -, huv, hh'⟩
      · exact sp x (he x hx)
      · simp only [List.mem_append] at hx
        rcases hx with (hx | hx) | hx
        · exact sp x (huv x (by simp [hx]))
        · rw [hh' x hx]; decide
        · exact sp x (huv x (by simp [hx]))
  · rw [if_neg hp]
    refine ⟨⟨k, hk, h1, h6, rfl, ?_⟩, written_text hs0 hs hc he n1, rfl⟩
    intro x hx
    cases s with
    | nil => exact absurd rfl hs0
    | cons y s =>
      simp at hx
      subst hx
      exact hs y (by simp)

/-- **C89** for redcarpet. -/
theorem C89_written_redcarpet {n : Nat} (h1 : 1 ≤ n) (h6 : n ≤ 6) {c l : Str} (hc0 : c ≠ []) (hc1 : ∀ x ∈ c.head?, x ≠ ' ') (hc2 : ∀ x ∈ c.getLast?, x ≠ ' ' ∧ x ≠ '#' ∧ x ≠ '\\')
    (hc3 : ∀ x ∈ c, x ≠ '\n' ∧ x ≠ '\r') (hl : WrittenRedcarpet n c l) (nl : Bool) : Heading .redcarpet nl l n c := by
  obtain ⟨k, j, i, f, hf, rfl⟩ := hl
  refine ⟨List.replicate n '#' ++ (List.replicate (k + 1) ' ' ++ c ++ List.replicate j ' ' ++ List.replicate i '#'),
    List.replicate (k + 1) ' ' ++ c ++ List.replicate j ' ' ++ List.replicate i '#', c, ⟨[], f, by simp, ?_, ?_⟩, ?_⟩
  · rcases hf with rfl | rfl <;> simp
  · intro x hx
    simp only [List.mem_append] at hx
    rcases hx with hx | ((hx | hx) | hx) | hx
    · rw [List.eq_of_mem_replicate hx]; decide
    · rw [List.eq_of_mem_replicate hx]; decide
    · exact hc3 x hx
    · rw [List.eq_of_mem_replicate hx]; decide
    · rw [List.eq_of_mem_replicate hx]; decide
  · rw [if_pos rfl]
    have lastj : ∀ x ∈ (c ++ List.replicate j ' ').getLast?, x ≠ '#' ∧ x ≠ '\\' := by
      intro x hx
      by_cases hj : j = 0
      · subst hj
        simp at hx
        exact (hc2 x hx).2
      · rw [List.getLast?_append_of_ne_nil _ (by simp [hj])] at hx
        rw [List.eq_of_mem_replicate (List.mem_of_getLast? hx)]
        decide
    refine ⟨⟨h1, h6, rfl, ?_⟩, ⟨_, _, _, rfl, ?_, fun x hx => List.eq_of_mem_replicate hx, fun x hx => (lastj x hx).1, fun x hx => (hc2 x hx).1, ?_⟩, hc0, ?_⟩
    · simp [List.replicate_succ]
    · intro x hx
      rcases List.mem_append.mp hx with hx | hx <;> exact List.eq_of_mem_replicate hx
    · cases c with
      | nil => exact absurd rfl hc0
      | cons y c => simpa using hc1
    · rw [if_neg]
      rintro ⟨-, hlast⟩
      rw [← List.append_assoc] at hlast
      by_cases hi : i = 0
      · subst hi
        simp only [List.replicate_zero, List.append_nil] at hlast
        rw [List.append_assoc (List.replicate (k + 1) ' '), ← List.append_assoc, List.getLast?_append_of_ne_nil _ (by simp [hc0])] at hlast
        exact (lastj _ hlast).2 rfl
      · rw [List.getLast?_append_of_ne_nil _ (by simp [hi])] at hlast
        exact absurd (List.eq_of_mem_replicate (List.mem_of_getLast? hlast)) (by decide)

theorem heading_not_opens {p : Parser} {nl : Bool} {l : Str} {n : Nat} {t : Str} (hp : p ≠ .redcarpet) (h : Heading p nl l n t) : ¬ ∃ c n, OpensWith l c n := by
  obtain ⟨b, rest, c, hb, hh⟩ := h
  rw [if_neg hp] at hh
  refine not_opens hb fun d hd => ?_
  rw [← first_unique (first_atx hh.1) hd]
  unfold IsFenceChar
  decide

theorem looks_replace {o : Options} {fn text text' : Str} {pre post : List Str} {l l' : Str} (hr : Reads text (pre ++ l :: post)) (hr' : Reads text' (pre ++ l' :: post))
    (hpre : o.skipLines.toNat ≤ pre.length) (hout : o.parser ≠ .redcarpet → Outside o.parser (pre.drop o.skipLines.toNat) ∧ (¬ ∃ c n, OpensWith l c n) ∧ ¬ ∃ c n, OpensWith l' c n) :
    ∃ a b, Looks o fn text (a ++ l :: b) ∧ Looks o fn text' (a ++ l' :: b) := by
  by_cases hp : o.parser = .redcarpet
  · refine ⟨pre.drop o.skipLines.toNat, post, ⟨_, hr, ?_⟩, ⟨_, hr', ?_⟩⟩ <;> rw [SeenLines, if_pos hp, List.drop_append_of_le_length hpre]
  · obtain ⟨h1, h2, h3⟩ := hout hp
    obtain ⟨va, h⟩ := seen_of_outside h1 (decide (fn ≠ "-".toList))
    obtain ⟨vb, hb⟩ := seen_exists o.parser (decide (fn ≠ "-".toList)) post
    refine ⟨va, vb, ⟨_, hr, ?_⟩, ⟨_, hr', ?_⟩⟩ <;> rw [SeenLines, if_neg hp, List.drop_append_of_le_length hpre]
    · exact h _ _ (.line h2 hb)
    · exact h _ _ (.line h3 hb)

/-- **C89**: a line of a document, outside of code blocks, may be replaced by another one that is the same heading.  If the line is skipped or if the list of lines before it ends within a code block, this is not claimed. -/
theorem C89_replace (E : Env) {o : Options} (hk : o.keep ≥ 1) {fn text text' : Str} {pre post : List Str} {l l' : Str} (hr : Reads text (pre ++ l :: post))
    (hr' : Reads text' (pre ++ l' :: post)) (hout : o.parser ≠ .redcarpet → Outside o.parser (pre.drop o.skipLines.toNat))
    (h : ∀ nl, ∃ n t, Heading o.parser nl l n t ∧ Heading o.parser nl l' n t) :
    buildToc E o fn (some ⟨text, false⟩) = buildToc E o fn (some ⟨text', false⟩) := by
  by_cases hs : o.skipLines ≥ 0
  · by_cases hpre : o.skipLines.toNat ≤ pre.length
    · obtain ⟨n, t, h1, h2⟩ := h true
      obtain ⟨a, b, hv, hv'⟩ := looks_replace (fn := fn) hr hr' hpre (fun hp => ⟨hout hp, heading_not_opens hp h1, heading_not_opens hp h2⟩)
      refine C89_headings E hk hv hv' fun nl => ?_
      obtain ⟨n, t, h1, h2⟩ := h nl
      obtain ⟨x, hx⟩ := headings_exists o.parser nl a
      obtain ⟨y, hy⟩ := headings_exists o.parser nl b
      exact ⟨x ++ (n, t) :: y, headings_append hx (.heading h1 hy), headings_append hx (.heading h2 hy)⟩
    · rw [buildToc_lines E hs fn hr, buildToc_lines E hs fn hr']
      obtain ⟨d, hd⟩ : ∃ d, o.skipLines.toNat = pre.length + (d + 1) := ⟨o.skipLines.toNat - pre.length - 1, by omega⟩
      rw [hd, List.drop_append, List.drop_append]
      simp
  · rw [C30_negative E o (by omega), C30_negative E o (by omega)]

/-- **C89**: outside of code blocks, a heading may be replaced by another way to write it. -/
theorem C89_layout (E : Env) {o : Options} (hp : o.parser ≠ .redcarpet) (hk : o.keep ≥ 1) {fn text text' : Str} {pre post : List Str} {l l' : Str}
    (hr : Reads text (pre ++ l :: post)) (hr' : Reads text' (pre ++ l' :: post)) (hout : Outside o.parser (pre.drop o.skipLines.toNat)) {n : Nat} (h1 : 1 ≤ n) (h6 : n ≤ 6) {c : Str}
    (hc : OwnText (atxSpace o.parser) c) (hl : Written (atxSpace o.parser) n c l) (hl' : Written (atxSpace o.parser) n c l') :
    buildToc E o fn (some ⟨text, false⟩) = buildToc E o fn (some ⟨text', false⟩) :=
  C89_replace E hk hr hr' (fun _ => hout) fun nl => ⟨n, _, C89_written hp h1 h6 hc hl nl, C89_written hp h1 h6 hc hl' nl⟩

/-- **C89** for redcarpet. -/
theorem C89_layout_redcarpet (E : Env) {o : Options} (hp : o.parser = .redcarpet) (hk : o.keep ≥ 1) {fn text text' : Str} {pre post : List Str} {l l' : Str}
    (hr : Reads text (pre ++ l :: post)) (hr' : Reads text' (pre ++ l' :: post)) {n : Nat} (h1 : 1 ≤ n) (h6 : n ≤ 6) {c : Str} (hc0 : c ≠ [])
    (hc1 : ∀ x ∈ c.head?, x ≠ ' ') (hc2 : ∀ x ∈ c.getLast?, x ≠ ' ' ∧ x ≠ '#' ∧ x ≠ '\\') (hc3 : ∀ x ∈ c, x ≠ '\n' ∧ x ≠ '\r')
    (hl : WrittenRedcarpet n c l) (hl' : WrittenRedcarpet n c l') : buildToc E o fn (some ⟨text, false⟩) = buildToc E o fn (some ⟨text', false⟩) := by
  refine C89_replace E hk hr hr' (fun h => absurd hp h) fun nl => ⟨n, c, ?_, ?_⟩ <;> rw [hp]
  · exact C89_written_redcarpet h1 h6 hc0 hc1 hc2 hc3 hl nl
  · exact C89_written_redcarpet h1 h6 hc0 hc1 hc2 hc3 hl' nl

/-! ### Byte order marks -/

/-- The byte order mark, which `open` does not remove. -/
def bom : Char := Char.ofNat 0xFEFF

theorem reads_bom {text l : Str} {ls : List Str} (h : Reads text (l :: ls)) : Reads (bom :: text) ((bom :: l) :: ls) := by
  have hb : ¬ IsNewline bom := by unfold IsNewline; decide
  generalize hx : l :: ls = x at h
  cases h with
  | nil => simp at hx
  | last h0 hn =>
    obtain ⟨rfl, rfl⟩ := List.cons.inj hx
    exact .last (by simp) (by intro c hc; rcases List.mem_cons.mp hc with rfl | hc; exacts [hb, hn c hc])
  | @line b eol t ls' hn he ht =>
    obtain ⟨rfl, rfl⟩ := List.cons.inj hx
    have := Reads.line (b := bom :: b) (by intro c hc; rcases List.mem_cons.mp hc with rfl | hc; exacts [hb, hn c hc]) he ht
    simpa using this

theorem bom_not_opens (l : Str) : ¬ ∃ c n, OpensWith (bom :: l) c n := by
  refine not_opening_start ?_
  rintro c hc
  injection hc with hc
  subst hc
  unfold IsFenceChar
  decide

theorem bom_not_heading {p : Parser} {nl : Bool} (l : Str) : ¬ ∃ n t, Heading p nl (bom :: l) n t := by
  rintro ⟨n, t, b, rest, c, hb, hh⟩
  have hhead : b.head? = some bom := by
    obtain ⟨u, v, e, h1, h2⟩ := hb
    cases u with
    | nil =>
      cases b with
      | nil =>
        have : bom ∈ v := by simp at e; rw [← e]; simp
        exact absurd (h1 bom (by simp [this])) (by decide)
      | cons x b => simp at e; simp [e.1]
    | cons x u =>
      simp at e
      have := h1 x (by simp)
      rw [← e.1] at this
      exact absurd this (by decide)
  by_cases hp : p = .redcarpet
  · rw [if_pos hp] at hh
    obtain ⟨⟨h1, -, e, -⟩, -⟩ := hh
    obtain ⟨m, rfl⟩ : ∃ m, n = m + 1 := ⟨n - 1, by omega⟩
    rw [e] at hhead
    simp [List.replicate_succ] at hhead
    exact absurd hhead (by decide)
  · rw [if_neg hp] at hh
    obtain ⟨⟨k, -, h1, -, e, -⟩, -⟩ := hh
    obtain ⟨m, rfl⟩ : ∃ m, n = m + 1 := ⟨n - 1, by omega⟩
    rw [e] at hhead
    cases k with
    | zero =>
      simp [List.replicate_succ] at hhead
      exact absurd hhead (by decide)
    | succ k =>
      simp [List.replicate_succ] at hhead
      exact absurd hhead (by decide)

/-- **C90**: a byte order mark hides the first line: the table is the one of the document without this line. -/
theorem C90_exact (E : Env) {o : Options} (hk : o.keep ≥ 1) (hs : o.skipLines = 0) {fn text : Str} {l : Str} {ls : List Str} (h : Reads text (l :: ls)) :
    buildToc E o fn (some ⟨bom :: text, false⟩) = buildToc E o fn (some ⟨ls.flatten, false⟩) := by
  have hr := reads_bom h
  have hr' : Reads ls.flatten ls := by simpa using C30_drop h 1
  obtain ⟨vs, hvs⟩ := seenLines_exists o.parser (decide (fn ≠ "-".toList)) ls
  have hv' : Looks o fn ls.flatten vs := ⟨ls, hr', by rw [hs]; exact hvs⟩
  have hv : Looks o fn (bom :: text) ((bom :: l) :: vs) := by
    refine ⟨_, hr, ?_⟩
    rw [hs]
    show SeenLines _ _ ((bom :: l) :: ls) _
    by_cases hp : o.parser = .redcarpet
    · rw [SeenLines, if_pos hp] at hvs ⊢
      rw [hvs]
    · rw [SeenLines, if_neg hp] at hvs ⊢
      exact .line (bom_not_opens l) hvs
  refine C89_headings E hk hv hv' fun nl => ?_
  obtain ⟨x, hx⟩ := headings_exists o.parser nl vs
  exact ⟨x, .other (bom_not_heading l) hx, hx⟩

/-- **C90**: a byte order mark does no harm if the first line neither is a heading nor opens a code block, or if it is skipped.

Missing: documents that begin with a heading or a code block (`C90_violation`). -/
theorem C90_partial (E : Env) {o : Options} (hk : o.keep ≥ 1) {fn text : Str} {l : Str} {ls : List Str} (h : Reads text (l :: ls))
    (hl : o.skipLines = 0 → (¬ ∃ n t, Heading o.parser o.noLinks l n t) ∧ (o.parser ≠ .redcarpet → ¬ ∃ c n, OpensWith l c n)) :
    buildToc E o fn (some ⟨bom :: text, false⟩) = buildToc E o fn (some ⟨text, false⟩) := by
  by_cases hs : o.skipLines ≥ 0
  · by_cases h0 : o.skipLines = 0
    · obtain ⟨h1, h2⟩ := hl h0
      obtain ⟨a, b, hv, hv'⟩ := looks_replace (o := o) (fn := fn) (pre := []) (reads_bom h) h (by simp [h0]) (fun hp => ⟨by simpa using Outside.nil, bom_not_opens l, h2 hp⟩)
      refine C89_headings E hk hv hv' fun nl => ?_
      obtain ⟨x, hx⟩ := headings_exists o.parser nl a
      obtain ⟨y, hy⟩ := headings_exists o.parser nl b
      exact ⟨x ++ y, headings_append hx (.other (bom_not_heading l) hy), headings_append hx (.other (fun h => h1 (heading_any h)) hy)⟩
    · rw [buildToc_lines E hs fn h, buildToc_lines E hs fn (reads_bom h)]
      obtain ⟨d, hd⟩ : ∃ d, o.skipLines.toNat = d + 1 := ⟨o.skipLines.toNat - 1, by omega⟩
      rw [hd]
      rfl
  · rw [C30_negative E o (by omega), C30_negative E o (by omega)]

/-- **C90** is violated by every document that begins with a listed heading: with a byte order mark, the entry of this heading is missing. -/
theorem C90_violation {E : Env} {o : Options} (hs : o.skipLines = 0) {fn text out : Str} {l : Str} {ls : List Str} (h : Reads text (l :: ls))
    (ht : buildToc E o fn (some ⟨text, false⟩) = .ok out) {n : Nat} {t : Str} (hl : Heading o.parser o.noLinks l n t) (hn : listed o.parser o.keep n = true) :
    ∃ heads vs es, Table E o (l :: vs) out es ∧ es.map (fun e => (e.level, e.text)) = (n, t) :: heads ∧
      ∀ out', buildToc E o fn (some ⟨bom :: text, false⟩) = .ok out' → ∃ es', Table E o ((bom :: l) :: vs) out' es' ∧ es'.map (fun e => (e.level, e.text)) = heads := by
  obtain ⟨vs, hvs⟩ := seenLines_exists o.parser (decide (fn ≠ "-".toList)) ls
  obtain ⟨heads, hh⟩ := headings_exists o.parser o.noLinks vs
  have key : ∀ {m : Str} {text : Str}, Reads text (m :: ls) → (o.parser ≠ .redcarpet → ¬ ∃ c n, OpensWith m c n) → Looks o fn text (m :: vs) := by
    intro m text hr hm
    refine ⟨_, hr, ?_⟩
    rw [hs]
    show SeenLines _ _ (m :: ls) _
    by_cases hp : o.parser = .redcarpet
    · rw [SeenLines, if_pos hp] at hvs ⊢
      rw [hvs]
    · rw [SeenLines, if_neg hp] at hvs ⊢
      exact .line (hm hp) hvs
  obtain ⟨hs1, es, st, -, htab⟩ := buildToc_run ht (key h fun hp => heading_not_opens hp hl)
  refine ⟨heads.filter (fun x => listed o.parser o.keep x.1), vs, es, htab, ?_, ?_⟩
  · rw [table_levels htab (.heading hl hh), List.filter_cons, if_pos hn]
  · intro out' ht'
    obtain ⟨hs2, es', st', -, htab'⟩ := buildToc_run ht' (key (reads_bom h) fun _ => bom_not_opens l)
    exact ⟨es', htab', table_levels htab' (.other (bom_not_heading l) hh)⟩

/-! ### The theorems apply -/

/-- `C#` may be written in several ways. -/
example : OwnText (atxSpace .github) "C# and F#".toList ∧ Written (atxSpace .github) 2 "C# and F#".toList "## C# and F#\n".toList ∧
    Written (atxSpace .github) 2 "C# and F#".toList "  ##   C# and F# #####  ".toList := by
  refine ⟨⟨by decide, by decide, by decide, by decide, ?_⟩, ⟨0, [' '], [], ['\n'], by decide, by decide, by decide, .inl (by decide), .inr rfl, by decide⟩,
    ⟨2, "   ".toList, " #####  ".toList, [], by decide, by decide, by decide, .inr ⟨[' '], "#####".toList, "  ".toList, by decide, by decide, by decide, by decide, by decide⟩, .inl rfl, by decide⟩⟩
  intro a h e h0 hh
  have ha : a = "C# and F".toList ∧ h = ['#'] := by
    have e1 : "C# and F".toList ++ ['#'] = a ++ h := e
    rcases List.append_eq_append_iff.mp e1 with ⟨a', rfl, e2⟩ | ⟨c', e2, rfl⟩
    · cases a' with
      | nil => simp at e2; exact ⟨by simp, e2.symm⟩
      | cons x a' => simp at e2; exact absurd e2.2.2 h0
    · cases hc : c'.getLast? with
      | none => rw [List.getLast?_eq_none_iff] at hc; subst hc; simp at e2; exact ⟨e2.symm, rfl⟩
      | some x =>
        have h1 := hh x (by simp [List.mem_of_getLast? hc])
        have h2 := congrArg List.getLast? e2
        rw [List.getLast?_append, hc] at h2
        simp [h1] at h2
  rw [ha.1]
  decide

/-- Documents with the same headings in different clothes. -/
example : buildToc asciiEnv {} "f".toList (some ⟨"# a b\n\ntext\n## c\n".toList, false⟩) = .ok "- [a b](#a-b)\n  - [c](#c)\n".toList ∧
    buildToc asciiEnv {} "f".toList (some ⟨" #   a b  ###\n```\n# d\n```\n   ## c  ".toList, false⟩) = .ok "- [a b](#a-b)\n  - [c](#c)\n".toList := by
  decide +kernel

/-- The hypotheses of `C89_layout` for one of these documents and its last line. -/
example : Reads "# a b\n\ntext\n## c\n".toList (["# a b\n".toList, "\n".toList, "text\n".toList] ++ "## c\n".toList :: []) ∧
    Reads "# a b\n\ntext\n ## c ##".toList (["# a b\n".toList, "\n".toList, "text\n".toList] ++ " ## c ##".toList :: []) ∧
    Outside .github (["# a b\n".toList, "\n".toList, "text\n".toList].drop 0) ∧ OwnText (atxSpace .github) "c".toList ∧
    Written (atxSpace .github) 2 "c".toList "## c\n".toList ∧ Written (atxSpace .github) 2 "c".toList " ## c ##".toList := by
  refine ⟨(reads_iff (bad := false)).mpr (by decide +kernel), (reads_iff (bad := false)).mpr (by decide +kernel), ?_, ⟨by decide, by decide, by decide, by decide, ?_⟩,
    ⟨0, [' '], [], ['\n'], by decide, by decide, by decide, .inl (by decide), .inr rfl, by decide⟩,
    ⟨1, [' '], " ##".toList, [], by decide, by decide, by decide, .inr ⟨[' '], "##".toList, [], by decide, by decide, by decide, by decide, by decide⟩, .inl rfl, by decide⟩⟩
  · have h : ∀ l : Str, (∀ c ∈ l.head?, c ≠ ' ' ∧ c ≠ '`' ∧ c ≠ '~') → ¬ ∃ c n, OpensWith l c n := fun l hl => not_opening_start fun c hc =>
      ⟨(hl c hc).1, fun h => by unfold IsFenceChar at h; exact h.elim (hl c hc).2.1 (hl c hc).2.2⟩
    exact .line (ls := ["# a b\n".toList, "\n".toList]) (.line (ls := ["# a b\n".toList]) (.line (ls := []) .nil (h _ (by simp))) (h _ (by simp))) (h _ (by simp))
  · intro a h e h0 hh
    cases a with
    | nil =>
      simp at e
      subst e
      simp at hh
    | cons x a => simp at e; exact absurd e.2.2 h0

/-- With a byte order mark, the first heading is missing; with an empty line before it, it is not. -/
example : buildToc asciiEnv {} "f".toList (some ⟨"# a\n# b\n".toList, false⟩) = .ok "- [a](#a)\n- [b](#b)\n".toList ∧
    buildToc asciiEnv {} "f".toList (some ⟨bom :: "# a\n# b\n".toList, false⟩) = .ok "- [b](#b)\n".toList ∧
    buildToc asciiEnv {} "f".toList (some ⟨bom :: "\n# a\n# b\n".toList, false⟩) = .ok "- [a](#a)\n- [b](#b)\n".toList := by
  decide +kernel

/-- The hypotheses of `C90_violation` for this document. -/
example : Reads "# a\n# b\n".toList ("# a\n".toList :: ["# b\n".toList]) ∧ Heading .github false "# a\n".toList 1 "a".toList ∧ listed .github 3 1 = true := by
  refine ⟨(reads_iff (bad := false)).mpr (by decide +kernel), ?_, by decide⟩
  have h := C89_written (p := .github) (by decide) (n := 1) (by decide) (by decide) (c := "a".toList) (l := "# a\n".toList) ⟨by decide, by decide, by decide, by decide, ?_⟩
    ⟨0, [' '], [], ['\n'], by decide, by decide, by decide, .inl (by decide), .inr rfl, by decide⟩ false
  · have e : label "a".toList = "a".toList := by decide +kernel
    rw [if_neg (by decide), e] at h
    exact h
  · intro a h e h0 hh
    cases a with
    | nil =>
      simp at e
      subst e
      simp at hh
    | cons x a => simp at e; exact absurd e.2.2 h0

end Props

end MdToc
