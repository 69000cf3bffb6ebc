import Verif.Props.Inline
import Verif.Props.Slug

/-!
# Properties of the removal of inline HTML (C84, C85)
-/

set_option linter.unusedSimpArgs false

namespace MdToc.Props

open MdToc.Spec

/-! ### C84 -/

/-- **C84**: the result is the text without inline HTML, one kind after the other, and nothing else is. -/
theorem C84_exact {E : Env} (hE : E.Lawful) {p : Parser} (hp : p ≠ .redcarpet) (s t : Str) :
    removeHtmlTags E s p = t ↔ HtmlDeleted (p = .github ∨ p = .commonmarker) s t := by
  have h1 := htmlDeleted_of hE (p := p) (by cases p <;> simp_all [Parser.cmarkLike]) s
  rw [gfm_eq] at h1
  exact ⟨fun h => h ▸ h1, fun h => h1.unique h⟩

/-- Inline HTML of any kind. -/
def HtmlAny (g : Prop) (x : Str) : Prop := HtmlOpen g x ∨ HtmlClose g x ∨ HtmlComment x ∨ HtmlInstruction x ∨ HtmlDeclaration g x ∨ HtmlCData x

theorem deleted_length {L : Str → Prop} {s t : Str} (h : Deleted L s t) : t.length ≤ s.length := by
  induction h with
  | nil => exact Nat.le_refl _
  | piece _ _ ih => simp; omega
  | char _ _ ih => simpa using ih

theorem deleted_same {L : Str → Prop} {s : Str} (h : ∀ a x b, s = a ++ x ++ b → ¬ L x) : Deleted L s s := by
  induction s with
  | nil => exact .nil
  | cons c s ih =>
    refine .char (fun x y e => h [] x y e) (ih ?_)
    intro a x b e
    exact h (c :: a) x b (by rw [e]; rfl)

theorem deleted_none {L : Str → Prop} (h0 : ¬ L []) {s t : Str} (h : Deleted L s t) (hl : s.length ≤ t.length) : t = s ∧ ∀ a x b, s = a ++ x ++ b → ¬ L x := by
  induction h with
  | nil =>
    refine ⟨rfl, fun a x b e => ?_⟩
    have : x = [] := by
      have := congrArg List.length e
      simp at this
      exact List.length_eq_zero_iff.mp (by omega)
    rw [this]
    exact h0
  | @piece x s t hx hs ih =>
    have h1 := deleted_length hs
    have : x = [] := by
      simp at hl
      exact List.length_eq_zero_iff.mp (by omega)
    exact absurd (this ▸ hx) h0
  | @char c s t hc hs ih =>
    obtain ⟨rfl, h2⟩ := ih (by simpa using hl)
    refine ⟨rfl, ?_⟩
    intro a x b e
    cases a with
    | nil => exact hc x b e
    | cons d a =>
      injection e with _ e
      exact h2 a x b e

/-- **C84**: a text stays as it is exactly if there is no inline HTML in it. -/
theorem C84_unchanged {E : Env} (hE : E.Lawful) {p : Parser} (hp : p ≠ .redcarpet) (s : Str) :
    removeHtmlTags E s p = s ↔ ∀ a x b, s = a ++ x ++ b → ¬ HtmlAny (p = .github ∨ p = .commonmarker) x := by
  rw [C84_exact hE hp]
  constructor
  · rintro ⟨s1, s2, s3, s4, s5, h1, h2, h3, h4, h5, h6⟩
    obtain ⟨n1, n2, n3, n4, n5, n6⟩ := html_nonempty (p = .github ∨ p = .commonmarker)
    have l1 := deleted_length h1
    have l2 := deleted_length h2
    have l3 := deleted_length h3
    have l4 := deleted_length h4
    have l5 := deleted_length h5
    have l6 := deleted_length h6
    obtain ⟨rfl, e1⟩ := deleted_none n1 h1 (by omega)
    obtain ⟨rfl, e2⟩ := deleted_none n2 h2 (by omega)
    obtain ⟨rfl, e3⟩ := deleted_none n3 h3 (by omega)
    obtain ⟨rfl, e4⟩ := deleted_none n4 h4 (by omega)
    obtain ⟨rfl, e5⟩ := deleted_none n5 h5 (by omega)
    obtain ⟨-, e6⟩ := deleted_none n6 h6 (by omega)
    rintro a x b e (h | h | h | h | h | h)
    · exact e1 a x b e h
    · exact e2 a x b e h
    · exact e3 a x b e h
    · exact e4 a x b e h
    · exact e5 a x b e h
    · exact e6 a x b e h
  · intro h
    exact ⟨s, s, s, s, s, deleted_same (fun a x b e hx => h a x b e (.inl hx)), deleted_same (fun a x b e hx => h a x b e (.inr (.inl hx))),
      deleted_same (fun a x b e hx => h a x b e (.inr (.inr (.inl hx)))), deleted_same (fun a x b e hx => h a x b e (.inr (.inr (.inr (.inl hx))))),
      deleted_same (fun a x b e hx => h a x b e (.inr (.inr (.inr (.inr (.inl hx)))))), deleted_same (fun a x b e hx => h a x b e (.inr (.inr (.inr (.inr (.inr hx))))))⟩

/-- A text that changes, and one that does not. -/
example : removeHtmlTags asciiEnv "a <!-- b --><?c?><!D e><![CDATA[f]]>".toList .cmark = "a ".toList ∧
    removeHtmlTags asciiEnv "a < b <> <1> </> <!> <?".toList .cmark = "a < b <> <1> </> <!> <?".toList := by
  constructor <;> decide +kernel

/-- The order of the kinds matters: a tag in a comment is removed first, so that this comment is none of the library any more, and it stays. -/
example : removeHtmlTags asciiEnv "<!-- a-<b>- -->".toList .cmark = "<!-- a-- -->".toList ∧ removeHtmlTags asciiEnv "<!-- a<b> -->".toList .cmark = [] := by
  constructor <;> decide +kernel

/-! ### C85 -/

/-- A text with one `<`, at its beginning, stays if it does not start with inline HTML. -/
theorem stays {E : Env} (hE : E.Lawful) {p : Parser} (hp : p ≠ .redcarpet) {u : Str} (hu : '<' ∉ u)
    (h : ∀ x b, '<' :: u = x ++ b → ¬ HtmlAny (p = .github ∨ p = .commonmarker) x) : removeHtmlTags E ('<' :: u) p = '<' :: u := by
  rw [C84_unchanged hE hp]
  intro a x b e
  cases a with
  | nil => exact h x b e
  | cons d a =>
    injection e with _ e
    intro hx
    have : ∃ v, x = '<' :: v := by
      rcases hx with hx | hx | hx | hx | hx | hx
      · obtain ⟨c, v, rfl, -⟩ := open_second hx; exact ⟨_, rfl⟩
      · obtain ⟨v, rfl, -⟩ := close_second hx; exact ⟨_, rfl⟩
      · obtain ⟨v, rfl⟩ := comment_second hx; exact ⟨_, rfl⟩
      · obtain ⟨v, rfl⟩ := instruction_second hx; exact ⟨_, rfl⟩
      · obtain ⟨c, v, rfl, -⟩ := declaration_second hx; exact ⟨_, rfl⟩
      · obtain ⟨v, rfl⟩ := cdata_second hx; exact ⟨_, rfl⟩
    obtain ⟨v, rfl⟩ := this
    exact hu (by rw [e]; simp)

theorem goes {E : Env} (hE : E.Lawful) {p : Parser} (hp : p ≠ .redcarpet) {x : Str} (h : RemovedTag p x) : removeHtmlTags E x p = [] := by
  have := C58_tags_removed hE hp (WithoutTags.tag (s := []) (t := []) h .nil)
  simpa using this

/-- A comment of CommonMark that is one of the library. -/
theorem comment_iff {b : Str} (h : CMComment ("<!--".toList ++ b ++ "-->".toList)) :
    HtmlComment ("<!--".toList ++ b ++ "-->".toList) ↔ 2 ≤ b.length ∧ '>' ∉ b.dropLast ∧ ¬ ['-', '>'] <:+ b := by
  obtain ⟨b', e, h1, h2, h3, h4⟩ := h
  have hb : b = b' := by simpa using e
  subst hb
  constructor
  · rintro ⟨u, c, e, hu, hc, h5, h6, h7⟩
    have hb : b = u ++ [c] := by
      rw [List.append_assoc, List.append_assoc] at e
      exact List.append_cancel_right (List.append_cancel_left e)
    subst hb
    refine ⟨?_, by simpa using h5, fun hs => h7 hs.isInfix⟩
    have := List.length_pos_iff.mpr hu
    simp; omega
  · rintro ⟨hl, hd, hs⟩
    rcases List.eq_nil_or_concat b with rfl | ⟨u, c, rfl⟩
    · simp at hl
    · rw [List.concat_eq_append] at *
      refine ⟨u, c, rfl, ?_, ?_, by simpa using hd, fun h => h4 (h.trans (List.prefix_append u [c]).isInfix), ?_⟩
      · rintro rfl; simp at hl
      · rintro rfl; exact h3 (List.suffix_append _ _)
      · intro h
        rw [List.infix_concat_iff] at h
        rcases h with h | h
        · exact hs h
        · exact absurd (h.subset (a := '>') (by simp)) (by simpa using hd)

/-- **C85**: a comment is removed exactly if it has at least two characters, no `>` except at its end, and no `->` there; otherwise it stays. -/
theorem C85_comment {E : Env} (hE : E.Lawful) {p : Parser} (hp : p ≠ .redcarpet) {b : Str} (h : CMComment ("<!--".toList ++ b ++ "-->".toList)) (hb : '<' ∉ b) :
    (removeHtmlTags E ("<!--".toList ++ b ++ "-->".toList) p = [] ↔ 2 ≤ b.length ∧ '>' ∉ b.dropLast ∧ ¬ ['-', '>'] <:+ b) ∧
    (removeHtmlTags E ("<!--".toList ++ b ++ "-->".toList) p = [] ∨ removeHtmlTags E ("<!--".toList ++ b ++ "-->".toList) p = "<!--".toList ++ b ++ "-->".toList) := by
  have hlt : '<' ∉ "!--".toList ++ b ++ "-->".toList := by simp [hb]
  by_cases hc : HtmlComment ("<!--".toList ++ b ++ "-->".toList)
  · have h1 : removeHtmlTags E ("<!--".toList ++ b ++ "-->".toList) p = [] := goes hE hp (.inr (.inr ⟨.inl hc, hlt⟩))
    exact ⟨⟨fun _ => (comment_iff h).mp hc, fun _ => h1⟩, .inl h1⟩
  · have h1 : removeHtmlTags E ("<!--".toList ++ b ++ "-->".toList) p = "<!--".toList ++ b ++ "-->".toList := by
      refine stays hE hp (u := "!--".toList ++ b ++ "-->".toList) hlt ?_
      rintro x y e (hx | hx | hx | hx | hx | hx)
      · obtain ⟨c, v, rfl, hl⟩ := open_second hx
        injection e with _ e; injection e with e _
        subst e
        unfold Letter at hl; revert hl; decide
      · obtain ⟨v, rfl, -⟩ := close_second hx
        injection e with _ e; injection e with e _
        exact absurd e (by decide)
      · obtain ⟨u, c, rfl, hu0, hc', h5, h6, h7⟩ := hx
        obtain ⟨b', e', h1, h2, h3, h4⟩ := h
        have hbb : b = b' := by simpa using e'
        subst hbb
        -- both end at the first `--`
        have e1 : b ++ ("--".toList ++ ['>']) = (u ++ [c]) ++ ("--".toList ++ ('>' :: y)) := by simpa using e
        have key : ∀ {v : Str}, ¬ ['-', '-'] <:+: v → ¬ ['-'] <:+ v → ¬ "--".toList <:+: v ++ "--".toList.dropLast := by
          intro v g1 g2 g
          change ['-', '-'] <:+: v ++ ['-'] at g
          rw [List.infix_concat_iff] at g
          rcases g with ⟨z, hz⟩ | g
          · have e1 : (z ++ ['-']) ++ ['-'] = v ++ ['-'] := by simpa using hz
            exact g2 ⟨z, (List.append_inj' e1 rfl).1⟩
          · exact g1 g
        have hns : ¬ ['-'] <:+ u ++ [c] := by
          rintro ⟨z, hz⟩
          have := (List.append_inj' hz rfl).2
          injection this with this
          exact hc' this.symm
        have hni : ¬ ['-', '-'] <:+: u ++ [c] := by
          intro g
          rw [List.infix_concat_iff] at g
          rcases g with ⟨z, hz⟩ | g
          · have e1 : (z ++ ['-']) ++ ['-'] = u ++ [c] := by simpa using hz
            exact hns ⟨_, e1⟩
          · exact h6 g
        have := first_place (key h4 h3) (key hni hns) e1
        subst this
        exact hc ⟨u, c, rfl, hu0, hc', h5, h6, h7⟩
      · obtain ⟨v, rfl⟩ := instruction_second hx
        injection e with _ e; injection e with e _
        exact absurd e (by decide)
      · obtain ⟨c, v, rfl, hl⟩ := declaration_second hx
        injection e with _ e; injection e with _ e; injection e with e _
        subst e
        unfold Upper at hl; revert hl; decide
      · obtain ⟨v, rfl⟩ := cdata_second hx
        injection e with _ e; injection e with _ e; injection e with e _
        exact absurd e (by decide)
    refine ⟨⟨fun h0 => ?_, fun h0 => absurd ((comment_iff h).mpr h0) hc⟩, .inr h1⟩
    rw [h1] at h0
    simp at h0

theorem gap_space {g : Prop} {b : Str} (h : Gap True b) (hs : ∀ c ∈ b, WhiteSpace c → c = ' ') : Gap g b := by
  obtain ⟨c, t, rfl, -⟩ := Re.gap_head h
  have hw := plain_gap h
  by_cases hg : g
  · exact .inl ⟨hg, by simp, hw⟩
  · exact .inr ⟨hg, .inl ⟨by simp, fun d hd => .inl (hs d hd (hw d hd))⟩⟩

theorem attribute_space {g : Prop} {x : Str} (h : Attribute True x) (hs : ∀ c ∈ x, WhiteSpace c → c = ' ') (h0 : '\x00' ∉ x) : Attribute g x := by
  obtain ⟨b, n, v, rfl, hb, hn, hv⟩ := h
  refine ⟨b, n, v, rfl, gap_space hb (fun c hc => hs c (by simp [hc])), hn, ?_⟩
  rcases hv with rfl | ⟨a, b', v, rfl, ha, hb', hv⟩
  · exact .inl rfl
  · refine .inr ⟨a, b', v, rfl, ha, hb', ?_⟩
    rcases hv with ⟨h1, h2⟩ | h | h
    · refine .inl ⟨h1, fun c hc => ?_⟩
      obtain ⟨u1, u2, u3, u4, u5, u6, u7, -⟩ := h2 c hc
      refine ⟨u1, u2, u3, u4, u5, u6, u7, .inr ⟨fun hw => u1 (hs c (by simp [hc]) hw), ?_⟩⟩
      rintro rfl
      exact h0 (by simp [hc])
    · exact .inr (.inl h)
    · exact .inr (.inr h)

/-- **C85**: the opening tags with no other white space than spaces are removed, for github and commonmarker if the name is not filtered. -/
theorem C85_open_partial {E : Env} (hE : E.Lawful) {p : Parser} (hp : p ≠ .redcarpet) {n x : Str} (h : CMOpen n x) (hr : (p = .github ∨ p = .commonmarker) → ¬ RawName n)
    (hs : ∀ c ∈ x, WhiteSpace c → c = ' ') (h0 : '\x00' ∉ x) : removeHtmlTags E x p = [] := by
  obtain ⟨a, b, e, rfl, hn, ha, hb, he⟩ := h
  refine goes hE hp (.inl ⟨n, a, b, e, rfl, hn, hr, ?_, ?_, he⟩)
  · have hs' : ∀ c ∈ a, WhiteSpace c → c = ' ' := fun c hc => hs c (by simp [hc])
    have h0' : '\x00' ∉ a := fun hm => h0 (by simp [hm])
    clear hs h0
    induction ha with
    | nil => exact .nil
    | @cons x t hx _ ih =>
      exact .cons (attribute_space hx (fun c hc => hs' c (by simp [hc])) (fun hm => h0' (by simp [hm]))) (ih (fun c hc => hs' c (by simp [hc])) (fun hm => h0' (by simp [hm])))
  · by_cases hb0 : b = []
    · exact .inl hb0
    · exact .inr (gap_space (.inl ⟨trivial, hb0, hb⟩) (fun c hc => hs c (by simp [hc])))

/-- **C85**: for github and commonmarker every opening tag with a name that is not filtered is removed. -/
theorem C85_open_github {E : Env} (hE : E.Lawful) {p : Parser} (hp : p = .github ∨ p = .commonmarker) {n x : Str} (h : CMOpen n x) (hr : ¬ RawName n) : removeHtmlTags E x p = [] := by
  obtain ⟨a, b, e, rfl, hn, ha, hb, he⟩ := h
  refine goes hE (by rintro rfl; simp at hp) (.inl ⟨n, a, b, e, rfl, hn, fun _ => hr, ?_, ?_, he⟩)
  · rwa [show (p = .github ∨ p = .commonmarker) = True from eq_true hp]
  · by_cases hb0 : b = []
    · exact .inl hb0
    · exact .inr (.inl ⟨hp, hb0, hb⟩)

/-- **C85**: processing instructions are removed. -/
theorem C85_instruction {E : Env} (hE : E.Lawful) {p : Parser} (hp : p ≠ .redcarpet) {x : Str} (h : HtmlInstruction x) (hx : '<' ∉ x.tail) : removeHtmlTags E x p = [] :=
  goes hE hp (.inr (.inr ⟨.inr (.inl h), hx⟩))

/-- **C85**: a declaration is removed if it has a character behind the name and one white space. -/
theorem C85_declaration_partial {E : Env} (hE : E.Lawful) {p : Parser} (hp : p ≠ .redcarpet) {x : Str} (h : CMDeclaration x) (hx : '<' ∉ x.tail)
    (hl : ∀ n c, x ≠ "<!".toList ++ n ++ [c, '>'] ∨ ¬ WhiteSpace c ∨ ¬ ∀ d ∈ n, Upper d) : removeHtmlTags E x p = [] := by
  refine goes hE hp (.inr (.inr ⟨.inr (.inr (.inl ?_)), hx⟩))
  obtain ⟨n, a, b, rfl, hn0, hn, ha0, ha, hb⟩ := h
  have hgt : '>' ∉ a := by
    intro hm
    have := ha _ hm
    unfold WhiteSpace at this
    revert this; decide
  refine ⟨n, a ++ b, by simp, hn0, hn, by simp [hgt, hb], ?_⟩
  cases a with
  | nil => exact absurd rfl ha0
  | cons c a =>
    have hne : a ++ b ≠ [] := by
      intro h0
      obtain ⟨rfl, rfl⟩ := List.append_eq_nil_iff.mp h0
      rcases hl n c with h | h | h
      · exact h (by simp)
      · exact h (ha c (by simp))
      · exact h hn
    by_cases hg : p = .github ∨ p = .commonmarker
    · exact .inr ⟨hg, c, a ++ b, rfl, ha c (by simp), hne⟩
    · exact .inl ⟨hg, by simp⟩

/-- **C85**: a CDATA section is removed if it is not empty. -/
theorem C85_cdata_partial {E : Env} (hE : E.Lawful) {p : Parser} (hp : p ≠ .redcarpet) {x : Str} (h : CMCData x) (hx : '<' ∉ x.tail) (h0 : x ≠ "<![CDATA[]]>".toList) : removeHtmlTags E x p = [] := by
  obtain ⟨b, rfl, hb⟩ := h
  refine goes hE hp (.inr (.inr ⟨.inr (.inr (.inr ⟨b, rfl, ?_, hb⟩)), hx⟩))
  rintro rfl
  exact h0 rfl

theorem close_exact {E : Env} (hE : E.Lawful) {p : Parser} (hr : p ≠ .redcarpet) {n b : Str} (hn : TagName n) (hb : ∀ c ∈ b, WhiteSpace c) :
    removeHtmlTags E ('<' :: '/' :: n ++ b ++ ['>']) p = [] ↔ ((p = .github ∨ p = .commonmarker) → ¬ RawName n) ∧
      (b = [] ∨ (Gap (p = .github ∨ p = .commonmarker) b ∧ ((p = .github ∨ p = .commonmarker) → b.length = 1))) := by
  have hwn : ∀ c ∈ n, ¬ WhiteSpace c := by
    obtain ⟨c, t, rfl, hc, ht⟩ := hn
    have h1 : ∀ d, (Letter d ∨ Digit d ∨ d = '-') → ¬ WhiteSpace d := by
      intro d hd hw
      unfold Letter Digit at hd
      unfold WhiteSpace at hw
      rcases hw with rfl | rfl | rfl | rfl | rfl | rfl <;> (revert hd; decide)
    intro d hd
    rcases List.mem_cons.mp hd with rfl | hd
    · exact h1 _ (.inl hc)
    · exact h1 _ (ht d hd)
  have split : ∀ {n n' b b' : Str}, (∀ c ∈ n, ¬ WhiteSpace c) → (∀ c ∈ n', ¬ WhiteSpace c) → (∀ c ∈ b, WhiteSpace c) → (∀ c ∈ b', WhiteSpace c) → n ++ b = n' ++ b' → n = n' ∧ b = b' := by
    intro n n' b b' h1 h2 h3 h4 e
    rcases List.append_eq_append_iff.mp e with ⟨a, rfl, rfl⟩ | ⟨a, rfl, rfl⟩
    · cases a with
      | nil => simp
      | cons d a => exact absurd (h3 d (by simp)) (h2 d (by simp))
    · cases a with
      | nil => simp
      | cons d a => exact absurd (h4 d (by simp)) (h1 d (by simp))
  constructor
  · intro h
    -- nothing can be removed but the whole
    by_contra hcon
    have hlt : '<' ∉ '/' :: n ++ b ++ ['>'] := by
      have h1 : '<' ∉ n := by
        obtain ⟨c, t, rfl, hc, ht⟩ := hn
        intro hm
        rcases List.mem_cons.mp hm with h | h
        · subst h; unfold Letter at hc; revert hc; decide
        · have := ht _ h; unfold Letter Digit at this; revert this; decide
      have h2 : '<' ∉ b := by
        intro hm
        have := hb _ hm
        unfold WhiteSpace at this
        revert this; decide
      simp [h1, h2]
    have := stays hE hr (u := '/' :: n ++ b ++ ['>']) hlt (by
      rintro x y e (hx | hx | hx | hx | hx | hx)
      · obtain ⟨c, v, rfl, hl⟩ := open_second hx
        injection e with _ e; injection e with e _
        subst e
        unfold Letter at hl; revert hl; decide
      · obtain ⟨n', b', rfl, hn', hr', hb'⟩ := hx
        have hgt : ∀ {n b : Str}, TagName n → (∀ c ∈ b, WhiteSpace c) → ¬ ['>'] <:+: (n ++ b) ++ ['>'].dropLast := by
          intro n b hn hb h
          have := h.subset (a := '>') (by simp)
          simp only [List.dropLast_singleton, List.append_nil, List.mem_append] at this
          rcases this with h | h
          · exact (plain_name hn _ h).1 rfl
          · exact (plain_white (hb _ h)).1 rfl
        have hbw : ∀ c ∈ b', WhiteSpace c := by
          rcases hb' with rfl | ⟨hb', -⟩
          · simp
          · exact plain_gap hb'
        have hwn' : ∀ c ∈ n', ¬ WhiteSpace c := by
          obtain ⟨c, t, rfl, hc, ht⟩ := hn'
          have h1 : ∀ d, (Letter d ∨ Digit d ∨ d = '-') → ¬ WhiteSpace d := by
            intro d hd hw
            unfold Letter Digit at hd
            unfold WhiteSpace at hw
            rcases hw with rfl | rfl | rfl | rfl | rfl | rfl <;> (revert hd; decide)
          intro d hd
          rcases List.mem_cons.mp hd with rfl | hd
          · exact h1 _ (.inl hc)
          · exact h1 _ (ht d hd)
        have e1 : (n ++ b) ++ (['>'] ++ []) = (n' ++ b') ++ (['>'] ++ y) := by simpa using e
        have e2 := first_place (hgt hn hb) (hgt hn' hbw) e1
        obtain ⟨rfl, rfl⟩ := split hwn hwn' hb hbw e2
        exact hcon ⟨hr', hb'⟩
      · obtain ⟨v, rfl⟩ := comment_second hx
        injection e with _ e; injection e with e _
        exact absurd e (by decide)
      · obtain ⟨v, rfl⟩ := instruction_second hx
        injection e with _ e; injection e with e _
        exact absurd e (by decide)
      · obtain ⟨c, v, rfl, hl⟩ := declaration_second hx
        injection e with _ e; injection e with e _
        exact absurd e (by decide)
      · obtain ⟨v, rfl⟩ := cdata_second hx
        injection e with _ e; injection e with e _
        exact absurd e (by decide))
    have h' : removeHtmlTags E ('<' :: ('/' :: n ++ b ++ ['>'])) p = [] := by simpa using h
    rw [this] at h'
    cases h'
  · rintro ⟨h1, h2⟩
    exact goes hE hr (.inr (.inl ⟨n, b, by simp, hn, h1, h2⟩))

/-- **C85**: for github and commonmarker a closing tag is removed exactly if its name is not filtered and it has at most one white space. -/
theorem C85_close_github {E : Env} (hE : E.Lawful) {p : Parser} (hp : p = .github ∨ p = .commonmarker) {n b : Str} (hn : TagName n) (hb : ∀ c ∈ b, WhiteSpace c) :
    removeHtmlTags E ('<' :: '/' :: n ++ b ++ ['>']) p = [] ↔ ¬ RawName n ∧ b.length ≤ 1 := by
  rw [close_exact hE (by rintro rfl; simp at hp) hn hb]
  constructor
  · rintro ⟨h1, h2⟩
    refine ⟨h1 hp, ?_⟩
    rcases h2 with rfl | ⟨-, hl⟩
    · simp
    · have := hl hp
      omega
  · rintro ⟨h1, h2⟩
    refine ⟨fun _ => h1, ?_⟩
    by_cases hb0 : b = []
    · exact .inl hb0
    · refine .inr ⟨.inl ⟨hp, hb0, hb⟩, fun _ => ?_⟩
      have := List.length_pos_iff.mpr hb0
      omega

/-- **C85**: for the other parsers a closing tag is removed exactly if there is nothing but spaces and tabs or one line ending behind its name. -/
theorem C85_close_others {E : Env} (hE : E.Lawful) {p : Parser} (hr : p ≠ .redcarpet) (hp : ¬ (p = .github ∨ p = .commonmarker)) {n b : Str} (hn : TagName n) (hb : ∀ c ∈ b, WhiteSpace c) :
    removeHtmlTags E ('<' :: '/' :: n ++ b ++ ['>']) p = [] ↔ (∀ c ∈ b, c = ' ' ∨ c = '\t') ∨ LineEnd b := by
  rw [close_exact hE hr hn hb]
  constructor
  · rintro ⟨-, rfl | ⟨⟨h, -⟩ | ⟨-, h | h⟩, -⟩⟩
    · exact .inl (by simp)
    · exact absurd h hp
    · exact .inl h.2
    · exact .inr h
  · intro h
    refine ⟨fun h => absurd h hp, ?_⟩
    by_cases hb0 : b = []
    · exact .inl hb0
    · refine .inr ⟨.inr ⟨hp, ?_⟩, fun h => absurd h hp⟩
      rcases h with h | h
      · exact .inl ⟨hb0, h⟩
      · exact .inr h

/-- The hypotheses are met: spaces and tabs are no matter for gitlab, a space and a line feed are. -/
example : removeHtmlTags asciiEnv "</b \t>".toList .gitlab = [] ∧ removeHtmlTags asciiEnv "</b \n>".toList .gitlab ≠ [] ∧ removeHtmlTags asciiEnv "</b \t>".toList .github ≠ [] := by
  have hn : TagName ['b'] := ⟨'b', [], rfl, by unfold Letter; decide, by simp⟩
  refine ⟨(C85_close_others asciiEnv_lawful (by decide) (by decide) hn (b := [' ', '\t']) (by unfold WhiteSpace; decide)).mpr (.inl (by decide)), ?_, ?_⟩
  · refine fun h => absurd ((C85_close_others asciiEnv_lawful (by decide) (by decide) hn (b := [' ', '\n']) (by unfold WhiteSpace; decide)).mp h) ?_
    unfold LineEnd
    decide
  · exact fun h => absurd ((C85_close_github asciiEnv_lawful (.inl rfl) hn (b := [' ', '\t']) (by unfold WhiteSpace; decide)).mp h).2 (by decide)

/-- No upper case ASCII letters in lower case texts. -/
def NoUpper (E : Env) : Prop := ∀ s, ∀ c ∈ E.lower s, ¬ Upper c

theorem deleted_sublist {L : Str → Prop} {s t : Str} (h : Deleted L s t) : t.Sublist s := by
  induction h with
  | nil => exact List.Sublist.refl _
  | piece _ _ ih => exact ih.trans (List.sublist_append_right _ _)
  | char _ _ ih => exact ih.cons_cons _

/-- **C85**: the text from which an anchor is made is in lower case, so that its declarations and CDATA sections are never removed: the result is the text without tags, comments and processing instructions. -/
theorem C85_lower {E : Env} (hE : E.Lawful) (hU : NoUpper E) {p : Parser} (hp : p ≠ .redcarpet) (s t : Str) :
    removeHtmlTags E (E.lower s) p = t ↔
      ∃ s1 s2 s3, Deleted (HtmlOpen (p = .github ∨ p = .commonmarker)) (E.lower s) s1 ∧ Deleted (HtmlClose (p = .github ∨ p = .commonmarker)) s1 s2 ∧ Deleted HtmlComment s2 s3 ∧ Deleted HtmlInstruction s3 t := by
  have same : ∀ s4 : Str, (∀ c ∈ s4, ¬ Upper c) → Deleted (HtmlDeclaration (p = .github ∨ p = .commonmarker)) s4 s4 ∧ Deleted HtmlCData s4 s4 := by
    intro s4 h4
    constructor
    · refine deleted_same ?_
      rintro a x b rfl hx
      obtain ⟨c, u, rfl, hc⟩ := declaration_second hx
      exact h4 c (by simp) hc
    · refine deleted_same ?_
      rintro a x b rfl ⟨v, rfl, -⟩
      exact h4 'C' (by simp) (by unfold Upper; decide)
  rw [C84_exact hE hp]
  obtain ⟨n1, n2, n3, n4, n5, n6⟩ := html_nonempty (p = .github ∨ p = .commonmarker)
  constructor
  · rintro ⟨s1, s2, s3, s4, s5, h1, h2, h3, h4, h5, h6⟩
    have hs4 : ∀ c ∈ s4, ¬ Upper c := by
      intro c hc
      exact hU s c ((((deleted_sublist h4).trans (deleted_sublist h3)).trans ((deleted_sublist h2).trans (deleted_sublist h1))).subset hc)
    obtain ⟨e5, e6⟩ := same s4 hs4
    obtain rfl := h5.unique (prefixFree_declaration _) n5 e5
    obtain rfl := h6.unique prefixFree_cdata n6 e6
    exact ⟨s1, s2, s3, h1, h2, h3, h4⟩
  · rintro ⟨s1, s2, s3, h1, h2, h3, h4⟩
    have hs4 : ∀ c ∈ t, ¬ Upper c := by
      intro c hc
      exact hU s c ((((deleted_sublist h4).trans (deleted_sublist h3)).trans ((deleted_sublist h2).trans (deleted_sublist h1))).subset hc)
    obtain ⟨e5, e6⟩ := same t hs4
    exact ⟨s1, s2, s3, t, t, h1, h2, h3, h4, e5, e6⟩

theorem noUpper_ascii : NoUpper asciiEnv := by
  intro s c hc
  obtain ⟨d, -, rfl⟩ := List.mem_map.mp hc
  unfold Upper asciiLower
  split
  · rename_i h
    have hlt : d.toNat < 128 := by omega
    have hall : ∀ n < 128, 65 ≤ n ∧ n ≤ 90 → ¬ (65 ≤ (Char.ofNat (n + 32)).toNat ∧ (Char.ofNat (n + 32)).toNat ≤ 90) := by decide +kernel
    exact hall _ hlt h
  · assumption

/-- **C85** is violated: comments with one character or with `>` inside stay, a closing tag with two spaces stays for github, and CDATA sections and declarations become a part of the anchor. -/
theorem C85_violation :
    (CMComment "<!--b-->".toList ∧ (buildAnchorLink asciiEnv "a<!--b-->".toList (fun _ => 0) .github).toOption.map Prod.fst = some "a--b--".toList) ∧
    (CMComment "<!--b > c-->".toList ∧ (buildAnchorLink asciiEnv "a<!--b > c-->".toList (fun _ => 0) .github).toOption.map Prod.fst = some "a--b--c--".toList) ∧
    (CMClose ['b'] "</b  >".toList ∧ (buildAnchorLink asciiEnv "a</b  >".toList (fun _ => 0) .github).toOption.map Prod.fst = some "ab--".toList) ∧
    (CMCData "<![CDATA[b]]>".toList ∧ (buildAnchorLink asciiEnv "a<![CDATA[b]]>".toList (fun _ => 0) .github).toOption.map Prod.fst = some "acdatab".toList) ∧
    (CMDeclaration "<!DOCTYPE b>".toList ∧ (buildAnchorLink asciiEnv "a<!DOCTYPE b>".toList (fun _ => 0) .github).toOption.map Prod.fst = some "adoctype-b".toList) := by
  refine ⟨⟨⟨['b'], rfl, by decide, by decide, by decide, by decide⟩, by decide +kernel⟩, ⟨⟨"b > c".toList, rfl, by decide, by decide, by decide, by decide⟩, by decide +kernel⟩,
    ⟨⟨⟨'b', [], rfl, by unfold Letter; decide, by simp⟩, "  ".toList, rfl, by simp [WhiteSpace]⟩, by decide +kernel⟩, ⟨⟨['b'], rfl, by decide⟩, by decide +kernel⟩,
    ⟨⟨"DOCTYPE".toList, [' '], ['b'], rfl, by decide, by unfold Upper; decide, by decide, by simp [WhiteSpace], by decide⟩, by decide +kernel⟩⟩

/-- Comments to which `C85_comment` applies, one that goes and one that stays. -/
example : CMComment ("<!--".toList ++ " a - b ".toList ++ "-->".toList) ∧ 2 ≤ " a - b ".toList.length ∧ '>' ∉ " a - b ".toList.dropLast ∧ ¬ ['-', '>'] <:+ " a - b ".toList ∧
    CMComment ("<!--".toList ++ [] ++ "-->".toList) :=
  ⟨⟨" a - b ".toList, rfl, by decide +kernel, by decide +kernel, by decide +kernel, by decide +kernel⟩, by decide +kernel, by decide +kernel, by decide +kernel,
    ⟨[], rfl, by decide +kernel, by decide +kernel, by decide +kernel, by decide +kernel⟩⟩

end MdToc.Props
