import Verif.Lemmas.Anchor
import Verif.Lemmas.Redcarpet

/-!
# Anchors: C01 to C05
-/

set_option linter.unusedSimpArgs false

namespace MdToc.Props

open MdToc.Spec

/-- Calls of `build_anchor_link` one after the other with one counter. -/
def anchorRun (E : Env) (p : Parser) : Dup → List Str → Except Exn (List Str × Dup)
  | d, [] => .ok ([], d)
  | d, t :: ts =>
    match buildAnchorLink E t d p with
    | .error e => .error e
    | .ok (a, d') =>
      match anchorRun E p d' ts with
      | .error e => .error e
      | .ok (as, d'') => .ok (a :: as, d'')

/-- `b` is the base slug of the text `t`: the anchor it gets in a new document. -/
def BaseSlug (E : Env) (p : Parser) (t b : Str) : Prop :=
  ∃ d, buildAnchorLink E t (fun _ => 0) p = .ok (b, d)

/-! ### C01 -/

/-- The anchors when the slugs `done` came before. -/
def numberedFrom : List Str → List Str → List Str
  | _, [] => []
  | done, b :: t => tagged b (done.count b) :: numberedFrom (done ++ [b]) t

theorem mapIdx_numbered (done bs : List Str) :
    numberedFrom done bs = bs.mapIdx (fun i b => tagged b ((done ++ bs.take i).count b)) := by
  induction bs generalizing done with
  | nil => rfl
  | cons b t ih =>
    rw [numberedFrom, ih, List.mapIdx_cons]
    simp

theorem anchorRun_numberedFrom {E : Env} {p : Parser} (hp : p.cmarkLike = true) :
    ∀ (ts bs done : List Str) (d : Dup), List.Forall₂ (BaseSlug E p) ts bs →
    (∀ b ∈ done ++ bs, ∀ b' ∈ done ++ bs, E.sha1 b = E.sha1 b' → b = b') →
    (∀ b ∈ done ++ bs, d (E.sha1 b) = done.count b) →
    ∃ d', anchorRun E p d ts = .ok (numberedFrom done bs, d') := by
  intro ts
  induction ts with
  | nil =>
    intro bs done d h _ _
    cases h
    exact ⟨d, rfl⟩
  | cons t ts ih =>
    intro bs done d h hinj hd
    cases h with
    | @cons _ b _ bs ht hts =>
      obtain ⟨d0, h0⟩ := ht
      have step := buildAnchorLink_cmark (E := E) hp t d
      rw [h0] at step
      simp only [Except.map] at step
      obtain ⟨d', h'⟩ := ih bs (done ++ [b])
        (fun k => if k = E.sha1 b then d (E.sha1 b) + 1 else d k) hts
        (by simpa using hinj) (by
          intro b' hb'
          have hb'' : b' ∈ done ++ b :: bs := by simpa using hb'
          by_cases hk : E.sha1 b' = E.sha1 b
          · have : b' = b := hinj b' hb'' b (by simp) hk
            subst this
            simp [hd b' hb'']
          · have : b' ≠ b := by rintro rfl; exact hk rfl
            simp [hk, hd b' hb'', List.count_append, List.count_singleton, Ne.symm this])
      refine ⟨d', ?_⟩
      simp only [anchorRun, step, h', numberedFrom]
      rw [hd b (by simp)]

/-- **C01.** In a sequence of headings with the base slugs `bs`, each heading gets its base slug, followed by a
hyphen and the number of earlier headings with the same slug if there are any. -/
theorem C01_duplicates_numbered {E : Env} {p : Parser} (hp : p.cmarkLike = true) {ts bs : List Str}
    (hb : List.Forall₂ (BaseSlug E p) ts bs)
    (hsha : ∀ b ∈ bs, ∀ b' ∈ bs, E.sha1 b = E.sha1 b' → b = b') :
    ∃ d, anchorRun E p (fun _ => 0) ts = .ok (numbered bs, d) := by
  obtain ⟨d, h⟩ := anchorRun_numberedFrom hp ts bs [] (fun _ => 0) hb (by simpa using hsha) (by simp)
  refine ⟨d, ?_⟩
  rw [h, mapIdx_numbered]
  simp [numbered]

/-- The calls succeed together exactly when each text has a base slug. -/
theorem anchorRun_ok_iff {E : Env} {p : Parser} (hp : p.cmarkLike = true) (ts : List Str) (d : Dup) :
    (∃ r, anchorRun E p d ts = .ok r) ↔ ∃ bs, List.Forall₂ (BaseSlug E p) ts bs := by
  induction ts generalizing d with
  | nil => exact ⟨fun _ => ⟨[], .nil⟩, fun _ => ⟨_, rfl⟩⟩
  | cons t ts ih =>
    have step := buildAnchorLink_cmark (E := E) hp t d
    constructor
    · rintro ⟨r, hr⟩
      simp only [anchorRun] at hr
      cases h0 : buildAnchorLink E t (fun _ => 0) p with
      | error e => rw [h0] at step; simp only [Except.map] at step; rw [step] at hr; simp at hr
      | ok x =>
        rw [h0] at step; simp only [Except.map] at step
        rw [step] at hr
        simp only at hr
        split at hr
        · simp at hr
        · rename_i as d'' hrun
          obtain ⟨bs, hbs⟩ := (ih _).mp ⟨_, hrun⟩
          exact ⟨x.1 :: bs, .cons ⟨x.2, by rw [h0]⟩ hbs⟩
    · rintro ⟨bs, hbs⟩
      cases hbs with
      | @cons _ b _ bs h1 h2 =>
        obtain ⟨d0, h0⟩ := h1
        rw [h0] at step; simp only [Except.map] at step
        obtain ⟨r, hr⟩ := (ih (fun k => if k = E.sha1 b then d (E.sha1 b) + 1 else d k)).mpr ⟨bs, h2⟩
        simp only [anchorRun, step, hr]
        exact ⟨_, rfl⟩

/-- Whatever the outcome of the calls is, if they succeed the anchors are the numbered base slugs. -/
theorem C01_duplicates_numbered_of_ok {E : Env} {p : Parser} (hp : p.cmarkLike = true) {ts as : List Str} {d : Dup}
    (h : anchorRun E p (fun _ => 0) ts = .ok (as, d))
    (hsha : ∀ b b', E.sha1 b = E.sha1 b' → b = b') :
    ∃ bs, List.Forall₂ (BaseSlug E p) ts bs ∧ as = numbered bs := by
  obtain ⟨bs, hbs⟩ := (anchorRun_ok_iff hp ts _).mp ⟨_, h⟩
  obtain ⟨d', h'⟩ := C01_duplicates_numbered hp hbs (fun b _ b' _ => hsha b b')
  rw [h] at h'
  simp at h'
  exact ⟨bs, hbs, h'.1⟩

theorem tagged_injective {b : Str} {m n : Nat} (h : tagged b m = tagged b n) : m = n := by
  unfold tagged at h
  split at h <;> split at h
  · omega
  · have := congrArg List.length h; simp at this
  · have := congrArg List.length h; simp at this
  · simp only [List.append_cancel_left_eq, List.cons.injEq, true_and] at h
    rw [← natStr_eq, ← natStr_eq] at h
    exact natStr_injective h

theorem count_take_lt {bs : List Str} {i j : Nat} (hij : i < j) (hj : j < bs.length)
    (h : bs[i]'(by omega) = bs[j]) : (bs.take i).count (bs[i]'(by omega)) < (bs.take j).count (bs[j]) := by
  rw [← h]
  have h1 : bs.take (i + 1) = bs.take i ++ [bs[i]'(by omega)] := by simp
  have h2 : (bs.take (i + 1)).count (bs[i]'(by omega)) ≤ (bs.take j).count (bs[i]'(by omega)) :=
    (List.take_sublist_take_left (by omega)).count_le _
  rw [h1, List.count_append, List.count_singleton_self] at h2
  omega

/-- **C01**, consequence: two headings with the same base slug do not get the same anchor. -/
theorem C01_equal_slugs_distinct {bs : List Str} {i j : Nat} (hij : i < j) (hj : j < bs.length)
    (h : bs[i]'(by omega) = bs[j]) : (numbered bs)[i]? ≠ (numbered bs)[j]? := by
  intro he
  have hc := count_take_lt hij hj h
  simp only [numbered, List.getElem?_mapIdx] at he
  rw [List.getElem?_eq_getElem (by omega), List.getElem?_eq_getElem hj] at he
  simp only [Option.map_some, Option.some.injEq] at he
  rw [← h] at he hc
  have := tagged_injective he
  omega

/-- The hypotheses of C01 on three headings. -/
example : List.Forall₂ (BaseSlug asciiEnv .github)
    ["A b".toList, "*a* B".toList, "c".toList] ["a-b".toList, "a-b".toList, "c".toList] ∧
    numbered ["a-b".toList, "a-b".toList, "c".toList] = ["a-b".toList, "a-b-1".toList, "c".toList] := by
  have e : ∀ t b, (buildAnchorLink asciiEnv t (fun _ => 0) .github).map Prod.fst = .ok b →
      BaseSlug asciiEnv .github t b := by
    intro t b h
    cases h' : buildAnchorLink asciiEnv t (fun _ => 0) .github with
    | error x => rw [h'] at h; simp [Except.map] at h
    | ok r => rw [h'] at h; simp [Except.map] at h; subst h; exact ⟨r.2, h'⟩
  refine ⟨?_, by decide +kernel⟩
  refine .cons (e _ _ (by decide +kernel)) (.cons (e _ _ (by decide +kernel)) (.cons (e _ _ (by decide +kernel)) .nil))

/-! ### C02 -/

/-- **C02 is false.** Three headings, two equal anchors. -/
theorem C02_violation :
    (anchorRun asciiEnv .github (fun _ => 0) ["foo".toList, "foo".toList, "foo-1".toList]).map Prod.fst =
      .ok ["foo".toList, "foo-1".toList, "foo-1".toList] := by decide +kernel

theorem hyphen_digits_inj {a b x y : Str} (hx : '-' ∉ x) (hy : '-' ∉ y)
    (h : a ++ '-' :: x = b ++ '-' :: y) : a = b := by
  induction a generalizing b with
  | nil =>
    cases b with
    | nil => rfl
    | cons c b =>
      simp at h
      exact absurd (by rw [h.2]; simp) hx
  | cons c a ih =>
    cases b with
    | nil =>
      simp at h
      exact absurd (by rw [← h.2]; simp) hy
    | cons d b =>
      simp at h
      rw [h.1, ih h.2]

theorem repr_no_hyphen (n : Nat) : '-' ∉ (toString n).toList := by
  rw [← natStr_eq]
  intro h
  have := natStr_digits n _ h
  revert this; decide

/-- **C02**, the part that holds: the anchors are pairwise distinct if no base slug is another one
followed by a hyphen and a number. -/
theorem C02_anchors_unique_partial {bs : List Str}
    (h : ∀ b ∈ bs, ∀ b' ∈ bs, ∀ n : Nat, b ≠ b' ++ '-' :: (toString n).toList) : (numbered bs).Nodup := by
  rw [List.nodup_iff_pairwise_ne, List.pairwise_iff_getElem]
  intro i j hi hj hij heq
  simp only [numbered, List.length_mapIdx] at hi hj
  have hi' : bs[i] ∈ bs := List.getElem_mem _
  have hj' : bs[j] ∈ bs := List.getElem_mem _
  by_cases hb : bs[i] = bs[j]
  · apply C01_equal_slugs_distinct hij hj hb
    rw [List.getElem?_eq_getElem (by simpa [numbered] using hi),
      List.getElem?_eq_getElem (by simpa [numbered] using hj), heq]
  · simp only [numbered, List.getElem_mapIdx] at heq
    unfold tagged at heq
    split at heq <;> split at heq
    · exact hb heq
    · exact h _ hi' _ hj' _ heq
    · exact h _ hj' _ hi' _ heq.symm
    · exact hb (hyphen_digits_inj (repr_no_hyphen _) (repr_no_hyphen _) heq)

/-- The hypothesis of C02 on repeated headings. -/
example : ∀ b ∈ ["foo".toList, "bar-x".toList, "foo".toList], ∀ b' ∈ ["foo".toList, "bar-x".toList, "foo".toList],
    ∀ n : Nat, b ≠ b' ++ '-' :: (toString n).toList := by
  intro b hb b' hb' n h
  have hd : ∀ c ∈ (toString n).toList, isAsciiDigit c = true := by rw [← natStr_eq]; exact natStr_digits n
  generalize (toString n).toList = ds at h hd
  simp only [List.mem_cons, List.not_mem_nil, or_false] at hb hb'
  rcases hb with rfl | rfl | rfl <;> rcases hb' with rfl | rfl | rfl <;> simp at h

/-! ### C03 -/

/-- **C03.** Anchors of the cmark-like parsers have only word characters and hyphens. -/
theorem C03_anchor_alphabet {E : Env} (hE : E.Lawful) {p : Parser} (hp : p.cmarkLike = true) {t a : Str}
    {d d' : Dup} (h : buildAnchorLink E t d p = .ok (a, d')) : ∀ c ∈ a, E.isWord c = true ∨ c = '-' := by
  rw [buildAnchorLink_cmark hp] at h
  cases h0 : buildAnchorLink E t (fun _ => 0) p with
  | error e => rw [h0] at h; simp [Except.map] at h
  | ok r =>
    rw [h0] at h
    simp only [Except.map, Except.ok.injEq, Prod.mk.injEq] at h
    have hb := baseAnchor_mem (buildAnchorLink_fresh (b := r.1) (d := r.2) hp (by rw [h0]))
    intro c hc
    rw [← h.1] at hc
    unfold tagged at hc
    split at hc
    · exact (hb c hc).2
    · rcases List.mem_append.mp hc with hc | hc
      · exact (hb c hc).2
      · rcases List.mem_cons.mp hc with rfl | hc
        · exact .inr rfl
        · left
          rw [← natStr_eq] at hc
          have hdig := natStr_digits _ c hc
          have hn : c.toNat < 128 := by
            simp [isAsciiDigit] at hdig; omega
          rw [hE.word_ascii c hn, hdig]; simp

/-- **C03**, consequence: the anchor cannot end the link target or contain white space. -/
theorem C03_anchor_safe {E : Env} (hE : E.Lawful) {p : Parser} (hp : p.cmarkLike = true) {t a : Str}
    {d d' : Dup} (h : buildAnchorLink E t d p = .ok (a, d')) :
    ∀ c ∈ " ()[]<>\"'`\\&#\t\n\x0b\x0c\r".toList, c ∉ a := by
  intro c hc hca
  have := C03_anchor_alphabet hE hp h c hca
  have hn : c.toNat < 128 ∧ c ≠ '-' ∧ (isAsciiAlpha c || isAsciiDigit c || c == '_') = false := by
    clear this hca; revert c; decide
  rw [hE.word_ascii c hn.1, hn.2.2] at this
  simp [hn.2.1] at this

/-- A text full of punctuation. -/
example : (buildAnchorLink asciiEnv "A (b) [c](d) <i>e</i> \"f\" g_h -".toList (fun _ => 3) .github).map Prod.fst =
    .ok "a-b-cd-e-f-g_h---3".toList := by decide +kernel

/-! ### C04 -/

/-- **C04.** For redcarpet the anchor is made of the lower case words of the heading with hyphens between them,
or of the hash of the text if there is no word; the counter of duplicates is not used. -/
theorem C04_redcarpet_anchor (E : Env) {s : Str} (h : ¬ HasInteriorNewline s) (dup : Dup) :
    buildAnchorLink E s dup .redcarpet = .ok
      (if s ≠ [] ∧ redcarpetWords s = [] then "part-".toList ++ hex (djb2 5381 s)
        else hyphenate ((redcarpetWords s).map (·.map asciiLower)), dup) := by
  rw [← split_length_gt_iff] at h
  unfold buildAnchorLink
  rw [if_neg h, ← redcarpetAnchor_eq]
  rfl

theorem asciiLower_ascii {c : Char} (h : c.toNat < 128) :
    (asciiLower c).toNat < 128 ∧ ¬ (65 ≤ (asciiLower c).toNat ∧ (asciiLower c).toNat ≤ 90) ∧
      (asciiLower c = '-' → c = '-') := by
  have : ∀ n : Fin 128, (asciiLower (Char.ofNat n)).toNat < 128 ∧
      ¬ (65 ≤ (asciiLower (Char.ofNat n)).toNat ∧ (asciiLower (Char.ofNat n)).toNat ≤ 90) ∧
      (asciiLower (Char.ofNat n) = '-' → Char.ofNat n = '-') := by decide
  have := this ⟨c.toNat, h⟩
  simpa using this

/-- **C04**, consequence: a text with a word has an anchor that does not start or end with a hyphen, does not
have two adjacent hyphens and has only ASCII characters other than upper case letters. -/
theorem C04_redcarpet_shape (E : Env) {s a : Str} {dup d : Dup}
    (h : buildAnchorLink E s dup .redcarpet = .ok (a, d)) (hw : redcarpetWords s ≠ []) :
    a ≠ [] ∧ a.head? ≠ some '-' ∧ a.getLast? ≠ some '-' ∧ NoDoubleHyphen a ∧
      ∀ c ∈ a, c.toNat < 128 ∧ ¬ (65 ≤ c.toNat ∧ c.toNat ≤ 90) := by
  have hn : ¬ HasInteriorNewline s := by
    intro hn
    rw [← split_length_gt_iff] at hn
    simp [buildAnchorLink, hn] at h
  rw [C04_redcarpet_anchor E hn, if_neg (fun h => hw h.2)] at h
  simp only [Except.ok.injEq, Prod.mk.injEq] at h
  rw [← h.1]
  have hm := words_mem (sep := redcarpetSep) (s.filter (fun c => c != '<' && c != '&'))
  have hm' : ∀ w ∈ (redcarpetWords s).map (·.map asciiLower), w ≠ [] ∧
      ∀ c ∈ w, c ≠ '-' ∧ c.toNat < 128 ∧ ¬ (65 ≤ c.toNat ∧ c.toNat ≤ 90) := by
    intro w hw
    obtain ⟨v, hv, rfl⟩ := List.mem_map.mp hw
    obtain ⟨h1, h2⟩ := hm v hv
    refine ⟨by simpa using h1, ?_⟩
    intro c hc
    obtain ⟨x, hx, rfl⟩ := List.mem_map.mp hc
    have h3 := h2 x hx
    simp only [redcarpetSep, Bool.or_eq_false_iff, decide_eq_false_iff_not] at h3
    have h4 := asciiLower_ascii (c := x) (by omega)
    refine ⟨?_, h4.1, h4.2.1⟩
    intro h5
    have := h4.2.2 h5
    subst this
    exact absurd h3.2 (by decide)
  have hs := hyphenate_shape (fun w hw => ⟨(hm' w hw).1, fun hh => ((hm' w hw).2 _ hh).1 rfl⟩)
  refine ⟨?_, hs.1, hs.2.1, hs.2.2, ?_⟩
  · cases hr : redcarpetWords s with
    | nil => exact absurd hr hw
    | cons w r =>
      have := (hm' (w.map asciiLower) (by simp [hr])).1
      simp only [List.map_cons]
      clear hs h
      cases hr' : r.map (·.map asciiLower) <;> simp_all [hyphenate]
  · intro c hc
    rcases hyphenate_mem hc with rfl | ⟨w, hw, hc⟩
    · decide
    · exact ((hm' w hw).2 c hc).2

example : (¬ HasInteriorNewline "Ab, <cd> ë é!".toList) ∧
    redcarpetWords "Ab, <cd> ë é!".toList = ["Ab".toList, "cd>".toList] := by
  rw [← split_length_gt_iff]; decide +kernel

example : redcarpetAnchor "Ab, <cd> ë é!".toList = "ab-cd>".toList ∧
    redcarpetAnchor "- &".toList = "part-b877698".toList := by decide +kernel

/-! ### C05 -/

/-- **C05.** The base slug of gitlab is the base slug of cmark with runs of hyphens collapsed; in particular it
has no two adjacent hyphens. -/
theorem C05_gitlab_collapse {E : Env} {t : Str} {b : Str} (h : BaseSlug E .gitlab t b) :
    NoDoubleHyphen b ∧ ∃ b', BaseSlug E .cmark t b' ∧ b = collapse false b' := by
  obtain ⟨d, h⟩ := h
  have h1 := buildAnchorLink_fresh rfl h
  have hnl : ¬ (replaceAndSplitNewlines t).length > 1 := by
    unfold buildAnchorLink at h
    split at h
    · simp at h
    · assumption
  unfold baseAnchor at h1
  simp only [bind, Except.bind] at h1
  split at h1
  · simp at h1
  · rename_i x hx
    simp only [Except.ok.injEq, if_true] at h1
    unfold Re.sub at h1
    rw [sub_hyphens _ _ _ _ (Nat.le_refl _)] at h1
    refine ⟨by rw [← h1]; exact (collapse_noDouble _ _).1, _, ?_, h1.symm⟩
    have hb : baseAnchor E t .cmark = .ok (replaceChar ' ' '-' (punctuationFilter E x .gitlab)) := by
      unfold baseAnchor
      have : removeEmphasis E (removeHtmlTags E (E.lower t) .cmark) .cmark = .ok x := hx
      simp only [bind, Except.bind, this]
      rfl
    unfold BaseSlug buildAnchorLink
    rw [if_neg hnl]
    simp only [Parser.cmarkLike, if_true, bind, Except.bind, hb]
    simp

/-- The final anchor of gitlab has no two adjacent hyphens either, if the base slug does not end with one. -/
theorem C05_gitlab_final_partial {b : Str} (h : NoDoubleHyphen b) (hl : b.getLast? ≠ some '-') (n : Nat) :
    NoDoubleHyphen (tagged b n) := by
  unfold tagged
  split
  · exact h
  · have hdig := repr_no_hyphen n
    generalize (toString n).toList = ds at hdig
    induction b with
    | nil =>
      refine noDouble_cons ?_ ?_
      · rintro ⟨x, y, hxy⟩; exact hdig (by rw [← hxy]; simp)
      · intro _ hh
        cases ds with
        | nil => simp at hh
        | cons c ds => simp at hh; exact hdig (by simp [hh])
    | cons c b ih =>
      have hb : NoDoubleHyphen b := by
        rintro ⟨x, y, hxy⟩; exact h ⟨c :: x, y, by simp [← hxy]⟩
      cases b with
      | nil =>
        refine noDouble_cons (ih hb (by simp)) ?_
        intro hc; simp at hl; exact absurd hc hl
      | cons e b =>
        refine noDouble_cons (ih hb (by simpa [List.getLast?_cons_cons] using hl)) ?_
        rintro rfl hh
        simp at hh
        subst hh
        exact h ⟨[], b, by simp⟩

/-- **C05 is false for the final anchor**: the second of two equal headings whose slug ends with a hyphen. -/
theorem C05_violation :
    (anchorRun asciiEnv .gitlab (fun _ => 0) ["a -".toList, "a -".toList]).map Prod.fst =
      .ok ["a-".toList, "a--1".toList] := by decide +kernel

/-- A slug with collapsed hyphens. -/
example : (buildAnchorLink asciiEnv "a - -- b".toList (fun _ => 0) .gitlab).map Prod.fst = .ok "a-b".toList ∧
    (buildAnchorLink asciiEnv "a - -- b".toList (fun _ => 0) .cmark).map Prod.fst = .ok "a------b".toList := by
  decide +kernel

end MdToc.Props
