import Verif.Props.Meta
import Verif.Props.Success

/-!
# Exact conditions: C02, C05, C13, C19, C69, C71

The code violates these properties.  Here: the exact condition under which they hold.
-/

set_option linter.unusedSimpArgs false

namespace MdToc.Props

open MdToc.Spec

/-! ### C02 -/

theorem natStr_toString (n : Nat) : (toString n).toList = natStr n := (natStr_eq n).symm

theorem tagged_zero (b : Str) : tagged b 0 = b := by simp [tagged]

theorem tagged_pos (b : Str) {n : Nat} (h : 1 ≤ n) : tagged b n = b ++ '-' :: (toString n).toList := by
  unfold tagged
  rw [if_neg (by omega)]

theorem exists_count {bs : List Str} {b : Str} : ∀ {n : Nat}, n < bs.count b → ∃ i, ∃ h : i < bs.length, bs[i] = b ∧ (bs.take i).count b = n := by
  induction bs with
  | nil => intro n h; simp at h
  | cons x bs ih =>
    intro n h
    by_cases hx : x = b
    · subst hx
      cases n with
      | zero => exact ⟨0, by simp, by simp, by simp⟩
      | succ n =>
        rw [List.count_cons_self] at h
        obtain ⟨i, h1, h2, h3⟩ := ih (n := n) (by omega)
        exact ⟨i + 1, by simp; omega, by simpa using h2, by simp [h3]⟩
    · rw [List.count_cons_of_ne (by simpa using hx)] at h
      obtain ⟨i, h1, h2, h3⟩ := ih h
      exact ⟨i + 1, by simp; omega, by simpa using h2, by rw [List.take_succ_cons, List.count_cons_of_ne (by simpa using hx)]; exact h3⟩

theorem mem_numbered {bs : List Str} {a : Str} : a ∈ numbered bs ↔ ∃ b n, n < bs.count b ∧ a = tagged b n := by
  constructor
  · intro h
    obtain ⟨i, hi, rfl⟩ := List.getElem_of_mem h
    simp only [numbered, List.length_mapIdx] at hi
    refine ⟨bs[i], (bs.take i).count bs[i], ?_, by simp [numbered]⟩
    have h1 : bs.take (i + 1) = bs.take i ++ [bs[i]] := by simp
    have h2 : (bs.take (i + 1)).count bs[i] ≤ bs.count bs[i] := (List.take_sublist _ _).count_le _
    rw [h1, List.count_append, List.count_singleton_self] at h2
    omega
  · rintro ⟨b, n, h, rfl⟩
    obtain ⟨i, h1, h2, h3⟩ := exists_count h
    rw [List.mem_iff_getElem]
    refine ⟨i, by simpa [numbered] using h1, ?_⟩
    simp [numbered, h2, h3]

/-- **C02**, the exact condition: two headings get the same anchor exactly if some slug comes more than `n` times, `n ≥ 1`,
and the same slug followed by a hyphen and `n` is the slug of a heading, too. -/
theorem C02_exact {bs : List Str} :
    (numbered bs).Nodup ↔ ∀ b (n : Nat), 1 ≤ n → n < bs.count b → b ++ '-' :: (toString n).toList ∉ bs := by
  constructor
  · intro hn b n h1 h2 hm
    obtain ⟨i, hi1, hi2, hi3⟩ := exists_count h2
    obtain ⟨j, hj1, hj2, hj3⟩ := exists_count (n := 0) (List.count_pos_iff.mpr hm)
    have hij : i ≠ j := by
      rintro rfl
      rw [hi2] at hj2
      have := congrArg List.length hj2
      simp at this
    have li : i < (numbered bs).length := by simpa [numbered] using hi1
    have lj : j < (numbered bs).length := by simpa [numbered] using hj1
    rw [List.nodup_iff_pairwise_ne, List.pairwise_iff_getElem] at hn
    have heq : (numbered bs)[i] = (numbered bs)[j] := by
      simp only [numbered, List.getElem_mapIdx]
      rw [hi2, hi3, hj2, hj3, tagged_zero, tagged_pos _ h1]
    rcases Nat.lt_or_gt_of_ne hij with hlt | hlt
    · exact hn i j li lj hlt heq
    · exact hn j i lj li hlt heq.symm
  · intro h
    rw [List.nodup_iff_pairwise_ne, List.pairwise_iff_getElem]
    intro i j hi hj hij heq
    have hi' := hi
    have hj' := hj
    simp only [numbered, List.length_mapIdx] at hi' hj'
    by_cases hb : bs[i] = bs[j]
    · apply C01_equal_slugs_distinct hij hj' hb
      rw [List.getElem?_eq_getElem hi, List.getElem?_eq_getElem hj, heq]
    · simp only [numbered, List.getElem_mapIdx] at heq
      have lt : ∀ k (hk : k < bs.length), (bs.take k).count bs[k] < bs.count bs[k] := by
        intro k hk
        have h1 : bs.take (k + 1) = bs.take k ++ [bs[k]] := by simp
        have h2 : (bs.take (k + 1)).count bs[k] ≤ bs.count bs[k] := (List.take_sublist _ _).count_le _
        rw [h1, List.count_append, List.count_singleton_self] at h2
        omega
      have l1 := lt i hi'
      have l2 := lt j hj'
      unfold tagged at heq
      split at heq <;> split at heq
      · exact hb heq
      · exact h _ _ (by omega) l2 (heq ▸ List.getElem_mem _)
      · exact h _ _ (by omega) l1 (heq ▸ List.getElem_mem _)
      · exact hb (hyphen_digits_inj (repr_no_hyphen _) (repr_no_hyphen _) heq)

/-- **C02**, the exact condition for the calls of `build_anchor_link` one after the other. -/
theorem C02_run_exact {E : Env} {p : Parser} (hp : p.cmarkLike = true) {ts bs as : List Str} {d : Dup} (h : anchorRun E p (fun _ => 0) ts = .ok (as, d))
    (hb : List.Forall₂ (BaseSlug E p) ts bs) (hsha : ∀ b ∈ bs, ∀ b' ∈ bs, E.sha1 b = E.sha1 b' → b = b') :
    as.Nodup ↔ ∀ b (n : Nat), 1 ≤ n → n < bs.count b → b ++ '-' :: (toString n).toList ∉ bs := by
  obtain ⟨d', hrun⟩ := C01_duplicates_numbered hp hb hsha
  rw [h] at hrun
  injection hrun with hrun
  have has : as = numbered bs := congrArg Prod.fst hrun
  subst has
  exact C02_exact

/-- **C02**, the exact condition for the table of a document all of whose headings are listed. -/
theorem C02_table_exact {E : Env} {o : Options} (hp : o.parser ≠ .redcarpet) {fn text out : Str} (h : buildToc E o fn (some ⟨text, false⟩) = .ok out)
    {vs : List Str} (hv : Looks o fn text vs) {heads : List (Nat × Str)} (hh : Headings o.parser o.noLinks vs heads)
    (hl : ∀ x ∈ heads, listed o.parser o.keep x.1 = true)
    {bs : List Str} (hb : List.Forall₂ (BaseSlug E o.parser) (heads.map Prod.snd) bs) (hsha : ∀ b ∈ bs, ∀ b' ∈ bs, E.sha1 b = E.sha1 b' → b = b') :
    ∃ es, Table E o vs out es ∧
      ((es.map (·.anchor)).Nodup ↔ ∀ b (n : Nat), 1 ≤ n → n < bs.count b → b ++ '-' :: (toString n).toList ∉ bs) := by
  obtain ⟨hds, es, st, hr, ht⟩ := buildToc_run h hv
  refine ⟨es, ht, ?_⟩
  obtain ⟨⟨heads', as, d, g1, g2, g3, g4⟩, g5⟩ := ht
  have := headings_unique g1 hh
  subst this
  have hex := C02_run_exact (cmarkLike_of_ne hp) g2 hb hsha
  have : es.map (·.anchor) = ((heads'.zip as).filter (fun x => listed o.parser o.keep x.1.1)).map Prod.snd := by
    have := congrArg (List.map (fun x : Nat × Str × Str => x.2.2)) g4
    simpa [List.map_map, Function.comp_def] using this
  rw [this, List.filter_eq_self.mpr, List.map_snd_zip (by omega)]
  · exact hex
  · intro x hx
    exact hl _ (List.of_mem_zip (a := x.1) (b := x.2) hx).1

/-- A slug that looks like a numbered one of another slug, and unique anchors all the same: `a-2` with two headings `a`. -/
example : (anchorRun asciiEnv .github (fun _ => 0) ["a".toList, "a".toList, "a-2".toList]).map Prod.fst =
    .ok ["a".toList, "a-1".toList, "a-2".toList] ∧
    ∀ b (n : Nat), 1 ≤ n → n < ["a".toList, "a".toList, "a-2".toList].count b → b ++ '-' :: (toString n).toList ∉ ["a".toList, "a".toList, "a-2".toList] := by
  refine ⟨by decide +kernel, ?_⟩
  rw [← C02_exact]
  decide +kernel

/-! ### C05 -/

/-- **C05**, the exact condition for the final anchors of gitlab: two hyphens in a row come exactly from a slug that ends
with a hyphen and comes at least twice. -/
theorem C05_run_exact {E : Env} {ts bs as : List Str} {d : Dup} (h : anchorRun E .gitlab (fun _ => 0) ts = .ok (as, d))
    (hb : List.Forall₂ (BaseSlug E .gitlab) ts bs) (hsha : ∀ b ∈ bs, ∀ b' ∈ bs, E.sha1 b = E.sha1 b' → b = b') :
    (∀ a ∈ as, NoDoubleHyphen a) ↔ ∀ b, 2 ≤ bs.count b → b.getLast? ≠ some '-' := by
  obtain ⟨d', hrun⟩ := C01_duplicates_numbered rfl hb hsha
  rw [h] at hrun
  injection hrun with hrun
  have has : as = numbered bs := congrArg Prod.fst hrun
  subst has
  have hnd : ∀ b ∈ bs, NoDoubleHyphen b := by
    clear hrun h hsha
    induction hb with
    | nil => simp
    | cons h1 _ ih =>
      intro b hb'
      rcases List.mem_cons.mp hb' with rfl | hb'
      · exact (C05_gitlab_collapse h1).1
      · exact ih b hb'
  constructor
  · intro hall b h2 hl
    have := hall _ (mem_numbered.mpr ⟨b, 1, by omega, rfl⟩)
    apply this
    rw [tagged_pos _ (Nat.le_refl 1)]
    obtain ⟨r, rfl⟩ : ∃ r, b = r ++ ['-'] := by
      obtain ⟨r, hr⟩ := List.getLast?_eq_some_iff.mp hl
      exact ⟨r, hr⟩
    exact ⟨r, (toString 1).toList, by simp⟩
  · intro hl a ha
    obtain ⟨b, n, hn, rfl⟩ := mem_numbered.mp ha
    have hm : b ∈ bs := List.count_pos_iff.mp (by omega)
    cases n with
    | zero => rw [tagged_zero]; exact hnd b hm
    | succ n => exact C05_gitlab_final_partial (hnd b hm) (hl b (by omega)) _

/-- A slug that ends with a hyphen and comes once. -/
example : (anchorRun asciiEnv .gitlab (fun _ => 0) ["a -".toList, "b".toList, "b".toList]).map Prod.fst =
    .ok ["a-".toList, "b".toList, "b-1".toList] := by decide +kernel

/-! ### C13 -/

/-- A text in layers: all of the first kind of characters on the outside, then all of the second kind, and so on. -/
inductive Layers : List Char → Str → Prop
  | nil : Layers [] []
  | cons {c : Char} {cs : List Char} {s : Str} (m n : Nat) : Layers cs s → Layers (c :: cs) (List.replicate m c ++ s ++ List.replicate n c)

theorem layers_mem {cs : List Char} {s : Str} (h : Layers cs s) : ∀ x ∈ s, x ∈ cs := by
  induction h with
  | nil => simp
  | cons m n _ ih =>
    intro x hx
    simp only [List.mem_append, List.mem_replicate] at hx
    rcases hx with (hx | hx) | hx
    · simp [hx.2]
    · simp [ih x hx]
    · simp [hx.2]

theorem strip_layers {c : Char} {cs : List Char} (hc : c ∉ cs) {s : Str} : Layers cs (strip (· == c) s) ↔ Layers (c :: cs) s := by
  constructor
  · intro h
    obtain ⟨a, b, h1, h2, h3, -⟩ := strip_eq (· == c) s
    have ha : a = List.replicate a.length c := List.eq_replicate_iff.mpr ⟨rfl, fun x hx => by simpa using h2 x hx⟩
    have hb : b = List.replicate b.length c := List.eq_replicate_iff.mpr ⟨rfl, fun x hx => by simpa using h3 x hx⟩
    have := Layers.cons (c := c) a.length b.length h
    rw [← ha, ← hb, ← h1] at this
    exact this
  · intro h
    cases h with
    | @cons _ _ s m n h =>
      have hm := layers_mem h
      have : strip (· == c) (List.replicate m c ++ s ++ List.replicate n c) = s := by
        refine strip_unique ?_ ?_ ?_ ?_
        · intro x hx; simp [(List.mem_replicate.mp hx).2]
        · intro x hx; simp [(List.mem_replicate.mp hx).2]
        · intro x hx
          have := hm x (List.mem_of_head? hx)
          simp only [beq_eq_false_iff_ne, ne_eq]
          rintro rfl; exact hc this
        · intro x hx
          have := hm x (List.mem_of_getLast? hx)
          simp only [beq_eq_false_iff_ne, ne_eq]
          rintro rfl; exact hc this
      rw [this]
      exact h

theorem layers_nil_iff {s : Str} : Layers [] s ↔ s = [] := by
  constructor
  · intro h; cases h; rfl
  · rintro rfl; exact .nil

theorem stripChain_nil_iff {s : Str} : stripChain s = [] ↔ Layers [' ', '\t', '\n', '\x0b', '\x0c', '\r'] s := by
  unfold stripChain
  rw [← layers_nil_iff, strip_layers (by decide), strip_layers (by decide), strip_layers (by decide), strip_layers (by decide), strip_layers (by decide),
    strip_layers (by decide)]

/-- **C13**, the exact condition: with links enabled a heading is rejected as empty exactly if its text is white space in layers:
blanks outside, then tabs, newlines, vertical tabs, form feeds and carriage returns. -/
theorem C13_exact {p : Parser} (hp : p.cmarkLike = true) {line body : Str} (hb : Body line body)
    (hne : line ≠ []) {keep : Int} {ty : Option Nat} {text : Str} {v : Bool}
    (h : getAtxHeading line keep p true = .ok [⟨ty, some text, v⟩]) :
    getAtxHeading line keep p false = .error .GithubEmptyLinkLabel ↔ Layers [' ', '\t', '\n', '\x0b', '\x0c', '\r'] text := by
  rw [links_of_noLinks hp hb hne h, linkText_eq, ← stripChain_nil_iff]
  have key : stripChain (padded text) = [] ↔ stripChain text = [] := by
    unfold padded
    split
    · rename_i hl
      have h1 : '\\' ∈ text := List.mem_of_getLast? hl
      have h2 := stripChain_keeps (c := '\\') (by decide) h1
      have h3 := stripChain_keeps (c := '\\') (by decide) (s := text ++ [' ']) (by simp [h1])
      constructor
      · intro h0; rw [h0] at h3; simp at h3
      · intro h0; rw [h0] at h2; simp at h2
    · exact Iff.rfl
  rw [← key]
  split
  · simp [Except.map, *]
  · rename_i h0
    simp only [h0, iff_false]
    split <;> simp [Except.map]

/-- Tabs outside of a blank are not removed, blanks outside of a tab are. -/
example : ¬ Layers [' ', '\t', '\n', '\x0b', '\x0c', '\r'] "\t \t".toList ∧ Layers [' ', '\t', '\n', '\x0b', '\x0c', '\r'] "\t\x0b\t".toList := by
  rw [← stripChain_nil_iff, ← stripChain_nil_iff]
  decide +kernel

/-! ### C19 and C69 -/

theorem dropSpaces (k : Nat) (s : Str) (h : s.head? ≠ some ' ') : (List.replicate k ' ' ++ s).dropWhile (· == ' ') = s := by
  induction k with
  | zero =>
    cases s with
    | nil => rfl
    | cons c s =>
      simp only [List.head?_cons, ne_eq, Option.some.injEq] at h
      simp [List.dropWhile_cons, h]
  | succ k ih => simpa [List.replicate_succ, List.dropWhile_cons] using ih

theorem isAtx_line {p : Parser} {m b : Str} (hb : m = b ++ ['\n'] ∨ m = b) {n : Nat} {rest : Str} (h : IsAtx p b n rest) :
    ∃ k r, k ≤ 3 ∧ m = List.replicate k ' ' ++ '#' :: r := by
  obtain ⟨k, h1, h2, -, h4, -⟩ := h
  obtain ⟨n, rfl⟩ : ∃ j, n = j + 1 := ⟨n - 1, by omega⟩
  rcases hb with rfl | rfl
  · exact ⟨k, List.replicate n '#' ++ rest ++ ['\n'], h1, by rw [h4]; simp [List.replicate_succ]⟩
  · exact ⟨k, List.replicate n '#' ++ rest, h1, by rw [h4]; simp [List.replicate_succ]⟩

theorem opens_not_atx {p : Parser} {m b : Str} {c : Char} {n : Nat} (h : OpensWith m c n) (hb : m = b ++ ['\n'] ∨ m = b) : ¬ ∃ j rest, IsAtx p b j rest := by
  rintro ⟨j, rest, ha⟩
  obtain ⟨k, r, -, hm⟩ := isAtx_line hb ha
  obtain ⟨k', rest', -, h3, hc, hm', -, -⟩ := h
  obtain ⟨n, rfl⟩ : ∃ j, n = j + 1 := ⟨n - 1, by omega⟩
  have hc' : c ≠ ' ' ∧ c ≠ '#' := by
    rcases hc with rfl | rfl <;> decide
  have e1 := dropSpaces k ('#' :: r) (by simp)
  have e2 := dropSpaces k' (List.replicate (n + 1) c ++ rest') (by simp [List.replicate_succ, hc'.1])
  rw [← hm] at e1
  rw [← List.append_assoc, ← hm', e1] at e2
  simp [List.replicate_succ] at e2
  exact hc'.2 e2.1.symm

theorem indented_not_atx {p : Parser} {m b : Str} (h : ¬ SmallIndent m) (hb : m = b ++ ['\n'] ∨ m = b) : ¬ ∃ j rest, IsAtx p b j rest := by
  rintro ⟨j, rest, ha⟩
  obtain ⟨k, r, hk, hm⟩ := isAtx_line hb ha
  exact h ⟨k, _, hm, hk, by simp⟩

theorem indented_not_open {m : Str} (h : ¬ SmallIndent m) : ¬ ∃ c n, OpensWith m c n := by
  rintro ⟨c, n, k, rest, hk, h3, hc, hm, -, -⟩
  obtain ⟨n, rfl⟩ : ∃ j, n = j + 1 := ⟨n - 1, by omega⟩
  refine h ⟨k, _, by rw [hm, List.append_assoc], hk, ?_⟩
  rcases hc with rfl | rfl <;> simp [List.replicate_succ]

/-- **C19** for files, exactly: if a file ends in an unclosed code block, its table is the one of the text before that block and the last line of the file. -/
theorem C19_file_exact {E : Env} {o : Options} (hp : o.parser.cmarkLike = true) (hs : o.skipLines ≥ 0) (hk : o.keep ≥ 1) {fn : Str} (hf : fn ≠ "-".toList)
    {pre ms : List Str} {l m t t' : Str} {c : Char} {n : Nat} (h : Reads t (pre ++ l :: ms ++ [m])) (h' : Reads t' (pre ++ [m]))
    (hpre : o.skipLines.toNat ≤ pre.length) (hout : Outside o.parser (pre.drop o.skipLines.toNat))
    (hl : OpensWith l c n) (hm : ∀ x ∈ ms ++ [m], ¬ ClosesWith o.parser x c n) :
    buildToc E o fn (some ⟨t, false⟩) = buildToc E o "-".toList (some ⟨t', false⟩) := by
  have hp' : o.parser ≠ .redcarpet := by intro h0; rw [h0] at hp; exact absurd hp (by decide)
  have hfile : decide (fn ≠ stdinName) = true := decide_eq_true hf
  obtain ⟨vs, -, hv⟩ := seen_outside hout
  have hlm : IsLine m := reads_isLine h m (by simp)
  obtain ⟨b, hb, hne, hb'⟩ := hlm.body
  have hskip : ∀ st : TocState, (¬ ∃ j rest, IsAtx o.parser b j rest) → hdrRun E o [m] st = .ok st := by
    intro st hna
    simp only [hdrRun, bind, Except.bind, hdrStep_not_atx hp hk hb hne hna]
  have hrun : (¬ ∃ j rest, IsAtx o.parser b j rest) → ∀ st, hdrRun E o (vs ++ [m]) st = hdrRun E o (vs ++ []) st := by
    intro hna st
    rw [hdrRun_append, List.append_nil]
    cases hdrRun E o vs st with
    | error e => rfl
    | ok st' => simp only [bind, Except.bind]; exact hskip st' hna
  have left : buildToc E o fn (some ⟨t, false⟩) = (hdrRun E o (vs ++ [m]) (TocState.init o.effMarker)).map TocState.out := by
    have hd : (pre ++ l :: ms ++ [m]).drop o.skipLines.toNat = pre.drop o.skipLines.toNat ++ (l :: ms ++ [m]) := by
      rw [List.append_assoc, List.drop_append_of_le_length hpre]
    by_cases hi : SmallIndent m
    · refine buildToc_seen hs h ?_
      unfold SeenLines
      rw [if_neg hp', hd, hfile]
      exact hv _ _ _ (.lastLine hl (fun x hx => hm x (by simp [hx])) (hm m (by simp)) rfl hi)
    · rw [hrun (indented_not_atx hi hb')]
      refine buildToc_seen hs h ?_
      unfold SeenLines
      rw [if_neg hp', hd, hfile]
      exact hv _ _ _ (.unclosed hl hm (by
        intro _ x hx
        simp at hx
        subst hx
        exact hi))
  have right : buildToc E o "-".toList (some ⟨t', false⟩) = (hdrRun E o (vs ++ [m]) (TocState.init o.effMarker)).map TocState.out := by
    have hd : (pre ++ [m]).drop o.skipLines.toNat = pre.drop o.skipLines.toNat ++ [m] := List.drop_append_of_le_length hpre
    by_cases hop : ∃ c n, OpensWith m c n
    · obtain ⟨c', n', ho⟩ := hop
      rw [hrun (opens_not_atx ho hb')]
      refine buildToc_seen hs h' ?_
      unfold SeenLines
      rw [if_neg hp', hd]
      exact hv _ _ _ (.unclosed ho (by simp) (by simp))
    · refine buildToc_seen hs h' ?_
      unfold SeenLines
      rw [if_neg hp', hd]
      exact hv _ _ _ (.line hop .nil)
  rw [left, right]

/-- A document whose last line is in an unclosed code block. -/
example : Reads "# a\n~~~\n# b\n## c".toList (["# a\n".toList] ++ "~~~\n".toList :: ["# b\n".toList] ++ ["## c".toList]) ∧
    Reads "# a\n## c".toList (["# a\n".toList] ++ ["## c".toList]) ∧ OpensWith "~~~\n".toList '~' 3 ∧
    buildToc asciiEnv {} "f".toList (some ⟨"# a\n~~~\n# b\n## c".toList, false⟩) = .ok "- [a](#a)\n  - [c](#c)\n".toList := by
  refine ⟨(reads_iff (bad := false)).mpr (by decide +kernel), (reads_iff (bad := false)).mpr (by decide +kernel), ⟨0, "\n".toList, by decide⟩, by decide +kernel⟩

/-! ### C71 -/

theorem forall₂_filter_map {l : List (Nat × Str)} {l' : List (Nat × Str)} {R : Str → Str → Prop} (h : List.Forall₂ (fun x y => x.1 = y.1 ∧ R x.2 y.2) l l') (q : Nat → Bool) :
    List.Forall₂ (fun x y => x.1 = y.1 ∧ R x.2 y.2) (l.filter (fun x => q x.1)) (l'.filter (fun x => q x.1)) := by
  induction h with
  | nil => exact .nil
  | @cons x y l l' h1 _ ih =>
    rw [List.filter_cons, List.filter_cons, h1.1]
    split
    · exact .cons h1 ih
    · exact ih

theorem headings_redcarpet {vs : List Str} {hs hs' : List (Nat × Str)} (h : Headings .redcarpet false vs hs) (h' : Headings .redcarpet true vs hs') :
    List.Forall₂ (fun x y => x.1 = y.1 ∧ (x.2 = y.2 ∨ x.2 = y.2 ++ [' '])) hs hs' := by
  induction h generalizing hs' with
  | nil => cases h'; exact .nil
  | other h1 _ ih =>
    cases h' with
    | other _ h2 => exact ih h2
    | heading h2 _ => exact absurd (heading_any ⟨_, _, h2⟩) h1
  | @heading l n t ls hs h1 _ ih =>
    cases h' with
    | other h2 _ => exact absurd (heading_any ⟨_, _, h1⟩) h2
    | @heading _ n' t' _ hs' h2 h3 =>
      refine .cons ?_ (ih h3)
      obtain ⟨body, rest, c, g1, g2⟩ := h2
      rw [if_pos rfl] at g2
      have := heading_unique h1 ⟨body, rest, c, g1, by rw [if_pos rfl]; exact ⟨g2.1, g2.2.1, g2.2.2.1, rfl⟩⟩
      refine ⟨this.1, ?_⟩
      have e := g2.2.2.2
      simp only [Bool.true_eq_false, false_and, if_false] at e
      simp only [this.2, e]
      split
      · exact .inr rfl
      · exact .inl rfl

/-- **C71** for redcarpet: the table with links is built exactly if the one without links is, and it has the same entries; only a blank may be added to a text. -/
theorem C71_redcarpet {E : Env} {o : Options} (hp : o.parser = .redcarpet) {fn text : Str} {vs : List Str} (hv : Looks o fn text vs) {heads : List (Nat × Str)}
    (hh : Headings o.parser true vs heads) (hn : heads.length ≤ 999999999) :
    ((∃ out, buildToc E { o with noLinks := false } fn (some ⟨text, false⟩) = .ok out) ↔ ∃ out, buildToc E { o with noLinks := true } fn (some ⟨text, false⟩) = .ok out) ∧
    ∀ out out', buildToc E { o with noLinks := false } fn (some ⟨text, false⟩) = .ok out → buildToc E { o with noLinks := true } fn (some ⟨text, false⟩) = .ok out' →
      ∃ es es', Table E { o with noLinks := false } vs out es ∧ Table E { o with noLinks := true } vs out' es' ∧
        List.Forall₂ (fun e e' => e.level = e'.level ∧ e.number = e'.number ∧ e.indent = e'.indent ∧ (e.text = e'.text ∨ e.text = e'.text ++ [' '])) es es' := by
  obtain ⟨heads0, hh0⟩ := headings_exists o.parser false vs
  have hrel : List.Forall₂ (fun x y => x.1 = y.1 ∧ (x.2 = y.2 ∨ x.2 = y.2 ++ [' '])) heads0 heads := by
    rw [hp] at hh0 hh
    exact headings_redcarpet hh0 hh
  have hfst : heads0.map Prod.fst = heads.map Prod.fst := (headings_links hh0 hh).1
  have hlen : heads0.length = heads.length := by simpa using congrArg List.length hfst
  constructor
  · have a1 := C75_success (E := E) (o := { o with noLinks := false }) hv hh0 (by omega)
    have a2 := C75_success (E := E) (o := { o with noLinks := true }) hv hh hn
    rw [a1, a2]
    simp only [hfst]
    have any : ∀ a b : List (Nat × Str), a.map Prod.fst = b.map Prod.fst → (∀ x ∈ a, listed o.parser o.keep x.1 = false) → ∀ x ∈ b, listed o.parser o.keep x.1 = false := by
      intro a b hab h x hx
      have : x.1 ∈ a.map Prod.fst := by rw [hab]; exact List.mem_map_of_mem hx
      obtain ⟨y, hy, e⟩ := List.mem_map.mp this
      rw [← e]; exact h y hy
    have r1 : ∀ (nl : Bool) l, Readable E o.parser nl l := fun nl l => .inl hp
    constructor
    · rintro ⟨b1, b2, -, b4, b5⟩
      exact ⟨b1, b2, fun l _ => r1 _ l, b4.imp_right (·.imp_right (any heads0 heads hfst)), b5⟩
    · rintro ⟨b1, b2, -, b4, b5⟩
      exact ⟨b1, b2, fun l _ => r1 _ l, b4.imp_right (·.imp_right (any heads heads0 hfst.symm)), b5⟩
  · intro out out' h h'
    obtain ⟨hs, es, st, hr, ht⟩ := buildToc_run (o := { o with noLinks := false }) h hv
    obtain ⟨hs', es', st', hr', ht'⟩ := buildToc_run (o := { o with noLinks := true }) h' hv
    refine ⟨es, es', ht, ht', ?_⟩
    have t1 := table_levels (o := { o with noLinks := false }) ht hh0
    have t2 := table_levels (o := { o with noLinks := true }) ht' hh
    have e1 := forall₂_filter_map (R := fun a b => a = b ∨ a = b ++ [' ']) hrel (listed o.parser o.keep)
    have hlv : hs'.map (·.headerType) = hs.map (·.headerType) := by
      have a1 := congrArg (List.map Prod.fst) hr.info.1
      have a2 := congrArg (List.map Prod.fst) hr'.info.1
      have a3 := congrArg (List.map Prod.fst) t1
      have a4 := congrArg (List.map Prod.fst) t2
      have a5 : (heads0.filter (fun x => listed o.parser o.keep x.1)).map Prod.fst = (heads.filter (fun x => listed o.parser o.keep x.1)).map Prod.fst := by
        clear * - e1
        revert e1
        generalize heads0.filter (fun x => listed o.parser o.keep x.1) = a
        generalize heads.filter (fun x => listed o.parser o.keep x.1) = b
        intro e1
        induction e1 with
        | nil => rfl
        | cons h1 _ ih => simp only [List.map_cons, h1.1, ih]
      simp only [List.map_map, Function.comp_def, Header.info] at a1 a2 a3 a4
      rw [← a1, ← a2, a3, a4]
      exact a5.symm
    have e2 := (Run.skeleton (o := { o with noLinks := false }) (o' := { o with noLinks := true }) rfl rfl rfl rfl rfl rfl hr hr' hlv).2
    rw [← t1, ← t2] at e1
    clear * - e1 e2
    induction es generalizing es' with
    | nil =>
      cases es' with
      | nil => exact .nil
      | cons y es' => simp at e2
    | cons x es ih =>
      cases es' with
      | nil => simp at e2
      | cons y es' =>
        simp only [List.map_cons] at e1 e2
        simp only [List.cons.injEq, Prod.mk.injEq] at e2
        cases e1 with
        | cons h1 h2 => exact .cons ⟨h1.1, e2.1.2.1.symm, e2.1.2.2.symm, h1.2⟩ (ih es' h2 e2.2)

example : buildToc asciiEnv { parser := .redcarpet } "a.md".toList (some ⟨"# [a][b]\n## c\\\n".toList, false⟩) = .ok "- [[a][b]](#a-b)\n    - [c\\ ](#c)\n".toList ∧
    buildToc asciiEnv { parser := .redcarpet, noLinks := true } "a.md".toList (some ⟨"# [a][b]\n## c\\\n".toList, false⟩) = .ok "- [a][b]\n    - c\\\n".toList := by
  decide +kernel

end MdToc.Props
