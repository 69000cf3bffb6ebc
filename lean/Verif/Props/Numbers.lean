import Verif.Props.Success
import Verif.Props.Document
import Verif.Props.Parsers

/-!
# C24, C33 and C75: the numbers of every table
-/

set_option linter.unusedSimpArgs false

namespace MdToc.Props

open MdToc.Spec

/-- The number of the last entry of level `n`, 0 if there is none; the levels of the entries are given from the last one to the first one. -/
def lastNumber (n : Nat) : List Nat → Nat
  | [] => 0
  | m :: r => if m = n then (if ∃ k ∈ r.head?, k < n then 1 else lastNumber n r + 1) else lastNumber n r

/-- The number of an entry of level `n` after entries of the levels `before`: 1 right behind an entry of a smaller level, else one more than the last entry of the same level. -/
def numberAfter (before : List Nat) (n : Nat) : Nat := if ∃ k ∈ before.getLast?, k < n then 1 else lastNumber n before.reverse + 1

theorem lastNumber_snoc (n : Nat) (before : List Nat) (m : Nat) :
    lastNumber n (before ++ [m]).reverse = if m = n then numberAfter before n else lastNumber n before.reverse := by
  rw [List.reverse_append, List.reverse_singleton, List.singleton_append]
  unfold numberAfter
  rw [lastNumber, List.head?_reverse]

theorem base_number {st : TocState} {L : List Nat} (hpos : ∀ n ∈ L, 1 ≤ n) (hprev : st.prev = (L.getLast?).getD 0) (hcnt : ∀ n, (st.counter n).getD 0 = lastNumber n L.reverse) (c : Nat) :
    (if (st.counter c).isNone ∨ (if st.prev = 0 then c else st.prev) < c then 0 else (st.counter c).getD 0) + 1 = numberAfter L c := by
  unfold numberAfter
  rw [← hcnt]
  cases hl : L.getLast? with
  | none =>
    rw [hl] at hprev
    simp only [Option.getD_none] at hprev
    simp only [hprev, if_true, Nat.lt_irrefl, or_false]
    cases hc : st.counter c <;> simp
  | some k =>
    rw [hl] at hprev
    simp only [Option.getD_some] at hprev
    have hk : 1 ≤ k := hpos k (List.mem_of_getLast? hl)
    have h0 : ¬ k = 0 := by omega
    simp only [hprev, h0, if_false]
    by_cases hkc : k < c
    · rw [if_pos (.inr hkc), if_pos ⟨k, rfl, hkc⟩]
    · rw [if_neg (c := ∃ j ∈ some k, j < c) (by rintro ⟨j, hj, hjc⟩; cases hj; exact hkc hjc)]
      cases hc : st.counter c <;> simp [hkc]

theorem run_numbers {o : Options} {hs : List Header} {es : List Entry} {st' : TocState} {m : Str} (h : Run o (TocState.init m) hs es st') (hc : o.counts = true) :
    (∀ n, (st'.counter n).getD 0 = lastNumber n (es.map (·.level)).reverse) ∧ Each (fun before e => e.number = numberAfter (before.map (·.level)) e.level) es := by
  induction h with
  | nil => exact ⟨fun n => rfl, each_nil⟩
  | @snoc hs es st1 st2 h hr ha ih =>
    obtain ⟨i1, i2⟩ := ih
    have hlev : (entryOf o st2 h).level = h.headerType := rfl
    obtain ⟨j1, j2, j3, j4, j5⟩ := hr.info
    obtain ⟨a1, a2, a3, a4, a5, a6, -⟩ := addHeader_ok ha
    rw [nextCounter, hc, if_pos rfl] at a6
    obtain ⟨b1, b2, -⟩ := increaseIndex_ok a6
    have hpos : ∀ n ∈ es.map (·.level), 1 ≤ n := by
      intro n hn
      obtain ⟨e, he, rfl⟩ := List.mem_map.mp hn
      exact (j4 e he).1
    have key : (st2.counter h.headerType).getD 0 = numberAfter (es.map (·.level)) h.headerType := by
      rw [← base_number hpos j3 i1, b2]
      simp
    refine ⟨fun n => ?_, each_snoc i2 ?_⟩
    · rw [List.map_append, List.map_singleton, hlev, lastNumber_snoc]
      by_cases hn : h.headerType = n
      · rw [if_pos hn, ← hn, key]
      · rw [if_neg hn, ← i1, b2]
        simp only
        rw [if_neg (fun e => hn e.symm)]
    · rw [hlev, ← key]
      simp [entryOf, hc]

/-- **C24**: the numbers of every table, also of those whose levels do not form a proper list. -/
theorem C24_always {E : Env} {o : Options} (h1 : o.ordered = true) (h2 : o.constantOrdered = false) {fn text out : Str}
    (h : buildToc E o fn (some ⟨text, false⟩) = .ok out) {vs : List Str} (hv : Looks o fn text vs) :
    ∃ es, Table E o vs out es ∧ Each (fun before e => e.number = numberAfter (before.map (·.level)) e.level) es := by
  obtain ⟨hs, es, st, hr, ht⟩ := buildToc_run h hv
  exact ⟨es, ht, (run_numbers hr (by simp [Options.counts, Options.effOrdered, h1, h2])).2⟩

/-- The levels for which no number is too large. -/
def NumbersFit (levels : List Nat) : Prop := ∀ pre n post, levels = pre ++ n :: post → numberAfter pre n ≤ 999999999

/-- **C75**: when `build_toc` succeeds, without any bound on the number of headings. -/
theorem C75_exact {E : Env} {o : Options} {fn text : Str} {vs : List Str} (hv : Looks o fn text vs) {heads : List (Nat × Str)}
    (hh : Headings o.parser o.noLinks vs heads) :
    (∃ out, buildToc E o fn (some ⟨text, false⟩) = .ok out) ↔
      o.skipLines ≥ 0 ∧ (vs ≠ [] → o.keep ≥ 1) ∧ (∀ l ∈ vs, Readable E o.parser o.noLinks l) ∧
        (isOrdered o = true ∨ o.listMarker ∈ bullets ∨ ∀ x ∈ heads, listed o.parser o.keep x.1 = false) ∧
        (o.noIndentation = true ∨ o.noListCoherence = true ∨ Coherent ((heads.map Prod.fst).filter (listed o.parser o.keep))) ∧
        (o.ordered = true → o.constantOrdered = false → o.parser ≠ .redcarpet → o.parser ≠ .goldmark → NumbersFit ((heads.map Prod.fst).filter (listed o.parser o.keep))) := by
  constructor
  · rintro ⟨out, h⟩
    have hs := buildToc_skip h
    have hline := looks_isLine hv
    have hmem : ∀ l ∈ vs, ∃ d r, getMdHeader E l d o.keep o.parser o.noLinks = .ok r := by
      obtain ⟨ls, hr, hv'⟩ := hv
      have h := h
      rw [buildToc_seen hs hr hv'] at h
      cases hrun : hdrRun E o vs (TocState.init o.effMarker) with
      | error e => rw [hrun] at h; simp [Except.map] at h
      | ok st =>
        obtain ⟨hs', h1, -⟩ := hdrRun_ok hrun
        exact fun l hl => listedHeaders_mem h1 hl
    have hk : vs ≠ [] → o.keep ≥ 1 := by
      intro hne
      obtain ⟨l, hl⟩ := List.exists_mem_of_ne_nil _ hne
      obtain ⟨d, r, hg⟩ := hmem l hl
      by_contra hk
      simp [getMdHeader, getAtxHeading, hk, bind, Except.bind] at hg
    refine ⟨hs, hk, ?_, ?_, ?_, ?_⟩
    · intro l hl
      obtain ⟨d, r, hg⟩ := hmem l hl
      exact (C75_line (hline l hl) (hk (List.ne_nil_of_mem hl))).mp ⟨r, hg⟩
    · by_cases h1 : isOrdered o = true
      · exact .inl h1
      · by_cases h2 : o.listMarker ∈ bullets
        · exact .inr (.inl h2)
        · exact .inr (.inr (C32_invalid (by simpa using h1) h2 h hv hh).2)
    · by_cases h1 : o.noIndentation = true
      · exact .inl h1
      · by_cases h2 : o.noListCoherence = true
        · exact .inr (.inl h2)
        · exact .inr (.inr (C28_ok_coherent (by simpa using h1) (by simpa using h2) h hv hh))
    · intro h1 h2 h3 h4 pre n post heq
      obtain ⟨hs, es, st, hr, ht⟩ := buildToc_run h hv
      rw [← entry_levels (table_levels ht hh)] at heq
      have hnum := (run_numbers hr (by simp [Options.counts, Options.effOrdered, h1, h2])).2
      have hlim := hr.limit (by cases hq : o.parser <;> simp_all [Parser.limited])
      obtain ⟨pre', x, rfl, rfl, hx⟩ := List.map_eq_append_iff.mp heq
      obtain ⟨e, post', rfl, rfl, rfl⟩ := List.map_eq_cons_iff.mp hx
      rw [← hnum pre' e post' rfl]
      exact hlim e (by simp)
  · rintro ⟨hs, hk, hread, hm, hc, hfit⟩
    cases hbt : buildToc E o fn (some ⟨text, false⟩) with
    | ok out => exact ⟨out, rfl⟩
    | error e =>
      exfalso
      obtain ⟨pre, l, post, hds, es, st, d, rfl, hline, hrun, ht, hlev, hprev, h | ⟨n, t, a, d', h1, h2, h3, h4, h5, h6⟩⟩ := buildToc_failed hs hbt hv
      · obtain ⟨r, hr⟩ := (C75_line (d := d) hline (hk (by simp))).mpr (hread l (by simp))
        rw [hr] at h
        simp at h
      · rcases addHeader_err h6 h4 h5 hprev with ⟨rfl, hnc⟩ | ⟨rfl, -, -⟩ | ⟨-, hmk⟩
        · obtain ⟨-, hcnt, hlim, hlt⟩ := nextCounter_err hnc h4
          obtain ⟨j1, j2, j3, j4, j5⟩ := hrun.info
          have hpos : ∀ n ∈ es.map (·.level), 1 ≤ n := by
            intro n hn
            obtain ⟨e, he, rfl⟩ := List.mem_map.mp hn
            exact (j4 e he).1
          have hbase := base_number (c := n) hpos j3 (run_numbers hrun hcnt).1
          simp only at hbase hlt
          rw [hbase] at hlt
          obtain ⟨h', hh'⟩ := headings_exists o.parser o.noLinks pre
          obtain ⟨h'', hh''⟩ := headings_exists o.parser o.noLinks post
          have hcc : o.ordered = true ∧ o.constantOrdered = false := by
            unfold Options.counts Options.effOrdered at hcnt
            simp at hcnt
            cases h1 : o.constantOrdered <;> simp_all
          have hb := hfit hcc.1 hcc.2 (by intro hq; rw [hq] at hlim; simp [Parser.limited] at hlim) (by intro hq; rw [hq] at hlim; simp [Parser.limited] at hlim)
            (es.map (·.level)) n ((h''.map Prod.fst).filter (listed o.parser o.keep)) (by
              rw [headings_unique hh (headings_append hh' (.heading h1 hh'')), entry_levels (table_levels ht hh')]
              simp [h3])
          have e9 : maxMarkerNumber = 999999999 := rfl
          omega
        · obtain ⟨g1, g2, g3⟩ := C28_error_incoherent hbt hv hh
          rcases hc with hc | hc | hc
          · rw [hc] at g1; simp at g1
          · rw [hc] at g2; simp at g2
          · exact g3 hc
        · rw [markerOk_eq] at hmk
          simp only [Bool.or_eq_false_iff, decide_eq_false_iff_not] at hmk
          rcases hm with hm | hm | hm
          · unfold isOrdered at hm
            simp_all
          · exact hmk.2 hm
          · have := hm _ (headings_mem hh (l := l) (by simp) h1)
            rw [h3] at this
            simp at this

/-! ### A document at the limit -/

theorem numberAfter_ones (k : Nat) : numberAfter (List.replicate k 1) 1 = k + 1 := by
  have h : ∀ k, lastNumber 1 (List.replicate k 1) = k := by
    intro k
    induction k with
    | zero => rfl
    | succ k ih =>
      rw [List.replicate_succ, lastNumber, if_pos rfl, ih]
      rw [if_neg]
      rintro ⟨j, hj, hj1⟩
      cases k with
      | zero => simp at hj
      | succ k => simp [List.replicate_succ] at hj; omega
  unfold numberAfter
  rw [if_neg, List.reverse_replicate, h]
  rintro ⟨j, hj, hj1⟩
  have := (List.mem_replicate.mp (List.mem_of_getLast? hj)).2
  omega

theorem simple_ones (k : Nat) : Simple (List.replicate k "# a\n".toList) (List.replicate k (1, ['a'])) := by
  induction k with
  | zero => exact .nil
  | succ k ih =>
    rw [List.replicate_succ, List.replicate_succ]
    exact .heading (n := 1) (s := ['a']) (by omega) (by omega) ⟨by decide, by decide, by decide, by decide, by decide⟩ ih

theorem looks_ones {o : Options} (hp : o.parser ≠ .redcarpet) (hs : o.skipLines = 0) (fn : Str) (k : Nat) :
    ∃ vs, Looks o fn (List.replicate k "# a\n".toList).flatten vs ∧ Headings o.parser o.noLinks vs (List.replicate k (1, ['a'])) := by
  obtain ⟨vs, hv, hh⟩ := simple_seen hp (decide (fn ≠ "-".toList)) o.noLinks (simple_ones k)
  have hr : Reads (List.replicate k "# a\n".toList).flatten (List.replicate k "# a\n".toList) := by
    have := reads_lines (simple_reads (simple_ones k)) .nil
    simpa using this
  refine ⟨vs, ⟨_, hr, ?_⟩, hh⟩
  rw [hs]
  unfold SeenLines
  rw [if_neg hp]
  exact hv

/-- **C33**: a document with `k` headings of level 1. With `cmark` there is a table exactly if `k` is at most 999999999, with `goldmark` there always is one. -/
theorem C33_reached (fn : Str) (k : Nat) :
    (∃ out, buildToc asciiEnv { ordered := true, parser := .goldmark } fn (some ⟨(List.replicate k "# a\n".toList).flatten, false⟩) = .ok out) ∧
      if k ≤ 999999999 then
        buildToc asciiEnv { ordered := true, parser := .cmark } fn (some ⟨(List.replicate k "# a\n".toList).flatten, false⟩) =
          buildToc asciiEnv { ordered := true, parser := .goldmark } fn (some ⟨(List.replicate k "# a\n".toList).flatten, false⟩)
      else buildToc asciiEnv { ordered := true, parser := .cmark } fn (some ⟨(List.replicate k "# a\n".toList).flatten, false⟩) = .error .GithubOverflowOrderedListMarker := by
  have hread : ∀ p : Parser, p.cmarkLike = true → Readable asciiEnv p false "# a\n".toList := by
    intro p hp
    have hline : IsLine "# a\n".toList := ⟨"# a".toList, by decide, .inl rfl, fun c hc h => by
      have : ∀ c ∈ "# a".toList, c ≠ '\n' ∧ c ≠ '\r' := by decide
      exact h.elim (this c hc).1 (this c hc).2⟩
    refine (C75_line (d := fun _ => 0) hline (keep := 3) (by decide)).mp ?_
    have hok : (getMdHeader asciiEnv "# a\n".toList (fun _ => 0) 3 p false).isOk = true := by
      cases p
      case redcarpet => exact absurd hp (by decide)
      all_goals decide +kernel
    cases h : getMdHeader asciiEnv "# a\n".toList (fun _ => 0) 3 p false with
    | error e => rw [h] at hok; exact absurd hok (by simp [Except.isOk, Except.toBool])
    | ok r => exact ⟨r, rfl⟩
  have hlev : ∀ p : Parser, p ≠ .redcarpet → ((List.replicate k (1, ['a'])).map Prod.fst).filter (listed p 3) = List.replicate k 1 := by
    intro p hp
    rw [List.map_replicate, List.filter_replicate]
    rw [if_pos]
    unfold listed
    simp
  have hcoh : Coherent (List.replicate k 1) := by
    refine ⟨?_, ?_⟩
    · intro f hf m hm
      have h1 := (List.mem_replicate.mp (List.mem_of_head? hf)).2
      have h2 := (List.mem_replicate.mp hm).2
      omega
    · intro pre a b post h
      have h1 := (List.mem_replicate.mp (show a ∈ List.replicate k 1 by rw [h]; simp)).2
      have h2 := (List.mem_replicate.mp (show b ∈ List.replicate k 1 by rw [h]; simp)).2
      omega
  have hfit : NumbersFit (List.replicate k 1) ↔ k ≤ 999999999 := by
    constructor
    · intro h
      cases k with
      | zero => omega
      | succ k =>
        have := h (List.replicate k 1) 1 [] (List.replicate_succ' ..)
        rw [numberAfter_ones] at this
        omega
    · intro hk pre n post h
      have hlen := congrArg List.length h
      simp at hlen
      have hn : n = 1 := (List.mem_replicate.mp (show n ∈ List.replicate k 1 by rw [h]; simp)).2
      have hpre : pre = List.replicate pre.length 1 := by
        refine List.eq_replicate_of_mem (fun m hm => ?_)
        exact (List.mem_replicate.mp (show m ∈ List.replicate k 1 by rw [h]; simp [hm])).2
      rw [hn, hpre, numberAfter_ones]
      omega
  have hall : ∀ p : Parser, p ≠ .redcarpet → ((∃ out, buildToc asciiEnv { ordered := true, parser := p } fn (some ⟨(List.replicate k "# a\n".toList).flatten, false⟩) = .ok out) ↔
      (p ≠ .goldmark → k ≤ 999999999)) := by
    intro p hp
    obtain ⟨vs, hv, hh⟩ := looks_ones (o := { ordered := true, parser := p }) hp rfl fn k
    rw [C75_exact hv hh]
    have hvs : ∀ l ∈ vs, l = "# a\n".toList := by
      obtain ⟨ls, hr, hv⟩ := hv
      intro l hl
      unfold SeenLines at hv
      rw [if_neg hp] at hv
      have hls : ls = List.replicate k "# a\n".toList := by
        have h0 : Reads (List.replicate k "# a\n".toList).flatten (List.replicate k "# a\n".toList) := by
          have := reads_lines (simple_reads (simple_ones k)) .nil
          simpa using this
        exact (reads_iff (bad := false) |>.mp hr).symm.trans (reads_iff (bad := false) |>.mp h0)
      have := seen_mem hv l hl
      rw [hls] at this
      exact (List.mem_replicate.mp (List.mem_of_mem_drop this)).2
    simp only [hlev p hp, hfit]
    constructor
    · rintro ⟨-, -, -, -, -, h⟩ hg
      exact h trivial trivial hp hg
    · intro h
      refine ⟨by decide, fun _ => by decide, fun l hl => ?_, .inl rfl, .inr (.inr hcoh), fun _ _ _ hg => h hg⟩
      rw [hvs l hl]
      exact hread p (cmarkLike_of_ne hp)
  have hgold := (hall .goldmark (by decide)).mpr (fun h => absurd rfl h)
  refine ⟨hgold, ?_⟩
  have hsame := C83_cmark_goldmark asciiEnv { ordered := true } fn ⟨(List.replicate k "# a\n".toList).flatten, false⟩
  have hcm := hall .cmark (by decide)
  split
  · rename_i hk
    rcases hsame with h | h
    · exact h
    · obtain ⟨out, ho⟩ := hcm.mpr (fun _ => hk)
      exact absurd (h.symm.trans ho) (by simp)
  · rename_i hk
    rcases hsame with h | h
    · exfalso
      obtain ⟨out, ho⟩ := hgold
      exact hk (hcm.mp ⟨out, h.trans ho⟩ (by decide))
    · exact h

/-- The numbers of a list that is not a proper one: the last entry is numbered after the last one of level 3, although it has another parent (see `C24_violation`). -/
example : numberAfter [1, 3, 2] 3 = 1 ∧ numberAfter [1, 3, 2, 4] 3 = 2 ∧ numberAfter [2, 3, 1, 2] 2 = 2 ∧ siblingNumber [2, 3, 1, 2] 2 = 2 ∧
    numberAfter [1, 3, 2, 4] 3 ≠ siblingNumber [1, 3, 2, 4] 3 := by decide +kernel

/-! ### The indentation of every table -/

/-- The indentation of the last entry of level `n` with no entry of a smaller level behind it, 0 if there is none. -/
def lastIndent (n : Nat) (before : List Entry) : Nat :=
  (((before.reverse.takeWhile (fun e => n ≤ e.level)).find? (fun e => e.level = n)).map (·.indent)).getD 0

/-- The indentation of an entry after the entries `before`: right behind an entry of a smaller level it starts below the content of that entry, else it is the one of the last entry of
the same level in the same list. -/
def IndentedAfter (ordered : Bool) (marker : Str) (before : List Entry) (e : Entry) : Prop :=
  match before.getLast? with
  | none => e.indent = 0
  | some q => if q.level < e.level then e.indent = q.indent + (markerText ordered marker q.number).length + 1 else e.indent = lastIndent e.level before

theorem lastIndent_snoc (n : Nat) (before : List Entry) (e : Entry) :
    lastIndent n (before ++ [e]) = if e.level < n then 0 else if e.level = n then e.indent else lastIndent n before := by
  unfold lastIndent
  rw [List.reverse_append, List.reverse_singleton, List.singleton_append, List.takeWhile_cons]
  by_cases h : e.level < n
  · rw [if_pos h, if_neg (by simp; omega)]
    rfl
  · rw [if_neg h, if_pos (by simp; omega), List.find?_cons]
    by_cases h' : e.level = n
    · simp [h']
    · simp [h']

theorem computeIndent_above {curr prev : Nat} {p : Parser} {ordered : Bool} {marker : Str} {log log' : Log} {index : Nat}
    (h : computeIndent curr prev p ordered marker log index = .ok log') (hp : p.cmarkLike = true) {i : Nat} (hi : curr < i) (hi6 : i ≤ 6) :
    (log' i).spaces = if prev ≠ 0 ∧ curr < prev then 0 else (log i).spaces := by
  unfold computeIndent at h
  split at h
  · simp at h
  split at h
  · simp at h
  split at h
  · simp at h
  split at h
  · simp at h
  split at h
  · simp at h
  simp only at h
  have h := Except.ok.inj h
  rw [← h]
  have hne : i ≠ curr := by omega
  by_cases h0 : prev = 0
  · cases ordered <;> simp [Log.set, hne, h0]
  · by_cases h1 : curr > prev
    · have : ¬ curr < prev := by omega
      cases ordered <;> simp [Log.set, hne, h0, h1, this]
    · by_cases h2 : curr < prev
      · cases ordered <;> simp [Log.set, hne, h0, h1, h2, resetBelow, hi, hi6, maxLevels]
      · cases ordered <;> simp [Log.set, hne, h0, h1, h2]

theorem run_indents {o : Options} {hs : List Header} {es : List Entry} {st' : TocState} {m : Str} (h : Run o (TocState.init m) hs es st')
    (hc : o.parser.cmarkLike = true) (hni : o.noIndentation = false) :
    (∀ n, 1 ≤ n → n ≤ 6 → (st'.log n).spaces = lastIndent n es) ∧
    (∀ q ∈ es.getLast?, (st'.log q.level).marker = o.effMarker ∧ (o.effOrdered = true → (st'.log q.level).index = q.number)) ∧
    Each (IndentedAfter o.effOrdered o.effMarker) es := by
  induction h with
  | nil => exact ⟨fun n _ _ => rfl, by simp, each_nil⟩
  | @snoc hs es st1 st2 h hr ha ih =>
    have hlev : (entryOf o st2 h).level = h.headerType := rfl
    have hind : (entryOf o st2 h).indent = (st2.log h.headerType).spaces := by simp [entryOf, hni]
    obtain ⟨i1, i2, i3⟩ := ih
    obtain ⟨j1, j2, j3, j4, j5⟩ := hr.info
    have hle6 := hr.levels hni
    obtain ⟨a1, a2, a3, a4, a5, a6, a7, a8⟩ := addHeader_ok ha
    obtain ⟨-, b2, b3⟩ := a8 hni
    obtain ⟨c1, c2, -, c3⟩ := computeIndent_ok b3
    obtain ⟨d1, d2, d3, d4⟩ := c3 hc
    have dab := fun i hi hi6 => computeIndent_above b3 hc (i := i) hi hi6
    have hprev : st1.prev ≠ 0 → prevFor o st1 h.headerType = st1.prev := by
      intro h0
      have : (st1.prev == 0) = false := by simpa using h0
      simp [prevFor, this]
    refine ⟨?_, ?_, each_snoc i3 ?_⟩
    · intro n hn1 hn6
      rw [lastIndent_snoc, hlev]
      by_cases h1 : h.headerType < n
      · rw [if_pos h1, dab n h1 hn6]
        rcases List.eq_nil_or_concat es with hes | ⟨es', x, hes⟩
        · obtain ⟨hst, -⟩ := hr.nil_inv hes
          rw [hst]
          split <;> rfl
        · rw [List.concat_eq_append] at hes
          have hx : 1 ≤ x.level := (j4 x (by rw [hes]; simp)).1
          have hp : st1.prev = x.level := by rw [j3, hes]; simp
          have hp0 : st1.prev ≠ 0 := by omega
          rw [hprev hp0]
          by_cases h2 : h.headerType < st1.prev
          · rw [if_pos ⟨hp0, h2⟩]
          · rw [if_neg (fun h' => h2 h'.2), i1 n hn1 hn6, hes, lastIndent_snoc, if_pos (by omega)]
      · rw [if_neg h1]
        by_cases h2 : h.headerType = n
        · rw [if_pos h2, hind, h2]
        · rw [if_neg h2, d1 n (by omega)]
          exact i1 n hn1 hn6
    · intro q hq
      have : q = entryOf o st2 h := by simpa using hq.symm
      subst this
      exact ⟨d2, d3⟩
    · unfold IndentedAfter
      rw [hind, d4, hlev]
      rcases List.eq_nil_or_concat es with hes | ⟨es', x, hes⟩
      · obtain ⟨hst, -⟩ := hr.nil_inv hes
        rw [hes, hst]
        cases hn : o.noListCoherence <;> simp [prevFor, hn, TocState.init, initLog_spaces]
      · rw [List.concat_eq_append] at hes
        have hx : 1 ≤ x.level := (j4 x (by rw [hes]; simp)).1
        have hx6 : x.level ≤ 6 := hle6 x (by rw [hes]; simp)
        have hp : st1.prev = x.level := by rw [j3, hes]; simp
        have hp0 : st1.prev ≠ 0 := by omega
        have hlast : es.getLast? = some x := by rw [hes]; simp
        rw [hprev hp0, if_neg hp0, hlast]
        simp only
        obtain ⟨k1, k2⟩ := i2 x (by rw [hlast]; rfl)
        by_cases h2 : x.level < h.headerType
        · rw [if_pos h2, if_pos (show h.headerType > st1.prev by omega), hp, k1, i1 x.level hx hx6, hes, lastIndent_snoc, if_neg (by omega), if_pos rfl]
          cases ho : o.effOrdered
          · simp [markerText]
          · rw [k2 ho]
            simp [markerText, natStr_eq]
            omega
        · rw [if_neg h2, if_neg (show ¬ h.headerType > st1.prev by omega)]
          exact i1 _ a3 c2

/-- **C26**: the indentation of every table, also of those whose levels do not form a proper list. -/
theorem C26_always {E : Env} {o : Options} (hp : o.parser ≠ .redcarpet) (h1 : o.noIndentation = false) {fn text out : Str}
    (h : buildToc E o fn (some ⟨text, false⟩) = .ok out) {vs : List Str} (hv : Looks o fn text vs) :
    ∃ es, Table E o vs out es ∧ Each (IndentedAfter (isOrdered o) (usedMarker o.parser (isOrdered o) o.listMarker)) es := by
  obtain ⟨hs, es, st, hr, ht⟩ := buildToc_run h hv
  refine ⟨es, ht, ?_⟩
  rw [← effMarker_eq, ← effOrdered_eq]
  exact (run_indents hr (cmarkLike_of_ne hp) h1).2.2

/-- The hypotheses hold for a document whose levels do not form a proper list: the third entry goes back to the left, where no entry of its level is. -/
example : buildToc asciiEnv { ordered := true, noListCoherence := true, keep := 6 } ['f'] (some ⟨"# a\n### b\n## c\n### d\n#### e\n### f\n## g\n".toList, false⟩) =
    .ok "1. [a](#a)\n   1. [b](#b)\n1. [c](#c)\n   1. [d](#d)\n      1. [e](#e)\n   2. [f](#f)\n2. [g](#g)\n".toList := by decide +kernel

end MdToc.Props
