import Verif.Props.TocMore
import Verif.Lemmas.Stable
import Mathlib.Data.List.Induction

/-!
# Tables of related documents and options: C68 to C71
-/

set_option linter.unusedSimpArgs false

namespace MdToc

open MdToc.Spec MdToc.Props

/-! ### Lines of a document with more lines at the end -/

theorem split_first {P : Str → Prop} (b : List Str) : (∀ x ∈ b, ¬ P x) ∨ ∃ b1 e b2, b = b1 ++ e :: b2 ∧ (∀ x ∈ b1, ¬ P x) ∧ P e := by
  induction b with
  | nil => exact .inl (by simp)
  | cons x b ih =>
    by_cases hx : P x
    · exact .inr ⟨[], x, b, rfl, by simp, hx⟩
    · rcases ih with h | ⟨b1, e, b2, rfl, h1, h2⟩
      · exact .inl (by simpa using ⟨hx, h⟩)
      · exact .inr ⟨x :: b1, e, b2, rfl, by simpa using ⟨hx, h1⟩, h2⟩

/-- On the standard input what is looked at does not depend on what follows. -/
theorem seen_stdin_append {p : Parser} {a vs : List Str} (h : Seen p false a vs) (b : List Str) : ∃ w, Seen p false (a ++ b) (vs ++ w) := by
  induction h with
  | nil => exact seen_exists p false b
  | line hl _ ih => obtain ⟨w, h⟩ := ih; exact ⟨w, .line hl h⟩
  | @block l c n ms e ls vs ho hm he _ ih =>
    obtain ⟨w, h⟩ := ih
    refine ⟨w, ?_⟩
    have := Seen.block ho hm he h
    simpa using this
  | @unclosed l c n ms ho hm _ =>
    rcases split_first (P := fun x => ClosesWith p x c n) b with hb | ⟨b1, e, b2, rfl, h1, h2⟩
    · exact ⟨[], .unclosed ho (by intro m h; rcases List.mem_append.mp h with h | h; exacts [hm m h, hb m h]) (by simp)⟩
    · obtain ⟨w, hw⟩ := seen_exists p false b2
      refine ⟨e :: w, ?_⟩
      have := Seen.block (ms := ms ++ b1) ho (by intro m h; rcases List.mem_append.mp h with h | h; exacts [hm m h, h1 m h]) h2 hw
      simpa using this
  | lastLine _ _ _ h => simp at h

/-- Outside of code blocks the end of a file and of the standard input are the same. -/
theorem seen_outside {p : Parser} {a : List Str} (ho : Outside p a) : ∃ vs, (∀ file, Seen p file a vs) ∧ ∀ file b vb, Seen p file b vb → Seen p file (a ++ b) (vs ++ vb) := by
  have key : ∃ vs, ∀ file b vb, Seen p file b vb → Seen p file (a ++ b) (vs ++ vb) := by
    induction ho with
    | nil => exact ⟨[], fun _ b' vb' h => h⟩
    | @line ls l _ hl ih =>
      obtain ⟨vs, h⟩ := ih
      refine ⟨vs ++ [l], fun file b' vb' hb => ?_⟩
      rw [List.append_assoc, List.append_assoc]
      exact h file _ _ (.line hl hb)
    | @block ls l c n ms e _ hl hm he ih =>
      obtain ⟨vs, h⟩ := ih
      refine ⟨vs ++ [e], fun file b' vb' hb => ?_⟩
      rw [List.append_assoc, List.append_assoc, List.append_assoc]
      exact h file _ _ (.block hl hm he hb)
  obtain ⟨vs, h⟩ := key
  exact ⟨vs, fun file => by simpa using h file [] [] .nil, h⟩

/-- A run over more lines starts with the run over the first ones. -/
theorem hdrRun_prefix {E : Env} {o : Options} {va vb : List Str} {st st2 : TocState} (h : hdrRun E o (va ++ vb) st = .ok st2) :
    ∃ st1, hdrRun E o va st = .ok st1 ∧ st1.out <+: st2.out := by
  rw [hdrRun_append] at h
  cases ha : hdrRun E o va st with
  | error e => rw [ha] at h; simp [bind, Except.bind] at h
  | ok st1 =>
    rw [ha] at h
    refine ⟨st1, rfl, ?_⟩
    obtain ⟨hs, -, st3, h2, d, h3⟩ := hdrRun_ok (show hdrRun E o vb st1 = .ok st2 from h)
    obtain ⟨es, hr⟩ := run_of_addRun h2
    have := hr.info.2.1
    unfold TocState.out
    rw [h3]
    simp only
    rw [this, List.flatten_append]
    exact List.prefix_append _ _

/-! ### Levels -/

theorem each_snoc_iff {α : Type} {P : List α → α → Prop} {es : List α} {e : α} : Each P (es ++ [e]) ↔ Each P es ∧ P es e := by
  constructor
  · intro h
    exact ⟨fun pre x post heq => h pre x (post ++ [e]) (by rw [heq]; simp), h es e [] rfl⟩
  · rintro ⟨h1, h2⟩
    exact each_snoc h1 h2

theorem each_filter {α : Type} {P : List α → α → Prop} {q : α → Bool} (hq : ∀ b e, q e = true → P b e → P (b.filter q) e) {es : List α} (h : Each P es) : Each P (es.filter q) := by
  induction es using List.reverseRecOn with
  | nil => exact each_nil
  | append_singleton es e ih =>
    obtain ⟨h1, h2⟩ := each_snoc_iff.mp h
    rw [List.filter_append]
    by_cases he : q e = true
    · rw [List.filter_cons_of_pos he]
      exact each_snoc (ih h1) (hq _ _ he h2)
    · rw [List.filter_cons_of_neg he]
      simpa using ih h1

/-- The entries are determined by their levels, texts and anchors if the number and the indentation depend on the entries before only. -/
theorem entries_ext {N I : List Entry → Nat → Nat} {es es' : List Entry} (h : es.map (fun e => (e.level, e.text, e.anchor)) = es'.map (fun e => (e.level, e.text, e.anchor)))
    (h1 : Each (fun b e => e.number = N b e.level ∧ e.indent = I b e.level) es) (h2 : Each (fun b e => e.number = N b e.level ∧ e.indent = I b e.level) es') : es = es' := by
  induction es using List.reverseRecOn generalizing es' with
  | nil => simpa using h.symm
  | append_singleton es e ih =>
    rw [List.map_append] at h
    obtain ⟨es1, es2, rfl, e1, e2⟩ := List.map_eq_append_iff.mp h.symm
    obtain ⟨e', es3, rfl, e3, e4⟩ := List.map_eq_cons_iff.mp e2
    have : es3 = [] := by simpa using e4
    subst this
    obtain ⟨g1, g2⟩ := each_snoc_iff.mp h1
    obtain ⟨g3, g4⟩ := each_snoc_iff.mp h2
    have := ih e1.symm g1 g3
    subst this
    simp only [Prod.mk.injEq] at e3
    obtain ⟨l1, l2, l3⟩ := e3
    rw [l1] at g4
    obtain ⟨n1, n2⟩ := g2
    obtain ⟨n3, n4⟩ := g4
    congr 2
    cases e
    cases e'
    simp_all

theorem takeWhile_filter {L : List Nat} {q : Nat → Bool} {n : Nat} (hq : ∀ m, q m = false → n ≤ m) :
    (L.filter q).takeWhile (fun m => decide (n ≤ m)) = (L.takeWhile (fun m => decide (n ≤ m))).filter q := by
  induction L with
  | nil => rfl
  | cons x L ih =>
    by_cases hx : q x = true
    · rw [List.filter_cons_of_pos hx, List.takeWhile_cons, List.takeWhile_cons]
      split
      · rw [List.filter_cons_of_pos hx, ih]
      · rfl
    · have := hq x (by simpa using hx)
      rw [List.filter_cons_of_neg hx, List.takeWhile_cons, if_pos (by simpa using this), List.filter_cons_of_neg hx, ih]

/-- Deeper entries do not count. -/
theorem siblingNumber_filter {L : List Nat} {q : Nat → Bool} {n : Nat} (hn : q n = true) (hq : ∀ m, q m = false → n ≤ m) : siblingNumber (L.filter q) n = siblingNumber L n := by
  unfold siblingNumber
  rw [← List.filter_reverse, takeWhile_filter hq, List.count_filter hn]

/-- Deeper entries are not parents. -/
theorem parent_filter {es : List Entry} {q : Nat → Bool} {n : Nat} (hq : ∀ m, q m = false → n ≤ m) : parent (es.filter (fun e => q e.level)) n = parent es n := by
  unfold parent
  rw [← List.filter_reverse, List.find?_filter]
  congr 1
  funext e
  cases h : q e.level
  · have := hq _ h
    simp; omega
  · simp

/-- Without its deepest levels a proper list is a proper list. -/
theorem coherent_filter {L : List Nat} (k : Int) (h : Coherent L) : Coherent (L.filter (fun m : Nat => decide ((m : Int) ≤ k))) ∧
    ∀ a ∈ L.getLast?, k < (a : Int) → ∀ b ∈ (L.filter (fun m : Nat => decide ((m : Int) ≤ k))).getLast?, k ≤ (b : Int) := by
  induction L using List.reverseRecOn with
  | nil => exact ⟨coherent_nil, by simp⟩
  | append_singleton L n ih =>
    obtain ⟨h1, h2, h3⟩ := coherent_snoc.mp h
    obtain ⟨i1, i2⟩ := ih h1
    rw [List.filter_append]
    by_cases hn : (n : Int) ≤ k
    · rw [List.filter_cons_of_pos (by simpa using hn), List.filter_nil]
      refine ⟨coherent_snoc.mpr ⟨i1, ?_, ?_⟩, ?_⟩
      · intro f hf
        cases L with
        | nil => simp at hf
        | cons x L =>
          have := h2 x (by simp)
          rw [List.filter_cons_of_pos (by simp; omega)] at hf
          simp at hf
          omega
      · intro a ha
        rcases List.eq_nil_or_concat L with rfl | ⟨L', x, rfl⟩
        · simp at ha
        · rw [List.concat_eq_append] at *
          have hx := h3 x (by simp)
          by_cases hxk : (x : Int) ≤ k
          · rw [List.filter_append, List.filter_cons_of_pos (by simpa using hxk)] at ha
            simp at ha
            omega
          · have := i2 x (by simp) (by omega) a ha
            omega
      · intro a ha
        simp at ha
        omega
    · rw [List.filter_cons_of_neg (by simpa using hn), List.filter_nil, List.append_nil]
      refine ⟨i1, ?_⟩
      intro a ha hak b hb
      rcases List.eq_nil_or_concat L with rfl | ⟨L', x, rfl⟩
      · simp at hb
      · rw [List.concat_eq_append] at *
        have hx := h3 x (by simp)
        by_cases hxk : (x : Int) ≤ k
        · rw [List.filter_append, List.filter_cons_of_pos (by simpa using hxk)] at hb
          simp at hb
          omega
        · exact i2 x (by simp) (by omega) b hb

/-- The number of an entry after others. -/
def numberOf (counts : Bool) (b : List Entry) (n : Nat) : Nat := if counts then siblingNumber (b.map (·.level)) n else 1

/-- The indentation of an entry after others. -/
def indentOf (flat ordered : Bool) (marker : Str) (b : List Entry) (n : Nat) : Nat :=
  if flat then 0 else match parent b n with
  | none => 0
  | some q => q.indent + (markerText ordered marker q.number).length + 1

theorem Run.determined {o : Options} {hs : List Header} {es : List Entry} {st : TocState} {m : Str} (h : Run o (TocState.init m) hs es st) (hp : o.parser ≠ .redcarpet)
    (hc : (o.noIndentation = true ∧ o.counts = false) ∨ Coherent (es.map (·.level))) :
    Each (fun b e => e.number = numberOf o.counts b e.level ∧ e.indent = indentOf o.noIndentation o.effOrdered o.effMarker b e.level) es := by
  have h1 : Each (fun b e => e.number = numberOf o.counts b e.level) es := by
    unfold numberOf
    cases hco : o.counts with
    | false =>
      intro pre e post heq
      exact h.no_count hco e (by rw [heq]; simp)
    | true =>
      rcases hc with hc | hc
      · rw [hco] at hc; simp at hc
      · exact (h.numbers hco hc).2
  have h2 : Each (fun b e => e.indent = indentOf o.noIndentation o.effOrdered o.effMarker b e.level) es := by
    unfold indentOf
    cases hni : o.noIndentation with
    | true =>
      intro pre e post heq
      exact h.no_indent hni e (by rw [heq]; simp)
    | false =>
      rcases hc with hc | hc
      · rw [hni] at hc; simp at hc
      · have := (h.nested (cmarkLike_of_ne hp) hni hc).2
        intro pre e post heq
        have := this pre e post heq
        unfold Nested at this
        simp only [Bool.false_eq_true, if_false]
        split <;> simp_all
  exact fun pre e post heq => ⟨h1 pre e post heq, h2 pre e post heq⟩

/-- The entries with a smaller limit, if both tables are built. -/
theorem levels_entries {E : Env} {o : Options} (hp : o.parser ≠ .redcarpet) {k : Int} (hk : k ≤ o.keep) {vs : List Str} {out out' : Str} {hs hs' : List Header} {es es' : List Entry}
    {st st' : TocState} (hr : Run o (TocState.init o.effMarker) hs es st) (ht : Table E o vs out es) (hr' : Run { o with keep := k } (TocState.init o.effMarker) hs' es' st')
    (ht' : Table E { o with keep := k } vs out' es') (hc : (o.noIndentation = true ∧ o.counts = false) ∨ Coherent (es.map (·.level))) :
    es' = es.filter (fun e => decide ((e.level : Int) ≤ k)) := by
  obtain ⟨⟨heads, as, d, g1, g2, g3, g4⟩, -⟩ := ht
  obtain ⟨⟨heads', as', d', g1', g2', g3', g4'⟩, -⟩ := ht'
  simp only at g1' g2' g4'
  have := headings_unique g1 g1'
  subst this
  rw [g2] at g2'
  injection g2' with g2'
  injection g2' with g2'
  subst g2'
  have hmap : es'.map (fun e => (e.level, e.text, e.anchor)) = (es.filter (fun e => decide ((e.level : Int) ≤ k))).map (fun e => (e.level, e.text, e.anchor)) := by
    rw [g4']
    have e1 : (es.filter (fun e => decide ((e.level : Int) ≤ k))).map (fun e => (e.level, e.text, e.anchor)) =
        (es.map (fun e => (e.level, e.text, e.anchor))).filter (fun x => decide ((x.1 : Int) ≤ k)) := by
      rw [List.filter_map]; rfl
    rw [e1, g4, List.filter_map, List.filter_filter]
    congr 1
    apply List.filter_congr
    intro x _
    simp only [listed, hp, decide_false, Bool.false_or, Function.comp]
    by_cases hx : ((x.1.1 : Nat) : Int) ≤ k
    · have : ((x.1.1 : Nat) : Int) ≤ o.keep := by omega
      simp [hx, this]
    · simp [hx]
  have hlev : es'.map (·.level) = (es.map (·.level)).filter (fun m : Nat => decide ((m : Int) ≤ k)) := by
    have := congrArg (List.map Prod.fst) hmap
    simp only [List.map_map, Function.comp_def] at this
    rw [this, List.filter_map]
    rfl
  refine entries_ext hmap (hr'.determined (o := { o with keep := k }) hp ?_) (each_filter ?_ (hr.determined hp hc))
  · rcases hc with hc | hc
    · exact .inl hc
    · exact .inr (by rw [hlev]; exact (coherent_filter k hc).1)
  · intro b e he ⟨h1, h2⟩
    have hq : ∀ m : Nat, decide ((m : Int) ≤ k) = false → e.level ≤ m := by
      intro m hm
      simp at hm he
      omega
    have e1 : (b.filter (fun e => decide ((e.level : Int) ≤ k))).map (·.level) = (b.map (·.level)).filter (fun m : Nat => decide ((m : Int) ≤ k)) := by
      rw [List.filter_map]; rfl
    refine ⟨?_, ?_⟩
    · rw [h1]
      show numberOf o.counts _ _ = numberOf o.counts _ _
      unfold numberOf
      rw [e1, siblingNumber_filter (by simpa using he) hq]
    · rw [h2]
      show indentOf o.noIndentation o.effOrdered o.effMarker _ _ = indentOf o.noIndentation o.effOrdered o.effMarker _ _
      unfold indentOf
      rw [parent_filter (q := fun m => decide ((m : Int) ≤ k)) hq]

/-- Whether `get_md_header` raises does not depend on the limit and on the anchors before. -/
theorem getMdHeader_err_any {E : Env} {p : Parser} (hp : p ≠ .redcarpet) {l : Str} (hl : IsLine l) {d d' : Dup} {keep keep' : Int} (hk : keep ≥ 1) (hk' : keep' ≥ 1) {noLinks : Bool} {e : Exn}
    (h : getMdHeader E l d keep p noLinks = .error e) : ∃ e', getMdHeader E l d' keep' p noLinks = .error e' := by
  obtain ⟨b, hb, hne, -⟩ := hl.body
  have hnl : ∀ c ∈ b, ¬ IsNewline c := by
    obtain ⟨u, v, -, -, h2⟩ := hb
    exact fun c hc h => h.elim (h2 c hc).1 (h2 c hc).2
  have hpc := cmarkLike_of_ne hp
  by_cases hex : ∃ n rest, IsAtx p b n rest
  · obtain ⟨n, rest, h1⟩ := hex
    obtain ⟨c, hc, hg⟩ := atxCmark_heading hpc h1 hnl
    have hga := getAtxHeading_body hb hne hk p noLinks
    have hga' := getAtxHeading_body hb hne hk' p noLinks
    rw [atxSubline_cmark hpc, hg] at hga hga'
    unfold getMdHeader at h ⊢
    rw [hga] at h
    rw [hga']
    cases ht : (if noLinks = true then Except.ok c else linkText c) with
    | error e1 => exact ⟨e1, by simp [Except.map, bind, Except.bind]⟩
    | ok t =>
      rw [ht] at h
      simp only [Except.map, bind, Except.bind, headersOf] at h ⊢
      rw [buildAnchorLink_cmark hpc] at h ⊢
      cases hbl : buildAnchorLink E t (fun _ => 0) p with
      | error e1 => exact ⟨e1, rfl⟩
      | ok r => rw [hbl] at h; simp [Except.map] at h
  · have := (C08_levels hpc hb hne hk noLinks).2 hex
    unfold getMdHeader at h
    rw [this] at h
    simp [bind, Except.bind, headersOf] at h

theorem listedHeaders_mem {E : Env} {o : Options} {vs : List Str} {d : Dup} {hs : List Header} (h : listedHeaders E o d vs = .ok hs) {l : Str} (hl : l ∈ vs) :
    ∃ d r, getMdHeader E l d o.keep o.parser o.noLinks = .ok r := by
  induction vs generalizing d hs with
  | nil => simp at hl
  | cons x vs ih =>
    unfold listedHeaders at h
    cases hg : getMdHeader E x d o.keep o.parser o.noLinks with
    | error e => rw [hg] at h; simp at h
    | ok r =>
      rw [hg] at h
      obtain ⟨hs1, d1⟩ := r
      simp only at h
      cases hr : listedHeaders E o d1 vs with
      | error e => rw [hr] at h; simp at h
      | ok r =>
        rcases List.mem_cons.mp hl with rfl | hl
        · exact ⟨_, _, hg⟩
        · exact ih hr hl

/-- A smaller limit does not lead to an exception. -/
theorem levels_succeed {E : Env} {o : Options} (hp : o.parser ≠ .redcarpet) {k : Int} (hk1 : 1 ≤ k) (hk : k ≤ o.keep) {fn text out : Str}
    (h : buildToc E o fn (some ⟨text, false⟩) = .ok out) {vs : List Str} (hv : Looks o fn text vs) {heads : List (Nat × Str)} (hh : Headings o.parser o.noLinks vs heads)
    (hc : (o.noIndentation = true ∧ o.counts = false) ∨ Coherent ((heads.map Prod.fst).filter (listed o.parser o.keep))) :
    ∃ out', buildToc E { o with keep := k } fn (some ⟨text, false⟩) = .ok out' := by
  have hs := buildToc_skip h
  cases hbt : buildToc E { o with keep := k } fn (some ⟨text, false⟩) with
  | ok out' => exact ⟨out', rfl⟩
  | error e =>
    exfalso
    obtain ⟨hsF, esF, stF, hrF, htF⟩ := buildToc_run h hv
    have hlF := table_levels htF hh
    have hcF : (o.noIndentation = true ∧ o.counts = false) ∨ Coherent (esF.map (·.level)) := by
      rw [entry_levels hlF]
      exact hc
    obtain ⟨pre, l, post, hds, es, st, d, e0, hline, hrun, ht, hlev, hprev, h1 | ⟨n, t, a, d', h1, h2, h3, h4, h5, h6⟩⟩ := buildToc_failed (o := { o with keep := k }) hs hbt hv
    · -- the heading itself
      obtain ⟨ls, hR, hS⟩ := hv
      have h' := h
      rw [buildToc_seen hs hR hS] at h'
      cases hx : hdrRun E o vs (TocState.init o.effMarker) with
      | error e => rw [hx] at h'; simp [Except.map] at h'
      | ok stx =>
        obtain ⟨hs1, g1, -⟩ := hdrRun_ok hx
        obtain ⟨d1, r, g2⟩ := listedHeaders_mem g1 (l := l) (by rw [e0]; simp)
        obtain ⟨e', g3⟩ := getMdHeader_err_any (d' := d1) (keep' := o.keep) hp hline hk1 (by omega) h1
        rw [g2] at g3
        simp at g3
    · simp only at h1 h2 h3
      subst e0
      obtain ⟨hA, hhA⟩ := headings_exists o.parser o.noLinks pre
      obtain ⟨hB, hhB⟩ := headings_exists o.parser o.noLinks post
      have hnk : (n : Int) ≤ k := by simpa [listed, hp] using h3
      have hheads := headings_unique hh (headings_append hhA (.heading h1 hhB))
      rw [hheads, List.filter_append, List.filter_cons_of_pos (by simp [listed, hp]; omega)] at hlF
      obtain ⟨es1, es2, rfl, m1, m2⟩ := List.map_eq_append_iff.mp hlF
      obtain ⟨x, es3, rfl, m3, m4⟩ := List.map_eq_cons_iff.mp m2
      have hxn : x.level = n := by simpa using congrArg Prod.fst m3
      have hlevels : es.map (·.level) = (es1.map (·.level)).filter (fun m : Nat => decide ((m : Int) ≤ k)) := by
        have := entry_levels (table_levels (o := { o with keep := k }) ht hhA)
        rw [this, entry_levels m1, List.filter_filter]
        apply List.filter_congr
        intro m _
        simp only [listed, hp, decide_false, Bool.false_or]
        by_cases hm : (m : Int) ≤ k
        · have : (m : Int) ≤ o.keep := by omega
          simp [hm, this]
        · simp [hm]
      rcases addHeader_err h6 h4 h5 hprev with ⟨rfl, hnc⟩ | ⟨rfl, -, -⟩ | ⟨-, hmk⟩
      · obtain ⟨-, hco, hlim, hlt⟩ := nextCounter_err hnc h4
        have hco' : o.counts = true := hco
        have hlim' : o.parser.limited = true := hlim
        have hcoh : Coherent ((es1 ++ x :: es3).map (·.level)) := by
          rcases hcF with hc | hc
          · rw [hco'] at hc; simp at hc
          · exact hc
        have hcoh1 : Coherent (es1.map (·.level)) := by
          rw [List.map_append] at hcoh
          exact coherent_prefix hcoh
        have hnum := hrun.numbers (o := { o with keep := k }) hco (by rw [hlevels]; exact (coherent_filter k hcoh1).1)
        have hx := (hrF.numbers hco' hcoh).2 es1 x es3 rfl
        have hlimx := hrF.limit hlim' x (by simp)
        have e9 : maxMarkerNumber = 999999999 := rfl
        rw [e9] at hlt
        simp only at hlt
        by_cases hp0 : st.prev = 0
        · -- no entry before
          have hes : es = [] := by
            have j3 := hrun.info.2.2.1
            rcases List.eq_nil_or_concat es with h | ⟨L', y, rfl⟩
            · exact h
            · rw [List.concat_eq_append] at *
              have := (hlev y (by simp)).1
              simp at j3
              omega
          rw [(hrun.nil_inv hes).1] at hlt
          simp [TocState.init] at hlt
        · rw [if_neg hp0] at hlt
          by_cases hcond : (st.counter n).isNone = true ∨ st.prev < n
          · rw [if_pos hcond] at hlt
            omega
          · rw [if_neg hcond] at hlt
            rw [not_or] at hcond
            have h7 := hnum.1 n (by omega)
            rw [h7, hlevels] at hlt
            have h8 := siblingNumber_filter (L := es1.map (·.level)) (q := fun m : Nat => decide ((m : Int) ≤ k)) (n := n) (by simpa using hnk)
              (by intro m hm; simp at hm; omega)
            unfold since at hlt
            rw [hxn] at hx
            unfold siblingNumber at h8 hx
            omega
      · obtain ⟨f1, f2, f3⟩ := C28_error_incoherent (o := { o with keep := k }) hbt hv hh
        apply f3
        rcases hc with hc | hc
        · have : o.noIndentation = false := f1
          rw [this] at hc; simp at hc
        · have hcc := (coherent_filter k hc).1
          rw [List.filter_filter] at hcc
          have : (heads.map Prod.fst).filter (listed o.parser k) =
              (heads.map Prod.fst).filter (fun a : Nat => decide ((a : Int) ≤ k) && listed o.parser o.keep a) := by
            apply List.filter_congr
            intro m _
            simp only [listed, hp, decide_false, Bool.false_or]
            by_cases hm : (m : Int) ≤ k
            · have : (m : Int) ≤ o.keep := by omega
              simp [hm, this]
            · simp [hm]
          rw [← this] at hcc
          exact hcc
      · have := hrF.info.2.2.2.2 (by simp)
        have hmk' : markerOk o.parser o.effOrdered o.effMarker = false := hmk
        rw [hmk'] at this
        simp at this

/-- The numbers and the indentation depend on the levels only. -/
theorem Run.skeleton {o o' : Options} (e1 : o'.parser = o.parser) (e2 : o'.ordered = o.ordered) (e3 : o'.constantOrdered = o.constantOrdered) (e4 : o'.noIndentation = o.noIndentation)
    (e5 : o'.noListCoherence = o.noListCoherence) (e6 : o'.listMarker = o.listMarker) {m : Str} {hs hs' : List Header} {es es' : List Entry} {st st' : TocState}
    (h : Run o (TocState.init m) hs es st) (h' : Run o' (TocState.init m) hs' es' st') (hl : hs'.map (·.headerType) = hs.map (·.headerType)) :
    (st'.counter = st.counter ∧ st'.prev = st.prev ∧ st'.first = st.first ∧ st'.log = st.log) ∧
      es'.map (fun e => (e.level, e.number, e.indent)) = es.map (fun e => (e.level, e.number, e.indent)) := by
  have f1 : o'.effOrdered = o.effOrdered := by simp [Options.effOrdered, e2, e3]
  have f2 : o'.effMarker = o.effMarker := by simp [Options.effMarker, f1, e1, e2, e6]
  have f3 : o'.counts = o.counts := by simp [Options.counts, f1, e3]
  induction h generalizing hs' es' st' with
  | nil =>
    cases h' with
    | nil => exact ⟨⟨rfl, rfl, rfl, rfl⟩, rfl⟩
    | snoc _ _ => simp at hl
  | @snoc hs es st1 st2 x hr ha ih =>
    cases h' with
    | nil => simp at hl
    | @snoc hs1 es1 st1' _ x' hr' ha' =>
      rw [List.map_append, List.map_append] at hl
      obtain ⟨l1, l2⟩ := List.append_inj' hl rfl
      simp only [List.map_cons, List.map_nil, List.cons.injEq, and_true] at l2
      obtain ⟨⟨i1, i2, i3, i4⟩, i5⟩ := ih hr' l1
      obtain ⟨-, a2, -, -, -, a6, a7, a8⟩ := addHeader_ok ha
      obtain ⟨-, b2, -, -, -, b6, b7, b8⟩ := addHeader_ok ha'
      have hcnt : st'.counter = st2.counter := by
        have : nextCounter o' st1' x'.headerType = nextCounter o st1 x.headerType := by
          unfold nextCounter
          rw [f3, i1, i2, l2, e1]
        rw [this, a6] at b6
        injection b6 with b6
        exact b6.symm
      have hnum : (entryOf o' st' x').number = (entryOf o st2 x).number := by
        simp only [entryOf, f3, hcnt, l2]
      have hlf : st'.log = st2.log ∧ st'.first = st2.first := by
        rw [e4] at b7 b8
        cases hni : o.noIndentation with
        | true =>
          obtain ⟨c1, c2⟩ := a7 hni
          obtain ⟨c3, c4⟩ := b7 hni
          rw [c1, c2, c3, c4, i3, i4]
          exact ⟨rfl, rfl⟩
        | false =>
          obtain ⟨-, c2, c3⟩ := a8 hni
          obtain ⟨-, d2, d3⟩ := b8 hni
          have g1 : prevFor o' st1' x'.headerType = prevFor o st1 x.headerType := by simp [prevFor, e5, i2, l2]
          have g2 : firstFor o' st1' x'.headerType = firstFor o st1 x.headerType := by simp [firstFor, e5, i3, l2]
          rw [hnum, l2, ← l2, g1, l2, e1, f1, f2, i4, c3] at d3
          injection d3 with d3
          exact ⟨d3.symm, by rw [c2, d2, g2]⟩
      refine ⟨⟨hcnt, by rw [a2, b2, l2], hlf.2, hlf.1⟩, ?_⟩
      rw [List.map_append, List.map_append, i5]
      simp only [List.map_cons, List.map_nil]
      rw [hnum]
      simp only [entryOf, l2, e4, hlf.1]

/-- The headings with and without links. -/
theorem headings_links {p : Parser} {vs : List Str} {hs hs' : List (Nat × Str)} (h : Headings p false vs hs) (h' : Headings p true vs hs') :
    hs.map Prod.fst = hs'.map Prod.fst ∧ (p ≠ .redcarpet → hs = hs'.map (fun x => (x.1, label x.2))) := by
  induction h generalizing hs' with
  | nil => cases h'; simp
  | other h1 _ ih =>
    cases h' with
    | other _ h2 => exact ih h2
    | heading h2 _ => exact absurd (heading_any ⟨_, _, h2⟩) h1
  | @heading l n t ls hs h1 _ ih =>
    cases h' with
    | other h2 _ => exact absurd (heading_any ⟨_, _, h1⟩) h2
    | @heading _ n' t' _ hs' h2 h3 =>
      obtain ⟨i1, i2⟩ := ih h3
      have key : n = n' ∧ (p ≠ .redcarpet → t = label t') := by
        obtain ⟨body, rest, c, g1, g2⟩ := h2
        by_cases hp : p = .redcarpet
        · rw [if_pos hp] at g2
          have := heading_unique h1 ⟨body, rest, c, g1, by rw [if_pos hp]; exact ⟨g2.1, g2.2.1, g2.2.2.1, rfl⟩⟩
          exact ⟨this.1, fun h => absurd hp h⟩
        · rw [if_neg hp] at g2
          have := heading_unique h1 ⟨body, rest, c, g1, by rw [if_neg hp]; exact ⟨g2.1, g2.2.1, rfl⟩⟩
          refine ⟨this.1, fun _ => ?_⟩
          have e := g2.2.2
          simp only [if_true] at e
          rw [this.2, e]
          simp
      refine ⟨by simp [key.1, i1], fun hp => ?_⟩
      rw [key.1, key.2 hp, i2 hp]
      rfl

namespace Props

/-! ### C68 -/

/-- **C68**, part: if lines are appended to a document and the table of the longer document can be built, then also the one of the shorter document, and the table of the longer document
starts with it.  For files the code blocks of the shorter document are closed.
Missing: files with an unclosed code block (`C68_violation`). -/
theorem C68_append_partial {E : Env} {o : Options} {fn text text' out' : Str} {ls ms : List Str} (hr : Reads text ls) (hr' : Reads text' (ls ++ ms))
    (ho : fn ≠ "-".toList → o.parser ≠ .redcarpet → Outside o.parser (ls.drop o.skipLines.toNat))
    (h : buildToc E o fn (some ⟨text', false⟩) = .ok out') : ∃ out, buildToc E o fn (some ⟨text, false⟩) = .ok out ∧ out <+: out' := by
  have hs := buildToc_skip h
  have key : ∃ va vb, SeenLines o.parser (decide (fn ≠ stdinName)) (ls.drop o.skipLines.toNat) va ∧
      SeenLines o.parser (decide (fn ≠ stdinName)) ((ls ++ ms).drop o.skipLines.toNat) (va ++ vb) := by
    rw [List.drop_append]
    generalize ls.drop o.skipLines.toNat = a at ho
    generalize ms.drop (o.skipLines.toNat - ls.length) = b
    unfold SeenLines
    by_cases hp : o.parser = .redcarpet
    · exact ⟨a, b, by rw [if_pos hp], by rw [if_pos hp]⟩
    · simp only [if_neg hp]
      by_cases hf : fn = stdinName
      · obtain ⟨va, h1⟩ := seen_exists o.parser false a
        obtain ⟨w, h2⟩ := seen_stdin_append h1 b
        exact ⟨va, w, by simpa [hf] using h1, by simpa [hf] using h2⟩
      · obtain ⟨va, h1, h2⟩ := seen_outside (ho hf hp)
        obtain ⟨vb, h3⟩ := seen_exists o.parser (decide (fn ≠ stdinName)) b
        exact ⟨va, vb, h1 _, h2 _ _ _ h3⟩
  obtain ⟨va, vb, k1, k2⟩ := key
  rw [buildToc_seen hs hr' k2] at h
  rw [buildToc_seen hs hr k1]
  cases hh : hdrRun E o (va ++ vb) (TocState.init o.effMarker) with
  | error e => rw [hh] at h; simp [Except.map] at h
  | ok st2 =>
    rw [hh] at h
    simp only [Except.map] at h
    injection h with h
    obtain ⟨st1, h1, h2⟩ := hdrRun_prefix hh
    exact ⟨_, by rw [h1]; rfl, by rw [← h]; exact h2⟩

/-- **C68** is false in general: the heading in the code block is only listed as long as it is the last line of the file. -/
theorem C68_violation : buildToc asciiEnv {} "f".toList (some ⟨"# a\n```\n# b\n".toList, false⟩) = .ok "- [a](#a)\n- [b](#b)\n".toList ∧
    buildToc asciiEnv {} "f".toList (some ⟨"# a\n```\n# b\n# c\n```\n".toList, false⟩) = .ok "- [a](#a)\n".toList := by decide +kernel

/-- Documents which meet the hypotheses of `C68_append_partial`. -/
example : Reads "# a\n```\n# b\n```\n".toList ["# a\n".toList, "```\n".toList, "# b\n".toList, "```\n".toList] ∧
    Reads "# a\n```\n# b\n```\n## c".toList (["# a\n".toList, "```\n".toList, "# b\n".toList, "```\n".toList] ++ ["## c".toList]) ∧
    Outside .github ["# a\n".toList, "```\n".toList, "# b\n".toList, "```\n".toList] ∧
    buildToc asciiEnv {} "f".toList (some ⟨"# a\n```\n# b\n```\n## c".toList, false⟩) = .ok "- [a](#a)\n  - [c](#c)\n".toList := by
  refine ⟨(reads_iff (bad := false)).mpr (by decide +kernel), (reads_iff (bad := false)).mpr (by decide +kernel), ?_, by decide +kernel⟩
  have h0 : Outside .github [] := .nil
  have h1 : Outside .github ([] ++ ["# a\n".toList]) := .line h0 ((isOpening_none_iff (p := .github) rfl _).mp (by decide +kernel))
  refine .block (ls := ["# a\n".toList]) (l := "```\n".toList) (c := '`') (n := 3) (ms := ["# b\n".toList]) (e := "```\n".toList) h1 ⟨0, "\n".toList, by decide⟩ ?_ ⟨0, 3, "\n".toList, by decide, by decide, by decide, by decide⟩
  intro m hm
  rw [List.mem_singleton.mp hm, ← isClosing_iff (p := .github) rfl _ (.inl rfl) (by decide)]
  decide +kernel

/-! ### C69 -/

/-- **C69**, part: a document in which all code blocks are closed has the same table, or the same exception, as a file and on the standard input.
Missing: documents with an unclosed code block (`C69_violation`). -/
theorem C69_stdin_partial (E : Env) (o : Options) (fn : Str) {text : Str} {ls : List Str} (hr : Reads text ls)
    (ho : o.parser ≠ .redcarpet → Outside o.parser (ls.drop o.skipLines.toNat)) :
    buildToc E o fn (some ⟨text, false⟩) = buildToc E o "-".toList (some ⟨text, false⟩) := by
  by_cases hs : o.skipLines ≥ 0
  · by_cases hp : o.parser = .redcarpet
    · rw [buildToc_seen hs hr (vs := ls.drop o.skipLines.toNat) (by unfold SeenLines; rw [if_pos hp]),
        buildToc_seen hs hr (vs := ls.drop o.skipLines.toNat) (by unfold SeenLines; rw [if_pos hp])]
    · obtain ⟨vs, h, -⟩ := seen_outside (ho hp)
      rw [buildToc_seen hs hr (vs := vs) (by unfold SeenLines; rw [if_neg hp]; exact h _),
        buildToc_seen hs hr (vs := vs) (by unfold SeenLines; rw [if_neg hp]; exact h _)]
  · rw [C30_negative E o (by omega), C30_negative E o (by omega)]

/-- **C69** is false in general. -/
theorem C69_violation : buildToc asciiEnv {} "f".toList (some ⟨"# a\n```\n# b\n".toList, false⟩) = .ok "- [a](#a)\n- [b](#b)\n".toList ∧
    buildToc asciiEnv {} "-".toList (some ⟨"# a\n```\n# b\n".toList, false⟩) = .ok "- [a](#a)\n".toList := by decide +kernel

/-! ### C70 -/

/-- **C70**: with a smaller `keep_header_levels` the table is built too, and its lines are the lines of the entries of these levels, with the same texts, anchors, numbers and indentation. The levels of the headings
are those of a proper list, or the list has neither indentation nor numbers. -/
theorem C70_levels {E : Env} {o : Options} (hp : o.parser ≠ .redcarpet) {k : Int} (hk1 : 1 ≤ k) (hk : k ≤ o.keep) {fn text out : Str}
    (h : buildToc E o fn (some ⟨text, false⟩) = .ok out) {vs : List Str} (hv : Looks o fn text vs) {heads : List (Nat × Str)} (hh : Headings o.parser o.noLinks vs heads)
    (hc : (o.noIndentation = true ∧ ¬ (o.ordered = true ∧ o.constantOrdered = false)) ∨ Coherent ((heads.map Prod.fst).filter (listed o.parser o.keep))) :
    ∃ es, Table E o vs out es ∧ buildToc E { o with keep := k } fn (some ⟨text, false⟩) =
      .ok (((es.filter (fun e => decide ((e.level : Int) ≤ k))).map (Entry.line (isOrdered o) o.noLinks (usedMarker o.parser (isOrdered o) o.listMarker) o.newline)).flatten) := by
  have hc' : (o.noIndentation = true ∧ o.counts = false) ∨ Coherent ((heads.map Prod.fst).filter (listed o.parser o.keep)) := by
    rcases hc with ⟨h1, h2⟩ | h
    · refine .inl ⟨h1, ?_⟩
      unfold Options.counts Options.effOrdered
      cases h3 : o.constantOrdered <;> cases h4 : o.ordered <;> simp_all
    · exact .inr h
  obtain ⟨out', h'⟩ := levels_succeed hp hk1 hk h hv hh hc'
  obtain ⟨hs, es, st, hr, ht⟩ := buildToc_run h hv
  obtain ⟨hs', es', st', hr', ht'⟩ := buildToc_run (o := { o with keep := k }) h' hv
  have := levels_entries hp hk hr ht hr' ht' (by rw [entry_levels (table_levels ht hh)]; exact hc')
  refine ⟨es, ht, ?_⟩
  rw [h', ht'.2, this]

/-- **C70** with the coherence check: without further conditions. -/
theorem C70_levels_checked {E : Env} {o : Options} (hp : o.parser ≠ .redcarpet) (h1 : o.noIndentation = false) (h2 : o.noListCoherence = false) {k : Int} (hk1 : 1 ≤ k) (hk : k ≤ o.keep)
    {fn text out : Str} (h : buildToc E o fn (some ⟨text, false⟩) = .ok out) {vs : List Str} (hv : Looks o fn text vs) :
    ∃ es, Table E o vs out es ∧ buildToc E { o with keep := k } fn (some ⟨text, false⟩) =
      .ok (((es.filter (fun e => decide ((e.level : Int) ≤ k))).map (Entry.line (isOrdered o) o.noLinks (usedMarker o.parser (isOrdered o) o.listMarker) o.newline)).flatten) := by
  obtain ⟨heads, hh⟩ := headings_exists o.parser o.noLinks vs
  exact C70_levels hp hk1 hk h hv hh (.inr (C28_ok_coherent h1 h2 h hv hh))

/-- The tables of a document with two limits. -/
example : buildToc asciiEnv { keep := 3, ordered := true } "a.md".toList (some ⟨"# b\n## a\n### d\n## e\n# a\n".toList, false⟩) =
      .ok "1. [b](#b)\n   1. [a](#a)\n      1. [d](#d)\n   2. [e](#e)\n2. [a](#a-1)\n".toList ∧
    buildToc asciiEnv { keep := 2, ordered := true } "a.md".toList (some ⟨"# b\n## a\n### d\n## e\n# a\n".toList, false⟩) =
      .ok "1. [b](#b)\n   1. [a](#a)\n   2. [e](#e)\n2. [a](#a-1)\n".toList := by
  decide +kernel

/-- For redcarpet the limit has no effect (see C23). -/
theorem C70_redcarpet {E : Env} {o : Options} (hp : o.parser = .redcarpet) {k : Int} (hk1 : 1 ≤ k) (hk : 1 ≤ o.keep) (fn : Str) (src : Option Source) :
    buildToc E { o with keep := k } fn src = buildToc E o fn src := by
  have h1 : ∀ l nl, getAtxHeading l k o.parser nl = getAtxHeading l o.keep o.parser nl := by
    intro l nl
    unfold getAtxHeading
    have e1 : ¬ ¬ k ≥ 1 := by omega
    have e2 : ¬ ¬ o.keep ≥ 1 := by omega
    rw [if_neg e1, if_neg e2]
    congr 1
    rw [hp]
    generalize replaceAndSplitNewlines l = ss
    generalize true = v
    induction ss generalizing v with
    | nil => rfl
    | cons s ss ih =>
      simp only [atxSublines, atxSubline, Parser.cmarkLike, Bool.false_eq_true, if_false, bind, Except.bind, ih]
  have h2 : ∀ st l e, tocStep E { o with keep := k } st l e = tocStep E o st l e := by
    intro st l e
    unfold tocStep getMdHeader
    simp only [h1]
    rfl
  have h3 : ∀ bad ls st, tocLoop E { o with keep := k } fn bad ls st = tocLoop E o fn bad ls st := by
    intro bad ls
    induction ls with
    | nil => intro st; rfl
    | cons l ls ih =>
      intro st
      rw [tocLoop, tocLoop, h2]
      simp only [ih]
  unfold buildToc
  simp only [h3]
  rfl

/-! ### C71 -/

/-- **C71**, part: if both are built, the list without links has the same entries as the one with links: the same levels, numbers and indentation, and the texts of which the link labels are made.
Missing: without links the exceptions of the anchors come from other texts (`C71_violation`). -/
theorem C71_no_links_partial {E : Env} {o : Options} (hp : o.parser ≠ .redcarpet) {fn text out out' : Str} (h : buildToc E { o with noLinks := false } fn (some ⟨text, false⟩) = .ok out)
    (h' : buildToc E { o with noLinks := true } fn (some ⟨text, false⟩) = .ok out') {vs : List Str} (hv : Looks o fn text vs) :
    ∃ es es', Table E { o with noLinks := false } vs out es ∧ Table E { o with noLinks := true } vs out' es' ∧
      es.map (fun e => (e.level, e.number, e.indent, e.text)) = es'.map (fun e => (e.level, e.number, e.indent, label e.text)) := by
  obtain ⟨hs, es, st, hr, ht⟩ := buildToc_run (o := { o with noLinks := false }) h hv
  obtain ⟨hs', es', st', hr', ht'⟩ := buildToc_run (o := { o with noLinks := true }) h' hv
  refine ⟨es, es', ht, ht', ?_⟩
  obtain ⟨heads, hh⟩ := headings_exists o.parser false vs
  obtain ⟨heads', hh'⟩ := headings_exists o.parser true vs
  have t1 := table_levels (o := { o with noLinks := false }) ht hh
  have t2 := table_levels (o := { o with noLinks := true }) ht' hh'
  have hl := (headings_links hh hh').2 hp
  have e1 : es.map (fun e => (e.level, e.text)) = es'.map (fun e => (e.level, label e.text)) := by
    have : es'.map (fun e => (e.level, label e.text)) = (es'.map (fun e => (e.level, e.text))).map (fun x => (x.1, label x.2)) := by simp [Function.comp_def]
    rw [this, t2, t1, hl, List.filter_map]
    rfl
  have hlv : hs'.map (·.headerType) = hs.map (·.headerType) := by
    have a1 := congrArg (List.map Prod.fst) hr.info.1
    have a2 := congrArg (List.map Prod.fst) hr'.info.1
    have a3 := congrArg (List.map Prod.fst) e1
    simp only [List.map_map, Function.comp_def, Header.info] at a1 a2 a3
    rw [← a1, ← a2, a3]
  have e2 := (Run.skeleton (o := { o with noLinks := false }) (o' := { o with noLinks := true }) rfl rfl rfl rfl rfl rfl hr hr' hlv).2
  clear * - e1 e2
  induction es generalizing es' with
  | nil => cases es' <;> simp at e1 ⊢
  | cons x es ih =>
    cases es' with
    | nil => simp at e1
    | cons y es' =>
      simp only [List.map_cons, List.cons.injEq, Prod.mk.injEq] at e1 e2 ⊢
      exact ⟨⟨e1.1.1, e2.1.2.1.symm, e2.1.2.2.symm, e1.1.2⟩, ih es' e1.2 e2.2⟩

/-- **C71** is false in general: the anchors, which are not in the list, are made all the same, here from another text than with links, and this fails. -/
theorem C71_violation : buildToc asciiEnv {} "a.md".toList (some ⟨"# [a][b]\n".toList, false⟩) = .ok "- [\\[a\\]\\[b\\]](#ab)\n".toList ∧
    buildToc asciiEnv { noLinks := true } "a.md".toList (some ⟨"# [a][b]\n".toList, false⟩) = .error .KeyError := by decide +kernel

/-- A document with both tables. -/
example : buildToc asciiEnv { ordered := true } "a.md".toList (some ⟨"# a [b]\n## c\n".toList, false⟩) = .ok "1. [a \\[b\\]](#a-b)\n   1. [c](#c)\n".toList ∧
    buildToc asciiEnv { ordered := true, noLinks := true } "a.md".toList (some ⟨"# a [b]\n## c\n".toList, false⟩) = .ok "1. a [b]\n   1. c\n".toList := by decide +kernel

/-! ### C67 in a table -/

/-- **C67** is false for the links of a table: the anchor of a heading with a link has its destination in it. -/
theorem C67_violation_toc : buildToc asciiEnv {} "a.md".toList (some ⟨"# [foo](bar)\n".toList, false⟩) = .ok "- [\\[foo\\](bar)](#foobar)\n".toList := by decide +kernel

end Props

end MdToc
