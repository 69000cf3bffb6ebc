import Verif.Spec.Blocks
import Verif.Props.Locality

/-!
# The headings of CommonMark: C88
-/

set_option linter.unusedSimpArgs false

namespace MdToc

open MdToc.Spec

namespace Props

/-! ### Lines by their first character -/

/-- After at most three spaces comes `c`, which is no space. -/
def First (b : Str) (c : Char) : Prop := c ≠ ' ' ∧ ∃ k r, k ≤ 3 ∧ b = List.replicate k ' ' ++ c :: r

theorem first_dropWhile {b : Str} {c : Char} (h : First b c) : (b.dropWhile (· == ' ')).head? = some c := by
  obtain ⟨hc, k, r, -, rfl⟩ := h
  rw [List.dropWhile_append_of_pos (by intro x hx; rw [List.eq_of_mem_replicate hx]; rfl)]
  simp [hc]

theorem first_unique {b : Str} {c d : Char} (h : First b c) (h' : First b d) : c = d := by
  have := (first_dropWhile h).symm.trans (first_dropWhile h')
  injection this

theorem first_starts {b s r : Str} {c : Char} (h : Starts b (c :: s) r) (hc : c ≠ ' ') : First b c := by
  obtain ⟨k, hk, rfl⟩ := h
  exact ⟨hc, k, s ++ r, hk, by simp⟩

theorem first_atx {p : Parser} {b r : Str} {n : Nat} (h : IsAtx p b n r) : First b '#' := by
  obtain ⟨k, hk, h1, -, rfl, -⟩ := h
  obtain ⟨n, rfl⟩ : ∃ m, n = m + 1 := ⟨n - 1, by omega⟩
  exact ⟨by decide, k, List.replicate n '#' ++ r, hk, by simp [List.replicate_succ]⟩

theorem not_first_blank {b : Str} {c : Char} (h : BlankLine b) (hf : First b c) : c = '\t' := by
  obtain ⟨hc, k, r, -, rfl⟩ := hf
  exact (h c (by simp)).resolve_left hc

theorem not_first_indented {b : Str} {c : Char} (h : Indented b) (hf : First b c) : c = '\t' := by
  obtain ⟨r, e | ⟨j, -, e⟩⟩ := h
  · obtain ⟨hc, k, r', hk, rfl⟩ := hf
    exfalso
    have := congrArg (fun l => l[k]?) e
    simp only [List.length_replicate, Nat.le_refl, List.getElem?_append_right, Nat.sub_self, List.getElem?_cons_zero] at this
    rw [List.getElem?_append_left (by simp; omega), List.getElem?_replicate, if_pos (by omega)] at this
    injection this with this
    exact hc this
  · have h1 := first_dropWhile hf
    rw [e, List.dropWhile_append_of_pos (by intro x hx; rw [List.eq_of_mem_replicate hx]; rfl)] at h1
    simp at h1
    exact h1.symm

theorem first_thematic {b : Str} (h : Thematic b) : ∃ c, First b c ∧ c ∈ ['-', '_', '*'] := by
  obtain ⟨c, r, h1, h2, -⟩ := h
  exact ⟨c, first_starts h1 (by rintro rfl; revert h2; decide), h2⟩

theorem first_underline {b : Str} (h : Underline b) : ∃ c, First b c ∧ (c = '=' ∨ c = '-') := by
  obtain ⟨c, n, r, h1, h2, h3, -⟩ := h
  obtain ⟨n, rfl⟩ : ∃ m, n = m + 1 := ⟨n - 1, by omega⟩
  rw [List.replicate_succ] at h3
  exact ⟨c, first_starts h3 (by rintro rfl; rcases h1 with h | h <;> exact absurd h (by decide)), h1⟩

theorem first_html {p : Parser} {b : Str} {k : HtmlKind} (h : HtmlStart p b k) : First b '<' := by
  cases k with
  | verbatim => obtain ⟨n, r, h, -⟩ := h; exact first_starts h (by decide)
  | comment => obtain ⟨r, h⟩ := h; exact first_starts (s := "!--".toList) h (by decide)
  | instruction => obtain ⟨r, h⟩ := h; exact first_starts (s := "?".toList) h (by decide)
  | declaration => obtain ⟨c, r, h, -⟩ := h; exact first_starts h (by decide)
  | cdata => obtain ⟨r, h⟩ := h; exact first_starts (s := "![CDATA[".toList) h (by decide)
  | block => obtain ⟨s, n, r, h, -⟩ := h; exact first_starts (by simpa using h) (by decide)
  | tag =>
    obtain ⟨⟨n, x, r, h, -, -, hx⟩, -⟩ := h
    rcases hx with ⟨a, c, e, rfl, -⟩ | ⟨-, c, rfl, -⟩
    · exact first_starts (by simpa using h) (by decide)
    · exact first_starts (by simpa using h) (by decide)

/-- The same for the line with its newline. -/
theorem first_line {l b : Str} {c : Char} (hb : Body l b) (h : First b c) (hl : ∀ x ∈ l.head?, x ≠ '\n' ∧ x ≠ '\r') : First l c := by
  obtain ⟨u, v, rfl, h1, h2⟩ := hb
  cases u with
  | nil =>
    obtain ⟨hc, k, r, hk, rfl⟩ := h
    exact ⟨hc, k, r ++ v, hk, by simp⟩
  | cons x u =>
    have := hl x (by simp)
    rcases h1 x (by simp) with e | e
    · exact absurd e this.1
    · exact absurd e this.2

theorem first_opens {l : Str} {c : Char} {n : Nat} (h : OpensWith l c n) : First l c ∧ IsFenceChar c := by
  obtain ⟨k, r, hk, hn, hc, rfl, -⟩ := h
  obtain ⟨n, rfl⟩ : ∃ m, n = m + 1 := ⟨n - 1, by omega⟩
  refine ⟨⟨?_, k, List.replicate n c ++ r, hk, by simp [List.replicate_succ]⟩, hc⟩
  rintro rfl
  revert hc
  unfold IsFenceChar
  decide

theorem first_body {l b : Str} {d : Char} (hb : Body l b) (h : First l d) (h1 : d ≠ '\n') (h2 : d ≠ '\r') : First b d := by
  obtain ⟨u, v, e, hn, -⟩ := hb
  obtain ⟨hd, k, r, hk, rfl⟩ := h
  have hu : u = [] := by
    cases u with
    | nil => rfl
    | cons x u =>
      have hx := hn x (by simp)
      cases k with
      | zero =>
        simp only [List.replicate_zero, List.nil_append, List.cons_append, List.cons.injEq] at e
        rw [← e.1] at hx
        exact absurd hx (by simp [h1, h2])
      | succ k =>
        simp only [List.replicate_succ, List.cons_append, List.cons.injEq] at e
        rw [← e.1] at hx
        exact absurd hx (by decide)
  subst hu
  rw [List.nil_append] at e
  rcases List.append_eq_append_iff.mp e with ⟨a, e1, e2⟩ | ⟨a, e1, e2⟩
  · cases a with
    | nil =>
      exfalso
      have hx := hn d (by simp only [List.nil_append] at e2; rw [← e2]; simp)
      simp [h1, h2] at hx
    | cons x a =>
      simp only [List.cons_append, List.cons.injEq] at e2
      rw [← e2.1] at e1
      exact ⟨hd, k, a, hk, e1⟩
  · exfalso
    have hx := hn d (by rw [e2]; simp)
    simp [h1, h2] at hx

theorem not_opens {l b : Str} (hb : Body l b) (h : ∀ c, First b c → ¬ IsFenceChar c) : ¬ ∃ c n, OpensWith l c n := by
  rintro ⟨c, n, ho⟩
  obtain ⟨h1, h2⟩ := first_opens ho
  refine h c (first_body hb h1 ?_ ?_) h2 <;> (rintro rfl; revert h2; unfold IsFenceChar; decide)

theorem not_heading {p : Parser} (hp : p ≠ .redcarpet) {nl : Bool} {l b : Str} (hb : Body l b) (h : ¬ First b '#') : ¬ ∃ n t, Heading p nl l n t := by
  rintro ⟨n, t, b', r, c, hb', hh⟩
  rw [if_neg hp] at hh
  have := body_unique hb hb'
  subst this
  exact h (first_atx hh.1)

theorem not_heading_fence {p : Parser} (hp : p ≠ .redcarpet) {nl : Bool} {l : Str} {c : Char} (h : First l c) (hc : IsFenceChar c) : ¬ ∃ n t, Heading p nl l n t := by
  rintro ⟨n, t, b, r, x, hb, hh⟩
  rw [if_neg hp] at hh
  have h1 := first_atx hh.1
  have h2 := first_body hb h (by rintro rfl; revert hc; unfold IsFenceChar; decide) (by rintro rfl; revert hc; unfold IsFenceChar; decide)
  have := first_unique h1 h2
  subst this
  revert hc
  unfold IsFenceChar
  decide

/-- What a reader takes for text neither opens a code block nor looks like a heading. -/
theorem other_line {p : Parser} (hp : p ≠ .redcarpet) {nl : Bool} {l : Str} {st st' : Place} (h : Line p l st .other st') :
    (¬ ∃ c n, OpensWith l c n) ∧ ¬ ∃ n t, Heading p nl l n t := by
  have key : ∀ {b : Str}, Body l b → (∀ c, First b c → ¬ IsFenceChar c ∧ c ≠ '#') → (¬ ∃ c n, OpensWith l c n) ∧ ¬ ∃ n t, Heading p nl l n t :=
    fun hb hf => ⟨not_opens hb fun c hc => (hf c hc).1, not_heading hp hb fun h => (hf _ h).2 rfl⟩
  cases h with
  | blank ho hb h => exact key hb fun c hc => by rw [not_first_blank h hc]; unfold IsFenceChar; decide
  | rule ho hb h =>
    refine key hb fun c hc => ?_
    obtain ⟨d, hd, hm⟩ := first_thematic h
    rw [first_unique hc hd]
    revert hm
    simp only [List.mem_cons, List.not_mem_nil, or_false]
    rintro (rfl | rfl | rfl) <;> (unfold IsFenceChar; decide)
  | underline ho hb h =>
    refine key hb fun c hc => ?_
    obtain ⟨d, hd, hm⟩ := first_underline h
    rw [first_unique hc hd]
    rcases hm with rfl | rfl <;> (unfold IsFenceChar; decide)
  | indented ho hb h => exact key hb fun c hc => by rw [not_first_indented h hc]; unfold IsFenceChar; decide
  | text ho hb _ _ _ _ _ h1 h2 =>
    refine ⟨h2, ?_⟩
    rintro ⟨n, t, b', r, c, hb', hh⟩
    rw [if_neg hp] at hh
    have := body_unique hb hb'
    subst this
    exact h1 ⟨n, r, hh.1⟩

theorem select_cons (q : Role → Bool) (l : Str) (ρ : Role) (ls : List Str) (rs : List Role) :
    select q (l :: ls) (ρ :: rs) = if q ρ then l :: select q ls rs else select q ls rs := by
  unfold select
  rw [List.zip_cons_cons, List.filter_cons]
  split <;> simp

/-- The roles of the lines in an open code block up to its end. -/
theorem leaf_fence {p : Parser} {st : Place} {ls : List Str} {rs : List Role} (h : Leaf p st ls rs) : ∀ {c : Char} {n : Nat}, st = .fence c n →
    ((∀ m ∈ ls, ¬ ClosesWith p m c n) ∧ ∀ ρ ∈ rs, ρ = .code) ∨
      ∃ ms e ls' rs', ls = ms ++ e :: ls' ∧ rs = List.replicate (ms.length + 1) .code ++ rs' ∧ (∀ m ∈ ms, ¬ ClosesWith p m c n) ∧ ClosesWith p e c n ∧ Leaf p .free ls' rs' := by
  induction h with
  | nil => intros; left; simp
  | @cons st st' l ρ ls rs hl ht ih =>
    rintro c n rfl
    cases hl with
    | inside hc =>
      rcases ih rfl with ⟨h1, h2⟩ | ⟨ms, e, ls', rs', rfl, rfl, h1, h2, h3⟩
      · exact .inl ⟨List.forall_mem_cons.mpr ⟨hc, h1⟩, List.forall_mem_cons.mpr ⟨rfl, h2⟩⟩
      · exact .inr ⟨l :: ms, e, ls', rs', rfl, by simp [List.replicate_succ], List.forall_mem_cons.mpr ⟨hc, h1⟩, h2, h3⟩
    | close hc => exact .inr ⟨[], l, ls, rs, rfl, rfl, by simp, hc, ht⟩
    | atx ho => exact ho.elim
    | «open» ho => exact ho.elim
    | html ho => exact ho.elim
    | htmlLine ho => exact ho.elim
    | blank ho => exact ho.elim
    | rule ho => exact ho.elim
    | indented ho => exact ho.elim
    | text ho => exact ho.elim
    | underline ho => rcases ho with h | ⟨h, -⟩ <;> exact absurd h (by simp)

theorem leaf_length {p : Parser} {st : Place} {ls : List Str} {rs : List Role} (h : Leaf p st ls rs) : ls.length = rs.length := by
  induction h with
  | nil => rfl
  | cons _ _ ih => simp [ih]

theorem select_code {q : Role → Bool} (hq : q .code = false) : ∀ {ls : List Str} {rs : List Role}, (∀ ρ ∈ rs, ρ = .code) → select q ls rs = []
  | [], _, _ => rfl
  | _ :: _, [], _ => rfl
  | l :: ls, ρ :: rs, h => by
    rw [select_cons, h ρ List.mem_cons_self, hq]
    exact select_code hq fun x hx => h x (List.mem_cons_of_mem _ hx)

theorem select_skip {q : Role → Bool} (hq : q .code = false) {ls' : List Str} {rs' : List Role} : ∀ {ms : List Str},
    select q (ms ++ ls') (List.replicate ms.length .code ++ rs') = select q ls' rs'
  | [] => rfl
  | m :: ms => by
    rw [List.length_cons, List.replicate_succ, List.cons_append, List.cons_append, select_cons, hq]
    exact select_skip hq

/-- The lines that the program looks at are, up to lines which are no headings, those that are not in fenced code blocks; provided that no code block is opened inside of an HTML block. -/
theorem leaf_seen {p : Parser} (hp : p ≠ .redcarpet) (nl file : Bool) : ∀ (k : Nat) {st : Place} {ls : List Str} {rs : List Role}, ls.length ≤ k → Leaf p st ls rs → (∀ c n, st ≠ .fence c n) →
    (∀ l ∈ select (· == .html) ls rs, ¬ ∃ c n, OpensWith l c n) →
    (file = true → ∀ l, ls.getLast? = some l → rs.getLast? = some .code → ¬ ∃ n t, Heading p nl l n t) →
    ∃ vs, Seen p file ls vs ∧ ∀ heads, Headings p nl (select (· != .code) ls rs) heads → Headings p nl vs heads
  | k, _, [], _, _, .nil, _, _, _ => ⟨[], .nil, fun _ h => h⟩
  | 0, _, _ :: _, _, hk, _, _, _, _ => absurd hk (by simp)
  | k + 1, st, l :: ls, _, hk, .cons (st' := st') (ρ := ρ) (rs := rs) hl ht, hst, hh, hlast => by
    have hlen := leaf_length ht
    have hlast' : file = true → ∀ l, ls.getLast? = some l → rs.getLast? = some .code → ¬ ∃ n t, Heading p nl l n t := by
      intro hf m h1 h2
      refine hlast hf m ?_ ?_
      · rw [List.getLast?_cons, h1]; rfl
      · rw [List.getLast?_cons, h2]; rfl
    have hh' : ∀ m ∈ select (· == .html) ls rs, ¬ ∃ c n, OpensWith m c n := by
      intro m hm
      refine hh m ?_
      rw [select_cons]
      split
      · exact List.mem_cons_of_mem _ hm
      · exact hm
    have hk' : ls.length ≤ k := by simpa using hk
    have keep : (ρ != .code) = true → (¬ ∃ c n, OpensWith l c n) → (∀ c n, st' ≠ .fence c n) →
        ∃ vs, Seen p file (l :: ls) vs ∧ ∀ heads, Headings p nl (select (· != .code) (l :: ls) (ρ :: rs)) heads → Headings p nl vs heads := by
      intro hρ hno hst'
      obtain ⟨vs, h1, h2⟩ := leaf_seen hp nl file k hk' ht hst' hh' hlast'
      refine ⟨l :: vs, .line hno h1, fun heads h => ?_⟩
      rw [select_cons, if_pos hρ] at h
      cases h with
      | other a b => exact .other a (h2 _ b)
      | heading a b => exact .heading a (h2 _ b)
    have hhtml : ρ = .html → ¬ ∃ c n, OpensWith l c n := by
      rintro rfl
      exact hh l (by rw [select_cons]; simp)
    cases ρ with
    | other =>
      refine keep rfl (other_line (nl := nl) hp hl).1 ?_
      cases hl <;> first | (intros; simp; done) | exact hst
    | heading =>
      cases hl with
      | atx ho hb ha => exact keep rfl (not_opens hb fun c hc => by rw [first_unique hc (first_atx ha)]; unfold IsFenceChar; decide) (by simp)
    | html =>
      refine keep rfl (hhtml rfl) ?_
      cases hl <;> (intros; simp)
    | code =>
      cases hl with
      | inside => exact absurd rfl (hst _ _)
      | close => exact absurd rfl (hst _ _)
      | @«open» _ c n ho hop =>
        rcases leaf_fence ht rfl with ⟨h1, h2⟩ | ⟨ms, e, ls', rs', rfl, rfl, h1, h2, h3⟩
        · by_cases hl : file = true ∧ ∃ m ∈ ls.getLast?, SmallIndent m
          · obtain ⟨hf, m, hm, hs⟩ := hl
            obtain ⟨ms, rfl⟩ : ∃ ms, ls = ms ++ [m] := by
              rw [Option.mem_def, List.getLast?_eq_some_iff] at hm
              exact hm
            refine ⟨[m], .lastLine hop (fun x hx => h1 x (by simp [hx])) (h1 m (by simp)) hf hs, fun heads h => ?_⟩
            have hno := hlast' hf m (by simp) (by
              obtain ⟨rs', ρ, rfl⟩ : ∃ rs' ρ, rs = rs' ++ [ρ] := by
                rcases List.eq_nil_or_concat rs with rfl | ⟨a, b, rfl⟩
                · simp at hlen
                · exact ⟨a, b, by simp⟩
              rw [h2 ρ (by simp)]
              simp)
            rw [select_code (by rfl) (List.forall_mem_cons.mpr ⟨rfl, h2⟩)] at h
            cases h
            exact .other hno .nil
          · refine ⟨[], .unclosed hop h1 (fun hf m hm hs => hl ⟨hf, m, hm, hs⟩), fun heads h => ?_⟩
            rwa [select_code (by rfl) (List.forall_mem_cons.mpr ⟨rfl, h2⟩)] at h
        · have es : ∀ q : Role → Bool, q .code = false → select q (l :: (ms ++ e :: ls')) (Role.code :: (List.replicate (ms.length + 1) .code ++ rs')) = select q ls' rs' := by
            intro q hq
            have := select_skip hq (ls' := ls') (rs' := rs') (ms := l :: (ms ++ [e]))
            simpa [List.replicate_succ] using this
          have hk2 : ls'.length ≤ k := by
            simp only [List.length_append, List.length_cons] at hk'
            omega
          obtain ⟨vs, g1, g2⟩ := leaf_seen hp nl file k hk2 h3 (by simp) (by rwa [es _ rfl] at hh) (by
            intro hf m a1 a2
            refine hlast' hf m ?_ ?_
            · rw [List.getLast?_append, List.getLast?_cons, a1]; rfl
            · rw [List.getLast?_append, a2]; rfl)
          refine ⟨e :: vs, ?_, fun heads h => ?_⟩
          · have := Seen.block hop h1 h2 g1
            simpa using this
          · rw [es _ rfl] at h
            refine .other ?_ (g2 _ h)
            obtain ⟨j, m, r, hj, hm, rfl, -⟩ := h2
            obtain ⟨-, -, -, hn, hc, -⟩ := hop
            obtain ⟨m, rfl⟩ : ∃ x, m = x + 1 := ⟨m - 1, by omega⟩
            refine not_heading_fence (c := c) hp ⟨?_, j, List.replicate m c ++ r, hj, by simp [List.replicate_succ]⟩ hc
            rintro rfl
            revert hc
            unfold IsFenceChar
            decide

/-- A line which is a heading for the reader is one for the program. -/
theorem heading_of_atx {p : Parser} (hp : p ≠ .redcarpet) (nl : Bool) {l b r : Str} {n : Nat} (hb : Body l b) (h : IsAtx p b n r) : ∃ t, Heading p nl l n t := by
  have hnl : ∀ c ∈ b, ¬ IsNewline c := by
    obtain ⟨u, v, -, -, h2⟩ := hb
    exact fun c hc h => h.elim (h2 c hc).1 (h2 c hc).2
  obtain ⟨c, h1, -⟩ := atxCmark_heading (cmarkLike_of_ne hp) h hnl
  refine ⟨if nl then c else label c, b, r, c, hb, ?_⟩
  rw [if_neg hp]
  exact ⟨h, h1, rfl⟩

theorem leaf_headings {p : Parser} (hp : p ≠ .redcarpet) {nl : Bool} {st : Place} {ls : List Str} {rs : List Role} (h : Leaf p st ls rs)
    (hh : ∀ l ∈ select (· == .html) ls rs, ¬ ∃ n t, Heading p nl l n t) {heads : List (Nat × Str)} (hs : Headings p nl (select (· != .code) ls rs) heads) :
    List.Forall₂ (fun l x => Heading p nl l x.1 x.2) (select (· == .heading) ls rs) heads := by
  induction h generalizing heads with
  | nil => cases hs; exact .nil
  | @cons st st' l ρ ls rs hl ht ih =>
    rw [select_cons] at hs hh ⊢
    cases ρ with
    | code => exact ih hh hs
    | html =>
      obtain ⟨h1, h2⟩ := List.forall_mem_cons.mp hh
      cases hs with
      | other _ b => exact ih h2 b
      | heading a _ => exact absurd ⟨_, _, a⟩ h1
    | other =>
      have h1 := (other_line (nl := nl) hp hl).2
      cases hs with
      | other _ b => exact ih hh b
      | heading a _ => exact absurd ⟨_, _, a⟩ h1
    | heading =>
      cases hl with
      | atx ho hb ha =>
        obtain ⟨t, h1⟩ := heading_of_atx hp nl hb ha
        cases hs with
        | other a _ => exact absurd ⟨_, _, h1⟩ a
        | heading a b => exact .cons a (ih hh b)

/-- The lines of the document that the program reads. -/
def LinesFrom (o : Options) (text : Str) (ls : List Str) : Prop := ∃ all, Reads text all ∧ ls = all.drop o.skipLines.toNat

/-- **C88**: the table lists the lines that look like ATX headings and are, for a reader of CommonMark, not in a fenced code block.  No line of an HTML block may open a code block; and in a file the last
line must not be a heading in an unclosed code block. -/
theorem C88_lines {E : Env} {o : Options} (hp : o.parser ≠ .redcarpet) {fn text out : Str} (h : buildToc E o fn (some ⟨text, false⟩) = .ok out) {ls : List Str} (hr : LinesFrom o text ls)
    {rs : List Role} (hL : Leaf o.parser .free ls rs) (hh : ∀ l ∈ select (· == .html) ls rs, ¬ ∃ c n, OpensWith l c n)
    (hlast : fn ≠ "-".toList → ∀ l, ls.getLast? = some l → rs.getLast? = some .code → ¬ ∃ n t, Heading o.parser o.noLinks l n t) :
    ∃ vs es heads, Looks o fn text vs ∧ Table E o vs out es ∧ Headings o.parser o.noLinks (select (· != .code) ls rs) heads ∧
      es.map (fun e => (e.level, e.text)) = heads.filter (fun x => listed o.parser o.keep x.1) := by
  obtain ⟨all, hr, rfl⟩ := hr
  obtain ⟨vs, h1, h2⟩ := leaf_seen hp o.noLinks (decide (fn ≠ "-".toList)) _ (Nat.le_refl _) hL (by simp) hh (fun hf => hlast (by simpa using hf))
  have hv : Looks o fn text vs := by
    refine ⟨all, hr, ?_⟩
    unfold SeenLines
    rw [if_neg hp]
    exact h1
  obtain ⟨-, es, -, -, ht⟩ := buildToc_run h hv
  obtain ⟨heads, hh⟩ := headings_exists o.parser o.noLinks (select (· != .code) (all.drop o.skipLines.toNat) rs)
  exact ⟨vs, es, heads, hv, ht, hh, table_levels ht (h2 _ hh)⟩

/-- **C88**: if moreover no line of an HTML block looks like a heading, the table lists exactly the ATX headings of CommonMark down to the maximum level, in order, each with its level and text. -/
theorem C88_partial {E : Env} {o : Options} (hp : o.parser ≠ .redcarpet) {fn text out : Str} (h : buildToc E o fn (some ⟨text, false⟩) = .ok out) {ls : List Str} (hr : LinesFrom o text ls)
    {rs : List Role} (hL : Leaf o.parser .free ls rs) (hh : ∀ l ∈ select (· == .html) ls rs, (¬ ∃ c n, OpensWith l c n) ∧ ¬ ∃ n t, Heading o.parser o.noLinks l n t)
    (hlast : fn ≠ "-".toList → ∀ l, ls.getLast? = some l → rs.getLast? = some .code → ¬ ∃ n t, Heading o.parser o.noLinks l n t) :
    ∃ vs es heads, Looks o fn text vs ∧ Table E o vs out es ∧ List.Forall₂ (fun l x => Heading o.parser o.noLinks l x.1 x.2) (select (· == .heading) ls rs) heads ∧
      es.map (fun e => (e.level, e.text)) = heads.filter (fun x => listed o.parser o.keep x.1) := by
  obtain ⟨vs, es, heads, h1, h2, h3, h4⟩ := C88_lines hp h hr hL (fun l hl => (hh l hl).1) hlast
  exact ⟨vs, es, heads, h1, h2, leaf_headings hp hL (fun l hl => (hh l hl).2) h3, h4⟩

theorem headings_mem {p : Parser} {nl : Bool} {vs : List Str} {hs : List (Nat × Str)} (h : Headings p nl vs hs) {l : Str} (hl : l ∈ vs) {n : Nat} {t : Str} (hh : Heading p nl l n t) : (n, t) ∈ hs := by
  induction h with
  | nil => simp at hl
  | other a _ ih =>
    rcases List.mem_cons.mp hl with rfl | hl
    · exact absurd ⟨n, t, hh⟩ a
    · exact ih hl
  | heading a _ ih =>
    rcases List.mem_cons.mp hl with rfl | hl
    · obtain ⟨rfl, rfl⟩ := heading_unique a hh
      exact List.mem_cons_self
    · exact List.mem_cons_of_mem _ (ih hl)

theorem select_sub {q q' : Role → Bool} (h : ∀ ρ, q ρ = true → q' ρ = true) {ls : List Str} {rs : List Role} {l : Str} (hl : l ∈ select q ls rs) : l ∈ select q' ls rs := by
  unfold select at hl ⊢
  obtain ⟨x, hx, rfl⟩ := List.mem_map.mp hl
  obtain ⟨h1, h2⟩ := List.mem_filter.mp hx
  exact List.mem_map.mpr ⟨x, List.mem_filter.mpr ⟨h1, h _ h2⟩, rfl⟩

/-- C88 is violated by every document with a heading in an HTML block, for example in a comment: it is listed, although it is not a heading for the reader. -/
theorem C88_violation_html {E : Env} {o : Options} (hp : o.parser ≠ .redcarpet) {fn text out : Str} (h : buildToc E o fn (some ⟨text, false⟩) = .ok out) {ls : List Str} (hr : LinesFrom o text ls)
    {rs : List Role} (hL : Leaf o.parser .free ls rs) (hh : ∀ l ∈ select (· == .html) ls rs, ¬ ∃ c n, OpensWith l c n)
    (hlast : fn ≠ "-".toList → ∀ l, ls.getLast? = some l → rs.getLast? = some .code → ¬ ∃ n t, Heading o.parser o.noLinks l n t)
    {l : Str} (hl : l ∈ select (· == .html) ls rs) {n : Nat} {t : Str} (hn : Heading o.parser o.noLinks l n t) (hk : (n : Int) ≤ o.keep) :
    ∃ vs es, Looks o fn text vs ∧ Table E o vs out es ∧ ∃ e ∈ es, e.level = n ∧ e.text = t := by
  obtain ⟨vs, es, heads, h1, h2, h3, h4⟩ := C88_lines hp h hr hL hh hlast
  have hm : (n, t) ∈ es.map (fun e => (e.level, e.text)) := by
    rw [h4]
    refine List.mem_filter.mpr ⟨headings_mem h3 (select_sub ?_ hl) hn, ?_⟩
    · intro ρ; cases ρ <;> decide
    · unfold listed; simp [hk]
  obtain ⟨e, he, hx⟩ := List.mem_map.mp hm
  injection hx with h5 h6
  exact ⟨vs, es, h1, h2, e, he, h5, h6⟩

/-! ### The theorems apply -/

/-- A line that starts with a letter, say. -/
theorem text_line {p : Parser} {l b : Str} {c : Char} {st : Place} (ho : st.outer) (hb : Body l b) (hf : First b c)
    (hc : c ∉ ['#', '`', '~', '<', '-', '_', '*', '=', '>', '+', '\t']) (hd : ¬ Digit c) : Line p l st .other .para := by
  simp only [List.mem_cons, List.not_mem_nil, or_false, not_or] at hc
  obtain ⟨c1, c2, c3, c4, c5, c6, c7, c8, c9, c10, c11⟩ := hc
  refine .text ho hb (fun h => c11 (not_first_blank h hf)) (fun h => c11 (not_first_indented h hf)) ?_ (.inr ?_) ?_ ?_ (not_opens hb fun d hd => ?_) ?_
  · intro h
    obtain ⟨d, hd, hm⟩ := first_thematic h
    rw [← first_unique hf hd] at hm
    simp [c5, c6, c7] at hm
  · intro h
    obtain ⟨d, hd, hm⟩ := first_underline h
    rw [← first_unique hf hd] at hm
    simp [c5, c8] at hm
  · rintro (⟨r, h⟩ | ⟨m, r, h, -, hm⟩)
    · exact c9 (first_unique hf (first_starts h (by decide)))
    · rcases hm with hm | ⟨ds, d, rfl, hlen, -, hds, hdd⟩
      · simp only [List.mem_cons, List.not_mem_nil, or_false] at hm
        rcases hm with rfl | rfl | rfl
        · exact c5 (first_unique hf (first_starts h (by decide)))
        · exact c10 (first_unique hf (first_starts h (by decide)))
        · exact c7 (first_unique hf (first_starts h (by decide)))
      · cases ds with
        | nil => simp at hlen
        | cons x ds =>
          have hx := hds x (by simp)
          rw [List.cons_append] at h
          have := first_unique hf (first_starts h (by rintro rfl; revert hx; unfold Digit; decide))
          rw [this] at hd
          exact hd hx
  · rintro ⟨n, r, h⟩
    exact c1 (first_unique hf (first_atx h))
  · rw [← first_unique hf hd]
    unfold IsFenceChar
    simp [c2, c3]
  · intro k _ h
    exact c4 (first_unique hf (first_html h))

theorem body_cons {c : Char} {b : Str} (h : ∀ x ∈ c :: b, x ≠ '\n' ∧ x ≠ '\r') : Body (c :: b ++ ['\n']) (c :: b) :=
  ⟨[], ['\n'], by simp, by simp, h⟩

/-- A text, a heading, a comment with a heading in it, a code block and another heading: the roles of the lines. -/
theorem demoLeaf (x : Char) (hx : x = '#' ∨ x = 'a') : Leaf .github .free ["ab\n".toList, "# a\n".toList, "<!-- a\n".toList, [x, ' ', 'c', '\n'], "d -->\n".toList, "~~~\n".toList, "# e\n".toList, "~~~\n".toList, "## f\n".toList]
    [.other, .heading, .html, .html, .html, .code, .code, .code, .heading] := by
  have bd : ∀ b : Str, (∀ y ∈ b, y ≠ '\n' ∧ y ≠ '\r') → Body (b ++ ['\n']) b := fun b h => ⟨[], ['\n'], by simp, by simp, h⟩
  have hatx : ∀ n y, 1 ≤ n → n ≤ 6 → IsAtx .github (List.replicate n '#' ++ [' ', y]) n [' ', y] := fun n y h1 h2 =>
    ⟨0, by decide, h1, h2, by simp, by intro c hc; injection hc with hc; subst hc; rfl⟩
  have hopen : OpensWith "~~~\n".toList '~' 3 := ⟨0, ['\n'], by decide, by decide, .inr rfl, by decide, by decide, by decide⟩
  have hclose : ClosesWith .github "~~~\n".toList '~' 3 := ⟨0, 3, ['\n'], by decide, by decide, by decide, by decide⟩
  have hnc : ¬ ClosesWith .github "# e\n".toList '~' 3 := by
    rintro ⟨k, m, r, -, hm, e, -⟩
    obtain ⟨m, rfl⟩ : ∃ j, m = j + 1 := ⟨m - 1, by omega⟩
    cases k with
    | zero => rw [List.replicate_succ] at e; simp at e
    | succ k => rw [List.replicate_succ] at e; simp at e
  refine .cons (text_line (c := 'a') trivial (bd "ab".toList (by decide)) ⟨by decide, 0, ['b'], by decide, by decide⟩ (by decide) (by unfold Digit; decide)) ?_
  refine .cons (.atx (n := 1) trivial (bd "# a".toList (by decide)) (hatx 1 'a' (by decide) (by decide))) ?_
  refine .cons (.html (k := .comment) trivial (bd "<!-- a".toList (by decide)) ⟨" a".toList, 0, by decide, by decide⟩ (by simp) (by unfold HtmlEnd; decide)) ?_
  refine .cons (.htmlInside (bd [x, ' ', 'c'] (by rcases hx with rfl | rfl <;> decide)) (by unfold HtmlEnd; rcases hx with rfl | rfl <;> decide)) ?_
  refine .cons (.htmlClose (bd "d -->".toList (by decide)) (by unfold HtmlEnd; decide)) ?_
  refine .cons (.open trivial hopen) ?_
  refine .cons (.inside hnc) ?_
  refine .cons (.close hclose) ?_
  exact .cons (.atx (n := 2) trivial (bd "## f".toList (by decide)) (hatx 2 'f' (by decide) (by decide))) .nil

/-- The table of this document; with `# c` instead of `a c` in the comment, the heading in the comment is listed. -/
example : buildToc asciiEnv {} "a.md".toList (some ⟨"ab\n# a\n<!-- a\na c\nd -->\n~~~\n# e\n~~~\n## f\n".toList, false⟩) = .ok "- [a](#a)\n  - [f](#f)\n".toList ∧
    buildToc asciiEnv {} "a.md".toList (some ⟨"ab\n# a\n<!-- a\n# c\nd -->\n~~~\n# e\n~~~\n## f\n".toList, false⟩) = .ok "- [a](#a)\n- [c](#c)\n  - [f](#f)\n".toList := by
  decide +kernel

theorem demoLines (x : Char) (hx : x = '#' ∨ x = 'a') : LinesFrom {} ("ab\n# a\n<!-- a\n".toList ++ x :: " c\nd -->\n~~~\n# e\n~~~\n## f\n".toList)
    ["ab\n".toList, "# a\n".toList, "<!-- a\n".toList, [x, ' ', 'c', '\n'], "d -->\n".toList, "~~~\n".toList, "# e\n".toList, "~~~\n".toList, "## f\n".toList] := by
  refine ⟨_, ?_, rfl⟩
  have := reads_lines (ms := ["ab\n".toList, "# a\n".toList, "<!-- a\n".toList, [x, ' ', 'c', '\n'], "d -->\n".toList, "~~~\n".toList, "# e\n".toList, "~~~\n".toList, "## f\n".toList]) (by
    unfold IsNewline
    intro m hm
    simp only [List.mem_cons, List.not_mem_nil, or_false] at hm
    rcases hm with rfl | rfl | rfl | rfl | rfl | rfl | rfl | rfl | rfl
    · exact ⟨"ab".toList, by decide, by decide⟩
    · exact ⟨"# a".toList, by decide, by decide⟩
    · exact ⟨"<!-- a".toList, by decide, by decide⟩
    · exact ⟨[x, ' ', 'c'], rfl, by rcases hx with rfl | rfl <;> decide⟩
    · exact ⟨"d -->".toList, by decide, by decide⟩
    · exact ⟨"~~~".toList, by decide, by decide⟩
    · exact ⟨"# e".toList, by decide, by decide⟩
    · exact ⟨"~~~".toList, by decide, by decide⟩
    · exact ⟨"## f".toList, by decide, by decide⟩) Reads.nil
  simpa using this

/-- The hypotheses of `C88_partial` for the first document, and of `C88_violation_html` for the second one. -/
example : (∀ l ∈ select (· == .html) ["ab\n".toList, "# a\n".toList, "<!-- a\n".toList, "a c\n".toList, "d -->\n".toList, "~~~\n".toList, "# e\n".toList, "~~~\n".toList, "## f\n".toList]
      [.other, .heading, .html, .html, .html, .code, .code, .code, .heading], (¬ ∃ c n, OpensWith l c n) ∧ ¬ ∃ n t, Heading .github false l n t) ∧
    (∀ l ∈ select (· == .html) ["ab\n".toList, "# a\n".toList, "<!-- a\n".toList, "# c\n".toList, "d -->\n".toList, "~~~\n".toList, "# e\n".toList, "~~~\n".toList, "## f\n".toList]
      [.other, .heading, .html, .html, .html, .code, .code, .code, .heading], ¬ ∃ c n, OpensWith l c n) ∧
    "# c\n".toList ∈ select (· == .html) ["ab\n".toList, "# a\n".toList, "<!-- a\n".toList, "# c\n".toList, "d -->\n".toList, "~~~\n".toList, "# e\n".toList, "~~~\n".toList, "## f\n".toList]
      [.other, .heading, .html, .html, .html, .code, .code, .code, .heading] ∧ ∃ t, Heading .github false "# c\n".toList 1 t := by
  have bd : ∀ b : Str, (∀ y ∈ b, y ≠ '\n' ∧ y ≠ '\r') → Body (b ++ ['\n']) b := fun b h => ⟨[], ['\n'], by simp, by simp, h⟩
  have key : ∀ (c : Char) (b : Str), c ≠ ' ' → (∀ y ∈ c :: b, y ≠ '\n' ∧ y ≠ '\r') → ¬ IsFenceChar c → (¬ ∃ d n, OpensWith (c :: b ++ ['\n']) d n) ∧ (c ≠ '#' → ¬ ∃ n t, Heading .github false (c :: b ++ ['\n']) n t) := by
    intro c b h0 h1 h2
    have hf : First (c :: b) c := ⟨h0, 0, b, by decide, rfl⟩
    exact ⟨not_opens (bd _ h1) fun d hd => by rwa [first_unique hd hf], fun h3 => not_heading (by decide) (bd _ h1) fun h => h3 (first_unique hf h)⟩
  have k1 := key '<' "!-- a".toList (by decide) (by decide) (by unfold IsFenceChar; decide)
  have k2 := key 'a' " c".toList (by decide) (by decide) (by unfold IsFenceChar; decide)
  have k3 := key '#' " c".toList (by decide) (by decide) (by unfold IsFenceChar; decide)
  have k4 := key 'd' " -->".toList (by decide) (by decide) (by unfold IsFenceChar; decide)
  refine ⟨?_, ?_, by decide, heading_of_atx (by decide) false (bd "# c".toList (by decide)) ⟨0, by decide, by decide, by decide, rfl, by intro c hc; injection hc with hc; subst hc; rfl⟩⟩
  · intro l hl
    rw [show select _ _ _ = ["<!-- a\n".toList, "a c\n".toList, "d -->\n".toList] by decide] at hl
    simp only [List.mem_cons, List.not_mem_nil, or_false] at hl
    rcases hl with rfl | rfl | rfl
    · exact ⟨k1.1, k1.2 (by decide)⟩
    · exact ⟨k2.1, k2.2 (by decide)⟩
    · exact ⟨k4.1, k4.2 (by decide)⟩
  · intro l hl
    rw [show select _ _ _ = ["<!-- a\n".toList, "# c\n".toList, "d -->\n".toList] by decide] at hl
    simp only [List.mem_cons, List.not_mem_nil, or_false] at hl
    rcases hl with rfl | rfl | rfl
    · exact k1.1
    · exact k3.1
    · exact k4.1

/-- C88 is violated the other way round, too: a fence in a comment hides the headings behind the comment. -/
theorem C88_violation_fence : Leaf .github .free ["<!--\n".toList, "~~~\n".toList, "-->\n".toList, "# a\n".toList, "\n".toList] [.html, .html, .html, .heading, .other] ∧
    buildToc asciiEnv {} "a.md".toList (some ⟨"<!--\n~~~\n-->\n# a\n\n".toList, false⟩) = .ok [] := by
  have bd : ∀ b : Str, (∀ y ∈ b, y ≠ '\n' ∧ y ≠ '\r') → Body (b ++ ['\n']) b := fun b h => ⟨[], ['\n'], by simp, by simp, h⟩
  refine ⟨?_, by decide +kernel⟩
  refine .cons (.html (k := .comment) trivial (bd "<!--".toList (by decide)) ⟨[], 0, by decide, by decide⟩ (by simp) (by unfold HtmlEnd; decide)) ?_
  refine .cons (.htmlInside (bd "~~~".toList (by decide)) (by unfold HtmlEnd; decide)) ?_
  refine .cons (.htmlClose (bd "-->".toList (by decide)) (by unfold HtmlEnd; decide)) ?_
  refine .cons (.atx (n := 1) (r := " a".toList) trivial (bd "# a".toList (by decide)) ⟨0, by decide, by decide, by decide, rfl, by intro c hc; injection hc with hc; subst hc; rfl⟩) ?_
  exact .cons (.blank trivial (bd [] (by decide)) (by intro c hc; simp at hc)) .nil

/-- Headings in block quotes and list items are not listed. -/
example : buildToc asciiEnv {} "a.md".toList (some ⟨"> # a\n- # b\n\n1. # c\n".toList, false⟩) = .ok [] := by decide +kernel

/-! ### A document is read in one way -/

/-- A character of the name of a tag. -/
def nameChar (c : Char) : Bool := decide (65 ≤ c.toNat ∧ c.toNat ≤ 90) || decide (97 ≤ c.toNat ∧ c.toNat ≤ 122) || decide (48 ≤ c.toNat ∧ c.toNat ≤ 57) || c == '-'

theorem nameChar_of {c : Char} (h : Letter c ∨ Digit c ∨ c = '-') : nameChar c = true := by
  unfold Letter Digit at h
  unfold nameChar
  simp only [Bool.or_eq_true, decide_eq_true_eq, beq_iff_eq]
  rcases h with (h | h) | h | h <;> simp [h]

theorem lower_name {c : Char} (h : nameChar (asciiLower c) = true) : nameChar c = true := by
  unfold asciiLower at h
  split at h
  · rename_i hc
    exact nameChar_of (.inl (.inl hc))
  · exact h

theorem names_chars {n : Str} {N : List Str} (hN : ∀ m ∈ N, m ≠ [] ∧ ∀ c ∈ m, nameChar c = true) (h : n.map asciiLower ∈ N) : n ≠ [] ∧ ∀ c ∈ n, nameChar c = true := by
  obtain ⟨h1, h2⟩ := hN _ h
  exact ⟨by rintro rfl; exact h1 rfl, fun c hc => lower_name (h2 _ (List.mem_map_of_mem hc))⟩

theorem starts_rest {b s r : Str} {c : Char} (h : Starts b (c :: s) r) (hc : c ≠ ' ') : b.dropWhile (· == ' ') = c :: s ++ r := by
  obtain ⟨k, -, rfl⟩ := h
  rw [List.append_assoc, List.dropWhile_append_of_pos (by intro x hx; rw [List.eq_of_mem_replicate hx]; rfl)]
  simp [hc]

/-- The name behind the first character. -/
def nameOf (d : Str) : Str := (d.drop 1).takeWhile nameChar

theorem nameOf_eq {n r : Str} (h : ∀ c ∈ n, nameChar c = true) (hr : ∀ c ∈ r.head?, nameChar c = false) : nameOf ('<' :: n ++ r) = n := by
  unfold nameOf
  simp only [List.cons_append, List.drop_succ_cons, List.drop_zero]
  rw [List.takeWhile_append_of_pos h]
  cases r with
  | nil => simp
  | cons c r => rw [List.takeWhile_cons, if_neg (by simp [hr c (by simp)])]; simp

theorem verbatim_chars (p : Parser) : ∀ m ∈ verbatimNames p, m ≠ [] ∧ ∀ c ∈ m, nameChar c = true := by
  cases p <;> decide

theorem block_chars : ∀ m ∈ blockNames, m ≠ [] ∧ ∀ c ∈ m, nameChar c = true := by
  decide +kernel

theorem names_disjoint (p : Parser) : ∀ m ∈ verbatimNames p, m ∉ blockNames := by
  cases p <;> decide +kernel

theorem white_name {c : Char} (h : WhiteSpace c) : nameChar c = false := by
  unfold WhiteSpace at h
  rcases h with rfl | rfl | rfl | rfl | rfl | rfl <;> decide

/-- What the first characters tell about the kind. -/
def KindOf (p : Parser) (d : Str) : HtmlKind → Prop
  | .verbatim => (nameOf d).map asciiLower ∈ verbatimNames p
  | .comment => d[1]? = some '!' ∧ d[2]? = some '-'
  | .instruction => d[1]? = some '?'
  | .declaration => d[1]? = some '!' ∧ ∃ c, d[2]? = some c ∧ Letter c
  | .cdata => d[1]? = some '!' ∧ d[2]? = some '['
  | .block => d[1]? = some '/' ∨ (nameOf d).map asciiLower ∈ blockNames
  | .tag => d[1]? = some '/' ∨ (nameOf d ≠ [] ∧ (nameOf d).map asciiLower ∉ verbatimNames p)

theorem kindOf_start {p : Parser} {b : Str} {k : HtmlKind} (h : HtmlStart p b k) : KindOf p (b.dropWhile (· == ' ')) k := by
  have hend : ∀ {r : Str}, (∀ c ∈ r.head?, c = ' ' ∨ c = '\t' ∨ c = '>') → ∀ c ∈ r.head?, nameChar c = false := by
    intro r h c hc
    rcases h c hc with rfl | rfl | rfl <;> decide
  cases k with
  | verbatim =>
    obtain ⟨n, r, h, hn, hr⟩ := h
    rw [starts_rest h (by decide)]
    unfold KindOf
    rwa [nameOf_eq (names_chars (verbatim_chars p) hn).2 (hend hr)]
  | comment => obtain ⟨r, h⟩ := h; rw [starts_rest (s := "!--".toList) h (by decide)]; exact ⟨rfl, rfl⟩
  | instruction => obtain ⟨r, h⟩ := h; rw [starts_rest (s := "?".toList) h (by decide)]; exact rfl
  | declaration => obtain ⟨c, r, h, hc⟩ := h; rw [starts_rest h (by decide)]; exact ⟨rfl, c, rfl, hc⟩
  | cdata => obtain ⟨r, h⟩ := h; rw [starts_rest (s := "![CDATA[".toList) h (by decide)]; exact ⟨rfl, rfl⟩
  | block =>
    obtain ⟨s, n, r, h, hs, hn, hr⟩ := h
    rw [List.cons_append] at h
    rw [starts_rest h (by decide)]
    rcases hs with rfl | rfl
    · right
      rw [List.nil_append, nameOf_eq (names_chars block_chars hn).2]
      · exact hn
      · rcases hr with hr | ⟨r', rfl⟩
        · exact hend hr
        · intro c hc
          injection hc with hc
          subst hc
          decide
    · exact .inl rfl
  | tag =>
    obtain ⟨⟨n, x, r, h, -, hn, hx⟩, -⟩ := h
    rcases hx with ⟨a, c, e, rfl, ht, ha, hc, he⟩ | ⟨ht, c, rfl, -⟩
    · simp only [List.cons_append, List.append_assoc] at h
      rw [starts_rest h (by decide)]
      right
      have hnc : ∀ c ∈ n, nameChar c = true := by
        obtain ⟨x, t, rfl, h1, h2⟩ := ht
        intro c hc
        rcases List.mem_cons.mp hc with rfl | hc
        · exact nameChar_of (.inl h1)
        · exact nameChar_of (h2 c hc)
      have : nameOf ('<' :: (n ++ (a ++ (c ++ (e ++ ['>'])))) ++ r) = n := by
        have := nameOf_eq hnc (r := a ++ (c ++ (e ++ ['>'])) ++ r) (by
          intro y hy
          cases ha with
          | nil =>
            cases c with
            | nil =>
              rcases he with rfl | rfl
              · injection hy with hy; subst hy; decide
              · injection hy with hy; subst hy; decide
            | cons z c => injection hy with hy; subst hy; exact white_name (hc _ (by simp))
          | cons h1 _ =>
            obtain ⟨g, m, v, rfl, hg, -⟩ := h1
            rcases hg with ⟨-, hne, hg⟩ | ⟨hf, -⟩
            · cases g with
              | nil => exact absurd rfl hne
              | cons z g => injection hy with hy; subst hy; exact white_name (hg _ (by simp))
            · exact absurd trivial hf)
        simpa using this
      rw [this]
      obtain ⟨x, t, rfl, -⟩ := ht
      exact ⟨by simp, hn⟩
    · rw [List.cons_append, List.cons_append, List.cons_append, List.cons_append] at h
      rw [starts_rest h (by decide)]
      exact .inl rfl

theorem nameOf_second {d : Str} {c : Char} (h : d[1]? = some c) (hc : nameChar c = false) : nameOf d = [] := by
  unfold nameOf
  cases d with
  | nil => simp at h
  | cons x d =>
    cases d with
    | nil => simp at h
    | cons y d =>
      simp only [List.getElem?_cons_succ, List.getElem?_cons_zero, Option.some.injEq] at h
      subst h
      simp [List.takeWhile_cons, hc]

/-- An HTML block has one kind. -/
theorem kind_unique {p : Parser} {b : Str} {k k' : HtmlKind} (h : HtmlStart p b k) (h' : HtmlStart p b k') : k = k' := by
  have key : ∀ {k k' : HtmlKind}, HtmlStart p b k → HtmlStart p b k' → k.ctorIdx < k'.ctorIdx → False := by
    intro k k' h h' hlt
    have hbt : ∀ {h : HtmlStart p b .block} {h' : HtmlStart p b .tag}, False := fun {h h'} => h'.2 h
    have g := kindOf_start h
    have g' := kindOf_start h'
    have n0 : nameOf (b.dropWhile (· == ' ')) = [] → (nameOf (b.dropWhile (· == ' '))).map asciiLower ∉ verbatimNames p ∧ (nameOf (b.dropWhile (· == ' '))).map asciiLower ∉ blockNames := by
      intro e
      rw [e]
      exact ⟨fun h => (verbatim_chars p _ h).1 rfl, fun h => (block_chars _ h).1 rfl⟩
    have nx : ∀ c, (b.dropWhile (· == ' '))[1]? = some c → nameChar c = false → nameOf (b.dropWhile (· == ' ')) = [] := fun c hc h => nameOf_second hc h
    generalize b.dropWhile (· == ' ') = d at g g' n0 nx
    have e1 := nx '!'
    have e2 := nx '?'
    have e3 := nx '/'
    have f1 : nameChar '!' = false := by decide
    have f2 : nameChar '?' = false := by decide
    have f3 : nameChar '/' = false := by decide
    have l1 : ¬ Letter '-' := by unfold Letter; decide
    have l2 : ¬ Letter '[' := by unfold Letter; decide
    have dj := names_disjoint p
    cases k <;> cases k' <;> simp only [HtmlKind.ctorIdx] at hlt <;> first | (exact absurd hlt (by decide)) | (exact hbt (h := h) (h' := h')) | skip
    all_goals
      simp only [KindOf] at g g'
      first
        | (rcases g' with g' | g' <;> simp_all; done)
        | (simp_all; done)
  rcases Nat.lt_trichotomy k.ctorIdx k'.ctorIdx with hlt | he | hgt
  · exact (key h h' hlt).elim
  · revert he
    cases k <;> cases k' <;> simp [HtmlKind.ctorIdx]
  · exact (key h' h hgt).elim

/-- What the rules for a line outside of fenced code and HTML blocks say. -/
theorem line_profile {p : Parser} {l : Str} {st st' : Place} {ρ : Role} (h : Line p l st ρ st') (ho : st.outer) {b : Str} (hb : Body l b) :
    ((First b '#' ∧ ρ = .heading ∧ st' = .free ∧ ∃ n r, IsAtx p b n r) ∨
     (∃ c n, First b c ∧ IsFenceChar c ∧ OpensWith l c n ∧ ρ = .code ∧ st' = .fence c n) ∨
     (∃ k, First b '<' ∧ HtmlStart p b k ∧ (k = .tag → st = .free) ∧ ρ = .html ∧ st' = (open Classical in if HtmlEnd p b k then .free else .html k)) ∨
     ((∀ c, First b c → c = '\t') ∧ BlankLine b ∧ ρ = .other ∧ st' = .free) ∨
     (∃ c, First b c ∧ c ∈ ['-', '_', '*'] ∧ Thematic b ∧ ρ = .other ∧ st' = .free) ∨
     (∃ c, First b c ∧ c ∈ ['=', '-'] ∧ ¬ Thematic b ∧ Underline b ∧ st ≠ .free ∧ ρ = .other ∧ st' = .unsure) ∨
     ((∀ c, First b c → c = '\t') ∧ ¬ BlankLine b ∧ Indented b ∧ ρ = .other ∧ st' = st) ∨
     (¬ BlankLine b ∧ ¬ Indented b ∧ ¬ Thematic b ∧ (st = .free ∨ ¬ Underline b) ∧ (∀ n r, ¬ IsAtx p b n r) ∧ (∀ c n, ¬ OpensWith l c n) ∧
       (∀ k, k ≠ .tag ∨ st ≠ .para → ¬ HtmlStart p b k) ∧ ρ = .other ∧ st' = .para)) := by
  have hu : ∀ {b' : Str}, Body l b' → b' = b := fun h => body_unique h hb
  cases h with
  | atx _ hb' h => cases hu hb'; exact .inl ⟨first_atx h, rfl, rfl, _, _, h⟩
  | @«open» _ c n _ h =>
    obtain ⟨h1, h2⟩ := first_opens h
    refine .inr (.inl ⟨c, n, first_body hb h1 ?_ ?_, h2, h, rfl, rfl⟩) <;> (rintro rfl; revert h2; unfold IsFenceChar; decide)
  | inside => exact ho.elim
  | close => exact ho.elim
  | htmlInside => exact ho.elim
  | htmlClose => exact ho.elim
  | html _ hb' h hk he => cases hu hb'; exact .inr (.inr (.inl ⟨_, first_html h, h, hk, rfl, by rw [if_neg he]⟩))
  | @htmlLine _ _ k _ hb' h he =>
    cases hu hb'
    refine .inr (.inr (.inl ⟨k, first_html h, h, ?_, rfl, by rw [if_pos he]⟩))
    rintro rfl
    exact absurd (not_first_blank he (first_html h)) (by decide)
  | blank _ hb' h => cases hu hb'; exact .inr (.inr (.inr (.inl ⟨fun c => not_first_blank h, h, rfl, rfl⟩)))
  | rule _ hb' h =>
    cases hu hb'
    obtain ⟨c, h1, h2⟩ := first_thematic h
    exact .inr (.inr (.inr (.inr (.inl ⟨c, h1, h2, h, rfl, rfl⟩))))
  | underline hs hb' h hn =>
    cases hu hb'
    obtain ⟨c, h1, h2⟩ := first_underline h
    exact .inr (.inr (.inr (.inr (.inr (.inl ⟨c, h1, by simpa using h2, hn, h, by rcases hs with rfl | ⟨rfl, -⟩ <;> simp, rfl, rfl⟩)))))
  | indented _ hb' h hn => cases hu hb'; exact .inr (.inr (.inr (.inr (.inr (.inr (.inl ⟨fun c => not_first_indented h, hn, h, rfl, rfl⟩))))))
  | text _ hb' h1 h2 h3 h4 _ h5 h6 h7 => cases hu hb'; exact .inr (.inr (.inr (.inr (.inr (.inr (.inr ⟨h1, h2, h3, h4, fun n r h => h5 ⟨n, r, h⟩, fun c n h => h6 ⟨c, n, h⟩, h7, rfl, rfl⟩))))))

/-- A line is read in one way. -/
theorem line_unique {p : Parser} {l b : Str} (hb : Body l b) {st s1 s2 : Place} {r1 r2 : Role} (h : Line p l st r1 s1) (h' : Line p l st r2 s2) : r1 = r2 ∧ s1 = s2 := by
  have hu : ∀ {b' : Str}, Body l b' → b' = b := fun h => body_unique h hb
  by_cases ho : st.outer
  · have u : ∀ {c d : Char}, First b c → First b d → c = d := first_unique
    have hno : ¬ IsFenceChar '#' ∧ ¬ IsFenceChar '<' ∧ ¬ IsFenceChar '-' ∧ ¬ IsFenceChar '_' ∧ ¬ IsFenceChar '*' ∧ ¬ IsFenceChar '=' ∧ ¬ IsFenceChar '\t' := by
      unfold IsFenceChar
      decide
    obtain ⟨f1, f2, f3, f4, f5, f6, f7⟩ := hno
    rcases line_profile h ho hb with ⟨a1, rfl, rfl, _, _, a2⟩ | ⟨c, n, a1, a2, a3, rfl, rfl⟩ | ⟨k, a1, a2, a3, rfl, rfl⟩ | ⟨a1, a2, rfl, rfl⟩ | ⟨c, a1, a2, a3, rfl, rfl⟩ | ⟨c, a1, a2, a3, a4, a5, rfl, rfl⟩ |
      ⟨a1, a2, a3, rfl, rfl⟩ | ⟨a1, a2, a3, a4, a5, a6, a7, rfl, rfl⟩ <;>
    rcases line_profile h' ho hb with ⟨b1, rfl, rfl, _, _, b2⟩ | ⟨c', n', b1, b2, b3, rfl, rfl⟩ | ⟨k', b1, b2, b3, rfl, rfl⟩ | ⟨b1, b2, rfl, rfl⟩ | ⟨c', b1, b2, b3, rfl, rfl⟩ | ⟨c', b1, b2, b3, b4, b5, rfl, rfl⟩ |
      ⟨b1, b2, b3, rfl, rfl⟩ | ⟨b1, b2, b3, b4, b5, b6, b7, rfl, rfl⟩
    all_goals first
      | exact ⟨rfl, rfl⟩
      | exact (b5 _ _ a2).elim
      | exact (a5 _ _ b2).elim
      | exact (b6 _ _ a3).elim
      | exact (a6 _ _ b3).elim
      | contradiction
      | exact absurd (b1 _ a1) (by decide)
      | exact absurd (a1 _ b1) (by decide)
      | skip
    all_goals first
      | (obtain ⟨rfl, rfl⟩ := opensWith_unique a3 b3; exact ⟨rfl, rfl⟩)
      | (have e := kind_unique a2 b2; subst e; exact ⟨rfl, rfl⟩)
      | exact (b4.elim a5 fun h => h a4).elim
      | exact (a4.elim b5 fun h => h b4).elim
      | exact (b7 k (by by_cases e : k = .tag; exacts [.inr (by rw [a3 e]; simp), .inl e]) a2).elim
      | exact (a7 k' (by by_cases e : k' = .tag; exacts [.inr (by rw [b3 e]; simp), .inl e]) b2).elim
      | exact absurd (u a1 b1) (by decide)
      | (exfalso; have e := u a1 b1; subst e; contradiction)
      | (exfalso; have e := u b1 a1; subst e; contradiction)
      | (exfalso; have e := u a1 b1; subst e; revert a2; decide)
      | (exfalso; have e := u a1 b1; subst e; revert b2; decide)
      | (exfalso; have e := u b1 a1; subst e; revert a2; decide)
      | (exfalso; have e := u b1 a1; subst e; revert b2; decide)
      | (exfalso; have e := a1 _ b1; subst e; first | contradiction | (revert b2; decide))
      | (exfalso; have e := b1 _ a1; subst e; first | contradiction | (revert a2; decide))
      | (exfalso; have e := u a1 b1; subst e; simp only [List.mem_cons, List.not_mem_nil, or_false] at a2; rcases a2 with rfl | rfl | rfl <;> contradiction)
      | (exfalso; have e := u a1 b1; subst e; simp only [List.mem_cons, List.not_mem_nil, or_false] at a2; rcases a2 with rfl | rfl <;> contradiction)
      | (exfalso; have e := u a1 b1; subst e; simp only [List.mem_cons, List.not_mem_nil, or_false] at b2; rcases b2 with rfl | rfl | rfl <;> contradiction)
      | (exfalso; have e := u a1 b1; subst e; simp only [List.mem_cons, List.not_mem_nil, or_false] at b2; rcases b2 with rfl | rfl <;> contradiction)
  · cases st with
    | free => exact absurd trivial ho
    | para => exact absurd trivial ho
    | unsure => exact absurd trivial ho
    | fence c n =>
      have key : ∀ {r : Role} {s : Place}, Line p l (.fence c n) r s → r = .code ∧ ((ClosesWith p l c n ∧ s = .free) ∨ (¬ ClosesWith p l c n ∧ s = .fence c n)) := by
        intro r s h
        cases h with
        | inside h => exact ⟨rfl, .inr ⟨h, rfl⟩⟩
        | close h => exact ⟨rfl, .inl ⟨h, rfl⟩⟩
        | underline h => rcases h with h | ⟨h, -⟩ <;> exact absurd h (by simp)
        | atx h => exact h.elim
        | «open» h => exact h.elim
        | html h => exact h.elim
        | htmlLine h => exact h.elim
        | blank h => exact h.elim
        | rule h => exact h.elim
        | indented h => exact h.elim
        | text h => exact h.elim
      obtain ⟨rfl, h1⟩ := key h
      obtain ⟨rfl, h2⟩ := key h'
      rcases h1 with ⟨h1, rfl⟩ | ⟨h1, rfl⟩ <;> rcases h2 with ⟨h2, rfl⟩ | ⟨h2, rfl⟩ <;> first | exact ⟨rfl, rfl⟩ | contradiction
    | html k =>
      have key : ∀ {r : Role} {s : Place}, Line p l (.html k) r s → r = .html ∧ ((HtmlEnd p b k ∧ s = .free) ∨ (¬ HtmlEnd p b k ∧ s = .html k)) := by
        intro r s h
        cases h with
        | htmlInside hb' h => cases hu hb'; exact ⟨rfl, .inr ⟨h, rfl⟩⟩
        | htmlClose hb' h => cases hu hb'; exact ⟨rfl, .inl ⟨h, rfl⟩⟩
        | underline h => rcases h with h | ⟨h, -⟩ <;> exact absurd h (by simp)
        | atx h => exact h.elim
        | «open» h => exact h.elim
        | html h => exact h.elim
        | htmlLine h => exact h.elim
        | blank h => exact h.elim
        | rule h => exact h.elim
        | indented h => exact h.elim
        | text h => exact h.elim
      obtain ⟨rfl, h1⟩ := key h
      obtain ⟨rfl, h2⟩ := key h'
      rcases h1 with ⟨h1, rfl⟩ | ⟨h1, rfl⟩ <;> rcases h2 with ⟨h2, rfl⟩ | ⟨h2, rfl⟩ <;> first | exact ⟨rfl, rfl⟩ | contradiction

/-- **C88**: the roles of the lines of a document are determined by the document. -/
theorem C88_roles_unique {p : Parser} {st : Place} {ls : List Str} (hb : ∀ l ∈ ls, ∃ b, Body l b) {rs rs' : List Role} (h : Leaf p st ls rs) (h' : Leaf p st ls rs') : rs = rs' := by
  induction h generalizing rs' with
  | nil => cases h'; rfl
  | cons hl ht ih =>
    obtain ⟨⟨b, h1⟩, h2⟩ := List.forall_mem_cons.mp hb
    cases h' with
    | cons hl' ht' =>
      obtain ⟨rfl, rfl⟩ := line_unique h1 hl hl'
      rw [ih h2 ht']

theorem line_exists {p : Parser} {l b : Str} (hb : Body l b) (hc : ¬ Container b) (ht : ¬ HtmlStart p b .tag) (st : Place) : ∃ ρ st', Line p l st ρ st' := by
  by_cases ho : st.outer
  · by_cases h1 : ∃ n r, IsAtx p b n r
    · obtain ⟨n, r, h1⟩ := h1
      exact ⟨_, _, .atx ho hb h1⟩
    by_cases h2 : ∃ c n, OpensWith l c n
    · obtain ⟨c, n, h2⟩ := h2
      exact ⟨_, _, .open ho h2⟩
    by_cases h3 : ∃ k, HtmlStart p b k
    · obtain ⟨k, h3⟩ := h3
      by_cases h4 : HtmlEnd p b k
      · exact ⟨_, _, .htmlLine ho hb h3 h4⟩
      · exact ⟨_, _, .html ho hb h3 (by rintro rfl; exact absurd h3 ht) h4⟩
    by_cases h4 : BlankLine b
    · exact ⟨_, _, .blank ho hb h4⟩
    by_cases h5 : Thematic b
    · exact ⟨_, _, .rule ho hb h5⟩
    by_cases h6 : Indented b
    · exact ⟨_, _, .indented ho hb h6 h4⟩
    by_cases h7 : st ≠ .free ∧ Underline b
    · refine ⟨_, _, .underline ?_ hb h7.2 h5⟩
      cases st with
      | free => exact absurd rfl h7.1
      | para => exact .inl rfl
      | unsure => exact .inr ⟨rfl, hc⟩
      | fence c n => exact ho.elim
      | html k => exact ho.elim
    · refine ⟨_, _, .text ho hb h4 h6 h5 ?_ hc h1 h2 (fun k _ h => h3 ⟨k, h⟩)⟩
      by_cases e : st = .free
      · exact .inl e
      · exact .inr fun h => h7 ⟨e, h⟩
  · cases st with
    | free => exact absurd trivial ho
    | para => exact absurd trivial ho
    | unsure => exact absurd trivial ho
    | fence c n =>
      by_cases h : ClosesWith p l c n
      · exact ⟨_, _, .close h⟩
      · exact ⟨_, _, .inside h⟩
    | html k =>
      by_cases h : HtmlEnd p b k
      · exact ⟨_, _, .htmlClose hb h⟩
      · exact ⟨_, _, .htmlInside hb h⟩

/-- **C88**: every document without block quotes and lists, and without tags alone in a line, is read in some way, so that the theorems apply to it. -/
theorem C88_roles_exist {p : Parser} {ls : List Str} (h : ∀ l ∈ ls, ∃ b, Body l b ∧ ¬ Container b ∧ ¬ HtmlStart p b .tag) : ∀ st : Place, ∃ rs, Leaf p st ls rs := by
  induction ls with
  | nil => exact fun st => ⟨[], .nil⟩
  | cons l ls ih =>
    intro st
    obtain ⟨⟨b, h1, h2, h3⟩, h4⟩ := List.forall_mem_cons.mp h
    obtain ⟨ρ, st', hl⟩ := line_exists h1 h2 h3 st
    obtain ⟨rs, hr⟩ := ih h4 st'
    exact ⟨ρ :: rs, .cons hl hr⟩

end Props

end MdToc
