import Verif.Lemmas.Recog

/-!
# The table of contents of a file with a table of contents
-/

set_option linter.unusedSimpArgs false

namespace MdToc

open MdToc.Spec MdToc.Props

/-- The seen lines before a point outside of code blocks do not depend on what follows. -/
theorem seen_of_outside {p : Parser} {a : List Str} (ho : Outside p a) (file : Bool) :
    ∃ vs, ∀ b vb, Seen p file b vb → Seen p file (a ++ b) (vs ++ vb) := by
  induction ho with
  | nil => exact ⟨[], fun b' vb' h => h⟩
  | @line ls l _ hl ih =>
    obtain ⟨vs, h⟩ := ih
    refine ⟨vs ++ [l], fun b' vb' hb => ?_⟩
    rw [List.append_assoc, List.append_assoc]
    exact h _ _ (.line hl hb)
  | @block ls l c n ms e _ hl hm he ih =>
    obtain ⟨vs, h⟩ := ih
    refine ⟨vs ++ [e], fun b' vb' hb => ?_⟩
    rw [List.append_assoc, List.append_assoc, List.append_assoc]
    exact h _ _ (.block hl hm he hb)

theorem heading_any {p : Parser} {a b : Bool} {l : Str} (h : ∃ n t, Heading p a l n t) : ∃ n t, Heading p b l n t := by
  obtain ⟨n, t, body, rest, c, h1, h2⟩ := h
  by_cases hp : p = .redcarpet
  · rw [if_pos hp] at h2
    exact ⟨n, _, body, rest, c, h1, by rw [if_pos hp]; exact ⟨h2.1, h2.2.1, h2.2.2.1, rfl⟩⟩
  · rw [if_neg hp] at h2
    exact ⟨n, _, body, rest, c, h1, by rw [if_neg hp]; exact ⟨h2.1, h2.2.1, rfl⟩⟩

theorem seen_plain {p : Parser} {file : Bool} {ms : List Str} (hm : ∀ l ∈ ms, PlainLine p l) {b vb : List Str} (h : Seen p file b vb) :
    Seen p file (ms ++ b) (ms ++ vb) := by
  induction ms with
  | nil => exact h
  | cons l ms ih => exact .line (hm l (by simp)).1 (ih (fun l hl => hm l (by simp [hl])))

/-- Lines outside of code blocks, then plain lines, then the rest. -/
theorem seenLines_around {p : Parser} {a : List Str} (ho : p ≠ .redcarpet → Outside p a) (file : Bool) (b : List Str) :
    ∃ va vb, ∀ ms, (∀ l ∈ ms, PlainLine p l) → SeenLines p file (a ++ (ms ++ b)) (va ++ (ms ++ vb)) := by
  unfold SeenLines
  by_cases hp : p = .redcarpet
  · exact ⟨a, b, fun ms _ => by rw [if_pos hp]⟩
  · obtain ⟨va, h⟩ := seen_of_outside (ho hp) file
    obtain ⟨vb, hb⟩ := seen_exists p file b
    exact ⟨va, vb, fun ms hm => by rw [if_neg hp]; exact h _ _ (seen_plain hm hb)⟩

theorem hdrStep_plain {E : Env} {o : Options} (hk : 1 ≤ o.keep) {l : Str} (hl : IsLine l) (hp : PlainLine o.parser l) (st : TocState) :
    hdrStep E o st l = .ok st := by
  unfold hdrStep
  cases hg : getMdHeader E l st.dup o.keep o.parser o.noLinks with
  | error e =>
    rcases getMdHeader_err hl hg with ⟨h, -⟩ | ⟨-, n, t, h, -⟩
    · omega
    · exact absurd ⟨n, t, h⟩ hp.2
  | ok v =>
    obtain ⟨hs, d'⟩ := v
    rcases getMdHeader_line hl hg with ⟨-, rfl, rfl⟩ | ⟨n, t, a, h, -⟩
    · rfl
    · exact absurd (heading_any ⟨n, t, h⟩) hp.2

theorem hdrRun_plain {E : Env} {o : Options} (hk : 1 ≤ o.keep) {ms : List Str} (hl : ∀ l ∈ ms, IsLine l) (hp : ∀ l ∈ ms, PlainLine o.parser l) (st : TocState) :
    hdrRun E o ms st = .ok st := by
  induction ms with
  | nil => rfl
  | cons l ms ih =>
    simp only [hdrRun, bind, Except.bind, hdrStep_plain hk (hl l (by simp)) (hp l (by simp))]
    exact ih (fun l h => hl l (by simp [h])) (fun l h => hp l (by simp [h]))

/-- If the lines `vs` are not all of the text then `keep` is positive. -/
theorem hdrRun_keep {E : Env} {o : Options} {vs : List Str} (hne : vs ≠ []) {st st' : TocState} (h : hdrRun E o vs st = .ok st') : 1 ≤ o.keep := by
  cases vs with
  | nil => exact absurd rfl hne
  | cons l vs =>
    by_contra hk
    have : ¬ o.keep ≥ 1 := hk
    simp [hdrRun, hdrStep, getMdHeader, getAtxHeading, this, bind, Except.bind] at h

theorem isItem_plain (p : Parser) {b l : Str} (h : IsItem b) (hl : l = b ∨ l = b ++ ['\n']) : PlainLine p l := by
  obtain ⟨hn, n, x, r, e, hx⟩ := h
  have hx1 : x ≠ ' ' := by rintro rfl; rcases hx with h | h | h | h <;> exact absurd h (by decide)
  have hx2 : x ≠ '#' := by rintro rfl; rcases hx with h | h | h | h <;> exact absurd h (by decide)
  have hx3 : x ≠ '`' := by rintro rfl; rcases hx with h | h | h | h <;> exact absurd h (by decide)
  have hx4 : x ≠ '~' := by rintro rfl; rcases hx with h | h | h | h <;> exact absurd h (by decide)
  -- the first character which is not a space
  have key : ∀ (k : Nat) (y : Char) (t r : Str), y ≠ ' ' → List.replicate n ' ' ++ x :: r = List.replicate k ' ' ++ y :: t → x = y := by
    intro k y t r hy e
    have h1 : ((List.replicate n ' ' ++ x :: r).dropWhile (· == ' ')).head? = some x := by
      rw [List.dropWhile_append_of_pos (by intro a ha; simp [(List.mem_replicate.mp ha).2]), List.dropWhile_cons_of_neg (by simpa using hx1)]
      rfl
    have h2 : ((List.replicate k ' ' ++ y :: t).dropWhile (· == ' ')).head? = some y := by
      rw [List.dropWhile_append_of_pos (by intro a ha; simp [(List.mem_replicate.mp ha).2]), List.dropWhile_cons_of_neg (by simpa using hy)]
      rfl
    rw [e, h2] at h1
    injection h1 with h1
    exact h1.symm
  constructor
  · rintro ⟨c, m, k, rest, -, h3, hc, e', -⟩
    obtain ⟨m, rfl⟩ : ∃ m', m = m' + 1 := ⟨m - 1, by omega⟩
    have hc' : c ≠ ' ' := by rintro rfl; rcases hc with h | h <;> exact absurd h (by decide)
    have : x = c := by
      rcases hl with hl | hl
      · exact key k c (List.replicate m c ++ rest) r hc' (by rw [← e, ← hl, e']; simp [List.replicate_succ])
      · exact key k c (List.replicate m c ++ rest) (r ++ ['\n']) hc' (by
          have : b ++ ['\n'] = List.replicate n ' ' ++ x :: (r ++ ['\n']) := by rw [e]; simp
          rw [← this, ← hl, e']; simp [List.replicate_succ])
    rcases hc with h | h
    · exact hx3 (this.trans h)
    · exact hx4 (this.trans h)
  · rintro ⟨lev, t, body, rest, c, hb, h⟩
    have hbb : body = b := by
      refine body_unique hb ?_
      rcases hl with hl | hl
      · exact ⟨[], [], by simp [hl], by simp, fun c hc => ⟨fun h => hn c hc (.inl h), fun h => hn c hc (.inr h)⟩⟩
      · exact ⟨[], ['\n'], by simp [hl], by simp, fun c hc => ⟨fun h => hn c hc (.inl h), fun h => hn c hc (.inr h)⟩⟩
    subst hbb
    obtain ⟨k, lev', rest', e'⟩ : ∃ k lev' rest', body = List.replicate k ' ' ++ '#' :: (List.replicate lev' '#' ++ rest') := by
      by_cases hp : p = .redcarpet
      · rw [if_pos hp] at h
        obtain ⟨⟨h1, h2, h3, -⟩, -⟩ := h
        obtain ⟨m, rfl⟩ : ∃ m', lev = m' + 1 := ⟨lev - 1, by omega⟩
        exact ⟨0, m, rest, by rw [h3]; simp [List.replicate_succ]⟩
      · rw [if_neg hp] at h
        obtain ⟨⟨k, h0, h1, h2, h3, -⟩, -⟩ := h
        obtain ⟨m, rfl⟩ : ∃ m', lev = m' + 1 := ⟨lev - 1, by omega⟩
        exact ⟨k, m, rest, by rw [h3]; simp [List.replicate_succ]⟩
    exact hx2 (key k '#' _ r (by decide) (by rw [← e]; exact e'))

theorem newline_plain (p : Parser) : PlainLine p ['\n'] := by
  constructor
  · rintro ⟨c, m, k, rest, -, h3, hc, e', -⟩
    have : c ∈ (['\n'] : Str) := by rw [e']; simp; omega
    simp at this
    subst this
    rcases hc with h | h <;> exact absurd h (by decide)
  · rintro ⟨lev, t, body, rest, c, hb, h⟩
    have hbb : body = [] := body_unique hb ⟨[], ['\n'], by simp, by simp, by simp⟩
    subst hbb
    by_cases hp : p = .redcarpet
    · rw [if_pos hp] at h
      obtain ⟨⟨h1, h2, h3, -⟩, -⟩ := h
      have := congrArg List.length h3
      simp at this
      omega
    · rw [if_neg hp] at h
      obtain ⟨⟨k, h0, h1, h2, h3, -⟩, -⟩ := h
      have := congrArg List.length h3
      simp at this
      omega

theorem reads_nil {t : Str} {ls : List Str} (h : Reads t ls) (e : ls = []) : t = [] := by
  cases h with
  | nil => rfl
  | last => simp at e
  | line => simp at e

/-- The lines of the file with a new block. -/
theorem written_reads {d : Char → Bool} {text marker core nl : Str} {ls before removed after cl : List Str} (hR : Reads text ls)
    (h : Cut d marker ls before removed after) (hg : GoodMarker marker) (hcl : Reads core cl) (hlast : ∀ c ∈ core.getLast?, isPySpace c = false)
    (he1 : IsEol nl core) (he : IsEol nl after.flatten) :
    ∃ mid, Reads (before.flatten ++ block core marker nl ++ after.flatten) (before ++ ((marker ++ ['\n']) :: mid ++ [marker ++ ['\n']] ++ after)) ∧
      ∀ l ∈ mid, l = ['\n'] ∨ l ∈ cl ∨ ∃ z ∈ cl, l = z ++ ['\n'] ∧ '\n' ∉ z := by
  obtain ⟨hg1, x, hx, hx'⟩ := hg
  have els := cut_lines h
  have hafter : Reads after.flatten after := reads_suffix hR (before ++ removed) after els
  have hne : marker ≠ [] := by rintro rfl; simp at hx
  obtain ⟨mid, hmid, hr⟩ := reads_block hcl hlast hg1 hne he1 he hafter
  refine ⟨mid, ?_, ?_⟩
  · rw [List.append_assoc]
    have hra : removed ++ after ≠ [] := by
      intro hra
      rcases h with ⟨m, h1, rfl⟩ | ⟨m, mid, m', h1, rfl⟩ | ⟨h1, rfl⟩
      · simp at hra
      · simp at hra
      · obtain ⟨m, mid, m', b, -, e, -⟩ := h1
        rw [e] at hra; simp at hra
    have := reads_split hR before (removed ++ after) (by rw [els, List.append_assoc]) hra _ _ hr
    simpa using this
  · intro l hl
    rcases hmid with ⟨rfl, -⟩ | ⟨cl', z, e, hc, rfl⟩
    · left; simpa using hl
    · have hz : '\n' ∉ z := by
        intro hz
        have hil := reads_isLine hcl z (by rw [e]; simp)
        obtain ⟨b, -, hb | hb, hb'⟩ := hil
        · have hnr : ('\n' : Char) ∈ core.getLast? ∨ ('\r' : Char) ∈ core.getLast? := by
            clear hlast he1
            subst hb
            clear hz hr hc hl
            induction hcl generalizing cl' with
            | nil => simp at e
            | @last b2 h1 h2 =>
              cases cl' with
              | nil =>
                simp at e
                subst e
                exact absurd (Or.inl rfl) (h2 '\n' (by simp))
              | cons _ _ => simp at e
            | @line b2 eol t ls2 h1 h2 h3 ih =>
              cases cl' with
              | nil =>
                simp at e
                obtain ⟨e1, e2⟩ := e
                subst e2
                have ht : t = [] := reads_nil h3 rfl
                subst ht
                rcases h2 with h2 | h2 | ⟨h2, -⟩ <;> subst h2 <;> simp
              | cons y ys =>
                simp at e
                have ht : t ≠ [] := by
                  rintro rfl
                  have := reads_lines h3 false
                  rw [e.2] at this
                  have h0 : Source.lines ⟨[], false⟩ = [] := rfl
                  rw [h0] at this
                  simp at this
                rw [List.getLast?_append_of_ne_nil _ ht]
                exact ih _ e.2
          rcases hnr with h | h <;> exact absurd (hlast _ h) (by decide)
        · subst hb
          exact hb' _ hz (.inl rfl)
      simp at hl
      rcases hl with h | h | h | h
      · exact .inl h
      · exact .inr (.inl (by rw [e]; simp [h]))
      · exact .inr (.inr ⟨z, by rw [e]; simp, h, hz⟩)
      · exact .inl h

end MdToc
