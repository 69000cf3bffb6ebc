import Verif.Steps
import Verif.Props.Writing

/-!
# The steps of writing are those of the sequential model
-/

set_option linter.unusedSimpArgs false

namespace MdToc

open MdToc.Spec

/-- A call for some number of steps. -/
def writeAlone (E : Env) (f string marker nl : Str) : Nat → FS → Pc → FS × Pc
  | 0, fs, pc => (fs, pc)
  | n + 1, fs, pc => let r := stepWrite E f string marker nl fs pc; writeAlone E f string marker nl n r.1 r.2

theorem existingLoop_find (E : Env) (text : Str) (lines : List Str) (pos : List Nat) :
    existingLoop E text lines pos = match findRegion E text pos with
      | (some (m1, m2), n) => (if m1 + 1 ≤ m2 - 1 then (extractLines lines (m1 + 1) (m2 - 1)).map pyStrip else .ok []).map (fun old => (some (old, m1, m2), n))
      | (none, n) => .ok (none, n) := by
  induction pos using findRegion.induct E text with
  | case1 m1 m2 t h =>
    unfold existingLoop findRegion
    rw [if_pos h, if_pos h]
    simp only [bind, Except.bind, Except.map]
    split
    · cases extractLines lines (m1 + 1) (m2 - 1) <;> rfl
    · rfl
  | case2 m1 m2 t h ih =>
    unfold existingLoop findRegion
    rw [if_neg h, if_neg h]
    exact ih
  | case3 l h =>
    unfold existingLoop findRegion
    split
    · exact absurd rfl (h _ _ _)
    · simp

theorem findRegion_two {E : Env} {text : Str} {pos : List Nat} {r : Nat × Nat} {n : Nat} (h : findRegion E text pos = (some r, n)) : 2 ≤ pos.length := by
  cases pos with
  | nil => simp [findRegion] at h
  | cons a t =>
    cases t with
    | nil => simp [findRegion] at h
    | cons b t => simp

theorem getExistingToc_find (E : Env) (lines : List Str) (marker : Str) :
    getExistingToc E lines marker = match findRegion E lines.flatten (lineMatches marker lines) with
      | (some (m1, m2), n) => (if m1 + 1 ≤ m2 - 1 then (extractLines lines (m1 + 1) (m2 - 1)).map pyStrip else .ok []).map
          (fun old => ⟨old, [(m1, m2)], decide ((lineMatches marker lines).length ≥ 2), n, lineMatches marker lines, m1⟩)
      | (none, n) => .ok ⟨if (lineMatches marker lines).length < 2 ∧ n = 1 then marker else [], [], decide ((lineMatches marker lines).length ≥ 2), n, lineMatches marker lines,
          (lineMatches marker lines).headD 0⟩ := by
  unfold getExistingToc
  simp only [existingLoop_find]
  cases hf : findRegion E lines.flatten (lineMatches marker lines) with
  | mk r n =>
    cases r with
    | none =>
      simp only [bind, Except.bind]
      by_cases h : 2 ≤ (lineMatches marker lines).length
      · have : ¬ (lineMatches marker lines).length < 2 := by omega
        simp [h, this]
      · have : (lineMatches marker lines).length < 2 := by omega
        simp [h, this]
    | some r =>
      obtain ⟨m1, m2⟩ := r
      simp only
      generalize (if m1 + 1 ≤ m2 - 1 then (extractLines lines (m1 + 1) (m2 - 1)).map pyStrip else .ok []) = x
      cases x <;> rfl

/-- The first steps: `_get_existing_toc`. -/
theorem writeAlone_find {E : Env} {f string marker nl : Str} {fs : FS} {lines : List Str} (hf : f ≠ stdinName) (hl : readLines fs f = .ok lines) :
    ∃ k, 1 ≤ k ∧ k ≤ 2 ∧ writeAlone E f string marker nl k fs .start = (fs, match getExistingToc E lines marker with
      | .error e => .done (.error e)
      | .ok e => .remove e e.intervals) ∧ ∀ j ≤ k, (writeAlone E f string marker nl j fs .start).1 = fs := by
  rw [getExistingToc_find]
  have h1 : stepWrite E f string marker nl fs .start = stepWrite E f string marker nl fs .start := rfl
  conv_rhs at h1 => unfold stepWrite
  rw [if_neg hf, hl] at h1
  cases hr : findRegion E lines.flatten (lineMatches marker lines) with
  | mk r n =>
    simp only [hr] at h1
    cases r with
    | none =>
      refine ⟨1, by omega, by omega, ?_, ?_⟩
      · unfold writeAlone writeAlone
        rw [h1]
      · intro j hj
        rcases (by omega : j = 0 ∨ j = 1) with rfl | rfl
        · rfl
        · unfold writeAlone writeAlone; rw [h1]
    | some r =>
      obtain ⟨m1, m2⟩ := r
      simp only at h1 ⊢
      by_cases hm : m1 + 1 ≤ m2 - 1
      · rw [if_pos hm] at h1 ⊢
        have h2 : stepWrite E f string marker nl fs (.extract (lineMatches marker lines) n m1 m2) = stepWrite E f string marker nl fs (.extract (lineMatches marker lines) n m1 m2) := rfl
        conv_rhs at h2 => unfold stepWrite
        rw [hl] at h2
        simp only at h2
        refine ⟨2, by omega, by omega, ?_, ?_⟩
        · unfold writeAlone writeAlone writeAlone
          rw [h1]
          simp only [h2]
          cases extractLines lines (m1 + 1) (m2 - 1) <;> rfl
        · intro j hj
          rcases (by omega : j = 0 ∨ j = 1 ∨ j = 2) with rfl | rfl | rfl
          · rfl
          · unfold writeAlone writeAlone; rw [h1]
          · unfold writeAlone writeAlone writeAlone
            rw [h1]
            simp only [h2]
            cases extractLines lines (m1 + 1) (m2 - 1) <;> rfl
      · rw [if_neg hm] at h1 ⊢
        refine ⟨1, by omega, by omega, ?_, ?_⟩
        · unfold writeAlone writeAlone
          rw [h1]; rfl
        · intro j hj
          rcases (by omega : j = 0 ∨ j = 1) with rfl | rfl
          · rfl
          · unfold writeAlone writeAlone; rw [h1]

theorem existing_intervals {E : Env} {lines : List Str} {marker : Str} {e : Existing} (h : getExistingToc E lines marker = .ok e) :
    (∃ iv, e.toDelete = [iv] ∧ e.twoOrMore = true) ∨ e.toDelete = [] := by
  rw [getExistingToc_find] at h
  cases hr : findRegion E lines.flatten (lineMatches marker lines) with
  | mk r n =>
    rw [hr] at h
    cases r with
    | none => right; simp at h; rw [← h]
    | some r =>
      left
      have := findRegion_two hr
      obtain ⟨m1, m2⟩ := r
      simp only at h
      generalize (if m1 + 1 ≤ m2 - 1 then (extractLines lines (m1 + 1) (m2 - 1)).map pyStrip else .ok []) = x at h
      cases x with
      | error e => simp [Except.map] at h
      | ok v =>
        simp only [Except.map, Except.ok.injEq] at h
        exact ⟨(m1, m2), by rw [← h], by rw [← h]; simpa using this⟩

theorem removeOne_eq (lines : List Str) (a b : Nat) : removeLineIntervals lines [(a, b)] = if a < 1 ∨ b < 1 ∨ a > b then .error .ValueError else (removeLineInterval lines a b).map (fun l => [l]) := by
  unfold removeLineIntervals
  split
  · rfl
  · cases removeLineInterval lines a b <;> simp [removeLineIntervals, bind, Except.bind, Except.map]

theorem writeLines_intervals {E : Env} {lines : List Str} {marker : Str} {e : Existing} (h : getExistingToc E lines marker = .ok e) (string nl : Str) :
    writeLines E lines string marker nl = match e.intervals with
      | [] => .ok (pyStrip string == e.oldToc, if e.posLen ≥ 1 then [insertStringAtLine lines (finalTocString string marker nl) e.firstLine nl] else [])
      | iv :: _ => if iv.1 < 1 ∨ iv.2 < 1 ∨ iv.1 > iv.2 then .error .ValueError else (removeLineInterval lines iv.1 iv.2).map (fun l => (pyStrip string == e.oldToc,
          l.flatten :: if e.posLen ≥ 1 then [insertStringAtLine l (finalTocString string marker nl) e.firstLine nl] else [])) := by
  unfold writeLines
  rw [h]
  simp only [bind, Except.bind]
  have hn : ∀ l, removeLineIntervals l [] = .ok [] := fun l => by unfold removeLineIntervals; rfl
  rcases existing_intervals h with ⟨⟨a, b⟩, h1, h2⟩ | h1
  · simp only [Existing.intervals, h1, h2, Bool.not_true, Bool.false_eq_true, false_and, if_false, List.append_nil, removeOne_eq]
    by_cases hv : a < 1 ∨ b < 1 ∨ a > b
    · rw [if_pos hv, if_pos hv]
    · rw [if_neg hv, if_neg hv]
      cases hx : removeLineInterval lines a b <;> simp [Except.map]
  · simp only [Existing.intervals, h1, List.nil_append, hn, List.getLast?_nil, Option.getD_none]
    by_cases h3 : (!e.twoOrMore) = true ∧ e.posLen = 1
    · rw [if_pos h3, if_pos h3]
      generalize e.positions.headD 0 = q
      rw [removeOne_eq]
      simp only
      by_cases hv : q < 1 ∨ q < 1 ∨ q > q
      · rw [if_pos hv, if_pos hv]
      · rw [if_neg hv, if_neg hv]
        cases hx : removeLineInterval lines q q <;> simp [Except.map]
    · rw [if_neg h3, if_neg h3]
      simp

/-- The outcome of a call: the successive contents of the file and the returned value or the exception. -/
def writeOutcome (E : Env) (fs : FS) (f string marker nl : Str) : List Str × Except Exn Bool :=
  match writeString E fs f string marker nl with
  | .error e => ([], .error e)
  | .ok (b, cs) => (cs, .ok b)

theorem writeAlone_add (E : Env) (f string marker nl : Str) (m n : Nat) (fs : FS) (pc : Pc) :
    writeAlone E f string marker nl (m + n) fs pc = writeAlone E f string marker nl n (writeAlone E f string marker nl m fs pc).1 (writeAlone E f string marker nl m fs pc).2 := by
  induction m generalizing fs pc with
  | zero => rw [Nat.zero_add]; rfl
  | succ m ih =>
    rw [show m + 1 + n = (m + n) + 1 by omega]
    exact ih _ _

theorem writeAlone_done (E : Env) (f string marker nl : Str) (n : Nat) (fs : FS) (r : Except Exn Bool) :
    writeAlone E f string marker nl n fs (.done r) = (fs, .done r) := by
  induction n with
  | zero => rfl
  | succ n ih => unfold writeAlone stepWrite; exact ih

/-- After `k` steps the state is `b`, and until then the file system is one of `l`. -/
def Goes (E : Env) (f string marker nl : Str) (a : FS × Pc) (l : List FS) (k : Nat) (b : FS × Pc) : Prop :=
  writeAlone E f string marker nl k a.1 a.2 = b ∧ ∀ j ≤ k, (writeAlone E f string marker nl j a.1 a.2).1 ∈ l

theorem Goes.trans {E : Env} {f string marker nl : Str} {a b c : FS × Pc} {l l' : List FS} {k k' : Nat} (h : Goes E f string marker nl a l k b) (h' : Goes E f string marker nl b l' k' c)
    (hs : l ⊆ l') : Goes E f string marker nl a l' (k + k') c := by
  obtain ⟨h1, h2⟩ := h
  obtain ⟨h1', h2'⟩ := h'
  refine ⟨by rw [writeAlone_add, h1]; exact h1', fun j hj => ?_⟩
  by_cases hk : j ≤ k
  · exact hs (h2 j hk)
  · have := h2' (j - k) (by omega)
    rw [show j = k + (j - k) by omega, writeAlone_add, h1]
    exact this

theorem goes_step {E : Env} {f string marker nl : Str} {a b : FS × Pc} {l : List FS} (h : stepWrite E f string marker nl a.1 a.2 = b) (h1 : a.1 ∈ l) (h2 : b.1 ∈ l) :
    Goes E f string marker nl a l 1 b := by
  have e : writeAlone E f string marker nl 1 a.1 a.2 = b := by unfold writeAlone writeAlone; rw [h]
  refine ⟨e, fun j hj => ?_⟩
  rcases (by omega : j = 0 ∨ j = 1) with rfl | rfl
  · exact h1
  · rw [e]; exact h2

theorem readLines_write (fs : FS) (f t : Str) : readLines (fs.write f t) f = .ok (Source.lines ⟨t, false⟩) := by
  unfold readLines FS.write
  simp

theorem write_write (fs : FS) (f t u : Str) : (fs.write f t).write f u = fs.write f u := by
  funext g
  unfold FS.write
  split <;> rfl

theorem removeLineInterval_lines {text : Str} {bad : Bool} {a b : Nat} {l : List Str} (h : removeLineInterval (Source.lines ⟨text, bad⟩) a b = .ok l) : Source.lines ⟨l.flatten, false⟩ = l := by
  have hR : Reads text (Source.lines ⟨text, bad⟩) := reads_iff.mpr rfl
  generalize Source.lines ⟨text, bad⟩ = ls at hR h
  unfold removeLineInterval at h
  split at h
  · simp at h
  split at h
  · simp at h
  split at h
  · simp at h
  injection h with h
  have e : ls = ls.take (a - 1) ++ (ls.drop (a - 1)).take (b - (a - 1)) ++ ls.drop b := by
    rw [List.append_assoc]
    conv_lhs => rw [← List.take_append_drop (a - 1) ls]
    congr 1
    conv_lhs => rw [← List.take_append_drop (b - (a - 1)) (ls.drop (a - 1)), List.drop_drop]
    congr 2
    omega
  have := Props.reads_remove hR e
  rw [h] at this
  exact reads_lines this false

theorem goes_insert {E : Env} {f string marker nl : Str} {fs : FS} {e : Existing} {lines : List Str} (hr : readLines fs f = .ok lines) {l : List FS} (h1 : fs ∈ l)
    (h2 : e.posLen ≥ 1 → fs.write f (insertStringAtLine lines (finalTocString string marker nl) e.firstLine nl) ∈ l) :
    Goes E f string marker nl (fs, .insert e) l 1
      (if e.posLen ≥ 1 then fs.write f (insertStringAtLine lines (finalTocString string marker nl) e.firstLine nl) else fs, .done (.ok (pyStrip string == e.oldToc))) := by
  refine goes_step ?_ h1 ?_
  · simp only [stepWrite, hr]
    split <;> rfl
  · simp only
    split
    · rename_i h; exact h2 h
    · exact h1

/-- A call alone does what the sequential model says. -/
theorem goes_write (E : Env) (f string marker nl : Str) (fs : FS) : ∃ k, 1 ≤ k ∧ k ≤ 5 ∧
    Goes E f string marker nl (fs, .start) (fs :: traceFS fs f (writeOutcome E fs f string marker nl).1) k
      (((traceFS fs f (writeOutcome E fs f string marker nl).1).getLast?).getD fs, .done (writeOutcome E fs f string marker nl).2) := by
  by_cases hf : f = stdinName
  · refine ⟨1, by omega, by omega, ?_⟩
    have hw : writeOutcome E fs f string marker nl = ([], .error .StdinIsNotAFileToBeWritten) := by
      unfold writeOutcome writeString; rw [if_pos hf]
    rw [hw]
    refine goes_step ?_ (by simp) (by simp [traceFS])
    simp only [stepWrite, if_pos hf]
    rfl
  cases hr : readLines fs f with
  | error e =>
    refine ⟨1, by omega, by omega, ?_⟩
    have hw : writeOutcome E fs f string marker nl = ([], .error e) := by
      unfold writeOutcome writeString
      rw [if_neg hf]
      unfold readLines at hr
      cases hx : fs f with
      | none => rw [hx] at hr; simp at hr; subst hr; rfl
      | some src =>
        rw [hx] at hr
        simp only at hr ⊢
        split at hr
        · rename_i hb
          injection hr with hr
          rw [if_pos hb, hr]
        · simp at hr
    rw [hw]
    refine goes_step ?_ (by simp) (by simp [traceFS])
    simp only [stepWrite, if_neg hf, hr]
    rfl
  | ok lines =>
    obtain ⟨text, hlt⟩ : ∃ text, lines = Source.lines ⟨text, false⟩ := by
      unfold readLines at hr
      cases hx : fs f with
      | none => rw [hx] at hr; simp at hr
      | some src =>
        rw [hx] at hr
        simp only at hr
        split at hr
        · simp at hr
        · injection hr with hr
          exact ⟨src.text, hr.symm⟩
    have hw : writeString E fs f string marker nl = writeLines E lines string marker nl := by
      unfold writeString
      rw [if_neg hf]
      unfold readLines at hr
      cases hx : fs f with
      | none => rw [hx] at hr; simp at hr
      | some src =>
        rw [hx] at hr
        simp only at hr ⊢
        split at hr
        · simp at hr
        · rename_i hb
          injection hr with hr
          rw [if_neg hb, hr]
    obtain ⟨k, k1, k2, k3, k4⟩ := writeAlone_find (E := E) (string := string) (marker := marker) (nl := nl) hf hr
    unfold writeOutcome
    rw [hw]
    have hgo : ∀ l : List FS, fs ∈ l → ∀ b, writeAlone E f string marker nl k fs .start = b → Goes E f string marker nl (fs, .start) l k b :=
      fun l hl b hb => ⟨hb, fun j hj => by rw [k4 j hj]; exact hl⟩
    cases he : getExistingToc E lines marker with
    | error e =>
      rw [he] at k3
      have : writeLines E lines string marker nl = .error e := by
        unfold writeLines; rw [he]; rfl
      rw [this]
      exact ⟨k, k1, by omega, hgo _ (by simp) _ k3⟩
    | ok e =>
      rw [he] at k3
      rw [writeLines_intervals he]
      simp only at k3
      have hlen : e.intervals.length ≤ 1 := by
        unfold Existing.intervals
        rcases existing_intervals he with ⟨iv, h1, h2⟩ | h1
        · rw [h1, h2]; simp
        · rw [h1]
          split <;> simp
      cases hiv : e.intervals with
      | nil =>
        rw [hiv] at k3
        simp only
        generalize hc : (if e.posLen ≥ 1 then [insertStringAtLine lines (finalTocString string marker nl) e.firstLine nl] else []) = cs
        have hl : fs ∈ fs :: traceFS fs f cs := by simp
        have g1 := hgo _ hl _ k3
        have g2 : Goes E f string marker nl (fs, .remove e []) (fs :: traceFS fs f cs) 1 (fs, .insert e) := goes_step rfl hl hl
        have g3 := goes_insert (E := E) (string := string) (marker := marker) (nl := nl) (e := e) hr hl (fun h => by
          rw [← hc, if_pos h]; simp [traceFS])
        refine ⟨k + 1 + 1, by omega, by omega, ?_⟩
        have := (g1.trans g2 (by simp)).trans g3 (by simp)
        convert this using 2
        rw [← hc]
        split <;> simp [traceFS]
      | cons iv t =>
        have ht : t = [] := by
          rw [hiv] at hlen
          simp at hlen
          exact hlen
        subst ht
        obtain ⟨a, b⟩ := iv
        rw [hiv] at k3
        simp only
        by_cases hv : a < 1 ∨ b < 1 ∨ a > b
        · rw [if_pos hv]
          refine ⟨k + 1, by omega, by omega, ?_⟩
          refine (hgo [fs] (by simp) _ k3).trans (goes_step ?_ (by simp [traceFS]) (by simp [traceFS])) (by simp)
          simp only [stepWrite, if_pos hv]
          rfl
        · rw [if_neg hv]
          cases hx : removeLineInterval lines a b with
          | error e =>
            refine ⟨k + 1, by omega, by omega, ?_⟩
            refine (hgo [fs] (by simp) _ k3).trans (goes_step ?_ (by simp [Except.map, traceFS]) (by simp [Except.map, traceFS])) (by simp [Except.map])
            simp only [stepWrite, if_neg hv, hr, hx]
            rfl
          | ok l =>
            simp only [Except.map]
            have hll : readLines (fs.write f l.flatten) f = .ok l := by
              rw [readLines_write]
              rw [hlt] at hx
              rw [removeLineInterval_lines hx]
            generalize hc : (if e.posLen ≥ 1 then [insertStringAtLine l (finalTocString string marker nl) e.firstLine nl] else []) = cs
            have hl : fs ∈ fs :: traceFS fs f (l.flatten :: cs) := by simp
            have hl2 : fs.write f l.flatten ∈ fs :: traceFS fs f (l.flatten :: cs) := by simp [traceFS]
            have g1 := hgo _ hl _ k3
            have g2 : Goes E f string marker nl (fs, .remove e [(a, b)]) (fs :: traceFS fs f (l.flatten :: cs)) 1 (fs.write f l.flatten, .remove e []) :=
              goes_step (by simp only [stepWrite, if_neg hv, hr, hx]) hl hl2
            have g3 : Goes E f string marker nl (fs.write f l.flatten, .remove e []) (fs :: traceFS fs f (l.flatten :: cs)) 1 (fs.write f l.flatten, .insert e) := goes_step rfl hl2 hl2
            have g4 := goes_insert (E := E) (string := string) (marker := marker) (nl := nl) (e := e) hll hl2 (fun h => by
              rw [← hc, if_pos h, write_write]; simp [traceFS])
            refine ⟨k + 1 + 1 + 1, by omega, by omega, ?_⟩
            have := ((g1.trans g2 (by simp)).trans g3 (by simp)).trans g4 (by simp)
            convert this using 2
            rw [← hc]
            split <;> simp [traceFS, write_write]

end MdToc
