import Verif.Lemmas.Write

/-!
# What is written, and how it is read again
-/

set_option linter.unusedSimpArgs false

namespace MdToc

open MdToc.Spec

theorem removeInterval_eq {ls a r b : List Str} (e : ls = a ++ r ++ b) (hr : r ≠ []) :
    removeLineIntervals ls [(a.length + 1, a.length + r.length)] = .ok [a ++ b] := by
  have hl : 1 ≤ r.length := by
    cases r with
    | nil => exact absurd rfl hr
    | cons => simp
  unfold removeLineIntervals
  rw [if_neg (by omega)]
  unfold removeLineInterval
  rw [if_neg (by omega), if_neg (by omega), if_neg (by rw [e]; simp)]
  have h1 : ls.take (a.length + 1 - 1) = a := by
    rw [e, List.append_assoc]; simp
  have h2 : ls.drop (a.length + r.length) = b := by
    rw [e]; exact List.drop_left' (by simp)
  rw [h1, h2]
  rfl

theorem insert_eq (a b : List Str) (s nl : Str) :
    insertStringAtLine (a ++ b) s (a.length + 1) nl = a.flatten ++ s ++ b.flatten := by
  unfold insertStringAtLine
  cases b with
  | nil => simp
  | cons c b =>
    rw [if_pos (by simp)]
    simp

theorem write_none {E : Env} {ls : List Str} {marker string nl : Str} (h : ∀ l ∈ ls, ¬ IsMarker marker l) :
    writeLines E ls string marker nl = .ok (pyStrip string == [], []) := by
  unfold writeLines
  rw [existing_none h]
  rfl

/-- The text to which the string is compared. -/
def OldTable (digit : Char → Bool) (marker : Str) (ls : List Str) (old : Str) : Prop :=
  ((∀ l ∈ ls, ¬ IsMarker marker l) → old = []) ∧
  (∀ before m after, OneMarker marker ls before m after → old = marker) ∧
  (∀ before m mid m' after, FirstTable digit marker ls before m mid m' after → old = pyStrip mid.flatten) ∧
  (∀ before after, ManyMarkers digit marker ls before after → old = [])

theorem existing_old {E : Env} {text marker : Str} {ls : List Str} (hR : Reads text ls) {e : Existing}
    (h : getExistingToc E ls marker = .ok e) : OldTable E.isDigit marker ls e.oldToc := by
  refine ⟨?_, ?_, ?_, ?_⟩
  · intro h'
    rw [existing_none h'] at h
    cases h; rfl
  · intro before m after h'
    rw [existing_one h'] at h
    cases h; rfl
  · intro before m mid m' after h'
    obtain ⟨n, pos, h''⟩ := existing_table (E := E) hR h'
    rw [h''] at h
    cases h; rfl
  · intro before after h'
    obtain ⟨pos, h''⟩ := existing_many (E := E) hR h'
    rw [h''] at h
    cases h; rfl

theorem existing_ok (E : Env) {text marker : Str} {ls : List Str} (hR : Reads text ls) :
    ∃ e, getExistingToc E ls marker = .ok e := by
  by_cases h : ∃ l ∈ ls, IsMarker marker l
  · obtain ⟨b, r, a, ⟨m, h1, -⟩ | ⟨m, mid, m', h1, -⟩ | ⟨h1, -⟩⟩ := cut_exists E.isDigit marker h
    · exact ⟨_, existing_one h1⟩
    · obtain ⟨n, pos, h'⟩ := existing_table (E := E) hR h1
      exact ⟨_, h'⟩
    · obtain ⟨pos, h'⟩ := existing_many (E := E) hR h1
      exact ⟨_, h'⟩
  · exact ⟨_, existing_none (fun l hl hl' => h ⟨l, hl, hl'⟩)⟩

theorem write_cut {E : Env} {text : Str} {ls before removed after : List Str} {marker string nl : Str} (hR : Reads text ls)
    (h : Cut E.isDigit marker ls before removed after) :
    ∃ e, getExistingToc E ls marker = .ok e ∧
    writeLines E ls string marker nl = .ok (pyStrip string == e.oldToc,
      (if removed = [] then [] else [(before ++ after).flatten]) ++
        [before.flatten ++ block (pyRstrip string) marker nl ++ after.flatten]) := by
  rcases h with ⟨m, h1, rfl⟩ | ⟨m, mid, m', h1, rfl⟩ | ⟨h1, rfl⟩
  · refine ⟨_, existing_one h1, ?_⟩
    unfold writeLines
    rw [existing_one h1]
    have e1 : ls = before ++ [m] ++ after := by rw [h1.1]; simp
    have := removeInterval_eq e1 (by simp)
    simp only [List.length_singleton] at this
    have hnil : removeLineIntervals ls [] = .ok [] := by unfold removeLineIntervals; rfl
    simp only [bind, Except.bind, hnil, List.getLast?_nil, Option.getD_none, Bool.not_false, true_and, if_true, List.headD_cons, this,
      List.getLast?_singleton, Option.getD_some]
    rw [if_pos (by omega), insert_eq]
    simp [finalTocString, block]
  · obtain ⟨n, pos, h'⟩ := existing_table (E := E) hR h1
    refine ⟨_, h', ?_⟩
    unfold writeLines
    rw [h']
    have e1 : ls = before ++ (m :: mid ++ [m']) ++ after := by rw [h1.1]; simp
    have := removeInterval_eq e1 (by simp)
    have el : before.length + (m :: mid ++ [m']).length = before.length + mid.length + 2 := by simp; omega
    rw [el] at this
    simp only [bind, Except.bind, this]
    simp only [Bool.not_true, Bool.false_eq_true, false_and, if_false, List.getLast?_singleton, Option.getD_some, List.getLast?_nil,
      Option.getD_none]
    rw [if_pos (by omega), insert_eq]
    simp [finalTocString, block]
  · obtain ⟨pos, h'⟩ := existing_many (E := E) hR h1
    refine ⟨_, h', ?_⟩
    obtain ⟨m, mid, m', b, e1, -⟩ := h1
    unfold writeLines
    rw [h', e1]
    simp only [bind, Except.bind, removeLineIntervals, Bool.not_true, Bool.false_eq_true, false_and, if_false, List.getLast?_nil,
      Option.getD_none]
    rw [if_pos (by omega), insert_eq]
    simp [finalTocString, block]

theorem cut_lines {d : Char → Bool} {marker : Str} {ls before removed after : List Str} (h : Cut d marker ls before removed after) :
    ls = before ++ removed ++ after := by
  rcases h with ⟨m, h1, rfl⟩ | ⟨m, mid, m', h1, rfl⟩ | ⟨h1, rfl⟩
  · rw [h1.1]; simp
  · rw [h1.1]; simp
  · obtain ⟨m, mid, m', b, e1, -⟩ := h1
    rw [e1]; simp

theorem cut_lengths {E : Env} {text marker : Str} {ls before removed after : List Str} (hR : Reads text ls)
    (h : Cut E.isDigit marker ls before removed after) :
    ∃ e, getExistingToc E ls marker = .ok e ∧ e.firstLine = before.length + 1 ∧
      removed.length = match e.toDelete with
        | [] => if e.twoOrMore then 0 else 1
        | (a, b) :: _ => b + 1 - a := by
  rcases h with ⟨m, h1, rfl⟩ | ⟨m, mid, m', h1, rfl⟩ | ⟨h1, rfl⟩
  · exact ⟨_, existing_one h1, rfl, rfl⟩
  · obtain ⟨n, pos, h'⟩ := existing_table (E := E) hR h1
    exact ⟨_, h', rfl, by simp; omega⟩
  · obtain ⟨pos, h'⟩ := existing_many (E := E) hR h1
    exact ⟨_, h', rfl, rfl⟩

/-- There is one cut only. -/
theorem cut_unique {d : Char → Bool} {text marker : Str} {ls b r a b' r' a' : List Str} (hR : Reads text ls)
    (h : Cut d marker ls b r a) (h' : Cut d marker ls b' r' a') : b = b' ∧ r = r' ∧ a = a' := by
  obtain ⟨e, h1, h2, h3⟩ := cut_lengths (E := { asciiEnv with isDigit := d }) hR h
  obtain ⟨e', h1', h2', h3'⟩ := cut_lengths (E := { asciiEnv with isDigit := d }) hR h'
  rw [h1] at h1'
  injection h1' with h1'
  subst h1'
  have l1 : b.length = b'.length := by omega
  have l2 : r.length = r'.length := by rw [h3, h3']
  have e1 := cut_lines h
  rw [cut_lines h'] at e1
  obtain ⟨e2, e3⟩ := List.append_inj e1.symm (by simp [l1, l2])
  obtain ⟨e4, e5⟩ := List.append_inj e2 l1
  exact ⟨e4, e5, e3⟩

/-! ### Reading what was written -/

theorem reads_split {text : Str} {ls : List Str} (h : Reads text ls) : ∀ (a b : List Str), ls = a ++ b → b ≠ [] →
    ∀ t2 ls2, Reads t2 ls2 → Reads (a.flatten ++ t2) (a ++ ls2) := by
  induction h with
  | nil =>
    intro a b e hb
    simp at e
    exact absurd e.2 hb
  | @last l hl hn =>
    intro a b e hb t2 ls2 h2
    cases a with
    | nil => simpa using h2
    | cons x a =>
      simp at e
      exact absurd e.2.2 hb
  | @line l eol t ls hn he _ ih =>
    intro a b e hb t2 ls2 h2
    cases a with
    | nil => simpa using h2
    | cons x a =>
      simp only [List.cons_append] at e
      injection e with e1 e2
      have := Reads.line hn (.inl rfl) (ih a b e2 hb t2 ls2 h2)
      rw [← e1]
      simpa using this

theorem reads_suffix {text : Str} {ls : List Str} (h : Reads text ls) : ∀ (a b : List Str), ls = a ++ b → Reads b.flatten b := by
  induction h with
  | nil => intro a b e; simp at e; rw [e.2]; exact .nil
  | @last l hl hn =>
    intro a b e
    cases a with
    | nil => simp only [List.nil_append] at e; rw [← e]; simpa using Reads.last hl hn
    | cons x a =>
      simp at e
      rw [e.2.2]; exact .nil
  | @line l eol t ls hn he h' ih =>
    intro a b e
    cases a with
    | nil =>
      simp only [List.nil_append] at e
      rw [← e]
      exact reads_self (.line hn he h')
    | cons x a =>
      simp only [List.cons_append] at e
      injection e with e1 e2
      exact ih a b e2

/-- A text which does not end with a newline, followed by a newline. -/
theorem reads_core {core : Str} {cl : List Str} (h : Reads core cl) (h0 : core ≠ []) (hl : ∀ c ∈ core.getLast?, ¬ IsNewline c) :
    ∀ nl t ls, IsEol nl t → Reads t ls →
      ∃ cl' z, cl = cl' ++ [z] ∧ Reads (core ++ nl ++ t) (cl' ++ [z ++ ['\n']] ++ ls) := by
  induction h with
  | nil => exact absurd rfl h0
  | @last l hl' hn =>
    intro nl t ls he hr
    exact ⟨[], l, rfl, by simpa using Reads.line hn he hr⟩
  | @line l eol t ls hn he h' ih =>
    intro nl t2 ls2 he2 hr2
    have ht : t ≠ [] := by
      rintro rfl
      rw [List.append_nil] at hl
      rcases he with rfl | rfl | ⟨rfl, -⟩
      · exact hl '\n' (by simp) (.inl rfl)
      · exact hl '\n' (by simp) (.inl rfl)
      · exact hl '\r' (by simp) (.inr rfl)
    obtain ⟨cl', z, e1, h1⟩ := ih ht (by
      intro c hc
      refine hl c ?_
      rw [List.getLast?_append]
      simp only [Option.mem_def] at hc ⊢
      rw [hc]; rfl) nl t2 ls2 he2 hr2
    refine ⟨(l ++ ['\n']) :: cl', z, by simp [e1], ?_⟩
    have he' : IsEol eol (t ++ nl ++ t2) := by
      rcases he with rfl | rfl | ⟨rfl, h⟩
      · exact .inl rfl
      · exact .inr (.inl rfl)
      · refine .inr (.inr ⟨rfl, ?_⟩)
        cases t with
        | nil => exact absurd rfl ht
        | cons c t => simpa using h
    have := Reads.line hn he' h1
    simpa using this

/-- The lines of the block. -/
theorem reads_block {core marker nl t : Str} {cl ls : List Str} (hc : Reads core cl) (hlast : ∀ c ∈ core.getLast?, isPySpace c = false)
    (hm : ∀ c ∈ marker, ¬ IsNewline c) (h0 : marker ≠ []) (he1 : IsEol nl core) (he2 : IsEol nl t) (ht : Reads t ls) :
    ∃ mid, (mid = [['\n'], ['\n'], ['\n']] ∧ core = [] ∨
        ∃ cl' z, cl = cl' ++ [z] ∧ core ≠ [] ∧ mid = ['\n'] :: (cl' ++ [z ++ ['\n']]) ++ [['\n']]) ∧
      Reads (block core marker nl ++ t) ((marker ++ ['\n']) :: mid ++ (marker ++ ['\n']) :: ls) := by
  have hmk : marker.head? ≠ some '\n' := by
    intro h
    cases marker with
    | nil => simp at h
    | cons c m => simp at h; exact hm c (by simp) (.inl h)
  -- the end of the block
  have hend : Reads (marker ++ nl ++ t) ((marker ++ ['\n']) :: ls) := .line hm he2 ht
  have eolm : ∀ s, IsEol nl (marker ++ s) := by
    intro s
    rcases he1 with rfl | rfl | ⟨rfl, -⟩
    · exact .inl rfl
    · exact .inr (.inl rfl)
    · refine .inr (.inr ⟨rfl, ?_⟩)
      cases marker with
      | nil => exact absurd rfl h0
      | cons c m => simpa using hmk
  have eoln : ∀ s, IsEol nl (nl ++ s) := by
    intro s
    rcases he1 with rfl | rfl | ⟨rfl, -⟩
    · exact .inl rfl
    · exact .inr (.inl rfl)
    · exact .inr (.inr ⟨rfl, by simp⟩)
  have hend2 : Reads (nl ++ (marker ++ nl ++ t)) (['\n'] :: (marker ++ ['\n']) :: ls) := by
    have := Reads.line (b := []) (by simp) (eolm (nl ++ t)) (by simpa using hend)
    simpa using this
  by_cases hcore : core = []
  · subst hcore
    refine ⟨_, .inl ⟨rfl, rfl⟩, ?_⟩
    have h1 : Reads (nl ++ (nl ++ (marker ++ nl ++ t))) (['\n'] :: ['\n'] :: (marker ++ ['\n']) :: ls) := by
      have := Reads.line (b := []) (by simp) (eoln _) hend2
      simpa using this
    have h2 : Reads (nl ++ (nl ++ (nl ++ (marker ++ nl ++ t)))) (['\n'] :: ['\n'] :: ['\n'] :: (marker ++ ['\n']) :: ls) := by
      have := Reads.line (b := []) (by simp) (eoln _) h1
      simpa using this
    have h3 := Reads.line hm (eoln _) h2
    simpa [block] using h3
  · obtain ⟨cl', z, e1, h1⟩ := reads_core hc hcore (by
      intro c hc' hn
      have := hlast c hc'
      rcases hn with rfl | rfl <;> simp [isPySpace] at this) nl _ _ (eoln _) hend2
    refine ⟨_, .inr ⟨cl', z, e1, hcore, rfl⟩, ?_⟩
    have eolc : IsEol nl (core ++ (nl ++ (nl ++ (marker ++ nl ++ t)))) := by
      rcases he1 with rfl | rfl | ⟨rfl, h⟩
      · exact .inl rfl
      · exact .inr (.inl rfl)
      · refine .inr (.inr ⟨rfl, ?_⟩)
        cases core with
        | nil => exact absurd rfl hcore
        | cons c m => simpa using h
    have h2 : Reads (nl ++ (core ++ (nl ++ (nl ++ (marker ++ nl ++ t))))) (['\n'] :: (cl' ++ [z ++ ['\n']] ++ (['\n'] :: (marker ++ ['\n']) :: ls))) := by
      have := Reads.line (b := []) (by simp) eolc (by simpa using h1)
      simpa using this
    have h3 := Reads.line hm (eoln _) h2
    simpa [block] using h3

theorem pyStrip_append_nl (s : Str) : pyStrip (s ++ ['\n']) = pyStrip s := by
  obtain ⟨a, c, h1, h2, h3, h4, h5⟩ := trimmed_pyStrip s
  refine trimmed_iff.mp ⟨a, c ++ ['\n'], ?_, h2, ?_, h4, h5⟩
  · conv => lhs; rw [h1]
    simp
  · intro x hx
    rcases List.mem_append.mp hx with hx | hx
    · exact h3 x hx
    · simp at hx; subst hx; decide

theorem isMarker_nl {marker l : Str} : IsMarker marker (l ++ ['\n']) ↔ IsMarker marker l := by
  rw [isMarker_iff, isMarker_iff, pyStrip_append_nl]

theorem isMarker_self (marker : Str) : IsMarker marker marker := isMarker_iff.mpr rfl

theorem Spec.NoTable.last {d : Char → Bool} {marker m m' : Str} {a : List Str} (hm : IsMarker marker m) (_hm' : IsMarker marker m')
    (h : NoTable d marker (a ++ [m])) : NoTable d marker (a ++ [m']) := by
  intro x m1 mid m2 y e h1 h2 h3
  rcases List.eq_nil_or_concat y with rfl | ⟨y', w, rfl⟩
  · have e' : a ++ [m'] = (x ++ m1 :: mid) ++ [m2] := by rw [e]
    obtain ⟨e1, -⟩ := List.append_inj' e' (by simp)
    exact h x m1 mid m [] (by rw [e1]) h1 hm h3
  · have e' : a ++ [m'] = (x ++ m1 :: mid ++ m2 :: y') ++ [w] := by rw [e]; simp
    obtain ⟨e1, -⟩ := List.append_inj' e' (by simp)
    exact h x m1 mid m2 (y' ++ [m]) (by rw [e1]; simp) h1 h2 h3

/-- No table of contents ends at the new block. -/
theorem cut_noTable {d : Char → Bool} {marker m' : Str} {ls before removed after : List Str} (h : Cut d marker ls before removed after)
    (hm' : IsMarker marker m') : NoTable d marker (before ++ [m']) := by
  rcases h with ⟨m, h1, rfl⟩ | ⟨m, mid, m2, h1, rfl⟩ | ⟨h1, rfl⟩
  · exact NoTable.skip h1.2.2.1 (.single _ _ _)
  · obtain ⟨-, hm, -, -, -, h2⟩ := h1
    exact h2.last hm hm'
  · obtain ⟨_, _, _, _, -, -, hb, -⟩ := h1
    exact NoTable.skip hb (.single _ _ _)

theorem joined_reads {text : Str} {ls : List Str} (h : Reads text ls) : joined ls = text.filter (fun c => c != '\n' && c != '\r') := by
  have body : ∀ b : Str, (∀ c ∈ b, ¬ IsNewline c) → b.filter (fun c => c != '\n' && c != '\r') = b := by
    intro b hb
    rw [List.filter_eq_self]
    intro c hc
    have := hb c hc
    simp only [IsNewline, not_or] at this
    simp [this.1, this.2]
  induction h with
  | nil => rfl
  | @last l hl hn =>
    rw [body l hn]
    simp [joined]
    rintro _ h rfl
    exact hn _ h (.inl rfl)
  | @line l eol t ls hn he h' ih =>
    rw [joined_cons, ih, List.filter_append, List.filter_append, List.filter_append, body l hn,
      filter_no_nl (fun h => hn _ h (.inl rfl))]
    rcases he with rfl | rfl | ⟨rfl, -⟩ <;> simp

theorem pyStrip_white {a s b : Str} (ha : ∀ x ∈ a, isPySpace x = true) (hb : ∀ x ∈ b, isPySpace x = true) :
    pyStrip (a ++ s ++ b) = pyStrip s := by
  obtain ⟨l, r, h1, h2, h3, h4, h5⟩ := trimmed_pyStrip s
  refine trimmed_iff.mp ⟨a ++ l, r ++ b, ?_, ?_, ?_, h4, h5⟩
  · conv => lhs; rw [h1]
    simp
  · intro x hx
    rcases List.mem_append.mp hx with hx | hx
    · exact ha x hx
    · exact h2 x hx
  · intro x hx
    rcases List.mem_append.mp hx with hx | hx
    · exact h3 x hx
    · exact hb x hx

theorem pyStrip_trimmedRight {s core : Str} (h : TrimmedRight isPySpace s core) : pyStrip s = pyStrip core := by
  obtain ⟨r, rfl, h2, -⟩ := h
  have := pyStrip_white (a := []) (s := core) (b := r) (by simp) h2
  simpa using this

/-- The lines of the written file, and its table of contents. -/
theorem written_lines {d : Char → Bool} {text marker string core nl : Str} {ls before removed after : List Str} (hR : Reads text ls)
    (h : Cut d marker ls before removed after) (hg : GoodMarker marker) (hw : Recognisable d string core marker nl)
    (he : IsEol nl after.flatten) :
    ∃ mid, Reads (before.flatten ++ block core marker nl ++ after.flatten) (before ++ (marker ++ ['\n']) :: mid ++ (marker ++ ['\n']) :: after) ∧
      FirstTable d marker (before ++ (marker ++ ['\n']) :: mid ++ (marker ++ ['\n']) :: after) before (marker ++ ['\n']) mid (marker ++ ['\n']) after ∧
      joined mid = core.filter (fun c => c != '\n' && c != '\r') ∧
      ('\r' ∉ core → pyStrip mid.flatten = pyStrip string) := by
  obtain ⟨hg1, x, hx, hx'⟩ := hg
  obtain ⟨hc, hl, hn, he1⟩ := hw
  obtain ⟨cl, hcl⟩ := reads_exists core
  have els := cut_lines h
  have hafter : Reads after.flatten after := reads_suffix hR (before ++ removed) after els
  have hne : marker ≠ [] := by rintro rfl; simp at hx
  obtain ⟨mid, hmid, hr⟩ := reads_block hcl (by obtain ⟨_, _, _, h⟩ := hc; exact h) hg1 hne he1 he hafter
  have hnl : ¬ IsMarker marker ['\n'] := by
    rw [isMarker_iff]
    intro h'
    have : pyStrip marker = [] := by rw [← h']; decide
    have := strip_eq_nil_iff.mp this x hx
    rw [hx'] at this
    cases this
  have hmm : IsMarker marker (marker ++ ['\n']) := isMarker_nl.mpr (isMarker_self marker)
  refine ⟨mid, ?_, ⟨rfl, hmm, hmm, ?_, ?_, cut_noTable h hmm⟩, ?_, ?_⟩
  · rw [List.append_assoc, List.append_assoc]
    have hra : removed ++ after ≠ [] := by
      intro hra
      rcases h with ⟨m, h1, rfl⟩ | ⟨m, mid, m', h1, rfl⟩ | ⟨h1, rfl⟩
      · simp at hra
      · simp at hra
      · obtain ⟨m, mid, m', b, -, e, -⟩ := h1
        rw [e] at hra; simp at hra
    exact reads_split hR before (removed ++ after) (by rw [els, List.append_assoc]) hra _ _ hr
  · intro l hl'
    rcases hmid with ⟨rfl, -⟩ | ⟨cl', z, e, -, rfl⟩
    · simp at hl'; subst hl'; exact hnl
    · have : l = ['\n'] ∨ l ∈ cl' ∨ l = z ++ ['\n'] := by
        simp at hl'
        rcases hl' with h | h | h | h
        · exact .inl h
        · exact .inr (.inl h)
        · exact .inr (.inr h)
        · exact .inl h
      rcases this with rfl | h | rfl
      · exact hnl
      · exact hn cl hcl l (by rw [e]; simp [h])
      · exact fun h => hn cl hcl z (by rw [e]; simp) (isMarker_nl.mp h)
  · rcases hmid with ⟨rfl, -⟩ | ⟨cl', z, e, hcn, rfl⟩
    · left
      simp [joined]
    · right
      have : (['\n'] :: (cl' ++ [z ++ ['\n']]) ++ [['\n']]).tail.dropLast = cl' ++ [z ++ ['\n']] := by
        simp [List.dropLast_append]
      rw [this]
      have hj : joined (cl' ++ [z ++ ['\n']]) = joined cl := by
        rw [e]; simp [joined]
      rw [hj, joined_reads hcl]
      exact hl.resolve_left hcn
  · rcases hmid with ⟨rfl, rfl⟩ | ⟨cl', z, e, hcn, rfl⟩
    · simp [joined]
    · rw [← joined_reads hcl, e]
      simp [joined]
  · intro hcr
    rw [pyStrip_trimmedRight hc]
    rcases hmid with ⟨rfl, rfl⟩ | ⟨cl', z, e, hcn, rfl⟩
    · decide
    · have : (['\n'] :: (cl' ++ [z ++ ['\n']]) ++ [['\n']]).flatten = ['\n'] ++ core ++ ['\n', '\n'] := by
        rw [reads_flatten hcl hcr, e]
        simp
      rw [this]
      exact pyStrip_white (by decide) (by decide)

end MdToc
