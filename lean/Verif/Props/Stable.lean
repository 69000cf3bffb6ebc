import Verif.Props.WriteToc

/-!
# Which tables stay as they are (C38, C44, exact conditions)
-/

set_option linter.unusedSimpArgs false

namespace MdToc.Props

open MdToc.Spec

/-- The string, without the white space at its end, looks like a table. -/
def LooksLikeToc (digit : Char → Bool) (core : Str) : Prop :=
  core = [] ∨ ListLike digit (core.filter (fun c => c != '\n' && c != '\r'))

/-- The lines of the written file, for any string. -/
theorem written_any {d : Char → Bool} {text marker string core nl : Str} {ls before removed after : List Str} (hR : Reads text ls)
    (h : Cut d marker ls before removed after) (hg : GoodMarker marker) (hc : TrimmedRight isPySpace string core) (he1 : IsEol nl core)
    (he : IsEol nl after.flatten) :
    ∃ mid, Reads (before.flatten ++ block core marker nl ++ after.flatten) (before ++ (marker ++ ['\n']) :: mid ++ (marker ++ ['\n']) :: after) ∧
      (Recognised d mid → LooksLikeToc d core) ∧
      ((∀ cl, Reads core cl → ∀ l ∈ cl, ¬ IsMarker marker l) → ∀ l ∈ mid, ¬ IsMarker marker l) := by
  obtain ⟨hg1, x, hx, hx'⟩ := hg
  obtain ⟨cl, hcl⟩ := reads_exists core
  have els := cut_lines h
  have hafter : Reads after.flatten after := reads_suffix hR (before ++ removed) after els
  have hne : marker ≠ [] := by rintro rfl; simp at hx
  obtain ⟨mid, hmid, hr⟩ := reads_block hcl (by obtain ⟨_, _, _, h⟩ := hc; exact h) hg1 hne he1 he hafter
  refine ⟨mid, ?_, ?_, ?_⟩
  · rw [List.append_assoc, List.append_assoc]
    have hra : removed ++ after ≠ [] := by
      intro hra
      rcases h with ⟨m, h1, rfl⟩ | ⟨m, mid, m', h1, rfl⟩ | ⟨h1, rfl⟩
      · simp at hra
      · simp at hra
      · obtain ⟨m, mid, m', b, -, e, -⟩ := h1
        rw [e] at hra; simp at hra
    exact reads_split hR before (removed ++ after) (by rw [els, List.append_assoc]) hra _ _ hr
  · intro hrec
    rcases hmid with ⟨-, h0⟩ | ⟨cl', z, e, hcn, rfl⟩
    · exact .inl h0
    · right
      have hj : joined (cl' ++ [z ++ ['\n']]) = joined cl := by
        rw [e]; simp [joined]
      rcases hrec with hb | hl
      · exfalso
        have hj2 : joined (['\n'] :: (cl' ++ [z ++ ['\n']]) ++ [['\n']]) = joined (cl' ++ [z ++ ['\n']]) := by simp [joined]
        rw [hj2, hj, joined_reads hcl] at hb
        obtain ⟨_, _, _, hlast⟩ := hc
        have hgl := List.getLast?_eq_some_getLast hcn
        have h1 := hlast _ hgl
        have h2 := hb (core.getLast hcn) (by
          rw [List.mem_filter]
          refine ⟨List.getLast_mem hcn, ?_⟩
          have : core.getLast hcn ≠ '\n' ∧ core.getLast hcn ≠ '\r' := by
            constructor <;> intro h' <;> rw [h'] at h1 <;> exact absurd h1 (by decide)
          simp [this.1, this.2])
        unfold IsBlank at h2
        rcases h2 with h2 | h2 | h2 <;> rw [h2] at h1 <;> exact absurd h1 (by decide)
      · have : (['\n'] :: (cl' ++ [z ++ ['\n']]) ++ [['\n']]).tail.dropLast = cl' ++ [z ++ ['\n']] := by
          simp [List.dropLast_append]
        rw [this, hj, joined_reads hcl] at hl
        exact hl
  · intro hn l hl'
    have hnl : ¬ IsMarker marker ['\n'] := by
      rw [isMarker_iff]
      intro h'
      have : pyStrip marker = [] := by rw [← h']; decide
      have := strip_eq_nil_iff.mp this x hx
      rw [hx'] at this
      cases this
    rcases hmid with ⟨rfl, -⟩ | ⟨cl', z, e, -, rfl⟩
    · simp at hl'; subst hl'; exact hnl
    · have : l = ['\n'] ∨ l ∈ cl' ∨ l = z ++ ['\n'] := by
        simp at hl'
        rcases hl' with h | h | h | h
        · exact .inl h
        · exact .inr (.inl h)
        · exact .inr (.inr h)
        · exact .inl h
      rcases this with rfl | h | rfl
      · exact hnl
      · exact hn cl hcl l (by rw [e]; simp [h])
      · exact fun h => hn cl hcl z (by rw [e]; simp) (isMarker_nl.mp h)

/-- **C38**, the converse: a string that does not look like a table changes every file with a marker, at every call. -/
theorem C38_always_changed (E : Env) {fs : FS} {f text : Str} (hf1 : f ≠ "-".toList) (hf2 : fs f = some ⟨text, false⟩) {ls : List Str} (hR : Reads text ls)
    {string core marker nl : Str} (hm : ∃ l ∈ ls, IsMarker marker l) (hg : GoodMarker marker) (hc : TrimmedRight isPySpace string core)
    (hn : nl = ['\n'] ∨ nl = ['\r', '\n']) (hw : ¬ LooksLikeToc E.isDigit core) :
    ∃ b tr text', writeString E fs f string marker nl = .ok (b, tr) ∧ tr.getLast? = some text' ∧ text' ≠ text := by
  obtain ⟨before, removed, after, h⟩ := cut_exists E.isDigit marker hm
  obtain ⟨b, tr, h1, h2⟩ := C37_outside_preserved E ⟨hf1, text, hf2, hR⟩ string marker nl h hc
  have hany : ∀ t, IsEol nl t := fun t => hn.imp id .inl
  obtain ⟨mid, hr, himp, -⟩ := written_any hR h hg hc (hany _) (hany _)
  refine ⟨b, tr, _, h1, h2, fun heq => hw ?_⟩
  rw [heq] at hr
  have e : before ++ (marker ++ ['\n']) :: mid ++ (marker ++ ['\n']) :: after = before ++ removed ++ after := by
    rw [← cut_lines h, ← reads_lines hr false, ← reads_lines hR false]
  have e2 : (marker ++ ['\n']) :: mid ++ [marker ++ ['\n']] = removed := by
    have : before ++ (((marker ++ ['\n']) :: mid ++ [marker ++ ['\n']]) ++ after) = before ++ (removed ++ after) := by simpa using e
    exact List.append_cancel_right (List.append_cancel_left this)
  rcases h with ⟨m, h1, rfl⟩ | ⟨m, mid', m', h1, rfl⟩ | ⟨h1, rfl⟩
  · have := congrArg List.length e2
    simp at this
  · have e3 : mid ++ [marker ++ ['\n']] = mid' ++ [m'] := by
      simp only [List.cons_append, List.cons.injEq] at e2
      exact e2.2
    obtain ⟨rfl, -⟩ := List.append_inj' e3 (by simp)
    exact himp h1.2.2.2.2.1
  · simp at e2

/-- **C38**, exactly: the second call leaves the file as it is if and only if the string looks like a table. -/
theorem C38_exact (E : Env) {fs : FS} {f : Str} {ls : List Str} (hf : HasLines fs f ls) {string core marker nl : Str}
    (hm : ∃ l ∈ ls, IsMarker marker l) (hg : GoodMarker marker) (hc : TrimmedRight isPySpace string core)
    (hcm : ∀ cl, Reads core cl → ∀ l ∈ cl, ¬ IsMarker marker l) (hn : nl = ['\n'] ∨ nl = ['\r', '\n']) {b : Bool} {tr : List Str}
    (h1 : writeString E fs f string marker nl = .ok (b, tr)) :
    (∃ b' tr', writeString E (lastFS fs f tr) f string marker nl = .ok (b', tr') ∧ tr'.getLast? = tr.getLast?) ↔ LooksLikeToc E.isDigit core := by
  have hany : ∀ t, IsEol nl t := fun t => hn.imp id .inl
  obtain ⟨before, removed, after, h⟩ := cut_exists E.isDigit marker hm
  constructor
  · rintro ⟨b', tr', h2, h3⟩
    by_contra hw
    obtain ⟨_, _, hw1, hl⟩ := C37_outside_preserved E hf string marker nl h hc
    rw [h1] at hw1
    injection hw1 with hw1
    injection hw1 with e1 e2
    subst e1; subst e2
    obtain ⟨hf1, text, hf2, hR⟩ := hf
    obtain ⟨mid, hr, -⟩ := written_any hR h hg hc (hany _) (hany _)
    obtain ⟨b2, tr2, t2, g1, g2, g3⟩ := C38_always_changed E (fs := lastFS fs f tr) (string := string) (marker := marker) hf1 (by
      unfold lastFS
      rw [hl]
      simp [FS.write]) hr ⟨marker ++ ['\n'], by simp, isMarker_nl.mpr (isMarker_self marker)⟩ hg hc hn hw
    rw [h2] at g1
    injection g1 with g1
    injection g1 with e1 e2
    subst e2
    rw [h3, hl] at g2
    injection g2 with g2
    exact g3 g2.symm
  · intro hw
    exact C38_twice_partial E hf h hg ⟨hc, hw, hcm, hany _⟩ (hany _) h1

/-- **C39**, exactly, for a file with one marker: after writing, `tocs_equal` is `True` if and only if the string looks like a table. -/
theorem C39_exact (E : Env) {fs : FS} {f : Str} {ls : List Str} (hf : HasLines fs f ls) {string core marker nl m : Str} {before after : List Str}
    (h : OneMarker marker ls before m after) (hg : GoodMarker marker) (hc : TrimmedRight isPySpace string core)
    (hcm : ∀ cl, Reads core cl → ∀ l ∈ cl, ¬ IsMarker marker l) (hn : nl = ['\n'] ∨ nl = ['\r', '\n']) (hcr : '\r' ∉ core) {b : Bool} {tr : List Str}
    (h1 : writeString E fs f string marker nl = .ok (b, tr)) :
    tocsEqual E string (lastFS fs f tr f) marker = .ok true ↔ LooksLikeToc E.isDigit core := by
  have hany : ∀ t, IsEol nl t := fun t => hn.imp id .inl
  have hcut : Cut E.isDigit marker ls before [m] after := .inl ⟨m, h, rfl⟩
  constructor
  · intro heq
    by_contra hw
    obtain ⟨_, _, hw1, hl⟩ := C37_outside_preserved E hf string marker nl hcut hc
    rw [h1] at hw1
    injection hw1 with hw1
    injection hw1 with e1 e2
    subst e1; subst e2
    obtain ⟨hf1, text, hf2, hR⟩ := hf
    obtain ⟨mid, hr, himp, hmid⟩ := written_any hR hcut hg hc (hany _) (hany _)
    have hf' : HasLines (lastFS fs f tr) f (before ++ (marker ++ ['\n']) :: mid ++ (marker ++ ['\n']) :: after) := by
      refine ⟨hf1, _, ?_, hr⟩
      unfold lastFS
      rw [hl]
      simp [FS.write]
    have hmm : IsMarker marker (marker ++ ['\n']) := isMarker_nl.mpr (isMarker_self marker)
    obtain ⟨b2, g1, -, -, g2, -⟩ := C40_meaning E hf' string marker
    rw [g1] at heq
    injection heq with heq
    obtain ⟨-, -, hb, ha⟩ := h
    have hlast : NoTable E.isDigit marker ((marker ++ ['\n']) :: after) := by
      have : NoTable E.isDigit marker ((marker ++ ['\n']) :: after) := by
        intro x m1 mid1 m2 y e k1 k2 k3
        cases x with
        | nil =>
          simp only [List.nil_append, List.cons_append, List.cons.injEq] at e
          exact absurd k2 (ha m2 (by rw [e.2]; simp))
        | cons w x =>
          simp only [List.cons_append, List.cons.injEq] at e
          exact absurd k2 (ha m2 (by rw [e.2]; simp))
      exact this
    have hmany : ManyMarkers E.isDigit marker (before ++ (marker ++ ['\n']) :: mid ++ (marker ++ ['\n']) :: after) before ((marker ++ ['\n']) :: mid ++ (marker ++ ['\n']) :: after) :=
      ⟨_, mid, _, after, by simp, rfl, hb, hmm, hmm, by
        rw [List.append_assoc]
        exact NoTable.skip hb (NoTable.cons hmm hmm (hmid hcm) (fun hrec => hw (himp hrec)) hlast)⟩
    have hblank := (g2 _ _ hmany).mp heq
    obtain ⟨r, e, -, hlc⟩ := hc
    refine hw (.inl ?_)
    by_contra hne
    have k1 := hlc _ (List.getLast?_eq_some_getLast hne)
    have k2 := hblank (core.getLast hne) (by rw [e]; exact List.mem_append_left _ (List.getLast_mem hne))
    rw [k1] at k2
    cases k2
  · intro hw
    exact C39_up_to_date_partial E hf hcut hg ⟨hc, hw, hcm, hany _⟩ (hany _) hcr h1

/-- A text that looks like a list has at most three spaces in front. -/
theorem listLike_spaces {d : Char → Bool} (hd : d ' ' = false) {k : Nat} {x : Char} {t : Str} (hx : x ≠ ' ') (h : ListLike d (List.replicate k ' ' ++ x :: t)) : k ≤ 3 := by
  obtain ⟨n, m, r, h1, h2, h3, -⟩ := h
  obtain ⟨c, m', rfl, hc⟩ : ∃ c m', m = c :: m' ∧ c ≠ ' ' := by
    rcases h3 with rfl | rfl | rfl | ⟨d', e, rfl, hd', hdd, -⟩
    · exact ⟨_, _, rfl, by decide⟩
    · exact ⟨_, _, rfl, by decide⟩
    · exact ⟨_, _, rfl, by decide⟩
    · cases d' with
      | nil => exact absurd rfl hd'
      | cons c d' =>
        refine ⟨c, _, rfl, ?_⟩
        rintro rfl
        rw [hdd ' ' (by simp)] at hd
        cases hd
  by_contra hk
  have := congrArg (fun l => l[n]?) h2
  simp only [List.append_assoc] at this
  rw [List.getElem?_append_left (by simp; omega), List.getElem?_append_right (by simp)] at this
  simp at this
  have h4 := List.getElem?_replicate (n := k) (a := ' ') (i := n)
  rw [if_pos (by omega), this] at h4
  simp at h4
  exact hc h4

/-- Both sides occur. -/
example : LooksLikeToc asciiEnv.isDigit "- [a](#a)\n  - [b](#b)".toList ∧ ¬ LooksLikeToc asciiEnv.isDigit "    - [a](#a)".toList := by
  constructor
  · exact .inr ⟨0, ['-'], "[a](#a)  - [b](#b)".toList, by omega, by decide +kernel, .inl rfl, by simp [IsBlank]⟩
  · rintro (h | h)
    · simp at h
    · have := listLike_spaces (k := 4) (x := '-') (t := " [a](#a)".toList) (by decide +kernel) (by decide) h
      omega

/-! ### C44 -/

/-- **C44**, exactly: a table with links is recognised once it is written if and only if its first entry is not indented. -/
theorem C44_exact {E : Env} (hE : E.Lawful) {o : Options} (hl : o.noLinks = false) (hn : IsEol o.newline []) {fn text out : Str}
    (h : buildToc E o fn (some ⟨text, false⟩) = .ok out) {vs : List Str} (hv : Looks o fn text vs) :
    ∃ es core, Table E o vs out es ∧ TrimmedRight isPySpace out core ∧ (LooksLikeToc E.isDigit core ↔ ∀ e ∈ es.head?, e.indent ≤ 3) ∧
      (o.parser ≠ .redcarpet ∨ o.noIndentation = true → ∀ e ∈ es.head?, e.indent = 0) ∧
      (o.parser = .redcarpet → o.noIndentation = false → ∀ e ∈ es, e.indent = 4 * (e.level - 1)) ∧
      ∀ marker, NotItem marker → ∀ cl, Reads core cl → ∀ l ∈ cl, ¬ IsMarker marker l := by
  obtain ⟨hs, es, st, hr, ht⟩ := buildToc_run h hv
  have hmk : es ≠ [] → isOrdered o = true ∨ o.listMarker ∈ bullets := fun hne => by
    have := hr.info.2.2.2.2 hne
    rw [markerOk_eq] at this
    simpa using this
  have hno := entries_no_newline hE ht hmk
  have hred : o.parser = .redcarpet → o.noIndentation = false → ∀ e ∈ es, e.indent = 4 * (e.level - 1) := fun h1 h2 => hr.redcarpet_indent (by rw [h1]; rfl) h2
  have hleft : o.parser ≠ .redcarpet ∨ o.noIndentation = true → ∀ e ∈ es.head?, e.indent = 0 := fun hc => hr.first_indent (hc.imp cmarkLike_of_ne id)
  generalize hf : Entry.line (isOrdered o) o.noLinks (usedMarker o.parser (isOrdered o) o.listMarker) [] = f at hno
  have ho : out = ((es.map f).map (· ++ o.newline)).flatten := by
    rw [ht.2, List.map_map]
    congr 1
    apply List.map_congr_left
    intro e _
    rw [← hf]
    simp [Entry.line]
  have hi : ∀ e ∈ es, IsItem (f e) := by
    intro e he
    refine ⟨hno e he, e.indent, ?_⟩
    obtain ⟨x, r, h1, h2⟩ := markerText_item o (hmk (List.ne_nil_of_mem he)) e.number
    refine ⟨x, r ++ " ".toList ++ e.content o.noLinks, ?_, h2⟩
    rw [← hf]
    simp [Entry.line, h1]
  by_cases hes : es = []
  · subst hes
    simp at ho
    subst ho
    refine ⟨[], [], ht, ⟨[], by simp, by simp, by simp⟩, ⟨fun _ => by simp, fun _ => .inl rfl⟩, by simp, by simp, ?_⟩
    intro marker _ cl hcl
    have : cl = [] := by rw [← reads_lines hcl false]; rfl
    subst this
    simp
  · obtain ⟨core, ls, h1, h2, h3, h4, h5, h6⟩ := items_core hn (es.map f) (by simpa using hes) (by
      intro b hb
      obtain ⟨e, he, rfl⟩ := List.mem_map.mp hb
      exact hi e he)
    replace h6 := h6 (by
      intro b hb c hc
      rw [List.getLast?_map] at hb
      cases hlast : es.getLast? with
      | none => simp [hlast] at hb
      | some e =>
        simp [hlast] at hb
        subst hb
        have e1 : f e = (List.replicate e.indent ' ' ++ markerText (isOrdered o) (usedMarker o.parser (isOrdered o) o.listMarker) e.number ++
          " ".toList ++ "[".toList ++ e.text ++ "](#".toList ++ e.anchor) ++ [')'] := by
          rw [← hf]
          simp [Entry.line, Entry.content, hl]
        rw [e1, List.getLast?_append] at hc
        simp at hc
        subst hc
        decide)
    refine ⟨es, core, ht, by rw [ho]; exact h1, ?_, hleft, hred, ?_⟩
    · cases es with
      | nil => exact absurd rfl hes
      | cons e es =>
        constructor
        · rintro (hc | hc)
          · exact absurd hc h2
          · intro e' he'
            simp at he'
            subst he'
            obtain ⟨x, r, g1, g2⟩ := markerText_item o (hmk hes) e.number
            rw [h6] at hc
            have e1 : ((e :: es).map f).flatten = List.replicate e.indent ' ' ++ x :: (r ++ " ".toList ++ e.content o.noLinks ++ (es.map f).flatten) := by
              rw [List.map_cons, List.flatten_cons]
              conv_lhs => lhs; rw [← hf]
              simp [Entry.line, g1]
            rw [e1] at hc
            have hsp := itemChar_space g2
            exact listLike_spaces (by rw [hE.digit_ascii ' ' (by decide)]; decide) (by rintro rfl; exact absurd hsp (by decide)) hc
        · intro he'
          have he := he' e (by simp)
          right
          rw [h6]
          refine ⟨e.indent, _, "[".toList ++ e.text ++ "](#".toList ++ e.anchor ++ ")".toList ++ (es.map f).flatten, he, ?_, markerText_list hE o (hmk hes) e.number rfl, ?_⟩
          · rw [List.map_cons, List.flatten_cons]
            conv_lhs => lhs; rw [← hf]
            simp [Entry.line, Entry.content, hl]
          · simp [IsBlank]
    · intro marker hm ls' hls'
      have := reads_lines h3 false
      rw [reads_lines hls' false] at this
      subst this
      intro l hl'
      obtain ⟨b, hb, hb'⟩ := h4 l hl'
      exact item_not_marker hm hb hb'

/-- **C44** for redcarpet: writing the table of a document a second time leaves the file as it is if and only if the first entry is of level 1; otherwise each call changes the file. -/
theorem C44_redcarpet_exact {E : Env} (hE : E.Lawful) {o : Options} (hp : o.parser = .redcarpet) (hi : o.noIndentation = false) (hl : o.noLinks = false)
    (hn : o.newline = ['\n'] ∨ o.newline = ['\r', '\n']) {fn text out : Str} (h : buildToc E o fn (some ⟨text, false⟩) = .ok out) {vs : List Str} (hv : Looks o fn text vs)
    {marker : Str} (hm : NotItem marker) (hg : GoodMarker marker) :
    ∃ es, Table E o vs out es ∧
      (∀ (fs : FS) (f : Str) (ls : List Str), HasLines fs f ls → (∃ l ∈ ls, IsMarker marker l) → ∀ b tr, writeString E fs f out marker o.newline = .ok (b, tr) →
        ((∃ b' tr', writeString E (lastFS fs f tr) f out marker o.newline = .ok (b', tr') ∧ tr'.getLast? = tr.getLast?) ↔ ∀ e ∈ es.head?, e.level ≤ 1)) ∧
      ((∃ e ∈ es.head?, 1 < e.level) → ∀ (fs : FS) (f text : Str) (ls : List Str), f ≠ "-".toList → fs f = some ⟨text, false⟩ → Reads text ls → (∃ l ∈ ls, IsMarker marker l) →
        ∃ b tr text', writeString E fs f out marker o.newline = .ok (b, tr) ∧ tr.getLast? = some text' ∧ text' ≠ text) := by
  obtain ⟨es, core, h1, h2, h3, -, h4, h5⟩ := C44_exact hE hl (hn.imp id .inl) h hv
  have key : (∀ e ∈ es.head?, e.indent ≤ 3) ↔ ∀ e ∈ es.head?, e.level ≤ 1 := by
    constructor
    · intro h e he
      have := h e he
      rw [h4 hp hi e (List.mem_of_mem_head? he)] at this
      omega
    · intro h e he
      have := h e he
      rw [h4 hp hi e (List.mem_of_mem_head? he)]
      omega
  refine ⟨es, h1, ?_, ?_⟩
  · intro fs f ls hf hmk b tr hw
    rw [C38_exact E hf hmk hg h2 (h5 marker hm) hn hw, h3, key]
  · rintro ⟨e, he, hlv⟩ fs f text ls g1 g2 g3 g4
    refine C38_always_changed E g1 g2 g3 g4 hg h2 hn (fun hx => ?_)
    have := key.mp (h3.mp hx) e he
    omega

/-- The hypotheses are met: the table of this document changes the file at every call, because the first call is not stable. -/
example : ∃ vs es, Table asciiEnv { parser := .redcarpet } vs "        - [a](#a)\n".toList es ∧ ∃ e ∈ es.head?, 1 < e.level := by
  obtain ⟨vs, hv⟩ := looks_exists { parser := .redcarpet } "a.md".toList "### a\n".toList
  obtain ⟨es, h1, h2, -⟩ := C44_redcarpet_exact (E := asciiEnv) asciiEnv_lawful (o := { parser := .redcarpet }) rfl rfl rfl (.inl rfl) (out := "        - [a](#a)\n".toList)
    (by decide +kernel) hv default_notItem default_good
  refine ⟨vs, es, h1, ?_⟩
  by_contra hne
  have h3 : ∀ e ∈ es.head?, e.level ≤ 1 := fun e he => by
    by_contra hlt
    exact hne ⟨e, he, by omega⟩
  have := (h2 (fun _ => some ⟨"<!--TOC-->\n".toList, false⟩) "a.md".toList ["<!--TOC-->\n".toList] ⟨by decide, _, rfl, (reads_iff (bad := false)).mpr (by decide +kernel)⟩
    ⟨_, List.mem_singleton.mpr rfl, isMarker_iff.mpr (by decide +kernel)⟩ false ["".toList, "<!--TOC-->\n\n        - [a](#a)\n\n<!--TOC-->\n".toList] (by decide +kernel)).mpr h3
  obtain ⟨b', tr', g1, g2⟩ := this
  have g3 : writeString asciiEnv (lastFS (fun _ => some ⟨"<!--TOC-->\n".toList, false⟩) "a.md".toList ["".toList, "<!--TOC-->\n\n        - [a](#a)\n\n<!--TOC-->\n".toList])
      "a.md".toList "        - [a](#a)\n".toList "<!--TOC-->".toList "\n".toList =
      .ok (false, ["<!--TOC-->\n\n        - [a](#a)\n\n<!--TOC-->\n<!--TOC-->\n\n        - [a](#a)\n\n<!--TOC-->\n".toList]) := by decide +kernel
  rw [show ({ parser := .redcarpet } : Options).newline = "\n".toList from rfl, g3] at g1
  injection g1 with g1
  injection g1 with _ e2
  subst e2
  exact absurd g2 (by decide +kernel)

/-! ### Without links -/

theorem trimmedRight_filter {sp p : Char → Bool} (hp : ∀ c, p c = false → sp c = true) {s core : Str} (h : TrimmedRight sp s core) : TrimmedRight sp (s.filter p) (core.filter p) := by
  obtain ⟨z, rfl, hz, hc⟩ := h
  refine ⟨z.filter p, by simp, fun x hx => hz x (List.mem_of_mem_filter hx), ?_⟩
  rcases List.eq_nil_or_concat core with rfl | ⟨core, x, rfl⟩
  · simp
  · have hx := hc x (by simp)
    have hpx : p x = true := by
      cases h : p x
      · rw [hp x h] at hx; cases hx
      · rfl
    intro y hy
    rw [List.concat_eq_append, List.filter_append, List.filter_cons_of_pos hpx, List.getLast?_append] at hy
    simp at hy
    rw [← hy]
    exact hx

theorem listMark_nospace {d : Char → Bool} (hd : d ' ' = false) {m : Str}
    (h : m = ['-'] ∨ m = ['+'] ∨ m = ['*'] ∨ ∃ x e, m = x ++ [e] ∧ x ≠ [] ∧ (∀ c ∈ x, d c = true) ∧ (e = '.' ∨ e = ')')) : m ≠ [] ∧ ' ' ∉ m := by
  rcases h with rfl | rfl | rfl | ⟨x, e, rfl, h1, h2, h3⟩
  · simp
  · simp
  · simp
  · refine ⟨by simp, ?_⟩
    intro h
    rcases List.mem_append.mp h with h | h
    · rw [h2 ' ' h] at hd
      cases hd
    · rcases h3 with rfl | rfl <;> simp at h

theorem before_unique {α : Type} [DecidableEq α] {x : α} {a b s t : List α} (ha : x ∉ a) (hb : x ∉ b) (e : a ++ x :: s = b ++ x :: t) : a = b ∧ s = t := by
  rcases List.append_eq_append_iff.mp e with ⟨w, rfl, h⟩ | ⟨w, rfl, h⟩
  · cases w with
    | nil => simp at h; simp [h]
    | cons y w => simp at h; simp [h.1] at hb
  · cases w with
    | nil => simp at h; simp [h]
    | cons y w => simp at h; simp [h.1] at ha

theorem indent_unique {k n : Nat} {a b : Str} (ha : ∀ c ∈ a.head?, c ≠ ' ') (hb : ∀ c ∈ b.head?, c ≠ ' ') (e : List.replicate k ' ' ++ a = List.replicate n ' ' ++ b) : k = n ∧ a = b := by
  induction k generalizing n with
  | zero =>
    cases n with
    | zero => exact ⟨rfl, by simpa using e⟩
    | succ n =>
      rw [List.replicate_succ] at e
      simp at e
      exact absurd rfl (ha ' ' (by rw [e]; rfl))
  | succ k ih =>
    cases n with
    | zero =>
      rw [List.replicate_succ] at e
      simp at e
      exact absurd rfl (hb ' ' (by rw [← e]; rfl))
    | succ n =>
      rw [List.replicate_succ, List.replicate_succ] at e
      simp only [List.cons_append] at e
      obtain ⟨h1, h2⟩ := ih (List.cons.inj e).2
      exact ⟨by rw [h1], h2⟩

/-- When the text of a list without its newlines and the white space at its end looks like a list. -/
theorem listLike_core {d : Char → Bool} (hd : d ' ' = false) {k : Nat} {m t core : Str} (hm : m = ['-'] ∨ m = ['+'] ∨ m = ['*'] ∨ ∃ x e, m = x ++ [e] ∧ x ≠ [] ∧ (∀ c ∈ x, d c = true) ∧ (e = '.' ∨ e = ')'))
    (hc : TrimmedRight isPySpace (List.replicate k ' ' ++ m ++ ' ' :: t) core) : ListLike d core ↔ k ≤ 3 ∧ (∀ c ∈ t.head?, ¬ IsBlank c) ∧ ∃ c ∈ t, isPySpace c = false := by
  obtain ⟨hm1, hm2⟩ := listMark_nospace hd hm
  obtain ⟨z, e, hz, hl⟩ := hc
  have hhead : ∀ {m s : Str}, m ≠ [] → ' ' ∉ m → ∀ c ∈ (m ++ s).head?, c ≠ ' ' := by
    intro m s h1 h2 c hc
    cases m with
    | nil => exact absurd rfl h1
    | cons y m =>
      simp at hc
      rintro rfl
      simp [hc] at h2
  constructor
  · rintro ⟨n, m', r, h1, rfl, h3, h4⟩
    obtain ⟨hm1', hm2'⟩ := listMark_nospace hd h3
    rw [show List.replicate n ' ' ++ m' ++ ' ' :: r ++ z = List.replicate n ' ' ++ (m' ++ ' ' :: (r ++ z)) by simp, List.append_assoc] at e
    obtain ⟨rfl, e2⟩ := indent_unique (hhead hm1 hm2) (hhead hm1' hm2') e
    obtain ⟨rfl, rfl⟩ := before_unique hm2 hm2' e2
    rcases List.eq_nil_or_concat r with rfl | ⟨r, v, rfl⟩
    · have := hl ' ' (by simp)
      exact absurd this (by decide)
    · refine ⟨h1, ?_, v, by simp, hl v (by rw [show List.replicate k ' ' ++ m ++ ' ' :: r.concat v = (List.replicate k ' ' ++ m ++ ' ' :: r) ++ [v] by simp, List.getLast?_concat]; rfl)⟩
      intro c hc
      refine h4 c ?_
      cases r with
      | nil => simpa using hc
      | cons y r => simpa using hc
  · rintro ⟨h1, h2, v, hv, hvs⟩
    have e' : (List.replicate k ' ' ++ m ++ [' ']) ++ t = core ++ z := by rw [← e]; simp
    have hvz : v ∉ z := fun h => by rw [hz v h] at hvs; cases hvs
    rcases List.append_eq_append_iff.mp e' with ⟨r, rfl, rfl⟩ | ⟨r, h, rfl⟩
    · refine ⟨k, m, r, h1, by simp, hm, ?_⟩
      intro c hc
      refine h2 c ?_
      cases r with
      | nil => simp at hc
      | cons y r => simpa using hc
    · exact absurd (List.mem_append_right _ hv) hvz

/-- The first entry has something to show at its start, or it is empty and the next entry is not indented. -/
def StartsVisibly : List Entry → Prop
  | [] => True
  | e :: es => e.indent ≤ 3 ∧ ((e.text = [] ∧ ∃ e' ∈ es.head?, e'.indent = 0) ∨ ((∃ c ∈ e.text.head?, ¬ IsBlank c) ∧ (es ≠ [] ∨ ∃ c ∈ e.text, isPySpace c = false)))

/-- **C44**, exactly, for a table without links: it is recognised once it is written if and only if its first entry is not indented by more than three blanks and does not start with a
blank, and something follows its bullet: a visible text, or else a further entry that is not indented. -/
theorem C44_noLinks_exact {E : Env} (hE : E.Lawful) {o : Options} (hl : o.noLinks = true) (hn : IsEol o.newline []) {fn text out : Str}
    (h : buildToc E o fn (some ⟨text, false⟩) = .ok out) {vs : List Str} (hv : Looks o fn text vs) :
    ∃ es core, Table E o vs out es ∧ TrimmedRight isPySpace out core ∧ (LooksLikeToc E.isDigit core ↔ StartsVisibly es) ∧
      (o.parser ≠ .redcarpet ∨ o.noIndentation = true → ∀ e ∈ es.head?, e.indent = 0) ∧
      (o.parser = .redcarpet → o.noIndentation = false → ∀ e ∈ es, e.indent = 4 * (e.level - 1)) ∧
      ∀ marker, NotItem marker → ∀ cl, Reads core cl → ∀ l ∈ cl, ¬ IsMarker marker l := by
  obtain ⟨hs, es, st, hr, ht⟩ := buildToc_run h hv
  have hmk : es ≠ [] → isOrdered o = true ∨ o.listMarker ∈ bullets := fun hne => by
    have := hr.info.2.2.2.2 hne
    rw [markerOk_eq] at this
    simpa using this
  have hno := entries_no_newline hE ht hmk
  have hred : o.parser = .redcarpet → o.noIndentation = false → ∀ e ∈ es, e.indent = 4 * (e.level - 1) := fun h1 h2 => hr.redcarpet_indent (by rw [h1]; rfl) h2
  have hleft : o.parser ≠ .redcarpet ∨ o.noIndentation = true → ∀ e ∈ es.head?, e.indent = 0 := fun hc => hr.first_indent (hc.imp cmarkLike_of_ne id)
  generalize hf : Entry.line (isOrdered o) o.noLinks (usedMarker o.parser (isOrdered o) o.listMarker) [] = f at hno
  have ho : out = ((es.map f).map (· ++ o.newline)).flatten := by
    rw [ht.2, List.map_map]
    congr 1
    apply List.map_congr_left
    intro e _
    rw [← hf]
    simp [Entry.line]
  have hi : ∀ e ∈ es, IsItem (f e) := by
    intro e he
    refine ⟨hno e he, e.indent, ?_⟩
    obtain ⟨x, r, h1, h2⟩ := markerText_item o (hmk (List.ne_nil_of_mem he)) e.number
    refine ⟨x, r ++ " ".toList ++ e.content o.noLinks, ?_, h2⟩
    rw [← hf]
    simp [Entry.line, h1]
  by_cases hes : es = []
  · subst hes
    simp at ho
    subst ho
    refine ⟨[], [], ht, ⟨[], by simp, by simp, by simp⟩, ⟨fun _ => trivial, fun _ => .inl rfl⟩, by simp, by simp, ?_⟩
    intro marker _ cl hcl
    have : cl = [] := by rw [← reads_lines hcl false]; rfl
    subst this
    simp
  · obtain ⟨core, ls, h1, h2, h3, h4, h5, -⟩ := items_core hn (es.map f) (by simpa using hes) (by
      intro b hb
      obtain ⟨e, he, rfl⟩ := List.mem_map.mp hb
      exact hi e he)
    refine ⟨es, core, ht, by rw [ho]; exact h1, ?_, hleft, hred, ?_⟩
    · have h6 := trimmedRight_filter (p := fun c => c != '\n' && c != '\r') (by
        intro c hc
        simp only [Bool.and_eq_false_iff, bne_eq_false_iff_eq] at hc
        rcases hc with rfl | rfl <;> decide) h1
      have h7 : (((es.map f).map (· ++ o.newline)).flatten).filter (fun c => c != '\n' && c != '\r') = (es.map f).flatten := by
        clear ho hleft hred h1 h2 h3 h4 h5 h6 hes ht hr hmk hf
        induction es with
        | nil => rfl
        | cons e es ih =>
          simp only [List.map_cons, List.flatten_cons, List.filter_append]
          rw [eol_filter hn, item_filter (hi e (by simp)).1, ih (fun e he => hno e (by simp [he])) (fun e he => hi e (by simp [he]))]
          simp
      rw [h7] at h6
      cases es with
      | nil => exact absurd rfl hes
      | cons e es =>
        have e1 : ((e :: es).map f).flatten = List.replicate e.indent ' ' ++ markerText (isOrdered o) (usedMarker o.parser (isOrdered o) o.listMarker) e.number ++
            ' ' :: (e.text ++ (es.map f).flatten) := by
          rw [List.map_cons, List.flatten_cons]
          conv_lhs => lhs; rw [← hf]
          simp [Entry.line, Entry.content, hl]
        rw [e1] at h6
        have key := listLike_core (d := E.isDigit) (by rw [hE.digit_ascii ' ' (by decide)]; decide) (markerText_list hE o (hmk hes) e.number rfl) h6
        have hll : LooksLikeToc E.isDigit core ↔ ListLike E.isDigit (core.filter (fun c => c != '\n' && c != '\r')) := ⟨fun h => h.resolve_left h2, .inr⟩
        rw [hll, key]
        have hnext : ∀ e' es', es = e' :: es' → ∃ x r, (es.map f).flatten = List.replicate e'.indent ' ' ++ x :: r ∧ ItemChar x := by
          rintro e' es' rfl
          obtain ⟨-, n, x, r, -, -⟩ := hi e' (by simp)
          obtain ⟨x, r, g1, g2⟩ := markerText_item o (hmk hes) e'.number
          refine ⟨x, r ++ " ".toList ++ e'.content o.noLinks ++ (es'.map f).flatten, ?_, g2⟩
          rw [List.map_cons, List.flatten_cons]
          conv_lhs => lhs; rw [← hf]
          simp [Entry.line, g1]
        refine and_congr_right fun _ => ?_
        constructor
        · rintro ⟨g1, v, hv, hvs⟩
          cases htx : e.text with
          | nil =>
            left
            refine ⟨rfl, ?_⟩
            rw [htx] at g1 hv
            cases es with
            | nil => simp at hv
            | cons e' es =>
              obtain ⟨x, r, g2, g3⟩ := hnext e' es rfl
              refine ⟨e', by simp, ?_⟩
              by_contra hne
              obtain ⟨n, hn'⟩ := Nat.exists_eq_succ_of_ne_zero hne
              rw [g2, hn', List.replicate_succ] at g1
              exact g1 ' ' (by simp) (.inl rfl)
          | cons c t =>
            right
            rw [htx] at g1 hv
            refine ⟨⟨c, rfl, g1 c (by simp)⟩, ?_⟩
            by_cases hn' : es = []
            · subst hn'
              exact .inr ⟨v, by simpa using hv, hvs⟩
            · exact .inl hn'
        · rintro (⟨g1, e', g2, g3⟩ | ⟨⟨c, g1, g2⟩, g3⟩)
          · cases es with
            | nil => simp at g2
            | cons e'' es =>
              simp at g2
              subst g2
              obtain ⟨x, r, g4, g5⟩ := hnext e'' es rfl
              rw [g1, g4, g3]
              have := itemChar_space g5
              refine ⟨?_, x, by simp, this⟩
              intro c hc
              simp at hc
              subst hc
              rintro (rfl | rfl | rfl) <;> exact absurd this (by decide)
          · refine ⟨?_, ?_⟩
            · intro d hd
              rw [List.head?_append, g1] at hd
              simp at hd
              rwa [← hd]
            · rcases g3 with g3 | ⟨v, hv, hvs⟩
              · cases es with
                | nil => exact absurd rfl g3
                | cons e' es =>
                  obtain ⟨x, r, g4, g5⟩ := hnext e' es rfl
                  exact ⟨x, by rw [g4]; simp, itemChar_space g5⟩
              · exact ⟨v, by simp [hv], hvs⟩
    · intro marker hm ls' hls'
      have := reads_lines h3 false
      rw [reads_lines hls' false] at this
      subst this
      intro l hl'
      obtain ⟨b, hb, hb'⟩ := h4 l hl'
      exact item_not_marker hm hb hb'

/-- **C44** without links: writing the table of a document a second time leaves the file as it is if and only if the table starts visibly; otherwise each call changes the file. -/
theorem C44_noLinks_stable {E : Env} (hE : E.Lawful) {o : Options} (hl : o.noLinks = true)
    (hn : o.newline = ['\n'] ∨ o.newline = ['\r', '\n']) {fn text out : Str} (h : buildToc E o fn (some ⟨text, false⟩) = .ok out) {vs : List Str} (hv : Looks o fn text vs)
    {marker : Str} (hm : NotItem marker) (hg : GoodMarker marker) :
    ∃ es, Table E o vs out es ∧
      (∀ (fs : FS) (f : Str) (ls : List Str), HasLines fs f ls → (∃ l ∈ ls, IsMarker marker l) → ∀ b tr, writeString E fs f out marker o.newline = .ok (b, tr) →
        ((∃ b' tr', writeString E (lastFS fs f tr) f out marker o.newline = .ok (b', tr') ∧ tr'.getLast? = tr.getLast?) ↔ StartsVisibly es)) ∧
      (¬ StartsVisibly es → ∀ (fs : FS) (f text : Str) (ls : List Str), f ≠ "-".toList → fs f = some ⟨text, false⟩ → Reads text ls → (∃ l ∈ ls, IsMarker marker l) →
        ∃ b tr text', writeString E fs f out marker o.newline = .ok (b, tr) ∧ tr.getLast? = some text' ∧ text' ≠ text) := by
  obtain ⟨es, core, h1, h2, h3, -, -, h5⟩ := C44_noLinks_exact hE hl (hn.imp id .inl) h hv
  refine ⟨es, h1, ?_, ?_⟩
  · intro fs f ls hf hmk b tr hw
    rw [C38_exact E hf hmk hg h2 (h5 marker hm) hn hw, h3]
  · intro hns fs f text ls g1 g2 g3 g4
    exact C38_always_changed E g1 g2 g3 g4 hg h2 hn (fun hx => hns (h3.mp hx))

/-- Both sides occur: for the table of the headings `#` and `# b` and for the one of the headings `#` and `## b`. -/
example (e1 e2 : Entry) (h1 : e1.text = []) (h2 : e1.indent = 0) : StartsVisibly [e1, e2] ↔ e2.indent = 0 := by simp [StartsVisibly, h1, h2]

/-- The hypotheses are met. -/
example : ∃ vs es, Table asciiEnv { noLinks := true } vs "- \n- b\n".toList es := by
  obtain ⟨vs, hv⟩ := looks_exists { noLinks := true } "a.md".toList "#\n# b\n".toList
  obtain ⟨es, h1, -⟩ := C44_noLinks_stable (E := asciiEnv) asciiEnv_lawful (o := { noLinks := true }) rfl (.inl rfl) (out := "- \n- b\n".toList)
    (by decide +kernel) hv default_notItem default_good
  exact ⟨vs, es, h1⟩

end MdToc.Props
