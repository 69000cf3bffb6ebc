import Verif.Props.Workflow

/-!
# Carriage returns as line endings: when a file is up to date (C39, C91)
-/

set_option linter.unusedSimpArgs false

namespace MdToc.Props

open MdToc.Spec

theorem strip_mem {x y z : Str} {c d r : Char} (hc : isPySpace c = false) (hd : isPySpace d = false) (hr : r ∈ y) : r ∈ pyStrip (x ++ c :: y ++ d :: z) := by
  obtain ⟨a, b, e, ha, hb, -, -⟩ := strip_eq isPySpace (x ++ c :: y ++ d :: z)
  change _ = a ++ pyStrip (x ++ c :: y ++ d :: z) ++ b at e
  generalize pyStrip (x ++ c :: y ++ d :: z) = t at e ⊢
  have e1 : ∃ a', a' ++ c :: y ++ d :: z = t ++ b := by
    rw [List.append_assoc, List.append_assoc] at e
    rcases List.append_eq_append_iff.mp e with ⟨m, h1, h2⟩ | ⟨m, h1, h2⟩
    · cases m with
      | nil => exact ⟨[], by simpa using h2⟩
      | cons w m =>
        simp only [List.cons_append, List.cons.injEq] at h2
        have := ha w (by rw [h1]; simp)
        rw [← h2.1, hc] at this
        simp at this
    · exact ⟨m, by rw [h2]; simp⟩
  obtain ⟨a', e1⟩ := e1
  have e2 : (a' ++ c :: y ++ [d]) ++ z = t ++ b := by rw [← e1]; simp
  rcases List.append_eq_append_iff.mp e2 with ⟨m, h1, h2⟩ | ⟨m, h1, h2⟩
  · rw [h1]; simp [hr]
  · rcases List.eq_nil_or_concat m with rfl | ⟨m, w, rfl⟩
    · rw [List.append_nil] at h1
      rw [← h1]; simp [hr]
    · exfalso
      rw [List.concat_eq_append, ← List.append_assoc] at h1
      have := List.append_inj_right' h1 rfl
      simp only [List.cons.injEq, and_true] at this
      have h3 := hb w (by rw [h2]; simp)
      rw [← this, hd] at h3
      simp at h3

/-- The lines of a table: a carriage return stands between visible characters exactly if there are at least two lines which end with one. -/
theorem items_cr {nl : Str} (hn : IsEol nl []) {bs : List Str} (hb : ∀ b ∈ bs, IsItem b) :
    ('\r' ∈ pyStrip (bs.map (· ++ nl)).flatten ↔ '\r' ∈ nl ∧ 2 ≤ bs.length) ∧
    (¬ ('\r' ∈ nl ∧ 2 ≤ bs.length) → ∀ core, TrimmedRight isPySpace (bs.map (· ++ nl)).flatten core → '\r' ∉ core) := by
  have hsp : ∀ c ∈ nl, isPySpace c = true := by
    rcases hn with rfl | rfl | ⟨rfl, -⟩ <;> decide
  have hcr : ∀ b ∈ bs, '\r' ∉ b := fun b hbm h => (hb b hbm).1 _ h (by simp [IsNewline])
  by_cases h2 : '\r' ∈ nl ∧ 2 ≤ bs.length
  · refine ⟨⟨fun _ => h2, fun _ => ?_⟩, fun h => absurd h2 h⟩
    obtain ⟨b1, b2, rest, rfl⟩ : ∃ b1 b2 rest, bs = b1 :: b2 :: rest := by
      rcases bs with _ | ⟨b1, _ | ⟨b2, rest⟩⟩
      · simp at h2
      · simp at h2
      · exact ⟨_, _, _, rfl⟩
    obtain ⟨-, n1, x1, r1, e1, i1⟩ := hb b1 (by simp)
    obtain ⟨-, n2, x2, r2, e2, i2⟩ := hb b2 (by simp)
    have := strip_mem (x := List.replicate n1 ' ') (y := r1 ++ nl ++ List.replicate n2 ' ') (z := r2 ++ nl ++ (rest.map (· ++ nl)).flatten) (r := '\r')
      (itemChar_space i1) (itemChar_space i2) (by simp [h2.1])
    rw [show (List.map (· ++ nl) (b1 :: b2 :: rest)).flatten = List.replicate n1 ' ' ++ x1 :: (r1 ++ nl ++ List.replicate n2 ' ') ++
      x2 :: (r2 ++ nl ++ (rest.map (· ++ nl)).flatten) by simp [e1, e2]]
    exact this
  · have hcore : ∀ core, TrimmedRight isPySpace (bs.map (· ++ nl)).flatten core → '\r' ∉ core := by
      intro core hc hm
      by_cases hnl : '\r' ∈ nl
      · have hlen : bs.length ≤ 1 := by
          by_contra hl
          exact h2 ⟨hnl, by omega⟩
        rcases bs with _ | ⟨b, _ | ⟨b2, rest⟩⟩
        · obtain ⟨r, e, -⟩ := hc
          simp only [List.map_nil, List.flatten_nil] at e
          have := List.append_eq_nil_iff.mp e.symm
          rw [this.1] at hm
          simp at hm
        · obtain ⟨r, e, -, hlast⟩ := hc
          simp only [List.map_cons, List.map_nil, List.flatten_cons, List.flatten_nil, List.append_nil] at e
          rcases List.append_eq_append_iff.mp e with ⟨m, h1, h3⟩ | ⟨m, h1, h3⟩
          · rcases List.eq_nil_or_concat m with rfl | ⟨m, w, rfl⟩
            · rw [List.append_nil] at h1
              exact hcr b (by simp) (h1 ▸ hm)
            · have h4 := hlast w (by rw [h1]; simp)
              rw [hsp w (by rw [h3]; simp)] at h4
              simp at h4
          · exact hcr b (by simp) (by rw [h1]; simp [hm])
        · simp at hlen
      · obtain ⟨r, e, -⟩ := hc
        have : '\r' ∈ (bs.map (· ++ nl)).flatten := by rw [e]; simp [hm]
        simp only [List.mem_flatten, List.mem_map] at this
        obtain ⟨_, ⟨b, hbm, rfl⟩, hx⟩ := this
        rcases List.mem_append.mp hx with hx | hx
        · exact hcr b hbm hx
        · exact hnl hx
    refine ⟨⟨fun h => ?_, fun h => absurd h h2⟩, fun _ => hcore⟩
    exfalso
    have ht : TrimmedRight isPySpace (bs.map (· ++ nl)).flatten (pyRstrip (bs.map (· ++ nl)).flatten) := trimmedRight_iff.mpr rfl
    have e := pyStrip_trimmedRight ht
    rw [e] at h
    exact hcore _ ht ((strip_sublist _ _).subset h)

/-- A file in which a string with a carriage return between visible characters is up to date does not exist: files are read with line feeds. -/
theorem C39_never (E : Env) {fs : FS} {f : Str} {ls : List Str} (hf : HasLines fs f ls) {string marker : Str} (hm : '\r' ∉ marker) (hs : '\r' ∈ pyStrip string) :
    tocsEqual E string (fs f) marker = .ok false := by
  rw [tocsEqual_eq hf]
  obtain ⟨hf1, text, hf2, hR⟩ := hf
  have hno := reads_no_cr hR
  have hfalse : ∀ old : Str, '\r' ∉ old → (pyStrip string == old) = false := by
    intro old ho
    rw [beq_eq_false_iff_ne]
    exact fun e => ho (e ▸ hs)
  by_cases h : ∃ l ∈ ls, IsMarker marker l
  · obtain ⟨b, r, a, ⟨m, h1, -⟩ | ⟨m, mid, m', h1, -⟩ | ⟨h1, -⟩⟩ := cut_exists E.isDigit marker h
    · rw [existing_one h1]
      simp [Except.map, hfalse _ hm]
    · obtain ⟨n, pos, h'⟩ := existing_table (E := E) hR h1
      rw [h']
      simp only [Except.map]
      rw [hfalse]
      intro hx
      have := (strip_sublist _ _).subset hx
      apply hno
      rw [h1.1]
      simp only [List.flatten_append, List.flatten_cons, List.mem_append]
      simp [this]
    · obtain ⟨pos, h'⟩ := existing_many (E := E) hR h1
      rw [h']
      simp [Except.map, hfalse]
  · rw [existing_none (by push Not at h; exact h)]
    simp [Except.map, hfalse]

/-- A carriage return stands between two visible characters of a table exactly if lines end with carriage returns and the table has at least two entries. -/
theorem table_cr {E : Env} (hE : E.Lawful) {o : Options} (hn : IsEol o.newline []) {fn text out : Str} (hb : buildToc E o fn (some ⟨text, false⟩) = .ok out)
    {vs : List Str} (hv : Looks o fn text vs) : ∃ es, Table E o vs out es ∧ ('\r' ∈ pyStrip out ↔ '\r' ∈ o.newline ∧ 2 ≤ es.length) := by
  obtain ⟨es, g, ht, ho, hi, -⟩ := entries_items_at hE hb hv
  refine ⟨es, ht, ?_⟩
  have := (items_cr hn (bs := es.map g) (by
    intro b hbm
    obtain ⟨e, he, rfl⟩ := List.mem_map.mp hbm
    exact hi e he)).1
  rwa [← ho, List.length_map] at this

/-- After its table is written, a file is up to date exactly if no carriage return stands between visible characters of the table. -/
theorem up_to_date_iff {E : Env} (hE : E.Lawful) {o : Options} (hn : IsEol o.newline []) {fn text out : Str} (hb : buildToc E o fn (some ⟨text, false⟩) = .ok out)
    {fs : FS} {f : Str} {ls before removed after : List Str} {core marker : Str} (hls : HasLines fs f ls) (hcut : Cut E.isDigit marker ls before removed after)
    (hg : GoodMarker marker) (hrec : Recognisable E.isDigit out core marker o.newline) (he : IsEol o.newline after.flatten) {b : Bool} {tr : List Str}
    (hw : writeString E fs f out marker o.newline = .ok (b, tr)) :
    (tocsEqual E out (lastFS fs f tr f) marker = .ok true ↔ '\r' ∉ pyStrip out) ∧ (tocsEqual E out (lastFS fs f tr f) marker = .ok false ↔ '\r' ∈ pyStrip out) := by
  obtain ⟨vs, hv⟩ := looks_exists o fn text
  obtain ⟨es, g, ht, ho, hi, -⟩ := entries_items_at hE hb hv
  obtain ⟨c1, c2⟩ := items_cr hn (bs := es.map g) (by
    intro b hbm
    obtain ⟨e, he, rfl⟩ := List.mem_map.mp hbm
    exact hi e he)
  rw [← ho] at c1 c2
  by_cases h : '\r' ∈ pyStrip out
  · have : tocsEqual E out (lastFS fs f tr f) marker = .ok false := by
      obtain ⟨_, _, hw1, hl⟩ := C37_outside_preserved E hls out marker o.newline hcut hrec.1
      rw [hw] at hw1
      injection hw1 with hw1
      injection hw1 with e1 e2
      subst e1; subst e2
      obtain ⟨hf1, text', hf2, hR⟩ := hls
      obtain ⟨mid, hr, -⟩ := written_lines hR hcut hg hrec he
      have hf' : HasLines (lastFS fs f tr) f (before ++ (marker ++ ['\n']) :: mid ++ (marker ++ ['\n']) :: after) := by
        refine ⟨hf1, _, ?_, hr⟩
        unfold lastFS
        rw [hl]
        simp [FS.write]
      exact C39_never E hf' (fun h => hg.1 _ h (by simp [IsNewline])) h
    rw [this]
    simp [h]
  · have := C39_up_to_date_partial E hls hcut hg hrec he (c2 (fun h2 => h (c1.mpr h2)) _ hrec.1) hw
    rw [this]
    simp [h]

/-- **C39** for generated tables, exactly: after the table is written the file is up to date if and only if lines do not end with carriage returns or the table has at
most one entry. -/
theorem C39_table_exact {E : Env} (hE : E.Lawful) {o : Options} (hn : IsEol o.newline []) {fn text out : Str} (hb : buildToc E o fn (some ⟨text, false⟩) = .ok out)
    {vs : List Str} (hv : Looks o fn text vs) :
    ∃ es, Table E o vs out es ∧ ∀ {fs : FS} {f : Str} {ls before removed after : List Str} {core marker : Str}, HasLines fs f ls →
      Cut E.isDigit marker ls before removed after → GoodMarker marker → Recognisable E.isDigit out core marker o.newline → IsEol o.newline after.flatten →
      ∀ {b tr}, writeString E fs f out marker o.newline = .ok (b, tr) →
        (tocsEqual E out (lastFS fs f tr f) marker = .ok true ↔ '\r' ∉ o.newline ∨ es.length ≤ 1) := by
  obtain ⟨es, ht, hcr⟩ := table_cr hE hn hb hv
  refine ⟨es, ht, ?_⟩
  intro fs f ls before removed after core marker hls hcut hg hrec he b tr hw
  rw [(up_to_date_iff hE hn hb hls hcut hg hrec he hw).1, hcr]
  rw [not_and_or]
  exact or_congr Iff.rfl (by omega)

/-- **C91**, the comparison after an update, exactly and for all line endings: if every file has a marker, then the check is successful, with and without `--in-place`, if and
only if no table has a carriage return between its entries, that is if and only if lines do not end with carriage returns or no table has two entries (`table_cr`). -/
theorem C91_check_exact {E : Env} (hE : E.Lawful) {a : CliArgs} (hin : a.inPlace = true) (hne : a.filenames ≠ []) (hnd : a.filenames.Nodup)
    (hk : 1 ≤ a.headerLevels) (hn : IsEol a.options.newline []) (hg : GoodMarker a.tocMarker) {fs : FS} (hf : ∀ f ∈ a.filenames, HasPlace E a fs f)
    (hrec : ∀ f ∈ a.filenames, ∀ out, buildToc E a.options f (fs f) = .ok out → ∃ core, Recognisable E.isDigit out core a.tocMarker a.options.newline)
    {stdin : Stdin} (h : (cliMain E a fs stdin).code ≠ 1) :
    ((cliMain E { a with diff := true } (after E a fs stdin) stdin).code = 0 ↔ ∀ f ∈ a.filenames, ∀ out, buildToc E a.options f (fs f) = .ok out → '\r' ∉ pyStrip out) ∧
    ((cliMain E { a with diff := true, inPlace := false } (after E a fs stdin) stdin).code = 0 ↔
      ∀ f ∈ a.filenames, ∀ out, buildToc E a.options f (fs f) = .ok out → '\r' ∉ pyStrip out) := by
  obtain ⟨hnames, hstd⟩ := names_place hne (fun f hfm => .inl (hf f hfm))
  obtain ⟨tocs, b, hbt, hw, hfst, -, key⟩ := update_run hE hin hne hnd hk hn hg (fun f hfm => .inl (hf f hfm)) (fun f hfm _ => hrec f hfm) h
  obtain ⟨hlen, hbs⟩ := (tables_iff hnames hstd fs stdin tocs).mp hbt
  have hbt2 : buildMultipleTocs E a.options (after E a fs stdin) stdin a.filenames = .ok tocs := (tables_iff hnames hstd _ _ _).mpr ⟨hlen, fun p hpm => (key p hpm).2.1⟩
  have hmem : ∀ p ∈ a.filenames.zip tocs, p.1 ∈ a.filenames := fun p hpm => by rw [← hfst]; exact List.mem_map.mpr ⟨p, hpm, rfl⟩
  have heq : ∀ p ∈ a.filenames.zip tocs, (tocsEqual E p.2 (after E a fs stdin p.1) a.tocMarker = .ok true ↔ '\r' ∉ pyStrip p.2) ∧
      (tocsEqual E p.2 (after E a fs stdin p.1) a.tocMarker = .ok false ↔ '\r' ∈ pyStrip p.2) := by
    intro p hpm
    obtain ⟨⟨x, cs, k1, k2⟩, -⟩ := key p hpm
    obtain ⟨core, hcore⟩ := hrec p.1 (hmem p hpm) _ (hbs p hpm)
    obtain ⟨ls, before, removed, aft, ⟨hfn, text, hft, hR⟩, hc, he, -⟩ := hf p.1 (hmem p hpm)
    have hb := hbs p hpm
    rw [hft] at hb
    rw [k2]
    exact up_to_date_iff (o := a.options) hE hn hb ⟨hfn, text, hft, hR⟩ hc hg hcore he k1
  have hall : (∀ p ∈ a.filenames.zip tocs, '\r' ∉ pyStrip p.2) ↔ ∀ f ∈ a.filenames, ∀ out, buildToc E a.options f (fs f) = .ok out → '\r' ∉ pyStrip out := by
    constructor
    · intro hp f hfm out ho
      rw [← hfst] at hfm
      obtain ⟨p, hpm, rfl⟩ := List.mem_map.mp hfm
      have := hbs p hpm
      rw [ho] at this
      injection this with this
      rw [this]
      exact hp p hpm
    · intro hp p hpm
      exact hp p.1 (hmem p hpm) p.2 (hbs p hpm)
  rw [← hall]
  constructor
  · obtain ⟨r2, hw2, hcode2, -⟩ := C46_in_place (a := { a with diff := true }) hin hbt2 (stdin := stdin)
    have hw2' : Writes E a.tocMarker a.options.newline (after E a fs stdin) (a.filenames.zip tocs)
      (cliMain E { a with diff := true } (after E a fs stdin) stdin).trace r2 := by
      rw [show namesOf { a with diff := true } = a.filenames from hnames] at hw2
      exact hw2
    obtain ⟨⟨b2, hb2⟩, -⟩ := writes_same hw2' (fun p hpm => (key p hpm).2.2.1)
    subst hb2
    have := (writes_result hw2' (by rw [hfst]; exact hnd) rfl).1
    rw [hcode2]
    rw [show (∀ p ∈ a.filenames.zip tocs, '\r' ∉ pyStrip p.2) ↔ b2 = true by
      rw [this]
      exact ⟨fun h p hpm => ((heq p hpm).1).mpr (h p hpm), fun h p hpm => ((heq p hpm).1).mp (h p hpm)⟩]
    cases b2 <;> simp
  · obtain ⟨c1, c2, -, -⟩ := C46_print (a := { a with diff := true, inPlace := false }) rfl hbt2 (stdin := stdin)
    have hz : (namesOf { a with diff := true, inPlace := false }).zip tocs = a.filenames.zip tocs := by
      rw [show namesOf { a with diff := true, inPlace := false } = a.filenames from hnames]
    rw [hz] at c1 c2
    have n1 : (cliMain E { a with diff := true, inPlace := false } (after E a fs stdin) stdin).code ≠ 1 := by
      rw [ne_eq, c1]
      rintro ⟨-, p, hpm, e, he⟩
      have := heq p hpm
      rw [show tocsEqual E p.2 (after E a fs stdin p.1) a.tocMarker = .error e from he] at this
      simp at this
    constructor
    · intro h0 p hpm hcr
      have h128 := c2.mpr ⟨rfl, fun q hqm => if hq : '\r' ∈ pyStrip q.2 then ⟨false, ((heq q hqm).2).mpr hq⟩ else ⟨true, ((heq q hqm).1).mpr hq⟩, p, hpm, ((heq p hpm).2).mpr hcr⟩
      rw [h0] at h128
      simp at h128
    · intro hno
      have n2 : (cliMain E { a with diff := true, inPlace := false } (after E a fs stdin) stdin).code ≠ 128 := by
        rw [ne_eq, c2]
        rintro ⟨-, -, p, hpm, he⟩
        exact hno p hpm (((heq p hpm).2).mp he)
      have := C46_codes E { a with diff := true, inPlace := false } (after E a fs stdin) stdin
      omega

/-- Carriage return and line feed: a table of one entry is up to date after an update; with a second entry it is not (`C91_violation_newline`). -/
example :
    let a : CliArgs := { filenames := ["a".toList], newline := "\\r\\n".toList, inPlace := true }
    let fs : FS := fun _ => some ⟨"x\n<!--TOC-->\n# a\n".toList, false⟩
    ((cliMain asciiEnv { a with diff := true } (after asciiEnv a fs none) none).code = 0 ∧
      (cliMain asciiEnv { a with diff := true, inPlace := false } (after asciiEnv a fs none) none).code = 0) ∧
    after asciiEnv a fs none "a".toList = some ⟨"x\n<!--TOC-->\r\n\r\n- [a](#a)\r\n\r\n<!--TOC-->\r\n# a\n".toList, false⟩ := by
  intro a fs
  have hf : ∀ f ∈ a.filenames, HasPlace asciiEnv a fs f := by
    intro f hf
    rw [List.mem_singleton.mp hf]
    refine ⟨["x\n".toList, "<!--TOC-->\n".toList, "# a\n".toList], ["x\n".toList], ["<!--TOC-->\n".toList], ["# a\n".toList], ⟨by decide, _, rfl, (reads_iff (bad := false)).mpr (by decide +kernel)⟩,
      .inl ⟨_, ⟨rfl, isMarker_iff.mpr (by decide +kernel), ?_, ?_⟩, rfl⟩, .inr (.inl rfl), ⟨by decide, fun _ => ?_, ?_, default_plain _⟩⟩
    · simp only [isMarker_iff]; decide +kernel
    · simp only [isMarker_iff]; decide +kernel
    · exact Outside.line (ls := []) .nil (not_opening_line (by simp [IsFenceChar]))
    · intro l hl
      rw [List.mem_singleton.mp hl]
      exact default_plain _
  have hout : buildToc asciiEnv a.options "a".toList (fs "a".toList) = .ok "- [a](#a)\r\n".toList := by decide +kernel
  have hno : ∀ f ∈ a.filenames, ∀ out, buildToc asciiEnv a.options f (fs f) = .ok out → '\r' ∉ pyStrip out := by
    intro f hf out ho
    rw [List.mem_singleton.mp hf, hout] at ho
    injection ho with ho
    rw [← ho]
    decide +kernel
  have := C91_check_exact (E := asciiEnv) (a := a) asciiEnv_lawful rfl (by decide) (by decide) (by decide) (.inr (.inl rfl)) default_good hf (by
    intro f hfm out ho
    exact C44_recognisable_partial (o := a.options) asciiEnv_lawful (.inl (by decide)) rfl (.inr (.inl rfl)) ho default_notItem) (stdin := none) (by decide +kernel)
  exact ⟨⟨this.1.mpr hno, this.2.mpr hno⟩, by decide +kernel⟩

end MdToc.Props
