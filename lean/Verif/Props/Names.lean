import Verif.Props.Resume
import Verif.Props.Cr

/-!
# The order and the repetition of the names of the files (C98)
-/

set_option linter.unusedSimpArgs false

namespace MdToc.Props

open MdToc.Spec

/-- The file has a marker, and what follows the old table starts like a line. -/
def HasCut (E : Env) (a : CliArgs) (fs : FS) (f : Str) : Prop :=
  ∃ ls before removed after, HasLines fs f ls ∧ Cut E.isDigit a.tocMarker ls before removed after ∧ IsEol a.options.newline after.flatten

theorem lastFS_congr {fs g : FS} {f : Str} (h : g f = fs f) (cs : List Str) : lastFS g f cs f = lastFS fs f cs f := by
  unfold lastFS
  cases cs.getLast? with
  | none => exact h
  | some t => simp [FS.write]

/-- Writes on files each of which is as before or already as after its write: files may be named several times. -/
theorem writes_again {E : Env} {marker nl : Str} {fs fin g : FS} {ps : List (Str × Str)} {tr : List FS} {r : Except Exn Bool} (h : Writes E marker nl g ps tr r)
    (hg : Between fs fin g)
    (hp : ∀ p ∈ ps, (∃ x cs, writeString E fs p.1 p.2 marker nl = .ok (x, cs) ∧ lastFS fs p.1 cs p.1 = fin p.1) ∧
      ∃ x cs, writeString E fin p.1 p.2 marker nl = .ok (x, cs) ∧ lastFS fin p.1 cs p.1 = fin p.1) :
    (∃ b, r = .ok b ∧ ((∀ p ∈ ps, ∀ q ∈ ps, p.1 = q.1 → p.2 = q.2) →
      (∀ p ∈ ps, tocsEqual E p.2 (fs p.1) marker = .ok true → tocsEqual E p.2 (fin p.1) marker = .ok true) →
      (b = true ↔ ∀ p ∈ ps, tocsEqual E p.2 (g p.1) marker = .ok true))) ∧
    ∀ f, (tr.getLast?.getD g) f = if f ∈ ps.map Prod.fst then fin f else g f := by
  induction h with
  | nil => simp
  | @failed g f s rest e hw =>
    exfalso
    obtain ⟨⟨x, cs, h1, -⟩, ⟨y, ds, h2, -⟩⟩ := hp _ List.mem_cons_self
    rcases hg f with he | he
    · rw [writeString_congr he, h1] at hw; simp at hw
    · rw [writeString_congr he, h2] at hw; simp at hw
  | @ok g f s rest b0 contents tr r hw hr ih =>
    have hone : lastFS g f contents f = fin f := by
      obtain ⟨⟨x, cs, h1, h1'⟩, ⟨y, ds, h2, h2'⟩⟩ := hp _ List.mem_cons_self
      rcases hg f with he | he
      · have hw' := hw
        rw [writeString_congr he, h1] at hw'
        injection hw' with hw'
        injection hw' with _ e2
        subst e2
        rw [lastFS_congr he]; exact h1'
      · have hw' := hw
        rw [writeString_congr he, h2] at hw'
        injection hw' with hw'
        injection hw' with _ e2
        subst e2
        rw [lastFS_congr he]; exact h2'
    have hoth : ∀ f', f' ≠ f → lastFS g f contents f' = g f' := fun f' hne => lastFS_other hne _
    have hbet : Between fs fin (lastFS g f contents) := by
      intro f'
      by_cases he : f' = f
      · subst he; exact .inr hone
      · rw [hoth f' he]; exact hg f'
    obtain ⟨⟨b, hb, hflag⟩, hfin⟩ := ih hbet (fun p hpm => hp p (List.mem_cons_of_mem _ hpm))
    refine ⟨⟨b0 && b, by rw [hb]; rfl, ?_⟩, ?_⟩
    · intro hfun hup
      have hfl := writeString_flag hw
      rw [Bool.and_eq_true, hflag (fun p hpm q hqm => hfun p (List.mem_cons_of_mem _ hpm) q (List.mem_cons_of_mem _ hqm))
        (fun p hpm => hup p (List.mem_cons_of_mem _ hpm))]
      constructor
      · rintro ⟨h1, h2⟩ p hpm
        rcases List.mem_cons.mp hpm with rfl | hpm
        · simp [hfl, h1]
        · by_cases he : p.1 = f
          · have := hfun p (List.mem_cons_of_mem _ hpm) (f, s) List.mem_cons_self he
            rw [this, he]
            simp [hfl, h1]
          · rw [← hoth p.1 he]; exact h2 p hpm
      · intro hall
        refine ⟨?_, fun p hpm => ?_⟩
        · have := hall (f, s) List.mem_cons_self
          simp only at this
          rw [hfl] at this
          simpa using this
        · by_cases he : p.1 = f
          · have e1 : lastFS g f contents p.1 = fin p.1 := by rw [he]; exact hone
            rw [e1]
            have := hall p (List.mem_cons_of_mem _ hpm)
            rcases hg p.1 with h | h
            · exact hup p (List.mem_cons_of_mem _ hpm) (h ▸ this)
            · rw [← h]; exact this
          · rw [hoth p.1 he]; exact hall p (List.mem_cons_of_mem _ hpm)
    · intro f'
      have hlast : ((contents.map (g.write f) ++ tr).getLast?).getD g = (tr.getLast?).getD (lastFS g f contents) := by
        rw [List.getLast?_append]
        cases ht : tr.getLast? with
        | some t => simp
        | none =>
          have := lastFS_eq g f contents
          unfold traceFS at this
          simpa using this
      rw [hlast, hfin f']
      simp only [List.map_cons, List.mem_cons]
      by_cases h1 : f' ∈ rest.map Prod.fst
      · rw [if_pos h1, if_pos (Or.inr h1)]
      · rw [if_neg h1]
        by_cases h2 : f' = f
        · rw [if_pos (Or.inl h2), h2, hone]
        · rw [if_neg (not_or.mpr ⟨h2, h1⟩), hoth f' h2]

/-- The content of each file after its table `T f` has been written. -/
def updated (E : Env) (a : CliArgs) (T : Str → Str) (fs : FS) : FS := fun f =>
  match writeString E fs f (T f) a.tocMarker a.options.newline with
  | .ok (_, cs) => lastFS fs f cs f
  | .error _ => fs f

theorem names_cut {E : Env} {a : CliArgs} (hne : a.filenames ≠ []) {fs : FS} (hf : ∀ f ∈ a.filenames, HasCut E a fs f ∨ NoPlace a fs f) :
    namesOf a = a.filenames ∧ "-".toList ∉ a.filenames := by
  refine ⟨by unfold namesOf; rw [if_neg hne], fun hi => ?_⟩
  rcases hf _ hi with ⟨_, _, _, _, h, _⟩ | ⟨_, h, _⟩ <;> exact h.1 rfl

theorem zip_map {α β : Type} (T : α → β) (l : List α) : l.map (fun x => (x, T x)) = l.zip (l.map T) := by
  induction l with
  | nil => rfl
  | cons x l ih => simp [ih]

/-- One run in place on any list of names: what each file is after it, and the exit code. -/
theorem run_files {E : Env} (hE : E.Lawful) {a : CliArgs} (hin : a.inPlace = true) (hne : a.filenames ≠ []) (hn : IsEol a.options.newline []) (hg : GoodMarker a.tocMarker) {fs : FS}
    (hf : ∀ f ∈ a.filenames, HasCut E a fs f ∨ NoPlace a fs f)
    (hrec : ∀ f ∈ a.filenames, HasCut E a fs f → ∀ out, buildToc E a.options f (fs f) = .ok out → ∃ core, Recognisable E.isDigit out core a.tocMarker a.options.newline)
    {T : Str → Str} (hT : ∀ f ∈ a.filenames, buildToc E a.options f (fs f) = .ok (T f)) (stdin : Stdin) :
    (∃ b, (cliMain E a fs stdin).code = (if !b && a.diff then 128 else 0) ∧
      (b = true ↔ ∀ f ∈ a.filenames, tocsEqual E (T f) (fs f) a.tocMarker = .ok true)) ∧
    ∀ f, after E a fs stdin f = if f ∈ a.filenames then updated E a T fs f else fs f := by
  obtain ⟨hnames, hstd⟩ := names_cut hne hf
  have hbt : buildMultipleTocs E a.options fs stdin a.filenames = .ok (a.filenames.map T) := by
    refine (tables_iff hnames hstd fs stdin _).mpr ⟨by simp, ?_⟩
    intro p hp
    rw [← zip_map] at hp
    obtain ⟨f, hfm, rfl⟩ := List.mem_map.mp hp
    exact hT f hfm
  obtain ⟨r, hw, hcode, -⟩ := C46_in_place hin hbt (stdin := stdin)
  rw [hnames, ← zip_map] at hw
  have hone : ∀ f ∈ a.filenames, ((∃ x cs, writeString E fs f (T f) a.tocMarker a.options.newline = .ok (x, cs) ∧ lastFS fs f cs f = updated E a T fs f) ∧
      ∃ x cs, writeString E (updated E a T fs) f (T f) a.tocMarker a.options.newline = .ok (x, cs) ∧ lastFS (updated E a T fs) f cs f = updated E a T fs f) ∧
      (tocsEqual E (T f) (fs f) a.tocMarker = .ok true → tocsEqual E (T f) (updated E a T fs f) a.tocMarker = .ok true) := by
    intro f hfm
    rcases hf f hfm with hc | hno
    · obtain ⟨core, hcore⟩ := hrec f hfm hc _ (hT f hfm)
      obtain ⟨ls, before, removed, aft, hls, hcut, he⟩ := hc
      obtain ⟨x, cs, hx, -⟩ := C37_outside_preserved E hls (T f) a.tocMarker a.options.newline hcut hcore.1
      have hu : updated E a T fs f = lastFS fs f cs f := by unfold updated; rw [hx]
      obtain ⟨y, ds, hy, hl⟩ := C38_twice_partial E hls hcut hg hcore he hx
      refine ⟨⟨⟨x, cs, hx, hu.symm⟩, y, ds, ?_, ?_⟩, ?_⟩
      · rw [writeString_congr hu]; exact hy
      · rw [lastFS_congr hu, hu]
        unfold lastFS
        rw [hl]
        cases cs.getLast? <;> simp [FS.write]
      · intro heq
        rw [hu]
        obtain ⟨h1, text, hft, h3⟩ := hls
        have hb := hT f hfm
        rw [hft] at hb
        refine ((up_to_date_iff (o := a.options) hE hn hb ⟨h1, text, hft, h3⟩ hcut hg hcore he hx).1).mpr (fun hcr => ?_)
        rw [C39_never E ⟨h1, text, hft, h3⟩ (fun h => hg.1 _ h (by simp [IsNewline])) hcr] at heq
        simp at heq
    · obtain ⟨ls, hls, hno'⟩ := hno
      obtain ⟨x, hx⟩ := C36_no_marker E hls (T f) a.options.newline hno'
      have hu : updated E a T fs f = fs f := by unfold updated; rw [hx]; rfl
      exact ⟨⟨⟨x, [], hx, hu.symm⟩, x, [], by rw [writeString_congr hu]; exact hx, rfl⟩, fun h => by rw [hu]; exact h⟩
  obtain ⟨⟨b, hb, hflag⟩, hfin⟩ := writes_again (fin := updated E a T fs) hw (fun f => .inl rfl) (by
    intro p hp
    obtain ⟨f, hfm, rfl⟩ := List.mem_map.mp hp
    exact (hone f hfm).1)
  subst hb
  constructor
  · refine ⟨b, ?_, ?_⟩
    · rw [hcode]
      cases b <;> cases a.diff <;> rfl
    · rw [hflag ?_ ?_]
      · simp only [List.mem_map, forall_exists_index, and_imp, forall_apply_eq_imp_iff₂]
      · intro p hp q hq he
        obtain ⟨f, -, rfl⟩ := List.mem_map.mp hp
        obtain ⟨f', -, rfl⟩ := List.mem_map.mp hq
        simp only at he ⊢
        rw [he]
      · intro p hp
        obtain ⟨f, hfm, rfl⟩ := List.mem_map.mp hp
        exact (hone f hfm).2
  · intro f
    have := hfin f
    rw [List.map_map, show (Prod.fst ∘ fun x => (x, T x)) = id from rfl, List.map_id] at this
    exact this

/-- **C98**, tables that are recognisable: two runs in place with the same files, in any order and each named any number of times, have the same exit code and leave
the same files behind. -/
theorem C98_recognisable {E : Env} (hE : E.Lawful) {a : CliArgs} (hin : a.inPlace = true) (hne : a.filenames ≠ []) (hn : IsEol a.options.newline []) (hg : GoodMarker a.tocMarker) {fs : FS}
    (hf : ∀ f ∈ a.filenames, HasCut E a fs f ∨ NoPlace a fs f)
    (hrec : ∀ f ∈ a.filenames, HasCut E a fs f → ∀ out, buildToc E a.options f (fs f) = .ok out → ∃ core, Recognisable E.isDigit out core a.tocMarker a.options.newline)
    {names : List Str} (hs : ∀ f, f ∈ names ↔ f ∈ a.filenames) (stdin : Stdin) :
    (cliMain E { a with filenames := names } fs stdin).code = (cliMain E a fs stdin).code ∧
    after E { a with filenames := names } fs stdin = after E a fs stdin := by
  have hne' : names ≠ [] := by
    rintro rfl
    exact hne (List.eq_nil_iff_forall_not_mem.mpr (fun f hfm => by simpa using (hs f).mpr hfm))
  have hf' : ∀ f ∈ names, HasCut E { a with filenames := names } fs f ∨ NoPlace { a with filenames := names } fs f := fun f hfm => hf f ((hs f).mp hfm)
  by_cases hall : ∀ f ∈ a.filenames, ∃ out, buildToc E a.options f (fs f) = .ok out
  · have hT : ∃ T : Str → Str, ∀ f ∈ a.filenames, buildToc E a.options f (fs f) = .ok (T f) := by
      refine ⟨fun f => match buildToc E a.options f (fs f) with | .ok out => out | .error _ => [], fun f hfm => ?_⟩
      obtain ⟨out, ho⟩ := hall f hfm
      simp only [ho]
    obtain ⟨T, hT⟩ := hT
    obtain ⟨⟨b, c1, c2⟩, c3⟩ := run_files hE hin hne hn hg hf hrec hT stdin
    obtain ⟨⟨b', d1, d2⟩, d3⟩ := run_files (a := { a with filenames := names }) hE hin hne' hn hg hf' (fun f hfm => hrec f ((hs f).mp hfm)) (T := T)
      (fun f hfm => hT f ((hs f).mp hfm)) stdin
    refine ⟨?_, ?_⟩
    · have : b' = b := by
        rw [Bool.eq_iff_iff, c2, d2]
        exact ⟨fun h f hfm => h f ((hs f).mpr hfm), fun h f hfm => h f ((hs f).mp hfm)⟩
      rw [c1, d1, this]
    · funext f
      rw [c3 f, d3 f]
      by_cases hfm : f ∈ a.filenames
      · rw [if_pos hfm, if_pos ((hs f).mpr hfm)]; rfl
      · rw [if_neg hfm, if_neg (fun h => hfm ((hs f).mp h))]
  · have hfail : ∀ b : CliArgs, b.options = a.options → b.filenames ≠ [] → (∀ f ∈ b.filenames, HasCut E b fs f ∨ NoPlace b fs f) →
        (∀ f, f ∈ b.filenames ↔ f ∈ a.filenames) → (cliMain E b fs stdin) = ⟨1, [], []⟩ := by
      intro b ho hbn hbf hbs
      obtain ⟨hnames, hstd⟩ := names_cut hbn hbf
      cases hbt : buildMultipleTocs E b.options fs stdin b.filenames with
      | error e => exact C46_build_fails hbt
      | ok tocs =>
        exfalso
        obtain ⟨hlen, hz⟩ := (tables_iff hnames hstd fs stdin tocs).mp hbt
        refine hall (fun f hfm => ?_)
        have hm : f ∈ (b.filenames.zip tocs).map Prod.fst := by
          rw [List.map_fst_zip (by omega)]; exact (hbs f).mpr hfm
        obtain ⟨p, hp, rfl⟩ := List.mem_map.mp hm
        exact ⟨p.2, ho ▸ hz p hp⟩
    have e1 := hfail a rfl hne hf (fun _ => Iff.rfl)
    have e2 := hfail { a with filenames := names } rfl hne' hf' hs
    exact ⟨by rw [e1, e2], by unfold after; rw [e1, e2]⟩

/-- **C98** for tables with links, except for redcarpet with indentation. -/
theorem C98_names_partial {E : Env} (hE : E.Lawful) {a : CliArgs} (hin : a.inPlace = true) (hne : a.filenames ≠ [])
    (hp : a.parser ≠ .redcarpet ∨ a.noIndentation = true) (hl : a.noLinks = false) (hn : IsEol a.options.newline []) (hg : GoodMarker a.tocMarker)
    (hm : NotItem a.tocMarker) {fs : FS} (hf : ∀ f ∈ a.filenames, HasCut E a fs f ∨ NoPlace a fs f) {names : List Str}
    (hs : ∀ f, f ∈ names ↔ f ∈ a.filenames) (stdin : Stdin) :
    (cliMain E { a with filenames := names } fs stdin).code = (cliMain E a fs stdin).code ∧
    after E { a with filenames := names } fs stdin = after E a fs stdin := by
  refine C98_recognisable hE hin hne hn hg hf ?_ hs stdin
  rintro f - ⟨_, _, _, _, ⟨-, text, hft, -⟩, -⟩ out hb
  rw [hft] at hb
  exact C44_recognisable_partial (o := a.options) hE hp hl hn hb hm

/-- **C98** is false for redcarpet with indentation: a file which is named twice gets a second table. -/
theorem C98_violation :
    let a : CliArgs := { filenames := ["a".toList], inPlace := true, parser := .redcarpet }
    let fs : FS := fun _ => some ⟨"<!--TOC-->\n### a\n".toList, false⟩
    after asciiEnv a fs none "a".toList = some ⟨"<!--TOC-->\n\n        - [a](#a)\n\n<!--TOC-->\n### a\n".toList, false⟩ ∧
    after asciiEnv { a with filenames := ["a".toList, "a".toList] } fs none "a".toList =
      some ⟨"<!--TOC-->\n\n        - [a](#a)\n\n<!--TOC-->\n<!--TOC-->\n\n        - [a](#a)\n\n<!--TOC-->\n### a\n".toList, false⟩ := by
  decide +kernel

/-- Three files, one of them without a marker, in another order and with repetitions. -/
example :
    let a : CliArgs := { filenames := ["a".toList, "b".toList, "c".toList], inPlace := true, diff := true }
    let fs : FS := fun f => if f = "c".toList then some ⟨"# c\n".toList, false⟩ else some ⟨"x\n<!--TOC-->\n# ".toList ++ f ++ "\n".toList, false⟩
    (cliMain asciiEnv { a with filenames := ["b".toList, "c".toList, "b".toList, "a".toList, "c".toList] } fs none).code = (cliMain asciiEnv a fs none).code ∧
    after asciiEnv { a with filenames := ["b".toList, "c".toList, "b".toList, "a".toList, "c".toList] } fs none = after asciiEnv a fs none ∧
    after asciiEnv a fs none "b".toList = some ⟨"x\n<!--TOC-->\n\n- [b](#b)\n\n<!--TOC-->\n# b\n".toList, false⟩ := by
  intro a fs
  have hf : ∀ f ∈ a.filenames, HasCut asciiEnv a fs f ∨ NoPlace a fs f := by
    intro f hf
    simp only [a, List.mem_cons, List.not_mem_nil, or_false] at hf
    rcases hf with rfl | rfl | rfl
    · left
      refine ⟨["x\n".toList, "<!--TOC-->\n".toList, "# a\n".toList], ["x\n".toList], ["<!--TOC-->\n".toList], ["# a\n".toList],
        ⟨by decide, _, rfl, (reads_iff (bad := false)).mpr (by decide +kernel)⟩, .inl ⟨_, ⟨rfl, isMarker_iff.mpr (by decide +kernel), ?_, ?_⟩, rfl⟩, .inl rfl⟩ <;>
      · simp only [isMarker_iff]; decide +kernel
    · left
      refine ⟨["x\n".toList, "<!--TOC-->\n".toList, "# b\n".toList], ["x\n".toList], ["<!--TOC-->\n".toList], ["# b\n".toList],
        ⟨by decide, _, rfl, (reads_iff (bad := false)).mpr (by decide +kernel)⟩, .inl ⟨_, ⟨rfl, isMarker_iff.mpr (by decide +kernel), ?_, ?_⟩, rfl⟩, .inl rfl⟩ <;>
      · simp only [isMarker_iff]; decide +kernel
    · right
      refine ⟨["# c\n".toList], ⟨by decide, _, rfl, (reads_iff (bad := false)).mpr (by decide +kernel)⟩, ?_⟩
      simp only [isMarker_iff]; decide +kernel
  have := C98_names_partial (E := asciiEnv) (a := a) asciiEnv_lawful rfl (by decide) (.inl (by decide)) rfl (.inl rfl) default_good default_notItem (fs := fs) hf
    (names := ["b".toList, "c".toList, "b".toList, "a".toList, "c".toList]) (by intro f; simp [a]; tauto) none
  exact ⟨this.1, this.2, by decide +kernel⟩

end MdToc.Props
