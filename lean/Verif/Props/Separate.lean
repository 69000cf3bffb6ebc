import Verif.Props.Check

/-!
# One run for several files, or one for each: C107
-/

set_option linter.unusedSimpArgs false

namespace MdToc.Props

open MdToc.Spec

/-- The same command for one file only. -/
def CliArgs.one (a : CliArgs) (f : Str) : CliArgs := { a with filenames := [f] }

/-- The same command for one file after the other. -/
def oneByOne (E : Env) (a : CliArgs) (stdin : Stdin) : FS → List Str → FS
  | s, [] => s
  | s, f :: t => oneByOne E a stdin (filesAfter E (CliArgs.one a f) stdin s) t

theorem one_fails {E : Env} {a : CliArgs} {f : Str} (hne : f ≠ stdinName) {s : FS} (stdin : Stdin) {e : Exn} (hb : buildToc E a.options f (s f) = .error e) :
    (cliMain E (CliArgs.one a f) s stdin).code = 1 ∧ filesAfter E (CliArgs.one a f) stdin s = s := by
  have hm : buildMultipleTocs E (CliArgs.one a f).options s stdin (CliArgs.one a f).filenames = .error e := by
    change buildMultipleTocs E a.options s stdin [f] = .error e
    unfold buildMultipleTocs defaultNames
    simp only [List.length_cons, List.length_nil, Nat.zero_add, Nat.one_ne_zero, if_false, buildTocs, if_neg hne, bind, Except.bind, hb]
  unfold filesAfter cliMain writeToc
  simp only [hm]
  exact ⟨trivial, rfl⟩

theorem one_run {E : Env} {a : CliArgs} (hin : a.inPlace = true) {f : Str} (hne : f ≠ stdinName) {s : FS} (stdin : Stdin) {out : Str}
    (hb : buildToc E a.options f (s f) = .ok out) :
    (∀ e, writeString E s f out a.tocMarker a.options.newline = .error e →
      (cliMain E (CliArgs.one a f) s stdin).code = 1 ∧ filesAfter E (CliArgs.one a f) stdin s = s) ∧
    ∀ b tr, writeString E s f out a.tocMarker a.options.newline = .ok (b, tr) →
      filesAfter E (CliArgs.one a f) stdin s = lastFS s f tr ∧ (cliMain E (CliArgs.one a f) s stdin).code = if a.diff = true ∧ b = false then 128 else 0 := by
  have hm : buildMultipleTocs E (CliArgs.one a f).options s stdin (CliArgs.one a f).filenames = .ok [out] := by
    change buildMultipleTocs E a.options s stdin [f] = .ok [out]
    unfold buildMultipleTocs defaultNames
    simp only [List.length_cons, List.length_nil, Nat.zero_add, Nat.one_ne_zero, if_false, buildTocs, if_neg hne, bind, Except.bind, hb]
  have hi : (CliArgs.one a f).inPlace = true := hin
  have hfn : (CliArgs.one a f).filenames = [f] := rfl
  have hmk : (CliArgs.one a f).tocMarker = a.tocMarker := rfl
  have hd : (CliArgs.one a f).diff = a.diff := rfl
  have hc' : cliNewline (CliArgs.one a f).newline = a.options.newline := rfl
  constructor
  · intro e he
    unfold filesAfter cliMain writeToc
    simp only [hm, hi, if_true, hc', hmk]
    simp only [hfn, defaultNames, writeStrings, List.length_cons, List.length_nil, Nat.zero_add, Nat.one_ne_zero, if_false, ne_eq, not_true, List.zip_cons_cons, List.zip_nil_right,
      writeLoop, he]
    exact ⟨trivial, rfl⟩
  · intro b tr hw
    have key : (cliMain E (CliArgs.one a f) s stdin).trace = tr.map (s.write f) ∧ (cliMain E (CliArgs.one a f) s stdin).code = if a.diff = true ∧ b = false then 128 else 0 := by
      unfold cliMain writeToc
      simp only [hm, hi, if_true, hc', hmk, hd]
      simp only [hfn, defaultNames, writeStrings, List.length_cons, List.length_nil, Nat.zero_add, Nat.one_ne_zero, if_false, ne_eq, not_true, List.zip_cons_cons, List.zip_nil_right,
        writeLoop, hw, traceFS, List.append_nil, true_and]
      cases b <;> cases a.diff <;> simp
    refine ⟨?_, key.2⟩
    unfold filesAfter lastFS
    rw [key.1, List.getLast?_map]
    cases tr.getLast? <;> rfl

theorem last_append {s : FS} {f : Str} {c : List Str} {tr : List FS} : ((traceFS s f c ++ tr).getLast?).getD s = (tr.getLast?).getD (lastFS s f c) := by
  rw [List.getLast?_append]
  cases tr.getLast? with
  | some x => rfl
  | none =>
    unfold traceFS lastFS
    rw [List.getLast?_map]
    cases c.getLast? <;> rfl

theorem loop_separate {E : Env} {a : CliArgs} (hin : a.inPlace = true) (stdin : Stdin) : ∀ (ps : List (Str × Str)) (s : FS) (eq : Bool), (ps.map Prod.fst).Nodup →
    (∀ p ∈ ps, p.1 ≠ stdinName) → (∀ p ∈ ps, buildToc E a.options p.1 (s p.1) = .ok p.2) →
    (∀ e, (writeLoop E a.tocMarker a.options.newline s ps eq).1 = .error e → ∃ p ∈ ps, ∃ e, writeString E s p.1 p.2 a.tocMarker a.options.newline = .error e) ∧
    ∀ b, (writeLoop E a.tocMarker a.options.newline s ps eq).1 = .ok b →
      oneByOne E a stdin s (ps.map Prod.fst) = ((writeLoop E a.tocMarker a.options.newline s ps eq).2.getLast?).getD s ∧
      (∀ p ∈ ps, ∃ x, writeString E s p.1 p.2 a.tocMarker a.options.newline = .ok x) ∧
      (b = false ↔ eq = false ∨ ∃ p ∈ ps, ∃ tr, writeString E s p.1 p.2 a.tocMarker a.options.newline = .ok (false, tr)) := by
  intro ps
  induction ps with
  | nil =>
    intro s eq _ _ _
    simp [writeLoop, oneByOne]
  | cons p t ih =>
    intro s eq hnd hstd hb
    obtain ⟨f, out⟩ := p
    simp only [List.map_cons, List.nodup_cons] at hnd
    have hbf : buildToc E a.options f (s f) = .ok out := hb (f, out) (by simp)
    cases hw : writeString E s f out a.tocMarker a.options.newline with
    | error e =>
      simp only [writeLoop, hw]
      exact ⟨fun _ _ => ⟨(f, out), by simp, e, hw⟩, fun b h => by simp at h⟩
    | ok x =>
      obtain ⟨b0, c⟩ := x
      have hlast : ((traceFS s f c).getLast?).getD s = lastFS s f c := by
        have := last_append (s := s) (f := f) (c := c) (tr := [])
        simpa using this
      have hsame : ∀ p ∈ t, lastFS s f c p.1 = s p.1 := by
        intro p hp
        have : p.1 ≠ f := fun e => hnd.1 (List.mem_map.mpr ⟨p, hp, e⟩)
        unfold lastFS
        cases c.getLast? with
        | none => rfl
        | some x => simp [FS.write, this]
      obtain ⟨i1, i2⟩ := ih (lastFS s f c) (eq && b0) hnd.2 (fun p hp => hstd p (by simp [hp])) (fun p hp => by rw [hsame p hp]; exact hb p (by simp [hp]))
      have hcg : ∀ p ∈ t, writeString E (lastFS s f c) p.1 p.2 a.tocMarker a.options.newline = writeString E s p.1 p.2 a.tocMarker a.options.newline :=
        fun p hp => writeString_congr (hsame p hp) _ _ _
      simp only [writeLoop, hw, hlast]
      constructor
      · intro e he
        obtain ⟨p, hp, e', h'⟩ := i1 e he
        exact ⟨p, by simp [hp], e', by rw [← hcg p hp]; exact h'⟩
      · intro b hbb
        obtain ⟨j1, j2, j3⟩ := i2 b hbb
        refine ⟨?_, ?_, ?_⟩
        · rw [last_append, ← j1]
          simp only [List.map_cons, oneByOne]
          rw [((one_run hin (hstd (f, out) (by simp)) stdin hbf).2 b0 c hw).1]
        · intro p hp
          rcases List.mem_cons.mp hp with rfl | hp
          · exact ⟨_, hw⟩
          · rw [← hcg p hp]
            exact j2 p hp
        · rw [j3]
          constructor
          · rintro (h | ⟨p, hp, tr, h⟩)
            · simp at h
              rcases Bool.eq_false_or_eq_true eq with he | he
              · exact .inr ⟨(f, out), by simp, c, by rw [hw, h he]⟩
              · exact .inl he
            · exact .inr ⟨p, by simp [hp], tr, by rw [← hcg p hp]; exact h⟩
          · rintro (h | ⟨p, hp, tr, h⟩)
            · exact .inl (by simp [h])
            · rcases List.mem_cons.mp hp with rfl | hp
              · rw [hw] at h
                injection h with h
                injection h with h1 h2
                exact .inl (by simp [h1])
              · exact .inr ⟨p, hp, tr, by rw [hcg p hp]; exact h⟩

/-- **C107**: a run in place for several files, each named once. It fails exactly if the run for one of the files alone fails; its exit code is 128 exactly if no run for one of the files
alone fails and one of them has the exit code 128; and if it does not fail it leaves the files as the runs for one file after the other do. -/
theorem C107_separate {E : Env} {a : CliArgs} (hin : a.inPlace = true) (hne : a.filenames ≠ []) (hnd : a.filenames.Nodup) (hstd : "-".toList ∉ a.filenames) (fs : FS) (stdin : Stdin) :
    ((cliMain E a fs stdin).code = 1 ↔ ∃ f ∈ a.filenames, (cliMain E (CliArgs.one a f) fs stdin).code = 1) ∧
    ((cliMain E a fs stdin).code = 128 ↔ (∀ f ∈ a.filenames, (cliMain E (CliArgs.one a f) fs stdin).code ≠ 1) ∧
      ∃ f ∈ a.filenames, (cliMain E (CliArgs.one a f) fs stdin).code = 128) ∧
    ((cliMain E a fs stdin).code ≠ 1 → filesAfter E a stdin fs = oneByOne E a stdin fs a.filenames) := by
  have hnames : namesOf a = a.filenames := by unfold namesOf; rw [if_neg hne]
  have hstd' : ∀ f ∈ a.filenames, f ≠ stdinName := fun f hf e => hstd (by rw [e] at hf; exact hf)
  by_cases hall : ∀ f ∈ a.filenames, ∃ out, buildToc E a.options f (fs f) = .ok out
  · -- all tables can be built
    obtain ⟨tocs, hbm⟩ : ∃ tocs, buildMultipleTocs E a.options fs stdin a.filenames = .ok tocs := by
      have : ∃ tocs, a.filenames.length = tocs.length ∧ ∀ p ∈ a.filenames.zip tocs, buildToc E a.options p.1 (fs p.1) = .ok p.2 := by
        clear hne hnd hstd hnames hstd'
        generalize a.filenames = l at hall
        induction l with
        | nil => exact ⟨[], by simp⟩
        | cons f t ih =>
          obtain ⟨out, ho⟩ := hall f (by simp)
          obtain ⟨tocs, h1, h2⟩ := ih (fun g hg => hall g (by simp [hg]))
          refine ⟨out :: tocs, by simp [h1], ?_⟩
          intro p hp
          rcases List.mem_cons.mp (by simpa using hp) with rfl | hp
          · exact ho
          · exact h2 p hp
      obtain ⟨tocs, h⟩ := this
      exact ⟨tocs, (tables_iff hnames hstd fs stdin tocs).mpr h⟩
    obtain ⟨hlen, hbs⟩ := (tables_iff hnames hstd fs stdin tocs).mp hbm
    have hfst : (a.filenames.zip tocs).map Prod.fst = a.filenames := List.map_fst_zip (by omega)
    have hmem : ∀ p ∈ a.filenames.zip tocs, p.1 ∈ a.filenames := fun p hp => by rw [← hfst]; exact List.mem_map.mpr ⟨p, hp, rfl⟩
    have hex : ∀ f ∈ a.filenames, ∃ p ∈ a.filenames.zip tocs, p.1 = f := fun f hf => by
      rw [← hfst] at hf
      obtain ⟨p, hp, e⟩ := List.mem_map.mp hf
      exact ⟨p, hp, e⟩
    obtain ⟨l1, l2⟩ := loop_separate (E := E) hin stdin (a.filenames.zip tocs) fs true (by rw [hfst]; exact hnd) (fun p hp => hstd' _ (hmem p hp)) hbs
    have hc' : cliNewline a.newline = a.options.newline := rfl
    have hrun : writeStrings E fs a.filenames tocs a.tocMarker a.options.newline = writeLoop E a.tocMarker a.options.newline fs (a.filenames.zip tocs) true := by
      unfold writeStrings
      rw [if_neg (by simpa using hlen)]
    cases hr : writeLoop E a.tocMarker a.options.newline fs (a.filenames.zip tocs) true with
    | mk r tr =>
      have hmain : cliMain E a fs stdin = match (generalizing := false) r with
          | .error _ => ⟨1, [], tr⟩
          | .ok eq => ⟨if (!eq && a.diff) = true then 128 else 0, [], tr⟩ := by
        unfold cliMain writeToc
        simp only [hbm, hin, if_true, defaultNames_eq, hnames, hc', hrun, hr]
        cases r <;> rfl
      cases r with
      | error e =>
        obtain ⟨p, hp, e', he'⟩ := l1 e (by rw [hr])
        have h1 := ((one_run hin (hstd' _ (hmem p hp)) stdin (hbs p hp)).1 e' he').1
        simp only [hmain]
        refine ⟨⟨fun _ => ⟨p.1, hmem p hp, h1⟩, fun _ => trivial⟩, ⟨fun h => by simp at h, fun h => absurd h1 (h.1 p.1 (hmem p hp))⟩, fun h => absurd rfl h⟩
      | ok b =>
        obtain ⟨j1, j2, j3⟩ := l2 b (by rw [hr])
        rw [hr, hfst] at j1
        have hone : ∀ f ∈ a.filenames, (cliMain E (CliArgs.one a f) fs stdin).code ≠ 1 := by
          intro f hf
          obtain ⟨p, hp, rfl⟩ := hex f hf
          obtain ⟨⟨b', c⟩, hw⟩ := j2 p hp
          rw [((one_run hin (hstd' _ hf) stdin (hbs p hp)).2 b' c hw).2]
          split <;> simp
        have hcode : (cliMain E a fs stdin).code ≠ 1 := by
          rw [hmain]
          simp only
          split <;> simp
        refine ⟨⟨fun h => absurd h hcode, fun ⟨f, hf, h⟩ => absurd h (hone f hf)⟩, ?_, fun _ => ?_⟩
        · have e128 : (cliMain E a fs stdin).code = 128 ↔ b = false ∧ a.diff = true := by
            rw [hmain]
            cases b <;> cases a.diff <;> simp
          rw [e128, j3]
          constructor
          · rintro ⟨h | ⟨p, hp, c, hw⟩, hd⟩
            · simp at h
            · refine ⟨hone, p.1, hmem p hp, ?_⟩
              rw [((one_run hin (hstd' _ (hmem p hp)) stdin (hbs p hp)).2 false c hw).2]
              simp [hd]
          · rintro ⟨-, f, hf, h⟩
            obtain ⟨p, hp, rfl⟩ := hex f hf
            obtain ⟨⟨b', c⟩, hw⟩ := j2 p hp
            rw [((one_run hin (hstd' _ hf) stdin (hbs p hp)).2 b' c hw).2] at h
            split at h
            · rename_i hd
              exact ⟨.inr ⟨p, hp, c, by rw [hw, hd.2]⟩, hd.1⟩
            · simp at h
        · unfold filesAfter
          rw [hmain]
          exact j1.symm
  · -- a table cannot be built
    push Not at hall
    obtain ⟨f, hf, hno⟩ := hall
    cases hbf : buildToc E a.options f (fs f) with
    | ok out => exact absurd hbf (hno out)
    | error e =>
      have h1 := (one_fails (hstd' f hf) stdin hbf).1
      have hcode : (cliMain E a fs stdin).code = 1 := by
        cases hbm : buildMultipleTocs E a.options fs stdin a.filenames with
        | error e => rw [C46_build_fails hbm]
        | ok tocs =>
          exfalso
          obtain ⟨hlen, hbs⟩ := (tables_iff hnames hstd fs stdin tocs).mp hbm
          have hfst : (a.filenames.zip tocs).map Prod.fst = a.filenames := List.map_fst_zip (by omega)
          rw [← hfst] at hf
          obtain ⟨p, hp, rfl⟩ := List.mem_map.mp hf
          exact hno _ (hbs p hp)
      refine ⟨⟨fun _ => ⟨f, hf, h1⟩, fun _ => hcode⟩, ⟨fun h => by rw [hcode] at h; simp at h, fun h => absurd h1 (h.1 f hf)⟩, fun h => absurd hcode h⟩

/-- A run for one file changes no other file, and what it makes of its file depends on that file only. -/
theorem one_local {E : Env} {a : CliArgs} (hin : a.inPlace = true) {f : Str} (hne : f ≠ stdinName) (s : FS) (stdin : Stdin) :
    (∀ g, g ≠ f → filesAfter E (CliArgs.one a f) stdin s g = s g) ∧
    ∀ s' : FS, s' f = s f → filesAfter E (CliArgs.one a f) stdin s' f = filesAfter E (CliArgs.one a f) stdin s f ∧
      (cliMain E (CliArgs.one a f) s' stdin).code = (cliMain E (CliArgs.one a f) s stdin).code := by
  cases hb : buildToc E a.options f (s f) with
  | error e =>
    have h1 := one_fails hne stdin hb
    refine ⟨fun g _ => by rw [h1.2], fun s' hs => ?_⟩
    have h2 := one_fails (s := s') hne stdin (by rw [hs]; exact hb)
    rw [h1.1, h1.2, h2.1, h2.2]
    exact ⟨hs, rfl⟩
  | ok out =>
    have h1 := one_run hin hne stdin hb
    cases hw : writeString E s f out a.tocMarker a.options.newline with
    | error e =>
      obtain ⟨k1, k2⟩ := h1.1 e hw
      refine ⟨fun g _ => by rw [k2], fun s' hs => ?_⟩
      obtain ⟨m1, m2⟩ := (one_run (s := s') hin hne stdin (by rw [hs]; exact hb)).1 e (by rw [writeString_congr hs]; exact hw)
      rw [k1, k2, m1, m2]
      exact ⟨hs, rfl⟩
    | ok x =>
      obtain ⟨b, tr⟩ := x
      obtain ⟨k1, k2⟩ := h1.2 b tr hw
      constructor
      · intro g hg
        rw [k1]
        unfold lastFS
        cases tr.getLast? with
        | none => rfl
        | some x => simp [FS.write, hg]
      · intro s' hs
        obtain ⟨m1, m2⟩ := (one_run (s := s') hin hne stdin (by rw [hs]; exact hb)).2 b tr (by rw [writeString_congr hs]; exact hw)
        rw [k1, k2, m1, m2]
        refine ⟨?_, rfl⟩
        unfold lastFS
        cases tr.getLast? with
        | none => exact hs
        | some x => simp [FS.write]

theorem oneByOne_at {E : Env} {a : CliArgs} (hin : a.inPlace = true) (stdin : Stdin) : ∀ (l : List Str) (s : FS), l.Nodup → (∀ f ∈ l, f ≠ stdinName) → ∀ g,
    oneByOne E a stdin s l g = if g ∈ l then filesAfter E (CliArgs.one a g) stdin s g else s g := by
  intro l
  induction l with
  | nil => intro s _ _ g; simp [oneByOne]
  | cons f t ih =>
    intro s hnd hstd g
    rw [List.nodup_cons] at hnd
    obtain ⟨h1, _⟩ := one_local (E := E) hin (hstd f (by simp)) s stdin
    simp only [oneByOne]
    rw [ih _ hnd.2 (fun x hx => hstd x (by simp [hx])) g]
    by_cases hg : g = f
    · subst hg
      simp [hnd.1]
    · by_cases hm : g ∈ t
      · simp only [hm, if_true, List.mem_cons, or_true]
        exact ((one_local (E := E) hin (hstd g (by simp [hm])) s stdin).2 _ (h1 g hg)).1
      · simp [hm, hg, h1 g hg]

/-- **C107**, file by file: a run in place that does not fail leaves each named file as the run for this file alone does, and all other files alone. -/
theorem C107_each {E : Env} {a : CliArgs} (hin : a.inPlace = true) (hne : a.filenames ≠ []) (hnd : a.filenames.Nodup) (hstd : "-".toList ∉ a.filenames) (fs : FS) (stdin : Stdin)
    (hok : (cliMain E a fs stdin).code ≠ 1) (g : Str) :
    filesAfter E a stdin fs g = if g ∈ a.filenames then filesAfter E (CliArgs.one a g) stdin fs g else fs g := by
  rw [(C107_separate hin hne hnd hstd fs stdin).2.2 hok]
  exact oneByOne_at hin stdin _ _ hnd (fun f hf e => hstd (by rw [e] at hf; exact hf)) g

/-- **C107**, the order: a run in place for the same files in another order has the same exit code, and leaves the same files if it does not fail. -/
theorem C107_order {E : Env} {a : CliArgs} (hin : a.inPlace = true) (hnd : a.filenames.Nodup) (hstd : "-".toList ∉ a.filenames) {l : List Str} (hl : l.Perm a.filenames)
    (fs : FS) (stdin : Stdin) :
    (cliMain E { a with filenames := l } fs stdin).code = (cliMain E a fs stdin).code ∧
    ((cliMain E a fs stdin).code ≠ 1 → filesAfter E { a with filenames := l } stdin fs = filesAfter E a stdin fs) := by
  by_cases hne : a.filenames = []
  · have : l = [] := by rw [hne] at hl; exact hl.eq_nil
    have h : ({ a with filenames := l } : CliArgs) = a := by rw [this, ← hne]
    rw [h]
    exact ⟨rfl, fun _ => rfl⟩
  · have hin' : ({ a with filenames := l } : CliArgs).inPlace = true := hin
    have hne' : l ≠ [] := fun h => hne (by rw [h] at hl; exact hl.symm.eq_nil)
    have hnd' : l.Nodup := hl.nodup_iff.mpr hnd
    have hstd' : "-".toList ∉ l := fun h => hstd (hl.mem_iff.mp h)
    have hone : ∀ f, CliArgs.one { a with filenames := l } f = CliArgs.one a f := fun _ => rfl
    have A := C107_separate (E := E) hin hne hnd hstd fs stdin
    have B := C107_separate (E := E) (a := { a with filenames := l }) hin' hne' hnd' hstd' fs stdin
    simp only [hone, hl.mem_iff] at B
    have e1 := B.1.trans A.1.symm
    have e128 := B.2.1.trans A.2.1.symm
    have hcodes : ∀ c : CliArgs, (cliMain E c fs stdin).code = 0 ∨ (cliMain E c fs stdin).code = 1 ∨ (cliMain E c fs stdin).code = 128 := fun c => C46_codes E c fs stdin
    have hcode : (cliMain E { a with filenames := l } fs stdin).code = (cliMain E a fs stdin).code := by
      rcases hcodes { a with filenames := l } with h | h | h
      · rcases hcodes a with k | k | k
        · rw [h, k]
        · rw [e1.mpr k] at h; simp at h
        · rw [e128.mpr k] at h; simp at h
      · rw [h, e1.mp h]
      · rw [h, e128.mp h]
    refine ⟨hcode, fun hok => ?_⟩
    funext g
    rw [C107_each hin hne hnd hstd fs stdin hok g, C107_each (a := { a with filenames := l }) hin' hne' hnd' hstd' fs stdin (by rw [hcode]; exact hok) g]
    simp only [hone, hl.mem_iff]

/-- **C107** for printed tables: without `--in-place` the files may be named more than once. The command fails exactly if the command for one of the files alone fails, has the exit code 128
exactly if none fails and one of them has the exit code 128, and prints, if it does not fail, what the commands for one file after the other print. -/
theorem C107_print {E : Env} {a : CliArgs} (hin : a.inPlace = false) (hne : a.filenames ≠ []) (hstd : "-".toList ∉ a.filenames) (fs : FS) (stdin : Stdin) :
    ((cliMain E a fs stdin).code = 1 ↔ ∃ f ∈ a.filenames, (cliMain E (CliArgs.one a f) fs stdin).code = 1) ∧
    ((cliMain E a fs stdin).code = 128 ↔ (∀ f ∈ a.filenames, (cliMain E (CliArgs.one a f) fs stdin).code ≠ 1) ∧
      ∃ f ∈ a.filenames, (cliMain E (CliArgs.one a f) fs stdin).code = 128) ∧
    ((cliMain E a fs stdin).code ≠ 1 → (cliMain E a fs stdin).out = (a.filenames.map fun f => (cliMain E (CliArgs.one a f) fs stdin).out).flatten) := by
  have hnames : namesOf a = a.filenames := by unfold namesOf; rw [if_neg hne]
  have hstd' : ∀ f ∈ a.filenames, f ≠ stdinName := fun f hf e => hstd (by rw [e] at hf; exact hf)
  cases hbm : buildMultipleTocs E a.options fs stdin a.filenames with
  | error e =>
    have hcode : (cliMain E a fs stdin).code = 1 := by rw [C46_build_fails hbm]
    have hno : ∃ f ∈ a.filenames, ∃ e, buildToc E a.options f (fs f) = .error e := by
      by_contra hc
      have hall : ∀ f ∈ a.filenames, ∃ out, buildToc E a.options f (fs f) = .ok out := by
        intro f hf
        cases hb : buildToc E a.options f (fs f) with
        | ok out => exact ⟨out, rfl⟩
        | error e => exact absurd ⟨f, hf, e, hb⟩ hc
      have : ∃ tocs : List Str, a.filenames.length = tocs.length ∧ ∀ p ∈ a.filenames.zip tocs, buildToc E a.options p.1 (fs p.1) = .ok p.2 := by
        clear hne hstd hnames hstd' hbm hcode hc
        generalize a.filenames = l at hall
        induction l with
        | nil => exact ⟨[], by simp⟩
        | cons f t ih =>
          obtain ⟨out, ho⟩ := hall f (by simp)
          obtain ⟨tocs, h1, h2⟩ := ih (fun g hg => hall g (by simp [hg]))
          refine ⟨out :: tocs, by simp [h1], ?_⟩
          intro p hp
          rcases List.mem_cons.mp (by simpa using hp) with rfl | hp
          · exact ho
          · exact h2 p hp
      obtain ⟨tocs, h⟩ := this
      rw [(tables_iff hnames hstd fs stdin tocs).mpr h] at hbm
      simp at hbm
    obtain ⟨f, hf, e', hb⟩ := hno
    have h1 := (one_fails (hstd' f hf) stdin hb).1
    exact ⟨⟨fun _ => ⟨f, hf, h1⟩, fun _ => hcode⟩, ⟨fun h => by rw [hcode] at h; simp at h, fun h => absurd h1 (h.1 f hf)⟩, fun h => absurd hcode h⟩
  | ok tocs =>
    obtain ⟨hlen, hbs⟩ := (tables_iff hnames hstd fs stdin tocs).mp hbm
    have hfst : (a.filenames.zip tocs).map Prod.fst = a.filenames := List.map_fst_zip (by omega)
    have hsnd : (a.filenames.zip tocs).map Prod.snd = tocs := List.map_snd_zip (by omega)
    have hmem : ∀ p ∈ a.filenames.zip tocs, p.1 ∈ a.filenames := fun p hp => by rw [← hfst]; exact List.mem_map.mpr ⟨p, hp, rfl⟩
    have hex : ∀ f ∈ a.filenames, ∃ p ∈ a.filenames.zip tocs, p.1 = f := fun f hf => by
      rw [← hfst] at hf
      obtain ⟨p, hp, e⟩ := List.mem_map.mp hf
      exact ⟨p, hp, e⟩
    obtain ⟨p1, p2, p3, -⟩ := C46_print hin hbm
    rw [hnames] at p1 p2
    -- the commands for one file
    have hone : ∀ p ∈ a.filenames.zip tocs,
        ((cliMain E (CliArgs.one a p.1) fs stdin).code = 1 ↔ a.diff = true ∧ ∃ e, tocsEqual E p.2 (fs p.1) a.tocMarker = .error e) ∧
        ((cliMain E (CliArgs.one a p.1) fs stdin).code = 128 ↔ a.diff = true ∧ tocsEqual E p.2 (fs p.1) a.tocMarker = .ok false) ∧
        ((cliMain E (CliArgs.one a p.1) fs stdin).code ≠ 1 → (cliMain E (CliArgs.one a p.1) fs stdin).out = p.2) := by
      intro p hp
      have hm : buildMultipleTocs E (CliArgs.one a p.1).options fs stdin (CliArgs.one a p.1).filenames = .ok [p.2] := by
        change buildMultipleTocs E a.options fs stdin [p.1] = .ok [p.2]
        unfold buildMultipleTocs defaultNames
        simp only [List.length_cons, List.length_nil, Nat.zero_add, Nat.one_ne_zero, if_false, buildTocs, if_neg (hstd' _ (hmem p hp)), bind, Except.bind, hbs p hp]
      obtain ⟨q1, q2, q3, -⟩ := C46_print (a := CliArgs.one a p.1) hin hm
      have hn : namesOf (CliArgs.one a p.1) = [p.1] := rfl
      have hd : (CliArgs.one a p.1).diff = a.diff := rfl
      have hmk : (CliArgs.one a p.1).tocMarker = a.tocMarker := rfl
      rw [hn, hd, hmk] at q1 q2
      simp only [List.zip_cons_cons, List.zip_nil_right, List.mem_singleton, exists_eq_left, forall_eq] at q1 q2
      refine ⟨q1, q2.trans ⟨fun h => ⟨h.1, h.2.2⟩, fun h => ⟨h.1, ⟨_, h.2⟩, h.2⟩⟩, fun h => ?_⟩
      rw [q3 h]
      simp
    refine ⟨p1.trans ⟨?_, ?_⟩, p2.trans ⟨?_, ?_⟩, fun h => ?_⟩
    · rintro ⟨hd, p, hp, h⟩
      exact ⟨p.1, hmem p hp, (hone p hp).1.mpr ⟨hd, h⟩⟩
    · rintro ⟨f, hf, h⟩
      obtain ⟨p, hp, rfl⟩ := hex f hf
      obtain ⟨hd, he⟩ := (hone p hp).1.mp h
      exact ⟨hd, p, hp, he⟩
    · rintro ⟨hd, hall, p, hp, h⟩
      refine ⟨fun f hf h1 => ?_, p.1, hmem p hp, (hone p hp).2.1.mpr ⟨hd, h⟩⟩
      obtain ⟨q, hq, rfl⟩ := hex f hf
      obtain ⟨-, e, he⟩ := (hone q hq).1.mp h1
      obtain ⟨b, hb⟩ := hall q hq
      rw [hb] at he
      simp at he
    · rintro ⟨hall, f, hf, h⟩
      obtain ⟨p, hp, rfl⟩ := hex f hf
      obtain ⟨hd, he⟩ := (hone p hp).2.1.mp h
      refine ⟨hd, fun q hq => ?_, p, hp, he⟩
      cases hb : tocsEqual E q.2 (fs q.1) a.tocMarker with
      | ok b => exact ⟨b, rfl⟩
      | error e => exact absurd ((hone q hq).1.mpr ⟨hd, e, hb⟩) (hall q.1 (hmem q hq))
    · have hall : ∀ p ∈ a.filenames.zip tocs, (cliMain E (CliArgs.one a p.1) fs stdin).code ≠ 1 := fun p hp h1 =>
        h (p1.mpr ⟨((hone p hp).1.mp h1).1, p, hp, ((hone p hp).1.mp h1).2⟩)
      rw [p3 h]
      have : a.filenames.map (fun f => (cliMain E (CliArgs.one a f) fs stdin).out) = tocs := by
        conv_lhs => rw [← hfst]
        conv_rhs => rw [← hsnd]
        rw [List.map_map]
        exact List.map_congr_left (fun p hp => (hone p hp).2.2 (hall p hp))
      rw [this]

namespace SeparateCase

/-! Two files with a marker, and one with a heading that has no anchor on GitHub. -/

def fa : Str := "a.md".toList
def fb : Str := "b.md".toList
def fc : Str := "c.md".toList
def aa : CliArgs := { filenames := [fa, fb], inPlace := true, diff := true }
def sa : FS := fun g => if g = fa then some ⟨"<!--TOC-->\n# a\n".toList, false⟩ else
  if g = fb then some ⟨"<!--TOC-->\n\n- [b](#b)\n\n<!--TOC-->\n# b\n".toList, false⟩ else if g = fc then some ⟨"<!--TOC-->\n# aĀ\n".toList, false⟩ else none

/-- One file is out of date and the other one is not: the hypotheses are met, the run has the exit code 128, and so has the run with the names swapped. -/
example : (cliMain asciiEnv aa sa none).code = 128 ∧ (cliMain asciiEnv (CliArgs.one aa fa) sa none).code = 128 ∧ (cliMain asciiEnv (CliArgs.one aa fb) sa none).code = 0 ∧
    (cliMain asciiEnv { aa with filenames := [fb, fa] } sa none).code = 128 ∧ filesAfter asciiEnv { aa with filenames := [fb, fa] } none sa = filesAfter asciiEnv aa none sa := by
  have h1 : (cliMain asciiEnv aa sa none).code = 128 := by decide +kernel
  have h := C107_order (E := asciiEnv) (a := aa) rfl (by decide) (by decide) (l := [fb, fa]) (List.Perm.swap _ _ _) sa none
  exact ⟨h1, by decide +kernel, by decide +kernel, by rw [h.1, h1], h.2 (by rw [h1]; decide)⟩

/-- What the run makes of the first file is what the run for it alone does. -/
example : filesAfter asciiEnv aa none sa fa = some ⟨"<!--TOC-->\n\n- [a](#a)\n\n<!--TOC-->\n# a\n".toList, false⟩ := by
  rw [C107_each (E := asciiEnv) (a := aa) rfl (by decide) (by decide) (by decide) sa none (by decide +kernel) fa]
  decide +kernel

/-- A run that fails for the third file fails for all. -/
example : (cliMain asciiEnv { aa with filenames := [fa, fb, fc] } sa none).code = 1 :=
  (C107_separate (E := asciiEnv) (a := { aa with filenames := [fa, fb, fc] }) rfl (by decide) (by decide) (by decide) sa none).1.mpr ⟨fc, by decide, by decide +kernel⟩

/-- Without `--in-place` and with a file named twice. -/
example : (cliMain asciiEnv { aa with inPlace := false, filenames := [fa, fb, fa] } sa none).out = "- [a](#a)\n- [b](#b)\n- [a](#a)\n".toList ∧
    (cliMain asciiEnv { aa with inPlace := false, filenames := [fa, fb, fa] } sa none).code = 128 := by
  obtain ⟨-, h2, h3⟩ := C107_print (E := asciiEnv) (a := { aa with inPlace := false, filenames := [fa, fb, fa] }) rfl (by decide) (by decide) sa none
  have hc := h2.mpr ⟨by decide +kernel, fa, by decide, by decide +kernel⟩
  refine ⟨?_, hc⟩
  rw [h3 (by rw [hc]; decide)]
  decide +kernel

end SeparateCase

/-- **C107** needs the run not to fail: the run for three files that fails changes nothing, the runs for one file after the other change the first file. -/
theorem C107_failed : ∃ (E : Env) (a : CliArgs) (fs : FS), a.inPlace = true ∧ a.filenames.Nodup ∧ "-".toList ∉ a.filenames ∧ (cliMain E a fs none).code = 1 ∧
    filesAfter E a none fs ≠ oneByOne E a none fs a.filenames := by
  refine ⟨asciiEnv, { SeparateCase.aa with filenames := [SeparateCase.fa, SeparateCase.fb, SeparateCase.fc] }, SeparateCase.sa, rfl, by decide, by decide, by decide +kernel, ?_⟩
  intro h
  have h' := congrFun h SeparateCase.fa
  revert h'
  decide +kernel

end MdToc.Props
