import Verif.Commands
import Verif.Props.Concurrent
import Verif.Props.ProjectHistory

/-!
# Whole commands at the same time: C110
-/

set_option linter.unusedSimpArgs false

namespace MdToc.Props

open MdToc.Spec

/-! ### A command alone -/

theorem cmd_add (E : Env) (m n : Nat) (fs : FS) (c : Cmd) : Cmd.alone E (m + n) fs c = Cmd.alone E n (Cmd.alone E m fs c).1 (Cmd.alone E m fs c).2 := by
  induction m generalizing fs c with
  | zero => rw [Nat.zero_add]; rfl
  | succ m ih =>
    rw [show m + 1 + n = (m + n) + 1 by omega]
    exact ih _ _

theorem cmd_one (E : Env) (fs : FS) (c : Cmd) : Cmd.alone E 1 fs c = c.step E fs := rfl

theorem cmd_done {E : Env} {fs : FS} {c : Cmd} {k : Nat} {o : Str} (h : c.stage = .done k o) (n : Nat) : Cmd.alone E n fs c = (fs, c) := by
  induction n with
  | zero => rfl
  | succ n ih =>
    have : c.step E fs = (fs, c) := by unfold Cmd.step; rw [h]
    unfold Cmd.alone
    rw [this]; exact ih

/-- The command ends after some steps with this exit code, this text and these files. -/
def EndsWith (E : Env) (fs : FS) (c : Cmd) (code : Nat) (out : Str) (fs' : FS) : Prop :=
  ∃ k, (Cmd.alone E k fs c).1 = fs' ∧ (Cmd.alone E k fs c).2.stage = .done code out

theorem EndsWith.step {E : Env} {fs : FS} {c : Cmd} {fs1 : FS} {c1 : Cmd} {code : Nat} {out : Str} {fs' : FS} (h : c.step E fs = (fs1, c1)) (h1 : EndsWith E fs1 c1 code out fs') :
    EndsWith E fs c code out fs' := by
  obtain ⟨k, e⟩ := h1
  refine ⟨k + 1, ?_⟩
  unfold Cmd.alone
  rw [h]
  exact e

theorem ends_print {E : Env} {fs : FS} (a : CliArgs) (i : Stdin) : ∀ (l : List (Str × Str)) (eq : Bool) (out : Str),
    EndsWith E fs ⟨a, i, .print l eq out⟩ (match (printLoop E fs a.diff a.tocMarker l eq).1 with | .error _ => 1 | .ok b => exitCode a b) (out ++ (printLoop E fs a.diff a.tocMarker l eq).2) fs := by
  intro l
  induction l with
  | nil =>
    intro eq out
    refine ⟨1, rfl, ?_⟩
    simp [Cmd.alone, Cmd.step, printLoop]
  | cons x t ih =>
    intro eq out
    obtain ⟨f, toc⟩ := x
    cases hd : a.diff with
    | false =>
      have hs : Cmd.step E fs ⟨a, i, .print ((f, toc) :: t) eq out⟩ = (fs, ⟨a, i, .print t eq (out ++ toc)⟩) := by
        simp [Cmd.step, hd]
      have := ih eq (out ++ toc)
      rw [hd] at this
      refine EndsWith.step hs ?_
      simpa [printLoop, List.append_assoc] using this
    | true =>
      cases hq : tocsEqual E toc (fs f) a.tocMarker with
      | error e =>
        have hs : Cmd.step E fs ⟨a, i, .print ((f, toc) :: t) eq out⟩ = (fs, ⟨a, i, .done 1 (out ++ toc)⟩) := by
          simp [Cmd.step, hd, hq]
        refine EndsWith.step hs ⟨0, rfl, ?_⟩
        simp [Cmd.alone, printLoop, hq]
      | ok b =>
        have hs : Cmd.step E fs ⟨a, i, .print ((f, toc) :: t) eq out⟩ = (fs, ⟨a, i, .print t (eq && b) (out ++ toc)⟩) := by
          simp [Cmd.step, hd, hq]
        have := ih (eq && b) (out ++ toc)
        rw [hd] at this
        refine EndsWith.step hs ?_
        simpa [printLoop, hq, List.append_assoc] using this

theorem cmd_write {E : Env} (a : CliArgs) (i : Stdin) : ∀ (k : Nat) (fs : FS) (p : Proc), ∃ j, Cmd.alone E j fs ⟨a, i, .write p⟩ = ((Proc.alone E k fs p).1, ⟨a, i, .write (Proc.alone E k fs p).2⟩) := by
  intro k
  induction k with
  | zero => intro fs p; exact ⟨0, rfl⟩
  | succ k ih =>
    intro fs p
    cases hr : p.result with
    | some r =>
      refine ⟨0, ?_⟩
      rw [alone_finished hr]
      rfl
    | none =>
      obtain ⟨j, hj⟩ := ih (p.step E fs).1 (p.step E fs).2
      refine ⟨j + 1, ?_⟩
      unfold Cmd.alone Proc.alone
      have hs : Cmd.step E fs ⟨a, i, .write p⟩ = ((p.step E fs).1, ⟨a, i, .write (p.step E fs).2⟩) := by
        simp [Cmd.step, hr]
      rw [hs]
      exact hj

theorem ends_write {E : Env} (a : CliArgs) (i : Stdin) (fs : FS) (p : Proc) (hp : p.Fresh) :
    EndsWith E fs ⟨a, i, .write p⟩ (match (writeLoop E p.marker p.newline fs p.todo true).1 with | .error _ => 1 | .ok b => exitCode a b) []
      (((writeLoop E p.marker p.newline fs p.todo true).2.getLast?).getD fs) := by
  obtain ⟨k, h, -⟩ := C82_alone E p hp fs
  obtain ⟨h1, h2⟩ := h k (Nat.le_refl _)
  obtain ⟨j, hj⟩ := cmd_write (E := E) a i k fs p
  refine ⟨j + 1, ?_⟩
  rw [cmd_add, hj, cmd_one, ← h2]
  unfold Cmd.step
  simp only [h1]
  cases (writeLoop E p.marker p.newline fs p.todo true).1 <;> exact ⟨rfl, rfl⟩

theorem buildTocs_next {E : Env} (a : CliArgs) (fs : FS) (f : Str) (t : List Str) (i : Stdin) :
    buildTocs E a.options fs (f :: t) i = (match buildNext E a fs i f with
      | (.error e, _) => .error e
      | (.ok toc, i') => (buildTocs E a.options fs t i').map fun r => toc :: r) := by
  unfold buildNext
  simp only [buildTocs]
  by_cases hf : f = stdinName
  · simp only [hf, if_true]
    by_cases hk : a.options.skipLines ≥ 0
    · simp only [hk, not_true, if_false]
      cases i with
      | none => rfl
      | some src =>
        simp only [bind, Except.bind]
        cases buildToc E a.options stdinName (some src) with
        | error e => rfl
        | ok x =>
          simp only
          cases buildTocs E a.options fs t none <;> rfl
    · simp only [hk, not_false_eq_true, if_true]
  · simp only [hf, if_false, bind, Except.bind]
    cases buildToc E a.options f (fs f) with
    | error e => rfl
    | ok x =>
      simp only
      cases buildTocs E a.options fs t i <;> rfl

theorem ends_build {E : Env} {fs : FS} (a : CliArgs) : ∀ (l : List Str) (i : Stdin) (tocs : List Str),
    (∀ e, buildTocs E a.options fs l i = .error e → EndsWith E fs ⟨a, i, .build l tocs⟩ 1 [] fs) ∧
    ∀ r, buildTocs E a.options fs l i = .ok r → ∃ i', ∀ code out fs', EndsWith E fs ⟨a, i', .build [] (tocs ++ r)⟩ code out fs' → EndsWith E fs ⟨a, i, .build l tocs⟩ code out fs' := by
  intro l
  induction l with
  | nil =>
    intro i tocs
    refine ⟨fun e h => by simp [buildTocs] at h, fun r h => ⟨i, fun code out fs' h' => ?_⟩⟩
    simp [buildTocs] at h
    subst h
    simpa using h'
  | cons f t ih =>
    intro i tocs
    rw [buildTocs_next]
    cases hn : buildNext E a fs i f with
    | mk x i' =>
      cases x with
      | error e =>
        have hs : Cmd.step E fs ⟨a, i, .build (f :: t) tocs⟩ = (fs, ⟨a, i', .done 1 []⟩) := by
          simp [Cmd.step, hn]
        exact ⟨fun _ _ => EndsWith.step hs ⟨0, rfl, rfl⟩, fun r h => by simp at h⟩
      | ok toc =>
        have hs : Cmd.step E fs ⟨a, i, .build (f :: t) tocs⟩ = (fs, ⟨a, i', .build t (tocs ++ [toc])⟩) := by
          simp [Cmd.step, hn]
        obtain ⟨i1, i2⟩ := ih i' (tocs ++ [toc])
        constructor
        · intro e h
          refine EndsWith.step hs ?_
          cases hb : buildTocs E a.options fs t i' with
          | error e' => exact i1 e' hb
          | ok r => simp [hb, Except.map] at h
        · intro r h
          cases hb : buildTocs E a.options fs t i' with
          | error e' => simp [hb, Except.map] at h
          | ok r' =>
            simp only [hb, Except.map, Except.ok.injEq] at h
            subst h
            obtain ⟨j, hj⟩ := i2 r' hb
            exact ⟨j, fun code out fs' h' => EndsWith.step hs (hj code out fs' (by simpa [List.append_assoc] using h'))⟩

/-- **C110**: a command that runs alone ends after finitely many steps, with the exit code, the printed text and the files of the sequential model (`cliMain`). -/
theorem C110_alone (E : Env) (a : CliArgs) (stdin : Stdin) (fs : FS) :
    ∃ k, ∀ j ≥ k, (Cmd.alone E j fs (Cmd.start a stdin)).1 = filesAfter E a stdin fs ∧
      (Cmd.alone E j fs (Cmd.start a stdin)).2.stage = .done (cliMain E a fs stdin).code (cliMain E a fs stdin).out := by
  have main : EndsWith E fs (Cmd.start a stdin) (cliMain E a fs stdin).code (cliMain E a fs stdin).out (filesAfter E a stdin fs) := by
    obtain ⟨b1, b2⟩ := ends_build (E := E) (fs := fs) a (defaultNames a.filenames) stdin []
    cases hb : buildTocs E a.options fs (defaultNames a.filenames) stdin with
    | error e =>
      have hm : cliMain E a fs stdin = ⟨1, [], []⟩ := C46_build_fails (e := e) hb
      unfold filesAfter
      rw [hm]
      exact b1 e hb
    | ok tocs =>
      obtain ⟨i', hi⟩ := b2 tocs hb
      refine hi _ _ _ ?_
      have hm : buildMultipleTocs E a.options fs stdin a.filenames = .ok tocs := hb
      have hlen : (defaultNames a.filenames).length = tocs.length := by
        rw [defaultNames_eq]
        exact tocs_length hm
      cases hp : a.inPlace with
      | true =>
        have hs : Cmd.step E fs ⟨a, i', .build [] ([] ++ tocs)⟩ = (fs, ⟨a, i', .write { marker := a.tocMarker, newline := cliNewline a.newline, todo := (defaultNames a.filenames).zip tocs }⟩) := by
          simp [Cmd.step, hp]
        refine EndsWith.step hs ?_
        have h := ends_write (E := E) a i' fs { marker := a.tocMarker, newline := cliNewline a.newline, todo := (defaultNames a.filenames).zip tocs } ⟨rfl, rfl, rfl⟩
        simp only at h
        have hw : writeStrings E fs (defaultNames a.filenames) tocs a.tocMarker (cliNewline a.newline) =
            writeLoop E a.tocMarker (cliNewline a.newline) fs ((defaultNames a.filenames).zip tocs) true := by
          unfold writeStrings
          rw [if_neg (by simpa using hlen)]
        unfold filesAfter cliMain writeToc
        simp only [hm, hp, if_true, hw]
        cases hr : writeLoop E a.tocMarker (cliNewline a.newline) fs ((defaultNames a.filenames).zip tocs) true with
        | mk x tr =>
          rw [hr] at h
          cases x with
          | error e => exact h
          | ok b => exact h
      | false =>
        have hs : Cmd.step E fs ⟨a, i', .build [] ([] ++ tocs)⟩ = (fs, ⟨a, i', .print ((defaultNames a.filenames).zip tocs) true []⟩) := by
          simp [Cmd.step, hp]
        refine EndsWith.step hs ?_
        have h := ends_print (E := E) (fs := fs) a i' ((defaultNames a.filenames).zip tocs) true []
        unfold filesAfter cliMain writeToc
        simp only [hm, hp, Bool.false_eq_true, if_false]
        cases hr : printLoop E fs a.diff a.tocMarker ((defaultNames a.filenames).zip tocs) true with
        | mk x o =>
          rw [hr] at h
          cases x with
          | error e => exact h
          | ok b => exact h
  obtain ⟨k, h1, h2⟩ := main
  refine ⟨k, fun j hj => ?_⟩
  rw [show j = k + (j - k) by omega, cmd_add, cmd_done h2]
  exact ⟨h1, h2⟩

theorem print_states {E : Env} (j : Nat) : ∀ (fs : FS) (a : CliArgs) (i : Stdin) (l : List (Str × Str)) (eq : Bool) (out : Str), (Cmd.alone E j fs ⟨a, i, .print l eq out⟩).1 = fs := by
  induction j with
  | zero => intros; rfl
  | succ j ih =>
    intro fs a i l eq out
    unfold Cmd.alone
    cases l with
    | nil =>
      have hs : Cmd.step E fs ⟨a, i, .print [] eq out⟩ = (fs, ⟨a, i, .done (exitCode a eq) out⟩) := rfl
      rw [hs]
      simp only
      rw [cmd_done (k := exitCode a eq) (o := out) rfl]
    | cons x t =>
      obtain ⟨f, toc⟩ := x
      cases hd : a.diff with
      | false =>
        have hs : Cmd.step E fs ⟨a, i, .print ((f, toc) :: t) eq out⟩ = (fs, ⟨a, i, .print t eq (out ++ toc)⟩) := by simp [Cmd.step, hd]
        rw [hs]
        exact ih _ _ _ _ _ _
      | true =>
        cases hq : tocsEqual E toc (fs f) a.tocMarker with
        | error e =>
          have hs : Cmd.step E fs ⟨a, i, .print ((f, toc) :: t) eq out⟩ = (fs, ⟨a, i, .done 1 (out ++ toc)⟩) := by simp [Cmd.step, hd, hq]
          rw [hs]
          simp only
          rw [cmd_done (k := 1) (o := out ++ toc) rfl]
        | ok b =>
          have hs : Cmd.step E fs ⟨a, i, .print ((f, toc) :: t) eq out⟩ = (fs, ⟨a, i, .print t (eq && b) (out ++ toc)⟩) := by simp [Cmd.step, hd, hq]
          rw [hs]
          exact ih _ _ _ _ _ _

theorem write_states {E : Env} (j : Nat) : ∀ (fs : FS) (a : CliArgs) (i : Stdin) (p : Proc), ∃ k, (Cmd.alone E j fs ⟨a, i, .write p⟩).1 = (Proc.alone E k fs p).1 := by
  induction j with
  | zero => intro fs a i p; exact ⟨0, rfl⟩
  | succ j ih =>
    intro fs a i p
    unfold Cmd.alone
    cases hr : p.result with
    | none =>
      have hs : Cmd.step E fs ⟨a, i, .write p⟩ = ((p.step E fs).1, ⟨a, i, .write (p.step E fs).2⟩) := by simp [Cmd.step, hr]
      obtain ⟨k, hk⟩ := ih (p.step E fs).1 a i (p.step E fs).2
      refine ⟨k + 1, ?_⟩
      rw [hs]
      exact hk
    | some r =>
      refine ⟨0, ?_⟩
      cases r with
      | error e =>
        have hs : Cmd.step E fs ⟨a, i, .write p⟩ = (fs, ⟨a, i, .done 1 []⟩) := by simp [Cmd.step, hr]
        rw [hs]
        simp only
        rw [cmd_done (k := 1) (o := []) rfl]
        rfl
      | ok b =>
        have hs : Cmd.step E fs ⟨a, i, .write p⟩ = (fs, ⟨a, i, .done (exitCode a b) []⟩) := by simp [Cmd.step, hr]
        rw [hs]
        simp only
        rw [cmd_done (k := exitCode a b) (o := []) rfl]
        rfl

theorem build_states {E : Env} (j : Nat) : ∀ (fs : FS) (a : CliArgs) (l : List Str) (i : Stdin) (tocs : List Str), (Cmd.alone E j fs ⟨a, i, .build l tocs⟩).1 = fs ∨
    (a.inPlace = true ∧ ∃ r, buildTocs E a.options fs l i = .ok r ∧
      ∃ k, (Cmd.alone E j fs ⟨a, i, .build l tocs⟩).1 = (Proc.alone E k fs { marker := a.tocMarker, newline := cliNewline a.newline, todo := (defaultNames a.filenames).zip (tocs ++ r) }).1) := by
  induction j with
  | zero => intros; exact .inl rfl
  | succ j ih =>
    intro fs a l i tocs
    unfold Cmd.alone
    cases l with
    | nil =>
      cases hp : a.inPlace with
      | true =>
        have hs : Cmd.step E fs ⟨a, i, .build [] tocs⟩ = (fs, ⟨a, i, .write { marker := a.tocMarker, newline := cliNewline a.newline, todo := (defaultNames a.filenames).zip tocs }⟩) := by
          simp [Cmd.step, hp]
        rw [hs]
        obtain ⟨k, hk⟩ := write_states (E := E) j fs a i { marker := a.tocMarker, newline := cliNewline a.newline, todo := (defaultNames a.filenames).zip tocs }
        exact .inr ⟨rfl, [], by simp [buildTocs], k, by simpa using hk⟩
      | false =>
        have hs : Cmd.step E fs ⟨a, i, .build [] tocs⟩ = (fs, ⟨a, i, .print ((defaultNames a.filenames).zip tocs) true []⟩) := by
          simp [Cmd.step, hp]
        rw [hs]
        exact .inl (print_states j _ _ _ _ _ _)
    | cons f t =>
      rw [buildTocs_next]
      cases hn : buildNext E a fs i f with
      | mk x i' =>
        cases x with
        | error e =>
          have hs : Cmd.step E fs ⟨a, i, .build (f :: t) tocs⟩ = (fs, ⟨a, i', .done 1 []⟩) := by simp [Cmd.step, hn]
          rw [hs]
          simp only
          rw [cmd_done (k := 1) (o := []) rfl]
          exact .inl rfl
        | ok toc =>
          have hs : Cmd.step E fs ⟨a, i, .build (f :: t) tocs⟩ = (fs, ⟨a, i', .build t (tocs ++ [toc])⟩) := by simp [Cmd.step, hn]
          rw [hs]
          rcases ih fs a t i' (tocs ++ [toc]) with h | ⟨h1, r, h2, k, h3⟩
          · exact .inl h
          · exact .inr ⟨h1, toc :: r, by simp [h2, Except.map], k, by simpa [List.append_assoc] using h3⟩

/-- **C110**: a command that runs alone and is stopped at any time leaves the files as they were or in one of the successive states of the sequential model. -/
theorem C110_stopped (E : Env) (a : CliArgs) (stdin : Stdin) (fs : FS) (j : Nat) : (Cmd.alone E j fs (Cmd.start a stdin)).1 ∈ fs :: (cliMain E a fs stdin).trace := by
  rcases build_states (E := E) j fs a (defaultNames a.filenames) stdin [] with h | ⟨hp, tocs, hb, k, h⟩
  · unfold Cmd.start
    rw [h]
    simp
  · unfold Cmd.start
    rw [h]
    have hm : buildMultipleTocs E a.options fs stdin a.filenames = .ok tocs := hb
    have hlen : (defaultNames a.filenames).length = tocs.length := by
      rw [defaultNames_eq]
      exact tocs_length hm
    have hw : writeStrings E fs (defaultNames a.filenames) tocs a.tocMarker (cliNewline a.newline) =
        writeLoop E a.tocMarker (cliNewline a.newline) fs ((defaultNames a.filenames).zip tocs) true := by
      unfold writeStrings
      rw [if_neg (by simpa using hlen)]
    have ht : (cliMain E a fs stdin).trace = (writeLoop E a.tocMarker (cliNewline a.newline) fs ((defaultNames a.filenames).zip tocs) true).2 := by
      unfold cliMain writeToc
      simp only [hm, hp, if_true, hw]
      cases hr : writeLoop E a.tocMarker (cliNewline a.newline) fs ((defaultNames a.filenames).zip tocs) true with
      | mk x tr => cases x <;> rfl
    rw [ht, List.nil_append]
    obtain ⟨-, -, h3⟩ := C82_alone E { marker := a.tocMarker, newline := cliNewline a.newline, todo := (defaultNames a.filenames).zip tocs } ⟨rfl, rfl, rfl⟩ fs
    exact h3 k

/-! ### Commands together -/

/-- The command reads files of `R` only and writes files of `W` only from now on. -/
def _root_.MdToc.Cmd.Within (R W : List Str) (c : Cmd) : Prop :=
  W ⊆ R ∧ match c.stage with
    | .build l _ => l ⊆ R ∧ defaultNames c.args.filenames ⊆ R ∧ (c.args.inPlace = true → defaultNames c.args.filenames ⊆ W)
    | .print l _ _ => l.map Prod.fst ⊆ R
    | .write p => p.files ⊆ W
    | .done _ _ => True

theorem zip_names {l tocs : List Str} : (l.zip tocs).map Prod.fst ⊆ l := by
  intro f hf
  obtain ⟨p, hp, rfl⟩ := List.mem_map.mp hf
  exact (List.of_mem_zip hp).1

theorem buildNext_same {E : Env} {a : CliArgs} {fs fs' : FS} {i : Stdin} {f : Str} (h : fs f = fs' f) : buildNext E a fs i f = buildNext E a fs' i f := by
  unfold buildNext
  rw [h]

theorem cmd_step {E : Env} {R W : List Str} {c : Cmd} (hc : c.Within R W) (fs : FS) :
    (c.step E fs).2.Within R W ∧ (∀ f, f ∉ W → (c.step E fs).1 f = fs f) ∧
    ∀ fs' : FS, (∀ f ∈ R, fs f = fs' f) → (c.step E fs).2 = (c.step E fs').2 ∧ ∀ f ∈ R, (c.step E fs).1 f = (c.step E fs').1 f := by
  obtain ⟨hWR, hc⟩ := hc
  obtain ⟨a, i, st⟩ := c
  cases st with
  | build l tocs =>
    obtain ⟨h1, h2, h3⟩ := hc
    cases l with
    | nil =>
      cases hp : a.inPlace with
      | true =>
        simp only [Cmd.step, hp, if_true]
        exact ⟨⟨hWR, fun f hf => h3 hp (zip_names hf)⟩, fun _ _ => trivial, fun fs' h => ⟨trivial, h⟩⟩
      | false =>
        simp only [Cmd.step, hp, Bool.false_eq_true, if_false]
        exact ⟨⟨hWR, fun f hf => h2 (zip_names hf)⟩, fun _ _ => trivial, fun fs' h => ⟨trivial, h⟩⟩
    | cons f t =>
      have hf : f ∈ R := h1 (by simp)
      cases hn : buildNext E a fs i f with
      | mk x i' =>
        refine ⟨?_, ?_, ?_⟩
        · cases x with
          | error e =>
            simp only [Cmd.step, hn]
            exact ⟨hWR, trivial⟩
          | ok toc =>
            simp only [Cmd.step, hn]
            exact ⟨hWR, fun g hg => h1 (by simp [hg]), h2, h3⟩
        · intro g _
          cases x <;> simp only [Cmd.step, hn]
        · intro fs' h
          have hn' := hn
          rw [buildNext_same (h f hf)] at hn'
          cases x <;> simp only [Cmd.step, hn, hn'] <;> exact ⟨trivial, h⟩
  | print l eq out =>
    cases l with
    | nil =>
      simp only [Cmd.step]
      exact ⟨⟨hWR, trivial⟩, fun _ _ => trivial, fun fs' h => ⟨trivial, h⟩⟩
    | cons x t =>
      obtain ⟨f, toc⟩ := x
      have hf : f ∈ R := hc (by simp)
      have ht : t.map Prod.fst ⊆ R := fun g hg => hc (by rw [List.map_cons]; exact List.mem_cons_of_mem _ hg)
      cases hd : a.diff with
      | false =>
        simp only [Cmd.step, hd, Bool.false_eq_true, if_false]
        exact ⟨⟨hWR, ht⟩, fun _ _ => trivial, fun fs' h => ⟨trivial, h⟩⟩
      | true =>
        cases hq : tocsEqual E toc (fs f) a.tocMarker with
        | error e =>
          refine ⟨?_, ?_, ?_⟩
          · simp only [Cmd.step, hd, if_true, hq]
            exact ⟨hWR, trivial⟩
          · intro g _
            simp only [Cmd.step, hd, if_true, hq]
          · intro fs' h
            have hq' := hq
            rw [h f hf] at hq'
            simp only [Cmd.step, hd, if_true, hq, hq']
            exact ⟨trivial, h⟩
        | ok b =>
          refine ⟨?_, ?_, ?_⟩
          · simp only [Cmd.step, hd, if_true, hq]
            exact ⟨hWR, ht⟩
          · intro g _
            simp only [Cmd.step, hd, if_true, hq]
          · intro fs' h
            have hq' := hq
            rw [h f hf] at hq'
            simp only [Cmd.step, hd, if_true, hq, hq']
            exact ⟨trivial, h⟩
  | write p =>
    have hc' : p.files ⊆ W := hc
    cases hr : p.result with
    | none =>
      simp only [Cmd.step, hr]
      refine ⟨⟨hWR, fun g hg => hc' (step_files E fs p hg)⟩, fun g hg => step_other E fs p (fun h => hg (hc' h)), fun fs' h => ?_⟩
      obtain ⟨e1, e2⟩ := step_same E p (F := R) (fun g hg => hWR (hc' hg)) h
      exact ⟨by rw [e1], e2⟩
    | some r =>
      cases r <;> simp only [Cmd.step, hr] <;> exact ⟨⟨hWR, trivial⟩, fun _ _ => trivial, fun fs' h => ⟨trivial, h⟩⟩
  | done k o =>
    simp only [Cmd.step]
    exact ⟨⟨hWR, trivial⟩, fun _ _ => trivial, fun fs' h => ⟨trivial, h⟩⟩

theorem cmd_alone_same {E : Env} {R W : List Str} (n : Nat) : ∀ {c : Cmd} {fs fs' : FS}, c.Within R W → (∀ f ∈ R, fs f = fs' f) →
    (Cmd.alone E n fs c).2 = (Cmd.alone E n fs' c).2 ∧ ∀ f ∈ R, (Cmd.alone E n fs c).1 f = (Cmd.alone E n fs' c).1 f := by
  induction n with
  | zero => intro c fs fs' _ h; exact ⟨rfl, h⟩
  | succ n ih =>
    intro c fs fs' hc h
    obtain ⟨k1, -, k3⟩ := cmd_step (E := E) hc fs
    obtain ⟨e1, e2⟩ := k3 fs' h
    unfold Cmd.alone
    simp only
    rw [← e1]
    exact ih k1 e2

theorem runCommands_within {E : Env} (R W : Nat → List Str) (hd : ∀ i j, i ≠ j → ∀ f ∈ W i, f ∉ R j) (sched : List Nat) : ∀ (fs : FS) (cs : Nat → Cmd), (∀ i, (cs i).Within (R i) (W i)) →
    (∀ i, (runCommands E sched fs cs).2 i = (Cmd.alone E (sched.count i) fs (cs i)).2 ∧ ∀ f ∈ R i, (runCommands E sched fs cs).1 f = (Cmd.alone E (sched.count i) fs (cs i)).1 f) ∧
    ∀ f, (∀ i, f ∉ W i) → (runCommands E sched fs cs).1 f = fs f := by
  induction sched with
  | nil => intro fs cs _; exact ⟨fun i => ⟨rfl, fun _ _ => rfl⟩, fun _ _ => rfl⟩
  | cons a sched ih =>
    intro fs cs hF
    obtain ⟨s1, s2, -⟩ := cmd_step (E := E) (hF a) fs
    obtain ⟨i1, i2⟩ := ih ((cs a).step E fs).1 (fun j => if j = a then ((cs a).step E fs).2 else cs j) (fun j => by
      by_cases h : j = a
      · subst h
        rw [if_pos rfl]
        exact s1
      · rw [if_neg h]
        exact hF j)
    unfold runCommands
    simp only
    refine ⟨fun i => ?_, fun f hf => ?_⟩
    · obtain ⟨j1, j2⟩ := i1 i
      by_cases hi : i = a
      · subst hi
        simp only [if_true] at j1 j2
        rw [List.count_cons_self]
        exact ⟨j1, j2⟩
      · simp only [if_neg hi] at j1 j2
        rw [List.count_cons_of_ne (fun h => hi h.symm)]
        obtain ⟨e1, e2⟩ := cmd_alone_same (E := E) (sched.count i) (fs := ((cs a).step E fs).1) (fs' := fs) (hF i) (fun f hf => s2 f (fun h => hd a i (fun h => hi h.symm) f h hf))
        rw [← e1]
        exact ⟨j1, fun f hf => by rw [j2 f hf]; exact e2 f hf⟩
    · rw [i2 f hf, s2 f (hf a)]

/-- The files a command reads. -/
def readFiles (a : CliArgs) : List Str := namesOf a

/-- The files a command writes. -/
def writtenFiles (a : CliArgs) : List Str := if a.inPlace then namesOf a else []

theorem start_within (a : CliArgs) (stdin : Stdin) : (Cmd.start a stdin).Within (readFiles a) (writtenFiles a) := by
  have hn : defaultNames a.filenames = namesOf a := defaultNames_eq a
  refine ⟨?_, ?_⟩
  · unfold writtenFiles readFiles
    split <;> simp
  · simp only [Cmd.start, hn]
    refine ⟨fun _ h => h, fun _ h => h, fun hi => ?_⟩
    unfold writtenFiles
    rw [if_pos hi]
    exact fun _ h => h

/-- **C110**: any number of commands run at the same time, each with its own options and its own standard input, and no command names a file that another one updates. Whatever the order of their
accesses to the files is, each command which gets enough steps ends with the exit code and the printed text as if it ran alone on the files as they were at first, and its files are those that
it leaves then; files that no command updates are as before. -/
theorem C110_serial_partial (E : Env) (fs : FS) (args : Nat → CliArgs) (stdin : Nat → Stdin) (hd : ∀ i j, i ≠ j → ∀ f ∈ writtenFiles (args i), f ∉ readFiles (args j)) :
    (∀ i, ∃ k, ∀ sched : List Nat, k ≤ sched.count i →
      ((runCommands E sched fs fun j => Cmd.start (args j) (stdin j)).2 i).stage = .done (cliMain E (args i) fs (stdin i)).code (cliMain E (args i) fs (stdin i)).out ∧
      ∀ f ∈ readFiles (args i), (runCommands E sched fs fun j => Cmd.start (args j) (stdin j)).1 f = filesAfter E (args i) (stdin i) fs f) ∧
    ∀ sched f, (∀ i, f ∉ writtenFiles (args i)) → (runCommands E sched fs fun j => Cmd.start (args j) (stdin j)).1 f = fs f := by
  have key := fun sched => runCommands_within (E := E) (fun i => readFiles (args i)) (fun i => writtenFiles (args i)) hd sched fs (fun j => Cmd.start (args j) (stdin j))
    (fun i => start_within (args i) (stdin i))
  refine ⟨fun i => ?_, fun sched f hf => (key sched).2 f hf⟩
  obtain ⟨k, hk⟩ := C110_alone E (args i) (stdin i) fs
  refine ⟨k, fun sched hs => ?_⟩
  obtain ⟨e1, e2⟩ := (key sched).1 i
  obtain ⟨g1, g2⟩ := hk _ hs
  exact ⟨by rw [e1, g2], fun f hf => by rw [e2 f hf, g1]⟩

/-- **C110**: whatever the schedule is and wherever it ends, each file that a command updates is in one of the states it has while this command runs alone. -/
theorem C110_states_partial (E : Env) (fs : FS) (args : Nat → CliArgs) (stdin : Nat → Stdin) (hd : ∀ i j, i ≠ j → ∀ f ∈ writtenFiles (args i), f ∉ readFiles (args j)) (sched : List Nat) (i : Nat) :
    ∃ s ∈ fs :: (cliMain E (args i) fs (stdin i)).trace, ∀ f ∈ readFiles (args i), (runCommands E sched fs fun j => Cmd.start (args j) (stdin j)).1 f = s f := by
  have key := runCommands_within (E := E) (fun i => readFiles (args i)) (fun i => writtenFiles (args i)) hd sched fs (fun j => Cmd.start (args j) (stdin j)) (fun i => start_within (args i) (stdin i))
  exact ⟨_, C110_stopped E (args i) (stdin i) fs (sched.count i), (key.1 i).2⟩

/-- **C110**: commands without `--in-place` never disturb each other, also with the same files. -/
theorem C110_checks (E : Env) (fs : FS) (args : Nat → CliArgs) (stdin : Nat → Stdin) (hi : ∀ i, (args i).inPlace = false) :
    (∀ sched, (runCommands E sched fs fun j => Cmd.start (args j) (stdin j)).1 = fs) ∧
    ∀ i, ∃ k, ∀ sched : List Nat, k ≤ sched.count i →
      ((runCommands E sched fs fun j => Cmd.start (args j) (stdin j)).2 i).stage = .done (cliMain E (args i) fs (stdin i)).code (cliMain E (args i) fs (stdin i)).out := by
  have hw : ∀ i, writtenFiles (args i) = [] := fun i => by unfold writtenFiles; rw [hi i]; rfl
  obtain ⟨h1, h2⟩ := C110_serial_partial E fs args stdin (fun i j _ f hf => by rw [hw i] at hf; cases hf)
  refine ⟨fun sched => funext fun f => h2 sched f (fun i => by rw [hw i]; simp), fun i => ?_⟩
  obtain ⟨k, hk⟩ := h1 i
  exact ⟨k, fun sched hs => (hk sched hs).1⟩

namespace CommandsCase

open SeparateCase

/-- Two updates of different files, and checks of a third one. -/
def three (i : Nat) : CliArgs := if i = 0 then { filenames := [fa], inPlace := true } else if i = 1 then { filenames := [fb], inPlace := true } else { filenames := [fc], diff := true }

/-- The hypotheses are met: the first file has its table after each schedule in which its command gets enough steps, and is not touched before. -/
example : ∃ k, ∀ sched : List Nat, k ≤ sched.count 0 →
    (runCommands asciiEnv sched sa fun j => Cmd.start (three j) none).1 fa = some ⟨"<!--TOC-->\n\n- [a](#a)\n\n<!--TOC-->\n# a\n".toList, false⟩ := by
  obtain ⟨h, -⟩ := C110_serial_partial asciiEnv sa three (fun _ => none) (by
    intro i j hij f hf
    have h0 : ∀ i, writtenFiles (three i) = if i = 0 then [fa] else if i = 1 then [fb] else [] := by
      intro i
      unfold three writtenFiles
      split
      · rfl
      · split <;> rfl
    have h1 : ∀ i, readFiles (three i) = if i = 0 then [fa] else if i = 1 then [fb] else [fc] := by
      intro i
      unfold three readFiles
      split
      · rfl
      · split <;> rfl
    rw [h0] at hf
    rw [h1]
    by_cases i0 : i = 0
    · subst i0
      simp at hf
      subst hf
      rw [if_neg (fun h => hij h.symm)]
      split <;> decide
    · rw [if_neg i0] at hf
      by_cases i1 : i = 1
      · subst i1
        simp at hf
        subst hf
        split
        · decide
        · rw [if_neg (fun h => hij h.symm)]
          decide
      · rw [if_neg i1] at hf
        cases hf)
  obtain ⟨k, hk⟩ := h 0
  refine ⟨k, fun sched hs => ?_⟩
  rw [(hk sched hs).2 fa (by decide)]
  decide +kernel

/-- A file that is up to date. -/
def sd : FS := fun g => if g = fa then some ⟨"<!--TOC-->\n\n- [a](#a)\n\n<!--TOC-->\n# a\n".toList, false⟩ else none

/-- An update and a check of this file. -/
def two (i : Nat) : CliArgs := if i = 0 then { filenames := [fa], inPlace := true } else { filenames := [fa], diff := true }

/-- The exit code of a command that has ended. -/
def codeOf : Stage → Option Nat
  | .done k _ => some k
  | _ => none

end CommandsCase

open CommandsCase SeparateCase in
/-- **C110 fails for an update and a check of the same file**: the file is up to date before and after, the check alone has the exit code 0 and the update alone changes nothing. But in some order
of their steps the check reads the file after the update has removed the old table and before it has written the new one, and has the exit code 128. -/
theorem C110_violation : ∃ (E : Env) (fs : FS) (f : Str) (args : Nat → CliArgs) (sched : List Nat), (∀ i, (args i).filenames = [f]) ∧ (args 0).inPlace = true ∧ (args 1).inPlace = false ∧
    (cliMain E (args 1) fs none).code = 0 ∧ filesAfter E (args 0) none fs f = fs f ∧
    codeOf ((runCommands E sched fs fun j => Cmd.start (args j) none).2 0).stage = some 0 ∧ codeOf ((runCommands E sched fs fun j => Cmd.start (args j) none).2 1).stage = some 128 ∧
    (runCommands E sched fs fun j => Cmd.start (args j) none).1 f = fs f := by
  refine ⟨asciiEnv, sd, fa, two, [0, 0, 0, 0, 0, 1, 1, 1, 1, 0, 0, 0, 0], fun i => ?_, rfl, rfl, by decide +kernel, by decide +kernel, ?_, ?_, ?_⟩
  · unfold two
    split <;> rfl
  · decide +kernel
  · decide +kernel
  · decide +kernel

end MdToc.Props
