import Verif.Lemmas.Steps

/-!
# C82: several processes at the same time

Each process writes tables of contents in its files, and the schedule says which one takes the next step.
-/

set_option linter.unusedSimpArgs false

namespace MdToc

open MdToc.Spec

/-- The files of a process. -/
def Proc.files (p : Proc) : List Str := p.todo.map Prod.fst

/-- The process has not started. -/
def Proc.Fresh (p : Proc) : Prop := p.equal = true ∧ p.pc = .start ∧ p.result = none

/-- The process after a call. -/
def Proc.next (p : Proc) (t : List (Str × Str)) : Except Exn Bool → Proc
  | .ok b => { p with todo := t, equal := p.equal && b, pc := .start }
  | .error e => { p with pc := .start, result := some (.error e) }

theorem alone_add (E : Env) (m n : Nat) (fs : FS) (p : Proc) :
    Proc.alone E (m + n) fs p = Proc.alone E n (Proc.alone E m fs p).1 (Proc.alone E m fs p).2 := by
  induction m generalizing fs p with
  | zero => rw [Nat.zero_add]; rfl
  | succ m ih =>
    rw [show m + 1 + n = (m + n) + 1 by omega]
    exact ih _ _

theorem alone_finished {E : Env} {fs : FS} {p : Proc} {r : Except Exn Bool} (h : p.result = some r) (n : Nat) : Proc.alone E n fs p = (fs, p) := by
  induction n with
  | zero => rfl
  | succ n ih =>
    have : p.step E fs = (fs, p) := by unfold Proc.step; rw [h]
    unfold Proc.alone
    rw [this]; exact ih

/-- A process alone goes through a call. -/
theorem alone_write {E : Env} {p : Proc} {f s : Str} {t : List (Str × Str)} (h1 : p.result = none) (h2 : p.todo = (f, s) :: t) {l : List FS} {fs' : FS} {r : Except Exn Bool} :
    ∀ (k : Nat) (fs : FS) (pc : Pc), Goes E f s p.marker p.newline (fs, pc) l k (fs', .done r) → (∀ r, pc ≠ .done r) →
      ∃ k', Proc.alone E k' fs { p with pc := pc } = (fs', p.next t r) ∧ ∀ j ≤ k', (Proc.alone E j fs { p with pc := pc }).1 ∈ l := by
  intro k
  induction k with
  | zero =>
    intro fs pc hg hn
    have := hg.1
    simp only [writeAlone, Prod.mk.injEq] at this
    exact absurd this.2 (hn r)
  | succ k ih =>
    intro fs pc hg hn
    have hstep : Proc.step E fs { p with pc := pc } = match stepWrite E f s p.marker p.newline fs pc with
      | (fs', .done (.ok b)) => (fs', { p with todo := t, equal := p.equal && b, pc := .start })
      | (fs', .done (.error e)) => (fs', { p with pc := .start, result := some (.error e) })
      | (fs', pc) => (fs', { p with pc := pc }) := by
      unfold Proc.step
      simp only [h1, h2]
      split <;> simp_all
    have h0 : fs ∈ l := hg.2 0 (by omega)
    have hg1 : writeAlone E f s p.marker p.newline k (stepWrite E f s p.marker p.newline fs pc).1 (stepWrite E f s p.marker p.newline fs pc).2 = (fs', .done r) := hg.1
    have hg2 : ∀ j ≤ k, (writeAlone E f s p.marker p.newline j (stepWrite E f s p.marker p.newline fs pc).1 (stepWrite E f s p.marker p.newline fs pc).2).1 ∈ l :=
      fun j hj => hg.2 (j + 1) (by omega)
    cases hx : stepWrite E f s p.marker p.newline fs pc with
    | mk fs1 pc1 =>
      rw [hx] at hstep hg1 hg2
      simp only at hg1 hg2
      have hl1 : fs1 ∈ l := hg2 0 (by omega)
      by_cases hd : ∃ r', pc1 = .done r'
      · obtain ⟨r', rfl⟩ := hd
        rw [writeAlone_done] at hg1
        simp only [Prod.mk.injEq, Pc.done.injEq] at hg1
        obtain ⟨rfl, rfl⟩ := hg1
        have hs : Proc.step E fs { p with pc := pc } = (fs1, p.next t r') := by
          rw [hstep]
          cases r' <;> rfl
        refine ⟨1, ?_, fun j hj => ?_⟩
        · unfold Proc.alone Proc.alone
          rw [hs]
        · rcases (by omega : j = 0 ∨ j = 1) with rfl | rfl
          · exact h0
          · unfold Proc.alone Proc.alone
            rw [hs]; exact hl1
      · have hs : Proc.step E fs { p with pc := pc } = (fs1, { p with pc := pc1 }) := by
          rw [hstep]
          cases pc1 <;> first | rfl | exact absurd ⟨_, rfl⟩ hd
        obtain ⟨k', g1, g2⟩ := ih fs1 pc1 ⟨hg1, hg2⟩ (fun r' h => hd ⟨r', h⟩)
        refine ⟨k' + 1, ?_, fun j hj => ?_⟩
        · unfold Proc.alone
          rw [hs]; exact g1
        · cases j with
          | zero => exact h0
          | succ j =>
            unfold Proc.alone
            rw [hs]; exact g2 j (by omega)

/-- A process alone does what the sequential model says. -/
theorem alone_loop (E : Env) (todo : List (Str × Str)) : ∀ (p : Proc) (fs : FS), p.todo = todo → p.pc = .start → p.result = none →
    ∃ k, (Proc.alone E k fs p).2.result = some (writeLoop E p.marker p.newline fs todo p.equal).1 ∧
      (Proc.alone E k fs p).1 = ((writeLoop E p.marker p.newline fs todo p.equal).2.getLast?).getD fs ∧
      ∀ j ≤ k, (Proc.alone E j fs p).1 ∈ fs :: (writeLoop E p.marker p.newline fs todo p.equal).2 := by
  induction todo with
  | nil =>
    intro p fs h1 h2 h3
    have hs : p.step E fs = (fs, { p with result := some (.ok p.equal) }) := by
      unfold Proc.step
      rw [h3, h1]
    refine ⟨1, ?_, ?_, fun j hj => ?_⟩
    · unfold Proc.alone Proc.alone; rw [hs]; rfl
    · unfold Proc.alone Proc.alone; rw [hs]; rfl
    · rcases (by omega : j = 0 ∨ j = 1) with rfl | rfl
      · simp [Proc.alone]
      · unfold Proc.alone Proc.alone; rw [hs]; simp
  | cons x t ih =>
    obtain ⟨f, s⟩ := x
    intro p fs h1 h2 h3
    obtain ⟨k, -, -, hg⟩ := goes_write E f s p.marker p.newline fs
    obtain ⟨k1, g1, g2⟩ := alone_write h3 h1 k fs .start hg (by simp)
    have hp : { p with pc := .start } = p := by rw [← h2]
    rw [hp] at g1 g2
    unfold writeLoop
    unfold writeOutcome at g1 g2
    cases hw : writeString E fs f s p.marker p.newline with
    | error e =>
      rw [hw] at g1 g2
      simp only [traceFS, List.map_nil, List.getLast?_nil, Option.getD_none] at g1 g2 ⊢
      exact ⟨k1, by rw [g1]; rfl, by rw [g1], g2⟩
    | ok r =>
      obtain ⟨b, cs⟩ := r
      rw [hw] at g1 g2
      simp only at g1 g2 ⊢
      obtain ⟨k2, e1, e2, e3⟩ := ih (p.next t (.ok b)) (((traceFS fs f cs).getLast?).getD fs) rfl rfl h3
      have hm : (p.next t (.ok b)).marker = p.marker ∧ (p.next t (.ok b)).newline = p.newline ∧ (p.next t (.ok b)).equal = (p.equal && b) := ⟨rfl, rfl, rfl⟩
      rw [hm.1, hm.2.1, hm.2.2] at e1 e2 e3
      refine ⟨k1 + k2, ?_, ?_, fun j hj => ?_⟩
      · rw [alone_add, g1]; exact e1
      · rw [alone_add, g1, e2, List.getLast?_append]
        cases (writeLoop E p.marker p.newline (((traceFS fs f cs).getLast?).getD fs) t (p.equal && b)).2.getLast? <;> simp
      · by_cases hk : j ≤ k1
        · have := g2 j hk
          rw [List.mem_cons] at this ⊢
          rcases this with h | h
          · exact .inl h
          · exact .inr (List.mem_append_left _ h)
        · have := e3 (j - k1) (by omega)
          rw [show j = k1 + (j - k1) by omega, alone_add, g1]
          rw [List.mem_cons] at this
          rcases this with h | h
          · rw [h]
            cases hl : (traceFS fs f cs).getLast? with
            | none => simp
            | some y =>
              rw [Option.getD_some, List.mem_cons, List.mem_append]
              exact .inr (.inl (List.mem_of_getLast? hl))
          · rw [List.mem_cons, List.mem_append]
            exact .inr (.inr h)

/-! ### Steps and other files -/

theorem stepWrite_other (E : Env) (f s m nl : Str) (fs : FS) (pc : Pc) {g : Str} (hg : g ≠ f) : (stepWrite E f s m nl fs pc).1 g = fs g := by
  have hw : ∀ t, (fs.write f t) g = fs g := fun t => by unfold FS.write; rw [if_neg hg]
  unfold stepWrite
  simp only
  repeat' split
  all_goals first | rfl | exact hw _

theorem stepWrite_same (E : Env) (f s m nl : Str) {fs fs' : FS} (pc : Pc) (h : fs f = fs' f) :
    (stepWrite E f s m nl fs pc).2 = (stepWrite E f s m nl fs' pc).2 ∧ (stepWrite E f s m nl fs pc).1 f = (stepWrite E f s m nl fs' pc).1 f := by
  have hr : readLines fs f = readLines fs' f := by unfold readLines; rw [h]
  have hw : ∀ t, (fs.write f t) f = (fs'.write f t) f := fun t => by unfold FS.write; simp
  unfold stepWrite
  rw [hr]
  simp only
  repeat' split
  all_goals first | exact ⟨rfl, h⟩ | exact ⟨rfl, hw _⟩

theorem step_files (E : Env) (fs : FS) (p : Proc) : (p.step E fs).2.files ⊆ p.files := by
  unfold Proc.step Proc.files
  split
  · simp
  · split
    · simp
    · rename_i h
      split
      · simp [h]
      · simp
      · simp

theorem step_other (E : Env) (fs : FS) (p : Proc) {g : Str} (hg : g ∉ p.files) : (p.step E fs).1 g = fs g := by
  unfold Proc.step
  split
  · rfl
  · split
    · rfl
    · rename_i f s t h
      have hgf : g ≠ f := by
        rintro rfl
        exact hg (by unfold Proc.files; rw [h]; simp)
      have := stepWrite_other E f s p.marker p.newline fs p.pc hgf
      split <;> (rename_i hx; rw [hx] at this; exact this)

theorem step_same (E : Env) {fs fs' : FS} (p : Proc) {F : List Str} (hF : p.files ⊆ F) (h : ∀ f ∈ F, fs f = fs' f) :
    (p.step E fs).2 = (p.step E fs').2 ∧ ∀ f ∈ F, (p.step E fs).1 f = (p.step E fs').1 f := by
  unfold Proc.step
  cases hr : p.result with
  | some r => exact ⟨rfl, h⟩
  | none =>
    cases ht : p.todo with
    | nil => exact ⟨rfl, h⟩
    | cons x t =>
      obtain ⟨f, s⟩ := x
      simp only
      have hf : f ∈ F := hF (by unfold Proc.files; rw [ht]; simp)
      obtain ⟨e1, e2⟩ := stepWrite_same E f s p.marker p.newline p.pc (h f hf)
      have e3 := fun g hg => stepWrite_other E f s p.marker p.newline fs p.pc (g := g) hg
      have e4 := fun g hg => stepWrite_other E f s p.marker p.newline fs' p.pc (g := g) hg
      generalize stepWrite E f s p.marker p.newline fs p.pc = a at e1 e2 e3
      generalize stepWrite E f s p.marker p.newline fs' p.pc = b at e1 e2 e4
      obtain ⟨a1, a2⟩ := a
      obtain ⟨b1, b2⟩ := b
      simp only at e1 e2 e3 e4
      subst e1
      have hall : ∀ g ∈ F, a1 g = b1 g := by
        intro g hg
        by_cases hgf : g = f
        · rw [hgf]; exact e2
        · rw [e3 g hgf, e4 g hgf]; exact h g hg
      cases a2 with
      | done r => cases r <;> exact ⟨rfl, hall⟩
      | _ => exact ⟨rfl, hall⟩

theorem alone_same (E : Env) (n : Nat) : ∀ {fs fs' : FS} (p : Proc) {F : List Str}, p.files ⊆ F → (∀ f ∈ F, fs f = fs' f) →
    (Proc.alone E n fs p).2 = (Proc.alone E n fs' p).2 ∧ ∀ f ∈ F, (Proc.alone E n fs p).1 f = (Proc.alone E n fs' p).1 f := by
  induction n with
  | zero => intro fs fs' p F _ h; exact ⟨rfl, h⟩
  | succ n ih =>
    intro fs fs' p F hF h
    obtain ⟨e1, e2⟩ := step_same E p hF h
    unfold Proc.alone
    simp only
    rw [← e1]
    exact ih _ (fun f hf => hF (step_files E fs p hf)) e2

namespace Props

/-- **C82**: a process that runs alone takes finitely many steps and then has done what the sequential model says (`write_strings_on_files_between_markers` in `Verif/Write.lean`); at any time
before, the file system is one of those given there. -/
theorem C82_alone (E : Env) (p : Proc) (hp : p.Fresh) (fs : FS) :
    ∃ k, (∀ j ≥ k, (Proc.alone E j fs p).2.result = some (writeLoop E p.marker p.newline fs p.todo true).1 ∧
      (Proc.alone E j fs p).1 = ((writeLoop E p.marker p.newline fs p.todo true).2.getLast?).getD fs) ∧
      ∀ j, (Proc.alone E j fs p).1 ∈ fs :: (writeLoop E p.marker p.newline fs p.todo true).2 := by
  obtain ⟨h1, h2, h3⟩ := hp
  obtain ⟨k, e1, e2, e3⟩ := alone_loop E p.todo p fs rfl h2 h3
  rw [h1] at e1 e2 e3
  have hj : ∀ j ≥ k, Proc.alone E j fs p = Proc.alone E k fs p := by
    intro j hj
    rw [show j = k + (j - k) by omega, alone_add, alone_finished e1]
  refine ⟨k, fun j h => by rw [hj j h]; exact ⟨e1, e2⟩, fun j => ?_⟩
  by_cases h : j ≤ k
  · exact e3 j h
  · rw [hj j (by omega)]; exact e3 k (Nat.le_refl _)

theorem runAll_disjoint (E : Env) (F : Nat → List Str) (hd : ∀ i j, i ≠ j → ∀ f ∈ F i, f ∉ F j) (sched : List Nat) : ∀ (fs : FS) (ps : Nat → Proc), (∀ i, (ps i).files ⊆ F i) →
    (∀ i, (runAll E sched fs ps).2 i = (Proc.alone E (sched.count i) fs (ps i)).2 ∧
      ∀ f ∈ F i, (runAll E sched fs ps).1 f = (Proc.alone E (sched.count i) fs (ps i)).1 f) ∧
    ∀ f, (∀ i, f ∉ F i) → (runAll E sched fs ps).1 f = fs f := by
  induction sched with
  | nil => intro fs ps _; exact ⟨fun i => ⟨rfl, fun _ _ => rfl⟩, fun _ _ => rfl⟩
  | cons a sched ih =>
    intro fs ps hF
    obtain ⟨i1, i2⟩ := ih ((ps a).step E fs).1 (fun j => if j = a then ((ps a).step E fs).2 else ps j) (fun j f hf => by
      by_cases h : j = a
      · subst h
        rw [if_pos rfl] at hf
        exact hF j (step_files E fs (ps j) hf)
      · rw [if_neg h] at hf
        exact hF j hf)
    unfold runAll
    simp only
    refine ⟨fun i => ?_, fun f hf => ?_⟩
    · obtain ⟨j1, j2⟩ := i1 i
      by_cases hi : i = a
      · subst hi
        simp only [if_true] at j1 j2
        rw [List.count_cons_self]
        exact ⟨j1, j2⟩
      · simp only [if_neg hi] at j1 j2
        rw [List.count_cons_of_ne (fun h => hi h.symm)]
        obtain ⟨e1, e2⟩ := alone_same E (sched.count i) (fs := ((ps a).step E fs).1) (fs' := fs) (ps i) (hF i) (fun f hf =>
          step_other E fs (ps a) (fun h => hd i a hi f hf (hF a h)))
        rw [← e1]
        exact ⟨j1, fun f hf => by rw [j2 f hf]; exact e2 f hf⟩
    · rw [i2 f hf, step_other E fs (ps a) (fun h => hf a (hF a h))]

/-- **C82**: processes with different files do not notice each other, whatever the schedule is: each one is in the state, and its files have the contents, as if it had taken its steps
alone.  The other files are as before. -/
theorem C82_disjoint (E : Env) (sched : List Nat) (fs : FS) (ps : Nat → Proc) (hd : ∀ i j, i ≠ j → ∀ f ∈ (ps i).files, f ∉ (ps j).files) :
    (∀ i, (runAll E sched fs ps).2 i = (Proc.alone E (sched.count i) fs (ps i)).2 ∧
      ∀ f ∈ (ps i).files, (runAll E sched fs ps).1 f = (Proc.alone E (sched.count i) fs (ps i)).1 f) ∧
    ∀ f, (∀ i, f ∉ (ps i).files) → (runAll E sched fs ps).1 f = fs f :=
  runAll_disjoint E (fun i => (ps i).files) hd sched fs ps (fun _ _ h => h)

/-- **C82**: if each process gets enough steps then all of them have the results, and the files have the contents, of the sequential model. -/
theorem C82_serial_partial (E : Env) (fs : FS) (ps : Nat → Proc) (hf : ∀ i, (ps i).Fresh) (hd : ∀ i j, i ≠ j → ∀ f ∈ (ps i).files, f ∉ (ps j).files) (i : Nat) :
    ∃ k, ∀ sched : List Nat, k ≤ sched.count i →
      ((runAll E sched fs ps).2 i).result = some (writeLoop E (ps i).marker (ps i).newline fs (ps i).todo true).1 ∧
      ∀ f ∈ (ps i).files, (runAll E sched fs ps).1 f = (((writeLoop E (ps i).marker (ps i).newline fs (ps i).todo true).2.getLast?).getD fs) f := by
  obtain ⟨k, h1, -⟩ := C82_alone E (ps i) (hf i) fs
  refine ⟨k, fun sched hk => ?_⟩
  obtain ⟨e1, e2⟩ := (C82_disjoint E sched fs ps hd).1 i
  obtain ⟨g1, g2⟩ := h1 _ hk
  exact ⟨by rw [e1, g1], fun f hf => by rw [e2 f hf, g2]⟩

/-! ### Files without markers -/

/-- A process which found no marker. -/
def Idle : Pc → Prop
  | .start => True
  | .remove e l => e.posLen = 0 ∧ l = []
  | .insert e => e.posLen = 0
  | .extract .. => False
  | .done _ => False

theorem step_idle {E : Env} {fs : FS} {p : Proc} (hi : Idle p.pc) (hn : ∀ f ∈ p.files, ∀ src, fs f = some src → ∀ l ∈ src.lines, ¬ IsMarker p.marker l) :
    (p.step E fs).1 = fs ∧ Idle (p.step E fs).2.pc ∧ (p.step E fs).2.marker = p.marker := by
  unfold Proc.step
  cases hr : p.result with
  | some r => exact ⟨rfl, hi, rfl⟩
  | none =>
    cases ht : p.todo with
    | nil => exact ⟨rfl, hi, rfl⟩
    | cons x t =>
      obtain ⟨f, s⟩ := x
      simp only
      have hnf := hn f (by unfold Proc.files; rw [ht]; simp)
      have key : (stepWrite E f s p.marker p.newline fs p.pc).1 = fs ∧ ((∃ r, (stepWrite E f s p.marker p.newline fs p.pc).2 = .done r) ∨ Idle (stepWrite E f s p.marker p.newline fs p.pc).2) := by
        cases hpc : p.pc with
        | start =>
          by_cases hst : f = stdinName
          · simp only [stepWrite, if_pos hst]
            exact ⟨trivial, .inl ⟨_, rfl⟩⟩
          · simp only [stepWrite, if_neg hst]
            cases hl : readLines fs f with
            | error e => exact ⟨rfl, .inl ⟨_, rfl⟩⟩
            | ok lines =>
              have hm : lineMatches p.marker lines = [] := by
                unfold readLines at hl
                cases hx : fs f with
                | none => rw [hx] at hl; simp at hl
                | some src =>
                  rw [hx] at hl
                  simp only at hl
                  split at hl
                  · simp at hl
                  · injection hl with hl
                    unfold lineMatches
                    rw [← hl]
                    exact matches_none (hnf src hx) 1
              simp only [hm, findRegion]
              exact ⟨trivial, .inr ⟨rfl, by simp [Existing.intervals]⟩⟩
        | extract _ _ _ _ => rw [hpc] at hi; exact hi.elim
        | remove e l =>
          rw [hpc] at hi
          obtain ⟨h1, rfl⟩ := hi
          exact ⟨rfl, .inr h1⟩
        | insert e =>
          rw [hpc] at hi
          have h1 : e.posLen = 0 := hi
          simp only [stepWrite, if_neg (show ¬ e.posLen ≥ 1 by omega)]
          exact ⟨trivial, .inl ⟨_, rfl⟩⟩
        | done r => rw [hpc] at hi; exact hi.elim
      generalize stepWrite E f s p.marker p.newline fs p.pc = a at key
      obtain ⟨a1, a2⟩ := a
      obtain ⟨rfl, h2⟩ := key
      cases a2 with
      | done r =>
        cases r <;> exact ⟨rfl, trivial, rfl⟩
      | _ =>
        refine ⟨rfl, ?_, rfl⟩
        rcases h2 with ⟨r, h2⟩ | h2
        · simp at h2
        · exact h2

/-- **C82**: any number of processes on files without their markers write nothing, whatever the schedule is and even if they have the same files. -/
theorem C82_no_marker (E : Env) (sched : List Nat) : ∀ (fs : FS) (ps : Nat → Proc), (∀ i, Idle (ps i).pc) →
    (∀ i, ∀ f ∈ (ps i).files, ∀ src, fs f = some src → ∀ l ∈ src.lines, ¬ IsMarker (ps i).marker l) → (runAll E sched fs ps).1 = fs := by
  induction sched with
  | nil => intro fs ps _ _; rfl
  | cons a sched ih =>
    intro fs ps hi hn
    obtain ⟨e1, e2, e3⟩ := step_idle (E := E) (hi a) (hn a)
    unfold runAll
    simp only
    rw [e1]
    refine ih fs _ (fun j => ?_) (fun j f hf => ?_)
    · split
      · exact e2
      · exact hi j
    · by_cases h : j = a
      · subst h
        rw [if_pos rfl] at hf ⊢
        rw [e3]
        exact hn j f (step_files E fs (ps j) hf)
      · rw [if_neg h] at hf ⊢
        exact hn j f hf

/-! ### Two processes on the same file -/

/-- Two processes. -/
def pair (P Q : Proc) : Nat → Proc := fun i => if i = 0 then P else Q

theorem runAll_zero (E : Env) (s : List Nat) (fs : FS) (P Q : Proc) : runAll E (0 :: s) fs (pair P Q) = runAll E s (P.step E fs).1 (pair (P.step E fs).2 Q) := by
  conv_lhs => unfold runAll
  have h : pair P Q 0 = P := rfl
  simp only [h]
  congr 1
  funext j
  unfold pair
  split <;> rfl

theorem runAll_one (E : Env) (s : List Nat) (fs : FS) (P Q Q' : Proc) (fs' : FS) (h : Q.step E fs = (fs', Q')) :
    ∃ ps, (∀ i, i = 0 ∨ i = 1 → ps i = pair P Q' i) ∧ runAll E (1 :: s) fs (pair P Q) = runAll E s fs' ps := by
  refine ⟨fun j => if j = 1 then Q' else pair P Q j, ?_, ?_⟩
  · rintro i (rfl | rfl) <;> rfl
  · conv_lhs => unfold runAll
    have : pair P Q 1 = Q := rfl
    simp only [this, h]

/-- The other processes do not matter if they are not in the schedule. -/
theorem runAll_congr (E : Env) (s : List Nat) : ∀ (fs : FS) (ps qs : Nat → Proc), (∀ i, i = 0 ∨ i = 1 → ps i = qs i) → (∀ i ∈ s, i = 0 ∨ i = 1) →
    (runAll E s fs ps).1 = (runAll E s fs qs).1 ∧ ∀ i, i = 0 ∨ i = 1 → (runAll E s fs ps).2 i = (runAll E s fs qs).2 i := by
  induction s with
  | nil => intro fs ps qs h _; exact ⟨rfl, h⟩
  | cons a s ih =>
    intro fs ps qs h hs
    unfold runAll
    simp only
    rw [h a (hs a (by simp))]
    refine ih _ _ _ (fun i hi => ?_) (fun i hi => hs i (by simp [hi]))
    split
    · rfl
    · exact h i hi

/-- What is left of a schedule of two processes: the content of the file system and the two results. -/
def Ends (E : Env) (s : List Nat) (fs : FS) (P Q : Proc) (fs' : FS) (P' Q' : Proc) : Prop :=
  (runAll E s fs (pair P Q)).1 = fs' ∧ (runAll E s fs (pair P Q)).2 0 = P' ∧ (runAll E s fs (pair P Q)).2 1 = Q' ∧ ∀ i ∈ s, i = 0 ∨ i = 1

theorem Ends.zero {E : Env} {s : List Nat} {fs fs1 fs' : FS} {P P1 P' Q Q' : Proc} (h1 : P.step E fs = (fs1, P1)) (h : Ends E s fs1 P1 Q fs' P' Q') : Ends E (0 :: s) fs P Q fs' P' Q' := by
  unfold Ends
  rw [runAll_zero, h1]
  exact ⟨h.1, h.2.1, h.2.2.1, by intro i hi; rcases List.mem_cons.mp hi with h' | h'; exact .inl h'; exact h.2.2.2 i h'⟩

theorem Ends.one {E : Env} {s : List Nat} {fs fs1 fs' : FS} {P P' Q Q1 Q' : Proc} (h1 : Q.step E fs = (fs1, Q1)) (h : Ends E s fs1 P Q1 fs' P' Q') : Ends E (1 :: s) fs P Q fs' P' Q' := by
  obtain ⟨ps, e1, e2⟩ := runAll_one E s fs P Q Q1 fs1 h1
  obtain ⟨c1, c2⟩ := runAll_congr E s fs1 ps (pair P Q1) e1 h.2.2.2
  unfold Ends
  rw [e2, c1, c2 0 (.inl rfl), c2 1 (.inr rfl)]
  exact ⟨h.1, h.2.1, h.2.2.1, by intro i hi; rcases List.mem_cons.mp hi with h' | h'; exact .inr h'; exact h.2.2.2 i h'⟩

theorem Ends.alone_zero {E : Env} {s : List Nat} {fs' : FS} {P' Q Q' : Proc} (k : Nat) : ∀ {fs fs1 : FS} {P P1 : Proc}, Proc.alone E k fs P = (fs1, P1) → Ends E s fs1 P1 Q fs' P' Q' →
    Ends E (List.replicate k 0 ++ s) fs P Q fs' P' Q' := by
  induction k with
  | zero => intro fs fs1 P P1 h1 h; simp only [Proc.alone, Prod.mk.injEq] at h1; obtain ⟨rfl, rfl⟩ := h1; exact h
  | succ k ih => intro fs fs1 P P1 h1 h; exact .zero (fs1 := (P.step E fs).1) (P1 := (P.step E fs).2) rfl (ih h1 h)

theorem Ends.alone_one {E : Env} {s : List Nat} {fs' : FS} {P P' Q' : Proc} (k : Nat) : ∀ {fs fs1 : FS} {Q Q1 : Proc}, Proc.alone E k fs Q = (fs1, Q1) → Ends E s fs1 P Q1 fs' P' Q' →
    Ends E (List.replicate k 1 ++ s) fs P Q fs' P' Q' := by
  induction k with
  | zero => intro fs fs1 Q Q1 h1 h; simp only [Proc.alone, Prod.mk.injEq] at h1; obtain ⟨rfl, rfl⟩ := h1; exact h
  | succ k ih => intro fs fs1 Q Q1 h1 h; exact .one (fs1 := (Q.step E fs).1) (Q1 := (Q.step E fs).2) rfl (ih h1 h)

theorem step_pc {E : Env} {p : Proc} {f s : Str} {t : List (Str × Str)} (h1 : p.result = none) (h2 : p.todo = (f, s) :: t) {fs fs1 : FS} {pc pc1 : Pc}
    (hs : stepWrite E f s p.marker p.newline fs pc = (fs1, pc1)) (hn : ∀ r, pc1 ≠ .done r) : Proc.step E fs { p with pc := pc } = (fs1, { p with pc := pc1 }) := by
  unfold Proc.step
  simp only [h1, h2, hs]
  cases pc1 <;> first | rfl | (exact absurd rfl (hn _))

theorem step_done {E : Env} {p : Proc} {f s : Str} {t : List (Str × Str)} (h1 : p.result = none) (h2 : p.todo = (f, s) :: t) {fs fs1 : FS} {pc : Pc} {r : Except Exn Bool}
    (hs : stepWrite E f s p.marker p.newline fs pc = (fs1, .done r)) : Proc.step E fs { p with pc := pc } = (fs1, p.next t r) := by
  unfold Proc.step
  simp only [h1, h2, hs]
  cases r
  · simp only [Proc.next, h2]
  · simp only [Proc.next, h1]

theorem alone_pc {E : Env} {p : Proc} {f s : Str} {t : List (Str × Str)} (h1 : p.result = none) (h2 : p.todo = (f, s) :: t) (k : Nat) : ∀ {fs fs1 : FS} {pc pc1 : Pc},
    writeAlone E f s p.marker p.newline k fs pc = (fs1, pc1) → (∀ r, pc1 ≠ .done r) → Proc.alone E k fs { p with pc := pc } = (fs1, { p with pc := pc1 }) := by
  induction k with
  | zero => intro fs fs1 pc pc1 h _; simp only [writeAlone, Prod.mk.injEq] at h; obtain ⟨rfl, rfl⟩ := h; rfl
  | succ k ih =>
    intro fs fs1 pc pc1 h hn
    unfold writeAlone at h
    simp only at h
    cases hs : stepWrite E f s p.marker p.newline fs pc with
    | mk fs2 pc2 =>
      rw [hs] at h
      have hn2 : ∀ r, pc2 ≠ .done r := by
        rintro r rfl
        rw [writeAlone_done] at h
        simp only [Prod.mk.injEq] at h
        exact hn r h.2.symm
      unfold Proc.alone
      simp only
      rw [step_pc h1 h2 hs hn2]
      exact ih h hn

theorem insert_split (a b : List Str) (s nl : Str) : insertStringAtLine (a ++ b) s (a.length + 1) nl = a.flatten ++ s ++ b.flatten := by
  unfold insertStringAtLine
  split
  · simp
  · rename_i h
    have : b = [] := by
      cases b with
      | nil => rfl
      | cons x b => simp at h
    subst this
    simp

/-- **C82 fails for processes with the same file**: two processes look for the table of the same file, then both remove its lines, then both write.  The second one removes as many lines of the text
behind the table: they are lost, and the file has two tables. -/
theorem C82_violation {E : Env} {fs : FS} {f marker : Str} {ls : List Str} (hf : HasLines fs f ls) {before mid after : List Str} {m m' : Str}
    (h : FirstTable E.isDigit marker ls before m mid m' after) (hk : mid.length + 2 ≤ after.length) {P Q : Proc} (hP : P.Fresh) (hQ : Q.Fresh) {s s' : Str}
    (hPt : P.todo = [(f, s)]) (hQt : Q.todo = [(f, s')]) (hPm : P.marker = marker) (hQm : Q.marker = marker) {core core' : Str}
    (hc : TrimmedRight isPySpace s core) (hc' : TrimmedRight isPySpace s' core') :
    ∃ sched Z, Reads (block core marker P.newline ++ (after.drop (mid.length + 2)).flatten) Z ∧
      (runAll E sched fs (pair P Q)).1 f = some ⟨before.flatten ++ block core' marker Q.newline ++ Z.flatten, false⟩ ∧
      (∃ b, ((runAll E sched fs (pair P Q)).2 0).result = some (.ok b)) ∧ ∃ b, ((runAll E sched fs (pair P Q)).2 1).result = some (.ok b) := by
  obtain ⟨hfn, text, hft, hR⟩ := hf
  obtain ⟨p1, p2, p3⟩ := hP
  obtain ⟨q1, q2, q3⟩ := hQ
  have hcore := trimmedRight_iff.mp hc
  have hcore' := trimmedRight_iff.mp hc'
  have hrl : readLines fs f = .ok ls := by
    unfold readLines
    rw [hft]
    simp [reads_lines hR]
  obtain ⟨n, pos, he⟩ := existing_table (E := E) hR h
  obtain ⟨e1, -⟩ := h
  have hsplit : ls = before ++ (m :: mid ++ [m']) ++ after := by rw [e1]; simp
  generalize hE : (⟨pyStrip mid.flatten, [(before.length + 1, before.length + mid.length + 2)], true, n + 1, pos, before.length + 1⟩ : Existing) = e at he
  have hiv : e.intervals = [(before.length + 1, before.length + mid.length + 2)] := by
    rw [← hE]; simp [Existing.intervals]
  have hpl : e.posLen ≥ 1 := by rw [← hE]; simp
  have hfl : e.firstLine = before.length + 1 := by rw [← hE]
  -- the first steps
  obtain ⟨k, -, -, k3, -⟩ := writeAlone_find (E := E) (string := s) (marker := marker) (nl := P.newline) hfn hrl
  obtain ⟨k', -, -, k3', -⟩ := writeAlone_find (E := E) (string := s') (marker := marker) (nl := Q.newline) hfn hrl
  rw [he] at k3 k3'
  simp only [hiv] at k3 k3'
  rw [← hPm] at k3
  rw [← hQm] at k3'
  have a1 := alone_pc p3 hPt k k3 (by simp)
  have a2 := alone_pc q3 hQt k' k3' (by simp)
  rw [show ({ P with pc := .start } : Proc) = P by rw [← p2]] at a1
  rw [show ({ Q with pc := .start } : Proc) = Q by rw [← q2]] at a2
  -- the first removal
  have hbad : ¬ (before.length + 1 < 1 ∨ before.length + mid.length + 2 < 1 ∨ before.length + 1 > before.length + mid.length + 2) := by omega
  have hrm1 : removeLineInterval ls (before.length + 1) (before.length + mid.length + 2) = .ok (before ++ after) := by
    unfold removeLineInterval
    rw [if_neg (by omega), if_neg (by omega), if_neg (by rw [hsplit]; simp; omega)]
    rw [hsplit, List.append_assoc]
    congr 1
    have : before.length + mid.length + 2 = before.length + (m :: mid ++ [m']).length := by simp; omega
    rw [this, List.drop_append, ← List.append_assoc, ← List.drop_drop]
    simp
  have hr2 : Reads (before ++ after).flatten (before ++ after) := reads_remove hR hsplit
  have s1 := step_pc (E := E) (pc := .remove e [(before.length + 1, before.length + mid.length + 2)]) p3 hPt (fs := fs) (fs1 := fs.write f (before ++ after).flatten) (pc1 := .remove e [])
    (by simp only [stepWrite, if_neg hbad, hrl, hrm1]) (by simp)
  -- the second removal
  have hrl2 : readLines (fs.write f (before ++ after).flatten) f = .ok (before ++ after) := by
    rw [readLines_write, reads_lines hr2]
  have hsplit2 : before ++ after = before ++ after.take (mid.length + 2) ++ after.drop (mid.length + 2) := by simp
  have hrm2 : removeLineInterval (before ++ after) (before.length + 1) (before.length + mid.length + 2) = .ok (before ++ after.drop (mid.length + 2)) := by
    unfold removeLineInterval
    rw [if_neg (by omega), if_neg (by omega), if_neg (by simp; omega)]
    congr 1
    rw [Nat.add_assoc, ← List.drop_drop]
    simp
  have hr3 : Reads (before ++ after.drop (mid.length + 2)).flatten (before ++ after.drop (mid.length + 2)) := reads_remove hr2 hsplit2
  have s2 := step_pc (E := E) (pc := .remove e [(before.length + 1, before.length + mid.length + 2)]) q3 hQt (fs := fs.write f (before ++ after).flatten)
    (fs1 := fs.write f (before ++ after.drop (mid.length + 2)).flatten) (pc1 := .remove e [])
    (by simp only [stepWrite, if_neg hbad, hrl2, hrm2, write_write]) (by simp)
  -- the first insertion
  have hrl3 : readLines (fs.write f (before ++ after.drop (mid.length + 2)).flatten) f = .ok (before ++ after.drop (mid.length + 2)) := by
    rw [readLines_write, reads_lines hr3]
  have s3 := step_pc (E := E) (pc := .remove e []) p3 hPt (fs := fs.write f (before ++ after.drop (mid.length + 2)).flatten) (fs1 := fs.write f (before ++ after.drop (mid.length + 2)).flatten)
    (pc1 := .insert e) rfl (by simp)
  have s4 := step_done (E := E) (pc := .insert e) p3 hPt (fs := fs.write f (before ++ after.drop (mid.length + 2)).flatten)
    (fs1 := fs.write f (before.flatten ++ block core marker P.newline ++ (after.drop (mid.length + 2)).flatten)) (r := .ok (pyStrip s == e.oldToc)) (by
      simp only [stepWrite, if_pos hpl, hrl3, hfl, insert_split, write_write, hPm]
      rw [← hcore]; rfl)
  have s5 : (P.next [] (.ok (pyStrip s == e.oldToc))).step E (fs.write f (before.flatten ++ block core marker P.newline ++ (after.drop (mid.length + 2)).flatten)) =
      (fs.write f (before.flatten ++ block core marker P.newline ++ (after.drop (mid.length + 2)).flatten),
        { P.next [] (.ok (pyStrip s == e.oldToc)) with result := some (.ok (P.next [] (.ok (pyStrip s == e.oldToc))).equal) }) := by
    unfold Proc.step
    simp only [Proc.next, p3]
  -- the second insertion
  obtain ⟨Z, hZ⟩ := reads_exists (block core marker P.newline ++ (after.drop (mid.length + 2)).flatten)
  have hr4 : Reads (before.flatten ++ block core marker P.newline ++ (after.drop (mid.length + 2)).flatten) (before ++ Z) := by
    rw [List.append_assoc]
    exact reads_split hR before (m :: mid ++ [m'] ++ after) (by rw [hsplit]; simp) (by simp) _ _ hZ
  have hrl4 : readLines (fs.write f (before.flatten ++ block core marker P.newline ++ (after.drop (mid.length + 2)).flatten)) f = .ok (before ++ Z) := by
    rw [readLines_write, reads_lines hr4]
  have s6 := step_pc (E := E) (pc := .remove e []) q3 hQt (fs := fs.write f (before.flatten ++ block core marker P.newline ++ (after.drop (mid.length + 2)).flatten))
    (fs1 := fs.write f (before.flatten ++ block core marker P.newline ++ (after.drop (mid.length + 2)).flatten)) (pc1 := .insert e) rfl (by simp)
  have s7 := step_done (E := E) (pc := .insert e) q3 hQt (fs := fs.write f (before.flatten ++ block core marker P.newline ++ (after.drop (mid.length + 2)).flatten))
    (fs1 := fs.write f (before.flatten ++ block core' marker Q.newline ++ Z.flatten)) (r := .ok (pyStrip s' == e.oldToc)) (by
      simp only [stepWrite, if_pos hpl, hrl4, hfl, insert_split, write_write, hQm]
      rw [← hcore']; rfl)
  have s8 : (Q.next [] (.ok (pyStrip s' == e.oldToc))).step E (fs.write f (before.flatten ++ block core' marker Q.newline ++ Z.flatten)) =
      (fs.write f (before.flatten ++ block core' marker Q.newline ++ Z.flatten),
        { Q.next [] (.ok (pyStrip s' == e.oldToc)) with result := some (.ok (Q.next [] (.ok (pyStrip s' == e.oldToc))).equal) }) := by
    unfold Proc.step
    simp only [Proc.next, q3]
  have hend := Ends.alone_zero k a1 (Ends.alone_one k' a2 (Ends.zero s1 (Ends.one s2 (Ends.zero s3 (Ends.zero s4 (Ends.zero s5 (Ends.one s6 (Ends.one s7 (Ends.one (E := E) (s := []) s8
    ⟨rfl, rfl, rfl, by simp⟩)))))))))
  obtain ⟨g1, g2, g3, -⟩ := hend
  refine ⟨_, Z, hZ, (congrFun g1 f).trans ?_, ⟨_, congrArg Proc.result g2⟩, ⟨_, congrArg Proc.result g3⟩⟩
  simp [runAll, FS.write]

/-- A file with a table and six lines behind it. -/
private def sharedFile : FS := fun _ => some ⟨"m\n\n- a\n\nm\n1\n2\n3\n4\n5\n6\n".toList, false⟩

/-- A process which writes a table into the file. -/
private def writer (f : Str) : Proc := { marker := "m".toList, newline := "\n".toList, todo := [(f, "- b\n".toList)] }

/-- One after the other: the table is replaced.  Together: five lines of the text are lost, and there are two tables. -/
example :
    (runAll asciiEnv (List.replicate 6 0 ++ List.replicate 6 1) sharedFile (pair (writer "f".toList) (writer "f".toList))).1 "f".toList =
      some ⟨"m\n\n- b\n\nm\n1\n2\n3\n4\n5\n6\n".toList, false⟩ ∧
    (runAll asciiEnv [0, 0, 1, 1, 0, 1, 0, 0, 0, 1, 1, 1] sharedFile (pair (writer "f".toList) (writer "f".toList))).1 "f".toList =
      some ⟨"m\n\n- b\n\nm\nm\n\n- b\n\nm\n6\n".toList, false⟩ := by
  decide +kernel

/-- The hypotheses of `C82_violation` hold for this file. -/
example : HasLines sharedFile "f".toList ["m\n".toList, "\n".toList, "- a\n".toList, "\n".toList, "m\n".toList, "1\n".toList, "2\n".toList, "3\n".toList, "4\n".toList, "5\n".toList, "6\n".toList] ∧
    FirstTable asciiEnv.isDigit "m".toList
      ["m\n".toList, "\n".toList, "- a\n".toList, "\n".toList, "m\n".toList, "1\n".toList, "2\n".toList, "3\n".toList, "4\n".toList, "5\n".toList, "6\n".toList]
      [] "m\n".toList ["\n".toList, "- a\n".toList, "\n".toList] "m\n".toList ["1\n".toList, "2\n".toList, "3\n".toList, "4\n".toList, "5\n".toList, "6\n".toList] ∧
    (writer "f".toList).Fresh := by
  refine ⟨⟨by decide, _, rfl, (reads_iff (bad := false)).mpr (by decide +kernel)⟩, ⟨rfl, isMarker_iff.mpr (by decide +kernel), isMarker_iff.mpr (by decide +kernel), ?_, ?_, .single _ _ _⟩,
    rfl, rfl, rfl⟩
  · simp only [isMarker_iff]; decide +kernel
  · exact .inr ⟨0, ['-'], "a".toList, by omega, by decide +kernel, .inl rfl, by simp [IsBlank]⟩

/-- Two processes with different files, a third file stays, whatever the schedule. -/
example : ∃ k, ∀ sched : List Nat, k ≤ sched.count 0 →
    (runAll asciiEnv sched sharedFile (fun i => if i = 0 then writer "f".toList else if i = 1 then writer "g".toList else { writer [] with todo := [] })).1 "f".toList =
      some ⟨"m\n\n- b\n\nm\n1\n2\n3\n4\n5\n6\n".toList, false⟩ := by
  obtain ⟨k, h⟩ := C82_serial_partial asciiEnv sharedFile (fun i => if i = 0 then writer "f".toList else if i = 1 then writer "g".toList else { writer [] with todo := [] })
    (by intro i; simp only; split; exact ⟨rfl, rfl, rfl⟩; split <;> exact ⟨rfl, rfl, rfl⟩) (by
      intro i j hij f hf
      simp only at hf ⊢
      split at hf
      · split
        · omega
        · split
          · simp [Proc.files, writer] at hf ⊢
            rw [hf]; decide
          · simp [Proc.files]
      · split at hf
        · split
          · simp [Proc.files, writer] at hf ⊢
            rw [hf]; decide
          · split
            · omega
            · simp [Proc.files]
        · simp [Proc.files] at hf) 0
  refine ⟨k, fun sched hk => ?_⟩
  rw [(h sched hk).2 _ (by simp [Proc.files, writer])]
  decide +kernel

end Props

end MdToc
