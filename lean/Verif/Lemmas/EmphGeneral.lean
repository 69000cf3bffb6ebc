import Verif.Spec.Emphasis
import Verif.Lemmas.EmphScan

/-!
# The loop over the delimiters and the procedure of CommonMark
-/

set_option linter.unusedSimpArgs false

namespace MdToc.Cmark

open Spec

/-! ### The specification -/

theorem closedAt_cons (m : Match) (ms : List Match) (k : Nat) : closedAt (m :: ms) k = (if m.closer = k then m.used else 0) + closedAt ms k := by
  unfold closedAt
  by_cases h : m.closer = k <;> simp [h]

theorem openedAt_cons (m : Match) (ms : List Match) (k : Nat) : openedAt (m :: ms) k = (if m.opener = k then m.used else 0) + openedAt ms k := by
  unfold openedAt
  by_cases h : m.opener = k <;> simp [h]

theorem less_pos {m : Mark} {u : Nat} {x : Mark} (h : x ∈ m.less u) : x.pos = m.pos ∧ x.size = m.size ∧ x.left = m.left - u ∧ m.left ≠ u := by
  unfold Mark.less at h
  split at h
  · simp at h
  · simp at h
    subst h
    exact ⟨rfl, rfl, rfl, by assumption⟩

/-- The positions of the matches. -/
theorem matched_pos {b r : List Mark} {ms : List Match} (h : Matched b r ms) : ∀ m ∈ ms, (∃ d ∈ b ++ r, d.pos = m.opener) ∧ ∃ d ∈ r, d.pos = m.closer := by
  induction h with
  | done => simp
  | @skip b c r ms _ _ ih =>
    intro m hm
    obtain ⟨⟨d, hd, e⟩, d', hd', e'⟩ := ih m hm
    exact ⟨⟨d, by simp at hd ⊢; tauto, e⟩, d', by simp [hd'], e'⟩
  | @none b c r ms _ _ _ ih =>
    intro m hm
    obtain ⟨⟨d, hd, e⟩, d', hd', e'⟩ := ih m hm
    refine ⟨⟨d, ?_, e⟩, d', by simp [hd'], e'⟩
    split at hd <;> simp at hd ⊢ <;> tauto
  | @some x o y c r ms _ _ _ _ ih =>
    intro m hm
    rcases List.mem_cons.mp hm with rfl | hm
    · exact ⟨⟨o, by simp, rfl⟩, c, by simp, rfl⟩
    · obtain ⟨⟨d, hd, e⟩, d', hd', e'⟩ := ih m hm
      constructor
      · simp only [List.mem_append] at hd
        rcases hd with (hd | hd) | hd | hd
        · exact ⟨o, by simp, by rw [← (less_pos hd).1, e]⟩
        · exact ⟨d, by simp [hd], e⟩
        · exact ⟨c, by simp, by rw [← (less_pos hd).1, e]⟩
        · exact ⟨d, by simp [hd], e⟩
      · rcases List.mem_append.mp hd' with hd' | hd'
        · exact ⟨c, by simp, by rw [← (less_pos hd').1, e']⟩
        · exact ⟨d', by simp [hd'], e'⟩

theorem closedAt_zero {ms : List Match} {k : Nat} (h : ∀ m ∈ ms, m.closer ≠ k) : closedAt ms k = 0 := by
  unfold closedAt
  have : ms.filter (fun m => m.closer == k) = [] := by
    rw [List.filter_eq_nil_iff]
    intro m hm
    simpa using h m hm
  rw [this]; rfl

theorem openedAt_zero {ms : List Match} {k : Nat} (h : ∀ m ∈ ms, m.opener ≠ k) : openedAt ms k = 0 := by
  unfold openedAt
  have : ms.filter (fun m => m.opener == k) = [] := by
    rw [List.filter_eq_nil_iff]
    intro m hm
    simpa using h m hm
  rw [this]; rfl

/-- The positions of runs are different. -/
def Distinct (l : List Mark) : Prop := (l.map Mark.pos).Nodup

theorem strength_le {o c : Mark} (ho : 1 ≤ o.left) (hc : 1 ≤ c.left) : strength o c ≤ o.left ∧ strength o c ≤ c.left ∧ 1 ≤ strength o c := by
  unfold strength
  split <;> omega

theorem less_map {m : Mark} {u : Nat} : (m.less u).map Mark.pos = if m.left = u then [] else [m.pos] := by
  unfold Mark.less
  split <;> rfl

theorem less_sublist {m : Mark} {u : Nat} : ((m.less u).map Mark.pos).Sublist [m.pos] := by
  rw [less_map]
  split <;> simp

/-- The state after a match has different positions too. -/
theorem distinct_match {x y r : List Mark} {o c : Mark} {u : Nat} (h : Distinct ((x ++ o :: y) ++ c :: r)) : Distinct ((o.less u ++ y) ++ (c.less u ++ r)) := by
  unfold Distinct at h ⊢
  refine List.Nodup.sublist ?_ h
  simp only [List.map_append, List.map_cons]
  have h1 : ((o.less u).map Mark.pos ++ y.map Mark.pos).Sublist (x.map Mark.pos ++ o.pos :: y.map Mark.pos) := by
    refine List.Sublist.trans ?_ (List.sublist_append_right _ _)
    exact List.Sublist.append (less_sublist (m := o)) (List.Sublist.refl (y.map Mark.pos))
  have h2 : ((c.less u).map Mark.pos ++ r.map Mark.pos).Sublist (c.pos :: r.map Mark.pos) :=
    List.Sublist.append (less_sublist (m := c)) (List.Sublist.refl (r.map Mark.pos))
  exact List.Sublist.append h1 h2

/-! ### The loop -/

/-- A delimiter of the model as a run of the specification. -/
def toMark (d : Delim) : Mark := ⟨d.pos, d.ch, d.length, d.inlLen, d.canOpen, d.canClose⟩

/-- What holds for every delimiter. -/
structure GoodRun (d : Delim) : Prop where
  some : 1 ≤ d.inlLen
  le : d.inlLen ≤ d.length
  offset : d.offset = d.length - d.inlLen
  ch : d.ch = '*' ∨ d.ch = '_'
  one : d.ch = '_' → d.canOpen = true → d.canClose = false

theorem openerMatches_iff {o c : Delim} : openerMatches o c = true ↔ Fits (toMark o) (toMark c) := by
  unfold openerMatches Fits toMark
  simp only [Bool.and_eq_true, beq_iff_eq, Bool.or_eq_true, Bool.not_eq_true', Bool.or_eq_false_iff, bne_iff_ne, ne_eq, and_assoc]
  refine and_congr_right fun _ => and_congr_right fun _ => ?_
  cases c.canOpen <;> cases o.canClose <;> simp <;> omega

theorem strength_eq (o c : Delim) : strength (toMark o) (toMark c) = useDelims o c := by
  unfold strength useDelims toMark
  simp only [ge_iff_le, and_comm]

theorem keepDelim_marks {d : Delim} {u : Nat} (hu : u ≤ d.inlLen) (t : List Delim) : (keepDelim (d.consume u) t).map toMark = (toMark d).less u ++ t.map toMark := by
  unfold keepDelim Delim.consume Mark.less toMark
  simp only
  by_cases h : d.inlLen = u
  · rw [if_pos (by omega), if_pos h]; rfl
  · rw [if_neg (by omega), if_neg h]; rfl

theorem mem_keepDelim {d x : Delim} {t : List Delim} (h : x ∈ keepDelim d t) : (x = d ∧ d.inlLen ≠ 0) ∨ x ∈ t := by
  unfold keepDelim at h
  split at h
  · exact .inr h
  · rcases List.mem_cons.mp h with rfl | h
    · exact .inl ⟨rfl, by assumption⟩
    · exact .inr h

theorem GoodRun.consume {d : Delim} (h : GoodRun d) {u : Nat} (hu : u ≤ d.inlLen) (hn : (d.consume u).inlLen ≠ 0) : GoodRun (d.consume u) := by
  obtain ⟨h1, h2, h3, h4, h5⟩ := h
  unfold Delim.consume at hn ⊢
  simp only at hn
  exact ⟨by simp only; omega, by simp only; omega, by simp only; omega, h4, h5⟩

theorem consume_matches {o o' c c' : Delim} (h1 : o'.ch = o.ch) (h2 : o'.length = o.length) (h3 : o'.canOpen = o.canOpen) (h4 : o'.canClose = o.canClose)
    (g1 : c'.ch = c.ch) (g2 : c'.length = c.length) (g3 : c'.canOpen = c.canOpen) : openerMatches o' c' = openerMatches o c := by
  unfold openerMatches
  rw [h1, h2, h3, h4, g1, g2, g3]

/-- Closing runs with the same index have the same opening runs. -/
theorem same_index {o c c' : Delim} {i : Nat} (ho : GoodRun o) (hc : GoodRun c) (hc' : GoodRun c') (h1 : c.canClose = true) (h1' : c'.canClose = true) (h2 : bottomIndex c = .ok i) (h2' : bottomIndex c' = .ok i) :
    openerMatches o c' = openerMatches o c := by
  unfold bottomIndex at h2 h2'
  rcases hc.ch with e | e <;> rcases hc'.ch with e' | e'
  · rw [if_neg (by rw [e]; decide), if_pos e] at h2
    rw [if_neg (by rw [e']; decide), if_pos e'] at h2'
    injection h2 with h2
    injection h2' with h2'
    have hco : c'.canOpen = c.canOpen ∧ c'.length % 3 = c.length % 3 := by
      cases hx : c.canOpen <;> cases hy : c'.canOpen <;> simp [hx, hy] at h2 h2' ⊢ <;> omega
    unfold openerMatches
    rw [hco.1, hco.2, e, e']
    have : (o.length + c'.length) % 3 = (o.length + c.length) % 3 := by omega
    rw [this]
  · rw [if_neg (by rw [e]; decide), if_pos e] at h2
    rw [if_pos e'] at h2'
    injection h2 with h2
    injection h2' with h2'
    omega
  · rw [if_pos e] at h2
    rw [if_neg (by rw [e']; decide), if_pos e'] at h2'
    injection h2 with h2
    injection h2' with h2'
    omega
  · have a1 : c.canOpen = false := by
      cases hx : c.canOpen with
      | false => rfl
      | true => rw [hc.one e hx] at h1; exact absurd h1 (by simp)
    have a2 : c'.canOpen = false := by
      cases hx : c'.canOpen with
      | false => rfl
      | true => rw [hc'.one e' hx] at h1'; exact absurd h1' (by simp)
    unfold openerMatches
    rw [a1, a2, e, e']
    by_cases hx : o.canOpen = true ∧ o.ch = '_'
    · rw [ho.one hx.2 hx.1]
      simp
    · cases hy : o.canOpen with
      | false => simp
      | true =>
        have : (o.ch == '_') = false := by simpa using fun h => hx ⟨hy, h⟩
        simp [this]

/-- The bottoms do not hide an opening run. -/
structure BotsOk (older newer : List Delim) (bots : Nat → Option Nat) : Prop where
  old : ∀ i q, bots i = some q → ∀ c ∈ newer, q ≠ c.pos
  below : ∀ i x o y, older = x ++ o :: y → bots i = some o.pos → ∀ c ∈ newer, c.canClose = true → bottomIndex c = .ok i → ∀ o' ∈ o :: y, openerMatches o' c = false

theorem findOpener_bots {c : Delim} {bottom : Option Nat} : ∀ {older : List Delim},
    (∀ x o y, older = x ++ o :: y → bottom = some o.pos → ∀ o' ∈ o :: y, openerMatches o' c = false) → findOpener c bottom older = findOpener c none older := by
  intro older
  induction older with
  | nil => intro _; rfl
  | cons o t ih =>
    intro h
    unfold findOpener
    rw [if_neg (by simp : ¬ some o.pos = none)]
    by_cases hb : some o.pos = bottom
    · rw [if_pos hb]
      have hno := h [] o t rfl hb.symm
      rw [if_neg (by rw [hno o (by simp)]; simp)]
      have : ∀ {l : List Delim}, (∀ o' ∈ l, openerMatches o' c = false) → findOpener c none l = none := by
        intro l
        induction l with
        | nil => intro _; rfl
        | cons a l ihl =>
          intro hl
          unfold findOpener
          rw [if_neg (by simp), if_neg (by rw [hl a (by simp)]; simp)]
          exact ihl (fun o' ho' => hl o' (by simp [ho']))
      rw [this (fun o' ho' => hno o' (by simp [ho']))]
    · rw [if_neg hb]
      rw [ih (fun x o' y e he => h (o :: x) o' y (by rw [e]; rfl) he)]

theorem findOpener_all {c : Delim} : ∀ {l : List Delim}, (∀ o' ∈ l, openerMatches o' c = false) → findOpener c none l = none := by
  intro l
  induction l with
  | nil => intro _; rfl
  | cons a l ihl =>
    intro hl
    unfold findOpener
    rw [if_neg (by simp), if_neg (by rw [hl a (by simp)]; simp)]
    exact ihl (fun o' ho' => hl o' (by simp [ho']))

theorem findOpener_first {c o : Delim} {y : List Delim} (ho : openerMatches o c = true) : ∀ {x : List Delim}, (∀ o' ∈ x, openerMatches o' c = false) →
    findOpener c none (x ++ o :: y) = some (o, y) := by
  intro x
  induction x with
  | nil =>
    intro _
    rw [List.nil_append]
    unfold findOpener
    rw [if_neg (by simp), if_pos ho]
  | cons a x ih =>
    intro h
    rw [List.cons_append]
    unfold findOpener
    rw [if_neg (by simp), if_neg (by rw [h a (by simp)]; simp)]
    exact ih (fun o' ho' => h o' (by simp [ho']))

/-- The positions which a delimiter loses if `k` characters are used to close and `m` to open emphasis. -/
def Hit (d : Delim) (k m i : Nat) : Prop :=
  (d.pos + d.offset ≤ i ∧ i < d.pos + d.offset + k) ∨ (d.pos + d.length ≤ i + d.offset + k + m ∧ i + d.offset + k < d.pos + d.length)

theorem hit_zero {d : Delim} {i : Nat} : ¬ Hit d 0 0 i := by
  unfold Hit
  omega

theorem or_rearrange {a b c d e g q : Prop} (hq : ¬ q) : ((a ∨ b) ∨ (c ∨ d) ∨ e ∨ g) ↔ (q ∨ (a ∨ c) ∨ d) ∨ (b ∨ e) ∨ g := by
  constructor
  · rintro ((h | h) | (h | h) | h | h) <;> simp [h]
  · rintro ((h | (h | h) | h) | (h | h) | h)
    · exact absurd h hq
    all_goals simp [h]

set_option maxHeartbeats 800000 in
/-- The delimiters that are left lose the positions of the matches. -/
theorem general_loop {b r : List Mark} {ms : List Match} (h : Matched b r ms) : ∀ (older newer : List Delim) (bots : Nat → Option Nat) (f : Nat) (ig : List Range),
    older.map toMark = b → newer.map toMark = r → (∀ d ∈ older ++ newer, GoodRun d) → Distinct (b ++ r) → BotsOk older newer bots → emphFuel newer ≤ f →
    ∃ ds R, emphLoop f older newer bots ig = .ok (ds, ig ++ R) ∧
      ∀ i, (∃ r ∈ R, InRange r i) ↔ ∃ d ∈ older ++ newer, Hit d (closedAt ms d.pos) (openedAt ms d.pos) i := by
  induction h with
  | @done b =>
    intro older newer bots f ig e1 e2 _ _ _ hf
    have : newer = [] := by simpa using e2
    subst this
    cases f with
    | zero => simp [emphFuel] at hf
    | succ f =>
      refine ⟨older, [], by simp [emphLoop], fun i => ?_⟩
      simp only [List.not_mem_nil, false_and, exists_false, List.append_nil, false_iff, not_exists, not_and]
      intro d _
      exact hit_zero
  | @skip b c r ms hc hm ih =>
    intro older newer bots f ig e1 e2 hg hd hb hf
    cases newer with
    | nil => simp at e2
    | cons n newer =>
      simp only [List.map_cons, List.cons.injEq] at e2
      obtain ⟨rfl, e2⟩ := e2
      have hcl : n.canClose = false := hc
      rw [emphFuel] at hf
      cases f with
      | zero => omega
      | succ f =>
        have hstep : emphLoop (f + 1) older (n :: newer) bots ig = emphLoop f (n :: older) newer bots ig := by
          conv_lhs => unfold emphLoop
          rw [if_neg (by rw [hcl]; simp)]
        rw [hstep]
        obtain ⟨ds, R, h1, h2⟩ := ih (n :: older) newer bots f ig (by simp [e1]) e2 (fun d hd => hg d (by simp at hd ⊢; tauto))
          (by
            unfold Distinct at hd ⊢
            refine (List.Perm.nodup_iff ?_).mp hd
            simp only [List.map_append, List.map_cons]
            exact List.perm_middle)
          ⟨fun i q hq c hc => hb.old i q hq c (by simp [hc]), fun i x o y e he c hc => by
            cases x with
            | nil =>
              simp only [List.nil_append, List.cons.injEq] at e
              obtain ⟨rfl, rfl⟩ := e
              exact absurd rfl (hb.old i _ he n (by simp))
            | cons a x =>
              simp only [List.cons_append, List.cons.injEq] at e
              exact hb.below i x o y e.2 he c (by simp [hc])⟩ (by omega)
        refine ⟨ds, R, h1, fun i => ?_⟩
        rw [h2]
        have : ∀ d, d ∈ n :: older ++ newer ↔ d ∈ older ++ n :: newer := by intro d; simp; tauto
        simp only [this]
  | @none b c r ms hc hno hm ih =>
    intro older newer bots f ig e1 e2 hg hd hb hf
    cases newer with
    | nil => simp at e2
    | cons n newer =>
      simp only [List.map_cons, List.cons.injEq] at e2
      obtain ⟨rfl, e2⟩ := e2
      have hcl : n.canClose = true := hc
      have gn : GoodRun n := hg n (by simp)
      rw [emphFuel] at hf
      cases f with
      | zero => omega
      | succ f =>
        have hbi : ∃ x, bottomIndex n = .ok x := by
          unfold bottomIndex
          rcases gn.ch with e | e <;> simp [e]
        obtain ⟨x, hbi⟩ := hbi
        have hnm : ∀ o' ∈ older, openerMatches o' n = false := by
          intro o' ho'
          rw [Bool.eq_false_iff]
          intro hm'
          exact hno (toMark o') (by rw [← e1]; exact List.mem_map_of_mem ho') (openerMatches_iff.mp hm')
        have hfo : findOpener n (bots x) older = Option.none := by
          rw [findOpener_bots (fun x' o y e he => hb.below x x' o y e he n (by simp) hcl hbi), findOpener_all hnm]
        have hstep : emphLoop (f + 1) older (n :: newer) bots ig = emphLoop f (if n.canOpen then n :: older else older) newer (fun i => if i = x then older.head?.map (·.pos) else bots i) ig := by
          conv_lhs => unfold emphLoop
          rw [if_pos hcl]
          simp only [hbi, bind, Except.bind, hfo]
          cases n.canOpen <;> rfl
        rw [hstep]
        have hdist : ∀ o ∈ older, ∀ c ∈ n :: newer, o.pos ≠ c.pos := by
          intro o ho c hc he
          unfold Distinct at hd
          rw [List.map_append, List.nodup_append] at hd
          refine hd.2.2 o.pos ?_ c.pos ?_ he
          · rw [← e1, List.map_map]
            exact List.mem_map.mpr ⟨o, ho, rfl⟩
          · rw [← e2, ← List.map_cons, List.map_map]
            exact List.mem_map.mpr ⟨c, hc, rfl⟩
        have hnd : ∀ c ∈ newer, n.pos ≠ c.pos := by
          intro c hc he
          unfold Distinct at hd
          rw [List.map_append, List.nodup_append, List.map_cons, List.nodup_cons] at hd
          apply hd.2.1.1
          show n.pos ∈ _
          rw [he, ← e2, List.map_map]
          exact List.mem_map.mpr ⟨c, hc, rfl⟩
        obtain ⟨ds, R, h1, h2⟩ := ih (if n.canOpen then n :: older else older) newer (fun i => if i = x then older.head?.map (·.pos) else bots i) f ig
          (by
            show _ = if n.canOpen = true then _ else _
            cases n.canOpen <;> simp [e1])
          e2
          (fun d hd => hg d (by
            split at hd <;> simp at hd ⊢ <;> tauto))
          (by
            show Distinct ((if n.canOpen = true then _ else _) ++ _)
            unfold Distinct at hd ⊢
            cases n.canOpen with
            | true =>
              refine (List.Perm.nodup_iff ?_).mp hd
              simp only [List.map_append, List.map_cons, if_true]
              exact List.perm_middle
            | false =>
              refine List.Nodup.sublist ?_ hd
              simp)
          (by
            constructor
            · intro i q hq c hc
              split at hq
              · cases older with
                | nil => simp at hq
                | cons o older =>
                  simp at hq
                  rw [← hq]
                  exact hdist o (by simp) c (by simp [hc])
              · exact hb.old i q hq c (by simp [hc])
            · intro i x' o y e he c hc hcc hci
              have key : ∀ x' y, older = x' ++ o :: y → ∀ o' ∈ o :: y, openerMatches o' c = false := by
                intro x' y e o' ho'
                have hmo : o' ∈ older := by rw [e]; exact List.mem_append_right _ ho'
                by_cases hix : i = x
                · rw [same_index (i := x) (hg o' (by simp [hmo])) gn (hg c (by simp [hc])) hcl hcc hbi (by rw [← hix]; exact hci)]
                  exact hnm o' hmo
                · rw [if_neg hix] at he
                  exact hb.below i x' o y e he c (by simp [hc]) hcc hci o' ho'
              split at e
              · cases x' with
                | nil =>
                  simp only [List.nil_append, List.cons.injEq] at e
                  obtain ⟨rfl, rfl⟩ := e
                  exfalso
                  split at he
                  · cases older with
                    | nil => simp at he
                    | cons o older =>
                      simp at he
                      exact hdist o (by simp) n (by simp) he
                  · exact hb.old i _ he n (by simp) rfl
                | cons a x' =>
                  simp only [List.cons_append, List.cons.injEq] at e
                  exact key x' y e.2
              · exact key x' y e)
          (by omega)
        refine ⟨ds, R, h1, fun i => ?_⟩
        rw [h2]
        have hz : n.canOpen = false → ¬ Hit n (closedAt ms n.pos) (openedAt ms n.pos) i := by
          intro hco
          have hm' : Matched b r ms := by
            have : (toMark n).opens = false := hco
            rw [this] at hm
            exact hm
          have h0 : ∀ d ∈ b ++ r, d.pos ≠ n.pos := by
            intro d hd' he
            rw [← e1, ← e2, ← List.map_append] at hd'
            obtain ⟨d', hd2, rfl⟩ := List.mem_map.mp hd'
            rcases List.mem_append.mp hd2 with hd2 | hd2
            · exact hdist d' hd2 n (by simp) he
            · exact hnd d' hd2 he.symm
          have hp := matched_pos hm'
          rw [closedAt_zero (fun m hm'' he => by obtain ⟨-, d, hd, e⟩ := hp m hm''; exact h0 d (by simp [hd]) (e.trans he)),
            openedAt_zero (fun m hm'' he => by obtain ⟨⟨d, hd, e⟩, -⟩ := hp m hm''; exact h0 d hd (e.trans he))]
          exact hit_zero
        cases hco : n.canOpen with
        | true =>
          simp only [if_true]
          have : ∀ d, d ∈ n :: older ++ newer ↔ d ∈ older ++ n :: newer := by intro d; simp; tauto
          simp only [this]
        | false =>
          simp only [Bool.false_eq_true, if_false]
          constructor
          · rintro ⟨d, hd', hh⟩
            exact ⟨d, by simp at hd' ⊢; tauto, hh⟩
          · rintro ⟨d, hd', hh⟩
            simp only [List.mem_append, List.mem_cons] at hd'
            rcases hd' with hd' | rfl | hd'
            · exact ⟨d, by simp [hd'], hh⟩
            · exact absurd hh (hz hco)
            · exact ⟨d, by simp [hd'], hh⟩
  | @some x o y c r ms hc hno hfit hm ih =>
    intro older newer bots f ig e1 e2 hg hd hb hf
    cases newer with
    | nil => simp at e2
    | cons n newer =>
      simp only [List.map_cons, List.cons.injEq] at e2
      obtain ⟨rfl, e2⟩ := e2
      obtain ⟨X, Z, rfl, eX, eZ⟩ := List.map_eq_append_iff.mp e1
      obtain ⟨O, Y, rfl, rfl, eY⟩ := List.map_eq_cons_iff.mp eZ
      have hcl : n.canClose = true := hc
      have gn : GoodRun n := hg n (by simp)
      have gO : GoodRun O := hg O (by simp)
      rw [strength_eq] at hm ih ⊢
      have hu : useDelims O n ≤ O.inlLen ∧ useDelims O n ≤ n.inlLen ∧ 1 ≤ useDelims O n := by
        have h1 := gn.some
        have h2 := gO.some
        unfold useDelims
        split <;> omega
      generalize hu' : useDelims O n = u at hu hm ih ⊢
      have hd' := distinct_match (u := u) hd
      rw [emphFuel] at hf
      cases f with
      | zero => omega
      | succ f =>
        have hbi : ∃ x, bottomIndex n = .ok x := by
          unfold bottomIndex
          rcases gn.ch with e | e <;> simp [e]
        obtain ⟨ix, hbi⟩ := hbi
        have hfo : findOpener n (bots ix) (X ++ O :: Y) = some (O, Y) := by
          rw [findOpener_bots (fun x' o y e he => hb.below ix x' o y e he n (by simp) hcl hbi)]
          refine findOpener_first (openerMatches_iff.mpr hfit) ?_
          intro o' ho'
          rw [Bool.eq_false_iff]
          intro hm'
          exact hno (toMark o') (by rw [← eX]; exact List.mem_map_of_mem ho') (openerMatches_iff.mp hm')
        have hstep : emphLoop (f + 1) (X ++ O :: Y) (n :: newer) bots ig = emphLoop f (keepDelim (O.consume u) Y) (keepDelim (n.consume u) newer) bots (ig ++ emphRanges O n u) := by
          conv_lhs => unfold emphLoop
          rw [if_pos hcl]
          simp only [hbi, bind, Except.bind, hfo, hu']
        rw [hstep]
        have hfields : ∀ (d : Delim), (d.consume u).pos = d.pos ∧ (d.consume u).ch = d.ch ∧ (d.consume u).length = d.length ∧ (d.consume u).canOpen = d.canOpen ∧ (d.consume u).canClose = d.canClose :=
          fun d => ⟨rfl, rfl, rfl, rfl, rfl⟩
        have hnew : ∀ c ∈ keepDelim (n.consume u) newer, ∃ c0 ∈ n :: newer, c.pos = c0.pos ∧ c.ch = c0.ch ∧ c.length = c0.length ∧ c.canOpen = c0.canOpen ∧ c.canClose = c0.canClose := by
          intro c hc'
          rcases mem_keepDelim hc' with ⟨rfl, -⟩ | hc'
          · exact ⟨n, by simp, hfields n⟩
          · exact ⟨c, by simp [hc'], rfl, rfl, rfl, rfl, rfl⟩
        obtain ⟨ds, R, h1, h2⟩ := ih (keepDelim (O.consume u) Y) (keepDelim (n.consume u) newer) bots f (ig ++ emphRanges O n u)
          (by rw [keepDelim_marks hu.1, eY]) (by rw [keepDelim_marks hu.2.1, e2])
          (by
            intro d hd''
            rcases List.mem_append.mp hd'' with h | h
            · rcases mem_keepDelim h with ⟨rfl, hz⟩ | h
              · exact gO.consume hu.1 hz
              · exact hg d (by simp [h])
            · rcases mem_keepDelim h with ⟨rfl, hz⟩ | h
              · exact gn.consume hu.2.1 hz
              · exact hg d (by simp [h]))
          hd'
          (by
            constructor
            · intro i q hq c hc'
              obtain ⟨c0, h0, e0, -⟩ := hnew c hc'
              rw [e0]
              exact hb.old i q hq c0 h0
            · intro i x' o' y' e he c hc' hcc hci z hz
              obtain ⟨c0, h0, -, c1, c2, c3, c4⟩ := hnew c hc'
              have hci0 : bottomIndex c0 = .ok i := by
                rw [← hci]
                unfold bottomIndex
                rw [c1, c2, c3]
              have hmain : ∀ x0 o0 y0, X ++ O :: Y = x0 ++ o0 :: y0 → o0.pos = o'.pos →
                  (∃ z0 ∈ o0 :: y0, z.ch = z0.ch ∧ z.length = z0.length ∧ z.canOpen = z0.canOpen ∧ z.canClose = z0.canClose) → openerMatches z c = false := by
                rintro x0 o0 y0 e0 ep ⟨z0, hz0, a1, a2, a3, a4⟩
                rw [consume_matches a1 a2 a3 a4 c1 c2 c3]
                exact hb.below i x0 o0 y0 e0 (by rw [ep]; exact he) c0 h0 (by rw [← c4]; exact hcc) hci0 z0 hz0
              unfold keepDelim at e
              split at e
              · exact hmain (X ++ O :: x') o' y' (by rw [e]; simp) rfl ⟨z, hz, rfl, rfl, rfl, rfl⟩
              · cases x' with
                | nil =>
                  simp only [List.nil_append, List.cons.injEq] at e
                  obtain ⟨rfl, rfl⟩ := e
                  refine hmain X O Y rfl rfl ?_
                  rcases List.mem_cons.mp hz with rfl | hz
                  · exact ⟨O, by simp, rfl, rfl, rfl, rfl⟩
                  · exact ⟨z, by simp [hz], rfl, rfl, rfl, rfl⟩
                | cons a x' =>
                  simp only [List.cons_append, List.cons.injEq] at e
                  exact hmain (X ++ O :: x') o' y' (by rw [e.2]; simp) rfl ⟨z, hz, rfl, rfl, rfl, rfl⟩)
          (by
            unfold keepDelim
            split
            · omega
            · rw [emphFuel]
              have : (n.consume u).inlLen = n.inlLen - u := rfl
              omega)
        refine ⟨ds, emphRanges O n u ++ R, by rw [h1, List.append_assoc], fun i => ?_⟩
        rw [exists_range_append, h2]
        -- the positions
        have hp := matched_pos hm
        have hnodup : ((X ++ O :: Y) ++ n :: newer).Pairwise (fun a b => a.pos ≠ b.pos) := by
          unfold Distinct at hd
          have : ((X ++ O :: Y) ++ n :: newer).map Delim.pos = List.map Mark.pos (x ++ toMark O :: y ++ toMark n :: r) := by
            rw [← eX, ← eY, ← e2]
            simp [Function.comp_def, toMark]
          rw [← this, List.Nodup, List.pairwise_map] at hd
          exact hd
        simp only [List.append_assoc, List.cons_append, List.pairwise_append, List.pairwise_cons, List.mem_append, List.mem_cons] at hnodup
        obtain ⟨-, ⟨hO, ⟨-, ⟨hN, -⟩, hYn⟩⟩, hX⟩ := hnodup
        have hmem : ∀ k, (∀ d ∈ Y, d.pos ≠ k) → (∀ d ∈ newer, d.pos ≠ k) → (O.pos = k → O.inlLen = u) → (n.pos = k → n.inlLen = u) → closedAt ms k = 0 ∧ openedAt ms k = 0 := by
          intro k k1 k2 k3 k4
          have hall : ∀ d ∈ (toMark O).less u ++ y ++ ((toMark n).less u ++ r), d.pos ≠ k := by
            intro d hd'' he
            simp only [List.mem_append] at hd''
            rcases hd'' with (h | h) | h | h
            · have := less_pos h
              exact this.2.2.2 (k3 (by rw [← he, this.1]; rfl))
            · rw [← eY] at h
              obtain ⟨d', h', rfl⟩ := List.mem_map.mp h
              exact k1 d' h' he
            · have := less_pos h
              exact this.2.2.2 (k4 (by rw [← he, this.1]; rfl))
            · rw [← e2] at h
              obtain ⟨d', h', rfl⟩ := List.mem_map.mp h
              exact k2 d' h' he
          exact ⟨closedAt_zero (fun m hm' he => by obtain ⟨-, d, hd'', e⟩ := hp m hm'; exact hall d (by simp at hd'' ⊢; tauto) (e.trans he)),
            openedAt_zero (fun m hm' he => by obtain ⟨⟨d, hd'', e⟩, -⟩ := hp m hm'; exact hall d hd'' (e.trans he))⟩
        have hOn : O.pos ≠ n.pos := hO n (by simp)
        have hcO : closedAt ms O.pos = 0 := by
          apply closedAt_zero
          intro m hm' he
          obtain ⟨-, d, hd'', e⟩ := hp m hm'
          rcases List.mem_append.mp hd'' with h | h
          · exact hOn (by rw [← he, ← e, (less_pos h).1]; rfl)
          · rw [← e2] at h
            obtain ⟨d', h', rfl⟩ := List.mem_map.mp h
            exact hO d' (by simp [h']) (by rw [← he, ← e]; rfl)
        have cM : ∀ k, closedAt (⟨O.pos, n.pos, u⟩ :: ms) k = (if n.pos = k then u else 0) + closedAt ms k := fun k => closedAt_cons _ _ _
        have oM : ∀ k, openedAt (⟨O.pos, n.pos, u⟩ :: ms) k = (if O.pos = k then u else 0) + openedAt ms k := fun k => openedAt_cons _ _ _
        have keepHit : ∀ (d : Delim) (t : List Delim), (∃ e ∈ keepDelim (d.consume u) t, Hit e (closedAt ms e.pos) (openedAt ms e.pos) i) ↔
            ((d.consume u).inlLen ≠ 0 ∧ Hit (d.consume u) (closedAt ms d.pos) (openedAt ms d.pos) i) ∨ ∃ e ∈ t, Hit e (closedAt ms e.pos) (openedAt ms e.pos) i := by
          intro d t
          unfold keepDelim
          by_cases hz : (d.consume u).inlLen = 0
          · rw [if_pos hz]
            simp [hz]
          · rw [if_neg hz]
            simp only [List.mem_cons, exists_eq_or_imp]
            refine or_congr ?_ Iff.rfl
            exact ⟨fun h => ⟨hz, h⟩, fun h => h.2⟩
        have zX : ∀ d ∈ X, ¬ Hit d (closedAt (⟨O.pos, n.pos, u⟩ :: ms) d.pos) (openedAt (⟨O.pos, n.pos, u⟩ :: ms) d.pos) i := by
          intro d hd''
          have n1 : d.pos ≠ O.pos := hX d hd'' O (by simp)
          have n2 : d.pos ≠ n.pos := hX d hd'' n (by simp)
          have := hmem d.pos (fun e he h => hX d hd'' e (by simp [he]) h.symm) (fun e he h => hX d hd'' e (by simp [he]) h.symm) (fun h => absurd h.symm n1) (fun h => absurd h.symm n2)
          rw [cM, oM, this.1, this.2, if_neg (Ne.symm n1), if_neg (Ne.symm n2)]
          exact hit_zero
        have same : ∀ d, d.pos ≠ O.pos → d.pos ≠ n.pos → (Hit d (closedAt (⟨O.pos, n.pos, u⟩ :: ms) d.pos) (openedAt (⟨O.pos, n.pos, u⟩ :: ms) d.pos) i ↔ Hit d (closedAt ms d.pos) (openedAt ms d.pos) i) := by
          intro d n1 n2
          rw [cM, oM, if_neg (Ne.symm n1), if_neg (Ne.symm n2), Nat.zero_add, Nat.zero_add]
        have hitO : Hit O (closedAt (⟨O.pos, n.pos, u⟩ :: ms) O.pos) (openedAt (⟨O.pos, n.pos, u⟩ :: ms) O.pos) i ↔
            InRange (O.pos + O.length - u - O.offset, O.pos + O.length - O.offset) i ∨ ((O.consume u).inlLen ≠ 0 ∧ Hit (O.consume u) (closedAt ms O.pos) (openedAt ms O.pos) i) := by
          rw [cM, oM, if_pos rfl, if_neg (Ne.symm hOn), hcO]
          have g1 := gO.le
          have g2 := gO.offset
          have hz : (O.consume u).inlLen = 0 → openedAt ms O.pos = 0 := by
            intro hz
            have hz : O.inlLen - u = 0 := hz
            exact (hmem O.pos (fun e he h => hO e (by simp [he]) h.symm) (fun e he h => hO e (by simp [he]) h.symm) (fun _ => by omega) (fun h => absurd h.symm hOn)).2
          have hlen : (O.consume u).inlLen = O.inlLen - u := rfl
          unfold Hit InRange
          simp only [Delim.consume] at hz ⊢
          have hu1 := hu.1
          generalize openedAt ms O.pos = m' at *
          clear * - g1 g2 hz hu1
          omega
        have hitN : Hit n (closedAt (⟨O.pos, n.pos, u⟩ :: ms) n.pos) (openedAt (⟨O.pos, n.pos, u⟩ :: ms) n.pos) i ↔
            InRange (n.pos + n.offset, n.pos + u + n.offset) i ∨ ((n.consume u).inlLen ≠ 0 ∧ Hit (n.consume u) (closedAt ms n.pos) (openedAt ms n.pos) i) := by
          rw [cM, oM, if_pos rfl, if_neg hOn]
          have hz : (n.consume u).inlLen = 0 → closedAt ms n.pos = 0 ∧ openedAt ms n.pos = 0 := by
            intro hz
            have hz : n.inlLen - u = 0 := hz
            have hu2 := hu.2.1
            exact hmem n.pos (fun e he h => hYn e he n (by simp) h) (fun e he h => hN e he h.symm) (fun h => absurd h hOn) (fun _ => by omega)
          unfold Hit InRange
          simp only [Delim.consume] at hz ⊢
          have hu2 := hu.2.1
          generalize openedAt ms n.pos = m' at *
          generalize closedAt ms n.pos = k' at *
          clear * - hz hu2
          omega
        have er : (∃ r ∈ emphRanges O n u, InRange r i) ↔ InRange (O.pos + O.length - u - O.offset, O.pos + O.length - O.offset) i ∨ InRange (n.pos + n.offset, n.pos + u + n.offset) i := by
          unfold emphRanges
          simp only [List.mem_cons, List.not_mem_nil, or_false, exists_eq_or_imp, exists_eq_left]
        have split1 : ∀ (P : Delim → Prop) (A B : List Delim), (∃ d ∈ A ++ B, P d) ↔ (∃ d ∈ A, P d) ∨ ∃ d ∈ B, P d := by
          intro P A B
          simp only [List.mem_append, or_and_right, exists_or]
        have split2 : ∀ (P : Delim → Prop) (a : Delim) (B : List Delim), (∃ d ∈ a :: B, P d) ↔ P a ∨ ∃ d ∈ B, P d := by
          intro P a B
          simp only [List.mem_cons, exists_eq_or_imp]
        have congrY : (∃ d ∈ Y, Hit d (closedAt (⟨O.pos, n.pos, u⟩ :: ms) d.pos) (openedAt (⟨O.pos, n.pos, u⟩ :: ms) d.pos) i) ↔ ∃ d ∈ Y, Hit d (closedAt ms d.pos) (openedAt ms d.pos) i := by
          refine exists_congr fun d => and_congr_right fun hd'' => ?_
          exact same d (fun h => hO d (by simp [hd'']) h.symm) (hYn d hd'' n (by simp))
        have congrN : (∃ d ∈ newer, Hit d (closedAt (⟨O.pos, n.pos, u⟩ :: ms) d.pos) (openedAt (⟨O.pos, n.pos, u⟩ :: ms) d.pos) i) ↔ ∃ d ∈ newer, Hit d (closedAt ms d.pos) (openedAt ms d.pos) i := by
          refine exists_congr fun d => and_congr_right fun hd'' => ?_
          exact same d (fun h => hO d (by simp [hd'']) h.symm) (fun h => hN d hd'' h.symm)
        have zX' : ¬ ∃ d ∈ X, Hit d (closedAt (⟨O.pos, n.pos, u⟩ :: ms) d.pos) (openedAt (⟨O.pos, n.pos, u⟩ :: ms) d.pos) i := fun ⟨d, hd'', h⟩ => zX d hd'' h
        have hpos : (toMark O).pos = O.pos ∧ (toMark n).pos = n.pos := ⟨rfl, rfl⟩
        rw [hpos.1, hpos.2, split1, keepHit, keepHit, split1, split1, split2, split2, er, hitO, hitN, congrY, congrN]
        exact or_rearrange zX'

end MdToc.Cmark
