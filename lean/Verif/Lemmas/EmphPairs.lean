import Verif.Lemmas.Emph
import Verif.Spec.Inline
import Mathlib.Data.List.Count

/-!
# The inline parser: the removed ranges do not overlap when every delimiter run is one-sided
-/

set_option linter.unusedSimpArgs false

namespace MdToc.Cmark

open Spec

/-! ### Filtering -/

theorem filterIndicesFrom_positions (rs : List Range) : ∀ (s : Str) (k : Nat),
    ∃ is : List Nat, is.Pairwise (· < ·) ∧ (∀ i, i ∈ is ↔ k ≤ i ∧ i < k + s.length ∧ ¬ ∃ r ∈ rs, InRange r i) ∧
      (filterIndicesFrom rs k s).map some = is.map (fun i => s[i - k]?) := by
  intro s
  induction s with
  | nil =>
    intro k
    refine ⟨[], List.Pairwise.nil, ?_, rfl⟩
    intro i
    simp
    omega
  | cons c t ih =>
    intro k
    obtain ⟨is, h1, h2, h3⟩ := ih (k + 1)
    have hany : (rs.any (fun r => decide (r.1 ≤ k) && decide (k < r.2))) = true ↔ ∃ r ∈ rs, InRange r k := by
      simp [InRange]
    have hmap : is.map (fun i => (c :: t)[i - k]?) = is.map (fun i => t[i - (k + 1)]?) := by
      apply List.map_congr_left
      intro i hi
      have := (h2 i).mp hi
      have e : i - k = (i - (k + 1)) + 1 := by omega
      rw [e, List.getElem?_cons_succ]
    unfold filterIndicesFrom
    split
    · rename_i hc
      have hc := hany.mp hc
      refine ⟨is, h1, ?_, ?_⟩
      · intro i
        rw [h2]
        simp only [List.length_cons]
        constructor
        · rintro ⟨a, b, d⟩; exact ⟨by omega, by omega, d⟩
        · rintro ⟨a, b, d⟩
          refine ⟨?_, by omega, d⟩
          rcases Nat.lt_or_ge k i with h | h
          · exact h
          · have : i = k := by omega
            subst this
            exact absurd hc d
      · rw [h3, hmap]
    · rename_i hc
      have hc : ¬ ∃ r ∈ rs, InRange r k := fun h => hc (hany.mpr h)
      refine ⟨k :: is, ?_, ?_, ?_⟩
      · refine List.Pairwise.cons ?_ h1
        intro i hi
        have := (h2 i).mp hi
        omega
      · intro i
        rw [List.mem_cons, h2]
        simp only [List.length_cons]
        constructor
        · rintro (rfl | ⟨a, b, d⟩)
          · exact ⟨by omega, by omega, hc⟩
          · exact ⟨by omega, by omega, d⟩
        · rintro ⟨a, b, d⟩
          rcases Nat.lt_or_ge k i with h | h
          · exact .inr ⟨h, by omega, d⟩
          · exact .inl (by omega)
      · rw [List.map_cons, h3, List.map_cons, hmap]
        simp

theorem filterIndicesFrom_nil : ∀ (s : Str) (k : Nat), filterIndicesFrom [] k s = s := by
  intro s
  induction s with
  | nil => intro k; rfl
  | cons c t ih =>
    intro k
    unfold filterIndicesFrom
    simp [ih]

/-- Only characters in the ranges are deleted. -/
theorem filterIndicesFrom_without {P : Char → Prop} (rs : List Range) : ∀ (s : Str) (k : Nat),
    (∀ r ∈ rs, ∀ i c, InRange r (i + k) → s[i]? = some c → P c) → Without P s (filterIndicesFrom rs k s) := by
  intro s
  induction s with
  | nil => intro k _; exact .nil
  | cons c t ih =>
    intro k h
    have ht := ih (k + 1) (fun r hr i d hi hd => h r hr (i + 1) d (by rw [show i + 1 + k = i + (k + 1) by omega]; exact hi) (by simpa using hd))
    unfold filterIndicesFrom
    split
    · rename_i hc
      obtain ⟨r, hr, hk⟩ : ∃ r ∈ rs, InRange r k := by simpa [InRange] using hc
      exact .drop (h r hr 0 c (by simpa using hk) rfl) ht
    · exact .keep ht

/-- How many characters `c` are deleted. -/
theorem filterIndicesFrom_count (c : Char) (rs : List Range) : ∀ (s : Str) (k : Nat),
    (filterIndicesFrom rs k s).count c + (List.range s.length).countP (fun i => decide (s[i]? = some c) && rs.any (fun r => decide (r.1 ≤ i + k) && decide (i + k < r.2))) = s.count c := by
  intro s
  induction s with
  | nil => intro k; simp [filterIndicesFrom]
  | cons d t ih =>
    intro k
    have ht := ih (k + 1)
    rw [List.length_cons, List.range_succ_eq_map, List.countP_cons, List.countP_map]
    have e : ((fun i => decide ((d :: t)[i]? = some c) && rs.any (fun r => decide (r.1 ≤ i + k) && decide (i + k < r.2))) ∘ Nat.succ) =
        (fun i => decide (t[i]? = some c) && rs.any (fun r => decide (r.1 ≤ i + (k + 1)) && decide (i + (k + 1) < r.2))) := by
      funext i
      simp only [Function.comp, Nat.succ_eq_add_one, List.getElem?_cons_succ]
      rw [show i + 1 + k = i + (k + 1) by omega]
    rw [e]
    unfold filterIndicesFrom
    simp only [List.getElem?_cons_zero, Option.some.injEq, Nat.zero_add, List.count_cons]
    by_cases hr : rs.any (fun r => decide (r.1 ≤ k) && decide (k < r.2)) = true
    · rw [if_pos hr]
      simp only [hr, Bool.and_true, decide_eq_true_eq, beq_iff_eq]
      omega
    · rw [if_neg hr]
      simp only [hr, Bool.and_false, List.count_cons, beq_iff_eq]
      simp only [if_false, Bool.false_eq_true]
      omega

/-! ### Disjoint ranges -/

/-- The ranges have no common index. -/
def Apart (r r' : Range) : Prop := ∀ i, ¬ (InRange r i ∧ InRange r' i)

theorem countP_interval (a u : Nat) : ∀ n, a + u ≤ n → (List.range n).countP (fun i => decide (a ≤ i) && decide (i < a + u)) = u := by
  intro n
  induction n generalizing u with
  | zero => intro h; simp; omega
  | succ n ih =>
    intro h
    rw [List.range_succ, List.countP_append]
    by_cases hn : a + u ≤ n
    · rw [ih u hn]
      simp
      omega
    · have : a + u = n + 1 := by omega
      cases u with
      | zero =>
        have : (List.range n).countP (fun i => decide (a ≤ i) && decide (i < a + 0)) = 0 := by
          rw [List.countP_eq_zero]; intro i _; simp
        rw [this]; simp
      | succ u =>
        have e : (List.range n).countP (fun i => decide (a ≤ i) && decide (i < a + (u + 1))) = (List.range n).countP (fun i => decide (a ≤ i) && decide (i < a + u)) := by
          apply List.countP_congr
          intro i hi
          have := List.mem_range.mp hi
          simp
          omega
        rw [e, ih u (by omega)]
        simp
        omega

theorem countP_or {α : Type} {p q : α → Bool} : ∀ (l : List α), (∀ a ∈ l, ¬ (p a = true ∧ q a = true)) →
    l.countP (fun a => p a || q a) = l.countP p + l.countP q := by
  intro l
  induction l with
  | nil => intro _; rfl
  | cons a l ih =>
    intro h
    rw [List.countP_cons, List.countP_cons, List.countP_cons, ih (fun b hb => h b (by simp [hb]))]
    have := h a (by simp)
    cases hp : p a <;> cases hq : q a <;> simp_all <;> omega

/-- One range of `u` characters `d`. -/
theorem countP_range {s : Str} {r : Range} {u : Nat} {c d : Char} (hr : r.2 = r.1 + u) (h : ∀ i, r.1 ≤ i → i < r.2 → s[i]? = some d) :
    (List.range s.length).countP (fun i => decide (s[i]? = some c) && (decide (r.1 ≤ i) && decide (i < r.2))) = if d = c then u else 0 := by
  have hb : u = 0 ∨ r.1 + u ≤ s.length := by
    rcases Nat.eq_zero_or_pos u with h0 | h0
    · exact .inl h0
    · right
      have := h (r.1 + u - 1) (by omega) (by omega)
      have := (List.getElem?_eq_some_iff.mp this).1
      omega
  split
  · rename_i hdc
    subst hdc
    have e : (List.range s.length).countP (fun i => decide (s[i]? = some d) && (decide (r.1 ≤ i) && decide (i < r.2))) =
        (List.range s.length).countP (fun i => decide (r.1 ≤ i) && decide (i < r.1 + u)) := by
      apply List.countP_congr
      intro i _
      rw [← hr]
      simp only [Bool.and_eq_true, decide_eq_true_eq]
      constructor
      · rintro ⟨_, h⟩; exact h
      · intro h'; exact ⟨h i h'.1 h'.2, h'⟩
    rw [e]
    rcases hb with rfl | hb
    · rw [List.countP_eq_zero]; intro i _; simp
    · exact countP_interval _ _ _ hb
  · rename_i hdc
    rw [List.countP_eq_zero]
    intro i _
    simp only [Bool.and_eq_true, decide_eq_true_eq, not_and]
    intro hc h1 h2
    rw [h i h1 h2] at hc
    exact hdc (Option.some.inj hc)

/-- Pairs of ranges that do not overlap delete an even number of each character. -/
theorem pairs_even {s : Str} {rs : List Range} (h : PairsOk s rs) (c : Char) : rs.Pairwise Apart →
    (List.range s.length).countP (fun i => decide (s[i]? = some c) && rs.any (fun r => decide (r.1 ≤ i) && decide (i < r.2))) % 2 = 0 := by
  induction h with
  | nil =>
    intro _
    have : (List.range s.length).countP (fun i => decide (s[i]? = some c) && ([] : List Range).any (fun r => decide (r.1 ≤ i) && decide (i < r.2))) = 0 := by
      rw [List.countP_eq_zero]; intro i _; simp
    rw [this]
  | @snoc rs r r' h1 h2 ih =>
    intro hp
    rw [List.pairwise_append] at hp
    obtain ⟨hp1, hp2, hp3⟩ := hp
    have ih := ih hp1
    obtain ⟨d, u, -, -, e1, e2, hlt, ha, hb⟩ := h2
    have hr := hp3
    have split1 : ∀ i, (decide (s[i]? = some c) && (rs ++ [r, r']).any (fun r => decide (r.1 ≤ i) && decide (i < r.2))) =
        ((decide (s[i]? = some c) && rs.any (fun r => decide (r.1 ≤ i) && decide (i < r.2))) ||
          ((decide (s[i]? = some c) && (decide (r.1 ≤ i) && decide (i < r.2))) || (decide (s[i]? = some c) && (decide (r'.1 ≤ i) && decide (i < r'.2))))) := by
      intro i
      rw [List.any_append]
      simp only [List.any_cons, List.any_nil, Bool.or_false]
      cases decide (s[i]? = some c) <;> simp
    rw [show (fun i => decide (s[i]? = some c) && (rs ++ [r, r']).any (fun r => decide (r.1 ≤ i) && decide (i < r.2))) = _ from funext split1]
    rw [countP_or, countP_or, countP_range e1 ha, countP_range e2 hb]
    · split <;> omega
    · intro i _
      simp only [Bool.and_eq_true, decide_eq_true_eq]
      omega
    · intro i _
      simp only [Bool.and_eq_true, Bool.or_eq_true, decide_eq_true_eq, List.any_eq_true]
      rintro ⟨⟨-, q, hq, h3, h4⟩, h5⟩
      have q1 := hr q hq r (by simp) i
      have q2 := hr q hq r' (by simp) i
      unfold InRange at q1 q2
      omega

/-! ### One-sided delimiters -/

/-- A run that cannot both open and close. -/
def OneWay (d : Delim) : Prop := ¬ (d.canOpen = true ∧ d.canClose = true)

/-- The characters of the run that are still there. -/
def Free (d : Delim) (i : Nat) : Prop :=
  if d.canClose then d.pos + d.offset ≤ i ∧ i < d.pos + d.length else d.pos ≤ i ∧ i < d.pos + d.inlLen

/-- Nothing that is left has been removed. -/
structure Fresh (ds : List Delim) (ig : List Range) : Prop where
  oneWay : ∀ d ∈ ds, OneWay d
  apart : ig.Pairwise Apart
  free : ∀ r ∈ ig, ∀ d ∈ ds, ∀ i, InRange r i → ¬ Free d i

theorem Fresh.sub {ds es : List Delim} {ig : List Range} (h : Fresh ds ig) (hs : ∀ d ∈ es, d ∈ ds) : Fresh es ig :=
  ⟨fun d hd => h.oneWay d (hs d hd), h.apart, fun r hr d hd => h.free r hr d (hs d hd)⟩

theorem free_run {data : Str} {d : Delim} (h : DelimOk data d) {i : Nat} (hf : Free d i) : d.pos ≤ i ∧ i < d.pos + d.length := by
  have := h.count
  unfold Free at hf
  split at hf <;> omega

theorem Ordered.mem {older rest : List Delim} {o c : Delim} (h : Ordered (o :: older) (c :: rest)) :
    (∀ d ∈ older, d.pos + d.length ≤ o.pos) ∧ (∀ d ∈ rest, c.pos + c.length ≤ d.pos) ∧ (∀ d ∈ older, d.pos + d.length ≤ c.pos) ∧
      (∀ d ∈ rest, o.pos + o.length ≤ d.pos) := by
  unfold Ordered Sorted at h
  simp only [List.reverse_cons, List.append_assoc, List.singleton_append, List.pairwise_append, List.pairwise_cons, List.mem_cons, List.pairwise_reverse, List.mem_reverse] at h
  obtain ⟨h1, ⟨h2, h3, h4⟩, h5⟩ := h
  exact ⟨h3, fun d hd => h5 d hd c (.inl rfl), fun d hd => h2 d (.inr hd), fun d hd => h5 d hd o (.inr (.inl rfl))⟩

theorem opener_canOpen {o c : Delim} (h : openerMatches o c = true) : o.canOpen = true := by
  unfold openerMatches at h
  simp only [Bool.and_eq_true] at h
  exact h.1.1

/-- Using an opener and a closer. -/
theorem Fresh.use {data : Str} {o c : Delim} {below rest : List Delim} {ig : List Range} (h : Fresh ((o :: below) ++ (c :: rest)) ig)
    (hd : ∀ d ∈ (o :: below) ++ (c :: rest), DelimOk data d) (ho : Ordered (o :: below) (c :: rest)) (hopen : o.canOpen = true) (hclose : c.canClose = true) :
    Fresh (keepDelim (o.consume (useDelims o c)) below ++ keepDelim (c.consume (useDelims o c)) rest) (ig ++ emphRanges o c (useDelims o c)) := by
  have hdo := hd o (by simp)
  have hdc := hd c (by simp)
  obtain ⟨u1, u2, u3⟩ := useDelims_le hdo hdc
  have cnto := hdo.count
  have cntc := hdc.count
  have hlt := ho.lt
  obtain ⟨m1, m2, m3, m4⟩ := ho.mem
  have hoo : o.canClose = false := by
    have := h.oneWay o (by simp)
    unfold OneWay at this
    cases hq : o.canClose
    · rfl
    · exact absurd ⟨hopen, hq⟩ this
  generalize hu : useDelims o c = u at *
  have hmem : ∀ d ∈ keepDelim (o.consume u) below ++ keepDelim (c.consume u) rest, d = o.consume u ∨ d ∈ below ∨ d = c.consume u ∨ d ∈ rest := by
    intro d hd
    rcases List.mem_append.mp hd with hd | hd
    · rcases List.mem_cons.mp ((keep_sublist _ _).subset hd) with hd | hd
      · exact .inl hd
      · exact .inr (.inl hd)
    · rcases List.mem_cons.mp ((keep_sublist _ _).subset hd) with hd | hd
      · exact .inr (.inr (.inl hd))
      · exact .inr (.inr (.inr hd))
  have er : emphRanges o c u = [(o.pos + o.inlLen - u, o.pos + o.inlLen), (c.pos + c.offset, c.pos + c.offset + u)] := by
    unfold emphRanges
    have e1 : o.pos + o.length - u - o.offset = o.pos + o.inlLen - u := by omega
    have e2 : o.pos + o.length - o.offset = o.pos + o.inlLen := by omega
    have e3 : c.pos + u + c.offset = c.pos + c.offset + u := by omega
    rw [e1, e2, e3]
  -- the new ranges consist of free characters
  have f1 : ∀ i, InRange (o.pos + o.inlLen - u, o.pos + o.inlLen) i → Free o i := by
    intro i hi
    unfold Free
    rw [hoo]
    simp only [InRange] at hi
    simp
    omega
  have f2 : ∀ i, InRange (c.pos + c.offset, c.pos + c.offset + u) i → Free c i := by
    intro i hi
    unfold Free
    rw [hclose]
    simp only [InRange] at hi
    simp
    omega
  refine ⟨?_, ?_, ?_⟩
  · intro d hd'
    rcases hmem d hd' with rfl | hd' | rfl | hd'
    · exact h.oneWay o (by simp)
    · exact h.oneWay d (by simp [hd'])
    · exact h.oneWay c (by simp)
    · exact h.oneWay d (by simp [hd'])
  · rw [List.pairwise_append]
    refine ⟨h.apart, ?_, ?_⟩
    · rw [er]
      refine List.Pairwise.cons ?_ (List.pairwise_singleton _ _)
      intro r hr
      rw [List.mem_singleton] at hr
      subst hr
      intro i hi
      unfold InRange at hi
      simp only at hi
      omega
    · intro r hr r' hr'
      rw [er] at hr'
      simp only [List.mem_cons, List.not_mem_nil, or_false] at hr'
      rcases hr' with rfl | rfl
      · exact fun i hi => h.free r hr o (by simp) i hi.1 (f1 i hi.2)
      · exact fun i hi => h.free r hr c (by simp) i hi.1 (f2 i hi.2)
  · intro r hr d hd' i hi hf
    rcases List.mem_append.mp hr with hr | hr
    · rcases hmem d hd' with rfl | hd' | rfl | hd'
      · refine h.free r hr o (by simp) i hi ?_
        unfold Free at hf ⊢
        simp only [Delim.consume, hoo] at hf ⊢
        simp at hf ⊢
        omega
      · exact h.free r hr d (by simp [hd']) i hi hf
      · refine h.free r hr c (by simp) i hi ?_
        unfold Free at hf ⊢
        simp only [Delim.consume, hclose] at hf ⊢
        simp at hf ⊢
        omega
      · exact h.free r hr d (by simp [hd']) i hi hf
    · rw [er] at hr
      simp only [List.mem_cons, List.not_mem_nil, or_false] at hr
      rcases hr with rfl | rfl
      · have fo := free_run hdo (f1 i hi)
        unfold InRange at hi
        simp only at hi
        rcases hmem d hd' with rfl | hd' | rfl | hd'
        · unfold Free at hf
          simp only [Delim.consume, hoo] at hf
          simp at hf
          omega
        · have := free_run (hd d (by simp [hd'])) hf
          have := m1 d hd'
          omega
        · unfold Free at hf
          simp only [Delim.consume, hclose] at hf
          simp at hf
          omega
        · have := free_run (hd d (by simp [hd'])) hf
          have := m4 d hd'
          omega
      · have fo := free_run hdc (f2 i hi)
        unfold InRange at hi
        simp only at hi
        rcases hmem d hd' with rfl | hd' | rfl | hd'
        · unfold Free at hf
          simp only [Delim.consume, hoo] at hf
          simp at hf
          omega
        · have := free_run (hd d (by simp [hd'])) hf
          have := m3 d hd'
          omega
        · unfold Free at hf
          simp only [Delim.consume, hclose] at hf
          simp at hf
          omega
        · have := free_run (hd d (by simp [hd'])) hf
          have := m2 d hd'
          omega

theorem emphLoop_fresh {data : Str} (f : Nat) : ∀ {older newer : List Delim} {bots : Nat → Option Nat} {ig : List Range} {ds : List Delim} {ig' : List Range},
    (∀ d ∈ older, DelimOk data d) → (∀ d ∈ newer, DelimOk data d) → Ordered older newer → Fresh (older ++ newer) ig →
    emphLoop f older newer bots ig = .ok (ds, ig') → Fresh ds ig' := by
  induction f with
  | zero => intro older newer bots ig ds ig' _ _ _ _ h; simp [emphLoop] at h
  | succ f ih =>
    intro older newer bots ig ds ig' h1 h2 h3 h4 h
    cases newer with
    | nil =>
      unfold emphLoop at h
      simp at h
      obtain ⟨rfl, rfl⟩ := h
      simpa using h4
    | cons c rest =>
      have hc := h2 c (by simp)
      have hr : ∀ d ∈ rest, DelimOk data d := fun d hd => h2 d (by simp [hd])
      have hco : ∀ d ∈ c :: older, DelimOk data d := by
        intro d hd
        rcases List.mem_cons.mp hd with rfl | hd
        · exact hc
        · exact h1 d hd
      have hfs : Fresh ((c :: older) ++ rest) ig := h4.sub (by
        intro d hd
        simp only [List.cons_append, List.mem_cons, List.mem_append] at hd ⊢
        tauto)
      have hfk : Fresh (older ++ rest) ig := h4.sub (by
        intro d hd
        simp only [List.mem_cons, List.mem_append] at hd ⊢
        tauto)
      unfold emphLoop at h
      split at h
      · rename_i hcl
        simp only [bind, Except.bind] at h
        split at h
        · simp at h
        · rename_i idx _
          split at h
          · rename_i o below hf
            obtain ⟨sk, e, hm⟩ := findOpener_spec hf
            subst e
            have ho := h1 o (by simp)
            have h3' : Ordered (o :: below) (c :: rest) := h3.sub (List.sublist_append_right _ _) (List.Sublist.refl _)
            obtain ⟨u1, u2, -⟩ := useDelims_le ho hc
            have hf' : Fresh ((o :: below) ++ (c :: rest)) ig := h4.sub (by
              intro d hd
              simp only [List.cons_append, List.mem_cons, List.mem_append] at hd ⊢
              tauto)
            exact ih (ho.keep u1 (fun d hd => h1 d (by simp [hd]))) (hc.keep u2 hr)
              ((h3'.consume (u := useDelims o c) (v := useDelims o c)).sub (keep_sublist _ _) (keep_sublist _ _))
              (hf'.use (data := data) (by
                intro d hd
                rcases List.mem_append.mp hd with hd | hd
                · exact h1 d (List.mem_append_right _ hd)
                · exact h2 d hd) h3' (opener_canOpen hm) hcl) h
          · split at h
            · exact ih hco hr h3.shift hfs h
            · exact ih h1 hr h3.skip hfk h
      · exact ih hco hr h3.shift hfs h

/-- The invariant: nothing overlaps. -/
structure SubjFresh (s : Subj) : Prop where
  fresh : Fresh s.delims s.ignore
  bound : ∀ r ∈ s.ignore, r.2 ≤ s.pos

theorem emphLoop_bound {data : Str} {e : Nat} (f : Nat) : ∀ {older newer : List Delim} {bots : Nat → Option Nat} {ig : List Range} {ds : List Delim} {ig' : List Range},
    (∀ d ∈ older, DelimOk data d ∧ d.pos + d.length ≤ e) → (∀ d ∈ newer, DelimOk data d ∧ d.pos + d.length ≤ e) → (∀ r ∈ ig, r.2 ≤ e) →
    emphLoop f older newer bots ig = .ok (ds, ig') → ∀ r ∈ ig', r.2 ≤ e := by
  induction f with
  | zero => intro older newer bots ig ds ig' _ _ _ h; simp [emphLoop] at h
  | succ f ih =>
    intro older newer bots ig ds ig' h1 h2 h4 h
    cases newer with
    | nil =>
      unfold emphLoop at h
      simp at h
      obtain ⟨rfl, rfl⟩ := h
      exact h4
    | cons c rest =>
      have hc := h2 c (by simp)
      have hr : ∀ d ∈ rest, DelimOk data d ∧ d.pos + d.length ≤ e := fun d hd => h2 d (by simp [hd])
      have hco : ∀ d ∈ c :: older, DelimOk data d ∧ d.pos + d.length ≤ e := by
        intro d hd
        rcases List.mem_cons.mp hd with rfl | hd
        · exact hc
        · exact h1 d hd
      unfold emphLoop at h
      split at h
      · simp only [bind, Except.bind] at h
        split at h
        · simp at h
        · split at h
          · rename_i o below hf
            obtain ⟨sk, e', hm⟩ := findOpener_spec hf
            subst e'
            have ho := h1 o (by simp)
            obtain ⟨u1, u2, -⟩ := useDelims_le ho.1 hc.1
            have c1 := ho.1.count
            have c2 := hc.1.count
            refine ih ?_ ?_ ?_ h
            · intro d hd
              refine ⟨ho.1.keep u1 (fun d hd => (h1 d (by simp [hd])).1) d hd, ?_⟩
              rcases List.mem_cons.mp ((keep_sublist _ _).subset hd) with rfl | hd
              · exact ho.2
              · exact (h1 d (by simp [hd])).2
            · intro d hd
              refine ⟨hc.1.keep u2 (fun d hd => (hr d hd).1) d hd, ?_⟩
              rcases List.mem_cons.mp ((keep_sublist _ _).subset hd) with rfl | hd
              · exact hc.2
              · exact (hr d hd).2
            · intro r hr'
              rcases List.mem_append.mp hr' with hr' | hr'
              · exact h4 r hr'
              · unfold emphRanges at hr'
                simp only [List.mem_cons, List.not_mem_nil, or_false] at hr'
                rcases hr' with rfl | rfl <;> simp only <;> omega
          · split at h
            · exact ih hco hr h4 h
            · exact ih h1 hr h4 h
      · exact ih hco hr h4 h

theorem processEmphasis_fresh {s s' : Subj} {b : Option Nat} (hs : SubjOk s) (hf : SubjFresh s) (h : processEmphasis s b = .ok s') : SubjFresh s' := by
  unfold processEmphasis at h
  split at h
  · injection h with h
    subst h
    exact ⟨hf.fresh.sub (by simp), hf.bound⟩
  · rename_i older newer hsp
    simp only [bind, Except.bind] at h
    split at h
    · simp at h
    · rename_i v hv
      obtain ⟨ds, ig⟩ := v
      injection h with h
      subst h
      have e := splitAtBottom_spec hsp
      have hd := hs.delims
      have hso := hs.sorted
      have hb := hs.before
      have hfr := hf.fresh
      rw [e] at hd hso hb hfr
      have hfr' : Fresh (older ++ newer) s.ignore := hfr.sub (by
        intro d hd
        simp only [List.mem_append, List.mem_reverse] at hd ⊢
        tauto)
      have a := emphLoop_fresh _ (fun d hd' => hd d (by simp [hd'])) (fun d hd' => hd d (by simp [hd'])) hso hfr' hv
      have a4 := emphLoop_bound (data := s.data) (e := s.pos) _ (fun d hd' => ⟨hd d (by simp [hd']), hb d (by simp [hd'])⟩) (fun d hd' => ⟨hd d (by simp [hd']), hb d (by simp [hd'])⟩) hf.bound hv
      refine ⟨a.sub ?_, a4⟩
      cases b with
      | none => simp
      | some b => exact fun d hd' => (List.dropWhile_sublist _).subset hd'

theorem SubjFresh.move {s s' : Subj} (hs : SubjFresh s) (h2 : s.pos ≤ s'.pos) (h3 : s'.delims = s.delims) (h4 : s'.ignore = s.ignore) : SubjFresh s' := by
  refine ⟨?_, ?_⟩
  · rw [h3, h4]; exact hs.fresh
  · rw [h4]; intro r hr; have := hs.bound r hr; omega

/-- Where the parser meets a run, the run is one-sided. -/
def RunsOneWay (E : Env) (data : Str) : Prop :=
  ∀ (s : Subj) (c : Char), s.data = data → s.len = rtrimLen data → peek s = some c → c = '*' ∨ c = '_' →
    ¬ ((scanDelims E s c).2.1 = true ∧ (scanDelims E s c).2.2 = true)

theorem handleDelim_fresh {E : Env} {s : Subj} {c : Char} (hp : peek s = some c) (hlen : s.len = rtrimLen s.data) (hr : RunsOneWay E s.data) (hf : SubjFresh s)
    (hc : c = '*' ∨ c = '_' ∨ c = '\'' ∨ c = '"') : SubjFresh (handleDelim E s c) := by
  have hone := hr s c rfl hlen hp
  unfold handleDelim
  generalize scanDelims E s c = r at hone ⊢
  obtain ⟨n, o, cl⟩ := r
  simp only at hone ⊢
  split
  · rename_i hq
    simp only [Bool.and_eq_true, Bool.not_eq_true', Bool.or_eq_false_iff, beq_eq_false_iff_ne] at hq
    obtain ⟨-, hq1, hq2⟩ := hq
    have hc : c = '*' ∨ c = '_' := by
      rcases hc with h | h | h | h
      · exact .inl h
      · exact .inr h
      · exact absurd h hq1
      · exact absurd h hq2
    have hone := hone hc
    refine ⟨⟨?_, hf.fresh.apart, ?_⟩, ?_⟩
    · intro d hd
      rcases List.mem_cons.mp hd with rfl | hd
      · exact hone
      · exact hf.fresh.oneWay d hd
    · intro r hr' d hd i hi hfree
      rcases List.mem_cons.mp hd with rfl | hd
      · have := hf.bound r hr'
        unfold InRange at hi
        unfold Free at hfree
        simp only at hfree
        split at hfree <;> omega
      · exact hf.fresh.free r hr' d hd i hi hfree
    · intro r hr'
      have := hf.bound r hr'
      simp only
      omega
  · exact hf.move (by simp only; omega) rfl rfl

theorem handleCloseBracket_fresh {E : Env} {s s' : Subj} (hs : SubjOk s) (hf : SubjFresh s) (h : handleCloseBracket E s = .ok s') : SubjFresh s' := by
  unfold handleCloseBracket at h
  simp only at h
  split at h
  · injection h with h; subst h; exact hf.move (by simp) rfl rfl
  · rename_i opener bs _
    split at h
    · injection h with h; subst h; exact hf.move (by simp) rfl rfl
    · simp only [bind, Except.bind] at h
      cases hi : inlineLink E { s with pos := s.pos + 1 } with
      | error e => rw [hi] at h; simp at h
      | ok r =>
        rw [hi] at h
        cases r with
        | none =>
          simp only at h
          split at h
          · simp at h
          · injection h with h; subst h; exact hf.move (by simp) rfl rfl
        | some p =>
          simp only at h
          split at h
          · simp at h
          · rename_i s1 hp
            injection h with h
            subst h
            have hpos := inlineLink_pos hi
            have hmv : SubjOk { s with pos := p } := hs.move rfl (by simp only at hpos ⊢; omega) rfl rfl
            have hmf : SubjFresh { s with pos := p } := hf.move (by simp only at hpos ⊢; omega) rfl rfl
            exact (processEmphasis_fresh hmv hmf hp).move (Nat.le_refl _) rfl rfl

theorem parseInline_fresh {E : Env} {s s' : Subj} {c : Char} (hp : peek s = some c) (hs : SubjOk s) (hlen : s.len = rtrimLen s.data) (hr : RunsOneWay E s.data)
    (hf : SubjFresh s) (h : parseInline E s c = .ok s') : SubjFresh s' := by
  have hm := parseInline_moves hp h
  have hmove : s'.delims = s.delims → s'.ignore = s.ignore → SubjFresh s' := fun a b => hf.move (by have := hm.2.2; omega) a b
  unfold parseInline at h
  by_cases hc : c = '\r' ∨ c = '\n'
  · rw [if_pos hc] at h; exact hmove (handleNewline_same h).1 (handleNewline_same h).2.1
  rw [if_neg hc] at h; clear hc
  by_cases hc : c = '`'
  · rw [if_pos hc] at h; exact hmove (handleBackticks_same h).1 (handleBackticks_same h).2.1
  rw [if_neg hc] at h; clear hc
  by_cases hc : c = '\\'
  · rw [if_pos hc] at h; injection h with h; subst h; exact hmove (handleBackslash_same s).1 (handleBackslash_same s).2.1
  rw [if_neg hc] at h; clear hc
  by_cases hc : c = '&'
  · rw [if_pos hc] at h; exact hmove (handleEntity_same h).1 (handleEntity_same h).2.1
  rw [if_neg hc] at h; clear hc
  by_cases hc : c = '<'
  · rw [if_pos hc] at h; exact hmove (handlePointyBrace_same h).1 (handlePointyBrace_same h).2.1
  rw [if_neg hc] at h; clear hc
  by_cases hc : c = '*' ∨ c = '_' ∨ c = '\'' ∨ c = '"'
  · rw [if_pos hc] at h; injection h with h; subst h; exact handleDelim_fresh hp hlen hr hf hc
  rw [if_neg hc] at h; clear hc
  by_cases hc : c = '-'
  · rw [if_pos hc] at h; injection h with h; subst h; exact hmove rfl rfl
  rw [if_neg hc] at h; clear hc
  by_cases hc : c = '.'
  · rw [if_pos hc] at h; injection h with h; subst h; exact hmove rfl rfl
  rw [if_neg hc] at h; clear hc
  by_cases hc : c = '['
  · rw [if_pos hc] at h; injection h with h; subst h; exact hmove rfl rfl
  rw [if_neg hc] at h; clear hc
  by_cases hc : c = ']'
  · rw [if_pos hc] at h; exact handleCloseBracket_fresh hs hf h
  rw [if_neg hc] at h; clear hc
  by_cases hc : c = '!'
  · rw [if_pos hc] at h; injection h with h; subst h; exact hmove rfl rfl
  rw [if_neg hc] at h; clear hc
  simp only [bind, Except.bind] at h
  split at h
  · simp at h
  · injection h with h; subst h; exact hmove rfl rfl

theorem inlinesLoop_fresh {E : Env} (f : Nat) : ∀ {s s' : Subj}, SubjOk s → s.len = rtrimLen s.data → RunsOneWay E s.data → SubjFresh s →
    inlinesLoop E f s = .ok s' → SubjFresh s' := by
  induction f with
  | zero => intro s s' _ _ _ _ h; simp [inlinesLoop] at h
  | succ f ih =>
    intro s s' hs hlen hr hf h
    unfold inlinesLoop at h
    split at h
    · injection h with h; subst h; exact hf
    · rename_i c hp
      simp only [bind, Except.bind] at h
      split at h
      · simp at h
      · rename_i s1 h1
        obtain ⟨m1, m2, m3⟩ := parseInline_moves hp h1
        exact ih (parseInline_ok hp hs h1) (by rw [m1, m2]; exact hlen) (by rw [m1]; exact hr) (parseInline_fresh hp hs hlen hr hf h1) h

theorem parseInlines_apart {E : Env} {line : Str} {rs : List Range} (hr : RunsOneWay E line) (h : parseInlines E line = .ok rs) : rs.Pairwise Apart := by
  unfold parseInlines at h
  simp only [bind, Except.bind] at h
  split at h
  · simp at h
  · rename_i s hs
    split at h
    · simp at h
    · rename_i s' hs'
      injection h with h
      subst h
      have h0 : SubjFresh (initSubj line) := ⟨⟨by simp [initSubj], List.Pairwise.nil, by simp [initSubj]⟩, by simp [initSubj]⟩
      have a := (inlinesLoop_ok _ (initSubj_ok line) hs).1
      have b := inlinesLoop_fresh _ (initSubj_ok line) rfl hr h0 hs
      exact (processEmphasis_fresh a b hs').fresh.apart

/-! ### The condition on the text -/

theorem white_space {c : Char} (h : AsciiWhite c) : isSpace c = true := by
  rcases h with rfl | rfl | rfl | rfl | rfl <;> decide

theorem white_ascii {c : Char} (h : AsciiWhite c) : c.toNat < 128 := by
  rcases h with rfl | rfl | rfl | rfl | rfl <;> decide

theorem punct_ascii {c : Char} (h : AsciiPunct c) : c.toNat < 128 := by
  unfold AsciiPunct at h; omega

theorem punct_iff {c : Char} : AsciiPunct c ↔ isPunct c = true := by
  unfold AsciiPunct isPunct isAsciiPunct
  simp only [Bool.or_eq_true, Bool.and_eq_true, decide_eq_true_eq, or_assoc]

theorem beforeChar_ascii {c : Char} {t : Str} (h : c.toNat < 128) : beforeChar (c :: t) = c := by
  cases t with
  | nil => rfl
  | cons d t =>
    unfold beforeChar
    rw [if_neg (by omega)]

theorem rtrim_split (data : Str) : ∃ t, data = data.take (rtrimLen data) ++ t ∧ ∀ c ∈ t, isSpace c = true := by
  obtain ⟨t, e, ht, -⟩ := rstrip_eq isSpace data
  refine ⟨t, ?_, ht⟩
  have : data.take (rtrimLen data) = rstrip isSpace data := by
    exact (List.prefix_iff_eq_take.mp (rstrip_prefix isSpace data)).symm
  rw [this]
  exact e

theorem takeWhile_replicate (c : Char) : ∀ (t : Str), t.takeWhile (· == c) = List.replicate (t.takeWhile (· == c)).length c := by
  intro t
  induction t with
  | nil => rfl
  | cons d t ih =>
    rw [List.takeWhile_cons]
    split
    · rename_i hd
      have : d = c := by simpa using hd
      subst this
      rw [List.length_cons, List.replicate_succ]
      congr 1
    · rfl

theorem oneSided_runs {E : Env} {line : Str} (h : OneSided E.isPCat line) : RunsOneWay E line := by
  intro s c hd hlen hp hc
  obtain ⟨t, ht⟩ := restFrom_pos hp
  have hq : ¬ (c = '\'' ∨ c = '"') := by rcases hc with rfl | rfl <;> decide
  -- the run and what follows
  have hrun : restFrom s s.pos = List.replicate ((restFrom s s.pos).takeWhile (· == c)).length c ++ (restFrom s s.pos).dropWhile (· == c) := by
    rw [← takeWhile_replicate, List.takeWhile_append_dropWhile]
  generalize hn : ((restFrom s s.pos).takeWhile (· == c)).length = n at hrun
  generalize hy : (restFrom s s.pos).dropWhile (· == c) = y at hrun
  have hn1 : 1 ≤ n := by rw [← hn, ht]; simp
  have hyc : y.head? ≠ some c := by
    rw [← hy]
    intro he
    have := List.head?_dropWhile_not (· == c) (restFrom s s.pos)
    rw [he] at this
    simp at this
  have hrl : runLength c (restFrom s s.pos) = n := by
    unfold runLength
    rw [if_neg hq, hn]
  have hafter : restFrom s (s.pos + n) = y := by
    have : restFrom s (s.pos + n) = (restFrom s s.pos).drop n := by
      unfold restFrom; rw [List.drop_drop]
    rw [this, hrun]
    simp
  obtain ⟨tail, e, htail⟩ := rtrim_split line
  have hpos := (peek_some hp).1
  have hline : line = line.take s.pos ++ List.replicate n c ++ (y ++ tail) := by
    have e1 : line.take (rtrimLen line) = (line.take (rtrimLen line)).take s.pos ++ (line.take (rtrimLen line)).drop s.pos := by rw [List.take_append_drop]
    have e2 : (line.take (rtrimLen line)).take s.pos = line.take s.pos := by
      rw [List.take_take]; congr 1; omega
    have e3 : (line.take (rtrimLen line)).drop s.pos = List.replicate n c ++ y := by
      have : restFrom s s.pos = (line.take (rtrimLen line)).drop s.pos := by unfold restFrom; rw [hd, hlen]
      rw [← this]; exact hrun
    rw [e2, e3] at e1
    conv_lhs => rw [e, e1]
    simp
  have hh : (y ++ tail).head? ≠ some c := by
    cases y with
    | cons a y => simpa using hyc
    | nil =>
      cases tail with
      | nil => simp
      | cons a tl =>
        simp
        rintro rfl
        have := htail a (by simp)
        rcases hc with rfl | rfl <;> revert this <;> decide
  have key := h (line.take s.pos) c (n - 1) (y ++ tail) (by rw [show n - 1 + 1 = n by omega]; exact hline) hc hh
  -- the decision
  generalize hb : (if s.pos = 0 then '\n' else beforeChar (s.data.take s.pos).reverse) = before
  have hdec : ∀ after, (isSpace after = true ∨ ((isUPunct E after = false) ∧ (isSpace before = true ∨ isUPunct E before = true))) →
      ¬ ((flanking E c before after n).1 = true ∧ (flanking E c before after n).2 = true) := by
    intro after hside
    unfold flanking
    simp only
    rcases hside with hs | ⟨h1, hs | hs⟩
    · rcases hc with rfl | rfl
      · simp [hs]
      · simp [hs]
    · rcases hc with rfl | rfl
      · simp [hs]
      · simp [hs]
    · rcases hc with rfl | rfl
      · rw [if_neg (by decide), if_neg (by decide)]
        simp only [h1, hs]
        cases isSpace after <;> simp
      · rw [if_pos rfl]
        simp only [h1, hs]
        cases isSpace after <;> simp
  unfold scanDelims
  simp only [hrl, hafter, hb]
  cases y with
  | nil => exact hdec '\n' (.inl (by decide))
  | cons after y =>
    apply hdec
    clear hdec
    rcases key with key | ⟨k1, k2⟩
    · left
      exact white_space (key after (by simp))
    · right
      have k1 := k1 after (by simp)
      refine ⟨?_, ?_⟩
      · unfold isUPunct
        simp only [Bool.or_eq_false_iff, Bool.and_eq_false_iff]
        refine ⟨.inr ?_, k1.2⟩
        cases hpa : isPunct after
        · rfl
        · exact absurd (punct_iff.mpr hpa) k1.1
      · by_cases h0 : s.pos = 0
        · rw [if_pos h0] at hb
          rw [← hb]; left; decide
        · rw [if_neg h0, hd] at hb
          have hne : line.take s.pos ≠ [] := by
            intro he
            have := congrArg List.length he
            simp at this
            rcases this with h' | h'
            · exact h0 h'
            · rw [hlen] at hpos
              subst h'
              simp [rtrimLen, rstrip] at hpos
          obtain ⟨w, d, hw⟩ : ∃ w d, line.take s.pos = w ++ [d] := ⟨_, _, (List.dropLast_append_getLast hne).symm⟩
          have k2 := k2 d (by rw [hw]; simp)
          rw [hw] at hb
          simp only [List.reverse_append, List.reverse_cons, List.reverse_nil, List.nil_append, List.singleton_append] at hb
          rcases k2 with k2 | k2
          · rw [beforeChar_ascii (white_ascii k2)] at hb
            rw [← hb]; left; exact white_space k2
          · rw [beforeChar_ascii (punct_ascii k2)] at hb
            rw [← hb]; right
            unfold isUPunct
            simp [punct_ascii k2, punct_iff.mp k2]

end MdToc.Cmark
