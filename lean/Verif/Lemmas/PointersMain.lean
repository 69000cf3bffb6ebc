import Verif.Lemmas.Pointers

/-!
# The inline parser with linked lists does the same as the one with lists
-/

set_option linter.unusedSimpArgs false

namespace MdToc.Cmark

/-! ### The subject without its lists -/

/-- The subject without the lists. -/
def strip (s : Subj) : Subj := { s with delims := [], brackets := [], ignore := [] }

/-- A handler that does not use the lists. -/
def Blind (f : Subj → Except Exn Subj) (s : Subj) : Prop := f (strip s) = (f s).map strip

theorem handleNewline_blind (s : Subj) : Blind handleNewline s := by
  unfold Blind handleNewline
  simp only [strip]
  cases s.data[s.pos]? with
  | none => rfl
  | some c =>
    simp only
    cases s.data[if c = '\r' then s.pos + 1 else s.pos]? with
    | none => rfl
    | some d => rfl

theorem handleBackticks_blind (s : Subj) : Blind handleBackticks s := by
  unfold Blind handleBackticks
  have e : ∀ i, restFrom (strip s) i = restFrom s i := fun _ => rfl
  simp only [e]
  simp only [apply_ite (Except.map strip)]
  simp only [strip]
  congr 1
  congr 1
  generalize closingTicksLoop _ _ _ _ _ = r
  obtain ⟨a, bt⟩ := r
  cases a with
  | none => rfl
  | some x =>
    simp only [apply_ite (Except.map strip)]
    rfl

theorem handleBackslash_blind (s : Subj) : handleBackslash (strip s) = strip (handleBackslash s) := by
  unfold handleBackslash
  have e : ∀ n, peek { strip s with pos := n } = peek { s with pos := n } := fun _ => rfl
  have e' : (strip s).pos = s.pos := rfl
  simp only [e, e']
  cases peek { s with pos := s.pos + 1 } with
  | none => rfl
  | some c =>
    simp only [apply_ite strip]
    congr 1
    by_cases h : c = '\r'
    · simp only [h, if_true, e]; rfl
    · simp only [h, if_false, e]; rfl

theorem handleEntity_blind (E : Env) (s : Subj) : Blind (handleEntity E) s := by
  unfold Blind handleEntity
  have e : ∀ i, restFrom (strip s) i = restFrom s i := fun _ => rfl
  have e' : (strip s).pos = s.pos := rfl
  simp only [e, e']
  cases unescapeEnt E (restFrom s (s.pos + 1)) ⟨[], 0⟩ with
  | error e => rfl
  | ok r => rfl

/-- The subject of a pair without its lists. -/
def stripP (r : Nat × Subj) : Nat × Subj := (r.1, strip r.2)

theorem pointyHtml_blind (E : Env) (s : Subj) : pointyHtml E (strip s) = stripP (pointyHtml E s) := by
  unfold pointyHtml
  have e : ∀ i, restFrom (strip s) i = restFrom s i := fun _ => rfl
  have e2 : ∀ r i, scanAt E r (strip s) i = scanAt E r s i := fun _ _ => rfl
  have e' : (strip s).pos = s.pos := rfl
  simp only [e, e2, e']
  split
  · simp only [apply_ite stripP]
    rfl
  · rfl

theorem handlePointyBrace_blind (E : Env) (s : Subj) : Blind (handlePointyBrace E) s := by
  unfold Blind handlePointyBrace
  have e2 : ∀ r n i, scanAt E r { strip s with pos := n } i = scanAt E r { s with pos := n } i := fun _ _ _ => rfl
  have e3 : pointyHtml E { strip s with pos := (strip s).pos + 1 } = _ := pointyHtml_blind E { s with pos := s.pos + 1 }
  simp only [e2, e3]
  have e4 : (strip s).pos = s.pos := rfl
  have e5 : (strip s).data = s.data := rfl
  simp only [e4, e5, apply_ite (Except.map strip)]
  congr 1
  · cases makeAutolink E _ with
    | error e => rfl
    | ok r => rfl
  · congr 1
    cases makeAutolink E _ with
    | error e => rfl
    | ok r => rfl

theorem parseInline_blind (E : Env) (s : Subj) (c : Char) (h1 : ¬ (c = '*' ∨ c = '_' ∨ c = '\'' ∨ c = '"')) (h2 : c ≠ '[') (h3 : c ≠ ']') :
    parseInline E (strip s) c = (parseInline E s c).map strip := by
  unfold parseInline
  by_cases h : c = '\r' ∨ c = '\n'
  · rw [if_pos h, if_pos h]; exact handleNewline_blind s
  rw [if_neg h, if_neg h]; clear h
  by_cases h : c = '`'
  · rw [if_pos h, if_pos h]; exact handleBackticks_blind s
  rw [if_neg h, if_neg h]; clear h
  by_cases h : c = '\\'
  · rw [if_pos h, if_pos h, handleBackslash_blind]; rfl
  rw [if_neg h, if_neg h]; clear h
  by_cases h : c = '&'
  · rw [if_pos h, if_pos h]; exact handleEntity_blind E s
  rw [if_neg h, if_neg h]; clear h
  by_cases h : c = '<'
  · rw [if_pos h, if_pos h]; exact handlePointyBrace_blind E s
  rw [if_neg h, if_neg h, if_neg h1, if_neg h1]; clear h
  by_cases h : c = '-'
  · rw [if_pos h, if_pos h]; rfl
  rw [if_neg h, if_neg h]; clear h
  by_cases h : c = '.'
  · rw [if_pos h, if_pos h]; rfl
  rw [if_neg h, if_neg h, if_neg h2, if_neg h2, if_neg h3, if_neg h3]; clear h
  by_cases h : c = '!'
  · rw [if_pos h, if_pos h]; rfl
  rw [if_neg h, if_neg h]; clear h
  have e : ∀ i, restFrom (strip s) i = restFrom s i := fun _ => rfl
  have e' : (strip s).pos = s.pos := rfl
  simp only [e, e']
  cases findSpecialLoop (restFrom s (s.pos + 1)) (s.pos + 1) with
  | error e => rfl
  | ok r => rfl

theorem parseInline_lists' {E : Env} {s s' : Subj} {c : Char} (h1 : ¬ (c = '*' ∨ c = '_' ∨ c = '\'' ∨ c = '"')) (h2 : c ≠ '[') (h3 : c ≠ ']') (h : parseInline E s c = .ok s') :
    s'.delims = s.delims ∧ s'.ignore = s.ignore ∧ s'.brackets = s.brackets := by
  unfold parseInline at h
  by_cases hc : c = '\r' ∨ c = '\n'
  · rw [if_pos hc] at h; exact handleNewline_same h
  rw [if_neg hc] at h; clear hc
  by_cases hc : c = '`'
  · rw [if_pos hc] at h; exact handleBackticks_same h
  rw [if_neg hc] at h; clear hc
  by_cases hc : c = '\\'
  · rw [if_pos hc] at h; injection h with h; subst h; exact handleBackslash_same s
  rw [if_neg hc] at h; clear hc
  by_cases hc : c = '&'
  · rw [if_pos hc] at h; exact handleEntity_same h
  rw [if_neg hc] at h; clear hc
  by_cases hc : c = '<'
  · rw [if_pos hc] at h; exact handlePointyBrace_same h
  rw [if_neg hc, if_neg h1] at h; clear hc
  by_cases hc : c = '-'
  · rw [if_pos hc] at h; injection h with h; subst h; exact ⟨rfl, rfl, rfl⟩
  rw [if_neg hc] at h; clear hc
  by_cases hc : c = '.'
  · rw [if_pos hc] at h; injection h with h; subst h; exact ⟨rfl, rfl, rfl⟩
  rw [if_neg hc, if_neg h2, if_neg h3] at h; clear hc
  by_cases hc : c = '!'
  · rw [if_pos hc] at h; injection h with h; subst h; exact ⟨rfl, rfl, rfl⟩
  rw [if_neg hc] at h; clear hc
  simp only [bind, Except.bind] at h
  split at h
  · simp at h
  · injection h with h; subst h; exact ⟨rfl, rfl, rfl⟩

/-! ### New nodes -/

/-- A node for the text at `pos` was added, and maybe its attributes were set. -/
structure Ext (h h' : Heap) (pos : Nat) : Prop where
  dl : h'.dl = h.dl
  dfresh : h'.dfresh = h.dfresh
  last : h'.last = h.last
  br : h'.br = h.br
  bfresh : h'.bfresh = h.bfresh
  lastBr : h'.lastBr = h.lastBr
  ignore : h'.ignore = h.ignore
  text : ∀ x, x < h.tree.fresh → h'.text x = h.text x
  inl : ∀ p, p ≠ pos → h'.tree.inl p = h.tree.inl p
  fresh : h.tree.fresh ≤ h'.tree.fresh

theorem Ext.hpos {h h' : Heap} {pos n : Nat} (e : Ext h h' pos) (v : HInv h n) {i : Nat} (hi : i < h.dfresh) : hpos h' i = hpos h i := by
  unfold Cmark.hpos
  rw [e.dl, e.text _ (v.inlFresh i hi)]

theorem Ext.inv {h h' : Heap} {pos n m : Nat} (e : Ext h h' pos) (v : HInv h n) (hm : n ≤ m) : HInv h' m := by
  refine ⟨?_, ?_, ?_, ?_⟩
  · intro i j hij hj
    rw [e.dfresh] at hj
    rw [e.hpos v hj, e.hpos v (by omega)]
    exact v.mono i j hij hj
  · intro i j hij hj
    rw [e.dfresh] at hj
    rw [e.dl]
    exact v.inlMono i j hij hj
  · intro i hi
    rw [e.dfresh] at hi
    rw [e.dl]
    exact Nat.lt_of_lt_of_le (v.inlFresh i hi) e.fresh
  · intro i hi
    rw [e.dfresh] at hi
    rw [e.hpos v hi]
    have := v.lim i hi
    omega

theorem Ext.bot {h h' : Heap} {pos n : Nat} (e : Ext h h' pos) (v : HInv h n) {p q : Option Nat} (hb : RBot h p q) : RBot h' p q := by
  refine ⟨fun i hi => by rw [e.dfresh]; exact hb.1 i hi, ?_⟩
  rw [← hb.2]
  exact Option.map_congr (fun i hi => e.hpos v (hb.1 i hi))

theorem Ext.rd {h h' : Heap} {pos n : Nat} (e : Ext h h' pos) (v : HInv h n) (hn : n ≤ pos) {i : Nat} {d : Delim} (hi : i < h.dfresh) (hd : RD h i d) : RD h' i d := by
  have ht := e.text _ (v.inlFresh i hi)
  have hp : d.pos ≠ pos := by
    have := (v.lim i hi).2
    unfold Cmark.hpos at this
    rw [hd.start] at this
    omega
  exact ⟨by rw [e.dl, ht]; exact hd.start, by rw [e.dl, ht]; exact hd.stop, by rw [e.dl]; exact hd.len, by rw [e.dl, ht]; exact hd.inlLen, by rw [e.dl]; exact hd.ch,
    by rw [e.dl]; exact hd.canOpen, by rw [e.dl]; exact hd.canClose, by rw [e.dl]; exact hd.offset, hd.sum, by rw [e.inl _ hp, e.dl]; exact hd.inl⟩

theorem Ext.lr {h h' : Heap} {pos n : Nat} (e : Ext h h' pos) (v : HInv h n) (hn : n ≤ pos) {ids : List Nat} {ds : List Delim} (w : LR h ids [] ds []) : LR h' ids [] ds [] :=
  ⟨w.links.congr (fun _ => by rw [e.dl]) (fun _ => by rw [e.dl]) e.last, fun i hi => by rw [e.dfresh]; exact w.fresh i hi,
    forall₂_imp_mem w.old (fun i hi d hd => e.rd v hn (w.fresh i (by simpa using hi)) hd), .nil, w.pos⟩

/-! ### Brackets -/

/-- The brackets in the list, last one first. -/
def BChain (h : Heap) : List Nat → Prop
  | [] => True
  | b :: t => (h.br b).prev = t.head? ∧ b < h.bfresh ∧ (∀ x ∈ t, x < b) ∧ BChain h t

/-- The object `b` has the attributes of `b'`. -/
structure RB (h : Heap) (lim : Nat) (b : Nat) (b' : Bracket) : Prop where
  position : (h.br b).position = b'.position
  lo : 1 ≤ b'.position
  hi : b'.position ≤ lim
  active : (h.br b).active = b'.active
  after : (h.br b).bracketAfter = b'.bracketAfter
  image : (h.br b).image = false
  bot : RBot h (h.br b).prevDelim b'.prevDelim
  inl : h.tree.inl (b'.position - 1) = (h.br b).inl

theorem BChain.congr {h h' : Heap} (l : List Nat) : (∀ x ∈ l, (h'.br x).prev = (h.br x).prev) → h.bfresh ≤ h'.bfresh → BChain h l → BChain h' l := by
  induction l with
  | nil => intro _ _ _; trivial
  | cons b t ih =>
    rintro h1 h2 ⟨a1, a2, a3, a4⟩
    exact ⟨by rw [h1 b (by simp)]; exact a1, by omega, a3, ih (fun x hx => h1 x (by simp [hx])) h2 a4⟩

theorem BChain.mem_fresh {h : Heap} (l : List Nat) : BChain h l → ∀ x ∈ l, x < h.bfresh := by
  induction l with
  | nil => intro _ x hx; simp at hx
  | cons b t ih =>
    rintro ⟨a1, a2, a3, a4⟩ x hx
    rcases List.mem_cons.mp hx with rfl | hx
    · exact a2
    · exact ih a4 x hx

theorem BChain.length {h : Heap} (l : List Nat) (w : BChain h l) : l.length ≤ h.bfresh := by
  refine nodup_length ?_ (w.mem_fresh)
  induction l with
  | nil => exact List.nodup_nil
  | cons b t ih =>
    obtain ⟨a1, a2, a3, a4⟩ := w
    refine List.nodup_cons.mpr ⟨fun hc => ?_, ih a4⟩
    have := a3 b hc
    omega

theorem RB.frame {h h' : Heap} (w : Frame h h') {lim lim' b : Nat} {b' : Bracket} (v : RB h lim b b') (hl : lim ≤ lim') : RB h' lim' b b' :=
  ⟨by rw [w.br]; exact v.position, v.lo, Nat.le_trans v.hi hl, by rw [w.br]; exact v.active, by rw [w.br]; exact v.after, by rw [w.br]; exact v.image,
    by rw [w.br]; exact w.bot v.bot, by rw [w.br, w.treeInl]; exact v.inl⟩

theorem Ext.rb {h h' : Heap} {pos n : Nat} (e : Ext h h' pos) (v : HInv h n) {lim lim' b : Nat} {b' : Bracket} (w : RB h lim b b') (h1 : lim ≤ pos) (h2 : lim ≤ lim') : RB h' lim' b b' := by
  have a1 := w.lo
  have a2 := w.hi
  exact ⟨by rw [e.br]; exact w.position, w.lo, by omega, by rw [e.br]; exact w.active, by rw [e.br]; exact w.after, by rw [e.br]; exact w.image,
    by rw [e.br]; exact e.bot v w.bot, by rw [e.br, e.inl _ (by omega)]; exact w.inl⟩

theorem RB.withBr {h : Heap} {br : Nat → PBracket} {lim b : Nat} {b' : Bracket} (w : RB h lim b b') (he : br b = h.br b) : RB { h with br := br } lim b b' :=
  ⟨by show (br b).position = _; rw [he]; exact w.position, w.lo, w.hi, by show (br b).active = _; rw [he]; exact w.active, by show (br b).bracketAfter = _; rw [he]; exact w.after,
    by show (br b).image = _; rw [he]; exact w.image, by show RBot h (br b).prevDelim _; rw [he]; exact w.bot, by show _ = (br b).inl; rw [he]; exact w.inl⟩

/-- The loop that deactivates brackets. -/
theorem deactivateLoop_ok (lim : Nat) (bids : List Nat) : ∀ (h : Heap) (bs : List Bracket) (f : Nat), bids.length < f → BChain h bids → List.Forall₂ (RB h lim) bids bs →
    ∃ br, deactivateLoop f h bids.head? = .ok { h with br := br } ∧ (∀ x, x ∉ bids → br x = h.br x) ∧ (∀ x, (br x).prev = (h.br x).prev) ∧
      List.Forall₂ (RB { h with br := br } lim) bids (deactivate bs) := by
  induction bids with
  | nil =>
    intro h bs f hf w hr
    cases hr
    obtain ⟨f, rfl⟩ : ∃ g, f = g + 1 := ⟨f - 1, by omega⟩
    exact ⟨h.br, rfl, fun _ _ => rfl, fun _ => rfl, .nil⟩
  | cons b t ih =>
    intro h bs f hf w hr
    obtain ⟨a1, a2, a3, a4⟩ := w
    cases hr with
    | @cons _ b' _ t' h1 h2 =>
      obtain ⟨f, rfl⟩ : ∃ g, f = g + 1 := ⟨f - 1, by omega⟩
      simp only [List.head?_cons, deactivateLoop, deactivate, h1.image, h1.active, Bool.not_false, if_true, a1]
      by_cases hb : b'.active = true
      · simp only [hb, Bool.not_true, Bool.false_eq_true, if_false]
        have hbt : b ∉ t := fun hc => by have := a3 b hc; omega
        generalize hh : h.modB b (fun n => { n with active := false }) = h'
        have e1 : ∀ x, h'.br x = if x = b then { h.br x with active := false } else h.br x := fun x => by rw [← hh]; rfl
        have e2 : h' = { h with br := h'.br } := by rw [← hh]; rfl
        have ne : ∀ x ∈ t, h'.br x = h.br x := fun x hx => by rw [e1, if_neg]; rintro rfl; exact hbt hx
        have w' : BChain h' t := BChain.congr t (fun x hx => by rw [ne x hx]) (by rw [← hh]; exact Nat.le_refl _) a4
        have r' : List.Forall₂ (RB h' lim) t t' := forall₂_imp_mem h2 (fun x hx y hy => by rw [e2]; exact hy.withBr (ne x hx))
        obtain ⟨br, c1, c2, c3, c4⟩ := ih h' t' f (by simp at hf; omega) w' r'
        have eb : br b = { h.br b with active := false } := by rw [c2 b hbt, e1, if_pos rfl]
        have e3 : ({ h' with br := br } : Heap) = { h with br := br } := by rw [e2]
        rw [e3] at c1 c4
        refine ⟨br, c1, ?_, ?_, .cons ?_ c4⟩
        · intro x hx
          simp at hx
          rw [c2 x hx.2, e1, if_neg hx.1]
        · intro x
          rw [c3, e1]
          split <;> rfl
        · exact ⟨by show (br b).position = _; rw [eb]; exact h1.position, h1.lo, h1.hi, by show (br b).active = _; rw [eb], by show (br b).bracketAfter = _; rw [eb]; exact h1.after,
            by show (br b).image = _; rw [eb]; exact h1.image, by show RBot h (br b).prevDelim _; rw [eb]; exact h1.bot, by show _ = (br b).inl; rw [eb]; exact h1.inl⟩
      · rw [Bool.not_eq_true] at hb
        simp only [hb, Bool.not_false, if_true]
        exact ⟨h.br, rfl, fun _ _ => rfl, fun _ => rfl, .cons h1 h2⟩

theorem freeBrackets_ok (bids : List Nat) : ∀ (h : Heap) (f : Nat), bids.length < f → h.lastBr = bids.head? → BChain h bids →
    freeBrackets f h = .ok { h with lastBr := none } := by
  induction bids with
  | nil =>
    intro h f hf hl _
    obtain ⟨f, rfl⟩ : ∃ g, f = g + 1 := ⟨f - 1, by omega⟩
    simp only [List.head?_nil] at hl
    rw [freeBrackets, if_pos hl]
    congr 1
    cases h
    simp_all
  | cons b t ih =>
    rintro h f hf hl ⟨a1, a2, a3, a4⟩
    obtain ⟨f, rfl⟩ : ∃ g, f = g + 1 := ⟨f - 1, by omega⟩
    rw [freeBrackets, if_neg (by rw [hl]; simp)]
    have hp : popBracket h = { h with lastBr := t.head? } := by
      unfold popBracket
      rw [hl]
      simp only [List.head?_cons, a1]
    rw [hp, ih { h with lastBr := t.head? } f (by simp at hf; omega) rfl (BChain.congr (h := h) t (fun _ _ => rfl) (Nat.le_refl _) a4)]

/-! ### The state of the parser -/

/-- The subject with linked lists stands for the subject with lists. -/
structure SR (q : PSubj) (s : Subj) (t : Tree) : Prop where
  subj : q.s = strip s
  tree : q.h.tree = t
  ignore : q.h.ignore = s.ignore.map castR
  inv : HInv q.h s.pos
  dl : ∃ ids, LR q.h ids [] s.delims []
  br : ∃ bids, q.h.lastBr = bids.head? ∧ BChain q.h bids ∧ List.Forall₂ (RB q.h s.pos) bids s.brackets

theorem addLeaf_inl (t : Tree) (pos p : Nat) : (addLeaf t pos).inl p = if p = pos then t.fresh else t.inl p := by
  unfold addLeaf
  simp only [appendChild_inl]
  rfl

theorem addLeaf_fresh (t : Tree) (pos : Nat) : (addLeaf t pos).fresh = t.fresh + 1 := by
  unfold addLeaf
  simp only [appendChild_fresh]
  rfl

theorem addAutolink_inl (t : Tree) (pos p : Nat) (hp : p ≠ pos) : (addAutolink t pos).inl p = t.inl p := by
  unfold addAutolink
  simp only [appendChild_inl, if_neg hp]
  rfl

theorem addAutolink_fresh (t : Tree) (pos : Nat) : (addAutolink t pos).fresh = t.fresh + 2 := by
  unfold addAutolink
  simp only [appendChild_fresh]
  rfl

theorem ext_addText (h : Heap) (pos : Nat) (ec len : Int) : Ext h (addText h pos ec len) pos := by
  refine ⟨rfl, rfl, rfl, rfl, rfl, rfl, rfl, ?_, ?_, ?_⟩
  · intro x hx
    show (if x = h.tree.fresh then _ else _) = _
    rw [if_neg (by omega)]
  · intro p hp
    show (addLeaf h.tree (pos : Int).toNat).inl p = _
    rw [addLeaf_inl, if_neg (by simpa using hp)]
  · show _ ≤ (addLeaf h.tree (pos : Int).toNat).fresh
    rw [addLeaf_fresh]; omega

theorem addText_tree (h : Heap) (pos : Nat) (ec len : Int) : (addText h pos ec len).tree = addLeaf h.tree pos := rfl

/-- The parts of the relation after a new node. -/
theorem SR.ext {q : PSubj} {s : Subj} {t : Tree} (w : SR q s t) {h' : Heap} (e : Ext q.h h' s.pos) {m : Nat} (hm : s.pos ≤ m) :
    HInv h' m ∧ (∃ ids, LR h' ids [] s.delims []) ∧ (∃ bids, h'.lastBr = bids.head? ∧ BChain h' bids ∧ List.Forall₂ (RB h' m) bids s.brackets) := by
  obtain ⟨ids, hd⟩ := w.dl
  obtain ⟨bids, b1, b2, b3⟩ := w.br
  exact ⟨e.inv w.inv hm, ⟨ids, e.lr w.inv (Nat.le_refl _) hd⟩, bids, e.lastBr.trans b1, BChain.congr bids (fun _ _ => by rw [e.br]) (Nat.le_of_eq e.bfresh.symm) b2,
    b3.imp (fun _ _ hb => e.rb w.inv hb (Nat.le_refl _) hm)⟩

/-! ### `_cmark_handle_delim` -/

theorem pushDelimiter_rest (h : Heap) (c : Char) (o cl : Bool) (x : Nat) :
    (pushDelimiter h c o cl x).dfresh = h.dfresh + 1 ∧ (pushDelimiter h c o cl x).last = some h.dfresh ∧ (pushDelimiter h c o cl x).br = h.br ∧
    (pushDelimiter h c o cl x).bfresh = h.bfresh ∧ (pushDelimiter h c o cl x).lastBr = h.lastBr ∧ (pushDelimiter h c o cl x).text = h.text ∧
    (pushDelimiter h c o cl x).tree = h.tree ∧ (pushDelimiter h c o cl x).ignore = h.ignore := by
  unfold pushDelimiter
  cases h.last <;> exact ⟨rfl, rfl, rfl, rfl, rfl, rfl, rfl, rfl⟩

theorem pushDelimiter_dl (h : Heap) (c : Char) (o cl : Bool) (x : Nat) (hl : h.last ≠ some h.dfresh) (i : Nat) :
    (pushDelimiter h c o cl x).dl i = if i = h.dfresh then ⟨h.last, none, x, (h.text x).length, c, o, cl, 0⟩
      else if some i = h.last then { h.dl i with next := some h.dfresh } else h.dl i := by
  unfold pushDelimiter
  cases hll : h.last with
  | none => simp
  | some p =>
    rw [hll] at hl
    have hp : p ≠ h.dfresh := fun e => hl (by rw [e])
    simp only [modD_dl]
    by_cases hi : i = h.dfresh
    · rw [if_neg (by rw [hi]; exact fun e => hp e.symm), if_pos hi, if_pos hi]
    · rw [if_neg hi, if_neg hi]
      by_cases hip : i = p
      · rw [if_pos hip, if_pos (by rw [hip])]
      · rw [if_neg hip, if_neg (by simpa using hip)]

theorem links_push {h h' : Heap} {L : List Nat} (w : Links h L) {x : Nat} (hx : x ∉ L) (hl : h'.last = some x) (hd : ∀ i, i ≠ x → (h'.dl i).prev = (h.dl i).prev)
    (hn : ∀ i, i ≠ x → some i ≠ h.last → (h'.dl i).next = (h.dl i).next) (hm : ∀ i ∈ h.last, (h'.dl i).next = some x) (h1 : (h'.dl x).prev = h.last) (h2 : (h'.dl x).next = none) :
    Links h' (L ++ [x]) := by
  refine ⟨?_, by rw [hl]; simp, ?_⟩
  · rw [seg_append]
    have hne : ∀ i ∈ L, i ≠ x := fun i hi e => hx (e ▸ hi)
    refine ⟨seg_end L none none _ w.nodup (fun i hi hne' => hn i (hne i hi) (by rw [w.last]; exact hne')) (fun i hi => ?_) (fun i hi => hd i (hne i hi)) w.seg, ?_⟩
    · rw [hm i (by rw [w.last]; exact hi)]; rfl
    · refine ⟨?_, ?_, trivial⟩
      · show (h'.dl x).prev = _
        rw [h1, w.last]; simp
      · show (h'.dl x).next = _
        rw [h2]; rfl
  · rw [List.nodup_append]
    exact ⟨w.nodup, by simp, by intro a ha b hb; simp at hb; subst hb; exact fun e => hx (e ▸ ha)⟩

theorem handleDelimP_sim {E : Env} {q : PSubj} {s : Subj} {t : Tree} {c : Char} (w : SR q s t) (hp : peek s = some c) :
    SR (handleDelimP E q c) (handleDelim E s c) (addLeaf t s.pos) := by
  have hmv := handleDelim_moves (E := E) hp
  obtain ⟨rt, hrt⟩ := restFrom_pos hp
  have hn : (scanDelims E s c).1 = runLength c (restFrom s s.pos) := rfl
  have hn1 := runLength_pos c rt
  rw [hrt] at hn
  rw [← hn] at hn1
  have e1 : scanDelims E q.s c = scanDelims E s c := by rw [w.subj]; rfl
  have e2 : q.s.pos = s.pos := by rw [w.subj]; rfl
  unfold handleDelimP handleDelim
  rw [e1]
  generalize hsd : scanDelims E s c = r at hn1
  obtain ⟨n, o, cl⟩ := r
  simp only at hn1 ⊢
  rw [e2]
  have e3 : ((s.pos + n : Nat) : Int) - n = (s.pos : Nat) := by omega
  rw [e3]
  generalize hh1 : addText q.h (s.pos : Nat) (((s.pos + n : Nat) : Int) - 1) n = h1
  have ex : Ext q.h h1 s.pos := by rw [← hh1]; exact ext_addText _ _ _ _
  have ht1 : h1.tree = addLeaf q.h.tree s.pos := by rw [← hh1]; exact addText_tree _ _ _ _
  have hx : h1.text q.h.tree.fresh = ⟨n, (s.pos : Int) + 1, (s.pos : Int) + n⟩ := by
    rw [← hh1]
    show (if q.h.tree.fresh = q.h.tree.fresh then (⟨n, (s.pos : Int) + 1, ((s.pos + n : Nat) : Int) - 1 + 1⟩ : PText) else _) = _
    rw [if_pos rfl]
    congr 1
    omega
  obtain ⟨v1, ⟨ids, l1⟩, b1⟩ := w.ext ex (m := s.pos + n) (by omega)
  have sub : ({ q.s with pos := s.pos + n } : Subj) = strip { s with pos := s.pos + n } := by rw [w.subj]; rfl
  by_cases hcond : ((o || cl) && !(c == '\'' || c == '"')) = true
  · rw [if_pos hcond, if_pos hcond]
    obtain ⟨p1, p2, p3, p4, p5, p6, p7, p8⟩ := pushDelimiter_rest h1 c o cl q.h.tree.fresh
    have hlast : h1.last = ids.head? := by have := l1.links.last; simpa using this
    have hids : ∀ i ∈ ids, i < h1.dfresh := fun i hi => l1.fresh i (by simpa using hi)
    have hlf : h1.last ≠ some h1.dfresh := by
      rw [hlast]
      intro hc
      have := hids _ (List.mem_of_head? hc)
      omega
    have hdl := pushDelimiter_dl h1 c o cl q.h.tree.fresh hlf
    generalize hh2 : pushDelimiter h1 c o cl q.h.tree.fresh = h2 at *
    have inlOld : ∀ i, i < h1.dfresh → (h2.dl i).inl = (h1.dl i).inl := by
      intro i hi
      rw [hdl, if_neg (by omega)]
      split <;> rfl
    have inlNew : (h2.dl h1.dfresh).inl = q.h.tree.fresh := by rw [hdl, if_pos rfl]
    have hpOld : ∀ i, i < h1.dfresh → hpos h2 i = hpos h1 i := by
      intro i hi
      unfold hpos
      rw [inlOld i hi, p6]
    have hpNew : hpos h2 h1.dfresh = (s.pos : Int) + 1 := by
      unfold hpos
      rw [inlNew, p6, hx]
    have v2 : HInv h2 (s.pos + n) := by
      refine ⟨?_, ?_, ?_, ?_⟩
      · intro i j hij hj
        rw [p1] at hj
        rw [hpOld i (by omega)]
        by_cases hjn : j = h1.dfresh
        · rw [hjn, hpNew, ex.hpos w.inv (by rw [← ex.dfresh]; omega)]
          have := (w.inv.lim i (by rw [← ex.dfresh]; omega)).2
          omega
        · rw [hpOld j (by omega)]
          exact v1.mono i j hij (by omega)
      · intro i j hij hj
        rw [p1] at hj
        rw [inlOld i (by omega)]
        by_cases hjn : j = h1.dfresh
        · rw [hjn, inlNew, ex.dl]
          exact w.inv.inlFresh i (by rw [← ex.dfresh]; omega)
        · rw [inlOld j (by omega)]
          exact v1.inlMono i j hij (by omega)
      · intro i hi
        rw [p1] at hi
        rw [p7]
        by_cases hin : i = h1.dfresh
        · rw [hin, inlNew, ht1, addLeaf_fresh]; omega
        · rw [inlOld i (by omega)]
          exact v1.inlFresh i (by omega)
      · intro i hi
        rw [p1] at hi
        by_cases hin : i = h1.dfresh
        · rw [hin, hpNew]; omega
        · rw [hpOld i (by omega)]
          exact v1.lim i (by omega)
    have rdOld : ∀ i, i < h1.dfresh → ∀ d, RD h1 i d → RD h2 i d := by
      intro i hi d hd
      have hdi : h2.dl i = { h1.dl i with next := (h2.dl i).next } := by
        rw [hdl, if_neg (by omega)]
        split <;> rfl
      exact ⟨by rw [hdi, p6]; exact hd.start, by rw [hdi, p6]; exact hd.stop, by rw [hdi]; exact hd.len, by rw [hdi, p6]; exact hd.inlLen, by rw [hdi]; exact hd.ch,
        by rw [hdi]; exact hd.canOpen, by rw [hdi]; exact hd.canClose, by rw [hdi]; exact hd.offset, hd.sum, by rw [hdi, p7]; exact hd.inl⟩
    have bot2 : ∀ p q', RBot h1 p q' → RBot h2 p q' := by
      intro p q' hb
      refine ⟨fun i hi => by rw [p1]; have := hb.1 i hi; omega, ?_⟩
      rw [← hb.2]
      exact Option.map_congr (fun i hi => hpOld i (hb.1 i hi))
    have hnew : h2.dl h1.dfresh = ⟨h1.last, none, q.h.tree.fresh, n, c, o, cl, 0⟩ := by rw [hdl, if_pos rfl, hx]
    refine ⟨sub, by rw [p7, ht1, w.tree], by rw [p8, ex.ignore]; exact w.ignore, v2, ⟨h1.dfresh :: ids, ?_, ?_, ?_, .nil, ?_⟩, ?_⟩
    · have hL : Links h1 ids.reverse := by have := l1.links; simpa using this
      have := links_push (h' := h2) hL (x := h1.dfresh) (by simp only [List.mem_reverse]; intro hc; have := hids _ hc; omega) p2
        (fun i hi => by rw [hdl, if_neg hi]; split <;> rfl) (fun i hi hne => by rw [hdl, if_neg hi, if_neg hne])
        (fun i hi => by
          have : i ≠ h1.dfresh := by rintro rfl; exact hlf hi
          rw [hdl, if_neg this, if_pos hi.symm])
        (by rw [hnew]) (by rw [hnew])
      simpa using this
    · intro i hi
      rw [p1]
      simp at hi
      rcases hi with hi | rfl
      · have := hids i hi; omega
      · omega
    · refine .cons ?_ (forall₂_imp_mem l1.old (fun i hi d hd => rdOld i (hids i hi) d hd))
      refine ⟨by rw [inlNew, p6, hx], by rw [inlNew, p6, hx], by rw [hnew], by rw [inlNew, p6, hx], by rw [hnew], by rw [hnew], by rw [hnew], by rw [hnew]; rfl, rfl, ?_⟩
      rw [p7, inlNew, ht1, addLeaf_inl, if_pos rfl]
    · intro d hd
      simp at hd
      rcases hd with rfl | hd
      · exact hn1
      · exact l1.pos d (by simpa using hd)
    · obtain ⟨bids, c1, c2, c3⟩ := b1
      refine ⟨bids, p5.trans c1, BChain.congr bids (fun _ _ => by rw [p3]) (Nat.le_of_eq p4.symm) c2, c3.imp ?_⟩
      intro b b' hb
      exact ⟨by rw [p3]; exact hb.position, hb.lo, hb.hi, by rw [p3]; exact hb.active, by rw [p3]; exact hb.after, by rw [p3]; exact hb.image,
        by rw [p3]; exact bot2 _ _ hb.bot, by rw [p3, p7]; exact hb.inl⟩
  · rw [if_neg hcond, if_neg hcond]
    exact ⟨sub, by rw [ht1, w.tree], by rw [ex.ignore]; exact w.ignore, v1, ⟨ids, l1⟩, b1⟩

/-! ### The other characters -/

theorem other_sim {E : Env} {q : PSubj} {s : Subj} {t : Tree} {c : Char} (w : SR q s t) (hp : peek s = some c) (h1 : ¬ (c = '*' ∨ c = '_' ∨ c = '\'' ∨ c = '"')) (h2 : c ≠ '[') (h3 : c ≠ ']') :
    Sim (fun q r => SR q r.1 r.2) (parseInlineP E q c) (parseInlineTree E s t c) := by
  unfold parseInlineP parseInlineTree
  rw [if_neg h1, if_neg h2, if_neg h3, if_neg h3]
  have e1 : parseInline E q.s c = (parseInline E s c).map strip := by rw [w.subj]; exact parseInline_blind E s c h1 h2 h3
  have e2 : q.s.pos = s.pos := by rw [w.subj]; rfl
  have e3 : isAutolink E q.s = isAutolink E s := by rw [w.subj]; rfl
  rw [e1]
  cases hs : parseInline E s c with
  | error e => exact rfl
  | ok s' =>
    simp only [Except.map, bind, Except.bind, e2, e3]
    obtain ⟨a1, a2, a3⟩ := parseInline_lists' h1 h2 h3 hs
    have hm := (parseInline_moves hp hs)
    generalize hT : (if c = '<' ∧ isAutolink E s = true then addAutolink q.h.tree s.pos else addLeaf q.h.tree s.pos) = T
    have ex : Ext q.h { q.h with tree := T } s.pos := by
      refine ⟨rfl, rfl, rfl, rfl, rfl, rfl, rfl, fun _ _ => rfl, ?_, ?_⟩
      · intro p hpp
        show T.inl p = _
        rw [← hT]
        split
        · exact addAutolink_inl _ _ _ hpp
        · rw [addLeaf_inl, if_neg hpp]
      · show _ ≤ T.fresh
        rw [← hT]
        split
        · rw [addAutolink_fresh]; omega
        · rw [addLeaf_fresh]; omega
    obtain ⟨v1, l1, b1⟩ := w.ext ex (m := s'.pos) (Nat.le_of_lt hm.2.2)
    refine ⟨rfl, ?_, ?_, v1, ?_, ?_⟩
    · show T = _
      rw [← hT, w.tree]
    · show q.h.ignore = _
      rw [a2]; exact w.ignore
    · rw [a1]; exact l1
    · rw [a3]; exact b1

/-! ### `[` -/

theorem openBracketP_sim {q : PSubj} {s : Subj} {t : Tree} (w : SR q s t) :
    SR (openBracketP q) (pushBracket { s with pos := s.pos + 1 }) (addLeaf t s.pos) := by
  have e2 : q.s.pos = s.pos := by rw [w.subj]; rfl
  unfold openBracketP
  simp only [e2]
  have e3 : ((s.pos + 1 : Nat) : Int) - 1 = (s.pos : Nat) := by omega
  rw [e3]
  generalize hh1 : addText q.h (s.pos : Nat) (s.pos : Nat) 1 = h1
  have ex : Ext q.h h1 s.pos := by rw [← hh1]; exact ext_addText _ _ _ _
  have ht1 : h1.tree = addLeaf q.h.tree s.pos := by rw [← hh1]; exact addText_tree _ _ _ _
  obtain ⟨v1, ⟨ids, l1⟩, bids, c1, c2, c3⟩ := w.ext ex (m := s.pos + 1) (by omega)
  have sub : ({ q.s with pos := s.pos + 1 } : Subj) = strip { s with pos := s.pos + 1 } := by rw [w.subj]; rfl
  have hlast : h1.last = ids.head? := by have := l1.links.last; simpa using this
  have hids : ∀ i ∈ ids, i < h1.dfresh := fun i hi => l1.fresh i (by simpa using hi)
  have hbot : RBot h1 h1.last (s.delims.head?.map (·.pos)) := by rw [hlast]; exact rbot_head hids l1.old
  -- the brackets after
  generalize hh2 : pushBracketP h1 false q.h.tree.fresh (s.pos + 1) = h2
  have key : ∃ br, h2 = { h1 with br := br, bfresh := h1.bfresh + 1, lastBr := some h1.bfresh } ∧
      br h1.bfresh = ⟨h1.lastBr, h1.last, q.h.tree.fresh, s.pos + 1, false, true, false⟩ ∧
      (∀ x, x < h1.bfresh → br x = if some x = h1.lastBr then { h1.br x with bracketAfter := true } else h1.br x) := by
    rw [← hh2]
    unfold pushBracketP
    cases hb : h1.lastBr with
    | none =>
      refine ⟨_, rfl, by simp, fun x hx => ?_⟩
      simp only
      rw [if_neg (by omega), if_neg (by simp)]
    | some b =>
      refine ⟨_, rfl, by simp [Heap.modB], fun x hx => ?_⟩
      simp only [Heap.modB]
      rw [if_neg (by omega)]
      by_cases hxb : x = b
      · rw [if_pos hxb, if_pos (by rw [hxb])]
      · rw [if_neg hxb, if_neg (by simpa using hxb)]
  obtain ⟨br, k1, k2, k3⟩ := key
  have mf := c2.mem_fresh
  refine ⟨sub, ?_, ?_, ?_, ⟨ids, ?_⟩, ⟨h1.bfresh :: bids, ?_, ?_, ?_⟩⟩
  · show h2.tree = _
    rw [k1]
    show h1.tree = _
    rw [ht1, w.tree]
  · show h2.ignore = _
    rw [k1]
    show h1.ignore = s.ignore.map castR
    rw [ex.ignore]; exact w.ignore
  · show HInv h2 (s.pos + 1)
    rw [k1]
    exact ⟨v1.mono, v1.inlMono, v1.inlFresh, v1.lim⟩
  · show LR h2 ids [] s.delims []
    rw [k1]
    exact ⟨l1.links.congr (fun _ => rfl) (fun _ => rfl) rfl, l1.fresh, l1.old.imp (fun i d hd => ⟨hd.start, hd.stop, hd.len, hd.inlLen, hd.ch, hd.canOpen, hd.canClose, hd.offset, hd.sum, hd.inl⟩), .nil, l1.pos⟩
  · show h2.lastBr = _
    rw [k1]; rfl
  · show BChain h2 (h1.bfresh :: bids)
    rw [k1]
    refine ⟨?_, Nat.lt_succ_self _, mf, ?_⟩
    · show (br h1.bfresh).prev = _
      rw [k2]; exact c1
    · refine BChain.congr (h := h1) bids (fun x hx => ?_) (Nat.le_succ _) c2
      show (br x).prev = _
      rw [k3 x (mf x hx)]
      split <;> rfl
  · show List.Forall₂ (RB h2 (s.pos + 1)) (h1.bfresh :: bids) (pushBracket { s with pos := s.pos + 1 }).brackets
    rw [k1]
    unfold pushBracket
    simp only
    refine .cons ?_ ?_
    · refine ⟨by simp only [k2], by simp, Nat.le_refl _, by simp only [k2], by simp only [k2], by simp only [k2], ?_, ?_⟩
      · simp only [k2]; exact hbot
      · simp only [k2, ht1, Nat.add_sub_cancel]
        rw [addLeaf_inl, if_pos rfl]
    · generalize s.brackets = bks at c3
      cases c3 with
      | nil => exact .nil
      | @cons b b' tb tb' r1 r2 =>
        obtain ⟨_, _, d3, _⟩ := c2
        refine .cons ?_ (forall₂_imp_mem r2 ?_)
        · have hb := k3 b (mf b (by simp))
          rw [if_pos (by rw [c1]; rfl)] at hb
          exact ⟨by simp only [hb]; exact r1.position, r1.lo, r1.hi, by simp only [hb]; exact r1.active, by simp only [hb], by simp only [hb]; exact r1.image,
            by simp only [hb]; exact r1.bot, by simp only [hb]; exact r1.inl⟩
        · intro x hx y hy
          have hb := k3 x (mf x (by simp [hx]))
          rw [if_neg (by rw [c1]; simp; have := d3 x hx; omega)] at hb
          exact ⟨by simp only [hb]; exact hy.position, hy.lo, hy.hi, by simp only [hb]; exact hy.active, by simp only [hb]; exact hy.after, by simp only [hb]; exact hy.image,
            by simp only [hb]; exact hy.bot, by simp only [hb]; exact hy.inl⟩

/-! ### `]` -/

theorem processEmphasisTree_keeps {s s' : Subj} {b : Option Nat} {t t' : Tree} (h : processEmphasisTree s b t = .ok (s', t')) : strip s' = strip s ∧ s'.brackets = s.brackets := by
  unfold processEmphasisTree at h
  split at h
  · injection h with h; injection h with h _; subst h; exact ⟨rfl, rfl⟩
  · simp only [bind, Except.bind] at h
    split at h
    · simp at h
    · injection h with h; injection h with h _; subst h; exact ⟨rfl, rfl⟩

theorem popBracket_sim {q : PSubj} {s : Subj} {t : Tree} (w : SR q s t) {b : Bracket} {bs : List Bracket} (hb : s.brackets = b :: bs) (m : Nat) (hm : s.pos ≤ m) :
    SR ⟨{ q.s with pos := m }, popBracket q.h⟩ { s with pos := m, brackets := bs } t := by
  obtain ⟨bids, c1, c2, c3⟩ := w.br
  rw [hb] at c3
  cases c3 with
  | @cons x _ tb _ r1 r2 =>
    have hp : popBracket q.h = { q.h with lastBr := tb.head? } := by
      unfold popBracket
      rw [c1]
      simp only [List.head?_cons, c2.1]
    rw [hp]
    obtain ⟨ids, l1⟩ := w.dl
    refine ⟨by simp only [w.subj]; rfl, w.tree, w.ignore, ⟨w.inv.mono, w.inv.inlMono, w.inv.inlFresh, fun i hi => ?_⟩, ⟨ids, ?_⟩, ⟨tb, rfl, ?_, ?_⟩⟩
    · have := w.inv.lim i hi
      have e : hpos { q.h with lastBr := tb.head? } i = hpos q.h i := rfl
      simp only [e]
      omega
    · exact ⟨l1.links.congr (fun _ => rfl) (fun _ => rfl) rfl, l1.fresh, l1.old.imp (fun i d hd => ⟨hd.start, hd.stop, hd.len, hd.inlLen, hd.ch, hd.canOpen, hd.canClose, hd.offset, hd.sum, hd.inl⟩), .nil, l1.pos⟩
    · exact BChain.congr (h := q.h) tb (fun _ _ => rfl) (Nat.le_refl _) c2.2.2.2
    · exact r2.imp (fun i b hb => ⟨hb.position, hb.lo, Nat.le_trans hb.hi hm, hb.active, hb.after, hb.image, hb.bot, hb.inl⟩)

theorem HInv.le {h : Heap} {n m : Nat} (v : HInv h n) (hm : n ≤ m) : HInv h m :=
  ⟨v.mono, v.inlMono, v.inlFresh, fun i hi => by have := v.lim i hi; omega⟩

theorem handleCloseBracketP_sim {E : Env} {q : PSubj} {s : Subj} {t : Tree} (w : SR q s t) :
    Sim (fun q r => SR q r.1 r.2) (handleCloseBracketP E q) (handleCloseBracketTree E s t) := by
  obtain ⟨bids, c1, c2, c3⟩ := w.br
  obtain ⟨ids, l1⟩ := w.dl
  have e2 : q.s.pos = s.pos := by rw [w.subj]; rfl
  unfold handleCloseBracketP handleCloseBracketTree
  simp only [c1, e2]
  cases hbr : s.brackets with
  | nil =>
    rw [hbr] at c3
    cases c3
    refine ⟨by simp only [w.subj]; rfl, w.tree, w.ignore, w.inv.le (Nat.le_succ _), ⟨ids, l1⟩, ⟨[], c1, trivial, .nil⟩⟩
  | cons b' bs =>
    have hpop := popBracket_sim w hbr (s.pos + 1) (Nat.le_succ _)
    rw [hbr] at c3
    cases c3 with
    | @cons b _ tb _ r1 r2 =>
      simp only [List.head?_cons, r1.active]
      by_cases hact : b'.active = true
      · simp only [hact, Bool.not_true, Bool.false_eq_true, if_false]
        have e4 : inlineLink E { q.s with pos := s.pos + 1 } = inlineLink E { s with pos := s.pos + 1 } := by rw [w.subj]; rfl
        have e5 : linkLabel { q.s with pos := s.pos + 1 } = linkLabel { s with pos := s.pos + 1 } := by rw [w.subj]; rfl
        simp only [hbr] at hpop
        rw [hbr] at e4 e5
        rw [e4]
        cases hil : inlineLink E { s with pos := s.pos + 1, brackets := b' :: bs } with
        | error e => exact rfl
        | ok r =>
          simp only [bind, Except.bind]
          cases r with
          | none =>
            simp only
            rw [e5]
            cases linkLabel { s with pos := s.pos + 1, brackets := b' :: bs } with
            | error e => exact rfl
            | ok u => exact hpop
          | some p =>
            have hpp := inlineLink_pos hil
            simp only at hpp
            simp only [closeLinkP]
            rw [linkTree_eq, ← w.tree, r1.inl]
            cases hlt : linkTreeP q.h.tree (q.h.br b).inl with
            | error e => exact rfl
            | ok T =>
              have kT := linkTreeP_keeps hlt
              simp only [bind, Except.bind]
              have fr : Frame q.h { q.h with tree := T } := ⟨rfl, fun _ => rfl, fun _ => rfl, fun _ => rfl, fun _ => rfl, fun _ => rfl, fun _ => rfl, fun _ => rfl, rfl, rfl, rfl, kT.1, kT.2⟩
              have hsim := processEmphasisP_sim (s := { s with pos := p, brackets := b' :: bs }) (fr.inv (w.inv.le (m := p) (by omega)))
                (ids := ids) ⟨l1.links.congr (fun _ => rfl) (fun _ => rfl) rfl, l1.fresh, l1.old.imp (fun i d hd => hd.frame fr rfl rfl), .nil, l1.pos⟩ (fr.bot r1.bot) w.ignore
              have hpt : ∀ r, processEmphasisTree { s with pos := p, brackets := b' :: bs } b'.prevDelim T = .ok r →
                  strip r.1 = strip { s with pos := p } ∧ r.1.brackets = b' :: bs := by
                rintro ⟨s1, t1⟩ hr
                have := processEmphasisTree_keeps hr
                exact ⟨this.1, this.2⟩
              revert hsim
              cases hP : processEmphasisP { q.h with tree := T } (q.h.br b).prevDelim with
              | error e =>
                cases hT : processEmphasisTree { s with pos := p, brackets := b' :: bs } b'.prevDelim T with
                | error e' => exact id
                | ok r => exact fun h => h.elim
              | ok h1 =>
                cases hT : processEmphasisTree { s with pos := p, brackets := b' :: bs } b'.prevDelim T with
                | error e' => exact fun h => h.elim
                | ok r =>
                  rintro ⟨ids1, f1, g1, g2, g3⟩
                  obtain ⟨kp1, kp2⟩ := hpt r hT
                  have F : Frame q.h h1 := fr.trans f1
                  simp only
                  have hpb : popBracket h1 = { h1 with lastBr := tb.head? } := by
                    unfold popBracket
                    rw [F.lastBr, c1]
                    simp only [List.head?_cons, F.br, c2.1]
                  have him : (h1.br b).image = false := by rw [F.br]; exact r1.image
                  rw [hpb, him]
                  simp only [Bool.not_false, if_true]
                  have fp : Frame h1 { h1 with lastBr := h1.lastBr } := Frame.refl h1
                  have ch : BChain { h1 with lastBr := tb.head? } tb := BChain.congr (h := q.h) tb (fun x _ => by show (h1.br x).prev = _; rw [F.br]) (by show _ ≤ h1.bfresh; rw [F.bfresh]; exact Nat.le_refl _) c2.2.2.2
                  have rb : List.Forall₂ (RB { h1 with lastBr := tb.head? } p) tb bs := r2.imp (fun x y hy => by
                    have := hy.frame F (lim' := p) (by omega)
                    exact ⟨this.position, this.lo, this.hi, this.active, this.after, this.image, this.bot, this.inl⟩)
                  obtain ⟨br, d1, d2, d3, d4⟩ := deactivateLoop_ok p tb { h1 with lastBr := tb.head? } bs (h1.bfresh + 1)
                    (by have := BChain.length tb ch; show tb.length < h1.bfresh + 1; have e : ({ h1 with lastBr := tb.head? } : Heap).bfresh = h1.bfresh := rfl; omega) ch rb
                  rw [d1]
                  have hpos' : r.1.pos = p := by have := congrArg Subj.pos kp1; exact this
                  refine ⟨?_, g2, g3, ?_, ⟨ids1, ?_⟩, ⟨tb, rfl, ?_, ?_⟩⟩
                  · show ({ q.s with pos := p } : Subj) = strip r.1
                    rw [kp1, w.subj]; rfl
                  · have := F.inv (w.inv.le (m := p) (by omega))
                    show HInv _ r.1.pos
                    rw [hpos']
                    exact ⟨this.mono, this.inlMono, this.inlFresh, this.lim⟩
                  · exact ⟨g1.links.congr (fun _ => rfl) (fun _ => rfl) rfl, g1.fresh, g1.old.imp (fun i d hd => ⟨hd.start, hd.stop, hd.len, hd.inlLen, hd.ch, hd.canOpen, hd.canClose, hd.offset, hd.sum, hd.inl⟩), .nil, g1.pos⟩
                  · exact BChain.congr (h := { h1 with lastBr := tb.head? }) tb (fun x _ => d3 x) (Nat.le_refl _) ch
                  · show List.Forall₂ (RB _ r.1.pos) tb (deactivate bs)
                    rw [hpos']; exact d4
      · rw [Bool.not_eq_true] at hact
        simp only [hact, Bool.not_false, if_true]
        exact hpop

/-! ### The main loop -/

theorem parseInlineP_sim {E : Env} {q : PSubj} {s : Subj} {t : Tree} {c : Char} (w : SR q s t) (hp : peek s = some c) :
    Sim (fun q r => SR q r.1 r.2) (parseInlineP E q c) (parseInlineTree E s t c) := by
  by_cases h1 : c = '*' ∨ c = '_' ∨ c = '\'' ∨ c = '"'
  · have e : parseInlineTree E s t c = .ok (handleDelim E s c, addLeaf t s.pos) := by
      unfold parseInlineTree parseInline
      rcases h1 with rfl | rfl | rfl | rfl <;> simp [bind, Except.bind]
    rw [e, parseInlineP, if_pos h1]
    exact handleDelimP_sim w hp
  · by_cases h2 : c = '['
    · have e : parseInlineTree E s t c = .ok (pushBracket { s with pos := s.pos + 1 }, addLeaf t s.pos) := by
        unfold parseInlineTree parseInline
        subst h2
        simp [bind, Except.bind]
      rw [e, parseInlineP, if_neg h1, if_pos h2]
      exact openBracketP_sim w
    · by_cases h3 : c = ']'
      · rw [parseInlineP, parseInlineTree, if_neg h1, if_neg h2, if_pos h3, if_pos h3]
        exact handleCloseBracketP_sim w
      · exact other_sim w hp h1 h2 h3

theorem inlinesLoopP_sim {E : Env} (f : Nat) : ∀ {q : PSubj} {s : Subj} {t : Tree}, SR q s t → Sim (fun q r => SR q r.1 r.2) (inlinesLoopP E f q) (inlinesLoopTree E f s t) := by
  induction f with
  | zero => intro q s t _; exact rfl
  | succ f ih =>
    intro q s t w
    have e : peek q.s = peek s := by rw [w.subj]; rfl
    rw [inlinesLoopP, inlinesLoopTree, e]
    cases hp : peek s with
    | none => exact w
    | some c =>
      refine (parseInlineP_sim w hp).bind ?_
      rintro q' ⟨s', t'⟩ - - w'
      exact ih w'

theorem sr_init (line : Str) : SR ⟨initSubj line, Heap.init⟩ (initSubj line) Tree.init := by
  refine ⟨rfl, rfl, rfl, ⟨?_, ?_, ?_, ?_⟩, ⟨[], ⟨trivial, rfl, List.nodup_nil⟩, by simp, .nil, .nil, by simp [initSubj]⟩, ⟨[], rfl, trivial, .nil⟩⟩
  all_goals intros; simp_all [Heap.init]

/-- What `_cmark_cmark_parse_inlines` gives, and the lists afterwards. -/
theorem parseInlinesP_sim (E : Env) (line : Str) :
    Sim (fun r r' => r.1 = r'.1.map castR ∧ r.2.tree = r'.2 ∧ r.2.last = none ∧ r.2.lastBr = none) (parseInlinesP E line) (parseInlinesTree E line) := by
  unfold parseInlinesP parseInlinesTree
  refine (inlinesLoopP_sim (E := E) (line.length + 1) (sr_init line)).bind ?_
  rintro q ⟨s, t⟩ - - w
  simp only at w ⊢
  obtain ⟨ids, l1⟩ := w.dl
  obtain ⟨bids, c1, c2, -⟩ := w.br
  have hs := processEmphasisP_sim w.inv l1 (p := none) (q := none) ⟨by simp, rfl⟩ w.ignore
  rw [w.tree] at hs
  refine hs.bind ?_
  rintro h1 ⟨s1, t1⟩ - - ⟨ids1, f1, g1, g2, g3⟩
  obtain ⟨h2, ids2, k1, k2, k3⟩ := clear_sim (f1.inv w.inv) g1 (p := none) (q := none) ⟨by simp, rfl⟩
  have F : Frame q.h h2 := f1.trans k2.frame
  have ch : BChain h2 bids := BChain.congr (h := q.h) bids (fun x _ => by rw [F.br]) (by rw [F.bfresh]; exact Nat.le_refl _) c2
  have hfb := freeBrackets_ok bids h2 (h2.bfresh + 1) (by have := BChain.length bids ch; omega) (F.lastBr.trans c1) ch
  rw [k1]
  simp only [bind, Except.bind]
  rw [hfb]
  refine ⟨k2.ignore.trans g3, k2.tree.trans g2, ?_, rfl⟩
  have hn : ids2 = [] := by
    have := k3.old
    simp only [upTo] at this
    cases this; rfl
  have := k3.links.last
  rw [hn] at this
  simpa using this

end MdToc.Cmark

namespace MdToc

theorem filterIndicesP_eq (rs : List Cmark.Range) (l : Str) : ∀ i, ((l.zipIdx i).filter (fun x => !(rs.map Cmark.castR).any (fun r => r.1 ≤ (x.2 : Int) && (x.2 : Int) < r.2))).map Prod.fst = filterIndicesFrom rs i l := by
  induction l with
  | nil => intro i; rfl
  | cons c l ih =>
    intro i
    have e : (rs.map Cmark.castR).any (fun r => decide (r.1 ≤ (i : Int)) && decide ((i : Int) < r.2)) = rs.any (fun r => r.1 ≤ i && i < r.2) := by
      rw [List.any_map]
      congr 1
      funext r
      simp [Cmark.castR]
    rw [List.zipIdx_cons, List.filter_cons, filterIndicesFrom]
    simp only [e]
    by_cases hb : rs.any (fun r => r.1 ≤ i && i < r.2) = true
    · simp only [hb, Bool.not_true, Bool.false_eq_true, if_false, if_true]
      exact ih (i + 1)
    · rw [Bool.not_eq_true] at hb
      simp only [hb, Bool.not_false, Bool.false_eq_true, if_false, if_true, List.map_cons]
      rw [ih (i + 1)]

theorem removeEmphasisPtr_eq (E : Env) (line : Str) (p : Parser) : removeEmphasisPtr E line p = removeEmphasisTree E line p := by
  unfold removeEmphasisPtr removeEmphasisTree
  have h := Cmark.parseInlinesP_sim E (line.filter (· != '\x00'))
  revert h
  simp only [bind, Except.bind]
  cases Cmark.parseInlinesP E (line.filter (· != '\x00')) with
  | error e =>
    cases Cmark.parseInlinesTree E (line.filter (· != '\x00')) with
    | error e' => intro h; simp only [Cmark.Sim] at h; subst h; rfl
    | ok r => exact fun h => h.elim
  | ok r =>
    cases Cmark.parseInlinesTree E (line.filter (· != '\x00')) with
    | error e' => exact fun h => h.elim
    | ok r' =>
      rintro ⟨h, -⟩
      simp only [h, filterIndicesP, filterIndices]
      rw [filterIndicesP_eq]

end MdToc
