import Verif.Props.Cr
import Verif.Props.Names
import Verif.Props.LastLine

/-!
# Two tables in one file, with different markers (C99)
-/

set_option linter.unusedSimpArgs false

namespace MdToc.Props

open MdToc.Spec

/-- The lines to be replaced: one marker, or two markers with a table of contents between them. -/
def Region (d : Char → Bool) (marker : Str) (r : List Str) : Prop :=
  (∃ m, r = [m] ∧ IsMarker marker m) ∨
  ∃ m mid m', r = m :: mid ++ [m'] ∧ IsMarker marker m ∧ IsMarker marker m' ∧ (∀ l ∈ mid, ¬ IsMarker marker l) ∧ Recognised d mid

theorem region_cut {d : Char → Bool} {marker : Str} {before r after : List Str} (h : Region d marker r) (hb : ∀ l ∈ before, ¬ IsMarker marker l)
    (ha : ∀ l ∈ after, ¬ IsMarker marker l) : Cut d marker (before ++ r ++ after) before r after := by
  rcases h with ⟨m, rfl, hm⟩ | ⟨m, mid, m', rfl, hm, hm', hmid, hrec⟩
  · exact .inl ⟨m, ⟨by simp, hm, hb, ha⟩, rfl⟩
  · exact .inr (.inl ⟨m, mid, m', ⟨by simp, hm, hm', hmid, hrec, NoTable.skip hb (.single _ _ _)⟩, rfl⟩)

/-- The run of the tool on one file: the table is built and written between the markers. -/
def Update (E : Env) (o : Options) (marker f : Str) (fs fs' : FS) : Prop :=
  ∃ out b tr, buildToc E o f (fs f) = .ok out ∧ writeString E fs f out marker o.newline = .ok (b, tr) ∧ fs' = lastFS fs f tr

/-- Plain lines can be replaced by other plain lines. -/
theorem replace_plain {E : Env} {o : Options} (hk : 1 ≤ o.keep) {f text text' : Str} {before ms ms' after : List Str} (hR : Reads text (before ++ ms ++ after))
    (hR' : Reads text' (before ++ ms' ++ after)) (h1 : o.skipLines.toNat ≤ before.length)
    (h2 : o.parser ≠ .redcarpet → Outside o.parser (before.drop o.skipLines.toNat)) (h3 : ∀ l ∈ ms, PlainLine o.parser l)
    (h4 : ∀ l ∈ ms', PlainLine o.parser l) {out : Str} (h : buildToc E o f (some ⟨text, false⟩) = .ok out) :
    buildToc E o f (some ⟨text', false⟩) = .ok out := by
  have hskip := buildToc_skip h
  obtain ⟨va, vb, hv⟩ := seenLines_around (p := o.parser) h2 (decide (f ≠ stdinName)) after
  have key : ∀ ks, (∀ l ∈ ks, PlainLine o.parser l) → SeenLines o.parser (decide (f ≠ stdinName)) ((before ++ ks ++ after).drop o.skipLines.toNat) (va ++ (ks ++ vb)) := by
    intro ks hks
    have := hv ks hks
    rwa [← List.drop_append_of_le_length h1, ← List.append_assoc] at this
  rw [buildToc_seen hskip hR (key ms h3)] at h
  rw [buildToc_seen hskip hR' (key ms' h4)]
  have hl1 := seen_isLine hR (key ms h3)
  have hl2 := seen_isLine hR' (key ms' h4)
  have hsame : ∀ ks, (∀ l ∈ ks, IsLine l) → (∀ l ∈ ks, PlainLine o.parser l) → ∀ st,
      hdrRun E o (va ++ (ks ++ vb)) st = hdrRun E o (va ++ vb) st := by
    intro ks h1 h2 st
    rw [hdrRun_append, hdrRun_append]
    congr 1
    funext st
    rw [hdrRun_append, hdrRun_plain hk h1 h2]
    rfl
  rw [hsame _ (fun l hl => hl2 l (by simp [hl])) h4]
  rw [hsame _ (fun l hl => hl1 l (by simp [hl])) h3] at h
  exact h

theorem update_step {E : Env} (hE : E.Lawful) {o : Options} (hp : o.parser ≠ .redcarpet ∨ o.noIndentation = true) (hl : o.noLinks = false)
    (hn : o.newline = ['\n']) {fs : FS} {f : Str} {before r after : List Str} (hf : HasLines fs f (before ++ r ++ after))
    {marker : Str} (hg : GoodMarker marker) (hm : NotItem marker) (hr : Region E.isDigit marker r)
    (hb : ∀ l ∈ before, ¬ IsMarker marker l) (ha : ∀ l ∈ after, ¬ IsMarker marker l)
    {out core : Str} (h : buildToc E o f (fs f) = .ok out) (hcore : TrimmedRight isPySpace out core) :
    ∃ r', r'.flatten = block core marker ['\n'] ∧ Update E o marker f fs (fs.write f (before ++ r' ++ after).flatten) ∧
      HasLines (fs.write f (before ++ r' ++ after).flatten) f (before ++ r' ++ after) ∧ Region E.isDigit marker r' ∧
      (∀ marker', GoodMarker marker' → NotItem marker' → ¬ IsMarker marker' marker → ∀ l ∈ r', ¬ IsMarker marker' l) ∧
      (∀ p, PlainLine p (marker ++ ['\n']) → ∀ l ∈ r', PlainLine p l) ∧
      (∀ o' out', 1 ≤ o'.keep → CleanRegion o' marker before r → buildToc E o' f (fs f) = .ok out' →
        buildToc E o' f (some ⟨(before ++ r' ++ after).flatten, false⟩) = .ok out') := by
  have hcut := region_cut hr hb ha
  obtain ⟨hf1, text, hf2, hR⟩ := hf
  have hfs : HasLines fs f (before ++ r ++ after) := ⟨hf1, text, hf2, hR⟩
  have h0 := h
  rw [hf2] at h
  have hn0 : IsEol o.newline [] := .inl hn
  obtain ⟨core0, cl, ht, hcl, hitems, heol⟩ := toc_core hE hn0 h
  obtain rfl : core0 = core := by rw [← trimmedRight_iff.mp ht, ← trimmedRight_iff.mp hcore]
  have hrec : Recognisable E.isDigit out core0 marker o.newline := by
    obtain ⟨c, hc, -⟩ := toc_recognisable hE hp hl hn0 h hm
    obtain rfl : c = core0 := by rw [← trimmedRight_iff.mp hc.1, ← trimmedRight_iff.mp hcore]
    exact hc
  have he : IsEol o.newline after.flatten := .inl hn
  obtain ⟨b, tr, hw, hlast⟩ := C37_outside_preserved E hfs out marker o.newline hcut ht
  obtain ⟨mid, hR1, hft, -⟩ := written_lines hR hcut hg hrec he
  obtain ⟨mid', hR2, hmid⟩ := written_reads hR hcut hg hcl (by obtain ⟨_, _, _, h⟩ := ht; exact h) heol he
  obtain rfl : mid = mid' := by
    have := (MdToc.reads_lines hR1 false).symm.trans (MdToc.reads_lines hR2 false)
    simpa using this
  rw [hn] at hR1 hlast
  have hcr : '\r' ∉ before.flatten ++ block core0 marker ['\n'] ++ after.flatten := by
    have h1 := reads_no_cr hR
    have h2 : '\r' ∉ marker := fun h => hg.1 _ h (.inr rfl)
    have h3 : '\r' ∉ core0 := by
      obtain ⟨es, g, ho, hi, -⟩ := entries_items hE h
      obtain ⟨w, hw, -⟩ := ht
      intro hc
      have : '\r' ∈ out := by rw [hw]; simp [hc]
      rw [ho, hn] at this
      simp at this
      obtain ⟨e, he, hx⟩ := this
      exact (hi e he).1 _ hx (.inr rfl)
    simp only [List.flatten_append, List.mem_append, not_or] at h1
    simp only [block, List.mem_append, not_or]
    exact ⟨⟨h1.1.1, ⟨⟨⟨⟨⟨⟨⟨h2, by decide⟩, by decide⟩, h3⟩, by decide⟩, by decide⟩, h2⟩, by decide⟩⟩, h1.2⟩
  have hflat := reads_flatten hR1 hcr
  have hr' : ((marker ++ ['\n']) :: mid ++ [marker ++ ['\n']]).flatten = block core0 marker ['\n'] := by
    have e : before.flatten ++ (block core0 marker ['\n'] ++ after.flatten) =
        before.flatten ++ (((marker ++ ['\n']) :: mid ++ [marker ++ ['\n']]).flatten ++ after.flatten) := by
      rw [← List.append_assoc, hflat]
      simp
    exact (List.append_cancel_right (List.append_cancel_left e)).symm
  have els : before ++ (marker ++ ['\n']) :: mid ++ (marker ++ ['\n']) :: after = before ++ ((marker ++ ['\n']) :: mid ++ [marker ++ ['\n']]) ++ after := by simp
  rw [els] at hR1 hflat
  have hlines : ∀ l ∈ (marker ++ ['\n']) :: mid ++ [marker ++ ['\n']], l = marker ++ ['\n'] ∨ l = ['\n'] ∨ ∃ i, IsItem i ∧ (l = i ∨ l = i ++ ['\n']) := by
    intro l hl
    have : l = marker ++ ['\n'] ∨ l ∈ mid := by
      simp at hl
      rcases hl with h | h | h
      · exact .inl h
      · exact .inr h
      · exact .inl h
    rcases this with rfl | hl
    · exact .inl rfl
    · rcases hmid l hl with rfl | hl | ⟨z, hz, rfl, hz'⟩
      · exact .inr (.inl rfl)
      · exact .inr (.inr (hitems l hl))
      · obtain ⟨i, hi, hi'⟩ := hitems z hz
        rcases hi' with rfl | rfl
        · exact .inr (.inr ⟨z, hi, .inr rfl⟩)
        · simp at hz'
  have hplain : ∀ p, PlainLine p (marker ++ ['\n']) → ∀ l ∈ (marker ++ ['\n']) :: mid ++ [marker ++ ['\n']], PlainLine p l := by
    intro p hpl l hl
    rcases hlines l hl with rfl | rfl | ⟨i, hi, hi'⟩
    · exact hpl
    · exact newline_plain _
    · exact isItem_plain _ hi hi'
  refine ⟨(marker ++ ['\n']) :: mid ++ [marker ++ ['\n']], hr', ⟨out, b, tr, h0, hw, ?_⟩, ⟨hf1, (before ++ ((marker ++ ['\n']) :: mid ++ [marker ++ ['\n']]) ++ after).flatten, by simp [FS.write], ?_⟩, .inr ⟨_, mid, _, rfl, hft.2.1, hft.2.2.1, hft.2.2.2.1, hft.2.2.2.2.1⟩, ?_, hplain, ?_⟩
  · unfold lastFS
    rw [hlast, hflat]
  · rw [← hflat]; exact hR1
  · intro marker' hg' hm' hne l hl
    rcases hlines l hl with rfl | rfl | ⟨i, hi, hi'⟩
    · exact fun h => hne (isMarker_nl.mp h)
    · rw [isMarker_iff]
      intro h'
      obtain ⟨-, x, hx, hx'⟩ := hg'
      have : pyStrip marker' = [] := by rw [← h']; decide
      have := strip_eq_nil_iff.mp this x hx
      rw [hx'] at this
      cases this
    · exact item_not_marker hm' hi hi'
  · intro o' out' hk ⟨c1, c2, c3, c4⟩ h'
    rw [hf2] at h'
    rw [← hflat]
    exact replace_plain hk hR hR1 c1 c2 c3 (hplain _ c4) h'

/-- The lines of a file with two regions: `r1` with the first marker and `r2` with the second one; no other lines are markers. -/
structure TwoRegions (d : Char → Bool) (m1 m2 : Str) (A r1 B r2 C : List Str) : Prop where
  first : Region d m1 r1
  second : Region d m2 r2
  other1 : ∀ l ∈ A ++ B ++ r2 ++ C, ¬ IsMarker m1 l
  other2 : ∀ l ∈ A ++ r1 ++ B ++ C, ¬ IsMarker m2 l

/-- The two regions have no headings and no code fences, they are not in code blocks, and they come after the skipped lines. -/
structure Quiet (o : Options) (m1 m2 : Str) (A r1 B r2 : List Str) : Prop where
  keep : 1 ≤ o.keep
  skip : o.skipLines.toNat ≤ A.length
  outside : o.parser ≠ .redcarpet → Outside o.parser (A.drop o.skipLines.toNat) ∧ Outside o.parser B
  plain1 : ∀ l ∈ r1, PlainLine o.parser l
  plain2 : ∀ l ∈ r2, PlainLine o.parser l
  marker1 : PlainLine o.parser (m1 ++ ['\n'])
  marker2 : PlainLine o.parser (m2 ++ ['\n'])

theorem outside_plain {p : Parser} {ls : List Str} (h : ∀ l ∈ ls, PlainLine p l) : Outside p ls := by
  induction ls using List.reverseRecOn with
  | nil => exact .nil
  | append_singleton ls l ih => exact .line (ih fun x hx => h x (by simp [hx])) (h l (by simp)).1

theorem Quiet.clean1 {o : Options} {m1 m2 : Str} {A r1 B r2 : List Str} (h : Quiet o m1 m2 A r1 B r2) : CleanRegion o m1 A r1 :=
  ⟨h.skip, fun hp => (h.outside hp).1, h.plain1, h.marker1⟩

theorem Quiet.clean2 {o : Options} {m1 m2 : Str} {A r1 B r2 : List Str} (h : Quiet o m1 m2 A r1 B r2) : CleanRegion o m2 (A ++ r1 ++ B) r2 := by
  refine ⟨by have := h.skip; simp; omega, fun hp => ?_, h.plain2, h.marker2⟩
  rw [List.append_assoc, List.drop_append_of_le_length h.skip]
  exact outside_append (h.outside hp).1 (outside_append (outside_plain h.plain1) (h.outside hp).2)

/-- A table that can be written and found again: with links, and for redcarpet without indentation; lines end with a line feed. -/
structure Steady (o : Options) : Prop where
  parser : o.parser ≠ .redcarpet ∨ o.noIndentation = true
  links : o.noLinks = false
  newline : o.newline = ['\n']

/-- A marker that is a line of its own and not an entry of a table. -/
def PlainMarker (m : Str) : Prop := GoodMarker m ∧ NotItem m

section
variable {E : Env} (hE : E.Lawful) {o1 o2 : Options} (s1 : Steady o1) (s2 : Steady o2) {m1 m2 : Str} (g1 : PlainMarker m1) (g2 : PlainMarker m2)

theorem region_marker {d : Char → Bool} {m m' : Str} {r : List Str} (h : Region d m r) (hn : ∀ l ∈ r, ¬ IsMarker m' l) : ¬ IsMarker m' m := by
  have : ∃ x ∈ r, IsMarker m x := by
    rcases h with ⟨x, rfl, hx⟩ | ⟨x, mid, y, rfl, hx, -⟩
    · exact ⟨x, by simp, hx⟩
    · exact ⟨x, by simp, hx⟩
  obtain ⟨x, hx, hx'⟩ := this
  have := hn x hx
  rw [isMarker_iff] at this hx' ⊢
  rwa [hx'] at this

include hE s1 g1 g2 in
/-- One run for the first region. -/
theorem first_step {fs : FS} {f : Str} {A r1 B r2 C : List Str} (hf : HasLines fs f (A ++ r1 ++ B ++ r2 ++ C)) (h : TwoRegions E.isDigit m1 m2 A r1 B r2 C)
    (q1 : Quiet o1 m1 m2 A r1 B r2) (q2 : Quiet o2 m1 m2 A r1 B r2) {out1 out2 core1 : Str} (b1 : buildToc E o1 f (fs f) = .ok out1)
    (b2 : buildToc E o2 f (fs f) = .ok out2) (c1 : TrimmedRight isPySpace out1 core1) :
    ∃ r', r'.flatten = block core1 m1 ['\n'] ∧ Update E o1 m1 f fs (fs.write f (A ++ r' ++ B ++ r2 ++ C).flatten) ∧
      HasLines (fs.write f (A ++ r' ++ B ++ r2 ++ C).flatten) f (A ++ r' ++ B ++ r2 ++ C) ∧ TwoRegions E.isDigit m1 m2 A r' B r2 C ∧
      Quiet o1 m1 m2 A r' B r2 ∧ Quiet o2 m1 m2 A r' B r2 ∧
      buildToc E o1 f (fs.write f (A ++ r' ++ B ++ r2 ++ C).flatten f) = .ok out1 ∧ buildToc E o2 f (fs.write f (A ++ r' ++ B ++ r2 ++ C).flatten f) = .ok out2 := by
  have e : ∀ r, A ++ r ++ B ++ r2 ++ C = A ++ r ++ (B ++ r2 ++ C) := fun r => by simp
  rw [e] at hf
  have ho1 := h.other1
  have ho2 := h.other2
  simp only [List.mem_append] at ho1 ho2
  obtain ⟨r', h1, h2, h3, h4, h5, h6, h7⟩ := update_step hE s1.parser s1.links s1.newline hf g1.1 g1.2 h.first (fun l hl => ho1 l (by tauto))
    (fun l hl => ho1 l (by simp at hl; tauto)) b1 c1
  rw [← e] at h2 h3 h7
  have hne := region_marker h.first (m' := m2) (fun l hl => ho2 l (by tauto))
  have hw : ∀ t, fs.write f t f = some ⟨t, false⟩ := fun t => by simp [FS.write]
  refine ⟨r', h1, h2, h3, ⟨h4, h.second, h.other1, ?_⟩, { q1 with plain1 := h6 _ q1.marker1 }, { q2 with plain1 := h6 _ q2.marker1 },
    by rw [hw]; exact h7 _ _ q1.keep q1.clean1 b1, by rw [hw]; exact h7 _ _ q2.keep q2.clean1 b2⟩
  intro l hl
  simp only [List.mem_append] at hl
  by_cases hx : l ∈ r'
  · exact h5 m2 g2.1 g2.2 hne l hx
  · exact ho2 l (by tauto)

include hE s2 g1 g2 in
/-- One run for the second region. -/
theorem second_step {fs : FS} {f : Str} {A r1 B r2 C : List Str} (hf : HasLines fs f (A ++ r1 ++ B ++ r2 ++ C)) (h : TwoRegions E.isDigit m1 m2 A r1 B r2 C)
    (q1 : Quiet o1 m1 m2 A r1 B r2) (q2 : Quiet o2 m1 m2 A r1 B r2) {out1 out2 core2 : Str} (b1 : buildToc E o1 f (fs f) = .ok out1)
    (b2 : buildToc E o2 f (fs f) = .ok out2) (c2 : TrimmedRight isPySpace out2 core2) :
    ∃ r', r'.flatten = block core2 m2 ['\n'] ∧ Update E o2 m2 f fs (fs.write f (A ++ r1 ++ B ++ r' ++ C).flatten) ∧
      HasLines (fs.write f (A ++ r1 ++ B ++ r' ++ C).flatten) f (A ++ r1 ++ B ++ r' ++ C) ∧ TwoRegions E.isDigit m1 m2 A r1 B r' C ∧
      Quiet o1 m1 m2 A r1 B r' ∧ Quiet o2 m1 m2 A r1 B r' ∧
      buildToc E o1 f (fs.write f (A ++ r1 ++ B ++ r' ++ C).flatten f) = .ok out1 ∧ buildToc E o2 f (fs.write f (A ++ r1 ++ B ++ r' ++ C).flatten f) = .ok out2 := by
  have ho1 := h.other1
  have ho2 := h.other2
  simp only [List.mem_append] at ho1 ho2
  obtain ⟨r', h1, h2, h3, h4, h5, h6, h7⟩ := update_step hE s2.parser s2.links s2.newline hf g2.1 g2.2 h.second (fun l hl => ho2 l (by simp at hl; tauto))
    (fun l hl => ho2 l (by tauto)) b2 c2
  have hne := region_marker h.second (m' := m1) (fun l hl => ho1 l (by tauto))
  have hw : ∀ t, fs.write f t f = some ⟨t, false⟩ := fun t => by simp [FS.write]
  refine ⟨r', h1, h2, h3, ⟨h.first, h4, ?_, h.other2⟩, { q1 with plain2 := h6 _ q1.marker2 }, { q2 with plain2 := h6 _ q2.marker2 },
    by rw [hw]; exact h7 _ _ q1.keep q1.clean2 b1, by rw [hw]; exact h7 _ _ q2.keep q2.clean2 b2⟩
  intro l hl
  simp only [List.mem_append] at hl
  by_cases hx : l ∈ r'
  · exact h5 m1 g1.1 g1.2 hne l hx
  · exact ho1 l (by tauto)

include hE s1 s2 g1 g2 in
/-- **C99**: two tables in one file, each with its own marker and its own options: the order of the two runs does not matter, both tables are in the file in the end and the rest is
as it was, and further runs change nothing. -/
theorem C99_order {fs : FS} {f : Str} {A r1 B r2 C : List Str} (hf : HasLines fs f (A ++ r1 ++ B ++ r2 ++ C)) (h : TwoRegions E.isDigit m1 m2 A r1 B r2 C)
    (q1 : Quiet o1 m1 m2 A r1 B r2) (q2 : Quiet o2 m1 m2 A r1 B r2) {out1 out2 core1 core2 : Str} (b1 : buildToc E o1 f (fs f) = .ok out1)
    (b2 : buildToc E o2 f (fs f) = .ok out2) (c1 : TrimmedRight isPySpace out1 core1) (c2 : TrimmedRight isPySpace out2 core2) :
    ∃ fs1 fs2 fs', Update E o1 m1 f fs fs1 ∧ Update E o2 m2 f fs1 fs' ∧ Update E o2 m2 f fs fs2 ∧ Update E o1 m1 f fs2 fs' ∧
      fs' f = some ⟨A.flatten ++ block core1 m1 ['\n'] ++ B.flatten ++ block core2 m2 ['\n'] ++ C.flatten, false⟩ ∧ (∀ g, g ≠ f → fs' g = fs g) ∧
      Update E o1 m1 f fs' fs' ∧ Update E o2 m2 f fs' fs' := by
  have hww : ∀ (fs : FS) s t, (fs.write f s).write f t = fs.write f t := by
    intro fs s t
    funext g
    unfold FS.write
    by_cases hg : g = f <;> simp [hg]
  obtain ⟨ra, x1, x2, x3, x4, x5, x6, x7, x8⟩ := first_step hE s1 g1 g2 hf h q1 q2 b1 b2 c1
  obtain ⟨rb, y1, y2, y3, y4, y5, y6, y7, y8⟩ := second_step hE s2 g1 g2 x3 x4 x5 x6 x7 x8 c2
  obtain ⟨rc, z1, z2, z3, z4, z5, z6, z7, z8⟩ := second_step hE s2 g1 g2 hf h q1 q2 b1 b2 c2
  obtain ⟨rd, w1, w2, -⟩ := first_step hE s1 g1 g2 z3 z4 z5 z6 z7 z8 c1
  obtain ⟨re, u1, u2, -⟩ := first_step hE s1 g1 g2 y3 y4 y5 y6 y7 y8 c1
  obtain ⟨rf, v1, v2, -⟩ := second_step hE s2 g1 g2 y3 y4 y5 y6 y7 y8 c2
  rw [hww] at y2 w2 u2 v2 
  rw [hww] at u2 v2
  have e : ∀ a b : List Str, a.flatten = block core1 m1 ['\n'] → b.flatten = block core2 m2 ['\n'] → (A ++ a ++ B ++ b ++ C).flatten =
      A.flatten ++ block core1 m1 ['\n'] ++ B.flatten ++ block core2 m2 ['\n'] ++ C.flatten := by
    intro a b ha hb
    simp only [List.flatten_append, ha, hb]
  rw [e _ _ x1 y1] at y2
  rw [e _ _ w1 z1] at w2
  rw [e _ _ x1 y1, e _ _ u1 y1] at u2
  rw [e _ _ x1 y1, e _ _ x1 v1] at v2
  exact ⟨_, _, _, x2, y2, z2, w2, by simp [FS.write], fun g hg => by simp [FS.write, hg], u2, v2⟩

end

theorem plain_lit (p : Parser) {b : Str} (h : ∀ c ∈ b, c ≠ '`' ∧ c ≠ '~' ∧ c ≠ '#' ∧ c ≠ '\n' ∧ c ≠ '\r') : PlainLine p (b ++ ['\n']) := by
  refine ⟨not_opening_line ?_, not_heading_line (b := b) ⟨[], ['\n'], by simp, by simp, ?_⟩ fun hb => (h _ hb).2.2.1 rfl⟩
  · intro c hc hf
    rcases List.mem_append.mp hc with hc | hc
    · rcases hf with rfl | rfl
      · exact (h _ hc).1 rfl
      · exact (h _ hc).2.1 rfl
    · simp at hc
      subst hc
      rcases hf with h | h <;> exact absurd h (by decide)
  · exact fun c hc => ⟨(h c hc).2.2.2.1, (h c hc).2.2.2.2⟩

/-- The hypotheses of **C99** are met: the first table is new, the second one is old; the second table has the headings of level 1 only. -/
example : ∃ fs1 fs2 fs' : FS, Update asciiEnv {} "<!--A-->".toList "a.md".toList
        (fun _ => some ⟨"t\n<!--A-->\n# x\n<!--B-->\n\n- old\n\n<!--B-->\n## y\n".toList, false⟩) fs1 ∧
      Update asciiEnv { keep := 1 } "<!--B-->".toList "a.md".toList fs1 fs' ∧
      Update asciiEnv { keep := 1 } "<!--B-->".toList "a.md".toList
        (fun _ => some ⟨"t\n<!--A-->\n# x\n<!--B-->\n\n- old\n\n<!--B-->\n## y\n".toList, false⟩) fs2 ∧
      Update asciiEnv {} "<!--A-->".toList "a.md".toList fs2 fs' ∧
      fs' "a.md".toList = some ⟨"t\n<!--A-->\n\n- [x](#x)\n  - [y](#y)\n\n<!--A-->\n# x\n<!--B-->\n\n- [x](#x)\n\n<!--B-->\n## y\n".toList, false⟩ := by
  have hm : ∀ p (l : Str), l ∈ ["<!--A-->\n".toList, "<!--B-->\n".toList, "\n".toList, "- old\n".toList] → PlainLine p l := by
    intro p l hl
    simp only [List.mem_cons, List.not_mem_nil, or_false] at hl
    rcases hl with rfl | rfl | rfl | rfl
    · exact plain_lit p (b := "<!--A-->".toList) (by decide)
    · exact plain_lit p (b := "<!--B-->".toList) (by decide)
    · exact plain_lit p (b := []) (by decide)
    · exact plain_lit p (b := "- old".toList) (by decide)
  have q : ∀ k : Int, 1 ≤ k → Quiet { keep := k } "<!--A-->".toList "<!--B-->".toList ["t\n".toList] ["<!--A-->\n".toList] ["# x\n".toList]
      ["<!--B-->\n".toList, "\n".toList, "- old\n".toList, "\n".toList, "<!--B-->\n".toList] := by
    intro k hk
    refine ⟨hk, by simp, fun _ => ⟨?_, ?_⟩, fun l hl => hm _ l (by simp at hl ⊢; tauto), fun l hl => hm _ l (by simp at hl ⊢; tauto), hm _ _ (by simp), hm _ _ (by simp)⟩
    · exact outside_plain (by intro l hl; simp at hl; subst hl; exact plain_lit _ (b := "t".toList) (by decide))
    · exact Outside.line (ls := []) .nil (not_opening_line (by simp [IsFenceChar]))
  obtain ⟨fs1, fs2, fs', h1, h2, h3, h4, h5, -⟩ := C99_order (E := asciiEnv) asciiEnv_lawful (o1 := {}) (o2 := { keep := 1 }) ⟨.inl (by decide), rfl, rfl⟩ ⟨.inl (by decide), rfl, rfl⟩
    (m1 := "<!--A-->".toList) (m2 := "<!--B-->".toList) ⟨⟨by simp [IsNewline], '<', by decide, by decide⟩, fun c hc => by rw [trimmed_iff] at hc; subst hc; decide⟩
    ⟨⟨by simp [IsNewline], '<', by decide, by decide⟩, fun c hc => by rw [trimmed_iff] at hc; subst hc; decide⟩
    (fs := fun _ => some ⟨"t\n<!--A-->\n# x\n<!--B-->\n\n- old\n\n<!--B-->\n## y\n".toList, false⟩) (f := "a.md".toList)
    (A := ["t\n".toList]) (r1 := ["<!--A-->\n".toList]) (B := ["# x\n".toList])
    (r2 := ["<!--B-->\n".toList, "\n".toList, "- old\n".toList, "\n".toList, "<!--B-->\n".toList]) (C := ["## y\n".toList])
    ⟨by decide, _, rfl, (reads_iff (bad := false)).mpr (by decide +kernel)⟩
    ⟨.inl ⟨_, rfl, isMarker_iff.mpr (by decide +kernel)⟩,
      .inr ⟨"<!--B-->\n".toList, ["\n".toList, "- old\n".toList, "\n".toList], "<!--B-->\n".toList, rfl, isMarker_iff.mpr (by decide +kernel), isMarker_iff.mpr (by decide +kernel),
        by simp only [isMarker_iff]; decide +kernel, .inr ⟨0, ['-'], "old".toList, by omega, by decide, .inl rfl, by simp [IsBlank]⟩⟩,
      by simp only [isMarker_iff]; decide +kernel, by simp only [isMarker_iff]; decide +kernel⟩
    (q 3 (by omega)) (q 1 (by omega)) (out1 := "- [x](#x)\n  - [y](#y)\n".toList) (out2 := "- [x](#x)\n".toList)
    (core1 := "- [x](#x)\n  - [y](#y)".toList) (core2 := "- [x](#x)".toList) (by decide +kernel) (by decide +kernel)
    (trimmedRight_iff.mpr (by decide +kernel)) (trimmedRight_iff.mpr (by decide +kernel))
  exact ⟨fs1, fs2, fs', h1, h2, h3, h4, h5⟩

/-- With another newline string the order matters: the table written first is read and written again, and its lines end with a line feed then. -/
theorem C99_violation_crlf :
    let text := "<!--A-->\n# x\n<!--B-->\n".toList
    let run := fun (m : Str) (t : Str) => (writeString asciiEnv (fun _ => some ⟨t, false⟩) "a.md".toList "- [x](#x)\r\n".toList m "\r\n".toList).map (fun r => r.2.getLast?.getD t)
    buildToc asciiEnv { newline := "\r\n".toList } "a.md".toList (some ⟨text, false⟩) = .ok "- [x](#x)\r\n".toList ∧
    (run "<!--A-->".toList text).bind (run "<!--B-->".toList) =
      .ok "<!--A-->\n\n- [x](#x)\n\n<!--A-->\n# x\n<!--B-->\r\n\r\n- [x](#x)\r\n\r\n<!--B-->\r\n".toList ∧
    (run "<!--B-->".toList text).bind (run "<!--A-->".toList) =
      .ok "<!--A-->\r\n\r\n- [x](#x)\r\n\r\n<!--A-->\r\n# x\n<!--B-->\n\n- [x](#x)\n\n<!--B-->\n".toList := by
  decide +kernel

end MdToc.Props
