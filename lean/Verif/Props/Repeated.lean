import Verif.Props.Locality

/-!
# Repeated headings in a table: C01

The theorems of `Anchors.lean` are about calls of `build_anchor_link` with one counter. Here they are carried over to the tables built by `build_toc`.
-/

set_option linter.unusedSimpArgs false

namespace MdToc.Props

open MdToc MdToc.Spec

/-- The anchor of a listed heading: its slug with the number of earlier headings with the same slug. -/
theorem listedInfo_tagged {E : Env} {p : Parser} {q : Nat → Bool} : ∀ {heads : List (Nat × Str)} {bs done : List Str}, List.Forall₂ (BaseSlug E p) (heads.map Prod.snd) bs →
    ∀ x ∈ listedInfo q heads (numberedFrom done bs), ∀ s, BaseSlug E p x.2.1 s → ∃ n, done.count s ≤ n ∧ x.2.2 = tagged s n
  | [], bs, done, h, x, hx, s, hs => by cases h; simp [listedInfo] at hx
  | (n, t) :: heads, bs, done, h, x, hx, s, hs => by
    cases h with
    | @cons _ b _ bs h1 h2 =>
      rw [numberedFrom, listedInfo_cons] at hx
      rcases List.mem_append.mp hx with hx | hx
      · by_cases hq : q n = true
        · rw [if_pos hq, List.mem_singleton] at hx
          subst hx
          have := baseSlug_unique h1 hs
          subst this
          exact ⟨_, Nat.le_refl _, rfl⟩
        · rw [if_neg hq] at hx
          simp at hx
      · obtain ⟨k, hk, e⟩ := listedInfo_tagged h2 x hx s hs
        refine ⟨k, Nat.le_trans ?_ hk, e⟩
        rw [List.count_append]
        omega

theorem listedInfo_distinct {E : Env} {p : Parser} {q : Nat → Bool} : ∀ {heads : List (Nat × Str)} {bs done : List Str}, List.Forall₂ (BaseSlug E p) (heads.map Prod.snd) bs →
    (listedInfo q heads (numberedFrom done bs)).Pairwise (fun x y => (∃ s, BaseSlug E p x.2.1 s ∧ BaseSlug E p y.2.1 s) → x.2.2 ≠ y.2.2)
  | [], bs, done, h => by cases h; simp [listedInfo]
  | (n, t) :: heads, bs, done, h => by
    cases h with
    | @cons _ b _ bs h1 h2 =>
      rw [numberedFrom, listedInfo_cons]
      have ih := listedInfo_distinct (q := q) (done := done ++ [b]) h2
      by_cases hq : q n = true
      · rw [if_pos hq]
        refine List.pairwise_cons.mpr ⟨?_, ih⟩
        rintro y hy ⟨s, hs, hs'⟩ e
        have := baseSlug_unique h1 hs
        subst this
        obtain ⟨k, hk, e'⟩ := listedInfo_tagged h2 y hy b hs'
        rw [e'] at e
        have := tagged_injective e
        rw [List.count_append, List.count_singleton_self] at hk
        omega
      · rw [if_neg hq]
        exact ih

/-- **C01** for a table: each entry has the slug of its heading as anchor, followed by the number of earlier headings with this slug if there are any, listed or not; and no two entries
whose headings have the same slug have the same anchor. -/
theorem C01_table {E : Env} {o : Options} (hp : o.parser ≠ .redcarpet) (hsha : ∀ b b', E.sha1 b = E.sha1 b' → b = b') {fn text out : Str}
    (h : buildToc E o fn (some ⟨text, false⟩) = .ok out) {vs : List Str} (hv : Looks o fn text vs) {heads : List (Nat × Str)} (hh : Headings o.parser o.noLinks vs heads) :
    ∃ es bs, Table E o vs out es ∧ List.Forall₂ (BaseSlug E o.parser) (heads.map Prod.snd) bs ∧
      es.map (·.anchor) = ((heads.zip (numbered bs)).filter (fun x => listed o.parser o.keep x.1.1)).map Prod.snd ∧
      es.Pairwise (fun e e' => (∃ s, BaseSlug E o.parser e.text s ∧ BaseSlug E o.parser e'.text s) → e.anchor ≠ e'.anchor) := by
  obtain ⟨hds, es, st, -, ht⟩ := buildToc_run h hv
  obtain ⟨⟨heads', as, d, g1, g2, -, g4⟩, -⟩ := id ht
  have := headings_unique g1 hh
  subst this
  obtain ⟨bs, hb, rfl⟩ := C01_duplicates_numbered_of_ok (cmarkLike_of_ne hp) g2 hsha
  refine ⟨es, bs, ht, hb, ?_, ?_⟩
  · have := congrArg (List.map (fun x => x.2.2)) g4
    simpa [List.map_map, Function.comp_def] using this
  · have hd := listedInfo_distinct (q := listed o.parser o.keep) (done := []) hb
    rw [mapIdx_numbered] at hd
    have e : es.map Entry.info = listedInfo (listed o.parser o.keep) heads' (bs.mapIdx (fun i b => tagged b (([] ++ bs.take i).count b))) := by
      show es.map (fun e => (e.level, e.text, e.anchor)) = _
      simpa [numbered, listedInfo] using g4
    rw [← e, List.pairwise_map] at hd
    exact hd

/-- Three headings with one slug, of which the second one is not listed but counted; the hypotheses are met. -/
example : buildToc asciiEnv { keep := 1 } "a.md".toList (some ⟨"# a\n## A\n# *a*\n".toList, false⟩) = .ok "- [a](#a)\n- [*a*](#a-2)\n".toList ∧
    ∃ vs heads, Looks { keep := 1 } "a.md".toList "# a\n## A\n# *a*\n".toList vs ∧ Headings .github false vs heads := by
  refine ⟨by decide +kernel, ?_⟩
  obtain ⟨vs, hv⟩ := looks_exists { keep := 1 } "a.md".toList "# a\n## A\n# *a*\n".toList
  obtain ⟨heads, hh⟩ := headings_exists .github false vs
  exact ⟨vs, heads, hv, hh⟩

end MdToc.Props
