import Verif.Lemmas.Entries
import Verif.Props.Anchors
import Verif.Props.AtxMore
import Verif.Lemmas.Inline

/-!
# Headings of a document
-/

set_option linter.unusedSimpArgs false

namespace MdToc

open MdToc.Spec

theorem body_unique {l b b' : Str} (h : Body l b) (h' : Body l b') : b = b' := by
  have key : ∀ {l b : Str}, Body l b → b = l.filter (fun c => !(c == '\n' || c == '\r')) := by
    rintro l b ⟨u, v, rfl, h1, h2⟩
    rw [List.filter_append, List.filter_append]
    have e1 : u.filter (fun c => !(c == '\n' || c == '\r')) = [] := by
      rw [List.filter_eq_nil_iff]
      intro c hc
      rcases h1 c (by simp [hc]) with rfl | rfl <;> decide
    have e2 : v.filter (fun c => !(c == '\n' || c == '\r')) = [] := by
      rw [List.filter_eq_nil_iff]
      intro c hc
      rcases h1 c (by simp [hc]) with rfl | rfl <;> decide
    have e3 : b.filter (fun c => !(c == '\n' || c == '\r')) = b := by
      rw [List.filter_eq_self]
      intro c hc
      have := h2 c hc
      simp [this.1, this.2]
    rw [e1, e2, e3]; simp
  rw [key h, ← key h']

/-- What `get_md_header` gives for one line. -/
theorem getMdHeader_line {E : Env} {p : Parser} {l : Str} (hl : IsLine l) {d d' : Dup} {keep : Int} {noLinks : Bool}
    {hs : List (Option Header)} (h : getMdHeader E l d keep p noLinks = .ok (hs, d')) :
    ((¬ ∃ n t, Heading p noLinks l n t) ∧ hs = [none] ∧ d' = d) ∨
    ∃ n t a, Heading p noLinks l n t ∧ buildAnchorLink E t d p = .ok (a, d') ∧ hs = [some ⟨n, t, a, listed p keep n⟩] := by
  obtain ⟨b, hb, hne, -⟩ := hl.body
  have hk : keep ≥ 1 := by
    by_contra hk
    simp [getMdHeader, getAtxHeading, hk, bind, Except.bind] at h
  have hnl : ∀ c ∈ b, ¬ IsNewline c := by
    obtain ⟨u, v, -, -, h2⟩ := hb
    exact fun c hc h => h.elim (h2 c hc).1 (h2 c hc).2
  have fin : ∀ n t v, getAtxHeading l keep p noLinks = .ok [⟨some n, some t, v⟩] →
      ∃ a, buildAnchorLink E t d p = .ok (a, d') ∧ hs = [some ⟨n, t, a, v⟩] := by
    intro n t v hg
    unfold getMdHeader at h
    rw [hg] at h
    simp only [bind, Except.bind, headersOf] at h
    cases hbl : buildAnchorLink E t d p with
    | error e => rw [hbl] at h; simp at h
    | ok r =>
      rw [hbl] at h
      injection h with h
      simp at h
      exact ⟨r.1, by rw [← h.2], h.1.symm⟩
  have fin0 : getAtxHeading l keep p noLinks = .ok [⟨none, none, false⟩] → hs = [none] ∧ d' = d := by
    intro hg
    unfold getMdHeader at h
    rw [hg] at h
    simp only [bind, Except.bind, headersOf] at h
    injection h with h
    simp at h
    exact ⟨h.1.symm, h.2.symm⟩
  by_cases hp : p = .redcarpet
  · subst hp
    by_cases hex : ∃ n rest c, IsRedcarpetAtx b n rest ∧ RedcarpetContent rest c ∧ c ≠ []
    · obtain ⟨n, rest, c, h1, h2, h3⟩ := hex
      right
      have hg : getAtxHeading l keep .redcarpet noLinks =
          .ok [⟨some n, some (if noLinks = false ∧ b.getLast? = some '\\' then c ++ [' '] else c), true⟩] := by
        cases noLinks
        · rw [Props.C15_redcarpet_links hb hne hk h1 h2 h3]; simp
        · rw [(Props.C15_redcarpet hb hne hk).1 n rest c h1 h2 h3]; simp
      obtain ⟨a, ha, hhs⟩ := fin _ _ _ hg
      refine ⟨n, _, a, ⟨b, rest, c, hb, ?_⟩, ha, ?_⟩
      · rw [if_pos rfl]; exact ⟨h1, h2, h3, rfl⟩
      · rw [hhs]; simp [listed]
    · left
      obtain ⟨e1, e2⟩ := fin0 ((Props.C15_redcarpet hb hne hk).2 hex noLinks)
      refine ⟨?_, e1, e2⟩
      rintro ⟨n, t, b', rest, c, hb', hh⟩
      rw [if_pos rfl] at hh
      rw [body_unique hb' hb] at hh
      exact hex ⟨n, rest, c, hh.1, hh.2.1, hh.2.2.1⟩
  · have hpc := cmarkLike_of_ne hp
    by_cases hex : ∃ n rest, IsAtx p b n rest
    · obtain ⟨n, rest, h1⟩ := hex
      right
      obtain ⟨c, hc, hg⟩ := atxCmark_heading hpc h1 hnl
      have hg' := hg keep noLinks true
      rw [← atxSubline_cmark hpc] at hg'
      have hga := getAtxHeading_body hb hne hk p noLinks
      rw [hg'] at hga
      have hv : (if (n : Int) > keep then false else true) = listed p keep n := by
        simp only [listed, hp, decide_false, Bool.false_or]
        by_cases hle : (n : Int) ≤ keep
        · rw [if_neg (by omega)]; simp [hle]
        · rw [if_pos (by omega)]; simp [hle]
      have hres : ∃ t, t = (if noLinks then c else label c) ∧ getAtxHeading l keep p noLinks = .ok [⟨some n, some t, listed p keep n⟩] := by
        cases noLinks
        · simp only [Bool.false_eq_true, if_false] at hga ⊢
          cases hlt : linkText c with
          | error e =>
            rw [hlt] at hga
            simp only [Except.map] at hga
            unfold getMdHeader at h
            rw [hga] at h
            simp [bind, Except.bind] at h
          | ok t =>
            rw [hlt] at hga
            simp only [Except.map] at hga
            rw [hv] at hga
            exact ⟨t, (Props.linkText_ok hlt).2.2, hga⟩
        · simp only [if_true, Except.map] at hga ⊢
          rw [hv] at hga
          exact ⟨c, rfl, hga⟩
      obtain ⟨t, ht, hgt⟩ := hres
      obtain ⟨a, ha, hhs⟩ := fin _ _ _ hgt
      refine ⟨n, t, a, ⟨b, rest, c, hb, ?_⟩, ha, hhs⟩
      rw [if_neg hp]; exact ⟨h1, hc, ht⟩
    · left
      obtain ⟨e1, e2⟩ := fin0 ((Props.C08_levels hpc hb hne hk noLinks).2 hex)
      refine ⟨?_, e1, e2⟩
      rintro ⟨n, t, b', rest, c, hb', hh⟩
      rw [if_neg hp] at hh
      rw [body_unique hb' hb] at hh
      exact hex ⟨n, rest, hh.1⟩

/-- The listed headings of the lines. -/
theorem listedHeaders_ok {E : Env} {o : Options} {vs : List Str} (hl : ∀ l ∈ vs, IsLine l) {d : Dup} {hs : List Header}
    (h : listedHeaders E o d vs = .ok hs) :
    ∃ heads as d', Headings o.parser o.noLinks vs heads ∧ Props.anchorRun E o.parser d (heads.map Prod.snd) = .ok (as, d') ∧
      as.length = heads.length ∧
      hs.map Header.info = ((heads.zip as).filter (fun x => listed o.parser o.keep x.1.1)).map (fun x => (x.1.1, x.1.2, x.2)) := by
  induction vs generalizing d hs with
  | nil =>
    injection h with h
    subst h
    exact ⟨[], [], d, .nil, rfl, rfl, rfl⟩
  | cons l vs ih =>
    unfold listedHeaders at h
    cases hg : getMdHeader E l d o.keep o.parser o.noLinks with
    | error e => rw [hg] at h; simp at h
    | ok r =>
      obtain ⟨xs, d1⟩ := r
      rw [hg] at h
      simp only at h
      cases hr : listedHeaders E o d1 vs with
      | error e => rw [hr] at h; simp at h
      | ok r =>
        rw [hr] at h
        injection h with h
        subst h
        obtain ⟨heads, as, d', h1, h2, h3, h4⟩ := ih (fun x hx => hl x (by simp [hx])) hr
        rcases getMdHeader_line (hl l (by simp)) hg with ⟨g1, g2, g3⟩ | ⟨n, t, a, g1, g2, g3⟩
        · subst g2 g3
          refine ⟨heads, as, d', .other g1 h1, h2, h3, ?_⟩
          simpa using h4
        · subst g3
          refine ⟨(n, t) :: heads, a :: as, d', .heading g1 h1, ?_, by simp [h3], ?_⟩
          · simp [Props.anchorRun, g2, h2]
          · cases hv : listed o.parser o.keep n
            · simp [Option.filter, hv, h4]
            · simp [Option.filter, hv, h4, Header.info]

/-! ### Exceptions -/

theorem buildAnchorLink_err {E : Env} {t : Str} {d : Dup} {p : Parser} {e : Exn} (h : buildAnchorLink E t d p = .error e) :
    (e = .StringCannotContainNewlines ∧ HasInteriorNewline t) ∨
      (p.cmarkLike = true ∧ (e = .ValueError ∨ e = .IndexError ∨ e = .KeyError)) := by
  unfold buildAnchorLink at h
  by_cases hn : (replaceAndSplitNewlines t).length > 1
  · rw [if_pos hn] at h
    injection h with h
    exact .inl ⟨h.symm, (split_length_gt_iff _).mp hn⟩
  · rw [if_neg hn] at h
    split at h
    · rename_i hp
      right
      refine ⟨hp, ?_⟩
      have : PyErr (baseAnchor E t p) := by
        unfold baseAnchor
        exact PyErr.bind (removeEmphasis_err E _ p) (fun _ _ => PyErr.ok _)
      refine PyErr.bind this (fun a _ => ?_) e h
      exact PyErr.ok _
    · simp at h

theorem heading_no_newline {p : Parser} {noLinks : Bool} {l t : Str} {n : Nat} (h : Heading p noLinks l n t) :
    (∀ c ∈ t, ¬ IsNewline c) ∧ 1 ≤ n ∧ n ≤ 6 := by
  obtain ⟨b, rest, c, hb, h⟩ := h
  have hnl : ∀ c ∈ b, ¬ IsNewline c := by
    obtain ⟨u, v, -, -, h2⟩ := hb
    exact fun c hc h => h.elim (h2 c hc).1 (h2 c hc).2
  split at h
  · obtain ⟨⟨h1, h6, e, -⟩, ⟨l', m, hh, e', -⟩, h3, rfl⟩ := h
    refine ⟨?_, h1, h6⟩
    have hc : ∀ x ∈ c, ¬ IsNewline x := fun x hx => hnl x (by rw [e, e']; simp [hx])
    intro x hx
    split at hx
    · rcases List.mem_append.mp hx with hx | hx
      · exact hc x hx
      · simp at hx; subst hx; rintro (h | h) <;> exact absurd h (by decide)
    · exact hc x hx
  · obtain ⟨⟨k, -, h1, h6, e, -⟩, h2, rfl⟩ := h
    refine ⟨?_, h1, h6⟩
    have hc : ∀ x ∈ c, ¬ IsNewline x := by
      intro x hx
      have hr : x ∈ rest := by
        by_cases ht : TwoRuns (atxSpace p) rest
        · rw [h2.1 ht] at hx; simp at hx
        · rcases h2.2 ht with ⟨a, ⟨hh, b', e', -⟩, l', r, e'', -⟩ | ⟨-, l', r, e', -⟩
          · rw [e', e'']; simp [hx]
          · rw [e']; simp [hx]
      exact hnl x (by rw [e]; simp [hr])
    intro x hx
    split at hx
    · exact hc x hx
    · have hpad : ∀ y ∈ padded c, ¬ IsNewline y := by
        intro y hy
        unfold padded at hy
        split at hy
        · rcases List.mem_append.mp hy with hy | hy
          · exact hc y hy
          · simp at hy; subst hy; rintro (h | h) <;> exact absurd h (by decide)
        · exact hc y hy
      have hesc : ∀ (b : Bool) (s : Str), ∀ y ∈ escapeBrackets b s, y ∈ s ∨ y = '\\' := by
        intro b s
        induction s generalizing b with
        | nil => intro y hy; simp [escapeBrackets] at hy
        | cons z s ih =>
          intro y hy
          rw [escapeBrackets] at hy
          split at hy
          · rcases List.mem_cons.mp hy with rfl | hy
            · simp
            · rcases ih _ y hy with h | h <;> simp [h]
          · split at hy
            · rcases List.mem_cons.mp hy with rfl | hy
              · simp
              · rcases List.mem_cons.mp hy with rfl | hy
                · simp
                · rcases ih _ y hy with h | h <;> simp [h]
            · rcases List.mem_cons.mp hy with rfl | hy
              · simp
              · rcases ih _ y hy with h | h <;> simp [h]
      rcases hesc false (padded c) x hx with h | rfl
      · exact hpad x h
      · rintro (h | h) <;> exact absurd h (by decide)

theorem noInterior {t : Str} (h : ∀ c ∈ t, ¬ IsNewline c) : ¬ HasInteriorNewline t := by
  rintro ⟨a, x, b, n, c, y, d, e, -, hn, -⟩
  exact h n (by rw [e]; simp) hn

/-- Either there is a heading, and the anchor decides, or not. -/
theorem getMdHeader_err {E : Env} {p : Parser} {l : Str} (hl : IsLine l) {d : Dup} {keep : Int} {noLinks : Bool} {e : Exn}
    (h : getMdHeader E l d keep p noLinks = .error e) :
    (keep < 1 ∧ e = .ValueError) ∨ (p ≠ .redcarpet ∧ ∃ n t, Heading p true l n t ∧
      (e = .ValueError ∨ e = .IndexError ∨ e = .KeyError ∨
        (noLinks = false ∧ (e = .GithubEmptyLinkLabel ∨ e = .GithubOverflowCharsLinkLabel)))) := by
  by_cases hk : keep ≥ 1
  · obtain ⟨b, hb, hne, -⟩ := hl.body
    have hnl : ∀ c ∈ b, ¬ IsNewline c := by
      obtain ⟨u, v, -, -, h2⟩ := hb
      exact fun c hc h => h.elim (h2 c hc).1 (h2 c hc).2
    right
    have fin : ∀ n t t' v, (∀ c ∈ t, ¬ IsNewline c) → Heading p true l n t' → getAtxHeading l keep p noLinks = .ok [⟨some n, some t, v⟩] →
        p.cmarkLike = true ∧ (e = .ValueError ∨ e = .IndexError ∨ e = .KeyError) := by
      intro n t t' v ht hh hg
      unfold getMdHeader at h
      rw [hg] at h
      simp only [bind, Except.bind, headersOf] at h
      cases hbl : buildAnchorLink E t d p with
      | ok r => rw [hbl] at h; simp at h
      | error e' =>
        rw [hbl] at h
        injection h with h
        subst h
        rcases buildAnchorLink_err hbl with ⟨-, h⟩ | h
        · exact absurd h (noInterior ht)
        · exact h
    have fin0 : getAtxHeading l keep p noLinks ≠ .ok [⟨none, none, false⟩] := by
      intro hg
      unfold getMdHeader at h
      rw [hg] at h
      simp [bind, Except.bind, headersOf] at h
    by_cases hp : p = .redcarpet
    · subst hp
      exfalso
      by_cases hex : ∃ n rest c, IsRedcarpetAtx b n rest ∧ RedcarpetContent rest c ∧ c ≠ []
      · obtain ⟨n, rest, c, h1, h2, h3⟩ := hex
        have hh : ∀ nl, Heading .redcarpet nl l n (if nl = false ∧ b.getLast? = some '\\' then c ++ [' '] else c) := by
          intro nl
          exact ⟨b, rest, c, hb, by rw [if_pos rfl]; exact ⟨h1, h2, h3, rfl⟩⟩
        have hg : getAtxHeading l keep .redcarpet noLinks =
            .ok [⟨some n, some (if noLinks = false ∧ b.getLast? = some '\\' then c ++ [' '] else c), true⟩] := by
          cases noLinks
          · rw [Props.C15_redcarpet_links hb hne hk h1 h2 h3]; simp
          · rw [(Props.C15_redcarpet hb hne hk).1 n rest c h1 h2 h3]; simp
        exact absurd (fin _ _ _ _ (heading_no_newline (hh noLinks)).1 (hh true) hg).1 (by decide)
      · exact fin0 ((Props.C15_redcarpet hb hne hk).2 hex noLinks)
    · refine ⟨hp, ?_⟩
      have hpc := cmarkLike_of_ne hp
      by_cases hex : ∃ n rest, IsAtx p b n rest
      · obtain ⟨n, rest, h1⟩ := hex
        obtain ⟨c, hc, hg⟩ := atxCmark_heading hpc h1 hnl
        have hg' := hg keep noLinks true
        rw [← atxSubline_cmark hpc] at hg'
        have hga := getAtxHeading_body hb hne hk p noLinks
        rw [hg'] at hga
        have hh : Heading p true l n c := ⟨b, rest, c, hb, by rw [if_neg hp]; exact ⟨h1, hc, by simp⟩⟩
        refine ⟨n, c, hh, ?_⟩
        cases noLinks
        · simp only [Bool.false_eq_true, if_false] at hga
          cases hlt : linkText c with
          | error e' =>
            rw [hlt] at hga
            simp only [Except.map] at hga
            unfold getMdHeader at h
            rw [hga] at h
            simp only [bind, Except.bind] at h
            injection h with h
            subst h
            right; right; right
            exact ⟨rfl, linkText_error hlt⟩
          | ok t =>
            rw [hlt] at hga
            simp only [Except.map] at hga
            have hh' : Heading p false l n t := ⟨b, rest, c, hb, by rw [if_neg hp]; exact ⟨h1, hc, by simpa using (Props.linkText_ok hlt).2.2⟩⟩
            rcases (fin _ _ _ _ (heading_no_newline hh').1 hh hga).2 with h | h | h <;> simp [h]
        · simp only [if_true, Except.map] at hga
          rcases (fin _ _ _ _ (heading_no_newline hh).1 hh hga).2 with h | h | h <;> simp [h]
      · exact absurd ((Props.C08_levels hpc hb hne hk noLinks).2 hex) fin0
  · left
    unfold getMdHeader getAtxHeading at h
    simp only [bind, Except.bind] at h
    rw [if_pos hk] at h
    simp at h
    exact ⟨by omega, h.symm⟩

theorem nextCounter_err {o : Options} {st : TocState} {c : Nat} {e : Exn} (h : nextCounter o st c = .error e) (hc : 1 ≤ c) :
    e = .GithubOverflowOrderedListMarker ∧ o.counts = true ∧ o.parser.limited = true ∧
      maxMarkerNumber < (if (st.counter c).isNone ∨ (if st.prev = 0 then c else st.prev) < c then 0 else (st.counter c).getD 0) + 1 := by
  unfold nextCounter at h
  split at h
  · rename_i hco
    unfold increaseIndex at h
    rw [if_neg (not_not.mpr hc)] at h
    simp only at h
    by_cases hlim : o.parser.limited = true ∧ (if (st.counter c).isNone = true ∨ (if st.prev = 0 then c else st.prev) < c then 0 else (st.counter c).getD 0) + 1 > maxMarkerNumber
    · rw [if_pos hlim] at h
      injection h with h
      exact ⟨h.symm, hco, hlim.1, hlim.2⟩
    · rw [if_neg hlim] at h
      simp at h
  · simp at h

theorem addHeader_err {o : Options} {st : TocState} {h : Header} {e : Exn} (he : addHeader o st h = .error e)
    (h1 : 1 ≤ h.headerType) (h6 : h.headerType ≤ 6) (hp : st.prev ≤ 6) :
    (e = .GithubOverflowOrderedListMarker ∧ nextCounter o st h.headerType = .error e) ∨
    (e = .TocDoesNotRenderAsCoherentList ∧ o.noIndentation = false ∧ incoherent o st h.headerType = true) ∨
    (e = .ValueError ∧ markerOk o.parser o.effOrdered o.effMarker = false) := by
  rw [addHeader_eq] at he
  simp only [bind, Except.bind] at he
  cases hc : nextCounter o st h.headerType with
  | error e' =>
    rw [hc] at he
    injection he with he
    subst he
    exact .inl ⟨(nextCounter_err hc h1).1, rfl⟩
  | ok counter =>
    right
    rw [hc] at he
    simp only at he
    have hidx : 1 ≤ (if o.counts = true then (counter h.headerType).getD 0 else 1) := by
      unfold nextCounter at hc
      split at hc
      · rw [if_pos (by assumption), (increaseIndex_ok hc).2.1]; simp
      · rw [if_neg (by assumption)]; omega
    generalize (if o.counts = true then (counter h.headerType).getD 0 else 1) = index at he hidx
    have hline : ∀ e', buildTocLineNoIndent h o.effOrdered o.noLinks index o.parser o.effMarker = .error e' →
        e' = .ValueError ∧ markerOk o.parser o.effOrdered o.effMarker = false := by
      intro e' hl
      unfold buildTocLineNoIndent at hl
      rw [if_neg (not_not.mpr h1), if_neg (not_not.mpr hidx)] at hl
      split at hl
      · rename_i hm
        injection hl with hl
        exact ⟨hl.symm, by simpa using hm⟩
      · simp at hl
    cases hni : o.noIndentation
    · rw [hni] at he
      simp only [Bool.false_eq_true, if_false] at he
      cases hin : incoherent o st h.headerType
      · right
        rw [hin] at he
        simp only [Bool.false_eq_true, if_false] at he
        cases hci : computeIndent h.headerType (prevFor o st h.headerType) o.parser o.effOrdered o.effMarker st.log index with
        | error e' =>
          rw [hci] at he
          simp only [Except.map] at he
          injection he with he
          subst he
          unfold computeIndent at hci
          rw [if_neg (not_not.mpr h1), if_neg (not_not.mpr hidx)] at hci
          split at hci
          · rename_i hm
            injection hci with hci
            exact ⟨hci.symm, by simpa using hm⟩
          · exfalso
            have hin6 : inLog h.headerType = true := by
              unfold inLog maxLevels
              simp [h1, h6]
            have hprev : prevFor o st h.headerType ≤ 6 := by
              unfold prevFor
              split <;> omega
            have hpl : ¬ (prevFor o st h.headerType ≠ 0 ∧ (!inLog (prevFor o st h.headerType)) = true) := by
              rintro ⟨q1, q2⟩
              unfold inLog maxLevels at q2
              have : 1 ≤ prevFor o st h.headerType := by omega
              simp [this, hprev] at q2
            rw [if_neg (by simp [hin6])] at hci
            simp only [if_neg hpl] at hci
            split at hci <;> simp at hci
        | ok log =>
          rw [hci] at he
          simp only [Except.map] at he
          cases hl : buildTocLineNoIndent h o.effOrdered o.noLinks index o.parser o.effMarker with
          | error e' =>
            rw [hl] at he
            injection he with he
            subst he
            exact hline _ hl
          | ok line => rw [hl] at he; simp at he
      · rw [hin] at he
        simp only [if_true] at he
        injection he with he
        exact .inl ⟨he.symm, rfl, rfl⟩
    · right
      rw [hni] at he
      simp only [if_true] at he
      cases hl : buildTocLineNoIndent h o.effOrdered o.noLinks index o.parser o.effMarker with
      | error e' =>
        rw [hl] at he
        injection he with he
        subst he
        exact hline _ hl
      | ok line => rw [hl] at he; simp at he

/-! ### Headings are determined by the lines -/

theorem isRedcarpetAtx_unique {l rest rest' : Str} {n n' : Nat} (h : IsRedcarpetAtx l n rest) (h' : IsRedcarpetAtx l n' rest') :
    n = n' ∧ rest = rest' := by
  obtain ⟨-, -, e, h1⟩ := h
  obtain ⟨-, -, e', h1'⟩ := h'
  rw [e] at e'
  have hne : ∀ {r : Str}, (∀ c ∈ r.head?, c = ' ') → ∀ x ∈ r.head?, (x == '#') = false := by
    intro r hr x hx
    rw [hr x hx]; decide
  have := span_unique (q := (· == '#')) e' (by simp) (by simp) (hne h1) (hne h1')
  exact ⟨by simpa using congrArg List.length this.1, this.2⟩

theorem atxSpace_hash (p : Parser) : atxSpace p '#' = false := by cases p <;> decide

theorem heading_unique {p : Parser} {a : Bool} {l t t' : Str} {n n' : Nat} (h : Heading p a l n t) (h' : Heading p a l n' t') :
    n = n' ∧ t = t' := by
  obtain ⟨bd, rest, c, hb, h⟩ := h
  obtain ⟨bd', rest', c', hb', h'⟩ := h'
  have := body_unique hb hb'
  subst this
  by_cases hp : p = .redcarpet
  · rw [if_pos hp] at h h'
    obtain ⟨h1, h2, -, h3⟩ := h
    obtain ⟨h1', h2', -, h3'⟩ := h'
    obtain ⟨rfl, rfl⟩ := isRedcarpetAtx_unique h1 h1'
    have := Props.redcarpetContent_unique h2 h2'
    subst this
    exact ⟨rfl, by rw [h3, h3']⟩
  · rw [if_neg hp] at h h'
    obtain ⟨h1, h2, h3⟩ := h
    obtain ⟨h1', h2', h3'⟩ := h'
    obtain ⟨rfl, rfl⟩ := isAtx_unique h1 h1'
    have : c = c' := by
      by_cases ht : TwoRuns (atxSpace p) rest
      · rw [h2.1 ht, h2'.1 ht]
      · exact Props.C09_raw_content_unique (atxSpace_hash p) (h2.2 ht) (h2'.2 ht)
    subst this
    exact ⟨rfl, by rw [h3, h3']⟩

theorem headings_exists (p : Parser) (nl : Bool) (vs : List Str) : ∃ hs, Headings p nl vs hs := by
  induction vs with
  | nil => exact ⟨[], .nil⟩
  | cons l vs ih =>
    obtain ⟨hs, h⟩ := ih
    by_cases hex : ∃ n t, Heading p nl l n t
    · obtain ⟨n, t, ht⟩ := hex
      exact ⟨_, .heading ht h⟩
    · exact ⟨_, .other hex h⟩

theorem headings_unique {p : Parser} {nl : Bool} {vs : List Str} {hs hs' : List (Nat × Str)} (h : Headings p nl vs hs)
    (h' : Headings p nl vs hs') : hs = hs' := by
  induction h generalizing hs' with
  | nil => cases h'; rfl
  | other h1 _ ih =>
    cases h' with
    | other _ h2 => exact ih h2
    | heading h2 _ => exact absurd ⟨_, _, h2⟩ h1
  | heading h1 _ ih =>
    cases h' with
    | other h2 _ => exact absurd ⟨_, _, h1⟩ h2
    | heading h2 h3 => obtain ⟨rfl, rfl⟩ := heading_unique h1 h2; rw [ih h3]

theorem headings_append {p : Parser} {nl : Bool} {vs ws : List Str} {hs hs' : List (Nat × Str)} (h : Headings p nl vs hs)
    (h' : Headings p nl ws hs') : Headings p nl (vs ++ ws) (hs ++ hs') := by
  induction h with
  | nil => exact h'
  | other h1 _ ih => exact .other h1 ih
  | heading h1 _ ih => exact .heading h1 ih

theorem headings_bounds {p : Parser} {nl : Bool} {vs : List Str} {hs : List (Nat × Str)} (h : Headings p nl vs hs) :
    ∀ x ∈ hs, 1 ≤ x.1 ∧ x.1 ≤ 6 ∧ ∀ c ∈ x.2, ¬ IsNewline c := by
  induction h with
  | nil => simp
  | other _ _ ih => exact ih
  | heading h1 _ ih =>
    intro x hx
    rcases List.mem_cons.mp hx with rfl | hx
    · have := heading_no_newline h1
      exact ⟨this.2.1, this.2.2, this.1⟩
    · exact ih x hx

theorem seen_mem {p : Parser} {file : Bool} {ls vs : List Str} (h : Seen p file ls vs) : ∀ l ∈ vs, l ∈ ls := by
  induction h with
  | nil => simp
  | line _ _ ih =>
    intro l hl
    rcases List.mem_cons.mp hl with rfl | hl
    · simp
    · simp [ih l hl]
  | block _ _ _ _ ih =>
    intro l hl
    rcases List.mem_cons.mp hl with rfl | hl
    · simp
    · simp [ih l hl]
  | unclosed => simp
  | lastLine => intro l hl; simp at hl; simp [hl]

theorem seenLines_mem {p : Parser} {file : Bool} {ls vs : List Str} (h : SeenLines p file ls vs) : ∀ l ∈ vs, l ∈ ls := by
  unfold SeenLines at h
  split at h
  · rw [h]; simp
  · exact seen_mem h

theorem seen_isLine {text : Str} {ls vs : List Str} {p : Parser} {file : Bool} {n : Nat} (h : Reads text ls)
    (hv : SeenLines p file (ls.drop n) vs) : ∀ l ∈ vs, IsLine l :=
  fun l hl => reads_isLine h l (List.mem_of_mem_drop (seenLines_mem hv l hl))

theorem coherent_prefix {a b : List Nat} (h : Coherent (a ++ b)) : Coherent a := by
  refine ⟨?_, ?_⟩
  · intro f hf n hn
    exact h.1 f (by cases a <;> simp_all) n (by simp [hn])
  · intro pre x y post e
    exact h.2 pre x y (post ++ b) (by rw [e]; simp)

end MdToc
