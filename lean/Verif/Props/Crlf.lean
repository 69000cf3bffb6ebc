import Verif.Props.Move

/-!
# The newlines of a file after a run with CR LF: C62, the exact condition
-/

set_option linter.unusedSimpArgs false

namespace MdToc.Props

open MdToc.Spec

/-- Every line feed of the text comes after a carriage return. -/
def OnlyCrlf (s : Str) : Prop := ∀ u v, s = u ++ '\n' :: v → u.getLast? = some '\r'

theorem onlyCrlf_none {s : Str} (h : '\n' ∉ s) : OnlyCrlf s := fun u v e => absurd (by rw [e]; simp) h

theorem onlyCrlf_nl : OnlyCrlf ['\r', '\n'] := by
  intro u v e
  cases u with
  | nil => simp at e
  | cons x u =>
    simp only [List.cons_append, List.cons.injEq] at e
    obtain ⟨rfl, e⟩ := e
    cases u with
    | nil => rfl
    | cons y u => simp at e

theorem onlyCrlf_append {s t : Str} (hs : OnlyCrlf s) (ht : OnlyCrlf t) : OnlyCrlf (s ++ t) := by
  intro u v e
  rcases List.append_eq_append_iff.mp e with ⟨w, rfl, e'⟩ | ⟨w, e', h⟩
  · have := ht w v e'
    rw [List.getLast?_append, this]
    rfl
  · cases w with
    | nil =>
      have := ht [] v (by simpa using h.symm)
      simp at this
    | cons c w =>
      simp only [List.cons_append, List.cons.injEq] at h
      obtain ⟨rfl, -⟩ := h
      exact hs u w e'

theorem onlyCrlf_prefix {s t : Str} (h : OnlyCrlf (s ++ t)) : OnlyCrlf s := fun u v e => h u (v ++ t) (by rw [e]; simp)

/-- **C62**, the exact condition: with CR LF as newline, a run in place leaves a file all of whose newlines are CR LF if and only if there are no newlines outside of the region of the table. -/
theorem C62_exact {E : Env} (hE : E.Lawful) {a : CliArgs} (hin : a.inPlace = true) {f : Str} (hf : a.filenames = [f]) (hnl : a.options.newline = ['\r', '\n']) (hm : ∀ c ∈ a.tocMarker, ¬ IsNewline c)
    {fs : FS} {ls : List Str} (hls : HasLines fs f ls) {stdin : Stdin} (hok : (cliMain E a fs stdin).code ≠ 1) {before removed after : List Str}
    (hcut : Cut E.isDigit a.tocMarker ls before removed after) :
    ∃ text, filesAfter E a stdin fs f = some ⟨text, false⟩ ∧ (OnlyCrlf text ↔ '\n' ∉ before.flatten ++ after.flatten) := by
  obtain ⟨hne, text, hft, hR⟩ := id hls
  obtain ⟨out, ho⟩ := built_of_code hf hne hok
  obtain ⟨core, hc⟩ : ∃ core, TrimmedRight isPySpace out core := ⟨_, trimmedRight_iff.mpr rfl⟩
  obtain ⟨b, tr, hw, hlast⟩ := C37_outside_preserved E hls out a.tocMarker a.options.newline hcut hc
  have hu : Update E a.options a.tocMarker f fs (lastFS fs f tr) := ⟨out, b, tr, ho, hw, rfl⟩
  refine ⟨before.flatten ++ block core a.tocMarker a.options.newline ++ after.flatten, ?_, ?_⟩
  · rw [(update_command hin hf hne stdin hu).1]
    unfold lastFS
    rw [hlast]
    simp [FS.write]
  · have hcr := reads_no_cr hR
    rw [cut_lines hcut] at hcr
    simp only [List.flatten_append, List.mem_append, not_or] at hcr
    rw [hnl]
    constructor
    · intro h hmem
      rcases List.mem_append.mp hmem with hmem | hmem
      · obtain ⟨u, v, e⟩ := List.append_of_mem hmem
        have := h u (v ++ (block core a.tocMarker ['\r', '\n'] ++ after.flatten)) (by rw [e]; simp)
        refine hcr.1.1 ?_
        rw [e]
        exact List.mem_append_left _ (List.mem_of_getLast? this)
      · obtain ⟨u, v, e⟩ := List.append_of_mem hmem
        have := h (before.flatten ++ block core a.tocMarker ['\r', '\n'] ++ u) v (by rw [e]; simp)
        rw [List.getLast?_append] at this
        cases hu' : u.getLast? with
        | some x =>
          rw [hu'] at this
          simp only [Option.some_or, Option.some.injEq] at this
          subst this
          refine hcr.2 ?_
          rw [e]
          exact List.mem_append_left _ (List.mem_of_getLast? hu')
        | none =>
          rw [hu'] at this
          have e2 : before.flatten ++ block core a.tocMarker ['\r', '\n'] = (before.flatten ++ (a.tocMarker ++ ['\r', '\n'] ++ ['\r', '\n'] ++ core ++ ['\r', '\n'] ++ ['\r', '\n'] ++ a.tocMarker ++ ['\r'])) ++ ['\n'] := by
            simp [block]
          rw [e2, Option.none_or, List.getLast?_append] at this
          simp at this
    · intro h
      simp only [List.mem_append, not_or] at h
      have hmk : OnlyCrlf a.tocMarker := onlyCrlf_none fun hx => hm _ hx (.inl rfl)
      have hcore : OnlyCrlf core := by
        rw [hft] at ho
        obtain ⟨es, g, he, hi, -⟩ := entries_items hE ho
        have hall : OnlyCrlf out := by
          rw [he, hnl]
          clear he
          induction es with
          | nil => exact onlyCrlf_none (by simp)
          | cons e es ih =>
            simp only [List.map_cons, List.flatten_cons]
            exact onlyCrlf_append (onlyCrlf_append (onlyCrlf_none fun hx => (hi e (by simp)).1 _ hx (.inl rfl)) onlyCrlf_nl) (ih fun x hx => hi x (by simp [hx]))
        obtain ⟨w, rfl, -⟩ := hc
        exact onlyCrlf_prefix hall
      have hn := onlyCrlf_nl
      unfold block
      exact onlyCrlf_append (onlyCrlf_append (onlyCrlf_none h.1) (onlyCrlf_append (onlyCrlf_append (onlyCrlf_append (onlyCrlf_append (onlyCrlf_append (onlyCrlf_append (onlyCrlf_append hmk hn) hn) hcore) hn) hn) hmk) hn))
        (onlyCrlf_none h.2)

namespace CrlfCase

open MoveCase

/-- A file with a heading behind the marker: the newlines of the heading stay, so not all newlines are CR LF. -/
example : ∃ text, filesAfter asciiEnv { am with newline := "\\r\\n".toList } none sm fm = some ⟨text, false⟩ ∧ ¬ OnlyCrlf text := by
  obtain ⟨text, h1, h2⟩ := C62_exact (E := asciiEnv) (a := { am with newline := "\\r\\n".toList }) (stdin := none) asciiEnv_lawful rfl rfl (by decide +kernel) (by unfold IsNewline; decide) hasm (by decide +kernel)
    (region_cut (.inl ⟨_, rfl, isMarker_iff.mpr (by decide +kernel)⟩) (by simp) (by simp only [isMarker_iff]; decide +kernel))
  exact ⟨text, h1, fun h => (h2.mp h) (by decide)⟩

def se : FS := fun g => if g = fm then some ⟨"<!--TOC-->\n# a".toList, false⟩ else none

/-- A file with the marker and one line without a newline: all newlines are CR LF. -/
example : ∃ text, filesAfter asciiEnv { am with newline := "\\r\\n".toList } none se fm = some ⟨text, false⟩ ∧ OnlyCrlf text := by
  have hl : HasLines se fm ([] ++ ["<!--TOC-->\n".toList] ++ ["# a".toList]) := ⟨by decide, "<!--TOC-->\n# a".toList, by simp [se], (reads_iff (bad := false)).mpr (by decide +kernel)⟩
  obtain ⟨text, h1, h2⟩ := C62_exact (E := asciiEnv) (a := { am with newline := "\\r\\n".toList }) (stdin := none) asciiEnv_lawful rfl rfl (by decide +kernel) (by unfold IsNewline; decide) hl (by decide +kernel)
    (region_cut (.inl ⟨_, rfl, isMarker_iff.mpr (by decide +kernel)⟩) (by simp) (by simp only [isMarker_iff]; decide +kernel))
  exact ⟨text, h1, h2.mpr (by decide)⟩

end CrlfCase

end MdToc.Props
