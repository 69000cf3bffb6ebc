import Verif.Lemmas.Buffers

/-!
# The string buffers of the inline parser: C79
-/

set_option linter.unusedSimpArgs false

namespace MdToc.Props

open MdToc.Spec MdToc.Cmark

/-- **C79**: the buffers of the inline parser do not change the result: for a text of at most 2^26 - 1 characters, removing the emphasis with
all the operations on buffers is the same as without them.  In particular the process never exits, and no exception comes from a buffer except for those already in
the other model. -/
theorem C79_same {E : Env} (hE : ShortEntities E) (line : Str) (p : Parser) (h : line.length ≤ 67108863) :
    removeEmphasisBuf E line p = Cmark.lift (removeEmphasis E line p) := by
  have hl : (line.filter (· != '\x00')).length ≤ 67108863 := Nat.le_trans (List.length_filter_le _ _) h
  unfold removeEmphasisBuf removeEmphasis parseInlinesB parseInlines
  simp only
  rw [inlinesLoopB_eq hE _ _ (rstrip_length_le _ _) hl]
  cases h1 : inlinesLoop E ((line.filter (· != '\x00')).length + 1) (initSubj (line.filter (· != '\x00'))) with
  | error e => rfl
  | ok s =>
    simp only [lift_ok, bind, Except.bind]
    cases h2 : processEmphasis s none <;> rfl

/-- **C79**: the process does not exit. -/
theorem C79_no_exit {E : Env} (hE : ShortEntities E) (line : Str) (p : Parser) (h : line.length ≤ 67108863) : removeEmphasisBuf E line p ≠ .error .exit := by
  rw [C79_same hE line p h]
  cases removeEmphasis E line p <;> simp [Cmark.lift, Except.mapError]

theorem asciiEnv_short : ShortEntities asciiEnv := by
  intro name e h
  simp only [asciiEnv] at h
  split at h
  · injection h with h; subst h; decide
  · split at h
    · injection h with h; subst h; decide
    · simp at h

/-- The hypotheses hold for a text with a code span, a reference, an autolink and a link with a title. -/
example : removeEmphasisBuf asciiEnv "*a* ` b ` &amp; <mailto:x&lt;y> [c](d\\* 'e')".toList .github = .ok "a ` b ` &amp; <mailto:x&lt;y> [c](d\\* 'e')".toList := by
  rw [C79_same asciiEnv_short _ _ (by decide)]
  decide +kernel

/-! ### The bound on the length -/

theorem ticks_exit (E : Env) (p : Parser) (n : Nat) (h1 : 1073741824 ≤ n) (h2 : n < 2147483648) :
    removeEmphasisBuf E ('`' :: (List.replicate n 'a' ++ ['`'])) p = .error .exit := by
  have hf : ('`' :: (List.replicate n 'a' ++ ['`'])).filter (· != '\x00') = '`' :: (List.replicate n 'a' ++ ['`']) := by
    rw [List.filter_eq_self]
    intro c hc
    simp only [List.mem_cons, List.mem_append, List.mem_replicate, List.not_mem_nil, or_false] at hc
    rcases hc with rfl | ⟨-, rfl⟩ | rfl <;> decide
  have hr : rtrimLen ('`' :: (List.replicate n 'a' ++ ['`'])) = n + 2 := by
    have : ('`' :: (List.replicate n 'a' ++ ['`'])).reverse = '`' :: (List.replicate n 'a' ++ ['`']) := by simp
    unfold rtrimLen rstrip
    rw [this, List.dropWhile_cons_of_neg (by decide)]
    simp
  unfold removeEmphasisBuf
  simp only [hf]
  generalize hline : '`' :: (List.replicate n 'a' ++ ['`']) = line
  rw [hline] at hr
  have hlen : line.length = n + 2 := by rw [← hline]; simp
  have hpeek : peek (initSubj line) = some '`' := by
    unfold peek initSubj
    simp only [hr]
    rw [if_pos (by omega), ← hline]
    rfl
  have hrest : ∀ i, restFrom (initSubj line) i = line.drop i := by
    intro i
    simp only [restFrom, initSubj, hr, ← hlen, List.take_length]
  have hn : ((restFrom (initSubj line) 0).takeWhile (· == '`')).length = 1 := by
    rw [hrest, ← hline]
    obtain ⟨m, rfl⟩ : ∃ m, n = m + 1 := ⟨n - 1, by omega⟩
    simp [List.replicate_succ]
  have hskip : ∀ m, (List.replicate m 'a' ++ ['`']).takeWhile (· != '`') = List.replicate m 'a' ∧ (List.replicate m 'a' ++ ['`']).dropWhile (· != '`') = ['`'] := by
    intro m
    induction m with
    | zero => exact ⟨rfl, rfl⟩
    | succ m ih => simp [List.replicate_succ, ih]
  have hclose : (closingTicksLoop 1 ((initSubj line).len + 1) (restFrom (initSubj line) (0 + 1)) (0 + 1) (initSubj line).backticks).1 = some (n + 2) := by
    rw [hrest, ← hline]
    simp only [Nat.zero_add, List.drop_succ_cons, List.drop_zero]
    unfold closingTicksLoop
    simp only [hskip]
    rw [if_pos (by decide)]
    simp only [List.length_replicate]
    congr 1
    simp
    omega
  have hgrow : SBuf.empty.grow n = .error .exit := by
    unfold SBuf.grow
    rw [if_neg (by omega), if_neg (by simp [SBuf.empty])]
    simp only
    rw [Nat.mod_eq_of_lt (by omega), if_pos (by omega)]
  have hset : SBuf.empty.set (line.drop 1) n = .error .exit := by
    unfold SBuf.set
    rw [if_neg (by omega), if_pos (by rw [← hline]; simp [SBuf.empty])]
    have : SBuf.empty.when (n ≥ SBuf.empty.asize) (·.grow n) = .error .exit := by
      unfold SBuf.when
      rw [if_pos (by simp [SBuf.empty])]
      exact hgrow
    rw [this]
    rfl
  have hticks : handleBackticksB (initSubj line) = .error .exit := by
    obtain ⟨bt, hc⟩ : ∃ bt, closingTicksLoop 1 ((initSubj line).len + 1) (restFrom (initSubj line) (0 + 1)) (0 + 1) (initSubj line).backticks = (some (n + 2), bt) :=
      ⟨_, Prod.ext hclose rfl⟩
    unfold handleBackticksB
    have hp : (initSubj line).pos = 0 := rfl
    simp only [hp, hn]
    rw [if_neg (by omega), if_neg (by simp [initSubj])]
    rw [hc]
    simp only
    unfold codeText
    rw [show n + 2 - (0 + 1) - 1 = n by omega, show (initSubj line).data = line from rfl, show (0 + 1 : Nat) = 1 from rfl, hset]
    rfl
  unfold parseInlinesB inlinesLoopB
  rw [hpeek]
  simp only [parseInlineB, if_true, hticks]
  rfl

/-- The bound on the length cannot be left out: a code span with at least 2^30 characters (and less than 2^31) ends the process, with any parser. -/
theorem C79_exit (E : Env) (p : Parser) (n : Nat) (h1 : 1073741824 ≤ n) (h2 : n < 2147483648) :
    ∃ line : Str, line.length = n + 2 ∧ removeEmphasisBuf E line p = .error .exit :=
  ⟨'`' :: (List.replicate n 'a' ++ ['`']), by simp, ticks_exit E p n h1 h2⟩

/-! ### The content of the buffers -/

/-- **C79**: putting a text at the end of a buffer that holds a text gives the concatenation, whatever has been allocated. -/
theorem C79_put (b : SBuf) (t : Str) (hs : b.size = b.ptr.length) (h : b.size + t.length ≤ 1073741823) :
    ∃ b', b.put t t.length = .ok b' ∧ b'.ptr = b.ptr ++ t ∧ b'.size = b'.ptr.length := by
  obtain ⟨b', h1, h2, -⟩ := put_ok b t t.length h
  refine ⟨b', h1, ?_⟩
  have h3 : b'.ptr = ((SBuf.toBuf b).put t t.length).ptr := by rw [← h2]; rfl
  have h4 : b'.size = ((SBuf.toBuf b).put t t.length).size := by rw [← h2]; rfl
  rw [Buf.put_size] at h4
  have h5 : ((SBuf.toBuf b).put t t.length).ptr = b.ptr ++ t := by
    unfold Buf.put
    by_cases ht : t.length = 0
    · have : t = [] := by simpa using ht
      subst this
      simp [SBuf.toBuf]
    · rw [if_neg ht]
      simp only [SBuf.toBuf, hs, List.take_length]
      rw [List.drop_eq_nil_of_le (by omega), List.append_nil]
  refine ⟨h3.trans h5, ?_⟩
  rw [h3, h5, h4, List.length_append, show (SBuf.toBuf b).size = b.size from rfl, hs]

/-- **C79**: removing the backslashes of a text fails exactly when no text without them exists; otherwise the buffer starts with that text and has
its length. -/
theorem C79_unescape (s : Str) (a : Nat) :
    (SBuf.unescape ⟨s, s.length, a⟩ = .error (.exn .IndexError) ∧ ∀ t, ¬ Unescaped s t) ∨
      ∃ t, Unescaped s t ∧ SBuf.unescape ⟨s, s.length, a⟩ = .ok ⟨t ++ s.drop t.length, t.length, a⟩ := by
  rcases unescaped_exists _ s (Nat.le_refl _) with ⟨h, hn⟩ | ⟨-, t, ht⟩
  · left
    refine ⟨?_, hn⟩
    unfold SBuf.unescape
    rw [unescapeLoop_error s.length s.length s 0 0 (Nat.le_refl _) (by simp) (by simp) (by simpa using h)]
    rfl
  · right
    refine ⟨t, ht, ?_⟩
    have hl := unescaped_length ht
    unfold SBuf.unescape
    rw [unescapeLoop_ok ht s.length s 0 0 (Nat.le_refl _) (by simp) (Nat.le_refl _)]
    simp only [bind, Except.bind, SBuf.truncate, List.take_zero, List.nil_append, Nat.zero_add]
    split
    · rfl
    · rw [show s.length = t.length by omega]

example : Unescaped "a\\*b\\c".toList "a*b\\c".toList :=
  .plain (by decide) (.escape (by decide) (.plain (by decide) (.backslash (by decide) (.plain (by decide) .nil))))

/-- The destination of a link keeps as many characters at its end as it has lost backslashes: the code returns the whole buffer.  (The destination is
not used by the library.) -/
theorem C79_url_leftover : cleanUrlB asciiEnv "a\\*b".toList = .ok "a*bb".toList ∧ Unescaped "a\\*b".toList "a*b".toList :=
  ⟨by decide +kernel, .plain (by decide) (.escape (by decide) (.plain (by decide) .nil))⟩

/-- **C79**: the content of a code span without line ends is kept as it is; the length is smaller by two if the content starts and ends with a space and has
something else.  (The content is not used by the library.) -/
theorem C79_code (content before after : Str) (hne : content ≠ []) (hl : content.length ≤ 1073741823) (hc : ∀ c ∈ content, c ≠ '\r' ∧ c ≠ '\n') :
    codeText (before ++ content ++ after) before.length content.length =
      .ok (content, if (∃ c ∈ content, c ≠ ' ') ∧ content.head? = some ' ' ∧ content.getLast? = some ' ' then content.length - 2 else content.length) := by
  have hpos : 0 < content.length := List.length_pos_iff.mpr hne
  have hd : (before ++ content ++ after).drop before.length = content ++ after := by rw [List.append_assoc, List.drop_left]
  obtain ⟨a, ha, hs⟩ := set_ok (data := content ++ after) (n := content.length) hpos (by simp) hl
  rw [List.take_left] at hs
  have hdet : ∀ n, SBuf.detach ⟨content, n, a⟩ = content := by
    intro n; unfold SBuf.detach; rw [if_neg (by simp only; omega)]
  have htr : SBuf.truncate ⟨content, content.length, a⟩ content.length = ⟨content, content.length, a⟩ := by
    unfold SBuf.truncate; rw [if_neg (by simp)]
  have hg0 : content[0]? = some content[0] := List.getElem?_eq_getElem hpos
  have hgl : content[content.length - 1]? = some content[content.length - 1] := List.getElem?_eq_getElem (by omega)
  have hhead : content.head? = some content[0] := by rw [List.head?_eq_getElem?, hg0]
  have hlast : content.getLast? = some content[content.length - 1] := by rw [List.getLast?_eq_getElem?, hgl]
  unfold codeText normalizeCode
  rw [hd, hs]
  simp only [bind, Except.bind]
  rw [normalizeLoop_plain content.length content 0 false (by simp) hc]
  simp only [Nat.zero_add, Bool.false_or, List.drop_zero, hg0, hgl, hhead, hlast]
  have hany : content.any (· != ' ') = true ↔ ∃ c ∈ content, c ≠ ' ' := by simp
  by_cases hsp : ∃ c ∈ content, c ≠ ' '
  · rw [if_pos (hany.mpr hsp)]
    by_cases h0 : content[0] = ' '
    · rw [if_pos h0]
      by_cases h1 : content[content.length - 1] = ' '
      · rw [if_pos h1, if_pos ⟨hsp, by rw [h0], by rw [h1]⟩]
        have h3 : 2 < content.length := by
          rcases content with _ | ⟨x, _ | ⟨y, _ | ⟨z, t⟩⟩⟩
          · simp at hpos
          · obtain ⟨c, hm, hc'⟩ := hsp
            simp at hm h0; exact absurd (hm.trans h0) hc'
          · obtain ⟨c, hm, hc'⟩ := hsp
            simp at hm h0 h1
            rcases hm with rfl | rfl
            · exact absurd h0 hc'
            · exact absurd h1 hc'
          · simp
        have hdrop : SBuf.drop ⟨content, content.length, a⟩ 1 = ⟨content, content.length - 1, a⟩ := by
          unfold SBuf.drop
          rw [if_pos (by omega)]
          simp only
          rw [if_neg (show ¬ 1 > content.length by omega), if_pos (show content.length - 1 ≠ 0 by omega)]
          congr 1
          unfold slice
          rw [show content.length - 1 + 1 = content.length by omega, show 1 + (content.length - 1) = content.length by omega, List.take_length,
            List.drop_eq_nil_of_le (Nat.le_refl _), List.append_nil, List.take_append_drop]
        rw [hdrop]
        unfold SBuf.truncate
        rw [if_pos (by simp only; omega)]
        simp only [hdet]
      · rw [if_neg h1, if_neg (by rintro ⟨-, -, h⟩; exact h1 (by injection h)), htr]
        simp only [hdet]
    · rw [if_neg h0, if_neg (by rintro ⟨-, h, -⟩; exact h0 (by injection h)), htr]
      simp only [hdet]
  · rw [if_neg (fun h => hsp (hany.mp h)), if_neg (fun h => hsp h.1), htr]
    simp only [hdet]

/-- **C79**: the content of any code span, also with line ends: if it ends with CR there is an `IndexError`, otherwise the node starts with the content
where the line ends are spaces, and its length is the one of that text, or smaller by two if the text starts and ends with a space. -/
theorem C79_code_lines (content before after : Str) (hne : content ≠ []) (hl : content.length ≤ 1073741823) :
    (content.getLast? = some '\r' ∧ codeText (before ++ content ++ after) before.length content.length = .error (.exn .IndexError)) ∨
      ∃ t rest n, Unlined content t ∧ codeText (before ++ content ++ after) before.length content.length = .ok (t ++ rest, n) ∧
        (n = t.length ∨ n = t.length - 2 ∧ t.head? = some ' ' ∧ t.getLast? = some ' ') := by
  by_cases hcr : content.getLast? = some '\r'
  · left
    refine ⟨hcr, ?_⟩
    have hd : ((before ++ content ++ after).drop before.length).take content.length = content := by rw [List.append_assoc, List.drop_left, List.take_left]
    rcases codeText_eq (data := before ++ content ++ after) (start := before.length) (n := content.length) (by simp) hl with ⟨-, h⟩ | ⟨h, -⟩
    · exact h
    · rw [hd] at h; exact absurd hcr h
  · right
    obtain ⟨t, ht⟩ := unlined_exists _ content (Nat.le_refl _) hcr
    have hpos : 0 < content.length := List.length_pos_iff.mpr hne
    have htl := unlined_length ht
    have htne : t ≠ [] := by rintro rfl; cases ht; exact hne rfl
    have htpos : 0 < t.length := List.length_pos_iff.mpr htne
    have hd : (before ++ content ++ after).drop before.length = content ++ after := by rw [List.append_assoc, List.drop_left]
    obtain ⟨a, ha, hs⟩ := set_ok (data := content ++ after) (n := content.length) hpos (by simp) hl
    rw [List.take_left] at hs
    obtain ⟨ns, hloop⟩ := normalizeLoop_lines ht content 0 0 false (Nat.le_refl _) (by simp) (by omega)
    simp only [List.take_zero, List.nil_append, Nat.zero_add] at hloop
    generalize hrest : content.drop t.length = rest at hloop
    have hlen : (t ++ rest).length = content.length := by rw [← hrest]; simp; omega
    have hdet : ∀ n, SBuf.detach ⟨t ++ rest, n, a⟩ = t ++ rest := by
      intro n; unfold SBuf.detach; rw [if_neg (by simp only; omega)]
    have htr : SBuf.truncate ⟨t ++ rest, content.length, a⟩ t.length = ⟨t ++ rest, t.length, a⟩ := by
      unfold SBuf.truncate
      split
      · rfl
      · rename_i hlt
        simp only at hlt
        rw [show content.length = t.length by omega]
    have hg0 : (t ++ rest)[0]? = t.head? := by rw [List.getElem?_append_left htpos, List.head?_eq_getElem?]
    have hgl : (t ++ rest)[t.length - 1]? = t.getLast? := by rw [List.getElem?_append_left (by omega), List.getLast?_eq_getElem?]
    refine ⟨t, rest, ?_⟩
    unfold codeText normalizeCode
    rw [hd, hs]
    simp only [bind, Except.bind, hloop, hg0, hgl]
    have plain : ∃ n, Unlined content t ∧ (Except.ok (SBuf.detach (SBuf.truncate ⟨t ++ rest, content.length, a⟩ t.length),
        (SBuf.truncate ⟨t ++ rest, content.length, a⟩ t.length).size) : Except Halt (Str × Nat)) = .ok (t ++ rest, n) ∧
        (n = t.length ∨ n = t.length - 2 ∧ t.head? = some ' ' ∧ t.getLast? = some ' ') := by
      refine ⟨t.length, ht, ?_, .inl rfl⟩
      rw [htr, hdet]
    cases ns with
    | false => rw [if_neg (by simp)]; exact plain
    | true =>
      rw [if_pos rfl]
      obtain ⟨x, hx⟩ : ∃ x, t.head? = some x := ⟨_, List.head?_eq_some_head htne⟩
      obtain ⟨y, hy⟩ : ∃ y, t.getLast? = some y := ⟨_, List.getLast?_eq_some_getLast htne⟩
      simp only [hx, hy]
      by_cases h0 : x = ' '
      · rw [if_pos h0]
        by_cases h1 : y = ' '
        · rw [if_pos h1]
          have hdrop : SBuf.drop ⟨t ++ rest, content.length, a⟩ 1 = ⟨t ++ rest, content.length - 1, a⟩ := by
            unfold SBuf.drop
            rw [if_pos (by omega)]
            simp only
            rw [if_neg (show ¬ 1 > content.length by omega)]
            split
            · congr 1
              unfold slice
              rw [show content.length - 1 + 1 = content.length by omega, show 1 + (content.length - 1) = content.length by omega, ← hlen, List.take_length,
                List.drop_eq_nil_of_le (Nat.le_refl _), List.append_nil, List.take_append_drop]
            · rfl
          have htr2 : SBuf.truncate ⟨t ++ rest, content.length - 1, a⟩ (t.length - 2) = ⟨t ++ rest, t.length - 2, a⟩ := by
            unfold SBuf.truncate
            split
            · rfl
            · rename_i hlt
              simp only at hlt
              rw [show content.length - 1 = t.length - 2 by omega]
          refine ⟨t.length - 2, ht, ?_, .inr ⟨rfl, by rw [← h0]; , by rw [← h1]⟩⟩
          rw [hdrop, htr2]; simp only [hdet]
        · rw [if_neg h1]
          rw [hx, hy] at plain
          exact plain
      · rw [if_neg h0]
        rw [hx, hy] at plain
        exact plain

/-- A code span over three lines. -/
example : Unlined "a\nb\r\nc".toList "a b c".toList ∧ codeText "`a\nb\r\nc`".toList 1 6 = .ok ("a b cc".toList, 5) :=
  ⟨.plain (by decide) (by decide) (.lf (.plain (by decide) (by decide) (.crlf (.plain (by decide) (by decide) .nil)))), by decide +kernel⟩

/-- The content " a " has the length of its trimmed text but is not trimmed: its first character is still the space. -/
example : codeText "` a `".toList 1 3 = .ok (" a ".toList, 1) := by decide +kernel

end MdToc.Props
