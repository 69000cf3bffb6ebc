import Verif.Cmark.Buffer
import Verif.Lemmas.EmphEscaped
import Verif.Props.Helpers
import Verif.Spec.Buffer

/-!
# String buffers
-/

set_option linter.unusedSimpArgs false

namespace MdToc

open Cmark Spec

/-- The part of a buffer that the other model keeps. -/
def SBuf.toBuf (b : SBuf) : Buf := ⟨b.ptr, b.size⟩

theorem lift_ok (x : α) : lift (.ok x) = .ok x := rfl
theorem lift_error (e : Exn) : lift (α := α) (.error e) = .error (.exn e) := rfl

theorem grow_ok (b : SBuf) {n : Nat} (h0 : 0 < n) (h : n ≤ 1073741823) : ∃ a, 0 < a ∧ b.grow n = .ok { b with asize := a } := by
  unfold SBuf.grow
  rw [if_neg (by omega)]
  split
  · exact ⟨b.asize, by omega, rfl⟩
  · have : n % 2 ^ 31 = n := Nat.mod_eq_of_lt (by omega)
    simp only [this]
    rw [if_neg (by omega)]
    exact ⟨_, by omega, rfl⟩

theorem put_ok (b : SBuf) (dt : Str) (n : Nat) (h : b.size + n ≤ 1073741823) :
    ∃ b', b.put dt n = .ok b' ∧ SBuf.toBuf b' = (SBuf.toBuf b).put dt n ∧ (0 < n → 0 < b'.asize) ∧ (0 < b.asize → 0 < b'.asize) := by
  unfold SBuf.put Buf.put
  by_cases hn : n = 0
  · rw [if_pos hn, if_pos hn]
    exact ⟨b, rfl, rfl, by omega, id⟩
  · rw [if_neg hn, if_neg hn]
    obtain ⟨a, ha, hg⟩ := grow_ok b (n := b.size + n) (by omega) h
    refine ⟨⟨b.ptr.take b.size ++ dt.take n ++ b.ptr.drop (b.size + 1 + n), b.size + n, a⟩, ?_, rfl, fun _ => ha, fun _ => ha⟩
    simp only [SBuf.growBy, hg, bind, Except.bind]

theorem putc_ok (b : SBuf) (h : b.size + 1 ≤ 1073741823) :
    ∃ b', b.putc '&' = .ok b' ∧ SBuf.toBuf b' = (SBuf.toBuf b).putc '&' ∧ 0 < b'.asize := by
  obtain ⟨a, ha, hg⟩ := grow_ok b (n := b.size + 1) (by omega) h
  refine ⟨⟨b.ptr ++ ['&'], b.size + 1, a⟩, ?_, rfl, ha⟩
  simp only [SBuf.putc, SBuf.growBy, hg, bind, Except.bind]
  rfl

/-- The texts of the entities are short. -/
def ShortEntities (E : Env) : Prop := ∀ name e, E.entity name = some e → utf8Size e ≤ 15

theorem encodeCharB_eq (uc : Int) (b : SBuf) (h : b.size + 16 ≤ 1073741823) :
    (encodeCharB uc b).map SBuf.toBuf = lift (encodeChar uc (SBuf.toBuf b)) := by
  unfold encodeCharB encodeChar
  split
  · rfl
  · split
    · obtain ⟨b', h1, h2, -⟩ := put_ok b ['\t'] 3 (by omega)
      rw [h1, lift_ok, ← h2]; rfl
    · obtain ⟨b', h1, h2, -⟩ := put_ok b (natStr uc.toNat) 1 (by omega)
      rw [h1, lift_ok, ← h2]; rfl

theorem numericEndB_eq (skip m : Nat) (r : Int × Nat × Str) (b : SBuf) (h : b.size + 16 ≤ 1073741823) :
    (numericEndB skip m r b).map (fun x => (x.1, SBuf.toBuf x.2)) = lift (numericEnd skip m r (SBuf.toBuf b)) := by
  obtain ⟨cp, n, rest⟩ := r
  unfold numericEndB numericEnd
  split
  · rename_i cp' n' x heq
    obtain ⟨rfl, rfl, rfl⟩ : cp = cp' ∧ n = n' ∧ rest = ';' :: x := by simpa using heq
    simp only
    split
    · have := encodeCharB_eq (if cp = 0 ∨ (cp ≥ 0xD800 ∧ cp < 0xE000) ∨ cp ≥ 0x110000 then 0xFFFD else cp) b h
      cases h1 : encodeCharB (if cp = 0 ∨ (cp ≥ 0xD800 ∧ cp < 0xE000) ∨ cp ≥ 0x110000 then 0xFFFD else cp) b with
      | error e =>
        cases h2 : encodeChar (if cp = 0 ∨ (cp ≥ 0xD800 ∧ cp < 0xE000) ∨ cp ≥ 0x110000 then 0xFFFD else cp) (SBuf.toBuf b) with
        | error e' =>
          rw [h1, h2] at this
          simp only [bind, Except.bind, Except.map, lift, Except.mapError] at this ⊢
          injection this with this
          rw [this]
        | ok x => rw [h1, h2] at this; simp [Except.map, lift, Except.mapError] at this
      | ok y =>
        cases h2 : encodeChar (if cp = 0 ∨ (cp ≥ 0xD800 ∧ cp < 0xE000) ∨ cp ≥ 0x110000 then 0xFFFD else cp) (SBuf.toBuf b) with
        | error e' => rw [h1, h2] at this; simp [Except.map, lift, Except.mapError] at this
        | ok x =>
          rw [h1, h2] at this
          simp only [bind, Except.bind, Except.map, lift, Except.mapError] at this ⊢
          injection this with this
          rw [this]
    · rfl
  · rename_i heq
    have : ∀ x, rest ≠ ';' :: x := by
      intro x hx
      exact heq cp n x (by rw [hx])
    split
    · rename_i cp' n' x heq2
      simp only [Prod.mk.injEq] at heq2
      exact absurd heq2.2.2 (this x)
    · rfl

theorem namedLoopB_eq {E : Env} (hE : ShortEntities E) (f : Nat) : ∀ (name t : Str) (b : SBuf), b.size + 16 ≤ 1073741823 →
    (namedLoopB E f name t b).map (fun x => (x.1, SBuf.toBuf x.2)) = .ok (namedLoop E f name t (SBuf.toBuf b)) := by
  induction f with
  | zero => intro name t b _; rfl
  | succ f ih =>
    intro name t b h
    cases t with
    | nil => rfl
    | cons c t =>
      unfold namedLoopB namedLoop
      split
      · rfl
      · split
        · cases he : E.entity name.reverse with
          | none => rfl
          | some e =>
            have := hE _ _ he
            obtain ⟨b', h1, h2, -⟩ := put_ok b (e ++ ['\x00']) (utf8Size e + 1) (by omega)
            simp only [h1, bind, Except.bind, Except.map, h2]
        · exact ih _ _ _ h

theorem unescapeEntB_eq {E : Env} (hE : ShortEntities E) (src : Str) (b : SBuf) (h : b.size + 16 ≤ 1073741823) :
    (unescapeEntB E src b).map (fun x => (x.1, SBuf.toBuf x.2)) = lift (unescapeEnt E src (SBuf.toBuf b)) := by
  have named : ∀ c0 c1 t, (namedLoopB E 30 [c1, c0] t b).map (fun x => (x.1, SBuf.toBuf x.2)) = lift (.ok (namedLoop E 30 [c1, c0] t (SBuf.toBuf b))) := by
    intro c0 c1 t; rw [namedLoopB_eq hE _ _ _ _ h]; rfl
  rcases src with _ | ⟨c0, _ | ⟨c1, t⟩⟩
  · simp [unescapeEntB, unescapeEnt, lift, Except.map, Except.mapError]
  · simp [unescapeEntB, unescapeEnt, lift, Except.map, Except.mapError]
  · by_cases hc : c0 = '#'
    · subst hc
      cases t with
      | nil => simpa only [unescapeEntB, unescapeEnt] using named _ _ _
      | cons e t =>
        simp only [unescapeEntB, unescapeEnt]
        split
        · exact numericEndB_eq _ _ _ _ h
        · split
          · exact numericEndB_eq _ _ _ _ h
          · rfl
    · have e1 : unescapeEntB E (c0 :: c1 :: t) b = namedLoopB E 30 [c1, c0] t b := by
        unfold unescapeEntB
        split
        · rename_i heq; simp only [List.cons.injEq] at heq; exact absurd heq.1 hc
        · rename_i heq; simp only [List.cons.injEq] at heq; rw [heq.1, heq.2.1, heq.2.2]
        · rename_i _ heq; exact absurd rfl (heq c0 c1 t)
      have e2 : unescapeEnt E (c0 :: c1 :: t) (SBuf.toBuf b) = .ok (namedLoop E 30 [c1, c0] t (SBuf.toBuf b)) := by
        unfold unescapeEnt
        split
        · rename_i heq; simp only [List.cons.injEq] at heq; exact absurd heq.1 hc
        · rename_i heq; simp only [List.cons.injEq] at heq; rw [heq.1, heq.2.1, heq.2.2]
        · rename_i _ heq; exact absurd rfl (heq c0 c1 t)
      rw [e1, e2]
      exact named _ _ _

/-! ### How much an entity adds -/

theorem Buf.put_size (b : Buf) (dt : Str) (n : Nat) : (b.put dt n).size = b.size + n := by
  unfold Buf.put; split
  · simp_all
  · rfl

theorem encodeChar_size {uc : Int} {b b' : Buf} (h : encodeChar uc b = .ok b') : b'.size ≤ b.size + 16 := by
  unfold encodeChar at h
  split at h
  · simp at h
  · split at h
    · injection h with h; rw [← h, Buf.put_size]; omega
    · injection h with h; rw [← h, Buf.put_size]; omega

theorem unescapeEnt_size {E : Env} (hE : ShortEntities E) {src : Str} {b b' : Buf} {n : Nat} (he : unescapeEnt E src b = .ok (n, b')) :
    b'.size ≤ b.size + 16 ∧ (n = 0 → b' = b) := by
  have hnum : ∀ skip m r, numericEnd skip m r b = .ok (n, b') → b'.size ≤ b.size + 16 ∧ (n = 0 → b' = b) := by
    intro skip m r h
    unfold numericEnd at h
    split at h
    · split at h
      · simp only [bind, Except.bind] at h
        split at h
        · simp at h
        · rename_i b1 hb1
          simp only [Except.ok.injEq, Prod.mk.injEq] at h
          rw [← h.2]
          exact ⟨encodeChar_size hb1, by omega⟩
      · simp only [Except.ok.injEq, Prod.mk.injEq] at h; rw [← h.2]; exact ⟨by omega, fun _ => rfl⟩
    · simp only [Except.ok.injEq, Prod.mk.injEq] at h; rw [← h.2]; exact ⟨by omega, fun _ => rfl⟩
  have hname : ∀ f name t, (namedLoop E f name t b).2.size ≤ b.size + 16 ∧ ((namedLoop E f name t b).1 = 0 → (namedLoop E f name t b).2 = b) := by
    intro f
    induction f with
    | zero => intro name t; simp [namedLoop]
    | succ f ih =>
      intro name t
      cases t with
      | nil => simp [namedLoop]
      | cons c t =>
        unfold namedLoop
        split
        · simp
        · split
          · cases he : E.entity name.reverse with
            | none => simp
            | some e =>
              have := hE _ _ he
              simp only [Buf.put_size]
              exact ⟨by omega, by omega⟩
          · exact ih _ _
  unfold unescapeEnt at he
  split at he
  · split at he
    · exact hnum _ _ _ he
    · split at he
      · exact hnum _ _ _ he
      · simp only [Except.ok.injEq, Prod.mk.injEq] at he; rw [← he.2]; exact ⟨by omega, fun _ => rfl⟩
  · simp only [Except.ok.injEq] at he
    have := hname 30
    rename_i c0 c1 t _
    have := this [c1, c0] t
    rw [he] at this
    exact this
  · simp only [Except.ok.injEq, Prod.mk.injEq] at he; rw [← he.2]; exact ⟨by omega, fun _ => rfl⟩

/-! ### Unescaping references -/

theorem take_takeWhile (p : Char → Bool) (s : Str) : s.take (s.takeWhile p).length = s.takeWhile p := by
  have := List.takeWhile_append_dropWhile (p := p) (l := s)
  conv => lhs; arg 2; rw [← this]
  rw [List.take_left]

theorem put_run (b : Buf) (s : Str) (p : Char → Bool) : b.put s (s.takeWhile p).length = b.put (s.takeWhile p) (s.takeWhile p).length := by
  unfold Buf.put
  rw [take_takeWhile, List.take_length]

theorem unescapeHtmlB_eq {E : Env} (hE : ShortEntities E) {size : Nat} (f : Nat) : ∀ (first : Bool) (src : Str) (b : SBuf),
    b.size + 16 * src.length ≤ 1073741823 → (first = true → src ≠ [] → 0 < size ∧ size ≤ 1073741823) →
    ¬ (src.takeWhile (· != '&') ≠ [] ∧ first = true ∧ src.dropWhile (· != '&') = []) →
    (unescapeHtmlB E size f first src b).map (fun x => (x.1, SBuf.toBuf x.2)) = (lift (unescapeHtml E f src (SBuf.toBuf b))).map (fun x => (true, x)) := by
  induction f with
  | zero => intro first src b _ _ _; rfl
  | succ f ih =>
    intro first src b h hs hn
    unfold unescapeHtmlB unescapeHtml
    by_cases h0 : src = []
    · subst h0; rfl
    rw [if_neg h0, if_neg hn]
    have hlen : (src.takeWhile (· != '&')).length + (src.dropWhile (· != '&')).length = src.length := by
      rw [← List.length_append, List.takeWhile_append_dropWhile]
    have h1 : ∃ b1, b.when (src.takeWhile (· != '&') ≠ [] ∧ first = true) (·.grow size) = .ok b1 ∧ SBuf.toBuf b1 = SBuf.toBuf b := by
      unfold SBuf.when
      split
      · rename_i hc
        simp only [decide_eq_true_eq] at hc
        obtain ⟨a, -, ha⟩ := grow_ok b (hs hc.2 h0).1 (hs hc.2 h0).2
        exact ⟨_, ha, rfl⟩
      · exact ⟨b, rfl, rfl⟩
    obtain ⟨b1, h1, e1⟩ := h1
    have es1 : b1.size = b.size := congrArg Buf.size e1
    have h2 : ∃ b2, b1.when (src.takeWhile (· != '&') ≠ []) (·.put src (src.takeWhile (· != '&')).length) = .ok b2 ∧
        SBuf.toBuf b2 = (SBuf.toBuf b).put (src.takeWhile (· != '&')) (src.takeWhile (· != '&')).length := by
      unfold SBuf.when
      split
      · obtain ⟨b2, h2, e2, -⟩ := put_ok b1 src (src.takeWhile (· != '&')).length (by omega)
        exact ⟨b2, h2, by rw [e2, e1, put_run]⟩
      · rename_i hc
        refine ⟨b1, rfl, ?_⟩
        simp only [ne_eq, decide_eq_true_eq, not_not] at hc
        rw [hc, e1]; rfl
    obtain ⟨b2, h2, e2⟩ := h2
    have es2 : b2.size = b.size + (src.takeWhile (· != '&')).length := by
      have := congrArg Buf.size e2
      rw [Buf.put_size] at this
      exact this
    simp only [h1, h2, bind, Except.bind, ← e2]
    cases hr : src.dropWhile (· != '&') with
    | nil => rfl
    | cons a t =>
      rw [hr, List.length_cons] at hlen
      simp only
      have he := unescapeEntB_eq hE t b2 (by omega)
      cases h3 : unescapeEntB E t b2 with
      | error e =>
        cases h4 : unescapeEnt E t (SBuf.toBuf b2) with
        | ok x => rw [h3, h4] at he; simp [Except.map, lift, Except.mapError] at he
        | error e' =>
          rw [h3, h4] at he
          simp only [Except.map, lift, Except.mapError] at he ⊢
          injection he with he
          rw [he]
      | ok x =>
        obtain ⟨n, b3⟩ := x
        cases h4 : unescapeEnt E t (SBuf.toBuf b2) with
        | error e' => rw [h3, h4] at he; simp [Except.map, lift, Except.mapError] at he
        | ok y =>
          obtain ⟨m, y⟩ := y
          rw [h3, h4] at he
          simp only [Except.map, lift, Except.mapError, Except.ok.injEq, Prod.mk.injEq] at he
          obtain ⟨rfl, rfl⟩ := he
          have hsz : b3.size ≤ b2.size + 16 := (unescapeEnt_size hE h4).1
          simp only
          have h5 : ∃ b4, b3.when (n = 0) (·.putc '&') = .ok b4 ∧ SBuf.toBuf b4 = (if n = 0 then (SBuf.toBuf b3).putc '&' else SBuf.toBuf b3) ∧ b4.size ≤ b2.size + 16 := by
            unfold SBuf.when
            by_cases h0 : n = 0
            · subst h0
              rw [if_pos (by simp), if_pos rfl]
              have hb : SBuf.toBuf b3 = SBuf.toBuf b2 := (unescapeEnt_size hE h4).2 rfl
              have hb : b3.size = b2.size := congrArg Buf.size hb
              obtain ⟨b4, h5, e5, -⟩ := putc_ok b3 (by omega)
              refine ⟨b4, h5, e5, ?_⟩
              have := congrArg Buf.size e5
              simp only [SBuf.toBuf, Buf.putc] at this
              omega
            · rw [if_neg (by simpa using h0), if_neg h0]
              exact ⟨b3, rfl, rfl, hsz⟩
          obtain ⟨b4, h5, e5, hs4⟩ := h5
          rw [h5]
          simp only
          rw [← e5]
          refine ih false (t.drop n) b4 ?_ (by simp) (by simp)
          simp only [List.length_drop]
          omega

theorem map_eq_ok {α β : Type} {f : α → β} {x : Except Halt α} {y : β} (h : x.map f = .ok y) : ∃ a, x = .ok a ∧ f a = y := by
  cases x with
  | error e => simp [Except.map] at h
  | ok a => exact ⟨a, rfl, by simpa [Except.map] using h⟩

theorem map_eq_error {α β : Type} {f : α → β} {x : Except Halt α} {e : Halt} (h : x.map f = .error e) : x = .error e := by
  cases x with
  | error e => simpa [Except.map] using h
  | ok a => simp [Except.map] at h

theorem unescapeHtml_nonref {E : Env} {src : Str} (b : Buf) (f : Nat) (h : src.dropWhile (· != '&') = []) : unescapeHtml E (f + 1) src b = .ok (b.put src src.length) := by
  have : src.takeWhile (· != '&') = src := by
    have := List.takeWhile_append_dropWhile (p := (· != '&')) (l := src)
    rw [h, List.append_nil] at this
    exact this
  unfold unescapeHtml
  simp only [h, this]

theorem unescapeHtmlFB_eq {E : Env} (hE : ShortEntities E) (src : Str) (b : SBuf) (h : b.size + 16 * src.length ≤ 1073741823) :
    (unescapeHtmlFB E src b).map SBuf.toBuf = lift (unescapeHtml E (src.length + 1) src (SBuf.toBuf b)) := by
  unfold unescapeHtmlFB
  by_cases hn : src.takeWhile (· != '&') ≠ [] ∧ src.dropWhile (· != '&') = []
  · have h1 : unescapeHtmlB E src.length (src.length + 1) true src b = .ok (false, b) := by
      unfold unescapeHtmlB
      rw [if_neg (by rintro rfl; simp at hn)]
      simp only
      rw [if_pos ⟨hn.1, by simp, hn.2⟩]
    obtain ⟨b', h2, e2, -⟩ := put_ok b src src.length (by omega)
    simp only [h1, bind, Except.bind]
    rw [if_neg (by simp), h2, unescapeHtml_nonref _ _ hn.2]
    simp only [Except.map, e2, lift, Except.mapError]
  · have := unescapeHtmlB_eq hE (size := src.length) (src.length + 1) true src b h (fun _ h0 => ⟨List.length_pos_iff.mpr h0, by omega⟩) (by
      rintro ⟨a, -, c⟩; exact hn ⟨a, c⟩)
    cases hx : unescapeHtml E (src.length + 1) src (SBuf.toBuf b) with
    | error e =>
      rw [hx] at this
      rw [map_eq_error this]
      rfl
    | ok y =>
      rw [hx] at this
      obtain ⟨⟨d, b'⟩, h1, h2⟩ := map_eq_ok this
      simp only [Prod.mk.injEq] at h2
      rw [h1]
      simp only [bind, Except.bind]
      rw [if_pos h2.1]
      simp only [Except.map, h2.2, lift, Except.mapError]

/-! ### Unescaping backslashes -/

theorem unescaped_exists : ∀ (k : Nat) (s : Str), s.length ≤ k → (strbufUnescape s = .error .IndexError ∧ (∀ t, ¬ Unescaped s t)) ∨ (strbufUnescape s = .ok () ∧ ∃ t, Unescaped s t) := by
  intro k
  induction k with
  | zero =>
    intro s h
    have : s = [] := by simpa using h
    subst this
    exact .inr ⟨rfl, [], .nil⟩
  | succ k ih =>
    intro s h
    rcases s with _ | ⟨c, s⟩
    · exact .inr ⟨rfl, [], .nil⟩
    · simp only [List.length_cons] at h
      by_cases hc : c = '\\'
      · subst hc
        rcases s with _ | ⟨d, s⟩
        · left
          refine ⟨by simp [strbufUnescape], ?_⟩
          intro t ht
          cases ht with
          | plain h => exact h rfl
        · simp only [List.length_cons] at h
          by_cases hd : isPunct d = true
          · have e : strbufUnescape ('\\' :: d :: s) = strbufUnescape s := by
              conv => lhs; unfold strbufUnescape
              simp [hd]
            rw [e]
            rcases ih s (by omega) with ⟨h1, h2⟩ | ⟨h1, t, h2⟩
            · left
              refine ⟨h1, ?_⟩
              intro t ht
              cases ht with
              | plain h => exact h rfl
              | escape _ h => exact h2 _ h
              | backslash h => unfold isPunct at hd; rw [hd] at h; simp at h
            · exact .inr ⟨h1, _, .escape hd h2⟩
          · have e : strbufUnescape ('\\' :: d :: s) = strbufUnescape (d :: s) := by
              conv => lhs; unfold strbufUnescape
              simp [hd]
            rw [e]
            rcases ih (d :: s) (by simp only [List.length_cons]; omega) with ⟨h1, h2⟩ | ⟨h1, t, h2⟩
            · left
              refine ⟨h1, ?_⟩
              intro t ht
              cases ht with
              | plain h => exact h rfl
              | escape h => exact hd h
              | backslash _ h => exact h2 _ h
            · exact .inr ⟨h1, _, .backslash (by simpa [isPunct] using hd) h2⟩
      · have e : strbufUnescape (c :: s) = strbufUnescape s := by
          conv => lhs; unfold strbufUnescape
          simp [hc]
        rw [e]
        rcases ih s (by omega) with ⟨h1, h2⟩ | ⟨h1, t, h2⟩
        · left
          refine ⟨h1, ?_⟩
          intro t ht
          cases ht with
          | plain _ h => exact h2 _ h
          | escape => exact hc rfl
          | backslash => exact hc rfl
        · exact .inr ⟨h1, _, .plain hc h2⟩

theorem unescaped_length {s t : Str} (h : Unescaped s t) : t.length ≤ s.length := by
  induction h with
  | nil => simp
  | plain _ _ ih => simp only [List.length_cons]; omega
  | escape _ _ ih => simp only [List.length_cons]; omega
  | backslash _ _ ih => simp only [List.length_cons] at ih ⊢; omega

/-- Writing one character behind the reading position. -/
theorem write_drop {ptr : Str} {w r : Nat} (c : Char) (hw : w ≤ r) (hr : r < ptr.length) :
    (ptr.take w ++ [c] ++ ptr.drop (w + 1)).drop (r + 1) = ptr.drop (r + 1) := by
  have : (ptr.take w ++ [c]).length = w + 1 := by simp; omega
  rw [List.drop_append, this, List.drop_eq_nil_of_le (by omega), List.nil_append, List.drop_drop]
  congr 1; omega

theorem write_take {ptr : Str} {w : Nat} (c : Char) (hw : w < ptr.length) :
    (ptr.take w ++ [c] ++ ptr.drop (w + 1)).take (w + 1) = ptr.take w ++ [c] := by
  have : (ptr.take w ++ [c]).length = w + 1 := by simp; omega
  rw [show w + 1 = (ptr.take w ++ [c]).length by omega, List.take_left]

theorem write_length {ptr : Str} {w : Nat} (c : Char) (hw : w < ptr.length) : (ptr.take w ++ [c] ++ ptr.drop (w + 1)).length = ptr.length := by
  simp; omega

/-- The text not overwritten stays. -/
theorem write_rest {ptr : Str} {w : Nat} (c : Char) (hw : w < ptr.length) : (ptr.take w ++ [c] ++ ptr.drop (w + 1)).drop (w + 1) = ptr.drop (w + 1) :=
  write_drop c (Nat.le_refl _) hw

theorem getElem?_of_drop {ptr : Str} {r : Nat} {c : Char} {s : Str} (h : ptr.drop r = c :: s) : ptr[r]? = some c ∧ ptr.drop (r + 1) = s ∧ r < ptr.length := by
  have h1 : (ptr.drop r)[0]? = some c := by rw [h]; rfl
  rw [List.getElem?_drop, Nat.add_zero] at h1
  refine ⟨h1, ?_, ?_⟩
  · rw [← List.drop_drop, h]; rfl
  · by_contra hc
    rw [List.drop_eq_nil_of_le (by omega)] at h
    simp at h

/-- The loop over the text: the characters written, and the end of the text as it was. -/
theorem unescapeLoop_ok {s t : Str} (h : Unescaped s t) : ∀ (f : Nat) (ptr : Str) (r w : Nat), w ≤ r → ptr.drop r = s → s.length ≤ f →
    SBuf.unescapeLoop f ptr r w = .ok (ptr.take w ++ t ++ ptr.drop (w + t.length), w + t.length) := by
  have done : ∀ (f : Nat) (ptr : Str) (r w : Nat), ptr.drop r = [] → SBuf.unescapeLoop f ptr r w = .ok (ptr, w) := by
    intro f ptr r w h
    have : ¬ r < ptr.length := by
      intro hc
      have := congrArg List.length h
      simp at this; omega
    cases f with
    | zero => rfl
    | succ f => unfold SBuf.unescapeLoop; rw [if_neg this]
  have step : ∀ (f : Nat) (ptr : Str) (r r' w : Nat) (c : Char) (t : Str), w ≤ r' → r' < ptr.length →
      SBuf.unescapeLoop f (ptr.take w ++ [c] ++ ptr.drop (w + 1)) (r' + 1) (w + 1) =
        .ok ((ptr.take w ++ [c] ++ ptr.drop (w + 1)).take (w + 1) ++ t ++ (ptr.take w ++ [c] ++ ptr.drop (w + 1)).drop (w + 1 + t.length), w + 1 + t.length) →
      SBuf.unescapeSkip ptr r = .ok r' → ptr[r']? = some c → r < ptr.length →
      SBuf.unescapeLoop (f + 1) ptr r w = .ok (ptr.take w ++ (c :: t) ++ ptr.drop (w + (c :: t).length), w + (c :: t).length) := by
    intro f ptr r r' w c t hw hr' hl hs hg hr
    conv => lhs; unfold SBuf.unescapeLoop
    rw [if_pos hr]
    simp only [hs, hg, bind, Except.bind]
    rw [hl, write_take c (by omega)]
    have : (ptr.take w ++ [c] ++ ptr.drop (w + 1)).drop (w + 1 + t.length) = ptr.drop (w + 1 + t.length) := by
      rw [← List.drop_drop, write_rest c (by omega), List.drop_drop]
    rw [this]
    simp only [List.length_cons, List.append_assoc, List.cons_append, List.nil_append]
    rw [show w + 1 + t.length = w + (t.length + 1) by omega]
  induction h with
  | nil =>
    intro f ptr r w hw hd _
    rw [done f ptr r w hd]
    simp
  | @plain c s t hc _ ih =>
    intro f ptr r w hw hd hf
    obtain ⟨hg, hd', hr⟩ := getElem?_of_drop hd
    cases f with
    | zero => simp at hf
    | succ f =>
      simp only [List.length_cons] at hf
      refine step f ptr r r w c t hw hr (ih _ _ _ _ (by omega) ?_ (by omega)) ?_ hg hr
      · rw [write_drop c hw hr, hd']
      · unfold SBuf.unescapeSkip
        rw [hg]
        simp only
        rw [if_neg hc]
  | @escape c s t hc _ ih =>
    intro f ptr r w hw hd hf
    obtain ⟨hg, hd', hr⟩ := getElem?_of_drop hd
    obtain ⟨hg', hd'', hr'⟩ := getElem?_of_drop hd'
    cases f with
    | zero => simp at hf
    | succ f =>
      simp only [List.length_cons] at hf
      refine step f ptr r (r + 1) w c t (by omega) hr' (ih _ _ _ _ (by omega) ?_ (by omega)) ?_ hg' hr
      · rw [write_drop c (by omega) hr', hd'']
      · unfold SBuf.unescapeSkip
        rw [hg, hg']
        simp only
        rw [if_pos trivial, if_pos (show isPunct c = true from hc)]
  | @backslash c s t hc _ ih =>
    intro f ptr r w hw hd hf
    obtain ⟨hg, hd', hr⟩ := getElem?_of_drop hd
    obtain ⟨hg', hd'', hr'⟩ := getElem?_of_drop hd'
    cases f with
    | zero => simp at hf
    | succ f =>
      simp only [List.length_cons] at hf
      refine step f ptr r r w '\\' t hw hr (ih _ _ _ _ (by omega) ?_ (by simp only [List.length_cons]; omega)) ?_ hg hr
      · rw [write_drop _ hw hr, hd']
      · unfold SBuf.unescapeSkip
        rw [hg, hg']
        simp only
        rw [if_pos trivial, if_neg (by simpa [isPunct] using hc)]

/-- The loop fails if the rest ends with a single backslash. -/
theorem unescapeLoop_error : ∀ (k f : Nat) (ptr : Str) (r w : Nat), w ≤ r → (ptr.drop r).length ≤ k → (ptr.drop r).length ≤ f → strbufUnescape (ptr.drop r) = .error .IndexError →
    SBuf.unescapeLoop f ptr r w = .error (.exn .IndexError) := by
  intro k
  induction k with
  | zero =>
    intro f ptr r w hw hk hf h
    rw [List.eq_nil_of_length_eq_zero (Nat.le_zero.mp hk)] at h
    simp [strbufUnescape] at h
  | succ k ih =>
    intro f ptr r w hw hk hf h
    cases hs : ptr.drop r with
    | nil => rw [hs] at h; simp [strbufUnescape] at h
    | cons c s =>
      rw [hs] at hk hf h
      simp only [List.length_cons] at hk hf
      obtain ⟨hg, hd', hr⟩ := getElem?_of_drop hs
      cases f with
      | zero => omega
      | succ f =>
        unfold SBuf.unescapeLoop
        rw [if_pos hr]
        unfold SBuf.unescapeSkip
        rw [hg]
        simp only
        by_cases hc : c = '\\'
        · subst hc
          rw [if_pos rfl]
          cases s with
          | nil =>
            have : ptr[r + 1]? = none := by
              rw [List.getElem?_eq_none_iff]
              have := congrArg List.length hd'
              simp at this; omega
            rw [this]; rfl
          | cons d s =>
            obtain ⟨hg', hd'', hr'⟩ := getElem?_of_drop hd'
            simp only [List.length_cons] at hk hf
            rw [hg']
            by_cases hd : isPunct d = true
            · simp only [hd, if_true, bind, Except.bind, hg']
              refine ih _ _ _ _ (by omega) ?_ ?_ ?_ <;> rw [write_drop d (by omega) hr', hd'']
              · omega
              · omega
              · unfold strbufUnescape at h
                simpa [hd] using h
            · simp only [if_neg hd, bind, Except.bind, hg]
              refine ih _ _ _ _ (by omega) ?_ ?_ ?_ <;> rw [write_drop _ hw hr, hd']
              · simp only [List.length_cons]; omega
              · simp only [List.length_cons]; omega
              · unfold strbufUnescape at h
                simpa [hd] using h
        · rw [if_neg hc]
          simp only [bind, Except.bind, hg]
          refine ih _ _ _ _ (by omega) ?_ ?_ ?_ <;> rw [write_drop _ hw hr, hd']
          · omega
          · omega
          · unfold strbufUnescape at h
            simpa [hc] using h

/-- Unescaping in the buffer fails exactly if it does in the other model. -/
theorem unescape_eq (b : SBuf) : (b.unescape).map (fun _ => ()) = lift (strbufUnescape b.ptr) := by
  rcases unescaped_exists _ b.ptr (Nat.le_refl _) with ⟨h, -⟩ | ⟨h, t, ht⟩
  · have := unescapeLoop_error b.ptr.length b.ptr.length b.ptr 0 0 (Nat.le_refl _) (by simp) (by simp) (by simpa using h)
    unfold SBuf.unescape
    rw [this, h]; rfl
  · have := unescapeLoop_ok ht b.ptr.length b.ptr 0 0 (Nat.le_refl _) (by simp) (Nat.le_refl _)
    unfold SBuf.unescape
    rw [this, h]; rfl

/-! ### Code spans -/

theorem replace_write {ptr : Str} {w : Nat} (c : Char) (hw : w < ptr.length) : lift (replaceSubstring ptr [c] w w) = .ok (ptr.take w ++ [c] ++ ptr.drop (w + 1)) := by
  rw [Props.C73_replace ptr [c] (Nat.le_refl w), if_pos hw, lift_ok]

theorem normalizeStep_ok {ptr : Str} {r w : Nat} {c : Char} {s : Str} (hw : w ≤ r) (h : ptr.drop r = c :: s) (hc : c = '\r' → s ≠ []) :
    ∃ p w', normalizeStep ptr r w = .ok (p, w') ∧ p.length = ptr.length ∧ w' ≤ r + 1 ∧ p.drop (r + 1) = s := by
  obtain ⟨hg, hd, hr⟩ := getElem?_of_drop h
  unfold normalizeStep
  rw [hg]
  simp only
  have wr : ∀ x : Char, ∃ p w', (do let p ← lift (replaceSubstring ptr [x] w w); Except.ok (p, w + 1) : Except Halt (Str × Nat)) = .ok (p, w') ∧ p.length = ptr.length ∧ w' ≤ r + 1 ∧ p.drop (r + 1) = s := by
    intro x
    refine ⟨ptr.take w ++ [x] ++ ptr.drop (w + 1), w + 1, ?_, write_length x (by omega), by omega, ?_⟩
    · rw [replace_write x (by omega)]; rfl
    · rw [write_drop x hw hr, hd]
  split
  · rename_i hcr
    cases s with
    | nil => exact absurd rfl (hc hcr)
    | cons d s =>
      obtain ⟨hg', -, -⟩ := getElem?_of_drop hd
      rw [hg']
      simp only
      split
      · exact wr ' '
      · exact ⟨ptr, w, rfl, rfl, by omega, hd⟩
  · split
    · exact wr ' '
    · exact wr c

theorem normalizeLoop_ok : ∀ (n : Nat) (ptr : Str) (r w : Nat) (ns : Bool), w ≤ r → ptr.length = r + n → (ptr.drop r).getLast? ≠ some '\r' →
    ∃ p w' ns', normalizeLoop n ptr r w ns = .ok (p, w', ns') ∧ p.length = ptr.length ∧ w' ≤ ptr.length := by
  intro n
  induction n with
  | zero => intro ptr r w ns hw hl _; exact ⟨ptr, w, ns, rfl, rfl, by omega⟩
  | succ n ih =>
    intro ptr r w ns hw hl h
    cases hs : ptr.drop r with
    | nil =>
      have := congrArg List.length hs
      simp at this; omega
    | cons c s =>
      rw [hs] at h
      obtain ⟨p, w', h1, h2, h3, h4⟩ := normalizeStep_ok hw hs (by rintro rfl rfl; exact h rfl)
      have hlt : r < p.length := by omega
      unfold normalizeLoop
      simp only [h1, bind, Except.bind, List.getElem?_eq_getElem hlt]
      have := ih p (r + 1) w' (ns || p[r] != ' ') h3 (by omega) (by
        rw [h4]
        intro hc
        cases s with
        | nil => simp at hc
        | cons d s => exact h (by rw [List.getLast?_cons_cons]; exact hc))
      rw [h2] at this
      exact this

theorem normalizeLoop_error : ∀ (n : Nat) (ptr : Str) (r w : Nat) (ns : Bool), w ≤ r → ptr.length = r + n → (ptr.drop r).getLast? = some '\r' →
    normalizeLoop n ptr r w ns = .error (.exn .IndexError) := by
  intro n
  induction n with
  | zero =>
    intro ptr r w ns hw hl h
    rw [List.drop_eq_nil_of_le (by omega)] at h
    simp at h
  | succ n ih =>
    intro ptr r w ns hw hl h
    cases hs : ptr.drop r with
    | nil => rw [hs] at h; simp at h
    | cons c s =>
      rw [hs] at h
      by_cases hc : c = '\r' ∧ s = []
      · obtain ⟨rfl, rfl⟩ := hc
        obtain ⟨hg, hd, hr⟩ := getElem?_of_drop hs
        have : ptr[r + 1]? = none := by
          rw [List.getElem?_eq_none_iff]
          have := congrArg List.length hd
          simp at this; omega
        unfold normalizeLoop normalizeStep
        simp only [hg, this, if_true, bind, Except.bind]
      · obtain ⟨p, w', h1, h2, h3, h4⟩ := normalizeStep_ok hw hs (by intro a b; exact hc ⟨a, b⟩)
        have hlt : r < p.length := by omega
        unfold normalizeLoop
        simp only [h1, bind, Except.bind, List.getElem?_eq_getElem hlt]
        refine ih p (r + 1) w' _ h3 (by omega) ?_
        rw [h4]
        cases s with
        | nil => simp at h; exact absurd ⟨h, rfl⟩ hc
        | cons d s => rw [List.getLast?_cons_cons] at h; exact h

/-- The normalisation fails exactly on texts that end with a carriage return. -/
theorem normalizeCode_eq {b : SBuf} (h : b.size = b.ptr.length) :
    (b.ptr.getLast? = some '\r' ∧ normalizeCode b = .error (.exn .IndexError)) ∨ (b.ptr.getLast? ≠ some '\r' ∧ ∃ b', normalizeCode b = .ok b') := by
  by_cases hc : b.ptr.getLast? = some '\r'
  · left
    refine ⟨hc, ?_⟩
    unfold normalizeCode
    rw [normalizeLoop_error b.size b.ptr 0 0 false (Nat.le_refl _) (by omega) (by simpa using hc)]
    rfl
  · right
    refine ⟨hc, ?_⟩
    obtain ⟨p, w, ns, h1, h2, h3⟩ := normalizeLoop_ok b.size b.ptr 0 0 false (Nat.le_refl _) (by omega) (by simpa using hc)
    unfold normalizeCode
    simp only [h1, bind, Except.bind]
    by_cases h0 : b.size = 0
    · rw [h0] at h1
      simp only [normalizeLoop, Except.ok.injEq, Prod.mk.injEq] at h1
      rw [← h1.2.2, if_neg (by simp)]
      exact ⟨_, rfl⟩
    · have l0 : 0 < p.length := by omega
      have l1 : w - 1 < p.length := by omega
      simp only [List.getElem?_eq_getElem l0, List.getElem?_eq_getElem l1]
      split
      · split
        · split <;> exact ⟨_, rfl⟩
        · exact ⟨_, rfl⟩
      · exact ⟨_, rfl⟩

theorem set_ok {data : Str} {n : Nat} (hn : 0 < n) (hd : n ≤ data.length) (h : n ≤ 1073741823) :
    ∃ a, 0 < a ∧ SBuf.empty.set data n = .ok ⟨data.take n, n, a⟩ := by
  obtain ⟨a, ha, hg⟩ := grow_ok SBuf.empty hn h
  refine ⟨a, ha, ?_⟩
  unfold SBuf.set
  rw [if_neg (by omega), if_pos (by intro h0; rw [h0] at hd; simp [SBuf.empty] at hd; omega)]
  simp only [SBuf.when, SBuf.empty, Nat.zero_le, ge_iff_le, decide_true, if_true, bind, Except.bind] at hg ⊢
  rw [hg]
  simp

/-- The content of a code span: failure exactly as in the other model. -/
theorem codeText_eq {data : Str} {start n : Nat} (hd : start + n ≤ data.length) (h : n ≤ 1073741823) :
    (((data.drop start).take n).getLast? = some '\r' ∧ codeText data start n = .error (.exn .IndexError)) ∨
      (((data.drop start).take n).getLast? ≠ some '\r' ∧ ∃ x, codeText data start n = .ok x) := by
  unfold codeText
  by_cases h0 : n = 0
  · subst h0
    right
    refine ⟨by simp, ?_⟩
    simp only [SBuf.set, if_true, bind, Except.bind, SBuf.clear, SBuf.empty, normalizeCode, normalizeLoop]
    exact ⟨_, rfl⟩
  · obtain ⟨a, -, hs⟩ := set_ok (data := data.drop start) (n := n) (by omega) (by simp; omega) h
    have hsz : n = ((data.drop start).take n).length := by simp; omega
    rcases normalizeCode_eq (b := ⟨(data.drop start).take n, n, a⟩) hsz with ⟨h1, h2⟩ | ⟨h1, b', h2⟩
    · left
      refine ⟨h1, ?_⟩
      simp only [hs, h2, bind, Except.bind]
    · right
      refine ⟨h1, ?_⟩
      simp only [hs, h2, bind, Except.bind]
      exact ⟨_, rfl⟩

/-! The content of a code span without line ends. -/

theorem normalizeLoop_plain : ∀ (n : Nat) (ptr : Str) (r : Nat) (ns : Bool), ptr.length = r + n → (∀ c ∈ ptr, c ≠ '\r' ∧ c ≠ '\n') →
    normalizeLoop n ptr r r ns = .ok (ptr, r + n, ns || (ptr.drop r).any (· != ' ')) := by
  intro n
  induction n with
  | zero =>
    intro ptr r ns hl _
    rw [List.drop_eq_nil_of_le (by omega)]
    simp [normalizeLoop]
  | succ n ih =>
    intro ptr r ns hl h
    have hlt : r < ptr.length := by omega
    have hc := h _ (List.getElem_mem hlt)
    have hwr : ptr.take r ++ [ptr[r]] ++ ptr.drop (r + 1) = ptr := by simp
    have hstep : normalizeStep ptr r r = .ok (ptr, r + 1) := by
      unfold normalizeStep
      simp only [List.getElem?_eq_getElem hlt]
      rw [if_neg hc.1, if_neg hc.2, replace_write _ hlt, hwr]
      rfl
    unfold normalizeLoop
    simp only [hstep, bind, Except.bind, List.getElem?_eq_getElem hlt]
    rw [ih ptr (r + 1) _ (by omega) h, List.drop_eq_getElem_cons hlt, List.any_cons, Bool.or_assoc, Nat.add_right_comm, Nat.add_assoc]

/-! The content of a code span with line ends. -/

theorem unlined_length {s t : Str} (h : Unlined s t) : t.length ≤ s.length := by
  induction h with
  | nil => simp
  | plain _ _ _ ih => simp only [List.length_cons]; omega
  | lf _ ih => simp only [List.length_cons]; omega
  | cr _ _ ih => simp only [List.length_cons] at ih ⊢; omega
  | crlf _ ih => simp only [List.length_cons]; omega

theorem unlined_exists : ∀ (k : Nat) (s : Str), s.length ≤ k → s.getLast? ≠ some '\r' → ∃ t, Unlined s t := by
  intro k
  induction k with
  | zero =>
    intro s h _
    have : s = [] := by simpa using h
    subst this
    exact ⟨_, .nil⟩
  | succ k ih =>
    intro s h hl
    cases s with
    | nil => exact ⟨_, .nil⟩
    | cons c s =>
      simp only [List.length_cons] at h
      by_cases hr : c = '\r'
      · subst hr
        cases s with
        | nil => simp at hl
        | cons d s =>
          rw [List.getLast?_cons_cons] at hl
          obtain ⟨t, ht⟩ := ih (d :: s) (by omega) hl
          by_cases hd : d = '\n'
          · subst hd
            cases s with
            | nil => exact ⟨_, .crlf .nil⟩
            | cons e s =>
              rw [List.getLast?_cons_cons] at hl
              simp only [List.length_cons] at h
              obtain ⟨t, ht⟩ := ih (e :: s) (by simp only [List.length_cons]; omega) hl
              exact ⟨_, .crlf ht⟩
          · exact ⟨_, .cr hd ht⟩
      · have hs : ∃ t, Unlined s t := by
          cases s with
          | nil => exact ⟨_, .nil⟩
          | cons d s => rw [List.getLast?_cons_cons] at hl; exact ih (d :: s) (by omega) hl
        obtain ⟨t, ht⟩ := hs
        by_cases hn : c = '\n'
        · subst hn; exact ⟨_, .lf ht⟩
        · exact ⟨_, .plain hr hn ht⟩

theorem normalizeLoop_lines {s t : Str} (h : Unlined s t) : ∀ (ptr : Str) (r w : Nat) (ns : Bool), w ≤ r → ptr.drop r = s → r ≤ ptr.length →
    ∃ ns', normalizeLoop s.length ptr r w ns = .ok (ptr.take w ++ t ++ ptr.drop (w + t.length), w + t.length, ns') := by
  -- one round which writes a character
  have step : ∀ (x c : Char) (s t ptr : Str) (r w : Nat) (ns : Bool), w ≤ r → ptr.drop r = c :: s →
      normalizeStep ptr r w = .ok (ptr.take w ++ [x] ++ ptr.drop (w + 1), w + 1) →
      (∀ (ptr : Str) (r w : Nat) (ns : Bool), w ≤ r → ptr.drop r = s → r ≤ ptr.length →
        ∃ ns', normalizeLoop s.length ptr r w ns = .ok (ptr.take w ++ t ++ ptr.drop (w + t.length), w + t.length, ns')) →
      ∃ ns', normalizeLoop (c :: s).length ptr r w ns = .ok (ptr.take w ++ (x :: t) ++ ptr.drop (w + (x :: t).length), w + (x :: t).length, ns') := by
    intro x c s t ptr r w ns hw hd hst ih
    obtain ⟨-, hd', hr⟩ := getElem?_of_drop hd
    have hwl : w < ptr.length := by omega
    have hlen := write_length x hwl
    have hlt : r < (ptr.take w ++ [x] ++ ptr.drop (w + 1)).length := by omega
    obtain ⟨ns', h1⟩ := ih (ptr.take w ++ [x] ++ ptr.drop (w + 1)) (r + 1) (w + 1) (ns || (ptr.take w ++ [x] ++ ptr.drop (w + 1))[r] != ' ') (by omega)
      (by rw [write_drop x hw hr, hd']) (by omega)
    refine ⟨ns', ?_⟩
    rw [List.length_cons]
    unfold normalizeLoop
    simp only [hst, bind, Except.bind, List.getElem?_eq_getElem hlt]
    rw [h1, write_take x hwl]
    have h2 : (ptr.take w ++ [x] ++ ptr.drop (w + 1)).drop (w + 1 + t.length) = ptr.drop (w + (x :: t).length) := by
      rw [← List.drop_drop, write_rest x hwl, List.drop_drop, List.length_cons]
      congr 1; omega
    rw [h2, List.length_cons]
    simp only [List.append_assoc, List.singleton_append, List.cons_append, Nat.add_assoc, Nat.add_comm 1, List.nil_append]
  -- the round at the CR of CR LF writes nothing
  induction h with
  | nil =>
    intro ptr r w ns hw hd hr
    refine ⟨ns, ?_⟩
    simp [normalizeLoop]
  | @plain c s t hc1 hc2 _ ih =>
    intro ptr r w ns hw hd hr
    refine step c c s t ptr r w ns hw hd ?_ ih
    obtain ⟨hg, -, hrl⟩ := getElem?_of_drop hd
    unfold normalizeStep
    simp only [hg]
    rw [if_neg hc1, if_neg hc2, replace_write _ (by omega)]
    rfl
  | @lf s t _ ih =>
    intro ptr r w ns hw hd hr
    refine step ' ' '\n' s t ptr r w ns hw hd ?_ ih
    obtain ⟨hg, -, hrl⟩ := getElem?_of_drop hd
    unfold normalizeStep
    simp only [hg]
    rw [if_neg (by decide), if_pos trivial, replace_write _ (by omega)]
    rfl
  | @cr c s t hc _ ih =>
    intro ptr r w ns hw hd hr
    refine step ' ' '\r' (c :: s) t ptr r w ns hw hd ?_ ih
    obtain ⟨hg, hd', hrl⟩ := getElem?_of_drop hd
    obtain ⟨hg', -, -⟩ := getElem?_of_drop hd'
    unfold normalizeStep
    simp only [hg, hg']
    rw [if_pos trivial, if_pos hc, replace_write _ (by omega)]
    rfl
  | @crlf s t _ ih =>
    intro ptr r w ns hw hd hr
    obtain ⟨hg, hd', hrl⟩ := getElem?_of_drop hd
    obtain ⟨hg', -, hrl'⟩ := getElem?_of_drop hd'
    have hst : normalizeStep ptr r w = .ok (ptr, w) := by
      unfold normalizeStep
      simp only [hg, hg']
      rw [if_pos trivial, if_neg (by simp)]
    obtain ⟨ns', h1⟩ := step ' ' '\n' s t ptr (r + 1) w (ns || '\r' != ' ') (by omega) hd' (by
      unfold normalizeStep
      simp only [hg']
      rw [if_neg (by decide), if_pos trivial, replace_write _ (by omega)]
      rfl) ih
    refine ⟨ns', ?_⟩
    rw [List.length_cons]
    unfold normalizeLoop
    simp only [hst, bind, Except.bind, hg]
    exact h1

/-! ### The handlers -/

theorem closingTicks_bound (m : Nat) (f : Nat) : ∀ (rest : Str) (pos : Nat) (bt bt' : Nat → Nat) (e : Nat), closingTicksLoop m f rest pos bt = (some e, bt') →
    pos + m ≤ e ∧ e ≤ pos + rest.length := by
  induction f with
  | zero => intro rest pos bt bt' e h; simp [closingTicksLoop] at h
  | succ f ih =>
    intro rest pos bt bt' e h
    unfold closingTicksLoop at h
    have hlen : (rest.takeWhile (· != '`')).length + (rest.dropWhile (· != '`')).length = rest.length := by
      rw [← List.length_append, List.takeWhile_append_dropWhile]
    split at h
    · simp at h
    · simp only at h
      have htk : ((rest.dropWhile (· != '`')).takeWhile (· == '`')).length ≤ (rest.dropWhile (· != '`')).length := (List.takeWhile_prefix _).length_le
      split at h
      · rename_i hm
        simp only [Prod.mk.injEq, Option.some.injEq] at h
        omega
      · obtain ⟨h1, h2⟩ := ih _ _ _ _ _ h
        simp only [List.length_drop] at h2
        omega

theorem handleBackticksB_eq {s : Subj} (hpos : s.pos ≤ s.len) (hlen : s.len ≤ s.data.length) (h : s.data.length ≤ 67108863) : handleBackticksB s = lift (handleBackticks s) := by
  unfold handleBackticksB handleBackticks
  simp only
  split
  · rfl
  · split
    · rfl
    · split
      · rename_i bt hb; simp only [hb]; rfl
      · rename_i e bt hb
        simp only [hb]
        obtain ⟨h1, h2⟩ := closingTicks_bound _ _ _ _ _ _ _ hb
        have h3 : (restFrom s (s.pos + ((restFrom s s.pos).takeWhile (· == '`')).length)).length = s.len - (s.pos + ((restFrom s s.pos).takeWhile (· == '`')).length) := by
          simp [restFrom]; omega
        have h6 : ((restFrom s s.pos).takeWhile (· == '`')).length ≤ (restFrom s s.pos).length := (List.takeWhile_prefix _).length_le
        have h7 : (restFrom s s.pos).length = s.len - s.pos := by simp [restFrom]; omega
        have h8 : s.pos ≤ s.len := hpos
        rcases codeText_eq (data := s.data) (start := s.pos + ((restFrom s s.pos).takeWhile (· == '`')).length)
            (n := e - (s.pos + ((restFrom s s.pos).takeWhile (· == '`')).length) - ((restFrom s s.pos).takeWhile (· == '`')).length) (by omega) (by omega) with ⟨h4, h5⟩ | ⟨h4, x, h5⟩
        · rw [if_pos h4, h5]; rfl
        · rw [if_neg h4, h5]; rfl

theorem bind_map_unit {α β γ : Type} {x : Except Halt α} {y : Except Exn β} {g : α → Unit} (h : x.map g = (lift y).map (fun _ => ())) (k : Except Halt γ) :
    (x >>= fun _ => k) = (lift y >>= fun _ => k) := by
  cases x with
  | error e =>
    cases y with
    | error e' => simp only [Except.map, lift, Except.mapError] at h; injection h with h; rw [h]; rfl
    | ok b => simp [Except.map, lift, Except.mapError] at h
  | ok a =>
    cases y with
    | error e' => simp [Except.map, lift, Except.mapError] at h
    | ok b => rfl

theorem chunkTrim_length (s : Str) : (chunkTrim s).length ≤ s.length := by
  have h1 : ∀ (p : Char → Bool) (s : Str), (s.dropWhile p).length ≤ s.length := fun p s => (List.dropWhile_suffix p).length_le
  unfold chunkTrim strip rstrip lstrip
  first
    | exact Nat.le_trans (by simp only [List.length_reverse]; exact Nat.le_trans (h1 _ _) (by simp)) (h1 isSpace s)
    | (simp only [List.length_reverse]; have := h1 isSpace s; have := h1 isSpace (s.dropWhile isSpace).reverse; simp only [List.length_reverse] at this; omega)

theorem cleanB_eq {E : Env} (hE : ShortEntities E) (u : Str) (hu : u.length ≤ 67108863) :
    ((unescapeHtmlFB E u .empty >>= fun b => b.unescape).map fun _ => ()) = lift (unescapeHtml E (u.length + 1) u ⟨[], 0⟩ >>= fun b => strbufUnescape b.ptr) := by
  have := unescapeHtmlFB_eq hE u .empty (by simp only [SBuf.empty]; omega)
  cases h1 : unescapeHtml E (u.length + 1) u ⟨[], 0⟩ with
  | error e =>
    rw [show SBuf.toBuf SBuf.empty = ⟨[], 0⟩ from rfl, h1] at this
    rw [map_eq_error this]; rfl
  | ok b =>
    rw [show SBuf.toBuf SBuf.empty = ⟨[], 0⟩ from rfl, h1] at this
    obtain ⟨b', h2, h3⟩ := map_eq_ok this
    rw [h2]
    simp only [bind, Except.bind]
    rw [unescape_eq b', ← h3]; rfl

theorem cleanUrlB_eq {E : Env} (hE : ShortEntities E) (url : Str) (h : url.length ≤ 67108863) : (cleanUrlB E url).map (fun _ => ()) = lift (cleanUrl E url) := by
  have := cleanB_eq hE (chunkTrim url) (Nat.le_trans (chunkTrim_length url) h)
  unfold cleanUrlB cleanUrl
  rw [← this]
  cases h1 : unescapeHtmlFB E (chunkTrim url) .empty with
  | error e => simp only [h1, bind, Except.bind, Except.map]
  | ok b => cases h2 : b.unescape <;> simp only [h1, bind, Except.bind, Except.map, h2]

theorem cleanTitleB_eq {E : Env} (hE : ShortEntities E) (title : Str) (h : title.length ≤ 67108863) : (cleanTitleB E title).map (fun _ => ()) = lift (cleanTitle E title) := by
  cases title with
  | nil => rfl
  | cons a t =>
    unfold cleanTitleB cleanTitle
    simp only
    generalize hu : (if (a = '\'' ∧ (a :: t).getLast? = some '\'') ∨ (a = '(' ∧ (a :: t).getLast? = some ')') ∨
        (a = '"' ∧ (a :: t).getLast? = some '"') then t.dropLast else a :: t) = u
    have hlen : u.length ≤ 67108863 := by
      rw [← hu]
      split
      · simp only [List.length_dropLast, List.length_cons] at h ⊢; omega
      · exact h
    have := cleanB_eq hE u hlen
    rw [← this]
    cases h1 : unescapeHtmlFB E u .empty with
    | error e => simp only [h1, bind, Except.bind, Except.map]
    | ok b => cases h2 : b.unescape <;> simp only [h1, bind, Except.bind, Except.map, h2]

/-! The failures of the references do not depend on the text already in the buffer. -/

theorem encodeChar_any (uc : Int) (b b' : Buf) : (encodeChar uc b).map (fun _ => ()) = (encodeChar uc b').map (fun _ => ()) := by
  unfold encodeChar
  split
  · rfl
  · split <;> rfl

theorem numericEnd_any (skip m : Nat) (r : Int × Nat × Str) (b b' : Buf) : (numericEnd skip m r b).map Prod.fst = (numericEnd skip m r b').map Prod.fst := by
  obtain ⟨cp, n, rest⟩ := r
  unfold numericEnd
  split
  · rename_i cp' n' x heq
    simp only
    split
    · have := encodeChar_any (if cp' = 0 ∨ (cp' ≥ 0xD800 ∧ cp' < 0xE000) ∨ cp' ≥ 0x110000 then 0xFFFD else cp') b b'
      cases h1 : encodeChar (if cp' = 0 ∨ (cp' ≥ 0xD800 ∧ cp' < 0xE000) ∨ cp' ≥ 0x110000 then 0xFFFD else cp') b <;>
        cases h2 : encodeChar (if cp' = 0 ∨ (cp' ≥ 0xD800 ∧ cp' < 0xE000) ∨ cp' ≥ 0x110000 then 0xFFFD else cp') b' <;>
        simp_all [Except.map, bind, Except.bind]
    · rfl
  · rfl

theorem namedLoop_any (E : Env) (f : Nat) : ∀ (name t : Str) (b b' : Buf), (namedLoop E f name t b).1 = (namedLoop E f name t b').1 := by
  induction f with
  | zero => intro name t b b'; rfl
  | succ f ih =>
    intro name t b b'
    cases t with
    | nil => rfl
    | cons c t =>
      unfold namedLoop
      split
      · rfl
      · split
        · split <;> rfl
        · exact ih _ _ _ _

theorem unescapeEnt_any (E : Env) (src : Str) (b b' : Buf) : (unescapeEnt E src b).map Prod.fst = (unescapeEnt E src b').map Prod.fst := by
  have named : ∀ n t, (Except.ok (namedLoop E 30 n t b) : Except Exn _).map Prod.fst = (Except.ok (namedLoop E 30 n t b')).map Prod.fst := by
    intro n t; simp only [Except.map, namedLoop_any E 30 n t b b']
  unfold unescapeEnt
  split
  · split
    · exact numericEnd_any _ _ _ _ _
    · split
      · exact numericEnd_any _ _ _ _ _
      · rfl
  · exact named _ _
  · rfl

theorem unescapeHtml_any (E : Env) (f : Nat) : ∀ (src : Str) (b b' : Buf), (unescapeHtml E f src b).map (fun _ => ()) = (unescapeHtml E f src b').map (fun _ => ()) := by
  induction f with
  | zero => intro src b b'; rfl
  | succ f ih =>
    intro src b b'
    unfold unescapeHtml
    simp only
    split
    · rfl
    · rename_i t _
      have := unescapeEnt_any E t (b.put (src.takeWhile (· != '&')) (src.takeWhile (· != '&')).length) (b'.put (src.takeWhile (· != '&')) (src.takeWhile (· != '&')).length)
      cases h1 : unescapeEnt E t (b.put (src.takeWhile (· != '&')) (src.takeWhile (· != '&')).length) with
      | error e =>
        rw [h1] at this
        cases h2 : unescapeEnt E t (b'.put (src.takeWhile (· != '&')) (src.takeWhile (· != '&')).length) with
        | error e' => rw [h2] at this; simpa [Except.map, bind, Except.bind] using this
        | ok x => rw [h2] at this; simp [Except.map] at this
      | ok x =>
        rw [h1] at this
        cases h2 : unescapeEnt E t (b'.put (src.takeWhile (· != '&')) (src.takeWhile (· != '&')).length) with
        | error e' => rw [h2] at this; simp [Except.map] at this
        | ok y =>
          rw [h2] at this
          simp only [Except.map, Except.ok.injEq] at this
          obtain ⟨x1, x2⟩ := x
          obtain ⟨y1, y2⟩ := y
          simp only at this
          subst this
          simp only [bind, Except.bind]
          exact ih _ _ _

theorem unescapeHtmlB_unit {E : Env} (hE : ShortEntities E) (u : Str) (h : u.length ≤ 67108863) :
    (unescapeHtmlB E u.length (u.length + 1) true u .empty).map (fun _ => ()) = (lift (unescapeHtml E (u.length + 1) u ⟨[], 0⟩)).map (fun _ => ()) := by
  have := unescapeHtmlFB_eq hE u .empty (by simp only [SBuf.empty]; omega)
  unfold unescapeHtmlFB at this
  rw [show (⟨[], 0⟩ : Buf) = SBuf.toBuf .empty from rfl, ← this]
  cases h1 : unescapeHtmlB E u.length (u.length + 1) true u .empty with
  | error e => rfl
  | ok x =>
    obtain ⟨d, c⟩ := x
    cases d with
    | true => rfl
    | false =>
      have hn : u.takeWhile (· != '&') ≠ [] ∧ u.dropWhile (· != '&') = [] := by
        by_contra hc
        have h2 := unescapeHtmlB_eq hE (size := u.length) (u.length + 1) true u .empty (by simp only [SBuf.empty]; omega)
          (fun _ hu => ⟨List.length_pos_iff.mpr hu, by omega⟩) (fun hh => hc ⟨hh.1, hh.2.2⟩)
        rw [h1] at h2
        cases h3 : unescapeHtml E (u.length + 1) u (SBuf.toBuf .empty) <;> rw [h3] at h2 <;> simp [Except.map, lift, Except.mapError] at h2
      have hc : c = .empty := by
        unfold unescapeHtmlB at h1
        rw [if_neg (by rintro rfl; simp at hn)] at h1
        simp only at h1
        rw [if_pos ⟨hn.1, trivial, hn.2⟩] at h1
        simp only [Except.ok.injEq, Prod.mk.injEq, true_and] at h1
        exact h1.symm
      subst hc
      obtain ⟨b', hp, -⟩ := put_ok .empty u u.length (by simp only [SBuf.empty]; omega)
      simp only [bind, Except.bind, Bool.false_eq_true, if_false, hp]
      rfl

theorem makeAutolinkB_eq {E : Env} (hE : ShortEntities E) (url : Str) (isEmail : Bool) (h : url.length ≤ 67108863) :
    (makeAutolinkB E url isEmail).map (fun _ => ()) = lift (makeAutolink E url) := by
  have hu := Nat.le_trans (chunkTrim_length url) h
  obtain ⟨b, hb, hs⟩ : ∃ b, SBuf.empty.when isEmail (·.put "mailto:".toList 7) = .ok b ∧ b.size ≤ 7 := by
    cases isEmail with
    | false => exact ⟨.empty, rfl, by simp [SBuf.empty]⟩
    | true =>
      obtain ⟨b', hp, ht, -⟩ := put_ok .empty "mailto:".toList 7 (by simp [SBuf.empty])
      refine ⟨b', hp, ?_⟩
      have := congrArg Buf.size ht
      rw [Buf.put_size] at this
      exact Nat.le_of_eq (by simpa [SBuf.toBuf, SBuf.empty] using this)
  have h1 := unescapeHtmlFB_eq hE (chunkTrim url) b (by omega)
  have h2 := unescapeHtmlB_unit hE (chunkTrim url) hu
  have h3 := unescapeHtml_any E ((chunkTrim url).length + 1) (chunkTrim url) (SBuf.toBuf b) ⟨[], 0⟩
  unfold makeAutolinkB makeAutolink
  simp only [hb, bind, Except.bind]
  cases h4 : unescapeHtml E ((chunkTrim url).length + 1) (chunkTrim url) ⟨[], 0⟩ with
  | error e =>
    rw [h4] at h3
    cases h5 : unescapeHtml E ((chunkTrim url).length + 1) (chunkTrim url) (SBuf.toBuf b) with
    | error e' =>
      rw [h5] at h3 h1
      simp only [Except.map, Except.error.injEq] at h3
      subst h3
      rw [map_eq_error h1]
      rfl
    | ok x => rw [h5] at h3; simp [Except.map] at h3
  | ok x =>
    rw [h4] at h3 h2
    cases h5 : unescapeHtml E ((chunkTrim url).length + 1) (chunkTrim url) (SBuf.toBuf b) with
    | error e' => rw [h5] at h3; simp [Except.map] at h3
    | ok y =>
      rw [h5] at h1
      obtain ⟨b1, h6, -⟩ := map_eq_ok h1
      obtain ⟨c1, h7, -⟩ := map_eq_ok h2
      rw [h6]
      simp only
      rw [h7]
      rfl

theorem handleEntityB_eq {E : Env} (hE : ShortEntities E) (s : Subj) : handleEntityB E s = lift (handleEntity E s) := by
  have := unescapeEntB_eq hE (restFrom s (s.pos + 1)) .empty (by simp [SBuf.empty])
  unfold handleEntityB handleEntity
  cases h1 : unescapeEnt E (restFrom s (s.pos + 1)) ⟨[], 0⟩ with
  | error e =>
    rw [show SBuf.toBuf SBuf.empty = ⟨[], 0⟩ from rfl, h1] at this
    rw [map_eq_error this]; rfl
  | ok x =>
    rw [show SBuf.toBuf SBuf.empty = ⟨[], 0⟩ from rfl, h1] at this
    obtain ⟨⟨n, b⟩, h2, h3⟩ := map_eq_ok this
    rw [h2]
    subst h3
    rfl

theorem handlePointyBraceB_eq {E : Env} (hE : ShortEntities E) (s : Subj) (h : s.data.length ≤ 67108863) : handlePointyBraceB E s = lift (handlePointyBrace E s) := by
  have key : ∀ (n m : Nat) (e : Bool) (k : Except Halt Subj) (k' : Except Exn Subj), k = lift k' →
      (makeAutolinkB E ((s.data.drop n).take m) e >>= fun _ => k) = lift (makeAutolink E ((s.data.drop n).take m) >>= fun _ => k') := by
    rintro n m e k k' rfl
    have := makeAutolinkB_eq hE ((s.data.drop n).take m) e (by simp only [List.length_take, List.length_drop]; omega)
    cases h1 : makeAutolink E ((s.data.drop n).take m) with
    | error x => rw [h1] at this; rw [map_eq_error this]; rfl
    | ok x => rw [h1] at this; obtain ⟨y, h2, -⟩ := map_eq_ok this; rw [h2]; rfl
  unfold handlePointyBraceB handlePointyBrace
  simp only
  split
  · exact key _ _ _ _ _ rfl
  · split
    · exact key _ _ _ _ _ rfl
    · rfl

theorem linkUrl_length {s : Subj} {off n : Nat} {url : Str} (h : linkUrl s off = some (n, url)) : url.length ≤ s.data.length := by
  have hr : (restFrom s off).length ≤ s.data.length := by simp only [restFrom, List.length_drop, List.length_take]; omega
  unfold linkUrl at h
  split at h
  · rename_i t ht
    rw [ht] at hr
    rw [Option.map_eq_some_iff] at h
    obtain ⟨m, -, h⟩ := h
    simp only [Prod.mk.injEq] at h
    rw [← h.2, List.length_take]
    simp only [List.length_cons] at hr
    omega
  · rw [Option.map_eq_some_iff] at h
    obtain ⟨m, -, h⟩ := h
    simp only [Prod.mk.injEq] at h
    rw [← h.2, List.length_take]
    omega

theorem inlineLinkB_eq {E : Env} (hE : ShortEntities E) (s : Subj) (h : s.data.length ≤ 67108863) : inlineLinkB E s = lift (inlineLink E s) := by
  unfold inlineLinkB inlineLink
  split
  · simp only
    cases hu : linkUrl s (s.pos + 1 + scanSpacechars E s (s.pos + 1)) with
    | none => rfl
    | some x =>
      obtain ⟨n, url⟩ := x
      simp only
      generalize s.pos + 1 + scanSpacechars E s (s.pos + 1) = off at hu ⊢
      generalize hst : off + n + scanSpacechars E s (off + n) = starttitle
      generalize het : (if starttitle = off + n then starttitle else starttitle + scanAt E Rx.linkTitle s starttitle) = endtitle
      cases hd : s.data[endtitle + scanSpacechars E s endtitle]? with
      | none => rfl
      | some c =>
        simp only
        by_cases hc : c = ')'
        · simp only [if_pos hc]
          have h1 := cleanUrlB_eq hE url (Nat.le_trans (linkUrl_length hu) h)
          have h2 := cleanTitleB_eq hE ((s.data.drop starttitle).take (endtitle - starttitle)) (by simp only [List.length_take, List.length_drop]; omega)
          cases h3 : cleanUrl E url with
          | error x => rw [h3] at h1; rw [map_eq_error h1]; rfl
          | ok x =>
            rw [h3] at h1
            obtain ⟨y, h4, -⟩ := map_eq_ok h1
            rw [h4]
            simp only [bind, Except.bind]
            cases h5 : cleanTitle E ((s.data.drop starttitle).take (endtitle - starttitle)) with
            | error x => rw [h5] at h2; rw [map_eq_error h2]; rfl
            | ok x => rw [h5] at h2; obtain ⟨y, h6, -⟩ := map_eq_ok h2; rw [h6]; rfl
        · simp only [if_neg hc]; rfl
  · rfl

theorem handleCloseBracketB_eq {E : Env} (hE : ShortEntities E) (s : Subj) (h : s.data.length ≤ 67108863) : handleCloseBracketB E s = lift (handleCloseBracket E s) := by
  unfold handleCloseBracketB handleCloseBracket
  simp only
  cases hb : s.brackets with
  | nil => rfl
  | cons opener bs =>
    simp only
    by_cases ha : (!opener.active) = true
    · rw [if_pos ha, if_pos ha]; rfl
    · rw [if_neg ha, if_neg ha, inlineLinkB_eq hE _ (by exact h)]
      generalize inlineLink E _ = x
      cases x with
      | error e => rfl
      | ok x =>
        cases x with
        | some p =>
          simp only [lift_ok, bind, Except.bind]
          generalize processEmphasis _ _ = y
          cases y <;> rfl
        | none =>
          simp only [lift_ok, bind, Except.bind]
          generalize linkLabel _ = y
          cases y <;> rfl

theorem parseInlineB_eq {E : Env} (hE : ShortEntities E) {s : Subj} (c : Char) (hpos : s.pos ≤ s.len) (hlen : s.len ≤ s.data.length) (h : s.data.length ≤ 67108863) :
    parseInlineB E s c = lift (parseInline E s c) := by
  unfold parseInlineB
  split
  · rename_i hc; subst hc; rw [handleBackticksB_eq hpos hlen h]; rfl
  · split
    · rename_i hc; subst hc; rw [handleEntityB_eq hE]; rfl
    · split
      · rename_i hc; subst hc; rw [handlePointyBraceB_eq hE s h]; rfl
      · split
        · rename_i hc; subst hc; rw [handleCloseBracketB_eq hE s h]; rfl
        · rfl

theorem inlinesLoopB_eq {E : Env} (hE : ShortEntities E) (f : Nat) : ∀ (s : Subj), s.len ≤ s.data.length → s.data.length ≤ 67108863 →
    inlinesLoopB E f s = lift (inlinesLoop E f s) := by
  induction f with
  | zero => intro s _ _; rfl
  | succ f ih =>
    intro s hlen h
    unfold inlinesLoopB inlinesLoop
    cases hp : peek s with
    | none => rfl
    | some c =>
      have hpos : s.pos ≤ s.len := by
        unfold peek at hp
        split at hp
        · omega
        · simp at hp
      simp only
      rw [parseInlineB_eq hE c hpos hlen h]
      cases h1 : parseInline E s c with
      | error e => rfl
      | ok s' =>
        have := parseInline_moves hp h1
        simp only [lift_ok, bind, Except.bind]
        exact ih s' (by rw [this.1, this.2.1]; exact hlen) (by rw [this.1]; exact h)

end MdToc
