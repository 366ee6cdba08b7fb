import Verif.PropsCopy
import Verif.PropsDebug
import Verif.Session
import Verif.DeTop

/-! # C08, C09, C24, C25 for arbitrary mixtures of writing calls -/

namespace Fourleaf
open Spec

/-- A step of a writing client. -/
inductive Write where
  /-- any writing call that does not hand out a handle, or one that allocates a blob and fills it -/
  | call (c : WCall)
  /-- `write_blob_dynamic`, and `write_all` of some pieces to the handle -/
  | blobDynamic (tag : Byte) (pieces : List (List Byte))
  /-- `write_exception_dynamic`, likewise -/
  | exceptionDynamic (pieces : List (List Byte))
  /-- `pad_to_align(1 << k)` -/
  | padToAlign (k : Nat)

/-- (`src/stream.rs` 892-912, 1012-1016, 1032-1044) A dynamic blob is left pending, to be finished by the next call. -/
def Write.exec : Write → M Err Stream Unit
  | .call c => c.exec
  | .blobDynamic tag ps => do let _ ← writeBlobDynamic tag; writePieces ps
  | .exceptionDynamic ps => do let _ ← writeExceptionDynamic; writePieces ps
  | .padToAlign k => Fourleaf.padToAlign (2 ^ k)

/-- The steps one after the other until the first error, and finally `commit`. -/
def runWrites : List Write → M Err Stream Unit
  | [] => commit
  | w :: ws => do w.exec; runWrites ws

namespace Spec

/-- How many bytes are missing to the next multiple of `2^k`. -/
def missing (k pos : Nat) : Nat := (2 ^ k - pos % 2 ^ k) % 2 ^ k

/-- The elements a step writes at a position. -/
def writeToks (pos : Nat) : Write → List Tok
  | .call c => c.toks
  | .blobDynamic tag ps => [.blob tag ps.flatten]
  | .exceptionDynamic ps => [.exception ps.flatten]
  | .padToAlign k => List.replicate (missing k pos) .padding

/-- A number in exactly `k` bytes of seven bits each, the least significant ones first; all bytes but the last have the top bit set. -/
def longInt : Nat → Nat → List UInt8
  | 0, _ => []
  | 1, n => [UInt8.ofNat (n % 128)]
  | k + 2, n => UInt8.ofNat (128 + n % 128) :: longInt (k + 1) (n / 128)

/-- Their bytes. The length of a dynamic blob takes ten bytes. -/
def writeBytes (pos : Nat) : Write → List UInt8
  | .call c => canonToks c.toks
  | .blobDynamic tag ps => UInt8.ofNat (2 * 64 + tag.toNat) :: longInt 10 ps.flatten.length ++ ps.flatten
  | .exceptionDynamic ps => 2 * 64 :: longInt 10 ps.flatten.length ++ ps.flatten
  | .padToAlign k => List.replicate (missing k pos) 0xC0

/-- What a sequence of steps writes, from a position on. -/
def layoutToks : Nat → List Write → List Tok
  | _, [] => []
  | pos, w :: ws => writeToks pos w ++ layoutToks (pos + (writeBytes pos w).length) ws
def layoutBytes : Nat → List Write → List UInt8
  | _, [] => []
  | pos, w :: ws => writeBytes pos w ++ layoutBytes (pos + (writeBytes pos w).length) ws

/-- Arguments that can be expressed: tags from 1 to 63, alignments up to 2^62. -/
def WriteOk : Write → Prop
  | .call c => ∀ t ∈ c.toks, t.Valid
  | .blobDynamic tag _ => TagOk tag
  | .exceptionDynamic _ => True
  | .padToAlign k => k ≤ 62

theorem group_longInt : ∀ (g : List UInt8), IsGroup g → g = longInt g.length (groupVal g)
  | [], h => h.elim
  | [b], h => by
    have h' : b.toNat < 128 := h
    simp only [List.length_singleton, longInt, groupVal]
    congr 1
    apply UInt8.toNat_inj.1
    rw [UInt8.toNat_ofNat']; omega
  | b :: c :: cs, h => by
    obtain ⟨h1, h2⟩ := h
    have ih := group_longInt (c :: cs) h2
    have := b.toNat_lt
    show b :: c :: cs = longInt (cs.length + 2) (b.toNat % 128 + 128 * groupVal (c :: cs))
    rw [longInt]
    congr 1
    · apply UInt8.toNat_inj.1
      rw [UInt8.toNat_ofNat']; omega
    · rw [show (b.toNat % 128 + 128 * groupVal (c :: cs)) / 128 = groupVal (c :: cs) by omega]
      exact ih

theorem missing_lt (k pos : Nat) : missing k pos < 2 ^ k := Nat.mod_lt _ (Nat.two_pow_pos k)

theorem missing_dvd (k pos : Nat) : 2 ^ k ∣ pos + missing k pos := by
  have hp := Nat.two_pow_pos k
  have hm := Nat.mod_lt pos hp
  have hd := Nat.div_add_mod pos (2 ^ k)
  unfold missing
  by_cases h : pos % 2 ^ k = 0
  · rw [h, Nat.sub_zero, Nat.mod_self, Nat.add_zero]; exact Nat.dvd_of_mod_eq_zero h
  · rw [Nat.mod_eq_of_lt (by omega)]
    refine ⟨pos / 2 ^ k + 1, ?_⟩
    rw [Nat.mul_add, Nat.mul_one]
    omega

theorem missing_unique {k pos j : Nat} (hj : j < 2 ^ k) (h : 2 ^ k ∣ pos + j) : j = missing k pos := by
  have h1 := missing_lt k pos
  have h2 := missing_dvd k pos
  by_cases hle : j ≤ missing k pos
  · have : 2 ^ k ∣ missing k pos - j := by
      have := Nat.dvd_sub h2 h
      rwa [show pos + missing k pos - (pos + j) = missing k pos - j by omega] at this
    have := Nat.eq_zero_of_dvd_of_lt this (by omega)
    omega
  · have : 2 ^ k ∣ j - missing k pos := by
      have := Nat.dvd_sub h h2
      rwa [show pos + j - (pos + missing k pos) = j - missing k pos by omega] at this
    have := Nat.eq_zero_of_dvd_of_lt this (by omega)
    omega

end Spec

theorem M.bind_inv {σ α β : Type} {m : M Err σ α} {f : α → M Err σ β} {s s' : σ} {b : β} (h : (m >>= f) s = .ok b s') :
    ∃ a s1, m s = .ok a s1 ∧ f a s1 = .ok b s' := by
  cases hr : m s with
  | ok a s1 => rw [M.bind_ok hr] at h; exact ⟨a, s1, rfl, h⟩
  | err e s1 => rw [M.bind_err hr] at h; cases h

end Fourleaf

namespace Fourleaf.Props
open Fourleaf Spec

section
variable {s s1 : Stream} (h : Fourleaf.commit s = .ok () s1)
include h

theorem after_bind {α : Type} (f : Unit → M Err Stream α) : (Fourleaf.commit >>= f) s = (Fourleaf.commit >>= f) s1 := by
  rw [M.bind_ok h, M.bind_ok (commit_none (commit_ok_none h))]

omit h in
theorem after_bind2 {α β : Type} {m : M Err Stream α} (hm : m s = m s1) (f : α → M Err Stream β) : (m >>= f) s = (m >>= f) s1 := by
  rw [M.bind_apply, M.bind_apply, hm]

theorem writeDesc_after (d : Desc) : writeDesc d s = writeDesc d s1 := after_bind h _
theorem writeU64_after (tag : Byte) (n : UInt64) : writeU64 tag n s = writeU64 tag n s1 := after_bind2 (writeDesc_after h _) _

/-- A writing call starts by committing what is pending. -/
theorem exec_after (w : Write) : w.exec s = w.exec s1 := by
  cases w with
  | call c =>
    cases c with
    | commit =>
      show Fourleaf.commit s = Fourleaf.commit s1
      rw [h, commit_none (commit_ok_none h)]
    | null tag => exact writeU64_after h _ _
    | bool tag b => exact writeU64_after h _ _
    | u8 tag n => exact writeU64_after h _ _
    | u16 tag n => exact writeU64_after h _ _
    | u32 tag n => exact writeU64_after h _ _
    | u64 tag n => exact writeU64_after h _ _
    | i8 tag n => exact writeU64_after h _ _
    | i16 tag n => exact writeU64_after h _ _
    | i32 tag n => exact writeU64_after h _ _
    | i64 tag n => exact writeU64_after h _ _
    | struct tag => exact writeDesc_after h _
    | enum tag d => exact after_bind2 (writeDesc_after h _) _
    | endStruct => exact writeDesc_after h _
    | endDoc => exact writeDesc_after h _
    | padding => exact writeDesc_after h _
    | blobData tag d => exact after_bind2 (after_bind h _) _
    | exceptionData d => exact after_bind2 (after_bind h _) _
    | blobAlloc tag ps => exact after_bind2 (after_bind h _) _
    | exceptionAlloc ps => exact after_bind2 (after_bind h _) _
  | blobDynamic tag ps => exact after_bind2 (after_bind2 (writeDesc_after h _) _) _
  | exceptionDynamic ps => exact after_bind2 (after_bind2 (writeDesc_after h _) _) _
  | padToAlign k => exact after_bind h _
end

/-- The stream is on a seekable sink without errors, has committed to `s1`, and there is nothing pending. -/
structure AtRest (s s1 : Stream) : Prop where
  commit : Fourleaf.commit s = .ok () s1
  within : s1.inner.pos ≤ s1.inner.data.length
  benign : Benign s1.inner.sched
  seekable : s1.inner.seekable = true

theorem AtRest.sink {s s1 : Stream} (h : AtRest s s1) : Sink s1 := ⟨.inl (commit_ok_none h.commit), h.within⟩

theorem fixed_longInt (n : Nat) (h : n < 2 ^ 64) : encodeFixedU64 (UInt64.ofNat n) = longInt 10 n := by
  obtain ⟨⟨h1, -, h2⟩, h3⟩ := fixed_enc n h
  have := group_longInt _ h1
  rwa [h2, h3] at this

theorem longInt_length (k n : Nat) : (longInt k n).length = k := by
  induction k using Nat.strongRecOn generalizing n with
  | ind k ih =>
    match k with
    | 0 => rfl
    | 1 => rfl
    | k + 2 => simp only [longInt, List.length_cons, ih (k + 1) (by omega)]

theorem dynBytes_blob (tag : Byte) (ht : TagOk tag) (data : List Byte) (h : data.length < 2 ^ 64) :
    dynBytes (.pair .blob tag) data = UInt8.ofNat (2 * 64 + tag.toNat) :: longInt 10 data.length ++ data := by
  unfold dynBytes
  rw [fixed_longInt _ h]
  rw [show (Desc.pair .blob tag).toByte = UInt8.ofNat (2 * 64 + tag.toNat) from pairByte _ _ ht]

theorem step_out (w : Write) (hw : WriteOk w) {s s1 : Stream} (h : AtRest s s1) (hroom : s1.pos + (writeBytes s1.pos w).length ≤ 2 ^ 62)
    (hoff : s1.inner.pos + (writeBytes s1.pos w).length ≤ 2 ^ 62) :
    ∃ s' s1', w.exec s = .ok () s' ∧ AtRest s' s1' ∧ s1'.inner.data = written s1.inner.data s1.inner.pos (writeBytes s1.pos w) ∧
      s1'.inner.pos = s1.inner.pos + (writeBytes s1.pos w).length ∧ s1'.pos = s1.pos + (writeBytes s1.pos w).length := by
  rw [exec_after h.commit w]
  have dyn : ∀ (d : Desc) (ps : List (List Byte)), s1.pos + (11 + ps.flatten.length) ≤ 2 ^ 62 → s1.inner.pos + (11 + ps.flatten.length) ≤ 2 ^ 62 →
      ∃ s' s1', ((writeBlobDynamicDesc d >>= fun _ => writePieces ps) : M Err Stream Unit) s1 = .ok () s' ∧ AtRest s' s1' ∧
        s1'.inner.data = written s1.inner.data s1.inner.pos (dynBytes d ps.flatten) ∧
        s1'.inner.pos = s1.inner.pos + (dynBytes d ps.flatten).length ∧ s1'.pos = s1.pos + (dynBytes d ps.flatten).length := by
    intro d ps h1 h2
    have hs := h.sink
    obtain ⟨s3, g1, g2, g3, g4, g5, g6, g7⟩ := c24_dynamic_blob d ps s1 hs h.benign h.seekable (by unfold U64MAX; omega) (by unfold U64MAX; omega) (by unfold I64MAX; omega)
    unfold dynamicBlob at g1
    obtain ⟨len, t1, e1, e2⟩ := M.bind_inv g1
    obtain ⟨⟨⟩, t2, e3, e4⟩ := M.bind_inv e2
    exact ⟨t2, s3, by rw [M.bind_ok e1]; exact e3, ⟨e4, g5.within, g6, g7⟩, g2, g3, g4⟩
  cases w with
  | call c =>
    have hs := h.sink
    have h1 := c.exec_out hw hs.ready
    simp only [writeBytes] at hroom hoff ⊢
    show ∃ s' s1', c.exec s1 = _ ∧ _
    cases hr : c.exec s1 with
    | err e s' => rw [hr] at h1; have := h1.2.2 h.benign; unfold U64MAX at this; omega
    | ok u s' =>
      rw [hr] at h1
      obtain ⟨w1, r1⟩ := h1
      have h2 := commit_out r1
      cases hr2 : Fourleaf.commit s' with
      | err e s2 => rw [hr2] at h2; have := h2.2.2 (h.benign.suffix w1.sched); rw [w1.pos] at this; unfold U64MAX at this; simp at this; omega
      | ok u2 s2 =>
        rw [hr2] at h2
        obtain ⟨w2, c2⟩ := h2
        have w3 := w1.trans hs.within w2
        rw [List.append_nil] at w3
        exact ⟨s', s2, rfl, ⟨hr2, c2.within, h.benign.suffix w3.sched, by rw [w3.seekable]; exact h.seekable⟩, by rw [w3.data, splice_written hs.within], w3.ipos, w3.pos⟩
  | blobDynamic tag ps =>
    simp only [writeBytes] at hroom hoff ⊢
    simp only [List.length_append, List.length_cons, longInt_length] at hroom hoff
    have e := dynBytes_blob tag hw ps.flatten (by omega)
    rw [← e]
    exact dyn _ ps (by omega) (by omega)
  | exceptionDynamic ps =>
    simp only [writeBytes] at hroom hoff ⊢
    simp only [List.length_append, List.length_cons, longInt_length] at hroom hoff
    have e : dynBytes (.special .exception) ps.flatten = 2 * 64 :: longInt 10 ps.flatten.length ++ ps.flatten := by
      rw [← fixed_longInt _ (by omega)]; rfl
    rw [← e]
    exact dyn _ ps (by omega) (by omega)
  | padToAlign k =>
    have hk : k ≤ 62 := hw
    have hp : 2 ^ k ≤ 2 ^ 62 := Nat.pow_le_pow_right (by omega) hk
    simp only [writeBytes, List.length_replicate] at hroom hoff ⊢
    obtain ⟨s', j, g1, g2, g3, g4, g5, g6, g7, g8, g9⟩ := c25_pad_to_align k (by omega) s1 h.sink h.benign (by unfold U64MAX; omega)
    rw [g5] at g6
    cases missing_unique g2 g6
    have h2 := commit_out g7.ready
    cases hr2 : Fourleaf.commit s' with
    | err e s2 => rw [hr2] at h2; have := h2.2.2 g8; rw [g5] at this; unfold U64MAX at this; simp at this; omega
    | ok u2 s2 =>
      rw [hr2] at h2
      obtain ⟨w2, c2⟩ := h2
      have d2 := w2.data
      rw [splice_nil _ _ g7.within] at d2
      refine ⟨s', s2, g1, ⟨hr2, c2.within, g8.suffix w2.sched, by rw [w2.seekable, g9]; exact h.seekable⟩, by rw [d2, g3], ?_, ?_⟩
      · rw [w2.ipos, g4]; rfl
      · rw [w2.pos, g5]; rfl

theorem written_append (old a b : List Byte) (p : Nat) (hp : p ≤ old.length) : written (written old p a) (p + a.length) b = written old p (a ++ b) := by
  rw [← splice_written hp, ← splice_written hp, ← splice_written (by rw [splice_length_eq]; omega), splice_splice _ _ _ _ hp]

theorem writes_out : ∀ (ws : List Write), (∀ w ∈ ws, WriteOk w) → ∀ {s s1 : Stream}, AtRest s s1 → s1.pos + (layoutBytes s1.pos ws).length ≤ 2 ^ 62 →
    s1.inner.pos + (layoutBytes s1.pos ws).length ≤ 2 ^ 62 →
    ∃ s', runWrites ws s = .ok () s' ∧ s'.inner.data = written s1.inner.data s1.inner.pos (layoutBytes s1.pos ws) ∧
      s'.inner.pos = s1.inner.pos + (layoutBytes s1.pos ws).length ∧ s'.pos = s1.pos + (layoutBytes s1.pos ws).length ∧ AtRest s' s' := by
  intro ws
  induction ws with
  | nil =>
    intro _ s s1 h _ _
    refine ⟨s1, h.commit, ?_, rfl, rfl, commit_none (commit_ok_none h.commit), h.within, h.benign, h.seekable⟩
    simp [layoutBytes, written]
  | cons w ws ih =>
    intro hw s s1 h hroom hoff
    simp only [layoutBytes, List.length_append] at hroom hoff ⊢
    obtain ⟨s', s1', g1, g2, g3, g4, g5⟩ := step_out w (hw w (by simp)) h (by omega) (by omega)
    rw [← g5] at hroom hoff ⊢
    obtain ⟨s'', e1, e2, e3, e4, e5⟩ := ih (fun w' hw' => hw w' (by simp [hw'])) g2 (by omega) (by omega)
    refine ⟨s'', ?_, ?_, by omega, by omega, e5⟩
    · unfold runWrites; rw [M.bind_ok g1]; exact e1
    · rw [e2, g3, g4, written_append _ _ _ _ h.within]

theorem writeToks_enc (pos : Nat) (w : Write) (hw : WriteOk w) (hlen : (writeBytes pos w).length < 2 ^ 64) : EncToks (writeToks pos w) (writeBytes pos w) := by
  cases w with
  | call c => exact canonToks_enc hw
  | blobDynamic tag ps =>
    simp only [writeBytes, List.length_append, List.length_cons] at hlen
    have h := (c24_reads_back tag hw ps.flatten (by omega)).1
    rw [dynBytes_blob tag hw _ (by omega)] at h
    have := EncToks.cons h .nil
    rwa [List.append_nil] at this
  | exceptionDynamic ps =>
    simp only [writeBytes, List.length_append, List.length_cons] at hlen
    have h := (c24_reads_back 1 (by decide) ps.flatten (by omega)).2
    have e : dynBytes (.special .exception) ps.flatten = 2 * 64 :: longInt 10 ps.flatten.length ++ ps.flatten := by
      rw [← fixed_longInt _ (by omega)]; rfl
    rw [e] at h
    have := EncToks.cons h .nil
    rwa [List.append_nil] at this
  | padToAlign k =>
    simp only [writeToks, writeBytes]
    generalize missing k pos = n
    induction n with
    | zero => exact .nil
    | succ n ih => exact EncToks.cons (.padding) ih

theorem layout_enc : ∀ (ws : List Write), (∀ w ∈ ws, WriteOk w) → ∀ pos, (layoutBytes pos ws).length < 2 ^ 64 → EncToks (layoutToks pos ws) (layoutBytes pos ws) := by
  intro ws
  induction ws with
  | nil => intro _ _ _; exact .nil
  | cons w ws ih =>
    intro hw pos hl
    simp only [layoutBytes, List.length_append] at hl
    exact (writeToks_enc pos w (hw w (by simp)) (by omega)).append (ih (fun w' h' => hw w' (by simp [h'])) _ (by omega))

/-- **C08, C09, C24, C25** Any mixture of writing calls, filled blobs, dynamic blobs (written in any pieces) and `pad_to_align`, on a seekable sink without errors, whatever the sizes of
its partial writes: the elements are laid out one after the other as `layoutBytes` says, replacing exactly that many bytes; and another stream that starts reading there gets back exactly these
elements. (All positions are below 2^62.) -/
theorem c24_mixed (ws : List Write) (hws : ∀ w ∈ ws, WriteOk w) (s : Stream) (hs : Sink s) (hb : Benign s.inner.sched) (hk : s.inner.seekable = true)
    (hroom : s.pos + (layoutBytes s.pos ws).length ≤ 2 ^ 62) (hoff : s.inner.pos + (layoutBytes s.pos ws).length ≤ 2 ^ 62) :
    ∃ s', runWrites ws s = .ok () s' ∧ s'.inner.data = written s.inner.data s.inner.pos (layoutBytes s.pos ws) ∧
      s'.inner.pos = s.inner.pos + (layoutBytes s.pos ws).length ∧ s'.pos = s.pos + (layoutBytes s.pos ws).length ∧
      ∀ (r : Stream) (tail : List Byte), Over r (layoutBytes s.pos ws ++ tail) → ∃ r', readToks (layoutToks s.pos ws).length r = .ok (layoutToks s.pos ws) r' := by
  have h2 := commit_out hs.ready
  cases hr : Fourleaf.commit s with
  | err e s1 => rw [hr] at h2; have := h2.2.2 hb; unfold U64MAX at this; simp at this; omega
  | ok u s1 =>
    rw [hr] at h2
    obtain ⟨w2, c2⟩ := h2
    have d2 := w2.data
    rw [splice_nil _ _ hs.within] at d2
    have e1 : s1.pos = s.pos := w2.pos
    have e2 : s1.inner.pos = s.inner.pos := w2.ipos
    have hA : AtRest s s1 := ⟨hr, c2.within, hb.suffix w2.sched, by rw [w2.seekable]; exact hk⟩
    rw [← e1] at hroom hoff ⊢
    rw [← e2] at hoff ⊢
    obtain ⟨s', g1, g2, g3, g4, -⟩ := writes_out ws hws hA hroom hoff
    refine ⟨s', g1, by rw [g2, d2], g3, g4, fun r tail hr => ?_⟩
    obtain ⟨r', h, -⟩ := c08_read_back r _ _ tail hr (layout_enc ws hws s1.pos (by omega))
    exact ⟨r', h⟩

/-- An integer, a dynamic blob, padding to 16, an exception written in two pieces; the position starts at 3, the sink holds other data. -/
def c24Writes : List Write := [.call (.u64 1 300), .blobDynamic 2 [[1, 2], [3]], .padToAlign 4, .exceptionDynamic [[4], [5, 6]], .call .endDoc]

example : layoutBytes 3 c24Writes = [0x41, 0xAC, 2, 0x82, 0x83, 0x80, 0x80, 0x80, 0x80, 0x80, 0x80, 0x80, 0x80, 0, 1, 2, 3] ++ List.replicate 12 0xC0 ++
    [0x80, 0x83, 0x80, 0x80, 0x80, 0x80, 0x80, 0x80, 0x80, 0x80, 0, 4, 5, 6, 0x40] := by decide +kernel

example : (runWrites c24Writes { Stream.new { data := [7, 8, 9, 10], pos := 3, sched := [.short 0, .interrupted, .short 3], seekable := true } with pos := 3 }).state.inner.data =
    [7, 8, 9] ++ layoutBytes 3 c24Writes := by decide +kernel

end Fourleaf.Props
