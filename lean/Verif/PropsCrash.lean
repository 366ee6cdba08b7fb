import Verif.PropsMixed

/-! # C22 with dynamic blobs: what a failing sink is left with, after any mixture of writing calls -/

namespace Fourleaf
namespace Spec

/-- The length a dynamic blob at `pos` carries until it is committed: all the positions that are left after its header. -/
def openLen (pos : Nat) : Nat := 2 ^ 64 - 1 - (pos + 11)

/-- A dynamic blob that has not been committed. -/
def openBytes (pos : Nat) (first : UInt8) (content : List UInt8) : List UInt8 := first :: longInt 10 (openLen pos) ++ content

/-- What a failure in a step that started at `pos` can leave of it: a part of its bytes from the start; for a dynamic blob, a part of the blob as it is before it is committed,
or all of it, with its length replaced from the left, possibly not entirely. -/
inductive Torn (pos : Nat) : Write → List UInt8 → Prop where
  | call (c : WCall) (k : Nat) : Torn pos (.call c) ((writeBytes pos (.call c)).take k)
  | padToAlign (a k : Nat) : Torn pos (.padToAlign a) ((writeBytes pos (.padToAlign a)).take k)
  | blobOpen (tag : Byte) (ps : List (List Byte)) (k : Nat) : Torn pos (.blobDynamic tag ps) ((openBytes pos (UInt8.ofNat (2 * 64 + tag.toNat)) ps.flatten).take k)
  | exceptionOpen (ps : List (List Byte)) (k : Nat) : Torn pos (.exceptionDynamic ps) ((openBytes pos (2 * 64) ps.flatten).take k)
  | blobCommit (tag : Byte) (ps : List (List Byte)) (j : Nat) : Torn pos (.blobDynamic tag ps)
      (UInt8.ofNat (2 * 64 + tag.toNat) :: ((longInt 10 ps.flatten.length).take j ++ (longInt 10 (openLen pos)).drop j) ++ ps.flatten)
  | exceptionCommit (ps : List (List Byte)) (j : Nat) : Torn pos (.exceptionDynamic ps)
      (2 * 64 :: ((longInt 10 ps.flatten.length).take j ++ (longInt 10 (openLen pos)).drop j) ++ ps.flatten)

end Spec
end Fourleaf

namespace Fourleaf.Props
open Fourleaf Spec

/-- If what is pending cannot be committed, a writing call fails in the same way and does nothing else. -/
theorem exec_commit_err (w : Write) {s s1 : Stream} {e : Err} (h : Fourleaf.commit s = .err e s1) : w.exec s = .err e s1 := by
  have hd : ∀ d, writeDesc d s = .err e s1 := fun d => by unfold writeDesc; rw [M.bind_err h]
  have hu : ∀ tag n, writeU64 tag n s = .err e s1 := fun tag n => by unfold writeU64; rw [M.bind_err (hd _)]
  have ha : ∀ d len, writeBlobAllocDesc d len s = .err e s1 := fun d len => by unfold writeBlobAllocDesc; rw [M.bind_err h]
  have hy : ∀ d, writeBlobDynamicDesc d s = .err e s1 := fun d => by unfold writeBlobDynamicDesc; rw [M.bind_err (hd _)]
  cases w with
  | call c =>
    cases c with
    | commit => exact h
    | null tag => exact hu _ _
    | bool tag b => exact hu _ _
    | u8 tag n => exact hu _ _
    | u16 tag n => exact hu _ _
    | u32 tag n => exact hu _ _
    | u64 tag n => exact hu _ _
    | i8 tag n => exact hu _ _
    | i16 tag n => exact hu _ _
    | i32 tag n => exact hu _ _
    | i64 tag n => exact hu _ _
    | struct tag => exact hd _
    | enum tag d => exact M.bind_err (hd _)
    | endStruct => exact hd _
    | endDoc => exact hd _
    | padding => exact hd _
    | blobData tag d => exact M.bind_err (ha _ _)
    | exceptionData d => exact M.bind_err (ha _ _)
    | blobAlloc tag ps => exact M.bind_err (ha _ _)
    | exceptionAlloc ps => exact M.bind_err (ha _ _)
  | blobDynamic tag ps => exact M.bind_err (hy _)
  | exceptionDynamic ps => exact M.bind_err (hy _)
  | padToAlign k => exact M.bind_err h

theorem padLoop_any (k : Nat) (hk : k < 64) : ∀ (r fuel : Nat) (s : Stream), WClean s → s.pos + r + 11 ≤ U64MAX →
    r < fuel → r < 2 ^ k → (s.pos + r) % 2 ^ k = 0 → WOut s (List.replicate r 0xC0) WClean (padLoop (2 ^ k) fuel s) := by
  intro r
  induction r with
  | zero =>
    intro fuel s hc hroom hf hr h0
    obtain ⟨f, rfl⟩ : ∃ f, fuel = f + 1 := ⟨fuel - 1, by omega⟩
    have hp64 : s.pos < 2 ^ 64 := by unfold U64MAX at hroom; omega
    unfold padLoop
    rw [if_neg (by rw [align_test _ _ hk hp64]; simp only [Nat.add_zero] at h0; omega)]
    exact ⟨.refl hc.within, hc⟩
  | succ r ih =>
    intro fuel s hc hroom hf hr h0
    obtain ⟨f, rfl⟩ : ∃ f, fuel = f + 1 := ⟨fuel - 1, by omega⟩
    have hp64 : s.pos < 2 ^ 64 := by unfold U64MAX at hroom; omega
    have hne : s.pos % 2 ^ k ≠ 0 := by
      intro h
      rw [Nat.add_mod, h, Nat.zero_add, Nat.mod_mod, Nat.mod_eq_of_lt hr] at h0
      omega
    unfold padLoop
    rw [if_pos ((align_test _ _ hk hp64).2 hne)]
    have := (writeDesc_out (.special .padding) hc.ready).bind (b := List.replicate r 0xC0) (R := WClean) (m' := padLoop (2 ^ k) f) hc.within
      (fun s' w c => ih f s' c (by have := w.pos; simp at this; omega) (by omega) (by omega) (by
        have := w.pos; simp at this; rw [this, Nat.add_assoc, Nat.add_comm 1 r]; exact h0))
    exact this

/-- Bytes have been put at the current offset. -/
structure Put (s : Stream) (bytes : List Byte) (s' : Stream) : Prop where
  data : s'.inner.data = splice s.inner.data s.inner.pos bytes
  ipos : s'.inner.pos = s.inner.pos + bytes.length
  pos : s'.pos = s.pos + bytes.length
  sched : s'.inner.sched <:+ s.inner.sched
  seekable : s'.inner.seekable = s.inner.seekable

theorem _root_.Fourleaf.Wrote.put {s s' : Stream} {b : List Byte} (h : Wrote s b s') : Put s b s' := ⟨h.data, h.ipos, h.pos, h.sched, h.seekable⟩

theorem Put.trans {s s' s'' : Stream} {a b : List Byte} (h : s.inner.pos ≤ s.inner.data.length) (h1 : Put s a s') (h2 : Put s' b s'') :
    Put s (a ++ b) s'' := by
  refine ⟨?_, ?_, ?_, h2.sched.trans h1.sched, h2.seekable.trans h1.seekable⟩
  · rw [h2.data, h1.data, h1.ipos, splice_splice _ _ _ _ h]
  · rw [h2.ipos, h1.ipos]; simp; omega
  · rw [h2.pos, h1.pos]; simp; omega

/-- Opening a dynamic blob and writing to it, whatever the sink does. -/
theorem dyn_any (d : Desc) (ps : List (List Byte)) {s : Stream} (h : WClean s) (hroom : s.pos + 22 + ps.flatten.length ≤ U64MAX) :
    match (writeBlobDynamicDesc d >>= fun _ => writePieces ps : M Err Stream Unit) s with
    | .ok _ s' => Put s (openBytes s.pos d.toByte ps.flatten) s' ∧ s'.commit = some .finishDyn ∧ s'.dynStart = s.pos + 11
    | .err e s' => e.abnormal = false ∧ ¬ Benign s.inner.sched ∧ ∃ k, Put s ((openBytes s.pos d.toByte ps.flatten).take k) s' := by
  unfold writeBlobDynamicDesc
  have hD := writeDesc_out d h.ready
  have hw := h.within
  cases hr : writeDesc d s with
  | err e s' =>
    rw [hr] at hD
    obtain ⟨⟨k, hk, h1⟩, h2, h3⟩ := hD
    have : (do writeDesc d
               let s ← M.get
               if U64MAX - s.pos < 10 then M.throw (.panic "attempt to subtract with overflow")
               else do
                let len := U64MAX - s.pos - 10
                encodeFixedS (UInt64.ofNat len)
                M.modify fun s => { s with dynStart := s.pos, blobEnd := s.pos + len, commit := some .finishDyn }
                pure len : M Err Stream Nat) s = .err e s' := M.bind_err hr
    rw [M.bind_err this]
    refine ⟨h2, fun hb => ?_, k, ?_⟩
    · have := h3 hb; simp at this; omega
    · have hk' : k ≤ 1 := by simpa using hk
      unfold openBytes
      rw [List.cons_append, ← List.singleton_append, List.take_append_of_le_length (by simpa using hk)]
      exact h1.put
  | ok x s' =>
    rw [hr] at hD
    obtain ⟨w, c⟩ := hD
    have hp : s'.pos = s.pos + 1 := w.pos
    have hlen : U64MAX - s'.pos - 10 = openLen s.pos := by unfold openLen U64MAX; omega
    have hol : openLen s.pos < 2 ^ 64 := by unfold openLen; omega
    rw [M.bind_apply, M.bind_ok hr, M.bind_ok (M.get_apply s'), M.ite_apply, if_neg (by omega)]
    simp only [hlen]
    have hW := writeAll_track_out (encodeFixedU64 (UInt64.ofNat (openLen s.pos))) s' c.within
    rw [fixed_longInt _ hol] at hW
    have hE : encodeFixedS (UInt64.ofNat (openLen s.pos)) s' = writeAll trackWrite (longInt 10 (openLen s.pos)) s' := by
      unfold encodeFixedS; rw [fixed_longInt _ hol]
    cases hr2 : encodeFixedS (UInt64.ofNat (openLen s.pos)) s' with
    | err e s2 =>
      rw [M.bind_err hr2]
      rw [← hE, hr2] at hW
      obtain ⟨⟨k, hk, h1⟩, h2, h3⟩ := hW
      refine ⟨h2, fun hb => ?_, 1 + k, ?_⟩
      · have := h3 (hb.suffix w.sched); rw [longInt_length] at this; omega
      · have := w.put.trans hw h1.put
        rw [longInt_length] at hk
        unfold openBytes
        rw [List.cons_append, Nat.add_comm 1 k, List.take_succ_cons, List.take_append_of_le_length (by rw [longInt_length]; omega)]
        exact this
    | ok y s2 =>
      rw [M.bind_ok hr2, M.bind_ok (M.modify_apply _ _)]
      rw [← hE, hr2] at hW
      obtain ⟨w2, -⟩ := hW
      have w3 := w.trans hw w2
      have hpos : s2.pos = s.pos + 11 := by rw [w2.pos, longInt_length, hp]
      have hwi := w3.within hw
      show match writePieces ps ({ s2 with dynStart := s2.pos, blobEnd := s2.pos + openLen s.pos, commit := some .finishDyn }) with
        | .ok _ s' => _
        | .err e s' => _
      have hP := writePieces_adv ps { s2 with dynStart := s2.pos, blobEnd := s2.pos + openLen s.pos, commit := some .finishDyn } hwi (by
        simp only; unfold openLen; unfold U64MAX at hroom; omega)
      have w4 : Put s ([d.toByte] ++ longInt 10 (openLen s.pos)) { s2 with dynStart := s2.pos, blobEnd := s2.pos + openLen s.pos, commit := some .finishDyn } :=
        ⟨w3.data, w3.ipos, w3.pos, w3.sched, w3.seekable⟩
      generalize ht : ({ s2 with dynStart := s2.pos, blobEnd := s2.pos + openLen s.pos, commit := some .finishDyn } : Stream) = t at *
      have hl11 : ([d.toByte] ++ longInt 10 (openLen s.pos)).length = 11 := by simp [longInt_length]
      cases hr3 : writePieces ps t with
      | err e s4 =>
        rw [hr3] at hP
        obtain ⟨⟨k, hk, h1⟩, h2, h3⟩ := hP
        refine ⟨h2, fun hb => ?_, 11 + k, ?_⟩
        · have := h3 (hb.suffix w4.sched); rw [w4.pos, hl11] at this; omega
        · have := w4.trans hw h1.put
          have e1 : openBytes s.pos d.toByte ps.flatten = ([d.toByte] ++ longInt 10 (openLen s.pos)) ++ ps.flatten := rfl
          rw [e1, ← hl11, List.take_length_add_append]
          exact this
      | ok z s4 =>
        rw [hr3] at hP
        obtain ⟨w5, hq⟩ := hP
        refine ⟨w4.trans hw w5.put, ?_, ?_⟩
        · rw [hq, ← ht]; rfl
        · have := w5.meta_.dynStart
          rw [this, ← ht]; exact hpos

/-- Committing a dynamic blob, whatever the sink does. -/
theorem dyn_commit_any {s2 : Stream} {head hdr tail : List Byte} {n : Nat} (hc : s2.commit = some .finishDyn) (hpos : s2.pos = s2.dynStart + n) (hst : 10 ≤ s2.dynStart)
    (hh : hdr.length = 10) (hd : s2.inner.data = head ++ hdr ++ tail) (hip : s2.inner.pos = head.length + 10 + n) (_hin : n ≤ tail.length)
    (hk : s2.inner.seekable = true) (hn : n + 10 ≤ I64MAX) (hp : s2.pos ≤ U64MAX) (hi : s2.inner.pos ≤ U64MAX) :
    match Fourleaf.commit s2 with
    | .ok _ s3 => s3.inner.data = head ++ longInt 10 n ++ tail ∧ s3.inner.pos = s2.inner.pos ∧ s3.pos = s2.pos ∧ s3.commit = none ∧ s3.inner.seekable = true ∧
        s3.inner.sched <:+ s2.inner.sched
    | .err e s3 => e.abnormal = false ∧ ¬ Benign s2.inner.sched ∧ ∃ j, s3.inner.data = head ++ ((longInt 10 n).take j ++ hdr.drop j) ++ tail := by
  have hl : s2.inner.data.length = head.length + 10 + tail.length := by rw [hd]; simp; omega
  have hn64 : n < 2 ^ 64 := by unfold I64MAX at hn; omega
  have hfin : match finishDynamicBlob s2 with
      | .ok _ s3 => s3.inner.data = head ++ longInt 10 n ++ tail ∧ s3.inner.pos = s2.inner.pos ∧ s3.pos = s2.pos ∧ s3.inner.seekable = true ∧
          s3.inner.sched <:+ s2.inner.sched
      | .err e s3 => e.abnormal = false ∧ ¬ Benign s2.inner.sched ∧ ∃ j, s3.inner.data = head ++ ((longInt 10 n).take j ++ hdr.drop j) ++ tail := by
    unfold finishDynamicBlob
    simp only
    rw [if_neg (by omega), if_neg (by omega), if_neg (by omega)]
    have hdisp : s2.pos - (s2.dynStart - 10) = n + 10 := by omega
    have hlen : s2.pos - s2.dynStart = n := by omega
    rw [hdisp, hlen]
    by_cases hn1 : s2.inner.sched.head? = some .noSeek
    · have hseek : innerSeek (.current (-((n + 10 : Nat) : Int))) s2 = .err (.io .device) { s2 with inner := { s2.inner with sched := s2.inner.sched.tail } } := innerSeek_refused hk hn1
      rw [M.bind_err hseek]
      exact ⟨rfl, not_benign_noSeek hn1, 0, by simp [hd]⟩
    have hseek : innerSeek (.current (-((n + 10 : Nat) : Int))) s2 = .ok head.length { s2 with inner := { s2.inner with pos := head.length } } := by
      exact innerSeek_to' hn1 hk (by omega) (by omega)
    rw [M.bind_ok hseek, M.bind_ok (M.modify_apply _ _)]
    generalize hs1 : ({ s2 with inner := { s2.inner with pos := head.length }, pos := s2.pos - (n + 10) } : Stream) = t
    have ht1 : t.inner.pos = head.length := by rw [← hs1]
    have ht2 : t.inner.data = s2.inner.data := by rw [← hs1]
    have ht3 : t.pos = s2.pos - (n + 10) := by rw [← hs1]
    have ht4 : t.inner.sched = s2.inner.sched := by rw [← hs1]
    have ht5 : t.inner.seekable = true := by rw [← hs1]; exact hk
    have hW := writeAll_track_out (longInt 10 n) t (by rw [ht1, ht2, hl]; omega)
    have hspl : ∀ l : List Byte, l.length ≤ 10 → splice s2.inner.data head.length l = head ++ (l ++ hdr.drop l.length) ++ tail := by
      intro l hl10
      rw [splice_written (by rw [hl]; omega), written, hd]
      rw [List.append_assoc head hdr, List.take_append_of_le_length (Nat.le_refl _), List.take_of_length_le (Nat.le_refl _)]
      rw [List.drop_append, List.drop_of_length_le (by omega), List.drop_append_of_le_length (by omega)]
      simp
    have hE : encodeFixedS (UInt64.ofNat n) t = writeAll trackWrite (longInt 10 n) t := by unfold encodeFixedS; rw [fixed_longInt _ hn64]
    cases hr : encodeFixedS (UInt64.ofNat n) t with
    | err e t' =>
      rw [M.bind_err hr]
      rw [← hE, hr] at hW
      obtain ⟨⟨j, hj, w⟩, h2, h3⟩ := hW
      rw [longInt_length] at hj
      refine ⟨h2, fun hb => ?_, j, ?_⟩
      · have := h3 (by rw [ht4]; exact hb)
        rw [longInt_length] at this
        omega
      · have hlj : ((longInt 10 n).take j).length = j := by rw [List.length_take, longInt_length]; omega
        rw [w.data, ht1, ht2, hspl _ (by omega), hlj]
    | ok x t' =>
      rw [M.bind_ok hr]
      rw [← hE, hr] at hW
      obtain ⟨w, -⟩ := hW
      have p1 : t'.inner.pos = head.length + 10 := by rw [w.ipos, ht1, longInt_length]
      have hdat : t'.inner.data = head ++ longInt 10 n ++ tail := by
        rw [w.data, ht1, ht2, hspl _ (by rw [longInt_length]; omega), longInt_length, List.drop_of_length_le (by omega), List.append_nil]
      by_cases hn2 : t'.inner.sched.head? = some .noSeek
      · have hseek2 : innerSeek (.current (n : Int)) t' = .err (.io .device) { t' with inner := { t'.inner with sched := t'.inner.sched.tail } } :=
          innerSeek_refused (by rw [w.seekable]; exact ht5) hn2
        rw [M.bind_err hseek2]
        refine ⟨rfl, fun hb => not_benign_noSeek hn2 ((ht4 ▸ hb : Benign t.inner.sched).suffix w.sched), 10, ?_⟩
        rw [List.take_of_length_le (by rw [longInt_length]; omega), List.drop_of_length_le (by omega), List.append_nil]
        exact hdat
      have hseek2 : innerSeek (.current (n : Int)) t' = .ok s2.inner.pos { t' with inner := { t'.inner with pos := s2.inner.pos } } := by
        exact innerSeek_to' hn2 (by rw [w.seekable]; exact ht5) (by omega) (by omega)
      rw [M.bind_ok hseek2]
      refine ⟨?_, rfl, rfl, ?_, ?_⟩
      · exact hdat
      · show t'.inner.seekable = true
        rw [w.seekable]; exact ht5
      · show t'.inner.sched <:+ _
        rw [← ht4]; exact w.sched
  unfold Fourleaf.commit
  rw [hc]
  simp only
  cases hr : finishDynamicBlob s2 with
  | ok x s3 =>
    rw [hr] at hfin
    obtain ⟨g1, g2, g3, g4, g5⟩ := hfin
    exact ⟨g1, g2, g3, rfl, g4, g5⟩
  | err e s3 => rw [hr] at hfin; exact hfin

/-- The steps `ws` have succeeded, starting with the sink as it is in `s0`; perhaps the last one, a dynamic blob, is still open. -/
inductive Rests (s0 : Stream) : List Write → Stream → Prop where
  | ready {ws s} : WReady s → Put s0 (layoutBytes s0.pos ws) s → Rests s0 ws s
  | blob {ws s tag ps} : WriteOk (.blobDynamic tag ps) → s.commit = some .finishDyn → s.dynStart = s0.pos + (layoutBytes s0.pos ws).length + 11 →
      Put s0 (layoutBytes s0.pos ws ++ openBytes (s0.pos + (layoutBytes s0.pos ws).length) (UInt8.ofNat (2 * 64 + tag.toNat)) ps.flatten) s →
      Rests s0 (ws ++ [.blobDynamic tag ps]) s
  | exception {ws s ps} : s.commit = some .finishDyn → s.dynStart = s0.pos + (layoutBytes s0.pos ws).length + 11 →
      Put s0 (layoutBytes s0.pos ws ++ openBytes (s0.pos + (layoutBytes s0.pos ws).length) (2 * 64) ps.flatten) s →
      Rests s0 (ws ++ [.exceptionDynamic ps]) s

/-- One of the steps has failed: those before it have been done, of that one something is left, of the rest nothing. -/
def Broken (s0 : Stream) (ws : List Write) (s' : Stream) : Prop :=
  ∃ done w rest Y, ws = done ++ w :: rest ∧ Torn (s0.pos + (layoutBytes s0.pos done).length) w Y ∧
    s'.inner.data = written s0.inner.data s0.inner.pos (layoutBytes s0.pos done ++ Y)

theorem layoutBytes_snoc (w : Write) : ∀ (ws : List Write) (pos : Nat),
    layoutBytes pos (ws ++ [w]) = layoutBytes pos ws ++ writeBytes (pos + (layoutBytes pos ws).length) w
  | [], pos => by simp [layoutBytes]
  | v :: ws, pos => by
    simp only [List.cons_append, layoutBytes, layoutBytes_snoc w ws, List.length_append, List.append_assoc, Nat.add_assoc]

section
variable {s0 : Stream} (h0 : s0.inner.pos ≤ s0.inner.data.length) (hk : s0.inner.seekable = true)
include h0 hk

theorem commit_rests {ws : List Write} {s : Stream} (h : Rests s0 ws s) (hroom : s0.pos + (layoutBytes s0.pos ws).length ≤ 2 ^ 62)
    (hoff : s0.inner.pos + (layoutBytes s0.pos ws).length ≤ 2 ^ 62) :
    match Fourleaf.commit s with
    | .ok _ s1 => WClean s1 ∧ Put s0 (layoutBytes s0.pos ws) s1
    | .err e s1 => e.abnormal = false ∧ ¬ Benign s0.inner.sched ∧ Broken s0 ws s1 := by
  have dyn : ∀ (pre content : List Byte) (first : Byte) (q : Nat), s.commit = some .finishDyn → s.dynStart = s0.pos + pre.length + 11 →
      q < 2 ^ 62 →
      s0.pos + (pre.length + 11 + content.length) ≤ 2 ^ 62 → s0.inner.pos + (pre.length + 11 + content.length) ≤ 2 ^ 62 →
      Put s0 (pre ++ openBytes q first content) s →
      match Fourleaf.commit s with
      | .ok _ s1 => WClean s1 ∧ Put s0 (pre ++ (first :: longInt 10 content.length ++ content)) s1
      | .err e s1 => e.abnormal = false ∧ ¬ Benign s0.inner.sched ∧ ∃ j, s1.inner.data =
          written s0.inner.data s0.inner.pos (pre ++ (first :: ((longInt 10 content.length).take j ++ (longInt 10 (openLen q)).drop j) ++ content)) := by
    intro pre content first q hc hs _ hr ho hp
    have hll : (pre ++ openBytes q first content).length = pre.length + 11 + content.length := by
      simp only [openBytes, List.length_append, List.length_cons, longInt_length]; omega
    have hpos := hp.pos
    have hip := hp.ipos
    rw [hll] at hpos hip
    have hd := hp.data
    rw [splice_written h0, written, hll] at hd
    have hd' : s.inner.data = (s0.inner.data.take s0.inner.pos ++ pre ++ [first]) ++ longInt 10 (openLen q) ++
        (content ++ s0.inner.data.drop (s0.inner.pos + (pre.length + 11 + content.length))) := by
      rw [hd]; simp [openBytes]
    have hhl : (s0.inner.data.take s0.inner.pos ++ pre ++ [first]).length = s0.inner.pos + pre.length + 1 := by simp; omega
    have := dyn_commit_any (n := content.length) hc (by omega) (by omega) (longInt_length _ _) hd' (by omega) (by simp) (by rw [hp.seekable]; exact hk)
      (by unfold I64MAX; omega) (by unfold U64MAX; omega) (by unfold U64MAX; omega)
    cases hr : Fourleaf.commit s with
    | ok x s1 =>
      rw [hr] at this
      obtain ⟨g1, g2, g3, g4, g5, g6⟩ := this
      have hl2 : (pre ++ (first :: longInt 10 content.length ++ content)).length = pre.length + 11 + content.length := by
        simp only [List.length_append, List.length_cons, longInt_length]; omega
      refine ⟨⟨?_, g4⟩, ?_, ?_, ?_, g6.trans hp.sched, by rw [g5, hk]⟩
      · rw [g1, g2]; simp only [List.length_append, List.length_take, List.length_singleton, longInt_length]; omega
      · rw [g1, splice_written h0, written, hl2]; simp
      · rw [g2, hip, hl2]
      · rw [g3, hpos, hl2]
    | err e s1 =>
      rw [hr] at this
      obtain ⟨g1, g2, j, g3⟩ := this
      refine ⟨g1, fun hb => g2 (hb.suffix hp.sched), j, ?_⟩
      have hl2 : (pre ++ (first :: ((longInt 10 content.length).take j ++ (longInt 10 (openLen q)).drop j) ++ content)).length = pre.length + 11 + content.length := by
        simp only [List.length_append, List.length_cons, List.length_take, List.length_drop, longInt_length]; omega
      rw [g3, written, hl2]; simp
  cases h with
  | ready hw hp =>
    have hc := commit_out hw
    have hok : ∃ s1, Fourleaf.commit s = .ok () s1 := by
      rcases hw.pend with h | ⟨h, he⟩
      · exact ⟨s, commit_none h⟩
      · exact ⟨{ s with commit := none, live := false }, by simp [Fourleaf.commit, h, checkAtEndOfBlob, he]⟩
    obtain ⟨s1, h1⟩ := hok
    rw [h1] at hc ⊢
    have := hp.trans h0 hc.1.put
    rw [List.append_nil] at this
    exact ⟨hc.2, this⟩
  | @blob ws s tag ps hw hc hs hp =>
    rw [layoutBytes_snoc] at hroom hoff ⊢
    simp only [writeBytes, List.length_append, List.length_cons, longInt_length] at hroom hoff
    have := dyn _ _ _ _ hc hs (by omega) (by omega) (by omega) hp
    cases hr : Fourleaf.commit s with
    | ok x s1 => rw [hr] at this; exact this
    | err e s1 =>
      rw [hr] at this
      obtain ⟨g1, g2, j, g3⟩ := this
      exact ⟨g1, g2, ws, _, [], _, rfl, .blobCommit tag ps j, g3⟩
  | @exception ws s ps hc hs hp =>
    rw [layoutBytes_snoc] at hroom hoff ⊢
    simp only [writeBytes, List.length_append, List.length_cons, longInt_length] at hroom hoff
    have := dyn _ _ _ _ hc hs (by omega) (by omega) (by omega) hp
    cases hr : Fourleaf.commit s with
    | ok x s1 => rw [hr] at this; exact this
    | err e s1 =>
      rw [hr] at this
      obtain ⟨g1, g2, j, g3⟩ := this
      exact ⟨g1, g2, ws, _, [], _, rfl, .exceptionCommit ps j, g3⟩

theorem step_rests (w : Write) (hw : WriteOk w) {ws : List Write} {s : Stream} (h : Rests s0 ws s) (hroom : s0.pos + (layoutBytes s0.pos (ws ++ [w])).length ≤ 2 ^ 62)
    (hoff : s0.inner.pos + (layoutBytes s0.pos (ws ++ [w])).length ≤ 2 ^ 62) :
    match w.exec s with
    | .ok _ s' => Rests s0 (ws ++ [w]) s'
    | .err e s' => e.abnormal = false ∧ ¬ Benign s0.inner.sched ∧ Broken s0 (ws ++ [w]) s' := by
  have hsnoc := layoutBytes_snoc w ws s0.pos
  have hlen := congrArg List.length hsnoc
  rw [List.length_append] at hlen
  have hC := commit_rests h0 hk h (by omega) (by omega)
  cases hr : Fourleaf.commit s with
  | err e s1 =>
    rw [hr] at hC
    rw [exec_commit_err w hr]
    obtain ⟨g1, g2, done, v, rest, Y, g3, g4, g5⟩ := hC
    exact ⟨g1, g2, done, v, rest ++ [w], Y, by rw [g3]; simp, g4, g5⟩
  | ok x s1 =>
    rw [hr] at hC
    obtain ⟨hc, hp⟩ := hC
    rw [exec_after hr w]
    have hpos := hp.pos
    -- a step that writes its bytes from left to right
    have plain : ∀ {m : M Err Stream Unit}, WOut s1 (writeBytes s1.pos w) WReady (m s1) → (∀ k, Torn s1.pos w ((writeBytes s1.pos w).take k)) →
        match m s1 with
        | .ok _ s' => Rests s0 (ws ++ [w]) s'
        | .err e s' => e.abnormal = false ∧ ¬ Benign s0.inner.sched ∧ Broken s0 (ws ++ [w]) s' := by
      intro m hW hT
      cases hr2 : m s1 with
      | ok y s2 =>
        rw [hr2] at hW
        refine .ready hW.2 ?_
        rw [hsnoc, ← hpos]
        exact hp.trans h0 hW.1.put
      | err e s2 =>
        rw [hr2] at hW
        obtain ⟨⟨k, hk, w1⟩, g2, g3⟩ := hW
        refine ⟨g2, fun hb => ?_, ws, w, [], _, rfl, by rw [← hpos]; exact hT k, ?_⟩
        · have := g3 (hb.suffix hp.sched)
          rw [hpos] at this
          unfold U64MAX at this; omega
        · rw [(hp.trans h0 w1.put).data, splice_written h0]
    -- a dynamic blob
    have dyn : ∀ (d : Desc) (first : Byte) (ps : List (List Byte)), d.toByte = first → (writeBytes (s0.pos + (layoutBytes s0.pos ws).length) w).length = 11 + ps.flatten.length →
        match (writeBlobDynamicDesc d >>= fun _ => writePieces ps : M Err Stream Unit) s1 with
        | .ok _ s' => s'.commit = some .finishDyn ∧ s'.dynStart = s0.pos + (layoutBytes s0.pos ws).length + 11 ∧
            Put s0 (layoutBytes s0.pos ws ++ openBytes (s0.pos + (layoutBytes s0.pos ws).length) first ps.flatten) s'
        | .err e s' => e.abnormal = false ∧ ¬ Benign s0.inner.sched ∧ ∃ k, s'.inner.data =
            written s0.inner.data s0.inner.pos (layoutBytes s0.pos ws ++ (openBytes (s0.pos + (layoutBytes s0.pos ws).length) first ps.flatten).take k) := by
      intro d first ps hd hl
      have := dyn_any d ps hc (by unfold U64MAX; omega)
      rw [hd, hpos] at this
      cases hr2 : (writeBlobDynamicDesc d >>= fun _ => writePieces ps : M Err Stream Unit) s1 with
      | ok y s2 =>
        rw [hr2] at this
        obtain ⟨g1, g2, g3⟩ := this
        exact ⟨g2, g3, hp.trans h0 g1⟩
      | err e s2 =>
        rw [hr2] at this
        obtain ⟨g1, g2, k, g3⟩ := this
        refine ⟨g1, fun hb => g2 (hb.suffix hp.sched), k, ?_⟩
        rw [(hp.trans h0 g3).data, splice_written h0]
    cases w with
    | call c => exact plain (c.exec_out hw hc.ready) (fun k => .call c k)
    | padToAlign k =>
      have hk' : k ≤ 62 := hw
      have hp62 : 2 ^ k ≤ 2 ^ 62 := Nat.pow_le_pow_right (by omega) hk'
      have hml := missing_lt k s1.pos
      have hmd := missing_dvd k s1.pos
      refine plain (m := Fourleaf.padToAlign (2 ^ k)) ?_ (fun j => .padToAlign k j)
      show WOut s1 (List.replicate (missing k s1.pos) 0xC0) WReady _
      have he : Fourleaf.padToAlign (2 ^ k) s1 = padLoop (2 ^ k) (2 ^ k + 1) s1 := by
        unfold Fourleaf.padToAlign
        rw [M.bind_ok (commit_none hc.pend)]
      rw [he]
      refine (padLoop_any k (by omega) _ _ s1 hc ?_ (by omega) hml (Nat.mod_eq_zero_of_dvd hmd)).mono (fun s' _ c => c.ready)
      have : (writeBytes (s0.pos + (layoutBytes s0.pos ws).length) (.padToAlign k)).length = missing k s1.pos := by
        simp only [writeBytes, List.length_replicate, hpos]
      unfold U64MAX; omega
    | blobDynamic tag ps =>
      have := dyn (.pair .blob tag) (UInt8.ofNat (2 * 64 + tag.toNat)) ps (pairByte _ _ hw) (by simp only [writeBytes, List.length_append, List.length_cons, longInt_length])
      show match (writeBlobDynamicDesc (.pair .blob tag) >>= fun _ => writePieces ps : M Err Stream Unit) s1 with
        | .ok _ s' => _
        | .err e s' => _
      cases hr2 : (writeBlobDynamicDesc (.pair .blob tag) >>= fun _ => writePieces ps : M Err Stream Unit) s1 with
      | ok y s2 => rw [hr2] at this; exact .blob hw this.1 this.2.1 this.2.2
      | err e s2 =>
        rw [hr2] at this
        obtain ⟨g1, g2, k, g3⟩ := this
        exact ⟨g1, g2, ws, _, [], _, rfl, .blobOpen tag ps k, g3⟩
    | exceptionDynamic ps =>
      have := dyn (.special .exception) (2 * 64) ps rfl (by simp only [writeBytes, List.length_append, List.length_cons, longInt_length])
      show match (writeBlobDynamicDesc (.special .exception) >>= fun _ => writePieces ps : M Err Stream Unit) s1 with
        | .ok _ s' => _
        | .err e s' => _
      cases hr2 : (writeBlobDynamicDesc (.special .exception) >>= fun _ => writePieces ps : M Err Stream Unit) s1 with
      | ok y s2 => rw [hr2] at this; exact .exception this.1 this.2.1 this.2.2
      | err e s2 =>
        rw [hr2] at this
        obtain ⟨g1, g2, k, g3⟩ := this
        exact ⟨g1, g2, ws, _, [], _, rfl, .exceptionOpen ps k, g3⟩

theorem runs_rests : ∀ (todo done : List Write), (∀ w ∈ todo, WriteOk w) → ∀ s, Rests s0 done s → s0.pos + (layoutBytes s0.pos (done ++ todo)).length ≤ 2 ^ 62 →
    s0.inner.pos + (layoutBytes s0.pos (done ++ todo)).length ≤ 2 ^ 62 →
    match runWrites todo s with
    | .ok _ s' => WClean s' ∧ Put s0 (layoutBytes s0.pos (done ++ todo)) s'
    | .err e s' => e.abnormal = false ∧ ¬ Benign s0.inner.sched ∧ Broken s0 (done ++ todo) s' := by
  intro todo
  induction todo with
  | nil =>
    intro done _ s h hr ho
    rw [List.append_nil] at hr ho ⊢
    exact commit_rests h0 hk h hr ho
  | cons w todo ih =>
    intro done hw s h hr ho
    have hmono : (layoutBytes s0.pos (done ++ [w])).length ≤ (layoutBytes s0.pos (done ++ w :: todo)).length := by
      have : ∀ (a b : List Write) (p : Nat), (layoutBytes p a).length ≤ (layoutBytes p (a ++ b)).length := by
        intro a
        induction a with
        | nil => intro b p; simp [layoutBytes]
        | cons x a iha => intro b p; simp only [List.cons_append, layoutBytes, List.length_append]; have := iha b (p + (writeBytes p x).length); omega
      have := this (done ++ [w]) todo s0.pos
      rwa [List.append_assoc] at this
    have h1 := step_rests h0 hk w (hw w (by simp)) h (by omega) (by omega)
    unfold runWrites
    cases hx : w.exec s with
    | err e s1 =>
      rw [M.bind_err hx]
      rw [hx] at h1
      obtain ⟨g1, g2, dn, v, rest, Y, g3, g4, g5⟩ := h1
      exact ⟨g1, g2, dn, v, rest ++ todo, Y, by rw [show done ++ w :: todo = (done ++ [w]) ++ todo by simp, g3]; simp, g4, g5⟩
    | ok x s1 =>
      rw [M.bind_ok hx]
      rw [hx] at h1
      have := ih (done ++ [w]) (fun w' h' => hw w' (by simp [h'])) s1 h1 (by rw [List.append_assoc]; exact hr) (by rw [List.append_assoc]; exact ho)
      rw [List.append_assoc] at this
      exact this
end

/-- **C22** with every way of writing: any mixture of writing calls, filled blobs, dynamic blobs and `pad_to_align`, on a seekable sink that may take any number of bytes at a time,
interrupt, and fail at any point. Either all succeeds, and everything has been laid out; or the sink has failed, the error is no panic, and there is a first step `w` that is not
complete: the steps before it are laid out exactly as without a failure, `w` has left what `Torn` allows, and no byte before the first step, nor after what `w` has left, has changed. A reader gets the
elements of all the steps before `w` back. -/
theorem c22_mixed_crash (ws : List Write) (hws : ∀ w ∈ ws, WriteOk w) (s : Stream) (hs : Sink s) (hk : s.inner.seekable = true)
    (hroom : s.pos + (layoutBytes s.pos ws).length ≤ 2 ^ 62) (hoff : s.inner.pos + (layoutBytes s.pos ws).length ≤ 2 ^ 62) :
    (∃ s', runWrites ws s = .ok () s' ∧ s'.inner.data = written s.inner.data s.inner.pos (layoutBytes s.pos ws)) ∨
    (∃ e s', runWrites ws s = .err e s' ∧ e.abnormal = false ∧ ¬ Benign s.inner.sched ∧
      ∃ done w rest Y, ws = done ++ w :: rest ∧ Torn (s.pos + (layoutBytes s.pos done).length) w Y ∧
        s'.inner.data = written s.inner.data s.inner.pos (layoutBytes s.pos done ++ Y) ∧
        ∀ r : Stream, Over r (s'.inner.data.drop s.inner.pos) →
          ∃ r', readToks (layoutToks s.pos done).length r = .ok (layoutToks s.pos done) r') := by
  have hp0 : Put s (layoutBytes s.pos []) s := ⟨(splice_nil _ _ hs.within).symm, rfl, rfl, List.suffix_refl _, rfl⟩
  have h := runs_rests hs.within hk ws [] hws s (.ready hs.ready hp0) hroom hoff
  rw [List.nil_append] at h
  cases hr : runWrites ws s with
  | ok x s' =>
    rw [hr] at h
    exact .inl ⟨s', rfl, by rw [h.2.data, splice_written hs.within]⟩
  | err e s' =>
    rw [hr] at h
    obtain ⟨g1, g2, done, w, rest, Y, g3, g4, g5⟩ := h
    refine .inr ⟨e, s', rfl, g1, g2, done, w, rest, Y, g3, g4, g5, fun r hR => ?_⟩
    have hd : s'.inner.data.drop s.inner.pos = layoutBytes s.pos done ++ (Y ++ s.inner.data.drop (s.inner.pos + (layoutBytes s.pos done ++ Y).length)) := by
      have hw := hs.within
      rw [g5, written, List.append_assoc, List.drop_append, List.drop_of_length_le (by simp; omega)]
      simp [hw]
    rw [hd] at hR
    have hle : (layoutBytes s.pos done).length ≤ (layoutBytes s.pos ws).length := by
      have : ∀ (a b : List Write) (p : Nat), (layoutBytes p a).length ≤ (layoutBytes p (a ++ b)).length := by
        intro a
        induction a with
        | nil => intro b p; simp [layoutBytes]
        | cons x a iha => intro b p; simp only [List.cons_append, layoutBytes, List.length_append]; have := iha b (p + (writeBytes p x).length); omega
      rw [g3]; exact this _ _ _
    obtain ⟨r', h, -⟩ := c08_read_back r _ _ _ hR (layout_enc done (fun w' h' => hws w' (by rw [g3]; simp [h'])) s.pos (by omega))
    exact ⟨r', h⟩

/-- `c24Writes` on a sink that fails while the length of the first dynamic blob is being replaced: four of its ten bytes are new, the rest is the length of an open blob. -/
def crashSink : Stream := { Stream.new { data := [7, 8, 9, 10], pos := 3, sched := List.replicate 19 (.short 0) ++ [.short 1, .fail], seekable := true } with pos := 3 }

example : Sink crashSink ∧ crashSink.inner.seekable = true ∧ crashSink.pos + (layoutBytes crashSink.pos c24Writes).length ≤ 2 ^ 62 :=
  ⟨⟨.inl rfl, by decide⟩, rfl, by decide +kernel⟩

example : (runWrites c24Writes crashSink).state.inner.data = written [7, 8, 9, 10] 3 (layoutBytes 3 [.call (.u64 1 300)] ++
    (0x82 :: ((longInt 10 3).take 4 ++ (longInt 10 (openLen 6)).drop 4) ++ [1, 2, 3])) ∧
    (match runWrites c24Writes crashSink with | .ok _ _ => false | .err e _ => !e.abnormal) = true := by decide +kernel

example : (runWrites c24Writes crashSink).state.inner.data = [7, 8, 9, 0x41, 0xAC, 2, 0x82, 0x83, 0x80, 0x80, 0x80, 0xFF, 0xFF, 0xFF, 0xFF, 0xFF, 1, 1, 2, 3] := by decide +kernel

end Fourleaf.Props
