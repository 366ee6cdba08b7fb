import Verif.PropsSession

/-! # C60: where a blob handle is -/

namespace Fourleaf
open Spec Props

/-! ### The accessors of a handle (model) -/

/-- The panic of a subtraction of unsigned integers that underflows. -/
def subPanic : Err := .panic "attempt to subtract with overflow"

/-- Checked subtraction, as in a debug build. -/
def subU (a b : Nat) : M Err Stream Nat := if a < b then M.throw subPanic else pure (a - b)

/-- `Blob::len` (`src/stream.rs` 1106-1108). -/
def blobLen (len : Nat) : M Err Stream Nat := pure len
/-- `Blob::remaining` (`src/stream.rs` 1111-1113). -/
def blobRemainingPos : M Err Stream Nat := do let s ← M.get; subU s.blobEnd s.pos
/-- `Blob::stream_pos` (`src/stream.rs` 1116-1118). -/
def blobStreamPos : M Err Stream Nat := do let s ← M.get; pure s.pos
/-- `Blob::start_pos` (`src/stream.rs` 1132-1134). -/
def blobStartPos (len : Nat) : M Err Stream Nat := do let s ← M.get; subU s.blobEnd len
/-- `Blob::end_pos` (`src/stream.rs` 1137-1139). -/
def blobEndPos : M Err Stream Nat := do let s ← M.get; pure s.blobEnd
/-- `Blob::inner_pos` (`src/stream.rs` 1143-1145). -/
def blobInnerPos (len : Nat) : M Err Stream Nat := do let r ← blobRemainingPos; subU len r

/-- What a handle tells about itself. -/
structure Where where
  len : Nat
  remaining : Nat
  streamPos : Nat
  startPos : Nat
  endPos : Nat
  innerPos : Nat
  deriving Repr, DecidableEq

/-- All accessors, one after the other. -/
def blobWhere (len : Nat) : M Err Stream Where := do
  let l ← blobLen len
  let r ← blobRemainingPos
  let p ← blobStreamPos
  let a ← blobStartPos len
  let e ← blobEndPos
  let i ← blobInnerPos len
  pure ⟨l, r, p, a, e, i⟩

theorem subU_ok {a b : Nat} (h : b ≤ a) (s : Stream) : subU a b s = .ok (a - b) s := by
  unfold subU; rw [if_neg (by omega)]; rfl

theorem blobWhere_ok {len : Nat} {s : Stream} (h1 : s.pos ≤ s.blobEnd) (h2 : s.blobEnd ≤ s.pos + len) (h3 : len ≤ s.blobEnd) :
    blobWhere len s = .ok ⟨len, s.blobEnd - s.pos, s.pos, s.blobEnd - len, s.blobEnd, len - (s.blobEnd - s.pos)⟩ s := by
  have r : blobRemainingPos s = .ok (s.blobEnd - s.pos) s := subU_ok h1 s
  have a : blobStartPos len s = .ok (s.blobEnd - len) s := subU_ok h3 s
  have i : blobInnerPos len s = .ok (len - (s.blobEnd - s.pos)) s := by
    unfold blobInnerPos; rw [M.bind_ok r]; exact subU_ok (by omega) s
  unfold blobWhere
  rw [M.bind_ok (show blobLen len s = .ok len s from rfl), M.bind_ok r, M.bind_ok (show blobStreamPos s = .ok s.pos s from rfl), M.bind_ok a,
    M.bind_ok (show blobEndPos s = .ok s.blobEnd s from rfl), M.bind_ok i]
  rfl

namespace Props

/-- By how much a successful operation other than `seek` moves the position: by the bytes read or written; a slice does not move it, and
of a buffer only what is consumed counts. -/
def moves : BlobOp → BlobRes → Nat
  | .read _, .bytes b => b.length
  | .readFully _, .bytes b => b.length
  | .readOrTrunc _, .bytes b => b.length
  | .write _, .num n => n
  | .bufRead f, .bytes b => min (f b) b.length
  | _, _ => 0

theorem drain_moves {s : Stream} {n : Nat} {b : List Byte} {s' : Stream} (hn : n ≤ blobRemaining s) (hE : s.blobEnd ≤ U64MAX)
    (h : drain blobRead n s = .ok b s') : s'.pos = s.pos + b.length ∧ s'.blobEnd = s.blobEnd := by
  obtain ⟨k, sc, a1, a2, a3, a4⟩ := drain_blob_spec n s hn hE
  rcases a4 with ⟨a4, a5⟩ | ⟨a4, a5⟩
  · rw [a5] at h; injection h with h1 h2; subst h1 h2
    refine ⟨?_, rfl⟩
    simp
    omega
  · rw [a5] at h; cases h

theorem exec_moves {len : Nat} {s : Stream} (hE : s.blobEnd ≤ U64MAX) (o : BlobOp) (ho : ∀ w, o ≠ .seek w) {r : BlobRes} {s' : Stream}
    (h : o.exec len s = .ok r s') : s'.pos = s.pos + moves o r ∧ s'.blobEnd = s.blobEnd := by
  have bytes : ∀ {m : M Err Stream (List Byte)}, ((do let b ← m; pure (.bytes b)) : M Err Stream BlobRes) s = .ok r s' →
      ∃ b, r = .bytes b ∧ m s = .ok b s' := by
    intro m h
    cases hm : m s with
    | ok b s1 => rw [M.bind_ok hm] at h; injection h with h1 h2; exact ⟨b, h1.symm, by rw [← h2]⟩
    | err e s1 => rw [M.bind_err hm] at h; cases h
  cases o with
  | seek w => exact absurd rfl (ho w)
  | remaining => injection h with h1 h2; subst h1 h2; exact ⟨rfl, rfl⟩
  | read want =>
    obtain ⟨b, rfl, hb⟩ := bytes h
    unfold blobRead at hb
    simp only at hb
    split at hb
    · injection hb with h1 h2; subst h1 h2; exact ⟨rfl, rfl⟩
    · rcases Nat.eq_zero_or_pos (min want (blobRemaining s)) with hz | hz
      · rw [hz] at hb; unfold trackRead at hb; rw [if_pos rfl] at hb; injection hb with h1 h2; subst h1 h2; exact ⟨rfl, rfl⟩
      · rcases trackRead_spec false _ hz s with ⟨h1, h2⟩ | ⟨h1, h2⟩
        · rw [h2] at hb; cases hb
        · rcases h2 with ⟨k, sc, h2, h3, h4, h5, h6, -, -⟩ | ⟨sc, h2, h3, h4⟩ | ⟨sc, h2, h3, h4⟩ | ⟨sc, h2, h3, h4⟩
          · rw [h2] at hb; injection hb with h1 h2; subst h1 h2
            refine ⟨?_, rfl⟩
            simp only [moves, advBy_pos, List.length_take]; omega
          · rw [h4] at hb; simp at hb; obtain ⟨h1, h2⟩ := hb; subst h1 h2; exact ⟨rfl, rfl⟩
          · rw [h2] at hb; cases hb
          · rw [h2] at hb; cases hb
  | readFully max =>
    obtain ⟨b, rfl, hb⟩ := bytes h
    unfold Fourleaf.readFully at hb
    split at hb
    · cases hb
    · exact drain_moves (Nat.le_refl _) hE hb
  | readOrTrunc max =>
    obtain ⟨b, rfl, hb⟩ := bytes h
    exact drain_moves (Nat.min_le_right _ _) hE hb
  | slice =>
    obtain ⟨b, rfl, hb⟩ := bytes h
    unfold blobSlice at hb
    cases hi : innerSlice s with
    | err e s1 => rw [M.bind_err hi] at hb; cases hb
    | ok d s1 =>
      have : s1 = s := by
        unfold innerSlice at hi
        split at hi
        · cases hi
        · injection hi with _ h2; exact h2.symm
      subst this
      rw [M.bind_ok hi, M.bind_ok (show M.get s1 = .ok s1 s1 from rfl), M.ite_apply] at hb
      split at hb
      · injection hb with _ h2; subst h2; exact ⟨rfl, rfl⟩
      · cases hb
  | sliceMut f =>
    obtain ⟨b, rfl, hb⟩ := bytes h
    unfold blobSliceMut blobSlice at hb
    cases hi : innerSlice s with
    | err e s1 => rw [M.bind_err (M.bind_err hi)] at hb; cases hb
    | ok d s1 =>
      have : s1 = s := by
        unfold innerSlice at hi
        split at hi
        · cases hi
        · injection hi with _ h2; exact h2.symm
      subst this
      by_cases hle : blobRemaining s1 ≤ d.length
      · have e : (do let buf ← innerSlice; let s ← M.get
                     if blobRemaining s ≤ buf.length then pure (buf.take (blobRemaining s))
                     else M.throw (.truncatedBlob (blobRemaining s - buf.length)) : M Err Stream (List Byte)) s1
            = .ok (d.take (blobRemaining s1)) s1 := by
          rw [M.bind_ok hi, M.bind_ok (show M.get s1 = .ok s1 s1 from rfl), M.ite_apply, if_pos hle]; rfl
        rw [M.bind_ok e] at hb
        injection hb with _ h2; subst h2; exact ⟨rfl, rfl⟩
      · have e : (do let buf ← innerSlice; let s ← M.get
                     if blobRemaining s ≤ buf.length then pure (buf.take (blobRemaining s))
                     else M.throw (.truncatedBlob (blobRemaining s - buf.length)) : M Err Stream (List Byte)) s1
            = .err (.truncatedBlob (blobRemaining s1 - d.length)) s1 := by
          rw [M.bind_ok hi, M.bind_ok (show M.get s1 = .ok s1 s1 from rfl), M.ite_apply, if_neg hle]; rfl
        rw [M.bind_err e] at hb
        cases hb
  | write buf =>
    have : ∃ n, r = .num n ∧ blobWrite buf s = .ok n s' := by
      cases hm : blobWrite buf s with
      | ok n s1 =>
        have h' : BlobOp.exec len (.write buf) s = .ok (.num n) s1 := by show (do let n ← _; pure (BlobRes.num n) : M Err Stream BlobRes) _ = _; rw [M.bind_ok hm]; rfl
        rw [h'] at h; injection h with h1 h2; exact ⟨n, h1.symm, by rw [← h2]⟩
      | err e s1 =>
        have h' : BlobOp.exec len (.write buf) s = .err e s1 := by show (do let n ← _; pure (BlobRes.num n) : M Err Stream BlobRes) _ = _; rw [M.bind_err hm]
        rw [h'] at h; cases h
    obtain ⟨n, rfl, hb⟩ := this
    unfold blobWrite at hb
    by_cases he : buf.take (blobRemaining s) = []
    · rw [he] at hb; unfold trackWrite at hb; rw [if_pos rfl] at hb; injection hb with h1 h2; subst h1 h2; exact ⟨rfl, rfl⟩
    · rcases trackWrite_cases _ he s with ⟨-, h2⟩ | ⟨k, sc, h1, h2, -, -, -, h6⟩ | ⟨sc, -, -, h2⟩ | ⟨sc, -, -, h2 | h2⟩
      · rw [h2] at hb; cases hb
      · rw [h6] at hb; injection hb with h1 h2; subst h1 h2
        refine ⟨?_, rfl⟩
        simp only [moves, advW, List.length_take] at *; omega
      · rw [h2] at hb; cases hb
      · rw [h2] at hb; cases hb
      · rw [h2] at hb; injection hb with h1 h2; subst h1 h2; exact ⟨rfl, rfl⟩
  | bufRead f =>
    obtain ⟨b, rfl, hb⟩ := bytes h
    unfold blobBufRead at hb
    have key : ∀ d s1, blobFillBuf s = .ok d s1 → s1.pos = s.pos ∧ s1.blobEnd = s.blobEnd := by
      intro d s1 hf
      unfold blobFillBuf at hf
      cases hn : fillBufNb s with
      | err e s2 => rw [M.bind_err hn] at hf; cases hf
      | ok d2 s2 =>
        rw [M.bind_ok hn] at hf
        injection hf with _ h2
        subst h2
        unfold fillBufNb at hn
        split at hn
        · cases hn
        · rename_i dd ii hii
          unfold checkAdvance at hn
          rw [M.bind_apply] at hn
          dsimp only at hn
          split at hn
          · rename_i a b c
            split at c
            · cases c
            · injection c with _ c2; subst c2; injection hn with _ n2; subst n2; exact ⟨rfl, rfl⟩
          · cases hn
    cases hf : blobFillBuf s with
    | err e s1 => rw [M.bind_err hf] at hb; cases hb
    | ok d s1 =>
      rw [M.bind_ok hf] at hb
      obtain ⟨k1, k2⟩ := key d s1 hf
      injection hb with h1 h2
      subst h1 h2
      exact ⟨by simp only [moves]; rw [← k1], k2⟩

/-- **C60** In any session: the accessors of the handle a client holds never panic and do no I/O, and what they say fits together: the
blob is `len` bytes long from `start_pos` to `end_pos`, `inner_pos` of them have been consumed and `remaining` have not. -/
theorem c60_accessors (i : Inner) (useSeek : Bool) (cs : List SCall) (h : Handle)
    (hh : (Session.run cs (Session.start i useSeek)).handle = some h) :
    let s := (Session.run cs (Session.start i useSeek)).stream
    ∃ w, blobWhere h.len s = .ok w s ∧
      w.len = h.len ∧ w.streamPos = s.pos ∧
      w.startPos + w.len = w.endPos ∧ w.innerPos + w.remaining = w.len ∧ w.startPos + w.innerPos = w.streamPos ∧ w.endPos ≤ U64MAX := by
  intro s
  obtain ⟨-, h2⟩ := c55_bounds i useSeek cs
  obtain ⟨a1, a2, a3, a4⟩ := h2 h hh
  have a5 : s.blobEnd - h.len ≤ s.pos := a2
  have a6 : h.len ≤ s.blobEnd := a1
  have a7 : s.pos ≤ s.blobEnd := a3
  refine ⟨_, blobWhere_ok a3 (by omega) a1, rfl, rfl, ?_, ?_, ?_, a4⟩
  · show s.blobEnd - h.len + h.len = s.blobEnd; have : h.len ≤ s.blobEnd := a1; omega
  · show h.len - (s.blobEnd - s.pos) + (s.blobEnd - s.pos) = h.len
    have : s.blobEnd - h.len ≤ s.pos := a2; have : h.len ≤ s.blobEnd := a1; have : s.pos ≤ s.blobEnd := a3; omega
  · show s.blobEnd - h.len + (h.len - (s.blobEnd - s.pos)) = s.pos
    have : s.blobEnd - h.len ≤ s.pos := a2; have : h.len ≤ s.blobEnd := a1; have : s.pos ≤ s.blobEnd := a3; omega

/-- **C60** From the time a handle is handed out, whatever is done with it: `len`, `start_pos` and `end_pos` keep saying where the blob is. -/
theorem c60_fixed (len : Nat) (s0 : Stream) (h0 : Handed len s0) (ops : List BlobOp) :
    let s := runBlobOps len ops s0
    ∃ w, blobWhere len s = .ok w s ∧ w.len = len ∧ w.startPos = s0.pos ∧ w.endPos = s0.pos + len ∧
      s0.pos + w.innerPos = s.pos ∧ w.streamPos = s.pos ∧ w.innerPos + w.remaining = len ∧ s0.inner.pos + w.innerPos = s.inner.pos := by
  intro s
  have hc : Confined len s0 s := runBlobOps_confined h0.span h0.fits h0.within ops s0 (.refl h0.span)
  have h1 := hc.blobEnd
  have h2 := hc.low
  have h3 := hc.high
  have h4 := hc.off
  have h5 := h0.span
  refine ⟨_, blobWhere_ok (by omega) (by omega) (by omega), rfl, ?_, ?_, ?_, rfl, ?_, ?_⟩ <;> dsimp only <;> omega

/-- **C60** What an operation does to `inner_pos` (nothing to `len`, `start_pos`, `end_pos`): reading and writing move it by exactly the number of bytes returned or reported
as written, `consume` by what is consumed, slices not at all; after `seek` it is what `seek` returned. -/
theorem c60_moves (len : Nat) (s0 : Stream) (h0 : Handed len s0) (ops : List BlobOp) (o : BlobOp) (r : BlobRes) (s' : Stream)
    (h : o.exec len (runBlobOps len ops s0) = .ok r s') :
    ∃ w w', blobWhere len (runBlobOps len ops s0) = .ok w (runBlobOps len ops s0) ∧ blobWhere len s' = .ok w' s' ∧
      w'.len = w.len ∧ w'.startPos = w.startPos ∧ w'.endPos = w.endPos ∧
      (match o, r with
       | .seek _, .num n => w'.innerPos = n
       | .seek _, .bytes _ => False
       | o, r => w'.innerPos = w.innerPos + moves o r) ∧
      (o = .remaining → r = .num w.remaining) := by
  obtain ⟨w, a1, a2, a3, a4, a5, a6, a7, -⟩ := c60_fixed len s0 h0 ops
  have hs' : s' = runBlobOps len (ops ++ [o]) s0 := by
    have : ∀ (ops : List BlobOp) (s : Stream), runBlobOps len (ops ++ [o]) s = (o.exec len (runBlobOps len ops s)).state := by
      intro ops
      induction ops with
      | nil => intro s; rfl
      | cons p ps ih => intro s; exact ih _
    rw [this, h]; rfl
  obtain ⟨w', b1, b2, b3, b4, b5, b6, b7, -⟩ := c60_fixed len s0 h0 (ops ++ [o])
  rw [← hs'] at b1 b5 b6
  refine ⟨w, w', a1, b1, by rw [a2, b2], by rw [a3, b3], by rw [a4, b4], ?_, ?_⟩
  · have hE : (runBlobOps len ops s0).blobEnd ≤ U64MAX := by
      have hc := (runBlobOps_confined h0.span h0.fits h0.within ops s0 (.refl h0.span)).blobEnd
      rw [hc]; exact h0.fits
    by_cases hsk : ∃ p, o = .seek p
    · obtain ⟨p, rfl⟩ := hsk
      cases hm : blobSeek len p (runBlobOps len ops s0) with
      | ok n s1 =>
        have h' : BlobOp.exec len (.seek p) (runBlobOps len ops s0) = .ok (.num n) s1 := by show (do let n ← _; pure (BlobRes.num n) : M Err Stream BlobRes) _ = _; rw [M.bind_ok hm]; rfl
        rw [h'] at h; injection h with h1 h2; subst h1 h2
        have := (c18_blob_confined len s0 h0 ops).2.2.2.2.2.2.2.2 p n s1 hm
        dsimp only
        omega
      | err e s1 =>
        have h' : BlobOp.exec len (.seek p) (runBlobOps len ops s0) = .err e s1 := by show (do let n ← _; pure (BlobRes.num n) : M Err Stream BlobRes) _ = _; rw [M.bind_err hm]
        rw [h'] at h; cases h
    · obtain ⟨m1, -⟩ := exec_moves hE o (fun w hw => hsk ⟨w, hw⟩) h
      have goal : w'.innerPos = w.innerPos + moves o r := by omega
      cases o with
      | seek p => exact absurd ⟨p, rfl⟩ hsk
      | _ => exact goal
  · rintro rfl
    injection h with h1 h2
    rw [← h1]
    have := a1
    rw [blobWhere_ok] at this
    · injection this with this _; rw [← this]; rfl
    all_goals
      have hc := runBlobOps_confined h0.span h0.fits h0.within ops s0 (.refl h0.span)
      have h1 := hc.blobEnd
      have h2 := hc.low
      have h3 := hc.high
      have h5 := h0.span
      omega

/-- The values asserted in the test `read_partial_blob` (`src/stream.rs` 1586-1624). -/
example : blobWhere 3 (runBlobOps 3 [.readOrTrunc 1, .seek (.start 2), .seek (.start 9)] c18Start) =
    .ok ⟨3, 1, 4, 2, 5, 2⟩ (runBlobOps 3 [.readOrTrunc 1, .seek (.start 2), .seek (.start 9)] c18Start) := by decide +kernel
/-- A handle in a session. -/
example : (Session.run c55History (Session.start c55Inner true)).handle = some ⟨3, false⟩ ∧
    (match blobWhere 3 (Session.run c55History (Session.start c55Inner true)).stream with
      | .ok w _ => decide (w = ⟨3, 0, 7, 4, 7, 3⟩) | _ => false) = true := by decide +kernel

end Props
end Fourleaf
