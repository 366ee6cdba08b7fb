import Verif.AbsLemmas

/-! # Operations on a blob handle -/

namespace Fourleaf
open Spec

/-- What a client can do with a `Blob` handle (`src/stream.rs` 1104-1364). `sliceMut f` is `slice_mut` (1229-1238) followed by
the client overwriting the slice with `f` of its content (cut to the length of the slice; positions beyond
the end of `f`'s result keep their value). -/
inductive BlobOp where
  | read (want : Nat)
  | readFully (max : Nat)
  | readOrTrunc (max : Nat)
  | slice
  | sliceMut (f : List Byte → List Byte)
  | remaining
  | seek (w : SeekFrom)
  | write (buf : List Byte)
  /-- `fill_buf`, and then `consume` of as many of the bytes as the client likes -/
  | bufRead (f : List Byte → Nat)

/-- What a blob operation returns. -/
inductive BlobRes where
  | bytes (b : List Byte)
  | num (n : Nat)
  deriving Repr, DecidableEq

/-- Assignment through a slice of existing data. -/
def overwrite (data : List Byte) (pos : Nat) (new : List Byte) : List Byte :=
  data.take pos ++ new ++ data.drop (pos + new.length)

/-- `slice_mut` (`src/stream.rs` 1229-1238) and the client's change of the slice. -/
def blobSliceMut (f : List Byte → List Byte) : M Err Stream (List Byte) := do
  let buf ← blobSlice
  let s ← M.get
  let new := (f buf).take buf.length
  M.modify fun s => { s with inner := { s.inner with data := overwrite s.inner.data s.inner.pos new } }
  pure (s.inner.rest.take buf.length)

/-- `fill_buf` (`src/stream.rs` 1281-1286) and `consume` (1287-1290); the contract of `BufRead` allows a client to consume at most what it was given. -/
def blobBufRead (f : List Byte → Nat) : M Err Stream (List Byte) := do
  let b ← blobFillBuf
  blobConsume (min (f b) b.length)
  pure b

/-- Execution on the handle of a blob of length `len` (the field `Blob::len`). -/
def BlobOp.exec (len : Nat) : BlobOp → M Err Stream BlobRes
  | .read want => do let b ← blobRead want; pure (.bytes b)
  | .readFully max => do let b ← Fourleaf.readFully max; pure (.bytes b)
  | .readOrTrunc max => do let b ← Fourleaf.readOrTrunc max; pure (.bytes b)
  | .slice => do let b ← blobSlice; pure (.bytes b)
  | .sliceMut f => do let b ← blobSliceMut f; pure (.bytes b)
  | .remaining => fun s => .ok (.num (blobRemaining s)) s
  | .seek w => do let n ← blobSeek len w; pure (.num n)
  | .write buf => do let n ← blobWrite buf; pure (.num n)
  | .bufRead f => do let b ← blobBufRead f; pure (.bytes b)

/-- A sequence of operations; the client goes on after errors. -/
def runBlobOps (len : Nat) : List BlobOp → Stream → Stream
  | [], s => s
  | o :: os, s => runBlobOps len os (o.exec len s).state

/-- Operations that do not change the data. -/
def BlobOp.reads : BlobOp → Prop
  | .write _ | .sliceMut _ => False
  | _ => True

instance (o : BlobOp) : Decidable o.reads := by cases o <;> unfold BlobOp.reads <;> infer_instance

/-! ### Confinement -/

/-- `s` differs from `s0`, where a handle of a blob of length `len` was handed out, only within the blob. -/
structure Confined (len : Nat) (s0 s : Stream) : Prop where
  blobEnd : s.blobEnd = s0.blobEnd
  low : s0.pos ≤ s.pos
  high : s.pos ≤ s0.blobEnd
  off : s.inner.pos + s0.pos = s0.inner.pos + s.pos
  outside : ∀ i, i < s0.inner.pos ∨ s0.inner.pos + len ≤ i → s.inner.data[i]? = s0.inner.data[i]?
  grow : s0.inner.data.length ≤ s.inner.data.length

/-- The bytes a blob operation returns are bytes of the input between the current position and the end of the blob. -/
def BytesOk (s : Stream) : BlobRes → Prop
  | .bytes b => b = s.rest.take b.length ∧ s.pos + b.length ≤ s.blobEnd
  | .num _ => True

theorem splice_get (data : List Byte) (pos : Nat) (chunk : List Byte) (lo : Nat) (hi : Nat) (h1 : lo ≤ pos)
    (h2 : pos + chunk.length ≤ hi) (h3 : lo ≤ data.length) (i : Nat) (h : i < lo ∨ hi ≤ i) :
    (splice data pos chunk)[i]? = data[i]? := by
  unfold splice
  rcases h with h | h
  · rw [List.append_assoc, List.append_assoc, List.getElem?_append_left (by simp; omega), List.getElem?_take, if_pos (by omega)]
  · rw [List.getElem?_append_right (by simp; omega)]
    simp only [List.length_append, List.length_take, List.length_replicate, List.getElem?_drop]
    by_cases hp : pos ≤ data.length
    · congr 1; omega
    · rw [List.getElem?_eq_none (by omega), List.getElem?_eq_none (by omega)]

theorem splice_length (data : List Byte) (pos : Nat) (chunk : List Byte) :
    data.length ≤ (splice data pos chunk).length := by
  unfold splice; simp; omega

theorem drainBlob_confined {len : Nat} {s0 s : Stream} (n : Nat) (h : Confined len s0 s)
    (hE : s0.blobEnd ≤ U64MAX) (hn : n ≤ blobRemaining s) :
    Confined len s0 (drain blobRead n s).state ∧
    (∀ d s', drain blobRead n s = .ok d s' → d = s.rest.take d.length ∧ s.pos + d.length ≤ s.blobEnd) := by
  obtain ⟨k, sc, a1, a2, a3, a4⟩ := drain_blob_spec n s hn (by rw [h.blobEnd]; exact hE)
  have hh := h.high
  have hb := h.blobEnd
  have ho := h.off
  have hl := h.low
  unfold blobRemaining at hn
  have hc : Confined len s0 (advBy s k sc) :=
    ⟨hb, by simp; omega, by simp; omega, by simp; omega, h.outside, h.grow⟩
  rcases a4 with ⟨a4, a5⟩ | ⟨a4, a5⟩
  · rw [a5]
    refine ⟨hc, fun d s' h' => ?_⟩
    cases h'
    simp only [List.nil_append, List.length_take]
    refine ⟨?_, by omega⟩
    rw [Nat.min_eq_left (by omega)]
  · rw [a5]; exact ⟨hc, fun d s' h' => by cases h'⟩

theorem blobRead_confined {len : Nat} {s0 s : Stream} (n : Nat) (h : Confined len s0 s) (hE : s0.blobEnd ≤ U64MAX) :
    Confined len s0 (blobRead n s).state ∧
    (∀ d s', blobRead n s = .ok d s' → d = s.rest.take d.length ∧ s.pos + d.length ≤ s.blobEnd) := by
  have hh := h.high
  have hb := h.blobEnd
  have ho := h.off
  have hl := h.low
  have hc : ∀ k sc, k ≤ blobRemaining s → Confined len s0 (advBy s k sc) := fun k sc hk => by
    unfold blobRemaining at hk
    exact ⟨hb, by simp; omega, by simp; omega, by simp; omega, h.outside, h.grow⟩
  have hnil : ([] : List Byte) = s.rest.take ([] : List Byte).length ∧ s.pos + ([] : List Byte).length ≤ s.blobEnd :=
    ⟨rfl, by simp; omega⟩
  unfold blobRead
  simp only
  split
  · exact ⟨h, fun d s' h' => by cases h'; exact hnil⟩
  · rename_i hr
    rcases Nat.eq_zero_or_pos (min n (blobRemaining s)) with hz | hz
    · rw [hz]; unfold trackRead; rw [if_pos rfl]
      exact ⟨h, fun d s' h' => by cases h'; exact hnil⟩
    · rcases trackRead_spec false _ hz s with ⟨h1, h2⟩ | ⟨h1, h2⟩
      · rw [h2]; exact ⟨h, fun d s' h' => by cases h'⟩
      · rcases h2 with ⟨k, sc, h2, h3, h4, h5, h6, -, -⟩ | ⟨sc, h2, h3, h4⟩ | ⟨sc, h2, h3, h4⟩ | ⟨sc, h2, h3, h4⟩
        · rw [h2]
          refine ⟨hc k sc (by omega), fun d s' h' => ?_⟩
          cases h'
          have : k ≤ blobRemaining s := by omega
          unfold blobRemaining at this
          simp only [List.length_take]
          refine ⟨by rw [Nat.min_eq_left h5], by omega⟩
        · rw [h4]; exact ⟨hc 0 sc (by omega), fun d s' h' => by simp at h'; obtain ⟨rfl, rfl⟩ := h'; exact hnil⟩
        · rw [h2]; exact ⟨hc 0 sc (by omega), fun d s' h' => by cases h'⟩
        · rw [h2]; exact ⟨hc 0 sc (by omega), fun d s' h' => by cases h'⟩

/-- Where a seek may go, and that it fails without moving otherwise. -/
theorem blobSeekTarget_in {len : Nat} {s0 s : Stream} {w : SeekFrom} {p : Nat} (h : Confined len s0 s)
    (hl : s0.pos + len = s0.blobEnd) (hp : blobSeekTarget len w s = some p) :
    s0.pos ≤ p ∧ p ≤ s0.blobEnd := by
  have h1 := h.blobEnd
  have h2 := h.low
  have h3 := h.high
  unfold blobSeekTarget blobRemaining at hp
  cases w with
  | start n => simp only at hp; split at hp <;> simp at hp; omega
  | fromEnd off => simp only at hp; split at hp <;> (try split at hp) <;> simp at hp; omega
  | current off =>
    simp only at hp
    split at hp <;> split at hp <;> simp at hp <;> omega

theorem inner_seek_cases (i : Inner) (off : Int) :
    (0 ≤ (i.pos : Int) + off ∧ i.seek (.current off) = .ok ((i.pos : Int) + off).toNat { i with pos := ((i.pos : Int) + off).toNat }) ∨
    (∃ e sc, (sc = i.sched ∨ i.sched.head? = some .noSeek ∧ sc = i.sched.tail) ∧ i.seek (.current off) = .err e { i with sched := sc }) := by
  unfold Inner.seek
  by_cases hs : i.seekable = true
  · rw [if_pos hs]
    by_cases hn : i.sched.head? = some .noSeek
    · rw [if_pos hn]; exact .inr ⟨_, _, .inr ⟨hn, rfl⟩, rfl⟩
    rw [if_neg hn]
    by_cases hb : 0 ≤ (i.pos : Int) + off ∧ (i.pos : Int) + off ≤ U64MAX
    · refine .inl ⟨hb.1, ?_⟩
      show (if 0 ≤ (i.pos : Int) + off ∧ (i.pos : Int) + off ≤ U64MAX then _ else _) = _
      rw [if_pos hb]; rfl
    · refine .inr ⟨.io .invalidInput, i.sched, .inl rfl, ?_⟩
      show (if 0 ≤ (i.pos : Int) + off ∧ (i.pos : Int) + off ≤ U64MAX then _ else _) = _
      rw [if_neg hb]
  · rw [if_neg hs]; exact .inr ⟨_, _, .inl rfl, rfl⟩

theorem slip_suffix {sc sc' : List Ev} (h : sc' = sc ∨ sc.head? = some .noSeek ∧ sc' = sc.tail) : sc' <:+ sc := by
  rcases h with rfl | ⟨-, rfl⟩
  · exact List.suffix_refl _
  · exact List.tail_suffix _

theorem blobSeek_confined {len : Nat} {s0 s : Stream} (w : SeekFrom) (h : Confined len s0 s)
    (hl : s0.pos + len = s0.blobEnd) :
    Confined len s0 (blobSeek len w s).state ∧
    (∀ e s', blobSeek len w s = .err e s' → s' = { s with inner := { s.inner with sched := s'.inner.sched } }) ∧
    (∀ n s', blobSeek len w s = .ok n s' → n ≤ len ∧ s'.pos = s0.pos + n) := by
  have h1 := h.blobEnd
  have h2 := h.low
  have h3 := h.high
  have h4 := h.off
  unfold blobSeek
  cases ht : blobSeekTarget len w s with
  | none => exact ⟨h, fun e s' h' => (by cases h'; rfl), fun n s' h' => by cases h'⟩
  | some p =>
    obtain ⟨p1, p2⟩ := blobSeekTarget_in h hl ht
    simp only
    have key : ∀ (off : Int) (q : Nat), s.pos + off = p → q = p →
        Confined len s0 ((do
          let _ ← innerSeek (.current off)
          M.modify fun s => { s with pos := q }
          let s ← M.get
          pure (len - blobRemaining s) : M Err Stream Nat) s).state ∧
        (∀ e s', (do
          let _ ← innerSeek (.current off)
          M.modify fun s => { s with pos := q }
          let s ← M.get
          pure (len - blobRemaining s) : M Err Stream Nat) s = .err e s' → s' = { s with inner := { s.inner with sched := s'.inner.sched } }) ∧
        (∀ n s', (do
          let _ ← innerSeek (.current off)
          M.modify fun s => { s with pos := q }
          let s ← M.get
          pure (len - blobRemaining s) : M Err Stream Nat) s = .ok n s' → n ≤ len ∧ s'.pos = s0.pos + n) := by
      intro off q ho hq
      subst hq
      unfold innerSeek
      rw [M.bind_apply]
      rcases inner_seek_cases s.inner off with ⟨hb, hi⟩ | ⟨e, sc, -, hi⟩
      · rw [hi]
        · simp only [M.bind_apply, M.modify_apply, M.get_apply, M.pure_apply]
          refine ⟨⟨h1, p1, p2, ?_, h.outside, h.grow⟩, fun e s' h' => (by cases h'), fun n s' h' => ?_⟩
          · simp; omega
          · simp only [Res.ok.injEq] at h'
            obtain ⟨rfl, rfl⟩ := h'
            simp [blobRemaining]; omega
      · rw [hi]
        exact ⟨⟨h1, h2, h3, h4, h.outside, h.grow⟩, fun e s' h' => (by cases h'; rfl), fun n s' h' => by cases h'⟩
    split
    · rename_i hlt
      split
      · exact ⟨h, fun e s' h' => (by cases h'; rfl), fun n s' h' => by cases h'⟩
      · have := key (-((s.pos - p : Nat) : Int)) (s.pos - (s.pos - p)) (by omega) (by omega)
        simp only [M.bind_apply, M.modify_apply, M.get_apply, M.pure_apply] at this ⊢
        unfold innerSeek at this ⊢
        cases hi : s.inner.seek (.current (-((s.pos - p : Nat) : Int))) with
        | ok n i => rw [hi] at this; exact this
        | err e i => rw [hi] at this; exact this
    · rename_i hlt
      split
      · exact ⟨h, fun e s' h' => (by cases h'; rfl), fun n s' h' => by cases h'⟩
      · have := key (((p - s.pos : Nat) : Int)) (s.pos + (p - s.pos)) (by omega) (by omega)
        simp only [M.bind_apply, M.modify_apply, M.get_apply, M.pure_apply] at this ⊢
        unfold innerSeek at this ⊢
        cases hi : s.inner.seek (.current (((p - s.pos : Nat) : Int))) with
        | ok n i => rw [hi] at this; exact this
        | err e i => rw [hi] at this; exact this

theorem inner_write_cases (i : Inner) (buf : List Byte) :
    (∃ k sc, k ≤ buf.length ∧ i.write buf = .ok k { i with data := splice i.data i.pos (buf.take k), pos := i.pos + k, sched := sc }) ∨
    (∃ sc, i.write buf = .ok 0 { i with sched := sc }) ∨
    (∃ e sc, i.write buf = .err e { i with sched := sc }) := by
  unfold Inner.write
  split
  · rename_i h
    refine .inl ⟨buf.length, [], Nat.le_refl _, ?_⟩
    rw [List.take_of_length_le (Nat.le_refl _)]
    simp [h]
  · rename_i k sc h
    refine .inl ⟨min (k + 1) buf.length, sc, Nat.min_le_right _ _, ?_⟩
    have : buf.take (min (k + 1) buf.length) = buf.take (k + 1) := by simp [List.take_eq_take_iff]
    simp [this]
  · rename_i sc h; exact .inr (.inr ⟨_, sc, rfl⟩)
  · rename_i sc h; exact .inr (.inl ⟨sc, rfl⟩)
  · rename_i sc _ _ _ h; exact .inr (.inr ⟨_, sc, rfl⟩)

theorem blobWrite_confined {len : Nat} {s0 s : Stream} (buf : List Byte) (h : Confined len s0 s)
    (hl : s0.pos + len = s0.blobEnd) (hw : s0.inner.pos ≤ s0.inner.data.length) :
    Confined len s0 (blobWrite buf s).state := by
  have h1 := h.blobEnd
  have h2 := h.low
  have h3 := h.high
  have h4 := h.off
  have hg := h.grow
  unfold blobWrite trackWrite
  split
  · exact h
  · split
    · exact h
    · rcases inner_write_cases s.inner (buf.take (blobRemaining s)) with ⟨k, sc, hk, hwr⟩ | ⟨sc, hwr⟩ | ⟨e, sc, hwr⟩
      · rw [hwr]
        have hk' : k ≤ blobRemaining s := by simp at hk; omega
        unfold blobRemaining at hk'
        refine ⟨h1, by simp; omega, by simp; omega, by simp; omega, fun i hi => ?_, ?_⟩
        · show (splice s.inner.data s.inner.pos _)[i]? = _
          rw [splice_get _ _ _ s0.inner.pos (s0.inner.pos + len) (by omega) (by simp; omega) (by omega) i hi]
          exact h.outside i hi
        · exact Nat.le_trans hg (splice_length _ _ _)
      · rw [hwr]
        exact ⟨h1, h2, h3, h4, h.outside, h.grow⟩
      · rw [hwr]
        exact ⟨h1, h2, h3, h4, h.outside, h.grow⟩

theorem blobSlice_cases (s : Stream) :
    (blobRemaining s ≤ s.rest.length ∧ s.inner.pos ≤ s.inner.data.length ∧ blobSlice s = .ok (s.rest.take (blobRemaining s)) s) ∨
    (∃ e, blobSlice s = .err e s) := by
  unfold blobSlice innerSlice
  rw [M.bind_apply]
  by_cases h : s.inner.pos > s.inner.data.length
  · rw [if_pos h]; exact .inr ⟨_, rfl⟩
  · rw [if_neg h]
    simp only
    rw [M.bind_ok (M.get_apply s), M.ite_apply]
    by_cases h2 : blobRemaining s ≤ s.inner.rest.length
    · rw [if_pos h2]; exact .inl ⟨h2, by omega, rfl⟩
    · rw [if_neg h2]; exact .inr ⟨_, rfl⟩

theorem blobSliceMut_confined {len : Nat} {s0 s : Stream} (f : List Byte → List Byte) (h : Confined len s0 s)
    (hl : s0.pos + len = s0.blobEnd) (hw : s0.inner.pos ≤ s0.inner.data.length) :
    Confined len s0 (blobSliceMut f s).state ∧
    (∀ d s', blobSliceMut f s = .ok d s' → d = s.rest.take d.length ∧ s.pos + d.length ≤ s.blobEnd) := by
  have h1 := h.blobEnd
  have h2 := h.low
  have h3 := h.high
  have h4 := h.off
  have hg := h.grow
  unfold blobSliceMut
  rcases blobSlice_cases s with ⟨hr, hp, hb⟩ | ⟨e, hb⟩
  · rw [M.bind_ok hb, M.bind_ok (M.get_apply s), M.bind_ok (M.modify_apply _ _), M.pure_apply]
    have hlen : (s.rest.take (blobRemaining s)).length = blobRemaining s := by simp; omega
    rw [hlen]
    unfold blobRemaining at hr
    refine ⟨⟨h1, h2, h3, h4, fun i hi => ?_, ?_⟩, fun d s' h' => ?_⟩
    · have := splice_get s.inner.data s.inner.pos ((f (s.rest.take (blobRemaining s))).take (blobRemaining s)) s0.inner.pos
        (s0.inner.pos + len) (by omega) (by simp [blobRemaining]; omega) (by omega) i hi
      unfold splice at this
      rw [show s.inner.pos - s.inner.data.length = 0 by omega] at this
      simp only [List.replicate_zero, List.append_nil] at this
      exact this.trans (h.outside i hi)
    · simp [overwrite]; omega
    · simp only [Res.ok.injEq] at h'
      obtain ⟨rfl, -⟩ := h'
      have : s.inner.rest = s.rest := rfl
      rw [this, hlen]
      exact ⟨rfl, by unfold blobRemaining; omega⟩
  · rw [M.bind_err hb]
    exact ⟨h, fun d s' h' => by cases h'⟩

theorem blobBufRead_cases (f : List Byte → Nat) (s : Stream) :
    (∃ k sc, k ≤ s.rest.length ∧ sc <:+ s.inner.sched ∧
      (blobBufRead f s = .ok ((s.rest.take k).take (blobRemaining s)) (advBy s (min (f ((s.rest.take k).take (blobRemaining s)))
        ((s.rest.take k).take (blobRemaining s)).length) sc) ∧ s.pos + k ≤ max s.pos U64MAX ∨
       blobBufRead f s = .err posOverflow (advBy s 0 sc) ∧ U64MAX < s.pos + k)) ∨
    (∃ sc, sc <:+ s.inner.sched ∧ blobBufRead f s = .err (.io .interrupted) (advBy s 0 sc)) ∨
    (∃ sc, sc <:+ s.inner.sched ∧ ¬ Benign s.inner.sched ∧ blobBufRead f s = .err (.io .device) (advBy s 0 sc)) := by
  have key : ∀ k sc, k ≤ s.rest.length → sc <:+ s.inner.sched → s.inner.fillBuf = .ok (s.rest.take k) { s.inner with sched := sc } →
      (blobBufRead f s = .ok ((s.rest.take k).take (blobRemaining s)) (advBy s (min (f ((s.rest.take k).take (blobRemaining s)))
        ((s.rest.take k).take (blobRemaining s)).length) sc) ∧ s.pos + k ≤ max s.pos U64MAX ∨
       blobBufRead f s = .err posOverflow (advBy s 0 sc) ∧ U64MAX < s.pos + k) := by
    intro k sc hk hsc hi
    have hlen : (s.rest.take k).length = k := by simp; omega
    unfold blobBufRead blobFillBuf
    by_cases h : U64MAX - s.pos < k
    · refine .inr ⟨?_, by omega⟩
      have : fillBufNb s = .err posOverflow (advBy s 0 sc) := by
        unfold fillBufNb; rw [hi]; simp only [M.bind_apply, checkAdvance, hlen]; rw [if_pos h]; rfl
      rw [M.bind_err (M.bind_err this)]
    · refine .inl ⟨?_, by omega⟩
      have : fillBufNb s = .ok (s.rest.take k) (advBy s 0 sc) := by
        unfold fillBufNb; rw [hi]; simp only [M.bind_apply, checkAdvance, hlen]; rw [if_neg h]; rfl
      rw [M.bind_ok (show (do let d ← fillBufNb; let s ← M.get; pure (d.take (blobRemaining s)) : M Err Stream (List Byte)) s = _ by
        rw [M.bind_ok this, M.bind_ok (M.get_apply _), M.pure_apply])]
      unfold blobConsume
      rw [M.bind_ok (M.modify_apply _ _), M.pure_apply]
      rfl
  have hall : s.rest = s.rest.take s.rest.length := (List.take_of_length_le (Nat.le_refl _)).symm
  cases hs : s.inner.sched with
  | nil =>
    refine .inl ⟨s.rest.length, [], Nat.le_refl _, List.suffix_refl _, key s.rest.length [] (Nat.le_refl _) (by rw [hs]; exact List.suffix_refl _) ?_⟩
    unfold Inner.fillBuf
    rw [hs]
    simp only
    rw [show s.inner.rest = s.rest from rfl, ← hall, ← hs]
  | cons ev sc =>
    have hsuf : sc <:+ s.inner.sched := by rw [hs]; exact List.suffix_cons _ _
    cases ev with
    | short k =>
      refine .inl ⟨min (k + 1) s.rest.length, sc, Nat.min_le_right _ _, List.suffix_cons _ _, key (min (k + 1) s.rest.length) sc (Nat.min_le_right _ _) hsuf ?_⟩
      unfold Inner.fillBuf
      rw [hs]
      simp only
      have : s.rest.take (min (k + 1) s.rest.length) = s.rest.take (k + 1) := by simp [List.take_eq_take_iff]
      rw [this]; rfl
    | interrupted =>
      refine .inr (.inl ⟨sc, List.suffix_cons _ _, ?_⟩)
      have : fillBufNb s = .err (.io .interrupted) (advBy s 0 sc) := by
        unfold fillBufNb Inner.fillBuf; rw [hs]; rfl
      unfold blobBufRead blobFillBuf
      rw [M.bind_err (M.bind_err this)]
    | _ =>
      refine .inr (.inr ⟨sc, List.suffix_cons _ _, not_benign (fun k h => by cases h) (fun h => by cases h), ?_⟩)
      have : fillBufNb s = .err (.io .device) (advBy s 0 sc) := by
        unfold fillBufNb Inner.fillBuf; rw [hs]; rfl
      unfold blobBufRead blobFillBuf
      rw [M.bind_err (M.bind_err this)]

theorem blobBufRead_confined {len : Nat} {s0 s : Stream} (f : List Byte → Nat) (h : Confined len s0 s) :
    Confined len s0 (blobBufRead f s).state ∧
    (∀ d s', blobBufRead f s = .ok d s' → d = s.rest.take d.length ∧ s.pos + d.length ≤ s.blobEnd) := by
  have hh := h.high
  have hb := h.blobEnd
  have ho := h.off
  have hl := h.low
  have hc : ∀ k sc, k ≤ blobRemaining s → Confined len s0 (advBy s k sc) := fun k sc hk => by
    unfold blobRemaining at hk
    exact ⟨hb, by simp; omega, by simp; omega, by simp; omega, h.outside, h.grow⟩
  rcases blobBufRead_cases f s with ⟨k, sc, h1, h2, ⟨h3, -⟩ | ⟨h3, -⟩⟩ | ⟨sc, h1, h2⟩ | ⟨sc, h1, -, h2⟩
  · rw [h3]
    refine ⟨hc _ _ (by simp; omega), fun d s' h' => ?_⟩
    cases h'
    simp only [List.length_take, List.take_take]
    refine ⟨?_, by unfold blobRemaining; omega⟩
    congr 1; omega
  · rw [h3]; exact ⟨hc 0 sc (by omega), fun d s' h' => by cases h'⟩
  · rw [h2]; exact ⟨hc 0 sc (by omega), fun d s' h' => by cases h'⟩
  · rw [h2]; exact ⟨hc 0 sc (by omega), fun d s' h' => by cases h'⟩

/-- Every blob operation is confined. -/
theorem BlobOp.exec_confined {len : Nat} {s0 s : Stream} (o : BlobOp) (h : Confined len s0 s)
    (hl : s0.pos + len = s0.blobEnd) (hE : s0.blobEnd ≤ U64MAX) (hw : s0.inner.pos ≤ s0.inner.data.length) :
    Confined len s0 (o.exec len s).state ∧ (∀ r s', o.exec len s = .ok r s' → BytesOk s r) := by
  have wrap : ∀ (m : M Err Stream (List Byte)), (Confined len s0 (m s).state ∧
      (∀ d s', m s = .ok d s' → d = s.rest.take d.length ∧ s.pos + d.length ≤ s.blobEnd)) →
      Confined len s0 ((do let b ← m; pure (.bytes b) : M Err Stream BlobRes) s).state ∧
      (∀ r s', (do let b ← m; pure (.bytes b) : M Err Stream BlobRes) s = .ok r s' → BytesOk s r) := by
    intro m hm
    rw [M.bind_apply]
    cases hr : m s with
    | ok d s' =>
      rw [hr] at hm
      exact ⟨hm.1, fun r s'' h' => by cases h'; exact hm.2 _ _ rfl⟩
    | err e s' => rw [hr] at hm; exact ⟨hm.1, fun r s'' h' => by cases h'⟩
  have wrapN : ∀ (m : M Err Stream Nat), Confined len s0 (m s).state →
      Confined len s0 ((do let b ← m; pure (.num b) : M Err Stream BlobRes) s).state ∧
      (∀ r s', (do let b ← m; pure (.num b) : M Err Stream BlobRes) s = .ok r s' → BytesOk s r) := by
    intro m hm
    rw [M.bind_apply]
    cases hr : m s with
    | ok d s' => rw [hr] at hm; exact ⟨hm, fun r s'' h' => by cases h'; trivial⟩
    | err e s' => rw [hr] at hm; exact ⟨hm, fun r s'' h' => by cases h'⟩
  cases o with
  | read want => exact wrap _ (blobRead_confined want h hE)
  | readFully max =>
    refine wrap _ ?_
    unfold Fourleaf.readFully
    split
    · exact ⟨h, fun d s' h' => by cases h'⟩
    · exact drainBlob_confined _ h hE (Nat.le_refl _)
  | readOrTrunc max =>
    refine wrap _ ?_
    unfold Fourleaf.readOrTrunc
    exact drainBlob_confined _ h hE (Nat.min_le_right _ _)
  | slice =>
    refine wrap _ ?_
    rcases blobSlice_cases s with ⟨hr, hp, hb⟩ | ⟨e, hb⟩
    · rw [hb]
      refine ⟨h, fun d s' h' => ?_⟩
      cases h'
      have := h.high
      have := h.blobEnd
      simp only [List.length_take]
      exact ⟨by rw [Nat.min_eq_left hr], by unfold blobRemaining; omega⟩
    · rw [hb]; exact ⟨h, fun d s' h' => by cases h'⟩
  | sliceMut f => exact wrap _ (blobSliceMut_confined f h hl hw)
  | remaining => exact ⟨h, fun r s' h' => by cases h'; trivial⟩
  | seek w => exact wrapN _ (blobSeek_confined w h hl).1
  | write buf => exact wrapN _ (blobWrite_confined buf h hl hw)
  | bufRead f => exact wrap _ (blobBufRead_confined f h)

theorem runBlobOps_confined {len : Nat} {s0 : Stream} (hl : s0.pos + len = s0.blobEnd) (hE : s0.blobEnd ≤ U64MAX)
    (hw : s0.inner.pos ≤ s0.inner.data.length) :
    ∀ (ops : List BlobOp) (s : Stream), Confined len s0 s → Confined len s0 (runBlobOps len ops s) := by
  intro ops
  induction ops with
  | nil => intro s h; exact h
  | cons o os ih => intro s h; exact ih _ (o.exec_confined h hl hE hw).1

theorem Confined.refl {len : Nat} {s0 : Stream} (hl : s0.pos + len = s0.blobEnd) : Confined len s0 s0 :=
  ⟨rfl, Nat.le_refl _, by omega, rfl, fun _ _ => rfl, Nat.le_refl _⟩


/-! ### Reading and seeking -/

/-- Only the positions and the schedule have moved. -/
structure Moved (s0 s : Stream) : Prop where
  eq : s = { s0 with pos := s.pos, inner := { s0.inner with pos := s.inner.pos, sched := s.inner.sched } }
  sched : s.inner.sched <:+ s0.inner.sched

theorem Moved.refl (s : Stream) : Moved s s := ⟨rfl, List.suffix_refl _⟩
theorem Moved.trans {a b c : Stream} (h : Moved a b) (h' : Moved b c) : Moved a c :=
  ⟨by have := h'.eq; rw [h.eq] at this; exact this, h'.sched.trans h.sched⟩
theorem Moved.advBy {s : Stream} (k : Nat) {sc : List Ev} (h : sc <:+ s.inner.sched) : Moved s (advBy s k sc) := ⟨rfl, h⟩

theorem drainBlob_moved {s : Stream} (n : Nat) (hE : s.blobEnd ≤ U64MAX) (hn : n ≤ blobRemaining s) :
    Moved s (drain blobRead n s).state := by
  obtain ⟨k, sc, a1, a2, a3, a4⟩ := drain_blob_spec n s hn hE
  rcases a4 with ⟨a4, a5⟩ | ⟨a4, a5⟩ <;> rw [a5] <;> exact .advBy k a3

theorem blobRead_moved {s : Stream} (n : Nat) : Moved s (blobRead n s).state := by
  unfold blobRead
  simp only
  split
  · exact .refl s
  · rcases Nat.eq_zero_or_pos (min n (blobRemaining s)) with hz | hz
    · rw [hz]; unfold trackRead; rw [if_pos rfl]; exact .refl s
    · rcases trackRead_spec false _ hz s with ⟨h1, h2⟩ | ⟨h1, h2⟩
      · rw [h2]; exact .refl s
      · rcases h2 with ⟨k, sc, h2, h3, h4, h5, h6, -, -⟩ | ⟨sc, h2, h3, h4⟩ | ⟨sc, h2, h3, h4⟩ | ⟨sc, h2, h3, h4⟩
        · rw [h2]; exact .advBy k h6
        · rw [h4]; exact .advBy 0 h3
        · rw [h2]; exact .advBy 0 h3
        · rw [h2]; exact .advBy 0 h3

theorem blobSeek_moved {s : Stream} (len : Nat) (w : SeekFrom) : Moved s (blobSeek len w s).state := by
  unfold blobSeek
  cases ht : blobSeekTarget len w s with
  | none => exact .refl s
  | some p =>
    simp only
    split
    · split
      · exact .refl s
      · unfold innerSeek
        rw [M.bind_apply]
        rcases inner_seek_cases s.inner (-((s.pos - p : Nat) : Int)) with ⟨-, hi⟩ | ⟨e, sc, hs, hi⟩
        · rw [hi]; exact ⟨rfl, List.suffix_refl _⟩
        · rw [hi]; exact ⟨rfl, slip_suffix hs⟩
    · split
      · exact .refl s
      · unfold innerSeek
        rw [M.bind_apply]
        rcases inner_seek_cases s.inner (((p - s.pos : Nat) : Int)) with ⟨-, hi⟩ | ⟨e, sc, hs, hi⟩
        · rw [hi]; exact ⟨rfl, List.suffix_refl _⟩
        · rw [hi]; exact ⟨rfl, slip_suffix hs⟩

theorem blobBufRead_moved {s : Stream} (f : List Byte → Nat) : Moved s (blobBufRead f s).state := by
  rcases blobBufRead_cases f s with ⟨k, sc, h1, h2, ⟨h3, -⟩ | ⟨h3, -⟩⟩ | ⟨sc, h1, h2⟩ | ⟨sc, h1, -, h2⟩
  · rw [h3]; exact .advBy _ h2
  · rw [h3]; exact .advBy 0 h2
  · rw [h2]; exact .advBy 0 h1
  · rw [h2]; exact .advBy 0 h1

theorem BlobOp.exec_moved (len : Nat) {s : Stream} (o : BlobOp) (ho : o.reads) (hE : s.blobEnd ≤ U64MAX) :
    Moved s (o.exec len s).state := by
  have wrap : ∀ {α : Type} (m : M Err Stream α) (g : α → BlobRes), Moved s (m s).state →
      Moved s ((do let b ← m; pure (g b) : M Err Stream BlobRes) s).state := by
    intro α m g hm
    rw [M.bind_apply]
    cases hr : m s with
    | ok d s' => rw [hr] at hm; exact hm
    | err e s' => rw [hr] at hm; exact hm
  cases o with
  | read want => exact wrap _ _ (blobRead_moved want)
  | readFully max =>
    refine wrap _ _ ?_
    unfold Fourleaf.readFully
    split
    · exact .refl s
    · exact drainBlob_moved _ hE (Nat.le_refl _)
  | readOrTrunc max => exact wrap _ _ (drainBlob_moved _ hE (Nat.min_le_right _ _))
  | slice =>
    refine wrap _ _ ?_
    rcases blobSlice_cases s with ⟨hr, hp, hb⟩ | ⟨e, hb⟩ <;> rw [hb] <;> exact .refl s
  | sliceMut f => exact ho.elim
  | remaining => exact .refl s
  | seek w => exact wrap _ _ (blobSeek_moved len w)
  | write buf => exact ho.elim
  | bufRead f => exact wrap _ _ (blobBufRead_moved f)

/-- After any reading and seeking within a blob the view is that of some offset in the blob. -/
theorem runBlobOps_at {v : View} {data : List Byte} {s0 : Stream} (h : At s0 v) (hc : v.cur = some data) :
    ∀ (ops : List BlobOp), (∀ o ∈ ops, o.reads) →
    ∃ off, off ≤ data.length ∧ At (runBlobOps data.length ops s0) { v with pos := v.pos + off, cur := some (data.drop off) } := by
  obtain ⟨c1, c2, c3⟩ := h.some data hc
  have hcb : v.curBytes = data := by simp [View.curBytes, hc]
  have hroom := h.room
  rw [hcb, ← h.pos] at hroom
  have hl : s0.pos + data.length = s0.blobEnd := by omega
  have hE : s0.blobEnd ≤ U64MAX := by omega
  have hbytes := h.bytes
  rw [hcb] at hbytes
  have hrl := rest_length s0
  rw [hbytes] at hrl
  simp at hrl
  have hw := h.within
  have key : ∀ (ops : List BlobOp), (∀ o ∈ ops, o.reads) → ∀ s, Moved s0 s → Confined data.length s0 s →
      Moved s0 (runBlobOps data.length ops s) ∧ Confined data.length s0 (runBlobOps data.length ops s) := by
    intro ops
    induction ops with
    | nil => intro _ s hm hcf; exact ⟨hm, hcf⟩
    | cons o os ih =>
      intro ho s hm hcf
      refine ih (fun o' h' => ho o' (by simp [h'])) _ ?_ (o.exec_confined hcf hl hE hw).1
      exact hm.trans (o.exec_moved _ (ho o (by simp)) (by rw [hcf.blobEnd]; exact hE))
  intro ops ho
  obtain ⟨hm, hcf⟩ := key ops ho s0 (.refl s0) (.refl hl)
  generalize runBlobOps data.length ops s0 = s at hm hcf
  have e := hm.eq
  have q1 := hcf.low
  have q2 := hcf.high
  have q3 := hcf.off
  have hdata : s.inner.data = s0.inner.data := by rw [e]
  have hcm : s.commit = s0.commit := by rw [e]
  have hlv : s.live = s0.live := by rw [e]
  have hef : s.eof = s0.eof := by rw [e]
  have hdp : s.depth = s0.depth := by rw [e]
  have hbe : s.blobEnd = s0.blobEnd := hcf.blobEnd
  refine ⟨s.pos - s0.pos, by omega, ⟨⟨by omega, .inr ⟨hcm.trans c1, by omega, by omega⟩, ?_, ?_, ?_⟩, h.ben.suffix hm.sched, ?_, ?_, ?_, ?_, ?_, ?_, ?_, ?_⟩⟩
  · intro he; have := h.inv.eofCommit (hef ▸ he); rw [c1] at this; cases this
  · intro he; rw [hdp]; exact h.inv.eofDepth (hef ▸ he)
  · intro _; exact ⟨hcm.trans c1, by rw [hdata]; omega⟩
  · simp; rw [← h.pos]; omega
  · exact hdp.trans h.depth
  · exact hef.trans h.eof
  · have h1 : s.rest = s0.rest.drop (s.pos - s0.pos) := by
      unfold Stream.rest Inner.rest
      rw [hdata, List.drop_drop]
      congr 1; omega
    rw [h1, hbytes, List.drop_append_of_le_length (by omega)]
    rfl
  · rw [hdata]; omega
  · simp [View.curBytes]; rw [← h.pos]; omega
  · intro h'; cases h'
  · intro c h'
    simp only [Option.some.injEq] at h'
    subst h'
    exact ⟨hcm.trans c1, hlv.trans c2, by simp; omega⟩

end Fourleaf
