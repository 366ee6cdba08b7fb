import Verif.Debug
import Verif.PropsWire
import Verif.Pulled

/-! # C51: invalid tags -/

namespace Fourleaf.Props
open Fourleaf Spec

/-- The tag handed to a call. -/
def WCall.tagOf : WCall → Option Byte
  | .null t | .bool t _ | .u8 t _ | .u16 t _ | .u32 t _ | .u64 t _ | .i8 t _ | .i16 t _ | .i32 t _ | .i64 t _
  | .struct t | .enum t _ | .blobData t _ | .blobAlloc t _ => some t
  | .commit | .endStruct | .endDoc | .padding | .exceptionData _ | .exceptionAlloc _ => none

/-- The length of the blob a call asks for, if it does. -/
def WCall.blobLen : WCall → Option Nat
  | .blobData _ d | .exceptionData d => some d.length
  | .blobAlloc _ ps | .exceptionAlloc ps => some ps.flatten.length
  | _ => none

/-- Tags the documentation calls valid. -/
def ValidTag (t : Byte) : Prop := 1 ≤ t.toNat ∧ t.toNat ≤ 63

theorem valid_pair (ty : DescTy) (t : Byte) : (Desc.pair ty t).valid = true ↔ ValidTag t := by
  simp only [Desc.valid, Bool.and_eq_true, decide_eq_true_eq, ValidTag, UInt8.le_iff_toNat_le]
  rfl

theorem commit_none {s : Stream} (h : s.commit = none) : commit s = .ok () s := by
  unfold commit; rw [h]

theorem commit_ok_none {s s' : Stream} (h : commit s = .ok () s') : s'.commit = none := by
  unfold commit at h
  split at h
  · next hc => cases h; exact hc
  · split at h
    · cases h; rfl
    · cases h

/-- In a debug build `write_desc` of a valid descriptor does the same as in a release build. -/
theorem debug_desc_same {d : Desc} (h : d.valid = true) : Debug.writeDesc d = writeDesc d := by
  unfold Debug.writeDesc writeDesc
  simp only [h, if_true]

theorem debug_desc_panic {d : Desc} (h : d.valid = false) {s s' : Stream} (hc : commit s = .ok () s') :
    Debug.writeDesc d s = .err Debug.tagPanic s' := by
  unfold Debug.writeDesc
  rw [M.bind_ok hc]
  simp [h]

theorem debug_alloc_same {d : Desc} (h : d.valid = true) (len : Nat) :
    Debug.writeBlobAllocDesc d len = writeBlobAllocDesc d len := by
  unfold Debug.writeBlobAllocDesc writeBlobAllocDesc
  rw [debug_desc_same h]

theorem debug_dynamic_same {d : Desc} (h : d.valid = true) :
    Debug.writeBlobDynamicDesc d = writeBlobDynamicDesc d := by
  unfold Debug.writeBlobDynamicDesc writeBlobDynamicDesc
  rw [debug_desc_same h]

theorem debug_alloc_panic {d : Desc} (h : d.valid = false) {s s' : Stream} (hc : commit s = .ok () s') {len : Nat}
    (hl : s'.pos + len + 11 ≤ U64MAX) : Debug.writeBlobAllocDesc d len s = .err Debug.tagPanic s' := by
  unfold Debug.writeBlobAllocDesc
  rw [M.bind_ok hc, M.ite_apply, if_neg (by omega)]
  have : checkAdvance (len + 11) s' = .ok () s' := by
    unfold checkAdvance; rw [if_neg (by omega)]
  rw [M.bind_ok this, M.bind_err (debug_desc_panic h (commit_none (commit_ok_none hc)))]

theorem debug_alloc_refused {d : Desc} {s s' : Stream} (hc : commit s = .ok () s') {len : Nat} (hp : s'.pos ≤ U64MAX)
    (hl : ¬ s'.pos + len + 11 ≤ U64MAX) : ∃ e, Debug.writeBlobAllocDesc d len s = .err e s' := by
  unfold Debug.writeBlobAllocDesc
  rw [M.bind_ok hc, M.ite_apply]
  by_cases h : len > U64MAX - 11
  · rw [if_pos h]; exact ⟨_, rfl⟩
  · rw [if_neg h]
    have : checkAdvance (len + 11) s' = .err posOverflow s' := by
      unfold checkAdvance; rw [if_pos (by omega)]
    rw [M.bind_err this]; exact ⟨_, rfl⟩

/-- **C51** In a debug build, every writing call with a valid tag (or without one) does exactly the same as in a release
build: everything proved about `WCall.exec` holds for debug builds too. -/
theorem c51_debug_same (c : WCall) (h : ∀ t, WCall.tagOf c = some t → ValidTag t) : Debug.exec c = c.exec := by
  have hs : ∀ y, (Desc.special y).valid = true := fun _ => rfl
  have hu : ∀ t, ValidTag t → Debug.writeU64 t = writeU64 t := by
    intro t ht; funext n
    unfold Debug.writeU64 writeU64; rw [debug_desc_same ((valid_pair _ _).2 ht)]
  cases c <;> simp only [WCall.tagOf, Option.some.injEq, forall_eq', reduceCtorEq, false_imp_iff, implies_true] at h <;>
    simp only [Debug.exec, WCall.exec, writeNull, writeBool, writeU8, writeU16, writeU32, writeI8, writeI16, writeI32, writeI64,
      writeStruct, writeEnum, writeEndStruct, writeEndDoc, writePadding, writeBlobData, writeBlobAlloc, writeExceptionData,
      writeExceptionAlloc, debug_desc_same (hs _), debug_alloc_same (hs _)] <;>
    first
    | rw [hu _ h]
    | rw [debug_desc_same ((valid_pair _ _).2 h)]
    | rw [debug_alloc_same ((valid_pair _ _).2 h)]

/-- **C51** In a debug build, a writing call with an invalid tag panics. It does so before a byte of its own is written:
the stream is left as the commit of what was pending leaves it. (If that commit fails its error is returned, and a blob longer than the
remaining range of positions is refused first, `c51_debug_no_output`.) -/
theorem c51_debug_panics (c : WCall) (t : Byte) (ht : WCall.tagOf c = some t) (hbad : ¬ ValidTag t) (s s' : Stream)
    (hc : commit s = .ok () s') (hlen : ∀ n, WCall.blobLen c = some n → s'.pos + n + 11 ≤ U64MAX) :
    Debug.exec c s = .err Debug.tagPanic s' := by
  have hv : ∀ ty, (Desc.pair ty t).valid = false := fun ty => by
    rw [Bool.eq_false_iff]; exact fun h => hbad ((valid_pair _ _).1 h)
  have hu : ∀ n, Debug.writeU64 t n s = .err Debug.tagPanic s' := by
    intro n; unfold Debug.writeU64; rw [M.bind_err (debug_desc_panic (hv _) hc)]
  cases c <;> simp only [WCall.tagOf, Option.some.injEq, reduceCtorEq] at ht <;> subst ht <;>
    simp only [WCall.blobLen, Option.some.injEq, forall_eq', reduceCtorEq, false_imp_iff, implies_true] at hlen <;>
    simp only [Debug.exec] <;>
    first
    | exact hu _
    | exact debug_desc_panic (hv _) hc
    | rw [M.bind_err (debug_desc_panic (hv _) hc)]
    | rw [M.bind_err (debug_alloc_panic (hv _) hc hlen)]

/-- **C51** In a debug build, a writing call with an invalid tag never returns normally and never writes anything, whatever
the state of the stream and the sink: the outcome is an error or panic, in the state the commit leaves. -/
theorem c51_debug_no_output (c : WCall) (t : Byte) (ht : WCall.tagOf c = some t) (hbad : ¬ ValidTag t) (s : Stream)
    (hp : (commit s).state.pos ≤ U64MAX) :
    ∃ e, Debug.exec c s = .err e (commit s).state := by
  cases hc : commit s with
  | err e s' =>
    refine ⟨e, ?_⟩
    have hd : ∀ d, Debug.writeDesc d s = .err e s' := fun d => by unfold Debug.writeDesc; rw [M.bind_err hc]
    have hu : ∀ t n, Debug.writeU64 t n s = .err e s' := by intro t n; unfold Debug.writeU64; rw [M.bind_err (hd _)]
    have ha : ∀ d n, Debug.writeBlobAllocDesc d n s = .err e s' := fun d n => by
      unfold Debug.writeBlobAllocDesc; rw [M.bind_err hc]
    cases c <;> simp only [WCall.tagOf, Option.some.injEq, reduceCtorEq] at ht <;> simp only [Debug.exec, Res.state_err] <;>
      first
      | exact hu _ _
      | exact hd _
      | rw [M.bind_err (hd _)]
      | rw [M.bind_err (ha _ _)]
  | ok _ s' =>
    simp only [hc, Res.state_ok] at hp ⊢
    by_cases hl : ∀ n, WCall.blobLen c = some n → s'.pos + n + 11 ≤ U64MAX
    · exact ⟨_, c51_debug_panics c t ht hbad s s' hc hl⟩
    · cases c <;> simp only [WCall.tagOf, Option.some.injEq, reduceCtorEq] at ht <;>
        simp only [WCall.blobLen, Option.some.injEq, forall_eq', reduceCtorEq, false_imp_iff, implies_true, not_true_eq_false] at hl <;>
        obtain ⟨e, he⟩ := debug_alloc_refused (d := .pair .blob _) hc hp hl <;>
        exact ⟨e, by simp only [Debug.exec]; rw [M.bind_err he]⟩

/-- **C51** The same for `write_blob_dynamic`. -/
theorem c51_debug_dynamic (t : Byte) (s s' : Stream) (hc : commit s = .ok () s') :
    (ValidTag t → Debug.writeBlobDynamicDesc (.pair .blob t) = writeBlobDynamic t) ∧
    (¬ ValidTag t → Debug.writeBlobDynamicDesc (.pair .blob t) s = .err Debug.tagPanic s') := by
  refine ⟨fun h => debug_dynamic_same ((valid_pair _ _).2 h), fun h => ?_⟩
  have hv : (Desc.pair .blob t).valid = false := by
    rw [Bool.eq_false_iff]; exact fun h' => h ((valid_pair _ _).1 h')
  unfold Debug.writeBlobDynamicDesc
  rw [M.bind_err (debug_desc_panic hv hc)]

/-- **C51** Release builds write such a field, but no reader ever gets its tag back: every field handed out by `next_element`,
from any input, has a tag in 1..63. -/
theorem c51_read_tags (s s' : Stream) (f : Field) (h : nextElement s = .ok (.field f) s') : ValidTag f.tag := by
  have key : ∀ s s' : Stream, readElement s = .ok (.field f) s' → ValidTag f.tag := by
    intro s s' h
    unfold readElement at h
    simp only at h
    split at h
    · cases h
    · next b s1 _ =>
      split at h
      · cases h
      · next ty tag hp =>
        rw [M.bind_apply] at h
        split at h
        · cases h; exact parse_tag hp
        · cases h
      · cases h
      · cases h
      · rw [M.bind_apply] at h; split at h <;> cases h
      · cases h
  unfold nextElement nextElementImpl at h
  split at h
  · cases h
  · rw [M.bind_apply] at h
    split at h
    · exact key _ _ h
    · cases h

/-- The hypotheses of the panic are met: tag 64, on a fresh stream over an empty sink. -/
example : Debug.exec (.u8 64 7) (Stream.new ⟨[], 0, [], false⟩) = .err Debug.tagPanic (Stream.new ⟨[], 0, [], false⟩) :=
  c51_debug_panics _ 64 rfl (by unfold ValidTag; decide) _ _ rfl (by intro n h; cases h)

end Fourleaf.Props
