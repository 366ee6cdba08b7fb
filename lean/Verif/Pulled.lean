import Verif.ProgLemmas
import Verif.TokSpec
import Verif.BlobOps

/-! # What `next_field` guarantees about the field it returns, for arbitrary input -/

namespace Fourleaf
open Spec

/-- Of an element that was read: a proper tag; behind an end-of-struct the stream is inside the input. -/
def Good (e : Element) (s : Stream) : Prop :=
  (∀ f, e = .field f → TagOk f.tag) ∧ (e = .endOfStruct → s.commit = none ∧ s.inner.pos ≤ s.inner.data.length) ∧ (e = .endOfDoc → s.eof = true)

theorem parse_tag {b : Byte} {ty : DescTy} {tag : Byte} (h : Desc.parse b = some (.pair ty tag)) : TagOk tag := by
  obtain ⟨d, hd, -, hv⟩ := Props.c07_parse_total b
  rw [hd] at h; cases h
  simpa [Desc.valid, UInt8.le_iff_toNat_le, TagOk] using hv

theorem readElement_good {s s' : Stream} {e : Element} (hi : Inv s) (hc : s.commit = none) (he : s.eof = false)
    (h : readElement s = .ok e s') : Good e s' := by
  have hsh := readElement_shape hi hc he h
  unfold readElement at h
  cases hr : readByte true s with
  | err e s2 => rw [hr] at h; cases h
  | ok b s2 =>
    rw [hr] at h
    dsimp only at h
    cases hd : Desc.parse b with
    | none => rw [hd] at h; cases h
    | some d =>
      rw [hd] at h
      cases d with
      | pair ty tag =>
        dsimp only at h
        generalize hs3 : (if s2.depth = 0 then { s2 with depth := 1 } else s2) = s3 at h
        cases hv : nextValue ty s3 with
        | err e' s4 => rw [M.bind_err hv] at h; cases h
        | ok v s4 =>
          rw [M.bind_ok hv] at h; cases h
          refine ⟨fun f hf => ?_, by simp, by simp⟩
          cases hf
          exact parse_tag hd
      | special sp =>
        cases sp with
        | endOfStruct =>
          cases h
          refine ⟨by simp, fun _ => ⟨hsh, ?_⟩, by simp⟩
          rcases readByte_spec true s with ⟨h1, sc, h2, h3⟩ | ⟨h1, sc, h2, h3⟩
          · rw [h3] at hr; cases hr
          · rcases h3 with ⟨b', l, hr', h3⟩ | ⟨-, -, -, h3⟩ | ⟨-, -, h3⟩ | ⟨-, h3⟩
            · rw [h3] at hr; cases hr
              have := rest_length s
              rw [hr'] at this
              simp at this ⊢; omega
            · rw [h3] at hr; cases hr
              exact absurd hd (by decide)
            · rw [h3] at hr; cases hr
            · rw [h3] at hr; cases hr
        | endOfDoc => cases h; exact ⟨by simp, by simp, fun _ => rfl⟩
        | exception =>
          dsimp only at h
          cases hv : nextBlob s2 with
          | err e' s4 => rw [M.bind_err hv] at h; cases h
          | ok v s4 => rw [M.bind_ok hv] at h; cases h; exact ⟨by simp, by simp, by simp⟩
        | padding => cases h; exact ⟨by simp, by simp, by simp⟩

theorem skipPadLoop_good : ∀ (fuel : Nat) {s s' : Stream} {e : Element}, Inv s → s.commit = none →
    s.eof = false → skipPadLoop fuel s = .ok e s' → Good e s' := by
  intro fuel
  induction fuel with
  | zero => intro s s' e _ _ _ h; cases h
  | succ fuel ih =>
    intro s s' e hi hc he h
    rw [skipPadLoop] at h
    cases hr : readElement s with
    | err e' s2 => rw [M.bind_err hr] at h; cases h
    | ok e' s2 =>
      rw [M.bind_ok hr, M.ite_apply] at h
      have hR := readElement_safe hi hc he
      split at h
      · rename_i hp
        subst hp
        have hsh := readElement_shape hi hc he hr
        rw [hr] at hR
        exact ih hR.1.step.inv hsh ((hR.2 _ _ rfl).1.1 (by simp)) h
      · cases h; exact readElement_good hi hc he hr

theorem nextElementImpl_good {sp : Bool} {s s' : Stream} {e : Element} (hi : Inv s)
    (h : nextElementImpl sp s = .ok e s') : Good e s' := by
  unfold nextElementImpl at h
  by_cases he : s.eof = true
  · rw [if_pos he] at h; cases h; exact ⟨by simp, by simp, fun _ => he⟩
  · rw [if_neg he] at h
    have hC := commit_safe hi
    cases hr : commit s with
    | err e' s2 => rw [M.bind_err hr] at h; cases h
    | ok u s2 =>
      rw [hr] at hC
      obtain ⟨h1, h2, -, -⟩ := hC.2 _ _ rfl
      have hi2 := hC.1.step.inv
      rw [M.bind_ok hr] at h
      have he2 : s2.eof = false := by rw [h2]; simpa using he
      cases sp with
      | false => exact readElement_good hi2 h1 he2 h
      | true => exact skipPadLoop_good _ hi2 h1 he2 h

/-- A field as `next_field` returns it: a proper tag; if a blob, the handle covers at most its length, which is a `u64`. -/
structure FieldAt (s : Stream) (f : Field) : Prop where
  tag : TagOk f.tag
  blob : ∀ n, f.value = .blob n → n < 2 ^ 64 ∧ s.blobEnd - s.pos ≤ n

/-- Where a struct ends: the document is over, or nothing is pending and the stream is inside the input. -/
def AtEnd (s : Stream) : Prop := s.eof = true ∨ (s.commit = none ∧ s.inner.pos ≤ s.inner.data.length)

theorem nextField_post {s s' : Stream} {o : Option Field} (hi : Inv s) (h : nextField s = .ok o s') :
    (∀ f, o = some f → FieldAt s' f) ∧ (o = none → AtEnd s') := by
  have hst := (nextField_safe hi).1.step
  rw [h] at hst
  unfold nextField at h
  cases hr : nextElementImpl true s with
  | err e s2 => rw [M.bind_err hr] at h; cases h
  | ok e s2 =>
    have hg := nextElementImpl_good hi hr
    have hsh := nextElementImpl_shape hi hr
    rw [M.bind_ok hr] at h
    cases e with
    | padding => cases h
    | endOfStruct => cases h; exact ⟨by simp, fun _ => .inr (hg.2.1 rfl)⟩
    | endOfDoc => cases h; exact ⟨by simp, fun _ => .inl (hg.2.2 rfl)⟩
    | field f =>
      cases h
      refine ⟨fun f' hf => ?_, by simp⟩
      cases hf
      refine ⟨hg.1 _ rfl, fun n hn => ?_⟩
      simp only [Shape, Element.blobLen?, hn] at hsh
      have hp := hst.inv.pend
      rw [Res.state_ok, hsh.1] at hp
      simp at hp
      unfold U64MAX at hp
      omega
    | exception n =>
      dsimp only at h
      cases hm : readOrTrunc 256 s2 with
      | ok m s3 => rw [M.bind_ok hm] at h; cases h
      | err e s3 => rw [M.bind_err hm] at h; cases h

/-- How much `read_fully` returns. -/
theorem readFully_len {max : Nat} {s s' : Stream} {d : List Byte} (hi : Inv s) (h : Op.exec (.readFully max) s = .ok d s') :
    d.length ≤ s.blobEnd - s.pos ∧ d.length ≤ max := by
  simp only [Op.exec, onLiveBlob] at h
  split at h
  · rename_i hl
    have hp := hi.pend
    rw [(hi.liveOk hl).1] at hp
    simp at hp
    unfold readFully at h
    split at h
    · cases h
    · rename_i hm
      obtain ⟨k, sc, h1, h2, -, h4⟩ := drain_blob_spec (blobRemaining s) s (Nat.le_refl _) hp.2
      rcases h4 with ⟨h4, h5⟩ | ⟨-, h5⟩
      · rw [h5] at h; cases h
        unfold blobRemaining at *
        simp; omega
      · rw [h5] at h; cases h
  · cases h

/-- How much `slice` returns. -/
theorem slice_len {s s' : Stream} {d : List Byte} (h : Op.exec .slice s = .ok d s') : d.length ≤ s.blobEnd - s.pos := by
  simp only [Op.exec, onLiveBlob] at h
  split at h
  · rcases blobSlice_cases s with ⟨-, -, hb⟩ | ⟨e, hb⟩
    · rw [hb] at h; cases h
      simp [blobRemaining]; omega
    · rw [hb] at h; cases h
  · cases h

end Fourleaf
