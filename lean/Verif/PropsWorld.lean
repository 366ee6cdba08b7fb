import Verif.PropsSession

/-! # C77: several streams, with blobs copied from one to another -/

namespace Fourleaf
open Spec Props

/-- Any number of streams, each with the handle that may be used now. -/
abbrev World := Nat → Session

/-- Stream `i` and its handle become `x`. -/
def World.set (w : World) (i : Nat) (x : Session) : World := fun j => if j = i then x else w j

/-- One call by a client with several streams: a call on one of them, or `write_field`/`write_element` of stream `j` with the blob whose handle stream `i` has handed out
(`src/stream.rs` 1058-1091). The client may have changed the tag, or made an exception of a blob (the variants and fields are public). Elements without a blob are
the calls `WCall`. -/
inductive MCall where
  | on (i : Nat) (c : SCall)
  | copyField (i j : Nat) (tag : Byte)
  | copyException (i j : Nat)

/-- `write_element` of stream `j` with the element that `e` makes of the handle of stream `i`. A program which does this without a handle, or with `i = j` (the handle borrows the
stream), does not exist; in the model it is an error. The handle of `i` stays usable. -/
def World.copy (e : Nat → Element) (i j : Nat) (w : World) : Res Err World Unit :=
  match (w i).handle with
  | none => .err (.io .other) w
  | some h =>
    if i = j then .err (.io .other) w
    else
      match writeElement (e h.len) (w i).stream (w j).stream with
      | .ok _ (src, dst) => .ok () ((w.set i ⟨src, some h⟩).set j ⟨dst, none⟩)
      | .err err (src, dst) => .err err ((w.set i ⟨src, some h⟩).set j ⟨dst, none⟩)

def MCall.exec : MCall → World → Res Err World Unit
  | .on i c, w =>
    match c.exec (w i) with
    | .ok _ x => .ok () (w.set i x)
    | .err e x => .err e (w.set i x)
  | .copyField i j tag, w => w.copy (fun len => .field ⟨tag, 0, 0, .blob len⟩) i j
  | .copyException i j, w => w.copy .exception i j

/-- A history: the client goes on after errors. -/
def World.run (cs : List MCall) (w : World) : World := cs.foldl (fun w c => (c.exec w).state) w

/-! ### The invariant -/

def WInv (w : World) : Prop := ∀ i, XInv (w i)

theorem WInv.set {w : World} (h : WInv w) (i : Nat) {x : Session} (hx : XInv x) : WInv (w.set i x) := by
  intro j
  unfold World.set
  split
  · exact hx
  · exact h j

theorem blobRead_hinv (cap : Nat) {hd : Handle} {s : Stream} (h : SInv s) (hh : HInv hd s) :
    SInv (blobRead cap s).state ∧ HInv hd (blobRead cap s).state := by
  have := blobOp_hinv (.read cap) h hh
  have e : (BlobOp.exec hd.len (.read cap) s).state = (blobRead cap s).state := by
    simp only [BlobOp.exec]
    rw [M.bind_apply]
    cases blobRead cap s <;> rfl
  rw [e] at this
  simpa [BlobOp.isSeek] using this

/-- `io::copy` keeps both streams in order. -/
theorem copyLoop_keeps (cap : Nat) {hd : Handle} : ∀ (fuel : Nat) (src dst : Stream), SInv src → HInv hd src → SInv dst → dst.commit ≠ none →
    SInv (copyLoop cap fuel src dst).state.1 ∧ HInv hd (copyLoop cap fuel src dst).state.1 ∧ SInv (copyLoop cap fuel src dst).state.2 := by
  intro fuel
  induction fuel with
  | zero => intro src dst h1 h2 h3 _; exact ⟨h1, h2, h3⟩
  | succ fuel ih =>
    intro src dst h1 h2 h3 h4
    rw [copyLoop]
    have hr := blobRead_hinv cap h1 h2
    cases hb : blobRead cap src with
    | ok d src' =>
      rw [hb] at hr
      simp only [Res.state_ok] at hr ⊢
      split
      · exact ⟨hr.1, hr.2, h3⟩
      · have hB := blobAll_good d h3 h4
        cases hw : writeAll blobWrite d dst with
        | ok u dst' =>
          rw [hw] at hB
          exact ih _ _ hr.1 hr.2 hB.1.inv (by rw [show dst'.commit = dst.commit from hB.2.commit]; exact h4)
        | err e dst' =>
          rw [hw] at hB
          exact ⟨hr.1, hr.2, hB.1.inv⟩
    | err e src' =>
      rw [hb] at hr
      split
      · rename_i hq; cases hq; exact ih _ _ hr.1 hr.2 h3 h4
      · rename_i hq; cases hq; exact ⟨hr.1, hr.2, h3⟩
      · rename_i hq; cases hq

theorem allocDesc_commit (d : Desc) (len : Nat) {s s' : Stream} (h : writeBlobAllocDesc d len s = .ok () s') : s'.commit = some .checkEnd := by
  unfold writeBlobAllocDesc at h
  cases h1 : commit s with
  | err e s1 => rw [M.bind_err h1] at h; cases h
  | ok u s1 =>
    rw [M.bind_ok h1, M.ite_apply] at h
    split at h
    · cases h
    · rw [M.bind_apply, checkAdvance_eq] at h
      split at h
      · rename_i hq; split at hq
        · cases hq
        · cases hq
          cases h2 : writeDesc d s1 with
          | err e s2 => rw [M.bind_err h2] at h; cases h
          | ok u s2 =>
            rw [M.bind_ok h2] at h
            cases h3 : encodeS (UInt64.ofNat len) s2 with
            | err e s3 => rw [M.bind_err h3] at h; cases h
            | ok u s3 => rw [M.bind_ok h3, M.modify_apply] at h; cases h; rfl
      · cases h

/-- The header of the copy, then its content. -/
def copyDesc (d : Desc) (len : Nat) (src dst : Stream) : Res Err (Stream × Stream) Unit :=
  match writeBlobAllocDesc d len dst with
  | .err e dst' => .err e (src, dst')
  | .ok _ dst' => copyBlob src dst'

/-- Both streams are in order and the outcome is neither a panic nor a hang. -/
theorem copyDesc_good (d : Desc) {hd : Handle} {src dst : Stream} (h1 : SInv src) (h2 : HInv hd src) (h3 : SInv dst) :
    (SInv (copyDesc d hd.len src dst).state.1 ∧ HInv hd (copyDesc d hd.len src dst).state.1 ∧ SInv (copyDesc d hd.len src dst).state.2) ∧
    (∀ e st, copyDesc d hd.len src dst = .err e st → e.abnormal = false) := by
  have hA := allocDesc_good d hd.len h3
  unfold copyDesc
  cases hr : writeBlobAllocDesc d hd.len dst with
  | err e dst' =>
    rw [hr] at hA
    exact ⟨⟨h1, h2, hA.1.inv⟩, fun e' st h => by cases h; exact hA.1.normal _ _ rfl⟩
  | ok u dst' =>
    rw [hr] at hA
    obtain ⟨g1, g2⟩ := hA.2 _ _ rfl hd.len rfl
    refine ⟨copyLoop_keeps _ _ _ _ h1 h2 hA.1.inv g2, fun e st h => ?_⟩
    obtain ⟨s0, h0, hc⟩ := h2.from_
    have hp := h1.pend h2.pending
    have hrem : blobRemaining src ≤ hd.len := by
      unfold blobRemaining; have := hc.blobEnd; have := hc.low; have := h0.span; omega
    obtain ⟨k, sc, -, -, -, h9⟩ := copyLoop_spec copyBuf (by decide) (src.inner.sched.length + blobRemaining src + 2) hd.len src dst' hp.1 hp.2 (by omega) hrem
      ⟨g1.within, allocDesc_commit d _ hr, g1.span⟩ g1.fits
    simp only [copyBlob] at h
    rw [h] at h9
    exact h9.2.1

theorem copy_eq (e : Nat → Element) (d : Desc) (he : ∀ len src dst, writeElement (e len) src dst = copyDesc d len src dst) {i j : Nat} {w : World} {h : Handle}
    (hh : (w i).handle = some h) (hij : i ≠ j) :
    w.copy e i j = (match copyDesc d h.len (w i).stream (w j).stream with
      | .ok _ (src, dst) => .ok () ((w.set i ⟨src, some h⟩).set j ⟨dst, none⟩)
      | .err err (src, dst) => .err err ((w.set i ⟨src, some h⟩).set j ⟨dst, none⟩)) := by
  unfold World.copy
  rw [hh]
  simp only [if_neg hij, he]

theorem field_copy (tag : Byte) (len : Nat) (src dst : Stream) :
    writeElement (.field ⟨tag, 0, 0, .blob len⟩) src dst = copyDesc (.pair .blob tag) len src dst := rfl

theorem exception_copy (len : Nat) (src dst : Stream) : writeElement (.exception len) src dst = copyDesc (.special .exception) len src dst := rfl

theorem copy_good (e : Nat → Element) (d : Desc) (he : ∀ len src dst, writeElement (e len) src dst = copyDesc d len src dst) (i j : Nat) {w : World} (h : WInv w) :
    WInv (w.copy e i j).state ∧ (∀ er w', w.copy e i j = .err er w' → er.abnormal = false) := by
  cases hh : (w i).handle with
  | none =>
    unfold World.copy
    rw [hh]
    exact ⟨h, fun er w' h' => by cases h'; rfl⟩
  | some hd =>
    by_cases hij : i = j
    · unfold World.copy
      rw [hh]
      simp only [if_pos hij]
      exact ⟨h, fun er w' h' => by cases h'; rfl⟩
    · rw [copy_eq e d he hh hij]
      have hg := copyDesc_good d (h i).stream ((h i).handle _ hh) (h j).stream
      cases hr : copyDesc d hd.len (w i).stream (w j).stream with
      | ok u st =>
        rw [hr] at hg
        obtain ⟨⟨g1, g2, g3⟩, -⟩ := hg
        exact ⟨(h.set i ⟨g1, fun hd' e => by cases e; exact g2⟩).set j ⟨g3, fun hd' e => by cases e⟩, fun er w' h' => by cases h'⟩
      | err er st =>
        rw [hr] at hg
        obtain ⟨⟨g1, g2, g3⟩, g4⟩ := hg
        exact ⟨(h.set i ⟨g1, fun hd' e => by cases e; exact g2⟩).set j ⟨g3, fun hd' e => by cases e⟩, fun er w' h' => by cases h'; exact g4 _ _ rfl⟩

theorem MCall.exec_good (c : MCall) {w : World} (h : WInv w) :
    WInv (c.exec w).state ∧ (∀ e w', c.exec w = .err e w' → e.abnormal = true → ∃ i c', c = .on i c' ∧ Excused c' (w i)) := by
  cases c with
  | on i c =>
    have hg := c.exec_good (h i)
    simp only [MCall.exec]
    cases hr : c.exec (w i) with
    | ok u x => rw [hr] at hg; exact ⟨h.set i hg.1, fun e w' h' => by cases h'⟩
    | err e x =>
      rw [hr] at hg
      refine ⟨h.set i hg.1, fun e w' h' ha => ?_⟩
      cases h'
      exact ⟨i, c, rfl, hg.2 _ _ rfl ha⟩
  | copyField i j tag =>
    have hg := copy_good (fun len => .field ⟨tag, 0, 0, .blob len⟩) (.pair .blob tag) (field_copy tag) i j h
    exact ⟨hg.1, fun e w' h' ha => by rw [hg.2 _ _ h'] at ha; cases ha⟩
  | copyException i j =>
    have hg := copy_good .exception (.special .exception) exception_copy i j h
    exact ⟨hg.1, fun e w' h' ha => by rw [hg.2 _ _ h'] at ha; cases ha⟩

theorem run_winv (cs : List MCall) : ∀ w, WInv w → WInv (World.run cs w) := by
  induction cs with
  | nil => intro w h; exact h
  | cons c cs ih => intro w h; exact ih _ (c.exec_good h).1

namespace Props

/-- Streams just created, each on a byte stream of its own. -/
def World.start (mk : Nat → Inner × Bool) : World := fun i => Session.start (mk i).1 (mk i).2

theorem world_start_inv (mk : Nat → Inner × Bool) : WInv (World.start mk) := fun i => start_xinv (mk i).1 (mk i).2

/-- **C77** A client with any number of streams on any byte streams, which has made any calls on them and copied blobs among them, going on after errors: the next call returns,
unless it is one of the calls on a single stream whose documented precondition (`Excused`, see C55) is violated. -/
theorem c77_no_panic_no_hang (mk : Nat → Inner × Bool) (cs : List MCall) (c : MCall) (e : Err) (w' : World)
    (h : c.exec (World.run cs (World.start mk)) = .err e w') (ha : e.abnormal = true) :
    ∃ i c', c = .on i c' ∧ Excused c' (World.run cs (World.start mk) i) :=
  (c.exec_good (run_winv cs _ (world_start_inv mk))).2 e w' h ha

/-- **C77** At any time: no position passes `u64::MAX`, and the position of a stream whose handle the client holds is within that blob. -/
theorem c77_bounds (mk : Nat → Inner × Bool) (cs : List MCall) (i : Nat) :
    let x := World.run cs (World.start mk) i
    x.stream.pos ≤ U64MAX ∧
    ∀ h, x.handle = some h → h.len ≤ x.stream.blobEnd ∧ x.stream.blobEnd - h.len ≤ x.stream.pos ∧ x.stream.pos ≤ x.stream.blobEnd ∧ x.stream.blobEnd ≤ U64MAX := by
  intro x
  have hx := run_winv cs _ (world_start_inv mk) i
  refine ⟨hx.stream.pos_le, fun h hh => ?_⟩
  obtain ⟨s0, h0, hc⟩ := (hx.handle h hh).from_
  have h1 : x.stream.blobEnd = s0.blobEnd := hc.blobEnd
  have h2 : s0.pos ≤ x.stream.pos := hc.low
  have h3 : x.stream.pos ≤ s0.blobEnd := hc.high
  have h4 := h0.span
  have h5 := h0.fits
  omega

/-- What is left of the blob: what its bytes are from the current position to its end, as far as they exist. -/
def leftOf (s : Stream) : List Byte := (s.inner.data.drop s.inner.pos).take (s.blobEnd - s.pos)

theorem copyDesc_out (d : Desc) {hd : Handle} {src dst d1 : Stream} (h1 : SInv src) (h2 : HInv hd src) (h3 : SInv dst) (hcm : commit dst = .ok () d1)
    (hw : d1.inner.pos ≤ d1.inner.data.length) :
    let all := (d.toByte :: shortInt hd.len) ++ leftOf src
    let st := (copyDesc d hd.len src dst).state
    (∃ k sc, k ≤ (leftOf src).length ∧ st.1 = advBy src k sc) ∧
    (∃ n, n ≤ all.length ∧ st.2.inner.data = written d1.inner.data d1.inner.pos (all.take n) ∧ st.2.pos = d1.pos + n) ∧
    (∀ u st, copyDesc d hd.len src dst = .ok u st →
      (∃ sc, st.1 = advBy src (leftOf src).length sc) ∧
      st.2.inner.data = written d1.inner.data d1.inner.pos all ∧ st.2.pos = d1.pos + all.length ∧
      ((leftOf src).length = hd.len → Sink st.2) ∧
      ((leftOf src).length < hd.len → commit st.2 = .err (.incompleteBlob (hd.len - (leftOf src).length)) { st.2 with live := false })) ∧
    (∀ e st, copyDesc d hd.len src dst = .err e st →
      ¬ Benign src.inner.sched ∨ ¬ Benign d1.inner.sched ∨ U64MAX < d1.pos + (d.toByte :: shortInt hd.len).length + hd.len + 11) := by
  intro all st
  have hC := (commit_good h3).2 _ _ hcm
  have hR : WReady d1 := ⟨hw, .inl hC.1⟩
  have hsame : writeBlobAllocDesc d hd.len dst = writeBlobAllocDesc d hd.len d1 := by
    unfold writeBlobAllocDesc
    rw [M.bind_ok hcm, M.bind_ok (show commit d1 = .ok () d1 by unfold Fourleaf.commit; rw [hC.1])]
  have hA := allocDesc_out d hd.len hR
  obtain ⟨s0, h0, hc⟩ := h2.from_
  have hp := h1.pend h2.pending
  have hrem : blobRemaining src ≤ hd.len := by
    unfold blobRemaining; have := hc.blobEnd; have := hc.low; have := h0.span; omega
  have hrl : leftOf src = src.rest.take (blobRemaining src) := rfl
  have hll : (leftOf src).length = min (blobRemaining src) src.rest.length := by rw [hrl, List.length_take]
  have hall : all.length = (shortInt hd.len).length + 1 + (leftOf src).length := by simp only [all]; simp; omega
  have htk : ∀ k, k ≤ (leftOf src).length → src.rest.take k = (leftOf src).take k := fun k hk => by
    rw [hrl, List.take_take, Nat.min_eq_left (by omega)]
  cases hr : writeBlobAllocDesc d hd.len d1 with
  | err e d' =>
    have hE : copyDesc d hd.len src dst = .err e (src, d') := by unfold copyDesc; rw [hsame, hr]
    rw [hr] at hA
    obtain ⟨⟨k, g1, g2⟩, -, g3⟩ := hA
    simp only [st, hE]
    refine ⟨⟨0, src.inner.sched, Nat.zero_le _, rfl⟩, ⟨k, by omega, ?_, ?_⟩, (fun u st h => by cases h), fun e st h => ?_⟩
    · show d'.inner.data = _
      rw [g2.data, splice_written hw]
      simp only [all]
      rw [List.take_append_of_le_length (by simp; omega)]
    · show d'.pos = _
      rw [g2.pos, List.length_take, Nat.min_eq_left (by simp; omega)]
    · by_cases hb : Benign d1.inner.sched
      · have := g3 hb; exact .inr (.inr (by simp; omega))
      · exact .inr (.inl hb)
  | ok u d' =>
    rw [hr] at hA
    obtain ⟨w, a, -, a2⟩ := hA
    obtain ⟨k, sc, h6, h7, h8, h9⟩ := copyLoop_spec copyBuf (by decide) (src.inner.sched.length + blobRemaining src + 2) hd.len src d' hp.1 hp.2 (by omega) hrem a a2
    have hE : copyDesc d hd.len src dst = copyLoop copyBuf (src.inner.sched.length + blobRemaining src + 2) src d' := by unfold copyDesc; rw [hsame, hr]; rfl
    have hdata : ∀ j, j ≤ (leftOf src).length → ∀ d2, Wrote d' (src.rest.take j) d2 →
        d2.inner.data = written d1.inner.data d1.inner.pos ((d.toByte :: shortInt hd.len) ++ (leftOf src).take j) ∧ d2.pos = d1.pos + ((shortInt hd.len).length + 1 + j) := by
      intro j hj d2 hw2
      rw [htk j hj] at hw2
      have ht := w.trans hw hw2
      refine ⟨by rw [ht.data, splice_written hw], by rw [ht.pos]; simp; omega⟩
    have part : ∀ j, j ≤ (leftOf src).length → (d.toByte :: shortInt hd.len) ++ (leftOf src).take j = all.take ((shortInt hd.len).length + 1 + j) := by
      intro j _
      simp only [all]
      rw [List.take_append, List.take_of_length_le (l := d.toByte :: shortInt hd.len) (by simp)]
      congr 2
      simp
    simp only [st, hE]
    cases hr2 : copyLoop copyBuf (src.inner.sched.length + blobRemaining src + 2) src d' with
    | ok u st =>
      rw [hr2] at h9
      obtain ⟨b1, b2, b3, b4⟩ := h9
      have hk : k = (leftOf src).length := by rw [b2, hll]
      obtain ⟨e1, e2⟩ := hdata k (by omega) _ b3
      have htot : (leftOf src).take k = leftOf src := List.take_of_length_le (by omega)
      rw [htot] at e1
      have hsp : st.2.pos + (hd.len - k) = st.2.blobEnd := b4.span
      have hcm2 : st.2.commit = some .checkEnd := b4.commit
      refine ⟨⟨k, sc, by omega, b1⟩, ⟨all.length, Nat.le_refl _, by rw [List.take_length]; exact e1, by rw [hall]; show st.2.pos = _; rw [e2, hk]⟩,
        fun u st' h => ?_, fun e st h => by cases h⟩
      cases h
      refine ⟨⟨sc, by rw [← hk]; exact b1⟩, e1, by rw [hall, e2, hk], fun hl => ?_, fun hl => ?_⟩
      · exact ⟨.inr ⟨hcm2, by omega⟩, b4.within⟩
      · have hne : st.2.pos ≠ st.2.blobEnd := by omega
        have hsub : st.2.blobEnd - st.2.pos = hd.len - (leftOf src).length := by omega
        have hchk : checkAtEndOfBlob st.2 = .err (.incompleteBlob (hd.len - (leftOf src).length)) st.2 := by
          unfold checkAtEndOfBlob
          rw [if_pos hne, if_neg (by omega), hsub]
        simp only [commit, hcm2, hchk]
    | err e st =>
      rw [hr2] at h9
      obtain ⟨b1, b2, b3⟩ := h9
      have hk : k ≤ (leftOf src).length := by rw [hll]; omega
      refine ⟨⟨k, sc, hk, b1⟩, ?_, (fun u st h => by cases h), fun e st h => ?_⟩
      · rcases b3 with ⟨-, -, b3⟩ | ⟨-, j, hj, b3⟩
        · obtain ⟨e1, e2⟩ := hdata k hk _ b3
          rw [part k hk] at e1
          exact ⟨_, by omega, e1, e2⟩
        · obtain ⟨e1, e2⟩ := hdata j (by omega) _ b3
          rw [part j (by omega)] at e1
          exact ⟨_, by omega, e1, e2⟩
      · rcases b3 with ⟨-, b3, -⟩ | ⟨b3, -⟩
        · exact .inl b3
        · exact .inr (.inl fun hb => b3 (hb.suffix w.sched))

/-- The call copies the blob held from stream `i` to stream `j`, under the descriptor `d`. -/
def Copies (c : MCall) (i j : Nat) (d : Desc) : Prop :=
  (∃ tag, c = .copyField i j tag ∧ d = .pair .blob tag) ∨ (c = .copyException i j ∧ d = .special .exception)

/-- **C77** What a copy does, whatever has happened to the streams before. No stream but the two is touched, and the handle is still held. If what is pending on the destination
(an incomplete blob, for instance) cannot be completed, the call fails with that error and the source is untouched. Otherwise the destination, from where it stood, gets the descriptor, the full
length of the blob and what is left of the blob in the source, or, if the call fails, a beginning of that; the source has advanced within the blob. The destination accepts the copy as complete only if it has
the announced length. The call fails only if one of the byte streams fails or the position would overflow. -/
theorem c77_copy (mk : Nat → Inner × Bool) (cs : List MCall) (c : MCall) (i j : Nat) (d : Desc) (hcall : Copies c i j d) (hij : i ≠ j) (h : Handle) :
    let w := World.run cs (World.start mk)
    let w' := (c.exec w).state
    (w i).handle = some h →
    let left := leftOf (w i).stream
    let all := (d.toByte :: shortInt h.len) ++ left
    (∀ m, m ≠ i → m ≠ j → w' m = w m) ∧
    ((w' i).handle = some h ∧ (w' j).handle = none) ∧
    (∀ e s1, commit (w j).stream = .err e s1 → c.exec w = .err e w' ∧ w' i = w i ∧ (w' j).stream = s1) ∧
    (∀ d1, commit (w j).stream = .ok () d1 → d1.inner.pos ≤ d1.inner.data.length →
      (∃ k sc, k ≤ left.length ∧ (w' i).stream = advBy (w i).stream k sc) ∧
      (∃ n, n ≤ all.length ∧ (w' j).stream.inner.data = written d1.inner.data d1.inner.pos (all.take n) ∧ (w' j).stream.pos = d1.pos + n) ∧
      (c.exec w = .ok () w' →
        (∃ sc, (w' i).stream = advBy (w i).stream left.length sc) ∧
        (w' j).stream.inner.data = written d1.inner.data d1.inner.pos all ∧ (w' j).stream.pos = d1.pos + all.length ∧
        (left.length = h.len → Sink (w' j).stream) ∧
        (left.length < h.len → commit (w' j).stream = .err (.incompleteBlob (h.len - left.length)) { (w' j).stream with live := false })) ∧
      (∀ e, c.exec w = .err e w' → ¬ Benign (w i).stream.inner.sched ∨ ¬ Benign d1.inner.sched ∨
        U64MAX < d1.pos + (d.toByte :: shortInt h.len).length + h.len + 11)) := by
  intro w w' hh left all
  have hx := run_winv cs _ (world_start_inv mk)
  have hex : c.exec w = (match copyDesc d h.len (w i).stream (w j).stream with
      | .ok _ (src, dst) => .ok () ((w.set i ⟨src, some h⟩).set j ⟨dst, none⟩)
      | .err err (src, dst) => .err err ((w.set i ⟨src, some h⟩).set j ⟨dst, none⟩)) := by
    rcases hcall with ⟨tag, rfl, rfl⟩ | ⟨rfl, rfl⟩
    · exact copy_eq _ _ (field_copy tag) hh hij
    · exact copy_eq _ _ exception_copy hh hij
  have gi : ∀ x y : Session, ((w.set i x).set j y) i = x := fun x y => by simp [World.set, hij]
  have gj : ∀ x y : Session, ((w.set i x).set j y) j = y := fun x y => by simp [World.set]
  have go : ∀ (x y : Session) m, m ≠ i → m ≠ j → ((w.set i x).set j y) m = w m := fun x y m h1 h2 => by simp [World.set, h1, h2]
  have hst : w' = ((w.set i ⟨(copyDesc d h.len (w i).stream (w j).stream).state.1, some h⟩).set j ⟨(copyDesc d h.len (w i).stream (w j).stream).state.2, none⟩) := by
    simp only [w', hex]
    cases copyDesc d h.len (w i).stream (w j).stream <;> rfl
  have hi : (w' i) = ⟨(copyDesc d h.len (w i).stream (w j).stream).state.1, some h⟩ := by rw [hst, gi]
  have hj : (w' j) = ⟨(copyDesc d h.len (w i).stream (w j).stream).state.2, none⟩ := by rw [hst, gj]
  refine ⟨fun m h1 h2 => by rw [hst]; exact go _ _ m h1 h2, ⟨by rw [hi], by rw [hj]⟩, fun e s1 hc => ?_, fun d1 hc hwi => ?_⟩
  · have hE : copyDesc d h.len (w i).stream (w j).stream = .err e ((w i).stream, s1) := by
      unfold copyDesc writeBlobAllocDesc
      rw [M.bind_err hc]
    rw [hE] at hi hj hex hst
    refine ⟨by rw [hex, hst]; rfl, by rw [hi]; show Session.mk (w i).stream (some h) = w i; rw [← hh], by rw [hj]; rfl⟩
  · obtain ⟨o1, o2, o3, o4⟩ := copyDesc_out d (hx i).stream ((hx i).handle _ hh) (hx j).stream hc hwi
    rw [hi, hj]
    refine ⟨o1, o2, fun hok => ?_, fun e herr => ?_⟩
    · cases hr : copyDesc d h.len (w i).stream (w j).stream with
      | err e st => rw [hex, hr] at hok; cases hok
      | ok u st => exact o3 _ _ hr
    · cases hr : copyDesc d h.len (w i).stream (w j).stream with
      | err e st => exact o4 _ _ hr
      | ok u st => rw [hex, hr] at herr; cases herr

/-- Two streams: stream 0 has a blob of 3 bytes, of which the client reads one before it copies it to stream 1 under another tag, seeks back and copies it again: the
first copy is pending with one byte missing. -/
def c77World : World := World.start fun i => if i = 0 then ⟨{ data := [0x82, 3, 7, 8, 9], pos := 0, sched := [.short 0], seekable := true }, true⟩
  else ⟨{ data := [], pos := 0, sched := [.interrupted, .short 1], seekable := false }, false⟩

example : ((World.run [.on 0 .nextElement, .on 0 (.onBlob (.read 1)), .copyField 0 1 5] c77World) 1).stream.inner.data = [0x85, 3, 8, 9] := by decide +kernel
example : (match (MCall.copyField 0 1 5).exec (World.run [.on 0 .nextElement, .on 0 (.onBlob (.read 1)), .copyField 0 1 5, .on 0 (.onBlob (.seek (.start 0)))] c77World) with
    | .err (.incompleteBlob n) _ => decide (n = 1) | _ => false) = true := by decide +kernel
example : ((World.run [.on 0 .nextElement, .copyField 0 1 5, .on 0 (.onBlob (.seek (.start 0))), .copyException 0 1] c77World) 1).stream.inner.data =
    [0x85, 3, 7, 8, 9, 0x80, 3, 7, 8, 9] := by decide +kernel
example : ((World.run [.on 0 .nextElement, .copyField 0 1 5] c77World) 0).handle = some ⟨3, false⟩ := by decide +kernel

end Props
end Fourleaf
