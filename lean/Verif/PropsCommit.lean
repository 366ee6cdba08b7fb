import Verif.PropsSticky
import Verif.PropsMixed

/-! # C79: `commit` is implicit -/

namespace Fourleaf
open Spec Props

/-- A call which starts by doing what `commit` does. -/
structure Implicit {α : Type} (m : M Err Stream α) (s : Stream) : Prop where
  ok : ∀ s1, commit s = .ok () s1 → m s = m s1
  err : ∀ e s1, commit s = .err e s1 → m s = .err e s1

namespace Implicit
variable {α β : Type} {m : M Err Stream α} {s : Stream}

theorem commit_ (s : Stream) : Implicit commit s :=
  ⟨fun _ h => by rw [h, commit_none (commit_ok_none h)], fun _ _ h => h⟩

theorem bind_ (h : Implicit m s) (f : α → M Err Stream β) : Implicit (m >>= f) s :=
  ⟨fun s1 h1 => after_bind2 (h.ok s1 h1) f, fun e s1 h1 => by rw [M.bind_err (h.err e s1 h1)]⟩

theorem writeDesc_ (d : Desc) : Implicit (writeDesc d) s := (commit_ s).bind_ _
theorem writeU64_ (tag : Byte) (n : UInt64) : Implicit (writeU64 tag n) s := (writeDesc_ _).bind_ _
theorem alloc_ (d : Desc) (len : Nat) : Implicit (writeBlobAllocDesc d len) s := (commit_ s).bind_ _
theorem dynamic_ (d : Desc) : Implicit (writeBlobDynamicDesc d) s := (writeDesc_ _).bind_ _

theorem wcall_ (c : WCall) : Implicit c.exec s := by
  cases c with
  | commit => exact commit_ s
  | null tag => exact writeU64_ _ _
  | bool tag b => exact writeU64_ _ _
  | u8 tag n => exact writeU64_ _ _
  | u16 tag n => exact writeU64_ _ _
  | u32 tag n => exact writeU64_ _ _
  | u64 tag n => exact writeU64_ _ _
  | i8 tag n => exact writeU64_ _ _
  | i16 tag n => exact writeU64_ _ _
  | i32 tag n => exact writeU64_ _ _
  | i64 tag n => exact writeU64_ _ _
  | struct tag => exact writeDesc_ _
  | enum tag n => exact (writeDesc_ _).bind_ _
  | endStruct => exact writeDesc_ _
  | endDoc => exact writeDesc_ _
  | padding => exact writeDesc_ _
  | blobData tag d => exact (alloc_ _ _).bind_ _
  | exceptionData d => exact (alloc_ _ _).bind_ _
  | blobAlloc tag p => exact (alloc_ _ _).bind_ _
  | exceptionAlloc p => exact (alloc_ _ _).bind_ _

theorem nextElementImpl_ (sp : Bool) (he : s.eof = false) : Implicit (nextElementImpl sp) s where
  ok s1 h := by
    have hs := SameEof.commit_ s
    rw [h] at hs
    exact nextElementImpl_committed sp he h (commit_ok_none h) (hs.1.trans he)
  err e s1 h := by
    unfold nextElementImpl
    rw [he]
    simp only [Bool.false_eq_true, if_false]
    rw [M.bind_err h]

theorem nextField_ (he : s.eof = false) : Implicit nextField s := (nextElementImpl_ true he).bind_ _

theorem skipUpLoop_more (d : Nat) : ∀ (f k : Nat) (s : Stream), (∀ s', skipUpLoop d f s ≠ .err .hang s') → skipUpLoop d (f + k) s = skipUpLoop d f s := by
  intro f
  induction f with
  | zero => intro k s h; exact absurd rfl (h s)
  | succ f ih =>
    intro k s h
    rw [show f + 1 + k = (f + k) + 1 by omega, skipUpLoop]
    rw [skipUpLoop] at h ⊢
    split
    · rename_i hd
      rw [if_pos hd] at h
      rw [M.bind_apply] at h ⊢
      rw [M.bind_apply]
      split <;> rename_i hr
      · rw [hr] at h
        exact ih k _ h
      · rfl
    · rfl

theorem skipUp_ (d : Nat) (hs : SInv s) (hd : d < s.depth) : Implicit (skipUp d) s := by
  have he : s.eof = false := by
    cases he : s.eof with
    | false => rfl
    | true => have := hs.eofDepth he; omega
  have hne : Implicit nextElement s := nextElementImpl_ false he
  refine ⟨fun s1 h => ?_, fun e s1 h => ?_⟩
  · have h1 := SameEof.commit_ s
    have hC := commit_good hs
    rw [h] at h1 hC
    have hs1 : SInv s1 := hC.1.inv
    have nh : ∀ {t : Stream}, SInv t → ∀ s', skipUp d t ≠ .err .hang s' := fun ht s' h' => by
      have := (skipUp_fine d ht).normal _ _ h'
      cases this
    -- the two differ in the fuel only
    have step : ∀ f, skipUpLoop d (f + 1) s = skipUpLoop d (f + 1) s1 := by
      intro f
      rw [skipUpLoop, skipUpLoop, if_pos hd, if_pos (show d < s1.depth by rw [show s1.depth = s.depth from h1.2]; exact hd)]
      exact after_bind2 (hne.ok s1 h) _
    have a := skipUpLoop_more d _ (s1.inner.data.length - s1.inner.pos + 2) s (nh hs)
    have b := skipUpLoop_more d _ (s.inner.data.length - s.inner.pos + 2) s1 (nh hs1)
    unfold skipUp
    rw [← a, ← b, Nat.add_comm (s1.inner.data.length - s1.inner.pos + 2)]
    exact step _
  · unfold skipUp
    rw [skipUpLoop, if_pos hd, M.bind_err (hne.err e s1 h)]

end Implicit

theorem Implicit.session {α : Type} {m : M Err Stream α} {x : Session} (h : Implicit m x.stream) (f : α → Option Nat) :
    (∀ y, (SCall.write .commit).exec x = .ok () y → Session.onStream m f y = Session.onStream m f x) ∧
    (∀ e y, (SCall.write .commit).exec x = .err e y → Session.onStream m f x = .err e y) := by
  have hx : (SCall.write .commit).exec x = Session.onStream commit (fun _ => none) x := rfl
  rw [hx]
  cases hr : commit x.stream with
  | ok u s1 =>
    refine ⟨fun y hy => ?_, fun e y hy => ?_⟩
    · unfold Session.onStream at hy
      rw [hr] at hy
      cases hy
      unfold Session.onStream
      rw [h.ok s1 hr]
    · unfold Session.onStream at hy
      rw [hr] at hy
      cases hy
  | err e1 s1 =>
    refine ⟨fun y hy => ?_, fun e y hy => ?_⟩
    · unfold Session.onStream at hy
      rw [hr] at hy
      cases hy
    · unfold Session.onStream at hy
      rw [hr] at hy
      cases hy
      unfold Session.onStream
      rw [h.err e1 s1 hr]

end Fourleaf

namespace Fourleaf.Props
open Fourleaf Spec

/-- Does the call read or write data? Reading at the end of the document does not, nor does `skip_up` to a depth which is not above the current one; `clear_eof`, `set_graceful_eof` and the calls on the
handle of a blob which is being processed are something else. -/
def _root_.Fourleaf.SCall.touches (x : Session) : SCall → Prop
  | .nextElement | .nextField => x.stream.eof = false
  | .skipUp d => d < x.stream.depth
  | .clearEof | .setGracefulEof _ | .onBlob _ | .blobWriteAll _ => False
  | _ => True

theorem touches_implicit (c : SCall) (x : Session) (hx : XInv x) (hc : c.touches x) :
    (∀ y, (SCall.write .commit).exec x = .ok () y → c.exec y = c.exec x) ∧
    (∀ e y, (SCall.write .commit).exec x = .err e y → c.exec x = .err e y) := by
  cases c with
  | nextElement => exact (Implicit.nextElementImpl_ false hc).session _
  | nextField => exact (Implicit.nextField_ hc).session _
  | skipUp d => exact (Implicit.skipUp_ d hx.stream hc).session _
  | clearEof => exact hc.elim
  | setGracefulEof b => exact hc.elim
  | seek w => exact ((Implicit.commit_ _).bind_ _ : Implicit (streamSeek w) _).session _
  | resetPos p => exact ((Implicit.commit_ _).bind_ _ : Implicit (Fourleaf.resetPos p.toNat) _).session _
  | write c => exact (Implicit.wcall_ c).session _
  | blobAlloc tag len => exact (Implicit.alloc_ _ _ : Implicit (writeBlobAlloc tag len.toNat) _).session _
  | exceptionAlloc len => exact (Implicit.alloc_ _ _ : Implicit (writeExceptionAlloc len.toNat) _).session _
  | blobDynamic tag => exact (Implicit.dynamic_ _ : Implicit (writeBlobDynamic tag) _).session _
  | exceptionDynamic => exact (Implicit.dynamic_ _ : Implicit writeExceptionDynamic _).session _
  | padToAlign a => exact ((Implicit.commit_ _).bind_ _ : Implicit (Fourleaf.padToAlign a.toNat) _).session _
  | onBlob o => exact hc.elim
  | blobWriteAll b => exact hc.elim

/-- **C79** In any session, every call which reads or writes data first does what `commit` does: if `commit` would succeed, calling it first makes no difference to the outcome, and if it would fail, the call
fails with the same error and leaves the stream in the same state. -/
theorem c79_implicit (i : Inner) (useSeek : Bool) (cs : List SCall) (c : SCall) :
    let x := Session.run cs (Session.start i useSeek)
    c.touches x →
      (∀ y, (SCall.write .commit).exec x = .ok () y → c.exec y = c.exec x) ∧
      (∀ e y, (SCall.write .commit).exec x = .err e y → c.exec x = .err e y) :=
  fun hc => touches_implicit c _ (run_xinv cs _ (start_xinv i useSeek)) hc

/-- **C79** After a successful `commit` there is nothing to commit: doing it again has no effect at all. -/
theorem c79_idempotent (x y : Session) (h : (SCall.write .commit).exec x = .ok () y) : (SCall.write .commit).exec y = .ok () y := by
  have hx : (SCall.write .commit).exec x = Session.onStream commit (fun _ => none) x := rfl
  have hy : (SCall.write .commit).exec y = Session.onStream commit (fun _ => none) y := rfl
  rw [hx] at h
  rw [hy]
  unfold Session.onStream at h ⊢
  cases hr : commit x.stream with
  | err e s1 => rw [hr] at h; cases h
  | ok u s1 =>
    rw [hr] at h
    cases h
    simp only [commit_none (commit_ok_none hr)]

/-- **C79** So calls of `commit` can be added to a program, or left out: in a history it makes no difference to anything that follows whether a `commit` that succeeds stands before a call which reads or writes
data. -/
theorem c79_history (i : Inner) (useSeek : Bool) (before after : List SCall) (c : SCall) (y : Session)
    (hc : c.touches (Session.run before (Session.start i useSeek)))
    (hy : (SCall.write .commit).exec (Session.run before (Session.start i useSeek)) = .ok () y) :
    Session.run (before ++ .write .commit :: c :: after) (Session.start i useSeek) = Session.run (before ++ c :: after) (Session.start i useSeek) := by
  have h := (c79_implicit i useSeek before c hc).1 y hy
  have run_append : ∀ (a b : List SCall) (x : Session), Session.run (a ++ b) x = Session.run b (Session.run a x) := by
    intro a b x
    unfold Session.run
    rw [List.foldl_append]
  rw [run_append, run_append]
  generalize Session.run before (Session.start i useSeek) = x at h hy
  show Session.run after (c.exec ((SCall.write .commit).exec x).state).state = Session.run after (c.exec x).state
  rw [hy]
  show Session.run after (c.exec y).state = _
  rw [h]

/-- A blob of which one byte has been read is pending; and a dynamic blob after two bytes have been written. -/
def c79Reading : List SCall := [.nextField, .onBlob (.read 1)]
def c79Writing : List SCall := [.blobDynamic 5, .blobWriteAll [1, 2]]

def c79Session : Session :=
  Session.run c79Reading (Session.start { data := [0x82, 0x03, 1, 2, 3, 0x41, 5, 0x00], pos := 0, sched := [.short 0], seekable := true } false)
def c79Session2 : Session := Session.run c79Writing (Session.start { data := [], pos := 0, sched := [.short 0], seekable := true } true)

/-- In both cases there is something to commit, and it succeeds. -/
example : c79Session.stream.commit = some .skipBlob ∧ SCall.touches c79Session .nextField ∧
    (match (SCall.write .commit).exec c79Session with
      | .ok _ y => decide (y.stream.pos = 5 ∧ c79Session.stream.pos = 3)
      | _ => false) = true ∧
    c79Session2.stream.commit = some .finishDyn ∧ SCall.touches c79Session2 (.write (.u8 1 3)) ∧
    (match (SCall.write .commit).exec c79Session2 with
      | .ok _ y => decide (y.stream.inner.data ≠ c79Session2.stream.inner.data)
      | _ => false) = true :=
  ⟨by decide +kernel, (by decide +kernel : c79Session.stream.eof = false), by decide +kernel, by decide +kernel, trivial, by decide +kernel⟩

end Fourleaf.Props
