import Verif.PropsSession

/-! # C14 in any session: which calls change the eof flag and the depth -/

namespace Fourleaf
open Spec Props

/-- The eof flag and the depth are the same. -/
def SameEof (s s' : Stream) : Prop := s'.eof = s.eof ∧ s'.depth = s.depth

theorem sameEof_step : StepRel SameEof where
  refl _ := ⟨rfl, rfl⟩
  trans _ _ _ h1 h2 := ⟨h2.1.trans h1.1, h2.2.trans h1.2⟩
  read g want s := have h := book2_step.read g want s; ⟨h.eof, h.depth⟩
  write buf s := have h := book2_step.write buf s; ⟨h.eof, h.depth⟩
  jump _ _ _ _ _ := ⟨rfl, rfl⟩
  poke _ _ := ⟨rfl, rfl⟩
  tick _ _ _ := ⟨rfl, rfl⟩

namespace SameEof
open Keeps

theorem rr : ReadRel SameEof := sameEof_step.toReadRel

theorem commit_ : Keeps SameEof commit := by
  intro s
  unfold commit
  split
  · exact ⟨rfl, rfl⟩
  · rename_i c _
    have go : ∀ m : M Err Stream Unit, Keeps SameEof m → SameEof s (match m s with
        | .ok _ s' => .ok () { s' with commit := none, live := false }
        | .err e s' => .err e { s' with live := false } : Res Err Stream Unit).state := by
      intro m hm
      have h1 := hm s
      cases hr : m s with
      | ok x s' => rw [hr] at h1; exact h1
      | err e s' => rw [hr] at h1; exact h1
    cases c
    · exact go _ (skipBlob_ rr)
    · exact go _ (checkAtEndOfBlob_ rr)
    · exact go _ (finishDynamicBlob_ sameEof_step)

theorem writeDesc_ (d : Desc) : Keeps SameEof (writeDesc d) := bind_ rr commit_ fun _ => trackAll_ sameEof_step _
theorem writeU64_ (tag : Byte) (n : UInt64) : Keeps SameEof (writeU64 tag n) := bind_ rr (writeDesc_ _) fun _ => trackAll_ sameEof_step _
theorem writeEnum_ (tag : Byte) (n : UInt64) : Keeps SameEof (writeEnum tag n) := bind_ rr (writeDesc_ _) fun _ => trackAll_ sameEof_step _

theorem alloc_ (d : Desc) (len : Nat) : Keeps SameEof (writeBlobAllocDesc d len) :=
  bind_ rr commit_ fun _ => ite_ (throw_ rr _) (bind_ rr (checkAdvance_ rr _) fun _ =>
    bind_ rr (writeDesc_ _) fun _ => bind_ rr (trackAll_ sameEof_step _) fun _ => fun _ => ⟨rfl, rfl⟩)

theorem dynamic_ (d : Desc) : Keeps SameEof (writeBlobDynamicDesc d) :=
  bind_ rr (writeDesc_ _) fun _ => bind_ rr (get_ rr) fun _ => ite_ (throw_ rr _)
    (bind_ rr (trackAll_ sameEof_step _) fun _ => bind_ rr (fun _ => ⟨rfl, rfl⟩) fun _ => pure_ rr _)

theorem padToAlign_ (a : Nat) : Keeps SameEof (padToAlign a) := by
  have key : ∀ fuel s, SameEof s (padLoop a fuel s).state := by
    intro fuel
    induction fuel with
    | zero => intro s; exact ⟨rfl, rfl⟩
    | succ fuel ih =>
      intro s
      unfold padLoop
      split
      · exact bind_ rr (writeDesc_ _) (fun _ => (fun s => ih s)) s
      · exact ⟨rfl, rfl⟩
  exact bind_ rr commit_ fun _ => (fun s => key _ s)

theorem wcall_ (c : WCall) : Keeps SameEof c.exec := by
  cases c with
  | commit => exact commit_
  | null tag => exact writeU64_ _ _
  | bool tag b => exact writeU64_ _ _
  | u8 tag n => exact writeU64_ _ _
  | u16 tag n => exact writeU64_ _ _
  | u32 tag n => exact writeU64_ _ _
  | u64 tag n => exact writeU64_ _ _
  | i8 tag n => exact writeU64_ _ _
  | i16 tag n => exact writeU64_ _ _
  | i32 tag n => exact writeU64_ _ _
  | i64 tag n => exact writeU64_ _ _
  | struct tag => exact writeDesc_ _
  | enum tag n => exact writeEnum_ _ _
  | endStruct => exact writeDesc_ _
  | endDoc => exact writeDesc_ _
  | padding => exact writeDesc_ _
  | blobData tag d => exact bind_ rr (alloc_ _ _) fun _ => writeAllBlob_ sameEof_step _
  | exceptionData d => exact bind_ rr (alloc_ _ _) fun _ => writeAllBlob_ sameEof_step _
  | blobAlloc tag p => exact bind_ rr (alloc_ _ _) fun _ => writePieces_ sameEof_step _
  | exceptionAlloc p => exact bind_ rr (alloc_ _ _) fun _ => writePieces_ sameEof_step _

theorem resetPos_ (p : Nat) : Keeps SameEof (resetPos p) := bind_ rr commit_ fun _ => fun _ => ⟨rfl, rfl⟩

theorem innerSeek_ (w : SeekFrom) : Keeps SameEof (innerSeek w) := by
  intro s
  unfold innerSeek
  split <;> exact ⟨rfl, rfl⟩

theorem streamSeek_ (w : SeekFrom) (s : Stream) : (streamSeek w s).state.eof = s.eof ∧
    ((streamSeek w s).state.depth = s.depth ∨ (streamSeek w s).state.depth = 0) := by
  have h : ∀ s, SameEof s ((do commit; let off ← innerSeek w; resetPos off; pure off : M Err Stream Nat) s).state :=
    bind_ rr commit_ fun _ => bind_ rr (innerSeek_ w) fun _ => bind_ rr (resetPos_ _) fun _ => pure_ rr _
  have h := h s
  unfold streamSeek
  rw [M.bind_apply] at h ⊢
  split at h
  · rw [M.bind_apply] at h ⊢
    split at h
    · rw [M.bind_apply] at h ⊢
      split at h
      · exact ⟨h.1, .inr rfl⟩
      · exact ⟨h.1, .inl h.2⟩
    · exact ⟨h.1, .inl h.2⟩
  · exact ⟨h.1, .inl h.2⟩

end SameEof

theorem onStream_state {α : Type} (m : M Err Stream α) (f : α → Option Nat) (x : Session) :
    (Session.onStream m f x).state.stream = (m x.stream).state := by
  unfold Session.onStream
  split <;> rename_i h <;> rw [h] <;> rfl

theorem onHandle_same {α : Type} (sk : Bool) (m : Nat → M Err Stream α) (hm : ∀ n, Keeps SameEof (m n)) (x : Session) :
    SameEof x.stream (Session.onHandle sk m x).state.stream := by
  unfold Session.onHandle
  split
  · exact ⟨rfl, rfl⟩
  · rename_i h _
    have h1 := hm h.len x.stream
    split <;> rename_i h2 <;> rw [h2] at h1 <;> exact h1

end Fourleaf

namespace Fourleaf.Props
open Fourleaf Spec

/-- Is it one of the calls which read elements? -/
def _root_.Fourleaf.SCall.reads : SCall → Bool
  | .nextElement | .nextField | .skipUp _ => true
  | _ => false

/-- Is it a `seek` of the stream? -/
def _root_.Fourleaf.SCall.seeks : SCall → Bool
  | .seek _ => true
  | _ => false

theorem scall_sameEof (c : SCall) (x : Session) (hr : c.reads = false) (hc : c ≠ .clearEof) :
    (c.exec x).state.stream.eof = x.stream.eof ∧
    ((c.exec x).state.stream.depth = x.stream.depth ∨ c.seeks = true ∧ (c.exec x).state.stream.depth = 0) := by
  have go : ∀ {α : Type} (m : M Err Stream α) (f : α → Option Nat), Keeps SameEof m →
      (Session.onStream m f x).state.stream.eof = x.stream.eof ∧
      ((Session.onStream m f x).state.stream.depth = x.stream.depth ∨ c.seeks = true ∧ (Session.onStream m f x).state.stream.depth = 0) := by
    intro α m f hm
    rw [onStream_state]
    exact ⟨(hm _).1, .inl (hm _).2⟩
  cases c with
  | nextElement => cases hr
  | nextField => cases hr
  | skipUp d => cases hr
  | clearEof => exact absurd rfl hc
  | setGracefulEof b => exact go (Fourleaf.setGracefulEof b) (fun _ => none) fun _ => ⟨rfl, rfl⟩
  | seek w =>
    have h := SameEof.streamSeek_ w x.stream
    show (Session.onStream _ _ x).state.stream.eof = _ ∧ _
    change _ ∧ ((Session.onStream (streamSeek w) _ x).state.stream.depth = _ ∨ _ ∧ (Session.onStream (streamSeek w) _ x).state.stream.depth = 0)
    rw [onStream_state]
    exact ⟨h.1, h.2.imp id fun h => ⟨rfl, h⟩⟩
  | resetPos p => exact go _ _ (SameEof.resetPos_ _)
  | write c => exact go _ _ (SameEof.wcall_ c)
  | blobAlloc tag len => exact go _ _ (SameEof.alloc_ _ _)
  | exceptionAlloc len => exact go _ _ (SameEof.alloc_ _ _)
  | blobDynamic tag => exact go _ _ (SameEof.dynamic_ _)
  | exceptionDynamic => exact go _ _ (SameEof.dynamic_ _)
  | padToAlign a => exact go _ _ (SameEof.padToAlign_ _)
  | onBlob o =>
    have h := onHandle_same o.isSeek o.exec (fun n => Keeps.blobOp_ sameEof_step n o) x
    exact ⟨h.1, .inl h.2⟩
  | blobWriteAll buf =>
    have h := onHandle_same false (fun _ => writeAll blobWrite buf) (fun _ => Keeps.writeAllBlob_ sameEof_step _) x
    exact ⟨h.1, .inl h.2⟩

theorem eof_reads {s : Stream} (he : s.eof = true) (hd : s.depth = 0) :
    nextElement s = .ok .endOfDoc s ∧ nextField s = .ok none s ∧ ∀ d, skipUp d s = .ok () s := by
  have h1 : ∀ sp, nextElementImpl sp s = .ok .endOfDoc s := fun sp => by unfold nextElementImpl; rw [if_pos he]
  refine ⟨h1 _, ?_, fun d => ?_⟩
  · unfold nextField
    rw [M.bind_ok (h1 _)]
    rfl
  · unfold skipUp skipUpLoop
    rw [if_neg (by omega)]

theorem eof_exec {x : Session} (he : x.stream.eof = true) (hd : x.stream.depth = 0) (c : SCall) (hr : c.reads = true) :
    c.exec x = .ok () ⟨x.stream, none⟩ := by
  obtain ⟨h1, h2, h3⟩ := eof_reads he hd
  cases c with
  | nextElement => show Session.onStream _ _ _ = _; unfold Session.onStream; rw [h1]; rfl
  | nextField => show Session.onStream _ _ _ = _; unfold Session.onStream; rw [h2]; rfl
  | skipUp d => show Session.onStream _ _ _ = _; unfold Session.onStream; rw [h3 d]; rfl
  | _ => cases hr

/-- **C14** In any session, of any calls with any outcomes, once the flag is set it stays set until `clear_eof` is called: whatever is written, set, skipped, sought or done with handles in between, reading yields
the end of the document and changes nothing. -/
theorem c14_session (i : Inner) (useSeek : Bool) (cs later : List SCall) (hl : .clearEof ∉ later) :
    let x := Session.run cs (Session.start i useSeek)
    let y := Session.run later x
    x.stream.eof = true →
      y.stream.eof = true ∧ nextElement y.stream = .ok .endOfDoc y.stream ∧ nextField y.stream = .ok none y.stream ∧
      ∀ c : SCall, c.reads = true → c.exec y = .ok () ⟨y.stream, none⟩ := by
  intro x y hx
  have hxi : XInv x := run_xinv cs _ (start_xinv i useSeek)
  have key : y.stream.eof = true ∧ XInv y := by
    show (Session.run later x).stream.eof = true ∧ XInv (Session.run later x)
    clear y
    clear_value x
    revert hx hxi
    induction later generalizing x with
    | nil => exact fun h1 h2 => ⟨h1, h2⟩
    | cons c cs ih =>
      intro h1 h2
      refine ih (fun h => hl (.tail _ h)) _ ?_ (SCall.exec_good c h2).1
      show (c.exec x).state.stream.eof = true
      cases hr : c.reads with
      | true => rw [eof_exec h1 (h2.stream.eofDepth h1) c hr]; exact h1
      | false => rw [(scall_sameEof c x hr fun h => hl (h ▸ .head _)).1]; exact h1
  have hd := key.2.stream.eofDepth key.1
  obtain ⟨h1, h2, -⟩ := eof_reads key.1 hd
  exact ⟨key.1, h1, h2, fun c hc => eof_exec key.1 hd c hc⟩

/-- A history in which the flag is set in the middle of a mixture of calls: a document with an integer is read to its end, then an integer is written, the graceful mode changed, and the stream moved. -/
def c14History : List SCall :=
  [.nextField, .nextField]
def c14Later : List SCall :=
  [.write (.u8 1 5), .setGracefulEof true, .nextElement, .blobAlloc 2 3, .onBlob (.write [1, 2]), .padToAlign 8, .seek (.start 0), .resetPos 7]

example : .clearEof ∉ c14Later ∧
    (Session.run c14History (Session.start { data := [0x41, 0x05, 0x40, 0x41, 0x06], pos := 0, sched := [.short 0], seekable := true } true)).stream.eof = true := by
  refine ⟨by simp [c14Later], by decide +kernel⟩

/-- **C12, C14** Only reading elements sets the flag or moves the depth (other than to 0, where `seek` starts afresh): in any state, every other call except `clear_eof` leaves both as they are, whatever its outcome. -/
theorem c14_only_reading (c : SCall) (x : Session) (hr : c.reads = false) (hc : c ≠ .clearEof) :
    (c.exec x).state.stream.eof = x.stream.eof ∧
    ((c.exec x).state.stream.depth = x.stream.depth ∨ c.seeks = true ∧ (c.exec x).state.stream.depth = 0) :=
  scall_sameEof c x hr hc

end Fourleaf.Props
