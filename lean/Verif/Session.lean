import Verif.Keeps
import Verif.PropsTok

/-! # Sessions: any mixture of calls on one stream and the blob handles it hands out

The borrow checker allows a `Blob` handle to be used from the call that returned it until the next call on the stream. A session is a stream together with
the handle that may be used now. -/

namespace Fourleaf
open Spec Props

/-- A usable `Blob` handle (`src/stream.rs` 1104-1107): its field `len`; `seeked` (not in the source) records whether the client has called `seek` on it. -/
structure Handle where
  len : Nat
  seeked : Bool
  deriving Repr, DecidableEq

structure Session where
  stream : Stream
  handle : Option Handle

/-- Every call of the API of a `Stream` (`src/stream.rs` 304-1051), and every call on the current handle (1104-1364). The pure accessors are left out. -/
inductive SCall where
  | nextElement
  | nextField
  | skipUp (depth : Nat)
  | clearEof
  | setGracefulEof (b : Bool)
  | seek (w : SeekFrom)
  | resetPos (p : UInt64)
  /-- every writing call without a handle, and `commit` -/
  | write (c : WCall)
  | blobAlloc (tag : Byte) (len : UInt64)
  | exceptionAlloc (len : UInt64)
  | blobDynamic (tag : Byte)
  | exceptionDynamic
  | padToAlign (align : UInt64)
  /-- on the handle -/
  | onBlob (o : BlobOp)
  /-- `write_all` on the handle -/
  | blobWriteAll (buf : List Byte)

/-- `set_graceful_eof` (`src/stream.rs` 542-544). -/
def setGracefulEof (b : Bool) : M Err Stream Unit := M.modify fun s => { s with graceful := b }

/-- A call on the stream: the old handle is gone, `h` of the result is the new one. -/
def Session.onStream {α : Type} (m : M Err Stream α) (h : α → Option Nat) (x : Session) : Res Err Session Unit :=
  match m x.stream with
  | .ok a s => .ok () ⟨s, (h a).map fun n => ⟨n, false⟩⟩
  | .err e s => .err e ⟨s, none⟩

/-- A call on the handle, which stays usable. A program that makes such a call without a handle does not exist; in the model it is an error. -/
def Session.onHandle {α : Type} (seek : Bool) (m : Nat → M Err Stream α) (x : Session) : Res Err Session Unit :=
  match x.handle with
  | none => .err (.io .other) x
  | some h =>
    match m h.len x.stream with
    | .ok _ s => .ok () ⟨s, some ⟨h.len, h.seeked || seek⟩⟩
    | .err e s => .err e ⟨s, some ⟨h.len, h.seeked || seek⟩⟩

/-- Is this call a `seek`? -/
def BlobOp.isSeek : BlobOp → Bool
  | .seek _ => true
  | _ => false

/-- Execution of one call. -/
def SCall.exec : SCall → Session → Res Err Session Unit
  | .nextElement => Session.onStream Fourleaf.nextElement Element.blobLen?
  | .nextField => Session.onStream Fourleaf.nextField fun f => f.bind fun f => (Element.field f).blobLen?
  | .skipUp d => Session.onStream (Fourleaf.skipUp d) fun _ => none
  | .clearEof => Session.onStream Fourleaf.clearEof fun _ => none
  | .setGracefulEof b => Session.onStream (Fourleaf.setGracefulEof b) fun _ => none
  | .seek w => Session.onStream (streamSeek w) fun _ => none
  | .resetPos p => Session.onStream (Fourleaf.resetPos p.toNat) fun _ => none
  | .write c => Session.onStream c.exec fun _ => none
  | .blobAlloc tag len => Session.onStream (writeBlobAlloc tag len.toNat) fun _ => some len.toNat
  | .exceptionAlloc len => Session.onStream (writeExceptionAlloc len.toNat) fun _ => some len.toNat
  | .blobDynamic tag => Session.onStream (writeBlobDynamic tag) some
  | .exceptionDynamic => Session.onStream writeExceptionDynamic some
  | .padToAlign a => Session.onStream (Fourleaf.padToAlign a.toNat) fun _ => none
  | .onBlob o => Session.onHandle o.isSeek o.exec
  | .blobWriteAll buf => Session.onHandle false fun _ => writeAll blobWrite buf

/-- A history: the client makes these calls one after the other and goes on after errors. -/
def Session.run (cs : List SCall) (x : Session) : Session := cs.foldl (fun x c => (c.exec x).state) x

/-! ### The invariant -/

/-- Invariant of a stream in any session. -/
structure SInv (s : Stream) : Prop where
  pos_le : s.pos ≤ U64MAX
  eofDepth : s.eof = true → s.depth = 0
  pend : s.commit ≠ none → s.pos ≤ s.blobEnd ∧ s.blobEnd ≤ U64MAX
  dyn : s.commit = some .finishDyn → 10 ≤ s.dynStart
  liveOk : s.live = true → s.commit = some .skipBlob

theorem SInv.inv {s : Stream} (h : SInv s) (hc : s.commit = none) : Inv s :=
  ⟨h.pos_le, .inl hc, fun _ => hc, h.eofDepth, fun hl => by have := h.liveOk hl; rw [hc] at this; cases this⟩

theorem Inv.sinv {s : Stream} (h : Inv s) : SInv s where
  pos_le := h.pos_le
  eofDepth := h.eofDepth
  pend hc := by
    rcases h.pend with h' | ⟨-, h1, h2⟩
    · exact absurd h' hc
    · exact ⟨h1, h2⟩
  dyn hd := by
    rcases h.pend with h' | ⟨h', -⟩ <;> rw [hd] at h' <;> cases h'
  liveOk hl := (h.liveOk hl).1

/-- The outcome keeps the invariant and is neither a panic nor a hang. -/
structure Fine {α : Type} (r : Res Err Stream α) : Prop where
  inv : SInv r.state
  normal : ∀ e s', r = .err e s' → e.abnormal = false

theorem Fine.ok {α : Type} {a : α} {s : Stream} (h : SInv s) : Fine (.ok a s : Res Err Stream α) := ⟨h, by intro e s' h; cases h⟩
theorem Fine.err {α : Type} {e : Err} {s : Stream} (h : SInv s) (he : e.abnormal = false) : Fine (.err e s : Res Err Stream α) :=
  ⟨h, by intro e s' h; cases h; exact he⟩

theorem Fine.bind {α β : Type} {m : M Err Stream α} {f : α → M Err Stream β} {s : Stream} (h : Fine (m s))
    (hf : ∀ a s', m s = .ok a s' → SInv s' → Fine (f a s')) : Fine ((m >>= f) s) := by
  cases hr : m s with
  | ok a s' => rw [M.bind_ok hr]; rw [hr] at h; exact hf a s' hr h.inv
  | err e s' => rw [M.bind_err hr]; rw [hr] at h; exact ⟨h.inv, fun e' s'' h' => by cases h'; exact h.normal _ _ rfl⟩

theorem SafeRes.good {α : Type} {s : Stream} {r : Res Err Stream α} (h : SafeRes s r) : Fine r := ⟨h.step.inv.sinv, h.normal⟩

/-! ### Writing -/

/-- What `write_all` does, whatever the outcome: both positions advance together, only the data and the schedule change; once a byte has been written the
offset is within the data. -/
structure Adv (s s' : Stream) : Prop where
  eq : s' = { s with pos := s'.pos, inner := { s'.inner with seekable := s.inner.seekable } }
  low : s.pos ≤ s'.pos
  off : s'.pos + s.inner.pos = s.pos + s'.inner.pos
  fits : s.pos ≤ U64MAX → s'.pos ≤ U64MAX
  grow : s.inner.data.length ≤ s'.inner.data.length
  upto : s'.inner.data.length ≤ max s.inner.data.length s'.inner.pos
  within : s.pos < s'.pos ∨ s.inner.pos ≤ s.inner.data.length → s'.inner.pos ≤ s'.inner.data.length

theorem Adv.refl (s : Stream) : Adv s s := ⟨rfl, Nat.le_refl _, rfl, id, Nat.le_refl _, by omega, fun h => by omega⟩

theorem Adv.trans {a b c : Stream} (h : Adv a b) (h' : Adv b c) : Adv a c := by
  refine ⟨?_, Nat.le_trans h.low h'.low, ?_, fun hp => h'.fits (h.fits hp), Nat.le_trans h.grow h'.grow, ?_, fun hp => ?_⟩
  · have e := h'.eq
    rw [h.eq] at e
    exact e
  · have := h.off; have := h'.off; omega
  · have := h.upto; have := h'.upto; have := h.off; have := h'.off; have := h'.low; omega
  · have h1 := h.within
    have h2 := h'.within
    by_cases hb : b.pos < c.pos
    · exact h2 (.inl hb)
    · have := h'.low
      refine h2 (.inr (h1 ?_))
      rcases hp with hp | hp
      · exact .inl (by omega)
      · exact .inr hp

theorem Adv.sched {s : Stream} (sc : List Ev) : Adv s { s with inner := { s.inner with sched := sc } } :=
  ⟨rfl, Nat.le_refl _, rfl, id, Nat.le_refl _, by simp; omega, fun h => by simp at h ⊢; omega⟩

theorem splice_length_eq (data : List Byte) (pos : Nat) (c : List Byte) : (splice data pos c).length = max data.length (pos + c.length) := by
  unfold splice; simp; omega

theorem Adv.advW {s : Stream} (b : List Byte) (sc : List Ev) (h : s.pos + b.length ≤ U64MAX) (hb : b ≠ []) : Adv s (advW s b sc) := by
  have : 0 < b.length := by cases b with | nil => exact absurd rfl hb | cons => simp
  unfold Fourleaf.advW
  refine ⟨rfl, by simp, by simp; omega, fun _ => h, ?_, ?_, fun _ => ?_⟩ <;> simp only [splice_length_eq] <;> omega

theorem trackWrite_adv (buf : List Byte) (s : Stream) : Adv s (trackWrite buf s).state ∧
    (∀ e s', trackWrite buf s = .err e s' → e.abnormal = false) ∧ (trackWrite buf s).state.pos ≤ s.pos + buf.length := by
  by_cases hb : buf = []
  · subst hb
    exact ⟨.refl s, (fun e s' h => by cases h), Nat.le_refl _⟩
  · rcases trackWrite_cases buf hb s with ⟨h1, h2⟩ | ⟨k, sc, hk0, hk, hsc, hlt, hall, h2⟩ | ⟨sc, hsc, hlt, h2⟩ | ⟨sc, h1, hsc, h2 | h2⟩
    · rw [h2]; exact ⟨.refl s, (fun e s' h => by cases h; rfl), by simp⟩
    · rw [h2]
      have hlen : (buf.take k).length = k := by simp; omega
      have hfit : ¬ (U64MAX - s.pos < buf.length) := by
        intro h'
        unfold trackWrite at h2
        rw [if_neg hb, if_pos h'] at h2; cases h2
      refine ⟨Adv.advW _ _ (by omega) (by intro h'; rw [h'] at hlen; simp at hlen; omega), (fun e s' h => by cases h), ?_⟩
      simp [advW]; omega
    · rw [h2]; exact ⟨.sched sc, (fun e s' h => by cases h; rfl), by simp⟩
    · rw [h2]; exact ⟨.sched sc, (fun e s' h => by cases h; rfl), by simp⟩
    · rw [h2]; exact ⟨.sched sc, (fun e s' h => by cases h), by simp⟩

/-- A `write` that passes on some of the first bytes of the buffer: `trackWrite` and `blobWrite`. -/
structure Passes (wr : List Byte → M Err Stream Nat) : Prop where
  pass : ∀ buf s, ∃ k, wr buf s = trackWrite (buf.take k) s
  /-- without a schedule a call that does not take everything is followed by one that takes nothing -/
  full : ∀ buf s n s', s.inner.sched = [] → wr buf s = .ok n s' → buf.drop n ≠ [] → wr (buf.drop n) s' = .ok 0 s'

theorem writeAllLoop_adv {wr : List Byte → M Err Stream Nat} (h : Passes wr) : ∀ (fuel : Nat) (buf : List Byte) (s : Stream),
    s.inner.sched.length + 2 ≤ fuel →
    Adv s (writeAllLoop wr fuel buf s).state ∧ (∀ e s', writeAllLoop wr fuel buf s = .err e s' → e.abnormal = false) ∧
    (∀ u s', writeAllLoop wr fuel buf s = .ok u s' → s'.pos = s.pos + buf.length) := by
  intro fuel
  induction fuel with
  | zero => intro buf s hf; omega
  | succ fuel ih =>
    intro buf s hf
    rw [writeAllLoop]
    by_cases hb : buf = []
    · rw [if_pos hb]; exact ⟨.refl s, (fun e s' h' => by cases h'), fun u s' h' => by cases h'; simp [hb]⟩
    · rw [if_neg hb]
      obtain ⟨k, hk⟩ := h.pass buf s
      by_cases hz : buf.take k = []
      · rw [hk, hz]
        exact ⟨.refl s, (fun e s' h' => by cases h'; rfl), fun u s' h' => by cases h'⟩
      · have hT := trackWrite_adv (buf.take k) s
        rcases trackWrite_cases _ hz s with ⟨h1, h2⟩ | ⟨j, sc, hj0, hj, hsc, hlt, hall, h2⟩ | ⟨sc, hsc, hlt, h2⟩ | ⟨sc, h1, hsc, h2 | h2⟩
        · rw [hk, h2]; exact ⟨.refl s, (fun e s' h' => by cases h'; rfl), fun u s' h' => by cases h'⟩
        · rw [h2] at hT hk
          rw [hk]
          simp only
          rw [if_neg (by omega)]
          have hjl : j ≤ buf.length := by simp at hj; omega
          have hpos : (advW s ((buf.take k).take j) sc).pos = s.pos + j := by simp [advW]; simp at hj; omega
          by_cases hs : s.inner.sched = []
          · by_cases hd : buf.drop j = []
            · obtain ⟨fuel', rfl⟩ : ∃ f, fuel = f + 1 := ⟨fuel - 1, by omega⟩
              rw [hd, writeAllLoop, if_pos rfl]
              have : buf.length ≤ j := by simpa using hd
              refine ⟨hT.1, (fun e s' h' => by cases h'), fun u s' h' => ?_⟩
              cases h'; omega
            · have := h.full buf s j _ hs hk hd
              obtain ⟨fuel', rfl⟩ : ∃ f, fuel = f + 1 := ⟨fuel - 1, by omega⟩
              rw [writeAllLoop, if_neg hd, this]
              exact ⟨hT.1, (fun e s' h' => by cases h'; rfl), fun u s' h' => by cases h'⟩
          · have := hlt hs
            have hrec := ih (buf.drop j) (advW s ((buf.take k).take j) sc) (by show sc.length + 2 ≤ fuel; omega)
            refine ⟨hT.1.trans hrec.1, hrec.2.1, fun u s' h' => ?_⟩
            have := hrec.2.2 u s' h'
            rw [this, hpos]; simp; omega
        · rw [hk, h2]
          have hrec := ih buf { s with inner := { s.inner with sched := sc } } (by show sc.length + 2 ≤ fuel; omega)
          exact ⟨(Adv.sched sc).trans hrec.1, hrec.2.1, hrec.2.2⟩
        · rw [hk, h2]
          exact ⟨.sched sc, (fun e s' h' => by cases h'; rfl), fun u s' h' => by cases h'⟩
        · rw [hk, h2]
          exact ⟨.sched sc, (fun e s' h' => by cases h'; rfl), fun u s' h' => by cases h'⟩

theorem passes_track : Passes trackWrite where
  pass buf s := ⟨buf.length, by rw [List.take_of_length_le (Nat.le_refl _)]⟩
  full buf s n s' hs h hd := by
    by_cases hb : buf = []
    · subst hb; simp at hd
    · rcases trackWrite_cases buf hb s with ⟨h1, h2⟩ | ⟨k, sc, hk0, hk, hsc, hlt, hall, h2⟩ | ⟨sc, hsc, hlt, h2⟩ | ⟨sc, h1, hsc, h2 | h2⟩
      · rw [h2] at h; cases h
      · rw [h2] at h
        cases h
        rw [hall hs] at hd
        simp at hd
      · rw [h2] at h; cases h
      · rw [h2] at h; cases h
      · rw [hs] at h1; exact absurd (by intro e he; cases he) h1

theorem passes_blob : Passes blobWrite where
  pass buf s := ⟨blobRemaining s, rfl⟩
  full buf s n s' hs h hd := by
    unfold blobWrite at h ⊢
    by_cases hb : buf.take (blobRemaining s) = []
    · rw [hb] at h
      cases h
      simp only [List.drop_zero]
      rw [hb]; rfl
    · rcases trackWrite_cases _ hb s with ⟨h1, h2⟩ | ⟨k, sc, hk0, hk, hsc, hlt, hall, h2⟩ | ⟨sc, hsc, hlt, h2⟩ | ⟨sc, h1, hsc, h2 | h2⟩
      · rw [h2] at h; cases h
      · rw [h2] at h
        cases h
        have hkk := hall hs
        simp only [List.length_take] at hkk
        have : buf.length ≠ n := by intro h'; rw [← h'] at hd; simp at hd
        have : blobRemaining (advW s ((buf.take (blobRemaining s)).take n) sc) = 0 := by
          unfold advW blobRemaining at *; simp; omega
        rw [this]; rfl
      · rw [h2] at h; cases h
      · rw [h2] at h; cases h
      · rw [hs] at h1; exact absurd (by intro e he; cases he) h1

theorem writeAll_track_adv (buf : List Byte) (s : Stream) :
    Adv s (writeAll trackWrite buf s).state ∧ (∀ e s', writeAll trackWrite buf s = .err e s' → e.abnormal = false) ∧
    (∀ u s', writeAll trackWrite buf s = .ok u s' → s'.pos = s.pos + buf.length) :=
  writeAllLoop_adv passes_track _ buf s (Nat.le_refl _)

theorem writeAll_blob_adv (buf : List Byte) (s : Stream) :
    Adv s (writeAll blobWrite buf s).state ∧ (∀ e s', writeAll blobWrite buf s = .err e s' → e.abnormal = false) ∧
    (∀ u s', writeAll blobWrite buf s = .ok u s' → s'.pos = s.pos + buf.length) :=
  writeAllLoop_adv passes_blob _ buf s (Nat.le_refl _)

theorem writeAllLoop_upto {wr : List Byte → M Err Stream Nat} (h : Passes wr) : ∀ (fuel : Nat) (buf : List Byte) (s : Stream),
    (writeAllLoop wr fuel buf s).state.pos ≤ s.pos + buf.length := by
  intro fuel
  induction fuel with
  | zero => intro buf s; simp [writeAllLoop]
  | succ fuel ih =>
    intro buf s
    rw [writeAllLoop]
    by_cases hb : buf = []
    · rw [if_pos hb]; simp
    · rw [if_neg hb]
      obtain ⟨k, hk⟩ := h.pass buf s
      have hT := (trackWrite_adv (buf.take k) s).2.2
      simp only [List.length_take] at hT
      rw [hk]
      by_cases hz : buf.take k = []
      · rw [hz]; simp [trackWrite]
      rcases trackWrite_cases _ hz s with ⟨h1, h2⟩ | ⟨j, sc, hj0, hj, hsc, hlt, hall, h2⟩ | ⟨sc, hsc, hlt, h2⟩ | ⟨sc, h1, hsc, h2 | h2⟩
      · rw [h2]; simp [posOverflow]
      · rw [h2]
        simp only
        rw [if_neg (by omega)]
        have := ih (buf.drop j) (advW s ((buf.take k).take j) sc)
        simp [advW] at this hj ⊢
        omega
      · rw [h2]; exact ih buf _
      · rw [h2]; simp
      · rw [h2]; simp

theorem writeAll_track_upto (buf : List Byte) (s : Stream) : (writeAll trackWrite buf s).state.pos ≤ s.pos + buf.length :=
  writeAllLoop_upto passes_track _ buf s

theorem Adv.commit {s s' : Stream} (h : Adv s s') : s'.commit = s.commit := by rw [h.eq]
theorem Adv.eof {s s' : Stream} (h : Adv s s') : s'.eof = s.eof := by rw [h.eq]
theorem Adv.depth {s s' : Stream} (h : Adv s s') : s'.depth = s.depth := by rw [h.eq]
theorem Adv.blobEnd {s s' : Stream} (h : Adv s s') : s'.blobEnd = s.blobEnd := by rw [h.eq]
theorem Adv.dynStart {s s' : Stream} (h : Adv s s') : s'.dynStart = s.dynStart := by rw [h.eq]
theorem Adv.live {s s' : Stream} (h : Adv s s') : s'.live = s.live := by rw [h.eq]

/-- Writing directly to a stream on which nothing is pending. -/
theorem Adv.sinv {s s' : Stream} (h : Adv s s') (hs : SInv s) (hc : s.commit = none) : SInv s' where
  pos_le := h.fits hs.pos_le
  eofDepth he := by rw [h.depth]; exact hs.eofDepth (h.eof ▸ he)
  pend hp := absurd (h.commit.trans hc) hp
  dyn hp := by rw [h.commit, hc] at hp; cases hp
  liveOk hl := by rw [h.commit]; exact hs.liveOk (h.live ▸ hl)

/-- A seek, successful or not, on the byte stream. -/
theorem innerSeek_out (w : SeekFrom) (s : Stream) :
    (∃ p, p ≤ U64MAX ∧ (p : Int) = w.target s.inner ∧ innerSeek w s = .ok p { s with inner := { s.inner with pos := p } }) ∨
    (∃ e sc, sc <:+ s.inner.sched ∧ e.abnormal = false ∧ innerSeek w s = .err e { s with inner := { s.inner with sched := sc } }) := by
  rcases innerSeek_cases w s with ⟨-, h1, h2, -, h⟩ | ⟨-, -, -, h⟩ | ⟨-, -, h⟩ | ⟨-, h⟩
  · exact .inl ⟨_, by omega, by omega, h⟩
  · exact .inr ⟨_, s.inner.sched, List.suffix_refl _, rfl, h⟩
  · exact .inr ⟨_, s.inner.sched.tail, List.tail_suffix _, rfl, h⟩
  · exact .inr ⟨_, s.inner.sched, List.suffix_refl _, rfl, h⟩

/-- Losing an event of the schedule does not matter to the invariant of a session. -/
theorem SInv.slip {s : Stream} (h : SInv s) (sc : List Ev) : SInv { s with inner := { s.inner with sched := sc } } :=
  ⟨h.pos_le, h.eofDepth, h.pend, h.dyn, h.liveOk⟩

/-- `finish_dynamic_blob` in any session. -/
theorem finishDyn_good {s : Stream} (h : SInv s) (hc : s.commit = some .finishDyn) :
    Fine (finishDynamicBlob s) ∧ (finishDynamicBlob s).state.commit = s.commit ∧
    (∀ u s', finishDynamicBlob s = .ok u s' → s'.eof = s.eof ∧ s'.depth = s.depth ∧ s'.pos = s.pos ∧
      s'.inner.data.length - s'.inner.pos ≤ s.inner.data.length - s.inner.pos) := by
  have hp := h.pend (by rw [hc]; simp)
  have hd := h.dyn hc
  unfold finishDynamicBlob
  simp only
  split
  · exact ⟨.err h rfl, rfl, fun u s' h' => by cases h'⟩
  · rename_i hlt
    rw [if_neg (by omega)]
    split
    · exact ⟨.err h rfl, rfl, fun u s' h' => by cases h'⟩
    · rcases innerSeek_out (.current (-((s.pos - (s.dynStart - 10) : Nat) : Int))) s with ⟨p, p1, p2, h1⟩ | ⟨e, sc, -, he, h1⟩
      · rw [M.bind_ok h1, M.bind_ok (M.modify_apply _ _)]
        simp only
        generalize hs1 : ({ s with inner := { s.inner with pos := p }, pos := s.pos - (s.pos - (s.dynStart - 10)) } : Stream) = s1
        have hs1p : s1.pos = s.dynStart - 10 := by rw [← hs1]; simp; omega
        have hs1i : s1.inner.pos = p := by rw [← hs1]
        simp only [SeekFrom.target] at p2
        have hA := writeAll_track_adv (encodeFixedU64 (UInt64.ofNat (s.pos - s.dynStart))) s1
        have hle : ∀ s2, Adv s1 s2 → s2.pos ≤ s1.pos + 10 → SInv s2 ∧ s2.commit = s.commit := by
          intro s2 ha hle
          refine ⟨⟨ha.fits (by have := h.pos_le; omega), fun he => ?_, fun _ => ?_, fun _ => ?_, fun hl => ?_⟩, ?_⟩
          · rw [ha.depth, ← hs1]; refine h.eofDepth ?_; rw [ha.eof, ← hs1] at he; exact he
          · rw [ha.blobEnd, ← hs1]; exact ⟨by show s2.pos ≤ s.blobEnd; omega, hp.2⟩
          · rw [ha.dynStart, ← hs1]; exact hd
          · rw [ha.commit, ← hs1]; refine h.liveOk ?_; rw [ha.live, ← hs1] at hl; exact hl
          · rw [ha.commit, ← hs1]
        cases hr : encodeFixedS (UInt64.ofNat (s.pos - s.dynStart)) s1 with
        | err e s2 =>
          rw [M.bind_err hr]
          unfold encodeFixedS at hr
          rw [hr] at hA
          have hpos : s2.pos ≤ s1.pos + 10 := by
            have := writeAll_track_upto (encodeFixedU64 (UInt64.ofNat (s.pos - s.dynStart))) s1
            rw [hr, encodeFixedU64_length] at this; exact this
          have := hle s2 hA.1 hpos
          exact ⟨.err this.1 (hA.2.1 _ _ rfl), this.2, fun u s' h' => by cases h'⟩
        | ok u s2 =>
          rw [M.bind_ok hr]
          unfold encodeFixedS at hr
          rw [hr] at hA
          have hA1 : Adv s1 s2 := hA.1
          have hpos : s2.pos = s1.pos + 10 := by have := hA.2.2 _ _ rfl; rw [encodeFixedU64_length] at this; exact this
          have h2 := hle s2 hA.1 (by omega)
          have hoff := hA1.off
          rcases innerSeek_out (.current ((s.pos - s.dynStart : Nat) : Int)) s2 with ⟨q, q1, q2, h3⟩ | ⟨e, sc, -, he, h3⟩
          · rw [M.bind_ok h3, M.modify_apply]
            simp only [SeekFrom.target] at q2
            refine ⟨.ok ⟨h.pos_le, h2.1.eofDepth, fun hcc => ?_, h2.1.dyn, h2.1.liveOk⟩, h2.2, fun u' s' h' => ?_⟩
            · have := h2.1.pend hcc
              have hb : s2.blobEnd = s.blobEnd := by rw [hA1.blobEnd, ← hs1]
              exact ⟨by show s.pos ≤ s2.blobEnd; omega, this.2⟩
            · cases h'
              refine ⟨by show s2.eof = s.eof; rw [hA1.eof, ← hs1], by show s2.depth = s.depth; rw [hA1.depth, ← hs1], rfl, ?_⟩
              have hu := hA1.upto
              have hd1 : s1.inner.data = s.inner.data := by rw [← hs1]
              rw [hd1] at hu
              show s2.inner.data.length - q ≤ s.inner.data.length - s.inner.pos
              omega
          · rw [M.bind_err h3]
            exact ⟨.err (h2.1.slip sc) he, h2.2, fun u s' h' => by cases h'⟩
      · rw [M.bind_err h1]
        exact ⟨.err (h.slip sc) he, rfl, fun u s' h' => by cases h'⟩

/-- `commit` in any session. -/
theorem commit_good {s : Stream} (h : SInv s) :
    Fine (commit s) ∧ (∀ u s', commit s = .ok u s' → s'.commit = none ∧ s'.eof = s.eof ∧ s'.depth = s.depth ∧
      s'.inner.data.length - s'.inner.pos ≤ s.inner.data.length - s.inner.pos) := by
  unfold commit
  cases hc : s.commit with
  | none => exact ⟨.ok h, fun u s' h' => by cases h'; exact ⟨hc, rfl, rfl, Nat.le_refl _⟩⟩
  | some c =>
    have hp := h.pend (by rw [hc]; simp)
    have wrap : ∀ m : M Err Stream Unit, Fine (m s) → (m s).state.commit = s.commit →
        (∀ u s', m s = .ok u s' → s'.eof = s.eof ∧ s'.depth = s.depth ∧
          s'.inner.data.length - s'.inner.pos ≤ s.inner.data.length - s.inner.pos) →
        let r : Res Err Stream Unit := match m s with
          | .ok _ s' => .ok () { s' with commit := none, live := false }
          | .err e s' => .err e { s' with live := false }
        Fine r ∧ (∀ u s', r = .ok u s' → s'.commit = none ∧ s'.eof = s.eof ∧ s'.depth = s.depth ∧
          s'.inner.data.length - s'.inner.pos ≤ s.inner.data.length - s.inner.pos) := by
      intro m h1 h2 h3
      cases hr : m s with
      | ok u s' =>
        rw [hr] at h1
        obtain ⟨a, b, c⟩ := h3 _ _ hr
        have := h1.inv
        refine ⟨.ok ⟨this.pos_le, this.eofDepth, fun h' => absurd rfl h', fun h' => (by cases h'), fun h' => (by cases h')⟩, fun u s'' h' => ?_⟩
        cases h'; exact ⟨rfl, a, b, c⟩
      | err e s' =>
        rw [hr] at h1
        have := h1.inv
        refine ⟨.err ⟨this.pos_le, this.eofDepth, this.pend, this.dyn, fun h' => (by cases h')⟩ (h1.normal _ _ rfl), fun u s'' h' => by cases h'⟩
    cases c with
    | skipBlob =>
      refine wrap skipBlob ?_ ?_ ?_
      all_goals obtain ⟨k, sc, hk, hsc, hh⟩ := skipBlob_spec hp.1 hp.2
      all_goals have hs : SInv (advBy s k sc) :=
        ⟨by simp; omega, h.eofDepth, fun _ => ⟨by simp; omega, hp.2⟩, h.dyn, h.liveOk⟩
      all_goals rcases hh with ⟨h1, h2⟩ | ⟨h1, h2, h3⟩ | ⟨h1, h2⟩
      all_goals first | rw [h2] | rw [h3]
      · exact .ok hs
      · exact .err hs rfl
      · exact .err hs rfl
      · rfl
      · rfl
      · rfl
      · intro u s' h'; cases h'; exact ⟨rfl, rfl, by simp; omega⟩
      · intro u s' h'; cases h'
      · intro u s' h'; cases h'
    | checkEnd =>
      have : checkAtEndOfBlob s = .ok () s ∨ checkAtEndOfBlob s = .err (.incompleteBlob (s.blobEnd - s.pos)) s := by
        unfold checkAtEndOfBlob
        split
        · rw [if_neg (by omega)]; exact .inr rfl
        · exact .inl rfl
      refine wrap checkAtEndOfBlob ?_ ?_ ?_
      all_goals rcases this with h1 | h1 <;> rw [h1]
      · exact .ok h
      · exact .err h rfl
      · rfl
      · rfl
      · intro u s' h'; cases h'; exact ⟨rfl, rfl, Nat.le_refl _⟩
      · intro u s' h'; cases h'
    | finishDyn =>
      obtain ⟨h1, h2, h3⟩ := finishDyn_good h hc
      exact wrap finishDynamicBlob h1 h2 fun u s' h' => ⟨(h3 u s' h').1, (h3 u s' h').2.1, (h3 u s' h').2.2.2⟩

/-! ### Reading -/

theorem nextElementImpl_committed (sp : Bool) {s s1 : Stream} {u : Unit} (he : s.eof = false) (h : commit s = .ok u s1) (hc : s1.commit = none) (he1 : s1.eof = false) :
    nextElementImpl sp s = nextElementImpl sp s1 := by
  unfold nextElementImpl
  rw [he, he1]
  simp only [Bool.false_eq_true, if_false]
  rw [M.bind_ok h, M.bind_ok (show commit s1 = .ok () s1 by unfold commit; rw [hc])]

/-- The element read, if it carries a blob, hands out a handle. -/
def HandsOut {α : Type} (f : α → Option Nat) (r : Res Err Stream α) : Prop :=
  ∀ a s', r = .ok a s' → ∀ n, f a = some n → Handed n s' ∧ s'.commit ≠ none

theorem nextElementImpl_fine (sp : Bool) {s : Stream} (h : SInv s) :
    Fine (nextElementImpl sp s) ∧ HandsOut Element.blobLen? (nextElementImpl sp s) := by
  by_cases he : s.eof = true
  · have : nextElementImpl sp s = .ok .endOfDoc s := by unfold nextElementImpl; rw [if_pos he]
    rw [this]
    exact ⟨.ok h, fun a s' h' n hn => by cases h'; cases hn⟩
  · have he : s.eof = false := by simpa using he
    have hC := commit_good h
    cases hr : commit s with
    | err e s1 =>
      have : nextElementImpl sp s = .err e s1 := by
        unfold nextElementImpl; rw [he]; simp only [Bool.false_eq_true, if_false]; rw [M.bind_err hr]
      rw [this]
      rw [hr] at hC
      exact ⟨.err hC.1.inv (hC.1.normal _ _ rfl), fun a s' h' => by cases h'⟩
    | ok u s1 =>
      rw [hr] at hC
      obtain ⟨c1, c2, -, -⟩ := hC.2 _ _ rfl
      rw [nextElementImpl_committed sp he hr c1 (c2.trans he)]
      have hi : Inv s1 := hC.1.inv.inv c1
      have hs := (nextElementImpl_safe sp hi).1
      refine ⟨hs.good, fun a s' h' n hn => ?_⟩
      have hsh := nextElementImpl_shape hi h'
      unfold Shape at hsh
      rw [hn] at hsh
      obtain ⟨h1, h2, h3⟩ := hsh
      rw [h'] at hs
      have hi' := hs.step.inv
      simp only [Res.state_ok] at hi'
      refine ⟨⟨h2.symm, ?_, (hi'.liveOk h3).2⟩, by rw [h1]; simp⟩
      rcases hi'.pend with h | ⟨-, -, h⟩
      · rw [h1] at h; cases h
      · exact h

theorem nextField_fine {s : Stream} (h : SInv s) :
    Fine (nextField s) ∧ HandsOut (fun f : Option Field => f.bind fun f => (Element.field f).blobLen?) (nextField s) := by
  obtain ⟨h1, h2⟩ := nextElementImpl_fine true h
  by_cases he : s.eof = true
  · have : nextField s = .ok none s := by
      unfold nextField
      rw [M.bind_ok (show nextElementImpl true s = .ok .endOfDoc s by unfold nextElementImpl; rw [if_pos he])]
      rfl
    rw [this]
    exact ⟨.ok h, fun a s' h' n hn => by cases h'; cases hn⟩
  · have he : s.eof = false := by simpa using he
    have hC := commit_good h
    refine ⟨?_, ?_⟩
    · cases hr : commit s with
      | err e s1 =>
        have : nextElementImpl true s = .err e s1 := by
          unfold nextElementImpl; rw [he]; simp only [Bool.false_eq_true, if_false]; rw [M.bind_err hr]
        unfold nextField
        rw [M.bind_err this]
        rw [hr] at hC
        exact .err hC.1.inv (hC.1.normal _ _ rfl)
      | ok u s1 =>
        rw [hr] at hC
        obtain ⟨c1, c2, -, -⟩ := hC.2 _ _ rfl
        have hi : Inv s1 := hC.1.inv.inv c1
        have : nextField s = nextField s1 := by
          unfold nextField
          rw [M.bind_apply, M.bind_apply, nextElementImpl_committed true he hr c1 (c2.trans he)]
        rw [this]
        exact (nextField_safe hi).1.good
    · intro a s' h' n hn
      unfold nextField at h'
      cases hr : nextElementImpl true s with
      | err e s1 => rw [M.bind_err hr] at h'; cases h'
      | ok e s1 =>
        rw [M.bind_ok hr] at h'
        cases e with
        | padding => cases h'
        | endOfStruct => cases h'; cases hn
        | endOfDoc => cases h'; cases hn
        | field f => cases h'; exact h2 _ _ hr n hn
        | exception k =>
          dsimp only at h'
          cases hm : readOrTrunc 256 s1 with
          | ok m s3 => rw [M.bind_ok hm] at h'; cases h'
          | err e s3 => rw [M.bind_err hm] at h'; cases h'

theorem skipUp_fine (d : Nat) {s : Stream} (h : SInv s) : Fine (skipUp d s) := by
  unfold skipUp
  rw [skipUpLoop]
  split
  · rename_i hd
    have he : s.eof = false := by
      cases he : s.eof with
      | false => rfl
      | true => have := h.eofDepth he; omega
    have hC := commit_good h
    cases hr : commit s with
    | err e s1 =>
      have : nextElement s = .err e s1 := by
        unfold nextElement nextElementImpl; rw [he]; simp only [Bool.false_eq_true, if_false]; rw [M.bind_err hr]
      rw [M.bind_err this]
      rw [hr] at hC
      exact .err hC.1.inv (hC.1.normal _ _ rfl)
    | ok u s1 =>
      rw [hr] at hC
      obtain ⟨c1, c2, c3, c4⟩ := hC.2 _ _ rfl
      have hi : Inv s1 := hC.1.inv.inv c1
      have hs := skipUpLoop_safe d (s.inner.data.length - s.inner.pos + 1 + 1) s1 hi (by
        have : vpos s1 = s1.inner.pos := by unfold vpos; rw [c1]; simp
        rw [this]; omega)
      rw [skipUpLoop, if_pos (by omega)] at hs
      have e : nextElement s = nextElement s1 := nextElementImpl_committed false he hr c1 (c2.trans he)
      rw [M.bind_apply] at hs ⊢
      rw [e]
      exact hs.good
  · exact .ok h

/-! ### The other calls on the stream -/

theorem writeDesc_good (d : Desc) {s : Stream} (h : SInv s) :
    Fine (writeDesc d s) ∧ (∀ u s', writeDesc d s = .ok u s' → s'.commit = none ∧ s'.inner.pos ≤ s'.inner.data.length ∧ 0 < s'.pos) := by
  have hC := commit_good h
  unfold writeDesc
  cases hr : commit s with
  | err e s1 =>
    rw [M.bind_err hr]
    rw [hr] at hC
    exact ⟨.err hC.1.inv (hC.1.normal _ _ rfl), fun u s' h' => by cases h'⟩
  | ok u s1 =>
    rw [hr] at hC
    rw [M.bind_ok hr]
    obtain ⟨c1, -, -, -⟩ := hC.2 _ _ rfl
    have hA := writeAll_track_adv [d.toByte] s1
    refine ⟨⟨hA.1.sinv hC.1.inv c1, hA.2.1⟩, fun u s' h' => ?_⟩
    have hpos := hA.2.2 _ _ h'
    rw [h'] at hA
    have hA1 : Adv s1 s' := hA.1
    simp at hpos
    exact ⟨hA1.commit.trans c1, hA1.within (.inl (by omega)), by omega⟩

theorem track_good (buf : List Byte) {s : Stream} (h : SInv s) (hc : s.commit = none) :
    Fine (writeAll trackWrite buf s) ∧ (∀ u s', writeAll trackWrite buf s = .ok u s' → Adv s s' ∧ s'.commit = none ∧ s'.pos = s.pos + buf.length) := by
  have hA := writeAll_track_adv buf s
  refine ⟨⟨hA.1.sinv h hc, hA.2.1⟩, fun u s' h' => ?_⟩
  have hpos := hA.2.2 _ _ h'
  rw [h'] at hA
  have hA1 : Adv s s' := hA.1
  exact ⟨hA1, hA1.commit.trans hc, hpos⟩

theorem writeU64_good (tag : Byte) (n : UInt64) {s : Stream} (h : SInv s) : Fine (writeU64 tag n s) := by
  have hD := writeDesc_good (.pair .integer tag) h
  exact hD.1.bind fun u s' h' hs' => (track_good _ hs' (hD.2 _ _ h').1).1

theorem writeEnum_good (tag : Byte) (n : UInt64) {s : Stream} (h : SInv s) : Fine (writeEnum tag n s) := by
  have hD := writeDesc_good (.pair .enum tag) h
  exact hD.1.bind fun u s' h' hs' => (track_good _ hs' (hD.2 _ _ h').1).1

theorem encodeU64_length_le (n : UInt64) : (encodeU64 n).length ≤ 10 := by
  rw [encodeU64_short]; exact shortInt_length _ n.toNat_lt

theorem allocDesc_good (d : Desc) (len : Nat) {s : Stream} (h : SInv s) :
    Fine (writeBlobAllocDesc d len s) ∧ HandsOut (fun _ => some len) (writeBlobAllocDesc d len s) := by
  unfold writeBlobAllocDesc
  have hC := commit_good h
  cases hr : commit s with
  | err e s1 =>
    rw [M.bind_err hr]
    rw [hr] at hC
    exact ⟨.err hC.1.inv (hC.1.normal _ _ rfl), fun u s' h' => by cases h'⟩
  | ok u s1 =>
    rw [hr] at hC
    rw [M.bind_ok hr, M.ite_apply]
    obtain ⟨c1, -, -, -⟩ := hC.2 _ _ rfl
    have hs1 := hC.1.inv
    simp only [Res.state_ok] at hs1
    split
    · exact ⟨.err hs1 rfl, fun u s' h' => by cases h'⟩
    · rename_i hlen
      rw [M.bind_apply, checkAdvance_eq]
      by_cases hadv : U64MAX - s1.pos < len + 11
      · rw [if_pos hadv]; exact ⟨.err hs1 rfl, fun u s' h' => by cases h'⟩
      · rw [if_neg hadv]
        simp only
        have hD := writeDesc_good d hs1
        cases hd : writeDesc d s1 with
        | err e s2 =>
          rw [M.bind_err hd]
          rw [hd] at hD
          exact ⟨.err hD.1.inv (hD.1.normal _ _ rfl), fun u s' h' => by cases h'⟩
        | ok u2 s2 =>
          rw [M.bind_ok hd]
          have hwr := hd
          unfold writeDesc at hwr
          rw [M.bind_ok (show commit s1 = .ok () s1 by unfold commit; rw [c1])] at hwr
          have hp2 : s2.pos = s1.pos + 1 := (writeAll_track_adv _ _).2.2 _ _ hwr
          rw [hd] at hD
          obtain ⟨d1, d2, -⟩ := hD.2 _ _ rfl
          have hs2 := hD.1.inv
          simp only [Res.state_ok] at hs2
          have hE := track_good (encodeU64 (UInt64.ofNat len)) hs2 d1
          show Fine (((do encodeS (UInt64.ofNat len); M.modify _ : M Err Stream Unit)) s2) ∧ _
          cases he : encodeS (UInt64.ofNat len) s2 with
          | err e s3 =>
            rw [M.bind_err he]
            unfold encodeS at he
            rw [he] at hE
            exact ⟨.err hE.1.inv (hE.1.normal _ _ rfl), fun u s' h' => by cases h'⟩
          | ok u3 s3 =>
            rw [M.bind_ok he, M.modify_apply]
            unfold encodeS at he
            rw [he] at hE
            obtain ⟨e1, e2, e3⟩ := hE.2 _ _ rfl
            have hs3 := hE.1.inv
            simp only [Res.state_ok] at hs3
            have h10 := encodeU64_length_le (UInt64.ofNat len)
            refine ⟨.ok ⟨hs3.pos_le, hs3.eofDepth, fun _ => ⟨?_, ?_⟩, fun h' => (by cases h'), fun hl => ?_⟩, fun u s' h' n hn => ?_⟩
            · simp
            · show s3.pos + len ≤ U64MAX; omega
            · have := hs3.liveOk hl; rw [e2] at this; cases this
            · cases h'; cases hn
              refine ⟨⟨rfl, by show s3.pos + len ≤ U64MAX; omega, e1.within (.inr d2)⟩, by simp⟩

/-- Writing to a handle. -/
theorem Adv.sinv_blob {s s' : Stream} (h : Adv s s') (hs : SInv s) (hb : s.commit ≠ none → s'.pos ≤ s'.blobEnd) : SInv s' where
  pos_le := h.fits hs.pos_le
  eofDepth he := by rw [h.depth]; exact hs.eofDepth (h.eof ▸ he)
  pend hp := ⟨hb (h.commit ▸ hp), by rw [h.blobEnd]; exact (hs.pend (h.commit ▸ hp)).2⟩
  dyn hp := by rw [h.dynStart]; exact hs.dyn (h.commit ▸ hp)
  liveOk hl := by rw [h.commit]; exact hs.liveOk (h.live ▸ hl)

theorem writeAllLoop_end : ∀ (fuel : Nat) (buf : List Byte) (s : Stream), s.pos ≤ s.blobEnd →
    (writeAllLoop blobWrite fuel buf s).state.pos ≤ s.blobEnd ∧ (writeAllLoop blobWrite fuel buf s).state.blobEnd = s.blobEnd := by
  intro fuel
  induction fuel with
  | zero => intro buf s h; exact ⟨h, rfl⟩
  | succ fuel ih =>
    intro buf s h
    rw [writeAllLoop]
    split
    · exact ⟨h, rfl⟩
    · have hT := trackWrite_adv (buf.take (blobRemaining s)) s
      have h1 := hT.1.blobEnd
      have h2 := hT.2.2
      unfold blobWrite
      simp only [List.length_take, blobRemaining] at h2 h1 ⊢
      cases hr : trackWrite (buf.take (s.blobEnd - s.pos)) s with
      | ok n s' =>
        rw [hr] at h1 h2
        simp only [Res.state_ok] at h1 h2
        split
        · rename_i hq; cases hq
          split
          · exact ⟨by simp; omega, h1⟩
          · have := ih (buf.drop n) s' (by omega)
            rw [h1] at this; exact this
        · rename_i hq; cases hq
        · rename_i hq; cases hq
      | err e s' =>
        rw [hr] at h1 h2
        simp only [Res.state_err] at h1 h2
        split
        · rename_i hq; cases hq
        · rename_i hq; cases hq
          have := ih buf s' (by omega)
          rw [h1] at this; exact this
        · rename_i hq; cases hq
          exact ⟨by simp; omega, h1⟩

theorem blobAll_good (buf : List Byte) {s : Stream} (h : SInv s) (hc : s.commit ≠ none) :
    Fine (writeAll blobWrite buf s) ∧ Adv s (writeAll blobWrite buf s).state := by
  have hA := writeAll_blob_adv buf s
  have hp := h.pend hc
  refine ⟨⟨hA.1.sinv_blob h fun _ => ?_, hA.2.1⟩, hA.1⟩
  have := writeAllLoop_end (s.inner.sched.length + 2) buf s hp.1
  unfold writeAll
  rw [this.2]; exact this.1

theorem writePieces_good : ∀ (ps : List (List Byte)) {s : Stream}, SInv s → s.commit ≠ none → Fine (writePieces ps s) := by
  intro ps
  induction ps with
  | nil => intro s h _; exact .ok h
  | cons p ps ih =>
    intro s h hc
    have hB := blobAll_good p h hc
    refine hB.1.bind fun u s' h' hs' => ih hs' ?_
    have := hB.2
    rw [h'] at this
    have : s'.commit = s.commit := this.commit
    rw [this]; exact hc

theorem alloc_fill_good (d : Desc) (len : Nat) (fill : M Err Stream Unit) {s : Stream} (h : SInv s)
    (hf : ∀ s', SInv s' → s'.commit ≠ none → Fine (fill s')) : Fine ((do writeBlobAllocDesc d len; fill : M Err Stream Unit) s) := by
  have hA := allocDesc_good d len h
  exact hA.1.bind fun u s' h' hs' => hf s' hs' (hA.2 u s' h' len rfl).2

theorem wcall_good (c : WCall) {s : Stream} (h : SInv s) : Fine (c.exec s) := by
  cases c with
  | commit => exact (commit_good h).1
  | null tag => exact writeU64_good _ _ h
  | bool tag b => exact writeU64_good _ _ h
  | u8 tag n => exact writeU64_good _ _ h
  | u16 tag n => exact writeU64_good _ _ h
  | u32 tag n => exact writeU64_good _ _ h
  | u64 tag n => exact writeU64_good _ _ h
  | i8 tag n => exact writeU64_good _ _ h
  | i16 tag n => exact writeU64_good _ _ h
  | i32 tag n => exact writeU64_good _ _ h
  | i64 tag n => exact writeU64_good _ _ h
  | struct tag => exact (writeDesc_good _ h).1
  | enum tag disc => exact writeEnum_good _ _ h
  | endStruct => exact (writeDesc_good _ h).1
  | endDoc => exact (writeDesc_good _ h).1
  | padding => exact (writeDesc_good _ h).1
  | blobData tag data => exact alloc_fill_good _ _ _ h fun s' h' hc => (blobAll_good data h' hc).1
  | exceptionData data => exact alloc_fill_good _ _ _ h fun s' h' hc => (blobAll_good data h' hc).1
  | blobAlloc tag pieces => exact alloc_fill_good _ _ _ h fun s' h' hc => writePieces_good pieces h' hc
  | exceptionAlloc pieces => exact alloc_fill_good _ _ _ h fun s' h' hc => writePieces_good pieces h' hc

/-- The position is too close to `u64::MAX` for the header of a dynamic blob. -/
def NoRoomForHeader (s : Stream) : Prop := U64MAX < (commit s).state.pos + 11

theorem dynamic_good (d : Desc) {s : Stream} (h : SInv s) :
    SInv (writeBlobDynamicDesc d s).state ∧ HandsOut some (writeBlobDynamicDesc d s) ∧
    (∀ e s', writeBlobDynamicDesc d s = .err e s' → e.abnormal = true → NoRoomForHeader s) := by
  unfold writeBlobDynamicDesc
  have hD := writeDesc_good d h
  cases hd : writeDesc d s with
  | err e s2 =>
    rw [M.bind_err hd]
    rw [hd] at hD
    exact ⟨hD.1.inv, (fun u s' h' => by cases h'), fun e s' h' ha => by cases h'; rw [hD.1.normal _ _ rfl] at ha; cases ha⟩
  | ok u2 s2 =>
    rw [M.bind_ok hd, M.bind_ok (M.get_apply _), M.ite_apply]
    have hwr := hd
    unfold writeDesc at hwr
    rw [hd] at hD
    obtain ⟨d1, d2, d3⟩ := hD.2 _ _ rfl
    have hs2 := hD.1.inv
    simp only [Res.state_ok] at hs2
    split
    · rename_i hroom
      refine ⟨hs2, (fun u s' h' => by cases h'), fun e s' h' ha => ?_⟩
      unfold NoRoomForHeader
      cases hr : commit s with
      | err e s1 => rw [M.bind_err hr] at hwr; cases hwr
      | ok u s1 =>
        rw [M.bind_ok hr] at hwr
        have hp2 : s2.pos = s1.pos + 1 := (writeAll_track_adv _ _).2.2 _ _ hwr
        simp only [Res.state_ok]; omega
    · rename_i hroom
      have hE := track_good (encodeFixedU64 (UInt64.ofNat (U64MAX - s2.pos - 10))) hs2 d1
      cases he : encodeFixedS (UInt64.ofNat (U64MAX - s2.pos - 10)) s2 with
      | err e s3 =>
        rw [M.bind_err he]
        unfold encodeFixedS at he
        rw [he] at hE
        exact ⟨hE.1.inv, (fun u s' h' => by cases h'), fun e s' h' ha => by cases h'; rw [hE.1.normal _ _ rfl] at ha; cases ha⟩
      | ok u3 s3 =>
        rw [M.bind_ok he, M.bind_ok (M.modify_apply _ _), M.pure_apply]
        unfold encodeFixedS at he
        rw [he] at hE
        obtain ⟨e1, e2, e3⟩ := hE.2 _ _ rfl
        rw [encodeFixedU64_length] at e3
        have hs3 := hE.1.inv
        simp only [Res.state_ok] at hs3
        refine ⟨⟨hs3.pos_le, hs3.eofDepth, fun _ => ⟨?_, ?_⟩, fun _ => ?_, fun hl => ?_⟩, fun a s' h' n hn => ?_, fun e s' h' => by cases h'⟩
        · show s3.pos ≤ s3.pos + _; omega
        · show s3.pos + (U64MAX - s2.pos - 10) ≤ U64MAX; omega
        · show 10 ≤ s3.pos; omega
        · have := hs3.liveOk hl; rw [e2] at this; cases this
        · cases h'; cases hn
          refine ⟨⟨rfl, ?_, e1.within (.inr d2)⟩, by simp⟩
          show s3.pos + (U64MAX - s2.pos - 10) ≤ U64MAX; omega

theorem resetPos_good (p : Nat) (hp : p ≤ U64MAX) {s : Stream} (h : SInv s) :
    Fine (resetPos p s) ∧ (∀ u s', resetPos p s = .ok u s' → s'.commit = none) := by
  unfold resetPos
  have hC := commit_good h
  cases hr : commit s with
  | err e s1 =>
    rw [M.bind_err hr]
    rw [hr] at hC
    exact ⟨.err hC.1.inv (hC.1.normal _ _ rfl), fun u s' h' => by cases h'⟩
  | ok u s1 =>
    rw [hr] at hC
    obtain ⟨c1, -, -, -⟩ := hC.2 _ _ rfl
    have hs1 := hC.1.inv
    simp only [Res.state_ok] at hs1
    rw [M.bind_ok hr, M.modify_apply]
    refine ⟨.ok ⟨hp, hs1.eofDepth, fun h' => absurd c1 h', fun h' => ?_, hs1.liveOk⟩, fun u s' h' => by cases h'; exact c1⟩
    exact absurd (c1.symm.trans h') (by simp)

theorem streamSeek_good (w : SeekFrom) {s : Stream} (h : SInv s) : Fine (streamSeek w s) := by
  unfold streamSeek
  have hC := commit_good h
  cases hr : commit s with
  | err e s1 =>
    rw [M.bind_err hr]
    rw [hr] at hC
    exact .err hC.1.inv (hC.1.normal _ _ rfl)
  | ok u s1 =>
    rw [hr] at hC
    obtain ⟨c1, -, -, -⟩ := hC.2 _ _ rfl
    have hs1 := hC.1.inv
    simp only [Res.state_ok] at hs1
    rw [M.bind_ok hr]
    rcases innerSeek_out w s1 with ⟨p, p1, p2, h1⟩ | ⟨e, sc, -, he, h1⟩
    · rw [M.bind_ok h1]
      have hs2 : SInv { s1 with inner := { s1.inner with pos := p } } := ⟨hs1.pos_le, hs1.eofDepth, hs1.pend, hs1.dyn, hs1.liveOk⟩
      have hR := resetPos_good p p1 hs2
      refine hR.1.bind fun u s' h' hs' => ?_
      have hc' := hR.2 _ _ h'
      rw [M.bind_ok (M.modify_apply _ _), M.pure_apply]
      exact .ok ⟨hs'.pos_le, fun _ => rfl, hs'.pend, hs'.dyn, hs'.liveOk⟩
    · rw [M.bind_err h1]; exact .err (hs1.slip sc) he

end Fourleaf
