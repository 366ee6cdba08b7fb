import Verif.PropsSession
import Verif.PropsSeek

/-! # C72: going around the stream

`get_mut`/`stream_get_mut` hand out the underlying byte stream, `set_pos`/`stream_set_pos` tell the `Stream` where it is then, and `set_struct_depth` sets the depth. The documentation
leaves it to the caller to use them sensibly. Sessions in which they are mixed with all other calls. -/

namespace Fourleaf
open Spec Props

/-- `Stream::set_pos` (`src/stream.rs` 463-465) and `Blob::stream_set_pos` (1126-1128). -/
def setPos (p : Nat) : M Err Stream Unit := M.modify fun s => { s with pos := p }

/-- What a client does with `&mut R` from `Stream::get_mut` (`src/stream.rs` 443-445) or `Blob::stream_get_mut` (1257-1259): anything; afterwards the byte stream has
other data, is elsewhere, and behaves differently in the future. (Whether it can seek is a matter of its type.) -/
structure Meddling where
  data : List Byte → Nat → List Byte
  pos : List Byte → Nat → Nat
  sched : List Ev → List Ev

def Meddling.exec (f : Meddling) : M Err Stream Unit := M.modify fun s =>
  { s with inner := { s.inner with data := f.data s.inner.data s.inner.pos, pos := f.pos s.inner.data s.inner.pos, sched := f.sched s.inner.sched } }

/-- The calls of a session (`SCall`) and those that go around it. -/
inductive ACall where
  | usual (c : SCall)
  | setPos (p : UInt64)
  | setStructDepth (d : UInt64)
  | getMut (f : Meddling)
  /-- on the handle -/
  | blobSetPos (p : UInt64)
  | blobGetMut (f : Meddling)

def ACall.exec : ACall → Session → Res Err Session Unit
  | .usual c => c.exec
  | .setPos p => Session.onStream (Fourleaf.setPos p.toNat) fun _ => none
  | .setStructDepth d => Session.onStream (Fourleaf.setStructDepth d.toNat) fun _ => none
  | .getMut f => Session.onStream f.exec fun _ => none
  | .blobSetPos p => Session.onHandle true fun _ => Fourleaf.setPos p.toNat
  | .blobGetMut f => Session.onHandle true fun _ => f.exec

def Session.runAll (cs : List ACall) (x : Session) : Session := cs.foldl (fun x c => (c.exec x).state) x

/-- The rules of the game: while a blob is being processed, the position is not set beyond its end, and by its handle not before its beginning; the depth is not set once the end of the
document has been read. -/
def Sensible (c : ACall) (x : Session) : Prop :=
  match c with
  | .usual _ | .getMut _ | .blobGetMut _ => True
  | .setPos p => x.stream.commit = none ∨ p.toNat ≤ x.stream.blobEnd
  | .blobSetPos p => ∀ h, x.handle = some h → x.stream.blobEnd - h.len ≤ p.toNat ∧ p.toNat ≤ x.stream.blobEnd
  | .setStructDepth d => x.stream.eof = false ∨ d.toNat = 0

/-- All calls of a history keep to the rules. -/
def AllSensible : List ACall → Session → Prop
  | [], _ => True
  | c :: cs, x => Sensible c x ∧ AllSensible cs (c.exec x).state

/-- When a call is excused for a panic: `pad_to_align` of something that is not a power of two, a dynamic blob with less than 11 bytes of room below `u64::MAX`, slicing a buffer with an offset beyond
its end (into which it can be brought by `seek`, `get_mut` or `stream_get_mut`). -/
def ExcusedAll (c : ACall) (x : Session) : Prop :=
  match c with
  | .usual (.onBlob .slice) | .usual (.onBlob (.sliceMut _)) => x.stream.inner.data.length < x.stream.inner.pos
  | .usual (.blobDynamic _) | .usual .exceptionDynamic => NoRoomForHeader x.stream
  | .usual (.padToAlign a) => ¬ ∃ k, a.toNat = 2 ^ k
  | _ => False

/-! ### The position stays within the blob -/

/-- The handle of a blob of length `len` is within the blob. -/
structure Span (len : Nat) (s : Stream) : Prop where
  fits : len ≤ s.blobEnd
  low : s.blobEnd - len ≤ s.pos
  high : s.pos ≤ s.blobEnd
  top : s.blobEnd ≤ U64MAX

theorem Span.fwd {len : Nat} {s : Stream} (h : Span len s) (k : Nat) (sc : List Ev) (hk : k ≤ blobRemaining s) : Span len (advBy s k sc) := by
  unfold blobRemaining at hk
  have := h.low; have := h.high
  exact ⟨h.fits, by simp; omega, by simp; omega, h.top⟩

theorem Span.adv {len : Nat} {s s' : Stream} (h : Span len s) (ha : Adv s s') (hk : s'.pos ≤ s.blobEnd) : Span len s' := by
  have := ha.blobEnd; have := ha.low; have := h.low
  exact ⟨by rw [ha.blobEnd]; exact h.fits, by rw [ha.blobEnd]; omega, by rw [ha.blobEnd]; exact hk, by rw [ha.blobEnd]; exact h.top⟩


theorem Span.seekTarget {len : Nat} {s : Stream} {w : SeekFrom} {p : Nat} (h : Span len s) (hp : blobSeekTarget len w s = some p) :
    s.blobEnd - len ≤ p ∧ p ≤ s.blobEnd := by
  have h1 := h.fits
  have h2 := h.low
  have h3 := h.high
  unfold blobSeekTarget blobRemaining at hp
  cases w with
  | start n => simp only at hp; split at hp <;> simp at hp; omega
  | fromEnd off => simp only at hp; split at hp <;> (try split at hp) <;> simp at hp; omega
  | current off =>
    simp only at hp
    split at hp <;> split at hp <;> simp at hp <;> omega

theorem Span.same {len : Nat} {s s' : Stream} (h : Span len s) (h1 : s'.blobEnd = s.blobEnd) (h2 : s'.pos = s.pos) : Span len s' :=
  ⟨by rw [h1]; exact h.fits, by rw [h1, h2]; exact h.low, by rw [h1, h2]; exact h.high, by rw [h1]; exact h.top⟩

theorem Span.seek {len : Nat} {s : Stream} (h : Span len s) (w : SeekFrom) : Span len (blobSeek len w s).state := by
  unfold blobSeek
  cases ht : blobSeekTarget len w s with
  | none => exact h
  | some p =>
    have hp := h.seekTarget ht
    simp only
    split
    · split
      · exact h
      · rcases innerSeek_out (.current (-((s.pos - p : Nat) : Int))) s with ⟨q, -, -, h1⟩ | ⟨e1, sc, -, he, h1⟩
        · rw [M.bind_ok h1, M.bind_ok (M.modify_apply _ _), M.bind_ok (M.get_apply _), M.pure_apply]
          exact ⟨h.fits, by simp; omega, by simp; omega, h.top⟩
        · rw [M.bind_err h1]; exact h.same rfl rfl
    · split
      · exact h
      · rcases innerSeek_out (.current (((p - s.pos : Nat) : Int))) s with ⟨q, -, -, h1⟩ | ⟨e1, sc, -, he, h1⟩
        · rw [M.bind_ok h1, M.bind_ok (M.modify_apply _ _), M.bind_ok (M.get_apply _), M.pure_apply]
          exact ⟨h.fits, by simp; omega, by simp; omega, h.top⟩
        · rw [M.bind_err h1]; exact h.same rfl rfl

theorem Span.op {len : Nat} {s : Stream} (h : Span len s) (o : BlobOp) : Span len (o.exec len s).state := by
  have hE := h.top
  have wrap : ∀ {α : Type} (m : M Err Stream α) (g : α → BlobRes), Span len (m s).state →
      Span len ((do let b ← m; pure (g b) : M Err Stream BlobRes) s).state := by
    intro α m g hm
    rw [M.bind_apply]
    cases hr : m s with
    | ok d s' => rw [hr] at hm; exact hm
    | err e s' => rw [hr] at hm; exact hm
  have drain : ∀ n, n ≤ blobRemaining s → Span len (Fourleaf.drain blobRead n s).state := by
    intro n hn
    obtain ⟨k, sc, a1, a2, a3, a4⟩ := drain_blob_spec n s hn hE
    rcases a4 with ⟨a4, a5⟩ | ⟨a4, a5⟩ <;> rw [a5] <;> exact h.fwd k sc (by omega)
  cases o with
  | read want =>
    refine wrap _ _ ?_
    unfold blobRead
    simp only
    split
    · exact h
    · rcases Nat.eq_zero_or_pos (min want (blobRemaining s)) with hz | hz
      · rw [hz]; unfold trackRead; rw [if_pos rfl]; exact h
      · rcases trackRead_spec false _ hz s with ⟨h1, h2⟩ | ⟨h1, h2⟩
        · rw [h2]; exact h
        · rcases h2 with ⟨k, sc, h2, h3, h4, h5, h6, -, -⟩ | ⟨sc, h2, h3, h4⟩ | ⟨sc, h2, h3, h4⟩ | ⟨sc, h2, h3, h4⟩
          · rw [h2]; exact h.fwd k sc (by omega)
          · rw [h4]; exact h.fwd 0 sc (Nat.zero_le _)
          · rw [h2]; exact h.fwd 0 sc (Nat.zero_le _)
          · rw [h2]; exact h.fwd 0 sc (Nat.zero_le _)
  | readFully max =>
    refine wrap _ _ ?_
    unfold Fourleaf.readFully
    split
    · exact h
    · exact drain _ (Nat.le_refl _)
  | readOrTrunc max => exact wrap _ _ (drain _ (Nat.min_le_right _ _))
  | slice =>
    refine wrap _ _ ?_
    rcases blobSlice_cases s with ⟨hr, hp, hb⟩ | ⟨e, hb⟩ <;> rw [hb] <;> exact h
  | sliceMut f =>
    refine wrap _ _ ?_
    unfold blobSliceMut
    rcases blobSlice_cases s with ⟨hr, hp, hb⟩ | ⟨e, hb⟩
    · rw [M.bind_ok hb, M.bind_ok (M.get_apply s), M.bind_ok (M.modify_apply _ _), M.pure_apply]
      exact h.same rfl rfl
    · rw [M.bind_err hb]; exact h
  | remaining => exact h
  | seek w => exact wrap _ _ (h.seek w)
  | write buf =>
    refine wrap _ _ ?_
    have hT := trackWrite_adv (buf.take (blobRemaining s)) s
    have h2 := hT.2.2
    have h3 := h.high
    simp only [List.length_take] at h2
    exact h.adv (s' := (blobWrite buf s).state) hT.1 (by
      have h4 : blobRemaining s = s.blobEnd - s.pos := rfl
      have h5 : (blobWrite buf s).state.pos = (trackWrite (buf.take (blobRemaining s)) s).state.pos := rfl
      omega)
  | bufRead f =>
    refine wrap _ _ ?_
    rcases blobBufRead_cases f s with ⟨k, sc, h1, h2, ⟨h3, -⟩ | ⟨h3, -⟩⟩ | ⟨sc, h1, h2⟩ | ⟨sc, h1, -, h2⟩
    · rw [h3]; exact h.fwd _ _ (by simp; omega)
    · rw [h3]; exact h.fwd 0 sc (Nat.zero_le _)
    · rw [h2]; exact h.fwd 0 sc (Nat.zero_le _)
    · rw [h2]; exact h.fwd 0 sc (Nat.zero_le _)

/-! ### The invariant of such sessions -/

structure AInv (x : Session) : Prop where
  stream : SInv x.stream
  handle : ∀ h, x.handle = some h → Span h.len x.stream ∧ x.stream.commit ≠ none

theorem XInv.ainv {x : Session} (h : XInv x) : AInv x := by
  refine ⟨h.stream, fun hd he => ?_⟩
  obtain ⟨s0, h0, hc⟩ := (h.handle hd he).from_
  have h1 : x.stream.blobEnd = s0.blobEnd := hc.blobEnd
  have h2 : s0.pos ≤ x.stream.pos := hc.low
  have h3 : x.stream.pos ≤ s0.blobEnd := hc.high
  have h4 := h0.span
  have h5 := h0.fits
  exact ⟨⟨by omega, by omega, by omega, by omega⟩, (h.handle hd he).pending⟩

theorem onHandle_ainv {α : Type} {sk : Bool} {m : Nat → M Err Stream α} {x : Session} (hx : AInv x)
    (h : ∀ hd, x.handle = some hd → SInv (m hd.len x.stream).state ∧ Span hd.len (m hd.len x.stream).state ∧ (m hd.len x.stream).state.commit ≠ none) :
    AInv (Session.onHandle sk m x).state := by
  unfold Session.onHandle
  cases hd : x.handle with
  | none => exact hx
  | some hd' =>
    have := h hd' hd
    simp only
    cases hr : m hd'.len x.stream with
    | ok a s => rw [hr] at this; exact ⟨this.1, fun h' he => by cases he; exact this.2⟩
    | err e s => rw [hr] at this; exact ⟨this.1, fun h' he => by cases he; exact this.2⟩

/-- A usual call. -/
theorem SCall.exec_around (c : SCall) {x : Session} (hx : AInv x) :
    AInv (c.exec x).state ∧ (∀ e x', c.exec x = .err e x' → e.abnormal = true → ExcusedAll (.usual c) x) := by
  have h := hx.stream
  by_cases hc : c.onHandle = false
  · have hx0 : XInv ⟨x.stream, none⟩ := ⟨h, fun hd he => by cases he⟩
    have he : c.exec x = c.exec ⟨x.stream, none⟩ := by cases c <;> first | rfl | cases hc
    have hg := c.exec_good hx0
    rw [he]
    refine ⟨hg.1.ainv, fun e x' h1 ha => ?_⟩
    have hex := hg.2 e x' h1 ha
    cases c <;> first | exact hex | exact hex.elim | cases hc
  · cases c with
    | onBlob o =>
      constructor
      · refine onHandle_ainv (sk := o.isSeek) (m := fun n => o.exec n) hx fun hd hh => ?_
        have hs := (hx.handle hd hh).1.op o
        have hb : Book2 x.stream _ := Keeps.blobOp_ book2_step hd.len o x.stream
        refine ⟨⟨Nat.le_trans hs.high hs.top, fun he => ?_, fun _ => ⟨hs.high, hs.top⟩, fun hd => ?_, fun hl => ?_⟩, hs, by rw [hb.commit]; exact (hx.handle hd hh).2⟩
        · rw [hb.depth]; exact h.eofDepth (hb.eof ▸ he)
        · rw [hb.dynStart]; exact h.dyn (hb.commit ▸ hd)
        · rw [hb.commit]; exact h.liveOk (hb.live ▸ hl)
      · intro e x' he ha
        simp only [SCall.exec, Session.onHandle] at he
        cases hd : x.handle with
        | none => rw [hd] at he; cases he; cases ha
        | some hd' =>
          rw [hd] at he
          simp only at he
          cases hr : o.exec hd'.len x.stream with
          | ok a s => rw [hr] at he; cases he
          | err e1 s =>
            rw [hr] at he; cases he
            obtain ⟨h1, h2⟩ := o.exec_normal hd'.len (hx.handle _ hd).1.top hr ha
            cases o <;> first | exact h2 | exact h1.elim
    | blobWriteAll buf =>
      constructor
      · refine onHandle_ainv (sk := false) (m := fun _ => writeAll blobWrite buf) hx fun hd hh => ?_
        obtain ⟨h1, h2⟩ := hx.handle hd hh
        have hB := blobAll_good buf h h2
        have h3 : (writeAll blobWrite buf x.stream).state.commit ≠ none := by rw [hB.2.commit]; exact h2
        exact ⟨hB.1.inv, h1.adv hB.2 (by rw [← hB.2.blobEnd]; exact (hB.1.inv.pend h3).1), h3⟩
      · intro e x' he ha
        simp only [SCall.exec, Session.onHandle] at he
        cases hd : x.handle with
        | none => rw [hd] at he; cases he; cases ha
        | some hd' =>
          rw [hd] at he
          simp only at he
          have hB := blobAll_good buf h (hx.handle _ hd).2
          cases hr : writeAll blobWrite buf x.stream with
          | ok a s => rw [hr] at he; cases he
          | err e1 s =>
            rw [hr] at he; cases he
            rw [hB.1.normal _ _ hr] at ha; cases ha
    | _ => exact absurd rfl hc

/-- One call. -/
theorem ACall.exec_good (c : ACall) {x : Session} (hx : AInv x) (hc : Sensible c x) :
    AInv (c.exec x).state ∧ (∀ e x', c.exec x = .err e x' → e.abnormal = true → ExcusedAll c x) := by
  have h := hx.stream
  have plain : ∀ {s' : Stream} {P : Prop}, SInv s' → AInv (Session.onStream (fun _ => .ok () s' : M Err Stream Unit) (fun _ => none) x).state ∧
      (∀ e x', Session.onStream (fun _ => .ok () s' : M Err Stream Unit) (fun _ => none) x = .err e x' → e.abnormal = true → P) :=
    fun hs => ⟨⟨hs, fun hd he => by cases he⟩, fun e x' he => by cases he⟩
  have onh : ∀ {f : Stream → Stream} {P : Prop}, (∀ hd, x.handle = some hd → SInv (f x.stream) ∧ Span hd.len (f x.stream) ∧ (f x.stream).commit ≠ none) →
      AInv (Session.onHandle true (fun _ => M.modify f) x).state ∧
      (∀ e x', Session.onHandle true (fun _ => M.modify f) x = .err e x' → e.abnormal = true → P) := by
    intro f P hf
    refine ⟨onHandle_ainv hx hf, fun e x' he ha => ?_⟩
    unfold Session.onHandle at he
    cases hd : x.handle with
    | none => rw [hd] at he; cases he; cases ha
    | some hd' => rw [hd] at he; cases he
  cases c with
  | usual c => exact c.exec_around hx
  | setPos p =>
    have hp : p.toNat ≤ U64MAX := by have := p.toNat_lt; unfold U64MAX; omega
    exact plain (s' := { x.stream with pos := p.toNat })
      ⟨hp, h.eofDepth, fun hn => ⟨hc.resolve_left hn, (h.pend hn).2⟩, h.dyn, h.liveOk⟩
  | setStructDepth d =>
    refine plain (s' := { x.stream with depth := d.toNat }) ⟨h.pos_le, fun he => ?_, h.pend, h.dyn, h.liveOk⟩
    exact hc.resolve_left (by intro h'; rw [h'] at he; cases he)
  | getMut f => exact plain ⟨h.pos_le, h.eofDepth, h.pend, h.dyn, h.liveOk⟩
  | blobSetPos p =>
    refine onh (f := fun s => { s with pos := p.toNat }) fun hd hh => ?_
    have hp : p.toNat ≤ U64MAX := by have := p.toNat_lt; unfold U64MAX; omega
    obtain ⟨h1, h2⟩ := hx.handle hd hh
    obtain ⟨h3, h4⟩ := hc hd hh
    exact ⟨⟨hp, h.eofDepth, fun _ => ⟨h4, h1.top⟩, h.dyn, h.liveOk⟩, ⟨h1.fits, h3, h4, h1.top⟩, h2⟩
  | blobGetMut f =>
    refine onh (f := fun s => { s with inner := { s.inner with data := f.data s.inner.data s.inner.pos, pos := f.pos s.inner.data s.inner.pos, sched := f.sched s.inner.sched } }) fun hd hh => ?_
    obtain ⟨h1, h2⟩ := hx.handle hd hh
    exact ⟨⟨h.pos_le, h.eofDepth, h.pend, h.dyn, h.liveOk⟩, h1.same rfl rfl, h2⟩

theorem runAll_ainv : ∀ (cs : List ACall) (x : Session), AInv x → AllSensible cs x → AInv (Session.runAll cs x)
  | [], _, h, _ => h
  | c :: cs, _, h, hs => runAll_ainv cs _ (c.exec_good h hs.1).1 hs.2

namespace Props

/-- **C72** Whatever a client does with the byte stream behind the back of the `Stream`, and however it sets position and depth within the rules (`Sensible`), mixed with any other calls, in
any order and going on after errors: the next call returns. It neither panics nor loops for ever, unless it violates one of the preconditions in `ExcusedAll`. -/
theorem c72_no_panic (i : Inner) (useSeek : Bool) (cs : List ACall) (hcs : AllSensible cs (Session.start i useSeek)) (c : ACall)
    (hc : Sensible c (Session.runAll cs (Session.start i useSeek))) (e : Err) (x' : Session)
    (h : c.exec (Session.runAll cs (Session.start i useSeek)) = .err e x') (ha : e.abnormal = true) :
    ExcusedAll c (Session.runAll cs (Session.start i useSeek)) :=
  (c.exec_good (runAll_ainv cs _ (start_xinv i useSeek).ainv hcs) hc).2 e x' h ha

/-- **C72** And a handle is always within its blob (so that no accessor of it underflows), the position and the end of the blob at most `u64::MAX`. -/
theorem c72_bounds (i : Inner) (useSeek : Bool) (cs : List ACall) (hcs : AllSensible cs (Session.start i useSeek)) :
    let x := Session.runAll cs (Session.start i useSeek)
    x.stream.pos ≤ U64MAX ∧
    ∀ h, x.handle = some h → h.len ≤ x.stream.blobEnd ∧ x.stream.blobEnd - h.len ≤ x.stream.pos ∧ x.stream.pos ≤ x.stream.blobEnd ∧ x.stream.blobEnd ≤ U64MAX := by
  intro x
  have hx := runAll_ainv cs _ (start_xinv i useSeek).ainv hcs
  exact ⟨hx.stream.pos_le, fun h hh => ⟨(hx.handle h hh).1.fits, (hx.handle h hh).1.low, (hx.handle h hh).1.high, (hx.handle h hh).1.top⟩⟩

/-- **C72** Reading `k` bytes of a blob directly from the byte stream, and then telling the handle with `stream_set_pos`, has the effect of a `read` by the handle which delivers these bytes. -/
theorem c72_read_around (s : Stream) (k : Nat) (hk0 : 0 < k) (hk : k ≤ s.blobEnd - s.pos) (hfit : s.blobEnd ≤ U64MAX) (hdata : s.inner.pos + k ≤ s.inner.data.length) (want : Nat)
    (hw : k ≤ want) :
    blobRead want { s with inner := { s.inner with sched := .short (k - 1) :: s.inner.sched } } =
      .ok ((s.inner.data.drop s.inner.pos).take k) { s with pos := s.pos + k, inner := { s.inner with pos := s.inner.pos + k } } := by
  obtain ⟨t, ht⟩ : ∃ t : Stream, t = { s with inner := { s.inner with sched := .short (k - 1) :: s.inner.sched } } := ⟨_, rfl⟩
  have hrem : blobRemaining { s with inner := { s.inner with sched := .short (k - 1) :: s.inner.sched } } = s.blobEnd - s.pos := rfl
  unfold blobRead
  simp only
  rw [hrem, if_neg (by omega)]
  unfold trackRead
  rw [if_neg (by omega), if_neg (by show ¬ (U64MAX - s.pos < _); omega)]
  have hread : Inner.read (min want (s.blobEnd - s.pos)) { s.inner with sched := .short (k - 1) :: s.inner.sched } =
      .ok ((s.inner.data.drop s.inner.pos).take k) { s.inner with pos := s.inner.pos + k } := by
    unfold Inner.read
    simp only
    rw [show min (min want (s.blobEnd - s.pos)) (k - 1 + 1) = k by omega]
    simp [Inner.rest]
    omega
  rw [hread]
  simp [List.length_take, List.length_drop]
  omega

/-- **C72** The same for writing into the blob directly. -/
theorem c72_write_around (s : Stream) (bs : List Byte) (hbs : bs ≠ []) (hk : bs.length ≤ s.blobEnd - s.pos) (hfit : s.blobEnd ≤ U64MAX) (more : List Byte) :
    blobWrite (bs ++ more) { s with inner := { s.inner with sched := .short (bs.length - 1) :: s.inner.sched } } =
      .ok bs.length { s with pos := s.pos + bs.length, inner := { s.inner with data := splice s.inner.data s.inner.pos bs, pos := s.inner.pos + bs.length } } := by
  have hl : 0 < bs.length := List.length_pos_iff.2 hbs
  have hrem : blobRemaining { s with inner := { s.inner with sched := .short (bs.length - 1) :: s.inner.sched } } = s.blobEnd - s.pos := rfl
  unfold blobWrite
  rw [hrem]
  have ht : ((bs ++ more).take (s.blobEnd - s.pos)).take (bs.length - 1 + 1) = bs := by
    rw [List.take_take, show min (bs.length - 1 + 1) (s.blobEnd - s.pos) = bs.length by omega]; simp
  unfold trackWrite
  have hne : (bs ++ more).take (s.blobEnd - s.pos) ≠ [] := by
    intro h; rw [h] at ht; simp at ht; exact hbs ht
  rw [if_neg hne, if_neg (by
    show ¬ (U64MAX - s.pos < _)
    simp only [List.length_take]; omega)]
  simp only [Inner.write, ht]

/-- A client reads `k` bytes with the byte stream itself. -/
def _root_.Fourleaf.Meddling.read (k : Nat) : Meddling := ⟨fun d _ => d, fun _ p => p + k, id⟩

/-- A client writes `bs` with the byte stream itself. -/
def _root_.Fourleaf.Meddling.write (bs : List Byte) : Meddling := ⟨fun d p => splice d p bs, fun _ p => p + bs.length, id⟩

/-- **C72** In any session: `stream_get_mut` to read (or write) some bytes of the blob, followed by `stream_set_pos`, is within the rules and leaves the session as a `read` (or `write`) by the handle would
that transfers these bytes (but for the note `seeked`, which is not in the source). -/
theorem c72_around (i : Inner) (useSeek : Bool) (cs : List ACall) (hcs : AllSensible cs (Session.start i useSeek)) (h : Handle)
    (hh : (Session.runAll cs (Session.start i useSeek)).handle = some h) :
    let x := Session.runAll cs (Session.start i useSeek)
    let slow (k : Nat) : Session := ⟨{ x.stream with inner := { x.stream.inner with sched := .short (k - 1) :: x.stream.inner.sched } }, x.handle⟩
    (∀ k, 0 < k → k ≤ blobRemaining x.stream → x.stream.inner.pos + k ≤ x.stream.inner.data.length →
      let calls : List ACall := [.blobGetMut (.read k), .blobSetPos (UInt64.ofNat (x.stream.pos + k))]
      AllSensible calls x ∧
      Session.runAll calls x = ⟨(SCall.exec (.onBlob (.read k)) (slow k)).state.stream, some ⟨h.len, true⟩⟩ ∧
      ∃ x', SCall.exec (.onBlob (.read k)) (slow k) = .ok () x') ∧
    (∀ bs : List Byte, bs ≠ [] → bs.length ≤ blobRemaining x.stream →
      let calls : List ACall := [.blobGetMut (.write bs), .blobSetPos (UInt64.ofNat (x.stream.pos + bs.length))]
      AllSensible calls x ∧
      Session.runAll calls x = ⟨(SCall.exec (.onBlob (.write bs)) (slow bs.length)).state.stream, some ⟨h.len, true⟩⟩ ∧
      ∃ x', SCall.exec (.onBlob (.write bs)) (slow bs.length) = .ok () x') := by
  intro x slow
  have hx : AInv x := runAll_ainv cs _ (start_xinv i useSeek).ainv hcs
  have hh : x.handle = some h := hh
  obtain ⟨hs, -⟩ := hx.handle h hh
  have rem : blobRemaining x.stream = x.stream.blobEnd - x.stream.pos := rfl
  have h1 := hs.low
  have h2 := hs.high
  have h3 := hs.top
  have num : ∀ k, k ≤ blobRemaining x.stream → (UInt64.ofNat (x.stream.pos + k)).toNat = x.stream.pos + k := by
    intro k hk
    rw [UInt64.toNat_ofNat']
    exact Nat.mod_eq_of_lt (by unfold U64MAX at h3; omega)
  have sens : ∀ (f : Meddling) k, k ≤ blobRemaining x.stream → AllSensible [.blobGetMut f, .blobSetPos (UInt64.ofNat (x.stream.pos + k))] x := by
    intro f k hk
    refine ⟨trivial, fun hd he => ?_, trivial⟩
    have e : (ACall.blobGetMut f).exec x = .ok () ⟨{ x.stream with inner := { x.stream.inner with
        data := f.data x.stream.inner.data x.stream.inner.pos, pos := f.pos x.stream.inner.data x.stream.inner.pos, sched := f.sched x.stream.inner.sched } }, some ⟨h.len, h.seeked || true⟩⟩ := by
      simp only [ACall.exec, Session.onHandle, hh]; rfl
    rw [e] at he ⊢
    cases he
    rw [num k hk]
    simp only [Res.state_ok]
    omega
  have run : ∀ (f : Meddling) k, k ≤ blobRemaining x.stream → Session.runAll [.blobGetMut f, .blobSetPos (UInt64.ofNat (x.stream.pos + k))] x =
      ⟨{ x.stream with pos := x.stream.pos + k, inner := { x.stream.inner with
        data := f.data x.stream.inner.data x.stream.inner.pos, pos := f.pos x.stream.inner.data x.stream.inner.pos, sched := f.sched x.stream.inner.sched } }, some ⟨h.len, true⟩⟩ := by
    intro f k hk
    simp only [Session.runAll, List.foldl, ACall.exec, Session.onHandle, hh, Meddling.exec, M.modify_apply, Res.state_ok, Bool.or_true, num k hk, Fourleaf.setPos]
  have via : ∀ (o : BlobOp) (sl : Session) r s', sl.handle = x.handle → o.exec h.len sl.stream = .ok r s' → SCall.exec (.onBlob o) sl = .ok () ⟨s', some ⟨h.len, h.seeked || o.isSeek⟩⟩ := by
    intro o sl r s' hsl he
    simp only [SCall.exec, Session.onHandle, hsl, hh, he]
  refine ⟨fun k hk0 hk hd => ?_, fun bs hb hk => ?_⟩
  · intro calls
    have e := c72_read_around x.stream k hk0 (by omega) h3 hd k (Nat.le_refl _)
    have e2 : BlobOp.exec h.len (.read k) (slow k).stream = .ok (.bytes ((x.stream.inner.data.drop x.stream.inner.pos).take k))
        { x.stream with pos := x.stream.pos + k, inner := { x.stream.inner with pos := x.stream.inner.pos + k } } := by
      exact M.bind_ok e
    have e3 := via (.read k) (slow k) _ _ rfl e2
    exact ⟨sens _ k hk, by rw [run _ k hk, e3]; rfl, _, e3⟩
  · intro calls
    have e := c72_write_around x.stream bs hb (by omega) h3 []
    rw [List.append_nil] at e
    have e2 : BlobOp.exec h.len (.write bs) (slow bs.length).stream = .ok (.num bs.length)
        { x.stream with pos := x.stream.pos + bs.length, inner := { x.stream.inner with data := splice x.stream.inner.data x.stream.inner.pos bs, pos := x.stream.inner.pos + bs.length } } := by
      exact M.bind_ok e
    have e3 := via (.write bs) (slow bs.length) _ _ rfl e2
    exact ⟨sens _ bs.length hk, by rw [run _ bs.length hk, e3]; rfl, _, e3⟩

/-- **C72** A dynamic blob whose position has been set before its start: `commit` refuses, and writes nothing. -/
theorem c72_before_start (s : Stream) (hc : s.commit = some .finishDyn) (p : Nat) (hp : p < s.dynStart) :
    commit { s with pos := p } = .err .positionBeforeStartOfDynamicBlob { s with pos := p, live := false } := by
  unfold commit finishDynamicBlob
  simp only [hc]
  rw [if_pos hp]

/-! ### Examples -/

/-- A blob is announced, two of its three bytes are read behind the back of the stream, the last one by the handle; a field follows. -/
def exAround : List ACall :=
  [.usual .nextElement, .blobGetMut (.read 2), .blobSetPos 4, .usual (.onBlob (.read 5)), .usual .nextElement, .setStructDepth 3, .getMut (.read 0), .setPos 100]

def exAroundStart : Session := Session.start ⟨[0x81, 3, 1, 2, 3, 0x42, 9], 0, [], true⟩ false

example : AllSensible exAround exAroundStart :=
  ⟨trivial, trivial, fun h he => by cases he; decide +kernel, trivial, trivial, .inl rfl, trivial, .inl (by decide +kernel), trivial⟩

example : (match (ACall.usual .nextElement).exec (Session.runAll (exAround.take 4) exAroundStart) with
    | .ok _ x => decide (x.stream.pos = 7 ∧ x.stream.inner.pos = 7 ∧ x.handle = none) | _ => false) = true := by decide +kernel

example : (Session.runAll exAround exAroundStart).stream.pos = 100 ∧ (Session.runAll exAround exAroundStart).stream.depth = 3 := by decide +kernel

/-- The rule for `set_pos` is needed: an allocated blob, the position is set beyond its end; the next call panics. -/
example : ∃ x', (ACall.usual (.write .commit)).exec (Session.runAll [.usual (.blobAlloc 1 3), .setPos 100] (Session.start ⟨[], 0, [], true⟩ false)) =
    .err (.panic "attempt to subtract with overflow") x' := ⟨_, rfl⟩

/-- So is the one for `set_struct_depth`: after the end of the document, `skip_up` never returns. -/
example : ∃ x', (ACall.usual (.skipUp 0)).exec (Session.runAll [.usual .nextElement, .setStructDepth 2] (Session.start ⟨[0x40], 0, [], true⟩ false)) = .err .hang x' := ⟨_, rfl⟩

/-- Slicing after the byte stream has been moved beyond its data. -/
example : ∃ x', (ACall.usual (.onBlob .slice)).exec (Session.runAll [.usual .nextElement, .blobGetMut (.read 10)] exAroundStart) =
    .err (.panic "range start index out of range") x' := ⟨_, rfl⟩

/-- A dynamic blob is begun; its position is then set before its start. -/
example : ∃ x', (ACall.usual (.write .commit)).exec (Session.runAll [.usual (.blobDynamic 1), .blobSetPos 5] (Session.start ⟨[], 0, [], true⟩ false)) =
    .err .positionBeforeStartOfDynamicBlob x' := ⟨_, rfl⟩

end Props
end Fourleaf
