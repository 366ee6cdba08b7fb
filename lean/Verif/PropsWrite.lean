import Verif.Keeps
import Verif.PropsTok

/-! # Properties of writing: C08, C09, C11, C18, C22–C26 -/

namespace Fourleaf.Props
open Fourleaf Spec

/-- A stream to write to, with nothing pending, or only the check of a blob that is completely written. Data may exist before and after the current offset. -/
structure Sink (s : Stream) : Prop where
  pending : s.commit = none ∨ (s.commit = some .checkEnd ∧ s.pos = s.blobEnd)
  within : s.inner.pos ≤ s.inner.data.length

theorem Sink.ready {s : Stream} (h : Sink s) : WReady s := ⟨h.within, h.pending⟩

/-- `bytes` replace what was at offset `p` of `old`; everything before, and everything after the replaced part, is as before. -/
def written (old : List Byte) (p : Nat) (bytes : List Byte) : List Byte := old.take p ++ bytes ++ old.drop (p + bytes.length)

theorem splice_written {old : List Byte} {p : Nat} {bytes : List Byte} (h : p ≤ old.length) : splice old p bytes = written old p bytes := by
  unfold splice written
  rw [show p - old.length = 0 by omega]; simp

/-- **C09** A sequence of write calls on a sink that makes no errors (it may accept any number of bytes at a time, and interrupt) and with room for the
positions succeeds and puts the documented spelling of the elements at the current offset. -/
theorem c09_documented_format (cs : List WCall) (hcs : ∀ c ∈ cs, ∀ t ∈ c.toks, t.Valid) (s : Stream) (hs : Sink s) (hb : Benign s.inner.sched)
    (hroom : s.pos + (canonToks (callToks cs)).length + 11 ≤ U64MAX) :
    ∃ s', runCalls cs s = .ok () s' ∧ s'.inner.data = written s.inner.data s.inner.pos (canonToks (callToks cs)) ∧
      s'.inner.pos = s.inner.pos + (canonToks (callToks cs)).length ∧ s'.pos = s.pos + (canonToks (callToks cs)).length ∧ Sink s' := by
  have h := runCalls_out cs hcs hs.ready
  cases hr : runCalls cs s with
  | ok x s' =>
    rw [hr] at h
    obtain ⟨h1, h2⟩ := h
    exact ⟨s', rfl, by rw [h1.data, splice_written hs.within], h1.ipos, h1.pos, h2.pend, h2.within⟩
  | err e s' =>
    rw [hr] at h
    have := h.2.2 hb
    omega

/-- What a few calls should produce, in hexadecimal as in the documentation. -/
def c09Calls : List WCall :=
  [.u64 1 300, .struct 2, .i64 3 (-2), .bool 63 true, .endStruct, .blobData 5 [1, 2, 3], .enum 4 128, .commit, .blobAlloc 6 [[9], [], [8, 7]],
   .exceptionData [65], .padding, .endDoc]
example : ∀ c ∈ c09Calls, ∀ t ∈ c.toks, t.Valid := by decide +kernel
example : canonToks (callToks c09Calls) =
    [0x41, 0xAC, 2, 0xC2, 0x43, 3, 0x7F, 1, 0, 0x85, 3, 1, 2, 3, 4, 0x80, 1, 0x86, 3, 9, 8, 7, 0x80, 1, 65, 0xC0, 0x40] := by
  simp [canonToks, callToks, c09Calls, WCall.toks, canonTok, shortInt, zz, zigzagInt]
def c09Sink : Stream := Stream.new { data := [7, 7, 7], pos := 1, sched := [.short 0, .interrupted, .short 2], seekable := false }
example : Sink c09Sink ∧ Benign c09Sink.inner.sched := ⟨⟨.inl rfl, by decide⟩, by unfold Benign; decide⟩

/-- **C22** Whatever the sink does — short writes, interruptions, a failure at any point — what it has received is a prefix of the canonical
spelling, complete if the calls succeeded; bytes before and after are untouched, and the error is not a panic. -/
theorem c22_crash_prefix (cs : List WCall) (hcs : ∀ c ∈ cs, ∀ t ∈ c.toks, t.Valid) (s : Stream) (hs : Sink s) :
    ∃ k, (runCalls cs s).state.inner.data = written s.inner.data s.inner.pos ((canonToks (callToks cs)).take k) ∧
      (∀ u s', runCalls cs s = .ok u s' → (canonToks (callToks cs)).length ≤ k) ∧
      (∀ e s', runCalls cs s = .err e s' → e.abnormal = false) := by
  have h := runCalls_out cs hcs hs.ready
  cases hr : runCalls cs s with
  | ok x s' =>
    rw [hr] at h
    refine ⟨(canonToks (callToks cs)).length, ?_, fun _ _ _ => Nat.le_refl _, fun e s' h' => by cases h'⟩
    rw [List.take_of_length_le (Nat.le_refl _)]
    simp only [Res.state_ok]
    rw [h.1.data, splice_written hs.within]
  | err e s' =>
    rw [hr] at h
    obtain ⟨⟨k, hk, h1⟩, h2, -⟩ := h
    refine ⟨k, ?_, (fun u s' h' => by cases h'), fun e s'' h' => by cases h'; exact h2⟩
    simp only [Res.state_err]
    rw [h1.data, splice_written hs.within]

/-- **C22** The result does not depend on how the sink splits and interrupts the writes. -/
theorem c22_short_writes (cs : List WCall) (hcs : ∀ c ∈ cs, ∀ t ∈ c.toks, t.Valid) (s : Stream) (hs : Sink s) (sc : List Ev)
    (hb : Benign s.inner.sched) (hb' : Benign sc) (hroom : s.pos + (canonToks (callToks cs)).length + 11 ≤ U64MAX) :
    ∃ s1 s2, runCalls cs s = .ok () s1 ∧ runCalls cs { s with inner := { s.inner with sched := sc } } = .ok () s2 ∧
      s1.inner.data = s2.inner.data ∧ s1.inner.pos = s2.inner.pos ∧ s1.pos = s2.pos := by
  obtain ⟨s1, h1, h2, h3, h4, -⟩ := c09_documented_format cs hcs s hs hb hroom
  obtain ⟨s2, g1, g2, g3, g4, -⟩ := c09_documented_format cs hcs { s with inner := { s.inner with sched := sc } } ⟨hs.pending, hs.within⟩ hb' hroom
  exact ⟨s1, s2, h1, g1, by rw [h2, g2], by rw [h3, g3], by rw [h4, g4]⟩

example : (runCalls c09Calls { c09Sink with inner := { c09Sink.inner with sched := [.short 0, .short 1, .fail] } }).state.inner.data =
    [7, 0x41, 0xAC, 2] := by decide +kernel

/-- **C08** What one stream has written, another stream that starts reading where the writing started returns exactly: the same elements, tags,
values and blob contents. -/
theorem c08_roundtrip (cs : List WCall) (hcs : ∀ c ∈ cs, ∀ t ∈ c.toks, t.Valid) (w : Stream) (hw : Sink w) (hb : Benign w.inner.sched)
    (hroom : w.pos + (canonToks (callToks cs)).length + 11 ≤ U64MAX) :
    ∃ w', runCalls cs w = .ok () w' ∧ ∀ r : Stream, Over r (w'.inner.data.drop w.inner.pos) →
      ∃ r', readToks (callToks cs).length r = .ok (callToks cs) r' := by
  obtain ⟨w', h1, h2, -, -, -⟩ := c09_documented_format cs hcs w hw hb hroom
  refine ⟨w', h1, fun r hr => ?_⟩
  have hd : w'.inner.data.drop w.inner.pos = canonToks (callToks cs) ++ w.inner.data.drop (w.inner.pos + (canonToks (callToks cs)).length) := by
    rw [h2, written, List.append_assoc, List.drop_append, List.drop_of_length_le (by simp; omega)]
    simp [hw.within]
  rw [hd] at hr
  obtain ⟨r', h3, -⟩ := c08_read_back r (callToks cs) _ _ hr (canonToks_enc (by
    intro t ht
    simp only [callToks, List.mem_flatMap] at ht
    obtain ⟨c, hc, ht⟩ := ht
    exact hcs c hc t ht))
  exact ⟨r', h3⟩

example : readToks (callToks c09Calls).length (Stream.fromSlice ((runCalls c09Calls c09Sink).state.inner.data.drop 1)) =
    .ok [.int 1 300, .struct 2, .int 3 3, .int 63 1, .endStruct, .blob 5 [1, 2, 3], .enum 4 128, .blob 6 [9, 8, 7], .exception [65], .padding,
      .endDoc]
      (readToks (callToks c09Calls).length (Stream.fromSlice ((runCalls c09Calls c09Sink).state.inner.data.drop 1))).state := by decide +kernel

/-! ### C11, both directions -/

/-- Every call a client can make on a stream or a handle of it, reading and writing, except those that set the position (`reset_pos`, `seek`). -/
inductive AnyCall where
  | nextElement
  | nextField
  | skipUp (depth : Nat)
  | clearEof
  | write (c : WCall)
  | blobAlloc (tag : Byte) (len : Nat)
  | exceptionAlloc (len : Nat)
  | blobDynamic (tag : Byte)
  | exceptionDynamic
  | padToAlign (align : Nat)
  /-- an operation on a handle of a blob of the given length -/
  | onBlob (len : Nat) (o : BlobOp)
  /-- `write_all` to a handle -/
  | blobWriteAll (buf : List Byte)

/-- The state after the call, whatever its outcome. -/
def AnyCall.after : AnyCall → Stream → Stream
  | .nextElement, s => (Fourleaf.nextElement s).state
  | .nextField, s => (Fourleaf.nextField s).state
  | .skipUp d, s => (Fourleaf.skipUp d s).state
  | .clearEof, s => (Fourleaf.clearEof s).state
  | .write c, s => (c.exec s).state
  | .blobAlloc tag len, s => (writeBlobAlloc tag len s).state
  | .exceptionAlloc len, s => (writeExceptionAlloc len s).state
  | .blobDynamic tag, s => (writeBlobDynamic tag s).state
  | .exceptionDynamic, s => (writeExceptionDynamic s).state
  | .padToAlign a, s => (Fourleaf.padToAlign a s).state
  | .onBlob len o, s => (o.exec len s).state
  | .blobWriteAll buf, s => (writeAll blobWrite buf s).state

/-- The tracked position and the offset of the byte stream have moved by the same amount. -/
def Lock (s s' : Stream) : Prop := (s'.pos : Int) - s.pos = (s'.inner.pos : Int) - s.inner.pos

theorem inner_read_pos (i : Inner) (want : Nat) : (∃ d i', i.read want = .ok d i' ∧ i'.pos = i.pos + d.length) ∨
    (∃ e i', i.read want = .err e i' ∧ i'.pos = i.pos) := by
  unfold Inner.read
  split
  · exact .inl ⟨_, _, rfl, rfl⟩
  · exact .inl ⟨_, _, rfl, rfl⟩
  · exact .inr ⟨_, _, rfl, rfl⟩
  · exact .inr ⟨_, _, rfl, rfl⟩

theorem lock_free : FreeRel Lock where
  refl s := by unfold Lock; omega
  trans a b c h1 h2 := by unfold Lock at *; omega
  read g want s := by
    unfold trackRead
    split
    · unfold Lock; simp
    · split
      · unfold Lock; simp
      · rcases inner_read_pos s.inner want with ⟨d, i', h1, h2⟩ | ⟨e, i', h1, h2⟩
        · rw [h1]; simp only; split <;> (unfold Lock; simp; omega)
        · rw [h1]; unfold Lock; simp; omega
  write buf s := by
    unfold trackWrite
    split
    · unfold Lock; simp
    · split
      · unfold Lock; simp
      · rcases inner_write_cases s.inner buf with ⟨k, sc, -, h1⟩ | ⟨sc, h1⟩ | ⟨e, sc, h1⟩
        · rw [h1]; unfold Lock; simp; omega
        · rw [h1]; unfold Lock; simp
        · rw [h1]; unfold Lock; simp
  jump s off p h1 h2 := by unfold Lock; simp only; omega
  poke s d := by unfold Lock; simp
  tick s sc _ := by unfold Lock; simp
  book s _ _ _ _ _ _ := by unfold Lock; simp

theorem AnyCall.after_lock (c : AnyCall) (s : Stream) : Lock s (c.after s) := by
  have h := lock_free
  cases c with
  | nextElement => exact Keeps.nextElementImpl_ h _ s
  | nextField => exact Keeps.nextField_ h s
  | skipUp d => exact Keeps.skipUp_ h d s
  | clearEof => exact Keeps.clearEof_ h s
  | write c => exact Keeps.wcall_ h c s
  | blobAlloc tag len => exact Keeps.alloc_ h _ _ s
  | exceptionAlloc len => exact Keeps.alloc_ h _ _ s
  | blobDynamic tag => exact Keeps.dynamic_ h _ s
  | exceptionDynamic => exact Keeps.dynamic_ h _ s
  | padToAlign a => exact Keeps.padToAlign_ h a s
  | onBlob len o => exact Keeps.blobOp_ h.toStepRel len o s
  | blobWriteAll buf => exact Keeps.writeAllBlob_ h.toStepRel buf s

/-- **C11** After any sequence of reading and writing calls in any order, including calls that fail on a failing, interrupting or splitting byte stream and clients
that go on after errors, the reported position has moved exactly as far as the offset of the underlying byte stream. -/
theorem c11_lock_step (cs : List AnyCall) (s : Stream) :
    let s' := cs.foldl (fun s c => c.after s) s
    (s'.pos : Int) - s.pos = (s'.inner.pos : Int) - s.inner.pos := by
  show Lock s _
  induction cs generalizing s with
  | nil => exact lock_free.refl s
  | cons c cs ih => exact lock_free.trans _ _ _ (c.after_lock s) (ih _)

/-- A dynamic blob with a seek inside, and reading after that: the position is 14 as is the offset. -/
example : ([AnyCall.write (.u64 1 300), .blobDynamic 2, .blobWriteAll [1, 2, 3, 4], .onBlob 0 (.seek (.current (-1))), .write .endDoc].foldl
    (fun s c => c.after s) (Stream.new { data := [], pos := 0, sched := [.short 1], seekable := true })).pos = 19 := by decide +kernel

/-! ### C18 for writing -/

/-- The handles returned by `write_blob_alloc`/`write_exception_alloc` satisfy the hypothesis of C18. -/
theorem handed_of_alloc (d : Desc) (len : Nat) (s s' : Stream) (hs : Sink s) (h : writeBlobAllocDesc d len s = .ok () s') : Handed len s' := by
  have := allocDesc_out d len hs.ready
  rw [h] at this
  obtain ⟨-, h2, -, h4⟩ := this
  exact ⟨h2.span, h4, h2.within⟩

/-! ### C23 -/

/-- The bookkeeping of a stream does not change. -/
structure Book (s s' : Stream) : Prop where
  commit : s'.commit = s.commit
  dynStart : s'.dynStart = s.dynStart
  blobEnd : s'.blobEnd = s.blobEnd
  seekable : s'.inner.seekable = s.inner.seekable
  sched : s'.inner.sched <:+ s.inner.sched

theorem book_step : StepRel Book where
  refl s := ⟨rfl, rfl, rfl, rfl, List.suffix_refl _⟩
  trans a b c h1 h2 := ⟨h2.commit.trans h1.commit, h2.dynStart.trans h1.dynStart, h2.blobEnd.trans h1.blobEnd, h2.seekable.trans h1.seekable,
    h2.sched.trans h1.sched⟩
  read g want s := by
    have key : ∀ i : Inner, ∃ (i' : Inner), (i.read want).state = i' ∧ i'.seekable = i.seekable ∧ i'.sched <:+ i.sched := by
      intro i
      refine ⟨_, rfl, ?_⟩
      unfold Inner.read
      split
      · exact ⟨rfl, List.suffix_refl _⟩
      · rename_i h; rw [h]; exact ⟨rfl, List.suffix_cons _ _⟩
      · rename_i h; rw [h]; exact ⟨rfl, List.suffix_cons _ _⟩
      · rename_i h; rw [h]; exact ⟨rfl, List.suffix_cons _ _⟩
    unfold trackRead
    split
    · exact ⟨rfl, rfl, rfl, rfl, List.suffix_refl _⟩
    · split
      · exact ⟨rfl, rfl, rfl, rfl, List.suffix_refl _⟩
      · obtain ⟨i', h1, h2, h3⟩ := key s.inner
        cases hr : s.inner.read want with
        | ok d i => rw [hr] at h1; cases h1; simp only; split <;> exact ⟨rfl, rfl, rfl, h2, h3⟩
        | err e i => rw [hr] at h1; cases h1; exact ⟨rfl, rfl, rfl, h2, h3⟩
  write buf s := by
    have key : ∀ i : Inner, ∃ (i' : Inner), (i.write buf).state = i' ∧ i'.seekable = i.seekable ∧ i'.sched <:+ i.sched := by
      intro i
      refine ⟨_, rfl, ?_⟩
      unfold Inner.write
      split
      · exact ⟨rfl, List.suffix_refl _⟩
      · rename_i h; rw [h]; exact ⟨rfl, List.suffix_cons _ _⟩
      · rename_i h; rw [h]; exact ⟨rfl, List.suffix_cons _ _⟩
      · rename_i h; rw [h]; exact ⟨rfl, List.suffix_cons _ _⟩
      · rename_i h; rw [h]; exact ⟨rfl, List.suffix_cons _ _⟩
    unfold trackWrite
    split
    · exact ⟨rfl, rfl, rfl, rfl, List.suffix_refl _⟩
    · split
      · exact ⟨rfl, rfl, rfl, rfl, List.suffix_refl _⟩
      · obtain ⟨i', h1, h2, h3⟩ := key s.inner
        cases hr : s.inner.write buf with
        | ok d i => rw [hr] at h1; cases h1; exact ⟨rfl, rfl, rfl, h2, h3⟩
        | err e i => rw [hr] at h1; cases h1; exact ⟨rfl, rfl, rfl, h2, h3⟩
  jump s off p _ _ := ⟨rfl, rfl, rfl, rfl, List.suffix_refl _⟩
  poke s d := ⟨rfl, rfl, rfl, rfl, List.suffix_refl _⟩
  tick s sc h := ⟨rfl, rfl, rfl, rfl, h⟩

/-- Every call that starts something new on a writing stream. -/
inductive NextCall where
  | write (c : WCall)
  | blobAlloc (tag : Byte) (len : Nat)
  | exceptionAlloc (len : Nat)
  | blobDynamic (tag : Byte)
  | exceptionDynamic
  | padToAlign (align : Nat)

/-- Its outcome: nothing but success or error matters. -/
def NextCall.exec : NextCall → M Err Stream Unit
  | .write c => c.exec
  | .blobAlloc tag len => writeBlobAlloc tag len
  | .exceptionAlloc len => writeExceptionAlloc len
  | .blobDynamic tag => do let _ ← writeBlobDynamic tag
  | .exceptionDynamic => do let _ ← writeExceptionDynamic
  | .padToAlign a => Fourleaf.padToAlign a

/-- Every such call starts by completing the pending blob. -/
theorem NextCall.exec_commit (c : NextCall) {s s' : Stream} {e : Err} (h : commit s = .err e s') : c.exec s = .err e s' := by
  have hd : ∀ d, writeDesc d s = .err e s' := fun d => M.bind_err h
  have hu : ∀ tag n, writeU64 tag n s = .err e s' := fun tag n => M.bind_err (hd _)
  have ha : ∀ d n, writeBlobAllocDesc d n s = .err e s' := fun d n => M.bind_err h
  have hy : ∀ d, writeBlobDynamicDesc d s = .err e s' := fun d => M.bind_err (hd _)
  cases c with
  | write c =>
    cases c with
    | commit => exact h
    | null tag => exact hu _ _
    | bool tag b => exact hu _ _
    | u8 tag n => exact hu _ _
    | u16 tag n => exact hu _ _
    | u32 tag n => exact hu _ _
    | u64 tag n => exact hu _ _
    | i8 tag n => exact hu _ _
    | i16 tag n => exact hu _ _
    | i32 tag n => exact hu _ _
    | i64 tag n => exact hu _ _
    | struct tag => exact hd _
    | enum tag n => exact M.bind_err (hd _)
    | endStruct => exact hd _
    | endDoc => exact hd _
    | padding => exact hd _
    | blobData tag d => exact M.bind_err (ha _ _)
    | exceptionData d => exact M.bind_err (ha _ _)
    | blobAlloc tag p => exact M.bind_err (ha _ _)
    | exceptionAlloc p => exact M.bind_err (ha _ _)
  | blobAlloc tag len => exact ha _ _
  | exceptionAlloc len => exact ha _ _
  | blobDynamic tag => exact M.bind_err (hy _)
  | exceptionDynamic => exact M.bind_err (hy _)
  | padToAlign a => exact M.bind_err h

/-- **C23** A blob (or exception) of `len` bytes has been allocated, and then whatever was done on the handle — `ops` — left it `missing > 0` bytes before its end.
Then every later call, and every call after that (`cs`), fails with `IncompleteBlob` of the missing byte count, and none of them emits a byte. -/
theorem c23_incomplete_blob (d : Desc) (len : Nat) (s s1 : Stream) (hs : Sink s) (hal : writeBlobAllocDesc d len s = .ok () s1)
    (ops : List BlobOp) (missing : Nat) (hm : (runBlobOps len ops s1).pos + missing = s1.pos + len) (h0 : 0 < missing)
    (cs : List NextCall) (c : NextCall) :
    let s2 := runBlobOps len ops s1
    let s3 := cs.foldl (fun s c => (c.exec s).state) s2
    s3.inner = s2.inner ∧ s3.pos = s2.pos ∧ ∃ s4, c.exec s3 = .err (.incompleteBlob missing) s4 ∧ s4.inner = s2.inner ∧ s4.pos = s2.pos := by
  intro s2 s3
  have hA := allocDesc_out d len hs.ready
  rw [hal] at hA
  obtain ⟨-, hW, -, hfit⟩ := hA
  have hB : Book s1 s2 := runBlobOps_keeps book_step len ops s1
  have key : ∀ t : Stream, t.inner = s2.inner → t.pos = s2.pos → t.commit = some .checkEnd → t.blobEnd = s2.blobEnd → ∀ c : NextCall,
      ∃ t', c.exec t = .err (.incompleteBlob missing) t' ∧ t'.inner = s2.inner ∧ t'.pos = s2.pos ∧ t'.commit = some .checkEnd ∧ t'.blobEnd = s2.blobEnd := by
    intro t h1 h2 h3 h4 c
    have hbe : s2.blobEnd = s1.pos + len := by rw [hB.blobEnd, ← hW.span]
    have hc : commit t = .err (.incompleteBlob missing) { t with live := false } := by
      have hpos : s2.pos + missing = s1.pos + len := hm
      unfold commit
      rw [h3]
      simp only
      unfold checkAtEndOfBlob
      rw [if_pos (by omega), if_neg (by omega), show t.blobEnd - t.pos = missing by omega]
      simp only [h3]
    exact ⟨_, c.exec_commit hc, h1, h2, h3, h4⟩
  have hs3 : ∀ (cs : List NextCall) (t : Stream), t.inner = s2.inner → t.pos = s2.pos → t.commit = some .checkEnd → t.blobEnd = s2.blobEnd →
      let t' := cs.foldl (fun s c => (c.exec s).state) t
      t'.inner = s2.inner ∧ t'.pos = s2.pos ∧ t'.commit = some .checkEnd ∧ t'.blobEnd = s2.blobEnd := by
    intro cs
    induction cs with
    | nil => intro t h1 h2 h3 h4; exact ⟨h1, h2, h3, h4⟩
    | cons c cs ih =>
      intro t h1 h2 h3 h4
      obtain ⟨t', g1, g2, g3, g4, g5⟩ := key t h1 h2 h3 h4 c
      simp only [List.foldl_cons, g1, Res.state_err]
      exact ih t' g2 g3 g4 g5
  obtain ⟨h1, h2, h3, h4⟩ := hs3 cs s2 rfl rfl (by rw [hB.commit]; exact hW.commit) rfl
  obtain ⟨s4, g1, g2, g3, -⟩ := key s3 h1 h2 h3 h4 c
  exact ⟨h1, h2, s4, g1, g2, g3⟩

/-- **C23** Once the blob is filled to its end (again by whatever operations), the stream goes on normally: the next calls behave as on a stream with nothing pending. -/
theorem c23_filled_continues (d : Desc) (len : Nat) (s s1 : Stream) (hs : Sink s) (hal : writeBlobAllocDesc d len s = .ok () s1)
    (ops : List BlobOp) (hm : (runBlobOps len ops s1).pos = s1.pos + len) :
    ∃ s3, commit (runBlobOps len ops s1) = .ok () s3 ∧ s3.inner = (runBlobOps len ops s1).inner ∧ s3.pos = (runBlobOps len ops s1).pos ∧ s3.commit = none := by
  have hA := allocDesc_out d len hs.ready
  rw [hal] at hA
  obtain ⟨-, hW, -, hfit⟩ := hA
  have hB : Book s1 (runBlobOps len ops s1) := runBlobOps_keeps book_step len ops s1
  refine ⟨{ runBlobOps len ops s1 with commit := none, live := false }, ?_, rfl, rfl, rfl⟩
  unfold commit
  rw [hB.commit, hW.commit]
  simp only
  unfold checkAtEndOfBlob
  have := hB.blobEnd
  have := hW.span
  rw [if_neg (by omega)]

/-- A blob of 4 bytes of which one is written, one skipped, and one written: 1 byte is missing. -/
def c23Sink : Stream := Stream.new { data := [], pos := 0, sched := [.short 0, .interrupted], seekable := true }
example : Sink c23Sink := ⟨.inl rfl, by decide⟩
example : (writeBlobAllocDesc (.pair .blob 5) 4 c23Sink).state.pos = 2 ∧
    (runBlobOps 4 [.write [1], .seek (.current 1), .write [2]] (writeBlobAllocDesc (.pair .blob 5) 4 c23Sink).state).pos + 1 = 2 + 4 := by
  decide +kernel

end Fourleaf.Props
