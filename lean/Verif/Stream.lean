import Verif.Io
import Verif.Lossy

/-! # Model of `src/stream.rs`: state, tracking, commit -/

namespace Fourleaf

/-- The function stored in `Stream::commit` (`src/stream.rs` 161-163): `skip_blob` (742-756),
`check_at_end_of_blob` (859-865) or `finish_dynamic_blob` (914-934). -/
inductive Commit where
  | skipBlob | checkEnd | finishDyn
  deriving Repr, DecidableEq

/-- `Stream<R>` (`src/stream.rs` 139-164). `useSeek` is `seek.is_some()`. `u64` counters are
`Nat`; `depth` is unbounded (the source documents its overflow as impossible in practice). `live` is not in
the source: it records that the last call returned a `Blob` handle, which the borrow checker lets the client use
until it calls the stream again. -/
structure Stream where
  inner : Inner
  pos : Nat
  eof : Bool
  blobEnd : Nat
  dynStart : Nat
  depth : Nat
  graceful : Bool
  useSeek : Bool
  commit : Option Commit
  live : Bool
  deriving Repr, DecidableEq

/-- `Stream::new` (`src/stream.rs` 330-342). -/
def Stream.new (i : Inner) : Stream :=
  { inner := i, pos := 0, eof := false, blobEnd := 0, dynStart := 0, depth := 0,
    graceful := false, useSeek := false, commit := none, live := false }

/-- `Stream::new_seek` (`src/stream.rs` 350-362). -/
def Stream.newSeek (i : Inner) : Stream := { Stream.new i with useSeek := true }

/-- `Stream::from_slice` (`src/stream.rs` 306-308). -/
def Stream.fromSlice (bytes : List Byte) : Stream :=
  Stream.newSeek { data := bytes, pos := 0, sched := [], seekable := true }

/-- The `io::Error` created by `check_advance_pos` (`src/stream.rs` 249-257) is of kind `Other`. -/
def posOverflow : Err := .io .other

/-- `check_advance_pos` (`src/stream.rs` 249-257, 584-586). -/
def checkAdvance (n : Nat) : M Err Stream Unit := fun s =>
  if U64MAX - s.pos < n then .err posOverflow s else .ok () s

/-- `StreamTracker::read` (`src/stream.rs` 261-276) into a buffer of `want` bytes. `g` is the
second component of the tracker as passed to `track` (579-582). The caller's buffer beyond the
returned bytes is unchanged. `self.0.pos += n` cannot overflow since `n ≤ want` was checked. -/
def trackRead (g : Bool) (want : Nat) : M Err Stream (List Byte) := fun s =>
  if want = 0 then .ok [] s
  else if U64MAX - s.pos < want then .err posOverflow s
  else
    match s.inner.read want with
    | .err e i => .err e { s with inner := i }
    | .ok d i =>
      let s' := { s with inner := i, pos := s.pos + d.length }
      if d = [] ∧ g = true ∧ s.graceful = true then .ok [SpecialTy.endOfDoc.toByte] s'
      else .ok d s'

/-- `StreamTracker::write` (`src/stream.rs` 287-300). -/
def trackWrite (buf : List Byte) : M Err Stream Nat := fun s =>
  if buf = [] then .ok 0 s
  else if U64MAX - s.pos < buf.length then .err posOverflow s
  else
    match s.inner.write buf with
    | .err e i => .err e { s with inner := i }
    | .ok n i => .ok n { s with inner := i, pos := s.pos + n }

/-- `read_exact` of one byte (std's default loop: retry on `Interrupted`, `UnexpectedEof` on
`Ok(0)`), as used by `wire::read_byte` (`src/wire.rs` 19-23). Every interruption uses up an event of
the schedule, so the fuel suffices. -/
def readByteLoop (g : Bool) : Nat → M Err Stream Byte
  | 0, s => .err .hang s
  | fuel + 1, s =>
    match trackRead g 1 s with
    | .ok [] s' => .err (.io .unexpectedEof) s'
    | .ok (b :: _) s' => .ok b s'
    | .err (.io .interrupted) s' => readByteLoop g fuel s'
    | .err e s' => .err e s'

def readByte (g : Bool) : M Err Stream Byte := fun s =>
  readByteLoop g (s.inner.sched.length + 1) s

/-- The loop shared by `io::copy(&mut r.take(n), &mut io::sink())` and `r.take(n).read_to_end(..)`:
read until `n` bytes are there or `Ok(0)`, retrying on `Interrupted`. std reads through buffers of its own choice of
size; a smaller buffer is a `short` event. Returns the bytes. -/
def drainLoop (rd : Nat → M Err Stream (List Byte)) : Nat → Nat → List Byte → M Err Stream (List Byte)
  | 0, _, _, s => .err .hang s
  | fuel + 1, lim, acc, s =>
    if lim = 0 then .ok acc s
    else
      match rd lim s with
      | .ok d s' =>
        if d = [] then .ok acc s' else drainLoop rd fuel (lim - d.length) (acc ++ d) s'
      | .err (.io .interrupted) s' => drainLoop rd fuel lim acc s'
      | .err e s' => .err e s'

def drain (rd : Nat → M Err Stream (List Byte)) (n : Nat) : M Err Stream (List Byte) := fun s =>
  drainLoop rd (s.inner.sched.length + 3) n [] s

/-- `write_all` (std's default loop: retry on `Interrupted`, `WriteZero` on `Ok(0)`). -/
def writeAllLoop (wr : List Byte → M Err Stream Nat) : Nat → List Byte → M Err Stream Unit
  | 0, _, s => .err .hang s
  | fuel + 1, buf, s =>
    if buf = [] then .ok () s
    else
      match wr buf s with
      | .ok n s' => if n = 0 then .err (.io .writeZero) s' else writeAllLoop wr fuel (buf.drop n) s'
      | .err (.io .interrupted) s' => writeAllLoop wr fuel buf s'
      | .err e s' => .err e s'

def writeAll (wr : List Byte → M Err Stream Nat) (buf : List Byte) : M Err Stream Unit := fun s =>
  writeAllLoop wr (s.inner.sched.length + 2) buf s

/-- A seek on the underlying byte stream which does not touch the tracked position. -/
def innerSeek (w : SeekFrom) : M Err Stream Nat := fun s =>
  match s.inner.seek w with
  | .ok n i => .ok n { s with inner := i }
  | .err e i => .err e { s with inner := i }

/-- `skip_by_discard` (`src/stream.rs` 364-367). -/
def skipByDiscard (n : Nat) : M Err Stream Nat := do
  let d ← drain (trackRead false) n
  pure d.length

/-- The `else` branch of `skip_by_seek` (`src/stream.rs` 383-395): `n ≤ i64::MAX`. -/
def skipSeekDirect (n : Nat) : M Err Stream Nat := fun s =>
  if U64MAX - s.pos < n then .err posOverflow s
  else
    match innerSeek (.current n) s with
    | .ok _ s' => .ok n { s' with pos := s'.pos + n }
    | .err _ s' => skipByDiscard n s'

/-- `skip_by_seek` (`src/stream.rs` 369-396). Amounts above `i64::MAX` are split. The fuel bounds
the recursion; 3 levels suffice for any `u64`. -/
def skipBySeek : Nat → Nat → M Err Stream Nat
  | 0, _ => M.throw .hang
  | fuel + 1, n =>
    if n > I64MAX then do
      let first ← skipSeekDirect I64MAX
      if first < I64MAX then pure first
      else do
        let second ← skipBySeek fuel (n - first)
        pure (first + second)
    else skipSeekDirect n

/-- `skip_blob` (`src/stream.rs` 742-756). -/
def skipBlob : M Err Stream Unit := fun s =>
  if s.blobEnd > s.pos then
    let n := s.blobEnd - s.pos
    match (if s.useSeek then skipBySeek 4 n else skipByDiscard n) s with
    | .ok skipped s' => if skipped < n then .err (.truncatedBlob (n - skipped)) s' else .ok () s'
    | .err e s' => .err e s'
  else .ok () s

/-- `check_at_end_of_blob` (`src/stream.rs` 859-865). -/
def checkAtEndOfBlob : M Err Stream Unit := fun s =>
  if s.pos ≠ s.blobEnd then
    if s.blobEnd < s.pos then .err (.panic "attempt to subtract with overflow") s
    else .err (.incompleteBlob (s.blobEnd - s.pos)) s
  else .ok () s

/-- `encode_fixed_u64` through the tracker (`src/wire.rs` 179-191). -/
def encodeFixedS (n : UInt64) : M Err Stream Unit := writeAll trackWrite (encodeFixedU64 n)

/-- `encode_u64` through the tracker (`src/wire.rs` 154-172). -/
def encodeS (n : UInt64) : M Err Stream Unit := writeAll trackWrite (encodeU64 n)

/-- `finish_dynamic_blob` (`src/stream.rs` 914-934). -/
def finishDynamicBlob : M Err Stream Unit := fun s =>
  let blobStart := s.dynStart
  let blobEnd := s.pos
  if s.pos < blobStart then .err .positionBeforeStartOfDynamicBlob s
  else if blobStart < 10 then .err (.panic "attempt to subtract with overflow") s
  else
    let header := blobStart - 10
    let displacement := s.pos - header
    if displacement > I64MAX then .err .overlongDynamicBlob s
    else
      (do
        let _ ← innerSeek (.current (-(displacement : Int)))
        M.modify fun s => { s with pos := s.pos - displacement }
        encodeFixedS (UInt64.ofNat (blobEnd - blobStart))
        let _ ← innerSeek (.current ((blobEnd - blobStart : Nat) : Int))
        M.modify fun s => { s with pos := blobEnd }) s

/-- `commit` (`src/stream.rs` 406-412): on an error the pending operation stays pending. -/
def commit : M Err Stream Unit := fun s =>
  match s.commit with
  | none => .ok () s
  | some c =>
    match (match c with
      | .skipBlob => skipBlob
      | .checkEnd => checkAtEndOfBlob
      | .finishDyn => finishDynamicBlob) s with
    | .ok _ s' => .ok () { s' with commit := none, live := false }
    | .err e s' => .err e { s' with live := false }

/-- `reset_pos` (`src/stream.rs` 471-477). -/
def resetPos (p : Nat) : M Err Stream Unit := do
  commit
  M.modify fun s => { s with blobEnd := 0, dynStart := 0, pos := p }

/-- `Stream::seek` (`src/stream.rs` 498-506). The eof flag is not cleared. -/
def streamSeek (w : SeekFrom) : M Err Stream Nat := do
  commit
  let off ← innerSeek w
  resetPos off
  M.modify fun s => { s with depth := 0 }
  pure off

/-! ## Reading -/

/-- `Value` (`src/stream.rs` 211-236). The handles into the stream are implicit: the stream is
the state of the computation; of a `Blob` only the length is kept here (its other data,
`blob_end` and `pos`, live in the stream). -/
inductive Value where
  | int (n : UInt64)
  | blob (len : Nat)
  | struct
  | enum (discriminant : UInt64)
  deriving Repr, DecidableEq

/-- `Field` (`src/stream.rs` 186-208). -/
structure Field where
  tag : Byte
  pos : Nat
  depth : Nat
  value : Value
  deriving Repr, DecidableEq

/-- `Element` (`src/stream.rs` 168-184). -/
inductive Element where
  | field (f : Field)
  | endOfStruct
  | endOfDoc
  | exception (len : Nat)
  | padding
  deriving Repr, DecidableEq

/-- `next_blob` (`src/stream.rs` 729-740). -/
def nextBlob : M Err Stream Nat := do
  let len ← decodeU64 (readByte false)
  checkAdvance len.toNat
  M.modify fun s => { s with blobEnd := s.pos + len.toNat, commit := some .skipBlob, live := true }
  pure len.toNat

/-- `next_value` (`src/stream.rs` 710-727). -/
def nextValue : DescTy → M Err Stream Value
  | .integer => do
    let n ← decodeU64 (readByte false)
    pure (.int n)
  | .blob => do
    let len ← nextBlob
    pure (.blob len)
  | .struct => do
    M.modify fun s => { s with depth := s.depth + 1 }
    pure .struct
  | .enum => do
    let d ← decodeU64 (readByte false)
    M.modify fun s => { s with depth := s.depth + 1 }
    pure (.enum d)

/-- One descriptor (`decode_descriptor`, `src/wire.rs` 217-220) and what follows it: the body of the loop of `next_element_impl`
(`src/stream.rs` 670-706), except that padding is returned. -/
def readElement : M Err Stream Element := fun s =>
  let offset := s.pos
  match readByte true s with
  | .err e s' => .err e s'
  | .ok b s' =>
    match Desc.parse b with
    | none => .err (.panic "internal error: entered unreachable code") s'
    | some (.pair ty tag) =>
      let s' := if s'.depth = 0 then { s' with depth := 1 } else s'
      let depth := s'.depth
      (do
        let v ← nextValue ty
        pure (Element.field { tag := tag, pos := offset, depth := depth, value := v })) s'
    | some (.special .endOfStruct) =>
      .ok .endOfStruct { s' with depth := s'.depth - 1 }
    | some (.special .endOfDoc) => .ok .endOfDoc { s' with eof := true, depth := 0 }
    | some (.special .exception) =>
      (do
        let len ← nextBlob
        pure (Element.exception len)) s'
    | some (.special .padding) => .ok .padding s'

/-- The loop of `next_element_impl` with `skip_padding = true` (`src/stream.rs` 668-707). Every
padding uses up a byte of the input, so the fuel chosen below suffices. -/
def skipPadLoop : Nat → M Err Stream Element
  | 0 => M.throw .hang
  | fuel + 1 => do
    let e ← readElement
    if e = .padding then skipPadLoop fuel else pure e

/-- `next_element_impl` (`src/stream.rs` 659-708). -/
def nextElementImpl (skipPadding : Bool) : M Err Stream Element := fun s =>
  if s.eof then .ok .endOfDoc s
  else
    (do
      commit
      if skipPadding then
        let s ← M.get
        skipPadLoop (s.inner.data.length - s.inner.pos + 2)
      else readElement) s

/-- `next_element` (`src/stream.rs` 648-651). -/
def nextElement : M Err Stream Element := nextElementImpl false

/-! ### Blob handles -/

/-- `Blob::remaining` (`src/stream.rs` 1111-1113). While a handle is live `pos ≤ blob_end`
(`blob_handle_live` below proves it for every reachable state), so the subtraction is exact. -/
def blobRemaining (s : Stream) : Nat := s.blobEnd - s.pos

/-- `Read for Blob` (`src/stream.rs` 1262-1279). -/
def blobRead (want : Nat) : M Err Stream (List Byte) := fun s =>
  let remaining := blobRemaining s
  if remaining = 0 then .ok [] s
  else trackRead false (min want remaining) s

/-- `fill_buf_nb` (`src/stream.rs` 1094-1102). -/
def fillBufNb : M Err Stream (List Byte) := fun s =>
  match s.inner.fillBuf with
  | .err e i => .err e { s with inner := i }
  | .ok d i => (do checkAdvance d.length; pure d) { s with inner := i }

/-- `fill_buf` of `BufRead for Blob` (`src/stream.rs` 1281-1286). -/
def blobFillBuf : M Err Stream (List Byte) := do
  let d ← fillBufNb
  let s ← M.get
  pure (d.take (blobRemaining s))

/-- `consume` of `BufRead for Blob` (`src/stream.rs` 1287-1290), through the tracker (`src/stream.rs` 277-285). -/
def blobConsume (n : Nat) : M Err Stream Unit :=
  M.modify fun s => { s with inner := { s.inner with pos := s.inner.pos + n }, pos := s.pos + n }

/-- `Blob::read_fully` (`src/stream.rs` 1159-1168). -/
def readFully (max : Nat) : M Err Stream (List Byte) := fun s =>
  if blobRemaining s > max then .err (.largeBlob max (blobRemaining s)) s
  else drain blobRead (blobRemaining s) s

/-- `Blob::read_or_trunc` (`src/stream.rs` 1177-1182). -/
def readOrTrunc (max : Nat) : M Err Stream (List Byte) := fun s =>
  drain blobRead (min max (blobRemaining s)) s

/-- `TransparentCursor::as_ref`/`as_mut`/`as_ext_bytes` (`src/io.rs` 55-61, 63-69, 72-81, 83-95): the slice from the
offset on; slicing panics if the offset is beyond the end. -/
def innerSlice : M Err Stream (List Byte) := fun s =>
  if s.inner.pos > s.inner.data.length then .err (.panic "range start index out of range") s
  else .ok s.inner.rest s

/-- `Blob::slice` (`src/stream.rs` 1190-1199) and `Blob::ext_slice` (1209-1218), which have the same
effect: neither moves the position (for `ext_slice` the documentation says otherwise). -/
def blobSlice : M Err Stream (List Byte) := do
  let buf ← innerSlice
  let s ← M.get
  if blobRemaining s ≤ buf.length then pure (buf.take (blobRemaining s))
  else M.throw (.truncatedBlob (blobRemaining s - buf.length))

/-- The new stream position asked for by `Seek for Blob` (`src/stream.rs` 1306-1341), `none` where
`check!` fails, for a blob of length `len`. `-off` on `i64::MIN` overflows (panics in debug
builds; wraps to `i64::MIN`, whose cast to `u64` is `2^63`, in release builds, which is what `natAbs` gives here). -/
def blobSeekTarget (len : Nat) (w : SeekFrom) (s : Stream) : Option Nat :=
  let startPos := s.blobEnd - len
  let innerPos := len - blobRemaining s
  match w with
  | .start p => if p ≤ len then some (startPos + p) else none
  | .fromEnd off =>
    if off ≤ 0 then
      if off.natAbs ≤ len then some (startPos + (len - off.natAbs)) else none
    else none
  | .current off =>
    if off < 0 then
      if off.natAbs ≤ innerPos then some (s.pos - off.natAbs) else none
    else if off.toNat ≤ blobRemaining s then some (s.pos + off.toNat) else none

/-- `Seek for Blob` (`src/stream.rs` 1306-1364). -/
def blobSeek (len : Nat) (w : SeekFrom) : M Err Stream Nat := fun s =>
  match blobSeekTarget len w s with
  | none => .err (.io .invalidInput) s
  | some p =>
    if p < s.pos then
      let displacement := s.pos - p
      if displacement > I64MAX then .err (.io .other) s
      else (do
        let _ ← innerSeek (.current (-(displacement : Int)))
        M.modify fun s => { s with pos := s.pos - displacement }
        let s ← M.get
        pure (len - blobRemaining s)) s
    else
      let displacement := p - s.pos
      if displacement > I64MAX then .err (.io .other) s
      else (do
        let _ ← innerSeek (.current (displacement : Int))
        M.modify fun s => { s with pos := s.pos + displacement }
        let s ← M.get
        pure (len - blobRemaining s)) s

/-- `next_field` (`src/stream.rs` 623-635). -/
def nextField : M Err Stream (Option Field) := do
  let e ← nextElementImpl true
  match e with
  | .padding => M.throw (.panic "internal error: entered unreachable code")
  | .endOfStruct | .endOfDoc => pure none
  | .field f => pure (some f)
  | .exception _ => do
    let message ← readOrTrunc 256
    M.throw (.exception (lossy message))

/-- The loop of `skip_up` (`src/stream.rs` 595-601). -/
def skipUpLoop (depth : Nat) : Nat → M Err Stream Unit
  | 0, s => .err .hang s
  | fuel + 1, s =>
    if s.depth > depth then (do let _ ← nextElement; skipUpLoop depth fuel) s
    else .ok () s

/-- `skip_up` (`src/stream.rs` 595-601). Every element read uses up a byte of the input or
ends the document, so the fuel suffices unless the eof flag is set while the depth is positive; then the
Rust loop never ends. -/
def skipUp (depth : Nat) : M Err Stream Unit := fun s =>
  skipUpLoop depth (s.inner.data.length - s.inner.pos + 2) s

/-- `Field::skip` (`src/stream.rs` 1411-1417). -/
def Field.skip (f : Field) : M Err Stream Unit :=
  match f.value with
  | .enum _ | .struct => skipUp f.depth
  | .int _ | .blob _ => pure ()

/-- `clear_eof` (`src/stream.rs` 517-519). -/
def clearEof : M Err Stream Unit := M.modify fun s => { s with eof := false }

/-! ## Writing -/

/-- `write_desc` (`src/stream.rs` 1046-1051); `encode_descriptor` (`src/wire.rs` 223-227). -/
def writeDesc (d : Desc) : M Err Stream Unit := do
  commit
  writeAll trackWrite [d.toByte]

/-- `write_u64` (`src/stream.rs` 773-779). -/
def writeU64 (tag : Byte) (n : UInt64) : M Err Stream Unit := do
  writeDesc (.pair .integer tag)
  encodeS n

/-- `write_null` (`src/stream.rs` 763-766). -/
def writeNull (tag : Byte) : M Err Stream Unit := writeU64 tag 0

/-- `write_bool` (`src/stream.rs` 796-799). -/
def writeBool (tag : Byte) (b : Bool) : M Err Stream Unit := writeU64 tag (if b then 1 else 0)

/-- `write_u8`, `write_u16`, `write_u32`, `write_usize` (`src/stream.rs` 311-326, 783-791, with `id` of line 1403). -/
def writeU8 (tag : Byte) (n : UInt8) : M Err Stream Unit := writeU64 tag n.toUInt64
def writeU16 (tag : Byte) (n : UInt16) : M Err Stream Unit := writeU64 tag n.toUInt64
def writeU32 (tag : Byte) (n : UInt32) : M Err Stream Unit := writeU64 tag n.toUInt64

/-- `write_i8`, `write_i16`, `write_i32`, `write_i64`, `write_isize`
(`src/stream.rs` 311-326, 783-791): sign-extend, then ZigZag. -/
def writeI8 (tag : Byte) (n : Int8) : M Err Stream Unit := writeU64 tag (zigzag n.toInt64)
def writeI16 (tag : Byte) (n : Int16) : M Err Stream Unit := writeU64 tag (zigzag n.toInt64)
def writeI32 (tag : Byte) (n : Int32) : M Err Stream Unit := writeU64 tag (zigzag n.toInt64)
def writeI64 (tag : Byte) (n : Int64) : M Err Stream Unit := writeU64 tag (zigzag n)

/-- `write_desc_with_blob_alloc` (`src/stream.rs` 835-857), for a length below `2^64`. -/
def writeBlobAllocDesc (d : Desc) (len : Nat) : M Err Stream Unit := do
  commit
  if len > U64MAX - 11 then M.throw .overlongBlob
  else do
    checkAdvance (len + 11)
    writeDesc d
    encodeS (UInt64.ofNat len)
    M.modify fun s => { s with blobEnd := s.pos + len, commit := some .checkEnd }

/-- `write_blob_alloc` (`src/stream.rs` 828-833). -/
def writeBlobAlloc (tag : Byte) (len : Nat) : M Err Stream Unit :=
  writeBlobAllocDesc (.pair .blob tag) len

/-- `Write for Blob` (`src/stream.rs` 1293-1304). -/
def blobWrite (buf : List Byte) : M Err Stream Nat := fun s =>
  trackWrite (buf.take (blobRemaining s)) s

/-- `write_blob_data` (`src/stream.rs` 810-817). -/
def writeBlobData (tag : Byte) (data : List Byte) : M Err Stream Unit := do
  writeBlobAlloc tag data.length
  writeAll blobWrite data

/-- `write_exception_alloc` (`src/stream.rs` 1000-1005). -/
def writeExceptionAlloc (len : Nat) : M Err Stream Unit :=
  writeBlobAllocDesc (.special .exception) len

/-- `write_exception_data` (`src/stream.rs` 986-993). -/
def writeExceptionData (data : List Byte) : M Err Stream Unit := do
  writeExceptionAlloc data.length
  writeAll blobWrite data

/-- `write_desc_with_blob_dynamic` (`src/stream.rs` 898-912); returns the length of the handle. -/
def writeBlobDynamicDesc (d : Desc) : M Err Stream Nat := do
  writeDesc d
  let s ← M.get
  if U64MAX - s.pos < 10 then M.throw (.panic "attempt to subtract with overflow")
  else do
    let len := U64MAX - s.pos - 10
    encodeFixedS (UInt64.ofNat len)
    M.modify fun s =>
      { s with dynStart := s.pos, blobEnd := s.pos + len, commit := some .finishDyn }
    pure len

/-- `write_blob_dynamic` (`src/stream.rs` 892-896). -/
def writeBlobDynamic (tag : Byte) : M Err Stream Nat := writeBlobDynamicDesc (.pair .blob tag)

/-- `write_exception_dynamic` (`src/stream.rs` 1012-1016). -/
def writeExceptionDynamic : M Err Stream Nat := writeBlobDynamicDesc (.special .exception)

/-- `write_struct` (`src/stream.rs` 945-949). -/
def writeStruct (tag : Byte) : M Err Stream Unit := writeDesc (.pair .struct tag)

/-- `write_enum` (`src/stream.rs` 960-966). -/
def writeEnum (tag : Byte) (discriminant : UInt64) : M Err Stream Unit := do
  writeDesc (.pair .enum tag)
  encodeS discriminant

/-- `write_end_struct` (`src/stream.rs` 969-973). -/
def writeEndStruct : M Err Stream Unit := writeDesc (.special .endOfStruct)

/-- `write_end_doc` (`src/stream.rs` 976-980). -/
def writeEndDoc : M Err Stream Unit := writeDesc (.special .endOfDoc)

/-- `write_padding` (`src/stream.rs` 1019-1023). -/
def writePadding : M Err Stream Unit := writeDesc (.special .padding)

/-- The loop of `pad_to_align` (`src/stream.rs` 1040-1042). -/
def padLoop (align : Nat) : Nat → M Err Stream Unit
  | 0, s => .err .hang s
  | fuel + 1, s =>
    if (UInt64.ofNat s.pos &&& (UInt64.ofNat align - 1)) ≠ 0 then
      (do writePadding; padLoop align fuel) s
    else .ok () s

/-- `pad_to_align` (`src/stream.rs` 1032-1044) for `align ≠ 0` (`align - 1` underflows for 0). -/
def padToAlign (align : Nat) : M Err Stream Unit := do
  commit
  padLoop align (align + 1)

/-! ## Conversions of values -/

/-- Name of the kind of a value, as in the `UnexpectedType` errors. -/
def Value.kind : Value → String
  | .int _ => "Integer"
  | .blob _ => "Blob"
  | .struct => "Struct"
  | .enum _ => "Enum"

/-- The common part of `to_int!` (`src/stream.rs` 1366-1401), `to_null` (1423-1436). -/
def Value.asInt : Value → Except Err UInt64
  | .int n => .ok n
  | v => .error (.unexpectedType "Integer" v.kind)

/-- `to_null` (`src/stream.rs` 1423-1436). -/
def Value.toNull (v : Value) : Except Err Unit :=
  match v.asInt with
  | .error e => .error e
  | .ok n => if n = 0 then .ok () else .error .integerOutOfRange

/-- `to_int!` for unsigned types (`src/stream.rs` 1366-1401, 1466-1474): `v < MIN` is never true,
`v > MAX` is compared in `u64`. -/
def Value.toUnsigned (max : UInt64) (v : Value) : Except Err UInt64 :=
  match v.asInt with
  | .error e => .error e
  | .ok n => if n > max then .error .integerOutOfRange else .ok n

/-- `to_int!` for signed types (`src/stream.rs` 1366-1401, 1467-1475), compared in `i64`. -/
def Value.toSigned (min max : Int64) (v : Value) : Except Err Int64 :=
  match v.asInt with
  | .error e => .error e
  | .ok n =>
    let i := unzigzag n
    if i < min then .error .integerOutOfRange
    else if i > max then .error .integerOutOfRange
    else .ok i

/-- `to_u8` … `to_i64` (`src/stream.rs` 1466-1475): the final `v as $t` truncates. `usize` and
`isize` are 64 bits wide and coincide with `u64` and `i64`. -/
def Value.toU8 (v : Value) : Except Err UInt8 := (v.toUnsigned 0xFF).map (·.toUInt8)
def Value.toU16 (v : Value) : Except Err UInt16 := (v.toUnsigned 0xFFFF).map (·.toUInt16)
def Value.toU32 (v : Value) : Except Err UInt32 := (v.toUnsigned 0xFFFFFFFF).map (·.toUInt32)
def Value.toU64 (v : Value) : Except Err UInt64 := v.toUnsigned 0xFFFFFFFFFFFFFFFF
def Value.toI8 (v : Value) : Except Err Int8 := (v.toSigned (-0x80) 0x7F).map (·.toInt8)
def Value.toI16 (v : Value) : Except Err Int16 := (v.toSigned (-0x8000) 0x7FFF).map (·.toInt16)
def Value.toI32 (v : Value) : Except Err Int32 :=
  (v.toSigned (-0x80000000) 0x7FFFFFFF).map (·.toInt32)
def Value.toI64 (v : Value) : Except Err Int64 :=
  v.toSigned (-0x8000000000000000) 0x7FFFFFFFFFFFFFFF

/-- `to_bool` (`src/stream.rs` 1481-1488). -/
def Value.toBool (v : Value) : Except Err Bool :=
  match v.toU64 with
  | .error e => .error e
  | .ok n => if n = 0 then .ok false else if n = 1 then .ok true else .error .integerOutOfRange

/-- `to_struct` (`src/stream.rs` 1440-1450). -/
def Value.toStruct : Value → Except Err Unit
  | .struct => .ok ()
  | v => .error (.unexpectedType "Struct" v.kind)

/-- `to_enum` (`src/stream.rs` 1454-1464). -/
def Value.toEnum : Value → Except Err UInt64
  | .enum d => .ok d
  | v => .error (.unexpectedType "Enum" v.kind)

/-- `to_blob` (`src/stream.rs` 1493-1503): the length of the handle. -/
def Value.toBlob : Value → Except Err Nat
  | .blob len => .ok len
  | v => .error (.unexpectedType "Blob" v.kind)

/-! ## Copying between streams -/

/-- The size of the buffer of `io::copy` (std's `DEFAULT_BUF_SIZE`). -/
def copyBuf : Nat := 8192

/-- The loop of `io::copy`: read a piece of at most `cap` bytes, retrying on `Interrupted`; stop if there are none; `write_all` the piece. State: source stream and
destination stream. Every round consumes bytes of the blob or an entry of the reader's schedule, so the fuel chosen below suffices. -/
def copyLoop (cap : Nat) : Nat → Stream → Stream → Res Err (Stream × Stream) Unit
  | 0, src, dst => .err .hang (src, dst)
  | fuel + 1, src, dst =>
    match blobRead cap src with
    | .err (.io .interrupted) src' => copyLoop cap fuel src' dst
    | .err e src' => .err e (src', dst)
    | .ok d src' =>
      if d = [] then .ok () (src', dst)
      else
        match writeAll blobWrite d dst with
        | .err e dst' => .err e (src', dst')
        | .ok _ dst' => copyLoop cap fuel src' dst'

/-- `io::copy(src_blob, dst_blob)` as used by `write_element`/`write_field` (`src/stream.rs` 1067, 1087). -/
def copyBlob (src dst : Stream) : Res Err (Stream × Stream) Unit :=
  copyLoop copyBuf (src.inner.sched.length + blobRemaining src + 2) src dst

/-- Lift a writing call on the destination. -/
def onDst (m : M Err Stream Unit) (src dst : Stream) : Res Err (Stream × Stream) Unit :=
  match m dst with
  | .ok _ dst' => .ok () (src, dst')
  | .err e dst' => .err e (src, dst')

/-- `write_field` (`src/stream.rs` 1078-1091). -/
def writeField (f : Field) (src dst : Stream) : Res Err (Stream × Stream) Unit :=
  match f.value with
  | .int i => onDst (writeU64 f.tag i) src dst
  | .struct => onDst (writeStruct f.tag) src dst
  | .enum d => onDst (writeEnum f.tag d) src dst
  | .blob len =>
    match writeBlobAlloc f.tag len dst with
    | .err e dst' => .err e (src, dst')
    | .ok _ dst' => copyBlob src dst'

/-- `write_element` (`src/stream.rs` 1058-1071). -/
def writeElement (e : Element) (src dst : Stream) : Res Err (Stream × Stream) Unit :=
  match e with
  | .field f => writeField f src dst
  | .endOfStruct => onDst writeEndStruct src dst
  | .endOfDoc => onDst writeEndDoc src dst
  | .padding => onDst writePadding src dst
  | .exception len =>
    match writeExceptionAlloc len dst with
    | .err e dst' => .err e (src, dst')
    | .ok _ dst' => copyBlob src dst'

end Fourleaf
