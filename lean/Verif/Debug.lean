import Verif.WriteCalls

/-! # Writing in debug builds

In a debug build the `debug_assert!` of `From<ParsedDescriptor> for Descriptor` (`src/wire.rs` 110) is executed. Its place
in the control flow: `write_desc` (`src/stream.rs` 1046-1051) commits first, then converts the descriptor, then writes. The
functions below are those of `Stream` with this assertion. -/

namespace Fourleaf.Debug
open Fourleaf

/-- The panic of the assertion (`src/wire.rs` 110). -/
def tagPanic : Err := .panic "assertion failed: tag >= 1 && tag <= 63"

/-- `write_desc` (`src/stream.rs` 1046-1051) with the `debug_assert!` of `src/wire.rs` 110. -/
def writeDesc (d : Desc) : M Err Stream Unit := do
  commit
  if d.valid then writeAll trackWrite [d.toByte] else M.throw tagPanic

/-- `write_u64` (`src/stream.rs` 773-779). -/
def writeU64 (tag : Byte) (n : UInt64) : M Err Stream Unit := do
  writeDesc (.pair .integer tag)
  encodeS n

/-- `write_desc_with_blob_alloc` (`src/stream.rs` 835-857). -/
def writeBlobAllocDesc (d : Desc) (len : Nat) : M Err Stream Unit := do
  commit
  if len > U64MAX - 11 then M.throw .overlongBlob
  else do
    checkAdvance (len + 11)
    writeDesc d
    encodeS (UInt64.ofNat len)
    M.modify fun s => { s with blobEnd := s.pos + len, commit := some .checkEnd }

/-- `write_desc_with_blob_dynamic` (`src/stream.rs` 898-912). -/
def writeBlobDynamicDesc (d : Desc) : M Err Stream Nat := do
  writeDesc d
  let s ← M.get
  if U64MAX - s.pos < 10 then M.throw (.panic "attempt to subtract with overflow")
  else do
    let len := U64MAX - s.pos - 10
    encodeFixedS (UInt64.ofNat len)
    M.modify fun s =>
      { s with dynStart := s.pos, blobEnd := s.pos + len, commit := some .finishDyn }
    pure len

/-- The writing calls in a debug build (`src/stream.rs` 311-326, 763-1023); compare `WCall.exec`. -/
def exec : WCall → M Err Stream Unit
  | .commit => Fourleaf.commit
  | .null tag => writeU64 tag 0
  | .bool tag b => writeU64 tag (if b then 1 else 0)
  | .u8 tag n => writeU64 tag n.toUInt64
  | .u16 tag n => writeU64 tag n.toUInt64
  | .u32 tag n => writeU64 tag n.toUInt64
  | .u64 tag n => writeU64 tag n
  | .i8 tag n => writeU64 tag (zigzag n.toInt64)
  | .i16 tag n => writeU64 tag (zigzag n.toInt64)
  | .i32 tag n => writeU64 tag (zigzag n.toInt64)
  | .i64 tag n => writeU64 tag (zigzag n)
  | .struct tag => writeDesc (.pair .struct tag)
  | .enum tag disc => do writeDesc (.pair .enum tag); encodeS disc
  | .endStruct => writeDesc (.special .endOfStruct)
  | .endDoc => writeDesc (.special .endOfDoc)
  | .padding => writeDesc (.special .padding)
  | .blobData tag data => do writeBlobAllocDesc (.pair .blob tag) data.length; writeAll blobWrite data
  | .exceptionData data => do writeBlobAllocDesc (.special .exception) data.length; writeAll blobWrite data
  | .blobAlloc tag pieces => do
    writeBlobAllocDesc (.pair .blob tag) pieces.flatten.length; writePieces pieces
  | .exceptionAlloc pieces => do
    writeBlobAllocDesc (.special .exception) pieces.flatten.length; writePieces pieces

end Fourleaf.Debug
