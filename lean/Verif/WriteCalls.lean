import Verif.WriteSpec
import Verif.BlobOps

/-! # Sequences of writing calls -/

namespace Fourleaf
open Spec

/-- The writing calls of the API. `blobAlloc`/`exceptionAlloc` stand for `write_blob_alloc`/`write_exception_alloc` followed by `write_all` of the
pieces to the handle. `pad_to_align` and dynamic blobs are treated separately. -/
inductive WCall where
  | commit
  | null (tag : Byte)
  | bool (tag : Byte) (b : Bool)
  | u8 (tag : Byte) (n : UInt8)
  | u16 (tag : Byte) (n : UInt16)
  | u32 (tag : Byte) (n : UInt32)
  | u64 (tag : Byte) (n : UInt64)
  | i8 (tag : Byte) (n : Int8)
  | i16 (tag : Byte) (n : Int16)
  | i32 (tag : Byte) (n : Int32)
  | i64 (tag : Byte) (n : Int64)
  | struct (tag : Byte)
  | enum (tag : Byte) (disc : UInt64)
  | endStruct
  | endDoc
  | padding
  | blobData (tag : Byte) (data : List Byte)
  | exceptionData (data : List Byte)
  | blobAlloc (tag : Byte) (pieces : List (List Byte))
  | exceptionAlloc (pieces : List (List Byte))

/-- `write_all` of several pieces to a blob handle. -/
def writePieces : List (List Byte) → M Err Stream Unit
  | [] => pure ()
  | p :: ps => do writeAll blobWrite p; writePieces ps

/-- Execution on a stream. -/
def WCall.exec : WCall → M Err Stream Unit
  | .commit => Fourleaf.commit
  | .null tag => writeNull tag
  | .bool tag b => writeBool tag b
  | .u8 tag n => writeU8 tag n
  | .u16 tag n => writeU16 tag n
  | .u32 tag n => writeU32 tag n
  | .u64 tag n => writeU64 tag n
  | .i8 tag n => writeI8 tag n
  | .i16 tag n => writeI16 tag n
  | .i32 tag n => writeI32 tag n
  | .i64 tag n => writeI64 tag n
  | .struct tag => writeStruct tag
  | .enum tag disc => writeEnum tag disc
  | .endStruct => writeEndStruct
  | .endDoc => writeEndDoc
  | .padding => writePadding
  | .blobData tag data => writeBlobData tag data
  | .exceptionData data => writeExceptionData data
  | .blobAlloc tag pieces => do writeBlobAlloc tag pieces.flatten.length; writePieces pieces
  | .exceptionAlloc pieces => do writeExceptionAlloc pieces.flatten.length; writePieces pieces

/-- A program that makes the calls one after the other and stops at the first error. -/
def runCalls : List WCall → M Err Stream Unit
  | [] => pure ()
  | c :: cs => do c.exec; runCalls cs

/-- The wire integer for a signed value: `2 i` or `-2 i - 1` (C06). -/
def zz (i : Int) : UInt64 := UInt64.ofNat (zigzagInt i).toNat

/-- The elements a call should write. -/
def WCall.toks : WCall → List Tok
  | .commit => []
  | .null tag => [.int tag 0]
  | .bool tag b => [.int tag (if b then 1 else 0)]
  | .u8 tag n => [.int tag (UInt64.ofNat n.toNat)]
  | .u16 tag n => [.int tag (UInt64.ofNat n.toNat)]
  | .u32 tag n => [.int tag (UInt64.ofNat n.toNat)]
  | .u64 tag n => [.int tag n]
  | .i8 tag n => [.int tag (zz n.toInt)]
  | .i16 tag n => [.int tag (zz n.toInt)]
  | .i32 tag n => [.int tag (zz n.toInt)]
  | .i64 tag n => [.int tag (zz n.toInt)]
  | .struct tag => [.struct tag]
  | .enum tag disc => [.enum tag disc]
  | .endStruct => [.endStruct]
  | .endDoc => [.endDoc]
  | .padding => [.padding]
  | .blobData tag data => [.blob tag data]
  | .exceptionData data => [.exception data]
  | .blobAlloc tag pieces => [.blob tag pieces.flatten]
  | .exceptionAlloc pieces => [.exception pieces.flatten]

def callToks (cs : List WCall) : List Tok := cs.flatMap WCall.toks

end Fourleaf
