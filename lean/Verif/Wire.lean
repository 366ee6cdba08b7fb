import Verif.Res

/-! # Model of `src/wire.rs` -/

namespace Fourleaf

abbrev Byte := UInt8

/-- `DescriptorType` (`src/wire.rs` 34-39). -/
inductive DescTy where
  | enum | integer | blob | struct
  deriving Repr, DecidableEq

/-- The discriminant of `DescriptorType` as a byte (`src/wire.rs` 34-39, `ty as u8`). -/
def DescTy.toByte : DescTy → Byte
  | .enum => 0x00
  | .integer => 0x40
  | .blob => 0x80
  | .struct => 0xC0

/-- `DescriptorType::from_u8` (`src/wire.rs` 43-53); `none` is the `unreachable!()` arm. -/
def DescTy.fromByte (b : Byte) : Option DescTy :=
  if b = 0x00 then some .enum
  else if b = 0x40 then some .integer
  else if b = 0x80 then some .blob
  else if b = 0xC0 then some .struct
  else none

/-- `SpecialType` (`src/wire.rs` 60-65). -/
inductive SpecialTy where
  | endOfStruct | endOfDoc | exception | padding
  deriving Repr, DecidableEq

/-- The discriminant of `SpecialType` as a byte (`src/wire.rs` 60-65). -/
def SpecialTy.toByte : SpecialTy → Byte
  | .endOfStruct => 0x00
  | .endOfDoc => 0x40
  | .exception => 0x80
  | .padding => 0xC0

/-- `SpecialType::from_u8` (`src/wire.rs` 69-79); `none` is the `unreachable!()` arm. -/
def SpecialTy.fromByte (b : Byte) : Option SpecialTy :=
  if b = 0x00 then some .endOfStruct
  else if b = 0x40 then some .endOfDoc
  else if b = 0x80 then some .exception
  else if b = 0xC0 then some .padding
  else none

/-- `ParsedDescriptor` (`src/wire.rs` 83-90). -/
inductive Desc where
  | pair (ty : DescTy) (tag : Byte)
  | special (ty : SpecialTy)
  deriving Repr, DecidableEq

/-- `Descriptor::parse` (`src/wire.rs` 94-103); `none` means an `unreachable!()` was reached. -/
def Desc.parse (b : Byte) : Option Desc :=
  let ty := b &&& 0xC0
  let tag := b &&& 0x3F
  if 0 = tag then (SpecialTy.fromByte ty).map .special
  else (DescTy.fromByte ty).map (.pair · tag)

/-- `From<ParsedDescriptor> for Descriptor` (`src/wire.rs` 106-116) in a release build: the
`debug_assert!` on the tag is not executed. -/
def Desc.toByte : Desc → Byte
  | .pair ty tag => tag ||| ty.toByte
  | .special ty => ty.toByte

/-- The condition of the `debug_assert!` in `From<ParsedDescriptor>` (`src/wire.rs` 110). -/
def Desc.valid : Desc → Bool
  | .pair _ tag => decide (1 ≤ tag) && decide (tag ≤ 63)
  | .special _ => true

/-- The loop of `decode_u64` (`src/wire.rs` 124-149) over any source of bytes `rd` (the
`read_byte` of lines 19-23, which is `read_exact` into a one-byte buffer). -/
def decodeLoop {σ : Type} (rd : M Err σ Byte) : Nat → UInt64 → Nat → M Err σ UInt64
  | 0, _, _ => M.throw .hang
  | fuel + 1, accum, shift => do
    let b ← rd
    let v : UInt64 := (b &&& 0x7F).toUInt64
    if v ≠ 0 ∧ (64 ≤ shift ∨ (v <<< UInt64.ofNat shift) >>> UInt64.ofNat shift ≠ v) then
      M.throw .integerOverflow
    else
      let accum := if v ≠ 0 then accum ||| (v <<< UInt64.ofNat shift) else accum
      let shift := shift + 7
      if b &&& 0x80 = 0 then pure accum
      else if shift > 256 * 7 then M.throw .overwideInteger
      else decodeLoop rd fuel accum shift

/-- `decode_u64` (`src/wire.rs` 121-151). The fuel 258 is never exhausted
(`decodeU64_not_hang`). -/
def decodeU64 {σ : Type} (rd : M Err σ Byte) : M Err σ UInt64 := decodeLoop rd 258 0 0

/-- The `Read` implementation of `&[u8]` used through `read_byte` (`src/wire.rs` 19-23):
pops one byte, `UnexpectedEof` at the end. -/
def readSlice : M Err (List Byte) Byte
  | [] => .err (.io .unexpectedEof) []
  | b :: l => .ok b l

/-- The loop of `encode_u64` (`src/wire.rs` 158-168), producing the filled part of `bytes`. -/
def encodeLoop : Nat → UInt64 → List Byte
  | 0, _ => []
  | fuel + 1, i =>
    let b := (i &&& 0x7F).toUInt8
    let i := i >>> 7
    if i > 0 then (b ||| 0x80) :: encodeLoop fuel i
    else [b]

/-- The bytes `encode_u64` passes to `write_all` (`src/wire.rs` 154-172). The buffer holds 10
bytes; that 10 iterations suffice is `encodeU64_group`. -/
def encodeU64 (i : UInt64) : List Byte := encodeLoop 10 i

/-- The loop of `encode_fixed_u64` (`src/wire.rs` 181-187), for positions `n .. n + k`. -/
def encodeFixedLoop : Nat → UInt64 → List Byte
  | 0, _ => []
  | k + 1, i =>
    let b := (i &&& 0x7F).toUInt8
    (if k ≠ 0 then b ||| 0x80 else b) :: encodeFixedLoop k (i >>> 7)

/-- The bytes `encode_fixed_u64` passes to `write_all` (`src/wire.rs` 179-191). -/
def encodeFixedU64 (i : UInt64) : List Byte := encodeFixedLoop 10 i

/-- `unzigzag` (`src/wire.rs` 194-197). -/
def unzigzag (i : UInt64) : Int64 :=
  let sign : UInt64 := if i &&& 1 ≠ 0 then ~~~0 else 0
  ((i >>> 1) ^^^ sign).toInt64

/-- `zigzag` (`src/wire.rs` 206-208); `>>` on `i64` is the arithmetic shift. -/
def zigzag (i : Int64) : UInt64 := ((i <<< 1) ^^^ (i >>> 63)).toUInt64

/-- `decode_i64` (`src/wire.rs` 200-203). -/
def decodeI64 {σ : Type} (rd : M Err σ Byte) : M Err σ Int64 := do
  let i ← decodeU64 rd
  pure (unzigzag i)

/-- `encode_i64` (`src/wire.rs` 212-214): the bytes written. -/
def encodeI64 (i : Int64) : List Byte := encodeU64 (zigzag i)

end Fourleaf
