import Verif.TokSpec

/-! # Independent specification of what writing produces

Source: the format documentation (`src/lib.rs`). Nothing here refers to the functions of the model. -/

namespace Fourleaf.Spec

/-- The shortest spelling of a number: base 128, least significant digit first, high bit set on all bytes but the last. -/
def shortInt (n : Nat) : List UInt8 :=
  if n < 128 then [UInt8.ofNat n] else UInt8.ofNat (128 + n % 128) :: shortInt (n / 128)
termination_by n

/-- The canonical spelling of an element. -/
def canonTok : Tok → List UInt8
  | .enum tag disc => UInt8.ofNat (0 * 64 + tag.toNat) :: shortInt disc.toNat
  | .int tag n => UInt8.ofNat (1 * 64 + tag.toNat) :: shortInt n.toNat
  | .blob tag data => UInt8.ofNat (2 * 64 + tag.toNat) :: shortInt data.length ++ data
  | .struct tag => [UInt8.ofNat (3 * 64 + tag.toNat)]
  | .endStruct => [0 * 64]
  | .endDoc => [1 * 64]
  | .exception msg => 2 * 64 :: shortInt msg.length ++ msg
  | .padding => [3 * 64]

/-- The canonical spelling of a sequence of elements. -/
def canonToks (ts : List Tok) : List UInt8 := ts.flatMap canonTok

/-- Elements that can be expressed: tags from 1 to 63, lengths below 2^64. -/
def Tok.Valid : Tok → Prop
  | .enum tag _ | .int tag _ | .struct tag => TagOk tag
  | .blob tag data => TagOk tag ∧ data.length < 2 ^ 64
  | .exception msg => msg.length < 2 ^ 64
  | .endStruct | .endDoc | .padding => True

instance (t : Tok) : Decidable t.Valid := by cases t <;> unfold Tok.Valid <;> infer_instance

end Fourleaf.Spec
