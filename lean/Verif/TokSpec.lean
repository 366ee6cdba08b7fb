import Verif.WireSpec

/-! # Independent specification of the element format

Source: the format documentation (`src/lib.rs`). An element is a descriptor byte, whose two high bits are the type
and whose low six bits are the tag, followed by an integer, a length and data, or nothing;
tag 0 is reserved for the special elements. Nothing here refers to the functions of the model. -/

namespace Fourleaf.Spec

/-- Elements with their content. -/
inductive Tok where
  | int (tag : UInt8) (n : UInt64)
  | blob (tag : UInt8) (data : List UInt8)
  | struct (tag : UInt8)
  | enum (tag : UInt8) (disc : UInt64)
  | endStruct
  | endDoc
  | exception (msg : List UInt8)
  | padding
  deriving Repr, DecidableEq

/-- Tags a field can have. -/
def TagOk (tag : UInt8) : Prop := 1 ≤ tag.toNat ∧ tag.toNat ≤ 63

instance (tag : UInt8) : Decidable (TagOk tag) := inferInstanceAs (Decidable (_ ∧ _))

/-- `g` spells the number `n`, not necessarily in the shortest way. -/
def EncInt (n : Nat) (g : List UInt8) : Prop := IsGroup g ∧ g.length ≤ 257 ∧ groupVal g = n

/-- `bs` spells the element. -/
inductive EncTok : Tok → List UInt8 → Prop where
  | enum {tag disc d g} : TagOk tag → d.toNat = 0 * 64 + tag.toNat → EncInt disc.toNat g → EncTok (.enum tag disc) (d :: g)
  | int {tag n d g} : TagOk tag → d.toNat = 1 * 64 + tag.toNat → EncInt n.toNat g → EncTok (.int tag n) (d :: g)
  | blob {tag data d g} : TagOk tag → d.toNat = 2 * 64 + tag.toNat → EncInt data.length g → data.length < 2 ^ 64 →
      EncTok (.blob tag data) (d :: g ++ data)
  | struct {tag d} : TagOk tag → d.toNat = 3 * 64 + tag.toNat → EncTok (.struct tag) [d]
  | endStruct : EncTok .endStruct [0 * 64]
  | endDoc : EncTok .endDoc [1 * 64]
  | exception {msg g} : EncInt msg.length g → msg.length < 2 ^ 64 → EncTok (.exception msg) (2 * 64 :: g ++ msg)
  | padding : EncTok .padding [3 * 64]

/-- `bs` spells the elements one after the other. -/
inductive EncToks : List Tok → List UInt8 → Prop where
  | nil : EncToks [] []
  | cons {t ts bs bs'} : EncTok t bs → EncToks ts bs' → EncToks (t :: ts) (bs ++ bs')

/-- Number of open structs after an element, if there were `d` before. The document itself counts
as a struct that is opened by its first field. -/
def Tok.depthAfter (d : Nat) : Tok → Nat
  | .int .. | .blob .. => max d 1
  | .struct _ | .enum .. => max d 1 + 1
  | .endStruct => d - 1
  | .endDoc => 0
  | .exception _ | .padding => d

end Fourleaf.Spec
