import Verif.Wire

/-! # Independent specification of the integer and descriptor formats

Nothing here refers to the functions of the model. Source: the format documentation
(`src/lib.rs`, "physical format"): integers are little-endian base 128, the high bit of a byte says
that more bytes follow; signed integers are ZigZag-encoded.
-/

namespace Fourleaf.Spec

/-- The number denoted by a group of base-128 digits, least significant first. -/
def groupVal : List UInt8 → Nat
  | [] => 0
  | b :: bs => b.toNat % 128 + 128 * groupVal bs

/-- A well-formed group: the continuation bit is set on all bytes but the last. -/
def IsGroup : List UInt8 → Prop
  | [] => False
  | [b] => b.toNat < 128
  | b :: bs => 128 ≤ b.toNat ∧ IsGroup bs

instance decIsGroup : (l : List UInt8) → Decidable (IsGroup l)
  | [] => .isFalse id
  | [b] => inferInstanceAs (Decidable (b.toNat < 128))
  | _ :: c :: cs => @instDecidableAnd _ _ _ (decIsGroup (c :: cs))

/-- ZigZag as arithmetic. -/
def zigzagInt (i : Int) : Int := if 0 ≤ i then 2 * i else -2 * i - 1

end Fourleaf.Spec
