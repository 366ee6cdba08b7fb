import Verif.Wire

/-! # `String::from_utf8_lossy`

The library turns the message of an exception into text with `String::from_utf8_lossy`
(`src/stream.rs` 632). What that function does is part of what a client sees, so it is modelled here,
after `core::str::Utf8Chunks` in Rust's standard library. A text is its list of characters
(Unicode scalar values). -/

namespace Fourleaf

/-- `safe_get` of `core::str::lossy`: bytes past the end count as 0. -/
def safeGet (l : List Byte) (i : Nat) : Nat := (l[i]?.getD 0).toNat

/-- A continuation byte: `(byte as i8) < -64`, that is `10xxxxxx`. -/
def isCont (b : Nat) : Bool := 0x80 ≤ b && b ≤ 0xBF

/-- The pairs of first and second byte of three-byte characters (`core::str::lossy`). -/
def second3 (a b : Nat) : Bool :=
  (a == 0xE0 && 0xA0 ≤ b && b ≤ 0xBF) || (0xE1 ≤ a && a ≤ 0xEC && 0x80 ≤ b && b ≤ 0xBF) ||
  (a == 0xED && 0x80 ≤ b && b ≤ 0x9F) || (0xEE ≤ a && a ≤ 0xEF && 0x80 ≤ b && b ≤ 0xBF)

/-- The pairs of first and second byte of four-byte characters (`core::str::lossy`). -/
def second4 (a b : Nat) : Bool :=
  (a == 0xF0 && 0x90 ≤ b && b ≤ 0xBF) || (0xF1 ≤ a && a ≤ 0xF3 && 0x80 ≤ b && b ≤ 0xBF) ||
  (a == 0xF4 && 0x80 ≤ b && b ≤ 0x8F)

/-- One round of the loop of `Utf8Chunks::next` (`core::str::lossy`): the bytes are `b :: r`; the result is the
character found, or `none` for a sequence that is broken off, and the number of bytes used after `b`. -/
def lossyStep (b : Byte) (r : List Byte) : Option Char × Nat :=
  if b.toNat < 0x80 then (some (Char.ofNat b.toNat), 0)
  else if 0xC2 ≤ b.toNat ∧ b.toNat ≤ 0xDF then
    if isCont (safeGet r 0) then (some (Char.ofNat (b.toNat % 32 * 64 + safeGet r 0 % 64)), 1) else (none, 0)
  else if 0xE0 ≤ b.toNat ∧ b.toNat ≤ 0xEF then
    if second3 b.toNat (safeGet r 0) then
      if isCont (safeGet r 1) then
        (some (Char.ofNat (b.toNat % 16 * 4096 + safeGet r 0 % 64 * 64 + safeGet r 1 % 64)), 2)
      else (none, 1)
    else (none, 0)
  else if 0xF0 ≤ b.toNat ∧ b.toNat ≤ 0xF4 then
    if second4 b.toNat (safeGet r 0) then
      if isCont (safeGet r 1) then
        if isCont (safeGet r 2) then
          (some (Char.ofNat (b.toNat % 8 * 262144 + safeGet r 0 % 64 * 4096 + safeGet r 1 % 64 * 64 + safeGet r 2 % 64)), 3)
        else (none, 2)
      else (none, 1)
    else (none, 0)
  else (none, 0)

/-- U+FFFD REPLACEMENT CHARACTER. -/
def replacement : Char := '\uFFFD'

/-- The loop of `String::from_utf8_lossy`; the fuel is the number of bytes. -/
def lossyGo : Nat → List Byte → List Char
  | 0, _ => []
  | _ + 1, [] => []
  | f + 1, b :: r => (lossyStep b r).1.getD replacement :: lossyGo f (r.drop (lossyStep b r).2)

/-- `String::from_utf8_lossy(bytes).into_owned()` (used at `src/stream.rs` 632). -/
def lossy (bs : List Byte) : List Char := lossyGo bs.length bs

end Fourleaf
