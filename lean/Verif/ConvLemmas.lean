import Verif.SerLemmas
import Verif.PropsConv
import Verif.PropsWrite
import Verif.ZigZagLemmas

/-! # Conversions of integers, strings and bytes between values and the wire -/

namespace Fourleaf
open Spec Props

/-- Signed integer types. -/
def IntTy.signed : IntTy → Bool
  | .u8 | .u16 | .u32 | .u64 | .usize => false
  | _ => true

/-- What is on the wire for an integer. -/
def IntTy.wire (k : IntTy) (i : Int) : Int := if k.signed then zigzagInt i else i

theorem u8nat {n : Nat} (h : n < 2 ^ 8) : (UInt8.ofNat n).toNat = n := UInt8.toNat_ofNat_of_lt' h
theorem u16nat {n : Nat} (h : n < 2 ^ 16) : (UInt16.ofNat n).toNat = n := UInt16.toNat_ofNat_of_lt' h
theorem u32nat {n : Nat} (h : n < 2 ^ 32) : (UInt32.ofNat n).toNat = n := UInt32.toNat_ofNat_of_lt' h
theorem u64nat {n : Nat} (h : n < 2 ^ 64) : (UInt64.ofNat n).toNat = n := UInt64.toNat_ofNat_of_lt' h

theorem except_map_ok {ε α β : Type} {f : α → β} {x : Except ε α} {b : β} : x.map f = .ok b ↔ ∃ a, x = .ok a ∧ f a = b := by
  cases x with
  | ok a => simp [Except.map]
  | error e => simp [Except.map]

theorem IntTy.conv_iff (k : IntTy) (n : UInt64) (i : Int) :
    k.conv (.int n) = .ok i ↔ k.min ≤ i ∧ i ≤ k.max ∧ (n.toNat : Int) = k.wire i := by
  have hu8 : ∀ v : UInt8, v.toNat < 2 ^ 8 := UInt8.toNat_lt
  have hu16 : ∀ v : UInt16, v.toNat < 2 ^ 16 := UInt16.toNat_lt
  have hu32 : ∀ v : UInt32, v.toNat < 2 ^ 32 := UInt32.toNat_lt
  have hu64 : ∀ v : UInt64, v.toNat < 2 ^ 64 := UInt64.toNat_lt
  cases k with
  | u8 =>
    simp only [IntTy.conv, except_map_ok, (c29_to_u8 n).1, IntTy.min, IntTy.max, IntTy.wire, IntTy.signed]
    constructor
    · rintro ⟨a, h, rfl⟩; have := hu8 a; simp; omega
    · rintro ⟨h1, h2, h3⟩
      simp at h3
      exact ⟨UInt8.ofNat i.toNat, by rw [u8nat (by omega)]; omega, by rw [u8nat (by omega)]; omega⟩
  | u16 =>
    simp only [IntTy.conv, except_map_ok, (c29_to_u16 n).1, IntTy.min, IntTy.max, IntTy.wire, IntTy.signed]
    constructor
    · rintro ⟨a, h, rfl⟩; have := hu16 a; simp; omega
    · rintro ⟨h1, h2, h3⟩
      simp at h3
      exact ⟨UInt16.ofNat i.toNat, by rw [u16nat (by omega)]; omega, by rw [u16nat (by omega)]; omega⟩
  | u32 =>
    simp only [IntTy.conv, except_map_ok, (c29_to_u32 n).1, IntTy.min, IntTy.max, IntTy.wire, IntTy.signed]
    constructor
    · rintro ⟨a, h, rfl⟩; have := hu32 a; simp; omega
    · rintro ⟨h1, h2, h3⟩
      simp at h3
      exact ⟨UInt32.ofNat i.toNat, by rw [u32nat (by omega)]; omega, by rw [u32nat (by omega)]; omega⟩
  | u64 | usize =>
    simp only [IntTy.conv, except_map_ok, (c29_to_u64 n).1, IntTy.min, IntTy.max, IntTy.wire, IntTy.signed]
    constructor
    · rintro ⟨a, h, rfl⟩; have := hu64 a; simp; omega
    · rintro ⟨h1, h2, h3⟩
      simp at h3
      exact ⟨UInt64.ofNat i.toNat, by rw [u64nat (by omega)]; omega, by rw [u64nat (by omega)]; omega⟩
  | i8 =>
    simp only [IntTy.conv, except_map_ok, (c29_to_i8 n).1, IntTy.min, IntTy.max, IntTy.wire, IntTy.signed]
    constructor
    · rintro ⟨a, h, rfl⟩; exact ⟨a.le_toInt, by have := a.toInt_lt; omega, by simp [h]⟩
    · rintro ⟨h1, h2, h3⟩
      simp at h3
      exact ⟨Int8.ofInt i, by rw [Int8.toInt_ofInt_of_le h1 (by omega)]; exact h3.symm, Int8.toInt_ofInt_of_le h1 (by omega)⟩
  | i16 =>
    simp only [IntTy.conv, except_map_ok, (c29_to_i16 n).1, IntTy.min, IntTy.max, IntTy.wire, IntTy.signed]
    constructor
    · rintro ⟨a, h, rfl⟩; exact ⟨a.le_toInt, by have := a.toInt_lt; omega, by simp [h]⟩
    · rintro ⟨h1, h2, h3⟩
      simp at h3
      exact ⟨Int16.ofInt i, by rw [Int16.toInt_ofInt_of_le h1 (by omega)]; exact h3.symm, Int16.toInt_ofInt_of_le h1 (by omega)⟩
  | i32 =>
    simp only [IntTy.conv, except_map_ok, (c29_to_i32 n).1, IntTy.min, IntTy.max, IntTy.wire, IntTy.signed]
    constructor
    · rintro ⟨a, h, rfl⟩; exact ⟨a.le_toInt, by have := a.toInt_lt; omega, by simp [h]⟩
    · rintro ⟨h1, h2, h3⟩
      simp at h3
      exact ⟨Int32.ofInt i, by rw [Int32.toInt_ofInt_of_le h1 (by omega)]; exact h3.symm, Int32.toInt_ofInt_of_le h1 (by omega)⟩
  | i64 | isize =>
    simp only [IntTy.conv, except_map_ok, (c29_to_i64 n).1, IntTy.min, IntTy.max, IntTy.wire, IntTy.signed]
    constructor
    · rintro ⟨a, h, rfl⟩; exact ⟨a.le_toInt, by have := a.toInt_lt; omega, by simp [h]⟩
    · rintro ⟨h1, h2, h3⟩
      simp at h3
      exact ⟨Int64.ofInt i, by rw [Int64.toInt_ofInt_of_le h1 (by omega)]; exact h3.symm, Int64.toInt_ofInt_of_le h1 (by omega)⟩

theorem zigzagInt_range {i : Int} (h1 : -2 ^ 63 ≤ i) (h2 : i ≤ 2 ^ 63 - 1) : 0 ≤ zigzagInt i ∧ zigzagInt i < 2 ^ 64 := by
  simp only [zigzagInt]; split <;> omega

theorem zz_toNat {i : Int} (h1 : -2 ^ 63 ≤ i) (h2 : i ≤ 2 ^ 63 - 1) : ((zz i).toNat : Int) = zigzagInt i := by
  unfold zz
  obtain ⟨h3, h4⟩ := zigzagInt_range h1 h2
  rw [u64nat (by omega)]; omega

/-- The element written for an integer. -/
theorem IntTy.call_toks (k : IntTy) (tag : Byte) {i : Int} (h1 : k.min ≤ i) (h2 : i ≤ k.max) :
    ∃ n : UInt64, (k.call tag i).toks = [.int tag n] ∧ (n.toNat : Int) = k.wire i := by
  cases k <;> simp only [IntTy.min, IntTy.max] at h1 h2 <;> simp only [IntTy.call, WCall.toks, IntTy.wire, IntTy.signed, Bool.false_eq_true, if_false, if_true] <;>
    refine ⟨_, rfl, ?_⟩
  · rw [u8nat (by omega), u64nat (by omega)]; omega
  · rw [u16nat (by omega), u64nat (by omega)]; omega
  · rw [u32nat (by omega), u64nat (by omega)]; omega
  · rw [u64nat (by omega)]; omega
  · rw [u64nat (by omega)]; omega
  · rw [Int8.toInt_ofInt_of_le h1 (by omega)]; exact zz_toNat (by omega) (by omega)
  · rw [Int16.toInt_ofInt_of_le h1 (by omega)]; exact zz_toNat (by omega) (by omega)
  · rw [Int32.toInt_ofInt_of_le h1 (by omega)]; exact zz_toNat (by omega) (by omega)
  · rw [Int64.toInt_ofInt_of_le h1 (by omega)]; exact zz_toNat (by omega) (by omega)
  · rw [Int64.toInt_ofInt_of_le h1 (by omega)]; exact zz_toNat (by omega) (by omega)

theorem bytesOf_map (d : List Byte) : bytesOf (d.map fun b => .num b.toNat) = some d := by
  induction d with
  | nil => rfl
  | cons b d ih =>
    have := UInt8.toNat_lt b
    simp only [List.map, bytesOf, ih]
    rw [if_pos (by omega)]; simp

/-- Only bytes are bytes. -/
theorem bytesOf_eq {vs : List V} {d : List Byte} (h : bytesOf vs = some d) : vs = d.map fun b => .num b.toNat := by
  induction vs generalizing d with
  | nil => cases h; rfl
  | cons v vs ih =>
    cases v <;> simp only [bytesOf] at h <;> try cases h
    rename_i i
    split at h
    · rename_i hi
      cases hb : bytesOf vs with
      | none => rw [hb] at h; cases h
      | some d' =>
        rw [hb] at h; cases h
        rw [ih hb, List.map_cons, u8nat (by omega)]
        congr 2; omega
    · cases h

theorem fromUtf8_utf8 (s : String) : fromUtf8 (utf8 s) = some s := by
  unfold fromUtf8 utf8
  have : (⟨(s.toByteArray.data.toList).toArray⟩ : ByteArray) = s.toByteArray := by simp
  rw [this]
  simp [String.fromUTF8?, String.fromUTF8, s.isValidUTF8]

theorem utf8_of_fromUtf8 {d : List Byte} {s : String} (h : fromUtf8 d = some s) : utf8 s = d := by
  unfold fromUtf8 String.fromUTF8? at h
  split at h
  · cases h; simp [utf8, String.fromUTF8]
  · cases h

theorem utf8_length (s : String) : (utf8 s).length = s.utf8ByteSize := by
  simp [utf8]

theorem charFromU32_val (c : Char) : charFromU32 c.val = some c := by
  unfold charFromU32; rw [dif_pos c.valid]

theorem charFromU32_some {n : UInt32} {c : Char} (h : charFromU32 n = some c) : c.val = n := by
  unfold charFromU32 at h; split at h
  · cases h; rfl
  · cases h

theorem toU32_ofNat (n : UInt32) : (Value.int (UInt64.ofNat n.toNat)).toU32 = .ok n := by
  rw [(c29_to_u32 _).1 n, u64nat (by have := n.toNat_lt; omega)]

end Fourleaf
