import Verif.PropsWire
import Verif.Stream

/-! # C29: value conversions -/

namespace Fourleaf.Props
open Fourleaf Spec

theorem toUnsigned_spec (max : UInt64) (n : UInt64) :
    (n.toNat ≤ max.toNat ∧ (Value.int n).toUnsigned max = .ok n) ∨ (max.toNat < n.toNat ∧ (Value.int n).toUnsigned max = .error .integerOutOfRange) := by
  simp only [Value.toUnsigned, Value.asInt]
  by_cases h : n > max
  · rw [if_pos h]; exact .inr ⟨UInt64.lt_iff_toNat_lt.1 h, rfl⟩
  · rw [if_neg h]; exact .inl ⟨Nat.le_of_not_lt fun h' => h (UInt64.lt_iff_toNat_lt.2 h'), rfl⟩

theorem toSigned_spec (min max : Int64) (n : UInt64) :
    (min.toInt ≤ (unzigzag n).toInt ∧ (unzigzag n).toInt ≤ max.toInt ∧ (Value.int n).toSigned min max = .ok (unzigzag n)) ∨
    (((unzigzag n).toInt < min.toInt ∨ max.toInt < (unzigzag n).toInt) ∧ (Value.int n).toSigned min max = .error .integerOutOfRange) := by
  simp only [Value.toSigned, Value.asInt]
  by_cases h : unzigzag n < min
  · rw [if_pos h]; exact .inr ⟨.inl (Int64.lt_iff_toInt_lt.1 h), rfl⟩
  · rw [if_neg h]
    have h1 : ¬ (unzigzag n).toInt < min.toInt := fun h' => h (Int64.lt_iff_toInt_lt.2 h')
    by_cases g : unzigzag n > max
    · rw [if_pos g]; exact .inr ⟨.inr (Int64.lt_iff_toInt_lt.1 g), rfl⟩
    · rw [if_neg g]
      have g1 : ¬ max.toInt < (unzigzag n).toInt := fun h' => g (Int64.lt_iff_toInt_lt.2 h')
      exact .inl ⟨by omega, by omega, rfl⟩

/-- The signed number a wire integer stands for. -/
theorem unzigzag_iff (n : UInt64) (i : Int64) : unzigzag n = i ↔ zigzagInt i.toInt = (n.toNat : Int) := by
  have hz := c06_zigzag_formula i
  have hz' : zigzagInt i.toInt = ((zigzag i).toNat : Int) := by rw [hz]; rfl
  rw [hz']
  constructor
  · rintro rfl; rw [c06_zigzag_bijection.2]
  · intro h
    have : zigzag i = n := UInt64.toNat_inj.1 (by omega)
    rw [← this, c06_zigzag_bijection.1]

theorem zigzagInt_inj {a b : Int} (h : zigzagInt a = zigzagInt b) : a = b := by
  unfold zigzagInt at h
  split at h <;> split at h <;> omega

/-- **C29**, `to_u8`: yields `v` exactly if the wire integer is `v`; a wire integer that does not fit is refused. -/
theorem c29_to_u8 (n : UInt64) :
    (∀ v : UInt8, (Value.int n).toU8 = .ok v ↔ v.toNat = n.toNat) ∧
    (2 ^ 8 ≤ n.toNat → (Value.int n).toU8 = .error .integerOutOfRange) := by
  rcases toUnsigned_spec 0xFF n with ⟨h, h'⟩ | ⟨h, h'⟩
  · have hlt : n.toNat < 2 ^ 8 := by
      have e : (0xFF : UInt64).toNat = 2 ^ 8 - 1 := rfl
      omega
    have e : (Value.int n).toU8 = .ok n.toUInt8 := by unfold Value.toU8; rw [h']; rfl
    have hn : n.toUInt8.toNat = n.toNat := by rw [UInt64.toNat_toUInt8]; exact Nat.mod_eq_of_lt hlt
    refine ⟨fun v => ?_, fun h => by omega⟩
    rw [e]
    constructor
    · intro g; cases g; exact hn
    · intro g; congr 1; exact UInt8.toNat_inj.1 (by omega)
  · have hlt : 2 ^ 8 ≤ n.toNat := by
      have e : (0xFF : UInt64).toNat = 2 ^ 8 - 1 := rfl
      omega
    have e : (Value.int n).toU8 = .error .integerOutOfRange := by unfold Value.toU8; rw [h']; rfl
    refine ⟨fun v => ?_, fun _ => e⟩
    rw [e]
    constructor
    · intro g; cases g
    · intro g; have := v.toNat_lt; omega

/-- **C29**, `to_u16`: yields `v` exactly if the wire integer is `v`; a wire integer that does not fit is refused. -/
theorem c29_to_u16 (n : UInt64) :
    (∀ v : UInt16, (Value.int n).toU16 = .ok v ↔ v.toNat = n.toNat) ∧
    (2 ^ 16 ≤ n.toNat → (Value.int n).toU16 = .error .integerOutOfRange) := by
  rcases toUnsigned_spec 0xFFFF n with ⟨h, h'⟩ | ⟨h, h'⟩
  · have hlt : n.toNat < 2 ^ 16 := by
      have e : (0xFFFF : UInt64).toNat = 2 ^ 16 - 1 := rfl
      omega
    have e : (Value.int n).toU16 = .ok n.toUInt16 := by unfold Value.toU16; rw [h']; rfl
    have hn : n.toUInt16.toNat = n.toNat := by rw [UInt64.toNat_toUInt16]; exact Nat.mod_eq_of_lt hlt
    refine ⟨fun v => ?_, fun h => by omega⟩
    rw [e]
    constructor
    · intro g; cases g; exact hn
    · intro g; congr 1; exact UInt16.toNat_inj.1 (by omega)
  · have hlt : 2 ^ 16 ≤ n.toNat := by
      have e : (0xFFFF : UInt64).toNat = 2 ^ 16 - 1 := rfl
      omega
    have e : (Value.int n).toU16 = .error .integerOutOfRange := by unfold Value.toU16; rw [h']; rfl
    refine ⟨fun v => ?_, fun _ => e⟩
    rw [e]
    constructor
    · intro g; cases g
    · intro g; have := v.toNat_lt; omega

/-- **C29**, `to_u32`: yields `v` exactly if the wire integer is `v`; a wire integer that does not fit is refused. -/
theorem c29_to_u32 (n : UInt64) :
    (∀ v : UInt32, (Value.int n).toU32 = .ok v ↔ v.toNat = n.toNat) ∧
    (2 ^ 32 ≤ n.toNat → (Value.int n).toU32 = .error .integerOutOfRange) := by
  rcases toUnsigned_spec 0xFFFFFFFF n with ⟨h, h'⟩ | ⟨h, h'⟩
  · have hlt : n.toNat < 2 ^ 32 := by
      have e : (0xFFFFFFFF : UInt64).toNat = 2 ^ 32 - 1 := rfl
      omega
    have e : (Value.int n).toU32 = .ok n.toUInt32 := by unfold Value.toU32; rw [h']; rfl
    have hn : n.toUInt32.toNat = n.toNat := by rw [UInt64.toNat_toUInt32]; exact Nat.mod_eq_of_lt hlt
    refine ⟨fun v => ?_, fun h => by omega⟩
    rw [e]
    constructor
    · intro g; cases g; exact hn
    · intro g; congr 1; exact UInt32.toNat_inj.1 (by omega)
  · have hlt : 2 ^ 32 ≤ n.toNat := by
      have e : (0xFFFFFFFF : UInt64).toNat = 2 ^ 32 - 1 := rfl
      omega
    have e : (Value.int n).toU32 = .error .integerOutOfRange := by unfold Value.toU32; rw [h']; rfl
    refine ⟨fun v => ?_, fun _ => e⟩
    rw [e]
    constructor
    · intro g; cases g
    · intro g; have := v.toNat_lt; omega

/-- **C29**, `to_u64`: yields `v` exactly if the wire integer is `v`; a wire integer that does not fit is refused. -/
theorem c29_to_u64 (n : UInt64) :
    (∀ v : UInt64, (Value.int n).toU64 = .ok v ↔ v.toNat = n.toNat) ∧
    (2 ^ 64 ≤ n.toNat → (Value.int n).toU64 = .error .integerOutOfRange) := by
  rcases toUnsigned_spec 0xFFFFFFFFFFFFFFFF n with ⟨h, h'⟩ | ⟨h, h'⟩
  · have e : (Value.int n).toU64 = .ok n := h'
    refine ⟨fun v => ?_, fun h => by have := n.toNat_lt; omega⟩
    rw [e]
    constructor
    · intro g; cases g; rfl
    · intro g; congr 1; exact UInt64.toNat_inj.1 (by omega)
  · have e : (0xFFFFFFFFFFFFFFFF : UInt64).toNat = 2 ^ 64 - 1 := rfl
    have := n.toNat_lt
    omega

/-- **C29**, `to_i8`: yields `v` exactly if the wire integer is the ZigZag image of `v`; a wire integer that is the image of no value of the type is refused. -/
theorem c29_to_i8 (n : UInt64) :
    (∀ v : Int8, (Value.int n).toI8 = .ok v ↔ zigzagInt v.toInt = (n.toNat : Int)) ∧
    ((∀ v : Int8, zigzagInt v.toInt ≠ (n.toNat : Int)) → (Value.int n).toI8 = .error .integerOutOfRange) := by
  have em : (-0x80 : Int64).toInt = -2 ^ 7 := by decide
  have ex : (0x7F : Int64).toInt = 2 ^ 7 - 1 := by decide
  have hu : zigzagInt (unzigzag n).toInt = (n.toNat : Int) := (unzigzag_iff n _).1 rfl
  rcases toSigned_spec (-0x80) 0x7F n with ⟨h1, h2, h'⟩ | ⟨h, h'⟩
  · rw [em] at h1
    rw [ex] at h2
    have e : (Value.int n).toI8 = .ok (unzigzag n).toInt8 := by unfold Value.toI8; rw [h']; rfl
    have hn : (unzigzag n).toInt8.toInt = (unzigzag n).toInt := by
      rw [Int64.toInt_toInt8]
      exact Int.bmod_eq_of_le (by omega) (by omega)
    refine ⟨fun v => ?_, fun h => absurd (by rw [hn]; exact hu) (h (unzigzag n).toInt8)⟩
    rw [e]
    constructor
    · intro g; cases g; rw [hn]; exact hu
    · intro g
      congr 1
      refine Int8.toInt_inj.1 ?_
      rw [hn]
      exact zigzagInt_inj (by omega)
  · rw [em, ex] at h
    have e : (Value.int n).toI8 = .error .integerOutOfRange := by unfold Value.toI8; rw [h']; rfl
    refine ⟨fun v => ?_, fun _ => e⟩
    rw [e]
    constructor
    · intro g; cases g
    · intro g
      have e1 : v.toInt = (unzigzag n).toInt := zigzagInt_inj (by omega)
      have := v.toInt_lt
      have := v.le_toInt
      omega

/-- **C29**, `to_i16`: yields `v` exactly if the wire integer is the ZigZag image of `v`; a wire integer that is the image of no value of the type is refused. -/
theorem c29_to_i16 (n : UInt64) :
    (∀ v : Int16, (Value.int n).toI16 = .ok v ↔ zigzagInt v.toInt = (n.toNat : Int)) ∧
    ((∀ v : Int16, zigzagInt v.toInt ≠ (n.toNat : Int)) → (Value.int n).toI16 = .error .integerOutOfRange) := by
  have em : (-0x8000 : Int64).toInt = -2 ^ 15 := by decide
  have ex : (0x7FFF : Int64).toInt = 2 ^ 15 - 1 := by decide
  have hu : zigzagInt (unzigzag n).toInt = (n.toNat : Int) := (unzigzag_iff n _).1 rfl
  rcases toSigned_spec (-0x8000) 0x7FFF n with ⟨h1, h2, h'⟩ | ⟨h, h'⟩
  · rw [em] at h1
    rw [ex] at h2
    have e : (Value.int n).toI16 = .ok (unzigzag n).toInt16 := by unfold Value.toI16; rw [h']; rfl
    have hn : (unzigzag n).toInt16.toInt = (unzigzag n).toInt := by
      rw [Int64.toInt_toInt16]
      exact Int.bmod_eq_of_le (by omega) (by omega)
    refine ⟨fun v => ?_, fun h => absurd (by rw [hn]; exact hu) (h (unzigzag n).toInt16)⟩
    rw [e]
    constructor
    · intro g; cases g; rw [hn]; exact hu
    · intro g
      congr 1
      refine Int16.toInt_inj.1 ?_
      rw [hn]
      exact zigzagInt_inj (by omega)
  · rw [em, ex] at h
    have e : (Value.int n).toI16 = .error .integerOutOfRange := by unfold Value.toI16; rw [h']; rfl
    refine ⟨fun v => ?_, fun _ => e⟩
    rw [e]
    constructor
    · intro g; cases g
    · intro g
      have e1 : v.toInt = (unzigzag n).toInt := zigzagInt_inj (by omega)
      have := v.toInt_lt
      have := v.le_toInt
      omega

/-- **C29**, `to_i32`: yields `v` exactly if the wire integer is the ZigZag image of `v`; a wire integer that is the image of no value of the type is refused. -/
theorem c29_to_i32 (n : UInt64) :
    (∀ v : Int32, (Value.int n).toI32 = .ok v ↔ zigzagInt v.toInt = (n.toNat : Int)) ∧
    ((∀ v : Int32, zigzagInt v.toInt ≠ (n.toNat : Int)) → (Value.int n).toI32 = .error .integerOutOfRange) := by
  have em : (-0x80000000 : Int64).toInt = -2 ^ 31 := by decide
  have ex : (0x7FFFFFFF : Int64).toInt = 2 ^ 31 - 1 := by decide
  have hu : zigzagInt (unzigzag n).toInt = (n.toNat : Int) := (unzigzag_iff n _).1 rfl
  rcases toSigned_spec (-0x80000000) 0x7FFFFFFF n with ⟨h1, h2, h'⟩ | ⟨h, h'⟩
  · rw [em] at h1
    rw [ex] at h2
    have e : (Value.int n).toI32 = .ok (unzigzag n).toInt32 := by unfold Value.toI32; rw [h']; rfl
    have hn : (unzigzag n).toInt32.toInt = (unzigzag n).toInt := by
      rw [Int64.toInt_toInt32]
      exact Int.bmod_eq_of_le (by omega) (by omega)
    refine ⟨fun v => ?_, fun h => absurd (by rw [hn]; exact hu) (h (unzigzag n).toInt32)⟩
    rw [e]
    constructor
    · intro g; cases g; rw [hn]; exact hu
    · intro g
      congr 1
      refine Int32.toInt_inj.1 ?_
      rw [hn]
      exact zigzagInt_inj (by omega)
  · rw [em, ex] at h
    have e : (Value.int n).toI32 = .error .integerOutOfRange := by unfold Value.toI32; rw [h']; rfl
    refine ⟨fun v => ?_, fun _ => e⟩
    rw [e]
    constructor
    · intro g; cases g
    · intro g
      have e1 : v.toInt = (unzigzag n).toInt := zigzagInt_inj (by omega)
      have := v.toInt_lt
      have := v.le_toInt
      omega

/-- **C29**, `to_i64`: yields `v` exactly if the wire integer is the ZigZag image of `v`; a wire integer that is the image of no value of the type is refused. -/
theorem c29_to_i64 (n : UInt64) :
    (∀ v : Int64, (Value.int n).toI64 = .ok v ↔ zigzagInt v.toInt = (n.toNat : Int)) ∧
    ((∀ v : Int64, zigzagInt v.toInt ≠ (n.toNat : Int)) → (Value.int n).toI64 = .error .integerOutOfRange) := by
  have em : (-0x8000000000000000 : Int64).toInt = -2 ^ 63 := by decide
  have ex : (0x7FFFFFFFFFFFFFFF : Int64).toInt = 2 ^ 63 - 1 := by decide
  have hu : zigzagInt (unzigzag n).toInt = (n.toNat : Int) := (unzigzag_iff n _).1 rfl
  rcases toSigned_spec (-0x8000000000000000) 0x7FFFFFFFFFFFFFFF n with ⟨h1, h2, h'⟩ | ⟨h, h'⟩
  · rw [em] at h1
    rw [ex] at h2
    have e : (Value.int n).toI64 = .ok (unzigzag n) := h'
    have hn : (unzigzag n).toInt = (unzigzag n).toInt := rfl
    refine ⟨fun v => ?_, fun h => absurd (by rw [hn]; exact hu) (h (unzigzag n))⟩
    rw [e]
    constructor
    · intro g; cases g; rw [hn]; exact hu
    · intro g
      congr 1
      refine Int64.toInt_inj.1 ?_
      rw [hn]
      exact zigzagInt_inj (by omega)
  · rw [em, ex] at h
    have e : (Value.int n).toI64 = .error .integerOutOfRange := h'
    refine ⟨fun v => ?_, fun _ => e⟩
    rw [e]
    constructor
    · intro g; cases g
    · intro g
      have e1 : v.toInt = (unzigzag n).toInt := zigzagInt_inj (by omega)
      have := v.toInt_lt
      have := v.le_toInt
      omega

/-- **C29**, `to_bool`: 0 and 1 only. -/
theorem c29_to_bool (n : UInt64) :
    (∀ b, (Value.int n).toBool = .ok b ↔ n.toNat = b.toNat) ∧ (2 ≤ n.toNat → (Value.int n).toBool = .error .integerOutOfRange) := by
  have h64 : (Value.int n).toU64 = .ok n := ((c29_to_u64 n).1 n).2 rfl
  have e : (Value.int n).toBool = if n = 0 then .ok false else if n = 1 then .ok true else .error .integerOutOfRange := by
    unfold Value.toBool; rw [h64]
  have z : n = 0 ↔ n.toNat = 0 := by rw [← UInt64.toNat_inj]; rfl
  have o : n = 1 ↔ n.toNat = 1 := by rw [← UInt64.toNat_inj]; rfl
  rw [e]
  by_cases h0 : n.toNat = 0
  · rw [if_pos (z.2 h0), h0]
    refine ⟨fun b => ?_, fun h => by omega⟩
    cases b <;> simp
  · rw [if_neg (fun h => h0 (z.1 h))]
    by_cases h1 : n.toNat = 1
    · rw [if_pos (o.2 h1), h1]
      refine ⟨fun b => ?_, fun h => by omega⟩
      cases b <;> simp
    · rw [if_neg (fun h => h1 (o.1 h))]
      refine ⟨fun b => ⟨fun h => (by cases h), fun h => ?_⟩, fun _ => rfl⟩
      cases b
      · exact absurd h h0
      · exact absurd h h1

/-- **C29**, `to_null`: 0 only. -/
theorem c29_to_null (n : UInt64) : ((Value.int n).toNull = .ok () ↔ n.toNat = 0) ∧ (n.toNat ≠ 0 → (Value.int n).toNull = .error .integerOutOfRange) := by
  have e : (Value.int n).toNull = if n = 0 then .ok () else .error .integerOutOfRange := rfl
  have z : n = 0 ↔ n.toNat = 0 := by rw [← UInt64.toNat_inj]; rfl
  rw [e]
  by_cases h0 : n.toNat = 0
  · rw [if_pos (z.2 h0)]
    exact ⟨⟨fun _ => h0, fun _ => rfl⟩, fun h => absurd h0 h⟩
  · rw [if_neg (fun h => h0 (z.1 h))]
    exact ⟨⟨fun h => (by cases h), fun h => absurd h h0⟩, fun _ => rfl⟩

/-- **C29** Values of the other kinds are refused by every integer conversion, and the conversions to struct, enum and blob accept exactly their kind. -/
theorem c29_kinds (v : Value) :
    ((∀ n, v ≠ .int n) →
      v.toU8 = .error (.unexpectedType "Integer" v.kind) ∧ v.toU16 = .error (.unexpectedType "Integer" v.kind) ∧
      v.toU32 = .error (.unexpectedType "Integer" v.kind) ∧ v.toU64 = .error (.unexpectedType "Integer" v.kind) ∧
      v.toI8 = .error (.unexpectedType "Integer" v.kind) ∧ v.toI16 = .error (.unexpectedType "Integer" v.kind) ∧
      v.toI32 = .error (.unexpectedType "Integer" v.kind) ∧ v.toI64 = .error (.unexpectedType "Integer" v.kind) ∧
      v.toBool = .error (.unexpectedType "Integer" v.kind) ∧ v.toNull = .error (.unexpectedType "Integer" v.kind)) ∧
    (v.toStruct = .ok () ↔ v = .struct) ∧ (∀ d, v.toEnum = .ok d ↔ v = .enum d) ∧ (∀ len, v.toBlob = .ok len ↔ v = .blob len) := by
  cases v with
  | int n => exact ⟨fun h => absurd rfl (h n), by simp [Value.toStruct], by simp [Value.toEnum], by simp [Value.toBlob]⟩
  | blob l => exact ⟨fun _ => ⟨rfl, rfl, rfl, rfl, rfl, rfl, rfl, rfl, rfl, rfl⟩, by simp [Value.toStruct], by simp [Value.toEnum], by simp [Value.toBlob]⟩
  | struct => exact ⟨fun _ => ⟨rfl, rfl, rfl, rfl, rfl, rfl, rfl, rfl, rfl, rfl⟩, by simp [Value.toStruct], by simp [Value.toEnum], by simp [Value.toBlob]⟩
  | enum d => exact ⟨fun _ => ⟨rfl, rfl, rfl, rfl, rfl, rfl, rfl, rfl, rfl, rfl⟩, by simp [Value.toStruct], by simp [Value.toEnum], by simp [Value.toBlob]⟩

example : (Value.int 255).toU8 matches .ok 255 := rfl
example : (Value.int 256).toU8 matches .error .integerOutOfRange := rfl
example : (Value.int 255).toI8 matches .ok (-128) := rfl
example : (Value.int 256).toI8 matches .error .integerOutOfRange := rfl

end Fourleaf.Props
