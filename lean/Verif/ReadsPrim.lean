import Verif.Reads

/-! # Reading what has no structure -/

namespace Fourleaf
open Spec

theorem lift_int_iff {k : IntTy} {v : Val} {i : Int} : k.conv v.head = .ok i ↔ ∃ n, v = .int n ∧ k.min ≤ i ∧ i ≤ k.max ∧ (n.toNat : Int) = k.wire i := by
  cases v with
  | int n => 
    simp only [Val.head, IntTy.conv_iff, Val.int.injEq, exists_eq_left']
  | _ =>
    constructor
    · intro h
      cases k <;> simp [Val.head, IntTy.conv, Value.toU8, Value.toU16, Value.toU32, Value.toU64, Value.toI8, Value.toI16, Value.toI32, Value.toI64, Value.toUnsigned, Value.toSigned, Value.asInt, Except.map] at h
    · rintro ⟨n, h, -⟩; cases h

theorem PM.lift_bind_ret {α β : Type} {x : Except Err α} {f : α → PM β} {b : β} {c : Stats} : PM.bind (PM.lift x) f = .ret b c ↔ ∃ a, x = .ok a ∧ f a = .ret b c := by
  cases x with
  | ok a => simp [PM.lift]
  | error e => simp only [PM.lift, PM.bind_fail, reduceCtorEq, false_and, exists_false, iff_false]; exact PM.fail_ne_ret

theorem bytes_ret {v : Val} {cost : Nat → Stats} {d : List Byte} {c : Stats} : v.bytes cost = .ret d c ↔ v = .blob d ∧ c = cost d.length := by
  cases v with
  | blob d' =>
    simp only [Val.bytes, Val.blob.injEq]
    constructor
    · intro h; obtain ⟨rfl, rfl⟩ := PM.ret_inj h; exact ⟨rfl, rfl⟩
    · rintro ⟨rfl, rfl⟩; rfl
  | _ =>
    simp only [Val.bytes, Val.head, PM.lift_bind_ret, Value.toBlob, reduceCtorEq, false_and, exists_false]

theorem bytes_bind {α : Type} {v : Val} {cost : Nat → Stats} {f : List Byte → PM α} {a : α} {c : Stats} :
    PM.bind (v.bytes cost) f = .ret a c ↔ ∃ d c', v = .blob d ∧ f d = .ret a c' ∧ c = cost d.length + c' := by
  constructor
  · intro h
    obtain ⟨d, c1, c2, h1, h2, rfl⟩ := PM.bind_eq_ret h
    obtain ⟨rfl, rfl⟩ := bytes_ret.1 h1
    exact ⟨d, c2, rfl, h2, rfl⟩
  · rintro ⟨d, c', rfl, h, rfl⟩
    exact PM.bind_retc h

theorem ret_eq {α : Type} {a b : α} {c d : Stats} : PM.ret a c = .ret b d ↔ a = b ∧ c = d :=
  ⟨PM.ret_inj, by rintro ⟨rfl, rfl⟩; rfl⟩

theorem asInt_iff {v : Val} {n : UInt64} : v.head.asInt = .ok n ↔ v = .int n := by
  cases v <;> simp [Val.head, Value.asInt]

theorem toNull_iff {v : Val} {u : Unit} : v.head.toNull = .ok u ↔ v = .int 0 := by
  unfold Value.toNull
  cases h : v.head.asInt with
  | error e =>
    simp only [reduceCtorEq, false_iff]
    rintro rfl; cases h
  | ok n =>
    rw [asInt_iff.1 h]
    simp only [Val.int.injEq]
    split <;> simp_all

theorem toBool_iff {v : Val} {b : Bool} : v.head.toBool = .ok b ↔ v = .int (if b then 1 else 0) := by
  cases v with
  | int n =>
    have e : (Val.int n).head.toU64 = .ok n := by
      have := UInt64.toNat_lt n
      simp only [Val.head, Value.toU64, Value.toUnsigned, Value.asInt]
      rw [if_neg]
      intro h
      have := UInt64.lt_iff_toNat_lt.1 h
      simp at this; omega
    simp only [Value.toBool, e, Val.int.injEq]
    by_cases h0 : n = 0
    · subst h0; cases b <;> simp
    · by_cases h1 : n = 1
      · subst h1; cases b <;> simp
      · simp only [h0, h1, if_false, reduceCtorEq]; cases b <;> simp [h0, h1]
  | _ => simp [Val.head, Value.toBool, Value.toU64, Value.toUnsigned, Value.asInt]

theorem toU32_iff {v : Val} {n : UInt32} : v.head.toU32 = .ok n ↔ v = .int (UInt64.ofNat n.toNat) := by
  cases v with
  | int m =>
    simp only [Val.head, Val.int.injEq, (Props.c29_to_u32 m).1]
    have := UInt32.toNat_lt n
    constructor
    · intro h
      apply UInt64.toNat_inj.1
      rw [u64nat (by omega)]; omega
    · rintro rfl; rw [u64nat (by omega)]
  | _ => simp [Val.head, Value.toU32, Value.toUnsigned, Value.asInt, Except.map]

theorem char_iff {n : UInt32} {c : Char} : charFromU32 n = some c ↔ n = c.val := by
  constructor
  · intro h; exact (charFromU32_some h).symm
  · rintro rfl; exact charFromU32_val c

theorem utf8_iff {d : List Byte} {s : String} : fromUtf8 d = some s ↔ d = utf8 s := by
  constructor
  · intro h; exact (utf8_of_fromUtf8 h).symm
  · rintro rfl; exact fromUtf8_utf8 s

theorem str_iff {d : List Byte} {v : V} {c : Stats} : (match fromUtf8 d with | some s => PM.ret (V.str s) | none => PM.fail .invalidValue) = .ret v c ↔
    ∃ s, d = utf8 s ∧ v = .str s ∧ c = .zero := by
  cases h : fromUtf8 d with
  | none =>
    simp only
    constructor
    · intro h; exact absurd h PM.fail_ne_ret
    · rintro ⟨s, h', -⟩; rw [utf8_iff.2 h'] at h; cases h
  | some s =>
    simp only [ret_eq]
    constructor
    · rintro ⟨rfl, rfl⟩; exact ⟨s, utf8_iff.1 h, rfl, rfl⟩
    · rintro ⟨s', h', rfl, rfl⟩
      rw [utf8_iff.2 h'] at h; cases h; exact ⟨rfl, rfl⟩

theorem prim_reads {p : Prim} {val : Val} {v : V} {c : Stats} : p.read val = .ret v c ↔ ∃ n, c = ⟨0, n⟩ ∧ PrimReads p val v n := by
  cases p with
  | phantom =>
    simp only [Prim.read, PM.lift_bind_ret, toNull_iff, ret_eq]
    constructor
    · rintro ⟨-, rfl, rfl, rfl⟩; exact ⟨0, rfl, .phantom⟩
    · rintro ⟨n, rfl, h⟩; cases h; exact ⟨(), rfl, rfl, rfl⟩
  | bool =>
    simp only [Prim.read, PM.lift_bind_ret, toBool_iff, ret_eq]
    constructor
    · rintro ⟨b, rfl, rfl, rfl⟩; cases b
      · exact ⟨0, rfl, .boolFalse⟩
      · exact ⟨0, rfl, .boolTrue⟩
    · rintro ⟨n, rfl, h⟩
      cases h with
      | boolFalse => exact ⟨false, rfl, rfl, rfl⟩
      | boolTrue => exact ⟨true, rfl, rfl, rfl⟩
  | int k =>
    simp only [Prim.read, PM.lift_bind_ret, lift_int_iff, ret_eq]
    constructor
    · rintro ⟨i, ⟨n, rfl, h1, h2, h3⟩, rfl, rfl⟩; exact ⟨0, rfl, .int h1 h2 h3⟩
    · rintro ⟨n, rfl, h⟩
      cases h with
      | int h1 h2 h3 => exact ⟨_, ⟨_, rfl, h1, h2, h3⟩, rfl, rfl⟩
  | char =>
    simp only [Prim.read, PM.lift_bind_ret, toU32_iff]
    constructor
    · rintro ⟨n, rfl, h⟩
      split at h
      · rename_i ch hch
        obtain ⟨rfl, rfl⟩ := ret_eq.1 h
        refine ⟨0, rfl, .char ?_⟩
        have := UInt32.toNat_lt n
        rw [u64nat (by omega), char_iff.1 hch]; rfl
      · exact absurd h PM.fail_ne_ret
    · rintro ⟨n, rfl, h⟩
      cases h with
      | char h =>
        rename_i m ch
        refine ⟨ch.val, ?_, ?_⟩
        · rw [show ch.val.toNat = m.toNat from h.symm]; simp
        · rw [charFromU32_val]; rfl
  | string =>
    simp only [Prim.read, bytes_bind]
    constructor
    · rintro ⟨d, c', rfl, h, rfl⟩
      obtain ⟨s, rfl, rfl, rfl⟩ := str_iff.1 h
      exact ⟨s.utf8ByteSize, by rw [utf8_length]; rfl, .string⟩
    · rintro ⟨n, rfl, h⟩
      cases h with
      | string => exact ⟨_, .zero, rfl, str_iff.2 ⟨_, rfl, rfl, rfl⟩, by rw [utf8_length]; rfl⟩
  | strRef =>
    simp only [Prim.read, bytes_bind]
    constructor
    · rintro ⟨d, c', rfl, h, rfl⟩
      obtain ⟨s, rfl, rfl, rfl⟩ := str_iff.1 h
      exact ⟨0, rfl, .strRef⟩
    · rintro ⟨n, rfl, h⟩
      cases h with
      | strRef => exact ⟨_, .zero, rfl, str_iff.2 ⟨_, rfl, rfl, rfl⟩, rfl⟩
  | bytesRef =>
    simp only [Prim.read, bytes_bind, ret_eq]
    constructor
    · rintro ⟨d, c', rfl, ⟨rfl, rfl⟩, rfl⟩
      exact ⟨0, rfl, .bytesRef⟩
    · rintro ⟨n, rfl, h⟩
      cases h with
      | bytesRef => exact ⟨_, .zero, rfl, ⟨rfl, rfl⟩, rfl⟩

theorem readArr_iff {n : Nat} {val : Val} {vs : List V} {c : Stats} : readArr n val = .ret vs c ↔ ∃ d, val = .blob d ∧ d.length = n ∧ vs = d.map (fun b => .num b.toNat) ∧ c = .zero := by
  simp only [readArr, bytes_bind]
  constructor
  · rintro ⟨d, c', rfl, h, rfl⟩
    split at h
    · exact absurd h PM.fail_ne_ret
    · rename_i hn
      obtain ⟨rfl, rfl⟩ := ret_eq.1 h
      exact ⟨d, rfl, by simpa using hn, rfl, rfl⟩
  · rintro ⟨d, rfl, rfl, rfl, rfl⟩
    exact ⟨d, .zero, rfl, by rw [if_neg (by simp)], rfl⟩

theorem readVec_iff {val : Val} {vs : List V} {c : Stats} : readVec val = .ret vs c ↔ ∃ d, val = .blob d ∧ vs = d.map (fun b => .num b.toNat) ∧ c = ⟨0, d.length⟩ := by
  simp only [readVec, bytes_bind, ret_eq]
  constructor
  · rintro ⟨d, c', rfl, ⟨rfl, rfl⟩, rfl⟩; exact ⟨d, rfl, rfl, rfl⟩
  · rintro ⟨d, rfl, rfl, rfl⟩; exact ⟨d, .zero, rfl, ⟨rfl, rfl⟩, rfl⟩

end Fourleaf
