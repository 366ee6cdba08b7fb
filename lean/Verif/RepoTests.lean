import Verif.PropsStd
import Verif.PropsDebug

/-! # The project's own tests, run on the model

Not proofs of properties: the examples below are the unit tests of `/repo/src` with their literal inputs and outputs, evaluated in the
model by the kernel. They check that the model is a model of this code. Each is named after the test it transcribes.
Left out: nothing in `wire.rs`, `retrofit.rs`, `sugar.rs`, `unknown.rs`, `ser_des_builtin_tests.rs`; in `stream.rs` only assertions on
message texts. -/

namespace Fourleaf.RepoTests
open Fourleaf Fourleaf.Props

/-- `decode_hexit` of `src/test_helpers.rs` 18-30. -/
def hexit (c : Char) : Nat :=
  if '0' ≤ c ∧ c ≤ '9' then c.toNat - '0'.toNat
  else if 'a' ≤ c ∧ c ≤ 'f' then c.toNat - 'a'.toNat + 10
  else c.toNat - 'A'.toNat + 10

/-- The loop of `parse` (`src/test_helpers.rs` 32-50); the flag says whether the position is inside quotes. -/
def parseChars : Bool → List Char → List Byte
  | _, [] => []
  | true, c :: cs => if c = '\'' then parseChars false cs else UInt8.ofNat c.toNat :: parseChars true cs
  | false, c :: cs =>
    if c = ' ' then parseChars false cs
    else if c = '\'' then parseChars true cs
    else match cs with
      | [] => []
      | d :: cs => UInt8.ofNat (hexit c * 16 + hexit d) :: parseChars false cs

/-- `parse` of `src/test_helpers.rs` 15-53. -/
def parse (s : String) : List Byte := parseChars false s.toList

/-- `to_vec` (`src/ser.rs` 17-22) on the model: the bytes written, or `none` if the value does not have the type or a call fails. -/
def toVec (env : Env) (t : Ty) (v : V) : Option (List Byte) :=
  match (sops env 24).body t v with
  | none => none
  | some cs =>
    match runCalls (cs ++ [.commit]) (Stream.new ⟨[], 0, [], false⟩) with
    | .ok _ s => some s.inner.data
    | .err _ _ => none

/-- `from_slice_copy` / `from_slice_borrow` (`src/de.rs` 85-108) on the model, keeping only the kind of an error. -/
def fromSlice (env : Env) (cfg : Config) (t : Ty) (bytes : List Byte) : Except Kind V :=
  match (deserialize env t cfg).run (Stream.fromSlice bytes, .zero) with
  | .ok v _ => .ok v
  | .err (.client e) _ => .error e.kind
  | .err (.abort _) _ => .error .panic

/-- `tcase!`, `round_trip`: the value is written as the given bytes, and read back from them. -/
def round (env : Env) (t : Ty) (v : V) (binary : String) : Bool :=
  decide (toVec env t v = some (parse binary)) &&
    match fromSlice env .default t (parse binary) with
    | .ok w => decide (w = v)
    | .error _ => false

/-- The value read from the given bytes. -/
def reads (env : Env) (cfg : Config) (t : Ty) (binary : String) (v : V) : Bool :=
  match fromSlice env cfg t (parse binary) with
  | .ok w => decide (w = v)
  | .error _ => false

/-- `ecase!`: reading the given bytes fails with the given kind of error. -/
def fails (env : Env) (cfg : Config) (t : Ty) (binary : String) (k : Kind) : Bool :=
  match fromSlice env cfg t (parse binary) with
  | .ok _ => false
  | .error e => decide (e = k)

/-- No declarations are needed for the built-in types. -/
def noEnv : Env := ⟨fun _ => .struct ⟨[], .plain, fun _ => true⟩, 0, by intro i t h; simp [Decl.types, Body.types] at h⟩

abbrev int (k : IntTy) : Ty := .prim (.int k)
abbrev u32 : Ty := int .u32
abbrev u8 : Ty := int .u8
abbrev unit : Ty := .tuple []
/-- `((), T)`: the value as a struct field -/
abbrev sf (t : Ty) : Ty := .tuple [unit, t]
abbrev sv (v : V) : V := .seq [.seq [], v]
abbrev ns (l : List Int) : V := .seq (l.map .num)

/-! ## `src/ser_des_builtin_tests.rs` -/

-- the scalars: at top level, as a struct field, as a collection element
example : round noEnv (.prim .bool) (.bool false) "41 00 00" := by decide +kernel
example : round noEnv (.prim .bool) (.bool true) "41 01 00" := by decide +kernel
example : round noEnv (int .i8) (.num 42) "41 54 00" := by decide +kernel
example : round noEnv (int .u8) (.num 42) "41 2A 00" := by decide +kernel
example : ∀ k ∈ [IntTy.i16, .i32, .i64, .isize], round noEnv (int k) (.num 300) "41 D8 04 00" := by decide +kernel
example : ∀ k ∈ [IntTy.u16, .u32, .u64, .usize], round noEnv (int k) (.num 300) "41 AC 02 00" := by decide +kernel
example : round noEnv (sf (.prim .bool)) (sv (.bool false)) "C1 00 42 00 00" := by decide +kernel
example : round noEnv (sf (.prim .bool)) (sv (.bool true)) "C1 00 42 01 00" := by decide +kernel
example : round noEnv (sf (int .i8)) (sv (.num 42)) "C1 00 42 54 00" := by decide +kernel
example : round noEnv (sf (int .u8)) (sv (.num 42)) "C1 00 42 2A 00" := by decide +kernel
example : ∀ k ∈ [IntTy.i16, .i32, .i64, .isize], round noEnv (sf (int k)) (sv (.num 300)) "C1 00 42 D8 04 00" := by decide +kernel
example : ∀ k ∈ [IntTy.u16, .u32, .u64, .usize], round noEnv (sf (int k)) (sv (.num 300)) "C1 00 42 AC 02 00" := by decide +kernel
example : round noEnv (.vec (.prim .bool)) (.seq [.bool false]) "41 00 00" := by decide +kernel
example : round noEnv (.vec (.prim .bool)) (.seq [.bool true]) "41 01 00" := by decide +kernel
example : round noEnv (.vec (int .i8)) (ns [42]) "41 54 00" := by decide +kernel
example : ∀ k ∈ [IntTy.i16, .i32, .i64, .isize], round noEnv (.vec (int k)) (ns [300]) "41 D8 04 00" := by decide +kernel
example : ∀ k ∈ [IntTy.u16, .u32, .u64, .usize], round noEnv (.vec (int k)) (ns [300]) "41 AC 02 00" := by decide +kernel

-- tuples
example : round noEnv unit (.seq []) "C1 00 00" := by decide +kernel
example : round noEnv (.tuple [u32]) (ns [5]) "41 05 00" := by decide +kernel
example : round noEnv (.tuple [u32, int .i32]) (ns [5, 4]) "41 05 42 08 00" := by decide +kernel
example : round noEnv (sf unit) (sv (.seq [])) "C1 00 C2 00 00" := by decide +kernel
example : round noEnv (sf (.tuple [u32])) (sv (ns [5])) "C1 00 C2 41 05 00 00" := by decide +kernel
example : round noEnv (sf (.tuple [u32, int .i32])) (sv (ns [5, 4])) "C1 00 C2 41 05 42 08 00 00" := by decide +kernel
example : round noEnv (.vec unit) (.seq [.seq []]) "C1 00 00" := by decide +kernel
example : round noEnv (.vec (.tuple [u32])) (.seq [ns [5]]) "C1 41 05 00 00" := by decide +kernel
example : round noEnv (.vec (.tuple [u32, int .i32])) (.seq [ns [5, 4]]) "C1 41 05 42 08 00 00" := by decide +kernel

-- strings and byte strings: `&str`, `String`, `&[u8]`, `Vec<u8>`, `[u8; 4]`
example : round noEnv (.prim .strRef) (.str "plugh") "81 05 'plugh' 00" := by decide +kernel
example : round noEnv (.prim .string) (.str "plugh") "81 05 'plugh' 00" := by decide +kernel
example : round noEnv (.prim .bytesRef) (.ofBytes (parse "'plugh' FF")) "81 06 'plugh' FF 00" := by decide +kernel
example : round noEnv (.vec u8) (ns [42, 255]) "81 02 2A FF 00" := by decide +kernel
example : round noEnv (.small 4 u8) (ns [0, 1, 2, 3]) "81 04 00 01 02 03 00" := by decide +kernel
example : round noEnv (sf (.prim .strRef)) (sv (.str "plugh")) "C1 00 82 05 'plugh' 00" := by decide +kernel
example : round noEnv (sf (.prim .string)) (sv (.str "plugh")) "C1 00 82 05 'plugh' 00" := by decide +kernel
example : round noEnv (sf (.prim .bytesRef)) (sv (.ofBytes (parse "'plugh' FF"))) "C1 00 82 06 'plugh' FF 00" := by decide +kernel
example : round noEnv (sf (.vec u8)) (sv (ns [42, 255])) "C1 00 82 02 2A FF 00" := by decide +kernel
example : round noEnv (sf (.small 4 u8)) (sv (ns [0, 1, 2, 3])) "C1 00 82 04 00 01 02 03 00" := by decide +kernel
example : round noEnv (.vec (.prim .strRef)) (.seq [.str "plugh"]) "81 05 'plugh' 00" := by decide +kernel
example : round noEnv (.vec (.prim .string)) (.seq [.str "plugh"]) "81 05 'plugh' 00" := by decide +kernel
example : round noEnv (.vec (.prim .bytesRef)) (.seq [.ofBytes (parse "'plugh' FF")]) "81 06 'plugh' FF 00" := by decide +kernel
example : round noEnv (.vec (.vec u8)) (.seq [ns [42, 255]]) "81 02 2A FF 00" := by decide +kernel
example : round noEnv (.vec (.small 4 u8)) (.seq [ns [0, 1, 2, 3]]) "81 04 00 01 02 03 00" := by decide +kernel

-- collections without elements
def colls (t : Ty) : List Ty := [.option t, .vec t, .coll .list t, .coll .set t, .small 0 t]
example : ∀ t ∈ colls u32, round noEnv t (.seq []) "00" := by decide +kernel
example : ∀ t ∈ colls u32, round noEnv (sf t) (sv (.seq [])) "C1 00 00" := by decide +kernel
example : ∀ t ∈ colls u32, round noEnv (.vec t) (.seq [.seq []]) "C1 00 00" := by decide +kernel

-- and with elements
def colls2 (t : Ty) : List Ty := [.vec t, .coll .list t, .coll .set t, .small 2 t]
example : round noEnv (.option u32) (ns [5]) "41 05 00" := by decide +kernel
example : ∀ t ∈ colls2 u32, round noEnv t (ns [5, 6]) "41 05 41 06 00" := by decide +kernel
example : round noEnv (.coll .set u32) (ns [5]) "41 05 00" := by decide +kernel
example : round noEnv (sf (.option u32)) (sv (ns [5])) "C1 00 42 05 00" := by decide +kernel
example : ∀ t ∈ colls2 u32, round noEnv (sf t) (sv (ns [5, 6])) "C1 00 42 05 42 06 00" := by decide +kernel
example : round noEnv (sf (.coll .set u32)) (sv (ns [5])) "C1 00 42 05 00" := by decide +kernel
example : round noEnv (.vec (.option u32)) (.seq [ns [5], ns [6]]) "C1 41 05 00 C1 41 06 00 00" := by decide +kernel
example : ∀ t ∈ colls2 u32, round noEnv (.vec t) (.seq [ns [5, 6], ns [7, 8]]) "C1 41 05 41 06 00 C1 41 07 41 08 00 00" := by decide +kernel
example : round noEnv (.vec (.coll .set u32)) (.seq [ns [5], ns [7]]) "C1 41 05 00 C1 41 07 00 00" := by decide +kernel

-- maps
abbrev um : Ty := .map u32 u32
example : round noEnv um (.seq []) "00" := by decide +kernel
example : round noEnv (sf um) (sv (.seq [])) "C1 00 00" := by decide +kernel
example : round noEnv (.vec um) (.seq [.seq []]) "C1 00 00" := by decide +kernel
example : round noEnv um (.seq [ns [5, 6], ns [7, 8]]) "C1 41 05 42 06 00 C1 41 07 42 08 00 00" := by decide +kernel
example : round noEnv um (.seq [ns [5, 6]]) "C1 41 05 42 06 00 00" := by decide +kernel
example : round noEnv (sf um) (sv (.seq [ns [5, 6], ns [7, 8]])) "C1 00 C2 41 05 42 06 00 C2 41 07 42 08 00 00" := by decide +kernel
example : round noEnv (sf um) (sv (.seq [ns [5, 6]])) "C1 00 C2 41 05 42 06 00 00" := by decide +kernel
example : round noEnv (.vec um) (.seq [.seq [ns [1, 2], ns [3, 4]], .seq [ns [5, 6], ns [7, 8]]])
    "C1 C1 41 01 42 02 00 C1 41 03 42 04 00 00 C1 C1 41 05 42 06 00 C1 41 07 42 08 00 00 00" := by decide +kernel
example : round noEnv (.vec um) (.seq [.seq [ns [5, 6]], .seq [ns [7, 8]]]) "C1 C1 41 05 42 06 00 00 C1 C1 41 07 42 08 00 00 00" := by decide +kernel

-- smart pointers
example : round noEnv (.boxed u32) (.num 5) "41 05 00" := by decide +kernel
example : round noEnv (sf (.boxed u32)) (sv (.num 5)) "C1 00 42 05 00" := by decide +kernel
example : round noEnv (.vec (.boxed u32)) (ns [5]) "41 05 00" := by decide +kernel

-- `binary_heap_basically_works`, `cow_desers_according_to_style` (the values), `unknown_fields_ignored_by_default`, large arrays
example : round noEnv (.coll .list u32) (ns [5]) "41 05 00" := by decide +kernel
example : round noEnv (.boxed (.prim .string)) (.str "hello world") "81 0B 'hello world' 00" := by decide +kernel
example : round noEnv (.boxed (.prim .strRef)) (.str "hello world") "81 0B 'hello world' 00" := by decide +kernel
example : reads noEnv .default (.tuple [u32, u32]) "41 01 C3 41 2A 00 42 02 00" (ns [1, 2]) := by decide +kernel
example : toVec noEnv (.large 64 u8) (ns (List.replicate 64 1)) = some ([0x81, 0x40] ++ List.replicate 64 1 ++ [0]) := by decide +kernel
example : (match fromSlice noEnv .default (.large 64 u8) ([0x81, 0x40] ++ List.replicate 64 1 ++ [0]) with
    | .ok v => decide (v = ns (List.replicate 64 1)) | _ => false) = true := by decide +kernel
example : toVec noEnv (.large 64 u32) (ns (List.replicate 64 1)) = some ((List.replicate 64 [0x41, 1]).flatten ++ [0]) := by decide +kernel
example : (match fromSlice noEnv .default (.large 64 u32) ((List.replicate 64 [0x41, 1]).flatten ++ [0]) with
    | .ok v => decide (v = ns (List.replicate 64 1)) | _ => false) = true := by decide +kernel

-- `ecase!`
example : fails noEnv .default (.tuple [u32]) "00" .requiredFieldMissing := by decide +kernel
example : fails noEnv { Config.default with recursionLimit := 4 } (.vec (.vec (.vec (.vec (.vec u32))))) "C1 C1 C1 C1 C1 C1 C1 C1"
    .recursionLimitExceeded := by decide +kernel
example : fails noEnv { Config.default with maxCollect := 4 } (.vec u32) "4100 4100 4100 4100 4100 4100" .maxCollectExceeded := by decide +kernel
example : fails noEnv { Config.default with maxCollect := 4 } um
    "C14100420000 C14101420100 C14102420200 C14103420300 C14104420400 C14105420500 C14106420600 C14107420700 00" .maxCollectExceeded := by
  decide +kernel
example : fails noEnv { Config.default with maxBlob := 5 } (.prim .string) "81 0B 'hello world' 00" .maxBlobExceeded := by decide +kernel
example : fails noEnv { Config.default with ignoreUnknownFields := false } unit "42 00 00" (.unknownField 2 0) := by decide +kernel
example : fails noEnv .default (.option u32) "41 00 41 01 00" (.tooMany 1) := by decide +kernel
example : fails noEnv .default (.small 4 u32) "00" .requiredFieldMissing := by decide +kernel
example : fails noEnv .default (.small 4 u32) "41 00 41 01 00" (.tooFew 4) := by decide +kernel
example : fails noEnv .default (.small 4 u32) "41 00 41 01 41 02 41 03 41 04 00" (.tooMany 4) := by decide +kernel
example : fails noEnv .default (.prim .string) "81 06 'plugh' FF 00" .invalidValue := by decide +kernel
example : fails noEnv .default (.small 4 u8) "81 01 01 00" .invalidValueMsg := by decide +kernel

/-! ## `src/sugar.rs` 709-981 -/

abbrev plain (fs : List FieldDecl) : Body := ⟨fs, .plain, fun _ => true⟩
abbrev fd (tag : Byte) (name : String) (t : Ty) : FieldDecl := ⟨tag, name, t⟩

/-- The declarations of the tests: 0 `SimpleStruct`, 1 `SimpleEnum`, 2 `DelegatingStruct`, 3 `DelegatingEnum`, 4 `UnknownPreserving`,
5 `UnknownPreservingEnum`. -/
def sugarDecl : Nat → Decl
  | 0 => .struct (plain [fd 1 "foo" u32, fd 2 "bar" (int .u64)])
  | 1 => .enum [(1, plain []), (2, plain [fd 1 "a" u32, fd 2 "b" (int .u64)]), (3, plain [fd 1 "foo" u32, fd 2 "bar" (int .u64)])] none
  | 2 => .struct ⟨[], .delegate "it" (.named 0), fun _ => true⟩
  | 3 => .enum [(1, plain []), (2, ⟨[], .delegate "inner" (.named 0), fun _ => true⟩)] none
  | 4 => .struct ⟨[fd 1 "foo" u32], .unknown "unknown" false, fun _ => true⟩
  | _ => .enum [(1, plain [])] (some ⟨[], .unknown "fields" false, fun _ => true⟩)

def sugarEnv : Env := ⟨sugarDecl, 1, by
  intro i t h
  match i with
  | 0 | 1 | 2 | 3 | 4 => revert t; decide
  | (i + 5) => simp [sugarDecl, Decl.types, Body.types] at h⟩

def strict : Config := { Config.default with ignoreUnknownFields := false }

-- `simple_struct_*`
example : round sugarEnv (.named 0) (ns [5, 6]) "41 05 42 06 00" := by decide +kernel
example : reads sugarEnv .default (.named 0) "41 05 42 06 43 07 00" (ns [5, 6]) := by decide +kernel
example : fails sugarEnv strict (.named 0) "41 05 42 06 43 07 00" (.unknownField 3 4) := by decide +kernel
-- `simple_enum_*`
example : round sugarEnv (.named 1) (.variant 1 []) "01 01 00 00" := by decide +kernel
example : round sugarEnv (.named 1) (.variant 2 [.num 5, .num 6]) "01 02 41 05 42 06 00 00" := by decide +kernel
example : round sugarEnv (.named 1) (.variant 3 [.num 5, .num 6]) "01 03 41 05 42 06 00 00" := by decide +kernel
example : reads sugarEnv .default (.named 1) "01 01 41 2A 00 42 2B 00" (.variant 1 []) := by decide +kernel
example : fails sugarEnv strict (.named 1) "01 01 43 2A 00 00" (.unknownField 3 2) := by decide +kernel
example : fails sugarEnv strict (.named 1) "01 01 00 43 2A 00" (.unknownField 3 3) := by decide +kernel
example : fails sugarEnv .default (.named 1) "01 04 00 00" (.unknownVariant 4) := by decide +kernel
-- `struct_delegation`, `enum_delegation`
example : round sugarEnv (.named 2) (.seq [ns [5, 6]]) "41 05 42 06 00" := by decide +kernel
example : round sugarEnv (.named 3) (.variant 2 [ns [5, 6]]) "01 02 41 05 42 06 00 00" := by decide +kernel
-- `unknown_fields_collected_in_unknown`, `handling_unknown_enum_variants`
abbrev ufInt (tag n : Int) : V := .seq [.num tag, .variant 0 [.num n]]
example : reads sugarEnv strict (.named 4) "41 2A 42 2B 43 2C 00" (.seq [.num 42, .seq [ufInt 2 43, ufInt 3 44]]) := by decide +kernel
example : toVec sugarEnv (.named 4) (.seq [.num 42, .seq [ufInt 2 43, ufInt 3 44]]) = some (parse "41 2A 42 2B 43 2C 00") := by decide +kernel
example : reads sugarEnv strict (.named 5) "01 2A 41 01 42 02 00 00" (.variant 42 [.seq [ufInt 1 1, ufInt 2 2]]) := by decide +kernel
example : toVec sugarEnv (.named 5) (.variant 42 [.seq [ufInt 1 1, ufInt 2 2]]) = some (parse "01 2A 41 01 42 02 00 00") := by decide +kernel

/-! ## `src/unknown.rs` 172-226 -/

/-- The value asserted in `deser_and_ser`. -/
def unknownValue : V :=
  .seq [ufInt 1 42, .seq [.num 2, .variant 1 [.ofBytes (parse "'hello world'")]], .seq [.num 3, .variant 3 [.num 18, .seq [ufInt 4 16]]],
    .seq [.num 5, .variant 2 [.seq [ufInt 6 17]]]]
example : ∀ zc ∈ [true, false], round noEnv (.unknownFields zc) unknownValue "41 2A 82 0B 'hello world' 03 12 44 10 00 C5 46 11 00 00" := by
  decide +kernel

/-! ## `src/retrofit.rs` 112-222 -/

def home : Ipv4 := ⟨127, 0, 0, 1⟩
def v6 : Ipv6 := ⟨0x1234, 0x5678, 0x9ABC, 0xDEF0, 0xDEAD, 0xBEEF, 0xBAAD, 0xC0DE⟩

/-- `Result<Ipv4Addr, ()>` and `Result<(), Ipv4Addr>` next to the std declarations. -/
def resEnv : Env := ⟨fun i => match i with
  | 20 => resultDecl (.named 0) unit
  | 21 => resultDecl unit (.named 0)
  | i => stdEnv.decl i, max stdEnv.size 1, by
  intro i t h
  by_cases h1 : i = 20
  · subst h1; revert t; decide
  by_cases h2 : i = 21
  · subst h2; revert t; decide
  exact Nat.le_trans (stdEnv.bound i t (by simpa [h1, h2] using h)) (Nat.le_max_left _ _)⟩

example : round stdEnv (.named 0) home.toV "81 04 7F 00 00 01 00" := by decide +kernel
example : round stdEnv (.named 1) v6.toV "81 10 1234 5678 9ABC DEF0 DEAD BEEF BAAD C0DE 00" := by decide +kernel
example : round stdEnv (.named 2) (Ip.v4 home).toV "01 04 81 04 7F 00 00 01 00 00" := by decide +kernel
example : round stdEnv (.named 2) (Ip.v6 v6).toV "01 06 81 10 1234 5678 9ABC DEF0 DEAD BEEF BAAD C0DE 00 00" := by decide +kernel
example : round stdEnv (.named 4) (SockV4.toV ⟨home, 80⟩) "81 04 7F 00 00 01 42 50 00" := by decide +kernel
example : round stdEnv (.named 5) (SockV6.toV ⟨v6, 80, 42, 10⟩) "81 10 1234 5678 9ABC DEF0 DEAD BEEF BAAD C0DE 42 50 43 2A 44 0A 00" := by
  decide +kernel
example : round stdEnv (.named 6) (Sock.v4 ⟨home, 80⟩).toV "01 04 81 04 7F 00 00 01 42 50 00 00" := by decide +kernel
example : round stdEnv (.named 6) (Sock.v6 ⟨v6, 80, 42, 10⟩).toV
    "01 06 81 10 1234 5678 9ABC DEF0 DEAD BEEF BAAD C0DE 42 50 43 2A 44 0A 00 00" := by decide +kernel
example : round stdEnv (.named 3) (Dur.toV ⟨42, 256, by decide⟩) "41 2A 42 80 02 00" := by decide +kernel
example : fails stdEnv .default (.named 3) "41 2A 42 80 94 EB DC 03 00" .invalidValueMsg := by decide +kernel
example : round resEnv (.named 20) (.variant 1 [home.toV]) "01 01 81 04 7F 00 00 01 00 00" := by decide +kernel
example : round resEnv (.named 21) (.variant 2 [home.toV]) "01 02 81 04 7F 00 00 01 00 00" := by decide +kernel

/-! ## `src/wire.rs` 229-331 -/

def codecU (bytes : List Byte) (n : UInt64) (enc : UInt64 → List Byte) : Bool :=
  decide (enc n = bytes) && (match decodeU64 readSlice bytes with | .ok m r => decide (m = n) && r.isEmpty | _ => false)
def codecI (bytes : List Byte) (n : Int64) : Bool :=
  decide (encodeI64 n = bytes) && (match decodeI64 readSlice bytes with | .ok m r => decide (m = n) && r.isEmpty | _ => false)

-- `integer_encodings`
example : codecU [0] 0 encodeU64 && codecI [0] 0 && codecU [1] 1 encodeU64 && codecI [2] 1 && codecI [1] (-1) &&
    codecU [128, 2] 256 encodeU64 && codecI [128, 4] 256 &&
    codecU [255, 255, 255, 255, 255, 255, 255, 255, 255, 1] 0xFFFFFFFFFFFFFFFF encodeU64 &&
    codecI [254, 255, 255, 255, 255, 255, 255, 255, 255, 1] 0x7FFFFFFFFFFFFFFF &&
    codecI [255, 255, 255, 255, 255, 255, 255, 255, 255, 1] (-0x8000000000000000) := by decide +kernel
example : codecU [128, 128, 128, 128, 128, 128, 128, 128, 128, 0] 0 encodeFixedU64 &&
    codecU [129, 128, 128, 128, 128, 128, 128, 128, 128, 0] 1 encodeFixedU64 &&
    codecU [128, 130, 128, 128, 128, 128, 128, 128, 128, 0] 256 encodeFixedU64 &&
    codecU [255, 255, 255, 255, 255, 255, 255, 255, 255, 1] 0xFFFFFFFFFFFFFFFF encodeFixedU64 := by decide +kernel

def decodeFails (bytes : List Byte) (e : Err) : Bool := match decodeU64 readSlice bytes with | .err e' _ => decide (e' = e) | _ => false
-- `integer_decode_*`
example : decodeFails [255, 255, 255, 255, 255, 255, 255, 255, 255, 2] .integerOverflow := by decide +kernel
example : decodeFails [128, 128, 128, 128, 128, 128, 128, 128, 128, 128, 128, 128, 128, 128, 1] .integerOverflow := by decide +kernel
example : decodeFails (List.replicate 4096 128) .overwideInteger := by decide +kernel
-- `descriptor_conversion`
example : ∀ p ∈ ([(0x00, .special .endOfStruct), (0x40, .special .endOfDoc), (0x80, .special .exception), (0xC0, .special .padding),
    (0x01, .pair .enum 1), (0x41, .pair .integer 1), (0x81, .pair .blob 1), (0xC1, .pair .struct 1),
    (0x3F, .pair .enum 63), (0x7F, .pair .integer 63), (0xBF, .pair .blob 63), (0xFF, .pair .struct 63)] : List (Byte × Desc)),
    Desc.parse p.1 = some p.2 ∧ p.2.toByte = p.1 := by decide +kernel

/-! ## The examples in the documentation (`src/lib.rs` 60-760) -/

/-- 0 `Widget`, 1 `Order`, 2 `S`, 3 `v1::Message` and 4 `v2::Message` of "Backwards-compatibility" (the constructor of the latter replaces
a missing `frobnicate` by `false`; in the model the field values are kept), 5-8 `v1::Operation`, `v1::Message`,
`v2::Operation`, `v2::Message` of "Edit-compatibility". -/
def docDecl : Nat → Decl
  | 0 => .struct (plain [fd 1 "name" (.prim .string), fd 2 "manufacturer" (.option (.prim .string)), fd 3 "count" (int .u64)])
  | 1 => .enum [(1, plain [fd 1 "widgets" (.vec (.named 0))]), (2, plain [fd 1 "text" (.prim .string)])] none
  | 2 => .struct (plain [fd 1 "a" u32, fd 2 "b" (.option u32), fd 3 "c" (.vec u32)])
  | 3 => .struct (plain [fd 1 "target" (int .u64)])
  | 4 => .struct (plain [fd 1 "target" (int .u64), fd 2 "frobnicate" (.option (.prim .bool))])
  | 5 => .enum [(1, plain []), (2, plain [])] (some ⟨[], .unknown "fields" false, fun _ => true⟩)
  | 6 => .struct ⟨[fd 1 "id" u32, fd 2 "operation" (.named 5)], .unknown "unknown" false, fun _ => true⟩
  | 7 => .enum [(1, plain []), (2, plain []), (3, plain [fd 1 "id" u32])] (some ⟨[], .unknown "fields" false, fun _ => true⟩)
  | _ => .struct ⟨[fd 1 "id" u32, fd 2 "operation" (.named 7), fd 3 "frobnicate" (.option (.prim .bool))], .unknown "unknown" false, fun _ => true⟩

def docEnv : Env := ⟨docDecl, 2, by
  intro i t h
  match i with
  | 0 | 1 | 2 | 3 | 4 | 5 | 6 | 7 => revert t; decide
  | (i + 8) => revert t; change ∀ t ∈ (docDecl 8).types, _; decide⟩

example : round docEnv (.named 0) (.seq [.str "Defunct", .seq [], .num 42]) "81 07 'Defunct' 43 2A 00" := by decide +kernel
example : round docEnv (.named 0) (.seq [.str "Modern", .seq [.str "Widgedyne"], .num 5]) "81 06 'Modern' 82 09 'Widgedyne' 43 05 00" := by
  decide +kernel
example : round docEnv (.named 1) (.variant 2 [.str "nothing today"]) "01 02 81 0D 'nothing today' 00 00" := by decide +kernel
example : round docEnv (.named 2) (.seq [.num 42, .seq [], .seq []]) "41 2a 00" := by decide +kernel
example : round docEnv (.named 2) (.seq [.num 42, ns [1], ns [2, 3]]) "41 2a 42 01 43 02 43 03 00" := by decide +kernel
example : round noEnv (.vec (.option u32)) (.seq [ns [42], .seq []]) "c1 41 2a 00 c1 00 00" := by decide +kernel
example : reads noEnv .default (.prim .strRef) "81 0B 'hello world' 00" (.str "hello world") := by decide +kernel
-- Backwards-compatibility: version 1's message read by version 2
example : (match toVec docEnv (.named 3) (.seq [.num 42]) with
    | some m => (match fromSlice docEnv .default (.named 4) m with | .ok v => decide (v = .seq [.num 42, .seq []]) | _ => false)
    | none => false) = true := by decide +kernel
-- Edit-compatibility: written by v2, read, edited and written by v1, read by v2
example : (match toVec docEnv (.named 8) (.seq [.num 42, .variant 3 [.num 56], .seq [.bool true], .seq []]) with
    | none => false
    | some data => match fromSlice docEnv strict (.named 6) data with
      | .ok (.seq (.num 42 :: rest)) => match toVec docEnv (.named 6) (.seq (.num 99 :: rest)) with
        | none => false
        | some data => match fromSlice docEnv strict (.named 8) data with
          | .ok v => decide (v = .seq [.num 99, .variant 3 [.num 56], .seq [.bool true], .seq []])
          | _ => false
      | _ => false) = true := by decide +kernel

/-! ## `src/stream.rs` 1506-2268 -/

abbrev T := M Err Stream

/-- `assert!` -/
def ensure (b : Bool) : T Unit := if b then pure () else M.throw (.panic "assertion failed")
/-- `assert_eq!` -/
def eq {α : Type} [DecidableEq α] (expected actual : α) : T Unit := ensure (decide (expected = actual))
/-- `assert!(….is_err())` -/
def err {α : Type} (m : T α) : T Unit := fun s => match m s with | .ok _ s' => .err (.panic "unexpected success") s' | .err _ s' => .ok () s'
/-- the error is this one -/
def errIs {α : Type} (m : T α) (e : Err) : T Unit := fun s =>
  match m s with
  | .ok _ s' => .err (.panic "unexpected success") s'
  | .err e' s' => if e' = e then .ok () s' else .err (.panic "wrong error") s'
/-- `.unwrap()` on a conversion -/
def conv {α : Type} : Except Err α → T α
  | .ok a => pure a
  | .error e => M.throw e
/-- `dec.next_field().unwrap().unwrap()` -/
def nextSome : T Field := do
  match ← nextField with
  | some f => pure f
  | none => M.throw (.panic "unwrap")
/-- `assert!(dec.next_field().unwrap().is_none())` -/
def nextNone : T Unit := do ensure (← nextField).isNone
/-- `dec.pos()` and the like -/
def getS {α : Type} (f : Stream → α) : T α := fun s => .ok (f s) s
/-- `field.value.to_null().unwrap()` with the tag and position asserted -/
def nullField (tag : Byte) (pos : Nat) : T Unit := do
  let f ← nextSome
  eq tag f.tag; eq pos f.pos; conv f.value.toNull

/-- A test starts with a stream over the given bytes (`stream(text)`), and nothing in it panics. -/
def passes (text : String) (m : T Unit) : Bool := match m (Stream.new ⟨parse text, 0, [], true⟩) with | .ok _ _ => true | .err _ _ => false
/-- The same with `Stream::from_slice`, and the data afterwards. -/
def passesSlice (text : String) (m : T Unit) (after : String) : Bool :=
  match m (Stream.fromSlice (parse text)) with | .ok _ s => decide (s.inner.data = parse after) | .err _ _ => false
/-- A test which writes, and the data afterwards. -/
def writes (seekable : Bool) (m : T Unit) (after : String) : Bool :=
  match m (Stream.new ⟨[], 0, [], seekable⟩) with | .ok _ s => decide (s.inner.data = parse after) | .err _ _ => false

-- `simple`
example : passes "41 00 00" (do
  nullField 1 0
  nextNone
  errIs nextField (.io .unexpectedEof)) := by decide +kernel

/-- `assert_all_ints_are!` -/
def allInts (u : Nat) (i : Int) (v : Value) : T Unit := do
  eq u (← conv v.toU8).toNat; eq i (← conv v.toI8).toInt
  eq u (← conv v.toU16).toNat; eq i (← conv v.toI16).toInt
  eq u (← conv v.toU32).toNat; eq i (← conv v.toI32).toInt
  eq u (← conv v.toU64).toNat; eq i (← conv v.toI64).toInt

-- `decode_integers` (`usize`, `isize` are 64 bits wide)
example : passes "41 00 42 01 43 80 01 00" (do
  let f ← nextSome
  eq 1 f.tag; eq false (← conv f.value.toBool); allInts 0 0 f.value
  let f ← nextSome
  eq 2 f.tag; eq true (← conv f.value.toBool); allInts 1 (-1) f.value
  let f ← nextSome
  eq 3 f.tag; err (conv f.value.toBool); allInts 128 64 f.value
  nextNone) := by decide +kernel

/-- The accessors of a blob of length `len`: `len`, `remaining`, `start_pos`, `end_pos`, `stream_pos`, `inner_pos` (`src/stream.rs` 1106-1146). -/
def blobIs (len remaining start stop stream inner : Nat) (actualLen : Nat) : T Unit := do
  eq len actualLen
  eq remaining (← getS blobRemaining)
  eq start (← getS fun s => s.blobEnd - actualLen)
  eq stop (← getS (·.blobEnd))
  eq stream (← getS (·.pos))
  eq inner (← getS fun s => actualLen - blobRemaining s)

-- `read_whole_blob`
example : passes "81 0B 'hello world' 00" (do
  let f ← nextSome
  eq 1 f.tag
  let len ← conv f.value.toBlob
  blobIs 11 11 2 13 2 0 len
  eq (parse "'hello world'") (← readFully 65536)
  blobIs 11 0 2 13 13 11 len
  nextNone) := by decide +kernel

-- `read_partial_blob`
example : passes "81 0B 'hello world' 42 00 00" (do
  let f ← nextSome
  let len ← conv f.value.toBlob
  eq (parse "'hell'") (← readOrTrunc 4)
  blobIs 11 7 2 13 6 4 len
  eq (parse "'o wor'") (← blobRead 5)
  blobIs 11 2 2 13 11 9 len
  nullField 2 13
  nextNone) := by decide +kernel

-- `get_oversized_blob_fails`
example : passes "81 FFFFFF00" (do
  let f ← nextSome
  let _ ← conv f.value.toBlob
  err (readFully 256)) := by decide +kernel

-- `read_nested_struct`
example : passes "C1 C2 00 C3 00 00" (do
  let f ← nextSome
  eq 1 f.tag; eq 0 f.pos; conv f.value.toStruct
  let f ← nextSome
  eq 2 f.tag; eq 1 f.pos; conv f.value.toStruct
  nextNone
  let f ← nextSome
  eq 3 f.tag; eq 3 f.pos; conv f.value.toStruct
  nextNone
  nextNone) := by decide +kernel

-- `read_enum`
example : passes "02 81 01 00" (do
  let f ← nextSome
  eq 2 f.tag; eq 0 f.pos; eq 129 (← conv f.value.toEnum)
  nextNone) := by decide +kernel

-- `read_explicit_eof`
example : passes "C1 40 42 00" (do
  let f ← nextSome
  conv f.value.toStruct
  nextNone
  nextNone
  nextNone
  eq 2 (← getS (·.pos))
  eq true (← getS (·.eof))
  clearEof
  nullField 2 2) := by decide +kernel

-- `graceless_eof`
example : passes "41 00" (do
  eq false (← getS (·.graceful))
  nullField 1 0
  errIs nextField (.io .unexpectedEof)) := by decide +kernel

-- `graceful_eof`
example : passes "41 00" (do
  M.modify fun s => { s with graceful := true }
  nullField 1 0
  nextNone
  eq true (← getS (·.eof))
  eq 2 (← getS (·.pos))) := by decide +kernel

-- `padding_skipped`
example : passes "41 00 C0 C0 C0 42 00" (do
  nullField 1 0
  nullField 2 5) := by decide +kernel

-- `read_inband_error`
example : passes "80 05 'plugh' 41 00" (do
  errIs nextField (.exception "plugh".toList)
  nullField 1 7) := by decide +kernel

-- `read_overflow_detected`, `blob_access_overflow_detected`
example : passes "41 ff ff ff ff ff 00 00" (do
  resetPos 0xFFFFFFFFFFFFFFFA
  err nextField) := by decide +kernel
example : passes "81 05 'plugh' 00" (do
  resetPos 0xFFFFFFFFFFFFFFFA
  err nextField) := by decide +kernel

-- `reset_pos_skips_unconsumed_blob`
example : passes "81 05 'plugh' 42 00 00" (do
  let f ← nextSome
  eq 1 f.tag
  let _ ← conv f.value.toBlob
  resetPos 0
  nullField 2 0) := by decide +kernel

-- `blob_seek`
example : passes "81 0B 'hello world' 42 00" (do
  let f ← nextSome
  eq 1 f.tag
  let len ← conv f.value.toBlob
  blobIs 11 11 2 13 2 0 len
  let _ ← blobSeek len (.current 3)
  blobIs 11 8 2 13 5 3 len
  eq (parse "'lo world'") (← readFully 256)
  let _ ← blobSeek len (.start 6)
  blobIs 11 5 2 13 8 6 len
  eq (parse "'world'") (← readFully 256)
  let _ ← blobSeek len (.current (-3))
  blobIs 11 3 2 13 10 8 len
  eq (parse "'rld'") (← readFully 256)
  let _ ← blobSeek len (.start 3)
  err (blobSeek len (.start 12))
  err (blobSeek len (.current (-4)))
  err (blobSeek len (.current 9))
  err (blobSeek len (.fromEnd (-12)))
  err (blobSeek len (.fromEnd 1))
  let _ ← blobSeek len (.start 0)
  eq 11 (← getS blobRemaining)
  let _ ← blobSeek len (.start 11)
  eq 0 (← getS blobRemaining)
  let _ ← blobSeek len (.fromEnd (-11))
  eq 11 (← getS blobRemaining)
  let _ ← blobSeek len (.fromEnd 0)
  eq 0 (← getS blobRemaining)
  let _ ← blobSeek len (.start 5)
  let _ ← blobSeek len (.current (-5))
  eq 11 (← getS blobRemaining)
  let _ ← blobSeek len (.fromEnd (-5))
  let _ ← blobSeek len (.current 5)
  eq 0 (← getS blobRemaining)
  let _ ← blobSeek len (.start 5)
  nullField 2 13) := by decide +kernel

-- `blob_rewrite`
example : passes "81 0B 'hello world' 42 00" (do
  let f ← nextSome
  eq 1 f.tag
  let len ← conv f.value.toBlob
  let _ ← blobSeek len (.start 6)
  eq 5 (← blobWrite (parse "'minnasama'"))
  let _ ← blobSeek len (.start 0)
  eq (parse "'hello minna'") (← readFully 256)
  nullField 2 13) := by decide +kernel

-- `blob_slicing`
example : passesSlice "81 0B 'hello world' 42 00" (do
  let f ← nextSome
  eq 1 f.tag
  let _ ← conv f.value.toBlob
  eq (parse "'hello world'") (← blobSlice)
  eq (parse "'hello world'") (← blobSliceMut id)
  eq (parse "'hello '") (← readOrTrunc 6)
  eq (parse "'world'") (← blobSlice)
  let _ ← blobSliceMut fun l => 0x57 :: l.drop 1
  eq (parse "'World'") (← blobSlice)
  nullField 2 13) "81 0B 'hello World' 42 00" := by decide +kernel

-- `blob_slice_oob`
example : passesSlice "81 0B 'plugh'" (do
  let f ← nextSome
  eq 1 f.tag
  eq 11 (← conv f.value.toBlob)
  err blobSlice
  err (blobSliceMut id)) "81 0B 'plugh'" := by decide +kernel

-- `blob_bufread`
example : passes "81 0B 'hello world' 42 00" (do
  let f ← nextSome
  eq 1 f.tag
  let len ← conv f.value.toBlob
  eq (parse "'hello world'") (← blobFillBuf)
  blobConsume 6
  blobIs 11 5 2 13 8 6 len
  eq (parse "'world'") (← blobFillBuf)
  nullField 2 13) := by decide +kernel

-- `blob_zero_copy` (`ext_slice` is `slice` with the lifetime of the input)
example : passesSlice "81 0B 'hello world' 82 05 'plugh'" (do
  let f ← nextSome
  eq 1 f.tag
  let _ ← conv f.value.toBlob
  eq (parse "'hello world'") (← blobSlice)
  let f ← nextSome
  eq 2 f.tag
  let _ ← conv f.value.toBlob
  eq (parse "'plugh'") (← blobSlice)) "81 0B 'hello world' 82 05 'plugh'" := by decide +kernel

-- `struct_depth_tracking`
example : passes "41 01 01 2A C1 41 02 00 00 00 C1 C1 C1 40" (do
  eq 0 (← getS (·.depth))
  let f ← nextSome
  eq 1 (← conv f.value.toU64); eq 1 f.depth
  eq 1 (← getS (·.depth))
  let f ← nextSome
  let _ ← conv f.value.toEnum
  eq 1 f.depth
  eq 2 (← getS (·.depth))
  let f ← nextSome
  conv f.value.toStruct
  eq 2 f.depth
  eq 3 (← getS (·.depth))
  let f ← nextSome
  eq 2 (← conv f.value.toU64); eq 3 f.depth
  nextNone
  eq 2 (← getS (·.depth))
  nextNone
  eq 1 (← getS (·.depth))
  nextNone
  eq 0 (← getS (·.depth))
  let f ← nextSome
  conv f.value.toStruct
  eq 1 f.depth
  eq 2 (← getS (·.depth))
  let f ← nextSome
  conv f.value.toStruct
  eq 2 f.depth
  eq 3 (← getS (·.depth))
  let f ← nextSome
  conv f.value.toStruct
  eq 3 f.depth
  eq 4 (← getS (·.depth))
  nextNone
  eq 0 (← getS (·.depth))) := by decide +kernel

-- `struct_depth_tracking_handles_underflow`
example : passes "00 00" (do
  nextNone
  eq 0 (← getS (·.depth))
  nextNone
  eq 0 (← getS (·.depth))) := by decide +kernel

-- `skip_up_to_container`
example : passes "C1 C2 C3 41 01 00 00 00 42 02 00" (do
  let f ← nextSome
  eq 1 f.tag; conv f.value.toStruct
  f.skip
  let f ← nextSome
  eq 2 f.tag; eq 2 (← conv f.value.toU64)) := by decide +kernel

-- `skip_up_to_top`
example : passes "C1 C2 C3 41 01 00 00 00 42 02 00 43 03 00" (do
  let f ← nextSome
  eq 1 f.tag; conv f.value.toStruct
  skipUp 0
  let f ← nextSome
  eq 3 f.tag; eq 3 (← conv f.value.toU64)) := by decide +kernel

-- `write_scalars`
example : writes false (do
  writeNull 1; eq 2 (← getS (·.pos))
  writeU64 2 42; eq 4 (← getS (·.pos))
  writeStruct 3; eq 5 (← getS (·.pos))
  writeEndStruct; eq 6 (← getS (·.pos))
  writeEndDoc; eq 7 (← getS (·.pos))
  writePadding; eq 8 (← getS (·.pos))
  writeEnum 4 42; eq 10 (← getS (·.pos))) "41 00 42 2A C3 00 40 C0 04 2A" := by decide +kernel

/-- `assert_int!` -/
def fieldIs {α : Type} [DecidableEq α] (tag : Byte) (expected : α) (to : Value → Except Err α) : T Unit := do
  let f ← nextSome
  eq tag f.tag; eq expected (← conv (to f.value))

-- `write_integers`
example : (match (do
    writeBool 1 false; writeBool 1 true
    writeU8 2 8; writeI8 3 8; writeU16 4 16; writeI16 5 16; writeU32 6 32; writeI32 7 32
    writeU64 8 48; writeI64 9 48; writeU64 10 64; writeI64 11 64 : T Unit) (Stream.new ⟨[], 0, [], false⟩) with
  | .err _ _ => false
  | .ok _ s => match (do
      fieldIs 1 false Value.toBool; fieldIs 1 true Value.toBool
      fieldIs 2 8 Value.toU8; fieldIs 3 8 Value.toI8; fieldIs 4 16 Value.toU16; fieldIs 5 16 Value.toI16
      fieldIs 6 32 Value.toU32; fieldIs 7 32 Value.toI32
      fieldIs 8 48 Value.toU64; fieldIs 9 48 Value.toI64; fieldIs 10 64 Value.toU64; fieldIs 11 64 Value.toI64 : T Unit)
        (Stream.new ⟨s.inner.data, 0, [], true⟩) with
    | .ok _ _ => true
    | .err _ _ => false) = true := by decide +kernel

-- `write_direct_blob`
example : writes false (do
  writeBlobData 1 (parse "'hello world'"); eq 13 (← getS (·.pos))
  writeExceptionData (parse "'plugh'"); eq 20 (← getS (·.pos))
  writeEndDoc; eq 21 (← getS (·.pos))) "81 0B 'hello world' 80 05 'plugh' 40" := by decide +kernel

-- `write_alloc_blob` (`write!` makes a `write_all` of each piece)
example : writes false (do
  writeBlobAlloc 1 11
  writeAll blobWrite (parse "'hello '"); writeAll blobWrite (parse "'world'")
  writeExceptionAlloc 5
  writeAll blobWrite (parse "'plugh'")
  writeEndDoc) "81 0B 'hello world' 80 05 'plugh' 40" := by decide +kernel

-- `write_alloc_dynamic`
example : writes true (do
  let _ ← writeBlobDynamic 1
  writeAll blobWrite (parse "'hello '"); writeAll blobWrite (parse "'world'")
  let _ ← writeExceptionDynamic
  writeAll blobWrite (parse "'plugh'")
  writeEndDoc) "81 8B808080808080808000 'hello world' 80 85808080808080808000 'plugh' 40" := by decide +kernel

-- `incomplete_alloc_blob_fails`
example : writes false (do
  writeBlobAlloc 1 11
  writeAll blobWrite (parse "'plugh'")
  err writeEndDoc) "81 0B 'plugh'" := by decide +kernel

-- `write_tag_zero_panics`, `write_tag_too_large_panics`
example : ∀ tag ∈ ([0, 64] : List Byte), (match Debug.exec (.null tag) (Stream.new ⟨[], 0, [], false⟩) with
    | .err (.panic _) _ => true | _ => false) = true := by decide +kernel

-- `write_padding_to_alignment`
example : writes false (do
  padToAlign 4; writeStruct 1; padToAlign 4; writeStruct 1; padToAlign 2; writeStruct 1; padToAlign 8) "C1 C0 C0 C0 C1 C0 C1 C0" := by
  decide +kernel

end Fourleaf.RepoTests
