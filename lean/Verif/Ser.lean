import Verif.De

/-! # Serialisation: `src/ser.rs`, `src/unknown.rs`, the code generated by `src/sugar.rs`

A `Serialize` method makes a sequence of writing calls which depends on the value only, with `?` after
each. It is modelled by the list of these calls (executed by `runCalls`, which stops at the first error).
As in `De`, `sops env n` are the methods with at most `n` nested calls; `none` means that the value is not
of the type, or that the nesting was exceeded (`serialize_total` shows that neither happens for a well-typed
value and large enough `n`; more frames never change the result, `sops_mono`). -/

namespace Fourleaf
open Spec

/-- Smallest and largest value. -/
def IntTy.min : IntTy → Int
  | .u8 | .u16 | .u32 | .u64 | .usize => 0
  | .i8 => -2 ^ 7 | .i16 => -2 ^ 15 | .i32 => -2 ^ 31 | .i64 | .isize => -2 ^ 63
def IntTy.max : IntTy → Int
  | .u8 => 2 ^ 8 - 1 | .u16 => 2 ^ 16 - 1 | .u32 => 2 ^ 32 - 1 | .u64 | .usize => 2 ^ 64 - 1
  | .i8 => 2 ^ 7 - 1 | .i16 => 2 ^ 15 - 1 | .i32 => 2 ^ 31 - 1 | .i64 | .isize => 2 ^ 63 - 1

/-- `write_u8`, … (`src/ser.rs` 181-218). -/
def IntTy.call (k : IntTy) (tag : Byte) (i : Int) : WCall :=
  match k with
  | .u8 => .u8 tag (UInt8.ofNat i.toNat)
  | .u16 => .u16 tag (UInt16.ofNat i.toNat)
  | .u32 => .u32 tag (UInt32.ofNat i.toNat)
  | .u64 | .usize => .u64 tag (UInt64.ofNat i.toNat)
  | .i8 => .i8 tag (Int8.ofInt i)
  | .i16 => .i16 tag (Int16.ofInt i)
  | .i32 => .i32 tag (Int32.ofInt i)
  | .i64 | .isize => .i64 tag (Int64.ofInt i)

/-- The bytes of a list of `u8` values. -/
def bytesOf : List V → Option (List Byte)
  | [] => some []
  | .num i :: vs => if 0 ≤ i ∧ i < 256 then (bytesOf vs).map (UInt8.ofNat i.toNat :: ·) else none
  | _ :: _ => none

/-- The bytes of a string. -/
def utf8 (s : String) : List Byte := s.toByteArray.data.toList

/-- `serialize_element` of the types without structure (`src/ser.rs` 137-142, 181-242). -/
def Prim.ser (p : Prim) (tag : Byte) (v : V) : Option (List WCall) :=
  match p, v with
  | .phantom, .seq [] => some [.null tag]
  | .bool, .bool b => some [.bool tag b]
  | .int k, .num i => if k.min ≤ i ∧ i ≤ k.max then some [k.call tag i] else none
  | .char, .chr c => some [.u32 tag c.val]
  | .string, .str s => some [.blobData tag (utf8 s)]
  | .strRef, .str s => some [.blobData tag (utf8 s)]
  | .bytesRef, .seq vs => (bytesOf vs).map fun d => [.blobData tag d]
  | _, _ => none

/-- The methods of `Serialize` (`src/ser.rs` 54-101). -/
structure SOps where
  body : Ty → V → Option (List WCall)
  field : Ty → Byte → V → Option (List WCall)
  element : Ty → Byte → V → Option (List WCall)

/-- `for e in self { e.serialize_element(dst, tag)?; }`. -/
def serAll (f : V → Option (List WCall)) : List V → Option (List WCall)
  | [] => some []
  | v :: vs => (f v).bind fun a => (serAll f vs).map (a ++ ·)

/-- `serialize_field` for each declared field (`src/sugar.rs` 395-396, `src/ser.rs` 313); also returns the values left over. -/
def serFields (o : SOps) : List FieldDecl → List V → Option (List WCall × List V)
  | [], vs => some ([], vs)
  | _ :: _, [] => none
  | d :: ds, v :: vs => (o.field d.ty d.tag v).bind fun a => (serFields o ds vs).map fun r => (a ++ r.1, r.2)

/-- `@_STRUCT_BODY_SER` (`src/sugar.rs` 390-412). -/
def macroBodySer (o : SOps) (b : Body) (vs : List V) : Option (List WCall) :=
  (serFields o b.fields vs).bind fun r =>
    match b.tail, r.2 with
    | .plain, [] => some (r.1 ++ [.endStruct])
    | .delegate _ t, [v] => (o.body t v).map (r.1 ++ ·)
    | .unknown _ zc, [v] => (o.body (.unknownFields zc) v).map (r.1 ++ ·)
    | _, _ => none

/-- A field of an `UnknownFields` (`src/unknown.rs` 62-69). -/
def serUnknown (o : SOps) (zc : Bool) : V → Option (List WCall)
  | .seq [.num tag, u] => if 0 ≤ tag ∧ tag < 256 then o.field (.unknownField zc) (UInt8.ofNat tag.toNat) u else none
  | _ => none

/-- The default `serialize_body` (`src/ser.rs` 63-67). -/
def defaultBodySer (o : SOps) (t : Ty) (v : V) : Option (List WCall) :=
  (o.field t 1 v).map (· ++ [.endStruct])

/-- `serialize_body` of all types. -/
def bodySer (env : Env) (o : SOps) (t : Ty) (v : V) : Option (List WCall) :=
  match t, v with
  | .boxed t, v => o.body t v
  | .tuple (t :: ts), .seq vs =>
    match serFields o (tupleFields (t :: ts)) vs with
    | some (a, []) => some (a ++ [.endStruct])
    | _ => none
  | .unknownFields zc, .seq vs => (serAll (serUnknown o zc) vs).map (· ++ [.endStruct])
  | .named i, .seq vs =>
    match env.decl i with
    | .struct b => macroBodySer o b vs
    | .enum .. => defaultBodySer o (.named i) (.seq vs)
  | .tuple (_ :: _), _ | .unknownFields _, _ => none
  | t, v => defaultBodySer o t v

/-- `dst.write_struct(tag)?; self.serialize_field(dst, 1)?; dst.write_end_struct()`. -/
def wrapped (o : SOps) (t : Ty) (tag : Byte) (v : V) : Option (List WCall) :=
  (o.field t 1 v).map fun a => .struct tag :: a ++ [.endStruct]

/-- `serialize_element` of all types. -/
def elementSer (env : Env) (o : SOps) (t : Ty) (tag : Byte) (v : V) : Option (List WCall) :=
  match t, v with
  | .prim p, v => p.ser tag v
  | .boxed t, v => o.element t tag v
  -- `[T]` (`src/ser.rs` 366-376)
  | .vec e, .seq vs | .small _ e, .seq vs | .large _ e, .seq vs =>
    if e.isU8 then (bytesOf vs).map fun d => [.blobData tag d] else wrapped o t tag v
  -- (`src/ser.rs` 392-397, 419-424, 450-455)
  | .coll .., _ | .option _, _ | .map .., _ => wrapped o t tag v
  -- `()` (`src/ser.rs` 129-135)
  | .tuple [], .seq [] => some [.struct tag, .endStruct]
  -- (`src/ser.rs` 317-322, `src/unknown.rs` 71-75)
  | .tuple (_ :: _), _ | .unknownFields _, _ => (o.body t v).map (.struct tag :: ·)
  -- `UnknownField` (`src/unknown.rs` 127-142)
  | .unknownField _, .variant 0 [.num n] => if 0 ≤ n ∧ n < 2 ^ 64 then some [.u64 tag (UInt64.ofNat n.toNat)] else none
  | .unknownField _, .variant 1 [.seq vs] => (bytesOf vs).map fun d => [.blobData tag d]
  | .unknownField zc, .variant 2 [u] => (o.body (.unknownFields zc) u).map (.struct tag :: ·)
  | .unknownField zc, .variant 3 [.num d, u] =>
    if 0 ≤ d ∧ d < 2 ^ 64 then (o.body (.unknownFields zc) u).map (.enum tag (UInt64.ofNat d.toNat) :: ·) else none
  | .named i, v =>
    match env.decl i, v with
    -- (`src/sugar.rs` 585-596)
    | .struct b, .seq vs =>
      match b.tail, vs with
      | .delegate _ t', [u] => o.element t' tag u
      | .delegate _ _, _ => none
      | _, _ => (o.body t v).map (.struct tag :: ·)
    -- (`src/sugar.rs` 648-669)
    | .enum variants ca, .variant d vs =>
      match variants.find? (fun x => x.1 = d) with
      | some x => (macroBodySer o x.2 vs).map (.enum tag d :: ·)
      | none =>
        match ca with
        | some b => (macroBodySer o b vs).map (.enum tag d :: ·)
        | none => none
    | _, _ => none
  | _, _ => none

/-- `serialize_field` of all types. `UnknownFields::serialize_field` panics (`src/unknown.rs` 77-81), which is `none` here. -/
def fieldSer (o : SOps) (t : Ty) (tag : Byte) (v : V) : Option (List WCall) :=
  match t, v with
  | .boxed t, v => o.field t tag v
  -- `[T]` (`src/ser.rs` 355-364)
  | .vec e, .seq vs | .small _ e, .seq vs | .large _ e, .seq vs =>
    if e.isU8 then (bytesOf vs).map fun d => [.blobData tag d] else serAll (o.element e tag) vs
  -- (`src/ser.rs` 382-390, 409-417)
  | .coll _ e, .seq vs | .option e, .seq vs => serAll (o.element e tag) vs
  -- (`src/ser.rs` 438-448)
  | .map tk tv, .seq es =>
    serAll (fun e => match e with
      | .seq [k, v] =>
        (o.field tk 1 k).bind fun a => (o.field tv 2 v).map fun b => .struct tag :: a ++ b ++ [.endStruct]
      | _ => none) es
  | .vec _, _ | .small .., _ | .large .., _ | .coll .., _ | .option _, _ | .map .., _ | .unknownFields _, _ => none
  | t, v => o.element t tag v

/-- The methods with at most `n` nested calls. -/
def sops (env : Env) : Nat → SOps
  | 0 => { body := fun _ _ => none, field := fun _ _ _ => none, element := fun _ _ _ => none }
  | n + 1 => { body := bodySer env (sops env n), field := fieldSer (sops env n), element := elementSer env (sops env n) }

/-- `t.serialize_body(stream)` makes the calls `cs`. -/
def SerializesBody (env : Env) (t : Ty) (v : V) (cs : List WCall) : Prop := ∃ n, (sops env n).body t v = some cs
def SerializesField (env : Env) (t : Ty) (tag : Byte) (v : V) (cs : List WCall) : Prop := ∃ n, (sops env n).field t tag v = some cs
def SerializesElement (env : Env) (t : Ty) (tag : Byte) (v : V) (cs : List WCall) : Prop := ∃ n, (sops env n).element t tag v = some cs

/-- `to_stream` (`src/ser.rs` 45-51), also the core of `to_vec` (`src/ser.rs` 17-22) and `to_writer` (`src/ser.rs` 32-38): `serialize_body`, then `commit`. -/
def ToStream (env : Env) (t : Ty) (v : V) (cs : List WCall) : Prop := ∃ b, SerializesBody env t v b ∧ cs = b ++ [.commit]

end Fourleaf
