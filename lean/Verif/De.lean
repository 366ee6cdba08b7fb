import Verif.Types

/-! # Deserialisation: `src/de.rs`, `src/unknown.rs`, `src/adapt.rs`, the code generated by `src/sugar.rs`

Every method of the trait `Deserialize` is a function on types (`Ops`). The methods call each other; `ops env n` are
the methods when at most `n` calls may be nested, i.e. with a stack of `n` frames. Exceeding it is the
explicit error `stackOverflow`, shown unreachable for an `n` that does not depend on the input (C37). -/

namespace Fourleaf
open Spec

/-- `Config` (`src/de.rs` 201-219). -/
structure Config where
  recursionLimit : Nat
  ignoreUnknownFields : Bool
  maxBlob : Nat
  maxCollect : Nat
  deriving Repr, DecidableEq

/-- `Config::default()` (`src/de.rs` 221-232). -/
def Config.default : Config := ⟨32, true, 65536, 256⟩

/-- `ContextStats` (`src/de.rs` 264-269). -/
structure Stats where
  collected : Nat
  blob : Nat
  deriving Repr, DecidableEq

def Stats.zero : Stats := ⟨0, 0⟩

/-- A level of a `Context`: field name and position. -/
abbrev PathFrame := String × Nat

/-- `de::Error` (`src/de.rs` 110-194) without the path; `stream e` stands for the wrapped stream errors (`ContextError`). `panic` is a
subtraction that would underflow, `stackOverflow` see above. Messages are dropped. -/
inductive Kind where
  | stream (e : Err)
  | unknownField (tag : Byte) (pos : Nat)
  | requiredFieldMissing
  | tooMany (n : Nat)
  | tooFew (n : Nat)
  | recursionLimitExceeded
  | maxCollectExceeded
  | maxBlobExceeded
  | invalidValue
  | invalidValueMsg
  | unknownVariant (disc : UInt64)
  | panic
  | stackOverflow
  deriving Repr, DecidableEq

/-- An error with its path (the frames below the top-level one, outermost first). -/
structure DErr where
  kind : Kind
  path : List PathFrame
  deriving Repr, DecidableEq

/-- `Context` (`src/de.rs` 247-262); the statistics are the state of the program (`Stats`). -/
structure Ctx where
  path : List PathFrame
  depth : Nat
  cfg : Config
  deriving Repr, DecidableEq

/-- `Context::top` (`src/de.rs` 273-283). -/
def Ctx.top (cfg : Config) : Ctx := ⟨[], 0, cfg⟩

/-- Deserialising programs. -/
abbrev P (α : Type) := Prog DErr Stats α

/-- Fail with the path of the context (`context.to_string()`). -/
def Ctx.fail {α : Type} (c : Ctx) (k : Kind) : P α := .fail ⟨k, c.path⟩

/-- An API call whose error is wrapped with the context (`.context(context)?`). -/
def Ctx.call {β : Type} (c : Ctx) (o : Op β) : P β := .call o fun e => ⟨.stream e, c.path⟩

/-- A conversion whose error is wrapped with the context. -/
def Ctx.lift {α : Type} (c : Ctx) : Except Err α → P α
  | .ok a => .ret a
  | .error e => c.fail (.stream e)

/-- `Context::push` (`src/de.rs` 287-301). -/
def Ctx.push (c : Ctx) (name : String) (pos : Nat) : P Ctx :=
  if c.depth ≥ c.cfg.recursionLimit then c.fail .recursionLimitExceeded
  else .ret ⟨c.path ++ [(name, pos)], c.depth + 1, c.cfg⟩

/-- The two decimal digits made by `push_tag` (`src/de.rs` 305-310). -/
def tagName (tag : Byte) : String :=
  String.ofList [Char.ofNat (48 + tag.toNat / 10), Char.ofNat (48 + tag.toNat % 10)]

/-- `Context::unknown_field` (`src/de.rs` 314-321). -/
def Ctx.unknownField (c : Ctx) (f : Field) : P Unit :=
  if c.cfg.ignoreUnknownFields then .ret () else c.fail (.unknownField f.tag f.pos)

/-- `Context::collect` (`src/de.rs` 326-333): adds 1, whatever `n`. -/
def Ctx.collect (c : Ctx) (n : Nat) : P Unit :=
  .bind .getU fun u =>
    if u.collected > c.cfg.maxCollect then c.fail .panic
    else if c.cfg.maxCollect - u.collected < n then c.fail .maxCollectExceeded
    else .setU { u with collected := u.collected + 1 }

/-- `Context::blob` (`src/de.rs` 338-346). -/
def Ctx.blob (c : Ctx) (n : Nat) : P Unit :=
  .bind .getU fun u =>
    if u.blob > c.cfg.maxBlob then c.fail .panic
    else if c.cfg.maxBlob - u.blob < n then c.fail .maxBlobExceeded
    else .setU { u with blob := u.blob + n }

/-- `Field::skip` with the error wrapped (`src/stream.rs` 1411-1417). -/
def Ctx.skip (c : Ctx) (f : Field) : P Unit :=
  match f.value with
  | .struct | .enum _ => c.call (.skipUp f.depth)
  | .int _ | .blob _ => .ret ()

/-- The accumulators of all types: `Option<Self>` is the list of at most one; `Vec`'s is the pair; for
`ArrayAccum`, `flag` distinguishes `AllAtOnce` from `OneByOne` and the length of `items` is the count
(`src/de.rs` 744, 1050-1068, 1229, 1330, 1427). -/
structure Acc where
  flag : Bool
  items : List V
  deriving Repr, DecidableEq

def Acc.init : Acc := ⟨false, []⟩

/-- The methods of `Deserialize` (`src/de.rs` 412-738) except `serialized_as_slice`, `deserialize_vec`,
`deserialize_slice`, `deserialize_array_n`, which do something for `u8` only. -/
structure Ops where
  body : Ty → Ctx → P V
  field : Ty → Acc → Ctx → Field → P Acc
  element : Ty → Ctx → Field → P V
  finish : Ty → Acc → Ctx → P V

/-- Is it `u8`, the only type with `serialized_as_slice()` (`src/de.rs` 954)? -/
def Ty.isU8 : Ty → Bool
  | .prim (.int .u8) => true
  | _ => false

/-- The conversions `to_u8`, … (`src/stream.rs` 1466-1475). -/
def IntTy.conv (k : IntTy) (v : Value) : Except Err Int :=
  match k with
  | .u8 => v.toU8.map fun n => (n.toNat : Int)
  | .u16 => v.toU16.map fun n => (n.toNat : Int)
  | .u32 => v.toU32.map fun n => (n.toNat : Int)
  | .u64 | .usize => v.toU64.map fun n => (n.toNat : Int)
  | .i8 => v.toI8.map (·.toInt)
  | .i16 => v.toI16.map (·.toInt)
  | .i32 => v.toI32.map (·.toInt)
  | .i64 | .isize => v.toI64.map (·.toInt)

/-- `char::from_u32` (std): not a surrogate, at most 0x10FFFF. -/
def charFromU32 (n : UInt32) : Option Char :=
  if h : n.isValidChar then some ⟨n, h⟩ else none

/-- `str::from_utf8`/`String::from_utf8` (std): succeeds iff the bytes are UTF-8. -/
def fromUtf8 (bs : List Byte) : Option String := String.fromUTF8? ⟨bs.toArray⟩

/-- `blob.ext_slice()` (`src/de.rs` 775, 784). -/
def extSlice (c : Ctx) (f : Field) : P (List Byte) :=
  .bind (c.lift f.value.toBlob) fun _ => c.call .slice

/-- `to_blob`, `context.blob(len)`, `read_fully(max_blob)` (`src/de.rs` 793-796, 960-962). -/
def ownedBlob (c : Ctx) (f : Field) : P (List Byte) :=
  .bind (c.lift f.value.toBlob) fun len =>
  .bind (c.blob len) fun _ => c.call (.readFully c.cfg.maxBlob)

/-- The `$cvt` expressions of `des_unary!` (`src/de.rs` 765-800, 934-947, 1022-1047). -/
def Prim.conv (p : Prim) (c : Ctx) (f : Field) : P V :=
  match p with
  | .phantom => .bind (c.lift f.value.toNull) fun _ => .ret (.seq [])
  | .bool => .bind (c.lift f.value.toBool) fun b => .ret (.bool b)
  | .int k => .bind (c.lift (k.conv f.value)) fun i => .ret (.num i)
  | .char => .bind (c.lift f.value.toU32) fun n =>
      match charFromU32 n with
      | some ch => .ret (.chr ch)
      | none => c.fail .invalidValueMsg
  | .string => .bind (ownedBlob c f) fun d =>
      match fromUtf8 d with
      | some s => .ret (.str s)
      | none => c.fail .invalidValue
  | .strRef => .bind (extSlice c f) fun d =>
      match fromUtf8 d with
      | some s => .ret (.str s)
      | none => c.fail .invalidValue
  | .bytesRef => .bind (extSlice c f) fun d => .ret (.ofBytes d)

/-- `u8::deserialize_array_n` (`deser_bytes_as_array!`, `src/de.rs` 906-932, 987-1019) and `u8::deserialize_slice` (968-985), giving the items. `read_exact` into a buffer of the
remaining length reads the same bytes as `read_fully`, but reports an error when the input ends early. -/
def arrConv (n : Nat) (c : Ctx) (f : Field) : P (List V) :=
  .bind (c.lift f.value.toBlob) fun _ =>
  .bind (c.call .remaining) fun r =>
  if r ≠ n then c.fail .invalidValueMsg
  else .bind (c.call (.readFully n)) fun d =>
    if d.length < n then c.fail (.stream (.io .unexpectedEof))
    else .ret (d.map fun b => .num b.toNat)

/-- `u8::deserialize_vec` (`src/de.rs` 956-966), giving the items. -/
def vecConv (c : Ctx) (f : Field) : P (List V) :=
  .bind (ownedBlob c f) fun d => .ret (d.map fun b => .num b.toNat)

/-- Run a conversion whose result is not looked at (not even its error), then fail: the duplicate occurrence of
a byte array or vector (`src/de.rs` 1094-1097, 1444-1447). -/
def discard {α β : Type} (p : P β) (c : Ctx) (k : Kind) : P α := .bind (.attempt p) fun _ => c.fail k

/-- The key of a map entry. -/
def V.key : V → V
  | .seq (k :: _) => k
  | v => v

/-- `insert` of a set. -/
def setInsert (v : V) (l : List V) : List V := if v ∈ l then l else l ++ [v]

/-- `insert` of a map: replaces the value of an equal key. -/
def mapInsert (e : V) (l : List V) : List V :=
  if l.any (fun x => x.key == e.key) then l.map (fun x => if x.key = e.key then e else x) else l ++ [e]

def upd {α : Type} (f : Nat → α) (i : Nat) (a : α) : Nat → α := fun j => if j = i then a else f j

/-- State of the loop over the fields of a struct: the accumulators by field number, and that of the unknown fields. -/
structure LoopSt where
  accs : Nat → Acc
  unk : Acc

def LoopSt.init : LoopSt := ⟨fun _ => .init, .init⟩

/-- One iteration of the loop in `des_struct_body!` (`src/de.rs` 359-392) or `@_STRUCT_BODY_DESER`
(`src/sugar.rs` 456-486). `unk` says whether unknown fields are collected. -/
def fieldStep (o : Ops) (fs : List FieldDecl) (unk : Option Bool) (c : Ctx) (st : LoopSt) (f : Field) : P LoopSt :=
  match fs.findIdx? (fun d => d.tag = f.tag) with
  | some i =>
    match fs[i]? with
    | none => .ret st
    | some d =>
      .bind (c.push d.name f.pos) fun sub =>
      .bind (o.field d.ty (st.accs i) sub f) fun a =>
      .ret { st with accs := upd st.accs i a }
  | none =>
    match unk with
    | some zc =>
      .bind (c.push (tagName f.tag) f.pos) fun sub =>
      .bind (o.field (.unknownFields zc) st.unk sub f) fun a =>
      .ret { st with unk := a }
    | none => .bind (c.unknownField f) fun _ => .bind (c.skip f) fun _ => .ret st

/-- The loop over the fields. -/
def fieldLoop (o : Ops) (fs : List FieldDecl) (unk : Option Bool) (c : Ctx) : P LoopSt :=
  .loop true LoopSt.init
    (fun st e => match e with
      | .field f => .bind (fieldStep o fs unk c st f) fun st' => .ret (.inl st')
      | _ => .ret (.inl st))
    (fun e => c.fail (.stream e)) .ret

/-- The calls of `finish` for the fields from number `i` on. -/
def finishAll (o : Ops) (c : Ctx) (st : LoopSt) : Nat → List FieldDecl → P (List V)
  | _, [] => .ret []
  | i, d :: ds =>
    .bind (c.call .pos) fun p =>
    .bind (c.push d.name p) fun sub =>
    .bind (o.finish d.ty (st.accs i) sub) fun v =>
    .bind (finishAll o c st (i + 1) ds) fun vs => .ret (v :: vs)

/-- `des_struct_body!` (`src/de.rs` 359-392), giving the values of the fields. -/
def structBody (o : Ops) (fs : List FieldDecl) (c : Ctx) : P (List V) :=
  .bind (fieldLoop o fs none c) fun st => finishAll o c st 0 fs

/-- The default `deserialize_body` (`src/de.rs` 427-435): a struct with the one field `1: top: Self`. -/
def defaultBody (o : Ops) (t : Ty) (c : Ctx) : P V :=
  .bind (structBody o [⟨1, "top", t⟩] c) fun vs => .ret (vs.headD (.seq []))

/-- The constructor expression at the end of `@_STRUCT_BODY_DESER` (`src/sugar.rs` 503). -/
def construct (b : Body) (c : Ctx) (vs : List V) : P (List V) :=
  if b.check vs then .ret vs else c.fail .invalidValueMsg

/-- `@_STRUCT_BODY_DESER` (`src/sugar.rs` 428-504), giving the values of the fields. -/
def macroBody (o : Ops) (b : Body) (c : Ctx) : P (List V) :=
  match b.tail with
  | .plain =>
    .bind (fieldLoop o b.fields none c) fun st =>
    .bind (finishAll o c st 0 b.fields) fun vs => construct b c vs
  | .delegate name t =>
    .bind (c.call .pos) fun p =>
    .bind (c.push name p) fun sub =>
    .bind (o.body t sub) fun v =>
    .bind (finishAll o c .init 0 b.fields) fun vs => construct b c (vs ++ [v])
  | .unknown name zc =>
    .bind (fieldLoop o b.fields (some zc) c) fun st =>
    .bind (finishAll o c st 0 b.fields) fun vs =>
    .bind (c.call .pos) fun p =>
    .bind (c.push name p) fun sub =>
    .bind (o.finish (.unknownFields zc) st.unk sub) fun v => construct b c (vs ++ [v])

/-- Declarations of the components of a tuple: tags from 1, names `field_0`, … (`src/de.rs` 1371-1423). -/
def tupleFields (ts : List Ty) : List FieldDecl :=
  ts.mapIdx fun i t => ⟨UInt8.ofNat (i + 1), s!"field_{i}", t⟩

/-- `deserialize_body` of all types (`src/de.rs` 1332-1339, `src/unknown.rs` 88-103, `src/sugar.rs` 602-610, otherwise the default or delegated). -/
def bodyStep (env : Env) (o : Ops) (t : Ty) (c : Ctx) : P V :=
  match t with
  | .boxed t => o.body t c
  | .tuple ts => .bind (structBody o (tupleFields ts) c) fun vs => .ret (.seq vs)
  | .unknownFields zc => .bind (fieldLoop o [] (some zc) c) fun st => o.finish (.unknownFields zc) st.unk c
  | .named i =>
    match env.decl i with
    | .struct b => .bind (macroBody o b c) fun vs => .ret (.seq vs)
    | .enum .. => defaultBody o t c
  | _ => defaultBody o t c

/-- `Self::deserialize_body(context, field.value.to_struct().context(context)?)` (`src/de.rs` 1076-1085, 1243-1256, 1356-1361, 1429-1438, 1474-1479, 1518-1523, 1548-1553,
`src/unknown.rs` 115-121, `src/sugar.rs` 621-623). -/
def viaStruct (o : Ops) (t : Ty) (c : Ctx) (f : Field) : P V :=
  .bind (c.lift f.value.toStruct) fun _ => o.body t c

/-- The default `deserialize_element` (`src/de.rs` 451-457). -/
def defaultElement (o : Ops) (t : Ty) (c : Ctx) (f : Field) : P V :=
  .bind (o.field t .init c f) fun a => o.finish t a c

/-- `deserialize_element` of a declared enum (`src/sugar.rs` 675-704). -/
def enumElement (o : Ops) (variants : List (UInt64 × Body)) (catchAll : Option Body) (c : Ctx) (f : Field) : P V :=
  .bind (c.lift f.value.toEnum) fun disc =>
    match variants.find? (fun v => v.1 = disc) with
    | some v => .bind (macroBody o v.2 c) fun vs => .ret (.variant disc vs)
    | none =>
      match catchAll with
      | some b => .bind (macroBody o b c) fun vs => .ret (.variant disc vs)
      | none => c.fail (.unknownVariant disc)

/-- `deserialize_element` of all types. -/
def elementStep (env : Env) (o : Ops) (t : Ty) (c : Ctx) (f : Field) : P V :=
  match t with
  | .prim _ | .unknownField _ => defaultElement o t c f
  | .boxed t => o.element t c f
  | .small n e | .large n e =>
    if e.isU8 then .bind (arrConv n c f) fun vs => .ret (.seq vs) else viaStruct o t c f
  | .vec e => if e.isU8 then .bind (vecConv c f) fun vs => .ret (.seq vs) else viaStruct o t c f
  | .tuple _ | .coll .. | .option _ | .map .. | .unknownFields _ => viaStruct o t c f
  | .named i =>
    match env.decl i with
    | .struct b =>
      match b.tail with
      -- `@_STRUCT_ELEMENT_DESER` (`src/sugar.rs` 506-524)
      | .delegate name t' =>
        .bind (c.push name f.pos) fun sub =>
        .bind (o.element t' sub f) fun v =>
        .bind (construct b c [v]) fun vs => .ret (.seq vs)
      | _ => viaStruct o t c f
    | .enum vs ca => enumElement o vs ca c f

/-- Type of the content of `UnknownField::Blob`: `Cow<[u8]>` in the style. -/
def unkBlobTy (zc : Bool) : Ty := .boxed (if zc then .prim .bytesRef else .vec (.prim (.int .u8)))

/-- `deserialize_field` of all types. -/
def fieldMeth (o : Ops) (t : Ty) (a : Acc) (c : Ctx) (f : Field) : P Acc :=
  match t with
  -- `des_unary!` (`src/de.rs` 746-756), `u8` (937-947)
  | .prim p =>
    if a.items ≠ [] then c.fail (.tooMany 1)
    else .bind (p.conv c f) fun v => .ret ⟨false, [v]⟩
  | .boxed t => o.field t a c f
  -- `des_small_array!` (`src/de.rs` 1089-1120)
  | .small n e =>
    if e.isU8 then
      if a.flag = true ∨ a.items ≠ [] then discard (arrConv n c f) c (.tooMany 1)
      else .bind (arrConv n c f) fun vs => .ret ⟨true, vs⟩
    else if a.flag then c.fail (.tooMany n)
    else if a.items.length ≥ n then c.fail (.tooMany n)
    else .bind (o.element e c f) fun v => .ret ⟨false, a.items ++ [v]⟩
  -- `des_large_array!` (`src/de.rs` 1258-1284)
  | .large n e =>
    if e.isU8 then
      .bind (arrConv n c f) fun vs =>
        if a.items.length ≠ 0 then c.fail (.tooMany 1) else .ret ⟨false, vs⟩
    else if a.items.length ≥ n then c.fail (.tooMany n)
    else .bind (o.element e c f) fun v => .ret ⟨false, a.items ++ [v]⟩
  -- `des_struct!` (`src/de.rs` 1341-1354)
  | .tuple _ =>
    if a.items ≠ [] then c.fail (.tooMany 1)
    else .bind (o.element t c f) fun v => .ret ⟨false, [v]⟩
  -- `@_DESER_BOILERPLATE` (`src/sugar.rs` 529-542): a duplicate is reported as occurring too few times
  | .named _ =>
    if a.items ≠ [] then c.fail (.tooFew 1)
    else .bind (o.element t c f) fun v => .ret ⟨false, [v]⟩
  -- `Vec` (`src/de.rs` 1440-1458)
  | .vec e =>
    if e.isU8 then
      if a.flag then discard (vecConv c f) c (.tooMany 1)
      else .bind (vecConv c f) fun vs => .ret ⟨true, vs⟩
    else
      .bind (c.collect 1) fun _ =>
      .bind (o.element e c f) fun v => .ret ⟨a.flag, a.items ++ [v]⟩
  -- `des_push_seq!` (`src/de.rs` 1481-1488)
  | .coll k e =>
    .bind (c.collect 1) fun _ =>
    .bind (o.element e c f) fun v =>
    .ret ⟨a.flag, match k with | .list => a.items ++ [v] | .set => setInsert v a.items⟩
  -- `Option` (`src/de.rs` 1525-1536)
  | .option e =>
    if a.items ≠ [] then c.fail (.tooMany 1)
    else .bind (o.element e c f) fun v => .ret ⟨false, [v]⟩
  -- `des_map!` (`src/de.rs` 1555-1565)
  | .map k v =>
    .bind (c.collect 1) fun _ =>
    .bind (o.element (.tuple [k, v]) c f) fun e => .ret ⟨a.flag, mapInsert e a.items⟩
  -- `UnknownFields` (`src/unknown.rs` 105-113)
  | .unknownFields zc =>
    .bind (c.collect 1) fun _ =>
    .bind (o.element (.unknownField zc) c f) fun v =>
    .ret ⟨a.flag, a.items ++ [.seq [.num f.tag.toNat, v]]⟩
  -- `UnknownField` (`src/unknown.rs` 149-165)
  | .unknownField zc =>
    if a.items ≠ [] then c.fail (.tooMany 1)
    else match f.value with
      | .int n => .ret ⟨false, [.variant 0 [.num n.toNat]]⟩
      | .blob _ => .bind (o.element (unkBlobTy zc) c f) fun v => .ret ⟨false, [.variant 1 [v]]⟩
      | .struct => .bind (o.body (.unknownFields zc) c) fun v => .ret ⟨false, [.variant 2 [v]]⟩
      | .enum d => .bind (o.body (.unknownFields zc) c) fun v => .ret ⟨false, [.variant 3 [.num d.toNat, v]]⟩

/-- `finish` of all types. -/
def finishMeth (o : Ops) (t : Ty) (a : Acc) (c : Ctx) : P V :=
  match t with
  -- (`src/de.rs` 758-761, 949-952, 1363-1367, `src/sugar.rs` 545-549, `src/unknown.rs` 167-169)
  | .prim _ | .tuple _ | .named _ | .unknownField _ =>
    match a.items with
    | v :: _ => .ret v
    | [] => c.fail .requiredFieldMissing
  | .boxed t => o.finish t a c
  -- (`src/de.rs` 1123-1143, 1286-1301)
  | .small n e =>
    if a.flag then .ret (.seq a.items)
    else if a.items.length < n then
      if a.items.length = 0 then c.fail .requiredFieldMissing else c.fail (.tooFew (if e.isU8 then 1 else n))
    else .ret (.seq a.items)
  | .large n e =>
    if a.items.length < n then
      if a.items.length = 0 then c.fail .requiredFieldMissing else c.fail (.tooFew (if e.isU8 then 1 else n))
    else .ret (.seq a.items)
  -- (`src/de.rs` 1460-1466)
  | .vec e => if e.isU8 && !a.flag then c.fail .requiredFieldMissing else .ret (.seq a.items)
  -- (`src/de.rs` 1490-1492, 1538-1540, 1567-1569, `src/unknown.rs` 123)
  | .coll .. | .option _ | .map .. | .unknownFields _ => .ret (.seq a.items)

/-- The methods with `n` frames of stack. -/
def ops (env : Env) : Nat → Ops
  | 0 => { body := fun _ c => c.fail .stackOverflow
           field := fun _ _ c _ => c.fail .stackOverflow
           element := fun _ c _ => c.fail .stackOverflow
           finish := fun _ _ c => c.fail .stackOverflow }
  | n + 1 =>
    { body := bodyStep env (ops env n)
      field := fieldMeth (ops env n)
      element := elementStep env (ops env n)
      finish := finishMeth (ops env n) }

/-- Stack frames that suffice (C37): independent of the input. -/
def stackNeed (env : Env) (t : Ty) (cfg : Config) : Nat :=
  (cfg.recursionLimit + 1) * (4 * (max env.size t.size + 6))

/-- `from_reader`, `from_stream`, `from_slice`, … (`src/de.rs` 35-108): `T::deserialize_body` with the top-level context. -/
def deserialize (env : Env) (t : Ty) (cfg : Config) : P V :=
  (ops env (stackNeed env t cfg)).body t (.top cfg)

end Fourleaf
