import Verif.PropsUnknown

/-! # Specification: the documented form of a value

`src/lib.rs` 208-341 and `src/sugar.rs` 105-260 describe what the fields of the message of a value are, depending on where the value occurs: as a
struct body (or at the top level), as a struct field, or as an element of a collection. `Layout` transcribes that description. It
does not refer to the model of the serialiser, only to types, values, and trees of fields. -/

namespace Fourleaf
open Spec

/-- The form of the types without structure: "All integer types serialise to integers. Signed integers are ZigZagged […]. `bool` is treated as an integer
which is either 0 or 1. `PhantomData` serialises to integer 0. […] `String` and `&str` serialise to blobs." (`char` is the integer of its code point.) -/
inductive PrimForm : Prim → V → Val → Prop where
  | phantom : PrimForm .phantom (.seq []) (.int 0)
  | false : PrimForm .bool (.bool false) (.int 0)
  | true : PrimForm .bool (.bool true) (.int 1)
  | unsigned {k : IntTy} {n : UInt64} : k ∈ [.u8, .u16, .u32, .u64, .usize] → PrimForm (.int k) (.num n.toNat) (.int n)
  | natural {k : IntTy} {i : Int} {n : UInt64} : k ∈ [.i8, .i16, .i32, .i64, .isize] → 0 ≤ i → (n.toNat : Int) = 2 * i → PrimForm (.int k) (.num i) (.int n)
  | negative {k : IntTy} {i : Int} {n : UInt64} : k ∈ [.i8, .i16, .i32, .i64, .isize] → i < 0 → (n.toNat : Int) = -2 * i - 1 → PrimForm (.int k) (.num i) (.int n)
  | char {c : Char} {n : UInt64} : n.toNat = c.toNat → PrimForm .char (.chr c) (.int n)
  | string {s : String} : PrimForm .string (.str s) (.blob s.toUTF8.data.toList)
  | strRef {s : String} : PrimForm .strRef (.str s) (.blob s.toUTF8.data.toList)
  | bytesRef {d : List Byte} : PrimForm .bytesRef (.ofBytes d) (.blob d)

/-- Slices, vectors and arrays of `u8`. -/
inductive ByteSlice : Ty → Prop where
  | vec : ByteSlice (.vec u8)
  | small {n} : ByteSlice (.small n u8)
  | large {n} : ByteSlice (.large n u8)

/-- Collections and their elements (except for slices of `u8`, and maps). "`Option<T>` serialises as a collection of `T`." -/
inductive CollectionOf : Ty → Ty → Prop where
  | vec {e} : e.isByte = false → CollectionOf (.vec e) e
  | small {n e} : e.isByte = false → CollectionOf (.small n e) e
  | large {n e} : e.isByte = false → CollectionOf (.large n e) e
  | coll {k e} : CollectionOf (.coll k e) e
  | option {e} : CollectionOf (.option e) e

/-- Types that always serialise to exactly one tag/value pair. -/
inductive OnePair : Ty → Prop where
  | prim {p} : OnePair (.prim p)
  | bytes {t} : ByteSlice t → OnePair t
  | tuple {ts} : OnePair (.tuple ts)
  | named {i} : OnePair (.named i)
  | unknownField {zc} : OnePair (.unknownField zc)

/-- Types whose struct body is their only field (with the tag 1): everything that is not a struct or delegated. -/
inductive NotStruct (env : Env) : Ty → Prop where
  | prim {p} : NotStruct env (.prim p)
  | bytes {t} : ByteSlice t → NotStruct env t
  | collection {t e} : CollectionOf t e → NotStruct env t
  | map {k v} : NotStruct env (.map k v)
  | unknownField {zc} : NotStruct env (.unknownField zc)
  | enum {i vs ca} : env.decl i = .enum vs ca → NotStruct env (.named i)

/-- Something to be laid out, and the fields or values it has. -/
inductive Piece where
  /-- the value as a struct body, or at the top level: a number of fields -/
  | body (t : Ty) (v : V) (l : Fields)
  /-- the value as a struct field: the values of the repetitions of the field -/
  | field (t : Ty) (v : V) (vals : List Val)
  /-- the value as an element of a collection: exactly one value -/
  | element (t : Ty) (v : V) (val : Val)
  /-- the elements of a collection -/
  | each (t : Ty) (vs : List V) (vals : List Val)
  /-- a sequence of declared fields, with a value for each -/
  | fields (ds : List FieldDecl) (vs : List V) (l : Fields)
  /-- the contents of a struct or variant declared with `fourleaf_retrofit!` -/
  | parts (b : Body) (vs : List V) (l : Fields)

inductive Layout (env : Env) : Piece → Prop where
  -- "Struct body", which is also the top level. Things which are serialised as structs are written without any kind of header; other things get wrapped in a single-field struct.
  | bodyTuple {ts vs l} : ts ≠ [] → Layout env (.fields (components ts) vs l) → Layout env (.body (.tuple ts) (.seq vs) l)
  | bodyStruct {i b vs l} : env.decl i = .struct b → Layout env (.parts b vs l) → Layout env (.body (.named i) (.seq vs) l)
  | bodyUnknown {zc l} : Layout env (.body (.unknownFields zc) (.seq (asUnknowns l)) l)
  | bodyOther {t v vals} : NotStruct env t → Layout env (.field t v vals) → Layout env (.body t v (vals.map fun val => (1, val)))
  /-- (`()` is wrapped, too.) -/
  | bodyUnit : Layout env (.body (.tuple []) (.seq []) [(1, .struct [])])
  /-- `&T`, `&mut T`, `Box<T>`, `Rc<T>`, and `Arc<T>` serialise the same way as `T`. -/
  | bodyPointer {t v l} : Layout env (.body t v l) → Layout env (.body (.boxed t) v l)
  -- "Struct field", where a value is directly contained within a struct. Here, collections are flattened: a collection with _n_ elements is represented as _n_ repetitions of the field.
  | fieldCollection {t e vs vals} : CollectionOf t e → Layout env (.each e vs vals) → Layout env (.field t (.seq vs) vals)
  /-- `HashMap<K,V>` and `BTreeMap<K,V>` serialise the same way as `[(K,V)]`. -/
  | fieldMap {k v es vals} : Layout env (.field (.vec (.tuple [k, v])) es vals) → Layout env (.field (.map k v) es vals)
  | fieldOne {t v val} : OnePair t → Layout env (.element t v val) → Layout env (.field t v [val])
  | fieldPointer {t v vals} : Layout env (.field t v vals) → Layout env (.field (.boxed t) v vals)
  -- "Collection element", where a value must be represented as exactly one tag/value pair. […] collections and so forth wrap themselves in a struct which contains all their values.
  | elementCollection {t e v vals} : CollectionOf t e → Layout env (.field t v vals) → Layout env (.element t v (.struct (vals.map fun val => (1, val))))
  | elementMap {tk tv v vals} : Layout env (.field (.map tk tv) v vals) → Layout env (.element (.map tk tv) v (.struct (vals.map fun val => (1, val))))
  | elementPrim {p v val} : PrimForm p v val → Layout env (.element (.prim p) v val)
  /-- `&[u8]` and `Vec<u8>` serialise to blobs instead of collections of integers; arrays the same way as slices. -/
  | elementBytes {t d} : ByteSlice t → Layout env (.element t (.ofBytes d) (.blob d))
  /-- Tuples serialise as structs with sequential tags for each field starting from 1. -/
  | elementTuple {ts v l} : ts ≠ [] → Layout env (.body (.tuple ts) v l) → Layout env (.element (.tuple ts) v (.struct l))
  | elementUnit : Layout env (.element (.tuple []) (.seq []) (.struct []))
  | elementPointer {t v val} : Layout env (.element t v val) → Layout env (.element (.boxed t) v val)
  | elementStruct {i b v l} : env.decl i = .struct b → b.tail.isDelegate = false → Layout env (.body (.named i) v l) → Layout env (.element (.named i) v (.struct l))
  /-- Field delegation: the inner value will always be serialised as a single element. -/
  | elementDelegate {i b name t v val} : env.decl i = .struct b → b.tail = .delegate name t → Layout env (.element t v val) → Layout env (.element (.named i) (.seq [v]) val)
  /-- Enums: the discriminant in the tag is written, and then the value for each field. -/
  | elementVariant {i variants ca d b vs l} : env.decl i = .enum variants ca → variants.find? (fun x => x.1 = d) = some (d, b) → Layout env (.parts b vs l) →
      Layout env (.element (.named i) (.variant d vs) (.enum d l))
  /-- Preserving unknown variants. -/
  | elementCatchAll {i variants d b vs l} : env.decl i = .enum variants (some b) → (∀ x ∈ variants, x.1 ≠ d) → Layout env (.parts b vs l) →
      Layout env (.element (.named i) (.variant d vs) (.enum d l))
  | elementUnknownField {zc val} : Layout env (.element (.unknownField zc) val.asUnknown val)
  | elementUnknownFields {zc v l} : Layout env (.body (.unknownFields zc) v l) → Layout env (.element (.unknownFields zc) v (.struct l))
  -- The elements of a collection, in order.
  | eachNil {t} : Layout env (.each t [] [])
  | eachCons {t v vs val vals} : Layout env (.element t v val) → Layout env (.each t vs vals) → Layout env (.each t (v :: vs) (val :: vals))
  -- The fields of a struct, in the order of declaration.
  | fieldsNil : Layout env (.fields [] [] [])
  | fieldsCons {d ds v vs vals l} : Layout env (.field d.ty v vals) → Layout env (.fields ds vs l) → Layout env (.fields (d :: ds) (v :: vs) (vals.map (fun val => (d.tag, val)) ++ l))
  | partsPlain {b vs l} : b.tail = .plain → Layout env (.fields b.fields vs l) → Layout env (.parts b vs l)
  /-- `(*)`: delegate to that field. -/
  | partsDelegate {b name t vs v l l'} : b.tail = .delegate name t → Layout env (.fields b.fields vs l) → Layout env (.body t v l') → Layout env (.parts b (vs ++ [v]) (l ++ l'))
  /-- `(?)`: the preserved unknown fields follow. -/
  | partsUnknown {b name zc vs l l'} : b.tail = .unknown name zc → Layout env (.fields b.fields vs l) →
      Layout env (.parts b (vs ++ [.seq (asUnknowns l')]) (l ++ l'))

mutual
/-- The elements of a field. -/
def Val.toks (tag : Byte) : Val → List Tok
  | .int n => [.int tag n]
  | .blob d => [.blob tag d]
  | .struct l => .struct tag :: fieldsToks l ++ [.endStruct]
  | .enum d l => .enum tag d :: fieldsToks l ++ [.endStruct]
/-- The elements of a sequence of fields (without padding or anything else in between). -/
def fieldsToks : List (Byte × Val) → List Tok
  | [] => []
  | (tag, v) :: l => v.toks tag ++ fieldsToks l
end

/-- The canonical message with the given fields: each as short as possible, then end-of-struct. -/
def messageOf (l : Fields) : List Byte := canonToks (fieldsToks l ++ [.endStruct])

end Fourleaf
