import Verif.Types
import Verif.TupleSpec
import Verif.Ser

/-! # Specification: values of a type, and what deserialising them takes

`Needs env it vs k` says that the values `vs` are of the kind `it`, and that reading them back needs `k`. It does not refer to the
functions of the model, only to types, values, and `IntTy.min`/`max` (the ranges of the integer types). -/

namespace Fourleaf
open Spec

/-- What deserialising a value takes. -/
structure Need where
  /-- levels of context (compared to `recursion_limit`) -/
  depth : Nat
  /-- what counts against `max_collect` and `max_blob` -/
  used : Stats
  /-- needs `ignore_unknown_fields` -/
  lenient : Bool
  deriving Repr, DecidableEq

namespace Need
def zero : Need := ⟨0, ⟨0, 0⟩, false⟩
/-- One after the other. -/
def seq (a b : Need) : Need := ⟨max a.depth b.depth, ⟨a.used.collected + b.used.collected, a.used.blob + b.used.blob⟩, a.lenient || b.lenient⟩
/-- One level deeper. -/
def nest (a : Need) : Need := { a with depth := a.depth + 1 }
/-- Storing `n` elements of a collection. -/
def collecting (a : Need) (n : Nat) : Need := { a with used := ⟨a.used.collected + n, a.used.blob⟩ }
/-- Storing `n` bytes. -/
def storing (n : Nat) : Need := ⟨0, ⟨0, n⟩, false⟩
/-- Allowed by the configuration. -/
structure Within (k : Need) (cfg : Config) : Prop where
  depth : k.depth ≤ cfg.recursionLimit
  collected : k.used.collected ≤ cfg.maxCollect
  blob : k.used.blob ≤ cfg.maxBlob
  lenient : k.lenient = true → cfg.ignoreUnknownFields = true
end Need

/-- The kinds of things values can be. -/
inductive Item where
  /-- a whole message -/
  | body (t : Ty)
  /-- a field of a struct (with any number of occurrences) -/
  | field (t : Ty)
  /-- one occurrence of a field -/
  | elem (t : Ty)
  /-- a list of occurrences -/
  | each (t : Ty)
  /-- the fields of a struct, one value for each -/
  | fields (ds : List FieldDecl)
  /-- the fields of a declared struct or enum variant -/
  | parts (b : Body)
  /-- unknown fields with other tags than these -/
  | unknown (known : List Byte) (zeroCopy : Bool)

/-- Values of the types without structure; `n` is the number of bytes stored. -/
inductive PrimHas : Prim → V → Nat → Prop where
  | phantom : PrimHas .phantom (.seq []) 0
  | bool {b} : PrimHas .bool (.bool b) 0
  | int {k i} : k.min ≤ i → i ≤ k.max → PrimHas (.int k) (.num i) 0
  | char {c} : PrimHas .char (.chr c) 0
  | string {s : String} : s.utf8ByteSize < 2 ^ 64 → PrimHas .string (.str s) s.utf8ByteSize
  | strRef {s : String} : s.utf8ByteSize < 2 ^ 64 → PrimHas .strRef (.str s) 0
  | bytesRef {d : List Byte} : d.length < 2 ^ 64 → PrimHas .bytesRef (.ofBytes d) 0

/-- `u8`. -/
abbrev u8 : Ty := .prim (.int .u8)

/-- The model treats sequences of bytes, and only these, as slices. -/
@[simp] theorem Ty.isByte_eq (t : Ty) : t.isByte = t.isU8 := rfl

/-- Types whose fields are a number of occurrences of another type. -/
def Ty.isColl : Ty → Bool
  | .small _ e | .large _ e | .vec e => !e.isByte
  | .coll .. | .option _ | .map .. => true
  | _ => false

/-- Types whose field is exactly one occurrence. -/
def Ty.isSingle : Ty → Bool
  | .prim _ | .tuple _ | .named _ | .unknownField _ => true
  | .small _ e | .large _ e | .vec e => e.isByte
  | _ => false

/-- Types whose message is a struct with a single field. -/
def Ty.isWrapped (env : Env) : Ty → Bool
  | .boxed _ | .tuple _ | .unknownFields _ => false
  | .named i => match env.decl i with | .struct _ => false | .enum .. => true
  | _ => true

def Tail.isDelegate : Tail → Bool
  | .delegate .. => true
  | _ => false

inductive Needs (env : Env) : Item → List V → Need → Prop where
  -- messages
  | bodyBoxed {t vs k} : Needs env (.body t) vs k → Needs env (.body (.boxed t)) vs k
  /-- the message of `()` is a struct with one field, which `()` does not know -/
  | bodyUnit : Needs env (.body (.tuple [])) [.seq []] { Need.zero with lenient := true }
  | bodyTuple {ts vs k} : ts ≠ [] → ts.length ≤ 16 → Needs env (.fields (components ts)) vs k → Needs env (.body (.tuple ts)) [.seq vs] k
  | bodyUnknown {zc es k} : Needs env (.unknown [] zc) es k → Needs env (.body (.unknownFields zc)) [.seq es] k
  | bodyStruct {i b vs k} : env.decl i = .struct b → Needs env (.parts b) vs k → Needs env (.body (.named i)) [.seq vs] k
  | bodyWrapped {t v k} : t.isWrapped env = true → Needs env (.field t) [v] k → Needs env (.body t) [v] k.nest
  -- fields
  | fieldBoxed {t vs k} : Needs env (.field t) vs k → Needs env (.field (.boxed t)) vs k
  | fieldSingle {t v k} : t.isSingle = true → Needs env (.elem t) [v] k → Needs env (.field t) [v] k
  | fieldVec {e vs k} : e.isByte = false → Needs env (.each e) vs k → Needs env (.field (.vec e)) [.seq vs] (k.collecting vs.length)
  | fieldSmall {n e vs k} : e.isByte = false → vs.length = n → Needs env (.each e) vs k → Needs env (.field (.small n e)) [.seq vs] k
  | fieldLarge {n e vs k} : e.isByte = false → vs.length = n → Needs env (.each e) vs k → Needs env (.field (.large n e)) [.seq vs] k
  | fieldList {e vs k} : Needs env (.each e) vs k → Needs env (.field (.coll .list e)) [.seq vs] (k.collecting vs.length)
  | fieldSet {e vs k} : vs.Nodup → Needs env (.each e) vs k → Needs env (.field (.coll .set e)) [.seq vs] (k.collecting vs.length)
  | fieldOption {e vs k} : vs.length ≤ 1 → Needs env (.each e) vs k → Needs env (.field (.option e)) [.seq vs] k
  | fieldMap {tk tv vs k} : (vs.map V.key).Nodup → Needs env (.each (.tuple [tk, tv])) vs k →
      Needs env (.field (.map tk tv)) [.seq vs] (k.collecting vs.length)
  -- single occurrences
  | elemPrim {p v n} : PrimHas p v n → Needs env (.elem (.prim p)) [v] (.storing n)
  | elemBoxed {t vs k} : Needs env (.elem t) vs k → Needs env (.elem (.boxed t)) vs k
  | elemVec {d} : d.length < 2 ^ 64 → Needs env (.elem (.vec u8)) [.ofBytes d] (.storing d.length)
  | elemSmall {n d} : d.length = n → d.length < 2 ^ 64 → Needs env (.elem (.small n u8)) [.ofBytes d] .zero
  | elemLarge {n d} : d.length = n → d.length < 2 ^ 64 → Needs env (.elem (.large n u8)) [.ofBytes d] .zero
  | elemColl {t v k} : t.isColl = true → Needs env (.field t) [v] k → Needs env (.elem t) [v] k.nest
  | elemUnit : Needs env (.elem (.tuple [])) [.seq []] .zero
  | elemTuple {ts v k} : ts ≠ [] → Needs env (.body (.tuple ts)) [v] k → Needs env (.elem (.tuple ts)) [v] k
  | elemUnknown {zc v k} : Needs env (.body (.unknownFields zc)) [v] k → Needs env (.elem (.unknownFields zc)) [v] k
  | elemStruct {i b v k} : env.decl i = .struct b → b.tail.isDelegate = false → Needs env (.body (.named i)) [v] k → Needs env (.elem (.named i)) [v] k
  | elemDelegate {i b name t u k} : env.decl i = .struct b → b.tail = .delegate name t → b.fields = [] → b.check [u] = true →
      Needs env (.elem t) [u] k → Needs env (.elem (.named i)) [.seq [u]] k.nest
  | elemVariant {i variants ca d b vs k} : env.decl i = .enum variants ca → variants.find? (fun x => x.1 = d) = some (d, b) →
      Needs env (.parts b) vs k → Needs env (.elem (.named i)) [.variant d vs] k
  | elemCatchAll {i variants d b vs k} : env.decl i = .enum variants (some b) → (∀ x ∈ variants, x.1 ≠ d) →
      Needs env (.parts b) vs k → Needs env (.elem (.named i)) [.variant d vs] k
  -- a field of unknown type
  | unkInt {zc} {n : UInt64} : Needs env (.elem (.unknownField zc)) [.variant 0 [.num n.toNat]] .zero
  | unkBlob {zc d} : d.length < 2 ^ 64 → Needs env (.elem (.unknownField zc)) [.variant 1 [.ofBytes d]] (.storing (if zc then 0 else d.length))
  | unkStruct {zc u k} : Needs env (.body (.unknownFields zc)) [u] k → Needs env (.elem (.unknownField zc)) [.variant 2 [u]] k
  | unkEnum {zc} {n : UInt64} {u k} : Needs env (.body (.unknownFields zc)) [u] k →
      Needs env (.elem (.unknownField zc)) [.variant 3 [.num n.toNat, u]] k
  -- lists of occurrences
  | eachNil {t} : Needs env (.each t) [] .zero
  | eachCons {t v vs k k'} : Needs env (.elem t) [v] k → Needs env (.each t) vs k' → Needs env (.each t) (v :: vs) (k.seq k')
  -- structs
  | fieldsNil : Needs env (.fields []) [] .zero
  | fieldsCons {d ds v vs k k'} : Needs env (.field d.ty) [v] k → Needs env (.fields ds) vs k' →
      Needs env (.fields (d :: ds)) (v :: vs) (k.nest.seq k')
  | partsPlain {b vs k} : b.tail = .plain → b.check vs = true → Needs env (.fields b.fields) vs k → Needs env (.parts b) vs k
  | partsDelegate {b name t v k} : b.tail = .delegate name t → b.fields = [] → b.check [v] = true → Needs env (.body t) [v] k →
      Needs env (.parts b) [v] k.nest
  | partsUnknown {b name zc vs es k k'} : b.tail = .unknown name zc → b.check (vs ++ [.seq es]) = true → Needs env (.fields b.fields) vs k →
      Needs env (.unknown (b.fields.map (·.tag)) zc) es k' → Needs env (.parts b) (vs ++ [.seq es]) ((k.seq k').seq Need.zero.nest)
  -- unknown fields: pairs of tag and content
  | unknownNil {known zc} : Needs env (.unknown known zc) [] .zero
  | unknownCons {known zc} {tag : Byte} {u es k k'} : TagOk tag → tag ∉ known → Needs env (.elem (.unknownField zc)) [u] k →
      Needs env (.unknown known zc) es k' → Needs env (.unknown known zc) (.seq [.num tag.toNat, u] :: es) ((k.collecting 1).nest.seq k')

/-- The value `v` is of type `t`, and `k` is what reading it back takes. -/
abbrev HasType (env : Env) (t : Ty) (v : V) (k : Need) : Prop := Needs env (.body t) [v] k

/-- A well-formed list of declared fields: proper, distinct tags. -/
def FieldsOk (ds : List FieldDecl) : Prop := (∀ d ∈ ds, TagOk d.tag) ∧ (ds.map (·.tag)).Nodup

instance (ds : List FieldDecl) : Decidable (FieldsOk ds) := inferInstanceAs (Decidable (_ ∧ _))

/-- A well-formed body. -/
def Body.Ok (b : Body) : Prop := FieldsOk b.fields

/-- Well-formed declarations. -/
def Decl.Ok : Decl → Prop
  | .struct b => b.Ok
  | .enum vs ca => (∀ x ∈ vs, x.2.Ok) ∧ ∀ b, ca = some b → b.Ok

def Env.Ok (env : Env) : Prop := ∀ i, (env.decl i).Ok

end Fourleaf
