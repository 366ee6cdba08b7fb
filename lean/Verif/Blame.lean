import Verif.Reads

/-! # Specification: messages with positions, and what is wrong with them

`Located p L stop m`: the bytes `m`, which start at position `p` of the stream and end at `stop`, are a message with the fields `L`, which come with their positions.
`Blames env cfg it d path k`: when `it` is read at nesting depth `d`, there is a defect of kind `k` at the place described by `path`, a list of names and
positions. There is one rule for each possible defect. Nothing here refers to the functions that read. -/

namespace Fourleaf
open Spec

/-- The value of a field, with positions. -/
inductive LVal where
  | int (n : UInt64)
  | blob (data : List Byte)
  /-- `start` is the position after the header, `stop` the one after the closing element -/
  | struct (start : Nat) (fs : List (Nat × Byte × LVal)) (stop : Nat)
  | enum (disc : UInt64) (start : Nat) (fs : List (Nat × Byte × LVal)) (stop : Nat)

/-- Fields with the positions where they start. -/
abbrev LFields := List (Nat × Byte × LVal)

mutual
/-- Without positions. -/
def LVal.plain : LVal → Val
  | .int n => .int n
  | .blob d => .blob d
  | .struct _ fs _ => .struct (plains fs)
  | .enum d _ fs _ => .enum d (plains fs)
def plains : List (Nat × Byte × LVal) → Fields
  | [] => []
  | x :: fs => plainField x :: plains fs
def plainField : Nat × Byte × LVal → Byte × Val
  | (_, x) => plainTagged x
def plainTagged : Byte × LVal → Byte × Val
  | (tag, v) => (tag, v.plain)
end

/-- The bytes are a message with these fields, in any spelling. -/
inductive Located : Nat → LFields → Nat → List Byte → Prop where
  | nil {p bs} : EncTok .endStruct bs → Located p [] (p + bs.length) bs
  | pad {p L stop bs m} : EncTok .padding bs → Located (p + bs.length) L stop m → Located p L stop (bs ++ m)
  | int {p tag n L stop bs m} : EncTok (.int tag n) bs → Located (p + bs.length) L stop m → Located p ((p, tag, .int n) :: L) stop (bs ++ m)
  | blob {p tag data L stop bs m} : EncTok (.blob tag data) bs → Located (p + bs.length) L stop m → Located p ((p, tag, .blob data) :: L) stop (bs ++ m)
  | struct {p tag l q L stop bs a m} : EncTok (.struct tag) bs → Located (p + bs.length) l q a → Located q L stop m →
      Located p ((p, tag, .struct (p + bs.length) l q) :: L) stop (bs ++ (a ++ m))
  | enum {p tag disc l q L stop bs a m} : EncTok (.enum tag disc) bs → Located (p + bs.length) l q a → Located q L stop m →
      Located p ((p, tag, .enum disc (p + bs.length) l q) :: L) stop (bs ++ (a ++ m))

/-- The name of a kind of value in error messages. -/
def Val.name : Val → String
  | .int _ => "Integer"
  | .blob _ => "Blob"
  | .struct _ => "Struct"
  | .enum .. => "Enum"

/-- What can be wrong with a value without structure. -/
inductive PrimFault : Prim → Val → Kind → Prop where
  | notInt {p v} : p = .phantom ∨ p = .bool ∨ (∃ k, p = .int k) ∨ p = .char → (∀ n, v ≠ .int n) →
      PrimFault p v (.stream (.unexpectedType "Integer" v.name))
  | phantom {n} : n ≠ 0 → PrimFault .phantom (.int n) (.stream .integerOutOfRange)
  | bool {n} : n ≠ 0 → n ≠ 1 → PrimFault .bool (.int n) (.stream .integerOutOfRange)
  /-- not the encoding of an integer in the range of the type -/
  | int {k n} : (∀ i, k.min ≤ i → i ≤ k.max → (n.toNat : Int) ≠ k.wire i) → PrimFault (.int k) (.int n) (.stream .integerOutOfRange)
  | charRange {n} : 2 ^ 32 ≤ n.toNat → PrimFault .char (.int n) (.stream .integerOutOfRange)
  | char {n} : n.toNat < 2 ^ 32 → (∀ c : Char, n.toNat ≠ c.toNat) → PrimFault .char (.int n) .invalidValueMsg
  | notBlob {p v} : p = .string ∨ p = .strRef ∨ p = .bytesRef → (∀ d, v ≠ .blob d) → PrimFault p v (.stream (.unexpectedType "Blob" v.name))
  | utf8 {p d} : p = .string ∨ p = .strRef → (∀ s, d ≠ utf8 s) → PrimFault p (.blob d) .invalidValue

/-- A further occurrence, after `n`, is one too many. A declared type that occurs twice is reported as occurring too few times. -/
inductive TooOften : Ty → Nat → Kind → Prop where
  | single {t n} : (∃ p, t = .prim p) ∨ (∃ ts, t = .tuple ts) ∨ (∃ e, t = .option e) ∨ (∃ zc, t = .unknownField zc) ∨ t = .vec u8 ∨ (∃ m, t = .small m u8) →
      1 ≤ n → TooOften t n (.tooMany 1)
  | named {i n} : 1 ≤ n → TooOften (.named i) n (.tooFew 1)
  | bytes {m n} : m ≠ 0 → 1 ≤ n → TooOften (.large m u8) n (.tooMany 1)
  | small {m e n} : e.isByte = false → m ≤ n → TooOften (.small m e) n (.tooMany m)
  | large {m e n} : e.isByte = false → m ≤ n → TooOften (.large m e) n (.tooMany m)

/-- `n` occurrences are not enough. -/
inductive Lacks : Ty → Nat → Kind → Prop where
  | single {t} : (∃ p, t = .prim p) ∨ (∃ ts, t = .tuple ts) ∨ (∃ i, t = .named i) ∨ (∃ zc, t = .unknownField zc) ∨ t = .vec u8 → Lacks t 0 .requiredFieldMissing
  | boxed {t n k} : Lacks t n k → Lacks (.boxed t) n k
  | small {m e} : m ≠ 0 → Lacks (.small m e) 0 .requiredFieldMissing
  | large {m e} : m ≠ 0 → Lacks (.large m e) 0 .requiredFieldMissing
  | smallFew {m e n} : e.isByte = false → 1 ≤ n → n < m → Lacks (.small m e) n (.tooFew m)
  | largeFew {m e n} : e.isByte = false → 1 ≤ n → n < m → Lacks (.large m e) n (.tooFew m)

/-- Types which are collections: each occurrence of a field is stored, up to the limit, and is read as an element of this type. -/
def Ty.collects : Ty → Option Ty
  | .vec e => if e.isByte then none else some e
  | .coll _ e => some e
  | .map k v => some (.tuple [k, v])
  | .unknownFields zc => some (.unknownField zc)
  | _ => none

/-- An occurrence of a field is read as an element of this type. -/
def Ty.each : Ty → Option Ty
  | .boxed _ => none
  | .vec e => some (if e.isByte then .vec e else e)
  | .small n e => some (if e.isByte then .small n e else e)
  | .large n e => some (if e.isByte then .large n e else e)
  | .coll _ e | .option e => some e
  | .map k v => some (.tuple [k, v])
  | .unknownFields zc => some (.unknownField zc)
  | t => some t

/-- What is read. -/
inductive BItem where
  /-- a whole message, starting at a position and ending at another -/
  | body (t : Ty) (start : Nat) (l : LFields) (stop : Nat)
  /-- the declared fields in a message; in a closed one, other fields may be reported -/
  | decls (ds : List FieldDecl) (closed : Bool) (l : LFields) (stop : Nat)
  /-- the message of a declared struct or enum variant -/
  | parts (b : Body) (start : Nat) (l : LFields) (stop : Nat)
  /-- the fields with other tags than these, as unknown fields -/
  | unknown (known : List Byte) (zeroCopy : Bool) (l : LFields)
  /-- an occurrence of a field after `n` others, at a position -/
  | occ (t : Ty) (n : Nat) (p : Nat) (v : LVal)
  /-- a single occurrence at a position -/
  | elem (t : Ty) (p : Nat) (v : LVal)

/-- How often a field with this tag occurs. -/
def timesOf (tag : Byte) (l : LFields) : Nat := l.countP (·.2.1 = tag)

inductive Blames (env : Env) (cfg : Config) : BItem → Nat → List PathFrame → Kind → Prop where
  -- messages
  | bodyBoxed {t s l e d path k} : Blames env cfg (.body t s l e) d path k → Blames env cfg (.body (.boxed t) s l e) d path k
  | bodyTuple {ts s l e d path k} : Blames env cfg (.decls (components ts) true l e) d path k → Blames env cfg (.body (.tuple ts) s l e) d path k
  | bodyUnknown {zc s l e d path k} : Blames env cfg (.unknown [] zc l) d path k → Blames env cfg (.body (.unknownFields zc) s l e) d path k
  | bodyStruct {i b s l e d path k} : env.decl i = .struct b → Blames env cfg (.parts b s l e) d path k → Blames env cfg (.body (.named i) s l e) d path k
  | bodyWrapped {t s l e d path k} : t.isWrapped env = true → Blames env cfg (.decls [⟨1, "top", t⟩] true l e) d path k → Blames env cfg (.body t s l e) d path k
  -- the declared fields of a message
  | tooDeep {ds closed l e d} : ds ≠ [] → cfg.recursionLimit ≤ d → Blames env cfg (.decls ds closed l e) d [] .recursionLimitExceeded
  /-- a field with an undeclared tag -/
  | undeclared {ds l e d p tag v} : cfg.ignoreUnknownFields = false → (p, tag, v) ∈ l → tag ∉ ds.map (·.tag) → Blames env cfg (.decls ds true l e) d [] (.unknownField tag p)
  /-- in a field, which starts at `p` -/
  | inField {ds closed l e d x pre p v post path k} : d < cfg.recursionLimit → x ∈ ds → l = pre ++ (p, x.tag, v) :: post →
      Blames env cfg (.occ x.ty (timesOf x.tag pre) p v) (d + 1) path k → Blames env cfg (.decls ds closed l e) d ((x.name, p) :: path) k
  /-- too few occurrences of a field, found at the end of the message -/
  | missing {ds closed l e d x k} : d < cfg.recursionLimit → x ∈ ds → Lacks x.ty (timesOf x.tag l) k → Blames env cfg (.decls ds closed l e) d [(x.name, e)] k
  -- declared structs
  | partsPlain {b s l e d path k} : b.tail = .plain → Blames env cfg (.decls b.fields true l e) d path k → Blames env cfg (.parts b s l e) d path k
  | delegateDeep {b name t s l e d} : b.tail = .delegate name t → cfg.recursionLimit ≤ d → Blames env cfg (.parts b s l e) d [] .recursionLimitExceeded
  | partsDelegate {b name t s l e d path k} : b.tail = .delegate name t → d < cfg.recursionLimit → Blames env cfg (.body t s l e) (d + 1) path k →
      Blames env cfg (.parts b s l e) d ((name, s) :: path) k
  | unknownDeep {b name zc s l e d} : b.tail = .unknown name zc → cfg.recursionLimit ≤ d → Blames env cfg (.parts b s l e) d [] .recursionLimitExceeded
  | partsUnknown {b name zc s l e d path k} : b.tail = .unknown name zc → Blames env cfg (.decls b.fields false l e) d path k → Blames env cfg (.parts b s l e) d path k
  | partsRest {b name zc s l e d path k} : b.tail = .unknown name zc → Blames env cfg (.unknown (b.fields.map (·.tag)) zc l) d path k → Blames env cfg (.parts b s l e) d path k
  /-- everything can be read, but the constructor refuses the values -/
  | refused {b s l e d vs c} : Reads env cfg (.parts { b with check := fun _ => true }) d [.struct (plains l)] vs c → b.check vs = false →
      Blames env cfg (.parts b s l e) d [] .invalidValueMsg
  -- unknown fields
  | restDeep {known zc l d p tag v} : (p, tag, v) ∈ l → tag ∉ known → cfg.recursionLimit ≤ d → Blames env cfg (.unknown known zc l) d [] .recursionLimitExceeded
  | inRest {known zc l d p tag v n path k} : (p, tag, v) ∈ l → tag ∉ known → d < cfg.recursionLimit →
      Blames env cfg (.occ (.unknownFields zc) n p v) (d + 1) path k → Blames env cfg (.unknown known zc l) d ((tagName tag, p) :: path) k
  -- occurrences of fields
  | occBoxed {t n p v d path k} : Blames env cfg (.occ t n p v) d path k → Blames env cfg (.occ (.boxed t) n p v) d path k
  | tooOften {t n p v d k} : TooOften t n k → Blames env cfg (.occ t n p v) d [] k
  /-- the limit of the number of stored elements is reached here -/
  | collectLimit {t e n p v d} : t.collects = some e → Blames env cfg (.occ t n p v) d [] .maxCollectExceeded
  | occEach {t e n p v d path k} : t.each = some e → Blames env cfg (.elem e p v) d path k → Blames env cfg (.occ t n p v) d path k
  -- single occurrences
  | elemPrim {q p v d k} : PrimFault q v.plain k → Blames env cfg (.elem (.prim q) p v) d [] k
  /-- the limit of the number of stored bytes is reached here -/
  | blobLimit {t p data d} : t = .prim .string ∨ t = .vec u8 → Blames env cfg (.elem t p (.blob data)) d [] .maxBlobExceeded
  | elemBoxed {t p v d path k} : Blames env cfg (.elem t p v) d path k → Blames env cfg (.elem (.boxed t) p v) d path k
  | notBytes {t p v d} : t = .vec u8 ∨ (∃ m, t = .small m u8) ∨ (∃ m, t = .large m u8) → (∀ data, v ≠ .blob data) →
      Blames env cfg (.elem t p v) d [] (.stream (.unexpectedType "Blob" v.plain.name))
  | arrayLength {t m p data d} : t = .small m u8 ∨ t = .large m u8 → data.length ≠ m → Blames env cfg (.elem t p (.blob data)) d [] .invalidValueMsg
  | notStruct {t p v d} : t.inStruct env = true → (∀ s l e, v ≠ .struct s l e) → Blames env cfg (.elem t p v) d [] (.stream (.unexpectedType "Struct" v.plain.name))
  | elemStruct {t p s l e d path k} : t.inStruct env = true → Blames env cfg (.body t s l e) d path k → Blames env cfg (.elem t p (.struct s l e)) d path k
  | elemDelegateDeep {i b name t p v d} : env.decl i = .struct b → b.tail = .delegate name t → cfg.recursionLimit ≤ d →
      Blames env cfg (.elem (.named i) p v) d [] .recursionLimitExceeded
  | elemDelegate {i b name t p v d path k} : env.decl i = .struct b → b.tail = .delegate name t → d < cfg.recursionLimit → Blames env cfg (.elem t p v) (d + 1) path k →
      Blames env cfg (.elem (.named i) p v) d ((name, p) :: path) k
  | elemRefused {i b name t p v d u c} : env.decl i = .struct b → b.tail = .delegate name t → Reads env cfg (.elem t) (d + 1) [v.plain] [u] c → b.check [u] = false →
      Blames env cfg (.elem (.named i) p v) d [] .invalidValueMsg
  | notEnum {i vs ca p v d} : env.decl i = .enum vs ca → (∀ disc s l e, v ≠ .enum disc s l e) →
      Blames env cfg (.elem (.named i) p v) d [] (.stream (.unexpectedType "Enum" v.plain.name))
  | unknownVariant {i vs p disc s l e d} : env.decl i = .enum vs none → (∀ x ∈ vs, x.1 ≠ disc) →
      Blames env cfg (.elem (.named i) p (.enum disc s l e)) d [] (.unknownVariant disc)
  | elemVariant {i vs ca b p disc s l e d path k} : env.decl i = .enum vs ca → vs.find? (fun x => x.1 = disc) = some (disc, b) → Blames env cfg (.parts b s l e) d path k →
      Blames env cfg (.elem (.named i) p (.enum disc s l e)) d path k
  | elemCatchAll {i vs b p disc s l e d path k} : env.decl i = .enum vs (some b) → (∀ x ∈ vs, x.1 ≠ disc) → Blames env cfg (.parts b s l e) d path k →
      Blames env cfg (.elem (.named i) p (.enum disc s l e)) d path k
  -- a field of unknown type
  | unkBlobLimit {p data d} : Blames env cfg (.elem (.unknownField false) p (.blob data)) d [] .maxBlobExceeded
  | unkStruct {zc p s l e d path k} : Blames env cfg (.unknown [] zc l) d path k → Blames env cfg (.elem (.unknownField zc) p (.struct s l e)) d path k
  | unkEnum {zc p disc s l e d path k} : Blames env cfg (.unknown [] zc l) d path k → Blames env cfg (.elem (.unknownField zc) p (.enum disc s l e)) d path k

end Fourleaf
