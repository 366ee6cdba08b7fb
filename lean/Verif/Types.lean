import Verif.Prog
import Verif.WriteCalls

/-! # Types and values of the high-level API

A Rust program using `fourleaf` combines the built-in `Serialize`/`Deserialize` implementations and declares its own
types with `fourleaf_retrofit!` (possibly recursive). Types are descriptions `Ty`, declarations are looked
up by number in an environment `Env`, and values of all types are represented by one inductive type `V`. -/

namespace Fourleaf

/-- Integer types (`src/ser.rs` 181-218, `src/de.rs` 934-1039). -/
inductive IntTy where
  | u8 | u16 | u32 | u64 | usize | i8 | i16 | i32 | i64 | isize
  deriving Repr, DecidableEq

/-- Types with an implementation by `des_unary!` (`src/de.rs` 740-800, 1022-1048). `strRef` is `&str`, `bytesRef` is
`&[u8]`. -/
inductive Prim where
  | phantom | bool | int (k : IntTy) | char | string | strRef | bytesRef
  deriving Repr, DecidableEq

/-- Collections handled by `des_push_seq!` (`src/de.rs` 1469-1512): those that keep everything
(`LinkedList`, `VecDeque`, `BinaryHeap`) and those that drop duplicates (`BTreeSet`, `HashSet`). -/
inductive CollKind where
  | list | set
  deriving Repr, DecidableEq

/-- Types. -/
inductive Ty where
  | prim (p : Prim)
  /-- `Box<T>`, `Rc<T>`, `Arc<T>`, `Cow<T>` (`src/de.rs` 802-904), `Copied<T>` (`src/adapt.rs` 17-55), and on the
  serialising side `&T`, `&mut T` (`SerializeAs`, `src/ser.rs` 102-169): everything is delegated to `T` -/
  | boxed (t : Ty)
  /-- `[T; n]` for `n ≤ 32` (`src/de.rs` 1070-1226, `src/ser.rs` 244-304 as a slice) -/
  | small (n : Nat) (t : Ty)
  /-- `[T; n]` for the larger sizes (`src/de.rs` 1231-1324) -/
  | large (n : Nat) (t : Ty)
  /-- tuples, `()` being the empty one (`src/de.rs` 1371-1423); the source stops at 16 components -/
  | tuple (ts : List Ty)
  /-- `Vec<T>` (`src/de.rs` 1425-1467), serialised as a slice (`src/ser.rs` 170-174) -/
  | vec (t : Ty)
  | coll (k : CollKind) (t : Ty)
  | option (t : Ty)
  /-- `BTreeMap<K, V>`, `HashMap<K, V>` -/
  | map (k v : Ty)
  /-- `UnknownFields` and `UnknownField` (`src/unknown.rs` 39-60), copying or zero-copy style -/
  | unknownFields (zeroCopy : Bool)
  | unknownField (zeroCopy : Bool)
  /-- a type declared with `fourleaf_retrofit!` -/
  | named (i : Nat)
  deriving Repr

/-- Values of all types. Tuples, structs, arrays and collections are `seq` (a map is a `seq` of pairs, an option a `seq`
of at most one, `()` and `PhantomData` the empty one; byte vectors are `seq`s of numbers); a value of an enum
is `variant` with the discriminant and the fields. The order in a set, map or heap is the order of iteration, or of
insertion. -/
inductive V where
  | bool (b : Bool)
  | num (i : Int)
  | chr (c : Char)
  | str (s : String)
  | seq (vs : List V)
  | variant (disc : UInt64) (vs : List V)
  deriving Repr

mutual
def V.decEq : (a b : V) → Decidable (a = b)
  | .bool a, .bool b => decidable_of_iff (a = b) (by simp)
  | .num a, .num b => decidable_of_iff (a = b) (by simp)
  | .chr a, .chr b => decidable_of_iff (a = b) (by simp)
  | .str a, .str b => decidable_of_iff (a = b) (by simp)
  | .seq a, .seq b => match V.decEqs a b with
    | .isTrue h => .isTrue (by rw [h])
    | .isFalse h => .isFalse (by intro e; cases e; exact h rfl)
  | .variant d a, .variant e b => match (inferInstance : Decidable (d = e)), V.decEqs a b with
    | .isTrue h, .isTrue h' => .isTrue (by rw [h, h'])
    | .isFalse h, _ => .isFalse (by intro e; cases e; exact h rfl)
    | _, .isFalse h => .isFalse (by intro e; cases e; exact h rfl)
  | .bool _, .num _ | .bool _, .chr _ | .bool _, .str _ | .bool _, .seq _ | .bool _, .variant .. 
  | .num _, .bool _ | .num _, .chr _ | .num _, .str _ | .num _, .seq _ | .num _, .variant .. 
  | .chr _, .bool _ | .chr _, .num _ | .chr _, .str _ | .chr _, .seq _ | .chr _, .variant .. 
  | .str _, .bool _ | .str _, .num _ | .str _, .chr _ | .str _, .seq _ | .str _, .variant .. 
  | .seq _, .bool _ | .seq _, .num _ | .seq _, .chr _ | .seq _, .str _ | .seq _, .variant .. 
  | .variant .., .bool _ | .variant .., .num _ | .variant .., .chr _ | .variant .., .str _ | .variant .., .seq _ =>
    .isFalse (by intro h; cases h)
def V.decEqs : (a b : List V) → Decidable (a = b)
  | [], [] => .isTrue rfl
  | a :: as, b :: bs => match V.decEq a b, V.decEqs as bs with
    | .isTrue h, .isTrue h' => .isTrue (by rw [h, h'])
    | .isFalse h, _ => .isFalse (by intro e; cases e; exact h rfl)
    | _, .isFalse h => .isFalse (by intro e; cases e; exact h rfl)
  | [], _ :: _ => .isFalse (by intro h; cases h)
  | _ :: _, [] => .isFalse (by intro h; cases h)
end

instance : DecidableEq V := V.decEq

/-- A byte string as a value. -/
def V.ofBytes (bs : List Byte) : V := .seq (bs.map fun b => .num b.toNat)

/-- A declared field: `[tag] name: ty`. -/
structure FieldDecl where
  tag : Byte
  name : String
  ty : Ty
  deriving Repr

/-- The part after the tagged fields: nothing, `(*) name: ty` (everything is delegated), or
`(?) name: UnknownFields` (collects the rest). -/
inductive Tail where
  | plain
  | delegate (name : String) (ty : Ty)
  | unknown (name : String) (zeroCopy : Bool)
  deriving Repr

/-- The fields of a struct or enum variant. The constructor expression `{ … }` accepts (`Ok`) or rejects (`InvalidValueMsg`)
the values of the fields, according to `check`; the constructed value is represented by the
values of its fields. -/
structure Body where
  fields : List FieldDecl
  tail : Tail
  check : List V → Bool

/-- A `fourleaf_retrofit!` declaration (`src/sugar.rs` 562-706). -/
inductive Decl where
  | struct (b : Body)
  | enum (variants : List (UInt64 × Body)) (catchAll : Option Body)

mutual
/-- Size of a type expression (used to bound stack depth). -/
def Ty.size : Ty → Nat
  | .prim _ | .unknownFields _ | .unknownField _ | .named _ => 1
  | .boxed t | .small _ t | .large _ t | .vec t | .coll _ t | .option t => t.size + 1
  | .tuple ts => Ty.sizes ts + 1
  | .map k v => k.size + v.size + 2
def Ty.sizes : List Ty → Nat
  | [] => 0
  | t :: ts => t.size + Ty.sizes ts
end

/-- All types occurring in a body. -/
def Body.types (b : Body) : List Ty :=
  b.fields.map (·.ty) ++ match b.tail with | .delegate _ t => [t] | _ => []

/-- All types occurring in a declaration. -/
def Decl.types : Decl → List Ty
  | .struct b => b.types
  | .enum vs ca => vs.flatMap (fun v => v.2.types) ++ (match ca with | some b => b.types | none => [])

/-- A program's declarations. There are finitely many, so their type expressions have bounded size. -/
structure Env where
  decl : Nat → Decl
  size : Nat
  bound : ∀ i, ∀ t ∈ (decl i).types, t.size ≤ size

end Fourleaf
