import Verif.Ser

/-! # Messages as trees, and deserialisation as a function on trees

A well-formed message is a tree of fields. `pops` is the meaning of deserialisation on trees, without streams, positions, or
statistics: the result is a value together with what it uses up of the limits, or the kind of
error. `Sim` connects it to the model of the code. -/

namespace Fourleaf
open Spec

/-- The value of a field. -/
inductive Val where
  | int (n : UInt64)
  | blob (data : List Byte)
  | struct (fs : List (Byte × Val))
  | enum (disc : UInt64) (fs : List (Byte × Val))

/-- The fields of a struct, in order. -/
abbrev Fields := List (Byte × Val)

/-- The elements `ts` are the fields in order, with the closing end-of-struct; padding may occur in between. -/
inductive BodyOf : Fields → List Tok → Prop where
  | nil : BodyOf [] [.endStruct]
  | pad {fs ts} : BodyOf fs ts → BodyOf fs (.padding :: ts)
  | int {tag n fs ts} : BodyOf fs ts → BodyOf ((tag, .int n) :: fs) (.int tag n :: ts)
  | blob {tag d fs ts} : BodyOf fs ts → BodyOf ((tag, .blob d) :: fs) (.blob tag d :: ts)
  | struct {tag l fs a b} : BodyOf l a → BodyOf fs b → BodyOf ((tag, .struct l) :: fs) (.struct tag :: (a ++ b))
  | enum {tag d l fs a b} : BodyOf l a → BodyOf fs b → BodyOf ((tag, .enum d l) :: fs) (.enum tag d :: (a ++ b))

/-- The descriptor-level view of a value. -/
def Val.head : Val → Value
  | .int n => .int n
  | .blob d => .blob d.length
  | .struct _ => .struct
  | .enum d _ => .enum d

instance : Add Stats := ⟨fun a b => ⟨a.collected + b.collected, a.blob + b.blob⟩⟩
theorem Stats.add_collected (a b : Stats) : (a + b).collected = a.collected + b.collected := rfl
theorem Stats.add_blob (a b : Stats) : (a + b).blob = a.blob + b.blob := rfl
@[simp] theorem Stats.add_zero (a : Stats) : a + Stats.zero = a := rfl
@[simp] theorem Stats.zero_add (a : Stats) : Stats.zero + a = a := by
  cases a; show Stats.mk _ _ = _; simp [Stats.zero]
theorem Stats.add_assoc (a b c : Stats) : a + b + c = a + (b + c) := by
  show Stats.mk _ _ = Stats.mk _ _; simp only [Stats.add_collected, Stats.add_blob, Nat.add_assoc]
theorem Stats.add_comm (a b : Stats) : a + b = b + a := by
  show Stats.mk _ _ = Stats.mk _ _; simp only [Nat.add_comm]

/-- Within the limits. -/
def Stats.fits (cfg : Config) (u : Stats) : Prop := u.collected ≤ cfg.maxCollect ∧ u.blob ≤ cfg.maxBlob

instance (cfg : Config) (u : Stats) : Decidable (u.fits cfg) := inferInstanceAs (Decidable (_ ∧ _))

/-- A value or an error, with what is used up until then. -/
def PM (α : Type) := Except (Kind × Stats) (α × Stats)

namespace PM

def ret {α : Type} (a : α) (c : Stats := .zero) : PM α := Except.ok (a, c)
def fail {α : Type} (k : Kind) (c : Stats := .zero) : PM α := Except.error (k, c)
def bind {α β : Type} (m : PM α) (f : α → PM β) : PM β :=
  match m with
  | Except.ok (a, c) => match f a with
    | Except.ok (b, c') => ret b (c + c')
    | Except.error (k, c') => fail k (c + c')
  | Except.error (k, c) => fail k c
def lift {α : Type} : Except Err α → PM α
  | Except.ok a => ret a
  | Except.error e => fail (.stream e)

/-- Case distinction. -/
theorem cases {α : Type} (m : PM α) : (∃ a c, m = ret a c) ∨ ∃ k c, m = fail k c := by
  cases m with
  | ok r => exact .inl ⟨r.1, r.2, rfl⟩
  | error k => exact .inr ⟨k.1, k.2, rfl⟩

theorem ret_inj {α : Type} {a a' : α} {c c' : Stats} (h : ret a c = ret a' c') : a = a' ∧ c = c' := by
  injection h with h; injection h with h1 h2; exact ⟨h1, h2⟩
theorem ret_ne_fail {α : Type} {a : α} {c c' : Stats} {k : Kind} : (ret a c : PM α) ≠ fail k c' := by intro h; injection h
theorem fail_ne_ret {α : Type} {a : α} {c c' : Stats} {k : Kind} : (fail k c' : PM α) ≠ ret a c := by intro h; injection h
theorem fail_inj {α : Type} {k k' : Kind} {c c' : Stats} (h : (fail k c : PM α) = fail k' c') : k = k' ∧ c = c' := by
  injection h with h; injection h with h1 h2; exact ⟨h1, h2⟩

@[simp] theorem bind_ret {α β : Type} (a : α) (f : α → PM β) : bind (ret a) f = f a := by
  rcases cases (f a) with ⟨b, c, h⟩ | ⟨k, c, h⟩
  · simp only [bind, ret, h, Stats.zero_add]; rfl
  · simp only [bind, ret, h, fail, Stats.zero_add]; rfl
@[simp] theorem bind_fail {α β : Type} (k : Kind) (c : Stats) (f : α → PM β) : bind (fail k c) f = fail k c := rfl
theorem bind_retc {α β : Type} {a : α} {c c' : Stats} {b : β} {f : α → PM β} (h : f a = ret b c') :
    bind (ret a c) f = ret b (c + c') := by simp only [bind, ret, h]; rfl
theorem bind_retf {α β : Type} {a : α} {c c' : Stats} {k : Kind} {f : α → PM β} (h : f a = fail k c') :
    bind (ret a c) f = fail k (c + c') := by simp only [bind, ret, h]; rfl
/-- Success of a sequence. -/
theorem bind_eq_ret {α β : Type} {m : PM α} {f : α → PM β} {b : β} {c : Stats} (h : bind m f = ret b c) :
    ∃ a c1 c2, m = ret a c1 ∧ f a = ret b c2 ∧ c = c1 + c2 := by
  rcases cases m with ⟨a, c1, rfl⟩ | ⟨k, c1, rfl⟩
  · rcases cases (f a) with ⟨b', c2, h2⟩ | ⟨k, c2, h2⟩
    · rw [bind_retc h2] at h
      obtain ⟨rfl, rfl⟩ := ret_inj h
      exact ⟨a, c1, c2, rfl, h2, rfl⟩
    · rw [bind_retf h2] at h; exact absurd h fail_ne_ret
  · exact absurd h fail_ne_ret
/-- Failure of a sequence. -/
theorem bind_eq_fail {α β : Type} {m : PM α} {f : α → PM β} {k : Kind} {c : Stats} (h : bind m f = fail k c) :
    m = fail k c ∨ ∃ a c1 c2, m = ret a c1 ∧ f a = fail k c2 ∧ c = c1 + c2 := by
  rcases cases m with ⟨a, c1, rfl⟩ | ⟨k, c1, rfl⟩
  · rcases cases (f a) with ⟨b', c2, h2⟩ | ⟨k, c2, h2⟩
    · rw [bind_retc h2] at h; exact absurd h ret_ne_fail
    · rw [bind_retf h2] at h
      obtain ⟨rfl, rfl⟩ := fail_inj h
      exact .inr ⟨a, c1, c2, rfl, h2, rfl⟩
  · obtain ⟨rfl, rfl⟩ := fail_inj h; exact .inl rfl
theorem bind_assoc {α β γ : Type} (m : PM α) (f : α → PM β) (g : β → PM γ) :
    bind (bind m f) g = bind m fun a => bind (f a) g := by
  rcases cases m with ⟨a, c1, rfl⟩ | ⟨k, c1, rfl⟩
  · rcases cases (f a) with ⟨b, c2, h2⟩ | ⟨k, c2, h2⟩
    · rw [bind_retc h2]
      rcases cases (g b) with ⟨x, c3, h3⟩ | ⟨k, c3, h3⟩
      · rw [bind_retc h3, bind_retc (c' := c2 + c3) (b := x), Stats.add_assoc]
        show bind (f a) g = _
        rw [h2, bind_retc h3]
      · rw [bind_retf h3, bind_retf (k := k) (c' := c2 + c3), Stats.add_assoc]
        show bind (f a) g = _
        rw [h2, bind_retf h3]
    · rw [bind_retf h2, bind_retf (k := k) (c' := c2)]
      · rfl
      · show bind (f a) g = _
        rw [h2]; rfl
  · rfl
theorem bind_ret_right {α : Type} (m : PM α) : bind m (fun a => ret a) = m := by
  rcases cases m with ⟨a, c1, rfl⟩ | ⟨k, c1, rfl⟩
  · rw [bind_retc (f := fun a => ret a) rfl, Stats.add_zero]
  · rfl
end PM

/-- The content of a blob, with the given cost. -/
def Val.bytes (v : Val) (cost : Nat → Stats) : PM (List Byte) :=
  match v with
  | .blob d => .ret d (cost d.length)
  | v => PM.bind (PM.lift v.head.toBlob) fun _ => .ret []

def noCost : Nat → Stats := fun _ => .zero
def blobCost : Nat → Stats := fun n => ⟨0, n⟩

/-- Conversion of a field without structure. -/
def Prim.read (p : Prim) (v : Val) : PM V :=
  match p with
  | .phantom => PM.bind (PM.lift v.head.toNull) fun _ => .ret (.seq [])
  | .bool => PM.bind (PM.lift v.head.toBool) fun b => .ret (.bool b)
  | .int k => PM.bind (PM.lift (k.conv v.head)) fun i => .ret (.num i)
  | .char => PM.bind (PM.lift v.head.toU32) fun n =>
      match charFromU32 n with
      | some ch => .ret (.chr ch)
      | none => .fail .invalidValueMsg
  | .string => PM.bind (v.bytes blobCost) fun d =>
      match fromUtf8 d with
      | some s => .ret (.str s)
      | none => .fail .invalidValue
  | .strRef => PM.bind (v.bytes noCost) fun d =>
      match fromUtf8 d with
      | some s => .ret (.str s)
      | none => .fail .invalidValue
  | .bytesRef => PM.bind (v.bytes noCost) fun d => .ret (.ofBytes d)

/-- A byte array. -/
def readArr (n : Nat) (v : Val) : PM (List V) :=
  PM.bind (v.bytes noCost) fun d => if d.length ≠ n then .fail .invalidValueMsg else .ret (d.map fun b => .num b.toNat)

/-- A byte vector. -/
def readVec (v : Val) : PM (List V) := PM.bind (v.bytes blobCost) fun d => .ret (d.map fun b => .num b.toNat)

/-- The methods on trees; the `Nat` is the depth of the context. -/
structure POps where
  body : Ty → Nat → Fields → PM V
  field : Ty → Acc → Nat → Byte → Val → PM Acc
  element : Ty → Nat → Byte → Val → PM V
  finish : Ty → Acc → Nat → PM V

def pPush (cfg : Config) (d : Nat) : PM Nat :=
  if d ≥ cfg.recursionLimit then .fail .recursionLimitExceeded else .ret (d + 1)

def pCollect : PM Unit := .ret () ⟨1, 0⟩

def pFieldStep (cfg : Config) (o : POps) (fs : List FieldDecl) (unk : Option Bool) (d : Nat) (st : LoopSt) (tag : Byte) (v : Val) : PM LoopSt :=
  match fs.findIdx? (fun x => x.tag = tag) with
  | some i =>
    match fs[i]? with
    | none => .ret st
    | some x =>
      PM.bind (pPush cfg d) fun d' =>
      PM.bind (o.field x.ty (st.accs i) d' tag v) fun a => .ret { st with accs := upd st.accs i a }
  | none =>
    match unk with
    | some zc =>
      PM.bind (pPush cfg d) fun d' =>
      PM.bind (o.field (.unknownFields zc) st.unk d' tag v) fun a => .ret { st with unk := a }
    | none => if cfg.ignoreUnknownFields then .ret st else .fail (.unknownField tag 0)

def pLoop (cfg : Config) (o : POps) (fs : List FieldDecl) (unk : Option Bool) (d : Nat) : LoopSt → Fields → PM LoopSt
  | st, [] => .ret st
  | st, (tag, v) :: vs => PM.bind (pFieldStep cfg o fs unk d st tag v) fun st' => pLoop cfg o fs unk d st' vs

def pFinishAll (cfg : Config) (o : POps) (d : Nat) (st : LoopSt) : Nat → List FieldDecl → PM (List V)
  | _, [] => .ret []
  | i, x :: xs =>
    PM.bind (pPush cfg d) fun d' =>
    PM.bind (o.finish x.ty (st.accs i) d') fun v =>
    PM.bind (pFinishAll cfg o d st (i + 1) xs) fun vs => .ret (v :: vs)

def pStruct (cfg : Config) (o : POps) (fs : List FieldDecl) (d : Nat) (l : Fields) : PM (List V) :=
  PM.bind (pLoop cfg o fs none d .init l) fun st => pFinishAll cfg o d st 0 fs

def pDefault (cfg : Config) (o : POps) (t : Ty) (d : Nat) (l : Fields) : PM V :=
  PM.bind (pStruct cfg o [⟨1, "top", t⟩] d l) fun vs => .ret (vs.headD (.seq []))

def pConstruct (b : Body) (vs : List V) : PM (List V) := if b.check vs then .ret vs else .fail .invalidValueMsg

def pMacro (cfg : Config) (o : POps) (b : Body) (d : Nat) (l : Fields) : PM (List V) :=
  match b.tail with
  | .plain =>
    PM.bind (pLoop cfg o b.fields none d .init l) fun st =>
    PM.bind (pFinishAll cfg o d st 0 b.fields) fun vs => pConstruct b vs
  | .delegate _ t =>
    PM.bind (pPush cfg d) fun d' =>
    PM.bind (o.body t d' l) fun v =>
    PM.bind (pFinishAll cfg o d .init 0 b.fields) fun vs => pConstruct b (vs ++ [v])
  | .unknown _ zc =>
    PM.bind (pLoop cfg o b.fields (some zc) d .init l) fun st =>
    PM.bind (pFinishAll cfg o d st 0 b.fields) fun vs =>
    PM.bind (pPush cfg d) fun d' =>
    PM.bind (o.finish (.unknownFields zc) st.unk d') fun v => pConstruct b (vs ++ [v])

def pBody (env : Env) (cfg : Config) (o : POps) (t : Ty) (d : Nat) (l : Fields) : PM V :=
  match t with
  | .boxed t => o.body t d l
  | .tuple ts => PM.bind (pStruct cfg o (tupleFields ts) d l) fun vs => .ret (.seq vs)
  | .unknownFields zc => PM.bind (pLoop cfg o [] (some zc) d .init l) fun st => o.finish (.unknownFields zc) st.unk d
  | .named i =>
    match env.decl i with
    | .struct b => PM.bind (pMacro cfg o b d l) fun vs => .ret (.seq vs)
    | .enum .. => pDefault cfg o t d l
  | _ => pDefault cfg o t d l

def pViaStruct (o : POps) (t : Ty) (d : Nat) (v : Val) : PM V :=
  match v with
  | .struct l => o.body t d l
  | v => PM.bind (PM.lift v.head.toStruct) fun _ => o.body t d []

def pEnum (cfg : Config) (o : POps) (variants : List (UInt64 × Body)) (ca : Option Body) (d : Nat) (v : Val) : PM V :=
  match v with
  | .enum disc l =>
    match variants.find? (fun x => x.1 = disc) with
    | some x => PM.bind (pMacro cfg o x.2 d l) fun vs => .ret (.variant disc vs)
    | none =>
      match ca with
      | some b => PM.bind (pMacro cfg o b d l) fun vs => .ret (.variant disc vs)
      | none => .fail (.unknownVariant disc)
  | v => PM.bind (PM.lift v.head.toEnum) fun _ => .ret (.seq [])

def pElement (env : Env) (cfg : Config) (o : POps) (t : Ty) (d : Nat) (tag : Byte) (v : Val) : PM V :=
  match t with
  | .prim _ | .unknownField _ => PM.bind (o.field t .init d tag v) fun a => o.finish t a d
  | .boxed t => o.element t d tag v
  | .small n e | .large n e => if e.isU8 then PM.bind (readArr n v) fun vs => .ret (.seq vs) else pViaStruct o t d v
  | .vec e => if e.isU8 then PM.bind (readVec v) fun vs => .ret (.seq vs) else pViaStruct o t d v
  | .tuple _ | .coll .. | .option _ | .map .. | .unknownFields _ => pViaStruct o t d v
  | .named i =>
    match env.decl i with
    | .struct b =>
      match b.tail with
      | .delegate _ t' =>
        PM.bind (pPush cfg d) fun d' =>
        PM.bind (o.element t' d' tag v) fun u =>
        PM.bind (pConstruct b [u]) fun vs => .ret (.seq vs)
      | _ => pViaStruct o t d v
    | .enum vs ca => pEnum cfg o vs ca d v

def pField (o : POps) (t : Ty) (a : Acc) (d : Nat) (tag : Byte) (v : Val) : PM Acc :=
  match t with
  | .prim p => if a.items ≠ [] then .fail (.tooMany 1) else PM.bind (p.read v) fun u => .ret ⟨false, [u]⟩
  | .boxed t => o.field t a d tag v
  | .small n e =>
    if e.isU8 then
      if a.flag = true ∨ a.items ≠ [] then .fail (.tooMany 1)
      else PM.bind (readArr n v) fun vs => .ret ⟨true, vs⟩
    else if a.flag then .fail (.tooMany n)
    else if a.items.length ≥ n then .fail (.tooMany n)
    else PM.bind (o.element e d tag v) fun u => .ret ⟨false, a.items ++ [u]⟩
  | .large n e =>
    if e.isU8 then PM.bind (readArr n v) fun vs => if a.items.length ≠ 0 then .fail (.tooMany 1) else .ret ⟨false, vs⟩
    else if a.items.length ≥ n then .fail (.tooMany n)
    else PM.bind (o.element e d tag v) fun u => .ret ⟨false, a.items ++ [u]⟩
  | .tuple _ => if a.items ≠ [] then .fail (.tooMany 1) else PM.bind (o.element t d tag v) fun u => .ret ⟨false, [u]⟩
  | .named _ => if a.items ≠ [] then .fail (.tooFew 1) else PM.bind (o.element t d tag v) fun u => .ret ⟨false, [u]⟩
  | .vec e =>
    if e.isU8 then
      if a.flag then .fail (.tooMany 1) else PM.bind (readVec v) fun vs => .ret ⟨true, vs⟩
    else PM.bind pCollect fun _ => PM.bind (o.element e d tag v) fun u => .ret ⟨a.flag, a.items ++ [u]⟩
  | .coll k e =>
    PM.bind pCollect fun _ => PM.bind (o.element e d tag v) fun u =>
      .ret ⟨a.flag, match k with | .list => a.items ++ [u] | .set => setInsert u a.items⟩
  | .option e => if a.items ≠ [] then .fail (.tooMany 1) else PM.bind (o.element e d tag v) fun u => .ret ⟨false, [u]⟩
  | .map k w =>
    PM.bind pCollect fun _ => PM.bind (o.element (.tuple [k, w]) d tag v) fun e => .ret ⟨a.flag, mapInsert e a.items⟩
  | .unknownFields zc =>
    PM.bind pCollect fun _ => PM.bind (o.element (.unknownField zc) d tag v) fun u =>
      .ret ⟨a.flag, a.items ++ [.seq [.num tag.toNat, u]]⟩
  | .unknownField zc =>
    if a.items ≠ [] then .fail (.tooMany 1)
    else match v with
      | .int n => .ret ⟨false, [.variant 0 [.num n.toNat]]⟩
      | .blob _ => PM.bind (o.element (unkBlobTy zc) d tag v) fun u => .ret ⟨false, [.variant 1 [u]]⟩
      | .struct l => PM.bind (o.body (.unknownFields zc) d l) fun u => .ret ⟨false, [.variant 2 [u]]⟩
      | .enum disc l => PM.bind (o.body (.unknownFields zc) d l) fun u => .ret ⟨false, [.variant 3 [.num disc.toNat, u]]⟩

def pFinish (o : POps) (t : Ty) (a : Acc) (d : Nat) : PM V :=
  match t with
  | .prim _ | .tuple _ | .named _ | .unknownField _ =>
    match a.items with
    | v :: _ => .ret v
    | [] => .fail .requiredFieldMissing
  | .boxed t => o.finish t a d
  | .small n e =>
    if a.flag then .ret (.seq a.items)
    else if a.items.length < n then
      if a.items.length = 0 then .fail .requiredFieldMissing else .fail (.tooFew (if e.isU8 then 1 else n))
    else .ret (.seq a.items)
  | .large n e =>
    if a.items.length < n then
      if a.items.length = 0 then .fail .requiredFieldMissing else .fail (.tooFew (if e.isU8 then 1 else n))
    else .ret (.seq a.items)
  | .vec e => if e.isU8 && !a.flag then .fail .requiredFieldMissing else .ret (.seq a.items)
  | .coll .. | .option _ | .map .. | .unknownFields _ => .ret (.seq a.items)

/-- The methods on trees with `n` nested calls. -/
def pops (env : Env) (cfg : Config) : Nat → POps
  | 0 => { body := fun _ _ _ => .fail .stackOverflow
           field := fun _ _ _ _ _ => .fail .stackOverflow
           element := fun _ _ _ _ => .fail .stackOverflow
           finish := fun _ _ _ => .fail .stackOverflow }
  | n + 1 =>
    { body := pBody env cfg (pops env cfg n)
      field := pField (pops env cfg n)
      element := pElement env cfg (pops env cfg n)
      finish := pFinish (pops env cfg n) }

/-- What deserialising a tree gives. -/
def deTree (env : Env) (t : Ty) (cfg : Config) (l : Fields) : PM V := (pops env cfg (stackNeed env t cfg)).body t 0 l

end Fourleaf
