import Verif.DeProg

/-! # Deserialisers give up at the first error -/

namespace Fourleaf
open Spec

/-- The calls that deserialisers make. -/
def Op.calm {β : Type} : Op β → Prop
  | .nextField | .pos | .readFully _ | .slice | .remaining => True
  | .skipUp d => 1 ≤ d
  | _ => False

/-- A program that fails as soon as a call fails; if the error of the call is `e`, with an error satisfying `D e`. -/
def Prog.Strict {ε U : Type} (D : Err → ε → Prop) : {α : Type} → Prog ε U α → Prop
  | _, .ret _ => True
  | _, .fail _ => True
  | _, .op _ => False
  | _, .call o f => o.calm ∧ ∀ e, D e (f e)
  | _, .getU => True
  | _, .setU _ => True
  | _, .bind p f => (p.Strict D ∧ ∀ a, (f a).Strict D) ∨ ∃ e, ∀ a, f a = .fail e
  | _, .attempt _ => False
  | _, .loop fields _ body onErr onEnd =>
    fields = true ∧ (∀ b (f : Field), 1 ≤ f.depth → (body b (.field f)).Strict D) ∧ (∀ e, ∃ d, onErr e = .fail d ∧ D e d) ∧
      ∀ b, (onEnd b).Strict D

/-- Strict deserialising programs. -/
abbrev Strict {α : Type} (p : P α) : Prop := p.Strict fun e d => d.kind = .stream e

namespace Strict
theorem ret {α : Type} (a : α) : Strict (.ret a) := trivial
theorem fail {α : Type} (c : Ctx) (k : Kind) : Strict (c.fail k : P α) := trivial
theorem bind {α β : Type} {p : P α} {f : α → P β} (h : Strict p) (hf : ∀ a, Strict (f a)) : Strict (.bind p f) := .inl ⟨h, hf⟩
theorem call {β : Type} (c : Ctx) {o : Op β} (h : o.calm) : Strict (c.call o) := ⟨h, fun _ => rfl⟩
theorem lift {α : Type} (c : Ctx) (x : Except Err α) : Strict (c.lift x) := by cases x <;> trivial
theorem setU (u : Stats) : Strict (.setU u : P Unit) := trivial
theorem getU : Strict (.getU : P Stats) := trivial
theorem push (c : Ctx) (n : String) (p : Nat) : Strict (c.push n p) := by
  unfold Ctx.push; split
  · exact fail _ _
  · exact ret _
theorem unknownField (c : Ctx) (f : Field) : Strict (c.unknownField f) := by
  unfold Ctx.unknownField; split
  · exact ret _
  · exact fail _ _
theorem collect (c : Ctx) (n : Nat) : Strict (c.collect n) :=
  getU.bind fun u => by
    split
    · exact fail _ _
    · split
      · exact fail _ _
      · exact setU _
theorem blob (c : Ctx) (n : Nat) : Strict (c.blob n) :=
  getU.bind fun u => by
    split
    · exact fail _ _
    · split
      · exact fail _ _
      · exact setU _
theorem skip (c : Ctx) (f : Field) (hf : 1 ≤ f.depth) : Strict (c.skip f) := by
  unfold Ctx.skip; split
  · exact call _ hf
  · exact call _ hf
  · exact ret _
  · exact ret _
theorem extSlice (c : Ctx) (f : Field) : Strict (extSlice c f) := (lift _ _).bind fun _ => call _ trivial
theorem ownedBlob (c : Ctx) (f : Field) : Strict (ownedBlob c f) := (lift _ _).bind fun _ => (blob _ _).bind fun _ => call _ trivial
theorem vecConv (c : Ctx) (f : Field) : Strict (vecConv c f) := (ownedBlob _ _).bind fun _ => ret _
theorem arrConv (n : Nat) (c : Ctx) (f : Field) : Strict (arrConv n c f) :=
  (lift _ _).bind fun _ => (call (o := .remaining) _ trivial).bind fun _ => by
    split
    · exact fail _ _
    · refine (call (o := .readFully n) _ trivial).bind fun _ => ?_
      split
      · exact fail _ _
      · exact ret _
theorem discard {α β : Type} (p : P β) (c : Ctx) (k : Kind) : Strict (discard p c k : P α) := .inr ⟨_, fun _ => rfl⟩
theorem conv (p : Prim) (c : Ctx) (f : Field) : Strict (p.conv c f) := by
  cases p with
  | phantom | bool | int k => exact (lift _ _).bind fun _ => ret _
  | char =>
    refine (lift _ _).bind fun a => ?_
    split
    · exact ret _
    · exact fail _ _
  | string =>
    refine (ownedBlob _ _).bind fun a => ?_
    split
    · exact ret _
    · exact fail _ _
  | strRef =>
    refine (extSlice _ _).bind fun a => ?_
    split
    · exact ret _
    · exact fail _ _
  | bytesRef => exact (extSlice _ _).bind fun _ => ret _
end Strict

structure StrictOps (o : Ops) : Prop where
  body : ∀ t c, Strict (o.body t c)
  field : ∀ t a c f, Strict (o.field t a c f)
  element : ∀ t c f, Strict (o.element t c f)
  finish : ∀ t a c, Strict (o.finish t a c)

section
variable {o : Ops} (H : StrictOps o)
include H

theorem strict_fieldStep (fs : List FieldDecl) (unk : Option Bool) (c : Ctx) (st : LoopSt) (f : Field) (hf : 1 ≤ f.depth) : Strict (fieldStep o fs unk c st f) := by
  unfold fieldStep
  split
  · split
    · exact .ret _
    · exact (Strict.push _ _ _).bind fun _ => (H.field _ _ _ _).bind fun _ => .ret _
  · split
    · exact (Strict.push _ _ _).bind fun _ => (H.field _ _ _ _).bind fun _ => .ret _
    · exact (Strict.unknownField _ _).bind fun _ => (Strict.skip _ _ hf).bind fun _ => .ret _

theorem strict_fieldLoop (fs : List FieldDecl) (unk : Option Bool) (c : Ctx) : Strict (fieldLoop o fs unk c) := by
  exact ⟨rfl, fun b f hf => (strict_fieldStep H _ _ _ _ _ hf).bind fun _ => .ret _, fun e => ⟨_, rfl, rfl⟩, fun _ => trivial⟩

theorem strict_finishAll (c : Ctx) (st : LoopSt) : ∀ (fs : List FieldDecl) (i : Nat), Strict (finishAll o c st i fs) := by
  intro fs
  induction fs with
  | nil => intro i; exact .ret _
  | cons d ds ih => intro i; exact (Strict.call (o := .pos) _ trivial).bind fun _ => (Strict.push _ _ _).bind fun _ => (H.finish _ _ _).bind fun _ => (ih _).bind fun _ => .ret _

theorem strict_structBody (fs : List FieldDecl) (c : Ctx) : Strict (structBody o fs c) :=
  (strict_fieldLoop H _ _ _).bind fun _ => strict_finishAll H _ _ _ _

theorem strict_defaultBody (t : Ty) (c : Ctx) : Strict (defaultBody o t c) := (strict_structBody H _ _).bind fun _ => .ret _

omit H in
theorem strict_construct (b : Body) (c : Ctx) (vs : List V) : Strict (construct b c vs) := by
  unfold construct; split
  · exact .ret _
  · exact .fail _ _

theorem strict_macroBody (b : Body) (c : Ctx) : Strict (macroBody o b c) := by
  unfold macroBody
  split
  · exact (strict_fieldLoop H _ _ _).bind fun _ => (strict_finishAll H _ _ _ _).bind fun _ => strict_construct _ _ _
  · exact (Strict.call (o := .pos) _ trivial).bind fun _ => (Strict.push _ _ _).bind fun _ => (H.body _ _).bind fun _ =>
      (strict_finishAll H _ _ _ _).bind fun _ => strict_construct _ _ _
  · exact (strict_fieldLoop H _ _ _).bind fun _ => (strict_finishAll H _ _ _ _).bind fun _ => (Strict.call (o := .pos) _ trivial).bind fun _ =>
      (Strict.push _ _ _).bind fun _ => (H.finish _ _ _).bind fun _ => strict_construct _ _ _

theorem strict_bodyStep (env : Env) (t : Ty) (c : Ctx) : Strict (bodyStep env o t c) := by
  unfold bodyStep
  split
  · exact H.body _ _
  · exact (strict_structBody H _ _).bind fun _ => .ret _
  · exact (strict_fieldLoop H _ _ _).bind fun _ => H.finish _ _ _
  · split
    · exact (strict_macroBody H _ _).bind fun _ => .ret _
    · exact strict_defaultBody H _ _
  · exact strict_defaultBody H _ _

theorem strict_viaStruct (t : Ty) (c : Ctx) (f : Field) : Strict (viaStruct o t c f) := (Strict.lift _ _).bind fun _ => H.body _ _

theorem strict_enumElement (vs : List (UInt64 × Body)) (ca : Option Body) (c : Ctx) (f : Field) : Strict (enumElement o vs ca c f) := by
  refine (Strict.lift _ _).bind fun d => ?_
  split
  · exact (strict_macroBody H _ _).bind fun _ => .ret _
  · split
    · exact (strict_macroBody H _ _).bind fun _ => .ret _
    · exact .fail _ _

theorem strict_elementStep (env : Env) (t : Ty) (c : Ctx) (f : Field) : Strict (elementStep env o t c f) := by
  have hv := strict_viaStruct H t c f
  cases t with
  | prim _ => exact (H.field _ _ _ _).bind fun _ => H.finish _ _ _
  | unknownField _ => exact (H.field _ _ _ _).bind fun _ => H.finish _ _ _
  | boxed t => exact H.element _ _ _
  | small n e | large n e =>
    simp only [elementStep]; split
    · exact (Strict.arrConv _ _ _).bind fun _ => .ret _
    · exact hv
  | vec e =>
    simp only [elementStep]; split
    · exact (Strict.vecConv _ _).bind fun _ => .ret _
    · exact hv
  | named i =>
    simp only [elementStep]
    split
    · split
      · exact (Strict.push _ _ _).bind fun _ => (H.element _ _ _).bind fun _ => (strict_construct _ _ _).bind fun _ => .ret _
      · exact hv
    · exact strict_enumElement H _ _ _ _
  | _ => exact hv

theorem strict_fieldMeth (t : Ty) (a : Acc) (c : Ctx) (f : Field) : Strict (fieldMeth o t a c f) := by
  have hel : ∀ (E : Ty) (g : V → Acc), Strict (.bind (o.element E c f) fun w => .ret (g w)) := fun E g => (H.element _ _ _).bind fun _ => .ret _
  have hco : ∀ (E : Ty) (g : V → Acc), Strict (.bind (c.collect 1) fun _ => .bind (o.element E c f) fun w => .ret (g w)) := fun E g =>
    (Strict.collect _ _).bind fun _ => hel E g
  cases t with
  | prim p =>
    simp only [fieldMeth]; split
    · exact .fail _ _
    · exact (Strict.conv _ _ _).bind fun _ => .ret _
  | boxed t => exact H.field _ _ _ _
  | small n e =>
    simp only [fieldMeth]; split
    · split
      · exact Strict.discard _ _ _
      · exact (Strict.arrConv _ _ _).bind fun _ => .ret _
    · split
      · exact .fail _ _
      · split
        · exact .fail _ _
        · exact hel _ _
  | large n e =>
    simp only [fieldMeth]; split
    · refine (Strict.arrConv _ _ _).bind fun _ => ?_
      split
      · exact .fail _ _
      · exact .ret _
    · split
      · exact .fail _ _
      · exact hel _ _
  | vec e =>
    simp only [fieldMeth]; split
    · split
      · exact Strict.discard _ _ _
      · exact (Strict.vecConv _ _).bind fun _ => .ret _
    · exact hco _ _
  | coll k e => exact hco _ _
  | map k v => exact hco _ _
  | unknownFields zc => exact hco _ _
  | unknownField zc =>
    simp only [fieldMeth]; split
    · exact .fail _ _
    · split
      · exact .ret _
      · exact hel _ _
      · exact (H.body _ _).bind fun _ => .ret _
      · exact (H.body _ _).bind fun _ => .ret _
  | tuple _ | named _ | option _ =>
    simp only [fieldMeth]; split
    · exact .fail _ _
    · exact hel _ _

theorem strict_finishMeth (t : Ty) (a : Acc) (c : Ctx) : Strict (finishMeth o t a c) := by
  unfold finishMeth
  repeat' split
  all_goals first
    | exact .ret _
    | exact .fail _ _
    | exact H.finish _ _ _
end

theorem ops_strict (env : Env) : ∀ n, StrictOps (ops env n)
  | 0 => ⟨fun _ _ => .fail _ _, fun _ _ _ _ => .fail _ _, fun _ _ _ => .fail _ _, fun _ _ _ => .fail _ _⟩
  | n + 1 => ⟨strict_bodyStep (ops_strict env n) env, strict_fieldMeth (ops_strict env n), strict_elementStep (ops_strict env n) env, strict_finishMeth (ops_strict env n)⟩

theorem deserialize_strict (env : Env) (t : Ty) (cfg : Config) : Strict (deserialize env t cfg) := (ops_strict env _).body _ _

end Fourleaf
