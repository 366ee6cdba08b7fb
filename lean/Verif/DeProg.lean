import Verif.DeSim
import Verif.RelProg
import Verif.Lead

/-! # Deserialisers as client programs: which calls they make, and that they stop at the first error -/

namespace Fourleaf
open Spec

/-- The error reports the error `e` of the stream. -/
def DErr.of (e : Err) (d : DErr) : Prop := d.kind = .stream e

/-- The error reports the end of the input in an element. -/
def DErr.ended (e : DErr) : Prop := e.kind = .stream (.io .unexpectedEof)

/-- Neither a bare `read` nor `clear_eof`. -/
def Op.plain {β : Type} : Op β → Prop
  | .read _ | .clearEof => False
  | _ => True

theorem Prog.OpsAll.mono {ε U : Type} {P Q : {β : Type} → Op β → Prop} (h : ∀ {β : Type} (o : Op β), P o → Q o) : ∀ {α : Type} {p : Prog ε U α}, p.OpsAll P → p.OpsAll Q := by
  intro α p
  induction p with
  | ret | fail | getU | setU => intro _; trivial
  | op o | call o => intro hp; exact h o hp
  | bind p f ih ihf => intro hp; exact ⟨ih hp.1, fun a => ihf a (hp.2 a)⟩
  | attempt p ih => intro hp; exact ih hp
  | loop f i b e d ihb ihe ihd => intro hp; exact ⟨fun x y => ihb x y (hp.1 x y), fun x => ihe x (hp.2.1 x), fun x => ihd x (hp.2.2 x)⟩

/-- Well-behaved: makes no bare `read` calls, does not call `clear_eof`, stops at the end of the input, and reports this and failures of the reader as such. -/
def Nice {α : Type} (p : P α) : Prop := p.OpsAll Op.plain ∧ p.Ends DErr.ended ∧ p.Reports DErr.of

namespace Nice
theorem ret {α : Type} (a : α) : Nice (.ret a) := ⟨trivial, trivial, trivial⟩
theorem failp {α : Type} (e : DErr) : Nice (.fail e : P α) := ⟨trivial, trivial, trivial⟩
theorem fail {α : Type} (c : Ctx) (k : Kind) : Nice (c.fail k : P α) := ⟨trivial, trivial, trivial⟩
theorem bind {α β : Type} {p : P α} {f : α → P β} (h : Nice p) (hf : ∀ a, Nice (f a)) : Nice (.bind p f) :=
  ⟨⟨h.1, fun a => (hf a).1⟩, ⟨h.2.1, fun a => (hf a).2.1⟩, .inl ⟨h.2.2, fun a => (hf a).2.2⟩⟩
theorem call {β : Type} (c : Ctx) {o : Op β} (h : o.plain) : Nice (c.call o) := ⟨h, .inr rfl, fun _ => rfl⟩
theorem lift {α : Type} (c : Ctx) (x : Except Err α) : Nice (c.lift x) := by cases x <;> exact ⟨trivial, trivial, trivial⟩
theorem push (c : Ctx) (n : String) (p : Nat) : Nice (c.push n p) := by
  unfold Ctx.push; split
  · exact fail _ _
  · exact ret _
theorem unknownField (c : Ctx) (f : Field) : Nice (c.unknownField f) := by
  unfold Ctx.unknownField; split
  · exact ret _
  · exact fail _ _
theorem setU (u : Stats) : Nice (.setU u : P Unit) := ⟨trivial, trivial, trivial⟩
theorem getU : Nice (.getU : P Stats) := ⟨trivial, trivial, trivial⟩
theorem collect (c : Ctx) (n : Nat) : Nice (c.collect n) :=
  getU.bind fun u => by
    split
    · exact fail _ _
    · split
      · exact fail _ _
      · exact setU _
theorem blob (c : Ctx) (n : Nat) : Nice (c.blob n) :=
  getU.bind fun u => by
    split
    · exact fail _ _
    · split
      · exact fail _ _
      · exact setU _
theorem skip (c : Ctx) (f : Field) : Nice (c.skip f) := by
  unfold Ctx.skip; split
  · exact call _ trivial
  · exact call _ trivial
  · exact ret _
  · exact ret _
theorem extSlice (c : Ctx) (f : Field) : Nice (extSlice c f) := (lift _ _).bind fun _ => call _ trivial
theorem ownedBlob (c : Ctx) (f : Field) : Nice (ownedBlob c f) := (lift _ _).bind fun _ => (blob _ _).bind fun _ => call _ trivial
theorem vecConv (c : Ctx) (f : Field) : Nice (vecConv c f) := (ownedBlob _ _).bind fun _ => ret _
theorem arrConv (n : Nat) (c : Ctx) (f : Field) : Nice (arrConv n c f) :=
  (lift _ _).bind fun _ => (call (o := .remaining) _ trivial).bind fun _ => by
    split
    · exact fail _ _
    · refine (call (o := .readFully n) _ trivial).bind fun _ => ?_
      split
      · exact fail _ _
      · exact ret _
/-- These pull no element. -/
theorem arrConv_ends (D : DErr → Prop) (n : Nat) (c : Ctx) (f : Field) : (Fourleaf.arrConv n c f).Ends D := by
  unfold Fourleaf.arrConv
  refine ⟨?_, fun _ => ⟨.inl trivial, fun _ => ?_⟩⟩
  · unfold Ctx.lift; split <;> trivial
  · dsimp only
    split
    · trivial
    · refine ⟨.inl trivial, fun _ => ?_⟩
      dsimp only
      split <;> trivial
theorem vecConv_ends (D : DErr → Prop) (c : Ctx) (f : Field) : (Fourleaf.vecConv c f).Ends D := by
  unfold Fourleaf.vecConv Fourleaf.ownedBlob
  refine ⟨⟨?_, fun _ => ⟨⟨trivial, fun _ => ?_⟩, fun _ => .inl trivial⟩⟩, fun _ => trivial⟩
  · unfold Ctx.lift; split <;> trivial
  · dsimp only
    split
    · trivial
    · split <;> trivial
theorem discard {α β : Type} {p : P β} (h : Nice p) (he : p.Ends fun _ => False) (c : Ctx) (k : Kind) : Nice (discard p c k : P α) :=
  by
  refine ⟨⟨h.1, fun _ => trivial⟩, ⟨he, fun _ => trivial⟩, .inr ⟨fun st hi => ?_, _, fun _ => rfl⟩⟩
  have hS := p.run_safe st hi
  simp only [Prog.run]
  cases hr : p.run st with
  | ok a st' => exact ⟨_, _, rfl⟩
  | err e st' =>
    cases e with
    | client e => exact ⟨_, _, rfl⟩
    | abort e => exact (hS.normal e st' hr).elim
theorem conv (p : Prim) (c : Ctx) (f : Field) : Nice (p.conv c f) := by
  cases p with
  | phantom | bool | int k => exact (lift _ _).bind fun _ => ret _
  | char =>
    refine (lift _ _).bind fun a => ?_
    split
    · exact ret _
    · exact fail _ _
  | string =>
    refine (ownedBlob _ _).bind fun a => ?_
    split
    · exact ret _
    · exact fail _ _
  | strRef =>
    refine (extSlice _ _).bind fun a => ?_
    split
    · exact ret _
    · exact fail _ _
  | bytesRef => exact (extSlice _ _).bind fun _ => ret _
end Nice

structure NiceOps (o : Ops) : Prop where
  body : ∀ t c, Nice (o.body t c)
  field : ∀ t a c f, Nice (o.field t a c f)
  element : ∀ t c f, Nice (o.element t c f)
  finish : ∀ t a c, Nice (o.finish t a c)

section
variable {o : Ops} (H : NiceOps o)
include H

theorem nice_fieldStep (fs : List FieldDecl) (unk : Option Bool) (c : Ctx) (st : LoopSt) (f : Field) : Nice (fieldStep o fs unk c st f) := by
  unfold fieldStep
  split
  · split
    · exact .ret _
    · exact (Nice.push _ _ _).bind fun _ => (H.field _ _ _ _).bind fun _ => .ret _
  · split
    · exact (Nice.push _ _ _).bind fun _ => (H.field _ _ _ _).bind fun _ => .ret _
    · exact (Nice.unknownField _ _).bind fun _ => (Nice.skip _ _).bind fun _ => .ret _

theorem nice_fieldLoop (fs : List FieldDecl) (unk : Option Bool) (c : Ctx) : Nice (fieldLoop o fs unk c) := by
  have hb : ∀ (st : LoopSt) (e : Element), Nice (match e with
      | .field f => .bind (fieldStep o fs unk c st f) fun st' => .ret (.inl st')
      | _ => .ret (.inl st) : P (LoopSt ⊕ LoopSt)) := by
    intro st e
    cases e with
    | field f => exact (nice_fieldStep H _ _ _ _ _).bind fun _ => .ret _
    | _ => exact .ret _
  exact ⟨⟨fun b e => (hb b e).1, fun _ => trivial, fun _ => trivial⟩, ⟨fun b e => (hb b e).2.1, ⟨_, rfl, rfl⟩, fun _ => trivial, fun _ => trivial⟩,
    ⟨fun b e => (hb b e).2.2, fun e => ⟨_, rfl, rfl⟩, fun _ => trivial⟩⟩

theorem nice_finishAll (c : Ctx) (st : LoopSt) : ∀ (fs : List FieldDecl) (i : Nat), Nice (finishAll o c st i fs) := by
  intro fs
  induction fs with
  | nil => intro i; exact .ret _
  | cons d ds ih => intro i; exact (Nice.call (o := .pos) _ trivial).bind fun _ => (Nice.push _ _ _).bind fun _ => (H.finish _ _ _).bind fun _ => (ih _).bind fun _ => .ret _

theorem nice_structBody (fs : List FieldDecl) (c : Ctx) : Nice (structBody o fs c) :=
  (nice_fieldLoop H _ _ _).bind fun _ => nice_finishAll H _ _ _ _

theorem nice_defaultBody (t : Ty) (c : Ctx) : Nice (defaultBody o t c) := (nice_structBody H _ _).bind fun _ => .ret _

omit H in
theorem nice_construct (b : Body) (c : Ctx) (vs : List V) : Nice (construct b c vs) := by
  unfold construct; split
  · exact .ret _
  · exact .fail _ _

theorem nice_macroBody (b : Body) (c : Ctx) : Nice (macroBody o b c) := by
  unfold macroBody
  split
  · exact (nice_fieldLoop H _ _ _).bind fun _ => (nice_finishAll H _ _ _ _).bind fun _ => nice_construct _ _ _
  · exact (Nice.call (o := .pos) _ trivial).bind fun _ => (Nice.push _ _ _).bind fun _ => (H.body _ _).bind fun _ =>
      (nice_finishAll H _ _ _ _).bind fun _ => nice_construct _ _ _
  · exact (nice_fieldLoop H _ _ _).bind fun _ => (nice_finishAll H _ _ _ _).bind fun _ => (Nice.call (o := .pos) _ trivial).bind fun _ =>
      (Nice.push _ _ _).bind fun _ => (H.finish _ _ _).bind fun _ => nice_construct _ _ _

theorem nice_bodyStep (env : Env) (t : Ty) (c : Ctx) : Nice (bodyStep env o t c) := by
  unfold bodyStep
  split
  · exact H.body _ _
  · exact (nice_structBody H _ _).bind fun _ => .ret _
  · exact (nice_fieldLoop H _ _ _).bind fun _ => H.finish _ _ _
  · split
    · exact (nice_macroBody H _ _).bind fun _ => .ret _
    · exact nice_defaultBody H _ _
  · exact nice_defaultBody H _ _

theorem nice_viaStruct (t : Ty) (c : Ctx) (f : Field) : Nice (viaStruct o t c f) := (Nice.lift _ _).bind fun _ => H.body _ _

theorem nice_enumElement (vs : List (UInt64 × Body)) (ca : Option Body) (c : Ctx) (f : Field) : Nice (enumElement o vs ca c f) := by
  refine (Nice.lift _ _).bind fun d => ?_
  split
  · exact (nice_macroBody H _ _).bind fun _ => .ret _
  · split
    · exact (nice_macroBody H _ _).bind fun _ => .ret _
    · exact .fail _ _

theorem nice_elementStep (env : Env) (t : Ty) (c : Ctx) (f : Field) : Nice (elementStep env o t c f) := by
  have hv := nice_viaStruct H t c f
  cases t with
  | prim _ => exact (H.field _ _ _ _).bind fun _ => H.finish _ _ _
  | unknownField _ => exact (H.field _ _ _ _).bind fun _ => H.finish _ _ _
  | boxed t => exact H.element _ _ _
  | small n e | large n e =>
    simp only [elementStep]; split
    · exact (Nice.arrConv _ _ _).bind fun _ => .ret _
    · exact hv
  | vec e =>
    simp only [elementStep]; split
    · exact (Nice.vecConv _ _).bind fun _ => .ret _
    · exact hv
  | named i =>
    simp only [elementStep]
    split
    · split
      · exact (Nice.push _ _ _).bind fun _ => (H.element _ _ _).bind fun _ => (nice_construct _ _ _).bind fun _ => .ret _
      · exact hv
    · exact nice_enumElement H _ _ _ _
  | _ => exact hv

theorem nice_fieldMeth (t : Ty) (a : Acc) (c : Ctx) (f : Field) : Nice (fieldMeth o t a c f) := by
  have hel : ∀ (E : Ty) (g : V → Acc), Nice (.bind (o.element E c f) fun w => .ret (g w)) := fun E g => (H.element _ _ _).bind fun _ => .ret _
  have hco : ∀ (E : Ty) (g : V → Acc), Nice (.bind (c.collect 1) fun _ => .bind (o.element E c f) fun w => .ret (g w)) := fun E g =>
    (Nice.collect _ _).bind fun _ => hel E g
  cases t with
  | prim p =>
    simp only [fieldMeth]; split
    · exact .fail _ _
    · exact (Nice.conv _ _ _).bind fun _ => .ret _
  | boxed t => exact H.field _ _ _ _
  | small n e =>
    simp only [fieldMeth]; split
    · split
      · exact (Nice.arrConv _ _ _).discard (Nice.arrConv_ends _ _ _ _) _ _
      · exact (Nice.arrConv _ _ _).bind fun _ => .ret _
    · split
      · exact .fail _ _
      · split
        · exact .fail _ _
        · exact hel _ _
  | large n e =>
    simp only [fieldMeth]; split
    · refine (Nice.arrConv _ _ _).bind fun _ => ?_
      split
      · exact .fail _ _
      · exact .ret _
    · split
      · exact .fail _ _
      · exact hel _ _
  | vec e =>
    simp only [fieldMeth]; split
    · split
      · exact (Nice.vecConv _ _).discard (Nice.vecConv_ends _ _ _) _ _
      · exact (Nice.vecConv _ _).bind fun _ => .ret _
    · exact hco _ _
  | coll k e => exact hco _ _
  | map k v => exact hco _ _
  | unknownFields zc => exact hco _ _
  | unknownField zc =>
    simp only [fieldMeth]; split
    · exact .fail _ _
    · split
      · exact .ret _
      · exact hel _ _
      · exact (H.body _ _).bind fun _ => .ret _
      · exact (H.body _ _).bind fun _ => .ret _
  | tuple _ | named _ | option _ =>
    simp only [fieldMeth]; split
    · exact .fail _ _
    · exact hel _ _

theorem nice_finishMeth (t : Ty) (a : Acc) (c : Ctx) : Nice (finishMeth o t a c) := by
  unfold finishMeth
  repeat' split
  all_goals first
    | exact .ret _
    | exact .fail _ _
    | exact H.finish _ _ _
end

theorem ops_nice (env : Env) : ∀ n, NiceOps (ops env n)
  | 0 => ⟨fun _ _ => .fail _ _, fun _ _ _ _ => .fail _ _, fun _ _ _ => .fail _ _, fun _ _ _ => .fail _ _⟩
  | n + 1 => ⟨nice_bodyStep (ops_nice env n) env, nice_fieldMeth (ops_nice env n), nice_elementStep (ops_nice env n) env, nice_finishMeth (ops_nice env n)⟩

theorem deserialize_plain (env : Env) (t : Ty) (cfg : Config) : (deserialize env t cfg).OpsAll Op.plain := ((ops_nice env _).body _ _).1

theorem deserialize_nice (env : Env) (t : Ty) (cfg : Config) :
    (deserialize env t cfg).OpsAll Op.whole ∧ (deserialize env t cfg).Ends DErr.ended ∧ (deserialize env t cfg).Reports DErr.of :=
  ⟨(deserialize_plain env t cfg).mono fun o h => by cases o <;> trivial, ((ops_nice env _).body _ _).2⟩

end Fourleaf
