import Verif.TreeErr

/-! # More stack does not change the outcome on trees -/

namespace Fourleaf
open Spec

/-- The same outcome, unless the first runs out of stack. -/
def SLeq {α : Type} (m m' : PM α) : Prop := (∃ c, m = .fail .stackOverflow c) ∨ m = m'

namespace SLeq
variable {α β : Type}
theorem refl (m : PM α) : SLeq m m := .inr rfl
theorem so {m : PM α} {c : Stats} : SLeq (.fail .stackOverflow c) m := .inl ⟨_, rfl⟩
theorem bind {m m' : PM α} {f f' : α → PM β} (h : SLeq m m') (hf : ∀ a, SLeq (f a) (f' a)) : SLeq (PM.bind m f) (PM.bind m' f') := by
  rcases h with ⟨c, rfl⟩ | rfl
  · exact .so
  · rcases PM.cases m with ⟨a, c, rfl⟩ | ⟨k, c, rfl⟩
    · rcases hf a with ⟨c', h⟩ | h
      · exact .inl ⟨_, PM.bind_retf h⟩
      · right
        rcases PM.cases (f a) with ⟨b, c2, h2⟩ | ⟨k, c2, h2⟩
        · rw [PM.bind_retc h2, PM.bind_retc (h ▸ h2)]
        · rw [PM.bind_retf h2, PM.bind_retf (h ▸ h2)]
    · exact .refl _
theorem bindr {m : PM α} {f f' : α → PM β} (hf : ∀ a, SLeq (f a) (f' a)) : SLeq (PM.bind m f) (PM.bind m f') := bind (.refl m) hf
theorem bindl {m m' : PM α} {f : α → PM β} (h : SLeq m m') : SLeq (PM.bind m f) (PM.bind m' f) := bind h fun _ => .refl _
theorem trans {a b c : PM α} (h : SLeq a b) (h' : SLeq b c) : SLeq a c := by
  rcases h with h | rfl
  · exact .inl h
  · exact h'
end SLeq

structure PLe (o o' : POps) : Prop where
  body : ∀ t d l, SLeq (o.body t d l) (o'.body t d l)
  field : ∀ t a d g v, SLeq (o.field t a d g v) (o'.field t a d g v)
  element : ∀ t d g v, SLeq (o.element t d g v) (o'.element t d g v)
  finish : ∀ t a d, SLeq (o.finish t a d) (o'.finish t a d)

section
variable {cfg : Config} {o o' : POps} (H : PLe o o')
include H

theorem mono_fieldStep (fs : List FieldDecl) (unk : Option Bool) (d : Nat) (st : LoopSt) (tag : Byte) (v : Val) :
    SLeq (pFieldStep cfg o fs unk d st tag v) (pFieldStep cfg o' fs unk d st tag v) := by
  unfold pFieldStep
  split
  · split
    · exact .refl _
    · exact .bindr fun _ => .bindl (H.field ..)
  · split
    · exact .bindr fun _ => .bindl (H.field ..)
    · exact .refl _

theorem mono_loop (fs : List FieldDecl) (unk : Option Bool) (d : Nat) : ∀ (l : Fields) (st : LoopSt),
    SLeq (pLoop cfg o fs unk d st l) (pLoop cfg o' fs unk d st l)
  | [], _ => .refl _
  | (_, _) :: l, _ => .bind (mono_fieldStep H ..) fun _ => mono_loop fs unk d l _

theorem mono_finishAll (d : Nat) (st : LoopSt) : ∀ (fs : List FieldDecl) (i : Nat), SLeq (pFinishAll cfg o d st i fs) (pFinishAll cfg o' d st i fs)
  | [], _ => .refl _
  | _ :: xs, i => .bindr fun _ => .bind (H.finish ..) fun _ => .bindl (mono_finishAll d st xs (i + 1))

theorem mono_struct (fs : List FieldDecl) (d : Nat) (l : Fields) : SLeq (pStruct cfg o fs d l) (pStruct cfg o' fs d l) :=
  .bind (mono_loop H ..) fun _ => mono_finishAll H ..

theorem mono_default (t : Ty) (d : Nat) (l : Fields) : SLeq (pDefault cfg o t d l) (pDefault cfg o' t d l) := .bindl (mono_struct H ..)

theorem mono_macro (b : Body) (d : Nat) (l : Fields) : SLeq (pMacro cfg o b d l) (pMacro cfg o' b d l) := by
  unfold pMacro
  split
  · exact .bind (mono_loop H ..) fun _ => .bindl (mono_finishAll H ..)
  · exact .bindr fun _ => .bind (H.body ..) fun _ => .bindl (mono_finishAll H ..)
  · exact .bind (mono_loop H ..) fun _ => .bind (mono_finishAll H ..) fun _ => .bindr fun _ => .bindl (H.finish ..)

theorem mono_body (env : Env) (t : Ty) (d : Nat) (l : Fields) : SLeq (pBody env cfg o t d l) (pBody env cfg o' t d l) := by
  unfold pBody
  split
  · exact H.body ..
  · exact .bindl (mono_struct H ..)
  · exact .bind (mono_loop H ..) fun _ => H.finish ..
  · split
    · exact .bindl (mono_macro H ..)
    · exact mono_default H ..
  · exact mono_default H ..

theorem mono_viaStruct (t : Ty) (d : Nat) (v : Val) : SLeq (pViaStruct o t d v) (pViaStruct o' t d v) := by
  unfold pViaStruct
  split
  · exact H.body ..
  · exact .bindr fun _ => H.body ..

theorem mono_enum (vs : List (UInt64 × Body)) (ca : Option Body) (d : Nat) (v : Val) : SLeq (pEnum cfg o vs ca d v) (pEnum cfg o' vs ca d v) := by
  unfold pEnum
  split
  · split
    · exact .bindl (mono_macro H ..)
    · split
      · exact .bindl (mono_macro H ..)
      · exact .refl _
  · exact .refl _

theorem mono_element (env : Env) (t : Ty) (d : Nat) (g : Byte) (v : Val) : SLeq (pElement env cfg o t d g v) (pElement env cfg o' t d g v) := by
  have hdef : ∀ t, SLeq (PM.bind (o.field t .init d g v) fun a => o.finish t a d) (PM.bind (o'.field t .init d g v) fun a => o'.finish t a d) :=
    fun t => .bind (H.field ..) fun _ => H.finish ..
  unfold pElement
  split
  · exact hdef _
  · exact hdef _
  · exact H.element ..
  · split
    · exact .refl _
    · exact mono_viaStruct H ..
  · split
    · exact .refl _
    · exact mono_viaStruct H ..
  · split
    · exact .refl _
    · exact mono_viaStruct H ..
  · exact mono_viaStruct H ..
  · exact mono_viaStruct H ..
  · exact mono_viaStruct H ..
  · exact mono_viaStruct H ..
  · exact mono_viaStruct H ..
  · split
    · split
      · exact .bindr fun _ => .bindl (H.element ..)
      · exact mono_viaStruct H ..
    · exact mono_enum H ..

theorem mono_field (t : Ty) (a : Acc) (d : Nat) (g : Byte) (v : Val) : SLeq (pField o t a d g v) (pField o' t a d g v) := by
  unfold pField
  repeat' split
  all_goals first
    | exact .refl _
    | exact H.field ..
    | exact .bindl (H.element ..)
    | exact .bindr fun _ => .bindl (H.element ..)
    | exact .bindl (H.body ..)

theorem mono_finish (t : Ty) (a : Acc) (d : Nat) : SLeq (pFinish o t a d) (pFinish o' t a d) := by
  cases t with
  | boxed t => exact H.finish ..
  | _ => exact .refl _
end

theorem pops_mono_succ (env : Env) (cfg : Config) : ∀ n, PLe (pops env cfg n) (pops env cfg (n + 1))
  | 0 => ⟨fun _ _ _ => .so, fun _ _ _ _ _ => .so, fun _ _ _ _ => .so, fun _ _ _ => .so⟩
  | n + 1 =>
    have ih := pops_mono_succ env cfg n
    ⟨mono_body ih env, mono_field ih, mono_element ih env, mono_finish ih⟩

theorem pops_mono (env : Env) (cfg : Config) {n m : Nat} (h : n ≤ m) : PLe (pops env cfg n) (pops env cfg m) := by
  induction h with
  | refl => exact ⟨fun _ _ _ => .refl _, fun _ _ _ _ _ => .refl _, fun _ _ _ _ => .refl _, fun _ _ _ => .refl _⟩
  | step _ ih =>
    have h' := pops_mono_succ env cfg ‹_›
    exact ⟨fun t d l => (ih.body t d l).trans (h'.body t d l), fun t a d g v => (ih.field t a d g v).trans (h'.field t a d g v),
      fun t d g v => (ih.element t d g v).trans (h'.element t d g v), fun t a d => (ih.finish t a d).trans (h'.finish t a d)⟩

/-- What reading a tree gives does not depend on the stack, if it is large enough. -/
theorem deTree_stack (env : Env) (t : Ty) (cfg : Config) (l : Fields) {n : Nat} (h : stackNeed env t cfg ≤ n) : (pops env cfg n).body t 0 l = deTree env t cfg l := by
  rcases (pops_mono env cfg h).body t 0 l with ⟨c, h1⟩ | h1
  · exact absurd h1 (deTree_noso env t cfg l c)
  · exact h1.symm

/-- With any amount of stack, an outcome other than a stack overflow is the right one. -/
theorem deTree_any (env : Env) (t : Ty) (cfg : Config) (l : Fields) (n : Nat) : SLeq ((pops env cfg n).body t 0 l) (deTree env t cfg l) := by
  rcases Nat.le_total n (stackNeed env t cfg) with h | h
  · exact (pops_mono env cfg h).body t 0 l
  · rw [deTree_stack env t cfg l h]; exact .refl _

end Fourleaf
