import Verif.DeErr

/-! # The deserialiser on trees does not run out of stack -/

namespace Fourleaf
open Spec

/-- With `B` the stack sufficed. -/
def NoSO {α : Type} (B : Prop) (m : PM α) : Prop := B → ∀ c, m ≠ .fail .stackOverflow c

namespace NoSO
variable {α β : Type} {B : Prop}
theorem ret (a : α) (c : Stats := .zero) : NoSO B (.ret a c) := fun _ _ => PM.ret_ne_fail
theorem fail {k : Kind} (h : k ≠ .stackOverflow) : NoSO B (.fail k : PM α) := fun _ _ h' => h (PM.fail_inj h').1
theorem bind {m : PM α} {f : α → PM β} (h : NoSO B m) (hf : ∀ a, NoSO B (f a)) : NoSO B (PM.bind m f) := by
  intro b d h'
  rcases PM.bind_eq_fail h' with h1 | ⟨a, c1, c2, -, h2, -⟩
  · exact h b d h1
  · exact hf a b c2 h2
theorem mono {m : PM α} {B' : Prop} (h : NoSO B' m) (hB : B → B') : NoSO B m := fun b => h (hB b)
theorem lift (x : Except Err α) : NoSO B (PM.lift x) := by
  cases x
  · exact fail (by simp)
  · exact ret _
theorem push {cfg : Config} {d : Nat} {f : Nat → PM α} (h : d < cfg.recursionLimit → NoSO B (f (d + 1))) : NoSO B (PM.bind (pPush cfg d) f) := by
  unfold pPush
  split
  · exact fail (by simp)
  · rw [PM.bind_ret]; exact h (by omega)
theorem bytes (v : Val) (c : Nat → Stats) : NoSO B (v.bytes c) := by
  unfold Val.bytes
  split
  · exact ret _ _
  · exact (lift _).bind fun _ => ret _
theorem readArr (n : Nat) (v : Val) : NoSO B (readArr n v) := (bytes _ _).bind fun d => by
  split
  · exact fail (by simp)
  · exact ret _
theorem readVec (v : Val) : NoSO B (readVec v) := (bytes _ _).bind fun _ => ret _
theorem read (p : Prim) (v : Val) : NoSO B (p.read v) := by
  cases p with
  | phantom | bool | int k => exact (lift _).bind fun _ => ret _
  | char =>
    refine (lift _).bind fun a => ?_
    split
    · exact ret _
    · exact fail (by simp)
  | string | strRef =>
    refine (bytes _ _).bind fun a => ?_
    split
    · exact ret _
    · exact fail (by simp)
  | bytesRef => exact (bytes _ _).bind fun _ => ret _
end NoSO

structure NoSOOps (S n : Nat) (cfg : Config) (o : POps) : Prop where
  body : ∀ t d l, NoSO (t.size ≤ S ∧ Room S n cfg.recursionLimit d t.bodW) (o.body t d l)
  field : ∀ t a d g v, NoSO (t.size ≤ S ∧ Room S n cfg.recursionLimit d t.fldW) (o.field t a d g v)
  element : ∀ t d g v, NoSO (t.size ≤ S ∧ Room S n cfg.recursionLimit d t.eleW) (o.element t d g v)
  finish : ∀ t a d, NoSO (t.size ≤ S ∧ Room S n cfg.recursionLimit d t.size) (o.finish t a d)

section
variable {S n : Nat} {cfg : Config} {o : POps} (H : NoSOOps S n cfg o)
include H

theorem noso_fieldStep {d w : Nat} (hw : 1 ≤ w) (fs : List FieldDecl) (unk : Option Bool) (st : LoopSt) (tag : Byte) (v : Val) :
    NoSO (1 ≤ S ∧ Small S fs ∧ Room S (n + 1) cfg.recursionLimit d w) (pFieldStep cfg o fs unk d st tag v) := by
  unfold pFieldStep
  split
  · split
    · exact .ret _
    · rename_i x hx
      refine .push fun hlt => ((H.field _ _ _ _ _).mono fun b => ?_).bind fun _ => .ret _
      have hsz := b.2.1 x (List.mem_of_getElem? hx)
      exact ⟨hsz, b.2.2.deeper hlt (deep_le hsz).1 hw⟩
  · split
    · refine .push fun hlt => ((H.field _ _ _ _ _).mono fun b => ?_).bind fun _ => .ret _
      have hsz : (Ty.unknownFields true).size ≤ S := b.1
      exact ⟨hsz, b.2.2.deeper hlt (deep_le hsz).1 hw⟩
    · split
      · exact .ret _
      · exact .fail (by simp)

theorem noso_loop {d w : Nat} (hw : 1 ≤ w) (fs : List FieldDecl) (unk : Option Bool) : ∀ (l : Fields) (st : LoopSt),
    NoSO (1 ≤ S ∧ Small S fs ∧ Room S (n + 1) cfg.recursionLimit d w) (pLoop cfg o fs unk d st l)
  | [], _ => .ret _
  | (_, _) :: l, _ => (noso_fieldStep H hw fs unk _ _ _).bind fun _ => noso_loop hw fs unk l _

theorem noso_finishAll {d w : Nat} (hw : 1 ≤ w) (st : LoopSt) : ∀ (fs : List FieldDecl) (i : Nat),
    NoSO (1 ≤ S ∧ Small S fs ∧ Room S (n + 1) cfg.recursionLimit d w) (pFinishAll cfg o d st i fs)
  | [], _ => .ret _
  | x :: xs, i => .push fun hlt => ((H.finish _ _ _).mono fun b => by
      have hsz := b.2.1 x (.head _)
      exact ⟨hsz, b.2.2.deeper hlt (deep_le hsz).2.2.2 hw⟩).bind fun _ =>
        ((noso_finishAll hw st xs (i + 1)).mono fun b => ⟨b.1, fun y hy => b.2.1 y (.tail _ hy), b.2.2⟩).bind fun _ => .ret _

theorem noso_struct {d w : Nat} (hw : 1 ≤ w) (fs : List FieldDecl) (l : Fields) :
    NoSO (1 ≤ S ∧ Small S fs ∧ Room S (n + 1) cfg.recursionLimit d w) (pStruct cfg o fs d l) :=
  (noso_loop H hw _ _ _ _).bind fun _ => noso_finishAll H hw _ _ _

theorem noso_default {d w : Nat} (hw : 1 ≤ w) (t : Ty) (l : Fields) :
    NoSO (t.size ≤ S ∧ Room S (n + 1) cfg.recursionLimit d w) (pDefault cfg o t d l) :=
  ((noso_struct H hw _ l).bind fun _ => .ret _).mono fun b => ⟨Nat.le_trans t.size_pos b.1, by
    intro d hd
    simp only [List.mem_singleton] at hd
    subst hd
    exact b.1, b.2⟩

omit H in
theorem noso_construct {B : Prop} (b : Body) (vs : List V) : NoSO B (pConstruct b vs) := by
  unfold pConstruct; split
  · exact .ret _
  · exact .fail (by simp)

theorem noso_macro {d w : Nat} (hw : 1 ≤ w) (b : Body) (l : Fields) :
    NoSO (1 ≤ S ∧ b.Small S ∧ Room S (n + 1) cfg.recursionLimit d w) (pMacro cfg o b d l) := by
  unfold pMacro
  have hL := fun unk => (noso_loop H hw b.fields unk l .init).mono (B := 1 ≤ S ∧ b.Small S ∧ Room S (n + 1) cfg.recursionLimit d w) fun x => ⟨x.1, x.2.1.fields, x.2.2⟩
  have hF := fun st => (noso_finishAll H hw st b.fields 0).mono (B := 1 ≤ S ∧ b.Small S ∧ Room S (n + 1) cfg.recursionLimit d w) fun x => ⟨x.1, x.2.1.fields, x.2.2⟩
  split
  · exact (hL _).bind fun _ => (hF _).bind fun _ => noso_construct _ _
  · rename_i name t ht
    refine .push fun hlt => ((H.body _ _ _).mono fun b => ?_).bind fun _ => (hF _).bind fun _ => noso_construct _ _
    have hsz := b.2.1 t (by simp [Body.types, ht])
    exact ⟨hsz, b.2.2.deeper hlt (deep_le hsz).2.1 hw⟩
  · refine (hL _).bind fun _ => (hF _).bind fun _ => .push fun hlt => ((H.finish _ _ _).mono fun b => ?_).bind fun _ => noso_construct _ _
    have hsz : (Ty.unknownFields true).size ≤ S := b.1
    exact ⟨hsz, b.2.2.deeper hlt (deep_le hsz).2.2.2 hw⟩

theorem noso_body (env : Env) (hS : env.size ≤ S) (t : Ty) (d : Nat) (l : Fields) :
    NoSO (t.size ≤ S ∧ Room S (n + 1) cfg.recursionLimit d t.bodW) (pBody env cfg o t d l) := by
  have hD := noso_default H (d := d) (w := t.bodW) (by simp [Ty.bodW]) t l
  cases t with
  | boxed t => exact (H.body _ _ _).mono fun b => ⟨by have := b.1; simp only [Ty.size] at this; omega, b.2.same (by simp [Ty.bodW, Ty.size])⟩
  | tuple ts =>
    exact ((noso_struct H (w := (Ty.tuple ts).bodW) (by simp [Ty.bodW]) _ _).bind fun _ => .ret _).mono fun b =>
      ⟨Nat.le_trans (Ty.size_pos _) b.1, small_tuple b.1, b.2⟩
  | unknownFields zc =>
    refine NoSO.bind ((noso_loop H (w := (Ty.unknownFields zc).bodW) (by simp [Ty.bodW]) _ _ _ _).mono fun b => ⟨Nat.le_trans (Ty.size_pos _) b.1, nofun, b.2⟩) fun _ => ?_
    exact (H.finish _ _ _).mono fun b => ⟨b.1, b.2.same (by simp [Ty.bodW, Ty.size])⟩
  | named i =>
    simp only [pBody]
    split
    · rename_i b he
      refine ((noso_macro H (w := (Ty.named i).bodW) (by simp [Ty.bodW]) b _).mono fun x => ⟨Nat.le_trans (Ty.size_pos _) x.1, ?_, x.2⟩).bind fun _ => .ret _
      have := env.small hS i
      rw [he] at this
      exact this
    · exact hD
  | _ => exact hD

theorem noso_viaStruct {t : Ty} {d : Nat} (v : Val) {w : Nat} (hw : t.bodW + 1 ≤ w) :
    NoSO (t.size ≤ S ∧ Room S (n + 1) cfg.recursionLimit d w) (pViaStruct o t d v) := by
  unfold pViaStruct
  split
  · exact (H.body _ _ _).mono fun b => ⟨b.1, b.2.same hw⟩
  · exact (NoSO.lift _).bind fun _ => (H.body _ _ _).mono fun b => ⟨b.1, b.2.same hw⟩

theorem noso_enum {vs : List (UInt64 × Body)} {ca : Option Body} (hs : ∀ t ∈ (Decl.enum vs ca).types, t.size ≤ S) {d : Nat} (v : Val) {w : Nat} (hw : 1 ≤ w) :
    NoSO (1 ≤ S ∧ Room S (n + 1) cfg.recursionLimit d w) (pEnum cfg o vs ca d v) := by
  unfold pEnum
  split
  · split
    · rename_i y hx
      refine ((noso_macro H hw _ _).mono fun x => ⟨x.1, fun t ht => hs t ?_, x.2⟩).bind fun _ => .ret _
      exact List.mem_append.2 (.inl (List.mem_flatMap.2 ⟨y, List.mem_of_find?_eq_some hx, ht⟩))
    · split
      · refine ((noso_macro H hw _ _).mono fun x => ⟨x.1, fun t ht => hs t ?_, x.2⟩).bind fun _ => .ret _
        exact List.mem_append.2 (.inr ht)
      · exact .fail (by simp)
  · exact (NoSO.lift _).bind fun _ => .ret _

theorem noso_element (env : Env) (hS : env.size ≤ S) (t : Ty) (d : Nat) (g : Byte) (v : Val) :
    NoSO (t.size ≤ S ∧ Room S (n + 1) cfg.recursionLimit d t.eleW) (pElement env cfg o t d g v) := by
  cases t with
  | prim p => exact ((H.field _ _ _ _ _).mono fun b => ⟨b.1, b.2.same (by simp [Ty.eleW, Ty.fldW])⟩).bind fun _ => (H.finish _ _ _).mono fun b => ⟨b.1, b.2.same (by simp [Ty.eleW, Ty.size])⟩
  | unknownField _ => exact ((H.field _ _ _ _ _).mono fun b => ⟨b.1, b.2.same (by simp [Ty.eleW, Ty.fldW])⟩).bind fun _ => (H.finish _ _ _).mono fun b => ⟨b.1, b.2.same (by simp [Ty.eleW, Ty.size])⟩
  | boxed t => exact (H.element _ _ _ _).mono fun b => ⟨by have := b.1; simp only [Ty.size] at this; omega, b.2.same (by simp [Ty.eleW])⟩
  | small n e | large n e =>
    simp only [pElement]; split
    · exact (NoSO.readArr _ _).bind fun _ => .ret _
    · exact noso_viaStruct H v (by simp [Ty.eleW, Ty.bodW])
  | vec e =>
    simp only [pElement]; split
    · exact (NoSO.readVec _).bind fun _ => .ret _
    · exact noso_viaStruct H v (by simp [Ty.eleW, Ty.bodW])
  | named i =>
    have hT := env.small hS i
    simp only [pElement]
    split
    · rename_i b he
      rw [he] at hT
      split
      · rename_i name t' ht
        refine .push fun hlt => ((H.element _ _ _ _).mono fun x => ?_).bind fun _ => (noso_construct _ _).bind fun _ => .ret _
        have hsz := hT t' (by simp [Decl.types, Body.types, ht])
        exact ⟨hsz, x.2.deeper hlt (deep_le hsz).2.2.1 (by simp [Ty.eleW])⟩
      · exact noso_viaStruct H v (by simp [Ty.eleW, Ty.bodW])
    · rename_i vs ca he
      rw [he] at hT
      exact (noso_enum H hT v (w := (Ty.named i).eleW) (by simp [Ty.eleW])).mono fun b => ⟨Nat.le_trans (Ty.size_pos _) b.1, b.2⟩
  | _ => exact noso_viaStruct H v (by simp [Ty.eleW, Ty.bodW])

theorem noso_field (hS : 3 ≤ S) (t : Ty) (a : Acc) (d : Nat) (g : Byte) (v : Val) :
    NoSO (t.size ≤ S ∧ Room S (n + 1) cfg.recursionLimit d t.fldW) (pField o t a d g v) := by
  have hel : ∀ {w : Nat} (E : Ty) (h : V → Acc), E.eleW + 1 ≤ w → (t.size ≤ S → E.size ≤ S) →
      NoSO (t.size ≤ S ∧ Room S (n + 1) cfg.recursionLimit d w) (PM.bind (o.element E d g v) fun w => .ret (h w)) := fun E g hw hs =>
    ((H.element _ _ _ _).mono fun b => ⟨hs b.1, b.2.same hw⟩).bind fun _ => .ret _
  have hco : ∀ {w : Nat} (E : Ty) (h : V → Acc), E.eleW + 1 ≤ w → (t.size ≤ S → E.size ≤ S) →
      NoSO (t.size ≤ S ∧ Room S (n + 1) cfg.recursionLimit d w) (PM.bind pCollect fun _ => PM.bind (o.element E d g v) fun w => .ret (h w)) := fun E g hw hs =>
    (NoSO.ret _ _).bind fun _ => hel E g hw hs
  have hsz : ∀ e : Ty, (e.size + 1 ≤ S → e.size ≤ S) := fun e => by omega
  cases t with
  | prim p =>
    simp only [pField]; split
    · exact .fail (by simp)
    · exact (NoSO.read _ _).bind fun _ => .ret _
  | boxed t => exact (H.field _ _ _ _ _).mono fun b => ⟨hsz _ b.1, b.2.same (by simp [Ty.fldW])⟩
  | small n e =>
    simp only [pField]; split
    · split
      · exact .fail (by simp)
      · exact (NoSO.readArr _ _).bind fun _ => .ret _
    · split
      · exact .fail (by simp)
      · split
        · exact .fail (by simp)
        · exact hel e _ (Nat.le_refl _) (hsz e)
  | large n e =>
    simp only [pField]; split
    · refine (NoSO.readArr _ _).bind fun _ => ?_
      split
      · exact .fail (by simp)
      · exact .ret _
    · split
      · exact .fail (by simp)
      · exact hel e _ (Nat.le_refl _) (hsz e)
  | vec e =>
    simp only [pField]; split
    · split
      · exact .fail (by simp)
      · exact (NoSO.readVec _).bind fun _ => .ret _
    · exact hco e _ (Nat.le_refl _) (hsz e)
  | coll k e => exact hco e _ (Nat.le_refl _) (hsz e)
  | map k v => exact hco (.tuple [k, v]) _ (Nat.le_refl _) (by simp only [Ty.size, Ty.sizes]; omega)
  | unknownFields zc => exact hco (.unknownField zc) _ (Nat.le_refl _) id
  | unknownField zc =>
    simp only [pField]; split
    · exact .fail (by simp)
    · split
      · exact .ret _
      · exact hel _ _ (by simp only [unkBlobTy]; split <;> simp [Ty.eleW, Ty.fldW, Ty.size]) (fun _ => by simp only [unkBlobTy]; split <;> simp only [Ty.size] <;> omega)
      · exact ((H.body _ _ _).mono fun b => ⟨b.1, b.2.same (by simp [Ty.bodW, Ty.fldW, Ty.size])⟩).bind fun _ => .ret _
      · exact ((H.body _ _ _).mono fun b => ⟨b.1, b.2.same (by simp [Ty.bodW, Ty.fldW, Ty.size])⟩).bind fun _ => .ret _
  | tuple _ | named _ =>
    simp only [pField]; split
    · exact .fail (by simp)
    · exact hel _ _ (Nat.le_refl _) id
  | option e =>
    simp only [pField]; split
    · exact .fail (by simp)
    · exact hel _ _ (Nat.le_refl _) (hsz e)

theorem noso_finish (t : Ty) (a : Acc) (d : Nat) :
    NoSO (t.size ≤ S ∧ Room S (n + 1) cfg.recursionLimit d t.size) (pFinish o t a d) := by
  unfold pFinish
  repeat' split
  all_goals first
    | exact .ret _
    | exact .fail (by simp)
    | exact (H.finish _ _ _).mono fun b => ⟨by have := b.1; simp only [Ty.size] at this; omega, b.2.same (by simp [Ty.size])⟩
end

theorem pops_noso (env : Env) (cfg : Config) {S : Nat} (hS : env.size ≤ S) (hS3 : 3 ≤ S) : ∀ n, NoSOOps S n cfg (pops env cfg n)
  | 0 => by
    have h0 : ∀ {limit d w : Nat}, 1 ≤ w → ¬ Room S 0 limit d w := by intro limit d w h h'; unfold Room at h'; omega
    exact ⟨fun t _ _ b => absurd b.2 (h0 (by simp [Ty.bodW])),
      fun t _ _ _ _ b => absurd b.2 (h0 (by cases t <;> simp [Ty.fldW])),
      fun t _ _ _ b => absurd b.2 (h0 (by cases t <;> simp [Ty.eleW])),
      fun t _ _ b => absurd b.2 (h0 t.size_pos)⟩
  | n + 1 =>
    have ih := pops_noso env cfg hS hS3 n
    ⟨fun t d l => noso_body ih env hS t d l, fun t a d g v => noso_field ih hS3 t a d g v,
      fun t d g v => noso_element ih env hS t d g v, fun t a d => noso_finish ih t a d⟩

theorem deTree_noso (env : Env) (t : Ty) (cfg : Config) (l : Fields) : ∀ c, deTree env t cfg l ≠ .fail .stackOverflow c := by
  obtain ⟨S, h1, h2, h3, h4⟩ := room_top env t cfg
  exact (pops_noso env cfg h1 h2 _).body t 0 l ⟨h3, h4⟩

end Fourleaf
