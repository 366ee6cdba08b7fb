import Verif.HasType

/-! # Serialisation does not depend on the bound on nesting -/

namespace Fourleaf
open Spec

/-- `o'` does at least as much as `o`. -/
structure SLe (o o' : SOps) : Prop where
  body : ∀ t v cs, o.body t v = some cs → o'.body t v = some cs
  field : ∀ t g v cs, o.field t g v = some cs → o'.field t g v = some cs
  element : ∀ t g v cs, o.element t g v = some cs → o'.element t g v = some cs

/-- Success is kept. -/
abbrev OLe {α : Type} (a b : Option α) : Prop := ∀ x, a = some x → b = some x

theorem OLe.refl {α : Type} (a : Option α) : OLe a a := fun _ h => h
theorem OLe.bind {α β : Type} {a a' : Option α} {f f' : α → Option β} (h : OLe a a') (hf : ∀ x, OLe (f x) (f' x)) :
    OLe (a.bind f) (a'.bind f') := by
  intro x hx
  cases ha : a with
  | none => rw [ha] at hx; cases hx
  | some y => rw [ha] at hx; rw [h y ha]; exact hf y x hx
theorem OLe.map {α β : Type} {a a' : Option α} {f : α → β} (h : OLe a a') : OLe (a.map f) (a'.map f) := by
  intro x hx
  cases ha : a with
  | none => rw [ha] at hx; cases hx
  | some y => rw [ha] at hx; rw [h y ha]; exact hx

theorem serAll_le {f f' : V → Option (List WCall)} (h : ∀ v, OLe (f v) (f' v)) : ∀ vs, OLe (serAll f vs) (serAll f' vs)
  | [] => .refl _
  | v :: vs => (h v).bind fun _ => (serAll_le h vs).map

section
variable {o o' : SOps} (H : SLe o o')
include H

theorem serFields_le : ∀ (ds : List FieldDecl) (vs : List V), OLe (serFields o ds vs) (serFields o' ds vs)
  | [], _ => by simp only [serFields]; exact .refl _
  | _ :: _, [] => by simp only [serFields]; exact .refl _
  | d :: ds, v :: vs => OLe.bind (H.field d.ty d.tag v) fun _ => (serFields_le ds vs).map

theorem macroBodySer_le (b : Body) (vs : List V) : OLe (macroBodySer o b vs) (macroBodySer o' b vs) := by
  refine (serFields_le H _ _).bind fun r => ?_
  split
  · exact .refl _
  · exact OLe.map (H.body _ _)
  · exact OLe.map (H.body _ _)
  · exact .refl _

theorem serUnknown_le (zc : Bool) (v : V) : OLe (serUnknown o zc v) (serUnknown o' zc v) := by
  intro x hx
  unfold serUnknown at *
  split at hx
  · split at hx
    · rename_i h; simp only [h, and_self, if_true]; exact H.field _ _ _ _ hx
    · cases hx
  · cases hx

theorem bodySer_le (env : Env) (t : Ty) (v : V) : OLe (bodySer env o t v) (bodySer env o' t v) := by
  have hd : OLe (defaultBodySer o t v) (defaultBodySer o' t v) := OLe.map (H.field t 1 v)
  cases t with
  | boxed t => exact H.body t v
  | tuple ts =>
    cases ts with
    | nil => exact hd
    | cons t ts =>
      cases v with
      | seq vs =>
        intro x hx
        simp only [bodySer] at hx ⊢
        split at hx
        · rename_i a ha; rw [serFields_le H _ _ _ ha]; exact hx
        · cases hx
      | _ => exact .refl _
  | unknownFields zc =>
    cases v with
    | seq vs => exact (serAll_le (serUnknown_le H zc) vs).map
    | _ => exact .refl _
  | named i =>
    cases v with
    | seq vs =>
      simp only [bodySer]
      split
      · exact macroBodySer_le H _ _
      · exact hd
    | _ => exact hd
  | _ => exact hd

theorem wrapped_le (t : Ty) (g : Byte) (v : V) : OLe (wrapped o t g v) (wrapped o' t g v) := OLe.map (H.field t 1 v)

theorem elementSer_le (env : Env) (t : Ty) (g : Byte) (v : V) : OLe (elementSer env o t g v) (elementSer env o' t g v) := by
  have hw := wrapped_le H t g v
  have hb : ∀ (T : Ty) (u : V) (f : List WCall → List WCall), OLe ((o.body T u).map f) ((o'.body T u).map f) := fun T u f => OLe.map (H.body T u)
  cases t with
  | prim p => exact .refl _
  | boxed t => exact H.element t g v
  | vec e =>
    cases v with
    | seq vs => simp only [elementSer]; split; exact .refl _; exact hw
    | _ => exact .refl _
  | small n e =>
    cases v with
    | seq vs => simp only [elementSer]; split; exact .refl _; exact hw
    | _ => exact .refl _
  | large n e =>
    cases v with
    | seq vs => simp only [elementSer]; split; exact .refl _; exact hw
    | _ => exact .refl _
  | coll k e => exact hw
  | option e => exact hw
  | map k e => exact hw
  | tuple ts =>
    cases ts with
    | nil => cases v <;> first | exact .refl _ | (rename_i l; cases l <;> exact .refl _)
    | cons t ts => exact hb _ _ _
  | unknownFields zc => exact hb _ _ _
  | unknownField zc =>
    intro x hx
    unfold elementSer at hx ⊢
    split at hx <;> simp_all
    · obtain ⟨a, h1, h2⟩ := hx; exact ⟨a, H.body _ _ _ h1, h2⟩
    · obtain ⟨_, a, h1, h2⟩ := hx; exact ⟨a, H.body _ _ _ h1, h2⟩
  | named i =>
    intro x hx
    unfold elementSer at hx ⊢
    simp only at hx ⊢
    split at hx
    · split at hx
      · exact H.element _ _ _ _ hx
      · cases hx
      · exact hb _ _ _ x hx
    · split at hx
      · exact (macroBodySer_le H _ _).map x hx
      · split at hx
        · exact (macroBodySer_le H _ _).map x hx
        · cases hx
    · cases hx

theorem fieldSer_le (t : Ty) (g : Byte) (v : V) : OLe (fieldSer o t g v) (fieldSer o' t g v) := by
  have hA : ∀ (e : Ty) vs, OLe (serAll (o.element e g) vs) (serAll (o'.element e g) vs) := fun e => serAll_le (H.element e g)
  have hE := H.element t g v
  cases t with
  | boxed t => exact H.field t g v
  | vec e =>
    cases v with
    | seq vs => simp only [fieldSer]; split; exact .refl _; exact hA _ _
    | _ => exact .refl _
  | small n e =>
    cases v with
    | seq vs => simp only [fieldSer]; split; exact .refl _; exact hA _ _
    | _ => exact .refl _
  | large n e =>
    cases v with
    | seq vs => simp only [fieldSer]; split; exact .refl _; exact hA _ _
    | _ => exact .refl _
  | coll k e =>
    cases v with
    | seq vs => exact hA _ _
    | _ => exact .refl _
  | option e =>
    cases v with
    | seq vs => exact hA _ _
    | _ => exact .refl _
  | map tk tv =>
    cases v with
    | seq vs =>
      refine serAll_le (fun e => ?_) vs
      split
      · exact OLe.bind (H.field _ _ _) fun _ => OLe.map (H.field _ _ _)
      · exact .refl _
    | _ => exact .refl _
  | unknownFields zc => exact .refl _
  | _ => exact hE
end

theorem sops_le_succ (env : Env) : ∀ n, SLe (sops env n) (sops env (n + 1))
  | 0 => ⟨nofun, nofun, nofun⟩
  | n + 1 =>
    have ih := sops_le_succ env n
    ⟨bodySer_le ih env, fieldSer_le ih, elementSer_le ih env⟩

/-- A larger bound on the nesting changes nothing. -/
theorem sops_mono (env : Env) {n m : Nat} (h : n ≤ m) : SLe (sops env n) (sops env m) := by
  induction h with
  | refl => exact ⟨fun _ _ _ h => h, fun _ _ _ _ h => h, fun _ _ _ _ h => h⟩
  | step _ ih =>
    have := sops_le_succ env ‹_›
    exact ⟨fun _ _ _ h => this.body _ _ _ (ih.body _ _ _ h), fun _ _ _ _ h => this.field _ _ _ _ (ih.field _ _ _ _ h),
      fun _ _ _ _ h => this.element _ _ _ _ (ih.element _ _ _ _ h)⟩

/-- The calls are determined by the value. -/
theorem serializesBody_unique {env : Env} {t : Ty} {v : V} {cs cs' : List WCall} (h : SerializesBody env t v cs) (h' : SerializesBody env t v cs') : cs = cs' := by
  obtain ⟨n, h⟩ := h
  obtain ⟨m, h'⟩ := h'
  have a := (sops_mono env (Nat.le_max_left n m)).body _ _ _ h
  have b := (sops_mono env (Nat.le_max_right n m)).body _ _ _ h'
  rw [a] at b; exact Option.some.inj b
theorem serializesField_unique {env : Env} {t : Ty} {g : Byte} {v : V} {cs cs' : List WCall} (h : SerializesField env t g v cs) (h' : SerializesField env t g v cs') : cs = cs' := by
  obtain ⟨n, h⟩ := h
  obtain ⟨m, h'⟩ := h'
  have a := (sops_mono env (Nat.le_max_left n m)).field _ _ _ _ h
  have b := (sops_mono env (Nat.le_max_right n m)).field _ _ _ _ h'
  rw [a] at b; exact Option.some.inj b
theorem serializesElement_unique {env : Env} {t : Ty} {g : Byte} {v : V} {cs cs' : List WCall} (h : SerializesElement env t g v cs) (h' : SerializesElement env t g v cs') : cs = cs' := by
  obtain ⟨n, h⟩ := h
  obtain ⟨m, h'⟩ := h'
  have a := (sops_mono env (Nat.le_max_left n m)).element _ _ _ _ h
  have b := (sops_mono env (Nat.le_max_right n m)).element _ _ _ _ h'
  rw [a] at b; exact Option.some.inj b

end Fourleaf
