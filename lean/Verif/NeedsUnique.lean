import Verif.HasType

/-! # What a value takes is determined by its type -/

namespace Fourleaf
open Spec

theorem ofBytes_inj {a b : List Byte} (h : V.ofBytes a = V.ofBytes b) : a = b := by
  simp only [V.ofBytes, V.seq.injEq] at h
  exact List.map_inj_right (by intro x y hxy; simp at hxy; exact UInt8.toNat_inj.1 (by exact_mod_cast hxy)) |>.1 h

theorem PrimHas.unique {p : Prim} {v w : V} {n n' : Nat} (h : PrimHas p v n) (h' : PrimHas p w n') (e : v = w) : n = n' := by
  cases h <;> cases h' <;> first | rfl | (cases e; rfl)

macro "absurd_shape" : tactic => `(tactic| (exfalso; simp_all [Ty.isWrapped, Ty.isSingle, Ty.isColl, Ty.isU8, Tail.isDelegate]; done))

theorem Needs.unique' {env : Env} {it : Item} {vs ws : List V} {k k' : Need} (h : Needs env it vs k) (h' : Needs env it ws k') (e : vs = ws) : k = k' := by
  induction h generalizing ws k' with
  | bodyBoxed _ ih => cases h' with
    | bodyBoxed h => exact ih h e
    | bodyWrapped h _ => absurd_shape
  | bodyUnit => cases h' with
    | bodyUnit => rfl
    | bodyTuple h _ _ => absurd_shape
    | bodyWrapped h _ => absurd_shape
  | bodyTuple hn _ _ ih => cases h' with
    | bodyUnit => exact absurd rfl hn
    | bodyTuple h _ h' => cases e; exact ih h' rfl
    | bodyWrapped h _ => absurd_shape
  | bodyUnknown _ ih => cases h' with
    | bodyUnknown h' => cases e; exact ih h' rfl
    | bodyWrapped h _ => absurd_shape
  | bodyStruct hd _ ih => cases h' with
    | bodyStruct hd' h' => rw [hd] at hd'; cases hd'; cases e; exact ih h' rfl
    | bodyWrapped h _ => absurd_shape
  | bodyWrapped hw _ ih => cases h' with
    | bodyWrapped h h' => rw [ih h' e]
    | _ => clear ih; absurd_shape
  | fieldBoxed _ ih => cases h' with
    | fieldBoxed h => exact ih h e
    | fieldSingle h _ => absurd_shape
  | fieldSingle hs _ ih => cases h' with
    | fieldSingle _ h => exact ih h e
    | _ => clear ih; absurd_shape
  | fieldVec hs _ ih => cases h' with
    | fieldVec _ h => cases e; rw [ih h rfl]
    | fieldSingle h _ => clear ih; absurd_shape
  | fieldSmall hs _ _ ih => cases h' with
    | fieldSmall _ _ h => cases e; rw [ih h rfl]
    | fieldSingle h _ => clear ih; absurd_shape
  | fieldLarge hs _ _ ih => cases h' with
    | fieldLarge _ _ h => cases e; rw [ih h rfl]
    | fieldSingle h _ => clear ih; absurd_shape
  | fieldList _ ih => cases h' with
    | fieldList h => cases e; rw [ih h rfl]
    | fieldSingle h _ => clear ih; absurd_shape
  | fieldSet _ _ ih => cases h' with
    | fieldSet _ h => cases e; rw [ih h rfl]
    | fieldSingle h _ => clear ih; absurd_shape
  | fieldOption _ _ ih => cases h' with
    | fieldOption _ h => cases e; rw [ih h rfl]
    | fieldSingle h _ => clear ih; absurd_shape
  | fieldMap _ _ ih => cases h' with
    | fieldMap _ h => cases e; rw [ih h rfl]
    | fieldSingle h _ => clear ih; absurd_shape
  | elemPrim hp => cases h' with
    | elemPrim h => rw [hp.unique h (by simpa using e)]
    | elemColl h _ => absurd_shape
  | elemBoxed _ ih => cases h' with
    | elemBoxed h => exact ih h e
    | elemColl h _ => absurd_shape
  | elemVec _ => cases h' with
    | elemVec _ => have := ofBytes_inj (List.cons.inj e).1; subst this; rfl
    | elemColl h _ => absurd_shape
  | elemSmall _ _ => cases h' with
    | elemSmall _ _ => rfl
    | elemColl h _ => absurd_shape
  | elemLarge _ _ => cases h' with
    | elemLarge _ _ => rfl
    | elemColl h _ => absurd_shape
  | elemColl hc _ ih => cases h' with
    | elemColl _ h => rw [ih h e]
    | _ => clear ih; absurd_shape
  | elemUnit => cases h' with
    | elemUnit => rfl
    | elemTuple h _ => absurd_shape
    | elemColl h _ => absurd_shape
  | elemTuple hn _ ih => cases h' with
    | elemUnit => exact absurd rfl hn
    | elemTuple _ h => exact ih h e
    | elemColl h _ => absurd_shape
  | elemUnknown _ ih => cases h' with
    | elemUnknown h => exact ih h e
    | elemColl h _ => absurd_shape
  | elemStruct hd ht _ ih => cases h' with
    | elemStruct _ _ h => exact ih h e
    | elemDelegate hd' ht' _ _ _ => rw [hd] at hd'; cases hd'; rw [ht'] at ht; cases ht
    | elemVariant hd' _ _ => rw [hd] at hd'; cases hd'
    | elemCatchAll hd' _ _ => rw [hd] at hd'; cases hd'
    | elemColl h _ => absurd_shape
  | elemDelegate hd ht _ _ _ ih => cases h' with
    | elemStruct hd' ht' _ => rw [hd] at hd'; cases hd'; rw [ht] at ht'; cases ht'
    | elemDelegate hd' ht' _ _ h => rw [hd] at hd'; cases hd'; rw [ht] at ht'; cases ht'; cases e; rw [ih h rfl]
    | elemVariant hd' _ _ => rw [hd] at hd'; cases hd'
    | elemCatchAll hd' _ _ => rw [hd] at hd'; cases hd'
    | elemColl h _ => absurd_shape
  | elemVariant hd hf _ ih => cases h' with
    | elemStruct hd' _ _ => rw [hd] at hd'; cases hd'
    | elemDelegate hd' _ _ _ _ => rw [hd] at hd'; cases hd'
    | elemVariant hd' hf' h => rw [hd] at hd'; cases hd'; cases e; rw [hf] at hf'; cases hf'; exact ih h rfl
    | elemCatchAll hd' hn _ => rw [hd] at hd'; cases hd'; cases e; exact absurd rfl (hn _ (List.mem_of_find?_eq_some hf))
    | elemColl h _ => absurd_shape
  | elemCatchAll hd hn _ ih => cases h' with
    | elemStruct hd' _ _ => rw [hd] at hd'; cases hd'
    | elemDelegate hd' _ _ _ _ => rw [hd] at hd'; cases hd'
    | elemVariant hd' hf' h => rw [hd] at hd'; cases hd'; cases e; exact absurd rfl (hn _ (List.mem_of_find?_eq_some hf'))
    | elemCatchAll hd' _ h => rw [hd] at hd'; cases hd'; cases e; exact ih h rfl
    | elemColl h _ => absurd_shape
  | unkInt => cases h' with
    | unkInt => rfl
    | elemColl h _ => absurd_shape
    | _ => cases e
  | unkBlob _ => cases h' with
    | unkBlob _ => simp only [List.cons.injEq, V.variant.injEq, true_and, and_true] at e; have := ofBytes_inj e; subst this; rfl
    | elemColl h _ => absurd_shape
    | _ => cases e
  | unkStruct _ ih => cases h' with
    | unkStruct h => exact ih h (by simpa using e)
    | elemColl h _ => absurd_shape
    | _ => cases e
  | unkEnum _ ih => cases h' with
    | unkEnum h => exact ih h (by simp at e; simp [e])
    | elemColl h _ => absurd_shape
    | _ => cases e
  | eachNil => cases h' with
    | eachNil => rfl
    | eachCons _ _ => cases e
  | eachCons _ _ ih1 ih2 => cases h' with
    | eachNil => cases e
    | eachCons h1 h2 => cases e; rw [ih1 h1 rfl, ih2 h2 rfl]
  | fieldsNil => cases h' with | fieldsNil => rfl
  | fieldsCons _ _ ih1 ih2 => cases h' with
    | fieldsCons h1 h2 => cases e; rw [ih1 h1 rfl, ih2 h2 rfl]
  | partsPlain ht _ _ ih => cases h' with
    | partsPlain _ _ h => exact ih h e
    | partsDelegate ht' _ _ _ => rw [ht] at ht'; cases ht'
    | partsUnknown ht' _ _ _ => rw [ht] at ht'; cases ht'
  | partsDelegate ht _ _ _ ih => cases h' with
    | partsPlain ht' _ h => rw [ht] at ht'; cases ht'
    | partsDelegate ht' _ _ h => rw [ht] at ht'; cases ht'; rw [ih h e]
    | partsUnknown ht' _ _ _ => rw [ht] at ht'; cases ht'
  | partsUnknown ht _ _ _ ih1 ih2 => cases h' with
    | partsPlain ht' _ h => rw [ht] at ht'; cases ht'
    | partsDelegate ht' _ _ h => rw [ht] at ht'; cases ht'
    | partsUnknown ht' _ h1 h2 =>
      rw [ht] at ht'; cases ht'
      obtain ⟨e1, e2⟩ := List.append_inj' e rfl
      rw [ih1 h1 e1, ih2 h2 (by simpa using e2)]
  | unknownNil => cases h' with
    | unknownNil => rfl
    | unknownCons _ _ _ _ => cases e
  | unknownCons _ _ _ _ ih1 ih2 => cases h' with
    | unknownNil => cases e
    | unknownCons _ _ h1 h2 =>
      simp only [List.cons.injEq, V.seq.injEq] at e
      rw [ih1 h1 (by simp [e.1.2.1]), ih2 h2 e.2]

/-- What reading a value of a type takes is a function of the type and the value. -/
theorem Needs.unique {env : Env} {it : Item} {vs : List V} {k k' : Need} (h : Needs env it vs k) (h' : Needs env it vs k') : k = k' :=
  h.unique' h' rfl

end Fourleaf
