import Verif.ByField

/-! # Messages that are alike for a reader

A specification of what matters in a message for a reader of a given type: for each struct, the sequence of occurrences of each declared field. The order of fields
with different tags does not matter, nor (if they are ignored) do unknown fields. -/

namespace Fourleaf
open Spec

/-- What is compared. -/
inductive Node where
  /-- two messages for a type -/
  | body (t : Ty)
  /-- two messages for a declared struct or variant -/
  | parts (b : Body)
  /-- two messages for declared fields; `unk` says whether unknown fields are collected -/
  | fields (fs : List FieldDecl) (unk : Option Bool)
  /-- all occurrences of a field in both messages -/
  | occs (t : Ty)
  /-- an occurrence of a field -/
  | field (t : Ty)
  /-- an element -/
  | elem (t : Ty)

/-- The type of the elements of a field that is a collection. -/
def Ty.item : Ty → Option Ty
  | .small _ e | .large _ e | .vec e => if e.isByte then none else some e
  | .coll _ e | .option e => some e
  | .map k v => some (.tuple [k, v])
  | _ => none

/-- Types whose elements are messages. -/
def Ty.inStruct (env : Env) : Ty → Bool
  | .small _ e | .large _ e | .vec e => !e.isByte
  | .tuple _ | .coll .. | .option _ | .map .. | .unknownFields _ => true
  | .named i => match env.decl i with | .struct b => (match b.tail with | .delegate .. => false | _ => true) | .enum .. => false
  | _ => false

/-- `vs` and `vs'` are alike, for a reader that reports unknown fields (`strict = true`) or ignores them. -/
inductive Alike (env : Env) (strict : Bool) : Node → List Val → List Val → Prop where
  | refl {nd vs} : Alike env strict nd vs vs
  -- messages
  | bodyBoxed {t vs vs'} : Alike env strict (.body t) vs vs' → Alike env strict (.body (.boxed t)) vs vs'
  | bodyTuple {ts vs vs'} : ts.length ≤ 16 → Alike env strict (.fields (components ts) none) vs vs' → Alike env strict (.body (.tuple ts)) vs vs'
  | bodyStruct {i b vs vs'} : env.decl i = .struct b → Alike env strict (.parts b) vs vs' → Alike env strict (.body (.named i)) vs vs'
  | bodyWrapped {t vs vs'} : t.isWrapped env = true → Alike env strict (.fields [⟨1, "top", t⟩] none) vs vs' → Alike env strict (.body t) vs vs'
  | partsPlain {b vs vs'} : b.tail = .plain → Alike env strict (.fields b.fields none) vs vs' → Alike env strict (.parts b) vs vs'
  | partsDelegate {b name t vs vs'} : b.tail = .delegate name t → Alike env strict (.body t) vs vs' → Alike env strict (.parts b) vs vs'
  | partsUnknown {b name zc vs vs'} : b.tail = .unknown name zc → Alike env strict (.fields b.fields (some zc)) vs vs' → Alike env strict (.parts b) vs vs'
  /-- the fields of a struct: each declared field has alike occurrences; if unknown fields are collected, they are the same; if they are reported, both messages have some, or none -/
  | fields {fs unk l l'} : (∀ x ∈ fs, Alike env strict (.occs x.ty) (occ x.tag l) (occ x.tag l')) →
      (unk.isSome = true → unknowns fs l = unknowns fs l') → (strict = true → (unknowns fs l = [] ↔ unknowns fs l' = [])) →
      Alike env strict (.fields fs unk) [.struct l] [.struct l']
  -- occurrences
  | occsNil {t} : Alike env strict (.occs t) [] []
  | occsCons {t v v' vs vs'} : Alike env strict (.field t) [v] [v'] → Alike env strict (.occs t) vs vs' → Alike env strict (.occs t) (v :: vs) (v' :: vs')
  | fieldBoxed {t vs vs'} : Alike env strict (.field t) vs vs' → Alike env strict (.field (.boxed t)) vs vs'
  | fieldItem {t e vs vs'} : t.item = some e → Alike env strict (.elem e) vs vs' → Alike env strict (.field t) vs vs'
  | fieldTuple {ts vs vs'} : Alike env strict (.elem (.tuple ts)) vs vs' → Alike env strict (.field (.tuple ts)) vs vs'
  | fieldNamed {i vs vs'} : Alike env strict (.elem (.named i)) vs vs' → Alike env strict (.field (.named i)) vs vs'
  -- elements
  | elemBoxed {t vs vs'} : Alike env strict (.elem t) vs vs' → Alike env strict (.elem (.boxed t)) vs vs'
  | elemStruct {t l l'} : t.inStruct env = true → Alike env strict (.body t) [.struct l] [.struct l'] → Alike env strict (.elem t) [.struct l] [.struct l']
  | elemDelegate {i b name t vs vs'} : env.decl i = .struct b → b.tail = .delegate name t → Alike env strict (.elem t) vs vs' → Alike env strict (.elem (.named i)) vs vs'
  | elemVariant {i variants ca d b l l'} : env.decl i = .enum variants ca → variants.find? (fun x => x.1 = d) = some (d, b) →
      Alike env strict (.parts b) [.struct l] [.struct l'] → Alike env strict (.elem (.named i)) [.enum d l] [.enum d l']
  | elemCatchAll {i variants d b l l'} : env.decl i = .enum variants (some b) → variants.find? (fun x => x.1 = d) = none →
      Alike env strict (.parts b) [.struct l] [.struct l'] → Alike env strict (.elem (.named i)) [.enum d l] [.enum d l']

/-- The reader cannot tell them apart. -/
def Node.Sem (env : Env) (cfg : Config) : Node → List Val → List Val → Prop
  | .body t, vs, vs' => ∀ n d l l', vs = [.struct l] → vs' = [.struct l'] → PM.Same ((pops env cfg n).body t d l) ((pops env cfg n).body t d l')
  | .parts b, vs, vs' => FieldsOk b.fields → ∀ n d l l', vs = [.struct l] → vs' = [.struct l'] → PM.Same (pMacro cfg (pops env cfg n) b d l) (pMacro cfg (pops env cfg n) b d l')
  | .fields fs unk, vs, vs' => FieldsOk fs → ∀ n d l l', vs = [.struct l] → vs' = [.struct l'] → ∀ (β : Type) (k : List V → Acc → PM β),
      PM.Same (PM.bind (pLoop cfg (pops env cfg n) fs unk d .init l) fun st' => PM.bind (pFinishAll cfg (pops env cfg n) d st' 0 fs) fun vs => k vs st'.unk)
        (PM.bind (pLoop cfg (pops env cfg n) fs unk d .init l') fun st' => PM.bind (pFinishAll cfg (pops env cfg n) d st' 0 fs) fun vs => k vs st'.unk)
  | .occs t, vs, vs' => ∀ n d tag a, PM.Same (pAccum (pops env cfg n) t d tag a vs) (pAccum (pops env cfg n) t d tag a vs')
  | .field t, vs, vs' => ∀ n d tag a v v', vs = [v] → vs' = [v'] → PM.Same ((pops env cfg n).field t a d tag v) ((pops env cfg n).field t a d tag v')
  | .elem t, vs, vs' => ∀ n d tag v v', vs = [v] → vs' = [v'] → PM.Same ((pops env cfg n).element t d tag v) ((pops env cfg n).element t d tag v')

theorem pEachField_congr (o : POps) (d : Nat) (accs : Nat → Acc) (l l' : Fields) : ∀ (fs : List FieldDecl) (i : Nat),
    (∀ x ∈ fs, ∀ a, PM.Same (pAccum o x.ty d x.tag a (occ x.tag l)) (pAccum o x.ty d x.tag a (occ x.tag l'))) →
    PM.Same (pEachField o d accs l i fs) (pEachField o d accs l' i fs)
  | [], _, _ => .refl _
  | x :: xs, i, h => .bind (h x (.head _) _) fun _ => .bindr fun _ => .bindl (pEachField_congr o d accs l l' xs (i + 1) fun y hy => h y (.tail _ hy))

theorem pUnknowns_none (cfg : Config) (o : POps) (d : Nat) : ∀ (l : Fields) (u : Acc), cfg.ignoreUnknownFields = true ∨ l = [] → pUnknowns cfg o none d u l = .ret u
  | [], _, _ => rfl
  | (_, _) :: l, u, h => by
    have h' := h.resolve_right (by simp)
    simp only [pUnknowns, h', if_true]
    exact pUnknowns_none cfg o d l u (.inl h')

theorem pUnknowns_some (cfg : Config) (o : POps) (d : Nat) (l : Fields) (u : Acc) (h : cfg.ignoreUnknownFields = false) (hl : l ≠ []) : ∃ k, pUnknowns cfg o none d u l = .fail k := by
  cases l with
  | nil => exact absurd rfl hl
  | cons x l => exact ⟨.unknownField x.1 0, by simp only [pUnknowns, h, Bool.false_eq_true, if_false]⟩

/-- Nothing is read at the limit of the depth. -/
theorem loop_deep {cfg : Config} (o : POps) {fs : List FieldDecl} (hf : fs ≠ []) (unk : Option Bool) {d : Nat} (hd : ¬ d < cfg.recursionLimit) {β : Type} (k : List V → Acc → PM β) (l : Fields) (st : LoopSt) :
    PM.Same (PM.bind (pLoop cfg o fs unk d st l) fun st' => PM.bind (pFinishAll cfg o d st' 0 fs) fun vs => k vs st'.unk) (.fail .recursionLimitExceeded) := by
  refine .bindFails fun st' => ?_
  cases fs with
  | nil => exact absurd rfl hf
  | cons x xs =>
    have : pPush cfg d = .fail .recursionLimitExceeded := by unfold pPush; rw [if_pos (by omega)]
    simp only [pFinishAll, this, PM.bind_fail]
    exact .refl _

theorem isWrapped_ne {env : Env} {t : Ty} (h : t.isWrapped env = true) (cfg : Config) (o : POps) (d : Nat) (l : Fields) : pBody env cfg o t d l = pDefault cfg o t d l := pBody_wrapped h

theorem fields_init (fs : List FieldDecl) (cfg : Config) (o : POps) (d : Nat) (l : Fields) {β : Type} (k : List V → PM β) :
    PM.bind (pStruct cfg o fs d l) k = PM.bind (pLoop cfg o fs none d .init l) fun st' => PM.bind (pFinishAll cfg o d st' 0 fs) fun vs => k vs := by
  simp only [pStruct, PM.bind_assoc]

theorem alike_sound {env : Env} (henv : env.Ok) {cfg : Config} {strict : Bool} (hs : strict = false → cfg.ignoreUnknownFields = true) {nd : Node} {vs vs' : List Val}
    (h : Alike env strict nd vs vs') : nd.Sem env cfg vs vs' := by
  induction h with
  | refl =>
    rename_i nd vs
    cases nd with
    | body t => intro n d l l' h h'; rw [h] at h'; cases h'; exact .refl _
    | parts b => intro _ n d l l' h h'; rw [h] at h'; cases h'; exact .refl _
    | fields fs unk => intro _ n d l l' h h'; rw [h] at h'; cases h'; exact fun _ _ => .refl _
    | occs t => intro n d tag a; exact .refl _
    | field t => intro n d tag a v v' h h'; rw [h] at h'; cases h'; exact .refl _
    | elem t => intro n d tag v v' h h'; rw [h] at h'; cases h'; exact .refl _
  | bodyBoxed _ ih =>
    intro n d l l' h h'
    cases n with
    | zero => exact .fails
    | succ n => exact ih n d l l' h h'
  | bodyTuple hl _ ih =>
    intro n d l l' h h'
    cases n with
    | zero => exact .fails
    | succ n =>
      simp only [pops, pBody, fields_init]
      exact ih (tupleFields_ok hl) n d l l' h h' _ (fun vs _ => .ret (V.seq vs))
  | bodyStruct hd _ ih =>
    rename_i i b _ _ _
    intro n d l l' h h'
    cases n with
    | zero => exact .fails
    | succ n =>
      simp only [pops, pBody, hd]
      have hok := henv i
      rw [hd] at hok
      exact .bindl (ih hok n d l l' h h')
  | bodyWrapped hw _ ih =>
    intro n d l l' h h'
    cases n with
    | zero => exact .fails
    | succ n =>
      simp only [pops, isWrapped_ne hw, pDefault, fields_init]
      exact ih ⟨by intro d hd; cases List.mem_singleton.1 hd; exact tagOk_one, by simp⟩ n d l l' h h' _ (fun vs _ => .ret (vs.headD (V.seq [])))
  | partsPlain ht _ ih =>
    intro hok n d l l' h h'
    simp only [pMacro, ht]
    exact ih hok n d l l' h h' _ (fun vs _ => pConstruct _ vs)
  | partsDelegate ht _ ih =>
    intro hok n d l l' h h'
    simp only [pMacro, ht]
    exact .bindr fun d' => .bindl (ih n d' l l' h h')
  | partsUnknown ht _ ih =>
    rename_i b name zc _ _ _
    intro hok n d l l' h h'
    simp only [pMacro, ht]
    exact ih hok n d l l' h h' _ (fun vs u => PM.bind (pPush cfg d) fun d' => PM.bind ((pops env cfg n).finish (.unknownFields zc) u d') fun v => pConstruct b (vs ++ [v]))
  | fields hf hu hst ih =>
    rename_i fs unk l l'
    intro hok n d l1 l1' h h' β k
    cases h; cases h'
    by_cases hd : d < cfg.recursionLimit ∨ (fs = [] ∧ unk = none)
    · refine .trans (loop_same _ hok.2 unk hd k l .init) (.trans ?_ (.symm (loop_same _ hok.2 unk hd k l' .init)))
      refine .bind (pEachField_congr _ _ _ _ _ fs 0 fun x hx a => ih x hx n (d + 1) x.tag a) fun vs => .bindl ?_
      cases unk with
      | some zc => rw [hu rfl]; exact .refl _
      | none =>
        by_cases hi : cfg.ignoreUnknownFields = true
        · rw [pUnknowns_none _ _ _ _ _ (.inl hi), pUnknowns_none _ _ _ _ _ (.inl hi)]; exact .refl _
        · have hs' : strict = true := by
            cases strict with
            | true => rfl
            | false => exact absurd (hs rfl) hi
          by_cases hl : unknowns fs l = []
          · rw [hl, (hst hs').1 hl]; exact .refl _
          · obtain ⟨k1, h1⟩ := pUnknowns_some cfg (pops env cfg n) (d + 1) _ .init (by simpa using hi) hl
            obtain ⟨k2, h2⟩ := pUnknowns_some cfg (pops env cfg n) (d + 1) _ .init (by simpa using hi) (fun h => hl ((hst hs').2 h))
            show PM.Same (pUnknowns cfg (pops env cfg n) none (d + 1) .init _) (pUnknowns cfg (pops env cfg n) none (d + 1) .init _)
            rw [h1, h2]; exact .fails
    · by_cases hfs : fs = []
      · subst hfs
        have hd' : unk ≠ none := fun h => hd (.inr ⟨rfl, h⟩)
        have := hu (by cases unk with | none => exact absurd rfl hd' | some _ => rfl)
        have he : ∀ l : Fields, unknowns [] l = l := fun l => by simp [unknowns]
        rw [he, he] at this
        subst this
        exact .refl _
      · have hd' : ¬ d < cfg.recursionLimit := fun h => hd (.inl h)
        exact .trans (loop_deep _ hfs unk hd' k l _) (.symm (loop_deep _ hfs unk hd' k l' _))
  | occsNil => intro n d tag a; exact .refl _
  | occsCons _ _ ih1 ih2 =>
    intro n d tag a
    exact .bind (ih1 n d tag a _ _ rfl rfl) fun a' => ih2 n d tag a'
  | fieldBoxed _ ih =>
    intro n d tag a v v' h h'
    cases n with
    | zero => exact .fails
    | succ n => exact ih n d tag a v v' h h'
  | fieldItem ht _ ih =>
    rename_i t e _ _ _
    intro n d tag a v v' h h'
    cases n with
    | zero => exact .fails
    | succ n =>
      have he := ih n d tag v v' h h'
      simp only [pops]
      cases t with
      | small m e' | large m e' | vec e' =>
        simp only [Ty.item] at ht
        split at ht
        · cases ht
        · rename_i hu
          rw [Ty.isByte_eq] at hu
          cases ht
          simp only [pField, hu, if_false, Bool.false_eq_true]
          repeat' split
          all_goals first | exact .refl _ | exact .bindl he | exact .bindr fun _ => .bindl he
      | coll k e' => simp only [Ty.item, Option.some.injEq] at ht; subst ht; simp only [pField]; exact .bindr fun _ => .bindl he
      | option e' =>
        simp only [Ty.item, Option.some.injEq] at ht; subst ht
        simp only [pField]
        split
        · exact .refl _
        · exact .bindl he
      | map k w => simp only [Ty.item, Option.some.injEq] at ht; subst ht; simp only [pField]; exact .bindr fun _ => .bindl he
      | _ => simp [Ty.item] at ht
  | fieldTuple _ ih =>
    intro n d tag a v v' h h'
    cases n with
    | zero => exact .fails
    | succ n =>
      simp only [pops, pField]
      split
      · exact .refl _
      · exact .bindl (ih n d tag v v' h h')
  | fieldNamed _ ih =>
    intro n d tag a v v' h h'
    cases n with
    | zero => exact .fails
    | succ n =>
      simp only [pops, pField]
      split
      · exact .refl _
      · exact .bindl (ih n d tag v v' h h')
  | elemBoxed _ ih =>
    intro n d tag v v' h h'
    cases n with
    | zero => exact .fails
    | succ n => exact ih n d tag v v' h h'
  | elemStruct ht _ ih =>
    rename_i t l l' _
    intro n d tag v v' h h'
    cases h; cases h'
    cases n with
    | zero => exact .fails
    | succ n =>
      have hb := ih n d l l' rfl rfl
      simp only [pops]
      cases t with
      | small m e' | large m e' | vec e' =>
        simp only [Ty.inStruct, Bool.not_eq_true', Ty.isByte_eq] at ht
        simp only [pElement, ht, if_false, Bool.false_eq_true]
        exact hb
      | tuple _ | coll _ _ | option _ | map _ _ | unknownFields _ => exact hb
      | named i =>
        simp only [Ty.inStruct, Ty.isByte_eq] at ht
        simp only [pElement]
        cases hd : env.decl i with
        | enum a b => rw [hd] at ht; cases ht
        | struct b =>
          rw [hd] at ht
          simp only at ht ⊢
          cases hb' : b.tail with
          | delegate _ _ => rw [hb'] at ht; cases ht
          | plain => exact hb
          | unknown _ _ => exact hb
      | _ => simp [Ty.inStruct] at ht
  | elemDelegate hd ht _ ih =>
    intro n d tag v v' h h'
    cases n with
    | zero => exact .fails
    | succ n =>
      simp only [pops, pElement, hd, ht]
      exact .bindr fun d' => .bindl (ih n d' tag v v' h h')
  | elemVariant hd hf _ ih =>
    rename_i i variants ca disc b l l' _
    intro n d tag v v' h h'
    cases h; cases h'
    cases n with
    | zero => exact .fails
    | succ n =>
      have hok := henv i
      rw [hd] at hok
      simp only [pops, pElement, hd, pEnum, hf]
      exact .bindl (ih (hok.1 _ (List.mem_of_find?_eq_some hf)) n d l l' rfl rfl)
  | elemCatchAll hd hf _ ih =>
    rename_i i variants disc b l l' _
    intro n d tag v v' h h'
    cases h; cases h'
    cases n with
    | zero => exact .fails
    | succ n =>
      have hok := henv i
      rw [hd] at hok
      simp only [pops, pElement, hd, pEnum, hf]
      exact .bindl (ih (hok.2 _ rfl) n d l l' rfl rfl)

end Fourleaf
