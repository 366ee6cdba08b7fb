import Verif.PropsCompact
import Verif.PropsBackward

/-! # C84: integers of another width, anywhere in a type -/

namespace Fourleaf.Props
open Fourleaf Spec

/-- Every number of the first type is one of the second, and both are signed or both unsigned. -/
structure IntTy.Wider (a b : IntTy) : Prop where
  signed : a.signed = b.signed
  min : b.min ≤ a.min
  max : a.max ≤ b.max

/-- Two types that are the same except that in some places the second one has a wider integer type. (But `u8` stays `u8` in byte vectors and byte arrays, which are blobs.) -/
inductive WideTy : Ty → Ty → Prop where
  | int {a b} : IntTy.Wider a b → WideTy (.prim (.int a)) (.prim (.int b))
  | prim {p} : WideTy (.prim p) (.prim p)
  | unknownFields {zc} : WideTy (.unknownFields zc) (.unknownFields zc)
  | unknownField {zc} : WideTy (.unknownField zc) (.unknownField zc)
  | named {i} : WideTy (.named i) (.named i)
  | boxed {t t'} : WideTy t t' → WideTy (.boxed t) (.boxed t')
  | small {n t t'} : t'.isByte = t.isByte → WideTy t t' → WideTy (.small n t) (.small n t')
  | large {n t t'} : t'.isByte = t.isByte → WideTy t t' → WideTy (.large n t) (.large n t')
  | vec {t t'} : t'.isByte = t.isByte → WideTy t t' → WideTy (.vec t) (.vec t')
  | coll {k t t'} : WideTy t t' → WideTy (.coll k t) (.coll k t')
  | option {t t'} : WideTy t t' → WideTy (.option t) (.option t')
  | map {k k' v v'} : WideTy k k' → WideTy v v' → WideTy (.map k v) (.map k' v')
  | tuple {ts ts' : List Ty} : ts'.length = ts.length → (∀ (j : Nat) (t t' : Ty), ts[j]? = some t → ts'[j]? = some t' → WideTy t t') → WideTy (.tuple ts) (.tuple ts')

inductive WideFields : List FieldDecl → List FieldDecl → Prop where
  | nil : WideFields [] []
  | cons {x x' xs xs'} : x'.tag = x.tag → WideTy x.ty x'.ty → WideFields xs xs' → WideFields (x :: xs) (x' :: xs')

inductive WideTail : Tail → Tail → Prop where
  | plain : WideTail .plain .plain
  | delegate {n n' t t'} : WideTy t t' → WideTail (.delegate n t) (.delegate n' t')
  | unknown {n n' zc} : WideTail (.unknown n zc) (.unknown n' zc)

structure WideBody (b b' : Body) : Prop where
  fields : WideFields b.fields b'.fields
  tail : WideTail b.tail b'.tail
  check : b'.check = b.check

inductive WideVariants : List (UInt64 × Body) → List (UInt64 × Body) → Prop where
  | nil : WideVariants [] []
  | cons {d b b' vs vs'} : WideBody b b' → WideVariants vs vs' → WideVariants ((d, b) :: vs) ((d, b') :: vs')

inductive WideDecl : Decl → Decl → Prop where
  | struct {b b'} : WideBody b b' → WideDecl (.struct b) (.struct b')
  | enum {vs vs'} : WideVariants vs vs' → WideDecl (.enum vs none) (.enum vs' none)
  | enumCatchAll {vs vs' b b'} : WideVariants vs vs' → WideBody b b' → WideDecl (.enum vs (some b)) (.enum vs' (some b'))

/-- The same for the declarations. -/
def WideEnv (env env' : Env) : Prop := ∀ i, WideDecl (env.decl i) (env'.decl i)

theorem IntTy.Wider.refl {a : IntTy} : IntTy.Wider a a := ⟨rfl, Int.le_refl _, Int.le_refl _⟩

theorem WideTy.refl : ∀ t : Ty, WideTy t t
  | .prim _ => .prim
  | .boxed t => .boxed (WideTy.refl t)
  | .small _ t => .small rfl (WideTy.refl t)
  | .large _ t => .large rfl (WideTy.refl t)
  | .vec t => .vec rfl (WideTy.refl t)
  | .coll _ t => .coll (WideTy.refl t)
  | .option t => .option (WideTy.refl t)
  | .map k v => .map (WideTy.refl k) (WideTy.refl v)
  | .unknownFields _ => .unknownFields
  | .unknownField _ => .unknownField
  | .named _ => .named
  | .tuple ts => .tuple rfl fun j t t' h h' => by
    rw [h] at h'; cases h'
    have : t.size < (Ty.tuple ts).size := by
      have := List.mem_of_getElem? h
      clear h
      simp only [Ty.size]
      induction ts with
      | nil => cases this
      | cons y ts ih =>
        simp only [Ty.sizes]
        rcases List.mem_cons.1 this with rfl | h
        · omega
        · have := ih h; omega
    exact WideTy.refl t
termination_by t => t.size
decreasing_by all_goals (try simp only [Ty.size] at *) <;> omega

/-! ## What stays the same -/

theorem wide_u8 {t t' : Ty} (h : t'.isByte = t.isByte) (hu : t.isU8 = true) : t = u8 ∧ t' = u8 := by
  have : ∀ {t : Ty}, t.isU8 = true → t = u8 := by
    intro t h
    unfold Ty.isU8 at h
    split at h
    · rfl
    · cases h
  exact ⟨this hu, this (h.trans hu)⟩

theorem wide_isSingle {t t' : Ty} (h : WideTy t t') : t'.isSingle = t.isSingle := by
  cases h <;> first | rfl | (simp only [Ty.isSingle, Ty.isByte_eq]; assumption)

theorem wide_isWrapped {env env' : Env} (he : WideEnv env env') {t t' : Ty} (h : WideTy t t') : t'.isWrapped env' = t.isWrapped env := by
  cases h with
  | @named i =>
    have := he i
    simp only [Ty.isWrapped]
    generalize env.decl i = a at this ⊢
    generalize env'.decl i = b at this ⊢
    cases this <;> rfl
  | _ => rfl

theorem wide_inStruct {env env' : Env} (he : WideEnv env env') {t t' : Ty} (h : WideTy t t') : t'.inStruct env' = t.inStruct env := by
  cases h with
  | @named i =>
    have := he i
    simp only [Ty.inStruct, Ty.isByte_eq]
    generalize env.decl i = a at this ⊢
    generalize env'.decl i = b at this ⊢
    cases this with
    | struct hb =>
      have := hb.tail
      simp only
      rename_i b b'
      generalize b.tail = a at this ⊢
      generalize b'.tail = a' at this ⊢
      cases this <;> rfl
    | _ => rfl
  | small hu h | large hu h | vec hu h => simp only [Ty.inStruct, hu, Ty.isByte_eq]
  | _ => rfl

theorem wide_tags {ds ds' : List FieldDecl} (h : WideFields ds ds') : ds'.map (·.tag) = ds.map (·.tag) := by
  induction h with
  | nil => rfl
  | cons h _ _ ih => simp [h, ih]

theorem wide_unknowns {ds ds' : List FieldDecl} (h : WideFields ds ds') (l : Fields) : unknowns ds' l = unknowns ds l := by
  have : ∀ g : Byte, ds'.any (·.tag = g) = ds.any (·.tag = g) := by
    intro g
    induction h with
    | nil => rfl
    | cons h _ _ ih => simp [h, ih]
  simp only [unknowns, this]

theorem wide_fields : ∀ {ds ds' : List FieldDecl}, ds'.length = ds.length →
    (∀ (j : Nat) (x x' : FieldDecl), ds[j]? = some x → ds'[j]? = some x' → x'.tag = x.tag ∧ WideTy x.ty x'.ty) → WideFields ds ds'
  | [], [], _, _ => .nil
  | [], _ :: _, hl, _ => by simp at hl
  | _ :: _, [], hl, _ => by simp at hl
  | x :: xs, x' :: xs', hl, h => .cons (h 0 x x' rfl rfl).1 (h 0 x x' rfl rfl).2
      (wide_fields (by simpa using hl) fun j y y' hy hy' => h (j + 1) y y' (by simpa using hy) (by simpa using hy'))

theorem wide_tupleFields {ts ts' : List Ty} (hl : ts'.length = ts.length)
    (h : ∀ (j : Nat) (t t' : Ty), ts[j]? = some t → ts'[j]? = some t' → WideTy t t') : WideFields (components ts) (components ts') := by
  refine wide_fields (by simpa [components] using hl) fun j x x' hx hx' => ?_
  simp only [components, List.getElem?_mapIdx, Option.map_eq_some_iff] at hx hx'
  obtain ⟨t, ht, rfl⟩ := hx
  obtain ⟨t', ht', rfl⟩ := hx'
  exact ⟨rfl, h j t t' ht ht'⟩

theorem wide_find {vs vs' : List (UInt64 × Body)} (h : WideVariants vs vs') {disc : UInt64} {b : Body} (hf : vs.find? (fun x => x.1 = disc) = some (disc, b)) :
    ∃ b', vs'.find? (fun x => x.1 = disc) = some (disc, b') ∧ WideBody b b' := by
  induction h with
  | nil => cases hf
  | cons hb _ ih =>
    rename_i d _ _ _ _ _
    by_cases hd : d = disc
    · subst hd
      simp at hf ⊢
      exact hf ▸ hb
    · simp only [List.find?_cons, hd, decide_false] at hf ⊢
      exact ih hf

theorem wide_discs {vs vs' : List (UInt64 × Body)} (h : WideVariants vs vs') {disc : UInt64} (hn : ∀ x ∈ vs, x.1 ≠ disc) : ∀ x ∈ vs', x.1 ≠ disc := by
  induction h with
  | nil => intro x hx; cases hx
  | cons hb _ ih =>
    intro x hx
    rcases List.mem_cons.1 hx with rfl | hx
    · exact fun he => hn _ (List.mem_cons_self ..) he
    · exact ih (fun y hy => hn y (List.mem_cons_of_mem _ hy)) x hx
theorem wide_find_none {vs vs' : List (UInt64 × Body)} (h : WideVariants vs vs') {disc : UInt64} (hf : vs.find? (fun x => x.1 = disc) = none) :
    vs'.find? (fun x => x.1 = disc) = none := by
  rw [List.find?_eq_none] at hf ⊢
  intro x hx
  simpa using wide_discs h (disc := disc) (fun y hy => by simpa using hf y hy) x hx

inductive WideItem : RItem → RItem → Prop where
  | body {t t'} : WideTy t t' → WideItem (.body t) (.body t')
  | field {t t'} : WideTy t t' → WideItem (.field t) (.field t')
  | elem {t t'} : WideTy t t' → WideItem (.elem t) (.elem t')
  | each {t t'} : WideTy t t' → WideItem (.each t) (.each t')
  | fields {ds ds'} : WideFields ds ds' → WideItem (.fields ds) (.fields ds')
  | parts {b b'} : WideBody b b' → WideItem (.parts b) (.parts b')
  | unknown {zc} : WideItem (.unknown zc) (.unknown zc)

/-- What the narrow type reads, the wide one reads. -/
theorem wide_reads {env env' : Env} (he : WideEnv env env') {cfg : Config} {it : RItem} {d : Nat} {vals : List Val} {vs : List V} {c : Stats}
    (h : Reads env cfg it d vals vs c) : ∀ {it'}, WideItem it it' → Reads env' cfg it' d vals vs c := by
  have hdecl : ∀ {i a}, env.decl i = a → ∃ a', env'.decl i = a' ∧ WideDecl a a' := by rintro i _ rfl; exact ⟨_, rfl, he i⟩
  induction h with
  | bodyBoxed _ ih =>
    rintro _ ⟨ho⟩
    cases ho with
    | boxed ho => exact .bodyBoxed (ih (.body ho))
  | bodyTuple hl hi _ ih =>
    rintro _ ⟨ho⟩
    cases ho with
    | tuple hl' ho =>
      have hof := wide_tupleFields hl' ho
      exact .bodyTuple (by omega) (by rw [wide_tags hof]; exact hi) (ih (.fields hof))
  | bodyUnknown _ ih =>
    rintro _ ⟨ho⟩
    cases ho with
    | unknownFields => exact .bodyUnknown (ih .unknown)
  | bodyStruct hd _ ih =>
    rintro _ ⟨ho⟩
    cases ho with
    | named =>
      obtain ⟨a, hb, h'⟩ := hdecl hd
      cases h' with
      | struct hb' => exact .bodyStruct hb (ih (.parts hb'))
  | bodyWrapped hw hi hd _ ih =>
    rintro _ ⟨ho⟩
    exact .bodyWrapped (by rw [wide_isWrapped he ho]; exact hw) hi hd (ih (.field ho))
  | fieldBoxed _ ih =>
    rintro _ (⟨⟩ | ⟨ho⟩)
    cases ho with
    | boxed ho => exact .fieldBoxed (ih (.field ho))
  | fieldSingle hs _ ih =>
    intro _ ho
    cases ho with
    | field ho => exact .fieldSingle (by rw [wide_isSingle ho]; exact hs) (ih (.elem ho))
  | fieldNoBytes =>
    intro _ ho
    cases ho with
    | field ho =>
    cases ho with
    | small hu ho => rw [(wide_u8 hu rfl).2]; exact .fieldNoBytes
  | fieldNoBytesL h =>
    intro _ ho
    cases ho with
    | field ho =>
    cases ho with
    | large hu ho => rw [(wide_u8 hu rfl).2]; exact .fieldNoBytesL h
  | fieldVec hu _ ih =>
    rw [Ty.isByte_eq] at hu
    intro _ ho
    cases ho with
    | field ho =>
    cases ho with
    | vec hu' ho => exact .fieldVec (by rw [hu']; exact hu) (ih (.each ho))
  | fieldList _ ih =>
    intro _ ho
    cases ho with
    | field ho =>
    cases ho with
    | coll ho => exact .fieldList (ih (.each ho))
  | fieldSet _ ih =>
    intro _ ho
    cases ho with
    | field ho =>
    cases ho with
    | coll ho => exact .fieldSet (ih (.each ho))
  | fieldMap _ ih =>
    intro _ ho
    cases ho with
    | field ho =>
    cases ho with
    | @map _ k' _ v' hk hw =>
      exact .fieldMap (ih (.each (.tuple (ts' := [k', v']) rfl fun j t t' h h' => by
        match j with
        | 0 => cases h; cases h'; exact hk
        | 1 => cases h; cases h'; exact hw
        | n + 2 => cases h)))
  | fieldOption hl _ ih =>
    intro _ ho
    cases ho with
    | field ho =>
    cases ho with
    | option ho => exact .fieldOption hl (ih (.each ho))
  | fieldSmall hu hl _ ih =>
    rw [Ty.isByte_eq] at hu
    intro _ ho
    cases ho with
    | field ho =>
    cases ho with
    | small hu' ho => exact .fieldSmall (by rw [hu']; exact hu) hl (ih (.each ho))
  | fieldLarge hu hl _ ih =>
    rw [Ty.isByte_eq] at hu
    intro _ ho
    cases ho with
    | field ho =>
    cases ho with
    | large hu' ho => exact .fieldLarge (by rw [hu']; exact hu) hl (ih (.each ho))
  | elemPrim hp =>
    intro _ ho
    cases ho with
    | elem ho =>
    cases ho with
    | int hw =>
      cases hp with
      | int g1 g2 g3 => exact .elemPrim (.int (Int.le_trans hw.min g1) (Int.le_trans g2 hw.max) (by rw [g3]; simp [IntTy.wire, hw.signed]))
    | prim => exact .elemPrim hp
  | elemBoxed _ ih =>
    intro _ ho
    cases ho with
    | elem ho =>
    cases ho with
    | boxed ho => exact .elemBoxed (ih (.elem ho))
  | elemVec =>
    intro _ ho
    cases ho with
    | elem ho =>
    cases ho with
    | vec hu ho => rw [(wide_u8 hu rfl).2]; exact .elemVec
  | elemSmall h =>
    intro _ ho
    cases ho with
    | elem ho =>
    cases ho with
    | small hu ho => rw [(wide_u8 hu rfl).2]; exact .elemSmall h
  | elemLarge h =>
    intro _ ho
    cases ho with
    | elem ho =>
    cases ho with
    | large hu ho => rw [(wide_u8 hu rfl).2]; exact .elemLarge h
  | elemStruct hs _ ih =>
    intro _ ho
    cases ho with
    | elem ho => exact .elemStruct (by rw [wide_inStruct he ho]; exact hs) (ih (.body ho))
  | elemDelegate hd ht hr hc _ ih =>
    intro _ ho
    cases ho with
    | elem ho =>
    cases ho with
    | named =>
      obtain ⟨a, hb, h'⟩ := hdecl hd
      cases h' with
      | @struct b b' hb' =>
        have htl := hb'.tail
        rw [ht] at htl
        generalize hbt : b'.tail = tl at htl
        cases htl with
        | delegate ho => exact .elemDelegate hb hbt hr (by rw [hb'.check]; exact hc) (ih (.elem ho))
  | elemVariant hd hf _ ih =>
    intro _ ho
    cases ho with
    | elem ho =>
    cases ho with
    | named =>
      obtain ⟨a, hb, h'⟩ := hdecl hd
      cases h' with
      | enum hv =>
        obtain ⟨b', hf', hb'⟩ := wide_find hv hf
        exact .elemVariant hb hf' (ih (.parts hb'))
      | enumCatchAll hv =>
        obtain ⟨b', hf', hb'⟩ := wide_find hv hf
        exact .elemVariant hb hf' (ih (.parts hb'))
  | elemCatchAll hd hn _ ih =>
    intro _ ho
    cases ho with
    | elem ho =>
    cases ho with
    | named =>
      obtain ⟨a, hb, h'⟩ := hdecl hd
      cases h' with
      | enumCatchAll hv hb' => exact .elemCatchAll hb (wide_discs hv hn) (ih (.parts hb'))
  | unkInt =>
    intro _ ho
    cases ho with
    | elem ho => cases ho with | unknownField => exact .unkInt
  | unkBlob =>
    intro _ ho
    cases ho with
    | elem ho => cases ho with | unknownField => exact .unkBlob
  | unkStruct _ ih =>
    intro _ ho
    cases ho with
    | elem ho => cases ho with | unknownField => exact .unkStruct (ih (.body .unknownFields))
  | unkEnum _ ih =>
    intro _ ho
    cases ho with
    | elem ho => cases ho with | unknownField => exact .unkEnum (ih (.body .unknownFields))
  | eachNil =>
    intro _ ho
    cases ho with
    | each ho => exact .eachNil
  | eachCons _ _ ih1 ih2 =>
    intro _ ho
    cases ho with
    | each ho => exact .eachCons (ih1 (.elem ho)) (ih2 (.each ho))
  | fieldsNil =>
    intro _ ho
    cases ho with
    | fields ho => cases ho; exact .fieldsNil
  | fieldsCons hd _ _ ih1 ih2 =>
    intro _ ho
    cases ho with
    | fields ho =>
      cases ho with
      | cons ht hx hxs => exact .fieldsCons hd (ht ▸ ih1 (.field hx)) (ih2 (.fields hxs))
  | partsPlain ht hc hi _ ih =>
    intro _ ho
    cases ho with
    | @parts b b' ho =>
      have htl := ho.tail
      rw [ht] at htl
      generalize hbt : b'.tail = tl at htl
      cases htl with
      | plain => exact .partsPlain hbt (by rw [ho.check]; exact hc) (by rw [wide_tags ho.fields]; exact hi) (ih (.fields ho.fields))
  | partsDelegate ht hc hd _ ih =>
    intro _ ho
    cases ho with
    | @parts b b' ho =>
      have htl := ho.tail
      rw [ht] at htl
      generalize hbt : b'.tail = tl at htl
      cases htl with
      | delegate hty => exact .partsDelegate hbt (by rw [ho.check]; exact hc) hd (ih (.body hty))
  | partsUnknown ht hc hd _ _ ih1 ih2 =>
    intro _ ho
    cases ho with
    | @parts b b' ho =>
      have htl := ho.tail
      rw [ht] at htl
      generalize hbt : b'.tail = tl at htl
      cases htl with
      | unknown => exact .partsUnknown hbt (by rw [ho.check]; exact hc) hd (ih1 (.fields ho.fields)) (by rw [wide_unknowns ho.fields]; exact ih2 .unknown)
  | unknownNil =>
    intro _ ho
    cases ho with
    | unknown => exact .unknownNil
  | unknownCons hd _ _ ih1 ih2 =>
    intro _ ho
    cases ho with
    | unknown => exact .unknownCons hd (ih1 (.elem .unknownField)) (ih2 .unknown)

/-! ## Values -/

inductive WideNeed : Item → Item → Prop where
  | body {t t'} : WideTy t t' → WideNeed (.body t) (.body t')
  | field {t t'} : WideTy t t' → WideNeed (.field t) (.field t')
  | elem {t t'} : WideTy t t' → WideNeed (.elem t) (.elem t')
  | each {t t'} : WideTy t t' → WideNeed (.each t) (.each t')
  | fields {ds ds'} : WideFields ds ds' → WideNeed (.fields ds) (.fields ds')
  | parts {b b'} : WideBody b b' → WideNeed (.parts b) (.parts b')
  | unknown {known zc} : WideNeed (.unknown known zc) (.unknown known zc)

theorem wide_isColl {t t' : Ty} (h : WideTy t t') : t'.isColl = t.isColl := by
  cases h <;> first | rfl | (simp only [Ty.isColl, ← Ty.isByte_eq]; simp only [*])

theorem wide_nil {ts ts' : List Ty} (hl : ts'.length = ts.length) (h : ts ≠ []) : ts' ≠ [] := by
  rintro rfl; exact h (List.length_eq_zero_iff.1 hl.symm)

theorem wide_fields_nil {ds ds' : List FieldDecl} (h : WideFields ds ds') (e : ds = []) : ds' = [] := by
  subst e; cases h; rfl

/-- Every value of the narrow type is one of the wide one. -/
theorem wide_needs {env env' : Env} (he : WideEnv env env') {it : Item} {vs : List V} {k : Need} (h : Needs env it vs k) : ∀ {it'}, WideNeed it it' → Needs env' it' vs k := by
  have hdecl : ∀ {i a}, env.decl i = a → ∃ a', env'.decl i = a' ∧ WideDecl a a' := by rintro i _ rfl; exact ⟨_, rfl, he i⟩
  induction h with
  | bodyBoxed _ ih =>
    rintro _ ⟨ho⟩
    cases ho with
    | boxed ho => exact .bodyBoxed (ih (.body ho))
  | bodyUnit =>
    rintro _ ⟨ho⟩
    cases ho with
    | tuple hl _ => cases List.length_eq_zero_iff.1 hl; exact .bodyUnit
  | bodyTuple hn hl _ ih =>
    rintro _ ⟨ho⟩
    cases ho with
    | tuple hl' ho => exact .bodyTuple (wide_nil hl' hn) (by omega) (ih (.fields (wide_tupleFields hl' ho)))
  | bodyUnknown _ ih =>
    rintro _ ⟨ho⟩
    cases ho with
    | unknownFields => exact .bodyUnknown (ih .unknown)
  | bodyStruct hd _ ih =>
    rintro _ ⟨ho⟩
    cases ho with
    | named =>
      obtain ⟨a, hb, h'⟩ := hdecl hd
      cases h' with
      | struct hb' => exact .bodyStruct hb (ih (.parts hb'))
  | bodyWrapped hw _ ih =>
    rintro _ ⟨ho⟩
    exact .bodyWrapped (by rw [wide_isWrapped he ho]; exact hw) (ih (.field ho))
  | fieldBoxed _ ih =>
    rintro _ (⟨⟩ | ⟨ho⟩)
    cases ho with
    | boxed ho => exact .fieldBoxed (ih (.field ho))
  | fieldSingle hs _ ih =>
    intro _ ho
    cases ho with
    | field ho => exact .fieldSingle (by rw [wide_isSingle ho]; exact hs) (ih (.elem ho))
  | fieldVec hu _ ih =>
    rw [Ty.isByte_eq] at hu
    intro _ ho
    cases ho with
    | field ho =>
    cases ho with
    | vec hu' ho => exact .fieldVec (by rw [hu']; exact hu) (ih (.each ho))
  | fieldSmall hu hl _ ih =>
    rw [Ty.isByte_eq] at hu
    intro _ ho
    cases ho with
    | field ho =>
    cases ho with
    | small hu' ho => exact .fieldSmall (by rw [hu']; exact hu) hl (ih (.each ho))
  | fieldLarge hu hl _ ih =>
    rw [Ty.isByte_eq] at hu
    intro _ ho
    cases ho with
    | field ho =>
    cases ho with
    | large hu' ho => exact .fieldLarge (by rw [hu']; exact hu) hl (ih (.each ho))
  | fieldList _ ih =>
    intro _ ho
    cases ho with
    | field ho =>
    cases ho with
    | coll ho => exact .fieldList (ih (.each ho))
  | fieldSet hn _ ih =>
    intro _ ho
    cases ho with
    | field ho =>
    cases ho with
    | coll ho => exact .fieldSet hn (ih (.each ho))
  | fieldOption hl _ ih =>
    intro _ ho
    cases ho with
    | field ho =>
    cases ho with
    | option ho => exact .fieldOption hl (ih (.each ho))
  | fieldMap hn _ ih =>
    intro _ ho
    cases ho with
    | field ho =>
    cases ho with
    | @map _ k' _ v' hk hw =>
      exact .fieldMap hn (ih (.each (.tuple (ts' := [k', v']) rfl fun j t t' h h' => by
        match j with
        | 0 => cases h; cases h'; exact hk
        | 1 => cases h; cases h'; exact hw
        | n + 2 => cases h)))
  | elemPrim hp =>
    intro _ ho
    cases ho with
    | elem ho =>
    cases ho with
    | int hw =>
      cases hp with
      | int g1 g2 => exact .elemPrim (.int (Int.le_trans hw.min g1) (Int.le_trans g2 hw.max))
    | prim => exact .elemPrim hp
  | elemBoxed _ ih =>
    intro _ ho
    cases ho with
    | elem ho =>
    cases ho with
    | boxed ho => exact .elemBoxed (ih (.elem ho))
  | elemVec h =>
    intro _ ho
    cases ho with
    | elem ho =>
    cases ho with
    | vec hu ho => rw [(wide_u8 hu rfl).2]; exact .elemVec h
  | elemSmall h h' =>
    intro _ ho
    cases ho with
    | elem ho =>
    cases ho with
    | small hu ho => rw [(wide_u8 hu rfl).2]; exact .elemSmall h h'
  | elemLarge h h' =>
    intro _ ho
    cases ho with
    | elem ho =>
    cases ho with
    | large hu ho => rw [(wide_u8 hu rfl).2]; exact .elemLarge h h'
  | elemColl hc _ ih =>
    intro _ ho
    cases ho with
    | elem ho => exact .elemColl (by rw [wide_isColl ho]; exact hc) (ih (.field ho))
  | elemUnit =>
    intro _ ho
    cases ho with
    | elem ho =>
    cases ho with
    | tuple hl _ => cases List.length_eq_zero_iff.1 hl; exact .elemUnit
  | elemTuple hn _ ih =>
    intro _ ho
    cases ho with
    | elem ho =>
    cases ho with
    | tuple hl ho => exact .elemTuple (wide_nil hl hn) (ih (.body (.tuple hl ho)))
  | elemUnknown _ ih =>
    intro _ ho
    cases ho with
    | elem ho =>
    cases ho with
    | unknownFields => exact .elemUnknown (ih (.body .unknownFields))
  | elemStruct hd ht _ ih =>
    intro _ ho
    cases ho with
    | elem ho =>
    cases ho with
    | named =>
      obtain ⟨a, hb, h'⟩ := hdecl hd
      cases h' with
      | @struct b0 b' hb' =>
        refine .elemStruct hb ?_ (ih (.body .named))
        have htl := hb'.tail
        revert ht htl
        generalize Body.tail _ = x
        generalize b'.tail = y
        intro ht htl
        cases htl with
        | plain => rfl
        | delegate => cases ht
        | unknown => rfl
  | elemDelegate hd ht hf hc _ ih =>
    intro _ ho
    cases ho with
    | elem ho =>
    cases ho with
    | named =>
      obtain ⟨a, hb, h'⟩ := hdecl hd
      cases h' with
      | @struct b b' hb' =>
        have htl := hb'.tail
        rw [ht] at htl
        generalize hbt : b'.tail = tl at htl
        cases htl with
        | delegate ho => exact .elemDelegate hb hbt (wide_fields_nil hb'.fields hf) (by rw [hb'.check]; exact hc) (ih (.elem ho))
  | elemVariant hd hf _ ih =>
    intro _ ho
    cases ho with
    | elem ho =>
    cases ho with
    | named =>
      obtain ⟨a, hb, h'⟩ := hdecl hd
      cases h' with
      | enum hv =>
        obtain ⟨b', hf', hb'⟩ := wide_find hv hf
        exact .elemVariant hb hf' (ih (.parts hb'))
      | enumCatchAll hv =>
        obtain ⟨b', hf', hb'⟩ := wide_find hv hf
        exact .elemVariant hb hf' (ih (.parts hb'))
  | elemCatchAll hd hn _ ih =>
    intro _ ho
    cases ho with
    | elem ho =>
    cases ho with
    | named =>
      obtain ⟨a, hb, h'⟩ := hdecl hd
      cases h' with
      | enumCatchAll hv hb' => exact .elemCatchAll hb (wide_discs hv hn) (ih (.parts hb'))
  | unkInt =>
    intro _ ho
    cases ho with
    | elem ho => cases ho with | unknownField => exact .unkInt
  | unkBlob h =>
    intro _ ho
    cases ho with
    | elem ho => cases ho with | unknownField => exact .unkBlob h
  | unkStruct _ ih =>
    intro _ ho
    cases ho with
    | elem ho => cases ho with | unknownField => exact .unkStruct (ih (.body .unknownFields))
  | unkEnum _ ih =>
    intro _ ho
    cases ho with
    | elem ho => cases ho with | unknownField => exact .unkEnum (ih (.body .unknownFields))
  | eachNil =>
    intro _ ho
    cases ho with
    | each ho => exact .eachNil
  | eachCons _ _ ih1 ih2 =>
    intro _ ho
    cases ho with
    | each ho => exact .eachCons (ih1 (.elem ho)) (ih2 (.each ho))
  | fieldsNil =>
    intro _ ho
    cases ho with
    | fields ho => cases ho; exact .fieldsNil
  | fieldsCons _ _ ih1 ih2 =>
    intro _ ho
    cases ho with
    | fields ho =>
      cases ho with
      | cons ht hx hxs => exact .fieldsCons (ih1 (.field hx)) (ih2 (.fields hxs))
  | partsPlain ht hc _ ih =>
    intro _ ho
    cases ho with
    | @parts b b' ho =>
      have htl := ho.tail
      rw [ht] at htl
      generalize hbt : b'.tail = tl at htl
      cases htl with
      | plain => exact .partsPlain hbt (by rw [ho.check]; exact hc) (ih (.fields ho.fields))
  | partsDelegate ht hf hc _ ih =>
    intro _ ho
    cases ho with
    | @parts b b' ho =>
      have htl := ho.tail
      rw [ht] at htl
      generalize hbt : b'.tail = tl at htl
      cases htl with
      | delegate hty => exact .partsDelegate hbt (wide_fields_nil ho.fields hf) (by rw [ho.check]; exact hc) (ih (.body hty))
  | partsUnknown ht hc _ _ ih1 ih2 =>
    intro _ ho
    cases ho with
    | @parts b b' ho =>
      have htl := ho.tail
      rw [ht] at htl
      generalize hbt : b'.tail = tl at htl
      cases htl with
      | unknown => exact .partsUnknown hbt (by rw [ho.check]; exact hc) (ih1 (.fields ho.fields)) (by rw [wide_tags ho.fields]; exact ih2 .unknown)
  | unknownNil =>
    intro _ ho
    cases ho with
    | unknown => exact .unknownNil
  | unknownCons h1 h2 _ _ ih1 ih2 =>
    intro _ ho
    cases ho with
    | unknown => exact .unknownCons h1 h2 (ih1 (.elem .unknownField)) (ih2 .unknown)

/-! ## What is written -/

/-- If the first is defined, so is the second, and the calls write the same elements. -/
def OTok (a b : Option (List WCall)) : Prop := ∀ cs, a = some cs → ∃ cs', b = some cs' ∧ callToks cs' = callToks cs

theorem OTok.refl (a : Option (List WCall)) : OTok a a := fun cs h => ⟨cs, h, rfl⟩

theorem OTok.map {a b : Option (List WCall)} (h : OTok a b) {f : List WCall → List WCall} (hf : ∀ x y, callToks x = callToks y → callToks (f x) = callToks (f y)) :
    OTok (a.map f) (b.map f) := by
  intro cs hcs
  obtain ⟨x, rfl, rfl⟩ := Option.map_eq_some_iff.1 hcs
  obtain ⟨y, rfl, hy⟩ := h x rfl
  exact ⟨_, rfl, hf _ _ hy⟩

theorem OTok.snoc {a b : Option (List WCall)} (h : OTok a b) {e : List WCall} : OTok (a.map (· ++ e)) (b.map (· ++ e)) :=
  h.map fun x y hxy => by rw [callToks_append, callToks_append, hxy]

theorem OTok.cons {a b : Option (List WCall)} (h : OTok a b) {e : WCall} : OTok (a.map (e :: ·)) (b.map (e :: ·)) :=
  h.map fun x y hxy => by rw [callToks_cons, callToks_cons, hxy]

theorem OTok.bind {a b : Option (List WCall)} (h : OTok a b) {f g : List WCall → Option (List WCall)} (hf : ∀ x y, callToks y = callToks x → OTok (f x) (g y)) :
    OTok (a.bind f) (b.bind g) := by
  intro cs hcs
  obtain ⟨x, rfl, hx⟩ := Option.bind_eq_some_iff.1 hcs
  obtain ⟨y, rfl, hy⟩ := h x rfl
  exact hf x y hy cs hx

theorem OTok.append {a b : List WCall} (h : callToks b = callToks a) {x y : Option (List WCall)} (h' : OTok x y) : OTok (x.map (a ++ ·)) (y.map (b ++ ·)) := by
  intro cs hcs
  obtain ⟨z, rfl, rfl⟩ := Option.map_eq_some_iff.1 hcs
  obtain ⟨w, rfl, hw⟩ := h' z rfl
  exact ⟨_, rfl, by rw [callToks_append, callToks_append, h, hw]⟩

theorem OTok.map' {a b : Option (List WCall)} (h : OTok a b) {f g : List WCall → List WCall} (hf : ∀ x y, callToks y = callToks x → callToks (g y) = callToks (f x)) :
    OTok (a.map f) (b.map g) := by
  intro cs hcs
  obtain ⟨x, rfl, rfl⟩ := Option.map_eq_some_iff.1 hcs
  obtain ⟨y, rfl, hy⟩ := h x rfl
  exact ⟨_, rfl, hf _ _ hy⟩

theorem serAll_tok {f g : V → Option (List WCall)} (h : ∀ v, OTok (f v) (g v)) : ∀ vs, OTok (serAll f vs) (serAll g vs)
  | [] => .refl _
  | v :: vs => (h v).bind fun _ _ e => .append e (serAll_tok h vs)

/-- The methods for the wide types write the same as those for the narrow types. -/
structure STok (o o' : SOps) : Prop where
  body : ∀ {t t'}, WideTy t t' → ∀ v, OTok (o.body t v) (o'.body t' v)
  field : ∀ {t t'}, WideTy t t' → ∀ g v, OTok (o.field t g v) (o'.field t' g v)
  element : ∀ {t t'}, WideTy t t' → ∀ g v, OTok (o.element t g v) (o'.element t' g v)

section
variable {o o' : SOps} (H : STok o o')
include H

theorem serFields_tok {ds ds' : List FieldDecl} (h : WideFields ds ds') : ∀ (vs : List V) (r : List WCall × List V), serFields o ds vs = some r →
    ∃ a, serFields o' ds' vs = some (a, r.2) ∧ callToks a = callToks r.1 := by
  induction h with
  | nil => intro vs r hr; cases hr; exact ⟨_, rfl, rfl⟩
  | @cons x x' xs xs' ht hx _ ih =>
    intro vs r hr
    cases vs with
    | nil => cases hr
    | cons v vs =>
      simp only [serFields] at hr ⊢
      obtain ⟨a, h1, h2⟩ := Option.bind_eq_some_iff.1 hr
      obtain ⟨b, h3, rfl⟩ := Option.map_eq_some_iff.1 h2
      obtain ⟨a', g1, g2⟩ := H.field hx x.tag v a h1
      obtain ⟨b', g3, g4⟩ := ih vs b h3
      refine ⟨a' ++ b', ?_, ?_⟩
      · rw [ht, g1, Option.bind_some, g3, Option.map_some]
      · rw [callToks_append, callToks_append, g2, g4]

theorem macroBodySer_tok {b b' : Body} (h : WideBody b b') (vs : List V) : OTok (macroBodySer o b vs) (macroBodySer o' b' vs) := by
  intro cs hcs
  simp only [macroBodySer] at hcs ⊢
  obtain ⟨r, h1, h2⟩ := Option.bind_eq_some_iff.1 hcs
  obtain ⟨a, g1, g2⟩ := serFields_tok H h.fields vs r h1
  rw [g1, Option.bind_some]
  have ht := h.tail
  generalize b.tail = x at ht h2
  generalize b'.tail = y at ht ⊢
  generalize r.2 = rest at h2 ⊢
  cases ht with
  | plain =>
    cases rest with
    | nil => cases h2; exact ⟨_, rfl, by rw [callToks_append, callToks_append, g2]⟩
    | cons => cases h2
  | delegate ho =>
    match rest, h2 with
    | [v], h2 => exact OTok.append g2 (H.body ho v) cs h2
  | unknown =>
    match rest, h2 with
    | [v], h2 => exact OTok.append g2 (H.body .unknownFields v) cs h2

theorem serUnknown_tok (zc : Bool) (v : V) : OTok (serUnknown o zc v) (serUnknown o' zc v) := by
  intro x hx
  unfold serUnknown at *
  split at hx
  · split at hx
    · rename_i h; simp only [h, and_self, if_true]; exact H.field .unknownField _ _ _ hx
    · cases hx
  · cases hx

theorem default_tok {t t' : Ty} (h : WideTy t t') (v : V) : OTok (defaultBodySer o t v) (defaultBodySer o' t' v) := (H.field h 1 v).snoc

theorem wrapped_tok {t t' : Ty} (h : WideTy t t') (g : Byte) (v : V) : OTok (wrapped o t g v) (wrapped o' t' g v) :=
  (H.field h 1 v).map fun x y e => by
    show callToks ((.struct g :: x) ++ [.endStruct]) = callToks ((.struct g :: y) ++ [.endStruct])
    rw [callToks_append, callToks_append, callToks_cons, callToks_cons _ y, e]

omit H in
theorem wide_tuple_cons {ts ts' : List Ty} (hl : ts'.length = ts.length)
    (h : ∀ (j : Nat) (t t' : Ty), ts[j]? = some t → ts'[j]? = some t' → WideTy t t') : WideFields (tupleFields ts) (tupleFields ts') := by
  rw [tupleFields_components, tupleFields_components]
  exact wide_tupleFields hl h

theorem bodySer_tok {env env' : Env} (he : WideEnv env env') {t t' : Ty} (h : WideTy t t') (v : V) : OTok (bodySer env o t v) (bodySer env' o' t' v) := by
  have hd := default_tok H h v
  cases h with
  | boxed h => exact H.body h v
  | @tuple ts ts' hl ho =>
    cases ts with
    | nil => cases List.length_eq_zero_iff.1 hl; exact hd
    | cons t ts =>
      cases ts' with
      | nil => cases hl
      | cons t' ts' =>
        cases v with
        | seq vs =>
          intro x hx
          simp only [bodySer] at hx ⊢
          split at hx
          · rename_i a ha
            obtain ⟨b, g1, g2⟩ := serFields_tok H (wide_tuple_cons hl ho) vs _ ha
            rw [g1]
            cases hx
            exact ⟨_, rfl, by rw [callToks_append, callToks_append, g2]⟩
          · cases hx
        | _ => exact fun _ h => by cases h
  | unknownFields =>
    cases v with
    | seq vs => exact (serAll_tok (serUnknown_tok H _) vs).snoc
    | _ => exact fun _ h => by cases h
  | @named i =>
    cases v with
    | seq vs =>
      have := he i
      simp only [bodySer]
      generalize env.decl i = a at this ⊢
      generalize env'.decl i = b at this ⊢
      cases this with
      | struct hb => exact macroBodySer_tok H hb vs
      | enum => exact hd
      | enumCatchAll => exact hd
    | _ => exact hd
  | _ => exact hd

omit H in
theorem int_tok {a b : IntTy} (h : IntTy.Wider a b) (g : Byte) (v : V) : OTok ((Prim.int a).ser g v) ((Prim.int b).ser g v) := by
  intro cs hcs
  cases v with
  | num i =>
    simp only [Prim.ser] at hcs ⊢
    split at hcs
    · rename_i hr
      cases hcs
      have h1 := Int.le_trans h.min hr.1
      have h2 := Int.le_trans hr.2 h.max
      rw [if_pos ⟨h1, h2⟩]
      refine ⟨_, rfl, ?_⟩
      obtain ⟨n, e1, e2⟩ := IntTy.call_toks a g hr.1 hr.2
      obtain ⟨n', e3, e4⟩ := IntTy.call_toks b g h1 h2
      have : n' = n := by
        apply UInt64.toNat_inj.1
        have : (n'.toNat : Int) = n.toNat := by rw [e4, e2]; simp [IntTy.wire, h.signed]
        omega
      rw [callToks_cons, callToks_cons, e1, e3, this]
    · cases hcs
  | _ => cases hcs

theorem elementSer_tok {env env' : Env} (he : WideEnv env env') {t t' : Ty} (h : WideTy t t') (g : Byte) (v : V) : OTok (elementSer env o t g v) (elementSer env' o' t' g v) := by
  have hw := wrapped_tok H h g v
  cases h with
  | int h => exact int_tok h g v
  | prim => exact .refl _
  | boxed h => exact H.element h g v
  | vec hu _ => cases v with
    | seq vs => simp only [Ty.isByte_eq] at hu; simp only [elementSer, hu]; split; exact .refl _; exact hw
    | _ => exact .refl _
  | small hu _ => cases v with
    | seq vs => simp only [Ty.isByte_eq] at hu; simp only [elementSer, hu]; split; exact .refl _; exact hw
    | _ => exact .refl _
  | large hu _ => cases v with
    | seq vs => simp only [Ty.isByte_eq] at hu; simp only [elementSer, hu]; split; exact .refl _; exact hw
    | _ => exact .refl _
  | coll => exact hw
  | option => exact hw
  | map => exact hw
  | @tuple ts ts' hl ho =>
    have hb := H.body (WideTy.tuple hl ho) v
    cases ts with
    | nil =>
      cases List.length_eq_zero_iff.1 hl
      have : elementSer env o (.tuple []) g v = elementSer env' o' (.tuple []) g v := by
        cases v <;> first | rfl | (rename_i l; cases l <;> rfl)
      rw [this]
      exact .refl _
    | cons t ts =>
      cases ts' with
      | nil => cases hl
      | cons t' ts' => exact hb.cons
  | unknownFields => exact (H.body .unknownFields v).cons
  | @unknownField zc =>
    intro x hx
    have hb : ∀ u, OTok (o.body (.unknownFields zc) u) (o'.body (.unknownFields zc) u) := fun u => H.body .unknownFields u
    unfold elementSer at hx ⊢
    cases v with
    | variant d vs =>
      split at hx
      all_goals try (rename_i heq; cases heq; done)
      all_goals try (rename_i heq _; cases heq; done)
      all_goals try (rename_i heq1 heq2; cases heq1; cases heq2)
      all_goals first
        | exact ⟨x, hx, rfl⟩
        | exact (hb _).cons x hx
        | (split at hx
           · rename_i hr
             rw [if_pos hr]
             exact (hb _).cons x hx
           · cases hx)
        | (exfalso; exact Option.some_ne_none _ hx.symm)
    | _ => cases hx
  | @named i =>
    intro x hx
    have hbody := H.body (WideTy.named (i := i)) v
    have hd := he i
    unfold elementSer at hx ⊢
    simp only at hx ⊢
    generalize env.decl i = a at hd hx
    generalize env'.decl i = b at hd ⊢
    cases hd with
    | @struct b b' hb =>
      cases v with
      | seq vs =>
        simp only at hx ⊢
        have ht := hb.tail
        generalize b.tail = y at ht hx
        generalize b'.tail = z at ht ⊢
        cases ht with
        | plain => exact hbody.cons x hx
        | unknown => exact hbody.cons x hx
        | delegate ho =>
          match vs, hx with
          | [u], hx => exact H.element ho g u x hx
      | _ => cases hx
    | @enum vs vs' hv =>
      cases v with
      | variant d us =>
        simp only at hx ⊢
        cases hf : vs.find? (fun x => x.1 = d) with
        | none => rw [hf] at hx; cases hx
        | some y =>
          obtain ⟨d', b⟩ := y
          have hd' : d' = d := by simpa using List.find?_some hf
          subst hd'
          obtain ⟨b', g1, g2⟩ := wide_find hv hf
          rw [hf] at hx
          rw [g1]
          exact (macroBodySer_tok H g2 us).cons x hx
      | _ => cases hx
    | @enumCatchAll vs vs' b b' hv hb =>
      cases v with
      | variant d us =>
        simp only at hx ⊢
        cases hf : vs.find? (fun x => x.1 = d) with
        | none =>
          rw [hf] at hx
          rw [wide_find_none hv hf]
          exact (macroBodySer_tok H hb us).cons x hx
        | some y =>
          obtain ⟨d', b⟩ := y
          have hd' : d' = d := by simpa using List.find?_some hf
          subst hd'
          obtain ⟨b', g1, g2⟩ := wide_find hv hf
          rw [hf] at hx
          rw [g1]
          exact (macroBodySer_tok H g2 us).cons x hx
      | _ => cases hx

theorem fieldSer_tok {t t' : Ty} (h : WideTy t t') (g : Byte) (v : V) : OTok (fieldSer o t g v) (fieldSer o' t' g v) := by
  have hE := H.element h g v
  cases h with
  | boxed h => exact H.field h g v
  | vec hu h => cases v with
    | seq vs => simp only [Ty.isByte_eq] at hu; simp only [fieldSer, hu]; split; exact .refl _; exact serAll_tok (H.element h g) vs
    | _ => exact .refl _
  | small hu h => cases v with
    | seq vs => simp only [Ty.isByte_eq] at hu; simp only [fieldSer, hu]; split; exact .refl _; exact serAll_tok (H.element h g) vs
    | _ => exact .refl _
  | large hu h => cases v with
    | seq vs => simp only [Ty.isByte_eq] at hu; simp only [fieldSer, hu]; split; exact .refl _; exact serAll_tok (H.element h g) vs
    | _ => exact .refl _
  | coll h => cases v with
    | seq vs => exact serAll_tok (H.element h g) vs
    | _ => exact .refl _
  | option h => cases v with
    | seq vs => exact serAll_tok (H.element h g) vs
    | _ => exact .refl _
  | map hk hw => cases v with
    | seq vs =>
      refine serAll_tok (fun e => ?_) vs
      split
      · refine OTok.bind (H.field hk _ _) fun x y hxy => OTok.map' (H.field hw _ _) fun u w huw => ?_
        rw [callToks_append, callToks_append, callToks_append, callToks_append, callToks_cons _ x, callToks_cons _ y, hxy, huw]
      · exact .refl _
    | _ => exact .refl _
  | unknownFields => exact .refl _
  | _ => exact hE
end

theorem sops_tok {env env' : Env} (he : WideEnv env env') : ∀ n, STok (sops env n) (sops env' n)
  | 0 => ⟨fun _ _ _ h => (by cases h), fun _ _ _ _ h => (by cases h), fun _ _ _ _ h => (by cases h)⟩
  | n + 1 =>
    have ih := sops_tok he n
    ⟨fun h v => bodySer_tok ih he h v, fun h g v => fieldSer_tok ih h g v, fun h g v => elementSer_tok ih he h g v⟩

/-! ## C84 -/

theorem wide_produces {env env' : Env} (he : WideEnv env env') (henv : env.Ok) (hwf : env.wf) (henv' : env'.Ok) (hwf' : env'.wf) {t t' : Ty} (h : WideTy t t')
    (ht : t.wf false = true) (ht' : t'.wf false = true) {v : V} {k : Need} (hk : HasType env t v k) :
    ∃ l m, Produces env t v m ∧ Produces env' t' v m ∧ Message l m ∧ ∀ cfg, k.Within cfg → Reads env cfg (.body t) 0 [.struct l] [v] k.used := by
  obtain ⟨cs, l, ⟨n, h1⟩, h2, h3, h4⟩ := produces_canon henv hwf ht hk
  obtain ⟨cs', l', h5, h6, -, -⟩ := produces_canon henv' hwf' ht' (wide_needs he hk (.body h))
  obtain ⟨cs2, h7, h8⟩ := (sops_tok he n).body h v cs h1
  cases serializesBody_unique h5 ⟨n, h7⟩
  rw [h8] at h6
  exact ⟨l, _, h2, h6, h3, h4⟩

/-- **C84** The two types write the same bytes for the values they share. -/
theorem c84_written (env env' : Env) (he : WideEnv env env') (henv : env.Ok) (hwf : env.wf) (henv' : env'.Ok) (hwf' : env'.wf) (t t' : Ty) (h : WideTy t t')
    (ht : t.wf false = true) (ht' : t'.wf false = true) (v : V) (k : Need) (hk : HasType env t v k) :
    HasType env' t' v k ∧ ∃ m, Produces env t v m ∧ Produces env' t' v m := by
  obtain ⟨l, m, h1, h2, -⟩ := wide_produces he henv hwf henv' hwf' h ht ht' hk
  exact ⟨wide_needs he hk (.body h), m, h1, h2⟩

/-- What is accepted as the narrow type, whoever wrote it, is accepted as the wide type, with the same value and at the same costs. -/
theorem c84_widen (env env' : Env) (he : WideEnv env env') (henv : env.Ok) (hwf : env.wf) (henv' : env'.Ok) (hwf' : env'.wf) (t t' : Ty) (h : WideTy t t')
    (ht : t.wf false = true) (ht' : t'.wf false = true) (cfg : Config) (l : Fields) (m : List Byte) (hm : Message l m) (hlen : m.length < U64MAX) (v : V) (c : Stats)
    (ha : Accepts env t cfg m v c) : Accepts env' t' cfg m v c := by
  obtain ⟨h1, h2⟩ := (c54_accepts env henv hwf t ht cfg l m hm hlen v c).1 ha
  exact (c54_accepts env' henv' hwf' t' ht' cfg l m hm hlen v c).2 ⟨wide_reads he h1 (.body h), h2⟩

theorem accepts_unique {env : Env} {t : Ty} {cfg : Config} {m : List Byte} (hlen : m.length < U64MAX) {v v' : V} {c c' : Stats} (h : Accepts env t cfg m v c) (h' : Accepts env t cfg m v' c') :
    v' = v ∧ c' = c := by
  have hr : (Stream.fromSlice m).pos + m.length < U64MAX := by
    show 0 + m.length < U64MAX
    omega
  obtain ⟨s1, g1⟩ := h _ (over_fromSlice m (by omega)) hr
  obtain ⟨s2, g2⟩ := h' _ (over_fromSlice m (by omega)) hr
  rw [g1] at g2
  cases g2
  exact ⟨rfl, rfl⟩

/-- What the narrow and the wide type read from a message is never different: either the narrow type reads what the wide one reads, or it refuses the message. -/
theorem c84_never_different (env env' : Env) (he : WideEnv env env') (henv : env.Ok) (hwf : env.wf) (henv' : env'.Ok) (hwf' : env'.wf) (t t' : Ty) (h : WideTy t t')
    (ht : t.wf false = true) (ht' : t'.wf false = true) (cfg : Config) (l : Fields) (m : List Byte) (hm : Message l m) (hlen : m.length < U64MAX) (v : V) (c : Stats)
    (ha : Accepts env' t' cfg m v c) : Accepts env t cfg m v c ∨ Rejects env t cfg m := by
  rcases accepts_or_rejects env henv hwf t ht cfg l m hm hlen with ⟨v', c', h1⟩ | h1
  · obtain ⟨rfl, rfl⟩ := accepts_unique hlen ha (c84_widen env env' he henv hwf henv' hwf' t t' h ht ht' cfg l m hm hlen v' c' h1)
    exact .inl h1
  · exact .inr h1

/-- What was written for a value of the wide type is accepted as the narrow type, with the same value, exactly if the value is also one of the narrow type; otherwise it is refused. -/
theorem c84_narrow (env env' : Env) (he : WideEnv env env') (henv : env.Ok) (hwf : env.wf) (henv' : env'.Ok) (hwf' : env'.wf) (t t' : Ty) (h : WideTy t t')
    (ht : t.wf false = true) (ht' : t'.wf false = true) (v : V) (k : Need) (hk : HasType env' t' v k) :
    ∃ m, Produces env' t' v m ∧ ∀ cfg, k.Within cfg →
      ((∃ k', HasType env t v k') → Accepts env t cfg m v k.used) ∧ ((¬ ∃ k', HasType env t v k') → Rejects env t cfg m) := by
  by_cases hn : ∃ k', HasType env t v k'
  · obtain ⟨k', hn⟩ := hn
    cases Needs.unique hk (wide_needs he hn (.body h))
    obtain ⟨l, m, h1, h2, h3, h4⟩ := wide_produces he henv hwf henv' hwf' h ht ht' hn
    refine ⟨m, h2, fun cfg hc => ⟨fun _ s hs hroom => ?_, fun hx => absurd ⟨_, hn⟩ hx⟩⟩
    exact (c54_accepts env henv hwf t ht cfg l m h3 (by omega) v k.used).2 ⟨h4 cfg hc, hc.collected, hc.blob⟩ s hs hroom
  · obtain ⟨l, m, h1, h3, h4⟩ := produces henv' hwf' ht' hk
    refine ⟨m, h1, fun cfg hc => ⟨fun hx => absurd hx hn, fun _ s hs hroom => ?_⟩⟩
    have hw := (c54_accepts env' henv' hwf' t' ht' cfg l m h3 (by omega) v k.used).2 ⟨h4 cfg hc, hc.collected, hc.blob⟩
    rcases c84_never_different env env' he henv hwf henv' hwf' t t' h ht ht' cfg l m h3 (by omega) v k.used hw with ha | hr
    · exfalso
      obtain ⟨s', hs'⟩ := ha s hs hroom
      obtain ⟨-, k', hk', -⟩ := (c35_bounded env hwf t ht cfg _ hs.at_.inv).1 v s' _ hs'
      exact hn ⟨k', hk'⟩
    · exact hr s hs hroom

/-! ### Machines

The model takes `usize` and `isize` to be 64 bits wide (as `u64` and `i64`). On a 32-bit machine they are converted as `u32` and `i32` are: `to_int!` (`src/stream.rs` 1366-1399) compares with `usize::MAX`, and
`write_int!` (`src/stream.rs` 311-326) extends to 64 bits. So the 32-bit version of a type is the one with these types in the place of `usize` and `isize`. -/

mutual
/-- The 32-bit version of a type. -/
def _root_.Fourleaf.Ty.on32 : Ty → Ty
  | .prim (.int .usize) => .prim (.int .u32)
  | .prim (.int .isize) => .prim (.int .i32)
  | .prim p => .prim p
  | .boxed t => .boxed t.on32
  | .small n t => .small n t.on32
  | .large n t => .large n t.on32
  | .tuple ts => .tuple (Ty.on32s ts)
  | .vec t => .vec t.on32
  | .coll k t => .coll k t.on32
  | .option t => .option t.on32
  | .map k v => .map k.on32 v.on32
  | .unknownFields zc => .unknownFields zc
  | .unknownField zc => .unknownField zc
  | .named i => .named i
def _root_.Fourleaf.Ty.on32s : List Ty → List Ty
  | [] => []
  | t :: ts => t.on32 :: Ty.on32s ts
end

def _root_.Fourleaf.Tail.on32 : Tail → Tail
  | .delegate n t => .delegate n t.on32
  | tail => tail

def _root_.Fourleaf.FieldDecl.on32 (x : FieldDecl) : FieldDecl := { x with ty := x.ty.on32 }

def _root_.Fourleaf.Body.on32 (b : Body) : Body := ⟨b.fields.map FieldDecl.on32, b.tail.on32, b.check⟩

def _root_.Fourleaf.Decl.on32 : Decl → Decl
  | .struct b => .struct b.on32
  | .enum vs ca => .enum (vs.map fun x => (x.1, x.2.on32)) (ca.map Body.on32)

theorem on32_prim (p : Prim) : (Ty.prim p).on32 = .prim p ∨ (p = .int .usize ∧ (Ty.prim p).on32 = .prim (.int .u32)) ∨ (p = .int .isize ∧ (Ty.prim p).on32 = .prim (.int .i32)) := by
  cases p with
  | int k => cases k <;> simp [Ty.on32]
  | _ => exact .inl rfl

theorem on32s_length : ∀ ts : List Ty, (Ty.on32s ts).length = ts.length
  | [] => rfl
  | _ :: ts => by simp [Ty.on32s, on32s_length ts]

theorem on32_isU8 (t : Ty) : t.on32.isU8 = t.isU8 := by
  cases t with
  | prim p => rcases on32_prim p with h | ⟨rfl, h⟩ | ⟨rfl, h⟩ <;> rw [h] <;> rfl
  | _ => rfl

mutual
theorem on32_wide : ∀ t : Ty, WideTy t.on32 t
  | .prim p => by
    rcases on32_prim p with h | ⟨rfl, h⟩ | ⟨rfl, h⟩ <;> rw [h]
    · exact .prim
    · exact .int ⟨rfl, by decide, by decide⟩
    · exact .int ⟨rfl, by decide, by decide⟩
  | .boxed t => .boxed (on32_wide t)
  | .small _ t => .small (on32_isU8 t).symm (on32_wide t)
  | .large _ t => .large (on32_isU8 t).symm (on32_wide t)
  | .tuple ts => .tuple (on32s_length ts).symm (on32s_wide ts)
  | .vec t => .vec (on32_isU8 t).symm (on32_wide t)
  | .coll _ t => .coll (on32_wide t)
  | .option t => .option (on32_wide t)
  | .map k v => .map (on32_wide k) (on32_wide v)
  | .unknownFields _ => .unknownFields
  | .unknownField _ => .unknownField
  | .named _ => .named
theorem on32s_wide : ∀ (ts : List Ty) (j : Nat) (t t' : Ty), (Ty.on32s ts)[j]? = some t → ts[j]? = some t' → WideTy t t'
  | [], _, _, _, h, _ => by cases h
  | t :: _, 0, _, _, h, h' => by cases h; cases h'; exact on32_wide t
  | _ :: ts, j + 1, t, t', h, h' => on32s_wide ts j t t' h h'
end

mutual
theorem on32_size : ∀ t : Ty, t.on32.size = t.size
  | .prim p => by rcases on32_prim p with h | ⟨rfl, h⟩ | ⟨rfl, h⟩ <;> rw [h] <;> rfl
  | .boxed t | .small _ t | .large _ t | .vec t | .coll _ t | .option t => by simp only [Ty.on32, Ty.size, on32_size t]
  | .tuple ts => by simp only [Ty.on32, Ty.size, on32s_size ts]
  | .map k v => by simp only [Ty.on32, Ty.size, on32_size k, on32_size v]
  | .unknownFields _ | .unknownField _ | .named _ => rfl
theorem on32s_size : ∀ ts : List Ty, Ty.sizes (Ty.on32s ts) = Ty.sizes ts
  | [] => rfl
  | t :: ts => by simp only [Ty.on32s, Ty.sizes, on32_size t, on32s_size ts]
end

mutual
theorem on32_wf : ∀ (t : Ty) (fld : Bool), t.on32.wf fld = t.wf fld
  | .prim p, _ => by rcases on32_prim p with h | ⟨rfl, h⟩ | ⟨rfl, h⟩ <;> rw [h] <;> rfl
  | .boxed t, fld => by simp only [Ty.on32, Ty.wf, on32_wf t fld]
  | .small _ t, _ | .large _ t, _ | .vec t, _ | .coll _ t, _ | .option t, _ => by simp only [Ty.on32, Ty.wf, on32_wf t false]
  | .tuple ts, _ => by simp only [Ty.on32, Ty.wf, on32s_length, on32s_wf ts]
  | .map k v, _ => by simp only [Ty.on32, Ty.wf, on32_wf k true, on32_wf v true]
  | .unknownFields _, _ | .unknownField _, _ | .named _, _ => rfl
theorem on32s_wf : ∀ ts : List Ty, Ty.wfs (Ty.on32s ts) = Ty.wfs ts
  | [] => rfl
  | t :: ts => by simp only [Ty.on32s, Ty.wfs, on32_wf t true, on32s_wf ts]
end

theorem on32_types (b : Body) : b.on32.types = b.types.map Ty.on32 := by
  unfold Body.types Body.on32
  cases b.tail <;> simp [Tail.on32, FieldDecl.on32, Function.comp_def]

theorem on32_declTypes (d : Decl) : d.on32.types = d.types.map Ty.on32 := by
  cases d with
  | struct b => exact on32_types b
  | enum vs ca =>
    simp only [Decl.on32, Decl.types, List.map_append]
    congr 1
    · induction vs with
      | nil => rfl
      | cons x vs ih => simp only [List.map_cons, List.flatMap_cons, List.map_append, ih, on32_types]
    · cases ca with
      | none => rfl
      | some b => exact on32_types b

/-- The 32-bit versions of the declarations. -/
def _root_.Fourleaf.Env.on32 (env : Env) : Env where
  decl i := (env.decl i).on32
  size := env.size
  bound i t ht := by
    rw [on32_declTypes] at ht
    obtain ⟨u, hu, rfl⟩ := List.mem_map.1 ht
    rw [on32_size]
    exact env.bound i u hu

theorem on32_body (b : Body) : WideBody b.on32 b := by
  refine ⟨?_, ?_, rfl⟩
  · unfold Body.on32
    generalize b.fields = ds
    induction ds with
    | nil => exact .nil
    | cons x ds ih => exact .cons rfl (on32_wide x.ty) ih
  · unfold Body.on32
    cases b.tail with
    | plain => exact .plain
    | delegate n t => exact .delegate (on32_wide t)
    | unknown => exact .unknown

theorem on32_env (env : Env) : WideEnv env.on32 env := fun i => by
  have hv : ∀ vs : List (UInt64 × Body), WideVariants (vs.map fun x => (x.1, x.2.on32)) vs := by
    intro vs
    induction vs with
    | nil => exact .nil
    | cons x vs ih => exact .cons (on32_body x.2) ih
  show WideDecl (env.decl i).on32 (env.decl i)
  cases env.decl i with
  | struct b => exact .struct (on32_body b)
  | enum vs ca =>
    cases ca with
    | none => exact .enum (hv vs)
    | some b => exact .enumCatchAll (hv vs) (on32_body b)

theorem on32_bodyOk {b : Body} (h : b.Ok) : b.on32.Ok := by
  unfold Body.Ok FieldsOk Body.on32 at *
  simp only [List.mem_map, List.map_map]
  refine ⟨?_, by simpa [Function.comp_def, FieldDecl.on32] using h.2⟩
  rintro _ ⟨x, hx, rfl⟩
  exact h.1 x hx

theorem on32_ok {env : Env} (h : env.Ok) : env.on32.Ok := fun i => by
  have := h i
  show (env.decl i).on32.Ok
  revert this
  cases env.decl i with
  | struct b => exact on32_bodyOk
  | enum vs ca =>
    rintro ⟨h1, h2⟩
    refine ⟨?_, ?_⟩
    · intro x hx
      obtain ⟨y, hy, rfl⟩ := List.mem_map.1 hx
      exact on32_bodyOk (h1 y hy)
    · intro b hb
      obtain ⟨a, rfl, rfl⟩ := Option.map_eq_some_iff.1 hb
      exact on32_bodyOk (h2 a rfl)

theorem on32_bodyWf {b : Body} (h : b.wf) : b.on32.wf := by
  refine ⟨?_, ?_⟩
  · intro x hx
    obtain ⟨y, hy, rfl⟩ := List.mem_map.1 hx
    exact (on32_wf y.ty true).trans (h.1 y hy)
  · intro name t ht
    have h2 := h.2
    unfold Body.on32 at *
    simp only at ht ⊢
    generalize b.tail = tl at ht h2
    cases tl with
    | delegate n u =>
      cases ht
      obtain ⟨g1, g2⟩ := h2 _ _ rfl
      exact ⟨by rw [g1]; rfl, (on32_wf u false).trans g2⟩
    | _ => cases ht

theorem on32_envWf {env : Env} (h : env.wf) : env.on32.wf := fun i => by
  have := h i
  show (env.decl i).on32.wf
  revert this
  cases env.decl i with
  | struct b => exact on32_bodyWf
  | enum vs ca =>
    rintro ⟨h1, h2⟩
    refine ⟨?_, ?_⟩
    · intro x hx
      obtain ⟨y, hy, rfl⟩ := List.mem_map.1 hx
      exact on32_bodyWf (h1 y hy)
    · intro b hb
      obtain ⟨a, rfl, rfl⟩ := Option.map_eq_some_iff.1 hb
      exact on32_bodyWf (h2 a rfl)

/-- From a 32-bit to a 64-bit machine: the same bytes are written, and they are read as the same value. -/
theorem c84_to64 (env : Env) (henv : env.Ok) (hwf : env.wf) (t : Ty) (ht : t.wf false = true) (v : V) (k : Need) (hk : HasType env.on32 t.on32 v k) :
    ∃ m, Produces env.on32 t.on32 v m ∧ Produces env t v m ∧ ∀ cfg, k.Within cfg → Accepts env t cfg m v k.used := by
  obtain ⟨l, m, h1, h2, h3, h4⟩ := wide_produces (on32_env env) (on32_ok henv) (on32_envWf hwf) henv hwf (on32_wide t) ((on32_wf t false).trans ht) ht hk
  refine ⟨m, h1, h2, fun cfg hc s hs hroom => ?_⟩
  exact (c54_accepts env henv hwf t ht cfg l m h3 (by omega) v k.used).2 ⟨wide_reads (on32_env env) (h4 cfg hc) (.body (on32_wide t)), hc.collected, hc.blob⟩ s hs hroom

/-- From a 64-bit to a 32-bit machine: the value is read if it exists there, that is, if every `usize` and `isize` in it is in the range of 32 bits. Otherwise the message is refused. -/
theorem c84_to32 (env : Env) (henv : env.Ok) (hwf : env.wf) (t : Ty) (ht : t.wf false = true) (v : V) (k : Need) (hk : HasType env t v k) :
    ∃ m, Produces env t v m ∧ ∀ cfg, k.Within cfg →
      ((∃ k', HasType env.on32 t.on32 v k') → Accepts env.on32 t.on32 cfg m v k.used) ∧ ((¬ ∃ k', HasType env.on32 t.on32 v k') → Rejects env.on32 t.on32 cfg m) :=
  c84_narrow env.on32 env (on32_env env) (on32_ok henv) (on32_envWf hwf) henv hwf t.on32 t (on32_wide t) ((on32_wf t false).trans ht) ht v k hk

/-- No message is read as different values on 32-bit and 64-bit machines. -/
theorem c84_machines (env : Env) (henv : env.Ok) (hwf : env.wf) (t : Ty) (ht : t.wf false = true) (cfg : Config) (l : Fields) (m : List Byte) (hm : Message l m) (hlen : m.length < U64MAX)
    (v v' : V) (c c' : Stats) (h : Accepts env.on32 t.on32 cfg m v c) (h' : Accepts env t cfg m v' c') : v = v' ∧ c = c' :=
  accepts_unique hlen h' (c84_widen env.on32 env (on32_env env) (on32_ok henv) (on32_envWf hwf) henv hwf t.on32 t (on32_wide t) ((on32_wf t false).trans ht) ht cfg l m hm hlen v c h)

/-! ### Examples -/

/-- `(usize, Vec<Option<isize>>)`. -/
abbrev exSizes : Ty := .tuple [.prim (.int .usize), .vec (.option (.prim (.int .isize)))]

example : exSizes.on32 = .tuple [.prim (.int .u32), .vec (.option (.prim (.int .i32)))] := rfl

theorem exSizes_type (i j : Int) (h1 : 0 ≤ i) (h2 : i < 2 ^ 64) (h3 : -2 ^ 63 ≤ j) (h4 : j < 2 ^ 63) : ∃ k, HasType exEnv exSizes (.seq [.num i, .seq [.seq [.num j]]]) k ∧ k.Within .default := by
  refine ⟨_, .bodyTuple (by decide) (by decide) (.fieldsCons (.fieldSingle rfl (.elemPrim (.int (by simpa [IntTy.min] using h1) (by simp only [IntTy.max]; omega))))
    (.fieldsCons (.fieldVec rfl (.eachCons (.elemColl rfl (.fieldOption (Nat.le_refl 1) (.eachCons (.elemPrim (.int (by simpa [IntTy.min] using h3) (by simp only [IntTy.max]; omega))) .eachNil))) .eachNil)) .fieldsNil)), ?_⟩
  exact ⟨Nat.le_of_ble_eq_true rfl, Nat.le_of_ble_eq_true rfl, Nat.le_of_ble_eq_true rfl, fun _ => rfl⟩

/-- `(1, vec![Some(-2^31 - 1)])` is written, but is not read on a 32-bit machine. -/
example : ∃ m, Produces exEnv exSizes (.seq [.num 1, .seq [.seq [.num (-2 ^ 31 - 1)]]]) m ∧ Rejects exEnv.on32 exSizes.on32 .default m := by
  obtain ⟨k, h1, h2⟩ := exSizes_type 1 (-2 ^ 31 - 1) (by decide) (by decide) (by decide) (by decide)
  obtain ⟨m, h3, h4⟩ := c84_to32 exEnv exEnv_ok exEnv_wf exSizes (by decide) _ k h1
  refine ⟨m, h3, (h4 .default h2).2 ?_⟩
  rintro ⟨k', h⟩
  cases h with
  | bodyWrapped h _ => cases h
  | bodyTuple _ _ h => cases h with
    | fieldsCons _ h => cases h with
      | fieldsCons h _ => cases h with
        | fieldSingle h _ => cases h
        | fieldVec _ h => cases h with
          | eachCons h _ => cases h with
            | elemColl _ h => cases h with
              | fieldSingle h _ => cases h
              | fieldOption _ h => cases h with
                | eachCons h _ => cases h with
                  | elemColl h _ => cases h
                  | elemPrim h => cases h with
                    | int h _ => exact absurd h (by decide)

/-- `(2^32 - 1, vec![Some(-2^31)])` is read on both. -/
example : ∃ m k, Produces exEnv exSizes (.seq [.num (2 ^ 32 - 1), .seq [.seq [.num (-2 ^ 31)]]]) m ∧
    Accepts exEnv.on32 exSizes.on32 .default m (.seq [.num (2 ^ 32 - 1), .seq [.seq [.num (-2 ^ 31)]]]) k := by
  obtain ⟨k, h1, h2⟩ := exSizes_type (2 ^ 32 - 1) (-2 ^ 31) (by decide) (by decide) (by decide) (by decide)
  obtain ⟨m, h3, h4⟩ := c84_to32 exEnv exEnv_ok exEnv_wf exSizes (by decide) _ k h1
  refine ⟨m, _, h3, (h4 .default h2).1 ⟨_, .bodyTuple (by decide) (by decide) (.fieldsCons (.fieldSingle rfl (.elemPrim (.int (by decide) (by decide))))
    (.fieldsCons (.fieldVec rfl (.eachCons (.elemColl rfl (.fieldOption (by decide) (.eachCons (.elemPrim (.int (by decide) (by decide))) .eachNil))) .eachNil)) .fieldsNil))⟩⟩

/-- `(7, vec![Some(3)])`, the fields exchanged. -/
theorem exSizes_message : Message [(2, .struct [(1, .int 6)]), (1, .int 7)] [194, 65, 6, 0, 65, 7, 0] :=
  (by decide +kernel : canonToks [.struct 2, .int 1 6, .endStruct, .int 1 7, .endStruct] = [194, 65, 6, 0, 65, 7, 0]) ▸ message_canon (.struct (.int .nil) (.int .nil)) (by decide)

theorem exSizes_accepts : Accepts exEnv.on32 exSizes.on32 .default [194, 65, 6, 0, 65, 7, 0] (.seq [.num 7, .seq [.seq [.num 3]]]) ⟨1, 0⟩ :=
  fun _ hs hroom => (reads_iff exSizes_message hs hroom _ _).2 ⟨rfl, by decide⟩

/-- It is read on a 32-bit machine, hence on a 64-bit machine as the same, … -/
theorem exSizes_accepts64 : Accepts exEnv exSizes .default [194, 65, 6, 0, 65, 7, 0] (.seq [.num 7, .seq [.seq [.num 3]]]) ⟨1, 0⟩ :=
  c84_widen exEnv.on32 exEnv (on32_env exEnv) (on32_ok exEnv_ok) (on32_envWf exEnv_wf) exEnv_ok exEnv_wf _ _ (on32_wide exSizes) (by decide) (by decide) _ _ _ exSizes_message (by decide) _ _ exSizes_accepts

/-- … not as anything else, … -/
example (v : V) (c : Stats) (h : Accepts exEnv exSizes .default [194, 65, 6, 0, 65, 7, 0] v c) : .seq [.num 7, .seq [.seq [.num 3]]] = v :=
  (c84_machines exEnv exEnv_ok exEnv_wf exSizes (by decide) _ _ _ exSizes_message (by decide) _ _ _ _ exSizes_accepts h).1

/-- … and the same the other way round. -/
example : Accepts exEnv.on32 exSizes.on32 .default [194, 65, 6, 0, 65, 7, 0] (.seq [.num 7, .seq [.seq [.num 3]]]) ⟨1, 0⟩ ∨ Rejects exEnv.on32 exSizes.on32 .default [194, 65, 6, 0, 65, 7, 0] :=
  c84_never_different exEnv.on32 exEnv (on32_env exEnv) (on32_ok exEnv_ok) (on32_envWf exEnv_wf) exEnv_ok exEnv_wf _ _ (on32_wide exSizes) (by decide) (by decide) _ _ _ exSizes_message (by decide) _ _ exSizes_accepts64

/-- `(5, vec![Some(-6)])` is written alike as `(u8, Vec<Option<i16>>)` and as `(u32, Vec<Option<i64>>)`. -/
example : ∃ m, Produces exEnv.on32 (.tuple [u8, .vec (.option (.prim (.int .i16)))]) (.seq [.num 5, .seq [.seq [.num (-6)]]]) m ∧
    Produces exEnv (.tuple [.prim (.int .u32), .vec (.option (.prim (.int .i64)))]) (.seq [.num 5, .seq [.seq [.num (-6)]]]) m := by
  have hw : WideTy (.tuple [u8, .vec (.option (.prim (.int .i16)))]) (.tuple [.prim (.int .u32), .vec (.option (.prim (.int .i64)))]) := .tuple rfl fun j t t' h h' => by
    match j with
    | 0 => cases h; cases h'; exact .int ⟨rfl, by decide, by decide⟩
    | 1 => cases h; cases h'; exact .vec rfl (.option (.int ⟨rfl, by decide, by decide⟩))
    | n + 2 => cases h
  have hk : HasType exEnv.on32 (.tuple [u8, .vec (.option (.prim (.int .i16)))]) (.seq [.num 5, .seq [.seq [.num (-6)]]]) _ := .bodyTuple (by decide) (by decide) (.fieldsCons (.fieldSingle rfl (.elemPrim (.int (by decide) (by decide))))
    (.fieldsCons (.fieldVec rfl (.eachCons (.elemColl rfl (.fieldOption (by decide) (.eachCons (.elemPrim (.int (by decide) (by decide))) .eachNil))) .eachNil)) .fieldsNil))
  exact (c84_written exEnv.on32 exEnv (on32_env exEnv) (on32_ok exEnv_ok) (on32_envWf exEnv_wf) exEnv_ok exEnv_wf _ _ hw (by decide) (by decide) _ _ hk).2

end Fourleaf.Props
