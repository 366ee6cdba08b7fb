import Verif.Tidy

/-! # C41: sets and maps become vectors

What is written for a set or a map can be read as a vector of its elements, anywhere in a type. -/

namespace Fourleaf.Props
open Fourleaf Spec

/-- Two types that are the same except that some sets and maps of the first one are vectors or lists of elements, or pairs, in the second one. -/
inductive FlatTy : Ty → Ty → Prop where
  | setVec {t t'} : t.isByte = false → FlatTy t t' → FlatTy (.coll .set t) (.vec t')
  | setList {t t'} : FlatTy t t' → FlatTy (.coll .set t) (.coll .list t')
  | mapVec {k k' v v'} : FlatTy k k' → FlatTy v v' → FlatTy (.map k v) (.vec (.tuple [k', v']))
  | mapList {k k' v v'} : FlatTy k k' → FlatTy v v' → FlatTy (.map k v) (.coll .list (.tuple [k', v']))
  | unknownFields {zc} : FlatTy (.unknownFields zc) (.unknownFields zc)
  | unknownField {zc} : FlatTy (.unknownField zc) (.unknownField zc)
  | prim {p} : FlatTy (.prim p) (.prim p)
  | named {i} : FlatTy (.named i) (.named i)
  | boxed {t t'} : FlatTy t t' → FlatTy (.boxed t) (.boxed t')
  | small {n t t'} : FlatTy t t' → FlatTy (.small n t) (.small n t')
  | large {n t t'} : FlatTy t t' → FlatTy (.large n t) (.large n t')
  | vec {t t'} : FlatTy t t' → FlatTy (.vec t) (.vec t')
  | coll {k t t'} : FlatTy t t' → FlatTy (.coll k t) (.coll k t')
  | option {t t'} : FlatTy t t' → FlatTy (.option t) (.option t')
  | map {k k' v v'} : FlatTy k k' → FlatTy v v' → FlatTy (.map k v) (.map k' v')
  | tuple {ts ts' : List Ty} : ts'.length = ts.length → (∀ (j : Nat) (t t' : Ty), ts[j]? = some t → ts'[j]? = some t' → FlatTy t t') → FlatTy (.tuple ts) (.tuple ts')

inductive FlatFields : List FieldDecl → List FieldDecl → Prop where
  | nil : FlatFields [] []
  | cons {x x' xs xs'} : x'.tag = x.tag → FlatTy x.ty x'.ty → FlatFields xs xs' → FlatFields (x :: xs) (x' :: xs')

inductive FlatTail : Tail → Tail → Prop where
  | plain : FlatTail .plain .plain
  | delegate {n n' t t'} : FlatTy t t' → FlatTail (.delegate n t) (.delegate n' t')
  | unknown {n n' zc} : FlatTail (.unknown n zc) (.unknown n' zc)

structure FlatBody (b b' : Body) : Prop where
  fields : FlatFields b.fields b'.fields
  tail : FlatTail b.tail b'.tail
  check : b'.check = b.check

inductive FlatVariants : List (UInt64 × Body) → List (UInt64 × Body) → Prop where
  | nil : FlatVariants [] []
  | cons {d b b' vs vs'} : FlatBody b b' → FlatVariants vs vs' → FlatVariants ((d, b) :: vs) ((d, b') :: vs')

inductive FlatDecl : Decl → Decl → Prop where
  | struct {b b'} : FlatBody b b' → FlatDecl (.struct b) (.struct b')
  | enum {vs vs'} : FlatVariants vs vs' → FlatDecl (.enum vs none) (.enum vs' none)
  | enumCatchAll {vs vs' b b'} : FlatVariants vs vs' → FlatBody b b' → FlatDecl (.enum vs (some b)) (.enum vs' (some b'))

/-- The declarations differ in this way only. -/
def FlatEnv (env env' : Env) : Prop := ∀ i, FlatDecl (env.decl i) (env'.decl i)

/-! ## What stays the same -/

theorem flat_isU8 {t t' : Ty} (h : FlatTy t t') : t'.isU8 = t.isU8 := by
  cases h <;> rfl

theorem flat_u8 {t : Ty} (h : FlatTy u8 t) : t = u8 := by
  cases h; rfl

theorem flat_isSingle {t t' : Ty} (h : FlatTy t t') : t'.isSingle = t.isSingle := by
  cases h <;> first | rfl | (simp only [Ty.isSingle, Ty.isByte_eq]; exact flat_isU8 ‹_›) | (simp only [Ty.isSingle, Ty.isByte_eq]; rw [flat_isU8 ‹_›]; assumption)

theorem flat_isWrapped {env env' : Env} (he : FlatEnv env env') {t t' : Ty} (h : FlatTy t t') : t'.isWrapped env' = t.isWrapped env := by
  cases h with
  | @named i =>
    have := he i
    simp only [Ty.isWrapped]
    generalize env.decl i = a at this ⊢
    generalize env'.decl i = b at this ⊢
    cases this <;> rfl
  | _ => rfl

theorem flat_inStruct {env env' : Env} (he : FlatEnv env env') {t t' : Ty} (h : FlatTy t t') : t'.inStruct env' = t.inStruct env := by
  cases h with
  | @named i =>
    have := he i
    simp only [Ty.inStruct, Ty.isByte_eq]
    generalize env.decl i = a at this ⊢
    generalize env'.decl i = b at this ⊢
    cases this with
    | struct hb =>
      have := hb.tail
      simp only
      rename_i b b' 
      generalize b.tail = a at this ⊢
      generalize b'.tail = a' at this ⊢
      cases this <;> rfl
    | _ => rfl
  | small h | large h | vec h => simp only [Ty.inStruct, flat_isU8 h, Ty.isByte_eq]
  | setVec hu h => rw [Ty.isByte_eq] at hu; simp only [Ty.inStruct, flat_isU8 h, hu, Ty.isByte_eq]; rfl
  | _ => rfl

theorem flat_tags {ds ds' : List FieldDecl} (h : FlatFields ds ds') : ds'.map (·.tag) = ds.map (·.tag) := by
  induction h with
  | nil => rfl
  | cons h _ _ ih => simp [h, ih]

theorem flat_unknowns {ds ds' : List FieldDecl} (h : FlatFields ds ds') (l : Fields) : unknowns ds' l = unknowns ds l := by
  have : ∀ g : Byte, ds'.any (·.tag = g) = ds.any (·.tag = g) := by
    intro g
    induction h with
    | nil => rfl
    | cons h _ _ ih => simp [h, ih]
  simp only [unknowns, this]

theorem flat_fields : ∀ {ds ds' : List FieldDecl}, ds'.length = ds.length →
    (∀ (j : Nat) (x x' : FieldDecl), ds[j]? = some x → ds'[j]? = some x' → x'.tag = x.tag ∧ FlatTy x.ty x'.ty) → FlatFields ds ds'
  | [], [], _, _ => .nil
  | [], _ :: _, hl, _ => by simp at hl
  | _ :: _, [], hl, _ => by simp at hl
  | x :: xs, x' :: xs', hl, h => .cons (h 0 x x' rfl rfl).1 (h 0 x x' rfl rfl).2
      (flat_fields (by simpa using hl) fun j y y' hy hy' => h (j + 1) y y' (by simpa using hy) (by simpa using hy'))

theorem flat_tupleFields {ts ts' : List Ty} (hl : ts'.length = ts.length)
    (h : ∀ (j : Nat) (t t' : Ty), ts[j]? = some t → ts'[j]? = some t' → FlatTy t t') : FlatFields (components ts) (components ts') := by
  refine flat_fields (by simpa [components] using hl) fun j x x' hx hx' => ?_
  simp only [components, List.getElem?_mapIdx, Option.map_eq_some_iff] at hx hx'
  obtain ⟨t, ht, rfl⟩ := hx
  obtain ⟨t', ht', rfl⟩ := hx'
  exact ⟨rfl, h j t t' ht ht'⟩

theorem flat_find {vs vs' : List (UInt64 × Body)} (h : FlatVariants vs vs') {disc : UInt64} {b : Body} (hf : vs.find? (fun x => x.1 = disc) = some (disc, b)) :
    ∃ b', vs'.find? (fun x => x.1 = disc) = some (disc, b') ∧ FlatBody b b' := by
  induction h with
  | nil => cases hf
  | cons hb _ ih =>
    rename_i d _ _ _ _ _
    by_cases hd : d = disc
    · subst hd
      simp at hf ⊢
      exact hf ▸ hb
    · simp only [List.find?_cons, hd, decide_false] at hf ⊢
      exact ih hf

theorem flat_discs {vs vs' : List (UInt64 × Body)} (h : FlatVariants vs vs') {disc : UInt64} (hn : ∀ x ∈ vs, x.1 ≠ disc) : ∀ x ∈ vs', x.1 ≠ disc := by
  induction h with
  | nil => intro x hx; cases hx
  | cons hb _ ih =>
    intro x hx
    rcases List.mem_cons.1 hx with rfl | hx
    · exact fun he => hn _ (List.mem_cons_self ..) he
    · exact ih (fun y hy => hn y (List.mem_cons_of_mem _ hy)) x hx

inductive FlatItem : RItem → RItem → Prop where
  | body {t t'} : FlatTy t t' → FlatItem (.body t) (.body t')
  | field {t t'} : FlatTy t t' → FlatItem (.field t) (.field t')
  | elem {t t'} : FlatTy t t' → FlatItem (.elem t) (.elem t')
  | each {t t'} : FlatTy t t' → FlatItem (.each t) (.each t')
  | fields {ds ds'} : FlatFields ds ds' → FlatItem (.fields ds) (.fields ds')
  | parts {b b'} : FlatBody b b' → FlatItem (.parts b) (.parts b')
  | unknown {zc} : FlatItem (.unknown zc) (.unknown zc)

theorem flat_pair {k k' v v' : Ty} (hk : FlatTy k k') (hv : FlatTy v v') : FlatTy (.tuple [k, v]) (.tuple [k', v']) :=
  .tuple rfl fun j t t' h h' => by
    match j with
    | 0 => cases h; cases h'; exact hk
    | 1 => cases h; cases h'; exact hv
    | n + 2 => cases h

/-- What can be read without duplicates is read as the same. -/
theorem flat_reads {env env' : Env} (he : FlatEnv env env') {cfg : Config} {it : RItem} {d : Nat} {vals : List Val} {vs : List V} {c : Stats}
    (h : Tidy env cfg it d vals vs c) : ∀ {it'}, FlatItem it it' → Reads env' cfg it' d vals vs c := by
  have hdecl : ∀ {i a}, env.decl i = a → ∃ a', env'.decl i = a' ∧ FlatDecl a a' := by rintro i _ rfl; exact ⟨_, rfl, he i⟩
  induction h with
  | bodyBoxed _ ih =>
    rintro _ ⟨ho⟩
    cases ho with
    | boxed ho =>
      have h1 := ih (.body ho)
      exact .bodyBoxed h1
  | bodyTuple hl hi _ ih =>
    rintro _ ⟨ho⟩
    cases ho with
    | tuple hl' ho =>
      have hof := flat_tupleFields hl' ho
      have h1 := ih (.fields hof)
      exact .bodyTuple (by omega) (by rw [flat_tags hof]; exact hi) h1
  | bodyUnknown _ ih =>
    rintro _ ⟨ho⟩
    cases ho with
    | unknownFields =>
      have h1 := ih .unknown
      exact .bodyUnknown h1
  | bodyStruct hd _ ih =>
    rintro _ ⟨ho⟩
    cases ho with
    | named =>
      obtain ⟨a, hb, h'⟩ := hdecl hd
      cases h' with
      | struct hb' =>
        have h1 := ih (.parts hb')
        exact .bodyStruct hb h1
  | bodyWrapped hw hi hd _ ih =>
    rintro _ ⟨ho⟩
    have h1 := ih (.field ho)
    exact .bodyWrapped (by rw [flat_isWrapped he ho]; exact hw) hi hd h1
  | fieldBoxed _ ih =>
    rintro _ (⟨⟩ | ⟨ho⟩)
    cases ho with
    | boxed ho =>
      have h1 := ih (.field ho)
      exact .fieldBoxed h1
  | fieldSingle hs _ ih =>
    intro _ ho
    cases ho with
    | field ho =>
    have h1 := ih (.elem ho)
    exact .fieldSingle (by rw [flat_isSingle ho]; exact hs) h1
  | fieldNoBytes =>
    intro _ ho
    cases ho with
    | field ho =>
    cases ho with
    | small ho => rw [flat_u8 ho]; exact .fieldNoBytes
  | fieldNoBytesL h =>
    intro _ ho
    cases ho with
    | field ho =>
    cases ho with
    | large ho => rw [flat_u8 ho]; exact .fieldNoBytesL h
  | fieldVec hu _ ih =>
    intro _ ho
    cases ho with
    | field ho =>
    cases ho with
    | vec ho =>
      have h1 := ih (.each ho)
      exact .fieldVec (by rw [Ty.isByte_eq, flat_isU8 ho]; exact hu) h1
  | fieldList _ ih =>
    intro _ ho
    cases ho with
    | field ho =>
    cases ho with
    | coll ho =>
      have h1 := ih (.each ho)
      exact .fieldList h1
  | fieldSet hn _ ih =>
    intro _ ho
    cases ho with
    | field ho =>
    cases ho with
    | coll ho =>
      have := Reads.fieldSet (ih (.each ho))
      rwa [← distinct_fold, toSet_nodup _ _ (by simpa using hn), List.nil_append] at this
    | setVec hu ho => exact .fieldVec (by rw [Ty.isByte_eq, flat_isU8 ho]; exact hu) (ih (.each ho))
    | setList ho => exact .fieldList (ih (.each ho))
  | fieldMap hn _ ih =>
    intro _ ho
    cases ho with
    | field ho =>
    cases ho with
    | map hk hw =>
      have := Reads.fieldMap (ih (.each (flat_pair hk hw)))
      rwa [← entriesOf_fold, toMap_nodup _ _ (by simpa using hn), List.nil_append] at this
    | mapVec hk hw => exact .fieldVec rfl (ih (.each (flat_pair hk hw)))
    | mapList hk hw => exact .fieldList (ih (.each (flat_pair hk hw)))
  | fieldOption hl _ ih =>
    intro _ ho
    cases ho with
    | field ho =>
    cases ho with
    | option ho =>
      have h1 := ih (.each ho)
      exact .fieldOption hl h1
  | fieldSmall hu hl _ ih =>
    intro _ ho
    cases ho with
    | field ho =>
    cases ho with
    | small ho =>
      have h1 := ih (.each ho)
      exact .fieldSmall (by rw [Ty.isByte_eq, flat_isU8 ho]; exact hu) hl h1
  | fieldLarge hu hl _ ih =>
    intro _ ho
    cases ho with
    | field ho =>
    cases ho with
    | large ho =>
      have h1 := ih (.each ho)
      exact .fieldLarge (by rw [Ty.isByte_eq, flat_isU8 ho]; exact hu) hl h1
  | elemPrim hp =>
    intro _ ho
    cases ho with
    | elem ho =>
    cases ho with
    | prim => exact .elemPrim hp
  | elemBoxed _ ih =>
    intro _ ho
    cases ho with
    | elem ho =>
    cases ho with
    | boxed ho =>
      have h1 := ih (.elem ho)
      exact .elemBoxed h1
  | elemVec =>
    intro _ ho
    cases ho with
    | elem ho =>
    cases ho with
    | vec ho => rw [flat_u8 ho]; exact .elemVec
  | elemSmall h =>
    intro _ ho
    cases ho with
    | elem ho =>
    cases ho with
    | small ho => rw [flat_u8 ho]; exact .elemSmall h
  | elemLarge h =>
    intro _ ho
    cases ho with
    | elem ho =>
    cases ho with
    | large ho => rw [flat_u8 ho]; exact .elemLarge h
  | elemStruct hs _ ih =>
    intro _ ho
    cases ho with
    | elem ho =>
      have h1 := ih (.body ho)
      exact .elemStruct (by rw [flat_inStruct he ho]; exact hs) h1
  | elemDelegate hd ht hr hc _ ih =>
    intro _ ho
    cases ho with
    | elem ho =>
    cases ho with
    | named =>
      obtain ⟨a, hb, h'⟩ := hdecl hd
      cases h' with
      | @struct b b' hb' =>
        have htl := hb'.tail
        rw [ht] at htl
        generalize hbt : b'.tail = tl at htl
        cases htl with
        | delegate ho =>
          have h1 := ih (.elem ho)
          exact .elemDelegate hb hbt hr (by rw [hb'.check]; exact hc) h1
  | elemVariant hd hf _ ih =>
    intro _ ho
    cases ho with
    | elem ho =>
    cases ho with
    | named =>
      obtain ⟨a, hb, h'⟩ := hdecl hd
      cases h' with
      | enum hv =>
        obtain ⟨b', hf', hb'⟩ := flat_find hv hf
        have h1 := ih (.parts hb')
        exact .elemVariant hb hf' h1
      | enumCatchAll hv =>
        obtain ⟨b', hf', hb'⟩ := flat_find hv hf
        have h1 := ih (.parts hb')
        exact .elemVariant hb hf' h1
  | elemCatchAll hd hn _ ih =>
    intro _ ho
    cases ho with
    | elem ho =>
    cases ho with
    | named =>
      obtain ⟨a, hb, h'⟩ := hdecl hd
      cases h' with
      | enumCatchAll hv hb' =>
        have h1 := ih (.parts hb')
        exact .elemCatchAll hb (flat_discs hv hn) h1
  | unkInt =>
    intro _ ho
    cases ho with
    | elem ho => cases ho with | unknownField => exact .unkInt
  | unkBlob =>
    intro _ ho
    cases ho with
    | elem ho => cases ho with | unknownField => exact .unkBlob
  | unkStruct _ ih =>
    intro _ ho
    cases ho with
    | elem ho =>
      cases ho with
      | unknownField =>
        have h1 := ih (.body .unknownFields)
        exact .unkStruct h1
  | unkEnum _ ih =>
    intro _ ho
    cases ho with
    | elem ho =>
      cases ho with
      | unknownField =>
        have h1 := ih (.body .unknownFields)
        exact .unkEnum h1
  | eachNil =>
    intro _ ho
    cases ho with
    | each ho => exact .eachNil
  | eachCons _ _ ih1 ih2 =>
    intro _ ho
    cases ho with
    | each ho =>
      have h1 := ih1 (.elem ho)
      have h2 := ih2 (.each ho)
      exact .eachCons h1 h2
  | fieldsNil =>
    intro _ ho
    cases ho with
    | fields ho => cases ho; exact .fieldsNil
  | fieldsCons hd _ _ ih1 ih2 =>
    intro _ ho
    cases ho with
    | fields ho =>
      cases ho with
      | cons ht hx hxs =>
        have h1 := ih1 (.field hx)
        have h2 := ih2 (.fields hxs)
        exact .fieldsCons hd (ht ▸ h1) h2
  | partsPlain ht hc hi _ ih =>
    intro _ ho
    cases ho with
    | @parts b b' ho =>
      have htl := ho.tail
      rw [ht] at htl
      generalize hbt : b'.tail = tl at htl
      cases htl with
      | plain =>
        have h1 := ih (.fields ho.fields)
        exact .partsPlain hbt (by rw [ho.check]; exact hc) (by rw [flat_tags ho.fields]; exact hi) h1
  | partsDelegate ht hc hd _ ih =>
    intro _ ho
    cases ho with
    | @parts b b' ho =>
      have htl := ho.tail
      rw [ht] at htl
      generalize hbt : b'.tail = tl at htl
      cases htl with
      | delegate hty =>
        have h1 := ih (.body hty)
        exact .partsDelegate hbt (by rw [ho.check]; exact hc) hd h1
  | partsUnknown ht hc hd _ _ ih1 ih2 =>
    intro _ ho
    cases ho with
    | @parts b b' ho =>
      have htl := ho.tail
      rw [ht] at htl
      generalize hbt : b'.tail = tl at htl
      cases htl with
      | unknown =>
        have h1 := ih1 (.fields ho.fields)
        have h2 := ih2 .unknown
        exact .partsUnknown hbt (by rw [ho.check]; exact hc) hd h1 (by rw [flat_unknowns ho.fields]; exact h2)
  | unknownNil =>
    intro _ ho
    cases ho with
    | unknown => exact .unknownNil
  | unknownCons hd _ _ ih1 ih2 =>
    intro _ ho
    cases ho with
    | unknown =>
      have h1 := ih1 (.elem .unknownField)
      have h2 := ih2 .unknown
      exact .unknownCons hd h1 h2

/-- **C41** (set to vector) Whatever is written for a value can be read, as the same value and at the same cost, where sets have become vectors of their elements and maps vectors of
pairs, anywhere in the type. -/
theorem c41_flat (env env' : Env) (henv : env.Ok) (hwf : env.wf) (henv' : env'.Ok) (hwf' : env'.wf) (he : FlatEnv env env') (t t' : Ty) (hf : FlatTy t t') (ht : t.wf false = true)
    (ht' : t'.wf false = true) (v : V) (k : Need) (hk : HasType env t v k) :
    ∃ m, Produces env t v m ∧ ∀ new, k.Within new → Accepts env' t' new m v k.used := by
  obtain ⟨l, m, h1, h2, h3⟩ := produces henv hwf ht hk
  refine ⟨m, h1, fun new hn s hso hroom => ?_⟩
  have h := flat_reads he (((reads_tidy (h3 new hn)).2 hk).2 (Nat.le_refl _)) (.body hf)
  exact (reads_iff h2 hso hroom _ _).2 ⟨(deTree_iff henv' hwf' ht').2 h, hn.collected, hn.blob⟩

/-- (set to vector, and more) Then any of the other changes can follow. -/
theorem c41_flat_then (env env' : Env) (henv : env.Ok) (hwf : env.wf) (henv' : env'.Ok) (hwf' : env'.wf) (he : FlatEnv env env') (t t' t'' : Ty) (hf : FlatTy t t') (ht : t.wf false = true)
    (ht'' : t''.wf false = true) (drops adds : Bool) (v v' : V) (hc : Compat env' drops adds (.body t' t'') [v] [v']) (k : Need) (hk : HasType env t v k)
    (hs : adds = true → k.lenient = false) :
    ∃ m c', Produces env t v m ∧ ∀ new, k.depth ≤ new.recursionLimit → (drops = true ∨ k.lenient = true → new.ignoreUnknownFields = true) → c'.fits new → Accepts env' t'' new m v' c' := by
  obtain ⟨l, m, h1, h2, h3⟩ := produces henv hwf ht hk
  have h := flat_reads he (((reads_tidy (h3 ⟨k.depth, k.lenient, k.used.blob, k.used.collected⟩ ⟨Nat.le_refl _, Nat.le_refl _, Nat.le_refl _, id⟩)).2 hk).2 (Nat.le_refl _)) (.body hf)
  obtain ⟨c', h'⟩ := compat_reads (old := ⟨k.depth, k.lenient, k.used.blob, k.used.collected⟩) hs hc (fun _ => trivial) h
  refine ⟨m, c', h1, fun new hd hi hf s hso hroom => ?_⟩
  exact (reads_iff h2 hso hroom _ _).2 ⟨(deTree_iff henv' hwf' ht'').2 (h' new ⟨hd, fun h => hi (.inl h), fun h => hi (.inr h)⟩), hf⟩

/-! ## Examples -/

theorem FlatTy.refl : ∀ t : Ty, FlatTy t t
  | .prim _ => .prim
  | .boxed t => .boxed (FlatTy.refl t)
  | .small _ t => .small (FlatTy.refl t)
  | .large _ t => .large (FlatTy.refl t)
  | .vec t => .vec (FlatTy.refl t)
  | .coll _ t => .coll (FlatTy.refl t)
  | .option t => .option (FlatTy.refl t)
  | .map k v => .map (FlatTy.refl k) (FlatTy.refl v)
  | .unknownFields _ => .unknownFields
  | .unknownField _ => .unknownField
  | .named _ => .named
  | .tuple ts => .tuple rfl fun j t t' h h' => by
    rw [h] at h'; cases h'
    have : t.size < (Ty.tuple ts).size := by
      have := List.mem_of_getElem? h
      clear h
      simp only [Ty.size]
      induction ts with
      | nil => cases this
      | cons y ts ih =>
        simp only [Ty.sizes]
        rcases List.mem_cons.1 this with rfl | h
        · omega
        · have := ih h; omega
    exact FlatTy.refl t
termination_by t => t.size
decreasing_by all_goals (try simp only [Ty.size] at *) <;> omega

theorem FlatEnv.refl (env : Env) : FlatEnv env env := fun i => by
  have hf : ∀ ds : List FieldDecl, FlatFields ds ds := by
    intro ds
    induction ds with
    | nil => exact .nil
    | cons x xs ih => exact .cons rfl (.refl _) ih
  have hb : ∀ b : Body, FlatBody b b := fun b => ⟨hf _, by cases b.tail <;> constructor <;> exact .refl _, rfl⟩
  have hv : ∀ vs : List (UInt64 × Body), FlatVariants vs vs := by
    intro vs
    induction vs with
    | nil => exact .nil
    | cons x xs ih => exact .cons (hb _) ih
  cases env.decl i with
  | struct b => exact .struct (hb b)
  | enum vs ca =>
    cases ca with
    | none => exact .enum (hv vs)
    | some b => exact .enumCatchAll (hv vs) (hb b)

/-- A map from `u16` to sets of `u16`, `{5: {300, 7}}`: what is written for it is read as a vector of pairs of a number and a vector. -/
theorem exFlat_type : HasType exEnv (.map (.prim (.int .u16)) (.coll .set (.prim (.int .u16)))) (.seq [.seq [.num 5, .seq [.num 300, .num 7]]]) ⟨2, ⟨3, 0⟩, false⟩ := by
  have hi : ∀ i : Int, IntTy.u16.min ≤ i → i ≤ IntTy.u16.max → Needs exEnv (.elem (.prim (.int .u16))) [.num i] .zero := fun i h1 h2 => .elemPrim (.int h1 h2)
  have hset : Needs exEnv (.field (.coll .set (.prim (.int .u16)))) [.seq [.num 300, .num 7]] ((Need.zero.seq (Need.zero.seq .zero)).collecting 2) :=
    .fieldSet (by decide) (.eachCons (hi _ (by decide) (by decide)) (.eachCons (hi _ (by decide) (by decide)) .eachNil))
  exact .bodyWrapped rfl (.fieldMap (by decide) (.eachCons (.elemTuple (by decide) (.bodyTuple (by decide) (by decide)
    (.fieldsCons (d := ⟨1, "field_0", .prim (.int .u16)⟩) (.fieldSingle rfl (hi 5 (by decide) (by decide)))
      (.fieldsCons (d := ⟨2, "field_1", .coll .set (.prim (.int .u16))⟩) hset .fieldsNil)))) .eachNil))

example : ∃ m, Produces exEnv (.map (.prim (.int .u16)) (.coll .set (.prim (.int .u16)))) (.seq [.seq [.num 5, .seq [.num 300, .num 7]]]) m ∧
    Accepts exEnv (.vec (.tuple [.prim (.int .u16), .vec (.prim (.int .u16))])) .default m (.seq [.seq [.num 5, .seq [.num 300, .num 7]]]) ⟨3, 0⟩ := by
  obtain ⟨m, h1, h2⟩ := c41_flat exEnv exEnv exEnv_ok exEnv_wf exEnv_ok exEnv_wf (.refl _) _ (.vec (.tuple [.prim (.int .u16), .vec (.prim (.int .u16))])) (.mapVec .prim (.setVec rfl .prim)) rfl rfl _ _ exFlat_type
  exact ⟨m, h1, h2 _ ⟨by decide, by decide, by decide, fun h => by cases h⟩⟩

/-- The set `{300, 7}` of `u16` is written so that it can be read as a vector of `u32`. -/
example : ∃ m c', Produces exEnv (.coll .set (.prim (.int .u16))) (.seq [.num 300, .num 7]) m ∧
    ∀ new, 1 ≤ new.recursionLimit → (false = true ∨ false = true → new.ignoreUnknownFields = true) → c'.fits new →
      Accepts exEnv (.vec (.prim (.int .u32))) new m (.seq [.num 300, .num 7]) c' :=
  have hi : ∀ i : Int, IntTy.u16.min ≤ i → i ≤ IntTy.u16.max → Needs exEnv (.elem (.prim (.int .u16))) [.num i] .zero := fun i h1 h2 => .elemPrim (.int h1 h2)
  have hw : ∀ i : Int, Compat exEnv false false (.elem (.prim (.int .u16)) (.prim (.int .u32))) [.num i] [.num i] := fun i => .elemInt rfl (by decide) (by decide)
  c41_flat_then exEnv exEnv exEnv_ok exEnv_wf exEnv_ok exEnv_wf (.refl _) _ (.vec (.prim (.int .u16))) _ (.setVec rfl .prim) rfl rfl false false _ _
    (.bodyWrapped rfl rfl (.fieldHolds (.vec rfl) (.vec rfl) (.eachCons (hw _) (.eachCons (hw _) .eachNil)))) ⟨1, ⟨2, 0⟩, false⟩
    (.bodyWrapped rfl (.fieldSet (by decide) (.eachCons (hi _ (by decide) (by decide)) (.eachCons (hi _ (by decide) (by decide)) .eachNil)))) (fun h => by cases h)

end Fourleaf.Props
