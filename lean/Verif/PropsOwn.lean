import Verif.PropsCompat

/-! # C47: borrowing and copying -/

namespace Fourleaf.Props
open Fourleaf Spec

/-- `zc`, `zc'`: zero-copy before and after; `own`: from borrowed to owned, or back. -/
def Dir (own : Bool) (zc zc' : Bool) : Prop := if own then (zc' = true → zc = true) else (zc = true → zc' = true)

/-- Two types that are the same except that (for `own = true`) in some places the first one borrows (`&str`, `&[u8]`, zero-copy `UnknownFields`) where the second one
copies (`String`, `Vec<u8>`, copying `UnknownFields`). For `own = false`, the other way round. -/
inductive OwnTy (own : Bool) : Ty → Ty → Prop where
  | str : own = true → OwnTy own (.prim .strRef) (.prim .string)
  | bytes : own = true → OwnTy own (.prim .bytesRef) (.vec u8)
  | string : own = false → OwnTy own (.prim .string) (.prim .strRef)
  | vecu8 : own = false → OwnTy own (.vec u8) (.prim .bytesRef)
  | unknownFields {zc zc'} : Dir own zc zc' → OwnTy own (.unknownFields zc) (.unknownFields zc')
  | unknownField {zc zc'} : Dir own zc zc' → OwnTy own (.unknownField zc) (.unknownField zc')
  | prim {p} : OwnTy own (.prim p) (.prim p)
  | named {i} : OwnTy own (.named i) (.named i)
  | boxed {t t'} : OwnTy own t t' → OwnTy own (.boxed t) (.boxed t')
  | small {n t t'} : OwnTy own t t' → OwnTy own (.small n t) (.small n t')
  | large {n t t'} : OwnTy own t t' → OwnTy own (.large n t) (.large n t')
  | vec {t t'} : OwnTy own t t' → OwnTy own (.vec t) (.vec t')
  | coll {k t t'} : OwnTy own t t' → OwnTy own (.coll k t) (.coll k t')
  | option {t t'} : OwnTy own t t' → OwnTy own (.option t) (.option t')
  | map {k k' v v'} : OwnTy own k k' → OwnTy own v v' → OwnTy own (.map k v) (.map k' v')
  | tuple {ts ts' : List Ty} : ts'.length = ts.length → (∀ (j : Nat) (t t' : Ty), ts[j]? = some t → ts'[j]? = some t' → OwnTy own t t') → OwnTy own (.tuple ts) (.tuple ts')

inductive OwnFields (own : Bool) : List FieldDecl → List FieldDecl → Prop where
  | nil : OwnFields own [] []
  | cons {x x' xs xs'} : x'.tag = x.tag → OwnTy own x.ty x'.ty → OwnFields own xs xs' → OwnFields own (x :: xs) (x' :: xs')

inductive OwnTail (own : Bool) : Tail → Tail → Prop where
  | plain : OwnTail own .plain .plain
  | delegate {n n' t t'} : OwnTy own t t' → OwnTail own (.delegate n t) (.delegate n' t')
  | unknown {n n' zc zc'} : Dir own zc zc' → OwnTail own (.unknown n zc) (.unknown n' zc')

structure OwnBody (own : Bool) (b b' : Body) : Prop where
  fields : OwnFields own b.fields b'.fields
  tail : OwnTail own b.tail b'.tail
  check : b'.check = b.check

inductive OwnVariants (own : Bool) : List (UInt64 × Body) → List (UInt64 × Body) → Prop where
  | nil : OwnVariants own [] []
  | cons {d b b' vs vs'} : OwnBody own b b' → OwnVariants own vs vs' → OwnVariants own ((d, b) :: vs) ((d, b') :: vs')

inductive OwnDecl (own : Bool) : Decl → Decl → Prop where
  | struct {b b'} : OwnBody own b b' → OwnDecl own (.struct b) (.struct b')
  | enum {vs vs'} : OwnVariants own vs vs' → OwnDecl own (.enum vs none) (.enum vs' none)
  | enumCatchAll {vs vs' b b'} : OwnVariants own vs vs' → OwnBody own b b' → OwnDecl own (.enum vs (some b)) (.enum vs' (some b'))

/-- The declarations differ in ownership only. -/
def OwnEnv (own : Bool) (env env' : Env) : Prop := ∀ i, OwnDecl own (env.decl i) (env'.decl i)

/-- The same with the roles exchanged. -/
theorem OwnTy.symm {own : Bool} {t t' : Ty} (h : OwnTy own t t') : OwnTy (!own) t' t := by
  have hd : ∀ {zc zc'}, Dir own zc zc' → Dir (!own) zc' zc := by
    intro zc zc' h; revert h; cases own <;> simp [Dir]
  induction h with
  | str h => exact .string (by simp [h])
  | bytes h => exact .vecu8 (by simp [h])
  | string h => exact .str (by simp [h])
  | vecu8 h => exact .bytes (by simp [h])
  | unknownFields h => exact .unknownFields (hd h)
  | unknownField h => exact .unknownField (hd h)
  | prim => exact .prim
  | named => exact .named
  | boxed _ ih => exact .boxed ih
  | small _ ih => exact .small ih
  | large _ ih => exact .large ih
  | vec _ ih => exact .vec ih
  | coll _ ih => exact .coll ih
  | option _ ih => exact .option ih
  | map _ _ ih1 ih2 => exact .map ih1 ih2
  | tuple hl _ ih => exact .tuple hl.symm fun j t t' h h' => ih j t' t h' h

theorem OwnFields.symm {own : Bool} {ds ds' : List FieldDecl} (h : OwnFields own ds ds') : OwnFields (!own) ds' ds := by
  induction h with
  | nil => exact .nil
  | cons h1 h2 _ ih => exact .cons h1.symm h2.symm ih

theorem OwnBody.symm {own : Bool} {b b' : Body} (h : OwnBody own b b') : OwnBody (!own) b' b := by
  refine ⟨h.fields.symm, ?_, h.check.symm⟩
  have ht := h.tail
  generalize b.tail = a at ht ⊢
  generalize b'.tail = a' at ht ⊢
  cases ht with
  | plain => exact .plain
  | delegate h => exact .delegate h.symm
  | unknown h => exact .unknown (by revert h; cases own <;> simp [Dir])

theorem OwnVariants.symm {own : Bool} {vs vs' : List (UInt64 × Body)} (h : OwnVariants own vs vs') : OwnVariants (!own) vs' vs := by
  induction h with
  | nil => exact .nil
  | cons h _ ih => exact .cons h.symm ih

theorem OwnEnv.symm {own : Bool} {env env' : Env} (h : OwnEnv own env env') : OwnEnv (!own) env' env := fun i => by
  have hi := h i
  generalize env.decl i = a at hi ⊢
  generalize env'.decl i = a' at hi ⊢
  cases hi with
  | struct h => exact .struct h.symm
  | enum h => exact .enum h.symm
  | enumCatchAll h1 h2 => exact .enumCatchAll h1.symm h2.symm

theorem OwnTy.refl {own : Bool} : ∀ t : Ty, OwnTy own t t
  | .prim _ => .prim
  | .boxed t => .boxed (OwnTy.refl t)
  | .small _ t => .small (OwnTy.refl t)
  | .large _ t => .large (OwnTy.refl t)
  | .vec t => .vec (OwnTy.refl t)
  | .coll _ t => .coll (OwnTy.refl t)
  | .option t => .option (OwnTy.refl t)
  | .map k v => .map (OwnTy.refl k) (OwnTy.refl v)
  | .unknownFields _ => .unknownFields (by cases own <;> simp [Dir])
  | .unknownField _ => .unknownField (by cases own <;> simp [Dir])
  | .named _ => .named
  | .tuple ts => .tuple rfl fun j t t' h h' => by
    rw [h] at h'; cases h'
    have : t.size < (Ty.tuple ts).size := by
      have := List.mem_of_getElem? h
      clear h
      simp only [Ty.size]
      induction ts with
      | nil => cases this
      | cons y ts ih =>
        simp only [Ty.sizes]
        rcases List.mem_cons.1 this with rfl | h
        · omega
        · have := ih h; omega
    exact OwnTy.refl t
termination_by t => t.size
decreasing_by all_goals (try simp only [Ty.size] at *) <;> omega

/-! ## What stays the same -/

theorem own_isU8 {own : Bool} {t t' : Ty} (h : OwnTy own t t') : t'.isU8 = t.isU8 := by
  cases h <;> rfl

theorem own_u8 {own : Bool} {t : Ty} (h : OwnTy own u8 t) : t = u8 := by
  cases h; rfl

theorem own_isSingle {own : Bool} {t t' : Ty} (h : OwnTy own t t') : t'.isSingle = t.isSingle := by
  cases h <;> first | rfl | (simp only [Ty.isSingle, Ty.isByte_eq]; exact own_isU8 ‹_›)

theorem own_isWrapped {own : Bool} {env env' : Env} (he : OwnEnv own env env') {t t' : Ty} (h : OwnTy own t t') : t'.isWrapped env' = t.isWrapped env := by
  cases h with
  | @named i =>
    have := he i
    simp only [Ty.isWrapped]
    generalize env.decl i = a at this ⊢
    generalize env'.decl i = b at this ⊢
    cases this <;> rfl
  | _ => rfl

theorem own_inStruct {own : Bool} {env env' : Env} (he : OwnEnv own env env') {t t' : Ty} (h : OwnTy own t t') : t'.inStruct env' = t.inStruct env := by
  cases h with
  | @named i =>
    have := he i
    simp only [Ty.inStruct, Ty.isByte_eq]
    generalize env.decl i = a at this ⊢
    generalize env'.decl i = b at this ⊢
    cases this with
    | struct hb =>
      have := hb.tail
      simp only
      rename_i b b' 
      generalize b.tail = a at this ⊢
      generalize b'.tail = a' at this ⊢
      cases this <;> rfl
    | _ => rfl
  | small h | large h | vec h => simp only [Ty.inStruct, own_isU8 h, Ty.isByte_eq]
  | _ => rfl

theorem own_tags {own : Bool} {ds ds' : List FieldDecl} (h : OwnFields own ds ds') : ds'.map (·.tag) = ds.map (·.tag) := by
  induction h with
  | nil => rfl
  | cons h _ _ ih => simp [h, ih]

theorem own_unknowns {own : Bool} {ds ds' : List FieldDecl} (h : OwnFields own ds ds') (l : Fields) : unknowns ds' l = unknowns ds l := by
  have : ∀ g : Byte, ds'.any (·.tag = g) = ds.any (·.tag = g) := by
    intro g
    induction h with
    | nil => rfl
    | cons h _ _ ih => simp [h, ih]
  simp only [unknowns, this]

theorem own_fields {own : Bool} : ∀ {ds ds' : List FieldDecl}, ds'.length = ds.length →
    (∀ (j : Nat) (x x' : FieldDecl), ds[j]? = some x → ds'[j]? = some x' → x'.tag = x.tag ∧ OwnTy own x.ty x'.ty) → OwnFields own ds ds'
  | [], [], _, _ => .nil
  | [], _ :: _, hl, _ => by simp at hl
  | _ :: _, [], hl, _ => by simp at hl
  | x :: xs, x' :: xs', hl, h => .cons (h 0 x x' rfl rfl).1 (h 0 x x' rfl rfl).2
      (own_fields (by simpa using hl) fun j y y' hy hy' => h (j + 1) y y' (by simpa using hy) (by simpa using hy'))

theorem own_tupleFields {own : Bool} {ts ts' : List Ty} (hl : ts'.length = ts.length)
    (h : ∀ (j : Nat) (t t' : Ty), ts[j]? = some t → ts'[j]? = some t' → OwnTy own t t') : OwnFields own (components ts) (components ts') := by
  refine own_fields (by simpa [components] using hl) fun j x x' hx hx' => ?_
  simp only [components, List.getElem?_mapIdx, Option.map_eq_some_iff] at hx hx'
  obtain ⟨t, ht, rfl⟩ := hx
  obtain ⟨t', ht', rfl⟩ := hx'
  exact ⟨rfl, h j t t' ht ht'⟩

theorem own_find {own : Bool} {vs vs' : List (UInt64 × Body)} (h : OwnVariants own vs vs') {disc : UInt64} {b : Body} (hf : vs.find? (fun x => x.1 = disc) = some (disc, b)) :
    ∃ b', vs'.find? (fun x => x.1 = disc) = some (disc, b') ∧ OwnBody own b b' := by
  induction h with
  | nil => cases hf
  | cons hb _ ih =>
    rename_i d _ _ _ _ _
    by_cases hd : d = disc
    · subst hd
      simp at hf ⊢
      exact hf ▸ hb
    · simp only [List.find?_cons, hd, decide_false] at hf ⊢
      exact ih hf

theorem own_discs {own : Bool} {vs vs' : List (UInt64 × Body)} (h : OwnVariants own vs vs') {disc : UInt64} (hn : ∀ x ∈ vs, x.1 ≠ disc) : ∀ x ∈ vs', x.1 ≠ disc := by
  induction h with
  | nil => intro x hx; cases hx
  | cons hb _ ih =>
    intro x hx
    rcases List.mem_cons.1 hx with rfl | hx
    · exact fun he => hn _ (List.mem_cons_self ..) he
    · exact ih (fun y hy => hn y (List.mem_cons_of_mem _ hy)) x hx

inductive OwnItem (own : Bool) : RItem → RItem → Prop where
  | body {t t'} : OwnTy own t t' → OwnItem own (.body t) (.body t')
  | field {t t'} : OwnTy own t t' → OwnItem own (.field t) (.field t')
  | elem {t t'} : OwnTy own t t' → OwnItem own (.elem t) (.elem t')
  | each {t t'} : OwnTy own t t' → OwnItem own (.each t) (.each t')
  | fields {ds ds'} : OwnFields own ds ds' → OwnItem own (.fields ds) (.fields ds')
  | parts {b b'} : OwnBody own b b' → OwnItem own (.parts b) (.parts b')
  | unknown {zc zc'} : Dir own zc zc' → OwnItem own (.unknown zc) (.unknown zc')

/-- The costs: the same number of items; copying costs more bytes. -/
structure OwnStats (own : Bool) (c c' : Stats) : Prop where
  collected : c'.collected = c.collected
  blob : if own then c.blob ≤ c'.blob else c'.blob ≤ c.blob

theorem OwnStats.rfl {own : Bool} {c : Stats} : OwnStats own c c := ⟨.refl _, by cases own <;> simp⟩
theorem OwnStats.add {own : Bool} {a a' b b' : Stats} (h : OwnStats own a a') (h' : OwnStats own b b') : OwnStats own (a + b) (a' + b') := by
  refine ⟨?_, ?_⟩
  · show a'.collected + b'.collected = a.collected + b.collected
    rw [h.collected, h'.collected]
  · have h1 := h.blob
    have h2 := h'.blob
    show if own then a.blob + b.blob ≤ a'.blob + b'.blob else a'.blob + b'.blob ≤ a.blob + b.blob
    cases own
    · simp at h1 h2 ⊢; omega
    · simp at h1 h2 ⊢; omega

/-- Reading is independent of ownership. -/
theorem own_reads {own : Bool} {env env' : Env} (he : OwnEnv own env env') {cfg : Config} {it : RItem} {d : Nat} {vals : List Val} {vs : List V} {c : Stats}
    (h : Reads env cfg it d vals vs c) : ∀ {it'}, OwnItem own it it' → ∃ c', Reads env' cfg it' d vals vs c' ∧ OwnStats own c c' := by
  have hdecl : ∀ {i a}, env.decl i = a → ∃ a', env'.decl i = a' ∧ OwnDecl own a a' := by rintro i _ rfl; exact ⟨_, rfl, he i⟩
  induction h with
  | bodyBoxed _ ih =>
    rintro _ ⟨ho⟩
    cases ho with
    | boxed ho =>
      obtain ⟨c', h1, h2⟩ := ih (.body ho)
      exact ⟨c', .bodyBoxed h1, h2⟩
  | bodyTuple hl hi _ ih =>
    rintro _ ⟨ho⟩
    cases ho with
    | tuple hl' ho =>
      have hof := own_tupleFields hl' ho
      obtain ⟨c', h1, h2⟩ := ih (.fields hof)
      exact ⟨c', .bodyTuple (by omega) (by rw [own_tags hof]; exact hi) h1, h2⟩
  | bodyUnknown _ ih =>
    rintro _ ⟨ho⟩
    cases ho with
    | unknownFields hz =>
      obtain ⟨c', h1, h2⟩ := ih (.unknown hz)
      exact ⟨c', .bodyUnknown h1, h2⟩
  | bodyStruct hd _ ih =>
    rintro _ ⟨ho⟩
    cases ho with
    | named =>
      obtain ⟨a, hb, h'⟩ := hdecl hd
      cases h' with
      | struct hb' =>
        obtain ⟨c', h1, h2⟩ := ih (.parts hb')
        exact ⟨c', .bodyStruct hb h1, h2⟩
  | bodyWrapped hw hi hd _ ih =>
    rintro _ ⟨ho⟩
    obtain ⟨c', h1, h2⟩ := ih (.field ho)
    exact ⟨c', .bodyWrapped (by rw [own_isWrapped he ho]; exact hw) hi hd h1, h2⟩
  | fieldBoxed _ ih =>
    rintro _ (⟨⟩ | ⟨ho⟩)
    cases ho with
    | boxed ho =>
      obtain ⟨c', h1, h2⟩ := ih (.field ho)
      exact ⟨c', .fieldBoxed h1, h2⟩
  | fieldSingle hs _ ih =>
    intro _ ho
    cases ho with
    | field ho =>
    obtain ⟨c', h1, h2⟩ := ih (.elem ho)
    exact ⟨c', .fieldSingle (by rw [own_isSingle ho]; exact hs) h1, h2⟩
  | fieldNoBytes =>
    intro _ ho
    cases ho with
    | field ho =>
    cases ho with
    | small ho => rw [own_u8 ho]; exact ⟨_, .fieldNoBytes, .rfl⟩
  | fieldNoBytesL h =>
    intro _ ho
    cases ho with
    | field ho =>
    cases ho with
    | large ho => rw [own_u8 ho]; exact ⟨_, .fieldNoBytesL h, .rfl⟩
  | fieldVec hu _ ih =>
    rw [Ty.isByte_eq] at hu
    intro _ ho
    cases ho with
    | field ho =>
    cases ho with
    | vecu8 => cases hu
    | vec ho =>
      obtain ⟨c', h1, h2⟩ := ih (.each ho)
      exact ⟨_, .fieldVec (by rw [Ty.isByte_eq, own_isU8 ho]; exact hu) h1, .add .rfl h2⟩
  | fieldList _ ih =>
    intro _ ho
    cases ho with
    | field ho =>
    cases ho with
    | coll ho =>
      obtain ⟨c', h1, h2⟩ := ih (.each ho)
      exact ⟨_, .fieldList h1, .add .rfl h2⟩
  | fieldSet _ ih =>
    intro _ ho
    cases ho with
    | field ho =>
    cases ho with
    | coll ho =>
      obtain ⟨c', h1, h2⟩ := ih (.each ho)
      exact ⟨_, .fieldSet h1, .add .rfl h2⟩
  | fieldMap _ ih =>
    intro _ ho
    cases ho with
    | field ho =>
    cases ho with
    | @map _ k' _ v' hk hw =>
      obtain ⟨c', h1, h2⟩ := ih (.each (.tuple (ts' := [k', v']) rfl fun j t t' h h' => by
        match j with
        | 0 => cases h; cases h'; exact hk
        | 1 => cases h; cases h'; exact hw
        | n + 2 => cases h))
      exact ⟨_, .fieldMap h1, .add .rfl h2⟩
  | fieldOption hl _ ih =>
    intro _ ho
    cases ho with
    | field ho =>
    cases ho with
    | option ho =>
      obtain ⟨c', h1, h2⟩ := ih (.each ho)
      exact ⟨_, .fieldOption hl h1, h2⟩
  | fieldSmall hu hl _ ih =>
    rw [Ty.isByte_eq] at hu
    intro _ ho
    cases ho with
    | field ho =>
    cases ho with
    | small ho =>
      obtain ⟨c', h1, h2⟩ := ih (.each ho)
      exact ⟨_, .fieldSmall (by rw [Ty.isByte_eq, own_isU8 ho]; exact hu) hl h1, h2⟩
  | fieldLarge hu hl _ ih =>
    rw [Ty.isByte_eq] at hu
    intro _ ho
    cases ho with
    | field ho =>
    cases ho with
    | large ho =>
      obtain ⟨c', h1, h2⟩ := ih (.each ho)
      exact ⟨_, .fieldLarge (by rw [Ty.isByte_eq, own_isU8 ho]; exact hu) hl h1, h2⟩
  | elemPrim hp =>
    intro _ ho
    cases ho with
    | elem ho =>
    cases ho with
    | str h =>
      cases hp with
      | strRef => exact ⟨_, .elemPrim .string, .refl _, by simp [h]⟩
    | bytes h =>
      cases hp with
      | bytesRef => exact ⟨_, .elemVec, .refl _, by simp [h]⟩
    | string h =>
      cases hp with
      | string => exact ⟨_, .elemPrim .strRef, .refl _, by simp [h]⟩
    | prim => exact ⟨_, .elemPrim hp, .rfl⟩
  | elemBoxed _ ih =>
    intro _ ho
    cases ho with
    | elem ho =>
    cases ho with
    | boxed ho =>
      obtain ⟨c', h1, h2⟩ := ih (.elem ho)
      exact ⟨c', .elemBoxed h1, h2⟩
  | elemVec =>
    intro _ ho
    cases ho with
    | elem ho =>
    cases ho with
    | vecu8 h => exact ⟨_, .elemPrim .bytesRef, .refl _, by simp [h]⟩
    | vec ho => rw [own_u8 ho]; exact ⟨_, .elemVec, .rfl⟩
  | elemSmall h =>
    intro _ ho
    cases ho with
    | elem ho =>
    cases ho with
    | small ho => rw [own_u8 ho]; exact ⟨_, .elemSmall h, .rfl⟩
  | elemLarge h =>
    intro _ ho
    cases ho with
    | elem ho =>
    cases ho with
    | large ho => rw [own_u8 ho]; exact ⟨_, .elemLarge h, .rfl⟩
  | elemStruct hs _ ih =>
    intro _ ho
    cases ho with
    | elem ho =>
      obtain ⟨c', h1, h2⟩ := ih (.body ho)
      exact ⟨c', .elemStruct (by rw [own_inStruct he ho]; exact hs) h1, h2⟩
  | elemDelegate hd ht hr hc _ ih =>
    intro _ ho
    cases ho with
    | elem ho =>
    cases ho with
    | named =>
      obtain ⟨a, hb, h'⟩ := hdecl hd
      cases h' with
      | @struct b b' hb' =>
        have htl := hb'.tail
        rw [ht] at htl
        generalize hbt : b'.tail = tl at htl
        cases htl with
        | delegate ho =>
          obtain ⟨c', h1, h2⟩ := ih (.elem ho)
          exact ⟨c', .elemDelegate hb hbt hr (by rw [hb'.check]; exact hc) h1, h2⟩
  | elemVariant hd hf _ ih =>
    intro _ ho
    cases ho with
    | elem ho =>
    cases ho with
    | named =>
      obtain ⟨a, hb, h'⟩ := hdecl hd
      cases h' with
      | enum hv =>
        obtain ⟨b', hf', hb'⟩ := own_find hv hf
        obtain ⟨c', h1, h2⟩ := ih (.parts hb')
        exact ⟨c', .elemVariant hb hf' h1, h2⟩
      | enumCatchAll hv =>
        obtain ⟨b', hf', hb'⟩ := own_find hv hf
        obtain ⟨c', h1, h2⟩ := ih (.parts hb')
        exact ⟨c', .elemVariant hb hf' h1, h2⟩
  | elemCatchAll hd hn _ ih =>
    intro _ ho
    cases ho with
    | elem ho =>
    cases ho with
    | named =>
      obtain ⟨a, hb, h'⟩ := hdecl hd
      cases h' with
      | enumCatchAll hv hb' =>
        obtain ⟨c', h1, h2⟩ := ih (.parts hb')
        exact ⟨c', .elemCatchAll hb (own_discs hv hn) h1, h2⟩
  | unkInt =>
    intro _ ho
    cases ho with
    | elem ho => cases ho with | unknownField hz => exact ⟨_, .unkInt, .rfl⟩
  | @unkBlob zc _ _ =>
    intro _ ho
    cases ho with
    | elem ho =>
      cases ho with
      | @unknownField _ zc' hz =>
        refine ⟨_, .unkBlob, .refl _, ?_⟩
        revert hz
        cases own <;> cases zc <;> cases zc' <;> simp [Dir]
  | unkStruct _ ih =>
    intro _ ho
    cases ho with
    | elem ho =>
      cases ho with
      | unknownField hz =>
        obtain ⟨c', h1, h2⟩ := ih (.body (.unknownFields hz))
        exact ⟨c', .unkStruct h1, h2⟩
  | unkEnum _ ih =>
    intro _ ho
    cases ho with
    | elem ho =>
      cases ho with
      | unknownField hz =>
        obtain ⟨c', h1, h2⟩ := ih (.body (.unknownFields hz))
        exact ⟨c', .unkEnum h1, h2⟩
  | eachNil =>
    intro _ ho
    cases ho with
    | each ho => exact ⟨_, .eachNil, .rfl⟩
  | eachCons _ _ ih1 ih2 =>
    intro _ ho
    cases ho with
    | each ho =>
      obtain ⟨c1, h1, g1⟩ := ih1 (.elem ho)
      obtain ⟨c2, h2, g2⟩ := ih2 (.each ho)
      exact ⟨_, .eachCons h1 h2, .add g1 g2⟩
  | fieldsNil =>
    intro _ ho
    cases ho with
    | fields ho => cases ho; exact ⟨_, .fieldsNil, .rfl⟩
  | fieldsCons hd _ _ ih1 ih2 =>
    intro _ ho
    cases ho with
    | fields ho =>
      cases ho with
      | cons ht hx hxs =>
        obtain ⟨c1, h1, g1⟩ := ih1 (.field hx)
        obtain ⟨c2, h2, g2⟩ := ih2 (.fields hxs)
        exact ⟨_, .fieldsCons hd (ht ▸ h1) h2, .add g1 g2⟩
  | partsPlain ht hc hi _ ih =>
    intro _ ho
    cases ho with
    | @parts b b' ho =>
      have htl := ho.tail
      rw [ht] at htl
      generalize hbt : b'.tail = tl at htl
      cases htl with
      | plain =>
        obtain ⟨c', h1, h2⟩ := ih (.fields ho.fields)
        exact ⟨c', .partsPlain hbt (by rw [ho.check]; exact hc) (by rw [own_tags ho.fields]; exact hi) h1, h2⟩
  | partsDelegate ht hc hd _ ih =>
    intro _ ho
    cases ho with
    | @parts b b' ho =>
      have htl := ho.tail
      rw [ht] at htl
      generalize hbt : b'.tail = tl at htl
      cases htl with
      | delegate hty =>
        obtain ⟨c', h1, h2⟩ := ih (.body hty)
        exact ⟨c', .partsDelegate hbt (by rw [ho.check]; exact hc) hd h1, h2⟩
  | partsUnknown ht hc hd _ _ ih1 ih2 =>
    intro _ ho
    cases ho with
    | @parts b b' ho =>
      have htl := ho.tail
      rw [ht] at htl
      generalize hbt : b'.tail = tl at htl
      cases htl with
      | unknown hz =>
        obtain ⟨c1, h1, g1⟩ := ih1 (.fields ho.fields)
        obtain ⟨c2, h2, g2⟩ := ih2 (.unknown hz)
        exact ⟨_, .partsUnknown hbt (by rw [ho.check]; exact hc) hd h1 (by rw [own_unknowns ho.fields]; exact h2), .add g1 g2⟩
  | unknownNil =>
    intro _ ho
    cases ho with
    | unknown => exact ⟨_, .unknownNil, .rfl⟩
  | unknownCons hd _ _ ih1 ih2 =>
    intro _ ho
    cases ho with
    | unknown hz =>
      obtain ⟨c1, h1, g1⟩ := ih1 (.elem (.unknownField hz))
      obtain ⟨c2, h2, g2⟩ := ih2 (.unknown hz)
      exact ⟨_, .unknownCons hd h1 h2, .add (.add .rfl g1) g2⟩

/-- The limits for what is stored play no role for the specification. -/
theorem reads_cfg {env : Env} {a b : Config} (hr : a.recursionLimit = b.recursionLimit) (hi : a.ignoreUnknownFields = b.ignoreUnknownFields) {it : RItem} {d : Nat} {vals : List Val} {vs : List V}
    {c : Stats} (h : Reads env a it d vals vs c) : Reads env b it d vals vs c := by
  have hig : ∀ {tags l}, a.Ignores tags l → b.Ignores tags l := by
    intro tags l h; unfold Config.Ignores at h ⊢; rw [← hi]; exact h
  have hd : ∀ {d}, d < a.recursionLimit → d < b.recursionLimit := fun h => hr ▸ h
  induction h with
  | bodyBoxed _ ih => exact .bodyBoxed ih
  | bodyTuple h1 h2 _ ih => exact .bodyTuple h1 (hig h2) ih
  | bodyUnknown _ ih => exact .bodyUnknown ih
  | bodyStruct h _ ih => exact .bodyStruct h ih
  | bodyWrapped h1 h2 h3 _ ih => exact .bodyWrapped h1 (hig h2) (hd h3) ih
  | fieldBoxed _ ih => exact .fieldBoxed ih
  | fieldSingle h _ ih => exact .fieldSingle h ih
  | fieldNoBytes => exact .fieldNoBytes
  | fieldNoBytesL h => exact .fieldNoBytesL h
  | fieldVec h _ ih => exact .fieldVec h ih
  | fieldList _ ih => exact .fieldList ih
  | fieldSet _ ih => exact .fieldSet ih
  | fieldMap _ ih => exact .fieldMap ih
  | fieldOption h _ ih => exact .fieldOption h ih
  | fieldSmall h1 h2 _ ih => exact .fieldSmall h1 h2 ih
  | fieldLarge h1 h2 _ ih => exact .fieldLarge h1 h2 ih
  | elemPrim h => exact .elemPrim h
  | elemBoxed _ ih => exact .elemBoxed ih
  | elemVec => exact .elemVec
  | elemSmall h => exact .elemSmall h
  | elemLarge h => exact .elemLarge h
  | elemStruct h _ ih => exact .elemStruct h ih
  | elemDelegate h1 h2 h3 h4 _ ih => exact .elemDelegate h1 h2 (hd h3) h4 ih
  | elemVariant h1 h2 _ ih => exact .elemVariant h1 h2 ih
  | elemCatchAll h1 h2 _ ih => exact .elemCatchAll h1 h2 ih
  | unkInt => exact .unkInt
  | unkBlob => exact .unkBlob
  | unkStruct _ ih => exact .unkStruct ih
  | unkEnum _ ih => exact .unkEnum ih
  | eachNil => exact .eachNil
  | eachCons _ _ ih1 ih2 => exact .eachCons ih1 ih2
  | fieldsNil => exact .fieldsNil
  | fieldsCons h _ _ ih1 ih2 => exact .fieldsCons (hd h) ih1 ih2
  | partsPlain h1 h2 h3 _ ih => exact .partsPlain h1 h2 (hig h3) ih
  | partsDelegate h1 h2 h3 _ ih => exact .partsDelegate h1 h2 (hd h3) ih
  | partsUnknown h1 h2 h3 _ _ ih1 ih2 => exact .partsUnknown h1 h2 (hd h3) ih1 ih2
  | unknownNil => exact .unknownNil
  | unknownCons h _ _ ih1 ih2 => exact .unknownCons (hd h) ih1 ih2

/-! ## The slices -/

/-- **C47** (a) A slice of a blob is the range of the input from the current offset on that makes up the rest of the blob. Getting it does not move the stream or change anything. -/
theorem c47_slice (s s' : Stream) (d : List Byte) (h : Op.exec .slice s = .ok d s') :
    s' = s ∧ d.length = s.blobEnd - s.pos ∧ s.inner.pos + d.length ≤ s.inner.data.length ∧ d = (s.inner.data.drop s.inner.pos).take (s.blobEnd - s.pos) := by
  simp only [Op.exec, onLiveBlob] at h
  split at h
  case isFalse => cases h
  rcases blobSlice_cases s with ⟨h1, h2, h3⟩ | ⟨e, h3⟩ <;> rw [h3] at h <;> cases h
  have hr : s.rest = s.inner.data.drop s.inner.pos := rfl
  simp only [blobRemaining, hr, List.length_drop] at h1
  refine ⟨rfl, ?_, ?_, rfl⟩
  · rw [hr, List.length_take, List.length_drop, blobRemaining]; omega
  · rw [hr, List.length_take, List.length_drop, blobRemaining]; omega

/-- (b) Copying (`read_fully`) instead gives the same bytes; the next element is at the same position in either case, with the same input ahead. -/
theorem c47_slice_read (s s' : Stream) (hi : Inv s) (hb : Benign s.inner.sched) (hroom : s.pos + s.rest.length ≤ U64MAX) (d : List Byte) (h : Op.exec .slice s = .ok d s') (max : Nat) (hm : d.length ≤ max) :
    ∃ s1 s2 s3, Op.exec .commit s = .ok () s1 ∧ Op.exec (.readFully max) s = .ok d s2 ∧ Op.exec .commit s2 = .ok () s3 ∧
      s1.pos = s.pos + d.length ∧ s3.pos = s.pos + d.length ∧ s1.rest = s.rest.drop d.length ∧ s3.rest = s.rest.drop d.length := by
  obtain ⟨rfl, h1, h2, h3⟩ := c47_slice s s' d h
  have hl : s'.live = true := by
    simp only [Op.exec, onLiveBlob] at h
    split at h
    · assumption
    · cases h
  obtain ⟨hc, hw⟩ := hi.liveOk hl
  have hpe : s'.pos ≤ s'.blobEnd := by
    rcases hi.pend with hp | hp
    · rw [hc] at hp; cases hp
    · exact hp.2.1
  have hr : s'.rest = d ++ s'.rest.drop d.length := by
    conv => lhs; rw [← List.take_append_drop d.length s'.rest]
    congr 1
    rw [h1]; exact h3.symm
  have hat : At s' ⟨s'.pos, s'.depth, s'.eof, some d, s'.rest.drop d.length⟩ :=
    { inv := hi, ben := hb, pos := rfl, depth := rfl, eof := rfl, bytes := hr, within := hw
      room := by
        have := congrArg List.length hr
        rw [List.length_append] at this
        show s'.pos + d.length + (s'.rest.drop d.length).length ≤ _
        omega
      none := fun hn => by cases hn
      some := fun c hc' => by cases hc'; exact ⟨hc, hl, by omega⟩ }
  obtain ⟨s1, g1, g2, -⟩ := commit_at hat
  obtain ⟨s2, g3, g4⟩ := readFully_at hat rfl max hm
  obtain ⟨s3, g5, g6, -⟩ := commit_at g4
  refine ⟨s1, s2, s3, g1, ?_, g5, g2.pos, ?_, ?_, ?_⟩
  · simp only [Op.exec, onLiveBlob, hl, if_true]; exact g3
  · have := g6.pos
    simpa [View.flush, View.curBytes] using this
  · simpa [View.flush, View.curBytes] using g2.bytes
  · simpa [View.flush, View.curBytes] using g6.bytes

/-- (c) Deserialising does not change the input: what was borrowed stays as it is. -/
theorem c47_unchanged (env : Env) (t : Ty) (cfg : Config) (s : Stream) (hi : Inv s) : ((deserialize env t cfg).run (s, .zero)).state.1.inner.data = s.inner.data :=
  (Prog.run_safe (deserialize env t cfg) (s, .zero) hi).step.frame.data

/-! ## The same values -/

/-- (d) What is accepted as a type that borrows is accepted as the copying type, with the same value (if the limit for the number of bytes allows for it). Copying stores no more elements. -/
theorem c47_copy (env env' : Env) (he : OwnEnv true env env') (henv : env.Ok) (hwf : env.wf) (henv' : env'.Ok) (hwf' : env'.wf) (t t' : Ty) (ho : OwnTy true t t')
    (ht : t.wf false = true) (ht' : t'.wf false = true) (cfg : Config) (l : Fields) (m : List Byte) (hm : Message l m) (hlen : m.length < U64MAX) (v : V) (c : Stats)
    (h : Accepts env t cfg m v c) : ∃ c', c'.collected = c.collected ∧ c.blob ≤ c'.blob ∧ ∀ n, c'.blob ≤ n → Accepts env' t' { cfg with maxBlob := n } m v c' := by
  obtain ⟨h1, h2⟩ := (c54_accepts env henv hwf t ht cfg l m hm hlen v c).1 h
  obtain ⟨c', h3, h4, h5⟩ := own_reads he h1 (.body ho)
  refine ⟨c', h4, by simpa using h5, fun n hn => ?_⟩
  refine (c54_accepts env' henv' hwf' t' ht' _ l m hm hlen v c').2 ⟨?_, ?_, hn⟩
  · exact reads_cfg (a := cfg) (b := { cfg with maxBlob := n }) rfl rfl h3
  · show c'.collected ≤ cfg.maxCollect
    rw [h4]; exact h2.1

/-- (e) And back: what is accepted as the copying type is accepted as the type that borrows, with the same value. -/
theorem c47_borrow (env env' : Env) (he : OwnEnv true env env') (henv : env.Ok) (hwf : env.wf) (henv' : env'.Ok) (hwf' : env'.wf) (t t' : Ty) (ho : OwnTy true t t')
    (ht : t.wf false = true) (ht' : t'.wf false = true) (cfg : Config) (l : Fields) (m : List Byte) (hm : Message l m) (hlen : m.length < U64MAX) (v : V) (c' : Stats)
    (h : Accepts env' t' cfg m v c') : ∃ c, c'.collected = c.collected ∧ c.blob ≤ c'.blob ∧ Accepts env t cfg m v c := by
  obtain ⟨h1, h2⟩ := (c54_accepts env' henv' hwf' t' ht' cfg l m hm hlen v c').1 h
  obtain ⟨c, h3, h4, h5⟩ := own_reads he.symm h1 (.body ho.symm)
  have h5 : c.blob ≤ c'.blob := by simpa using h5
  refine ⟨c, h4.symm, h5, (c54_accepts env henv hwf t ht cfg l m hm hlen v c).2 ⟨h3, ?_, Nat.le_trans h5 h2.2⟩⟩
  rw [h4]; exact h2.1

/-- (f) Both consume the same: exactly the message. -/
theorem c47_consume (env env' : Env) (t t' : Ty) (cfg cfg' : Config) (l : Fields) (m : List Byte) (hm : Message l m) (v v' : V) (c c' : Stats)
    (h : Accepts env t cfg m v c) (h' : Accepts env' t' cfg' m v' c') (tail : List Byte) (s : Stream) (hs : Over s (m ++ tail)) (hroom : s.pos + (m ++ tail).length < U64MAX) :
    ∃ s1 s2, (deserialize env t cfg).run (s, .zero) = .ok v (s1, c) ∧ (deserialize env' t' cfg').run (s, .zero) = .ok v' (s2, c') ∧
      s1.pos = s.pos + m.length ∧ s2.pos = s.pos + m.length ∧ Over s1 tail ∧ Over s2 tail := by
  have hr : (Stream.fromSlice m).pos + m.length < U64MAX := by
    show 0 + m.length < U64MAX
    simp at hroom; omega
  have hd := (reads_iff hm (over_fromSlice m (by simp at hroom; omega)) hr v c).1 (h _ (over_fromSlice m (by simp at hroom; omega)) hr)
  have hd' := (reads_iff hm (over_fromSlice m (by simp at hroom; omega)) hr v' c').1 (h' _ (over_fromSlice m (by simp at hroom; omega)) hr)
  obtain ⟨s1, g1, g2⟩ := de_ok env t cfg hm hs hroom hd.1 hd.2
  obtain ⟨s2, g3, g4⟩ := de_ok env' t' cfg' hm hs hroom hd'.1 hd'.2
  exact ⟨s1, s2, g1, g3, g2.pos, g4.pos, g2.over, g4.over⟩

theorem blob_infix_toks {ts : List Tok} {bs : List Byte} (h : EncToks ts bs) {tag : Byte} {d : List Byte} (hm : .blob tag d ∈ ts) : d <:+: bs := by
  induction h with
  | nil => cases hm
  | @cons t ts b b' h1 h2 ih =>
    rcases List.mem_cons.1 hm with rfl | hm
    · cases h1 with
      | @blob _ _ x g => exact ⟨x :: g, b', by simp⟩
    · exact (ih hm).trans (List.suffix_append b b').isInfix

theorem blob_mem {l : Fields} {ts : List Tok} (h : BodyOf l ts) {tag : Byte} {d : List Byte} (hm : (tag, .blob d) ∈ l) : .blob tag d ∈ ts := by
  induction h with
  | nil => cases hm
  | pad _ ih => exact List.mem_cons_of_mem _ (ih hm)
  | int _ ih =>
    rcases List.mem_cons.1 hm with h | hm
    · cases h
    · exact List.mem_cons_of_mem _ (ih hm)
  | blob _ ih =>
    rcases List.mem_cons.1 hm with h | hm
    · cases h; exact List.mem_cons_self ..
    · exact List.mem_cons_of_mem _ (ih hm)
  | struct _ _ _ ih =>
    rcases List.mem_cons.1 hm with h | hm
    · cases h
    · exact List.mem_cons_of_mem _ (List.mem_append_right _ (ih hm))
  | enum _ _ _ ih =>
    rcases List.mem_cons.1 hm with h | hm
    · cases h
    · exact List.mem_cons_of_mem _ (List.mem_append_right _ (ih hm))

/-- (g) The bytes of a `&[u8]` or `&str` field in the value are a contiguous part of the input. -/
theorem c47_subrange (env : Env) (henv : env.Ok) (hwf : env.wf) (t : Ty) (ht : t.wf false = true) (fs : List FieldDecl) (hfs : FieldsOfTy env t fs) (cfg : Config)
    (l : Fields) (m : List Byte) (hm : Message l m) (hlen : m.length < U64MAX) (us : List V) (c : Stats) (h : Accepts env t cfg m (.seq us) c)
    (j : Nat) (x : FieldDecl) (hx : fs[j]? = some x) :
    (x.ty = .prim .bytesRef → ∃ d, us[j]? = some (.ofBytes d) ∧ (x.tag, .blob d) ∈ l ∧ d <:+: m) ∧
    (x.ty = .prim .strRef → ∃ s : String, us[j]? = some (.str s) ∧ (x.tag, .blob (utf8 s)) ∈ l ∧ utf8 s <:+: m) := by
  obtain ⟨us', he, hc⟩ := reads_component hfs ((c54_accepts env henv hwf t ht cfg l m hm hlen _ c).1 h).1
  cases he
  obtain ⟨u, c', hu, hf⟩ := hc j x hx
  have hsub : ∀ {d}, (x.tag, Val.blob d) ∈ l → d <:+: m := by
    intro d hd
    obtain ⟨ts, h1, h2⟩ := hm
    exact blob_infix_toks h2 (blob_mem h1 hd)
  have hocc : ∀ {val}, occ x.tag l = [val] → (x.tag, val) ∈ l := by
    intro val hv
    have : val ∈ occ x.tag l := by rw [hv]; exact List.mem_singleton.2 rfl
    rw [occ_eq] at this
    obtain ⟨y, hy, rfl⟩ := List.mem_map.1 this
    obtain ⟨hy, ht⟩ := List.mem_filter.1 hy
    rw [← of_decide_eq_true ht]; exact hy
  generalize hvals : occ x.tag l = vals at hf
  constructor <;> intro hty <;> rw [hty] at hf
  · cases hf with
    | fieldSingle _ hf =>
      cases hf with
      | elemPrim hp => cases hp; exact ⟨_, hu, hocc hvals, hsub (hocc hvals)⟩
      | elemStruct hs => simp [Ty.inStruct] at hs
  · cases hf with
    | fieldSingle _ hf =>
      cases hf with
      | elemPrim hp => cases hp; exact ⟨_, hu, hocc hvals, hsub (hocc hvals)⟩
      | elemStruct hs => simp [Ty.inStruct] at hs

/-- `(&[u8], String)` and `(Vec<u8>, &str)`: neither is the owned version of the other, but both have the same fully owned and the same fully borrowed version. -/
example : OwnTy true (.tuple [.prim .bytesRef, .prim .strRef]) (.tuple [.prim .bytesRef, .prim .string]) ∧ OwnTy true (.tuple [.prim .bytesRef, .prim .string]) (.tuple [.vec u8, .prim .string]) := by
  constructor
  · exact .tuple rfl fun j t t' h h' => by
      match j with
      | 0 => cases h; cases h'; exact .prim
      | 1 => cases h; cases h'; exact .str rfl
      | n + 2 => cases h
  · exact .tuple rfl fun j t t' h h' => by
      match j with
      | 0 => cases h; cases h'; exact .bytes rfl
      | 1 => cases h; cases h'; exact .prim
      | n + 2 => cases h

theorem exOwn_message : Message [(1, .blob [7, 8]), (2, .blob [65])] [129, 2, 7, 8, 130, 1, 65, 0] :=
  (by decide +kernel : canonToks [.blob 1 [7, 8], .blob 2 [65], .endStruct] = [129, 2, 7, 8, 130, 1, 65, 0]) ▸ message_canon (.blob (.blob .nil)) (by decide)

/-- The message is accepted when borrowing, without costs, … -/
theorem exOwn_borrowed : Accepts exEnv (.tuple [.prim .bytesRef, .prim .strRef]) .default [129, 2, 7, 8, 130, 1, 65, 0] (.seq [.ofBytes [7, 8], .str "A"]) .zero :=
  (c54_accepts exEnv exEnv_ok exEnv_wf _ rfl _ _ _ exOwn_message (by decide) _ _).2 ⟨by
    have h0 : 0 < Config.default.recursionLimit := by decide
    have h1 : Reads exEnv .default (.field (.prim .bytesRef)) 1 (occ 1 [(1, .blob [7, 8]), (2, .blob [65])]) [.ofBytes [7, 8]] ⟨0, 0⟩ := .fieldSingle rfl (.elemPrim .bytesRef)
    have h2 : Reads exEnv .default (.field (.prim .strRef)) 1 (occ 2 [(1, .blob [7, 8]), (2, .blob [65])]) [.str "A"] ⟨0, 0⟩ := by
      have e : occ 2 [(1, Val.blob [7, 8]), (2, .blob [65])] = [.blob (utf8 "A")] := by rw [show utf8 "A" = [65] from by decide +kernel]; rfl
      rw [e]
      exact .fieldSingle rfl (.elemPrim .strRef)
    have h3 := Reads.fieldsCons (x := ⟨1, "field_0", .prim .bytesRef⟩) h0 h1 (.fieldsCons (x := ⟨2, "field_1", .prim .strRef⟩) h0 h2 .fieldsNil)
    exact .bodyTuple (by decide) (.inl rfl) h3, by decide⟩

theorem exOwn_env : OwnEnv true exEnv exEnv := fun i => by
  have hf : ∀ ds : List FieldDecl, OwnFields true ds ds := by
    intro ds
    induction ds with
    | nil => exact .nil
    | cons x xs ih => exact .cons rfl (.refl _) ih
  have hb : ∀ b : Body, OwnBody true b b := fun b => ⟨hf _, by cases b.tail <;> constructor <;> first | exact .refl _ | simp [Dir], rfl⟩
  have hv : ∀ vs : List (UInt64 × Body), OwnVariants true vs vs := by
    intro vs
    induction vs with
    | nil => exact .nil
    | cons x xs ih => exact .cons (hb _) ih
  cases exEnv.decl i with
  | struct b => exact .struct (hb b)
  | enum vs ca =>
    cases ca with
    | none => exact .enum (hv vs)
    | some b => exact .enumCatchAll (hv vs) (hb b)

/-- … hence also when copying. -/
example : ∃ c', c'.collected = 0 ∧ ∀ n, c'.blob ≤ n →
    Accepts exEnv (.tuple [.vec u8, .prim .string]) { Config.default with maxBlob := n } [129, 2, 7, 8, 130, 1, 65, 0] (.seq [.ofBytes [7, 8], .str "A"]) c' := by
  have ho : OwnTy true (.tuple [.prim .bytesRef, .prim .strRef]) (.tuple [.vec u8, .prim .string]) := .tuple rfl fun j t t' h h' => by
    match j with
    | 0 => cases h; cases h'; exact .bytes rfl
    | 1 => cases h; cases h'; exact .str rfl
    | n + 2 => cases h
  obtain ⟨c', h1, -, h2⟩ := c47_copy exEnv exEnv exOwn_env exEnv_ok exEnv_wf exEnv_ok exEnv_wf _ _ ho rfl rfl _ _ _ exOwn_message (by decide) _ _ exOwn_borrowed
  exact ⟨c', h1, h2⟩

/-- The same message as an example of (e), … -/
example : ∃ c, 0 = c.collected ∧ Accepts exEnv (.tuple [.prim .bytesRef, .prim .strRef]) .default [129, 2, 7, 8, 130, 1, 65, 0] (.seq [.ofBytes [7, 8], .str "A"]) c := by
  have ho : OwnTy true (.tuple [.prim .bytesRef, .prim .strRef]) (.tuple [.prim .bytesRef, .prim .strRef]) := .refl _
  obtain ⟨c, h1, -, h2⟩ := c47_borrow exEnv exEnv exOwn_env exEnv_ok exEnv_wf exEnv_ok exEnv_wf _ _ ho rfl rfl _ _ _ exOwn_message (by decide) _ _ exOwn_borrowed
  exact ⟨c, h1, h2⟩
/-- … of (f), when reading it from a vector with another byte behind it, … -/
example : ∃ s1 c, (deserialize exEnv (.tuple [.prim .bytesRef, .prim .strRef]) .default).run (Stream.fromSlice [129, 2, 7, 8, 130, 1, 65, 0, 9], .zero) =
    .ok (.seq [.ofBytes [7, 8], .str "A"]) (s1, c) ∧ s1.pos = 8 ∧ Over s1 [9] := by
  obtain ⟨s1, -, h1, -, h2, -, h3, -⟩ := c47_consume exEnv exEnv _ _ _ _ _ _ exOwn_message _ _ _ _ exOwn_borrowed exOwn_borrowed [9] (Stream.fromSlice [129, 2, 7, 8, 130, 1, 65, 0, 9])
    (over_fromSlice _ (by decide)) (by decide)
  exact ⟨s1, _, h1, h2, h3⟩
/-- … and of (g): the bytes of the first and the text of the second field lie in the message. -/
example : [7, 8] <:+: ([129, 2, 7, 8, 130, 1, 65, 0] : List Byte) ∧ utf8 "A" <:+: ([129, 2, 7, 8, 130, 1, 65, 0] : List Byte) := by
  have h := c47_subrange exEnv exEnv_ok exEnv_wf (.tuple [.prim .bytesRef, .prim .strRef]) rfl _ (.tuple (by decide)) _ _ _ exOwn_message (by decide) _ _ exOwn_borrowed
  obtain ⟨d, h1, h2, h3⟩ := (h 0 ⟨1, "field_0", .prim .bytesRef⟩ rfl).1 rfl
  obtain ⟨x, h4, h5, h6⟩ := (h 1 ⟨2, "field_1", .prim .strRef⟩ rfl).2 rfl
  simp at h2
  cases h4
  subst h2
  exact ⟨h3, h6⟩

/-- A stream in the middle of a blob of two bytes. -/
def exSlice : Stream := (nextElement (Stream.fromSlice [129, 2, 7, 8, 0])).state

example : ∃ s1 s2 s3, Op.exec .slice exSlice = .ok [7, 8] exSlice ∧ Op.exec .commit exSlice = .ok () s1 ∧ Op.exec (.readFully 2) exSlice = .ok [7, 8] s2 ∧
    Op.exec .commit s2 = .ok () s3 ∧ s1.pos = 4 ∧ s3.pos = 4 := by
  have hr : Op.exec .slice exSlice = .ok [7, 8] exSlice := rfl
  have hi : Inv exSlice := (nextElement_safe (fresh_fromSlice _).inv).1.step.inv
  obtain ⟨s1, s2, s3, h1, h2, h3, h4, h5, -⟩ := c47_slice_read _ _ hi (fun _ h => nomatch h) (by decide) _ hr 2 (by decide)
  exact ⟨s1, s2, s3, hr, h1, h2, h3, h4, h5⟩

end Fourleaf.Props
