import Verif.PropsEnum

/-! # C41: compatible type changes -/

namespace Fourleaf.Props
open Fourleaf Spec

/-- A field of type `t` can hold `n` occurrences of type `e`. -/
inductive Holds : Ty → Ty → Nat → Prop where
  | option {e n} : n ≤ 1 → Holds (.option e) e n
  | vec {e n} : e.isByte = false → Holds (.vec e) e n
  | list {e n} : Holds (.coll .list e) e n
  | small {e n} : e.isByte = false → Holds (.small n e) e n
  | large {e n} : e.isByte = false → Holds (.large n e) e n

/-- Types that always occur exactly once. -/
def _root_.Fourleaf.Ty.once : Ty → Bool
  | .small 0 (.prim (.int .u8)) | .large 0 (.prim (.int .u8)) => false
  | t => t.isSingle

/-- Tuples and plain structs: their fields, and what the constructor accepts. -/
inductive PlainTy (env : Env) : Ty → List FieldDecl → (List V → Bool) → Prop where
  | tuple {ts} : ts.length ≤ 16 → PlainTy env (.tuple ts) (components ts) fun _ => true
  | struct {i b} : env.decl i = .struct b → b.tail = .plain → PlainTy env (.named i) b.fields b.check

/-- What has changed: the old and the new type. -/
inductive Change where
  | body (t t' : Ty)
  | field (t t' : Ty)
  | elem (t t' : Ty)
  | each (t t' : Ty)
  | fields (ds ds' : List FieldDecl)
  | parts (b b' : Body)

def Change.old : Change → RItem
  | .body t _ => .body t
  | .field t _ => .field t
  | .elem t _ => .elem t
  | .each t _ => .each t
  | .fields ds _ => .fields ds
  | .parts b _ => .parts b
def Change.new : Change → RItem
  | .body _ t => .body t
  | .field _ t => .field t
  | .elem _ t => .elem t
  | .each _ t => .each t
  | .fields _ ds => .fields ds
  | .parts _ b => .parts b

/-- A value of an occurrence of the type. -/
def Possible (env : Env) (t : Ty) (v : V) : Prop := ∃ cfg d val c, Reads env cfg (.elem t) d [val] [v] c

/-- The variant of an enum with a discriminant: a declared one, or else the catch-all. -/
inductive VariantOf (env : Env) (i : Nat) (disc : UInt64) (b : Body) : Prop where
  | declared {variants ca} : env.decl i = .enum variants ca → variants.find? (fun x => x.1 = disc) = some (disc, b) → VariantOf env i disc b
  | other {variants} : env.decl i = .enum variants (some b) → (∀ x ∈ variants, x.1 ≠ disc) → VariantOf env i disc b

/-- A change of types is compatible for these (old and new) values. `drops`: there are fields that the new type does not have; `adds`: there are fields that the old type does not have. -/
inductive Compat (env : Env) (drops adds : Bool) : Change → List V → List V → Prop where
  -- elements
  | elemSame {t v} : Compat env drops adds (.elem t t) [v] [v]
  | elemPrim {p v} : Compat env drops adds (.elem (.prim p) (.prim p)) [v] [v]
  /-- a wider integer type of the same signedness -/
  | elemInt {a b i} : a.signed = b.signed → b.min ≤ a.min → a.max ≤ b.max → Compat env drops adds (.elem (.prim (.int a)) (.prim (.int b))) [.num i] [.num i]
  /-- a narrower one, if it has this number -/
  | elemNarrow {a b i} : a.signed = b.signed → b.min ≤ i → i ≤ b.max → Compat env drops adds (.elem (.prim (.int a)) (.prim (.int b))) [.num i] [.num i]
  | elemStr {s} : Compat env drops adds (.elem (.prim .string) (.prim .strRef)) [.str s] [.str s]
  | elemString {s} : Compat env drops adds (.elem (.prim .strRef) (.prim .string)) [.str s] [.str s]
  | elemSlice {v} : Compat env drops adds (.elem (.vec u8) (.prim .bytesRef)) [v] [v]
  | elemBytes {v} : Compat env drops adds (.elem (.prim .bytesRef) (.vec u8)) [v] [v]
  | elemArray {n v} : Compat env drops adds (.elem (.small n u8) (.vec u8)) [v] [v]
  | elemBoxL {t t' vs vs'} : Compat env drops adds (.elem t t') vs vs' → Compat env drops adds (.elem (.boxed t) t') vs vs'
  | elemBoxR {t t' vs vs'} : Compat env drops adds (.elem t t') vs vs' → Compat env drops adds (.elem t (.boxed t')) vs vs'
  | elemStruct {t t' v v'} : t.inStruct env = true → t'.inStruct env = true → Compat env drops adds (.body t t') [v] [v'] → Compat env drops adds (.elem t t') [v] [v']
  /-- enums: the new one must have the variant of the value, or a catch-all -/
  | elemVariant {i j disc b b' vs vs'} : VariantOf env i disc b → VariantOf env j disc b' → Compat env drops adds (.parts b b') vs vs' →
      Compat env drops adds (.elem (.named i) (.named j)) [.variant disc vs] [.variant disc vs']
  /-- delegating structs -/
  | elemDelegates {i j b b' name name' t t' v v'} : env.decl i = .struct b → env.decl j = .struct b' → b.tail = .delegate name t → b'.tail = .delegate name' t' → b'.check [v'] = true →
      Compat env drops adds (.elem t t') [v] [v'] → Compat env drops adds (.elem (.named i) (.named j)) [.seq [v]] [.seq [v']]
  /-- a delegating struct becomes what it delegates to -/
  | elemUnwrap {i b name t t' v v'} : env.decl i = .struct b → b.tail = .delegate name t → Compat env drops adds (.elem t t') [v] [v'] →
      Compat env drops adds (.elem (.named i) t') [.seq [v]] [v']
  | eachNil {t t'} : Compat env drops adds (.each t t') [] []
  | eachCons {t t' v v' vs vs'} : Compat env drops adds (.elem t t') [v] [v'] → Compat env drops adds (.each t t') vs vs' → Compat env drops adds (.each t t') (v :: vs) (v' :: vs')
  -- fields
  | fieldSame {t v} : Compat env drops adds (.field t t) [v] [v]
  | fieldOnce {t t' v v'} : t.once = true → t'.isSingle = true → Compat env drops adds (.elem t t') [v] [v'] → Compat env drops adds (.field t t') [v] [v']
  /-- a single value becomes an optional one, or a collection -/
  | fieldWrap {t t' e v v'} : t.once = true → Holds t' e 1 → Compat env drops adds (.elem t e) [v] [v'] → Compat env drops adds (.field t t') [v] [.seq [v']]
  /-- an optional value becomes a collection, an array a vector, etc. -/
  | fieldHolds {t t' e e' vs vs'} : Holds t e vs.length → Holds t' e' vs.length → Compat env drops adds (.each e e') vs vs' → Compat env drops adds (.field t t') [.seq vs] [.seq vs']
  /-- a collection becomes a set or, if it consists of pairs, a map -/
  | fieldToSet {t e e' vs vs'} : Holds t e vs.length → Compat env drops adds (.each e e') vs vs' → Compat env drops adds (.field t (.coll .set e')) [.seq vs] [.seq (distinct vs')]
  | fieldToMap {t e k w vs vs'} : Holds t e vs.length → Compat env drops adds (.each e (.tuple [k, w])) vs vs' → Compat env drops adds (.field t (.map k w)) [.seq vs] [.seq (entriesOf vs')]
  /-- the elements of a set, or the keys and values of a map, have another type: different elements (keys) must stay different -/
  | fieldSets {e e' vs} (f : V → V) : (∀ v, Possible env e v → Compat env drops adds (.elem e e') [v] [f v]) →
      (∀ a b, Possible env e a → Possible env e b → f a = f b → a = b) → Compat env drops adds (.field (.coll .set e) (.coll .set e')) [.seq vs] [.seq (vs.map f)]
  | fieldMaps {k w k' w' vs} (f : V → V) : (∀ v, Possible env (.tuple [k, w]) v → Compat env drops adds (.elem (.tuple [k, w]) (.tuple [k', w'])) [v] [f v]) →
      (∀ a b, Possible env (.tuple [k, w]) a → Possible env (.tuple [k, w]) b → ((f a).key = (f b).key ↔ a.key = b.key)) →
      Compat env drops adds (.field (.map k w) (.map k' w')) [.seq vs] [.seq (vs.map f)]
  | fieldBoxL {t t' vs vs'} : Compat env drops adds (.field t t') vs vs' → Compat env drops adds (.field (.boxed t) t') vs vs'
  | fieldBoxR {t t' vs vs'} : Compat env drops adds (.field t t') vs vs' → Compat env drops adds (.field t (.boxed t')) vs vs'
  -- structs: fields may be added, removed and reordered
  | fieldsNil {ds vs} : Compat env drops adds (.fields ds []) vs []
  | fieldsCons {ds ds' vs vs'} {j : Nat} {x x' : FieldDecl} {v v'} : ds[j]? = some x → vs[j]? = some v → x.tag = x'.tag → Compat env drops adds (.field x.ty x'.ty) [v] [v'] →
      Compat env drops adds (.fields ds ds') vs vs' → Compat env drops adds (.fields ds (x' :: ds')) vs (v' :: vs')
  | fieldsNew {ds ds' vs vs'} {x' : FieldDecl} {e} : adds = true → ds ≠ [] → x'.tag ∉ ds.map (·.tag) → Holds x'.ty e 0 → Compat env drops adds (.fields ds ds') vs vs' →
      Compat env drops adds (.fields ds (x' :: ds')) vs (.seq [] :: vs')
  | bodyPlain {t t' fs fs' chk chk' vs vs'} : PlainTy env t fs chk → PlainTy env t' fs' chk' → chk' vs' = true → (drops = true ∨ ∀ x ∈ fs, x.tag ∈ fs'.map (·.tag)) →
      Compat env drops adds (.fields fs fs') vs vs' → Compat env drops adds (.body t t') [.seq vs] [.seq vs']
  | bodyStruct {i j b b' vs vs'} : env.decl i = .struct b → env.decl j = .struct b' → Compat env drops adds (.parts b b') vs vs' → Compat env drops adds (.body (.named i) (.named j)) [.seq vs] [.seq vs']
  | bodyUnwrap {i b name t t' v v'} : env.decl i = .struct b → b.tail = .delegate name t → Compat env drops adds (.body t t') [v] [v'] →
      Compat env drops adds (.body (.named i) t') [.seq [v]] [v']
  -- the contents of structs and variants
  | partsPlain {b b' vs vs'} : b.tail = .plain → b'.tail = .plain → b'.check vs' = true → (drops = true ∨ ∀ x ∈ b.fields, x.tag ∈ b'.fields.map (·.tag)) →
      Compat env drops adds (.fields b.fields b'.fields) vs vs' → Compat env drops adds (.parts b b') vs vs'
  | partsDelegate {b b' name name' t t' v v'} : b.tail = .delegate name t → b'.tail = .delegate name' t' → b'.check [v'] = true → Compat env drops adds (.body t t') [v] [v'] →
      Compat env drops adds (.parts b b') [v] [v']
  /-- both collect unknown fields, and declare the same fields: the unknown ones stay the same -/
  | partsUnknown {b b' name name' zc vs vs' es} : b.tail = .unknown name zc → b'.tail = .unknown name' zc → b'.check (vs' ++ [es]) = true →
      (∀ g, g ∈ b.fields.map (·.tag) ↔ g ∈ b'.fields.map (·.tag)) → Compat env drops adds (.fields b.fields b'.fields) vs vs' → Compat env drops adds (.parts b b') (vs ++ [es]) (vs' ++ [es])
  /-- unknown fields are no longer collected -/
  | partsForget {b b' name zc vs vs' es} : drops = true → b.tail = .unknown name zc → b'.tail = .plain → b'.check vs' = true → (∀ x ∈ b'.fields, x.tag ∈ b.fields.map (·.tag)) →
      Compat env drops adds (.fields b.fields b'.fields) vs vs' → Compat env drops adds (.parts b b') (vs ++ [es]) vs'
  /-- unknown fields are now collected: there are none -/
  | partsCollect {b b' name zc vs vs'} : adds = true → b.fields ≠ [] → b.tail = .plain → b'.tail = .unknown name zc → b'.check (vs' ++ [.seq []]) = true →
      (∀ x ∈ b.fields, x.tag ∈ b'.fields.map (·.tag)) → Compat env drops adds (.fields b.fields b'.fields) vs vs' → Compat env drops adds (.parts b b') vs (vs' ++ [.seq []])
  | bodyWrapped {t t' v v'} : t.isWrapped env = true → t'.isWrapped env = true → Compat env drops adds (.field t t') [v] [v'] → Compat env drops adds (.body t t') [v] [v']
  | bodyBoxL {t t' vs vs'} : Compat env drops adds (.body t t') vs vs' → Compat env drops adds (.body (.boxed t) t') vs vs'
  | bodyBoxR {t t' vs vs'} : Compat env drops adds (.body t t') vs vs' → Compat env drops adds (.body t (.boxed t')) vs vs'

/-- The new configuration allows at least the depth of the old one, and ignores unknown fields if there are dropped fields or the old one does. -/
structure NewCfg (drops : Bool) (old new : Config) : Prop where
  depth : old.recursionLimit ≤ new.recursionLimit
  ignore : drops = true → new.ignoreUnknownFields = true
  keep : old.ignoreUnknownFields = true → new.ignoreUnknownFields = true

/-- A configuration with a lower recursion limit, or that rejects unknown fields, accepts less. -/
theorem reads_weaken {env : Env} {a b : Config} (hs : a.ignoreUnknownFields = true → b.ignoreUnknownFields = true) (hle : a.recursionLimit ≤ b.recursionLimit) {it : RItem} {d : Nat} {vals : List Val} {vs : List V} {c : Stats}
    (h : Reads env a it d vals vs c) : Reads env b it d vals vs c := by
  have hi : ∀ {tags l}, a.Ignores tags l → b.Ignores tags l := by
    rintro tags l (h | h)
    · exact .inl (hs h)
    · exact .inr h
  have hd : ∀ {d}, d < a.recursionLimit → d < b.recursionLimit := fun h => Nat.lt_of_lt_of_le h hle
  induction h with
  | bodyBoxed _ ih => exact .bodyBoxed ih
  | bodyTuple h1 h2 _ ih => exact .bodyTuple h1 (hi h2) ih
  | bodyUnknown _ ih => exact .bodyUnknown ih
  | bodyStruct h _ ih => exact .bodyStruct h ih
  | bodyWrapped h1 h2 h3 _ ih => exact .bodyWrapped h1 (hi h2) (hd h3) ih
  | fieldBoxed _ ih => exact .fieldBoxed ih
  | fieldSingle h _ ih => exact .fieldSingle h ih
  | fieldNoBytes => exact .fieldNoBytes
  | fieldNoBytesL h => exact .fieldNoBytesL h
  | fieldVec h _ ih => exact .fieldVec h ih
  | fieldList _ ih => exact .fieldList ih
  | fieldSet _ ih => exact .fieldSet ih
  | fieldMap _ ih => exact .fieldMap ih
  | fieldOption h _ ih => exact .fieldOption h ih
  | fieldSmall h1 h2 _ ih => exact .fieldSmall h1 h2 ih
  | fieldLarge h1 h2 _ ih => exact .fieldLarge h1 h2 ih
  | elemPrim h => exact .elemPrim h
  | elemBoxed _ ih => exact .elemBoxed ih
  | elemVec => exact .elemVec
  | elemSmall h => exact .elemSmall h
  | elemLarge h => exact .elemLarge h
  | elemStruct h _ ih => exact .elemStruct h ih
  | elemDelegate h1 h2 h3 h4 _ ih => exact .elemDelegate h1 h2 (hd h3) h4 ih
  | elemVariant h1 h2 _ ih => exact .elemVariant h1 h2 ih
  | elemCatchAll h1 h2 _ ih => exact .elemCatchAll h1 h2 ih
  | unkInt => exact .unkInt
  | unkBlob => exact .unkBlob
  | unkStruct _ ih => exact .unkStruct ih
  | unkEnum _ ih => exact .unkEnum ih
  | eachNil => exact .eachNil
  | eachCons _ _ ih1 ih2 => exact .eachCons ih1 ih2
  | fieldsNil => exact .fieldsNil
  | fieldsCons h _ _ ih1 ih2 => exact .fieldsCons (hd h) ih1 ih2
  | partsPlain h1 h2 h3 _ ih => exact .partsPlain h1 h2 (hi h3) ih
  | partsDelegate h1 h2 h3 _ ih => exact .partsDelegate h1 h2 (hd h3) ih
  | partsUnknown h1 h2 h3 _ _ ih1 ih2 => exact .partsUnknown h1 h2 (hd h3) ih1 ih2
  | unknownNil => exact .unknownNil
  | unknownCons h _ _ ih1 ih2 => exact .unknownCons (hd h) ih1 ih2

theorem reads_lenient {env : Env} {a b : Config} (hs : a.ignoreUnknownFields = false) (hle : a.recursionLimit ≤ b.recursionLimit) {it : RItem} {d : Nat} {vals : List Val} {vs : List V} {c : Stats}
    (h : Reads env a it d vals vs c) : Reads env b it d vals vs c := reads_weaken (fun h => by rw [hs] at h; cases h) hle h

theorem holds_mk {t e : Ty} {n : Nat} (h : Holds t e n) : ∃ x : Stats, ∀ {env : Env} {cfg : Config} {d : Nat} {vals : List Val} {vs : List V} {c : Stats}, vals.length = n →
    Reads env cfg (.each e) d vals vs c → Reads env cfg (.field t) d vals [.seq vs] (x + c) := by
  cases h with
  | option hn => exact ⟨.zero, fun hl h => by rw [Stats.zero_add]; exact .fieldOption (hl ▸ hn) h⟩
  | vec hu => exact ⟨⟨n, 0⟩, fun hl h => hl ▸ .fieldVec hu h⟩
  | list => exact ⟨⟨n, 0⟩, fun hl h => hl ▸ .fieldList h⟩
  | small hu => exact ⟨.zero, fun hl h => by rw [Stats.zero_add]; exact .fieldSmall hu hl h⟩
  | large hu => exact ⟨.zero, fun hl h => by rw [Stats.zero_add]; exact .fieldLarge hu hl h⟩

theorem holds_inv {t e : Ty} {n : Nat} (h : Holds t e n) {env : Env} {cfg : Config} {d : Nat} {vals : List Val} {vs : List V} {c : Stats}
    (hr : Reads env cfg (.field t) d vals [.seq vs] c) : ∃ c', Reads env cfg (.each e) d vals vs c' := by
  cases h with
  | option hn =>
    cases hr with
    | fieldSingle hs => simp [Ty.isSingle] at hs
    | fieldOption _ h => exact ⟨_, h⟩
  | vec hu =>
    cases hr with
    | fieldSingle hs => rw [Ty.isByte_eq] at hu; simp [Ty.isSingle, hu] at hs
    | fieldVec _ h => exact ⟨_, h⟩
  | list =>
    cases hr with
    | fieldSingle hs => simp [Ty.isSingle] at hs
    | fieldList h => exact ⟨_, h⟩
  | small hu =>
    cases hr with
    | fieldSingle hs => rw [Ty.isByte_eq] at hu; simp [Ty.isSingle, hu] at hs
    | fieldNoBytes => simp [Ty.isU8, u8] at hu
    | fieldSmall _ _ h => exact ⟨_, h⟩
  | large hu =>
    cases hr with
    | fieldSingle hs => rw [Ty.isByte_eq] at hu; simp [Ty.isSingle, hu] at hs
    | fieldNoBytesL => simp [Ty.isU8, u8] at hu
    | fieldLarge _ _ h => exact ⟨_, h⟩

theorem each_possible {env : Env} {cfg : Config} {it : RItem} {d : Nat} {vals : List Val} {vs : List V} {c : Stats} (h : Reads env cfg it d vals vs c) :
    ∀ {e}, it = .each e → ∀ v ∈ vs, Possible env e v := by
  induction h <;> intro e he <;> cases he
  case eachNil => intro v hv; cases hv
  case eachCons h1 _ _ ih2 =>
    intro v hv
    rcases List.mem_cons.1 hv with rfl | hv
    · exact ⟨_, _, _, _, h1⟩
    · exact ih2 rfl v hv

theorem each_map {env : Env} {cfg : Config} {it : RItem} {d : Nat} {vals : List Val} {vs : List V} {c : Stats} (h : Reads env cfg it d vals vs c) :
    ∀ {e e' : Ty} {P : Config → Prop} {f : V → V}, it = .each e →
      (∀ {d val v c}, Reads env cfg (.elem e) d [val] [v] c → ∃ c', ∀ new, P new → Reads env new (.elem e') d [val] [f v] c') →
      ∃ c', ∀ new, P new → Reads env new (.each e') d vals (vs.map f) c' := by
  induction h <;> intro e e' P f he hf <;> cases he
  case eachNil => exact ⟨_, fun _ _ => .eachNil⟩
  case eachCons h1 _ _ ih2 =>
    obtain ⟨c1, g1⟩ := hf h1
    obtain ⟨c2, g2⟩ := ih2 rfl hf
    exact ⟨c1 + c2, fun new hn => .eachCons (g1 new hn) (g2 new hn)⟩

theorem toSet_map {P : V → Prop} {f : V → V} (hf : ∀ a b, P a → P b → f a = f b → a = b) (vs : List V) (hvs : ∀ v ∈ vs, P v) : ∀ r : List V, (∀ v ∈ r, P v) →
    (vs.map f).foldl (fun r v => setInsert v r) (r.map f) = (vs.foldl (fun r v => setInsert v r) r).map f := by
  induction vs with
  | nil => intro r _; rfl
  | cons v vs ih =>
    intro r hr
    have hv := hvs v (List.mem_cons_self ..)
    have he : setInsert (f v) (r.map f) = (setInsert v r).map f := by
      have : f v ∈ r.map f ↔ v ∈ r := ⟨fun h => by
        obtain ⟨x, hx, hxe⟩ := List.mem_map.1 h
        exact hf x v (hr x hx) hv hxe ▸ hx, List.mem_map_of_mem⟩
      unfold setInsert
      by_cases h : v ∈ r
      · rw [if_pos h, if_pos (this.2 h)]
      · rw [if_neg h, if_neg (fun h' => h (this.1 h')), List.map_append]; rfl
    rw [List.map_cons, List.foldl_cons, he, List.foldl_cons]
    refine ih (fun x hx => hvs x (List.mem_cons_of_mem _ hx)) _ fun x hx => ?_
    rcases mem_setInsert.1 hx with rfl | hx
    · exact hv
    · exact hr x hx

theorem toMap_map {P : V → Prop} {f : V → V} (hf : ∀ a b, P a → P b → ((f a).key = (f b).key ↔ a.key = b.key)) (vs : List V) (hvs : ∀ v ∈ vs, P v) : ∀ r : List V, (∀ v ∈ r, P v) →
    (vs.map f).foldl (fun r v => mapInsert v r) (r.map f) = (vs.foldl (fun r v => mapInsert v r) r).map f := by
  induction vs with
  | nil => intro r _; rfl
  | cons v vs ih =>
    intro r hr
    have hv := hvs v (List.mem_cons_self ..)
    have he : mapInsert (f v) (r.map f) = (mapInsert v r).map f := by
      have : (r.map f).any (fun x => x.key == (f v).key) = r.any (fun x => x.key == v.key) := by
        rw [List.any_map]
        clear ih
        induction r with
        | nil => rfl
        | cons x r ih =>
          have hx := hf x v (hr x (List.mem_cons_self ..)) hv
          rw [List.any_cons, List.any_cons, ih fun y hy => hr y (List.mem_cons_of_mem _ hy)]
          congr 1
          simp only [Function.comp]
          exact Bool.eq_iff_iff.2 (by simpa using hx)
      unfold mapInsert
      rw [this]
      split
      · rw [List.map_map, List.map_map]
        refine List.map_congr_left fun x hx => ?_
        have hx := hf x v (hr x hx) hv
        simp only [Function.comp]
        by_cases h : x.key = v.key
        · rw [if_pos h, if_pos (hx.2 h)]
        · rw [if_neg h, if_neg fun h' => h (hx.1 h')]
      · rw [List.map_append]; rfl
    rw [List.map_cons, List.foldl_cons, he, List.foldl_cons]
    refine ih (fun x hx => hvs x (List.mem_cons_of_mem _ hx)) _ fun x hx => ?_
    unfold mapInsert at hx
    split at hx
    · obtain ⟨y, hy, rfl⟩ := List.mem_map.1 hx
      split
      · exact hv
      · exact hr y hy
    · rcases List.mem_append.1 hx with hx | hx
      · exact hr x hx
      · cases List.mem_singleton.1 hx; exact hv

theorem once_inv {t : Ty} (h : t.once = true) {env : Env} {cfg : Config} {d : Nat} {vals : List Val} {v : V} {c : Stats}
    (hr : Reads env cfg (.field t) d vals [v] c) : ∃ val, vals = [val] ∧ Reads env cfg (.elem t) d [val] [v] c := by
  have hs : t.isSingle = true := by
    unfold Ty.once at h; split at h
    · cases h
    · cases h
    · exact h
  cases hr with
  | fieldSingle _ h => exact ⟨_, rfl, h⟩
  | fieldNoBytes => simp [Ty.once, u8] at h
  | fieldNoBytesL => simp [Ty.once, u8] at h
  | fieldVec hu | fieldSmall hu | fieldLarge hu => rw [Ty.isByte_eq] at hu; simp [Ty.isSingle, hu] at hs
  | _ => simp [Ty.isSingle] at hs

theorem plain_inv {env : Env} {t : Ty} {fs : List FieldDecl} {chk : List V → Bool} (h : PlainTy env t fs chk) {cfg : Config} {d : Nat} {vals : List Val} {vs : List V} {c : Stats}
    (hr : Reads env cfg (.body t) d vals [.seq vs] c) : ∃ l, vals = [.struct l] ∧ cfg.Ignores (fs.map (·.tag)) l ∧ Reads env cfg (.fields fs) d [.struct l] vs c := by
  cases h with
  | tuple hl =>
    cases hr with
    | bodyTuple _ h1 h2 => exact ⟨_, rfl, h1, h2⟩
    | bodyWrapped hw => simp [Ty.isWrapped] at hw
  | struct hd ht =>
    cases hr with
    | bodyStruct hd' h =>
      rw [hd] at hd'; cases hd'
      cases h with
      | partsPlain _ _ h1 h2 => exact ⟨_, rfl, h1, h2⟩
      | partsDelegate ht' => rw [ht] at ht'; cases ht'
      | partsUnknown ht' => rw [ht] at ht'; cases ht'
    | bodyWrapped hw => simp [Ty.isWrapped, hd] at hw

theorem plain_mk {env : Env} {t : Ty} {fs : List FieldDecl} {chk : List V → Bool} (h : PlainTy env t fs chk) {cfg : Config} {d : Nat} {l : Fields} {vs : List V} {c : Stats}
    (hc : chk vs = true) (hi : cfg.Ignores (fs.map (·.tag)) l) (hr : Reads env cfg (.fields fs) d [.struct l] vs c) : Reads env cfg (.body t) d [.struct l] [.seq vs] c := by
  cases h with
  | tuple hl => exact .bodyTuple hl hi hr
  | struct hd ht => exact .bodyStruct hd (.partsPlain ht hc hi hr)

theorem fields_depth {env : Env} {cfg : Config} {ds : List FieldDecl} {d : Nat} {vals : List Val} {vs : List V} {c : Stats} (h : Reads env cfg (.fields ds) d vals vs c)
    (hne : ds ≠ []) : d < cfg.recursionLimit := by
  cases h with
  | fieldsNil => exact absurd rfl hne
  | fieldsCons h => exact h

theorem fields_struct {env : Env} {cfg : Config} {ds : List FieldDecl} {d : Nat} {vals : List Val} {vs : List V} {c : Stats} (h : Reads env cfg (.fields ds) d vals vs c) :
    ∃ l, vals = [.struct l] := by
  cases h <;> exact ⟨_, rfl⟩

theorem occ_nil {tag : Byte} {l : Fields} (h : ∀ x ∈ l, x.1 ≠ tag) : occ tag l = [] := by
  rw [occ_eq, List.filter_eq_nil_iff.2 (by simpa using h)]; rfl

/-- Only declared fields. -/
def Change.Known : Change → List Val → Prop
  | .fields ds _, vals => ∀ l, vals = [.struct l] → ∀ x ∈ l, x.1 ∈ ds.map (·.tag)
  | _, _ => True

/-- Reading at a lower depth. -/
theorem reads_shallow {env : Env} {cfg : Config} {it : RItem} {d : Nat} {vals : List Val} {vs : List V} {c : Stats} (h : Reads env cfg it d vals vs c) :
    ∀ {d'}, d' ≤ d → Reads env cfg it d' vals vs c := by
  induction h with
  | bodyBoxed _ ih => exact fun hd => .bodyBoxed (ih hd)
  | bodyTuple h1 h2 _ ih => exact fun hd => .bodyTuple h1 h2 (ih hd)
  | bodyUnknown _ ih => exact fun hd => .bodyUnknown (ih hd)
  | bodyStruct h _ ih => exact fun hd => .bodyStruct h (ih hd)
  | bodyWrapped h1 h2 h3 _ ih => exact fun hd => .bodyWrapped h1 h2 (by omega) (ih (by omega))
  | fieldBoxed _ ih => exact fun hd => .fieldBoxed (ih hd)
  | fieldSingle h _ ih => exact fun hd => .fieldSingle h (ih hd)
  | fieldNoBytes => exact fun _ => .fieldNoBytes
  | fieldNoBytesL h => exact fun _ => .fieldNoBytesL h
  | fieldVec h _ ih => exact fun hd => .fieldVec h (ih hd)
  | fieldList _ ih => exact fun hd => .fieldList (ih hd)
  | fieldSet _ ih => exact fun hd => .fieldSet (ih hd)
  | fieldMap _ ih => exact fun hd => .fieldMap (ih hd)
  | fieldOption h _ ih => exact fun hd => .fieldOption h (ih hd)
  | fieldSmall h h' _ ih => exact fun hd => .fieldSmall h h' (ih hd)
  | fieldLarge h h' _ ih => exact fun hd => .fieldLarge h h' (ih hd)
  | elemPrim h => exact fun _ => .elemPrim h
  | elemBoxed _ ih => exact fun hd => .elemBoxed (ih hd)
  | elemVec => exact fun _ => .elemVec
  | elemSmall h => exact fun _ => .elemSmall h
  | elemLarge h => exact fun _ => .elemLarge h
  | elemStruct h _ ih => exact fun hd => .elemStruct h (ih hd)
  | elemDelegate h1 h2 h3 h4 _ ih => exact fun hd => .elemDelegate h1 h2 (by omega) h4 (ih (by omega))
  | elemVariant h1 h2 _ ih => exact fun hd => .elemVariant h1 h2 (ih hd)
  | elemCatchAll h1 h2 _ ih => exact fun hd => .elemCatchAll h1 h2 (ih hd)
  | unkInt => exact fun _ => .unkInt
  | unkBlob => exact fun _ => .unkBlob
  | unkStruct _ ih => exact fun hd => .unkStruct (ih hd)
  | unkEnum _ ih => exact fun hd => .unkEnum (ih hd)
  | eachNil => exact fun _ => .eachNil
  | eachCons _ _ ih1 ih2 => exact fun hd => .eachCons (ih1 hd) (ih2 hd)
  | fieldsNil => exact fun _ => .fieldsNil
  | fieldsCons h _ _ ih1 ih2 => exact fun hd => .fieldsCons (by omega) (ih1 (by omega)) (ih2 hd)
  | partsPlain h1 h2 h3 _ ih => exact fun hd => .partsPlain h1 h2 h3 (ih hd)
  | partsDelegate h1 h2 h3 _ ih => exact fun hd => .partsDelegate h1 h2 (by omega) (ih (by omega))
  | partsUnknown h1 h2 h3 _ _ ih1 ih2 => exact fun hd => .partsUnknown h1 h2 (by omega) (ih1 hd) (ih2 hd)
  | unknownNil => exact fun _ => .unknownNil
  | unknownCons h _ _ ih1 ih2 => exact fun hd => .unknownCons (by omega) (ih1 (by omega)) (ih2 hd)

/-- Declared fields are read from their occurrences only. -/
theorem fields_from {env : Env} {cfg : Config} {d : Nat} {L L' : Fields} : ∀ (ds : List FieldDecl) {vs : List V} {c : Stats}, (∀ x ∈ ds, occ x.tag L' = occ x.tag L) →
    Reads env cfg (.fields ds) d [.struct L] vs c → Reads env cfg (.fields ds) d [.struct L'] vs c
  | [], _, _, _, h => by cases h; exact .fieldsNil
  | x :: ds, _, _, ho, h => by
    cases h with
    | fieldsCons h1 h2 h3 => exact .fieldsCons h1 (ho x List.mem_cons_self ▸ h2) (fields_from ds (fun y hy => ho y (List.mem_cons_of_mem _ hy)) h3)

/-- The fields with a declared tag. -/
def declared (ds : List FieldDecl) (l : Fields) : Fields := l.filter fun x => ds.any (·.tag = x.1)

theorem occ_declared {ds : List FieldDecl} {g : Byte} (h : g ∈ ds.map (·.tag)) (l : Fields) : occ g (declared ds l) = occ g l := by
  obtain ⟨x, hx, rfl⟩ := List.mem_map.1 h
  rw [occ_eq, occ_eq, declared, List.filter_filter]
  congr 1
  refine List.filter_congr fun y _ => ?_
  by_cases hy : y.1 = x.tag
  · have : (ds.any fun z => decide (z.tag = y.1)) = true := List.any_eq_true.2 ⟨x, hx, by simp [hy]⟩
    simp [hy] at this ⊢
    exact this
  · simp [hy]

theorem declared_known {ds : List FieldDecl} {l : Fields} : ∀ x ∈ declared ds l, x.1 ∈ ds.map (·.tag) := by
  intro x hx
  obtain ⟨y, hy, hy'⟩ := List.any_eq_true.1 (List.mem_filter.1 hx).2
  exact List.mem_map.2 ⟨y, hy, by simpa using hy'⟩

theorem mem_unknowns_iff {fs : List FieldDecl} {l : Fields} {x : Byte × Val} : x ∈ unknowns fs l ↔ x ∈ l ∧ x.1 ∉ fs.map (·.tag) := by
  simp [unknowns]

theorem unknowns_congr {fs fs' : List FieldDecl} (h : ∀ g, g ∈ fs.map (·.tag) ↔ g ∈ fs'.map (·.tag)) (l : Fields) : unknowns fs' l = unknowns fs l := by
  refine List.filter_congr fun x _ => ?_
  have h1 : ∀ gs : List FieldDecl, (gs.any fun z => decide (z.tag = x.1)) = decide (x.1 ∈ gs.map (·.tag)) := by
    intro gs
    rw [Bool.eq_iff_iff]
    simp
  rw [h1, h1, decide_eq_decide.2 (h x.1)]

theorem unknowns_none {fs : List FieldDecl} {l : Fields} (h : ∀ x ∈ l, x.1 ∈ fs.map (·.tag)) : unknowns fs l = [] :=
  List.eq_nil_iff_forall_not_mem.2 fun x hx => (mem_unknowns_iff.1 hx).2 (h x (mem_unknowns_iff.1 hx).1)

theorem variant_reads {env : Env} {cfg : Config} {i : Nat} {disc : UInt64} {b : Body} (h : VariantOf env i disc b) {d : Nat} {l : Fields} {vs : List V} {c : Stats} (hr : Reads env cfg (.parts b) d [.struct l] vs c) :
    Reads env cfg (.elem (.named i)) d [.enum disc l] [.variant disc vs] c := by
  cases h with
  | declared h1 h2 => exact .elemVariant h1 h2 hr
  | other h1 h2 => exact .elemCatchAll h1 h2 hr

theorem variant_inv {env : Env} {cfg : Config} {i : Nat} {disc : UInt64} {b : Body} (h : VariantOf env i disc b) {d : Nat} {vals : List Val} {vs : List V} {c : Stats}
    (hr : Reads env cfg (.elem (.named i)) d vals [.variant disc vs] c) : ∃ l, vals = [.enum disc l] ∧ Reads env cfg (.parts b) d [.struct l] vs c := by
  cases hr with
  | elemStruct h' =>
    cases h with
    | declared h1 => simp [Ty.inStruct, h1] at h'
    | other h1 => simp [Ty.inStruct, h1] at h'
  | elemVariant g1 g2 hp =>
    cases h with
    | declared h1 h2 => rw [h1] at g1; cases g1; rw [h2] at g2; cases g2; exact ⟨_, rfl, hp⟩
    | other h1 h2 => rw [h1] at g1; cases g1; exact absurd rfl (h2 _ (List.mem_of_find?_eq_some g2))
  | elemCatchAll g1 g2 hp =>
    cases h with
    | declared h1 h2 => rw [h1] at g1; cases g1; exact absurd rfl (g2 _ (List.mem_of_find?_eq_some h2))
    | other h1 h2 => rw [h1] at g1; cases g1; exact ⟨_, rfl, hp⟩

theorem compat_reads {env : Env} {drops adds : Bool} {old : Config} (hs : adds = true → old.ignoreUnknownFields = false) {it : Change} {vs vs' : List V} (h : Compat env drops adds it vs vs') :
    ∀ {d vals c}, (adds = true → it.Known vals) → Reads env old it.old d vals vs c → ∃ c', ∀ new, NewCfg drops old new → Reads env new it.new d vals vs' c' := by
  have hign : ∀ {new : Config} {fs fs' : List FieldDecl} {l : Fields}, NewCfg drops old new → (drops = true ∨ ∀ x ∈ fs, x.tag ∈ fs'.map (·.tag)) →
      old.Ignores (fs.map (·.tag)) l → new.Ignores (fs'.map (·.tag)) l := by
    rintro new fs fs' l hn (hd | hd) (hi | hi)
    · exact .inl (hn.keep hi)
    · exact .inl (hn.ignore hd)
    · exact .inl (hn.keep hi)
    · refine .inr fun x hx => ?_
      obtain ⟨y, hy, hy'⟩ := List.mem_map.1 (hi x hx)
      exact hy' ▸ hd y hy
  have hknown : ∀ {tags : List Byte} {l : Fields}, old.Ignores tags l → adds = true → ∀ x ∈ l, x.1 ∈ tags := by
    rintro tags l (hi | hi) ha
    · rw [hs ha] at hi; cases hi
    · exact hi
  induction h with
  | elemSame | fieldSame => exact fun _ h => ⟨_, fun new hn => reads_weaken hn.keep hn.depth h⟩
  | elemPrim =>
    intro d vals c _ h
    cases h with
    | elemPrim hp => exact ⟨_, fun new _ => .elemPrim hp⟩
    | elemStruct h => simp [Ty.inStruct] at h
  | @elemInt a b i h1 h2 h3 =>
    intro d vals c _ h
    cases h with
    | elemPrim hp =>
      cases hp with
      | int g1 g2 g3 => exact ⟨_, fun new _ => .elemPrim (.int (Int.le_trans h2 g1) (Int.le_trans g2 h3) (by rw [g3]; simp [IntTy.wire, h1]))⟩
    | elemStruct h => simp [Ty.inStruct] at h
  | @elemNarrow a b i h1 h2 h3 =>
    intro d vals c _ h
    cases h with
    | elemPrim hp =>
      cases hp with
      | int g1 g2 g3 => exact ⟨_, fun new _ => .elemPrim (.int h2 h3 (by rw [g3]; simp [IntTy.wire, h1]))⟩
    | elemStruct h => simp [Ty.inStruct] at h
  | elemStr =>
    intro d vals c _ h
    cases h with
    | elemPrim hp => cases hp with | string => exact ⟨_, fun new _ => .elemPrim .strRef⟩
    | elemStruct h => simp [Ty.inStruct] at h
  | elemString =>
    intro d vals c _ h
    cases h with
    | elemPrim hp => cases hp with | strRef => exact ⟨_, fun new _ => .elemPrim .string⟩
    | elemStruct h => simp [Ty.inStruct] at h
  | elemSlice =>
    intro d vals c _ h
    cases h with
    | elemVec => exact ⟨_, fun new _ => .elemPrim .bytesRef⟩
    | elemStruct h => simp [Ty.inStruct, Ty.isU8] at h
  | elemBytes =>
    intro d vals c _ h
    cases h with
    | elemPrim hp => cases hp with | bytesRef => exact ⟨_, fun new _ => .elemVec⟩
    | elemStruct h => simp [Ty.inStruct] at h
  | elemArray =>
    intro d vals c _ h
    cases h with
    | elemSmall => exact ⟨_, fun new _ => .elemVec⟩
    | elemStruct h => simp [Ty.inStruct, Ty.isU8] at h
  | elemBoxL _ ih =>
    intro d vals c _ h
    cases h with
    | elemBoxed h => exact ih (fun _ => trivial) h
    | elemStruct h => simp [Ty.inStruct] at h
  | elemBoxR _ ih =>
    intro d vals c _ h
    obtain ⟨c', h'⟩ := ih (fun _ => trivial) h
    exact ⟨c', fun new hn => .elemBoxed (h' new hn)⟩
  | elemStruct h1 h2 _ ih =>
    intro d vals c _ h
    cases h with
    | elemStruct _ h =>
      obtain ⟨c', h'⟩ := ih (fun _ => trivial) h
      exact ⟨c', fun new hn => .elemStruct h2 (h' new hn)⟩
    | elemDelegate hd ht => simp [Ty.inStruct, hd, ht] at h1
    | elemVariant hd | elemCatchAll hd => simp [Ty.inStruct, hd] at h1
    | _ => simp [Ty.inStruct, Ty.isU8] at h1
  | elemVariant hv hv' _ ih =>
    intro d vals c _ h
    obtain ⟨l, rfl, hp⟩ := variant_inv hv h
    obtain ⟨c', h'⟩ := ih (fun _ => trivial) hp
    exact ⟨c', fun new hn => variant_reads hv' (h' new hn)⟩
  | elemDelegates hd hd' ht ht' hc _ ih =>
    intro d vals c _ h
    cases h with
    | elemStruct h => simp [Ty.inStruct, hd, ht] at h
    | elemDelegate gd gt gl _ h =>
      rw [hd] at gd; cases gd
      rw [ht] at gt; cases gt
      obtain ⟨c', h'⟩ := ih (fun _ => trivial) h
      exact ⟨c', fun new hn => .elemDelegate hd' ht' (Nat.lt_of_lt_of_le gl hn.depth) hc (h' new hn)⟩
  | elemUnwrap hd ht _ ih =>
    intro d vals c _ h
    cases h with
    | elemStruct h => simp [Ty.inStruct, hd, ht] at h
    | elemDelegate gd gt gl _ h =>
      rw [hd] at gd; cases gd
      rw [ht] at gt; cases gt
      obtain ⟨c', h'⟩ := ih (fun _ => trivial) h
      exact ⟨c', fun new hn => reads_shallow (h' new hn) (Nat.le_succ _)⟩
  | bodyStruct hd hd' _ ih =>
    intro d vals c _ h
    cases h with
    | bodyStruct gd h =>
      rw [hd] at gd; cases gd
      obtain ⟨c', h'⟩ := ih (fun _ => trivial) h
      exact ⟨c', fun new hn => .bodyStruct hd' (h' new hn)⟩
    | bodyWrapped h => simp [Ty.isWrapped, hd] at h
  | bodyUnwrap hd ht _ ih =>
    intro d vals c _ h
    generalize hw : [V.seq _] = w at h
    cases h with
    | bodyStruct gd h =>
      rw [hd] at gd; cases gd
      cases hw
      generalize hw : [_] = w at h
      cases h with
      | partsPlain g => rw [ht] at g; cases g
      | partsDelegate g _ _ h =>
        rw [ht] at g; cases g
        cases hw
        obtain ⟨c', h'⟩ := ih (fun _ => trivial) h
        exact ⟨c', fun new hn => reads_shallow (h' new hn) (Nat.le_succ _)⟩
      | partsUnknown g => rw [ht] at g; cases g
    | bodyWrapped h => simp [Ty.isWrapped, hd] at h
  | partsPlain ht ht' hc hi _ ih =>
    intro d vals c _ h
    cases h with
    | partsPlain _ _ gi h =>
      obtain ⟨c', h'⟩ := ih (fun ha l hl x hx => by cases hl; exact hknown gi ha x hx) h
      exact ⟨c', fun new hn => .partsPlain ht' hc (hign hn hi gi) (h' new hn)⟩
    | partsDelegate g => rw [ht] at g; cases g
    | partsUnknown g => rw [ht] at g; cases g
  | partsDelegate ht ht' hc _ ih =>
    intro d vals c _ h
    generalize hw : [_] = w at h
    cases h with
    | partsPlain g => rw [ht] at g; cases g
    | partsDelegate g _ gl h =>
      rw [ht] at g; cases g
      cases hw
      obtain ⟨c', h'⟩ := ih (fun _ => trivial) h
      exact ⟨c', fun new hn => .partsDelegate ht' hc (Nat.lt_of_lt_of_le gl hn.depth) (h' new hn)⟩
    | partsUnknown g => rw [ht] at g; cases g
  | partsUnknown ht ht' hc htags _ ih =>
    intro d vals c _ h
    generalize hw : _ ++ [_] = w at h
    cases h with
    | partsPlain g => rw [ht] at g; cases g
    | partsDelegate g => rw [ht] at g; cases g
    | @partsUnknown _ _ _ _ l _ _ _ _ g _ gl h1 h2 =>
      rw [ht] at g; cases g
      obtain ⟨rfl, hl⟩ := List.append_inj' hw rfl
      cases hl
      obtain ⟨c', h'⟩ := ih (vals := [.struct (declared _ l)]) (fun _ l' hl' => by cases hl'; exact declared_known)
        (fields_from _ (fun x hx => occ_declared (List.mem_map_of_mem hx) l) h1)
      exact ⟨_, fun new hn => .partsUnknown ht' hc (Nat.lt_of_lt_of_le gl hn.depth)
        (fields_from _ (fun x hx => (occ_declared ((htags _).2 (List.mem_map_of_mem hx)) l).symm) (h' new hn))
        (unknowns_congr htags l ▸ reads_weaken hn.keep hn.depth h2)⟩
  | partsForget hdrop ht ht' hc htags _ ih =>
    intro d vals c _ h
    generalize hw : _ ++ [_] = w at h
    cases h with
    | partsPlain g => rw [ht] at g; cases g
    | partsDelegate g => rw [ht] at g; cases g
    | @partsUnknown _ _ _ _ l _ _ _ _ g _ gl h1 h2 =>
      obtain ⟨rfl, -⟩ := List.append_inj' hw rfl
      obtain ⟨c', h'⟩ := ih (vals := [.struct (declared _ l)]) (fun _ l' hl' => by cases hl'; exact declared_known)
        (fields_from _ (fun x hx => occ_declared (List.mem_map_of_mem hx) l) h1)
      exact ⟨_, fun new hn => .partsPlain ht' hc (.inl (hn.ignore hdrop))
        (fields_from _ (fun x hx => (occ_declared (htags x hx) l).symm) (h' new hn))⟩
  | partsCollect ha hne ht ht' hc htags _ ih =>
    intro d vals c _ h
    cases h with
    | @partsPlain _ _ l _ _ _ _ gi h =>
      have hk := hknown gi ha
      obtain ⟨c', h'⟩ := ih (fun _ l' hl' => by cases hl'; exact hk) h
      have hd := fields_depth h hne
      have hu : unknowns _ l = [] := unknowns_none fun x hx => by
        obtain ⟨y, hy, hy'⟩ := List.mem_map.1 (hk x hx)
        exact hy' ▸ htags y hy
      exact ⟨_, fun new hn => .partsUnknown ht' hc (Nat.lt_of_lt_of_le hd hn.depth) (h' new hn) (by rw [hu]; exact .unknownNil)⟩
    | partsDelegate g => rw [ht] at g; cases g
    | partsUnknown g => rw [ht] at g; cases g
  | eachNil =>
    intro d vals c _ h
    cases h
    exact ⟨_, fun new _ => .eachNil⟩
  | eachCons _ _ ih1 ih2 =>
    intro d vals c _ h
    cases h with
    | eachCons h1 h2 =>
      obtain ⟨c1, h1⟩ := ih1 (fun _ => trivial) h1
      obtain ⟨c2, h2⟩ := ih2 (fun _ => trivial) h2
      exact ⟨c1 + c2, fun new hn => .eachCons (h1 new hn) (h2 new hn)⟩
  | fieldOnce ho hs' _ ih =>
    intro d vals c _ h
    obtain ⟨val, rfl, h0⟩ := once_inv ho h
    obtain ⟨c', h'⟩ := ih (fun _ => trivial) h0
    exact ⟨c', fun new hn => .fieldSingle hs' (h' new hn)⟩
  | fieldWrap ho hh _ ih =>
    intro d vals c _ h
    obtain ⟨val, rfl, h0⟩ := once_inv ho h
    obtain ⟨c', h'⟩ := ih (fun _ => trivial) h0
    obtain ⟨x, hx⟩ := holds_mk hh
    exact ⟨_, fun new hn => hx rfl (.eachCons (h' new hn) .eachNil)⟩
  | fieldHolds h1 h2 _ ih =>
    intro d vals c _ h
    obtain ⟨c1, h⟩ := holds_inv h1 h
    obtain ⟨c', h'⟩ := ih (fun _ => trivial) h
    obtain ⟨x, hx⟩ := holds_mk h2
    exact ⟨_, fun new hn => hx (each_length h rfl) (h' new hn)⟩
  | fieldToSet h1 _ ih =>
    intro d vals c _ h
    obtain ⟨c1, h⟩ := holds_inv h1 h
    obtain ⟨c', h'⟩ := ih (fun _ => trivial) h
    exact ⟨_, fun new hn => .fieldSet (h' new hn)⟩
  | fieldToMap h1 _ ih =>
    intro d vals c _ h
    obtain ⟨c1, h⟩ := holds_inv h1 h
    obtain ⟨c', h'⟩ := ih (fun _ => trivial) h
    exact ⟨_, fun new hn => .fieldMap (h' new hn)⟩
  | fieldSets f _ hinj ih =>
    intro d vals c _ h
    cases h with
    | fieldSingle hs => simp [Ty.isSingle] at hs
    | fieldSet h =>
      obtain ⟨c', h'⟩ := each_map (f := f) (P := NewCfg drops old) h rfl fun hr => ih _ ⟨_, _, _, _, hr⟩ (fun _ => trivial) hr
      rw [← distinct_fold, ← toSet_map hinj _ (each_possible h rfl) [] (by simp), List.map_nil, distinct_fold]
      exact ⟨_, fun new hn => .fieldSet (h' new hn)⟩
  | fieldMaps f _ hinj ih =>
    intro d vals c _ h
    cases h with
    | fieldSingle hs => simp [Ty.isSingle] at hs
    | fieldMap h =>
      obtain ⟨c', h'⟩ := each_map (f := f) (P := NewCfg drops old) h rfl fun hr => ih _ ⟨_, _, _, _, hr⟩ (fun _ => trivial) hr
      rw [← entriesOf_fold, ← toMap_map hinj _ (each_possible h rfl) [] (by simp), List.map_nil, entriesOf_fold]
      exact ⟨_, fun new hn => .fieldMap (h' new hn)⟩
  | fieldBoxL _ ih =>
    intro d vals c _ h
    cases h with
    | fieldBoxed h => exact ih (fun _ => trivial) h
    | fieldSingle h => simp [Ty.isSingle] at h
  | fieldBoxR _ ih =>
    intro d vals c _ h
    obtain ⟨c', h'⟩ := ih (fun _ => trivial) h
    exact ⟨c', fun new hn => .fieldBoxed (h' new hn)⟩
  | fieldsNil =>
    intro d vals c _ h
    obtain ⟨l, rfl⟩ := fields_struct h
    exact ⟨_, fun new _ => .fieldsNil⟩
  | fieldsCons hx hv ht _ _ ih1 ih2 =>
    intro d vals c hk h
    obtain ⟨l, rfl⟩ := fields_struct h
    obtain ⟨c2, h2⟩ := ih2 hk h
    obtain ⟨u, c0, hu, h0⟩ := (fields_component h rfl rfl).2 _ _ hx
    rw [hv] at hu; cases hu
    obtain ⟨c1, h1⟩ := ih1 (fun _ => trivial) h0
    have hd := fields_depth h (by intro he; rw [he] at hx; simp at hx)
    exact ⟨c1 + c2, fun new hn => .fieldsCons (Nat.lt_of_lt_of_le hd hn.depth) (ht ▸ h1 new hn) (h2 new hn)⟩
  | @fieldsNew _ _ _ _ x' _ ha hne hnew hh _ ih =>
    intro d vals c hk h
    obtain ⟨l, rfl⟩ := fields_struct h
    obtain ⟨c2, h2⟩ := ih hk h
    obtain ⟨x, hx⟩ := holds_mk hh
    have ho : occ x'.tag l = [] := occ_nil fun y hy he => hnew (he ▸ hk ha l rfl y hy)
    have hd := fields_depth h hne
    exact ⟨_ + c2, fun new hn => .fieldsCons (Nat.lt_of_lt_of_le hd hn.depth) (ho ▸ hx rfl .eachNil) (h2 new hn)⟩
  | bodyPlain p p' hc hi _ ih =>
    intro d vals c _ h
    obtain ⟨l, rfl, gi, h⟩ := plain_inv p h
    obtain ⟨c', h'⟩ := ih (fun ha l' hl x hx => by cases hl; exact hknown gi ha x hx) h
    exact ⟨c', fun new hn => plain_mk p' hc (hign hn hi gi) (h' new hn)⟩
  | bodyWrapped hw hw' _ ih =>
    intro d vals c _ h
    cases h with
    | bodyWrapped _ gi gd h =>
      obtain ⟨c', h'⟩ := ih (fun _ => trivial) h
      exact ⟨c', fun new hn => .bodyWrapped hw' (gi.imp hn.keep id) (Nat.lt_of_lt_of_le gd hn.depth) (h' new hn)⟩
    | bodyStruct hd => simp [Ty.isWrapped, hd] at hw
    | _ => simp [Ty.isWrapped] at hw
  | bodyBoxL _ ih =>
    intro d vals c _ h
    cases h with
    | bodyBoxed h => exact ih (fun _ => trivial) h
    | bodyWrapped hw => simp [Ty.isWrapped] at hw
  | bodyBoxR _ ih =>
    intro d vals c _ h
    obtain ⟨c', h'⟩ := ih (fun _ => trivial) h
    exact ⟨c', fun new hn => .bodyBoxed (h' new hn)⟩

/-- **C41** What is accepted as a value of a type is accepted as the corresponding value of a compatible type, if the limits allow for it (and unknown fields are still ignored if they were). If the new type
has additional fields, the old configuration must not ignore unknown fields (one of these could have the tag of such a field). -/
theorem c41_read (env : Env) (henv : env.Ok) (hwf : env.wf) (t t' : Ty) (ht : t.wf false = true) (ht' : t'.wf false = true) (drops adds : Bool) (v v' : V)
    (hc : Compat env drops adds (.body t t') [v] [v']) (old : Config) (hs : adds = true → old.ignoreUnknownFields = false) (l : Fields) (m : List Byte) (hm : Message l m) (hlen : m.length < U64MAX) (c : Stats)
    (h : Accepts env t old m v c) : ∃ c', ∀ new, NewCfg drops old new → c'.fits new → Accepts env t' new m v' c' := by
  obtain ⟨c', h'⟩ := compat_reads hs hc (fun _ => trivial) ((c54_accepts env henv hwf t ht old l m hm hlen v c).1 h).1
  exact ⟨c', fun new hn hf => (c54_accepts env henv hwf t' ht' new l m hm hlen v' c').2 ⟨h' new hn, hf⟩⟩

/-- In particular what is written as a value of a type. -/
theorem c41_written (env : Env) (henv : env.Ok) (hwf : env.wf) (t t' : Ty) (ht : t.wf false = true) (ht' : t'.wf false = true) (drops adds : Bool) (v v' : V)
    (hc : Compat env drops adds (.body t t') [v] [v']) (k : Need) (hk : HasType env t v k) (hs : adds = true → k.lenient = false) :
    ∃ m c', Produces env t v m ∧ ∀ new, k.depth ≤ new.recursionLimit → (drops = true ∨ k.lenient = true → new.ignoreUnknownFields = true) → c'.fits new → Accepts env t' new m v' c' := by
  obtain ⟨l, m, h1, h2, h3⟩ := produces henv hwf ht hk
  obtain ⟨c', h'⟩ := compat_reads (old := ⟨k.depth, k.lenient, k.used.blob, k.used.collected⟩) hs hc (fun _ => trivial)
    (h3 ⟨k.depth, k.lenient, k.used.blob, k.used.collected⟩ ⟨Nat.le_refl _, Nat.le_refl _, Nat.le_refl _, id⟩)
  refine ⟨m, c', h1, fun new hd hi hf s hso hroom => ?_⟩
  exact (reads_iff h2 hso hroom _ _).2 ⟨(deTree_iff henv hwf ht').2 (h' new ⟨hd, fun h => hi (.inl h), fun h => hi (.inr h)⟩), hf⟩

/-- The same fields, with other types. -/
theorem compat_pointwise {env : Env} {ds : List FieldDecl} {vs : List V} (ds' : List FieldDecl) : ∀ (vs' : List V), vs'.length = ds'.length →
    (∀ (j : Nat) (x' : FieldDecl) (v' : V), ds'[j]? = some x' → vs'[j]? = some v' →
      ∃ (i : Nat) (x : FieldDecl) (v : V), ds[i]? = some x ∧ vs[i]? = some v ∧ x.tag = x'.tag ∧ Compat env false false (.field x.ty x'.ty) [v] [v']) →
    Compat env false false (.fields ds ds') vs vs' := by
  induction ds' with
  | nil =>
    intro vs' hl _
    cases List.length_eq_zero_iff.1 (by simpa using hl)
    exact .fieldsNil
  | cons x' ds' ih =>
    intro vs' hl h
    cases vs' with
    | nil => simp at hl
    | cons v' vs' =>
      obtain ⟨i, x, v, h1, h2, h3, h4⟩ := h 0 x' v' rfl rfl
      exact .fieldsCons h1 h2 h3 h4 (ih vs' (by simpa using hl) fun j y w hy hw => h (j + 1) y w (by simpa using hy) (by simpa using hw))

/-- Changing the type of one field. -/
theorem compat_set {env : Env} {t t' : Ty} {fs : List FieldDecl} {chk chk' : List V → Bool} {j : Nat} {x : FieldDecl} {ty' : Ty} (p : PlainTy env t fs chk)
    (p' : PlainTy env t' (fs.set j { x with ty := ty' }) chk') (hx : fs[j]? = some x) {vs : List V} (hl : vs.length = fs.length) {v v' : V} (hv : vs[j]? = some v)
    (hc : chk' (vs.set j v') = true) (h : Compat env false false (.field x.ty ty') [v] [v']) : Compat env false false (.body t t') [.seq vs] [.seq (vs.set j v')] := by
  have hj : j < fs.length := (List.getElem?_eq_some_iff.1 hx).1
  refine .bodyPlain p p' hc (.inr fun y hy => ?_) (compat_pointwise _ _ (by simpa using hl) fun i y w hy hw => ?_)
  · obtain ⟨i, hi, hy⟩ := List.getElem_of_mem hy
    refine List.mem_map.2 ⟨(fs.set j { x with ty := ty' })[i]'(by simpa using hi), List.getElem_mem _, ?_⟩
    rw [List.getElem_set]
    split
    · rename_i he
      subst he
      have : fs[j] = x := (List.getElem?_eq_some_iff.1 hx).2
      rw [← hy, this]
    · rw [hy]
  · rw [List.getElem?_set] at hy hw
    split at hy
    · rename_i he
      subst he
      rw [if_pos rfl] at hw
      split at hw
      case isFalse => cases hw
      cases hy; cases hw
      exact ⟨j, x, v, hx, hv, rfl, h⟩
    · rename_i he
      rw [if_neg he] at hw
      exact ⟨i, y, w, hy, hw, rfl, .fieldSame⟩

/-- A struct or tuple of which one field has another type: what is accepted as the old type is accepted as the new one. -/
theorem c41_change (env : Env) (henv : env.Ok) (hwf : env.wf) (t t' : Ty) (ht : t.wf false = true) (ht' : t'.wf false = true) (fs : List FieldDecl) (chk chk' : List V → Bool)
    (p : PlainTy env t fs chk) (j : Nat) (x : FieldDecl) (hx : fs[j]? = some x) (ty' : Ty) (p' : PlainTy env t' (fs.set j { x with ty := ty' }) chk') (vs : List V) (v v' : V)
    (hv : vs[j]? = some v) (hc : chk' (vs.set j v') = true) (hcomp : Compat env false false (.field x.ty ty') [v] [v'])
    (old : Config) (l : Fields) (m : List Byte) (hm : Message l m) (hlen : m.length < U64MAX) (c : Stats)
    (h : Accepts env t old m (.seq vs) c) :
    ∃ c', ∀ new, old.recursionLimit ≤ new.recursionLimit → (old.ignoreUnknownFields = true → new.ignoreUnknownFields = true) → c'.fits new → Accepts env t' new m (.seq (vs.set j v')) c' := by
  have hr := ((c54_accepts env henv hwf t ht old l m hm hlen _ c).1 h).1
  obtain ⟨_, he, -, hr⟩ := plain_inv p hr
  cases he
  obtain ⟨c', h'⟩ := c41_read env henv hwf t t' ht ht' false false _ _ (compat_set p p' hx (fields_component hr rfl rfl).1 hv hc hcomp) old (fun h => by cases h) l m hm hlen c h
  exact ⟨c', fun new hn hk hf => h' new ⟨hn, (fun h => by cases h), hk⟩ hf⟩

/-- (a) A field of an integer type can be read as a wider integer type of the same signedness: the value stays the same. -/
theorem compat_int {env : Env} {a b : IntTy} (hs : a.signed = b.signed) (h1 : b.min ≤ a.min) (h2 : a.max ≤ b.max) (i : Int) :
    Compat env false false (.field (.prim (.int a)) (.prim (.int b))) [.num i] [.num i] :=
  .fieldOnce rfl rfl (.elemInt hs h1 h2)

/-- (a') It can be read as a narrower one if that has the number. -/
theorem compat_narrow {env : Env} {a b : IntTy} (hs : a.signed = b.signed) (i : Int) (h1 : b.min ≤ i) (h2 : i ≤ b.max) :
    Compat env false false (.field (.prim (.int a)) (.prim (.int b))) [.num i] [.num i] :=
  .fieldOnce rfl rfl (.elemNarrow hs h1 h2)

/-- (b) A field that occurs once can be read as an `Option`, -/
theorem compat_option {env : Env} {t : Ty} (ho : t.once = true) (v : V) : Compat env false false (.field t (.option t)) [v] [.seq [v]] :=
  .fieldWrap ho (.option (Nat.le_refl _)) .elemSame

/-- (c) and as a vector, except for bytes, -/
theorem compat_vec {env : Env} {t : Ty} (ho : t.once = true) (hu : t.isU8 = false) (v : V) : Compat env false false (.field t (.vec t)) [v] [.seq [v]] :=
  .fieldWrap ho (.vec hu) .elemSame

/-- (d) and an `Option` can be read as a vector. -/
theorem compat_option_vec {env : Env} {t : Ty} (hu : t.isU8 = false) (vs : List V) (h1 : vs.length ≤ 1) : Compat env false false (.field (.option t) (.vec t)) [.seq vs] [.seq vs] := by
  refine .fieldHolds (.option h1) (.vec hu) ?_
  clear h1
  induction vs with
  | nil => exact .eachNil
  | cons v vs ih => exact .eachCons .elemSame ih

/-- A vector can be read as a set, -/
theorem compat_vec_set {env : Env} {t : Ty} (hu : t.isU8 = false) (vs : List V) : Compat env false false (.field (.vec t) (.coll .set t)) [.seq vs] [.seq (distinct vs)] := by
  refine .fieldToSet (.vec hu) ?_
  induction vs with
  | nil => exact .eachNil
  | cons v vs ih => exact .eachCons .elemSame ih

theorem possible_int {env : Env} {k : IntTy} {v : V} (h : Possible env (.prim (.int k)) v) : ∃ i, v = .num i := by
  obtain ⟨_, _, _, _, h⟩ := h
  cases h with
  | elemPrim h => cases h with | int => exact ⟨_, rfl⟩
  | elemStruct h => simp [Ty.inStruct] at h

theorem possible_pair {env : Env} {k w : Ty} {v : V} (h : Possible env (.tuple [k, w]) v) : ∃ cfg d l a b c1 c2, v = .seq [a, b] ∧
    Reads env cfg (.field k) d (occ 1 l) [a] c1 ∧ Reads env cfg (.field w) d (occ 2 l) [b] c2 := by
  obtain ⟨cfg, _, _, _, h⟩ := h
  cases h with
  | elemStruct _ h =>
    cases h with
    | bodyTuple _ _ h =>
      cases h with
      | fieldsCons _ h1 h2 =>
        cases h2 with
        | fieldsCons _ h2 h3 =>
          cases h3 with
          | fieldsNil => exact ⟨_, _, _, _, _, _, _, rfl, h1, h2⟩
    | bodyWrapped hw => simp [Ty.isWrapped] at hw

/-- a set of integers as a set of wider ones, -/
theorem compat_set_int {env : Env} {a b : IntTy} (hs : a.signed = b.signed) (h1 : b.min ≤ a.min) (h2 : a.max ≤ b.max) (vs : List V) :
    Compat env false false (.field (.coll .set (.prim (.int a))) (.coll .set (.prim (.int b)))) [.seq vs] [.seq vs] := by
  have := Compat.fieldSets (env := env) (drops := false) (adds := false) (e := .prim (.int a)) (e' := .prim (.int b)) (vs := vs) id (fun v hv => by
    obtain ⟨i, rfl⟩ := possible_int hv
    exact .elemInt hs h1 h2) (fun a b _ _ h => h)
  rwa [List.map_id] at this

/-- An entry with a changed value. -/
def mapSnd (g : V → V) : V → V
  | .seq [a, b] => .seq [a, g b]
  | v => v

/-- and a map with a type of values that may change can be read as a map with the changed values. -/
theorem compat_map {env : Env} {k w w' : Ty} {g : V → V} (hg : ∀ cfg d vals v c, Reads env cfg (.field w) d vals [v] c → Compat env false false (.field w w') [v] [g v]) (vs : List V) :
    Compat env false false (.field (.map k w) (.map k w')) [.seq vs] [.seq (vs.map (mapSnd g))] := by
  refine .fieldMaps _ (fun v hv => ?_) fun a b ha hb => ?_
  · obtain ⟨_, _, _, x, y, _, _, rfl, _, hy⟩ := possible_pair hv
    exact .elemStruct rfl rfl (.bodyPlain (.tuple (by simp)) (.tuple (by simp)) rfl (.inr (by simp [components]))
      (.fieldsCons (j := 0) rfl rfl rfl .fieldSame (.fieldsCons (j := 1) rfl rfl rfl (hg _ _ _ _ _ hy) .fieldsNil)))
  · obtain ⟨_, _, _, x, y, _, _, rfl, _, _⟩ := possible_pair ha
    obtain ⟨_, _, _, x', y', _, _, rfl, _, _⟩ := possible_pair hb
    exact Iff.rfl

/-- (e) A `u8` field can not be read as a vector of bytes. -/
theorem c41_not_u8 (env : Env) (henv : env.Ok) (hwf : env.wf) (t : Ty) (ht : t.wf false = true) (fs : List FieldDecl) (hfs : FieldsOfTy env t fs) (cfg : Config)
    (l : Fields) (m : List Byte) (hm : Message l m) (hlen : m.length < U64MAX) (x : FieldDecl) (hx : x ∈ fs) (hty : x.ty = .vec u8) (n : UInt64) (hval : (x.tag, .int n) ∈ l) :
    Rejects env t cfg m := by
  refine (c54_rejects env henv hwf t ht cfg l m hm hlen).2 fun v c _ hr => ?_
  obtain ⟨us, rfl, h⟩ := reads_component hfs hr
  obtain ⟨j, hj⟩ := List.getElem?_of_mem hx
  obtain ⟨u, c', hu, hf⟩ := h j x hj
  have hmem : .int n ∈ occ x.tag l := by
    rw [occ_eq]
    exact List.mem_map.2 ⟨_, List.mem_filter.2 ⟨hval, by simp⟩, rfl⟩
  generalize occ x.tag l = vals at hf hmem
  rw [hty] at hf
  cases hf with
  | fieldSingle _ he =>
    cases List.mem_singleton.1 hmem
    cases he
  | fieldVec h' => exact absurd h' (by decide)

/-- (f) Changing the signedness of an integer field is not compatible: the same message is read as another number, unless it is 0. -/
theorem c41_signedness (env : Env) (henv : env.Ok) (hwf : env.wf) (t t' : Ty) (ht : t.wf false = true) (ht' : t'.wf false = true) (fs fs' : List FieldDecl) (hfs : FieldsOfTy env t fs)
    (hfs' : FieldsOfTy env t' fs') (cfg cfg' : Config) (l : Fields) (m : List Byte) (hm : Message l m) (hlen : m.length < U64MAX) (us us' : List V) (c c' : Stats)
    (h : Accepts env t cfg m (.seq us) c) (h' : Accepts env t' cfg' m (.seq us') c') (j j' : Nat) (x x' : FieldDecl) (hx : fs[j]? = some x) (hx' : fs'[j']? = some x') (htag : x.tag = x'.tag)
    (a b : IntTy) (hty : x.ty = .prim (.int a)) (hty' : x'.ty = .prim (.int b)) (ha : a.signed = false) (hb : b.signed = true) (i i' : Int) (hu : us[j]? = some (.num i))
    (hu' : us'[j']? = some (.num i')) : i = i' ↔ i = 0 := by
  have key : ∀ {cfg : Config} {k : IntTy} {d : Nat} {vals : List Val} {i : Int} {c : Stats}, Reads env cfg (.field (.prim (.int k))) d vals [.num i] c →
      ∃ n : UInt64, vals = [.int n] ∧ (n.toNat : Int) = k.wire i := by
    intro cfg k d vals i c h
    cases h with
    | fieldSingle _ h =>
      cases h with
      | elemPrim h => cases h with | int _ _ h => exact ⟨_, rfl, h⟩
      | elemStruct h => simp [Ty.inStruct] at h
  obtain ⟨_, g1, g2⟩ := reads_component hfs ((c54_accepts env henv hwf t ht cfg l m hm hlen _ c).1 h).1
  obtain ⟨_, g3, g4⟩ := reads_component hfs' ((c54_accepts env henv hwf t' ht' cfg' l m hm hlen _ c').1 h').1
  cases g1; cases g3
  obtain ⟨u, c1, e1, r1⟩ := g2 j x hx
  obtain ⟨u', c2, e2, r2⟩ := g4 j' x' hx'
  rw [hu] at e1; cases e1
  rw [hu'] at e2; cases e2
  rw [hty] at r1; rw [hty'] at r2
  obtain ⟨n, q1, q2⟩ := key r1
  obtain ⟨n', q3, q4⟩ := key r2
  rw [htag, q3] at q1
  cases q1
  simp only [IntTy.wire, zigzagInt, ha, hb, if_true, Bool.false_eq_true, if_false] at q2 q4
  split at q4 <;> omega

theorem narrow_int {env : Env} {cfg : Config} {k : IntTy} {d : Nat} {vals : List Val} {v : V} {c : Stats} (h : Reads env cfg (.field (.prim (.int k))) d vals [v] c) :
    ∃ (n : UInt64) (i : Int), vals = [.int n] ∧ v = .num i ∧ k.min ≤ i ∧ i ≤ k.max ∧ (n.toNat : Int) = k.wire i := by
  cases h with
  | fieldSingle _ h =>
    cases h with
    | elemPrim h => cases h with | int h1 h2 h => exact ⟨_, _, rfl, rfl, h1, h2, h⟩
    | elemStruct h => simp [Ty.inStruct] at h

theorem wire_inj {a b : IntTy} (hs : a.signed = b.signed) {i j : Int} (hb : b.min ≤ j) (h : a.wire i = b.wire j) (ha : a.min ≤ i) : i = j := by
  cases h' : b.signed with
  | false =>
    rw [h'] at hs
    simpa [IntTy.wire, hs, h'] using h
  | true =>
    rw [h'] at hs
    simp only [IntTy.wire, hs, h', if_true, zigzagInt] at h
    split at h <;> split at h <;> omega

/-- (g) A number that a narrower integer type does not have is an error there. -/
theorem c41_narrow_rejects (env : Env) (henv : env.Ok) (hwf : env.wf) (t t' : Ty) (ht : t.wf false = true) (ht' : t'.wf false = true) (fs fs' : List FieldDecl) (hfs : FieldsOfTy env t fs)
    (hfs' : FieldsOfTy env t' fs') (cfg cfg' : Config) (l : Fields) (m : List Byte) (hm : Message l m) (hlen : m.length < U64MAX) (us : List V) (c : Stats)
    (h : Accepts env t cfg m (.seq us) c) (j j' : Nat) (x x' : FieldDecl) (hx : fs[j]? = some x) (hx' : fs'[j']? = some x') (htag : x.tag = x'.tag)
    (a b : IntTy) (hty : x.ty = .prim (.int a)) (hty' : x'.ty = .prim (.int b)) (hs : a.signed = b.signed) (i : Int) (hu : us[j]? = some (.num i)) (hi : i < b.min ∨ b.max < i) :
    Rejects env t' cfg' m := by
  refine (c54_rejects env henv hwf t' ht' cfg' l m hm hlen).2 fun v c' _ hr => ?_
  obtain ⟨_, g1, g2⟩ := reads_component hfs ((c54_accepts env henv hwf t ht cfg l m hm hlen _ c).1 h).1
  cases g1
  obtain ⟨_, -, g4⟩ := reads_component hfs' hr
  obtain ⟨u, c1, e1, r1⟩ := g2 j x hx
  obtain ⟨u', c2, -, r2⟩ := g4 j' x' hx'
  rw [hu] at e1; cases e1
  rw [hty] at r1; rw [hty'] at r2
  obtain ⟨n, _, q1, q2, q3, -, q4⟩ := narrow_int r1
  cases q2
  obtain ⟨n', i', q5, -, q6, q7, q8⟩ := narrow_int r2
  rw [htag, q5] at q1
  cases q1
  have := wire_inj hs q6 (q4 ▸ q8) q3
  omega

/-- Types whose values are never structs in a message: numbers, strings, byte strings, enums (and pointers to them). -/
def _root_.Fourleaf.Ty.scalar (env : Env) : Ty → Bool
  | .prim _ => true
  | .vec e | .small _ e | .large _ e => e.isByte
  | .boxed t => t.scalar env
  | .named i => match env.decl i with | .enum .. => true | .struct _ => false
  | _ => false

theorem scalar_inv {env : Env} : ∀ {t : Ty}, t.scalar env = true → ∀ {cfg : Config} {d : Nat} {vals : List Val} {vs : List V} {c : Stats}, Reads env cfg (.elem t) d vals vs c →
    ∃ val, vals = [val] ∧ ∀ l, val ≠ .struct l
  | .boxed t, hs, _, _, _, _, _, h => by
    cases h with
    | elemBoxed h => exact scalar_inv (by simpa [Ty.scalar] using hs) h
    | elemStruct h => simp [Ty.inStruct] at h
  | .prim _, _, _, _, _, _, _, h => by
    cases h with
    | elemPrim hp => cases hp <;> exact ⟨_, rfl, nofun⟩
    | elemStruct h => simp [Ty.inStruct] at h
  | .vec _, hs, _, _, _, _, _, h => by
    cases h with
    | elemVec => exact ⟨_, rfl, nofun⟩
    | elemStruct h => simp [Ty.inStruct, show Ty.isU8 _ = true from hs] at h
  | .small _ _, hs, _, _, _, _, _, h => by
    cases h with
    | elemSmall => exact ⟨_, rfl, nofun⟩
    | elemStruct h => simp [Ty.inStruct, show Ty.isU8 _ = true from hs] at h
  | .large _ _, hs, _, _, _, _, _, h => by
    cases h with
    | elemLarge => exact ⟨_, rfl, nofun⟩
    | elemStruct h => simp [Ty.inStruct, show Ty.isU8 _ = true from hs] at h
  | .named i, hs, _, _, _, _, _, h => by
    cases h with
    | elemVariant => exact ⟨_, rfl, nofun⟩
    | elemCatchAll => exact ⟨_, rfl, nofun⟩
    | elemStruct h => cases hd : env.decl i <;> simp [Ty.inStruct, Ty.scalar, hd] at h hs
    | elemDelegate hd => simp [Ty.scalar, hd] at hs
  | .tuple _, hs, _, _, _, _, _, _ | .coll _ _, hs, _, _, _, _, _, _ | .option _, hs, _, _, _, _, _, _ | .map _ _, hs, _, _, _, _, _, _ | .unknownFields _, hs, _, _, _, _, _, _
  | .unknownField _, hs, _, _, _, _, _, _ => by simp [Ty.scalar] at hs

/-- (h) Within a collection the change to a collection is not compatible: a vector of numbers (other than bytes), strings, byte strings or enums can not be read as a vector of vectors, unless it is empty. -/
theorem c41_not_nested (env : Env) (henv : env.Ok) (hwf : env.wf) (t t' : Ty) (ht : t.wf false = true) (ht' : t'.wf false = true) (fs fs' : List FieldDecl) (hfs : FieldsOfTy env t fs)
    (hfs' : FieldsOfTy env t' fs') (cfg cfg' : Config) (l : Fields) (m : List Byte) (hm : Message l m) (hlen : m.length < U64MAX) (us : List V) (c : Stats)
    (h : Accepts env t cfg m (.seq us) c) (j j' : Nat) (x x' : FieldDecl) (hx : fs[j]? = some x) (hx' : fs'[j']? = some x') (htag : x.tag = x'.tag)
    (e : Ty) (he : e.scalar env = true) (hne : e.isByte = false) (hty : x.ty = .vec e) (hty' : x'.ty = .vec (.vec e)) (u : V) (ws : List V) (hu : us[j]? = some (.seq (u :: ws))) :
    Rejects env t' cfg' m := by
  have hne : e.isU8 = false := hne
  refine (c54_rejects env henv hwf t' ht' cfg' l m hm hlen).2 fun v c' _ hr => ?_
  obtain ⟨_, g1, g2⟩ := reads_component hfs ((c54_accepts env henv hwf t ht cfg l m hm hlen _ c).1 h).1
  cases g1
  obtain ⟨_, -, g4⟩ := reads_component hfs' hr
  obtain ⟨_, c1, e1, r1⟩ := g2 j x hx
  obtain ⟨u', c2, -, r2⟩ := g4 j' x' hx'
  rw [hu] at e1; cases e1
  rw [hty] at r1; rw [hty', ← htag] at r2
  generalize occ x.tag l = vals at r1 r2
  cases r1 with
  | fieldSingle hs => simp [Ty.isSingle, hne] at hs
  | fieldVec _ r1 =>
    cases r1 with
    | eachCons r1 _ =>
      obtain ⟨_, hv, hno⟩ := scalar_inv he r1
      cases hv
      cases r2 with
      | fieldSingle hs => simp [Ty.isSingle, Ty.isU8] at hs
      | fieldVec _ r2 =>
        cases r2 with
        | eachCons r2 _ =>
          cases r2 with
          | elemStruct => exact hno _ rfl
          | elemVec => cases hne

/-- Nor is it as a whole message: a struct or tuple with such a field 1 can not be read as a vector of this type. -/
theorem c41_not_top (env : Env) (henv : env.Ok) (hwf : env.wf) (t : Ty) (ht : t.wf false = true) (fs : List FieldDecl) (chk : List V → Bool) (p : PlainTy env t fs chk) (x : FieldDecl) (hx : x ∈ fs) (h1 : x.tag = 1)
    (hs : x.ty.scalar env = true) (ho : x.ty.once = true) (cfg cfg' : Config) (l : Fields) (m : List Byte) (hm : Message l m) (hlen : m.length < U64MAX) (us : List V) (c : Stats)
    (h : Accepts env t cfg m (.seq us) c) : Rejects env (.vec t) cfg' m := by
  refine (c54_rejects env henv hwf (.vec t) (by simpa [Ty.wf] using ht) cfg' l m hm hlen).2 fun v c' _ hr => ?_
  obtain ⟨_, he, -, hf⟩ := plain_inv p ((c54_accepts env henv hwf t ht cfg l m hm hlen _ c).1 h).1
  cases he
  have key : ∀ {ds : List FieldDecl} {us : List V} {c : Stats}, x ∈ ds → Reads env cfg (.fields ds) 0 [.struct l] us c → ∃ w c', Reads env cfg (.field x.ty) 1 (occ x.tag l) [w] c' := by
    intro ds
    induction ds with
    | nil => intro _ _ hx; cases hx
    | cons y ds ih =>
      intro us c hx hf
      cases hf with
      | fieldsCons _ h1 h2 =>
        rcases List.mem_cons.1 hx with rfl | hx
        · exact ⟨_, _, h1⟩
        · exact ih hx h2
  obtain ⟨w, c1, r1⟩ := key hx hf
  obtain ⟨val, hocc, r1⟩ := once_inv ho r1
  obtain ⟨_, hv, hno⟩ := scalar_inv hs r1
  cases hv
  rw [h1] at hocc
  have hin : t.inStruct env = true := by
    cases p with
    | tuple => rfl
    | struct hd htail => simp [Ty.inStruct, hd, htail]
  have hu : t.isU8 = false := by cases p <;> rfl
  cases hr with
  | bodyWrapped _ _ _ hr =>
    rw [hocc] at hr
    cases hr with
    | fieldSingle hs => simp [Ty.isSingle, hu] at hs
    | fieldVec _ hr =>
      cases hr with
      | eachCons hr _ =>
        cases hr with
        | elemStruct => exact hno _ rfl
        | elemPrim | elemBoxed | elemVec | elemSmall | elemLarge | unkInt | unkBlob | unkStruct | unkEnum => cases p
        | elemDelegate hd htl => cases p with | struct hd' ht' => rw [hd'] at hd; cases hd; rw [ht'] at htl; cases htl
        | elemVariant hd | elemCatchAll hd => cases p with | struct hd' _ => rw [hd'] at hd; cases hd

/-- But numbers, strings, byte strings and enums as whole messages may become vectors: they are written as field 1 of a struct. -/
theorem c41_top (env : Env) (henv : env.Ok) (hwf : env.wf) (t : Ty) (ht : t.wf false = true) (hw : t.isWrapped env = true) (ho : t.once = true) (hu : t.isByte = false) (cfg : Config) (l : Fields) (m : List Byte)
    (hm : Message l m) (hlen : m.length < U64MAX) (v : V) (c : Stats) (h : Accepts env t cfg m v c) :
    ∃ c', ∀ new, cfg.recursionLimit ≤ new.recursionLimit → (cfg.ignoreUnknownFields = true → new.ignoreUnknownFields = true) → c'.fits new → Accepts env (.vec t) new m (.seq [v]) c' := by
  obtain ⟨c', h'⟩ := c41_read env henv hwf t (.vec t) ht (by simpa [Ty.wf] using ht) false false v (.seq [v])
    (.bodyWrapped hw rfl (.fieldWrap ho (.vec hu) .elemSame)) cfg (fun h => by cases h) l m hm hlen c h
  exact ⟨c', fun new h1 h2 => h' new ⟨h1, (fun h => by cases h), h2⟩⟩

/-- (i) Deleting fields from a struct that collects unknown fields: whatever configuration is used (with a sufficient recursion limit), the message is accepted, and the collector gets the deleted fields
(and those that were unknown before), as they are in the message. -/
theorem c41_delete (env : Env) (henv : env.Ok) (hwf : env.wf) (t : Ty) (i : Nat) (ht : t.wf false = true) (fs : List FieldDecl) (chk : List V → Bool) (p : PlainTy env t fs chk) (b : Body)
    (hb : env.decl i = .struct b) (name : String) (zc : Bool) (htail : b.tail = .unknown name zc) (vs vs' : List V) (drops : Bool) (hcomp : Compat env drops false (.fields fs b.fields) vs vs')
    (old : Config) (l : Fields) (m : List Byte) (hm : Message l m) (hlen : m.length < U64MAX) (c : Stats) (hc : b.check (vs' ++ [.seq (asUnknowns (others b.fields l))]) = true)
    (h : Accepts env t old m (.seq vs) c) :
    ∃ c', ∀ new, NewCfg drops old new → 0 < new.recursionLimit → fieldsDepth (others b.fields l) ≤ new.recursionLimit → c'.fits new →
      Accepts env (.named i) new m (.seq (vs' ++ [.seq (asUnknowns (others b.fields l))])) c' := by
  obtain ⟨_, he, gi, hr⟩ := plain_inv p ((c54_accepts env henv hwf t ht old l m hm hlen _ c).1 h).1
  cases he
  obtain ⟨c', h'⟩ := compat_reads (old := old) (fun h => by cases h) hcomp (fun h => by cases h) hr
  refine ⟨c' + ⟨fieldsCount (others b.fields l), if zc then 0 else fieldsBytes (others b.fields l)⟩, fun new hn h0 hd hf => ?_⟩
  refine (c54_accepts env henv hwf (.named i) rfl new l m hm hlen _ _).2 ⟨.bodyStruct hb (.partsUnknown htail hc h0 (h' new hn) ?_), hf⟩
  rw [others_eq]
  exact asUnknowns_reads env new zc _ 0 (by omega)

/-- The configuration that rejects unknown fields. -/
def strictCfg : Config := { Config.default with ignoreUnknownFields := false }

theorem exCompat_message : Message [(1, .int 200), (2, .int 1)] [65, 200, 1, 66, 1, 0] :=
  (by decide +kernel : canonToks [.int 1 200, .int 2 1, .endStruct] = [65, 200, 1, 66, 1, 0]) ▸ message_canon (.int (.int .nil)) (by decide)

/-- `(200u8, true)` is accepted as `(u8, bool)`, … -/
theorem exCompat_old : Accepts exEnv (.tuple [u8, .prim .bool]) strictCfg [65, 200, 1, 66, 1, 0] (.seq [.num 200, .bool true]) .zero :=
  fun _ hs hroom => (reads_iff exCompat_message hs hroom _ _).2 ⟨rfl, by decide⟩

/-- … hence also as `(u32, bool)`, `(u8, Option<bool>)` and `(u8, Vec<bool>)`, -/
example : (∃ c, Accepts exEnv (.tuple [.prim (.int .u32), .prim .bool]) .default [65, 200, 1, 66, 1, 0] (.seq [.num 200, .bool true]) c) ∧
    (∃ c', ∀ new, strictCfg.recursionLimit ≤ new.recursionLimit → (strictCfg.ignoreUnknownFields = true → new.ignoreUnknownFields = true) → c'.fits new → Accepts exEnv (.tuple [u8, .option (.prim .bool)]) new [65, 200, 1, 66, 1, 0] (.seq [.num 200, .seq [.bool true]]) c') ∧
    (∃ c', ∀ new, strictCfg.recursionLimit ≤ new.recursionLimit → (strictCfg.ignoreUnknownFields = true → new.ignoreUnknownFields = true) → c'.fits new → Accepts exEnv (.tuple [u8, .vec (.prim .bool)]) new [65, 200, 1, 66, 1, 0] (.seq [.num 200, .seq [.bool true]]) c') := by
  refine ⟨⟨.zero, fun _ hs hroom => (reads_iff exCompat_message hs hroom _ _).2 ⟨rfl, by decide⟩⟩, ?_, ?_⟩
  · exact c41_change exEnv exEnv_ok exEnv_wf (.tuple [u8, .prim .bool]) (.tuple [u8, .option (.prim .bool)]) rfl rfl _ _ _ (.tuple (by decide)) 1 ⟨2, "field_1", .prim .bool⟩ rfl (.option (.prim .bool))
      (.tuple (ts := [u8, .option (.prim .bool)]) (by decide)) [.num 200, .bool true] (.bool true) _ rfl rfl (compat_option rfl _) strictCfg _ _ exCompat_message (by decide) _ exCompat_old
  · exact c41_change exEnv exEnv_ok exEnv_wf (.tuple [u8, .prim .bool]) (.tuple [u8, .vec (.prim .bool)]) rfl rfl _ _ _ (.tuple (by decide)) 1 ⟨2, "field_1", .prim .bool⟩ rfl (.vec (.prim .bool))
      (.tuple (ts := [u8, .vec (.prim .bool)]) (by decide)) [.num 200, .bool true] (.bool true) _ rfl rfl (compat_vec rfl rfl _) strictCfg _ _ exCompat_message (by decide) _ exCompat_old

/-- With an unknown field, as `(u8, bool)` when these are ignored, hence also as `(u8, Option<bool>)` with any configuration that ignores them and has no lower recursion limit. -/
theorem exCompat_unknown : Message [(1, .int 200), (3, .int 7), (2, .int 1)] [65, 200, 1, 67, 7, 66, 1, 0] :=
  (by decide +kernel : canonToks [.int 1 200, .int 3 7, .int 2 1, .endStruct] = [65, 200, 1, 67, 7, 66, 1, 0]) ▸ message_canon (.int (.int (.int .nil))) (by decide)

example : ∃ c', ∀ new, Config.default.recursionLimit ≤ new.recursionLimit → (Config.default.ignoreUnknownFields = true → new.ignoreUnknownFields = true) → c'.fits new →
    Accepts exEnv (.tuple [u8, .option (.prim .bool)]) new [65, 200, 1, 67, 7, 66, 1, 0] (.seq [.num 200, .seq [.bool true]]) c' :=
  c41_change exEnv exEnv_ok exEnv_wf (.tuple [u8, .prim .bool]) (.tuple [u8, .option (.prim .bool)]) rfl rfl _ _ _ (.tuple (by decide)) 1 ⟨2, "field_1", .prim .bool⟩ rfl (.option (.prim .bool))
    (.tuple (ts := [u8, .option (.prim .bool)]) (by decide)) [.num 200, .bool true] (.bool true) _ rfl rfl (compat_option rfl _) .default _ _ exCompat_unknown (by decide) .zero
    fun _ hs hroom => (reads_iff exCompat_unknown hs hroom _ _).2 ⟨rfl, by decide⟩

/-- but not as `(Vec<u8>, bool)`. -/
example : Rejects exEnv (.tuple [.vec u8, .prim .bool]) .default [65, 200, 1, 66, 1, 0] :=
  c41_not_u8 exEnv exEnv_ok exEnv_wf _ rfl _ (.tuple (by decide)) _ _ _ exCompat_message (by decide) ⟨1, "field_0", .vec u8⟩ (List.mem_cons_self ..) rfl 200 (List.mem_cons_self ..)

/-- `(200u8, true)` is read as `(100i16, true)`. -/
example : (200 : Int) = 100 ↔ (200 : Int) = 0 :=
  c41_signedness exEnv exEnv_ok exEnv_wf (.tuple [u8, .prim .bool]) (.tuple [.prim (.int .i16), .prim .bool]) rfl rfl _ _ (.tuple (by decide)) (.tuple (by decide)) strictCfg strictCfg _ _
    exCompat_message (by decide) [.num 200, .bool true] [.num 100, .bool true] _ _ exCompat_old (fun _ hs hroom => (reads_iff exCompat_message hs hroom _ .zero).2 ⟨rfl, by decide⟩)
    0 0 ⟨1, "field_0", u8⟩ ⟨1, "field_0", .prim (.int .i16)⟩ rfl rfl rfl .u8 .i16 rfl rfl rfl rfl 200 100 rfl rfl

/-- Reordering, adding and dropping fields at once, with a nested change: `(u8, bool)` as a struct with other tags is not compatible, but `(u8, bool)` read as `(u16,)` is, when unknown fields are ignored. -/
example : Compat exEnv true false (.body (.tuple [u8, .prim .bool]) (.tuple [.prim (.int .u16)])) [.seq [.num 200, .bool true]] [.seq [.num 200]] :=
  .bodyPlain (.tuple (by decide)) (.tuple (by decide)) rfl (.inl rfl)
    (.fieldsCons (j := 0) rfl rfl rfl (.fieldOnce rfl rfl (.elemInt rfl (by decide) (by decide))) .fieldsNil)

/-- A field added at the end. -/
example : Compat exEnv false true (.body (.tuple [u8]) (.tuple [u8, .option (.prim .bool)])) [.seq [.num 200]] [.seq [.num 200, .seq []]] :=
  .bodyPlain (.tuple (by decide)) (.tuple (by decide)) rfl (.inr (by decide))
    (.fieldsCons (j := 0) rfl rfl rfl .fieldSame (.fieldsNew rfl (by decide) (by decide) (.option (by decide)) .fieldsNil))

/-- `{5: false, 5: true}` as a map. -/
theorem exCompat_map : Message [(1, .struct [(1, .int 5), (2, .int 0)]), (1, .struct [(1, .int 5), (2, .int 1)])] [193, 65, 5, 66, 0, 0, 193, 65, 5, 66, 1, 0, 0] :=
  (by decide +kernel : canonToks [.struct 1, .int 1 5, .int 2 0, .endStruct, .struct 1, .int 1 5, .int 2 1, .endStruct, .endStruct] = [193, 65, 5, 66, 0, 0, 193, 65, 5, 66, 1, 0, 0]) ▸
    message_canon (.struct (.int (.int .nil)) (.struct (.int (.int .nil)) .nil)) (by decide)

/-- The message is accepted as a map from `u8` to `bool`, hence as a map from `u8` to `Option<bool>`. -/
example : ∃ c', ∀ new, Config.default.recursionLimit ≤ new.recursionLimit → (Config.default.ignoreUnknownFields = true → new.ignoreUnknownFields = true) → c'.fits new →
    Accepts exEnv (.tuple [.map u8 (.option (.prim .bool))]) new [193, 65, 5, 66, 0, 0, 193, 65, 5, 66, 1, 0, 0] (.seq [.seq [.seq [.num 5, .seq [.bool true]]]]) c' :=
  c41_change exEnv exEnv_ok exEnv_wf (.tuple [.map u8 (.prim .bool)]) (.tuple [.map u8 (.option (.prim .bool))]) rfl rfl _ _ _ (.tuple (by decide)) 0 ⟨1, "field_0", .map u8 (.prim .bool)⟩ rfl
    (.map u8 (.option (.prim .bool))) (.tuple (ts := [.map u8 (.option (.prim .bool))]) (by decide)) [.seq [.seq [.num 5, .bool true]]] (.seq [.seq [.num 5, .bool true]]) _ rfl rfl
    (compat_map (g := fun v => .seq [v]) (fun _ _ _ _ _ _ => compat_option rfl _) _) .default _ _ exCompat_map (by decide) ⟨2, 0⟩
    fun _ hs hroom => (reads_iff exCompat_map hs hroom _ _).2 ⟨rfl, by decide⟩

/-- `(300u16, true)` -/
theorem exCompat_narrow : Message [(1, .int 300), (3, .int 1)] [65, 172, 2, 67, 1, 0] :=
  (by decide +kernel : canonToks [.int 1 300, .int 3 1, .endStruct] = [65, 172, 2, 67, 1, 0]) ▸ message_canon (.int (.int .nil)) (by decide)

theorem exCompat_u16 : Accepts exEnv (.tuple [.prim (.int .u16)]) .default [65, 172, 2, 67, 1, 0] (.seq [.num 300]) .zero :=
  fun _ hs hroom => (reads_iff exCompat_narrow hs hroom _ _).2 ⟨rfl, by decide⟩

/-- 300 is not a `u8`, but it is an `u16` when read from a `u64` field. -/
example : Rejects exEnv (.tuple [u8]) .default [65, 172, 2, 67, 1, 0] :=
  c41_narrow_rejects exEnv exEnv_ok exEnv_wf (.tuple [.prim (.int .u16)]) (.tuple [u8]) rfl rfl _ _ (.tuple (by decide)) (.tuple (by decide)) .default .default _ _ exCompat_narrow (by decide) _ _ exCompat_u16
    0 0 ⟨1, "field_0", .prim (.int .u16)⟩ ⟨1, "field_0", u8⟩ rfl rfl rfl .u16 .u8 rfl rfl rfl 300 rfl (.inr (by decide))
example : Compat exEnv false false (.field (.prim (.int .u64)) (.prim (.int .u16))) [.num 300] [.num 300] := compat_narrow (a := .u64) (b := .u16) rfl 300 (by decide) (by decide)

/-- `[300]` as a vector, not as a vector of vectors. -/
example : Rejects exEnv (.tuple [.vec (.vec (.prim (.int .u16)))]) .default [65, 172, 2, 67, 1, 0] :=
  c41_not_nested exEnv exEnv_ok exEnv_wf (.tuple [.vec (.prim (.int .u16))]) (.tuple [.vec (.vec (.prim (.int .u16)))]) rfl rfl _ _ (.tuple (by decide)) (.tuple (by decide)) .default .default _ _
    exCompat_narrow (by decide) [.seq [.num 300]] ⟨1, 0⟩ (fun _ hs hroom => (reads_iff exCompat_narrow hs hroom _ _).2 ⟨rfl, by decide⟩)
    0 0 ⟨1, "field_0", .vec (.prim (.int .u16))⟩ ⟨1, "field_0", .vec (.vec (.prim (.int .u16)))⟩ rfl rfl rfl (.prim (.int .u16)) rfl rfl rfl rfl (.num 300) [] rfl

/-- `(300u16,)` can not be read as a `Vec<(u16,)>`, but the message for 300 is read as `vec![300]`. -/
example : Rejects exEnv (.vec (.tuple [.prim (.int .u16)])) .default [65, 172, 2, 67, 1, 0] :=
  c41_not_top exEnv exEnv_ok exEnv_wf (.tuple [.prim (.int .u16)]) rfl _ _ (.tuple (by decide)) ⟨1, "field_0", .prim (.int .u16)⟩ (List.mem_cons_self ..) rfl rfl rfl .default .default _ _ exCompat_narrow (by decide) _ _ exCompat_u16
example : ∃ c', ∀ new, Config.default.recursionLimit ≤ new.recursionLimit → (Config.default.ignoreUnknownFields = true → new.ignoreUnknownFields = true) → c'.fits new →
    Accepts exEnv (.vec (.prim (.int .u16))) new [65, 172, 2, 67, 1, 0] (.seq [.num 300]) c' :=
  c41_top exEnv exEnv_ok exEnv_wf (.prim (.int .u16)) rfl rfl rfl rfl .default _ _ exCompat_narrow (by decide) (.num 300) ⟨0, 0⟩ fun _ hs hroom => (reads_iff exCompat_narrow hs hroom _ _).2 ⟨rfl, by decide⟩

/-- `(u16, Vec<String>, bool)` without the last field, which goes to the collector. -/
example : ∃ c', ∀ new, NewCfg false .default new → 0 < new.recursionLimit → 1 ≤ new.recursionLimit → c'.fits new →
    Accepts exEnv (.named 0) new [65, 172, 2, 67, 1, 0] (.seq [.num 300, .seq [], .seq [.seq [.num 3, .variant 0 [.num 1]]]]) c' :=
  c41_delete exEnv exEnv_ok exEnv_wf (.tuple [.prim (.int .u16), .vec (.prim .string), .prim .bool]) 0 rfl _ _ (.tuple (by decide))
    ⟨[⟨1, "a", .prim (.int .u16)⟩, ⟨2, "b", .vec (.prim .string)⟩], .unknown "rest" false, fun _ => true⟩ rfl "rest" false rfl [.num 300, .seq [], .bool true] [.num 300, .seq []] false
    (.fieldsCons (j := 0) (x := ⟨1, "field_0", .prim (.int .u16)⟩) rfl rfl rfl .fieldSame (.fieldsCons (j := 1) (x := ⟨2, "field_1", .vec (.prim .string)⟩) rfl rfl rfl .fieldSame .fieldsNil)) .default _ _ exCompat_narrow (by decide) ⟨0, 0⟩ rfl
    (fun _ hs hroom => (reads_iff exCompat_narrow hs hroom _ _).2 ⟨rfl, by decide⟩)

/-- Four versions of a struct, the first two of which collect unknown fields, the third one ignores or rejects them, and the fourth delegates to the first; and an enum with a catch-all variant. -/
def exCollect : Env where
  decl
    | 0 => .struct ⟨[⟨1, "n", u8⟩], .unknown "rest" false, fun _ => true⟩
    | 1 => .struct ⟨[⟨1, "n", .vec (.prim (.int .u16))⟩], .unknown "other" false, fun _ => true⟩
    | 2 => .struct ⟨[⟨1, "n", .option u8⟩], .plain, fun _ => true⟩
    | 3 => .struct ⟨[], .delegate "d" (.named 0), fun _ => true⟩
    | 4 => .enum [(7, ⟨[⟨1, "n", u8⟩], .unknown "rest" false, fun _ => true⟩)] none
    | 5 => .enum [] (some ⟨[⟨1, "n", .option u8⟩], .plain, fun _ => true⟩)
    | _ => .struct ⟨[], .plain, fun _ => true⟩
  size := 10
  bound := by
    intro i t ht
    match i with
    | 0 | 1 | 2 | 3 | 4 | 5 => revert t; decide
    | _ + 6 => cases ht

theorem exCollect_ok : exCollect.Ok := by
  intro i
  match i with
  | 0 => show FieldsOk _; decide
  | 1 => show FieldsOk _; decide
  | 2 => show FieldsOk _; decide
  | 3 => show FieldsOk _; decide
  | 4 =>
    refine ⟨?_, fun b h => by cases h⟩
    intro x hx
    cases List.mem_singleton.1 hx; show FieldsOk _; decide
  | 5 =>
    refine ⟨(fun x hx => by cases hx), ?_⟩
    intro b h
    cases h; show FieldsOk _; decide
  | _ + 6 => show FieldsOk _; decide

theorem exCollect_wf : exCollect.wf := by
  intro i
  match i with
  | 0 => exact ⟨by decide, fun name t h => by cases h⟩
  | 1 => exact ⟨by decide, fun name t h => by cases h⟩
  | 2 => exact ⟨by decide, fun name t h => by cases h⟩
  | 3 => exact ⟨by decide, fun name t h => by cases h; exact ⟨rfl, by decide⟩⟩
  | 4 =>
    refine ⟨?_, fun b h => by cases h⟩
    intro x hx
    cases List.mem_singleton.1 hx; exact ⟨by decide, fun name t h => by cases h⟩
  | 5 =>
    refine ⟨(fun x hx => by cases hx), ?_⟩
    intro b h
    cases h; exact ⟨by decide, fun name t h => by cases h⟩
  | _ + 6 => exact ⟨by decide, fun name t h => by cases h⟩

/-- A value of the first version with an unknown field. -/
theorem exCollect_accepts : Accepts exCollect (.named 0) .default [65, 200, 1, 67, 7, 66, 1, 0] (.seq [.num 200, .seq [.seq [.num 3, .variant 0 [.num 7]], .seq [.num 2, .variant 0 [.num 1]]]]) ⟨2, 0⟩ :=
  fun _ hs hroom => (reads_iff exCompat_unknown hs hroom _ _).2 ⟨rfl, by decide⟩

/-- The second version keeps it, … -/
example : ∃ c', ∀ new, NewCfg false .default new → c'.fits new →
    Accepts exCollect (.named 1) new [65, 200, 1, 67, 7, 66, 1, 0] (.seq [.seq [.num 200], .seq [.seq [.num 3, .variant 0 [.num 7]], .seq [.num 2, .variant 0 [.num 1]]]]) c' :=
  c41_read exCollect exCollect_ok exCollect_wf (.named 0) (.named 1) rfl rfl false false _ _
    (.bodyStruct rfl rfl (.partsUnknown (vs := [_]) (vs' := [_]) rfl rfl rfl (fun _ => Iff.rfl)
      (.fieldsCons (j := 0) rfl rfl rfl (.fieldWrap rfl (.vec rfl) (.elemInt rfl (by decide) (by decide))) .fieldsNil)))
    .default (by decide) _ _ exCompat_unknown (by decide) _ exCollect_accepts

/-- … and the third one drops it. -/
example : ∃ c', ∀ new, NewCfg true .default new → c'.fits new → Accepts exCollect (.named 2) new [65, 200, 1, 67, 7, 66, 1, 0] (.seq [.seq [.num 200]]) c' :=
  c41_read exCollect exCollect_ok exCollect_wf (.named 0) (.named 2) rfl rfl true false _ _
    (.bodyStruct rfl rfl (.partsForget (vs := [_]) rfl rfl rfl rfl (by decide)
      (.fieldsCons (j := 0) rfl rfl rfl (.fieldWrap rfl (.option (by decide)) .elemSame) .fieldsNil)))
    .default (by decide) _ _ exCompat_unknown (by decide) _ exCollect_accepts

/-- What a struct delegating to the first version writes reads as the second version, and is what it was. -/
example : Compat exCollect false false (.body (.named 3) (.named 1)) [.seq [.seq [.num 200, .seq []]]] [.seq [.seq [.num 200], .seq []]] :=
  .bodyUnwrap rfl rfl (.bodyStruct rfl rfl (.partsUnknown (vs := [_]) (vs' := [_]) rfl rfl rfl (fun _ => Iff.rfl)
    (.fieldsCons (j := 0) rfl rfl rfl (.fieldWrap rfl (.vec rfl) (.elemInt rfl (by decide) (by decide))) .fieldsNil)))

/-- A variant read by the catch-all of another enum. -/
example : Compat exCollect true false (.elem (.named 4) (.named 5)) [.variant 7 [.num 200, .seq [.seq [.num 3, .variant 0 [.num 7]]]]] [.variant 7 [.seq [.num 200]]] :=
  .elemVariant (b := ⟨[⟨1, "n", u8⟩], .unknown "rest" false, fun _ => true⟩) (.declared rfl rfl) (.other rfl (by decide)) (.partsForget (vs := [_]) rfl rfl rfl rfl (by decide)
    (.fieldsCons (j := 0) rfl rfl rfl (.fieldWrap rfl (.option (by decide)) .elemSame) .fieldsNil))

end Fourleaf.Props
