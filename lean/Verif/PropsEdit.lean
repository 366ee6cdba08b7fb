import Verif.Tidy
import Verif.PropsOwn

/-! # C65: an old program can edit what a new program has written

A new version of a program has declarations with more fields and variants than an old one. `Sees` says how the old program sees a value of the new
one. It refers to the specification of reading (`Reads`) for what the old program does not know: it holds the fields of a message, which the new program can read. -/

namespace Fourleaf.Props
open Fourleaf Spec

/-- The body that is used for a discriminant: that of the declared variant, otherwise that of the catch-all variant. -/
def chosen (variants : List (UInt64 × Body)) (ca : Option Body) (disc : UInt64) : Option Body :=
  match variants.find? (fun x => x.1 = disc) with
  | some x => some x.2
  | none => ca

/-- What is compared: its old and its new type. -/
inductive Ver where
  | body (t t' : Ty)
  | field (t t' : Ty)
  | elem (t t' : Ty)
  | each (t t' : Ty)
  /-- the old program holds the fields `u` it does not know -/
  | fields (ds ds' : List FieldDecl) (u : Fields)
  | parts (b b' : Body)

def Ver.old : Ver → RItem
  | .body t _ => .body t
  | .field t _ => .field t
  | .elem t _ => .elem t
  | .each t _ => .each t
  | .fields ds _ _ => .fields ds
  | .parts b _ => .parts b
def Ver.new : Ver → RItem
  | .body _ t => .body t
  | .field _ t => .field t
  | .elem _ t => .elem t
  | .each _ t => .each t
  | .fields _ ds _ => .fields ds
  | .parts _ b => .parts b

/-- All fields of the old version exist in the new one. -/
def Extends (ds ds' : List FieldDecl) : Prop := ∀ x ∈ ds, x.tag ∈ ds'.map (·.tag)

/-- `Sees env cfg w d vs vs'`: the old program sees as `vs` what is `vs'` for the new program, which reads with the configuration `cfg`, at depth `d`. -/
inductive Sees (env : Env) (cfg : Config) : Ver → Nat → List V → List V → Prop where
  -- what has not changed
  | bodySame {t d v} : Sees env cfg (.body t t) d [v] [v]
  | fieldSame {t d v} : Sees env cfg (.field t t) d [v] [v]
  | elemSame {t d v} : Sees env cfg (.elem t t) d [v] [v]
  -- types that contain others
  | bodyBoxed {t t' d vs vs'} : Sees env cfg (.body t t') d vs vs' → Sees env cfg (.body (.boxed t) (.boxed t')) d vs vs'
  | fieldBoxed {t t' d vs vs'} : Sees env cfg (.field t t') d vs vs' → Sees env cfg (.field (.boxed t) (.boxed t')) d vs vs'
  | elemBoxed {t t' d vs vs'} : Sees env cfg (.elem t t') d vs vs' → Sees env cfg (.elem (.boxed t) (.boxed t')) d vs vs'
  | fieldOnce {t t' d v v'} : t.once = true → t'.isSingle = true → Sees env cfg (.elem t t') d [v] [v'] → Sees env cfg (.field t t') d [v] [v']
  | fieldHolds {t t' e e' d vs vs'} : Holds t e vs.length → Holds t' e' vs.length → Sees env cfg (.each e e') d vs vs' → Sees env cfg (.field t t') d [.seq vs] [.seq vs']
  /-- a map: the keys have not changed -/
  | fieldMap {k w w' d vs vs'} : (vs'.map V.key).Nodup → Sees env cfg (.each (.tuple [k, w]) (.tuple [k, w'])) d vs vs' → Sees env cfg (.field (.map k w) (.map k w')) d [.seq vs] [.seq vs']
  | eachNil {t t' d} : Sees env cfg (.each t t') d [] []
  | eachCons {t t' d v v' vs vs'} : Sees env cfg (.elem t t') d [v] [v'] → Sees env cfg (.each t t') d vs vs' → Sees env cfg (.each t t') d (v :: vs) (v' :: vs')
  | elemStruct {t t' d v v'} : t.inStruct env = true → t'.inStruct env = true → Sees env cfg (.body t t') d [v] [v'] → Sees env cfg (.elem t t') d [v] [v']
  | bodyWrapped {t t' d v v'} : t.isWrapped env = true → t'.isWrapped env = true → Sees env cfg (.field t t') (d + 1) [v] [v'] → Sees env cfg (.body t t') d [v] [v']
  | bodyTuple {ts ts' d vs vs'} : ts'.length ≤ 16 → Extends (components ts) (components ts') → Sees env cfg (.fields (components ts) (components ts') []) d vs vs' →
      Sees env cfg (.body (.tuple ts) (.tuple ts')) d [.seq vs] [.seq vs']
  -- declared types
  | bodyStruct {i j b b' d vs vs'} : env.decl i = .struct b → env.decl j = .struct b' → Sees env cfg (.parts b b') d vs vs' →
      Sees env cfg (.body (.named i) (.named j)) d [.seq vs] [.seq vs']
  | elemDelegate {i j b b' n n' t t' d v v'} : env.decl i = .struct b → env.decl j = .struct b' → b.tail = .delegate n t → b'.tail = .delegate n' t' → b'.check [v'] = true →
      Sees env cfg (.elem t t') (d + 1) [v] [v'] → Sees env cfg (.elem (.named i) (.named j)) d [.seq [v]] [.seq [v']]
  /-- an enum: for a variant that the old program does not know it uses the catch-all variant -/
  | elemVariant {i j variants ca variants' ca' disc b b' d vs vs'} : env.decl i = .enum variants ca → env.decl j = .enum variants' ca' →
      chosen variants ca disc = some b → chosen variants' ca' disc = some b' → Sees env cfg (.parts b b') d vs vs' →
      Sees env cfg (.elem (.named i) (.named j)) d [.variant disc vs] [.variant disc vs']
  -- fields
  | fieldsNil {ds u d vs} : Sees env cfg (.fields ds [] u) d vs []
  /-- a field of both versions -/
  | fieldsBoth {ds ds' u d vs vs'} {k : Nat} {x x' : FieldDecl} {v v'} : ds[k]? = some x → vs[k]? = some v → x.tag = x'.tag → Sees env cfg (.field x.ty x'.ty) (d + 1) [v] [v'] →
      Sees env cfg (.fields ds ds' u) d vs vs' → Sees env cfg (.fields ds (x' :: ds') u) d vs (v' :: vs')
  /-- a new field: what the old program holds is read as the value -/
  | fieldsNew {ds ds' u d vs vs'} {x' : FieldDecl} {v' c} : x'.tag ∉ ds.map (·.tag) → d < cfg.recursionLimit → Reads env cfg (.field x'.ty) (d + 1) (occ x'.tag u) [v'] c →
      Sees env cfg (.fields ds ds' u) d vs vs' → Sees env cfg (.fields ds (x' :: ds') u) d vs (v' :: vs')
  -- structs and variants
  | partsPlain {b b' d vs vs'} : b.tail = .plain → b'.tail = .plain → b'.check vs' = true → Extends b.fields b'.fields → Sees env cfg (.fields b.fields b'.fields []) d vs vs' →
      Sees env cfg (.parts b b') d vs vs'
  /-- the old version collects the fields `u` -/
  | partsCollect {b b' n zc u d vs vs'} : b.tail = .unknown n zc → b'.tail = .plain → b'.check vs' = true → Extends b.fields b'.fields → cfg.Ignores (b'.fields.map (·.tag)) u →
      Sees env cfg (.fields b.fields b'.fields u) d vs vs' → Sees env cfg (.parts b b') d (vs ++ [.seq (asUnknowns u)]) vs'
  /-- both collect fields: the new one those that it does not know either -/
  | partsUnknown {b b' n zc n' zc' u d vs vs'} : b.tail = .unknown n zc → b'.tail = .unknown n' zc' → b'.check (vs' ++ [.seq (asUnknowns (others b'.fields u))]) = true →
      Extends b.fields b'.fields → d < cfg.recursionLimit → d + fieldsDepth (others b'.fields u) ≤ cfg.recursionLimit → Sees env cfg (.fields b.fields b'.fields u) d vs vs' →
      Sees env cfg (.parts b b') d (vs ++ [.seq (asUnknowns u)]) (vs' ++ [.seq (asUnknowns (others b'.fields u))])
  | partsDelegate {b b' n n' t t' d v v'} : b.tail = .delegate n t → b'.tail = .delegate n' t' → b'.check [v'] = true → d < cfg.recursionLimit → Sees env cfg (.body t t') (d + 1) [v] [v'] →
      Sees env cfg (.parts b b') d [v] [v']
  /-- the old version holds all the fields -/
  | partsCatchAll {b b' n zc u d vs' c} : b.tail = .delegate n (.unknownFields zc) → Reads env cfg (.parts b') d [.struct u] vs' c → Sees env cfg (.parts b b') d [.seq (asUnknowns u)] vs'

/-! ## What the old program writes is read by the new one -/

/-- The fields that the old program does not know are those it holds. -/
def Ver.Holding : Ver → List Val → Prop
  | .fields ds ds' u, vals => ∀ l, vals = [.struct l] → ∀ x' ∈ ds', x'.tag ∉ ds.map (·.tag) → occ x'.tag u = occ x'.tag l
  | _, _ => True

theorem occ_unknowns {fs : List FieldDecl} {tag : Byte} (h : tag ∉ fs.map (·.tag)) (l : Fields) : occ tag (unknowns fs l) = occ tag l := by
  rw [occ_eq, occ_eq, unknowns, List.filter_filter]
  congr 1
  refine List.filter_congr fun x _ => ?_
  by_cases hx : x.1 = tag
  · subst hx
    simp only [decide_true, Bool.true_and, Bool.not_eq_true']
    exact List.any_eq_false.2 fun d hd he => h (List.mem_map.2 ⟨d, hd, by simpa using he⟩)
  · simp [hx]

theorem unknowns_mem {fs : List FieldDecl} {l : Fields} {x : Byte × Val} : x ∈ unknowns fs l ↔ x ∈ l ∧ x.1 ∉ fs.map (·.tag) := by
  unfold unknowns
  rw [List.mem_filter]
  refine and_congr Iff.rfl ?_
  rw [Bool.not_eq_true', List.any_eq_false]
  constructor
  · intro h hm
    obtain ⟨d, hd, he⟩ := List.mem_map.1 hm
    exact h d hd (by simpa using he)
  · intro h d hd he
    exact h (List.mem_map.2 ⟨d, hd, by simpa using he⟩)

/-- What the new version does not know is not known to the old one. -/
theorem unknowns_unknowns {ds ds' : List FieldDecl} (h : Extends ds ds') (l : Fields) : unknowns ds' (unknowns ds l) = unknowns ds' l := by
  rw [unknowns, unknowns, unknowns, List.filter_filter]
  refine List.filter_congr fun x _ => ?_
  cases hx : (!ds'.any fun d => decide (d.tag = x.1))
  · rfl
  · rw [Bool.true_and, Bool.not_eq_true']
    refine List.any_eq_false.2 fun d hd he => ?_
    rw [Bool.not_eq_true'] at hx
    obtain ⟨d', hd', he'⟩ := List.mem_map.1 (h d hd)
    exact List.any_eq_false.1 hx d' hd' (by rw [he']; exact he)

theorem chosen_reads {env : Env} {cfg : Config} {i : Nat} {variants : List (UInt64 × Body)} {ca : Option Body} (hd : env.decl i = .enum variants ca) {disc : UInt64} {b : Body}
    (hb : chosen variants ca disc = some b) {d : Nat} {l : Fields} {vs : List V} {c : Stats} :
    Reads env cfg (.parts b) d [.struct l] vs c → Reads env cfg (.elem (.named i)) d [.enum disc l] [.variant disc vs] c := by
  intro h
  unfold chosen at hb
  split at hb
  · rename_i x hf
    cases hb
    have : x.1 = disc := by simpa using List.find?_some hf
    obtain ⟨y, b⟩ := x
    subst this
    exact .elemVariant hd hf h
  · rename_i hf
    subst hb
    exact .elemCatchAll hd (fun x hx he => by simpa [he] using List.find?_eq_none.1 hf x hx) h

theorem chosen_some {env : Env} {i : Nat} {variants : List (UInt64 × Body)} {ca : Option Body} (_ : env.decl i = .enum variants ca) {disc : UInt64} {b : Body}
    (hf : variants.find? (fun x => x.1 = disc) = some (disc, b)) : chosen variants ca disc = some b := by rw [chosen, hf]
theorem chosen_none {env : Env} {i : Nat} {variants : List (UInt64 × Body)} {ca : Option Body} (_ : env.decl i = .enum variants ca) {disc : UInt64}
    (hn : ∀ x ∈ variants, x.1 ≠ disc) : chosen variants ca disc = ca := by rw [chosen, List.find?_eq_none.2 (fun x hx => by simpa using hn x hx)]

theorem reads_chosen {env : Env} {cfg : Config} {i : Nat} {variants : List (UInt64 × Body)} {ca : Option Body} (hd : env.decl i = .enum variants ca) {d : Nat} {vals : List Val} {vs : List V} {c : Stats}
    (h : Reads env cfg (.elem (.named i)) d vals vs c) : ∃ disc b l ws, chosen variants ca disc = some b ∧ vals = [.enum disc l] ∧ vs = [.variant disc ws] ∧ Reads env cfg (.parts b) d [.struct l] ws c := by
  cases h with
  | elemStruct h => simp [Ty.inStruct, hd] at h
  | elemDelegate hd' => rw [hd] at hd'; cases hd'
  | elemVariant hd' hf h => rw [hd] at hd'; cases hd'; exact ⟨_, _, _, _, by rw [chosen, hf], rfl, rfl, h⟩
  | elemCatchAll hd' hn h =>
    rw [hd] at hd'; cases hd'
    exact ⟨_, _, _, _, by rw [chosen, List.find?_eq_none.2 (fun x hx => by simpa using hn x hx)], rfl, rfl, h⟩

theorem reads_delegate {env : Env} {cfg : Config} {b : Body} {n : String} {t : Ty} (ht : b.tail = .delegate n t) {d : Nat} {vals : List Val} {vs : List V} {c : Stats}
    (h : Reads env cfg (.parts b) d vals vs c) : ∃ v, vs = [v] ∧ d < cfg.recursionLimit ∧ b.check [v] = true ∧ Reads env cfg (.body t) (d + 1) vals [v] c := by
  cases h with
  | partsPlain g => rw [ht] at g; cases g
  | partsDelegate g hc hd h => rw [ht] at g; cases g; exact ⟨_, rfl, hd, hc, h⟩
  | partsUnknown g => rw [ht] at g; cases g

theorem tidy_holds {t e : Ty} {n : Nat} (h : Holds t e n) {env : Env} {cfg : Config} {d : Nat} {vals : List Val} {vs : List V} {c : Stats}
    (hr : Tidy env cfg (.field t) d vals [.seq vs] c) : ∃ c', Tidy env cfg (.each e) d vals vs c' := by
  cases h with
  | option hn =>
    cases hr with
    | fieldSingle hs => simp [Ty.isSingle] at hs
    | fieldOption _ h => exact ⟨_, h⟩
  | vec hu =>
    cases hr with
    | fieldSingle hs => rw [Ty.isByte_eq] at hu; simp [Ty.isSingle, hu] at hs
    | fieldVec _ h => exact ⟨_, h⟩
  | list =>
    cases hr with
    | fieldSingle hs => simp [Ty.isSingle] at hs
    | fieldList h => exact ⟨_, h⟩
  | small hu =>
    cases hr with
    | fieldSingle hs => rw [Ty.isByte_eq] at hu; simp [Ty.isSingle, hu] at hs
    | fieldNoBytes => simp [Ty.isU8] at hu
    | fieldSmall _ _ h => exact ⟨_, h⟩
  | large hu =>
    cases hr with
    | fieldSingle hs => rw [Ty.isByte_eq] at hu; simp [Ty.isSingle, hu] at hs
    | fieldNoBytesL => simp [Ty.isU8] at hu
    | fieldLarge _ _ h => exact ⟨_, h⟩

theorem tidy_once {t : Ty} (h : t.once = true) {env : Env} {cfg : Config} {d : Nat} {vals : List Val} {v : V} {c : Stats}
    (hr : Tidy env cfg (.field t) d vals [v] c) : ∃ val, vals = [val] ∧ Tidy env cfg (.elem t) d [val] [v] c := by
  have hs : t.isSingle = true := by
    unfold Ty.once at h; split at h
    · cases h
    · cases h
    · exact h
  cases hr with
  | fieldSingle _ h => exact ⟨_, rfl, h⟩
  | fieldNoBytes => simp [Ty.once] at h
  | fieldNoBytesL => simp [Ty.once] at h
  | fieldVec hu | fieldSmall hu | fieldLarge hu => rw [Ty.isByte_eq] at hu; simp [Ty.isSingle, hu] at hs
  | _ => simp [Ty.isSingle] at hs

theorem tidy_chosen {env : Env} {cfg : Config} {i : Nat} {variants : List (UInt64 × Body)} {ca : Option Body} (hd : env.decl i = .enum variants ca) {d : Nat} {vals : List Val} {vs : List V} {c : Stats}
    (h : Tidy env cfg (.elem (.named i)) d vals vs c) : ∃ disc b l ws, chosen variants ca disc = some b ∧ vals = [.enum disc l] ∧ vs = [.variant disc ws] ∧ Tidy env cfg (.parts b) d [.struct l] ws c := by
  cases h with
  | elemStruct h => simp [Ty.inStruct, hd] at h
  | elemDelegate hd' => rw [hd] at hd'; cases hd'
  | elemVariant hd' hf h => rw [hd] at hd'; cases hd'; exact ⟨_, _, _, _, by rw [chosen, hf], rfl, rfl, h⟩
  | elemCatchAll hd' hn h =>
    rw [hd] at hd'; cases hd'
    exact ⟨_, _, _, _, by rw [chosen, List.find?_eq_none.2 (fun x hx => by simpa using hn x hx)], rfl, rfl, h⟩

theorem tidy_delegate {env : Env} {cfg : Config} {b : Body} {n : String} {t : Ty} (ht : b.tail = .delegate n t) {d : Nat} {vals : List Val} {vs : List V} {c : Stats}
    (h : Tidy env cfg (.parts b) d vals vs c) : ∃ v, vs = [v] ∧ d < cfg.recursionLimit ∧ b.check [v] = true ∧ Tidy env cfg (.body t) (d + 1) vals [v] c := by
  cases h with
  | partsPlain g => rw [ht] at g; cases g
  | partsDelegate g hc hd h => rw [ht] at g; cases g; exact ⟨_, rfl, hd, hc, h⟩
  | partsUnknown g => rw [ht] at g; cases g

theorem tidy_component {env : Env} {cfg : Config} {it : RItem} {d : Nat} {vals : List Val} {us : List V} {c : Stats} (h : Tidy env cfg it d vals us c) :
    ∀ {fs : List FieldDecl} {l : Fields}, it = .fields fs → vals = [.struct l] → us.length = fs.length ∧ ∀ (j : Nat) (x : FieldDecl), fs[j]? = some x →
      ∃ u c', us[j]? = some u ∧ Tidy env cfg (.field x.ty) (d + 1) (occ x.tag l) [u] c' := by
  induction h <;> intro fs l ht hl <;> cases ht
  · exact ⟨rfl, fun j x h => by simp at h⟩
  · rename_i hf _ _ ih
    cases hl
    obtain ⟨g1, g2⟩ := ih rfl rfl
    refine ⟨by simp [g1], fun j x hx => ?_⟩
    cases j with
    | zero => simp at hx; subst hx; exact ⟨_, _, rfl, hf⟩
    | succ j => simpa using g2 j x (by simpa using hx)

theorem sees_reads {env : Env} {cfg old : Config} (hs : old.ignoreUnknownFields = false) (hle : old.recursionLimit ≤ cfg.recursionLimit) {w : Ver} {d : Nat} {vs vs' : List V}
    (h : Sees env cfg w d vs vs') : ∀ {vals c}, w.Holding vals → Tidy env old w.old d vals vs c → ∃ c', Reads env cfg w.new d vals vs' c' := by
  have hknown : ∀ {tags : List Byte} {l : Fields}, old.Ignores tags l → ∀ x ∈ l, x.1 ∈ tags := by
    rintro tags l (hi | hi)
    · rw [hs] at hi; cases hi
    · exact hi
  have hplain : ∀ {ds ds' : List FieldDecl} {l : Fields}, old.Ignores (ds.map (·.tag)) l → (Ver.fields ds ds' []).Holding [.struct l] := by
    intro ds ds' l hi l' hl x' _ ht
    cases hl
    rw [occ_nil (tag := x'.tag) (l := l) fun x hx he => ht (he ▸ hknown hi x hx)]; rfl
  have hign : ∀ {ds ds' : List FieldDecl} {l : Fields}, old.Ignores (ds.map (·.tag)) l → Extends ds ds' → cfg.Ignores (ds'.map (·.tag)) l := by
    intro ds ds' l hi he
    refine .inr fun x hx => ?_
    obtain ⟨y, hy, hy'⟩ := List.mem_map.1 (hknown hi x hx)
    exact hy' ▸ he y hy
  induction h with
  | bodySame | fieldSame | elemSame => exact fun _ h => ⟨_, reads_lenient hs hle (tidy_reads h)⟩
  | bodyBoxed _ ih =>
    intro vals c _ h
    cases h with
    | bodyBoxed h => exact (ih trivial h).imp fun _ => .bodyBoxed
    | bodyWrapped hw => simp [Ty.isWrapped] at hw
  | fieldBoxed _ ih =>
    intro vals c _ h
    cases h with
    | fieldBoxed h => exact (ih trivial h).imp fun _ => .fieldBoxed
    | fieldSingle h => simp [Ty.isSingle] at h
  | elemBoxed _ ih =>
    intro vals c _ h
    cases h with
    | elemBoxed h => exact (ih trivial h).imp fun _ => .elemBoxed
    | elemStruct h => simp [Ty.inStruct] at h
  | fieldOnce ho hs' _ ih =>
    intro vals c _ h
    obtain ⟨val, rfl, h0⟩ := tidy_once ho h
    exact (ih trivial h0).imp fun _ => .fieldSingle hs'
  | fieldHolds h1 h2 _ ih =>
    intro vals c _ h
    obtain ⟨c1, h⟩ := tidy_holds h1 h
    obtain ⟨c', h'⟩ := ih trivial h
    obtain ⟨x, hx⟩ := holds_mk h2
    exact ⟨_, hx (each_length (tidy_reads h) rfl) h'⟩
  | fieldMap hn _ ih =>
    intro vals c _ h
    cases h with
    | fieldSingle hs => simp [Ty.isSingle] at hs
    | fieldMap _ h =>
      obtain ⟨c', h'⟩ := ih trivial h
      have := Reads.fieldMap h'
      rw [← entriesOf_fold, toMap_nodup _ _ (by simpa using hn), List.nil_append] at this
      exact ⟨_, this⟩
  | eachNil =>
    intro vals c _ h
    cases h
    exact ⟨_, .eachNil⟩
  | eachCons _ _ ih1 ih2 =>
    intro vals c _ h
    cases h with
    | eachCons h1 h2 =>
      obtain ⟨c1, h1⟩ := ih1 trivial h1
      obtain ⟨c2, h2⟩ := ih2 trivial h2
      exact ⟨c1 + c2, .eachCons h1 h2⟩
  | elemStruct h1 h2 _ ih =>
    intro vals c _ h
    cases h with
    | elemStruct _ h => exact (ih trivial h).imp fun _ => .elemStruct h2
    | elemDelegate hd ht => simp [Ty.inStruct, hd, ht] at h1
    | elemVariant hd | elemCatchAll hd => simp [Ty.inStruct, hd] at h1
    | _ => simp [Ty.inStruct, Ty.isU8] at h1
  | bodyWrapped hw hw' _ ih =>
    intro vals c _ h
    cases h with
    | bodyWrapped _ gi gd h =>
      obtain ⟨c', h'⟩ := ih trivial h
      exact ⟨c', .bodyWrapped hw' (.inr (hknown gi)) (Nat.lt_of_lt_of_le gd hle) h'⟩
    | bodyStruct hd => simp [Ty.isWrapped, hd] at hw
    | _ => simp [Ty.isWrapped] at hw
  | bodyTuple hl he _ ih =>
    intro vals c _ h
    cases h with
    | bodyTuple _ gi h => exact (ih (hplain gi) h).imp fun _ => .bodyTuple hl (hign gi he)
    | bodyWrapped hw => simp [Ty.isWrapped] at hw
  | bodyStruct hd hd' _ ih =>
    intro vals c _ h
    cases h with
    | bodyStruct gd h => rw [hd] at gd; cases gd; exact (ih trivial h).imp fun _ => .bodyStruct hd'
    | bodyWrapped hw => simp [Ty.isWrapped, hd] at hw
  | elemDelegate hd hd' ht ht' hc _ ih =>
    intro vals c _ h
    cases h with
    | elemStruct h => simp [Ty.inStruct, hd, ht] at h
    | elemDelegate gd gt gl _ h =>
      rw [hd] at gd; cases gd
      rw [ht] at gt; cases gt
      exact (ih trivial h).imp fun _ => .elemDelegate hd' ht' (Nat.lt_of_lt_of_le gl hle) hc
  | elemVariant hd hd' hb hb' _ ih =>
    intro vals c _ h
    obtain ⟨disc, b, l, ws, g1, rfl, g2, h⟩ := tidy_chosen hd h
    cases g2
    rw [hb] at g1; cases g1
    exact (ih trivial h).imp fun _ => chosen_reads hd' hb'
  | fieldsNil =>
    intro vals c _ h
    obtain ⟨l, rfl⟩ := fields_struct (tidy_reads h)
    exact ⟨_, .fieldsNil⟩
  | fieldsBoth hx hv ht _ _ ih1 ih2 =>
    intro vals c hk h
    obtain ⟨l, rfl⟩ := fields_struct (tidy_reads h)
    obtain ⟨c2, h2⟩ := ih2 (fun l hl y hy => hk l hl y (List.mem_cons_of_mem _ hy)) h
    obtain ⟨u, c0, hu, h0⟩ := (tidy_component h rfl rfl).2 _ _ hx
    rw [hv] at hu; cases hu
    obtain ⟨c1, h1⟩ := ih1 trivial h0
    have hd := fields_depth (tidy_reads h) (by intro he; rw [he] at hx; simp at hx)
    exact ⟨c1 + c2, .fieldsCons (Nat.lt_of_lt_of_le hd hle) (ht ▸ h1) h2⟩
  | fieldsNew hn hd hr _ ih =>
    intro vals c hk h
    obtain ⟨l, rfl⟩ := fields_struct (tidy_reads h)
    obtain ⟨c2, h2⟩ := ih (fun l hl y hy => hk l hl y (List.mem_cons_of_mem _ hy)) h
    exact ⟨_ + c2, .fieldsCons hd (hk l rfl _ (List.mem_cons_self ..) hn ▸ hr) h2⟩
  | partsPlain ht ht' hc he _ ih =>
    intro vals c _ h
    cases h with
    | partsPlain _ _ gi h => exact (ih (hplain gi) h).imp fun _ => .partsPlain ht' hc (hign gi he)
    | partsDelegate g => rw [ht] at g; cases g
    | partsUnknown g => rw [ht] at g; cases g
  | @partsCollect b b' n zc u d vs vs' ht ht' hc he hi _ ih =>
    intro vals c _ h
    generalize hws : vs ++ [V.seq (asUnknowns u)] = ws at h
    cases h with
    | partsPlain g => rw [ht] at g; cases g
    | partsDelegate g => rw [ht] at g; cases g
    | partsUnknown g _ gd h hu =>
      rw [ht] at g; cases g
      obtain ⟨l', g1, g2, -⟩ := (unknown_reads (tidy_reads hu)).1 _ rfl
      cases g1; subst g2
      obtain ⟨rfl, ge⟩ := List.append_inj' hws rfl
      simp only [List.cons.injEq, V.seq.injEq, and_true] at ge
      cases asUnknowns_inj _ _ ge
      obtain ⟨c', h'⟩ := ih (fun l hl x' _ ht => by cases hl; exact occ_unknowns ht _) h
      refine ⟨c', .partsPlain ht' hc ?_ h'⟩
      rcases hi with hi | hi
      · exact .inl hi
      · refine .inr fun x hx => ?_
        by_cases hm : x.1 ∈ b.fields.map (·.tag)
        · obtain ⟨y, hy, hy'⟩ := List.mem_map.1 hm
          exact hy' ▸ he y hy
        · exact hi x (unknowns_mem.2 ⟨hx, hm⟩)
  | @partsUnknown b b' n zc n' zc' u d vs vs' ht ht' hc he hd hdep _ ih =>
    intro vals c _ h
    generalize hws : vs ++ [V.seq (asUnknowns u)] = ws at h
    cases h with
    | partsPlain g => rw [ht] at g; cases g
    | partsDelegate g => rw [ht] at g; cases g
    | partsUnknown g _ gd h hu =>
      rw [ht] at g; cases g
      obtain ⟨l', g1, g2, -⟩ := (unknown_reads (tidy_reads hu)).1 _ rfl
      cases g1; subst g2
      obtain ⟨rfl, ge⟩ := List.append_inj' hws rfl
      simp only [List.cons.injEq, V.seq.injEq, and_true] at ge
      cases asUnknowns_inj _ _ ge
      obtain ⟨c', h'⟩ := ih (fun l hl x' _ ht => by cases hl; exact occ_unknowns ht _) h
      rw [← others_eq, unknowns_unknowns he] at hc hdep ⊢
      exact ⟨_, .partsUnknown ht' hc hd h' (asUnknowns_reads env cfg zc' _ d hdep)⟩
  | partsDelegate ht ht' hc hd _ ih =>
    intro vals c _ h
    obtain ⟨_, g, -, -, h⟩ := tidy_delegate ht h
    cases g
    exact (ih trivial h).imp fun _ => .partsDelegate ht' hc hd
  | partsCatchAll ht hr =>
    intro vals c _ h
    obtain ⟨_, g, -, -, h⟩ := tidy_delegate ht h
    cases g
    obtain ⟨l', rfl, g2, -⟩ := (unknown_reads (tidy_reads h)).2.2 _ rfl
    simp only [List.cons.injEq, V.seq.injEq, and_true] at g2
    cases asUnknowns_inj _ _ g2
    exact ⟨_, hr⟩

/-- **C65** (a) Whatever value the old program has, and writes: if it sees a value of the new program as that, then the new program reads that value (if the limits allow for it). -/
theorem c65_write_back (env : Env) (henv : env.Ok) (hwf : env.wf) (t t' : Ty) (ht : t.wf false = true) (ht' : t'.wf false = true) (v v' : V) (cfg : Config)
    (hsees : Sees env cfg (.body t t') 0 [v] [v']) (k : Need) (hk : HasType env t v k) (hdepth : k.depth ≤ cfg.recursionLimit) (hstrict : k.lenient = false) :
    ∃ m c, Produces env t v m ∧ ∀ blob coll, c.fits { cfg with maxBlob := blob, maxCollect := coll } → Accepts env t' { cfg with maxBlob := blob, maxCollect := coll } m v' c := by
  obtain ⟨l, m, h1, h2, h3⟩ := produces henv hwf ht hk
  have hr := h3 ⟨k.depth, false, k.used.blob, k.used.collected⟩ ⟨Nat.le_refl _, Nat.le_refl _, Nat.le_refl _, fun h => by rw [hstrict] at h; cases h⟩
  obtain ⟨c', h'⟩ := sees_reads (old := ⟨k.depth, false, k.used.blob, k.used.collected⟩) rfl hdepth hsees trivial (((reads_tidy hr).2 hk).2 (Nat.le_refl _))
  exact ⟨m, c', h1, fun blob coll hf s hso hroom => (reads_iff h2 hso hroom _ _).2 ⟨(deTree_iff henv hwf ht').2 (reads_cfg (a := cfg) (b := { cfg with maxBlob := blob, maxCollect := coll }) rfl rfl h'), hf⟩⟩

/-! ## What both programs read -/

/-- Which types are old versions of others, given which declarations are. -/
inductive OlderTy (rel : Nat → Nat → Prop) : Ty → Ty → Prop where
  | same {t} : OlderTy rel t t
  | named {i j} : rel i j → OlderTy rel (.named i) (.named j)
  | boxed {t t'} : OlderTy rel t t' → OlderTy rel (.boxed t) (.boxed t')
  | option {t t'} : OlderTy rel t t' → OlderTy rel (.option t) (.option t')
  | vec {t t'} : OlderTy rel t t' → OlderTy rel (.vec t) (.vec t')
  | list {t t'} : OlderTy rel t t' → OlderTy rel (.coll .list t) (.coll .list t')
  /-- the keys of a map must not change -/
  | map {k t t'} : OlderTy rel t t' → OlderTy rel (.map k t) (.map k t')
  | small {n t t'} : OlderTy rel t t' → OlderTy rel (.small n t) (.small n t')
  | large {n t t'} : OlderTy rel t t' → OlderTy rel (.large n t) (.large n t')
  | tuple {ts ts' : List Ty} : ts.length = ts'.length → (∀ (k : Nat) (t t' : Ty), ts[k]? = some t → ts'[k]? = some t' → OlderTy rel t t') → OlderTy rel (.tuple ts) (.tuple ts')

/-- The fields that exist in both versions have such types. -/
def OlderFields (rel : Nat → Nat → Prop) (ds ds' : List FieldDecl) : Prop :=
  Extends ds ds' ∧ ∀ x ∈ ds, ∀ x' ∈ ds', x.tag = x'.tag → OlderTy rel x.ty x'.ty

/-- Old and new versions of structs and variants. -/
inductive OlderBody (rel : Nat → Nat → Prop) : Body → Body → Prop where
  /-- fields can be added if the old version collects the fields it does not know -/
  | collect {b b' n zc} : b.tail = .unknown n zc → b'.tail.isDelegate = false → OlderFields rel b.fields b'.fields → OlderBody rel b b'
  /-- otherwise only the types of the fields may differ -/
  | plain {b b'} : b.tail = .plain → b'.tail = .plain → OlderFields rel b.fields b'.fields → Extends b'.fields b.fields → OlderBody rel b b'
  | delegate {b b' n t n' t'} : b.tail = .delegate n t → b'.tail = .delegate n' t' → OlderTy rel t t' → OlderBody rel b b'

/-- The body of a catch-all variant, which holds all the fields. -/
def CatchAll (b : Body) : Prop := ∃ n zc, b.tail = .delegate n (.unknownFields zc)

/-- Old and new versions of declarations. An old enum may have a catch-all variant for what it does not know. -/
inductive OlderDecl (rel : Nat → Nat → Prop) : Decl → Decl → Prop where
  | struct {b b'} : OlderBody rel b b' → OlderDecl rel (.struct b) (.struct b')
  | enum {variants ca variants' ca'} : (∀ disc b b', chosen variants ca disc = some b → chosen variants' ca' disc = some b' → OlderBody rel b b' ∨ CatchAll b) →
      OlderDecl rel (.enum variants ca) (.enum variants' ca')

/-- `rel i j`: the declaration `i` is the old version of the declaration `j`. -/
def Versions (env : Env) (rel : Nat → Nat → Prop) : Prop := ∀ i j, rel i j → OlderDecl rel (env.decl i) (env.decl j)

/-- Which things are old versions of others. -/
def Ver.Older (rel : Nat → Nat → Prop) : Ver → Prop
  | .body t t' | .field t t' | .elem t t' | .each t t' => OlderTy rel t t'
  | .fields ds ds' _ => ∀ x ∈ ds, ∀ x' ∈ ds', x.tag = x'.tag → OlderTy rel x.ty x'.ty
  | .parts b b' => OlderBody rel b b' ∨ CatchAll b

/-- What items look like in a message. -/
def _root_.Fourleaf.RItem.Shape : RItem → List Val → List V → Prop
  | .body _, vals, vs => (∃ l, vals = [.struct l]) ∧ ∃ v, vs = [v]
  | .elem _, vals, vs => (∃ x, vals = [x]) ∧ ∃ v, vs = [v]
  | .field _, _, vs => ∃ v, vs = [v]
  | .parts _, vals, _ => ∃ l, vals = [.struct l]
  | .unknown _, vals, _ => ∃ l, vals = [.struct l]
  | _, _, _ => True

theorem reads_shape {env : Env} {cfg : Config} {it : RItem} {d : Nat} {vals : List Val} {vs : List V} {c : Stats} (h : Reads env cfg it d vals vs c) : it.Shape vals vs := by
  induction h with
  | bodyBoxed _ ih | fieldBoxed _ ih | elemBoxed _ ih => exact ih
  | bodyUnknown _ ih | bodyStruct _ _ ih => exact ⟨ih, _, rfl⟩
  | partsDelegate _ _ _ _ ih => exact ih.1
  | bodyTuple | bodyWrapped => exact ⟨⟨_, rfl⟩, _, rfl⟩
  | elemPrim | elemVec | elemSmall | elemLarge | elemStruct | elemDelegate | elemVariant | elemCatchAll | unkInt | unkBlob | unkStruct | unkEnum => exact ⟨⟨_, rfl⟩, _, rfl⟩
  | fieldSingle | fieldNoBytes | fieldNoBytesL | fieldVec | fieldList | fieldSet | fieldMap | fieldOption | fieldSmall | fieldLarge => exact ⟨_, rfl⟩
  | partsPlain | partsUnknown | unknownNil | unknownCons => exact ⟨_, rfl⟩
  | _ => trivial

section
variable {env : Env} (henv : env.Ok) (hwf : env.wf) {old cfg : Config}
include henv hwf

/-- What is read does not depend on the configuration. -/
theorem same_body {t : Ty} {d : Nat} {vals : List Val} {vs vs' : List V} {c c' : Stats} (h' : Reads env cfg (.body t) d vals vs' c') (h : Reads env old (.body t) d vals vs c) :
    Sees env cfg (.body t t) d vs vs' := by
  obtain ⟨⟨l, rfl⟩, v', rfl⟩ := reads_shape h'
  obtain ⟨-, v, rfl⟩ := reads_shape h
  have g := reads_complete henv hwf (reads_weaken (b := ⟨max old.recursionLimit cfg.recursionLimit, true, 0, 0⟩) (fun _ => rfl) (Nat.le_max_left ..) h)
  have g' := reads_complete henv hwf (reads_weaken (b := ⟨max old.recursionLimit cfg.recursionLimit, true, 0, 0⟩) (fun _ => rfl) (Nat.le_max_right ..) h')
  obtain ⟨N, e⟩ := (g _ _ rfl rfl).and (g' _ _ rfl rfl)
  obtain ⟨e1, e2⟩ := e N (Nat.le_refl _)
  rw [e1] at e2; cases e2; exact .bodySame

theorem same_field {t : Ty} {d : Nat} {vals : List Val} {vs vs' : List V} {c c' : Stats} (h' : Reads env cfg (.field t) d vals vs' c') (h : Reads env old (.field t) d vals vs c) :
    Sees env cfg (.field t t) d vs vs' := by
  obtain ⟨v', rfl⟩ := reads_shape h'
  obtain ⟨v, rfl⟩ := reads_shape h
  have g := reads_complete henv hwf (reads_weaken (b := ⟨max old.recursionLimit cfg.recursionLimit, true, 0, 0⟩) (fun _ => rfl) (Nat.le_max_left ..) h)
  have g' := reads_complete henv hwf (reads_weaken (b := ⟨max old.recursionLimit cfg.recursionLimit, true, 0, 0⟩) (fun _ => rfl) (Nat.le_max_right ..) h')
  obtain ⟨N, e⟩ := (g _ rfl).and (g' _ rfl)
  obtain ⟨e1, e2⟩ := e N (Nat.le_refl _)
  have := (e1 0).symm.trans (e2 0); cases this; exact .fieldSame

theorem field_unique {t : Ty} {d : Nat} {vals : List Val} {vs vs' : List V} {c c' : Stats} (h' : Reads env cfg (.field t) d vals vs' c') (h : Reads env old (.field t) d vals vs c) : vs = vs' := by
  obtain ⟨v', rfl⟩ := reads_shape h'
  obtain ⟨v, rfl⟩ := reads_shape h
  have g := reads_complete henv hwf (reads_weaken (b := ⟨max old.recursionLimit cfg.recursionLimit, true, 0, 0⟩) (fun _ => rfl) (Nat.le_max_left ..) h)
  have g' := reads_complete henv hwf (reads_weaken (b := ⟨max old.recursionLimit cfg.recursionLimit, true, 0, 0⟩) (fun _ => rfl) (Nat.le_max_right ..) h')
  obtain ⟨N, e⟩ := (g _ rfl).and (g' _ rfl)
  obtain ⟨e1, e2⟩ := e N (Nat.le_refl _)
  have := (e1 0).symm.trans (e2 0); cases this; rfl

theorem pair_key {cfg : Config} {k w : Ty} {d : Nat} {vals : List Val} {v : V} {c : Stats} (h : Reads env cfg (.elem (.tuple [k, w])) d vals [v] c) :
    ∃ l c', vals = [.struct l] ∧ Reads env cfg (.field k) (d + 1) (occ 1 l) [v.key] c' := by
  cases h with
  | elemStruct _ h =>
    cases h with
    | bodyTuple _ _ h =>
      cases h with
      | fieldsCons _ h1 _ => exact ⟨_, _, rfl, h1⟩
    | bodyWrapped hw => simp [Ty.isWrapped] at hw

theorem each_keys {k w w' : Ty} : ∀ {us us' : List V} {d : Nat} {vals : List Val} {c c' : Stats}, Reads env cfg (.each (.tuple [k, w'])) d vals us' c' → Reads env old (.each (.tuple [k, w])) d vals us c →
    us.map V.key = us'.map V.key
  | us, us', d, vals, c, c', h', h => by
    cases h' with
    | eachNil => cases h; rfl
    | eachCons a' b' =>
      cases h with
      | eachCons a b =>
        obtain ⟨l, c1, e1, k1⟩ := pair_key henv hwf a'
        obtain ⟨l', c2, e2, k2⟩ := pair_key henv hwf a
        cases e1; cases e2
        rw [List.map_cons, List.map_cons, each_keys b' b]
        have := field_unique henv hwf k1 k2
        simp only [List.cons.injEq, and_true] at this
        rw [this]

theorem same_elem {t : Ty} {d : Nat} {vals : List Val} {vs vs' : List V} {c c' : Stats} (h' : Reads env cfg (.elem t) d vals vs' c') (h : Reads env old (.elem t) d vals vs c) :
    Sees env cfg (.elem t t) d vs vs' := by
  obtain ⟨⟨l, rfl⟩, v', rfl⟩ := reads_shape h'
  obtain ⟨-, v, rfl⟩ := reads_shape h
  have g := reads_complete henv hwf (reads_weaken (b := ⟨max old.recursionLimit cfg.recursionLimit, true, 0, 0⟩) (fun _ => rfl) (Nat.le_max_left ..) h)
  have g' := reads_complete henv hwf (reads_weaken (b := ⟨max old.recursionLimit cfg.recursionLimit, true, 0, 0⟩) (fun _ => rfl) (Nat.le_max_right ..) h')
  obtain ⟨N, e⟩ := (g _ _ rfl rfl).and (g' _ _ rfl rfl)
  obtain ⟨e1, e2⟩ := e N (Nat.le_refl _)
  have := (e1 0).symm.trans (e2 0); cases this; exact .elemSame

end

theorem sees_snoc {env : Env} {cfg : Config} {t t' : Ty} {d : Nat} {v v' : V} (hv : Sees env cfg (.elem t t') d [v] [v']) : ∀ {r r' : List V}, Sees env cfg (.each t t') d r r' →
    Sees env cfg (.each t t') d (r ++ [v]) (r' ++ [v'])
  | [], _, h => by cases h; exact .eachCons hv .eachNil
  | _ :: r, _, h => by
    cases h with
    | eachCons a b => exact .eachCons a (sees_snoc hv (r := r) b)

theorem sees_replace {env : Env} {cfg : Config} {t t' : Ty} {d : Nat} {v v' : V} (hv : Sees env cfg (.elem t t') d [v] [v']) (hk : v.key = v'.key) : ∀ {r r' : List V},
    Sees env cfg (.each t t') d r r' → r.map V.key = r'.map V.key → Sees env cfg (.each t t') d (r.map fun x => if x.key = v.key then v else x) (r'.map fun x => if x.key = v'.key then v' else x)
  | [], _, h, _ => by cases h; exact .eachNil
  | _ :: r, _, h, he => by
    cases h with
    | eachCons a b =>
      simp only [List.map_cons, List.cons.injEq] at he
      rw [List.map_cons, List.map_cons, he.1, hk]
      refine .eachCons ?_ (hk ▸ sees_replace hv hk (r := r) b he.2)
      split
      · exact hv
      · exact a

/-- Inserting entries one by one. -/
theorem sees_fold {env : Env} {cfg : Config} {t t' : Ty} {d : Nat} : ∀ {us us' r r' : List V}, Sees env cfg (.each t t') d us us' → us.map V.key = us'.map V.key →
    Sees env cfg (.each t t') d r r' → r.map V.key = r'.map V.key →
    Sees env cfg (.each t t') d (us.foldl (fun r v => mapInsert v r) r) (us'.foldl (fun r v => mapInsert v r) r')
  | [], _, _, _, h, _, hr, _ => by cases h; exact hr
  | v :: us, _, r, r', h, he, hr, hre => by
    cases h with
    | @eachCons _ _ _ _ v' _ us' a b =>
      simp only [List.map_cons, List.cons.injEq] at he
      rw [List.foldl_cons, List.foldl_cons]
      refine sees_fold (us := us) b he.2 ?_ (by rw [keys_mapInsert, keys_mapInsert, hre, he.1])
      have hany : r.any (fun x => x.key == v.key) = r'.any (fun x => x.key == v'.key) := by
        have := congrArg (fun l : List V => l.any (· == v.key)) hre
        simpa [List.any_map, Function.comp_def, he.1] using this
      unfold mapInsert
      rw [hany]
      split
      · exact sees_replace a he.1 hr hre
      · exact sees_snoc a hr

theorem older_pair {rel : Nat → Nat → Prop} {k t t' : Ty} (h : OlderTy rel t t') : OlderTy rel (.tuple [k, t]) (.tuple [k, t']) := by
  refine .tuple rfl fun i a b ha hb => ?_
  match i with
  | 0 => simp at ha hb; subst ha; subst hb; exact .same
  | 1 => simp at ha hb; subst ha; subst hb; exact h
  | i + 2 => simp at ha

theorem older_u8 {rel : Nat → Nat → Prop} {t t' : Ty} (h : OlderTy rel t t') : t.isU8 = t'.isU8 := by cases h <;> rfl

theorem older_eq_u8 {rel : Nat → Nat → Prop} {t t' : Ty} (h : OlderTy rel t t') (hu : t'.isU8 = true) : t = t' := by
  cases h with
  | same => rfl
  | _ => cases hu

theorem older_wrapped {env : Env} {rel : Nat → Nat → Prop} (hver : Versions env rel) {t t' : Ty} (h : OlderTy rel t t') : t.isWrapped env = t'.isWrapped env := by
  cases h with
  | named hr =>
    have := hver _ _ hr
    simp only [Ty.isWrapped]
    revert this
    generalize env.decl _ = x
    generalize env.decl _ = y
    intro h
    cases h <;> rfl
  | _ => rfl

theorem older_inStruct {env : Env} {rel : Nat → Nat → Prop} (hver : Versions env rel) {t t' : Ty} (h : OlderTy rel t t') : t.inStruct env = t'.inStruct env := by
  cases h with
  | named hr =>
    have := hver _ _ hr
    simp only [Ty.inStruct, Ty.isByte_eq]
    revert this
    generalize env.decl _ = x
    generalize env.decl _ = y
    intro h
    cases h with
    | enum => rfl
    | struct h =>
      cases h with
      | collect h1 h2 =>
        simp only [h1]
        split
        · rename_i h; rw [h] at h2; cases h2
        · rfl
      | plain h1 h2 => simp only [h1, h2]
      | delegate h1 h2 => simp only [h1, h2]
  | vec h | small h | large h => simp only [Ty.inStruct, older_u8 h, Ty.isByte_eq]
  | _ => rfl

theorem tupleFields_older {rel : Nat → Nat → Prop} {ts ts' : List Ty} (hl : ts.length = ts'.length) (hl' : ts'.length ≤ 16)
    (h : ∀ (k : Nat) (t t' : Ty), ts[k]? = some t → ts'[k]? = some t' → OlderTy rel t t') : OlderFields rel (tupleFields ts) (tupleFields ts') ∧ Extends (tupleFields ts') (tupleFields ts) := by
  have key : ∀ {ts ts' : List Ty}, ts.length = ts'.length → Extends (tupleFields ts) (tupleFields ts') := by
    intro ts ts' hl x hx
    simp only [tupleFields, List.mem_mapIdx] at hx
    obtain ⟨k, hk, rfl⟩ := hx
    refine List.mem_map.2 ⟨_, List.mem_mapIdx.2 ⟨k, hl ▸ hk, rfl⟩, rfl⟩
  refine ⟨⟨key hl, fun x hx x' hx' he => ?_⟩, key hl.symm⟩
  simp only [tupleFields, List.mem_mapIdx] at hx hx'
  obtain ⟨k, hk, rfl⟩ := hx
  obtain ⟨k', hk', rfl⟩ := hx'
  have hkk : k = k' := by
    have := congrArg UInt8.toNat he
    simp only [UInt8.toNat_ofNat'] at this
    omega
  subst hkk
  exact h k _ _ (List.getElem?_eq_getElem hk) (List.getElem?_eq_getElem hk')

theorem holding_plain {ds ds' : List FieldDecl} {l : Fields} (h : Extends ds' ds) : (Ver.fields ds ds' []).Holding [.struct l] :=
  fun _ _ x' hx' hn => absurd (h x' hx') hn
theorem holding_unknowns {ds ds' : List FieldDecl} {l : Fields} : (Ver.fields ds ds' (unknowns ds l)).Holding [.struct l] :=
  fun _ hl _ _ hn => by cases hl; exact occ_unknowns hn _

theorem reads_sees {env : Env} (henv : env.Ok) (hwf : env.wf) {rel : Nat → Nat → Prop} (hver : Versions env rel) {old cfg : Config} {it : RItem} {d : Nat} {vals : List Val} {vs' : List V} {c' : Stats}
    (h : Reads env cfg it d vals vs' c') :
    ∀ (w : Ver), w.new = it → w.Older rel → w.Holding vals → ∀ {vs c}, Reads env old w.old d vals vs c → Sees env cfg w d vs vs' := by
  induction h with
  | bodyBoxed h ih =>
    intro w hw ho _ vs c hr
    cases w <;> cases hw
    cases ho with
    | same => exact same_body henv hwf (.bodyBoxed h) hr
    | boxed ho =>
      cases hr with
      | bodyBoxed hr => exact .bodyBoxed (ih (.body _ _) rfl ho trivial hr)
      | bodyWrapped hw => simp [Ty.isWrapped] at hw
  | bodyTuple hl hi h ih =>
    intro w hw ho _ vs c hr
    cases w <;> cases hw
    cases ho with
    | same => exact same_body henv hwf (.bodyTuple hl hi h) hr
    | tuple hl' ho =>
      obtain ⟨h1, h2⟩ := tupleFields_older hl' hl ho
      cases hr with
      | bodyTuple _ gi hr => exact .bodyTuple hl h1.1 (ih (.fields _ _ []) rfl h1.2 (holding_plain h2) hr)
      | bodyWrapped hw => simp [Ty.isWrapped] at hw
  | bodyUnknown h ih =>
    intro w hw ho _ vs c hr
    cases w <;> cases hw
    cases ho
    exact same_body henv hwf (.bodyUnknown h) hr
  | bodyStruct hd h ih =>
    intro w hw ho _ vs c hr
    cases w <;> cases hw
    cases ho with
    | same => exact same_body henv hwf (.bodyStruct hd h) hr
    | named hrel =>
      have hv := hver _ _ hrel
      rw [hd] at hv
      generalize hx : env.decl _ = x at hv
      cases hv with
      | struct ho =>
        cases hr with
        | bodyStruct gd hr => rw [hx] at gd; cases gd; exact .bodyStruct hx hd (ih (.parts _ _) rfl (.inl ho) trivial hr)
        | bodyWrapped hw => simp [Ty.isWrapped, hx] at hw
  | bodyWrapped hw' hi hd h ih =>
    intro w hw ho _ vs c hr
    cases w <;> cases hw
    rename_i t _
    have ho' : OlderTy rel t _ := ho
    have hwo := (older_wrapped hver ho').trans hw'
    cases hr with
    | bodyWrapped _ _ _ hr => exact .bodyWrapped hwo hw' (ih (.field _ _) rfl ho' trivial hr)
    | bodyStruct hd => simp [Ty.isWrapped, hd] at hwo
    | _ => simp [Ty.isWrapped] at hwo
  | fieldBoxed h ih =>
    intro w hw ho _ vs c hr
    cases w <;> cases hw
    cases ho with
    | same => exact same_field henv hwf (.fieldBoxed h) hr
    | boxed ho =>
      cases hr with
      | fieldBoxed hr => exact .fieldBoxed (ih (.field _ _) rfl ho trivial hr)
      | fieldSingle hw => simp [Ty.isSingle] at hw
  | fieldSingle hs h ih =>
    intro w hw ho _ vs c hr
    cases w <;> cases hw
    have ho' := ho
    cases ho with
    | same => exact same_field henv hwf (.fieldSingle hs h) hr
    | named | tuple =>
      obtain ⟨v, rfl⟩ := reads_shape hr
      obtain ⟨val, g, hr⟩ := once_inv (by rfl) hr
      cases g
      exact .fieldOnce rfl hs (ih (.elem _ _) rfl ho' trivial hr)
    | vec ho | small ho | large ho =>
      cases older_eq_u8 ho hs
      exact same_field henv hwf (.fieldSingle hs h) hr
    | _ => simp [Ty.isSingle] at hs
  | fieldNoBytes =>
    intro w hw ho _ vs c hr
    cases w <;> cases hw
    cases ho with
    | same => exact same_field henv hwf .fieldNoBytes hr
    | small ho => cases older_eq_u8 ho rfl; exact same_field henv hwf .fieldNoBytes hr
  | fieldNoBytesL h =>
    intro w hw ho _ vs c hr
    cases w <;> cases hw
    cases ho with
    | same => exact same_field henv hwf (.fieldNoBytesL h) hr
    | large ho => cases older_eq_u8 ho rfl; exact same_field henv hwf (.fieldNoBytesL h) hr
  | fieldVec hu h ih =>
    rw [Ty.isByte_eq] at hu
    intro w hw ho _ vs c hr
    cases w <;> cases hw
    cases ho with
    | same => exact same_field henv hwf (.fieldVec hu h) hr
    | vec ho =>
      have hu' := (older_u8 ho).trans hu
      cases hr with
      | fieldSingle hs => simp [Ty.isSingle, hu'] at hs
      | fieldVec _ hr => exact .fieldHolds (.vec hu') (.vec hu) (ih (.each _ _) rfl ho trivial hr)
  | fieldList h ih =>
    intro w hw ho _ vs c hr
    cases w <;> cases hw
    cases ho with
    | same => exact same_field henv hwf (.fieldList h) hr
    | list ho =>
      cases hr with
      | fieldSingle hs => simp [Ty.isSingle] at hs
      | fieldList hr => exact .fieldHolds .list .list (ih (.each _ _) rfl ho trivial hr)
  | fieldSet h =>
    intro w hw ho _ vs c hr
    cases w <;> cases hw
    cases ho
    exact same_field henv hwf (.fieldSet h) hr
  | fieldMap h ih =>
    intro w hw ho _ vs c hr
    cases w <;> cases hw
    cases ho with
    | same => exact same_field henv hwf (.fieldMap h) hr
    | map ho =>
      cases hr with
      | fieldSingle hs => simp [Ty.isSingle] at hs
      | fieldMap hr =>
        rw [← entriesOf_fold, ← entriesOf_fold]
        exact .fieldMap (map_fold _ [] (by simp)).1 (sees_fold (ih (.each _ _) rfl (older_pair ho) trivial hr) (each_keys henv hwf h hr) .eachNil rfl)
  | fieldOption hn h ih =>
    intro w hw ho _ vs c hr
    cases w <;> cases hw
    cases ho with
    | same => exact same_field henv hwf (.fieldOption hn h) hr
    | option ho =>
      cases hr with
      | fieldSingle hs => simp [Ty.isSingle] at hs
      | fieldOption _ hr =>
        have hl := each_length hr rfl ▸ hn
        exact .fieldHolds (.option hl) (.option hl) (ih (.each _ _) rfl ho trivial hr)
  | fieldSmall hu hn h ih =>
    rw [Ty.isByte_eq] at hu
    intro w hw ho _ vs c hr
    cases w <;> cases hw
    cases ho with
    | same => exact same_field henv hwf (.fieldSmall hu hn h) hr
    | small ho =>
      have hu' := (older_u8 ho).trans hu
      cases hr with
      | fieldSingle hs => simp [Ty.isSingle, hu'] at hs
      | fieldNoBytes => cases hu'
      | fieldSmall _ _ hr =>
        have hl := each_length hr rfl ▸ hn
        subst hl
        exact .fieldHolds (.small hu') (.small hu) (ih (.each _ _) rfl ho trivial hr)
  | fieldLarge hu hn h ih =>
    rw [Ty.isByte_eq] at hu
    intro w hw ho _ vs c hr
    cases w <;> cases hw
    cases ho with
    | same => exact same_field henv hwf (.fieldLarge hu hn h) hr
    | large ho =>
      have hu' := (older_u8 ho).trans hu
      cases hr with
      | fieldSingle hs => simp [Ty.isSingle, hu'] at hs
      | fieldNoBytesL => cases hu'
      | fieldLarge _ _ hr =>
        have hl := each_length hr rfl ▸ hn
        subst hl
        exact .fieldHolds (.large hu') (.large hu) (ih (.each _ _) rfl ho trivial hr)
  | elemPrim h =>
    intro w hw ho _ vs c hr
    cases w <;> cases hw
    cases ho
    exact same_elem henv hwf (.elemPrim h) hr
  | elemBoxed h ih =>
    intro w hw ho _ vs c hr
    cases w <;> cases hw
    cases ho with
    | same => exact same_elem henv hwf (.elemBoxed h) hr
    | boxed ho =>
      cases hr with
      | elemBoxed hr => exact .elemBoxed (ih (.elem _ _) rfl ho trivial hr)
      | elemStruct hw => simp [Ty.inStruct] at hw
  | elemVec =>
    intro w hw ho _ vs c hr
    cases w <;> cases hw
    cases ho with
    | same => exact same_elem henv hwf .elemVec hr
    | vec ho => cases older_eq_u8 ho rfl; exact same_elem henv hwf .elemVec hr
  | elemSmall h =>
    intro w hw ho _ vs c hr
    cases w <;> cases hw
    cases ho with
    | same => exact same_elem henv hwf (.elemSmall h) hr
    | small ho => cases older_eq_u8 ho rfl; exact same_elem henv hwf (.elemSmall h) hr
  | elemLarge h =>
    intro w hw ho _ vs c hr
    cases w <;> cases hw
    cases ho with
    | same => exact same_elem henv hwf (.elemLarge h) hr
    | large ho => cases older_eq_u8 ho rfl; exact same_elem henv hwf (.elemLarge h) hr
  | elemStruct hi h ih =>
    intro w hw ho _ vs c hr
    cases w <;> cases hw
    rename_i t _
    have ho' : OlderTy rel t _ := ho
    have hio := (older_inStruct hver ho').trans hi
    cases hr with
    | elemStruct _ hr => exact .elemStruct hio hi (ih (.body _ _) rfl ho' trivial hr)
    | elemDelegate hd ht => simp [Ty.inStruct, hd, ht] at hio
    | _ => simp [Ty.inStruct] at hio
  | elemDelegate hd ht hl hc h ih =>
    intro w hw ho _ vs c hr
    cases w <;> cases hw
    cases ho with
    | same => exact same_elem henv hwf (.elemDelegate hd ht hl hc h) hr
    | named hrel =>
      have hv := hver _ _ hrel
      rw [hd] at hv
      generalize hx : env.decl _ = x at hv
      cases hv with
      | struct ho =>
        cases ho with
        | collect _ g => rw [ht] at g; cases g
        | plain _ g => rw [ht] at g; cases g
        | delegate g1 g2 ho =>
          rw [ht] at g2; cases g2
          cases hr with
          | elemStruct h' => simp [Ty.inStruct, hx, g1] at h'
          | elemVariant gd | elemCatchAll gd => rw [hx] at gd; cases gd
          | elemDelegate gd gt _ _ hr =>
            rw [hx] at gd; cases gd
            rw [g1] at gt; cases gt
            exact .elemDelegate hx hd g1 ht hc (ih (.elem _ _) rfl ho trivial hr)
  | elemVariant hd hf h ih =>
    intro w hw ho _ vs c hr
    cases w <;> cases hw
    cases ho with
    | same => exact same_elem henv hwf (.elemVariant hd hf h) hr
    | named hrel =>
      have hv := hver _ _ hrel
      rw [hd] at hv
      generalize hx : env.decl _ = x at hv
      cases hv with
      | enum ho =>
        obtain ⟨disc, b, l, ws, g1, g2, rfl, hr⟩ := reads_chosen hx hr
        cases g2
        have hb' := chosen_some hd hf
        exact .elemVariant hx hd g1 hb' (ih (.parts _ _) rfl (ho _ _ _ g1 hb') trivial hr)
  | elemCatchAll hd hn h ih =>
    intro w hw ho _ vs c hr
    cases w <;> cases hw
    cases ho with
    | same => exact same_elem henv hwf (.elemCatchAll hd hn h) hr
    | named hrel =>
      have hv := hver _ _ hrel
      rw [hd] at hv
      generalize hx : env.decl _ = x at hv
      cases hv with
      | enum ho =>
        obtain ⟨disc, b, l, ws, g1, g2, rfl, hr⟩ := reads_chosen hx hr
        cases g2
        have hb' := chosen_none hd hn
        exact .elemVariant hx hd g1 hb' (ih (.parts _ _) rfl (ho _ _ _ g1 hb') trivial hr)
  | unkInt =>
    intro w hw ho _ vs c hr
    cases w <;> cases hw
    cases ho
    exact same_elem henv hwf .unkInt hr
  | unkBlob =>
    intro w hw ho _ vs c hr
    cases w <;> cases hw
    cases ho
    exact same_elem henv hwf .unkBlob hr
  | unkStruct h =>
    intro w hw ho _ vs c hr
    cases w <;> cases hw
    cases ho
    exact same_elem henv hwf (.unkStruct h) hr
  | unkEnum h =>
    intro w hw ho _ vs c hr
    cases w <;> cases hw
    cases ho
    exact same_elem henv hwf (.unkEnum h) hr
  | eachNil =>
    intro w hw ho _ vs c hr
    cases w <;> cases hw
    cases hr
    exact .eachNil
  | eachCons h1 h2 ih1 ih2 =>
    intro w hw ho _ vs c hr
    cases w <;> cases hw
    cases hr with
    | eachCons g1 g2 => exact .eachCons (ih1 (.elem _ _) rfl ho trivial g1) (ih2 (.each _ _) rfl ho trivial g2)
  | fieldsNil =>
    intro w hw ho _ vs c hr
    cases w <;> cases hw
    exact .fieldsNil
  | @fieldsCons x' xs d l v' vs' c1 c2 hd h1 h2 ih1 ih2 =>
    intro w hw ho hk vs c hr
    cases w with
    | fields ds ds' u =>
      cases hw
      have g2 := ih2 (.fields ds xs u) rfl (fun x hx y hy => ho x hx y (List.mem_cons_of_mem _ hy)) (fun l hl y hy => hk l hl y (List.mem_cons_of_mem _ hy)) hr
      by_cases hm : x'.tag ∈ ds.map (·.tag)
      · obtain ⟨x, hx, he⟩ := List.mem_map.1 hm
        obtain ⟨k, hk'⟩ := List.getElem?_of_mem hx
        obtain ⟨v, c0, hv, h0⟩ := (fields_component hr rfl rfl).2 _ _ hk'
        exact .fieldsBoth hk' hv he (ih1 (.field _ _) rfl (ho x hx x' (List.mem_cons_self ..) he) trivial (he ▸ h0)) g2
      · exact .fieldsNew hm hd (hk l rfl x' (List.mem_cons_self ..) hm ▸ h1) g2
    | _ => cases hw
  | partsPlain ht hc hi h ih =>
    intro w hw ho _ vs c hr
    cases w <;> cases hw
    rcases ho with ho | ⟨n, zc, ho⟩
    · cases ho with
      | collect g1 g2 g3 =>
        cases hr with
        | partsPlain g => rw [g1] at g; cases g
        | partsDelegate g => rw [g1] at g; cases g
        | partsUnknown g _ gd hr hu =>
          obtain ⟨l', g4, g5, -⟩ := (unknown_reads hu).1 _ rfl
          cases g4; subst g5
          refine .partsCollect g1 ht hc g3.1 ?_ (ih (.fields _ _ _) rfl g3.2 holding_unknowns hr)
          rcases hi with hi | hi
          · exact .inl hi
          · exact .inr fun x hx => hi x (unknowns_mem.1 hx).1
      | plain g1 g2 g3 g4 =>
        cases hr with
        | partsPlain _ _ _ hr => exact .partsPlain g1 ht hc g3.1 (ih (.fields _ _ []) rfl g3.2 (holding_plain g4) hr)
        | partsDelegate g => rw [g1] at g; cases g
        | partsUnknown g => rw [g1] at g; cases g
      | delegate _ g => rw [ht] at g; cases g
    · obtain ⟨_, rfl, -, -, hr⟩ := reads_delegate ho hr
      obtain ⟨l', g1, g2, -⟩ := (unknown_reads hr).2.2 _ rfl
      cases g1; cases g2
      exact .partsCatchAll ho (.partsPlain ht hc hi h)
  | partsDelegate ht hc hd h ih =>
    intro w hw ho _ vs c hr
    cases w <;> cases hw
    rcases ho with ho | ⟨n, zc, ho⟩
    · cases ho with
      | collect _ g => rw [ht] at g; cases g
      | plain _ g => rw [ht] at g; cases g
      | delegate g1 g2 ho =>
        rw [ht] at g2; cases g2
        obtain ⟨_, rfl, -, -, hr⟩ := reads_delegate g1 hr
        exact .partsDelegate g1 ht hc hd (ih (.body _ _) rfl ho trivial hr)
    · obtain ⟨_, rfl, -, -, hr⟩ := reads_delegate ho hr
      obtain ⟨l', rfl, g2, -⟩ := (unknown_reads hr).2.2 _ rfl
      cases g2
      exact .partsCatchAll ho (.partsDelegate ht hc hd h)
  | partsUnknown ht hc hd h hu ih _ =>
    intro w hw ho _ vs c hr
    cases w <;> cases hw
    rcases ho with ho | ⟨n, zc, ho⟩
    · cases ho with
      | collect g1 g2 g3 =>
        cases hr with
        | partsPlain g => rw [g1] at g; cases g
        | partsDelegate g => rw [g1] at g; cases g
        | partsUnknown g _ gd hr hu' =>
          obtain ⟨l', g4, g5, -⟩ := (unknown_reads hu').1 _ rfl
          cases g4; subst g5
          obtain ⟨l', g4, g5, -, g6⟩ := (unknown_reads hu).1 _ rfl
          cases g4; subst g5
          rw [← unknowns_unknowns g3.1, others_eq (fs := Body.fields _) (l := unknowns _ _)] at hc g6 ⊢
          exact .partsUnknown g1 ht hc g3.1 hd (by omega) (ih (.fields _ _ _) rfl g3.2 holding_unknowns hr)
      | plain _ g => rw [ht] at g; cases g
      | delegate _ g => rw [ht] at g; cases g
    · obtain ⟨_, rfl, -, -, hr⟩ := reads_delegate ho hr
      obtain ⟨l', g1, g2, -⟩ := (unknown_reads hr).2.2 _ rfl
      cases g1; cases g2
      exact .partsCatchAll ho (.partsUnknown ht hc hd h hu)
  | unknownNil | unknownCons =>
    intro w hw
    cases w <;> cases hw

/-- (b) If a message is read by the old and by the new version, then the old version sees the value of the new one. -/
theorem c65_seen (env : Env) (henv : env.Ok) (hwf : env.wf) (rel : Nat → Nat → Prop) (hver : Versions env rel) (t t' : Ty) (ho : OlderTy rel t t') (ht : t.wf false = true)
    (ht' : t'.wf false = true) (old cfg : Config) (l : Fields) (m : List Byte) (hm : Message l m) (hlen : m.length < U64MAX) (v v' : V) (c c' : Stats)
    (hold : Accepts env t old m v c) (hnew : Accepts env t' cfg m v' c') : Sees env cfg (.body t t') 0 [v] [v'] :=
  reads_sees henv hwf hver ((c54_accepts env henv hwf t' ht' cfg l m hm hlen v' c').1 hnew).1 (.body t t') rfl ho trivial ((c54_accepts env henv hwf t ht old l m hm hlen v c).1 hold).1

/-! ## Editing a field -/

theorem sees_length {env : Env} {cfg : Config} {w : Ver} {d : Nat} {vs vs' : List V} (h : Sees env cfg w d vs vs') {ds ds' : List FieldDecl} {u : Fields} (hw : w = .fields ds ds' u) :
    vs'.length = ds'.length := by
  induction h generalizing ds' with
  | fieldsNil => cases hw; rfl
  | fieldsBoth _ _ _ _ _ _ ih => cases hw; simp [ih rfl]
  | fieldsNew _ _ _ _ ih => cases hw; simp [ih rfl]
  | _ => cases hw

theorem tag_index {ds : List FieldDecl} (hok : (ds.map (·.tag)).Nodup) {a b : Nat} {x y : FieldDecl} (hx : ds[a]? = some x) (hy : ds[b]? = some y) (h : x.tag = y.tag) : a = b := by
  have h1 : (ds.map (·.tag))[a]? = some x.tag := by rw [List.getElem?_map, hx]; rfl
  have h2 : (ds.map (·.tag))[b]? = some x.tag := by rw [List.getElem?_map, hy, h]; rfl
  exact (List.getElem?_inj (List.getElem?_eq_some_iff.1 h1).1 hok).1 (h1.trans h2.symm)

/-- Fields with other tags are not affected. -/
theorem sees_set_other {env : Env} {cfg : Config} {ds : List FieldDecl} (hok : (ds.map (·.tag)).Nodup) {u : Fields} {d : Nat} {vs : List V} {a : Nat} {x : FieldDecl} (hx : ds[a]? = some x) (w : V) :
    ∀ {ds' : List FieldDecl} {vs' : List V}, x.tag ∉ ds'.map (·.tag) → Sees env cfg (.fields ds ds' u) d vs vs' → Sees env cfg (.fields ds ds' u) d (vs.set a w) vs'
  | [], _, _, h => by cases h; exact .fieldsNil
  | y :: ds', vs', hn, h => by
    simp only [List.map_cons, List.mem_cons, not_or] at hn
    cases h with
    | fieldsBoth hk hv he hs h =>
      refine .fieldsBoth hk ?_ he hs (sees_set_other hok hx w hn.2 h)
      rw [List.getElem?_set_ne, hv]
      intro hak; subst hak
      rw [hx] at hk; cases hk
      exact hn.1 he
    | fieldsNew g1 g2 g3 h => exact .fieldsNew g1 g2 g3 (sees_set_other hok hx w hn.2 h)

/-- Changing a field that both versions have. -/
theorem sees_set {env : Env} {cfg : Config} {ds : List FieldDecl} (hok : (ds.map (·.tag)).Nodup) {u : Fields} {d : Nat} {vs : List V} {a : Nat} {x : FieldDecl} (hx : ds[a]? = some x) {w w' : V} :
    ∀ {ds' : List FieldDecl} {vs' : List V} {a' : Nat} {x' : FieldDecl}, (ds'.map (·.tag)).Nodup → ds'[a']? = some x' → x.tag = x'.tag → Sees env cfg (.field x.ty x'.ty) (d + 1) [w] [w'] →
      Sees env cfg (.fields ds ds' u) d vs vs' → a < vs.length ∧ Sees env cfg (.fields ds ds' u) d (vs.set a w) (vs'.set a' w')
  | [], _, _, _, _, hx', _, _, _ => by simp at hx'
  | y :: ds', vs', a', x', hok', hx', ht, hw, h => by
    simp only [List.map_cons, List.nodup_cons] at hok'
    cases a' with
    | zero =>
      simp only [List.getElem?_cons_zero, Option.some.injEq] at hx'
      subst hx'
      cases h with
      | fieldsBoth hk hv he hs h =>
        cases tag_index hok hx hk (ht.trans he.symm)
        have hl := (List.getElem?_eq_some_iff.1 hv).1
        exact ⟨hl, .fieldsBoth hx (by rw [List.getElem?_set_self hl]) ht hw (sees_set_other hok hx w (ht ▸ hok'.1) h)⟩
      | fieldsNew hn => exact absurd (List.mem_map.2 ⟨x, List.mem_of_getElem? hx, ht⟩) hn
    | succ a' =>
      rw [List.getElem?_cons_succ] at hx'
      cases h with
      | fieldsBoth hk hv he hs h =>
        obtain ⟨hl, h⟩ := sees_set hok hx hok'.2 hx' ht hw h
        refine ⟨hl, .fieldsBoth hk ?_ he hs h⟩
        rw [List.getElem?_set_ne, hv]
        intro hak; subst hak
        rw [hx] at hk; cases hk
        exact hok'.1 (he ▸ ht ▸ List.mem_map.2 ⟨x', List.mem_of_getElem? hx', rfl⟩)
      | fieldsNew g1 g2 g3 h =>
        obtain ⟨hl, h⟩ := sees_set hok hx hok'.2 hx' ht hw h
        exact ⟨hl, .fieldsNew g1 g2 g3 h⟩

theorem sees_set_parts {env : Env} {cfg : Config} {b b' : Body} (hb : b.Ok) (hb' : b'.Ok) (hdel : b.tail.isDelegate = false) {d : Nat} {vs vs' : List V} {a a' : Nat} {x x' : FieldDecl}
    (hx : b.fields[a]? = some x) (hx' : b'.fields[a']? = some x') (ht : x.tag = x'.tag) {w w' : V} (hw : Sees env cfg (.field x.ty x'.ty) (d + 1) [w] [w'])
    (hc : b'.check (vs'.set a' w') = true) (h : Sees env cfg (.parts b b') d vs vs') : Sees env cfg (.parts b b') d (vs.set a w) (vs'.set a' w') := by
  cases h with
  | partsPlain g1 g2 _ g4 h => exact .partsPlain g1 g2 hc g4 (sees_set hb.2 hx hb'.2 hx' ht hw h).2
  | partsCollect g1 g2 _ g4 g5 h =>
    obtain ⟨hl, h⟩ := sees_set hb.2 hx hb'.2 hx' ht hw h
    rw [List.set_append_left _ _ hl]
    exact .partsCollect g1 g2 hc g4 g5 h
  | partsUnknown g1 g2 _ g4 g5 g6 h =>
    have hl' : a' < _ := sees_length h rfl ▸ (List.getElem?_eq_some_iff.1 hx').1
    obtain ⟨hl, h⟩ := sees_set hb.2 hx hb'.2 hx' ht hw h
    rw [List.set_append_left _ _ hl'] at hc ⊢
    rw [List.set_append_left _ _ hl]
    exact .partsUnknown g1 g2 hc g4 g5 g6 h
  | partsDelegate g => rw [g] at hdel; cases hdel
  | partsCatchAll g => rw [g] at hdel; cases hdel

/-- (c) An old program reads a message which a new program reads as `vs'`, changes one field and writes it: the new program reads `vs'` with this field changed.
Everything else is as before, whether the old program knows it or not, at any depth. (The value of the field may itself be of a type that has changed; if its type has not changed then
`w = w'`, `Sees.fieldSame`.) -/
theorem c65_edit (env : Env) (henv : env.Ok) (hwf : env.wf) (rel : Nat → Nat → Prop) (hver : Versions env rel) (i j : Nat) (hrel : rel i j) (b b' : Body) (hd : env.decl i = .struct b)
    (hd' : env.decl j = .struct b') (hdel : b.tail.isDelegate = false) (old cfg : Config) (l : Fields) (m : List Byte) (hm : Message l m) (hlen : m.length < U64MAX)
    (vs vs' : List V) (c c' : Stats) (hold : Accepts env (.named i) old m (.seq vs) c) (hnew : Accepts env (.named j) cfg m (.seq vs') c')
    (a a' : Nat) (x x' : FieldDecl) (hx : b.fields[a]? = some x) (hx' : b'.fields[a']? = some x') (htag : x.tag = x'.tag) (w w' : V) (hw : Sees env cfg (.field x.ty x'.ty) 1 [w] [w'])
    (hc : b'.check (vs'.set a' w') = true) (k : Need) (hk : HasType env (.named i) (.seq (vs.set a w)) k) (hdepth : k.depth ≤ cfg.recursionLimit) (hstrict : k.lenient = false) :
    ∃ m2 c2, Produces env (.named i) (.seq (vs.set a w)) m2 ∧
      ∀ blob coll, c2.fits { cfg with maxBlob := blob, maxCollect := coll } → Accepts env (.named j) { cfg with maxBlob := blob, maxCollect := coll } m2 (.seq (vs'.set a' w')) c2 := by
  refine c65_write_back env henv hwf _ _ rfl rfl _ _ cfg (.bodyStruct hd hd' ?_) k hk hdepth hstrict
  have ho := hver _ _ hrel
  have hok := henv i
  have hok' := henv j
  rw [hd] at hok; rw [hd'] at hok'
  rw [hd, hd'] at ho
  cases ho with
  | struct ho =>
    refine sees_set_parts hok hok' hdel hx hx' htag hw hc ?_
    have h := ((c54_accepts env henv hwf _ rfl old l m hm hlen _ c).1 hold).1
    have h' := ((c54_accepts env henv hwf _ rfl cfg l m hm hlen _ c').1 hnew).1
    cases h with
    | bodyWrapped hw => simp [Ty.isWrapped, hd] at hw
    | bodyStruct gd h =>
      rw [hd] at gd; cases gd
      cases h' with
      | bodyWrapped hw => simp [Ty.isWrapped, hd'] at hw
      | bodyStruct gd h' =>
        rw [hd'] at gd; cases gd
        exact reads_sees henv hwf hver h' (.parts _ _) rfl (.inl ho) trivial h

/-! ## The old program reads what the new program reads -/

/-- The old versions cover all variants, and their constructors accept all values. -/
inductive Covers : Decl → Decl → Prop where
  | struct {b b'} : (∀ vs, b.check vs = true) → Covers (.struct b) (.struct b')
  | enum {variants ca variants' ca'} : (∀ disc b', chosen variants' ca' disc = some b' → ∃ b, chosen variants ca disc = some b ∧ ∀ vs, b.check vs = true) →
      Covers (.enum variants ca) (.enum variants' ca')

/-- It can be read if the recursion limit is high enough (and unknown fields are ignored if they are in `cfg`). -/
def Readable (env : Env) (cfg : Config) (it : RItem) (d : Nat) (vals : List Val) : Prop :=
  ∃ vs c N, ∀ old : Config, N ≤ old.recursionLimit → (cfg.ignoreUnknownFields = true → old.ignoreUnknownFields = true) → Reads env old it d vals vs c

theorem readable_same {env : Env} {cfg : Config} {it : RItem} {d : Nat} {vals : List Val} {vs : List V} {c : Stats} (h : Reads env cfg it d vals vs c) : Readable env cfg it d vals :=
  ⟨vs, c, cfg.recursionLimit, fun _ hl hi => reads_weaken hi hl h⟩

/-- With one value. -/
theorem Readable.one {env : Env} {cfg : Config} {it : RItem} {d : Nat} {vals : List Val} (h : Readable env cfg it d vals) (hit : (∃ t, it = .body t) ∨ (∃ t, it = .field t) ∨ ∃ t, it = .elem t) :
    ∃ v c N, ∀ old : Config, N ≤ old.recursionLimit → (cfg.ignoreUnknownFields = true → old.ignoreUnknownFields = true) → Reads env old it d vals [v] c := by
  obtain ⟨vs, c, N, h⟩ := h
  have hs := reads_shape (h ⟨N, true, 0, 0⟩ (Nat.le_refl _) fun _ => rfl)
  rcases hit with ⟨t, rfl⟩ | ⟨t, rfl⟩ | ⟨t, rfl⟩
  · obtain ⟨-, v, rfl⟩ := hs; exact ⟨v, c, N, h⟩
  · obtain ⟨v, rfl⟩ := hs; exact ⟨v, c, N, h⟩
  · obtain ⟨-, v, rfl⟩ := hs; exact ⟨v, c, N, h⟩

/-- What is shown for each kind of item. -/
def OldReads (env : Env) (rel : Nat → Nat → Prop) (cfg : Config) : RItem → Nat → List Val → Prop
  | .body t', d, vals => ∀ t, OlderTy rel t t' → Readable env cfg (.body t) d vals
  | .field t', d, vals => ∀ t, OlderTy rel t t' → Readable env cfg (.field t) d vals
  | .elem t', d, vals => ∀ t, OlderTy rel t t' → Readable env cfg (.elem t) d vals
  | .each t', d, vals => ∀ t, OlderTy rel t t' → Readable env cfg (.each t) d vals
  | .fields ds', d, vals => ∀ l, vals = [.struct l] → ∀ x' ∈ ds', ∀ t, OlderTy rel t x'.ty → Readable env cfg (.field t) (d + 1) (occ x'.tag l)
  | .parts b', d, vals => ∀ b, OlderBody rel b b' ∨ CatchAll b → (∀ vs, b.check vs = true) → Readable env cfg (.parts b) d vals
  | .unknown _, _, _ => True

theorem old_fields {env : Env} {rel : Nat → Nat → Prop} {cfg : Config} {ds' : List FieldDecl} {d : Nat} {l : Fields} (h : OldReads env rel cfg (.fields ds') d [.struct l]) :
    ∀ {ds : List FieldDecl}, OlderFields rel ds ds' → Readable env cfg (.fields ds) d [.struct l]
  | [], _ => ⟨[], .zero, 0, fun _ _ _ => .fieldsNil⟩
  | x :: ds, ho => by
    obtain ⟨x', hx', he⟩ := List.mem_map.1 (ho.1 x (List.mem_cons_self ..))
    obtain ⟨v, c, N, h1⟩ := (h l rfl x' hx' x.ty (ho.2 x (List.mem_cons_self ..) x' hx' he.symm)).one (.inr (.inl ⟨_, rfl⟩))
    obtain ⟨vs, c', N', h2⟩ := old_fields h (ds := ds) ⟨fun y hy => ho.1 y (List.mem_cons_of_mem _ hy), fun y hy => ho.2 y (List.mem_cons_of_mem _ hy)⟩
    exact ⟨v :: vs, c + c', max (max N N') (d + 1), fun old hl hi => .fieldsCons (by omega) (he ▸ h1 old (by omega) hi) (h2 old (by omega) hi)⟩

theorem old_catchAll {env : Env} {cfg : Config} {b : Body} (hb : CatchAll b) (hc : ∀ vs, b.check vs = true) {d : Nat} {l : Fields} : Readable env cfg (.parts b) d [.struct l] := by
  obtain ⟨n, zc, ht⟩ := hb
  exact ⟨_, _, d + 1 + fieldsDepth l, fun old hl _ => .partsDelegate ht (hc _) (by omega) (.bodyUnknown (asUnknowns_reads env old zc l (d + 1) hl))⟩

theorem old_collect {env : Env} {cfg : Config} {b : Body} {n : String} {zc : Bool} (ht : b.tail = .unknown n zc) (hc : ∀ vs, b.check vs = true) {d : Nat} {l : Fields}
    (h : Readable env cfg (.fields b.fields) d [.struct l]) : Readable env cfg (.parts b) d [.struct l] := by
  obtain ⟨vs, c, N, h⟩ := h
  exact ⟨_, _, max N (d + 1 + fieldsDepth (unknowns b.fields l)), fun old hl hi =>
    .partsUnknown ht (hc _) (by omega) (h old (by omega) hi) (asUnknowns_reads env old zc _ d (by omega))⟩

theorem reads_old {env : Env} {rel : Nat → Nat → Prop} (hver : Versions env rel) (hcov : ∀ i j, rel i j → Covers (env.decl i) (env.decl j)) {cfg : Config} {it : RItem} {d : Nat} {vals : List Val}
    {vs' : List V} {c' : Stats} (h : Reads env cfg it d vals vs' c') : OldReads env rel cfg it d vals := by
  have hign : ∀ {old : Config} {ds ds' : List FieldDecl} {l : Fields}, (cfg.ignoreUnknownFields = true → old.ignoreUnknownFields = true) → Extends ds' ds →
      cfg.Ignores (ds'.map (·.tag)) l → old.Ignores (ds.map (·.tag)) l := by
    rintro old ds ds' l hi he (h | h)
    · exact .inl (hi h)
    · refine .inr fun x hx => ?_
      obtain ⟨y, hy, hy'⟩ := List.mem_map.1 (h x hx)
      exact hy' ▸ he y hy
  induction h with
  | bodyBoxed h ih =>
    intro t ho
    cases ho with
    | same => exact readable_same (.bodyBoxed h)
    | boxed ho =>
      obtain ⟨vs, c, N, h⟩ := ih _ ho
      exact ⟨vs, c, N, fun old hl hi => .bodyBoxed (h old hl hi)⟩
  | bodyTuple hl hi h ih =>
    intro t ho
    cases ho with
    | same => exact readable_same (.bodyTuple hl hi h)
    | tuple hl' ho =>
      obtain ⟨h1, h2⟩ := tupleFields_older hl' hl ho
      obtain ⟨vs, c, N, h⟩ := old_fields ih h1
      exact ⟨_, c, N, fun old hN hi' => .bodyTuple (hl' ▸ hl) (hign hi' h2 hi) (h old hN hi')⟩
  | bodyUnknown h =>
    intro t ho
    cases ho
    exact readable_same (.bodyUnknown h)
  | bodyStruct hd h ih =>
    intro t ho
    cases ho with
    | same => exact readable_same (.bodyStruct hd h)
    | named hrel =>
      have hv := hver _ _ hrel
      have hco := hcov _ _ hrel
      rw [hd] at hv hco
      generalize hx : env.decl _ = x at hv hco
      cases hv with
      | struct ho =>
        cases hco with
        | struct hc =>
          obtain ⟨vs, c, N, h⟩ := ih _ (.inl ho) hc
          exact ⟨_, c, N, fun old hN hi => .bodyStruct hx (h old hN hi)⟩
  | bodyWrapped hw hi hd h ih =>
    intro t ho
    obtain ⟨v, c, N, h⟩ := (ih t ho).one (.inr (.inl ⟨_, rfl⟩))
    refine ⟨_, c, max N cfg.recursionLimit, fun old hN hi' => .bodyWrapped ((older_wrapped hver ho).trans hw) ?_ (by omega) (h old (by omega) hi')⟩
    rcases hi with hi | hi
    · exact .inl (hi' hi)
    · exact .inr hi
  | fieldBoxed h ih =>
    intro t ho
    cases ho with
    | same => exact readable_same (.fieldBoxed h)
    | boxed ho =>
      obtain ⟨vs, c, N, h⟩ := ih _ ho
      exact ⟨vs, c, N, fun old hl hi => .fieldBoxed (h old hl hi)⟩
  | fieldSingle hs h ih =>
    intro t ho
    have ho' := ho
    cases ho with
    | same => exact readable_same (.fieldSingle hs h)
    | named | tuple =>
      obtain ⟨v, c, N, h⟩ := (ih _ ho').one (.inr (.inr ⟨_, rfl⟩))
      exact ⟨_, c, N, fun old hl hi => .fieldSingle rfl (h old hl hi)⟩
    | vec ho | small ho | large ho =>
      cases older_eq_u8 ho hs
      exact readable_same (.fieldSingle hs h)
    | _ => simp [Ty.isSingle] at hs
  | fieldNoBytes =>
    intro t ho
    cases ho with
    | same => exact readable_same .fieldNoBytes
    | small ho => cases older_eq_u8 ho rfl; exact readable_same .fieldNoBytes
  | fieldNoBytesL h =>
    intro t ho
    cases ho with
    | same => exact readable_same (.fieldNoBytesL h)
    | large ho => cases older_eq_u8 ho rfl; exact readable_same (.fieldNoBytesL h)
  | fieldVec hu h ih =>
    rw [Ty.isByte_eq] at hu
    intro t ho
    cases ho with
    | same => exact readable_same (.fieldVec hu h)
    | vec ho =>
      obtain ⟨vs, c, N, h⟩ := ih _ ho
      exact ⟨_, _, N, fun old hl hi => .fieldVec ((older_u8 ho).trans hu) (h old hl hi)⟩
  | fieldList h ih =>
    intro t ho
    cases ho with
    | same => exact readable_same (.fieldList h)
    | list ho =>
      obtain ⟨vs, c, N, h⟩ := ih _ ho
      exact ⟨_, _, N, fun old hl hi => .fieldList (h old hl hi)⟩
  | fieldSet h =>
    intro t ho
    cases ho
    exact readable_same (.fieldSet h)
  | fieldMap h ih =>
    intro t ho
    cases ho with
    | same => exact readable_same (.fieldMap h)
    | map ho =>
      obtain ⟨vs, c, N, h⟩ := ih _ (older_pair ho)
      exact ⟨_, _, N, fun old hl hi => .fieldMap (h old hl hi)⟩
  | fieldOption hn h ih =>
    intro t ho
    cases ho with
    | same => exact readable_same (.fieldOption hn h)
    | option ho =>
      obtain ⟨vs, c, N, h⟩ := ih _ ho
      exact ⟨_, _, N, fun old hl hi => .fieldOption hn (h old hl hi)⟩
  | fieldSmall hu hn h ih =>
    rw [Ty.isByte_eq] at hu
    intro t ho
    cases ho with
    | same => exact readable_same (.fieldSmall hu hn h)
    | small ho =>
      obtain ⟨vs, c, N, h⟩ := ih _ ho
      exact ⟨_, _, N, fun old hl hi => .fieldSmall ((older_u8 ho).trans hu) hn (h old hl hi)⟩
  | fieldLarge hu hn h ih =>
    rw [Ty.isByte_eq] at hu
    intro t ho
    cases ho with
    | same => exact readable_same (.fieldLarge hu hn h)
    | large ho =>
      obtain ⟨vs, c, N, h⟩ := ih _ ho
      exact ⟨_, _, N, fun old hl hi => .fieldLarge ((older_u8 ho).trans hu) hn (h old hl hi)⟩
  | elemPrim h =>
    intro t ho
    cases ho
    exact readable_same (.elemPrim h)
  | elemBoxed h ih =>
    intro t ho
    cases ho with
    | same => exact readable_same (.elemBoxed h)
    | boxed ho =>
      obtain ⟨vs, c, N, h⟩ := ih _ ho
      exact ⟨vs, c, N, fun old hl hi => .elemBoxed (h old hl hi)⟩
  | elemVec =>
    intro t ho
    cases ho with
    | same => exact readable_same .elemVec
    | vec ho => cases older_eq_u8 ho rfl; exact readable_same .elemVec
  | elemSmall h =>
    intro t ho
    cases ho with
    | same => exact readable_same (.elemSmall h)
    | small ho => cases older_eq_u8 ho rfl; exact readable_same (.elemSmall h)
  | elemLarge h =>
    intro t ho
    cases ho with
    | same => exact readable_same (.elemLarge h)
    | large ho => cases older_eq_u8 ho rfl; exact readable_same (.elemLarge h)
  | elemStruct hi h ih =>
    intro t ho
    obtain ⟨v, c, N, h⟩ := (ih t ho).one (.inl ⟨_, rfl⟩)
    exact ⟨_, c, N, fun old hl hi' => .elemStruct ((older_inStruct hver ho).trans hi) (h old hl hi')⟩
  | elemDelegate hd ht hl hc h ih =>
    intro t ho
    cases ho with
    | same => exact readable_same (.elemDelegate hd ht hl hc h)
    | named hrel =>
      have hv := hver _ _ hrel
      have hco := hcov _ _ hrel
      rw [hd] at hv hco
      generalize hx : env.decl _ = x at hv hco
      cases hv with
      | struct ho =>
        cases hco with
        | struct hc =>
          cases ho with
          | collect _ g => rw [ht] at g; cases g
          | plain _ g => rw [ht] at g; cases g
          | delegate g1 g2 ho =>
            rw [ht] at g2; cases g2
            obtain ⟨v, c, N, h⟩ := (ih _ ho).one (.inr (.inr ⟨_, rfl⟩))
            exact ⟨_, c, max N cfg.recursionLimit, fun old hN hi => .elemDelegate hx g1 (by omega) (hc _) (h old (by omega) hi)⟩
  | elemVariant hd hf h ih =>
    intro t ho
    cases ho with
    | same => exact readable_same (.elemVariant hd hf h)
    | named hrel =>
      have hv := hver _ _ hrel
      have hco := hcov _ _ hrel
      rw [hd] at hv hco
      generalize hx : env.decl _ = x at hv hco
      cases hv with
      | enum ho =>
        cases hco with
        | enum hc =>
          obtain ⟨b, hb, hc⟩ := hc _ _ (chosen_some hd hf)
          obtain ⟨vs, c, N, h⟩ := ih _ (ho _ _ _ hb (chosen_some hd hf)) hc
          exact ⟨_, c, N, fun old hN hi => chosen_reads hx hb (h old hN hi)⟩
  | elemCatchAll hd hn h ih =>
    intro t ho
    cases ho with
    | same => exact readable_same (.elemCatchAll hd hn h)
    | named hrel =>
      have hv := hver _ _ hrel
      have hco := hcov _ _ hrel
      rw [hd] at hv hco
      generalize hx : env.decl _ = x at hv hco
      cases hv with
      | enum ho =>
        cases hco with
        | enum hc =>
          obtain ⟨b, hb, hc⟩ := hc _ _ (chosen_none hd hn)
          obtain ⟨vs, c, N, h⟩ := ih _ (ho _ _ _ hb (chosen_none hd hn)) hc
          exact ⟨_, c, N, fun old hN hi => chosen_reads hx hb (h old hN hi)⟩
  | unkInt =>
    intro t ho
    cases ho
    exact readable_same .unkInt
  | unkBlob =>
    intro t ho
    cases ho
    exact readable_same .unkBlob
  | unkStruct h =>
    intro t ho
    cases ho
    exact readable_same (.unkStruct h)
  | unkEnum h =>
    intro t ho
    cases ho
    exact readable_same (.unkEnum h)
  | eachNil => exact fun t _ => ⟨[], .zero, 0, fun _ _ _ => .eachNil⟩
  | eachCons h1 h2 ih1 ih2 =>
    intro t ho
    obtain ⟨v, c, N, h1⟩ := (ih1 t ho).one (.inr (.inr ⟨_, rfl⟩))
    obtain ⟨vs, c', N', h2⟩ := ih2 t ho
    exact ⟨_, _, max N N', fun old hN hi => .eachCons (h1 old (by omega) hi) (h2 old (by omega) hi)⟩
  | fieldsNil => exact fun l _ x' hx' => absurd hx' (List.not_mem_nil)
  | fieldsCons hd h1 h2 ih1 ih2 =>
    intro l hl x' hx' t ho
    cases hl
    rcases List.mem_cons.1 hx' with rfl | hx'
    · exact ih1 t ho
    · exact ih2 _ rfl x' hx' t ho
  | partsPlain ht hc hi h ih =>
    intro b ho hc
    rcases ho with ho | ho
    · cases ho with
      | collect g1 g2 g3 => exact old_collect g1 hc (old_fields ih g3)
      | plain g1 g2 g3 g4 =>
        obtain ⟨vs, c, N, h⟩ := old_fields ih g3
        exact ⟨_, _, N, fun old hN hi' => .partsPlain g1 (hc _) (hign hi' g4 hi) (h old hN hi')⟩
      | delegate _ g => rw [ht] at g; cases g
    · exact old_catchAll ho hc
  | partsDelegate ht hc hd h ih =>
    intro b ho hc
    rcases ho with ho | ho
    · cases ho with
      | collect _ g => rw [ht] at g; cases g
      | plain _ g => rw [ht] at g; cases g
      | delegate g1 g2 ho =>
        rw [ht] at g2; cases g2
        obtain ⟨v, c, N, h⟩ := (ih _ ho).one (.inl ⟨_, rfl⟩)
        exact ⟨_, _, max N cfg.recursionLimit, fun old hN hi => .partsDelegate g1 (hc _) (by omega) (h old (by omega) hi)⟩
    · obtain ⟨l, rfl⟩ := (reads_shape h).1
      exact old_catchAll ho hc
  | partsUnknown ht hc hd h hu ih =>
    intro b ho hc
    rcases ho with ho | ho
    · cases ho with
      | collect g1 g2 g3 => exact old_collect g1 hc (old_fields ih g3)
      | plain _ g => rw [ht] at g; cases g
      | delegate _ g => rw [ht] at g; cases g
    · exact old_catchAll ho hc
  | unknownNil | unknownCons => trivial

/-- (d) Every message that the new version reads can be read by the old version, with high enough limits, if the old version has catch-all variants for the variants it does not know. -/
theorem c65_old_reads (env : Env) (henv : env.Ok) (hwf : env.wf) (rel : Nat → Nat → Prop) (hver : Versions env rel) (hcov : ∀ i j, rel i j → Covers (env.decl i) (env.decl j)) (t t' : Ty)
    (ho : OlderTy rel t t') (ht : t.wf false = true) (ht' : t'.wf false = true) (cfg : Config) (l : Fields) (m : List Byte) (hm : Message l m) (hlen : m.length < U64MAX) (v' : V) (c' : Stats)
    (hnew : Accepts env t' cfg m v' c') :
    ∃ v c N, Sees env cfg (.body t t') 0 [v] [v'] ∧
      ∀ old : Config, N ≤ old.recursionLimit → (cfg.ignoreUnknownFields = true → old.ignoreUnknownFields = true) → c.fits old → Accepts env t old m v c := by
  have h' := ((c54_accepts env henv hwf t' ht' cfg l m hm hlen v' c').1 hnew).1
  obtain ⟨v, c, N, h⟩ := ((reads_old hver hcov h') t ho).one (.inl ⟨_, rfl⟩)
  exact ⟨v, c, N, reads_sees henv hwf hver h' (.body t t') rfl ho trivial (h ⟨N, true, 0, 0⟩ (Nat.le_refl _) fun _ => rfl),
    fun old hN hi hf => (c54_accepts env henv hwf t ht old l m hm hlen v c).2 ⟨h old hN hi, hf⟩⟩

/-! ## The example of the documentation (`src/lib.rs` 527-657) -/

def exCatchAll : Body := ⟨[], .delegate "fields" (.unknownFields false), fun _ => true⟩
def exNothing : Body := ⟨[], .plain, fun _ => true⟩
def exRename : Body := ⟨[⟨1, "id", .prim (.int .u32)⟩], .plain, fun _ => true⟩
/-- `v1::Message` -/
def exOld : Body := ⟨[⟨1, "id", .prim (.int .u32)⟩, ⟨2, "operation", .named 0⟩], .unknown "unknown" false, fun _ => true⟩
/-- `v2::Message` -/
def exNew : Body := ⟨[⟨1, "id", .prim (.int .u32)⟩, ⟨2, "operation", .named 2⟩, ⟨3, "frobnicate", .option (.prim .bool)⟩], .unknown "unknown" false, fun _ => true⟩

/-- `v1::Operation`, `v1::Message`, `v2::Operation`, `v2::Message` (`src/lib.rs` 532-607). -/
def exVersions : Env where
  decl
    | 0 => .enum [(1, exNothing), (2, exNothing)] (some exCatchAll)
    | 1 => .struct exOld
    | 2 => .enum [(1, exNothing), (2, exNothing), (3, exRename)] (some exCatchAll)
    | 3 => .struct exNew
    | _ => .struct exNothing
  size := 10
  bound := by
    intro i t ht
    match i with
    | 0 => revert t; decide
    | 1 => revert t; decide
    | 2 => revert t; decide
    | 3 => revert t; decide
    | _ + 4 => cases ht

theorem exVersions_ok : exVersions.Ok := by
  intro i
  match i with
  | 0 =>
    refine ⟨?_, ?_⟩
    · intro x hx
      rcases List.mem_cons.1 hx with rfl | hx
      · show FieldsOk _; decide
      · cases List.mem_singleton.1 hx; show FieldsOk _; decide
    · intro b hb; cases hb; show FieldsOk _; decide
  | 1 => show FieldsOk _; decide
  | 2 =>
    refine ⟨?_, ?_⟩
    · intro x hx
      rcases List.mem_cons.1 hx with rfl | hx
      · show FieldsOk _; decide
      rcases List.mem_cons.1 hx with rfl | hx
      · show FieldsOk _; decide
      · cases List.mem_singleton.1 hx; show FieldsOk _; decide
    · intro b hb; cases hb; show FieldsOk _; decide
  | 3 => show FieldsOk _; decide
  | _ + 4 => show FieldsOk _; decide

theorem exVersions_wf : exVersions.wf := by
  intro i
  match i with
  | 0 =>
    refine ⟨?_, ?_⟩
    · intro x hx
      rcases List.mem_cons.1 hx with rfl | hx
      · exact ⟨by decide, fun name t h => by cases h⟩
      · cases List.mem_singleton.1 hx; exact ⟨by decide, fun name t h => by cases h⟩
    · intro b hb; cases hb; exact ⟨by decide, fun name t h => by cases h; exact ⟨rfl, rfl⟩⟩
  | 1 => exact ⟨by decide, fun name t h => by cases h⟩
  | 2 =>
    refine ⟨?_, ?_⟩
    · intro x hx
      rcases List.mem_cons.1 hx with rfl | hx
      · exact ⟨by decide, fun name t h => by cases h⟩
      rcases List.mem_cons.1 hx with rfl | hx
      · exact ⟨by decide, fun name t h => by cases h⟩
      · cases List.mem_singleton.1 hx; exact ⟨by decide, fun name t h => by cases h⟩
    · intro b hb; cases hb; exact ⟨by decide, fun name t h => by cases h; exact ⟨rfl, rfl⟩⟩
  | 3 => exact ⟨by decide, fun name t h => by cases h⟩
  | _ + 4 => exact ⟨by decide, fun name t h => by cases h⟩

/-- `v1` is the old version of `v2`. -/
def exRel (i j : Nat) : Prop := (i = 0 ∧ j = 2) ∨ (i = 1 ∧ j = 3)

theorem exOlder : Versions exVersions exRel := by
  rintro i j (⟨rfl, rfl⟩ | ⟨rfl, rfl⟩)
  · refine .enum fun disc b b' h h' => ?_
    unfold chosen at h h'
    by_cases h1 : disc = 1
    · subst h1
      cases (show some exNothing = some b from h); cases (show some exNothing = some b' from h')
      exact .inl (.plain rfl rfl ⟨(fun x hx => by cases hx), (fun x hx => by cases hx)⟩ (fun x hx => by cases hx))
    · by_cases h2 : disc = 2
      · subst h2
        cases (show some exNothing = some b from h); cases (show some exNothing = some b' from h')
        exact .inl (.plain rfl rfl ⟨(fun x hx => by cases hx), (fun x hx => by cases hx)⟩ (fun x hx => by cases hx))
      · rw [List.find?_eq_none.2 (by simp [Ne.symm h1, Ne.symm h2])] at h
        cases h
        exact .inr ⟨_, _, rfl⟩
  · refine .struct (.collect rfl rfl ⟨by unfold Extends; decide, ?_⟩)
    intro x hx x' hx' he
    simp only [exOld, exNew, List.mem_cons, List.not_mem_nil, or_false] at hx hx'
    rcases hx with rfl | rfl <;> rcases hx' with rfl | rfl | rfl <;> first | exact .same | exact .named (.inl ⟨rfl, rfl⟩) | exact absurd he (by decide)

theorem exCovers : ∀ i j, exRel i j → Covers (exVersions.decl i) (exVersions.decl j) := by
  rintro i j (⟨rfl, rfl⟩ | ⟨rfl, rfl⟩)
  · refine .enum fun disc b' _ => ?_
    unfold chosen
    split
    · rename_i x hx
      refine ⟨_, rfl, ?_⟩
      have := List.mem_of_find?_eq_some hx
      rcases List.mem_cons.1 this with rfl | h
      · exact fun _ => rfl
      · cases List.mem_singleton.1 h; exact fun _ => rfl
    · exact ⟨_, rfl, fun _ => rfl⟩
  · exact .struct fun _ => rfl

/-- `v2::Message { id: 42, operation: RenameTo(56), frobnicate: true }` -/
def exEditTree : Fields := [(1, .int 42), (2, .enum 3 [(1, .int 56)]), (3, .int 1)]
def exEditBytes : List Byte := [65, 42, 2, 3, 65, 56, 0, 67, 1, 0]

theorem exEditMessage : Message exEditTree exEditBytes :=
  (by decide +kernel : canonToks [.int 1 42, .enum 2 3, .int 1 56, .endStruct, .int 3 1, .endStruct] = exEditBytes) ▸ message_canon (.int (.enum (.int .nil) (.int .nil))) (by decide)

/-- How `v1` sees it: it does not know the operation, nor field 3. -/
def exSeen : List V := [.num 42, .variant 3 [.seq [.seq [.num 1, .variant 0 [.num 56]]]], .seq [.seq [.num 3, .variant 0 [.num 1]]]]
def exReal : List V := [.num 42, .variant 3 [.num 56], .seq [.bool true], .seq []]

theorem exEdit_new : Accepts exVersions (.named 3) strictCfg exEditBytes (.seq exReal) .zero :=
  fun _ hs hroom => (reads_iff exEditMessage hs hroom _ _).2 ⟨rfl, by decide⟩
theorem exEdit_old : Accepts exVersions (.named 1) strictCfg exEditBytes (.seq exSeen) ⟨2, 0⟩ :=
  fun _ hs hroom => (reads_iff exEditMessage hs hroom _ _).2 ⟨rfl, by decide⟩

/-- `v1` reads the message of `v2`, sets `id` to 99 and writes it; `v2` finds everything else unchanged. -/
example : ∃ m2 c2, Produces exVersions (.named 1) (.seq (exSeen.set 0 (.num 99))) m2 ∧
    ∀ blob coll, c2.fits { strictCfg with maxBlob := blob, maxCollect := coll } →
      Accepts exVersions (.named 3) { strictCfg with maxBlob := blob, maxCollect := coll } m2 (.seq [.num 99, .variant 3 [.num 56], .seq [.bool true], .seq []]) c2 := by
  have hk : ∃ k, HasType exVersions (.named 1) (.seq (exSeen.set 0 (.num 99))) k ∧ k.depth ≤ strictCfg.recursionLimit ∧ k.lenient = false := by
    have hu : Needs exVersions (.unknown ([⟨1, "id", .prim (.int .u32)⟩, ⟨2, "operation", .named 0⟩].map FieldDecl.tag) false) [.seq [.num (3 : UInt8).toNat, .variant 0 [.num (1 : UInt64).toNat]]] _ :=
      .unknownCons (by decide) (by decide) .unkInt .unknownNil
    have hv : Needs exVersions (.unknown [] false) [.seq [.num (1 : UInt8).toNat, .variant 0 [.num (56 : UInt64).toNat]]] _ :=
      .unknownCons (by decide) (by decide) .unkInt .unknownNil
    have hf : Needs exVersions (.fields exOld.fields) [.num 99, .variant 3 [.seq [.seq [.num (1 : UInt8).toNat, .variant 0 [.num (56 : UInt64).toNat]]]]] _ :=
      .fieldsCons (.fieldSingle rfl (.elemPrim (.int (by decide) (by decide))))
        (.fieldsCons (.fieldSingle rfl (.elemCatchAll (variants := [(1, exNothing), (2, exNothing)]) (b := exCatchAll) rfl
          (by intro x hx; simp only [List.mem_cons, List.not_mem_nil, or_false] at hx; rcases hx with rfl | rfl <;> decide) (.partsDelegate rfl rfl rfl (.bodyUnknown hv)))) .fieldsNil)
    exact ⟨_, .bodyStruct (b := exOld) rfl (Needs.partsUnknown (b := exOld) rfl rfl hf hu), by decide, by decide⟩
  obtain ⟨k, h1, h2, h3⟩ := hk
  exact c65_edit exVersions exVersions_ok exVersions_wf exRel exOlder 1 3 (.inr ⟨rfl, rfl⟩) exOld exNew rfl rfl rfl strictCfg strictCfg _ _ exEditMessage (by decide) _ _ _ _
    exEdit_old exEdit_new 0 0 _ _ rfl rfl rfl (.num 99) (.num 99) .fieldSame rfl k h1 h2 h3

/-- What `v1` sees is `exSeen`; `v1` can read every message of `v2`. -/
example : Sees exVersions strictCfg (.body (.named 1) (.named 3)) 0 [.seq exSeen] [.seq exReal] :=
  c65_seen exVersions exVersions_ok exVersions_wf exRel exOlder _ _ (.named (.inr ⟨rfl, rfl⟩)) rfl rfl strictCfg strictCfg _ _ exEditMessage (by decide) _ _ _ _ exEdit_old exEdit_new
example : ∃ v c N, Sees exVersions strictCfg (.body (.named 1) (.named 3)) 0 [v] [.seq exReal] ∧
    ∀ old : Config, N ≤ old.recursionLimit → (strictCfg.ignoreUnknownFields = true → old.ignoreUnknownFields = true) → c.fits old → Accepts exVersions (.named 1) old exEditBytes v c :=
  c65_old_reads exVersions exVersions_ok exVersions_wf exRel exOlder exCovers _ _ (.named (.inr ⟨rfl, rfl⟩)) rfl rfl strictCfg _ _ exEditMessage (by decide) _ _ exEdit_new

/-- A map with a message as a value (twice with the same key). -/
def exEditMapTree : Fields := [(1, .struct [(1, .int 7), (2, .struct [(1, .int 1), (2, .enum 1 [])])]), (1, .struct [(1, .int 7), (2, .struct exEditTree)])]
def exEditMapBytes : List Byte := [193, 65, 7, 194, 65, 1, 2, 1, 0, 0, 0, 193, 65, 7, 194] ++ exEditBytes ++ [0, 0]

theorem exEditMapMessage : Message exEditMapTree exEditMapBytes :=
  (by decide +kernel : canonToks [.struct 1, .int 1 7, .struct 2, .int 1 1, .enum 2 1, .endStruct, .endStruct, .endStruct,
      .struct 1, .int 1 7, .struct 2, .int 1 42, .enum 2 3, .int 1 56, .endStruct, .int 3 1, .endStruct, .endStruct, .endStruct] = exEditMapBytes) ▸
    message_canon (.struct (.int (.struct (.int (.enum .nil .nil)) .nil)) (.struct (.int (.struct (.int (.enum (.int .nil) (.int .nil))) .nil)) .nil)) (by decide)

example : Sees exVersions strictCfg (.body (.tuple [.map u8 (.named 1)]) (.tuple [.map u8 (.named 3)])) 0 [.seq [.seq [.seq [.num 7, .seq exSeen]]]] [.seq [.seq [.seq [.num 7, .seq exReal]]]] :=
  c65_seen exVersions exVersions_ok exVersions_wf exRel exOlder _ _ (.tuple (ts := [.map u8 (.named 1)]) (ts' := [.map u8 (.named 3)]) rfl fun k t t' h h' => by
      cases k with
      | zero => cases h; cases h'; exact .map (.named (.inr ⟨rfl, rfl⟩))
      | succ k => simp at h) rfl rfl strictCfg strictCfg _ _ exEditMapMessage (by decide) _ _ ⟨4, 0⟩ ⟨2, 0⟩
    (fun _ hs hroom => (reads_iff exEditMapMessage hs hroom _ _).2 ⟨rfl, by decide⟩) (fun _ hs hroom => (reads_iff exEditMapMessage hs hroom _ _).2 ⟨rfl, by decide⟩)

end Fourleaf.Props
