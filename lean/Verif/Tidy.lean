import Verif.PropsCompat

/-! # Messages without duplicates

What is written for a value has no duplicate elements of sets or keys of maps: `Tidy` is `Reads` for such messages. -/

namespace Fourleaf.Props
open Fourleaf Spec

/-- As `Reads`, but sets and maps have no duplicates. -/
inductive Tidy (env : Env) (cfg : Config) : RItem → Nat → List Val → List V → Stats → Prop where
  -- messages
  | bodyBoxed {t d vals vs c} : Tidy env cfg (.body t) d vals vs c → Tidy env cfg (.body (.boxed t)) d vals vs c
  | bodyTuple {ts d l vs c} : ts.length ≤ 16 → cfg.Ignores ((components ts).map (·.tag)) l → Tidy env cfg (.fields (components ts)) d [.struct l] vs c →
      Tidy env cfg (.body (.tuple ts)) d [.struct l] [.seq vs] c
  | bodyUnknown {zc d vals es c} : Tidy env cfg (.unknown zc) d vals es c → Tidy env cfg (.body (.unknownFields zc)) d vals [.seq es] c
  | bodyStruct {i b d vals vs c} : env.decl i = .struct b → Tidy env cfg (.parts b) d vals vs c → Tidy env cfg (.body (.named i)) d vals [.seq vs] c
  /-- other types: a struct with a field 1 of that type -/
  | bodyWrapped {t d l v c} : t.isWrapped env = true → cfg.Ignores [1] l → d < cfg.recursionLimit → Tidy env cfg (.field t) (d + 1) (occ 1 l) [v] c →
      Tidy env cfg (.body t) d [.struct l] [v] c
  -- fields
  | fieldBoxed {t d vals vs c} : Tidy env cfg (.field t) d vals vs c → Tidy env cfg (.field (.boxed t)) d vals vs c
  /-- exactly one occurrence -/
  | fieldSingle {t d val v c} : t.isSingle = true → Tidy env cfg (.elem t) d [val] [v] c → Tidy env cfg (.field t) d [val] [v] c
  /-- a byte array without bytes may be left out -/
  | fieldNoBytes {d} : Tidy env cfg (.field (.small 0 u8)) d [] [.seq []] .zero
  | fieldNoBytesL {d vals} : (∀ x ∈ vals, x = .blob []) → Tidy env cfg (.field (.large 0 u8)) d vals [.seq []] .zero
  /-- one occurrence for each element -/
  | fieldVec {e d vals vs c} : e.isByte = false → Tidy env cfg (.each e) d vals vs c → Tidy env cfg (.field (.vec e)) d vals [.seq vs] (⟨vals.length, 0⟩ + c)
  | fieldList {e d vals vs c} : Tidy env cfg (.each e) d vals vs c → Tidy env cfg (.field (.coll .list e)) d vals [.seq vs] (⟨vals.length, 0⟩ + c)
  | fieldSet {e d vals vs c} : vs.Nodup → Tidy env cfg (.each e) d vals vs c →
      Tidy env cfg (.field (.coll .set e)) d vals [.seq vs] (⟨vals.length, 0⟩ + c)
  | fieldMap {k w d vals vs c} : (vs.map V.key).Nodup → Tidy env cfg (.each (.tuple [k, w])) d vals vs c →
      Tidy env cfg (.field (.map k w)) d vals [.seq vs] (⟨vals.length, 0⟩ + c)
  /-- at most one -/
  | fieldOption {e d vals vs c} : vals.length ≤ 1 → Tidy env cfg (.each e) d vals vs c → Tidy env cfg (.field (.option e)) d vals [.seq vs] c
  /-- as many as the length of the array -/
  | fieldSmall {n e d vals vs c} : e.isByte = false → vals.length = n → Tidy env cfg (.each e) d vals vs c → Tidy env cfg (.field (.small n e)) d vals [.seq vs] c
  | fieldLarge {n e d vals vs c} : e.isByte = false → vals.length = n → Tidy env cfg (.each e) d vals vs c → Tidy env cfg (.field (.large n e)) d vals [.seq vs] c
  -- single occurrences
  | elemPrim {p d val v n} : PrimReads p val v n → Tidy env cfg (.elem (.prim p)) d [val] [v] ⟨0, n⟩
  | elemBoxed {t d vals vs c} : Tidy env cfg (.elem t) d vals vs c → Tidy env cfg (.elem (.boxed t)) d vals vs c
  | elemVec {d data} : Tidy env cfg (.elem (.vec u8)) d [.blob data] [.ofBytes data] ⟨0, data.length⟩
  | elemSmall {n d data} : data.length = n → Tidy env cfg (.elem (.small n u8)) d [.blob data] [.ofBytes data] .zero
  | elemLarge {n d data} : data.length = n → Tidy env cfg (.elem (.large n u8)) d [.blob data] [.ofBytes data] .zero
  | elemStruct {t d l v c} : t.inStruct env = true → Tidy env cfg (.body t) d [.struct l] [v] c → Tidy env cfg (.elem t) d [.struct l] [v] c
  | elemDelegate {i b name t d val v c} : env.decl i = .struct b → b.tail = .delegate name t → d < cfg.recursionLimit → b.check [v] = true →
      Tidy env cfg (.elem t) (d + 1) [val] [v] c → Tidy env cfg (.elem (.named i)) d [val] [.seq [v]] c
  | elemVariant {i variants ca disc b d l vs c} : env.decl i = .enum variants ca → variants.find? (fun x => x.1 = disc) = some (disc, b) →
      Tidy env cfg (.parts b) d [.struct l] vs c → Tidy env cfg (.elem (.named i)) d [.enum disc l] [.variant disc vs] c
  | elemCatchAll {i variants disc b d l vs c} : env.decl i = .enum variants (some b) → (∀ x ∈ variants, x.1 ≠ disc) →
      Tidy env cfg (.parts b) d [.struct l] vs c → Tidy env cfg (.elem (.named i)) d [.enum disc l] [.variant disc vs] c
  -- a field of unknown type
  | unkInt {zc d n} : Tidy env cfg (.elem (.unknownField zc)) d [.int n] [.variant 0 [.num n.toNat]] .zero
  | unkBlob {zc d data} : Tidy env cfg (.elem (.unknownField zc)) d [.blob data] [.variant 1 [.ofBytes data]] ⟨0, if zc then 0 else data.length⟩
  | unkStruct {zc d l u c} : Tidy env cfg (.body (.unknownFields zc)) d [.struct l] [u] c → Tidy env cfg (.elem (.unknownField zc)) d [.struct l] [.variant 2 [u]] c
  | unkEnum {zc d disc l u c} : Tidy env cfg (.body (.unknownFields zc)) d [.struct l] [u] c →
      Tidy env cfg (.elem (.unknownField zc)) d [.enum disc l] [.variant 3 [.num disc.toNat, u]] c
  -- lists of occurrences
  | eachNil {t d} : Tidy env cfg (.each t) d [] [] .zero
  | eachCons {t d val vals v vs c c'} : Tidy env cfg (.elem t) d [val] [v] c → Tidy env cfg (.each t) d vals vs c' → Tidy env cfg (.each t) d (val :: vals) (v :: vs) (c + c')
  -- structs
  | fieldsNil {d l} : Tidy env cfg (.fields []) d [.struct l] [] .zero
  | fieldsCons {x xs d l v vs c c'} : d < cfg.recursionLimit → Tidy env cfg (.field x.ty) (d + 1) (occ x.tag l) [v] c →
      Tidy env cfg (.fields xs) d [.struct l] vs c' → Tidy env cfg (.fields (x :: xs)) d [.struct l] (v :: vs) (c + c')
  | partsPlain {b d l vs c} : b.tail = .plain → b.check vs = true → cfg.Ignores (b.fields.map (·.tag)) l → Tidy env cfg (.fields b.fields) d [.struct l] vs c →
      Tidy env cfg (.parts b) d [.struct l] vs c
  | partsDelegate {b name t d vals v c} : b.tail = .delegate name t → b.check [v] = true → d < cfg.recursionLimit → Tidy env cfg (.body t) (d + 1) vals [v] c →
      Tidy env cfg (.parts b) d vals [v] c
  | partsUnknown {b name zc d l vs es c c'} : b.tail = .unknown name zc → b.check (vs ++ [.seq es]) = true → d < cfg.recursionLimit →
      Tidy env cfg (.fields b.fields) d [.struct l] vs c → Tidy env cfg (.unknown zc) d [.struct (unknowns b.fields l)] es c' →
      Tidy env cfg (.parts b) d [.struct l] (vs ++ [.seq es]) (c + c')
  -- unknown fields: pairs of tag and content
  | unknownNil {zc d} : Tidy env cfg (.unknown zc) d [.struct []] [] .zero
  | unknownCons {zc d tag val l u es c c'} : d < cfg.recursionLimit → Tidy env cfg (.elem (.unknownField zc)) (d + 1) [val] [u] c →
      Tidy env cfg (.unknown zc) d [.struct l] es c' →
      Tidy env cfg (.unknown zc) d [.struct ((tag, val) :: l)] (.seq [.num tag.toNat, u] :: es) (⟨1, 0⟩ + c + c')

theorem toSet_nodup (vs : List V) : ∀ r, (r ++ vs).Nodup → vs.foldl (fun r v => setInsert v r) r = r ++ vs := by
  induction vs with
  | nil => intro r _; simp
  | cons v vs ih =>
    intro r h
    have hv : v ∉ r := fun hv => (List.nodup_append.1 h).2.2 v hv v (List.mem_cons_self ..) rfl
    rw [List.foldl_cons, setInsert, if_neg hv, ih _ (by simpa using h)]; simp

theorem toMap_nodup (vs : List V) : ∀ r, ((r ++ vs).map V.key).Nodup → vs.foldl (fun r v => mapInsert v r) r = r ++ vs := by
  induction vs with
  | nil => intro r _; simp
  | cons v vs ih =>
    intro r h
    have hv : r.any (fun x => x.key == v.key) = false := List.any_eq_false.2 fun x hx he => by
      rw [List.map_append] at h
      exact (List.nodup_append.1 h).2.2 _ (List.mem_map_of_mem hx) _ (List.mem_map_of_mem (List.mem_cons_self ..)) (by simpa using he)
    rw [List.foldl_cons, mapInsert, hv, if_neg (by simp), ih _ (by simpa using h)]; simp

theorem tidy_reads {env : Env} {cfg : Config} {it : RItem} {d : Nat} {vals : List Val} {vs : List V} {c : Stats} (h : Tidy env cfg it d vals vs c) : Reads env cfg it d vals vs c := by
  induction h with
  | bodyBoxed _ ih1 => exact .bodyBoxed ih1
  | bodyTuple h1 h2 _ ih3 => exact .bodyTuple h1 h2 ih3
  | bodyUnknown _ ih1 => exact .bodyUnknown ih1
  | bodyStruct h1 _ ih2 => exact .bodyStruct h1 ih2
  | bodyWrapped h1 h2 h3 _ ih4 => exact .bodyWrapped h1 h2 h3 ih4
  | fieldBoxed _ ih1 => exact .fieldBoxed ih1
  | fieldSingle h1 _ ih2 => exact .fieldSingle h1 ih2
  | fieldNoBytes => exact .fieldNoBytes
  | fieldNoBytesL h1 => exact .fieldNoBytesL h1
  | fieldVec h1 _ ih2 => exact .fieldVec h1 ih2
  | fieldList _ ih1 => exact .fieldList ih1
  | fieldSet h1 _ ih => have := Reads.fieldSet ih; rwa [← distinct_fold, toSet_nodup _ _ (by simpa using h1), List.nil_append] at this
  | fieldMap h1 _ ih => have := Reads.fieldMap ih; rwa [← entriesOf_fold, toMap_nodup _ _ (by simpa using h1), List.nil_append] at this
  | fieldOption h1 _ ih2 => exact .fieldOption h1 ih2
  | fieldSmall h1 h2 _ ih3 => exact .fieldSmall h1 h2 ih3
  | fieldLarge h1 h2 _ ih3 => exact .fieldLarge h1 h2 ih3
  | elemPrim h1 => exact .elemPrim h1
  | elemBoxed _ ih1 => exact .elemBoxed ih1
  | elemVec => exact .elemVec
  | elemSmall h1 => exact .elemSmall h1
  | elemLarge h1 => exact .elemLarge h1
  | elemStruct h1 _ ih2 => exact .elemStruct h1 ih2
  | elemDelegate h1 h2 h3 h4 _ ih5 => exact .elemDelegate h1 h2 h3 h4 ih5
  | elemVariant h1 h2 _ ih3 => exact .elemVariant h1 h2 ih3
  | elemCatchAll h1 h2 _ ih3 => exact .elemCatchAll h1 h2 ih3
  | unkInt => exact .unkInt
  | unkBlob => exact .unkBlob
  | unkStruct _ ih1 => exact .unkStruct ih1
  | unkEnum _ ih1 => exact .unkEnum ih1
  | eachNil => exact .eachNil
  | eachCons _ _ ih1 ih2 => exact .eachCons ih1 ih2
  | fieldsNil => exact .fieldsNil
  | fieldsCons h1 _ _ ih2 ih3 => exact .fieldsCons h1 ih2 ih3
  | partsPlain h1 h2 h3 _ ih4 => exact .partsPlain h1 h2 h3 ih4
  | partsDelegate h1 h2 h3 _ ih4 => exact .partsDelegate h1 h2 h3 ih4
  | partsUnknown h1 h2 h3 _ _ ih4 ih5 => exact .partsUnknown h1 h2 h3 ih4 ih5
  | unknownNil => exact .unknownNil
  | unknownCons h1 _ _ ih2 ih3 => exact .unknownCons h1 ih2 ih3

/-! ## Reading a value at the least cost -/

/-- At most `b` for the needs of the elements. -/
inductive Weighs (env : Env) (t : Ty) : List V → Nat → Prop where
  | nil : Weighs env t [] 0
  | cons {v vs b b'} : (∀ k, Needs env (.elem t) [v] k → k.used.collected ≤ b) → Weighs env t vs b' → Weighs env t (v :: vs) (b + b')

theorem Weighs.needs {env : Env} {t : Ty} {vs : List V} {b : Nat} (h : Weighs env t vs b) : ∀ {k}, Needs env (.each t) vs k → k.used.collected ≤ b := by
  induction h with
  | nil => intro k hk; cases hk; exact Nat.le_refl _
  | cons h _ ih =>
    intro k hk
    cases hk with
    | eachCons h1 h2 => exact Nat.add_le_add (h _ h1) (ih h2)

theorem Weighs.snoc {env : Env} {t : Ty} {vs : List V} {b c : Nat} {v : V} (h : Weighs env t vs b) (hv : ∀ k, Needs env (.elem t) [v] k → k.used.collected ≤ c) : Weighs env t (vs ++ [v]) (b + c) := by
  induction h with
  | nil => simpa using Weighs.cons hv .nil
  | cons h _ ih => rw [List.cons_append, Nat.add_assoc]; exact .cons h ih

theorem Weighs.replace {env : Env} {t : Ty} {vs : List V} {b c : Nat} {e : V} (h : Weighs env t vs b) (hn : (vs.map V.key).Nodup)
    (hv : ∀ k, Needs env (.elem t) [e] k → k.used.collected ≤ c) :
    ∃ b', Weighs env t (vs.map fun x => if x.key = e.key then e else x) b' ∧ b' ≤ b + c := by
  induction h with
  | nil => exact ⟨0, .nil, Nat.zero_le _⟩
  | @cons v vs b1 b2 h h' ih =>
    rw [List.map_cons, List.nodup_cons] at hn
    rw [List.map_cons]
    by_cases hk : v.key = e.key
    · rw [if_pos hk]
      have hid : vs.map (fun x => if x.key = e.key then e else x) = vs := by
        rw [List.map_congr_left (g := id), List.map_id]
        intro x hx
        by_cases hx' : x.key = e.key
        · exact absurd (List.mem_map.2 ⟨x, hx, hx'.trans hk.symm⟩) hn.1
        · simp [hx']
      rw [hid]
      exact ⟨c + b2, .cons hv h', by omega⟩
    · rw [if_neg hk]
      obtain ⟨b', h1, h2⟩ := ih hn.2
      exact ⟨b1 + b', .cons h h1, by omega⟩

theorem Weighs.set {env : Env} {t : Ty} {vs : List V} {b : Nat} (h : Weighs env t vs b) : ∀ (r : List V) (c : Nat), Weighs env t r c →
    ∃ b', Weighs env t (vs.foldl (fun r v => setInsert v r) r) b' ∧ b' ≤ c + b := by
  induction h with
  | nil => intro r c h; exact ⟨c, h, by omega⟩
  | @cons v vs b1 b2 h h' ih =>
    intro r c hr
    rw [List.foldl_cons]
    by_cases hv : v ∈ r
    · rw [show setInsert v r = r from if_pos hv]
      obtain ⟨b', h1, h2⟩ := ih r c hr
      exact ⟨b', h1, by omega⟩
    · rw [show setInsert v r = r ++ [v] from if_neg hv]
      obtain ⟨b', h1, h2⟩ := ih _ _ (hr.snoc h)
      exact ⟨b', h1, by omega⟩

theorem Weighs.map {env : Env} {t : Ty} {vs : List V} {b : Nat} (h : Weighs env t vs b) : ∀ (r : List V) (c : Nat), Weighs env t r c → (r.map V.key).Nodup →
    ∃ b', Weighs env t (vs.foldl (fun r v => mapInsert v r) r) b' ∧ b' ≤ c + b := by
  induction h with
  | nil => intro r c h _; exact ⟨c, h, by omega⟩
  | @cons v vs b1 b2 h h' ih =>
    intro r c hr hn
    rw [List.foldl_cons]
    have hn' : ((mapInsert v r).map V.key).Nodup := (map_fold [v] r hn).1
    obtain ⟨c', h1, h2⟩ : ∃ c', Weighs env t (mapInsert v r) c' ∧ c' ≤ c + b1 := by
      unfold mapInsert
      split
      · exact hr.replace hn h
      · exact ⟨_, hr.snoc h, Nat.le_refl _⟩
    obtain ⟨b', h3, h4⟩ := ih _ _ h1 hn'
    exact ⟨b', h3, by omega⟩

/-- As many elements as were inserted: no duplicates. -/
theorem toSet_length (vs : List V) : ∀ r : List V, r.Nodup → (vs.foldl (fun r v => setInsert v r) r).length ≤ r.length + vs.length ∧
    (r.length + vs.length ≤ (vs.foldl (fun r v => setInsert v r) r).length → (r ++ vs).Nodup) := by
  induction vs with
  | nil => intro r h; simp [h]
  | cons v vs ih =>
    intro r h
    rw [List.foldl_cons]
    obtain ⟨h1, h2⟩ := ih _ (nodup_setInsert (v := v) h)
    unfold setInsert at h1 h2 ⊢
    split at h1
    · rename_i hv
      rw [if_pos hv]
      exact ⟨by simp only [List.length_cons]; omega, fun hl => by simp only [List.length_cons] at hl; omega⟩
    · rename_i hv
      rw [if_neg hv] at h2 ⊢
      simp only [List.length_append, List.length_cons, List.length_nil] at h1 h2 ⊢
      exact ⟨by omega, fun hl => by simpa using h2 (by omega)⟩

theorem toMap_length (vs : List V) : ∀ r : List V, (r.map V.key).Nodup → (vs.foldl (fun r v => mapInsert v r) r).length ≤ r.length + vs.length ∧
    (r.length + vs.length ≤ (vs.foldl (fun r v => mapInsert v r) r).length → ((r ++ vs).map V.key).Nodup) := by
  induction vs with
  | nil => intro r h; simp [h]
  | cons v vs ih =>
    intro r h
    rw [List.foldl_cons]
    obtain ⟨h1, h2⟩ := ih (mapInsert v r) (map_fold [v] r h).1
    unfold mapInsert at h1 h2 ⊢
    split at h1
    · rename_i hv
      rw [if_pos hv]
      simp only [List.length_map] at h1
      exact ⟨by simp only [List.length_cons]; omega, fun hl => by simp only [List.length_cons] at hl; omega⟩
    · rename_i hv
      rw [if_neg hv] at h2 ⊢
      simp only [List.length_append, List.length_cons, List.length_nil] at h1 h2 ⊢
      exact ⟨by omega, fun hl => by simpa using h2 (by omega)⟩

/-- The values of an item have these needs. -/
def NeedsR (env : Env) : RItem → List V → Need → Prop
  | .body t => Needs env (.body t)
  | .field t => Needs env (.field t)
  | .elem t => Needs env (.elem t)
  | .each t => Needs env (.each t)
  | .fields ds => Needs env (.fields ds)
  | .parts b => Needs env (.parts b)
  | .unknown zc => fun vs k => ∃ known, Needs env (.unknown known zc) vs k

/-- The items are weighed. -/
def _root_.Fourleaf.RItem.Weighed (env : Env) : RItem → List V → Nat → Prop
  | .each t, vs, b => Weighs env t vs b
  | _, _, _ => True

theorem elem_body {env : Env} {t : Ty} {v : V} {k : Need} (ht : t.inStruct env = true) (h : Needs env (.elem t) [v] k) : ∃ k', Needs env (.body t) [v] k' ∧ k'.used = k.used := by
  cases h with
  | elemColl hc h =>
    refine ⟨_, .bodyWrapped (by revert hc; unfold Ty.isColl Ty.isWrapped; split <;> simp_all) h, rfl⟩
  | elemUnit => exact ⟨_, .bodyUnit, rfl⟩
  | elemTuple _ h => exact ⟨_, h, rfl⟩
  | elemUnknown h => exact ⟨_, h, rfl⟩
  | elemStruct _ _ h => exact ⟨_, h, rfl⟩
  | elemDelegate hd hb => simp [Ty.inStruct, hd, hb] at ht
  | elemVariant hd | elemCatchAll hd => simp [Ty.inStruct, hd] at ht
  | _ => simp [Ty.inStruct, Ty.isU8] at ht

theorem reads_tidy {env : Env} {cfg : Config} {it : RItem} {d : Nat} {vals : List Val} {vs : List V} {c : Stats} (h : Reads env cfg it d vals vs c) :
    it.Weighed env vs c.collected ∧ ∀ {k}, NeedsR env it vs k → k.used.collected ≤ c.collected ∧ (c.collected ≤ k.used.collected → Tidy env cfg it d vals vs c) := by
  induction h with
  | bodyBoxed _ ih =>
    refine ⟨trivial, fun {k} hk => ?_⟩
    cases (hk : Needs env (.body (.boxed _)) _ _) with
    | bodyBoxed h => exact ⟨(ih.2 h).1, fun hc => .bodyBoxed ((ih.2 h).2 hc)⟩
    | bodyWrapped hw => simp [Ty.isWrapped] at hw
  | bodyTuple h1 h2 _ ih =>
    refine ⟨trivial, fun {k} hk => ?_⟩
    cases (hk : Needs env (.body (.tuple _)) _ _) with
    | bodyUnit => exact ⟨Nat.zero_le _, fun hc => .bodyTuple h1 h2 ((ih.2 (k := .zero) (.fieldsNil (env := env))).2 hc)⟩
    | bodyTuple _ _ h => exact ⟨(ih.2 h).1, fun hc => .bodyTuple h1 h2 ((ih.2 h).2 hc)⟩
    | bodyWrapped hw => simp [Ty.isWrapped] at hw
  | bodyUnknown _ ih =>
    refine ⟨trivial, fun {k} hk => ?_⟩
    cases (hk : Needs env (.body (.unknownFields _)) _ _) with
    | bodyUnknown h => exact ⟨(ih.2 ⟨_, h⟩).1, fun hc => .bodyUnknown ((ih.2 ⟨_, h⟩).2 hc)⟩
    | bodyWrapped hw => simp [Ty.isWrapped] at hw
  | bodyStruct hd _ ih =>
    refine ⟨trivial, fun {k} hk => ?_⟩
    cases (hk : Needs env (.body (.named _)) _ _) with
    | bodyStruct hd' h =>
      rw [hd] at hd'; cases hd'
      exact ⟨(ih.2 h).1, fun hc => .bodyStruct hd ((ih.2 h).2 hc)⟩
    | bodyWrapped hw => simp [Ty.isWrapped, hd] at hw
  | bodyWrapped hw h2 h3 _ ih =>
    refine ⟨trivial, fun {k} hk => ?_⟩
    cases (hk : Needs env (.body _) _ _) with
    | bodyWrapped _ h => exact ⟨(ih.2 h).1, fun hc => .bodyWrapped hw h2 h3 ((ih.2 h).2 hc)⟩
    | bodyStruct hd => simp [Ty.isWrapped, hd] at hw
    | _ => simp [Ty.isWrapped] at hw
  | fieldBoxed _ ih =>
    refine ⟨trivial, fun {k} hk => ?_⟩
    cases (hk : Needs env (.field (.boxed _)) _ _) with
    | fieldBoxed h => exact ⟨(ih.2 h).1, fun hc => .fieldBoxed ((ih.2 h).2 hc)⟩
    | fieldSingle hs => simp [Ty.isSingle] at hs
  | fieldSingle hs _ ih =>
    refine ⟨trivial, fun {k} hk => ?_⟩
    cases (hk : Needs env (.field _) _ _) with
    | fieldSingle _ h => exact ⟨(ih.2 h).1, fun hc => .fieldSingle hs ((ih.2 h).2 hc)⟩
    | fieldVec hu | fieldSmall hu | fieldLarge hu => rw [Ty.isByte_eq] at hu; simp [Ty.isSingle, hu] at hs
    | _ => simp [Ty.isSingle] at hs
  | fieldNoBytes =>
    refine ⟨trivial, fun {k} hk => ⟨?_, fun _ => .fieldNoBytes⟩⟩
    cases (hk : Needs env (.field (.small 0 u8)) _ _) with
    | fieldSingle _ h =>
      generalize he : [V.seq []] = w at h
      cases h with
      | elemSmall => exact Nat.le_refl _
      | elemColl hc => simp [Ty.isColl, Ty.isU8] at hc
    | fieldSmall hu => simp [Ty.isU8] at hu
  | fieldNoBytesL hv =>
    refine ⟨trivial, fun {k} hk => ⟨?_, fun _ => .fieldNoBytesL hv⟩⟩
    cases (hk : Needs env (.field (.large 0 u8)) _ _) with
    | fieldSingle _ h =>
      generalize he : [V.seq []] = w at h
      cases h with
      | elemLarge => exact Nat.le_refl _
      | elemColl hc => simp [Ty.isColl, Ty.isU8] at hc
    | fieldLarge hu => simp [Ty.isU8] at hu
  | fieldVec hu hr ih =>
    rw [Ty.isByte_eq] at hu
    refine ⟨trivial, fun {k} hk => ?_⟩
    have hl := each_length hr rfl
    cases (hk : Needs env (.field (.vec _)) _ _) with
    | fieldSingle hs => simp [Ty.isSingle, hu] at hs
    | fieldVec _ h =>
      have := ih.2 h
      simp only [Need.collecting, Stats.add_collected] at *
      exact ⟨by omega, fun hc => .fieldVec hu (this.2 (by omega))⟩
  | fieldList hr ih =>
    refine ⟨trivial, fun {k} hk => ?_⟩
    have hl := each_length hr rfl
    cases (hk : Needs env (.field (.coll .list _)) _ _) with
    | fieldSingle hs => simp [Ty.isSingle] at hs
    | fieldList h =>
      have := ih.2 h
      simp only [Need.collecting, Stats.add_collected] at *
      exact ⟨by omega, fun hc => .fieldList (this.2 (by omega))⟩
  | @fieldSet e d vals vs c hr ih =>
    rw [← distinct_fold]
    refine ⟨trivial, fun {k} hk => ?_⟩
    have hl := each_length hr rfl
    cases (hk : Needs env (.field (.coll .set _)) _ _) with
    | fieldSingle hs => simp [Ty.isSingle] at hs
    | @fieldSet _ _ k _ h =>
      obtain ⟨b', w1, w2⟩ := Weighs.set (env := env) (t := e) ih.1 [] 0 .nil
      have hw := w1.needs h
      obtain ⟨l1, l2⟩ := toSet_length vs [] .nil
      simp only [Need.collecting, Stats.add_collected, List.length_nil, Nat.zero_add, List.nil_append] at *
      refine ⟨by omega, fun hc => ?_⟩
      have hn := l2 (by omega)
      have he := toSet_nodup vs [] (by simpa using hn)
      rw [List.nil_append] at he
      rw [he] at h hc ⊢
      exact .fieldSet hn ((ih.2 h).2 (by omega))
  | @fieldMap tk tw d vals vs c hr ih =>
    rw [← entriesOf_fold]
    refine ⟨trivial, fun {k} hk => ?_⟩
    have hl := each_length hr rfl
    cases (hk : Needs env (.field (.map _ _)) _ _) with
    | fieldSingle hs => simp [Ty.isSingle] at hs
    | @fieldMap _ _ _ k _ h =>
      obtain ⟨b', w1, w2⟩ := Weighs.map (env := env) (t := .tuple [tk, tw]) ih.1 [] 0 .nil (by simp)
      have hw := w1.needs h
      obtain ⟨l1, l2⟩ := toMap_length vs [] (by simp)
      simp only [Need.collecting, Stats.add_collected, List.length_nil, Nat.zero_add, List.nil_append] at *
      refine ⟨by omega, fun hc => ?_⟩
      have hn := l2 (by omega)
      have he := toMap_nodup vs [] (by simpa using hn)
      rw [List.nil_append] at he
      rw [he] at h hc ⊢
      exact .fieldMap hn ((ih.2 h).2 (by omega))
  | fieldOption hl _ ih =>
    refine ⟨trivial, fun {k} hk => ?_⟩
    cases (hk : Needs env (.field (.option _)) _ _) with
    | fieldSingle hs => simp [Ty.isSingle] at hs
    | fieldOption _ h => exact ⟨(ih.2 h).1, fun hc => .fieldOption hl ((ih.2 h).2 hc)⟩
  | fieldSmall hu hl _ ih =>
    rw [Ty.isByte_eq] at hu
    refine ⟨trivial, fun {k} hk => ?_⟩
    cases (hk : Needs env (.field (.small _ _)) _ _) with
    | fieldSingle hs => simp [Ty.isSingle, hu] at hs
    | fieldSmall _ _ h => exact ⟨(ih.2 h).1, fun hc => .fieldSmall hu hl ((ih.2 h).2 hc)⟩
  | fieldLarge hu hl _ ih =>
    rw [Ty.isByte_eq] at hu
    refine ⟨trivial, fun {k} hk => ?_⟩
    cases (hk : Needs env (.field (.large _ _)) _ _) with
    | fieldSingle hs => simp [Ty.isSingle, hu] at hs
    | fieldLarge _ _ h => exact ⟨(ih.2 h).1, fun hc => .fieldLarge hu hl ((ih.2 h).2 hc)⟩
  | elemPrim h =>
    refine ⟨trivial, fun {k} hk => ?_⟩
    cases (hk : Needs env (.elem (.prim _)) _ _) with
    | elemPrim => exact ⟨Nat.le_refl _, fun _ => .elemPrim h⟩
    | elemColl hc => simp [Ty.isColl] at hc
  | elemBoxed _ ih =>
    refine ⟨trivial, fun {k} hk => ?_⟩
    cases (hk : Needs env (.elem (.boxed _)) _ _) with
    | elemBoxed h => exact ⟨(ih.2 h).1, fun hc => .elemBoxed ((ih.2 h).2 hc)⟩
    | elemColl hc => simp [Ty.isColl] at hc
  | @elemVec d data =>
    refine ⟨trivial, fun {k} hk => ⟨?_, fun _ => .elemVec⟩⟩
    replace hk : Needs env (.elem (.vec u8)) [.ofBytes data] k := hk
    generalize [V.ofBytes data] = w at hk
    cases hk with
    | elemVec => exact Nat.le_refl _
    | elemColl hc => simp [Ty.isColl, Ty.isU8] at hc
  | @elemSmall n d data hl =>
    refine ⟨trivial, fun {k} hk => ⟨?_, fun _ => .elemSmall hl⟩⟩
    replace hk : Needs env (.elem (.small n u8)) [.ofBytes data] k := hk
    generalize [V.ofBytes data] = w at hk
    cases hk with
    | elemSmall => exact Nat.le_refl _
    | elemColl hc => simp [Ty.isColl, Ty.isU8] at hc
  | @elemLarge n d data hl =>
    refine ⟨trivial, fun {k} hk => ⟨?_, fun _ => .elemLarge hl⟩⟩
    replace hk : Needs env (.elem (.large n u8)) [.ofBytes data] k := hk
    generalize [V.ofBytes data] = w at hk
    cases hk with
    | elemLarge => exact Nat.le_refl _
    | elemColl hc => simp [Ty.isColl, Ty.isU8] at hc
  | elemStruct ht _ ih =>
    refine ⟨trivial, fun {k} hk => ?_⟩
    obtain ⟨k', h, hu⟩ := elem_body ht hk
    rw [← hu]
    exact ⟨(ih.2 h).1, fun hc => .elemStruct ht ((ih.2 h).2 hc)⟩
  | elemDelegate hd ht hl hc _ ih =>
    refine ⟨trivial, fun {k} hk => ?_⟩
    cases (hk : Needs env (.elem (.named _)) _ _) with
    | elemColl hc => simp [Ty.isColl] at hc
    | elemStruct hd' ht' => rw [hd] at hd'; cases hd'; rw [ht] at ht'; cases ht'
    | elemDelegate hd' ht' _ _ h =>
      rw [hd] at hd'; cases hd'; rw [ht] at ht'; cases ht'
      exact ⟨(ih.2 h).1, fun hc' => .elemDelegate hd ht hl hc ((ih.2 h).2 hc')⟩
  | elemVariant hd hf _ ih =>
    refine ⟨trivial, fun {k} hk => ?_⟩
    cases (hk : Needs env (.elem (.named _)) _ _) with
    | elemColl hc => simp [Ty.isColl] at hc
    | elemStruct hd' => rw [hd] at hd'; cases hd'
    | elemVariant hd' hf' h =>
      rw [hd] at hd'; cases hd'; rw [hf] at hf'; cases hf'
      exact ⟨(ih.2 h).1, fun hc => .elemVariant hd hf ((ih.2 h).2 hc)⟩
    | elemCatchAll hd' hn =>
      rw [hd] at hd'; cases hd'
      exact absurd rfl (hn _ (List.mem_of_find?_eq_some hf))
  | elemCatchAll hd hn _ ih =>
    refine ⟨trivial, fun {k} hk => ?_⟩
    cases (hk : Needs env (.elem (.named _)) _ _) with
    | elemColl hc => simp [Ty.isColl] at hc
    | elemStruct hd' => rw [hd] at hd'; cases hd'
    | elemVariant hd' hf' =>
      rw [hd] at hd'; cases hd'
      exact absurd rfl (hn _ (List.mem_of_find?_eq_some hf'))
    | elemCatchAll hd' _ h =>
      rw [hd] at hd'; cases hd'
      exact ⟨(ih.2 h).1, fun hc => .elemCatchAll hd hn ((ih.2 h).2 hc)⟩
  | unkInt =>
    refine ⟨trivial, fun {k} hk => ⟨?_, fun _ => .unkInt⟩⟩
    replace hk : Needs env (.elem (.unknownField _)) _ _ := hk
    generalize he : [V.variant 0 _] = w at hk
    cases hk with
    | unkInt => exact Nat.le_refl _
    | elemColl hc => simp [Ty.isColl] at hc
    | _ => simp at he
  | unkBlob =>
    refine ⟨trivial, fun {k} hk => ⟨?_, fun _ => .unkBlob⟩⟩
    replace hk : Needs env (.elem (.unknownField _)) _ _ := hk
    generalize he : [V.variant 1 _] = w at hk
    cases hk with
    | unkBlob => exact Nat.le_refl _
    | elemColl hc => simp [Ty.isColl] at hc
    | _ => simp at he
  | unkStruct _ ih =>
    refine ⟨trivial, fun {k} hk => ?_⟩
    cases (hk : Needs env (.elem (.unknownField _)) _ _) with
    | unkStruct h => exact ⟨(ih.2 h).1, fun hc => .unkStruct ((ih.2 h).2 hc)⟩
    | elemColl hc => simp [Ty.isColl] at hc
  | unkEnum _ ih =>
    refine ⟨trivial, fun {k} hk => ?_⟩
    replace hk : Needs env (.elem (.unknownField _)) _ _ := hk
    generalize he : [V.variant 3 _] = w at hk
    cases hk with
    | unkEnum h =>
      simp only [List.cons.injEq, V.variant.injEq, and_true, true_and] at he
      obtain ⟨hn, rfl⟩ := he
      rw [← hn]
      exact ⟨(ih.2 h).1, fun hc => .unkEnum ((ih.2 h).2 hc)⟩
    | elemColl hc => simp [Ty.isColl] at hc
    | _ => simp at he
  | eachNil =>
    refine ⟨.nil, fun {k} hk => ?_⟩
    cases (hk : Needs env (.each _) _ _) with
    | eachNil => exact ⟨Nat.le_refl _, fun _ => .eachNil⟩
  | eachCons _ _ ih1 ih2 =>
    refine ⟨.cons (fun k hk => (ih1.2 hk).1) ih2.1, fun {k} hk => ?_⟩
    cases (hk : Needs env (.each _) _ _) with
    | eachCons h1 h2 =>
      have g1 := ih1.2 h1
      have g2 := ih2.2 h2
      simp only [Need.seq, Stats.add_collected] at *
      exact ⟨by omega, fun hc => .eachCons (g1.2 (by omega)) (g2.2 (by omega))⟩
  | fieldsNil =>
    refine ⟨trivial, fun {k} hk => ?_⟩
    cases (hk : Needs env (.fields _) _ _) with
    | fieldsNil => exact ⟨Nat.le_refl _, fun _ => .fieldsNil⟩
  | fieldsCons hd _ _ ih1 ih2 =>
    refine ⟨trivial, fun {k} hk => ?_⟩
    cases (hk : Needs env (.fields _) _ _) with
    | fieldsCons h1 h2 =>
      have g1 := ih1.2 h1
      have g2 := ih2.2 h2
      simp only [Need.seq, Need.nest, Stats.add_collected] at *
      exact ⟨by omega, fun hc => .fieldsCons hd (g1.2 (by omega)) (g2.2 (by omega))⟩
  | partsPlain ht hc hi _ ih =>
    refine ⟨trivial, fun {k} hk => ?_⟩
    cases (hk : Needs env (.parts _) _ _) with
    | partsPlain _ _ h => exact ⟨(ih.2 h).1, fun hc' => .partsPlain ht hc hi ((ih.2 h).2 hc')⟩
    | partsDelegate g => rw [ht] at g; cases g
    | partsUnknown g => rw [ht] at g; cases g
  | partsDelegate ht hc hd _ ih =>
    refine ⟨trivial, fun {k} hk => ?_⟩
    replace hk : Needs env (.parts _) _ _ := hk
    generalize he : [_] = w at hk
    cases hk with
    | partsPlain g => rw [ht] at g; cases g
    | partsDelegate g _ _ h =>
      rw [ht] at g; cases g; cases he
      exact ⟨(ih.2 h).1, fun hc' => .partsDelegate ht hc hd ((ih.2 h).2 hc')⟩
    | partsUnknown g => rw [ht] at g; cases g
  | @partsUnknown b name zc d l vs es c c' ht hc hd _ _ ih1 ih2 =>
    refine ⟨trivial, fun {k} hk => ?_⟩
    replace hk : Needs env (.parts _) _ _ := hk
    generalize he : vs ++ [V.seq es] = w at hk
    cases hk with
    | partsPlain g => rw [ht] at g; cases g
    | partsDelegate g => rw [ht] at g; cases g
    | partsUnknown g _ h1 h2 =>
      rw [ht] at g; cases g
      obtain ⟨rfl, he'⟩ := List.append_inj' he rfl
      cases he'
      have g1 := ih1.2 h1
      have g2 := ih2.2 ⟨_, h2⟩
      simp only [Need.seq, Need.nest, Need.zero, Stats.add_collected] at g1 g2 ⊢
      exact ⟨by omega, fun hc' => .partsUnknown ht hc hd (g1.2 (by omega)) (g2.2 (by omega))⟩
  | unknownNil =>
    refine ⟨trivial, fun {k} hk => ?_⟩
    obtain ⟨_, hk⟩ := hk
    cases hk with
    | unknownNil => exact ⟨Nat.le_refl _, fun _ => .unknownNil⟩
  | @unknownCons zc d tag val l u es c c' hd _ _ ih1 ih2 =>
    refine ⟨trivial, fun {k} hk => ?_⟩
    obtain ⟨_, hk⟩ := hk
    generalize he : V.seq [V.num tag.toNat, u] :: es = w at hk
    cases hk with
    | unknownNil => cases he
    | unknownCons _ _ h1 h2 =>
      simp only [List.cons.injEq, V.seq.injEq, and_true] at he
      obtain ⟨⟨hn, rfl⟩, rfl⟩ := he
      rw [← hn]
      have g1 := ih1.2 h1
      have g2 := ih2.2 ⟨_, h2⟩
      simp only [Need.seq, Need.nest, Need.collecting, Stats.add_collected] at *
      exact ⟨by omega, fun hc => .unknownCons hd (g1.2 (by omega)) (g2.2 (by omega))⟩

end Fourleaf.Props
