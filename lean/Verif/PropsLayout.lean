import Verif.Layout
import Verif.SerShape

/-! # C80: what is written has the documented form -/

namespace Fourleaf
open Spec

theorem fieldsToks_append : ∀ a b : Fields, fieldsToks (a ++ b) = fieldsToks a ++ fieldsToks b
  | [], b => by simp [fieldsToks]
  | (t, v) :: a, b => by simp [fieldsToks, fieldsToks_append a b]

theorem fieldsToks_one (g : Byte) (val : Val) : fieldsToks [(g, val)] = val.toks g := by simp [fieldsToks]

/-- The serialising methods lay the value out. -/
structure SLay (env : Env) (o : SOps) : Prop where
  body : ∀ t v cs, o.body t v = some cs → ∃ l, Layout env (.body t v l) ∧ callToks cs = fieldsToks l ++ [.endStruct]
  field : ∀ t g v cs, o.field t g v = some cs → ∃ vals : List Val, Layout env (.field t v vals) ∧ callToks cs = fieldsToks (vals.map fun val => (g, val))
  element : ∀ t g v cs, o.element t g v = some cs → ∃ val, Layout env (.element t v val) ∧ callToks cs = val.toks g

theorem serAll_lay {env : Env} {f : V → Option (List WCall)} {t : Ty} {g : Byte} (h : ∀ v cs, f v = some cs → ∃ val, Layout env (.element t v val) ∧ callToks cs = val.toks g) :
    ∀ vs cs, serAll f vs = some cs → ∃ vals : List Val, Layout env (.each t vs vals) ∧ callToks cs = fieldsToks (vals.map fun val => (g, val))
  | [], cs, hc => by cases hc; exact ⟨[], .eachNil, rfl⟩
  | v :: vs, cs, hc => by
    simp only [serAll, Option.bind_eq_some_iff, Option.map_eq_some_iff] at hc
    obtain ⟨a, h1, b, h2, rfl⟩ := hc
    obtain ⟨val, h1, h1'⟩ := h v a h1
    obtain ⟨vals, h2, h2'⟩ := serAll_lay h vs b h2
    exact ⟨val :: vals, .eachCons h1 h2, by rw [callToks_append, h1', h2']; simp [fieldsToks]⟩

theorem u64_ofNat_eq {n : Nat} (h : n < 2 ^ 64) : ∃ u : UInt64, u = UInt64.ofNat n ∧ u.toNat = n := ⟨_, rfl, u64nat h⟩

theorem prim_lay {env : Env} {p : Prim} {g : Byte} {v : V} {cs : List WCall} (h : p.ser g v = some cs) : ∃ val, Layout env (.element (.prim p) v val) ∧ callToks cs = val.toks g := by
  suffices ∃ val, PrimForm p v val ∧ callToks cs = val.toks g by
    obtain ⟨val, h1, h2⟩ := this; exact ⟨val, .elementPrim h1, h2⟩
  unfold Prim.ser at h
  split at h
  · cases h; exact ⟨_, .phantom, rfl⟩
  · cases h
    rename_i b
    cases b
    · exact ⟨_, .false, rfl⟩
    · exact ⟨_, .true, rfl⟩
  · split at h
    · rename_i k i hk
      cases h
      obtain ⟨n, h1, h2⟩ := k.call_toks g hk.1 hk.2
      refine ⟨.int n, ?_, by simp only [callToks, List.flatMap_cons, List.flatMap_nil, h1, Val.toks, List.append_nil]⟩
      have hu : ∀ k' : IntTy, k'.wire i = i → k' ∈ [IntTy.u8, .u16, .u32, .u64, .usize] → (n.toNat : Int) = i → PrimForm (.int k') (.num i) (.int n) := by
        intro k' _ hm hn
        rw [← hn]; exact .unsigned hm
      have hs : ∀ k' : IntTy, k' ∈ [IntTy.i8, .i16, .i32, .i64, .isize] → (n.toNat : Int) = zigzagInt i → PrimForm (.int k') (.num i) (.int n) := by
        intro k' hm hn
        unfold zigzagInt at hn
        split at hn
        · exact .natural hm ‹_› hn
        · exact .negative hm (by omega) hn
      cases k <;> first | exact hu _ rfl (by simp) h2 | exact hs _ (by simp) h2
    · cases h
  · cases h
    rename_i c
    refine ⟨.int (UInt64.ofNat c.val.toNat), .char ?_, rfl⟩
    exact u64nat (by have := c.val.toNat_lt; omega)
  · cases h; exact ⟨_, .string, rfl⟩
  · cases h; exact ⟨_, .strRef, rfl⟩
  · rw [Option.map_eq_some_iff] at h
    obtain ⟨d, h1, rfl⟩ := h
    rw [bytesOf_eq h1]
    exact ⟨_, .bytesRef, rfl⟩
  · cases h

section
variable {env : Env} {o : SOps} (H : SLay env o)
include H

theorem serFields_lay : ∀ ds vs r, serFields o ds vs = some r → ∃ vs' l, vs = vs' ++ r.2 ∧ Layout env (.fields ds vs' l) ∧ callToks r.1 = fieldsToks l
  | [], vs, r, h => by simp only [serFields] at h; cases h; exact ⟨[], [], rfl, .fieldsNil, rfl⟩
  | _ :: _, [], r, h => by cases h
  | d :: ds, v :: vs, r, h => by
    simp only [serFields, Option.bind_eq_some_iff, Option.map_eq_some_iff] at h
    obtain ⟨a, h1, b, h2, rfl⟩ := h
    obtain ⟨vals, h1, h1'⟩ := H.field _ _ _ _ h1
    obtain ⟨vs', l', rfl, h2, h2'⟩ := serFields_lay ds vs b h2
    exact ⟨v :: vs', _, rfl, .fieldsCons h1 h2, by rw [callToks_append, h1', h2', fieldsToks_append]⟩

omit H in
theorem Layout.unknownBody {zc : Bool} {v : V} {l : Fields} (h : Layout env (.body (.unknownFields zc) v l)) : v = .seq (asUnknowns l) := by
  cases h with
  | bodyUnknown => rfl
  | bodyOther h _ =>
    exfalso
    cases h with
    | bytes h => cases h
    | collection h => cases h

theorem macroBodySer_lay {b : Body} {vs : List V} {cs : List WCall} (h : macroBodySer o b vs = some cs) :
    ∃ l, Layout env (.parts b vs l) ∧ callToks cs = fieldsToks l ++ [.endStruct] := by
  simp only [macroBodySer, Option.bind_eq_some_iff] at h
  obtain ⟨⟨r1, r2⟩, h1, h2⟩ := h
  obtain ⟨vs', l, rfl, hl, h1'⟩ := serFields_lay H _ _ _ h1
  clear h1
  have h1 := hl
  simp only at h1' h2 ⊢
  split at h2
  · cases h2; rename_i ht
    exact ⟨l, .partsPlain ht (by rw [List.append_nil]; exact h1), by rw [callToks_append, h1']; rfl⟩
  · rw [Option.map_eq_some_iff] at h2
    obtain ⟨c, h3, rfl⟩ := h2
    rename_i ht
    obtain ⟨l', h3, h3'⟩ := H.body _ _ _ h3
    exact ⟨l ++ l', .partsDelegate ht h1 h3, by rw [callToks_append, h1', h3', fieldsToks_append, List.append_assoc]⟩
  · rw [Option.map_eq_some_iff] at h2
    obtain ⟨c, h3, rfl⟩ := h2
    rename_i ht
    obtain ⟨l', h3, h3'⟩ := H.body _ _ _ h3
    cases h3.unknownBody
    exact ⟨l ++ l', .partsUnknown ht h1, by rw [callToks_append, h1', h3', fieldsToks_append, List.append_assoc]⟩
  · cases h2

theorem default_lay {t : Ty} {v : V} {cs : List WCall} (h : defaultBodySer o t v = some cs) :
    ∃ vals : List Val, Layout env (.field t v vals) ∧ callToks cs = fieldsToks (vals.map fun val => (1, val)) ++ [.endStruct] := by
  rw [defaultBodySer, Option.map_eq_some_iff] at h
  obtain ⟨a, h1, rfl⟩ := h
  obtain ⟨vals, h1, h1'⟩ := H.field _ _ _ _ h1
  exact ⟨vals, h1, by rw [callToks_append, h1']; rfl⟩

theorem wrapped_lay {t : Ty} {g : Byte} {v : V} {cs : List WCall} (h : wrapped o t g v = some cs) :
    ∃ vals : List Val, Layout env (.field t v vals) ∧ callToks cs = (Val.struct (vals.map fun val => (1, val))).toks g := by
  rw [wrapped, Option.map_eq_some_iff] at h
  obtain ⟨a, h1, rfl⟩ := h
  obtain ⟨vals, h1, h1'⟩ := H.field _ _ _ _ h1
  exact ⟨vals, h1, by rw [List.cons_append, callToks_cons, callToks_append, h1']; simp [Val.toks, WCall.toks, callToks]⟩

omit H in
theorem notStruct {t : Ty} (h : t.isWrapped env = true) : NotStruct env t := by
  cases t with
  | prim p => exact .prim
  | boxed _ => cases h
  | small n e => 
    cases he : e.isU8
    · exact .collection (.small he)
    · cases isU8_eq he; exact .bytes .small
  | large n e => 
    cases he : e.isU8
    · exact .collection (.large he)
    · cases isU8_eq he; exact .bytes .large
  | vec e => 
    cases he : e.isU8
    · exact .collection (.vec he)
    · cases isU8_eq he; exact .bytes .vec
  | tuple _ => cases h
  | coll => exact .collection .coll
  | option => exact .collection .option
  | map => exact .map
  | unknownFields => cases h
  | unknownField => exact .unknownField
  | named i =>
    simp only [Ty.isWrapped] at h
    split at h
    · cases h
    · exact .enum ‹_›

omit H in
/-- Values of structs are sequences. -/
theorem Layout.structSeq_aux {p : Piece} (h : Layout env p) : ∀ i b, env.decl i = .struct b →
    (∀ v l, p = .body (.named i) v l → ∃ vs, v = .seq vs) ∧ (∀ v x, p = .element (.named i) v x → ∃ vs, v = .seq vs) ∧ (∀ v x, p = .field (.named i) v x → ∃ vs, v = .seq vs) := by
  induction h with
  | bodyStruct hd _ _ => intro i b hb; exact ⟨fun v l h => (by cases h; exact ⟨_, rfl⟩), nofun, nofun⟩
  | bodyOther hn _ _ =>
    intro i b hb
    refine ⟨fun v l h => ?_, nofun, nofun⟩
    cases h
    cases hn with
    | bytes h => cases h
    | collection h => cases h
    | enum h => rw [hb] at h; cases h
  | elementStruct hd _ _ ih => intro i b hb; exact ⟨nofun, fun v x h => (by cases h; exact (ih _ _ hb).1 _ _ rfl), nofun⟩
  | elementDelegate hd _ _ _ => intro i b hb; exact ⟨nofun, fun v x h => (by cases h; exact ⟨_, rfl⟩), nofun⟩
  | elementVariant hd _ _ _ => intro i b hb; exact ⟨nofun, fun v x h => (by cases h; rw [hb] at hd; cases hd), nofun⟩
  | elementCatchAll hd _ _ _ => intro i b hb; exact ⟨nofun, fun v x h => (by cases h; rw [hb] at hd; cases hd), nofun⟩
  | elementBytes h => intro i b hb; exact ⟨nofun, fun v x h' => (by cases h'; cases h), nofun⟩
  | elementCollection h _ _ => intro i b hb; exact ⟨nofun, fun v x h' => (by cases h'; cases h), nofun⟩
  | fieldCollection h _ _ => intro i b hb; exact ⟨nofun, nofun, fun v x h' => (by cases h'; cases h)⟩
  | fieldOne _ _ ih => intro i b hb; exact ⟨nofun, nofun, fun v x h => (by cases h; exact (ih _ _ hb).2.1 _ _ rfl)⟩
  | _ => intro i b hb; exact ⟨nofun, nofun, nofun⟩

omit H in
theorem Layout.unitField {v : V} {vals : List Val} (h : Layout env (.field (.tuple []) v vals)) : v = .seq [] ∧ vals = [.struct []] := by
  cases h with
  | fieldCollection h => cases h
  | fieldOne _ h =>
    cases h with
    | elementCollection h => cases h
    | elementBytes h => cases h
    | elementTuple h => exact absurd rfl h
    | elementUnit => exact ⟨rfl, rfl⟩

omit H in
theorem Layout.unknownElement {zc : Bool} {v : V} {vals : List Val} (h : Layout env (.field (.unknownField zc) v vals)) : ∃ val, v = val.asUnknown ∧ vals = [val] := by
  cases h with
  | fieldCollection h => cases h
  | fieldOne _ h =>
    cases h with
    | elementCollection h => cases h
    | elementBytes h => cases h
    | elementUnknownField => exact ⟨_, rfl, rfl⟩

theorem serUnknowns_lay {zc : Bool} : ∀ (vs : List V) (cs : List WCall), serAll (serUnknown o zc) vs = some cs → ∃ l, vs = asUnknowns l ∧ callToks cs = fieldsToks l
  | [], cs, hc => by cases hc; exact ⟨[], rfl, rfl⟩
  | v :: vs, cs, hc => by
    simp only [serAll, Option.bind_eq_some_iff, Option.map_eq_some_iff] at hc
    obtain ⟨a, h1, b, h2, rfl⟩ := hc
    obtain ⟨l, rfl, h2'⟩ := serUnknowns_lay vs b h2
    unfold serUnknown at h1
    split at h1
    · split at h1
      · rename_i tag u ht
        obtain ⟨vals, h, h'⟩ := H.field _ _ _ _ h1
        obtain ⟨val, rfl, rfl⟩ := h.unknownElement
        refine ⟨(UInt8.ofNat tag.toNat, val) :: l, ?_, ?_⟩
        · simp only [asUnknowns]
          have : ((UInt8.ofNat tag.toNat).toNat : Int) = tag := by rw [u8nat (by omega)]; omega
          rw [this]
        · rw [callToks_append, h', h2']; simp [fieldsToks]
      · cases h1
    · cases h1

theorem bodySer_lay (t : Ty) (v : V) (cs : List WCall) (h : bodySer env o t v = some cs) : ∃ l, Layout env (.body t v l) ∧ callToks cs = fieldsToks l ++ [.endStruct] := by
  have hdef : t.isWrapped env = true → defaultBodySer o t v = some cs → ∃ l, Layout env (.body t v l) ∧ callToks cs = fieldsToks l ++ [.endStruct] := by
    intro ht h
    obtain ⟨vals, h1, h2⟩ := default_lay H h
    exact ⟨_, .bodyOther (notStruct ht) h1, h2⟩
  unfold bodySer at h
  split at h
  · obtain ⟨l, h1, h2⟩ := H.body _ _ _ h
    exact ⟨l, .bodyPointer h1, h2⟩
  · split at h
    · rename_i a ha
      cases h
      obtain ⟨vs', l, rfl, h1, h1'⟩ := serFields_lay H _ _ _ ha
      exact ⟨l, .bodyTuple (by simp) (by rw [List.append_nil]; exact h1), by rw [callToks_append, h1']; rfl⟩
    · cases h
  · rw [Option.map_eq_some_iff] at h
    obtain ⟨a, h1, rfl⟩ := h
    obtain ⟨l, rfl, h1'⟩ := serUnknowns_lay H _ _ h1
    exact ⟨l, .bodyUnknown, by rw [callToks_append, h1']; rfl⟩
  · split at h
    · obtain ⟨l, h1, h2⟩ := macroBodySer_lay H h
      exact ⟨l, .bodyStruct ‹_› h1, h2⟩
    · rename_i hd
      exact hdef (by simp only [Ty.isWrapped, hd]) h
  · cases h
  · cases h
  · rename_i hb ht hu _ _ hn
    obtain ⟨vals, h1, h2⟩ := default_lay H h
    by_cases hw : t.isWrapped env = true
    · exact ⟨_, .bodyOther (notStruct hw) h1, h2⟩
    · cases t with
      | boxed t => exact (hb _ rfl).elim
      | tuple ts =>
        cases ts with
        | nil => obtain ⟨rfl, rfl⟩ := h1.unitField; exact ⟨_, .bodyUnit, h2⟩
        | cons a b => exact (ht _ _ rfl).elim
      | unknownFields zc => exact (hu _ rfl).elim
      | named i =>
        simp only [Ty.isWrapped] at hw
        split at hw
        · obtain ⟨vs, rfl⟩ := (h1.structSeq_aux _ _ ‹_›).2.2 _ _ rfl
          exact (hn _ _ rfl rfl).elim
        · exact absurd rfl hw
      | small | large | vec | coll | option | map | unknownField | prim => exact absurd rfl hw

theorem structBody_lay {t : Ty} {g : Byte} {v : V} {cs : List WCall} (h : (o.body t v).map (WCall.struct g :: ·) = some cs) :
    ∃ l, Layout env (.body t v l) ∧ callToks cs = (Val.struct l).toks g := by
  rw [Option.map_eq_some_iff] at h
  obtain ⟨a, h1, rfl⟩ := h
  obtain ⟨l, h1, h2⟩ := H.body _ _ _ h1
  exact ⟨_, h1, by rw [callToks_cons, h2]; simp [Val.toks, WCall.toks]⟩

omit H in
theorem blob_lay {vs : List V} {g : Byte} {cs : List WCall} (h : ((bytesOf vs).map fun d => [WCall.blobData g d]) = some cs) :
    ∃ d, V.seq vs = .ofBytes d ∧ callToks cs = (Val.blob d).toks g := by
  rw [Option.map_eq_some_iff] at h
  obtain ⟨d, h1, rfl⟩ := h
  exact ⟨d, by rw [bytesOf_eq h1]; rfl, rfl⟩

omit H in
theorem bytesElement {t : Ty} {vs : List V} {g : Byte} {cs : List WCall} (ht : ByteSlice t) (h : ((bytesOf vs).map fun d => [WCall.blobData g d]) = some cs) :
    ∃ val, Layout env (.element t (.seq vs) val) ∧ callToks cs = val.toks g := by
  obtain ⟨d, h1, h2⟩ := blob_lay h
  rw [h1]
  exact ⟨_, .elementBytes ht, h2⟩

omit H in
theorem notDelegate {x : Tail} (h : ∀ n t, x = .delegate n t → False) : x.isDelegate = false := by
  cases x with
  | delegate n t => exact (h n t rfl).elim
  | plain => rfl
  | unknown => rfl

theorem elementSer_lay (t : Ty) (g : Byte) (v : V) (cs : List WCall) (h : elementSer env o t g v = some cs) :
    ∃ val, Layout env (.element t v val) ∧ callToks cs = val.toks g := by
  have hw : ∀ {t e : Ty} {v : V}, CollectionOf t e → wrapped o t g v = some cs → ∃ val, Layout env (.element t v val) ∧ callToks cs = val.toks g := by
    intro t e v ht h
    obtain ⟨vals, h1, h2⟩ := wrapped_lay H h
    exact ⟨_, .elementCollection ht h1, h2⟩
  unfold elementSer at h
  split at h
  · exact prim_lay h
  · obtain ⟨val, h1, h2⟩ := H.element _ _ _ _ h
    exact ⟨val, .elementPointer h1, h2⟩
  · split at h
    · rename_i he; cases isU8_eq he; exact bytesElement .vec h
    · exact hw (.vec (by rename_i hu; simpa using hu)) h
  · split at h
    · rename_i he; cases isU8_eq he; exact bytesElement .small h
    · exact hw (.small (by rename_i hu; simpa using hu)) h
  · split at h
    · rename_i he; cases isU8_eq he; exact bytesElement .large h
    · exact hw (.large (by rename_i hu; simpa using hu)) h
  · exact hw .coll h
  · exact hw .option h
  · obtain ⟨vals, h1, h2⟩ := wrapped_lay H h
    exact ⟨_, .elementMap h1, h2⟩
  · cases h; exact ⟨_, .elementUnit, rfl⟩
  · obtain ⟨l, h1, h2⟩ := structBody_lay H h
    exact ⟨_, .elementTuple (by simp) h1, h2⟩
  · obtain ⟨l, h1, h2⟩ := structBody_lay H h
    exact ⟨_, .elementUnknownFields h1, h2⟩
  · split at h
    · rename_i n hn
      cases h
      refine ⟨.int (UInt64.ofNat n.toNat), ?_, rfl⟩
      have e : ((UInt64.ofNat n.toNat).toNat : Int) = n := by rw [u64nat (by omega)]; omega
      have := Layout.elementUnknownField (env := env) (zc := ‹Bool›) (val := .int (UInt64.ofNat n.toNat))
      rwa [Val.asUnknown, e] at this
    · cases h
  · obtain ⟨d, h1, h2⟩ := blob_lay h
    rw [h1]
    exact ⟨_, .elementUnknownField (val := .blob d), h2⟩
  · obtain ⟨l, h1, h2⟩ := structBody_lay H h
    cases h1.unknownBody
    exact ⟨_, .elementUnknownField (val := .struct l), h2⟩
  · split at h
    · rename_i n u hn
      rw [Option.map_eq_some_iff] at h
      obtain ⟨a, h1, rfl⟩ := h
      obtain ⟨l, h1, h2⟩ := H.body _ _ _ h1
      cases h1.unknownBody
      refine ⟨.enum (UInt64.ofNat n.toNat) l, ?_, by rw [callToks_cons, h2]; simp [Val.toks, WCall.toks]⟩
      have e : ((UInt64.ofNat n.toNat).toNat : Int) = n := by rw [u64nat (by omega)]; omega
      have := Layout.elementUnknownField (env := env) (zc := ‹Bool›) (val := .enum (UInt64.ofNat n.toNat) l)
      rwa [Val.asUnknown, e] at this
    · cases h
  · split at h
    · rename_i hd
      split at h
      · rename_i ht
        obtain ⟨val, h1, h2⟩ := H.element _ _ _ _ h
        exact ⟨_, .elementDelegate hd ht h1, h2⟩
      · cases h
      · rename_i h1 h2
        obtain ⟨l, h3, h4⟩ := structBody_lay H h
        refine ⟨_, .elementStruct hd ?_ h3, h4⟩
        exact notDelegate h1
    · rename_i hd
      have hp : ∀ {d : UInt64} {b : Body} {vs : List V}, (macroBodySer o b vs).map (WCall.enum g d :: ·) = some cs →
          ∃ l, Layout env (.parts b vs l) ∧ callToks cs = (Val.enum d l).toks g := by
        intro d b vs h
        rw [Option.map_eq_some_iff] at h
        obtain ⟨a, h1, rfl⟩ := h
        obtain ⟨l, h1, h2⟩ := macroBodySer_lay H h1
        exact ⟨_, h1, by rw [callToks_cons, h2]; simp [Val.toks, WCall.toks]⟩
      split at h
      · rename_i x hx
        obtain ⟨l, h1, h2⟩ := hp h
        have hd' := List.find?_some hx
        rw [decide_eq_true_eq] at hd'
        refine ⟨_, .elementVariant (b := x.2) hd ?_ h1, h2⟩
        rw [hx, ← hd']
      · rename_i hx
        split at h
        · obtain ⟨l, h1, h2⟩ := hp h
          exact ⟨_, .elementCatchAll hd (fun x hm => by simpa using List.find?_eq_none.1 hx x hm) h1, h2⟩
        · cases h
    · cases h
  · cases h

theorem fieldSer_lay (t : Ty) (g : Byte) (v : V) (cs : List WCall) (h : fieldSer o t g v = some cs) :
    ∃ vals : List Val, Layout env (.field t v vals) ∧ callToks cs = fieldsToks (vals.map fun val => (g, val)) := by
  have hb : ∀ {t : Ty} {vs : List V}, ByteSlice t → ((bytesOf vs).map fun d => [WCall.blobData g d]) = some cs →
      ∃ vals : List Val, Layout env (.field t (.seq vs) vals) ∧ callToks cs = fieldsToks (vals.map fun val => (g, val)) := by
    intro t vs ht h
    obtain ⟨val, h, h'⟩ := bytesElement (env := env) ht h
    exact ⟨[val], .fieldOne (.bytes ht) h, by rw [h', List.map_singleton, fieldsToks_one]⟩
  have hc : ∀ {t e : Ty} {vs : List V}, CollectionOf t e → serAll (o.element e g) vs = some cs →
      ∃ vals : List Val, Layout env (.field t (.seq vs) vals) ∧ callToks cs = fieldsToks (vals.map fun val => (g, val)) := by
    intro t e vs ht h
    obtain ⟨vals, h1, h2⟩ := serAll_lay (env := env) (fun v cs => H.element e g v cs) _ _ h
    exact ⟨vals, .fieldCollection ht h1, h2⟩
  unfold fieldSer at h
  split at h
  · obtain ⟨vals, h1, h2⟩ := H.field _ _ _ _ h
    exact ⟨_, .fieldPointer h1, h2⟩
  · split at h
    · rename_i he; cases isU8_eq he; exact hb .vec h
    · exact hc (.vec (by rename_i hu; simpa using hu)) h
  · split at h
    · rename_i he; cases isU8_eq he; exact hb .small h
    · exact hc (.small (by rename_i hu; simpa using hu)) h
  · split at h
    · rename_i he; cases isU8_eq he; exact hb .large h
    · exact hc (.large (by rename_i hu; simpa using hu)) h
  · exact hc .coll h
  · exact hc .option h
  · rename_i tk tv es
    obtain ⟨vals, h1, h2⟩ := serAll_lay (env := env) (t := .tuple [tk, tv]) (g := g) (fun v cs hv => by
      split at hv
      · simp only [Option.bind_eq_some_iff, Option.map_eq_some_iff] at hv
        obtain ⟨a, h1, b, h2, rfl⟩ := hv
        obtain ⟨l1, h1, h1'⟩ := H.field _ _ _ _ h1
        obtain ⟨l2, h2, h2'⟩ := H.field _ _ _ _ h2
        refine ⟨_, .elementTuple (by simp) (.bodyTuple (by simp) (.fieldsCons (d := ⟨1, _, tk⟩) h1 (.fieldsCons (d := ⟨2, _, tv⟩) h2 .fieldsNil))), ?_⟩
        rw [List.cons_append, List.cons_append, callToks_cons, callToks_append, callToks_append, h1', h2']
        simp [Val.toks, WCall.toks, callToks, fieldsToks_append]
      · cases hv) _ _ h
    exact ⟨vals, .fieldMap (.fieldCollection (.vec rfl) h1), h2⟩
  · cases h
  · cases h
  · cases h
  · cases h
  · cases h
  · cases h
  · cases h
  · obtain ⟨val, g1, g2⟩ := H.element _ _ _ _ h
    refine ⟨[val], .fieldOne ?_ g1, by rw [g2, List.map_singleton, fieldsToks_one]⟩
    cases t with
    | prim => exact .prim
    | tuple => exact .tuple
    | named => exact .named
    | unknownField => exact .unknownField
    | _ => simp_all
end

theorem sops_lay (env : Env) : ∀ n, SLay env (sops env n)
  | 0 => ⟨nofun, nofun, nofun⟩
  | n + 1 =>
    have ih := sops_lay env n
    ⟨bodySer_lay ih, fieldSer_lay ih, elementSer_lay ih⟩

/-! ## There is only one form -/

theorem ByteSlice.not_coll {t e : Ty} (h : ByteSlice t) (h' : CollectionOf t e) : False := by
  cases h <;> cases h' <;> contradiction

theorem CollectionOf.unique {t e e' : Ty} (h : CollectionOf t e) (h' : CollectionOf t e') : e = e' := by
  cases h <;> cases h' <;> rfl

theorem OnePair.not_coll {t e : Ty} (h : OnePair t) (h' : CollectionOf t e) : False := by
  cases h with
  | bytes h => exact h.not_coll h'
  | _ => cases h'

theorem PrimForm.unique {p : Prim} {v : V} {a b : Val} (h : PrimForm p v a) (h' : PrimForm p v b) : a = b := by
  have hn : ∀ {n m : UInt64}, (n.toNat : Int) = m.toNat → n = m := fun h => UInt64.toNat_inj.1 (Int.ofNat_inj.1 h)
  have hk : ∀ {k : IntTy}, k ∈ [IntTy.u8, .u16, .u32, .u64, .usize] → k ∈ [IntTy.i8, .i16, .i32, .i64, .isize] → False := by
    intro k; cases k <;> simp
  generalize hv : v = w at h'
  cases h with
  | bytesRef =>
    cases h' with
    | bytesRef => rw [ofBytes_inj hv]
  | unsigned hm =>
    cases h' with
    | unsigned => rw [hn (V.num.inj hv)]
    | natural hm' => exact (hk hm hm').elim
    | negative hm' => exact (hk hm hm').elim
  | natural hm h1 h2 =>
    cases h' with
    | unsigned hm' => exact (hk hm' hm).elim
    | natural _ g1 g2 => cases hv; rw [hn (h2.trans g2.symm)]
    | negative _ g1 g2 => cases hv; omega
  | negative hm h1 h2 =>
    cases h' with
    | unsigned hm' => exact (hk hm' hm).elim
    | natural _ g1 g2 => cases hv; omega
    | negative _ g1 g2 => cases hv; rw [hn (h2.trans g2.symm)]
  | char h => 
    cases h' with
    | char h' => cases hv; rw [UInt64.toNat_inj.1 (h.trans h'.symm)]
  | phantom => cases h'; rfl
  | false => cases h' <;> first | rfl | cases hv
  | true => cases h' <;> first | rfl | cases hv
  | string => cases h'; cases hv; rfl
  | strRef => cases h'; cases hv; rfl

theorem NotStruct.not {env : Env} {t : Ty} (h : NotStruct env t) : (∀ ts, t ≠ .tuple ts) ∧ (∀ zc, t ≠ .unknownFields zc) ∧ (∀ u, t ≠ .boxed u) ∧ (∀ i b, t = .named i → env.decl i = .struct b → False) := by
  refine ⟨?_, ?_, ?_, ?_⟩
  · rintro ts rfl
    cases h with
    | bytes h => cases h
    | collection h => cases h
  · rintro zc rfl
    cases h with
    | bytes h => cases h
    | collection h => cases h
  · rintro u rfl
    cases h with
    | bytes h => cases h
    | collection h => cases h
  · rintro i b rfl hd
    cases h with
    | bytes h => cases h
    | collection h => cases h
    | enum h => rw [hd] at h; cases h

/-- The only form of the same thing. -/
def Piece.Only (env : Env) : Piece → Prop
  | .body t v l => ∀ l', Layout env (.body t v l') → l' = l
  | .field t v l => ∀ l', Layout env (.field t v l') → l' = l
  | .element t v l => ∀ l', Layout env (.element t v l') → l' = l
  | .each t v l => ∀ l', Layout env (.each t v l') → l' = l
  | .fields t v l => ∀ l', Layout env (.fields t v l') → l' = l
  | .parts t v l => ∀ l', Layout env (.parts t v l') → l' = l

theorem Layout.only {env : Env} {p : Piece} (h : Layout env p) : p.Only env := by
  induction h with
  | bodyTuple hts _ ih =>
    intro l' h'
    cases h' with
    | bodyTuple _ h' => exact ih _ h'
    | bodyUnit => exact absurd rfl hts
    | bodyOther h' => exact (h'.not.1 _ rfl).elim
  | bodyStruct hd _ ih =>
    intro l' h'
    cases h' with
    | bodyStruct hd' h' => rw [hd] at hd'; cases hd'; exact ih _ h'
    | bodyOther h' => exact (h'.not.2.2.2 _ _ rfl hd).elim
  | bodyUnknown => intro l' h'; have := h'.unknownBody; rw [V.seq.injEq] at this; exact (asUnknowns_inj _ _ this).symm
  | bodyOther hn _ ih =>
    intro l' h'
    cases h' with
    | bodyTuple => exact (hn.not.1 _ rfl).elim
    | bodyStruct hd => exact (hn.not.2.2.2 _ _ rfl hd).elim
    | bodyUnknown => exact (hn.not.2.1 _ rfl).elim
    | bodyOther _ h' => rw [ih _ h']
    | bodyUnit => exact (hn.not.1 _ rfl).elim
    | bodyPointer => exact (hn.not.2.2.1 _ rfl).elim
  | bodyUnit =>
    intro l' h'
    cases h' with
    | bodyTuple hts => exact absurd rfl hts
    | bodyOther h' => exact (h'.not.1 _ rfl).elim
    | bodyUnit => rfl
  | bodyPointer _ ih =>
    intro l' h'
    cases h' with
    | bodyOther h' => exact (h'.not.2.2.1 _ rfl).elim
    | bodyPointer h' => exact ih _ h'
  | fieldCollection hc _ ih =>
    intro l' h'
    cases h' with
    | fieldCollection hc' h' => cases hc.unique hc'; exact ih _ h'
    | fieldMap => cases hc
    | fieldOne ho => exact (ho.not_coll hc).elim
    | fieldPointer => cases hc
  | fieldMap _ ih =>
    intro l' h'
    cases h' with
    | fieldCollection hc => cases hc
    | fieldMap h' => exact ih _ h'
    | fieldOne ho => cases ho with | bytes h => cases h
  | fieldOne ho _ ih =>
    intro l' h'
    cases h' with
    | fieldCollection hc => exact (ho.not_coll hc).elim
    | fieldMap => cases ho with | bytes h => cases h
    | fieldOne _ h' => rw [ih _ h']
    | fieldPointer => cases ho with | bytes h => cases h
  | fieldPointer _ ih =>
    intro l' h'
    cases h' with
    | fieldCollection hc => cases hc
    | fieldOne ho => cases ho with | bytes h => cases h
    | fieldPointer h' => exact ih _ h'
  | elementCollection hc _ ih =>
    intro l' h'
    cases h' with
    | elementCollection _ h' => rw [ih _ h']
    | elementBytes hb => exact (hb.not_coll hc).elim
    | _ => cases hc
  | elementMap _ ih =>
    intro l' h'
    cases h' with
    | elementCollection hc => cases hc
    | elementMap h' => rw [ih _ h']
    | elementBytes hb => cases hb
  | elementPrim hp =>
    intro l' h'
    cases h' with
    | elementCollection hc => cases hc
    | elementPrim hp' => exact hp'.unique hp
    | elementBytes hb => cases hb
  | @elementBytes t d hb =>
    intro l' h'
    generalize hv : V.ofBytes d = w at h'
    cases h' with
    | elementCollection hc => exact (hb.not_coll hc).elim
    | elementBytes => rw [ofBytes_inj hv]
    | _ => cases hb
  | elementTuple hts _ ih =>
    intro l' h'
    cases h' with
    | elementCollection hc => cases hc
    | elementBytes hb => cases hb
    | elementTuple _ h' => rw [ih _ h']
    | elementUnit => exact absurd rfl hts
  | elementUnit =>
    intro l' h'
    generalize hv : V.seq [] = w at h'
    cases h' with
    | elementCollection hc => cases hc
    | elementBytes hb => cases hb
    | elementTuple hts => exact absurd rfl hts
    | elementUnit => rfl
  | elementPointer _ ih =>
    intro l' h'
    cases h' with
    | elementCollection hc => cases hc
    | elementBytes hb => cases hb
    | elementPointer h' => exact ih _ h'
  | elementStruct hd ht _ ih =>
    intro l' h'
    cases h' with
    | elementCollection hc => cases hc
    | elementBytes hb => cases hb
    | elementStruct _ _ h' => rw [ih _ h']
    | elementDelegate hd' ht' => rw [hd] at hd'; cases hd'; rw [ht'] at ht; cases ht
    | elementVariant hd' => rw [hd] at hd'; cases hd'
    | elementCatchAll hd' => rw [hd] at hd'; cases hd'
  | @elementDelegate i b name t v val hd ht _ ih =>
    intro l' h'
    generalize hv : V.seq [v] = w at h'
    cases h' with
    | elementCollection hc => cases hc
    | elementBytes hb => cases hb
    | elementVariant hd' => cases hv
    | elementCatchAll hd' => cases hv
    | elementStruct hd' ht' => rw [hd] at hd'; cases hd'; rw [ht] at ht'; cases ht'
    | elementDelegate hd' ht' h' => rw [hd] at hd'; cases hd'; rw [ht] at ht'; cases ht'; cases hv; exact ih _ h'
  | elementVariant hd hf _ ih =>
    intro l' h'
    cases h' with
    | elementCollection hc => cases hc
    | elementStruct hd' => rw [hd] at hd'; cases hd'
    | elementVariant hd' hf' h' => rw [hd] at hd'; cases hd'; rw [hf] at hf'; cases hf'; rw [ih _ h']
    | elementCatchAll hd' hf' h' =>
      rw [hd] at hd'; cases hd'
      exact (hf' _ (List.mem_of_find?_eq_some hf) rfl).elim
  | elementCatchAll hd hf _ ih =>
    intro l' h'
    cases h' with
    | elementCollection hc => cases hc
    | elementStruct hd' => rw [hd] at hd'; cases hd'
    | elementVariant hd' hf' h' =>
      rw [hd] at hd'; cases hd'
      exact (hf _ (List.mem_of_find?_eq_some hf') rfl).elim
    | elementCatchAll hd' hf' h' => rw [hd] at hd'; cases hd'; rw [ih _ h']
  | @elementUnknownField zc val =>
    intro l' h'
    generalize hv : val.asUnknown = w at h'
    cases h' with
    | elementCollection hc => cases hc
    | elementBytes hb => cases hb
    | elementUnknownField => exact (asUnknown_inj _ _ hv).symm
  | elementUnknownFields _ ih =>
    intro l' h'
    cases h' with
    | elementCollection hc => cases hc
    | elementBytes hb => cases hb
    | elementUnknownFields h' => rw [ih _ h']
  | eachNil => intro l' h'; cases h'; rfl
  | eachCons _ _ ih1 ih2 =>
    intro l' h'
    cases h' with
    | eachCons h1 h2 => rw [ih1 _ h1, ih2 _ h2]
  | fieldsNil => intro l' h'; cases h'; rfl
  | fieldsCons _ _ ih1 ih2 =>
    intro l' h'
    cases h' with
    | fieldsCons h1 h2 => rw [ih1 _ h1, ih2 _ h2]
  | partsPlain ht _ ih =>
    intro l' h'
    cases h' with
    | partsPlain _ h' => exact ih _ h'
    | partsDelegate ht' => rw [ht] at ht'; cases ht'
    | partsUnknown ht' => rw [ht] at ht'; cases ht'
  | @partsDelegate b name t vs v l l2 ht _ _ ih1 ih2 =>
    intro l' h'
    generalize hv : vs ++ [v] = ws at h'
    cases h' with
    | partsPlain ht' h' => rw [ht] at ht'; cases ht'
    | partsDelegate ht' h1 h2 =>
      rw [ht] at ht'; cases ht'
      obtain ⟨hvs, hv2⟩ := List.append_inj' hv rfl
      subst hvs
      cases hv2
      rw [ih1 _ h1, ih2 _ h2]
    | partsUnknown ht' => rw [ht] at ht'; cases ht'
  | @partsUnknown b name zc vs l l2 ht _ ih1 =>
    intro l' h'
    generalize hv : vs ++ [V.seq (asUnknowns l2)] = ws at h'
    cases h' with
    | partsPlain ht' h' => rw [ht] at ht'; cases ht'
    | partsDelegate ht' h1 h2 => rw [ht] at ht'; cases ht'
    | partsUnknown ht' h1 =>
      rw [ht] at ht'; cases ht'
      obtain ⟨hvs, hv2⟩ := List.append_inj' hv rfl
      subst hvs
      simp only [List.cons.injEq, V.seq.injEq, and_true] at hv2
      rw [ih1 _ h1, asUnknowns_inj _ _ hv2]

end Fourleaf

namespace Fourleaf.Props
open Fourleaf Spec

/-- **C80** Whatever the declarations: the documented form of a value of any type exists and is unique, and serialising the value writes exactly the canonical
message with these fields — every field in order, each as short as possible, with nothing in between. -/
theorem c80_layout (env : Env) (henv : env.Ok) (t : Ty) (v : V) (k : Need) (h : HasType env t v k) :
    ∃ l, Layout env (.body t v l) ∧ (∀ l', Layout env (.body t v l') → l' = l) ∧ Produces env t v (messageOf l) := by
  obtain ⟨cs, l₀, h1, h2, -⟩ := tree_roundtrip henv h
  obtain ⟨n, h1'⟩ := h1
  obtain ⟨l, g1, g2⟩ := (sops_lay env n).body t v cs h1'
  have h1 : SerializesBody env t v cs := ⟨n, h1'⟩
  have he : canonToks (callToks (cs ++ [.commit])) = messageOf l := by rw [callToks_commit, g2, messageOf]
  refine ⟨l, g1, g1.only, cs ++ [.commit], ⟨cs, h1, rfl⟩, ?_, fun w hw hb hroom => ?_⟩
  · rintro _ ⟨b, h4, rfl⟩; rw [serializesBody_unique h1 h4]
  · have hv : ∀ c ∈ cs ++ [.commit], ∀ t ∈ c.toks, t.Valid := by
      intro c hc
      rcases List.mem_append.1 hc with hc | hc
      · exact h2.valid c hc
      · cases List.mem_singleton.1 hc; intro t ht; cases ht
    rw [← he] at hroom ⊢
    obtain ⟨w', g1, g2, -, -, g3⟩ := c09_documented_format (cs ++ [.commit]) hv w hw hb hroom
    exact ⟨w', g1, g3, g2⟩

/-- **C80** The same for the three methods of `Serialize`, called with any value that they serialise at all: `serialize_body` writes the fields of the struct body and the
end of the struct, `serialize_field` a field for each of the values of the struct field, `serialize_element` the one field of the collection
element. -/
theorem c80_methods (env : Env) (t : Ty) (v : V) :
    (∀ cs, SerializesBody env t v cs → ∃ l, Layout env (.body t v l) ∧ callToks cs = fieldsToks l ++ [.endStruct]) ∧
    (∀ tag cs, SerializesField env t tag v cs → ∃ vals, Layout env (.field t v vals) ∧ callToks cs = fieldsToks (vals.map fun val => (tag, val))) ∧
    (∀ tag cs, SerializesElement env t tag v cs → ∃ val, Layout env (.element t v val) ∧ callToks cs = val.toks tag) :=
  ⟨fun cs ⟨n, h⟩ => (sops_lay env n).body t v cs h, fun tag cs ⟨n, h⟩ => (sops_lay env n).field t tag v cs h,
    fun tag cs ⟨n, h⟩ => (sops_lay env n).element t tag v cs h⟩

/-- **C80** The three forms are determined by the value. -/
theorem c80_unique (env : Env) (t : Ty) (v : V) :
    (∀ l l', Layout env (.body t v l) → Layout env (.body t v l') → l = l') ∧
    (∀ a b, Layout env (.field t v a) → Layout env (.field t v b) → a = b) ∧
    (∀ a b, Layout env (.element t v a) → Layout env (.element t v b) → a = b) :=
  ⟨fun _ _ h h' => h'.only _ h, fun _ _ h h' => h'.only _ h, fun _ _ h h' => h'.only _ h⟩

/-- `struct S(u32, Option<u32>, Vec<u32>)` from the documentation (`src/lib.rs` 256-265). -/
def docEnv : Env where
  decl _ := .struct ⟨[⟨1, "a", .prim (.int .u32)⟩, ⟨2, "b", .option (.prim (.int .u32))⟩, ⟨3, "c", .vec (.prim (.int .u32))⟩], .plain, fun _ => true⟩
  size := 10
  bound := by
    intro i t ht
    revert t; decide

theorem docEnv_ok : docEnv.Ok := by
  intro i
  show FieldsOk _
  decide

/-- `S(42, None, vec![])` is `41 2a 00`. -/
example : Layout docEnv (.body (.named 0) (.seq [.num 42, .seq [], .seq []]) [(1, .int 42)]) ∧ messageOf [(1, .int 42)] = [0x41, 0x2a, 0] :=
  ⟨.bodyStruct rfl (.partsPlain rfl (.fieldsCons (.fieldOne .prim (.elementPrim (.unsigned (n := 42) (by simp))))
    (.fieldsCons (.fieldCollection .option .eachNil) (.fieldsCons (.fieldCollection (.vec rfl) .eachNil) .fieldsNil)))), by decide +kernel⟩

/-- `S(42, Some(1), vec![2, 3])` is `41 2a 42 01 43 02 43 03 00`. -/
example : Layout docEnv (.body (.named 0) (.seq [.num 42, .seq [.num 1], .seq [.num 2, .num 3]]) [(1, .int 42), (2, .int 1), (3, .int 2), (3, .int 3)]) ∧
    messageOf [(1, .int 42), (2, .int 1), (3, .int 2), (3, .int 3)] = [0x41, 0x2a, 0x42, 1, 0x43, 2, 0x43, 3, 0] := by
  have hi : ∀ n : UInt64, Layout docEnv (.element (.prim (.int .u32)) (.num n.toNat) (.int n)) := fun n => .elementPrim (.unsigned (by simp))
  exact ⟨.bodyStruct rfl (.partsPlain rfl (.fieldsCons (.fieldOne .prim (hi 42))
    (.fieldsCons (.fieldCollection .option (.eachCons (hi 1) .eachNil)) (.fieldsCons (.fieldCollection (.vec rfl) (.eachCons (hi 2) (.eachCons (hi 3) .eachNil))) .fieldsNil)))),
    by decide +kernel⟩

/-- `vec![Some(42u32), None]` is `c1 41 2a 00 c1 00 00`. -/
example : Layout docEnv (.body (.vec (.option (.prim (.int .u32)))) (.seq [.seq [.num 42], .seq []]) [(1, .struct [(1, .int 42)]), (1, .struct [])]) ∧
    messageOf [(1, .struct [(1, .int 42)]), (1, .struct [])] = [0xc1, 0x41, 0x2a, 0, 0xc1, 0, 0] := by
  have hi : ∀ n : UInt64, Layout docEnv (.element (.prim (.int .u32)) (.num n.toNat) (.int n)) := fun n => .elementPrim (.unsigned (by simp))
  exact ⟨.bodyOther (vals := [.struct [(1, .int 42)], .struct []]) (.collection (.vec rfl)) (.fieldCollection (.vec rfl)
    (.eachCons (.elementCollection (vals := [.int 42]) .option (.fieldCollection .option (.eachCons (hi 42) .eachNil)))
      (.eachCons (.elementCollection (vals := []) .option (.fieldCollection .option .eachNil)) .eachNil))), by decide +kernel⟩

/-- A map from -1 to true is `c1 41 01 42 01 00 00`. -/
example : Layout docEnv (.body (.map (.prim (.int .i8)) (.prim .bool)) (.seq [.seq [.num (-1), .bool true]]) [(1, .struct [(1, .int 1), (2, .int 1)])]) ∧
    messageOf [(1, .struct [(1, .int 1), (2, .int 1)])] = [0xc1, 0x41, 1, 0x42, 1, 0, 0] :=
  ⟨.bodyOther (vals := [.struct [(1, .int 1), (2, .int 1)]]) .map (.fieldMap (.fieldCollection (.vec rfl) (.eachCons (.elementTuple (by simp) (.bodyTuple (by simp)
    (.fieldsCons (vals := [.int 1]) (.fieldOne .prim (.elementPrim (.negative (by simp) (by omega) (by decide))))
      (.fieldsCons (vals := [.int 1]) (.fieldOne .prim (.elementPrim .true)) .fieldsNil)))) .eachNil))), by decide +kernel⟩

/-- A value with unknown fields meets the hypotheses; this is its form. -/
example : (∃ k, HasType exEnv (.named 0) exValue k) ∧
    Layout exEnv (.body (.named 0) exValue [(1, .int 500), (2, .blob []), (2, .blob [120]), (5, .int 7)]) := by
  obtain ⟨k, h, -⟩ := exValue_type
  refine ⟨⟨k, h⟩, ?_⟩
  exact .bodyStruct rfl (.partsUnknown (vs := [.num 500, .seq [.str "", .str "x"]]) (l := [(1, .int 500), (2, .blob []), (2, .blob [120])]) (l' := [(5, .int 7)]) rfl
    (.fieldsCons (.fieldOne .prim (.elementPrim (.unsigned (n := 500) (by simp))))
      (.fieldsCons (vals := [.blob [], .blob [120]]) (.fieldCollection (.vec rfl) (.eachCons (.elementPrim .string) (.eachCons (.elementPrim .string) .eachNil))) .fieldsNil)))

end Fourleaf.Props
