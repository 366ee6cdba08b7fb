import Verif.PropsUnknown
import Verif.PropsValues

/-! # C67: writing a message again never makes it longer -/

namespace Fourleaf
open Spec

mutual
/-- The byte array `[u8; 0]` does not occur in the type. -/
def Ty.noEmptyArray : Ty → Bool
  | .small n t | .large n t => !(t.isByte && n == 0) && t.noEmptyArray
  | .boxed t | .vec t | .coll _ t | .option t => t.noEmptyArray
  | .tuple ts => Ty.noEmptyArrays ts
  | .map k v => k.noEmptyArray && v.noEmptyArray
  | .prim _ | .unknownField _ | .unknownFields _ | .named _ => true
def Ty.noEmptyArrays : List Ty → Bool
  | [] => true
  | t :: ts => t.noEmptyArray && Ty.noEmptyArrays ts
end

mutual
/-- How many bytes a field with this value takes in its canonical spelling. -/
def Val.size : Val → Nat
  | .int n => 1 + (shortInt n.toNat).length
  | .blob d => 1 + (shortInt d.length).length + d.length
  | .struct l => 2 + sizeSum l
  | .enum d l => 2 + (shortInt d.toNat).length + sizeSum l
def sizeSum : List (Byte × Val) → Nat
  | [] => 0
  | (_, v) :: l => v.size + sizeSum l
end

end Fourleaf

namespace Fourleaf.Props
open Fourleaf Spec

/-- How many bytes the calls write. -/
def callSize (cs : List WCall) : Nat := (canonToks (callToks cs)).length

@[simp] theorem callSize_nil : callSize [] = 0 := rfl
theorem callSize_append (a b : List WCall) : callSize (a ++ b) = callSize a + callSize b := by
  simp [callSize, callToks_append, canonToks_append]
theorem callSize_cons (a : WCall) (b : List WCall) : callSize (a :: b) = callSize [a] + callSize b := by
  rw [← callSize_append]; rfl
theorem callSize_end : callSize [.endStruct] = 1 := rfl
theorem callSize_struct (g : Byte) : callSize [.struct g] = 1 := rfl
theorem callSize_enum (g : Byte) (d : UInt64) : callSize [.enum g d] = 1 + (shortInt d.toNat).length := by
  simp [callSize, callToks, WCall.toks, canonToks, canonTok]; omega
theorem callSize_blob (g : Byte) (d : List Byte) : callSize [.blobData g d] = 1 + (shortInt d.length).length + d.length := by
  simp [callSize, callToks, WCall.toks, canonToks, canonTok]; omega
theorem callSize_int {w : WCall} {g : Byte} {n : UInt64} (h : w.toks = [.int g n]) : callSize [w] = 1 + (shortInt n.toNat).length := by
  simp [callSize, callToks, h, canonToks, canonTok]; omega

def valSum (vals : List Val) : Nat := (vals.map Val.size).sum

@[simp] theorem valSum_nil : valSum [] = 0 := rfl
@[simp] theorem valSum_cons (v : Val) (l : List Val) : valSum (v :: l) = v.size + valSum l := by simp [valSum]
theorem valSum_struct (l : Fields) : valSum [.struct l] = 2 + sizeSum l := by simp [Val.size]

theorem bytesOf_length : ∀ {vs : List V} {d : List Byte}, bytesOf vs = some d → d.length = vs.length
  | [], d, h => by cases h; rfl
  | v :: vs, d, h => by
    cases v with
    | num i =>
      simp only [bytesOf] at h
      split at h
      · rw [Option.map_eq_some_iff] at h
        obtain ⟨d', h1, rfl⟩ := h
        simp [bytesOf_length h1]
      · cases h
    | _ => cases h

theorem bytesOf_ofBytes {data d : List Byte} (h : bytesOf (data.map fun b => (.num b.toNat : V)) = some d) : d.length = data.length := by
  rw [bytesOf_length h, List.length_map]

/-- What an element is at most allowed to take. -/
inductive Bounds (env : Env) (t : Ty) : List V → Nat → Prop where
  | nil : Bounds env t [] 0
  | cons {v vs b b'} : (∀ n g cs, (sops env n).element t g v = some cs → callSize cs ≤ b) → Bounds env t vs b' → Bounds env t (v :: vs) (b + b')

theorem Bounds.ser {env : Env} {t : Ty} {vs : List V} {b : Nat} (h : Bounds env t vs b) : ∀ {n : Nat} {g : Byte} {cs : List WCall},
    serAll ((sops env n).element t g) vs = some cs → callSize cs ≤ b := by
  induction h with
  | nil => intro n g cs h; cases h; exact Nat.le_refl _
  | cons h _ ih =>
    intro n g cs hc
    simp only [serAll, Option.bind_eq_some_iff, Option.map_eq_some_iff] at hc
    obtain ⟨a, h1, r, h2, rfl⟩ := hc
    rw [callSize_append]
    exact Nat.add_le_add (h _ _ _ h1) (ih h2)

theorem Bounds.snoc {env : Env} {t : Ty} {vs : List V} {b c : Nat} {v : V} (h : Bounds env t vs b)
    (hv : ∀ n g cs, (sops env n).element t g v = some cs → callSize cs ≤ c) : Bounds env t (vs ++ [v]) (b + c) := by
  induction h with
  | nil => have := Bounds.cons hv Bounds.nil; simpa using this
  | cons h _ ih => have := Bounds.cons h ih; simpa [Nat.add_assoc] using this

/-- A value is put in the place of another one. -/
theorem Bounds.replace {env : Env} {t : Ty} {vs : List V} {b c : Nat} {e : V} (h : Bounds env t vs b) (hn : (vs.map V.key).Nodup)
    (hv : ∀ n g cs, (sops env n).element t g e = some cs → callSize cs ≤ c) :
    ∃ b', Bounds env t (vs.map fun x => if x.key = e.key then e else x) b' ∧ b' ≤ b + c := by
  induction h with
  | nil => exact ⟨0, .nil, Nat.zero_le _⟩
  | @cons v vs b1 b2 h h' ih =>
    rw [List.map_cons, List.nodup_cons] at hn
    rw [List.map_cons]
    by_cases hk : v.key = e.key
    · rw [if_pos hk]
      have hid : vs.map (fun x => if x.key = e.key then e else x) = vs := by
        rw [List.map_congr_left (g := id), List.map_id]
        intro x hx
        by_cases hx' : x.key = e.key
        · exact absurd (List.mem_map.2 ⟨x, hx, hx'.trans hk.symm⟩) hn.1
        · simp [hx']
      rw [hid]
      exact ⟨c + b2, .cons hv h', by omega⟩
    · rw [if_neg hk]
      obtain ⟨b', h1, h2⟩ := ih hn.2
      exact ⟨b1 + b', .cons h h1, by omega⟩

theorem Bounds.set {env : Env} {t : Ty} {vs : List V} {b : Nat} (h : Bounds env t vs b) : ∀ (r : List V) (c : Nat), Bounds env t r c →
    ∃ b', Bounds env t (vs.foldl (fun r v => setInsert v r) r) b' ∧ b' ≤ c + b := by
  induction h with
  | nil => intro r c h; exact ⟨c, h, by omega⟩
  | @cons v vs b1 b2 h h' ih =>
    intro r c hr
    rw [List.foldl_cons]
    by_cases hv : v ∈ r
    · rw [show setInsert v r = r from if_pos hv]
      obtain ⟨b', h1, h2⟩ := ih r c hr
      exact ⟨b', h1, by omega⟩
    · rw [show setInsert v r = r ++ [v] from if_neg hv]
      obtain ⟨b', h1, h2⟩ := ih _ _ (hr.snoc h)
      exact ⟨b', h1, by omega⟩

theorem Bounds.mapFold {env : Env} {t : Ty} {vs : List V} {b : Nat} (h : Bounds env t vs b) : ∀ (r : List V) (c : Nat), Bounds env t r c → (r.map V.key).Nodup →
    ∃ b', Bounds env t (vs.foldl (fun r v => mapInsert v r) r) b' ∧ b' ≤ c + b := by
  induction h with
  | nil => intro r c h _; exact ⟨c, h, by omega⟩
  | @cons v vs b1 b2 h h' ih =>
    intro r c hr hn
    rw [List.foldl_cons]
    have hn' : ((mapInsert v r).map V.key).Nodup := (map_fold [v] r hn).1
    obtain ⟨c', h1, h2⟩ : ∃ c', Bounds env t (mapInsert v r) c' ∧ c' ≤ c + b1 := by
      unfold mapInsert
      split
      · exact hr.replace hn h
      · exact ⟨_, hr.snoc h, Nat.le_refl _⟩
    obtain ⟨b', h3, h4⟩ := ih _ _ h1 hn'
    exact ⟨b', h3, by omega⟩

/-- Maps are written like lists of pairs. -/
theorem mapSer_pair {env : Env} {tk tv : Ty} {g : Byte} {n : Nat} {e : V} {cs : List WCall}
    (h : (match e with
      | .seq [k, v] => ((sops env n).field tk 1 k).bind fun a => ((sops env n).field tv 2 v).map fun b => WCall.struct g :: a ++ b ++ [.endStruct]
      | _ => none) = some cs) : (sops env (n + 2)).element (.tuple [tk, tv]) g e = some cs := by
  split at h
  · rename_i k v
    simp only [Option.bind_eq_some_iff, Option.map_eq_some_iff] at h
    obtain ⟨a, h1, b, h2, rfl⟩ := h
    change ((bodySer env (sops env n) (.tuple [tk, tv]) (.seq [k, v])).map _) = _
    obtain ⟨n0, n1, e⟩ : ∃ n0 n1, tupleFields [tk, tv] = [⟨1, n0, tk⟩, ⟨2, n1, tv⟩] := ⟨_, _, rfl⟩
    simp [bodySer, e, serFields, h1, h2]
  · cases h

theorem mapSer_all {env : Env} {tk tv : Ty} {g : Byte} {n : Nat} : ∀ {es : List V} {cs : List WCall},
    serAll (fun e => match e with
      | .seq [k, v] => ((sops env n).field tk 1 k).bind fun a => ((sops env n).field tv 2 v).map fun b => WCall.struct g :: a ++ b ++ [.endStruct]
      | _ => none) es = some cs → serAll ((sops env (n + 2)).element (.tuple [tk, tv]) g) es = some cs
  | [], cs, h => h
  | e :: es, cs, h => by
    simp only [serAll, Option.bind_eq_some_iff, Option.map_eq_some_iff] at h ⊢
    obtain ⟨a, h1, b, h2, rfl⟩ := h
    exact ⟨a, mapSer_pair h1, b, mapSer_all h2, rfl⟩

/-! ## The fields of a message are read by at most one declaration -/

def occSum (ds : List FieldDecl) (l : Fields) : Nat := (ds.map fun x => valSum (occ x.tag l)).sum

theorem occSum_cons {ds : List FieldDecl} (hn : (ds.map (·.tag)).Nodup) (g : Byte) (v : Val) (l : Fields) :
    occSum ds ((g, v) :: l) = occSum ds l + if g ∈ ds.map (·.tag) then v.size else 0 := by
  induction ds with
  | nil => simp [occSum]
  | cons x xs ih =>
    rw [List.map_cons, List.nodup_cons] at hn
    have ih := ih hn.2
    simp only [occSum, List.map_cons, List.sum_cons] at ih ⊢
    rw [ih]
    by_cases hx : g = x.tag
    · subst hx
      rw [if_neg hn.1, occ_cons_same, valSum_cons, if_pos (List.mem_cons_self ..)]
      omega
    · rw [occ_cons_other hx]
      simp only [List.mem_cons, hx, false_or]
      omega

theorem occSum_unknowns {ds : List FieldDecl} (hn : (ds.map (·.tag)).Nodup) : ∀ l : Fields, occSum ds l + sizeSum (unknowns ds l) = sizeSum l
  | [] => by
    have : ∀ ds : List FieldDecl, occSum ds [] = 0 := fun ds => by
      induction ds with
      | nil => rfl
      | cons x xs ih => simp only [occSum, List.map_cons, List.sum_cons] at ih ⊢; rw [ih]; rfl
    simp [this, unknowns, sizeSum]
  | (g, v) :: l => by
    have ih := occSum_unknowns hn l
    rw [occSum_cons hn, sizeSum]
    by_cases hg : g ∈ ds.map (·.tag)
    · have : unknowns ds ((g, v) :: l) = unknowns ds l := by
        unfold unknowns; rw [List.filter_cons_of_neg]
        obtain ⟨x, hx, he⟩ := List.mem_map.1 hg
        simp; exact ⟨x, hx, he⟩
      rw [this, if_pos hg]; omega
    · have : unknowns ds ((g, v) :: l) = (g, v) :: unknowns ds l := by
        unfold unknowns; rw [List.filter_cons_of_pos]
        simp; intro x hx he; exact hg (List.mem_map.2 ⟨x, hx, he⟩)
      rw [this, if_neg hg, sizeSum]; omega

theorem occSum_le {ds : List FieldDecl} (hn : (ds.map (·.tag)).Nodup) (l : Fields) : occSum ds l ≤ sizeSum l := by
  have := occSum_unknowns hn l; omega

theorem valSum_occ_le (g : Byte) (l : Fields) : valSum (occ g l) ≤ sizeSum l := by
  have := occSum_le (ds := [⟨g, "", .prim .bool⟩]) (by simp) l
  simpa [occSum] using this

/-! ## The induction -/

def _root_.Fourleaf.Body.NoEmpty (b : Body) : Prop := ∀ t ∈ b.types, t.noEmptyArray = true

/-- What is proved for each kind of item. -/
def Smaller (env : Env) : RItem → List Val → List V → Prop
  | .body t, vals, vs => t.noEmptyArray = true → ¬ UnitBody t → ∀ v, vs = [v] → ∀ n cs, (sops env n).body t v = some cs → callSize cs + 1 ≤ valSum vals
  | .field t, vals, vs => t.noEmptyArray = true → ∀ v, vs = [v] → ∀ n g cs, (sops env n).field t g v = some cs → callSize cs ≤ valSum vals
  | .elem t, vals, vs => t.noEmptyArray = true → ∀ v, vs = [v] → ∀ n g cs, (sops env n).element t g v = some cs → callSize cs ≤ valSum vals
  | .each t, vals, vs => t.noEmptyArray = true → ∃ b, Bounds env t vs b ∧ b ≤ valSum vals
  | .fields ds, vals, vs => (∀ x ∈ ds, x.ty.noEmptyArray = true) → ∀ l, vals = [.struct l] → ∀ n rest r, serFields (sops env n) ds (vs ++ rest) = some r →
      r.2 = rest ∧ callSize r.1 ≤ occSum ds l
  | .parts b, vals, vs => b.Ok → b.wf → b.NoEmpty → Body.NoUnit b → ∀ n cs, macroBodySer (sops env n) b vs = some cs → callSize cs + 1 ≤ valSum vals
  | .unknown zc, vals, es => ∀ n cs, serAll (serUnknown (sops env n) zc) es = some cs → callSize cs + 2 ≤ valSum vals


theorem element_body {env : Env} {t : Ty} (ht : t.inStruct env = true) (hne : t ≠ .tuple []) {n : Nat} {g : Byte} {v : V} {cs : List WCall}
    (h : (sops env n).element t g v = some cs) : ∃ m b, (sops env m).body t v = some b ∧ cs = .struct g :: b := by
  cases n with
  | zero => cases h
  | succ n =>
    have hw : t.isWrapped env = true → wrapped (sops env n) t g v = some cs → ∃ m b, (sops env m).body t v = some b ∧ cs = .struct g :: b := by
      intro h1 h2
      rw [wrapped, Option.map_eq_some_iff] at h2
      obtain ⟨a, h3, rfl⟩ := h2
      refine ⟨n + 1, a ++ [.endStruct], ?_, rfl⟩
      show bodySer env (sops env n) t v = _
      rw [bodySer_wrapped h1, defaultBodySer, h3]; rfl
    have hb : ((sops env n).body t v).map (WCall.struct g :: ·) = some cs → ∃ m b, (sops env m).body t v = some b ∧ cs = .struct g :: b := by
      intro h2
      rw [Option.map_eq_some_iff] at h2
      obtain ⟨a, h3, rfl⟩ := h2
      exact ⟨n, a, h3, rfl⟩
    change elementSer env (sops env n) t g v = some cs at h
    cases t with
    | prim p => cases ht
    | boxed t => cases ht
    | unknownField zc => cases ht
    | tuple ts =>
      cases ts with
      | nil => exact absurd rfl hne
      | cons t ts => simp only [elementSer] at h; exact hb h
    | unknownFields zc => simp only [elementSer] at h; exact hb h
    | coll k e => simp only [elementSer] at h; exact hw rfl h
    | option e => simp only [elementSer] at h; exact hw rfl h
    | map k e => simp only [elementSer] at h; exact hw rfl h
    | small m e | large m e | vec e =>
      simp only [Ty.inStruct, Bool.not_eq_true', Ty.isByte_eq] at ht
      cases v <;> simp only [elementSer, ht, Bool.false_eq_true, if_false, reduceCtorEq] at h
      exact hw rfl h
    | named i =>
      simp only [Ty.inStruct, Ty.isByte_eq] at ht
      cases hd : env.decl i with
      | «enum» vs ca => simp only [hd] at ht; cases ht
      | struct b =>
        simp only [hd] at ht
        simp only [elementSer, hd] at h
        cases v with
        | seq vs =>
          simp only at h
          cases hb' : b.tail with
          | delegate name t => rw [hb'] at ht; cases ht
          | plain => rw [hb'] at h; exact hb h
          | unknown name zc => rw [hb'] at h; exact hb h
        | _ => cases h

theorem prim_smaller {p : Prim} {val : Val} {v : V} {c : Nat} (h : PrimReads p val v c) {g : Byte} {cs : List WCall} (hs : p.ser g v = some cs) :
    callSize cs ≤ val.size := by
  cases h with
  | phantom => cases hs; rw [callSize_int (w := .null g) (g := g) (n := 0) rfl]; exact Nat.le_refl _
  | boolFalse => cases hs; rw [callSize_int (w := .bool g false) (g := g) (n := 0) rfl]; exact Nat.le_refl _
  | boolTrue => cases hs; rw [callSize_int (w := .bool g true) (g := g) (n := 1) rfl]; exact Nat.le_refl _
  | @int k n i h1 h2 h3 =>
    simp only [Prim.ser, h1, h2, and_self, if_true] at hs
    cases hs
    obtain ⟨m, h4, h5⟩ := k.call_toks g h1 h2
    rw [callSize_int h4]
    have : m.toNat = n.toNat := by omega
    rw [this]; exact Nat.le_refl _
  | @char n ch h =>
    cases hs
    rw [callSize_int (w := .u32 g ch.val) (g := g) rfl]
    have h1 := ch.val.toNat_lt
    have h2 : ch.toNat = ch.val.toNat := rfl
    have h3 : (UInt64.ofNat ch.val.toNat).toNat = n.toNat := by rw [UInt64.toNat_ofNat_of_lt' (show _ < 2 ^ 64 by omega)]; omega
    rw [h3]
    simp [Val.size]
  | string => cases hs; rw [callSize_blob]; exact Nat.le_refl _
  | strRef => cases hs; rw [callSize_blob]; exact Nat.le_refl _
  | bytesRef =>
    simp only [Prim.ser, V.ofBytes, Option.map_eq_some_iff] at hs
    obtain ⟨d, h1, rfl⟩ := hs
    rw [callSize_blob, bytesOf_ofBytes h1]; exact Nat.le_refl _

theorem noEmptyArrays_mem : ∀ {ts : List Ty}, Ty.noEmptyArrays ts = true → ∀ t ∈ ts, t.noEmptyArray = true
  | t :: ts, h, x, hx => by
    simp only [Ty.noEmptyArrays, Bool.and_eq_true] at h
    cases hx with
    | head => exact h.1
    | tail _ hx => exact noEmptyArrays_mem h.2 x hx

theorem tupleFields_mem {ts : List Ty} {x : FieldDecl} (h : x ∈ components ts) : x.ty ∈ ts := by
  obtain ⟨i, hi, rfl⟩ := List.mem_mapIdx.1 h
  exact List.getElem_mem _

theorem isU8_noEmpty {e : Ty} (h : e.isU8 = true) : e = u8 := isU8_eq h

theorem smaller {env : Env} (hok : env.Ok) (hwf : env.wf) (hne : ∀ i, ∀ t ∈ (env.decl i).types, t.noEmptyArray = true) (hnu : ∀ i, Decl.NoUnit (env.decl i))
    {cfg : Config} {it : RItem} {d : Nat} {vals : List Val} {vs : List V} {c : Stats} (h : Reads env cfg it d vals vs c) : Smaller env it vals vs := by
  induction h with
  | bodyBoxed _ ih =>
    intro h1 h2 v hv n cs hs
    cases n with
    | zero => cases hs
    | succ n => exact ih h1 (fun h => h2 (.boxed h)) v hv n cs hs
  | @bodyTuple ts d l vs c hl _ _ ih =>
    intro h1 h2 v hv n cs hs
    cases hv
    cases n with
    | zero => cases hs
    | succ n =>
      change bodySer env (sops env n) (.tuple ts) (.seq vs) = some cs at hs
      cases ts with
      | nil => exact absurd .unit h2
      | cons t ts =>
        simp only [bodySer] at hs
        split at hs
        · rename_i a ha
          cases hs
          simp only [Smaller] at ih
          obtain ⟨-, h4⟩ := ih (fun x hx => noEmptyArrays_mem h1 _ (tupleFields_mem hx)) l rfl n [] _ (by rw [List.append_nil]; exact ha)
          have := occSum_le (ds := components _) (tupleFields_ok hl).2 l
          rw [callSize_append, callSize_end, valSum_struct]
          dsimp only at h4
          omega
        · cases hs
  | bodyUnknown _ ih =>
    intro _ _ v hv n cs hs
    cases hv
    cases n with
    | zero => cases hs
    | succ n =>
      simp only [sops, bodySer, Option.map_eq_some_iff] at hs
      obtain ⟨a, h1, rfl⟩ := hs
      have := ih n a h1
      rw [callSize_append, callSize_end]
      omega
  | @bodyStruct i b d vals vs c hd _ ih =>
    intro _ _ v hv n cs hs
    cases hv
    cases n with
    | zero => cases hs
    | succ n =>
      simp only [sops, bodySer, hd] at hs
      have h1 := hok i; have h2 := hwf i; have h3 := hne i; have h4 := hnu i
      rw [hd] at h1 h2 h3 h4
      exact ih h1 h2 h3 h4 n cs hs
  | @bodyWrapped t d l v c hw _ _ _ ih =>
    intro h1 _ v' hv n cs hs
    cases hv
    cases n with
    | zero => cases hs
    | succ n =>
      change bodySer env (sops env n) t v = some cs at hs
      rw [bodySer_wrapped hw, defaultBodySer, Option.map_eq_some_iff] at hs
      obtain ⟨a, h2, rfl⟩ := hs
      have := ih h1 v rfl n 1 a h2
      have := valSum_occ_le 1 l
      rw [callSize_append, callSize_end, valSum_struct]
      omega
  | fieldBoxed _ ih =>
    intro h1 v hv n g cs hs
    cases n with
    | zero => cases hs
    | succ n => exact ih h1 v hv n g cs hs
  | @fieldSingle t d val v c ht _ ih =>
    intro h1 v' hv n g cs hs
    cases hv
    cases n with
    | zero => cases hs
    | succ n =>
      change fieldSer (sops env n) t g v = some cs at hs
      have key : ∃ m, (sops env m).element t g v = some cs := by
        cases t <;> simp only [Ty.isSingle, Bool.false_eq_true, Ty.isByte_eq] at ht <;> first
          | exact ⟨n, hs⟩
          | (cases v <;> simp only [fieldSer, ht, if_true, reduceCtorEq] at hs
             exact ⟨1, by rw [sops]; simp only [elementSer, ht, if_true]; exact hs⟩)
      obtain ⟨m, hm⟩ := key
      exact ih h1 v rfl m g cs hm
  | fieldNoBytes => intro h1; simp [Ty.noEmptyArray, Ty.isU8] at h1
  | fieldNoBytesL => intro h1; simp [Ty.noEmptyArray, Ty.isU8] at h1
  | fieldVec he _ ih =>
    rw [Ty.isByte_eq] at he
    intro h1 v hv n g cs hs
    cases hv
    cases n with
    | zero => cases hs
    | succ n =>
      obtain ⟨b, h2, h3⟩ := ih h1
      simp only [sops, fieldSer, he, Bool.false_eq_true, if_false] at hs
      exact Nat.le_trans (h2.ser hs) h3
  | fieldList _ ih =>
    intro h1 v hv n g cs hs
    cases hv
    cases n with
    | zero => cases hs
    | succ n =>
      obtain ⟨b, h2, h3⟩ := ih h1
      simp only [sops, fieldSer] at hs
      exact Nat.le_trans (h2.ser hs) h3
  | fieldSet _ ih =>
    intro h1 v hv n g cs hs
    cases hv
    cases n with
    | zero => cases hs
    | succ n =>
      obtain ⟨b, h2, h3⟩ := ih h1
      obtain ⟨b', h4, h5⟩ := h2.set [] 0 .nil
      rw [distinct_fold] at h4
      simp only [sops, fieldSer] at hs
      have := h4.ser hs
      omega
  | fieldMap _ ih =>
    intro h1 v hv n g cs hs
    cases hv
    cases n with
    | zero => cases hs
    | succ n =>
      obtain ⟨b, h2, h3⟩ := ih (by simp only [Ty.noEmptyArray, Bool.and_eq_true] at h1; simp [Ty.noEmptyArray, Ty.noEmptyArrays, h1])
      obtain ⟨b', h4, h5⟩ := h2.mapFold [] 0 .nil (by simp)
      rw [entriesOf_fold] at h4
      simp only [sops, fieldSer] at hs
      have := h4.ser (mapSer_all hs)
      omega
  | fieldOption _ _ ih =>
    intro h1 v hv n g cs hs
    cases hv
    cases n with
    | zero => cases hs
    | succ n =>
      obtain ⟨b, h2, h3⟩ := ih h1
      simp only [sops, fieldSer] at hs
      exact Nat.le_trans (h2.ser hs) h3
  | fieldSmall he _ _ ih | fieldLarge he _ _ ih =>
    rw [Ty.isByte_eq] at he
    intro h1 v hv n g cs hs
    cases hv
    cases n with
    | zero => cases hs
    | succ n =>
      simp only [Ty.noEmptyArray, Bool.and_eq_true] at h1
      obtain ⟨b, h2, h3⟩ := ih h1.2
      simp only [sops, fieldSer, he, Bool.false_eq_true, if_false] at hs
      exact Nat.le_trans (h2.ser hs) h3
  | elemPrim h =>
    intro _ v hv n g cs hs
    cases hv
    cases n with
    | zero => cases hs
    | succ n => simp only [sops, elementSer] at hs; rw [valSum_cons, valSum_nil]; exact prim_smaller h hs
  | elemBoxed _ ih =>
    intro h1 v hv n g cs hs
    cases n with
    | zero => cases hs
    | succ n => exact ih h1 v hv n g cs hs
  | elemVec | elemSmall _ | elemLarge _ =>
    intro _ v hv n g cs hs
    cases hv
    cases n with
    | zero => cases hs
    | succ n =>
      simp only [sops, elementSer, V.ofBytes, Ty.isU8, if_true, Option.map_eq_some_iff] at hs
      obtain ⟨d, h1, rfl⟩ := hs
      rw [callSize_blob, bytesOf_ofBytes h1]
      simp [Val.size]
  | @elemStruct t d l v c ht _ ih =>
    intro h1 v' hv n g cs hs
    cases hv
    by_cases hu : t = .tuple []
    · subst hu
      cases n with
      | zero => cases hs
      | succ n =>
        change elementSer env (sops env n) (.tuple []) g v = some cs at hs
        have : cs = [.struct g, .endStruct] := by
          unfold elementSer at hs
          split at hs <;> first | (cases hs; rfl) | simp_all
        subst this
        rw [valSum_struct]
        show 2 ≤ _
        omega
    · obtain ⟨m, b, h2, rfl⟩ := element_body ht hu hs
      have := ih h1 (by intro h; cases h with
        | unit => exact hu rfl
        | boxed => cases ht) v rfl m b h2
      rw [callSize_cons, callSize_struct]
      omega
  | @elemDelegate i b name t d val v c hd ht _ _ _ ih =>
    intro _ v' hv n g cs hs
    cases hv
    cases n with
    | zero => cases hs
    | succ n =>
      simp only [sops, elementSer, hd, ht] at hs
      refine ih ?_ v rfl n g cs hs
      apply hne i
      rw [hd]; simp [Decl.types, Body.types, ht]
  | @elemVariant i variants ca disc b d l vs c hd hf _ ih =>
    intro _ v' hv n g cs hs
    cases hv
    cases n with
    | zero => cases hs
    | succ n =>
      simp only [sops, elementSer, hd, hf, Option.map_eq_some_iff] at hs
      obtain ⟨a, h1, rfl⟩ := hs
      have hm := List.mem_of_find?_eq_some hf
      have g1 := hok i; have g2 := hwf i; have g3 := hne i; have g4 := hnu i
      rw [hd] at g1 g2 g3 g4
      have := ih (g1.1 _ hm) (g2.1 _ hm) (fun t ht => g3 t (by simp only [Decl.types, List.mem_append, List.mem_flatMap]; exact .inl ⟨_, hm, ht⟩)) (g4.1 _ hm) n a h1
      rw [callSize_cons, callSize_enum]
      simp only [valSum_cons, valSum_nil, Val.size] at this ⊢
      omega
  | @elemCatchAll i variants disc b d l vs c hd hf _ ih =>
    intro _ v' hv n g cs hs
    cases hv
    cases n with
    | zero => cases hs
    | succ n =>
      have hf' : variants.find? (fun x => x.1 = disc) = none := by
        rw [List.find?_eq_none]; intro x hx; simpa using hf x hx
      simp only [sops, elementSer, hd, hf', Option.map_eq_some_iff] at hs
      obtain ⟨a, h1, rfl⟩ := hs
      have g1 := hok i; have g2 := hwf i; have g3 := hne i; have g4 := hnu i
      rw [hd] at g1 g2 g3 g4
      have := ih (g1.2 _ rfl) (g2.2 _ rfl) (fun t ht => g3 t (by simp only [Decl.types, List.mem_append]; exact .inr ht)) (g4.2 _ rfl) n a h1
      rw [callSize_cons, callSize_enum]
      simp only [valSum_cons, valSum_nil, Val.size] at this ⊢
      omega
  | @unkInt zc d m =>
    intro _ v' hv n g cs hs
    cases hv
    cases n with
    | zero => cases hs
    | succ n =>
      simp only [sops, elementSer] at hs
      split at hs
      · cases hs
        rw [callSize_int (w := .u64 g _) (g := g) rfl]
        simp [Val.size]
      · cases hs
  | unkBlob =>
    intro _ v' hv n g cs hs
    cases hv
    cases n with
    | zero => cases hs
    | succ n =>
      simp only [sops, elementSer, V.ofBytes, Option.map_eq_some_iff] at hs
      obtain ⟨d, h1, rfl⟩ := hs
      rw [callSize_blob, bytesOf_ofBytes h1]
      simp [Val.size]
  | unkStruct _ ih =>
    intro _ v' hv n g cs hs
    cases hv
    cases n with
    | zero => cases hs
    | succ n =>
      simp only [sops, elementSer, Option.map_eq_some_iff] at hs
      obtain ⟨a, h1, rfl⟩ := hs
      have := ih rfl (by intro h; cases h) _ rfl n a h1
      rw [callSize_cons, callSize_struct]
      omega
  | @unkEnum zc d disc l u c _ ih =>
    intro _ v' hv n g cs hs
    cases hv
    cases n with
    | zero => cases hs
    | succ n =>
      simp only [sops, elementSer] at hs
      split at hs
      · rw [Option.map_eq_some_iff] at hs
        obtain ⟨a, h1, rfl⟩ := hs
        have := ih rfl (by intro h; cases h) _ rfl n a h1
        rw [callSize_cons, callSize_enum]
        simp only [valSum_cons, valSum_nil, Val.size] at this ⊢
        simp
        omega
      · cases hs
  | eachNil => intro _; exact ⟨0, .nil, Nat.zero_le _⟩
  | eachCons _ _ ih1 ih2 =>
    intro h1
    obtain ⟨b, h2, h3⟩ := ih2 h1
    exact ⟨_, .cons (fun n g cs hs => ih1 h1 _ rfl n g cs hs) h2, by simp; omega⟩
  | fieldsNil => intro _ l _ n rest r hs; cases hs; exact ⟨rfl, Nat.zero_le _⟩
  | @fieldsCons x xs d l v vs c c' _ _ _ ih1 ih2 =>
    intro h1 l' hl n rest r hs
    cases hl
    simp only [List.cons_append, serFields, Option.bind_eq_some_iff, Option.map_eq_some_iff] at hs
    obtain ⟨a, h2, r', h3, rfl⟩ := hs
    obtain ⟨h4, h5⟩ := ih2 (fun y hy => h1 y (List.mem_cons_of_mem _ hy)) l rfl n rest r' h3
    have := ih1 (h1 x (List.mem_cons_self ..)) v rfl n _ a h2
    refine ⟨h4, ?_⟩
    simp only [callSize_append, occSum, List.map_cons, List.sum_cons] at h5 ⊢
    omega
  | @partsPlain b d l vs c ht _ _ _ ih =>
    intro g1 g2 g3 g4 n cs hs
    simp only [macroBodySer, Option.bind_eq_some_iff] at hs
    obtain ⟨r, h1, h2⟩ := hs
    obtain ⟨h3, h4⟩ := ih (fun x hx => g3 _ (by simp only [Body.types, List.mem_append, List.mem_map]; exact .inl ⟨x, hx, rfl⟩)) l rfl n [] r (by rw [List.append_nil]; exact h1)
    rw [ht, h3] at h2
    cases h2
    have := occSum_le g1.2 l
    rw [callSize_append, callSize_end, valSum_struct]
    omega
  | @partsDelegate b name t d vals v c ht _ _ _ ih =>
    intro g1 g2 g3 g4 n cs hs
    obtain ⟨h1, -⟩ := g2.2 _ _ ht
    simp only [macroBodySer, h1, serFields, ht, Option.bind, Option.map_eq_some_iff] at hs
    obtain ⟨a, h2, rfl⟩ := hs
    exact ih (g3 t (by simp [Body.types, ht])) (g4 _ _ ht) v rfl n a h2
  | @partsUnknown b name zc d l vs es c c' ht _ _ _ _ ih1 ih2 =>
    intro g1 g2 g3 g4 n cs hs
    simp only [macroBodySer, Option.bind_eq_some_iff] at hs
    obtain ⟨r, h1, h2⟩ := hs
    obtain ⟨h3, h4⟩ := ih1 (fun x hx => g3 _ (by simp only [Body.types, List.mem_append, List.mem_map]; exact .inl ⟨x, hx, rfl⟩)) l rfl n _ r h1
    rw [ht, h3] at h2
    simp only [Option.map_eq_some_iff] at h2
    obtain ⟨a, h5, rfl⟩ := h2
    cases n with
    | zero => cases h5
    | succ n =>
      simp only [sops, bodySer, Option.map_eq_some_iff] at h5
      obtain ⟨a', h6, rfl⟩ := h5
      have := ih2 n a' h6
      have := occSum_unknowns g1.2 l
      simp only [callSize_append, callSize_end, valSum_struct] at *
      omega
  | unknownNil => intro n cs hs; cases hs; exact Nat.le_refl _
  | @unknownCons zc d tag val l u es c c' _ _ _ ih1 ih2 =>
    intro n cs hs
    simp only [serAll, serUnknown, Option.bind_eq_some_iff, Option.map_eq_some_iff] at hs
    obtain ⟨a, h1, b, h2, rfl⟩ := hs
    split at h1
    · cases n with
      | zero => cases h1
      | succ n =>
        simp only [sops, fieldSer] at h1
        have := ih1 rfl u rfl n _ a h1
        have := ih2 (n + 1) b h2
        simp only [callSize_append, valSum_cons, valSum_nil, Val.size, sizeSum] at *
        omega
    · cases h1

/-! ## The bytes of a message -/

theorem shortInt_small {n : Nat} (h : n < 128) : (shortInt n).length = 1 := by rw [shortInt, if_pos h]; rfl
theorem shortInt_large {n : Nat} (h : ¬ n < 128) : (shortInt n).length = 1 + (shortInt (n / 128)).length := by rw [shortInt, if_neg h, List.length_cons]; omega
theorem shortInt_pos (n : Nat) : 1 ≤ (shortInt n).length := by
  by_cases h : n < 128
  · rw [shortInt_small h]; exact Nat.le_refl _
  · rw [shortInt_large h]; omega

/-- No spelling of an integer is shorter than the canonical one. -/
theorem shortInt_least : ∀ (g : List Byte), IsGroup g → (shortInt (groupVal g)).length ≤ g.length
  | [], h => h.elim
  | [b], h => by
    have h : b.toNat < 128 := h
    rw [show groupVal [b] = b.toNat % 128 by simp [groupVal], shortInt_small (by omega)]; simp
  | b :: c :: cs, h => by
    obtain ⟨-, h2⟩ : 128 ≤ b.toNat ∧ IsGroup (c :: cs) := h
    have ih := shortInt_least (c :: cs) h2
    have he : groupVal (b :: c :: cs) = b.toNat % 128 + 128 * groupVal (c :: cs) := rfl
    generalize groupVal (c :: cs) = x at he ih
    rw [he]
    by_cases hs : b.toNat % 128 + 128 * x < 128
    · rw [shortInt_small hs]; simp
    · rw [shortInt_large hs, show (b.toNat % 128 + 128 * x) / 128 = x by omega, List.length_cons]; omega

theorem encInt_least {n : Nat} {g : List Byte} (h : EncInt n g) : (shortInt n).length ≤ g.length := by
  rw [← h.2.2]; exact shortInt_least g h.1

theorem encTok_least {t : Tok} {bs : List Byte} (h : EncTok t bs) : (canonTok t).length ≤ bs.length := by
  cases h with
  | enum _ _ h => have := encInt_least h; simp [canonTok]; omega
  | int _ _ h => have := encInt_least h; simp [canonTok]; omega
  | blob _ _ h _ => have := encInt_least h; simp [canonTok]; omega
  | exception h _ => have := encInt_least h; simp [canonTok]; omega
  | struct | endStruct | endDoc | padding => simp [canonTok]

/-- No spelling of a sequence of elements is shorter than the canonical one. -/
theorem encToks_least {ts : List Tok} {bs : List Byte} (h : EncToks ts bs) : (canonToks ts).length ≤ bs.length := by
  induction h with
  | nil => exact Nat.le_refl _
  | cons h _ ih =>
    have := encTok_least h
    simp only [canonToks, List.flatMap_cons, List.length_append] at ih ⊢
    omega

theorem canonToks_cons (t : Tok) (ts : List Tok) : (canonToks (t :: ts)).length = (canonTok t).length + (canonToks ts).length := by
  simp [canonToks]

/-- What the fields take, not counting padding. -/
theorem body_least {l : Fields} {ts : List Tok} (h : BodyOf l ts) : sizeSum l + 1 ≤ (canonToks ts).length := by
  induction h with
  | nil => exact Nat.le_refl _
  | pad _ ih => rw [canonToks_cons]; omega
  | int _ ih => rw [canonToks_cons]; simp only [sizeSum, Val.size, canonTok, List.length_cons]; omega
  | blob _ ih => rw [canonToks_cons]; simp only [sizeSum, Val.size, canonTok, List.length_cons, List.length_append]; omega
  | struct _ _ ih1 ih2 => rw [canonToks_cons, canonToks_append, List.length_append]; simp only [sizeSum, Val.size, canonTok, List.length_cons, List.length_nil]; omega
  | enum _ _ ih1 ih2 => rw [canonToks_cons, canonToks_append, List.length_append]; simp only [sizeSum, Val.size, canonTok, List.length_cons]; omega

theorem message_least {l : Fields} {m : List Byte} (h : Message l m) : sizeSum l + 1 ≤ m.length := by
  obtain ⟨ts, h1, h2⟩ := h
  exact Nat.le_trans (body_least h1) (encToks_least h2)

/-- The calls, the bytes and the tree that a value of the type is written as. -/
theorem produces_canon {env : Env} (henv : env.Ok) (hwf : env.wf) {t : Ty} (ht : t.wf false = true) {v : V} {k : Need} (h : HasType env t v k) :
    ∃ cs l, SerializesBody env t v cs ∧ Produces env t v (canonToks (callToks cs)) ∧ Message l (canonToks (callToks cs)) ∧
      ∀ cfg, k.Within cfg → Reads env cfg (.body t) 0 [.struct l] [v] k.used := by
  obtain ⟨cs, l, h1, h2, h3⟩ := tree_roundtrip henv h
  refine ⟨cs, l, h1, ⟨cs ++ [.commit], ⟨cs, h1, rfl⟩, ?_, fun w hw hb hroom => ?_⟩, h2.message, fun cfg hk => (deTree_iff henv hwf ht).1 (h3 cfg hk).1⟩
  · rintro _ ⟨b, h4, rfl⟩; rw [serializesBody_unique h1 h4]
  · have hv : ∀ c ∈ cs ++ [.commit], ∀ t ∈ c.toks, t.Valid := by
      intro c hc
      rcases List.mem_append.1 hc with hc | hc
      · exact h2.valid c hc
      · cases List.mem_singleton.1 hc; intro t ht; cases ht
    rw [← callToks_commit] at hroom ⊢
    obtain ⟨w', g1, g2, -, -, g3⟩ := c09_documented_format (cs ++ [.commit]) hv w hw hb hroom
    exact ⟨w', g1, g3, g2⟩

/-- The declared types contain no `[u8; 0]`, and no body is delegated to `()`. -/
structure Env.Plain (env : Env) : Prop where
  arrays : ∀ i, ∀ t ∈ (env.decl i).types, t.noEmptyArray = true
  units : ∀ i, Decl.NoUnit (env.decl i)

/-- **C67** If a message is read as a value, then what is written for the value is no longer than the message, and the same reader with the same configuration reads it as the same
value. (The types must not contain `[u8; 0]` or read a body as `()`, see below.) -/
theorem c67_no_growth (env : Env) (henv : env.Ok) (hwf : env.wf) (hp : Env.Plain env) (t : Ty) (ht : t.wf false = true) (ha : t.noEmptyArray = true) (hu : ¬ UnitBody t)
    (cfg : Config) (l : Fields) (m : List Byte) (hm : Message l m) (hlen : m.length < U64MAX) (v : V) (c : Stats) (h : Accepts env t cfg m v c) :
    ∃ m', Produces env t v m' ∧ m'.length ≤ m.length ∧ (∃ l', Message l' m') ∧ ∃ c', Accepts env t cfg m' v c' := by
  have hr : (Stream.fromSlice m).pos + m.length < U64MAX := by show 0 + m.length < U64MAX; omega
  obtain ⟨s', hrun⟩ := h _ (over_fromSlice m (by omega)) hr
  obtain ⟨-, hf, ⟨k, h1, h2, h3⟩, -⟩ := (deserialize_post hwf ht cfg (over_fromSlice m (by omega)).fresh.inv).ok v _ _ hrun
  have hw : k.Within cfg := ⟨h2, Nat.le_trans h3.1 hf.1, Nat.le_trans h3.2 hf.2, fun hk => by
    have hs : k.lenient = false := strict_needs hp.units h1 hu
    rw [hs] at hk; cases hk⟩
  obtain ⟨cs, l', ⟨n, e1⟩, g1, g2, g3⟩ := produces_canon henv hwf ht h1
  have hle : (canonToks (callToks cs)).length ≤ m.length := by
    have hb := smaller henv hwf hp.arrays hp.units ((c54_accepts env henv hwf t ht cfg l m hm hlen v c).1 h).1 ha hu v rfl n cs e1
    rw [valSum_struct] at hb
    have := message_least hm
    show callSize cs ≤ m.length
    omega
  refine ⟨_, g1, hle, ⟨l', g2⟩, k.used, ?_⟩
  exact (c54_accepts env henv hwf t ht cfg l' _ g2 (by omega) v k.used).2 ⟨g3 cfg hw, hw.collected, hw.blob⟩

/-- **C67** What is written for a value is the shortest message that is read as the value. -/
theorem c67_shortest (env : Env) (henv : env.Ok) (hwf : env.wf) (hp : Env.Plain env) (t : Ty) (ht : t.wf false = true) (ha : t.noEmptyArray = true) (hu : ¬ UnitBody t)
    (v : V) (k : Need) (hv : HasType env t v k) :
    ∃ m', Produces env t v m' ∧ ∀ (cfg : Config) (l : Fields) (m : List Byte), Message l m → m.length < U64MAX → ∀ c, Accepts env t cfg m v c → m'.length ≤ m.length := by
  obtain ⟨cs, l', ⟨n, e1⟩, g1, -, -⟩ := produces_canon henv hwf ht hv
  refine ⟨_, g1, fun cfg l m hm hlen c h => ?_⟩
  have hb := smaller henv hwf hp.arrays hp.units ((c54_accepts env henv hwf t ht cfg l m hm hlen v c).1 h).1 ha hu v rfl n cs e1
  rw [valSum_struct] at hb
  have := message_least hm
  show callSize cs ≤ m.length
  omega

/-! ### Examples -/

theorem exEnv_plain : Env.Plain exEnv := by
  refine ⟨fun i t ht => ?_, fun i => ?_⟩
  · match i with
    | 0 => revert t; decide
    | 1 => revert t; decide
    | _ + 2 => cases ht
  · match i with
    | 0 => intro _ _ h; cases h
    | 1 =>
      refine ⟨?_, ?_⟩
      · intro x hx; cases List.mem_singleton.1 hx; intro _ _ h; cases h
      · intro b hb; cases hb; intro _ _ h; cases h; nofun
    | _ + 2 => intro _ _ h; cases h

/-- A message with padding and an overlong integer. -/
def exLong : List Byte := [192, 65, 244, 131, 128, 0, 130, 0, 130, 1, 120, 192, 69, 7, 0]

theorem exLong_message : Message exTree exLong :=
  ⟨[.padding, .int 1 500, .blob 2 [], .blob 2 [120], .padding, .int 5 7, .endStruct], .pad (.int (.blob (.blob (.pad (.int .nil))))),
    .cons (bs := [192]) .padding (.cons (bs := [65, 244, 131, 128, 0]) (.int (by decide) (by decide) ⟨by simp [IsGroup], by decide, by decide⟩)
      (.cons (bs := [130, 0]) (.blob (d := 130) (g := [0]) (by decide) (by decide) ⟨by simp [IsGroup], by decide, by decide⟩ (by decide))
      (.cons (bs := [130, 1, 120]) (.blob (d := 130) (g := [1]) (by decide) (by decide) ⟨by simp [IsGroup], by decide, by decide⟩ (by decide))
      (.cons (bs := [192]) .padding (.cons (bs := [69, 7]) (.int (by decide) (by decide) ⟨by simp [IsGroup], by decide, by decide⟩) (.cons (bs := [0]) .endStruct .nil))))))⟩

/-- It is read as `exValue`; written again it takes 11 bytes instead of 15. -/
example : ∃ m', Produces exEnv (.named 0) exValue m' ∧ m'.length ≤ exLong.length ∧ (∃ l', Message l' m') ∧ ∃ c', Accepts exEnv (.named 0) .default m' exValue c' :=
  c67_no_growth exEnv exEnv_ok exEnv_wf exEnv_plain (.named 0) rfl rfl (by intro h; cases h) .default exTree exLong exLong_message (by decide) exValue ⟨3, 1⟩
    fun _ hs hroom => (reads_iff exLong_message hs hroom _ _).2 ⟨rfl, by decide⟩

/-- `exBytes` is the shortest message of `exValue`. -/
example : ∃ m', Produces exEnv (.named 0) exValue m' ∧ ∀ (cfg : Config) (l : Fields) (m : List Byte), Message l m → m.length < U64MAX → ∀ c, Accepts exEnv (.named 0) cfg m exValue c → m'.length ≤ m.length := by
  obtain ⟨k, h, -⟩ := exValue_type
  exact c67_shortest exEnv exEnv_ok exEnv_wf exEnv_plain (.named 0) rfl rfl (by intro h; cases h) exValue k h

theorem exNil_message : Message [] [0] := ⟨[.endStruct], .nil, .cons (bs := [0]) .endStruct .nil⟩

/-- The two conditions are needed: an empty document is read as a `[u8; 0]`, or as `()`, but what is written for these has a field. -/
example : ∃ m, Accepts exEnv (.small 0 u8) .default [0] (.seq []) .zero ∧ Produces exEnv (.small 0 u8) (.seq []) m ∧ m.length = 3 := by
  obtain ⟨cs, l, h1, h2, -⟩ := produces_canon exEnv_ok exEnv_wf (t := .small 0 u8) rfl (.bodyWrapped rfl (.fieldSingle rfl (.elemSmall (d := []) rfl (by decide))))
  cases serializesBody_unique h1 ⟨5, show _ = some [.blobData 1 [], .endStruct] from rfl⟩
  exact ⟨_, fun _ hs hroom => (reads_iff exNil_message hs hroom _ _).2 ⟨rfl, by decide⟩, h2, by decide +kernel⟩

example : ∃ m, Accepts exEnv (.tuple []) .default [0] (.seq []) .zero ∧ Produces exEnv (.tuple []) (.seq []) m ∧ m.length = 3 := by
  obtain ⟨cs, l, h1, h2, -⟩ := produces_canon exEnv_ok exEnv_wf (t := .tuple []) rfl .bodyUnit
  cases serializesBody_unique h1 ⟨5, show _ = some [.struct 1, .endStruct, .endStruct] from rfl⟩
  exact ⟨_, fun _ hs hroom => (reads_iff exNil_message hs hroom _ _).2 ⟨rfl, by decide⟩, h2, by decide +kernel⟩

end Fourleaf.Props
