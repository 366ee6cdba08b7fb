import Verif.PropsUnknown
import Verif.PropsValues
import Verif.PropsExact

/-! # C74: a small message is not read as a large value -/

namespace Fourleaf
open Spec

mutual
/-- The size of a value: one for every number, character, collection, option, array, tuple, struct or enum in it, and for every byte of its strings. -/
def V.nodes : V → Nat
  | .bool _ | .num _ | .chr _ => 1
  | .str s => 1 + s.utf8ByteSize
  | .seq vs | .variant _ vs => 1 + nodesAll vs
def nodesAll : List V → Nat
  | [] => 0
  | v :: vs => v.nodes + nodesAll vs
end

theorem nodesAll_append (a b : List V) : nodesAll (a ++ b) = nodesAll a + nodesAll b := by
  induction a with
  | nil => simp [nodesAll]
  | cons x a ih => simp only [List.cons_append, nodesAll, ih]; omega

theorem nodes_ofBytes (d : List Byte) : (V.ofBytes d).nodes = 1 + d.length := by
  simp only [V.ofBytes, V.nodes]
  congr 1
  induction d with
  | nil => rfl
  | cons x d ih => simp only [List.map_cons, nodesAll, V.nodes, ih, List.length_cons]; omega

/-! ## The allowance: `C` for each field, and one for each byte in a blob -/

mutual
def Val.allow (C : Nat) : Val → Nat
  | .int _ => C
  | .blob d => C + d.length
  | .struct l | .enum _ l => C + allowF C l
def allowF (C : Nat) : List (Byte × Val) → Nat
  | [] => 0
  | (_, v) :: l => v.allow C + allowF C l
end

def allowAll (C : Nat) (vals : List Val) : Nat := (vals.map (Val.allow C)).sum

theorem allowAll_nil (C : Nat) : allowAll C [] = 0 := rfl
theorem allowAll_cons (C : Nat) (v : Val) (vs : List Val) : allowAll C (v :: vs) = v.allow C + allowAll C vs := rfl
theorem allowAll_one (C : Nat) (v : Val) : allowAll C [v] = v.allow C := by simp [allowAll]

def allowOcc (C : Nat) (ds : List FieldDecl) (l : Fields) : Nat := (ds.map fun x => allowAll C (occ x.tag l)).sum

theorem allowOcc_cons {C : Nat} {ds : List FieldDecl} (hn : (ds.map (·.tag)).Nodup) (g : Byte) (v : Val) (l : Fields) :
    allowOcc C ds ((g, v) :: l) = allowOcc C ds l + if g ∈ ds.map (·.tag) then v.allow C else 0 := by
  induction ds with
  | nil => simp [allowOcc]
  | cons x xs ih =>
    rw [List.map_cons, List.nodup_cons] at hn
    have ih := ih hn.2
    simp only [allowOcc, List.map_cons, List.sum_cons] at ih ⊢
    rw [ih]
    by_cases hx : g = x.tag
    · subst hx
      rw [if_neg hn.1, occ_cons_same, allowAll_cons, if_pos (List.mem_cons_self ..)]
      omega
    · rw [occ_cons_other hx]
      simp only [List.mem_cons, hx, false_or]
      omega

/-- Every field is read by at most one declaration. -/
theorem allowOcc_unknowns {C : Nat} {ds : List FieldDecl} (hn : (ds.map (·.tag)).Nodup) : ∀ l : Fields, allowOcc C ds l + allowF C (unknowns ds l) = allowF C l
  | [] => by
    have : ∀ ds : List FieldDecl, allowOcc C ds [] = 0 := fun ds => by
      induction ds with
      | nil => rfl
      | cons x xs ih => simp only [allowOcc, List.map_cons, List.sum_cons] at ih ⊢; rw [ih]; rfl
    simp [this, unknowns, allowF]
  | (g, v) :: l => by
    have ih := allowOcc_unknowns (C := C) hn l
    rw [allowOcc_cons hn, allowF]
    by_cases hg : g ∈ ds.map (·.tag)
    · have : unknowns ds ((g, v) :: l) = unknowns ds l := by
        unfold unknowns; rw [List.filter_cons_of_neg]
        obtain ⟨x, hx, he⟩ := List.mem_map.1 hg
        simp; exact ⟨x, hx, he⟩
      rw [this, if_pos hg]; omega
    · have : unknowns ds ((g, v) :: l) = (g, v) :: unknowns ds l := by
        unfold unknowns; rw [List.filter_cons_of_pos]
        simp; intro x hx he; exact hg (List.mem_map.2 ⟨x, hx, he⟩)
      rw [this, if_neg hg, allowF]; omega

theorem allowAll_occ_le (C : Nat) (g : Byte) (l : Fields) : allowAll C (occ g l) ≤ allowF C l := by
  have := allowOcc_unknowns (C := C) (ds := [⟨g, "", .prim .bool⟩]) (by simp) l
  simp only [allowOcc, List.map_cons, List.map_nil, List.sum_cons, List.sum_nil] at this
  omega

/-! ## Unknown fields -/

mutual
theorem nodes_asUnknown {C : Nat} (hC : 5 ≤ C) : ∀ v : Val, v.asUnknown.nodes + 2 + (C - 5) ≤ v.allow C
  | .int n => by simp only [Val.asUnknown, V.nodes, nodesAll, Val.allow]; omega
  | .blob d => by simp only [Val.asUnknown, V.nodes, nodesAll, Val.allow, nodes_ofBytes]; omega
  | .struct l => by
    have := nodes_asUnknowns hC l
    simp only [Val.asUnknown, V.nodes, nodesAll, Val.allow]; omega
  | .enum disc l => by
    have := nodes_asUnknowns hC l
    simp only [Val.asUnknown, V.nodes, nodesAll, Val.allow]; omega
theorem nodes_asUnknowns {C : Nat} (hC : 5 ≤ C) : ∀ l : List (Byte × Val), nodesAll (asUnknowns l) ≤ allowF C l
  | [] => by simp [asUnknowns, nodesAll, allowF]
  | (tag, v) :: l => by
    have h1 := nodes_asUnknown hC v
    have h2 := nodes_asUnknowns hC l
    simp only [asUnknowns, V.nodes, nodesAll, allowF]; omega
end

/-! ## Sets and maps -/

theorem nodesAll_setFold (vs : List V) : ∀ r, nodesAll (vs.foldl (fun r v => setInsert v r) r) ≤ nodesAll r + nodesAll vs := by
  induction vs with
  | nil => intro r; simp [nodesAll]
  | cons v vs ih =>
    intro r
    have := ih (setInsert v r)
    have h : nodesAll (setInsert v r) ≤ nodesAll r + v.nodes := by
      unfold setInsert
      split
      · omega
      · simp [nodesAll_append, nodesAll]
    simp only [List.foldl_cons, nodesAll]
    omega

theorem nodesAll_replace {e : V} : ∀ {r : List V}, (r.map V.key).Nodup → nodesAll (r.map fun x => if x.key = e.key then e else x) ≤ nodesAll r + e.nodes
  | [], _ => by simp [nodesAll]
  | v :: r, hn => by
    rw [List.map_cons, List.nodup_cons] at hn
    rw [List.map_cons]
    by_cases hk : v.key = e.key
    · rw [if_pos hk]
      have hid : r.map (fun x => if x.key = e.key then e else x) = r := by
        rw [List.map_congr_left (g := id), List.map_id]
        intro x hx
        rw [if_neg]; rfl
        intro h; exact hn.1 (List.mem_map.2 ⟨x, hx, by rw [h, hk]⟩)
      rw [hid]
      simp only [nodesAll]; omega
    · rw [if_neg hk]
      have := nodesAll_replace (e := e) hn.2
      simp only [nodesAll]; omega

theorem nodesAll_mapFold (vs : List V) : ∀ r, (r.map V.key).Nodup → nodesAll (vs.foldl (fun r v => mapInsert v r) r) ≤ nodesAll r + nodesAll vs := by
  induction vs with
  | nil => intro r _; simp [nodesAll]
  | cons v vs ih =>
    intro r hn
    have hn' : ((mapInsert v r).map V.key).Nodup := (Props.map_fold [v] r hn).1
    have := ih (mapInsert v r) hn'
    have h : nodesAll (mapInsert v r) ≤ nodesAll r + v.nodes := by
      unfold mapInsert
      split
      · exact nodesAll_replace hn
      · simp [nodesAll_append, nodesAll]
    simp only [List.foldl_cons, nodesAll]
    omega

/-! ## The number of declared fields -/

theorem nodup_bound : ∀ (n : Nat) (l : List Nat), l.Nodup → (∀ x ∈ l, x < n) → l.length ≤ n
  | 0, l, _, h => by
    cases l with
    | nil => simp
    | cons x l => exact absurd (h x (List.mem_cons_self ..)) (by omega)
  | n + 1, l, hn, h => by
    have ih := nodup_bound n (l.erase n) (hn.erase _) fun x hx => by
      have := (List.Nodup.mem_erase_iff hn).1 hx
      have := h x this.2
      omega
    rw [List.length_erase] at ih
    split at ih <;> omega

theorem FieldsOk.length {ds : List FieldDecl} (h : FieldsOk ds) : ds.length ≤ 63 := by
  have := nodup_bound 63 (ds.map fun x => x.tag.toNat - 1) (by
    have h2 := h.2
    have h1 := h.1
    clear h
    induction ds with
    | nil => simp
    | cons x ds ih =>
      rw [List.map_cons, List.nodup_cons] at h2 ⊢
      refine ⟨fun hm => ?_, ih h2.2 fun d hd => h1 d (List.mem_cons_of_mem _ hd)⟩
      obtain ⟨y, hy, he⟩ := List.mem_map.1 hm
      refine h2.1 (List.mem_map.2 ⟨y, hy, UInt8.toNat_inj.1 ?_⟩)
      have k1 := (h1 x (List.mem_cons_self ..)).1
      have k2 := (h1 y (List.mem_cons_of_mem _ hy)).1
      omega) (fun x hx => by
    obtain ⟨y, hy, rfl⟩ := List.mem_map.1 hx
    have := (h.1 y hy).2
    have := (h.1 y hy).1
    omega)
  simpa using this

/-! ## The induction -/

/-- What is proved for each kind of item. -/
def Small1 (C d : Nat) : RItem → List Val → List V → Prop
  | .body _, vals, vs | .elem _, vals, vs => nodesAll vs + d ≤ allowAll C vals
  | .field _, vals, vs => nodesAll vs ≤ 1 + allowAll C vals
  | .each _, vals, vs => nodesAll vs ≤ allowAll C vals
  | .fields ds, vals, vs => ∀ l, vals = [.struct l] → nodesAll vs ≤ ds.length + allowOcc C ds l
  | .parts b, vals, vs => b.Ok → nodesAll vs + d + 1 ≤ allowAll C vals
  | .unknown _, _, _ => True

theorem reads_small {env : Env} (henv : env.Ok) {cfg : Config} {C : Nat} (hC : cfg.recursionLimit + 66 ≤ C) {it : RItem} {d : Nat} {vals : List Val} {vs : List V} {c : Stats}
    (h : Reads env cfg it d vals vs c) : d ≤ cfg.recursionLimit → Small1 C d it vals vs := by
  induction h with
  | bodyBoxed _ ih => exact ih
  | @bodyTuple ts d l vs c hl _ _ ih =>
    intro hd
    have h1 := ih hd l rfl
    have h2 := allowOcc_unknowns (C := C) (tupleFields_ok hl).2 l
    rw [tupleFields_components] at h2
    have h3 : (components ts).length = ts.length := by simp [components]
    simp only [Small1, nodesAll, V.nodes, allowAll_one, Val.allow]
    omega
  | bodyUnknown h _ =>
    intro hd
    obtain ⟨l, rfl, rfl, -⟩ := (unknown_reads h).1 _ rfl
    have := nodes_asUnknowns (C := C) (by omega) l
    simp only [Small1, nodesAll, V.nodes, allowAll_one, Val.allow]
    omega
  | bodyStruct h1 _ ih =>
    intro hd
    have hb : (Decl.struct _).Ok := h1 ▸ henv _
    have := ih hd hb
    simp only [Small1, nodesAll, V.nodes] at this ⊢
    omega
  | bodyWrapped _ _ h1 _ ih =>
    intro hd
    have := ih h1
    have h2 := allowAll_occ_le C 1
    rename_i l v _ _ _ _
    have h2 := h2 l
    simp only [Small1, nodesAll, allowAll_one, Val.allow] at this ⊢
    omega
  | fieldBoxed _ ih => exact ih
  | fieldSingle _ _ ih => intro hd; have := ih hd; simp only [Small1] at this ⊢; omega
  | fieldNoBytes => intro _; simp only [Small1, nodesAll, V.nodes]; omega
  | fieldNoBytesL _ => intro _; simp only [Small1, nodesAll, V.nodes]; omega
  | fieldVec _ _ ih => intro hd; have := ih hd; simp only [Small1, nodesAll, V.nodes] at this ⊢; omega
  | fieldList _ ih => intro hd; have := ih hd; simp only [Small1, nodesAll, V.nodes] at this ⊢; omega
  | @fieldSet _ _ _ vs _ _ ih =>
    intro hd
    have := ih hd
    have h2 := nodesAll_setFold vs []
    rw [distinct_fold] at h2
    simp only [Small1, nodesAll, V.nodes] at this h2 ⊢; omega
  | @fieldMap _ _ _ _ vs _ _ ih =>
    intro hd
    have := ih hd
    have h2 := nodesAll_mapFold vs [] (by simp)
    rw [entriesOf_fold] at h2
    simp only [Small1, nodesAll, V.nodes] at this h2 ⊢; omega
  | fieldOption _ _ ih => intro hd; have := ih hd; simp only [Small1, nodesAll, V.nodes] at this ⊢; omega
  | fieldSmall _ _ _ ih => intro hd; have := ih hd; simp only [Small1, nodesAll, V.nodes] at this ⊢; omega
  | fieldLarge _ _ _ ih => intro hd; have := ih hd; simp only [Small1, nodesAll, V.nodes] at this ⊢; omega
  | elemPrim hp =>
    intro hd
    cases hp <;> simp only [Small1, nodesAll, V.nodes, allowAll_one, Val.allow, nodes_ofBytes, utf8_length] <;> omega
  | elemBoxed _ ih => exact ih
  | elemVec => intro hd; simp only [Small1, nodesAll, allowAll_one, Val.allow, nodes_ofBytes]; omega
  | elemSmall _ => intro hd; simp only [Small1, nodesAll, allowAll_one, Val.allow, nodes_ofBytes]; omega
  | elemLarge _ => intro hd; simp only [Small1, nodesAll, allowAll_one, Val.allow, nodes_ofBytes]; omega
  | elemStruct _ _ ih => exact ih
  | elemDelegate _ _ h1 _ _ ih =>
    intro hd
    have := ih h1
    simp only [Small1, nodesAll, V.nodes] at this ⊢
    omega
  | elemVariant h1 h2 _ ih =>
    intro hd
    have hb : (Decl.enum _ _).Ok := h1 ▸ henv _
    have := ih hd (hb.1 _ (List.mem_of_find?_eq_some h2))
    simp only [Small1, nodesAll, V.nodes, allowAll_one, Val.allow] at this ⊢
    omega
  | elemCatchAll h1 _ _ ih =>
    intro hd
    have hb : (Decl.enum _ _).Ok := h1 ▸ henv _
    have := ih hd (hb.2 _ rfl)
    simp only [Small1, nodesAll, V.nodes, allowAll_one, Val.allow] at this ⊢
    omega
  | unkInt => intro hd; simp only [Small1, nodesAll, V.nodes, allowAll_one, Val.allow]; omega
  | unkBlob => intro hd; simp only [Small1, nodesAll, V.nodes, allowAll_one, Val.allow, nodes_ofBytes]; omega
  | unkStruct h _ =>
    intro hd
    obtain ⟨l, h1, h2, -⟩ := (unknown_reads h).2.2 _ rfl
    have := nodes_asUnknowns (C := C) (by omega) l
    cases h1; cases h2
    simp only [Small1, nodesAll, V.nodes, allowAll_one, Val.allow]
    omega
  | unkEnum h _ =>
    intro hd
    obtain ⟨l, h1, h2, -⟩ := (unknown_reads h).2.2 _ rfl
    have := nodes_asUnknowns (C := C) (by omega) l
    cases h1; cases h2
    simp only [Small1, nodesAll, V.nodes, allowAll_one, Val.allow]
    omega
  | eachNil => intro _; simp [Small1, nodesAll]
  | eachCons _ _ ih1 ih2 =>
    intro hd
    have h1 := ih1 hd
    have h2 := ih2 hd
    simp only [Small1, nodesAll, allowAll_cons, allowAll_nil] at h1 h2 ⊢
    omega
  | fieldsNil => intro _ l _; simp [nodesAll]
  | fieldsCons h1 _ _ ih1 ih2 =>
    intro hd l hl
    cases hl
    have h2 := ih1 h1
    have h3 := ih2 hd _ rfl
    simp only [Small1, nodesAll, allowOcc, List.map_cons, List.sum_cons, List.length_cons] at h2 h3 ⊢
    omega
  | partsPlain _ _ _ _ ih =>
    intro hd hb
    have h1 := ih hd _ rfl
    have h2 := allowOcc_unknowns (C := C) hb.2
    have h3 := hb.length
    rename_i l _ _ _ _ _ _
    have h2 := h2 l
    simp only [allowAll_one, Val.allow]
    omega
  | partsDelegate _ _ h1 _ ih =>
    intro hd hb
    have := ih h1
    simp only [Small1] at this ⊢
    omega
  | @partsUnknown b name zc d l vs es c c' _ _ _ _ h1 ih _ =>
    intro hd hb
    have h2 := ih hd _ rfl
    obtain ⟨l', h3, rfl, -⟩ := (unknown_reads h1).1 _ rfl
    cases h3
    have h4 := allowOcc_unknowns (C := C) hb.2 l
    have h5 := hb.length
    have h6 := nodes_asUnknowns (C := C) (by omega) (unknowns b.fields l)
    simp only [nodesAll_append, nodesAll, V.nodes, allowAll_one, Val.allow]
    omega
  | unknownNil => intro _; trivial
  | unknownCons _ _ _ _ _ => intro _; trivial

/-! ## The bytes of a document -/

/-- What an element contributes to the fields. -/
def Tok.part : Tok → Nat
  | .int .. | .struct _ | .enum .. => 1
  | .blob _ d => 1 + d.length
  | _ => 0

theorem toks_part {ts : List Tok} {a : List Byte} (h : EncToks ts a) : (ts.map Tok.part).sum ≤ a.length := by
  induction h with
  | nil => simp
  | cons h1 _ ih =>
    simp only [List.map_cons, List.sum_cons, List.length_append]
    cases h1 <;> simp only [Tok.part, List.length_cons, List.length_append, List.length_nil] <;> omega

theorem Document.part {C : Nat} (hC : 1 ≤ C) {n : Bool} {c : Close} {l : Fields} {ts : List Tok} (h : Document n c l ts) : allowF C l ≤ C * (ts.map Tok.part).sum := by
  induction h with
  | endStruct | endDoc | input => simp [allowF]
  | pad _ ih | exception _ ih => simpa [Tok.part] using ih
  | int _ ih => simp only [allowF, Val.allow, List.map_cons, List.sum_cons, Tok.part, Nat.mul_add, Nat.mul_one] at ih ⊢; omega
  | @blob _ _ _ d _ _ _ ih =>
    have := Nat.mul_le_mul_right d.length hC
    simp only [allowF, Val.allow, List.map_cons, List.sum_cons, Tok.part, Nat.mul_add, Nat.mul_one] at ih ⊢; omega
  | struct _ _ ih1 ih2 | enum _ _ ih1 ih2 =>
    simp only [allowF, Val.allow, List.map_cons, List.map_append, List.sum_append, List.sum_cons, Tok.part, Nat.mul_add, Nat.mul_one] at ih1 ih2 ⊢; omega
  | structCut _ _ ih | enumCut _ _ ih =>
    simp only [allowF, Val.allow, List.map_cons, List.sum_cons, Tok.part, Nat.mul_add, Nat.mul_one] at ih ⊢; omega

namespace Props

/-- **C74** However the bytes are chosen, the value that is read is at most by a constant factor larger than what was consumed of them; the factor depends on the recursion limit only, not on the declarations. -/
theorem c74_no_amplification (env : Env) (henv : env.Ok) (hwf : env.wf) (t : Ty) (ht : t.wf false = true) (cfg : Config) (s : Stream) (m : List Byte) (hs : Over s m)
    (hg : s.graceful = false ∨ (s.useSeek = false ∨ s.inner.seekable = false) ∨ ∃ ts, EncToks ts m) (hroom : s.pos + m.length < U64MAX) (v : V) (s' : Stream) (c : Stats)
    (hrun : (deserialize env t cfg).run (s, .zero) = .ok v (s', c)) : v.nodes ≤ (cfg.recursionLimit + 66) * (s'.pos - s.pos + 1) := by
  obtain ⟨n, close, l, a, ⟨ts, h1, h2⟩, h3, h4⟩ : ∃ n close l a, IsDoc n close l a ∧ Reads env cfg (.body t) 0 [.struct l] [v] c ∧ s'.pos = s.pos + a.length := by
    rcases hg with hg | hg | ⟨ts, hts⟩
    · obtain ⟨close, l, a, rest, -, h1, -, h2, -, h3⟩ := c68_sound env henv hwf t ht cfg s m hs hg hroom v s' c hrun
      exact ⟨_, close, l, a, h1, h2, h3.pos⟩
    · obtain ⟨close, l, a, rest, -, h1, -, h2, -, h3⟩ := c68_any env henv hwf t ht cfg s m hs (fun _ => hg) hroom v s' c hrun
      exact ⟨_, close, l, a, h1, h2, h3.pos⟩
    · obtain ⟨close, l, a, rest, -, h1, -, h2, -, h3⟩ := c68_graceful env henv hwf t ht cfg s ts m hts hs hroom v s' c hrun
      exact ⟨_, close, l, a, h1, h2, h3.pos⟩
  have h5 := reads_small henv (C := cfg.recursionLimit + 66) (Nat.le_refl _) h3 (Nat.zero_le _)
  have h6 := h1.part (C := cfg.recursionLimit + 66) (by omega)
  have h7 := Nat.mul_le_mul_left (cfg.recursionLimit + 66) (toks_part h2)
  simp only [Small1, nodesAll, allowAll_one, Val.allow] at h5
  have : s'.pos - s.pos + 1 = a.length + 1 := by omega
  rw [this, Nat.mul_add]
  omega

/-! ## Examples -/

/-- The size of the example's value, and the bound for it. -/
example : exValue.nodes = 11 ∧ exBytes.length = 11 := by decide +kernel

example (s' : Stream) (c : Stats) (h : (deserialize exEnv (.named 0) .default).run (Stream.fromSlice exBytes, .zero) = .ok exValue (s', c)) : exValue.nodes ≤ 98 * (s'.pos - 0 + 1) :=
  c74_no_amplification exEnv exEnv_ok exEnv_wf (.named 0) rfl .default (Stream.fromSlice exBytes) exBytes (over_fromSlice _ (by decide)) (.inl rfl) (by decide) exValue s' c h

/-- A value may well be larger than its message: one byte that is read as 17 nodes (a tuple of 16 options). -/
example : (match (deserialize exEnv (.tuple (List.replicate 16 (.option (.prim .bool)))) .default).run (Stream.fromSlice [0], .zero) with
    | .ok v (s', _) => decide (v.nodes = 17 ∧ s'.pos = 1) | _ => false) = true := by decide +kernel

end Props
end Fourleaf
