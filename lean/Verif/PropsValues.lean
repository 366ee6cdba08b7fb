import Verif.PropsUnknown

/-! # C44, C46: the values of fields -/

namespace Fourleaf.Props
open Fourleaf Spec

theorem fields_component {env : Env} {cfg : Config} {it : RItem} {d : Nat} {vals : List Val} {us : List V} {c : Stats} (h : Reads env cfg it d vals us c) :
    ∀ {fs : List FieldDecl} {l : Fields}, it = .fields fs → vals = [.struct l] → us.length = fs.length ∧ ∀ (j : Nat) (x : FieldDecl), fs[j]? = some x →
      ∃ u c', us[j]? = some u ∧ Reads env cfg (.field x.ty) (d + 1) (occ x.tag l) [u] c' := by
  induction h <;> intro fs l ht hl <;> cases ht
  · exact ⟨rfl, fun j x h => by simp at h⟩
  · rename_i hf _ _ ih
    cases hl
    obtain ⟨g1, g2⟩ := ih rfl rfl
    refine ⟨by simp [g1], fun j x hx => ?_⟩
    cases j with
    | zero => cases hx; exact ⟨_, _, rfl, hf⟩
    | succ j => exact g2 j x hx

/-- The components of a value that is read are read from the occurrences of their fields. -/
theorem reads_component {env : Env} {cfg : Config} {t : Ty} {fs : List FieldDecl} (hf : FieldsOfTy env t fs) {d : Nat} {l : Fields} {v : V} {c : Stats}
    (h : Reads env cfg (.body t) d [.struct l] [v] c) :
    ∃ us, v = .seq us ∧ ∀ (j : Nat) (x : FieldDecl), fs[j]? = some x → ∃ u c', us[j]? = some u ∧ Reads env cfg (.field x.ty) (d + 1) (occ x.tag l) [u] c' := by
  induction hf with
  | tuple hl =>
    cases h with
    | bodyTuple _ _ h => exact ⟨_, rfl, (fields_component h rfl rfl).2⟩
    | bodyWrapped hw => simp [Ty.isWrapped] at hw
  | struct hd hb =>
    cases h with
    | bodyStruct hd' h =>
      rw [hd] at hd'; cases hd'
      cases h with
      | partsPlain _ _ _ h => exact ⟨_, rfl, (fields_component h rfl rfl).2⟩
      | partsDelegate hb' => exact absurd hb' (hb _ _)
      | partsUnknown _ _ _ h _ =>
        obtain ⟨g1, g2⟩ := fields_component h rfl rfl
        refine ⟨_, rfl, fun j x hx => ?_⟩
        obtain ⟨u, c', g3, g4⟩ := g2 j x hx
        exact ⟨u, c', by rw [List.getElem?_append_left]; exact g3; exact (List.getElem?_eq_some_iff.1 g3).1, g4⟩
    | bodyWrapped hw => simp [Ty.isWrapped, hd] at hw
  | boxed _ ih =>
    cases h with
    | bodyBoxed h => exact ih h
    | bodyWrapped hw => simp [Ty.isWrapped] at hw

/-! ## C44 -/

theorem mem_setInsert {v x : V} {l : List V} : x ∈ setInsert v l ↔ x = v ∨ x ∈ l := by
  unfold setInsert; split
  · constructor
    · exact .inr
    · rintro (rfl | h) <;> assumption
  · simp [or_comm]

theorem nodup_setInsert {v : V} {l : List V} (h : l.Nodup) : (setInsert v l).Nodup := by
  unfold setInsert; split
  · exact h
  · rename_i hv
    rw [List.nodup_append]
    exact ⟨h, by simp, by rintro a ha b hb rfl; cases List.mem_singleton.1 hb; exact hv ha⟩

/-- Elements that are inserted one by one in an empty set. -/
theorem set_fold (vs : List V) : ∀ l : List V, l.Nodup → (vs.foldl (fun r v => setInsert v r) l).Nodup ∧ ∀ x, x ∈ vs.foldl (fun r v => setInsert v r) l ↔ x ∈ l ∨ x ∈ vs := by
  induction vs with
  | nil => intro l h; simp [h]
  | cons v vs ih =>
    intro l h
    obtain ⟨h1, h2⟩ := ih (setInsert v l) (nodup_setInsert h)
    refine ⟨h1, fun x => ?_⟩
    rw [List.foldl_cons, h2, mem_setInsert]
    simp only [List.mem_cons]
    constructor
    · rintro ((h | h) | h)
      · exact .inr (.inl h)
      · exact .inl h
      · exact .inr (.inr h)
    · rintro (h | h | h)
      · exact .inl (.inr h)
      · exact .inl (.inl h)
      · exact .inr h

theorem find_mapInsert (e : V) (k : V) : ∀ l : List V, (mapInsert e l).find? (fun x => x.key = k) = if e.key = k then some e else l.find? fun x => x.key = k := by
  intro l
  unfold mapInsert
  by_cases h : l.any (fun x => x.key == e.key) = true
  · rw [if_pos h]
    by_cases hk : e.key = k
    · rw [if_pos hk]
      induction l with
      | nil => simp at h
      | cons y l ih =>
        rw [List.map_cons]
        by_cases hy : y.key = e.key
        · rw [if_pos hy, List.find?_cons_of_pos (by simpa using hk)]
        · rw [if_neg hy, List.find?_cons_of_neg (by simpa [← hk] using hy)]
          exact ih (by simpa [hy] using h)
    · rw [if_neg hk]
      clear h
      induction l with
      | nil => rfl
      | cons y l ih =>
        rw [List.map_cons]
        by_cases hy : y.key = e.key
        · rw [if_pos hy, List.find?_cons_of_neg (by simpa using hk), ih, List.find?_cons_of_neg (by simpa [hy] using hk)]
        · rw [if_neg hy, List.find?_cons, ih, List.find?_cons]
  · rw [if_neg h, List.find?_append]
    by_cases hk : e.key = k
    · rw [if_pos hk]
      have : l.find? (fun x => x.key = k) = none := by
        rw [List.find?_eq_none]
        intro x hx
        simp only [decide_eq_true_eq]
        intro hxk
        exact h (List.any_eq_true.2 ⟨x, hx, by simp [hxk, hk]⟩)
      rw [this]; simp [hk]
    · rw [if_neg hk, List.find?_cons_of_neg (by simpa using hk)]; simp

theorem keys_mapInsert {e : V} {l : List V} : (mapInsert e l).map V.key = if e.key ∈ l.map V.key then l.map V.key else l.map V.key ++ [e.key] := by
  unfold mapInsert
  by_cases h : e.key ∈ l.map V.key
  · have h' : l.any (fun x => x.key == e.key) = true := by
      obtain ⟨x, hx, he⟩ := List.mem_map.1 h
      exact List.any_eq_true.2 ⟨x, hx, by simp [he]⟩
    rw [if_pos h, if_pos h', List.map_map]
    refine List.map_congr_left fun x _ => ?_
    simp only [Function.comp]
    split
    · rename_i h; exact h.symm
    · rfl
  · have h' : ¬ l.any (fun x => x.key == e.key) = true := by
      intro h'
      obtain ⟨x, hx, he⟩ := List.any_eq_true.1 h'
      exact h (List.mem_map.2 ⟨x, hx, by simpa using he⟩)
    rw [if_neg h, if_neg h', List.map_append]; rfl

/-- Entries that are inserted one by one in an empty map: each key has the value of its last occurrence. -/
theorem map_fold (vs : List V) : ∀ l : List V, (l.map V.key).Nodup → ((vs.foldl (fun r v => mapInsert v r) l).map V.key).Nodup ∧
    ∀ k, (vs.foldl (fun r v => mapInsert v r) l).find? (fun x => x.key = k) = (vs.reverse.find? fun x => x.key = k).or (l.find? fun x => x.key = k) := by
  induction vs with
  | nil => intro l h; simp [h]
  | cons v vs ih =>
    intro l h
    have hn : ((mapInsert v l).map V.key).Nodup := by
      rw [keys_mapInsert]
      split
      · exact h
      · rename_i hv
        rw [List.nodup_append]
        exact ⟨h, by simp, by rintro a ha b hb rfl; cases List.mem_singleton.1 hb; exact hv ha⟩
    obtain ⟨h1, h2⟩ := ih (mapInsert v l) hn
    refine ⟨h1, fun k => ?_⟩
    rw [List.foldl_cons, h2, find_mapInsert, List.reverse_cons, List.find?_append, Option.or_assoc]
    congr 1
    by_cases hk : v.key = k <;> simp [hk]

theorem pair_of_reads {env : Env} {cfg : Config} {it : RItem} {d : Nat} {vals : List Val} {vs : List V} {c : Stats} (h : Reads env cfg it d vals vs c) :
    ∀ {k w : Ty}, it = .each (.tuple [k, w]) → ∀ e ∈ vs, ∃ a b, e = .seq [a, b] := by
  induction h <;> intro k w ht <;> cases ht
  · intro e he; cases he
  · rename_i he _ _ ih
    intro e hm
    rcases List.mem_cons.1 hm with rfl | hm
    · cases he with
      | elemStruct _ he =>
        cases he with
        | bodyWrapped hw => simp [Ty.isWrapped] at hw
        | bodyTuple _ _ h =>
          cases h with
          | fieldsCons _ _ h =>
            cases h with
            | fieldsCons _ _ h => cases h; exact ⟨_, _, rfl⟩
    · exact ih rfl e hm

/-- The value of the last entry with a key. -/
def LastEntry (entries : List V) (key val : V) : Prop := ∃ p q, entries = p ++ .seq [key, val] :: q ∧ ∀ val', .seq [key, val'] ∉ q

theorem find_last {vs : List V} (hp : ∀ e ∈ vs, ∃ a b, e = V.seq [a, b]) (a b : V) : vs.reverse.find? (fun x => x.key = a) = some (.seq [a, b]) ↔ LastEntry vs a b := by
  rw [List.find?_eq_some_iff_append]
  constructor
  · rintro ⟨-, as, bs, h1, h2⟩
    refine ⟨bs.reverse, as.reverse, ?_, fun val' hm => ?_⟩
    · rw [← List.reverse_inj, h1]; simp
    · have := h2 _ (List.mem_reverse.1 hm)
      simp [V.key] at this
  · rintro ⟨p, q, rfl, h⟩
    refine ⟨by simp [V.key], q.reverse, p.reverse, by simp, fun x hx => ?_⟩
    obtain ⟨a', b', rfl⟩ := hp x (by simp at hx; simp [hx])
    have : a' ≠ a := by rintro rfl; exact h b' (by simpa using hx)
    show (!decide (a' = a)) = true
    rw [decide_eq_false this]; rfl

theorem mem_of_keys {es : List V} (hn : (es.map V.key).Nodup) {e : V} : e ∈ es ↔ es.find? (fun x => x.key = e.key) = some e := by
  constructor
  · intro h
    induction es with
    | nil => cases h
    | cons y es ih =>
      rw [List.map_cons, List.nodup_cons] at hn
      rcases List.mem_cons.1 h with rfl | h
      · rw [List.find?_cons_of_pos (by simp)]
      · have : y.key ≠ e.key := fun he => hn.1 (he ▸ List.mem_map_of_mem h)
        rw [List.find?_cons_of_neg (by simpa using this)]
        exact ih hn.2 h
  · exact List.mem_of_find?_eq_some

/-- **C44** (maps) Whatever the message, the value of a map field contains for each key the value of its last entry (in the order of the message), and nothing else. `entries` are the occurrences of the field, each
read as a pair. -/
theorem c44_map (env : Env) (henv : env.Ok) (hwf : env.wf) (t : Ty) (ht : t.wf false = true) (fs : List FieldDecl) (hfs : FieldsOfTy env t fs) (cfg : Config)
    (l : Fields) (m : List Byte) (hm : Message l m) (hlen : m.length < U64MAX) (v : V) (c : Stats) (hacc : Accepts env t cfg m v c)
    (j : Nat) (x : FieldDecl) (hx : fs[j]? = some x) (k w : Ty) (hty : x.ty = .map k w) :
    ∃ us es entries c', v = .seq us ∧ us[j]? = some (.seq es) ∧ Reads env cfg (.each (.tuple [k, w])) 1 (occ x.tag l) entries c' ∧
      (es.map V.key).Nodup ∧ (∀ e ∈ es, ∃ a b, e = .seq [a, b]) ∧ ∀ a b, .seq [a, b] ∈ es ↔ LastEntry entries a b := by
  obtain ⟨hr, -⟩ := (c54_accepts env henv hwf t ht cfg l m hm hlen v c).1 hacc
  obtain ⟨us, rfl, h⟩ := reads_component hfs hr
  obtain ⟨u, c', hu, hf⟩ := h j x hx
  rw [hty] at hf
  generalize occ x.tag l = vals at hf ⊢
  cases hf with
  | fieldSingle h => simp [Ty.isSingle] at h
  | fieldMap he =>
    rename_i entries _
    obtain ⟨h1, h2⟩ := map_fold entries [] (by simp)
    rw [entriesOf_fold] at h1 h2
    have hp := pair_of_reads he rfl
    have hiff : ∀ a b, .seq [a, b] ∈ entriesOf entries ↔ LastEntry entries a b := by
      intro a b
      rw [mem_of_keys h1, h2]
      simp only [V.key, List.find?_nil, Option.or_none]
      exact find_last hp a b
    refine ⟨us, _, entries, _, rfl, hu, he, h1, fun e he => ?_, hiff⟩
    have := (mem_of_keys h1).1 he
    rw [h2] at this
    simp only [List.find?_nil, Option.or_none] at this
    exact hp e (by simpa using List.mem_of_find?_eq_some this)

/-- **C44** (sets) The value of a set field has exactly the elements read from the occurrences of the field, each once. -/
theorem c44_set (env : Env) (henv : env.Ok) (hwf : env.wf) (t : Ty) (ht : t.wf false = true) (fs : List FieldDecl) (hfs : FieldsOfTy env t fs) (cfg : Config)
    (l : Fields) (m : List Byte) (hm : Message l m) (hlen : m.length < U64MAX) (v : V) (c : Stats) (hacc : Accepts env t cfg m v c)
    (j : Nat) (x : FieldDecl) (hx : fs[j]? = some x) (e : Ty) (hty : x.ty = .coll .set e) :
    ∃ us es entries c', v = .seq us ∧ us[j]? = some (.seq es) ∧ Reads env cfg (.each e) 1 (occ x.tag l) entries c' ∧
      es.Nodup ∧ ∀ a, a ∈ es ↔ a ∈ entries := by
  obtain ⟨hr, -⟩ := (c54_accepts env henv hwf t ht cfg l m hm hlen v c).1 hacc
  obtain ⟨us, rfl, h⟩ := reads_component hfs hr
  obtain ⟨u, c', hu, hf⟩ := h j x hx
  rw [hty] at hf
  generalize occ x.tag l = vals at hf ⊢
  cases hf with
  | fieldSingle h => simp [Ty.isSingle] at h
  | fieldSet he =>
    rename_i entries _
    obtain ⟨h1, h2⟩ := set_fold entries [] (by simp)
    rw [distinct_fold] at h1 h2
    exact ⟨us, _, entries, _, rfl, hu, he, h1, fun a => by simp [h2]⟩

/-- A map field with the entries `1 → true`, `2 → false`, `1 → false`. -/
def exMapTree : Fields :=
  [(1, .struct [(1, .int 1), (2, .int 1)]), (1, .struct [(1, .int 2), (2, .int 0)]), (1, .struct [(2, .int 0), (1, .int 1)])]
def exMapBytes : List Byte := [193, 65, 1, 66, 1, 0, 193, 65, 2, 66, 0, 0, 193, 66, 0, 65, 1, 0, 0]

theorem exMapMessage : Message exMapTree exMapBytes :=
  (by decide +kernel : canonToks [.struct 1, .int 1 1, .int 2 1, .endStruct, .struct 1, .int 1 2, .int 2 0, .endStruct, .struct 1, .int 2 0, .int 1 1, .endStruct, .endStruct] = exMapBytes) ▸
    message_canon (.struct (.int (.int .nil)) (.struct (.int (.int .nil)) (.struct (.int (.int .nil)) .nil))) (by decide)

theorem exMap_accepts : Accepts exEnv (.tuple [.map u8 (.prim .bool)]) .default exMapBytes (.seq [.seq [.seq [.num 1, .bool false], .seq [.num 2, .bool false]]]) ⟨3, 0⟩ :=
  fun _ hs hroom => (reads_iff exMapMessage hs hroom _ _).2 ⟨rfl, by decide⟩
/-- (a) for this message: the entry for 1 is the last one. -/
example : ∃ entries c, Reads exEnv .default (.each (.tuple [u8, .prim .bool])) 1 (occ 1 exMapTree) entries c ∧ LastEntry entries (.num 1) (.bool false) ∧ ¬ LastEntry entries (.num 1) (.bool true) := by
  obtain ⟨us, es, entries, c, h1, h2, h3, -, -, h4⟩ := c44_map exEnv exEnv_ok exEnv_wf _ rfl _ (.tuple (by decide)) _ _ _ exMapMessage (by decide) _ _ exMap_accepts 0 ⟨1, "field_0", .map u8 (.prim .bool)⟩ rfl _ _ rfl
  cases h1
  cases h2
  exact ⟨entries, c, h3, (h4 _ _).1 (by simp), fun h => by simpa using (h4 _ _).2 h⟩

/-- `{3, 1, 3}` as a set. -/
example : ∃ entries c, Reads exEnv .default (.each (.prim (.int .u16))) 1 (occ 1 [(1, .int 3), (1, .int 1), (1, .int 3)]) entries c ∧ (∀ a, a ∈ [V.num 3, .num 1] ↔ a ∈ entries) := by
  have hm : Message [(1, .int 3), (1, .int 1), (1, .int 3)] [65, 3, 65, 1, 65, 3, 0] :=
    (by decide +kernel : canonToks [.int 1 3, .int 1 1, .int 1 3, .endStruct] = [65, 3, 65, 1, 65, 3, 0]) ▸ message_canon (.int (.int (.int .nil))) (by decide)
  have ha : Accepts exEnv (.tuple [.coll .set (.prim (.int .u16))]) .default [65, 3, 65, 1, 65, 3, 0] (.seq [.seq [.num 3, .num 1]]) ⟨3, 0⟩ :=
    fun _ hs hroom => (reads_iff hm hs hroom _ _).2 ⟨rfl, by decide⟩
  obtain ⟨us, es, entries, c, h1, h2, h3, -, h4⟩ := c44_set exEnv exEnv_ok exEnv_wf _ rfl _ (.tuple (by decide)) _ _ _ hm (by decide) _ _ ha 0 ⟨1, "field_0", .coll .set (.prim (.int .u16))⟩ rfl _ rfl
  cases h1
  cases h2
  exact ⟨entries, c, h3, h4⟩

/-! ## C46 -/

/-- **C46** (b) The value of a field of type `bool`, `char`, `String`, etc. is exactly the one in the message: a string has exactly the bytes of the blob, a character or number has exactly the code in the message. -/
theorem c46_exact (env : Env) (henv : env.Ok) (hwf : env.wf) (t : Ty) (ht : t.wf false = true) (fs : List FieldDecl) (hfs : FieldsOfTy env t fs) (cfg : Config)
    (l : Fields) (m : List Byte) (hm : Message l m) (hlen : m.length < U64MAX) (v : V) (c : Stats) (hacc : Accepts env t cfg m v c)
    (j : Nat) (x : FieldDecl) (hx : fs[j]? = some x) :
    ∃ us u, v = .seq us ∧ us[j]? = some u ∧
      (∀ p, x.ty = .prim p → ∃ val n, l.filter (·.1 = x.tag) = [(x.tag, val)] ∧ PrimReads p val u n) ∧
      (x.ty = .vec u8 → ∃ d, l.filter (·.1 = x.tag) = [(x.tag, .blob d)] ∧ u = .ofBytes d) ∧
      (∀ n, x.ty = .small (n + 1) u8 ∨ x.ty = .large (n + 1) u8 → ∃ d, l.filter (·.1 = x.tag) = [(x.tag, .blob d)] ∧ d.length = n + 1 ∧ u = .ofBytes d) := by
  obtain ⟨hr, -⟩ := (c54_accepts env henv hwf t ht cfg l m hm hlen v c).1 hacc
  obtain ⟨us, rfl, h⟩ := reads_component hfs hr
  obtain ⟨u, c', hu, hf⟩ := h j x hx
  have hocc : ∀ val, occ x.tag l = [val] → l.filter (·.1 = x.tag) = [(x.tag, val)] := by
    intro val h
    rw [occ_eq] at h
    obtain ⟨y, hy, hy'⟩ := List.map_eq_singleton_iff.1 h
    have : y ∈ l.filter (·.1 = x.tag) := by rw [hy]; simp
    rw [hy, ← hy']
    have := (List.mem_filter.1 this).2
    simp only [decide_eq_true_eq] at this
    rw [← this]
  refine ⟨us, u, rfl, hu, fun p hty => ?_, fun hty => ?_, fun n hty => ?_⟩
  · rw [hty] at hf
    revert hf
    generalize hvals : occ x.tag l = vals
    intro hf
    cases hf with
    | fieldSingle _ he =>
      cases he with
      | elemPrim hp => exact ⟨_, _, hocc _ hvals, hp⟩
      | elemStruct h => simp [Ty.inStruct] at h
  · rw [hty] at hf
    revert hf
    generalize hvals : occ x.tag l = vals
    intro hf
    cases hf with
    | fieldSingle _ he =>
      cases he with
      | elemVec => exact ⟨_, hocc _ hvals, rfl⟩
      | elemStruct h => simp [Ty.inStruct, Ty.isU8] at h
    | fieldVec h => simp [Ty.isU8] at h
  · revert hf
    generalize hvals : occ x.tag l = vals
    intro hf
    rcases hty with hty | hty <;> rw [hty] at hf
    · cases hf with
      | fieldSingle _ he =>
        cases he with
        | elemSmall hl => exact ⟨_, hocc _ hvals, hl, rfl⟩
        | elemStruct h => simp [Ty.inStruct, Ty.isU8] at h
      | fieldSmall h => simp [Ty.isU8] at h
    · cases hf with
      | fieldSingle _ he =>
        cases he with
        | elemLarge hl => exact ⟨_, hocc _ hvals, hl, rfl⟩
        | elemStruct h => simp [Ty.inStruct, Ty.isU8] at h
      | fieldLarge h => simp [Ty.isU8] at h

/-- Values in a message that are no value of a type. -/
inductive Invalid : Ty → Val → Prop where
  /-- a blob that is not valid UTF-8 -/
  | string {d} : (∀ s : String, utf8 s ≠ d) → Invalid (.prim .string) (.blob d)
  | strRef {d} : (∀ s : String, utf8 s ≠ d) → Invalid (.prim .strRef) (.blob d)
  /-- a number that is not the code of a character -/
  | char {n : UInt64} : (∀ c : Char, c.toNat ≠ n.toNat) → Invalid (.prim .char) (.int n)
  | bool {n : UInt64} : 1 < n.toNat → Invalid (.prim .bool) (.int n)
  /-- a number that does not fit -/
  | int {k : IntTy} {n : UInt64} : (∀ i, k.min ≤ i → i ≤ k.max → k.wire i ≠ n.toNat) → Invalid (.prim (.int k)) (.int n)
  /-- a blob of the wrong length -/
  | small {n d} : d.length ≠ n → Invalid (.small n u8) (.blob d)
  | large {n d} : d.length ≠ n → Invalid (.large n u8) (.blob d)

/-- (c) A message with such a value in a field is rejected. -/
theorem c46_rejects (env : Env) (henv : env.Ok) (hwf : env.wf) (t : Ty) (ht : t.wf false = true) (fs : List FieldDecl) (hfs : FieldsOfTy env t fs) (cfg : Config)
    (l : Fields) (m : List Byte) (hm : Message l m) (hlen : m.length < U64MAX) (x : FieldDecl) (hx : x ∈ fs) (val : Val) (hval : (x.tag, val) ∈ l) (hinv : Invalid x.ty val) :
    Rejects env t cfg m := by
  refine (c54_rejects env henv hwf t ht cfg l m hm hlen).2 fun v c _ hr => ?_
  obtain ⟨us, rfl, h⟩ := reads_component hfs hr
  obtain ⟨j, hj⟩ := List.getElem?_of_mem hx
  obtain ⟨u, c', hu, hf⟩ := h j x hj
  have hmem : val ∈ occ x.tag l := by
    rw [occ_eq]
    exact List.mem_map.2 ⟨_, List.mem_filter.2 ⟨hval, by simp⟩, rfl⟩
  revert hf hmem hinv
  generalize occ x.tag l = vals
  generalize x.ty = ty
  intro hinv hf hmem
  have hbad : ∀ {p : Prim} {c}, ty = .prim p → (∀ w n, ¬ PrimReads p val w n) → Reads env cfg (.field ty) 1 vals [u] c → False := by
    rintro p c rfl hn hf
    cases hf with
    | fieldSingle _ he =>
      cases List.mem_singleton.1 hmem
      cases he with
      | elemPrim hp => exact hn _ _ hp
      | elemStruct h => simp [Ty.inStruct] at h
  cases hinv with
  | string hs => exact hbad rfl (fun w n h => by cases h; exact hs _ rfl) hf
  | strRef hs => exact hbad rfl (fun w n h => by cases h; exact hs _ rfl) hf
  | char hs => exact hbad rfl (fun w n h => by cases h with | char h => exact hs _ h.symm) hf
  | bool hs => exact hbad rfl (fun w n h => by cases h <;> simp at hs) hf
  | int hs => exact hbad rfl (fun w n h => by cases h with | int h1 h2 h3 => exact hs _ h1 h2 h3.symm) hf
  | small hs =>
    cases hf with
    | fieldSingle _ he =>
      cases List.mem_singleton.1 hmem
      cases he with
      | elemSmall hl => exact hs hl
    | fieldNoBytes => cases hmem
    | fieldSmall h => simp [Ty.isU8] at h
  | large hs =>
    cases hf with
    | fieldSingle _ he =>
      cases List.mem_singleton.1 hmem
      cases he with
      | elemLarge hl => exact hs hl
    | fieldNoBytesL h => cases h _ hmem; simp at hs
    | fieldLarge h => simp [Ty.isU8] at h

/-- 0xD800 is not a character. -/
example : Rejects exEnv (.tuple [.prim .char]) .default [65, 128, 176, 3, 0] := by
  have hm : Message [(1, .int 0xD800)] [65, 128, 176, 3, 0] := (by decide +kernel : canonToks [.int 1 0xD800, .endStruct] = [65, 128, 176, 3, 0]) ▸ message_canon (.int .nil) (by decide)
  refine c46_rejects exEnv exEnv_ok exEnv_wf _ rfl _ (.tuple (by decide)) _ _ _ hm (by decide) ⟨1, s!"field_{0}", .prim .char⟩ (List.mem_singleton.2 rfl) (.int 0xD800) (by simp) (.char ?_)
  intro c h
  have hv := c.valid
  have h' : c.val.toNat = 0xD800 := h
  simp only [UInt32.isValidChar, Nat.isValidChar] at hv
  omega

/-- The number 300 in a message with an unknown field before it is the value of a `u16` field. -/
example : ∃ n, PrimReads (.int .u16) (.int 300) (.num 300) n := by
  have hm : Message [(9, .int 1), (1, .int 300)] [73, 1, 65, 172, 2, 0] := (by decide +kernel : canonToks [.int 9 1, .int 1 300, .endStruct] = [73, 1, 65, 172, 2, 0]) ▸ message_canon (.int (.int .nil)) (by decide)
  have ha : Accepts exEnv (.tuple [.prim (.int .u16)]) .default [73, 1, 65, 172, 2, 0] (.seq [.num 300]) .zero := fun _ hs hroom => (reads_iff hm hs hroom _ _).2 ⟨rfl, by decide⟩
  obtain ⟨us, u, h1, h2, h3, -⟩ := c46_exact exEnv exEnv_ok exEnv_wf _ rfl _ (.tuple (by decide)) _ _ _ hm (by decide) _ _ ha 0 ⟨1, "field_0", .prim (.int .u16)⟩ rfl
  cases h1
  cases h2
  obtain ⟨val, n, h4, h5⟩ := h3 _ rfl
  cases h4
  exact ⟨n, h5⟩

end Fourleaf.Props
