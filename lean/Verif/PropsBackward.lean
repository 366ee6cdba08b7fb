import Verif.PropsFlat

/-! # C41: compatible changes of one field, one by one

`PropsCompat` has the general relation `Compat`; here the changes a user makes to one field of a struct or tuple are stated one by one, as facts about what `deserialize` returns, with the exact costs. -/

namespace Fourleaf.Props
open Fourleaf Spec

/-- `t` and `t'` are plain structs or tuples that differ only in the type of the field at position `j` (from 0), which is `a` in `t` and `b` in `t'`. `ok` is the validity check of `t'` (for a struct, whether its
constructor accepts the values). -/
structure Retyped (env : Env) (t t' : Ty) (j : Nat) (a b : Ty) (ok : List V → Bool) : Prop where
  wf : t.wf false = true
  wf' : t'.wf false = true
  fields : ∃ fs chk x, PlainTy env t fs chk ∧ fs[j]? = some x ∧ x.ty = a ∧ PlainTy env t' (fs.set j { x with ty := b }) ok

/-- The field at position `j` contributes its own part to the costs. -/
theorem fields_set {env : Env} {cfg : Config} {d : Nat} {l : Fields} (fs : List FieldDecl) : ∀ {vs : List V} {c : Stats} {j : Nat} {x : FieldDecl},
    Reads env cfg (.fields fs) d [.struct l] vs c → fs[j]? = some x →
    ∃ v c1 c0, vs[j]? = some v ∧ c = c1 + c0 ∧ Reads env cfg (.field x.ty) (d + 1) (occ x.tag l) [v] c1 ∧
      ∀ ty' v' c1', Reads env cfg (.field ty') (d + 1) (occ x.tag l) [v'] c1' → Reads env cfg (.fields (fs.set j { x with ty := ty' })) d [.struct l] (vs.set j v') (c1' + c0) := by
  induction fs with
  | nil => intro _ _ _ _ _ h; simp at h
  | cons y fs ih =>
    intro vs c j x h hx
    cases h with
    | fieldsCons hd hf hr =>
      rename_i v vs c c'
      cases j with
      | zero =>
        simp only [List.getElem?_cons_zero, Option.some.injEq] at hx
        subst hx
        exact ⟨v, c, c', rfl, rfl, hf, fun ty' v' c1' h => .fieldsCons (x := { y with ty := ty' }) hd h hr⟩
      | succ j =>
        obtain ⟨w, c1, c0, e1, e2, h1, h2⟩ := ih hr (by simpa using hx)
        refine ⟨w, c1, c + c0, by simpa using e1, ?_, h1, fun ty' v' c1' h => ?_⟩
        · rw [e2, ← Stats.add_assoc, Stats.add_comm c, Stats.add_assoc]
        · rw [← Stats.add_assoc, Stats.add_comm c1', Stats.add_assoc]
          exact .fieldsCons hd hf (h2 ty' v' c1' h)

theorem set_tags {fs : List FieldDecl} {j : Nat} {x : FieldDecl} (hx : fs[j]? = some x) (ty' : Ty) : (fs.set j { x with ty := ty' }).map (·.tag) = fs.map (·.tag) := by
  obtain ⟨hj, rfl⟩ := List.getElem?_eq_some_iff.1 hx
  rw [List.map_set]
  exact List.ext_getElem (by simp) fun i h1 h2 => by
    rw [List.getElem_set]; split
    · rename_i h; subst h; simp
    · rfl

/-- What is accepted as `t`: the field at `j` is read from the occurrences of its tag, and with another type that reads them, `t'` accepts. -/
theorem retyped_step {env : Env} (henv : env.Ok) (hwf : env.wf) {t t' : Ty} {j : Nat} {a b : Ty} {ok : List V → Bool} (h : Retyped env t t' j a b ok) {cfg : Config} {l : Fields} {m : List Byte}
    (hm : Message l m) (hlen : m.length < U64MAX) {vs : List V} {c : Stats} (ha : Accepts env t cfg m (.seq vs) c) :
    ∃ v vals c1 c0, vs[j]? = some v ∧ c = c1 + c0 ∧ c.fits cfg ∧ Reads env cfg (.field a) 1 vals [v] c1 ∧
      ∀ v' c1', Reads env cfg (.field b) 1 vals [v'] c1' → ok (vs.set j v') = true → (c1' + c0).fits cfg → Accepts env t' cfg m (.seq (vs.set j v')) (c1' + c0) := by
  obtain ⟨fs, chk, x, p, hx, rfl, p'⟩ := h.fields
  obtain ⟨hr, hf⟩ := (c54_accepts env henv hwf t h.wf cfg l m hm hlen _ c).1 ha
  obtain ⟨_, he, hi, hr⟩ := plain_inv p hr
  cases he
  obtain ⟨v, c1, c0, e1, e2, h1, h2⟩ := fields_set fs hr hx
  refine ⟨v, _, c1, c0, e1, e2, hf, h1, fun v' c1' h' hok hf' => ?_⟩
  refine (c54_accepts env henv hwf t' h.wf' cfg l m hm hlen _ _).2 ⟨plain_mk p' hok ?_ (h2 _ _ _ h'), hf'⟩
  rw [set_tags hx]
  exact hi

theorem set_same {vs : List V} {j : Nat} {v : V} (h : vs[j]? = some v) : vs.set j v = vs := by
  obtain ⟨hj, rfl⟩ := List.getElem?_eq_some_iff.1 h
  exact List.set_getElem_self hj

/-- An integer field read as another integer type of the same signedness: the message is accepted exactly if the number is in the range of that type, and then the value (and the costs) are the same. -/
theorem c41_narrow (env : Env) (henv : env.Ok) (hwf : env.wf) (t t' : Ty) (j : Nat) (a b : IntTy) (ok : List V → Bool) (h : Retyped env t t' j (.prim (.int a)) (.prim (.int b)) ok) (hs : a.signed = b.signed)
    (cfg : Config) (l : Fields) (m : List Byte) (hm : Message l m) (hlen : m.length < U64MAX) (vs : List V) (c : Stats) (hok : ok vs = true) (ha : Accepts env t cfg m (.seq vs) c) :
    ∃ i, vs[j]? = some (.num i) ∧ a.min ≤ i ∧ i ≤ a.max ∧ (Accepts env t' cfg m (.seq vs) c ↔ b.min ≤ i ∧ i ≤ b.max) := by
  obtain ⟨v, vals, c1, c0, e1, e2, hf, h1, h2⟩ := retyped_step henv hwf h hm hlen ha
  obtain ⟨n, i, rfl, rfl, g1, g2, g3⟩ := narrow_int h1
  refine ⟨i, e1, g1, g2, fun h' => ?_, fun hi => ?_⟩
  · obtain ⟨fs, chk, x, p, hx, -, p'⟩ := h.fields
    obtain ⟨_, he, -, hr⟩ := plain_inv p' ((c54_accepts env henv hwf t' h.wf' cfg l m hm hlen _ c).1 h').1
    cases he
    have hj := (List.getElem?_eq_some_iff.1 hx).1
    obtain ⟨u, c', q1, q2⟩ := (fields_component hr rfl rfl).2 j { x with ty := .prim (.int b) } (by rw [List.getElem?_set_self hj])
    rw [e1] at q1; cases q1
    obtain ⟨_, _, -, q3, q4, q5, -⟩ := narrow_int q2
    cases q3
    exact ⟨q4, q5⟩
  · have hc1 : c1 = .zero := by
      cases h1 with
      | fieldSingle _ h =>
        cases h with
        | elemPrim h => cases h; rfl
    subst hc1
    have := h2 (.num i) .zero (.fieldSingle rfl (.elemPrim (.int hi.1 hi.2 (by
      rw [g3]; unfold IntTy.wire; rw [hs])))) (by rw [set_same e1]; exact hok) (e2 ▸ hf)
    rwa [set_same e1, ← e2] at this

/-- (a) A wider integer type of the same signedness: the same value is returned, for the same costs. -/
theorem c41_int (env : Env) (henv : env.Ok) (hwf : env.wf) (t t' : Ty) (j : Nat) (a b : IntTy) (ok : List V → Bool) (h : Retyped env t t' j (.prim (.int a)) (.prim (.int b)) ok) (hs : a.signed = b.signed)
    (hmin : b.min ≤ a.min) (hmax : a.max ≤ b.max) (cfg : Config) (l : Fields) (m : List Byte) (hm : Message l m) (hlen : m.length < U64MAX) (vs : List V) (c : Stats) (hok : ok vs = true)
    (ha : Accepts env t cfg m (.seq vs) c) : Accepts env t' cfg m (.seq vs) c := by
  obtain ⟨i, -, h1, h2, h3⟩ := c41_narrow env henv hwf t t' j a b ok h hs cfg l m hm hlen vs c hok ha
  exact h3.2 ⟨by omega, by omega⟩

/-- (b) A field that occurs once, read as an `Option` of its type: the value `v` is returned as `Some(v)`, for the same costs. -/
theorem c41_option (env : Env) (henv : env.Ok) (hwf : env.wf) (t t' : Ty) (j : Nat) (a : Ty) (ho : a.once = true) (ok : List V → Bool) (h : Retyped env t t' j a (.option a) ok)
    (cfg : Config) (l : Fields) (m : List Byte) (hm : Message l m) (hlen : m.length < U64MAX) (vs : List V) (c : Stats) (ha : Accepts env t cfg m (.seq vs) c) :
    ∃ v, vs[j]? = some v ∧ (ok (vs.set j (.seq [v])) = true → Accepts env t' cfg m (.seq (vs.set j (.seq [v]))) c) := by
  obtain ⟨v, vals, c1, c0, e1, e2, hf, h1, h2⟩ := retyped_step henv hwf h hm hlen ha
  obtain ⟨val, rfl, he⟩ := once_inv ho h1
  refine ⟨v, e1, fun hok => ?_⟩
  subst e2
  have := h2 (.seq [v]) c1 (by simpa [Stats.add_zero] using (Reads.fieldOption (vals := [val]) (Nat.le_refl 1) (.eachCons he .eachNil))) hok hf
  exact this

/-- (c) and as a vector (except `u8`): `v` is returned as `vec![v]`, which takes one more of the limit of collected elements. -/
theorem c41_vec (env : Env) (henv : env.Ok) (hwf : env.wf) (t t' : Ty) (j : Nat) (a : Ty) (ho : a.once = true) (hu : a.isByte = false) (ok : List V → Bool) (h : Retyped env t t' j a (.vec a) ok)
    (cfg : Config) (l : Fields) (m : List Byte) (hm : Message l m) (hlen : m.length < U64MAX) (vs : List V) (c : Stats) (ha : Accepts env t cfg m (.seq vs) c) (hroom : c.collected < cfg.maxCollect) :
    ∃ v, vs[j]? = some v ∧ (ok (vs.set j (.seq [v])) = true → Accepts env t' cfg m (.seq (vs.set j (.seq [v]))) ⟨c.collected + 1, c.blob⟩) := by
  obtain ⟨v, vals, c1, c0, e1, e2, hf, h1, h2⟩ := retyped_step henv hwf h hm hlen ha
  obtain ⟨val, rfl, he⟩ := once_inv ho h1
  refine ⟨v, e1, fun hok => ?_⟩
  subst e2
  have hc : (⟨(c1 + c0).collected + 1, (c1 + c0).blob⟩ : Stats) = (⟨1, 0⟩ + c1) + c0 := by
    cases c1; cases c0
    show Stats.mk _ _ = Stats.mk _ _
    congr 1 <;> simp only [Stats.add_collected, Stats.add_blob] <;> omega
  rw [hc]
  refine h2 (.seq [v]) (⟨1, 0⟩ + c1) (by simpa [Stats.add_zero] using (Reads.fieldVec (vals := [val]) hu (.eachCons he .eachNil))) hok ?_
  rw [← hc]
  exact ⟨hroom, hf.2⟩

theorem each_conv {env : Env} {cfg : Config} {e e' : Ty} (f : V → V) (hf : ∀ {d val v c}, Reads env cfg (.elem e) d [val] [v] c → Reads env cfg (.elem e') d [val] [f v] c) {it : RItem} {d : Nat} {vals : List Val}
    {vs : List V} {c : Stats} (h : Reads env cfg it d vals vs c) (hit : it = .each e) : Reads env cfg (.each e') d vals (vs.map f) c := by
  induction h <;> cases hit
  · exact .eachNil
  · rename_i h1 _ _ ih
    exact .eachCons (hf h1) (ih rfl)

/-- (d) An `Option` read as a vector: the same element, if there is one, which takes one more of the limit of collected elements. -/
theorem c41_option_vec (env : Env) (henv : env.Ok) (hwf : env.wf) (t t' : Ty) (j : Nat) (a : Ty) (hu : a.isByte = false) (ok : List V → Bool) (h : Retyped env t t' j (.option a) (.vec a) ok)
    (cfg : Config) (l : Fields) (m : List Byte) (hm : Message l m) (hlen : m.length < U64MAX) (vs : List V) (c : Stats) (hok : ok vs = true) (ha : Accepts env t cfg m (.seq vs) c) :
    ∃ us, vs[j]? = some (.seq us) ∧ us.length ≤ 1 ∧ (c.collected + us.length ≤ cfg.maxCollect → Accepts env t' cfg m (.seq vs) ⟨c.collected + us.length, c.blob⟩) := by
  obtain ⟨v, vals, c1, c0, e1, e2, hf, h1, h2⟩ := retyped_step henv hwf h hm hlen ha
  cases h1 with
  | fieldSingle hs => simp [Ty.isSingle] at hs
  | fieldOption hn he =>
    rename_i us
    have hlen := each_length he rfl
    refine ⟨us, e1, by omega, fun hroom => ?_⟩
    subst e2
    have hc : (⟨(c1 + c0).collected + us.length, (c1 + c0).blob⟩ : Stats) = (⟨vals.length, 0⟩ + c1) + c0 := by
      cases c1; cases c0
      show Stats.mk _ _ = Stats.mk _ _
      congr 1 <;> simp only [Stats.add_collected, Stats.add_blob] <;> omega
    rw [hc]
    have := h2 (.seq us) _ (.fieldVec hu he) (by rw [set_same e1]; exact hok) (by rw [← hc]; exact ⟨hroom, hf.2⟩)
    rwa [set_same e1] at this

/-- (e) A vector (except of `u8`) read as a set: the different elements, for the same costs. -/
theorem c41_vec_set (env : Env) (henv : env.Ok) (hwf : env.wf) (t t' : Ty) (j : Nat) (a : Ty) (hu : a.isByte = false) (ok : List V → Bool) (h : Retyped env t t' j (.vec a) (.coll .set a) ok)
    (cfg : Config) (l : Fields) (m : List Byte) (hm : Message l m) (hlen : m.length < U64MAX) (vs : List V) (c : Stats) (ha : Accepts env t cfg m (.seq vs) c) :
    ∃ us, vs[j]? = some (.seq us) ∧ (ok (vs.set j (.seq (distinct us))) = true → Accepts env t' cfg m (.seq (vs.set j (.seq (distinct us)))) c) := by
  obtain ⟨v, vals, c1, c0, e1, e2, hf, h1, h2⟩ := retyped_step henv hwf h hm hlen ha
  cases h1 with
  | fieldSingle hs => rw [Ty.isByte_eq] at hu; simp [Ty.isSingle, hu] at hs
  | fieldVec _ he =>
    subst e2
    exact ⟨_, e1, fun hok => h2 _ _ (.fieldSet he) hok hf⟩

/-- (f) A vector of pairs read as a map: for every key the last entry, for the same costs. -/
theorem c41_vec_map (env : Env) (henv : env.Ok) (hwf : env.wf) (t t' : Ty) (j : Nat) (a b : Ty) (ok : List V → Bool) (h : Retyped env t t' j (.vec (.tuple [a, b])) (.map a b) ok)
    (cfg : Config) (l : Fields) (m : List Byte) (hm : Message l m) (hlen : m.length < U64MAX) (vs : List V) (c : Stats) (ha : Accepts env t cfg m (.seq vs) c) :
    ∃ us, vs[j]? = some (.seq us) ∧ (ok (vs.set j (.seq (entriesOf us))) = true → Accepts env t' cfg m (.seq (vs.set j (.seq (entriesOf us)))) c) := by
  obtain ⟨v, vals, c1, c0, e1, e2, hf, h1, h2⟩ := retyped_step henv hwf h hm hlen ha
  cases h1 with
  | fieldSingle hs => simp [Ty.isSingle, Ty.isU8] at hs
  | fieldVec _ he =>
    subst e2
    exact ⟨_, e1, fun hok => h2 _ _ (.fieldMap he) hok hf⟩

theorem int_wider {env : Env} {cfg : Config} {a b : IntTy} (hs : a.signed = b.signed) (hmin : b.min ≤ a.min) (hmax : a.max ≤ b.max) {d : Nat} {val : Val} {v : V} {c : Stats}
    (h : Reads env cfg (.elem (.prim (.int a))) d [val] [v] c) : Reads env cfg (.elem (.prim (.int b))) d [val] [v] c := by
  cases h with
  | elemPrim hp =>
    cases hp with
    | int g1 g2 g3 => exact .elemPrim (.int (Int.le_trans hmin g1) (Int.le_trans g2 hmax) (by rw [g3]; simp [IntTy.wire, hs]))
  | elemStruct h => simp [Ty.inStruct] at h

/-- (g) A set of integers read as a set of integers of a wider type of the same signedness: the same set, for the same costs; likewise vectors of integers, -/
theorem c41_set_int (env : Env) (henv : env.Ok) (hwf : env.wf) (t t' : Ty) (j : Nat) (a b : IntTy) (ok : List V → Bool)
    (h : Retyped env t t' j (.coll .set (.prim (.int a))) (.coll .set (.prim (.int b))) ok) (hs : a.signed = b.signed)
    (hmin : b.min ≤ a.min) (hmax : a.max ≤ b.max) (cfg : Config) (l : Fields) (m : List Byte) (hm : Message l m) (hlen : m.length < U64MAX) (vs : List V) (c : Stats) (hok : ok vs = true)
    (ha : Accepts env t cfg m (.seq vs) c) : Accepts env t' cfg m (.seq vs) c := by
  obtain ⟨v, vals, c1, c0, e1, e2, hf, h1, h2⟩ := retyped_step henv hwf h hm hlen ha
  cases h1 with
  | fieldSingle hs => simp [Ty.isSingle] at hs
  | fieldSet he =>
    subst e2
    have := h2 _ _ (.fieldSet (by simpa using each_conv id (int_wider hs hmin hmax) he rfl)) (by rw [set_same e1]; exact hok) hf
    rwa [set_same e1] at this

theorem c41_vec_int (env : Env) (henv : env.Ok) (hwf : env.wf) (t t' : Ty) (j : Nat) (a b : IntTy) (hu : a ≠ .u8) (ok : List V → Bool)
    (h : Retyped env t t' j (.vec (.prim (.int a))) (.vec (.prim (.int b))) ok) (hs : a.signed = b.signed)
    (hmin : b.min ≤ a.min) (hmax : a.max ≤ b.max) (cfg : Config) (l : Fields) (m : List Byte) (hm : Message l m) (hlen : m.length < U64MAX) (vs : List V) (c : Stats) (hok : ok vs = true)
    (ha : Accepts env t cfg m (.seq vs) c) : Accepts env t' cfg m (.seq vs) c := by
  have hua : (Ty.prim (.int a)).isU8 = false := by cases a <;> first | rfl | exact absurd rfl hu
  have hub : (Ty.prim (.int b)).isU8 = false := by
    cases b <;> first | rfl | (cases a <;> first | exact absurd rfl hu | exact absurd hs (by decide) | exact absurd hmax (by decide))
  obtain ⟨v, vals, c1, c0, e1, e2, hf, h1, h2⟩ := retyped_step henv hwf h hm hlen ha
  cases h1 with
  | fieldSingle hs => simp [Ty.isSingle, hua] at hs
  | fieldVec _ he =>
    subst e2
    have := h2 _ _ (.fieldVec hub (by simpa using each_conv id (int_wider hs hmin hmax) he rfl)) (by rw [set_same e1]; exact hok) hf
    rwa [set_same e1] at this

/-- A change of the values of a map that does not change the costs. -/
theorem map_conv {env : Env} {cfg : Config} {k w w' : Ty} (g : V → V) (hg : ∀ {d vals v c}, Reads env cfg (.field w) d vals [v] c → Reads env cfg (.field w') d vals [g v] c) {d : Nat} {vals : List Val}
    {us : List V} {c : Stats} (h : Reads env cfg (.field (.map k w)) d vals [.seq us] c) : Reads env cfg (.field (.map k w')) d vals [.seq (us.map (mapSnd g))] c := by
  cases h with
  | fieldSingle hs => simp [Ty.isSingle] at hs
  | fieldMap h =>
    have := each_conv (e' := .tuple [k, w']) (mapSnd g) (fun {d val v c} he => by
      cases he with
      | elemStruct _ hb =>
        cases hb with
        | bodyTuple _ hi h =>
          cases h with
          | fieldsCons hd h1 h =>
            cases h with
            | fieldsCons _ h2 h =>
              cases h with
              | fieldsNil => exact .elemStruct rfl (.bodyTuple (by simp) (by simpa [components] using hi) (.fieldsCons hd h1 (.fieldsCons hd (hg h2) .fieldsNil)))
        | bodyWrapped hw => simp [Ty.isWrapped] at hw) h rfl
    have hinj : ∀ a b, Possible env (.tuple [k, w]) a → Possible env (.tuple [k, w]) b → ((mapSnd g a).key = (mapSnd g b).key ↔ a.key = b.key) := by
      intro a b ha hb
      obtain ⟨_, _, _, x, y, _, _, rfl, _, _⟩ := possible_pair ha
      obtain ⟨_, _, _, x', y', _, _, rfl, _, _⟩ := possible_pair hb
      exact Iff.rfl
    rw [← entriesOf_fold, ← toMap_map hinj _ (each_possible h rfl) [] (by simp), List.map_nil, entriesOf_fold]
    exact .fieldMap this

/-- (h) A map whose values are read as an integer type that is wider, -/
theorem c41_map_int (env : Env) (henv : env.Ok) (hwf : env.wf) (t t' : Ty) (j : Nat) (k : Ty) (a b : IntTy) (ok : List V → Bool)
    (h : Retyped env t t' j (.map k (.prim (.int a))) (.map k (.prim (.int b))) ok) (hs : a.signed = b.signed) (hmin : b.min ≤ a.min) (hmax : a.max ≤ b.max)
    (cfg : Config) (l : Fields) (m : List Byte) (hm : Message l m) (hlen : m.length < U64MAX) (vs : List V) (c : Stats) (hok : ok vs = true)
    (ha : Accepts env t cfg m (.seq vs) c) : Accepts env t' cfg m (.seq vs) c := by
  obtain ⟨v, vals, c1, c0, e1, e2, hf, h1, h2⟩ := retyped_step henv hwf h hm hlen ha
  obtain ⟨us, rfl⟩ : ∃ us, v = .seq us := by
    cases h1 with
    | fieldSingle hs => simp [Ty.isSingle] at hs
    | fieldMap => exact ⟨_, rfl⟩
  have h3 := map_conv (w' := .prim (.int b)) id (fun {d vals v c} he => by
    cases he with
    | fieldSingle _ he => exact .fieldSingle rfl (int_wider hs hmin hmax he)) h1
  have hid : us.map (mapSnd id) = us := by
    have : mapSnd id = id := by
      funext v; unfold mapSnd; split <;> rfl
    rw [this, List.map_id]
  subst e2
  have := h2 _ _ (hid ▸ h3) (by rw [set_same e1]; exact hok) hf
  rwa [set_same e1] at this

/-- (i) and one whose values become optional: every `(k, v)` is returned as `(k, Some(v))`. -/
theorem c41_map_option (env : Env) (henv : env.Ok) (hwf : env.wf) (t t' : Ty) (j : Nat) (k a : Ty) (ho : a.once = true) (ok : List V → Bool)
    (h : Retyped env t t' j (.map k a) (.map k (.option a)) ok) (cfg : Config) (l : Fields) (m : List Byte) (hm : Message l m) (hlen : m.length < U64MAX) (vs : List V) (c : Stats)
    (ha : Accepts env t cfg m (.seq vs) c) : ∃ us, vs[j]? = some (.seq us) ∧
      (ok (vs.set j (.seq (us.map (mapSnd fun v => .seq [v])))) = true → Accepts env t' cfg m (.seq (vs.set j (.seq (us.map (mapSnd fun v => .seq [v]))))) c) := by
  obtain ⟨v, vals, c1, c0, e1, e2, hf, h1, h2⟩ := retyped_step henv hwf h hm hlen ha
  obtain ⟨us, rfl⟩ : ∃ us, v = .seq us := by
    cases h1 with
    | fieldSingle hs => simp [Ty.isSingle] at hs
    | fieldMap => exact ⟨_, rfl⟩
  refine ⟨us, e1, fun hok => ?_⟩
  subst e2
  exact h2 _ _ (map_conv _ (fun {d vals v c} hr => by
    obtain ⟨val, rfl, he⟩ := once_inv ho hr
    simpa [Stats.add_zero] using (Reads.fieldOption (vals := [val]) (Nat.le_refl 1) (.eachCons he .eachNil))) h1) hok hf

/-- (j) Boxing a field changes nothing. -/
theorem c41_box (env : Env) (henv : env.Ok) (hwf : env.wf) (t t' : Ty) (j : Nat) (a : Ty) (ok : List V → Bool) (h : Retyped env t t' j a (.boxed a) ok) (cfg : Config) (l : Fields) (m : List Byte)
    (hm : Message l m) (hlen : m.length < U64MAX) (vs : List V) (c : Stats) (hok : ok vs = true) (ha : Accepts env t cfg m (.seq vs) c) : Accepts env t' cfg m (.seq vs) c := by
  obtain ⟨v, vals, c1, c0, e1, e2, hf, h1, h2⟩ := retyped_step henv hwf h hm hlen ha
  subst e2
  have := h2 _ _ (.fieldBoxed h1) (by rw [set_same e1]; exact hok) hf
  rwa [set_same e1] at this

/-- (k) Adding variants to an enum that has no catch-all variant: the same value, for the same costs. -/
theorem c41_variants (env : Env) (henv : env.Ok) (hwf : env.wf) (t t' : Ty) (j : Nat) (i i' : Nat) (ok : List V → Bool) (h : Retyped env t t' j (.named i) (.named i') ok) (old new : List (UInt64 × Body))
    (ca : Option Body) (hi : env.decl i = .enum old none) (hi' : env.decl i' = .enum (old ++ new) ca) (cfg : Config) (l : Fields) (m : List Byte)
    (hm : Message l m) (hlen : m.length < U64MAX) (vs : List V) (c : Stats) (hok : ok vs = true) (ha : Accepts env t cfg m (.seq vs) c) : Accepts env t' cfg m (.seq vs) c := by
  obtain ⟨v, vals, c1, c0, e1, e2, hf, h1, h2⟩ := retyped_step henv hwf h hm hlen ha
  subst e2
  have h3 : Reads env cfg (.field (.named i')) 1 vals [v] c1 := by
    cases h1 with
    | fieldSingle _ he =>
      refine .fieldSingle rfl ?_
      cases he with
      | elemStruct hs => simp [Ty.inStruct, hi] at hs
      | elemDelegate hd => rw [hi] at hd; cases hd
      | elemVariant hd hv hp =>
        rw [hi] at hd; cases hd
        exact .elemVariant hi' (by rw [List.find?_append, hv]; rfl) hp
      | elemCatchAll hd => rw [hi] at hd; cases hd
  have := h2 _ _ h3 (by rw [set_same e1]; exact hok) hf
  rwa [set_same e1] at this

/-- `fs'` are the fields of `fs` at the positions `idx`, with the same tags and types (names do not matter). -/
def Picked (fs fs' : List FieldDecl) (idx : List Nat) : Prop := fs'.map (fun x => some (x.tag, x.ty)) = idx.map fun i => fs[i]?.map fun x => (x.tag, x.ty)

theorem sum_remove (f : Nat → Nat) (idx : List Nat) (n : Nat) (hn : idx.Nodup) (h : ∀ i ∈ idx, i < n) : (idx.map f).sum ≤ ((List.range n).map f).sum := by
  induction n generalizing idx with
  | zero =>
    cases idx with
    | nil => simp
    | cons i idx => exact absurd (h i (List.mem_cons_self ..)) (by omega)
  | succ n ih =>
    rw [List.range_succ, List.map_append, List.sum_append_nat]
    simp only [List.map_cons, List.map_nil, List.sum_cons, List.sum_nil, Nat.add_zero]
    by_cases hm : n ∈ idx
    · have hp := List.perm_cons_erase hm
      rw [(hp.map f).sum_nat, List.map_cons, List.sum_cons]
      have := ih (idx.erase n) (hn.erase n) (fun i hi => by
        have h1 := h i (List.mem_of_mem_erase hi)
        have h2 : i ≠ n := fun he => (hn.mem_erase_iff.1 hi).1 he
        omega)
      omega
    · have := ih idx hn (fun i hi => by
        have h1 := h i hi
        have h2 : i ≠ n := fun he => hm (he ▸ hi)
        omega)
      omega

/-- The costs of every field. -/
theorem fields_costs {env : Env} {cfg : Config} {d : Nat} {l : Fields} (fs : List FieldDecl) : ∀ {vs : List V} {c : Stats}, Reads env cfg (.fields fs) d [.struct l] vs c →
    ∃ g : Nat → Stats, c = ⟨((List.range fs.length).map fun i => (g i).collected).sum, ((List.range fs.length).map fun i => (g i).blob).sum⟩ ∧
      ∀ i x, fs[i]? = some x → ∃ v, vs[i]? = some v ∧ Reads env cfg (.field x.ty) (d + 1) (occ x.tag l) [v] (g i) := by
  induction fs with
  | nil =>
    intro vs c h
    cases h
    exact ⟨fun _ => .zero, rfl, fun i x hx => by simp at hx⟩
  | cons y fs ih =>
    intro vs c h
    cases h with
    | fieldsCons hd hf hr =>
      rename_i v vs c c'
      obtain ⟨g, hg, h⟩ := ih hr
      refine ⟨fun i => if i = 0 then c else g (i - 1), ?_, fun i x hx => ?_⟩
      · rw [hg, List.length_cons, List.range_succ_eq_map]
        cases c
        show Stats.mk _ _ = Stats.mk _ _
        simp only [List.map_cons, List.sum_cons, List.map_map]
        rfl
      · cases i with
        | zero =>
          simp only [List.getElem?_cons_zero, Option.some.injEq] at hx
          subst hx
          exact ⟨v, rfl, hf⟩
        | succ i =>
          obtain ⟨w, h1, h2⟩ := h i x (by simpa using hx)
          exact ⟨w, by simpa using h1, h2⟩

theorem pick_reads {env : Env} {cfg : Config} {d : Nat} {l : Fields} {fs : List FieldDecl} {vs : List V} {g : Nat → Stats} (hd : fs ≠ [] → d < cfg.recursionLimit)
    (h : ∀ i x, fs[i]? = some x → ∃ v, vs[i]? = some v ∧ Reads env cfg (.field x.ty) (d + 1) (occ x.tag l) [v] (g i)) (idx : List Nat) : ∀ {fs' : List FieldDecl}, Picked fs fs' idx →
    ∃ vs', vs'.map some = idx.map (vs[·]?) ∧ Reads env cfg (.fields fs') d [.struct l] vs' ⟨(idx.map fun i => (g i).collected).sum, (idx.map fun i => (g i).blob).sum⟩ := by
  induction idx with
  | nil =>
    intro fs' hp
    cases fs' with
    | nil => exact ⟨[], rfl, .fieldsNil⟩
    | cons _ _ => simp [Picked] at hp
  | cons i idx ih =>
    intro fs' hp
    cases fs' with
    | nil => simp [Picked] at hp
    | cons x' fs' =>
      unfold Picked at hp
      simp only [List.map_cons, List.cons.injEq] at hp
      obtain ⟨h1, h2⟩ := hp
      cases hx : fs[i]? with
      | none => rw [hx] at h1; cases h1
      | some x =>
        rw [hx] at h1
        simp only [Option.map_some, Option.some.injEq, Prod.mk.injEq] at h1
        obtain ⟨v, g1, g2⟩ := h i x hx
        obtain ⟨vs', g3, g4⟩ := ih h2
        refine ⟨v :: vs', by rw [List.map_cons, List.map_cons, g1, g3], ?_⟩
        refine .fieldsCons (c := g i) (hd (fun he => by rw [he] at hx; simp at hx)) ?_ g4
        rw [h1.1, h1.2]
        exact g2

/-- (l) Reordering, renaming and deleting fields: if the new type has some of the fields of the old one, in any order and with any names, it gets the values of these (for at most the same costs). If fields were
deleted, the configuration must ignore unknown fields. -/
theorem c41_fields (env : Env) (henv : env.Ok) (hwf : env.wf) (t t' : Ty) (ht : t.wf false = true) (ht' : t'.wf false = true) (fs fs' : List FieldDecl) (chk ok : List V → Bool) (p : PlainTy env t fs chk)
    (p' : PlainTy env t' fs' ok) (idx : List Nat) (hp : Picked fs fs' idx) (hnd : idx.Nodup) (cfg : Config) (hall : cfg.ignoreUnknownFields = true ∨ ∀ i, i < fs.length → i ∈ idx)
    (l : Fields) (m : List Byte) (hm : Message l m) (hlen : m.length < U64MAX) (vs : List V) (c : Stats) (ha : Accepts env t cfg m (.seq vs) c) :
    ∃ vs' c', vs'.map some = idx.map (vs[·]?) ∧ c'.collected ≤ c.collected ∧ c'.blob ≤ c.blob ∧ (ok vs' = true → Accepts env t' cfg m (.seq vs') c') := by
  obtain ⟨hr, hf⟩ := (c54_accepts env henv hwf t ht cfg l m hm hlen _ c).1 ha
  obtain ⟨_, he, hi, hr⟩ := plain_inv p hr
  cases he
  obtain ⟨g, hg, h⟩ := fields_costs fs hr
  obtain ⟨vs', h1, h2⟩ := pick_reads (fun hne => fields_depth hr hne) h idx hp
  have hin : ∀ i ∈ idx, i < fs.length := by
    intro i hi
    have : fs[i]?.map (fun x => (x.tag, x.ty)) ∈ fs'.map (fun x => some (x.tag, x.ty)) := hp ▸ List.mem_map.2 ⟨i, hi, rfl⟩
    obtain ⟨x, -, hx⟩ := List.mem_map.1 this
    cases hq : fs[i]? with
    | none => rw [hq] at hx; cases hx
    | some y => exact (List.getElem?_eq_some_iff.1 hq).1
  have k1 : (idx.map fun i => (g i).collected).sum ≤ c.collected := by rw [hg]; exact sum_remove (fun i => (g i).collected) idx fs.length hnd hin
  have k2 : (idx.map fun i => (g i).blob).sum ≤ c.blob := by rw [hg]; exact sum_remove (fun i => (g i).blob) idx fs.length hnd hin
  refine ⟨vs', _, h1, k1, k2, fun hok => (c54_accepts env henv hwf t' ht' cfg l m hm hlen _ _).2 ⟨plain_mk p' hok ?_ h2, Nat.le_trans k1 hf.1, Nat.le_trans k2 hf.2⟩⟩
  rcases hi with hi | hi
  · exact .inl hi
  · refine hall.imp id fun hall x hx => ?_
    obtain ⟨y, hy, hxy⟩ := List.mem_map.1 (hi x hx)
    obtain ⟨i, hi, hy⟩ := List.getElem_of_mem hy
    have : some (y.tag, y.ty) ∈ fs'.map (fun x => some (x.tag, x.ty)) := hp ▸ List.mem_map.2 ⟨i, hall i hi, by rw [List.getElem?_eq_getElem hi, hy]; rfl⟩
    obtain ⟨z, hz, hzy⟩ := List.mem_map.1 this
    simp only [Option.some.injEq, Prod.mk.injEq] at hzy
    exact List.mem_map.2 ⟨z, hz, by rw [← hxy, hzy.1]⟩

/-- The types of fields that may be absent: optional values and collections (other than byte vectors). -/
inductive MayLack : Ty → Prop where
  | option {e} : MayLack (.option e)
  | vec {e} : e.isByte = false → MayLack (.vec e)
  | coll {k e} : MayLack (.coll k e)
  | map {k e} : MayLack (.map k e)

/-- (m) Adding such a field at the end: it is `None` or empty, for the same costs, unless the message has occurrences of its tag (which it can not, if unknown fields are not ignored). -/
theorem c41_add (env : Env) (henv : env.Ok) (hwf : env.wf) (t t' : Ty) (ht : t.wf false = true) (ht' : t'.wf false = true) (fs : List FieldDecl) (x : FieldDecl) (chk ok : List V → Bool) (p : PlainTy env t fs chk)
    (p' : PlainTy env t' (fs ++ [x]) ok) (hnew : x.tag ∉ fs.map (·.tag)) (hx : MayLack x.ty) (cfg : Config) (hd : 0 < cfg.recursionLimit) (l : Fields)
    (hl : cfg.ignoreUnknownFields = false ∨ ∀ y ∈ l, y.1 ≠ x.tag) (m : List Byte) (hm : Message l m) (hlen : m.length < U64MAX) (vs : List V) (c : Stats) (hok : ok (vs ++ [.seq []]) = true)
    (ha : Accepts env t cfg m (.seq vs) c) : Accepts env t' cfg m (.seq (vs ++ [.seq []])) c := by
  obtain ⟨hr', hf⟩ := (c54_accepts env henv hwf t ht cfg l m hm hlen _ c).1 ha
  obtain ⟨_, he, hi, hr⟩ := plain_inv p hr'
  cases he
  clear hr'
  have hocc : occ x.tag l = [] := occ_nil (by
    rcases hl with hl | hl
    · rcases hi with hi | hi
      · rw [hl] at hi; cases hi
      · exact fun y hy he => hnew (he ▸ hi y hy)
    · exact hl)
  have hx' : Reads env cfg (.field x.ty) 1 (occ x.tag l) [.seq []] .zero := by
    rw [hocc]
    generalize x.ty = ty at hx
    cases hx with
    | option => exact .fieldOption (Nat.zero_le _) .eachNil
    | vec hu => exact .fieldVec hu .eachNil
    | @coll k e =>
      cases k with
      | list => exact .fieldList .eachNil
      | set => exact .fieldSet (vs := []) .eachNil
    | map => exact .fieldMap (vs := []) .eachNil
  refine (c54_accepts env henv hwf t' ht' cfg l m hm hlen _ _).2 ⟨plain_mk p' hok ?_ ?_, hf⟩
  · exact hi.imp id fun hi y hy => by rw [List.map_append]; exact List.mem_append_left _ (hi y hy)
  · clear p p' hi ha hnew hf hok
    induction fs generalizing vs c with
    | nil => cases hr; exact .fieldsCons hd hx' .fieldsNil
    | cons y fs ih =>
      cases hr with
      | fieldsCons g1 g2 g3 => exact .fieldsCons g1 g2 (ih _ _ g3)

theorem exRetyped (b : Ty) (hb : (Ty.tuple [u8, b]).wf false = true) : Retyped exEnv (.tuple [u8, .prim .bool]) (.tuple [u8, b]) 1 (.prim .bool) b fun _ => true :=
  ⟨rfl, hb, _, _, ⟨2, "field_1", .prim .bool⟩, .tuple (by decide), rfl, rfl, .tuple (ts := [u8, b]) (Nat.le_of_ble_eq_true rfl)⟩

/-- `(200u8, true)` as `(u32, bool)`, `(u8, Option<bool>)`, `(u8, Vec<bool>)`, `(u8, Box<bool>)`, -/
example : Accepts exEnv (.tuple [.prim (.int .u32), .prim .bool]) strictCfg [65, 200, 1, 66, 1, 0] (.seq [.num 200, .bool true]) .zero :=
  c41_int exEnv exEnv_ok exEnv_wf (.tuple [u8, .prim .bool]) (.tuple [.prim (.int .u32), .prim .bool]) 0 .u8 .u32 (fun _ => true)
    ⟨rfl, rfl, _, _, ⟨1, "field_0", u8⟩, .tuple (by decide), rfl, rfl, .tuple (ts := [.prim (.int .u32), .prim .bool]) (by decide)⟩ rfl (by decide) (by decide) _ _ _ exCompat_message (by decide) _ _ rfl exCompat_old
example : Accepts exEnv (.tuple [u8, .option (.prim .bool)]) strictCfg [65, 200, 1, 66, 1, 0] (.seq [.num 200, .seq [.bool true]]) .zero := by
  obtain ⟨v, h1, h2⟩ := c41_option exEnv exEnv_ok exEnv_wf _ _ 1 _ rfl _ (exRetyped (.option (.prim .bool)) rfl) _ _ _ exCompat_message (by decide) _ _ exCompat_old
  cases h1
  exact h2 rfl
example : Accepts exEnv (.tuple [u8, .vec (.prim .bool)]) strictCfg [65, 200, 1, 66, 1, 0] (.seq [.num 200, .seq [.bool true]]) ⟨1, 0⟩ := by
  obtain ⟨v, h1, h2⟩ := c41_vec exEnv exEnv_ok exEnv_wf _ _ 1 _ rfl rfl _ (exRetyped (.vec (.prim .bool)) rfl) _ _ _ exCompat_message (by decide) _ _ exCompat_old (by decide)
  cases h1
  exact h2 rfl
example : Accepts exEnv (.tuple [u8, .boxed (.prim .bool)]) strictCfg [65, 200, 1, 66, 1, 0] (.seq [.num 200, .bool true]) .zero :=
  c41_box exEnv exEnv_ok exEnv_wf _ _ 1 _ _ (exRetyped (.boxed (.prim .bool)) rfl) _ _ _ exCompat_message (by decide) _ _ rfl exCompat_old

/-- `(u8,)` (if unknown fields are ignored) and with an additional field. -/
example : ∃ vs' c', vs'.map some = [0].map ([V.num 200, .bool true][·]?) ∧ c'.collected ≤ 0 ∧ c'.blob ≤ 0 ∧ (true = true → Accepts exEnv (.tuple [u8]) .default [65, 200, 1, 66, 1, 0] (.seq vs') c') :=
  c41_fields exEnv exEnv_ok exEnv_wf (.tuple [u8, .prim .bool]) (.tuple [u8]) rfl rfl _ _ _ (fun _ => true) (.tuple (by decide)) (.tuple (by decide)) [0] rfl (by decide) .default (.inl rfl) _ _ exCompat_message (by decide)
    _ .zero fun _ hs hroom => (reads_iff exCompat_message hs hroom _ _).2 ⟨rfl, by decide⟩
example : Accepts exEnv (.tuple [u8, .prim .bool, .map u8 u8]) strictCfg [65, 200, 1, 66, 1, 0] (.seq [.num 200, .bool true, .seq []]) .zero :=
  c41_add exEnv exEnv_ok exEnv_wf (.tuple [u8, .prim .bool]) (.tuple [u8, .prim .bool, .map u8 u8]) rfl rfl _ ⟨3, "field_2", .map u8 u8⟩ _ (fun _ => true) (.tuple (by decide))
    (.tuple (ts := [u8, .prim .bool, .map u8 u8]) (by decide)) (by decide) .map _ (by decide) _ (.inl rfl) _ exCompat_message (by decide) _ _ rfl exCompat_old

theorem exRetyped1 (a b : Ty) (ha : (Ty.tuple [a]).wf false = true) (hb : (Ty.tuple [b]).wf false = true) : Retyped exEnv (.tuple [a]) (.tuple [b]) 0 a b fun _ => true :=
  ⟨ha, hb, _, _, ⟨1, "field_0", a⟩, .tuple (Nat.le_of_ble_eq_true rfl), rfl, rfl, .tuple (ts := [b]) (Nat.le_of_ble_eq_true rfl)⟩

/-- 300 as `u16`: not as `u8`, but as `u64`. -/
example : ∃ i, [V.num 300][0]? = some (.num i) ∧ IntTy.u16.min ≤ i ∧ i ≤ IntTy.u16.max ∧ (Accepts exEnv (.tuple [u8]) .default [65, 172, 2, 67, 1, 0] (.seq [.num 300]) .zero ↔ IntTy.u8.min ≤ i ∧ i ≤ IntTy.u8.max) :=
  c41_narrow exEnv exEnv_ok exEnv_wf _ _ 0 .u16 .u8 _ (exRetyped1 (.prim (.int .u16)) u8 rfl rfl) rfl _ _ _ exCompat_narrow (by decide) _ _ rfl exCompat_u16

/-- `[300]` as vector, as set, as set of a wider type; -/
theorem exBackward_set : Accepts exEnv (.tuple [.coll .set (.prim (.int .u16))]) .default [65, 172, 2, 67, 1, 0] (.seq [.seq [.num 300]]) ⟨1, 0⟩ := by
  obtain ⟨us, h1, h2⟩ := c41_vec_set exEnv exEnv_ok exEnv_wf _ _ 0 _ rfl _ (exRetyped1 (.vec (.prim (.int .u16))) (.coll .set (.prim (.int .u16))) rfl rfl) .default _ _ exCompat_narrow (by decide) [.seq [.num 300]] ⟨1, 0⟩
    fun _ hs hroom => (reads_iff exCompat_narrow hs hroom _ _).2 ⟨rfl, by decide⟩
  cases h1
  exact h2 rfl
example : Accepts exEnv (.tuple [.coll .set (.prim (.int .u32))]) .default [65, 172, 2, 67, 1, 0] (.seq [.seq [.num 300]]) ⟨1, 0⟩ :=
  c41_set_int exEnv exEnv_ok exEnv_wf _ _ 0 .u16 .u32 _ (exRetyped1 _ _ rfl rfl) rfl (by decide) (by decide) _ _ _ exCompat_narrow (by decide) _ _ rfl exBackward_set
example : Accepts exEnv (.tuple [.vec (.prim (.int .u32))]) .default [65, 172, 2, 67, 1, 0] (.seq [.seq [.num 300]]) ⟨1, 0⟩ :=
  c41_vec_int exEnv exEnv_ok exEnv_wf _ _ 0 .u16 .u32 (by decide) _ (exRetyped1 (.vec (.prim (.int .u16))) _ rfl rfl) rfl (by decide) (by decide) _ _ _ exCompat_narrow (by decide) _ _ rfl
    fun _ hs hroom => (reads_iff exCompat_narrow hs hroom _ _).2 ⟨rfl, by decide⟩
example : Accepts exEnv (.tuple [.vec (.prim (.int .u16))]) .default [65, 172, 2, 67, 1, 0] (.seq [.seq [.num 300]]) ⟨1, 0⟩ := by
  obtain ⟨us, h1, -, h2⟩ := c41_option_vec exEnv exEnv_ok exEnv_wf _ _ 0 _ rfl _ (exRetyped1 (.option (.prim (.int .u16))) (.vec (.prim (.int .u16))) rfl rfl) .default _ _ exCompat_narrow (by decide) [.seq [.num 300]] .zero rfl
    fun _ hs hroom => (reads_iff exCompat_narrow hs hroom _ _).2 ⟨rfl, by decide⟩
  cases h1
  exact h2 (by decide)

/-- `[(5, false), (5, true)]` as a map, with values of other types. -/
theorem exBackward_map : Accepts exEnv (.tuple [.map u8 u8]) .default [193, 65, 5, 66, 0, 0, 193, 65, 5, 66, 1, 0, 0] (.seq [.seq [.seq [.num 5, .num 1]]]) ⟨2, 0⟩ := by
  obtain ⟨us, h1, h2⟩ := c41_vec_map exEnv exEnv_ok exEnv_wf _ _ 0 _ _ _ (exRetyped1 (.vec (.tuple [u8, u8])) (.map u8 u8) rfl rfl) .default _ _ exCompat_map (by decide)
    [.seq [.seq [.num 5, .num 0], .seq [.num 5, .num 1]]] ⟨2, 0⟩ fun _ hs hroom => (reads_iff exCompat_map hs hroom _ _).2 ⟨rfl, by decide⟩
  cases h1
  exact (by decide : entriesOf [.seq [.num 5, .num 0], .seq [.num 5, .num 1]] = [V.seq [.num 5, .num 1]]) ▸ h2 rfl
example : Accepts exEnv (.tuple [.map u8 (.prim (.int .u64))]) .default [193, 65, 5, 66, 0, 0, 193, 65, 5, 66, 1, 0, 0] (.seq [.seq [.seq [.num 5, .num 1]]]) ⟨2, 0⟩ :=
  c41_map_int exEnv exEnv_ok exEnv_wf _ _ 0 _ .u8 .u64 _ (exRetyped1 _ _ rfl rfl) rfl (by decide) (by decide) _ _ _ exCompat_map (by decide) _ _ rfl exBackward_map
example : Accepts exEnv (.tuple [.map u8 (.option u8)]) .default [193, 65, 5, 66, 0, 0, 193, 65, 5, 66, 1, 0, 0] (.seq [.seq [.seq [.num 5, .seq [.num 1]]]]) ⟨2, 0⟩ := by
  obtain ⟨us, h1, h2⟩ := c41_map_option exEnv exEnv_ok exEnv_wf _ _ 0 _ _ rfl _ (exRetyped1 (.map u8 u8) (.map u8 (.option u8)) rfl rfl) _ _ _ exCompat_map (by decide) _ _ exBackward_map
  cases h1
  exact h2 rfl

/-- An enum, and one with an additional variant. -/
def exVariants : Env where
  decl
    | 0 => .enum [(1, ⟨[⟨1, "a", u8⟩], .plain, fun _ => true⟩)] none
    | 1 => .enum [(1, ⟨[⟨1, "a", u8⟩], .plain, fun _ => true⟩), (2, ⟨[], .plain, fun _ => true⟩)] none
    | _ => .struct ⟨[], .plain, fun _ => true⟩
  size := 10
  bound := by
    intro i t ht
    match i with
    | 0 => revert t; decide
    | 1 => revert t; decide
    | _ + 2 => cases ht

theorem exVariants_ok : exVariants.Ok := by
  intro i
  match i with
  | 0 =>
    refine ⟨?_, fun b hb => by cases hb⟩
    intro x hx; cases List.mem_singleton.1 hx; show FieldsOk _; decide
  | 1 =>
    refine ⟨?_, fun b hb => by cases hb⟩
    intro x hx
    rcases List.mem_cons.1 hx with rfl | hx
    · show FieldsOk _; decide
    · cases List.mem_singleton.1 hx; show FieldsOk _; decide
  | _ + 2 => show FieldsOk _; decide

theorem exVariants_wf : exVariants.wf := by
  intro i
  match i with
  | 0 =>
    refine ⟨?_, fun b hb => by cases hb⟩
    intro x hx; cases List.mem_singleton.1 hx; exact ⟨by decide, fun name t h => by cases h⟩
  | 1 =>
    refine ⟨?_, fun b hb => by cases hb⟩
    intro x hx
    rcases List.mem_cons.1 hx with rfl | hx
    · exact ⟨by decide, fun name t h => by cases h⟩
    · cases List.mem_singleton.1 hx; exact ⟨by decide, fun name t h => by cases h⟩
  | _ + 2 => exact ⟨by decide, fun name t h => by cases h⟩

theorem exVariants_message : Message [(1, .enum 1 [(1, .int 7)])] [1, 1, 65, 7, 0, 0] :=
  (by decide +kernel : canonToks [.enum 1 1, .int 1 7, .endStruct, .endStruct] = [1, 1, 65, 7, 0, 0]) ▸ message_canon (.enum (.int .nil) .nil) (by decide)

example : Accepts exVariants (.tuple [.named 1]) .default [1, 1, 65, 7, 0, 0] (.seq [.variant 1 [.num 7]]) .zero :=
  c41_variants exVariants exVariants_ok exVariants_wf (.tuple [.named 0]) (.tuple [.named 1]) 0 0 1 (fun _ => true)
    ⟨rfl, rfl, _, _, ⟨1, "field_0", .named 0⟩, .tuple (by decide), rfl, rfl, .tuple (ts := [.named 1]) (by decide)⟩ _ _ none rfl rfl .default _ _ exVariants_message (by decide) _ _ rfl
    fun _ hs hroom => (reads_iff exVariants_message hs hroom _ _).2 ⟨rfl, by decide⟩

end Fourleaf.Props
