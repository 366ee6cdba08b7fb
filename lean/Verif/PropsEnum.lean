import Verif.PropsValues

/-! # C48: enums -/

namespace Fourleaf.Props
open Fourleaf Spec

/-- **C48** (a) A variant (declared, or caught by the catch-all) of an enum with well-typed fields is written as a message that is accepted as the same variant with the same fields. -/
theorem c48_roundtrip (env : Env) (henv : env.Ok) (hwf : env.wf) (i : Nat) (variants : List (UInt64 × Body)) (ca : Option Body) (hd : env.decl i = .enum variants ca)
    (disc : UInt64) (b : Body) (hb : variants.find? (fun x => x.1 = disc) = some (disc, b) ∨ ((∀ x ∈ variants, x.1 ≠ disc) ∧ ca = some b))
    (vs : List V) (k : Need) (hk : Needs env (.parts b) vs k) :
    ∃ m, Produces env (.named i) (.variant disc vs) m ∧ ∀ cfg, k.nest.Within cfg → Accepts env (.named i) cfg m (.variant disc vs) k.used := by
  have he : Needs env (.elem (.named i)) [.variant disc vs] k := by
    rcases hb with hb | ⟨hb, rfl⟩
    · exact .elemVariant hd hb hk
    · exact .elemCatchAll hd hb hk
  have ht : HasType env (.named i) (.variant disc vs) k.nest := .bodyWrapped (by simp [Ty.isWrapped, hd]) (.fieldSingle rfl he)
  obtain ⟨l, m, h1, h2, h3⟩ := produces henv hwf rfl ht
  refine ⟨m, h1, fun cfg hc s hs hroom => ?_⟩
  exact (reads_iff h2 hs hroom _ _).2 ⟨(deTree_iff henv hwf rfl).2 (h3 cfg hc), hc.collected, hc.blob⟩

/-- (b) Without a catch-all, a discriminant that is not declared is rejected with `UnknownVariant`. -/
theorem c48_unknownVariant (env : Env) (i : Nat) (variants : List (UInt64 × Body)) (hd : env.decl i = .enum variants none)
    (disc : UInt64) (hn : ∀ x ∈ variants, x.1 ≠ disc) (cfg : Config) (h0 : 0 < cfg.recursionLimit) (l : Fields) (m : List Byte) (hm : Message [(1, .enum disc l)] m)
    (s : Stream) (hs : Over s m) (hroom : s.pos + m.length < U64MAX) :
    ∃ e st, (deserialize env (.named i) cfg).run (s, .zero) = .err (.client e) st ∧ e.kind = .unknownVariant disc := by
  have hf : variants.find? (fun x => x.1 = disc) = none := List.find?_eq_none.2 (by simpa using hn)
  have hdt : deTree env (.named i) cfg [(1, .enum disc l)] = .fail (.unknownVariant disc) .zero := by
    obtain ⟨n, hn⟩ : ∃ n, stackNeed env (.named i) cfg = n + 3 := ⟨stackNeed env (.named i) cfg - 3, by
      have : 1 * (4 * 6) ≤ (cfg.recursionLimit + 1) * (4 * (max env.size (Ty.size (.named i)) + 6)) := Nat.mul_le_mul (by omega) (by omega)
      unfold stackNeed; omega⟩
    unfold deTree
    rw [hn]
    have hfld : (pops env cfg (n + 2)).field (.named i) .init 1 1 (.enum disc l) = .fail (.unknownVariant disc) .zero := by
      rw [pops_field]
      simp only [pField, Acc.init, ne_eq, not_true_eq_false, if_false]
      simp only [pops, pElement, hd, pEnum, hf]; rfl
    show pBody env cfg (pops env cfg (n + 2)) (.named i) 0 _ = _
    have hstep : pFieldStep cfg (pops env cfg (n + 2)) [⟨1, "top", .named i⟩] none 0 .init 1 (.enum disc l) = .fail (.unknownVariant disc) .zero := by
      show PM.bind (pPush cfg 0) (fun d' => PM.bind ((pops env cfg (n + 2)).field (.named i) .init d' 1 (.enum disc l)) fun a => .ret _) = _
      rw [pPush_ok h0, PM.bind_ret, hfld]; rfl
    simp only [pBody, hd, pDefault, pStruct, pLoop, hstep]
    rfl
  obtain ⟨e, st, h1, h2⟩ := de_err_toks (tail := []) env (.named i) cfg hm .nil (by simpa using hs) (by simpa using hroom) hdt
  refine ⟨e, st, h1, ?_⟩
  rcases h2 with h2 | h2
  · cases hk : e.kind <;> rw [hk] at h2 <;> simp [Kind.unpos] at h2
    rw [h2]
  · exact absurd h2.not_fits (by simp [Stats.fits, Stats.zero])

/-- Also anywhere in the fields of a struct or tuple (with whatever else is there). -/
theorem c48_rejects (env : Env) (henv : env.Ok) (hwf : env.wf) (t : Ty) (ht : t.wf false = true) (fs : List FieldDecl) (hfs : FieldsOfTy env t fs) (cfg : Config)
    (l : Fields) (m : List Byte) (hm : Message l m) (hlen : m.length < U64MAX) (x : FieldDecl) (hx : x ∈ fs)
    (i : Nat) (hty : x.ty = .named i ∨ x.ty = .vec (.named i) ∨ x.ty = .option (.named i)) (variants : List (UInt64 × Body)) (hd : env.decl i = .enum variants none)
    (disc : UInt64) (hn : ∀ y ∈ variants, y.1 ≠ disc) (l' : Fields) (hval : (x.tag, .enum disc l') ∈ l) : Rejects env t cfg m := by
  refine (c54_rejects env henv hwf t ht cfg l m hm hlen).2 fun v c _ hr => ?_
  obtain ⟨us, rfl, h⟩ := reads_component hfs hr
  obtain ⟨j, hj⟩ := List.getElem?_of_mem hx
  obtain ⟨u, c', hu, hf⟩ := h j x hj
  have hmem : .enum disc l' ∈ occ x.tag l := by
    rw [occ_eq]
    exact List.mem_map.2 ⟨_, List.mem_filter.2 ⟨hval, by simp⟩, rfl⟩
  have helem : ∀ {d w c}, ¬ Reads env cfg (.elem (.named i)) d [.enum disc l'] [w] c := by
    intro d w c h
    cases h with
    | elemDelegate hd' => rw [hd] at hd'; cases hd'
    | elemVariant hd' hf' =>
      rw [hd] at hd'; cases hd'
      exact hn _ (List.mem_of_find?_eq_some hf') rfl
    | elemCatchAll hd' => rw [hd] at hd'; cases hd'
  have heach : ∀ {it d vals vs c}, Reads env cfg it d vals vs c → it = .each (.named i) → .enum disc l' ∉ vals := by
    intro it d vals vs c h
    induction h <;> intro hit <;> cases hit
    · simp
    · rename_i he _ _ ih
      intro hm
      rcases List.mem_cons.1 hm with rfl | hm
      · exact helem he
      · exact ih rfl hm
  generalize occ x.tag l = vals at hf hmem
  rcases hty with hty | hty | hty <;> rw [hty] at hf
  · cases hf with
    | fieldSingle _ he => cases List.mem_singleton.1 hmem; exact helem he
  · cases hf with
    | fieldSingle h => simp [Ty.isSingle, Ty.isU8] at h
    | fieldVec _ he => exact heach he rfl hmem
  · cases hf with
    | fieldSingle h => simp [Ty.isSingle] at h
    | fieldOption _ he => exact heach he rfl hmem

theorem unknown_strict {env : Env} {it : Item} {vs : List V} {k : Need} (h : Needs env it vs k) :
    (∃ zc, it = .body (.unknownFields zc) ∨ it = .elem (.unknownField zc) ∨ ∃ known, it = .unknown known zc) → k.lenient = false := by
  induction h with
  | bodyUnknown _ ih => intro _; exact ih ⟨_, .inr (.inr ⟨_, rfl⟩)⟩
  | unkInt | unknownNil => intro _; rfl
  | unkBlob => intro _; rfl
  | unkStruct _ ih | unkEnum _ ih => intro _; exact ih ⟨_, .inl rfl⟩
  | unknownCons _ _ _ _ ih1 ih2 =>
    intro _
    simp [Need.seq, Need.nest, Need.collecting, ih1 ⟨_, .inr (.inl rfl)⟩, ih2 ⟨_, .inr (.inr ⟨_, rfl⟩)⟩]
  | bodyWrapped h _ _ => rintro ⟨zc, h' | h' | ⟨_, h'⟩⟩ <;> cases h'; simp [Ty.isWrapped] at h
  | elemColl h _ _ => rintro ⟨zc, h' | h' | ⟨_, h'⟩⟩ <;> cases h'; simp [Ty.isColl] at h
  | _ => rintro ⟨zc, h' | h' | ⟨_, h'⟩⟩ <;> cases h'

theorem eq_map_occ {tag : Byte} {l : Fields} (h : ∀ x ∈ l, x.1 ∈ [tag]) : l = (occ tag l).map (tag, ·) := by
  rw [occ_eq, List.filter_eq_self.2 (by intro x hx; simpa using h x hx), List.map_map]
  conv => lhs; rw [← List.map_id l]
  refine List.map_congr_left fun x hx => ?_
  simp only [id, Function.comp]
  have := h x hx
  simp only [List.mem_singleton] at this
  rw [← this]

/-- Reading an enum from its message. -/
theorem enum_body {env : Env} {cfg : Config} {i : Nat} {variants : List (UInt64 × Body)} {b : Body} (hd : env.decl i = .enum variants (some b))
    {disc : UInt64} (hn : ∀ x ∈ variants, x.1 ≠ disc) {l0 : Fields} {v : V} {c : Stats} (h : Reads env cfg (.body (.named i)) 0 [.struct l0] [v] c)
    (ho : (∃ l, l0 = [(1, .enum disc l)]) ∨ ∃ vs, v = .variant disc vs) :
    cfg.Ignores [1] l0 ∧ 0 < cfg.recursionLimit ∧ ∃ l vs, occ 1 l0 = [.enum disc l] ∧ v = .variant disc vs ∧ Reads env cfg (.parts b) 1 [.struct l] vs c := by
  cases h with
  | bodyStruct hd' => rw [hd] at hd'; cases hd'
  | bodyWrapped _ hi h0 hf =>
    refine ⟨hi, h0, ?_⟩
    revert hf
    generalize hvals : occ 1 l0 = vals
    intro hf
    cases hf with
    | @fieldSingle _ _ val _ _ _ he =>
      have ho : (∃ l, val = .enum disc l) ∨ ∃ vs, v = .variant disc vs := by
        refine ho.imp_left ?_
        rintro ⟨l, rfl⟩
        have : [Val.enum disc l] = [val] := hvals
        simp only [List.cons.injEq, and_true] at this
        exact ⟨l, this.symm⟩
      cases he with
      | elemStruct h => simp [Ty.inStruct, hd] at h
      | elemDelegate hd' => rw [hd] at hd'; cases hd'
      | elemVariant hd' hf' =>
        rw [hd] at hd'; cases hd'
        rcases ho with ⟨l, ho⟩ | ⟨vs, ho⟩ <;> cases ho <;> exact absurd rfl (hn _ (List.mem_of_find?_eq_some hf'))
      | elemCatchAll hd' _ hp =>
        rw [hd] at hd'; cases hd'
        rcases ho with ⟨l, ho⟩ | ⟨vs, ho⟩ <;> cases ho <;> exact ⟨_, _, rfl, rfl, hp⟩

/-- (c) With a catch-all that keeps everything (`(*) fields: UnknownFields`), a variant with an undeclared discriminant and whatever content is accepted (if it fits the limits and the constructor accepts it): the
value has the discriminant and the fields. Serialising it writes a message with the same discriminant and the same fields. -/
theorem c48_catchAll (env : Env) (henv : env.Ok) (hwf : env.wf) (i : Nat) (variants : List (UInt64 × Body)) (b : Body) (hd : env.decl i = .enum variants (some b))
    (name : String) (zc : Bool) (hb : b.tail = .delegate name (.unknownFields zc)) (disc : UInt64) (hn : ∀ x ∈ variants, x.1 ≠ disc)
    (l : Fields) (m : List Byte) (hm : Message [(1, .enum disc l)] m) (hlen : m.length < U64MAX) :
    (∀ cfg v c, Accepts env (.named i) cfg m v c ↔
      v = .variant disc [.seq (asUnknowns l)] ∧ c = ⟨fieldsCount l, if zc then 0 else fieldsBytes l⟩ ∧ b.check [.seq (asUnknowns l)] = true ∧
        fieldsDepth l + 2 ≤ cfg.recursionLimit ∧ c.fits cfg) ∧
    (b.check [.seq (asUnknowns l)] = true → ∃ m', Produces env (.named i) (.variant disc [.seq (asUnknowns l)]) m' ∧ Message [(1, .enum disc l)] m') := by
  have hbf := by
    have := (hwf i)
    rw [hd] at this
    exact (this.2 b rfl).2 _ _ hb
  have hacc : ∀ cfg v c, Accepts env (.named i) cfg m v c ↔
      v = .variant disc [.seq (asUnknowns l)] ∧ c = ⟨fieldsCount l, if zc then 0 else fieldsBytes l⟩ ∧ b.check [.seq (asUnknowns l)] = true ∧
        fieldsDepth l + 2 ≤ cfg.recursionLimit ∧ c.fits cfg := by
    intro cfg v c
    rw [c54_accepts env henv hwf _ rfl cfg _ m hm hlen]
    constructor
    · rintro ⟨hr, hf⟩
      obtain ⟨-, h0, l', vs, h1, rfl, hp⟩ := enum_body hd hn hr (.inl ⟨_, rfl⟩)
      have h1 : [Val.enum disc l] = [.enum disc l'] := h1
      cases h1
      cases hp with
      | partsPlain h => rw [hb] at h; cases h
      | partsUnknown h => rw [hb] at h; cases h
      | partsDelegate h hc hdl hbd =>
        rw [hb] at h; cases h
        obtain ⟨l', g1, g2, rfl, g3⟩ := (unknown_reads hbd).2.2 _ rfl
        cases g1; cases g2
        exact ⟨rfl, rfl, hc, by omega, hf⟩
    · rintro ⟨rfl, rfl, hc, hdp, hf⟩
      refine ⟨.bodyWrapped (by simp [Ty.isWrapped, hd]) (.inr (by simp)) (by omega) ?_, hf⟩
      exact Reads.fieldSingle rfl (.elemCatchAll hd hn (.partsDelegate hb hc (by omega) (.bodyUnknown (asUnknowns_reads env cfg zc l 2 (by omega)))))
  refine ⟨hacc, fun hc => ?_⟩
  have ha := (hacc ⟨fieldsDepth l + 2, true, fieldsBytes l, fieldsCount l⟩ (.variant disc [.seq (asUnknowns l)]) ⟨fieldsCount l, if zc then 0 else fieldsBytes l⟩).2
    ⟨rfl, rfl, hc, Nat.le_refl _, Nat.le_refl _, by cases zc <;> simp⟩
  obtain ⟨k, hk⟩ := reads_type henv hwf rfl hm hlen ha
  obtain ⟨k', hk', hl⟩ : ∃ k', HasType env (.named i) (.variant disc [.seq (asUnknowns l)]) k' ∧ k'.lenient = false := by
    cases hk with
    | bodyWrapped hw hf =>
      cases hf with
      | fieldSingle _ he =>
        cases he with
        | elemColl h => simp [Ty.isColl] at h
        | elemStruct hd' => rw [hd] at hd'; cases hd'
        | elemVariant hd' hf' => rw [hd] at hd'; cases hd'; exact absurd rfl (hn _ (List.mem_of_find?_eq_some hf'))
        | elemCatchAll hd' _ hp =>
          rw [hd] at hd'; cases hd'
          generalize hvs : [V.seq (asUnknowns l)] = vs at hp
          cases hp with
          | partsPlain h => rw [hb] at h; cases h
          | partsUnknown h => rw [hb] at h; cases h
          | partsDelegate h hbf hc hbd =>
            rw [hb] at h; cases h
            cases hvs
            exact ⟨_, .bodyWrapped hw (.fieldSingle rfl (.elemCatchAll hd hn (.partsDelegate hb hbf hc hbd))), by have := unknown_strict hbd ⟨_, .inl rfl⟩; exact this⟩
  obtain ⟨l', m', h1, h2, h3⟩ := produces henv hwf rfl hk'
  have hr := h3 { admitting k' with ignoreUnknownFields := false } ⟨Nat.le_refl _, Nat.le_refl _, Nat.le_refl _, fun h => by rw [hl] at h; cases h⟩
  obtain ⟨hi, -, l'', vs, g1, g2, hp⟩ := enum_body hd hn hr (.inr ⟨_, rfl⟩)
  cases g2
  generalize hvs : [V.seq (asUnknowns l)] = vs at hp
  generalize k'.used = c at hp
  cases hp with
  | partsPlain h => rw [hb] at h; cases h
  | partsUnknown h => rw [hb] at h; cases h
  | partsDelegate h hc hdl hbd =>
    rw [hb] at h; cases h
    cases hvs
    obtain ⟨l3, g3, g4, -⟩ := (unknown_reads hbd).2.2 _ rfl
    cases g3
    simp only [List.cons.injEq, V.seq.injEq, and_true] at g4
    have := asUnknowns_inj _ _ g4
    subst this
    rcases hi with hi | hi
    · cases hi
    · have := eq_map_occ hi
      rw [g1] at this
      rw [this] at h2
      exact ⟨m', h1, h2⟩

/-- A variant with the undeclared discriminant 8 of the enum in the example. -/
example : Accepts exEnv (.named 1) .default [1, 8, 66, 5, 0, 0] (.variant 8 [.seq [.seq [.num 2, .variant 0 [.num 5]]]]) ⟨1, 0⟩ ∧
    ∃ m', Produces exEnv (.named 1) (.variant 8 [.seq [.seq [.num 2, .variant 0 [.num 5]]]]) m' ∧ Message [(1, .enum 8 [(2, .int 5)])] m' := by
  have hm : Message [(1, .enum 8 [(2, .int 5)])] [1, 8, 66, 5, 0, 0] :=
    (by decide +kernel : canonToks [.enum 1 8, .int 2 5, .endStruct, .endStruct] = [1, 8, 66, 5, 0, 0]) ▸ message_canon (.enum (.int .nil) .nil) (by decide)
  have h := c48_catchAll exEnv exEnv_ok exEnv_wf 1 _ _ rfl "u" false rfl 8 (by decide) _ _ hm (by decide)
  exact ⟨(h.1 _ _ _).2 ⟨rfl, rfl, rfl, by decide, by decide⟩, h.2 rfl⟩

end Fourleaf.Props
