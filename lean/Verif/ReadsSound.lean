import Verif.ReadsStruct

/-! # What is read satisfies the specification -/

namespace Fourleaf
open Spec

structure RS (env : Env) (cfg : Config) (o : POps) : Prop where
  body : ∀ t d l v c, t.wf false = true → o.body t d l = .ret v c → Reads env cfg (.body t) d [.struct l] [v] c
  elem : ∀ t d tag val v c, t.wf false = true → o.element t d tag val = .ret v c → Reads env cfg (.elem t) d [val] [v] c
  whole : ∀ t d tag vals v c, t.wf true = true → pWhole o t d tag vals = .ret v c → Reads env cfg (.field t) d vals [v] c

theorem pPush_ret {cfg : Config} {d d' : Nat} {c : Stats} (h : pPush cfg d = .ret d' c) : d < cfg.recursionLimit ∧ d' = d + 1 ∧ c = .zero := by
  unfold pPush at h
  split at h
  · exact absurd h PM.fail_ne_ret
  · obtain ⟨rfl, rfl⟩ := PM.ret_inj h; exact ⟨by omega, rfl, rfl⟩

theorem pConstruct_ret {b : Body} {vs us : List V} {c : Stats} : pConstruct b vs = .ret us c ↔ b.check vs = true ∧ us = vs ∧ c = .zero := by
  unfold pConstruct
  split
  · rename_i h; simp only [ret_eq, h, true_and]; constructor <;> (rintro ⟨rfl, rfl⟩; exact ⟨rfl, rfl⟩)
  · rename_i h; simp only [h, false_and, iff_false, Bool.false_eq_true]; exact PM.fail_ne_ret

section
variable {env : Env} {cfg : Config} {o : POps} (H : RS env cfg o)
include H

theorem each_sound {e : Ty} (he : e.wf false = true) {d : Nat} {tag : Byte} : ∀ {vals : List Val} {vs : List V} {c : Stats}, pEach o e d tag vals = .ret vs c → Reads env cfg (.each e) d vals vs c
  | [], vs, c, h => by obtain ⟨rfl, rfl⟩ := PM.ret_inj h; exact .eachNil
  | val :: vals, vs, c, h => by
    obtain ⟨u, us, c1, c2, rfl, h1, h2, rfl⟩ := pEach_cons.1 h
    exact .eachCons (H.elem _ _ _ _ _ _ he h1) (each_sound he h2)

theorem fields_sound {d : Nat} {l : Fields} : ∀ {fs : List FieldDecl} {i : Nat} {vs : List V} {c : Stats}, (∀ x ∈ fs, x.ty.wf true = true) → (fs = [] ∨ d < cfg.recursionLimit) →
    pEachField o (d + 1) (fun _ => .init) l i fs = .ret vs c → Reads env cfg (.fields fs) d [.struct l] vs c
  | [], _, vs, c, _, _, h => by obtain ⟨rfl, rfl⟩ := PM.ret_inj h; exact .fieldsNil
  | x :: xs, i, vs, c, hw, hd, h => by
    have hd' : d < cfg.recursionLimit := hd.resolve_left (by simp)
    simp only [pEachField] at h
    obtain ⟨a, c1, c2, h1, h2, rfl⟩ := PM.bind_eq_ret h
    obtain ⟨v, c3, c4, h3, h4, rfl⟩ := PM.bind_eq_ret h2
    obtain ⟨us, c5, c6, h5, h6, rfl⟩ := PM.bind_eq_ret h4
    obtain ⟨rfl, rfl⟩ := PM.ret_inj h6
    have hr := fields_sound (fun y hy => hw y (.tail _ hy)) (.inr hd') h5
    have := H.whole x.ty (d + 1) x.tag (occ x.tag l) v (c1 + c3) (hw x (.head _)) (by unfold pWhole; rw [h1]; exact PM.bind_retc h3)
    rw [Stats.add_zero, ← Stats.add_assoc]
    exact .fieldsCons hd' this hr
end

/-- Unknown fields. -/
theorem unknowns_sound {env : Env} {cfg : Config} {n : Nat} (H : RS env cfg (pops env cfg n)) {zc : Bool} {d : Nat} : ∀ {l : Fields} {u u' : Acc} {c : Stats},
    (l = [] ∨ d < cfg.recursionLimit) → pUnknowns cfg (pops env cfg (n + 1)) (some zc) (d + 1) u l = .ret u' c →
    ∃ es, u' = ⟨u.flag, u.items ++ es⟩ ∧ Reads env cfg (.unknown zc) d [.struct l] es c
  | [], u, u', c, _, h => by
    obtain ⟨rfl, rfl⟩ := unknowns_iff.1 h
    exact ⟨[], by simp, .unknownNil⟩
  | (tag, val) :: l, u, u', c, hd, h => by
    have hd' : d < cfg.recursionLimit := hd.resolve_left (by simp)
    obtain ⟨w, c1, c2, h1, h2, rfl⟩ := unknowns_iff.1 h
    obtain ⟨es, rfl, h3⟩ := unknowns_sound H (.inr hd') h2
    exact ⟨.seq [.num tag.toNat, w] :: es, by simp, .unknownCons hd' (H.elem _ _ _ _ _ _ rfl h1) h3⟩

theorem bind_rets {α β : Type} {m : PM α} {f : α → β} {b : β} {c : Stats} : PM.bind m (fun a => .ret (f a)) = .ret b c ↔ ∃ a, m = .ret a c ∧ b = f a := by
  constructor
  · intro h
    obtain ⟨a, c1, c2, h1, h2, rfl⟩ := PM.bind_eq_ret h
    obtain ⟨rfl, rfl⟩ := PM.ret_inj h2
    exact ⟨a, by simpa using h1, rfl⟩
  · rintro ⟨a, h, rfl⟩
    rw [h]; exact (PM.bind_retc (f := fun a => .ret (f a)) (c' := .zero) rfl).trans (by simp)

section
variable {env : Env} {cfg : Config} {n : Nat} (henv : env.Ok) (hw : env.wf) (H : RS env cfg (pops env cfg n)) (H' : ∀ m, n = m + 1 → RS env cfg (pops env cfg m))
include henv hw H H'

omit henv hw in
theorem parts_sound {b : Body} (hb : b.Ok) (hbw : b.wf) {d : Nat} {l : Fields} {vs : List V} {c : Stats} (h : pMacro cfg (pops env cfg n) b d l = .ret vs c) :
    Reads env cfg (.parts b) d [.struct l] vs c := by
  unfold pMacro at h
  cases ht : b.tail with
  | plain =>
    rw [ht] at h
    obtain ⟨us, c1, c2, h1, h2, h3, h4, rfl⟩ := (struct_iff hb).1 h
    obtain ⟨h5, rfl, rfl⟩ := pConstruct_ret.1 h4
    exact .partsPlain ht h5 h3 (fields_sound H hbw.1 h2 h1)
  | delegate name t =>
    rw [ht] at h
    obtain ⟨hf, htw⟩ := hbw.2 name t ht
    obtain ⟨d', c1, c2, h1, h2, rfl⟩ := PM.bind_eq_ret h
    obtain ⟨hd, rfl, rfl⟩ := pPush_ret h1
    obtain ⟨v, c3, c4, h3, h4, rfl⟩ := PM.bind_eq_ret h2
    rw [hf] at h4
    obtain ⟨us, c5, c6, h5, h6, rfl⟩ := PM.bind_eq_ret h4
    obtain ⟨rfl, rfl⟩ := PM.ret_inj (show PM.ret [] .zero = PM.ret us c5 from h5)
    obtain ⟨h7, rfl, rfl⟩ := pConstruct_ret.1 h6
    have := Reads.partsDelegate ht h7 hd (H.body _ _ _ _ _ htw h3)
    simpa using this
  | unknown name zc =>
    rw [ht] at h
    have hd : d < cfg.recursionLimit := by
      obtain ⟨st, c1, c2, h1, h2, rfl⟩ := PM.bind_eq_ret h
      obtain ⟨us, c3, c4, h3, h4, rfl⟩ := PM.bind_eq_ret h2
      obtain ⟨d', c5, c6, h5, h6, rfl⟩ := PM.bind_eq_ret h4
      exact (pPush_ret h5).1
    have h := (loop_same (pops env cfg n) hb.2 (some zc) (.inl hd) (fun vs u => PM.bind (pPush cfg d) fun d' => PM.bind ((pops env cfg n).finish (.unknownFields zc) u d') fun v => pConstruct b (vs ++ [v])) l .init vs c).1 h
    obtain ⟨us, c1, c2, h1, h2, rfl⟩ := PM.bind_eq_ret h
    obtain ⟨u, c3, c4, h3, h4, rfl⟩ := PM.bind_eq_ret h2
    rw [pPush_ok hd, PM.bind_ret] at h4
    obtain ⟨v, c5, c6, h5, h6, rfl⟩ := PM.bind_eq_ret h4
    obtain ⟨h7, rfl, rfl⟩ := pConstruct_ret.1 h6
    have hfs := fields_sound H hbw.1 (.inr hd) h1
    cases n with
    | zero => exact absurd h5 PM.fail_ne_ret
    | succ m =>
      obtain ⟨es, rfl, h8⟩ := unknowns_sound (H' m rfl) (.inr hd) h3
      obtain ⟨rfl, rfl⟩ := PM.ret_inj (show PM.ret (V.seq _) .zero = PM.ret v c5 from h5)
      have := Reads.partsUnknown (vs := us) (es := es) ht (by simpa [LoopSt.init, Acc.init] using h7) hd hfs h8
      simpa [LoopSt.init, Acc.init] using this

theorem body_sound {t : Ty} {d : Nat} {l : Fields} {v : V} {c : Stats} (ht : t.wf false = true) (h : pBody env cfg (pops env cfg n) t d l = .ret v c) :
    Reads env cfg (.body t) d [.struct l] [v] c := by
  by_cases hwr : t.isWrapped env = true
  · rw [pBody_wrapped hwr] at h
    unfold pDefault at h
    rw [fields_init] at h
    obtain ⟨us, c1, c2, h1, h2, h3, h4, rfl⟩ := (struct_iff (fs := [⟨1, "top", t⟩]) ⟨by intro d hd; cases List.mem_singleton.1 hd; exact tagOk_one, by simp⟩).1 h
    obtain ⟨rfl, rfl⟩ := PM.ret_inj h4
    have hd : d < cfg.recursionLimit := h2.resolve_left (by simp)
    have htw : t.wf true = true := by
      cases t <;> simp only [Ty.isWrapped, Bool.false_eq_true] at hwr <;> first | (simpa only [Ty.wf] using ht)
    have := fields_sound H (fs := [⟨1, "top", t⟩]) (by intro x hx; cases List.mem_singleton.1 hx; exact htw) h2 h1
    cases this with
    | fieldsCons _ hf hnil =>
      cases hnil
      simpa using Reads.bodyWrapped hwr h3 hd hf
  · cases t with
    | boxed t => exact .bodyBoxed (H.body _ _ _ _ _ (by simpa [Ty.wf] using ht) h)
    | tuple ts =>
      simp only [Ty.wf, Bool.and_eq_true, decide_eq_true_eq] at ht
      unfold pBody at h
      simp only at h
      rw [fields_init] at h
      obtain ⟨us, c1, c2, h1, h2, h3, h4, rfl⟩ := (struct_iff (tupleFields_ok ht.1)).1 h
      obtain ⟨rfl, rfl⟩ := PM.ret_inj h4
      simpa using Reads.bodyTuple ht.1 h3 (fields_sound H (tupleFields_wf ht.2) h2 h1)
    | unknownFields zc =>
      obtain ⟨st, c1, c2, h1, h2, rfl⟩ := PM.bind_eq_ret (show PM.bind (pLoop cfg (pops env cfg n) [] (some zc) d .init l) (fun st => (pops env cfg n).finish (.unknownFields zc) st.unk d) = .ret v c from h)
      obtain ⟨hd, u, h3, rfl⟩ := loop_unknown.1 h1
      cases n with
      | zero => exact absurd h2 PM.fail_ne_ret
      | succ m =>
        obtain ⟨es, rfl, h8⟩ := unknowns_sound (H' m rfl) hd h3
        obtain ⟨rfl, rfl⟩ := PM.ret_inj (show PM.ret (V.seq _) .zero = PM.ret v c2 from h2)
        simpa [LoopSt.init, Acc.init] using Reads.bodyUnknown h8
    | named i =>
      unfold pBody at h
      cases hd : env.decl i with
      | struct b =>
        simp only [hd] at h
        obtain ⟨us, h1, rfl⟩ := bind_rets.1 h
        have hok := henv i
        have hbw := hw i
        rw [hd] at hok hbw
        exact .bodyStruct hd (parts_sound H H' hok hbw h1)
      | enum a b => simp [Ty.isWrapped, hd] at hwr
    | _ => simp [Ty.isWrapped] at hwr

omit henv hw H' in
theorem viaStruct_sound {t : Ty} (ht : t.inStruct env = true) (htw : t.wf false = true) {d : Nat} {val : Val} {v : V} {c : Stats} (h : pViaStruct (pops env cfg n) t d val = .ret v c) :
    Reads env cfg (.elem t) d [val] [v] c := by
  unfold pViaStruct at h
  cases val with
  | struct l => exact .elemStruct ht (H.body _ _ _ _ _ htw h)
  | _ => simp [Val.head, Value.toStruct, PM.lift] at h; exact absurd h PM.fail_ne_ret

omit henv hw H' in
theorem unkField_sound {zc : Bool} {d : Nat} {tag : Byte} {val : Val} {v : V} {c : Stats} (h : pUnkField (pops env cfg n) zc d tag val = .ret v c) :
    Reads env cfg (.elem (.unknownField zc)) d [val] [v] c := by
  unfold pUnkField at h
  cases val with
  | int n => obtain ⟨rfl, rfl⟩ := PM.ret_inj h; exact .unkInt
  | blob data =>
    obtain ⟨u, h1, rfl⟩ := bind_rets.1 h
    have := H.elem _ _ _ _ _ _ (by cases zc <;> rfl) h1
    clear h h1
    unfold unkBlobTy at this
    cases this with
    | elemBoxed h =>
      cases zc with
      | true =>
        cases h with
        | elemPrim h => cases h; exact .unkBlob
      | false =>
        cases h with
        | elemVec => exact .unkBlob
  | struct l =>
    obtain ⟨u, h1, rfl⟩ := bind_rets.1 h
    exact .unkStruct (H.body _ _ _ _ _ rfl h1)
  | enum disc l =>
    obtain ⟨u, h1, rfl⟩ := bind_rets.1 h
    exact .unkEnum (H.body _ _ _ _ _ rfl h1)

theorem elem_sound {t : Ty} {d : Nat} {tag : Byte} {val : Val} {v : V} {c : Stats} (htw : t.wf false = true) (h : pElement env cfg (pops env cfg n) t d tag val = .ret v c) :
    Reads env cfg (.elem t) d [val] [v] c := by
  unfold pElement at h
  cases t with
  | prim p =>
    have h' : pWhole (pops env cfg n) (.prim p) d tag [val] = .ret v c := by
      simp only [pWhole, pAccum, PM.bind_ret_right]; exact h
    have := H.whole _ _ _ _ _ _ rfl h'
    cases this with
    | fieldSingle _ h => exact h
  | unknownField zc =>
    have h' : pWhole (pops env cfg n) (.unknownField zc) d tag [val] = .ret v c := by
      simp only [pWhole, pAccum, PM.bind_ret_right]; exact h
    have := H.whole _ _ _ _ _ _ rfl h'
    cases this with
    | fieldSingle _ h => exact h
  | boxed t => exact .elemBoxed (H.elem _ _ _ _ _ _ (by simpa [Ty.wf] using htw) h)
  | small m e | large m e =>
    by_cases he : e.isU8 = true
    · simp only [he, if_true] at h
      obtain ⟨us, h1, rfl⟩ := bind_rets.1 h
      obtain ⟨data, rfl, h2, rfl, rfl⟩ := readArr_iff.1 h1
      rw [isU8_eq he]
      first | exact .elemSmall h2 | exact .elemLarge h2
    · simp only [he, Bool.false_eq_true, if_false] at h
      exact viaStruct_sound H (by simp [Ty.inStruct, he]) htw h
  | vec e =>
    by_cases he : e.isU8 = true
    · simp only [he, if_true] at h
      obtain ⟨us, h1, rfl⟩ := bind_rets.1 h
      obtain ⟨data, rfl, rfl, rfl⟩ := readVec_iff.1 h1
      rw [isU8_eq he]
      exact .elemVec
    · simp only [he, Bool.false_eq_true, if_false] at h
      exact viaStruct_sound H (by simp [Ty.inStruct, he]) htw h
  | tuple ts | coll k e | option e | map k w | unknownFields zc => exact viaStruct_sound H rfl htw h
  | named i =>
    have hok := henv i
    have hbw := hw i
    cases hd : env.decl i with
    | struct b =>
      simp only [hd] at h
      rw [hd] at hbw
      cases ht : b.tail with
      | delegate name t' =>
        simp only [ht] at h
        obtain ⟨d', c1, c2, h1, h2, rfl⟩ := PM.bind_eq_ret h
        obtain ⟨hd', rfl, rfl⟩ := pPush_ret h1
        obtain ⟨u, c3, c4, h3, h4, rfl⟩ := PM.bind_eq_ret h2
        obtain ⟨us, h5, rfl⟩ := bind_rets.1 h4
        obtain ⟨h6, rfl, rfl⟩ := pConstruct_ret.1 h5
        simpa using Reads.elemDelegate hd ht hd' h6 (H.elem _ _ _ _ _ _ (hbw.2 name t' ht).2 h3)
      | plain => simp only [ht] at h; exact viaStruct_sound H (by simp [Ty.inStruct, hd, ht]) htw h
      | unknown _ _ => simp only [ht] at h; exact viaStruct_sound H (by simp [Ty.inStruct, hd, ht]) htw h
    | enum variants ca =>
      simp only [hd] at h
      rw [hd] at hbw hok
      unfold pEnum at h
      cases val with
      | enum disc l =>
        simp only at h
        cases hf : variants.find? (fun x => x.1 = disc) with
        | some x =>
          simp only [hf] at h
          obtain ⟨us, h1, rfl⟩ := bind_rets.1 h
          have hx := List.find?_some hf
          simp only [decide_eq_true_eq] at hx
          obtain ⟨disc', b⟩ := x
          simp only at hx; subst hx
          have hm := List.mem_of_find?_eq_some hf
          exact .elemVariant hd hf (parts_sound H H' (hok.1 _ hm) (hbw.1 _ hm) h1)
        | none =>
          simp only [hf] at h
          cases ca with
          | none => exact absurd h PM.fail_ne_ret
          | some b =>
            simp only at h
            obtain ⟨us, h1, rfl⟩ := bind_rets.1 h
            exact .elemCatchAll hd (by simpa using List.find?_eq_none.1 hf) (parts_sound H H' (hok.2 _ rfl) (hbw.2 _ rfl) h1)
      | _ => simp [Val.head, Value.toEnum, PM.lift] at h; exact absurd h PM.fail_ne_ret

omit henv hw H' in
theorem whole_sound {t : Ty} {d : Nat} {tag : Byte} {vals : List Val} {v : V} {c : Stats} (htw : t.wf true = true) (h : pWhole (pops env cfg (n + 1)) t d tag vals = .ret v c) :
    Reads env cfg (.field t) d vals [v] c := by
  cases t with
  | prim p =>
    obtain ⟨val, rfl, h1⟩ := whole_prim.1 h
    obtain ⟨k, rfl, h2⟩ := prim_reads.1 h1
    exact .fieldSingle rfl (.elemPrim h2)
  | boxed t =>
    refine .fieldBoxed (H.whole t d tag vals v c (by simpa [Ty.wf] using htw) ?_)
    unfold pWhole at h ⊢
    rw [← pAccum_congr (o := pops env cfg (n + 1)) (o' := pops env cfg n) (t := .boxed t) (t' := t) (d := d) (tag := tag) (fun _ _ => rfl)]
    exact h
  | tuple ts =>
    obtain ⟨val, rfl, h1⟩ := whole_tuple.1 h
    exact .fieldSingle rfl (H.elem _ _ _ _ _ _ (Ty.wf_weaken htw) h1)
  | named i =>
    obtain ⟨val, rfl, h1⟩ := whole_named.1 h
    exact .fieldSingle rfl (H.elem _ _ _ _ _ _ (Ty.wf_weaken htw) h1)
  | unknownField zc =>
    obtain ⟨val, rfl, h1⟩ := whole_unk.1 h
    exact .fieldSingle rfl (unkField_sound H h1)
  | small m e =>
    by_cases he : e.isU8 = true
    · rw [isU8_eq he] at h ⊢
      rcases whole_smallBytes.1 h with ⟨data, rfl, h2, rfl, rfl⟩ | ⟨rfl, rfl, rfl, rfl⟩
      · exact .fieldSingle rfl (.elemSmall h2)
      · exact .fieldNoBytes
    · have he : e.isU8 = false := by simpa using he
      obtain ⟨vs, h1, rfl, h2⟩ := (whole_small he).1 h
      exact .fieldSmall he h2 (each_sound H (by simpa [Ty.wf] using htw) h1)
  | large m e =>
    by_cases he : e.isU8 = true
    · rw [isU8_eq he] at h ⊢
      rcases whole_largeBytes.1 h with ⟨data, rfl, h2, rfl, rfl⟩ | ⟨rfl, h2, rfl, rfl⟩
      · exact .fieldSingle rfl (.elemLarge h2)
      · exact .fieldNoBytesL h2
    · have he : e.isU8 = false := by simpa using he
      obtain ⟨vs, h1, rfl, h2⟩ := (whole_large he).1 h
      exact .fieldLarge he h2 (each_sound H (by simpa [Ty.wf] using htw) h1)
  | vec e =>
    by_cases he : e.isU8 = true
    · rw [isU8_eq he] at h ⊢
      obtain ⟨data, rfl, rfl, rfl⟩ := whole_bytes.1 h
      exact .fieldSingle rfl .elemVec
    · have he : e.isU8 = false := by simpa using he
      obtain ⟨vs, c', h1, rfl, rfl⟩ := (whole_vec he).1 h
      exact .fieldVec he (each_sound H (by simpa [Ty.wf] using htw) h1)
  | coll k e =>
    obtain ⟨vs, c', h1, rfl, rfl⟩ := whole_coll.1 h
    have h1 := each_sound H (by simpa [Ty.wf] using htw) h1
    cases k with
    | list => exact .fieldList h1
    | set => exact .fieldSet h1
  | option e =>
    obtain ⟨vs, h1, rfl, h2⟩ := whole_option.1 h
    exact .fieldOption h2 (each_sound H (by simpa [Ty.wf] using htw) h1)
  | map k w =>
    obtain ⟨vs, c', h1, rfl, rfl⟩ := whole_map.1 h
    exact .fieldMap (each_sound H (by simpa [Ty.wf, Ty.wfs] using htw) h1)
  | unknownFields zc => simp [Ty.wf] at htw
end

theorem reads_sound {env : Env} (henv : env.Ok) (hw : env.wf) (cfg : Config) : ∀ n, RS env cfg (pops env cfg n)
  | 0 => ⟨fun _ _ _ _ _ _ h => absurd h PM.fail_ne_ret, fun _ _ _ _ _ _ _ h => absurd h PM.fail_ne_ret, fun t d tag vals v c _ h => by
      obtain ⟨a, c1, c2, -, h2, -⟩ := PM.bind_eq_ret h
      exact absurd h2 PM.fail_ne_ret⟩
  | n + 1 =>
    have H := reads_sound henv hw cfg n
    have H' : ∀ m, n = m + 1 → RS env cfg (pops env cfg m) := fun m hm => reads_sound henv hw cfg m
    ⟨fun _ _ _ _ _ ht h => body_sound henv hw H H' ht h, fun _ _ _ _ _ _ ht h => elem_sound henv hw H H' ht h, fun _ _ _ _ _ _ ht h => whole_sound H ht h⟩

end Fourleaf
