import Verif.ReadsSound

/-! # What the specification allows is read -/

namespace Fourleaf
open Spec

/-- With enough stack. -/
def Evtl (P : Nat → Prop) : Prop := ∃ N, ∀ n, N ≤ n → P n

theorem Evtl.const {P : Nat → Prop} (h : ∀ n, P n) : Evtl P := ⟨0, fun n _ => h n⟩
theorem Evtl.succ {P Q : Nat → Prop} (h : Evtl P) (hi : ∀ n, P n → Q (n + 1)) : Evtl Q := by
  obtain ⟨N, hN⟩ := h
  refine ⟨N + 1, fun n hn => ?_⟩
  obtain ⟨m, rfl⟩ : ∃ m, n = m + 1 := ⟨n - 1, by omega⟩
  exact hi m (hN m (by omega))
theorem Evtl.start {Q : Nat → Prop} (hi : ∀ n, Q (n + 1)) : Evtl Q := Evtl.succ (P := fun _ => True) ⟨0, fun _ _ => trivial⟩ fun n _ => hi n
theorem Evtl.imp {P Q : Nat → Prop} (h : Evtl P) (hi : ∀ n, P n → Q n) : Evtl Q := by
  obtain ⟨N, hN⟩ := h
  exact ⟨N, fun n hn => hi n (hN n hn)⟩
theorem Evtl.and {P Q : Nat → Prop} (h : Evtl P) (h' : Evtl Q) : Evtl fun n => P n ∧ Q n := by
  obtain ⟨N, hN⟩ := h
  obtain ⟨M, hM⟩ := h'
  exact ⟨max N M, fun n hn => ⟨hN n (by omega), hM n (by omega)⟩⟩

/-- What is shown for each kind of item. -/
def RC (env : Env) (cfg : Config) : RItem → Nat → List Val → List V → Stats → Prop
  | .body t, d, vals, vs, c => ∀ l v, vals = [.struct l] → vs = [v] → Evtl fun n => (pops env cfg n).body t d l = .ret v c
  | .field t, d, vals, vs, c => ∀ v, vs = [v] → Evtl fun n => ∀ tag, pWhole (pops env cfg n) t d tag vals = .ret v c
  | .elem t, d, vals, vs, c => ∀ val v, vals = [val] → vs = [v] → Evtl fun n => ∀ tag, (pops env cfg n).element t d tag val = .ret v c
  | .each t, d, vals, vs, c => Evtl fun n => ∀ tag, pEach (pops env cfg n) t d tag vals = .ret vs c
  | .fields fs, d, vals, vs, c => ∀ l, vals = [.struct l] → (fs = [] ∨ d < cfg.recursionLimit) ∧ Evtl fun n => ∀ i, pEachField (pops env cfg n) (d + 1) (fun _ => .init) l i fs = .ret vs c
  | .parts b, d, vals, vs, c => b.Ok → b.wf → ∀ l, vals = [.struct l] → Evtl fun n => pMacro cfg (pops env cfg n) b d l = .ret vs c
  | .unknown zc, d, vals, es, c => ∀ l, vals = [.struct l] → (l = [] ∨ d < cfg.recursionLimit) ∧ Evtl fun n => ∀ u : Acc, pUnknowns cfg (pops env cfg n) (some zc) (d + 1) u l = .ret ⟨u.flag, u.items ++ es⟩ c

theorem pViaStruct_inStruct {env : Env} {cfg : Config} {o : POps} {t : Ty} {d : Nat} {tag : Byte} {l : Fields} (h : t.inStruct env = true) :
    pElement env cfg o t d tag (.struct l) = o.body t d l := by
  cases t with
  | small m e | large m e | vec e =>
    simp only [Ty.inStruct, Bool.not_eq_true', Ty.isByte_eq] at h
    simp only [pElement, h, if_false, Bool.false_eq_true]; rfl
  | tuple _ | coll _ _ | option _ | map _ _ | unknownFields _ => rfl
  | named i =>
    simp only [Ty.inStruct, Ty.isByte_eq] at h
    simp only [pElement]
    cases hd : env.decl i with
    | enum a b => rw [hd] at h; cases h
    | struct b =>
      rw [hd] at h
      simp only at h ⊢
      cases hb' : b.tail with
      | delegate _ _ => rw [hb'] at h; cases h
      | plain => rfl
      | unknown _ _ => rfl
  | _ => simp [Ty.inStruct] at h

theorem bind_eq {α β : Type} {m : PM α} {f : α → PM β} {a : α} {b : β} {c1 c2 c : Stats} (h1 : m = .ret a c1) (h2 : f a = .ret b c2) (hc : c1 + c2 = c) : PM.bind m f = .ret b c := by
  rw [h1, ← hc]; exact PM.bind_retc h2

theorem reads_complete {env : Env} (henv : env.Ok) (hw : env.wf) {cfg : Config} {it : RItem} {d : Nat} {vals : List Val} {vs : List V} {c : Stats} (h : Reads env cfg it d vals vs c) :
    RC env cfg it d vals vs c := by
  induction h with
  | bodyBoxed _ ih => exact fun l v h1 h2 => (ih l v h1 h2).succ fun n h => h
  | bodyTuple hl hi _ ih =>
    intro l v h1 h2
    cases h1; cases h2
    obtain ⟨hd, ih⟩ := ih _ rfl
    refine ih.succ fun n h => ?_
    simp only [pops, pBody]
    rw [fields_init]
    exact (struct_iff (tupleFields_ok hl)).2 ⟨_, _, .zero, h 0, hd, hi, rfl, by simp⟩
  | bodyUnknown _ ih =>
    rename_i zc d vals es c _
    intro l v h1 h2
    cases h1; cases h2
    obtain ⟨hd, ih⟩ := ih _ rfl
    refine (ih.and (.start (Q := fun n => (pops env cfg n).finish (.unknownFields zc) ⟨false, es⟩ d = .ret (.seq es)) fun n => rfl)).succ fun n ⟨h, h'⟩ => ?_
    show PM.bind (pLoop cfg (pops env cfg n) [] (some zc) d .init l) (fun st => (pops env cfg n).finish (.unknownFields zc) st.unk d) = _
    exact bind_eq (loop_unknown.2 ⟨hd, _, h _, rfl⟩) h' (by simp)
  | bodyStruct hd _ ih =>
    rename_i i b _ _ _ _ _
    intro l v h1 h2
    cases h2
    have hok := henv i
    have hbw := hw i
    rw [hd] at hok hbw
    refine (ih hok hbw l h1).succ fun n h => ?_
    simp only [pops, pBody, hd]
    exact bind_rets.2 ⟨_, h, rfl⟩
  | bodyWrapped hwr hi hd _ ih =>
    rename_i t d l v c _
    intro l' v' h1 h2
    cases h1; cases h2
    refine (ih _ rfl).succ fun n h => ?_
    show pBody env cfg (pops env cfg n) _ _ _ = _
    rw [pBody_wrapped hwr]
    unfold pDefault
    rw [fields_init]
    refine (struct_iff (fs := [⟨1, "top", t⟩]) ⟨by intro d hd; cases List.mem_singleton.1 hd; exact tagOk_one, by simp⟩).2 ⟨[v], c, .zero, ?_, .inr hd, hi, rfl, by simp⟩
    have h := h 1
    unfold pWhole at h
    obtain ⟨a, c1, c2, g1, g2, rfl⟩ := PM.bind_eq_ret h
    simp only [pEachField]
    exact bind_eq g1 (bind_eq g2 (c2 := .zero) rfl rfl) (by simp)
  | fieldBoxed _ ih =>
    rename_i t d vals vs c _
    intro v hv
    refine (ih v hv).succ fun n h tag => ?_
    unfold pWhole at h ⊢
    rw [pAccum_congr (o := pops env cfg (n + 1)) (o' := pops env cfg n) (t := .boxed t) (t' := t) (d := d) (tag := tag) (fun _ _ => rfl)]
    exact h tag
  | fieldSingle ht he ih =>
    rename_i t d val v c
    intro v' hv
    cases hv
    have ih := ih val v rfl rfl
    cases t with
    | prim p =>
      cases he with
      | elemStruct h => simp [Ty.inStruct] at h
      | elemPrim hp => exact .start fun n tag => whole_prim.2 ⟨val, rfl, prim_reads.2 ⟨_, rfl, hp⟩⟩
    | tuple ts => exact ih.succ fun n h tag => whole_tuple.2 ⟨val, rfl, h tag⟩
    | named i => exact ih.succ fun n h tag => whole_named.2 ⟨val, rfl, h tag⟩
    | unknownField zc =>
      refine (ih.and ⟨2, fun n hn => (⟨n - 2, by omega⟩ : ∃ m, n = m + 2)⟩).imp fun n ⟨h, m, hm⟩ tag => ?_
      subst hm
      have h := h tag
      have h : pWhole (pops env cfg (m + 1)) (.unknownField zc) d tag [val] = .ret v c := by
        simp only [pWhole, pAccum, PM.bind_ret_right]; exact h
      obtain ⟨_, h1, h⟩ := whole_unk.1 h
      cases h1
      have hs : SLeq (pUnkField (pops env cfg m) zc d tag val) (pUnkField (pops env cfg (m + 1)) zc d tag val) := by
        have hm := pops_mono env cfg (Nat.le_succ m)
        cases val with
        | int n => exact .refl _
        | blob d => exact SLeq.bindl (f := fun u => .ret (V.variant 1 [u])) (hm.element ..)
        | struct l => exact SLeq.bindl (f := fun u => .ret (V.variant 2 [u])) (hm.body ..)
        | enum disc l => exact SLeq.bindl (f := fun u => .ret (V.variant 3 [.num disc.toNat, u])) (hm.body ..)
      refine whole_unk.2 ⟨val, rfl, ?_⟩
      rcases hs with ⟨c', h'⟩ | h'
      · rw [h] at h'; exact absurd h'.symm PM.fail_ne_ret
      · rw [← h', h]
    | vec e =>
      simp only [Ty.isSingle, Ty.isByte_eq] at ht
      rw [isU8_eq ht] at he ⊢
      cases he with
      | elemVec => exact .start fun n tag => whole_bytes.2 ⟨_, rfl, rfl, rfl⟩
      | elemStruct h => simp [Ty.inStruct, Ty.isU8] at h
    | small m e =>
      simp only [Ty.isSingle, Ty.isByte_eq] at ht
      rw [isU8_eq ht] at he ⊢
      cases he with
      | elemSmall hl => exact .start fun n tag => whole_smallBytes.2 (.inl ⟨_, rfl, hl, rfl, rfl⟩)
      | elemStruct h => simp [Ty.inStruct, Ty.isU8] at h
    | large m e =>
      simp only [Ty.isSingle, Ty.isByte_eq] at ht
      rw [isU8_eq ht] at he ⊢
      cases he with
      | elemLarge hl => exact .start fun n tag => whole_largeBytes.2 (.inl ⟨_, rfl, hl, rfl, rfl⟩)
      | elemStruct h => simp [Ty.inStruct, Ty.isU8] at h
    | _ => simp [Ty.isSingle] at ht
  | fieldNoBytes =>
    intro v hv; cases hv
    exact .start fun n tag => whole_smallBytes.2 (.inr ⟨rfl, rfl, rfl, rfl⟩)
  | fieldNoBytesL hx =>
    intro v hv; cases hv
    exact .start fun n tag => whole_largeBytes.2 (.inr ⟨rfl, hx, rfl, rfl⟩)
  | fieldVec he _ ih =>
    rw [Ty.isByte_eq] at he
    intro v hv; cases hv
    exact Evtl.succ ih fun n h tag => (whole_vec he).2 ⟨_, _, h tag, rfl, rfl⟩
  | fieldList _ ih =>
    intro v hv; cases hv
    exact Evtl.succ ih fun n h tag => whole_coll.2 ⟨_, _, h tag, rfl, rfl⟩
  | fieldSet _ ih =>
    intro v hv; cases hv
    exact Evtl.succ ih fun n h tag => whole_coll.2 ⟨_, _, h tag, rfl, rfl⟩
  | fieldMap _ ih =>
    intro v hv; cases hv
    exact Evtl.succ ih fun n h tag => whole_map.2 ⟨_, _, h tag, rfl, rfl⟩
  | fieldOption hl _ ih =>
    intro v hv; cases hv
    exact Evtl.succ ih fun n h tag => whole_option.2 ⟨_, h tag, rfl, hl⟩
  | fieldSmall he hl _ ih =>
    rw [Ty.isByte_eq] at he
    intro v hv; cases hv
    exact Evtl.succ ih fun n h tag => (whole_small he).2 ⟨_, h tag, rfl, hl⟩
  | fieldLarge he hl _ ih =>
    rw [Ty.isByte_eq] at he
    intro v hv; cases hv
    exact Evtl.succ ih fun n h tag => (whole_large he).2 ⟨_, h tag, rfl, hl⟩
  | elemPrim hp =>
    rename_i p d val v n
    intro val v h1 h2; cases h1; cases h2
    refine ⟨2, fun n hn tag => ?_⟩
    obtain ⟨m, rfl⟩ : ∃ m, n = m + 2 := ⟨n - 2, by omega⟩
    have := (whole_prim (env := env) (cfg := cfg) (n := m) (d := d) (tag := tag) (vals := [val]) (p := p)).2 ⟨val, rfl, prim_reads.2 ⟨_, rfl, hp⟩⟩
    simp only [pWhole, pAccum, PM.bind_ret_right] at this
    exact this
  | elemBoxed _ ih => exact fun val v h1 h2 => (ih val v h1 h2).succ fun n h => h
  | elemVec =>
    intro val v h1 h2; cases h1; cases h2
    exact .start fun n tag => rfl
  | elemSmall hl | elemLarge hl =>
    intro val v h1 h2; cases h1; cases h2
    refine .start fun n tag => ?_
    show PM.bind (readArr _ _) (fun vs => .ret (V.seq vs)) = _
    exact bind_rets.2 ⟨_, readArr_iff.2 ⟨_, rfl, hl, rfl, rfl⟩, rfl⟩
  | elemStruct ht _ ih =>
    intro val v h1 h2; cases h1; cases h2
    refine (ih _ _ rfl rfl).succ fun n h tag => ?_
    show pElement env cfg (pops env cfg n) _ _ _ _ = _
    rw [pViaStruct_inStruct ht]; exact h
  | elemDelegate hd ht hdl hc _ ih =>
    intro val v h1 h2; cases h1; cases h2
    refine (ih _ _ rfl rfl).succ fun n h tag => ?_
    simp only [pops, pElement, hd, ht, pPush_ok hdl, PM.bind_ret]
    exact bind_eq (h tag) (bind_eq (pConstruct_ret.2 ⟨hc, rfl, rfl⟩) (c2 := .zero) rfl rfl) (by simp)
  | elemVariant hd hf _ ih =>
    rename_i i variants ca disc b d l vs c _
    intro val v h1 h2; cases h1; cases h2
    have hok := henv i
    have hbw := hw i
    rw [hd] at hok hbw
    have hm := List.mem_of_find?_eq_some hf
    refine (ih (hok.1 _ hm) (hbw.1 _ hm) l rfl).succ fun n h tag => ?_
    simp only [pops, pElement, hd, pEnum, hf]
    exact bind_rets.2 ⟨_, h, rfl⟩
  | elemCatchAll hd hf _ ih =>
    rename_i i variants disc b d l vs c _
    intro val v h1 h2; cases h1; cases h2
    have hok := henv i
    have hbw := hw i
    rw [hd] at hok hbw
    have hf' : variants.find? (fun x => x.1 = disc) = none := List.find?_eq_none.2 (by simpa using hf)
    refine (ih (hok.2 _ rfl) (hbw.2 _ rfl) l rfl).succ fun n h tag => ?_
    simp only [pops, pElement, hd, pEnum, hf']
    exact bind_rets.2 ⟨_, h, rfl⟩
  | unkInt =>
    intro val v h1 h2; cases h1; cases h2
    refine ⟨2, fun n hn tag => ?_⟩
    obtain ⟨m, rfl⟩ : ∃ m, n = m + 2 := ⟨n - 2, by omega⟩
    rfl
  | unkBlob =>
    rename_i zc d data
    intro val v h1 h2; cases h1; cases h2
    refine ⟨6, fun n hn tag => ?_⟩
    obtain ⟨m, rfl⟩ : ∃ m, n = m + 6 := ⟨n - 6, by omega⟩
    cases zc <;> rfl
  | unkStruct _ ih =>
    rename_i zc d l u c _
    intro val v h1 h2; cases h1; cases h2
    refine ((ih _ _ rfl rfl).succ (Q := fun n => ∀ tag, pWhole (pops env cfg n) (.unknownField zc) d tag [.struct l] = .ret (.variant 2 [u]) c) fun n h tag =>
      whole_unk.2 ⟨_, rfl, bind_rets.2 ⟨_, h, rfl⟩⟩).succ fun n h tag => ?_
    have h := h tag
    simp only [pWhole, pAccum, PM.bind_ret_right] at h
    exact h
  | unkEnum _ ih =>
    rename_i zc d disc l u c _
    intro val v h1 h2; cases h1; cases h2
    refine ((ih _ _ rfl rfl).succ (Q := fun n => ∀ tag, pWhole (pops env cfg n) (.unknownField zc) d tag [.enum disc l] = .ret (.variant 3 [.num disc.toNat, u]) c) fun n h tag =>
      whole_unk.2 ⟨_, rfl, bind_rets.2 ⟨_, h, rfl⟩⟩).succ fun n h tag => ?_
    have h := h tag
    simp only [pWhole, pAccum, PM.bind_ret_right] at h
    exact h
  | eachNil => exact .const fun n tag => rfl
  | eachCons _ _ ih1 ih2 =>
    exact ((ih1 _ _ rfl rfl).and ih2).imp fun n ⟨h1, h2⟩ tag => pEach_cons.2 ⟨_, _, _, _, rfl, h1 tag, h2 tag, rfl⟩
  | fieldsNil => exact fun l h => ⟨.inl rfl, .const fun n i => rfl⟩
  | fieldsCons hd _ _ ih1 ih2 =>
    rename_i x xs d l v vs c c' _ _
    intro l' h; cases h
    refine ⟨.inr hd, ((ih1 _ rfl).and (ih2 _ rfl).2).imp fun n ⟨h1, h2⟩ i => ?_⟩
    have h1 := h1 x.tag
    unfold pWhole at h1
    obtain ⟨a, c1, c2, g1, g2, rfl⟩ := PM.bind_eq_ret h1
    simp only [pEachField]
    exact bind_eq g1 (bind_eq g2 (bind_eq (h2 (i + 1)) (c2 := .zero) rfl rfl) rfl) (by simp [Stats.add_assoc])
  | partsPlain ht hc hi _ ih =>
    intro hok hbw l h; cases h
    obtain ⟨hd, ih⟩ := ih _ rfl
    refine ih.imp fun n h => ?_
    simp only [pMacro, ht]
    exact (struct_iff hok).2 ⟨_, _, .zero, h 0, hd, hi, pConstruct_ret.2 ⟨hc, rfl, rfl⟩, by simp⟩
  | partsDelegate ht hc hd _ ih =>
    rename_i b name t d vals v c _
    intro hok hbw l h
    have hf := (hbw.2 _ _ ht).1
    refine (ih l _ h rfl).imp fun n h => ?_
    simp only [pMacro, ht, pPush_ok hd, PM.bind_ret, hf, pFinishAll]
    exact bind_eq h (pConstruct_ret.2 ⟨hc, rfl, rfl⟩) (by simp)
  | partsUnknown ht hc hd _ _ ih1 ih2 =>
    rename_i b name zc d l vs es c c' _ _
    intro hok hbw l' h; cases h
    refine (((ih1 _ rfl).2.and (ih2 _ rfl).2).and (.start (Q := fun n => (pops env cfg n).finish (.unknownFields zc) ⟨false, es⟩ (d + 1) = .ret (.seq es)) fun n => rfl)).imp fun n ⟨⟨h1, h2⟩, h3⟩ => ?_
    simp only [pMacro, ht]
    refine (loop_same (pops env cfg n) hok.2 (some zc) (.inl hd) (fun vs u => PM.bind (pPush cfg d) fun d' => PM.bind ((pops env cfg n).finish (.unknownFields zc) u d') fun v => pConstruct b (vs ++ [v])) _ .init _ _).2 ?_
    refine bind_eq (h1 0) (bind_eq (h2 _) (c2 := .zero) ?_ rfl) (by simp)
    simp only [pPush_ok hd, PM.bind_ret]
    refine bind_eq h3 (pConstruct_ret.2 ⟨hc, rfl, rfl⟩) rfl
  | unknownNil =>
    intro l h; cases h
    exact ⟨.inl rfl, .const fun n u => by simp [pUnknowns]⟩
  | unknownCons hd _ _ ih1 ih2 =>
    intro l h; cases h
    refine ⟨.inr hd, ?_⟩
    obtain ⟨-, N, ih2⟩ := ih2 _ rfl
    refine ((ih1 _ _ rfl rfl).and (⟨N, fun n hn => ih2 (n + 1) (by omega)⟩ : Evtl _)).succ fun n ⟨h1, h2⟩ u => ?_
    exact unknowns_iff.2 (show ∃ w c1 c2, _ ∧ _ ∧ _ from ⟨_, _, _, h1 _, (h2 _).trans (by simp), rfl⟩)

/-- Reading a tree is exactly what the specification says. -/
theorem deTree_iff {env : Env} (henv : env.Ok) (hw : env.wf) {t : Ty} (ht : t.wf false = true) {cfg : Config} {l : Fields} {v : V} {c : Stats} :
    deTree env t cfg l = .ret v c ↔ Reads env cfg (.body t) 0 [.struct l] [v] c := by
  constructor
  · intro h; exact (reads_sound henv hw cfg _).body _ _ _ _ _ ht h
  · intro h
    obtain ⟨N, hN⟩ := reads_complete henv hw h l v rfl rfl
    rcases deTree_any env t cfg l N with ⟨c', h'⟩ | h'
    · rw [hN N (Nat.le_refl _)] at h'; exact absurd h'.symm PM.fail_ne_ret
    · rw [← h', hN N (Nat.le_refl _)]

end Fourleaf
