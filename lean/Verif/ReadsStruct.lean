import Verif.ReadsField

/-! # Reading structs -/

namespace Fourleaf
open Spec

variable {env : Env} {cfg : Config} {o : POps} {d : Nat} {l : Fields} {c : Stats}

theorem ignores_iff {fs : List FieldDecl} : cfg.Ignores (fs.map (·.tag)) l ↔ cfg.ignoreUnknownFields = true ∨ unknowns fs l = [] := by
  refine or_congr .rfl ?_
  simp only [unknowns, List.filter_eq_nil_iff, List.any_eq_true, decide_eq_true_eq, List.mem_map, Bool.not_eq_true', Bool.not_eq_false]

/-- Fields of a struct without a collector of unknown fields. -/
theorem struct_iff {fs : List FieldDecl} (hok : FieldsOk fs) {β : Type} {k : List V → PM β} {b : β} :
    PM.bind (pLoop cfg o fs none d .init l) (fun st' => PM.bind (pFinishAll cfg o d st' 0 fs) fun vs => k vs) = .ret b c ↔
      ∃ vs c1 c2, pEachField o (d + 1) (fun _ => .init) l 0 fs = .ret vs c1 ∧ (fs = [] ∨ d < cfg.recursionLimit) ∧ cfg.Ignores (fs.map (·.tag)) l ∧
        k vs = .ret b c2 ∧ c = c1 + c2 := by
  by_cases hd : d < cfg.recursionLimit ∨ fs = []
  · refine (loop_same o hok.2 none (hd.imp_right fun h => ⟨h, rfl⟩) (fun vs _ => k vs) l .init b c).trans ?_
    rw [ignores_iff]
    constructor
    · intro h
      obtain ⟨vs, c1, c2, h1, h2, rfl⟩ := PM.bind_eq_ret h
      obtain ⟨u, c3, c4, h3, h4, rfl⟩ := PM.bind_eq_ret h2
      have hi : cfg.ignoreUnknownFields = true ∨ unknowns fs l = [] := by
        by_cases hu : unknowns fs l = []
        · exact .inr hu
        · refine .inl ?_
          cases hi : cfg.ignoreUnknownFields with
          | true => rfl
          | false =>
            obtain ⟨k', hk⟩ := pUnknowns_some cfg o (d + 1) (unknowns fs l) LoopSt.init.unk hi hu
            rw [hk] at h3; exact absurd h3 PM.fail_ne_ret
      rw [pUnknowns_none _ _ _ _ _ hi] at h3
      obtain ⟨rfl, rfl⟩ := PM.ret_inj h3
      exact ⟨vs, c1, c4, h1, hd.symm, hi, h4, by simp⟩
    · rintro ⟨vs, c1, c2, h1, -, hi, h2, rfl⟩
      rw [pUnknowns_none _ _ _ _ _ hi]
      simp only [PM.bind_ret]
      show PM.bind (pEachField o (d + 1) (fun _ => .init) l 0 fs) _ = _
      rw [h1]; exact PM.bind_retc h2
  · have hfs : fs ≠ [] := fun h => hd (.inr h)
    refine (loop_deep o hfs none (fun h => hd (.inl h)) (fun vs _ => k vs) l .init b c).trans ?_
    constructor
    · intro h; exact absurd h PM.fail_ne_ret
    · rintro ⟨vs, c1, c2, -, h, -⟩; exact absurd h.symm hd

/-- What is collected as unknown fields. -/
theorem unknowns_iff {n : Nat} {zc : Bool} : ∀ {l : Fields} {u u' : Acc} {c : Stats},
    pUnknowns cfg (pops env cfg (n + 1)) (some zc) d u l = .ret u' c ↔
      match l with
      | [] => u' = u ∧ c = .zero
      | (tag, val) :: l => ∃ w c1 c2, (pops env cfg n).element (.unknownField zc) d tag val = .ret w c1 ∧
          pUnknowns cfg (pops env cfg (n + 1)) (some zc) d ⟨u.flag, u.items ++ [.seq [.num tag.toNat, w]]⟩ l = .ret u' c2 ∧ c = ⟨1, 0⟩ + c1 + c2
  | [], u, u', c => by simp only [pUnknowns, ret_eq]; simp [eq_comm]
  | (tag, val) :: l, u, u', c => by
    have hf : (pops env cfg (n + 1)).field (.unknownFields zc) u d tag val = PM.bind pCollect fun _ => PM.bind ((pops env cfg n).element (.unknownField zc) d tag val) fun w =>
      .ret ⟨u.flag, u.items ++ [.seq [.num tag.toNat, w]]⟩ := rfl
    simp only [pUnknowns, hf]
    constructor
    · intro h
      obtain ⟨a, c1, c2, h1, h2, rfl⟩ := PM.bind_eq_ret h
      obtain ⟨_, c3, c4, h3, h4, rfl⟩ := PM.bind_eq_ret h1
      obtain ⟨w, c5, c6, h5, h6, rfl⟩ := PM.bind_eq_ret h4
      obtain ⟨rfl, rfl⟩ := PM.ret_inj h6
      obtain ⟨-, rfl⟩ := PM.ret_inj h3
      exact ⟨w, c5, c2, h5, h2, by simp⟩
    · rintro ⟨w, c1, c2, h1, h2, rfl⟩
      have g : PM.bind pCollect (fun _ => PM.bind ((pops env cfg n).element (.unknownField zc) d tag val) fun w =>
          PM.ret (⟨u.flag, u.items ++ [.seq [.num tag.toNat, w]]⟩ : Acc)) = .ret ⟨u.flag, u.items ++ [.seq [.num tag.toNat, w]]⟩ (⟨1, 0⟩ + c1) := by
        refine PM.bind_retc ?_
        rw [h1]
        exact (PM.bind_retc (a := w) (c := c1) (c' := .zero) (b := (⟨u.flag, u.items ++ [.seq [.num tag.toNat, w]]⟩ : Acc)) rfl).trans (by simp)
      rw [g]
      exact PM.bind_retc h2

/-- A struct that consists of unknown fields. -/
theorem loop_unknown {zc : Bool} : ∀ {l : Fields} {st st' : LoopSt} {c : Stats},
    pLoop cfg o [] (some zc) d st l = .ret st' c ↔ (l = [] ∨ d < cfg.recursionLimit) ∧ ∃ u, pUnknowns cfg o (some zc) (d + 1) st.unk l = .ret u c ∧ st' = { st with unk := u }
  | [], st, st', c => by
    simp only [pLoop, pUnknowns, ret_eq, true_or, true_and]
    constructor
    · rintro ⟨rfl, rfl⟩; exact ⟨_, ⟨rfl, rfl⟩, rfl⟩
    · rintro ⟨u, ⟨rfl, rfl⟩, rfl⟩; exact ⟨rfl, rfl⟩
  | (tag, v) :: l, st, st', c => by
    have hf : pFieldStep cfg o [] (some zc) d st tag v = PM.bind (pPush cfg d) fun d' =>
      PM.bind (o.field (.unknownFields zc) st.unk d' tag v) fun a => .ret { st with unk := a } := rfl
    simp only [pLoop, pUnknowns, hf]
    by_cases hd : d < cfg.recursionLimit
    · simp only [pPush_ok hd, PM.bind_ret, PM.bind_assoc, hd, or_true, true_and]
      constructor
      · intro h
        obtain ⟨a, c1, c2, h1, h2, rfl⟩ := PM.bind_eq_ret h
        obtain ⟨-, u, h3, rfl⟩ := loop_unknown.1 h2
        exact ⟨u, by rw [h1]; exact PM.bind_retc h3, rfl⟩
      · rintro ⟨u, h, rfl⟩
        obtain ⟨a, c1, c2, h1, h2, rfl⟩ := PM.bind_eq_ret h
        rw [h1]
        exact PM.bind_retc (loop_unknown.2 ⟨.inr hd, u, h2, rfl⟩)
    · have : pPush cfg d = .fail .recursionLimitExceeded := by unfold pPush; rw [if_pos (by omega)]
      simp only [this, PM.bind_fail, hd, or_false, reduceCtorEq, false_and, iff_false]
      exact PM.fail_ne_ret

end Fourleaf
