import Verif.ReadsPrim

/-! # Reading the occurrences of a field: what accumulates -/

namespace Fourleaf
open Spec

/-- Each occurrence on its own. -/
def pEach (o : POps) (e : Ty) (d : Nat) (tag : Byte) : List Val → PM (List V)
  | [] => .ret []
  | v :: vs => PM.bind (o.element e d tag v) fun u => PM.bind (pEach o e d tag vs) fun us => .ret (u :: us)

theorem pEach_cons {o : POps} {e : Ty} {d : Nat} {tag : Byte} {val : Val} {vals : List Val} {vs : List V} {c : Stats} :
    pEach o e d tag (val :: vals) = .ret vs c ↔ ∃ u us c1 c2, vs = u :: us ∧ o.element e d tag val = .ret u c1 ∧ pEach o e d tag vals = .ret us c2 ∧ c = c1 + c2 := by
  constructor
  · intro h
    obtain ⟨u, c1, c2, h1, h2, rfl⟩ := PM.bind_eq_ret h
    obtain ⟨us, c3, c4, h3, h4, rfl⟩ := PM.bind_eq_ret h2
    obtain ⟨rfl, rfl⟩ := PM.ret_inj h4
    exact ⟨u, us, c1, c3, rfl, h1, h3, by simp⟩
  · rintro ⟨u, us, c1, c2, rfl, h1, h2, rfl⟩
    simp only [pEach, h1, h2]
    exact PM.bind_retc (PM.bind_retc (f := fun us => .ret (u :: us)) (c' := .zero) rfl |>.trans (by simp))

theorem pEach_length {o : POps} {e : Ty} {d : Nat} {tag : Byte} : ∀ {vals : List Val} {vs : List V} {c : Stats}, pEach o e d tag vals = .ret vs c → vs.length = vals.length
  | [], vs, c, h => by obtain ⟨rfl, rfl⟩ := PM.ret_inj h; rfl
  | val :: vals, vs, c, h => by
    obtain ⟨u, us, c1, c2, rfl, -, h2, -⟩ := pEach_cons.1 h
    simp [pEach_length h2]

/-- Collections without a bound. -/
theorem accum_push {o o' : POps} {t e : Ty} {d : Nat} {tag : Byte} {step : Acc → V → Acc}
    (hf : ∀ a v, o'.field t a d tag v = PM.bind pCollect fun _ => PM.bind (o.element e d tag v) fun u => .ret (step a u)) :
    ∀ (vals : List Val) (a a' : Acc) (c : Stats), pAccum o' t d tag a vals = .ret a' c ↔
      ∃ vs c', pEach o e d tag vals = .ret vs c' ∧ a' = vs.foldl step a ∧ c = ⟨vals.length, 0⟩ + c'
  | [], a, a', c => by
    simp only [pAccum, pEach, ret_eq]
    constructor
    · rintro ⟨rfl, rfl⟩; exact ⟨[], .zero, ⟨rfl, rfl⟩, rfl, rfl⟩
    · rintro ⟨vs, c', ⟨rfl, rfl⟩, rfl, rfl⟩; exact ⟨rfl, rfl⟩
  | val :: vals, a, a', c => by
    constructor
    · intro h
      simp only [pAccum] at h
      obtain ⟨a1, c1, c2, h1, h2, rfl⟩ := PM.bind_eq_ret h
      rw [hf] at h1
      obtain ⟨_, c3, c4, h3, h4, rfl⟩ := PM.bind_eq_ret h1
      obtain ⟨u, c5, c6, h5, h6, rfl⟩ := PM.bind_eq_ret h4
      obtain ⟨rfl, rfl⟩ := PM.ret_inj h6
      obtain ⟨-, rfl⟩ := PM.ret_inj h3
      obtain ⟨vs, c', h7, rfl, rfl⟩ := (accum_push hf vals _ _ _).1 h2
      refine ⟨u :: vs, c5 + c', pEach_cons.2 ⟨u, vs, c5, c', rfl, h5, h7, rfl⟩, rfl, ?_⟩
      show Stats.mk _ _ = Stats.mk _ _
      simp only [Stats.add_collected, Stats.add_blob, List.length_cons, Stats.zero]
      congr 1 <;> omega
    · rintro ⟨vs, c', h, rfl, rfl⟩
      obtain ⟨u, us, c1, c2, rfl, h1, h2, rfl⟩ := pEach_cons.1 h
      have h3 := (accum_push hf vals (step a u) _ _).2 ⟨us, c2, h2, rfl, rfl⟩
      have h4 : o'.field t a d tag val = .ret (step a u) (⟨1, 0⟩ + (c1 + .zero)) := by
        rw [hf]
        exact PM.bind_retc (by rw [h1]; exact PM.bind_retc rfl)
      simp only [pAccum, h4]
      refine (PM.bind_retc (f := fun a' => pAccum o' t d tag a' vals) h3).trans (congrArg _ ?_)
      show Stats.mk _ _ = Stats.mk _ _
      simp only [Stats.add_collected, Stats.add_blob, List.length_cons, Stats.zero]
      congr 1 <;> omega

/-- Collections with at most `n` elements. -/
theorem accum_bounded {o o' : POps} {t e : Ty} {d : Nat} {tag : Byte} {n : Nat} {k : Kind}
    (hf : ∀ items v, o'.field t ⟨false, items⟩ d tag v = if items.length ≥ n then .fail k else PM.bind (o.element e d tag v) fun u => .ret ⟨false, items ++ [u]⟩) :
    ∀ (vals : List Val) (items : List V) (a' : Acc) (c : Stats), pAccum o' t d tag ⟨false, items⟩ vals = .ret a' c ↔
      ∃ vs, pEach o e d tag vals = .ret vs c ∧ a' = ⟨false, items ++ vs⟩ ∧ (vals = [] ∨ items.length + vals.length ≤ n)
  | [], items, a', c => by
    simp only [pAccum, pEach, ret_eq]
    constructor
    · rintro ⟨rfl, rfl⟩; exact ⟨[], ⟨rfl, rfl⟩, by simp, .inl trivial⟩
    · rintro ⟨vs, ⟨rfl, rfl⟩, rfl, -⟩; exact ⟨by simp, rfl⟩
  | val :: vals, items, a', c => by
    constructor
    · intro h
      simp only [pAccum] at h
      obtain ⟨a1, c1, c2, h1, h2, rfl⟩ := PM.bind_eq_ret h
      rw [hf] at h1
      split at h1
      · exact absurd h1 PM.fail_ne_ret
      rename_i hn
      obtain ⟨u, c5, c6, h5, h6, rfl⟩ := PM.bind_eq_ret h1
      obtain ⟨rfl, rfl⟩ := PM.ret_inj h6
      obtain ⟨vs, h7, rfl, h8⟩ := (accum_bounded hf vals _ _ _).1 h2
      refine ⟨u :: vs, pEach_cons.2 ⟨u, vs, c5, c2, rfl, h5, h7, by simp⟩, by simp, .inr ?_⟩
      rcases h8 with rfl | h8
      · simp; omega
      · simp at h8 ⊢; omega
    · rintro ⟨vs, h, rfl, h8⟩
      obtain ⟨u, us, c1, c2, rfl, h1, h2, rfl⟩ := pEach_cons.1 h
      have hn : items.length + vals.length + 1 ≤ n := by
        rcases h8 with h8 | h8
        · cases h8
        · simp at h8; omega
      have h3 := (accum_bounded hf vals (items ++ [u]) _ _).2 ⟨us, h2, rfl, .inr (by simp; omega)⟩
      have h4 : o'.field t ⟨false, items⟩ d tag val = .ret ⟨false, items ++ [u]⟩ (c1 + .zero) := by
        rw [hf, if_neg (by omega), h1]
        exact PM.bind_retc rfl
      simp only [pAccum, h4]
      refine (PM.bind_retc (f := fun a' => pAccum o' t d tag a' vals) h3).trans (by simp)

/-- Exactly one occurrence. -/
theorem accum_single {o : POps} {t : Ty} {d : Nat} {tag : Byte} {X : Val → PM V} {k : Kind}
    (hf : ∀ a v, o.field t a d tag v = if a.items ≠ [] then .fail k else PM.bind (X v) fun u => .ret ⟨false, [u]⟩)
    (hfin : ∀ a, o.finish t a d = match a.items with | v :: _ => .ret v | [] => .fail .requiredFieldMissing) (vals : List Val) (v : V) (c : Stats) :
    PM.bind (pAccum o t d tag .init vals) (fun a => o.finish t a d) = .ret v c ↔ ∃ val, vals = [val] ∧ X val = .ret v c := by
  have h0 : ∀ v, o.field t .init d tag v = PM.bind (X v) fun u => .ret ⟨false, [u]⟩ := fun v => by rw [hf, if_neg (by simp [Acc.init])]
  have h1 : ∀ u v, o.field t ⟨false, [u]⟩ d tag v = .fail k := fun u v => by rw [hf, if_pos (by simp)]
  constructor
  · intro h
    obtain ⟨a, c1, c2, g1, g2, rfl⟩ := PM.bind_eq_ret h
    match vals with
    | [] =>
      obtain ⟨rfl, rfl⟩ := PM.ret_inj g1
      rw [hfin] at g2
      exact absurd g2 PM.fail_ne_ret
    | val :: vals =>
      simp only [pAccum, h0] at g1
      obtain ⟨a1, c3, c4, g3, g4, rfl⟩ := PM.bind_eq_ret g1
      obtain ⟨u, c5, c6, g5, g6, rfl⟩ := PM.bind_eq_ret g3
      obtain ⟨rfl, rfl⟩ := PM.ret_inj g6
      match vals with
      | [] =>
        obtain ⟨rfl, rfl⟩ := PM.ret_inj g4
        rw [hfin] at g2
        obtain ⟨rfl, rfl⟩ := PM.ret_inj g2
        exact ⟨val, rfl, by simpa using g5⟩
      | w :: vals =>
        simp only [pAccum, h1, PM.bind_fail] at g4
        exact absurd g4 PM.fail_ne_ret
  · rintro ⟨val, rfl, h⟩
    simp only [pAccum, h0]
    rw [show PM.bind (X val) (fun u => PM.ret (⟨false, [u]⟩ : Acc)) = .ret ⟨false, [v]⟩ c from by
      rw [h]; exact (PM.bind_retc (f := fun u => PM.ret (⟨false, [u]⟩ : Acc)) rfl).trans (by simp)]
    rw [show PM.bind (PM.ret (⟨false, [v]⟩ : Acc) c) (fun a' => PM.ret a') = .ret ⟨false, [v]⟩ c from PM.bind_ret_right _]
    refine (PM.bind_retc (b := v) (c' := .zero) ?_).trans (by simp)
    rw [hfin]

end Fourleaf
