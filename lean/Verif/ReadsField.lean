import Verif.ReadsAccum

/-! # Reading the occurrences of a field, for each type -/

namespace Fourleaf
open Spec

/-- All occurrences of a field, then `finish`. -/
def pWhole (o : POps) (t : Ty) (d : Nat) (tag : Byte) (vals : List Val) : PM V := PM.bind (pAccum o t d tag .init vals) fun a => o.finish t a d

theorem pops_field (env : Env) (cfg : Config) (n : Nat) (t : Ty) (a : Acc) (d : Nat) (tag : Byte) (v : Val) :
    (pops env cfg (n + 1)).field t a d tag v = pField (pops env cfg n) t a d tag v := rfl
theorem pops_finish (env : Env) (cfg : Config) (n : Nat) (t : Ty) (a : Acc) (d : Nat) :
    (pops env cfg (n + 1)).finish t a d = pFinish (pops env cfg n) t a d := rfl

variable {env : Env} {cfg : Config} {n d : Nat} {tag : Byte} {vals : List Val} {v : V} {c : Stats}

theorem whole_prim {p : Prim} : pWhole (pops env cfg (n + 1)) (.prim p) d tag vals = .ret v c ↔ ∃ val, vals = [val] ∧ p.read val = .ret v c :=
  accum_single (k := .tooMany 1) (fun _ _ => rfl) (fun _ => rfl) vals v c

theorem whole_tuple {ts : List Ty} : pWhole (pops env cfg (n + 1)) (.tuple ts) d tag vals = .ret v c ↔ ∃ val, vals = [val] ∧ (pops env cfg n).element (.tuple ts) d tag val = .ret v c :=
  accum_single (k := .tooMany 1) (fun _ _ => rfl) (fun _ => rfl) vals v c

theorem whole_named {i : Nat} : pWhole (pops env cfg (n + 1)) (.named i) d tag vals = .ret v c ↔ ∃ val, vals = [val] ∧ (pops env cfg n).element (.named i) d tag val = .ret v c :=
  accum_single (k := .tooFew 1) (fun _ _ => rfl) (fun _ => rfl) vals v c

/-- What is made of a field of unknown type. -/
def pUnkField (o : POps) (zc : Bool) (d : Nat) (tag : Byte) (v : Val) : PM V :=
  match v with
  | .int n => .ret (.variant 0 [.num n.toNat])
  | .blob _ => PM.bind (o.element (unkBlobTy zc) d tag v) fun u => .ret (.variant 1 [u])
  | .struct l => PM.bind (o.body (.unknownFields zc) d l) fun u => .ret (.variant 2 [u])
  | .enum disc l => PM.bind (o.body (.unknownFields zc) d l) fun u => .ret (.variant 3 [.num disc.toNat, u])

theorem whole_unk {zc : Bool} : pWhole (pops env cfg (n + 1)) (.unknownField zc) d tag vals = .ret v c ↔ ∃ val, vals = [val] ∧ pUnkField (pops env cfg n) zc d tag val = .ret v c := by
  refine accum_single (X := pUnkField (pops env cfg n) zc d tag) (k := .tooMany 1) (fun a v => ?_) (fun a => rfl) vals v c
  rw [pops_field]
  simp only [pField]
  split
  · rfl
  · cases v with
    | int n => rfl
    | _ => simp only [pUnkField, PM.bind_assoc, PM.bind_ret]

theorem whole_vec {e : Ty} (he : e.isU8 = false) : pWhole (pops env cfg (n + 1)) (.vec e) d tag vals = .ret v c ↔
    ∃ vs c', pEach (pops env cfg n) e d tag vals = .ret vs c' ∧ v = .seq vs ∧ c = ⟨vals.length, 0⟩ + c' := by
  have hp := accum_push (o := pops env cfg n) (o' := pops env cfg (n + 1)) (t := .vec e) (e := e) (d := d) (tag := tag) (step := fun a u => ⟨a.flag, a.items ++ [u]⟩)
    (fun a v => by rw [pops_field]; simp only [pField, he, Bool.false_eq_true, if_false]) vals .init
  constructor
  · intro h
    obtain ⟨a, c1, c2, g1, g2, rfl⟩ := PM.bind_eq_ret h
    obtain ⟨vs, c', g3, rfl, rfl⟩ := (hp _ _).1 g1
    rw [foldl_push] at g2
    rw [pops_finish] at g2
    simp only [pFinish, he, Bool.false_and, Bool.false_eq_true, if_false] at g2
    obtain ⟨rfl, rfl⟩ := PM.ret_inj g2
    exact ⟨vs, c', g3, by simp [Acc.init], by simp⟩
  · rintro ⟨vs, c', h, rfl, rfl⟩
    have g1 := (hp _ _).2 ⟨vs, c', h, rfl, rfl⟩
    unfold pWhole
    rw [g1]
    refine (PM.bind_retc (c' := .zero) (b := V.seq vs) ?_).trans (by simp)
    rw [pops_finish]
    rw [foldl_push]
    simp [pFinish, he, Acc.init]

/-- The collection with the given elements. -/
def collOf : CollKind → List V → List V
  | .list, vs => vs
  | .set, vs => distinct vs

theorem whole_coll {k : CollKind} {e : Ty} : pWhole (pops env cfg (n + 1)) (.coll k e) d tag vals = .ret v c ↔
    ∃ vs c', pEach (pops env cfg n) e d tag vals = .ret vs c' ∧ v = .seq (collOf k vs) ∧ c = ⟨vals.length, 0⟩ + c' := by
  have hp := accum_push (o := pops env cfg n) (o' := pops env cfg (n + 1)) (t := .coll k e) (e := e) (d := d) (tag := tag)
    (step := fun a u => ⟨a.flag, match k with | .list => a.items ++ [u] | .set => setInsert u a.items⟩) (fun _ _ => rfl) vals .init
  have hr : ∀ vs : List V, (vs.foldl (fun (a : Acc) u => (⟨a.flag, match k with | .list => a.items ++ [u] | .set => setInsert u a.items⟩ : Acc)) .init).items = collOf k vs := by
    intro vs
    cases k with
    | list => simp only [foldl_push]; simp [Acc.init, collOf]
    | set =>
      simp only
      have : ∀ a : Acc, (vs.foldl (fun (a : Acc) u => (⟨a.flag, setInsert u a.items⟩ : Acc)) a).items = vs.foldl (fun r v => setInsert v r) a.items := by
        induction vs with
        | nil => intro a; rfl
        | cons v vs ih => intro a; simp only [List.foldl]; rw [ih]
      exact (this .init).trans (distinct_fold vs)
  constructor
  · intro h
    obtain ⟨a, c1, c2, g1, g2, rfl⟩ := PM.bind_eq_ret h
    obtain ⟨vs, c', g3, rfl, rfl⟩ := (hp _ _).1 g1
    have g2 : PM.ret (V.seq _) .zero = PM.ret v c2 := g2
    obtain ⟨rfl, rfl⟩ := PM.ret_inj g2
    exact ⟨vs, c', g3, congrArg V.seq (hr vs), by simp⟩
  · rintro ⟨vs, c', h, rfl, rfl⟩
    have g1 := (hp _ _).2 ⟨vs, c', h, rfl, rfl⟩
    unfold pWhole
    rw [g1]
    refine (PM.bind_retc (c' := .zero) (b := V.seq (collOf k vs)) ?_).trans (by simp)
    rw [← hr vs]; rfl

theorem whole_map {k w : Ty} : pWhole (pops env cfg (n + 1)) (.map k w) d tag vals = .ret v c ↔
    ∃ vs c', pEach (pops env cfg n) (.tuple [k, w]) d tag vals = .ret vs c' ∧ v = .seq (entriesOf vs) ∧ c = ⟨vals.length, 0⟩ + c' := by
  have hp := accum_push (o := pops env cfg n) (o' := pops env cfg (n + 1)) (t := .map k w) (e := .tuple [k, w]) (d := d) (tag := tag)
    (step := fun a u => ⟨a.flag, mapInsert u a.items⟩) (fun _ _ => rfl) vals .init
  have hr : ∀ vs : List V, (vs.foldl (fun (a : Acc) u => (⟨a.flag, mapInsert u a.items⟩ : Acc)) .init).items = entriesOf vs := by
    intro vs
    have : ∀ a : Acc, (vs.foldl (fun (a : Acc) u => (⟨a.flag, mapInsert u a.items⟩ : Acc)) a).items = vs.foldl (fun r v => mapInsert v r) a.items := by
      induction vs with
      | nil => intro a; rfl
      | cons v vs ih => intro a; simp only [List.foldl]; rw [ih]
    exact (this .init).trans (entriesOf_fold vs)
  constructor
  · intro h
    obtain ⟨a, c1, c2, g1, g2, rfl⟩ := PM.bind_eq_ret h
    obtain ⟨vs, c', g3, rfl, rfl⟩ := (hp _ _).1 g1
    have g2 : PM.ret (V.seq _) .zero = PM.ret v c2 := g2
    obtain ⟨rfl, rfl⟩ := PM.ret_inj g2
    exact ⟨vs, c', g3, congrArg V.seq (hr vs), by simp⟩
  · rintro ⟨vs, c', h, rfl, rfl⟩
    have g1 := (hp _ _).2 ⟨vs, c', h, rfl, rfl⟩
    unfold pWhole
    rw [g1]
    refine (PM.bind_retc (c' := .zero) (b := V.seq (entriesOf vs)) ?_).trans (by simp)
    rw [← hr vs]; rfl

theorem whole_option {e : Ty} : pWhole (pops env cfg (n + 1)) (.option e) d tag vals = .ret v c ↔
    ∃ vs, pEach (pops env cfg n) e d tag vals = .ret vs c ∧ v = .seq vs ∧ vals.length ≤ 1 := by
  have hp := accum_bounded (o := pops env cfg n) (o' := pops env cfg (n + 1)) (t := .option e) (e := e) (d := d) (tag := tag) (n := 1) (k := .tooMany 1)
    (fun items v => by
      rw [pops_field]
      cases items with
      | nil => rfl
      | cons x xs => simp [pField]) vals []
  constructor
  · intro h
    obtain ⟨a, c1, c2, g1, g2, rfl⟩ := PM.bind_eq_ret h
    obtain ⟨vs, g3, rfl, h8⟩ := (hp _ _).1 g1
    have g2 : PM.ret (V.seq _) .zero = PM.ret v c2 := g2
    obtain ⟨rfl, rfl⟩ := PM.ret_inj g2
    refine ⟨vs, by simpa using g3, rfl, ?_⟩
    rcases h8 with rfl | h8
    · simp
    · simpa using h8
  · rintro ⟨vs, h, rfl, h8⟩
    have g1 := (hp _ _).2 ⟨vs, h, rfl, .inr (by simpa using h8)⟩
    unfold pWhole
    show PM.bind (pAccum _ _ _ _ ⟨false, []⟩ _) _ = _
    rw [g1]
    exact (PM.bind_retc (c' := .zero) (b := V.seq vs) rfl).trans (by simp)

theorem whole_arr {large : Bool} {m : Nat} {e : Ty} (he : e.isU8 = false) : pWhole (pops env cfg (n + 1)) (if large then .large m e else .small m e) d tag vals = .ret v c ↔
    ∃ vs, pEach (pops env cfg n) e d tag vals = .ret vs c ∧ v = .seq vs ∧ vals.length = m := by
  have hp := accum_bounded (o := pops env cfg n) (o' := pops env cfg (n + 1)) (t := if large then .large m e else .small m e) (e := e) (d := d) (tag := tag) (n := m) (k := .tooMany m)
    (fun items v => by
      rw [pops_field]
      cases large <;> simp [pField, he]) vals []
  constructor
  · intro h
    obtain ⟨a, c1, c2, g1, g2, rfl⟩ := PM.bind_eq_ret h
    obtain ⟨vs, g3, rfl, h8⟩ := (hp _ _).1 g1
    rw [pops_finish] at g2
    have hl := pEach_length g3
    have hv : vs.length < m → False := by
      intro hlt
      cases large <;>
        (simp only [if_true, Bool.false_eq_true, if_false, pFinish, List.nil_append, hlt] at g2
         split at g2 <;> exact absurd g2 PM.fail_ne_ret)
    have hm : vals.length = m := by
      rcases h8 with rfl | h8
      · simp at hl; simp [hl] at hv ⊢; omega
      · have hv' : ¬ vs.length < m := hv
        simp at h8; omega
    have g4 : v = .seq vs ∧ c2 = .zero := by
      cases large <;>
        (simp only [if_true, Bool.false_eq_true, if_false, pFinish, List.nil_append, show ¬ vs.length < m from hv] at g2
         obtain ⟨rfl, rfl⟩ := PM.ret_inj g2
         exact ⟨rfl, rfl⟩)
    obtain ⟨rfl, rfl⟩ := g4
    exact ⟨vs, by simpa using g3, rfl, hm⟩
  · rintro ⟨vs, h, rfl, h8⟩
    have g1 := (hp _ _).2 ⟨vs, h, rfl, .inr (by simp [h8])⟩
    have hl := pEach_length h
    unfold pWhole
    show PM.bind (pAccum _ _ _ _ ⟨false, []⟩ _) _ = _
    rw [g1]
    refine (PM.bind_retc (c' := .zero) (b := V.seq vs) ?_).trans (by simp)
    rw [pops_finish]
    have : ¬ vs.length < m := by omega
    cases large <;> simp [pFinish, this]

theorem whole_small {m : Nat} {e : Ty} (he : e.isU8 = false) : pWhole (pops env cfg (n + 1)) (.small m e) d tag vals = .ret v c ↔
    ∃ vs, pEach (pops env cfg n) e d tag vals = .ret vs c ∧ v = .seq vs ∧ vals.length = m := whole_arr (large := false) he
theorem whole_large {m : Nat} {e : Ty} (he : e.isU8 = false) : pWhole (pops env cfg (n + 1)) (.large m e) d tag vals = .ret v c ↔
    ∃ vs, pEach (pops env cfg n) e d tag vals = .ret vs c ∧ v = .seq vs ∧ vals.length = m := whole_arr (large := true) he

theorem whole_bytes : pWhole (pops env cfg (n + 1)) (.vec u8) d tag vals = .ret v c ↔ ∃ data, vals = [.blob data] ∧ v = .ofBytes data ∧ c = ⟨0, data.length⟩ := by
  constructor
  · intro h
    obtain ⟨a, c1, c2, g1, g2, rfl⟩ := PM.bind_eq_ret h
    match vals with
    | [] =>
      obtain ⟨rfl, rfl⟩ := PM.ret_inj g1
      exact absurd g2 PM.fail_ne_ret
    | val :: vals =>
      obtain ⟨a1, c3, c4, g3, g4, rfl⟩ := PM.bind_eq_ret g1
      have g3 : PM.bind (readVec val) (fun vs => PM.ret (⟨true, vs⟩ : Acc)) = PM.ret a1 c3 := g3
      obtain ⟨vs, c5, c6, g5, g6, rfl⟩ := PM.bind_eq_ret g3
      obtain ⟨rfl, rfl⟩ := PM.ret_inj g6
      obtain ⟨data, rfl, rfl, rfl⟩ := readVec_iff.1 g5
      match vals with
      | [] =>
        obtain ⟨rfl, rfl⟩ := PM.ret_inj g4
        obtain ⟨rfl, rfl⟩ := PM.ret_inj (show PM.ret (V.seq _) .zero = _ from g2)
        exact ⟨data, rfl, rfl, by simp⟩
      | w :: vals => exact absurd g4 PM.fail_ne_ret
  · rintro ⟨data, rfl, rfl, rfl⟩; rfl

theorem whole_smallBytes {m : Nat} : pWhole (pops env cfg (n + 1)) (.small m u8) d tag vals = .ret v c ↔
    (∃ data, vals = [.blob data] ∧ data.length = m ∧ v = .ofBytes data ∧ c = .zero) ∨ (m = 0 ∧ vals = [] ∧ v = .seq [] ∧ c = .zero) := by
  constructor
  · intro h
    obtain ⟨a, c1, c2, g1, g2, rfl⟩ := PM.bind_eq_ret h
    match vals with
    | [] =>
      obtain ⟨rfl, rfl⟩ := PM.ret_inj g1
      rw [pops_finish] at g2
      simp only [pFinish, Acc.init, Bool.false_eq_true, if_false, List.length_nil, if_true] at g2
      split at g2
      · exact absurd g2 PM.fail_ne_ret
      · obtain ⟨rfl, rfl⟩ := PM.ret_inj g2
        exact .inr ⟨by omega, rfl, rfl, rfl⟩
    | val :: vals =>
      obtain ⟨a1, c3, c4, g3, g4, rfl⟩ := PM.bind_eq_ret g1
      have g3 : PM.bind (readArr m val) (fun vs => PM.ret (⟨true, vs⟩ : Acc)) = PM.ret a1 c3 := g3
      obtain ⟨vs, c5, c6, g5, g6, rfl⟩ := PM.bind_eq_ret g3
      obtain ⟨rfl, rfl⟩ := PM.ret_inj g6
      obtain ⟨data, rfl, rfl, rfl, rfl⟩ := readArr_iff.1 g5
      match vals with
      | [] =>
        obtain ⟨rfl, rfl⟩ := PM.ret_inj g4
        obtain ⟨rfl, rfl⟩ := PM.ret_inj (show PM.ret (V.seq _) .zero = _ from g2)
        exact .inl ⟨data, rfl, rfl, rfl, by simp⟩
      | w :: vals => exact absurd g4 PM.fail_ne_ret
  · rintro (⟨data, rfl, rfl, rfl, rfl⟩ | ⟨rfl, rfl, rfl, rfl⟩)
    · unfold pWhole
      have : (pops env cfg (n + 1)).field (.small data.length u8) .init d tag (.blob data) = .ret ⟨true, data.map fun b => .num b.toNat⟩ := by
        show PM.bind (readArr data.length (.blob data)) (fun vs => PM.ret (⟨true, vs⟩ : Acc)) = _
        rw [readArr_iff.2 ⟨data, rfl, rfl, rfl, rfl⟩]; rfl
      simp only [pAccum, this, PM.bind_ret]
      rfl
    · rfl

theorem whole_largeBytes {m : Nat} : pWhole (pops env cfg (n + 1)) (.large m u8) d tag vals = .ret v c ↔
    (∃ data, vals = [.blob data] ∧ data.length = m ∧ v = .ofBytes data ∧ c = .zero) ∨ (m = 0 ∧ (∀ x ∈ vals, x = .blob []) ∧ v = .seq [] ∧ c = .zero) := by
  have hf : ∀ a val, (pops env cfg (n + 1)).field (.large m u8) a d tag val =
    PM.bind (readArr m val) fun vs => if a.items.length ≠ 0 then .fail (.tooMany 1) else .ret ⟨false, vs⟩ := fun _ _ => rfl
  -- an accumulator that is not empty takes no more
  have hno : ∀ (a : Acc), a.items.length ≠ 0 → ∀ w vals a' c, pAccum (pops env cfg (n + 1)) (.large m u8) d tag a (w :: vals) ≠ .ret a' c := by
    intro a ha w vals a' c h
    simp only [pAccum, hf] at h
    obtain ⟨a1, c3, c4, g3, g4, rfl⟩ := PM.bind_eq_ret h
    obtain ⟨vs, c5, c6, g5, g6, rfl⟩ := PM.bind_eq_ret g3
    rw [if_pos ha] at g6
    exact absurd g6 PM.fail_ne_ret
  have hempty : m = 0 → ∀ (vals : List Val) a' c, pAccum (pops env cfg (n + 1)) (.large m u8) d tag .init vals = .ret a' c ↔ (∀ x ∈ vals, x = .blob []) ∧ a' = .init ∧ c = .zero := by
    intro hm vals
    induction vals with
    | nil =>
      intro a' c
      simp only [pAccum, ret_eq]
      simp [eq_comm]
    | cons w vals ih =>
      intro a' c
      constructor
      · intro h
        simp only [pAccum, hf] at h
        obtain ⟨a1, c3, c4, g3, g4, rfl⟩ := PM.bind_eq_ret h
        obtain ⟨vs, c5, c6, g5, g6, rfl⟩ := PM.bind_eq_ret g3
        obtain ⟨data, rfl, h2, rfl, rfl⟩ := readArr_iff.1 g5
        have : data = [] := List.length_eq_zero_iff.1 (by omega)
        subst this
        rw [if_neg (by simp [Acc.init])] at g6
        obtain ⟨rfl, rfl⟩ := PM.ret_inj g6
        obtain ⟨h3, rfl, rfl⟩ := (ih _ _).1 g4
        exact ⟨by intro x hx; cases hx; rfl; exact h3 _ ‹_›, rfl, rfl⟩
      · rintro ⟨h, rfl, rfl⟩
        have hw := h w (.head _)
        subst hw
        have g := (ih .init .zero).2 ⟨fun x hx => h x (.tail _ hx), rfl, rfl⟩
        simp only [pAccum, hf]
        rw [readArr_iff.2 ⟨[], rfl, by rw [hm]; rfl, rfl, rfl⟩]
        simp only [PM.bind_ret]
        rw [if_neg (by simp [Acc.init])]
        simp only [PM.bind_ret]
        exact g
  constructor
  · intro h
    obtain ⟨a, c1, c2, g1, g2, rfl⟩ := PM.bind_eq_ret h
    by_cases hm : m = 0
    · obtain ⟨h1, rfl, rfl⟩ := (hempty hm _ _ _).1 g1
      subst hm
      have g2 : PM.ret (V.seq []) .zero = PM.ret v c2 := g2
      obtain ⟨rfl, rfl⟩ := PM.ret_inj g2
      exact .inr ⟨rfl, h1, rfl, rfl⟩
    · match vals with
      | [] =>
        obtain ⟨rfl, rfl⟩ := PM.ret_inj g1
        rw [pops_finish] at g2
        simp only [pFinish, Acc.init, List.length_nil, if_true] at g2
        rw [if_pos (by omega)] at g2
        exact absurd g2 PM.fail_ne_ret
      | val :: vals =>
        simp only [pAccum, hf] at g1
        obtain ⟨a1, c3, c4, g3, g4, rfl⟩ := PM.bind_eq_ret g1
        obtain ⟨vs, c5, c6, g5, g6, rfl⟩ := PM.bind_eq_ret g3
        rw [if_neg (by simp [Acc.init])] at g6
        obtain ⟨rfl, rfl⟩ := PM.ret_inj g6
        obtain ⟨data, rfl, h2, rfl, rfl⟩ := readArr_iff.1 g5
        match vals with
        | [] =>
          obtain ⟨rfl, rfl⟩ := PM.ret_inj g4
          rw [pops_finish] at g2
          simp only [pFinish, List.length_map] at g2
          rw [if_neg (by omega)] at g2
          obtain ⟨rfl, rfl⟩ := PM.ret_inj g2
          exact .inl ⟨data, rfl, h2, rfl, by simp⟩
        | w :: vals => exact absurd g4 (hno _ (by simp only [List.length_map]; omega) _ _ _ _)
  · rintro (⟨data, rfl, rfl, rfl, rfl⟩ | ⟨rfl, h, rfl, rfl⟩)
    · unfold pWhole
      simp only [pAccum, hf]
      rw [readArr_iff.2 ⟨data, rfl, rfl, rfl, rfl⟩]
      simp only [PM.bind_ret]
      rw [if_neg (by simp [Acc.init])]
      simp only [PM.bind_ret]
      rw [pops_finish]
      simp only [pFinish, List.length_map]
      rw [if_neg (by omega)]
      rfl
    · unfold pWhole
      rw [(hempty rfl vals _ _).2 ⟨h, rfl, rfl⟩]
      rfl

end Fourleaf
