import Verif.RoundTrip
import Verif.TreeMono

/-! # Reading a struct field by field

The loop over the fields of a struct handles them in the order of the message. Here: the outcome is the same as if each declared field was
read on its own, from its occurrences in the message. -/

namespace Fourleaf
open Spec

/-- Success in the same cases, with the same value and the same cost. -/
def PM.Same {α : Type} (m m' : PM α) : Prop := ∀ a c, m = .ret a c ↔ m' = .ret a c

namespace PM.Same
variable {α β γ : Type}
theorem refl (m : PM α) : Same m m := fun _ _ => .rfl
theorem symm {m m' : PM α} (h : Same m m') : Same m' m := fun a c => (h a c).symm
theorem trans {m m' m'' : PM α} (h : Same m m') (h' : Same m' m'') : Same m m'' := fun a c => (h a c).trans (h' a c)
theorem of_eq {m m' : PM α} (h : m = m') : Same m m' := h ▸ refl m
theorem bind {m m' : PM α} {f f' : α → PM β} (h : Same m m') (hf : ∀ a, Same (f a) (f' a)) : Same (PM.bind m f) (PM.bind m' f') := by
  intro b c
  constructor
  · intro h1
    obtain ⟨a, c1, c2, e1, e2, rfl⟩ := PM.bind_eq_ret h1
    rw [(h a c1).1 e1]
    exact PM.bind_retc ((hf a b c2).1 e2)
  · intro h1
    obtain ⟨a, c1, c2, e1, e2, rfl⟩ := PM.bind_eq_ret h1
    rw [(h a c1).2 e1]
    exact PM.bind_retc ((hf a b c2).2 e2)
theorem bindr {m : PM α} {f f' : α → PM β} (hf : ∀ a, Same (f a) (f' a)) : Same (PM.bind m f) (PM.bind m f') := bind (.refl m) hf
theorem bindl {m m' : PM α} {f : α → PM β} (h : Same m m') : Same (PM.bind m f) (PM.bind m' f) := bind h fun _ => .refl _
/-- Two independent steps. -/
theorem comm (m : PM α) (m' : PM β) (f : α → β → PM γ) : Same (PM.bind m fun a => PM.bind m' fun b => f a b) (PM.bind m' fun b => PM.bind m fun a => f a b) := by
  intro x c
  constructor
  · intro h1
    obtain ⟨a, c1, c2, e1, h2, rfl⟩ := PM.bind_eq_ret h1
    obtain ⟨b, c3, c4, e3, e4, rfl⟩ := PM.bind_eq_ret h2
    rw [e3, PM.bind_retc (a := b) (c := c3) (c' := c1 + c4) (b := x), ← Stats.add_assoc, ← Stats.add_assoc, Stats.add_comm c3]
    rw [e1]; exact PM.bind_retc e4
  · intro h1
    obtain ⟨b, c1, c2, e1, h2, rfl⟩ := PM.bind_eq_ret h1
    obtain ⟨a, c3, c4, e3, e4, rfl⟩ := PM.bind_eq_ret h2
    rw [e3, PM.bind_retc (a := a) (c := c3) (c' := c1 + c4) (b := x), ← Stats.add_assoc, ← Stats.add_assoc, Stats.add_comm c3]
    rw [e1]; exact PM.bind_retc e4
/-- Two failures. -/
theorem fails {k k' : Kind} {c c' : Stats} : Same (PM.fail k c : PM α) (PM.fail k' c') := fun _ _ => ⟨fun h => absurd h PM.fail_ne_ret, fun h => absurd h PM.fail_ne_ret⟩
/-- A sequence with a step that fails. -/
theorem bindFails {m : PM α} {f : α → PM β} {k : Kind} {c : Stats} (hf : ∀ a, Same (f a) (.fail k c)) : Same (PM.bind m f) (.fail k c) := by
  intro b c
  refine ⟨fun h => ?_, fun h => absurd h PM.fail_ne_ret⟩
  obtain ⟨a, c1, c2, -, e2, -⟩ := PM.bind_eq_ret h
  exact absurd ((hf a b c2).1 e2) PM.fail_ne_ret
end PM.Same

/-- The values of the occurrences of a tag. -/
def occ (tag : Byte) (l : Fields) : List Val := l.filterMap fun x => if x.1 = tag then some x.2 else none

/-- The fields whose tag is not declared. -/
def unknowns (fs : List FieldDecl) (l : Fields) : Fields := l.filter fun x => !fs.any (·.tag = x.1)

theorem occ_cons_same {tag : Byte} {v : Val} {l : Fields} : occ tag ((tag, v) :: l) = v :: occ tag l := by simp [occ]
theorem occ_cons_other {tag g : Byte} {v : Val} {l : Fields} (h : g ≠ tag) : occ tag ((g, v) :: l) = occ tag l := by simp [occ, h]

/-- The declared fields one after the other, each from its occurrences. -/
def pEachField (o : POps) (d : Nat) (accs : Nat → Acc) (l : Fields) : Nat → List FieldDecl → PM (List V)
  | _, [] => .ret []
  | i, x :: xs =>
    PM.bind (pAccum o x.ty d x.tag (accs i) (occ x.tag l)) fun a =>
    PM.bind (o.finish x.ty a d) fun v =>
    PM.bind (pEachField o d accs l (i + 1) xs) fun vs => .ret (v :: vs)

/-- The unknown fields. -/
def pUnknowns (cfg : Config) (o : POps) (unk : Option Bool) (d : Nat) : Acc → Fields → PM Acc
  | u, [] => .ret u
  | u, (tag, v) :: l =>
    match unk with
    | some zc => PM.bind (o.field (.unknownFields zc) u d tag v) fun u' => pUnknowns cfg o unk d u' l
    | none => if cfg.ignoreUnknownFields then pUnknowns cfg o unk d u l else .fail (.unknownField tag 0)

theorem pEachField_other (o : POps) (d : Nat) (accs : Nat → Acc) {tag : Byte} (v : Val) (l : Fields) : ∀ (fs : List FieldDecl) (i : Nat), (∀ x ∈ fs, x.tag ≠ tag) →
    pEachField o d accs ((tag, v) :: l) i fs = pEachField o d accs l i fs
  | [], _, _ => rfl
  | x :: xs, i, h => by
    simp only [pEachField, occ_cons_other (h x (.head _)).symm, pEachField_other o d accs v l xs (i + 1) fun y hy => h y (.tail _ hy)]

theorem pEachField_upd (o : POps) (d : Nat) (accs : Nat → Acc) (j : Nat) (a : Acc) (l : Fields) : ∀ (fs : List FieldDecl) (i : Nat), j < i →
    pEachField o d (upd accs j a) l i fs = pEachField o d accs l i fs
  | [], _, _ => rfl
  | x :: xs, i, h => by
    have : upd accs j a i = accs i := by simp only [upd]; rw [if_neg (by omega)]
    simp only [pEachField, this, pEachField_upd o d accs j a l xs (i + 1) (by omega)]

/-- The first occurrence of a field can be handled first. -/
theorem pEachField_cons (o : POps) (d : Nat) (v : Val) (l : Fields) : ∀ (fs : List FieldDecl) (accs : Nat → Acc) (i j : Nat) (x : FieldDecl),
    fs[j]? = some x → (fs.map (·.tag)).Nodup →
    PM.Same (pEachField o d accs ((x.tag, v) :: l) i fs) (PM.bind (o.field x.ty (accs (i + j)) d x.tag v) fun a => pEachField o d (upd accs (i + j) a) l i fs)
  | [], _, _, _, _, h, _ => by simp at h
  | y :: ys, accs, i, 0, x, h, hn => by
    simp only [List.getElem?_cons_zero, Option.some.injEq] at h
    subst h
    have hne : ∀ z ∈ ys, z.tag ≠ y.tag := fun z hz he => by
      simp only [List.map_cons, List.nodup_cons] at hn
      exact hn.1 (he ▸ List.mem_map_of_mem hz)
    simp only [pEachField, occ_cons_same, pAccum, PM.bind_assoc, Nat.add_zero, pEachField_other o d accs v l ys (i + 1) hne, upd_same]
    exact .bindr fun a => .of_eq (by simp only [pEachField_upd o d accs i a l ys (i + 1) (by omega)])
  | y :: ys, accs, i, j + 1, x, h, hn => by
    simp only [List.getElem?_cons_succ] at h
    simp only [List.map_cons, List.nodup_cons] at hn
    have hne : x.tag ≠ y.tag := fun he => hn.1 (he ▸ List.mem_map_of_mem (List.mem_of_getElem? h))
    have ih := pEachField_cons o d v l ys accs (i + 1) j x h hn.2
    have hu : ∀ a, upd accs (i + (j + 1)) a i = accs i := fun a => by simp only [upd]; rw [if_neg (by omega)]
    have hi : i + 1 + j = i + (j + 1) := by omega
    rw [hi] at ih
    simp only [pEachField, occ_cons_other hne, hu]
    refine .trans (.bindr fun a => .trans (.bindr fun w => .trans (.bindl ih) (.of_eq (PM.bind_assoc ..))) (.comm _ _ _)) (.comm _ _ _)

/-- The loop over the fields followed by `finish` for each. -/
theorem loop_same {cfg : Config} (o : POps) {fs : List FieldDecl} (hn : (fs.map (·.tag)).Nodup) (unk : Option Bool) {d : Nat} (hd' : d < cfg.recursionLimit ∨ (fs = [] ∧ unk = none)) {β : Type} (k : List V → Acc → PM β) :
    ∀ (l : Fields) (st : LoopSt),
    PM.Same (PM.bind (pLoop cfg o fs unk d st l) fun st' => PM.bind (pFinishAll cfg o d st' 0 fs) fun vs => k vs st'.unk)
      (PM.bind (pEachField o (d + 1) st.accs l 0 fs) fun vs => PM.bind (pUnknowns cfg o unk (d + 1) st.unk (unknowns fs l)) fun u => k vs u)
  | [], st => by
    have h : pFinishAll cfg o d st 0 fs = pEachField o (d + 1) st.accs [] 0 fs := by
      rcases hd' with hd | ⟨rfl, rfl⟩
      rotate_left
      · rfl
      generalize 0 = i
      clear hn
      induction fs generalizing i with
      | nil => rfl
      | cons x xs ih => simp only [pFinishAll, pEachField, pPush_ok hd, PM.bind_ret, ih]; simp [occ, pAccum]
    simp only [pLoop, PM.bind_ret, h, unknowns, List.filter_nil, pUnknowns]
    exact .refl _
  | (tag, v) :: l, st => by
    have ih := loop_same o hn unk hd' k l
    simp only [pLoop, PM.bind_assoc]
    cases hf : fs.findIdx? (fun x => x.tag = tag) with
    | some i =>
      have hf' := hf
      rw [List.findIdx?_eq_some_iff_getElem] at hf
      obtain ⟨hi, ht, -⟩ := hf
      have hx : fs[i]? = some fs[i] := List.getElem?_eq_getElem hi
      simp only [decide_eq_true_eq] at ht
      have hd : d < cfg.recursionLimit := hd'.resolve_right fun h => by rw [h.1] at hi; simp at hi
      have hku : unknowns fs ((tag, v) :: l) = unknowns fs l := by
        have : fs.any (fun x => decide (x.tag = tag)) = true := List.any_eq_true.2 ⟨_, List.getElem_mem hi, by simpa using ht⟩
        simp only [unknowns, List.filter_cons, this]; rfl
      simp only [pFieldStep, hf', hx, pPush_ok hd, PM.bind_ret, PM.bind_assoc, hku]
      have hc := pEachField_cons o (d + 1) v l fs st.accs 0 i fs[i] hx hn
      rw [ht, Nat.zero_add] at hc
      refine .trans (.bindr fun a => ih _) (.trans (.symm (.of_eq (PM.bind_assoc ..))) (.bindl hc.symm))
    | none =>
      rw [List.findIdx?_eq_none_iff] at hf
      simp only [decide_eq_false_iff_not] at hf
      have hku : unknowns fs ((tag, v) :: l) = (tag, v) :: unknowns fs l := by
        have : fs.any (fun x => decide (x.tag = tag)) = false := by
          rw [List.any_eq_false]; intro x hx; simpa using hf x hx
        simp only [unknowns, List.filter_cons, this]; rfl
      have hf' : fs.findIdx? (fun x => x.tag = tag) = none := by
        rw [List.findIdx?_eq_none_iff]; simpa using hf
      simp only [pFieldStep, hf', hku, pEachField_other o (d + 1) st.accs v l fs 0 hf, pUnknowns]
      cases unk with
      | some zc =>
        have hd : d < cfg.recursionLimit := hd'.resolve_right fun h => by cases h.2
        simp only [pPush_ok hd, PM.bind_ret, PM.bind_assoc]
        exact .trans (.bindr fun a => ih _) (.comm (o.field (.unknownFields zc) st.unk (d + 1) tag v) (pEachField o (d + 1) st.accs l 0 fs) fun a vs => PM.bind (pUnknowns cfg o (some zc) (d + 1) a (unknowns fs l)) fun u => k vs u)
      | none =>
        simp only
        split
        · rw [PM.bind_ret]; exact ih _
        · exact .symm (.bindFails fun _ => .refl _)

end Fourleaf
