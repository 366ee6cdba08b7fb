import Verif.Meter

/-! # How often deserialisation calls the underlying reader -/

namespace Fourleaf
open Spec

/-- Started with `k` calls spent in vain: at most one call is so spent on success, two otherwise; all others bring bytes. -/
structure Cheap {α : Type} (s : Stream) (k : Nat) (r : Res (Stop DErr) (PSt Stats) α) : Prop where
  ok : ∀ a s' u', r = .ok a (s', u') → ∃ k', Spent k' s' ∧ meter s + k ≤ meter s' + k'
  err : ∀ e s' u', r = .err e (s', u') → meter s + k ≤ meter s' + 2

namespace Cheap
variable {α β : Type} {s : Stream} {u : Stats} {k : Nat} {c : Ctx}

theorem still {r : Res (Stop DErr) (PSt Stats) α} (hk : Spent k s) (h : r.state.1 = s) : Cheap s k r := by
  refine ⟨fun a s' u' hr => ?_, fun e s' u' hr => ?_⟩
  · rw [hr] at h
    cases h
    exact ⟨k, hk, Nat.le_refl _⟩
  · rw [hr] at h
    cases h
    have := hk.le
    simp only [Res.state_err]
    omega

theorem ret {a : α} (hk : Spent k s) : Cheap s k ((.ret a : P α).run (s, u)) := still hk rfl
theorem fail {κ : Kind} (hk : Spent k s) : Cheap s k ((c.fail κ : P α).run (s, u)) := still hk rfl

theorem bind {p : P α} {f : α → P β} (hi : Inv s) (h : Cheap s k (p.run (s, u)))
    (hf : ∀ a s' u' k', Inv s' → Spent k' s' → Cheap s' k' ((f a).run (s', u'))) : Cheap s k ((Prog.bind p f).run (s, u)) := by
  have hs := Prog.run_safe p (s, u) hi
  simp only [Prog.run]
  cases hp : p.run (s, u) with
  | err e st => exact ⟨fun a s' u' h' => (by cases h'), fun e' s' u' h' => (by cases h'; exact h.err _ _ _ hp)⟩
  | ok a st =>
    obtain ⟨s', u'⟩ := st
    rw [hp] at hs
    obtain ⟨k', h1, h2⟩ := h.ok _ _ _ hp
    have hg := hf a s' u' k' hs.step.inv h1
    refine ⟨fun b s2 u2 h' => ?_, fun e s2 u2 h' => ?_⟩
    · obtain ⟨k2, h3, h4⟩ := hg.ok b s2 u2 h'
      exact ⟨k2, h3, by omega⟩
    · have := hg.err e s2 u2 h'
      omega

theorem bind_still {p : P α} {f : α → P β} (hk : Spent k s) (h : (p.run (s, u)).state.1 = s)
    (hf : ∀ a u', Cheap s k ((f a).run (s, u'))) : Cheap s k ((Prog.bind p f).run (s, u)) := by
  simp only [Prog.run]
  cases hp : p.run (s, u) with
  | err e st => rw [hp] at h; exact still hk h
  | ok a st =>
    obtain ⟨s', u'⟩ := st
    rw [hp] at h
    cases h
    exact hf a u'

theorem call {o : Op α} (hk : Spent k s) (h : (∀ a s', o.exec s = .ok a s' → ∃ k', Spent k' s' ∧ meter s + k ≤ meter s' + k') ∧
    (∀ e s', o.exec s = .err e s' → meter s ≤ meter s' + 1)) : Cheap s k ((c.call o).run (s, u)) := by
  have hk := hk.le
  simp only [Ctx.call, Prog.run]
  cases ho : o.exec s with
  | ok a s' => exact ⟨fun _ _ _ h' => (by cases h'; exact h.1 _ _ ho), fun _ _ _ h' => (by cases h')⟩
  | err e s' =>
    simp only
    have := h.2 _ _ ho
    split <;> exact ⟨fun _ _ _ h' => (by cases h'), fun _ _ _ h' => (by cases h'; omega)⟩

end Cheap

theorem lift_still {α : Type} {c : Ctx} (x : Except Err α) (s : Stream) (u : Stats) : (((c.lift x : P α)).run (s, u)).state.1 = s := by
  cases x <;> rfl

theorem push_still {c : Ctx} {name : String} {p : Nat} (s : Stream) (u : Stats) : ((c.push name p).run (s, u)).state.1 = s := by
  unfold Ctx.push; split <;> rfl

theorem collect_still {c : Ctx} {n : Nat} (s : Stream) (u : Stats) : ((c.collect n).run (s, u)).state.1 = s := by
  simp only [Ctx.collect, Prog.run]
  split
  · rfl
  · split <;> rfl

theorem blob_still {c : Ctx} {n : Nat} (s : Stream) (u : Stats) : ((c.blob n).run (s, u)).state.1 = s := by
  simp only [Ctx.blob, Prog.run]
  split
  · rfl
  · split <;> rfl

theorem pos_still {c : Ctx} (s : Stream) (u : Stats) : ((c.call .pos).run (s, u)).state.1 = s := rfl

theorem remaining_still {c : Ctx} (s : Stream) (u : Stats) : ((c.call .remaining).run (s, u)).state.1 = s := by
  simp only [Ctx.call, Prog.run, Op.exec, onLiveBlob]
  cases hl : s.live <;> simp [Err.abnormal]

theorem slice_still {c : Ctx} (s : Stream) (u : Stats) : ((c.call .slice).run (s, u)).state.1 = s := by
  have : (Op.slice.exec s).state = s := by
    simp only [Op.exec, onLiveBlob]
    cases hl : s.live with
    | false => rfl
    | true =>
      simp only [if_true, blobSlice]
      cases hb : innerSlice s with
      | err e s' =>
        rw [M.bind_err hb]
        unfold innerSlice at hb
        split at hb <;> cases hb
        rfl
      | ok d s' =>
        rw [M.bind_ok hb]
        unfold innerSlice at hb
        split at hb <;> cases hb
        rw [M.bind_ok (M.get_apply s), M.ite_apply]
        split <;> rfl
  simp only [Ctx.call, Prog.run]
  cases h : Op.slice.exec s with
  | ok a s' => rw [h] at this; exact this
  | err e s' =>
    rw [h] at this
    simp only
    split <;> exact this

theorem unknownField_still {c : Ctx} {f : Field} (s : Stream) (u : Stats) : ((c.unknownField f).run (s, u)).state.1 = s := by
  unfold Ctx.unknownField; split <;> rfl

theorem construct_still {b : Body} {c : Ctx} {vs : List V} (s : Stream) (u : Stats) : ((construct b c vs).run (s, u)).state.1 = s := by
  unfold construct; split <;> rfl

theorem Cheap.skip {s : Stream} {u : Stats} {k : Nat} {c : Ctx} {f : Field} (hi : Inv s) (hk : Spent k s) : Cheap s k ((c.skip f).run (s, u)) := by
  unfold Ctx.skip
  split
  · exact .call hk (skipUpLoop_spent _ hi hk)
  · exact .call hk (skipUpLoop_spent _ hi hk)
  · exact .ret hk
  · exact .ret hk

theorem Spent.zero {s : Stream} : Spent 0 s := .inl rfl

theorem Cheap.readFully {s : Stream} {u : Stats} {c : Ctx} {n : Nat} (hi : Inv s) : Cheap s 0 ((c.call (.readFully n)).run (s, u)) := by
  refine .call .zero ?_
  simp only [Op.exec, onLiveBlob]
  cases hl : s.live with
  | false =>
    exact ⟨fun _ _ h => (by cases h), fun _ _ h => (by cases h; omega)⟩
  | true =>
    have := readFully_spent (max := n) hi hl
    exact this

theorem Cheap.ownedBlob {s : Stream} {u : Stats} {c : Ctx} {f : Field} (hi : Inv s) : Cheap s 0 ((ownedBlob c f).run (s, u)) :=
  .bind_still .zero (lift_still _ _ _) fun _ _ => .bind_still .zero (blob_still _ _) fun _ _ => .readFully hi

theorem Cheap.extSlice {s : Stream} {u : Stats} {c : Ctx} {f : Field} : Cheap s 0 ((extSlice c f).run (s, u)) :=
  .bind_still .zero (lift_still _ _ _) fun _ u1 => .still .zero (slice_still _ _)

theorem Cheap.vecConv {s : Stream} {u : Stats} {c : Ctx} {f : Field} (hi : Inv s) : Cheap s 0 ((vecConv c f).run (s, u)) :=
  .bind hi (.ownedBlob hi) fun _ _ _ _ _ hk => .ret hk

theorem Cheap.arrConv {s : Stream} {u : Stats} {c : Ctx} {n : Nat} {f : Field} (hi : Inv s) : Cheap s 0 ((arrConv n c f).run (s, u)) := by
  refine .bind_still .zero (lift_still _ _ _) fun _ u1 => .bind_still .zero (remaining_still _ _) fun r u2 => ?_
  split
  · exact .fail .zero
  · refine .bind hi (.readFully hi) fun d s' u' k' hi' hk' => ?_
    split
    · exact .fail hk'
    · exact .ret hk'

theorem Cheap.conv {s : Stream} {u : Stats} {c : Ctx} {f : Field} (p : Prim) (hi : Inv s) : Cheap s 0 ((p.conv c f).run (s, u)) := by
  cases p with
  | phantom | bool | int _ => exact .bind_still .zero (lift_still _ _ _) fun _ u1 => .ret .zero
  | char =>
    refine .bind_still .zero (lift_still _ _ _) fun _ u1 => ?_
    split
    · exact .ret .zero
    · exact .fail .zero
  | string =>
    refine .bind hi (.ownedBlob hi) fun d s' u' k' hi' hk' => ?_
    split
    · exact .ret hk'
    · exact .fail hk'
  | strRef =>
    refine .bind hi .extSlice fun d s' u' k' hi' hk' => ?_
    split
    · exact .ret hk'
    · exact .fail hk'
  | bytesRef => exact .bind hi .extSlice fun d s' u' k' hi' hk' => .ret hk'

theorem Cheap.discard {α β : Type} {s : Stream} {u : Stats} {k : Nat} {p : P β} {c : Ctx} {κ : Kind} (h : Cheap s k (p.run (s, u))) :
    Cheap s k ((discard p c κ : P α).run (s, u)) := by
  simp only [Fourleaf.discard, Prog.run]
  cases hp : p.run (s, u) with
  | ok a st =>
    obtain ⟨s', u'⟩ := st
    obtain ⟨k', h1, h2⟩ := h.ok _ _ _ hp
    have := h1.le
    exact ⟨fun _ _ _ h' => (by cases h'), fun _ _ _ h' => (by cases h'; omega)⟩
  | err e st =>
    obtain ⟨s', u'⟩ := st
    have := h.err _ _ _ hp
    cases e <;> exact ⟨fun _ _ _ h' => (by cases h'), fun _ _ _ h' => (by cases h'; exact this)⟩

/-- The methods are cheap. -/
structure COps (o : Ops) : Prop where
  body : ∀ t c s u k, Inv s → Spent k s → Cheap s k ((o.body t c).run (s, u))
  element : ∀ t c f s u, Inv s → Cheap s 0 ((o.element t c f).run (s, u))
  field : ∀ t a c f s u, Inv s → Cheap s 0 ((o.field t a c f).run (s, u))
  finish : ∀ t a c s u, ((o.finish t a c).run (s, u)).state.1 = s

section
variable {env : Env} {o : Ops} (H : COps o)
include H

theorem cheap_fieldStep {fs : List FieldDecl} {unk : Option Bool} {c : Ctx} {st : LoopSt} {f : Field} {s : Stream} {u : Stats} (hi : Inv s) :
    Cheap s 0 ((fieldStep o fs unk c st f).run (s, u)) := by
  unfold fieldStep
  split
  · split
    · exact .ret .zero
    · exact .bind_still .zero (push_still _ _) fun _ _ => .bind hi (H.field _ _ _ f s _ hi) fun _ _ _ _ _ hk => .ret hk
  · split
    · exact .bind_still .zero (push_still _ _) fun _ _ => .bind hi (H.field _ _ _ f s _ hi) fun _ _ _ _ _ hk => .ret hk
    · exact .bind_still .zero (unknownField_still _ _) fun _ _ => .bind hi (.skip hi .zero) fun _ _ _ _ _ hk => .ret hk

theorem cheap_fieldLoop {fs : List FieldDecl} {unk : Option Bool} {c : Ctx} {s : Stream} {u : Stats} {k : Nat} (hi : Inv s) (hk : Spent k s) :
    Cheap s k ((fieldLoop o fs unk c).run (s, u)) := by
  simp only [fieldLoop, Prog.run]
  generalize (s.inner.data.length - s.inner.pos + 2) = fuel
  generalize LoopSt.init = b
  induction fuel generalizing b s u k with
  | zero => exact .still hk rfl
  | succ fuel ih =>
    simp only [runLoop]
    have hn := nextField_spent hi hk
    have hs := (nextField_safe hi).1.step
    cases hq : nextField s with
    | err e s' =>
      simp only [pull, if_true, hq]
      have := hn.2 _ _ hq
      have := hk.le
      split <;> exact ⟨fun _ _ _ h' => (by cases h'), fun _ _ _ h' => (by cases h'; omega)⟩
    | ok o' s' =>
      rw [hq] at hs
      cases o' with
      | none =>
        simp only [pull, if_true, hq]
        refine ⟨fun _ _ _ h' => ?_, fun _ _ _ h' => (by cases h')⟩
        cases h'
        rcases hn.1 _ _ hq with h | ⟨-, h⟩
        · exact ⟨0, .zero, h⟩
        · exact h
      | some f =>
        simp only [pull, if_true, hq]
        have hm : meter s + k ≤ meter s' := by
          rcases hn.1 _ _ hq with h | ⟨h, -⟩
          · exact h
          · cases h
        have hb : Cheap s' 0 ((Prog.bind (fieldStep o fs unk c b f) fun st' => .ret (.inl st') : P (LoopSt ⊕ LoopSt)).run (s', u)) :=
          .bind hs.inv (cheap_fieldStep H hs.inv) fun _ _ _ _ _ hk => .ret hk
        have hsafe := Prog.run_safe (Prog.bind (fieldStep o fs unk c b f) fun st' => .ret (.inl st') : P (LoopSt ⊕ LoopSt)) (s', u) hs.inv
        cases hr : (Prog.bind (fieldStep o fs unk c b f) fun st' => .ret (.inl st') : P (LoopSt ⊕ LoopSt)).run (s', u) with
        | err e st2 =>
          obtain ⟨s2, u2⟩ := st2
          have := hb.err _ _ _ hr
          exact ⟨fun _ _ _ h' => (by cases h'), fun _ _ _ h' => (by cases h'; omega)⟩
        | ok r st2 =>
          obtain ⟨s2, u2⟩ := st2
          rw [hr] at hsafe
          obtain ⟨k2, h1, h2⟩ := hb.ok _ _ _ hr
          cases r with
          | inl st' =>
            have := ih (s := s2) (u := u2) (b := st') hsafe.step.inv h1
            refine ⟨fun a s3 u3 h' => ?_, fun e s3 u3 h' => ?_⟩
            · obtain ⟨k3, h3, h4⟩ := this.ok a s3 u3 h'
              exact ⟨k3, h3, by omega⟩
            · have := this.err e s3 u3 h'
              omega
          | inr a =>
            exact ⟨fun _ _ _ h' => (by cases h'; exact ⟨k2, h1, by omega⟩), fun _ _ _ h' => (by cases h')⟩

theorem still_finishAll {c : Ctx} {st : LoopSt} : ∀ (fs : List FieldDecl) (i : Nat) (s : Stream) (u : Stats), ((finishAll o c st i fs).run (s, u)).state.1 = s
  | [], i, s, u => rfl
  | x :: xs, i, s, u => by
    have hb : ∀ {α β : Type} (p : P α) (f : α → P β) (u : Stats), (p.run (s, u)).state.1 = s → (∀ a u', ((f a).run (s, u')).state.1 = s) →
        ((Prog.bind p f).run (s, u)).state.1 = s := by
      intro α β p f u h hf
      simp only [Prog.run]
      cases hp : p.run (s, u) with
      | err e st => rw [hp] at h; exact h
      | ok a st =>
        obtain ⟨s', u'⟩ := st
        rw [hp] at h
        cases h
        exact hf a u'
    exact hb _ _ _ (pos_still _ _) fun _ _ => hb _ _ _ (push_still _ _) fun _ _ => hb _ _ _ (H.finish _ _ _ _ _) fun _ _ =>
      hb _ _ _ (still_finishAll xs (i + 1) s _) fun _ _ => rfl

theorem cheap_structBody {fs : List FieldDecl} {c : Ctx} {s : Stream} {u : Stats} {k : Nat} (hi : Inv s) (hk : Spent k s) :
    Cheap s k ((structBody o fs c).run (s, u)) :=
  .bind hi (cheap_fieldLoop H hi hk) fun _ _ _ _ _ hk => .still hk (still_finishAll H _ _ _ _)

theorem cheap_defaultBody {t : Ty} {c : Ctx} {s : Stream} {u : Stats} {k : Nat} (hi : Inv s) (hk : Spent k s) :
    Cheap s k ((defaultBody o t c).run (s, u)) :=
  .bind hi (cheap_structBody H hi hk) fun _ _ _ _ _ hk => .ret hk

theorem cheap_macroBody {b : Body} {c : Ctx} {s : Stream} {u : Stats} {k : Nat} (hi : Inv s) (hk : Spent k s) :
    Cheap s k ((macroBody o b c).run (s, u)) := by
  unfold macroBody
  split
  · exact .bind hi (cheap_fieldLoop H hi hk) fun _ _ _ _ _ hk => .bind_still hk (still_finishAll H _ _ _ _) fun _ _ => .still hk (construct_still _ _)
  · exact .bind_still hk (pos_still _ _) fun _ _ => .bind_still hk (push_still _ _) fun _ _ => .bind hi (H.body _ _ _ _ _ hi hk) fun _ _ _ _ _ hk =>
      .bind_still hk (still_finishAll H _ _ _ _) fun _ _ => .still hk (construct_still _ _)
  · exact .bind hi (cheap_fieldLoop H hi hk) fun _ _ _ _ _ hk => .bind_still hk (still_finishAll H _ _ _ _) fun _ _ =>
      .bind_still hk (pos_still _ _) fun _ _ => .bind_still hk (push_still _ _) fun _ _ => .bind_still hk (H.finish _ _ _ _ _) fun _ _ =>
      .still hk (construct_still _ _)

theorem cheap_bodyStep (t : Ty) (c : Ctx) (s : Stream) (u : Stats) (k : Nat) (hi : Inv s) (hk : Spent k s) :
    Cheap s k ((bodyStep env o t c).run (s, u)) := by
  cases t with
  | boxed t => exact H.body t c s u k hi hk
  | tuple ts => exact .bind hi (cheap_structBody H hi hk) fun _ _ _ _ _ hk => .ret hk
  | unknownFields zc => exact .bind hi (cheap_fieldLoop H hi hk) fun _ _ _ _ _ hk => .still hk (H.finish _ _ _ _ _)
  | named i =>
    simp only [bodyStep]
    split
    · exact .bind hi (cheap_macroBody H hi hk) fun _ _ _ _ _ hk => .ret hk
    · exact cheap_defaultBody H hi hk
  | prim _ | small _ _ | large _ _ | vec _ | coll _ _ | option _ | map _ _ | unknownField _ => exact cheap_defaultBody H hi hk

theorem cheap_viaStruct {t : Ty} {c : Ctx} {f : Field} {s : Stream} {u : Stats} (hi : Inv s) : Cheap s 0 ((viaStruct o t c f).run (s, u)) :=
  .bind_still .zero (lift_still _ _ _) fun _ _ => H.body t c s _ 0 hi .zero

theorem cheap_enumElement {vs : List (UInt64 × Body)} {ca : Option Body} {c : Ctx} {f : Field} {s : Stream} {u : Stats} (hi : Inv s) :
    Cheap s 0 ((enumElement o vs ca c f).run (s, u)) := by
  refine .bind_still .zero (lift_still _ _ _) fun _ _ => ?_
  split
  · exact .bind hi (cheap_macroBody H hi .zero) fun _ _ _ _ _ hk => .ret hk
  · split
    · exact .bind hi (cheap_macroBody H hi .zero) fun _ _ _ _ _ hk => .ret hk
    · exact .fail .zero

theorem cheap_elementStep (t : Ty) (c : Ctx) (f : Field) (s : Stream) (u : Stats) (hi : Inv s) : Cheap s 0 ((elementStep env o t c f).run (s, u)) := by
  have hdef : ∀ t, Cheap s 0 ((defaultElement o t c f).run (s, u)) := fun t =>
    .bind hi (H.field t .init c f s u hi) fun _ _ _ _ _ hk => .still hk (H.finish _ _ _ _ _)
  cases t with
  | prim p => exact hdef _
  | unknownField zc => exact hdef _
  | boxed t => exact H.element t c f s u hi
  | small n e | large n e =>
    simp only [elementStep]
    split
    · exact .bind hi (.arrConv hi) fun _ _ _ _ _ hk => .ret hk
    · exact cheap_viaStruct H hi
  | vec e =>
    simp only [elementStep]
    split
    · exact .bind hi (.vecConv hi) fun _ _ _ _ _ hk => .ret hk
    · exact cheap_viaStruct H hi
  | coll _ _ | option _ | map _ _ | tuple _ | unknownFields _ => exact cheap_viaStruct H hi
  | named i =>
    simp only [elementStep]
    split
    · split
      · exact .bind_still .zero (push_still _ _) fun _ _ => .bind hi (H.element _ _ f s _ hi) fun _ _ _ _ _ hk =>
          .bind_still hk (construct_still _ _) fun _ _ => .ret hk
      · exact cheap_viaStruct H hi
    · exact cheap_enumElement H hi

theorem cheap_elem1 {t : Ty} {c : Ctx} {f : Field} {s : Stream} {u : Stats} (hi : Inv s) {g : V → Acc} :
    Cheap s 0 ((Prog.bind (o.element t c f) fun v => .ret (g v) : P Acc).run (s, u)) :=
  .bind hi (H.element t c f s u hi) fun _ _ _ _ _ hk => .ret hk

theorem cheap_collected {t : Ty} {c : Ctx} {f : Field} {s : Stream} {u : Stats} (hi : Inv s) {g : V → Acc} :
    Cheap s 0 ((Prog.bind (c.collect 1) fun _ => Prog.bind (o.element t c f) fun v => .ret (g v) : P Acc).run (s, u)) :=
  .bind_still .zero (collect_still _ _) fun _ _ => cheap_elem1 H hi

theorem cheap_fieldMeth (t : Ty) (a : Acc) (c : Ctx) (f : Field) (s : Stream) (u : Stats) (hi : Inv s) : Cheap s 0 ((fieldMeth o t a c f).run (s, u)) := by
  cases t with
  | prim p =>
    simp only [fieldMeth]
    split
    · exact .fail .zero
    · exact .bind hi (.conv p hi) fun _ _ _ _ _ hk => .ret hk
  | boxed t => exact H.field t a c f s u hi
  | small n e =>
    simp only [fieldMeth]
    split
    · split
      · exact .discard (.arrConv hi)
      · exact .bind hi (.arrConv hi) fun _ _ _ _ _ hk => .ret hk
    · split
      · exact .fail .zero
      · split
        · exact .fail .zero
        · exact cheap_elem1 H hi
  | large n e =>
    simp only [fieldMeth]
    split
    · refine .bind hi (.arrConv hi) fun _ _ _ _ _ hk => ?_
      split
      · exact .fail hk
      · exact .ret hk
    · split
      · exact .fail .zero
      · exact cheap_elem1 H hi
  | tuple ts | named i | option e =>
    simp only [fieldMeth]
    split
    · exact .fail .zero
    · exact cheap_elem1 H hi
  | vec e =>
    simp only [fieldMeth]
    split
    · split
      · exact .discard (.vecConv hi)
      · exact .bind hi (.vecConv hi) fun _ _ _ _ _ hk => .ret hk
    · exact cheap_collected H hi
  | coll k e => exact cheap_collected H hi
  | map tk tv => exact cheap_collected H hi
  | unknownFields zc => exact cheap_collected H hi
  | unknownField zc =>
    simp only [fieldMeth]
    split
    · exact .fail .zero
    · split
      · exact .ret .zero
      · exact cheap_elem1 H hi
      · exact .bind hi (H.body (.unknownFields zc) c s u 0 hi .zero) fun _ _ _ _ _ hk => .ret hk
      · exact .bind hi (H.body (.unknownFields zc) c s u 0 hi .zero) fun _ _ _ _ _ hk => .ret hk

theorem still_finishMeth (t : Ty) (a : Acc) (c : Ctx) (s : Stream) (u : Stats) : ((finishMeth o t a c).run (s, u)).state.1 = s := by
  cases t with
  | boxed t => exact H.finish t a c s u
  | prim _ | tuple _ | named _ | unknownField _ =>
    simp only [finishMeth]
    split <;> rfl
  | small n e =>
    simp only [finishMeth]
    split
    · rfl
    · split
      · split <;> rfl
      · rfl
  | large n e =>
    simp only [finishMeth]
    split
    · split <;> rfl
    · rfl
  | vec e =>
    simp only [finishMeth]
    split <;> rfl
  | coll k e | option e | map tk tv | unknownFields zc => rfl
end

theorem ops_cheap (env : Env) : ∀ n, COps (ops env n)
  | 0 =>
    { body := fun _ _ _ _ _ _ hk => .fail hk
      element := fun _ _ _ _ _ _ => .fail .zero
      field := fun _ _ _ _ _ _ _ => .fail .zero
      finish := fun _ _ _ _ _ => rfl }
  | n + 1 =>
    { body := cheap_bodyStep (ops_cheap env n)
      element := cheap_elementStep (ops_cheap env n)
      field := cheap_fieldMeth (ops_cheap env n)
      finish := still_finishMeth (ops_cheap env n) }

theorem deserialize_cheap (env : Env) (t : Ty) (cfg : Config) {s : Stream} (hi : Inv s) (u : Stats) :
    Cheap s 0 ((deserialize env t cfg).run (s, u)) :=
  (ops_cheap env (stackNeed env t cfg)).body t (.top cfg) s u 0 hi .zero

end Fourleaf
