import Verif.TypedOps

/-! # Limits and totality for all types, also those outside `Ty.wf` -/

namespace Fourleaf
open Spec

/-- The methods respect the limits and do not panic; a body is read to its end. -/
structure BOps (cfg : Config) (o : Ops) : Prop where
  body : ∀ t c s u, CtxOk cfg c → Inv s → u.fits cfg → Post cfg u ((o.body t c).run (s, u)) fun _ s' _ => AtEnd s'
  element : ∀ t c f s u, CtxOk cfg c → Inv s → u.fits cfg → FieldAt s f → Post cfg u ((o.element t c f).run (s, u)) fun _ _ _ => True
  field : ∀ t a c f s u, CtxOk cfg c → Inv s → u.fits cfg → FieldAt s f → Post cfg u ((o.field t a c f).run (s, u)) fun _ _ _ => True
  finish : ∀ t a c s u, u.fits cfg → Post cfg u ((o.finish t a c).run (s, u)) fun _ s' _ => s' = s

section
variable {env : Env} {cfg : Config} {o : Ops} (H : BOps cfg o)
include H

theorem budget_fieldStep {fs : List FieldDecl} {unk : Option Bool} {c : Ctx} {st : LoopSt} {f : Field} {s : Stream} {u : Stats}
    (hc : CtxOk cfg c) (hi : Inv s) (hu : u.fits cfg) (hf : FieldAt s f) :
    Post cfg u ((fieldStep o fs unk c st f).run (s, u)) fun _ _ _ => True := by
  unfold fieldStep
  split
  · split
    · exact .ret hu trivial
    · refine .bind hi (Post.push hc hu) ?_
      rintro sub s' u' - - - ⟨rfl, rfl, hsub, hd⟩
      refine .bind hi (H.field _ _ sub f s' u' hsub hi hu hf) ?_
      exact fun a s2 u2 _ hu2 _ _ => .ret hu2 trivial
  · split
    · refine .bind hi (Post.push hc hu) ?_
      rintro sub s' u' - - - ⟨rfl, rfl, hsub, hd⟩
      refine .bind hi (H.field _ _ sub f s' u' hsub hi hu hf) ?_
      exact fun a s2 u2 _ hu2 _ _ => .ret hu2 trivial
    · refine .bind (Q := fun _ s' u' => s' = s ∧ u' = u) hi ?_ ?_
      · unfold Ctx.unknownField; split
        · exact .ret hu ⟨rfl, rfl⟩
        · exact .fail hu (by simp)
      rintro - s' u' - - - ⟨rfl, rfl⟩
      refine .bind hi (Post.skip hu) ?_
      exact fun _ s2 u2 _ hu2 _ _ => .ret hu2 trivial

theorem budget_fieldLoop {fs : List FieldDecl} {unk : Option Bool} {c : Ctx} {s : Stream} {u : Stats}
    (hc : CtxOk cfg c) (hi : Inv s) (hu : u.fits cfg) :
    Post cfg u ((fieldLoop o fs unk c).run (s, u)) fun _ s' _ => AtEnd s' := by
  simp only [fieldLoop, Prog.run]
  generalize (s.inner.data.length - s.inner.pos + 2) = fuel
  generalize LoopSt.init = b
  induction fuel generalizing b s u with
  | zero => exact ⟨fun a s' u' h' => by simp [runLoop] at h', fun e s' u' h' => by simp [runLoop] at h'⟩
  | succ fuel ih =>
    simp only [runLoop]
    have hp : ∀ o s', pull true s = .ok o s' → Inv s' ∧ (o = none → AtEnd s') ∧ (∀ el, o = some el → ∃ f, el = .field f ∧ FieldAt s' f) := by
      intro o s' h
      have hs := (pull_safe true hi).1.step
      rw [h] at hs
      refine ⟨hs.inv, ?_⟩
      simp only [pull, if_true] at h
      cases hn : nextField s with
      | err e s2 => rw [hn] at h; cases h
      | ok o' s2 =>
        have hP := nextField_post hi hn
        rw [hn] at h
        cases o' with
        | none => cases h; exact ⟨fun _ => hP.2 rfl, by simp⟩
        | some f => cases h; exact ⟨by simp, fun el hel => by cases hel; exact ⟨f, rfl, hP.1 f rfl⟩⟩
    cases hq : pull true s with
    | err e s' =>
      simp only
      split
      · exact ⟨fun a s' u' h' => by simp at h', fun e s' u' h' => by simp at h'⟩
      · exact .fail hu (by simp)
    | ok o' s' =>
      obtain ⟨hi', hnone, hsome⟩ := hp _ _ hq
      cases o' with
      | none => exact Post.ret (a := b) (Q := fun _ s' _ => AtEnd s') hu (hnone rfl)
      | some el =>
        obtain ⟨f, rfl, hf⟩ := hsome el rfl
        have hb : Post cfg u ((Prog.bind (fieldStep o fs unk c b f) fun st' => .ret (.inl st') : P (LoopSt ⊕ LoopSt)).run (s', u))
            fun r _ _ => ∃ st', r = .inl st' := by
          refine .bind hi' (budget_fieldStep H hc hi' hu hf) ?_
          exact fun st' s2 u2 _ hu2 _ _ => .ret hu2 ⟨st', rfl⟩
        have hsafe := Prog.run_safe (Prog.bind (fieldStep o fs unk c b f) fun st' => .ret (.inl st') : P (LoopSt ⊕ LoopSt)) (s', u) hi'
        simp only
        cases hr : (Prog.bind (fieldStep o fs unk c b f) fun st' => .ret (.inl st') : P (LoopSt ⊕ LoopSt)).run (s', u) with
        | err e st2 => exact ⟨fun a s' u' h' => by simp at h', fun e s2 u2 h' => by simp only at h'; cases h'; exact hb.err _ _ _ hr⟩
        | ok r st2 =>
          obtain ⟨s2, u2⟩ := st2
          rw [hr] at hsafe
          obtain ⟨g1, g2, st', rfl⟩ := hb.ok _ _ _ hr
          have := ih hsafe.step.inv g2 st'
          exact ⟨fun a s3 u3 h' => by have h4 := this.ok a s3 u3 h'; exact ⟨g1.trans h4.1, h4.2⟩, this.err⟩

theorem budget_finishAll {c : Ctx} {st : LoopSt} (hc : CtxOk cfg c) : ∀ (fs : List FieldDecl) (i : Nat) (s : Stream) (u : Stats), Inv s → u.fits cfg →
    Post cfg u ((finishAll o c st i fs).run (s, u)) fun _ s' _ => s' = s
  | [], i, s, u, hi, hu => .ret hu rfl
  | x :: xs, i, s, u, hi, hu => by
    simp only [finishAll]
    refine .bind hi (Post.pos hu) ?_
    rintro p s' u' - - - ⟨rfl, rfl⟩
    refine .bind hi (Post.push hc hu) ?_
    rintro sub s' u' - - - ⟨rfl, rfl, hsub, hd⟩
    refine .bind hi (H.finish x.ty (st.accs i) sub s' u' hu) ?_
    rintro v s' u' - hu' - rfl
    refine .bind hi (budget_finishAll hc xs (i + 1) s' u' hi hu') ?_
    rintro vs s' u' - hu' - rfl
    exact .ret hu' rfl

theorem budget_structBody {fs : List FieldDecl} {c : Ctx} {s : Stream} {u : Stats} (hc : CtxOk cfg c) (hi : Inv s) (hu : u.fits cfg) :
    Post cfg u ((structBody o fs c).run (s, u)) fun _ s' _ => AtEnd s' := by
  refine .bind hi (budget_fieldLoop H (unk := none) hc hi hu) ?_
  rintro st s' u' hi' hu' - hend
  refine (budget_finishAll H hc fs 0 s' u' hi' hu').mono ?_
  rintro vs s2 u2 - - rfl
  exact hend

theorem budget_defaultBody {t : Ty} {c : Ctx} {s : Stream} {u : Stats} (hc : CtxOk cfg c) (hi : Inv s) (hu : u.fits cfg) :
    Post cfg u ((defaultBody o t c).run (s, u)) fun _ s' _ => AtEnd s' := by
  refine .bind hi (budget_structBody H hc hi hu) ?_
  exact fun vs s' u' _ hu' _ h => .ret hu' h

theorem budget_macroBody {b : Body} {c : Ctx} {s : Stream} {u : Stats} (hc : CtxOk cfg c) (hi : Inv s) (hu : u.fits cfg) :
    Post cfg u ((macroBody o b c).run (s, u)) fun _ s' _ => AtEnd s' := by
  unfold macroBody
  split
  · refine .bind hi (budget_fieldLoop H (unk := none) hc hi hu) ?_
    rintro st s' u' hi' hu' - hend
    refine .bind hi' (budget_finishAll H hc b.fields 0 s' u' hi' hu') ?_
    rintro vs s2 u2 - hu2 - rfl
    refine (typed_construct hu2).mono ?_
    rintro vs' s3 u3 - - ⟨rfl, -⟩
    exact hend
  · refine .bind hi (Post.pos hu) ?_
    rintro p s' u' - - - ⟨rfl, rfl⟩
    refine .bind hi (Post.push hc hu) ?_
    rintro sub s' u' - - - ⟨rfl, rfl, hsub, hd⟩
    refine .bind hi (H.body _ sub s' u' hsub hi hu) ?_
    rintro v s2 u2 hi2 hu2 - hend
    refine .bind hi2 (budget_finishAll H hc b.fields 0 s2 u2 hi2 hu2) ?_
    rintro vs s3 u3 - hu3 - rfl
    refine (typed_construct hu3).mono ?_
    rintro vs' s4 u4 - - ⟨rfl, -⟩
    exact hend
  · refine .bind hi (budget_fieldLoop H (unk := some _) hc hi hu) ?_
    rintro st s' u' hi' hu' - hend
    refine .bind hi' (budget_finishAll H hc b.fields 0 s' u' hi' hu') ?_
    rintro vs s2 u2 - hu2 - rfl
    refine .bind hi' (Post.pos hu2) ?_
    rintro p s3 u3 - - - ⟨rfl, rfl⟩
    refine .bind hi' (Post.push hc hu2) ?_
    rintro sub s3 u3 - - - ⟨rfl, rfl, hsub, hd⟩
    refine .bind hi' (H.finish _ st.unk sub s3 u3 hu2) ?_
    rintro v s3 u3 - hu3 - rfl
    refine (typed_construct hu3).mono ?_
    rintro vs' s4 u4 - - ⟨rfl, -⟩
    exact hend

theorem budget_bodyStep (t : Ty) (c : Ctx) (s : Stream) (u : Stats) (hc : CtxOk cfg c) (hi : Inv s) (hu : u.fits cfg) :
    Post cfg u ((bodyStep env o t c).run (s, u)) fun _ s' _ => AtEnd s' := by
  cases t with
  | boxed t => exact H.body t c s u hc hi hu
  | tuple ts =>
    refine .bind hi (budget_structBody H hc hi hu) ?_
    exact fun vs s' u' _ hu' _ h => .ret hu' h
  | unknownFields zc =>
    refine .bind hi (budget_fieldLoop H (unk := some zc) (fs := []) hc hi hu) ?_
    rintro st s' u' hi' hu' - hend
    refine (H.finish (.unknownFields zc) st.unk c s' u' hu').mono ?_
    rintro v s3 u3 - hu3 rfl
    exact hend
  | named i =>
    simp only [bodyStep]
    split
    · refine .bind hi (budget_macroBody H hc hi hu) ?_
      exact fun vs s' u' _ hu' _ h => .ret hu' h
    · exact budget_defaultBody H hc hi hu
  | prim _ | small _ _ | large _ _ | vec _ | coll _ _ | option _ | map _ _ | unknownField _ => exact budget_defaultBody H hc hi hu

theorem budget_viaStruct {t : Ty} {c : Ctx} {f : Field} {s : Stream} {u : Stats} (hc : CtxOk cfg c) (hi : Inv s) (hu : u.fits cfg) :
    Post cfg u ((viaStruct o t c f).run (s, u)) fun _ _ _ => True := by
  refine .bind (Q := fun _ s' u' => s' = s ∧ u' = u) hi (.lift hu fun _ _ => ⟨rfl, rfl⟩) ?_
  rintro - s' u' - - - ⟨rfl, rfl⟩
  exact (H.body t c s' u' hc hi hu).mono fun _ _ _ _ _ _ => trivial

theorem budget_enumElement {vs : List (UInt64 × Body)} {ca : Option Body} {c : Ctx} {f : Field} {s : Stream} {u : Stats} (hc : CtxOk cfg c) (hi : Inv s) (hu : u.fits cfg) :
    Post cfg u ((enumElement o vs ca c f).run (s, u)) fun _ _ _ => True := by
  refine .bind (Q := fun _ s' u' => s' = s ∧ u' = u) hi (.lift hu fun _ _ => ⟨rfl, rfl⟩) ?_
  rintro d s' u' - - - ⟨rfl, rfl⟩
  split
  · refine .bind hi (budget_macroBody H hc hi hu) ?_
    exact fun vs s' u' _ hu' _ _ => .ret hu' trivial
  · split
    · refine .bind hi (budget_macroBody H hc hi hu) ?_
      exact fun vs s' u' _ hu' _ _ => .ret hu' trivial
    · exact .fail hu (by simp)

theorem budget_elementStep (t : Ty) (c : Ctx) (f : Field) (s : Stream) (u : Stats) (hc : CtxOk cfg c) (hi : Inv s) (hu : u.fits cfg)
    (hf : FieldAt s f) : Post cfg u ((elementStep env o t c f).run (s, u)) fun _ _ _ => True := by
  have hdef : ∀ t, Post cfg u ((defaultElement o t c f).run (s, u)) fun _ _ _ => True := fun t => by
    refine .bind hi (H.field t .init c f s u hc hi hu hf) ?_
    exact fun a s' u' hi' hu' _ _ => (H.finish t a c s' u' hu').mono fun _ _ _ _ _ _ => trivial
  cases t with
  | prim p => exact hdef _
  | unknownField zc => exact hdef _
  | boxed t => exact H.element t c f s u hc hi hu hf
  | small n e | large n e =>
    simp only [elementStep]
    split
    · refine .bind hi (Post.arrConv hi hu hf) ?_
      exact fun vs s' u' _ hu' _ _ => .ret hu' trivial
    · exact budget_viaStruct H hc hi hu
  | vec e =>
    simp only [elementStep]
    split
    · refine .bind hi (Post.vecConv hc hi hu hf) ?_
      exact fun vs s' u' _ hu' _ _ => .ret hu' trivial
    · exact budget_viaStruct H hc hi hu
  | coll _ _ | option _ | map _ _ | tuple _ | unknownFields _ => exact budget_viaStruct H hc hi hu
  | named i =>
    simp only [elementStep]
    split
    · split
      · refine .bind hi (Post.push hc hu) ?_
        rintro sub s' u' - - - ⟨rfl, rfl, hsub, hd⟩
        refine .bind hi (H.element _ sub f s' u' hsub hi hu hf) ?_
        rintro v s2 u2 hi2 hu2 - -
        refine .bind hi2 (typed_construct hu2) ?_
        exact fun vs s' u' _ hu' _ _ => .ret hu' trivial
      · exact budget_viaStruct H hc hi hu
    · exact budget_enumElement H hc hi hu

theorem budget_elem1 {t : Ty} {c : Ctx} {f : Field} {s : Stream} {u : Stats} (hc : CtxOk cfg c) (hi : Inv s) (hu : u.fits cfg)
    (hf : FieldAt s f) {g : V → Acc} :
    Post cfg u ((Prog.bind (o.element t c f) fun v => .ret (g v) : P Acc).run (s, u)) fun _ _ _ => True := by
  refine .bind hi (H.element t c f s u hc hi hu hf) ?_
  exact fun v s' u' _ hu' _ _ => .ret hu' trivial

theorem budget_collected {t : Ty} {c : Ctx} {f : Field} {s : Stream} {u : Stats} (hc : CtxOk cfg c) (hi : Inv s) (hu : u.fits cfg)
    (hf : FieldAt s f) {g : V → Acc} :
    Post cfg u ((Prog.bind (c.collect 1) fun _ => Prog.bind (o.element t c f) fun v => .ret (g v) : P Acc).run (s, u)) fun _ _ _ => True := by
  refine .bind hi (Post.collect hc hu) ?_
  rintro - s' u0 - hu0 - ⟨rfl, -⟩
  exact budget_elem1 H hc hi hu0 hf

theorem budget_fieldMeth (t : Ty) (a : Acc) (c : Ctx) (f : Field) (s : Stream) (u : Stats)
    (hc : CtxOk cfg c) (hi : Inv s) (hu : u.fits cfg) (hf : FieldAt s f) :
    Post cfg u ((fieldMeth o t a c f).run (s, u)) fun _ _ _ => True := by
  cases t with
  | prim p =>
    simp only [fieldMeth]
    split
    · exact .fail hu (by simp)
    · refine .bind hi (Post.conv p hc hi hu hf) ?_
      exact fun v s' u' _ hu' _ _ => .ret hu' trivial
  | boxed t => exact H.field t a c f s u hc hi hu hf
  | small n e =>
    simp only [fieldMeth]
    split
    · split
      · exact .discard (Post.arrConv hi hu hf) (by simp)
      · refine .bind hi (Post.arrConv hi hu hf) ?_
        exact fun v s' u' _ hu' _ _ => .ret hu' trivial
    · split
      · exact .fail hu (by simp)
      · split
        · exact .fail hu (by simp)
        · exact budget_elem1 H hc hi hu hf
  | large n e =>
    simp only [fieldMeth]
    split
    · refine .bind hi (Post.arrConv hi hu hf) ?_
      rintro vs s' u' - hu' hle -
      split
      · exact .fail hu' (by simp)
      · exact .ret hu' trivial
    · split
      · exact .fail hu (by simp)
      · exact budget_elem1 H hc hi hu hf
  | tuple ts | named i | option e =>
    simp only [fieldMeth]
    split
    · exact .fail hu (by simp)
    · exact budget_elem1 H hc hi hu hf
  | vec e =>
    simp only [fieldMeth]
    split
    · split
      · exact .discard (Post.vecConv hc hi hu hf) (by simp)
      · refine .bind hi (Post.vecConv hc hi hu hf) ?_
        exact fun v s' u' _ hu' _ _ => .ret hu' trivial
    · exact budget_collected H hc hi hu hf
  | coll k e => exact budget_collected H hc hi hu hf
  | map tk tv => exact budget_collected H hc hi hu hf
  | unknownFields zc => exact budget_collected H hc hi hu hf
  | unknownField zc =>
    simp only [fieldMeth]
    split
    · exact .fail hu (by simp)
    · split
      · exact .ret hu trivial
      · exact budget_elem1 H hc hi hu hf
      · refine .bind hi (H.body (.unknownFields zc) c s u hc hi hu) ?_
        exact fun v s' u' _ hu' _ _ => .ret hu' trivial
      · refine .bind hi (H.body (.unknownFields zc) c s u hc hi hu) ?_
        exact fun v s' u' _ hu' _ _ => .ret hu' trivial

theorem budget_finishMeth (t : Ty) (a : Acc) (c : Ctx) (s : Stream) (u : Stats) (hu : u.fits cfg) :
    Post cfg u ((finishMeth o t a c).run (s, u)) fun _ s' _ => s' = s := by
  cases t with
  | boxed t => exact H.finish t a c s u hu
  | prim _ | tuple _ | named _ | unknownField _ =>
    simp only [finishMeth]
    split
    · exact .ret hu rfl
    · exact .fail hu (by simp)
  | small n e =>
    simp only [finishMeth]
    split
    · exact .ret hu rfl
    · split
      · split <;> exact .fail hu (by simp)
      · exact .ret hu rfl
  | large n e =>
    simp only [finishMeth]
    split
    · split <;> exact .fail hu (by simp)
    · exact .ret hu rfl
  | vec e =>
    simp only [finishMeth]
    split
    · exact .fail hu (by simp)
    · exact .ret hu rfl
  | coll k e | option e | map tk tv | unknownFields zc => exact .ret hu rfl
end

theorem ops_budget (env : Env) (cfg : Config) : ∀ n, BOps cfg (ops env n)
  | 0 =>
    { body := fun t c s u _ _ hu => .fail hu (by simp)
      element := fun t c f s u _ _ hu _ => .fail hu (by simp)
      field := fun t a c f s u _ _ hu _ => .fail hu (by simp)
      finish := fun t a c s u hu => .fail hu (by simp) }
  | n + 1 =>
    { body := budget_bodyStep (ops_budget env cfg n)
      element := budget_elementStep (ops_budget env cfg n)
      field := budget_fieldMeth (ops_budget env cfg n)
      finish := budget_finishMeth (ops_budget env cfg n) }

/-- Whatever the type and input: the limits are respected, nothing panics, and a value is returned only at the end of a struct or at the end of the stream. -/
theorem deserialize_budget (env : Env) (t : Ty) (cfg : Config) {s : Stream} (hi : Inv s) :
    Post cfg .zero ((deserialize env t cfg).run (s, .zero)) fun _ s' _ => AtEnd s' :=
  (ops_budget env cfg (stackNeed env t cfg)).body t (.top cfg) s .zero ⟨rfl, Nat.zero_le _⟩ hi ⟨Nat.zero_le _, Nat.zero_le _⟩

end Fourleaf
