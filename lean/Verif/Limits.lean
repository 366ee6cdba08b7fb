import Verif.Budget

/-! # The same input with two configurations

The limits (and `ignore_unknown_fields = false`) only reject: with a more permissive configuration everything else stays the same. -/

namespace Fourleaf
open Spec

/-- `b` permits whatever `a` permits. -/
structure Config.Le (a b : Config) : Prop where
  depth : a.recursionLimit ≤ b.recursionLimit
  collect : a.maxCollect ≤ b.maxCollect
  blob : a.maxBlob ≤ b.maxBlob
  unknown : a.ignoreUnknownFields = true → b.ignoreUnknownFields = true

/-- The errors by which `a` may reject what `b` permits. -/
inductive Kind.Restricts (a b : Config) : Kind → Prop where
  | depth : a.recursionLimit < b.recursionLimit → Restricts a b .recursionLimitExceeded
  | collect : a.maxCollect < b.maxCollect → Restricts a b .maxCollectExceeded
  | blob : a.maxBlob < b.maxBlob → Restricts a b .maxBlobExceeded
  | unknown {tag pos} : a.ignoreUnknownFields = false → b.ignoreUnknownFields = true → Restricts a b (.unknownField tag pos)

/-- How the outcomes are related. -/
inductive LimR {α : Type} (a b : Config) : Res (Stop DErr) (PSt Stats) α → Res (Stop DErr) (PSt Stats) α → Prop where
  | same {r} : LimR a b r r
  | reject {e st r} : e.kind.Restricts a b ∨ e.kind = .panic ∨ e.kind = .stackOverflow → LimR a b (.err (.client e) st) r
  | fails {e st st'} : LimR a b (.err (.client e) st) (.err (.client e) st')

/-- The same context under both configurations. -/
structure CtxRel (a b : Config) (c c' : Ctx) : Prop where
  path : c'.path = c.path
  depth : c'.depth = c.depth
  left : c.cfg = a
  right : c'.cfg = b

namespace LimR
variable {α β : Type} {a b : Config} {s : Stream} {u : Stats} {c c' : Ctx}

theorem ret {x : α} {st : PSt Stats} : LimR a b ((.ret x : P α).run st) ((.ret x : P α).run st) := .same

theorem fail {k : Kind} {st : PSt Stats} (hc : CtxRel a b c c') : LimR a b ((c.fail k : P α).run st) ((c'.fail k : P α).run st) := by
  simp only [Ctx.fail, Prog.run, hc.path]; exact .same

theorem call {o : Op α} {st : PSt Stats} (hc : CtxRel a b c c') : LimR a b ((c.call o).run st) ((c'.call o).run st) := by
  have : c'.call o = c.call o := by unfold Ctx.call; rw [hc.path]
  rw [this]; exact .same

theorem lift {x : Except Err α} {st : PSt Stats} (hc : CtxRel a b c c') : LimR a b ((c.lift x).run st) ((c'.lift x).run st) := by
  cases x
  · exact fail hc
  · exact ret

theorem bind {p p' : P α} {f f' : α → P β} (hi : Inv s) (h : LimR a b (p.run (s, u)) (p'.run (s, u)))
    (hf : ∀ x s' u', p.run (s, u) = .ok x (s', u') → Inv s' → LimR a b ((f x).run (s', u')) ((f' x).run (s', u'))) :
    LimR a b ((Prog.bind p f).run (s, u)) ((Prog.bind p' f').run (s, u)) := by
  have hs := Prog.run_safe p (s, u) hi
  simp only [Prog.run]
  revert h hf hs
  generalize p.run (s, u) = r
  generalize p'.run (s, u) = r'
  intro h hf hs
  cases h with
  | same =>
    cases r with
    | err e st => exact .same
    | ok x st => exact hf x st.1 st.2 rfl hs.step.inv
  | reject h => exact .reject h
  | fails => exact .fails

/-- Sequencing with a first part that does not move. -/
theorem bind' {p p' : P α} {f f' : α → P β} (hi : Inv s) (h : LimR a b (p.run (s, u)) (p'.run (s, u)))
    (hp : ∀ x s' u', p.run (s, u) = .ok x (s', u') → s' = s)
    (hf : ∀ x u', LimR a b ((f x).run (s, u')) ((f' x).run (s, u'))) :
    LimR a b ((Prog.bind p f).run (s, u)) ((Prog.bind p' f').run (s, u)) :=
  bind hi h fun x s' u' hr _ => by rw [hp x s' u' hr]; exact hf x u'

theorem bind_lift {x : Except Err α} {f f' : α → P β} (hi : Inv s) (hc : CtxRel a b c c') (hf : ∀ y, x = .ok y → LimR a b ((f y).run (s, u)) ((f' y).run (s, u))) :
    LimR a b ((Prog.bind (c.lift x) f).run (s, u)) ((Prog.bind (c'.lift x) f').run (s, u)) := by
  cases x with
  | error e => exact bind hi (fail hc) fun _ _ _ h => by simp [Ctx.fail, Ctx.lift, Prog.run] at h
  | ok y => exact bind hi ret fun _ _ _ h _ => by simp only [Ctx.lift, Prog.run] at h; cases h; exact hf y rfl

theorem push {name : String} {pos : Nat} {f f' : Ctx → P α} (hle : a.Le b) (hc : CtxRel a b c c')
    (hf : ∀ sub sub', CtxRel a b sub sub' → LimR a b ((f sub).run (s, u)) ((f' sub').run (s, u))) :
    LimR a b ((Prog.bind (c.push name pos) f).run (s, u)) ((Prog.bind (c'.push name pos) f').run (s, u)) := by
  unfold Ctx.push
  rw [hc.depth, hc.left, hc.right]
  have := hle.depth
  by_cases h : c.depth ≥ a.recursionLimit
  · rw [if_pos h]
    by_cases h' : c.depth ≥ b.recursionLimit
    · rw [if_pos h']
      simp only [Prog.run, Ctx.fail, hc.path]; exact .same
    · simp only [Prog.run, Ctx.fail]
      exact .reject (.inl (.depth (by omega)))
  · rw [if_neg h, if_neg (by omega)]
    simp only [Prog.run]
    exact hf _ _ ⟨by simp [hc.path], by simp, rfl, rfl⟩

theorem collect (hle : a.Le b) (hc : CtxRel a b c c') {f f' : Unit → P α} (hf : ∀ u', LimR a b ((f ()).run (s, u')) ((f' ()).run (s, u'))) :
    LimR a b ((Prog.bind (c.collect 1) f).run (s, u)) ((Prog.bind (c'.collect 1) f').run (s, u)) := by
  have := hle.collect
  simp only [Ctx.collect, Prog.run, hc.left, hc.right]
  by_cases h : u.collected > a.maxCollect
  · rw [if_pos h]; simp only [Prog.run, Ctx.fail]; exact .reject (.inr (.inl rfl))
  · have hb' : ¬ u.collected > b.maxCollect := by omega
    rw [if_neg h, if_neg hb']
    by_cases h1 : a.maxCollect - u.collected < 1
    · rw [if_pos h1]
      by_cases h2 : b.maxCollect - u.collected < 1
      · rw [if_pos h2]; simp only [Prog.run, Ctx.fail, hc.path]; exact .same
      · simp only [Prog.run, Ctx.fail]; exact .reject (.inl (.collect (by omega)))
    · have hb2 : ¬ b.maxCollect - u.collected < 1 := by omega
      rw [if_neg h1, if_neg hb2]
      simp only [Prog.run]
      exact hf _

theorem skip {f : Field} {st : PSt Stats} (hc : CtxRel a b c c') : LimR a b ((c.skip f).run st) ((c'.skip f).run st) := by
  unfold Ctx.skip; split
  · exact call hc
  · exact call hc
  · exact ret
  · exact ret

theorem ownedBlob (hle : a.Le b) (hc : CtxRel a b c c') {f : Field} (hi : Inv s) (hf : FieldAt s f) :
    LimR a b ((ownedBlob c f).run (s, u)) ((Fourleaf.ownedBlob c' f).run (s, u)) := by
  have := hle.blob
  unfold Fourleaf.ownedBlob
  refine bind_lift hi hc fun n hn => ?_
  have hb := hf.blob n (toBlob_ok hn)
  simp only [Ctx.blob, Prog.run, hc.left, hc.right]
  by_cases h : u.blob > a.maxBlob
  · rw [if_pos h]; simp only [Prog.run, Ctx.fail]; exact .reject (.inr (.inl rfl))
  · have hb' : ¬ u.blob > b.maxBlob := by omega
    rw [if_neg h, if_neg hb']
    by_cases h1 : a.maxBlob - u.blob < n
    · rw [if_pos h1]
      by_cases h2 : b.maxBlob - u.blob < n
      · rw [if_pos h2]; simp only [Prog.run, Ctx.fail, hc.path]; exact .same
      · simp only [Prog.run, Ctx.fail]; exact .reject (.inl (.blob (by omega)))
    · have hb2 : ¬ b.maxBlob - u.blob < n := by omega
      rw [if_neg h1, if_neg hb2]
      have : Op.exec (.readFully a.maxBlob) s = Op.exec (.readFully b.maxBlob) s := by
        simp only [Op.exec, onLiveBlob]
        split
        · unfold readFully
          have h3 : blobRemaining s ≤ n := hb.2
          rw [if_neg (by omega), if_neg (by omega)]
        · rfl
      simp only [Prog.run, Ctx.call, hc.path, this]
      exact .same

theorem extSlice (hc : CtxRel a b c c') {f : Field} (hi : Inv s) :
    LimR a b ((extSlice c f).run (s, u)) ((Fourleaf.extSlice c' f).run (s, u)) :=
  bind_lift hi hc fun _ _ => call hc

theorem vecConv (hle : a.Le b) (hc : CtxRel a b c c') {f : Field} (hi : Inv s) (hf : FieldAt s f) :
    LimR a b ((vecConv c f).run (s, u)) ((Fourleaf.vecConv c' f).run (s, u)) :=
  bind hi (ownedBlob hle hc hi hf) fun _ _ _ _ _ => ret

theorem arrConv (n : Nat) (hc : CtxRel a b c c') {f : Field} (hi : Inv s) :
    LimR a b ((arrConv n c f).run (s, u)) ((Fourleaf.arrConv n c' f).run (s, u)) := by
  refine bind_lift hi hc fun _ _ => bind hi (call hc) fun r s' u' _ hi' => ?_
  split
  · exact fail hc
  · refine bind hi' (call hc) fun d s' u' _ hi' => ?_
    split
    · exact fail hc
    · exact ret

theorem conv (p : Prim) (hle : a.Le b) (hc : CtxRel a b c c') {f : Field} (hi : Inv s) (hf : FieldAt s f) :
    LimR a b ((p.conv c f).run (s, u)) ((p.conv c' f).run (s, u)) := by
  cases p with
  | phantom => exact bind hi (lift hc) fun _ _ _ _ _ => ret
  | bool => exact bind hi (lift hc) fun _ _ _ _ _ => ret
  | int k => exact bind hi (lift hc) fun _ _ _ _ _ => ret
  | char =>
    refine bind hi (lift hc) fun _ _ _ _ _ => ?_
    split
    · exact ret
    · exact fail hc
  | string =>
    refine bind hi (ownedBlob hle hc hi hf) fun _ _ _ _ _ => ?_
    split
    · exact ret
    · exact fail hc
  | strRef =>
    refine bind hi (extSlice hc hi) fun _ _ _ _ _ => ?_
    split
    · exact ret
    · exact fail hc
  | bytesRef => exact bind hi (extSlice hc hi) fun _ _ _ _ _ => ret

theorem discard {p p' : P β} {k : Kind} (hi : Inv s) (hc : CtxRel a b c c') : 
    LimR a b ((discard p c k : P α).run (s, u)) ((Fourleaf.discard p' c' k : P α).run (s, u)) := by
  have h1 := Prog.run_safe p (s, u) hi
  have h2 := Prog.run_safe p' (s, u) hi
  have hd : ∀ (q : P β) (d : Ctx), (∀ e st, q.run (s, u) ≠ .err (.abort e) st) → ∃ st, (Fourleaf.discard q d k : P α).run (s, u) = .err (.client ⟨k, d.path⟩) st := by
    intro q d hq
    simp only [Fourleaf.discard, Prog.run, Ctx.fail]
    cases hr : q.run (s, u) with
    | ok x st => exact ⟨st, rfl⟩
    | err e st =>
      cases e with
      | client e => exact ⟨st, rfl⟩
      | abort e => exact absurd hr (hq e st)
  obtain ⟨st, e1⟩ := hd p c fun e st h => absurd h (h1.normal e st)
  obtain ⟨st', e2⟩ := hd p' c' fun e st h => absurd h (h2.normal e st)
  rw [e1, e2, hc.path]
  exact .fails
end LimR

/-- The methods under both configurations. -/
structure LOps (a b : Config) (o : Ops) (o' : Ops) : Prop where
  body : ∀ t c c' s u, CtxRel a b c c' → Inv s → LimR a b ((o.body t c).run (s, u)) ((o'.body t c').run (s, u))
  element : ∀ t c c' f s u, CtxRel a b c c' → Inv s → FieldAt s f → LimR a b ((o.element t c f).run (s, u)) ((o'.element t c' f).run (s, u))
  field : ∀ t x c c' f s u, CtxRel a b c c' → Inv s → FieldAt s f → LimR a b ((o.field t x c f).run (s, u)) ((o'.field t x c' f).run (s, u))
  finish : ∀ t x c c' s u, CtxRel a b c c' → Inv s → LimR a b ((o.finish t x c).run (s, u)) ((o'.finish t x c').run (s, u))

section
variable {env : Env} {a b : Config} {o o' : Ops} (H : LOps a b o o') (hle : a.Le b)
include H hle

theorem lim_fieldStep {fs : List FieldDecl} {unk : Option Bool} {c c' : Ctx} {st : LoopSt} {f : Field} {s : Stream} {u : Stats}
    (hc : CtxRel a b c c') (hi : Inv s) (hf : FieldAt s f) :
    LimR a b ((fieldStep o fs unk c st f).run (s, u)) ((fieldStep o' fs unk c' st f).run (s, u)) := by
  unfold fieldStep
  split
  · split
    · exact .ret
    · exact .push hle hc fun sub sub' hs => .bind hi (H.field _ _ sub sub' f s u hs hi hf) fun _ _ _ _ _ => .ret
  · split
    · exact .push hle hc fun sub sub' hs => .bind hi (H.field _ _ sub sub' f s u hs hi hf) fun _ _ _ _ _ => .ret
    · unfold Ctx.unknownField
      rw [hc.left, hc.right]
      cases h : a.ignoreUnknownFields with
      | true =>
        rw [hle.unknown h]
        exact .bind hi .ret fun _ s' u' _ hi' => .bind hi' (.skip hc) fun _ _ _ _ _ => .ret
      | false =>
        cases h' : b.ignoreUnknownFields with
        | true => simp only [Bool.false_eq_true, if_false, Prog.run, Ctx.fail]; exact .reject (.inl (.unknown h h'))
        | false => simp only [Bool.false_eq_true, if_false, Prog.run, Ctx.fail, hc.path]; exact .same

theorem lim_fieldLoop {fs : List FieldDecl} {unk : Option Bool} {c c' : Ctx} {s : Stream} {u : Stats} (hc : CtxRel a b c c') (hi : Inv s) :
    LimR a b ((fieldLoop o fs unk c).run (s, u)) ((fieldLoop o' fs unk c').run (s, u)) := by
  simp only [fieldLoop, Prog.run]
  generalize (s.inner.data.length - s.inner.pos + 2) = fuel
  generalize LoopSt.init = x
  induction fuel generalizing x s u with
  | zero => exact .same
  | succ fuel ih =>
    simp only [runLoop]
    cases hq : pull true s with
    | err e s' =>
      simp only
      split
      · exact .same
      · exact .fail hc
    | ok o1 s' =>
      have hs := (pull_safe true hi).1.step
      rw [hq] at hs
      cases o1 with
      | none => exact .same
      | some el =>
        have hp : ∃ f, el = .field f ∧ FieldAt s' f := by
          simp only [pull, if_true] at hq
          cases hn : nextField s with
          | err e s2 => rw [hn] at hq; cases hq
          | ok o2 s2 =>
            have hP := nextField_post hi hn
            rw [hn] at hq
            cases o2 with
            | none => cases hq
            | some f => cases hq; exact ⟨f, rfl, hP.1 f rfl⟩
        obtain ⟨f, rfl, hf⟩ := hp
        have hi' := hs.inv
        simp only [Res.state_ok] at hi'
        have hb : LimR a b ((Prog.bind (fieldStep o fs unk c x f) fun st' => .ret (.inl st') : P (LoopSt ⊕ LoopSt)).run (s', u))
            ((Prog.bind (fieldStep o' fs unk c' x f) fun st' => .ret (.inl st') : P (LoopSt ⊕ LoopSt)).run (s', u)) :=
          .bind hi' (lim_fieldStep H hle hc hi' hf) fun _ _ _ _ _ => .ret
        have hsafe := Prog.run_safe (Prog.bind (fieldStep o fs unk c x f) fun st' => .ret (.inl st') : P (LoopSt ⊕ LoopSt)) (s', u) hi'
        simp only
        revert hb hsafe
        generalize (Prog.bind (fieldStep o fs unk c x f) fun st' => .ret (.inl st') : P (LoopSt ⊕ LoopSt)).run (s', u) = r
        generalize (Prog.bind (fieldStep o' fs unk c' x f) fun st' => .ret (.inl st') : P (LoopSt ⊕ LoopSt)).run (s', u) = r'
        intro hb hsafe
        cases hb with
        | reject h => exact .reject h
        | fails => exact .fails
        | same =>
          cases r with
          | err e st2 => exact .same
          | ok y st2 =>
            cases y with
            | inl x' => exact ih hsafe.step.inv x'
            | inr y => exact .same

theorem lim_finishAll {c c' : Ctx} {st : LoopSt} (hc : CtxRel a b c c') : ∀ (fs : List FieldDecl) (i : Nat) (s : Stream) (u : Stats), Inv s →
    LimR a b ((finishAll o c st i fs).run (s, u)) ((finishAll o' c' st i fs).run (s, u))
  | [], i, s, u, hi => .ret
  | x :: xs, i, s, u, hi => by
    simp only [finishAll]
    refine .bind hi (.call hc) fun p s' u' _ hi' => .push hle hc fun sub sub' hs => .bind hi' (H.finish _ _ _ _ _ _ hs hi') fun v s2 u2 _ hi2 => ?_
    exact .bind hi2 (lim_finishAll hc xs (i + 1) s2 u2 hi2) fun _ _ _ _ _ => .ret

theorem lim_structBody {fs : List FieldDecl} {c c' : Ctx} {s : Stream} {u : Stats} (hc : CtxRel a b c c') (hi : Inv s) :
    LimR a b ((structBody o fs c).run (s, u)) ((structBody o' fs c').run (s, u)) :=
  .bind hi (lim_fieldLoop H hle hc hi) fun st s' u' _ hi' => lim_finishAll H hle hc fs 0 s' u' hi'

theorem lim_defaultBody {t : Ty} {c c' : Ctx} {s : Stream} {u : Stats} (hc : CtxRel a b c c') (hi : Inv s) :
    LimR a b ((defaultBody o t c).run (s, u)) ((defaultBody o' t c').run (s, u)) :=
  .bind hi (lim_structBody H hle hc hi) fun _ _ _ _ _ => .ret

omit H hle in
theorem lim_construct {x : Body} {c c' : Ctx} {vs : List V} {s : Stream} {u : Stats} (hc : CtxRel a b c c') :
    LimR a b ((construct x c vs).run (s, u)) ((construct x c' vs).run (s, u)) := by
  unfold construct; split
  · exact .ret
  · exact .fail hc

theorem lim_macroBody {x : Body} {c c' : Ctx} {s : Stream} {u : Stats} (hc : CtxRel a b c c') (hi : Inv s) :
    LimR a b ((macroBody o x c).run (s, u)) ((macroBody o' x c').run (s, u)) := by
  unfold macroBody
  split
  · exact .bind hi (lim_fieldLoop H hle hc hi) fun st s' u' _ hi' => .bind hi' (lim_finishAll H hle hc _ 0 s' u' hi') fun vs s2 u2 _ hi2 => lim_construct hc
  · refine .bind hi (.call hc) fun p s' u' _ hi' => .push hle hc fun sub sub' hs => .bind hi' (H.body _ _ _ _ _ hs hi') fun v s2 u2 _ hi2 => ?_
    exact .bind hi2 (lim_finishAll H hle hc _ 0 s2 u2 hi2) fun vs s3 u3 _ _ => lim_construct hc
  · refine .bind hi (lim_fieldLoop H hle hc hi) fun st s' u' _ hi' => .bind hi' (lim_finishAll H hle hc _ 0 s' u' hi') fun vs s2 u2 _ hi2 => ?_
    exact .bind hi2 (.call hc) fun p s3 u3 _ hi3 => .push hle hc fun sub sub' hs => .bind hi3 (H.finish _ _ _ _ _ _ hs hi3) fun v s4 u4 _ _ => lim_construct hc

theorem lim_bodyStep (t : Ty) (c c' : Ctx) (s : Stream) (u : Stats) (hc : CtxRel a b c c') (hi : Inv s) :
    LimR a b ((bodyStep env o t c).run (s, u)) ((bodyStep env o' t c').run (s, u)) := by
  cases t with
  | boxed t => exact H.body t c c' s u hc hi
  | tuple ts => exact .bind hi (lim_structBody H hle hc hi) fun _ _ _ _ _ => .ret
  | unknownFields zc => exact .bind hi (lim_fieldLoop H hle hc hi) fun st s' u' _ hi' => H.finish _ _ _ _ _ _ hc hi'
  | named i =>
    simp only [bodyStep]
    split
    · exact .bind hi (lim_macroBody H hle hc hi) fun _ _ _ _ _ => .ret
    · exact lim_defaultBody H hle hc hi
  | prim _ | small _ _ | large _ _ | vec _ | coll _ _ | option _ | map _ _ | unknownField _ => exact lim_defaultBody H hle hc hi

omit hle in
theorem lim_viaStruct {t : Ty} {c c' : Ctx} {f : Field} {s : Stream} {u : Stats} (hc : CtxRel a b c c') (hi : Inv s) :
    LimR a b ((viaStruct o t c f).run (s, u)) ((viaStruct o' t c' f).run (s, u)) :=
  .bind_lift hi hc fun _ _ => H.body t c c' s u hc hi

theorem lim_enumElement {vs : List (UInt64 × Body)} {ca : Option Body} {c c' : Ctx} {f : Field} {s : Stream} {u : Stats} (hc : CtxRel a b c c') (hi : Inv s) :
    LimR a b ((enumElement o vs ca c f).run (s, u)) ((enumElement o' vs ca c' f).run (s, u)) := by
  refine .bind_lift hi hc fun d _ => ?_
  split
  · exact .bind hi (lim_macroBody H hle hc hi) fun _ _ _ _ _ => .ret
  · split
    · exact .bind hi (lim_macroBody H hle hc hi) fun _ _ _ _ _ => .ret
    · exact .fail hc

theorem lim_elementStep (t : Ty) (c c' : Ctx) (f : Field) (s : Stream) (u : Stats) (hc : CtxRel a b c c') (hi : Inv s) (hf : FieldAt s f) :
    LimR a b ((elementStep env o t c f).run (s, u)) ((elementStep env o' t c' f).run (s, u)) := by
  have hdef : ∀ t, LimR a b ((defaultElement o t c f).run (s, u)) ((defaultElement o' t c' f).run (s, u)) := fun t =>
    .bind hi (H.field t .init c c' f s u hc hi hf) fun x s' u' _ hi' => H.finish t x c c' s' u' hc hi'
  cases t with
  | prim p => exact hdef _
  | unknownField zc => exact hdef _
  | boxed t => exact H.element t c c' f s u hc hi hf
  | small n e | large n e =>
    simp only [elementStep]
    split
    · exact .bind hi (.arrConv _ hc hi) fun _ _ _ _ _ => .ret
    · exact lim_viaStruct H hc hi
  | vec e =>
    simp only [elementStep]
    split
    · exact .bind hi (.vecConv hle hc hi hf) fun _ _ _ _ _ => .ret
    · exact lim_viaStruct H hc hi
  | coll _ _ | option _ | map _ _ | tuple _ | unknownFields _ => exact lim_viaStruct H hc hi
  | named i =>
    simp only [elementStep]
    split
    · split
      · exact .push hle hc fun sub sub' hs => .bind hi (H.element _ _ _ _ _ _ hs hi hf) fun v s2 u2 _ hi2 => .bind hi2 (lim_construct hc) fun _ _ _ _ _ => .ret
      · exact lim_viaStruct H hc hi
    · exact lim_enumElement H hle hc hi

theorem lim_fieldMeth (t : Ty) (x : Acc) (c c' : Ctx) (f : Field) (s : Stream) (u : Stats) (hc : CtxRel a b c c') (hi : Inv s) (hf : FieldAt s f) :
    LimR a b ((fieldMeth o t x c f).run (s, u)) ((fieldMeth o' t x c' f).run (s, u)) := by
  have hel : ∀ (t : Ty) (g : V → Acc) (u : Stats), LimR a b ((Prog.bind (o.element t c f) fun v => .ret (g v) : P Acc).run (s, u)) ((Prog.bind (o'.element t c' f) fun v => .ret (g v) : P Acc).run (s, u)) :=
    fun t g u => .bind hi (H.element t c c' f s u hc hi hf) fun _ _ _ _ _ => .ret
  cases t with
  | prim p =>
    simp only [fieldMeth]
    split
    · exact .fail hc
    · exact .bind hi (.conv p hle hc hi hf) fun _ _ _ _ _ => .ret
  | boxed t => exact H.field t x c c' f s u hc hi hf
  | small n e =>
    simp only [fieldMeth]
    split
    · split
      · exact .discard hi hc
      · exact .bind hi (.arrConv _ hc hi) fun _ _ _ _ _ => .ret
    · split
      · exact .fail hc
      · split
        · exact .fail hc
        · exact hel _ _ _
  | large n e =>
    simp only [fieldMeth]
    split
    · refine .bind hi (.arrConv _ hc hi) fun _ _ _ _ _ => ?_
      split
      · exact .fail hc
      · exact .ret
    · split
      · exact .fail hc
      · exact hel _ _ _
  | tuple ts | named i | option e =>
    simp only [fieldMeth]
    split
    · exact .fail hc
    · exact hel _ _ _
  | vec e =>
    simp only [fieldMeth]
    split
    · split
      · exact .discard hi hc
      · exact .bind hi (.vecConv hle hc hi hf) fun _ _ _ _ _ => .ret
    · exact .collect hle hc fun u' => hel _ _ _
  | coll k e => exact .collect hle hc fun u' => hel _ _ _
  | map tk tv => exact .collect hle hc fun u' => hel _ _ _
  | unknownFields zc => exact .collect hle hc fun u' => hel _ _ _
  | unknownField zc =>
    simp only [fieldMeth]
    split
    · exact .fail hc
    · split
      · exact .ret
      · exact hel _ _ _
      · exact .bind hi (H.body _ _ _ _ _ hc hi) fun _ _ _ _ _ => .ret
      · exact .bind hi (H.body _ _ _ _ _ hc hi) fun _ _ _ _ _ => .ret

omit hle in
theorem lim_finishMeth (t : Ty) (x : Acc) (c c' : Ctx) (s : Stream) (u : Stats) (hc : CtxRel a b c c') (hi : Inv s) :
    LimR a b ((finishMeth o t x c).run (s, u)) ((finishMeth o' t x c').run (s, u)) := by
  cases t with
  | boxed t => exact H.finish t x c c' s u hc hi
  | _ =>
    simp only [finishMeth]
    repeat' split
    all_goals first | exact .ret | exact .fail hc
end

theorem ops_lim (env : Env) {a b : Config} (hle : a.Le b) : ∀ n n', n ≤ n' → LOps a b (ops env n) (ops env n')
  | 0, n', _ =>
    { body := fun _ _ _ _ _ _ _ => .reject (.inr (.inr rfl))
      element := fun _ _ _ _ _ _ _ _ _ => .reject (.inr (.inr rfl))
      field := fun _ _ _ _ _ _ _ _ _ _ => .reject (.inr (.inr rfl))
      finish := fun _ _ _ _ _ _ _ _ => .reject (.inr (.inr rfl)) }
  | n + 1, 0, h => absurd h (by omega)
  | n + 1, n' + 1, h =>
    have ih := ops_lim env hle n n' (by omega)
    { body := lim_bodyStep ih hle
      element := lim_elementStep ih hle
      field := lim_fieldMeth ih hle
      finish := lim_finishMeth ih }

/-- With a more permissive configuration the outcome is the same, unless the stricter one rejects the input for that reason (or both fail with the same error, having read different amounts). -/
theorem deserialize_lim (env : Env) (t : Ty) {a b : Config} (hle : a.Le b) {s : Stream} (hi : Inv s) :
    (deserialize env t a).run (s, .zero) = (deserialize env t b).run (s, .zero) ∨
    (∃ e st, (deserialize env t a).run (s, .zero) = .err (.client e) st ∧ e.kind.Restricts a b) ∨
    ∃ e st st', (deserialize env t a).run (s, .zero) = .err (.client e) st ∧ (deserialize env t b).run (s, .zero) = .err (.client e) st' := by
  have hn : stackNeed env t a ≤ stackNeed env t b := Nat.mul_le_mul_right _ (by have := hle.depth; omega)
  have h := (ops_lim env hle _ _ hn).body t (.top a) (.top b) s .zero ⟨rfl, rfl, rfl, rfl⟩ hi
  have hb := deserialize_budget env t a hi
  have he := deserialize_errs env t a (s, .zero)
  change LimR a b ((deserialize env t a).run (s, .zero)) ((deserialize env t b).run (s, .zero)) at h
  revert hb he h
  generalize (deserialize env t a).run (s, .zero) = r
  generalize (deserialize env t b).run (s, .zero) = r'
  intro hb he h
  cases h with
  | same => exact .inl rfl
  | fails => exact .inr (.inr ⟨_, _, _, rfl, rfl⟩)
  | reject hk =>
    rename_i e st
    rcases hk with hk | hk | hk
    · exact .inr (.inl ⟨_, _, rfl, hk⟩)
    · exact absurd hk (hb.err e st.1 st.2 rfl).2
    · exact absurd hk ((he e st rfl).so trivial)

end Fourleaf
