import Verif.PropsRead
import Verif.DeProg

/-! # Streams that differ in the setting of graceful EOF

`s.strict` is the stream `s` with graceful EOF off. Every reading call does the same on both streams, unless it comes to the end of the input where an element would start. -/

namespace Fourleaf

/-- `s` with graceful EOF off. -/
def Stream.strict (s : Stream) : Stream := { s with graceful := false }

section
variable (s : Stream)
@[simp] theorem strict_pos : s.strict.pos = s.pos := rfl
@[simp] theorem strict_blobEnd : s.strict.blobEnd = s.blobEnd := rfl
@[simp] theorem strict_inner : s.strict.inner = s.inner := rfl
@[simp] theorem strict_depth : s.strict.depth = s.depth := rfl
@[simp] theorem strict_eof : s.strict.eof = s.eof := rfl
@[simp] theorem strict_live : s.strict.live = s.live := rfl
@[simp] theorem strict_commit : s.strict.commit = s.commit := rfl
@[simp] theorem strict_useSeek : s.strict.useSeek = s.useSeek := rfl
@[simp] theorem strict_remaining : blobRemaining s.strict = blobRemaining s := rfl
end

/-- The same outcome on both streams. -/
inductive Gr {α : Type} : Res Err Stream α → Res Err Stream α → Prop where
  | ok {a s} : Gr (.ok a s) (.ok a s.strict)
  | err {e s} : Gr (.err e s) (.err e s.strict)

/-- The same outcome on both streams; or the graceful one is now at its end and has returned `e`, and on the other one there was the unexpected end of the input. -/
inductive GrE {α : Type} (e : α) : Res Err Stream α → Res Err Stream α → Prop where
  | same {r r'} : Gr r r' → GrE e r r'
  | ended {s t} : s.eof = true → GrE e (.ok e s) (.err (.io .unexpectedEof) t)

variable {α β : Type}

theorem Gr.bind {m : M Err Stream α} {f : α → M Err Stream β} {s : Stream} (H : Gr (m s) (m s.strict))
    (hf : ∀ a s', m s = .ok a s' → Gr (f a s') (f a s'.strict)) : Gr ((m >>= f) s) ((m >>= f) s.strict) := by
  rw [M.bind_apply, M.bind_apply]
  revert H hf
  generalize m s = r
  generalize m s.strict = r'
  intro H hf
  cases H with
  | ok => exact hf _ _ rfl
  | err => exact .err

theorem GrE.ok {z a : α} {s : Stream} : GrE z (.ok a s) (.ok a s.strict) := .same .ok
theorem GrE.err {z : α} {e : Err} {s : Stream} : GrE z (.err e s : Res Err Stream α) (.err e s.strict) := .same .err

theorem Gr.bindE {z : β} {m : M Err Stream α} {f : α → M Err Stream β} {s : Stream} (H : Gr (m s) (m s.strict))
    (hf : ∀ a s', m s = .ok a s' → GrE z (f a s') (f a s'.strict)) : GrE z ((m >>= f) s) ((m >>= f) s.strict) := by
  rw [M.bind_apply, M.bind_apply]
  revert H hf
  generalize m s = r
  generalize m s.strict = r'
  intro H hf
  cases H with
  | ok => exact hf _ _ rfl
  | err => exact .err

theorem GrE.bind {y : α} {z : β} {m : M Err Stream α} {f : α → M Err Stream β} {s : Stream} (H : GrE y (m s) (m s.strict))
    (hf : ∀ a s', m s = .ok a s' → GrE z (f a s') (f a s'.strict)) (he : ∀ s', m s = .ok y s' → s'.eof = true → ∃ s'', f y s' = .ok z s'' ∧ s''.eof = true) :
    GrE z ((m >>= f) s) ((m >>= f) s.strict) := by
  rw [M.bind_apply, M.bind_apply]
  revert H hf he
  generalize m s = r
  generalize m s.strict = r'
  intro H hf he
  cases H with
  | same H =>
    cases H with
    | ok => exact hf _ _ rfl
    | err => exact .err
  | ended h =>
    obtain ⟨s'', h1, h2⟩ := he _ rfl h
    dsimp only
    rw [h1]; exact .ended h2

/-- A computation to which the setting does not matter. -/
def Gs (m : M Err Stream α) : Prop := ∀ s, Gr (m s) (m s.strict)

theorem Gs.pure_ (a : α) : Gs (pure a : M Err Stream α) := fun _ => .ok
theorem Gs.throw_ (e : Err) : Gs (M.throw e : M Err Stream α) := fun _ => .err
theorem Gs.bind_ {m : M Err Stream α} {f : α → M Err Stream β} (hm : Gs m) (hf : ∀ a, Gs (f a)) : Gs (m >>= f) :=
  fun s => (hm s).bind fun a s' _ => hf a s'
theorem Gs.ite_ (c : Prop) [Decidable c] {m m' : M Err Stream α} (h : Gs m) (h' : Gs m') : Gs (if c then m else m') := by
  split
  · exact h
  · exact h'

theorem trackRead_gs (want : Nat) : Gs (trackRead false want) := by
  intro s
  unfold trackRead
  simp only [strict_pos, strict_inner, Bool.false_eq_true, false_and, and_false, if_false]
  split
  · exact .ok
  split
  · exact .err
  cases s.inner.read want with
  | err e i => exact .err (s := { s with inner := i })
  | ok d i => exact .ok (s := { s with inner := i, pos := s.pos + d.length })

theorem readByteLoop_gs : ∀ fuel, Gs (readByteLoop false fuel) := by
  intro fuel
  induction fuel with
  | zero => intro s; exact .err
  | succ fuel ih =>
    intro s
    have hT := trackRead_gs 1 s
    simp only [readByteLoop]
    revert hT
    generalize trackRead false 1 s = r
    generalize trackRead false 1 s.strict = r'
    intro hT
    cases hT with
    | ok => rename_i d s'; cases d <;> first | exact .err | exact .ok
    | err =>
      rename_i e s'
      cases e with
      | io c => cases c <;> first | exact ih s' | exact .err
      | _ => exact .err

theorem readByte_gs : Gs (readByte false) := fun s => readByteLoop_gs _ s

theorem decodeLoop_gs : ∀ (fuel : Nat) (a : UInt64) (sh : Nat), Gs (decodeLoop (readByte false) fuel a sh) := by
  intro fuel
  induction fuel with
  | zero => intro a sh; exact .throw_ _
  | succ fuel ih =>
    intro a sh
    simp only [decodeLoop]
    refine readByte_gs.bind_ fun b => ?_
    repeat' split
    all_goals first | exact .throw_ _ | exact .pure_ _ | exact ih _ _

theorem decodeU64_gs : Gs (decodeU64 (readByte false)) := decodeLoop_gs _ _ _

theorem drainLoop_gs {rd : Nat → M Err Stream (List Byte)} (hT : ∀ n, Gs (rd n)) : ∀ fuel lim acc, Gs (drainLoop rd fuel lim acc) := by
  intro fuel
  induction fuel with
  | zero => intro _ _ s; exact .err
  | succ fuel ih =>
    intro lim acc s
    have hT := hT lim s
    simp only [drainLoop]
    split
    · exact .ok
    · revert hT
      generalize rd lim s = r
      generalize rd lim s.strict = r'
      intro hT
      cases hT with
      | ok =>
        rename_i d s'
        dsimp only
        split
        · exact .ok
        · exact ih _ _ s'
      | err =>
        rename_i e s'
        cases e with
        | io c => cases c <;> first | exact ih _ _ s' | exact .err
        | _ => exact .err

theorem drain_gs {rd : Nat → M Err Stream (List Byte)} (hT : ∀ n, Gs (rd n)) (n : Nat) : Gs (drain rd n) := fun s => drainLoop_gs hT _ n [] s

theorem skipByDiscard_gs (n : Nat) : Gs (skipByDiscard n) := (drain_gs trackRead_gs n).bind_ fun _ => .pure_ _

theorem innerSeek_gs (f : SeekFrom) : Gs (innerSeek f) := by
  intro s
  unfold innerSeek
  simp only [strict_inner]
  repeat' split
  all_goals first | exact .ok | exact .err | exact .ok (s := { s with inner := _ }) | exact .err (s := { s with inner := _ })

theorem skipSeekDirect_gs (n : Nat) : Gs (skipSeekDirect n) := by
  intro s
  unfold skipSeekDirect
  rw [strict_pos]
  split
  · exact .err
  have key := innerSeek_gs (.current n) s
  revert key
  generalize innerSeek (.current n) s = r
  generalize innerSeek (.current n) s.strict = r'
  intro key
  cases key with
  | ok => rename_i a s'; exact .ok (s := { s' with pos := s'.pos + n })
  | err => rename_i e s'; exact skipByDiscard_gs n s'

theorem skipBySeek_gs : ∀ fuel n, Gs (skipBySeek fuel n) := by
  intro fuel
  induction fuel with
  | zero => intro n s; exact .err
  | succ fuel ih =>
    intro n s
    simp only [skipBySeek]
    rw [M.ite_apply, M.ite_apply]
    split
    · refine (skipSeekDirect_gs I64MAX s).bind fun m s' hr => ?_
      rw [M.ite_apply, M.ite_apply]
      split
      · exact .ok
      · exact (ih _ s').bind fun _ _ _ => .ok
    · exact skipSeekDirect_gs n s

theorem skipBlob_gs : Gs skipBlob := by
  intro s
  unfold skipBlob
  rw [strict_blobEnd, strict_pos, strict_useSeek]
  by_cases h : s.blobEnd > s.pos
  · rw [if_pos h, if_pos h]
    dsimp only
    have key : Gr ((if s.useSeek = true then skipBySeek 4 (s.blobEnd - s.pos) else skipByDiscard (s.blobEnd - s.pos)) s)
        ((if s.useSeek = true then skipBySeek 4 (s.blobEnd - s.pos) else skipByDiscard (s.blobEnd - s.pos)) s.strict) := by
      split
      · exact skipBySeek_gs 4 _ s
      · exact skipByDiscard_gs _ s
    revert key
    generalize (if s.useSeek = true then skipBySeek 4 (s.blobEnd - s.pos) else skipByDiscard (s.blobEnd - s.pos)) s = r
    generalize (if s.useSeek = true then skipBySeek 4 (s.blobEnd - s.pos) else skipByDiscard (s.blobEnd - s.pos)) s.strict = r'
    intro key
    cases key with
    | ok => dsimp only; split <;> first | exact .err | exact .ok
    | err => exact .err
  · rw [if_neg h, if_neg h]; exact .ok

theorem commit_gs {s : Stream} (hi : Inv s) : Gr (commit s) (commit s.strict) := by
  unfold commit
  rw [strict_commit]
  rcases hi.pend with h | ⟨h, -, -⟩
  · rw [h]; exact .ok
  · rw [h]
    dsimp only
    have key := skipBlob_gs s
    revert key
    generalize skipBlob s = r
    generalize skipBlob s.strict = r'
    intro key
    cases key with
    | ok => rename_i u s'; exact .ok (s := { s' with commit := none, live := false })
    | err => rename_i e s'; exact .err (s := { s' with live := false })

theorem checkAdvance_gs (n : Nat) : Gs (checkAdvance n) := by
  intro s
  unfold checkAdvance
  rw [strict_pos]
  split
  · exact .err
  · exact .ok

theorem modify_gs {f : Stream → Stream} (h : ∀ s, f s.strict = (f s).strict) : Gs (M.modify f : M Err Stream Unit) := by
  intro s
  rw [M.modify_apply, M.modify_apply, h]
  exact .ok

theorem nextBlob_gs : Gs nextBlob := by
  unfold nextBlob
  exact decodeU64_gs.bind_ fun n => (checkAdvance_gs _).bind_ fun _ => (modify_gs (by intro s; rfl)).bind_ fun _ => .pure_ _

theorem nextValue_gs (ty : DescTy) : Gs (nextValue ty) := by
  cases ty with
  | integer => exact decodeU64_gs.bind_ fun n => .pure_ _
  | blob => exact nextBlob_gs.bind_ fun n => .pure_ _
  | struct => unfold nextValue; exact Gs.bind_ (modify_gs (by intro s; rfl)) fun n => .pure_ _
  | enum => unfold nextValue; exact decodeU64_gs.bind_ fun n => Gs.bind_ (modify_gs (by intro s; rfl)) fun _ => .pure_ _

/-- Reading a descriptor: the only place where the setting matters. -/
theorem readByteLoop_grace : ∀ fuel s, Gr (readByteLoop true fuel s) (readByteLoop true fuel s.strict) ∨
    ∃ s' t, readByteLoop true fuel s = .ok SpecialTy.endOfDoc.toByte s' ∧ readByteLoop true fuel s.strict = .err (.io .unexpectedEof) t := by
  intro fuel
  induction fuel with
  | zero => intro s; exact .inl .err
  | succ fuel ih =>
    intro s
    have hT : Gr (trackRead true 1 s) (trackRead true 1 s.strict) ∨
        ∃ s' t, trackRead true 1 s = .ok [SpecialTy.endOfDoc.toByte] s' ∧ trackRead true 1 s.strict = .ok [] t := by
      unfold trackRead
      rw [strict_pos, strict_inner, if_neg Nat.one_ne_zero, if_neg Nat.one_ne_zero]
      by_cases h : U64MAX - s.pos < 1
      · rw [if_pos h, if_pos h]; exact .inl .err
      rw [if_neg h, if_neg h]
      cases s.inner.read 1 with
      | err e i => exact .inl (.err (s := { s with inner := i }))
      | ok d i =>
        dsimp only
        by_cases hd : d = []
        · subst hd
          rw [if_neg (show ¬ (_ ∧ _ ∧ s.strict.graceful = true) from fun h => by cases h.2.2)]
          by_cases hg : s.graceful = true
          · rw [if_pos ⟨rfl, rfl, hg⟩]; exact .inr ⟨_, _, rfl, rfl⟩
          · rw [if_neg (fun h => hg h.2.2)]; exact .inl (.ok (s := { s with inner := i, pos := s.pos + 0 }))
        · rw [if_neg (fun h => hd h.1), if_neg (fun h => hd h.1)]
          exact .inl (.ok (s := { s with inner := i, pos := s.pos + d.length }))
    simp only [readByteLoop]
    revert hT
    generalize trackRead true 1 s = r
    generalize trackRead true 1 s.strict = r'
    intro hT
    rcases hT with hT | ⟨s', t, rfl, rfl⟩
    · cases hT with
      | ok => rename_i d s'; cases d <;> first | exact .inl .err | exact .inl .ok
      | err =>
        rename_i e s'
        cases e with
        | io c => cases c <;> first | exact ih s' | exact .inl .err
        | _ => exact .inl .err
    · exact .inr ⟨_, _, rfl, rfl⟩

theorem readElement_grace (s : Stream) : GrE .endOfDoc (readElement s) (readElement s.strict) := by
  have key := readByteLoop_grace (s.inner.sched.length + 1) s
  unfold readElement readByte
  simp only [strict_inner, strict_pos]
  revert key
  generalize readByteLoop true _ s = r
  generalize readByteLoop true _ s.strict = r'
  intro key
  rcases key with key | ⟨s', t, rfl, rfl⟩
  · cases key with
    | err => exact .err
    | ok =>
      rename_i b s'
      dsimp only
      cases Desc.parse b with
      | none => exact .err
      | some d =>
        cases d with
        | pair ty tag =>
          dsimp only
          have : (if s'.strict.depth = 0 then { s'.strict with depth := 1 } else s'.strict) = (if s'.depth = 0 then { s' with depth := 1 } else s').strict := by
            rw [strict_depth]; split <;> rfl
          rw [this, strict_depth]
          exact (nextValue_gs ty _).bindE fun v s2 _ => .ok
        | special sp =>
          cases sp with
          | endOfStruct => exact .ok (s := { s' with depth := s'.depth - 1 })
          | endOfDoc => exact .ok (s := { s' with eof := true, depth := 0 })
          | exception => exact (nextBlob_gs s').bindE fun v s2 _ => .ok
          | padding => exact .ok
  · exact .ended rfl

theorem skipPadLoop_grace : ∀ (fuel : Nat) (s : Stream), GrE .endOfDoc (skipPadLoop fuel s) (skipPadLoop fuel s.strict) := by
  intro fuel
  induction fuel with
  | zero => intro s; exact .err
  | succ fuel ih =>
    intro s
    simp only [skipPadLoop]
    refine (readElement_grace s).bind (fun e s' _ => ?_) fun s' _ he => ⟨s', rfl, he⟩
    · rw [M.ite_apply, M.ite_apply]
      split
      · exact ih s'
      · exact .ok

theorem nextElementImpl_grace (sp : Bool) {s : Stream} (hi : Inv s) : GrE .endOfDoc (nextElementImpl sp s) (nextElementImpl sp s.strict) := by
  unfold nextElementImpl
  rw [strict_eof]
  split
  · exact .ok
  · refine (commit_gs hi).bindE fun _ s' _ => ?_
    cases sp with
    | false => exact readElement_grace s'
    | true =>
      simp only [if_true]
      rw [M.bind_ok (M.get_apply _), M.bind_ok (M.get_apply _), strict_inner]
      exact skipPadLoop_grace _ s'

theorem blobRead_gs (want : Nat) : Gs (blobRead want) := by
  intro s
  unfold blobRead
  rw [strict_remaining]
  dsimp only
  split
  · exact .ok
  · exact trackRead_gs _ s

theorem readFully_gs (max : Nat) : Gs (readFully max) := by
  intro s
  unfold readFully
  rw [strict_remaining]
  split
  · exact .err
  · exact drain_gs blobRead_gs _ s

theorem readOrTrunc_gs (max : Nat) : Gs (readOrTrunc max) := by
  intro s
  unfold readOrTrunc
  rw [strict_remaining]
  exact drain_gs blobRead_gs _ s

theorem blobSlice_gs : Gs blobSlice := by
  unfold blobSlice
  refine Gs.bind_ (fun s => ?_) fun d s => ?_
  · unfold innerSlice
    rw [strict_inner]
    split
    · exact .err
    · exact .ok
  · rw [M.bind_ok (M.get_apply _), M.bind_ok (M.get_apply _), strict_remaining, M.ite_apply, M.ite_apply]
    split
    · exact .ok
    · exact .err

theorem nextField_grace {s : Stream} (hi : Inv s) : GrE none (nextField s) (nextField s.strict) := by
  unfold nextField
  refine (nextElementImpl_grace true hi).bind (fun e s' _ => ?_) fun s' _ he => ⟨s', rfl, he⟩
  cases e with
  | padding => exact .err
  | endOfStruct => exact .ok
  | endOfDoc => exact .ok
  | field f => exact .ok
  | exception n => exact (readOrTrunc_gs 256 s').bindE fun m s2 _ => .err

theorem skipUpLoop_grace (d : Nat) : ∀ fuel {s : Stream}, Inv s → (∃ s', skipUpLoop d fuel s = .err .hang s') ∨ GrE () (skipUpLoop d fuel s) (skipUpLoop d fuel s.strict) := by
  intro fuel
  induction fuel with
  | zero => intro s _; exact .inr .err
  | succ fuel ih =>
    intro s hi
    rw [skipUpLoop, skipUpLoop, strict_depth]
    split
    · have hs := (nextElementImpl_safe false hi).1.step
      have key : GrE _ (nextElement s) (nextElement s.strict) := nextElementImpl_grace false hi
      rw [M.bind_apply, M.bind_apply]
      rw [show nextElementImpl false s = nextElement s from rfl] at hs
      revert key hs
      generalize nextElement s = r
      generalize nextElement s.strict = r'
      intro hs key
      cases key with
      | same key =>
        cases key with
        | ok => exact ih hs.inv
        | err => exact .inr .err
      | ended h =>
        cases fuel with
        | zero => exact .inl ⟨_, rfl⟩
        | succ fuel =>
          have := hs.inv.eofDepth h
          simp only [Res.state_ok] at this
          dsimp only
          rw [skipUpLoop, if_neg (by omega)]
          exact .inr (.ended h)
    · exact .inr .ok

theorem skipUp_grace (d : Nat) {s : Stream} (hi : Inv s) : GrE () (skipUp d s) (skipUp d s.strict) := by
  rcases skipUpLoop_grace d (s.inner.data.length - s.inner.pos + 2) hi with ⟨s', h⟩ | h
  · exact absurd ((Op.exec_safe (.skipUp d) hi).normal _ _ h) (by decide)
  · exact h

theorem onLiveBlob_gs {m : M Err Stream α} (h : Gs m) : Gs (onLiveBlob m) := by
  intro s
  unfold onLiveBlob
  rw [strict_live]
  split
  · exact h s
  · exact .err

/-- What a call returns at the end of the document. -/
def Op.atEnd : {β : Type} → Op β → β
  | _, .nextField => none
  | _, .nextElement => .endOfDoc
  | _, .skipUp _ => ()
  | _, .commit => ()
  | _, .clearEof => ()
  | _, .eof => true
  | _, .pos => 0
  | _, .structDepth => 0
  | _, .readFully _ => []
  | _, .readOrTrunc _ => []
  | _, .read _ => []
  | _, .slice => []
  | _, .remaining => 0

theorem Op.exec_quiet_gs {β : Type} (o : Op β) (h : o.quiet) (s : Stream) : Gr (o.exec s) (o.exec s.strict) := by
  cases o with
  | nextField | nextElement | skipUp d | commit => exact h.elim
  | clearEof => exact .ok (s := { s with eof := false })
  | eof => exact .ok
  | pos => exact .ok
  | structDepth => exact .ok
  | readFully max => exact onLiveBlob_gs (readFully_gs max) s
  | readOrTrunc max => exact onLiveBlob_gs (readOrTrunc_gs max) s
  | read want => exact onLiveBlob_gs (blobRead_gs want) s
  | slice => exact onLiveBlob_gs blobSlice_gs s
  | remaining => exact onLiveBlob_gs (m := fun s => .ok (blobRemaining s) s) (fun s => .ok) s

theorem Op.exec_grace {β : Type} (o : Op β) {s : Stream} (hi : Inv s) : GrE o.atEnd (o.exec s) (o.exec s.strict) := by
  cases o with
  | nextField => exact nextField_grace hi
  | nextElement => exact nextElementImpl_grace false hi
  | skipUp d => exact skipUp_grace d hi
  | commit => exact .same (commit_gs hi)
  | _ => refine .same (Op.exec_quiet_gs _ ?_ s); trivial

theorem pull_grace (fields : Bool) {s : Stream} (hi : Inv s) : GrE none (pull fields s) (pull fields s.strict) := by
  unfold pull
  cases fields with
  | true =>
    have key := nextField_grace hi
    simp only [if_true]
    revert key
    generalize nextField s = r
    generalize nextField s.strict = r'
    intro key
    cases key with
    | same key =>
      cases key with
      | ok => rename_i o s'; cases o <;> exact .ok
      | err => exact .err
    | ended h => exact .ended h
  | false =>
    have key : GrE _ (nextElement s) (nextElement s.strict) := nextElementImpl_grace false hi
    simp only [Bool.false_eq_true, if_false]
    revert key
    generalize nextElement s = r
    generalize nextElement s.strict = r'
    intro key
    cases key with
    | same key =>
      cases key with
      | ok => rename_i o s'; cases o <;> exact .ok
      | err => exact .err
    | ended h => exact .ended h

/-- The same outcome of a client on both streams. -/
inductive GP {ε U α : Type} : Res (Stop ε) (PSt U) α → Res (Stop ε) (PSt U) α → Prop where
  | ok {a s u} : GP (.ok a (s, u)) (.ok a (s.strict, u))
  | err {e s u} : GP (.err e (s, u)) (.err e (s.strict, u))

/-- The graceful stream is now at its end, and on the other one the client has reported the unexpected end of the input. -/
def GD {ε U α : Type} (D : Option (ε → Prop)) (r r' : Res (Stop ε) (PSt U) α) : Prop :=
  r.state.1.eof = true ∧ ∀ D', D = some D' → ∃ d st, r' = .err (.client d) st ∧ D' d

open Props (run_at_eof notClear)

theorem runLoop_grace {ε U β α : Type} (D : Option (ε → Prop)) (fields : Bool) (body : β → Element → M (Stop ε) (PSt U) (β ⊕ α)) (onErr : Err → M (Stop ε) (PSt U) α)
    (onEnd : β → M (Stop ε) (PSt U) α)
    (sb : ∀ b e s u, Inv s → Inv (body b e (s, u)).state.1)
    (hb : ∀ b e s u, Inv s → GP (body b e (s, u)) (body b e (s.strict, u)) ∨ GD D (body b e (s, u)) (body b e (s.strict, u)))
    (he : ∀ e s u, Inv s → GP (onErr e (s, u)) (onErr e (s.strict, u)) ∨ GD D (onErr e (s, u)) (onErr e (s.strict, u)))
    (hend : ∀ b s u, Inv s → GP (onEnd b (s, u)) (onEnd b (s.strict, u)) ∨ GD D (onEnd b (s, u)) (onEnd b (s.strict, u)))
    (hstuck : ∀ b s u, Inv s → s.eof = true → (onEnd b (s, u)).state.1 = s)
    (hD : ∀ D', D = some D' → ∃ d, (∀ st, onErr (.io .unexpectedEof) st = .err (.client d) st) ∧ D' d) :
    ∀ fuel b s u, Inv s → (∃ s', (runLoop fields body onErr onEnd fuel b (s, u)) = .err (.abort .hang) s') ∨
      GP (runLoop fields body onErr onEnd fuel b (s, u)) (runLoop fields body onErr onEnd fuel b (s.strict, u)) ∨
      GD D (runLoop fields body onErr onEnd fuel b (s, u)) (runLoop fields body onErr onEnd fuel b (s.strict, u)) := by
  intro fuel
  induction fuel with
  | zero => intro b s u _; exact .inl ⟨_, rfl⟩
  | succ fuel ih =>
    intro b s u hi
    simp only [runLoop]
    have key := pull_grace fields hi
    have hs : Inv (pull fields s).state := (pull_safe fields hi).1.step.inv
    revert key hs
    generalize pull fields s = r
    generalize pull fields s.strict = r'
    intro key hs
    cases key with
    | same key =>
      cases key with
      | err =>
        rename_i e s'
        dsimp only
        split
        · exact .inr (.inl .err)
        · exact .inr (he e s' u hs)
      | ok =>
        rename_i o s'
        cases o with
        | none => exact .inr (hend b s' u hs)
        | some el =>
          dsimp only
          have k1 := hb b el s' u hs
          have k2 := sb b el s' u hs
          revert k1 k2
          generalize body b el (s', u) = q
          generalize body b el (s'.strict, u) = q'
          intro k1 k2
          rcases k1 with k1 | ⟨k1, k3⟩
          · cases k1 with
            | ok =>
              rename_i x s2 u2
              cases x with
              | inl b' => exact ih b' s2 u2 k2
              | inr a => exact .inr (.inl .ok)
            | err => exact .inr (.inl .err)
          · cases q with
            | err e st => exact .inr (.inr ⟨k1, fun D' h => by obtain ⟨d, st', rfl, h2⟩ := k3 D' h; exact ⟨d, st', rfl, h2⟩⟩)
            | ok x st =>
              obtain ⟨s2, u2⟩ := st
              cases x with
              | inr a => exact .inr (.inr ⟨k1, fun D' h => by obtain ⟨d, st', rfl, h2⟩ := k3 D' h; exact ⟨d, st', rfl, h2⟩⟩)
              | inl b' =>
                dsimp only
                cases fuel with
                | zero => exact .inl ⟨_, rfl⟩
                | succ fuel =>
                  refine .inr (.inr ⟨?_, fun D' h => by obtain ⟨d, st', rfl, h2⟩ := k3 D' h; exact ⟨d, st', rfl, h2⟩⟩)
                  have k1 : s2.eof = true := k1
                  simp only [runLoop, Props.pull_at_eof fields s2 k1]
                  rw [hstuck b' s2 u2 k2 k1]; exact k1
    | ended h =>
      rename_i s' t
      dsimp only
      refine .inr (.inr ⟨by rw [hstuck b s' u hs h]; exact h, fun D' hD' => ?_⟩)
      obtain ⟨d, h1, h2⟩ := hD D' hD'
      exact ⟨d, _, by rw [if_neg (by decide)]; exact h1 _, h2⟩

theorem Prog.run_grace {ε U : Type} : ∀ {α : Type} (p : Prog ε U α), p.OpsAll notClear → ∀ (s : Stream) (u : U), Inv s →
    GP (p.run (s, u)) (p.run (s.strict, u)) ∨ ((p.run (s, u)).state.1.eof = true ∧ ∀ D, p.Ends D → ∃ d st, p.run (s.strict, u) = .err (.client d) st ∧ D d) := by
  intro α p
  induction p with
  | ret a => intro _ s u _; exact .inl .ok
  | fail e => intro _ s u _; exact .inl .err
  | getU => intro _ s u _; exact .inl .ok
  | setU u' => intro _ s u _; exact .inl .ok
  | op o =>
    intro _ s u hi
    simp only [Prog.run]
    by_cases hq : o.quiet
    · have key := o.exec_quiet_gs hq s
      revert key
      generalize o.exec s = r
      generalize o.exec s.strict = r'
      intro key
      cases key with
      | ok => exact .inl .ok
      | err => dsimp only; split <;> first | exact .inl .err | exact .inl .ok
    · have key := o.exec_grace hi
      revert key
      generalize o.exec s = r
      generalize o.exec s.strict = r'
      intro key
      cases key with
      | same key =>
        cases key with
        | ok => exact .inl .ok
        | err => dsimp only; split <;> first | exact .inl .err | exact .inl .ok
      | ended h => exact .inr ⟨h, fun D h => absurd h hq⟩
  | call o f =>
    intro _ s u hi
    simp only [Prog.run]
    by_cases hq : o.quiet
    · have key := o.exec_quiet_gs hq s
      revert key
      generalize o.exec s = r
      generalize o.exec s.strict = r'
      intro key
      cases key with
      | ok => exact .inl .ok
      | err => dsimp only; split <;> exact .inl .err
    · have key := o.exec_grace hi
      revert key
      generalize o.exec s = r
      generalize o.exec s.strict = r'
      intro key
      cases key with
      | same key =>
        cases key with
        | ok => exact .inl .ok
        | err => dsimp only; split <;> exact .inl .err
      | ended h => exact .inr ⟨h, fun D h => ⟨f (.io .unexpectedEof), (_, u), rfl, h.resolve_left hq⟩⟩
  | bind p f ihp ihf =>
    intro ho s u hi
    have hS := (p.run_safe (s, u) hi).step.inv
    have hP := ihp ho.1 s u hi
    simp only [Prog.run]
    revert hP hS
    generalize p.run (s, u) = r
    generalize p.run (s.strict, u) = r'
    intro hS hP
    rcases hP with hP | ⟨h1, h2⟩
    · cases hP with
      | ok =>
        rename_i a s' u'
        refine (ihf a (ho.2 a) s' u' hS).imp_right fun h => ⟨h.1, fun D hD => h.2 D (hD.2 a)⟩
      | err => exact .inl .err
    · refine .inr ⟨?_, fun D hD => ?_⟩
      · cases r with
        | err e st => exact h1
        | ok a st =>
          obtain ⟨s', u'⟩ := st
          dsimp only
          rw [run_at_eof _ (ho.2 a) s' u' hS h1]; exact h1
      · obtain ⟨d, st, rfl, h⟩ := h2 D hD.1
        exact ⟨d, st, rfl, h⟩
  | attempt p ih =>
    intro ho s u hi
    have hP := ih ho s u hi
    simp only [Prog.run]
    revert hP
    generalize p.run (s, u) = r
    generalize p.run (s.strict, u) = r'
    intro hP
    rcases hP with hP | ⟨h1, h2⟩
    · cases hP with
      | ok => exact .inl .ok
      | err => rename_i e s' u'; cases e <;> first | exact .inl .ok | exact .inl .err
    · refine .inr ⟨?_, fun D hD => ?_⟩
      · cases r with
        | ok a st => exact h1
        | err e st => cases e <;> exact h1
      · obtain ⟨d, st, -, h⟩ := h2 _ hD
        exact h.elim
  | loop fields init body onErr onEnd ihb ihe ihd =>
    intro ho s u hi
    have conv : ∀ {γ : Type} (q : Prog ε U γ) (s : Stream) (u : U) (D : Option (ε → Prop)), (∀ D', D = some D' → q.Ends D') →
        (GP (q.run (s, u)) (q.run (s.strict, u)) ∨ ((q.run (s, u)).state.1.eof = true ∧ ∀ D, q.Ends D → ∃ d st, q.run (s.strict, u) = .err (.client d) st ∧ D d)) →
        GP (q.run (s, u)) (q.run (s.strict, u)) ∨ GD D (q.run (s, u)) (q.run (s.strict, u)) := fun q s u D hD h => h.imp_right fun h => ⟨h.1, fun D' e => h.2 D' (hD D' e)⟩
    have main : ∀ D : Option (ε → Prop), (∀ D', D = some D' → (Prog.loop fields init body onErr onEnd).Ends D') →
        GP ((Prog.loop fields init body onErr onEnd).run (s, u)) ((Prog.loop fields init body onErr onEnd).run (s.strict, u)) ∨
        GD D ((Prog.loop fields init body onErr onEnd).run (s, u)) ((Prog.loop fields init body onErr onEnd).run (s.strict, u)) := by
      intro D hD
      have hS := (Prog.loop fields init body onErr onEnd).run_safe (s, u) hi
      simp only [Prog.run] at hS ⊢
      rcases runLoop_grace D fields (fun b e => (body b e).run) (fun e => (onErr e).run) (fun b => (onEnd b).run)
        (fun b e s u h => ((body b e).run_safe (s, u) h).step.inv)
        (fun b e s u h => conv _ s u D (fun D' e' => (hD D' e').1 b e) (ihb b e (ho.1 b e) s u h))
        (fun e s u h => conv _ s u D (fun D' e' => (hD D' e').2.2.1 e) (ihe e (ho.2.1 e) s u h))
        (fun b s u h => conv _ s u D (fun D' e' => (hD D' e').2.2.2 b) (ihd b (ho.2.2 b) s u h))
        (fun b s u h h' => run_at_eof _ (ho.2.2 b) s u h h')
        (fun D' e' => by obtain ⟨d, h1, h2⟩ := (hD D' e').2.1; exact ⟨d, fun st => by rw [h1]; rfl, h2⟩)
        (s.inner.data.length - s.inner.pos + 2) init s u hi with ⟨s', h⟩ | h
      · exact (hS.normal _ _ h).elim
      · exact h
    by_cases hg : GP ((Prog.loop fields init body onErr onEnd).run (s, u)) ((Prog.loop fields init body onErr onEnd).run (s.strict, u))
    · exact .inl hg
    · exact .inr ⟨((main none (fun D' h => by cases h)).resolve_left hg).1, fun D hD => ((main (some D) (fun D' h => by cases h; exact hD)).resolve_left hg).2 D rfl⟩

theorem Stream.strict_of {s : Stream} (h : s.graceful ≠ true) : s.strict = s := by
  cases s; simp [Stream.strict] at h ⊢; exact h

theorem Inv.strict {s : Stream} (h : Inv s) : Inv s.strict := ⟨h.pos_le, h.pend, h.eofCommit, h.eofDepth, h.liveOk⟩

/-- A run that did not bring the stream to its end. -/
theorem strict_run_client {ε U α : Type} {p : Prog ε U α} {s : Stream} {u : U} (hi : Inv s) (hg : s.graceful = true → p.OpsAll notClear) {a : α} {s' : Stream} {u' : U}
    (h : p.run (s, u) = .ok a (s', u')) (he : s.graceful = true → s'.eof = false) : p.run (s.strict, u) = .ok a (s'.strict, u') := by
  by_cases hs : s.graceful = true
  · rcases p.run_grace (hg hs) s u hi with h1 | ⟨h1, -⟩
    · rw [h] at h1; revert h1; generalize p.run (s.strict, u) = r; intro h1; cases h1; rfl
    · rw [h] at h1; have h1 : s'.eof = true := h1; rw [he hs] at h1; cases h1
  · have hst := (p.run_safe (s, u) hi).step.frame.graceful
    rw [h] at hst
    have hst : s'.graceful = s.graceful := hst
    rw [Stream.strict_of hs, Stream.strict_of (by rw [hst]; exact hs)]; exact h

theorem strict_run_client_err {ε U α : Type} {p : Prog ε U α} {s : Stream} {u : U} (hi : Inv s) (hg : s.graceful = true → p.OpsAll notClear) {e : Stop ε} {s' : Stream} {u' : U}
    (h : p.run (s, u) = .err e (s', u')) (he : s.graceful = true → s'.eof = false) : p.run (s.strict, u) = .err e (s'.strict, u') := by
  by_cases hs : s.graceful = true
  · rcases p.run_grace (hg hs) s u hi with h1 | ⟨h1, -⟩
    · rw [h] at h1; revert h1; generalize p.run (s.strict, u) = r; intro h1; cases h1; rfl
    · rw [h] at h1; have h1 : s'.eof = true := h1; rw [he hs] at h1; cases h1
  · have hst := (p.run_safe (s, u) hi).step.frame.graceful
    rw [h] at hst
    have hst : s'.graceful = s.graceful := hst
    rw [Stream.strict_of hs, Stream.strict_of (by rw [hst]; exact hs)]; exact h

theorem strict_run {ε U α : Type} {p : Prog ε U α} (hp : p.OpsAll notClear) {s : Stream} {u : U} (hi : Inv s) {a : α} {s' : Stream} {u' : U}
    (h : p.run (s, u) = .ok a (s', u')) (he : s.graceful = true → s'.eof = false) : p.run (s.strict, u) = .ok a (s'.strict, u') := strict_run_client hi (fun _ => hp) h he

end Fourleaf
