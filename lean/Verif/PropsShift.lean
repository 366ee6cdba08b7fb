import Verif.ShiftDe
import Verif.Stale
import Verif.PropsPad
import Verif.PropsDe

/-! # C73: it does not matter where in the stream the bytes lie -/

namespace Fourleaf
open Spec

/-- Subtract `k` from the byte offsets in the result of a call. -/
def Op.back (k : Nat) : {β : Type} → Op β → β → β
  | _, .nextField, r => r.map fun f => { f with pos := f.pos - k }
  | _, .nextElement, .field f => .field { f with pos := f.pos - k }
  | _, .nextElement, e => e
  | _, .pos, n => n - k
  | _, .skipUp _, x | _, .commit, x | _, .clearEof, x | _, .eof, x | _, .structDepth, x | _, .readFully _, x
  | _, .readOrTrunc _, x | _, .read _, x | _, .slice, x | _, .remaining, x => x

/-- The program, except that it gets to see all byte offsets relative to `k`. -/
def Prog.rel {ε U : Type} (k : Nat) : {α : Type} → Prog ε U α → Prog ε U α
  | _, .ret a => .ret a
  | _, .fail e => .fail e
  | _, .op o => .bind (.op o) fun r => .ret (match r with | .ok b => .ok (o.back k b) | .error e => .error e)
  | _, .call o f => .bind (.call o f) fun b => .ret (o.back k b)
  | _, .getU => .getU
  | _, .setU u => .setU u
  | _, .bind p f => .bind (p.rel k) fun a => (f a).rel k
  | _, .attempt p => .attempt (p.rel k)
  | _, .loop fields init body onErr onEnd =>
    .loop fields init (fun b e => (body b (Op.back k .nextElement e)).rel k) (fun e => (onErr e).rel k) (fun b => (onEnd b).rel k)

/-- No call in the iterations of a loop finds the positions exhausted; `bodyS`, `onErrS`, `onEndS` say so of its parts. -/
def loopSmooth {ε U β α : Type} (fields : Bool) (body : β → Element → M (Stop ε) (PSt U) (β ⊕ α)) (bodyS : β → Element → PSt U → Prop)
    (onErrS : Err → PSt U → Prop) (onEndS : β → PSt U → Prop) : Nat → β → PSt U → Prop
  | 0, _, _ => True
  | fuel + 1, b, st =>
    match pull fields st.1 with
    | .err e s => e ≠ posOverflow ∧ onErrS e (s, st.2)
    | .ok none s => onEndS b (s, st.2)
    | .ok (some el) s => bodyS b el (s, st.2) ∧ ∀ b' st', body b el (s, st.2) = .ok (.inl b') st' → loopSmooth fields body bodyS onErrS onEndS fuel b' st'

/-- When run from the given state, no call of the program finds the positions (`u64`) exhausted. -/
def Prog.Smooth {ε U : Type} : {α : Type} → Prog ε U α → PSt U → Prop
  | _, .ret _, _ => True
  | _, .fail _, _ => True
  | _, .op o, st => ∀ s', o.exec st.1 ≠ .err posOverflow s'
  | _, .call o _, st => ∀ s', o.exec st.1 ≠ .err posOverflow s'
  | _, .getU, _ => True
  | _, .setU _, _ => True
  | _, .bind p f, st => p.Smooth st ∧ ∀ a st', p.run st = .ok a st' → (f a).Smooth st'
  | _, .attempt p, st => p.Smooth st
  | _, .loop fields init body onErr onEnd, st =>
    loopSmooth fields (fun b e => (body b e).run) (fun b e => (body b e).Smooth) (fun e => (onErr e).Smooth) (fun b => (onEnd b).Smooth)
      (st.1.inner.data.length - st.1.inner.pos + 2) init st

theorem Op.back_sh (k : Nat) {β : Type} (o : Op β) (x : β) : o.back k (o.sh k x) = x := by
  cases o with
  | nextField => cases x <;> simp [Op.back, Op.sh, Field.sh]
  | nextElement => cases x <;> simp [Op.back, Op.sh, Field.sh, Element.sh]
  | pos => simp [Op.back, Op.sh]
  | _ => rfl

/-- The same outcome on the stream further ahead. -/
inductive RunSh {ε U α : Type} (k : Nat) (A : List Byte) : Res (Stop ε) (PSt U) α → Res (Stop ε) (PSt U) α → Prop where
  | ok {a s u} : RunSh k A (.ok a (s, u)) (.ok a (moved k A s, u))
  | err {e s u} : RunSh k A (.err e (s, u)) (.err e (moved k A s, u))

theorem Both.run {ε U α : Type} {k : Nat} {A : List Byte} {s s' : Stream} {u u' : U} {p p' : Prog ε U α} {a a' : α} (hb : Both k A s) (h : p.run (s, u) = .ok a (s', u'))
    (h' : p'.run (moved k A s, u) = .ok a' (moved k A s', u')) : Both k A s' := by
  have h1 := (Prog.run_safe p (s, u) hb.inv).step
  have h2 := (Prog.run_safe p' (moved k A s, u) hb.inv').step
  rw [h] at h1
  rw [h'] at h2
  exact hb.step h1 h2

theorem runLoop_sh {ε U β α : Type} {k : Nat} {A : List Byte} (fields : Bool) (body : β → Element → Prog ε U (β ⊕ α)) (onErr : Err → Prog ε U α) (onEnd : β → Prog ε U α)
    (hB : ∀ b e s u, Both k A s → ((body b e).rel k).Smooth (moved k A s, u) → RunSh k A ((body b e).run (s, u)) (((body b e).rel k).run (moved k A s, u)))
    (hE : ∀ e s u, Both k A s → ((onErr e).rel k).Smooth (moved k A s, u) → RunSh k A ((onErr e).run (s, u)) (((onErr e).rel k).run (moved k A s, u)))
    (hD : ∀ b s u, Both k A s → ((onEnd b).rel k).Smooth (moved k A s, u) → RunSh k A ((onEnd b).run (s, u)) (((onEnd b).rel k).run (moved k A s, u))) : ∀ fuel b s u, Both k A s →
    loopSmooth fields (fun b e => ((body b (Op.back k .nextElement e)).rel k).run) (fun b e => ((body b (Op.back k .nextElement e)).rel k).Smooth)
      (fun e => ((onErr e).rel k).Smooth) (fun b => ((onEnd b).rel k).Smooth) fuel b (moved k A s, u) →
    RunSh k A (runLoop fields (fun b e => (body b e).run) (fun e => (onErr e).run) (fun b => (onEnd b).run) fuel b (s, u))
      (runLoop fields (fun b e => ((body b (Op.back k .nextElement e)).rel k).run) (fun e => ((onErr e).rel k).run) (fun b => ((onEnd b).rel k).run) fuel b (moved k A s, u)) := by
  intro fuel
  induction fuel with
  | zero => intro b s u hb _; exact .err
  | succ fuel ih =>
    intro b s u hb
    simp only [runLoop, loopSmooth]
    have hq := pull_sh (A := A) fields hb.low hb.inv
    have hs := (pull_safe fields hb.inv).1
    have hs' := (pull_safe fields hb.inv').1
    revert hq hs hs'
    generalize pull fields s = r
    generalize pull fields (moved k A s) = r'
    intro hq hs hs' hm
    cases hq with
    | over => exact absurd rfl hm.1
    | err =>
      rename_i e s'
      have := hs.normal e s' rfl
      simp only [this, Bool.false_eq_true, if_false]
      exact hE _ _ _ (hb.step hs.step hs'.step) hm.2
    | ok =>
      rename_i o1 s'
      have hb' : Both k A s' := hb.step hs.step hs'.step
      cases o1 with
      | none => exact hD _ _ _ hb' hm
      | some el =>
        simp only [Option.map] at hm ⊢
        rw [show el.sh k = Op.sh k .nextElement el from rfl, Op.back_sh] at hm ⊢
        have hB := hB b el s' u hb' hm.1
        have hsafe := Prog.run_safe (body b el) (s', u) hb'.inv
        have hsafe' := Prog.run_safe ((body b el).rel k) (moved k A s', u) hb'.inv'
        have hm := hm.2
        revert hB hsafe hsafe' hm
        generalize (body b el).run (s', u) = r
        generalize ((body b el).rel k).run (moved k A s', u) = r'
        intro hB hsafe hsafe' hm
        cases hB with
        | err => exact .err
        | ok =>
          rename_i y s2 u2
          cases y with
          | inl x' => exact ih x' s2 u2 (hb'.step hsafe.step hsafe'.step) (hm x' _ rfl)
          | inr y => exact .ok

theorem Prog.run_sh {ε U : Type} {k : Nat} {A : List Byte} : ∀ {α : Type} (p : Prog ε U α) (s : Stream) (u : U), Both k A s → (p.rel k).Smooth (moved k A s, u) →
    RunSh k A (p.run (s, u)) ((p.rel k).run (moved k A s, u)) := by
  intro α p
  induction p with
  | ret a => intro s u hb _; exact .ok
  | fail e => intro s u hb _; exact .err
  | getU => intro s u hb _; exact .ok
  | setU u' => intro s u hb _; exact .ok
  | op o =>
    intro s u hb hm
    have key := o.exec_sh hb.low hb.inv
    have hs := o.exec_safe hb.inv
    simp only [Prog.rel, Prog.Smooth] at hm
    have hm := hm.1
    simp only [Prog.run, Prog.rel]
    revert key hs hm
    generalize o.exec s = r
    generalize o.exec (moved k A s) = r'
    intro key hs hm
    cases key with
    | over => exact absurd rfl (hm _)
    | ok => simp only [Op.back_sh]; exact .ok
    | err =>
      rename_i e s'
      simp only [hs.normal e s' rfl, Bool.false_eq_true, if_false]
      exact .ok
  | call o f =>
    intro s u hb hm
    have key := o.exec_sh hb.low hb.inv
    have hs := o.exec_safe hb.inv
    simp only [Prog.rel, Prog.Smooth] at hm
    have hm := hm.1
    simp only [Prog.run, Prog.rel]
    revert key hs hm
    generalize o.exec s = r
    generalize o.exec (moved k A s) = r'
    intro key hs hm
    cases key with
    | over => exact absurd rfl (hm _)
    | ok => simp only [Op.back_sh]; exact .ok
    | err =>
      rename_i e s'
      simp only [hs.normal e s' rfl, Bool.false_eq_true, if_false]
      exact .err
  | bind p f ihp ihf =>
    intro s u hb hm
    simp only [Prog.rel, Prog.Smooth] at hm
    have h1 := ihp s u hb hm.1
    simp only [Prog.run, Prog.rel]
    cases hr : p.run (s, u) with
    | ok a st =>
      obtain ⟨s', u'⟩ := st
      rw [hr] at h1
      have hr' : (p.rel k).run (moved k A s, u) = .ok a (moved k A s', u') := by
        generalize (p.rel k).run (moved k A s, u) = r' at h1
        cases h1; rfl
      rw [hr']
      exact ihf a s' u' (hb.run hr hr') (hm.2 _ _ hr')
    | err e st =>
      obtain ⟨s', u'⟩ := st
      rw [hr] at h1
      have hr' : (p.rel k).run (moved k A s, u) = .err e (moved k A s', u') := by
        generalize (p.rel k).run (moved k A s, u) = r' at h1
        cases h1; rfl
      rw [hr']
      exact .err
  | attempt p ih =>
    intro s u hb hm
    have h1 := ih s u hb hm
    simp only [Prog.run, Prog.rel]
    revert h1
    generalize p.run (s, u) = r
    generalize (p.rel k).run (moved k A s, u) = r'
    intro h1
    cases h1 with
    | ok => exact .ok
    | err =>
      rename_i e s' u'
      cases e
      · exact .ok
      · exact .err
  | loop fields init body onErr onEnd ihb ihe ihd =>
    intro s u hb hm
    simp only [Prog.rel, Prog.Smooth, moved_left] at hm
    simp only [Prog.run, Prog.rel, moved_left]
    exact runLoop_sh fields body onErr onEnd ihb ihe ihd _ _ _ _ hb hm

/-! ### `Smooth` does not depend on left-overs -/

theorem loopSmooth_st {ε U β α : Type} (fields : Bool) (body : β → Element → Prog ε U (β ⊕ α)) (onErr : Err → Prog ε U α) (onEnd : β → Prog ε U α)
    (hB : ∀ b e s t u, St s t → (body b e).Smooth (s, u) → (body b e).Smooth (t, u))
    (hE : ∀ e s t u, St s t → (onErr e).Smooth (s, u) → (onErr e).Smooth (t, u))
    (hD : ∀ b s t u, St s t → (onEnd b).Smooth (s, u) → (onEnd b).Smooth (t, u)) : ∀ fuel b s t u, St s t →
    loopSmooth fields (fun b e => (body b e).run) (fun b e => (body b e).Smooth) (fun e => (onErr e).Smooth) (fun b => (onEnd b).Smooth) fuel b (s, u) →
    loopSmooth fields (fun b e => (body b e).run) (fun b e => (body b e).Smooth) (fun e => (onErr e).Smooth) (fun b => (onEnd b).Smooth) fuel b (t, u) := by
  intro fuel
  induction fuel with
  | zero => intro b s t u _ _; exact True.intro
  | succ fuel ih =>
    intro b s t u h
    simp only [loopSmooth]
    have hP := pull_rs fields h
    cases hr : pull fields s with
    | err e s' =>
      obtain ⟨t', h1, h2⟩ := hP.err e s' hr
      rw [h1]
      exact fun hm => ⟨hm.1, hE _ _ _ _ h2 hm.2⟩
    | ok o s' =>
      obtain ⟨t', h1, h2⟩ := hP.ok o s' hr
      rw [h1]
      cases o with
      | none => exact fun hm => hD _ _ _ _ h2 hm
      | some el =>
        refine fun hm => ⟨hB _ _ _ _ _ h2 hm.1, fun b' st' hr' => ?_⟩
        have hrun := Prog.run_rs (body b el) s' t' u h2
        cases hr2 : (body b el).run (s', u) with
        | err e st2 => obtain ⟨t2, h3, h4⟩ := hrun.err e st2 hr2; rw [h3] at hr'; cases hr'
        | ok x st2 =>
          obtain ⟨t2, h3, h4⟩ := hrun.ok x st2 hr2
          rw [h3] at hr'
          cases hr'
          exact ih b' st2.1 t2 st2.2 h4 (hm.2 b' st2 hr2)

theorem Prog.smooth_st {ε U : Type} : ∀ {α : Type} (p : Prog ε U α) (s t : Stream) (u : U), St s t → p.Smooth (s, u) → p.Smooth (t, u) := by
  intro α p
  have one : ∀ {β : Type} (o : Op β) {s t : Stream}, St s t → (∀ s', o.exec s ≠ .err posOverflow s') → ∀ s', o.exec t ≠ .err posOverflow s' := by
    intro β o s t h hm s' hr'
    have hO := o.exec_rs h
    cases hr : o.exec s with
    | ok b s1 => obtain ⟨t1, h1, h2⟩ := hO.ok b s1 hr; rw [h1] at hr'; cases hr'
    | err e s1 => obtain ⟨t1, h1, h2⟩ := hO.err e s1 hr; rw [h1] at hr'; cases hr'; exact hm _ hr
  induction p with
  | ret a => intro s t u _ _; exact True.intro
  | fail e => intro s t u _ _; exact True.intro
  | getU => intro s t u _ _; exact True.intro
  | setU u' => intro s t u _ _; exact True.intro
  | op o => intro s t u h hm; exact one o h hm
  | call o f => intro s t u h hm; exact one o h hm
  | bind p f ihp ihf =>
    intro s t u h hm
    refine ⟨ihp s t u h hm.1, fun a st' hr' => ?_⟩
    have hrun := Prog.run_rs p s t u h
    cases hr2 : p.run (s, u) with
    | err e st2 => obtain ⟨t2, h3, h4⟩ := hrun.err e st2 hr2; rw [h3] at hr'; cases hr'
    | ok x st2 =>
      obtain ⟨t2, h3, h4⟩ := hrun.ok x st2 hr2
      rw [h3] at hr'
      cases hr'
      exact ihf _ st2.1 t2 st2.2 h4 (hm.2 _ st2 hr2)
  | attempt p ih => intro s t u h hm; exact ih s t u h hm
  | loop fields init body onErr onEnd ihb ihe ihd =>
    intro s t u h hm
    simp only [Prog.Smooth] at hm ⊢
    rw [h.inner]
    exact loopSmooth_st fields body onErr onEnd ihb ihe ihd _ _ _ _ _ h hm

/-! ### Deciding `Smooth`, for examples -/

def loopSmoothB {ε U β α : Type} (fields : Bool) (body : β → Element → M (Stop ε) (PSt U) (β ⊕ α)) (bodyS : β → Element → PSt U → Bool)
    (onErrS : Err → PSt U → Bool) (onEndS : β → PSt U → Bool) : Nat → β → PSt U → Bool
  | 0, _, _ => true
  | fuel + 1, b, st =>
    match pull fields st.1 with
    | .err e s => decide (e ≠ posOverflow) && onErrS e (s, st.2)
    | .ok none s => onEndS b (s, st.2)
    | .ok (some el) s => bodyS b el (s, st.2) && match body b el (s, st.2) with | .ok (.inl b') st' => loopSmoothB fields body bodyS onErrS onEndS fuel b' st' | _ => true

def smoothOp {β : Type} (o : Op β) (s : Stream) : Bool := match o.exec s with | .err e _ => decide (e ≠ posOverflow) | .ok _ _ => true

def Prog.smoothB {ε U : Type} : {α : Type} → Prog ε U α → PSt U → Bool
  | _, .ret _, _ => true
  | _, .fail _, _ => true
  | _, .op o, st => smoothOp o st.1
  | _, .call o _, st => smoothOp o st.1
  | _, .getU, _ => true
  | _, .setU _, _ => true
  | _, .bind p f, st => p.smoothB st && match p.run st with | .ok a st' => (f a).smoothB st' | .err _ _ => true
  | _, .attempt p, st => p.smoothB st
  | _, .loop fields init body onErr onEnd, st =>
    loopSmoothB fields (fun b e => (body b e).run) (fun b e => (body b e).smoothB) (fun e => (onErr e).smoothB) (fun b => (onEnd b).smoothB)
      (st.1.inner.data.length - st.1.inner.pos + 2) init st

theorem Prog.smooth_of {ε U : Type} : ∀ {α : Type} (p : Prog ε U α) (st : PSt U), p.smoothB st = true → p.Smooth st := by
  intro α p
  have one : ∀ {β : Type} (o : Op β) (s : Stream), smoothOp o s = true → ∀ s', o.exec s ≠ .err posOverflow s' := by
    intro β o s h s' hr
    unfold smoothOp at h
    rw [hr] at h
    simp at h
  induction p with
  | ret a => intro st _; exact True.intro
  | fail e => intro st _; exact True.intro
  | getU => intro st _; exact True.intro
  | setU u' => intro st _; exact True.intro
  | op o => intro st h; exact one o _ h
  | call o f => intro st h; exact one o _ h
  | bind p f ihp ihf =>
    intro st h
    simp only [Prog.smoothB, Bool.and_eq_true] at h
    refine ⟨ihp st h.1, fun a st' hr => ihf a st' ?_⟩
    have := h.2
    rw [hr] at this; exact this
  | attempt p ih => intro st h; exact ih st h
  | loop fields init body onErr onEnd ihb ihe ihd =>
    intro st h
    simp only [Prog.smoothB] at h
    simp only [Prog.Smooth]
    revert h
    generalize (st.1.inner.data.length - st.1.inner.pos + 2) = fuel
    generalize init = b
    intro h
    revert st
    revert b
    induction fuel with
    | zero => intro b st _; exact True.intro
    | succ fuel ih =>
      intro b st
      simp only [loopSmooth, loopSmoothB]
      cases pull fields st.1 with
      | err e s => intro h; simp only [Bool.and_eq_true, decide_eq_true_eq] at h; exact ⟨h.1, ihe _ _ h.2⟩
      | ok o s =>
        cases o with
        | none => intro h; exact ihd _ _ h
        | some el =>
          intro h
          simp only [Bool.and_eq_true] at h
          refine ⟨ihb _ _ _ h.1, fun b' st' hr => ih b' st' ?_⟩
          have := h.2
          rw [hr] at this; exact this

namespace Props

/-- Two streams between elements with the same bytes ahead and read in the same way; positions and whatever lies before are arbitrary. -/
structure SameAhead (s a : Stream) : Prop where
  left : Fresh s
  right : Fresh a
  rest : s.rest = a.rest
  graceful : s.graceful = a.graceful
  useSeek : s.useSeek = a.useSeek
  seekable : s.inner.seekable = a.inner.seekable
  sched : s.inner.sched = a.inner.sched
  depth : s.depth = a.depth

/-- The offset of the underlying stream is not beyond its end; and if skipping a blob may seek it is not ahead of the tracked position (otherwise seeking over a blob of a declared
length near `2^64` would be refused by the underlying stream). -/
structure Placed (s : Stream) : Prop where
  within : s.inner.pos ≤ s.inner.data.length
  low : s.useSeek = true → s.inner.seekable = true → s.inner.pos ≤ s.pos

/-- What the two streams have in common. -/
def canon (s : Stream) : Stream := { s with pos := 0, blobEnd := 0, dynStart := 0, inner := { s.inner with data := s.inner.rest, pos := 0 } }

theorem canon_eq {s a : Stream} (h : SameAhead s a) : canon s = canon a := by
  have h1 := h.rest; have h2 := h.graceful; have h3 := h.useSeek; have h4 := h.seekable; have h5 := h.sched; have h6 := h.depth
  have h7 := h.left.eof.trans h.right.eof.symm; have h8 := h.left.commit.trans h.right.commit.symm; have h9 := h.left.live.trans h.right.live.symm
  unfold canon
  simp only [Stream.mk.injEq, Inner.mk.injEq, true_and]
  exact ⟨⟨h1, h5, h4⟩, h7, h6, h2, h3, h8, h9⟩

theorem moved_canon {s : Stream} (hw : s.inner.pos ≤ s.inner.data.length) : moved s.pos (s.inner.data.take s.inner.pos) (canon s) = leftover s.pos s.pos s := by
  have h1 : s.inner.data.take s.inner.pos ++ s.inner.rest = s.inner.data := List.take_append_drop _ _
  have h2 : (s.inner.data.take s.inner.pos).length = s.inner.pos := by rw [List.length_take]; omega
  unfold moved canon leftover
  simp only [h1, h2, Nat.zero_add, Nat.add_zero]

theorem st_leftover {s : Stream} (h : Fresh s) : St s (leftover s.pos s.pos s) :=
  ⟨_, _, rfl, by rw [h.commit]; simp, fun h' => by rw [h.commit, h.live] at h'; simp at h'⟩

theorem both_canon {s : Stream} (h : Fresh s) (hp : Placed s) : Both s.pos (s.inner.data.take s.inner.pos) (canon s) := by
  have hf : ∀ t : Stream, t.pos ≤ U64MAX → t.eof = s.eof → t.commit = s.commit → t.live = s.live → Inv t := fun t h1 h2 h3 h4 =>
    (show Fresh t from ⟨h1, h2.trans h.eof, h3.trans h.commit, h4.trans h.live⟩).inv
  refine ⟨hf _ (Nat.zero_le _) rfl rfl rfl, ?_, fun h1 h2 => ⟨Nat.le_refl _, ?_⟩⟩
  · rw [moved_canon hp.within]; exact hf _ h.pos rfl rfl rfl
  · have := hp.low h1 h2
    have hw := hp.within
    show (s.inner.data.take s.inner.pos).length + 0 ≤ 0 + s.pos
    rw [List.length_take]; omega

/-- Both runs have the same outcome (value or error, own state), and the streams have come equally far. -/
inductive Likewise {ε U α : Type} (s a : Stream) : Res (Stop ε) (PSt U) α → Res (Stop ε) (PSt U) α → Prop where
  | ok {x s' a' u} : s'.inner.pos + a.inner.pos = a'.inner.pos + s.inner.pos → s'.pos + a.pos = a'.pos + s.pos → Likewise s a (.ok x (s', u)) (.ok x (a', u))
  | err {e s' a' u} : s'.inner.pos + a.inner.pos = a'.inner.pos + s.inner.pos → s'.pos + a.pos = a'.pos + s.pos → Likewise s a (.err (.client e) (s', u)) (.err (.client e) (a', u))

theorem run_canon {ε U α : Type} (p : Prog ε U α) {s : Stream} (h : Fresh s) (hp : Placed s) (u : U) (hm : (p.rel s.pos).Smooth (s, u)) :
    (∃ x c s' u', p.run (canon s, u) = .ok x (c, u') ∧ (p.rel s.pos).run (s, u) = .ok x (s', u') ∧ s'.inner.pos = c.inner.pos + s.inner.pos ∧ s'.pos = c.pos + s.pos) ∨
    (∃ e c s' u', p.run (canon s, u) = .err (.client e) (c, u') ∧ (p.rel s.pos).run (s, u) = .err (.client e) (s', u') ∧ s'.inner.pos = c.inner.pos + s.inner.pos ∧ s'.pos = c.pos + s.pos) := by
  have hb := both_canon h hp
  have h1 := Prog.run_sh p (canon s) u hb (by rw [moved_canon hp.within]; exact Prog.smooth_st _ _ _ _ (st_leftover h) hm)
  have h2 := Prog.run_rs (p.rel s.pos) s _ u (st_leftover h)
  have hsafe := Prog.run_safe p (canon s, u) hb.inv
  have hlen : (s.inner.data.take s.inner.pos).length = s.inner.pos := by have := hp.within; rw [List.length_take]; omega
  rw [moved_canon hp.within] at h1
  revert h1 h2 hsafe
  generalize p.run (canon s, u) = r
  generalize (p.rel s.pos).run (leftover s.pos s.pos s, u) = r'
  generalize (p.rel s.pos).run (s, u) = r''
  intro h1 h2 hsafe
  cases h1 with
  | ok =>
    rename_i x c u'
    left
    cases r'' with
    | ok y st =>
      obtain ⟨t, h3, h4⟩ := h2.ok y st rfl
      cases h3
      exact ⟨x, c, st.1, st.2, rfl, rfl, by rw [← h4.inner]; show _ + _ = _; rw [hlen]; omega, by rw [← h4.pos]; rfl⟩
    | err e st => obtain ⟨t, h3, h4⟩ := h2.err e st rfl; cases h3
  | err =>
    rename_i e c u'
    right
    cases e with
    | abort e => exact absurd rfl (fun h => hsafe.normal e _ h)
    | client e =>
      cases r'' with
      | ok y st => obtain ⟨t, h3, h4⟩ := h2.ok y st rfl; cases h3
      | err e' st =>
        obtain ⟨t, h3, h4⟩ := h2.err e' st rfl
        cases h3
        exact ⟨e, c, st.1, st.2, rfl, rfl, by rw [← h4.inner]; show _ + _ = _; rw [hlen]; omega, by rw [← h4.pos]; rfl⟩

/-- **C73** Two streams have the same bytes ahead, whatever these are, but are at different positions. Whatever a client does that sees byte offsets relative to where it started, whatever errors it handles:
if no call runs out of positions, the outcome is the same, and both streams have come equally far. -/
theorem c73_client {ε U α : Type} (p : Prog ε U α) {s a : Stream} (h : SameAhead s a) (hs : Placed s) (ha : Placed a) (u : U)
    (ms : (p.rel s.pos).Smooth (s, u)) (ma : (p.rel a.pos).Smooth (a, u)) : Likewise s a ((p.rel s.pos).run (s, u)) ((p.rel a.pos).run (a, u)) := by
  have hc := canon_eq h
  have h1 := run_canon p h.left hs u ms
  have h2 := run_canon p h.right ha u ma
  rw [hc] at h1
  rcases h1 with ⟨x, c, s', u', e1, e2, e3, e4⟩ | ⟨x, c, s', u', e1, e2, e3, e4⟩
  · rcases h2 with ⟨y, d, a', v', f1, f2, f3, f4⟩ | ⟨y, d, a', v', f1, f2, f3, f4⟩
    · rw [e1] at f1; cases f1
      rw [e2, f2]; exact .ok (by omega) (by omega)
    · rw [e1] at f1; cases f1
  · rcases h2 with ⟨y, d, a', v', f1, f2, f3, f4⟩ | ⟨y, d, a', v', f1, f2, f3, f4⟩
    · rw [e1] at f1; cases f1
    · rw [e1] at f1; cases f1
      rw [e2, f2]; exact .err (by omega) (by omega)

/-- The outcomes of deserialising from both streams. -/
inductive Elsewhere {α : Type} (s a : Stream) : Res (Stop DErr) (PSt Stats) α → Res (Stop DErr) (PSt Stats) α → Prop where
  /-- the same value, having come equally far -/
  | value {v s' a' u} : s'.inner.pos + a.inner.pos = a'.inner.pos + s.inner.pos → s'.pos + a.pos = a'.pos + s.pos → Elsewhere s a (.ok v (s', u)) (.ok v (a', u))
  /-- the same error; the positions in it are off by those of the streams -/
  | error {e st st'} : Elsewhere s a (.err (.client (DErr.sh s.pos e)) st) (.err (.client (DErr.sh a.pos e)) st')

theorem de_canon (env : Env) (t : Ty) (cfg : Config) {s : Stream} (h : Fresh s) (hp : Placed s) :
    (∃ v c s' u, (deserialize env t cfg).run (canon s, .zero) = .ok v (c, u) ∧ (deserialize env t cfg).run (s, .zero) = .ok v (s', u) ∧ s'.inner.pos = c.inner.pos + s.inner.pos ∧ s'.pos = c.pos + s.pos) ∨
    (∃ e st st', (deserialize env t cfg).run (canon s, .zero) = .err (.client e) st ∧ (deserialize env t cfg).run (s, .zero) = .err (.client (e.sh s.pos)) st') ∨
    ∃ e st, (deserialize env t cfg).run (s, .zero) = .err (.client e) st ∧ e.kind = .stream posOverflow := by
  have hb := both_canon h hp
  have h1 := (deserialize_mv env t cfg hb).cases' (Prog.run_safe _ _ hb.inv).normal
  have h2 := Prog.run_rs (deserialize env t cfg) s _ .zero (st_leftover h)
  have hlen : (s.inner.data.take s.inner.pos).length = s.inner.pos := by have := hp.within; rw [List.length_take]; omega
  rw [moved_canon hp.within] at h1
  revert h1 h2
  generalize (deserialize env t cfg).run (canon s, .zero) = r
  generalize (deserialize env t cfg).run (leftover s.pos s.pos s, .zero) = r'
  generalize (deserialize env t cfg).run (s, .zero) = r''
  intro h1 h2
  rcases h1 with ⟨x, c, u', rfl, rfl⟩ | ⟨e, st, st', rfl, rfl⟩ | ⟨e, st, rfl, h3⟩
  · left
    cases r'' with
    | ok y st =>
      obtain ⟨t, h3, h4⟩ := h2.ok y st rfl
      cases h3
      exact ⟨x, c, st.1, st.2, rfl, rfl, by rw [← h4.inner]; show _ + _ = _; rw [hlen]; omega, by rw [← h4.pos]; rfl⟩
    | err e st => obtain ⟨t, h3, h4⟩ := h2.err e st rfl; cases h3
  · right; left
    cases r'' with
    | ok y st => obtain ⟨t, h3, h4⟩ := h2.ok y st rfl; cases h3
    | err e' st2 =>
      obtain ⟨t, h3, h4⟩ := h2.err e' st2 rfl
      cases h3
      exact ⟨e, st, st2, rfl, rfl⟩
  · right; right
    cases r'' with
    | ok y st => obtain ⟨t, h3, h4⟩ := h2.ok y st rfl; cases h3
    | err e' st2 =>
      obtain ⟨t, h3', h4⟩ := h2.err e' st2 rfl
      cases h3'
      exact ⟨e, st2, rfl, h3⟩

/-- **C73** Deserialising the same bytes, whatever they are, at different places: the same value and as much of the input used, or the same error, with the positions in its path (and of an unknown field)
shifted; unless one of the streams runs out of positions. -/
theorem c73_deserialize (env : Env) (t : Ty) (cfg : Config) {s a : Stream} (h : SameAhead s a) (hs : Placed s) (ha : Placed a) :
    Elsewhere s a ((deserialize env t cfg).run (s, .zero)) ((deserialize env t cfg).run (a, .zero)) ∨
    (∃ e st, (deserialize env t cfg).run (s, .zero) = .err (.client e) st ∧ e.kind = .stream posOverflow) ∨
    ∃ e st, (deserialize env t cfg).run (a, .zero) = .err (.client e) st ∧ e.kind = .stream posOverflow := by
  have hc := canon_eq h
  have h1 := de_canon env t cfg h.left hs
  have h2 := de_canon env t cfg h.right ha
  rw [hc] at h1
  rcases h1 with ⟨x, c, s', u', e1, e2, e3, e4⟩ | ⟨e, st, st', e1, e2⟩ | h1
  · rcases h2 with ⟨y, d, a', v', f1, f2, f3, f4⟩ | ⟨e, st, st', f1, f2⟩ | h2
    · rw [e1] at f1; cases f1
      rw [e2, f2]; exact .inl (.value (by omega) (by omega))
    · rw [e1] at f1; cases f1
    · exact .inr (.inr h2)
  · rcases h2 with ⟨y, d, a', v', f1, f2, f3, f4⟩ | ⟨e', st2, st2', f1, f2⟩ | h2
    · rw [e1] at f1; cases f1
    · rw [e1] at f1; cases f1
      rw [e2, f2]; exact .inl .error
    · exact .inr (.inr h2)
  · exact .inr (.inl h1)

/-- The bytes behind three others, with 1000 as the tracked position. -/
def exThere (bytes : List Byte) : Stream :=
  { Stream.fromSlice ([1, 2, 3] ++ bytes) with pos := 1000, blobEnd := 77, inner := { data := [1, 2, 3] ++ bytes, pos := 3, sched := [], seekable := true } }

theorem exSameAhead (bytes : List Byte) : SameAhead (Stream.fromSlice bytes) (exThere bytes) :=
  ⟨fresh_fromSlice _, ⟨show 1000 ≤ U64MAX by decide, rfl, rfl, rfl⟩, rfl, rfl, rfl, rfl, rfl, rfl⟩

theorem exPlacedHere (bytes : List Byte) : Placed (Stream.fromSlice bytes) := ⟨Nat.zero_le _, fun _ _ => Nat.le_refl _⟩
theorem exPlacedThere (bytes : List Byte) : Placed (exThere bytes) := ⟨by show 3 ≤ ([1, 2, 3] ++ bytes).length; simp, fun _ _ => show 3 ≤ 1000 by decide⟩

/-- `exBytes` is read back as `exValue` there, too. -/
example : ∃ a', (deserialize exEnv (.named 0) .default).run (exThere exBytes, .zero) = .ok exValue (a', ⟨3, 1⟩) := by
  obtain ⟨s', h⟩ := exRun
  rcases c73_deserialize exEnv (.named 0) .default (exSameAhead exBytes) (exPlacedHere _) (exPlacedThere _) with h1 | ⟨e, st, h1, -⟩ | ⟨e, st, h1, h2⟩
  · rw [h] at h1
    generalize (deserialize exEnv (.named 0) .default).run (exThere exBytes, .zero) = r at h1
    cases h1
    exact ⟨_, rfl⟩
  · rw [h] at h1; cases h1
  · exact absurd h1 (by
      have : ∀ r : Res (Stop DErr) (PSt Stats) V, (match r with | .ok _ _ => true | .err _ _ => false) = true → r ≠ .err (.client e) st := by
        intro r h h'; rw [h'] at h; cases h
      exact this _ (by decide +kernel))

/-- An unknown field in an enum variant at the top level: it is at position 2 here, and at 1002 there. -/
example :
    (match (deserialize exEnv (.named 1) { Config.default with ignoreUnknownFields := false }).run (Stream.fromSlice [1, 3, 66, 0, 0], .zero) with
      | .err (.client e) _ => decide (e = ⟨.unknownField 2 2, [("top", 0)]⟩) | _ => false) = true ∧
    (match (deserialize exEnv (.named 1) { Config.default with ignoreUnknownFields := false }).run (exThere [1, 3, 66, 0, 0], .zero) with
      | .err (.client e) _ => decide (e = ⟨.unknownField 2 1002, [("top", 1000)]⟩) | _ => false) = true := by decide +kernel

/-- A client that goes on after an error: what it does on the malformed input (a field followed by a too large integer) is no different there. -/
def exClient : Prog Unit Nat (Nat × Bool × Nat) :=
  .bind (.op .nextField) fun _ => .bind (.op .nextField) fun r => .bind (.op .pos) fun p => .bind (.op .nextElement) fun e =>
    .ret (match p with | .ok n => n | .error _ => 0, match r with | .ok _ => true | .error _ => false, match e with | .ok (.field f) => f.pos | _ => 77)

example : Likewise (Stream.fromSlice [65, 7, 66] ) (exThere [65, 7, 66]) ((exClient.rel 0).run (Stream.fromSlice [65, 7, 66], 0)) ((exClient.rel 1000).run (exThere [65, 7, 66], 0)) :=
  c73_client exClient (exSameAhead _) (exPlacedHere _) (exPlacedThere _) 0 (Prog.smooth_of _ _ (by decide +kernel)) (Prog.smooth_of _ _ (by decide +kernel))

example : (match (exClient.rel 1000).run (exThere [65, 7, 66], 0) with | .ok x _ => decide (x = (3, false, 77)) | .err _ _ => false) = true := by decide +kernel

end Props
end Fourleaf
