import Verif.Stale
import Verif.PropsSession
import Verif.PropsMixed

/-! # C57: random access -/

namespace Fourleaf

/-- `set_struct_depth` (`src/stream.rs` 575-577). -/
def setStructDepth (d : Nat) : M Err Stream Unit := M.modify fun s => { s with depth := d }

theorem readByteLoop_depth (g : Bool) (d : Nat) : ∀ fuel s, readByteLoop g fuel { s with depth := d } = (readByteLoop g fuel s).onState fun s => { s with depth := d } := by
  have hT : ∀ s, trackRead g 1 { s with depth := d } = (trackRead g 1 s).onState fun s => { s with depth := d } := by
    intro s
    unfold trackRead
    simp only [Nat.one_ne_zero, if_false]
    by_cases h1 : U64MAX - s.pos < 1
    · rw [if_pos h1, if_pos h1]; rfl
    · rw [if_neg h1, if_neg h1]
      cases s.inner.read 1 with
      | err e i => rfl
      | ok x i =>
        dsimp only
        split <;> rfl
  intro fuel
  induction fuel with
  | zero => intro s; rfl
  | succ fuel ih =>
    intro s
    simp only [readByteLoop, hT]
    cases trackRead g 1 s with
    | ok x s' => cases x <;> rfl
    | err e s' =>
      cases e with
      | io k => cases k <;> first | exact ih s' | rfl
      | _ => rfl

theorem readByte_depth (g : Bool) (d : Nat) (s : Stream) : readByte g { s with depth := d } = (readByte g s).onState fun s => { s with depth := d } :=
  readByteLoop_depth g d _ s

/-- Reading a field again with the depth it was read at. -/
theorem readElement_again {s s1 : Stream} {f : Field} (h : readElement s = .ok (.field f) s1) :
    readElement { s with depth := f.depth } = .ok (.field f) s1 ∧ f.pos = s.pos := by
  unfold readElement at h ⊢
  rw [readByte_depth]
  cases hr : readByte true s with
  | err e s' => rw [hr] at h; cases h
  | ok b s' =>
    rw [hr] at h
    simp only [Res.onState] at h ⊢
    cases hd : Desc.parse b with
    | none => rw [hd] at h; cases h
    | some d =>
      rw [hd] at h
      cases d with
      | special sp =>
        cases sp with
        | exception =>
          dsimp only at h
          rw [M.bind_apply] at h
          split at h <;> cases h
        | _ => cases h
      | pair ty tag =>
        dsimp only at h ⊢
        generalize hx : (if s'.depth = 0 then { s' with depth := 1 } else s') = x at h
        have hne : x.depth ≠ 0 := by
          rw [← hx]; split
          · simp
          · assumption
        have hxd : { s' with depth := x.depth } = x := by
          rw [← hx]; split <;> rfl
        rw [M.bind_apply] at h
        cases hv : nextValue ty x with
        | err e s2 => rw [hv] at h; cases h
        | ok v s2 =>
          rw [hv] at h
          cases h
          refine ⟨?_, rfl⟩
          dsimp only
          rw [if_neg hne, hxd, M.bind_ok hv]; rfl

/-- Where a field was read from. -/
theorem field_origin {s s1 : Stream} {f : Field} (hi : Inv s) (h : nextField s = .ok (some f) s1) :
    ∃ s0, Step s s0 ∧ s0.commit = none ∧ s0.eof = false ∧ readElement s0 = .ok (.field f) s1 := by
  have loop : ∀ fuel {s : Stream}, Inv s → s.commit = none → s.eof = false → skipPadLoop fuel s = .ok (.field f) s1 →
      ∃ s0, Step s s0 ∧ s0.commit = none ∧ s0.eof = false ∧ readElement s0 = .ok (.field f) s1 := by
    intro fuel
    induction fuel with
    | zero => intro s _ _ _ h; cases h
    | succ fuel ih =>
      intro s hi hc he h
      simp only [skipPadLoop] at h
      have hS := readElement_safe hi hc he
      cases hr : readElement s with
      | err e s2 => rw [M.bind_err hr] at h; cases h
      | ok e s2 =>
        rw [M.bind_ok hr, M.ite_apply] at h
        rw [hr] at hS
        split at h
        · rename_i hp
          have h2 := (hS.2 e s2 rfl).1.1 (by rw [hp]; simp)
          have hsh := readElement_shape hi hc he hr
          rw [hp] at hsh
          obtain ⟨s0, k1, k2⟩ := ih hS.1.step.inv hsh h2 h
          exact ⟨s0, hS.1.step.trans k1, k2⟩
        · cases h; exact ⟨s, .refl hi, hc, he, hr⟩
  unfold nextField at h
  cases hr : nextElementImpl true s with
  | err e s2 => rw [M.bind_err hr] at h; cases h
  | ok e s2 =>
    rw [M.bind_ok hr] at h
    cases e with
    | field g =>
      cases h
      unfold nextElementImpl at hr
      split at hr
      · cases hr
      · rename_i he
        have hC := commit_safe hi
        cases hc : commit s with
        | err e s3 => rw [M.bind_err hc] at hr; cases hr
        | ok u s3 =>
          rw [M.bind_ok hc] at hr
          simp only [if_true] at hr
          rw [M.bind_ok (M.get_apply _)] at hr
          obtain ⟨h1, h2, -⟩ := hC.2 u s3 hc
          rw [hc] at hC
          obtain ⟨s0, k1, k2⟩ := loop _ hC.1.step.inv h1 (by show s3.eof = false; rw [h2]; simpa using he) hr
          exact ⟨s0, hC.1.step.trans k1, k2⟩
    | exception n =>
      dsimp only at h
      rw [M.bind_apply] at h
      split at h <;> cases h
    | _ => cases h

end Fourleaf

namespace Fourleaf.Props
open Fourleaf Spec

/-- A stream just opened over some bytes, standing at an offset and counting from there. -/
def openedAt (data : List Byte) (off : Nat) (sched : List Ev) (seekable useSeek eof graceful : Bool) : Stream :=
  { Stream.new { data := data, pos := off, sched := sched, seekable := seekable } with pos := off, useSeek := useSeek, eof := eof, graceful := graceful }

theorem seek_commits {w : SeekFrom} {s : Stream} (hs : SInv s) :
    (∃ e s1, commit s = .err e s1 ∧ streamSeek w s = .err e s1) ∨
    (∃ s1, commit s = .ok () s1 ∧
      ((0 ≤ w.target s1.inner ∧ w.target s1.inner ≤ U64MAX ∧ (s1.inner.seekable = true ∧ s1.inner.sched.head? ≠ some .noSeek) ∧
          streamSeek w s = .ok (w.target s1.inner).toNat (openedAt s1.inner.data (w.target s1.inner).toNat s1.inner.sched true s1.useSeek s1.eof s1.graceful)) ∨
        (¬ (0 ≤ w.target s1.inner ∧ w.target s1.inner ≤ U64MAX ∧ s1.inner.seekable = true ∧ s1.inner.sched.head? ≠ some .noSeek) ∧
          ∃ e sc, sc <:+ s1.inner.sched ∧ streamSeek w s = .err e { s1 with inner := { s1.inner with sched := sc } }))) := by
  have hC := commit_good hs
  unfold streamSeek
  cases hr : commit s with
  | err e s1 => exact .inl ⟨e, s1, rfl, by rw [M.bind_err hr]⟩
  | ok u s1 =>
    refine .inr ⟨s1, rfl, ?_⟩
    rw [M.bind_ok hr]
    rw [hr] at hC
    obtain ⟨c1, -, -, -⟩ := hC.2 _ _ rfl
    have hs1 : SInv s1 := hC.1.inv
    have hl : s1.live = false := by
      cases hl : s1.live with
      | false => rfl
      | true => have := hs1.liveOk hl; rw [c1] at this; cases this
    by_cases ht : 0 ≤ w.target s1.inner ∧ w.target s1.inner ≤ U64MAX ∧ s1.inner.seekable = true ∧ s1.inner.sched.head? ≠ some .noSeek
    · obtain ⟨t1, t2, t3, t4⟩ := ht
      refine .inl ⟨t1, t2, ⟨t3, t4⟩, ?_⟩
      have h1 : innerSeek w s1 = .ok (w.target s1.inner).toNat { s1 with inner := { s1.inner with pos := (w.target s1.inner).toNat } } := by
        unfold innerSeek Inner.seek
        rw [if_pos t3, if_neg t4]
        dsimp only
        rw [if_pos ⟨t1, t2⟩]
      rw [M.bind_ok h1]
      have h2 : resetPos (w.target s1.inner).toNat { s1 with inner := { s1.inner with pos := (w.target s1.inner).toNat } } = .ok () { s1 with
          inner := { s1.inner with pos := (w.target s1.inner).toNat }, blobEnd := 0, dynStart := 0, pos := (w.target s1.inner).toNat } := by
        unfold resetPos
        rw [M.bind_ok (commit_none (s := { s1 with inner := { s1.inner with pos := (w.target s1.inner).toNat } }) c1)]; rfl
      rw [M.bind_ok h2]
      show Res.ok _ _ = Res.ok _ _
      congr 1
      simp only [openedAt, Stream.new]
      rw [c1, hl, t3]
    · refine .inr ⟨ht, ?_⟩
      rcases innerSeek_cases w s1 with ⟨t3, t1, t2, t4, -⟩ | ⟨-, -, -, h1⟩ | ⟨-, -, h1⟩ | ⟨-, h1⟩
      · exact absurd ⟨t1, t2, t3, t4⟩ ht
      · exact ⟨_, s1.inner.sched, List.suffix_refl _, by rw [M.bind_err h1]⟩
      · exact ⟨_, s1.inner.sched.tail, List.tail_suffix _, by rw [M.bind_err h1]; rfl⟩
      · exact ⟨_, s1.inner.sched, List.suffix_refl _, by rw [M.bind_err h1]⟩

/-- **C57** Whatever has been done with a stream before (in any session, with errors): if `seek` succeeds, what was pending has been committed, and the stream is as if
just opened over the data and positioned at the target, except that the flags for the end of the document and for graceful end of input remain. So what
any client sees after a successful `seek` depends on the data, the offset and these flags only. -/
theorem c57_seek_forgets (i : Inner) (useSeek : Bool) (cs : List SCall) (w : SeekFrom) (off : Nat) (s' : Stream)
    (h : streamSeek w (Session.run cs (Session.start i useSeek)).stream = .ok off s') :
    ∃ s1, commit (Session.run cs (Session.start i useSeek)).stream = .ok () s1 ∧ (off : Int) = w.target s1.inner ∧
      s' = openedAt s1.inner.data off s1.inner.sched true s1.useSeek s1.eof s1.graceful := by
  have hx := run_xinv cs _ (start_xinv i useSeek)
  rcases seek_commits (w := w) hx.stream with ⟨e, s1, h1, h2⟩ | ⟨s1, h1, ⟨h2, h3, h4, h5⟩ | ⟨h2, e, sc, -, h3⟩⟩
  · rw [h2] at h; cases h
  · rw [h5] at h; cases h
    exact ⟨s1, h1, by omega, rfl⟩
  · rw [h3] at h; cases h

/-- **C57** `seek` succeeds exactly if what is pending can be committed, the byte stream can seek, does not fail to, and the target is a position; otherwise it is an error and
the stream is left where the commit left it. -/
theorem c57_seek_outcome (i : Inner) (useSeek : Bool) (cs : List SCall) (w : SeekFrom) :
    let s := (Session.run cs (Session.start i useSeek)).stream
    ((∃ off s', streamSeek w s = .ok off s') ↔ ∃ s1, commit s = .ok () s1 ∧ (s1.inner.seekable = true ∧ s1.inner.sched.head? ≠ some .noSeek) ∧
      0 ≤ w.target s1.inner ∧ w.target s1.inner ≤ U64MAX) ∧
    (∀ e s', streamSeek w s = .err e s' → ∃ sc, sc <:+ (commit s).state.inner.sched ∧
      s' = { (commit s).state with inner := { (commit s).state.inner with sched := sc } }) := by
  have hx := run_xinv cs _ (start_xinv i useSeek)
  dsimp only
  rcases seek_commits (w := w) hx.stream with ⟨e, s1, h1, h2⟩ | ⟨s1, h1, ⟨h2, h3, h4, h5⟩ | ⟨h2, e, sc, hsc, h3⟩⟩
  · rw [h1, h2]
    exact ⟨⟨fun ⟨_, _, h⟩ => (by cases h), fun ⟨_, h, _⟩ => (by cases h)⟩, fun e s' h => by cases h; exact ⟨_, List.suffix_refl _, rfl⟩⟩
  · rw [h1, h5]
    exact ⟨⟨fun _ => ⟨s1, rfl, h4, h2, h3⟩, fun _ => ⟨_, _, rfl⟩⟩, fun e s' h => by cases h⟩
  · rw [h1, h3]
    refine ⟨⟨fun ⟨_, _, h⟩ => (by cases h), fun ⟨s2, h, k⟩ => ?_⟩, fun e s' h => by cases h; exact ⟨sc, hsc, rfl⟩⟩
    cases h
    exact absurd ⟨k.2.1, k.2.2, k.1.1, k.1.2⟩ h2

/-- Going back to a field the client has seen: `clear_eof`, `seek(SeekFrom::Start(field.pos))`, `set_struct_depth(field.depth)`, `next_field`. -/
def goBack (f : Field) : M Err Stream (Option Field) := do
  clearEof
  let _ ← streamSeek (.start f.pos)
  setStructDepth f.depth
  nextField

/-- What a client can tell from two runs of a program: value or error, its own state, and the position, depth and end-of-document flag of the stream afterwards. -/
def SameRun {ε U α : Type} : Res ε (PSt U) α → Res ε (PSt U) α → Prop
  | .ok a (s, u), .ok a' (s', u') => a = a' ∧ u = u' ∧ s.pos = s'.pos ∧ s.depth = s'.depth ∧ s.eof = s'.eof ∧ s.inner.pos = s'.inner.pos
  | .err e (s, u), .err e' (s', u') => e = e' ∧ u = u' ∧ s.pos = s'.pos ∧ s.depth = s'.depth ∧ s.eof = s'.eof ∧ s.inner.pos = s'.inner.pos
  | _, _ => False

/-- **C57** Every field can be returned to: after any client has read some of the input, has got a field, and any other client has gone on reading from there, seeking back to the
position and depth the field reports makes `next_field` return the same field again; and then every client sees exactly what it would have seen the first time. (The position of
the stream is the offset in the byte stream, as it is unless the client changes it; the byte stream does not fail; and `commit` succeeds, i.e. no blob is cut off where the second client has
stopped.) -/
theorem c57_replay {ε U α ε' U' β : Type} (p : Prog ε U α) (q : Prog ε' U' β) (s : Stream) (u : U) (u' : U') (hs : Fresh s) (hb : Benign s.inner.sched)
    (hk : s.inner.seekable = true) (hp : s.pos = s.inner.pos) (f : Field) (s1 : Stream) (hf : nextField (p.run (s, u)).state.1 = .ok (some f) s1)
    (s3 : Stream) (hc : commit (q.run (s1, u')).state.1 = .ok () s3) :
    ∃ t, goBack f (q.run (s1, u')).state.1 = .ok (some f) t ∧
      ∀ {ε'' U'' γ : Type} (r : Prog ε'' U'' γ), r.OpsAll Op.whole → ∀ v : U'', SameRun (r.run (s1, v)) (r.run (t, v)) := by
  have st0 := (p.run_safe (s, u) hs.inv).step
  obtain ⟨sa, sta, ca, ea, ra⟩ := field_origin st0.inv hf
  have stf := (nextField_safe st0.inv).1
  rw [hf] at stf
  have st1 : Step _ s1 := stf.step
  have st2 : Step s1 (q.run (s1, u')).state.1 := (q.run_safe (s1, u') st1.inv).step
  obtain ⟨s2, hs2⟩ : ∃ s2, s2 = (q.run (s1, u')).state.1 := ⟨_, rfl⟩
  rw [← hs2] at hc st2 ⊢
  have st3 := (commit_safe st2.inv).1
  rw [hc] at st3
  have st3 : Step s2 s3 := st3.step
  obtain ⟨r1, r2⟩ := readElement_again ra
  have fa := st0.frame.trans sta.frame
  have f3 := ((st0.frame.trans st1.frame).trans st2.frame).trans st3.frame
  have la := sta.inv.notLive ca
  have hfp : f.pos ≤ U64MAX := by rw [r2]; exact sta.inv.pos_le
  -- after the seek
  have hi2 : Inv { s2 with eof := false } := (clearEof_safe st2.inv).step.inv
  have hcc : ∃ s4, commit { s2 with eof := false } = .ok () s4 ∧ s4.inner = s3.inner ∧ s4.eof = false ∧ s4.graceful = s3.graceful ∧ s4.useSeek = s3.useSeek := by
    cases he : s2.eof with
    | false =>
      refine ⟨s3, ?_, rfl, ?_, rfl, rfl⟩
      · rw [← hc, ← he]
      · rw [((commit_safe st2.inv).2 _ _ hc).2.1, he]
    | true =>
      have h1 := st2.inv.eofCommit he
      rw [commit_none h1] at hc
      cases hc
      exact ⟨{ s3 with eof := false }, commit_none h1, rfl, rfl, rfl, rfl⟩
  obtain ⟨s4, k1, k2, k3, k4, k5⟩ := hcc
  have hseek : streamSeek (.start f.pos) { s2 with eof := false } = .ok f.pos (openedAt s3.inner.data f.pos s3.inner.sched true s3.useSeek false s3.graceful) := by
    rcases seek_commits (w := .start f.pos) hi2.sinv with ⟨e, s5, h1, h2⟩ | ⟨s5, h1, ⟨h2, h3, h4, h5⟩ | ⟨h2, e, sc, -, h3⟩⟩
    · rw [k1] at h1; cases h1
    · rw [k1] at h1; cases h1
      rw [h5, k2, k3, k4, k5]; rfl
    · rw [k1] at h1; cases h1
      refine absurd ⟨?_, ?_, ?_, ?_⟩ h2
      · simp [SeekFrom.target]
      · simp only [SeekFrom.target]; omega
      · rw [k2, f3.seekable]; exact hk
      · rw [k2]; exact (hb.suffix f3.sched).seek
  -- the two streams
  let x := leftover 0 0 { sa with depth := f.depth }
  let t0 : Stream := { openedAt s3.inner.data f.pos s3.inner.sched true s3.useSeek false s3.graceful with depth := f.depth }
  have hst : St { sa with depth := f.depth } x := ⟨0, 0, rfl, by simp [ca], fun h => by rcases h with h | h <;> simp [ca, la] at h⟩
  have hrel : Rel false [] x t0 := by
    refine ⟨?_, hb.suffix fa.sched, hb.suffix f3.sched, fun h => absurd rfl h, fun _ => ?_, fun _ => rfl⟩
    · show t0 = ext [] (t0.inner.sched, t0.graceful) x
      have e1 := fa.data
      have e2 := f3.data
      have e3 := fa.seekable
      have e5 := fa.useSeek
      have e6 := f3.useSeek
      have e8 := fa.off
      simp only at e1 e2 e3 e5 e6 e8
      simp only [t0, x, ext, leftover, openedAt, Stream.new, List.append_nil, e1, e2, e3, e5, e6, ca, la, ea, r2, hk]
      have : sa.inner.pos = sa.pos := by omega
      rw [this]
    · show s3.graceful = sa.graceful
      rw [f3.graceful, fa.graceful]
  obtain ⟨x1, g1, g2⟩ := (readElement_rs hst).ok _ _ r1
  obtain ⟨t1, g3, g4⟩ := (readElement_rel hrel).ok _ _ g1
  refine ⟨t1, ?_, ?_⟩
  · unfold goBack
    rw [show (clearEof : M Err Stream Unit) = M.modify fun s => { s with eof := false } from rfl, M.bind_ok (M.modify_apply _ _), M.bind_ok hseek]
    unfold setStructDepth
    rw [M.bind_ok (M.modify_apply _ _)]
    show nextField t0 = _
    have hN : nextElementImpl true t0 = .ok (.field f) t1 := by
      unfold nextElementImpl
      rw [if_neg (by simp [t0, openedAt]), M.bind_ok (commit_none (s := t0) rfl)]
      simp only [if_true]
      rw [M.bind_ok (M.get_apply _)]
      simp only [skipPadLoop]
      rw [M.bind_ok g3, M.ite_apply, if_neg (by simp)]; rfl
    unfold nextField
    rw [M.bind_ok hN]; rfl
  · intro ε'' U'' γ r hr v
    have hP := r.run_rs s1 x1 v g2
    have hi : Inv x1 := by
      have hix : Inv x := ⟨sta.inv.pos_le, .inl ca, fun h => ca, fun h => (by rw [show x.eof = sa.eof from rfl, ea] at h; cases h), fun h => by rw [show x.live = sa.live from rfl, la] at h; cases h⟩
      have := (readElement_safe hix ca ea).1
      rw [g1] at this
      exact this.step.inv
    have hQ := r.run_rel false [] (fun _ => True) hr (.inl rfl) x1 t1 v g4 hi
    cases h1 : r.run (s1, v) with
    | ok a st =>
      obtain ⟨y, h2, h3⟩ := hP.ok a st h1
      rcases hQ.ok a _ h2 with ⟨z, h4, h5⟩ | ⟨h4, -⟩
      · rw [h4]
        exact ⟨rfl, rfl, by rw [h5.pos, h3.pos], by rw [h5.depth, h3.depth], by rw [h5.eof, h3.eof], by rw [h5.ipos, h3.inner]⟩
      · exact absurd rfl h4
    | err e st =>
      obtain ⟨y, h2, h3⟩ := hP.err e st h1
      obtain ⟨z, h4, h5⟩ := (hQ.err e _ h2).resolve_right fun h => h.1 rfl
      rw [h4]
      exact ⟨rfl, rfl, by rw [h5.pos, h3.pos], by rw [h5.depth, h3.depth], by rw [h5.eof, h3.eof], by rw [h5.ipos, h3.inner]⟩

/-- A nested struct with an integer and a blob: the client gets three fields (the third is the blob), another one reads everything, end of document included; going back to the blob. -/
example :
    let s := Stream.fromSlice [0xC1, 0x41, 5, 0x82, 2, 7, 8, 0x00, 0x40]
    let p : Prog Empty Unit Unit := do let _ ← Prog.op .nextField; let _ ← Prog.op .nextField
    let r1 := nextField (p.run (s, ())).state.1
    let s2 := (countFields.run (r1.state, 0)).state.1
    let r2 := goBack ⟨2, 3, 2, .blob 2⟩ s2
    let r3 := readFully 10 r2.state
    (match r1, r2, r3 with
      | .ok f1 _, .ok f2 _, .ok d _ => decide (f1 = some ⟨2, 3, 2, .blob 2⟩ ∧ f2 = f1 ∧ d = [7, 8] ∧ s2.pos = 9 ∧ s2.eof = true ∧ r2.state.pos = 5)
      | _, _, _ => false) = true := by decide +kernel

theorem write_sinv (w : Write) {s s' : Stream} (h : SInv s) (hr : w.exec s = .ok () s') : SInv s' := by
  have dyn : ∀ d (ps : List (List Byte)), ((writeBlobDynamicDesc d >>= fun _ => writePieces ps) : M Err Stream Unit) s = .ok () s' → SInv s' := by
    intro d ps hr
    obtain ⟨len, s1, h1, h2⟩ := M.bind_inv hr
    obtain ⟨g1, g2, -⟩ := dynamic_good d h
    rw [h1] at g1 g2
    have := (writePieces_good ps g1 (g2 _ _ rfl _ rfl).2).inv
    rw [show writePieces ps (Res.ok len s1 : Res Err Stream Nat).state = _ from h2] at this; exact this
  cases w with
  | call c => have := (wcall_good c h).inv; rw [show c.exec s = _ from hr] at this; exact this
  | blobDynamic tag ps => exact dyn _ ps hr
  | exceptionDynamic ps => exact dyn _ ps hr
  | padToAlign k => have := padToAlign_sinv (2 ^ k) h; rw [show padToAlign (2 ^ k) s = _ from hr] at this; exact this

theorem writes_sinv : ∀ (ws : List Write) {s s' : Stream}, SInv s → runWrites ws s = .ok () s' → SInv s' := by
  intro ws
  induction ws with
  | nil => intro s s' h hr; have := (commit_good h).1.inv; rw [show commit s = _ from hr] at this; exact this
  | cons w ws ih =>
    intro s s' h hr
    obtain ⟨⟨⟩, s1, h1, h2⟩ := M.bind_inv hr
    exact ih (write_sinv w h h1) h2

theorem layoutBytes_append (ws1 ws2 : List Write) : ∀ pos, layoutBytes pos (ws1 ++ ws2) = layoutBytes pos ws1 ++ layoutBytes (pos + (layoutBytes pos ws1).length) ws2 := by
  induction ws1 with
  | nil => intro pos; rfl
  | cons w ws ih =>
    intro pos
    simp only [List.cons_append, layoutBytes, ih, List.append_assoc, List.length_append, Nat.add_assoc]

/-- **C57** Write, then read the same stream: after writing any mixture of elements, seeking back to where any of them was written (the position before the call) and reading
gives back exactly what was written from there on. -/
theorem c57_read_own_writes (ws1 ws2 : List Write) (hws : ∀ w ∈ ws1 ++ ws2, WriteOk w) (s : Stream) (hs : Fresh s) (hw : s.inner.pos ≤ s.inner.data.length)
    (hb : Benign s.inner.sched) (hk : s.inner.seekable = true) (hp : s.pos = s.inner.pos) (hold : s.inner.data.length ≤ 2 ^ 62)
    (hroom : s.pos + (layoutBytes s.pos (ws1 ++ ws2)).length ≤ 2 ^ 62) :
    ∃ s' s'' r, runWrites (ws1 ++ ws2) s = .ok () s' ∧
      (do clearEof; streamSeek (.start (s.pos + (layoutBytes s.pos ws1).length))) s' = .ok (s.pos + (layoutBytes s.pos ws1).length) s'' ∧
      let elements := layoutToks (s.pos + (layoutBytes s.pos ws1).length) ws2
      readToks elements.length s'' = .ok elements r := by
  obtain ⟨s', g1, g2, g3, g4, g5⟩ := writes_out (ws1 ++ ws2) hws (s := s) (s1 := s) ⟨commit_none hs.commit, hw, hb, hk⟩ hroom (by rw [← hp]; exact hroom)
  have hi : SInv s' := writes_sinv _ hs.inv.sinv g1
  have hi2 : SInv { s' with eof := false } := ⟨hi.pos_le, fun h => (by cases h), hi.pend, hi.dyn, hi.liveOk⟩
  have hc : commit { s' with eof := false } = .ok () { s' with eof := false } := commit_none (s := { s' with eof := false }) (show s'.commit = none from commit_ok_none g5.commit)
  have e1 := layoutBytes_append ws1 ws2 s.pos
  generalize hL1 : layoutBytes s.pos ws1 = L1 at *
  generalize hL2 : layoutBytes (s.pos + L1.length) ws2 = L2 at *
  rw [e1, List.length_append] at hroom
  have hseek : streamSeek (.start (s.pos + L1.length)) { s' with eof := false } =
      .ok (s.pos + L1.length) (openedAt s'.inner.data (s.pos + L1.length) s'.inner.sched true s'.useSeek false s'.graceful) := by
    rcases seek_commits (w := .start (s.pos + L1.length)) hi2 with ⟨e, s5, h1, h2⟩ | ⟨s5, h1, ⟨h2, h3, h4, h5⟩ | ⟨h2, e, sc, -, h3⟩⟩
    · rw [hc] at h1; cases h1
    · rw [hc] at h1; cases h1
      rw [h5]; rfl
    · rw [hc] at h1; cases h1
      refine absurd ⟨?_, ?_, ?_⟩ h2
      · simp only [SeekFrom.target]; omega
      · simp only [SeekFrom.target]; unfold U64MAX; omega
      · exact ⟨g5.seekable, g5.benign.seek⟩
  have hdata : s'.inner.data.drop (s.pos + L1.length) = L2 ++ s.inner.data.drop (s.pos + (L1 ++ L2).length) := by
    rw [g2, e1, ← hp]
    unfold written
    rw [List.append_assoc, List.append_assoc, List.drop_append, List.drop_of_length_le (by rw [List.length_take]; omega), List.length_take, Nat.min_eq_left (by omega),
      show s.pos + L1.length - s.pos = L1.length by omega, List.nil_append, List.drop_left]
  have hlen : s.pos + (L1 ++ L2).length ≤ s'.inner.data.length := by
    have := g5.within
    rw [g3, e1] at this; omega
  have hO : Over (openedAt s'.inner.data (s.pos + L1.length) s'.inner.sched true s'.useSeek false s'.graceful)
      (L2 ++ s.inner.data.drop (s.pos + (L1 ++ L2).length)) := by
    refine ⟨⟨?_, rfl, rfl, rfl⟩, g5.benign, ?_, hdata, ?_⟩
    · show s.pos + L1.length ≤ U64MAX
      unfold U64MAX; omega
    · show s.pos + L1.length ≤ s'.inner.data.length
      rw [List.length_append] at hlen; omega
    · show s.pos + L1.length + _ ≤ U64MAX
      simp only [List.length_append, List.length_drop]
      unfold U64MAX; omega
  have henc : EncToks (layoutToks (s.pos + L1.length) ws2) L2 := by
    rw [← hL2]; exact layout_enc ws2 (fun w h => hws w (by simp [h])) _ (by rw [hL2]; omega)
  obtain ⟨r, h1, -⟩ := c08_read_back _ _ _ _ hO henc
  exact ⟨s', _, r, g1, by
    rw [show (clearEof : M Err Stream Unit) = M.modify fun s => { s with eof := false } from rfl, M.bind_ok (M.modify_apply _ _)]; exact hseek, h1⟩

/-- Two integers, a dynamic blob and padding written to an empty stream; reading again from the blob on. -/
example :
    let ws1 : List Write := [.call (.u64 1 300), .call (.bool 2 true)]
    let ws2 : List Write := [.blobDynamic 3 [[1], [2, 3]], .padToAlign 3, .call .endDoc]
    (∀ w ∈ ws1 ++ ws2, WriteOk w) ∧ layoutToks (0 + (layoutBytes 0 ws1).length) ws2 = .blob 3 [1, 2, 3] :: List.replicate 5 .padding ++ [.endDoc] := by
  refine ⟨?_, by decide +kernel⟩
  intro w hw
  simp only [List.cons_append, List.nil_append, List.mem_cons, List.not_mem_nil, or_false] at hw
  rcases hw with rfl | rfl | rfl | rfl | rfl
  · show ∀ t ∈ WCall.toks (.u64 1 300), t.Valid
    decide +kernel
  · show ∀ t ∈ WCall.toks (.bool 2 true), t.Valid
    decide +kernel
  · show TagOk 3
    decide
  · show 3 ≤ 62
    decide
  · show ∀ t ∈ WCall.toks .endDoc, t.Valid
    decide +kernel

end Fourleaf.Props
