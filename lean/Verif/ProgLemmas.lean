import Verif.SafeLemmas
import Verif.Prog

/-! # No client program can make the stream panic or hang -/

namespace Fourleaf

/-- The length of the blob an element carries. -/
def Element.blobLen? : Element → Option Nat
  | .exception n => some n
  | .field f => match f.value with
    | .blob n => some n
    | _ => none
  | _ => none

/-- The pending operation after an element was read. -/
def Shape (e : Element) (s : Stream) : Prop :=
  match e.blobLen? with
  | some n => s.commit = some .skipBlob ∧ s.blobEnd = s.pos + n ∧ s.live = true
  | none => s.commit = none

theorem nextBlob_shape {s s' : Stream} {n : Nat} (h : nextBlob s = .ok n s') :
    s'.commit = some .skipBlob ∧ s'.blobEnd = s'.pos + n ∧ s'.live = true := by
  unfold nextBlob at h
  cases hr : decodeU64 (readByte false) s with
  | err e s2 => rw [M.bind_err hr] at h; cases h
  | ok len s2 =>
    rw [M.bind_ok hr] at h
    cases hch : checkAdvance len.toNat s2 with
    | err e s3 => rw [M.bind_err hch] at h; cases h
    | ok u s3 =>
      rw [M.bind_ok hch, M.bind_ok (M.modify_apply _ _), M.pure_apply] at h
      cases h
      exact ⟨rfl, rfl, rfl⟩

theorem readElement_shape {s s' : Stream} {e : Element} (hi : Inv s) (hc : s.commit = none) (he : s.eof = false)
    (h : readElement s = .ok e s') : Shape e s' := by
  have hA := readByte_adv true hi
  have hS := readByte_safe true hi hc
  unfold readElement at h
  cases hr : readByte true s with
  | err e s2 => rw [hr] at h; cases h
  | ok b s2 =>
    rw [hr] at h hA hS
    have hc2 : s2.commit = none := hA.commit.trans hc
    have hi2 : Inv s2 := hS.step.inv
    obtain ⟨d, hd, -, -⟩ := Props.c07_parse_total b
    dsimp only at h
    rw [hd] at h
    cases d with
    | pair ty tag =>
      dsimp only at h
      generalize hs3 : (if s2.depth = 0 then { s2 with depth := 1 } else s2) = s3 at h
      have hc3 : s3.commit = none := by rw [← hs3]; split <;> exact hc2
      have hi3 : Inv s3 := by
        rw [← hs3]; split
        · exact (step_setDepth hi2 (hA.eof.trans he) 1).inv
        · exact hi2
      cases hv : nextValue ty s3 with
      | err e' s4 => rw [M.bind_err hv] at h; cases h
      | ok v s4 =>
        rw [M.bind_ok hv] at h; cases h
        cases ty with
        | integer =>
          simp only [nextValue] at hv
          have hA3 := (decodeU64_adv hi3 hc3).1
          cases hd : decodeU64 (readByte false) s3 with
          | err e' s5 => rw [M.bind_err hd] at hv; cases hv
          | ok n s5 =>
            rw [M.bind_ok hd] at hv; cases hv
            rw [hd] at hA3
            exact hA3.commit.trans hc3
        | blob =>
          simp only [nextValue] at hv
          cases hd : nextBlob s3 with
          | err e' s5 => rw [M.bind_err hd] at hv; cases hv
          | ok n s5 =>
            rw [M.bind_ok hd] at hv; cases hv
            exact nextBlob_shape hd
        | struct =>
          simp only [nextValue] at hv
          rw [M.bind_ok (M.modify_apply _ _)] at hv; cases hv
          exact hc3
        | enum =>
          simp only [nextValue] at hv
          have hA3 := (decodeU64_adv hi3 hc3).1
          cases hd : decodeU64 (readByte false) s3 with
          | err e' s5 => rw [M.bind_err hd] at hv; cases hv
          | ok n s5 =>
            rw [M.bind_ok hd, M.bind_ok (M.modify_apply _ _)] at hv; cases hv
            rw [hd] at hA3
            exact hA3.commit.trans hc3
    | special sp =>
      cases sp with
      | endOfStruct => cases h; exact hc2
      | endOfDoc => cases h; exact hc2
      | exception =>
        dsimp only at h
        cases hv : nextBlob s2 with
        | err e' s4 => rw [M.bind_err hv] at h; cases h
        | ok v s4 => rw [M.bind_ok hv] at h; cases h; exact nextBlob_shape hv
      | padding => cases h; exact hc2

theorem skipPadLoop_shape : ∀ (fuel : Nat) {s s' : Stream} {e : Element}, Inv s → s.commit = none →
    s.eof = false → skipPadLoop fuel s = .ok e s' → Shape e s' := by
  intro fuel
  induction fuel with
  | zero => intro s s' e _ _ _ h; cases h
  | succ fuel ih =>
    intro s s' e hi hc he h
    rw [skipPadLoop] at h
    cases hr : readElement s with
    | err e' s2 => rw [M.bind_err hr] at h; cases h
    | ok e' s2 =>
      rw [M.bind_ok hr, M.ite_apply] at h
      have hR := readElement_safe hi hc he
      split at h
      · rename_i hp
        subst hp
        have hsh := readElement_shape hi hc he hr
        rw [hr] at hR
        exact ih hR.1.step.inv hsh ((hR.2 _ _ rfl).1.1 (by simp)) h
      · cases h; exact readElement_shape hi hc he hr

theorem nextElementImpl_shape {sp : Bool} {s s' : Stream} {e : Element} (hi : Inv s)
    (h : nextElementImpl sp s = .ok e s') : Shape e s' := by
  unfold nextElementImpl at h
  by_cases he : s.eof = true
  · rw [if_pos he] at h; cases h; exact hi.eofCommit he
  · rw [if_neg he] at h
    have hC := commit_safe hi
    cases hr : commit s with
    | err e' s2 => rw [M.bind_err hr] at h; cases h
    | ok u s2 =>
      rw [hr] at hC
      obtain ⟨h1, h2, -, -⟩ := hC.2 _ _ rfl
      have hi2 := hC.1.step.inv
      rw [M.bind_ok hr] at h
      have he2 : s2.eof = false := by rw [h2]; simpa using he
      cases sp with
      | false => exact readElement_shape hi2 h1 he2 h
      | true => exact skipPadLoop_shape _ hi2 h1 he2 h

/-- What a successful `next_field`/`next_element` guarantees, whatever is returned. -/
structure PulledAny (s s' : Stream) (none : Bool) : Prop where
  input : vpos s < s.inner.data.length ∨ none = true
  prog : none = false → vpos s < vpos s'

theorem nextField_safe {s : Stream} (hi : Inv s) :
    SafeRes s (nextField s) ∧
    (∀ o s', nextField s = .ok o s' → (o.isSome = true → vpos s < vpos s' ∧ vpos s < s.inner.data.length ∧
      s'.eof = false)) := by
  have hN := nextElementImpl_safe true hi
  unfold nextField
  cases hr : nextElementImpl true s with
  | err e s2 =>
    rw [hr] at hN; rw [M.bind_err hr]
    exact ⟨⟨hN.1.step, by intro e' s'' h; cases h; exact hN.1.normal _ _ rfl⟩, by intro o s' h; cases h⟩
  | ok e s2 =>
    have hsh := nextElementImpl_shape hi hr
    rw [hr] at hN; rw [M.bind_ok hr]
    obtain ⟨hnp, hP⟩ := hN.2 _ _ rfl
    have hst := hN.1.step
    simp only [Res.state_ok] at hst
    cases e with
    | padding => exact absurd rfl (hnp rfl)
    | endOfStruct => exact ⟨.ok hst, by intro o s' h; cases h; simp⟩
    | endOfDoc => exact ⟨.ok hst, by intro o s' h; cases h; simp⟩
    | field f =>
      refine ⟨.ok hst, ?_⟩
      intro o s' h; cases h
      intro _
      have hprog := hP.prog (by simp)
      refine ⟨hprog, ?_, hP.some_eof (by simp)⟩
      rcases hP.input with h | ⟨-, h⟩ | h
      · exact h
      · cases h
      · have : nextElementImpl true s = .ok .endOfDoc s := by unfold nextElementImpl; rw [if_pos h]
        rw [this] at hr; cases hr
    | exception n =>
      have hR := readOrTrunc_safe 256 hst.inv hsh.1
      refine ⟨.trans hst (hR.bind fun m s' _ hst' => .err (.refl hst'.inv) rfl), ?_⟩
      intro o s' h
      dsimp only at h
      cases hm : readOrTrunc 256 s2 with
      | ok m s3 => rw [M.bind_ok hm] at h; cases h
      | err e s3 => rw [M.bind_err hm] at h; cases h

theorem nextElement_safe {s : Stream} (hi : Inv s) :
    SafeRes s (nextElement s) ∧
    (∀ e s', nextElement s = .ok e s' → (e ≠ .endOfDoc → vpos s < vpos s' ∧ vpos s < s.inner.data.length ∧
      s'.eof = false) ∧ (e = .endOfDoc → s'.eof = true ∧ s'.depth = 0)) := by
  have hN := nextElementImpl_safe false hi
  unfold nextElement
  refine ⟨hN.1, fun e s' h => ?_⟩
  obtain ⟨-, hP⟩ := hN.2 _ _ h
  refine ⟨fun hne => ⟨hP.prog hne, ?_, hP.some_eof hne⟩, hP.none_eof⟩
  rcases hP.input with h' | ⟨-, h'⟩ | h'
  · exact h'
  · exact absurd h' hne
  · have : nextElementImpl false s = .ok .endOfDoc s := by unfold nextElementImpl; rw [if_pos h']
    rw [this] at h; cases h; exact absurd rfl hne

theorem skipUpLoop_safe (d : Nat) : ∀ (fuel : Nat) (s : Stream), Inv s →
    s.inner.data.length - vpos s + 2 ≤ fuel → SafeRes s (skipUpLoop d fuel s) := by
  intro fuel
  induction fuel with
  | zero => intro s _ h; omega
  | succ fuel ih =>
    intro s hi hf
    rw [skipUpLoop]
    split
    · have hN := nextElement_safe hi
      refine hN.1.bind fun e s' h hst => ?_
      by_cases he : e = .endOfDoc
      · have := (hN.2 _ _ h).2 he
        cases fuel with
        | zero => omega
        | succ fuel => rw [skipUpLoop, if_neg (by omega)]; exact .ok (.refl hst.inv)
      · have := (hN.2 _ _ h).1 he
        exact ih s' hst.inv (by rw [hst.frame.data]; omega)
    · exact .ok (.refl hi)

theorem vpos_ge (s : Stream) : s.inner.pos ≤ vpos s := by unfold vpos; omega

theorem skipUp_safe {s : Stream} (d : Nat) (hi : Inv s) : SafeRes s (skipUp d s) :=
  skipUpLoop_safe d _ s hi (by have := vpos_ge s; omega)

theorem blobSlice_safe {s : Stream} (hi : Inv s) (hl : s.live = true) : SafeRes s (blobSlice s) := by
  have h : innerSlice s = .ok s.inner.rest s := by
    unfold innerSlice; rw [if_neg (by have := (hi.liveOk hl).2; omega)]
  unfold blobSlice
  rw [M.bind_ok h, M.bind_ok (M.get_apply s), M.ite_apply]
  split
  · exact .ok (.refl hi)
  · exact .err (.refl hi) rfl

theorem blobRead_safe {s : Stream} (want : Nat) (hi : Inv s) (hc : s.commit = some .skipBlob) :
    SafeRes s (blobRead want s) := by
  have hp := hi.pend
  rw [hc] at hp; simp at hp
  unfold blobRead
  dsimp only
  split
  · exact .ok (.refl hi)
  · rename_i h0
    by_cases hw : want = 0
    · subst hw; simp only [Nat.zero_min, trackRead, if_true]; exact .ok (.refl hi)
    · unfold blobRemaining at h0 ⊢
      rcases trackRead_spec false (min want (s.blobEnd - s.pos)) (by omega) s with ⟨h, -⟩ | ⟨-, h⟩
      · omega
      · rcases h with ⟨k, sc, h2, h3, h4, h5, h6, -, -⟩ | ⟨sc, h2, h3, h4⟩ | ⟨sc, h2, h3, h4⟩ | ⟨sc, h2, h3, h4⟩
        · rw [h2]; exact .ok (step_advBy_blob hi hc (by omega) h6 h5)
        · rw [h4]; exact .ok (step_advBy_blob hi hc (by omega) h3 (by omega))
        · rw [h2]; exact .err (step_advBy_blob hi hc (by omega) h3 (by omega)) rfl
        · rw [h2]; exact .err (step_advBy_blob hi hc (by omega) h3 (by omega)) rfl

theorem clearEof_safe {s : Stream} (hi : Inv s) : SafeRes s (clearEof s) :=
  .ok ⟨⟨hi.pos_le, hi.pend, fun h => by simp at h, fun h => by simp at h, hi.liveOk⟩,
    ⟨rfl, rfl, rfl, rfl, rfl, List.suffix_refl _⟩, Nat.le_refl _, fun h => by simp at h⟩

/-- Every API call is safe in every state that satisfies the invariant. -/
theorem Op.exec_safe {β : Type} (o : Op β) {s : Stream} (hi : Inv s) : SafeRes s (o.exec s) := by
  have hlive : ∀ {α : Type} (m : M Err Stream α), (s.live = true → SafeRes s (m s)) →
      SafeRes s (onLiveBlob m s) := by
    intro α m h
    unfold onLiveBlob
    split
    · rename_i hl; exact h hl
    · exact .err (.refl hi) rfl
  cases o with
  | nextField => exact (nextField_safe hi).1
  | nextElement => exact (nextElement_safe hi).1
  | skipUp d => exact skipUp_safe d hi
  | commit => exact (commit_safe hi).1
  | clearEof => exact clearEof_safe hi
  | eof => exact .ok (.refl hi)
  | pos => exact .ok (.refl hi)
  | structDepth => exact .ok (.refl hi)
  | readFully max => exact hlive _ fun hl => readFully_safe max hi (hi.liveOk hl).1
  | readOrTrunc max => exact hlive _ fun hl => readOrTrunc_safe max hi (hi.liveOk hl).1
  | read want => exact hlive _ fun hl => blobRead_safe want hi (hi.liveOk hl).1
  | slice => exact hlive _ fun hl => blobSlice_safe hi hl
  | remaining => exact hlive _ fun _ => .ok (.refl hi)

theorem pull_safe (fields : Bool) {s : Stream} (hi : Inv s) :
    SafeRes s (pull fields s) ∧ (∀ e s', pull fields s = .ok (some e) s' →
      vpos s < vpos s' ∧ vpos s < s.inner.data.length) := by
  unfold pull
  cases fields with
  | true =>
    have h := nextField_safe hi
    simp only [if_true]
    cases hr : nextField s with
    | err e s' =>
      rw [hr] at h
      exact ⟨⟨h.1.step, fun e' s'' h' => by cases h'; exact h.1.normal _ _ rfl⟩, by intro e s' h; cases h⟩
    | ok o s' =>
      rw [hr] at h
      cases o with
      | none => exact ⟨.ok h.1.step, by intro e s' h; cases h⟩
      | some f =>
        refine ⟨.ok h.1.step, fun e s' h' => ?_⟩
        cases h'
        have := h.2 _ _ rfl rfl
        exact ⟨this.1, this.2.1⟩
  | false =>
    have h := nextElement_safe hi
    simp only [Bool.false_eq_true, if_false]
    cases hr : nextElement s with
    | err e s' =>
      rw [hr] at h
      exact ⟨⟨h.1.step, fun e' s'' h' => by cases h'; exact h.1.normal _ _ rfl⟩, by intro e s' h; cases h⟩
    | ok o s' =>
      rw [hr] at h
      have h2 := (h.2 _ _ rfl).1
      cases o with
      | endOfDoc => exact ⟨.ok h.1.step, by intro e s' h; cases h⟩
      | field f => exact ⟨.ok h.1.step, by intro e s' h; cases h; exact ⟨(h2 (by simp)).1, (h2 (by simp)).2.1⟩⟩
      | endOfStruct => exact ⟨.ok h.1.step, by intro e s' h; cases h; exact ⟨(h2 (by simp)).1, (h2 (by simp)).2.1⟩⟩
      | exception n => exact ⟨.ok h.1.step, by intro e s' h; cases h; exact ⟨(h2 (by simp)).1, (h2 (by simp)).2.1⟩⟩
      | padding => exact ⟨.ok h.1.step, by intro e s' h; cases h; exact ⟨(h2 (by simp)).1, (h2 (by simp)).2.1⟩⟩

/-- A client's run is safe: invariants kept, and it never stops because of a panic or hang. -/
structure SafeRun {ε U α : Type} (st : PSt U) (r : Res (Stop ε) (PSt U) α) : Prop where
  step : Step st.1 r.state.1
  normal : ∀ e st', r = .err (.abort e) st' → False

theorem SafeRun.after {ε U α : Type} {st st' : PSt U} {r : Res (Stop ε) (PSt U) α} (h : Step st.1 st'.1)
    (h' : SafeRun st' r) : SafeRun st r := ⟨h.trans h'.step, h'.normal⟩

theorem runLoop_safe {ε U β α : Type} (fields : Bool) (body : β → Element → M (Stop ε) (PSt U) (β ⊕ α))
    (onErr : Err → M (Stop ε) (PSt U) α) (onEnd : β → M (Stop ε) (PSt U) α)
    (hb : ∀ b e st, Inv st.1 → SafeRun st (body b e st))
    (hErr : ∀ e st, Inv st.1 → SafeRun st (onErr e st))
    (hEnd : ∀ b st, Inv st.1 → SafeRun st (onEnd b st)) :
    ∀ (fuel : Nat) (b : β) (st : PSt U), Inv st.1 → st.1.inner.data.length - vpos st.1 + 2 ≤ fuel →
    SafeRun st (runLoop fields body onErr onEnd fuel b st) := by
  intro fuel
  induction fuel with
  | zero => intro b st _ h; omega
  | succ fuel ih =>
    intro b st hi hf
    rw [runLoop]
    have hP := pull_safe fields hi
    cases hr : pull fields st.1 with
    | err e s =>
      rw [hr] at hP
      have := hP.1.normal _ _ rfl
      simp only [this, Bool.false_eq_true, if_false]
      exact .after (st' := (s, st.2)) hP.1.step (hErr e (s, st.2) hP.1.step.inv)
    | ok o s =>
      rw [hr] at hP
      have hst := hP.1.step
      simp only [Res.state_ok] at hst
      cases o with
      | none => exact .after (st' := (s, st.2)) hst (hEnd b (s, st.2) hst.inv)
      | some el =>
        dsimp only
        have hlt := hP.2 _ _ rfl
        have hB := hb b el (s, st.2) hst.inv
        cases hbr : body b el (s, st.2) with
        | err e st' =>
          rw [hbr] at hB
          exact ⟨hst.trans hB.step, fun e' st'' h => by cases h; exact hB.normal _ _ rfl⟩
        | ok x st' =>
          rw [hbr] at hB
          have hst2 := hB.step
          simp only [Res.state_ok] at hst2
          cases x with
          | inr a => exact ⟨hst.trans hst2, fun e' st'' h => by cases h⟩
          | inl b' =>
            refine .after (hst.trans hst2) (ih b' st' hst2.inv ?_)
            have h1 := hst2.mono
            rw [hst2.frame.data, hst.frame.data]; omega

theorem Prog.run_safe {ε U : Type} : ∀ {α : Type} (p : Prog ε U α) (st : PSt U), Inv st.1 →
    SafeRun st (p.run st) := by
  intro α p
  induction p with
  | ret a => intro st hi; exact ⟨.refl hi, fun e st' h => by cases h⟩
  | fail e => intro st hi; exact ⟨.refl hi, fun e st' h => by cases h⟩
  | op o =>
    intro st hi
    have h := o.exec_safe hi
    simp only [Prog.run]
    cases hr : o.exec st.1 with
    | ok b s => rw [hr] at h; exact ⟨h.step, fun e st' h => by cases h⟩
    | err e s =>
      rw [hr] at h
      simp only [h.normal _ _ rfl, Bool.false_eq_true, if_false]
      exact ⟨h.step, fun e st' h => by cases h⟩
  | call o f =>
    intro st hi
    have h := o.exec_safe hi
    simp only [Prog.run]
    cases hr : o.exec st.1 with
    | ok b s => rw [hr] at h; exact ⟨h.step, fun e st' h => by cases h⟩
    | err e s =>
      rw [hr] at h
      simp only [h.normal _ _ rfl, Bool.false_eq_true, if_false]
      exact ⟨h.step, fun e st' h => by cases h⟩
  | getU => intro st hi; exact ⟨.refl hi, fun e st' h => by cases h⟩
  | setU u => intro st hi; exact ⟨.refl hi, fun e st' h => by cases h⟩
  | bind p f ihp ihf =>
    intro st hi
    have h := ihp st hi
    simp only [Prog.run]
    cases hr : p.run st with
    | ok a st' => rw [hr] at h; exact .after h.step (ihf a st' h.step.inv)
    | err e st' =>
      rw [hr] at h
      exact ⟨h.step, fun e' st'' h' => by cases h'; exact h.normal _ _ rfl⟩
  | attempt p ih =>
    intro st hi
    have h := ih st hi
    simp only [Prog.run]
    cases hr : p.run st with
    | ok a st' => rw [hr] at h; exact ⟨h.step, fun e' st'' h' => by cases h'⟩
    | err e st' =>
      rw [hr] at h
      cases e with
      | client e => exact ⟨h.step, fun e' st'' h' => by cases h'⟩
      | abort e => exact absurd rfl (h.normal e st')
  | loop fields init body onErr onEnd ihb ihe ihd =>
    intro st hi
    simp only [Prog.run]
    exact runLoop_safe fields _ _ _ (fun b e st h => ihb b e st h) (fun e st h => ihe e st h)
      (fun b st h => ihd b st h) _ init st hi (by have := vpos_ge st.1; omega)

end Fourleaf
