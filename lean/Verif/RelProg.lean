import Verif.RelLemmas

/-! # Two runs of the same client side by side -/

namespace Fourleaf

/-- Related outcomes, where success on the shorter input may also leave a doomed stream. -/
structure RD {α : Type} (lo : Bool) (q : List Byte) (r r' : Res Err Stream α) : Prop where
  ok : ∀ a s, r = .ok a s → (∃ t, r' = .ok a t ∧ Rel lo q s t) ∨ (lo ≠ false ∧ Doomed s)
  err : ∀ e s, r = .err e s → (lo ≠ false ∧ Short e s) ∨ ∃ t, r' = .err e t ∧ Rel lo q s t

theorem RR.toRD {α : Type} {lo : Bool} {q : List Byte} {r r' : Res Err Stream α} (h : RR lo q r r') : RD lo q r r' :=
  ⟨fun a s h' => .inl (h.ok a s h'), h.err⟩

theorem drainBlob_rd (n : Nat) {lo : Bool} {q : List Byte} {s t : Stream} (h : Rel lo q s t) (hi : Inv s)
    (hc : s.commit = some .skipBlob) (hn : n ≤ blobRemaining s) :
    RD lo q (drain blobRead n s) (drain blobRead n t) := by
  have hp := hi.pend
  rw [hc] at hp; simp at hp
  by_cases hq : n ≤ s.rest.length ∨ lo = false
  · exact (drainBlob_rel n h hn hp.2 hq).toRD
  · have hd : Doomed s := by
      refine ⟨?_, h.grace (fun h => hq (.inr h)), ?_⟩
      · cases he : s.eof with
        | false => rfl
        | true => have := hi.eofCommit he; rw [hc] at this; cases this
      · unfold vpos; rw [if_pos hc]
        unfold blobRemaining at hn
        have : ¬ n ≤ s.rest.length := fun h => hq (.inl h)
        rw [rest_length] at this; omega
    have hS := drain_blob_safe n hi hc hn
    refine ⟨fun a s' h' => .inr ⟨fun hq' => hq (.inr hq'), ?_⟩, fun e s' h' => .inl ⟨fun hq' => hq (.inr hq'), .inr ?_⟩⟩
    all_goals rw [h'] at hS; exact hd.step hS.step

theorem readFully_rd (max : Nat) {lo : Bool} {q : List Byte} {s t : Stream} (h : Rel lo q s t) (hi : Inv s)
    (hc : s.commit = some .skipBlob) : RD lo q (readFully max s) (readFully max t) := by
  have hb : blobRemaining t = blobRemaining s := by unfold blobRemaining; rw [h.blobEnd, h.pos]
  unfold readFully
  rw [hb]
  split
  · exact (RR.mkErr h).toRD
  · exact drainBlob_rd _ h hi hc (Nat.le_refl _)

theorem readOrTrunc_rd (max : Nat) {lo : Bool} {q : List Byte} {s t : Stream} (h : Rel lo q s t) (hi : Inv s)
    (hc : s.commit = some .skipBlob) : RD lo q (readOrTrunc max s) (readOrTrunc max t) := by
  have hb : blobRemaining t = blobRemaining s := by unfold blobRemaining; rw [h.blobEnd, h.pos]
  unfold readOrTrunc
  rw [hb]
  exact drainBlob_rd _ h hi hc (Nat.min_le_right _ _)

theorem nextField_rel {lo : Bool} {q : List Byte} {s t : Stream} (h : Rel lo q s t) (hi : Inv s) :
    RR lo q (nextField s) (nextField t) := by
  unfold nextField
  refine (nextElementImpl_rel true h hi).bind fun e s' t' hr h' => ?_
  have hsh := nextElementImpl_shape hi hr
  have hS := nextElementImpl_safe true hi
  rw [hr] at hS
  cases e with
  | padding => exact .mkErr h'
  | endOfStruct => exact .mkOk h'
  | endOfDoc => exact .mkOk h'
  | field f => exact .mkOk h'
  | exception n =>
    have hR := readOrTrunc_rd 256 h' hS.1.step.inv hsh.1
    dsimp only
    cases hm : readOrTrunc 256 s' with
    | ok m s2 =>
      rw [M.bind_ok hm]
      rcases hR.ok m s2 hm with ⟨t2, h1, h2⟩ | ⟨h1, h2⟩
      · rw [M.bind_ok h1]; exact .mkErr h2
      · exact .short ⟨h1, .inr h2⟩
    | err e s2 =>
      rw [M.bind_err hm]
      rcases hR.err e s2 hm with hq | ⟨t2, h1, h2⟩
      · exact .short hq
      · rw [M.bind_err h1]; exact .mkErr h2

theorem skipUpLoop_rel (d : Nat) : ∀ (fuel fuel' : Nat) {lo : Bool} {q : List Byte} {s t : Stream}, Rel lo q s t → Inv s →
    fuel ≤ fuel' → (lo = false → fuel = fuel') → RR lo q (skipUpLoop d fuel s) (skipUpLoop d fuel' t) := by
  intro fuel
  induction fuel with
  | zero =>
    intro fuel' lo q s t h _ _ hq
    by_cases hq' : lo = false
    · obtain rfl := hq hq'; exact .mkErr h
    · exact .short ⟨hq', .inl (.inr rfl)⟩
  | succ fuel ih =>
    intro fuel' lo q s t h hi hle hq
    cases fuel' with
    | zero => omega
    | succ fuel' =>
      rw [skipUpLoop, skipUpLoop, h.depth]
      split
      · have hN := nextElementImpl_rel false h hi
        have hS := nextElementImpl_safe false hi
        unfold nextElement
        cases hr : nextElementImpl false s with
        | err e s' =>
          rw [M.bind_err hr]
          rcases hN.err e s' hr with hq | ⟨t', h1, h2⟩
          · exact .short hq
          · rw [M.bind_err h1]; exact .mkErr h2
        | ok e s' =>
          obtain ⟨t', h1, h2⟩ := hN.ok e s' hr
          rw [hr] at hS
          rw [M.bind_ok hr, M.bind_ok h1]
          exact ih fuel' h2 hS.1.step.inv (by omega) (fun h => by have := hq h; omega)
      · exact .mkOk h

theorem skipUp_rel (d : Nat) {lo : Bool} {q : List Byte} {s t : Stream} (h : Rel lo q s t) (hi : Inv s) :
    RR lo q (skipUp d s) (skipUp d t) :=
  skipUpLoop_rel d _ _ h hi h.fuel.1 h.fuel.2

theorem blobSlice_rel {lo : Bool} {q : List Byte} {s t : Stream} (h : Rel lo q s t) (hi : Inv s) (hl : s.live = true) :
    RR lo q (blobSlice s) (blobSlice t) := by
  have hw := (hi.liveOk hl).2
  have h1 : innerSlice s = .ok s.inner.rest s := by unfold innerSlice; rw [if_neg (by omega)]
  have h2 : innerSlice t = .ok t.inner.rest t := by
    unfold innerSlice; rw [if_neg (by rw [h.ipos, h.data, List.length_append]; omega)]
  have hb : blobRemaining t = blobRemaining s := by unfold blobRemaining; rw [h.blobEnd, h.pos]
  unfold blobSlice
  rw [M.bind_ok h1, M.bind_ok h2, M.bind_ok (M.get_apply s), M.bind_ok (M.get_apply t), M.ite_apply, M.ite_apply, hb]
  have hr : t.inner.rest = s.inner.rest ++ q := by
    unfold Inner.rest; rw [h.ipos, h.data, List.drop_append]
    rw [show s.inner.pos - s.inner.data.length = 0 by omega]; simp
  by_cases hle : blobRemaining s ≤ s.inner.rest.length
  · rw [if_pos hle, if_pos (by rw [hr, List.length_append]; omega), hr, List.take_append_of_le_length hle]
    exact .mkOk h
  · rw [if_neg hle]
    by_cases hq : lo = false
    · obtain rfl := h.nil hq
      rw [List.append_nil] at hr
      rw [hr, if_neg hle]; exact .mkErr h
    · refine .short ⟨hq, .inr ⟨?_, h.grace hq, ?_⟩⟩
      · cases hE : s.eof with
        | false => rfl
        | true => have := hi.eofCommit hE; rw [(hi.liveOk hl).1] at this; cases this
      · unfold vpos; rw [if_pos (hi.liveOk hl).1]
        unfold blobRemaining at hle
        have : s.inner.rest.length = s.inner.data.length - s.inner.pos := by simp [Inner.rest]
        omega

theorem Op.exec_rd {β : Type} (o : Op β) (ho : o.whole) {lo : Bool} {q : List Byte} {s t : Stream} (h : Rel lo q s t)
    (hi : Inv s) : RD lo q (o.exec s) (o.exec t) := by
  have hlive : ∀ {α : Type} (m : M Err Stream α), (s.live = true → RD lo q (m s) (m t)) →
      RD lo q (onLiveBlob m s) (onLiveBlob m t) := by
    intro α m hm
    unfold onLiveBlob
    rw [h.live]
    split
    · rename_i hl; exact hm hl
    · exact (RR.mkErr h).toRD
  cases o with
  | nextField => exact (nextField_rel h hi).toRD
  | nextElement => exact (nextElementImpl_rel false h hi).toRD
  | skipUp d => exact (skipUp_rel d h hi).toRD
  | commit => exact (commit_rel h hi).toRD
  | clearEof => exact (RR.mkOk (h.upd (fun s => { s with eof := false }) (fun _ => rfl) rfl rfl)).toRD
  | eof => simp only [Op.exec, h.eof]; exact (RR.mkOk h).toRD
  | pos => simp only [Op.exec, h.pos]; exact (RR.mkOk h).toRD
  | structDepth => simp only [Op.exec, h.depth]; exact (RR.mkOk h).toRD
  | readFully max => exact hlive _ fun hl => readFully_rd max h hi (hi.liveOk hl).1
  | readOrTrunc max => exact hlive _ fun hl => readOrTrunc_rd max h hi (hi.liveOk hl).1
  | read want => exact absurd ho id
  | slice => exact hlive _ fun hl => (blobSlice_rel h hi hl).toRD
  | remaining =>
    refine hlive (fun s => .ok (blobRemaining s) s) fun _ => ?_
    have hb : blobRemaining t = blobRemaining s := by unfold blobRemaining; rw [h.blobEnd, h.pos]
    rw [hb]; exact (RR.mkOk h).toRD

theorem pull_rel (fields : Bool) {lo : Bool} {q : List Byte} {s t : Stream} (h : Rel lo q s t) (hi : Inv s) :
    RR lo q (pull fields s) (pull fields t) := by
  unfold pull
  cases fields with
  | true =>
    simp only [if_true]
    have hN := nextField_rel h hi
    cases hr : nextField s with
    | err e s' =>
      rcases hN.err e s' hr with hq | ⟨t', h1, h2⟩
      · exact .short hq
      · rw [h1]; exact .mkErr h2
    | ok o s' =>
      obtain ⟨t', h1, h2⟩ := hN.ok o s' hr
      rw [h1]
      cases o <;> exact .mkOk h2
  | false =>
    simp only [Bool.false_eq_true, if_false]
    have hN : RR lo q (nextElement s) (nextElement t) := nextElementImpl_rel false h hi
    cases hr : nextElement s with
    | err e s' =>
      rcases hN.err e s' hr with hq | ⟨t', h1, h2⟩
      · exact .short hq
      · rw [h1]; exact .mkErr h2
    | ok o s' =>
      obtain ⟨t', h1, h2⟩ := hN.ok o s' hr
      rw [h1]
      cases o <;> exact .mkOk h2

/-- Calls that pull no element cannot meet the end of the input in one. -/
theorem Op.quiet_err {β : Type} (o : Op β) (ho : o.whole) (hq : o.quiet) {s s' : Stream} {e : Err} (hb : Benign s.inner.sched) (hi : Inv s)
    (h : o.exec s = .err e s') : e ≠ .io .unexpectedEof := by
  have hD : ∀ n, s.commit = some .skipBlob → n ≤ blobRemaining s → drain blobRead n s ≠ .err e s' := by
    intro n hc hn hx
    have hp := hi.pend
    rw [hc] at hp; simp at hp
    obtain ⟨k, sc, -, -, -, h4⟩ := drain_blob_spec n s hn hp.2
    rcases h4 with ⟨-, h4⟩ | ⟨h4, -⟩
    · rw [hx] at h4; cases h4
    · exact h4 hb
  cases o with
  | nextField => exact hq.elim
  | nextElement => exact hq.elim
  | skipUp d => exact hq.elim
  | commit => exact hq.elim
  | read n => exact ho.elim
  | clearEof => cases h
  | eof => cases h
  | pos => cases h
  | structDepth => cases h
  | readFully max =>
    simp only [Op.exec, onLiveBlob] at h
    split at h
    · rename_i hl
      unfold Fourleaf.readFully at h
      split at h
      · cases h; simp
      · exact absurd h (hD _ (hi.liveOk hl).1 (Nat.le_refl _))
    · cases h; simp
  | readOrTrunc max =>
    simp only [Op.exec, onLiveBlob] at h
    split at h
    · rename_i hl
      unfold Fourleaf.readOrTrunc at h
      exact absurd h (hD _ (hi.liveOk hl).1 (Nat.min_le_right _ _))
    · cases h; simp
  | slice =>
    simp only [Op.exec, onLiveBlob] at h
    split at h
    · rename_i hl
      have hw := (hi.liveOk hl).2
      have h1 : innerSlice s = .ok s.inner.rest s := by unfold innerSlice; rw [if_neg (by omega)]
      unfold blobSlice at h
      rw [M.bind_ok h1, M.bind_ok (M.get_apply s), M.ite_apply] at h
      split at h
      · cases h
      · cases h; simp
    · cases h; simp
  | remaining =>
    simp only [Op.exec, onLiveBlob] at h
    split at h
    · cases h
    · cases h; simp

/-- Related runs: the same outcome, unless the shorter input ended in a blob, or the program ended with an error satisfying `D`. -/
structure RP {ε U α : Type} (D : ε → Prop) (lo : Bool) (q : List Byte) (r r' : Res (Stop ε) (PSt U) α) : Prop where
  ok : ∀ a st, r = .ok a st → (∃ t, r' = .ok a (t, st.2) ∧ Rel lo q st.1 t) ∨ (lo ≠ false ∧ Doomed st.1)
  err : ∀ e st, r = .err e st → (∃ t, r' = .err e (t, st.2) ∧ Rel lo q st.1 t) ∨ (lo ≠ false ∧ (Doomed st.1 ∨ ∃ d, e = .client d ∧ D d))

theorem RP.mkOk {ε U α : Type} {D : ε → Prop} {lo : Bool} {q : List Byte} {a : α} {s t : Stream} {u : U} (h : Rel lo q s t) :
    RP D lo q (.ok a (s, u) : Res (Stop ε) (PSt U) α) (.ok a (t, u)) :=
  ⟨fun a s h' => by cases h'; exact .inl ⟨t, rfl, h⟩, fun e s h' => by cases h'⟩

theorem RP.mkErr {ε U α : Type} {D : ε → Prop} {lo : Bool} {q : List Byte} {e : Stop ε} {s t : Stream} {u : U} (h : Rel lo q s t) :
    RP D lo q (.err e (s, u) : Res (Stop ε) (PSt U) α) (.err e (t, u)) :=
  ⟨fun a s h' => (by cases h'), fun e s h' => by cases h'; exact .inl ⟨t, rfl, h⟩⟩

theorem RP.ends {ε U α : Type} {D : ε → Prop} {lo : Bool} {q : List Byte} {d : ε} {st : PSt U} {r : Res (Stop ε) (PSt U) α}
    (h : lo ≠ false) (hd : D d) : RP D lo q (.err (.client d) st : Res (Stop ε) (PSt U) α) r :=
  ⟨fun a s h' => (by cases h'), fun e s h' => by cases h'; exact .inr ⟨h, .inr ⟨d, rfl, hd⟩⟩⟩

/-- A run that starts doomed ends doomed, so it says nothing. -/
theorem RP.doomed {ε U α : Type} {D : ε → Prop} {lo : Bool} {q : List Byte} {st : PSt U} {r r' : Res (Stop ε) (PSt U) α} (hq : lo ≠ false)
    (hd : Doomed st.1) (hs : SafeRun st r) : RP D lo q r r' :=
  ⟨fun a st' h => .inr ⟨hq, by subst h; exact hd.step hs.step⟩, fun e st' h => .inr ⟨hq, .inl (by subst h; exact hd.step hs.step)⟩⟩

theorem runLoop_rel {ε U β α : Type} (D : ε → Prop) (lo : Bool) (q : List Byte) (fields : Bool)
    (body : β → Element → M (Stop ε) (PSt U) (β ⊕ α))
    (onErr : Err → M (Stop ε) (PSt U) α) (onEnd : β → M (Stop ε) (PSt U) α)
    (sb : ∀ b e st, Inv st.1 → SafeRun st (body b e st))
    (sErr : ∀ e st, Inv st.1 → SafeRun st (onErr e st))
    (sEnd : ∀ b st, Inv st.1 → SafeRun st (onEnd b st))
    (hb : ∀ b e s t u, Rel lo q s t → Inv s → RP D lo q (body b e (s, u)) (body b e (t, u)))
    (hErr : ∀ e s t u, Rel lo q s t → Inv s → RP D lo q (onErr e (s, u)) (onErr e (t, u)))
    (hErr' : lo ≠ false → ∃ d, D d ∧ ∀ st, onErr (.io .unexpectedEof) st = .err (.client d) st)
    (hEnd : ∀ b s t u, Rel lo q s t → Inv s → RP D lo q (onEnd b (s, u)) (onEnd b (t, u))) :
    ∀ (fuel fuel' : Nat) (b : β) (s t : Stream) (u : U), Rel lo q s t → Inv s →
    s.inner.data.length - vpos s + 2 ≤ fuel → fuel ≤ fuel' → (lo = false → fuel = fuel') →
    RP D lo q (runLoop fields body onErr onEnd fuel b (s, u)) (runLoop fields body onErr onEnd fuel' b (t, u)) := by
  intro fuel
  induction fuel with
  | zero => intro fuel' b s t u _ _ h; omega
  | succ fuel ih =>
    intro fuel' b s t u h hi hf hle hq
    cases fuel' with
    | zero => omega
    | succ fuel' =>
      have hP := pull_rel fields h hi
      have hS := pull_safe fields hi
      cases hr : pull fields s with
      | err e s' =>
        have hi' : Inv s' := by rw [hr] at hS; exact hS.1.step.inv
        have hn : e.abnormal = false := by rw [hr] at hS; exact hS.1.normal _ _ rfl
        rcases hP.err e s' hr with ⟨hq', hsh⟩ | ⟨t', h1, h2⟩
        · simp only [runLoop, hr, hn, Bool.false_eq_true, if_false]
          rcases hsh with (rfl | hx) | hd
          · obtain ⟨d, h1, h2⟩ := hErr' hq'
            rw [h2]; exact .ends hq' h1
          · rw [hn] at hx; cases hx
          · exact .doomed hq' hd (sErr e (s', u) hi')
        · simp only [runLoop, hr, h1, hn, Bool.false_eq_true, if_false]
          exact hErr e s' t' u h2 hi'
      | ok o s' =>
        obtain ⟨t', h1, h2⟩ := hP.ok o s' hr
        have hi' : Inv s' := by rw [hr] at hS; exact hS.1.step.inv
        have hst : Step s s' := by rw [hr] at hS; exact hS.1.step
        cases o with
        | none =>
          simp only [runLoop, hr, h1]
          exact hEnd b s' t' u h2 hi'
        | some el =>
          have hlt := hS.2 el s' hr
          have hB := hb b el s' t' u h2 hi'
          have hSB := sb b el (s', u) hi'
          simp only [runLoop, hr, h1]
          cases hm : body b el (s', u) with
          | err e st' =>
            rcases hB.err e st' hm with ⟨t2, h3, h4⟩ | hx
            · rw [h3]; exact .mkErr h4
            · exact ⟨fun a s h' => (by cases h'), fun e s h' => by cases h'; exact .inr hx⟩
          | ok x st' =>
            rw [hm] at hSB
            have hst2 : Step s' st'.1 := hSB.step
            rcases hB.ok x st' hm with ⟨t2, h3, h4⟩ | ⟨hq', hd⟩
            · rw [h3]
              cases x with
              | inr a => exact .mkOk h4
              | inl b' =>
                refine ih fuel' b' st'.1 t2 st'.2 h4 hst2.inv ?_ (by omega) (fun h => by have := hq h; omega)
                have h5 := hst2.mono
                rw [hst2.frame.data, hst.frame.data]; omega
            · cases x with
              | inr a => exact ⟨fun a st h => by cases h; exact .inr ⟨hq', hd⟩, fun e st h => by cases h⟩
              | inl b' =>
                refine .doomed hq' hd (runLoop_safe fields body onErr onEnd sb sErr sEnd fuel b' st' hst2.inv ?_)
                have h5 := hst2.mono
                rw [hst2.frame.data, hst.frame.data]; omega

theorem Prog.run_rel {ε U : Type} (lo : Bool) (q : List Byte) : ∀ {α : Type} (p : Prog ε U α) (D : ε → Prop),
    p.OpsAll Op.whole → (lo = false ∨ p.Ends D) → ∀ (s t : Stream) (u : U), Rel lo q s t → Inv s →
    RP D lo q (p.run (s, u)) (p.run (t, u)) := by
  intro α p
  induction p with
  | ret a => intro D _ _ s t u h _; exact .mkOk h
  | fail e => intro D _ _ s t u h _; exact .mkErr h
  | op o =>
    intro D hw hq s t u h hi
    have hO := o.exec_rd hw h hi
    have hS := o.exec_safe hi
    simp only [Prog.run]
    cases hr : o.exec s with
    | ok b s' =>
      rcases hO.ok b s' hr with ⟨t', h1, h2⟩ | ⟨h1, h2⟩
      · rw [h1]; exact .mkOk h2
      · exact ⟨fun a st h => by cases h; exact .inr ⟨h1, h2⟩, fun e st h => by cases h⟩
    | err e s' =>
      rw [hr] at hS
      have hn := hS.normal _ _ rfl
      simp only [hn, Bool.false_eq_true, if_false]
      rcases hO.err e s' hr with ⟨hq', hsh⟩ | ⟨t', h1, h2⟩
      · rcases hsh with (rfl | hx) | hd
        · exact absurd rfl (o.quiet_err hw (hq.resolve_left hq') h.ben hi hr)
        · rw [hn] at hx; cases hx
        · exact ⟨fun a st h => by cases h; exact .inr ⟨hq', hd⟩, fun e st h => by cases h⟩
      · rw [h1]
        simp only [hn, Bool.false_eq_true, if_false]
        exact .mkOk h2
  | call o f =>
    intro D hw hq s t u h hi
    have hO := o.exec_rd hw h hi
    have hS := o.exec_safe hi
    simp only [Prog.run]
    cases hr : o.exec s with
    | ok b s' =>
      rcases hO.ok b s' hr with ⟨t', h1, h2⟩ | ⟨h1, hd⟩
      · rw [h1]; exact .mkOk h2
      · exact ⟨fun a st h => by cases h; exact .inr ⟨h1, hd⟩, fun e st h => by cases h⟩
    | err e s' =>
      rw [hr] at hS
      have hn := hS.normal _ _ rfl
      simp only [hn, Bool.false_eq_true, if_false]
      rcases hO.err e s' hr with ⟨hq', hsh⟩ | ⟨t', h1, h2⟩
      · rcases hsh with (rfl | hx) | hd
        · rcases hq.resolve_left hq' with h1 | h1
          · exact absurd rfl (o.quiet_err hw h1 h.ben hi hr)
          · exact .ends hq' h1
        · rw [hn] at hx; cases hx
        · exact ⟨fun a st h => (by cases h), fun e st h => by cases h; exact .inr ⟨hq', .inl hd⟩⟩
      · rw [h1]
        simp only [hn, Bool.false_eq_true, if_false]
        exact .mkErr h2
  | getU => intro D _ _ s t u h _; exact .mkOk h
  | setU u' => intro D _ _ s t u h _; exact .mkOk h
  | bind p f ihp ihf =>
    intro D hw hq s t u h hi
    have hS := p.run_safe (s, u) hi
    have hP := ihp D hw.1 (hq.imp_right And.left) s t u h hi
    simp only [Prog.run]
    cases hr : p.run (s, u) with
    | ok a st' =>
      rw [hr] at hS
      rcases hP.ok a st' hr with ⟨t', h1, h2⟩ | ⟨h1, hd⟩
      · rw [h1]; exact ihf a D (hw.2 a) (hq.imp_right fun h => h.2 a) st'.1 t' st'.2 h2 hS.step.inv
      · exact .doomed h1 hd ((f a).run_safe st' hS.step.inv)
    | err e st' =>
      rcases hP.err e st' hr with ⟨t', h1, h2⟩ | hx
      · rw [h1]; exact .mkErr h2
      · exact ⟨fun a s h' => (by cases h'), fun e s h' => by cases h'; exact .inr hx⟩
  | attempt p ih =>
    intro D hw hq s t u h hi
    have hP := ih (fun _ => False) hw hq s t u h hi
    have hS := p.run_safe (s, u) hi
    simp only [Prog.run]
    cases hr : p.run (s, u) with
    | ok a st' =>
      rcases hP.ok a st' hr with ⟨t', h1, h2⟩ | hx
      · rw [h1]; exact .mkOk h2
      · exact ⟨fun a st h => by cases h; exact .inr hx, fun e st h => by cases h⟩
    | err e st' =>
      rcases hP.err e st' hr with ⟨t', h1, h2⟩ | ⟨hq', hd | ⟨_, _, hd⟩⟩
      · rw [h1]
        cases e with
        | client e => exact .mkOk h2
        | abort e => exact .mkErr h2
      · cases e with
        | client e => exact ⟨fun a st h => by cases h; exact .inr ⟨hq', hd⟩, fun e st h => by cases h⟩
        | abort e => rw [hr] at hS; exact (hS.normal e st' rfl).elim
      · exact hd.elim
  | loop fields init body onErr onEnd ihb ihe ihd =>
    intro D hw hq s t u h hi
    simp only [Prog.run]
    have hf := h.fuel
    refine runLoop_rel D lo q fields _ _ _ (fun b e st h => (body b e).run_safe st h)
      (fun e st h => (onErr e).run_safe st h) (fun b st h => (onEnd b).run_safe st h) ?_ ?_ ?_ ?_ _ _ init s t u h hi
      (by have := vpos_ge s; omega) hf.1 hf.2
    · exact fun b e s t u h hi => ihb b e D (hw.1 b e) (hq.imp_right fun h => h.1 b e) s t u h hi
    · exact fun e s t u h hi => ihe e D (hw.2.1 e) (hq.imp_right fun h => h.2.2.1 e) s t u h hi
    · intro hq'
      obtain ⟨d, h1, h2⟩ := (hq.resolve_left hq').2.1
      exact ⟨d, h2, fun st => by rw [h1]; rfl⟩
    · exact fun b s t u h hi => ihd b D (hw.2.2 b) (hq.imp_right fun h => h.2.2.2 b) s t u h hi

end Fourleaf
