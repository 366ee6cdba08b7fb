import Verif.Keeps
import Verif.Lead

/-! # What the reader would do later does not matter

`Later X Y s t`: the streams are in the same state, but the reader of `s` goes on with the behaviour `Y` where that of `t` goes on with `X`. As long as `Y` is not reached,
every operation has the same outcome on both. -/

namespace Fourleaf

/-- Operations use up the schedule. -/
def Uses (s s' : Stream) : Prop := s'.inner.sched <:+ s.inner.sched

theorem uses_free : FreeRel Uses where
  refl s := List.suffix_refl _
  trans a b c h h' := List.IsSuffix.trans h' h
  read g want s := by
    unfold Uses trackRead Inner.read
    split
    · exact List.suffix_refl _
    · split
      · exact List.suffix_refl _
      · cases hs : s.inner.sched with
        | nil => dsimp only; split <;> simp
        | cons e sc =>
          cases e with
          | short k => dsimp only; split <;> exact List.suffix_cons _ _
          | _ => exact List.suffix_cons _ _
  write buf s := by
    unfold Uses trackWrite Inner.write
    split
    · exact List.suffix_refl _
    · split
      · exact List.suffix_refl _
      · cases hs : s.inner.sched with
        | nil => simp
        | cons e sc => cases e <;> exact List.suffix_cons _ _
  jump s off p _ _ := List.suffix_refl _
  poke s d := List.suffix_refl _
  tick s sc h := h
  book s _ _ _ _ _ _ := List.suffix_refl _

def Later (X Y : List Ev) (s t : Stream) : Prop := ∃ A, s.inner.sched = A ++ Y ∧ t = onSched (A ++ X) s

/-- The same outcome, unless `Y` was reached. -/
structure LS {α : Type} (X Y : List Ev) (r r' : Res Err Stream α) : Prop where
  ok : ∀ a s, r = .ok a s → Y.length ≤ s.inner.sched.length → ∃ t, r' = .ok a t ∧ Later X Y s t
  err : ∀ e s, r = .err e s → Y.length ≤ s.inner.sched.length → ∃ t, r' = .err e t ∧ Later X Y s t

section
variable {X Y : List Ev} {α β : Type}

theorem LS.mkOk {a : α} {s t : Stream} (h : Later X Y s t) : LS X Y (.ok a s) (.ok a t) :=
  ⟨fun a s h' _ => by cases h'; exact ⟨t, rfl, h⟩, fun e s h' => by cases h'⟩
theorem LS.mkErr {e : Err} {s t : Stream} (h : Later X Y s t) : LS X Y (.err e s : Res Err Stream α) (.err e t) :=
  ⟨fun a s h' => (by cases h'), fun e s h' _ => by cases h'; exact ⟨t, rfl, h⟩⟩
/-- `Y` was reached. -/
theorem LS.out {r r' : Res Err Stream α} (h : r.state.inner.sched.length < Y.length) : LS X Y r r' :=
  ⟨fun a s h' hl => (by rw [h'] at h; exact absurd hl (Nat.not_le.2 h)), fun e s h' hl => (by rw [h'] at h; exact absurd hl (Nat.not_le.2 h))⟩

namespace Later

theorem len (hxy : X.length = Y.length ∧ X.head? ≠ some .noSeek) {s t : Stream} (h : Later X Y s t) : t.inner.sched.length = s.inner.sched.length := by
  obtain ⟨A, h1, rfl⟩ := h; rw [h1]; simp [onSched, hxy.1]
theorem upd {s t : Stream} (h : Later X Y s t) (f : Stream → Stream) (hs : (f s).inner.sched = s.inner.sched)
    (hf : ∀ sc, f (onSched sc s) = onSched sc (f s)) : Later X Y (f s) (f t) := by
  obtain ⟨A, h1, rfl⟩ := h
  exact ⟨A, by rw [hs, h1], hf _⟩
theorem commit {s t : Stream} (h : Later X Y s t) : t.commit = s.commit := by obtain ⟨A, h1, rfl⟩ := h; rfl
theorem pos {s t : Stream} (h : Later X Y s t) : t.pos = s.pos := by obtain ⟨A, h1, rfl⟩ := h; rfl
theorem ipos {s t : Stream} (h : Later X Y s t) : t.inner.pos = s.inner.pos := by obtain ⟨A, h1, rfl⟩ := h; rfl
theorem data {s t : Stream} (h : Later X Y s t) : t.inner.data = s.inner.data := by obtain ⟨A, h1, rfl⟩ := h; rfl
theorem seekable {s t : Stream} (h : Later X Y s t) : t.inner.seekable = s.inner.seekable := by obtain ⟨A, h1, rfl⟩ := h; rfl
theorem eof {s t : Stream} (h : Later X Y s t) : t.eof = s.eof := by obtain ⟨A, h1, rfl⟩ := h; rfl
theorem depth {s t : Stream} (h : Later X Y s t) : t.depth = s.depth := by obtain ⟨A, h1, rfl⟩ := h; rfl
theorem live {s t : Stream} (h : Later X Y s t) : t.live = s.live := by obtain ⟨A, h1, rfl⟩ := h; rfl
theorem blobEnd {s t : Stream} (h : Later X Y s t) : t.blobEnd = s.blobEnd := by obtain ⟨A, h1, rfl⟩ := h; rfl
theorem useSeek {s t : Stream} (h : Later X Y s t) : t.useSeek = s.useSeek := by obtain ⟨A, h1, rfl⟩ := h; rfl
theorem remaining {s t : Stream} (h : Later X Y s t) : blobRemaining t = blobRemaining s := by unfold blobRemaining; rw [h.blobEnd, h.pos]
theorem rest {s t : Stream} (h : Later X Y s t) : t.inner.rest = s.inner.rest := by unfold Inner.rest; rw [h.ipos, h.data]
theorem inv {s t : Stream} (h : Later X Y s t) (hi : Inv s) : Inv t := by
  obtain ⟨sc, -, rfl⟩ := h
  exact ⟨hi.pos_le, hi.pend, hi.eofCommit, hi.eofDepth, hi.liveOk⟩

end Later

/-- A computation that does not look ahead in the schedule. -/
def Loc (X Y : List Ev) (m : M Err Stream α) : Prop := Keeps Uses m ∧ ∀ s t, Later X Y s t → LS X Y (m s) (m t)

theorem Uses.len {s s' : Stream} (h : Uses s s') : s'.inner.sched.length ≤ s.inner.sched.length := List.IsSuffix.length_le h

theorem LS.bind {m : M Err Stream α} {f : α → M Err Stream β} {s t : Stream} (h : LS X Y (m s) (m t))
    (hf : ∀ a s', m s = .ok a s' → Uses s' (f a s').state ∧ ∀ t', Later X Y s' t' → LS X Y (f a s') (f a t')) : LS X Y ((m >>= f) s) ((m >>= f) t) := by
  cases hm : m s with
  | ok a s' =>
    rw [M.bind_ok hm]
    obtain ⟨hk, hf⟩ := hf a s' hm
    by_cases hl : Y.length ≤ s'.inner.sched.length
    · obtain ⟨t', h1, h2⟩ := h.ok a s' hm hl
      rw [M.bind_ok h1]
      exact hf t' h2
    · exact .out (by have := hk.len; omega)
  | err e s' =>
    rw [M.bind_err hm]
    by_cases hl : Y.length ≤ s'.inner.sched.length
    · obtain ⟨t', h1, h2⟩ := h.err e s' hm hl
      rw [M.bind_err h1]; exact .mkErr h2
    · exact .out (by simp only [Res.state_err]; omega)

namespace Loc

theorem bind_ {m : M Err Stream α} {f : α → M Err Stream β} (hm : Loc X Y m) (hf : ∀ a, Loc X Y (f a)) : Loc X Y (m >>= f) :=
  ⟨Keeps.bind_ uses_free.toReadRel hm.1 fun a => (hf a).1, fun s t h => (hm.2 s t h).bind fun a s' _ => ⟨(hf a).1 s', fun t' h' => (hf a).2 s' t' h'⟩⟩
theorem pure_ (a : α) : Loc X Y (pure a : M Err Stream α) := ⟨Keeps.pure_ uses_free.toReadRel a, fun _ _ h => .mkOk h⟩
theorem throw_ (e : Err) : Loc X Y (M.throw e : M Err Stream α) := ⟨Keeps.throw_ uses_free.toReadRel e, fun _ _ h => .mkErr h⟩
theorem ite_ {c : Prop} [Decidable c] {m m' : M Err Stream α} (h1 : Loc X Y m) (h2 : Loc X Y m') : Loc X Y (if c then m else m') := by
  split
  · exact h1
  · exact h2
theorem modify_ (f : Stream → Stream) (hs : ∀ s, (f s).inner.sched = s.inner.sched) (hf : ∀ s sc, f (onSched sc s) = onSched sc (f s)) :
    Loc X Y (M.modify f : M Err Stream Unit) := by
  refine ⟨fun s => ?_, fun s t h => .mkOk (h.upd f (hs s) (hf s))⟩
  show _ <:+ _
  rw [M.modify_apply]
  simp only [Res.state_ok, hs]
  exact List.suffix_refl _

theorem trackRead_ (hxy : X.length = Y.length ∧ X.head? ≠ some .noSeek) (g : Bool) (want : Nat) : Loc X Y (trackRead g want) := by
  refine ⟨uses_free.read g want, fun s t h => ?_⟩
  obtain ⟨A, h1, rfl⟩ := id h
  unfold trackRead
  split
  · exact .mkOk h
  · rw [h.pos]
    split
    · exact .mkErr h
    · have hr : ∀ sc, (onSched sc s).inner.rest = s.inner.rest := fun _ => rfl
      unfold Inner.read
      rw [h1, hr]
      cases A with
      | nil =>
        cases Y with
        | nil =>
          obtain rfl : X = [] := List.eq_nil_of_length_eq_zero hxy.1
          simp only [List.append_nil, onSched]
          split
          · exact .mkOk ⟨[], by simp, rfl⟩
          · exact .mkOk ⟨[], by simp, rfl⟩
        | cons y Y =>
          refine .out ?_
          cases y with
          | short k =>
            dsimp only [List.nil_append]
            split <;> simp
          | _ => simp
      | cons e A =>
        cases e with
        | short k =>
          have key : ∀ (r : Res Err Stream (List Byte)) (B : List Ev) (t : Stream), t = onSched (.short k :: B) s →
              (let d := s.inner.rest.take (min want (k + 1))
                let i := { s.inner with pos := s.inner.pos + d.length, sched := B }
                if d = [] ∧ g = true ∧ t.graceful = true then Res.ok [SpecialTy.endOfDoc.toByte] { t with inner := i, pos := s.pos + d.length }
                else .ok d { t with inner := i, pos := s.pos + d.length } : Res Err Stream (List Byte)) = r →
              r = .ok (if s.inner.rest.take (min want (k + 1)) = [] ∧ g = true ∧ s.graceful = true then [SpecialTy.endOfDoc.toByte] else s.inner.rest.take (min want (k + 1)))
                (advBy s (s.inner.rest.take (min want (k + 1))).length B) := by
            intro r B t ht hr
            subst ht
            rw [← hr]
            by_cases hc : s.inner.rest.take (min want (k + 1)) = [] ∧ g = true ∧ s.graceful = true
            · rw [if_pos hc]; exact if_pos hc
            · rw [if_neg hc]; exact if_neg hc
          have e1 := key _ (A ++ Y) s (by rw [show Ev.short k :: (A ++ Y) = s.inner.sched from h1.symm]; rfl) rfl
          have e2 := key _ (A ++ X) _ rfl rfl
          dsimp only [List.cons_append] at e1 e2 ⊢
          refine cast (congr (congrArg _ e1.symm) e2.symm) ?_
          refine LS.mkOk ?_
          exact ⟨A, rfl, rfl⟩
        | interrupted => exact LS.mkErr (s := { s with inner := { s.inner with sched := A ++ Y } }) ⟨A, rfl, rfl⟩
        | _ => exact LS.mkErr (s := { s with inner := { s.inner with sched := A ++ Y } }) ⟨A, rfl, rfl⟩

/-- A step which may have reached `Y`. -/
theorem _root_.Fourleaf.LS.step {r : Res Err Stream α} {r' : Res Err Stream α} (h : LS X Y r r') :
    r.state.inner.sched.length < Y.length ∨ (∃ a s t, r = .ok a s ∧ r' = .ok a t ∧ Later X Y s t) ∨ ∃ e s t, r = .err e s ∧ r' = .err e t ∧ Later X Y s t := by
  by_cases hl : Y.length ≤ r.state.inner.sched.length
  · cases hr : r with
    | ok a s =>
      rw [hr] at hl
      obtain ⟨t, h1, h2⟩ := h.ok a s hr hl
      exact .inr (.inl ⟨a, s, t, rfl, h1, h2⟩)
    | err e s =>
      rw [hr] at hl
      obtain ⟨t, h1, h2⟩ := h.err e s hr hl
      exact .inr (.inr ⟨e, s, t, rfl, h1, h2⟩)
  · exact .inl (by omega)

theorem readByte_ (hxy : X.length = Y.length ∧ X.head? ≠ some .noSeek) (g : Bool) : Loc X Y (readByte g) := by
  refine ⟨Keeps.readByte_ uses_free.toReadRel g, ?_⟩
  have hu : ∀ fuel s, Uses s (readByteLoop g fuel s).state := by
    intro fuel
    induction fuel with
    | zero => intro s; exact uses_free.refl s
    | succ fuel ih =>
      intro s
      have h1 := uses_free.read g 1 s
      unfold readByteLoop
      split
      · rename_i hr; rw [hr] at h1; exact h1
      · rename_i hr; rw [hr] at h1; exact h1
      · rename_i hr; rw [hr] at h1; exact uses_free.trans _ _ _ h1 (ih _)
      · rename_i hr; rw [hr] at h1; exact h1
  have key : ∀ fuel s t, Later X Y s t → LS X Y (readByteLoop g fuel s) (readByteLoop g fuel t) := by
    intro fuel
    induction fuel with
    | zero => intro s t h; exact .mkErr h
    | succ fuel ih =>
      intro s t h
      rcases ((trackRead_ hxy g 1).2 s t h).step with h1 | ⟨d, s', t', h1, h2, h3⟩ | ⟨e, s', t', h1, h2, h3⟩
      · refine .out ?_
        unfold readByteLoop
        split
        · rename_i hr; rw [hr] at h1; exact h1
        · rename_i hr; rw [hr] at h1; exact h1
        · rename_i s' hr; rw [hr] at h1; have := (hu fuel s').len; simp only [Res.state_err] at h1; omega
        · rename_i hr; rw [hr] at h1; exact h1
      · unfold readByteLoop
        rw [h1, h2]
        cases d with
        | nil => exact .mkErr h3
        | cons b l => exact .mkOk h3
      · unfold readByteLoop
        rw [h1, h2]
        split
        · rename_i hr; cases hr
        · rename_i hr; cases hr
        · rename_i hr; cases hr; exact ih s' t' h3
        · rename_i hne hr
          cases hr
          split
          · rename_i hr; cases hr
          · rename_i hr; cases hr
          · rename_i hr; cases hr; exact absurd rfl hne
          · rename_i hr; cases hr; exact .mkErr h3
  intro s t h
  unfold readByte
  rw [h.len hxy]
  exact key _ s t h

theorem drain_ (hxy : X.length = Y.length ∧ X.head? ≠ some .noSeek) {rd : Nat → M Err Stream (List Byte)} (hrd : ∀ n, Loc X Y (rd n)) (n : Nat) : Loc X Y (drain rd n) := by
  refine ⟨Keeps.drain_ uses_free.toReadRel (fun n => (hrd n).1) n, ?_⟩
  have hu : ∀ fuel lim acc s, Uses s (drainLoop rd fuel lim acc s).state := by
    intro fuel
    induction fuel with
    | zero => intro lim acc s; exact uses_free.refl s
    | succ fuel ih =>
      intro lim acc s
      have h1 := (hrd lim).1 s
      unfold drainLoop
      split
      · exact uses_free.refl s
      · split
        · rename_i hr
          rw [hr] at h1
          split
          · exact h1
          · exact uses_free.trans _ _ _ h1 (ih _ _ _)
        · rename_i hr; rw [hr] at h1; exact uses_free.trans _ _ _ h1 (ih _ _ _)
        · rename_i hr; rw [hr] at h1; exact h1
  have key : ∀ fuel lim acc s t, Later X Y s t → LS X Y (drainLoop rd fuel lim acc s) (drainLoop rd fuel lim acc t) := by
    intro fuel
    induction fuel with
    | zero => intro lim acc s t h; exact .mkErr h
    | succ fuel ih =>
      intro lim acc s t h
      by_cases hl : lim = 0
      · unfold drainLoop; rw [if_pos hl, if_pos hl]; exact .mkOk h
      · rcases ((hrd lim).2 s t h).step with h1 | ⟨d, s', t', h1, h2, h3⟩ | ⟨e, s', t', h1, h2, h3⟩
        · refine .out ?_
          unfold drainLoop
          rw [if_neg hl]
          split
          · rename_i s' hr
            rw [hr] at h1
            split
            · exact h1
            · exact Nat.lt_of_le_of_lt (hu fuel _ _ s').len h1
          · rename_i s' hr; rw [hr] at h1; exact Nat.lt_of_le_of_lt (hu fuel lim acc s').len h1
          · rename_i hr; rw [hr] at h1; exact h1
        · unfold drainLoop
          rw [if_neg hl, if_neg hl, h1, h2]
          dsimp only
          split
          · exact .mkOk h3
          · exact ih _ _ s' t' h3
        · unfold drainLoop
          rw [if_neg hl, if_neg hl, h1, h2]
          split
          · rename_i hr; cases hr
          · rename_i hr; cases hr; exact ih _ _ s' t' h3
          · rename_i hne hr
            cases hr
            split
            · rename_i hr; cases hr
            · rename_i hr; cases hr; exact absurd rfl hne
            · rename_i hr; cases hr; exact .mkErr h3
  intro s t h
  unfold drain
  rw [h.len hxy]
  exact key _ _ _ s t h

theorem blobRead_ (hxy : X.length = Y.length ∧ X.head? ≠ some .noSeek) (n : Nat) : Loc X Y (blobRead n) := by
  refine ⟨Keeps.blobRead_ uses_free.toReadRel n, fun s t h => ?_⟩
  unfold blobRead
  simp only [h.remaining]
  split
  · exact .mkOk h
  · exact (trackRead_ hxy _ _).2 s t h

theorem readFully_ (hxy : X.length = Y.length ∧ X.head? ≠ some .noSeek) (n : Nat) : Loc X Y (readFully n) := by
  refine ⟨Keeps.readFully_ uses_free.toReadRel n, fun s t h => ?_⟩
  unfold readFully
  rw [h.remaining]
  split
  · exact .mkErr h
  · exact (drain_ hxy (blobRead_ hxy) _).2 s t h

theorem readOrTrunc_ (hxy : X.length = Y.length ∧ X.head? ≠ some .noSeek) (n : Nat) : Loc X Y (readOrTrunc n) := by
  refine ⟨Keeps.readOrTrunc_ uses_free.toReadRel n, fun s t h => ?_⟩
  unfold readOrTrunc
  rw [h.remaining]
  exact (drain_ hxy (blobRead_ hxy) _).2 s t h

theorem blobSlice_ : Loc X Y blobSlice := by
  refine ⟨Keeps.blobSlice_ uses_free.toReadRel, fun s t h => ?_⟩
  have h1 : LS X Y (innerSlice s) (innerSlice t) := by
    unfold innerSlice
    rw [h.ipos, h.data, h.rest]
    split
    · exact .mkErr h
    · exact .mkOk h
  unfold blobSlice
  refine h1.bind fun buf s' _ => ?_
  have key : ∀ s' : Stream, (M.get >>= fun s => if blobRemaining s ≤ buf.length then pure (buf.take (blobRemaining s)) else M.throw (.truncatedBlob (blobRemaining s - buf.length)) : M Err Stream _) s' =
      if blobRemaining s' ≤ buf.length then .ok (buf.take (blobRemaining s')) s' else .err (.truncatedBlob (blobRemaining s' - buf.length)) s' := by
    intro s'
    rw [M.bind_ok (M.get_apply s'), M.ite_apply]; rfl
  rw [key]
  refine ⟨?_, fun t' h' => ?_⟩
  · split <;> exact uses_free.refl s'
  · rw [key, h'.remaining]
    split
    · exact .mkOk h'
    · exact .mkErr h'

theorem skipByDiscard_ (hxy : X.length = Y.length ∧ X.head? ≠ some .noSeek) (n : Nat) : Loc X Y (skipByDiscard n) :=
  bind_ (drain_ hxy (trackRead_ hxy _) n) fun _ => pure_ _

theorem skipSeekDirect_ (hxy : X.length = Y.length ∧ X.head? ≠ some .noSeek) (n : Nat) : Loc X Y (skipSeekDirect n) := by
  refine ⟨Keeps.skipSeekDirect_ uses_free.toReadRel n, fun s t h => ?_⟩
  unfold skipSeekDirect
  rw [h.pos]
  split
  · exact .mkErr h
  · obtain ⟨A, h0, rfl⟩ := id h
    have hd := skipByDiscard_ hxy n
    have hhead : A ≠ [] → (onSched (A ++ X) s).inner.sched.head? = s.inner.sched.head? := by
      intro hA
      cases A with
      | nil => exact absurd rfl hA
      | cons a A => rw [h0]; rfl
    rcases innerSeek_forward' s n with ⟨h1, h2, h3⟩ | ⟨h1, h2, h3, h4⟩ | ⟨h1, h2, e, h3⟩
    · rw [h3]
      cases A with
      | nil =>
        refine .out ?_
        have hsc : s.inner.sched.tail.length < Y.length := by
          cases Y with
          | nil => rw [h0] at h2; cases h2
          | cons y Y => rw [h0]; simp
        exact Nat.lt_of_le_of_lt (hd.1 (advBy s 0 s.inner.sched.tail)).len hsc
      | cons a A =>
        rcases innerSeek_forward' (onSched (a :: A ++ X) s) n with ⟨k1, k2, k3⟩ | ⟨k1, -⟩ | ⟨k1, -⟩
        · rw [k3]
          exact hd.2 _ _ ⟨A, by rw [h0]; rfl, rfl⟩
        all_goals exact absurd ⟨h1, (hhead (by simp)).trans h2⟩ k1
    · have hn : ¬ ((onSched (A ++ X) s).inner.seekable = true ∧ (onSched (A ++ X) s).inner.sched.head? = some .noSeek) := by
        rintro ⟨g1, g2⟩
        by_cases hA : A = []
        · subst hA; exact hxy.2 g2
        · exact h1 ⟨g1, (hhead hA).symm.trans g2⟩
      rcases innerSeek_forward' (onSched (A ++ X) s) n with ⟨k1, k2, k3⟩ | ⟨k1, k2, k3, k4⟩ | ⟨k1, k2, -⟩
      · exact absurd ⟨k1, k2⟩ hn
      · rw [h4, k4]; refine .mkOk ?_; exact ⟨A, h0, rfl⟩
      · exact absurd ⟨h2, h3⟩ k2
    · have hn : ¬ ((onSched (A ++ X) s).inner.seekable = true ∧ (onSched (A ++ X) s).inner.sched.head? = some .noSeek) := by
        rintro ⟨g1, g2⟩
        by_cases hA : A = []
        · subst hA; exact hxy.2 g2
        · exact h1 ⟨g1, (hhead hA).symm.trans g2⟩
      rcases innerSeek_forward' (onSched (A ++ X) s) n with ⟨k1, k2, k3⟩ | ⟨k1, k2, k3, k4⟩ | ⟨k1, k2, e', k3⟩
      · exact absurd ⟨k1, k2⟩ hn
      · exact absurd ⟨k2, k3⟩ h2
      · rw [h3, k3]; exact hd.2 _ _ h

theorem skipBySeek_ (hxy : X.length = Y.length ∧ X.head? ≠ some .noSeek) : ∀ (fuel n : Nat), Loc X Y (skipBySeek fuel n) := by
  intro fuel
  induction fuel with
  | zero => intro n; exact throw_ _
  | succ fuel ih =>
    intro n
    unfold skipBySeek
    exact ite_ (bind_ (skipSeekDirect_ hxy _) fun _ => ite_ (pure_ _) (bind_ (ih _) fun _ => pure_ _)) (skipSeekDirect_ hxy _)

theorem skipBlob_ (hxy : X.length = Y.length ∧ X.head? ≠ some .noSeek) : Loc X Y skipBlob := by
  refine ⟨Keeps.skipBlob_ uses_free.toReadRel, fun s t h => ?_⟩
  unfold skipBlob
  rw [h.blobEnd, h.pos, h.useSeek]
  split
  · dsimp only
    have key := (ite_ (c := s.useSeek = true) (skipBySeek_ hxy 4 (s.blobEnd - s.pos)) (skipByDiscard_ hxy (s.blobEnd - s.pos))).2 s t h
    rcases key.step with h1 | ⟨k, s', t', h1, h2, h3⟩ | ⟨e, s', t', h1, h2, h3⟩
    · refine .out ?_
      split
      · rename_i hr; rw [hr] at h1; split <;> exact h1
      · rename_i hr; rw [hr] at h1; exact h1
    · rw [h1, h2]
      dsimp only
      split
      · exact .mkErr h3
      · exact .mkOk h3
    · rw [h1, h2]; exact .mkErr h3
  · exact .mkOk h

/-- For a stream that is only read. -/
theorem commit_ (hxy : X.length = Y.length ∧ X.head? ≠ some .noSeek) {s t : Stream} (h : Later X Y s t) (hi : Inv s) : LS X Y (Fourleaf.commit s) (Fourleaf.commit t) := by
  unfold Fourleaf.commit
  rw [h.commit]
  rcases hi.pend with hc | ⟨hc, -, -⟩
  · rw [hc]; exact .mkOk h
  · rw [hc]
    dsimp only
    rcases ((skipBlob_ hxy).2 s t h).step with h1 | ⟨k, s', t', h1, h2, h3⟩ | ⟨e, s', t', h1, h2, h3⟩
    · refine .out ?_
      cases hr : skipBlob s with
      | ok u s' => rw [hr] at h1; exact h1
      | err e s' => rw [hr] at h1; exact h1
    · rw [h1, h2]
      exact .mkOk (h3.upd (fun s => { s with commit := none, live := false }) rfl (fun _ => rfl))
    · rw [h1, h2]
      exact .mkErr (h3.upd (fun s => { s with live := false }) rfl (fun _ => rfl))

theorem decodeU64_ (hxy : X.length = Y.length ∧ X.head? ≠ some .noSeek) : Loc X Y (decodeU64 (readByte false)) := by
  have key : ∀ fuel k a, Loc X Y (decodeLoop (readByte false) fuel k a) := by
    intro fuel
    induction fuel with
    | zero => intro k a; exact throw_ _
    | succ fuel ih =>
      intro k a
      unfold decodeLoop
      refine bind_ (readByte_ hxy _) fun b => ?_
      simp only
      repeat' split
      all_goals first | exact pure_ _ | exact throw_ _ | exact ih _ _
  exact key _ _ _

theorem checkAdvance_ (n : Nat) : Loc X Y (checkAdvance n) := by
  refine ⟨Keeps.checkAdvance_ uses_free.toReadRel n, fun s t h => ?_⟩
  rw [checkAdvance_eq, checkAdvance_eq, h.pos]
  split
  · exact .mkErr h
  · exact .mkOk h

theorem nextBlob_ (hxy : X.length = Y.length ∧ X.head? ≠ some .noSeek) : Loc X Y nextBlob :=
  bind_ (decodeU64_ hxy) fun _ => bind_ (checkAdvance_ _) fun _ => bind_ (modify_ _ (fun _ => rfl) (fun _ _ => rfl)) fun _ => pure_ _

theorem nextValue_ (hxy : X.length = Y.length ∧ X.head? ≠ some .noSeek) (ty : DescTy) : Loc X Y (nextValue ty) := by
  cases ty
  · exact bind_ (decodeU64_ hxy) fun _ => bind_ (modify_ _ (fun _ => rfl) (fun _ _ => rfl)) fun _ => pure_ _
  · exact bind_ (decodeU64_ hxy) fun _ => pure_ _
  · exact bind_ (nextBlob_ hxy) fun _ => pure_ _
  · exact bind_ (modify_ _ (fun _ => rfl) (fun _ _ => rfl)) fun _ => pure_ _

theorem _root_.Fourleaf.Later.setDepth {s t : Stream} (h : Later X Y s t) (f : Nat → Nat) : Later X Y { s with depth := f s.depth } { t with depth := f t.depth } :=
  h.upd (fun s => { s with depth := f s.depth }) rfl (fun _ => rfl)

theorem readElement_ (hxy : X.length = Y.length ∧ X.head? ≠ some .noSeek) : Loc X Y readElement := by
  refine ⟨Keeps.readElement_ uses_free.toReadFree, fun s t h => ?_⟩
  have hmono := Keeps.readElement_ uses_free.toReadFree s
  unfold readElement at hmono ⊢
  rcases ((readByte_ hxy true).2 s t h).step with h1 | ⟨b, s', t', h1, h2, h3⟩ | ⟨e, s', t', h1, h2, h3⟩
  · refine .out ?_
    dsimp only
    cases hr : readByte true s with
    | err e s' => rw [hr] at h1; exact h1
    | ok b s' =>
      rw [hr] at h1
      have hk : ∀ r : Res Err Stream Element, Uses s' r.state → r.state.inner.sched.length < Y.length := fun r hr => Nat.lt_of_le_of_lt hr.len h1
      obtain ⟨d, hd, -, -⟩ := Props.c07_parse_total b
      dsimp only
      rw [hd]
      cases d with
      | pair ty tag =>
        refine hk _ (uses_free.trans _ (if s'.depth = 0 then { s' with depth := 1 } else s') _ ?_ (Keeps.bind_ uses_free.toReadRel (Keeps.nextValue_ uses_free.toReadFree ty) (fun _ => Keeps.pure_ uses_free.toReadRel _) _))
        split
        · exact uses_free.refl s'
        · exact uses_free.refl s'
      | special sp =>
        cases sp with
        | endOfStruct => exact h1
        | endOfDoc => exact h1
        | exception => exact hk _ (Keeps.bind_ uses_free.toReadRel (Keeps.nextBlob_ uses_free.toReadFree) (fun _ => Keeps.pure_ uses_free.toReadRel _) _)
        | padding => exact h1
  · rw [h1, h2, h.pos]
    obtain ⟨d, hd, -, -⟩ := Props.c07_parse_total b
    dsimp only
    rw [hd]
    cases d with
    | pair ty tag =>
      dsimp only
      have h4 : Later X Y (if s'.depth = 0 then { s' with depth := 1 } else s') (if t'.depth = 0 then { t' with depth := 1 } else t') := by
        rw [h3.depth]
        split
        · exact h3.setDepth (fun _ => 1)
        · exact h3
      rw [h4.depth]
      exact (bind_ (nextValue_ hxy ty) fun v => pure_ _).2 _ _ h4
    | special sp =>
      cases sp with
      | endOfStruct => exact .mkOk (h3.setDepth (· - 1))
      | endOfDoc => exact .mkOk (h3.upd (fun s => { s with eof := true, depth := 0 }) rfl (fun _ => rfl))
      | exception => exact (bind_ (nextBlob_ hxy) fun v => pure_ _).2 _ _ h3
      | padding => exact .mkOk h3
  · rw [h1, h2]; exact .mkErr h3

theorem skipPadLoop_ (hxy : X.length = Y.length ∧ X.head? ≠ some .noSeek) : ∀ fuel, Loc X Y (skipPadLoop fuel) := by
  intro fuel
  induction fuel with
  | zero => exact throw_ _
  | succ fuel ih =>
    unfold skipPadLoop
    exact bind_ (readElement_ hxy) fun _ => ite_ ih (pure_ _)

theorem nextElementImpl_ (hxy : X.length = Y.length ∧ X.head? ≠ some .noSeek) (sp : Bool) {s t : Stream} (h : Later X Y s t) (hi : Inv s) :
    LS X Y (nextElementImpl sp s) (nextElementImpl sp t) := by
  unfold nextElementImpl
  rw [h.eof]
  split
  · exact .mkOk h
  · refine (commit_ hxy h hi).bind fun _ s' _ => ?_
    cases sp with
    | false => exact ⟨(readElement_ hxy).1 s', fun t' h' => (readElement_ hxy).2 s' t' h'⟩
    | true =>
      show Uses s' (skipPadLoop (s'.inner.data.length - s'.inner.pos + 2) s').state ∧ ∀ t', Later X Y s' t' →
        LS X Y (skipPadLoop (s'.inner.data.length - s'.inner.pos + 2) s') (skipPadLoop (t'.inner.data.length - t'.inner.pos + 2) t')
      refine ⟨(skipPadLoop_ hxy _).1 s', fun t' h' => ?_⟩
      rw [h'.data, h'.ipos]
      exact (skipPadLoop_ hxy _).2 s' t' h'

theorem nextField_ (hxy : X.length = Y.length ∧ X.head? ≠ some .noSeek) {s t : Stream} (h : Later X Y s t) (hi : Inv s) : LS X Y (nextField s) (nextField t) := by
  unfold nextField
  refine (nextElementImpl_ hxy true h hi).bind fun e s' _ => ?_
  have go : ∀ m : M Err Stream (Option Field), Loc X Y m → Uses s' (m s').state ∧ ∀ t', Later X Y s' t' → LS X Y (m s') (m t') :=
    fun m hm => ⟨hm.1 s', fun t' h' => hm.2 s' t' h'⟩
  cases e with
  | padding => exact go _ (throw_ _)
  | endOfStruct => exact go _ (pure_ _)
  | endOfDoc => exact go _ (pure_ _)
  | field f => exact go _ (pure_ _)
  | exception n => exact go _ (bind_ (readOrTrunc_ hxy 256) fun _ => throw_ _)

theorem skipUp_ (hxy : X.length = Y.length ∧ X.head? ≠ some .noSeek) (d : Nat) {s t : Stream} (h : Later X Y s t) (hi : Inv s) : LS X Y (skipUp d s) (skipUp d t) := by
  have hu : ∀ fuel, Keeps Uses (skipUpLoop d fuel) := by
    intro fuel
    induction fuel with
    | zero => intro s; exact uses_free.refl s
    | succ fuel ih =>
      intro s
      unfold skipUpLoop
      split
      · exact Keeps.bind_ uses_free.toReadRel (Keeps.nextElementImpl_ uses_free.toReadFree false) (fun _ => ih) s
      · exact uses_free.refl s
  have key : ∀ fuel (s t : Stream), Later X Y s t → Inv s → LS X Y (skipUpLoop d fuel s) (skipUpLoop d fuel t) := by
    intro fuel
    induction fuel with
    | zero => intro s t h _; exact .mkErr h
    | succ fuel ih =>
      intro s t h hi
      rw [skipUpLoop, skipUpLoop, h.depth]
      split
      · refine LS.bind (nextElementImpl_ hxy false h hi) fun e s' hr => ⟨hu fuel s', fun t' h' => ih s' t' h' ?_⟩
        have hS := nextElementImpl_safe false hi
        rw [show nextElementImpl false s = _ from hr] at hS
        exact hS.1.step.inv
      · exact .mkOk h
  unfold skipUp
  rw [h.data, h.ipos]
  exact key _ s t h hi

end Loc

/-! ## Calls and programs -/

theorem Op.exec_later (hxy : X.length = Y.length ∧ X.head? ≠ some .noSeek) {β : Type} (o : Op β) {s t : Stream} (h : Later X Y s t) (hi : Inv s) : LS X Y (o.exec s) (o.exec t) := by
  have hlive : ∀ {α : Type} (m : M Err Stream α), LS X Y (m s) (m t) → LS X Y (onLiveBlob m s) (onLiveBlob m t) := by
    intro α m hm
    unfold onLiveBlob
    rw [h.live]
    split
    · exact hm
    · exact .mkErr h
  cases o with
  | nextField => exact Loc.nextField_ hxy h hi
  | nextElement => exact Loc.nextElementImpl_ hxy false h hi
  | skipUp d => exact Loc.skipUp_ hxy d h hi
  | commit => exact Loc.commit_ hxy h hi
  | clearEof => exact .mkOk (h.upd (fun s => { s with eof := false }) rfl (fun _ => rfl))
  | eof => simp only [Op.exec, h.eof]; exact .mkOk h
  | pos => simp only [Op.exec, h.pos]; exact .mkOk h
  | structDepth => simp only [Op.exec, h.depth]; exact .mkOk h
  | readFully max => exact hlive _ ((Loc.readFully_ hxy max).2 s t h)
  | readOrTrunc max => exact hlive _ ((Loc.readOrTrunc_ hxy max).2 s t h)
  | read want => exact hlive _ ((Loc.blobRead_ hxy want).2 s t h)
  | slice => exact hlive _ (Loc.blobSlice_.2 s t h)
  | remaining =>
    refine hlive (fun s => .ok (blobRemaining s) s) ?_
    rw [h.remaining]; exact .mkOk h

theorem pull_later (hxy : X.length = Y.length ∧ X.head? ≠ some .noSeek) (fields : Bool) {s t : Stream} (h : Later X Y s t) (hi : Inv s) : LS X Y (pull fields s) (pull fields t) := by
  unfold pull
  cases fields with
  | true =>
    simp only [if_true]
    rcases (Loc.nextField_ hxy h hi).step with h1 | ⟨o, s', t', h1, h2, h3⟩ | ⟨e, s', t', h1, h2, h3⟩
    · refine .out ?_
      cases hr : nextField s with
      | err e s' => rw [hr] at h1; exact h1
      | ok o s' => rw [hr] at h1; cases o <;> exact h1
    · rw [h1, h2]; cases o <;> exact .mkOk h3
    · rw [h1, h2]; exact .mkErr h3
  | false =>
    simp only [Bool.false_eq_true, if_false]
    rcases (show LS X Y (nextElement s) (nextElement t) from Loc.nextElementImpl_ hxy false h hi).step with h1 | ⟨o, s', t', h1, h2, h3⟩ | ⟨e, s', t', h1, h2, h3⟩
    · refine .out ?_
      cases hr : nextElement s with
      | err e s' => rw [hr] at h1; exact h1
      | ok o s' => rw [hr] at h1; cases o <;> exact h1
    · rw [h1, h2]; cases o <;> exact .mkOk h3
    · rw [h1, h2]; exact .mkErr h3

/-- Every call of a client maintains the relation. -/
theorem Op.keeps {R : Stream → Stream → Prop} (hR : ReadFree R) {β : Type} (o : Op β) : Keeps R o.exec := by
  have hlive : ∀ {α : Type} (m : M Err Stream α), Keeps R m → Keeps R (onLiveBlob m) := by
    intro α m hm s
    unfold onLiveBlob
    split
    · exact hm s
    · exact hR.refl s
  cases o with
  | nextField => exact Keeps.nextField_ hR
  | nextElement => exact Keeps.nextElementImpl_ hR false
  | skipUp d => exact Keeps.skipUp_ hR d
  | commit => exact Keeps.commit_ hR
  | clearEof => exact Keeps.clearEof_ hR
  | eof => exact fun s => hR.refl s
  | pos => exact fun s => hR.refl s
  | structDepth => exact fun s => hR.refl s
  | readFully max => exact hlive _ (Keeps.readFully_ hR.toReadRel max)
  | readOrTrunc max => exact hlive _ (Keeps.readOrTrunc_ hR.toReadRel max)
  | read want => exact hlive _ (Keeps.blobRead_ hR.toReadRel want)
  | slice => exact hlive _ (Keeps.blobSlice_ hR.toReadRel)
  | remaining => exact hlive _ fun s => hR.refl s

theorem pull_keeps {R : Stream → Stream → Prop} (hR : ReadFree R) (fields : Bool) : Keeps R (pull fields) := by
  intro s
  unfold pull
  cases fields with
  | true =>
    have h1 := Keeps.nextField_ hR s
    simp only [if_true]
    cases hr : nextField s with
    | err e s' => rw [hr] at h1; exact h1
    | ok o s' => rw [hr] at h1; cases o <;> exact h1
  | false =>
    have h1 : R s (nextElement s).state := Keeps.nextElementImpl_ hR false s
    simp only [Bool.false_eq_true, if_false]
    cases hr : nextElement s with
    | err e s' => rw [hr] at h1; exact h1
    | ok o s' => rw [hr] at h1; cases o <;> exact h1

theorem runLoop_keeps {R : Stream → Stream → Prop} (hR : ReadFree R) {ε U β α : Type} (fields : Bool)
    (body : β → Element → M (Stop ε) (PSt U) (β ⊕ α)) (onErr : Err → M (Stop ε) (PSt U) α) (onEnd : β → M (Stop ε) (PSt U) α)
    (hb : ∀ b e st, R st.1 (body b e st).state.1) (hErr : ∀ e st, R st.1 (onErr e st).state.1) (hEnd : ∀ b st, R st.1 (onEnd b st).state.1) :
    ∀ (fuel : Nat) (b : β) (st : PSt U), R st.1 (runLoop fields body onErr onEnd fuel b st).state.1 := by
  intro fuel
  induction fuel with
  | zero => intro b st; exact hR.refl _
  | succ fuel ih =>
    intro b st
    have hP := pull_keeps hR fields st.1
    unfold runLoop
    cases hr : pull fields st.1 with
    | err e s' =>
      rw [hr] at hP
      dsimp only
      split
      · exact hP
      · exact hR.trans _ _ _ hP (hErr e (s', st.2))
    | ok o s' =>
      rw [hr] at hP
      cases o with
      | none => exact hR.trans _ _ _ hP (hEnd b (s', st.2))
      | some el =>
        have hB := hb b el (s', st.2)
        dsimp only
        cases hm : body b el (s', st.2) with
        | err e st' => rw [hm] at hB; exact hR.trans _ _ _ hP hB
        | ok x st' =>
          rw [hm] at hB
          cases x with
          | inl b' => exact hR.trans _ _ _ hP (hR.trans _ _ _ hB (ih b' st'))
          | inr a => exact hR.trans _ _ _ hP hB

/-- Every client maintains the relation. -/
theorem Prog.keeps {R : Stream → Stream → Prop} (hR : ReadFree R) {ε U : Type} : ∀ {α : Type} (p : Prog ε U α) (st : PSt U), R st.1 (p.run st).state.1 := by
  intro α p
  induction p with
  | ret a => intro st; exact hR.refl _
  | fail e => intro st; exact hR.refl _
  | op o =>
    intro st
    have h1 := o.keeps hR st.1
    simp only [Prog.run]
    cases hr : o.exec st.1 with
    | ok b s => rw [hr] at h1; exact h1
    | err e s => rw [hr] at h1; dsimp only; split <;> exact h1
  | call o f =>
    intro st
    have h1 := o.keeps hR st.1
    simp only [Prog.run]
    cases hr : o.exec st.1 with
    | ok b s => rw [hr] at h1; exact h1
    | err e s => rw [hr] at h1; dsimp only; split <;> exact h1
  | getU => intro st; exact hR.refl _
  | setU u => intro st; exact hR.refl _
  | bind p f ihp ihf =>
    intro st
    have h1 := ihp st
    simp only [Prog.run]
    cases hr : p.run st with
    | ok a st' => rw [hr] at h1; exact hR.trans _ _ _ h1 (ihf a st')
    | err e st' => rw [hr] at h1; exact h1
  | attempt p ih =>
    intro st
    have h1 := ih st
    simp only [Prog.run]
    cases hr : p.run st with
    | ok a st' => rw [hr] at h1; exact h1
    | err e st' => rw [hr] at h1; cases e <;> exact h1
  | loop fields init body onErr onEnd ihb ihe ihd =>
    intro st
    exact runLoop_keeps hR fields _ _ _ (fun b e st => ihb b e st) (fun e st => ihe e st) (fun b st => ihd b st) _ init st

/-- The same outcome of a program, unless `Y` was reached. -/
structure LSP {ε U α : Type} (X Y : List Ev) (r r' : Res (Stop ε) (PSt U) α) : Prop where
  ok : ∀ a st, r = .ok a st → Y.length ≤ st.1.inner.sched.length → ∃ t, r' = .ok a (t, st.2) ∧ Later X Y st.1 t
  err : ∀ e st, r = .err e st → Y.length ≤ st.1.inner.sched.length → ∃ t, r' = .err e (t, st.2) ∧ Later X Y st.1 t

variable {ε U : Type}

theorem LSP.mkOk {a : α} {s t : Stream} {u : U} (h : Later X Y s t) : LSP X Y (.ok a (s, u) : Res (Stop ε) (PSt U) α) (.ok a (t, u)) :=
  ⟨fun a s h' _ => by cases h'; exact ⟨t, rfl, h⟩, fun e s h' => by cases h'⟩
theorem LSP.mkErr {e : Stop ε} {s t : Stream} {u : U} (h : Later X Y s t) : LSP X Y (.err e (s, u) : Res (Stop ε) (PSt U) α) (.err e (t, u)) :=
  ⟨fun a s h' => (by cases h'), fun e s h' _ => by cases h'; exact ⟨t, rfl, h⟩⟩
theorem LSP.out {r r' : Res (Stop ε) (PSt U) α} (h : r.state.1.inner.sched.length < Y.length) : LSP X Y r r' :=
  ⟨fun a s h' hl => (by rw [h'] at h; exact absurd hl (Nat.not_le.2 h)), fun e s h' hl => (by rw [h'] at h; exact absurd hl (Nat.not_le.2 h))⟩
theorem LSP.step {r r' : Res (Stop ε) (PSt U) α} (h : LSP X Y r r') :
    r.state.1.inner.sched.length < Y.length ∨ (∃ a s t u, r = .ok a (s, u) ∧ r' = .ok a (t, u) ∧ Later X Y s t) ∨
      ∃ e s t u, r = .err e (s, u) ∧ r' = .err e (t, u) ∧ Later X Y s t := by
  by_cases hl : Y.length ≤ r.state.1.inner.sched.length
  · cases hr : r with
    | ok a st =>
      rw [hr] at hl
      obtain ⟨t, h1, h2⟩ := h.ok a st hr hl
      exact .inr (.inl ⟨a, st.1, t, st.2, rfl, h1, h2⟩)
    | err e st =>
      rw [hr] at hl
      obtain ⟨t, h1, h2⟩ := h.err e st hr hl
      exact .inr (.inr ⟨e, st.1, t, st.2, rfl, h1, h2⟩)
  · exact .inl (by omega)

theorem runLoop_later (hxy : X.length = Y.length ∧ X.head? ≠ some .noSeek) (fields : Bool)
    (body : β → Element → M (Stop ε) (PSt U) (β ⊕ α)) (onErr : Err → M (Stop ε) (PSt U) α) (onEnd : β → M (Stop ε) (PSt U) α)
    (kb : ∀ b e st, Uses st.1 (body b e st).state.1) (kErr : ∀ e st, Uses st.1 (onErr e st).state.1) (kEnd : ∀ b st, Uses st.1 (onEnd b st).state.1)
    (sb : ∀ b e st, Inv st.1 → SafeRun st (body b e st))
    (hb : ∀ b e s t u, Later X Y s t → Inv s → LSP X Y (body b e (s, u)) (body b e (t, u)))
    (hErr : ∀ e s t u, Later X Y s t → Inv s → LSP X Y (onErr e (s, u)) (onErr e (t, u)))
    (hEnd : ∀ b s t u, Later X Y s t → Inv s → LSP X Y (onEnd b (s, u)) (onEnd b (t, u))) :
    ∀ (fuel : Nat) (b : β) (s t : Stream) (u : U), Later X Y s t → Inv s →
      LSP X Y (runLoop fields body onErr onEnd fuel b (s, u)) (runLoop fields body onErr onEnd fuel b (t, u)) := by
  have hk := runLoop_keeps (R := Uses) uses_free.toReadFree fields body onErr onEnd kb kErr kEnd
  intro fuel
  induction fuel with
  | zero => intro b s t u h _; exact .mkErr h
  | succ fuel ih =>
    intro b s t u h hi
    have hS := pull_safe fields hi
    by_cases hl : Y.length ≤ (pull fields s).state.inner.sched.length
    · cases hr : pull fields s with
      | err e s' =>
        rw [hr] at hl
        obtain ⟨t', h1, h2⟩ := (pull_later hxy fields h hi).err e s' hr hl
        rw [hr] at hS
        unfold runLoop
        dsimp only
        rw [hr, h1]
        dsimp only
        split
        · exact .mkErr h2
        · exact hErr e s' t' u h2 hS.1.step.inv
      | ok o s' =>
        rw [hr] at hl
        obtain ⟨t', h1, h2⟩ := (pull_later hxy fields h hi).ok o s' hr hl
        rw [hr] at hS
        have hi' : Inv s' := hS.1.step.inv
        unfold runLoop
        dsimp only
        rw [hr, h1]
        cases o with
        | none => exact hEnd b s' t' u h2 hi'
        | some el =>
          dsimp only
          have hSB := sb b el (s', u) hi'
          rcases (hb b el s' t' u h2 hi').step with h3 | ⟨x, s2, t2, u2, h3, h4, h5⟩ | ⟨e, s2, t2, u2, h3, h4, h5⟩
          · refine .out ?_
            cases hm : body b el (s', u) with
            | err e st' => rw [hm] at h3; exact h3
            | ok x st' =>
              rw [hm] at h3
              cases x with
              | inr a => exact h3
              | inl b' => exact Nat.lt_of_le_of_lt (hk fuel b' st').len h3
          · rw [h3] at hSB
            rw [h3, h4]
            cases x with
            | inr a => exact .mkOk h5
            | inl b' => exact ih b' s2 t2 u2 h5 hSB.step.inv
          · rw [h3, h4]; exact .mkErr h5
    · refine .out ?_
      unfold runLoop
      dsimp only
      cases hr : pull fields s with
      | err e s' =>
        rw [hr] at hl
        dsimp only
        split
        · exact Nat.not_le.1 hl
        · exact Nat.lt_of_le_of_lt (kErr e (s', u)).len (Nat.not_le.1 hl)
      | ok o s' =>
        rw [hr] at hl
        cases o with
        | none => exact Nat.lt_of_le_of_lt (kEnd b (s', u)).len (Nat.not_le.1 hl)
        | some el =>
          dsimp only
          have h1 := kb b el (s', u)
          cases hm : body b el (s', u) with
          | err e st' => rw [hm] at h1; exact Nat.lt_of_le_of_lt h1.len (Nat.not_le.1 hl)
          | ok x st' =>
            rw [hm] at h1
            cases x with
            | inl b' => exact Nat.lt_of_le_of_lt (hk fuel b' st').len (Nat.lt_of_le_of_lt h1.len (Nat.not_le.1 hl))
            | inr a => exact Nat.lt_of_le_of_lt h1.len (Nat.not_le.1 hl)

/-- The outcome of any client program does not depend on what the reader would do later. -/
theorem Prog.run_later (hxy : X.length = Y.length ∧ X.head? ≠ some .noSeek) : ∀ {α : Type} (p : Prog ε U α) (s t : Stream) (u : U), Later X Y s t → Inv s →
    LSP X Y (p.run (s, u)) (p.run (t, u)) := by
  intro α p
  induction p with
  | ret a => intro s t u h _; exact .mkOk h
  | fail e => intro s t u h _; exact .mkErr h
  | op o =>
    intro s t u h hi
    simp only [Prog.run]
    rcases (o.exec_later hxy h hi).step with h1 | ⟨b, s', t', h1, h2, h3⟩ | ⟨e, s', t', h1, h2, h3⟩
    · refine .out ?_
      cases hr : o.exec s with
      | ok b s' => rw [hr] at h1; exact h1
      | err e s' => rw [hr] at h1; dsimp only; split <;> exact h1
    · rw [h1, h2]; exact .mkOk h3
    · rw [h1, h2]
      dsimp only
      split
      · exact .mkErr h3
      · exact .mkOk h3
  | call o f =>
    intro s t u h hi
    simp only [Prog.run]
    rcases (o.exec_later hxy h hi).step with h1 | ⟨b, s', t', h1, h2, h3⟩ | ⟨e, s', t', h1, h2, h3⟩
    · refine .out ?_
      cases hr : o.exec s with
      | ok b s' => rw [hr] at h1; exact h1
      | err e s' => rw [hr] at h1; dsimp only; split <;> exact h1
    · rw [h1, h2]; exact .mkOk h3
    · rw [h1, h2]
      dsimp only
      split
      · exact .mkErr h3
      · exact .mkErr h3
  | getU => intro s t u h _; exact .mkOk h
  | setU u' => intro s t u h _; exact .mkOk h
  | bind p f ihp ihf =>
    intro s t u h hi
    have hS := p.run_safe (s, u) hi
    simp only [Prog.run]
    rcases (ihp s t u h hi).step with h1 | ⟨a, s', t', u', h1, h2, h3⟩ | ⟨e, s', t', u', h1, h2, h3⟩
    · refine .out ?_
      cases hr : p.run (s, u) with
      | ok a st' => rw [hr] at h1; exact Nat.lt_of_le_of_lt ((f a).keeps (R := Uses) uses_free.toReadFree st').len h1
      | err e st' => rw [hr] at h1; exact h1
    · rw [h1] at hS
      rw [h1, h2]
      exact ihf a s' t' u' h3 hS.step.inv
    · rw [h1, h2]; exact .mkErr h3
  | attempt p ih =>
    intro s t u h hi
    simp only [Prog.run]
    rcases (ih s t u h hi).step with h1 | ⟨a, s', t', u', h1, h2, h3⟩ | ⟨e, s', t', u', h1, h2, h3⟩
    · refine .out ?_
      cases hr : p.run (s, u) with
      | ok a st' => rw [hr] at h1; exact h1
      | err e st' => rw [hr] at h1; cases e <;> exact h1
    · rw [h1, h2]; exact .mkOk h3
    · rw [h1, h2]
      cases e with
      | client e => exact .mkOk h3
      | abort e => exact .mkErr h3
  | loop fields init body onErr onEnd ihb ihe ihd =>
    intro s t u h hi
    simp only [Prog.run, h.data, h.ipos]
    exact runLoop_later hxy fields _ _ _ (fun b e st => (body b e).keeps uses_free.toReadFree st) (fun e st => (onErr e).keeps uses_free.toReadFree st)
      (fun b st => (onEnd b).keeps uses_free.toReadFree st) (fun b e st h => (body b e).run_safe st h)
      (fun b e s t u h hi => ihb b e s t u h hi) (fun e s t u h hi => ihe e s t u h hi) (fun b s t u h hi => ihd b s t u h hi) _ init s t u h hi

end
end Fourleaf
