import Verif.TypedOps

/-! # How often the underlying reader is called -/

namespace Fourleaf
open Spec

/-- A call of the underlying stream which is not simply made again (`read` after an interruption) or replaced (a failed `seek`). -/
def Ev.counts : Ev → Bool
  | .interrupted | .noSeek => false
  | _ => true

/-- The counted calls to come, plus the bytes passed over so far: a call that advances by a byte at least keeps it from falling. -/
def meter (s : Stream) : Nat := (s.inner.sched.filter Ev.counts).length + s.pos

/-- Everything is paid for by bytes, but for one call when it fails. -/
structure Paid {α : Type} (s : Stream) (r : Res Err Stream α) : Prop where
  ok : ∀ a s', r = .ok a s' → meter s ≤ meter s'
  err : ∀ e s', r = .err e s' → meter s ≤ meter s' + 1

namespace Paid
variable {α β : Type} {s : Stream}

theorem same_ok {a : α} : Paid s (.ok a s) := ⟨fun _ _ h => (by cases h; exact Nat.le_refl _), fun _ _ h => by cases h⟩
theorem same_err {e : Err} : Paid s (.err e s : Res Err Stream α) := ⟨fun _ _ h => (by cases h), fun _ _ h => by cases h; exact Nat.le_succ _⟩

theorem bind {m : M Err Stream α} {f : α → M Err Stream β} (h : Paid s (m s)) (hf : ∀ a s', m s = .ok a s' → Paid s' (f a s')) :
    Paid s ((m >>= f) s) := by
  cases hm : m s with
  | err e s' => rw [M.bind_err hm]; exact ⟨fun _ _ h => (by cases h), fun _ _ h' => by cases h'; exact h.err _ _ hm⟩
  | ok a s' =>
    rw [M.bind_ok hm]
    have h1 := h.ok _ _ hm
    have h2 := hf a s' hm
    exact ⟨fun b s2 h' => Nat.le_trans h1 (h2.ok b s2 h'), fun e s2 h' => Nat.le_trans h1 (h2.err e s2 h')⟩

theorem modify {f : Stream → Stream} (h : meter (f s) = meter s) : Paid s (M.modify f s) :=
  ⟨fun _ _ h' => (by cases h'; rw [h]; exact Nat.le_refl _), fun _ _ h' => by cases h'⟩
end Paid

theorem trackRead_meter {g : Bool} {want : Nat} {s : Stream} :
    (∀ d s', trackRead g want s = .ok d s' → meter s ≤ meter s' ∨
      (meter s ≤ meter s' + 1 ∧ (d = [] ∨ (g = true ∧ s'.graceful = true ∧ d = [SpecialTy.endOfDoc.toByte])))) ∧
    (∀ e s', trackRead g want s = .err e s' → meter s ≤ meter s' + (if e = .io .interrupted then 0 else 1)) := by
  unfold trackRead
  by_cases h0 : want = 0
  · rw [if_pos h0]
    exact ⟨fun d s' h => (by cases h; exact .inl (Nat.le_refl _)), fun e s' h => by cases h⟩
  rw [if_neg h0]
  by_cases h1 : U64MAX - s.pos < want
  · rw [if_pos h1]
    exact ⟨fun d s' h => (by cases h), fun e s' h => by cases h; simp⟩
  rw [if_neg h1]
  unfold Inner.read
  cases hsc : s.inner.sched with
  | nil =>
    simp only
    split
    · rename_i hd
      refine ⟨fun d s' h => ?_, fun e s' h => by cases h⟩
      cases h
      exact .inl (by simp [meter, hsc])
    · refine ⟨fun d s' h => ?_, fun e s' h => by cases h⟩
      cases h
      exact .inl (by simp [meter, hsc])
  | cons ev sc =>
    cases ev with
    | short k =>
      simp only
      split
      · rename_i hd
        refine ⟨fun d s' h => ?_, fun e s' h => by cases h⟩
        cases h
        refine .inr ⟨by simp only [meter, hsc, List.filter_cons, Ev.counts, if_true, List.length_cons]; omega, .inr ⟨hd.2.1, hd.2.2, rfl⟩⟩
      · refine ⟨fun d s' h => ?_, fun e s' h => by cases h⟩
        cases h
        by_cases hd : s.inner.rest.take (min want (k + 1)) = []
        · exact .inr ⟨by simp only [meter, hsc, List.filter_cons, Ev.counts, if_true, List.length_cons]; omega, .inl hd⟩
        · left
          have : 0 < (s.inner.rest.take (min want (k + 1))).length := List.length_pos_iff.2 hd
          simp only [meter, hsc, List.filter_cons, Ev.counts, if_true, List.length_cons]
          omega
    | interrupted =>
      exact ⟨fun d s' h => (by cases h), fun e s' h => by cases h; simp [meter, hsc, Ev.counts]⟩
    | fail | noSeek | full =>
      exact ⟨fun d s' h => (by cases h), fun e s' h => by cases h; simp only [meter, hsc, List.filter_cons, Ev.counts]; simp; try omega⟩

theorem readByteLoop_meter {g : Bool} : ∀ (fuel : Nat) (s : Stream),
    (∀ b s', readByteLoop g fuel s = .ok b s' → meter s ≤ meter s' ∨ (meter s ≤ meter s' + 1 ∧ g = true ∧ s'.graceful = true ∧ b = SpecialTy.endOfDoc.toByte)) ∧
    (∀ e s', readByteLoop g fuel s = .err e s' → meter s ≤ meter s' + 1)
  | 0, s => ⟨fun b s' h => (by cases h), fun e s' h => by cases h; exact Nat.le_succ _⟩
  | fuel + 1, s => by
    have ht := trackRead_meter (g := g) (want := 1) (s := s)
    rw [readByteLoop]
    cases hr : trackRead g 1 s with
    | ok d s2 =>
      cases d with
      | nil =>
        refine ⟨fun b s' h => (by cases h), fun e s' h => ?_⟩
        cases h
        rcases ht.1 _ _ hr with h | h
        · omega
        · exact h.1
      | cons b l =>
        refine ⟨fun b' s' h => ?_, fun e s' h => by cases h⟩
        cases h
        rcases ht.1 _ _ hr with h | ⟨h, h' | h'⟩
        · exact .inl h
        · cases h'
        · obtain ⟨h1, h2, h3⟩ := h'
          cases h3
          exact .inr ⟨h, h1, h2, rfl⟩
    | err e s2 =>
      have he := ht.2 _ _ hr
      by_cases hi : e = .io .interrupted
      · subst hi
        simp only [if_true] at he ⊢
        have ih := readByteLoop_meter (g := g) fuel s2
        refine ⟨fun b s' h => ?_, fun e s' h => Nat.le_trans he (by have := ih.2 e s' h; omega)⟩
        rcases ih.1 b s' h with h | ⟨h, h'⟩
        · exact .inl (by omega)
        · exact .inr ⟨by omega, h'⟩
      · rw [if_neg hi] at he
        refine ⟨fun b s' h => ?_, fun e' s' h => ?_⟩
        · split at h <;> first | cases h | skip
          all_goals (rename_i heq; first | (cases heq; done) | (cases heq; exact absurd rfl hi))
        · split at h
          · rename_i heq; cases heq
          · rename_i heq; cases heq
          · rename_i heq; cases heq; exact absurd rfl hi
          · rename_i heq; cases heq; cases h; exact he

theorem readByte_meter (g : Bool) (s : Stream) :
    (∀ b s', readByte g s = .ok b s' → meter s ≤ meter s' ∨ (meter s ≤ meter s' + 1 ∧ g = true ∧ s'.graceful = true ∧ b = SpecialTy.endOfDoc.toByte)) ∧
    (∀ e s', readByte g s = .err e s' → meter s ≤ meter s' + 1) := readByteLoop_meter _ s

theorem readByte_paid (s : Stream) : Paid s (readByte false s) := by
  refine ⟨fun b s' h => ?_, (readByte_meter false s).2⟩
  rcases (readByte_meter false s).1 b s' h with h | ⟨-, h, -⟩
  · exact h
  · cases h

theorem decodeLoop_paid : ∀ (fuel : Nat) (a : UInt64) (sh : Nat) (s : Stream), Paid s (decodeLoop (readByte false) fuel a sh s)
  | 0, _, _, _ => .same_err
  | fuel + 1, a, sh, s => by
    rw [decodeLoop]
    refine .bind (readByte_paid s) fun b s' _ => ?_
    simp only [M.ite_apply]
    split
    · exact .same_err
    · split
      · exact .same_ok
      · split
        · exact .same_err
        · exact decodeLoop_paid fuel _ _ s'

theorem decodeU64_paid (s : Stream) : Paid s (decodeU64 (readByte false) s) := decodeLoop_paid _ _ _ s

theorem checkAdvance_paid (n : Nat) (s : Stream) : Paid s (checkAdvance n s) := by
  unfold checkAdvance
  split
  · exact .same_err
  · exact .same_ok

theorem nextBlob_paid (s : Stream) : Paid s (nextBlob s) := by
  unfold nextBlob
  exact .bind (decodeU64_paid s) fun len s1 _ => .bind (checkAdvance_paid _ s1) fun _ s2 _ => .bind (.modify rfl) fun _ s3 _ => .same_ok

theorem nextValue_paid (ty : DescTy) (s : Stream) : Paid s (nextValue ty s) := by
  cases ty with
  | integer => exact .bind (decodeU64_paid s) fun _ _ _ => .same_ok
  | blob => exact .bind (nextBlob_paid s) fun _ _ _ => .same_ok
  | struct => exact .bind (.modify rfl) fun _ _ _ => .same_ok
  | enum => exact .bind (decodeU64_paid s) fun _ _ _ => .bind (.modify rfl) fun _ _ _ => .same_ok

/-- As `Paid`; at a graceful end of the input one call more. -/
structure PaidOrEnd (s : Stream) (r : Res Err Stream Element) : Prop where
  ok : ∀ a s', r = .ok a s' → meter s ≤ meter s' ∨ (meter s ≤ meter s' + 1 ∧ a = .endOfDoc ∧ s'.eof = true ∧ s'.graceful = true)
  err : ∀ e s', r = .err e s' → meter s ≤ meter s' + 1

theorem Paid.orEnd {s : Stream} {r : Res Err Stream Element} (h : Paid s r) : PaidOrEnd s r := ⟨fun a s' h' => .inl (h.ok a s' h'), h.err⟩

theorem PaidOrEnd.after {s s' : Stream} {r : Res Err Stream Element} (h : meter s ≤ meter s') (h' : PaidOrEnd s' r) : PaidOrEnd s r :=
  ⟨fun a s2 hr => (h'.ok a s2 hr).imp (fun x => Nat.le_trans h x) (fun x => ⟨Nat.le_trans h x.1, x.2⟩), fun e s2 hr => Nat.le_trans h (h'.err e s2 hr)⟩

theorem readElement_paid (s : Stream) : PaidOrEnd s (readElement s) := by
  unfold readElement
  have hb := readByte_meter true s
  cases hr : readByte true s with
  | err e s' => exact ⟨fun _ _ h => (by cases h), fun e' s2 h => by cases h; exact hb.2 _ _ hr⟩
  | ok b s' =>
    rcases hb.1 _ _ hr with h | ⟨h, -, hg, rfl⟩
    · simp only
      refine .after h ?_
      cases hd : Desc.parse b with
      | none => exact Paid.same_err.orEnd
      | some d =>
        cases d with
        | pair ty tag =>
          simp only
          refine Paid.orEnd ?_
          have : ∀ s2, meter s2 = meter s' → Paid s' ((do
              let v ← nextValue ty
              pure (Element.field { tag := tag, pos := s.pos, depth := s2.depth, value := v }) : M Err Stream Element) s2) := by
            intro s2 h2
            have hp : Paid s2 ((do
              let v ← nextValue ty
              pure (Element.field { tag := tag, pos := s.pos, depth := s2.depth, value := v }) : M Err Stream Element) s2) :=
              .bind (nextValue_paid ty s2) fun _ _ _ => .same_ok
            exact ⟨fun a s3 h => by rw [← h2]; exact hp.ok a s3 h, fun a s3 h => by rw [← h2]; exact hp.err a s3 h⟩
          split
          · exact this { s' with depth := 1 } rfl
          · exact this s' rfl
        | special sp =>
          cases sp with
          | endOfStruct => exact ⟨fun _ _ h => (by cases h; exact .inl (Nat.le_refl _)), fun _ _ h => by cases h⟩
          | endOfDoc => exact ⟨fun _ _ h => (by cases h; exact .inl (Nat.le_refl _)), fun _ _ h => by cases h⟩
          | exception => exact Paid.orEnd (.bind (nextBlob_paid s') fun _ _ _ => .same_ok)
          | padding => exact Paid.same_ok.orEnd
    · have hp : Desc.parse SpecialTy.endOfDoc.toByte = some (.special .endOfDoc) := by decide
      simp only [hp]
      exact ⟨fun _ _ h' => (by cases h'; exact .inr ⟨h, rfl, rfl, hg⟩), fun _ _ h' => by cases h'⟩

theorem skipPadLoop_paid : ∀ (fuel : Nat) (s : Stream), PaidOrEnd s (skipPadLoop fuel s)
  | 0, _ => Paid.same_err.orEnd
  | fuel + 1, s => by
    rw [skipPadLoop]
    have hr := readElement_paid s
    cases he : readElement s with
    | err e s' => rw [M.bind_err he]; exact ⟨fun _ _ h => (by cases h), fun e' s2 h => by cases h; exact hr.err _ _ he⟩
    | ok e s' =>
      rw [M.bind_ok he, M.ite_apply]
      split
      · rename_i hp
        subst hp
        refine .after ?_ (skipPadLoop_paid fuel s')
        rcases hr.ok _ _ he with h | ⟨-, h, -⟩
        · exact h
        · cases h
      · exact ⟨fun _ _ h => (by cases h; exact hr.ok _ _ he), fun _ _ h => by cases h⟩

/-- Reading up to `n` bytes: the length of what was read. -/
structure Got (s : Stream) (n : Nat) (r : Res Err Stream (List Byte)) (acc : Nat) : Prop where
  ok : ∀ d s', r = .ok d s' → d.length ≤ acc + n ∧ meter s ≤ meter s' + (if d.length = acc + n then 0 else 1)
  err : ∀ e s', r = .err e s' → meter s ≤ meter s' + 1

theorem drainLoop_got {rd : Nat → M Err Stream (List Byte)}
    (hlen : ∀ want s d s', rd want s = .ok d s' → d.length ≤ want)
    (hok : ∀ want s d s', rd want s = .ok d s' → meter s ≤ meter s' + (if d = [] then 1 else 0))
    (herr : ∀ want s e s', rd want s = .err e s' → meter s ≤ meter s' + (if e = .io .interrupted then 0 else 1)) :
    ∀ (fuel n : Nat) (acc : List Byte) (s : Stream), Got s n (drainLoop rd fuel n acc s) acc.length
  | 0, _, _, _ => ⟨fun _ _ h => (by cases h), fun _ _ h => by cases h; exact Nat.le_succ _⟩
  | fuel + 1, n, acc, s => by
    rw [drainLoop]
    by_cases hn : n = 0
    · rw [if_pos hn]
      exact ⟨fun d s' h => (by cases h; exact ⟨Nat.le_add_right _ _, by split <;> omega⟩), fun _ _ h => by cases h⟩
    rw [if_neg hn]
    cases hr : rd n s with
    | ok d s2 =>
      have h1 := hok _ _ _ _ hr
      have h2 := hlen _ _ _ _ hr
      simp only
      by_cases hd : d = []
      · rw [if_pos hd] at h1 ⊢
        refine ⟨fun d' s' h => ?_, fun _ _ h => by cases h⟩
        cases h
        refine ⟨Nat.le_add_right _ _, ?_⟩
        rw [if_neg (by omega)]
        exact h1
      · rw [if_neg hd] at h1 ⊢
        have ih := drainLoop_got hlen hok herr fuel (n - d.length) (acc ++ d) s2
        have hl : (acc ++ d).length + (n - d.length) = acc.length + n := by simp; omega
        refine ⟨fun d' s' h => ?_, fun e s' h => Nat.le_trans h1 (ih.err e s' h)⟩
        have := ih.ok d' s' h
        rw [hl] at this
        exact ⟨this.1, Nat.le_trans h1 this.2⟩
    | err e s2 =>
      have h1 := herr _ _ _ _ hr
      by_cases hi : e = .io .interrupted
      · subst hi
        simp only [if_true] at h1 ⊢
        have ih := drainLoop_got hlen hok herr fuel n acc s2
        exact ⟨fun d' s' h => ⟨(ih.ok d' s' h).1, Nat.le_trans h1 (ih.ok d' s' h).2⟩, fun e s' h => Nat.le_trans h1 (ih.err e s' h)⟩
      · rw [if_neg hi] at h1
        refine ⟨fun b s' h => ?_, fun e' s' h => ?_⟩
        · split at h
          · rename_i heq; cases heq
          · rename_i heq; cases heq; exact absurd rfl hi
          · cases h
        · split at h
          · rename_i heq; cases heq
          · rename_i heq; cases heq; exact absurd rfl hi
          · rename_i heq; cases heq; cases h; exact h1

theorem trackRead_len {want : Nat} {s s' : Stream} {d : List Byte} (h : trackRead false want s = .ok d s') : d.length ≤ want := by
  unfold trackRead at h
  split at h
  · cases h; exact Nat.zero_le _
  · split at h
    · cases h
    · unfold Inner.read at h
      split at h
      · cases h
      · rename_i heq
        split at h
        · rename_i hg; exact absurd hg.2.1 (by simp)
        · cases h
          split at heq
          · cases heq; simp; omega
          · cases heq; simp; omega
          · cases heq
          · cases heq

theorem drain_track_got (n : Nat) (s : Stream) : Got s n (drain (trackRead false) n s) 0 := by
  refine drainLoop_got (fun _ _ _ _ h => trackRead_len h) (fun want s d s' h => ?_) (fun want s e s' h => trackRead_meter.2 e s' h) _ n [] s
  rcases trackRead_meter.1 _ _ h with h | ⟨h, h' | h'⟩
  · omega
  · rw [if_pos h']; exact h
  · cases h'.1

theorem drain_blob_got (n : Nat) (s : Stream) : Got s n (drain blobRead n s) 0 := by
  refine drainLoop_got (fun want s d s' h => ?_) (fun want s d s' h => ?_) (fun want s e s' h => ?_) _ n [] s
  · simp only [blobRead] at h
    split at h
    · cases h; exact Nat.zero_le _
    · have := trackRead_len h; omega
  · simp only [blobRead] at h
    split at h
    · cases h; omega
    · rcases trackRead_meter.1 _ _ h with h | ⟨h, h' | h'⟩
      · omega
      · rw [if_pos h']; exact h
      · cases h'.1
  · simp only [blobRead] at h
    split at h
    · cases h
    · exact trackRead_meter.2 e s' h

/-- Skipping `n` bytes; `dry` says that nothing is left to read. -/
structure Passed (s : Stream) (n : Nat) (r : Res Err Stream Nat) : Prop where
  ok : ∀ k s', r = .ok k s' → k ≤ n ∧ meter s ≤ meter s' + (if k = n then 0 else 1)
  dry : ∀ k s', r = .ok k s' → s.rest = [] → s.pos + n ≤ U64MAX → 0 < n → k = n → meter s + 1 ≤ meter s'
  err : ∀ e s', r = .err e s' → meter s ≤ meter s' + 1

theorem skipByDiscard_passed (n : Nat) (s : Stream) : Passed s n (skipByDiscard n s) := by
  unfold skipByDiscard
  have hg := drain_track_got n s
  cases hr : drain (trackRead false) n s with
  | err e s' => rw [M.bind_err hr]; exact ⟨fun _ _ h => (by cases h), fun _ _ h => (by cases h), fun _ _ h => by cases h; exact hg.err _ _ hr⟩
  | ok d s' =>
    rw [M.bind_ok hr]
    refine ⟨fun k s2 h => ?_, fun k s2 h h0 hp hn hk => ?_, fun _ _ h => by cases h⟩
    · cases h
      have := hg.ok _ _ hr
      simpa using this
    · cases h
      obtain ⟨k, sc, h1, h2, h3, h4 | h4⟩ := drain_track_spec n s (by omega)
      · obtain ⟨-, h5⟩ := h4
        rw [hr, h0] at h5
        injection h5 with h5 h6
        rw [h5] at hk
        simp at hk
        omega
      · rw [hr] at h4; cases h4.2

theorem skipSeekDirect_passed (n : Nat) (s : Stream) : Passed s n (skipSeekDirect n s) := by
  unfold skipSeekDirect
  split
  · exact ⟨fun _ _ h => (by cases h), fun _ _ h => (by cases h), fun _ _ h => by cases h; exact Nat.le_succ _⟩
  · rcases innerSeek_forward' s n with ⟨-, h2, h⟩ | ⟨-, -, -, h⟩ | ⟨-, -, e, h⟩
    · rw [h]
      have hm : meter s = meter (advBy s 0 s.inner.sched.tail) := by
        cases hsc : s.inner.sched with
        | nil => rw [hsc] at h2; cases h2
        | cons a l => rw [hsc] at h2; cases h2; simp [meter, hsc, Ev.counts]
      have hp := skipByDiscard_passed n (advBy s 0 s.inner.sched.tail)
      exact ⟨fun k s' h => by rw [hm]; exact hp.ok k s' h, fun k s' h h0 hb hn hk => by
        rw [hm]; exact hp.dry k s' h (by rw [advBy_rest, h0]; rfl) (by simpa using hb) hn hk, fun e s' h => by rw [hm]; exact hp.err e s' h⟩
    · rw [h]
      refine ⟨fun k s' h => ?_, fun k s' h h0 hb hn hk => ?_, fun e s' h => by cases h⟩
      · cases h
        exact ⟨Nat.le_refl _, by simp [meter]⟩
      · cases h
        simp [meter]; omega
    · rw [h]
      exact skipByDiscard_passed n s

theorem skipBySeek_passed : ∀ (fuel n : Nat) (s : Stream), Passed s n (skipBySeek fuel n s)
  | 0, _, _ => ⟨fun _ _ h => (by cases h), fun _ _ h => (by cases h), fun _ _ h => by cases h; exact Nat.le_succ _⟩
  | fuel + 1, n, s => by
    rw [skipBySeek, M.ite_apply]
    by_cases hn : n > I64MAX
    · rw [if_pos hn]
      have h1 := skipSeekDirect_passed I64MAX s
      cases hr : skipSeekDirect I64MAX s with
      | err e s' => rw [M.bind_err hr]; exact ⟨fun _ _ h => (by cases h), fun _ _ h => (by cases h), fun _ _ h => by cases h; exact h1.err _ _ hr⟩
      | ok first s' =>
        obtain ⟨h2, h3⟩ := h1.ok _ _ hr
        rw [M.bind_ok hr, M.ite_apply]
        split
        · rename_i hlt
          rw [if_neg (by omega)] at h3
          refine ⟨fun k s2 h => ?_, fun k s2 h h0 hb hp hk => ?_, fun _ _ h => by cases h⟩
          · cases h
            exact ⟨by omega, by rw [if_neg (by omega)]; exact h3⟩
          · cases h; omega
        · rename_i hlt
          have hf : first = I64MAX := by omega
          rw [if_pos hf] at h3
          have ih := skipBySeek_passed fuel (n - first) s'
          cases hr2 : skipBySeek fuel (n - first) s' with
          | err e s2 =>
            rw [M.bind_err hr2]
            exact ⟨fun _ _ h => (by cases h), fun _ _ h => (by cases h), fun _ _ h => by cases h; exact Nat.le_trans h3 (ih.err _ _ hr2)⟩
          | ok second s2 =>
            rw [M.bind_ok hr2]
            obtain ⟨h4, h5⟩ := ih.ok _ _ hr2
            refine ⟨fun k s3 h => ?_, fun k s3 h h0 hb hp hk => ?_, fun _ _ h => by cases h⟩
            · cases h
              refine ⟨by omega, ?_⟩
              by_cases hk : second = n - first
              · rw [if_pos (by omega)]; rw [if_pos hk] at h5; omega
              · rw [if_neg (by omega)]; rw [if_neg hk] at h5; omega
            · cases h
              have := h1.dry _ _ hr h0 (by omega) (by decide) hf
              rw [if_pos (by omega)] at h5
              omega
    · rw [if_neg hn]
      exact skipSeekDirect_passed n s

theorem commit_paid {s : Stream} (hi : Inv s) : Paid s (commit s) ∧
    (s.rest = [] → s.commit = some .skipBlob → s.pos < s.blobEnd → ∀ a s', commit s = .ok a s' → meter s + 1 ≤ meter s') := by
  rcases hi.pend with hc | ⟨hc, h1, h2⟩
  · simp only [commit, hc]
    exact ⟨.same_ok, fun _ h => by cases h⟩
  · simp only [commit, hc, skipBlob]
    by_cases hb : s.blobEnd > s.pos
    · simp only [if_pos hb]
      have hp : Passed s (s.blobEnd - s.pos) ((if s.useSeek = true then skipBySeek 4 (s.blobEnd - s.pos) else skipByDiscard (s.blobEnd - s.pos)) s) := by
        split
        · exact skipBySeek_passed _ _ _
        · exact skipByDiscard_passed _ _
      cases hr : (if s.useSeek = true then skipBySeek 4 (s.blobEnd - s.pos) else skipByDiscard (s.blobEnd - s.pos)) s with
      | err e s' =>
        have := hp.err _ _ hr
        exact ⟨⟨fun _ _ h => (by cases h), fun _ _ h => (by cases h; exact this)⟩, fun _ _ _ _ _ h => by cases h⟩
      | ok k s' =>
        obtain ⟨h3, h4⟩ := hp.ok _ _ hr
        simp only
        by_cases hk : k < s.blobEnd - s.pos
        · rw [if_pos hk]
          rw [if_neg (by omega)] at h4
          exact ⟨⟨fun _ _ h => (by cases h), fun _ _ h => (by cases h; exact h4)⟩, fun _ _ _ _ _ h => by cases h⟩
        · rw [if_neg hk]
          rw [if_pos (by omega)] at h4
          refine ⟨⟨fun _ _ h => (by cases h; exact h4), fun _ _ h => by cases h⟩, fun h0 _ _ a s2 h => ?_⟩
          cases h
          exact hp.dry k s' hr h0 (by omega) (by omega) (by omega)
    · simp only [if_neg hb]
      refine ⟨⟨fun _ _ h => (by cases h; exact Nat.le_refl _), fun _ _ h => by cases h⟩, fun _ _ h => absurd h hb⟩

/-- Nothing is left of a blob which is not over. -/
def Dry (s : Stream) : Prop := s.rest = [] ∧ s.commit = some .skipBlob ∧ s.pos < s.blobEnd

/-- `k` calls brought nothing: at most one, at the end of the input. -/
def Spent (k : Nat) (s : Stream) : Prop := k = 0 ∨ (k = 1 ∧ ((s.eof = true ∧ s.graceful = true) ∨ Dry s))

theorem Spent.le {k : Nat} {s : Stream} (h : Spent k s) : k ≤ 1 := by rcases h with h | h <;> omega

theorem nextElementImpl_spent {sp : Bool} {s : Stream} {k : Nat} (hi : Inv s) (hk : Spent k s) :
    (∀ a s', nextElementImpl sp s = .ok a s' → meter s + k ≤ meter s' ∨ (∃ k', Spent k' s' ∧ meter s + k ≤ meter s' + k' ∧ a = .endOfDoc)) ∧
    (∀ e s', nextElementImpl sp s = .err e s' → meter s ≤ meter s' + 1) := by
  unfold nextElementImpl
  by_cases he : s.eof = true
  · rw [if_pos he]
    exact ⟨fun a s' h => (by cases h; exact .inr ⟨k, hk, Nat.le_refl _, rfl⟩), fun _ _ h => by cases h⟩
  rw [if_neg he]
  have hC := commit_paid hi
  cases hr : commit s with
  | err e s' =>
    rw [M.bind_err hr]
    refine ⟨fun _ _ h => (by cases h), fun e' s2 h => ?_⟩
    cases h
    exact hC.1.err _ _ hr
  | ok u s' =>
    rw [M.bind_ok hr]
    have hm : meter s + k ≤ meter s' := by
      rcases hk with rfl | ⟨rfl, h | h⟩
      · exact hC.1.ok _ _ hr
      · exact absurd h.1 he
      · exact hC.2 h.1 h.2.1 h.2.2 _ _ hr
    have hp : PaidOrEnd s' ((if sp = true then do
        let s ← M.get
        skipPadLoop (s.inner.data.length - s.inner.pos + 2)
      else readElement : M Err Stream Element) s') := by
      split
      · exact skipPadLoop_paid _ s'
      · exact readElement_paid s'
    refine ⟨fun a s2 h => ?_, fun e s2 h => ?_⟩
    · rcases hp.ok a s2 h with h | ⟨h, h1, h2⟩
      · exact .inl (by omega)
      · exact .inr ⟨1, .inr ⟨rfl, .inl h2⟩, by omega, h1⟩
    · have := hp.err e s2 h
      omega

theorem nextField_spent {s : Stream} {k : Nat} (hi : Inv s) (hk : Spent k s) :
    (∀ o s', nextField s = .ok o s' → meter s + k ≤ meter s' ∨ (o = none ∧ ∃ k', Spent k' s' ∧ meter s + k ≤ meter s' + k')) ∧
    (∀ e s', nextField s = .err e s' → meter s ≤ meter s' + 1) := by
  unfold nextField
  have hn := nextElementImpl_spent (sp := true) hi hk
  cases hr : nextElementImpl true s with
  | err e s' =>
    rw [M.bind_err hr]
    exact ⟨fun _ _ h => (by cases h), fun e' s2 h => (by cases h; exact hn.2 _ _ hr)⟩
  | ok a s' =>
    rw [M.bind_ok hr]
    have h1 := hn.1 _ _ hr
    cases a with
    | padding =>
      rcases h1 with h1 | ⟨_, _, _, h⟩
      · exact ⟨fun _ _ h => (by cases h), fun e' s2 h => (by cases h; omega)⟩
      · cases h
    | endOfStruct =>
      rcases h1 with h1 | ⟨_, _, _, h⟩
      · exact ⟨fun _ _ h => (by cases h; exact .inl h1), fun e' s2 h => (by cases h)⟩
      · cases h
    | endOfDoc =>
      refine ⟨fun _ _ h => ?_, fun e' s2 h => (by cases h)⟩
      cases h
      exact h1.imp_right fun ⟨k', h2, h3, _⟩ => ⟨rfl, k', h2, h3⟩
    | field f =>
      rcases h1 with h1 | ⟨_, _, _, h⟩
      · exact ⟨fun _ _ h => (by cases h; exact .inl h1), fun e' s2 h => (by cases h)⟩
      · cases h
    | exception len =>
      rcases h1 with h1 | ⟨_, _, _, h⟩
      · dsimp only
        have hg : Got s' (min 256 (blobRemaining s')) (readOrTrunc 256 s') 0 := drain_blob_got (min 256 (blobRemaining s')) s'
        cases hd : readOrTrunc 256 s' with
        | err e s2 =>
          rw [M.bind_err hd]
          exact ⟨fun _ _ h => (by cases h), fun e' s3 h => (by cases h; have := hg.err _ _ hd; omega)⟩
        | ok d s2 =>
          rw [M.bind_ok hd]
          refine ⟨fun _ _ h => (by cases h), fun e' s3 h => ?_⟩
          cases h
          have := (hg.ok _ _ hd).2
          split at this <;> omega
      · cases h

theorem skipUpLoop_spent {depth : Nat} : ∀ (fuel : Nat) {s : Stream} {k : Nat}, Inv s → Spent k s →
    (∀ a s', skipUpLoop depth fuel s = .ok a s' → ∃ k', Spent k' s' ∧ meter s + k ≤ meter s' + k') ∧
    (∀ e s', skipUpLoop depth fuel s = .err e s' → meter s ≤ meter s' + 1)
  | 0, s, k, hi, hk => ⟨fun _ _ h => (by cases h), fun e s' h => by
      cases h
      exact Nat.le_succ _⟩
  | fuel + 1, s, k, hi, hk => by
    rw [skipUpLoop]
    split
    · have hn := nextElementImpl_spent (sp := false) hi hk
      cases hr : nextElementImpl false s with
      | err e s' =>
        rw [M.bind_err (m := nextElement) hr]
        exact ⟨fun _ _ h => (by cases h), fun _ _ h => by cases h; exact hn.2 _ _ hr⟩
      | ok a s' =>
        rw [M.bind_ok (m := nextElement) hr]
        have hst := (nextElementImpl_safe (sp := false) hi).1.step
        rw [hr] at hst
        obtain ⟨k', h1, h2⟩ : ∃ k', Spent k' s' ∧ meter s + k ≤ meter s' + k' := by
          rcases hn.1 _ _ hr with h | ⟨k', h1, h2, -⟩
          · exact ⟨0, .inl rfl, h⟩
          · exact ⟨k', h1, h2⟩
        have ih := skipUpLoop_spent (depth := depth) fuel (s := s') hst.inv h1
        refine ⟨fun b s2 h => ?_, fun e s2 h => ?_⟩
        · obtain ⟨k2, h3, h4⟩ := ih.1 b s2 h
          exact ⟨k2, h3, by omega⟩
        · rcases hn.1 _ _ hr with h0 | ⟨k2, hs2, h0, rfl⟩
          · have := ih.2 e s2 h
            omega
          · have he := (nextElementImpl_good hi hr).2.2 rfl
            have hd : s'.depth = 0 := hst.inv.eofDepth he
            cases fuel with
            | zero => cases h; have := hs2.le; omega
            | succ fuel =>
              have hlt : ¬ s'.depth > depth := by omega
              rw [skipUpLoop, if_neg hlt] at h
              cases h
    · exact ⟨fun _ _ h => (by cases h; exact ⟨k, hk, Nat.le_refl _⟩), fun _ _ h => by cases h⟩

theorem readFully_spent {max : Nat} {s : Stream} (hi : Inv s) (hl : s.live = true) :
    (∀ d s', readFully max s = .ok d s' → ∃ k', Spent k' s' ∧ meter s ≤ meter s' + k') ∧
    (∀ e s', readFully max s = .err e s' → meter s ≤ meter s' + 1) := by
  unfold readFully
  split
  · exact ⟨fun _ _ h => (by cases h), fun _ _ h => by cases h; exact Nat.le_succ _⟩
  · have hg := drain_blob_got (blobRemaining s) s
    refine ⟨fun d s' h => ?_, hg.err⟩
    have h1 := (hg.ok _ _ h).2
    obtain ⟨hc, hle⟩ := hi.liveOk hl
    have hend : s.blobEnd ≤ U64MAX ∧ s.pos ≤ s.blobEnd := by
      rcases hi.pend with h | h
      · rw [hc] at h; cases h
      · exact ⟨h.2.2, h.2.1⟩
    obtain ⟨k, sc, h2, h3, h4, h5 | h5⟩ := drain_blob_spec (blobRemaining s) s (Nat.le_refl _) hend.1
    · obtain ⟨h6, h7⟩ := h5
      rw [h] at h7
      injection h7 with h8 h9
      subst h9 h8
      by_cases hf : k = blobRemaining s
      · refine ⟨0, .inl rfl, ?_⟩
        rw [if_pos] at h1
        · exact h1
        · simp; omega
      · refine ⟨1, .inr ⟨rfl, .inr ⟨?_, hc, ?_⟩⟩, by split at h1 <;> omega⟩
        · rw [advBy_rest]
          exact List.drop_eq_nil_of_le (by omega)
        · simp only [advBy]
          unfold blobRemaining at *
          omega
    · rw [h] at h5; cases h5.2

end Fourleaf
