import Verif.MeterDe
import Verif.PropsDe

/-! # C75: the underlying reader is not called more often than bytes are read -/

namespace Fourleaf
open Spec

/-- From `s` to `s'`, the calls of the underlying stream behaved as `used` says, one event for each `read` (and one for each `seek` that failed).
`extra` of them neither brought a byte nor were interruptions or failed seeks. A stream whose schedule is too short to count all calls is met by lengthening the schedule:
an exhausted one behaves like an endless one of large `short` events. -/
def Calls (s s' : Stream) (extra : Nat) : Prop :=
  ∃ used, s.inner.sched = used ++ s'.inner.sched ∧ s.pos + used.length ≤ s'.pos + used.count .interrupted + used.count .noSeek + extra

theorem Calls.of_meter {s s' : Stream} {n : Nat} (hf : Frame s s') (h : meter s ≤ meter s' + n) : Calls s s' n := by
  obtain ⟨used, hu⟩ := hf.sched
  refine ⟨used, hu.symm, ?_⟩
  have hc : ∀ l : List Ev, l.length = (l.filter Ev.counts).length + l.count .interrupted + l.count .noSeek := by
    intro l
    induction l with
    | nil => rfl
    | cons a l ih => cases a <;> simp [List.filter_cons, Ev.counts] <;> omega
  simp only [meter, ← hu, List.filter_append, List.length_append] at h
  have := hc used
  omega

namespace Props

/-- C75, one call: whatever the state, the schedule and the outcome, a call of the reading API calls the underlying reader at most once per byte it advances, plus once more; interruptions and failed seeks come on top. -/
theorem c75_call {β : Type} (o : Op β) (s : Stream) (hi : Inv s) : Calls s (o.exec s).state 1 := by
  have hsafe := (Op.exec_safe o hi).step
  refine .of_meter hsafe.frame ?_
  have hsame : ∀ {α : Type} (m : M Err Stream α), (s.live = true → meter s ≤ meter (m s).state + 1) → meter s ≤ meter (onLiveBlob m s).state + 1 := by
    intro α m h
    unfold onLiveBlob
    split
    · rename_i hl; exact h hl
    · exact Nat.le_succ _
  have hgot : ∀ {n : Nat} {r : Res Err Stream (List Byte)}, Got s n r 0 → meter s ≤ meter r.state + 1 := by
    intro n r hg
    cases hr : r with
    | ok a s' => have := (hg.ok a s' hr).2; simp only [Res.state_ok]; split at this <;> omega
    | err e s' => exact hg.err e s' hr
  have hspent : ∀ {α : Type} {r : Res Err Stream α}, (∀ a s', r = .ok a s' → ∃ k', Spent k' s' ∧ meter s + 0 ≤ meter s' + k') ∧
      (∀ e s', r = .err e s' → meter s ≤ meter s' + 1) → meter s ≤ meter r.state + 1 := by
    intro α r h
    cases hr : r with
    | ok a s' => obtain ⟨k', h1, h2⟩ := h.1 a s' hr; have := h1.le; simp only [Res.state_ok]; omega
    | err e s' => exact h.2 e s' hr
  cases o with
  | nextField =>
    refine hspent ⟨fun a s' h => ?_, (nextField_spent hi (.zero)).2⟩
    rcases (nextField_spent hi (.zero)).1 a s' h with h | ⟨-, h⟩
    · exact ⟨0, .zero, h⟩
    · exact h
  | nextElement =>
    refine hspent ⟨fun a s' h => ?_, (nextElementImpl_spent hi (.zero)).2⟩
    rcases (nextElementImpl_spent hi (.zero)).1 a s' h with h | ⟨k', h1, h2, -⟩
    · exact ⟨0, .zero, h⟩
    · exact ⟨k', h1, h2⟩
  | skipUp d => exact hspent (skipUpLoop_spent _ hi .zero)
  | commit =>
    refine hspent ⟨fun a s' h => ⟨0, .zero, (commit_paid hi).1.ok a s' h⟩, (commit_paid hi).1.err⟩
  | clearEof => exact Nat.le_succ _
  | eof | pos | structDepth => exact Nat.le_succ _
  | readFully max =>
    refine hsame _ fun hl => ?_
    unfold readFully
    split
    · exact Nat.le_succ _
    · exact hgot (drain_blob_got _ s)
  | readOrTrunc max => exact hsame _ fun _ => hgot (drain_blob_got _ s)
  | read want =>
    refine hsame _ fun hl => ?_
    simp only [blobRead]
    split
    · exact Nat.le_succ _
    · have ht := trackRead_meter (g := false) (want := min want (blobRemaining s)) (s := s)
      cases hr : trackRead false (min want (blobRemaining s)) s with
      | ok d s' => rcases ht.1 _ _ hr with h | h <;> simp only [Res.state_ok] <;> omega
      | err e s' => have := ht.2 _ _ hr; simp only [Res.state_err]; split at this <;> omega
  | slice =>
    have := slice_still (c := .top .default) s .zero
    simp only [Ctx.call, Prog.run] at this
    cases h : Op.slice.exec s with
    | ok a s' => rw [h] at this; simp only [Res.state_ok] at this ⊢; rw [this]; exact Nat.le_succ _
    | err e s' =>
      rw [h] at this
      simp only at this
      split at this <;> simp only [Res.state_err] at this ⊢ <;> rw [this] <;> exact Nat.le_succ _
  | remaining =>
    refine hsame _ fun _ => ?_
    exact Nat.le_succ _

/-- C75: whatever the input, the type, the configuration and the reader (short reads, interruptions, failures, failing seeks), and whether it succeeds or not, deserialising calls the
underlying reader at most once for each byte it advances, plus two calls; interruptions and failed seeks come on top. -/
theorem c75_deserialize (env : Env) (t : Ty) (cfg : Config) (s : Stream) (hi : Inv s) (u : Stats) :
    Calls s ((deserialize env t cfg).run (s, u)).state.1 2 := by
  have hc := deserialize_cheap env t cfg hi u
  have hs := (Prog.run_safe (deserialize env t cfg) (s, u) hi).step
  refine .of_meter hs.frame ?_
  cases hr : (deserialize env t cfg).run (s, u) with
  | ok a st => obtain ⟨k, h1, h2⟩ := hc.ok _ _ _ hr; have := h1.le; simp only [Res.state_ok]; omega
  | err e st => have := hc.err _ _ _ hr; simp only [Res.state_err]; omega

/-- C75: when a value is returned, every call brought at least a byte, except for the one that found the end of the input where that is allowed to end the document. -/
theorem c75_success (env : Env) (t : Ty) (cfg : Config) (s : Stream) (hi : Inv s) (v : V) (s' : Stream) (u : Stats)
    (h : (deserialize env t cfg).run (s, .zero) = .ok v (s', u)) :
    Calls s s' (if s.graceful = true ∧ s'.eof = true then 1 else 0) := by
  have hs := (Prog.run_safe (deserialize env t cfg) (s, .zero) hi).step
  obtain ⟨k, h1, h2⟩ := (deserialize_cheap env t cfg hi .zero).ok _ _ _ h
  obtain ⟨-, -, hend⟩ := (deserialize_budget env t cfg hi).ok _ _ _ h
  rw [h] at hs
  refine .of_meter hs.frame ?_
  rcases h1 with rfl | ⟨rfl, ⟨he, hg⟩ | hd⟩
  · exact Nat.le_trans h2 (Nat.add_le_add_left (Nat.zero_le _) _)
  · have hg' : s.graceful = true := by rw [← hg]; exact hs.frame.graceful.symm
    rw [if_pos ⟨hg', he⟩]
    exact h2
  · rcases hend with he | he
    · have : s'.commit = none := hs.inv.eofCommit he
      rw [hd.2.1] at this
      cases this
    · rw [hd.2.1] at he
      cases he.1

/-- A byte at a time, with an interruption. -/
def exSlow (bs : List Byte) : Stream :=
  { Stream.new { data := bs, pos := 0, sched := [.short 0, .short 0, .interrupted] ++ List.replicate 20 (.short 0), seekable := false } with graceful := false }

theorem exSlow_inv (bs : List Byte) : Inv (exSlow bs) :=
  ⟨Nat.zero_le _, .inl rfl, fun h => (by cases h), fun h => (by cases h), fun h => (by cases h)⟩

/-- 11 bytes take 11 calls besides the interrupted one. -/
example : (match (deserialize exEnv (.named 0) .default).run (exSlow exBytes, .zero) with
    | .ok v (s', _) => decide (v = exValue ∧ s'.inner.sched.length = 11 ∧ s'.pos = 11)
    | _ => false) = true := by decide +kernel

/-- The two calls that bring nothing happen: the input ends where the content of a blob is expected; it is read in vain, and skipped in vain. -/
example : (match (deserialize exEnv (.tuple [.vec (.prim (.int .u8))]) .default).run (exSlow [129, 3], .zero) with
    | .err (.client e) (s', _) => decide (e.kind = .stream (.truncatedBlob 3) ∧ s'.inner.sched.length = 18 ∧ s'.pos = 2)
    | _ => false) = true := by decide +kernel

end Props
end Fourleaf
