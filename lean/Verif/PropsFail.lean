import Verif.PropsReads
import Verif.Lead
import Verif.PropsDebug

/-! # C58: readers which fail; C59: trying again

`Ev.fail` in the schedule of a reader stands for a call of `read` which returns an I/O error other than `Interrupted`, `Ev.noSeek` for one of `seek`. `Benign sc`: there is none in `sc`. -/

namespace Fourleaf.Props
open Fourleaf Spec

/-! ## C58: a failure is reported and nothing else changes -/

/-- Bytes of a blob between the position and the next header. -/
def unread (s : Stream) : Nat := if s.commit = some .skipBlob then s.blobEnd - s.pos else 0

theorem vpos_unread (s : Stream) : vpos s = s.inner.pos + unread s := rfl

/-- The place where the next header is expected is behind the end of the input: the input ends inside a blob. -/
def PastEnd (s : Stream) : Prop := s.inner.data.length < s.inner.pos + unread s

/-- **C58** One call on a stream whose reader may fail at any point: it returns the value, or the error, which it would return if the reader did
not fail, or it returns the I/O error of the reader. In particular a failure is never taken for the end of the input, of a blob or of the document. The one exception is harmless: if it is a `seek` over the rest of a blob
that failed, and the input ends inside of that blob, this is reported, while with a successful `seek` it is not noticed at that point (finding 1). -/
theorem c58_call {β : Type} (o : Op β) (ho : o.whole) (s : Stream) (hi : Inv s) (sc : List Ev) (hsc : Benign sc) :
    let t := { s with inner := { s.inner with sched := sc } }
    (∀ a s', o.exec s = .ok a s' → ∃ sc', o.exec t = .ok a { s' with inner := { s'.inner with sched := sc' } }) ∧
    (∀ e s', o.exec s = .err e s' → e = .io .device ∨
      (∃ n, e = .truncatedBlob n ∧ PastEnd s' ∧ PastEnd (o.exec t).state ∧ .noSeek ∈ s.inner.sched) ∨ ∃ sc', o.exec t = .err e { s' with inner := { s'.inner with sched := sc' } }) := by
  have h := o.exec_lead ho (onSched_lead (s := s) hsc) hi
  refine ⟨fun a s' hr => ?_, fun e s' hr => ?_⟩
  · obtain ⟨t, h1, h2⟩ := h.ok a s' hr
    exact ⟨t.inner.sched, h1.trans (by rw [h2.eq])⟩
  · rcases h.err e s' hr with h1 | ⟨⟨h1, h2⟩, h3, n, h4⟩ | ⟨t, h1, h2⟩
    · exact .inl h1
    · exact .inr (.inl ⟨n, h4, h3, h1, h2⟩)
    · exact .inr (.inr ⟨t.inner.sched, h1.trans (by rw [h2.eq])⟩)

/-- The same for a single `Read::read` on a blob: it returns some of the bytes which are next, and moves on by as many (none only at the end of the blob or of the input, or if none are asked for), or it returns an error and does not move. -/
theorem c58_read (want : Nat) (s : Stream) (hi : Inv s) (hl : s.live = true) :
    (∃ k sc, k ≤ want ∧ k ≤ s.blobEnd - s.pos ∧ k ≤ (s.inner.data.drop s.inner.pos).length ∧ (k = 0 → want = 0 ∨ s.pos = s.blobEnd ∨ s.inner.data.drop s.inner.pos = []) ∧
      Op.exec (.read want) s = .ok ((s.inner.data.drop s.inner.pos).take k) { s with pos := s.pos + k, inner := { s.inner with pos := s.inner.pos + k, sched := sc } }) ∨
    (∃ e sc, (e = .io .interrupted ∨ e = .io .device) ∧ Op.exec (.read want) s = .err e { s with inner := { s.inner with sched := sc } }) := by
  obtain ⟨hc, -⟩ := hi.liveOk hl
  have hpe : s.pos ≤ s.blobEnd ∧ s.blobEnd ≤ U64MAX := by
    rcases hi.pend with hp | hp
    · rw [hc] at hp; cases hp
    · exact hp.2
  simp only [Op.exec, onLiveBlob]
  rw [if_pos hl]
  unfold blobRead
  have hself : ∀ s : Stream, Res.ok (ε := Err) ([] : List Byte) s = .ok ((s.inner.data.drop s.inner.pos).take 0) { s with pos := s.pos + 0, inner := { s.inner with pos := s.inner.pos + 0, sched := s.inner.sched } } := fun _ => rfl
  by_cases h0 : blobRemaining s = 0
  · simp only [h0, if_true]
    exact .inl ⟨0, s.inner.sched, Nat.zero_le _, Nat.zero_le _, Nat.zero_le _, fun _ => .inr (.inl (by unfold blobRemaining at h0; omega)), hself s⟩
  · simp only [h0, if_false]
    by_cases hw : want = 0
    · subst hw
      refine .inl ⟨0, s.inner.sched, Nat.zero_le _, Nat.zero_le _, Nat.zero_le _, fun _ => .inl rfl, ?_⟩
      rw [Nat.zero_min]; exact hself s
    have hle : min want (blobRemaining s) ≤ s.blobEnd - s.pos := Nat.min_le_right _ _
    have hle' : min want (blobRemaining s) ≤ want := Nat.min_le_left _ _
    rcases trackRead_spec false (min want (blobRemaining s)) (by omega) s with ⟨h1, -⟩ | ⟨-, ⟨k, sc, h1, h2, h3, h4, -⟩ | ⟨sc, h1, -, h2⟩ | ⟨sc, h1, -⟩ | ⟨sc, h1, -⟩⟩
    · omega
    · exact .inl ⟨k, sc, by omega, by omega, h4, fun h => by omega, h1⟩
    · refine .inl ⟨0, sc, Nat.zero_le _, Nat.zero_le _, Nat.zero_le _, fun _ => .inr (.inr h1), ?_⟩
      rw [h2]; rfl
    · exact .inr ⟨_, sc, .inl rfl, h1⟩
    · exact .inr ⟨_, sc, .inr rfl, h1⟩

/-- **C58** A client which passes on every error it gets, over a reader which may fail at any point: if it succeeds, it succeeds with the same result over a reader which does
not fail. If it fails, then with an error made from the reader's (`D e e'`: the client makes the error `e'` from the error `e` of a call), or with the same error; or a `seek` failed over a blob in which the input ends, and that was noticed. -/
theorem c58_client {ε U α : Type} (D : Err → ε → Prop) (p : Prog ε U α) (hp : p.OpsAll Op.whole) (hr : p.Reports D) (s : Stream) (u : U) (hi : Inv s) (sc : List Ev) (hsc : Benign sc) :
    let t := { s with inner := { s.inner with sched := sc } }
    (∀ a s' u', p.run (s, u) = .ok a (s', u') → ∃ sc', p.run (t, u) = .ok a ({ s' with inner := { s'.inner with sched := sc' } }, u')) ∧
    (∀ e st, p.run (s, u) = .err (.client e) st → D (.io .device) e ∨
      (∃ n, D (.truncatedBlob n) e ∧ PastEnd st.1 ∧ PastEnd (p.run (t, u)).state.1 ∧ .noSeek ∈ s.inner.sched) ∨ ∃ st', p.run (t, u) = .err (.client e) st') := by
  have h := Prog.run_lead D p hp hr s _ u (onSched_lead (s := s) hsc) hi
  refine ⟨fun a s' u' hr => ?_, fun e st hr => ?_⟩
  case refine_2 =>
    rcases h.err e st hr with h1 | ⟨⟨h1, h2⟩, h3, n, h4⟩ | h1
    · exact .inl h1
    · exact .inr (.inl ⟨n, h4, h3, h1, h2⟩)
    · exact .inr (.inr h1)
  obtain ⟨t, h1, h2⟩ := h.ok a _ hr
  exact ⟨t.inner.sched, h1.trans (by rw [h2.eq])⟩

/-- **C58** Deserialising any type from a reader which may fail at any point, on any input. -/
theorem c58_deserialize (env : Env) (t : Ty) (cfg : Config) (s : Stream) (hi : Inv s) (sc : List Ev) (hsc : Benign sc) :
    let s0 := { s with inner := { s.inner with sched := sc } }
    (∀ v s' c, (deserialize env t cfg).run (s, .zero) = .ok v (s', c) →
      ∃ sc', (deserialize env t cfg).run (s0, .zero) = .ok v ({ s' with inner := { s'.inner with sched := sc' } }, c)) ∧
    (∀ e st, (deserialize env t cfg).run (s, .zero) = .err (.client e) st →
      e.kind = .stream (.io .device) ∨
      (∃ n, e.kind = .stream (.truncatedBlob n) ∧ PastEnd st.1 ∧ PastEnd ((deserialize env t cfg).run (s0, .zero)).state.1 ∧ .noSeek ∈ s.inner.sched) ∨
      ∃ st', (deserialize env t cfg).run (s0, .zero) = .err (.client e) st') :=
  c58_client DErr.of _ (deserialize_nice env t cfg).1 (deserialize_nice env t cfg).2.2 s .zero hi sc hsc

/-- **C58** What a reader over a message can do, if it fails: the only value it can give is the one which is written there, and only if the message is
accepted. -/
theorem c58_message (env : Env) (henv : env.Ok) (hwf : env.wf) (t : Ty) (ht : t.wf false = true) (cfg : Config) (l : Fields) (m : List Byte) (hm : Message l m)
    (s : Stream) (hs : Over { s with inner := { s.inner with sched := [] } } m) (hroom : s.pos + m.length < U64MAX) :
    (∃ v c s', Reads env cfg (.body t) 0 [.struct l] [v] c ∧ c.fits cfg ∧ (deserialize env t cfg).run (s, .zero) = .ok v (s', c)) ∨
    (∃ e st, (deserialize env t cfg).run (s, .zero) = .err (.client e) st ∧ (e.kind = .stream (.io .device) ∨ ∀ v c, c.fits cfg → ¬ Reads env cfg (.body t) 0 [.struct l] [v] c)) := by
  have hi : Inv s := by
    have h := hs.fresh.inv
    exact ⟨h.pos_le, h.pend, h.eofCommit, h.eofDepth, h.liveOk⟩
  obtain ⟨h1, h2⟩ := c58_deserialize env t cfg s hi [] (by simp [Benign])
  rcases (c45_total env t cfg s hi).1 with ⟨v, st, h3⟩ | ⟨e, st, h3, -⟩
  · obtain ⟨sc', h4⟩ := h1 v st.1 st.2 h3
    obtain ⟨h5, h6⟩ := (reads_iff hm hs hroom v st.2).1 ⟨_, h4⟩
    exact .inl ⟨v, st.2, st.1, (deTree_iff henv hwf ht).1 h5, h6, h3⟩
  · refine .inr ⟨e, st, h3, (h2 e st h3).imp_right fun h4 v c hf hr => ?_⟩
    obtain ⟨s', h5, h6⟩ := de_ok (tail := []) env t cfg hm (by simpa using hs) (by simpa using hroom) ((deTree_iff henv hwf ht).2 hr) hf
    rcases h4 with ⟨n, -, -, h4, -⟩ | ⟨st', h4⟩
    · rw [h5] at h4
      have h7 := h6.over.within
      have h8 := h6.over.fresh.commit
      simp only [PastEnd, unread, Res.state_ok, h8] at h4
      simp at h4
      omega
    · rw [h4] at h5; cases h5

/-! ### Examples -/

/-- A reader over the example message which fails after 5 bytes, and then goes on. -/
def exFailing : Stream := { Stream.fromSlice exBytes with inner := { (Stream.fromSlice exBytes).inner with sched := [.short 1, .interrupted, .short 2, .fail, .short 0] } }

example : ¬ Benign exFailing.inner.sched := by unfold Benign; decide
example : Over { exFailing with inner := { exFailing.inner with sched := [] } } exBytes := over_fromSlice exBytes (by decide)
example : (match (deserialize exEnv (.named 0) .default).run (exFailing, .zero) with
    | .err (.client e) _ => decide (e.kind = .stream (.io .device)) | _ => false) = true := by decide +kernel

/-- The exception: the input ends inside of a blob of 4 bytes, 2 of which are there. The `seek` over it fails, so that the stream reads, and notices; with a `seek` that succeeds (and graceful end of input) the
end of the input is taken for the end of the document. -/
def exPastEnd (sched : List Ev) : Stream := { Stream.newSeek ⟨[0x82, 4, 1, 2], 0, [.short 0, .short 0] ++ sched, true⟩ with graceful := true }

example : (match nextElement (nextElement (exPastEnd [.noSeek])).state, nextElement (nextElement (exPastEnd [])).state with
    | .err (.truncatedBlob n) s', .ok .endOfDoc t => decide (n = 2 ∧ s'.inner.data.length < s'.inner.pos + unread s' ∧ t.inner.data.length < t.inner.pos + unread t)
    | _, _ => false) = true := by decide +kernel

/-! ## C59: trying again -/

/-- `commit` of a reading stream over an input which contains the whole of the pending blob. -/
theorem commit_whole {s : Stream} (hi : Inv s) (hw : s.inner.pos + unread s ≤ s.inner.data.length) :
    ∃ k sc, k ≤ unread s ∧ sc <:+ s.inner.sched ∧ ((k = unread s ∧ commit s = .ok () { advBy s k sc with commit := none, live := false }) ∨
      (¬ Benign s.inner.sched ∧ s.commit = some .skipBlob ∧ commit s = .err (.io .device) { advBy s k sc with live := false })) := by
  rcases hi.pend with hc | ⟨hc, hp, he⟩
  · refine ⟨0, s.inner.sched, Nat.zero_le _, List.suffix_refl _, .inl ⟨by simp [unread, hc], ?_⟩⟩
    rw [commit_none hc]
    have hl := hi.notLive hc
    have : s = { advBy s 0 s.inner.sched with commit := none, live := false } := by
      cases s; simp only at hc hl; subst hc hl; rfl
    rw [← this]
  · have hu : unread s = s.blobEnd - s.pos := by simp [unread, hc]
    rw [hu] at hw ⊢
    have hrl : s.blobEnd - s.pos ≤ s.rest.length := by
      have : s.rest.length = s.inner.data.length - s.inner.pos := List.length_drop
      omega
    obtain ⟨k, sc, h1, h2, h3⟩ := skipBlob_spec hp he
    refine ⟨k, sc, h1, h2, ?_⟩
    rcases h3 with ⟨h3, h4⟩ | ⟨h3, h5, h4⟩ | ⟨h3, h4⟩
    · exact .inl ⟨h3, by simp [commit, hc, h4]⟩
    · omega
    · exact .inr ⟨h3, hc, by simp [commit, hc, h4]⟩

/-- **C59** `commit` (which every call starts with) failed because the reader failed while it skipped over the rest of a blob: when the reader works again, calling it again
skips the rest, to exactly the state which would have been reached without the failure. (The input must contain the whole blob.) This also holds if the second attempt fails and it is tried a third time, and so on:
what is assumed about `s` is also true of the state after the failure. -/
theorem c59_commit (s s1 : Stream) (hi : Inv s) (hw : s.inner.pos + unread s ≤ s.inner.data.length) (h : commit s = .err (.io .device) s1) :
    (Inv s1 ∧ s1.inner.pos + unread s1 ≤ s1.inner.data.length ∧ s.pos ≤ s1.pos ∧ s1.pos + unread s1 = s.pos + unread s) ∧
    ∀ sc sc', Benign sc → Benign sc' → ∃ (s2 : Stream) (sc2 sc2' : List Ev), s2.commit = none ∧ s2.pos = s.pos + unread s ∧
      commit { s1 with inner := { s1.inner with sched := sc } } = .ok () { s2 with inner := { s2.inner with sched := sc2 } } ∧
      commit { s with inner := { s.inner with sched := sc' } } = .ok () { s2 with inner := { s2.inner with sched := sc2' } } := by
  obtain ⟨k, sc1, h1, h2, h3⟩ := commit_whole hi hw
  rcases h3 with ⟨-, h3⟩ | ⟨-, hc, h3⟩
  · rw [h] at h3; cases h3
  · rw [h] at h3
    injection h3 with _ h3
    have hi1 : Inv s1 := by have := (commit_safe hi).1.step.inv; rw [h] at this; exact this
    have hu : unread s = s.blobEnd - s.pos := by simp [unread, hc]
    have hu1 : unread s1 = s.blobEnd - (s.pos + k) := by rw [h3]; simp [unread, hc]
    have hd1 : s1.inner.data = s.inner.data := by rw [h3]; rfl
    have hp1 : s1.inner.pos = s.inner.pos + k := by rw [h3]; rfl
    have hq1 : s1.pos = s.pos + k := by rw [h3]; rfl
    have hp : s.pos ≤ s.blobEnd := by
      rcases hi.pend with hp | hp
      · rw [hc] at hp; cases hp
      · exact hp.2.1
    refine ⟨⟨hi1, by rw [hp1, hd1]; omega, by omega, by omega⟩, fun sc sc' hsc hsc' => ?_⟩
    have e1 : ∀ (a : Stream), Inv a → a.inner.pos + unread a ≤ a.inner.data.length → ∀ sc, Benign sc → ∃ sc2, commit (onSched sc a) =
        .ok () { advBy a (unread a) sc2 with commit := none, live := false } := by
      intro a ha hw sc hsc
      have := commit_whole (s := onSched sc a) (onSched_lead (s := a) hsc |>.inv ha) hw
      obtain ⟨k, sc2, -, -, ⟨g1, g2⟩ | ⟨g1, -⟩⟩ := this
      · exact ⟨sc2, g2.trans (by rw [g1]; rfl)⟩
      · exact absurd hsc g1
    obtain ⟨a1, g1⟩ := e1 s1 hi1 (by rw [hp1, hd1]; omega) sc hsc
    obtain ⟨a2, g2⟩ := e1 s hi hw sc' hsc'
    refine ⟨{ advBy s (unread s) a2 with commit := none, live := false }, a1, a2, rfl, rfl, g1.trans ?_, g2⟩
    rw [hu1, h3]
    simp only [advBy, Res.ok.injEq, true_and, hu, Stream.mk.injEq, Inner.mk.injEq, and_true]
    omega

/-- The first byte of a header could not be read, or part of the header has been read. -/
theorem readElement_device {s s1 : Stream} (hi : Inv s) (hc : s.commit = none) (he : s.eof = false) (h : readElement s = .err (.io .device) s1) :
    (∃ sc, s1 = advBy s 0 sc) ∨ vpos s < vpos s1 := by
  have hB := readByte_spec true s
  have hS := readByte_safe true hi hc
  have hA := readByte_adv true hi
  unfold readElement at h
  cases hr : readByte true s with
  | err e s' =>
    rw [hr] at h hB
    injection h with h4 h5
    subst h4 h5
    rcases hB with ⟨-, sc, -, h1⟩ | ⟨-, sc, -, h1⟩
    · injection h1 with h1; cases h1
    · rcases h1 with ⟨b, l, -, h1⟩ | ⟨-, -, -, h1⟩ | ⟨-, -, h1⟩ | ⟨-, h1⟩
      · cases h1
      · cases h1
      · injection h1 with h1; cases h1
      · injection h1 with _ h1; exact .inl ⟨sc, h1⟩
  | ok b s' =>
    right
    rw [hr] at hS hA hB h
    have hst := hS.step
    simp only [Res.state_ok] at hst hA
    have hi' := hst.inv
    have hc' : s'.commit = none := hA.commit.trans hc
    have he' : s'.eof = false := hA.eof.trans he
    dsimp only at h
    obtain ⟨d, hd, -, -⟩ := Props.c07_parse_total b
    rw [hd] at h
    have hnotgrace : d ≠ .special .endOfDoc → vpos s < vpos s' ∧ s'.inner.pos ≤ s'.inner.data.length := by
      intro hne
      rcases hB with ⟨-, sc, -, h⟩ | ⟨-, sc, -, h⟩
      · cases h
      · rcases h with ⟨b', l, hx, h'⟩ | ⟨hx, h1, h2, h3⟩ | ⟨-, -, h⟩ | ⟨-, h⟩
        · cases h'
          have hne : s.rest ≠ [] := by intro h0; rw [h0] at hx; cases hx
          exact ⟨by simp [vpos, hc], hA.within (by have := mt (rest_nil_iff s).2 hne; omega)⟩
        · cases h3
          have : Desc.parse 0x40 = some (.special .endOfDoc) := by decide
          rw [this] at hd; cases hd; exact absurd rfl hne
        · cases h
        · cases h
    cases d with
    | pair ty tag =>
      obtain ⟨hlt, hw⟩ := hnotgrace (by intro h; cases h)
      dsimp only at h
      generalize hs2 : (if s'.depth = 0 then { s' with depth := 1 } else s') = s2 at h
      have hst2 : Step s' s2 := by
        rw [← hs2]; split
        · exact step_setDepth hi' he' 1
        · exact .refl hi'
      have hc2 : s2.commit = none := by rw [← hs2]; split <;> exact hc'
      have he2 : s2.eof = false := by rw [← hs2]; split <;> exact he'
      have hV := nextValue_safe ty hst2.inv hc2 he2 (by rw [← hs2]; split <;> exact hw)
      cases hv : nextValue ty s2 with
      | err e' s4 =>
        rw [M.bind_err hv] at h; cases h
        have hVs := hV.1.step
        rw [hv] at hVs
        exact Nat.lt_of_lt_of_le hlt (Nat.le_trans hst2.mono hVs.mono)
      | ok v s4 => rw [M.bind_ok hv] at h; cases h
    | special sp =>
      cases sp with
      | endOfStruct => cases h
      | endOfDoc => cases h
      | padding => cases h
      | exception =>
        obtain ⟨hlt, hw⟩ := hnotgrace (by intro h; cases h)
        have hV := nextBlob_safe hi' hc' he' hw
        cases hv : nextBlob s' with
        | err e' s4 =>
          dsimp only at h
          rw [M.bind_err hv] at h; cases h
          have hVs := hV.1.step
          rw [hv] at hVs
          exact Nat.lt_of_lt_of_le hlt hVs.mono
        | ok v s4 => dsimp only at h; rw [M.bind_ok hv] at h; cases h

theorem skipPadLoop_device (fuel : Nat) {s s1 : Stream} (hi : Inv s) (hc : s.commit = none) (he : s.eof = false) (hf : s.inner.data.length - s.inner.pos + 2 ≤ fuel)
    (h : skipPadLoop fuel s = .err (.io .device) s1) : (∃ sc, s1 = advBy s 0 sc) ∨ vpos s < vpos s1 := by
  cases fuel with
  | zero => omega
  | succ fuel =>
    have hR := readElement_safe hi hc he
    rw [skipPadLoop] at h
    cases hr : readElement s with
    | err e s' =>
      rw [M.bind_err hr] at h
      injection h with h1 h2
      subst h1 h2
      exact readElement_device hi hc he hr
    | ok e s' =>
      right
      rw [M.bind_ok hr, M.ite_apply] at h
      split at h
      · rename_i hp
        subst hp
        have hlt := (hR.2 _ _ hr).2.2 (by simp)
        have hst := hR.1.step
        rw [hr] at hst
        simp only [Res.state_ok] at hst
        have hadv := readElement_padding_commit hi hr
        have hc' := hadv.commit.trans hc
        have hlen : s.inner.pos < s.inner.data.length := by
          rcases (hR.2 _ _ hr).2.1 with h2 | ⟨-, h2⟩
          · rw [Ne, rest_nil_iff] at h2; omega
          · cases h2
        have := (skipPadLoop_safe fuel s' hst.inv hc' (hadv.eof.trans he) (by
          simp only [vpos, hc, hc'] at hlt
          rw [hst.frame.data]; simp at hlt; omega)).1.step.mono
        rw [h] at this
        exact Nat.lt_of_lt_of_le hlt this
      · cases h

/-- After `commit` succeeded, the next element is what it is without it. -/
theorem nextElementImpl_committed (sp : Bool) {s x : Stream} (he : s.eof = false) (hi : Inv s) (h : commit s = .ok () x) :
    nextElementImpl sp s = nextElementImpl sp x ∧ x.eof = false ∧ Inv x ∧ x.commit = none := by
  have hS := commit_safe hi
  obtain ⟨h1, h2, -, -⟩ := hS.2 _ _ h
  rw [h] at hS
  refine ⟨?_, h2.trans he, hS.1.step.inv, h1⟩
  unfold nextElementImpl
  rw [h2, he]
  simp only [Bool.false_eq_true, if_false]
  rw [M.bind_ok h, M.bind_ok (commit_none h1)]

/-- Where the next element is read from, after a failure with which no part of a header has been lost. -/
theorem settle {s s1 : Stream} (sp : Bool) (hi : Inv s) (hw : s.inner.pos + unread s ≤ s.inner.data.length) (h : nextElementImpl sp s = .err (.io .device) s1)
    (hv : s1.pos + unread s1 = s.pos + unread s) (sc sc' : List Ev) (hsc : Benign sc) (hsc' : Benign sc') :
    ∃ x y, commit (onSched sc s1) = .ok () x ∧ commit (onSched sc' s) = .ok () y ∧ Rel false [] x y ∧ s.eof = false ∧ s1.eof = false ∧ Inv s1 := by
  have hN := (nextElementImpl_safe sp hi).1.step
  rw [h] at hN
  simp only [Res.state_err] at hN
  have hoff := hN.frame.off
  unfold nextElementImpl at h
  split at h
  · cases h
  rename_i he
  have he : s.eof = false := by simpa using he
  cases hc : commit s with
  | err e s' =>
    rw [M.bind_err hc] at h
    injection h with h1 h2
    subst h1 h2
    obtain ⟨-, h3⟩ := c59_commit s s' hi hw hc
    obtain ⟨s2, a, b, -, -, h4, h5⟩ := h3 sc sc' hsc hsc'
    refine ⟨_, _, h4, h5, ?_, he, ?_, hN.inv⟩
    · have ha : Benign a := by
        have := (commit_safe (onSched_lead (s := s') hsc |>.inv hN.inv)).1.step.frame.sched
        change commit (onSched sc s') = _ at h4
        rw [h4] at this
        exact hsc.suffix this
      have hb : Benign b := by
        have := (commit_safe (onSched_lead (s := s) hsc' |>.inv hi)).1.step.frame.sched
        change commit (onSched sc' s) = _ at h5
        rw [h5] at this
        exact hsc'.suffix this
      exact ⟨by simp [ext], ha, hb, fun h => absurd rfl h, fun _ => rfl, fun _ => rfl⟩
    · obtain ⟨k, sc2, -, -, ⟨-, h6⟩ | ⟨-, -, h6⟩⟩ := commit_whole hi hw
      · rw [hc] at h6; cases h6
      · rw [hc] at h6; injection h6 with _ h6; rw [h6]; exact he
  | ok u x =>
    rw [M.bind_ok hc] at h
    have hS := commit_safe hi
    obtain ⟨h1, h2, -, h3⟩ := hS.2 _ _ hc
    rw [hc] at hS
    have hx := hS.1.step
    simp only [Res.state_ok] at hx
    have hD : (∃ sc, s1 = advBy x 0 sc) ∨ vpos x < vpos s1 := by
      cases sp with
      | false => exact readElement_device hx.inv h1 (h2.trans he) h
      | true => exact skipPadLoop_device _ hx.inv h1 (h2.trans he) (Nat.le_refl _) h
    rcases hD with ⟨sc2, rfl⟩ | hD
    · obtain ⟨k, sc3, -, -, ⟨h5, h6⟩ | ⟨-, -, h6⟩⟩ := commit_whole hi hw
      · obtain ⟨k', sc4, -, g1, ⟨g2, g3⟩ | ⟨g2, -⟩⟩ := commit_whole (s := onSched sc' s) (onSched_lead (s := s) hsc' |>.inv hi) hw
        · refine ⟨onSched sc (advBy x 0 sc2), _, commit_none h1, g3, ?_, he, h2.trans he, hN.inv⟩
          rw [hc] at h6
          injection h6 with _ h6
          have g2 : k' = unread s := g2
          refine ⟨?_, hsc, hsc'.suffix g1, fun h => absurd rfl h, fun _ => ?_, fun _ => rfl⟩
          · rw [h6, g2, h5]; simp [ext, onSched, advBy]
          · rw [h6]; rfl
        · exact absurd hsc' g2
      · rw [hc] at h6; cases h6
    · exfalso
      rw [h3, vpos_unread, vpos_unread] at hD
      omega

/-- **C59** `next_element` failed because the reader failed, while the rest of the previous blob was being skipped or before any of the header was
read (the position of the next header is still the same): when the reader works again, calling it again returns the element, or the error, which it would have returned without the failure, and
leaves the stream in the same state. -/
theorem c59_next_element (s s1 : Stream) (hi : Inv s) (hw : s.inner.pos + unread s ≤ s.inner.data.length) (h : nextElement s = .err (.io .device) s1)
    (hv : s1.pos + unread s1 = s.pos + unread s) (sc sc' : List Ev) (hsc : Benign sc) (hsc' : Benign sc') :
    let again := nextElement { s1 with inner := { s1.inner with sched := sc } }
    let first := nextElement { s with inner := { s.inner with sched := sc' } }
    (∀ e s2, again = .ok e s2 → ∃ sc2, first = .ok e { s2 with inner := { s2.inner with sched := sc2 } }) ∧
    (∀ e s2, again = .err e s2 → ∃ sc2, first = .err e { s2 with inner := { s2.inner with sched := sc2 } }) := by
  obtain ⟨x, y, h1, h2, h3, h4, h5, h6⟩ := settle false hi hw h hv sc sc' hsc hsc'
  have e1 := nextElementImpl_committed false (s := onSched sc s1) h5 (onSched_lead (s := s1) hsc |>.inv h6) h1
  have e2 := nextElementImpl_committed false (s := onSched sc' s) h4 (onSched_lead (s := s) hsc' |>.inv hi) h2
  have hR := nextElementImpl_rel false h3 e1.2.2.1
  intro again first
  have ha : again = nextElementImpl false x := e1.1
  have hf : first = nextElementImpl false y := e2.1
  rw [ha, hf]
  refine ⟨fun e s2 hr => ?_, fun e s2 hr => ?_⟩
  · obtain ⟨t, g1, g2⟩ := hR.ok e s2 hr
    refine ⟨t.inner.sched, ?_⟩
    have := g2.same rfl
    rw [g1, g2.eq]; simp [ext, this]
  · obtain ⟨t, g1, g2⟩ := (hR.err e s2 hr).resolve_left fun h => h.1 rfl
    refine ⟨t.inner.sched, ?_⟩
    have := g2.same rfl
    rw [g1, g2.eq]; simp [ext, this]

theorem nextField_committed {s x : Stream} (he : s.eof = false) (hi : Inv s) (h : commit s = .ok () x) : nextField s = nextField x := by
  have := (nextElementImpl_committed true he hi h).1
  unfold nextField
  rw [M.bind_apply, M.bind_apply, this]

/-- **C59** The same for `next_field`. -/
theorem c59_next_field (s s1 : Stream) (hi : Inv s) (hw : s.inner.pos + unread s ≤ s.inner.data.length) (h : nextField s = .err (.io .device) s1)
    (hv : s1.pos + unread s1 = s.pos + unread s) (sc sc' : List Ev) (hsc : Benign sc) (hsc' : Benign sc') :
    let again := nextField { s1 with inner := { s1.inner with sched := sc } }
    let first := nextField { s with inner := { s.inner with sched := sc' } }
    (∀ f s2, again = .ok f s2 → ∃ sc2, first = .ok f { s2 with inner := { s2.inner with sched := sc2 } }) ∧
    (∀ e s2, again = .err e s2 → ∃ sc2, first = .err e { s2 with inner := { s2.inner with sched := sc2 } }) := by
  have hN := nextElementImpl_safe true hi
  have h' : nextElementImpl true s = .err (.io .device) s1 := by
    unfold nextField at h
    cases hr : nextElementImpl true s with
    | err e s2 => rw [M.bind_err hr] at h; injection h with g1 g2; rw [g1, g2]
    | ok e s2 =>
      exfalso
      have hsh := nextElementImpl_shape hi hr
      have hP := (hN.2 _ _ hr).2
      have hst := hN.1.step
      rw [hr] at hst
      rw [M.bind_ok hr] at h
      cases e with
      | padding => cases h
      | endOfStruct => cases h
      | endOfDoc => cases h
      | field f => cases h
      | exception n =>
        have hR := readOrTrunc_safe 256 hst.inv hsh.1
        dsimp only at h
        cases hm : readOrTrunc 256 s2 with
        | ok m s3 => rw [M.bind_ok hm] at h; cases h
        | err e s3 =>
          rw [M.bind_err hm] at h
          injection h with _ h
          subst h
          have hlt := hP.prog (by simp)
          have hm2 := hR.step.mono
          simp only [Res.state_ok] at hm2
          rw [hm] at hm2
          have hoff := hst.frame.off
          simp only [Res.state_ok] at hoff
          have hoff2 := hR.step.frame.off
          simp only [Res.state_ok] at hoff2
          rw [hm] at hoff2
          simp only [Res.state_err, vpos_unread] at hlt hm2 hoff2
          omega
  obtain ⟨x, y, h1, h2, h3, h4, h5, h6⟩ := settle true hi hw h' hv sc sc' hsc hsc'
  have i1 := onSched_lead (s := s1) hsc |>.inv h6
  have e1 := nextField_committed (s := onSched sc s1) h5 i1 h1
  have e2 := nextField_committed (s := onSched sc' s) h4 (onSched_lead (s := s) hsc' |>.inv hi) h2
  have hR := nextField_rel h3 (nextElementImpl_committed true (s := onSched sc s1) h5 i1 h1).2.2.1
  intro again first
  have ha : again = nextField x := e1
  have hf : first = nextField y := e2
  rw [ha, hf]
  refine ⟨fun e s2 hr => ?_, fun e s2 hr => ?_⟩
  · obtain ⟨t, g1, g2⟩ := hR.ok e s2 hr
    refine ⟨t.inner.sched, ?_⟩
    have := g2.same rfl
    rw [g1, g2.eq]; simp [ext, this]
  · obtain ⟨t, g1, g2⟩ := (hR.err e s2 hr).resolve_left fun h => h.1 rfl
    refine ⟨t.inner.sched, ?_⟩
    have := g2.same rfl
    rw [g1, g2.eq]; simp [ext, this]

/-! ### Examples -/

/-- A blob of 4 bytes has just been announced; the reader gives two of them and then fails, once. -/
def exStuck : Stream := (nextElement (Stream.new ⟨[0x82, 4, 1, 2, 3, 4, 0x41, 7], 0, [.short 0, .short 0, .short 1, .fail], false⟩)).state

example : Inv exStuck ∧ exStuck.inner.pos + unread exStuck ≤ exStuck.inner.data.length :=
  ⟨⟨by decide +kernel, .inr (by decide +kernel), by decide +kernel, by decide +kernel, fun _ => by decide +kernel⟩, by decide +kernel⟩

/-- The first attempt fails in the blob, the second one returns the field behind it. -/
example : (match nextElement exStuck with
    | .err (.io .device) s1 => decide (s1.pos = 4 ∧ s1.pos + unread s1 = exStuck.pos + unread exStuck) &&
      (match nextElement s1 with | .ok (.field f) s2 => decide (f.tag = 1 ∧ f.value = .int 7 ∧ s2.pos = 8) | _ => false)
    | _ => false) = true := by decide +kernel

/-- The condition on the position is needed: if the reader fails inside of a header, the bytes which have been read are lost, and the next call takes the rest of the
header for a header. Here the value of an integer (`0x41`) is taken for a field. -/
example : (match nextElement (Stream.new ⟨[0x42, 0x41, 7, 0], 0, [.short 0, .fail], false⟩) with
    | .err (.io .device) s1 =>
      (match nextElement s1 with | .ok (.field f) _ => decide (f.tag = 1 ∧ f.value = .int 7) | _ => false)
    | _ => false) = true := by decide +kernel

end Fourleaf.Props
