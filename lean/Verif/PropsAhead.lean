import Verif.Later
import Verif.PropsBlame

/-! # Nothing is read ahead (C63)

A reader such as a socket must not be asked for bytes which the client does not need, as it would block. Here it hands out some bytes, possibly with interruptions, in a number
of calls (`A`, `gives A` calls, in the most stringent case with a single byte each), and then does anything (`X`), such as fail. A client program which consumes no more than that number of bytes does not notice. -/

namespace Fourleaf
open Spec

/-- In how many calls the reader hands out something (at least a byte, if it is not at its end). -/
def gives (sc : List Ev) : Nat := sc.countP (fun e => match e with | .short _ => true | _ => false)

theorem Benign.replicate (n k : Nat) : Benign (List.replicate n (.short k)) := fun e h => by rw [List.eq_of_mem_replicate h]; rfl
theorem Benign.append {a b : List Ev} (h : Benign a) (h' : Benign b) : Benign (a ++ b) := fun e he => (List.mem_append.1 he).elim (h e) (h' e)
theorem Benign.rest {e : Ev} {sc : List Ev} (h : Benign (e :: sc)) : Benign sc := fun e hx => h e (List.mem_cons_of_mem _ hx)
theorem gives_append (a b : List Ev) : gives (a ++ b) = gives a + gives b := List.countP_append
theorem gives_le (a : List Ev) : gives a ≤ a.length := List.countP_le_length
theorem gives_replicate (n : Nat) : gives (List.replicate n (.short 0)) = n := by
  unfold gives; rw [List.countP_eq_length.2]
  · simp
  · intro e he; simp [List.eq_of_mem_replicate he]

/-- Unless the end of the input is reached, every call which hands out something moves the reader. -/
def Fed (s s' : Stream) : Prop := s.commit ≠ some .finishDyn → s'.commit ≠ some .finishDyn ∧ s'.inner.data = s.inner.data ∧
  (Benign s.inner.sched → Benign s'.inner.sched ∧ s.inner.pos ≤ s'.inner.pos ∧
    (s'.inner.pos < s.inner.data.length → gives s.inner.sched ≤ gives s'.inner.sched + (s'.inner.pos - s.inner.pos)))

theorem fed_read : ReadFree Fed where
  refl s := fun h => ⟨h, rfl, fun h => ⟨h, Nat.le_refl _, fun _ => by omega⟩⟩
  trans a b c h h' := fun hc => by
    obtain ⟨h1, h2, h3⟩ := h hc
    obtain ⟨h4, h5, h6⟩ := h' h1
    refine ⟨h4, h5.trans h2, fun hd => ?_⟩
    obtain ⟨h7, h8, h9⟩ := h3 hd
    obtain ⟨ha, hb, hc⟩ := h6 h7
    rw [h2] at hc
    exact ⟨ha, Nat.le_trans h8 hb, fun hl => by have := h9 (by omega); have := hc hl; omega⟩
  read g want s := by
    intro hc
    unfold trackRead
    split
    · exact ⟨hc, rfl, fun h => ⟨h, Nat.le_refl _, fun _ => by simp⟩⟩
    · rename_i hw
      split
      · exact ⟨hc, rfl, fun h => ⟨h, Nat.le_refl _, fun _ => by simp⟩⟩
      · have key : ∀ (d : List Byte) (i : Inner) (s' : Stream), s.inner.read want = .ok d i → s' = { s with inner := i, pos := s.pos + d.length } →
            s'.commit ≠ some .finishDyn ∧ s'.inner.data = s.inner.data ∧
              (Benign s.inner.sched → Benign s'.inner.sched ∧ s.inner.pos ≤ s'.inner.pos ∧
                (s'.inner.pos < s.inner.data.length → gives s.inner.sched ≤ gives s'.inner.sched + (s'.inner.pos - s.inner.pos))) := by
          intro d i s' hr hs
          subst hs
          unfold Inner.read at hr
          split at hr
          · rename_i h0
            cases hr
            refine ⟨hc, rfl, fun h => ⟨h, by simp, fun _ => by simp [h0, gives]⟩⟩
          · rename_i k sc h0
            cases hr
            refine ⟨hc, rfl, fun h => ?_⟩
            rw [h0] at h
            refine ⟨h.rest, by simp, fun hl => ?_⟩
            · have hrl : s.inner.rest.length = s.inner.data.length - s.inner.pos := by simp [Inner.rest]
              simp only [List.length_take] at hl ⊢
              rw [h0]
              have : gives (.short k :: sc) = gives sc + 1 := by simp [gives]
              omega
          · cases hr
          · cases hr
        cases hr : s.inner.read want with
        | ok d i =>
          dsimp only
          split
          · exact key d i _ hr rfl
          · exact key d i _ hr rfl
        | err e i =>
          dsimp only
          unfold Inner.read at hr
          split at hr
          · cases hr
          · cases hr
          · rename_i sc h0
            cases hr
            refine ⟨hc, rfl, fun h => ?_⟩
            rw [h0] at h
            refine ⟨h.rest, Nat.le_refl _, fun _ => ?_⟩
            rw [h0]
            simp [gives]
          · rename_i sc h0
            cases hr
            refine ⟨hc, rfl, fun h => ?_⟩
            rw [h0] at h
            exact absurd h (not_benign (by assumption) (by assumption))
  slip s hs := fun h => ⟨h, rfl, fun h => absurd h (not_benign_noSeek hs)⟩
  fwd s n := fun h => ⟨h, rfl, fun h => ⟨h, by simp, fun _ => by simp⟩⟩
  book s eof be ds de co li hco := fun h => ⟨hco.elim (fun e => e ▸ h) id, rfl, fun h => ⟨h, Nat.le_refl _, fun _ => by simp⟩⟩
  dyn s h := ⟨fun h' => absurd h h', fun h' => absurd h h'⟩

namespace Props

/-- **C63** Take any client program, and a reader which hands out at least one byte per call. If the client, in the end, has not moved beyond the first `gives A` bytes, and not to the
very end of the data, then the reader may behave in any way from then on: the outcome is the same, and the behaviour `X` is all still to come. -/
theorem c63_client {ε U α : Type} (p : Prog ε U α) (s : Stream) (u : U) (hi : Inv s) (A X : List Ev) (hA : Benign A) (hX : X.head? ≠ some .noSeek) :
    let drip := onSched (A ++ List.replicate X.length (.short 0)) s
    let real := onSched (A ++ X) s
    let enough : Stream → Prop := fun s' => s'.inner.pos ≤ s.inner.pos + gives A ∧ s'.inner.pos < s.inner.data.length
    (∀ a s' u', p.run (drip, u) = .ok a (s', u') → enough s' → ∃ B, p.run (real, u) = .ok a (onSched (B ++ X) s', u')) ∧
    (∀ e s' u', p.run (drip, u) = .err e (s', u') → enough s' → ∃ B, p.run (real, u) = .err e (onSched (B ++ X) s', u')) := by
  intro drip real enough
  have hi' : Inv drip := ⟨hi.pos_le, hi.pend, hi.eofCommit, hi.eofDepth, hi.liveOk⟩
  have hl : Later X (List.replicate X.length (.short 0)) drip real := ⟨A, rfl, rfl⟩
  have hrun := p.run_later ⟨by simp, hX⟩ drip real u hl hi'
  have hfed := p.keeps fed_read (drip, u)
  have hc : drip.commit ≠ some .finishDyn := by
    rcases hi'.pend with h | ⟨h, -⟩ <;> rw [h] <;> simp
  have hno : ∀ s' : Stream, Fed drip s' → enough s' → (List.replicate X.length (Ev.short 0)).length ≤ s'.inner.sched.length := by
    intro s' hf ⟨h1, h2⟩
    obtain ⟨-, -, h3⟩ := hf hc
    obtain ⟨-, h4, h5⟩ := h3 (Benign.append hA (.replicate _ _))
    have h6 := h5 h2
    have h7 := gives_le s'.inner.sched
    have h8 : gives drip.inner.sched = gives A + X.length := by
      show gives (A ++ _) = _
      rw [gives_append, gives_replicate]
    have h9 : drip.inner.pos = s.inner.pos := rfl
    simp only [List.length_replicate]
    omega
  refine ⟨fun a s' u' h he => ?_, fun e s' u' h he => ?_⟩
  · rw [h] at hfed
    obtain ⟨t, h1, B, -, rfl⟩ := hrun.ok a _ h (hno _ hfed he)
    exact ⟨B, h1⟩
  · rw [h] at hfed
    obtain ⟨t, h1, B, -, rfl⟩ := hrun.err e _ h (hno _ hfed he)
    exact ⟨B, h1⟩

/-- **C63** (deserialising) If a value can be deserialised from some bytes, then it can be deserialised from a reader which hands out bytes in as many calls (so, maybe, one at a time), with interruptions, and
which then, if asked for more, does whatever it likes: it is not asked. -/
theorem c63_deserialize (env : Env) (t : Ty) (cfg : Config) (s : Stream) (hi : Inv s) (hb : Benign s.inner.sched)
    (v : V) (s' : Stream) (c : Stats) (hrun : (deserialize env t cfg).run (s, .zero) = .ok v (s', c)) (hg : s.graceful = true → s'.eof = false) (hin : s'.inner.pos ≤ s.inner.data.length)
    (A X : List Ev) (hA : Benign A) (hX : X.head? ≠ some .noSeek) (hn : s'.inner.pos ≤ s.inner.pos + gives A) (q : List Byte) (hq : q ≠ []) :
    ∃ s2, (deserialize env t cfg).run ({ s with inner := { s.inner with data := s.inner.data ++ q, sched := A ++ X } }, .zero) = .ok v (s2, c) ∧
      s2.pos = s'.pos ∧ s2.inner.pos = s'.inner.pos ∧ s2.depth = s'.depth ∧ s2.eof = s'.eof ∧ s2.commit = s'.commit ∧ X <:+ s2.inner.sched := by
  obtain ⟨s1, h1, h2, h3, h4, h5, h6, -⟩ := c34_arbitrary env t cfg s hi hb v s' c hrun hg q (A ++ List.replicate X.length (.short 0)) (Benign.append hA (.replicate _ _))
  have hi' : Inv { s with inner := { s.inner with data := s.inner.data ++ q } } :=
    ⟨hi.pos_le, hi.pend, hi.eofCommit, hi.eofDepth, fun h => ⟨(hi.liveOk h).1, Nat.le_trans (hi.liveOk h).2 (by simp)⟩⟩
  have hq' : 0 < q.length := List.length_pos_iff.2 hq
  obtain ⟨B, h7⟩ := (c63_client (deserialize env t cfg) _ .zero hi' A X hA hX).1 v s1 c h1 ⟨by rw [h3]; exact hn, by rw [h3, List.length_append]; omega⟩
  exact ⟨_, h7, h2, h3, h4, h5, h6, List.suffix_append _ _⟩

/-- **C63** (failures) The same holds if a complete message is refused: the error does not come later than the message. -/
theorem c63_refused (env : Env) (henv : env.Ok) (hwf : env.wf) (t : Ty) (ht : t.wf false = true) (cfg : Config) (l : Fields) (m : List Byte) (hm : Message l m)
    (s : Stream) (hs : Over s m) (hroom : s.pos + m.length < U64MAX) (e : Stop DErr) (s' : Stream) (c : Stats)
    (hrun : (deserialize env t cfg).run (s, .zero) = .err e (s', c)) (A X : List Ev) (hA : Benign A) (hX : X.head? ≠ some .noSeek) (hn : m.length ≤ gives A) (q : List Byte) (hq : q ≠ []) :
    ∃ s2, (deserialize env t cfg).run ({ s with inner := { s.inner with data := s.inner.data ++ q, sched := A ++ X } }, .zero) = .err e (s2, c) ∧
      s2.pos = s'.pos ∧ s2.inner.pos = s'.inner.pos ∧ s2.depth = s'.depth ∧ s2.eof = s'.eof ∧ s2.commit = s'.commit ∧ X <:+ s2.inner.sched := by
  obtain ⟨s1, h1, h2, h3, h4, h5, h6, h8⟩ := c34_errors env henv hwf t ht cfg l m hm s hs hroom e s' c hrun q (A ++ List.replicate X.length (.short 0)) (Benign.append hA (.replicate _ _))
  have hi := hs.fresh.inv
  have hi' : Inv { s with inner := { s.inner with data := s.inner.data ++ q } } :=
    ⟨hi.pos_le, hi.pend, hi.eofCommit, hi.eofDepth, fun h => ⟨(hi.liveOk h).1, Nat.le_trans (hi.liveOk h).2 (by simp)⟩⟩
  have hq' : 0 < q.length := List.length_pos_iff.2 hq
  have hst := (Prog.run_safe (deserialize env t cfg) (s, .zero) hi).step
  rw [hrun] at hst
  have hoff := hst.frame.off
  simp only [Res.state_err] at hoff
  have hl : s.inner.data.length = s.inner.pos + m.length := by
    have := congrArg List.length hs.rest; have := hs.within; simp at *; omega
  obtain ⟨B, h7⟩ := (c63_client (deserialize env t cfg) _ .zero hi' A X hA hX).2 e s1 c h1 ⟨by simp only; omega, by simp only [List.length_append]; omega⟩
  exact ⟨_, h7, h2, h3, h4, h5, h6, List.suffix_append _ _⟩

/-- **C63** (messages) A message which is accepted as a value `v` is read from any kind of stream whose reader hands out something in as many calls as the message has bytes, and
behaves in any way later: what follows the message (`tail`) is not asked for. -/
theorem c63_message (env : Env) (t : Ty) (cfg : Config) (l : Fields) (m tail : List Byte) (hm : Message l m) (v : V) (c : Stats) (hacc : Accepts env t cfg m v c)
    (s : Stream) (A X : List Ev) (hs : Over (onSched A s) (m ++ tail)) (hroom : s.pos + (m ++ tail).length < U64MAX) (htail : tail ≠ []) (hn : m.length ≤ gives A) (hX : X.head? ≠ some .noSeek) :
    ∃ s', (deserialize env t cfg).run (onSched (A ++ X) s, .zero) = .ok v (s', c) ∧ s'.pos = s.pos + m.length ∧ s'.inner.rest = tail ∧ X <:+ s'.inner.sched := by
  have hmr : m.length < U64MAX := by simp at hroom; omega
  have h0 : (Stream.fromSlice m).pos + m.length < U64MAX := by show 0 + m.length < U64MAX; omega
  obtain ⟨s0', h1⟩ := hacc _ (over_fromSlice m (Nat.le_of_lt hmr)) h0
  have hd : Over (onSched (A ++ List.replicate X.length (.short 0)) s) (m ++ tail) :=
    ⟨⟨hs.fresh.pos, hs.fresh.eof, hs.fresh.commit, hs.fresh.live⟩,
      Benign.append hs.benign (.replicate _ _), hs.within, hs.rest, hs.room⟩
  obtain ⟨s1, h2, h3⟩ := c34_tail env t cfg l m tail hm _ _ (over_fromSlice m (Nat.le_of_lt hmr)) h0 v c s0' h1 hd hroom
  have hoff : s1.inner.pos = s.inner.pos + m.length := by
    have := h3.frame.off
    have h4 : (onSched (A ++ List.replicate X.length (.short 0)) s).pos = s.pos := rfl
    have h5 : (onSched (A ++ List.replicate X.length (.short 0)) s).inner.pos = s.inner.pos := rfl
    have := h3.pos
    omega
  have hl : s.inner.pos + m.length < s.inner.data.length := by
    have h1 := congrArg List.length hs.rest
    have h2 := List.length_pos_iff.2 htail
    have h3 : (onSched A s).inner.data = s.inner.data := rfl
    have h4 : (onSched A s).inner.pos = s.inner.pos := rfl
    rw [h3, h4, List.length_drop, List.length_append] at h1
    omega
  obtain ⟨B, h6⟩ := (c63_client (deserialize env t cfg) s .zero ⟨hs.fresh.inv.pos_le, hs.fresh.inv.pend, hs.fresh.inv.eofCommit, hs.fresh.inv.eofDepth, hs.fresh.inv.liveOk⟩ A X hs.benign hX).1
    v s1 c h2 ⟨by omega, by omega⟩
  exact ⟨_, h6, h3.pos, h3.over.rest, List.suffix_append _ _⟩

/-! ### Examples -/

/-- The eleven bytes of `exBytes` arrive one by one, with an interruption; asking for the twelfth would fail. -/
example : ∃ s', (deserialize exEnv (.named 0) .default).run
    (onSched ((.interrupted :: List.replicate 11 (.short 0)) ++ [.fail]) (Stream.fromSlice (exBytes ++ [65])), .zero) = .ok exValue (s', ⟨3, 1⟩) ∧
      s'.pos = 11 ∧ s'.inner.rest = [65] ∧ [.fail] <:+ s'.inner.sched := by
  have h := over_fromSlice (exBytes ++ [65]) (by decide)
  obtain ⟨s', h1, h2, h3, h4⟩ := c63_message exEnv (.named 0) .default exTree exBytes [65] exMessage _ _ exAccepts (Stream.fromSlice (exBytes ++ [65]))
    (.interrupted :: List.replicate 11 (.short 0)) [.fail]
    ⟨⟨h.fresh.pos, h.fresh.eof, h.fresh.commit, h.fresh.live⟩, by unfold onSched Benign; decide, h.within, h.rest, h.room⟩ (by decide) (by decide) (by decide) (by decide)
  exact ⟨s', h1, h2, h3, h4⟩

/-- With one byte less the failure is met. -/
example : ∃ st, (deserialize exEnv (.named 0) .default).run
    (onSched ((.interrupted :: List.replicate 10 (.short 0)) ++ [.fail]) (Stream.fromSlice (exBytes ++ [65])), .zero) = .err (.client ⟨.stream (.io .device), []⟩) st :=
  errOf_some (by decide +kernel)

/-- A wrong message is refused before more is asked for. -/
example : ∃ st, (deserialize exEnv (.tuple [.named 0, .prim .bool]) .default).run
    (onSched (List.replicate 11 (.short 0) ++ [.fail]) (Stream.fromSlice (badBytes ++ [65])), .zero) = .err (.client ⟨.invalidValue, [("field_0", 1), ("b", 4)]⟩) st := by
  obtain ⟨st, h⟩ := badError
  obtain ⟨s2, h1, -⟩ := c63_refused exEnv exEnv_ok exEnv_wf _ (by decide) .default _ badBytes badLocated.message (Stream.fromSlice badBytes) (over_fromSlice _ (by decide)) (by decide)
    _ st.1 st.2 h (List.replicate 11 (.short 0)) [.fail] (.replicate _ _) (by decide) (by decide) [65] (by decide)
  exact ⟨_, h1⟩

end Props
end Fourleaf
