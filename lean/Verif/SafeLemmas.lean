import Verif.IoLemmas
import Verif.WireLemmas
import Verif.PropsWire

/-! # Invariants of the reading side, for arbitrary input and arbitrary schedules -/

namespace Fourleaf

/-- Invariant of a stream that is only read. -/
structure Inv (s : Stream) : Prop where
  pos_le : s.pos ≤ U64MAX
  pend : s.commit = none ∨ (s.commit = some .skipBlob ∧ s.pos ≤ s.blobEnd ∧ s.blobEnd ≤ U64MAX)
  eofCommit : s.eof = true → s.commit = none
  eofDepth : s.eof = true → s.depth = 0
  liveOk : s.live = true → s.commit = some .skipBlob ∧ s.inner.pos ≤ s.inner.data.length

theorem Inv.notLive {s : Stream} (h : Inv s) (hc : s.commit = none) : s.live = false := by
  cases hl : s.live with
  | false => rfl
  | true => have := (h.liveOk hl).1; rw [hc] at this; cases this

/-- The offset in the underlying stream at which the next descriptor is expected: the current
offset, plus what is left of a pending blob. -/
def vpos (s : Stream) : Nat :=
  s.inner.pos + (if s.commit = some .skipBlob then s.blobEnd - s.pos else 0)

/-- What no reading operation changes, and how the two positions move together. -/
structure Frame (s s' : Stream) : Prop where
  data : s'.inner.data = s.inner.data
  seekable : s'.inner.seekable = s.inner.seekable
  graceful : s'.graceful = s.graceful
  useSeek : s'.useSeek = s.useSeek
  off : s'.pos + s.inner.pos = s.pos + s'.inner.pos
  sched : s'.inner.sched <:+ s.inner.sched

theorem Frame.refl (s : Stream) : Frame s s := ⟨rfl, rfl, rfl, rfl, rfl, List.suffix_refl _⟩
theorem Frame.trans {a b c : Stream} (h : Frame a b) (h' : Frame b c) : Frame a c :=
  ⟨h'.data.trans h.data, h'.seekable.trans h.seekable, h'.graceful.trans h.graceful,
    h'.useSeek.trans h.useSeek, by have := h.off; have := h'.off; omega, h'.sched.trans h.sched⟩

/-- Effect of a reading operation, successful or not. -/
structure Step (s s' : Stream) : Prop where
  inv : Inv s'
  frame : Frame s s'
  mono : vpos s ≤ vpos s'
  eof : s'.eof = true → s.eof = true ∨ vpos s < s.inner.data.length ∨ s.graceful = true

theorem Step.refl {s : Stream} (h : Inv s) : Step s s :=
  ⟨h, Frame.refl s, Nat.le_refl _, fun h => .inl h⟩

theorem Step.trans {a b c : Stream} (h : Step a b) (h' : Step b c) : Step a c := by
  refine ⟨h'.inv, h.frame.trans h'.frame, Nat.le_trans h.mono h'.mono, fun he => ?_⟩
  rcases h'.eof he with h1 | h1 | h1
  · exact h.eof h1
  · right; left
    have := h.mono; rw [h.frame.data] at h1; omega
  · right; right; rw [← h.frame.graceful]; exact h1

/-- The outcome `r` of an operation on `s` keeps the invariants and is neither a panic nor a hang. -/
structure SafeRes {α : Type} (s : Stream) (r : Res Err Stream α) : Prop where
  step : Step s r.state
  normal : ∀ e s', r = .err e s' → e.abnormal = false

theorem SafeRes.ok {α : Type} {s s' : Stream} {a : α} (h : Step s s') :
    SafeRes s (.ok a s' : Res Err Stream α) := ⟨h, by intro e s' h; cases h⟩
theorem SafeRes.err {α : Type} {s s' : Stream} {e : Err} (h : Step s s') (he : e.abnormal = false) :
    SafeRes s (.err e s' : Res Err Stream α) := ⟨h, by intro e s' h; cases h; exact he⟩

theorem SafeRes.bind {α β : Type} {s : Stream} {m : M Err Stream α} {f : α → M Err Stream β}
    (h : SafeRes s (m s)) (hf : ∀ a s', m s = .ok a s' → Step s s' → SafeRes s' (f a s')) :
    SafeRes s ((m >>= f) s) := by
  rw [M.bind_apply]
  cases hm : m s with
  | ok a s' =>
    rw [hm] at h
    have h1 := hf a s' hm h.step
    exact ⟨h.step.trans h1.step, h1.normal⟩
  | err e s' =>
    rw [hm] at h
    exact ⟨h.step, by intro e' s'' h'; cases h'; exact h.normal _ _ rfl⟩

theorem SafeRes.trans {α : Type} {s s' : Stream} {r : Res Err Stream α} (h : Step s s') (h' : SafeRes s' r) :
    SafeRes s r := ⟨h.trans h'.step, h'.normal⟩

theorem step_advBy {s : Stream} (hi : Inv s) (hc : s.commit = none) {k : Nat} {sc : List Ev}
    (hk : s.pos + k ≤ U64MAX) (hs : sc <:+ s.inner.sched) : Step s (advBy s k sc) := by
  refine ⟨⟨hk, .inl hc, fun _ => hc, hi.eofDepth, fun h => by simp [hi.notLive hc] at h⟩, ⟨rfl, rfl, rfl, rfl, ?_, hs⟩, ?_, fun h => .inl h⟩
  · simp; omega
  · simp [vpos, hc]

theorem step_advBy_blob {s : Stream} (hi : Inv s) (hc : s.commit = some .skipBlob) {k : Nat} {sc : List Ev}
    (hk : s.pos + k ≤ s.blobEnd) (hs : sc <:+ s.inner.sched) (hr : k ≤ s.rest.length) : Step s (advBy s k sc) := by
  have hp := hi.pend
  rw [hc] at hp
  simp at hp
  refine ⟨⟨by simp; omega, .inr ⟨hc, hk, hp.2⟩, ?_, ?_, fun h => ⟨hc, ?_⟩⟩, ⟨rfl, rfl, rfl, rfl, ?_, hs⟩, ?_, fun h => .inl h⟩
  · intro he; have := hi.eofCommit he; rw [hc] at this; cases this
  · exact hi.eofDepth
  · have := (hi.liveOk h).2; rw [rest_length] at hr; simp; omega
  · simp; omega
  · simp [vpos, hc]; omega

theorem step_advBy_dead {s : Stream} (hi : Inv s) (hc : s.commit = some .skipBlob) {k : Nat} {sc : List Ev}
    (hk : s.pos + k ≤ s.blobEnd) (hs : sc <:+ s.inner.sched) : Step s { advBy s k sc with live := false } := by
  have hp := hi.pend
  rw [hc] at hp
  simp at hp
  refine ⟨⟨by simp; omega, .inr ⟨hc, hk, hp.2⟩, ?_, ?_, fun h => by simp at h⟩, ⟨rfl, rfl, rfl, rfl, ?_, hs⟩, ?_, fun h => .inl h⟩
  · intro he; have := hi.eofCommit he; rw [hc] at this; cases this
  · exact hi.eofDepth
  · simp; omega
  · simp [vpos, hc]; omega

/-- Reading a byte: outcome for a stream without pending work. -/
theorem readByte_safe {s : Stream} (g : Bool) (hi : Inv s) (hc : s.commit = none) :
    SafeRes s (readByte g s) := by
  rcases readByte_spec g s with ⟨h1, sc, h2, h3⟩ | ⟨h1, sc, h2, h3⟩
  · rw [h3]; exact .err (step_advBy hi hc (by have := hi.pos_le; omega) h2) rfl
  · rcases h3 with ⟨b, l, -, h3⟩ | ⟨-, -, -, h3⟩ | ⟨-, -, h3⟩ | ⟨-, h3⟩
    · rw [h3]; exact .ok (step_advBy hi hc (by omega) h2)
    · rw [h3]; exact .ok (step_advBy hi hc (by omega) h2)
    · rw [h3]; exact .err (step_advBy hi hc (by omega) h2) rfl
    · rw [h3]; exact .err (step_advBy hi hc (by omega) h2) rfl

/-- The state after reading some bytes is an advance of the old one. -/
def IsAdv (s s' : Stream) : Prop :=
  ∃ k sc, s' = advBy s k sc ∧ s.pos + k ≤ U64MAX ∧ sc <:+ s.inner.sched ∧ k ≤ s.rest.length

theorem IsAdv.refl {s : Stream} (hi : Inv s) : IsAdv s s :=
  ⟨0, s.inner.sched, rfl, hi.pos_le, List.suffix_refl _, Nat.zero_le _⟩

theorem IsAdv.trans {a b c : Stream} (h : IsAdv a b) (h' : IsAdv b c) : IsAdv a c := by
  obtain ⟨k, sc, rfl, h1, h2, h3⟩ := h
  obtain ⟨k', sc', rfl, h4, h5, h6⟩ := h'
  refine ⟨k + k', sc', by simp, ?_, h5.trans h2, ?_⟩
  · simp at h4; omega
  · rw [advBy_rest] at h6; simp at h6; omega

theorem IsAdv.step {s s' : Stream} (h : IsAdv s s') (hi : Inv s) (hc : s.commit = none) : Step s s' := by
  obtain ⟨k, sc, rfl, h1, h2, -⟩ := h
  exact step_advBy hi hc h1 h2

theorem IsAdv.within {s s' : Stream} (h : IsAdv s s') (hl : s.inner.pos ≤ s.inner.data.length) :
    s'.inner.pos ≤ s'.inner.data.length := by
  obtain ⟨k, sc, rfl, -, -, h3⟩ := h
  rw [rest_length] at h3; simp; omega

theorem IsAdv.commit {s s' : Stream} (h : IsAdv s s') : s'.commit = s.commit := by
  obtain ⟨k, sc, rfl, _⟩ := h; rfl
theorem IsAdv.eof {s s' : Stream} (h : IsAdv s s') : s'.eof = s.eof := by
  obtain ⟨k, sc, rfl, _⟩ := h; rfl
theorem IsAdv.depth {s s' : Stream} (h : IsAdv s s') : s'.depth = s.depth := by
  obtain ⟨k, sc, rfl, _⟩ := h; rfl
theorem IsAdv.blobEnd {s s' : Stream} (h : IsAdv s s') : s'.blobEnd = s.blobEnd := by
  obtain ⟨k, sc, rfl, _⟩ := h; rfl

theorem readByte_adv {s : Stream} (g : Bool) (hi : Inv s) : IsAdv s (readByte g s).state := by
  rcases readByte_spec g s with ⟨h1, sc, h2, h3⟩ | ⟨h1, sc, h2, h3⟩
  · rw [h3]; exact ⟨0, sc, rfl, by have := hi.pos_le; omega, h2, by omega⟩
  · rcases h3 with ⟨b, l, hr, h3⟩ | ⟨-, -, -, h3⟩ | ⟨-, -, h3⟩ | ⟨-, h3⟩
    · rw [h3]; exact ⟨1, sc, rfl, by omega, h2, by rw [hr]; simp⟩
    all_goals rw [h3]; exact ⟨0, sc, rfl, by omega, h2, by omega⟩

theorem decodeLoop_adv : ∀ (fuel k : Nat) (a : UInt64) (s : Stream), Inv s → s.commit = none →
    k + fuel = 258 → k ≤ 256 → a.toNat < 2 ^ (7 * k) →
    IsAdv s (decodeLoop (readByte false) fuel a (7 * k) s).state ∧
    (∀ e s', decodeLoop (readByte false) fuel a (7 * k) s = .err e s' → e.abnormal = false) := by
  intro fuel
  induction fuel with
  | zero => intro k a s _ _ h1 h2; omega
  | succ fuel ih =>
    intro k a s hi hc hf hk ha
    have hA := readByte_adv false hi
    have hS := readByte_safe false hi hc
    cases hr : readByte false s with
    | err e s' =>
      rw [hr] at hA hS
      rw [decodeLoop, M.bind_err hr]
      exact ⟨hA, by intro e' s'' h; cases h; exact hS.normal _ _ rfl⟩
    | ok b s' =>
      rw [hr] at hA hS
      rw [decodeLoop_step _ _ _ _ _ _ _ hr ha]
      split
      · exact ⟨hA, by intro e' s'' h; cases h; rfl⟩
      · rename_i hov
        split
        · exact ⟨hA, by intro e' s'' h; cases h⟩
        · split
          · exact ⟨hA, by intro e' s'' h; cases h; rfl⟩
          · have hn : (UInt64.ofNat (a.toNat + b.toNat % 128 * 2 ^ (7 * k))).toNat =
                a.toNat + b.toNat % 128 * 2 ^ (7 * k) := by
              simp only [UInt64.toNat_ofNat']
              exact Nat.mod_eq_of_lt (by omega)
            have ha' : (UInt64.ofNat (a.toNat + b.toNat % 128 * 2 ^ (7 * k))).toNat < 2 ^ (7 * (k + 1)) := by
              rw [hn, Nat.mul_add 7 k 1, Nat.pow_add]
              have : (2:Nat) ^ (7 * 1) = 128 := by decide
              rw [this]
              have h1 : b.toNat % 128 ≤ 127 := by omega
              have h2 := Nat.mul_le_mul_right (2 ^ (7 * k)) h1
              omega
            have hA' := hA
            have := ih (k + 1) _ s' hS.step.inv (hA.commit.trans hc) (by omega) (by omega) ha'
            rw [show 7 * k + 7 = 7 * (k + 1) by omega]
            exact ⟨hA'.trans this.1, this.2⟩

theorem decodeU64_adv {s : Stream} (hi : Inv s) (hc : s.commit = none) :
    IsAdv s (decodeU64 (readByte false) s).state ∧
    (∀ e s', decodeU64 (readByte false) s = .err e s' → e.abnormal = false) :=
  decodeLoop_adv 258 0 0 s hi hc (by decide) (by decide) (by simp)

theorem decodeU64_safe {s : Stream} (hi : Inv s) (hc : s.commit = none) :
    SafeRes s (decodeU64 (readByte false) s) :=
  ⟨(decodeU64_adv hi hc).1.step hi hc, (decodeU64_adv hi hc).2⟩

/-! ### Skipping a pending blob -/

/-- Outcomes of trying to skip `n` bytes. -/
def Skipped (s : Stream) (n : Nat) (r : Res Err Stream Nat) : Prop :=
  ∃ k sc, k ≤ n ∧ sc <:+ s.inner.sched ∧
    ((r = .ok k (advBy s k sc) ∧ (k < n → s.rest.length = k)) ∨
     (¬ Benign s.inner.sched ∧ r = .err (.io .device) (advBy s k sc)))

theorem skipByDiscard_spec {s : Stream} (n : Nat) (hp : n ≤ U64MAX - s.pos) :
    Skipped s n (skipByDiscard n s) := by
  obtain ⟨k, sc, h1, h2, h3, h4⟩ := drain_track_spec n s hp
  refine ⟨k, sc, h1, h3, ?_⟩
  rcases h4 with ⟨h4, h5⟩ | ⟨h4, h5⟩
  · left
    unfold skipByDiscard
    rw [M.bind_ok h5]
    refine ⟨?_, by omega⟩
    simp; omega
  · right
    unfold skipByDiscard
    rw [M.bind_err h5]
    exact ⟨h4, rfl⟩

/-- A seek on the underlying stream: either it works, or nothing changes (up to the schedule). -/
theorem innerSeek_cases (w : SeekFrom) (s : Stream) :
    (s.inner.seekable = true ∧ 0 ≤ w.target s.inner ∧ w.target s.inner ≤ U64MAX ∧ s.inner.sched.head? ≠ some .noSeek ∧
      innerSeek w s = .ok (w.target s.inner).toNat { s with inner := { s.inner with pos := (w.target s.inner).toNat } }) ∨
    (s.inner.seekable = true ∧ ¬ (0 ≤ w.target s.inner ∧ w.target s.inner ≤ U64MAX) ∧ s.inner.sched.head? ≠ some .noSeek ∧
      innerSeek w s = .err (.io .invalidInput) s) ∨
    (s.inner.seekable = true ∧ s.inner.sched.head? = some .noSeek ∧ innerSeek w s = .err (.io .device) (advBy s 0 s.inner.sched.tail)) ∨
    (s.inner.seekable = false ∧ innerSeek w s = .err (.io .other) s) := by
  unfold innerSeek Inner.seek
  cases h1 : s.inner.seekable with
  | false => exact .inr (.inr (.inr ⟨rfl, by simp⟩))
  | true =>
    simp only [if_true]
    by_cases hs : s.inner.sched.head? = some .noSeek
    · rw [if_pos hs]
      exact .inr (.inr (.inl ⟨trivial, hs, by unfold advBy; simp [h1]⟩))
    · rw [if_neg hs]
      by_cases h2 : 0 ≤ w.target s.inner ∧ w.target s.inner ≤ U64MAX
      · exact .inl ⟨trivial, h2.1, h2.2, hs, by simp [h2, h1]⟩
      · exact .inr (.inl ⟨trivial, h2, hs, by simp only [if_neg h2]⟩)

theorem not_benign_noSeek {sc : List Ev} (h : sc.head? = some .noSeek) : ¬ Benign sc := fun h' => h'.seek h

/-- Seeking forward on the underlying stream: either it works, or nothing changes (up to the schedule). -/
theorem innerSeek_forward (s : Stream) (n : Nat) :
    (s.inner.seekable = true ∧ s.inner.pos + n ≤ U64MAX ∧ s.inner.sched.head? ≠ some .noSeek ∧
      innerSeek (.current n) s = .ok (s.inner.pos + n) { s with inner := { s.inner with pos := s.inner.pos + n } }) ∨
    (¬ (s.inner.seekable = true ∧ s.inner.pos + n ≤ U64MAX ∧ s.inner.sched.head? ≠ some .noSeek) ∧
      ∃ e sc, (sc = s.inner.sched ∨ s.inner.seekable = true ∧ s.inner.sched.head? = some .noSeek ∧ sc = s.inner.sched.tail) ∧
        innerSeek (.current n) s = .err e (advBy s 0 sc)) := by
  have ht : SeekFrom.target (.current n) s.inner = ((s.inner.pos + n : Nat) : Int) := by simp [SeekFrom.target]
  rcases innerSeek_cases (.current n) s with ⟨h1, -, h3, h4, h5⟩ | ⟨h1, h2, h3, h4⟩ | ⟨h1, h2, h3⟩ | ⟨h1, h2⟩
  · rw [ht] at h3 h5
    exact .inl ⟨h1, by omega, h4, h5⟩
  · rw [ht] at h2
    exact .inr ⟨fun h => h2 (by omega), _, _, .inl rfl, h4⟩
  · exact .inr ⟨fun h => h.2.2 h2, _, _, .inr ⟨h1, h2, rfl⟩, h3⟩
  · exact .inr ⟨fun h => by rw [h1] at h; simp at h, _, _, .inl rfl, h2⟩

theorem innerSeek_forward' (s : Stream) (n : Nat) :
    (s.inner.seekable = true ∧ s.inner.sched.head? = some .noSeek ∧ innerSeek (.current n) s = .err (.io .device) (advBy s 0 s.inner.sched.tail)) ∨
    (¬ (s.inner.seekable = true ∧ s.inner.sched.head? = some .noSeek) ∧ s.inner.seekable = true ∧ s.inner.pos + n ≤ U64MAX ∧
      innerSeek (.current n) s = .ok (s.inner.pos + n) { s with inner := { s.inner with pos := s.inner.pos + n } }) ∨
    (¬ (s.inner.seekable = true ∧ s.inner.sched.head? = some .noSeek) ∧ ¬ (s.inner.seekable = true ∧ s.inner.pos + n ≤ U64MAX) ∧ ∃ e, innerSeek (.current n) s = .err e s) := by
  have ht : SeekFrom.target (.current n) s.inner = ((s.inner.pos + n : Nat) : Int) := by simp [SeekFrom.target]
  rcases innerSeek_cases (.current n) s with ⟨h1, -, h3, h4, h5⟩ | ⟨h1, h2, h3, h4⟩ | ⟨h1, h2, h3⟩ | ⟨h1, h2⟩
  · rw [ht] at h3 h5
    exact .inr (.inl ⟨fun h => h4 h.2, h1, by omega, h5⟩)
  · rw [ht] at h2
    exact .inr (.inr ⟨fun h => h3 h.2, fun h => h2 (by omega), _, h4⟩)
  · exact .inl ⟨h1, h2, h3⟩
  · exact .inr (.inr ⟨fun h => (by rw [h1] at h; simp at h), fun h => (by rw [h1] at h; simp at h), _, h2⟩)

theorem tail_or_suffix {P : Prop} {sc sc' : List Ev} (h : sc' = sc ∨ P ∧ sc.head? = some .noSeek ∧ sc' = sc.tail) : sc' <:+ sc := by
  rcases h with rfl | ⟨-, -, rfl⟩
  · exact List.suffix_refl _
  · exact List.tail_suffix _

theorem skipSeekDirect_spec {s : Stream} (n : Nat) (hp : n ≤ U64MAX - s.pos) :
    Skipped s n (skipSeekDirect n s) := by
  unfold skipSeekDirect
  rw [if_neg (by omega)]
  rcases innerSeek_forward s n with ⟨-, -, -, h⟩ | ⟨-, e, sc, hs, h⟩
  · rw [h]
    exact ⟨n, s.inner.sched, Nat.le_refl _, List.suffix_refl _, .inl ⟨rfl, by omega⟩⟩
  · rw [h]
    obtain ⟨k, sc', h1, h2, h3⟩ := skipByDiscard_spec (s := advBy s 0 sc) n (by simpa using hp)
    have hs' := tail_or_suffix hs
    refine ⟨k, sc', h1, h2.trans hs', ?_⟩
    rw [advBy_advBy, Nat.zero_add, advBy_rest, List.drop_zero, advBy_sched] at h3
    exact h3.imp_right fun h => ⟨fun hb => h.1 (hb.suffix hs'), h.2⟩

theorem skipBySeek_spec : ∀ (fuel n : Nat) (s : Stream), n ≤ U64MAX - s.pos → n < fuel * I64MAX →
    ∃ k sc, k ≤ n ∧ sc <:+ s.inner.sched ∧
    ((skipBySeek fuel n s = .ok k (advBy s k sc) ∧ (k < n → s.rest.length ≤ k)) ∨
     (¬ Benign s.inner.sched ∧ skipBySeek fuel n s = .err (.io .device) (advBy s k sc))) := by
  intro fuel
  induction fuel with
  | zero => intro n s _ h; omega
  | succ fuel ih =>
    intro n s hp hf
    rw [skipBySeek]
    by_cases hn : n > I64MAX
    · rw [if_pos hn]
      obtain ⟨k, sc, h1, h2, h3⟩ := skipSeekDirect_spec (s := s) I64MAX (by omega)
      rcases h3 with ⟨h3, h4⟩ | ⟨h3, h4⟩
      · rw [M.bind_ok h3]
        by_cases hk : k < I64MAX
        · rw [if_pos hk]
          exact ⟨k, sc, by omega, h2, .inl ⟨rfl, fun _ => by rw [h4 hk]; exact Nat.le_refl _⟩⟩
        · rw [if_neg hk]
          have hk' : k = I64MAX := by omega
          subst hk'
          obtain ⟨k', sc', h6, h7, h8⟩ := ih (n - I64MAX) (advBy s I64MAX sc) (by simp; omega)
            (by rw [Nat.add_mul] at hf; omega)
          rcases h8 with ⟨h8, h9⟩ | ⟨h8, h9⟩
          · rw [M.bind_ok h8]
            refine ⟨I64MAX + k', sc', by omega, h7.trans h2, .inl ⟨by simp, fun hlt => ?_⟩⟩
            have := h9 (by omega)
            rw [advBy_rest] at this
            simp at this; omega
          · rw [M.bind_err h9]
            exact ⟨I64MAX + k', sc', by omega, h7.trans h2,
              .inr ⟨fun hb => h8 (hb.suffix h2), by simp⟩⟩
      · rw [M.bind_err h4]
        exact ⟨k, sc, by omega, h2, .inr ⟨h3, rfl⟩⟩
    · rw [if_neg hn]
      obtain ⟨k, sc, h1, h2, h3⟩ := skipSeekDirect_spec (s := s) n hp
      rcases h3 with ⟨h3, h4⟩ | ⟨h3, h4⟩
      · exact ⟨k, sc, h1, h2, .inl ⟨h3, fun h => by rw [h4 h]; exact Nat.le_refl _⟩⟩
      · exact ⟨k, sc, h1, h2, .inr ⟨h3, h4⟩⟩

/-- Outcomes of `skip_blob` with a pending blob. -/
theorem skipBlob_spec {s : Stream} (hp : s.pos ≤ s.blobEnd) (he : s.blobEnd ≤ U64MAX) :
    ∃ k sc, k ≤ s.blobEnd - s.pos ∧ sc <:+ s.inner.sched ∧
    ((k = s.blobEnd - s.pos ∧ skipBlob s = .ok () (advBy s k sc)) ∨
     (k < s.blobEnd - s.pos ∧ s.rest.length ≤ k ∧
        skipBlob s = .err (.truncatedBlob (s.blobEnd - s.pos - k)) (advBy s k sc)) ∨
     (¬ Benign s.inner.sched ∧ skipBlob s = .err (.io .device) (advBy s k sc))) := by
  unfold skipBlob
  by_cases h : s.blobEnd > s.pos
  · rw [if_pos h]
    dsimp only
    have key : ∃ k sc, k ≤ s.blobEnd - s.pos ∧ sc <:+ s.inner.sched ∧
      (((if s.useSeek = true then skipBySeek 4 (s.blobEnd - s.pos) else skipByDiscard (s.blobEnd - s.pos)) s
          = .ok k (advBy s k sc) ∧ (k < s.blobEnd - s.pos → s.rest.length ≤ k)) ∨
       (¬ Benign s.inner.sched ∧
        (if s.useSeek = true then skipBySeek 4 (s.blobEnd - s.pos) else skipByDiscard (s.blobEnd - s.pos)) s
          = .err (.io .device) (advBy s k sc))) := by
      by_cases hu : s.useSeek = true
      · simp only [hu, if_true]
        exact skipBySeek_spec 4 _ s (by omega) (by unfold U64MAX at he; unfold I64MAX; omega)
      · simp only [hu]
        obtain ⟨k, sc, h1, h2, h3⟩ := skipByDiscard_spec (s := s) (s.blobEnd - s.pos) (by omega)
        refine ⟨k, sc, h1, h2, ?_⟩
        rcases h3 with ⟨h3, h4⟩ | ⟨h3, h4⟩
        · exact .inl ⟨h3, fun h => by rw [h4 h]; exact Nat.le_refl _⟩
        · exact .inr ⟨h3, h4⟩
    obtain ⟨k, sc, h1, h2, h3⟩ := key
    refine ⟨k, sc, h1, h2, ?_⟩
    rcases h3 with ⟨h3, h4⟩ | ⟨h3, h4⟩
    · rw [h3]
      dsimp only
      by_cases hk : k < s.blobEnd - s.pos
      · rw [if_pos hk]; exact .inr (.inl ⟨hk, h4 hk, rfl⟩)
      · rw [if_neg hk]; exact .inl ⟨by omega, rfl⟩
    · rw [h4]; exact .inr (.inr ⟨h3, rfl⟩)
  · rw [if_neg h]
    exact ⟨0, s.inner.sched, by omega, List.suffix_refl _, .inl ⟨by omega, rfl⟩⟩

/-- Outcomes of `commit` on a read stream. -/
theorem commit_safe {s : Stream} (hi : Inv s) :
    SafeRes s (commit s) ∧ (∀ u s', commit s = .ok u s' → s'.commit = none ∧ s'.eof = s.eof ∧
      s'.depth = s.depth ∧ vpos s' = vpos s) := by
  rcases hi.pend with hc | ⟨hc, hp, he⟩
  · have : commit s = .ok () s := by simp [commit, hc]
    rw [this]
    exact ⟨.ok (.refl hi), by intro u s' h; cases h; exact ⟨hc, rfl, rfl, rfl⟩⟩
  · obtain ⟨k, sc, h1, h2, h3⟩ := skipBlob_spec hp he
    have hne : s.eof ≠ true := by intro h; have := hi.eofCommit h; rw [hc] at this; cases this
    rcases h3 with ⟨h3, h4⟩ | ⟨h3, -, h4⟩ | ⟨-, h4⟩
    · have : commit s = .ok () { advBy s k sc with commit := none, live := false } := by simp [commit, hc, h4]
      rw [this]
      have hv : vpos { advBy s k sc with commit := none, live := false } = vpos s := by
        simp [vpos, hc]; omega
      refine ⟨.ok ⟨⟨by simp; omega, .inl rfl, fun _ => rfl, hi.eofDepth, fun h => by simp at h⟩, ⟨rfl, rfl, rfl, rfl, by simp; omega, h2⟩, ?_, fun h => .inl h⟩, ?_⟩
      · rw [hv]; exact Nat.le_refl _
      · intro u s' h; cases h; exact ⟨rfl, rfl, rfl, hv⟩
    · have : commit s = .err (.truncatedBlob (s.blobEnd - s.pos - k)) { advBy s k sc with live := false } := by
        simp [commit, hc, h4]
      rw [this]
      exact ⟨.err (step_advBy_dead hi hc (by omega) h2) rfl, by intro u s' h; cases h⟩
    · have : commit s = .err (.io .device) { advBy s k sc with live := false } := by simp [commit, hc, h4]
      rw [this]
      exact ⟨.err (step_advBy_dead hi hc (by omega) h2) rfl, by intro u s' h; cases h⟩

/-! ### Elements -/

theorem checkAdvance_eq (n : Nat) (s : Stream) :
    checkAdvance n s = if U64MAX - s.pos < n then .err posOverflow s else .ok () s := rfl

theorem nextBlob_safe {s : Stream} (hi : Inv s) (hc : s.commit = none) (he : s.eof = false)
    (hl : s.inner.pos ≤ s.inner.data.length) :
    SafeRes s (nextBlob s) ∧ (∀ n s', nextBlob s = .ok n s' → vpos s ≤ vpos s') := by
  have hS := decodeU64_safe hi hc
  have hA := (decodeU64_adv hi hc).1
  unfold nextBlob
  cases hr : decodeU64 (readByte false) s with
  | err e s' =>
    rw [hr] at hS
    rw [M.bind_err hr]
    exact ⟨⟨hS.step, by intro e' s'' h; cases h; exact hS.normal _ _ rfl⟩, by intro n s' h; cases h⟩
  | ok len s' =>
    rw [hr] at hS hA
    have hst := hS.step
    simp only [Res.state_ok] at hst hA
    have hi' := hst.inv
    have hc' : s'.commit = none := hA.commit.trans hc
    have he' : s'.eof = false := hA.eof.trans he
    rw [M.bind_ok hr]
    by_cases hlt : U64MAX - s'.pos < len.toNat
    · have hch : checkAdvance len.toNat s' = .err posOverflow s' := by rw [checkAdvance_eq, if_pos hlt]
      rw [M.bind_err hch]
      exact ⟨.err hst rfl, by intro n s'' h; cases h⟩
    · have hch : checkAdvance len.toNat s' = .ok () s' := by rw [checkAdvance_eq, if_neg hlt]
      rw [M.bind_ok hch, M.bind_ok (M.modify_apply _ _), M.pure_apply]
      have hpl := hi'.pos_le
      have hstep2 : Step s' { s' with blobEnd := s'.pos + len.toNat, commit := some .skipBlob, live := true } := by
        refine ⟨⟨hpl, .inr ⟨rfl, by simp, by simp; omega⟩, ?_, hi'.eofDepth, fun _ => ⟨rfl, hA.within hl⟩⟩,
          ⟨rfl, rfl, rfl, rfl, rfl, List.suffix_refl _⟩, ?_, fun h => .inl h⟩
        · intro h; simp [he'] at h
        · simp [vpos, hc']
      have h12 := hst.trans hstep2
      exact ⟨.ok h12, by intro n s'' h; cases h; exact h12.mono⟩

theorem step_setDepth {s : Stream} (hi : Inv s) (he : s.eof = false) (d : Nat) :
    Step s { s with depth := d } :=
  ⟨⟨hi.pos_le, hi.pend, hi.eofCommit, fun h => by simp [he] at h, hi.liveOk⟩,
    ⟨rfl, rfl, rfl, rfl, rfl, List.suffix_refl _⟩, Nat.le_refl _, fun h => .inl h⟩

theorem nextValue_safe {s : Stream} (ty : DescTy) (hi : Inv s) (hc : s.commit = none) (he : s.eof = false)
    (hl : s.inner.pos ≤ s.inner.data.length) :
    SafeRes s (nextValue ty s) ∧
    (∀ v s', nextValue ty s = .ok v s' → s'.eof = false) := by
  cases ty with
  | integer =>
    simp only [nextValue]
    have hA := (decodeU64_adv hi hc).1
    refine ⟨(decodeU64_safe hi hc).bind fun n s' h hst => .ok (.refl hst.inv), ?_⟩
    intro v s' h
    cases hr : decodeU64 (readByte false) s with
    | err e s'' => rw [M.bind_err hr] at h; cases h
    | ok n s'' =>
      rw [hr] at hA; rw [M.bind_ok hr] at h; cases h
      exact hA.eof.trans he
  | blob =>
    simp only [nextValue]
    refine ⟨(nextBlob_safe hi hc he hl).1.bind fun n s' h hst => .ok (.refl hst.inv), ?_⟩
    intro v s' h
    have hb : ∀ n s', nextBlob s = .ok n s' → s'.eof = false := by
      intro n s' h
      have hA := (decodeU64_adv hi hc).1
      unfold nextBlob at h
      cases hr : decodeU64 (readByte false) s with
      | err e s'' => rw [M.bind_err hr] at h; cases h
      | ok len s'' =>
        rw [hr] at hA
        rw [M.bind_ok hr] at h
        by_cases hlt : U64MAX - s''.pos < len.toNat
        · have hch : checkAdvance len.toNat s'' = .err posOverflow s'' := by rw [checkAdvance_eq, if_pos hlt]
          rw [M.bind_err hch] at h; cases h
        · have hch : checkAdvance len.toNat s'' = .ok () s'' := by rw [checkAdvance_eq, if_neg hlt]
          rw [M.bind_ok hch, M.bind_ok (M.modify_apply _ _), M.pure_apply] at h
          cases h
          exact hA.eof.trans he
    cases hr : nextBlob s with
    | err e s'' => rw [M.bind_err hr] at h; cases h
    | ok n s'' => rw [M.bind_ok hr] at h; cases h; exact hb _ _ hr
  | struct =>
    simp only [nextValue]
    rw [M.bind_ok (M.modify_apply _ _), M.pure_apply]
    exact ⟨.ok (step_setDepth hi he _), by intro v s' h; cases h; exact he⟩
  | enum =>
    simp only [nextValue]
    have hA := (decodeU64_adv hi hc).1
    constructor
    · refine (decodeU64_safe hi hc).bind fun n s' h hst => ?_
      rw [M.bind_ok (M.modify_apply _ _), M.pure_apply]
      rw [h] at hA
      exact .ok (step_setDepth hst.inv (hA.eof.trans he) _)
    · intro v s' h
      cases hr : decodeU64 (readByte false) s with
      | err e s'' => rw [M.bind_err hr] at h; cases h
      | ok n s'' =>
        rw [hr] at hA; rw [M.bind_ok hr, M.bind_ok (M.modify_apply _ _), M.pure_apply] at h; cases h
        exact hA.eof.trans he

/-- Reading an element: safe, and unless it ends the document it consumes at least one byte. -/
theorem readElement_safe {s : Stream} (hi : Inv s) (hc : s.commit = none) (he : s.eof = false) :
    SafeRes s (readElement s) ∧
    (∀ e s', readElement s = .ok e s' →
      ((e ≠ .endOfDoc → s'.eof = false) ∧ (e = .endOfDoc → s'.eof = true ∧ s'.depth = 0)) ∧
      (s.rest ≠ [] ∨ (s.graceful = true ∧ e = .endOfDoc)) ∧
      (e ≠ .endOfDoc → vpos s < vpos s')) := by
  have hB := readByte_spec true s
  have hS := readByte_safe true hi hc
  have hA := readByte_adv true hi
  unfold readElement
  cases hr : readByte true s with
  | err e s' =>
    rw [hr] at hS
    exact ⟨⟨hS.step, by intro e' s'' h; cases h; exact hS.normal _ _ rfl⟩, by intro e s' h; cases h⟩
  | ok b s' =>
    rw [hr] at hS hA hB
    have hst := hS.step
    simp only [Res.state_ok] at hst hA
    have hi' := hst.inv
    have hc' : s'.commit = none := hA.commit.trans hc
    have he' : s'.eof = false := hA.eof.trans he
    -- either a byte was consumed or we are at a graceful end
    have hB' : (s.rest ≠ [] ∧ vpos s < vpos s') ∨ (s.rest = [] ∧ s.graceful = true ∧ b = 0x40) := by
      rcases hB with ⟨-, sc, -, h⟩ | ⟨-, sc, -, h⟩
      · cases h
      · rcases h with ⟨b', l, h, h'⟩ | ⟨h, h1, h2, h3⟩ | ⟨-, -, h⟩ | ⟨-, h⟩
        · cases h'
          left; exact ⟨by rw [h]; simp, by simp [vpos, hc]⟩
        · cases h3; right; exact ⟨h, h2, rfl⟩
        · cases h
        · cases h
    dsimp only
    obtain ⟨d, hd, -, -⟩ := Props.c07_parse_total b
    rw [hd]
    have hnotgrace : d ≠ .special .endOfDoc → s.rest ≠ [] ∧ vpos s < vpos s' := by
      intro hne
      rcases hB' with h | ⟨-, -, h⟩
      · exact h
      · subst h
        have : Desc.parse 0x40 = some (.special .endOfDoc) := by decide
        rw [this] at hd; cases hd; exact absurd rfl hne
    cases d with
    | pair ty tag =>
      obtain ⟨hne, hlt⟩ := hnotgrace (by intro h; cases h)
      dsimp only
      generalize hs2 : (if s'.depth = 0 then { s' with depth := 1 } else s') = s2
      have hst2 : Step s' s2 := by
        rw [← hs2]; split
        · exact step_setDepth hi' he' 1
        · exact .refl hi'
      have hc2 : s2.commit = none := by rw [← hs2]; split <;> exact hc'
      have he2 : s2.eof = false := by rw [← hs2]; split <;> exact he'
      have hw : s'.inner.pos ≤ s'.inner.data.length :=
        hA.within (by have := mt (rest_nil_iff s).2 hne; omega)
      have hV := nextValue_safe ty hst2.inv hc2 he2 (by rw [← hs2]; split <;> exact hw)
      constructor
      · refine .trans (hst.trans hst2) (hV.1.bind fun v s3 _ hst3 => .ok (.refl hst3.inv))
      · intro e s3 h
        cases hv : nextValue ty s2 with
        | err e' s4 => rw [M.bind_err hv] at h; cases h
        | ok v s4 =>
          rw [M.bind_ok hv, M.pure_apply] at h
          cases h
          have hVs := hV.1.step
          rw [hv] at hVs
          refine ⟨⟨fun _ => hV.2 _ _ hv, fun h => by cases h⟩, .inl hne, fun _ => ?_⟩
          exact Nat.lt_of_lt_of_le hlt (Nat.le_trans hst2.mono hVs.mono)
    | special sp =>
      cases sp with
      | endOfStruct =>
        obtain ⟨hne, hlt⟩ := hnotgrace (by intro h; cases h)
        refine ⟨.ok (hst.trans (step_setDepth hi' he' _)), ?_⟩
        intro e s3 h; cases h
        exact ⟨⟨fun _ => he', fun h => by cases h⟩, .inl hne, fun _ => hlt⟩
      | endOfDoc =>
        dsimp only
        refine ⟨.ok ⟨⟨hi'.pos_le, .inl hc', fun _ => hc', fun _ => rfl, hi'.liveOk⟩, ?_, ?_, ?_⟩, ?_⟩
        · have := hst.frame
          exact ⟨this.data, this.seekable, this.graceful, this.useSeek, this.off, this.sched⟩
        · exact hst.mono
        · intro _
          rcases hB' with ⟨h, -⟩ | ⟨-, h, -⟩
          · right; left
            rw [Ne, rest_nil_iff] at h
            simp [vpos, hc]; omega
          · exact .inr (.inr h)
        · intro e s3 h; cases h
          refine ⟨⟨fun h => absurd rfl h, fun _ => ⟨rfl, rfl⟩⟩, ?_, fun h => absurd rfl h⟩
          rcases hB' with ⟨h, -⟩ | ⟨-, h, -⟩
          · exact .inl h
          · exact .inr ⟨h, rfl⟩
      | exception =>
        obtain ⟨hne, hlt⟩ := hnotgrace (by intro h; cases h)
        dsimp only
        have hw : s'.inner.pos ≤ s'.inner.data.length :=
          hA.within (by have := mt (rest_nil_iff s).2 hne; omega)
        have hN := nextBlob_safe hi' hc' he' hw
        constructor
        · exact .trans hst (hN.1.bind fun v s3 _ hst3 => .ok (.refl hst3.inv))
        · intro e s3 h
          cases hv : nextBlob s' with
          | err e' s4 => rw [M.bind_err hv] at h; cases h
          | ok v s4 =>
            rw [M.bind_ok hv, M.pure_apply] at h
            cases h
            refine ⟨⟨fun _ => ?_, fun h => by cases h⟩, .inl hne, fun _ => Nat.lt_of_lt_of_le hlt (hN.2 _ _ hv)⟩
            have hv2 := (nextValue_safe .blob hi' hc' he' hw).2
            simp only [nextValue] at hv2
            exact hv2 (.blob v) _ (by rw [M.bind_ok hv]; rfl)
      | padding =>
        obtain ⟨hne, hlt⟩ := hnotgrace (by intro h; cases h)
        refine ⟨.ok hst, ?_⟩
        intro e s3 h; cases h
        exact ⟨⟨fun _ => he', fun h => by cases h⟩, .inl hne, fun _ => hlt⟩

/-- After reading a padding element nothing is pending. -/
theorem readElement_padding_commit {s : Stream} (hi : Inv s)
    {s' : Stream} (h : readElement s = .ok .padding s') : IsAdv s s' := by
  have hA := readByte_adv true hi
  unfold readElement at h
  cases hr : readByte true s with
  | err e s2 => rw [hr] at h; cases h
  | ok b s2 =>
    rw [hr] at h hA
    obtain ⟨d, hd, -, -⟩ := Props.c07_parse_total b
    dsimp only at h
    rw [hd] at h
    cases d with
    | pair ty tag =>
      dsimp only at h
      exfalso
      generalize (if s2.depth = 0 then { s2 with depth := 1 } else s2) = s3 at h
      cases hv : nextValue ty s3 with
      | err e' s4 => rw [M.bind_err hv] at h; cases h
      | ok v s4 => rw [M.bind_ok hv] at h; cases h
    | special sp =>
      cases sp with
      | endOfStruct => cases h
      | endOfDoc => cases h
      | exception =>
        exfalso
        dsimp only at h
        cases hv : nextBlob s2 with
        | err e' s4 => rw [M.bind_err hv] at h; cases h
        | ok v s4 => rw [M.bind_ok hv] at h; cases h
      | padding => cases h; exact hA

/-- What a successful pull tells us. -/
structure Pulled (s s' : Stream) (e : Element) : Prop where
  some_eof : e ≠ .endOfDoc → s'.eof = false
  none_eof : e = .endOfDoc → s'.eof = true ∧ s'.depth = 0
  input : vpos s < s.inner.data.length ∨ (s.graceful = true ∧ e = .endOfDoc) ∨ s.eof = true
  prog : e ≠ .endOfDoc → vpos s < vpos s'

theorem skipPadLoop_safe : ∀ (fuel : Nat) (s : Stream), Inv s → s.commit = none → s.eof = false →
    s.inner.data.length - s.inner.pos + 2 ≤ fuel →
    SafeRes s (skipPadLoop fuel s) ∧
    (∀ e s', skipPadLoop fuel s = .ok e s' → e ≠ .padding ∧ Pulled s s' e) := by
  intro fuel
  induction fuel with
  | zero => intro s _ _ _ h; omega
  | succ fuel ih =>
    intro s hi hc he hf
    rw [skipPadLoop]
    have hR := readElement_safe hi hc he
    cases hr : readElement s with
    | err e s' =>
      rw [hr] at hR
      rw [M.bind_err hr]
      exact ⟨⟨hR.1.step, by intro e' s'' h; cases h; exact hR.1.normal _ _ rfl⟩, by intro e s' h; cases h⟩
    | ok e s' =>
      have hst := hR.1.step
      rw [hr] at hst
      simp only [Res.state_ok] at hst
      obtain ⟨h1, h2, h3⟩ := hR.2 e s' hr
      rw [M.bind_ok hr]
      by_cases hpad : e = .padding
      · subst hpad
        rw [if_pos rfl]
        have hadv := readElement_padding_commit hi hr
        have hc' := hadv.commit.trans hc
        have hlt := h3 (by simp)
        have hlen : s.inner.pos < s.inner.data.length := by
          rcases h2 with h2 | ⟨-, h2⟩
          · rw [Ne, rest_nil_iff] at h2; omega
          · cases h2
        have := ih s' hst.inv hc' (hadv.eof.trans he) (by
          simp only [vpos, hc, hc'] at hlt
          rw [hst.frame.data]; simp at hlt; omega)
        refine ⟨.trans hst this.1, fun e s'' h => ?_⟩
        obtain ⟨h4, h5⟩ := this.2 e s'' h
        refine ⟨h4, h5.some_eof, h5.none_eof, ?_, ?_⟩
        · left; simp [vpos, hc]; omega
        · intro hne; exact Nat.lt_trans hlt (h5.prog hne)
      · rw [if_neg hpad]
        refine ⟨.ok hst, fun e' s'' h => ?_⟩
        cases h
        refine ⟨hpad, h1.1, h1.2, ?_, h3⟩
        rcases h2 with h2 | h2
        · left; rw [Ne, rest_nil_iff] at h2; simp [vpos, hc]; omega
        · exact .inr (.inl h2)

theorem nextElementImpl_safe {s : Stream} (sp : Bool) (hi : Inv s) :
    SafeRes s (nextElementImpl sp s) ∧
    (∀ e s', nextElementImpl sp s = .ok e s' → (sp = true → e ≠ .padding) ∧ Pulled s s' e) := by
  unfold nextElementImpl
  by_cases he : s.eof = true
  · rw [if_pos he]
    refine ⟨.ok (.refl hi), fun e s' h => ?_⟩
    cases h
    exact ⟨by simp, by simp, fun _ => ⟨he, hi.eofDepth he⟩, .inr (.inr he), by simp⟩
  · rw [if_neg he]
    have hC := commit_safe hi
    cases hr : commit s with
    | err e s' =>
      rw [hr] at hC
      rw [M.bind_err hr]
      exact ⟨⟨hC.1.step, by intro e' s'' h; cases h; exact hC.1.normal _ _ rfl⟩, by intro e s' h; cases h⟩
    | ok u s' =>
      have hst := hC.1.step
      rw [hr] at hst
      simp only [Res.state_ok] at hst
      obtain ⟨h1, h2, h3, h4⟩ := hC.2 u s' hr
      have he' : s'.eof = false := by rw [h2]; simpa using he
      rw [M.bind_ok hr]
      have lift : ∀ {e s''}, Pulled s' s'' e → Pulled s s'' e := by
        intro e s'' hp
        refine ⟨hp.some_eof, hp.none_eof, ?_, ?_⟩
        · rcases hp.input with h | ⟨h, h'⟩ | h
          · left; rw [h4, hst.frame.data] at h; exact h
          · right; left; exact ⟨by rw [← hst.frame.graceful]; exact h, h'⟩
          · rw [he'] at h; cases h
        · intro hne; rw [← h4]; exact hp.prog hne
      cases sp with
      | true =>
        rw [if_pos rfl, M.bind_ok (M.get_apply _)]
        have := skipPadLoop_safe _ s' hst.inv h1 he' (Nat.le_refl _)
        exact ⟨.trans hst this.1, fun e s'' h => ⟨fun _ => (this.2 e s'' h).1, lift (this.2 e s'' h).2⟩⟩
      | false =>
        rw [if_neg (by simp)]
        have := readElement_safe hst.inv h1 he'
        refine ⟨.trans hst this.1, fun e s'' h => ⟨by simp, lift ?_⟩⟩
        obtain ⟨a, b, c⟩ := this.2 e s'' h
        refine ⟨a.1, a.2, ?_, c⟩
        rcases b with b | b
        · left; rw [Ne, rest_nil_iff] at b; simp [vpos, h1]; omega
        · exact .inr (.inl b)

/-! ### Blob contents -/

theorem drain_blob_safe {s : Stream} (n : Nat) (hi : Inv s) (hc : s.commit = some .skipBlob)
    (hn : n ≤ blobRemaining s) : SafeRes s (drain blobRead n s) := by
  have hp := hi.pend
  rw [hc] at hp; simp at hp
  obtain ⟨k, sc, h1, h2, h3, h4⟩ := drain_blob_spec n s hn hp.2
  unfold blobRemaining at hn
  rcases h4 with ⟨-, h4⟩ | ⟨-, h4⟩
  · rw [h4]; exact .ok (step_advBy_blob hi hc (by omega) h3 h2)
  · rw [h4]; exact .err (step_advBy_blob hi hc (by omega) h3 h2) rfl

theorem readFully_safe {s : Stream} (max : Nat) (hi : Inv s) (hc : s.commit = some .skipBlob) :
    SafeRes s (readFully max s) := by
  unfold readFully
  split
  · exact .err (.refl hi) rfl
  · exact drain_blob_safe _ hi hc (Nat.le_refl _)

theorem readOrTrunc_safe {s : Stream} (max : Nat) (hi : Inv s) (hc : s.commit = some .skipBlob) :
    SafeRes s (readOrTrunc max s) := by
  unfold readOrTrunc
  exact drain_blob_safe _ hi hc (Nat.min_le_right _ _)

end Fourleaf
