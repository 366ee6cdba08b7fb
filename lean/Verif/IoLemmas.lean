import Verif.Stream

/-! # Closed forms of the primitive reading operations -/

namespace Fourleaf

/-- Is this no failure? -/
def Ev.fine : Ev → Bool
  | .short _ | .interrupted => true
  | .fail | .noSeek | .full => false

/-- No failure of the device is scheduled. -/
def Benign (sc : List Ev) : Prop := ∀ e ∈ sc, e.fine = true

theorem Benign.suffix {a b : List Ev} (h : Benign b) (hs : a <:+ b) : Benign a :=
  fun e hm => h e (hs.subset hm)

theorem Benign.seek {sc : List Ev} (h : Benign sc) : sc.head? ≠ some .noSeek := by
  cases sc with
  | nil => simp
  | cons e sc =>
    intro he
    cases he
    exact absurd (h .noSeek (List.mem_cons_self ..)) (by decide)

theorem not_benign {e : Ev} {sc : List Ev} (h1 : ∀ k, e = .short k → False) (h2 : e = .interrupted → False) : ¬ Benign (e :: sc) := by
  intro h
  have := h e (by simp)
  cases e with
  | short k => exact h1 k rfl
  | interrupted => exact h2 rfl
  | _ => cases this

/-- The bytes not yet consumed. -/
def Stream.rest (s : Stream) : List Byte := s.inner.rest

/-- The stream after consuming `k` bytes, with remaining schedule `sc`. -/
def advBy (s : Stream) (k : Nat) (sc : List Ev) : Stream :=
  { s with inner := { s.inner with pos := s.inner.pos + k, sched := sc }, pos := s.pos + k }

@[simp] theorem advBy_pos (s k sc) : (advBy s k sc).pos = s.pos + k := rfl
@[simp] theorem advBy_ipos (s k sc) : (advBy s k sc).inner.pos = s.inner.pos + k := rfl
@[simp] theorem advBy_data (s k sc) : (advBy s k sc).inner.data = s.inner.data := rfl
@[simp] theorem advBy_sched (s k sc) : (advBy s k sc).inner.sched = sc := rfl
@[simp] theorem advBy_seekable (s k sc) : (advBy s k sc).inner.seekable = s.inner.seekable := rfl
@[simp] theorem advBy_graceful (s k sc) : (advBy s k sc).graceful = s.graceful := rfl
@[simp] theorem advBy_eof (s k sc) : (advBy s k sc).eof = s.eof := rfl
@[simp] theorem advBy_depth (s k sc) : (advBy s k sc).depth = s.depth := rfl
@[simp] theorem advBy_commit (s k sc) : (advBy s k sc).commit = s.commit := rfl
@[simp] theorem advBy_blobEnd (s k sc) : (advBy s k sc).blobEnd = s.blobEnd := rfl
@[simp] theorem advBy_dynStart (s k sc) : (advBy s k sc).dynStart = s.dynStart := rfl
@[simp] theorem advBy_useSeek (s k sc) : (advBy s k sc).useSeek = s.useSeek := rfl
@[simp] theorem advBy_live (s k sc) : (advBy s k sc).live = s.live := rfl
theorem advBy_rest (s k sc) : (advBy s k sc).rest = s.rest.drop k := by
  simp [Stream.rest, Inner.rest, List.drop_drop]
@[simp] theorem advBy_zero_self (s : Stream) : advBy s 0 s.inner.sched = s := rfl
@[simp] theorem advBy_advBy (s a sc b sc') : advBy (advBy s a sc) b sc' = advBy s (a + b) sc' := by
  simp [advBy, Nat.add_assoc]

theorem rest_nil_iff (s : Stream) : s.rest = [] ↔ s.inner.data.length ≤ s.inner.pos := by
  simp [Stream.rest, Inner.rest, List.drop_eq_nil_iff]

theorem rest_length (s : Stream) : s.rest.length = s.inner.data.length - s.inner.pos := by
  simp [Stream.rest, Inner.rest]

/-- What one read of the underlying stream does. -/
theorem inner_read_spec (i : Inner) (want : Nat) (hw : 0 < want) :
    (∃ k sc, Inner.read want i = .ok (i.rest.take k) { i with pos := i.pos + k, sched := sc } ∧
      k ≤ want ∧ k ≤ i.rest.length ∧ (k = 0 → i.rest = []) ∧ sc <:+ i.sched ∧
      (k < min want i.rest.length → sc.length < i.sched.length) ∧
      (sc.length = i.sched.length → i.sched = [])) ∨
    (∃ sc, Inner.read want i = .err (.io .interrupted) { i with sched := sc } ∧
      sc <:+ i.sched ∧ sc.length < i.sched.length) ∨
    (∃ sc, Inner.read want i = .err (.io .device) { i with sched := sc } ∧
      sc <:+ i.sched ∧ ¬ Benign i.sched) := by
  unfold Inner.read
  split
  · rename_i h
    refine .inl ⟨min want i.rest.length, [], ?_, by omega, by omega, ?_, by simp, by omega, ?_⟩
    · have : i.rest.take want = i.rest.take (min want i.rest.length) := by
        simp [List.take_eq_take_iff]
      simp [this, h]
    · intro h0; rw [← List.length_eq_zero_iff]; omega
    · intro _; exact h
  · rename_i k sc h
    refine .inl ⟨min (min want (k + 1)) i.rest.length, sc, ?_, by omega, by omega, ?_, by simp [h], ?_, ?_⟩
    · have : i.rest.take (min want (k+1)) = i.rest.take (min (min want (k+1)) i.rest.length) := by
        simp [List.take_eq_take_iff]
      simp [this]
    · intro h0; rw [← List.length_eq_zero_iff]; omega
    · intro _; simp [h]
    · intro h'; simp [h] at h'
  · rename_i sc h
    exact .inr (.inl ⟨sc, rfl, by simp [h], by simp [h]⟩)
  · rename_i sc h1 h2 h
    exact .inr (.inr ⟨sc, rfl, by simp [h], by rw [h]; exact not_benign h1 h2⟩)

/-- What one read through the tracker does. -/
theorem trackRead_spec (g : Bool) (want : Nat) (hw : 0 < want) (s : Stream) :
    (U64MAX - s.pos < want ∧ trackRead g want s = .err posOverflow s) ∨
    (want ≤ U64MAX - s.pos ∧
      ((∃ k sc, trackRead g want s = .ok (s.rest.take k) (advBy s k sc) ∧
        0 < k ∧ k ≤ want ∧ k ≤ s.rest.length ∧ sc <:+ s.inner.sched ∧
        (k < min want s.rest.length → sc.length < s.inner.sched.length) ∧
        (sc.length = s.inner.sched.length → s.inner.sched = [])) ∨
       (∃ sc, s.rest = [] ∧ sc <:+ s.inner.sched ∧
          trackRead g want s = .ok (if g = true ∧ s.graceful = true then [0x40] else []) (advBy s 0 sc)) ∨
       (∃ sc, trackRead g want s = .err (.io .interrupted) (advBy s 0 sc) ∧
          sc <:+ s.inner.sched ∧ sc.length < s.inner.sched.length) ∨
       (∃ sc, trackRead g want s = .err (.io .device) (advBy s 0 sc) ∧
          sc <:+ s.inner.sched ∧ ¬ Benign s.inner.sched))) := by
  unfold trackRead
  rw [if_neg (by omega)]
  split
  · rename_i h; exact .inl ⟨h, rfl⟩
  · rename_i h
    refine .inr ⟨by omega, ?_⟩
    rcases inner_read_spec s.inner want hw with ⟨k, sc, h1, h2, h3, h4, h5, h6, h7⟩ | ⟨sc, h1, h2, h3⟩ | ⟨sc, h1, h2, h3⟩
    · rw [h1]
      have hl : (s.inner.rest.take k).length = k := by simp; omega
      rcases Nat.eq_zero_or_pos k with rfl | hk
      · refine .inr (.inl ⟨sc, h4 rfl, h5, ?_⟩)
        simp [advBy, SpecialTy.toByte]
        split <;> rfl
      · refine .inl ⟨k, sc, ?_, hk, h2, h3, h5, h6, h7⟩
        have hne : s.inner.rest.take k ≠ [] := by
          intro h; rw [h] at hl; simp at hl; omega
        simp only [hne, false_and, if_false, hl]
        rfl
    · rw [h1]; exact .inr (.inr (.inl ⟨sc, rfl, h2, h3⟩))
    · rw [h1]; exact .inr (.inr (.inr ⟨sc, rfl, h2, h3⟩))

/-- Outcomes of reading one byte. -/
def ByteRead (g : Bool) (s : Stream) (r : Res Err Stream Byte) : Prop :=
  (U64MAX ≤ s.pos ∧ ∃ sc, sc <:+ s.inner.sched ∧ r = .err posOverflow (advBy s 0 sc)) ∨
  (s.pos < U64MAX ∧ ∃ sc, sc <:+ s.inner.sched ∧
    ((∃ b l, s.rest = b :: l ∧ r = .ok b (advBy s 1 sc)) ∨
     (s.rest = [] ∧ g = true ∧ s.graceful = true ∧ r = .ok 0x40 (advBy s 0 sc)) ∨
     (s.rest = [] ∧ ¬ (g = true ∧ s.graceful = true) ∧ r = .err (.io .unexpectedEof) (advBy s 0 sc)) ∨
     (¬ Benign s.inner.sched ∧ r = .err (.io .device) (advBy s 0 sc))))

theorem advBy_zero_ByteRead {g : Bool} {s : Stream} {sc : List Ev} {r : Res Err Stream Byte}
    (h : ByteRead g (advBy s 0 sc) r) (hs : sc <:+ s.inner.sched) : ByteRead g s r := by
  have hr : (advBy s 0 sc).rest = s.rest := by simp [advBy_rest]
  unfold ByteRead at h ⊢
  simp only [hr, advBy_pos, Nat.add_zero, advBy_sched, advBy_graceful, advBy_advBy, Nat.zero_add] at h
  rcases h with ⟨h1, sc', h2, h3⟩ | ⟨h1, sc', h2, h3⟩
  · exact .inl ⟨h1, sc', h2.trans hs, h3⟩
  · refine .inr ⟨h1, sc', h2.trans hs, ?_⟩
    rcases h3 with h3 | h3 | h3 | h3
    · exact .inl h3
    · exact .inr (.inl h3)
    · exact .inr (.inr (.inl h3))
    · exact .inr (.inr (.inr ⟨fun hb => h3.1 (hb.suffix hs), h3.2⟩))

theorem readByteLoop_spec (g : Bool) : ∀ (fuel : Nat) (s : Stream), s.inner.sched.length < fuel →
    ByteRead g s (readByteLoop g fuel s) := by
  intro fuel
  induction fuel with
  | zero => intro s h; omega
  | succ fuel ih =>
    intro s hf
    rw [readByteLoop]
    rcases trackRead_spec g 1 (by decide) s with ⟨h1, h2⟩ | ⟨h1, h2⟩
    · rw [h2]
      exact .inl ⟨by omega, s.inner.sched, List.suffix_refl _, rfl⟩
    · rcases h2 with ⟨k, sc, h2, h3, h4, h5, h6, -, -⟩ | ⟨sc, h2, h3, h4⟩ | ⟨sc, h2, h3, h4⟩ | ⟨sc, h2, h3, h4⟩
      · obtain rfl : k = 1 := by omega
        rw [h2]
        cases hr : s.rest with
        | nil => rw [hr] at h5; simp at h5
        | cons b l =>
          simp only [List.take_succ_cons, List.take_zero]
          exact .inr ⟨by omega, sc, h6, .inl ⟨b, l, hr, rfl⟩⟩
      · rw [h4]
        by_cases hg : g = true ∧ s.graceful = true
        · simp only [if_pos hg]
          exact .inr ⟨by omega, sc, h3, .inr (.inl ⟨h2, hg.1, hg.2, rfl⟩)⟩
        · simp only [if_neg hg]
          exact .inr ⟨by omega, sc, h3, .inr (.inr (.inl ⟨h2, hg, rfl⟩))⟩
      · rw [h2]
        have := ih (advBy s 0 sc) (by simp; omega)
        exact advBy_zero_ByteRead this h3
      · rw [h2]
        exact .inr ⟨by omega, sc, h3, .inr (.inr (.inr ⟨h4, rfl⟩))⟩

theorem readByte_spec (g : Bool) (s : Stream) : ByteRead g s (readByte g s) :=
  readByteLoop_spec g _ s (Nat.lt_succ_self _)

/-- Outcomes of draining up to `n` bytes after `acc`. -/
def Drained (s : Stream) (n : Nat) (acc : List Byte) (r : Res Err Stream (List Byte)) : Prop :=
  ∃ k sc, k ≤ n ∧ k ≤ s.rest.length ∧ sc <:+ s.inner.sched ∧
    ((k = min n s.rest.length ∧ r = .ok (acc ++ s.rest.take k) (advBy s k sc)) ∨
     (¬ Benign s.inner.sched ∧ r = .err (.io .device) (advBy s k sc)))

/-- A reader which, for requests up to `lim`, is the tracker. -/
def IsTrackUpTo (rd : Nat → M Err Stream (List Byte)) (s : Stream) (lim : Nat) : Prop :=
  ∀ k sc, k ≤ lim → ∀ n, 0 < n → n ≤ lim - k → rd n (advBy s k sc) = trackRead false n (advBy s k sc)

theorem drainLoop_spec (rd : Nat → M Err Stream (List Byte)) : ∀ (fuel n : Nat) (acc : List Byte) (s : Stream),
    IsTrackUpTo rd s n → n ≤ U64MAX - s.pos →
    (s.inner.sched.length + 3 ≤ fuel ∨ (s.inner.sched = [] ∧ 1 ≤ fuel ∧ min n s.rest.length = 0 ∧ (0 < n → 1 ≤ fuel))
      ) →
    Drained s n acc (drainLoop rd fuel n acc s) := by
  intro fuel
  induction fuel with
  | zero => intro n acc s _ _ h; omega
  | succ fuel ih =>
    intro n acc s hT hp hf
    rw [drainLoop]
    by_cases hn : n = 0
    · subst hn
      simp only [if_true]
      exact ⟨0, s.inner.sched, by omega, by omega, List.suffix_refl _, .inl ⟨by omega, by simp⟩⟩
    · simp only [if_neg hn]
      have hrd : rd n s = trackRead false n s := by
        have := hT 0 s.inner.sched (by omega) n (by omega) (by omega)
        simpa using this
      rw [hrd]
      rcases trackRead_spec false n (by omega) s with ⟨h1, h2⟩ | ⟨h1, h2⟩
      · omega
      · rcases h2 with ⟨k, sc, h2, h3, h4, h5, h6, h7, h8⟩ | ⟨sc, h2, h3, h4⟩ | ⟨sc, h2, h3, h4⟩ | ⟨sc, h2, h3, h4⟩
        · rw [h2]
          have hl : (s.rest.take k).length = k := by simp; omega
          have hne : s.rest.take k ≠ [] := by
            intro h; rw [h] at hl; simp at hl; omega
          simp only [if_neg hne, hl]
          have hT' : IsTrackUpTo rd (advBy s k sc) (n - k) := by
            intro k' sc' hk' m hm hm'
            rw [advBy_advBy]
            exact hT (k + k') sc' (by omega) m hm (by omega)
          have hlen := h6.length_le
          have hrl : (advBy s k sc).rest.length = s.rest.length - k := by
            rw [advBy_rest]; simp
          have := ih (n - k) (acc ++ s.rest.take k) (advBy s k sc) hT' (by simp; omega) (by
            rw [advBy_sched, hrl]
            by_cases hsc : sc.length < s.inner.sched.length
            · rcases hf with hf | hf
              · left; omega
              · rw [hf.1] at hsc; simp at hsc
            · have hsc' : sc.length = s.inner.sched.length := by omega
              have hnil := h8 hsc'
              rw [hnil] at hsc'
              have : sc = [] := by simpa using hsc'
              right
              refine ⟨this, ?_, ?_, ?_⟩
              · rcases hf with hf | hf <;> omega
              · have : ¬ k < min n s.rest.length := fun h => hsc (h7 h)
                omega
              · intro _; rcases hf with hf | hf <;> omega)
          obtain ⟨k', sc', h9, h10, h11, h12⟩ := this
          rw [hrl] at h10
          refine ⟨k + k', sc', by omega, by omega, h11.trans h6, ?_⟩
          rcases h12 with ⟨h12, h13⟩ | ⟨h12, h13⟩
          · left
            rw [hrl] at h12
            refine ⟨by omega, ?_⟩
            rw [h13, advBy_advBy, advBy_rest, List.append_assoc, ← List.take_add]
          · right
            refine ⟨fun hb => h12 (hb.suffix h6), ?_⟩
            rw [h13, advBy_advBy]
        · rw [h4]
          simp only [Bool.false_eq_true, false_and, if_false, if_true]
          exact ⟨0, sc, by omega, by omega, h3, .inl ⟨by rw [h2]; simp, by simp⟩⟩
        · rw [h2]
          have hT' : IsTrackUpTo rd (advBy s 0 sc) n := by
            intro k' sc' hk' m hm hm'
            rw [advBy_advBy]
            exact hT (0 + k') sc' (by omega) m hm (by omega)
          have := ih n acc (advBy s 0 sc) hT' (by simpa using hp) (by
            rw [advBy_sched]
            rcases hf with hf | hf
            · left; omega
            · rw [hf.1] at h4; simp at h4)
          obtain ⟨k', sc', h9, h10, h11, h12⟩ := this
          simp only [advBy_rest, List.drop_zero, advBy_sched, advBy_advBy, Nat.zero_add] at h10 h11 h12
          refine ⟨k', sc', h9, h10, h11.trans h3, ?_⟩
          rcases h12 with h12 | ⟨h12, h13⟩
          · exact .inl h12
          · exact .inr ⟨fun hb => h12 (hb.suffix h3), h13⟩
        · rw [h2]
          exact ⟨0, sc, by omega, by omega, h3, .inr ⟨h4, rfl⟩⟩

theorem drain_track_spec (n : Nat) (s : Stream) (hp : n ≤ U64MAX - s.pos) :
    Drained s n [] (drain (trackRead false) n s) :=
  drainLoop_spec _ _ n [] s (fun _ _ _ _ _ _ => rfl) hp (.inl (by omega))

theorem drain_blob_spec (n : Nat) (s : Stream) (hb : n ≤ blobRemaining s) (he : s.blobEnd ≤ U64MAX) :
    Drained s n [] (drain blobRead n s) := by
  unfold blobRemaining at hb
  refine drainLoop_spec _ _ n [] s ?_ (by omega) (.inl (by omega))
  intro k sc hk m hm hm'
  have h1 : ¬ blobRemaining (advBy s k sc) = 0 := by simp [blobRemaining]; omega
  simp only [blobRead, if_neg h1]
  rw [Nat.min_eq_left (by simp [blobRemaining]; omega)]

end Fourleaf
