import Verif.ProgLemmas

/-! # Two streams side by side

`Rel lo q s t`: the streams are in the same state, except that `t`'s input goes on with the bytes `q` after
the end of `s`'s, and that the two readers may split their data differently. With `lo = false`
every operation has the same outcome on both; with any `q`, a successful operation on `s` has the same
outcome on `t`. -/

namespace Fourleaf

/-- `s` with `q` appended to the input, another schedule and setting of graceful EOF. -/
def ext (q : List Byte) (sc : List Ev × Bool) (s : Stream) : Stream :=
  { s with inner := { s.inner with data := s.inner.data ++ q, sched := sc.1 }, graceful := sc.2 }

/-- The same state, except for the schedules, and `q` at the end of the input of `t`. If `lo` ("loose"), `t` may have another setting of graceful EOF, but `s` has none; then it may happen that only `s`
meets the end of its input. -/
structure Rel (lo : Bool) (q : List Byte) (s t : Stream) : Prop where
  eq : t = ext q (t.inner.sched, t.graceful) s
  ben : Benign s.inner.sched
  ben' : Benign t.inner.sched
  grace : lo ≠ false → s.graceful = false
  same : lo = false → t.graceful = s.graceful
  nil : lo = false → q = []

theorem Rel.mk' {q : List Byte} {s : Stream} {sc : List Ev} (h1 : Benign s.inner.sched) (h2 : Benign sc)
    (h3 : s.graceful = false) : Rel true q s (ext q (sc, s.graceful) s) := ⟨rfl, h1, h2, fun _ => h3, fun h => (by cases h), fun h => by cases h⟩

/-- The stream is not at its end, yet the next element would start beyond the end of the input: every further
attempt to get an element must fail. -/
structure Doomed (s : Stream) : Prop where
  eof : s.eof = false
  graceful : s.graceful = false
  beyond : s.inner.data.length < vpos s

theorem Doomed.step {s s' : Stream} (h : Doomed s) (h' : Step s s') : Doomed s' := by
  refine ⟨?_, h'.frame.graceful.trans h.graceful, ?_⟩
  · cases he : s'.eof with
    | false => rfl
    | true =>
      rcases h'.eof he with h1 | h1 | h1
      · rw [h.eof] at h1; cases h1
      · have := h.beyond; omega
      · rw [h.graceful] at h1; cases h1
  · have := h'.mono; have := h.beyond; rw [h'.frame.data]; omega

/-- The shorter input was too short: it ended in the middle of an element, or in a blob. (Abnormal outcomes are listed too, as loops are modelled with a counter that is
derived from the length of the input; there are none.) -/
def Short (e : Err) (s : Stream) : Prop := (e = .io .unexpectedEof ∨ e.abnormal = true) ∨ Doomed s

/-- Related outcomes, where an error on the shorter input says nothing if the longer one is longer. -/
structure R0 {α : Type} (lo : Bool) (q : List Byte) (r r' : Res Err Stream α) : Prop where
  ok : ∀ a s, r = .ok a s → ∃ t, r' = .ok a t ∧ Rel lo q s t
  err : lo = false → ∀ e s, r = .err e s → ∃ t, r' = .err e t ∧ Rel lo q s t

theorem R0.mkOk {α : Type} {lo : Bool} {q : List Byte} {a : α} {s t : Stream} (h : Rel lo q s t) :
    R0 lo q (.ok a s) (.ok a t) :=
  ⟨fun a s h' => by cases h'; exact ⟨t, rfl, h⟩, fun _ e s h' => by cases h'⟩

theorem R0.mkErr {α : Type} {lo : Bool} {q : List Byte} {e : Err} {s t : Stream} (h : Rel lo q s t) :
    R0 lo q (.err e s : Res Err Stream α) (.err e t) :=
  ⟨fun a s h' => (by cases h'), fun _ e s h' => by cases h'; exact ⟨t, rfl, h⟩⟩

/-- An error on the shorter input says nothing if the longer one really is longer. -/
theorem R0.vac {α : Type} {lo : Bool} {q : List Byte} {e : Err} {s : Stream} {r : Res Err Stream α} (h : lo ≠ false) :
    R0 lo q (.err e s : Res Err Stream α) r :=
  ⟨fun a s h' => (by cases h'), fun hq => absurd hq h⟩

theorem R0.bind {α β : Type} {lo : Bool} {q : List Byte} {m : M Err Stream α} {f : α → M Err Stream β} {s t : Stream}
    (h : R0 lo q (m s) (m t)) (hf : ∀ a s' t', m s = .ok a s' → Rel lo q s' t' → R0 lo q (f a s') (f a t')) :
    R0 lo q ((m >>= f) s) ((m >>= f) t) := by
  cases hm : m s with
  | ok a s' =>
    obtain ⟨t', h1, h2⟩ := h.ok a s' hm
    rw [M.bind_ok hm, M.bind_ok h1]
    exact hf a s' t' hm h2
  | err e s' =>
    rw [M.bind_err hm]
    by_cases hq : lo = false
    · obtain ⟨t', h1, h2⟩ := h.err hq e s' hm
      rw [M.bind_err h1]; exact .mkErr h2
    · exact .vac hq

/-- Related outcomes: the same, unless the shorter input was too short. -/
structure RR {α : Type} (lo : Bool) (q : List Byte) (r r' : Res Err Stream α) : Prop where
  ok : ∀ a s, r = .ok a s → ∃ t, r' = .ok a t ∧ Rel lo q s t
  err : ∀ e s, r = .err e s → (lo ≠ false ∧ Short e s) ∨ ∃ t, r' = .err e t ∧ Rel lo q s t

theorem RR.to0 {α : Type} {lo : Bool} {q : List Byte} {r r' : Res Err Stream α} (h : RR lo q r r') : R0 lo q r r' :=
  ⟨h.ok, fun hq e s hr => (h.err e s hr).resolve_left fun h => h.1 hq⟩

theorem RR.mkOk {α : Type} {lo : Bool} {q : List Byte} {a : α} {s t : Stream} (h : Rel lo q s t) :
    RR lo q (.ok a s) (.ok a t) :=
  ⟨fun a s h' => by cases h'; exact ⟨t, rfl, h⟩, fun e s h' => by cases h'⟩

theorem RR.mkErr {α : Type} {lo : Bool} {q : List Byte} {e : Err} {s t : Stream} (h : Rel lo q s t) :
    RR lo q (.err e s : Res Err Stream α) (.err e t) :=
  ⟨fun a s h' => (by cases h'), fun e s h' => by cases h'; exact .inr ⟨t, rfl, h⟩⟩

theorem RR.short {α : Type} {lo : Bool} {q : List Byte} {e : Err} {s : Stream} {r : Res Err Stream α} (h : lo ≠ false ∧ Short e s) :
    RR lo q (.err e s : Res Err Stream α) r :=
  ⟨fun a s h' => (by cases h'), fun e s h' => by cases h'; exact .inl h⟩

theorem RR.bind {α β : Type} {lo : Bool} {q : List Byte} {m : M Err Stream α} {f : α → M Err Stream β} {s t : Stream}
    (h : RR lo q (m s) (m t)) (hf : ∀ a s' t', m s = .ok a s' → Rel lo q s' t' → RR lo q (f a s') (f a t')) :
    RR lo q ((m >>= f) s) ((m >>= f) t) := by
  cases hm : m s with
  | ok a s' =>
    obtain ⟨t', h1, h2⟩ := h.ok a s' hm
    rw [M.bind_ok hm, M.bind_ok h1]
    exact hf a s' t' hm h2
  | err e s' =>
    rw [M.bind_err hm]
    rcases h.err e s' hm with hq | ⟨t', h1, h2⟩
    · exact .short hq
    · rw [M.bind_err h1]; exact .mkErr h2

theorem Rel.adv {lo : Bool} {q : List Byte} {s : Stream} (sc' : List Ev × Bool) {k : Nat} {sc1 sc2 : List Ev}
    (h : Rel lo q s (ext q sc' s)) (h1 : sc1 <:+ s.inner.sched) (h2 : sc2 <:+ sc'.1) :
    Rel lo q (advBy s k sc1) (advBy (ext q sc' s) k sc2) :=
  ⟨rfl, h.ben.suffix h1, h.ben'.suffix h2, h.grace, h.same, h.nil⟩

theorem ext_rest (q : List Byte) (sc : List Ev × Bool) (s : Stream) :
    (ext q sc s).rest = s.rest ++ q.drop (s.inner.pos - s.inner.data.length) := by
  simp [ext, Stream.rest, Inner.rest, List.drop_append]

theorem readByte_rel (g : Bool) {lo : Bool} {q : List Byte} {s t : Stream} (h : Rel lo q s t) :
    RR lo q (readByte g s) (readByte g t) := by
  obtain ⟨sc', rfl⟩ : ∃ sc', t = ext q sc' s := ⟨_, h.eq⟩
  have hr := ext_rest q sc' s
  rcases readByte_spec g s with ⟨h1, sc1, h2, h3⟩ | ⟨h1, sc1, h2, h3⟩
  · rcases readByte_spec g (ext q sc' s) with ⟨k1, sc2, k2, k3⟩ | ⟨k1, sc2, k2, k3⟩
    · rw [h3, k3]; exact .mkErr (h.adv _ h2 k2)
    · exact absurd k1 (Nat.not_lt.2 h1)
  · rcases readByte_spec g (ext q sc' s) with ⟨k1, sc2, k2, k3⟩ | ⟨k1, sc2, k2, k3⟩
    · exact absurd h1 (Nat.not_lt.2 k1)
    · rcases h3 with ⟨b, l, h3, h4⟩ | ⟨h3, h4, h5, h6⟩ | ⟨h3, h4, h5⟩ | ⟨h3, -⟩
      · rw [hr, h3] at k3
        rcases k3 with ⟨b', l', k3, k4⟩ | ⟨k3, -⟩ | ⟨k3, -⟩ | ⟨k3, -⟩
        · simp at k3; rw [h4, k4, ← k3.1]; exact .mkOk (h.adv _ h2 k2)
        · cases k3
        · cases k3
        · exact absurd h.ben' k3
      · by_cases hq : lo = false
        · obtain rfl := h.nil hq
          subst hq
          rw [hr, h3] at k3
          simp only [List.drop_nil, List.append_nil] at k3
          rcases k3 with ⟨b', l', k3, k4⟩ | ⟨-, -, -, k3⟩ | ⟨-, k3, -⟩ | ⟨k3, -⟩
          · cases k3
          · rw [h6, k3]; exact .mkOk (h.adv _ h2 k2)
          · exact absurd ⟨h4, (h.same rfl).trans h5⟩ k3
          · exact absurd h.ben' k3
        · have := h.grace hq; rw [h5] at this; cases this
      · rw [h5]
        by_cases hq : lo = false
        · obtain rfl := h.nil hq
          subst hq
          rw [hr, h3] at k3
          simp only [List.drop_nil, List.append_nil] at k3
          rcases k3 with ⟨b', l', k3, k4⟩ | ⟨-, k3, k4, -⟩ | ⟨-, -, k3⟩ | ⟨k3, -⟩
          · cases k3
          · exact absurd ⟨k3, (h.same rfl).symm.trans k4⟩ h4
          · rw [k3]; exact .mkErr (h.adv _ h2 k2)
          · exact absurd h.ben' k3
        · exact .short ⟨hq, .inl (.inl rfl)⟩
      · exact absurd h.ben h3

/-- Draining, given what it does on each side. -/
theorem drained_rel {lo : Bool} {q : List Byte} {s t : Stream} (h : Rel lo q s t) {n : Nat} {r r' : Res Err Stream (List Byte)}
    (h1 : Drained s n [] r) (h2 : Drained t n [] r') :
    (n ≤ s.rest.length ∨ lo = false → RR lo q r r') := by
  intro hn
  obtain ⟨sc', rfl⟩ : ∃ sc', t = ext q sc' s := ⟨_, h.eq⟩
  have hr := ext_rest q sc' s
  obtain ⟨k, sc1, a1, a2, a3, a4⟩ := h1
  obtain ⟨k', sc2, b1, b2, b3, b4⟩ := h2
  rcases a4 with ⟨a4, a5⟩ | ⟨a4, -⟩
  · rcases b4 with ⟨b4, b5⟩ | ⟨b4, -⟩
    · have hk : k = k' := by
        rw [hr, List.length_append] at b4
        rcases hn with hn | hn
        · omega
        · obtain rfl := h.nil hn
          simp at b4; omega
      subst hk
      rw [a5, b5, hr, List.take_append_of_le_length a2]
      exact .mkOk (h.adv _ a3 b3)
    · exact absurd h.ben' b4
  · exact absurd h.ben a4

theorem skipByDiscard_rel (n : Nat) {lo : Bool} {q : List Byte} {s t : Stream} (h : Rel lo q s t) (hp : n ≤ U64MAX - s.pos) :
    R0 lo q (skipByDiscard n s) (skipByDiscard n t) ∨
    (lo ≠ false ∧ ∃ k s', skipByDiscard n s = .ok k s' ∧ k < n) := by
  have hp' : n ≤ U64MAX - t.pos := by rw [h.eq]; exact hp
  have h1 := drain_track_spec n s hp
  have h2 := drain_track_spec n t hp'
  by_cases hc : n ≤ s.rest.length ∨ lo = false
  · left
    exact (drained_rel h h1 h2 hc).to0.bind fun a s' t' _ h => .mkOk h
  · right
    refine ⟨fun hq => hc (.inr hq), ?_⟩
    obtain ⟨k, sc, a1, a2, a3, a4⟩ := h1
    rcases a4 with ⟨a4, a5⟩ | ⟨a4, -⟩
    · refine ⟨k, advBy s k sc, ?_, by omega⟩
      unfold skipByDiscard
      rw [M.bind_ok a5, M.pure_apply]
      simp
      omega
    · exact absurd h.ben a4

theorem innerSeek_rel (n : Nat) {lo : Bool} {q : List Byte} {s t : Stream} (h : Rel lo q s t) :
    (∃ m s' t', innerSeek (.current n) s = .ok m s' ∧ innerSeek (.current n) t = .ok m t' ∧ Rel lo q s' t' ∧
      s'.pos = s.pos) ∨
    (∃ e e', innerSeek (.current n) s = .err e s ∧ innerSeek (.current n) t = .err e' t) := by
  obtain ⟨sc', rfl⟩ : ∃ sc', t = ext q sc' s := ⟨_, h.eq⟩
  rcases innerSeek_forward s n with ⟨h1, h2, -, h3⟩ | ⟨h1, e, sc, h2, h3⟩
  · rcases innerSeek_forward (ext q sc' s) n with ⟨k1, k2, -, k3⟩ | ⟨k1, -⟩
    · exact .inl ⟨_, _, _, h3, k3, ⟨rfl, h.ben, h.ben', h.grace, h.same, h.nil⟩, rfl⟩
    · exact absurd ⟨h1, h2, h.ben'.seek⟩ k1
  · rcases innerSeek_forward (ext q sc' s) n with ⟨k1, k2, -⟩ | ⟨k1, e', sc2, k2, k3⟩
    · exact absurd ⟨k1, k2, h.ben.seek⟩ h1
    · rcases h2 with rfl | ⟨-, h2, -⟩
      · rcases k2 with rfl | ⟨-, k2, -⟩
        · exact .inr ⟨e, e', h3, k3⟩
        · exact absurd k2 h.ben'.seek
      · exact absurd h2 h.ben.seek

/-- Outcomes of a skip: related, or the shorter input was too short. -/
def SkipRel (lo : Bool) (q : List Byte) (n : Nat) (r r' : Res Err Stream Nat) : Prop :=
  R0 lo q r r' ∨ (lo ≠ false ∧ ∃ k s', r = .ok k s' ∧ k < n)

theorem skipSeekDirect_rel (n : Nat) {lo : Bool} {q : List Byte} {s t : Stream} (h : Rel lo q s t) :
    SkipRel lo q n (skipSeekDirect n s) (skipSeekDirect n t) := by
  have hpos : t.pos = s.pos := by rw [h.eq]; rfl
  unfold skipSeekDirect
  rw [hpos]
  split
  · exact .inl (.mkErr h)
  · rename_i hp
    rcases innerSeek_rel n h with ⟨m, s', t', h1, h2, h3, h4⟩ | ⟨e, e', h1, h2⟩
    · rw [h1, h2]
      refine .inl (.mkOk ?_)
      refine ⟨?_, h3.ben, h3.ben', h3.grace, h3.same, h.nil⟩
      have := h3.eq
      generalize (t'.inner.sched, t'.graceful) = sc at this
      subst this; rfl
    · rw [h1, h2]
      exact skipByDiscard_rel n h (by omega)

theorem skipSeekDirect_le (n : Nat) (s : Stream) {k : Nat} {s' : Stream} (h : skipSeekDirect n s = .ok k s') :
    k ≤ n := by
  by_cases hp : U64MAX - s.pos < n
  · unfold skipSeekDirect at h; rw [if_pos hp] at h; cases h
  · obtain ⟨k', sc, h1, h2, h3⟩ := skipSeekDirect_spec (s := s) n (by omega)
    rcases h3 with ⟨h3, -⟩ | ⟨-, h3⟩ <;> rw [h3] at h <;> cases h
    exact h1

theorem skipBySeek_rel : ∀ (fuel n : Nat) {lo : Bool} {q : List Byte} {s t : Stream}, Rel lo q s t →
    SkipRel lo q n (skipBySeek fuel n s) (skipBySeek fuel n t) := by
  intro fuel
  induction fuel with
  | zero => intro n lo q s t h; exact .inl (.mkErr h)
  | succ fuel ih =>
    intro n lo q s t h
    rw [skipBySeek]
    by_cases hn : n > I64MAX
    · rw [if_pos hn]
      rcases skipSeekDirect_rel I64MAX h with h1 | ⟨hq, k, s', h1, h2⟩
      · cases hm : skipSeekDirect I64MAX s with
        | err e s' =>
          rw [M.bind_err hm]
          by_cases hq : lo = false
          · obtain ⟨t', h2, h3⟩ := h1.err hq e s' hm
            rw [M.bind_err h2]; exact .inl (.mkErr h3)
          · exact .inl (.vac hq)
        | ok k s' =>
          obtain ⟨t', h2, h3⟩ := h1.ok k s' hm
          have hk := skipSeekDirect_le _ _ hm
          rw [M.bind_ok hm, M.bind_ok h2, M.ite_apply, M.ite_apply]
          split
          · exact .inl (.mkOk h3)
          · rename_i hk2
            obtain rfl : k = I64MAX := by omega
            rcases ih (n - I64MAX) h3 with h4 | ⟨hq, k', s'', h4, h5⟩
            · exact .inl (h4.bind fun a _ _ _ h => .mkOk h)
            · right
              refine ⟨hq, I64MAX + k', s'', ?_, by omega⟩
              rw [M.bind_ok h4]; rfl
      · right
        refine ⟨hq, k, s', ?_, by omega⟩
        rw [M.bind_ok h1, M.ite_apply, if_pos h2]; rfl
    · rw [if_neg hn]; exact skipSeekDirect_rel n h

theorem skipBlob_rel {lo : Bool} {q : List Byte} {s t : Stream} (h : Rel lo q s t) (he : s.blobEnd ≤ U64MAX) :
    R0 lo q (skipBlob s) (skipBlob t) := by
  have h1 : t.blobEnd = s.blobEnd := by rw [h.eq]; rfl
  have h2 : t.pos = s.pos := by rw [h.eq]; rfl
  have h3 : t.useSeek = s.useSeek := by rw [h.eq]; rfl
  unfold skipBlob
  rw [h1, h2, h3]
  split
  · dsimp only
    have key : SkipRel lo q (s.blobEnd - s.pos)
        ((if s.useSeek = true then skipBySeek 4 (s.blobEnd - s.pos) else skipByDiscard (s.blobEnd - s.pos)) s)
        ((if s.useSeek = true then skipBySeek 4 (s.blobEnd - s.pos) else skipByDiscard (s.blobEnd - s.pos)) t) := by
      split
      · exact skipBySeek_rel _ _ h
      · exact skipByDiscard_rel _ h (by omega)
    rcases key with key | ⟨hq, k, s', h4, h5⟩
    · cases hm : (if s.useSeek = true then skipBySeek 4 (s.blobEnd - s.pos) else skipByDiscard (s.blobEnd - s.pos)) s with
      | ok k s' =>
        obtain ⟨t', h4, h5⟩ := key.ok k s' hm
        rw [h4]
        dsimp only
        split
        · exact .mkErr h5
        · exact .mkOk h5
      | err e s' =>
        by_cases hq : lo = false
        · obtain ⟨t', h4, h5⟩ := key.err hq e s' hm
          rw [h4]; exact .mkErr h5
        · exact .vac hq
    · rw [h4]
      dsimp only
      rw [if_pos h5]
      exact .vac hq
  · exact .mkOk h

/-- Changing the same fields on both sides. -/
theorem Rel.upd {lo : Bool} {q : List Byte} {s t : Stream} (h : Rel lo q s t) (f : Stream → Stream)
    (hf : ∀ sc, f (ext q sc s) = ext q sc (f s)) (hs : (f s).inner = s.inner) (hg : (f s).graceful = s.graceful) :
    Rel lo q (f s) (f t) := by
  obtain ⟨sc', rfl⟩ : ∃ sc', t = ext q sc' s := ⟨_, h.eq⟩
  rw [hf]
  exact ⟨rfl, by rw [hs]; exact h.ben, h.ben', by rw [hg]; exact h.grace, by rw [hg]; exact h.same, h.nil⟩

theorem Rel.commit {lo : Bool} {q : List Byte} {s t : Stream} (h : Rel lo q s t) : t.commit = s.commit := by rw [h.eq]; rfl
theorem Rel.pos {lo : Bool} {q : List Byte} {s t : Stream} (h : Rel lo q s t) : t.pos = s.pos := by rw [h.eq]; rfl
theorem Rel.ipos {lo : Bool} {q : List Byte} {s t : Stream} (h : Rel lo q s t) : t.inner.pos = s.inner.pos := by rw [h.eq]; rfl
theorem Rel.data {lo : Bool} {q : List Byte} {s t : Stream} (h : Rel lo q s t) : t.inner.data = s.inner.data ++ q := by rw [h.eq]; rfl
theorem Rel.eof {lo : Bool} {q : List Byte} {s t : Stream} (h : Rel lo q s t) : t.eof = s.eof := by rw [h.eq]; rfl
theorem Rel.depth {lo : Bool} {q : List Byte} {s t : Stream} (h : Rel lo q s t) : t.depth = s.depth := by rw [h.eq]; rfl
theorem Rel.live {lo : Bool} {q : List Byte} {s t : Stream} (h : Rel lo q s t) : t.live = s.live := by rw [h.eq]; rfl
theorem Rel.blobEnd {lo : Bool} {q : List Byte} {s t : Stream} (h : Rel lo q s t) : t.blobEnd = s.blobEnd := by rw [h.eq]; rfl

theorem commit_rel {lo : Bool} {q : List Byte} {s t : Stream} (h : Rel lo q s t) (hi : Inv s) :
    RR lo q (Fourleaf.commit s) (Fourleaf.commit t) := by
  unfold Fourleaf.commit
  rw [h.commit]
  rcases hi.pend with hc | ⟨hc, hp, he⟩
  · rw [hc]; exact .mkOk h
  · rw [hc]
    have := skipBlob_rel h he
    dsimp only
    cases hm : skipBlob s with
    | ok u s' =>
      obtain ⟨t', h1, h2⟩ := this.ok u s' hm
      rw [h1]
      exact .mkOk (h2.upd (fun s => { s with commit := none, live := false }) (fun _ => rfl) rfl rfl)
    | err e s' =>
      by_cases hq : lo = false
      · obtain ⟨t', h1, h2⟩ := this.err hq e s' hm
        rw [h1]
        exact .mkErr (h2.upd (fun s => { s with live := false }) (fun _ => rfl) rfl rfl)
      · refine .short ⟨hq, .inr ?_⟩
        have hd : Doomed s := by
          refine ⟨?_, h.grace hq, ?_⟩
          · cases hE : s.eof with
            | false => rfl
            | true => have := hi.eofCommit hE; rw [hc] at this; cases this
          · obtain ⟨k, sc, h1, h2, h3⟩ := skipBlob_spec hp he
            rcases h3 with ⟨-, h3⟩ | ⟨h3, h4, -⟩ | ⟨h3, -⟩
            · rw [hm] at h3; cases h3
            · have := h4
              rw [rest_length] at this
              unfold vpos; rw [if_pos hc]; omega
            · exact absurd h.ben h3
        have hS := (commit_safe hi).1.step
        have hx : Fourleaf.commit s = .err e { s' with live := false } := by simp [Fourleaf.commit, hc, hm]
        rw [hx] at hS
        exact hd.step hS

theorem decodeLoop_relRR : ∀ (fuel : Nat) (a : UInt64) (sh : Nat) {lo : Bool} {q : List Byte} {s t : Stream}, Rel lo q s t →
    RR lo q (decodeLoop (readByte false) fuel a sh s) (decodeLoop (readByte false) fuel a sh t) := by
  intro fuel
  induction fuel with
  | zero => intro a sh lo q s t h; exact .mkErr h
  | succ fuel ih =>
    intro a sh lo q s t h
    simp only [decodeLoop]
    refine (readByte_rel false h).bind fun b s' t' _ h' => ?_
    simp only [M.ite_apply]
    repeat' split
    all_goals first | exact .mkErr h' | exact .mkOk h' | exact ih _ _ h'

theorem decodeU64_relRR {lo : Bool} {q : List Byte} {s t : Stream} (h : Rel lo q s t) :
    RR lo q (decodeU64 (readByte false) s) (decodeU64 (readByte false) t) := by
  unfold decodeU64; exact decodeLoop_relRR _ _ _ h

theorem nextBlob_rel {lo : Bool} {q : List Byte} {s t : Stream} (h : Rel lo q s t) : RR lo q (nextBlob s) (nextBlob t) := by
  unfold nextBlob
  refine (decodeU64_relRR h).bind fun n s' t' _ h' => ?_
  refine RR.bind (q := q) ?_ fun _ s2 t2 _ h2 => ?_
  · rw [checkAdvance_eq, checkAdvance_eq, h'.pos]
    split
    · exact .mkErr h'
    · exact .mkOk h'
  · rw [M.bind_ok (M.modify_apply _ _), M.bind_ok (M.modify_apply _ _)]
    exact .mkOk (h2.upd (fun s => { s with blobEnd := s.pos + n.toNat, commit := some .skipBlob, live := true })
      (fun _ => rfl) rfl rfl)

theorem Rel.setDepth {lo : Bool} {q : List Byte} {s t : Stream} (h : Rel lo q s t) (f : Nat → Nat) :
    Rel lo q { s with depth := f s.depth } { t with depth := f t.depth } :=
  h.upd (fun s => { s with depth := f s.depth }) (fun _ => rfl) rfl rfl

theorem nextValue_rel (ty : DescTy) {lo : Bool} {q : List Byte} {s t : Stream} (h : Rel lo q s t) :
    RR lo q (nextValue ty s) (nextValue ty t) := by
  cases ty with
  | integer => simp only [nextValue]; exact (decodeU64_relRR h).bind fun n s' t' _ h' => .mkOk h'
  | blob => simp only [nextValue]; exact (nextBlob_rel h).bind fun n s' t' _ h' => .mkOk h'
  | struct =>
    simp only [nextValue]
    rw [M.bind_ok (M.modify_apply _ _), M.bind_ok (M.modify_apply _ _)]
    exact .mkOk (h.setDepth (· + 1))
  | enum =>
    simp only [nextValue]
    refine (decodeU64_relRR h).bind fun n s' t' _ h' => ?_
    rw [M.bind_ok (M.modify_apply _ _), M.bind_ok (M.modify_apply _ _)]
    exact .mkOk (h'.setDepth (· + 1))

theorem readElement_rel {lo : Bool} {q : List Byte} {s t : Stream} (h : Rel lo q s t) :
    RR lo q (readElement s) (readElement t) := by
  have hB := readByte_rel true h
  unfold readElement
  cases hr : readByte true s with
  | err e s' =>
    rcases hB.err e s' hr with hq | ⟨t', h1, h2⟩
    · exact .short hq
    · rw [h1]; exact .mkErr h2
  | ok b s' =>
    obtain ⟨t', h1, h2⟩ := hB.ok b s' hr
    rw [h1, h.pos]
    obtain ⟨d, hd, -, -⟩ := Props.c07_parse_total b
    dsimp only
    rw [hd]
    cases d with
    | pair ty tag =>
      dsimp only
      have h3 : Rel lo q (if s'.depth = 0 then { s' with depth := 1 } else s') (if t'.depth = 0 then { t' with depth := 1 } else t') := by
        rw [h2.depth]
        split
        · exact h2.setDepth (fun _ => 1)
        · exact h2
      rw [h3.depth]
      exact (nextValue_rel ty h3).bind fun v s2 t2 _ h4 => .mkOk h4
    | special sp =>
      cases sp with
      | endOfStruct => exact .mkOk (h2.setDepth (· - 1))
      | endOfDoc => exact .mkOk (h2.upd (fun s => { s with eof := true, depth := 0 }) (fun _ => rfl) rfl rfl)
      | exception => exact (nextBlob_rel h2).bind fun v s2 t2 _ h4 => .mkOk h4
      | padding => exact .mkOk h2

theorem skipPadLoop_rel : ∀ (fuel fuel' : Nat) {lo : Bool} {q : List Byte} {s t : Stream}, Rel lo q s t → fuel ≤ fuel' →
    (lo = false → fuel = fuel') → RR lo q (skipPadLoop fuel s) (skipPadLoop fuel' t) := by
  intro fuel
  induction fuel with
  | zero =>
    intro fuel' lo q s t h _ hq
    by_cases hq' : lo = false
    · obtain rfl := hq hq'; exact .mkErr h
    · exact .short ⟨hq', .inl (.inr rfl)⟩
  | succ fuel ih =>
    intro fuel' lo q s t h hle hq
    cases fuel' with
    | zero => omega
    | succ fuel' =>
      simp only [skipPadLoop]
      have hB := readElement_rel h
      cases hr : readElement s with
      | err e s' =>
        rw [M.bind_err hr]
        rcases hB.err e s' hr with hq | ⟨t', h1, h2⟩
        · exact .short hq
        · rw [M.bind_err h1]; exact .mkErr h2
      | ok e s' =>
        obtain ⟨t', h1, h2⟩ := hB.ok e s' hr
        rw [M.bind_ok hr, M.bind_ok h1, M.ite_apply, M.ite_apply]
        split
        · exact ih fuel' h2 (by omega) (fun h => by have := hq h; omega)
        · exact .mkOk h2

theorem Rel.fuel {lo : Bool} {q : List Byte} {s t : Stream} (h : Rel lo q s t) :
    s.inner.data.length - s.inner.pos + 2 ≤ t.inner.data.length - t.inner.pos + 2 ∧
    (lo = false → s.inner.data.length - s.inner.pos + 2 = t.inner.data.length - t.inner.pos + 2) := by
  rw [h.data, h.ipos, List.length_append]
  refine ⟨by omega, ?_⟩
  intro hq; rw [h.nil hq]; simp

theorem nextElementImpl_rel (sp : Bool) {lo : Bool} {q : List Byte} {s t : Stream} (h : Rel lo q s t) (hi : Inv s) :
    RR lo q (nextElementImpl sp s) (nextElementImpl sp t) := by
  unfold nextElementImpl
  rw [h.eof]
  split
  · exact .mkOk h
  · refine (commit_rel h hi).bind fun _ s' t' _ h' => ?_
    cases sp with
    | false => exact readElement_rel h'
    | true => exact skipPadLoop_rel _ _ h' h'.fuel.1 h'.fuel.2

/-- Draining a blob, on states of which at least one satisfies the invariant. When the blob goes beyond the end of
the shorter input the amounts differ. -/
theorem drainBlob_rel (n : Nat) {lo : Bool} {q : List Byte} {s t : Stream} (h : Rel lo q s t) (hn : n ≤ blobRemaining s)
    (he : s.blobEnd ≤ U64MAX) (hq : n ≤ s.rest.length ∨ lo = false) :
    RR lo q (drain blobRead n s) (drain blobRead n t) := by
  refine drained_rel h (drain_blob_spec n s hn he) (drain_blob_spec n t ?_ (by rw [h.blobEnd]; exact he)) hq
  unfold blobRemaining at hn ⊢; rw [h.blobEnd, h.pos]; exact hn

end Fourleaf
