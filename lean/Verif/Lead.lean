import Verif.RelProg

/-! # A reader that fails, next to one that does not

`Lead s t`: the streams are in the same state, but the reader of `s` may fail, while that of `t` is reliable. Every operation on `s` either has the same
outcome as on `t`, or reports the failure of the device. -/

namespace Fourleaf

structure Lead (s t : Stream) : Prop where
  eq : t = { s with inner := { s.inner with sched := t.inner.sched } }
  ben : Benign t.inner.sched

/-- The position of the next header is behind the end of the input. -/
def Beyond (s : Stream) : Prop := s.inner.data.length < vpos s

/-- The same outcome, or the failure is reported. A third possibility is that a seek over the rest of a blob failed, and that the input turned out, when the bytes were read
instead, to end inside of the blob; this is reported, but a stream which can seek does not notice it at that point. It happens only if `P`. -/
structure LR (P : Prop) {α : Type} (r r' : Res Err Stream α) : Prop where
  ok : ∀ a s, r = .ok a s → ∃ t, r' = .ok a t ∧ Lead s t
  err : ∀ e s, r = .err e s → e = .io .device ∨ (P ∧ Beyond s ∧ ∃ n, e = .truncatedBlob n) ∨ ∃ t, r' = .err e t ∧ Lead s t

variable {P Q : Prop}

theorem LR.mkOk {α : Type} {a : α} {s t : Stream} (h : Lead s t) : LR P (.ok a s) (.ok a t) :=
  ⟨fun a s h' => by cases h'; exact ⟨t, rfl, h⟩, fun e s h' => by cases h'⟩

theorem LR.mkErr {α : Type} {e : Err} {s t : Stream} (h : Lead s t) : LR P (.err e s : Res Err Stream α) (.err e t) :=
  ⟨fun a s h' => (by cases h'), fun e s h' => by cases h'; exact .inr (.inr ⟨t, rfl, h⟩)⟩

theorem LR.dev {α : Type} {s : Stream} {r : Res Err Stream α} : LR P (.err (.io .device) s : Res Err Stream α) r :=
  ⟨fun a s h' => (by cases h'), fun e s h' => by cases h'; exact .inl rfl⟩

theorem LR.short {α : Type} {s : Stream} {r : Res Err Stream α} {n : Nat} (hp : P) (hs : Beyond s) : LR P (.err (.truncatedBlob n) s : Res Err Stream α) r :=
  ⟨fun a s h' => (by cases h'), fun e s h' => by cases h'; exact .inr (.inl ⟨hp, hs, n, rfl⟩)⟩

theorem LR.weaken {α : Type} {r r' : Res Err Stream α} (h : LR P r r') (hq : P → Q) : LR Q r r' :=
  ⟨h.ok, fun e s h' => (h.err e s h').imp_right fun h => h.imp_left fun h => ⟨hq h.1, h.2⟩⟩

theorem LR.bind' {α β : Type} {m : M Err Stream α} {f : α → M Err Stream β} {s t : Stream} (h : LR P (m s) (m t))
    (hf : ∀ a s' t', m s = .ok a s' → m t = .ok a t' → Lead s' t' → LR P (f a s') (f a t')) : LR P ((m >>= f) s) ((m >>= f) t) := by
  cases hm : m s with
  | ok a s' =>
    obtain ⟨t', h1, h2⟩ := h.ok a s' hm
    rw [M.bind_ok hm, M.bind_ok h1]
    exact hf a s' t' hm h1 h2
  | err e s' =>
    rw [M.bind_err hm]
    rcases h.err e s' hm with rfl | ⟨h1, h2, n, rfl⟩ | ⟨t', h1, h2⟩
    · exact .dev
    · exact .short h1 h2
    · rw [M.bind_err h1]; exact .mkErr h2

theorem LR.bind {α β : Type} {m : M Err Stream α} {f : α → M Err Stream β} {s t : Stream} (h : LR P (m s) (m t))
    (hf : ∀ a s' t', m s = .ok a s' → Lead s' t' → LR P (f a s') (f a t')) : LR P ((m >>= f) s) ((m >>= f) t) :=
  h.bind' fun a s' t' h1 _ h2 => hf a s' t' h1 h2

/-- `s` with another schedule. -/
def onSched (sc : List Ev) (s : Stream) : Stream := { s with inner := { s.inner with sched := sc } }

theorem Lead.sched {s t : Stream} (h : Lead s t) : ∃ sc, t = onSched sc s ∧ Benign sc := ⟨_, h.eq, h.ben⟩
theorem onSched_lead {s : Stream} {sc : List Ev} (h : Benign sc) : Lead s (onSched sc s) := ⟨rfl, h⟩

theorem Lead.adv {s : Stream} {sc : List Ev} {k : Nat} {sc1 sc2 : List Ev} (h : Benign sc) (h2 : sc2 <:+ sc) :
    Lead (advBy s k sc1) (advBy (onSched sc s) k sc2) := ⟨rfl, h.suffix h2⟩

theorem onSched_rest (sc : List Ev) (s : Stream) : (onSched sc s).rest = s.rest := rfl

theorem Lead.commit {s t : Stream} (h : Lead s t) : t.commit = s.commit := by rw [h.eq]
theorem Lead.pos {s t : Stream} (h : Lead s t) : t.pos = s.pos := by rw [h.eq]
theorem Lead.ipos {s t : Stream} (h : Lead s t) : t.inner.pos = s.inner.pos := by rw [h.eq]
theorem Lead.data {s t : Stream} (h : Lead s t) : t.inner.data = s.inner.data := by rw [h.eq]
theorem Lead.eof {s t : Stream} (h : Lead s t) : t.eof = s.eof := by rw [h.eq]
theorem Lead.depth {s t : Stream} (h : Lead s t) : t.depth = s.depth := by rw [h.eq]
theorem Lead.live {s t : Stream} (h : Lead s t) : t.live = s.live := by rw [h.eq]
theorem Lead.blobEnd {s t : Stream} (h : Lead s t) : t.blobEnd = s.blobEnd := by rw [h.eq]
theorem Lead.remaining {s t : Stream} (h : Lead s t) : blobRemaining t = blobRemaining s := by unfold blobRemaining; rw [h.blobEnd, h.pos]

theorem readByte_lead (g : Bool) {s t : Stream} (h : Lead s t) : LR P (readByte g s) (readByte g t) := by
  obtain ⟨sc', rfl, hb⟩ := h.sched
  rcases readByte_spec g s with ⟨h1, sc1, h2, h3⟩ | ⟨h1, sc1, h2, h3⟩
  · rcases readByte_spec g (onSched sc' s) with ⟨k1, sc2, k2, k3⟩ | ⟨k1, sc2, k2, k3⟩
    · rw [h3, k3]; exact .mkErr (Lead.adv hb k2)
    · exact absurd k1 (Nat.not_lt.2 h1)
  · rcases readByte_spec g (onSched sc' s) with ⟨k1, sc2, k2, k3⟩ | ⟨k1, sc2, k2, k3⟩
    · exact absurd h1 (Nat.not_lt.2 k1)
    · rw [onSched_rest] at k3
      rcases h3 with ⟨b, l, h3, h4⟩ | ⟨h3, h4, h5, h6⟩ | ⟨h3, h4, h5⟩ | ⟨h3, h4⟩
      · rcases k3 with ⟨b', l', k3, k4⟩ | ⟨k3, -⟩ | ⟨k3, -⟩ | ⟨k3, -⟩
        · rw [h3] at k3; cases k3
          rw [h4, k4]; exact .mkOk (Lead.adv hb k2)
        · rw [h3] at k3; cases k3
        · rw [h3] at k3; cases k3
        · exact absurd hb k3
      · rcases k3 with ⟨b', l', k3, k4⟩ | ⟨-, -, -, k4⟩ | ⟨-, k3, -⟩ | ⟨k3, -⟩
        · rw [h3] at k3; cases k3
        · rw [h6, k4]; exact .mkOk (Lead.adv hb k2)
        · exact absurd ⟨h4, h5⟩ k3
        · exact absurd hb k3
      · rcases k3 with ⟨b', l', k3, k4⟩ | ⟨-, k3, k4, -⟩ | ⟨-, -, k4⟩ | ⟨k3, -⟩
        · rw [h3] at k3; cases k3
        · exact absurd ⟨k3, k4⟩ h4
        · rw [h5, k4]; exact .mkErr (Lead.adv hb k2)
        · exact absurd hb k3
      · rw [h4]; exact .dev

theorem drained_lead {s t : Stream} (h : Lead s t) {n : Nat} {r r' : Res Err Stream (List Byte)} (h1 : Drained s n [] r) (h2 : Drained t n [] r') :
    LR P r r' := by
  obtain ⟨sc', rfl, hb⟩ := h.sched
  obtain ⟨k, sc1, a1, a2, a3, a4⟩ := h1
  obtain ⟨k', sc2, b1, b2, b3, b4⟩ := h2
  rw [onSched_rest] at b4
  rcases a4 with ⟨a4, a5⟩ | ⟨-, a5⟩
  · rcases b4 with ⟨b4, b5⟩ | ⟨b4, -⟩
    · obtain rfl : k = k' := by omega
      rw [a5, b5]
      exact .mkOk (Lead.adv hb b3)
    · exact absurd hb b4
  · rw [a5]; exact .dev

theorem skipByDiscard_lead (n : Nat) {s t : Stream} (h : Lead s t) (hp : n ≤ U64MAX - s.pos) : LR P (skipByDiscard n s) (skipByDiscard n t) :=
  (drained_lead h (drain_track_spec n s hp) (drain_track_spec n t (by rw [h.pos]; exact hp))).bind fun _ _ _ _ h => .mkOk h

/-- Skipping: the same number of bytes, or the failure is reported, or a seek failed and less was skipped because the input ends. -/
structure LK (s : Stream) (n : Nat) (r r' : Res Err Stream Nat) : Prop where
  ok : ∀ k s', r = .ok k s' → (∃ t, r' = .ok k t ∧ Lead s' t) ∨ (k < n ∧ s.rest.length ≤ k ∧ .noSeek ∈ s.inner.sched)
  err : ∀ e s', r = .err e s' → e = .io .device ∨ ∃ t, r' = .err e t ∧ Lead s' t

theorem LR.lk {r r' : Res Err Stream Nat} (h : LR False r r') (s : Stream) (n : Nat) : LK s n r r' :=
  ⟨fun k s' hr => .inl (h.ok k s' hr), fun e s' hr => (h.err e s' hr).imp_right fun h => h.resolve_left fun h => h.1⟩

theorem skipSeekDirect_lead (n : Nat) {s t : Stream} (h : Lead s t) : LK s n (skipSeekDirect n s) (skipSeekDirect n t) := by
  unfold skipSeekDirect
  rw [h.pos]
  split
  · exact (LR.mkErr h).lk s n
  · obtain ⟨sc', rfl, hb⟩ := h.sched
    have hns : (onSched sc' s).inner.sched.head? ≠ some .noSeek := hb.seek
    rcases innerSeek_forward s n with ⟨h1, h2, -, h3⟩ | ⟨h1, e, sc, h2, h3⟩
    · rcases innerSeek_forward (onSched sc' s) n with ⟨k1, k2, -, k3⟩ | ⟨k1, e', sc2, k2, k3⟩
      · rw [h3, k3]; exact (LR.mkOk ⟨rfl, hb⟩).lk s n
      · exact absurd ⟨h1, h2, hns⟩ k1
    · rw [h3]
      rcases innerSeek_forward (onSched sc' s) n with ⟨k1, k2, -, k3⟩ | ⟨-, e', sc2, k2, k3⟩
      · have hsk : s.inner.sched.head? = some .noSeek := by
          rcases h2 with rfl | ⟨-, h2, -⟩
          · exact Classical.byContradiction fun hsk => h1 ⟨k1, k2, hsk⟩
          · exact h2
        have hmem : Ev.noSeek ∈ s.inner.sched := List.mem_of_head? hsk
        obtain ⟨k, sc', g1, g2, g3⟩ := skipByDiscard_spec (s := advBy s 0 sc) n (by simp; omega)
        rw [advBy_advBy, Nat.zero_add, advBy_rest, List.drop_zero] at g3
        dsimp only
        rcases g3 with ⟨g3, g4⟩ | ⟨-, g3⟩
        · rw [g3, k3]
          refine ⟨fun k' s' hr => ?_, fun e s' hr => by cases hr⟩
          cases hr
          by_cases hk : k < n
          · exact .inr ⟨hk, Nat.le_of_eq (g4 hk), hmem⟩
          · obtain rfl : k = n := by omega
            exact .inl ⟨_, rfl, rfl, hb⟩
        · rw [g3]; exact LR.dev.lk s n
      · rw [k3]
        exact (skipByDiscard_lead n (s := advBy s 0 sc) (t := advBy (onSched sc' s) 0 sc2) (Lead.adv hb (tail_or_suffix k2)) (by simp; omega)).lk s n

theorem skipBySeek_lead : ∀ (fuel n : Nat) {s t : Stream}, Lead s t → n ≤ U64MAX - s.pos → LK s n (skipBySeek fuel n s) (skipBySeek fuel n t) := by
  intro fuel
  induction fuel with
  | zero => intro n s t h _; exact (LR.mkErr h).lk s n
  | succ fuel ih =>
    intro n s t h hp
    rw [skipBySeek]
    by_cases hn : n > I64MAX
    · rw [if_pos hn]
      have h1 := skipSeekDirect_lead I64MAX h
      obtain ⟨k, sc, g1, g2, ⟨g3, g4⟩ | ⟨-, g3⟩⟩ := skipSeekDirect_spec (s := s) I64MAX (by omega)
      · rw [M.bind_ok g3]
        rcases h1.ok _ _ g3 with ⟨t', h2, h3⟩ | ⟨h2, h3, h4⟩
        · rw [M.bind_ok h2]
          simp only [M.ite_apply]
          split
          · exact (LR.mkOk h3).lk s n
          · have h5 := ih (n - k) h3 (by simp; omega)
            refine ⟨fun k' s' hr => ?_, fun e s' hr => ?_⟩
            · cases hm : skipBySeek fuel (n - k) (advBy s k sc) with
              | err e s2 => rw [M.bind_err hm] at hr; cases hr
              | ok k2 s2 =>
                rw [M.bind_ok hm] at hr
                cases hr
                rcases h5.ok k2 _ hm with ⟨t2, h6, h7⟩ | ⟨h6, h7, h8⟩
                · rw [M.bind_ok h6]; exact .inl ⟨t2, rfl, h7⟩
                · rw [advBy_rest, List.length_drop] at h7
                  exact .inr ⟨by omega, by omega, g2.subset h8⟩
            · cases hm : skipBySeek fuel (n - k) (advBy s k sc) with
              | ok k2 s2 => rw [M.bind_ok hm] at hr; cases hr
              | err e' s2 =>
                rw [M.bind_err hm] at hr
                cases hr
                rcases h5.err _ _ hm with h6 | ⟨t2, h6, h7⟩
                · exact .inl h6
                · rw [M.bind_err h6]; exact .inr ⟨t2, rfl, h7⟩
        · simp only [M.ite_apply]
          rw [if_pos h2]
          refine ⟨fun k' s' hr => ?_, fun e s' hr => by cases hr⟩
          cases hr
          exact .inr ⟨by omega, h3, h4⟩
      · rw [M.bind_err g3]; exact LR.dev.lk s n
    · rw [if_neg hn]; exact skipSeekDirect_lead n h

theorem skipBlob_lead {s t : Stream} (h : Lead s t) (hc : s.commit = some .skipBlob) (he : s.blobEnd ≤ U64MAX) :
    LR (Beyond s ∧ .noSeek ∈ s.inner.sched) (skipBlob s) (skipBlob t) := by
  have h3 : t.useSeek = s.useSeek := by rw [h.eq]
  by_cases hp : s.pos ≤ s.blobEnd
  · obtain ⟨k0, sc0, g1, g2, g3⟩ := skipBlob_spec hp he
    unfold skipBlob at g3 ⊢
    rw [h.blobEnd, h.pos, h3]
    split
    · rename_i hlt
      rw [if_pos hlt] at g3
      dsimp only at g3 ⊢
      have key : LK s (s.blobEnd - s.pos)
          ((if s.useSeek = true then skipBySeek 4 (s.blobEnd - s.pos) else skipByDiscard (s.blobEnd - s.pos)) s)
          ((if s.useSeek = true then skipBySeek 4 (s.blobEnd - s.pos) else skipByDiscard (s.blobEnd - s.pos)) t) := by
        split
        · exact skipBySeek_lead _ _ h (by omega)
        · exact (skipByDiscard_lead _ h (by omega)).lk _ _
      cases hm : (if s.useSeek = true then skipBySeek 4 (s.blobEnd - s.pos) else skipByDiscard (s.blobEnd - s.pos)) s with
      | ok k s' =>
        rcases key.ok k s' hm with ⟨t', h4, h5⟩ | ⟨h4, h5, h6⟩
        · rw [h4]
          dsimp only
          split
          · exact .mkErr h5
          · exact .mkOk h5
        · rw [hm] at g3
          dsimp only at g3 ⊢
          rw [if_pos h4] at g3 ⊢
          rcases g3 with ⟨-, g3⟩ | ⟨g3, g4, g5⟩ | ⟨-, g3⟩
          · cases g3
          · injection g5 with _ g5
            subst g5
            have hl : s.rest.length = s.inner.data.length - s.inner.pos := List.length_drop
            exact .short ⟨by simp only [Beyond, vpos, hc, if_true]; omega, h6⟩ (by simp only [Beyond, vpos, advBy, hc, if_true]; omega)
          · cases g3
      | err e s' =>
        rcases key.err e s' hm with rfl | ⟨t', h4, h5⟩
        · exact .dev
        · rw [h4]; exact .mkErr h5
    · exact .mkOk h
  · unfold skipBlob
    rw [h.blobEnd, h.pos, if_neg (by omega), if_neg (by omega)]
    exact .mkOk h

/-- Changing the same fields on both sides. -/
theorem Lead.upd {s t : Stream} (h : Lead s t) (f : Stream → Stream) (hf : ∀ sc, f (onSched sc s) = onSched sc (f s)) : Lead (f s) (f t) := by
  obtain ⟨sc', rfl, hb⟩ := h.sched
  rw [hf]
  exact onSched_lead hb

theorem commit_lead {s t : Stream} (h : Lead s t) (hi : Inv s) : LR (Beyond s ∧ .noSeek ∈ s.inner.sched) (Fourleaf.commit s) (Fourleaf.commit t) := by
  unfold Fourleaf.commit
  rw [h.commit]
  rcases hi.pend with hc | ⟨hc, hp, he⟩
  · rw [hc]; exact .mkOk h
  · have hS := (commit_safe hi).1.step
    rw [hc]
    have := skipBlob_lead h hc he
    unfold Fourleaf.commit at hS
    rw [hc] at hS
    dsimp only at hS ⊢
    cases hm : skipBlob s with
    | ok u s' =>
      obtain ⟨t', h1, h2⟩ := this.ok u s' hm
      rw [h1]
      exact .mkOk (h2.upd (fun s => { s with commit := none, live := false }) (fun _ => rfl))
    | err e s' =>
      rcases this.err e s' hm with rfl | ⟨h1, h2, n, rfl⟩ | ⟨t', h1, h2⟩
      · exact .dev
      · exact .short h1 h2
      · rw [h1]
        exact .mkErr (h2.upd (fun s => { s with live := false }) (fun _ => rfl))

theorem decodeLoop_lead : ∀ (fuel : Nat) (a : UInt64) (sh : Nat) {s t : Stream}, Lead s t →
    LR P (decodeLoop (readByte false) fuel a sh s) (decodeLoop (readByte false) fuel a sh t) := by
  intro fuel
  induction fuel with
  | zero => intro a sh s t h; exact .mkErr h
  | succ fuel ih =>
    intro a sh s t h
    simp only [decodeLoop]
    refine (readByte_lead false h).bind fun b s' t' _ h' => ?_
    simp only [M.ite_apply]
    repeat' split
    all_goals first | exact .mkErr h' | exact .mkOk h' | exact ih _ _ h'

theorem decodeU64_lead {s t : Stream} (h : Lead s t) : LR P (decodeU64 (readByte false) s) (decodeU64 (readByte false) t) := by
  unfold decodeU64; exact decodeLoop_lead _ _ _ h

theorem nextBlob_lead {s t : Stream} (h : Lead s t) : LR P (nextBlob s) (nextBlob t) := by
  unfold nextBlob
  refine (decodeU64_lead h).bind fun n s' t' _ h' => ?_
  refine LR.bind ?_ fun _ s2 t2 _ h2 => ?_
  · rw [checkAdvance_eq, checkAdvance_eq, h'.pos]
    split
    · exact .mkErr h'
    · exact .mkOk h'
  · rw [M.bind_ok (M.modify_apply _ _), M.bind_ok (M.modify_apply _ _)]
    exact .mkOk (h2.upd (fun s => { s with blobEnd := s.pos + n.toNat, commit := some .skipBlob, live := true }) (fun _ => rfl))

theorem Lead.setDepth {s t : Stream} (h : Lead s t) (f : Nat → Nat) : Lead { s with depth := f s.depth } { t with depth := f t.depth } :=
  h.upd (fun s => { s with depth := f s.depth }) (fun _ => rfl)

theorem nextValue_lead (ty : DescTy) {s t : Stream} (h : Lead s t) : LR P (nextValue ty s) (nextValue ty t) := by
  cases ty with
  | integer => simp only [nextValue]; exact (decodeU64_lead h).bind fun n s' t' _ h' => .mkOk h'
  | blob => simp only [nextValue]; exact (nextBlob_lead h).bind fun n s' t' _ h' => .mkOk h'
  | struct =>
    simp only [nextValue]
    rw [M.bind_ok (M.modify_apply _ _), M.bind_ok (M.modify_apply _ _)]
    exact .mkOk (h.setDepth (· + 1))
  | enum =>
    simp only [nextValue]
    refine (decodeU64_lead h).bind fun n s' t' _ h' => ?_
    rw [M.bind_ok (M.modify_apply _ _), M.bind_ok (M.modify_apply _ _)]
    exact .mkOk (h'.setDepth (· + 1))

theorem readElement_lead {s t : Stream} (h : Lead s t) : LR P (readElement s) (readElement t) := by
  have hB : LR P _ _ := readByte_lead true h
  unfold readElement
  cases hr : readByte true s with
  | err e s' =>
    rcases hB.err e s' hr with rfl | ⟨h1, h2, n, rfl⟩ | ⟨t', h1, h2⟩
    · exact .dev
    · exact .short h1 h2
    · rw [h1]; exact .mkErr h2
  | ok b s' =>
    obtain ⟨t', h1, h2⟩ := hB.ok b s' hr
    rw [h1, h.pos]
    obtain ⟨d, hd, -, -⟩ := Props.c07_parse_total b
    dsimp only
    rw [hd]
    cases d with
    | pair ty tag =>
      dsimp only
      have h3 : Lead (if s'.depth = 0 then { s' with depth := 1 } else s') (if t'.depth = 0 then { t' with depth := 1 } else t') := by
        rw [h2.depth]
        split
        · exact h2.setDepth (fun _ => 1)
        · exact h2
      rw [h3.depth]
      exact (nextValue_lead ty h3).bind fun v s2 t2 _ h4 => .mkOk h4
    | special sp =>
      cases sp with
      | endOfStruct => exact .mkOk (h2.setDepth (· - 1))
      | endOfDoc => exact .mkOk (h2.upd (fun s => { s with eof := true, depth := 0 }) (fun _ => rfl))
      | exception => exact (nextBlob_lead h2).bind fun v s2 t2 _ h4 => .mkOk h4
      | padding => exact .mkOk h2

theorem skipPadLoop_lead : ∀ (fuel : Nat) {s t : Stream}, Lead s t → LR P (skipPadLoop fuel s) (skipPadLoop fuel t) := by
  intro fuel
  induction fuel with
  | zero => intro s t h; exact .mkErr h
  | succ fuel ih =>
    intro s t h
    simp only [skipPadLoop]
    refine (readElement_lead h).bind fun e s' t' _ h2 => ?_
    rw [M.ite_apply, M.ite_apply]
    split
    · exact ih h2
    · exact .mkOk h2

theorem nextElementImpl_lead (sp : Bool) {s t : Stream} (h : Lead s t) (hi : Inv s) : LR (Beyond s ∧ .noSeek ∈ s.inner.sched) (nextElementImpl sp s) (nextElementImpl sp t) := by
  unfold nextElementImpl
  rw [h.eof]
  split
  · exact .mkOk h
  · refine (commit_lead h hi).bind fun _ s' t' _ h' => ?_
    cases sp with
    | false => exact readElement_lead h'
    | true =>
      show LR _ (skipPadLoop _ s') (skipPadLoop _ t')
      rw [h'.data, h'.ipos]
      exact skipPadLoop_lead _ h'

theorem drainBlob_lead (n : Nat) {s t : Stream} (h : Lead s t) (hn : n ≤ blobRemaining s) (he : s.blobEnd ≤ U64MAX) :
    LR P (drain blobRead n s) (drain blobRead n t) :=
  drained_lead h (drain_blob_spec n s hn he) (drain_blob_spec n t (by rw [h.remaining]; exact hn) (by rw [h.blobEnd]; exact he))

theorem blobEnd_le {s : Stream} (hi : Inv s) (hc : s.commit = some .skipBlob) : s.blobEnd ≤ U64MAX := by
  have hp := hi.pend
  rw [hc] at hp; simp at hp; exact hp.2

theorem readFully_lead (max : Nat) {s t : Stream} (h : Lead s t) (hi : Inv s) (hc : s.commit = some .skipBlob) :
    LR P (readFully max s) (readFully max t) := by
  unfold readFully
  rw [h.remaining]
  split
  · exact .mkErr h
  · exact drainBlob_lead _ h (Nat.le_refl _) (blobEnd_le hi hc)

theorem readOrTrunc_lead (max : Nat) {s t : Stream} (h : Lead s t) (hi : Inv s) (hc : s.commit = some .skipBlob) :
    LR P (readOrTrunc max s) (readOrTrunc max t) := by
  unfold readOrTrunc
  rw [h.remaining]
  exact drainBlob_lead _ h (Nat.min_le_right _ _) (blobEnd_le hi hc)

theorem nextField_lead {s t : Stream} (h : Lead s t) (hi : Inv s) : LR (Beyond s ∧ .noSeek ∈ s.inner.sched) (nextField s) (nextField t) := by
  unfold nextField
  refine (nextElementImpl_lead true h hi).bind fun e s' t' hr h' => ?_
  have hsh := nextElementImpl_shape hi hr
  have hS := nextElementImpl_safe true hi
  rw [hr] at hS
  cases e with
  | padding => exact .mkErr h'
  | endOfStruct => exact .mkOk h'
  | endOfDoc => exact .mkOk h'
  | field f => exact .mkOk h'
  | exception n => exact (readOrTrunc_lead 256 h' hS.1.step.inv hsh.1).bind fun _ _ _ _ h => .mkErr h

theorem Lead.inv {s t : Stream} (h : Lead s t) (hi : Inv s) : Inv t := by
  obtain ⟨sc, rfl, -⟩ := h.sched
  exact ⟨hi.pos_le, hi.pend, hi.eofCommit, hi.eofDepth, hi.liveOk⟩

theorem Lead.vpos {s t : Stream} (h : Lead s t) : vpos t = Fourleaf.vpos s := by rw [h.eq]; rfl

/-- Once the position of the next header is behind the end, it stays there. -/
theorem Beyond.step {s s' : Stream} (h : Beyond s) (hs : Step s s') : Beyond s' := by
  unfold Beyond at *
  rw [hs.frame.data]
  exact Nat.lt_of_lt_of_le h hs.mono

theorem Beyond.lead {s t : Stream} (h : Beyond s) (hl : Lead s t) : Beyond t := by
  unfold Beyond at *
  rw [hl.data, hl.vpos]; exact h

theorem skipUpLoop_step (d : Nat) : ∀ (fuel : Nat) {s : Stream}, Inv s → Step s (skipUpLoop d fuel s).state := by
  intro fuel
  induction fuel with
  | zero => intro s hi; exact .refl hi
  | succ fuel ih =>
    intro s hi
    rw [skipUpLoop]
    split
    · have hS := (nextElementImpl_safe false hi).1.step
      cases hr : nextElementImpl false s with
      | err e s' =>
        rw [hr] at hS; change nextElement s = _ at hr
        rw [M.bind_err hr]; exact hS
      | ok e s' =>
        rw [hr] at hS; change nextElement s = _ at hr
        rw [M.bind_ok hr]
        exact hS.trans (ih hS.inv)
    · exact .refl hi

theorem skipUpLoop_lead (d : Nat) : ∀ (fuel : Nat) {s t : Stream}, Lead s t → Inv s →
    LR (Beyond (skipUpLoop d fuel t).state ∧ .noSeek ∈ s.inner.sched) (skipUpLoop d fuel s) (skipUpLoop d fuel t) := by
  intro fuel
  induction fuel with
  | zero => intro s t h _; exact .mkErr h
  | succ fuel ih =>
    intro s t h hi
    have hT := skipUpLoop_step d (fuel + 1) (h.inv hi)
    rw [skipUpLoop, skipUpLoop, h.depth] at *
    split
    · rename_i hd
      rw [if_pos hd] at hT
      refine LR.bind' (m := nextElement) ((nextElementImpl_lead false h hi).weaken fun h' => ⟨(h'.1.lead h).step hT, h'.2⟩) fun e s' t' hr hr' h2 => ?_
      have hS := (nextElementImpl_safe false hi).1.step
      change nextElementImpl false s = _ at hr
      rw [hr] at hS
      rw [M.bind_ok hr']
      exact (ih h2 hS.inv).weaken fun h' => ⟨h'.1, hS.frame.sched.subset h'.2⟩
    · exact .mkOk h

theorem skipUp_lead (d : Nat) {s t : Stream} (h : Lead s t) (hi : Inv s) : LR (Beyond (skipUp d t).state ∧ .noSeek ∈ s.inner.sched) (skipUp d s) (skipUp d t) := by
  unfold skipUp
  rw [h.data, h.ipos]
  exact skipUpLoop_lead d _ h hi

theorem blobSlice_lead {s t : Stream} (h : Lead s t) (hi : Inv s) (hl : s.live = true) : LR P (blobSlice s) (blobSlice t) := by
  have hw := (hi.liveOk hl).2
  have h1 : innerSlice s = .ok s.inner.rest s := by unfold innerSlice; rw [if_neg (by omega)]
  have h2 : innerSlice t = .ok t.inner.rest t := by unfold innerSlice; rw [if_neg (by rw [h.ipos, h.data]; omega)]
  have hr : t.inner.rest = s.inner.rest := by unfold Inner.rest; rw [h.ipos, h.data]
  unfold blobSlice
  rw [M.bind_ok h1, M.bind_ok h2, M.bind_ok (M.get_apply s), M.bind_ok (M.get_apply t), M.ite_apply, M.ite_apply, h.remaining, hr]
  split
  · exact .mkOk h
  · exact .mkErr h

theorem Op.exec_lead {β : Type} (o : Op β) (ho : o.whole) {s t : Stream} (h : Lead s t) (hi : Inv s) :
    LR (Beyond (o.exec t).state ∧ .noSeek ∈ s.inner.sched) (o.exec s) (o.exec t) := by
  have hT := (o.exec_safe (h.inv hi)).step
  have hw : Beyond s ∧ Ev.noSeek ∈ s.inner.sched → Beyond (o.exec t).state ∧ Ev.noSeek ∈ s.inner.sched := fun h' => ⟨(h'.1.lead h).step hT, h'.2⟩
  have hlive : ∀ {α : Type} (m : M Err Stream α), (s.live = true → LR (Beyond (o.exec t).state ∧ .noSeek ∈ s.inner.sched) (m s) (m t)) →
      LR (Beyond (o.exec t).state ∧ .noSeek ∈ s.inner.sched) (onLiveBlob m s) (onLiveBlob m t) := by
    intro α m hm
    unfold onLiveBlob
    rw [h.live]
    split
    · rename_i hl; exact hm hl
    · exact .mkErr h
  cases o with
  | nextField => exact (nextField_lead h hi).weaken hw
  | nextElement => exact (nextElementImpl_lead false h hi).weaken hw
  | skipUp d => exact skipUp_lead d h hi
  | commit => exact (commit_lead h hi).weaken hw
  | clearEof => exact .mkOk (h.upd (fun s => { s with eof := false }) (fun _ => rfl))
  | eof => simp only [Op.exec, h.eof]; exact .mkOk h
  | pos => simp only [Op.exec, h.pos]; exact .mkOk h
  | structDepth => simp only [Op.exec, h.depth]; exact .mkOk h
  | readFully max => exact hlive _ fun hl => readFully_lead max h hi (hi.liveOk hl).1
  | readOrTrunc max => exact hlive _ fun hl => readOrTrunc_lead max h hi (hi.liveOk hl).1
  | read want => exact absurd ho id
  | slice => exact hlive _ fun hl => blobSlice_lead h hi hl
  | remaining =>
    refine hlive (fun s => .ok (blobRemaining s) s) fun _ => ?_
    rw [h.remaining]; exact .mkOk h

theorem pull_lead (fields : Bool) {s t : Stream} (h : Lead s t) (hi : Inv s) : LR (Beyond s ∧ .noSeek ∈ s.inner.sched) (pull fields s) (pull fields t) := by
  unfold pull
  cases fields with
  | true =>
    simp only [if_true]
    have hN := nextField_lead h hi
    cases hr : nextField s with
    | err e s' =>
      rcases hN.err e s' hr with rfl | ⟨h1, h2, n, rfl⟩ | ⟨t', h1, h2⟩
      · exact .dev
      · exact .short h1 h2
      · rw [h1]; exact .mkErr h2
    | ok o s' =>
      obtain ⟨t', h1, h2⟩ := hN.ok o s' hr
      rw [h1]
      cases o <;> exact .mkOk h2
  | false =>
    simp only [Bool.false_eq_true, if_false]
    have hN : LR _ (nextElement s) (nextElement t) := nextElementImpl_lead false h hi
    cases hr : nextElement s with
    | err e s' =>
      rcases hN.err e s' hr with rfl | ⟨h1, h2, n, rfl⟩ | ⟨t', h1, h2⟩
      · exact .dev
      · exact .short h1 h2
      · rw [h1]; exact .mkErr h2
    | ok o s' =>
      obtain ⟨t', h1, h2⟩ := hN.ok o s' hr
      rw [h1]
      cases o <;> exact .mkOk h2

/-! ## Programs -/

/-- The program stops at the first error `e` of a call, and turns it into an error `e'` with `D e e'`, or fails with one
fixed error whatever happened. -/
def Prog.Reports {ε U : Type} (D : Err → ε → Prop) : {α : Type} → Prog ε U α → Prop
  | _, .ret _ => True
  | _, .fail _ => True
  | _, .op _ => False
  | _, .call _ f => ∀ e, D e (f e)
  | _, .getU => True
  | _, .setU _ => True
  | _, .bind p f => (p.Reports D ∧ ∀ a, (f a).Reports D) ∨ ((∀ st, Inv st.1 → ∃ a st', p.run st = .ok a st') ∧ ∃ e, ∀ a, f a = .fail e)
  | _, .attempt _ => False
  | _, .loop _ _ body onErr onEnd =>
    (∀ b e, (body b e).Reports D) ∧ (∀ e, ∃ e', onErr e = .fail e' ∧ D e e') ∧ (∀ b, (onEnd b).Reports D)

/-- Runs with the same outcome, except that the failure may have been reported, or, if `P`, that a truncated blob has been noticed. -/
structure LP {ε U α : Type} (D : Err → ε → Prop) (P : Prop) (r r' : Res (Stop ε) (PSt U) α) : Prop where
  ok : ∀ a st, r = .ok a st → ∃ t, r' = .ok a (t, st.2) ∧ Lead st.1 t
  err : ∀ e st, r = .err (.client e) st → D (.io .device) e ∨ (P ∧ Beyond st.1 ∧ ∃ n, D (.truncatedBlob n) e) ∨ ∃ st', r' = .err (.client e) st'

section
variable {ε U α : Type} {D : Err → ε → Prop}

theorem LP.mkOk {a : α} {s t : Stream} {u : U} (h : Lead s t) : LP D P (.ok a (s, u) : Res (Stop ε) (PSt U) α) (.ok a (t, u)) :=
  ⟨fun a s h' => by cases h'; exact ⟨t, rfl, h⟩, fun e s h' => by cases h'⟩

theorem LP.mkErr {e : Stop ε} {st st' : PSt U} : LP D P (.err e st : Res (Stop ε) (PSt U) α) (.err e st') :=
  ⟨fun a s h' => (by cases h'), fun e s h' => by cases h'; exact .inr (.inr ⟨_, rfl⟩)⟩

theorem LP.dev {e : ε} {st : PSt U} {r : Res (Stop ε) (PSt U) α} (h : D (.io .device) e) : LP D P (.err (.client e) st : Res (Stop ε) (PSt U) α) r :=
  ⟨fun a s h' => (by cases h'), fun e s h' => by cases h'; exact .inl h⟩

theorem LP.short {e : ε} {st : PSt U} {r : Res (Stop ε) (PSt U) α} {n : Nat} (hp : P) (hs : Beyond st.1) (h : D (.truncatedBlob n) e) :
    LP D P (.err (.client e) st : Res (Stop ε) (PSt U) α) r :=
  ⟨fun a s h' => (by cases h'), fun e s h' => by cases h'; exact .inr (.inl ⟨hp, hs, n, h⟩)⟩

theorem LP.weaken {r r' : Res (Stop ε) (PSt U) α} (h : LP D P r r') (hq : P → Q) : LP D Q r r' :=
  ⟨h.ok, fun e s h' => (h.err e s h').imp_right fun h => h.imp_left fun h => ⟨hq h.1, h.2⟩⟩
end

theorem runLoop_step {ε U β α : Type} (fields : Bool)
    (body : β → Element → M (Stop ε) (PSt U) (β ⊕ α)) (onErr : Err → M (Stop ε) (PSt U) α) (onEnd : β → M (Stop ε) (PSt U) α)
    (sb : ∀ b e st, Inv st.1 → SafeRun st (body b e st)) (se : ∀ e st, Inv st.1 → SafeRun st (onErr e st)) (sd : ∀ b st, Inv st.1 → SafeRun st (onEnd b st)) :
    ∀ (fuel : Nat) (b : β) (st : PSt U), Inv st.1 → Step st.1 (runLoop fields body onErr onEnd fuel b st).state.1 := by
  intro fuel
  induction fuel with
  | zero => intro b st hi; exact .refl hi
  | succ fuel ih =>
    intro b st hi
    have hP := (pull_safe fields hi).1.step
    rw [runLoop]
    cases hr : pull fields st.1 with
    | err e s' =>
      rw [hr] at hP
      dsimp only
      split
      · exact hP
      · exact hP.trans (se e (s', st.2) hP.inv).step
    | ok o s' =>
      rw [hr] at hP
      cases o with
      | none => exact hP.trans (sd b (s', st.2) hP.inv).step
      | some el =>
        have hB := (sb b el (s', st.2) hP.inv).step
        dsimp only
        cases hm : body b el (s', st.2) with
        | err e st' => rw [hm] at hB; exact hP.trans hB
        | ok x st' =>
          rw [hm] at hB
          cases x with
          | inr a => exact hP.trans hB
          | inl b' => exact (hP.trans hB).trans (ih b' st' hB.inv)

theorem runLoop_lead {ε U β α : Type} (D : Err → ε → Prop) (fields : Bool)
    (body : β → Element → M (Stop ε) (PSt U) (β ⊕ α)) (onErr : Err → M (Stop ε) (PSt U) α) (onEnd : β → M (Stop ε) (PSt U) α)
    (sb : ∀ b e st, Inv st.1 → SafeRun st (body b e st)) (sd : ∀ b st, Inv st.1 → SafeRun st (onEnd b st))
    (hb : ∀ b e s t u, Lead s t → Inv s → LP D (Beyond (body b e (t, u)).state.1 ∧ .noSeek ∈ s.inner.sched) (body b e (s, u)) (body b e (t, u)))
    (hErr : ∀ e, ∃ e', (∀ st, onErr e st = .err (.client e') st) ∧ D e e')
    (hEnd : ∀ b s t u, Lead s t → Inv s → LP D (Beyond (onEnd b (t, u)).state.1 ∧ .noSeek ∈ s.inner.sched) (onEnd b (s, u)) (onEnd b (t, u))) :
    ∀ (fuel : Nat) (b : β) (s t : Stream) (u : U), Lead s t → Inv s →
    LP D (Beyond (runLoop fields body onErr onEnd fuel b (t, u)).state.1 ∧ .noSeek ∈ s.inner.sched)
      (runLoop fields body onErr onEnd fuel b (s, u)) (runLoop fields body onErr onEnd fuel b (t, u)) := by
  have se : ∀ e st, Inv st.1 → SafeRun st (onErr e st) := fun e st hi => by
    obtain ⟨e', h1, -⟩ := hErr e
    rw [h1]
    exact ⟨.refl hi, fun e st' h => by cases h⟩
  intro fuel
  induction fuel with
  | zero => intro b s t u h _; exact .mkErr
  | succ fuel ih =>
    intro b s t u h hi
    have hT := runLoop_step fields body onErr onEnd sb se sd (fuel + 1) b (t, u) (h.inv hi)
    have hP := pull_lead fields h hi
    have hS := pull_safe fields hi
    cases hr : pull fields s with
    | err e s' =>
      have hn : e.abnormal = false := by rw [hr] at hS; exact hS.1.normal _ _ rfl
      obtain ⟨e', he, hd⟩ := hErr e
      rcases hP.err e s' hr with rfl | ⟨h1, h2, n, rfl⟩ | ⟨t', h1, h2⟩
      · simp only [runLoop, hr, hn, Bool.false_eq_true, if_false, he]
        exact .dev hd
      · have : runLoop fields body onErr onEnd (fuel + 1) b (s, u) = .err (.client e') (s', u) := by
          simp only [runLoop, hr, hn, Bool.false_eq_true, if_false, he]
        rw [this]
        exact .short ⟨(h1.1.lead h).step hT, h1.2⟩ h2 hd
      · simp only [runLoop, hr, h1, hn, Bool.false_eq_true, if_false, he]
        exact .mkErr
    | ok o s' =>
      obtain ⟨t', h1, h2⟩ := hP.ok o s' hr
      have hst : Step s s' := by rw [hr] at hS; exact hS.1.step
      have hi' : Inv s' := hst.inv
      cases o with
      | none =>
        simp only [runLoop, hr, h1]
        exact (hEnd b s' t' u h2 hi').weaken fun h => ⟨h.1, hst.frame.sched.subset h.2⟩
      | some el =>
        have hB := hb b el s' t' u h2 hi'
        have hSB := sb b el (s', u) hi'
        have hTB := sb b el (t', u) (h2.inv hi')
        simp only [runLoop, hr, h1]
        cases hm : body b el (s', u) with
        | err e st' =>
          cases e with
          | client e =>
            rcases hB.err e st' hm with h3 | ⟨h3, h4, n, h5⟩ | ⟨st2, h3⟩
            · exact .dev h3
            · refine .short ⟨?_, hst.frame.sched.subset h3.2⟩ h4 h5
              cases hm' : body b el (t', u) with
              | err e st2 => rw [hm'] at h3; exact h3.1
              | ok x st2 =>
                rw [hm'] at h3 hTB
                cases x with
                | inr a => exact h3.1
                | inl b' => exact h3.1.step (runLoop_step fields body onErr onEnd sb se sd fuel b' st2 hTB.step.inv)
            · rw [h3]; exact .mkErr
          | abort e => rw [hm] at hSB; exact (hSB.normal e st' rfl).elim
        | ok x st' =>
          rw [hm] at hSB
          obtain ⟨t2, h3, h4⟩ := hB.ok x st' hm
          rw [h3]
          cases x with
          | inr a => exact .mkOk h4
          | inl b' => exact (ih b' st'.1 t2 st'.2 h4 hSB.step.inv).weaken fun h => ⟨h.1, hst.frame.sched.subset (hSB.step.frame.sched.subset h.2)⟩

theorem Prog.run_lead {ε U : Type} (D : Err → ε → Prop) : ∀ {α : Type} (p : Prog ε U α), p.OpsAll Op.whole → p.Reports D →
    ∀ (s t : Stream) (u : U), Lead s t → Inv s → LP D (Beyond (p.run (t, u)).state.1 ∧ .noSeek ∈ s.inner.sched) (p.run (s, u)) (p.run (t, u)) := by
  intro α p
  induction p with
  | ret a => intro _ _ s t u h _; exact .mkOk h
  | fail e => intro _ _ s t u h _; exact .mkErr
  | op o => intro _ hq; exact hq.elim
  | call o f =>
    intro hw hq s t u h hi
    have hO := o.exec_lead hw h hi
    have hS := o.exec_safe hi
    simp only [Prog.run]
    cases hr : o.exec s with
    | ok b s' =>
      obtain ⟨t', h1, h2⟩ := hO.ok b s' hr
      rw [h1]; exact .mkOk h2
    | err e s' =>
      rw [hr] at hS
      simp only [hS.normal _ _ rfl, Bool.false_eq_true, if_false]
      rcases hO.err e s' hr with rfl | ⟨h1, h2, n, rfl⟩ | ⟨t', h1, h2⟩
      · exact .dev (hq _)
      · refine .short ⟨?_, h1.2⟩ h2 (hq _)
        have h3 := h1.1
        cases hr' : o.exec t with
        | ok b t' => rw [hr'] at h3; exact h3
        | err e t' =>
          rw [hr'] at h3
          dsimp only
          split <;> exact h3
      · rw [h1]
        simp only [hS.normal _ _ rfl, Bool.false_eq_true, if_false]
        exact .mkErr
  | getU => intro _ _ s t u h _; exact .mkOk h
  | setU u' => intro _ _ s t u h _; exact .mkOk h
  | bind p f ihp ihf =>
    intro hw hq s t u h hi
    have hS := p.run_safe (s, u) hi
    have hT := p.run_safe (t, u) (h.inv hi)
    simp only [Prog.run]
    rcases hq with ⟨hp, hf⟩ | ⟨hp, e, hf⟩
    · have hP := ihp hw.1 hp s t u h hi
      cases hr : p.run (s, u) with
      | ok a st' =>
        rw [hr] at hS
        obtain ⟨t', h1, h2⟩ := hP.ok a st' hr
        rw [h1]
        exact (ihf a (hw.2 a) (hf a) st'.1 t' st'.2 h2 hS.step.inv).weaken fun h => ⟨h.1, hS.step.frame.sched.subset h.2⟩
      | err e st' =>
        rw [hr] at hS
        cases e with
        | client e =>
          rcases hP.err e st' hr with h1 | ⟨h1, h2, n, h3⟩ | ⟨st2, h1⟩
          · exact .dev h1
          · refine .short ⟨?_, h1.2⟩ h2 h3
            have h4 := h1.1
            cases hr' : p.run (t, u) with
            | err e st2 => rw [hr'] at h4; exact h4
            | ok a st2 =>
              rw [hr'] at h4 hT
              exact h4.step ((f a).run_safe st2 hT.step.inv).step
          · rw [h1]; exact .mkErr
        | abort e => exact (hS.normal e st' rfl).elim
    · obtain ⟨a, st1, h1⟩ := hp (s, u) hi
      obtain ⟨b, st2, h2⟩ := hp (t, u) (h.inv hi)
      rw [h1, h2]
      dsimp only
      rw [hf a, hf b]
      exact .mkErr
  | attempt p ih => intro _ hq; exact hq.elim
  | loop fields init body onErr onEnd ihb ihe ihd =>
    intro hw hq s t u h hi
    simp only [Prog.run, h.data, h.ipos]
    refine runLoop_lead D fields _ _ _ (fun b e st h => (body b e).run_safe st h) (fun b st h => (onEnd b).run_safe st h) ?_ ?_ ?_ _ init s t u h hi
    · exact fun b e s t u h hi => ihb b e (hw.1 b e) (hq.1 b e) s t u h hi
    · intro e
      obtain ⟨e', h1, h2⟩ := hq.2.1 e
      exact ⟨e', fun st => by rw [h1]; rfl, h2⟩
    · exact fun b s t u h hi => ihd b (hw.2.2 b) (hq.2.2 b) s t u h hi

end Fourleaf
