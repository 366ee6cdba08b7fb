import Verif.RelProg

/-! # Left-over bookkeeping does not matter

When no blob is pending, `blob_end` and `dynamic_blob_start` hold values of the past. No reading call looks at them. -/

namespace Fourleaf

/-- The stream with other left-over values. -/
def leftover (b y : Nat) (s : Stream) : Stream := { s with blobEnd := b, dynStart := y }

def Res.onState {ε σ α : Type} (f : σ → σ) : Res ε σ α → Res ε σ α
  | .ok a s => .ok a (f s)
  | .err e s => .err e (f s)

/-- Equal up to left-overs. -/
def St (s t : Stream) : Prop := ∃ b y, t = leftover b y s ∧ s.commit ≠ some .finishDyn ∧ (s.commit ≠ none ∨ s.live = true → b = s.blobEnd)

structure StRes {α : Type} (r r' : Res Err Stream α) : Prop where
  ok : ∀ a s, r = .ok a s → ∃ t, r' = .ok a t ∧ St s t
  err : ∀ e s, r = .err e s → ∃ t, r' = .err e t ∧ St s t

theorem StRes.mkOk {α : Type} {a : α} {s t : Stream} (h : St s t) : StRes (.ok a s : Res Err Stream α) (.ok a t) :=
  ⟨fun a s h' => by cases h'; exact ⟨t, rfl, h⟩, fun e s h' => by cases h'⟩

theorem StRes.mkErr {α : Type} {e : Err} {s t : Stream} (h : St s t) : StRes (.err e s : Res Err Stream α) (.err e t) :=
  ⟨fun a s h' => (by cases h'), fun e s h' => by cases h'; exact ⟨t, rfl, h⟩⟩

theorem StRes.bind {α β : Type} {m : M Err Stream α} {f : α → M Err Stream β} {s t : Stream} (h : StRes (m s) (m t))
    (hf : ∀ a s' t', m s = .ok a s' → St s' t' → StRes (f a s') (f a t')) : StRes ((m >>= f) s) ((m >>= f) t) := by
  cases hm : m s with
  | ok a s' =>
    obtain ⟨t', h1, h2⟩ := h.ok a s' hm
    rw [M.bind_ok hm, M.bind_ok h1]
    exact hf a s' t' hm h2
  | err e s' =>
    obtain ⟨t', h1, h2⟩ := h.err e s' hm
    rw [M.bind_err hm, M.bind_err h1]; exact .mkErr h2

/-- A computation that neither looks at nor touches any bookkeeping of blobs. -/
structure Blind {α : Type} (m : M Err Stream α) : Prop where
  upd : ∀ s b y, m (leftover b y s) = (m s).onState (leftover b y)
  same : ∀ s, (m s).state.commit = s.commit ∧ (m s).state.live = s.live ∧ (m s).state.blobEnd = s.blobEnd

theorem Blind.rs {α : Type} {m : M Err Stream α} (hm : Blind m) {s t : Stream} (h : St s t) : StRes (m s) (m t) := by
  obtain ⟨b, y, rfl, h1, h2⟩ := h
  rw [hm.upd]
  obtain ⟨e1, e2, e3⟩ := hm.same s
  cases hr : m s with
  | ok a s' => rw [hr] at e1 e2 e3; exact .mkOk ⟨b, y, rfl, by rw [show s'.commit = s.commit from e1]; exact h1, by
      rw [show s'.commit = s.commit from e1, show s'.live = s.live from e2, show s'.blobEnd = s.blobEnd from e3]; exact h2⟩
  | err e s' => rw [hr] at e1 e2 e3; exact .mkErr ⟨b, y, rfl, by rw [show s'.commit = s.commit from e1]; exact h1, by
      rw [show s'.commit = s.commit from e1, show s'.live = s.live from e2, show s'.blobEnd = s.blobEnd from e3]; exact h2⟩

theorem Blind.pure_ {α : Type} (a : α) : Blind (pure a : M Err Stream α) := ⟨fun _ _ _ => rfl, fun _ => ⟨rfl, rfl, rfl⟩⟩
theorem Blind.throw_ {α : Type} (e : Err) : Blind (M.throw e : M Err Stream α) := ⟨fun _ _ _ => rfl, fun _ => ⟨rfl, rfl, rfl⟩⟩

theorem Blind.bind_ {α β : Type} {m : M Err Stream α} {f : α → M Err Stream β} (hm : Blind m) (hf : ∀ a, Blind (f a)) : Blind (m >>= f) where
  upd s b y := by
    rw [M.bind_apply, M.bind_apply, hm.upd]
    cases m s with
    | ok a s' => exact (hf a).upd s' b y
    | err e s' => rfl
  same s := by
    rw [M.bind_apply]
    have := hm.same s
    cases hr : m s with
    | ok a s' =>
      rw [hr] at this
      obtain ⟨e1, e2, e3⟩ := (hf a).same s'
      exact ⟨e1.trans this.1, e2.trans this.2.1, e3.trans this.2.2⟩
    | err e s' => rw [hr] at this; exact this

theorem Blind.ite_ {α : Type} (c : Prop) [Decidable c] {m m' : M Err Stream α} (h : Blind m) (h' : Blind m') : Blind (if c then m else m') := by
  split
  · exact h
  · exact h'

theorem trackRead_blind (g : Bool) (want : Nat) : Blind (trackRead g want) := by
  constructor
  · intro s b y
    unfold trackRead
    show (if want = 0 then _ else if U64MAX - s.pos < want then _ else match s.inner.read want with | .err e i => _ | .ok d i => _) = _
    by_cases h0 : want = 0
    · rw [if_pos h0, if_pos h0]; rfl
    · rw [if_neg h0, if_neg h0]
      by_cases h1 : U64MAX - s.pos < want
      · rw [if_pos h1, if_pos h1]; rfl
      · rw [if_neg h1, if_neg h1]
        cases s.inner.read want with
        | err e i => rfl
        | ok d i =>
          dsimp only
          show (if d = [] ∧ g = true ∧ s.graceful = true then _ else _) = _
          split <;> rfl
  · intro s
    unfold trackRead
    repeat' split
    all_goals exact ⟨rfl, rfl, rfl⟩

theorem readByteLoop_blind (g : Bool) : ∀ fuel, Blind (readByteLoop g fuel) := by
  intro fuel
  induction fuel with
  | zero => exact ⟨fun _ _ _ => rfl, fun _ => ⟨rfl, rfl, rfl⟩⟩
  | succ fuel ih =>
    have hT := trackRead_blind g 1
    constructor
    · intro s b y
      simp only [readByteLoop, hT.upd]
      cases trackRead g 1 s with
      | ok d s' => cases d <;> rfl
      | err e s' =>
        cases e with
        | io k => cases k <;> first | exact ih.upd s' b y | rfl
        | _ => rfl
    · intro s
      have h1 := hT.same s
      simp only [readByteLoop]
      cases hr : trackRead g 1 s with
      | ok d s' => rw [hr] at h1; cases d <;> exact h1
      | err e s' =>
        rw [hr] at h1
        have h2 := ih.same s'
        have h3 : (readByteLoop g fuel s').state.commit = s.commit ∧ (readByteLoop g fuel s').state.live = s.live ∧ (readByteLoop g fuel s').state.blobEnd = s.blobEnd :=
          ⟨h2.1.trans h1.1, h2.2.1.trans h1.2.1, h2.2.2.trans h1.2.2⟩
        cases e with
        | io k => cases k <;> first | exact h3 | exact h1
        | _ => exact h1

theorem readByte_blind (g : Bool) : Blind (readByte g) :=
  ⟨fun s b y => (readByteLoop_blind g (s.inner.sched.length + 1)).upd s b y, fun s => (readByteLoop_blind g (s.inner.sched.length + 1)).same s⟩

theorem decodeLoop_blind : ∀ (fuel : Nat) (a : UInt64) (sh : Nat), Blind (decodeLoop (readByte false) fuel a sh) := by
  intro fuel
  induction fuel with
  | zero => intro a sh; exact .throw_ _
  | succ fuel ih =>
    intro a sh
    simp only [decodeLoop]
    refine (readByte_blind false).bind_ fun b => ?_
    repeat' split
    all_goals first | exact .throw_ _ | exact .pure_ _ | exact ih _ _

theorem decodeU64_blind : Blind (decodeU64 (readByte false)) := by unfold decodeU64; exact decodeLoop_blind _ _ _

theorem drainLoop_blind {rd : Nat → M Err Stream (List Byte)} (hT : ∀ n, Blind (rd n)) : ∀ fuel lim acc, Blind (drainLoop rd fuel lim acc) := by
  intro fuel
  induction fuel with
  | zero => intro _ _; exact ⟨fun _ _ _ => rfl, fun _ => ⟨rfl, rfl, rfl⟩⟩
  | succ fuel ih =>
    intro lim acc
    constructor
    · intro s b y
      simp only [drainLoop, (hT lim).upd]
      split
      · rfl
      · cases rd lim s with
        | ok d s' =>
          simp only [Res.onState]
          split
          · rfl
          · exact (ih _ _).upd s' b y
        | err e s' =>
          cases e with
          | io k => cases k <;> first | exact (ih _ _).upd s' b y | rfl
          | _ => rfl
    · intro s
      have h1 := (hT lim).same s
      simp only [drainLoop]
      split
      · exact ⟨rfl, rfl, rfl⟩
      · have go : ∀ {s' : Stream}, s'.commit = s.commit ∧ s'.live = s.live ∧ s'.blobEnd = s.blobEnd → ∀ lim acc,
            (drainLoop rd fuel lim acc s').state.commit = s.commit ∧ (drainLoop rd fuel lim acc s').state.live = s.live ∧ (drainLoop rd fuel lim acc s').state.blobEnd = s.blobEnd := by
          intro s' h lim acc
          have h2 := (ih lim acc).same s'
          exact ⟨h2.1.trans h.1, h2.2.1.trans h.2.1, h2.2.2.trans h.2.2⟩
        cases hr : rd lim s with
        | ok d s' =>
          rw [hr] at h1
          dsimp only
          split
          · exact h1
          · exact go h1 _ _
        | err e s' =>
          rw [hr] at h1
          cases e with
          | io k => cases k <;> first | exact go h1 _ _ | exact h1
          | _ => exact h1

theorem drain_blind {rd : Nat → M Err Stream (List Byte)} (hT : ∀ n, Blind (rd n)) (n : Nat) : Blind (drain rd n) :=
  ⟨fun s b y => (drainLoop_blind hT (s.inner.sched.length + 3) n []).upd s b y, fun s => (drainLoop_blind hT (s.inner.sched.length + 3) n []).same s⟩

theorem skipByDiscard_blind (n : Nat) : Blind (skipByDiscard n) := by
  unfold skipByDiscard
  exact (drain_blind (trackRead_blind false) n).bind_ fun d => .pure_ _

theorem innerSeek_blind (w : SeekFrom) : Blind (innerSeek w) := by
  constructor
  · intro s b y
    show (match s.inner.seek w with | .ok n i => _ | .err e i => _) = _
    unfold innerSeek
    cases s.inner.seek w <;> rfl
  · intro s
    unfold innerSeek
    split <;> exact ⟨rfl, rfl, rfl⟩

theorem skipSeekDirect_blind (n : Nat) : Blind (skipSeekDirect n) := by
  have hI := innerSeek_blind (.current n)
  have hD := skipByDiscard_blind n
  constructor
  · intro s b y
    simp only [skipSeekDirect, hI.upd]
    show (if U64MAX - s.pos < n then _ else _) = _
    split
    · rfl
    · cases innerSeek (.current n) s with
      | ok k s' => rfl
      | err e s' => exact hD.upd s' b y
  · intro s
    have h1 := hI.same s
    unfold skipSeekDirect
    split
    · exact ⟨rfl, rfl, rfl⟩
    · cases hr : innerSeek (.current n) s with
      | ok k s' => rw [hr] at h1; exact h1
      | err e s' =>
        rw [hr] at h1
        have h2 := hD.same s'
        exact ⟨h2.1.trans h1.1, h2.2.1.trans h1.2.1, h2.2.2.trans h1.2.2⟩

theorem skipBySeek_blind : ∀ fuel n, Blind (skipBySeek fuel n) := by
  intro fuel
  induction fuel with
  | zero => intro n; exact .throw_ _
  | succ fuel ih =>
    intro n
    simp only [skipBySeek]
    refine .ite_ _ ((skipSeekDirect_blind _).bind_ fun k => .ite_ _ (.pure_ _) ((ih _).bind_ fun _ => .pure_ _)) (skipSeekDirect_blind n)

theorem skipBlob_rs {s t : Stream} (h : St s t) (hc : s.commit ≠ none) : StRes (skipBlob s) (skipBlob t) := by
  have hb : t.blobEnd = s.blobEnd := by obtain ⟨b, y, rfl, -, h2⟩ := h; exact h2 (.inl hc)
  have hp : t.pos = s.pos := by obtain ⟨b, y, rfl, -, h2⟩ := h; rfl
  have hu : t.useSeek = s.useSeek := by obtain ⟨b, y, rfl, -, h2⟩ := h; rfl
  unfold skipBlob
  rw [hb, hp, hu]
  split
  · dsimp only
    have key : StRes ((if s.useSeek = true then skipBySeek 4 (s.blobEnd - s.pos) else skipByDiscard (s.blobEnd - s.pos)) s)
        ((if s.useSeek = true then skipBySeek 4 (s.blobEnd - s.pos) else skipByDiscard (s.blobEnd - s.pos)) t) := by
      split
      · exact (skipBySeek_blind _ _).rs h
      · exact (skipByDiscard_blind _).rs h
    cases hm : (if s.useSeek = true then skipBySeek 4 (s.blobEnd - s.pos) else skipByDiscard (s.blobEnd - s.pos)) s with
    | ok k s' =>
      obtain ⟨t', h4, h5⟩ := key.ok k s' hm
      rw [h4]
      dsimp only
      split
      · exact .mkErr h5
      · exact .mkOk h5
    | err e s' =>
      obtain ⟨t', h4, h5⟩ := key.err e s' hm
      rw [h4]; exact .mkErr h5
  · exact .mkOk h

theorem checkAtEndOfBlob_rs {s t : Stream} (h : St s t) (hc : s.commit ≠ none) : StRes (checkAtEndOfBlob s) (checkAtEndOfBlob t) := by
  have hb : t.blobEnd = s.blobEnd := by obtain ⟨b, y, rfl, -, h2⟩ := h; exact h2 (.inl hc)
  have hp : t.pos = s.pos := by obtain ⟨b, y, rfl, -, h2⟩ := h; rfl
  unfold checkAtEndOfBlob
  rw [hb, hp]
  repeat' split
  all_goals first | exact .mkErr h | exact .mkOk h

theorem commit_rs {s t : Stream} (h : St s t) : StRes (commit s) (commit t) := by
  have hc' : t.commit = s.commit := by obtain ⟨b, y, rfl, -, h2⟩ := h; rfl
  unfold commit
  rw [hc']
  cases hc : s.commit with
  | none => exact .mkOk h
  | some c =>
    have fin : ∀ {s' t' : Stream}, St s' t' → St { s' with commit := none, live := false } { t' with commit := none, live := false } := by
      rintro s' t' ⟨b, y, rfl, h1, h2⟩
      exact ⟨b, y, rfl, by simp, by simp⟩
    have fin' : ∀ {s' t' : Stream}, St s' t' → St { s' with live := false } { t' with live := false } := by
      rintro s' t' ⟨b, y, rfl, h1, h2⟩
      exact ⟨b, y, rfl, h1, fun h => h2 (h.imp_right fun h => by cases h)⟩
    have key : ∀ m : M Err Stream Unit, StRes (m s) (m t) →
        StRes (match m s with | .ok _ s' => (.ok () { s' with commit := none, live := false } : Res Err Stream Unit) | .err e s' => .err e { s' with live := false })
          (match m t with | .ok _ s' => .ok () { s' with commit := none, live := false } | .err e s' => .err e { s' with live := false }) := by
      intro m key
      cases hm : m s with
      | ok u s' => obtain ⟨t', h1, h2⟩ := key.ok u s' hm; rw [h1]; exact .mkOk (fin h2)
      | err e s' => obtain ⟨t', h1, h2⟩ := key.err e s' hm; rw [h1]; exact .mkErr (fin' h2)
    cases c with
    | skipBlob => exact key _ (skipBlob_rs h (by rw [hc]; simp))
    | checkEnd => exact key _ (checkAtEndOfBlob_rs h (by rw [hc]; simp))
    | finishDyn => obtain ⟨b, y, rfl, h1, h2⟩ := h; exact absurd hc h1

theorem checkAdvance_blind (n : Nat) : Blind (checkAdvance n) := by
  constructor
  · intro s b y
    show (if U64MAX - s.pos < n then _ else _) = _
    unfold checkAdvance
    split <;> rfl
  · intro s; unfold checkAdvance; split <;> exact ⟨rfl, rfl, rfl⟩

theorem nextBlob_rs {s t : Stream} (h : St s t) : StRes (nextBlob s) (nextBlob t) := by
  unfold nextBlob
  refine (decodeU64_blind.rs h).bind fun n s' t' _ h' => ?_
  refine ((checkAdvance_blind _).rs h').bind fun _ s2 t2 _ h2 => ?_
  rw [M.bind_ok (M.modify_apply _ _), M.bind_ok (M.modify_apply _ _)]
  obtain ⟨b, y, rfl, -, -⟩ := h2
  exact .mkOk ⟨_, y, rfl, by simp, fun _ => rfl⟩

theorem St.setDepth {s t : Stream} (h : St s t) (f : Nat → Nat) : St { s with depth := f s.depth } { t with depth := f t.depth } := by
  obtain ⟨b, y, rfl, h1, h2⟩ := h; exact ⟨b, y, rfl, h1, h2⟩

theorem nextValue_rs (ty : DescTy) {s t : Stream} (h : St s t) : StRes (nextValue ty s) (nextValue ty t) := by
  cases ty with
  | integer => simp only [nextValue]; exact (decodeU64_blind.rs h).bind fun n s' t' _ h' => .mkOk h'
  | blob => simp only [nextValue]; exact (nextBlob_rs h).bind fun n s' t' _ h' => .mkOk h'
  | struct =>
    simp only [nextValue]
    rw [M.bind_ok (M.modify_apply _ _), M.bind_ok (M.modify_apply _ _)]
    exact .mkOk (h.setDepth (· + 1))
  | enum =>
    simp only [nextValue]
    refine (decodeU64_blind.rs h).bind fun n s' t' _ h' => ?_
    rw [M.bind_ok (M.modify_apply _ _), M.bind_ok (M.modify_apply _ _)]
    exact .mkOk (h'.setDepth (· + 1))

section
variable {s t : Stream} (h : St s t)
include h
theorem St.pos : t.pos = s.pos := by obtain ⟨b, y, rfl, -, h2⟩ := h; rfl
theorem St.inner : t.inner = s.inner := by obtain ⟨b, y, rfl, -, h2⟩ := h; rfl
theorem St.depth : t.depth = s.depth := by obtain ⟨b, y, rfl, -, h2⟩ := h; rfl
theorem St.eof : t.eof = s.eof := by obtain ⟨b, y, rfl, -, h2⟩ := h; rfl
theorem St.live : t.live = s.live := by obtain ⟨b, y, rfl, -, h2⟩ := h; rfl
theorem St.blobEnd (hl : s.commit ≠ none ∨ s.live = true) : t.blobEnd = s.blobEnd := by obtain ⟨b, y, rfl, -, h2⟩ := h; exact h2 hl
theorem St.remaining (hl : s.commit ≠ none ∨ s.live = true) : blobRemaining t = blobRemaining s := by unfold blobRemaining; rw [h.pos, h.blobEnd hl]
end

theorem readElement_rs {s t : Stream} (h : St s t) : StRes (readElement s) (readElement t) := by
  have hB := (readByte_blind true).rs h
  unfold readElement
  cases hr : readByte true s with
  | err e s' => obtain ⟨t', h1, h2⟩ := hB.err e s' hr; rw [h1]; exact .mkErr h2
  | ok b s' =>
    obtain ⟨t', h1, h2⟩ := hB.ok b s' hr
    rw [h1, h.pos]
    dsimp only
    cases Desc.parse b with
    | none => exact .mkErr h2
    | some d =>
      cases d with
      | pair ty tag =>
        dsimp only
        have h3 : St (if s'.depth = 0 then { s' with depth := 1 } else s') (if t'.depth = 0 then { t' with depth := 1 } else t') := by
          rw [h2.depth]
          split
          · exact h2.setDepth (fun _ => 1)
          · exact h2
        rw [h3.depth]
        exact (nextValue_rs ty h3).bind fun v s2 t2 _ h4 => .mkOk h4
      | special sp =>
        cases sp with
        | endOfStruct => exact .mkOk (h2.setDepth (· - 1))
        | endOfDoc => obtain ⟨b, y, rfl, h3, h4⟩ := h2; exact .mkOk ⟨b, y, rfl, h3, h4⟩
        | exception => exact (nextBlob_rs h2).bind fun v s2 t2 _ h4 => .mkOk h4
        | padding => exact .mkOk h2

theorem skipPadLoop_rs : ∀ (fuel : Nat) {s t : Stream}, St s t → StRes (skipPadLoop fuel s) (skipPadLoop fuel t) := by
  intro fuel
  induction fuel with
  | zero => intro s t h; exact .mkErr h
  | succ fuel ih =>
    intro s t h
    simp only [skipPadLoop]
    refine (readElement_rs h).bind fun e s' t' _ h' => ?_
    rw [M.ite_apply, M.ite_apply]
    split
    · exact ih h'
    · exact .mkOk h'

theorem nextElementImpl_rs (sp : Bool) {s t : Stream} (h : St s t) : StRes (nextElementImpl sp s) (nextElementImpl sp t) := by
  unfold nextElementImpl
  rw [h.eof]
  split
  · exact .mkOk h
  · refine (commit_rs h).bind fun _ s' t' _ h' => ?_
    cases sp with
    | false => exact readElement_rs h'
    | true =>
      simp only [if_true]
      rw [M.bind_ok (M.get_apply _), M.bind_ok (M.get_apply _), h'.inner]
      exact skipPadLoop_rs _ h'

theorem drain_blobRead_rs (n : Nat) : ∀ {s t : Stream}, St s t → (s.commit ≠ none ∨ s.live = true) → StRes (drain blobRead n s) (drain blobRead n t) := by
  have one : ∀ want {s t : Stream}, St s t → (s.commit ≠ none ∨ s.live = true) →
      StRes (blobRead want s) (blobRead want t) ∧ ∀ s', s' = (blobRead want s).state → (s'.commit ≠ none ∨ s'.live = true) := by
    intro want s t h hl
    unfold blobRead
    rw [h.remaining hl]
    dsimp only
    split
    · exact ⟨.mkOk h, fun s' h' => by rw [h']; exact hl⟩
    · refine ⟨(trackRead_blind _ _).rs h, fun s' h' => ?_⟩
      obtain ⟨e1, e2, -⟩ := (trackRead_blind false (min want (blobRemaining s))).same s
      rw [h', e1, e2]; exact hl
  have loop : ∀ fuel lim acc {s t : Stream}, St s t → (s.commit ≠ none ∨ s.live = true) → StRes (drainLoop blobRead fuel lim acc s) (drainLoop blobRead fuel lim acc t) := by
    intro fuel
    induction fuel with
    | zero => intro lim acc s t h _; exact .mkErr h
    | succ fuel ih =>
      intro lim acc s t h hl
      obtain ⟨h1, h2⟩ := one lim h hl
      simp only [drainLoop]
      split
      · exact .mkOk h
      · cases hr : blobRead lim s with
        | ok d s' =>
          obtain ⟨t', h3, h4⟩ := h1.ok d s' hr
          rw [h3]
          have hl' := h2 s' (by rw [hr]; rfl)
          dsimp only
          split
          · exact .mkOk h4
          · exact ih _ _ h4 hl'
        | err e s' =>
          obtain ⟨t', h3, h4⟩ := h1.err e s' hr
          rw [h3]
          have hl' := h2 s' (by rw [hr]; rfl)
          cases e with
          | io k => cases k <;> first | exact ih _ _ h4 hl' | exact .mkErr h4
          | _ => exact .mkErr h4
  intro s t h hl
  unfold drain
  rw [h.inner]
  exact loop _ _ _ h hl

theorem readFully_rs (max : Nat) {s t : Stream} (h : St s t) (hl : s.commit ≠ none ∨ s.live = true) : StRes (readFully max s) (readFully max t) := by
  unfold readFully
  rw [h.remaining hl]
  split
  · exact .mkErr h
  · exact drain_blobRead_rs _ h hl

theorem readOrTrunc_rs (max : Nat) {s t : Stream} (h : St s t) (hl : s.commit ≠ none ∨ s.live = true) : StRes (readOrTrunc max s) (readOrTrunc max t) := by
  unfold readOrTrunc
  rw [h.remaining hl]
  exact drain_blobRead_rs _ h hl

theorem nextBlob_pending {s s' : Stream} {n : Nat} (h : nextBlob s = .ok n s') : s'.commit = some .skipBlob := by
  unfold nextBlob at h
  rw [M.bind_apply] at h
  split at h
  · rw [M.bind_apply] at h
    split at h
    · cases h; rfl
    · cases h
  · cases h

theorem readElement_pending {s s' : Stream} {n : Nat} (h : readElement s = .ok (.exception n) s') : s'.commit = some .skipBlob := by
  unfold readElement at h
  cases hr : readByte true s with
  | err e s1 => rw [hr] at h; cases h
  | ok b s1 =>
    rw [hr] at h
    dsimp only at h
    cases hd : Desc.parse b with
    | none => rw [hd] at h; cases h
    | some d =>
      rw [hd] at h
      cases d with
      | pair ty tag =>
        dsimp only at h
        rw [M.bind_apply] at h
        split at h <;> cases h
      | special sp =>
        cases sp with
        | exception =>
          dsimp only at h
          cases hn : nextBlob s1 with
          | ok k s2 => rw [M.bind_ok hn] at h; cases h; exact nextBlob_pending hn
          | err e s2 => rw [M.bind_err hn] at h; cases h
        | _ => cases h

theorem skipPadLoop_pending : ∀ fuel {s s' : Stream} {n : Nat}, skipPadLoop fuel s = .ok (.exception n) s' → s'.commit = some .skipBlob := by
  intro fuel
  induction fuel with
  | zero => intro s s' n h; cases h
  | succ fuel ih =>
    intro s s' n h
    simp only [skipPadLoop] at h
    cases hr : readElement s with
    | err e s1 => rw [M.bind_err hr] at h; cases h
    | ok e s1 =>
      rw [M.bind_ok hr, M.ite_apply] at h
      split at h
      · exact ih h
      · cases h; exact readElement_pending hr

theorem nextElementImpl_pending {sp : Bool} {s s' : Stream} {n : Nat} (h : nextElementImpl sp s = .ok (.exception n) s') : s'.commit = some .skipBlob := by
  unfold nextElementImpl at h
  split at h
  · cases h
  · cases hr : commit s with
    | err e s1 => rw [M.bind_err hr] at h; cases h
    | ok u s1 =>
      rw [M.bind_ok hr, M.ite_apply] at h
      split at h
      · rw [M.bind_ok (M.get_apply _)] at h; exact skipPadLoop_pending _ h
      · exact readElement_pending h

theorem nextField_rs {s t : Stream} (h : St s t) : StRes (nextField s) (nextField t) := by
  unfold nextField
  refine (nextElementImpl_rs true h).bind fun e s' t' hr h' => ?_
  cases e with
  | padding => exact .mkErr h'
  | endOfStruct => exact .mkOk h'
  | endOfDoc => exact .mkOk h'
  | field f => exact .mkOk h'
  | exception n =>
    exact (readOrTrunc_rs 256 h' (.inl (by rw [nextElementImpl_pending hr]; simp))).bind fun m s2 t2 _ h2 => .mkErr h2

theorem skipUpLoop_rs (d : Nat) : ∀ fuel {s t : Stream}, St s t → StRes (skipUpLoop d fuel s) (skipUpLoop d fuel t) := by
  intro fuel
  induction fuel with
  | zero => intro s t h; exact .mkErr h
  | succ fuel ih =>
    intro s t h
    rw [skipUpLoop, skipUpLoop, h.depth]
    split
    · exact (nextElementImpl_rs false h).bind fun _ s' t' _ h' => ih h'
    · exact .mkOk h

theorem blobSlice_rs {s t : Stream} (h : St s t) (hl : s.commit ≠ none ∨ s.live = true) : StRes (blobSlice s) (blobSlice t) := by
  unfold blobSlice
  refine StRes.bind (m := innerSlice) ?_ fun d s' t' hr h' => ?_
  · unfold innerSlice
    rw [h.inner]
    split
    · exact .mkErr h
    · exact .mkOk h
  · obtain rfl : s' = s := by
      unfold innerSlice at hr
      split at hr <;> cases hr
      rfl
    rw [M.bind_ok (M.get_apply _), M.bind_ok (M.get_apply _), h'.remaining hl, M.ite_apply, M.ite_apply]
    split
    · exact .mkOk h'
    · exact .mkErr h'

theorem Op.exec_rs {β : Type} (o : Op β) {s t : Stream} (h : St s t) : StRes (o.exec s) (o.exec t) := by
  have hlive : ∀ {α : Type} (m : M Err Stream α), (s.live = true → StRes (m s) (m t)) → StRes (onLiveBlob m s) (onLiveBlob m t) := by
    intro α m hm
    unfold onLiveBlob
    rw [h.live]
    split
    · rename_i hl; exact hm hl
    · exact .mkErr h
  cases o with
  | nextField => exact nextField_rs h
  | nextElement => exact nextElementImpl_rs false h
  | skipUp d => simp only [Op.exec]; unfold Fourleaf.skipUp; rw [h.inner]; exact skipUpLoop_rs d _ h
  | commit => exact commit_rs h
  | clearEof => obtain ⟨b, y, rfl, h1, h2⟩ := h; exact .mkOk ⟨b, y, rfl, h1, h2⟩
  | eof => simp only [Op.exec, h.eof]; exact .mkOk h
  | pos => simp only [Op.exec, h.pos]; exact .mkOk h
  | structDepth => simp only [Op.exec, h.depth]; exact .mkOk h
  | readFully max => exact hlive _ fun hl => readFully_rs max h (.inr hl)
  | readOrTrunc max => exact hlive _ fun hl => readOrTrunc_rs max h (.inr hl)
  | read want =>
    refine hlive _ fun hl => ?_
    unfold blobRead
    rw [h.remaining (.inr hl)]
    dsimp only
    split
    · exact .mkOk h
    · exact (trackRead_blind _ _).rs h
  | slice => exact hlive _ fun hl => blobSlice_rs h (.inr hl)
  | remaining =>
    refine hlive (fun s => .ok (blobRemaining s) s) fun hl => ?_
    rw [h.remaining (.inr hl)]; exact .mkOk h

theorem pull_rs (fields : Bool) {s t : Stream} (h : St s t) : StRes (pull fields s) (pull fields t) := by
  unfold pull
  cases fields with
  | true =>
    simp only [if_true]
    have hN := nextField_rs h
    cases hr : nextField s with
    | err e s' => obtain ⟨t', h1, h2⟩ := hN.err e s' hr; rw [h1]; exact .mkErr h2
    | ok o s' => obtain ⟨t', h1, h2⟩ := hN.ok o s' hr; rw [h1]; cases o <;> exact .mkOk h2
  | false =>
    simp only [Bool.false_eq_true, if_false]
    have hN : StRes (nextElement s) (nextElement t) := nextElementImpl_rs false h
    cases hr : nextElement s with
    | err e s' => obtain ⟨t', h1, h2⟩ := hN.err e s' hr; rw [h1]; exact .mkErr h2
    | ok o s' => obtain ⟨t', h1, h2⟩ := hN.ok o s' hr; rw [h1]; cases o <;> exact .mkOk h2

/-- Related runs. -/
structure StRun {ε U α : Type} (r r' : Res (Stop ε) (PSt U) α) : Prop where
  ok : ∀ a st, r = .ok a st → ∃ t, r' = .ok a (t, st.2) ∧ St st.1 t
  err : ∀ e st, r = .err e st → ∃ t, r' = .err e (t, st.2) ∧ St st.1 t

theorem StRun.mkOk {ε U α : Type} {a : α} {s t : Stream} {u : U} (h : St s t) : StRun (.ok a (s, u) : Res (Stop ε) (PSt U) α) (.ok a (t, u)) :=
  ⟨fun a s h' => by cases h'; exact ⟨t, rfl, h⟩, fun e s h' => by cases h'⟩

theorem StRun.mkErr {ε U α : Type} {e : Stop ε} {s t : Stream} {u : U} (h : St s t) : StRun (.err e (s, u) : Res (Stop ε) (PSt U) α) (.err e (t, u)) :=
  ⟨fun a s h' => (by cases h'), fun e s h' => by cases h'; exact ⟨t, rfl, h⟩⟩

theorem runLoop_rs {ε U β α : Type} (fields : Bool) (body : β → Element → M (Stop ε) (PSt U) (β ⊕ α)) (onErr : Err → M (Stop ε) (PSt U) α) (onEnd : β → M (Stop ε) (PSt U) α)
    (hb : ∀ b e s t u, St s t → StRun (body b e (s, u)) (body b e (t, u))) (hE : ∀ e s t u, St s t → StRun (onErr e (s, u)) (onErr e (t, u)))
    (hD : ∀ b s t u, St s t → StRun (onEnd b (s, u)) (onEnd b (t, u))) : ∀ fuel b s t u, St s t →
    StRun (runLoop fields body onErr onEnd fuel b (s, u)) (runLoop fields body onErr onEnd fuel b (t, u)) := by
  intro fuel
  induction fuel with
  | zero => intro b s t u h; exact .mkErr h
  | succ fuel ih =>
    intro b s t u h
    have hP := pull_rs fields h
    simp only [runLoop]
    cases hr : pull fields s with
    | err e s' =>
      obtain ⟨t', h1, h2⟩ := hP.err e s' hr
      rw [h1]
      dsimp only
      split
      · exact .mkErr h2
      · exact hE _ _ _ _ h2
    | ok o s' =>
      obtain ⟨t', h1, h2⟩ := hP.ok o s' hr
      rw [h1]
      cases o with
      | none => exact hD _ _ _ _ h2
      | some el =>
        dsimp only
        have hB := hb b el s' t' u h2
        cases hr2 : body b el (s', u) with
        | err e st => obtain ⟨t2, h3, h4⟩ := hB.err e st hr2; rw [h3]; exact .mkErr h4
        | ok x st =>
          obtain ⟨t2, h3, h4⟩ := hB.ok x st hr2
          rw [h3]
          cases x with
          | inl b' => exact ih b' st.1 t2 st.2 h4
          | inr a => exact .mkOk h4

theorem Prog.run_rs {ε U : Type} : ∀ {α : Type} (p : Prog ε U α) (s t : Stream) (u : U), St s t → StRun (p.run (s, u)) (p.run (t, u)) := by
  intro α p
  induction p with
  | ret a => intro s t u h; exact .mkOk h
  | fail e => intro s t u h; exact .mkErr h
  | op o =>
    intro s t u h
    have hO := o.exec_rs h
    simp only [Prog.run]
    cases hr : o.exec s with
    | ok b s' => obtain ⟨t', h1, h2⟩ := hO.ok b s' hr; rw [h1]; exact .mkOk h2
    | err e s' =>
      obtain ⟨t', h1, h2⟩ := hO.err e s' hr
      rw [h1]
      dsimp only
      split
      · exact .mkErr h2
      · exact .mkOk h2
  | call o f =>
    intro s t u h
    have hO := o.exec_rs h
    simp only [Prog.run]
    cases hr : o.exec s with
    | ok b s' => obtain ⟨t', h1, h2⟩ := hO.ok b s' hr; rw [h1]; exact .mkOk h2
    | err e s' =>
      obtain ⟨t', h1, h2⟩ := hO.err e s' hr
      rw [h1]
      dsimp only
      split <;> exact .mkErr h2
  | getU => intro s t u h; exact .mkOk h
  | setU u' => intro s t u h; exact .mkOk h
  | bind p f ihp ihf =>
    intro s t u h
    have hP := ihp s t u h
    simp only [Prog.run]
    cases hr : p.run (s, u) with
    | ok a st' => obtain ⟨t', h1, h2⟩ := hP.ok a st' hr; rw [h1]; exact ihf a st'.1 t' st'.2 h2
    | err e st' => obtain ⟨t', h1, h2⟩ := hP.err e st' hr; rw [h1]; exact .mkErr h2
  | attempt p ih =>
    intro s t u h
    have hP := ih s t u h
    simp only [Prog.run]
    cases hr : p.run (s, u) with
    | ok a st' => obtain ⟨t', h1, h2⟩ := hP.ok a st' hr; rw [h1]; exact .mkOk h2
    | err e st' =>
      obtain ⟨t', h1, h2⟩ := hP.err e st' hr
      rw [h1]
      cases e with
      | client e => exact .mkOk h2
      | abort e => exact .mkErr h2
  | loop fields init body onErr onEnd ihb ihe ihd =>
    intro s t u h
    simp only [Prog.run]
    rw [h.inner]
    exact runLoop_rs fields _ _ _ (fun b e s t u h => ihb b e s t u h) (fun e s t u h => ihe e s t u h) (fun b s t u h => ihd b s t u h) _ init s t u h

end Fourleaf
