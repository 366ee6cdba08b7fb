import Verif.WriteLemmas

/-! # Relations that every operation of a stream maintains

`Keeps R m`: `m` leaves the stream, whatever the outcome, in a state `R`-related to the one before. For a reflexive and transitive `R` it suffices to look at the few
primitive accesses to the byte stream. -/

namespace Fourleaf
open Spec

def Keeps {α : Type} (R : Stream → Stream → Prop) (m : M Err Stream α) : Prop := ∀ s, R s (m s).state

/-- What has to be shown for a relation once, for the reading operations: reading, and skipping forward. -/
structure ReadRel (R : Stream → Stream → Prop) : Prop where
  refl : ∀ s, R s s
  trans : ∀ a b c, R a b → R b c → R a c
  read : ∀ g want s, R s (trackRead g want s).state
  fwd : ∀ s (n : Nat), R s { s with inner := { s.inner with pos := s.inner.pos + n }, pos := s.pos + n }
  /-- a seek which fails -/
  slip : ∀ s, s.inner.sched.head? = some .noSeek → R s { s with inner := { s.inner with sched := s.inner.sched.tail } }

/-- What has to be shown for a relation once, for all operations. -/
structure StepRel (R : Stream → Stream → Prop) : Prop where
  refl : ∀ s, R s s
  trans : ∀ a b c, R a b → R b c → R a c
  read : ∀ g want s, R s (trackRead g want s).state
  write : ∀ buf s, R s (trackWrite buf s).state
  /-- a relative seek together with the adjustment of the position -/
  jump : ∀ s (off : Int) (p : Nat), 0 ≤ (s.inner.pos : Int) + off → (p : Int) = s.pos + off →
    R s { s with inner := { s.inner with pos := ((s.inner.pos : Int) + off).toNat }, pos := p }
  poke : ∀ s d, R s { s with inner := { s.inner with data := d } }
  tick : ∀ s sc, sc <:+ s.inner.sched → R s { s with inner := { s.inner with sched := sc } }

theorem StepRel.toReadRel {R : Stream → Stream → Prop} (h : StepRel R) : ReadRel R where
  refl := h.refl
  trans := h.trans
  read := h.read
  slip s _ := h.tick s _ (List.tail_suffix _)
  fwd s n := by
    have := h.jump s (n : Int) (s.pos + n) (by omega) (by simp)
    have e : ((s.inner.pos : Int) + (n : Int)).toNat = s.inner.pos + n := by omega
    rwa [e] at this

theorem ReadRel.slipped {R : Stream → Stream → Prop} (h : ReadRel R) (s : Stream) (sc : List Ev) (hs : sc = s.inner.sched ∨ s.inner.sched.head? = some .noSeek ∧ sc = s.inner.sched.tail) :
    R s { s with inner := { s.inner with sched := sc } } := by
  rcases hs with rfl | ⟨h1, rfl⟩
  · exact h.refl s
  · exact h.slip s h1

instance {R : Stream → Stream → Prop} : CoeOut (StepRel R) (ReadRel R) := ⟨StepRel.toReadRel⟩

namespace Keeps
variable {R : Stream → Stream → Prop} {α β : Type}

theorem pure_ (h : ReadRel R) (a : α) : Keeps R (pure a : M Err Stream α) := fun s => h.refl s
theorem throw_ (h : ReadRel R) (e : Err) : Keeps R (M.throw e : M Err Stream α) := fun s => h.refl s
theorem get_ (h : ReadRel R) : Keeps R (M.get : M Err Stream Stream) := fun s => h.refl s

theorem bind_ (h : ReadRel R) {m : M Err Stream α} {f : α → M Err Stream β} (hm : Keeps R m) (hf : ∀ a, Keeps R (f a)) :
    Keeps R (m >>= f) := by
  intro s
  rw [M.bind_apply]
  have h1 := hm s
  cases hr : m s with
  | ok a s' => rw [hr] at h1; exact h.trans _ _ _ h1 (hf a s')
  | err e s' => rw [hr] at h1; exact h1

theorem ite_ {c : Prop} [Decidable c] {m m' : M Err Stream α} (h1 : Keeps R m) (h2 : Keeps R m') : Keeps R (if c then m else m') := by
  split
  · exact h1
  · exact h2

theorem readByte_ (h : ReadRel R) (g : Bool) : Keeps R (readByte g) := by
  have key : ∀ fuel s, R s (readByteLoop g fuel s).state := by
    intro fuel
    induction fuel with
    | zero => intro s; exact h.refl s
    | succ fuel ih =>
      intro s
      unfold readByteLoop
      have h1 := h.read g 1 s
      split
      · rename_i s' hr; rw [hr] at h1; exact h1
      · rename_i b _ s' hr; rw [hr] at h1; exact h1
      · rename_i s' hr; rw [hr] at h1; exact h.trans _ _ _ h1 (ih s')
      · rename_i e s' _ hr; rw [hr] at h1; exact h1
  intro s
  exact key _ s

theorem drain_ (h : ReadRel R) {rd : Nat → M Err Stream (List Byte)} (hrd : ∀ n, Keeps R (rd n)) (n : Nat) : Keeps R (drain rd n) := by
  have key : ∀ fuel lim acc s, R s (drainLoop rd fuel lim acc s).state := by
    intro fuel
    induction fuel with
    | zero => intro lim acc s; exact h.refl s
    | succ fuel ih =>
      intro lim acc s
      unfold drainLoop
      have h1 := hrd lim s
      split
      · exact h.refl s
      · split
        · rename_i d s' hr
          rw [hr] at h1
          split
          · exact h1
          · exact h.trans _ _ _ h1 (ih _ _ s')
        · rename_i s' hr; rw [hr] at h1; exact h.trans _ _ _ h1 (ih _ _ s')
        · rename_i e s' _ hr; rw [hr] at h1; exact h1
  intro s
  exact key _ _ _ s

theorem writeAll_ (h : StepRel R) {wr : List Byte → M Err Stream Nat} (hwr : ∀ b, Keeps R (wr b)) (buf : List Byte) : Keeps R (writeAll wr buf) := by
  have key : ∀ fuel buf s, R s (writeAllLoop wr fuel buf s).state := by
    intro fuel
    induction fuel with
    | zero => intro buf s; exact h.refl s
    | succ fuel ih =>
      intro buf s
      unfold writeAllLoop
      have h1 := hwr buf s
      split
      · exact h.refl s
      · split
        · rename_i d s' hr
          rw [hr] at h1
          split
          · exact h1
          · exact h.trans _ _ _ h1 (ih _ s')
        · rename_i s' hr; rw [hr] at h1; exact h.trans _ _ _ h1 (ih _ s')
        · rename_i e s' _ hr; rw [hr] at h1; exact h1
  intro s
  exact key _ _ s

theorem blobRead_ (h : ReadRel R) (n : Nat) : Keeps R (blobRead n) := by
  intro s
  unfold blobRead
  simp only
  split
  · exact h.refl s
  · exact h.read _ _ s

theorem blobWrite_ (h : StepRel R) (b : List Byte) : Keeps R (blobWrite b) := fun s => h.write _ s

theorem readFully_ (h : ReadRel R) (n : Nat) : Keeps R (readFully n) := by
  intro s
  unfold readFully
  split
  · exact h.refl s
  · exact drain_ h (blobRead_ h) _ s

theorem readOrTrunc_ (h : ReadRel R) (n : Nat) : Keeps R (readOrTrunc n) := fun s => drain_ h (blobRead_ h) _ s

theorem blobSlice_ (h : ReadRel R) : Keeps R blobSlice := by
  intro s
  rcases blobSlice_cases s with ⟨-, -, hb⟩ | ⟨e, hb⟩
  · rw [hb]; exact h.refl s
  · rw [hb]; exact h.refl s

theorem blobSliceMut_ (h : StepRel R) (f : List Byte → List Byte) : Keeps R (blobSliceMut f) := by
  unfold blobSliceMut
  refine bind_ h (blobSlice_ h) fun buf => bind_ h (get_ h) fun s => bind_ h (fun s => ?_) fun _ => pure_ h _
  exact h.poke s _

/-- A relative seek and the adjustment of the position. -/
theorem jump_ (h : StepRel R) (off : Int) (f : Stream → Nat) (k : M Err Stream α) (hk : Keeps R k) (s : Stream)
    (hf : ∀ t : Stream, t.pos = s.pos → ((f t : Nat) : Int) = s.pos + off) :
    R s ((do let _ ← innerSeek (.current off); M.modify fun t => { t with pos := f t }; k : M Err Stream α) s).state := by
  unfold innerSeek
  rw [M.bind_apply]
  rcases inner_seek_cases s.inner off with ⟨h1, h2⟩ | ⟨e, sc, hs, h2⟩
  · rw [h2]
    simp only
    rw [M.bind_ok (M.modify_apply _ _)]
    refine h.trans _ _ _ (h.jump s off _ h1 (hf { s with inner := { s.inner with pos := ((s.inner.pos : Int) + off).toNat } } rfl)) (hk _)
  · rw [h2]; exact h.toReadRel.slipped s sc hs

theorem blobSeek_ (h : StepRel R) (len : Nat) (w : SeekFrom) : Keeps R (blobSeek len w) := by
  intro s
  unfold blobSeek
  have hk : Keeps R (do let s ← M.get; pure (len - blobRemaining s) : M Err Stream Nat) := bind_ h (get_ h) fun _ => pure_ h _
  split
  · exact h.refl s
  · rename_i p _
    split
    · simp only
      split
      · exact h.refl s
      · exact jump_ h (-((s.pos - p : Nat) : Int)) (fun t => t.pos - (s.pos - p)) _ hk s (fun t ht => by omega)
    · simp only
      split
      · exact h.refl s
      · exact jump_ h (((p - s.pos : Nat) : Int)) (fun t => t.pos + (p - s.pos)) _ hk s (fun t ht => by omega)

theorem skipByDiscard_ (h : ReadRel R) (n : Nat) : Keeps R (skipByDiscard n) :=
  bind_ h (drain_ h (fun n s => h.read _ n s) n) fun _ => pure_ h _

theorem skipSeekDirect_ (h : ReadRel R) (n : Nat) : Keeps R (skipSeekDirect n) := by
  intro s
  unfold skipSeekDirect
  split
  · exact h.refl s
  · unfold innerSeek
    rcases inner_seek_cases s.inner n with ⟨h1, h2⟩ | ⟨e, sc, hs, h2⟩
    · rw [h2]
      have e : ((s.inner.pos : Int) + (n : Int)).toNat = s.inner.pos + n := by omega
      rw [e]; exact h.fwd s n
    · rw [h2]; exact h.trans _ _ _ (h.slipped s sc hs) (skipByDiscard_ h n _)

theorem skipBySeek_ (h : ReadRel R) : ∀ (fuel n : Nat), Keeps R (skipBySeek fuel n) := by
  intro fuel
  induction fuel with
  | zero => intro n; exact throw_ h _
  | succ fuel ih =>
    intro n
    unfold skipBySeek
    exact ite_ (bind_ h (skipSeekDirect_ h _) fun _ => ite_ (pure_ h _) (bind_ h (ih _) fun _ => pure_ h _)) (skipSeekDirect_ h _)

theorem skipBlob_ (h : ReadRel R) : Keeps R skipBlob := by
  intro s
  unfold skipBlob
  split
  · simp only
    have h1 : R s ((if s.useSeek then skipBySeek 4 (s.blobEnd - s.pos) else skipByDiscard (s.blobEnd - s.pos)) s).state := by
      split
      · exact skipBySeek_ h _ _ s
      · exact skipByDiscard_ h _ s
    split
    · rename_i k s' hr
      rw [hr] at h1
      split <;> exact h1
    · rename_i e s' hr; rw [hr] at h1; exact h1
  · exact h.refl s

theorem checkAtEndOfBlob_ (h : ReadRel R) : Keeps R checkAtEndOfBlob := by
  intro s
  unfold checkAtEndOfBlob
  split
  · split <;> exact h.refl s
  · exact h.refl s

theorem trackAll_ (h : StepRel R) (b : List Byte) : Keeps R (writeAll trackWrite b) := writeAll_ h (fun b s => h.write b s) b

end Keeps

/-- The outcome of writing a known number of bytes at once. -/
theorem writeAllLoop_pos (wr : List Byte → M Err Stream Nat) (hwr : wr = trackWrite) : ∀ (fuel : Nat) (buf : List Byte) (s s' : Stream) (u : Unit),
    writeAllLoop wr fuel buf s = .ok u s' → s'.pos = s.pos + buf.length := by
  subst hwr
  intro fuel
  induction fuel with
  | zero => intro buf s s' u h; cases h
  | succ fuel ih =>
    intro buf s s' u h
    unfold writeAllLoop at h
    by_cases hb : buf = []
    · rw [if_pos hb] at h; cases h; simp [hb]
    · rw [if_neg hb] at h
      rcases trackWrite_cases buf hb s with ⟨h1, h2⟩ | ⟨k, sc, hk0, hk, hsc, hlt, hall, h2⟩ | ⟨sc, hsc, hlt, h2⟩ | ⟨sc, h1, hsc, h2 | h2⟩
      · rw [h2] at h; cases h
      · rw [h2] at h
        simp only at h
        rw [if_neg (by omega)] at h
        have := ih _ _ _ _ h
        simp [advW] at this
        omega
      · rw [h2] at h
        simp only at h
        have := ih _ _ _ _ h
        simpa using this
      · rw [h2] at h; cases h
      · rw [h2] at h; cases h

theorem encodeFixedU64_length (n : UInt64) : (encodeFixedU64 n).length = 10 := by
  have := (Props.c04_fixed_width n []).1
  exact this

namespace Keeps
variable {R : Stream → Stream → Prop} {α β : Type}

theorem finishDynamicBlob_ (h : StepRel R) : Keeps R finishDynamicBlob := by
  intro s
  unfold finishDynamicBlob
  simp only
  split
  · exact h.refl s
  · split
    · exact h.refl s
    · split
      · exact h.refl s
      · rename_i h1 h2 h3
        unfold innerSeek
        rw [M.bind_apply]
        rcases inner_seek_cases s.inner (-((s.pos - (s.dynStart - 10) : Nat) : Int)) with ⟨g1, g2⟩ | ⟨e, sc, hs, g2⟩
        · rw [g2]
          simp only
          rw [M.bind_ok (M.modify_apply _ _)]
          have hj := h.jump s (-((s.pos - (s.dynStart - 10) : Nat) : Int)) (s.pos - (s.pos - (s.dynStart - 10))) g1 (by omega)
          refine h.trans _ _ _ hj ?_
          generalize hs1 : ({ s with inner := { s.inner with pos := ((s.inner.pos : Int) + -((s.pos - (s.dynStart - 10) : Nat) : Int)).toNat }, pos := s.pos - (s.pos - (s.dynStart - 10)) } : Stream) = s1
          have hp1 : s1.pos = s.dynStart - 10 := by rw [← hs1]; simp only; omega
          rw [M.bind_apply]
          have hw := trackAll_ h (encodeFixedU64 (UInt64.ofNat (s.pos - s.dynStart))) s1
          cases hr : encodeFixedS (UInt64.ofNat (s.pos - s.dynStart)) s1 with
          | err e s2 =>
            unfold encodeFixedS at hr
            rw [hr] at hw
            exact hw
          | ok x s2 =>
            unfold encodeFixedS at hr
            rw [hr] at hw
            simp only
            refine h.trans _ _ _ hw ?_
            have hp2 := writeAllLoop_pos trackWrite rfl _ _ _ _ _ hr
            rw [encodeFixedU64_length] at hp2
            rw [M.bind_apply]
            simp only [Res.state_ok]
            rcases inner_seek_cases s2.inner ((s.pos - s.dynStart : Nat) : Int) with ⟨g3, g4⟩ | ⟨e, sc, hs, g4⟩
            · rw [g4]
              simp only [M.modify_apply, Res.state_ok]
              exact h.jump s2 _ _ g3 (by omega)
            · rw [g4]; exact h.toReadRel.slipped s2 sc hs
        · rw [g2]; exact h.toReadRel.slipped s sc hs

end Keeps

/-- Relations that in addition do not look at the bookkeeping. -/
structure FreeRel (R : Stream → Stream → Prop) : Prop extends StepRel R where
  book : ∀ s eof be ds de co li, R s { s with eof := eof, blobEnd := be, dynStart := ds, depth := de, commit := co, live := li }

/-- The same for the reading operations, which do not start dynamic blobs. -/
structure ReadFree (R : Stream → Stream → Prop) : Prop extends ReadRel R where
  book : ∀ s eof be ds de co li, co = s.commit ∨ co ≠ some .finishDyn →
    R s { s with eof := eof, blobEnd := be, dynStart := ds, depth := de, commit := co, live := li }
  dyn : ∀ s, s.commit = some .finishDyn → R s { (finishDynamicBlob s).state with commit := none, live := false } ∧ R s { (finishDynamicBlob s).state with live := false }

theorem FreeRel.toReadFree {R : Stream → Stream → Prop} (h : FreeRel R) : ReadFree R where
  toReadRel := h.toReadRel
  book s eof be ds de co li _ := h.book s eof be ds de co li
  dyn s _ := ⟨h.trans _ _ _ (Keeps.finishDynamicBlob_ h.toStepRel s) (h.book _ _ _ _ _ _ _),
    h.trans _ _ _ (Keeps.finishDynamicBlob_ h.toStepRel s) (h.book _ _ _ _ _ _ _)⟩

instance {R : Stream → Stream → Prop} : CoeOut (FreeRel R) (ReadFree R) := ⟨FreeRel.toReadFree⟩

namespace Keeps
variable {R : Stream → Stream → Prop} {α β : Type}

theorem commit_ (h : ReadFree R) : Keeps R commit := by
  intro s
  unfold commit
  split
  · exact h.refl s
  · rename_i c _
    have go : ∀ m : M Err Stream Unit, Keeps R m → R s (match m s with
        | .ok _ s' => .ok () { s' with commit := none, live := false }
        | .err e s' => .err e { s' with live := false } : Res Err Stream Unit).state := by
      intro m hm
      have h1 := hm s
      cases hr : m s with
      | ok x s' => rw [hr] at h1; exact h.trans _ _ _ h1 (h.book s' _ _ _ _ _ _ (.inr nofun))
      | err e s' => rw [hr] at h1; exact h.trans _ _ _ h1 (h.book s' _ _ _ _ _ _ (.inl rfl))
    cases c
    · exact go _ (skipBlob_ h.toReadRel)
    · exact go _ (checkAtEndOfBlob_ h.toReadRel)
    · have h1 := h.dyn s ‹_›
      dsimp only
      cases hr : finishDynamicBlob s with
      | ok x s' => rw [hr] at h1; exact h1.1
      | err e s' => rw [hr] at h1; exact h1.2

theorem decodeU64_ (h : ReadRel R) (rb : M Err Stream Byte) (hrb : Keeps R rb) : Keeps R (decodeU64 rb) := by
  have key : ∀ fuel k a, Keeps R (decodeLoop rb fuel k a) := by
    intro fuel
    induction fuel with
    | zero => intro k a; exact throw_ h _
    | succ fuel ih =>
      intro k a
      unfold decodeLoop
      refine bind_ h hrb fun b => ?_
      simp only
      repeat' split
      all_goals first | exact pure_ h _ | exact throw_ h _ | exact ih _ _
  exact key _ _ _

theorem checkAdvance_ (h : ReadRel R) (n : Nat) : Keeps R (checkAdvance n) := by
  intro s; unfold checkAdvance; split <;> exact h.refl s

theorem nextBlob_ (h : ReadFree R) : Keeps R nextBlob :=
  bind_ h.toReadRel (decodeU64_ h.toReadRel _ (readByte_ h.toReadRel _)) fun _ => bind_ h.toReadRel (checkAdvance_ h.toReadRel _) fun _ =>
    bind_ h.toReadRel (fun s => h.book s _ _ _ _ _ _ (.inr nofun)) fun _ => pure_ h.toReadRel _

theorem nextValue_ (h : ReadFree R) (ty : DescTy) : Keeps R (nextValue ty) := by
  cases ty
  · exact bind_ h.toReadRel (decodeU64_ h.toReadRel _ (readByte_ h.toReadRel _)) fun _ => bind_ h.toReadRel (fun s => h.book s _ _ _ _ _ _ (.inl rfl)) fun _ => pure_ h.toReadRel _
  · exact bind_ h.toReadRel (decodeU64_ h.toReadRel _ (readByte_ h.toReadRel _)) fun _ => pure_ h.toReadRel _
  · exact bind_ h.toReadRel (nextBlob_ h) fun _ => pure_ h.toReadRel _
  · exact bind_ h.toReadRel (fun s => h.book s _ _ _ _ _ _ (.inl rfl)) fun _ => pure_ h.toReadRel _

theorem readElement_ (h : ReadFree R) : Keeps R readElement := by
  intro s
  unfold readElement
  have h1 := readByte_ h.toReadRel true s
  simp only
  split
  · rename_i e s' hr; rw [hr] at h1; exact h1
  · rename_i b s' hr
    rw [hr] at h1
    refine h.trans _ _ _ h1 ?_
    simp only [Res.state_ok]
    split
    · exact h.refl _
    · rename_i ty tag _
      have h2 : R s' (if s'.depth = 0 then { s' with depth := 1 } else s') := by
        split
        · exact h.book s' _ _ _ _ _ _ (.inl rfl)
        · exact h.refl _
      exact h.trans _ _ _ h2 (bind_ h.toReadRel (nextValue_ h ty) (fun _ => pure_ h.toReadRel _) _)
    · exact h.book s' _ _ _ _ _ _ (.inl rfl)
    · exact h.book s' _ _ _ _ _ _ (.inl rfl)
    · exact bind_ h.toReadRel (nextBlob_ h) (fun _ => pure_ h.toReadRel _) _
    · exact h.refl _

theorem nextElementImpl_ (h : ReadFree R) (sp : Bool) : Keeps R (nextElementImpl sp) := by
  intro s
  have hl : ∀ fuel, Keeps R (skipPadLoop fuel) := by
    intro fuel
    induction fuel with
    | zero => exact throw_ h.toReadRel _
    | succ fuel ih =>
      unfold skipPadLoop
      exact bind_ h.toReadRel (readElement_ h) fun _ => ite_ ih (pure_ h.toReadRel _)
  unfold nextElementImpl
  split
  · exact h.refl s
  · refine bind_ h.toReadRel (commit_ h) (fun _ => ?_) s
    cases sp
    · exact readElement_ h
    · exact bind_ h.toReadRel (get_ h.toReadRel) fun _ => hl _

theorem nextField_ (h : ReadFree R) : Keeps R nextField := by
  unfold nextField
  refine bind_ h.toReadRel (nextElementImpl_ h _) fun e => ?_
  cases e
  · exact pure_ h.toReadRel _
  · exact pure_ h.toReadRel _
  · exact pure_ h.toReadRel _
  · exact bind_ h.toReadRel (readOrTrunc_ h.toReadRel _) fun _ => throw_ h.toReadRel _
  · exact throw_ h.toReadRel _

theorem skipUp_ (h : ReadFree R) (d : Nat) : Keeps R (skipUp d) := by
  have key : ∀ fuel s, R s (skipUpLoop d fuel s).state := by
    intro fuel
    induction fuel with
    | zero => intro s; exact h.refl s
    | succ fuel ih =>
      intro s
      unfold skipUpLoop
      split
      · exact bind_ h.toReadRel (nextElementImpl_ h false) (fun _ => (fun s => ih s)) s
      · exact h.refl s
  intro s
  exact key _ s

theorem clearEof_ (h : ReadFree R) : Keeps R clearEof := fun s => h.book s _ _ _ _ _ _ (.inl rfl)

theorem writeDesc_ (h : FreeRel R) (d : Desc) : Keeps R (writeDesc d) :=
  bind_ h.toStepRel (commit_ h) fun _ => trackAll_ h.toStepRel _

theorem writeU64_ (h : FreeRel R) (tag : Byte) (n : UInt64) : Keeps R (writeU64 tag n) :=
  bind_ h.toStepRel (writeDesc_ h _) fun _ => trackAll_ h.toStepRel _

theorem writeEnum_ (h : FreeRel R) (tag : Byte) (n : UInt64) : Keeps R (writeEnum tag n) :=
  bind_ h.toStepRel (writeDesc_ h _) fun _ => trackAll_ h.toStepRel _

theorem alloc_ (h : FreeRel R) (d : Desc) (len : Nat) : Keeps R (writeBlobAllocDesc d len) :=
  bind_ h.toStepRel (commit_ h) fun _ => ite_ (throw_ h.toStepRel _) (bind_ h.toStepRel (checkAdvance_ h.toStepRel _) fun _ =>
    bind_ h.toStepRel (writeDesc_ h _) fun _ => bind_ h.toStepRel (trackAll_ h.toStepRel _) fun _ => fun s => h.book s _ _ _ _ _ _)

theorem dynamic_ (h : FreeRel R) (d : Desc) : Keeps R (writeBlobDynamicDesc d) :=
  bind_ h.toStepRel (writeDesc_ h _) fun _ => bind_ h.toStepRel (get_ h.toStepRel) fun _ => ite_ (throw_ h.toStepRel _)
    (bind_ h.toStepRel (trackAll_ h.toStepRel _) fun _ => bind_ h.toStepRel (fun s => h.book s _ _ _ _ _ _) fun _ => pure_ h.toStepRel _)

theorem writeAllBlob_ (h : StepRel R) (b : List Byte) : Keeps R (writeAll blobWrite b) := writeAll_ h (blobWrite_ h) b

theorem padToAlign_ (h : FreeRel R) (a : Nat) : Keeps R (padToAlign a) := by
  have key : ∀ fuel s, R s (padLoop a fuel s).state := by
    intro fuel
    induction fuel with
    | zero => intro s; exact h.refl s
    | succ fuel ih =>
      intro s
      unfold padLoop
      split
      · exact bind_ h.toStepRel (writeDesc_ h _) (fun _ => (fun s => ih s)) s
      · exact h.refl s
  exact bind_ h.toStepRel (commit_ h) fun _ => (fun s => key _ s)

theorem writePieces_ (h : StepRel R) : ∀ ps, Keeps R (writePieces ps)
  | [] => pure_ h _
  | p :: ps => bind_ h (writeAllBlob_ h p) fun _ => writePieces_ h ps

theorem wcall_ (h : FreeRel R) (c : WCall) : Keeps R c.exec := by
  cases c with
  | commit => exact commit_ h
  | null tag => exact writeU64_ h _ _
  | bool tag b => exact writeU64_ h _ _
  | u8 tag n => exact writeU64_ h _ _
  | u16 tag n => exact writeU64_ h _ _
  | u32 tag n => exact writeU64_ h _ _
  | u64 tag n => exact writeU64_ h _ _
  | i8 tag n => exact writeU64_ h _ _
  | i16 tag n => exact writeU64_ h _ _
  | i32 tag n => exact writeU64_ h _ _
  | i64 tag n => exact writeU64_ h _ _
  | struct tag => exact writeDesc_ h _
  | enum tag n => exact writeEnum_ h _ _
  | endStruct => exact writeDesc_ h _
  | endDoc => exact writeDesc_ h _
  | padding => exact writeDesc_ h _
  | blobData tag d => exact bind_ h.toStepRel (alloc_ h _ _) fun _ => writeAllBlob_ h.toStepRel _
  | exceptionData d => exact bind_ h.toStepRel (alloc_ h _ _) fun _ => writeAllBlob_ h.toStepRel _
  | blobAlloc tag p => exact bind_ h.toStepRel (alloc_ h _ _) fun _ => writePieces_ h.toStepRel _
  | exceptionAlloc p => exact bind_ h.toStepRel (alloc_ h _ _) fun _ => writePieces_ h.toStepRel _

theorem blobBufRead_ (h : StepRel R) (f : List Byte → Nat) : Keeps R (blobBufRead f) := by
  intro s
  have key : ∀ k sc, sc <:+ s.inner.sched → R s (advBy s k sc) := fun k sc hsc =>
    h.trans _ _ _ (h.tick s sc hsc) (by
      have := h.jump { s with inner := { s.inner with sched := sc } } (k : Int) (s.pos + k) (by simp; omega) (by simp)
      have e : ((s.inner.pos : Int) + (k : Int)).toNat = s.inner.pos + k := by omega
      simp only [e] at this
      exact this)
  rcases blobBufRead_cases f s with ⟨k, sc, h1, h2, ⟨h3, -⟩ | ⟨h3, -⟩⟩ | ⟨sc, h1, h2⟩ | ⟨sc, h1, -, h2⟩
  · rw [h3]; exact key _ _ h2
  · rw [h3]; exact key _ _ h2
  · rw [h2]; exact key _ _ h1
  · rw [h2]; exact key _ _ h1

theorem blobOp_ (h : StepRel R) (len : Nat) (o : BlobOp) : Keeps R (o.exec len) := by
  cases o with
  | read n => exact bind_ h (blobRead_ h n) fun _ => pure_ h _
  | readFully n => exact bind_ h (readFully_ h n) fun _ => pure_ h _
  | readOrTrunc n => exact bind_ h (readOrTrunc_ h n) fun _ => pure_ h _
  | slice => exact bind_ h (blobSlice_ h) fun _ => pure_ h _
  | sliceMut f => exact bind_ h (blobSliceMut_ h f) fun _ => pure_ h _
  | remaining => exact fun s => h.refl s
  | seek w => exact bind_ h (blobSeek_ h len w) fun _ => pure_ h _
  | write b => exact bind_ h (blobWrite_ h b) fun _ => pure_ h _
  | bufRead f => exact bind_ h (blobBufRead_ h f) fun _ => pure_ h _

end Keeps

theorem runBlobOps_keeps {R : Stream → Stream → Prop} (h : StepRel R) (len : Nat) : ∀ (ops : List BlobOp) (s : Stream), R s (runBlobOps len ops s)
  | [], s => h.refl s
  | o :: os, s => h.trans _ _ _ (Keeps.blobOp_ h len o s) (runBlobOps_keeps h len os _)

end Fourleaf
