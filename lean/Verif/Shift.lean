import Verif.ProgLemmas

/-! # Streams that differ in where they are

`moved k A s` is the stream `s` with `A` in front of the bytes of the underlying reader and all positions larger by `k`. Every reading call does the same on both
streams, except that it may run out of positions on the one that is further ahead. -/

namespace Fourleaf

/-- `s` with `A` in front of the data and with positions larger by `k`. -/
def moved (k : Nat) (A : List Byte) (s : Stream) : Stream :=
  { s with pos := s.pos + k, blobEnd := s.blobEnd + k, dynStart := s.dynStart + k,
           inner := { s.inner with data := A ++ s.inner.data, pos := A.length + s.inner.pos } }

section
variable (k : Nat) (A : List Byte) (s : Stream)
@[simp] theorem moved_pos : (moved k A s).pos = s.pos + k := rfl
@[simp] theorem moved_blobEnd : (moved k A s).blobEnd = s.blobEnd + k := rfl
@[simp] theorem moved_sched : (moved k A s).inner.sched = s.inner.sched := rfl
@[simp] theorem moved_depth : (moved k A s).depth = s.depth := rfl
@[simp] theorem moved_eof : (moved k A s).eof = s.eof := rfl
@[simp] theorem moved_live : (moved k A s).live = s.live := rfl
@[simp] theorem moved_commit : (moved k A s).commit = s.commit := rfl
@[simp] theorem moved_graceful : (moved k A s).graceful = s.graceful := rfl
@[simp] theorem moved_useSeek : (moved k A s).useSeek = s.useSeek := rfl
@[simp] theorem moved_irest : (moved k A s).inner.rest = s.inner.rest := by
  show List.drop (A.length + s.inner.pos) (A ++ s.inner.data) = _
  rw [List.drop_append, List.drop_eq_nil_of_le (by omega)]
  simp [Inner.rest]
theorem moved_left : (moved k A s).inner.data.length - (moved k A s).inner.pos = s.inner.data.length - s.inner.pos := by
  show (A ++ s.inner.data).length - (A.length + s.inner.pos) = _
  rw [List.length_append]; omega
@[simp] theorem moved_remaining : blobRemaining (moved k A s) = blobRemaining s := by
  show s.blobEnd + k - (s.pos + k) = _
  unfold blobRemaining; omega
end

/-- The outcomes: the same with the result shifted by `g`; or the stream further ahead runs out of positions. -/
inductive ShR {α : Type} (k : Nat) (A : List Byte) (g : α → α) : Res Err Stream α → Res Err Stream α → Prop where
  | ok {a s} : ShR k A g (.ok a s) (.ok (g a) (moved k A s))
  | err {e s} : ShR k A g (.err e s) (.err e (moved k A s))
  | over {r t} : ShR k A g r (.err posOverflow t)

namespace ShR
variable {α β : Type} {k : Nat} {A : List Byte}

theorem ok' {g : α → α} {a b : α} {s t : Stream} (hb : b = g a) (h : t = moved k A s) : ShR k A g (.ok a s) (.ok b t) := by subst h; subst hb; exact .ok
theorem err' {g : α → α} {e : Err} {s t : Stream} (h : t = moved k A s) : ShR k A g (.err e s) (.err e t) := by subst h; exact .err

theorem bind2 {g : α → α} {h : β → β} {m : M Err Stream α} {f f' : α → M Err Stream β} {s : Stream} (H : ShR k A g (m s) (m (moved k A s)))
    (hf : ∀ a s', m s = .ok a s' → ShR k A h (f a s') (f' (g a) (moved k A s'))) : ShR k A h ((m >>= f) s) ((m >>= f') (moved k A s)) := by
  rw [M.bind_apply, M.bind_apply]
  revert H hf
  generalize m s = r
  generalize m (moved k A s) = r'
  intro H hf
  cases H with
  | ok => exact hf _ _ rfl
  | err => exact .err
  | over => exact .over

theorem bind {g : α → α} {h : β → β} {m : M Err Stream α} {f : α → M Err Stream β} {s : Stream} (H : ShR k A g (m s) (m (moved k A s)))
    (hf : ∀ a s', m s = .ok a s' → ShR k A h (f a s') (f (g a) (moved k A s'))) : ShR k A h ((m >>= f) s) ((m >>= f) (moved k A s)) := bind2 H hf
end ShR

/-- A computation to which it does not matter where the stream is. -/
def Sh {α : Type} (k : Nat) (A : List Byte) (m : M Err Stream α) : Prop := ∀ s, ShR k A id (m s) (m (moved k A s))

section
variable {α β : Type} {k : Nat} {A : List Byte}

theorem Sh.pure_ (a : α) : Sh k A (pure a : M Err Stream α) := fun _ => .ok
theorem Sh.throw_ (e : Err) : Sh k A (M.throw e : M Err Stream α) := fun _ => .err
theorem Sh.bind_ {m : M Err Stream α} {f : α → M Err Stream β} (hm : Sh k A m) (hf : ∀ a, Sh k A (f a)) : Sh k A (m >>= f) :=
  fun s => (hm s).bind fun a s' _ => hf a s'
theorem Sh.ite_ (c : Prop) [Decidable c] {m m' : M Err Stream α} (h : Sh k A m) (h' : Sh k A m') : Sh k A (if c then m else m') := by
  split
  · exact h
  · exact h'

theorem innerRead_sh (want : Nat) (s : Stream) : 
    (∃ d p sc, s.inner.read want = .ok d { s.inner with pos := p, sched := sc } ∧
      (moved k A s).inner.read want = .ok d { (moved k A s).inner with pos := A.length + p, sched := sc }) ∨
    (∃ e sc, s.inner.read want = .err e { s.inner with sched := sc } ∧ (moved k A s).inner.read want = .err e { (moved k A s).inner with sched := sc }) := by
  unfold Inner.read
  rw [moved_sched, moved_irest]
  cases hs : s.inner.sched with
  | nil => exact .inl ⟨_, _, _, rfl, by simp [moved, Nat.add_assoc, hs]⟩
  | cons e sc =>
    cases e with
    | short n => exact .inl ⟨_, _, _, rfl, by simp [moved, Nat.add_assoc]⟩
    | _ => exact .inr ⟨_, _, rfl, rfl⟩

theorem trackRead_sh (g : Bool) (want : Nat) : Sh k A (trackRead g want) := by
  intro s
  unfold trackRead
  by_cases h0 : want = 0
  · rw [if_pos h0, if_pos h0]; exact .ok
  · rw [if_neg h0, if_neg h0]
    rw [moved_pos]
    by_cases h2 : U64MAX - (s.pos + k) < want
    · rw [if_pos h2]; exact .over
    · rw [if_neg h2, if_neg (by omega)]
      rcases innerRead_sh (k := k) (A := A) want s with ⟨d, p, sc, e1, e2⟩ | ⟨e, sc, e1, e2⟩
      · rw [e1, e2]
        dsimp only
        have e3 : s.pos + k + d.length = s.pos + d.length + k := by omega
        rw [e3, moved_graceful]
        split
        · exact .ok (s := { s with inner := { s.inner with pos := p, sched := sc }, pos := s.pos + d.length })
        · exact .ok (s := { s with inner := { s.inner with pos := p, sched := sc }, pos := s.pos + d.length })
      · rw [e1, e2]; exact .err (s := { s with inner := { s.inner with sched := sc } })

theorem readByteLoop_sh (g : Bool) : ∀ fuel, Sh k A (readByteLoop g fuel) := by
  intro fuel
  induction fuel with
  | zero => intro s; exact .err
  | succ fuel ih =>
    intro s
    have hT := trackRead_sh (k := k) (A := A) g 1 s
    simp only [readByteLoop]
    revert hT
    generalize trackRead g 1 s = r
    generalize trackRead g 1 (moved k A s) = r'
    intro hT
    cases hT with
    | ok => rename_i d s'; cases d <;> first | exact .err | exact .ok
    | err =>
      rename_i e s'
      cases e with
      | io c => cases c <;> first | exact ih s' | exact .err
      | _ => exact .err
    | over => exact .over

theorem readByte_sh (g : Bool) : Sh k A (readByte g) := fun s => readByteLoop_sh g _ s

theorem decodeLoop_sh : ∀ (fuel : Nat) (a : UInt64) (sh : Nat), Sh k A (decodeLoop (readByte false) fuel a sh) := by
  intro fuel
  induction fuel with
  | zero => intro a sh; exact .throw_ _
  | succ fuel ih =>
    intro a sh
    simp only [decodeLoop]
    refine (readByte_sh false).bind_ fun b => ?_
    repeat' split
    all_goals first | exact .throw_ _ | exact .pure_ _ | exact ih _ _

theorem decodeU64_sh : Sh k A (decodeU64 (readByte false)) := decodeLoop_sh _ _ _

theorem drainLoop_sh {rd : Nat → M Err Stream (List Byte)} (hT : ∀ n, Sh k A (rd n)) : ∀ fuel lim acc, Sh k A (drainLoop rd fuel lim acc) := by
  intro fuel
  induction fuel with
  | zero => intro _ _ s; exact .err
  | succ fuel ih =>
    intro lim acc s
    have hT := hT lim s
    simp only [drainLoop]
    split
    · exact .ok
    · revert hT
      generalize rd lim s = r
      generalize rd lim (moved k A s) = r'
      intro hT
      cases hT with
      | ok =>
        rename_i d s'
        simp only [id]
        split
        · exact .ok
        · exact ih _ _ s'
      | err =>
        rename_i e s'
        cases e with
        | io c => cases c <;> first | exact ih _ _ s' | exact .err
        | _ => exact .err
      | over => exact .over

theorem drain_sh {rd : Nat → M Err Stream (List Byte)} (hT : ∀ n, Sh k A (rd n)) (n : Nat) : Sh k A (drain rd n) := fun s => drainLoop_sh hT _ n [] s

theorem skipByDiscard_sh (n : Nat) : Sh k A (skipByDiscard n) := (drain_sh (trackRead_sh false) n).bind_ fun _ => .pure_ _

/-- The tracked position is not behind the offset of the reader, on both streams; only needed if `skip_blob` seeks. -/
def Low (k : Nat) (A : List Byte) (s : Stream) : Prop :=
  s.useSeek = true → s.inner.seekable = true → s.inner.pos ≤ s.pos ∧ A.length + s.inner.pos ≤ s.pos + k

theorem Low.frame {s s' : Stream} (h : Low k A s) (hf : Frame s s') : Low k A s' := by
  intro h1 h2
  have := h (by rw [← hf.useSeek]; exact h1) (by rw [← hf.seekable]; exact h2)
  have := hf.off
  omega

theorem skipSeekDirect_sh (n : Nat) (h0 : 0 < n) {s : Stream} (hl : s.inner.seekable = true → s.inner.pos ≤ s.pos ∧ A.length + s.inner.pos ≤ s.pos + k) :
    ShR k A id (skipSeekDirect n s) (skipSeekDirect n (moved k A s)) := by
  unfold skipSeekDirect
  rw [moved_pos]
  by_cases h2 : U64MAX - (s.pos + k) < n
  · rw [if_pos h2]; exact .over
  · rw [if_neg h2, if_neg (by omega)]
    have t1 : SeekFrom.target (.current n) s.inner = ((s.inner.pos + n : Nat) : Int) := by simp [SeekFrom.target]
    have t2 : SeekFrom.target (.current n) (moved k A s).inner = ((A.length + s.inner.pos + n : Nat) : Int) := by simp [SeekFrom.target, moved]
    have hk : (moved k A s).inner.seekable = s.inner.seekable := rfl
    rcases innerSeek_cases (.current n) s with ⟨c1, -, -, c4, c5⟩ | ⟨c1, c2, -, -⟩ | ⟨c1, c2, c3⟩ | ⟨c1, c2⟩
    · rcases innerSeek_cases (.current n) (moved k A s) with ⟨-, -, -, d4, d5⟩ | ⟨d1, d2, -, -⟩ | ⟨d1, d2, -⟩ | ⟨d1, -⟩
      · rw [c5, d5, t1, t2]
        exact .ok' rfl (by simp only [moved, Stream.mk.injEq, Inner.mk.injEq, and_true, true_and]; omega)
      · have := hl c1; rw [t2] at d2; omega
      · exact absurd d2 c4
      · rw [hk, c1] at d1; cases d1
    · have := hl c1; rw [t1] at c2; omega
    · rcases innerSeek_cases (.current n) (moved k A s) with ⟨-, -, -, d4, d5⟩ | ⟨d1, -, d2, -⟩ | ⟨d1, d2, d3⟩ | ⟨d1, -⟩
      · exact absurd c2 d4
      · exact absurd c2 d2
      · rw [c3, d3]
        exact skipByDiscard_sh n (advBy s 0 s.inner.sched.tail)
      · rw [hk, c1] at d1; cases d1
    · rcases innerSeek_cases (.current n) (moved k A s) with ⟨d1, -, -, d4, d5⟩ | ⟨d1, -, d2, -⟩ | ⟨d1, d2, d3⟩ | ⟨d1, d2⟩
      · rw [hk, c1] at d1; cases d1
      · rw [hk, c1] at d1; cases d1
      · rw [hk, c1] at d1; cases d1
      · rw [c2, d2]
        exact skipByDiscard_sh n s

theorem skipBySeek_sh : ∀ fuel n, 0 < n → ∀ {s : Stream}, (s.inner.seekable = true → s.inner.pos ≤ s.pos ∧ A.length + s.inner.pos ≤ s.pos + k) →
    ShR k A id (skipBySeek fuel n s) (skipBySeek fuel n (moved k A s)) := by
  intro fuel
  induction fuel with
  | zero => intro n _ s _; exact .err
  | succ fuel ih =>
    intro n h0 s hl
    simp only [skipBySeek]
    rw [M.ite_apply, M.ite_apply]
    split
    · by_cases hp : I64MAX ≤ U64MAX - s.pos
      · refine (skipSeekDirect_sh I64MAX (by decide) hl).bind fun m s' hr => ?_
        obtain ⟨j, sc, h1, h2, h3⟩ := skipSeekDirect_spec (s := s) I64MAX hp
        simp only [id]
        rcases h3 with ⟨h3, h4⟩ | ⟨h3, h4⟩
        · rw [hr] at h3
          cases h3
          rw [M.ite_apply, M.ite_apply]
          split
          · exact .ok
          · refine (ih (n - m) (by omega) fun h => ?_).bind fun _ _ _ => .ok
            have := hl h
            simp only [advBy_pos, advBy_ipos]; omega
        · rw [hr] at h4; cases h4
      · refine ShR.bind (g := id) ?_ fun m s' hr => ?_
        · unfold skipSeekDirect
          rw [if_pos (by omega), if_pos (by rw [moved_pos]; omega)]
          exact .err
        · unfold skipSeekDirect at hr
          rw [if_pos (by omega)] at hr; cases hr
    · exact skipSeekDirect_sh n h0 hl

theorem skipBlob_sh {s : Stream} (hl : Low k A s) : ShR k A id (skipBlob s) (skipBlob (moved k A s)) := by
  unfold skipBlob
  rw [moved_blobEnd, moved_pos, moved_useSeek]
  by_cases h : s.blobEnd > s.pos
  · rw [if_pos h, if_pos (by omega), show s.blobEnd + k - (s.pos + k) = s.blobEnd - s.pos by omega]
    dsimp only
    have key : ShR k A id ((if s.useSeek = true then skipBySeek 4 (s.blobEnd - s.pos) else skipByDiscard (s.blobEnd - s.pos)) s)
        ((if s.useSeek = true then skipBySeek 4 (s.blobEnd - s.pos) else skipByDiscard (s.blobEnd - s.pos)) (moved k A s)) := by
      split
      · rename_i hu; exact skipBySeek_sh 4 _ (by omega) (hl hu)
      · exact skipByDiscard_sh _ s
    revert key
    generalize (if s.useSeek = true then skipBySeek 4 (s.blobEnd - s.pos) else skipByDiscard (s.blobEnd - s.pos)) s = r
    generalize (if s.useSeek = true then skipBySeek 4 (s.blobEnd - s.pos) else skipByDiscard (s.blobEnd - s.pos)) (moved k A s) = r'
    intro key
    cases key with
    | ok => simp only [id]; split <;> first | exact .err | exact .ok
    | err => exact .err
    | over => exact .over
  · rw [if_neg h, if_neg (by omega)]; exact .ok

theorem commit_sh {s : Stream} (hl : Low k A s) (hi : Inv s) : ShR k A id (commit s) (commit (moved k A s)) := by
  unfold commit
  rw [moved_commit]
  rcases hi.pend with h | ⟨h, -, -⟩
  · rw [h]; exact .ok
  · rw [h]
    dsimp only
    have key := skipBlob_sh hl
    revert key
    generalize skipBlob s = r
    generalize skipBlob (moved k A s) = r'
    intro key
    cases key with
    | ok => rename_i u s'; exact .ok (s := { s' with commit := none, live := false })
    | err => rename_i e s'; exact .err (s := { s' with live := false })
    | over => exact .over

theorem checkAdvance_sh (n : Nat) : Sh k A (checkAdvance n) := by
  intro s
  unfold checkAdvance
  rw [moved_pos]
  by_cases h2 : U64MAX - (s.pos + k) < n
  · rw [if_pos h2]; exact .over
  · rw [if_neg h2, if_neg (by omega)]; exact .ok

theorem modify_sh {f : Stream → Stream} (h : ∀ s, f (moved k A s) = moved k A (f s)) : Sh k A (M.modify f : M Err Stream Unit) := by
  intro s
  rw [M.modify_apply, M.modify_apply]
  exact .ok' rfl (h s)

theorem nextBlob_sh : Sh k A nextBlob := by
  unfold nextBlob
  refine decodeU64_sh.bind_ fun n => (checkAdvance_sh _).bind_ fun _ => (modify_sh fun s => ?_).bind_ fun _ => .pure_ _
  simp only [moved, Stream.mk.injEq, and_true, true_and]; omega

theorem nextValue_sh (ty : DescTy) : Sh k A (nextValue ty) := by
  cases ty with
  | integer => exact decodeU64_sh.bind_ fun n => .pure_ _
  | blob => exact nextBlob_sh.bind_ fun n => .pure_ _
  | struct => unfold nextValue; exact Sh.bind_ (modify_sh fun s => rfl) fun n => .pure_ _
  | enum => unfold nextValue; exact decodeU64_sh.bind_ fun n => Sh.bind_ (modify_sh fun s => rfl) fun _ => .pure_ _
end

/-- The field, found at a position larger by `k`. -/
def Field.sh (k : Nat) (f : Field) : Field := { f with pos := f.pos + k }
/-- The element, found at a position larger by `k`. -/
def Element.sh (k : Nat) : Element → Element
  | .field f => .field (f.sh k)
  | e => e

section
variable {α β : Type} {k : Nat} {A : List Byte}

theorem readElement_sh (s : Stream) : ShR k A (Element.sh k) (readElement s) (readElement (moved k A s)) := by
  have key := readByte_sh (k := k) (A := A) true s
  unfold readElement
  rw [moved_pos]
  revert key
  generalize readByte true s = r
  generalize readByte true (moved k A s) = r'
  intro key
  cases key with
  | over => exact .over
  | err => exact .err
  | ok =>
    rename_i b s'
    simp only [id]
    cases Desc.parse b with
    | none => exact .err
    | some d =>
      cases d with
      | pair ty tag =>
        dsimp only
        have : (if (moved k A s').depth = 0 then { moved k A s' with depth := 1 } else moved k A s') = moved k A (if s'.depth = 0 then { s' with depth := 1 } else s') := by
          rw [moved_depth]; split <;> rfl
        rw [this, moved_depth]
        refine (nextValue_sh ty _).bind2 fun v s2 _ => ?_
        exact .ok' rfl rfl
      | special sp =>
        cases sp with
        | endOfStruct => exact .ok' rfl rfl
        | endOfDoc => exact .ok' rfl rfl
        | exception =>
          refine (nextBlob_sh s').bind fun v s2 _ => ?_
          exact .ok' rfl rfl
        | padding => exact .ok' rfl rfl

theorem Element.sh_padding (e : Element) : e.sh k = .padding ↔ e = .padding := by cases e <;> simp [Element.sh]

theorem skipPadLoop_sh : ∀ (fuel : Nat) (s : Stream), ShR k A (Element.sh k) (skipPadLoop fuel s) (skipPadLoop fuel (moved k A s)) := by
  intro fuel
  induction fuel with
  | zero => intro s; exact .err
  | succ fuel ih =>
    intro s
    simp only [skipPadLoop]
    refine (readElement_sh s).bind fun e s' _ => ?_
    rw [M.ite_apply, M.ite_apply]
    by_cases h : e = .padding
    · rw [if_pos h, if_pos ((Element.sh_padding e).2 h)]; exact ih s'
    · rw [if_neg h, if_neg fun h' => h ((Element.sh_padding e).1 h')]; exact .ok

theorem nextElementImpl_sh (sp : Bool) {s : Stream} (hl : Low k A s) (hi : Inv s) : ShR k A (Element.sh k) (nextElementImpl sp s) (nextElementImpl sp (moved k A s)) := by
  unfold nextElementImpl
  rw [moved_eof]
  split
  · exact .ok' rfl rfl
  · refine (commit_sh hl hi).bind fun _ s' _ => ?_
    cases sp with
    | false => exact readElement_sh s'
    | true =>
      simp only [if_true]
      rw [M.bind_ok (M.get_apply _), M.bind_ok (M.get_apply _), moved_left]
      exact skipPadLoop_sh _ s'

theorem blobRead_sh (want : Nat) : Sh k A (blobRead want) := by
  intro s
  unfold blobRead
  rw [moved_remaining]
  dsimp only
  split
  · exact .ok
  · exact trackRead_sh _ _ s

theorem readFully_sh (max : Nat) : Sh k A (readFully max) := by
  intro s
  unfold readFully
  rw [moved_remaining]
  split
  · exact .err
  · exact drain_sh blobRead_sh _ s

theorem readOrTrunc_sh (max : Nat) : Sh k A (readOrTrunc max) := by
  intro s
  unfold readOrTrunc
  rw [moved_remaining]
  exact drain_sh blobRead_sh _ s

theorem nextField_sh {s : Stream} (hl : Low k A s) (hi : Inv s) : ShR k A (Option.map (Field.sh k)) (nextField s) (nextField (moved k A s)) := by
  unfold nextField
  refine (nextElementImpl_sh true hl hi).bind fun e s' _ => ?_
  cases e with
  | padding => exact .err
  | endOfStruct => exact .ok' rfl rfl
  | endOfDoc => exact .ok' rfl rfl
  | field f => exact .ok' rfl rfl
  | exception n => exact (readOrTrunc_sh 256 s').bind fun m s2 _ => .err

theorem skipUpLoop_sh (d : Nat) : ∀ fuel {s : Stream}, Low k A s → Inv s → ShR k A id (skipUpLoop d fuel s) (skipUpLoop d fuel (moved k A s)) := by
  intro fuel
  induction fuel with
  | zero => intro s _ _; exact .err
  | succ fuel ih =>
    intro s hl hi
    rw [skipUpLoop, skipUpLoop, moved_depth]
    split
    · refine (nextElementImpl_sh false hl hi).bind fun e s' hr => ?_
      have hs := (nextElementImpl_safe false hi).1.step
      rw [hr] at hs
      exact ih (hl.frame hs.frame) hs.inv
    · exact .ok

theorem blobSlice_sh : Sh k A blobSlice := by
  unfold blobSlice
  refine Sh.bind_ (fun s => ?_) fun d s => ?_
  · unfold innerSlice
    rw [moved_irest]
    show ShR k A id _ (if A.length + s.inner.pos > (A ++ s.inner.data).length then _ else _)
    rw [List.length_append]
    by_cases h : s.inner.pos > s.inner.data.length
    · rw [if_pos h, if_pos (by omega)]; exact .err
    · rw [if_neg h, if_neg (by omega)]; exact .ok
  · rw [M.bind_ok (M.get_apply _), M.bind_ok (M.get_apply _), moved_remaining, M.ite_apply, M.ite_apply]
    split
    · exact .ok
    · exact .err

/-- What an API call returns on the stream whose positions are larger by `k`. -/
def Op.sh (k : Nat) : {β : Type} → Op β → β → β
  | _, .nextField => Option.map (Field.sh k)
  | _, .nextElement => Element.sh k
  | _, .pos => (· + k)
  | _, .skipUp _ => id
  | _, .commit => id
  | _, .clearEof => id
  | _, .eof => id
  | _, .structDepth => id
  | _, .readFully _ => id
  | _, .readOrTrunc _ => id
  | _, .read _ => id
  | _, .slice => id
  | _, .remaining => id

theorem onLiveBlob_sh {m : M Err Stream α} (h : Sh k A m) : Sh k A (onLiveBlob m) := by
  intro s
  unfold onLiveBlob
  rw [moved_live]
  split
  · exact h s
  · exact .err

theorem Op.exec_sh {β : Type} (o : Op β) {s : Stream} (hl : Low k A s) (hi : Inv s) : ShR k A (o.sh k) (o.exec s) (o.exec (moved k A s)) := by
  cases o with
  | nextField => exact nextField_sh hl hi
  | nextElement => exact nextElementImpl_sh false hl hi
  | skipUp d => simp only [Op.exec]; unfold Fourleaf.skipUp; rw [moved_left]; exact skipUpLoop_sh d _ hl hi
  | commit => exact commit_sh hl hi
  | clearEof => exact .ok' rfl rfl
  | eof => exact .ok' rfl rfl
  | pos => exact .ok' rfl rfl
  | structDepth => exact .ok' rfl rfl
  | readFully max => exact onLiveBlob_sh (readFully_sh max) s
  | readOrTrunc max => exact onLiveBlob_sh (readOrTrunc_sh max) s
  | read want => exact onLiveBlob_sh (blobRead_sh want) s
  | slice => exact onLiveBlob_sh blobSlice_sh s
  | remaining => exact onLiveBlob_sh (m := fun s => .ok (blobRemaining s) s) (fun s => .ok' (by rw [moved_remaining]; rfl) rfl) s

theorem pull_sh (fields : Bool) {s : Stream} (hl : Low k A s) (hi : Inv s) : ShR k A (Option.map (Element.sh k)) (pull fields s) (pull fields (moved k A s)) := by
  unfold pull
  cases fields with
  | true =>
    have key := nextField_sh hl hi
    simp only [if_true]
    revert key
    generalize nextField s = r
    generalize nextField (moved k A s) = r'
    intro key
    cases key with
    | ok => rename_i o s'; cases o <;> exact .ok' rfl rfl
    | err => exact .err
    | over => exact .over
  | false =>
    have key : ShR k A _ (nextElement s) (nextElement (moved k A s)) := nextElementImpl_sh false hl hi
    simp only [Bool.false_eq_true, if_false]
    revert key
    generalize nextElement s = r
    generalize nextElement (moved k A s) = r'
    intro key
    cases key with
    | ok => rename_i o s'; cases o <;> exact .ok' rfl rfl
    | err => exact .err
    | over => exact .over
end

end Fourleaf
