import Verif.TokLemmas

/-! # Properties of reading that hold for every client program: C11, C14, C15, C19, C20, C21, C28 -/

namespace Fourleaf.Props
open Fourleaf Spec

/-- A stream on which nothing is pending: just constructed (`Stream::new`, `new_seek`, `from_slice`), or
repositioned. The position can be anything `u64` holds; depth, graceful-EOF flag, data, and reader are arbitrary. -/
structure Fresh (s : Stream) : Prop where
  pos : s.pos ≤ U64MAX
  eof : s.eof = false
  commit : s.commit = none
  live : s.live = false

theorem fresh_new (i : Inner) : Fresh (Stream.new i) := ⟨Nat.zero_le _, rfl, rfl, rfl⟩
theorem fresh_newSeek (i : Inner) : Fresh (Stream.newSeek i) := ⟨Nat.zero_le _, rfl, rfl, rfl⟩
theorem fresh_fromSlice (b : List Byte) : Fresh (Stream.fromSlice b) := ⟨Nat.zero_le _, rfl, rfl, rfl⟩

theorem Fresh.inv {s : Stream} (h : Fresh s) : Inv s :=
  ⟨h.pos, .inl h.commit, fun he => by simp [h.eof] at he, fun he => by simp [h.eof] at he,
    fun hl => by simp [h.live] at hl⟩

theorem nextElementImpl_fresh {s : Stream} (hs : Fresh s) (sp : Bool) : nextElementImpl sp s =
    if sp then skipPadLoop (s.inner.data.length - s.inner.pos + 2) s else readElement s := by
  have hcm : commit s = .ok () s := by simp [commit, hs.commit]
  unfold nextElementImpl
  rw [if_neg (by simp [hs.eof]), M.bind_ok hcm]
  cases sp <;> rfl

/-- **C19** No client program whatsoever can make a reading stream panic or hang, whatever the
input bytes, the chunking, and the failures of the reader: the run ends with a value or an error of
the client's own (i.e. every call returned a `Result`). -/
theorem c19_no_panic_no_hang {ε U α : Type} (p : Prog ε U α) (s : Stream) (u : U) (hs : Fresh s) :
    (∃ a st, p.run (s, u) = .ok a st) ∨ (∃ e st, p.run (s, u) = .err (.client e) st) := by
  have h := p.run_safe (s, u) hs.inv
  cases hr : p.run (s, u) with
  | ok a st => exact .inl ⟨a, st, rfl⟩
  | err e st =>
    cases e with
    | client e => exact .inr ⟨e, st, rfl⟩
    | abort e => exact absurd hr (fun hr => h.normal e st hr)

/-- A client that skips to the outermost level and counts the fields it sees, on input that is cut off in a
blob length: the run returns (here: with an error the client makes of the stream's). -/
def countFields : Prog Err Nat Nat :=
  .bind (.op (.skipUp 1)) fun _ =>
  .loop true (0 : Nat) (fun n _ => .bind (.setU n) fun _ => .ret (.inl (n + 1))) .fail .ret

example : Fresh (Stream.fromSlice [0x41, 5, 0xC2, 0x43, 1, 0x84]) := fresh_fromSlice _
example : (countFields.run (Stream.fromSlice [0x41, 5, 0xC2, 0x43, 1, 0x84], 0)) =
    .err (.client (.io .unexpectedEof))
      ({ Stream.fromSlice [0x41, 5, 0xC2, 0x43, 1, 0x84] with
          inner := { data := [0x41, 5, 0xC2, 0x43, 1, 0x84], pos := 6, sched := [], seekable := true },
          pos := 6, depth := 2 }, 2) := by decide +kernel

/-- **C11** Whatever a client does and whatever goes wrong, the reported position moves in lock step with the
offset of the underlying byte stream, and reading does not change the data. -/
theorem c11_position_accounting {ε U α : Type} (p : Prog ε U α) (s : Stream) (u : U) (hs : Fresh s) :
    let s' := (p.run (s, u)).state.1
    (s'.pos : Int) - s.pos = (s'.inner.pos : Int) - s.inner.pos ∧ s'.inner.data = s.inner.data := by
  have h := (p.run_safe (s, u) hs.inv).step.frame
  have h1 := h.off
  have h2 := h.data
  simp only at h1 h2
  exact ⟨by omega, h2⟩

example : ((countFields.run (Stream.fromSlice [0x41, 5, 0x42, 7, 0x00], 0)).state.1.pos) = 5 := by decide +kernel

/-- **C20** The position never exceeds `u64::MAX` (with C11: it never wraps around). -/
theorem c20_position_never_wraps {ε U α : Type} (p : Prog ε U α) (s : Stream) (u : U) (hs : Fresh s) :
    (p.run (s, u)).state.1.pos ≤ U64MAX :=
  (p.run_safe (s, u) hs.inv).step.inv.pos_le

/-- **C20** A blob whose end would lie beyond `u64::MAX` is refused with an error. `d` is the
descriptor, `g` the length in any spelling. -/
theorem c20_overlong_blob_refused (s : Stream) (hs : Fresh s) (hb : Benign s.inner.sched) (d : UInt8) (g l : List UInt8)
    (n : Nat) (hn : n < 2 ^ 64) (hd : 128 ≤ d.toNat ∧ d.toNat < 192) (hg : EncInt n g) (hr : s.rest = d :: g ++ l)
    (hp : s.pos + 1 + g.length ≤ U64MAX) (ho : U64MAX < s.pos + 1 + g.length + n) :
    ∃ s', nextElement s = .err posOverflow s' := by
  have hN : (UInt64.ofNat n).toNat = n := by rw [UInt64.toNat_ofNat']; exact Nat.mod_eq_of_lt hn
  obtain ⟨sc, hsc, h1⟩ := readByte_at true hb hr (by omega)
  have hnb : ∀ s2 : Stream, s2.inner = (advBy s 1 sc).inner → s2.pos = s.pos + 1 → ∃ s', nextBlob s2 = .err posOverflow s' := by
    intro s2 h2 h3
    obtain ⟨sc2, -, h4⟩ := decodeU64_at (s := s2) (n := UInt64.ofNat n) (l := l) (by rw [h2]; exact hb.suffix hsc)
      (by rw [hN]; exact hg) (by
        have : s2.rest = (advBy s 1 sc).rest := by unfold Stream.rest; rw [h2]
        rw [this, advBy_rest, hr]; rfl) (by omega)
    refine ⟨advBy s2 g.length sc2, ?_⟩
    unfold nextBlob
    rw [M.bind_ok h4]
    have : checkAdvance (UInt64.ofNat n).toNat (advBy s2 g.length sc2) = .err posOverflow (advBy s2 g.length sc2) := by
      rw [checkAdvance_eq, hN, if_pos (by simp; omega)]
    rw [M.bind_err this]
  have hcm : commit s = .ok () s := by simp [commit, hs.commit]
  unfold nextElement nextElementImpl
  rw [if_neg (by simp [hs.eof]), M.bind_ok hcm]
  show ∃ s', readElement s = _
  unfold readElement
  rw [h1]
  dsimp only
  rw [parse_arith]
  have h64 : d.toNat / 64 = 2 := by omega
  by_cases h0 : d.toNat % 64 = 0
  · rw [if_pos h0, h64]
    obtain ⟨s', h⟩ := hnb (advBy s 1 sc) rfl rfl
    refine ⟨s', ?_⟩
    show (nextBlob >>= _) (advBy s 1 sc) = _
    rw [M.bind_err h]
  · rw [if_neg h0, h64]
    simp only [tyOf, nextValue]
    generalize hs2 : (if (advBy s 1 sc).depth = 0 then { advBy s 1 sc with depth := 1 } else advBy s 1 sc) = s2
    obtain ⟨s', h⟩ := hnb s2 (by rw [← hs2]; split <;> rfl) (by rw [← hs2]; split <;> rfl)
    exact ⟨s', by rw [M.bind_err (e := posOverflow) (s' := s')]; rw [M.bind_err h]⟩

example : nextElement { Stream.fromSlice [0x81, 5, 1] with pos := U64MAX - 6 } =
    .err posOverflow { Stream.fromSlice [0x81, 5, 1] with
      pos := U64MAX - 4, depth := 1, inner := { data := [0x81, 5, 1], pos := 2, sched := [], seekable := true } } := by
  decide +kernel

/-- **C21** The outcome of a client program, value or error, and everything it can observe of the stream
afterwards, do not depend on how the reader splits the data into chunks, nor on interruptions:
two streams that differ only in their schedules behave the same. (A bare `Read::read` on a blob returns chunks
by contract and is excluded; `read_fully` and the like are included.) -/
theorem c21_chunking_independent {ε U α : Type} (p : Prog ε U α) (hp : p.OpsAll Op.whole) (s : Stream) (u : U)
    (hs : Fresh s) (hb : Benign s.inner.sched) (sc : List Ev) (hb' : Benign sc) :
    let t := { s with inner := { s.inner with sched := sc } }
    (∀ a st, p.run (s, u) = .ok a st → ∃ sc', p.run (t, u) =
      .ok a ({ st.1 with inner := { st.1.inner with sched := sc' } }, st.2)) ∧
    (∀ e st, p.run (s, u) = .err e st → ∃ sc', p.run (t, u) =
      .err e ({ st.1 with inner := { st.1.inner with sched := sc' } }, st.2)) := by
  have hrel : Rel false [] s { s with inner := { s.inner with sched := sc } } :=
    ⟨by simp [ext], hb, hb', fun h => absurd rfl h, fun _ => rfl, fun _ => rfl⟩
  have h := p.run_rel false [] (fun _ => True) hp (.inl rfl) s _ u hrel hs.inv
  constructor
  · intro a st hr
    rcases h.ok a st hr with ⟨t, h1, h2⟩ | ⟨h1, -⟩
    · refine ⟨t.inner.sched, ?_⟩
      have hg := h2.same rfl
      rw [h1, h2.eq]; simp [ext, hg]
    · exact absurd rfl h1
  · intro e st hr
    obtain ⟨t, h1, h2⟩ := (h.err e st hr).resolve_right fun h => h.1 rfl
    refine ⟨t.inner.sched, ?_⟩
    have hg := h2.same rfl
    rw [h1, h2.eq]; simp [ext, hg]

example : countFields.OpsAll Op.whole := ⟨trivial, fun _ => ⟨fun _ _ => ⟨trivial, fun _ => trivial⟩, fun _ => trivial, fun _ => trivial⟩⟩
example : Benign [.interrupted, .short 0, .interrupted, .short 3] := by unfold Benign; decide

/-- Executing a program which never calls `clear_eof` at the end of the document. -/
def notClear {β : Type} : Op β → Prop
  | .clearEof => False
  | _ => True

theorem exec_at_eof {β : Type} (o : Op β) (ho : notClear o) (s : Stream) (hi : Inv s) (he : s.eof = true) :
    (o.exec s).state = s := by
  have hc := hi.eofCommit he
  have hl := hi.notLive hc
  have hn : ∀ sp, nextElementImpl sp s = .ok .endOfDoc s := by
    intro sp; unfold nextElementImpl; rw [if_pos he]
  cases o with
  | nextField => simp only [Op.exec, nextField]; rw [M.bind_ok (hn true)]; rfl
  | nextElement => simp only [Op.exec, nextElement, hn]; rfl
  | skipUp d =>
    simp only [Op.exec, skipUp, skipUpLoop]
    rw [if_neg (by have := hi.eofDepth he; omega)]; rfl
  | commit => simp only [Op.exec, commit, hc]; rfl
  | clearEof => exact absurd ho id
  | eof => rfl
  | pos => rfl
  | structDepth => rfl
  | readFully max => simp [Op.exec, onLiveBlob, hl]
  | readOrTrunc max => simp [Op.exec, onLiveBlob, hl]
  | read want => simp [Op.exec, onLiveBlob, hl]
  | slice => simp [Op.exec, onLiveBlob, hl]
  | remaining => simp [Op.exec, onLiveBlob, hl]

theorem pull_at_eof (fields : Bool) (s : Stream) (he : s.eof = true) : pull fields s = .ok none s := by
  have hn : ∀ sp, nextElementImpl sp s = .ok .endOfDoc s := by
    intro sp; unfold nextElementImpl; rw [if_pos he]
  unfold pull
  cases fields with
  | true =>
    have : nextField s = .ok none s := by unfold nextField; rw [M.bind_ok (hn true)]; rfl
    simp [this]
  | false => simp [nextElement, hn]

theorem run_at_eof {ε U : Type} : ∀ {α : Type} (p : Prog ε U α) (_ : p.OpsAll notClear) (s : Stream) (u : U),
    Inv s → s.eof = true → (p.run (s, u)).state.1 = s := by
  intro α p
  induction p with
  | ret a => intros; rfl
  | fail e => intros; rfl
  | op o =>
    intro ho s u hi he
    have h := exec_at_eof o ho s hi he
    simp only [Prog.run]
    cases hr : o.exec s with
    | ok b s' => rw [hr] at h; exact h
    | err e s' => rw [hr] at h; dsimp only; split <;> exact h
  | call o f =>
    intro ho s u hi he
    have h := exec_at_eof o ho s hi he
    simp only [Prog.run]
    cases hr : o.exec s with
    | ok b s' => rw [hr] at h; exact h
    | err e s' => rw [hr] at h; dsimp only; split <;> exact h
  | getU => intros; rfl
  | setU u => intros; rfl
  | bind p f ihp ihf =>
    intro ho s u hi he
    have h := ihp ho.1 s u hi he
    simp only [Prog.run]
    cases hr : p.run (s, u) with
    | ok a st =>
      rw [hr] at h
      obtain ⟨s', u'⟩ := st
      simp only [Res.state_ok] at h
      subst h
      exact ihf a (ho.2 a) _ u' hi he
    | err e st => rw [hr] at h; exact h
  | attempt p ih =>
    intro ho s u hi he
    have h := ih ho s u hi he
    simp only [Prog.run]
    cases hr : p.run (s, u) with
    | ok a st => rw [hr] at h; exact h
    | err e st => rw [hr] at h; cases e <;> exact h
  | loop fields init body onErr onEnd ihb ihe ihd =>
    intro ho s u hi he
    simp only [Prog.run, runLoop, pull_at_eof fields s he]
    exact ihd init (ho.2.2 init) s u hi he

/-- **C14** Once a client has brought the stream to its end, nothing it does short of `clear_eof` has any effect on
the stream or the underlying reader; `next_field` says `None` and `next_element` says `EndOfDoc`. -/
theorem c14_eof_sticky {ε U α ε' U' β : Type} (p : Prog ε U α) (s : Stream) (u : U) (hs : Fresh s)
    (q : Prog ε' U' β) (hq : q.OpsAll notClear) (u' : U') :
    let s' := (p.run (s, u)).state.1
    s'.eof = true →
      (q.run (s', u')).state.1 = s' ∧ nextField s' = .ok none s' ∧ nextElement s' = .ok .endOfDoc s' := by
  intro s' he
  have hi : Inv s' := (p.run_safe (s, u) hs.inv).step.inv
  have hn : ∀ sp, nextElementImpl sp s' = .ok .endOfDoc s' := by
    intro sp; unfold nextElementImpl; rw [if_pos he]
  refine ⟨run_at_eof q hq s' u' hi he, ?_, hn false⟩
  unfold nextField; rw [M.bind_ok (hn true)]; rfl

example : ((countFields.run (Stream.fromSlice [0x41, 5, 0x40, 0x41], 0)).state.1.eof) = true := by decide +kernel

/-- **C14** `clear_eof` does nothing unless the stream has come to its end. Then it makes a stream like a new one, at the same place, outside any structure; the underlying reader
is not touched. -/
theorem c14_clear {ε U α : Type} (p : Prog ε U α) (s : Stream) (u : U) (hs : Fresh s) :
    let s' := (p.run (s, u)).state.1
    (s'.eof = false → clearEof s' = .ok () s') ∧
    (s'.eof = true → ∃ s'', clearEof s' = .ok () s'' ∧ Fresh s'' ∧ s''.depth = 0 ∧ s''.pos = s'.pos ∧ s''.inner = s'.inner) := by
  intro s'
  have hi : Inv s' := (p.run_safe (s, u) hs.inv).step.inv
  refine ⟨fun he => ?_, fun he => ⟨_, rfl, ⟨hi.pos_le, rfl, hi.eofCommit he, hi.notLive (hi.eofCommit he)⟩, hi.eofDepth he, rfl, rfl⟩⟩
  show Res.ok () { s' with eof := false } = _
  rw [← he]

/-- After the end of the first document `clear_eof` gives access to the field behind it. -/
example : (match clearEof (countFields.run (Stream.fromSlice [0x41, 5, 0x40, 0x42, 7], 0)).state.1 with
    | .ok _ s => (match nextField s with | .ok (some f) _ => decide (f.tag = 2 ∧ f.value = .int 7) | _ => false)
    | .err _ _ => false) = true := by decide +kernel

/-- **C15** End of input where a descriptor is expected: an explicit end of document with graceful EOF, an error
without. -/
theorem c15_eof_at_descriptor (s : Stream) (hs : Fresh s) (hb : Benign s.inner.sched) (hr : s.rest = [])
    (hp : s.pos < U64MAX) :
    (s.graceful = true → ∃ s', nextElement s = .ok .endOfDoc s' ∧ s'.eof = true ∧ s'.depth = 0 ∧
      nextField s = .ok none s') ∧
    (s.graceful = false → ∃ s', nextElement s = .err (.io .unexpectedEof) s' ∧
      nextField s = .err (.io .unexpectedEof) s') := by
  have hcm : commit s = .ok () s := by simp [commit, hs.commit]
  have hre : ∃ sc, readByte true s = (if s.graceful = true then .ok 0x40 (advBy s 0 sc) else .err (.io .unexpectedEof) (advBy s 0 sc)) := by
    rcases readByte_spec true s with ⟨h1, -⟩ | ⟨-, sc, -, h⟩
    · omega
    · refine ⟨sc, ?_⟩
      rcases h with ⟨b, l, h, -⟩ | ⟨-, -, h1, h2⟩ | ⟨-, h1, h2⟩ | ⟨h, -⟩
      · rw [hr] at h; cases h
      · rw [if_pos h1]; exact h2
      · simp at h1; rw [if_neg (by simp [h1])]; exact h2
      · exact absurd hb h
  obtain ⟨sc, hre⟩ := hre
  have himp : ∀ e s', readElement s = .ok e s' → e ≠ .padding → nextElement s = .ok e s' ∧ nextElementImpl true s = .ok e s' := by
    intro e s' h hne
    refine ⟨(nextElementImpl_fresh hs false).trans h, ?_⟩
    rw [nextElementImpl_fresh hs true]
    simp only [if_true]
    rw [skipPadLoop, M.bind_ok h, M.ite_apply, if_neg hne]; rfl
  constructor
  · intro hg
    rw [if_pos hg] at hre
    have h : readElement s = .ok .endOfDoc { advBy s 0 sc with eof := true, depth := 0 } := by
      unfold readElement; rw [hre]; dsimp only
      rw [show Desc.parse 0x40 = some (.special .endOfDoc) by decide]
    obtain ⟨h1, h2⟩ := himp _ _ h (by simp)
    refine ⟨_, h1, rfl, rfl, ?_⟩
    unfold nextField; rw [M.bind_ok h2]; rfl
  · intro hg
    rw [if_neg (by simp [hg])] at hre
    have h : readElement s = .err (.io .unexpectedEof) (advBy s 0 sc) := by
      unfold readElement; rw [hre]
    refine ⟨advBy s 0 sc, ?_, ?_⟩
    · exact (nextElementImpl_fresh hs false).trans h
    · have : nextElementImpl true s = .err (.io .unexpectedEof) (advBy s 0 sc) := by
        rw [nextElementImpl_fresh hs true]
        simp only [if_true]
        rw [skipPadLoop, M.bind_err h]
      unfold nextField; rw [M.bind_err this]

/-- Decoding never succeeds on bytes that all ask for more. -/
theorem decode_unterminated : ∀ (fuel : Nat) (a : UInt64) (sh : Nat) (s : Stream), Benign s.inner.sched → (∀ b ∈ s.rest, 128 ≤ b.toNat) →
    ∀ n s', decodeLoop (readByte false) fuel a sh s ≠ .ok n s' := by
  intro fuel
  induction fuel with
  | zero => intro a sh s _ _ n s' h; cases h
  | succ fuel ih =>
    intro a sh s hb hall n s' h
    rcases readByte_spec false s with ⟨-, sc, -, h2⟩ | ⟨-, sc, hsc, h2⟩
    · simp only [decodeLoop] at h; rw [M.bind_err h2] at h; cases h
    · rcases h2 with ⟨b, l, h1, h2⟩ | ⟨-, h2, -⟩ | ⟨-, -, h2⟩ | ⟨h1, -⟩
      · simp only [decodeLoop] at h
        rw [M.bind_ok h2] at h
        have hb128 : 128 ≤ b.toNat := hall b (by rw [h1]; simp)
        have hnz : ¬ b &&& 0x80 = 0 := by rw [and80]; omega
        simp only [M.ite_apply, if_neg hnz] at h
        split at h
        · cases h
        · split at h
          · cases h
          · refine ih _ _ _ (hb.suffix hsc) ?_ n s' h
            rw [advBy_rest, h1]
            intro c hc; exact hall c (by rw [h1]; simp at hc ⊢; exact .inr hc)
      · cases h2
      · simp only [decodeLoop] at h; rw [M.bind_err h2] at h; cases h
      · exact absurd hb h1

/-- **C15** End of input inside an integer (the value of an integer field, an enum discriminant, a blob or
exception length) is an error, with or without graceful EOF. -/
theorem c15_eof_inside_integer (s : Stream) (hs : Fresh s) (hb : Benign s.inner.sched) (d : UInt8) (g : List UInt8)
    (hd : d.toNat < 192) (hd' : d.toNat ≠ 0 ∧ d.toNat ≠ 64) (hg : ∀ b ∈ g, 128 ≤ b.toNat) (hr : s.rest = d :: g) :
    ∃ e s', nextElement s = .err e s' ∧ e.abnormal = false := by
  have hS := (nextElement_safe hs.inv).1
  cases hn : nextElement s with
  | err e s' => rw [hn] at hS; exact ⟨e, s', rfl, hS.normal _ _ rfl⟩
  | ok el s' =>
    exfalso
    have hcm : commit s = .ok () s := by simp [commit, hs.commit]
    unfold nextElement nextElementImpl at hn
    rw [if_neg (by simp [hs.eof]), M.bind_ok hcm] at hn
    have hn : readElement s = .ok el s' := hn
    unfold readElement at hn
    rcases readByte_spec true s with ⟨-, sc, -, h2⟩ | ⟨-, sc, hsc, h2⟩
    · rw [h2] at hn; cases hn
    · rcases h2 with ⟨b, l, h1, h2⟩ | ⟨h1, -⟩ | ⟨h1, -⟩ | ⟨h1, -⟩
      · rw [hr] at h1; cases h1
        rw [h2] at hn
        dsimp only at hn
        rw [parse_arith] at hn
        have key : ∀ s2 : Stream, s2.inner = (advBy s 1 sc).inner → ∀ n s', decodeU64 (readByte false) s2 ≠ .ok n s' := by
          intro s2 hs2 n s'
          unfold decodeU64
          refine decode_unterminated _ _ _ s2 (by rw [hs2]; exact hb.suffix hsc) ?_ n s'
          have : s2.rest = g := by
            have : s2.rest = (advBy s 1 sc).rest := by unfold Stream.rest; rw [hs2]
            rw [this, advBy_rest, hr]; rfl
          rw [this]; exact hg
        have keyB : ∀ s2 : Stream, s2.inner = (advBy s 1 sc).inner → ∀ n s', nextBlob s2 ≠ .ok n s' := by
          intro s2 hs2 n s' h
          unfold nextBlob at h
          cases hdc : decodeU64 (readByte false) s2 with
          | ok n' s'' => exact key s2 hs2 _ _ hdc
          | err e s'' => rw [M.bind_err hdc] at h; cases h
        have h64 : d.toNat / 64 = 0 ∨ d.toNat / 64 = 1 ∨ d.toNat / 64 = 2 := by omega
        by_cases h0 : d.toNat % 64 = 0
        · have : d.toNat / 64 = 2 := by omega
          rw [if_pos h0, this] at hn
          change (nextBlob >>= _) (advBy s 1 sc) = _ at hn
          cases hdc : nextBlob (advBy s 1 sc) with
          | ok n' s'' => exact keyB _ rfl _ _ hdc
          | err e s'' => rw [M.bind_err hdc] at hn; cases hn
        · rw [if_neg h0] at hn
          dsimp only at hn
          generalize hs2 : (if (advBy s 1 sc).depth = 0 then { advBy s 1 sc with depth := 1 } else advBy s 1 sc) = s2 at hn
          have hin : s2.inner = (advBy s 1 sc).inner := by rw [← hs2]; split <;> rfl
          rcases h64 with h64 | h64 | h64 <;> rw [h64] at hn <;> simp only [tyOf, nextValue] at hn
          · cases hdc : decodeU64 (readByte false) s2 with
            | ok n' s'' => exact key _ hin _ _ hdc
            | err e s'' => rw [M.bind_err (M.bind_err hdc)] at hn; cases hn
          · cases hdc : decodeU64 (readByte false) s2 with
            | ok n' s'' => exact key _ hin _ _ hdc
            | err e s'' => rw [M.bind_err (M.bind_err hdc)] at hn; cases hn
          · cases hdc : nextBlob s2 with
            | ok n' s'' => exact keyB _ hin _ _ hdc
            | err e s'' => rw [M.bind_err (M.bind_err hdc)] at hn; cases hn
      · rw [hr] at h1; cases h1
      · rw [hr] at h1; cases h1
      · exact absurd hb h1

example : (match nextElement { Stream.fromSlice [0x41, 0x85, 0x80] with graceful := true } with
    | .err (.io .unexpectedEof) s' => s'.pos == 3
    | _ => false) = true := by
  decide +kernel

/-- **C28** `read_fully(max)` on a live blob handle: if more than `max` bytes remain it fails with `LargeBlob` and
nothing is read; otherwise it returns the remaining bytes of the blob, all of them if the input holds them. (If the input ends inside the
blob the bytes that are there are returned: finding 11.) Holds after any client program. -/
theorem c28_read_fully {ε U α : Type} (p : Prog ε U α) (s : Stream) (u : U) (hs : Fresh s) (hb : Benign s.inner.sched)
    (max : Nat) :
    let s' := (p.run (s, u)).state.1
    s'.live = true →
    (max < blobRemaining s' → readFully max s' = .err (.largeBlob max (blobRemaining s')) s') ∧
    (blobRemaining s' ≤ max → ∃ s'', readFully max s' = .ok (s'.rest.take (blobRemaining s')) s'' ∧
      (blobRemaining s' ≤ s'.rest.length → blobRemaining s'' = 0)) := by
  intro s' hl
  have hst : Step s s' := (p.run_safe (s, u) hs.inv).step
  have hi := hst.inv
  have hc := (hi.liveOk hl).1
  have hp := hi.pend
  rw [hc] at hp; simp at hp
  constructor
  · intro h; unfold readFully; rw [if_pos h]
  · intro h
    obtain ⟨k, sc, a1, a2, a3, a4⟩ := drain_blob_spec (blobRemaining s') s' (Nat.le_refl _) hp.2
    rcases a4 with ⟨a4, a5⟩ | ⟨a4, -⟩
    · refine ⟨advBy s' k sc, ?_, ?_⟩
      · unfold readFully
        rw [if_neg (by omega), a5, a4]
        simp [List.take_eq_take_iff]
      · intro h'; unfold blobRemaining at *; simp; omega
    · exact absurd (step_ben hst hb) a4

/-- A client that stops right after getting the first field. -/
def oneField : Prog Err Unit (Option Field) := .call .nextField id
example : ((oneField.run (Stream.fromSlice [0x81, 3, 7, 8, 9, 0], ())).state.1.live) = true := by decide +kernel

end Fourleaf.Props
