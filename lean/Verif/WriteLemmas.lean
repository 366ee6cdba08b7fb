import Verif.WriteCalls
import Verif.PropsWire

/-! # Lemmas about writing -/

namespace Fourleaf
open Spec

theorem encodeLoop_short : ∀ (fuel : Nat) (n : UInt64), n.toNat < 128 ^ fuel → 0 < fuel → encodeLoop fuel n = shortInt n.toNat := by
  intro fuel
  induction fuel with
  | zero => intro n _ h; omega
  | succ fuel ih =>
    intro n hn _
    have hsh : (n >>> 7).toNat = n.toNat / 128 := by
      rw [UInt64.toNat_shiftRight]; simp [Nat.shiftRight_eq_div_pow]
    have hand : (n &&& 0x7F).toUInt8 = UInt8.ofNat (n.toNat % 128) := by
      apply UInt8.toNat_inj.1
      simp only [UInt64.toNat_toUInt8, UInt64.toNat_and, UInt8.toNat_ofNat']
      rw [show (0x7F : UInt64).toNat = 2 ^ 7 - 1 by rfl, Nat.and_two_pow_sub_one_eq_mod]
    rw [shortInt]
    simp only [encodeLoop]
    by_cases h : n.toNat < 128
    · rw [if_pos h, if_neg]
      · rw [hand, Nat.mod_eq_of_lt h]
      · intro h'
        have : (0 : Nat) < (n >>> 7).toNat := by simpa [UInt64.lt_iff_toNat_lt] using h'
        rw [hsh] at this; omega
    · rw [if_neg h, if_pos]
      · rw [hand, ih (n >>> 7) (by rw [hsh, Nat.pow_succ] at *; omega) (by
          cases fuel with
          | zero => simp at hn; omega
          | succ => omega), hsh]
        congr 1
        apply UInt8.toNat_inj.1
        have hlt : n.toNat % 128 < 128 := Nat.mod_lt _ (by decide)
        have key : ∀ k : Fin 128, (UInt8.ofNat k.val ||| 0x80).toNat = (UInt8.ofNat (128 + k.val)).toNat := by decide +kernel
        exact key ⟨n.toNat % 128, hlt⟩
      · rw [gt_iff_lt, UInt64.lt_iff_toNat_lt, hsh]; simp; omega

theorem encodeU64_short (n : UInt64) : encodeU64 n = shortInt n.toNat :=
  encodeLoop_short 10 n (Nat.lt_of_lt_of_le n.toNat_lt (by decide)) (by decide)

theorem shortInt_enc (n : Nat) (h : n < 2 ^ 64) : EncInt n (shortInt n) := by
  have hn : (UInt64.ofNat n).toNat = n := by rw [UInt64.toNat_ofNat']; exact Nat.mod_eq_of_lt h
  obtain ⟨h1, h2, h3, h4, -⟩ := encodeU64_spec (UInt64.ofNat n)
  rw [encodeU64_short, hn] at h1 h2 h4
  exact ⟨h1, by omega, h2⟩

theorem shortInt_length (n : Nat) (h : n < 2 ^ 64) : (shortInt n).length ≤ 10 := by
  have hn : (UInt64.ofNat n).toNat = n := by rw [UInt64.toNat_ofNat']; exact Nat.mod_eq_of_lt h
  obtain ⟨h1, h2, h3, h4, -⟩ := encodeU64_spec (UInt64.ofNat n)
  rw [encodeU64_short, hn] at h4
  exact h4

/-- The canonical spelling is a spelling. -/
theorem canonTok_enc {t : Tok} (h : t.Valid) : EncTok t (canonTok t) := by
  have hd : ∀ (k : Nat) (tag : UInt8), k < 4 → TagOk tag → (UInt8.ofNat (k * 64 + tag.toNat)).toNat = k * 64 + tag.toNat := by
    intro k tag hk ht
    have := ht.2
    rw [UInt8.toNat_ofNat']; exact Nat.mod_eq_of_lt (by omega)
  cases t with
  | enum tag disc => exact .enum h (hd 0 tag (by decide) h) (shortInt_enc _ disc.toNat_lt)
  | int tag n => exact .int h (hd 1 tag (by decide) h) (shortInt_enc _ n.toNat_lt)
  | blob tag data => exact .blob h.1 (hd 2 tag (by decide) h.1) (shortInt_enc _ h.2) h.2
  | struct tag => exact .struct h (hd 3 tag (by decide) h)
  | endStruct => exact .endStruct
  | endDoc => exact .endDoc
  | exception msg => exact .exception (shortInt_enc _ h) h
  | padding => exact .padding

theorem canonToks_enc {ts : List Tok} (h : ∀ t ∈ ts, t.Valid) : EncToks ts (canonToks ts) := by
  induction ts with
  | nil => exact .nil
  | cons t ts ih =>
    simp only [canonToks, List.flatMap_cons]
    exact .cons (canonTok_enc (h t (by simp))) (ih fun x hx => h x (by simp [hx]))

theorem pairByte (ty : DescTy) (tag : UInt8) (h : TagOk tag) : (Desc.pair ty tag).toByte =
    UInt8.ofNat ((match ty with | .enum => 0 | .integer => 1 | .blob => 2 | .struct => 3) * 64 + tag.toNat) := by
  apply UInt8.toNat_inj.1
  rw [Props.c07_layout ty tag h, UInt8.toNat_ofNat', Nat.mod_eq_of_lt]
  · cases ty <;> simp <;> omega
  · have := h.2; cases ty <;> simp <;> omega

/-! ### The sink -/

/-- `s` after writing `chunk`. -/
def advW (s : Stream) (chunk : List Byte) (sc : List Ev) : Stream :=
  { s with
    inner := { s.inner with data := splice s.inner.data s.inner.pos chunk, pos := s.inner.pos + chunk.length, sched := sc }
    pos := s.pos + chunk.length }

theorem splice_nil (data : List Byte) (pos : Nat) (h : pos ≤ data.length) : splice data pos [] = data := by
  unfold splice
  rw [show pos - data.length = 0 by omega]
  simp

theorem splice_len (data : List Byte) (pos : Nat) (c : List Byte) (h : pos ≤ data.length) :
    (splice data pos c).length = max data.length (pos + c.length) := by
  unfold splice
  rw [show pos - data.length = 0 by omega]
  simp; omega

theorem splice_splice (data : List Byte) (pos : Nat) (a b : List Byte) (h : pos ≤ data.length) :
    splice (splice data pos a) (pos + a.length) b = splice data pos (a ++ b) := by
  have h1 : splice data pos a = data.take pos ++ a ++ data.drop (pos + a.length) := by
    unfold splice; rw [show pos - data.length = 0 by omega]; simp
  have h2 : splice data pos (a ++ b) = data.take pos ++ (a ++ b) ++ data.drop (pos + (a ++ b).length) := by
    unfold splice; rw [show pos - data.length = 0 by omega]; simp
  have hl : (data.take pos ++ a).length = pos + a.length := by simp; omega
  have h3 : ∀ d : List Byte, pos + a.length ≤ d.length →
      splice d (pos + a.length) b = d.take (pos + a.length) ++ b ++ d.drop (pos + a.length + b.length) := by
    intro d hd; unfold splice; rw [show pos + a.length - d.length = 0 by omega]; simp
  rw [h1, h2, h3 _ (by simp only [List.length_append] at hl ⊢; omega)]
  rw [List.take_append_of_le_length (by omega), List.take_of_length_le (by omega), List.drop_append, List.drop_of_length_le (by omega),
    List.drop_drop]
  simp only [List.nil_append, List.append_assoc, List.length_append]
  congr 4
  rw [← List.length_append, hl]
  omega

theorem splice_end (data c : List Byte) : splice data data.length c = data ++ c := by
  unfold splice; simp

theorem advW_nil (s : Stream) (h : s.inner.pos ≤ s.inner.data.length) : advW s [] s.inner.sched = s := by
  unfold advW
  rw [splice_nil _ _ h]; rfl

theorem advW_advW (s : Stream) (a b : List Byte) (sc sc' : List Ev) (h : s.inner.pos ≤ s.inner.data.length) :
    advW (advW s a sc) b sc' = advW s (a ++ b) sc' := by
  unfold advW
  simp only [splice_splice _ _ _ _ h, List.length_append, Nat.add_assoc]

theorem advW_within (s : Stream) (a : List Byte) (sc : List Ev) (h : s.inner.pos ≤ s.inner.data.length) :
    (advW s a sc).inner.pos ≤ (advW s a sc).inner.data.length := by
  unfold advW
  simp only [splice_len _ _ _ h]
  omega

/-- One `write` call of the tracker. -/
theorem trackWrite_cases (buf : List Byte) (hb : buf ≠ []) (s : Stream) :
    (U64MAX < s.pos + buf.length ∧ trackWrite buf s = .err posOverflow s) ∨
    (∃ k sc, 0 < k ∧ k ≤ buf.length ∧ sc <:+ s.inner.sched ∧ (s.inner.sched ≠ [] → sc.length < s.inner.sched.length) ∧
      (s.inner.sched = [] → k = buf.length) ∧ trackWrite buf s = .ok k (advW s (buf.take k) sc)) ∨
    (∃ sc, sc <:+ s.inner.sched ∧ sc.length < s.inner.sched.length ∧
      trackWrite buf s = .err (.io .interrupted) { s with inner := { s.inner with sched := sc } }) ∨
    (∃ sc, ¬ Benign s.inner.sched ∧ sc <:+ s.inner.sched ∧
      (trackWrite buf s = .err (.io .device) { s with inner := { s.inner with sched := sc } } ∨
       trackWrite buf s = .ok 0 { s with inner := { s.inner with sched := sc } })) := by
  have hpos : 0 < buf.length := by cases buf with | nil => exact absurd rfl hb | cons => simp
  unfold trackWrite
  rw [if_neg hb]
  by_cases hr : U64MAX - s.pos < buf.length
  · rw [if_pos hr]
    by_cases hr2 : U64MAX < s.pos + buf.length
    · exact .inl ⟨hr2, rfl⟩
    · omega
  · rw [if_neg hr]
    refine .inr ?_
    unfold Inner.write
    cases hs : s.inner.sched with
    | nil =>
      refine .inl ⟨buf.length, [], hpos, Nat.le_refl _, List.suffix_refl _, (fun h => absurd rfl h), fun _ => rfl, ?_⟩
      simp [advW, hs]
    | cons ev sc =>
      cases ev with
      | short k =>
        refine .inl ⟨min (k + 1) buf.length, sc, by omega, by omega, List.suffix_cons _ _, fun _ => (by simp), fun h => (by cases h), ?_⟩
        simp only [List.length_take, advW]
        have : buf.take (min (k + 1) buf.length) = buf.take (k + 1) := by
          rcases Nat.le_total (k + 1) buf.length with h | h
          · rw [Nat.min_eq_left h]
          · rw [Nat.min_eq_right h, List.take_of_length_le (Nat.le_refl _), List.take_of_length_le h]
        rw [this, Nat.min_assoc, Nat.min_self]
      | interrupted =>
        exact .inr (.inl ⟨sc, List.suffix_cons _ _, by simp, rfl⟩)
      | full => exact .inr (.inr ⟨sc, not_benign (fun k h => by cases h) (fun h => by cases h), List.suffix_cons _ _, .inr rfl⟩)
      | _ => exact .inr (.inr ⟨sc, not_benign (fun k h => by cases h) (fun h => by cases h), List.suffix_cons _ _, .inl rfl⟩)

/-- Outcome of writing `bytes`: everything and then `Q`, or an error and a prefix. An error only happens if the sink fails or
the position would come within 11 of overflowing. Everything but the data, the positions, the schedule and the pending operation is as
before. -/
structure SameMeta (s s' : Stream) : Prop where
  eof : s'.eof = s.eof
  depth : s'.depth = s.depth
  graceful : s'.graceful = s.graceful
  useSeek : s'.useSeek = s.useSeek
  dynStart : s'.dynStart = s.dynStart

theorem SameMeta.refl (s : Stream) : SameMeta s s := ⟨rfl, rfl, rfl, rfl, rfl⟩
theorem SameMeta.trans {a b c : Stream} (h : SameMeta a b) (h' : SameMeta b c) : SameMeta a c :=
  ⟨h'.eof.trans h.eof, h'.depth.trans h.depth, h'.graceful.trans h.graceful, h'.useSeek.trans h.useSeek, h'.dynStart.trans h.dynStart⟩

structure Wrote (s : Stream) (bytes : List Byte) (s' : Stream) : Prop where
  data : s'.inner.data = splice s.inner.data s.inner.pos bytes
  ipos : s'.inner.pos = s.inner.pos + bytes.length
  pos : s'.pos = s.pos + bytes.length
  sched : s'.inner.sched <:+ s.inner.sched
  seekable : s'.inner.seekable = s.inner.seekable
  meta_ : SameMeta s s'

theorem Wrote.refl {s : Stream} (h : s.inner.pos ≤ s.inner.data.length) : Wrote s [] s :=
  ⟨(splice_nil _ _ h).symm, rfl, rfl, List.suffix_refl _, rfl, .refl s⟩

theorem Wrote.trans {s s' s'' : Stream} {a b : List Byte} (h : s.inner.pos ≤ s.inner.data.length) (h1 : Wrote s a s') (h2 : Wrote s' b s'') :
    Wrote s (a ++ b) s'' := by
  refine ⟨?_, ?_, ?_, h2.sched.trans h1.sched, h2.seekable.trans h1.seekable, h1.meta_.trans h2.meta_⟩
  · rw [h2.data, h1.data, h1.ipos, splice_splice _ _ _ _ h]
  · rw [h2.ipos, h1.ipos]; simp; omega
  · rw [h2.pos, h1.pos]; simp; omega

theorem Wrote.within {s s' : Stream} {a : List Byte} (h : s.inner.pos ≤ s.inner.data.length) (h1 : Wrote s a s') :
    s'.inner.pos ≤ s'.inner.data.length := by
  rw [h1.data, h1.ipos, splice_len _ _ _ h]; omega

theorem advW_wrote (s : Stream) (a : List Byte) {sc : List Ev} (h : sc <:+ s.inner.sched) : Wrote s a (advW s a sc) :=
  ⟨rfl, rfl, rfl, h, rfl, ⟨rfl, rfl, rfl, rfl, rfl⟩⟩

/-- Outcome of an attempt to write `bytes`. -/
def WOutK (slack : Nat) (s : Stream) (bytes : List Byte) (Q : Stream → Prop) (r : Res Err Stream Unit) : Prop :=
  match r with
  | .ok _ s' => Wrote s bytes s' ∧ Q s'
  | .err e s' => (∃ k, k ≤ bytes.length ∧ Wrote s (bytes.take k) s') ∧ e.abnormal = false ∧
      (Benign s.inner.sched → U64MAX < s.pos + bytes.length + slack)

abbrev WOut := WOutK 11

theorem WOutK.weak {s : Stream} {bytes : List Byte} {Q : Stream → Prop} {r : Res Err Stream Unit} (h : WOutK 0 s bytes Q r) : WOut s bytes Q r := by
  cases r with
  | ok a s' => exact h
  | err e s' => exact ⟨h.1, h.2.1, fun hb => by have := h.2.2 hb; omega⟩

theorem WOutK.mono {k : Nat} {s : Stream} {bytes : List Byte} {Q Q' : Stream → Prop} {r : Res Err Stream Unit} (h : WOutK k s bytes Q r)
    (hq : ∀ s', Wrote s bytes s' → Q s' → Q' s') : WOutK k s bytes Q' r := by
  cases r with
  | ok a s' => exact ⟨h.1, hq s' h.1 h.2⟩
  | err e s' => exact h

theorem WOutK.bind {s : Stream} {a b : List Byte} {Q R : Stream → Prop} {m m' : M Err Stream Unit} (hw : s.inner.pos ≤ s.inner.data.length)
    (h : WOut s a Q (m s)) (h' : ∀ s', Wrote s a s' → Q s' → WOut s' b R (m' s')) :
    WOut s (a ++ b) R ((do m; m' : M Err Stream Unit) s) := by
  rw [M.seq_bind]
  cases hr : m s with
  | err e s' =>
    rw [hr] at h
    obtain ⟨⟨k, hk, h1⟩, h2, h3⟩ := h
    refine ⟨⟨k, by simp; omega, ?_⟩, h2, fun hb => ?_⟩
    · rw [List.take_append_of_le_length hk]; exact h1
    · have := h3 hb; simp; omega
  | ok x s' =>
    rw [hr] at h
    obtain ⟨h1, h2⟩ := h
    have h4 := h' s' h1 h2
    show WOut s (a ++ b) R (m' s')
    cases hr' : m' s' with
    | ok y s'' =>
      rw [hr'] at h4
      exact ⟨h1.trans hw h4.1, h4.2⟩
    | err e s'' =>
      rw [hr'] at h4
      obtain ⟨⟨k, hk, h5⟩, h6, h7⟩ := h4
      refine ⟨⟨a.length + k, by simp; omega, ?_⟩, h6, fun hb => ?_⟩
      · rw [List.take_append, List.take_of_length_le (by omega), show a.length + k - a.length = k by omega]
        exact h1.trans hw h5
      · have := h7 (hb.suffix h1.sched)
        rw [h1.pos] at this
        simp; omega

/-- `write_all`. `E` bounds the position up to which `wr` behaves like the tracker. -/
theorem writeAllLoop_out (wr : List Byte → M Err Stream Nat) (E b0 : Nat)
    (hwr : ∀ s buf, s.blobEnd = b0 → s.pos + buf.length ≤ E → wr buf s = trackWrite buf s) :
    ∀ (fuel : Nat) (buf : List Byte) (s : Stream), s.inner.sched.length + 1 < fuel ∨ (s.inner.sched = [] ∧ buf = [] ∧ 0 < fuel) →
    s.inner.pos ≤ s.inner.data.length → s.blobEnd = b0 → s.pos + buf.length ≤ E →
    WOutK 0 s buf (fun s' => s' = advW s buf s'.inner.sched) (writeAllLoop wr fuel buf s) := by
  intro fuel
  induction fuel with
  | zero => intro buf s h; rcases h with h | ⟨-, -, h⟩ <;> omega
  | succ fuel ih =>
    intro buf s hf hw hbe hE
    unfold writeAllLoop
    by_cases hb : buf = []
    · rw [if_pos hb]
      subst hb
      exact ⟨.refl hw, (advW_nil s hw).symm⟩
    · have hf1 : s.inner.sched.length + 1 < fuel + 1 := by
        rcases hf with h | ⟨-, h, -⟩
        · exact h
        · exact absurd h hb
      have hpos : 0 < buf.length := by cases buf with | nil => exact absurd rfl hb | cons => simp
      rw [if_neg hb, hwr s buf hbe hE]
      rcases trackWrite_cases buf hb s with ⟨h1, h2⟩ | ⟨k, sc, hk0, hk, hsc, hlt, hall, h2⟩ | ⟨sc, hsc, hlt, h2⟩ | ⟨sc, h1, hsc, h2⟩
      · rw [h2]
        exact ⟨⟨0, Nat.zero_le _, .refl hw⟩, rfl, fun _ => by omega⟩
      · rw [h2]
        simp only
        rw [if_neg (by omega)]
        have hA : Wrote s (buf.take k) (advW s (buf.take k) sc) := advW_wrote s _ hsc
        have hlen : (buf.take k).length = k := by simp; omega
        have hrec := ih (buf.drop k) (advW s (buf.take k) sc) (by
          by_cases hs : s.inner.sched = []
          · have hkk := hall hs
            have hsc0 : sc = [] := by rw [hs] at hsc; simpa using hsc
            refine .inr ⟨hsc0, by rw [hkk]; simp, ?_⟩
            rw [hs] at hf1; simp at hf1; omega
          · have := hlt hs
            refine .inl ?_
            show sc.length + 1 < fuel
            omega) (hA.within hw) hbe (by simp [advW]; omega)
        have hsplit : buf = buf.take k ++ buf.drop k := (List.take_append_drop k buf).symm
        have : WOutK 0 s (buf.take k ++ buf.drop k) (fun s' => s' = advW s (buf.take k ++ buf.drop k) s'.inner.sched)
            (writeAllLoop wr fuel (buf.drop k) (advW s (buf.take k) sc)) := by
          cases hr : writeAllLoop wr fuel (buf.drop k) (advW s (buf.take k) sc) with
          | ok y s'' =>
            rw [hr] at hrec
            refine ⟨hA.trans hw hrec.1, ?_⟩
            show s'' = advW s (buf.take k ++ buf.drop k) s''.inner.sched
            rw [← advW_advW s _ _ sc _ hw]
            exact hrec.2
          | err e s'' =>
            rw [hr] at hrec
            obtain ⟨⟨j, hj, h5⟩, h6, h7⟩ := hrec
            refine ⟨⟨(buf.take k).length + j, by simp at hj ⊢; omega, ?_⟩, h6, fun hbn => ?_⟩
            · rw [List.take_append, List.take_of_length_le (by omega), show (buf.take k).length + j - (buf.take k).length = j by omega]
              exact hA.trans hw h5
            · have := h7 (hbn.suffix hsc)
              simp [advW] at this ⊢; omega
        rw [← hsplit] at this
        exact this
      · rw [h2]
        simp only
        have hW : Wrote s [] { s with inner := { s.inner with sched := sc } } :=
          ⟨(splice_nil _ _ hw).symm, rfl, rfl, hsc, rfl, ⟨rfl, rfl, rfl, rfl, rfl⟩⟩
        have hrec := ih buf { s with inner := { s.inner with sched := sc } } (.inl (by simp only; omega)) hw hbe hE
        cases hr : writeAllLoop wr fuel buf { s with inner := { s.inner with sched := sc } } with
        | ok y s'' =>
          rw [hr] at hrec
          have := hW.trans hw hrec.1
          rw [List.nil_append] at this
          exact ⟨this, hrec.2⟩
        | err e s'' =>
          rw [hr] at hrec
          obtain ⟨⟨j, hj, h5⟩, h6, h7⟩ := hrec
          have := hW.trans hw h5
          rw [List.nil_append] at this
          exact ⟨⟨j, hj, this⟩, h6, fun hbn => h7 (hbn.suffix hsc)⟩
      · rcases h2 with h2 | h2
        all_goals
          rw [h2]
          exact ⟨⟨0, Nat.zero_le _, ⟨(splice_nil _ _ hw).symm, rfl, rfl, hsc, rfl, ⟨rfl, rfl, rfl, rfl, rfl⟩⟩⟩, rfl, fun hb => absurd hb h1⟩

theorem writeAll_track_out (buf : List Byte) (s : Stream) (hw : s.inner.pos ≤ s.inner.data.length) :
    WOutK 0 s buf (fun s' => s' = advW s buf s'.inner.sched) (writeAll trackWrite buf s) :=
  writeAllLoop_out trackWrite (s.pos + buf.length) s.blobEnd (fun _ _ _ _ => rfl) _ buf s (.inl (by omega)) hw rfl (Nat.le_refl _)

theorem writeAll_blob_out (buf : List Byte) (s : Stream) (hw : s.inner.pos ≤ s.inner.data.length) (hl : s.pos + buf.length ≤ s.blobEnd) :
    WOutK 0 s buf (fun s' => s' = advW s buf s'.inner.sched) (writeAll blobWrite buf s) := by
  refine writeAllLoop_out blobWrite s.blobEnd s.blobEnd ?_ _ buf s (.inl (by omega)) hw rfl hl
  intro s' b h1 h2
  unfold blobWrite blobRemaining
  rw [List.take_of_length_le (by omega)]

/-- Ready for the next write call: nothing pending, or a completely filled blob. -/
structure WReady (s : Stream) : Prop where
  within : s.inner.pos ≤ s.inner.data.length
  pend : s.commit = none ∨ (s.commit = some .checkEnd ∧ s.pos = s.blobEnd)

/-- Ready, nothing pending. -/
structure WClean (s : Stream) : Prop where
  within : s.inner.pos ≤ s.inner.data.length
  pend : s.commit = none

theorem WClean.ready {s : Stream} (h : WClean s) : WReady s := ⟨h.within, .inl h.pend⟩

theorem commit_out {s : Stream} (h : WReady s) : WOut s [] WClean (commit s) := by
  rcases h.pend with hp | ⟨hp, he⟩
  · have : commit s = .ok () s := by simp [commit, hp]
    rw [this]
    exact ⟨.refl h.within, h.within, hp⟩
  · have : commit s = .ok () { s with commit := none, live := false } := by simp [commit, hp, checkAtEndOfBlob, he]
    rw [this]
    exact ⟨⟨(splice_nil _ _ h.within).symm, rfl, rfl, List.suffix_refl _, rfl, rfl, rfl, rfl, rfl, rfl⟩, h.within, rfl⟩

theorem track_out (buf : List Byte) {s : Stream} (h : WClean s) : WOut s buf WClean (writeAll trackWrite buf s) := by
  refine (writeAll_track_out buf s h.within).weak.mono ?_
  intro s' hW hq
  refine ⟨hW.within h.within, ?_⟩
  rw [hq]; exact h.pend

theorem writeDesc_out (d : Desc) {s : Stream} (h : WReady s) : WOut s [d.toByte] WClean (writeDesc d s) := by
  have := (commit_out h).bind (b := [d.toByte]) (R := WClean) (m' := writeAll trackWrite [d.toByte]) h.within
    (fun s' _ h' => track_out _ h')
  simpa [writeDesc] using this

theorem encodeS_out (n : UInt64) {s : Stream} (h : WClean s) : WOut s (shortInt n.toNat) WClean (encodeS n s) := by
  unfold encodeS
  rw [encodeU64_short]
  exact track_out _ h

theorem writeU64_out (tag : Byte) (ht : TagOk tag) (n : UInt64) {s : Stream} (h : WReady s) :
    WOut s (canonTok (.int tag n)) WClean (writeU64 tag n s) := by
  have := (writeDesc_out (.pair .integer tag) h).bind (b := shortInt n.toNat) (R := WClean) (m' := encodeS n) h.within
    (fun s' _ h' => encodeS_out n h')
  rw [pairByte _ tag ht] at this
  exact this

theorem writeEnum_out (tag : Byte) (ht : TagOk tag) (n : UInt64) {s : Stream} (h : WReady s) :
    WOut s (canonTok (.enum tag n)) WClean (writeEnum tag n s) := by
  have := (writeDesc_out (.pair .enum tag) h).bind (b := shortInt n.toNat) (R := WClean) (m' := encodeS n) h.within
    (fun s' _ h' => encodeS_out n h')
  rw [pairByte _ tag ht] at this
  exact this

theorem writeStruct_out (tag : Byte) (ht : TagOk tag) {s : Stream} (h : WReady s) :
    WOut s (canonTok (.struct tag)) WClean (writeStruct tag s) := by
  have := writeDesc_out (.pair .struct tag) h
  rw [pairByte _ tag ht] at this
  exact this

/-- A blob of `len` bytes has just been allocated. -/
structure WAlloc (len : Nat) (s : Stream) : Prop where
  within : s.inner.pos ≤ s.inner.data.length
  commit : s.commit = some .checkEnd
  span : s.pos + len = s.blobEnd

theorem WAlloc.ready {s : Stream} (h : WAlloc 0 s) : WReady s := ⟨h.within, .inr ⟨h.commit, by have := h.span; omega⟩⟩

/-- Allocation alone; `len` bytes of room after it. -/
theorem allocDesc_out (d : Desc) (len : Nat) {s : Stream} (h : WReady s) :
    (match writeBlobAllocDesc d len s with
    | .ok _ s' => Wrote s (d.toByte :: shortInt len) s' ∧ WAlloc len s' ∧ len < 2 ^ 64 ∧ s'.blobEnd ≤ U64MAX
    | .err e s' => (∃ k, k ≤ (shortInt len).length + 1 ∧ Wrote s ((d.toByte :: shortInt len).take k) s') ∧ e.abnormal = false ∧
        (Benign s.inner.sched → U64MAX < s.pos + len + ((shortInt len).length + 1) + 11)) := by
  unfold writeBlobAllocDesc
  have hc := commit_out h
  cases hr : Fourleaf.commit s with
  | err e s' =>
    rw [hr] at hc
    rw [M.bind_err hr]
    obtain ⟨⟨k, hk, h1⟩, h2, h3⟩ := hc
    refine ⟨⟨0, by omega, by simpa using h1⟩, h2, fun hb => ?_⟩
    have := h3 hb
    simp at this; omega
  | ok x s1 =>
    rw [hr] at hc
    obtain ⟨hW, hC⟩ := hc
    rw [M.bind_ok hr, M.ite_apply]
    have hpos : s1.pos = s.pos := by have := hW.pos; simpa using this
    by_cases h1 : len > U64MAX - 11
    · rw [if_pos h1]
      refine ⟨⟨0, by omega, by simpa using hW⟩, rfl, fun _ => ?_⟩
      unfold U64MAX at *; omega
    · rw [if_neg h1]
      by_cases h2 : U64MAX - s1.pos < len + 11
      · have : checkAdvance (len + 11) s1 = .err posOverflow s1 := by unfold checkAdvance; rw [if_pos h2]
        rw [M.bind_err this]
        exact ⟨⟨0, by omega, by simpa using hW⟩, rfl, fun _ => by omega⟩
      · have : checkAdvance (len + 11) s1 = .ok () s1 := by unfold checkAdvance; rw [if_neg h2]
        rw [M.bind_ok this]
        have hlen : len < 2 ^ 64 := by unfold U64MAX at h1; omega
        have hN : (UInt64.ofNat len).toNat = len := by rw [UInt64.toNat_ofNat']; exact Nat.mod_eq_of_lt hlen
        have hsl := shortInt_length len hlen
        have hA : WOut s1 (d.toByte :: shortInt len) WClean
            ((do writeDesc d; encodeS (UInt64.ofNat len) : M Err Stream Unit) s1) := by
          have := (writeDesc_out d hC.ready).bind (b := shortInt (UInt64.ofNat len).toNat) (R := WClean) (m' := encodeS (UInt64.ofNat len)) hC.within
            (fun s' _ h' => encodeS_out _ h')
          rw [hN] at this
          exact this
        have hre : ∀ k : M Err Stream Unit, (do writeDesc d; encodeS (UInt64.ofNat len); k : M Err Stream Unit) s1 =
            (do (do writeDesc d; encodeS (UInt64.ofNat len)); k : M Err Stream Unit) s1 := by
          intro k
          simp only [M.seq_bind]
          cases writeDesc d s1 with
          | ok _ _ => rfl
          | err _ _ => rfl
        rw [hre]
        cases hr2 : (do writeDesc d; encodeS (UInt64.ofNat len) : M Err Stream Unit) s1 with
        | err e s2 =>
          rw [hr2] at hA
          rw [M.bind_err hr2]
          obtain ⟨⟨k, hk, g1⟩, g2, g3⟩ := hA
          refine ⟨⟨k, by simpa using hk, ?_⟩, g2, fun hb => ?_⟩
          · have := hW.trans h.within g1; simpa using this
          · have := g3 (hb.suffix hW.sched)
            simp at this; omega
        | ok y s2 =>
          rw [hr2] at hA
          rw [M.bind_ok hr2, M.modify_apply]
          obtain ⟨g1, g2⟩ := hA
          have g3 := hW.trans h.within g1
          rw [List.nil_append] at g3
          refine ⟨⟨g3.data, g3.ipos, g3.pos, g3.sched, g3.seekable, g3.meta_.eof, g3.meta_.depth, g3.meta_.graceful, g3.meta_.useSeek, g3.meta_.dynStart⟩, ⟨g2.within, rfl, rfl⟩, hlen, ?_⟩
          have := g1.pos
          simp at this ⊢; omega

theorem writePieces_out : ∀ (pieces : List (List Byte)) {s : Stream} (n : Nat), WAlloc n s → pieces.flatten.length ≤ n →
    WOut s pieces.flatten (WAlloc (n - pieces.flatten.length)) (writePieces pieces s) := by
  intro pieces
  induction pieces with
  | nil => intro s n h _; exact ⟨.refl h.within, by simpa using h⟩
  | cons p ps ih =>
    intro s n h hl
    simp only [List.flatten_cons, List.length_append] at hl ⊢
    have hsp := h.span
    refine WOutK.bind (Q := WAlloc (n - p.length)) h.within ((writeAll_blob_out p s h.within (by omega)).weak.mono ?_) ?_
    · intro s' hW hq
      refine ⟨hW.within h.within, ?_, ?_⟩
      · rw [hq]; exact h.commit
      · have e1 : s'.pos = s.pos + p.length := hW.pos
        have e2 : s'.blobEnd = s.blobEnd := by rw [hq]; rfl
        omega
    · intro s' _ h'
      have := ih (n - p.length) h' (by omega)
      rw [show n - (p.length + ps.flatten.length) = n - p.length - ps.flatten.length by omega]
      exact this

/-- Allocation and complete filling. -/
theorem filled_out (d : Desc) (data : List Byte) (fill : M Err Stream Unit) {s : Stream} (h : WReady s)
    (hfill : ∀ s', WAlloc data.length s' → WOut s' data (WAlloc 0) (fill s')) :
    WOut s (d.toByte :: shortInt data.length ++ data) WReady ((do writeBlobAllocDesc d data.length; fill : M Err Stream Unit) s) := by
  have hA := allocDesc_out d data.length h
  rw [M.seq_bind]
  cases hr : writeBlobAllocDesc d data.length s with
  | err e s' =>
    rw [hr] at hA
    obtain ⟨⟨k, hk, h1⟩, h2, h3⟩ := hA
    refine ⟨⟨k, by simp; omega, ?_⟩, h2, fun hb => ?_⟩
    · rw [List.take_append_of_le_length (by simpa using hk)]; exact h1
    · have := h3 hb; simp; omega
  | ok x s1 =>
    rw [hr] at hA
    obtain ⟨h1, h2, h3, -⟩ := hA
    have hF := hfill s1 h2
    simp only
    cases hr2 : fill s1 with
    | ok y s2 =>
      rw [hr2] at hF
      exact ⟨h1.trans h.within hF.1, hF.2.ready⟩
    | err e s2 =>
      rw [hr2] at hF
      obtain ⟨⟨j, hj, h5⟩, h6, h7⟩ := hF
      refine ⟨⟨(d.toByte :: shortInt data.length).length + j, by simp; omega, ?_⟩, h6, fun hb => ?_⟩
      · rw [List.take_append, List.take_of_length_le (by omega), Nat.add_sub_cancel_left]
        exact h1.trans h.within h5
      · have := h7 (hb.suffix h1.sched)
        rw [h1.pos] at this
        simp at this ⊢; omega

theorem fill_data (data : List Byte) (s' : Stream) (h : WAlloc data.length s') : WOut s' data (WAlloc 0) (writeAll blobWrite data s') := by
  have hsp := h.span
  refine (writeAll_blob_out data s' h.within (by omega)).weak.mono ?_
  intro s'' hW hq
  refine ⟨hW.within h.within, by rw [hq]; exact h.commit, ?_⟩
  have e1 : s''.pos = s'.pos + data.length := hW.pos
  have e2 : s''.blobEnd = s'.blobEnd := by rw [hq]; rfl
  omega

theorem zz_eq (i : Int64) : zigzag i = zz i.toInt := by
  apply UInt64.toNat_inj.1
  have h := Props.c06_zigzag_formula i
  have e : zigzagInt i.toInt = ((zigzag i).toNat : Int) := by rw [h]; rfl
  unfold zz
  rw [e, Int.toNat_natCast, UInt64.toNat_ofNat', Nat.mod_eq_of_lt (zigzag i).toNat_lt]

/-- Validity of a call: its tag is in range. -/
def WCall.Ok (c : WCall) : Prop := ∀ t ∈ c.toks, t.Valid

theorem WCall.exec_out (c : WCall) (hc : c.Ok) {s : Stream} (h : WReady s) : WOut s (canonToks c.toks) WReady (c.exec s) := by
  have clean : ∀ {b : List Byte} {r : Res Err Stream Unit}, WOut s b WClean r → WOut s b WReady r := fun h => h.mono fun _ _ h => h.ready
  have one : ∀ t : Tok, canonToks [t] = canonTok t := fun t => by simp [canonToks]
  cases c with
  | commit => exact clean (commit_out h)
  | null tag => simp only [WCall.toks, one]; exact clean (writeU64_out tag (hc (.int tag 0) (List.mem_singleton.2 rfl)) 0 h)
  | bool tag b => simp only [WCall.toks, one]; exact clean (writeU64_out tag (hc (.int tag _) (List.mem_singleton.2 rfl)) _ h)
  | u8 tag n =>
    simp only [WCall.toks, one]
    have e : n.toUInt64 = UInt64.ofNat n.toNat := by apply UInt64.toNat_inj.1; simp <;> omega
    have := clean (writeU64_out tag (hc (.int tag _) (List.mem_singleton.2 rfl)) (UInt64.ofNat n.toNat) h)
    rw [← e] at this ⊢
    exact this
  | u16 tag n =>
    simp only [WCall.toks, one]
    have e : n.toUInt64 = UInt64.ofNat n.toNat := by apply UInt64.toNat_inj.1; simp <;> omega
    have := clean (writeU64_out tag (hc (.int tag _) (List.mem_singleton.2 rfl)) (UInt64.ofNat n.toNat) h)
    rw [← e] at this ⊢
    exact this
  | u32 tag n =>
    simp only [WCall.toks, one]
    have e : n.toUInt64 = UInt64.ofNat n.toNat := by apply UInt64.toNat_inj.1; simp <;> omega
    have := clean (writeU64_out tag (hc (.int tag _) (List.mem_singleton.2 rfl)) (UInt64.ofNat n.toNat) h)
    rw [← e] at this ⊢
    exact this
  | u64 tag n => simp only [WCall.toks, one]; exact clean (writeU64_out tag (hc (.int tag _) (List.mem_singleton.2 rfl)) _ h)
  | i8 tag n =>
    simp only [WCall.toks, one]
    have e : zigzag n.toInt64 = zz n.toInt := by rw [zz_eq]; simp
    have := clean (writeU64_out tag (hc (.int tag _) (List.mem_singleton.2 rfl)) (zz n.toInt) h)
    rw [← e] at this ⊢; exact this
  | i16 tag n =>
    simp only [WCall.toks, one]
    have e : zigzag n.toInt64 = zz n.toInt := by rw [zz_eq]; simp
    have := clean (writeU64_out tag (hc (.int tag _) (List.mem_singleton.2 rfl)) (zz n.toInt) h)
    rw [← e] at this ⊢; exact this
  | i32 tag n =>
    simp only [WCall.toks, one]
    have e : zigzag n.toInt64 = zz n.toInt := by rw [zz_eq]; simp
    have := clean (writeU64_out tag (hc (.int tag _) (List.mem_singleton.2 rfl)) (zz n.toInt) h)
    rw [← e] at this ⊢; exact this
  | i64 tag n =>
    simp only [WCall.toks, one]
    have e : zigzag n = zz n.toInt := zz_eq n
    have := clean (writeU64_out tag (hc (.int tag _) (List.mem_singleton.2 rfl)) (zz n.toInt) h)
    rw [← e] at this ⊢; exact this
  | struct tag => simp only [WCall.toks, one]; exact clean (writeStruct_out tag (hc (.struct tag) (List.mem_singleton.2 rfl)) h)
  | enum tag n => simp only [WCall.toks, one]; exact clean (writeEnum_out tag (hc (.enum tag _) (List.mem_singleton.2 rfl)) n h)
  | endStruct => simp only [WCall.toks, one]; exact clean (writeDesc_out (.special .endOfStruct) h)
  | endDoc => simp only [WCall.toks, one]; exact clean (writeDesc_out (.special .endOfDoc) h)
  | padding => simp only [WCall.toks, one]; exact clean (writeDesc_out (.special .padding) h)
  | blobData tag data =>
    simp only [WCall.toks, one]
    have ht : TagOk tag := (hc (.blob tag data) (by simp [WCall.toks])).1
    have := filled_out (.pair .blob tag) data (writeAll blobWrite data) h (fill_data data)
    rw [pairByte _ tag ht] at this
    exact this
  | exceptionData data =>
    simp only [WCall.toks, one]
    exact filled_out (.special .exception) data (writeAll blobWrite data) h (fill_data data)
  | blobAlloc tag pieces =>
    simp only [WCall.toks, one]
    have ht : TagOk tag := (hc (.blob tag pieces.flatten) (by simp [WCall.toks])).1
    have := filled_out (.pair .blob tag) pieces.flatten (writePieces pieces) h (fun s' h' => by
      have := writePieces_out pieces _ h' (Nat.le_refl _)
      rwa [Nat.sub_self] at this)
    rw [pairByte _ tag ht] at this
    exact this
  | exceptionAlloc pieces =>
    simp only [WCall.toks, one]
    exact filled_out (.special .exception) pieces.flatten (writePieces pieces) h (fun s' h' => by
      have := writePieces_out pieces _ h' (Nat.le_refl _)
      rwa [Nat.sub_self] at this)

theorem runCalls_out : ∀ (cs : List WCall) (_ : ∀ c ∈ cs, c.Ok) {s : Stream}, WReady s →
    WOut s (canonToks (callToks cs)) WReady (runCalls cs s) := by
  intro cs
  induction cs with
  | nil => intro _ s h; exact ⟨.refl h.within, h⟩
  | cons c cs ih =>
    intro hc s h
    have := WOutK.bind (R := WReady) h.within (c.exec_out (hc c (by simp)) h) (m' := runCalls cs) (fun s' _ h' => ih (fun c' h'' => hc c' (by simp [h''])) h')
    have e : canonToks (callToks (c :: cs)) = canonToks c.toks ++ canonToks (callToks cs) := by
      simp [canonToks, callToks, List.flatMap_append]
    rw [e]
    exact this

end Fourleaf
