import Verif.PropsWrite
import Verif.Lead

/-! # Dynamic blobs (C24), alignment (C25), copying (C26) -/

namespace Fourleaf.Props
open Fourleaf Spec

/-! ### C24 -/

theorem fixed_enc (n : Nat) (h : n < 2 ^ 64) : EncInt n (encodeFixedU64 (UInt64.ofNat n)) ∧ (encodeFixedU64 (UInt64.ofNat n)).length = 10 := by
  have hn : (UInt64.ofNat n).toNat = n := by rw [UInt64.toNat_ofNat']; exact Nat.mod_eq_of_lt h
  obtain ⟨h1, h2, h3⟩ := encodeFixedU64_spec (UInt64.ofNat n)
  rw [hn] at h2
  exact ⟨⟨h1, by omega, h2⟩, h3⟩

/-- A dynamic blob is open; `n` bytes after its start is the current position. `head` is everything before the length, `tail` everything after it. -/
structure DynOpen (s2 : Stream) (head tail : List Byte) (n : Nat) : Prop where
  commit : s2.commit = some .finishDyn
  pos : s2.pos = s2.dynStart + n
  start : 10 ≤ s2.dynStart
  data : ∃ hdr : List Byte, hdr.length = 10 ∧ s2.inner.data = head ++ hdr ++ tail
  ipos : s2.inner.pos = head.length + 10 + n
  inside : n ≤ tail.length
  seekable : s2.inner.seekable = true
  benign : Benign s2.inner.sched

theorem innerSeek_to' {s : Stream} {off : Int} {q : Nat} (hb : s.inner.sched.head? ≠ some .noSeek) (hs : s.inner.seekable = true) (hq : (s.inner.pos : Int) + off = q) (hu : q ≤ U64MAX) :
    innerSeek (.current off) s = .ok q { s with inner := { s.inner with pos := q } } := by
  unfold innerSeek
  have h1 : s.inner.seek (.current off) = .ok q { s.inner with pos := q } := by
    unfold Inner.seek
    have ht : SeekFrom.target (.current off) s.inner = q := hq
    rw [if_pos hs, if_neg hb]
    simp only [ht]
    rw [if_pos ⟨by omega, by omega⟩]
    simp
  rw [h1]

theorem innerSeek_to {s : Stream} {off : Int} {q : Nat} (hb : Benign s.inner.sched) (hs : s.inner.seekable = true) (hq : (s.inner.pos : Int) + off = q) (hu : q ≤ U64MAX) :
    innerSeek (.current off) s = .ok q { s with inner := { s.inner with pos := q } } := innerSeek_to' hb.seek hs hq hu

theorem innerSeek_refused {s : Stream} {w : SeekFrom} (hs : s.inner.seekable = true) (hn : s.inner.sched.head? = some .noSeek) :
    innerSeek w s = .err (.io .device) { s with inner := { s.inner with sched := s.inner.sched.tail } } := by
  unfold innerSeek Inner.seek
  rw [if_pos hs, if_pos hn]

theorem dyn_commit {s2 : Stream} {head tail : List Byte} {n : Nat} (h : DynOpen s2 head tail n) (hn : n + 10 ≤ I64MAX) (hp : s2.pos ≤ U64MAX)
    (hi : s2.inner.pos ≤ U64MAX) :
    ∃ s3, Fourleaf.commit s2 = .ok () s3 ∧ s3.inner.data = head ++ encodeFixedU64 (UInt64.ofNat n) ++ tail ∧ s3.inner.pos = s2.inner.pos ∧
      s3.pos = s2.pos ∧ s3.commit = none ∧ s3.inner.seekable = true ∧ s3.inner.sched <:+ s2.inner.sched := by
  obtain ⟨hdr, hh, hd⟩ := h.data
  have h1 := h.pos
  have h2 := h.start
  have h3 := h.ipos
  have h4 := h.inside
  have hl : s2.inner.data.length = head.length + 10 + tail.length := by rw [hd]; simp; omega
  obtain ⟨-, hfl⟩ := fixed_enc n (by unfold I64MAX at hn; omega)
  have hfin : ∃ s3, finishDynamicBlob s2 = .ok () s3 ∧ s3.inner.data = head ++ encodeFixedU64 (UInt64.ofNat n) ++ tail ∧ s3.inner.pos = s2.inner.pos ∧
      s3.pos = s2.pos ∧ s3.inner.seekable = true ∧ s3.inner.sched <:+ s2.inner.sched := by
    unfold finishDynamicBlob
    simp only
    rw [if_neg (by omega), if_neg (by omega), if_neg (by omega)]
    have hdisp : s2.pos - (s2.dynStart - 10) = n + 10 := by omega
    have hlen : s2.pos - s2.dynStart = n := by omega
    rw [hdisp, hlen]
    have hseek : innerSeek (.current (-((n + 10 : Nat) : Int))) s2 = .ok head.length { s2 with inner := { s2.inner with pos := head.length } } := by
      exact innerSeek_to h.benign h.seekable (by omega) (by omega)
    rw [M.bind_ok hseek, M.bind_ok (M.modify_apply _ _)]
    generalize hs1 : ({ s2 with inner := { s2.inner with pos := head.length }, pos := s2.pos - (n + 10) } : Stream) = t
    have ht1 : t.inner.pos = head.length := by rw [← hs1]
    have ht2 : t.inner.data = s2.inner.data := by rw [← hs1]
    have ht3 : t.pos = s2.pos - (n + 10) := by rw [← hs1]
    have ht4 : t.inner.sched = s2.inner.sched := by rw [← hs1]
    have ht5 : t.inner.seekable = true := by rw [← hs1]; exact h.seekable
    have hW := writeAll_track_out (encodeFixedU64 (UInt64.ofNat n)) t (by rw [ht1, ht2, hl]; omega)
    cases hr : writeAll trackWrite (encodeFixedU64 (UInt64.ofNat n)) t with
    | err e t' =>
      rw [hr] at hW
      have := hW.2.2 (by rw [ht4]; exact h.benign)
      rw [hfl] at this
      omega
    | ok x t' =>
      rw [hr] at hW
      obtain ⟨w, -⟩ := hW
      have hE : encodeFixedS (UInt64.ofNat n) t = .ok x t' := hr
      rw [M.bind_ok hE]
      have p1 : t'.inner.pos = head.length + 10 := by rw [w.ipos, ht1, hfl]
      have hseek2 : innerSeek (.current (n : Int)) t' = .ok s2.inner.pos { t' with inner := { t'.inner with pos := s2.inner.pos } } := by
        exact innerSeek_to ((ht4 ▸ h.benign : Benign t.inner.sched).suffix w.sched) (by rw [w.seekable]; exact ht5) (by omega) (by omega)
      rw [M.bind_ok hseek2]
      refine ⟨_, rfl, ?_, rfl, rfl, ?_, ?_⟩
      · show t'.inner.data = _
        rw [w.data, ht1, ht2, splice_written (by rw [hl]; omega), written, hfl, hd]
        rw [List.append_assoc, List.append_assoc, List.take_append_of_le_length (Nat.le_refl _), List.take_of_length_le (Nat.le_refl _)]
        rw [List.drop_append, List.drop_of_length_le (by omega), List.drop_append, List.drop_of_length_le (by omega)]
        simp [hh]
      · show t'.inner.seekable = true
        rw [w.seekable]; exact ht5
      · show t'.inner.sched <:+ _
        rw [← ht4]; exact w.sched
  obtain ⟨s3, g1, g2, g3, g4, g5, g6⟩ := hfin
  refine ⟨{ s3 with commit := none, live := false }, ?_, g2, g3, g4, rfl, g5, g6⟩
  unfold Fourleaf.commit
  rw [h.commit]
  simp only
  rw [g1]


/-- Opening a dynamic blob. -/
theorem dyn_open (d : Desc) {s : Stream} (hs : Sink s) (hb : Benign s.inner.sched) (hk : s.inner.seekable = true) (hroom : s.pos + 22 ≤ U64MAX) :
    ∃ s1, writeBlobDynamicDesc d s = .ok (U64MAX - (s.pos + 11)) s1 ∧
      DynOpen s1 (s.inner.data.take s.inner.pos ++ [d.toByte]) (s.inner.data.drop (s.inner.pos + 11)) 0 ∧
      Handed (U64MAX - (s.pos + 11)) s1 ∧ s1.pos = s.pos + 11 ∧ s1.inner.pos = s.inner.pos + 11 := by
  unfold writeBlobDynamicDesc
  have hD := writeDesc_out d hs.ready
  have hw := hs.within
  cases hr : writeDesc d s with
  | err e s' => rw [hr] at hD; have := hD.2.2 hb; simp at this; omega
  | ok x s' =>
    rw [hr] at hD
    obtain ⟨w, c⟩ := hD
    have hp : s'.pos = s.pos + 1 := w.pos
    rw [M.bind_ok hr, M.bind_ok (M.get_apply s'), M.ite_apply, if_neg (by omega)]
    have hlen : U64MAX - s'.pos - 10 = U64MAX - (s.pos + 11) := by omega
    rw [hlen]
    obtain ⟨-, hfl⟩ := fixed_enc (U64MAX - (s.pos + 11)) (by unfold U64MAX; omega)
    have hW := writeAll_track_out (encodeFixedU64 (UInt64.ofNat (U64MAX - (s.pos + 11)))) s' c.within
    cases hr2 : encodeFixedS (UInt64.ofNat (U64MAX - (s.pos + 11))) s' with
    | err e s2 =>
      unfold encodeFixedS at hr2
      rw [hr2] at hW
      have := hW.2.2 (hb.suffix w.sched)
      rw [hfl] at this
      omega
    | ok y s2 =>
      rw [M.bind_ok hr2, M.bind_ok (M.modify_apply _ _)]
      unfold encodeFixedS at hr2
      rw [hr2] at hW
      obtain ⟨w2, -⟩ := hW
      have w3 := w.trans hw w2
      have hpos : s2.pos = s.pos + 11 := by rw [w2.pos, hfl, hp]
      have hip : s2.inner.pos = s.inner.pos + 11 := by
        rw [w2.ipos, hfl, w.ipos]; simp
      have hd2 := w3.data
      rw [splice_written hw] at hd2
      have hwi := w3.within hw
      refine ⟨_, rfl, ⟨rfl, rfl, by simp only; omega, ⟨_, hfl, ?_⟩, ?_, Nat.zero_le _, ?_, hb.suffix w3.sched⟩, ⟨rfl, by simp only; omega, hwi⟩, hpos, hip⟩
      · show s2.inner.data = _
        rw [hd2, written]
        simp [hfl]
      · simp only [List.length_append, List.length_take, List.length_singleton]
        rw [hip]; omega
      · show s2.inner.seekable = true
        rw [w3.seekable]; exact hk

theorem writePieces_adv : ∀ (pieces : List (List Byte)) (s : Stream), s.inner.pos ≤ s.inner.data.length → s.pos + pieces.flatten.length ≤ s.blobEnd →
    WOutK 0 s pieces.flatten (fun s' => s' = advW s pieces.flatten s'.inner.sched) (writePieces pieces s) := by
  intro pieces
  induction pieces with
  | nil => intro s h _; exact ⟨.refl h, (advW_nil s h).symm⟩
  | cons p ps ih =>
    intro s h hl
    simp only [List.flatten_cons, List.length_append] at hl ⊢
    have h1 := writeAll_blob_out p s h (by omega)
    unfold writePieces
    rw [M.seq_bind]
    cases hr : writeAll blobWrite p s with
    | err e s' =>
      rw [hr] at h1
      obtain ⟨⟨k, hk, g1⟩, g2, g3⟩ := h1
      refine ⟨⟨k, by simp only [List.length_append]; omega, ?_⟩, g2, fun hb => ?_⟩
      · rw [List.take_append_of_le_length hk]; exact g1
      · have := g3 hb; simp only [List.length_append]; omega
    | ok x s' =>
      rw [hr] at h1
      obtain ⟨w, hq⟩ := h1
      have hwi := w.within h
      have hpos := w.pos
      have h2 := ih s' hwi (by rw [hpos, hq]; simp only [advW]; omega)
      show WOutK 0 s (p ++ ps.flatten) _ (writePieces ps s')
      cases hr2 : writePieces ps s' with
      | ok y s2 =>
        rw [hr2] at h2
        refine ⟨w.trans h h2.1, ?_⟩
        show s2 = advW s (p ++ ps.flatten) s2.inner.sched
        rw [← advW_advW s p ps.flatten s'.inner.sched _ h, ← hq]
        exact h2.2
      | err e s2 =>
        rw [hr2] at h2
        obtain ⟨⟨k, hk, g1⟩, g2, g3⟩ := h2
        refine ⟨⟨p.length + k, by simp only [List.length_append]; omega, ?_⟩, g2, fun hb => ?_⟩
        · rw [List.take_append, List.take_of_length_le (by omega), show p.length + k - p.length = k by omega]
          exact w.trans h g1
        · have := g3 (hb.suffix w.sched)
          simp only [List.length_append]; omega

/-- `write_blob_dynamic`/`write_exception_dynamic`, then `write_all` of some pieces to the handle, then `commit`. -/
def dynamicBlob (d : Desc) (pieces : List (List Byte)) : M Err Stream Unit := do
  let _ ← writeBlobDynamicDesc d
  writePieces pieces
  Fourleaf.commit

/-- The bytes of a dynamic blob: like those of any blob, but the length takes ten bytes (C04). -/
def dynBytes (d : Desc) (data : List Byte) : List Byte := d.toByte :: encodeFixedU64 (UInt64.ofNat data.length) ++ data

/-- **C24** On a seekable sink without errors: writing any data in any pieces to a dynamic blob and committing leaves, at the offset where it was started, the descriptor, the
actual length in ten bytes, and the data; everything before (and everything beyond) is as before; the position is right after the data; the next call starts there. -/
theorem c24_dynamic_blob (d : Desc) (pieces : List (List Byte)) (s : Stream) (hs : Sink s) (hb : Benign s.inner.sched) (hk : s.inner.seekable = true)
    (hroom : s.pos + 22 + pieces.flatten.length ≤ U64MAX) (hoff : s.inner.pos + 11 + pieces.flatten.length ≤ U64MAX)
    (hlen : pieces.flatten.length + 10 ≤ I64MAX) :
    ∃ s', dynamicBlob d pieces s = .ok () s' ∧ s'.inner.data = written s.inner.data s.inner.pos (dynBytes d pieces.flatten) ∧
      s'.inner.pos = s.inner.pos + (dynBytes d pieces.flatten).length ∧ s'.pos = s.pos + (dynBytes d pieces.flatten).length ∧ Sink s' ∧
      Benign s'.inner.sched ∧ s'.inner.seekable = true := by
  obtain ⟨s1, h1, hD, hH, hp, hip⟩ := dyn_open d hs hb hk (by omega)
  unfold dynamicBlob
  rw [M.bind_ok h1]
  have hw := hs.within
  have hsp := hH.span
  have hP := writePieces_adv pieces s1 hH.within (by omega)
  cases hr : writePieces pieces s1 with
  | err e s2 =>
    rw [hr] at hP
    have := hP.2.2 hD.benign
    omega
  | ok x s2 =>
    rw [hr] at hP
    obtain ⟨w, hq⟩ := hP
    rw [M.bind_ok hr]
    obtain ⟨hdr, hh, hdata⟩ := hD.data
    have hi2 := w.ipos
    have hip1 := hD.ipos
    have hd2 : s2.inner.data = (s.inner.data.take s.inner.pos ++ [d.toByte]) ++ hdr ++
        (pieces.flatten ++ s.inner.data.drop (s.inner.pos + 11 + pieces.flatten.length)) := by
      rw [w.data, splice_written hH.within, written, hdata]
      have hl1 : (List.take s.inner.pos s.inner.data ++ [d.toByte] ++ hdr).length = s1.inner.pos := by
        rw [hip1]; simp only [List.length_append, hh, Nat.add_zero]
      rw [List.take_append_of_le_length (by omega), List.take_of_length_le (by omega), List.drop_append, List.drop_of_length_le (by omega), List.drop_drop, hl1,
        show s.inner.pos + 11 + (s1.inner.pos + pieces.flatten.length - s1.inner.pos) = s.inner.pos + 11 + pieces.flatten.length by omega]
      simp
    have hO : DynOpen s2 (s.inner.data.take s.inner.pos ++ [d.toByte]) (pieces.flatten ++ s.inner.data.drop (s.inner.pos + 11 + pieces.flatten.length))
        pieces.flatten.length := by
      refine ⟨by rw [hq]; exact hD.commit, ?_, ?_, ⟨hdr, hh, hd2⟩, ?_, by simp only [List.length_append]; omega, ?_, hD.benign.suffix w.sched⟩
      · have e1 : s2.dynStart = s1.dynStart := w.meta_.dynStart
        have e2 := hD.pos
        rw [w.pos, e1]; omega
      · rw [w.meta_.dynStart]; exact hD.start
      · rw [hi2, hip1, Nat.add_zero]
      · rw [w.seekable]; exact hD.seekable
    obtain ⟨s3, g1, g2, g3, g4, g5, g6, g7⟩ := dyn_commit hO hlen (by rw [w.pos]; omega) (by rw [hi2]; omega)
    obtain ⟨-, hfl⟩ := fixed_enc pieces.flatten.length (by unfold I64MAX at hlen; omega)
    have hbl : (dynBytes d pieces.flatten).length = 11 + pieces.flatten.length := by
      simp only [dynBytes, List.length_append, List.length_cons, hfl]
    have hdat : s3.inner.data = written s.inner.data s.inner.pos (dynBytes d pieces.flatten) := by
      rw [g2, written, hbl, dynBytes, show s.inner.pos + (11 + pieces.flatten.length) = s.inner.pos + 11 + pieces.flatten.length by omega]
      simp
    refine ⟨s3, g1, hdat, ?_, ?_, ⟨.inl g5, ?_⟩, hO.benign.suffix g7, g6⟩
    · rw [g3, hi2, hbl]; omega
    · rw [g4, w.pos, hbl]; omega
    · rw [g3, g2, hi2, hip1]; simp only [List.length_append, hfl]; omega

/-- **C24** These bytes spell the blob field (or exception), so by C08/C10 they read back as exactly that data. -/
theorem c24_reads_back (tag : UInt8) (ht : TagOk tag) (data : List UInt8) (h : data.length < 2 ^ 64) :
    EncTok (.blob tag data) (dynBytes (.pair .blob tag) data) ∧ EncTok (.exception data) (dynBytes (.special .exception) data) := by
  obtain ⟨h1, -⟩ := fixed_enc data.length h
  refine ⟨.blob ht ?_ h1 h, .exception h1 h⟩
  rw [pairByte _ _ ht, UInt8.toNat_ofNat', Nat.mod_eq_of_lt]
  have := ht.2
  simp only; omega

/-- **C24** More generally: whatever is done on the handle of a dynamic blob — writes, reads, seeks, in any order, some failing — committing it turns what lies between its start
and the current position into its content; no byte before it changes. -/
theorem c24_any_operations (d : Desc) (s s1 : Stream) (len : Nat) (hs : Sink s) (hb : Benign s.inner.sched) (hk : s.inner.seekable = true)
    (hroom : s.pos + 22 ≤ U64MAX) (h1 : writeBlobDynamicDesc d s = .ok len s1) (ops : List BlobOp) (n : Nat) (content rest : List Byte)
    (hn : (runBlobOps len ops s1).pos = s1.pos + n)
    (hc : (runBlobOps len ops s1).inner.data.drop s1.inner.pos = content ++ rest) (hcn : content.length = n)
    (hlen : n + 10 ≤ I64MAX) (hoff : s.inner.pos + 11 + n ≤ U64MAX) :
    ∃ s3, Fourleaf.commit (runBlobOps len ops s1) = .ok () s3 ∧
      s3.inner.data = s.inner.data.take s.inner.pos ++ dynBytes d content ++ rest ∧
      s3.inner.pos = s.inner.pos + (dynBytes d content).length ∧ s3.pos = s.pos + (dynBytes d content).length ∧ Sink s3 := by
  obtain ⟨s1', h1', hD, hH, hp, hip⟩ := dyn_open d hs hb hk hroom
  rw [h1] at h1'
  simp only [Res.ok.injEq] at h1'
  obtain ⟨rfl, rfl⟩ := h1'
  have hw := hs.within
  have hC := runBlobOps_confined hH.span hH.fits hH.within ops s1 (.refl hH.span)
  have hB : Book s1 _ := runBlobOps_keeps book_step (U64MAX - (s.pos + 11)) ops s1
  generalize runBlobOps (U64MAX - (s.pos + 11)) ops s1 = s2 at *
  obtain ⟨hdr, hh, hdata⟩ := hD.data
  have hoff2 := hC.off
  have hip1 := hD.ipos
  have hdp := hD.pos
  have hsp := hH.span
  have hfit := hH.fits
  have hhi := hC.high
  have htake : s2.inner.data.take s1.inner.pos = s1.inner.data.take s1.inner.pos := by
    apply List.ext_getElem?
    intro i
    rw [List.getElem?_take, List.getElem?_take]
    split
    · exact hC.outside i (.inl (by omega))
    · rfl
  have hd2 : s2.inner.data = (s.inner.data.take s.inner.pos ++ [d.toByte]) ++ hdr ++ (content ++ rest) := by
    rw [← List.take_append_drop s1.inner.pos s2.inner.data, htake, hc, hdata]
    have hl1 : (List.take s.inner.pos s.inner.data ++ [d.toByte] ++ hdr).length = s1.inner.pos := by
      rw [hip1]; simp only [List.length_append, hh, Nat.add_zero]
    rw [List.take_append_of_le_length (by omega), List.take_of_length_le (by omega)]
  have hO : DynOpen s2 (s.inner.data.take s.inner.pos ++ [d.toByte]) (content ++ rest) n := by
    refine ⟨by rw [hB.commit]; exact hD.commit, ?_, ?_, ⟨hdr, hh, hd2⟩, ?_, by simp only [List.length_append]; omega, ?_, hD.benign.suffix hB.sched⟩
    · rw [hB.dynStart]; omega
    · rw [hB.dynStart]; exact hD.start
    · omega
    · rw [hB.seekable]; exact hD.seekable
  obtain ⟨s3, g1, g2, g3, g4, g5, g6, g7⟩ := dyn_commit hO hlen (by omega) (by omega)
  subst hcn
  obtain ⟨-, hfl⟩ := fixed_enc content.length (by unfold I64MAX at hlen; omega)
  have hbl : (dynBytes d content).length = 11 + content.length := by
    simp only [dynBytes, List.length_append, List.length_cons, hfl]
  refine ⟨s3, g1, ?_, ?_, ?_, .inl g5, ?_⟩
  · rw [g2, dynBytes]; simp
  · rw [g3, hbl]; omega
  · rw [g4, hbl]; omega
  · have := hO.inside; rw [g3, g2, hO.ipos]; simp only [List.length_append, List.length_singleton, hfl] at this ⊢; omega

def c24Sink : Stream := Stream.new { data := [1, 2, 3, 4, 5, 6, 7, 8, 9, 10, 11, 12, 13, 14, 15, 16, 17], pos := 2, sched := [.short 0, .interrupted, .short 2], seekable := true }
example : Sink c24Sink ∧ Benign c24Sink.inner.sched := ⟨⟨.inl rfl, by decide⟩, by unfold Benign; decide⟩
example : (dynamicBlob (.pair .blob 5) [[0xA, 0xB], [], [0xC]] c24Sink).state.inner.data =
    [1, 2, 0x85, 0x83, 0x80, 0x80, 0x80, 0x80, 0x80, 0x80, 0x80, 0x80, 0, 0xA, 0xB, 0xC, 17] := by decide +kernel
/-- Writing four bytes, going back two, overwriting one: the blob has three bytes. -/
example : (Fourleaf.commit (runBlobOps (U64MAX - 11) [.write [1, 2, 3, 4], .seek (.current (-2)), .write [9]]
    (writeBlobDynamicDesc (.pair .blob 5) (Stream.new { data := [], pos := 0, sched := [], seekable := true })).state)).state.inner.data =
    [0x85, 0x83, 0x80, 0x80, 0x80, 0x80, 0x80, 0x80, 0x80, 0x80, 0, 1, 2, 9, 4] := by decide +kernel

/-! ### C25 -/

theorem align_test (p k : Nat) (hk : k < 64) (hp : p < 2 ^ 64) :
    ((UInt64.ofNat p &&& (UInt64.ofNat (2 ^ k) - 1)) ≠ 0) ↔ p % 2 ^ k ≠ 0 := by
  have h1 : (UInt64.ofNat p).toNat = p := by rw [UInt64.toNat_ofNat']; exact Nat.mod_eq_of_lt hp
  have hk2 : 2 ^ k < 2 ^ 64 := Nat.pow_lt_pow_right (by decide) hk
  have hk1 : 1 ≤ 2 ^ k := Nat.one_le_two_pow
  have h2 : (UInt64.ofNat (2 ^ k)).toNat = 2 ^ k := by rw [UInt64.toNat_ofNat']; exact Nat.mod_eq_of_lt hk2
  have h3 : (UInt64.ofNat (2 ^ k) - 1).toNat = 2 ^ k - 1 := by
    rw [UInt64.toNat_sub_of_le _ _ (by rw [UInt64.le_iff_toNat_le, h2]; exact hk1), h2]; rfl
  have h4 : (UInt64.ofNat p &&& (UInt64.ofNat (2 ^ k) - 1)).toNat = p % 2 ^ k := by
    rw [UInt64.toNat_and, h1, h3, Nat.and_two_pow_sub_one_eq_mod]
  rw [← h4, Ne, ← UInt64.toNat_inj]
  simp

theorem padLoop_out (k : Nat) (hk : k < 64) : ∀ (r fuel : Nat) (s : Stream), WClean s → Benign s.inner.sched → s.pos + r + 11 ≤ U64MAX →
    r < fuel → r < 2 ^ k → (s.pos + r) % 2 ^ k = 0 →
    ∃ s', padLoop (2 ^ k) fuel s = .ok () s' ∧ Wrote s (List.replicate r 0xC0) s' ∧ WClean s' := by
  intro r
  have hpow : 0 < 2 ^ k := Nat.two_pow_pos k
  induction r with
  | zero =>
    intro fuel s hc hb hroom hf hr h0
    obtain ⟨f, rfl⟩ : ∃ f, fuel = f + 1 := ⟨fuel - 1, by omega⟩
    have hp64 : s.pos < 2 ^ 64 := by unfold U64MAX at hroom; omega
    unfold padLoop
    rw [if_neg (by rw [align_test _ _ hk hp64]; simp only [Nat.add_zero] at h0; omega)]
    exact ⟨s, rfl, .refl hc.within, hc⟩
  | succ r ih =>
    intro fuel s hc hb hroom hf hr h0
    obtain ⟨f, rfl⟩ : ∃ f, fuel = f + 1 := ⟨fuel - 1, by omega⟩
    have hp64 : s.pos < 2 ^ 64 := by unfold U64MAX at hroom; omega
    have hne : s.pos % 2 ^ k ≠ 0 := by
      intro h
      rw [Nat.add_mod, h, Nat.zero_add, Nat.mod_mod, Nat.mod_eq_of_lt hr] at h0
      omega
    unfold padLoop
    rw [if_pos ((align_test _ _ hk hp64).2 hne)]
    have hW := writeDesc_out (.special .padding) hc.ready
    have hpad : writePadding s = writeDesc (.special .padding) s := rfl
    cases hr' : writeDesc (.special .padding) s with
    | err e s' => rw [hr'] at hW; have := hW.2.2 hb; simp at this; omega
    | ok x s1 =>
      rw [hr'] at hW
      obtain ⟨w, c⟩ := hW
      rw [M.bind_ok (hpad.trans hr')]
      have hp1 : s1.pos = s.pos + 1 := w.pos
      obtain ⟨s', g1, g2, g3⟩ := ih f s1 c (hb.suffix w.sched) (by omega) (by omega) (by omega) (by rw [hp1, Nat.add_assoc, Nat.add_comm 1 r]; exact h0)
      exact ⟨s', g1, w.trans hc.within g2, g3⟩

/-- **C25** `pad_to_align` of a power of two writes only padding bytes, fewer than the alignment, and leaves the position at a multiple of the alignment. -/
theorem c25_pad_to_align (k : Nat) (hk : k < 64) (s : Stream) (hs : Sink s) (hb : Benign s.inner.sched) (hroom : s.pos + 2 ^ k + 11 ≤ U64MAX) :
    ∃ s' j, padToAlign (2 ^ k) s = .ok () s' ∧ j < 2 ^ k ∧ s'.inner.data = written s.inner.data s.inner.pos (List.replicate j 0xC0) ∧
      s'.inner.pos = s.inner.pos + j ∧ s'.pos = s.pos + j ∧ 2 ^ k ∣ s'.pos ∧ Sink s' ∧ Benign s'.inner.sched ∧ s'.inner.seekable = s.inner.seekable := by
  have hpow : 0 < 2 ^ k := Nat.two_pow_pos k
  have hmod := Nat.mod_lt s.pos hpow
  -- the number of bytes that are missing
  obtain ⟨j, hj, hj0⟩ : ∃ j, j < 2 ^ k ∧ (s.pos + j) % 2 ^ k = 0 := by
    by_cases h : s.pos % 2 ^ k = 0
    · exact ⟨0, hpow, h⟩
    · refine ⟨2 ^ k - s.pos % 2 ^ k, by omega, ?_⟩
      have e : s.pos + (2 ^ k - s.pos % 2 ^ k) = (s.pos - s.pos % 2 ^ k) + 2 ^ k := by have := Nat.mod_le s.pos (2 ^ k); omega
      rw [e, Nat.add_mod_right]
      exact Nat.sub_mod_eq_zero_of_mod_eq (by simp)
  have hC := commit_out hs.ready
  unfold padToAlign
  cases hr : Fourleaf.commit s with
  | err e s' => rw [hr] at hC; have := hC.2.2 hb; simp at this; omega
  | ok x s1 =>
    rw [hr] at hC
    obtain ⟨w, c⟩ := hC
    rw [M.bind_ok hr]
    have hp1 : s1.pos = s.pos := by have := w.pos; simpa using this
    obtain ⟨s', g1, g2, g3⟩ := padLoop_out k hk j (2 ^ k + 1) s1 c (hb.suffix w.sched) (by omega) (by omega) hj (by rw [hp1]; exact hj0)
    have w2 := w.trans hs.within g2
    rw [List.nil_append] at w2
    have hpos := w2.pos
    rw [List.length_replicate] at hpos
    refine ⟨s', j, g1, hj, by rw [w2.data, splice_written hs.within], by rw [w2.ipos, List.length_replicate], hpos, ?_, ⟨.inl g3.pend, g3.within⟩, hb.suffix w2.sched, w2.seekable⟩
    rw [hpos]; exact Nat.dvd_of_mod_eq_zero hj0

example : (padToAlign 8 (Stream.new { data := [1, 2, 3], pos := 3, sched := [.interrupted], seekable := false })).state.inner.data = [1, 2, 3] ∧
    (padToAlign 8 { Stream.new { data := [1, 2, 3], pos := 3, sched := [.interrupted], seekable := false } with pos := 5 }).state.inner.data =
      [1, 2, 3, 0xC0, 0xC0, 0xC0] := by decide +kernel

/-! ### C26 -/

/-- A client that copies `n` elements: read one from `src`, pass it to `write_element` of `dst`. After the end of a document it clears the eof flag. -/
def copyElements : Nat → Stream → Stream → Res Err (Stream × Stream) Unit
  | 0, src, dst => .ok () (src, dst)
  | n + 1, src, dst =>
    match nextElement src with
    | .err e src' => .err e (src', dst)
    | .ok el src' =>
      match writeElement el src' dst with
      | .err e st => .err e st
      | .ok _ (src'', dst') => copyElements n (if el = .endOfDoc then { src'' with eof := false } else src'') dst'

/-! ### `io::copy` -/

/-- Outcome of copying the rest of a blob: `k` bytes have been taken from the source. On success these are all, up to the end of the blob or of the input, and the destination has
got them; it had room for `m`. Otherwise one of the two sides has failed, and the destination has got some of them. -/
def Copied (m : Nat) (src dst : Stream) (r : Res Err (Stream × Stream) Unit) : Prop :=
  ∃ k sc, k ≤ blobRemaining src ∧ k ≤ src.rest.length ∧ sc <:+ src.inner.sched ∧
    match r with
    | .ok _ st => st.1 = advBy src k sc ∧ k = min (blobRemaining src) src.rest.length ∧ Wrote dst (src.rest.take k) st.2 ∧ WAlloc (m - k) st.2
    | .err e st => st.1 = advBy src k sc ∧ e.abnormal = false ∧
        ((e = .io .device ∧ ¬ Benign src.inner.sched ∧ Wrote dst (src.rest.take k) st.2) ∨
         (¬ Benign dst.inner.sched ∧ ∃ j, j ≤ k ∧ Wrote dst (src.rest.take j) st.2))

theorem copyLoop_spec (cap : Nat) (hcap : 0 < cap) : ∀ (fuel m : Nat) (src dst : Stream), src.pos ≤ src.blobEnd → src.blobEnd ≤ U64MAX →
    src.inner.sched.length + blobRemaining src + 1 ≤ fuel → blobRemaining src ≤ m → WAlloc m dst → dst.blobEnd ≤ U64MAX →
    Copied m src dst (copyLoop cap fuel src dst) := by
  intro fuel
  induction fuel with
  | zero => intro m src dst _ _ h; omega
  | succ fuel ih =>
    intro m src dst hp he hf hm hd hde
    have hrem : blobRemaining src = src.blobEnd - src.pos := rfl
    have stop : ∀ sc, sc <:+ src.inner.sched → min (blobRemaining src) src.rest.length = 0 → Copied m src dst (.ok () (advBy src 0 sc, dst)) := fun sc hsc h0 =>
      ⟨0, sc, Nat.zero_le _, Nat.zero_le _, hsc, rfl, h0.symm, .refl hd.within, hd⟩
    rw [copyLoop]
    unfold blobRead
    by_cases h0 : blobRemaining src = 0
    · simp only [h0, if_true]
      exact stop src.inner.sched (List.suffix_refl _) (by rw [h0]; exact Nat.zero_min _)
    · simp only [h0, if_false]
      have hm1 : min cap (blobRemaining src) ≤ blobRemaining src := Nat.min_le_right _ _
      rcases trackRead_spec false (min cap (blobRemaining src)) (by omega) src with ⟨h1, -⟩ | ⟨-, ⟨k, sc, h1, h2, h3, h4, h5, -⟩ | ⟨sc, h1, h5, h2⟩ | ⟨sc, h1, h5, h6⟩ | ⟨sc, h1, h5, h6⟩⟩
      · omega
      · rw [h1]
        have hl : (src.rest.take k).length = k := by simp; omega
        have hne : src.rest.take k ≠ [] := by intro h; rw [h] at hl; simp at hl; omega
        simp only [if_neg hne]
        have hsp := hd.span
        have hW := writeAll_blob_out (src.rest.take k) dst hd.within (by omega)
        cases hr : writeAll blobWrite (src.rest.take k) dst with
        | err e dst' =>
          rw [hr] at hW
          obtain ⟨⟨j, hj, w⟩, hn, hb⟩ := hW
          refine ⟨k, sc, by omega, h4, h5, rfl, hn, .inr ⟨fun h => ?_, j, by omega, ?_⟩⟩
          · have := hb h; omega
          · rw [List.take_take, Nat.min_eq_left (by omega)] at w; exact w
        | ok u dst' =>
          rw [hr] at hW
          obtain ⟨w, hq⟩ := hW
          have hrem' : blobRemaining (advBy src k sc) = blobRemaining src - k := by unfold blobRemaining; simp; omega
          have hrest' : (advBy src k sc).rest = src.rest.drop k := advBy_rest src k sc
          have hbe : dst'.blobEnd = dst.blobEnd := by rw [hq]; rfl
          have hd' : WAlloc (m - k) dst' := by
            refine ⟨w.within hd.within, by rw [hq]; exact hd.commit, ?_⟩
            rw [w.pos, hl, hbe]; omega
          have hlen := h5.length_le
          have hrec := ih (m - k) (advBy src k sc) dst' (by simp; omega) he (by rw [hrem', advBy_sched]; omega) (by rw [hrem']; omega) hd' (by rw [hbe]; exact hde)
          obtain ⟨k', sc', g1, g2, g3, g4⟩ := hrec
          rw [hrem'] at g1
          rw [hrest', List.length_drop] at g2
          refine ⟨k + k', sc', by omega, by omega, g3.trans h5, ?_⟩
          simp only
          have hcat : ∀ j {d2 : Stream}, Wrote dst' ((advBy src k sc).rest.take j) d2 → Wrote dst (src.rest.take (k + j)) d2 := by
            intro j d2 h
            have := w.trans hd.within h
            rw [hrest', ← List.take_add] at this
            exact this
          cases hrr : copyLoop cap fuel (advBy src k sc) dst' with
          | ok u st =>
            simp only [hrr] at g4
            obtain ⟨a1, a2, a3, a4⟩ := g4
            rw [advBy_advBy] at a1
            rw [hrem', hrest', List.length_drop] at a2
            refine ⟨a1, by omega, hcat _ a3, ?_⟩
            rw [show m - (k + k') = m - k - k' by omega]; exact a4
          | err e st =>
            simp only [hrr] at g4
            obtain ⟨a1, a2, a3⟩ := g4
            rw [advBy_advBy] at a1
            refine ⟨a1, a2, ?_⟩
            rcases a3 with ⟨a3, a4, a5⟩ | ⟨a3, j, a4, a5⟩
            · exact .inl ⟨a3, fun h => a4 (h.suffix h5), hcat _ a5⟩
            · exact .inr ⟨fun h => a3 (h.suffix w.sched), k + j, by omega, hcat _ a5⟩
      · rw [h2]
        simp only [Bool.false_eq_true, false_and, if_false, if_true]
        exact stop sc h5 (by rw [h1]; simp)
      · rw [h1]
        have hrem' : blobRemaining (advBy src 0 sc) = blobRemaining src := rfl
        have hrest' : (advBy src 0 sc).rest = src.rest := by rw [advBy_rest]; rfl
        obtain ⟨k', sc', g1, g2, g3, g4⟩ := ih m (advBy src 0 sc) dst hp he (by rw [hrem', advBy_sched]; omega) (by rw [hrem']; exact hm) hd hde
        refine ⟨k', sc', g1, by rw [hrest'] at g2; exact g2, g3.trans h5, ?_⟩
        simp only
        cases hrr : copyLoop cap fuel (advBy src 0 sc) dst with
        | ok u st =>
          simp only [hrr] at g4
          rw [advBy_advBy, Nat.zero_add, hrem', hrest'] at g4
          exact g4
        | err e st =>
          simp only [hrr] at g4
          rw [advBy_advBy, Nat.zero_add, hrest', advBy_sched] at g4
          obtain ⟨a1, a2, a3⟩ := g4
          exact ⟨a1, a2, a3.imp_left fun ⟨b1, b2, b3⟩ => ⟨b1, fun h => b2 (h.suffix h5), b3⟩⟩
      · rw [h1]
        exact ⟨0, sc, Nat.zero_le _, Nat.zero_le _, h5, rfl, rfl, .inl ⟨rfl, h6, .refl hd.within⟩⟩

/-- Outcome of copying elements which spell `bytes` canonically. -/
def COut (src dst : Stream) (bytes : List Byte) (P : Stream → Prop) (r : Res Err (Stream × Stream) Unit) : Prop :=
  match r with
  | .ok _ st => P (onSched [] st.1) ∧ st.1.inner.sched <:+ src.inner.sched ∧ Wrote dst bytes st.2 ∧ WReady st.2
  | .err e st => e.abnormal = false ∧ (Benign src.inner.sched → Benign dst.inner.sched → U64MAX < dst.pos + bytes.length + 11) ∧
      ∃ j, j ≤ bytes.length ∧ Wrote dst (bytes.take j) st.2

theorem benign_nil : Benign ([] : List Ev) := by simp [Benign]

/-- The copied bytes of one blob. -/
theorem copyBlob_out {src dst : Stream} {v : View} {c : List Byte} (h : At (onSched [] src) v) (hc : v.cur = some c) (hd : WAlloc c.length dst) (he : dst.blobEnd ≤ U64MAX) :
    COut src dst c (At · { v with pos := v.pos + c.length, cur := some [] }) (copyBlob src dst) := by
  obtain ⟨h1, h2, h3⟩ := h.some c hc
  have h3 : src.blobEnd = src.pos + c.length := h3
  have hrem : blobRemaining src = c.length := by unfold blobRemaining; omega
  obtain ⟨s', h4, h5⟩ := drain_at h hc c.length (Nat.le_refl _)
  have hrest : src.rest = c ++ v.rest := by have := h.bytes; rw [onSched_rest] at this; rw [this]; simp [View.curBytes, hc]
  have hroom := h.room
  have hpos : src.pos = v.pos := h.pos
  simp only [View.curBytes, hc, Option.getD_some] at hroom
  obtain ⟨k, sc, h6, h7, h8, h9⟩ := copyLoop_spec copyBuf (by decide) (src.inner.sched.length + blobRemaining src + 2) c.length src dst (by omega) (by omega) (by omega)
    (by omega) hd he
  unfold copyBlob
  rw [hrem] at h6 h9 ⊢
  cases hr : copyLoop copyBuf (src.inner.sched.length + c.length + 2) src dst with
  | ok u st =>
    simp only [hr] at h9
    obtain ⟨a1, a2, a3, a4⟩ := h9
    have hk : k = c.length := by rw [a2, hrest, List.length_append]; omega
    rw [hk] at a1 a3 a4
    rw [hrest, List.take_left] at a3
    refine ⟨?_, by rw [a1]; exact h8, a3, by rw [Nat.sub_self] at a4; exact a4.ready⟩
    obtain ⟨k2, sc2, b1, b2, b3, b4⟩ := drain_blob_spec c.length (onSched [] src) (by unfold blobRemaining; show c.length ≤ src.blobEnd - src.pos; omega) (by show src.blobEnd ≤ _; omega)
    have hsc2 : sc2 = [] := List.suffix_nil.1 b3
    rcases b4 with ⟨b4, b5⟩ | ⟨b4, -⟩
    · rw [h4] at b5
      injection b5 with _ b5
      have hk2 : k2 = c.length := by rw [b4, onSched_rest, hrest, List.length_append]; omega
      rw [b5, hk2, hsc2, List.drop_length] at h5
      rw [a1]
      exact h5
    · exact absurd benign_nil b4
  | err e st =>
    simp only [hr] at h9
    obtain ⟨a1, a2, a3⟩ := h9
    have htk : ∀ j, j ≤ c.length → src.rest.take j = c.take j := fun j hj => by rw [hrest, List.take_append_of_le_length hj]
    refine ⟨a2, fun g1 g2 => ?_, ?_⟩
    · rcases a3 with ⟨-, a3, -⟩ | ⟨a3, -⟩
      · exact absurd g1 a3
      · exact absurd g2 a3
    · rcases a3 with ⟨-, -, a3⟩ | ⟨-, j, hj, a3⟩
      · exact ⟨k, h6, by rw [← htk k h6]; exact a3⟩
      · exact ⟨j, by omega, by rw [← htk j (by omega)]; exact a3⟩

theorem writeElement_out {src dst : Stream} {v : View} {p d : Nat} {t : Tok} (h : At (onSched [] src) v) (hc : v.cur = contentOf t) (hv : t.Valid) (hd : WReady dst) :
    COut src dst (canonTok t) (At · { v with pos := v.pos + ((contentOf t).getD []).length, cur := (contentOf t).map fun _ => [] }) (writeElement (elemOf p d t) src dst) := by
  have simple : ∀ (m : M Err Stream Unit), contentOf t = none → WOut dst (canonTok t) WClean (m dst) →
      COut src dst (canonTok t) (At · { v with pos := v.pos + ((contentOf t).getD []).length, cur := (contentOf t).map fun _ => [] }) (onDst m src dst) := by
    intro m hn hm
    unfold onDst
    cases hr : m dst with
    | err e d' =>
      rw [hr] at hm
      obtain ⟨⟨k, h1, h2⟩, h3, h4⟩ := hm
      exact ⟨h3, fun _ hb => h4 hb, k, h1, h2⟩
    | ok x d' =>
      rw [hr] at hm
      refine ⟨?_, List.suffix_refl _, hm.1, hm.2.ready⟩
      rw [hn] at hc ⊢
      rw [show ({ v with pos := v.pos + ((none : Option (List Byte)).getD []).length, cur := (none : Option (List Byte)).map fun _ => [] } : View) = v by
        cases v; simp at hc ⊢; exact hc.symm]
      exact h
  have alloc : ∀ (de : Desc) (c : List Byte), contentOf t = some c → canonTok t = de.toByte :: shortInt c.length ++ c →
      COut src dst (canonTok t) (At · { v with pos := v.pos + ((contentOf t).getD []).length, cur := (contentOf t).map fun _ => [] }) (match writeBlobAllocDesc de c.length dst with
        | .err e dst' => .err e (src, dst')
        | .ok _ dst' => copyBlob src dst' : Res Err (Stream × Stream) Unit) := by
    intro de c hcc hcan
    have hA := allocDesc_out de c.length hd
    have hlen : (canonTok t).length = (shortInt c.length).length + 1 + c.length := by rw [hcan]; simp; omega
    cases hr : writeBlobAllocDesc de c.length dst with
    | err e d' =>
      rw [hr] at hA
      obtain ⟨⟨k, h1, h2⟩, h3, h4⟩ := hA
      refine ⟨h3, fun _ hb => by have := h4 hb; omega, k, by omega, ?_⟩
      rw [hcan, List.take_append_of_le_length (by simp; omega)]
      exact h2
    | ok x d' =>
      rw [hr] at hA
      obtain ⟨w, a, -, a2⟩ := hA
      have hp : d'.pos = dst.pos + ((shortInt c.length).length + 1) := by rw [w.pos]; simp
      have hC := copyBlob_out h (hc.trans hcc) a a2
      simp only
      cases hr2 : copyBlob src d' with
      | ok u st =>
        rw [hr2] at hC
        obtain ⟨g1, g2, g3, g4⟩ := hC
        refine ⟨by rw [hcc]; exact g1, g2, ?_, g4⟩
        rw [hcan]; exact w.trans hd.within g3
      | err e st =>
        rw [hr2] at hC
        obtain ⟨g1, g2, j, g3, g4⟩ := hC
        refine ⟨g1, fun b1 b2 => by have := g2 b1 (b2.suffix w.sched); omega, (shortInt c.length).length + 1 + j, by omega, ?_⟩
        have hsplit : (canonTok t).take ((shortInt c.length).length + 1 + j) = de.toByte :: shortInt c.length ++ c.take j := by
          rw [hcan, show (shortInt c.length).length + 1 + j = (de.toByte :: shortInt c.length).length + j by simp, List.take_length_add_append]
        rw [hsplit]
        exact w.trans hd.within g4
  cases t with
  | int tag n => exact simple _ rfl (writeU64_out tag hv n hd)
  | enum tag n => exact simple _ rfl (writeEnum_out tag hv n hd)
  | struct tag => exact simple _ rfl (writeStruct_out tag hv hd)
  | endStruct => exact simple _ rfl (writeDesc_out (.special .endOfStruct) hd)
  | endDoc => exact simple _ rfl (writeDesc_out (.special .endOfDoc) hd)
  | padding => exact simple _ rfl (writeDesc_out (.special .padding) hd)
  | blob tag data =>
    refine alloc (.pair .blob tag) data rfl ?_
    rw [pairByte _ tag hv.1]; rfl
  | exception msg => exact alloc (.special .exception) msg rfl rfl

theorem _root_.Fourleaf.At.notBeyond {s : Stream} {v : View} (h : At s v) : ¬ Beyond s := by
  have h1 := h.bytes
  have h2 := h.within
  have h3 := congrArg List.length h1
  have h4 := rest_length s
  rw [List.length_append] at h3
  unfold Beyond vpos
  cases hc : v.cur with
  | none => rw [if_neg (by rw [h.none hc]; simp)]; omega
  | some c =>
    obtain ⟨a1, -, a3⟩ := h.some c hc
    have h5 : v.curBytes.length = c.length := by simp [View.curBytes, hc]
    rw [if_pos a1]; omega

theorem copyElements_out : ∀ (ts : List Tok) (bs : List Byte), EncToks ts bs → (∀ t ∈ ts, t.Valid) → ∀ (src dst : Stream) (p d : Nat) (l : List Byte),
    Ready (onSched [] src) p d false (bs ++ l) → WReady dst →
    COut src dst (canonToks ts) (Ready · (p + bs.length) (depthAfterAll d ts) false l) (copyElements ts.length src dst) := by
  intro ts bs henc
  induction henc with
  | nil => intro _ src dst p d l h hd; exact ⟨by simpa [depthAfterAll] using h, List.suffix_refl _, .refl hd.within, hd⟩
  | @cons t ts b bs ht hts ih =>
    intro hv src dst p d l h hd
    have hcan : canonToks (t :: ts) = canonTok t ++ canonToks ts := rfl
    rw [List.append_assoc] at h
    obtain ⟨s1, h1, h2, h3⟩ := h.nextElement ht
    have hinv : Inv src := by obtain ⟨v, hA, -⟩ := h; have := hA.inv; exact ⟨this.pos_le, this.pend, this.eofCommit, this.eofDepth, this.liveOk⟩
    have hL := nextElementImpl_lead false (onSched_lead (s := src) benign_nil) hinv
    have hSf := (nextElementImpl_safe false hinv).1
    simp only [List.length_cons, copyElements]
    cases hr : nextElement src with
    | err e src' =>
      rcases hL.err e src' hr with rfl | ⟨⟨hB, -⟩, -⟩ | ⟨t', h4, -⟩
      · refine ⟨rfl, fun hb _ => ?_, 0, Nat.zero_le _, .refl hd.within⟩
        exfalso
        have hrel : Rel false [] src (onSched [] src) := ⟨by simp [ext, onSched], hb, benign_nil, fun h => absurd rfl h, fun _ => rfl, fun _ => rfl⟩
        obtain ⟨t', h4, -⟩ := ((nextElementImpl_rel false hrel hinv).err _ _ hr).resolve_left fun h => h.1 rfl
        have h4 : nextElement (onSched [] src) = .err (.io .device) t' := h4
        rw [h1] at h4; cases h4
      · obtain ⟨v, hA, -⟩ := h
        exact absurd (hB.lead (onSched_lead benign_nil)) hA.notBeyond
      · have h4 : nextElement (onSched [] src) = .err e t' := h4
        rw [h1] at h4; cases h4
    | ok el src1 =>
      obtain ⟨t', h4, h5⟩ := hL.ok el src1 hr
      have h4 : nextElement (onSched [] src) = .ok el t' := h4
      rw [h1] at h4
      injection h4 with h6 h7
      subst h6 h7
      have hsuf : src1.inner.sched <:+ src.inner.sched := by
        have := hSf.step.frame.sched
        change _ <:+ _ at this
        rw [show nextElementImpl false src = .ok (elemOf p d t) src1 from hr] at this
        exact this
      have hs1 : s1 = onSched [] src1 := by
        have := h5.eq
        have hn : s1.inner.sched = [] := by
          have := (nextElementImpl_safe false (onSched_lead (s := src) benign_nil |>.inv hinv)).1.step.frame.sched
          rw [show nextElementImpl false (onSched [] src) = .ok (elemOf p d t) s1 from h1] at this
          exact List.suffix_nil.1 this
        rw [hn] at this; exact this
      subst hs1
      simp only
      have hW := writeElement_out (p := p) (d := d) h2 rfl (hv t (by simp)) hd
      have hcl := content_le ht
      cases hr2 : writeElement (elemOf p d t) src1 dst with
      | err e st =>
        rw [hr2] at hW
        obtain ⟨g1, g2, j, g3, g4⟩ := hW
        refine ⟨g1, fun b1 b2 => ?_, j, by rw [hcan, List.length_append]; omega, by rw [hcan, List.take_append_of_le_length g3]; exact g4⟩
        have := g2 (b1.suffix hsuf) b2
        rw [hcan, List.length_append]; omega
      | ok u st =>
        obtain ⟨src', dst'⟩ := st
        rw [hr2] at hW
        obtain ⟨g1, g2, g3, g4⟩ := hW
        simp only at g1 g2 g3 g4
        have hR : Ready (onSched [] src') (p + b.length) (t.depthAfter d) (decide (t = .endDoc)) (bs ++ l) := by
          refine ⟨_, g1, rfl, ?_, rfl, rfl⟩
          cases hct : contentOf t with
          | none => simp [View.flush, View.curBytes]
          | some c => rw [hct] at hcl; simp [View.flush, View.curBytes] at hcl ⊢; omega
        have hR2 : Ready (onSched [] (if elemOf p d t = .endOfDoc then { src' with eof := false } else src')) (p + b.length) (t.depthAfter d) false (bs ++ l) := by
          by_cases he : t = .endDoc
          · rw [if_pos ((elemOf_endOfDoc p d t).2 he)]
            exact hR.clearEof
          · rw [if_neg (fun h => he ((elemOf_endOfDoc p d t).1 h))]
            simpa [he] using hR
        have hsuf2 : (if elemOf p d t = .endOfDoc then { src' with eof := false } else src').inner.sched <:+ src.inner.sched := by
          split <;> exact g2.trans hsuf
        have hrec := ih (fun t' h' => hv t' (by simp [h'])) _ dst' _ _ l hR2 g4
        simp only
        have hp := g3.pos
        cases hr3 : copyElements ts.length (if elemOf p d t = .endOfDoc then { src' with eof := false } else src') dst' with
        | ok u st2 =>
          rw [hr3] at hrec
          obtain ⟨f1, f2, f3, f4⟩ := hrec
          exact ⟨by simpa [depthAfterAll, Nat.add_assoc] using f1, f2.trans hsuf2, by rw [hcan]; exact g3.trans hd.within f3, f4⟩
        | err e st2 =>
          rw [hr3] at hrec
          obtain ⟨f1, f2, j, f3, f4⟩ := hrec
          refine ⟨f1, fun b1 b2 => ?_, (canonTok t).length + j, by rw [hcan, List.length_append]; omega, ?_⟩
          · have := f2 (b1.suffix hsuf2) (b2.suffix g3.sched)
            rw [hcan, List.length_append]; omega
          · rw [hcan, List.take_length_add_append]; exact g3.trans hd.within f4

theorem ready_sched {s : Stream} {sc : List Ev} {p d : Nat} {e : Bool} {l : List Byte} (h : Ready s p d e l) (hb : Benign sc) : Ready (onSched sc s) p d e l := by
  obtain ⟨v, hA, h2⟩ := h
  exact ⟨v, ⟨(onSched_lead (s := s) hb).inv hA.inv, hb, hA.pos, hA.depth, hA.eof, hA.bytes, hA.within, hA.room, hA.none, hA.some⟩, h2⟩

theorem encTok_valid {t : Tok} {b : List Byte} (h : EncTok t b) : t.Valid := by
  cases h with
  | blob h1 _ _ h2 => exact ⟨h1, h2⟩
  | enum h | int h | struct h => exact h
  | exception _ h => exact h
  | endStruct | endDoc | padding => trivial

theorem encToks_valid {ts : List Tok} {b : List Byte} (h : EncToks ts b) : ∀ t ∈ ts, t.Valid := by
  induction h with
  | nil => nofun
  | cons h _ ih =>
    intro t ht
    rcases List.mem_cons.1 ht with rfl | ht
    · exact encTok_valid h
    · exact ih t ht

/-- **C26** Copying elements with `next_element`/`write_element` from any spelling — also a denormalised one — writes the same elements in canonical spelling; the
source is then right after the last one. -/
theorem c26_copy (ts : List Tok) (bs l : List Byte) (henc : EncToks ts bs) (src dst : Stream) (hsrc : Over src (bs ++ l))
    (hdst : Sink dst) (hb : Benign dst.inner.sched) (hroom : dst.pos + (canonToks ts).length + 11 ≤ U64MAX) :
    ∃ src' dst', copyElements ts.length src dst = .ok () (src', dst') ∧
      dst'.inner.data = written dst.inner.data dst.inner.pos (canonToks ts) ∧ dst'.pos = dst.pos + (canonToks ts).length ∧ Sink dst' ∧
      YieldsNext src' (src.pos + bs.length) src'.depth l := by
  have h := copyElements_out ts bs henc (encToks_valid henc) src dst _ _ l (ready_sched hsrc.ready benign_nil) hdst.ready
  cases hr : copyElements ts.length src dst with
  | err e st =>
    rw [hr] at h
    have := h.2.1 hsrc.benign hb
    omega
  | ok u st =>
    obtain ⟨src', dst'⟩ := st
    rw [hr] at h
    obtain ⟨h1, h2, h3, h4⟩ := h
    simp only at h1 h2 h3 h4
    have h5 := ready_sched h1 (hsrc.benign.suffix h2)
    have h6 : onSched src'.inner.sched (onSched [] src') = src' := rfl
    rw [h6] at h5
    exact ⟨src', dst', rfl, by rw [h3.data, splice_written hdst.within], h3.pos, ⟨h4.pend, h4.within⟩, by rw [h5.depth]; exact h5.yields⟩

/-- **C26** Whatever the reader of the source and the writer of the destination do: what has been added to the destination is at any time the beginning of the canonical spelling of
the elements; if all calls succeed, it is all of it. If neither fails (and the position does not overflow), all calls succeed. -/
theorem c26_copy_failing (ts : List Tok) (bs l : List Byte) (henc : EncToks ts bs) (src dst : Stream)
    (hsrc : Over { src with inner := { src.inner with sched := [] } } (bs ++ l)) (hdst : Sink dst) :
    ∃ n, n ≤ (canonToks ts).length ∧ (copyElements ts.length src dst).state.2.inner.data = written dst.inner.data dst.inner.pos ((canonToks ts).take n) ∧
      (copyElements ts.length src dst).state.2.pos = dst.pos + n ∧
      (∀ u st, copyElements ts.length src dst = .ok u st → n = (canonToks ts).length ∧ Sink st.2) ∧
      (∀ e st, copyElements ts.length src dst = .err e st → e.abnormal = false ∧
        (¬ Benign src.inner.sched ∨ ¬ Benign dst.inner.sched ∨ U64MAX < dst.pos + (canonToks ts).length + 11)) := by
  have h := copyElements_out ts bs henc (encToks_valid henc) src dst _ _ l hsrc.ready hdst.ready
  cases hr : copyElements ts.length src dst with
  | err e st =>
    rw [hr] at h
    obtain ⟨h1, h2, j, h3, h4⟩ := h
    refine ⟨j, h3, by show st.2.inner.data = _; rw [h4.data, splice_written hdst.within], by show st.2.pos = _; rw [h4.pos, List.length_take, Nat.min_eq_left h3], fun u st h => (by cases h), fun e' st' h => ?_⟩
    cases h
    refine ⟨h1, ?_⟩
    by_cases b1 : Benign src.inner.sched
    · by_cases b2 : Benign dst.inner.sched
      · exact .inr (.inr (h2 b1 b2))
      · exact .inr (.inl b2)
    · exact .inl b1
  | ok u st =>
    rw [hr] at h
    obtain ⟨h1, h2, h3, h4⟩ := h
    refine ⟨_, Nat.le_refl _, by show st.2.inner.data = _; rw [h3.data, splice_written hdst.within, List.take_length], h3.pos, fun u st h => ?_, fun e' st' h => by cases h⟩
    cases h
    exact ⟨rfl, h4.pend, h4.within⟩

/-- The source spells 5 with a superfluous byte; the copy does not. -/
example : (match copyElements 4 (Stream.fromSlice [0x41, 0x85, 0, 0x82, 0x83, 0, 7, 8, 9, 0xC0, 0x40])
    (Stream.new { data := [1], pos := 1, sched := [.short 0], seekable := false }) with
  | .ok _ st => st.2.inner.data | .err _ _ => []) = [1, 0x41, 5, 0x82, 3, 7, 8, 9, 0xC0, 0x40] := by decide +kernel

/-- The same with a reader which fails in the blob: the destination has got a prefix. -/
example : (match copyElements 4 { Stream.fromSlice [0x41, 0x85, 0, 0x82, 0x83, 0, 7, 8, 9, 0xC0, 0x40] with
      inner := { data := [0x41, 0x85, 0, 0x82, 0x83, 0, 7, 8, 9, 0xC0, 0x40], pos := 0, sched := List.replicate 6 (.short 0) ++ [.short 1, .fail], seekable := true } }
    (Stream.new { data := [1], pos := 1, sched := [.short 0], seekable := false }) with
  | .ok _ _ => [] | .err _ st => st.2.inner.data) = [1, 0x41, 5, 0x82, 3, 7, 8] := by decide +kernel

/-- Copying `rem` bytes at most into a blob allocated for `len`: the destination knows how many are missing. -/
theorem copy_short (d : Desc) (len rem : Nat) (src dst : Stream) (hlen : src.blobEnd = src.pos + rem) (hpe : src.blobEnd ≤ U64MAX) (hle : rem ≤ len)
    (hb : Benign src.inner.sched) (hdst : Sink dst) (hb' : Benign dst.inner.sched)
    (hroom : dst.pos + (d.toByte :: shortInt len).length + len + 11 ≤ U64MAX) :
    ∃ d' src' dst', writeBlobAllocDesc d len dst = .ok () d' ∧ copyBlob src d' = .ok () (src', dst') ∧
      dst'.inner.data = written dst.inner.data dst.inner.pos ((d.toByte :: shortInt len) ++ src.rest.take rem) ∧
      ((src.rest.take rem).length = len → Sink dst') ∧
      ((src.rest.take rem).length < len → commit dst' = .err (.incompleteBlob (len - (src.rest.take rem).length)) { dst' with live := false }) := by
  have hrem : blobRemaining src = rem := by unfold blobRemaining; omega
  have hA := allocDesc_out d len hdst.ready
  cases hr : writeBlobAllocDesc d len dst with
  | err e d' => rw [hr] at hA; have := hA.2.2 hb'; simp at hroom; omega
  | ok x d' =>
    rw [hr] at hA
    obtain ⟨w, a, -, a2⟩ := hA
    obtain ⟨k, sc, h6, h7, h8, h9⟩ := copyLoop_spec copyBuf (by decide) (src.inner.sched.length + blobRemaining src + 2) len src d' (by omega) hpe (by omega)
      (by omega) a a2
    unfold copyBlob
    cases hr2 : copyLoop copyBuf (src.inner.sched.length + blobRemaining src + 2) src d' with
    | err e st =>
      rw [hr2] at h9
      rcases h9.2.2 with ⟨-, h10, -⟩ | ⟨h10, -⟩
      · exact absurd hb h10
      · exact absurd (hb'.suffix w.sched) h10
    | ok u st =>
      rw [hr2] at h9
      obtain ⟨src', dst'⟩ := st
      obtain ⟨-, b2, b3, b4⟩ := h9
      rw [hrem] at b2
      have hk : (src.rest.take rem).length = k := by rw [List.length_take, b2]
      have htk : src.rest.take k = src.rest.take rem := by
        rw [b2, List.take_eq_take_iff]; omega
      rw [htk] at b3
      have hw := w.trans hdst.ready.within b3
      have hsp : dst'.pos + (len - k) = dst'.blobEnd := b4.span
      have hcm : dst'.commit = some .checkEnd := b4.commit
      refine ⟨d', src', dst', rfl, hr2, by rw [hw.data, splice_written hdst.within], fun h => ?_, fun h => ?_⟩
      · exact ⟨.inr ⟨hcm, by omega⟩, b4.within⟩
      · rw [hk] at h ⊢
        have hne : dst'.pos ≠ dst'.blobEnd := by omega
        have hsub : dst'.blobEnd - dst'.pos = len - k := by omega
        have hchk : checkAtEndOfBlob dst' = .err (.incompleteBlob (len - k)) dst' := by
          unfold checkAtEndOfBlob
          rw [if_pos hne, if_neg (by omega), hsub]
        simp only [commit, hcm, hchk]

/-- **C26** If the source ends in the middle of a blob, `write_field` copies what is there and returns `Ok`; the destination does not accept the incomplete blob: every further
call on it, being preceded by `commit`, fails with `IncompleteBlob` and the number of missing bytes. -/
theorem c26_truncated (f : Field) (len : Nat) (hf : f.value = .blob len) (src dst : Stream) (hi : Inv src) (hl : src.live = true) (hlen : src.blobEnd = src.pos + len)
    (hshort : (src.inner.data.drop src.inner.pos).length < len) (hb : Benign src.inner.sched) (hdst : Sink dst) (hb' : Benign dst.inner.sched)
    (hroom : dst.pos + ((Desc.pair .blob f.tag).toByte :: shortInt len).length + len + 11 ≤ U64MAX) :
    ∃ src' dst', writeField f src dst = .ok () (src', dst') ∧
      dst'.inner.data = written dst.inner.data dst.inner.pos (((Desc.pair .blob f.tag).toByte :: shortInt len) ++ src.inner.data.drop src.inner.pos) ∧
      commit dst' = .err (.incompleteBlob (len - (src.inner.data.drop src.inner.pos).length)) { dst' with live := false } := by
  obtain ⟨hc, -⟩ := hi.liveOk hl
  have hpe : src.blobEnd ≤ U64MAX := by
    rcases hi.pend with hp | hp
    · rw [hc] at hp; cases hp
    · exact hp.2.2
  obtain ⟨d', src', dst', h1, h2, h3, -, h4⟩ := copy_short (.pair .blob f.tag) len len src dst hlen hpe (Nat.le_refl _) hb hdst hb' hroom
  have ht : src.rest.take len = src.inner.data.drop src.inner.pos := List.take_of_length_le (by show src.rest.length ≤ len; exact Nat.le_of_lt hshort)
  rw [ht] at h3 h4
  refine ⟨src', dst', ?_, h3, h4 hshort⟩
  unfold writeField
  rw [hf]
  simp only [writeBlobAlloc, h1, h2]

/-- **C26** (partly read) An element with content whose handle has been used before it is passed to `write_element`: the header announces the complete length and what the handle
has not passed yet follows. Only if the handle is at the start of the content is the copy complete; otherwise the destination does not accept it. Nothing is ever copied that
reads as something else. -/
theorem c26_partly_read (tok : Tok) (data : List Byte) (hc : contentOf tok = some data) (enc l : List Byte) (ht : EncTok tok enc)
    (src dst : Stream) (hsrc : Over src (enc ++ l)) (ops : List BlobOp) (ho : ∀ o ∈ ops, o.reads) (hdst : Sink dst) (hb : Benign dst.inner.sched)
    (hroom : dst.pos + (canonTok tok).length + 11 ≤ U64MAX) :
    ∃ el s1, nextElement src = .ok el s1 ∧ ∃ n, n ≤ data.length ∧ blobRemaining (runBlobOps data.length ops s1) = n ∧
      ∃ s2 dst', writeElement el (runBlobOps data.length ops s1) dst = .ok () (s2, dst') ∧
        dst'.inner.data = written dst.inner.data dst.inner.pos
          ((canonTok tok).take ((canonTok tok).length - data.length) ++ data.drop (data.length - n)) ∧
        (n = data.length → Sink dst') ∧
        (n < data.length → commit dst' = .err (.incompleteBlob (data.length - n)) { dst' with live := false }) := by
  obtain ⟨s1, h1, h2, -⟩ := hsrc.ready.nextElement ht
  rw [hc] at h2
  obtain ⟨off, ho1, ho2⟩ := runBlobOps_at h2 rfl ops ho
  obtain ⟨c1, c2, c3⟩ := ho2.some _ rfl
  refine ⟨_, s1, h1, data.length - off, by omega, by rw [List.length_drop] at c3; unfold blobRemaining; omega, ?_⟩
  generalize runBlobOps data.length ops s1 = s at *
  rw [List.length_drop] at c3
  have hroom2 := ho2.room
  have hpos := ho2.pos
  simp only [View.curBytes, Option.getD_some, List.length_drop] at hroom2 hpos
  have hrest : s.rest.take (data.length - off) = data.drop off := by
    rw [ho2.bytes]
    simp only [View.curBytes, Option.getD_some]
    rw [List.take_append_of_le_length (by simp), List.take_of_length_le (by simp)]
  have key : ∀ d : Desc, canonTok tok = (d.toByte :: shortInt data.length) ++ data → _ := fun d he =>
    copy_short d data.length (data.length - off) s dst c3 (by omega) (by omega) ho2.ben hdst hb (by rw [he] at hroom; simp at hroom ⊢; omega)
  have fin : ∀ d : Desc, canonTok tok = (d.toByte :: shortInt data.length) ++ data →
      (∀ d' s2 dst', writeBlobAllocDesc d data.length dst = .ok () d' → copyBlob s d' = .ok () (s2, dst') →
        writeElement (elemOf src.pos src.depth tok) s dst = .ok () (s2, dst')) →
      ∃ s2 dst', writeElement (elemOf src.pos src.depth tok) s dst = .ok () (s2, dst') ∧
        dst'.inner.data = written dst.inner.data dst.inner.pos
          ((canonTok tok).take ((canonTok tok).length - data.length) ++ data.drop (data.length - (data.length - off))) ∧
        (data.length - off = data.length → Sink dst') ∧
        (data.length - off < data.length → commit dst' = .err (.incompleteBlob (data.length - (data.length - off))) { dst' with live := false }) := fun d he hw => by
    obtain ⟨d', s2, dst', g1, g2, g3, g4, g5⟩ := key d he
    rw [hrest] at g3 g4 g5
    rw [List.length_drop] at g4 g5
    refine ⟨s2, dst', hw d' s2 dst' g1 g2, ?_, g4, g5⟩
    rw [g3, he, List.length_append, Nat.add_sub_cancel, List.take_left]
    congr 3
    omega
  cases tok with
  | blob tag d =>
    cases hc
    refine fin (.pair .blob tag) ?_ ?_
    · cases ht with
      | blob htag hlead hg hl => rw [pairByte _ _ htag]; rfl
    · intro d' s2 dst' g1 g2
      simp only [elemOf, writeElement, writeField, writeBlobAlloc, g1, g2]
  | exception m =>
    cases hc
    refine fin (.special .exception) rfl ?_
    intro d' s2 dst' g1 g2
    simp only [elemOf, writeElement, writeExceptionAlloc, g1, g2]
  | _ => cases hc

/-- A blob of 3 bytes of which one has been read, and the same after seeking back. -/
example : (match nextElement (Stream.fromSlice [0x82, 3, 7, 8, 9]) with
    | .ok el s1 =>
      (match writeElement el (runBlobOps 3 [.read 1] s1) (Stream.new { data := [], pos := 0, sched := [], seekable := false }),
          writeElement el (runBlobOps 3 [.read 1, .seek (.start 0)] s1) (Stream.new { data := [], pos := 0, sched := [], seekable := false }) with
      | .ok _ st, .ok _ st' => decide (st.2.inner.data = [0x82, 3, 8, 9] ∧ commit st.2 = .err (.incompleteBlob 1) { st.2 with live := false } ∧
          st'.2.inner.data = [0x82, 3, 7, 8, 9] ∧ (match commit st'.2 with | .ok _ _ => true | .err _ _ => false) = true)
      | _, _ => false)
    | _ => false) = true := by decide +kernel

/-- A blob of 5 bytes of which 2 are there. -/
example : (match nextElement (Stream.fromSlice [0x82, 5, 7, 8]) with
    | .ok (.field f) src => (match writeField f src (Stream.new { data := [], pos := 0, sched := [], seekable := false }) with
      | .ok _ st => decide (st.2.inner.data = [0x82, 5, 7, 8] ∧ commit st.2 = .err (.incompleteBlob 3) { st.2 with live := false })
      | _ => false)
    | _ => false) = true := by decide +kernel

end Fourleaf.Props
