import Verif.BlobOps
import Verif.PropsRead
import Verif.LossyLemmas

/-! # Properties of reading element sequences: C08 (reading half), C10, C12, C13, C17, C18, C27 -/

namespace Fourleaf.Props
open Fourleaf Spec

/-! ### C18 -/

/-- A handle to a blob of length `len` has just been handed out. -/
structure Handed (len : Nat) (s : Stream) : Prop where
  span : s.pos + len = s.blobEnd
  fits : s.blobEnd ≤ U64MAX
  within : s.inner.pos ≤ s.inner.data.length

/-- Reading an element that has a blob hands out a handle. -/
theorem handed_of_nextElement {ε U α : Type} (p : Prog ε U α) (s0 : Stream) (u : U) (hs : Fresh s0) {s' : Stream} {e : Element} {len : Nat}
    (h : nextElement (p.run (s0, u)).state.1 = .ok e s') (he : e.blobLen? = some len) : Handed len s' := by
  have hi : Inv (p.run (s0, u)).state.1 := (p.run_safe (s0, u) hs.inv).step.inv
  have hsh := nextElementImpl_shape hi h
  have hst := (nextElement_safe hi).1.step.inv
  rw [h] at hst
  simp only [Res.state_ok] at hst
  unfold Shape at hsh
  rw [he] at hsh
  obtain ⟨h1, h2, h3⟩ := hsh
  refine ⟨h2.symm, ?_, (hst.liveOk h3).2⟩
  rcases hst.pend with h | ⟨-, -, h⟩
  · rw [h1] at h; cases h
  · exact h

/-- **C18** Whatever sequence `ops` of operations a client performs on a blob handle, going on after errors as it
likes: the position stays within the blob; the offset of the underlying stream moves along; no byte outside
the blob changes; the total length does not change (a blob under construction at the end of the data can grow it up to the blob's end);
and for any further operation: bytes it returns are the bytes of the blob at the current position, and a seek either goes to the asked-for place within the
blob or fails without moving. -/
theorem c18_blob_confined (len : Nat) (s0 : Stream) (h0 : Handed len s0) (ops : List BlobOp) :
    let s := runBlobOps len ops s0
    (s0.pos ≤ s.pos ∧ s.pos ≤ s0.pos + len) ∧
    s.inner.pos + s0.pos = s0.inner.pos + s.pos ∧
    (∀ i, i < s0.inner.pos ∨ s0.inner.pos + len ≤ i → s.inner.data[i]? = s0.inner.data[i]?) ∧
    (s0.inner.pos + len ≤ s0.inner.data.length → s.inner.data.length = s0.inner.data.length) ∧
    s0.inner.data.length ≤ s.inner.data.length ∧
    s.inner.data.length ≤ max s0.inner.data.length (s0.inner.pos + len) ∧
    (∀ (o : BlobOp) b s', o.exec len s = .ok (.bytes b) s' →
      b = (s.inner.data.drop s.inner.pos).take b.length ∧ s.inner.pos + b.length ≤ s0.inner.pos + len) ∧
    (∀ w e s', blobSeek len w s = .err e s' → ∃ sc, s' = { s with inner := { s.inner with sched := sc } }) ∧
    (∀ w n s', blobSeek len w s = .ok n s' → n ≤ len ∧ s'.pos = s0.pos + n ∧ s'.inner.pos = s0.inner.pos + n) := by
  intro s
  have hc : Confined len s0 s := runBlobOps_confined h0.span h0.fits h0.within ops s0 (.refl h0.span)
  have hsp := h0.span
  have hhi := hc.high
  have hoff := hc.off
  have hgr := hc.grow
  have hlow := hc.low
  have hlen : ∀ (a b : List Byte) (n : Nat), b.length ≤ a.length → (∀ i, n ≤ i → a[i]? = b[i]?) → a.length ≤ max b.length n := by
    intro a b n hab h
    rcases Nat.lt_or_ge n a.length with hn | hn
    · by_cases hb : b.length < a.length
      · have hmax : n ≤ max b.length n := Nat.le_max_right _ _
        rcases Nat.lt_or_ge (max b.length n) a.length with hm | hm
        · have := h _ hmax
          rw [List.getElem?_eq_getElem hm, List.getElem?_eq_none (Nat.le_max_left _ _)] at this
          cases this
        · exact hm
      · omega
    · omega
  have hle := hlen _ _ _ hgr (fun i hi => hc.outside i (.inr hi))
  refine ⟨⟨hlow, by omega⟩, hoff, hc.outside, fun h => by omega, hgr, hle, ?_, ?_, ?_⟩
  · intro o b s' h
    obtain ⟨h1, h2⟩ := (o.exec_confined hc h0.span h0.fits h0.within).2 _ _ h
    rw [hc.blobEnd] at h2
    exact ⟨h1, by omega⟩
  · intro w e s' h; exact ⟨_, (blobSeek_confined w hc h0.span).2.1 e s' h⟩
  · intro w n s' h
    obtain ⟨h1, h2, h3⟩ := blobSeek_confined w hc h0.span
    obtain ⟨h4, h5⟩ := h3 n s' h
    rw [h] at h1
    have := h1.off
    simp only [Res.state_ok] at this
    exact ⟨h4, h5, by omega⟩

/-- The target of a seek, as documented. -/
theorem c18_seek_start (len : Nat) (s0 : Stream) (h0 : Handed len s0) (ops : List BlobOp) (p : Nat) (n : Nat) (s' : Stream)
    (h : blobSeek len (.start p) (runBlobOps len ops s0) = .ok n s') : n = p ∧ p ≤ len := by
  have hc : Confined len s0 (runBlobOps len ops s0) := runBlobOps_confined h0.span h0.fits h0.within ops s0 (.refl h0.span)
  obtain ⟨h4, h5⟩ := (blobSeek_confined _ hc h0.span).2.2 n s' h
  generalize runBlobOps len ops s0 = s at *
  have hsp := h0.span
  have hbe := hc.blobEnd
  have hlo := hc.low
  have hhi := hc.high
  by_cases hp : p ≤ len
  · refine ⟨?_, hp⟩
    have ht : blobSeekTarget len (.start p) s = some (s.blobEnd - len + p) := by simp [blobSeekTarget, hp]
    unfold blobSeek at h
    rw [ht] at h
    simp only at h
    have fin : ∀ {off : Int} {q : Nat}, (do
          let _ ← innerSeek (.current off)
          M.modify fun s => { s with pos := q }
          let s ← M.get
          pure (len - blobRemaining s) : M Err Stream Nat) s = .ok n s' → s'.pos = q := by
      intro off q h
      cases hr : innerSeek (.current off) s with
      | err e s2 => rw [M.bind_err hr] at h; cases h
      | ok x s2 => rw [M.bind_ok hr, M.bind_ok (M.modify_apply _ _), M.bind_ok (M.get_apply _), M.pure_apply] at h; cases h; rfl
    have hin : ∀ {off : Int}, ∀ x s2, innerSeek (.current off) s = .ok x s2 → s2.pos = s.pos := by
      intro off x s2 h
      unfold innerSeek at h
      split at h <;> cases h
      rfl
    split at h
    · split at h
      · cases h
      · cases hr : innerSeek (.current (-((s.pos - (s.blobEnd - len + p) : Nat) : Int))) s with
        | err e s2 => rw [M.bind_err hr] at h; cases h
        | ok x s2 =>
          rw [M.bind_ok hr, M.bind_ok (M.modify_apply _ _), M.bind_ok (M.get_apply _), M.pure_apply] at h
          cases h
          have := hin _ _ hr
          simp only at h5
          omega
    · split at h
      · cases h
      · cases hr : innerSeek (.current ((((s.blobEnd - len + p) - s.pos : Nat) : Int))) s with
        | err e s2 => rw [M.bind_err hr] at h; cases h
        | ok x s2 =>
          rw [M.bind_ok hr, M.bind_ok (M.modify_apply _ _), M.bind_ok (M.get_apply _), M.pure_apply] at h
          cases h
          have := hin _ _ hr
          simp only at h5
          omega
  · have ht : blobSeekTarget len (.start p) s = none := by simp [blobSeekTarget, hp]
    unfold blobSeek at h
    rw [ht] at h
    cases h

/-- A blob in the middle of data, written to and seeked in with extreme arguments. -/
def c18Start : Stream := { Stream.fromSlice [0x81, 3, 1, 2, 3, 0x41, 7] with
  pos := 2, blobEnd := 5, depth := 1, commit := some .skipBlob, live := true,
  inner := { data := [0x81, 3, 1, 2, 3, 0x41, 7], pos := 2, sched := [], seekable := true } }
example : Handed 3 c18Start := ⟨by decide, by decide, by decide⟩
example : nextElement (Stream.fromSlice [0x81, 3, 1, 2, 3, 0x41, 7]) = .ok (.field ⟨1, 0, 1, .blob 3⟩) c18Start := by decide +kernel
example : (runBlobOps 3 [.write [9], .seek (.fromEnd (-1)), .write [8, 8, 8, 8], .seek (.current 9223372036854775807),
    .seek (.current (-9223372036854775808)), .seek (.start 1), .readFully 10] c18Start).inner.data = [0x81, 3, 9, 2, 8, 0x41, 7] := by
  decide +kernel

/-! ### Visiting the elements one by one -/

/-- The stream is before the bytes `l` (after skipping what is left of a blob) at position `p` and depth `d`. -/
def Ready (s : Stream) (p d : Nat) (e : Bool) (l : List Byte) : Prop :=
  ∃ v, At s v ∧ v.eof = e ∧ v.flush.pos = p ∧ v.depth = d ∧ v.rest = l

/-- A stream over the given bytes with nothing pending, whose reader makes no errors (it may
split and interrupt). -/
structure Over (s : Stream) (bytes : List Byte) : Prop where
  fresh : Fresh s
  benign : Benign s.inner.sched
  within : s.inner.pos ≤ s.inner.data.length
  rest : s.inner.data.drop s.inner.pos = bytes
  room : s.pos + bytes.length ≤ U64MAX

theorem Over.at_ {s : Stream} {l : List Byte} (h : Over s l) : At s ⟨s.pos, s.depth, false, none, l⟩ := by
  refine ⟨h.fresh.inv, h.benign, rfl, rfl, h.fresh.eof, h.rest, h.within, ?_, fun _ => h.fresh.commit, fun c hc => by cases hc⟩
  simpa [View.curBytes] using h.room

theorem Over.ready {s : Stream} {l : List Byte} (h : Over s l) : Ready s s.pos s.depth false l :=
  ⟨_, h.at_, rfl, by simp [View.flush, View.curBytes], rfl, rfl⟩

theorem over_fromSlice (l : List Byte) (h : l.length ≤ U64MAX) : Over (Stream.fromSlice l) l :=
  ⟨fresh_fromSlice l, by unfold Benign; simp [Stream.fromSlice, Stream.newSeek, Stream.new], Nat.zero_le _, rfl, by
    show 0 + l.length ≤ U64MAX
    omega⟩

theorem Ready.depth {s : Stream} {p d : Nat} {e : Bool} {l : List Byte} (h : Ready s p d e l) : s.depth = d := by
  obtain ⟨v, h1, -, -, h2, -⟩ := h; rw [h1.depth, h2]

theorem after_flush_pos (v : View) (tok : Tok) (enc l : List Byte) (h : ((contentOf tok).getD []).length ≤ enc.length) :
    (v.flush.after tok enc.length l).flush.pos = v.flush.pos + enc.length := by
  simp only [View.after, View.flush, View.curBytes]
  omega

theorem content_le {tok : Tok} {enc : List Byte} (h : EncTok tok enc) : ((contentOf tok).getD []).length ≤ enc.length := by
  cases h <;> simp [contentOf] <;> omega

theorem Ready.nextElement {s : Stream} {p d : Nat} {tok : Tok} {enc l : List Byte} (h : Ready s p d false (enc ++ l))
    (ht : EncTok tok enc) :
    ∃ s', Fourleaf.nextElement s = .ok (elemOf p d tok) s' ∧ At s' ⟨p + (enc.length - ((contentOf tok).getD []).length), tok.depthAfter d,
      decide (tok = .endDoc), contentOf tok, l⟩ ∧ Ready s' (p + enc.length) (tok.depthAfter d) (decide (tok = .endDoc)) l := by
  obtain ⟨v, h1, h2, h3, h4, h5⟩ := h
  obtain ⟨s', h6, h7⟩ := nextElement_at h1 h2 ht h5
  have e : v.flush.after tok enc.length l = ⟨p + (enc.length - ((contentOf tok).getD []).length), tok.depthAfter d,
      decide (tok = .endDoc), contentOf tok, l⟩ := by
    simp only [View.after, h3]
    rw [show v.flush.depth = d from h4]
  refine ⟨s', by rw [h6, h3, h4], e ▸ h7, _, h7, rfl, ?_, ?_, rfl⟩
  · rw [after_flush_pos v tok enc l (content_le ht), h3]
  · rw [e]

theorem Ready.clearEof {s : Stream} {p d : Nat} {e : Bool} {l : List Byte} (h : Ready s p d e l) :
    Ready { s with eof := false } p d false l := by
  obtain ⟨v, h1, h2, h3, h4, h5⟩ := h
  refine ⟨{ v with eof := false }, ⟨⟨h1.inv.pos_le, h1.inv.pend, (fun h => by cases h), (fun h => by cases h), h1.inv.liveOk⟩, h1.ben, h1.pos, h1.depth, rfl, h1.bytes, h1.within, h1.room, h1.none, h1.some⟩, rfl, h3, h4, h5⟩

/-- What the client does after `next_element` returned `e`: it clears the end flag after an end of document, and does
`ops` with a blob. -/
def afterVisit (ops : List BlobOp) (e : Element) (s : Stream) : Stream :=
  if e = .endOfDoc then { s with eof := false }
  else
    match e.blobLen? with
    | some len => runBlobOps len ops s
    | none => s

/-- A client that reads one element after the other with `next_element`, does what it likes with the blobs
(`ops` says what, element by element) and clears the end flag after an end of document. -/
def visitAll : List (List BlobOp) → M Err Stream (List Element)
  | [] => pure []
  | ops :: rest => do
    let e ← nextElement
    M.modify (afterVisit ops e)
    let es ← visitAll rest
    pure (e :: es)

/-- The elements a client should see, from position `p` and depth `d` on, for tokens with their spellings. -/
def expected : Nat → Nat → List (Tok × List Byte) → List Element
  | _, _, [] => []
  | p, d, (t, bs) :: ts => elemOf p d t :: expected (p + bs.length) (t.depthAfter d) ts

/-- Depth after a list of tokens. -/
def depthAfterAll (d : Nat) (ts : List Tok) : Nat := ts.foldl Tok.depthAfter d

theorem blobLen_elemOf (p d : Nat) (t : Tok) : (elemOf p d t).blobLen? = (contentOf t).map List.length := by
  cases t <;> rfl

theorem elemOf_endOfDoc (p d : Nat) (t : Tok) : elemOf p d t = .endOfDoc ↔ t = .endDoc := by
  cases t <;> simp [elemOf]

theorem visit_step {s : Stream} {p d : Nat} {tok : Tok} {enc l : List Byte} (h : Ready s p d false (enc ++ l))
    (ht : EncTok tok enc) (ops : List BlobOp) (ho : ∀ o ∈ ops, o.reads) :
    ∃ s', Fourleaf.nextElement s = .ok (elemOf p d tok) s' ∧
      Ready (afterVisit ops (elemOf p d tok) s') (p + enc.length) (tok.depthAfter d) false l := by
  obtain ⟨s1, h1, h2, h3⟩ := h.nextElement ht
  refine ⟨s1, h1, ?_⟩
  unfold afterVisit
  by_cases he : tok = .endDoc
  · subst he
    rw [if_pos (by rfl)]
    exact h3.clearEof
  · rw [if_neg (fun h => he ((elemOf_endOfDoc p d tok).1 h)), blobLen_elemOf]
    rw [decide_eq_false he] at h2 h3
    cases hc : contentOf tok with
    | none => exact h3
    | some data =>
      simp only [Option.map_some]
      obtain ⟨off, h4, h5⟩ := runBlobOps_at h2 hc ops ho
      refine ⟨_, h5, rfl, ?_, rfl, rfl⟩
      have := content_le ht
      rw [hc] at this
      simp only [View.flush, View.curBytes, hc, Option.getD_some] at this ⊢
      simp; omega

theorem visitAll_ready : ∀ (ps : List (Tok × List Byte)) (opss : List (List BlobOp)) (s : Stream) (p d : Nat) (l : List Byte),
    (∀ x ∈ ps, EncTok x.1 x.2) → opss.length = ps.length → (∀ ops ∈ opss, ∀ o ∈ ops, o.reads) →
    Ready s p d false (ps.flatMap (·.2) ++ l) →
    ∃ s', visitAll opss s = .ok (expected p d ps) s' ∧
      Ready s' (p + (ps.flatMap (·.2)).length) (depthAfterAll d (ps.map (·.1))) false l := by
  intro ps
  induction ps with
  | nil =>
    intro opss s p d l _ hl _ h
    cases opss with
    | nil => exact ⟨s, rfl, by simpa [depthAfterAll] using h⟩
    | cons => simp at hl
  | cons x ps ih =>
    intro opss s p d l hx hl ho h
    cases opss with
    | nil => simp at hl
    | cons ops opss =>
      obtain ⟨t, bs⟩ := x
      simp only [List.flatMap_cons, List.append_assoc] at h
      obtain ⟨s1, h1, h2⟩ := visit_step h (hx (t, bs) (by simp)) ops (ho ops (by simp))
      obtain ⟨s2, h3, h4⟩ := ih opss _ _ _ l (fun y hy => hx y (by simp [hy])) (by simpa using hl)
        (fun q hq => ho q (by simp [hq])) h2
      refine ⟨s2, ?_, ?_⟩
      · simp only [visitAll]
        rw [M.bind_ok h1, M.bind_ok (M.modify_apply _ _), M.bind_ok h3]; rfl
      · simpa [depthAfterAll, Nat.add_assoc] using h4

/-- **C10, C12** A client reading with `next_element` gets exactly the elements of the input, each with its own offset and depth,
whatever it reads of, slices, or seeks in the blobs it gets (`opss`: what it does with each), for any spelling of the
elements, any chunking of the reader, seekable or not. In particular the element after a blob is the next one read. -/
theorem c10_elements_in_order (s : Stream) (ps : List (Tok × List Byte)) (l : List Byte) (hs : Over s (ps.flatMap (·.2) ++ l))
    (hps : ∀ x ∈ ps, EncTok x.1 x.2) (opss : List (List BlobOp)) (hl : opss.length = ps.length)
    (ho : ∀ ops ∈ opss, ∀ o ∈ ops, o.reads) :
    ∃ s', visitAll opss s = .ok (expected s.pos s.depth ps) s' ∧ s'.depth = depthAfterAll s.depth (ps.map (·.1)) := by
  obtain ⟨s', h1, h2⟩ := visitAll_ready ps opss s _ _ l hps hl ho hs.ready
  exact ⟨s', h1, h2.depth⟩

/-- Three elements, the blob spelled with an overlong length. -/
def c10Pieces : List (Tok × List Byte) :=
  [(.struct 5, [0xC5]), (.blob 1 [7, 8, 9], [0x81, 0x83, 0x80, 0x00, 7, 8, 9]), (.endStruct, [0x00]), (.int 2 1, [0x42, 1])]
example : ∀ x ∈ c10Pieces, EncTok x.1 x.2 := by
  intro x hx
  simp only [c10Pieces, List.mem_cons, List.not_mem_nil, or_false] at hx
  rcases hx with rfl | rfl | rfl | rfl
  · exact .struct (by decide) rfl
  · exact EncTok.blob (g := [0x83, 0x80, 0x00]) (by decide) rfl ⟨by unfold IsGroup; decide, by decide, by decide⟩ (by decide)
  · exact .endStruct
  · exact .int (by decide) rfl ⟨by unfold IsGroup; decide, by decide, by decide⟩
example : Over (Stream.fromSlice (c10Pieces.flatMap (·.2))) (c10Pieces.flatMap (·.2) ++ []) := over_fromSlice _ (by decide)
example : visitAll [[], [.readOrTrunc 1, .seek (.fromEnd 0), .seek (.start 1)], [], []] (Stream.fromSlice (c10Pieces.flatMap (·.2)))
    = .ok [.field ⟨5, 0, 1, .struct⟩, .field ⟨1, 1, 2, .blob 3⟩, .endOfStruct, .field ⟨2, 9, 1, .int 1⟩]
      { Stream.fromSlice (c10Pieces.flatMap (·.2)) with
        inner := { data := c10Pieces.flatMap (·.2), pos := 11, sched := [], seekable := true }, pos := 11, depth := 1, blobEnd := 8 } := by
  decide +kernel

/-- The parts of a field token. -/
def Spec.Tok.tag? : Tok → Option (UInt8 × Bool)
  | .int t _ | .blob t _ => some (t, false)
  | .struct t | .enum t _ => some (t, true)
  | _ => none

theorem Ready.nextField {s : Stream} {p d n : Nat} {tok : Tok} {enc l : List Byte}
    (h : Ready s p d false (List.replicate n 0xC0 ++ enc ++ l)) (ht : EncTok tok enc) (hp : tok ≠ .padding) (hx : ∀ m, tok ≠ .exception m) :
    ∃ s', Fourleaf.nextField s = .ok (fieldOf (p + n) d tok) s' ∧
      At s' ⟨p + n + (enc.length - ((contentOf tok).getD []).length), tok.depthAfter d, decide (tok = .endDoc), contentOf tok, l⟩ ∧
      Ready s' (p + n + enc.length) (tok.depthAfter d) (decide (tok = .endDoc)) l := by
  obtain ⟨v, h1, h2, h3, h4, h5⟩ := h
  obtain ⟨s', h6, h7⟩ := nextField_at h1 h2 ht hp hx h5
  have e : (View.after { v.flush with pos := v.flush.pos + n } tok enc.length l) =
      ⟨p + n + (enc.length - ((contentOf tok).getD []).length), tok.depthAfter d, decide (tok = .endDoc), contentOf tok, l⟩ := by
    simp only [View.after, h3]
    rw [show v.flush.depth = d from h4]
  refine ⟨s', by rw [h6, h3, h4], e ▸ h7, _, h7, rfl, ?_, ?_, rfl⟩
  · rw [e]
    have := content_le ht
    simp only [View.flush, View.curBytes]
    omega
  · rw [e]

/-- **C12** After any part `pre` of the input has been read (blobs used in whatever way), `next_field` on a field, padded or not,
reports the offset of the field's descriptor and the number of open structs (at least the document itself), and
`struct_depth` afterwards is that number, plus one exactly if the field opens a struct or enum. -/
theorem c12_field_pos_depth (s : Stream) (pre : List (Tok × List Byte)) (n : Nat) (tok : Tok) (enc l : List Byte)
    (hs : Over s (pre.flatMap (·.2) ++ (List.replicate n 0xC0 ++ enc ++ l))) (hpre : ∀ x ∈ pre, EncTok x.1 x.2) (ht : EncTok tok enc)
    (tag : UInt8) (opens : Bool) (hf : Spec.Tok.tag? tok = some (tag, opens))
    (opss : List (List BlobOp)) (hl : opss.length = pre.length) (ho : ∀ ops ∈ opss, ∀ o ∈ ops, o.reads) :
    ∃ es s1 f s2, visitAll opss s = .ok es s1 ∧ nextField s1 = .ok (some f) s2 ∧
      f.tag = tag ∧ f.pos = s.pos + (pre.flatMap (·.2)).length + n ∧
      f.depth = max (depthAfterAll s.depth (pre.map (·.1))) 1 ∧ s2.depth = f.depth + opens.toNat := by
  obtain ⟨s1, h1, h2⟩ := visitAll_ready pre opss s _ _ _ hpre hl ho hs.ready
  obtain ⟨s2, h3, -, h4⟩ := h2.nextField ht (by rintro rfl; cases hf) (by rintro m rfl; cases hf)
  have hd := h4.depth
  cases tok <;> first
    | (cases hf; done)
    | (cases hf; exact ⟨_, s1, _, s2, h1, h3, rfl, rfl, rfl, by rw [hd]; rfl⟩)

/-- Number of struct or enum openings, and of closings, in a list of tokens. -/
def opens (ts : List Tok) : Nat := ts.countP fun t => match t with | .struct _ | .enum .. => true | _ => false
def closes (ts : List Tok) : Nat := ts.countP fun t => match t with | .endStruct => true | _ => false

/-- **C12** The depth is the number of structs currently open, plus one for the document: within one document, after a first field, as
long as no more structs have been closed than opened. -/
theorem c12_depth_counts (t : Tok) (ts : List Tok) (h1 : (Spec.Tok.tag? t).isSome) (h2 : ∀ k, closes ((t :: ts).take k) ≤ opens ((t :: ts).take k))
    (h3 : Tok.endDoc ∉ ts) : depthAfterAll 0 (t :: ts) = opens (t :: ts) - closes (t :: ts) + 1 := by
  have key : ∀ (ts : List Tok) (d : Nat), 1 ≤ d → (∀ k, closes (ts.take k) < opens (ts.take k) + d) → Tok.endDoc ∉ ts →
      depthAfterAll d ts = d + opens ts - closes ts := by
    intro ts
    induction ts with
    | nil => intro d _ _ _; simp [depthAfterAll, opens, closes]
    | cons x xs ih =>
      intro d hd hk hn
      have hx := fun k => hk (k + 1)
      have h1 := hk 1
      simp only [List.mem_cons, not_or] at hn
      simp only [List.take_succ_cons, opens, closes, List.countP_cons] at hx h1
      simp only [List.take_zero, List.countP_nil] at h1
      simp only [depthAfterAll, List.foldl_cons, opens, closes, List.countP_cons] at ih ⊢
      cases x <;> simp only [Tok.depthAfter, Bool.false_eq_true, if_false, if_true] at hx h1 ⊢
      case int => rw [ih _ (by omega) (fun k => by have := hx k; omega) hn.2]; omega
      case blob => rw [ih _ (by omega) (fun k => by have := hx k; omega) hn.2]; omega
      case struct => rw [ih _ (by omega) (fun k => by have := hx k; omega) hn.2]; omega
      case enum => rw [ih _ (by omega) (fun k => by have := hx k; omega) hn.2]; omega
      case endStruct => rw [ih _ (by omega) (fun k => by have := hx k; omega) hn.2]; omega
      case endDoc => exact absurd rfl hn.1
      case exception => rw [ih _ (by omega) (fun k => by have := hx k; omega) hn.2]; omega
      case padding => rw [ih _ (by omega) (fun k => by have := hx k; omega) hn.2]; omega
  have hx := fun k => h2 (k + 1)
  simp only [List.take_succ_cons, opens, closes, List.countP_cons] at hx
  have hfull := h2 (ts.length + 1)
  rw [List.take_of_length_le (by simp)] at hfull
  simp only [depthAfterAll, List.foldl_cons, opens, closes, List.countP_cons] at key hfull ⊢
  cases t <;> simp only [Spec.Tok.tag?, Option.isSome, Bool.false_eq_true] at h1 <;>
    simp only [Tok.depthAfter, Bool.false_eq_true, if_false, if_true] at hx hfull ⊢ <;>
    rw [key ts _ (by omega) (fun k => by have := hx k; omega) h3] <;> omega

example : depthAfterAll 0 [.int 1 2, .struct 3, .enum 1 1, .endStruct] = 2 := by decide

/-! ### C27, C13 -/

/-- `skip_up` reads up to and including the first element after which the depth is at most `d`. -/
theorem skipUpLoop_ready (D : Nat) : ∀ (ps : List (Tok × List Byte)) (fuel : Nat) (s : Stream) (p d : Nat) (l : List Byte),
    (∀ x ∈ ps, EncTok x.1 x.2) → (∀ k, k < ps.length → D < depthAfterAll d ((ps.take k).map (·.1))) →
    depthAfterAll d (ps.map (·.1)) ≤ D → ps.length < fuel → Ready s p d false (ps.flatMap (·.2) ++ l) →
    ∃ s', skipUpLoop D fuel s = .ok () s' ∧
      Ready s' (p + (ps.flatMap (·.2)).length) (depthAfterAll d (ps.map (·.1)))
        (decide ((ps.map (·.1)).getLast? = some Tok.endDoc)) l := by
  intro ps
  induction ps with
  | nil =>
    intro fuel s p d l _ _ h2 hf h
    cases fuel with
    | zero => omega
    | succ fuel =>
      refine ⟨s, ?_, by simpa [depthAfterAll] using h⟩
      rw [skipUpLoop, if_neg (by rw [h.depth]; simp [depthAfterAll] at h2; omega)]
  | cons x ps ih =>
    intro fuel s p d l hx h1 h2 hf h
    cases fuel with
    | zero => omega
    | succ fuel =>
      obtain ⟨t, bs⟩ := x
      simp only [List.flatMap_cons, List.append_assoc] at h
      obtain ⟨s1, h3, -, h4⟩ := h.nextElement (hx (t, bs) (by simp))
      have hgt := h1 0 (by simp)
      simp only [depthAfterAll, List.take_zero, List.map_nil, List.foldl_nil] at hgt
      rw [skipUpLoop, if_pos (by rw [h.depth]; exact hgt), M.bind_ok h3]
      cases ps with
      | nil =>
        simp only [List.map_cons, List.map_nil, depthAfterAll, List.foldl_cons, List.foldl_nil] at h2
        cases fuel with
        | zero => simp at hf
        | succ fuel =>
          refine ⟨s1, ?_, ?_⟩
          · rw [skipUpLoop, if_neg (by rw [h4.depth]; simp only at h2 ⊢; omega)]
          · simpa [depthAfterAll] using h4
      | cons y ys =>
        have hne : t ≠ .endDoc := by
          rintro rfl
          have := h1 1 (by simp)
          simp [depthAfterAll, Tok.depthAfter] at this
        rw [decide_eq_false hne] at h4
        obtain ⟨s2, h5, h6⟩ := ih fuel s1 _ _ l (fun y hy => hx y (by simp [hy]))
          (fun k hk => by simpa [depthAfterAll] using h1 (k + 1) (by simpa using hk))
          (by simpa [depthAfterAll] using h2) (by simpa using hf) h4
        refine ⟨s2, h5, ?_⟩
        simpa [depthAfterAll, Nat.add_assoc] using h6

theorem flatMap_length_ge (ps : List (Tok × List Byte)) (h : ∀ x ∈ ps, EncTok x.1 x.2) : ps.length ≤ (ps.flatMap (·.2)).length := by
  induction ps with
  | nil => simp
  | cons x ps ih =>
    have h1 := (h x (by simp)).ne_nil
    have h2 := ih fun y hy => h y (by simp [hy])
    simp only [List.length_cons, List.flatMap_cons, List.length_append]; omega

theorem Ready.skipUp {s : Stream} {p d : Nat} (D : Nat) (ps : List (Tok × List Byte)) (l : List Byte)
    (h : Ready s p d false (ps.flatMap (·.2) ++ l)) (hx : ∀ x ∈ ps, EncTok x.1 x.2)
    (h1 : ∀ k, k < ps.length → D < depthAfterAll d ((ps.take k).map (·.1)))
    (h2 : depthAfterAll d (ps.map (·.1)) ≤ D) :
    ∃ s', Fourleaf.skipUp D s = .ok () s' ∧
      Ready s' (p + (ps.flatMap (·.2)).length) (depthAfterAll d (ps.map (·.1)))
        (decide ((ps.map (·.1)).getLast? = some Tok.endDoc)) l := by
  unfold Fourleaf.skipUp
  refine skipUpLoop_ready D ps _ s p d l hx h1 h2 ?_ h
  have hl := flatMap_length_ge ps hx
  obtain ⟨v, g1, -, -, -, g5⟩ := h
  have := g1.bytes
  rw [g5] at this
  have hr := rest_length s
  rw [this] at hr
  simp only [List.length_append] at hr
  have hw := g1.within
  omega

/-- What the stream yields next: the element `tok` if the input continues with a spelling of it. -/
def YieldsNext (s : Stream) (p d : Nat) (l : List Byte) : Prop :=
  ∀ tok enc l', EncTok tok enc → l = enc ++ l' → ∃ s', nextElement s = .ok (elemOf p d tok) s'

theorem Ready.yields {s : Stream} {p d : Nat} {l : List Byte} (h : Ready s p d false l) : YieldsNext s p d l := by
  intro tok enc l' ht hl
  subst hl
  obtain ⟨s', h1, -⟩ := h.nextElement ht
  exact ⟨s', h1⟩

/-- **C27** `skip_up(D)`, after any part `pre` of the input has been read: with `ps` the elements up to the first after which the depth
is at most `D`, it succeeds, consumes exactly `ps` (with whatever nesting, blobs, exceptions, padding), leaves `struct_depth() ≤ D` and, unless that element ended the
document, the next element is the one after `ps`. -/
theorem c27_skip_up (s : Stream) (pre ps : List (Tok × List Byte)) (l : List Byte) (D : Nat)
    (hs : Over s (pre.flatMap (·.2) ++ (ps.flatMap (·.2) ++ l))) (hpre : ∀ x ∈ pre, EncTok x.1 x.2) (hps : ∀ x ∈ ps, EncTok x.1 x.2)
    (opss : List (List BlobOp)) (hl : opss.length = pre.length) (ho : ∀ ops ∈ opss, ∀ o ∈ ops, o.reads)
    (hfirst : ∀ k, k < ps.length → D < depthAfterAll s.depth ((pre ++ ps.take k).map (·.1)))
    (hreach : depthAfterAll s.depth ((pre ++ ps).map (·.1)) ≤ D) :
    ∃ es s1 s2, visitAll opss s = .ok es s1 ∧ skipUp D s1 = .ok () s2 ∧
      s2.depth = depthAfterAll s.depth ((pre ++ ps).map (·.1)) ∧ s2.depth ≤ D ∧
      s2.eof = decide ((ps.map (·.1)).getLast? = some Tok.endDoc) ∧
      (s2.eof = false → YieldsNext s2 (s.pos + (pre.flatMap (·.2)).length + (ps.flatMap (·.2)).length) s2.depth l) := by
  obtain ⟨s1, h1, h2⟩ := visitAll_ready pre opss s _ _ _ hpre hl ho hs.ready
  have hcat : ∀ qs : List (Tok × List Byte), depthAfterAll s.depth ((pre ++ qs).map (·.1)) =
      depthAfterAll (depthAfterAll s.depth (pre.map (·.1))) (qs.map (·.1)) := by
    intro qs; simp [depthAfterAll, List.foldl_append]
  obtain ⟨s2, h3, h4⟩ := h2.skipUp D ps l hps (fun k hk => by rw [← hcat]; exact hfirst k hk) (by rw [← hcat]; exact hreach)
  rw [← hcat] at h4
  have he : s2.eof = decide ((ps.map (·.1)).getLast? = some Tok.endDoc) := by
    obtain ⟨v, g1, g2, -⟩ := h4; rw [g1.eof, g2]
  refine ⟨_, s1, s2, h1, h3, h4.depth, by rw [h4.depth]; exact hreach, he, ?_⟩
  intro hf
  rw [← he, hf] at h4
  rw [h4.depth]
  exact h4.yields

/-- `skip_up(1)` from within two nested structs with a blob and padding in them. -/
example : (do let _ ← visitAll [[], []]; skipUp 1; nextElement : M Err Stream Element)
    (Stream.fromSlice [0xC1, 0x05, 0x09, 0x82, 2, 0x40, 0x00, 0xC0, 0x00, 0x41, 1, 0x00, 0x42, 7]) =
    .ok (.field ⟨2, 12, 1, .int 7⟩)
    { Stream.fromSlice [0xC1, 0x05, 0x09, 0x82, 2, 0x40, 0x00, 0xC0, 0x00, 0x41, 1, 0x00, 0x42, 7] with
      pos := 14, depth := 1, blobEnd := 7,
      inner := ⟨[0xC1, 0x05, 0x09, 0x82, 2, 0x40, 0x00, 0xC0, 0x00, 0x41, 1, 0x00, 0x42, 7], 14, [], true⟩ } := by decide +kernel

mutual
/-- The elements of one complete field: a struct or enum comes with everything up to its end. -/
inductive FieldToks : List Tok → Prop where
  | int (tag n) : FieldToks [.int tag n]
  | blob (tag data) : FieldToks [.blob tag data]
  | struct {body} (tag) : BodyToks body → FieldToks (.struct tag :: body ++ [.endStruct])
  | enum {body} (tag disc) : BodyToks body → FieldToks (.enum tag disc :: body ++ [.endStruct])
/-- The elements within a struct: complete fields, exceptions, padding. -/
inductive BodyToks : List Tok → Prop where
  | nil : BodyToks []
  | field {f rest} : FieldToks f → BodyToks rest → BodyToks (f ++ rest)
  | exception {rest} (msg) : BodyToks rest → BodyToks (.exception msg :: rest)
  | padding {rest} : BodyToks rest → BodyToks (.padding :: rest)
end

theorem depthAfterAll_append (d : Nat) (a b : List Tok) : depthAfterAll d (a ++ b) = depthAfterAll (depthAfterAll d a) b := by
  simp [depthAfterAll, List.foldl_append]

/-- All prefixes of `ts` keep the depth at least at `d`, and `ts` as a whole returns to it. -/
structure Balanced (d : Nat) (ts : List Tok) : Prop where
  ge : ∀ k, d ≤ depthAfterAll d (ts.take k)
  eq : depthAfterAll d ts = d

theorem Balanced.append {d : Nat} {a b : List Tok} (ha : Balanced d a) (hb : Balanced d b) : Balanced d (a ++ b) := by
  refine ⟨fun k => ?_, by rw [depthAfterAll_append, ha.eq, hb.eq]⟩
  rw [List.take_append, depthAfterAll_append]
  rcases Nat.le_total k a.length with h | h
  · rw [show k - a.length = 0 by omega]
    simpa [depthAfterAll] using ha.ge k
  · rw [List.take_of_length_le h, ha.eq]; exact hb.ge _

theorem Balanced.single {d : Nat} {t : Tok} (h : t.depthAfter d = d) : Balanced d [t] := by
  refine ⟨fun k => ?_, by simpa [depthAfterAll] using h⟩
  cases k with
  | zero => simp [depthAfterAll]
  | succ k => simp [depthAfterAll, h]

theorem Balanced.wrap {d : Nat} {t : Tok} {body : List Tok} (h : t.depthAfter d = d + 1) (hb : Balanced (d + 1) body) :
    Balanced d (t :: body ++ [.endStruct]) := by
  have hE : depthAfterAll d (t :: body ++ [.endStruct]) = d := by
    rw [List.cons_append, depthAfterAll, List.foldl_cons, h]
    show depthAfterAll (d + 1) (body ++ _) = d
    rw [depthAfterAll_append, hb.eq]; rfl
  refine ⟨fun k => ?_, hE⟩
  cases k with
  | zero => simp [depthAfterAll]
  | succ k =>
    rw [List.cons_append, List.take_succ_cons, depthAfterAll, List.foldl_cons, h]
    show d ≤ depthAfterAll (d + 1) _
    rw [List.take_append, depthAfterAll_append]
    have := hb.ge k
    rcases Nat.le_total k body.length with hk | hk
    · rw [show k - body.length = 0 by omega]
      simp only [depthAfterAll, List.take_zero, List.foldl_nil] at this ⊢
      omega
    · rw [List.take_of_length_le hk, hb.eq]
      cases hj : k - body.length with
      | zero => simp [depthAfterAll]
      | succ j => simp [depthAfterAll, Tok.depthAfter]

mutual
theorem FieldToks.balanced : ∀ {ts : List Tok}, FieldToks ts → ∀ d, 1 ≤ d → Balanced d ts
  | _, .int tag n, d, hd => .single (by simp [Tok.depthAfter]; omega)
  | _, .blob tag data, d, hd => .single (by simp [Tok.depthAfter]; omega)
  | _, .struct tag hb, d, hd => .wrap (by simp [Tok.depthAfter]; omega) (hb.balanced (d + 1) (by omega))
  | _, .enum tag disc hb, d, hd => .wrap (by simp [Tok.depthAfter]; omega) (hb.balanced (d + 1) (by omega))
theorem BodyToks.balanced : ∀ {ts : List Tok}, BodyToks ts → ∀ d, 1 ≤ d → Balanced d ts
  | _, .nil, d, hd => ⟨fun k => by simp [depthAfterAll], rfl⟩
  | _, .field hf hb, d, hd => (hf.balanced d hd).append (hb.balanced d hd)
  | _, .exception msg hb, d, hd => Balanced.append (a := [.exception msg]) (.single rfl) (hb.balanced d hd)
  | _, .padding hb, d, hd => Balanced.append (a := [.padding]) (.single rfl) (hb.balanced d hd)
end

theorem spelled_split {a b : List Tok} {ps : List (Tok × List Byte)} (h : ps.map (·.1) = a ++ b) :
    ∃ pa pb, ps = pa ++ pb ∧ pa.map (·.1) = a ∧ pb.map (·.1) = b := by
  refine ⟨ps.take a.length, ps.drop a.length, (List.take_append_drop _ _).symm, ?_, ?_⟩
  · rw [List.map_take, h]; simp
  · rw [List.map_drop, h]; simp

/-- **C13** Any client state reached by reading part `pre` of the input; the next field, possibly after padding, is spelled by `fs` (for a struct or enum: everything up
to its end, with arbitrary nesting, blobs, exceptions, padding inside). After `next_field` and `Field::skip` the depth is back
and the next element is the one that follows the whole field. -/
theorem c13_skip_field (s : Stream) (pre fs : List (Tok × List Byte)) (n : Nat) (l : List Byte)
    (hs : Over s (pre.flatMap (·.2) ++ (List.replicate n 0xC0 ++ fs.flatMap (·.2) ++ l)))
    (hpre : ∀ x ∈ pre, EncTok x.1 x.2) (hfs : ∀ x ∈ fs, EncTok x.1 x.2) (hf : FieldToks (fs.map (·.1)))
    (opss : List (List BlobOp)) (hl : opss.length = pre.length) (ho : ∀ ops ∈ opss, ∀ o ∈ ops, o.reads) :
    let d := max (depthAfterAll s.depth (pre.map (·.1))) 1
    ∃ es s1 f s2 s3, visitAll opss s = .ok es s1 ∧ nextField s1 = .ok (some f) s2 ∧ f.skip s2 = .ok () s3 ∧
      f.depth = d ∧ s3.depth = d ∧
      YieldsNext s3 (s.pos + (pre.flatMap (·.2)).length + n + (fs.flatMap (·.2)).length) d l := by
  intro d
  obtain ⟨s1, h1, h2⟩ := visitAll_ready pre opss s _ _ _ hpre hl ho hs.ready
  generalize hG : (∃ es s1 f s2 s3, visitAll opss s = .ok es s1 ∧ nextField s1 = .ok (some f) s2 ∧ f.skip s2 = .ok () s3 ∧
      f.depth = d ∧ s3.depth = d ∧
      YieldsNext s3 (s.pos + (pre.flatMap (·.2)).length + n + (fs.flatMap (·.2)).length) d l) = G
  have simple : ∀ (tok : Tok), fs.map (·.1) = [tok] → (∀ p' d', ∃ f, fieldOf p' d' tok = some f ∧ f.depth = max d' 1 ∧
      (∀ s, f.skip s = .ok () s)) → tok ≠ .padding → (∀ m, tok ≠ .exception m) → tok ≠ .endDoc → (∀ d', tok.depthAfter d' = max d' 1) → G := by
    rw [← hG]
    intro tok htok hfo g1 g2 g3 g4
    obtain ⟨⟨t, enc⟩, rfl, rfl⟩ : ∃ x, fs = [x] ∧ x.1 = tok := by
      cases fs with
      | nil => simp at htok
      | cons x xs => cases xs with
        | nil => exact ⟨x, rfl, by simpa using htok⟩
        | cons => simp at htok
    obtain ⟨f, hf1, hf2, hf3⟩ := hfo (s.pos + (pre.flatMap (·.2)).length + n) (depthAfterAll s.depth (pre.map (·.1)))
    obtain ⟨s2, h3, -, h4⟩ := h2.nextField (by simpa using hfs (t, enc) (by simp)) g1 g2
    rw [hf1] at h3
    rw [decide_eq_false g3, g4] at h4
    exact ⟨_, s1, f, s2, s2, h1, h3, hf3 s2, hf2, h4.depth, by simpa using h4.yields⟩
  have nested : ∀ (tok : Tok) (body : List Tok), fs.map (·.1) = tok :: body ++ [.endStruct] → BodyToks body →
      (∀ p' d', ∃ f, fieldOf p' d' tok = some f ∧ f.depth = max d' 1 ∧
      (∀ s, f.skip s = skipUp (max d' 1) s)) → tok ≠ .padding → (∀ m, tok ≠ .exception m) → tok ≠ .endDoc → (∀ d', tok.depthAfter d' = max d' 1 + 1) → G := by
    rw [← hG]
    intro tok body htok hb hfo g1 g2 g3 g4
    obtain ⟨pa, pb, hpp, hpa, hpb⟩ := spelled_split (a := [tok]) (b := body ++ [.endStruct]) (by simpa using htok)
    obtain ⟨⟨t, enc⟩, rfl, rfl⟩ : ∃ x, pa = [x] ∧ x.1 = tok := by
      cases pa with
      | nil => simp at hpa
      | cons x xs => cases xs with
        | nil => exact ⟨x, rfl, by simpa using hpa⟩
        | cons => simp at hpa
    subst hpp
    obtain ⟨f, hf1, hf2, hf3⟩ := hfo (s.pos + (pre.flatMap (·.2)).length + n) (depthAfterAll s.depth (pre.map (·.1)))
    simp only [List.flatMap_append, List.flatMap_cons, List.flatMap_nil, List.append_nil, ← List.append_assoc] at h2
    rw [List.append_assoc] at h2
    obtain ⟨s2, h3, -, h4⟩ := h2.nextField (by simpa using hfs (t, enc) (by simp)) g1 g2
    rw [hf1] at h3
    rw [decide_eq_false g3, g4] at h4
    have hbal := hb.balanced (d + 1) (by omega)
    have hfull : depthAfterAll (d + 1) (pb.map (·.1)) = d := by
      rw [hpb, depthAfterAll_append, hbal.eq]; rfl
    have hlen : pb.length = body.length + 1 := by
      have := congrArg List.length hpb; simpa using this
    obtain ⟨s3, h5, h6⟩ := h4.skipUp d pb l (fun x hx => hfs x (by simp [hx])) (by
      intro k hk
      show d < depthAfterAll (d + 1) _
      rw [List.map_take, hpb, List.take_append_of_le_length (by omega)]
      have := hbal.ge k
      omega) (Nat.le_of_eq hfull)
    have hlast : (pb.map (·.1)).getLast? = some Tok.endStruct := by rw [hpb]; simp
    rw [hlast, show (decide (some Tok.endStruct = some Tok.endDoc)) = false by decide] at h6
    change Ready s3 _ (depthAfterAll (d + 1) _) _ _ at h6
    rw [hfull] at h6
    refine ⟨_, s1, f, s2, s3, h1, h3, by rw [hf3]; exact h5, hf2, h6.depth, ?_⟩
    have := h6.yields
    simpa [Nat.add_assoc] using this
  cases hcase : fs.map (·.1) with
  | nil => rw [hcase] at hf; generalize hnil : ([] : List Tok) = z at hf; cases hf <;> cases hnil
  | cons t ts =>
    rw [hcase] at hf
    generalize hz : t :: ts = z at hf
    cases hf with
    | int tag x => exact simple (.int tag x) (hcase.trans hz) (fun p' d' => ⟨_, rfl, rfl, fun _ => rfl⟩) (by simp) (by simp) (by simp) (fun _ => rfl)
    | blob tag x => exact simple (.blob tag x) (hcase.trans hz) (fun p' d' => ⟨_, rfl, rfl, fun _ => rfl⟩) (by simp) (by simp) (by simp) (fun _ => rfl)
    | struct tag hb => exact nested (.struct tag) _ (hcase.trans hz) hb (fun p' d' => ⟨_, rfl, rfl, fun _ => rfl⟩) (by simp) (by simp) (by simp) (fun _ => rfl)
    | enum tag x hb => exact nested (.enum tag x) _ (hcase.trans hz) hb (fun p' d' => ⟨_, rfl, rfl, fun _ => rfl⟩) (by simp) (by simp) (by simp) (fun _ => rfl)

example : FieldToks [.struct 1, .enum 2 9, .endStruct, .padding, .blob 3 [1, 2], .exception [4], .endStruct] :=
  .struct 1 (body := [.enum 2 9, .endStruct, .padding, .blob 3 [1, 2], .exception [4]])
    (.field (f := [.enum 2 9, .endStruct]) (.enum 2 9 (body := []) .nil) (.padding (.field (f := [.blob 3 [1, 2]]) (.blob 3 [1, 2]) (.exception [4] .nil))))

/-- The strict prefixes of a struct or enum lie deeper than the struct or enum itself. -/
theorem wrap_deeper {d : Nat} {t : Tok} {body : List Tok} (h : t.depthAfter d = d + 1) (hb : Balanced (d + 1) body) (k : Nat)
    (h0 : 0 < k) (hk : k < (t :: body ++ [Tok.endStruct]).length) :
    d < depthAfterAll d ((t :: body ++ [Tok.endStruct]).take k) := by
  cases k with
  | zero => omega
  | succ k =>
    simp at hk
    rw [List.cons_append, List.take_succ_cons, depthAfterAll, List.foldl_cons, h]
    show d < depthAfterAll (d + 1) _
    rw [List.take_append_of_le_length (by omega)]
    have := hb.ge k
    omega

theorem expected_at (p d : Nat) (pre : List (Tok × List Byte)) (x : Tok × List Byte) (ps : List (Tok × List Byte)) :
    (expected p d (pre ++ x :: ps))[pre.length]? =
      some (elemOf (p + (pre.flatMap (·.2)).length) (depthAfterAll d (pre.map (·.1))) x.1) := by
  induction pre generalizing p d with
  | nil => simp [expected, depthAfterAll]
  | cons y pre ih =>
    simp only [List.cons_append, expected, List.length_cons, List.getElem?_cons_succ, ih]
    simp [depthAfterAll, Nat.add_assoc]

/-- **C13** Also a field of which the client has already read some part `rd` (at least its first element; nested
structs may be left half read and blobs in any state): `Field::skip` then skips exactly the rest `lf` of the field. -/
theorem c13_partly_read (s : Stream) (pre rd lf : List (Tok × List Byte)) (l : List Byte)
    (hs : Over s ((pre ++ rd).flatMap (·.2) ++ (lf.flatMap (·.2) ++ l)))
    (hpre : ∀ x ∈ pre ++ rd, EncTok x.1 x.2) (hlf : ∀ x ∈ lf, EncTok x.1 x.2)
    (hf : FieldToks ((rd ++ lf).map (·.1))) (hrd : rd ≠ [])
    (opss : List (List BlobOp)) (hl : opss.length = (pre ++ rd).length) (ho : ∀ ops ∈ opss, ∀ o ∈ ops, o.reads) :
    let d := max (depthAfterAll s.depth (pre.map (·.1))) 1
    ∃ es s1 f s2, visitAll opss s = .ok es s1 ∧ es[pre.length]? = some (.field f) ∧ f.depth = d ∧
      f.skip s1 = .ok () s2 ∧ s2.depth = d ∧
      YieldsNext s2 (s.pos + ((pre ++ rd ++ lf).flatMap (·.2)).length) d l := by
  intro d
  obtain ⟨s1, h1, h2⟩ := visitAll_ready (pre ++ rd) opss s _ _ _ hpre hl ho hs.ready
  obtain ⟨x, rd, rfl⟩ : ∃ x rd', rd = x :: rd' := by cases rd with | nil => exact absurd rfl hrd | cons x r => exact ⟨x, r, rfl⟩
  have hx := expected_at s.pos s.depth pre x rd
  have hd1 : 1 ≤ d := Nat.le_max_right _ _
  rw [List.map_append, depthAfterAll_append, List.map_cons] at h2
  generalize hD0 : depthAfterAll s.depth (pre.map (·.1)) = d0 at h2 hx
  have hd : d = max d0 1 := by rw [← hD0]
  clear_value d
  generalize hz : (x :: rd ++ lf).map (·.1) = z at hf
  have simple : ∀ tok : Tok, (∀ e, tok.depthAfter e = max e 1) → (∃ f, elemOf (s.pos + (pre.flatMap (·.2)).length) d0 tok = .field f ∧
      f.depth = d ∧ ∀ s, f.skip s = .ok () s) → (x :: rd ++ lf).map (·.1) = [tok] →
      ∃ es s1 f s2, visitAll opss s = .ok es s1 ∧ es[pre.length]? = some (.field f) ∧ f.depth = d ∧
      f.skip s1 = .ok () s2 ∧ s2.depth = d ∧
      YieldsNext s2 (s.pos + ((pre ++ (x :: rd) ++ lf).flatMap (·.2)).length) d l := by
    intro tok hdt ⟨f, f1, f2, f3⟩ he
    simp at he
    obtain ⟨e1, rfl, rfl⟩ := he
    rw [e1, f1] at hx
    refine ⟨_, s1, f, s1, h1, hx, f2, f3 s1, ?_, ?_⟩
    · rw [h2.depth]; simp [depthAfterAll, e1, hdt, hd]
    · have := h2.yields
      simpa [depthAfterAll, e1, hdt, ← hd] using this
  have nested : ∀ (tok : Tok) (body : List Tok), BodyToks body → (∀ e, tok.depthAfter e = max e 1 + 1) →
      (∃ f, elemOf (s.pos + (pre.flatMap (·.2)).length) d0 tok = .field f ∧
      f.depth = d ∧ ∀ s, f.skip s = skipUp d s) → (x :: rd ++ lf).map (·.1) = tok :: body ++ [.endStruct] →
      ∃ es s1 f s2, visitAll opss s = .ok es s1 ∧ es[pre.length]? = some (.field f) ∧ f.depth = d ∧
      f.skip s1 = .ok () s2 ∧ s2.depth = d ∧
      YieldsNext s2 (s.pos + ((pre ++ (x :: rd) ++ lf).flatMap (·.2)).length) d l := by
    intro tok body hb hdt ⟨f, f1, f2, f3⟩ he
    have e1 : x.1 = tok := by simp at he; exact he.1
    rw [e1, f1] at hx
    have hbal := hb.balanced (d + 1) (by omega)
    have ht1 : tok.depthAfter d = d + 1 := by rw [hdt]; omega
    -- the depth the field starts at does not matter
    have hsame : ∀ ts : List Tok, depthAfterAll d0 (tok :: ts) = depthAfterAll d (tok :: ts) := by
      intro ts; simp only [depthAfterAll, List.foldl_cons, hdt]; rw [show max d 1 = max d0 1 by omega]
    have hwhole : depthAfterAll d ((x :: rd).map (·.1) ++ lf.map (·.1)) = d := by
      rw [← List.map_append, he]; exact (Balanced.wrap ht1 hbal).eq
    rw [e1, hsame, ← e1, ← List.map_cons] at h2
    have hz' : ∀ k, (x :: rd).map (·.1) ++ (lf.take k).map (·.1) = ((x :: rd ++ lf).map (·.1)).take (rd.length + 1 + k) := by
      intro k
      rw [List.map_append, List.take_append]
      simp [List.map_take, Nat.add_comm, List.take_of_length_le]
    obtain ⟨s2, h5, h6⟩ := h2.skipUp d lf l hlf (by
      intro k hk
      rw [← depthAfterAll_append, hz', he]
      refine wrap_deeper ht1 hbal _ (by omega) ?_
      rw [← he]; simp; omega) (by rw [← depthAfterAll_append]; exact Nat.le_of_eq hwhole)
    rw [← depthAfterAll_append, hwhole] at h6
    have hlast : (lf.map (·.1)).getLast? ≠ some Tok.endDoc := by
      have hL : ((x :: rd ++ lf).map (·.1)).getLast? = some Tok.endStruct := by rw [he]; exact List.getLast?_concat ..
      rw [List.map_append, List.getLast?_append] at hL
      intro hc
      rw [hc] at hL
      simp at hL
    rw [decide_eq_false hlast] at h6
    refine ⟨_, s1, f, s2, h1, hx, f2, by rw [f3]; exact h5, h6.depth, ?_⟩
    have := h6.yields
    simpa [Nat.add_assoc] using this
  cases hf with
  | int tag n => exact simple (.int tag n) (fun _ => rfl) ⟨_, rfl, hd.symm, fun _ => rfl⟩ hz
  | blob tag n => exact simple (.blob tag n) (fun _ => rfl) ⟨_, rfl, hd.symm, fun _ => rfl⟩ hz
  | struct tag hb => exact nested (.struct tag) _ hb (fun _ => rfl) ⟨_, rfl, hd.symm, fun _ => by rw [hd]; rfl⟩ hz
  | enum tag n hb => exact nested (.enum tag n) _ hb (fun _ => rfl) ⟨_, rfl, hd.symm, fun _ => by rw [hd]; rfl⟩ hz

/-- Of a struct with an enum and a blob in it, the struct's and the enum's start have been read; `skip` on the
struct goes on to the end of the struct (offset 9), where field 2 follows. -/
example : (do let es ← visitAll [[], []]
              match es with
              | .field f :: _ => f.skip
              | _ => pure ()
              nextElement : M Err Stream Element)
    (Stream.fromSlice [0xC1, 0x02, 9, 0x00, 0xC0, 0x83, 1, 7, 0x00, 0x42, 5]) =
    .ok (.field ⟨2, 9, 1, .int 5⟩)
    { Stream.fromSlice [0xC1, 0x02, 9, 0x00, 0xC0, 0x83, 1, 7, 0x00, 0x42, 5] with
      pos := 11, depth := 1, blobEnd := 8,
      inner := ⟨[0xC1, 0x02, 9, 0x00, 0xC0, 0x83, 1, 7, 0x00, 0x42, 5], 11, [], true⟩ } := by decide +kernel

/-! ### C17 -/

/-- **C17** `next_field` on an exception (padded or not) fails with at most the first 256 bytes of the message, and the next call
continues right after the complete message. -/
theorem c17_exception (s : Stream) (pre : List (Tok × List Byte)) (n : Nat) (msg enc l : List Byte)
    (hs : Over s (pre.flatMap (·.2) ++ (List.replicate n 0xC0 ++ enc ++ l))) (hpre : ∀ x ∈ pre, EncTok x.1 x.2)
    (ht : EncTok (.exception msg) enc)
    (opss : List (List BlobOp)) (hl : opss.length = pre.length) (ho : ∀ ops ∈ opss, ∀ o ∈ ops, o.reads) :
    ∃ es s1 s2 text, visitAll opss s = .ok es s1 ∧ nextField s1 = .err (.exception text) s2 ∧
      LossyText (msg.take 256) text ∧
      s2.depth = depthAfterAll s.depth (pre.map (·.1)) ∧
      YieldsNext s2 (s.pos + (pre.flatMap (·.2)).length + n + enc.length) s2.depth l := by
  obtain ⟨s1, h1, v, g1, g2, g3, g4, g5⟩ := visitAll_ready pre opss s _ _ _ hpre hl ho hs.ready
  obtain ⟨s2, h3, h4⟩ := nextField_exception_at g1 g2 ht g5
  have hr : Ready s2 (s.pos + (pre.flatMap (·.2)).length + n + enc.length) (depthAfterAll s.depth (pre.map (·.1))) false l := by
    refine ⟨_, h4, by simp [View.after], ?_, ?_, rfl⟩
    · have := content_le ht
      simp only [View.flush, View.curBytes, View.after, contentOf, Option.getD_some, List.length_drop] at this g3 ⊢
      rw [← g3]
      omega
    · simp only [View.after, Tok.depthAfter]; exact g4
  exact ⟨_, s1, s2, _, h1, h3, lossy_spec _, hr.depth, by rw [hr.depth]; exact hr.yields⟩

example : EncTok (.exception (List.replicate 300 65)) (0x80 :: [0xAC, 0x02] ++ List.replicate 300 65) :=
  .exception (g := [0xAC, 0x02]) ⟨by unfold IsGroup; decide, by decide, by rw [List.length_replicate]; decide⟩
    (by rw [List.length_replicate]; decide)

/-! ### C08, reading half -/

/-- A client that reads elements together with the complete content of their blobs, without any limit. -/
def readToks : Nat → M Err Stream (List Tok)
  | 0 => pure []
  | n + 1 => do
    let e ← nextElement
    let t ← (match e with
      | .field f => match f.value with
        | .int x => pure (Tok.int f.tag x)
        | .blob _ => do let d ← readFully U64MAX; pure (Tok.blob f.tag d)
        | .struct => pure (Tok.struct f.tag)
        | .enum x => pure (Tok.enum f.tag x)
      | .endOfStruct => pure Tok.endStruct
      | .endOfDoc => do clearEof; pure Tok.endDoc
      | .exception _ => do let d ← readFully U64MAX; pure (Tok.exception d)
      | .padding => pure Tok.padding : M Err Stream Tok)
    let ts ← readToks n
    pure (t :: ts)

theorem readToks_ready : ∀ (ts : List Tok) (bs : List Byte), EncToks ts bs → ∀ (s : Stream) (p d : Nat) (l : List Byte),
    Ready s p d false (bs ++ l) → ∃ s', readToks ts.length s = .ok ts s' ∧
      Ready s' (p + bs.length) (depthAfterAll d ts) false l := by
  intro ts bs henc
  induction henc with
  | nil => intro s p d l h; exact ⟨s, rfl, by simpa [depthAfterAll] using h⟩
  | @cons t ts b bs ht hts ih =>
    intro s p d l h
    rw [List.append_assoc] at h
    obtain ⟨s1, h1, h2, h3⟩ := h.nextElement ht
    have go : ∀ s2, Ready s2 (p + b.length) (t.depthAfter d) false (bs ++ l) → ∃ s',
        (do let ts ← readToks ts.length; pure (t :: ts) : M Err Stream (List Tok)) s2 = .ok (t :: ts) s' ∧
        Ready s' (p + (b ++ bs).length) (depthAfterAll d (t :: ts)) false l := by
      intro s2 h4
      obtain ⟨s', h5, h6⟩ := ih s2 _ _ l h4
      refine ⟨s', by rw [M.bind_ok h5]; rfl, ?_⟩
      simpa [depthAfterAll, Nat.add_assoc] using h6
    have blob : ∀ data, contentOf t = some data → ∃ s2, readFully U64MAX s1 = .ok data s2 ∧
        Ready s2 (p + b.length) (t.depthAfter d) false (bs ++ l) := by
      intro data hc
      have hroom := h2.room
      simp only [View.curBytes, hc, Option.getD_some] at hroom
      obtain ⟨s2, h4, h5⟩ := readFully_at h2 hc U64MAX (by omega)
      refine ⟨s2, h4, _, h5, ?_, ?_, rfl, rfl⟩
      · exact decide_eq_false (by rintro rfl; cases hc)
      · have := content_le ht
        rw [hc] at this
        simp only [View.flush, View.curBytes, hc, Option.getD_some, List.length_nil] at this ⊢
        omega
    simp only [List.length_cons, readToks]
    rw [M.bind_ok h1]
    cases t with
    | int tag n => simp only [elemOf]; rw [M.bind_ok (M.pure_apply _ _)]; exact go s1 (by simpa using h3)
    | struct tag => simp only [elemOf]; rw [M.bind_ok (M.pure_apply _ _)]; exact go s1 (by simpa using h3)
    | enum tag n => simp only [elemOf]; rw [M.bind_ok (M.pure_apply _ _)]; exact go s1 (by simpa using h3)
    | endStruct => simp only [elemOf]; rw [M.bind_ok (M.pure_apply _ _)]; exact go s1 (by simpa using h3)
    | padding => simp only [elemOf]; rw [M.bind_ok (M.pure_apply _ _)]; exact go s1 (by simpa using h3)
    | endDoc =>
      simp only [elemOf]
      have hcl : (do Fourleaf.clearEof; pure Tok.endDoc : M Err Stream Tok) s1 = .ok Tok.endDoc { s1 with eof := false } := rfl
      rw [M.bind_ok hcl]
      exact go _ h3.clearEof
    | blob tag data =>
      obtain ⟨s2, h4, h5⟩ := blob data rfl
      simp only [elemOf]
      rw [M.bind_ok (a := Tok.blob tag data) (s' := s2) (by rw [M.bind_ok h4]; rfl)]
      exact go s2 h5
    | exception msg =>
      obtain ⟨s2, h4, h5⟩ := blob msg rfl
      simp only [elemOf]
      rw [M.bind_ok (a := Tok.exception msg) (s' := s2) (by rw [M.bind_ok h4]; rfl)]
      exact go s2 h5

/-- Any spelling of a sequence of elements reads back as that sequence, contents included, and the reader is then positioned after it. -/
theorem c08_read_back (s : Stream) (ts : List Tok) (bs l : List Byte) (hs : Over s (bs ++ l)) (henc : EncToks ts bs) :
    ∃ s', readToks ts.length s = .ok ts s' ∧ s'.depth = depthAfterAll s.depth ts ∧
      YieldsNext s' (s.pos + bs.length) s'.depth l := by
  obtain ⟨s', h1, h2⟩ := readToks_ready ts bs henc s _ _ l hs.ready
  exact ⟨s', h1, h2.depth, by rw [h2.depth]; exact h2.yields⟩

end Fourleaf.Props
