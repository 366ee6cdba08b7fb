import Verif.RelProg
import Verif.TokSpec

/-! # Reading a spelled element -/

namespace Fourleaf
open Spec

/-- What a client can know about a stream over valid input: position, depth, end flag, what is left of the current
blob, and the bytes after it. -/
structure View where
  pos : Nat
  depth : Nat
  eof : Bool
  cur : Option (List Byte)
  rest : List Byte

def View.curBytes (v : View) : List Byte := v.cur.getD []

structure At (s : Stream) (v : View) : Prop where
  inv : Inv s
  ben : Benign s.inner.sched
  pos : s.pos = v.pos
  depth : s.depth = v.depth
  eof : s.eof = v.eof
  bytes : s.rest = v.curBytes ++ v.rest
  within : s.inner.pos ≤ s.inner.data.length
  room : v.pos + v.curBytes.length + v.rest.length ≤ U64MAX
  none : v.cur = Option.none → s.commit = Option.none
  some : ∀ c, v.cur = Option.some c → s.commit = Option.some .skipBlob ∧ s.live = true ∧ s.blobEnd = s.pos + c.length

/-- The view when the rest of the current blob has been skipped. -/
def View.flush (v : View) : View := { v with pos := v.pos + v.curBytes.length, cur := none }

theorem step_ben {s s' : Stream} (h : Step s s') (hb : Benign s.inner.sched) : Benign s'.inner.sched :=
  hb.suffix h.frame.sched

theorem readByte_at (g : Bool) {s : Stream} {b : Byte} {l : List Byte} (hb : Benign s.inner.sched)
    (hr : s.rest = b :: l) (hp : s.pos < U64MAX) :
    ∃ sc, sc <:+ s.inner.sched ∧ readByte g s = .ok b (advBy s 1 sc) := by
  rcases readByte_spec g s with ⟨h1, -⟩ | ⟨h1, sc, h2, h3⟩
  · omega
  · rcases h3 with ⟨b', l', h3, h4⟩ | ⟨h3, -⟩ | ⟨h3, -⟩ | ⟨h3, -⟩
    · rw [hr] at h3; cases h3; exact ⟨sc, h2, h4⟩
    · rw [hr] at h3; cases h3
    · rw [hr] at h3; cases h3
    · exact absurd hb h3

theorem decodeU64_at {s : Stream} {n : UInt64} {g l : List Byte} (hb : Benign s.inner.sched)
    (hg : EncInt n.toNat g) (hr : s.rest = g ++ l) (hp : s.pos + g.length ≤ U64MAX) :
    ∃ sc, sc <:+ s.inner.sched ∧ decodeU64 (readByte false) s = .ok n (advBy s g.length sc) := by
  obtain ⟨h1, h2, h3⟩ := hg
  have key : ∀ (g : List Byte) (fuel k : Nat) (a : UInt64) (s : Stream), Benign s.inner.sched → IsGroup g →
      g.length ≤ fuel → k + g.length ≤ 257 → a.toNat < 2 ^ (7 * k) →
      a.toNat + groupVal g * 2 ^ (7 * k) < 2 ^ 64 → s.rest = g ++ l → s.pos + g.length ≤ U64MAX →
      ∃ sc, sc <:+ s.inner.sched ∧ decodeLoop (readByte false) fuel a (7 * k) s =
        .ok (UInt64.ofNat (a.toNat + groupVal g * 2 ^ (7 * k))) (advBy s g.length sc) := by
    intro g
    induction g with
    | nil => intro _ _ _ _ _ h; exact h.elim
    | cons b bs ih =>
      intro fuel k a s hb hg hf hk ha hv hr hp
      cases fuel with
      | zero => simp at hf
      | succ fuel =>
        obtain ⟨sc, hs, hrd⟩ := readByte_at false hb hr (by simp at hp; omega)
        rw [decodeLoop_step _ _ _ _ _ _ _ hrd ha]
        have hgv : groupVal (b :: bs) = b.toNat % 128 + 128 * groupVal bs := rfl
        have e7 : 2 ^ (7 * (k + 1)) = 2 ^ (7 * k) * 128 := by rw [Nat.mul_add, Nat.pow_add]
        have hmul : groupVal (b :: bs) * 2 ^ (7 * k) =
            b.toNat % 128 * 2 ^ (7 * k) + groupVal bs * 2 ^ (7 * (k + 1)) := by
          rw [hgv, e7, Nat.add_mul]
          congr 1
          rw [Nat.mul_comm 128, Nat.mul_assoc, Nat.mul_comm 128]
        rw [hmul] at hv ⊢
        rw [if_neg (by omega)]
        cases bs with
        | nil =>
          have hlt : b.toNat < 128 := hg
          rw [if_pos hlt]
          refine ⟨sc, hs, ?_⟩
          simp [groupVal]
        | cons c cs =>
          have hge : ¬ b.toNat < 128 := by have := hg.1; omega
          rw [if_neg hge, if_neg (by simp at hk; omega)]
          have hltb : b.toNat % 128 < 128 := Nat.mod_lt _ (by decide)
          have hbk : a.toNat + b.toNat % 128 * 2 ^ (7 * k) < 2 ^ (7 * (k + 1)) := by
            rw [e7]
            have : b.toNat % 128 * 2 ^ (7 * k) ≤ 127 * 2 ^ (7 * k) := Nat.mul_le_mul_right _ (by omega)
            omega
          have hN : (UInt64.ofNat (a.toNat + b.toNat % 128 * 2 ^ (7 * k))).toNat
              = a.toNat + b.toNat % 128 * 2 ^ (7 * k) := by
            rw [UInt64.toNat_ofNat']; exact Nat.mod_eq_of_lt (by omega)
          obtain ⟨sc2, hs2, h2⟩ := ih fuel (k + 1) (UInt64.ofNat (a.toNat + b.toNat % 128 * 2 ^ (7 * k)))
            (advBy s 1 sc) (hb.suffix hs) hg.2 (by simp at hf ⊢; omega) (by simp at hk ⊢; omega)
            (by rw [hN]; exact hbk) (by rw [hN]; omega)
            (by rw [advBy_rest, hr]; rfl) (by simp at hp ⊢; omega)
          refine ⟨sc2, hs2.trans hs, ?_⟩
          rw [show 7 * k + 7 = 7 * (k + 1) by omega, h2, hN, advBy_advBy]
          simp only [List.length_cons]
          congr 2
          · omega
          · omega
  obtain ⟨sc, hs, h⟩ := key g 258 0 0 s hb h1 (by omega) (by omega) (by simp) (by
    simp only [Nat.mul_zero, Nat.pow_zero, Nat.mul_one, UInt64.toNat_zero, Nat.zero_add, h3]; exact n.toNat_lt) hr hp
  refine ⟨sc, hs, ?_⟩
  unfold decodeU64
  simp only [Nat.mul_zero] at h
  rw [h, h3]; simp

def tyOf : Nat → DescTy
  | 0 => .enum
  | 1 => .integer
  | 2 => .blob
  | _ => .struct

/-- The descriptor byte, taken apart arithmetically. -/
theorem parse_arith : ∀ b : Byte, Desc.parse b =
    if b.toNat % 64 = 0 then
      some (.special (match b.toNat / 64 with | 0 => .endOfStruct | 1 => .endOfDoc | 2 => .exception | _ => .padding))
    else some (.pair (tyOf (b.toNat / 64))
      (UInt8.ofNat (b.toNat % 64))) := by
  intro b
  have h : ∀ b : Fin 256, Desc.parse (UInt8.ofNat b.val) =
    if (UInt8.ofNat b.val).toNat % 64 = 0 then
      some (.special (match (UInt8.ofNat b.val).toNat / 64 with | 0 => .endOfStruct | 1 => .endOfDoc | 2 => .exception | _ => .padding))
    else some (.pair (tyOf ((UInt8.ofNat b.val).toNat / 64))
      (UInt8.ofNat ((UInt8.ofNat b.val).toNat % 64))) := by decide +kernel
  have := h ⟨b.toNat, b.toNat_lt⟩
  simpa using this

theorem parse_pair {d tag : Byte} {k : Nat} (ht : TagOk tag) (hd : d.toNat = k * 64 + tag.toNat) :
    Desc.parse d = some (.pair (tyOf k) tag) := by
  obtain ⟨h1, h2⟩ := ht
  have h3 : d.toNat % 64 = tag.toNat := by omega
  have h4 : d.toNat / 64 = k := by omega
  rw [parse_arith, if_neg (by omega), h3, h4]
  simp

/-- The element a client gets for a token whose descriptor is at `p`, at depth `d`. -/
def elemOf (p d : Nat) : Tok → Element
  | .int tag n => .field ⟨tag, p, max d 1, .int n⟩
  | .blob tag data => .field ⟨tag, p, max d 1, .blob data.length⟩
  | .struct tag => .field ⟨tag, p, max d 1, .struct⟩
  | .enum tag disc => .field ⟨tag, p, max d 1, .enum disc⟩
  | .endStruct => .endOfStruct
  | .endDoc => .endOfDoc
  | .exception msg => .exception msg.length
  | .padding => .padding

def contentOf : Tok → Option (List Byte)
  | .blob _ data => some data
  | .exception msg => some msg
  | _ => none

/-- The view after reading a token spelled with `n` bytes and followed by `l`. -/
def View.after (v : View) (tok : Tok) (n : Nat) (l : List Byte) : View :=
  { pos := v.pos + (n - ((contentOf tok).getD []).length), depth := tok.depthAfter v.depth,
    eof := decide (tok = .endDoc), cur := contentOf tok, rest := l }

theorem nextBlob_at {s : Stream} {data g l : List Byte} (_hi : Inv s) (hb : Benign s.inner.sched)
    (hg : EncInt data.length g) (hd : data.length < 2 ^ 64) (hr : s.rest = g ++ (data ++ l))
    (hp : s.pos + g.length + data.length ≤ U64MAX) :
    ∃ sc, sc <:+ s.inner.sched ∧ nextBlob s = .ok data.length
      { advBy s g.length sc with blobEnd := s.pos + g.length + data.length, commit := some .skipBlob, live := true } := by
  have hn : (UInt64.ofNat data.length).toNat = data.length := by
    rw [UInt64.toNat_ofNat']; exact Nat.mod_eq_of_lt hd
  obtain ⟨sc, hs, h⟩ := decodeU64_at (n := UInt64.ofNat data.length) hb (by rw [hn]; exact hg) hr (by omega)
  refine ⟨sc, hs, ?_⟩
  unfold nextBlob
  rw [M.bind_ok h]
  have hch : checkAdvance (UInt64.ofNat data.length).toNat (advBy s g.length sc) = .ok () (advBy s g.length sc) := by
    rw [checkAdvance_eq, hn, if_neg (by simp; omega)]
  rw [M.bind_ok hch, M.bind_ok (M.modify_apply _ _), M.pure_apply, hn]
  rfl

theorem depth_fix {s : Stream} {v : View} {k : Nat} {sc : List Ev} (h : s.depth = v.depth) :
    (if (advBy s k sc).depth = 0 then { advBy s k sc with depth := 1 } else advBy s k sc)
      = { advBy s k sc with depth := max v.depth 1 } := by
  simp only [advBy_depth, h]
  split
  · rename_i h0; rw [h0]; rfl
  · rename_i h0
    rw [show max v.depth 1 = (advBy s k sc).depth by simp [h]; omega]

/-- Reading one spelled element. -/
theorem readElement_at {s : Stream} {v : View} {tok : Tok} {enc l : List Byte} (h : At s v) (hc : v.cur = none)
    (he : v.eof = false) (ht : EncTok tok enc) (hr : v.rest = enc ++ l) :
    ∃ s', readElement s = .ok (elemOf v.pos v.depth tok) s' ∧ At s' (v.after tok enc.length l) := by
  have hrest : s.rest = enc ++ l := by rw [h.bytes, hr]; simp [View.curBytes, hc]
  have hroom : s.pos + enc.length + l.length ≤ U64MAX := by
    have := h.room; rw [hr] at this; simp [View.curBytes, hc] at this; rw [h.pos]; omega
  have hcm := h.none hc
  have he' : s.eof = false := h.eof.trans he
  have hw := h.within
  have hrl := rest_length s
  have hR := readElement_safe h.inv hcm he'
  have hSh : ∀ e s', readElement s = .ok e s' → Shape e s' := fun e s' h' => readElement_shape h.inv hcm he' h'
  -- enough to give the concrete final state
  have fin : ∀ (k : Nat) (sc : List Ev) (s' : Stream),
      readElement s = .ok (elemOf v.pos v.depth tok) s' →
      s'.inner = (advBy s k sc).inner → s'.pos = s.pos + k → k + ((contentOf tok).getD []).length = enc.length →
      s'.depth = tok.depthAfter v.depth → s'.eof = decide (tok = .endDoc) →
      enc.drop k = (contentOf tok).getD [] →
      ∃ s', readElement s = .ok (elemOf v.pos v.depth tok) s' ∧ At s' (v.after tok enc.length l) := by
    intro k sc s' h1 h2 h3 h4 h5 h6 h7
    refine ⟨s', h1, ?_⟩
    rw [h1] at hR
    have hst : Step s s' := hR.1.step
    have hsh := hSh _ _ h1
    have hkl : k ≤ enc.length := by omega
    have hrs : s'.rest = (contentOf tok).getD [] ++ l := by
      have : s'.rest = (advBy s k sc).rest := by unfold Stream.rest; rw [h2]
      rw [this, advBy_rest, hrest, List.drop_append_of_le_length hkl, h7]
    refine ⟨hst.inv, step_ben hst h.ben, ?_, h5, h6, ?_, ?_, ?_, ?_, ?_⟩
    · rw [h3, h.pos]; simp [View.after]; omega
    · rw [hrs]; rfl
    · have : s'.rest.length = (advBy s k sc).inner.data.length - (advBy s k sc).inner.pos := by
        rw [rest_length, h2]
      rw [h2]
      have hl2 : s.rest.length = enc.length + l.length := by rw [hrest]; simp
      simp; omega
    · simp only [View.after, View.curBytes, ← h.pos]; omega
    · intro hn
      have hn' : contentOf tok = none := hn
      have : (elemOf v.pos v.depth tok).blobLen? = none := by
        cases tok <;> simp_all [elemOf, contentOf, Element.blobLen?]
      unfold Shape at hsh; rw [this] at hsh; exact hsh
    · intro c hcc
      have hcc' : contentOf tok = some c := hcc
      have : (elemOf v.pos v.depth tok).blobLen? = some c.length := by
        cases tok <;> simp_all [elemOf, contentOf, Element.blobLen?]
      unfold Shape at hsh; rw [this] at hsh; exact ⟨hsh.1, hsh.2.2, hsh.2.1⟩
  have hpos := h.pos
  cases ht with
  | @enum tag disc d g h1 h2 h3 =>
    obtain ⟨sc, hs, hb⟩ := readByte_at true h.ben hrest (by simp at hroom; omega)
    obtain ⟨sc2, hs2, hd⟩ := decodeU64_at (s := { advBy s 1 sc with depth := max v.depth 1 }) (l := l) (h.ben.suffix hs) h3
      (by show (advBy s 1 sc).rest = _; rw [advBy_rest, hrest]; rfl) (by simp at hroom ⊢; omega)
    refine fin (1 + g.length) sc2 ?_ ?_ ?_ ?_ ?_ ?_ ?_ ?_
    · exact { advBy s (1 + g.length) sc2 with depth := max v.depth 1 + 1 }
    · unfold readElement
      rw [hb]; dsimp only
      rw [parse_pair h1 h2]; dsimp only
      rw [depth_fix (v := v) h.depth]
      simp only [nextValue, tyOf]
      rw [M.bind_ok (a := .enum disc) (s' := { advBy s (1 + g.length) sc2 with depth := max v.depth 1 + 1 })]
      · simp [elemOf, hpos]
      · rw [M.bind_ok hd, M.bind_ok (M.modify_apply _ _), M.pure_apply]
        simp [advBy, Nat.add_assoc]
    · rfl
    · rfl
    · simp [contentOf]; omega
    · rfl
    · exact he'
    · simp [contentOf, Nat.add_comm]
  | @int tag n d g h1 h2 h3 =>
    obtain ⟨sc, hs, hb⟩ := readByte_at true h.ben hrest (by simp at hroom; omega)
    obtain ⟨sc2, hs2, hd⟩ := decodeU64_at (s := { advBy s 1 sc with depth := max v.depth 1 }) (l := l) (h.ben.suffix hs) h3
      (by show (advBy s 1 sc).rest = _; rw [advBy_rest, hrest]; rfl) (by simp at hroom ⊢; omega)
    refine fin (1 + g.length) sc2 ?_ ?_ ?_ ?_ ?_ ?_ ?_ ?_
    · exact { advBy s (1 + g.length) sc2 with depth := max v.depth 1 }
    · unfold readElement
      rw [hb]; dsimp only
      rw [parse_pair h1 h2]; dsimp only
      rw [depth_fix (v := v) h.depth]
      simp only [nextValue, tyOf]
      rw [M.bind_ok (a := .int n) (s' := { advBy s (1 + g.length) sc2 with depth := max v.depth 1 })]
      · simp [elemOf, hpos]
      · rw [M.bind_ok hd, M.pure_apply]
        simp [advBy, Nat.add_assoc]
    · rfl
    · rfl
    · simp [contentOf]; omega
    · rfl
    · exact he'
    · simp [contentOf, Nat.add_comm]
  | @blob tag data d g h1 h2 h3 h4 =>
    obtain ⟨sc, hs, hb⟩ := readByte_at true h.ben (b := d) (l := g ++ (data ++ l)) (by rw [hrest]; simp) (by simp at hroom; omega)
    have hsd := step_setDepth (s := advBy s 1 sc) (step_advBy h.inv hcm (by simp at hroom; omega) hs).inv he' (max v.depth 1)
    obtain ⟨sc2, hs2, hd⟩ := nextBlob_at (s := { advBy s 1 sc with depth := max v.depth 1 }) (l := l) hsd.inv (h.ben.suffix hs) h3 h4
      (by show (advBy s 1 sc).rest = _; rw [advBy_rest, hrest]; simp) (by simp at hroom ⊢; omega)
    refine fin (1 + g.length) sc2 ?_ ?_ ?_ ?_ ?_ ?_ ?_ ?_
    · exact { advBy s (1 + g.length) sc2 with
        depth := max v.depth 1, blobEnd := s.pos + 1 + g.length + data.length, commit := some .skipBlob, live := true }
    · unfold readElement
      rw [hb]; dsimp only
      rw [parse_pair h1 h2]; dsimp only
      rw [depth_fix (v := v) h.depth]
      simp only [nextValue, tyOf]
      rw [M.bind_ok (a := .blob data.length) (s' := { advBy s (1 + g.length) sc2 with
        depth := max v.depth 1, blobEnd := s.pos + 1 + g.length + data.length, commit := some .skipBlob, live := true })]
      · simp [elemOf, hpos]
      · rw [M.bind_ok hd, M.pure_apply]
        simp [advBy, Nat.add_assoc]
    · rfl
    · rfl
    · simp [contentOf]; omega
    · rfl
    · exact he'
    · simp [contentOf, Nat.add_comm]
  | @struct tag d h1 h2 =>
    obtain ⟨sc, hs, hb⟩ := readByte_at true h.ben hrest (by simp at hroom; omega)
    refine fin 1 sc ?_ ?_ ?_ ?_ ?_ ?_ ?_ ?_
    · exact { advBy s 1 sc with depth := max v.depth 1 + 1 }
    · unfold readElement
      rw [hb]; dsimp only
      rw [parse_pair h1 h2]; dsimp only
      rw [depth_fix (v := v) h.depth]
      simp only [nextValue, tyOf]
      rw [M.bind_ok (a := .struct) (s' := { advBy s 1 sc with depth := max v.depth 1 + 1 })]
      · simp [elemOf, hpos]
      · rw [M.bind_ok (M.modify_apply _ _), M.pure_apply]
    · rfl
    · rfl
    · simp [contentOf]
    · rfl
    · exact he'
    · simp [contentOf]
  | endStruct =>
    obtain ⟨sc, hs, hb⟩ := readByte_at true h.ben hrest (by simp at hroom; omega)
    refine fin 1 sc { advBy s 1 sc with depth := s.depth - 1 } ?_ rfl rfl (by simp [contentOf]) ?_ he' (by simp [contentOf])
    · unfold readElement
      rw [hb]; dsimp only
      rw [show Desc.parse (0 * 64) = some (.special .endOfStruct) by decide]; rfl
    · show s.depth - 1 = _; rw [h.depth]; rfl
  | endDoc =>
    obtain ⟨sc, hs, hb⟩ := readByte_at true h.ben hrest (by simp at hroom; omega)
    refine fin 1 sc { advBy s 1 sc with eof := true, depth := 0 } ?_ rfl rfl (by simp [contentOf]) rfl (by simp) (by simp [contentOf])
    unfold readElement
    rw [hb]; dsimp only
    rw [show Desc.parse (1 * 64) = some (.special .endOfDoc) by decide]; rfl
  | @exception msg g h3 h4 =>
    obtain ⟨sc, hs, hb⟩ := readByte_at true h.ben (b := 2 * 64) (l := g ++ (msg ++ l)) (by rw [hrest]; simp) (by simp at hroom; omega)
    obtain ⟨sc2, hs2, hd⟩ := nextBlob_at (s := advBy s 1 sc) (l := l)
      (step_advBy h.inv hcm (by simp at hroom; omega) hs).inv (h.ben.suffix hs) h3 h4
      (by rw [advBy_rest, hrest]; simp) (by simp at hroom ⊢; omega)
    refine fin (1 + g.length) sc2 ?_ ?_ ?_ ?_ ?_ ?_ ?_ ?_
    · exact { advBy s (1 + g.length) sc2 with
        blobEnd := s.pos + 1 + g.length + msg.length, commit := some .skipBlob, live := true }
    · unfold readElement
      rw [hb]; dsimp only
      rw [show Desc.parse (2 * 64) = some (.special .exception) by decide]; dsimp only
      rw [M.bind_ok hd, M.pure_apply]
      simp [advBy, Nat.add_assoc, elemOf]
    · rfl
    · rfl
    · simp [contentOf]; omega
    · exact h.depth
    · exact he'
    · simp [contentOf, Nat.add_comm]
  | padding =>
    obtain ⟨sc, hs, hb⟩ := readByte_at true h.ben hrest (by simp at hroom; omega)
    refine fin 1 sc (advBy s 1 sc) ?_ rfl rfl (by simp [contentOf]) h.depth he' (by simp [contentOf])
    unfold readElement
    rw [hb]; dsimp only
    rw [show Desc.parse (3 * 64) = some (.special .padding) by decide]; rfl

/-- Skipping what is left of a blob. -/
theorem commit_at {s : Stream} {v : View} (h : At s v) :
    ∃ s', commit s = .ok () s' ∧ At s' v.flush ∧ s'.inner.data = s.inner.data := by
  have hC := commit_safe h.inv
  cases hc : v.cur with
  | none =>
    have hcm := h.none hc
    refine ⟨s, by simp [commit, hcm], ?_, rfl⟩
    have : v.flush = v := by cases v; simp_all [View.flush, View.curBytes]
    rw [this]; exact h
  | some c =>
    obtain ⟨h1, h2, h3⟩ := h.some c hc
    have hcb : v.curBytes = c := by simp [View.curBytes, hc]
    have hb := h.bytes
    rw [hcb] at hb
    have hroom := h.room
    rw [hcb, ← h.pos] at hroom
    obtain ⟨k, sc, a1, a2, a3⟩ := skipBlob_spec (s := s) (by omega) (by omega)
    have hrl := rest_length s
    have hl : s.rest.length = c.length + v.rest.length := by rw [hb]; simp
    rcases a3 with ⟨a3, a4⟩ | ⟨a3, a4, -⟩ | ⟨a3, -⟩
    · have hcr : commit s = .ok () { advBy s k sc with commit := none, live := false } := by simp [commit, h1, a4]
      rw [hcr] at hC
      refine ⟨_, hcr, ?_, rfl⟩
      have hst : Step s _ := hC.1.step
      refine ⟨hst.inv, step_ben hst h.ben, ?_, h.depth, h.eof, ?_, ?_, ?_, fun _ => rfl, fun c hc => by cases hc⟩
      · simp [View.flush, hcb, ← h.pos]; omega
      · show (advBy s k sc).rest = _
        rw [advBy_rest, hb, show k = c.length by omega, List.drop_left]; rfl
      · have := h.within; simp; omega
      · simp [View.flush, View.curBytes, hcb, ← h.pos]
        have := hcb
        unfold View.curBytes at this
        rw [this]; omega
    · have := a4; omega
    · exact absurd h.ben a3

theorem flush_cur (v : View) : v.flush.cur = none := rfl

/-- `next_element` on a spelled element. -/
theorem nextElement_at {s : Stream} {v : View} {tok : Tok} {enc l : List Byte} (h : At s v)
    (he : v.eof = false) (ht : EncTok tok enc) (hr : v.rest = enc ++ l) :
    ∃ s', nextElement s = .ok (elemOf v.flush.pos v.depth tok) s' ∧ At s' (v.flush.after tok enc.length l) := by
  obtain ⟨s1, h1, h2, -⟩ := commit_at h
  obtain ⟨s2, h3, h4⟩ := readElement_at h2 rfl he ht hr
  refine ⟨s2, ?_, h4⟩
  unfold nextElement nextElementImpl
  rw [if_neg (by rw [h.eof, he]; simp), M.bind_ok h1]
  exact h3

/-- `next_element_impl(true)` on an element other than padding after any amount of padding. -/
theorem skipPadLoop_at {tok : Tok} {enc l : List Byte} (ht : EncTok tok enc) (hp : tok ≠ .padding) :
    ∀ (n fuel : Nat) (s : Stream) (v : View), At s v → v.cur = none → v.eof = false →
    v.rest = List.replicate n (3 * 64) ++ enc ++ l → n < fuel →
    ∃ s', skipPadLoop fuel s = .ok (elemOf (v.pos + n) v.depth tok) s' ∧
      At s' ({ v with pos := v.pos + n }.after tok enc.length l) := by
  intro n
  induction n with
  | zero =>
    intro fuel s v h hc he hr hf
    cases fuel with
    | zero => omega
    | succ fuel =>
      obtain ⟨s', h1, h2⟩ := readElement_at h hc he ht (by simpa using hr)
      refine ⟨s', ?_, h2⟩
      rw [skipPadLoop, M.bind_ok h1, M.ite_apply, if_neg]
      · rfl
      · cases tok <;> simp [elemOf] at hp ⊢
  | succ n ih =>
    intro fuel s v h hc he hr hf
    cases fuel with
    | zero => omega
    | succ fuel =>
      obtain ⟨s1, h1, h2⟩ := readElement_at (l := List.replicate n (3 * 64) ++ enc ++ l) h hc he EncTok.padding
        (by rw [hr]; simp [List.replicate_succ])
      have hv : v.after .padding 1 (List.replicate n (3 * 64) ++ enc ++ l)
          = { v with pos := v.pos + 1, rest := List.replicate n (3 * 64) ++ enc ++ l } := by
        cases v; simp_all [View.after, contentOf, Tok.depthAfter]
      simp only [List.length_cons, List.length_nil, Nat.zero_add] at h2
      rw [hv] at h2
      obtain ⟨s2, h3, h4⟩ := ih fuel s1 _ h2 hc he rfl (by omega)
      refine ⟨s2, ?_, ?_⟩
      · rw [skipPadLoop, M.bind_ok h1, M.ite_apply, if_pos (by rfl), h3]
        rw [show v.pos + 1 + n = v.pos + (n + 1) by omega]
      · have e : ({ v with pos := v.pos + (n + 1) } : View).after tok enc.length l =
          ({ v with pos := v.pos + 1 + n, rest := List.replicate n (3 * 64) ++ enc ++ l } : View).after tok enc.length l := by
          simp [View.after]; omega
        rw [e]; exact h4

theorem nextElementImpl_pad_at {s : Stream} {v : View} {tok : Tok} {n : Nat} {enc l : List Byte} (h : At s v)
    (he : v.eof = false) (ht : EncTok tok enc) (hp : tok ≠ .padding)
    (hr : v.rest = List.replicate n (3 * 64) ++ enc ++ l) :
    ∃ s', nextElementImpl true s = .ok (elemOf (v.flush.pos + n) v.depth tok) s' ∧
      At s' ({ v.flush with pos := v.flush.pos + n }.after tok enc.length l) := by
  obtain ⟨s1, h1, h2, -⟩ := commit_at h
  have hrs := h2.bytes
  have hrl := rest_length s1
  have hb : s1.rest = v.rest := by rw [hrs]; rfl
  rw [hb, hr] at hrl
  obtain ⟨s2, h3, h4⟩ := skipPadLoop_at ht hp n (s1.inner.data.length - s1.inner.pos + 2) s1 v.flush h2 rfl he hr
    (by simp at hrl; omega)
  refine ⟨s2, ?_, h4⟩
  unfold nextElementImpl
  rw [if_neg (by rw [h.eof, he]; simp), M.bind_ok h1]
  exact h3

/-- The field a token stands for, if it is one. -/
def fieldOf (p d : Nat) : Tok → Option Field
  | .int tag n => some ⟨tag, p, max d 1, .int n⟩
  | .blob tag data => some ⟨tag, p, max d 1, .blob data.length⟩
  | .struct tag => some ⟨tag, p, max d 1, .struct⟩
  | .enum tag disc => some ⟨tag, p, max d 1, .enum disc⟩
  | _ => none

/-- `next_field` on a field or an end marker, after any amount of padding. -/
theorem nextField_at {s : Stream} {v : View} {tok : Tok} {n : Nat} {enc l : List Byte} (h : At s v)
    (he : v.eof = false) (ht : EncTok tok enc) (hp : tok ≠ .padding) (hx : ∀ m, tok ≠ .exception m)
    (hr : v.rest = List.replicate n (3 * 64) ++ enc ++ l) :
    ∃ s', nextField s = .ok (fieldOf (v.flush.pos + n) v.depth tok) s' ∧
      At s' ({ v.flush with pos := v.flush.pos + n }.after tok enc.length l) := by
  obtain ⟨s1, h1, h2⟩ := nextElementImpl_pad_at h he ht hp hr
  refine ⟨s1, ?_, h2⟩
  unfold nextField
  rw [M.bind_ok h1]
  cases tok <;> first | rfl | exact absurd rfl hp | exact absurd rfl (hx _)

/-- Reading from a blob that is completely there. -/
theorem drain_at {s : Stream} {v : View} {c : List Byte} (h : At s v) (hc : v.cur = some c) (n : Nat) (hn : n ≤ c.length) :
    ∃ s', drain blobRead n s = .ok (c.take n) s' ∧ At s' { v with pos := v.pos + n, cur := some (c.drop n) } := by
  obtain ⟨h1, h2, h3⟩ := h.some c hc
  have hcb : v.curBytes = c := by simp [View.curBytes, hc]
  have hb := h.bytes
  rw [hcb] at hb
  have hroom := h.room
  rw [hcb, ← h.pos] at hroom
  have hrem : blobRemaining s = c.length := by unfold blobRemaining; omega
  have hS := drain_blob_safe n h.inv h1 (by omega)
  obtain ⟨k, sc, a1, a2, a3, a4⟩ := drain_blob_spec n s (by omega) (by omega)
  have hl : s.rest.length = c.length + v.rest.length := by rw [hb]; simp
  rcases a4 with ⟨a4, a5⟩ | ⟨a4, -⟩
  · obtain rfl : k = n := by omega
    rw [a5] at hS
    refine ⟨advBy s k sc, ?_, ?_⟩
    · rw [a5, hb, List.take_append_of_le_length hn]; rfl
    · have hst : Step s _ := hS.step
      refine ⟨hst.inv, step_ben hst h.ben, by simp [h.pos], h.depth, h.eof, ?_, ?_, ?_, fun h => (by cases h), ?_⟩
      · rw [advBy_rest, hb, List.drop_append_of_le_length hn]; rfl
      · have := rest_length s; have := h.within; simp; omega
      · simp [View.curBytes, ← h.pos]; omega
      · intro c' hc'
        cases hc'
        exact ⟨h1, h2, by simp; omega⟩
  · exact absurd h.ben a4

theorem readFully_at {s : Stream} {v : View} {c : List Byte} (h : At s v) (hc : v.cur = some c) (max : Nat)
    (hm : c.length ≤ max) :
    ∃ s', readFully max s = .ok c s' ∧ At s' { v with pos := v.pos + c.length, cur := some [] } := by
  obtain ⟨h1, h2, h3⟩ := h.some c hc
  have hrem : blobRemaining s = c.length := by unfold blobRemaining; omega
  obtain ⟨s', h4, h5⟩ := drain_at h hc c.length (Nat.le_refl _)
  refine ⟨s', ?_, by simpa using h5⟩
  unfold readFully
  rw [hrem, if_neg (by omega), h4]; simp

theorem readOrTrunc_at {s : Stream} {v : View} {c : List Byte} (h : At s v) (hc : v.cur = some c) (max : Nat) :
    ∃ s', readOrTrunc max s = .ok (c.take max) s' ∧
      At s' { v with pos := v.pos + min max c.length, cur := some (c.drop max) } := by
  obtain ⟨h1, h2, h3⟩ := h.some c hc
  have hrem : blobRemaining s = c.length := by unfold blobRemaining; omega
  obtain ⟨s', h4, h5⟩ := drain_at h hc (min max c.length) (Nat.min_le_right _ _)
  refine ⟨s', ?_, ?_⟩
  · unfold readOrTrunc
    rw [hrem, h4]
    congr 1
    rcases Nat.le_total max c.length with h | h
    · rw [Nat.min_eq_left h]
    · rw [Nat.min_eq_right h, List.take_of_length_le (Nat.le_refl _), List.take_of_length_le h]
  · have : c.drop (min max c.length) = c.drop max := by
      rcases Nat.le_total max c.length with h | h
      · rw [Nat.min_eq_left h]
      · rw [Nat.min_eq_right h, List.drop_of_length_le (Nat.le_refl _), List.drop_of_length_le h]
    rwa [this] at h5

/-- `next_field` on an exception: the message (at most 256 bytes) is the error; the rest of it is skipped by the
next call. -/
theorem nextField_exception_at {s : Stream} {v : View} {msg : List Byte} {n : Nat} {enc l : List Byte} (h : At s v)
    (he : v.eof = false) (ht : EncTok (.exception msg) enc)
    (hr : v.rest = List.replicate n (3 * 64) ++ enc ++ l) :
    ∃ s', nextField s = .err (.exception (lossy (msg.take 256))) s' ∧
      At s' { ({ v.flush with pos := v.flush.pos + n }.after (.exception msg) enc.length l) with
        pos := ({ v.flush with pos := v.flush.pos + n }.after (.exception msg) enc.length l).pos + min 256 msg.length,
        cur := some (msg.drop 256) } := by
  obtain ⟨s1, h1, h2⟩ := nextElementImpl_pad_at h he ht (by simp) hr
  obtain ⟨s2, h3, h4⟩ := readOrTrunc_at h2 rfl 256
  refine ⟨s2, ?_, h4⟩
  unfold nextField
  rw [M.bind_ok h1]
  simp only [elemOf]
  rw [M.bind_ok h3]; rfl

theorem slice_at {s : Stream} {v : View} {c : List Byte} (h : At s v) (hc : v.cur = some c) :
    blobSlice s = .ok c s := by
  obtain ⟨h1, h2, h3⟩ := h.some c hc
  have hcb : v.curBytes = c := by simp [View.curBytes, hc]
  have hb := h.bytes
  rw [hcb] at hb
  have hrem : blobRemaining s = c.length := by unfold blobRemaining; omega
  have hi : innerSlice s = .ok s.inner.rest s := by
    unfold innerSlice; rw [if_neg (by have := h.within; omega)]
  have hb' : s.inner.rest = c ++ v.rest := hb
  unfold blobSlice
  rw [M.bind_ok hi, M.bind_ok (M.get_apply s), M.ite_apply, hrem, hb', if_pos (by simp)]
  simp

end Fourleaf
