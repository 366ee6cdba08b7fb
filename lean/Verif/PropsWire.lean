import Verif.WireLemmas
import Verif.ZigZagLemmas

/-! # Properties of the wire layer: C01 – C07, C51 -/

namespace Fourleaf.Props
open Fourleaf Spec

/-- **C01** Decoding what `encode_u64` wrote yields the number and leaves what follows untouched. -/
theorem c01_varint_roundtrip (n : UInt64) (rest : List UInt8) :
    decodeU64 readSlice (encodeU64 n ++ rest) = .ok n rest := by
  obtain ⟨h1, h2, h3, h4, _⟩ := encodeU64_spec n
  have := (decodeU64_group (encodeU64 n) rest h1 (by omega)).1 (by rw [h2]; exact n.toNat_lt)
  rw [this, h2]; simp

/-- C01 for signed integers. -/
theorem c01_signed_varint_roundtrip (n : Int64) (rest : List UInt8) :
    decodeI64 readSlice (encodeI64 n ++ rest) = .ok n rest := by
  unfold decodeI64 encodeI64
  rw [M.bind_ok (c01_varint_roundtrip (zigzag n) rest)]
  simp [unzigzag_zigzag']

example : encodeU64 300 = [0xAC, 0x02] ∧ decodeU64 readSlice [0xAC, 0x02, 7] = .ok 300 [7] := by
  decide +kernel

/-- **C02** Every group of at most 257 bytes whose value fits 64 bits decodes to that value,
consuming exactly the group. -/
theorem c02_denormalised_accepted (g rest : List UInt8) (hg : IsGroup g) (hl : g.length ≤ 257)
    (hv : groupVal g < 2 ^ 64) :
    ∃ n, decodeU64 readSlice (g ++ rest) = .ok n rest ∧ n.toNat = groupVal g := by
  refine ⟨_, (decodeU64_group g rest hg hl).1 hv, ?_⟩
  simp only [UInt64.toNat_ofNat']; exact Nat.mod_eq_of_lt hv

/-- Five spelled in 257 bytes: the longest accepted form. -/
example : ∃ g, IsGroup g ∧ g.length = 257 ∧ groupVal g = 5 :=
  ⟨0x85 :: (List.replicate 255 0x80 ++ [0]), by decide +kernel⟩

/-- **C03** Completeness of rejection: a group of at most 257 bytes whose value does not fit is an
overflow; input with 257 continuation bytes is refused. -/
theorem c03_too_large_rejected (g rest : List UInt8) (hg : IsGroup g) (hl : g.length ≤ 257)
    (hv : 2 ^ 64 ≤ groupVal g) :
    ∃ l, decodeU64 readSlice (g ++ rest) = .err .integerOverflow l :=
  (decodeU64_group g rest hg hl).2 hv

/-- **C03** Soundness of every outcome, for every input. A result is the mathematical value of the
bytes consumed; at most 257 bytes are ever consumed; the only errors are overflow (the bytes
consumed denote a number of more than 64 bits), an overwide group (257 bytes all with
continuation bit), and the end of the input. -/
theorem c03_decode_sound (l : List UInt8) :
    match decodeU64 readSlice l with
    | .ok n l' => ∃ g, l = g ++ l' ∧ IsGroup g ∧ g.length ≤ 257 ∧ n.toNat = groupVal g
    | .err .integerOverflow l' => ∃ g, l = g ++ l' ∧ g.length ≤ 257 ∧ 2 ^ 64 ≤ groupVal g
    | .err .overwideInteger l' => ∃ g, l = g ++ l' ∧ g.length = 257 ∧ ∀ b ∈ g, 128 ≤ b.toNat
    | .err (.io .unexpectedEof) l' => l' = [] ∧ (∀ b ∈ l, 128 ≤ b.toNat) ∧ l.length ≤ 256
    | .err _ _ => False := by
  have := decodeLoop_sound l 258 0 0 (by decide) (by decide) (by simp)
  unfold decodeU64
  simp only [Nat.mul_zero, Nat.pow_zero, Nat.mul_one, UInt64.toNat_zero, Nat.zero_add] at this
  revert this
  rcases decodeLoop readSlice 258 0 0 l with ⟨n, l'⟩ | ⟨e, l'⟩
  · exact id
  · rcases e with ⟨⟨⟩⟩ | _ <;> exact id

/-- **C03** A group longer than 257 bytes never decodes. -/
theorem c03_overlong_rejected (g rest : List UInt8) (hl : 257 ≤ g.length)
    (hg : ∀ b ∈ g, 128 ≤ b.toNat) (n : UInt64) (l' : List UInt8) :
    decodeU64 readSlice (g ++ rest) ≠ .ok n l' := by
  intro h
  have := c03_decode_sound (g ++ rest)
  rw [h] at this
  obtain ⟨g', he, hg', hl', -⟩ := this
  -- the last byte of `g'` lies inside `g`
  have hpre : g' <+: g := by
    rw [List.prefix_iff_eq_take]
    have := congrArg (List.take g'.length) he
    rw [List.take_append_of_le_length (by omega), List.take_left] at this
    exact this.symm
  have hall : ∀ b ∈ g', 128 ≤ b.toNat := fun b hb => hg b (hpre.subset hb)
  clear he h hpre hl'
  induction g' with
  | nil => exact hg'
  | cons b bs ih =>
    cases bs with
    | nil =>
      have h1 : b.toNat < 128 := hg'
      have := hall b (by simp)
      omega
    | cons c cs => exact ih hg'.2 (fun b hb => hall b (List.mem_cons_of_mem _ hb))

example : decodeU64 readSlice [0xFF, 0xFF, 0xFF, 0xFF, 0xFF, 0xFF, 0xFF, 0xFF, 0xFF, 0x02]
    = .err .integerOverflow [] := by decide +kernel
example : IsGroup [0xFF, 0xFF, 0xFF, 0xFF, 0xFF, 0xFF, 0xFF, 0xFF, 0xFF, 0x02] ∧
    2 ^ 64 ≤ groupVal [0xFF, 0xFF, 0xFF, 0xFF, 0xFF, 0xFF, 0xFF, 0xFF, 0xFF, 0x02] := by decide +kernel
example : decodeU64 readSlice (List.replicate 300 0x80) = .err .overwideInteger (List.replicate 43 0x80) := by
  decide +kernel

/-- **C04** `encode_fixed_u64` writes exactly 10 bytes and `decode_u64` understands them. -/
theorem c04_fixed_width (n : UInt64) (rest : List UInt8) :
    (encodeFixedU64 n).length = 10 ∧
    decodeU64 readSlice (encodeFixedU64 n ++ rest) = .ok n rest := by
  obtain ⟨h1, h2, h3⟩ := encodeFixedU64_spec n
  refine ⟨h3, ?_⟩
  have := (decodeU64_group _ rest h1 (by omega)).1 (by rw [h2]; exact n.toNat_lt)
  rw [this, h2]; simp

example : encodeFixedU64 5 = [0x85, 0x80, 0x80, 0x80, 0x80, 0x80, 0x80, 0x80, 0x80, 0] := by
  decide +kernel

theorem groupVal_lt (g : List UInt8) : groupVal g < 128 ^ g.length := by
  induction g with
  | nil => simp [groupVal]
  | cons b bs ih =>
    simp only [groupVal, List.length_cons, Nat.pow_succ]
    omega

/-- **C05** `encode_u64` writes one to ten bytes, never more than any other input that decodes to
the same number. -/
theorem c05_shortest (n : UInt64) :
    1 ≤ (encodeU64 n).length ∧ (encodeU64 n).length ≤ 10 ∧
    ∀ g : List UInt8, decodeU64 readSlice g = .ok n [] → (encodeU64 n).length ≤ g.length := by
  obtain ⟨h1, h2, h3, h4, h5⟩ := encodeU64_spec n
  refine ⟨h3, h4, fun g hg => ?_⟩
  have hs := c03_decode_sound g
  rw [hg] at hs
  obtain ⟨g', he, hg', -, hv⟩ := hs
  rw [List.append_nil] at he; subst he
  have hlt := groupVal_lt g
  have hpos : 1 ≤ g.length := by cases g with
    | nil => exact hg'.elim
    | cons => simp
  refine Classical.byContradiction fun hc => ?_
  have hle : 128 ^ g.length ≤ 128 ^ ((encodeU64 n).length - 1) :=
    Nat.pow_le_pow_right (by decide) (by omega)
  have h1' : 128 ^ 1 ≤ 128 ^ g.length := Nat.pow_le_pow_right (by decide) hpos
  omega

/-- **C05** Different numbers have different encodings, and none is a prefix of another, whatever
follows. -/
theorem c05_prefix_free (m n : UInt64) (r s : List UInt8) (h : encodeU64 m ++ r = encodeU64 n ++ s) :
    m = n ∧ r = s := by
  have h1 := c01_varint_roundtrip m r
  rw [h, c01_varint_roundtrip n s] at h1
  injection h1 with h2 h3
  exact ⟨h2.symm, h3.symm⟩

example : encodeU64 127 = [0x7F] ∧ encodeU64 128 = [0x80, 1] ∧ (encodeU64 (-1)).length = 10 := by
  decide +kernel

/-- **C06** ZigZag and its inverse are inverse to each other in both directions. -/
theorem c06_zigzag_bijection :
    (∀ i : Int64, unzigzag (zigzag i) = i) ∧ (∀ u : UInt64, zigzag (unzigzag u) = u) :=
  ⟨unzigzag_zigzag', zigzag_unzigzag'⟩

/-- **C06** The ZigZag formula: `2 i` for `i ≥ 0` and `-2 i - 1` for negative `i`. -/
theorem c06_zigzag_formula (i : Int64) :
    ((zigzag i).toNat : Int) = if 0 ≤ i.toInt then 2 * i.toInt else -2 * i.toInt - 1 :=
  zigzag_toNat i

example : zigzag (-1) = 1 ∧ zigzag 1 = 2 ∧ zigzag Int64.minValue = ~~~0 := by decide +kernel

/-- **C07** Every byte parses (no `unreachable!()` is reached), to a valid descriptor, and converts
back to itself. -/
theorem c07_parse_total (b : UInt8) :
    ∃ d, Desc.parse b = some d ∧ d.toByte = b ∧ d.valid = true := by
  have h : ∀ b : Fin 256, ∃ d, Desc.parse (UInt8.ofNat b.val) = some d ∧
      d.toByte = UInt8.ofNat b.val ∧ d.valid = true := by
    have h' : ∀ b : Fin 256, (match Desc.parse (UInt8.ofNat b.val) with
      | some d => decide (d.toByte = UInt8.ofNat b.val) && d.valid
      | none => false) = true := by decide +kernel
    intro b
    have := h' b
    split at this
    · rename_i d hd
      simp only [Bool.and_eq_true, decide_eq_true_eq] at this
      exact ⟨d, hd, this⟩
    · cases this
  have := h ⟨b.toNat, b.toNat_lt⟩
  simpa using this

/-- **C07** Every well-formed descriptor survives the trip through its byte. -/
theorem c07_parse_toByte (d : Desc) (h : d.valid = true) : Desc.parse d.toByte = some d := by
  cases d with
  | special ty => cases ty <;> rfl
  | pair ty tag =>
    simp only [Desc.valid, Bool.and_eq_true, decide_eq_true_eq, UInt8.le_iff_toNat_le] at h
    have h' : ∀ ty ∈ [DescTy.enum, .integer, .blob, .struct], ∀ t : Fin 64, t.val ≠ 0 →
        Desc.parse (Desc.pair ty (UInt8.ofNat t.val)).toByte = some (.pair ty (UInt8.ofNat t.val)) := by
      decide +kernel
    have h1 : 1 ≤ tag.toNat := h.1
    have h2 : tag.toNat ≤ 63 := h.2
    have := h' ty (by cases ty <;> simp) ⟨tag.toNat, by omega⟩ (by simp; omega)
    simpa using this

/-- **C07** The layout: the type is the top two bits, the tag the low six. -/
theorem c07_layout (ty : DescTy) (tag : UInt8) (h : 1 ≤ tag.toNat ∧ tag.toNat ≤ 63) :
    (Desc.pair ty tag).toByte.toNat =
      tag.toNat + 64 * (match ty with | .enum => 0 | .integer => 1 | .blob => 2 | .struct => 3) := by
  have h' : ∀ ty ∈ [DescTy.enum, .integer, .blob, .struct], ∀ t : Fin 64,
      (Desc.pair ty (UInt8.ofNat t.val)).toByte.toNat =
        t.val + 64 * (match ty with | .enum => 0 | .integer => 1 | .blob => 2 | .struct => 3) := by
    decide +kernel
  have := h' ty (by cases ty <;> simp) ⟨tag.toNat, by omega⟩
  simpa using this

example : Desc.parse 0xC1 = some (.pair .struct 1) ∧ Desc.parse 0 = some (.special .endOfStruct) := by
  decide

/-- **C51** (finding) In release builds an invalid tag is not refused: it silently changes the
meaning of the element, for instance an integer field with tag 64 comes out as the `EndOfDoc`
marker, and with tag 0 too. -/
theorem c51_invalid_tag_corrupts :
    Desc.parse (Desc.pair .integer 0).toByte = some (.special .endOfDoc) ∧
    Desc.parse (Desc.pair .integer 64).toByte = some (.special .endOfDoc) ∧
    Desc.parse (Desc.pair .integer 129).toByte = some (.pair .struct 1) := by decide

/-- **C51** No invalid tag survives: whatever an out-of-range tag is written as, it does not parse
as the requested descriptor. -/
theorem c51_invalid_tag_never_survives (ty : DescTy) (tag : UInt8) (h : tag = 0 ∨ 63 < tag) :
    Desc.parse (Desc.pair ty tag).toByte ≠ some (.pair ty tag) := by
  intro hp
  obtain ⟨d, h1, -, h3⟩ := c07_parse_total (Desc.pair ty tag).toByte
  rw [hp] at h1
  injection h1 with h1; subst h1
  simp only [Desc.valid, Bool.and_eq_true, decide_eq_true_eq] at h3
  rcases h with rfl | h
  · exact absurd h3.1 (by decide)
  · exact absurd h3.2 (UInt8.not_le.2 h)

end Fourleaf.Props
