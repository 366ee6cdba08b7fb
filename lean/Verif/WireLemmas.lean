import Verif.WireSpec

/-! # Lemmas about the integer codec -/

namespace Fourleaf
open Spec

theorem and7f (b : UInt8) : ((b &&& 0x7F).toUInt64).toNat = b.toNat % 128 := by
  have : (b &&& 0x7F).toNat = b.toNat % 128 := by
    simp [UInt8.toNat_and]
    exact Nat.and_two_pow_sub_one_eq_mod b.toNat 7
  simpa using this

theorem and80 (b : UInt8) : (b &&& 0x80 = 0) ↔ b.toNat < 128 := by
  have h : ∀ b : Fin 256, (UInt8.ofNat b.val &&& 0x80 = 0) ↔ b.val < 128 := by decide +kernel
  have := h ⟨b.toNat, b.toNat_lt⟩
  simpa using this

theorem shl_shr_ne (v : UInt64) (sh : Nat) (hs : sh < 64) :
    ((v <<< UInt64.ofNat sh) >>> UInt64.ofNat sh ≠ v) ↔ 2 ^ 64 ≤ v.toNat * 2 ^ sh := by
  have e : (UInt64.ofNat sh).toNat % 64 = sh := by
    simp [UInt64.toNat_ofNat']; omega
  have hp : 0 < 2 ^ sh := Nat.two_pow_pos sh
  rw [ne_eq, ← UInt64.toNat_inj, UInt64.toNat_shiftRight, UInt64.toNat_shiftLeft, e,
    Nat.shiftLeft_eq, Nat.shiftRight_eq_div_pow]
  constructor
  · intro h
    refine Classical.byContradiction fun hc => ?_
    have hc : v.toNat * 2 ^ sh < 2 ^ 64 := by omega
    rw [Nat.mod_eq_of_lt hc, Nat.mul_div_cancel _ hp] at h
    exact h rfl
  · intro h he
    have h1 : v.toNat * 2 ^ sh % 2 ^ 64 < 2 ^ 64 := Nat.mod_lt _ (by decide)
    have h2 := Nat.div_mul_le_self (v.toNat * 2 ^ sh % 2 ^ 64) (2 ^ sh)
    rw [he] at h2
    omega

theorem or_shl (a v : UInt64) (sh : Nat) (hs : sh < 64) (ha : a.toNat < 2 ^ sh)
    (hv : v.toNat * 2 ^ sh < 2 ^ 64) :
    (a ||| (v <<< UInt64.ofNat sh)).toNat = a.toNat + v.toNat * 2 ^ sh := by
  have e : (UInt64.ofNat sh).toNat % 64 = sh := by
    simp [UInt64.toNat_ofNat']; omega
  rw [UInt64.toNat_or, UInt64.toNat_shiftLeft, e, Nat.shiftLeft_eq, Nat.mod_eq_of_lt hv]
  have := Nat.two_pow_add_eq_or_of_lt ha v.toNat
  rw [Nat.or_comm, Nat.mul_comm v.toNat, ← this]; omega


/-- One iteration of the decoding loop, in arithmetic terms. -/
theorem decodeLoop_step {σ : Type} (rd : M Err σ Byte) (fuel : Nat) (a : UInt64) (sh : Nat)
    (s s' : σ) (b : Byte) (hb : rd s = .ok b s') (ha : a.toNat < 2 ^ sh) :
    decodeLoop rd (fuel + 1) a sh s =
      if 2 ^ 64 ≤ a.toNat + b.toNat % 128 * 2 ^ sh then .err .integerOverflow s'
      else if b.toNat < 128 then .ok (UInt64.ofNat (a.toNat + b.toNat % 128 * 2 ^ sh)) s'
      else if sh + 7 > 1792 then .err .overwideInteger s'
      else decodeLoop rd fuel (UInt64.ofNat (a.toNat + b.toNat % 128 * 2 ^ sh)) (sh + 7) s' := by
  have hv := and7f b
  have hv' : ((b &&& 0x7F).toUInt64).toNat < 128 := by rw [hv]; exact Nat.mod_lt _ (by decide)
  have hz : (b &&& 0x7F).toUInt64 = 0 ↔ b.toNat % 128 = 0 := by
    rw [← hv, ← UInt64.toNat_inj]; simp
  have ha64 : a.toNat < 2 ^ 64 := a.toNat_lt
  rw [decodeLoop, M.bind_ok hb]
  simp only [and80]
  generalize (b &&& 0x7F).toUInt64 = v at *
  rw [← hv]
  by_cases h0 : v = 0
  · subst h0
    have : UInt64.ofNat a.toNat = a := by simp
    simp only [ne_eq, not_true, false_and, if_false, UInt64.toNat_zero, Nat.zero_mul, Nat.add_zero,
      this]
    rw [if_neg (show ¬ 2 ^ 64 ≤ a.toNat by omega)]
    simp only [M.ite_apply, M.throw_apply]
    rfl
  · have hvpos : 0 < v.toNat := by
      rcases Nat.eq_zero_or_pos v.toNat with h | h
      · exact absurd (hz.2 (hv ▸ h)) h0
      · exact h
    simp only [ne_eq, h0, not_false_eq_true, true_and, if_true]
    by_cases hs : sh < 64
    · have hne := shl_shr_ne v sh hs
      by_cases ho : 2 ^ 64 ≤ v.toNat * 2 ^ sh
      · rw [if_pos (Or.inr (hne.2 ho)), if_pos (by omega)]; rfl
      · have ho' : v.toNat * 2 ^ sh < 2 ^ 64 := by omega
        have hor := or_shl a v sh hs ha ho'
        have hlt : a.toNat + v.toNat * 2 ^ sh < 2 ^ 64 := by
          rw [← hor]; exact UInt64.toNat_lt _
        rw [if_neg (by rintro (h | h); exact absurd h (by omega); exact ho (hne.1 h)),
          if_neg (show ¬ 2 ^ 64 ≤ a.toNat + v.toNat * 2 ^ sh by omega)]
        have : UInt64.ofNat (a.toNat + v.toNat * 2 ^ sh) = a ||| v <<< UInt64.ofNat sh := by
          rw [← UInt64.toNat_inj, hor]; simp [Nat.mod_eq_of_lt hlt]
        rw [this]
        simp only [M.ite_apply, M.throw_apply]
        rfl
    · have hp : 2 ^ 64 ≤ 2 ^ sh := Nat.pow_le_pow_right (by decide) (by omega)
      have : 2 ^ sh ≤ v.toNat * 2 ^ sh := Nat.le_mul_of_pos_left _ hvpos
      rw [if_pos (Or.inl (by omega)), if_pos (by omega)]; rfl

/-- A source of bytes that behaves like a list: `Rel s l` says that the bytes still to come from
`s` are `l`. -/
structure ByteSource {σ : Type} (rd : M Err σ Byte) (Rel : σ → List Byte → Prop) : Prop where
  cons : ∀ s b l, Rel s (b :: l) → ∃ s', rd s = .ok b s' ∧ Rel s' l
  nil : ∀ s, Rel s [] → ∃ s', rd s = .err (.io .unexpectedEof) s' ∧ Rel s' []

theorem byteSource_readSlice : ByteSource readSlice (fun s l => s = l) where
  cons := by rintro s b l rfl; exact ⟨l, rfl, rfl⟩
  nil := by rintro s rfl; exact ⟨[], rfl, rfl⟩

variable {σ : Type} {rd : M Err σ Byte} {Rel : σ → List Byte → Prop}

/-- Decoding from any list-like source gives the same outcome as decoding from the list. -/
theorem decodeLoop_rel (H : ByteSource rd Rel) (fuel : Nat) :
    ∀ (a : UInt64) (sh : Nat) (s : σ) (l : List Byte), Rel s l →
    match decodeLoop readSlice fuel a sh l with
    | .ok n l' => ∃ s', decodeLoop rd fuel a sh s = .ok n s' ∧ Rel s' l'
    | .err e l' => ∃ s', decodeLoop rd fuel a sh s = .err e s' ∧ Rel s' l' := by
  induction fuel with
  | zero => intro a sh s l h; exact ⟨s, rfl, h⟩
  | succ fuel ih =>
    intro a sh s l h
    cases l with
    | nil =>
      obtain ⟨s', h1, h2⟩ := H.nil s h
      rw [decodeLoop, decodeLoop, M.bind_err h1]
      exact ⟨s', rfl, h2⟩
    | cons b l =>
      obtain ⟨s', h1, h2⟩ := H.cons s b l h
      rw [decodeLoop, decodeLoop, M.bind_ok h1, M.bind_ok (show readSlice (b :: l) = .ok b l from rfl)]
      simp only [M.ite_apply, M.throw_apply]
      by_cases c1 : (b &&& 0x7F).toUInt64 ≠ 0 ∧ (64 ≤ sh ∨
          ((b &&& 0x7F).toUInt64 <<< UInt64.ofNat sh) >>> UInt64.ofNat sh ≠ (b &&& 0x7F).toUInt64)
      · simp only [if_pos c1]; exact ⟨s', rfl, h2⟩
      · simp only [if_neg c1]
        by_cases c2 : b &&& 0x80 = 0
        · simp only [if_pos c2]; exact ⟨s', rfl, h2⟩
        · simp only [if_neg c2]
          by_cases c3 : sh + 7 > 256 * 7
          · simp only [if_pos c3]; exact ⟨s', rfl, h2⟩
          · simp only [if_neg c3]
            exact ih _ _ s' l h2

theorem decodeU64_rel (H : ByteSource rd Rel) (s : σ) (l : List Byte) (h : Rel s l) :
    match decodeU64 readSlice l with
    | .ok n l' => ∃ s', decodeU64 rd s = .ok n s' ∧ Rel s' l'
    | .err e l' => ∃ s', decodeU64 rd s = .err e s' ∧ Rel s' l' :=
  decodeLoop_rel H 258 0 0 s l h

/-- What the decoding loop does on a complete group of bytes. -/
theorem decodeLoop_group (rest : List Byte) : ∀ (g : List Byte) (fuel k : Nat) (a : UInt64),
    IsGroup g → g.length ≤ fuel → k + g.length ≤ 257 → a.toNat < 2 ^ (7 * k) →
    (a.toNat + groupVal g * 2 ^ (7 * k) < 2 ^ 64 →
      decodeLoop readSlice fuel a (7 * k) (g ++ rest) =
        .ok (UInt64.ofNat (a.toNat + groupVal g * 2 ^ (7 * k))) rest) ∧
    (2 ^ 64 ≤ a.toNat + groupVal g * 2 ^ (7 * k) →
      ∃ l, decodeLoop readSlice fuel a (7 * k) (g ++ rest) = .err .integerOverflow l) := by
  intro g
  induction g with
  | nil => intro fuel k a h; exact h.elim
  | cons b bs ih =>
    intro fuel k a hg hf hk ha
    cases fuel with
    | zero => simp at hf
    | succ fuel =>
      rw [List.cons_append, decodeLoop_step readSlice fuel a (7 * k) (b :: (bs ++ rest)) (bs ++ rest) b rfl ha]
      cases bs with
      | nil =>
        have hb : b.toNat < 128 := hg
        have hm : b.toNat % 128 = b.toNat := Nat.mod_eq_of_lt hb
        simp only [groupVal, hm, Nat.mul_zero, Nat.add_zero, hb, if_true, List.nil_append]
        constructor
        · intro h; rw [if_neg (by omega)]
        · intro h; rw [if_pos h]; exact ⟨_, rfl⟩
      | cons c cs =>
        obtain ⟨hb, hcs⟩ : 128 ≤ b.toNat ∧ IsGroup (c :: cs) := hg
        rw [if_neg (show ¬ b.toNat < 128 by omega)]
        simp only [List.length_cons] at hf hk
        rw [if_neg (show ¬ 7 * k + 7 > 1792 by omega)]
        have hval : a.toNat + groupVal (b :: c :: cs) * 2 ^ (7 * k) =
            a.toNat + b.toNat % 128 * 2 ^ (7 * k) + groupVal (c :: cs) * 2 ^ (7 * (k + 1)) := by
          rw [groupVal, Nat.add_mul, Nat.mul_add 7 k 1, Nat.pow_add]
          have : (2:Nat) ^ (7 * 1) = 128 := by decide
          rw [this]
          generalize groupVal (c :: cs) = x
          generalize 2 ^ (7 * k) = y
          rw [Nat.mul_comm 128 x, Nat.mul_assoc, Nat.mul_comm 128 y]
          omega
        rw [hval]
        by_cases ho : 2 ^ 64 ≤ a.toNat + b.toNat % 128 * 2 ^ (7 * k)
        · rw [if_pos ho]
          constructor
          · intro h; omega
          · intro _; exact ⟨_, rfl⟩
        · rw [if_neg ho]
          have hlt : a.toNat + b.toNat % 128 * 2 ^ (7 * k) < 2 ^ 64 := by omega
          have hn : (UInt64.ofNat (a.toNat + b.toNat % 128 * 2 ^ (7 * k))).toNat =
              a.toNat + b.toNat % 128 * 2 ^ (7 * k) := by
            simp only [UInt64.toNat_ofNat']
            exact Nat.mod_eq_of_lt hlt
          have ha' : (UInt64.ofNat (a.toNat + b.toNat % 128 * 2 ^ (7 * k))).toNat < 2 ^ (7 * (k + 1)) := by
            rw [hn, Nat.mul_add 7 k 1, Nat.pow_add]
            have : (2:Nat) ^ (7 * 1) = 128 := by decide
            rw [this]
            have h1 : b.toNat % 128 ≤ 127 := by omega
            have h2 := Nat.mul_le_mul_right (2 ^ (7 * k)) h1
            omega
          have := ih fuel (k + 1) _ hcs (by simp only [List.length_cons]; omega)
            (by simp only [List.length_cons]; omega) ha'
          rw [hn] at this
          rw [show 7 * k + 7 = 7 * (k + 1) by omega]
          exact this

theorem groupVal_append (g h : List Byte) :
    groupVal (g ++ h) = groupVal g + groupVal h * 128 ^ g.length := by
  induction g with
  | nil => simp [groupVal]
  | cons b bs ih =>
    simp only [List.cons_append, groupVal, ih, List.length_cons, Nat.pow_succ]
    generalize groupVal h = x
    generalize 128 ^ bs.length = y
    rw [Nat.mul_add, Nat.mul_comm y 128, ← Nat.mul_assoc x 128 y, Nat.mul_comm x 128,
      ← Nat.mul_assoc 128 x y]
    omega

/-- What any outcome of the decoding loop says about the bytes consumed. -/
theorem decodeLoop_sound : ∀ (l : List Byte) (fuel k : Nat) (a : UInt64),
    k + fuel = 258 → k ≤ 256 → a.toNat < 2 ^ (7 * k) →
    match decodeLoop readSlice fuel a (7 * k) l with
    | .ok n l' => ∃ g, l = g ++ l' ∧ IsGroup g ∧ k + g.length ≤ 257 ∧
        n.toNat = a.toNat + groupVal g * 2 ^ (7 * k)
    | .err .integerOverflow l' => ∃ g, l = g ++ l' ∧ k + g.length ≤ 257 ∧
        2 ^ 64 ≤ a.toNat + groupVal g * 2 ^ (7 * k)
    | .err .overwideInteger l' => ∃ g, l = g ++ l' ∧ k + g.length = 257 ∧ (∀ b ∈ g, 128 ≤ b.toNat)
    | .err (.io .unexpectedEof) l' => l' = [] ∧ (∀ b ∈ l, 128 ≤ b.toNat) ∧ k + l.length ≤ 256
    | .err _ _ => False := by
  intro l
  induction l with
  | nil =>
    intro fuel k a hf hk ha
    obtain ⟨fuel, rfl⟩ : ∃ m, fuel = m + 1 := ⟨fuel - 1, by omega⟩
    rw [decodeLoop, M.bind_err (show readSlice [] = .err (.io .unexpectedEof) [] from rfl)]
    simp; omega
  | cons b l ih =>
    intro fuel k a hf hk ha
    obtain ⟨fuel, rfl⟩ : ∃ m, fuel = m + 1 := ⟨fuel - 1, by omega⟩
    rw [decodeLoop_step readSlice fuel a (7 * k) (b :: l) l b rfl ha]
    by_cases ho : 2 ^ 64 ≤ a.toNat + b.toNat % 128 * 2 ^ (7 * k)
    · rw [if_pos ho]
      exact ⟨[b], rfl, by simp; omega, by simpa [groupVal] using ho⟩
    · rw [if_neg ho]
      have hlt : a.toNat + b.toNat % 128 * 2 ^ (7 * k) < 2 ^ 64 := by omega
      have hn : (UInt64.ofNat (a.toNat + b.toNat % 128 * 2 ^ (7 * k))).toNat =
          a.toNat + b.toNat % 128 * 2 ^ (7 * k) := by
        simp only [UInt64.toNat_ofNat']
        exact Nat.mod_eq_of_lt hlt
      by_cases hb : b.toNat < 128
      · rw [if_pos hb]
        refine ⟨[b], rfl, hb, by simp; omega, ?_⟩
        rw [hn]; simp [groupVal]
      · rw [if_neg hb]
        by_cases hw : 7 * k + 7 > 1792
        · rw [if_pos hw]
          exact ⟨[b], rfl, by simp; omega, by simp; omega⟩
        · rw [if_neg hw]
          have ha' : (UInt64.ofNat (a.toNat + b.toNat % 128 * 2 ^ (7 * k))).toNat < 2 ^ (7 * (k + 1)) := by
            rw [hn, Nat.mul_add 7 k 1, Nat.pow_add]
            have : (2:Nat) ^ (7 * 1) = 128 := by decide
            rw [this]
            have h1 : b.toNat % 128 ≤ 127 := by omega
            have h2 := Nat.mul_le_mul_right (2 ^ (7 * k)) h1
            omega
          have hval : ∀ g, a.toNat + groupVal (b :: g) * 2 ^ (7 * k) =
              a.toNat + b.toNat % 128 * 2 ^ (7 * k) + groupVal g * 2 ^ (7 * (k + 1)) := by
            intro g
            rw [groupVal, Nat.add_mul, Nat.mul_add 7 k 1, Nat.pow_add]
            have : (2:Nat) ^ (7 * 1) = 128 := by decide
            rw [this]
            generalize groupVal g = x
            generalize 2 ^ (7 * k) = y
            rw [Nat.mul_comm 128 x, Nat.mul_assoc, Nat.mul_comm 128 y]
            omega
          have := ih fuel (k + 1) _ (by omega) (by omega) ha'
          rw [hn] at this
          rw [show 7 * k + 7 = 7 * (k + 1) by omega]
          revert this
          cases decodeLoop readSlice fuel _ (7 * (k + 1)) l with
          | ok n l' =>
            rintro ⟨g, rfl, h1, h2, h3⟩
            refine ⟨b :: g, rfl, ?_, by simp; omega, by rw [h3, hval]⟩
            cases g with
            | nil => exact h1.elim
            | cons c cs => exact ⟨by omega, h1⟩
          | err e l' =>
            cases e with
            | integerOverflow =>
              rintro ⟨g, rfl, h2, h3⟩
              exact ⟨b :: g, rfl, by simp; omega, by rw [hval]; exact h3⟩
            | overwideInteger =>
              rintro ⟨g, rfl, h2, h3⟩
              exact ⟨b :: g, rfl, by simp; omega, by
                intro x hx; rcases List.mem_cons.1 hx with rfl | hx
                · omega
                · exact h3 x hx⟩
            | io k =>
              cases k <;> simp
              rintro h1 h2 h3
              exact ⟨h1, ⟨by omega, h2⟩, by omega⟩
            | _ => simp

/-! ### Encoding -/

theorem encByte (i : UInt64) : ((i &&& 0x7F).toUInt8).toNat = i.toNat % 128 := by
  have : (i &&& 0x7F).toNat = i.toNat % 128 := by
    simp [UInt64.toNat_and]
    exact Nat.and_two_pow_sub_one_eq_mod i.toNat 7
  simp only [UInt64.toNat_toUInt8, this]
  omega

theorem encByte' (b : UInt8) (h : b.toNat < 128) : (b ||| 0x80).toNat = b.toNat + 128 := by
  have h' : ∀ b : Fin 128, (UInt8.ofNat b.val ||| 0x80).toNat = b.val + 128 := by decide +kernel
  have := h' ⟨b.toNat, h⟩
  simpa using this

theorem shr7 (i : UInt64) : (i >>> 7).toNat = i.toNat / 128 := by
  rw [UInt64.toNat_shiftRight, Nat.shiftRight_eq_div_pow]; rfl

/-- The encoding loop writes a group denoting its argument, of at most `fuel` bytes, whose last
digit is non-zero unless it is the only one. -/
theorem encodeLoop_group : ∀ (fuel : Nat) (i : UInt64), 0 < fuel → i.toNat < 2 ^ (7 * fuel) →
    IsGroup (encodeLoop fuel i) ∧ groupVal (encodeLoop fuel i) = i.toNat ∧
    1 ≤ (encodeLoop fuel i).length ∧ (encodeLoop fuel i).length ≤ fuel ∧
    128 ^ ((encodeLoop fuel i).length - 1) ≤ max i.toNat 1 := by
  intro fuel
  induction fuel with
  | zero => intro i h; omega
  | succ fuel ih =>
    intro i _ hi
    rw [encodeLoop]
    simp only [gt_iff_lt, UInt64.lt_iff_toNat_lt, shr7, UInt64.toNat_zero]
    split
    · rename_i hpos
      have hf : 0 < fuel := by
        rcases Nat.eq_zero_or_pos fuel with rfl | h
        · simp at hi; omega
        · exact h
      have hi' : (i >>> 7).toNat < 2 ^ (7 * fuel) := by
        rw [shr7, Nat.div_lt_iff_lt_mul (by decide)]
        rw [Nat.mul_add, Nat.pow_add] at hi; exact hi
      obtain ⟨h1, h2, h3, h4, h5⟩ := ih (i >>> 7) hf hi'
      have hb := encByte' (i &&& 0x7F).toUInt8 (by rw [encByte]; omega)
      refine ⟨?_, ?_, by simp, by simpa using h4, ?_⟩
      · generalize hg : encodeLoop fuel (i >>> 7) = g at *
        cases g with
        | nil => exact h1.elim
        | cons c cs => exact ⟨by rw [hb]; omega, h1⟩
      · rw [groupVal, h2, hb, encByte, shr7]; omega
      · rw [shr7] at h5
        simp only [List.length_cons, Nat.add_sub_cancel]
        obtain ⟨m, hm⟩ : ∃ m, (encodeLoop fuel (i >>> 7)).length = m + 1 := ⟨(encodeLoop fuel (i >>> 7)).length - 1, by omega⟩
        rw [hm] at h5 ⊢
        simp only [Nat.add_sub_cancel] at h5
        rw [Nat.pow_succ]
        omega
    · rename_i hpos
      have : i.toNat < 128 := by omega
      refine ⟨?_, ?_, by simp, by simp, by simp; omega⟩
      · show UInt8.toNat _ < 128; rw [encByte]; omega
      · simp only [groupVal, encByte]; omega

theorem encodeU64_spec (i : UInt64) :
    IsGroup (encodeU64 i) ∧ groupVal (encodeU64 i) = i.toNat ∧
    1 ≤ (encodeU64 i).length ∧ (encodeU64 i).length ≤ 10 ∧
    128 ^ ((encodeU64 i).length - 1) ≤ max i.toNat 1 :=
  encodeLoop_group 10 i (by decide) (by have := i.toNat_lt; omega)

theorem encodeFixedLoop_group : ∀ (k : Nat) (i : UInt64), 0 < k → i.toNat < 2 ^ (7 * k) →
    IsGroup (encodeFixedLoop k i) ∧ groupVal (encodeFixedLoop k i) = i.toNat ∧
    (encodeFixedLoop k i).length = k := by
  intro k
  induction k with
  | zero => intro i h; omega
  | succ k ih =>
    intro i _ hi
    rw [encodeFixedLoop]
    rcases Nat.eq_zero_or_pos k with rfl | hk
    · simp at hi
      simp only [encodeFixedLoop, ne_eq, not_true, if_false, groupVal, encByte, List.length_cons, List.length_nil]
      refine ⟨?_, by omega, trivial⟩
      show UInt8.toNat _ < 128; rw [encByte]; omega
    · have hi' : (i >>> 7).toNat < 2 ^ (7 * k) := by
        rw [shr7, Nat.div_lt_iff_lt_mul (by decide)]
        rw [Nat.mul_add, Nat.pow_add] at hi; exact hi
      obtain ⟨h1, h2, h3⟩ := ih (i >>> 7) hk hi'
      have hb := encByte' (i &&& 0x7F).toUInt8 (by rw [encByte]; omega)
      rw [if_pos (by omega)]
      refine ⟨?_, ?_, by simpa using h3⟩
      · generalize hg : encodeFixedLoop k (i >>> 7) = g at *
        cases g with
        | nil => exact h1.elim
        | cons c cs => exact ⟨by rw [hb]; omega, h1⟩
      · rw [groupVal, h2, hb, encByte, shr7]; omega

theorem encodeFixedU64_spec (i : UInt64) :
    IsGroup (encodeFixedU64 i) ∧ groupVal (encodeFixedU64 i) = i.toNat ∧
    (encodeFixedU64 i).length = 10 :=
  encodeFixedLoop_group 10 i (by decide) (by have := i.toNat_lt; omega)

/-- Decoding a group. -/
theorem decodeU64_group (g rest : List Byte) (hg : IsGroup g) (hl : g.length ≤ 257) :
    (groupVal g < 2 ^ 64 → decodeU64 readSlice (g ++ rest) = .ok (UInt64.ofNat (groupVal g)) rest) ∧
    (2 ^ 64 ≤ groupVal g → ∃ l, decodeU64 readSlice (g ++ rest) = .err .integerOverflow l) := by
  have := decodeLoop_group rest g 258 0 0 hg (by omega) (by omega) (by simp)
  simpa [decodeU64] using this

/-- A proper prefix of a group is not a group. -/
theorem isGroup_append_unique : ∀ (g h r s : List Byte), IsGroup g → IsGroup h → g ++ r = h ++ s → g = h ∧ r = s := by
  intro g
  induction g with
  | nil => intro h r s hg; exact hg.elim
  | cons b bs ih =>
    intro h r s hg hh he
    cases h with
    | nil => exact hh.elim
    | cons c cs =>
      rw [List.cons_append, List.cons_append] at he
      injection he with h1 h2
      subst h1
      cases bs with
      | nil =>
        cases cs with
        | nil => exact ⟨rfl, by simpa using h2⟩
        | cons d ds =>
          have h1 : b.toNat < 128 := hg
          have h2 : 128 ≤ b.toNat := hh.1
          omega
      | cons d ds =>
        cases cs with
        | nil =>
          have h1 : b.toNat < 128 := hh
          have h2 : 128 ≤ b.toNat := hg.1
          omega
        | cons e es =>
          obtain ⟨h3, h4⟩ := ih (e :: es) r s hg.2 hh.2 h2
          exact ⟨by rw [h3], h4⟩

end Fourleaf
