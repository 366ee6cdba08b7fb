import Verif.Lossy
import Verif.LossySpec

/-! # What `from_utf8_lossy` computes -/

namespace Fourleaf

attribute [-simp] String.length_utf8EncodeChar

@[simp] theorem encText_nil : encText [] = [] := rfl
@[simp] theorem encText_cons (c : Char) (t : List Char) : encText (c :: t) = String.utf8EncodeChar c ++ encText t := rfl
theorem encText_append (a b : List Char) : encText (a ++ b) = encText a ++ encText b := by
  simp [encText, List.flatMap_append]

theorem ofNat_val (c : Char) : Char.ofNat c.val.toNat = c := by
  exact Char.ofNat_toNat c

theorem char_range (c : Char) : c.val.toNat < 0xD800 ∨ (0xDFFF < c.val.toNat ∧ c.val.toNat < 0x110000) := by
  exact c.valid

theorem u8_nat {n : Nat} (h : n < 256) : (UInt8.ofNat n).toNat = n := by
  simp [UInt8.toNat_ofNat']; omega

@[simp] theorem safeGet_nil (i : Nat) : safeGet [] i = 0 := by simp [safeGet]
@[simp] theorem safeGet_zero (b : Byte) (l : List Byte) : safeGet (b :: l) 0 = b.toNat := by simp [safeGet]
@[simp] theorem safeGet_succ (b : Byte) (l : List Byte) (i : Nat) : safeGet (b :: l) (i + 1) = safeGet l i := by simp [safeGet]

/-- The encodings of characters, by length. -/
theorem enc_cases (c : Char) :
    (c.val.toNat ≤ 0x7F ∧ ∃ b : Byte, String.utf8EncodeChar c = [b] ∧ b.toNat = c.val.toNat) ∨
    (0x7F < c.val.toNat ∧ c.val.toNat ≤ 0x7FF ∧ ∃ b b1 : Byte, String.utf8EncodeChar c = [b, b1] ∧
      b.toNat = c.val.toNat / 64 + 0xC0 ∧ b1.toNat = c.val.toNat % 64 + 0x80) ∨
    (0x7FF < c.val.toNat ∧ c.val.toNat ≤ 0xFFFF ∧ ∃ b b1 b2 : Byte, String.utf8EncodeChar c = [b, b1, b2] ∧
      b.toNat = c.val.toNat / 4096 + 0xE0 ∧ b1.toNat = c.val.toNat / 64 % 64 + 0x80 ∧ b2.toNat = c.val.toNat % 64 + 0x80) ∨
    (0xFFFF < c.val.toNat ∧ ∃ b b1 b2 b3 : Byte, String.utf8EncodeChar c = [b, b1, b2, b3] ∧
      b.toNat = c.val.toNat / 262144 + 0xF0 ∧ b1.toNat = c.val.toNat / 4096 % 64 + 0x80 ∧
      b2.toNat = c.val.toNat / 64 % 64 + 0x80 ∧ b3.toNat = c.val.toNat % 64 + 0x80) := by
  have hr := char_range c
  unfold String.utf8EncodeChar
  generalize c.val.toNat = v at *
  by_cases h1 : v ≤ 0x7F
  · refine .inl ⟨h1, _, by rw [if_pos h1], ?_⟩
    rw [u8_nat (by omega)]
  · by_cases h2 : v ≤ 0x7FF
    · refine .inr (.inl ⟨by omega, h2, _, _, by rw [if_neg h1, if_pos h2], ?_, ?_⟩) <;> rw [u8_nat (by omega)]
      omega
    · by_cases h3 : v ≤ 0xFFFF
      · refine .inr (.inr (.inl ⟨by omega, h3, _, _, _, by rw [if_neg h1, if_neg h2, if_pos h3], ?_, ?_, ?_⟩)) <;>
          rw [u8_nat (by omega)]
        omega
      · refine .inr (.inr (.inr ⟨by omega, _, _, _, _, by rw [if_neg h1, if_neg h2, if_neg h3], ?_, ?_, ?_, ?_⟩)) <;>
          rw [u8_nat (by omega)]
        omega

theorem enc_ne_nil (c : Char) : String.utf8EncodeChar c ≠ [] := by
  rcases enc_cases c with ⟨_, b, h, _⟩ | ⟨_, _, b, b1, h, _⟩ | ⟨_, _, b, b1, b2, h, _⟩ | ⟨_, b, b1, b2, b3, h, _⟩ <;> simp [h]

/-- A whole character is found. -/
theorem step_enc (c : Char) (l : List Byte) {b : Byte} {r : List Byte} (h : String.utf8EncodeChar c ++ l = b :: r) :
    lossyStep b r = (some c, (String.utf8EncodeChar c).length - 1) := by
  have hr := char_range c
  have ho := ofNat_val c
  rcases enc_cases c with ⟨h1, x, e, hx⟩ | ⟨h0, h1, x, x1, e, hx, hx1⟩ | ⟨h0, h1, x, x1, x2, e, hx, hx1, hx2⟩ |
      ⟨h0, x, x1, x2, x3, e, hx, hx1, hx2, hx3⟩ <;> rw [e] at h ⊢ <;> simp only [List.cons_append, List.nil_append, List.cons.injEq] at h <;>
    obtain ⟨rfl, rfl⟩ := h
  · unfold lossyStep; rw [if_pos (by omega), hx, ho]; rfl
  · unfold lossyStep
    rw [if_neg (by omega), if_pos (by omega)]
    simp only [safeGet_zero]
    rw [if_pos (by simp only [isCont, Bool.and_eq_true, decide_eq_true_eq]; omega)]
    rw [show x.toNat % 32 * 64 + x1.toNat % 64 = c.val.toNat by omega, ho]; rfl
  · unfold lossyStep
    rw [if_neg (by omega), if_neg (by omega), if_pos (by omega)]
    simp only [safeGet_zero, safeGet_succ]
    rw [if_pos (by simp only [second3, Bool.and_eq_true, Bool.or_eq_true, decide_eq_true_eq, beq_iff_eq]; omega),
      if_pos (by simp only [isCont, Bool.and_eq_true, decide_eq_true_eq]; omega)]
    rw [show x.toNat % 16 * 4096 + x1.toNat % 64 * 64 + x2.toNat % 64 = c.val.toNat by omega, ho]; rfl
  · unfold lossyStep
    rw [if_neg (by omega), if_neg (by omega), if_neg (by omega), if_pos (by omega)]
    simp only [safeGet_zero, safeGet_succ]
    rw [if_pos (by simp only [second4, Bool.and_eq_true, Bool.or_eq_true, decide_eq_true_eq, beq_iff_eq]; omega),
      if_pos (by simp only [isCont, Bool.and_eq_true, decide_eq_true_eq]; omega),
      if_pos (by simp only [isCont, Bool.and_eq_true, decide_eq_true_eq]; omega)]
    rw [show x.toNat % 8 * 262144 + x1.toNat % 64 * 4096 + x2.toNat % 64 * 64 + x3.toNat % 64 = c.val.toNat by omega, ho]; rfl

theorem of_isCont {l : List Byte} {i : Nat} (h : isCont (safeGet l i) = true) : 0x80 ≤ safeGet l i ∧ safeGet l i ≤ 0xBF := by
  simpa [isCont] using h

theorem safeGet_cons {l : List Byte} (h : safeGet l 0 ≠ 0) : ∃ b l', l = b :: l' := by
  cases l with
  | nil => simp at h
  | cons b l' => exact ⟨b, l', rfl⟩

theorem of_second3 {a b : Nat} (h : second3 a b = true) : (a = 0xE0 ∧ 0xA0 ≤ b ∧ b ≤ 0xBF) ∨
    (0xE1 ≤ a ∧ a ≤ 0xEC ∧ 0x80 ≤ b ∧ b ≤ 0xBF) ∨ (a = 0xED ∧ 0x80 ≤ b ∧ b ≤ 0x9F) ∨ (0xEE ≤ a ∧ a ≤ 0xEF ∧ 0x80 ≤ b ∧ b ≤ 0xBF) := by
  simp only [second3, Bool.and_eq_true, Bool.or_eq_true, decide_eq_true_eq, beq_iff_eq] at h; omega

theorem of_second4 {a b : Nat} (h : second4 a b = true) : (a = 0xF0 ∧ 0x90 ≤ b ∧ b ≤ 0xBF) ∨
    (0xF1 ≤ a ∧ a ≤ 0xF3 ∧ 0x80 ≤ b ∧ b ≤ 0xBF) ∨ (a = 0xF4 ∧ 0x80 ≤ b ∧ b ≤ 0x8F) := by
  simp only [second4, Bool.and_eq_true, Bool.or_eq_true, decide_eq_true_eq, beq_iff_eq] at h; omega

theorem ofNat_toNat {n : Nat} (h : n < 0xD800 ∨ (0xDFFF < n ∧ n < 0x110000)) : (Char.ofNat n).val.toNat = n := by
  have hv : n.isValidChar := h
  unfold Char.ofNat
  rw [dif_pos hv]
  rfl

theorem u8_ext {a b : Byte} (h : a.toNat = b.toNat) : a = b := UInt8.toNat_inj.1 h

/-- Whatever is reported as a character is encoded there. -/
theorem step_some {b : Byte} {r : List Byte} {c : Char} {n : Nat} (h : lossyStep b r = (some c, n)) :
    b :: r = String.utf8EncodeChar c ++ r.drop n ∧ (String.utf8EncodeChar c).length = n + 1 := by
  unfold lossyStep at h
  by_cases h1 : b.toNat < 0x80
  · rw [if_pos h1] at h
    cases h
    have hv := ofNat_toNat (n := b.toNat) (by omega)
    rcases enc_cases (Char.ofNat b.toNat) with ⟨_, x, e, hx⟩ | ⟨h0, _⟩ | ⟨h0, _⟩ | ⟨h0, _⟩ <;> try omega
    rw [e]
    exact ⟨by simp [u8_ext (a := b) (b := x) (by omega)], rfl⟩
  rw [if_neg h1] at h
  by_cases h2 : 0xC2 ≤ b.toNat ∧ b.toNat ≤ 0xDF
  · rw [if_pos h2] at h
    split at h
    · next hc =>
      have hc := of_isCont hc
      obtain ⟨b1, r, rfl⟩ := safeGet_cons (l := r) (by omega)
      simp only [safeGet_zero] at h hc
      cases h
      have hv := ofNat_toNat (n := b.toNat % 32 * 64 + b1.toNat % 64) (by omega)
      rcases enc_cases (Char.ofNat (b.toNat % 32 * 64 + b1.toNat % 64)) with ⟨h0, _⟩ | ⟨_, _, x, x1, e, hx, hx1⟩ | ⟨h0, _⟩ | ⟨h0, _⟩ <;> try omega
      rw [e]
      exact ⟨by simp [u8_ext (a := b) (b := x) (by omega), u8_ext (a := b1) (b := x1) (by omega)], rfl⟩
    · cases h
  rw [if_neg h2] at h
  by_cases h3 : 0xE0 ≤ b.toNat ∧ b.toNat ≤ 0xEF
  · rw [if_pos h3] at h
    split at h
    · next hs =>
      have hs := of_second3 hs
      obtain ⟨b1, r, rfl⟩ := safeGet_cons (l := r) (by omega)
      simp only [safeGet_zero, safeGet_succ] at h hs
      split at h
      · next hc =>
        have hc := of_isCont hc
        obtain ⟨b2, r, rfl⟩ := safeGet_cons (l := r) (by omega)
        simp only [safeGet_zero] at h hc
        cases h
        have hv := ofNat_toNat (n := b.toNat % 16 * 4096 + b1.toNat % 64 * 64 + b2.toNat % 64) (by omega)
        rcases enc_cases (Char.ofNat (b.toNat % 16 * 4096 + b1.toNat % 64 * 64 + b2.toNat % 64)) with
          ⟨h0, _⟩ | ⟨h0, h0', _⟩ | ⟨_, _, x, x1, x2, e, hx, hx1, hx2⟩ | ⟨h0, _⟩ <;> try omega
        rw [e]
        exact ⟨by simp [u8_ext (a := b) (b := x) (by omega), u8_ext (a := b1) (b := x1) (by omega),
          u8_ext (a := b2) (b := x2) (by omega)], rfl⟩
      · cases h
    · cases h
  rw [if_neg h3] at h
  by_cases h4 : 0xF0 ≤ b.toNat ∧ b.toNat ≤ 0xF4
  · rw [if_pos h4] at h
    split at h
    · next hs =>
      have hs := of_second4 hs
      obtain ⟨b1, r, rfl⟩ := safeGet_cons (l := r) (by omega)
      simp only [safeGet_zero, safeGet_succ] at h hs
      split at h
      · next hc =>
        have hc := of_isCont hc
        obtain ⟨b2, r, rfl⟩ := safeGet_cons (l := r) (by omega)
        simp only [safeGet_zero, safeGet_succ] at h hc
        split at h
        · next hd =>
          have hd := of_isCont hd
          obtain ⟨b3, r, rfl⟩ := safeGet_cons (l := r) (by omega)
          simp only [safeGet_zero] at h hd
          cases h
          have hv := ofNat_toNat (n := b.toNat % 8 * 262144 + b1.toNat % 64 * 4096 + b2.toNat % 64 * 64 + b3.toNat % 64) (by omega)
          rcases enc_cases (Char.ofNat (b.toNat % 8 * 262144 + b1.toNat % 64 * 4096 + b2.toNat % 64 * 64 + b3.toNat % 64)) with
            ⟨h0, _⟩ | ⟨h0, h0', _⟩ | ⟨h0, h0', _⟩ | ⟨_, x, x1, x2, x3, e, hx, hx1, hx2, hx3⟩ <;> try omega
          rw [e]
          exact ⟨by simp [u8_ext (a := b) (b := x) (by omega), u8_ext (a := b1) (b := x1) (by omega),
            u8_ext (a := b2) (b := x2) (by omega), u8_ext (a := b3) (b := x3) (by omega)], rfl⟩
        · cases h
      · cases h
    · cases h
  rw [if_neg h4] at h
  cases h

/-- Sequences broken off: no more is dropped than the beginning of a character, or one byte. -/
theorem step_none {b : Byte} {r : List Byte} {n : Nat} (h : lossyStep b r = (none, n)) :
    n ≤ r.length ∧ (n = 0 ∨ StartsChar (b :: r.take n)) := by
  unfold lossyStep at h
  split at h
  · cases h
  split at h
  · split at h <;> cases h
    exact ⟨Nat.zero_le _, .inl rfl⟩
  split at h
  · next h1 h2 h3 =>
    split at h
    · next hs =>
      have hs' := of_second3 hs
      obtain ⟨b1, r, rfl⟩ := safeGet_cons (l := r) (by omega)
      split at h <;> cases h
      refine ⟨by simp, .inr ?_⟩
      simp only [safeGet_zero] at hs
      have hst : ∃ c, lossyStep b (b1 :: [0x80]) = (some c, 2) := by
        unfold lossyStep
        rw [if_neg h1, if_neg h2, if_pos h3]
        simp only [safeGet_zero, safeGet_succ]
        rw [if_pos hs, if_pos (by decide)]
        exact ⟨_, rfl⟩
      obtain ⟨c, hst⟩ := hst
      have hx := (step_some hst).1
      exact ⟨c, [0x80], by simpa using hx⟩
    · cases h; exact ⟨Nat.zero_le _, .inl rfl⟩
  split at h
  · next h1 h2 h3 h4 =>
    split at h
    · next hs =>
      have hs' := of_second4 hs
      obtain ⟨b1, r, rfl⟩ := safeGet_cons (l := r) (by omega)
      simp only [safeGet_zero, safeGet_succ] at hs h
      split at h
      · next hc =>
        have hc' := of_isCont hc
        obtain ⟨b2, r, rfl⟩ := safeGet_cons (l := r) (by omega)
        simp only [safeGet_zero, safeGet_succ] at hc h
        split at h <;> cases h
        refine ⟨by simp, .inr ?_⟩
        have hst : ∃ c, lossyStep b (b1 :: b2 :: [0x80]) = (some c, 3) := by
          unfold lossyStep
          rw [if_neg h1, if_neg h2, if_neg h3, if_pos h4]
          simp only [safeGet_zero, safeGet_succ]
          rw [if_pos hs, if_pos hc, if_pos (by decide)]
          exact ⟨_, rfl⟩
        obtain ⟨c, hst⟩ := hst
        have hx := (step_some hst).1
        exact ⟨c, [0x80], by simpa using hx⟩
      · cases h
        refine ⟨by simp, .inr ?_⟩
        have hst : ∃ c, lossyStep b (b1 :: 0x80 :: [0x80]) = (some c, 3) := by
          unfold lossyStep
          rw [if_neg h1, if_neg h2, if_neg h3, if_pos h4]
          simp only [safeGet_zero, safeGet_succ]
          rw [if_pos hs, if_pos (by decide), if_pos (by decide)]
          exact ⟨_, rfl⟩
        obtain ⟨c, hst⟩ := hst
        have hx := (step_some hst).1
        exact ⟨c, [0x80, 0x80], by simpa using hx⟩
    · cases h; exact ⟨Nat.zero_le _, .inl rfl⟩
  cases h
  exact ⟨Nat.zero_le _, .inl rfl⟩

/-- Everything that can be the beginning of a character is used. -/
theorem step_ge {q : List Byte} (hq : StartsChar q) {b : Byte} {r : List Byte} (h : q <+: b :: r) :
    q.length ≤ (lossyStep b r).2 + 1 := by
  obtain ⟨c, q', hc⟩ := hq
  obtain ⟨l, hl⟩ := h
  have hr := char_range c
  rcases q with _ | ⟨y, _ | ⟨y1, q⟩⟩
  · simp
  · simp
  rcases enc_cases c with ⟨h1, x, e, hx⟩ | ⟨h0, h1, x, x1, e, hx, hx1⟩ | ⟨h0, h1, x, x1, x2, e, hx, hx1, hx2⟩ |
      ⟨h0, x, x1, x2, x3, e, hx, hx1, hx2, hx3⟩ <;> rw [e] at hc <;>
    simp only [List.cons_append, List.cons.injEq] at hc hl
  · exact absurd hc.2 (by simp)
  all_goals
    obtain ⟨rfl, rfl, hc⟩ := hc
    obtain ⟨rfl, hl⟩ := hl
    subst hl
  · have hq : q = [] := by simp at hc; exact hc.1
    subst hq
    unfold lossyStep
    rw [if_neg (by omega), if_pos (by omega)]
    simp only [safeGet_zero]
    rw [if_pos (by simp only [isCont, Bool.and_eq_true, decide_eq_true_eq]; omega)]
    simp
  · unfold lossyStep
    rw [if_neg (by omega), if_neg (by omega), if_pos (by omega)]
    simp only [safeGet_zero, safeGet_succ]
    rw [if_pos (by simp only [second3, Bool.and_eq_true, Bool.or_eq_true, decide_eq_true_eq, beq_iff_eq]; omega)]
    rcases q with _ | ⟨z, q⟩
    · split <;> simp
    · simp only [List.cons_append, List.cons.injEq] at hc
      obtain ⟨rfl, hc⟩ := hc
      have hq : q = [] := by simp at hc; exact hc.1
      subst hq
      simp only [List.cons_append, safeGet_zero]
      rw [if_pos (by simp only [isCont, Bool.and_eq_true, decide_eq_true_eq]; omega)]
      simp
  · unfold lossyStep
    rw [if_neg (by omega), if_neg (by omega), if_neg (by omega), if_pos (by omega)]
    simp only [safeGet_zero, safeGet_succ]
    rw [if_pos (by simp only [second4, Bool.and_eq_true, Bool.or_eq_true, decide_eq_true_eq, beq_iff_eq]; omega)]
    rcases q with _ | ⟨z, q⟩
    · repeat' split
      all_goals simp
    · simp only [List.cons_append, List.cons.injEq] at hc
      obtain ⟨rfl, hc⟩ := hc
      simp only [List.cons_append, safeGet_zero, safeGet_succ]
      rw [if_pos (by simp only [isCont, Bool.and_eq_true, decide_eq_true_eq]; omega)]
      rcases q with _ | ⟨w, q⟩
      · split <;> simp
      · simp only [List.cons_append, List.cons.injEq] at hc
        obtain ⟨rfl, hc⟩ := hc
        have hq : q = [] := by simp at hc; exact hc.1
        subst hq
        simp only [List.cons_append, safeGet_zero]
        rw [if_pos (by simp only [isCont, Bool.and_eq_true, decide_eq_true_eq]; omega)]
        simp

theorem step_le (b : Byte) (r : List Byte) : (lossyStep b r).2 ≤ r.length := by
  rcases h : lossyStep b r with ⟨_ | c, n⟩
  · exact (step_none h).1
  · obtain ⟨h1, h2⟩ := step_some h
    have := congrArg List.length h1
    simp only [List.length_cons, List.length_append, List.length_drop] at this ⊢
    omega

/-- `lossyGo` computes what the specification says. -/
theorem lossyGo_spec : ∀ (f : Nat) (bs : List Byte), bs.length ≤ f → LossyText bs (lossyGo f bs)
  | 0, [], _ => .nil
  | 0, _ :: _, h => by simp at h
  | _ + 1, [], _ => .nil
  | f + 1, b :: r, h => by
    unfold lossyGo
    have hrec := lossyGo_spec f (r.drop (lossyStep b r).2) (by simp at h ⊢; omega)
    rcases hs : lossyStep b r with ⟨_ | c, n⟩ <;> rw [hs] at hrec
    · obtain ⟨h1, h2⟩ := step_none hs
      have e : b :: r = (b :: r.take n) ++ r.drop n := by simp
      have hp : (b :: r.take n).length = n + 1 := by simp; omega
      have key : ∀ q, q <+: (b :: r.take n) ++ r.drop n → (b :: r.take n).length < q.length → ¬ StartsChar q := by
        intro q hq hl hst
        rw [← e] at hq
        have := step_ge hst hq
        rw [hs] at this
        simp only at this
        omega
      have hbad := LossyText.bad (b :: r.take n) (l := r.drop n) (by simp) (by
        rintro c ⟨l, hc⟩
        rw [← e] at hc
        have := step_enc c l hc
        rw [hs] at this
        cases this) (by
        rcases h2 with rfl | h2
        · exact .inl (by simp)
        · exact .inr h2) key hrec
      rw [← e] at hbad
      exact hbad
    · obtain ⟨h1, h2⟩ := step_some hs
      have := LossyText.char c hrec
      rw [← h1] at this
      exact this

theorem lossy_spec (bs : List Byte) : LossyText bs (lossy bs) := lossyGo_spec _ bs (Nat.le_refl _)

theorem enc_prefix_inj {c d : Char} {l m : List Byte} (h : String.utf8EncodeChar c ++ l = String.utf8EncodeChar d ++ m) :
    c = d ∧ l = m := by
  cases he : String.utf8EncodeChar d ++ m with
  | nil => simp [enc_ne_nil d] at he
  | cons b r =>
    have h1 := step_enc c l (h.trans he)
    have h2 := step_enc d m he
    rw [h1] at h2
    simp only [Prod.mk.injEq, Option.some.injEq] at h2
    obtain ⟨rfl, _⟩ := h2
    exact ⟨rfl, List.append_cancel_left h⟩

/-- The specification leaves no choice. -/
theorem LossyText.unique {bs : List Byte} {t : List Char} (h : LossyText bs t) : ∀ {u}, LossyText bs u → u = t := by
  induction h with
  | nil =>
    intro u hu
    generalize he : ([] : List Byte) = x at hu
    cases hu with
    | nil => rfl
    | char c _ => simp [enc_ne_nil c] at he
    | bad p hp _ _ _ _ => simp [hp] at he
  | @char c l t _ ih =>
    intro u hu
    generalize he : String.utf8EncodeChar c ++ l = x at hu
    cases hu with
    | nil => simp [enc_ne_nil c] at he
    | char d hd => obtain ⟨rfl, rfl⟩ := enc_prefix_inj he; rw [ih hd]
    | bad p hp hn _ _ _ => exact absurd ⟨l, he⟩ (hn c)
  | @bad p l t hp hn hs hm _ ih =>
    intro u hu
    generalize he : p ++ l = x at hu
    cases hu with
    | nil => simp [hp] at he
    | char d hd => exact absurd ⟨_, he.symm⟩ (hn d)
    | @bad p' l' t' hp' hn' hs' hm' hr =>
      have hlen : p.length = p'.length := by
        have h0 : 0 < p.length := List.length_pos_iff.2 hp
        have h0' : 0 < p'.length := List.length_pos_iff.2 hp'
        apply Nat.le_antisymm
        · apply Nat.le_of_not_lt
          intro hlt
          rcases hs with hs | hs
          · omega
          · exact hm' p ⟨l, he⟩ hlt hs
        · apply Nat.le_of_not_lt
          intro hlt
          rcases hs' with hs' | hs'
          · omega
          · exact hm p' ⟨l', he.symm⟩ hlt hs'
      obtain ⟨rfl, rfl⟩ := List.append_inj he hlen
      rw [ih hr]

theorem lossy_eq {bs : List Byte} {t : List Char} (h : LossyText bs t) : lossy bs = t := h.unique (lossy_spec bs)

/-- Text comes back. -/
theorem lossy_encText : ∀ t : List Char, lossy (encText t) = t := by
  intro t
  refine lossy_eq ?_
  induction t with
  | nil => exact .nil
  | cons c t ih => exact .char c ih

/-- Text cut off after some bytes: the characters that are still whole, and one U+FFFD if a character was cut. -/
theorem lossyText_cut : ∀ (t : List Char) (n : Nat), ∃ a b, t = a ++ b ∧ (encText a).length ≤ n ∧
    (∀ c, b.head? = some c → n < (encText (a ++ [c])).length) ∧
    LossyText ((encText t).take n) (a ++ if (encText a).length = min n (encText t).length then [] else ['\uFFFD'])
  | [], n => ⟨[], [], rfl, by simp, by simp, by simpa using LossyText.nil⟩
  | c :: t, n => by
    by_cases hn : (String.utf8EncodeChar c).length ≤ n
    · obtain ⟨a, b, h1, h2, h3, h4⟩ := lossyText_cut t (n - (String.utf8EncodeChar c).length)
      refine ⟨c :: a, b, by rw [h1]; rfl, by simp; omega, ?_, ?_⟩
      · intro d hd
        have := h3 d hd
        simp at this ⊢
        omega
      · have := LossyText.char c h4
        rw [encText_cons, List.take_append, List.take_of_length_le hn]
        have e : (encText (c :: a)).length = min n (encText (c :: t)).length ↔
            (encText a).length = min (n - (String.utf8EncodeChar c).length) (encText t).length := by
          simp; omega
        simp only [encText_cons] at e ⊢
        simp only [e, List.cons_append]
        exact this
    · have hlt : n < (String.utf8EncodeChar c).length := by omega
      refine ⟨[], c :: t, rfl, by simp, ?_, ?_⟩
      · intro d hd
        simp at hd; subst hd
        simpa using hlt
      · have e : (encText (c :: t)).take n = (String.utf8EncodeChar c).take n := by
          rw [encText_cons, List.take_append_of_le_length (by omega)]
        rw [e]
        by_cases h0 : n = 0
        · subst h0; simpa using LossyText.nil
        · have hlen : ((String.utf8EncodeChar c).take n).length = n := by simp; omega
          rw [if_neg (by simp; omega)]
          have := LossyText.bad ((String.utf8EncodeChar c).take n) (l := []) (by
              intro h; rw [h] at hlen; simp at hlen; omega) (by
              rintro d ⟨l, hd⟩
              simp only [List.append_nil] at hd
              have e2 : String.utf8EncodeChar c ++ [] = String.utf8EncodeChar d ++ (l ++ (String.utf8EncodeChar c).drop n) := by
                rw [List.append_nil, ← List.append_assoc, hd, List.take_append_drop]
              obtain ⟨rfl, _⟩ := enc_prefix_inj e2
              have := congrArg List.length hd
              simp at this; omega)
            (.inr ⟨c, List.take_prefix _ _⟩) (by
              intro q hq hl
              have := hq.length_le
              simp at this hl; omega) .nil
          simpa using this

end Fourleaf
