import Verif.PropsTok

/-! # C15: the input ends at an arbitrary place

The theorems are about every state `s'` a reading client `p` can have brought a stream to, over any bytes and any
reader. `s1` is the stream after `commit` (what was left of a blob has been skipped), and the input ends after `tail`, a proper
prefix of the spelling `tail ++ more` of some element. -/

namespace Fourleaf.Props
open Fourleaf Spec

/-- The number of bytes of the spelling `enc` before the content of a blob or exception. -/
def headLen (tok : Tok) (enc : List Byte) : Nat :=
  match tok with
  | .blob _ data => enc.length - data.length
  | .exception msg => enc.length - msg.length
  | _ => enc.length

/-- Decoding an integer whose bytes are cut off. -/
theorem decodeU64_cut {s : Stream} {n : Nat} {g more : List Byte} (hb : Benign s.inner.sched) (hn : n < 2 ^ 64)
    (hg : EncInt n (g ++ more)) (hm : more ≠ []) (hr : s.rest = g) (hp : s.pos + g.length < U64MAX) :
    ∃ sc, sc <:+ s.inner.sched ∧ decodeU64 (readByte false) s = .err (.io .unexpectedEof) (advBy s g.length sc) := by
  obtain ⟨h1, h2, h3⟩ := hg
  have key : ∀ (g : List Byte) (fuel k : Nat) (a : UInt64) (s : Stream), Benign s.inner.sched → IsGroup (g ++ more) →
      g.length < fuel → k + (g ++ more).length ≤ 257 → a.toNat < 2 ^ (7 * k) →
      a.toNat + groupVal (g ++ more) * 2 ^ (7 * k) < 2 ^ 64 → s.rest = g → s.pos + g.length < U64MAX →
      ∃ sc, sc <:+ s.inner.sched ∧ decodeLoop (readByte false) fuel a (7 * k) s =
        .err (.io .unexpectedEof) (advBy s g.length sc) := by
    intro g
    induction g with
    | nil =>
      intro fuel k a s hb hg hf hk ha hv hr hp
      cases fuel with
      | zero => simp at hf
      | succ fuel =>
        rcases readByte_spec false s with ⟨h, -⟩ | ⟨-, sc, hsc, h⟩
        · simp at hp; omega
        · rcases h with ⟨b, l, h, -⟩ | ⟨-, h, -⟩ | ⟨-, -, h⟩ | ⟨h, -⟩
          · rw [hr] at h; cases h
          · cases h
          · refine ⟨sc, hsc, ?_⟩
            simp only [decodeLoop]; rw [M.bind_err h]; rfl
          · exact absurd hb h
    | cons b bs ih =>
      intro fuel k a s hb hg hf hk ha hv hr hp
      cases fuel with
      | zero => simp at hf
      | succ fuel =>
        obtain ⟨sc, hs, hrd⟩ := readByte_at false hb hr (by simp at hp; omega)
        rw [decodeLoop_step _ _ _ _ _ _ _ hrd ha]
        rw [List.cons_append] at hv hg hk
        have hgv : groupVal (b :: (bs ++ more)) = b.toNat % 128 + 128 * groupVal (bs ++ more) := rfl
        have e7 : 2 ^ (7 * (k + 1)) = 2 ^ (7 * k) * 128 := by rw [Nat.mul_add, Nat.pow_add]
        have hmul : groupVal (b :: (bs ++ more)) * 2 ^ (7 * k) =
            b.toNat % 128 * 2 ^ (7 * k) + groupVal (bs ++ more) * 2 ^ (7 * (k + 1)) := by
          rw [hgv, e7, Nat.add_mul]
          congr 1
          rw [Nat.mul_comm 128, Nat.mul_assoc, Nat.mul_comm 128]
        rw [hmul] at hv
        rw [if_neg (by omega)]
        have hgc : 128 ≤ b.toNat ∧ IsGroup (bs ++ more) := by
          cases hbm : bs ++ more with
          | nil => simp at hbm; exact absurd hbm.2 hm
          | cons c cs => rw [hbm] at hg; exact ⟨by have := hg.1; omega, hg.2⟩
        rw [if_neg (by omega)]
        have hlen : 1 ≤ (bs ++ more).length := by
          cases hbm : bs ++ more with
          | nil => simp at hbm; exact absurd hbm.2 hm
          | cons c cs => simp
        rw [if_neg (by rw [List.length_cons] at hk; omega)]
        have hbk : a.toNat + b.toNat % 128 * 2 ^ (7 * k) < 2 ^ (7 * (k + 1)) := by
          rw [e7]
          have : b.toNat % 128 * 2 ^ (7 * k) ≤ 127 * 2 ^ (7 * k) := Nat.mul_le_mul_right _ (by omega)
          omega
        have hN : (UInt64.ofNat (a.toNat + b.toNat % 128 * 2 ^ (7 * k))).toNat
            = a.toNat + b.toNat % 128 * 2 ^ (7 * k) := by
          rw [UInt64.toNat_ofNat']; exact Nat.mod_eq_of_lt (by omega)
        obtain ⟨sc2, hs2, h2⟩ := ih fuel (k + 1) (UInt64.ofNat (a.toNat + b.toNat % 128 * 2 ^ (7 * k)))
          (advBy s 1 sc) (hb.suffix hs) hgc.2 (by simp at hf ⊢; omega) (by rw [List.length_cons] at hk; omega)
          (by rw [hN]; exact hbk) (by rw [hN]; omega)
          (by rw [advBy_rest, hr]; rfl) (by simp at hp ⊢; omega)
        refine ⟨sc2, hs2.trans hs, ?_⟩
        rw [show 7 * k + 7 = 7 * (k + 1) by omega, h2, advBy_advBy]
        simp only [List.length_cons]
        congr 2
        omega
  have hgl : g.length ≤ 257 := by simp at h2; omega
  obtain ⟨sc, hs, h⟩ := key g 258 0 0 s hb h1 (by omega) (by omega) (by simp) (by
    simp only [Nat.mul_zero, Nat.pow_zero, Nat.mul_one, UInt64.toNat_zero, Nat.zero_add, h3]; exact hn) hr hp
  exact ⟨sc, hs, by unfold decodeU64; exact h⟩

/-- Reading the header of a blob does not need its content. -/
theorem nextBlob_head {s : Stream} {len : Nat} {g l : List Byte} (hb : Benign s.inner.sched)
    (hg : EncInt len g) (hd : len < 2 ^ 64) (hr : s.rest = g ++ l) (hp : s.pos + g.length + len ≤ U64MAX) :
    ∃ sc, sc <:+ s.inner.sched ∧ nextBlob s = .ok len
      { advBy s g.length sc with blobEnd := s.pos + g.length + len, commit := some .skipBlob, live := true } := by
  have hn : (UInt64.ofNat len).toNat = len := by
    rw [UInt64.toNat_ofNat']; exact Nat.mod_eq_of_lt hd
  obtain ⟨sc, hs, h⟩ := decodeU64_at (n := UInt64.ofNat len) hb (by rw [hn]; exact hg) hr (by omega)
  refine ⟨sc, hs, ?_⟩
  unfold nextBlob
  rw [M.bind_ok h]
  have hch : checkAdvance (UInt64.ofNat len).toNat (advBy s g.length sc) = .ok () (advBy s g.length sc) := by
    rw [checkAdvance_eq, hn, if_neg (by simp; omega)]
  rw [M.bind_ok hch, M.bind_ok (M.modify_apply _ _), M.pure_apply, hn]
  rfl

theorem nextBlob_cut {s : Stream} {len : Nat} {g more : List Byte} (hb : Benign s.inner.sched) (hn : len < 2 ^ 64)
    (hg : EncInt len (g ++ more)) (hm : more ≠ []) (hr : s.rest = g) (hp : s.pos + g.length < U64MAX) :
    ∃ sc, sc <:+ s.inner.sched ∧ nextBlob s = .err (.io .unexpectedEof) (advBy s g.length sc) := by
  obtain ⟨sc, h1, h2⟩ := decodeU64_cut hb hn hg hm hr hp
  exact ⟨sc, h1, by unfold nextBlob; rw [M.bind_err h2]⟩

/-- A cut inside the header: the descriptor is there, the integer after it is not complete. -/
theorem readElement_cut {s : Stream} {tok : Tok} {tail more : List Byte} (hb : Benign s.inner.sched)
    (hr : s.rest = tail) (ht : EncTok tok (tail ++ more)) (hm : more ≠ []) (hp : s.pos + (tail ++ more).length ≤ U64MAX)
    (h0 : tail ≠ []) (hh : tail.length < headLen tok (tail ++ more)) :
    ∃ s', readElement s = .err (.io .unexpectedEof) s' := by
  have hml : 1 ≤ more.length := by cases more with | nil => exact absurd rfl hm | cons => simp
  cases tail with
  | nil => exact absurd rfl h0
  | cons d g =>
    obtain ⟨sc, hs, hrd⟩ := readByte_at true hb hr (by simp at hp; omega)
    have hfix := depth_fix (s := s) (v := ⟨0, s.depth, false, none, []⟩) (k := 1) (sc := sc) rfl
    generalize hs2 : ({ advBy s 1 sc with depth := max s.depth 1 } : Stream) = s2
    have hben2 : Benign s2.inner.sched := by rw [← hs2]; exact hb.suffix hs
    have hrest2 : s2.rest = g := by
      rw [← hs2]; show (advBy s 1 sc).rest = _; rw [advBy_rest, hr]; rfl
    have hpos2 : s2.pos + g.length < U64MAX := by rw [← hs2]; simp at hp ⊢; omega
    have hrest1 : (advBy s 1 sc).rest = g := by rw [advBy_rest, hr]; rfl
    have intCase : ∀ (n : Nat) (g' more' : List Byte), g = g' → n < 2 ^ 64 → EncInt n (g' ++ more') → more' ≠ [] →
        ∃ s', decodeU64 (readByte false) s2 = .err (.io .unexpectedEof) s' := by
      intro n g' more' he hn hg hm'
      obtain ⟨sc2, -, h⟩ := decodeU64_cut hben2 hn hg hm' (hrest2.trans he) (by rw [← he]; exact hpos2)
      exact ⟨_, h⟩
    unfold readElement
    rw [hrd]; dsimp only
    generalize henc : d :: g ++ more = enc at ht hh hp
    cases ht with
    | @enum tag disc d' g' h1 h2 h3 =>
      simp only [List.cons_append, List.cons.injEq] at henc
      obtain ⟨rfl, rfl⟩ := henc
      rw [parse_pair h1 h2]; dsimp only
      rw [hfix, hs2]
      obtain ⟨s', h⟩ := intCase _ _ _ rfl disc.toNat_lt h3 hm
      simp only [nextValue, tyOf]
      exact ⟨s', by rw [M.bind_err (M.bind_err h)]⟩
    | @int tag n d' g' h1 h2 h3 =>
      simp only [List.cons_append, List.cons.injEq] at henc
      obtain ⟨rfl, rfl⟩ := henc
      rw [parse_pair h1 h2]; dsimp only
      rw [hfix, hs2]
      obtain ⟨s', h⟩ := intCase _ _ _ rfl n.toNat_lt h3 hm
      simp only [nextValue, tyOf]
      exact ⟨s', by rw [M.bind_err (M.bind_err h)]⟩
    | @blob tag data d' g' h1 h2 h3 h4 =>
      simp only [List.cons_append, List.cons.injEq] at henc
      obtain ⟨rfl, henc⟩ := henc
      rw [parse_pair h1 h2]; dsimp only
      rw [hfix, hs2]
      simp only [headLen, List.length_cons, List.length_append] at hh
      obtain ⟨m', rfl⟩ : ∃ m', g' = g ++ m' := by
        refine ⟨g'.drop g.length, ?_⟩
        have := congrArg (List.take g.length) henc
        rw [List.take_left, List.take_append_of_le_length (by omega)] at this
        conv => lhs; rw [← List.take_append_drop g.length g', ← this]
      obtain ⟨sc2, -, h⟩ := nextBlob_cut hben2 h4 h3 (by intro h; subst h; simp at hh) hrest2 hpos2
      simp only [nextValue, tyOf]
      exact ⟨_, by rw [M.bind_err (M.bind_err h)]⟩
    | @exception msg g' h3 h4 =>
      simp only [List.cons_append, List.cons.injEq] at henc
      obtain ⟨rfl, henc⟩ := henc
      rw [show Desc.parse (2 * 64) = some (.special .exception) by decide]; dsimp only
      simp only [headLen, List.length_cons, List.length_append] at hh
      obtain ⟨m', rfl⟩ : ∃ m', g' = g ++ m' := by
        refine ⟨g'.drop g.length, ?_⟩
        have := congrArg (List.take g.length) henc
        rw [List.take_left, List.take_append_of_le_length (by omega)] at this
        conv => lhs; rw [← List.take_append_drop g.length g', ← this]
      have hp1 : (advBy s 1 sc).pos + g.length < U64MAX := by
        have : s2.pos = (advBy s 1 sc).pos := by rw [← hs2]
        omega
      obtain ⟨sc2, -, h⟩ := nextBlob_cut (s := advBy s 1 sc) (hb.suffix hs) h4 h3 (by intro h; subst h; simp at hh) hrest1 hp1
      exact ⟨_, by rw [M.bind_err h]⟩
    | @struct tag d' h1 h2 => simp at henc; exact absurd henc.2.2 hm
    | endStruct => simp at henc; exact absurd henc.2.2 hm
    | endDoc => simp at henc; exact absurd henc.2.2 hm
    | padding => simp at henc; exact absurd henc.2.2 hm

/-- A cut inside the content: the element is returned. -/
theorem readElement_content {s : Stream} {tok : Tok} {tail more : List Byte} (hb : Benign s.inner.sched) (hcm : s.commit = none)
    (hr : s.rest = tail) (ht : EncTok tok (tail ++ more)) (hm : more ≠ []) (hp : s.pos + (tail ++ more).length ≤ U64MAX)
    (hh : headLen tok (tail ++ more) ≤ tail.length) :
    ∃ (content : List Byte) (s' : Stream), contentOf tok = some content ∧ readElement s = .ok (elemOf s.pos s.depth tok) s' ∧
      s'.commit = some .skipBlob ∧ s'.live = true ∧ s'.blobEnd = s.pos + (tail ++ more).length ∧
      s'.pos + content.length = s'.blobEnd ∧ s'.rest.length + more.length = content.length ∧ s'.eof = s.eof := by
  have hml : 1 ≤ more.length := by cases more with | nil => exact absurd rfl hm | cons => simp
  generalize henc : tail ++ more = enc at ht hh hp
  have hlen : tail.length + more.length = enc.length := by rw [← henc]; simp
  cases ht with
  | enum => simp [headLen] at hh hlen; omega
  | int => simp [headLen] at hh hlen; omega
  | struct => simp [headLen] at hh hlen; omega
  | endStruct => simp [headLen] at hh hlen; omega
  | endDoc => simp [headLen] at hh hlen; omega
  | padding => simp [headLen] at hh hlen; omega
  | @blob tag data d g h1 h2 h3 h4 =>
    simp only [headLen, List.length_cons, List.length_append] at hh hlen hp
    obtain ⟨l, rfl⟩ : ∃ l, tail = d :: g ++ l := by
      refine ⟨tail.drop (d :: g).length, ?_⟩
      have := congrArg (List.take (d :: g).length) henc
      rw [List.take_left, List.take_append_of_le_length (by simp; omega)] at this
      conv => lhs; rw [← List.take_append_drop (d :: g).length tail, this]
    obtain ⟨sc, hs, hrd⟩ := readByte_at (b := d) (l := g ++ l) true hb (by rw [hr]; simp) (by omega)
    have hfix := depth_fix (s := s) (v := ⟨0, s.depth, false, none, []⟩) (k := 1) (sc := sc) rfl
    obtain ⟨sc2, hs2, hd⟩ := nextBlob_head (s := { advBy s 1 sc with depth := max s.depth 1 }) (l := l) (hb.suffix hs) h3 h4
      (by show (advBy s 1 sc).rest = _; rw [advBy_rest, hr]; simp) (by simp; omega)
    refine ⟨data, { advBy s (1 + g.length) sc2 with
        depth := max s.depth 1, blobEnd := s.pos + 1 + g.length + data.length, commit := some .skipBlob, live := true }, rfl, ?_, rfl, rfl, ?_, ?_, ?_, ?_⟩
    · unfold readElement
      rw [hrd]; dsimp only
      rw [parse_pair h1 h2]; dsimp only
      rw [hfix]
      simp only [nextValue, tyOf]
      rw [M.bind_ok (a := .blob data.length) (s' := { advBy s (1 + g.length) sc2 with
        depth := max s.depth 1, blobEnd := s.pos + 1 + g.length + data.length, commit := some .skipBlob, live := true })]
      · simp [elemOf]
      · rw [M.bind_ok hd, M.pure_apply]
        simp [advBy, Nat.add_assoc]
    · simp; omega
    · simp; omega
    · show (advBy s (1 + g.length) sc2).rest.length + _ = _
      rw [advBy_rest, hr]
      simp at hlen ⊢; omega
    · rfl
  | @exception msg g h3 h4 =>
    simp only [headLen, List.length_cons, List.length_append] at hh hlen hp
    obtain ⟨l, rfl⟩ : ∃ l, tail = 2 * 64 :: g ++ l := by
      refine ⟨tail.drop ((2 * 64 : UInt8) :: g).length, ?_⟩
      have := congrArg (List.take ((2 * 64 : UInt8) :: g).length) henc
      rw [List.take_left, List.take_append_of_le_length (by simp; omega)] at this
      conv => lhs; rw [← List.take_append_drop ((2 * 64 : UInt8) :: g).length tail, this]
    obtain ⟨sc, hs, hrd⟩ := readByte_at (b := 2 * 64) (l := g ++ l) true hb (by rw [hr]; simp) (by omega)
    obtain ⟨sc2, hs2, hd⟩ := nextBlob_head (s := advBy s 1 sc) (l := l) (hb.suffix hs) h3 h4
      (by rw [advBy_rest, hr]; simp) (by simp; omega)
    refine ⟨msg, { advBy s (1 + g.length) sc2 with
        blobEnd := s.pos + 1 + g.length + msg.length, commit := some .skipBlob, live := true }, rfl, ?_, rfl, rfl, ?_, ?_, ?_, ?_⟩
    · unfold readElement
      rw [hrd]; dsimp only
      rw [show Desc.parse (2 * 64) = some (.special .exception) by decide]; dsimp only
      rw [M.bind_ok hd, M.pure_apply]
      simp [advBy, Nat.add_assoc, elemOf]
    · simp; omega
    · simp; omega
    · show (advBy s (1 + g.length) sc2).rest.length + _ = _
      rw [advBy_rest, hr]
      simp at hlen ⊢; omega
    · rfl

theorem commit_again {s s1 : Stream} (h : commit s = .ok () s1) (he0 : s.eof = false) (he : s1.eof = s.eof) (hn : s1.commit = none) (sp : Bool) :
    nextElementImpl sp s = nextElementImpl sp s1 := by
  have h1 : commit s1 = .ok () s1 := by simp [commit, hn]
  unfold nextElementImpl
  rw [he, he0, M.bind_ok h, M.bind_ok h1]
  rfl

/-- Padding before what is left. -/
theorem skipPads : ∀ (n fuel : Nat) (s : Stream) (tail : List Byte), Benign s.inner.sched → s.rest = List.replicate n 0xC0 ++ tail →
    s.pos + n ≤ U64MAX → n < fuel → ∃ sc, sc <:+ s.inner.sched ∧ ∃ f, skipPadLoop fuel s = skipPadLoop (f + 1) (advBy s n sc) := by
  intro n
  induction n with
  | zero =>
    intro fuel s tail hb hr hp hf
    exact ⟨s.inner.sched, List.suffix_refl _, fuel - 1, by rw [show fuel - 1 + 1 = fuel by omega]; rfl⟩
  | succ n ih =>
    intro fuel s tail hb hr hp hf
    cases fuel with
    | zero => omega
    | succ fuel =>
      rw [List.replicate_succ, List.cons_append] at hr
      obtain ⟨sc, hs, hrd⟩ := readByte_at true hb hr (by omega)
      have h1 : readElement s = .ok .padding (advBy s 1 sc) := by
        unfold readElement
        rw [hrd]; dsimp only
        rw [show Desc.parse 0xC0 = some (.special .padding) by decide]
      obtain ⟨sc2, hs2, f, h2⟩ := ih fuel (advBy s 1 sc) tail (hb.suffix hs) (by rw [advBy_rest, hr]; rfl) (by simp; omega) (by omega)
      refine ⟨sc2, hs2.trans hs, f, ?_⟩
      rw [skipPadLoop, M.bind_ok h1, M.ite_apply, if_pos (by rfl), h2, advBy_advBy, Nat.add_comm 1 n]

/-- **C15** The input ends where a descriptor is expected (right there for `next_element`, after any padding for `next_field`): with graceful EOF that is an
explicit end of document, without it an error. After any client program. -/
theorem c15_ends_at_element {ε U α : Type} (p : Prog ε U α) (s : Stream) (u : U) (hs : Fresh s) (hb : Benign s.inner.sched)
    (s1 : Stream) (n : Nat) :
    let s' := (p.run (s, u)).state.1
    s'.eof = false → commit s' = .ok () s1 → s1.inner.data.drop s1.inner.pos = List.replicate n 0xC0 → s1.pos + n < U64MAX →
    (s.graceful = true → ∃ s2, nextField s' = .ok none s2 ∧ s2.eof = true ∧ s2.depth = 0 ∧ (n = 0 → nextElement s' = .ok .endOfDoc s2)) ∧
    (s.graceful = false → ∃ s2, nextField s' = .err (.io .unexpectedEof) s2 ∧ (n = 0 → nextElement s' = .err (.io .unexpectedEof) s2)) := by
  intro s' he hc hr hp
  have hst : Step s s' := (p.run_safe (s, u) hs.inv).step
  have hC := commit_safe hst.inv
  obtain ⟨c1, c2, c3, -⟩ := hC.2 _ _ hc
  have hst1 : Step s' s1 := by have := hC.1.step; rw [hc] at this; exact this
  have hg1 : s1.graceful = s.graceful := hst1.frame.graceful.trans hst.frame.graceful
  have hb1 : Benign s1.inner.sched := step_ben hst1 (step_ben hst hb)
  have heof1 : s1.eof = false := c2.trans he
  have hr1 : s1.rest = List.replicate n 0xC0 ++ [] := by rw [List.append_nil]; exact hr
  have hf1 : Fresh s1 := ⟨hst1.inv.pos_le, heof1, c1, hst1.inv.notLive c1⟩
  have hE : nextElement s' = nextElement s1 := commit_again hc he c2 c1 false
  have hF : nextField s' = nextField s1 := by unfold nextField; rw [M.bind_apply, M.bind_apply, commit_again hc he c2 c1 true]
  have hrl := rest_length s1
  rw [hr1] at hrl
  simp at hrl
  obtain ⟨sc, hsc, f, hpad⟩ := skipPads n (s1.inner.data.length - s1.inner.pos + 2) s1 [] hb1 hr1 (by omega) (by omega)
  have hf2 : Fresh (advBy s1 n sc) := ⟨by simp; omega, heof1, c1, hf1.live⟩
  have hrest2 : (advBy s1 n sc).rest = [] := by rw [advBy_rest, hr1]; simp
  obtain ⟨k1, k2⟩ := c15_eof_at_descriptor (advBy s1 n sc) hf2 (hb1.suffix hsc) hrest2 (by simp; omega)
  have hI : nextElementImpl true s1 = skipPadLoop (f + 1) (advBy s1 n sc) := by
    rw [nextElementImpl_fresh hf1 true]; exact hpad
  have hone : ∀ r, nextElement (advBy s1 n sc) = r → (∀ x, r ≠ .ok .padding x) → skipPadLoop (f + 1) (advBy s1 n sc) = r := by
    intro r h hne
    have h' : readElement (advBy s1 n sc) = r := by rw [← h]; exact (nextElementImpl_fresh hf2 false).symm
    cases r with
    | err e x => rw [skipPadLoop, M.bind_err h']
    | ok a x =>
      rw [skipPadLoop, M.bind_ok h', M.ite_apply, if_neg (by rintro rfl; exact hne x rfl)]; rfl
  have zero : n = 0 → ∀ r, nextElement (advBy s1 n sc) = r → (∀ x, r ≠ .ok .padding x) → skipPadLoop (s1.inner.data.length - s1.inner.pos + 2) s1 = r := by
    intro _ r h hne
    rw [hpad]; exact hone r h hne
  have elem : n = 0 → ∀ r, nextElement (advBy s1 n sc) = r → (∀ x, r ≠ .ok .padding x) → nextElement s' = r := by
    intro hn r h hne
    have h1 := zero hn r h hne
    rw [hE]
    have h2 : readElement s1 = r := by
      cases hre : readElement s1 with
      | err e x => rw [skipPadLoop, M.bind_err hre] at h1; exact h1
      | ok a x =>
        rw [skipPadLoop, M.bind_ok hre, M.ite_apply] at h1
        by_cases ha : a = .padding
        · exfalso
          subst hn ha
          obtain ⟨q1, q2⟩ := c15_eof_at_descriptor s1 hf1 hb1 hr1 (by omega)
          have hq : nextElement s1 = .ok .padding x := (nextElementImpl_fresh hf1 false).trans hre
          cases hgr : s1.graceful with
          | true => obtain ⟨y, hy, -⟩ := q1 hgr; rw [hq] at hy; cases hy
          | false => obtain ⟨y, hy, -⟩ := q2 hgr; rw [hq] at hy; cases hy
        · rw [if_neg ha] at h1; exact h1
    exact (nextElementImpl_fresh hf1 false).trans h2
  constructor
  · intro hg
    obtain ⟨s2, a1, a2, a3, -⟩ := k1 (by show s1.graceful = true; rw [hg1, hg])
    refine ⟨s2, ?_, a2, a3, fun hn => elem hn _ a1 (by intro x h; cases h)⟩
    rw [hF]; unfold nextField
    rw [M.bind_ok (hI.trans (hone _ a1 (by intro x h; cases h)))]; rfl
  · intro hg
    obtain ⟨s2, a1, -⟩ := k2 (by show s1.graceful = false; rw [hg1, hg])
    refine ⟨s2, ?_, fun hn => elem hn _ a1 (by intro x h; cases h)⟩
    rw [hF]; unfold nextField
    rw [M.bind_err (hI.trans (hone _ a1 (by intro x h; cases h)))]

/-- **C15** The input ends inside the header of an element (after the descriptor byte, inside the integer that follows it: a value, a discriminant, a length):
an error, with or without graceful EOF, at every such place. After any client program. -/
theorem c15_ends_inside_header {ε U α : Type} (p : Prog ε U α) (s : Stream) (u : U) (hs : Fresh s) (hb : Benign s.inner.sched)
    (s1 : Stream) (n : Nat) (tok : Tok) (tail more : List Byte) (ht : EncTok tok (tail ++ more)) (hm : more ≠ []) (h0 : tail ≠ [])
    (hh : tail.length < headLen tok (tail ++ more)) :
    let s' := (p.run (s, u)).state.1
    s'.eof = false → commit s' = .ok () s1 → s1.inner.data.drop s1.inner.pos = List.replicate n 0xC0 ++ tail →
    s1.pos + n + (tail ++ more).length ≤ U64MAX →
    (∃ s2, nextField s' = .err (.io .unexpectedEof) s2) ∧ (n = 0 → ∃ s2, nextElement s' = .err (.io .unexpectedEof) s2) := by
  intro s' he hc hr hp
  have hst : Step s s' := (p.run_safe (s, u) hs.inv).step
  have hC := commit_safe hst.inv
  obtain ⟨c1, c2, c3, -⟩ := hC.2 _ _ hc
  have hst1 : Step s' s1 := by have := hC.1.step; rw [hc] at this; exact this
  have hb1 : Benign s1.inner.sched := step_ben hst1 (step_ben hst hb)
  have heof1 : s1.eof = false := c2.trans he
  have hr1 : s1.rest = List.replicate n 0xC0 ++ tail := hr
  have hf1 : Fresh s1 := ⟨hst1.inv.pos_le, heof1, c1, hst1.inv.notLive c1⟩
  have hrl := rest_length s1
  rw [hr1] at hrl
  simp at hrl
  constructor
  · obtain ⟨sc, hsc, f, hpad⟩ := skipPads n (s1.inner.data.length - s1.inner.pos + 2) s1 tail hb1 hr1 (by omega) (by omega)
    obtain ⟨s2, h2⟩ := readElement_cut (s := advBy s1 n sc) (hb1.suffix hsc) (by rw [advBy_rest, hr1]; simp) ht hm (by simp at hp ⊢; omega) h0 hh
    refine ⟨s2, ?_⟩
    unfold nextField
    rw [M.bind_err]
    rw [commit_again hc he c2 c1 true, nextElementImpl_fresh hf1 true, if_pos rfl, hpad, skipPadLoop, M.bind_err h2]
  · rintro rfl
    obtain ⟨s2, h2⟩ := readElement_cut (s := s1) hb1 (by rw [hr1]; simp) ht hm (by simp at hp ⊢; omega) h0 hh
    refine ⟨s2, ?_⟩
    exact (commit_again hc he c2 c1 false).trans ((nextElementImpl_fresh hf1 false).trans h2)

theorem skipSeekDirect_jump {s : Stream} (n : Nat) (hb : Benign s.inner.sched) (hk : s.inner.seekable = true) (h1 : s.pos + n ≤ U64MAX) (h2 : s.inner.pos + n ≤ U64MAX) :
    skipSeekDirect n s = .ok n (advBy s n s.inner.sched) := by
  unfold skipSeekDirect
  rw [if_neg (by omega)]
  rcases innerSeek_forward s n with ⟨-, -, -, h⟩ | ⟨h, -⟩
  · rw [h]; rfl
  · exact absurd ⟨hk, h2, hb.seek⟩ h

theorem skipBySeek_jump : ∀ (fuel n : Nat) (s : Stream), Benign s.inner.sched → s.inner.seekable = true → s.pos + n ≤ U64MAX → s.inner.pos + n ≤ U64MAX →
    n < fuel * I64MAX → skipBySeek fuel n s = .ok n (advBy s n s.inner.sched) := by
  intro fuel
  induction fuel with
  | zero => intro n s _ _ _ _ h; omega
  | succ fuel ih =>
    intro n s hb hk h1 h2 hf
    rw [skipBySeek]
    by_cases hn : n > I64MAX
    · rw [if_pos hn, M.bind_ok (skipSeekDirect_jump I64MAX hb hk (by omega) (by omega)), M.ite_apply, if_neg (by omega)]
      rw [M.bind_ok (ih (n - I64MAX) (advBy s I64MAX s.inner.sched) hb hk (by simp; omega) (by simp; omega) (by rw [Nat.add_mul] at hf; omega))]
      rw [M.pure_apply, advBy_advBy]
      rw [show I64MAX + (n - I64MAX) = n by omega]; rfl
    · rw [if_neg hn]; exact skipSeekDirect_jump n hb hk h1 h2

theorem skipByDiscard_exact {s : Stream} {n : Nat} (hb : Benign s.inner.sched) (hn : n ≤ U64MAX - s.pos) :
    ∃ sc, sc <:+ s.inner.sched ∧ skipByDiscard n s = .ok (min n s.rest.length) (advBy s (min n s.rest.length) sc) := by
  obtain ⟨j, sc, g1, g2, g3, g4⟩ := drain_track_spec n s hn
  rcases g4 with ⟨g4, g5⟩ | ⟨g4, -⟩
  · refine ⟨sc, g3, ?_⟩
    have : j = min n s.rest.length := by omega
    subst this
    unfold skipByDiscard; rw [M.bind_ok g5]; simp
  · exact absurd hb g4

theorem skipSeekDirect_exact {s : Stream} {n : Nat} (hb : Benign s.inner.sched) (hn : n ≤ U64MAX - s.pos) (hk : s.inner.seekable = false) :
    ∃ sc, sc <:+ s.inner.sched ∧ skipSeekDirect n s = .ok (min n s.rest.length) (advBy s (min n s.rest.length) sc) := by
  unfold skipSeekDirect
  rw [if_neg (by omega)]
  rcases innerSeek_forward s n with ⟨h, -⟩ | ⟨-, e', sc, hsc, h⟩
  · rw [hk] at h; cases h
  · have : sc = s.inner.sched := hsc.resolve_right (fun h' => by rw [hk] at h'; simp at h')
    subst this
    rw [h]; exact skipByDiscard_exact hb hn

theorem skipBySeek_exact : ∀ (fuel n : Nat) (s : Stream), Benign s.inner.sched → n ≤ U64MAX - s.pos → s.inner.seekable = false → n < fuel * I64MAX →
    ∃ sc, sc <:+ s.inner.sched ∧ skipBySeek fuel n s = .ok (min n s.rest.length) (advBy s (min n s.rest.length) sc) := by
  intro fuel
  induction fuel with
  | zero => intro n s _ _ _ h; omega
  | succ fuel ih =>
    intro n s hb hn hk hf
    rw [skipBySeek]
    by_cases hbig : n > I64MAX
    · rw [if_pos hbig]
      obtain ⟨sc, hsc, h1⟩ := skipSeekDirect_exact hb (n := I64MAX) (by omega) hk
      rw [M.bind_ok h1, M.ite_apply]
      by_cases hj : min I64MAX s.rest.length < I64MAX
      · rw [if_pos hj]
        refine ⟨sc, hsc, ?_⟩
        rw [show min n s.rest.length = min I64MAX s.rest.length by omega]; rfl
      · rw [if_neg hj]
        have e : min I64MAX s.rest.length = I64MAX := by omega
        rw [e]
        obtain ⟨sc2, hsc2, h2⟩ := ih (n - I64MAX) (advBy s I64MAX sc) (hb.suffix hsc) (by simp; omega) hk (by rw [Nat.add_mul] at hf; omega)
        rw [M.bind_ok h2, M.pure_apply, advBy_advBy, advBy_rest, List.length_drop]
        refine ⟨sc2, hsc2.trans hsc, ?_⟩
        rw [show I64MAX + min (n - I64MAX) (s.rest.length - I64MAX) = min n s.rest.length by omega]
    · rw [if_neg hbig]; exact skipSeekDirect_exact hb hn hk

theorem skip_reading {s : Stream} {n : Nat} (hb : Benign s.inner.sched) (hn : n ≤ U64MAX - s.pos) (hk : s.useSeek = false ∨ s.inner.seekable = false) :
    ∃ sc, sc <:+ s.inner.sched ∧ (if s.useSeek = true then skipBySeek 4 n else skipByDiscard n) s = .ok (min n s.rest.length) (advBy s (min n s.rest.length) sc) := by
  by_cases hu : s.useSeek = true
  · rw [if_pos hu]
    exact skipBySeek_exact 4 n s hb hn (hk.resolve_left (by rw [hu]; simp)) (by unfold U64MAX at hn; unfold I64MAX; omega)
  · rw [if_neg hu]; exact skipByDiscard_exact hb hn

/-- **C15** The input ends inside the content of a blob or exception: the element is returned. Whatever the client then reads of it or however it seeks
in it (`ops`; but not to beyond the end of the input): if the content is skipped by reading, the next call reports exactly how many bytes are missing, with or without graceful
EOF. If it is skipped by seeking, `seek` beyond the end succeeds, and the end of the input is found where the next descriptor is expected: without graceful EOF an error, with it
an end of document although the input ended inside an element (finding 1). -/
theorem c15_ends_inside_content {ε U α : Type} (p : Prog ε U α) (s : Stream) (u : U) (hs : Fresh s) (hb : Benign s.inner.sched)
    (s1 : Stream) (tok : Tok) (tail more : List Byte) (ht : EncTok tok (tail ++ more)) (hm : more ≠ [])
    (hh : headLen tok (tail ++ more) ≤ tail.length) :
    let s' := (p.run (s, u)).state.1
    s'.eof = false → commit s' = .ok () s1 → s1.inner.data.drop s1.inner.pos = tail → s1.pos + (tail ++ more).length < U64MAX →
    ∃ s2 len, nextElement s' = .ok (elemOf s1.pos s'.depth tok) s2 ∧ (elemOf s1.pos s'.depth tok).blobLen? = some len ∧
      ∀ ops : List BlobOp, (∀ o ∈ ops, o.reads) →
        let s3 := runBlobOps len ops s2
        s3.inner.pos ≤ s3.inner.data.length →
        (s.useSeek = false ∨ s.inner.seekable = false →
          ∃ s4, commit s3 = .err (.truncatedBlob more.length) s4 ∧ nextElement s3 = .err (.truncatedBlob more.length) s4 ∧
            nextField s3 = .err (.truncatedBlob more.length) s4) ∧
        (s.useSeek = true → s.inner.seekable = true → s2.inner.pos + len ≤ U64MAX → ∃ s4,
          (s.graceful = true → nextElement s3 = .ok .endOfDoc s4) ∧ (s.graceful = false → nextElement s3 = .err (.io .unexpectedEof) s4)) := by
  intro s' he hc hr hp
  have hst : Step s s' := (p.run_safe (s, u) hs.inv).step
  have hC := commit_safe hst.inv
  obtain ⟨c1, c2, c3, -⟩ := hC.2 _ _ hc
  have hst1 : Step s' s1 := by have := hC.1.step; rw [hc] at this; exact this
  have hb1 : Benign s1.inner.sched := step_ben hst1 (step_ben hst hb)
  have heof1 : s1.eof = false := c2.trans he
  have hr1 : s1.rest = tail := hr
  have hf1 : Fresh s1 := ⟨hst1.inv.pos_le, heof1, c1, hst1.inv.notLive c1⟩
  obtain ⟨content, s2, d1, d2, d3, d4, d5, d6, d7, d8⟩ := readElement_content hb1 c1 hr1 ht hm (by omega) hh
  have hst2 : Step s1 s2 := by
    have := (readElement_safe hf1.inv c1 heof1).1.step; rw [d2] at this; exact this
  have hN : nextElement s' = .ok (elemOf s1.pos s'.depth tok) s2 := by
    rw [← c3]
    exact (commit_again hc he c2 c1 false).trans ((nextElementImpl_fresh hf1 false).trans d2)
  refine ⟨s2, content.length, hN, by rw [blobLen_elemOf, d1]; rfl, ?_⟩
  intro ops ho s3 hin
  have hw2 := (hst2.inv.liveOk d4).2
  have hE : s2.blobEnd ≤ U64MAX := by omega
  have key : ∀ (ops : List BlobOp), (∀ o ∈ ops, o.reads) → ∀ x, Moved s2 x → Confined content.length s2 x →
      Moved s2 (runBlobOps content.length ops x) ∧ Confined content.length s2 (runBlobOps content.length ops x) := by
    intro ops
    induction ops with
    | nil => intro _ x hm hcf; exact ⟨hm, hcf⟩
    | cons o os ih =>
      intro ho x hm hcf
      refine ih (fun o' h' => ho o' (by simp [h'])) _ ?_ (o.exec_confined hcf d6 hE hw2).1
      exact hm.trans (o.exec_moved _ (ho o (by simp)) (by rw [hcf.blobEnd]; exact hE))
  obtain ⟨hmv, hcf⟩ := key ops ho s2 (.refl s2) (.refl d6)
  change Moved s2 s3 at hmv
  change Confined content.length s2 s3 at hcf
  have e := hmv.eq
  have q1 := hcf.low
  have q2 := hcf.high
  have q3 := hcf.off
  have hdata : s3.inner.data = s2.inner.data := by rw [e]
  have hcm3 : s3.commit = some .skipBlob := by rw [e]; exact d3
  have hbe3 : s3.blobEnd = s2.blobEnd := hcf.blobEnd
  have heof3 : s3.eof = false := by rw [e]; exact d8.trans heof1
  have hus3 : s3.useSeek = s.useSeek := by
    rw [e]; exact hst2.frame.useSeek.trans (hst1.frame.useSeek.trans hst.frame.useSeek)
  have hsk3 : s3.inner.seekable = s.inner.seekable := by
    rw [e]; exact hst2.frame.seekable.trans (hst1.frame.seekable.trans hst.frame.seekable)
  have hgr3 : s3.graceful = s.graceful := by
    rw [e]; exact hst2.frame.graceful.trans (hst1.frame.graceful.trans hst.frame.graceful)
  have hb3 : Benign s3.inner.sched := (step_ben hst2 hb1).suffix hmv.sched
  have hml : 1 ≤ more.length := by cases more with | nil => exact absurd rfl hm | cons => simp
  have hrl2 := rest_length s2
  have hrl3 := rest_length s3
  have hmiss : s3.blobEnd - s3.pos = s3.rest.length + more.length := by rw [hdata] at hrl3 hin; omega
  have hl : s3.blobEnd > s3.pos := by omega
  constructor
  · intro hsk
    obtain ⟨sc, hsc, hk⟩ := skip_reading hb3 (n := s3.blobEnd - s3.pos) (by omega) (by rw [hus3, hsk3]; exact hsk)
    have hk2 : skipBlob s3 = .err (.truncatedBlob more.length) (advBy s3 s3.rest.length sc) := by
      unfold skipBlob
      rw [if_pos hl]
      dsimp only
      rw [hk, show min (s3.blobEnd - s3.pos) s3.rest.length = s3.rest.length by omega]
      dsimp only
      rw [if_pos (by omega), show s3.blobEnd - s3.pos - s3.rest.length = more.length by omega]
    have hk3 : commit s3 = .err (.truncatedBlob more.length) { advBy s3 s3.rest.length sc with live := false } := by
      simp [commit, hcm3, hk2]
    have hk4 : ∀ sp, nextElementImpl sp s3 = .err (.truncatedBlob more.length) { advBy s3 s3.rest.length sc with live := false } := by
      intro sp
      unfold nextElementImpl
      rw [heof3, M.bind_err hk3]; rfl
    exact ⟨_, hk3, hk4 false, by unfold nextField; rw [M.bind_err (hk4 true)]⟩
  · intro hu hk hfit
    rw [← hus3] at hu
    rw [← hsk3] at hk
    have hk2 : skipBlob s3 = .ok () (advBy s3 (s3.blobEnd - s3.pos) s3.inner.sched) := by
      unfold skipBlob
      rw [if_pos hl]
      dsimp only
      rw [if_pos hu, skipBySeek_jump 4 _ s3 hb3 hk (by omega) (by omega) (by unfold U64MAX at hE; unfold I64MAX; omega)]
      dsimp only
      rw [if_neg (by omega)]
    have hk3 : commit s3 = .ok () { advBy s3 (s3.blobEnd - s3.pos) s3.inner.sched with commit := none, live := false } := by
      simp [commit, hcm3, hk2]
    generalize hs4 : ({ advBy s3 (s3.blobEnd - s3.pos) s3.inner.sched with commit := none, live := false } : Stream) = s4 at hk3
    have hf4 : Fresh s4 := by rw [← hs4]; exact ⟨by simp; omega, heof3, rfl, rfl⟩
    have hr4 : s4.rest = [] := by
      rw [← hs4]
      show (advBy s3 (s3.blobEnd - s3.pos) s3.inner.sched).rest = []
      rw [advBy_rest, List.drop_eq_nil_iff]; omega
    obtain ⟨w1, w2⟩ := c15_eof_at_descriptor s4 hf4 (by rw [← hs4]; exact hb3) hr4 (by rw [← hs4]; simp; omega)
    have hg4 : s4.graceful = s.graceful := by rw [← hs4]; exact hgr3
    have hag : nextElement s3 = nextElement s4 :=
      commit_again hk3 heof3 (by rw [← hs4]; rfl) (by rw [← hs4]) false
    rw [hag, ← hg4]
    cases hgg : s4.graceful with
    | true => obtain ⟨y, hy, -⟩ := w1 hgg; exact ⟨y, fun _ => hy, (fun h => by cases h)⟩
    | false => obtain ⟨y, hy, -⟩ := w2 hgg; exact ⟨y, (fun h => by cases h), fun _ => hy⟩

/-! A stream over a struct start, a blob of three bytes, and an element cut in different places; the client has read the
first two elements and left the blob unread. -/

def cutClient : Prog Err Unit (Option Field) := .bind (.call .nextField id) fun _ => .call .nextField id
def cutStream (tail : List Byte) (g : Bool) : Stream := { Stream.fromSlice ([0xC5, 0x81, 3, 7, 8, 9] ++ tail) with graceful := g }
example (tail : List Byte) (g : Bool) : Fresh (cutStream tail g) := ⟨Nat.zero_le _, rfl, rfl, rfl⟩
-- the hypotheses of `c15_ends_at_element` with two bytes of padding
example : let s' := (cutClient.run (cutStream [0xC0, 0xC0] true, ())).state.1
    s'.eof = false ∧ (match commit s' with
      | .ok _ s1 => decide (s1.inner.data.drop s1.inner.pos = List.replicate 2 0xC0 ∧ s1.pos = 6)
      | .err _ _ => false) = true := by decide +kernel
-- of `c15_ends_inside_header`: an enum with the overlong discriminant 5, cut after its second byte
example : EncTok (.enum 2 5) ([0x02, 0x85] ++ [0x80, 0x00]) ∧ headLen (.enum 2 5) ([0x02, 0x85] ++ [0x80, 0x00]) = 4 :=
  ⟨.enum (g := [0x85, 0x80, 0x00]) (by decide) rfl ⟨by unfold IsGroup; decide, by decide, by decide⟩, by decide⟩
example : let s' := (cutClient.run (cutStream [0x02, 0x85] true, ())).state.1
    s'.eof = false ∧ (match commit s' with
      | .ok _ s1 => decide (s1.inner.data.drop s1.inner.pos = [0x02, 0x85])
      | .err _ _ => false) = true ∧
    (match nextElement s' with | .err (.io .unexpectedEof) _ => true | _ => false) = true := by decide +kernel
-- of `c15_ends_inside_content`: a blob of four bytes of which one is there
example : EncTok (.blob 1 [1, 2, 3, 4]) ([0x81, 4, 1] ++ [2, 3, 4]) ∧ headLen (.blob 1 [1, 2, 3, 4]) ([0x81, 4, 1] ++ [2, 3, 4]) = 2 :=
  ⟨.blob (g := [4]) (by decide) rfl ⟨by unfold IsGroup; decide, by decide, by decide⟩ (by decide), by decide⟩
example : let s' := (cutClient.run ({ cutStream [0x81, 4, 1] true with useSeek := false }, ())).state.1
    s'.eof = false ∧ (match commit s' with
      | .ok _ s1 => decide (s1.inner.data.drop s1.inner.pos = [0x81, 4, 1])
      | .err _ _ => false) = true ∧
    (match nextElement s' with
      | .ok _ s2 => (match nextElement (runBlobOps 4 [.read 1] s2) with | .err (.truncatedBlob 3) _ => true | _ => false)
      | _ => false) = true := by decide +kernel
-- the same by seeking: an end of document
example : (match nextElement (cutClient.run (cutStream [0x81, 4, 1] true, ())).state.1 with
      | .ok _ s2 => (match nextElement (runBlobOps 4 [.read 1] s2) with | .ok .endOfDoc _ => true | _ => false)
      | _ => false) = true := by decide +kernel

end Fourleaf.Props
