import Verif.Blame
import Verif.DeTop

/-! # Positions on the abstract stream -/

namespace Fourleaf
open Spec Props

/-- Number of bytes of elements. -/
def sizeOfToks : List HTok → Nat
  | [] => 0
  | (h, k) :: ts => h + ((contentOf k).getD []).length + sizeOfToks ts

theorem sizeOfToks_append (a b : List HTok) : sizeOfToks (a ++ b) = sizeOfToks a + sizeOfToks b := by
  induction a with
  | nil => simp [sizeOfToks]
  | cons x a ih => obtain ⟨h, k⟩ := x; rw [List.cons_append, sizeOfToks, sizeOfToks, ih]; omega

/-- The position of the next element. -/
def TS.next (t : TS) : Nat := t.pos + (t.cur.getD []).length

/-- The position of the end of the input. -/
def TS.total (t : TS) : Nat := t.next + sizeOfToks t.toks

theorem TS.total_flush (t : TS) : t.flush.total = t.total := by simp [TS.total, TS.next, TS.flush]

theorem TS.total_unpad (t : TS) (h : t.cur = none) : t.unpad.total = t.total := by
  have : ∀ (l : List HTok) (p : Nat), (TS.dropPads p l).1 + sizeOfToks (TS.dropPads p l).2 = p + sizeOfToks l := by
    intro l
    induction l with
    | nil => intro p; rfl
    | cons x l ih =>
      obtain ⟨hh, k⟩ := x
      intro p
      unfold TS.dropPads
      split
      · rename_i hk; subst hk; rw [ih]; simp [sizeOfToks, contentOf]; omega
      · rfl
  simp only [TS.total, TS.next, TS.unpad, h]
  exact this _ _

theorem TS.total_readElement (t : TS) (hc : t.cur = none) : (TS.readElement t).state.total = t.total := by
  unfold TS.readElement
  split
  · split <;> simp [TS.total, TS.next]
  · rename_i h; simp [TS.total, TS.next, h, sizeOfToks, hc]; omega

theorem TS.total_nextElement (t : TS) : (TS.nextElement t).state.total = t.total := by
  unfold TS.nextElement
  split
  · rfl
  · rw [TS.total_readElement _ rfl, TS.total_flush]

theorem TS.total_take (n : Nat) (c : List Byte) (t : TS) (h : t.cur = some c) : (TS.take n c t).state.total = t.total := by
  simp [TS.take, TS.total, TS.next, h]; omega

theorem TS.total_onBlob {α : Type} (f : List Byte → M Err TS α) (t : TS) (hf : ∀ c, t.cur = some c → (f c t).state.total = t.total) :
    (TS.onBlob f t).state.total = t.total := by
  unfold TS.onBlob
  split
  · rename_i h; exact hf _ h
  · rfl

theorem TS.total_exec {β : Type} (o : Op β) (t : TS) : (TS.exec o t).state.total = t.total := by
  cases o with
  | nextField =>
    show (TS.nextField t).state.total = _
    unfold TS.nextField
    split
    · rfl
    · have h1 := TS.total_readElement t.flush.unpad rfl
      rw [TS.total_unpad _ rfl, TS.total_flush] at h1
      split <;> rename_i hr <;> rw [hr] at h1 <;> simp only [Res.state_ok, Res.state_err] at h1
      · exact h1
      · exact h1
      · have h4 := TS.total_onBlob (TS.take 256) (by assumption) (fun c h => TS.total_take _ _ _ h)
        split <;> rename_i hq <;> rw [hq] at h4 <;> exact h4.trans h1
      · exact h1
  | nextElement => exact TS.total_nextElement t
  | skipUp d =>
    show (TS.skipUpLoop d (t.toks.length + 2) t).state.total = _
    generalize t.toks.length + 2 = fuel
    induction fuel generalizing t with
    | zero => rfl
    | succ fuel ih =>
      unfold TS.skipUpLoop
      split
      · rw [M.bind_apply]
        have := TS.total_nextElement t
        cases hn : TS.nextElement t with
        | ok e t' => rw [hn] at this; exact (ih t').trans this
        | err e t' => rw [hn] at this; exact this
      · rfl
  | commit => exact TS.total_flush t
  | clearEof => rfl
  | eof => rfl
  | pos => rfl
  | structDepth => rfl
  | readFully max =>
    show (TS.onBlob (fun c t =>
      if c.length > max then .err (.largeBlob max c.length) t else TS.take c.length c t) t).state.total = _
    refine TS.total_onBlob _ _ fun c h => ?_
    split
    · rfl
    · exact TS.total_take _ _ _ h
  | readOrTrunc max => exact TS.total_onBlob _ _ fun c h => TS.total_take _ _ _ h
  | read want => exact TS.total_onBlob _ _ fun c h => TS.total_take _ _ _ h
  | slice => exact TS.total_onBlob _ _ fun c _ => rfl
  | remaining => exact TS.total_onBlob _ _ fun c _ => rfl

theorem TS.total_pull (fields : Bool) (t : TS) : (TS.pull fields t).state.total = t.total := by
  unfold TS.pull
  cases fields with
  | true =>
    have := TS.total_exec .nextField t
    simp only [TS.exec] at this
    simp only [if_true]
    split <;> rename_i h <;> rw [h] at this <;> exact this
  | false =>
    have := TS.total_exec .nextElement t
    simp only [TS.exec] at this
    simp only [Bool.false_eq_true, if_false]
    split <;> rename_i h <;> rw [h] at this <;> exact this

theorem TS.total_runLoop {ε U β α : Type} (fields : Bool) (body : β → Element → M (Stop ε) (TS × U) (β ⊕ α))
    (onErr : Err → M (Stop ε) (TS × U) α) (onEnd : β → M (Stop ε) (TS × U) α)
    (hb : ∀ b e st, (body b e st).state.1.total = st.1.total)
    (hE : ∀ e st, (onErr e st).state.1.total = st.1.total)
    (hN : ∀ b st, (onEnd b st).state.1.total = st.1.total) :
    ∀ (fuel : Nat) (b : β) (st : TS × U), (TS.runLoop fields body onErr onEnd fuel b st).state.1.total = st.1.total := by
  intro fuel
  induction fuel with
  | zero => intro b st; rfl
  | succ fuel ih =>
    intro b st
    unfold TS.runLoop
    have hp := TS.total_pull fields st.1
    split
    · rename_i e s h
      rw [h] at hp
      split
      · exact hp
      · exact (hE e _).trans hp
    · rename_i s h
      rw [h] at hp
      exact (hN b _).trans hp
    · rename_i el s h
      rw [h] at hp
      have h2 := hb b el (s, st.2)
      split <;> rename_i h3 <;> rw [h3] at h2
      · exact h2.trans hp
      · exact (ih _ _).trans (h2.trans hp)
      · exact h2.trans hp

/-- No client changes where the input ends. -/
theorem Prog.abs_total {ε U : Type} : ∀ {α : Type} (p : Prog ε U α) (st : TS × U), (p.abs st).state.1.total = st.1.total := by
  intro α p
  induction p with
  | ret a => intro st; rfl
  | fail e => intro st; rfl
  | op o =>
    intro st
    have := TS.total_exec o st.1
    simp only [Prog.abs]
    cases h : TS.exec o st.1 with
    | ok b s => rw [h] at this; exact this
    | err e s => rw [h] at this; simp only; split <;> exact this
  | call o f =>
    intro st
    have := TS.total_exec o st.1
    simp only [Prog.abs]
    cases h : TS.exec o st.1 with
    | ok b s => rw [h] at this; exact this
    | err e s => rw [h] at this; simp only; split <;> exact this
  | getU => intro st; rfl
  | setU u => intro st; rfl
  | bind p f ihp ihf =>
    intro st
    have := ihp st
    simp only [Prog.abs]
    cases h : p.abs st with
    | ok b s => rw [h] at this; exact (ihf b s).trans this
    | err e s => rw [h] at this; exact this
  | attempt p ih =>
    intro st
    have := ih st
    simp only [Prog.abs]
    cases h : p.abs st with
    | ok b s => rw [h] at this; exact this
    | err e s => rw [h] at this; cases e <;> exact this
  | loop fields init body onErr onEnd ih1 ih2 ih3 =>
    intro st
    simp only [Prog.abs]
    exact TS.total_runLoop fields _ _ _ (fun b e st => ih1 b e st) (fun e st => ih2 e st) (fun b st => ih3 b st) _ _ _

/-! ## Located messages as elements -/

/-- The elements are a message with these fields. -/
inductive LB : Nat → LFields → Nat → List HTok → Prop where
  | nil {p h} : LB p [] (p + h) [(h, .endStruct)]
  | pad {p h L stop ts} : LB (p + h) L stop ts → LB p L stop ((h, .padding) :: ts)
  | int {p h tag n L stop ts} : LB (p + h) L stop ts → LB p ((p, tag, .int n) :: L) stop ((h, .int tag n) :: ts)
  | blob {p h tag data L stop ts} : LB (p + h + data.length) L stop ts → LB p ((p, tag, .blob data) :: L) stop ((h, .blob tag data) :: ts)
  | struct {p h tag l q L stop a b} : LB (p + h) l q a → LB q L stop b → LB p ((p, tag, .struct (p + h) l q) :: L) stop ((h, .struct tag) :: (a ++ b))
  | enum {p h tag disc l q L stop a b} : LB (p + h) l q a → LB q L stop b → LB p ((p, tag, .enum disc (p + h) l q) :: L) stop ((h, .enum tag disc) :: (a ++ b))

theorem EncH.append {a b : List HTok} {m m' : List Byte} (h : EncH a m) (h' : EncH b m') : EncH (a ++ b) (m ++ m') := by
  induction h with
  | nil => exact h'
  | cons h1 h2 _ ih => rw [List.append_assoc]; exact .cons h1 h2 ih

theorem Located.toLB {p : Nat} {L : LFields} {stop : Nat} {m : List Byte} (h : Located p L stop m) : ∃ a, EncH a m ∧ LB p L stop a := by
  induction h with
  | nil h => exact ⟨[(_, _)], by simpa using EncH.cons h (by simp [contentOf]) .nil, .nil⟩
  | pad h _ ih => obtain ⟨a, h1, h2⟩ := ih; exact ⟨_, .cons h (by simp [contentOf]) h1, .pad h2⟩
  | int h _ ih => obtain ⟨a, h1, h2⟩ := ih; exact ⟨_, .cons h (by simp [contentOf]) h1, .int h2⟩
  | @blob p tag data L stop bs m h _ ih =>
    obtain ⟨a, h1, h2⟩ := ih
    have hl : data.length ≤ bs.length := by cases h; simp; omega
    have e : bs.length = (bs.length - data.length) + data.length := by omega
    refine ⟨_, .cons (h := bs.length - data.length) h e h1, .blob ?_⟩
    rw [Nat.add_assoc, ← e]; exact h2
  | struct h _ _ ih1 ih2 =>
    obtain ⟨a, h1, h2⟩ := ih1; obtain ⟨b, h3, h4⟩ := ih2
    exact ⟨_, .cons h (by simp [contentOf]) (h1.append h3), .struct h2 h4⟩
  | enum h _ _ ih1 ih2 =>
    obtain ⟨a, h1, h2⟩ := ih1; obtain ⟨b, h3, h4⟩ := ih2
    exact ⟨_, .cons h (by simp [contentOf]) (h1.append h3), .enum h2 h4⟩

theorem LB.bodyOf {p : Nat} {L : LFields} {stop : Nat} {a : List HTok} (h : LB p L stop a) : BodyOf (plains L) (a.map (·.2)) := by
  induction h with
  | nil => exact .nil
  | pad _ ih => exact .pad ih
  | int _ ih => exact .int ih
  | blob _ ih => exact .blob ih
  | struct _ _ ih1 ih2 => rw [List.map_cons, List.map_append]; exact .struct ih1 ih2
  | enum _ _ ih1 ih2 => rw [List.map_cons, List.map_append]; exact .enum ih1 ih2

theorem LB.stop_eq {p : Nat} {L : LFields} {stop : Nat} {a : List HTok} (h : LB p L stop a) : stop = p + sizeOfToks a := by
  induction h with
  | nil => simp [sizeOfToks, contentOf]
  | pad _ ih => rw [ih]; simp [sizeOfToks, contentOf]; omega
  | int _ ih => rw [ih]; simp [sizeOfToks, contentOf]; omega
  | blob _ ih => rw [ih]; simp [sizeOfToks, contentOf]; omega
  | struct _ _ ih1 ih2 => rw [ih2, ih1]; simp [sizeOfToks, contentOf, sizeOfToks_append]; omega
  | enum _ _ ih1 ih2 => rw [ih2, ih1]; simp [sizeOfToks, contentOf, sizeOfToks_append]; omega

theorem Spec.EncToks.split {a b : List Tok} {m : List Byte} (h : EncToks (a ++ b) m) : ∃ m1 m2, m = m1 ++ m2 ∧ EncToks a m1 ∧ EncToks b m2 := by
  induction a generalizing m with
  | nil => exact ⟨[], m, rfl, .nil, h⟩
  | cons x a ih =>
    cases h with
    | cons h1 h2 =>
      obtain ⟨m1, m2, rfl, h3, h4⟩ := ih h2
      exact ⟨_, m2, by rw [List.append_assoc], .cons h1 h3, h4⟩

/-- Every message can be located. -/
theorem Message.located {l : Fields} {m : List Byte} (h : Message l m) (p : Nat) : ∃ L stop, Located p L stop m ∧ plains L = l := by
  obtain ⟨ts, hb, he⟩ := h
  have key : ∀ {l : Fields} {ts : List Tok}, BodyOf l ts → ∀ {m : List Byte}, EncToks ts m → ∀ p, ∃ L, Located p L (p + m.length) m ∧ plains L = l := by
    intro l ts hb
    induction hb with
    | nil => intro m he p; cases he with | cons h1 h2 => cases h2; exact ⟨[], by simpa using .nil h1, rfl⟩
    | pad _ ih =>
      intro m he p; cases he with
      | cons h1 h2 => obtain ⟨L, h3, h4⟩ := ih h2 (p + _); exact ⟨L, by rw [List.length_append, ← Nat.add_assoc]; exact .pad h1 h3, h4⟩
    | int _ ih =>
      intro m he p; cases he with
      | cons h1 h2 => obtain ⟨L, h3, rfl⟩ := ih h2 (p + _); exact ⟨_, by rw [List.length_append, ← Nat.add_assoc]; exact .int h1 h3, rfl⟩
    | blob _ ih =>
      intro m he p; cases he with
      | cons h1 h2 => obtain ⟨L, h3, rfl⟩ := ih h2 (p + _); exact ⟨_, by rw [List.length_append, ← Nat.add_assoc]; exact .blob h1 h3, rfl⟩
    | struct _ _ ih1 ih2 =>
      intro m he p; cases he with
      | cons h1 h2 =>
        obtain ⟨a, b, rfl, ha, hb⟩ := h2.split
        obtain ⟨l1, h3, rfl⟩ := ih1 ha (p + _)
        obtain ⟨L, h4, rfl⟩ := ih2 hb _
        exact ⟨_, by rw [List.length_append, List.length_append, ← Nat.add_assoc, ← Nat.add_assoc]; exact .struct h1 h3 h4, rfl⟩
    | enum _ _ ih1 ih2 =>
      intro m he p; cases he with
      | cons h1 h2 =>
        obtain ⟨a, b, rfl, ha, hb⟩ := h2.split
        obtain ⟨l1, h3, rfl⟩ := ih1 ha (p + _)
        obtain ⟨L, h4, rfl⟩ := ih2 hb _
        exact ⟨_, by rw [List.length_append, List.length_append, ← Nat.add_assoc, ← Nat.add_assoc]; exact .enum h1 h3 h4, rfl⟩
  obtain ⟨L, h1, h2⟩ := key hb he p
  exact ⟨L, _, h1, h2⟩

/-- After the header of the field: the next element is at `q`. -/
structure MidL (t : TS) (D : Nat) (v : LVal) (q : Nat) (rest : List HTok) : Prop where
  eof : t.eof = false
  pos : 1 ≤ D
  here : match v with
    | .int _ => t.depth = D ∧ t.toks = rest ∧ t.next = q
    | .blob d => t.depth = D ∧ t.toks = rest ∧ t.cur = some d ∧ t.next = q
    | .struct s l e | .enum _ s l e => t.depth = D + 1 ∧ t.cur = none ∧ t.pos = s ∧ e = q ∧ ∃ a, LB s l e a ∧ t.toks = a ++ rest

theorem MidL.mid {t : TS} {D q : Nat} {v : LVal} {rest : List HTok} (h : MidL t D v q rest) : Mid t D v.plain rest := by
  refine ⟨h.eof, h.pos, ?_⟩
  have hh := h.here
  cases v with
  | int n => exact ⟨hh.1, hh.2.1⟩
  | blob d => exact ⟨hh.1, hh.2.1, hh.2.2.1⟩
  | struct s l e => obtain ⟨h1, -, -, -, a, h4, h5⟩ := hh; exact ⟨h1, a, h4.bodyOf, h5⟩
  | enum d s l e => obtain ⟨h1, -, -, -, a, h4, h5⟩ := hh; exact ⟨h1, a, h4.bodyOf, h5⟩

/-- Where the input ends. -/
theorem MidL.total {t : TS} {D q : Nat} {v : LVal} {rest : List HTok} (h : MidL t D v q rest) : t.total = q + sizeOfToks rest := by
  have hh := h.here
  cases v with
  | int n => rw [TS.total, hh.2.1, hh.2.2]
  | blob d => rw [TS.total, hh.2.1, hh.2.2.2]
  | struct s l e =>
    obtain ⟨-, h2, h3, h4, a, h5, h6⟩ := hh
    have := h5.stop_eq
    simp only [TS.total, TS.next, h2, h3, h6, sizeOfToks_append, Option.getD_none, List.length_nil]; omega
  | enum d s l e =>
    obtain ⟨-, h2, h3, h4, a, h5, h6⟩ := hh
    have := h5.stop_eq
    simp only [TS.total, TS.next, h2, h3, h6, sizeOfToks_append, Option.getD_none, List.length_nil]; omega

theorem AtBody.next_eq {t t' : TS} {D q : Nat} {rest : List HTok} (h : AtBody t' D rest) (ht : t'.total = t.total) (hq : t.total = q + sizeOfToks rest) : t'.next = q := by
  rw [← ht, TS.total, h.toks] at hq; omega

theorem Done.pos_eq {t' : TS} {D q : Nat} {rest : List HTok} (h : Done t' D rest) (hq : t'.total = q + sizeOfToks rest) : t'.pos = q := by
  rw [TS.total, h.toks, TS.next, h.cur] at hq; simp at hq; omega

/-- What `next_field` gives inside a struct. -/
def PulledL (t : TS) (D : Nat) (n : Nat) (rest : List HTok) (stop : Nat) : LFields → Prop
  | [] => ∃ t', TS.nextField t = .ok none t' ∧ Done t' D rest
  | (p, tag, v) :: L => ∃ t' f b q, TS.nextField t = .ok (some f) t' ∧ Hand f D tag v.plain ∧ f.pos = p ∧ MidL t' D v q (b ++ rest) ∧
      LB q L stop b ∧ b.length < n

theorem PulledL.mono {t : TS} {D n n' stop : Nat} {rest : List HTok} {L : LFields} (h : PulledL t D n rest stop L) (hn : n ≤ n') : PulledL t D n' rest stop L := by
  cases L with
  | nil => exact h
  | cons x L =>
    obtain ⟨t', f, b, q, h1, h2, h3, h4, h5, h6⟩ := h
    exact ⟨t', f, b, q, h1, h2, h3, h4, h5, by omega⟩

theorem nextField_consP {t : TS} {h : Nat} {k : Tok} {ts : List HTok} (he : t.eof = false) (ht : t.toks = (h, k) :: ts)
    (hk : k ≠ .padding) (hk' : ∀ m, k ≠ .exception m) : TS.nextField t =
      .ok (match elemOf t.next t.depth k with | .field f => some f | _ => none)
        { t with pos := t.next + h, depth := k.depthAfter t.depth, eof := decide (k = .endDoc), cur := contentOf k, toks := ts } := by
  cases k <;> simp_all [TS.nextField, TS.flush, TS.unpad, TS.dropPads, TS.readElement, elemOf, TS.next]

theorem pulledL {p : Nat} {L : LFields} {stop : Nat} {a : List HTok} (hb : LB p L stop a) : ∀ (t : TS) (D : Nat) (rest : List HTok),
    AtBody t D (a ++ rest) → t.next = p → PulledL t D a.length rest stop L := by
  induction hb with
  | nil =>
    intro t D rest ht hp
    refine ⟨_, nextField_consP ht.eof ht.toks (by simp) (by simp), rfl, ?_, rfl, rfl⟩
    rw [← ht.depth]; simp only [Tok.depthAfter]; omega
  | @pad p h L stop ts _ ih =>
    intro t D rest ht hp
    have := ih { t with pos := t.pos + (t.cur.getD []).length + h, cur := none, toks := ts ++ rest } D rest ⟨ht.eof, ht.depth, rfl⟩ (by rw [← hp]; simp [TS.next])
    have e := nextField_pad_cons ht.eof ht.toks
    refine PulledL.mono (n := ts.length) ?_ (by simp)
    revert this
    cases L <;> simp only [PulledL, e, List.append_eq] <;> exact id
  | int hb' ih =>
    intro t D rest ht hp
    have hD := ht.depth
    refine ⟨_, _, _, _, nextField_consP ht.eof ht.toks (by simp) (by simp), ⟨rfl, hD, rfl⟩, hp, ⟨rfl, by omega, ?_⟩, hb', by simp⟩
    exact ⟨hD, rfl, by rw [← hp]; simp [TS.next, contentOf]⟩
  | blob hb' ih =>
    intro t D rest ht hp
    have hD := ht.depth
    refine ⟨_, _, _, _, nextField_consP ht.eof ht.toks (by simp) (by simp), ⟨rfl, hD, rfl⟩, hp, ⟨rfl, by omega, ?_⟩, hb', by simp⟩
    exact ⟨hD, rfl, rfl, by rw [← hp]; simp [TS.next, contentOf]⟩
  | struct ha' hb' iha ihb | enum ha' hb' iha ihb =>
    intro t D rest ht hp
    have hD := ht.depth
    refine ⟨_, _, _, _, nextField_consP ht.eof ht.toks (by simp) (by simp), ⟨rfl, hD, rfl⟩, hp, ⟨rfl, by omega, ?_⟩, hb', by simp; omega⟩
    exact ⟨by simp only [Tok.depthAfter]; omega, rfl, by rw [← hp], rfl, _, ha', by simp⟩

end Fourleaf
