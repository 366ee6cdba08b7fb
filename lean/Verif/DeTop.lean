import Verif.DeSim
import Verif.DeProg
import Verif.PropsTok

/-! # Deserialising from a stream, in terms of the tree -/

namespace Fourleaf
open Spec Props

/-- `bytes` is a message (body with its closing element, in any spelling) with the fields `l`. -/
def Message (l : Fields) (bytes : List Byte) : Prop := ∃ ts, BodyOf l ts ∧ EncToks ts bytes

/-- Where a successful deserialisation leaves the stream: right behind the message. -/
structure Behind (s s' : Stream) (m tail : List Byte) : Prop where
  over : Over s' tail
  pos : s'.pos = s.pos + m.length
  depth : s'.depth = max s.depth 1 - 1
  frame : Frame s s'

theorem Spec.EncToks.append {ts ts' : List Tok} {bs bs' : List Byte} (h : EncToks ts bs) (h' : EncToks ts' bs') :
    EncToks (ts ++ ts') (bs ++ bs') := by
  induction h with
  | nil => exact h'
  | cons ht _ ih => rw [List.append_assoc]; exact .cons ht ih

theorem EncH.length_eq {a : List HTok} {b b' : List Byte} (hb : EncH a b) (hb' : EncH a b') : b.length = b'.length := by
  induction hb generalizing b' with
  | nil => cases hb'; rfl
  | cons _ h1 _ ih =>
    cases hb' with
    | cons _ h2 h3 => have := ih h3; simp; omega

/-- The run on a complete sequence of elements. -/
theorem de_abs (env : Env) (t : Ty) (cfg : Config) {l : Fields} {m tail : List Byte} {rest : List Tok} {s : Stream} (hm : Message l m)
    (hr : EncToks rest tail) (hs : Over s (m ++ tail)) (hroom : s.pos + (m ++ tail).length < U64MAX) :
    ∃ a r, a.map (·.2) = rest ∧ EncH a tail ∧ RPA ((deserialize env t cfg).run (s, .zero)) r ∧
      SimR cfg .zero r (deTree env t cfg l) (Done · (max s.depth 1) a) := by
  obtain ⟨ts, hb, he⟩ := hm
  obtain ⟨hs1, h1, h2⟩ := he.toH
  obtain ⟨hs2, h3, h4⟩ := hr.toH
  have hA : EncH (hs1 ++ hs2) (m ++ tail) := by
    clear h2 h4 hb hr hs hroom he
    induction h1 with
    | nil => exact h3
    | cons h1 h2 _ ih => rw [List.append_assoc]; exact .cons h1 h2 ih
  have hrest : s.rest = m ++ tail := hs.rest
  have habs := Abs.ofFresh (hs := hs1 ++ hs2) (by rw [hrest]; exact hroom) hs.fresh.eof hs.fresh.commit hs.fresh.live hs.benign hs.within (by rw [hrest]; exact hA)
  have hrun := Prog.run_abs _ (deserialize_nice env t cfg).1 s _ Stats.zero habs
  refine ⟨hs2, _, h4, h3, hrun, ?_⟩
  exact (ops_sim env cfg (stackNeed env t cfg)).body t (.top cfg) l _ .zero (max s.depth 1) hs1 hs2 rfl ⟨Nat.zero_le _, Nat.zero_le _⟩ (by rw [h2]; exact hb) ⟨rfl, rfl, rfl⟩

/-- Success on a complete sequence of elements. -/
theorem de_ok_toks (env : Env) (t : Ty) (cfg : Config) {l : Fields} {m tail : List Byte} {rest : List Tok} {s : Stream} (hm : Message l m)
    (hr : EncToks rest tail) (hs : Over s (m ++ tail)) (hroom : s.pos + (m ++ tail).length < U64MAX)
    {v : V} {c : Stats} (hd : deTree env t cfg l = .ret v c) (hf : c.fits cfg) :
    ∃ s', (deserialize env t cfg).run (s, .zero) = .ok v (s', c) ∧ Behind s s' m tail := by
  obtain ⟨a, r, h1, h2, h3, h4⟩ := de_abs env t cfg hm hr hs hroom
  obtain ⟨t', h5, h6⟩ := h4.ok v c hd (by simpa using hf)
  rw [h5] at h3
  have hsafe := Prog.run_safe (deserialize env t cfg) (s, .zero) hs.fresh.inv
  cases hrun : (deserialize env t cfg).run (s, .zero) with
  | err e st => rw [hrun] at h3; exact h3.elim
  | ok b st =>
    rw [hrun] at h3 hsafe
    obtain ⟨rfl, ⟨⟨rest', hat, henc, hroom'⟩, hg⟩, hu⟩ := h3
    simp only at hat henc hroom'
    rw [h6.cur, h6.toks] at *
    obtain ⟨s', u'⟩ := st
    simp only at hu hat
    refine ⟨s', by rw [hu]; simp, ?_⟩
    have hfr := hsafe.step.frame
    simp only [Res.state_ok] at hfr
    have : rest' = tail := by
      have e1 := henc.toToks; have e2 := h2.toToks
      -- both are what is left of the same data: compare positions
      have hb := hat.bytes
      simp only [View.curBytes, Option.getD_none, List.nil_append] at hb
      have l1 : rest'.length = tail.length := by
        exact henc.length_eq h2
      have hdr : s'.inner.data.drop s'.inner.pos = rest' := hb
      have hdr0 := hs.rest
      rw [hfr.data] at hdr
      have e3 : rest' <:+ m ++ tail ∨ m ++ tail <:+ rest' := by
        rw [← hdr, ← hdr0]
        rcases Nat.le_total s.inner.pos s'.inner.pos with h | h
        · left; rw [show s'.inner.pos = s.inner.pos + (s'.inner.pos - s.inner.pos) by omega, ← List.drop_drop]; exact List.drop_suffix _ _
        · right; rw [show s.inner.pos = s'.inner.pos + (s.inner.pos - s'.inner.pos) by omega, ← List.drop_drop]; exact List.drop_suffix _ _
      rcases e3 with e3 | e3
      · exact (List.suffix_of_suffix_length_le e3 (List.suffix_append m tail) (by omega)).eq_of_length l1
      · have e4 := e3.length_le
        rw [List.length_append] at e4
        have : m = [] := List.length_eq_zero_iff.1 (by omega)
        subst this
        exact (e3.eq_of_length (by simp [l1])).symm
    subst this
    have hb := hat.bytes
    simp only [View.curBytes, Option.getD_none, List.nil_append] at hb
    have hlen : rest'.length = s'.inner.data.length - s'.inner.pos := by
      rw [← hb]; show (s'.inner.data.drop s'.inner.pos).length = _; simp
    have hlen0 : m.length + rest'.length = s.inner.data.length - s.inner.pos := by
      rw [← List.length_append, ← hs.rest]; simp
    have hw := hs.within
    have hw' := hat.within
    have hdat := hfr.data
    have hoff := hfr.off
    have hpos : s'.pos = s.pos + m.length := by rw [hdat] at hlen hw'; omega
    refine ⟨⟨⟨hat.inv.pos_le, by rw [hat.eof]; exact h6.eof, hat.none rfl, hat.inv.notLive (hat.none rfl)⟩, hat.ben, hw', hb, ?_⟩, hpos, by rw [hat.depth]; exact h6.depth, hfr⟩
    simp at hroom; omega

/-- Failure on a complete sequence of elements: an error of the kind the tree says, or of a limit. -/
theorem de_err_toks (env : Env) (t : Ty) (cfg : Config) {l : Fields} {m tail : List Byte} {rest : List Tok} {s : Stream} (hm : Message l m)
    (hr : EncToks rest tail) (hs : Over s (m ++ tail)) (hroom : s.pos + (m ++ tail).length < U64MAX)
    {k : Kind} {c : Stats} (hd : deTree env t cfg l = .fail k c) :
    ∃ e st, (deserialize env t cfg).run (s, .zero) = .err (.client e) st ∧ (e.kind.unpos = k ∨ e.kind.exceeds cfg c) := by
  obtain ⟨a, r, h1, h2, h3, h4⟩ := de_abs env t cfg hm hr hs hroom
  obtain ⟨e, st, h5, h6⟩ := h4.err k c hd
  rw [Stats.zero_add] at h6
  rw [h5] at h3
  cases hrun : (deserialize env t cfg).run (s, .zero) with
  | ok b st => rw [hrun] at h3; exact h3.elim
  | err e' st' => rw [hrun] at h3; obtain ⟨rfl, -, -⟩ := h3; exact ⟨e, st', rfl, h6⟩

/-- A value that uses more than the limits allow is rejected. -/
theorem de_over_toks (env : Env) (t : Ty) (cfg : Config) {l : Fields} {m tail : List Byte} {rest : List Tok} {s : Stream} (hm : Message l m)
    (hr : EncToks rest tail) (hs : Over s (m ++ tail)) (hroom : s.pos + (m ++ tail).length < U64MAX)
    {v : V} {c : Stats} (hd : deTree env t cfg l = .ret v c) (hf : ¬ c.fits cfg) :
    ∃ e st, (deserialize env t cfg).run (s, .zero) = .err (.client e) st ∧ e.kind.exceeds cfg c := by
  obtain ⟨a, r, h1, h2, h3, h4⟩ := de_abs env t cfg hm hr hs hroom
  obtain ⟨e, st, h5, h6⟩ := h4.over v c hd (by simpa using hf)
  rw [Stats.zero_add] at h6
  rw [h5] at h3
  cases hrun : (deserialize env t cfg).run (s, .zero) with
  | ok b st => rw [hrun] at h3; exact h3.elim
  | err e' st' => rw [hrun] at h3; obtain ⟨rfl, -, -⟩ := h3; exact ⟨e, st', rfl, h6⟩

/-- The stream as it would be if the input ended after `n` more bytes. -/
def cut (s : Stream) (n : Nat) (g : Bool) : Stream :=
  { s with inner := { s.inner with data := s.inner.data.take (s.inner.pos + n) }, graceful := g }

theorem cut_over {s : Stream} {m tail : List Byte} (hs : Over s (m ++ tail)) (g : Bool) : Over (cut s m.length g) m := by
  have hl : s.inner.data.length = s.inner.pos + (m ++ tail).length := by
    have := congrArg List.length hs.rest; have := hs.within; simp at *; omega
  refine ⟨⟨hs.fresh.pos, hs.fresh.eof, hs.fresh.commit, hs.fresh.live⟩, hs.benign, ?_, ?_, ?_⟩
  · have := hs.within; simp [cut]; omega
  · show (s.inner.data.take (s.inner.pos + m.length)).drop s.inner.pos = m
    rw [← List.take_drop, hs.rest]; simp
  · have := hs.room; simp at this; simp [cut]; omega

theorem cut_rel {s : Stream} {m tail : List Byte} (hs : Over s (m ++ tail)) (g : Bool) (hg : tail ≠ [] → g = false) (hg' : tail = [] → g = s.graceful) :
    Rel (!tail.isEmpty) tail (cut s m.length g) s := by
  have hd : (cut s m.length g).inner.data ++ tail = s.inner.data := by
    show s.inner.data.take (s.inner.pos + m.length) ++ tail = _
    have h1 : s.inner.data = s.inner.data.take s.inner.pos ++ (m ++ tail) := by rw [← hs.rest, List.take_append_drop]
    have h2 : (s.inner.data.take s.inner.pos).length = s.inner.pos := by have := hs.within; simp; omega
    conv => rhs; rw [h1]
    have h3 : s.inner.data.take (s.inner.pos + m.length) = s.inner.data.take s.inner.pos ++ m := by
      conv => lhs; rw [h1]
      rw [← List.append_assoc, List.take_left' (by simp [h2])]
    rw [h3, List.append_assoc]
  refine ⟨?_, hs.benign, hs.benign, fun h => hg (by simpa using h), fun h => (hg' (by simpa using h)).symm, fun h => by simpa using h⟩
  show s = { cut s m.length g with inner := { (cut s m.length g).inner with data := (cut s m.length g).inner.data ++ tail, sched := s.inner.sched }, graceful := s.graceful }
  rw [hd]; rfl

theorem rel_frame {lo : Bool} {q : List Byte} {s t s' t' : Stream} (h : Rel lo q s t) (h' : Rel lo q s' t') (hf : Frame s s') : t'.pos + t.inner.pos = t.pos + t'.inner.pos := by
  rw [h.pos, h.ipos, h'.pos, h'.ipos]; exact hf.off

/-- A message is deserialised the same whatever follows it, and nothing of what follows is consumed. -/
theorem de_ok (env : Env) (t : Ty) (cfg : Config) {l : Fields} {m tail : List Byte} {s : Stream} (hm : Message l m)
    (hs : Over s (m ++ tail)) (hroom : s.pos + (m ++ tail).length < U64MAX)
    {v : V} {c : Stats} (hd : deTree env t cfg l = .ret v c) (hf : c.fits cfg) :
    ∃ s', (deserialize env t cfg).run (s, .zero) = .ok v (s', c) ∧ Behind s s' m tail := by
  by_cases ht : tail = []
  · subst ht
    exact de_ok_toks env t cfg hm .nil hs hroom hd hf
  · have ho := cut_over hs false
    have hrel := cut_rel hs false (fun _ => rfl) (fun h => absurd h ht)
    obtain ⟨s1, h1, h2⟩ := de_ok_toks (tail := []) env t cfg hm .nil (s := cut s m.length false) (by simpa using ho)
      (by show s.pos + _ < _; simp at hroom ⊢; omega) hd hf
    have hrun := Prog.run_rel _ tail (deserialize env t cfg) DErr.ended (deserialize_nice env t cfg).1 (.inr (deserialize_nice env t cfg).2.1) _ s .zero hrel ho.fresh.inv
    have hn := (deserialize_nice env t cfg)
    rcases hrun.ok v (s1, c) h1 with ⟨s', h3, h4⟩ | ⟨-, h4⟩
    · refine ⟨s', h3, ?_⟩
      have hsafe := (Prog.run_safe (deserialize env t cfg) (s, .zero) hs.fresh.inv).step
      rw [h3] at hsafe
      have hlen : s1.inner.pos = s1.inner.data.length := by
        have := h2.over.rest; have := h2.over.within
        rename_i hx; have := congrArg List.length hx; simp at this; omega
      have e1 := h2.over.fresh
      refine ⟨⟨⟨by rw [h4.pos]; exact e1.pos, by rw [h4.eof]; exact e1.eof, by rw [h4.commit]; exact e1.commit, by rw [h4.live]; exact e1.live⟩,
        h4.ben', by rw [h4.ipos, h4.data]; simp; omega, by rw [h4.ipos, h4.data, hlen]; simp, ?_⟩, ?_, ?_, hsafe.frame⟩
      · have := h2.pos; rw [h4.pos, this]; simp [cut] at hroom ⊢; omega
      · rw [h4.pos, h2.pos]; rfl
      · rw [h4.depth, h2.depth]; rfl
    · exfalso
      have e1 := h4.beyond
      have e2 : vpos s1 = s1.inner.pos := by simp [vpos, h2.over.fresh.commit]
      have := h2.over.within
      simp only at e1; omega

end Fourleaf
