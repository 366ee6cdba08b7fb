import Verif.DocLemmas
import Verif.Strict
import Verif.PropsDe
import Verif.PropsUnamb
import Verif.PropsReads

/-! # C68: exactly the documents are accepted -/

namespace Fourleaf
open Spec Props

theorem EncH.split {a b : List HTok} {bs : List Byte} (h : EncH (a ++ b) bs) : ∃ x y, bs = x ++ y ∧ EncH a x ∧ EncH b y := by
  induction a generalizing bs with
  | nil => exact ⟨[], bs, rfl, .nil, h⟩
  | cons k a ih =>
    cases h with
    | @cons hh tok _ bs1 bs2 h1 h2 h3 =>
      obtain ⟨x, y, rfl, k1, k2⟩ := ih h3
      exact ⟨bs1 ++ x, y, by simp, .cons h1 h2 k1, k2⟩

theorem EncH.pos {a : List HTok} {bs : List Byte} (h : EncH a bs) : ∀ x ∈ a, 0 < x.1 := by
  induction h with
  | nil => intro x hx; cases hx
  | cons h1 h2 _ ih =>
    intro x hx
    rcases List.mem_cons.1 hx with rfl | hx
    · simp only
      cases h1 <;> simp [contentOf] at h2 <;> omega
    · exact ih x hx

theorem conv_ne_nil (g : Bool) (X D : Nat) (ts : List HTok) : conv g X D ts ≠ [] := by
  cases ts with
  | nil => 
    obtain ⟨n, hn⟩ : ∃ n, max D 1 = n + 1 := ⟨max D 1 - 1, by omega⟩
    rw [conv, hn, List.replicate_succ]; simp
  | cons x ts =>
    obtain ⟨h, k⟩ := x
    cases k with
    | exception m => rw [conv]; split <;> simp
    | _ => simp [conv]

theorem conv_ne_replicate {X : Nat} (hX : 0 < X) (D k : Nat) {ts : List HTok} (hp : ∀ x ∈ ts, 0 < x.1) : conv false X D ts ≠ List.replicate k (0, .endStruct) := by
  intro he
  have : ∃ x l, conv false X D ts = x :: l ∧ 0 < x.1 := by
    cases ts with
    | nil =>
      obtain ⟨n, hn⟩ : ∃ n, max D 1 = n + 1 := ⟨max D 1 - 1, by omega⟩
      exact ⟨_, _, by rw [conv, hn, List.replicate_succ], by simpa using hX⟩
    | cons x ts =>
      obtain ⟨h, k⟩ := x
      have := hp _ List.mem_cons_self
      simp only at this
      cases k with
      | exception m =>
        rw [conv]
        split
        · exact ⟨_, _, rfl, by simp; omega⟩
        · exact ⟨_, _, rfl, hX⟩
      | _ => exact ⟨_, _, by rw [conv] <;> simp, this⟩
  obtain ⟨x, l, h1, h2⟩ := this
  rw [h1] at he
  have : x ∈ List.replicate k ((0, .endStruct) : HTok) := he ▸ List.mem_cons_self
  rw [List.eq_of_mem_replicate this] at h2
  simp at h2

/-- Whatever is deserialised from a sequence of elements is read from a document. -/
theorem exact_sound (env : Env) (t : Ty) (cfg : Config) (g : Bool) (p D : Nat) (hs : List HTok) (hp : ∀ x ∈ hs, 0 < x.1) {v : V} {t' : TS} {c : Stats}
    (hr : (deserialize env t cfg).abs (⟨p, D, false, g, none, hs⟩, .zero) = .ok v (t', c)) (hp' : ∀ x ∈ t'.toks, 0 < x.1) :
    ∃ close l a b, hs = a ++ b ∧ Document (decide (2 ≤ D)) close l (a.map (·.2)) ∧ (close = .input → g = true ∧ b = []) ∧ deTree env t cfg l = .ret v c ∧ c.fits cfg ∧
      t'.pos = p + wt a ∧ t'.cur = none ∧ ((g = false ∨ D ≤ 1) → (t'.eof = true ↔ close ≠ .struct) ∧ t'.depth = if close = .struct then D - 1 else 0) := by
  obtain ⟨n, hn⟩ : ∃ n, max D 1 = n + 1 := ⟨max D 1 - 1, by omega⟩
  have hdec : decide (1 ≤ n) = decide (2 ≤ D) := by
    have : (1 ≤ n) ↔ 2 ≤ D := by omega
    simp [this]
  generalize hX : p + wt hs + 1 = X
  have hrel : CutRel (fun _ => True) g X ⟨p, D, false, g, none, hs⟩ ⟨p, D, false, true, none, conv g X D hs⟩ :=
    .inl ⟨rfl, rfl, rfl, rfl, rfl, rfl, rfl, rfl, fun _ _ _ _ => trivial⟩
  have h1 := Prog.abs_c _ (deserialize_strict env t cfg) _ _ Stats.zero hrel
  rw [hr] at h1
  obtain ⟨t2, h2, hc⟩ := h1
  simp only at h2 hc
  have ha1 := Prog.abs_adv (deserialize env t cfg) (⟨p, D, false, g, none, hs⟩, .zero)
  have ha2 := Prog.abs_adv (deserialize env t cfg) (⟨p, D, false, true, none, conv g X D hs⟩, .zero)
  rw [hr] at ha1
  rw [h2] at ha2
  simp only [Res.state_ok] at ha1 ha2
  have hgood := closed_conv g X hs D
  rw [hn] at hgood
  obtain ⟨l, a2, b2, e2, hb, hcase⟩ := hgood
  have hsim := (ops_sim env cfg (stackNeed env t cfg)).body t (.top cfg) l ⟨p, D, false, true, none, conv g X D hs⟩ .zero (max D 1) a2 b2 rfl ⟨Nat.zero_le _, Nat.zero_le _⟩ hb ⟨rfl, rfl, e2⟩
  change SimR cfg .zero ((deserialize env t cfg).abs (⟨p, D, false, true, none, conv g X D hs⟩, .zero)) (deTree env t cfg l) _ at hsim
  rw [h2] at hsim
  rcases (deTree env t cfg l).cases with ⟨v', c', hd⟩ | ⟨k, c', hd⟩
  rotate_left
  · obtain ⟨e, st, h, -⟩ := hsim.err k c' hd; cases h
  by_cases hf : (Stats.zero + c').fits cfg
  rotate_left
  · obtain ⟨e, st, h, -⟩ := hsim.over v' c' hd hf; cases h
  obtain ⟨t2', h3, hdone⟩ := hsim.ok v' c' hd hf
  rw [Stats.zero_add] at h3 hf
  cases h3
  have hpos2 : t2.pos = p + wt a2 := by
    have e1 := ha2.total
    simp only [TS.rem, hdone.cur, hdone.toks, e2, wt_append, Option.getD_none, List.length_nil] at e1
    omega
  have hpos1 : t'.pos ≤ p + wt hs := by
    have e1 := ha1.total
    simp only [TS.rem, Option.getD_none, List.length_nil] at e1
    omega
  have hpp : t2.pos = t'.pos := by rcases hc with h | h <;> exact h.pos
  have hcur : t'.cur = none := by
    rcases hc with h | h
    · rw [← h.cur]; exact hdone.cur
    · exact h.cur
  rw [hdec] at hcase
  have hdd : t2.depth = n := by have := hdone.depth; omega
  have e3 := hdone.toks
  rcases hcase with ⟨a1, b1, rfl, k1, k2, k3, -⟩ | ⟨cl, a1, b1, rfl, k0, k1, k2, k3, k4⟩ | ⟨k1, -⟩
  · refine ⟨.struct, l, a1, b1, rfl, k1, (fun h => by cases h), hd, hf, by omega, hcur, fun hgd => ?_⟩
    rcases hc with h | h
    · refine ⟨by simp [h.eof], ?_⟩
      have := h.depth; simp; omega
    · exfalso
      rw [h.toks, k3] at e3
      rcases hgd with rfl | hgd
      · exact conv_ne_replicate (by omega) _ _ (fun x hx => hp x (List.mem_append_right _ hx)) e3.symm
      · rw [hdd, show n = 0 by omega] at e3
        exact conv_ne_nil _ _ _ _ e3.symm
  · refine ⟨cl, l, a1, b1, rfl, k1, k2, hd, hf, by omega, hcur, fun hgd => ?_⟩
    rw [k4] at e3
    rcases hc with h | h
    · exfalso
      have ht := h.toks
      rw [e3] at ht
      rcases hgd with rfl | hgd
      · refine conv_ne_replicate (by omega) _ _ (fun x hx => ?_) ht.symm
        exact hp' x hx
      · rw [show n = 0 by omega] at ht
        exact conv_ne_nil _ _ _ _ ht.symm
    · exact ⟨by simp [h.eof, k0], by rw [if_neg k0]; exact h.depth⟩
  · omega

/-- A document is deserialised, unless one of its exceptions is reported. -/
theorem exact_complete (env : Env) (t : Ty) (cfg : Config) (g : Bool) (p D : Nat) (hs : List HTok) {m : Bool} {close : Close} {l : Fields} (hd : Document m close l (hs.map (·.2)))
    (hx : m = true → 2 ≤ D) (hg : close = .input → g = true) {v : V} {c : Stats} (hv : deTree env t cfg l = .ret v c) (hf : c.fits cfg) :
    (∃ t', (deserialize env t cfg).abs (⟨p, D, false, g, none, hs⟩, .zero) = .ok v (t', c) ∧ t'.pos = p + wt hs ∧ t'.cur = none ∧
      ((g = false ∨ D ≤ 1) → (∀ x ∈ t'.toks, 0 < x.1) → (t'.eof = true ↔ close ≠ .struct) ∧ t'.depth = if close = .struct then D - 1 else 0)) ∨
    ∃ msg d st, .exception msg ∈ hs.map (·.2) ∧ (deserialize env t cfg).abs (⟨p, D, false, g, none, hs⟩, .zero) = .err (.client d) st ∧ d.kind = .stream (.exception (lossy (msg.take 256))) := by
  generalize hX : p + wt hs + 1 = X
  have hrel : CutRel (fun m => .exception m ∈ hs.map (·.2)) g X ⟨p, D, false, g, none, hs⟩ ⟨p, D, false, true, none, conv g X D hs⟩ :=
    .inl ⟨rfl, rfl, rfl, rfl, rfl, rfl, rfl, rfl, fun x hm m e => e ▸ List.mem_map_of_mem hm⟩
  have h1 := Prog.abs_c _ (deserialize_strict env t cfg) _ _ Stats.zero hrel
  obtain ⟨a2, hb, hw, e2⟩ := hd.conv (g := g) (X := X) D hx hs [] rfl (fun h => ⟨hg h, rfl⟩)
  rw [List.append_nil] at e2
  have hsim := (ops_sim env cfg (stackNeed env t cfg)).body t (.top cfg) l ⟨p, D, false, true, none, conv g X D hs⟩ .zero (max D 1) a2 _ rfl ⟨Nat.zero_le _, Nat.zero_le _⟩ hb ⟨rfl, rfl, e2⟩
  obtain ⟨t2, h2, hdone⟩ := hsim.ok v c hv (by rwa [Stats.zero_add])
  rw [Stats.zero_add] at h2
  change (deserialize env t cfg).abs (⟨p, D, false, true, none, conv g X D hs⟩, .zero) = _ at h2
  have ha2 := Prog.abs_adv (deserialize env t cfg) (⟨p, D, false, true, none, conv g X D hs⟩, .zero)
  rw [h2] at ha2 h1
  have e1 := ha2.total
  simp only [Res.state_ok, TS.rem, hdone.cur, hdone.toks, e2, wt_append, Option.getD_none, List.length_nil] at e1
  cases hr : (deserialize env t cfg).abs (⟨p, D, false, g, none, hs⟩, .zero) with
  | ok v' st =>
    rw [hr] at h1
    obtain ⟨t2', h3, hc⟩ := h1
    cases h3
    have hpp : t2.pos = st.1.pos := by rcases hc with h | h <;> exact h.pos
    have hcur : st.1.cur = none := by
      rcases hc with h | h
      · rw [← h.cur]; exact hdone.cur
      · exact h.cur
    refine .inl ⟨st.1, rfl, by omega, hcur, fun hgd hp' => ?_⟩
    have e3 := hdone.toks
    have hdd := hdone.depth
    by_cases hk : close = .struct
    · rw [if_pos hk] at e3 ⊢
      rcases hc with h | h
      · refine ⟨by simp [h.eof, hk], ?_⟩
        have := h.depth; omega
      · exfalso
        rw [h.toks] at e3
        rcases hgd with rfl | hgd
        · exact conv_ne_replicate (by omega) _ _ (fun x hx => by cases hx) e3.symm
        · rw [hdd, show max D 1 - 1 = 0 by omega] at e3
          exact conv_ne_nil _ _ _ _ e3.symm
    · rw [if_neg hk] at e3 ⊢
      rcases hc with h | h
      · exfalso
        have ht := h.toks
        rw [e3] at ht
        rcases hgd with rfl | hgd
        · exact conv_ne_replicate (by omega) _ _ hp' ht.symm
        · rw [show D - 1 = 0 by omega] at ht
          exact conv_ne_nil _ _ _ _ ht.symm
      · exact ⟨by simp [h.eof, hk], h.depth⟩
  | err e st =>
    rw [hr] at h1
    rcases h1 with ⟨e, st, h⟩ | h | ⟨m, d, h1, rfl, h2⟩
    · cases h
    · simp only [Res.state_ok] at h; omega
    · exact .inr ⟨m, d, st, h1, rfl, h2⟩

end Fourleaf

namespace Fourleaf.Props
open Fourleaf Spec

/-- The bytes are a document with these fields, in some spelling. -/
def IsDoc (nested : Bool) (close : Close) (l : Fields) (a : List Byte) : Prop := ∃ ts, Document nested close l ts ∧ EncToks ts a

/-- The same, without exceptions. -/
def CleanDoc (close : Close) (l : Fields) (a : List Byte) : Prop := ∃ ts, Document false close l ts ∧ NoExc ts ∧ EncToks ts a

/-- Where the stream is when a document `a` has been read and `rest` follows. -/
structure EndsAt (s s' : Stream) (close : Close) (a rest : List Byte) : Prop where
  pos : s'.pos = s.pos + a.length
  rest : s'.inner.data.drop s'.inner.pos = rest
  commit : s'.commit = none
  eof : s.graceful = false ∨ s.depth ≤ 1 → (s'.eof = true ↔ close ≠ .struct)
  depth : s.graceful = false ∨ s.depth ≤ 1 → s'.depth = if close = .struct then s.depth - 1 else 0

theorem endsAt {s s' : Stream} {a rest : List Byte} (hs : Over s (a ++ rest)) (hpos : s'.pos = s.pos + a.length) (hf : Frame s s') : s'.inner.data.drop s'.inner.pos = rest := by
  have h1 := hf.off
  rw [hf.data, show s'.inner.pos = s.inner.pos + a.length by omega, ← List.drop_drop, hs.rest]
  simp

/-- **C68** (complete elements) The same on any stream, if the input consists of complete elements. -/
theorem c68_graceful (env : Env) (henv : env.Ok) (hwf : env.wf) (t : Ty) (ht : t.wf false = true) (cfg : Config) (s : Stream) (ts : List Tok) (m : List Byte) (hm : EncToks ts m) (hs : Over s m)
    (hroom : s.pos + m.length < U64MAX) (v : V) (s' : Stream) (c : Stats) (hrun : (deserialize env t cfg).run (s, .zero) = .ok v (s', c)) :
    ∃ close l a rest, m = a ++ rest ∧ IsDoc (decide (2 ≤ s.depth)) close l a ∧ (close = .input → s.graceful = true ∧ rest = []) ∧ Reads env cfg (.body t) 0 [.struct l] [v] c ∧ c.fits cfg ∧ EndsAt s s' close a rest := by
  obtain ⟨hs0, h2, h3⟩ := hm.toH
  have habs : Abs s ⟨s.pos, s.depth, false, s.graceful, none, hs0⟩ := ⟨⟨m, hs.at_, h2, by simpa using hroom⟩, rfl⟩
  have hr := Prog.run_abs _ (deserialize_nice env t cfg).1 s _ Stats.zero habs
  have hfr := (Prog.run_safe (deserialize env t cfg) (s, .zero) hs.fresh.inv).step.frame
  rw [hrun] at hfr hr
  simp only [Res.state_ok] at hfr
  cases h4 : (deserialize env t cfg).abs (⟨s.pos, s.depth, false, s.graceful, none, hs0⟩, .zero) with
  | err e st => rw [h4] at hr; exact hr.elim
  | ok v' st =>
    rw [h4] at hr
    obtain ⟨t', u'⟩ := st
    obtain ⟨rfl, ⟨⟨rest', hat, henc, -⟩, -⟩, hu⟩ := hr
    simp only at hu hat henc
    subst hu
    obtain ⟨close, l, a1, b1, rfl, k1, k2, k3, k4, k5, k6, k7⟩ := exact_sound env t cfg _ s.pos s.depth hs0 h2.pos h4 henc.pos
    obtain ⟨a, b, rfl, l1, l2⟩ := h2.split
    have hpos : s'.pos = s.pos + a.length := by rw [hat.pos, l1.wt]; exact k5
    refine ⟨close, l, a, b, rfl, ⟨_, k1, l1.toToks⟩, fun h => ⟨(k2 h).1, ?_⟩, (deTree_iff henv hwf ht).1 k3, k4, hpos, endsAt hs hpos hfr, hat.none k6, fun h => ?_, fun h => ?_⟩
    · have := (k2 h).2; subst this; cases l2; rfl
    · rw [hat.eof]; exact (k7 h).1
    · rw [hat.depth]; exact (k7 h).2

theorem _root_.Fourleaf.AtEnd.notLost {s : Stream} (h : AtEnd s) : ¬ Lost s := by
  rintro (hd | hd)
  · exact h.notDoomed hd
  · rcases h with h | ⟨h1, h2⟩
    · rw [hd.eof] at h; cases h
    · rw [hd.commit] at h1; cases h1

/-- **C68** (what is accepted is a document) Whatever bytes a value is deserialised from, they begin with a document that the specification says is read as that value within the limits; and exactly that document has been consumed.
It is closed by the end of its struct, by an end-of-document element or, only with graceful EOF and only where all of the input is consumed, by the end of the input.
With graceful EOF this is so on streams that do not seek; on those that do, blobs that are cut off are not noticed (`c68_seek_example`). -/
theorem c68_any (env : Env) (henv : env.Ok) (hwf : env.wf) (t : Ty) (ht : t.wf false = true) (cfg : Config) (s : Stream) (m : List Byte) (hs : Over s m) (hseek : s.graceful = true → s.useSeek = false ∨ s.inner.seekable = false)
    (hroom : s.pos + m.length < U64MAX) (v : V) (s' : Stream) (c : Stats) (hrun : (deserialize env t cfg).run (s, .zero) = .ok v (s', c)) :
    ∃ close l a rest, m = a ++ rest ∧ IsDoc (decide (2 ≤ s.depth)) close l a ∧ (close = .input → s.graceful = true ∧ rest = []) ∧ Reads env cfg (.body t) 0 [.struct l] [v] c ∧ c.fits cfg ∧ EndsAt s s' close a rest := by
  obtain ⟨ts, x, junk, rfl, h1, hj⟩ := tokenise m
  by_cases hn : junk = []
  · subst hn
    exact c68_graceful env henv hwf t ht cfg s ts _ (by simpa using h1) hs hroom v s' c hrun
  obtain ⟨hs0, h2, h3⟩ := h1.toH
  have hmode : Mode junk s := by
    cases hg : s.graceful with
    | false => exact .inl hg
    | true => exact .inr ⟨hn, hseek hg⟩
  have habs : AbsJ junk s ⟨s.pos, s.depth, false, false, none, hs0⟩ := ⟨⟨x, hs.at_, h2, by simpa using hroom⟩, hmode, rfl⟩
  have hr := Prog.run_j hj _ (deserialize_strict env t cfg) s _ Stats.zero habs v s' c hrun
  have hend : AtEnd s' := ((deserialize_budget env t cfg hs.fresh.inv).ok v s' c hrun).2.2
  have hfr := (Prog.run_safe (deserialize env t cfg) (s, .zero) hs.fresh.inv).step.frame
  rw [hrun] at hfr
  simp only [Res.state_ok] at hfr
  rcases hr with ⟨t', h4, h5⟩ | h
  rotate_left
  · exact absurd h hend.notLost
  obtain ⟨rest', hat, henc, -⟩ := h5.at_
  obtain ⟨close, l, a1, b1, rfl, k1, k2, k3, k4, k5, k6, k7⟩ := exact_sound env t cfg false s.pos s.depth hs0 h2.pos h4 henc.pos
  obtain ⟨a, b, rfl, l1, l2⟩ := h2.split
  have hpos : s'.pos = s.pos + a.length := by rw [hat.pos, l1.wt]; exact k5
  refine ⟨close, l, a, b ++ junk, by simp, ⟨_, k1, l1.toToks⟩, (fun h => by have := (k2 h).1; cases this), (deTree_iff henv hwf ht).1 k3, k4, hpos, ?_, hat.none k6, fun h => ?_, fun h => ?_⟩
  · exact endsAt (by simpa using hs) hpos hfr
  · rw [hat.eof]; exact (k7 (.inl rfl)).1
  · rw [hat.depth]; exact (k7 (.inl rfl)).2

/-- **C68** (without graceful EOF) Whatever bytes a value is deserialised from, they begin with a document, closed by the end of its struct or by an end-of-document element, that the specification says is read as that value within the limits;
and exactly that document has been consumed. -/
theorem c68_sound (env : Env) (henv : env.Ok) (hwf : env.wf) (t : Ty) (ht : t.wf false = true) (cfg : Config) (s : Stream) (m : List Byte) (hs : Over s m) (hg : s.graceful = false)
    (hroom : s.pos + m.length < U64MAX) (v : V) (s' : Stream) (c : Stats) (hrun : (deserialize env t cfg).run (s, .zero) = .ok v (s', c)) :
    ∃ close l a rest, m = a ++ rest ∧ IsDoc (decide (2 ≤ s.depth)) close l a ∧ close ≠ .input ∧ Reads env cfg (.body t) 0 [.struct l] [v] c ∧ c.fits cfg ∧ EndsAt s s' close a rest := by
  obtain ⟨close, l, a, rest, h1, h2, h3, h4⟩ := c68_any env henv hwf t ht cfg s m hs (fun h => by rw [hg] at h; cases h) hroom v s' c hrun
  exact ⟨close, l, a, rest, h1, h2, (fun h => by have := (h3 h).1; rw [hg] at this; cases this), h4⟩

theorem _root_.Fourleaf.At.vpos {s : Stream} {v : View} (h : At s v) : vpos s ≤ s.inner.data.length := by
  have hl : s.rest.length = s.inner.data.length - s.inner.pos := by simp [Stream.rest, Inner.rest]
  have hb := h.bytes
  have hw := h.within
  unfold Fourleaf.vpos
  cases hc : v.cur with
  | none => rw [h.none hc, if_neg (by simp)]; omega
  | some c =>
    obtain ⟨h1, -, h2⟩ := h.some c hc
    rw [if_pos h1, h2]
    have : s.rest.length = c.length + v.rest.length := by rw [hb]; simp [View.curBytes, hc]
    omega

/-- **C68** (documents with exceptions) A document whose fields the specification says are read as a value within the limits, with exceptions anywhere in its nested structs, is deserialised as that value,
and exactly the document is consumed; or the error is one of its exceptions. No other error is returned because of an exception, and the value is never another one. -/
theorem c68_exceptions (env : Env) (henv : env.Ok) (hwf : env.wf) (t : Ty) (ht : t.wf false = true) (cfg : Config) (s : Stream) (close : Close) (l : Fields) (ts : List Tok) (a rest : List Byte)
    (hd : Document (decide (2 ≤ s.depth)) close l ts) (hd3 : EncToks ts a)
    (hs : Over s (a ++ rest)) (hc : close = .input → s.graceful = true ∧ rest = []) (hroom : s.pos + (a ++ rest).length < U64MAX) (v : V) (c : Stats)
    (hv : Reads env cfg (.body t) 0 [.struct l] [v] c) (hf : c.fits cfg) :
    (∃ s', (deserialize env t cfg).run (s, .zero) = .ok v (s', c) ∧ EndsAt s s' close a rest) ∨
    ∃ msg text e st, .exception msg ∈ ts ∧ LossyText (msg.take 256) text ∧ (deserialize env t cfg).run (s, .zero) = .err (.client e) st ∧ e.kind = .stream (.exception text) := by
  have hv' := (deTree_iff henv hwf ht).2 hv
  obtain ⟨hs0, h2, rfl⟩ := hd3.toH
  generalize hgg : (if rest = [] then s.graceful else false) = g
  have hg1 : close = .input → g = true := fun h => by rw [← hgg, if_pos (hc h).2]; exact (hc h).1
  have ho := cut_over hs g
  have hrel := cut_rel hs g (fun h => by rw [← hgg, if_neg h]) (fun h => by rw [← hgg, if_pos h])
  have hle : s.pos + a.length < U64MAX := by simp at hroom; omega
  have habs : Abs (cut s a.length g) ⟨s.pos, s.depth, false, g, none, hs0⟩ := ⟨⟨a, ho.at_, h2, by simpa using hle⟩, rfl⟩
  have hr := Prog.run_abs _ (deserialize_nice env t cfg).1 _ _ Stats.zero habs
  have hrr := Prog.run_rel _ rest (deserialize env t cfg) DErr.ended (deserialize_nice env t cfg).1 (.inr (deserialize_nice env t cfg).2.1) _ s .zero hrel ho.fresh.inv
  rcases exact_complete env t cfg g s.pos s.depth hs0 hd (fun h => of_decide_eq_true h) hg1 hv' hf with ⟨t', k1, k2, k3, k4⟩ | ⟨msg, d, st', k1, k2, k3⟩
  rotate_left
  · right
    rw [k2] at hr
    cases hrun : (deserialize env t cfg).run (cut s a.length g, .zero) with
    | ok v' st => rw [hrun] at hr; exact hr.elim
    | err e st =>
      rw [hrun] at hr
      obtain ⟨s1, u'⟩ := st
      obtain ⟨rfl, ⟨⟨rest', hat, -⟩, -⟩, -⟩ := hr
      rcases hrr.err _ _ hrun with ⟨s', h3, -⟩ | ⟨-, h4 | ⟨d', h4, h5⟩⟩
      · exact ⟨msg, _, d, _, k1, lossy_spec _, h3, k3⟩
      · have := h4.beyond; have := hat.vpos; omega
      · cases h4; rw [DErr.ended, k3] at h5; cases h5
  left
  rw [k1] at hr
  cases hrun : (deserialize env t cfg).run (cut s a.length g, .zero) with
  | err e st => rw [hrun] at hr; exact hr.elim
  | ok v' st =>
    rw [hrun] at hr
    obtain ⟨s1, u'⟩ := st
    obtain ⟨rfl, ⟨⟨rest', hat, henc, -⟩, -⟩, hu⟩ := hr
    simp only at hu hat henc
    subst hu
    have hend : AtEnd s1 := ((deserialize_budget env t cfg ho.fresh.inv).ok _ s1 _ hrun).2.2
    rcases hrr.ok _ _ hrun with ⟨s', h3, h4⟩ | ⟨-, h4⟩
    rotate_left
    · exact absurd h4 hend.notDoomed
    refine ⟨s', h3, ?_⟩
    have hfr := (Prog.run_safe (deserialize env t cfg) (s, .zero) hs.fresh.inv).step.frame
    rw [h3] at hfr
    simp only [Res.state_ok] at hfr
    have hpos : s'.pos = s.pos + a.length := by rw [h4.pos, hat.pos, h2.wt]; exact k2
    have hg2 : s.graceful = false ∨ s.depth ≤ 1 → g = false ∨ s.depth ≤ 1 := fun h => h.imp_left fun h => by rw [← hgg, h]; simp
    refine ⟨hpos, endsAt hs hpos hfr, by rw [h4.commit]; exact hat.none k3, fun h => ?_, fun h => ?_⟩
    · rw [h4.eof, hat.eof]; exact (k4 (hg2 h) henc.pos).1
    · rw [h4.depth, hat.depth]; exact (k4 (hg2 h) henc.pos).2

theorem _root_.Fourleaf.Document.anyNested {n : Bool} {c : Close} {l : Fields} {ts : List Tok} (h : Document n c l ts) (hx : NoExc ts) (n' : Bool) : Document n' c l ts := by
  induction h generalizing n' with
  | endStruct => exact .endStruct
  | endDoc => exact .endDoc
  | input => exact .input
  | pad _ ih => exact .pad (ih hx.tail n')
  | @exception _ _ _ m _ ih => exact absurd List.mem_cons_self (hx m)
  | int _ ih => exact .int (ih hx.tail n')
  | blob _ ih => exact .blob (ih hx.tail n')
  | struct h1 _ _ ih => exact .struct h1 (ih hx.tail.right n')
  | structCut h1 h2 _ => exact .structCut h1 h2
  | enum h1 _ _ ih => exact .enum h1 (ih hx.tail.right n')
  | enumCut h1 h2 _ => exact .enumCut h1 h2

/-- **C68** (documents are accepted) Every document without exceptions that the specification says is read as a value within the limits is deserialised as that value, whatever follows it (with graceful EOF, this includes documents that are closed by the end of the input);
and exactly the document is consumed. -/
theorem c68_complete (env : Env) (henv : env.Ok) (hwf : env.wf) (t : Ty) (ht : t.wf false = true) (cfg : Config) (s : Stream) (close : Close) (l : Fields) (a rest : List Byte) (hd : CleanDoc close l a)
    (hs : Over s (a ++ rest)) (hc : close = .input → s.graceful = true ∧ rest = []) (hroom : s.pos + (a ++ rest).length < U64MAX) (v : V) (c : Stats)
    (hv : Reads env cfg (.body t) 0 [.struct l] [v] c) (hf : c.fits cfg) :
    ∃ s', (deserialize env t cfg).run (s, .zero) = .ok v (s', c) ∧ EndsAt s s' close a rest := by
  obtain ⟨ts, hd1, hd2, hd3⟩ := hd
  rcases c68_exceptions env henv hwf t ht cfg s close l ts a rest (hd1.anyNested hd2 _) hd3 hs hc hroom v c hv hf with h | ⟨msg, _, _, _, h, -⟩
  · exact h
  · exact absurd h (hd2 msg)

/-- No prefix of the bytes consists of elements one of which is an exception. -/
def NoExceptions (m : List Byte) : Prop := ∀ ts a rest, m = a ++ rest → EncToks ts a → NoExc ts

/-- **C68** (exactly the documents) For all bytes in which there are no exceptions, whatever else they are: they are accepted as a value exactly if a prefix of them is a document that the specification says is read as that value within the limits.
Otherwise an error is returned. -/
theorem c68_exactly (env : Env) (henv : env.Ok) (hwf : env.wf) (t : Ty) (ht : t.wf false = true) (cfg : Config) (s : Stream) (m : List Byte) (hs : Over s m) (hg : s.graceful = false)
    (hroom : s.pos + m.length < U64MAX) (hx : NoExceptions m) :
    (∀ v c, (∃ s', (deserialize env t cfg).run (s, .zero) = .ok v (s', c)) ↔
      ∃ close l a rest, m = a ++ rest ∧ CleanDoc close l a ∧ close ≠ .input ∧ Reads env cfg (.body t) 0 [.struct l] [v] c ∧ c.fits cfg) ∧
    ((¬ ∃ close l a rest v c, m = a ++ rest ∧ CleanDoc close l a ∧ close ≠ .input ∧ Reads env cfg (.body t) 0 [.struct l] [v] c ∧ c.fits cfg) →
      ∃ e st, (deserialize env t cfg).run (s, .zero) = .err (.client e) st ∧ e.kind ≠ .panic ∧ e.kind ≠ .stackOverflow) := by
  have hsound : ∀ v s' c, (deserialize env t cfg).run (s, .zero) = .ok v (s', c) →
      ∃ close l a rest, m = a ++ rest ∧ CleanDoc close l a ∧ close ≠ .input ∧ Reads env cfg (.body t) 0 [.struct l] [v] c ∧ c.fits cfg := by
    intro v s' c h
    obtain ⟨close, l, a, rest, h1, ⟨ts, h2, h3⟩, h4, h5, h6, -⟩ := c68_sound env henv hwf t ht cfg s m hs hg hroom v s' c h
    exact ⟨close, l, a, rest, h1, ⟨ts, h2.anyNested (hx ts a rest h1 h3) _, hx ts a rest h1 h3, h3⟩, h4, h5, h6⟩
  refine ⟨fun v c => ⟨fun ⟨s', h⟩ => hsound v s' c h, ?_⟩, fun h => ?_⟩
  · rintro ⟨close, l, a, rest, rfl, h2, h4, h5, h6⟩
    obtain ⟨s', h7, -⟩ := c68_complete env henv hwf t ht cfg s close l a rest h2 hs (fun h => absurd h h4) hroom v c h5 h6
    exact ⟨s', h7⟩
  · rcases (c45_total env t cfg s hs.fresh.inv).1 with ⟨v, st, h1⟩ | h1
    · obtain ⟨close, l, a, rest, h2⟩ := hsound v st.1 st.2 h1
      exact absurd ⟨close, l, a, rest, v, st.2, h2⟩ h
    · exact h1

/-! ## There is one document -/

theorem _root_.Fourleaf.Document.unique {n : Bool} {c : Close} {l : Fields} {ts : List Tok} (h : Document n c l ts) : ∀ {c' : Close} {l' : Fields} {ts' r r' : List Tok}, Document n c' l' ts' → c ≠ .input → c' ≠ .input →
    ts ++ r = ts' ++ r' → c = c' ∧ l = l' ∧ ts = ts' ∧ r = r' := by
  induction h with
  | endStruct => intro c' l' ts' r r' h' h1 h2 e; cases h' <;> simp_all
  | endDoc => intro c' l' ts' r r' h' h1 h2 e; cases h' <;> simp_all
  | input => intro c' l' ts' r r' h' h1; exact absurd rfl h1
  | pad _ ih =>
    intro c' l' ts' r r' h' h1 h2 e
    cases h' with
    | pad h' =>
      obtain ⟨rfl, rfl, rfl, rfl⟩ := ih h' h1 h2 (by simpa using e)
      exact ⟨rfl, rfl, rfl, rfl⟩
    | _ => simp_all
  | exception _ ih =>
    intro c' l' ts' r r' h' h1 h2 e
    cases h' with
    | exception h' =>
      simp only [List.cons_append, List.cons.injEq, Tok.exception.injEq] at e
      obtain ⟨rfl, e⟩ := e
      obtain ⟨rfl, rfl, rfl, rfl⟩ := ih h' h1 h2 e
      exact ⟨rfl, rfl, rfl, rfl⟩
    | _ => simp_all
  | int _ ih =>
    intro c' l' ts' r r' h' h1 h2 e
    cases h' with
    | int h' =>
      simp only [List.cons_append, List.cons.injEq, Tok.int.injEq] at e
      obtain ⟨⟨rfl, rfl⟩, e⟩ := e
      obtain ⟨rfl, rfl, rfl, rfl⟩ := ih h' h1 h2 e
      exact ⟨rfl, rfl, rfl, rfl⟩
    | _ => simp_all
  | blob _ ih =>
    intro c' l' ts' r r' h' h1 h2 e
    cases h' with
    | blob h' =>
      simp only [List.cons_append, List.cons.injEq, Tok.blob.injEq] at e
      obtain ⟨⟨rfl, rfl⟩, e⟩ := e
      obtain ⟨rfl, rfl, rfl, rfl⟩ := ih h' h1 h2 e
      exact ⟨rfl, rfl, rfl, rfl⟩
    | _ => simp_all
  | struct _ _ ih1 ih2 =>
    intro c' l' ts' r r' h' h1 h2 e
    cases h' with
    | struct h3 h4 =>
      simp only [List.cons_append, List.cons.injEq, Tok.struct.injEq, List.append_assoc] at e
      obtain ⟨rfl, e⟩ := e
      obtain ⟨-, rfl, rfl, e'⟩ := ih1 h3 (by simp) (by simp) e
      obtain ⟨rfl, rfl, rfl, rfl⟩ := ih2 h4 h1 h2 e'
      exact ⟨rfl, rfl, rfl, rfl⟩
    | structCut h3 h4 =>
      simp only [List.cons_append, List.cons.injEq, Tok.struct.injEq, List.append_assoc] at e
      exact absurd (ih1 h3 (by simp) h2 e.2).1.symm h4
    | _ => simp_all
  | structCut _ hc ih =>
    intro c' l' ts' r r' h' h1 h2 e
    cases h' with
    | struct h3 h4 =>
      simp only [List.cons_append, List.cons.injEq, Tok.struct.injEq, List.append_assoc] at e
      exact absurd (ih h3 h1 (by simp) e.2).1 hc
    | structCut h3 h4 =>
      simp only [List.cons_append, List.cons.injEq, Tok.struct.injEq] at e
      obtain ⟨rfl, e⟩ := e
      obtain ⟨rfl, rfl, rfl, rfl⟩ := ih h3 h1 h2 e
      exact ⟨rfl, rfl, rfl, rfl⟩
    | _ => simp_all
  | enum _ _ ih1 ih2 =>
    intro c' l' ts' r r' h' h1 h2 e
    cases h' with
    | enum h3 h4 =>
      simp only [List.cons_append, List.cons.injEq, Tok.enum.injEq, List.append_assoc] at e
      obtain ⟨⟨rfl, rfl⟩, e⟩ := e
      obtain ⟨-, rfl, rfl, e'⟩ := ih1 h3 (by simp) (by simp) e
      obtain ⟨rfl, rfl, rfl, rfl⟩ := ih2 h4 h1 h2 e'
      exact ⟨rfl, rfl, rfl, rfl⟩
    | enumCut h3 h4 =>
      simp only [List.cons_append, List.cons.injEq, Tok.enum.injEq, List.append_assoc] at e
      exact absurd (ih1 h3 (by simp) h2 e.2).1.symm h4
    | _ => simp_all
  | enumCut _ hc ih =>
    intro c' l' ts' r r' h' h1 h2 e
    cases h' with
    | enum h3 h4 =>
      simp only [List.cons_append, List.cons.injEq, Tok.enum.injEq, List.append_assoc] at e
      exact absurd (ih h3 h1 (by simp) e.2).1 hc
    | enumCut h3 h4 =>
      simp only [List.cons_append, List.cons.injEq, Tok.enum.injEq] at e
      obtain ⟨⟨rfl, rfl⟩, e⟩ := e
      obtain ⟨rfl, rfl, rfl, rfl⟩ := ih h3 h1 h2 e
      exact ⟨rfl, rfl, rfl, rfl⟩
    | _ => simp_all

theorem encToks_front {ts : List Tok} {a : List Byte} (h : EncToks ts a) : ∀ {ts' : List Tok} {a' r r' : List Byte}, EncToks ts' a' → a ++ r = a' ++ r' → ∃ u u', ts ++ u = ts' ++ u' := by
  induction h with
  | nil => intro ts' a' r r' _ _; exact ⟨ts', [], by simp⟩
  | @cons tok ts b bs h1 h2 ih =>
    intro ts' a' r r' h' e
    cases h' with
    | nil => exact ⟨[], tok :: ts, by simp⟩
    | cons h3 h4 =>
      rw [List.append_assoc, List.append_assoc] at e
      obtain ⟨rfl, rfl⟩ := encTok_unique h1 h3 e
      obtain ⟨u, u', hu⟩ := ih h4 (List.append_cancel_left e)
      exact ⟨u, u', by simp [hu]⟩

theorem encToks_same {ts : List Tok} {a : List Byte} (h : EncToks ts a) : ∀ {a' r r' : List Byte}, EncToks ts a' → a ++ r = a' ++ r' → a = a' := by
  induction h with
  | nil => intro a' r r' h _; cases h; rfl
  | cons h1 h2 ih =>
    intro a' r r' h' e
    cases h' with
    | cons h3 h4 =>
      rw [List.append_assoc, List.append_assoc] at e
      obtain ⟨-, rfl⟩ := encTok_unique h1 h3 e
      rw [ih h4 (List.append_cancel_left e)]

/-- **C68** (one document) Whatever follows, at most one document is at the front of given bytes, in one extent and closed in one way. -/
theorem c68_one (n : Bool) (c c' : Close) (l l' : Fields) (a a' r r' : List Byte) (h : IsDoc n c l a) (h' : IsDoc n c' l' a') (hc : c ≠ .input) (hc' : c' ≠ .input) (e : a ++ r = a' ++ r') :
    c = c' ∧ l = l' ∧ a = a' ∧ r = r' := by
  obtain ⟨ts, h1, h2⟩ := h
  obtain ⟨ts', h1', h2'⟩ := h'
  obtain ⟨u, u', hu⟩ := encToks_front h2 h2' e
  obtain ⟨rfl, rfl, rfl, -⟩ := h1.unique h1' hc hc' hu
  have hl : a = a' := encToks_same h2 h2' e
  subst hl
  exact ⟨rfl, rfl, rfl, List.append_cancel_left e⟩

theorem _root_.Fourleaf.BodyOf.document {l : Fields} {ts : List Tok} (h : BodyOf l ts) : NoExc ts ∧ ∀ n, Document n .struct l ts := by
  have cons : ∀ (x : Tok) (ts : List Tok), (∀ m, x ≠ .exception m) → NoExc ts → NoExc (x :: ts) := fun x ts hx h m hm => by
    rcases List.mem_cons.1 hm with e | hm
    · exact hx m e.symm
    · exact h m hm
  have app : ∀ (a b : List Tok), NoExc a → NoExc b → NoExc (a ++ b) := fun a b h h' m hm => (List.mem_append.1 hm).elim (h m) (h' m)
  induction h with
  | nil => exact ⟨cons _ _ (by simp) (fun m h => by cases h), fun _ => .endStruct⟩
  | pad _ ih => exact ⟨cons _ _ (by simp) ih.1, fun n => .pad (ih.2 n)⟩
  | int _ ih => exact ⟨cons _ _ (by simp) ih.1, fun n => .int (ih.2 n)⟩
  | blob _ ih => exact ⟨cons _ _ (by simp) ih.1, fun n => .blob (ih.2 n)⟩
  | struct _ _ ih1 ih2 => exact ⟨cons _ _ (by simp) (app _ _ ih1.1 ih2.1), fun n => .struct (ih1.2 true) (ih2.2 n)⟩
  | enum _ _ ih1 ih2 => exact ⟨cons _ _ (by simp) (app _ _ ih1.1 ih2.1), fun n => .enum (ih1.2 true) (ih2.2 n)⟩

theorem _root_.Fourleaf.Document.body {n : Bool} {c : Close} {l : Fields} {ts : List Tok} (h : Document n c l ts) : c = .struct → NoExc ts → BodyOf l ts := by
  induction h with
  | endStruct => intro _ _; exact .nil
  | endDoc => intro h; cases h
  | input => intro h; cases h
  | pad _ ih => intro h hx; exact .pad (ih h hx.tail)
  | @exception _ _ _ m _ ih => intro h hx; exact absurd List.mem_cons_self (hx m)
  | int _ ih => intro h hx; exact .int (ih h hx.tail)
  | blob _ ih => intro h hx; exact .blob (ih h hx.tail)
  | struct _ _ ih1 ih2 => intro h hx; exact .struct (ih1 rfl hx.tail.left) (ih2 h hx.tail.right)
  | structCut _ h1 _ => intro h; exact absurd h h1
  | enum _ _ ih1 ih2 => intro h hx; exact .enum (ih1 rfl hx.tail.left) (ih2 h hx.tail.right)
  | enumCut _ h1 _ => intro h; exact absurd h h1

/-- **C68** (messages) Messages are the documents without exceptions that are closed by the end of their struct. -/
theorem c68_messages (l : Fields) (a : List Byte) : Message l a ↔ CleanDoc .struct l a :=
  ⟨fun ⟨ts, h1, h2⟩ => ⟨ts, h1.document.2 _, h1.document.1, h2⟩, fun ⟨ts, h1, h2, h3⟩ => ⟨ts, h1.body rfl h2, h3⟩⟩

/-- Bytes that end within an element are not a sequence of elements. -/
theorem cut_within {ts : List Tok} {a : List Byte} (h : EncToks ts a) {tok : Tok} {p q : List Byte} (ht : EncTok tok (p ++ q)) (hp : p ≠ []) (hq : q ≠ []) : ¬ ∃ ts', EncToks ts' (a ++ p) := by
  induction h with
  | nil =>
    rintro ⟨ts', h'⟩
    rw [List.nil_append] at h'
    cases h' with
    | nil => exact hp rfl
    | @cons x xs b bs h1 h2 =>
      obtain ⟨-, e⟩ := encTok_unique (r := bs ++ q) (r' := []) h1 ht (by simp)
      have h5 := congrArg List.length (List.append_cancel_left (as := b) (by rw [List.append_nil, ← List.append_assoc]; exact e.symm) : bs ++ q = [])
      exact hq (by simpa using (List.append_eq_nil_iff.1 (List.eq_nil_of_length_eq_zero h5)).2)
  | @cons x xs b bs h1 h2 ih =>
    rintro ⟨ts', h'⟩
    generalize hb : b ++ bs ++ p = w at h'
    cases h' with
    | nil =>
      have := h1.ne_nil
      simp at hb
      rw [hb.1] at this; simp at this
    | @cons y ys b' bs' h3 h4 =>
      rw [List.append_assoc] at hb
      obtain ⟨-, rfl⟩ := encTok_unique h1 h3 hb
      have := List.append_cancel_left hb
      subst this
      exact ih ⟨ys, h4⟩

/-- **C33** (graceful EOF) With graceful EOF too, a message that is cut off within an element is rejected with an error by every type, on streams that do not seek. (Cut off between two elements, what is left is a document closed by the end of the input.) -/
theorem c33_graceful (env : Env) (henv : env.Ok) (hwf : env.wf) (t : Ty) (ht : t.wf false = true) (cfg : Config) (l : Fields) (p q : List Byte) (hm : Message l (p ++ q)) (hcut : ¬ ∃ ts, EncToks ts p)
    (s : Stream) (hs : Over s p) (hseek : s.useSeek = false ∨ s.inner.seekable = false) (hroom : s.pos + p.length < U64MAX) :
    ∃ e st, (deserialize env t cfg).run (s, .zero) = .err (.client e) st ∧ e.kind ≠ .panic ∧ e.kind ≠ .stackOverflow := by
  rcases (c45_total env t cfg s hs.fresh.inv).1 with ⟨v, st, h1⟩ | h1
  rotate_left
  · exact h1
  exfalso
  obtain ⟨close, l', a, rest, rfl, h2, h3, -⟩ := c68_any env henv hwf t ht cfg s p hs (fun _ => hseek) hroom v st.1 st.2 h1
  by_cases hc : close = .input
  · obtain ⟨-, rfl⟩ := h3 hc
    obtain ⟨ts, -, h4⟩ := h2
    exact hcut ⟨ts, by simpa using h4⟩
  · obtain ⟨ts, h4, h5, h6⟩ := (c68_messages _ _).1 hm
    obtain ⟨-, -, e, -⟩ := c68_one _ _ _ _ _ _ _ (rest ++ q) [] h2 ⟨ts, h4.anyNested h5 _, h6⟩ hc (by simp) (by simp)
    have := congrArg List.length e
    simp at this
    obtain ⟨ts', -, h7⟩ := h2
    rw [this.1] at hcut
    exact hcut ⟨ts', by simpa using h7⟩

/-- Bytes in which `0x80` does not occur have no exceptions. -/
theorem noExceptions_of {m : List Byte} (h : 128 ∉ m) : NoExceptions m := by
  intro ts a rest e he x hx
  refine h ?_
  rw [e]
  refine List.mem_append_left _ ?_
  clear e h
  induction he with
  | nil => cases hx
  | cons h1 _ ih =>
    rcases List.mem_cons.1 hx with rfl | hx
    · cases h1; simp
    · exact List.mem_append_right _ (ih hx)

/-! ## Examples -/

/-- The example closed by an end-of-document element: a document, though not a message. -/
theorem exDoc : CleanDoc .doc exTree [65, 244, 3, 130, 0, 130, 1, 120, 69, 7, 64] := by
  refine ⟨[.int 1 500, .blob 2 [], .blob 2 [120], .int 5 7, .endDoc], .int (.blob (.blob (.int .endDoc))), (fun m h => by simp at h), ?_⟩
  have e : canonToks [.int 1 500, .blob 2 [], .blob 2 [120], .int 5 7, .endDoc] = [65, 244, 3, 130, 0, 130, 1, 120, 69, 7, 64] := by decide +kernel
  rw [← e]; exact canonToks_enc (by decide)

/-- It is accepted as the same value; and the stream is then at the end of the document. -/
example : ∃ s', (deserialize exEnv (.named 0) .default).run (Stream.fromSlice ([65, 244, 3, 130, 0, 130, 1, 120, 69, 7, 64] ++ [255]), .zero) = .ok exValue (s', ⟨3, 1⟩) ∧ s'.eof = true ∧ s'.pos = 11 := by
  obtain ⟨s', h1, h2⟩ := c68_complete exEnv exEnv_ok exEnv_wf (.named 0) rfl .default (Stream.fromSlice _) .doc exTree _ [255] exDoc (over_fromSlice _ (by decide)) (fun h => by cases h) (by decide) exValue ⟨3, 1⟩
    ((c54_accepts exEnv exEnv_ok exEnv_wf _ rfl _ _ _ exMessage (by decide) _ _).1 exAccepts).1 (by decide)
  exact ⟨s', h1, (h2.eof (.inl rfl)).2 (by simp), h2.pos⟩

/-- An exception in a nested struct that is ignored goes unnoticed; this is why `c68_complete` and `c68_exactly` are about documents without exceptions. -/
example : (match (deserialize exEnv (.tuple [.prim .bool]) .default).run (Stream.fromSlice [65, 1, 194, 128, 1, 120, 0, 0], .zero) with
    | .ok (.seq [.bool true]) (s, _) => decide (s.pos = 8) | _ => false) = true := by decide +kernel

/-- The hypotheses of `c68_exceptions` hold of this document. -/
example : (∃ s', (deserialize exEnv (.tuple [.prim .bool]) .default).run (Stream.fromSlice ([65, 1, 194, 128, 1, 120, 0, 0] ++ [255]), .zero) = .ok (.seq [.bool true]) (s', ⟨0, 0⟩) ∧
      EndsAt (Stream.fromSlice ([65, 1, 194, 128, 1, 120, 0, 0] ++ [255])) s' .struct [65, 1, 194, 128, 1, 120, 0, 0] [255]) ∨
    ∃ msg text e st, .exception msg ∈ [Tok.int 1 1, .struct 2, .exception [120], .endStruct, .endStruct] ∧ LossyText (msg.take 256) text ∧
      (deserialize exEnv (.tuple [.prim .bool]) .default).run (Stream.fromSlice ([65, 1, 194, 128, 1, 120, 0, 0] ++ [255]), .zero) = .err (.client e) st ∧ e.kind = .stream (.exception text) := by
  have e : canonToks [.int 1 1, .struct 2, .exception [120], .endStruct, .endStruct] = [65, 1, 194, 128, 1, 120, 0, 0] := by decide +kernel
  have hd : EncToks [.int 1 1, .struct 2, .exception [120], .endStruct, .endStruct] [65, 1, 194, 128, 1, 120, 0, 0] := by rw [← e]; exact canonToks_enc (by decide)
  have hdoc : Document false .struct [(1, .int 1), (2, .struct [])] [.int 1 1, .struct 2, .exception [120], .endStruct, .endStruct] :=
    .int (.struct (a := [.exception [120], .endStruct]) (.exception .endStruct) .endStruct)
  exact c68_exceptions exEnv exEnv_ok exEnv_wf (.tuple [.prim .bool]) (by decide) .default (Stream.fromSlice _) .struct [(1, .int 1), (2, .struct [])] _ _ [255] hdoc hd (over_fromSlice _ (by decide)) (fun h => by cases h) (by decide)
    _ _ ((deTree_iff exEnv_ok exEnv_wf (by decide)).1 rfl) (by decide)

/-- In a struct that is read, or in the document itself, it is an error. -/
example : (match (deserialize exEnv (.tuple [.prim .bool]) .default).run (Stream.fromSlice [65, 1, 128, 1, 120, 0], .zero) with
    | .err (.client ⟨.stream (.exception _), []⟩) _ => true | _ => false) = true := by decide +kernel

/-- No prefix of the example without its last byte is a document: an error. -/
example : ∃ e st, (deserialize exEnv (.named 0) .default).run (Stream.fromSlice [65, 244, 3, 130, 0, 130, 1, 120, 69, 7], .zero) = .err (.client e) st := by
  obtain ⟨e, st, h, -⟩ := (c68_exactly exEnv exEnv_ok exEnv_wf (.named 0) rfl .default (Stream.fromSlice [65, 244, 3, 130, 0, 130, 1, 120, 69, 7]) _ (over_fromSlice _ (by decide)) rfl (by decide)
    (noExceptions_of (by decide))).2 (by
      rintro ⟨close, l, a, rest, v, c, h1, ⟨ts, h2, h3, h4⟩, h5, -⟩
      obtain ⟨ts', h6, -, h7⟩ := (c68_messages _ _).1 exMessage
      obtain ⟨-, -, rfl, -⟩ := c68_one false close .struct l exTree a exBytes (rest ++ [0]) [] ⟨ts, h2, h4⟩ ⟨ts', h6, h7⟩ h5 (by simp) (by rw [← List.append_assoc, ← h1]; rfl)
      have := congrArg List.length h1
      simp [exBytes] at this)
  exact ⟨e, st, h⟩

/-- A stream that does not seek, with graceful EOF. -/
def exPipe (bytes : List Byte) : Stream := { Stream.new { data := bytes, pos := 0, sched := [.short 1, .interrupted], seekable := false } with graceful := true }

theorem exPipe_over (bytes : List Byte) (h : bytes.length ≤ U64MAX) : Over (exPipe bytes) bytes :=
  ⟨⟨Nat.zero_le _, rfl, rfl, rfl⟩, (by intro e he; simp [exPipe, Stream.new] at he; rcases he with rfl | rfl <;> rfl), Nat.zero_le _, rfl, by show 0 + bytes.length ≤ U64MAX; omega⟩

/-- The example without its last three bytes ends between two elements: with graceful EOF it is accepted (the last field has a default). -/
example : (match (deserialize exEnv (.named 0) .default).run (exPipe [65, 244, 3, 130, 0, 130, 1, 120], .zero) with
    | .ok _ (s, _) => decide (s.pos = 8 ∧ s.eof = true) | _ => false) = true := by decide +kernel

/-- Cut off within a blob it is not. -/
example : ∃ e st, (deserialize exEnv (.named 0) .default).run (exPipe [65, 244, 3, 130, 0, 130, 1], .zero) = .err (.client e) st := by
  obtain ⟨e, st, h, -⟩ := c33_graceful exEnv exEnv_ok exEnv_wf (.named 0) rfl .default exTree [65, 244, 3, 130, 0, 130, 1] [120, 69, 7, 0] exMessage (by
      have h2 : EncToks [.int 1 500, .blob 2 []] [65, 244, 3, 130, 0] := by
        rw [show [65, 244, 3, 130, 0] = canonToks [.int 1 500, .blob 2 []] by decide +kernel]; exact canonToks_enc (by decide)
      exact cut_within h2 (tok := .blob 2 [120]) (p := [130, 1]) (q := [120]) (by
        rw [show [130, 1] ++ [120] = canonTok (.blob 2 [120]) by decide +kernel]; exact canonTok_enc (by decide)) (by simp) (by simp)) (exPipe _) (exPipe_over _ (by decide)) (.inl rfl) (by decide)
  exact ⟨e, st, h⟩

/-- On a stream that seeks, with graceful EOF, the blob that is cut off is not noticed: the value has the part of it that is there, and the position is beyond the end of the input. This is why `c68_any` and `c33_graceful` are about other streams. -/
theorem c68_seek_example : (match (deserialize exEnv (.tuple [.vec (.prim (.int .u8))]) .default).run ({ Stream.fromSlice [129, 3, 120] with graceful := true }, .zero) with
    | .ok (.seq [.seq [.num 120]]) (s, _) => decide (s.pos = 5 ∧ s.inner.pos = 5) | _ => false) = true := by decide +kernel

end Fourleaf.Props
