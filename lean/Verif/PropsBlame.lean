import Verif.BlameElem
import Verif.BlameReal
import Verif.PropsReads

/-! # C61: a reported defect is in the message, at the reported place -/

namespace Fourleaf
open Spec

theorem Abs.within {s : Stream} {t : TS} (h : Abs s t) : vpos s ≤ s.inner.data.length := by
  obtain ⟨⟨rest, hA, -, -⟩, -⟩ := h
  have hb := congrArg List.length hA.bytes
  have hw := hA.within
  rw [rest_length, List.length_append] at hb
  unfold vpos
  cases hc : t.cur with
  | none => rw [if_neg (by rw [hA.none hc]; simp)]; omega
  | some c =>
    obtain ⟨h1, -, h2⟩ := hA.some c hc
    rw [if_pos h1, h2]
    have : (View.curBytes ⟨t.pos, t.depth, t.eof, t.cur, rest⟩) = c := by simp [View.curBytes, hc]
    rw [this] at hb; omega

theorem Located.message {p : Nat} {L : LFields} {stop : Nat} {m : List Byte} (h : Located p L stop m) : Message (plains L) m := by
  obtain ⟨a, h1, h2⟩ := h.toLB
  exact ⟨_, h2.bodyOf, h1.toToks⟩

end Fourleaf

namespace Fourleaf.Props
open Fourleaf Spec

/-- The error on a message that is followed by other elements; and nothing beyond the input is waited for. -/
theorem located_toks (env : Env) (henv : env.Ok) (hwf : env.wf) (t : Ty) (ht : t.wf false = true) (cfg : Config) (s : Stream) (L : LFields) (stop : Nat) (m tail : List Byte)
    (rest : List Tok) (hm : Located s.pos L stop m) (hr : EncToks rest tail) (hs : Over s (m ++ tail)) (hroom : s.pos + (m ++ tail).length < U64MAX)
    (e : Stop DErr) (st : PSt Stats) (h : (deserialize env t cfg).run (s, .zero) = .err e st) :
    ∃ d : DErr, e = .client d ∧ Blames env cfg (.body t s.pos L stop) 0 d.path d.kind ∧
      (d.kind = .maxCollectExceeded → cfg.maxCollect < fieldCounts (plains L)) ∧ (d.kind = .maxBlobExceeded → cfg.maxBlob < blobBytess (plains L)) ∧
      vpos st.1 ≤ st.1.inner.data.length := by
  rcases (c45_total env t cfg s hs.fresh.inv).1 with ⟨v, st', h1⟩ | ⟨d, st', h1, h2, h3⟩
  · rw [h1] at h; cases h
  · rw [h1] at h; cases h
    obtain ⟨a, hA, hL⟩ := hm.toLB
    obtain ⟨hs2, h4, h5⟩ := hr.toH
    have hrest : s.rest = m ++ tail := hs.rest
    have habs := Abs.ofFresh (hs := a ++ hs2) (by rw [hrest]; exact hroom) hs.fresh.eof hs.fresh.commit hs.fresh.live hs.benign hs.within (by rw [hrest]; exact hA.append h4)
    have hrun := Prog.run_abs _ (deserialize_nice env t cfg).1 s _ Stats.zero habs
    have hep := (ops_ep henv hwf cfg (stackNeed env t cfg)).body t (.top cfg) L ⟨s.pos, s.depth, false, s.graceful, none, a ++ hs2⟩ .zero (max s.depth 1) a hs2 s.pos stop ht rfl ⟨Nat.zero_le _, Nat.zero_le _⟩ hL
      ⟨rfl, rfl, rfl⟩ rfl rfl
    suffices hg : Blames env cfg (.body t s.pos L stop) 0 d.path d.kind ∧ vpos st.1 ≤ st.1.inner.data.length from
      ⟨d, rfl, hg.1, (limits_real hm.message hr hs hroom h1).1, (limits_real hm.message hr hs hroom h1).2, hg.2⟩
    rw [h1] at hrun
    generalize hx : (deserialize env t cfg).abs _ = x at hrun
    cases x with
    | ok b st => exact hrun.elim
    | err e' st' =>
      obtain ⟨rfl, hB, -⟩ := hrun
      obtain ⟨path, g1, g2⟩ := hep _ _ hx
      rw [show (Ctx.top cfg).path = [] from rfl, List.nil_append] at g1
      rw [g1]
      exact ⟨g2.resolve_left h3, hB.within⟩

/-- No defect is described as the end of the input. -/
theorem blames_not_io {env : Env} {cfg : Config} {b : BItem} {d : Nat} {path : List PathFrame} {k : Kind} (h : Blames env cfg b d path k) (x : IoKind) :
    k ≠ .stream (.io x) := by
  induction h with
  | missing _ _ h =>
    have key : ∀ {t n k}, Lacks t n k → k ≠ .stream (.io x) := by
      intro t n k h
      induction h with
      | boxed _ ih => exact ih
      | _ => simp
    exact key h
  | tooOften h => cases h <;> simp
  | elemPrim h =>
    have key : ∀ {q v k}, PrimFault q v k → k ≠ .stream (.io x) := by intro q v k h; cases h <;> simp
    exact key h
  | _ => first | assumption | simp

/-- The run on a message, and on the message followed by whatever else. -/
theorem err_tail {env : Env} (henv : env.Ok) (hwf : env.wf) {t : Ty} (ht : t.wf false = true) (cfg : Config) {l : Fields} {m q : List Byte} {s s2 : Stream} (hm : Message l m)
    (hs : Over s m) (hroom : s.pos + m.length < U64MAX) {lo : Bool} (hrel : Rel lo q s s2) {e : Stop DErr} {st : PSt Stats} (h : (deserialize env t cfg).run (s, .zero) = .err e st) :
    ∃ s', (deserialize env t cfg).run (s2, .zero) = .err e (s', st.2) ∧ Rel lo q st.1 s' ∧ vpos st.1 ≤ s.inner.data.length := by
  obtain ⟨L, stop, hL, -⟩ := hm.located s.pos
  obtain ⟨d, rfl, hb, -, -, hv⟩ := located_toks env henv hwf t ht cfg s L stop m [] [] hL .nil (by simpa using hs) (by simpa using hroom) e st h
  have hst := (Prog.run_safe (deserialize env t cfg) (s, .zero) hs.fresh.inv).step
  rw [h] at hst
  have hd : st.1.inner.data = s.inner.data := hst.frame.data
  rw [hd] at hv
  rcases (Prog.run_rel _ q _ DErr.ended (deserialize_nice env t cfg).1 (.inr (deserialize_nice env t cfg).2.1) _ _ .zero hrel hs.fresh.inv).err _ _ h with ⟨s', h1, h2⟩ | ⟨-, h1 | ⟨d', h1, h2⟩⟩
  · exact ⟨s', h1, h2, hv⟩
  · have := h1.beyond; rw [hd] at this; omega
  · cases h1; exact absurd h2 (blames_not_io hb _)

/-- **C34** (errors) A message that is rejected is rejected with the same error whatever follows it (also something that is not well-formed), and however it is delivered, with the
same use of the limits, and nothing behind the message is consumed. -/
theorem c34_errors (env : Env) (henv : env.Ok) (hwf : env.wf) (t : Ty) (ht : t.wf false = true) (cfg : Config) (l : Fields) (m : List Byte) (hm : Message l m)
    (s : Stream) (hs : Over s m) (hroom : s.pos + m.length < U64MAX) (e : Stop DErr) (s' : Stream) (c : Stats)
    (hrun : (deserialize env t cfg).run (s, .zero) = .err e (s', c)) (q : List Byte) (sc : List Ev) (hsc : Benign sc) :
    ∃ s2, (deserialize env t cfg).run ({ s with inner := { s.inner with data := s.inner.data ++ q, sched := sc } }, .zero) = .err e (s2, c) ∧
      s2.pos = s'.pos ∧ s2.inner.pos = s'.inner.pos ∧ s2.depth = s'.depth ∧ s2.eof = s'.eof ∧ s2.commit = s'.commit ∧ s2.pos ≤ s.pos + m.length := by
  have hs0 : Over { s with graceful := false } m := ⟨⟨hs.fresh.pos, hs.fresh.eof, hs.fresh.commit, hs.fresh.live⟩, hs.benign, hs.within, hs.rest, hs.room⟩
  cases hrun0 : (deserialize env t cfg).run ({ s with graceful := false }, .zero) with
  | ok v st =>
    obtain ⟨s1, h1, -⟩ := c34_tail env t cfg l m [] hm _ s hs0 hroom v st.2 st.1 hrun0 (by simpa using hs) (by simpa using hroom)
    rw [hrun] at h1; cases h1
  | err e0 st0 =>
  have hrel0 : Rel true [] { s with graceful := false } s := ⟨by simp [ext], hs.benign, hs.benign, fun _ => rfl, fun h => (by cases h), fun h => by cases h⟩
  obtain ⟨s1, k1, k2, -⟩ := err_tail henv hwf ht cfg hm hs0 hroom hrel0 hrun0
  rw [hrun] at k1
  obtain ⟨rfl, rfl, rfl⟩ : e = e0 ∧ s' = s1 ∧ c = st0.2 := by cases k1; exact ⟨rfl, rfl, rfl⟩
  have hrel : Rel true q { s with graceful := false } (ext q (sc, s.graceful) s) := ⟨rfl, hs.benign, hsc, fun _ => rfl, fun h => (by cases h), fun h => by cases h⟩
  obtain ⟨s2, h1, h2, h3⟩ := err_tail henv hwf ht cfg hm hs0 hroom hrel hrun0
  refine ⟨s2, h1, h2.pos.trans k2.pos.symm, h2.ipos.trans k2.ipos.symm, h2.depth.trans k2.depth.symm, h2.eof.trans k2.eof.symm, h2.commit.trans k2.commit.symm, ?_⟩
  have hst := (Prog.run_safe (deserialize env t cfg) (s, .zero) hs.fresh.inv).step
  rw [hrun] at hst
  have h4 := hst.frame.off
  have h5 := vpos_ge s'
  have hl : s.inner.data.length = s.inner.pos + m.length := by
    have := congrArg List.length hs.rest; have := hs.within; simp at *; omega
  simp only [Res.state_err] at h4
  have h3 : vpos st0.1 ≤ s.inner.data.length := h3
  have h6 := vpos_ge st0.1
  have h7 := k2.pos
  have h8 := k2.ipos
  rw [h2.pos]
  omega

/-- **C61** (names of unknown fields) The name in the path for a field that is stored among the unknown ones is its tag in decimal, with two digits. -/
theorem c61_tag_names (tag : Byte) (h : tag < 64) : tagName tag = (if tag < 10 then "0" else "") ++ toString tag.toNat := by
  have key : ∀ n < 64, tagName (UInt8.ofNat n) = (if UInt8.ofNat n < 10 then "0" else "") ++ toString (UInt8.ofNat n).toNat := by decide +kernel
  have := key tag.toNat (UInt8.lt_iff_toNat_lt.1 h)
  rwa [UInt8.ofNat_toNat] at this

/-- **C61** A complete message, in whatever spelling, is deserialised from a stream at any position, with whatever bytes after it. If this fails, then the error (its kind, and the
names and positions of its path) describes a defect which the message has, according to the specification `Blames`. It can only be the limits of what is stored that are
exceeded if the message has more fields than elements may be collected, or more bytes in blobs than may be stored. -/
theorem c61_located (env : Env) (henv : env.Ok) (hwf : env.wf) (t : Ty) (ht : t.wf false = true) (cfg : Config) (s : Stream) (L : LFields) (stop : Nat) (m tail : List Byte)
    (hm : Located s.pos L stop m) (hs : Over s (m ++ tail)) (hroom : s.pos + (m ++ tail).length < U64MAX)
    (e : Stop DErr) (st : PSt Stats) (h : (deserialize env t cfg).run (s, .zero) = .err e st) :
    ∃ d : DErr, e = .client d ∧ Blames env cfg (.body t s.pos L stop) 0 d.path d.kind ∧
      (d.kind = .maxCollectExceeded → cfg.maxCollect < fieldCounts (plains L)) ∧ (d.kind = .maxBlobExceeded → cfg.maxBlob < blobBytess (plains L)) := by
  by_cases htl : tail = []
  · subst htl
    obtain ⟨d, h1, h2, h3, h4, -⟩ := located_toks env henv hwf t ht cfg s L stop m [] [] hm .nil hs hroom e st h
    exact ⟨d, h1, h2, h3, h4⟩
  · have ho := cut_over hs false
    have hrel := cut_rel hs false (fun _ => rfl) (fun h => absurd h htl)
    have hroom' : (cut s m.length false).pos + m.length < U64MAX := by show s.pos + _ < _; simp at hroom; omega
    cases hrun : (deserialize env t cfg).run (cut s m.length false, .zero) with
    | ok v st' =>
      obtain ⟨s', h1, -⟩ := c34_tail env t cfg _ m tail hm.message _ s ho hroom' v st'.2 st'.1 hrun hs hroom
      rw [h] at h1; cases h1
    | err e' st' =>
      obtain ⟨s', h1, -, -⟩ := err_tail henv hwf ht cfg hm.message ho hroom' hrel hrun
      rw [h] at h1; cases h1
      obtain ⟨d, h1, h2, h3, h4, -⟩ := located_toks env henv hwf t ht cfg (cut s m.length false) L stop m [] [] hm .nil (by simpa using ho) (by simpa using hroom') e st' hrun
      exact ⟨d, h1, h2, h3, h4⟩

/-- **C61** (the other direction) A message with a defect, other than in the limits of what is stored, is rejected, wherever and in whatever spelling it is read: the
specification of what a message is read as (C54) allows no value. -/
theorem c61_rejected (env : Env) (henv : env.Ok) (hwf : env.wf) (t : Ty) (ht : t.wf false = true) (cfg : Config) (p : Nat) (L : LFields) (stop : Nat) (m : List Byte)
    (hm : Located p L stop m) (hlen : m.length < U64MAX) (path : List PathFrame) (k : Kind) (hk : k ≠ .maxCollectExceeded ∧ k ≠ .maxBlobExceeded)
    (h : Blames env cfg (.body t p L stop) 0 path k) :
    (∀ v c, ¬ Reads env cfg (.body t) 0 [.struct (plains L)] [v] c) ∧ Rejects env t cfg m := by
  have h1 : ∀ v c, ¬ Reads env cfg (.body t) 0 [.struct (plains L)] [v] c := fun v c =>
    blames_not_read henv hwf h (by cases k <;> first | rfl | exact absurd rfl hk.1 | exact absurd rfl hk.2) _ _
  exact ⟨h1, (c54_rejects env henv hwf t ht cfg _ m hm.message hlen).2 fun v c _ => h1 v c⟩

/-! Examples: a pair of the example struct (`a: u16`, `b: Vec<String>`) and a `bool`, after a padding byte -/

/-- The error, if there is one. -/
def errOf {α : Type} : Res (Stop DErr) (PSt Stats) α → Option DErr
  | .err (.client e) _ => some e
  | _ => none

theorem errOf_some {α : Type} {r : Res (Stop DErr) (PSt Stats) α} {e : DErr} (h : errOf r = some e) : ∃ st, r = .err (.client e) st := by
  cases r with
  | ok _ _ => cases h
  | err x st => cases x with
    | abort _ => cases h
    | client x => cases h; exact ⟨st, rfl⟩

/-- The string at position 4 is not UTF-8. -/
def badLoc : LFields := [(1, 1, .struct 2 [(2, 1, .int 5), (4, 2, .blob [255])] 8), (8, 2, .int 1)]
def badBytes : List Byte := [192, 193, 65, 5, 130, 1, 255, 0, 66, 1, 0]

theorem badLocated : Located 0 badLoc 11 badBytes := by
  have i5 : EncTok (.int 1 5) [65, 5] := .int (g := [5]) (by decide) rfl ⟨by unfold IsGroup; decide, by decide, by decide⟩
  have i1 : EncTok (.int 2 1) [66, 1] := .int (g := [1]) (by decide) rfl ⟨by unfold IsGroup; decide, by decide, by decide⟩
  have b1 : EncTok (.blob 2 [255]) [130, 1, 255] := .blob (g := [1]) (by decide) rfl ⟨by unfold IsGroup; decide, by decide, by decide⟩ (by decide)
  have h1 : Located 1 badLoc 11 [193, 65, 5, 130, 1, 255, 0, 66, 1, 0] :=
    .struct (bs := [193]) (a := [65, 5, 130, 1, 255, 0]) (.struct (by decide) rfl) (.int (bs := [65, 5]) i5 (.blob (bs := [130, 1, 255]) b1 (.nil .endStruct)))
      (.int (bs := [66, 1]) i1 (.nil .endStruct))
  exact .pad (bs := [192]) .padding h1

theorem badError : ∃ st, (deserialize exEnv (.tuple [.named 0, .prim .bool]) .default).run (Stream.fromSlice badBytes, .zero) =
    .err (.client ⟨.invalidValue, [("field_0", 1), ("b", 4)]⟩) st := errOf_some (by decide +kernel)

/-- The reported defect is one of the message. -/
theorem badBlamed : Blames exEnv .default (.body (.tuple [.named 0, .prim .bool]) 0 badLoc 11) 0 [("field_0", 1), ("b", 4)] .invalidValue := by
  obtain ⟨st, h⟩ := badError
  obtain ⟨d, h1, h2, -⟩ := c61_located exEnv exEnv_ok exEnv_wf _ (by decide) .default (Stream.fromSlice badBytes) badLoc 11 badBytes [] badLocated
    (over_fromSlice _ (by decide)) (by decide) _ _ h
  cases h1; exact h2

example : Rejects exEnv (.tuple [.named 0, .prim .bool]) .default badBytes :=
  (c61_rejected exEnv exEnv_ok exEnv_wf _ (by decide) .default 0 badLoc 11 badBytes badLocated (by decide) _ .invalidValue ⟨by decide, by decide⟩ badBlamed).2

/-- The same error is found if an unfinished integer follows. -/
example : ∃ st, (deserialize exEnv (.tuple [.named 0, .prim .bool]) .default).run (Stream.fromSlice (badBytes ++ [65, 200]), .zero) =
    .err (.client ⟨.invalidValue, [("field_0", 1), ("b", 4)]⟩) st := by
  obtain ⟨st, h⟩ := badError
  obtain ⟨s2, h1, -⟩ := c34_errors exEnv exEnv_ok exEnv_wf _ (by decide) .default _ badBytes badLocated.message (Stream.fromSlice badBytes) (over_fromSlice _ (by decide)) (by decide)
    _ st.1 st.2 h [65, 200] [] (by simp [Benign])
  exact ⟨_, h1⟩

/-- The field `a` of the inner struct is missing, which is found at its end, behind position 5. -/
def lackLoc : LFields := [(1, 1, .struct 2 [(2, 2, .blob [65])] 6), (6, 2, .int 1)]
def lackBytes : List Byte := [192, 193, 130, 1, 65, 0, 66, 1, 0]

theorem lackLocated : Located 0 lackLoc 9 lackBytes := by
  have i1 : EncTok (.int 2 1) [66, 1] := .int (g := [1]) (by decide) rfl ⟨by unfold IsGroup; decide, by decide, by decide⟩
  have b1 : EncTok (.blob 2 [65]) [130, 1, 65] := .blob (g := [1]) (by decide) rfl ⟨by unfold IsGroup; decide, by decide, by decide⟩ (by decide)
  have h1 : Located 1 lackLoc 9 [193, 130, 1, 65, 0, 66, 1, 0] :=
    .struct (bs := [193]) (a := [130, 1, 65, 0]) (.struct (by decide) rfl) (.blob (bs := [130, 1, 65]) b1 (.nil .endStruct)) (.int (bs := [66, 1]) i1 (.nil .endStruct))
  exact .pad (bs := [192]) .padding h1

theorem lackError : ∃ st, (deserialize exEnv (.tuple [.named 0, .prim .bool]) .default).run (Stream.fromSlice lackBytes, .zero) =
    .err (.client ⟨.requiredFieldMissing, [("field_0", 1), ("a", 6)]⟩) st := errOf_some (by decide +kernel)

example : Blames exEnv .default (.body (.tuple [.named 0, .prim .bool]) 0 lackLoc 9) 0 [("field_0", 1), ("a", 6)] .requiredFieldMissing := by
  obtain ⟨st, h⟩ := lackError
  obtain ⟨d, h1, h2, -⟩ := c61_located exEnv exEnv_ok exEnv_wf _ (by decide) .default (Stream.fromSlice lackBytes) lackLoc 9 lackBytes [] lackLocated
    (over_fromSlice _ (by decide)) (by decide) _ _ h
  cases h1; exact h2

end Fourleaf.Props
