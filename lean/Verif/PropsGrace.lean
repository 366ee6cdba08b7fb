import Verif.PropsDe
import Verif.PropsExact

/-! # C82: graceful EOF matters only at the end of the input -/

namespace Fourleaf.Props
open Fourleaf Spec

/-- `r'` is the outcome `r`, with the stream left in the same state but for the setting of graceful EOF. -/
def SameButGraceful {ε U α : Type} (r r' : Res (Stop ε) (PSt U) α) : Prop :=
  (∀ a s u, r = .ok a (s, u) → r' = .ok a ({ s with graceful := false }, u)) ∧ (∀ e s u, r = .err e (s, u) → r' = .err e ({ s with graceful := false }, u))

/-- **C82** Whatever a client does that does not call `clear_eof`, with whatever reader: with and without graceful EOF it has the same outcome, value or error, and leaves the stream in the same
state; unless, with graceful EOF, it has brought the stream to the end of the document. Then, if it is a client that stops where the input ends unexpectedly (with an error satisfying `D`), it fails without
graceful EOF in this way. -/
theorem c82_client {ε U α : Type} (p : Prog ε U α) (hp : p.OpsAll notClear) (s : Stream) (u : U) (hi : Inv s) :
    let r := p.run ({ s with graceful := true }, u)
    let r' := p.run ({ s with graceful := false }, u)
    SameButGraceful r r' ∨ (r.state.1.eof = true ∧ ∀ D : ε → Prop, p.Ends D → ∃ d st, r' = .err (.client d) st ∧ D d) := by
  intro r r'
  have h := p.run_grace hp { s with graceful := true } u ⟨hi.pos_le, hi.pend, hi.eofCommit, hi.eofDepth, hi.liveOk⟩
  refine h.imp_left fun h => ?_
  have h : GP r r' := h
  revert h
  generalize r = x
  generalize r' = y
  intro h
  cases h with
  | ok => exact ⟨fun a s u h => by cases h; rfl, fun e s u h => by cases h⟩
  | err => exact ⟨fun a s u h => (by cases h), fun e s u h => by cases h; rfl⟩

/-- **C82** (values) Deserialising has the same outcome with and without graceful EOF, unless it comes to the end of the document with graceful EOF, and fails with `UnexpectedEof` without. -/
theorem c82_deserialize (env : Env) (t : Ty) (cfg : Config) (s : Stream) (hi : Inv s) :
    let r := (deserialize env t cfg).run ({ s with graceful := true }, .zero)
    let r' := (deserialize env t cfg).run ({ s with graceful := false }, .zero)
    SameButGraceful r r' ∨ (r.state.1.eof = true ∧ ∃ d st, r' = .err (.client d) st ∧ d.kind = .stream (.io .unexpectedEof)) := by
  intro r r'
  refine (c82_client (deserialize env t cfg) ((deserialize_plain env t cfg).mono fun o h => by cases o <;> trivial) s .zero hi).imp_right fun h => ⟨h.1, h.2 _ (deserialize_nice env t cfg).2.1⟩

/-- A document that the end of the input closes: 5 with graceful EOF, an error without. -/
example : (match (deserialize exEnv (.tuple [.prim (.int .u8)]) .default).run ({ Stream.fromSlice [0x41, 5] with graceful := true }, .zero) with
    | .ok _ (s, _) => s.eof | _ => false) = true := by decide +kernel
example : (match (deserialize exEnv (.tuple [.prim (.int .u8)]) .default).run (Stream.fromSlice [0x41, 5], .zero) with
    | .err (.client d) _ => decide (d.kind = .stream (.io .unexpectedEof)) | _ => false) = true := by decide +kernel

/-! ## The end of the input is an end-of-document element -/

theorem _root_.Fourleaf.Document.addEnd {n : Bool} {c : Close} {l : Fields} {ts : List Tok} (h : Document n c l ts) : c = .input → Document n .doc l (ts ++ [.endDoc]) := by
  induction h with
  | endStruct | endDoc => intro h; cases h
  | input => intro _; exact .endDoc
  | pad _ ih => intro h; exact .pad (ih h)
  | exception _ ih => intro h; exact .exception (ih h)
  | int _ ih => intro h; exact .int (ih h)
  | blob _ ih => intro h; exact .blob (ih h)
  | struct h1 _ _ ih2 => intro h; rw [List.cons_append, List.append_assoc]; exact .struct h1 (ih2 h)
  | structCut _ _ ih => intro h; exact .structCut (ih h) (by simp)
  | enum h1 _ _ ih2 => intro h; rw [List.cons_append, List.append_assoc]; exact .enum h1 (ih2 h)
  | enumCut _ _ ih => intro h; exact .enumCut (ih h) (by simp)

theorem _root_.Fourleaf.Document.dropEnd {n : Bool} {c : Close} {l : Fields} {ts : List Tok} (h : Document n c l ts) :
    (c = .struct → ∃ ts0, ts = ts0 ++ [.endStruct]) ∧ (c = .doc → ∃ ts0, ts = ts0 ++ [.endDoc] ∧ Document n .input l ts0) := by
  have pre : ∀ (t t' : Tok) {ts : List Tok}, (∃ ts0, ts = ts0 ++ [t]) → ∃ ts0, t' :: ts = ts0 ++ [t] := fun t t' ts ⟨ts0, h⟩ => ⟨t' :: ts0, by rw [h]; rfl⟩
  induction h with
  | endStruct => exact ⟨fun _ => ⟨[], rfl⟩, fun h => by cases h⟩
  | endDoc => exact ⟨fun h => (by cases h), fun _ => ⟨[], rfl, .input⟩⟩
  | input => exact ⟨fun h => (by cases h), fun h => by cases h⟩
  | pad _ ih => exact ⟨fun h => pre _ _ (ih.1 h), fun h => by obtain ⟨ts0, rfl, h0⟩ := ih.2 h; exact ⟨_ :: ts0, rfl, .pad h0⟩⟩
  | exception _ ih => exact ⟨fun h => pre _ _ (ih.1 h), fun h => by obtain ⟨ts0, rfl, h0⟩ := ih.2 h; exact ⟨_ :: ts0, rfl, .exception h0⟩⟩
  | int _ ih => exact ⟨fun h => pre _ _ (ih.1 h), fun h => by obtain ⟨ts0, rfl, h0⟩ := ih.2 h; exact ⟨_ :: ts0, rfl, .int h0⟩⟩
  | blob _ ih => exact ⟨fun h => pre _ _ (ih.1 h), fun h => by obtain ⟨ts0, rfl, h0⟩ := ih.2 h; exact ⟨_ :: ts0, rfl, .blob h0⟩⟩
  | struct h1 _ _ ih =>
    exact ⟨fun h => by obtain ⟨ts0, rfl⟩ := ih.1 h; exact ⟨.struct _ :: (_ ++ ts0), congrArg _ (List.append_assoc ..).symm⟩,
      fun h => by obtain ⟨ts0, rfl, h0⟩ := ih.2 h; exact ⟨.struct _ :: (_ ++ ts0), congrArg _ (List.append_assoc ..).symm, .struct h1 h0⟩⟩
  | structCut _ hc ih => exact ⟨fun h => absurd h hc, fun h => by obtain ⟨ts0, rfl, h0⟩ := ih.2 h; exact ⟨_ :: ts0, rfl, .structCut h0 (by simp)⟩⟩
  | enum h1 _ _ ih =>
    exact ⟨fun h => by obtain ⟨ts0, rfl⟩ := ih.1 h; exact ⟨.enum _ _ :: (_ ++ ts0), congrArg _ (List.append_assoc ..).symm⟩,
      fun h => by obtain ⟨ts0, rfl, h0⟩ := ih.2 h; exact ⟨.enum _ _ :: (_ ++ ts0), congrArg _ (List.append_assoc ..).symm, .enum h1 h0⟩⟩
  | enumCut _ hc ih => exact ⟨fun h => absurd h hc, fun h => by obtain ⟨ts0, rfl, h0⟩ := ih.2 h; exact ⟨_ :: ts0, rfl, .enumCut h0 (by simp)⟩⟩

theorem encToks_snoc : ∀ {ts0 : List Tok} {t : Tok} {b : List Byte}, EncToks (ts0 ++ [t]) b → ∃ b0 bt, b = b0 ++ bt ∧ EncToks ts0 b0 ∧ EncTok t bt
  | [], t, b, h => by
    cases h with
    | cons h1 h2 => cases h2; exact ⟨[], _, by simp, .nil, h1⟩
  | t0 :: ts0, t, b, h => by
    cases h with
    | cons h1 h2 =>
      obtain ⟨b0, bt, rfl, h3, h4⟩ := encToks_snoc h2
      exact ⟨_, bt, (List.append_assoc ..).symm, .cons h1 h3, h4⟩

/-- **C82** (end of document) The end of the input is treated as an explicit end-of-document element: a value is deserialised from bytes with graceful EOF (on a stream that does not seek) exactly if it is
deserialised without graceful EOF from the same bytes followed by an end-of-document element. -/
theorem c82_explicit_end (env : Env) (henv : env.Ok) (hwf : env.wf) (t : Ty) (ht : t.wf false = true) (cfg : Config) (m : List Byte) (hx : NoExceptions m)
    (s : Stream) (hs : Over s m) (hg : s.graceful = true) (hseek : s.useSeek = false ∨ s.inner.seekable = false) (hroom : s.pos + m.length < U64MAX)
    (s2 : Stream) (hs2 : Over s2 (m ++ [0x40])) (hg2 : s2.graceful = false) (hroom2 : s2.pos + (m ++ [0x40]).length < U64MAX) (v : V) (c : Stats) :
    (∃ s', (deserialize env t cfg).run (s, .zero) = .ok v (s', c)) ↔ (∃ s', (deserialize env t cfg).run (s2, .zero) = .ok v (s', c)) := by
  constructor
  · rintro ⟨s', h⟩
    obtain ⟨close, l, a, rest, h1, ⟨ts, h2, h3⟩, h4, h5, h6, -⟩ := c68_any env henv hwf t ht cfg s m hs (fun _ => hseek) hroom v s' c h
    have hn := hx ts a rest h1 h3
    by_cases hc : close = .input
    · subst hc
      obtain ⟨-, rfl⟩ := h4 rfl
      rw [List.append_nil] at h1
      subst h1
      have hd : CleanDoc .doc l (m ++ [0x40]) := ⟨_, (h2.anyNested hn false).addEnd rfl, fun x hx => by simp at hx; exact hn x hx, h3.append (.cons .endDoc .nil)⟩
      obtain ⟨s2', h7, -⟩ := c68_complete env henv hwf t ht cfg s2 .doc l (m ++ [0x40]) [] hd (by rw [List.append_nil]; exact hs2) (fun h => by cases h) (by rw [List.append_nil]; exact hroom2) v c h5 h6
      exact ⟨s2', h7⟩
    · subst h1
      rw [List.append_assoc] at hs2 hroom2
      obtain ⟨s2', h7, -⟩ := c68_complete env henv hwf t ht cfg s2 close l a (rest ++ [0x40]) ⟨ts, h2.anyNested hn false, hn, h3⟩ hs2 (fun h => absurd h hc) hroom2 v c h5 h6
      exact ⟨s2', h7⟩
  · rintro ⟨s', h⟩
    obtain ⟨close, l, a, rest, h1, ⟨ts, h2, h3⟩, h4, h5, h6, -⟩ := c68_sound env henv hwf t ht cfg s2 _ hs2 hg2 hroom2 v s' c h
    rcases List.eq_nil_or_concat rest with rfl | ⟨r, x, rfl⟩
    · rw [List.append_nil] at h1
      have hlast : ∀ (ts0 : List Tok) (t : Tok) (bt : Byte), ts = ts0 ++ [t] → (∀ b, EncTok t b → b = [bt]) → bt = 0x40 ∧ EncToks ts0 m := by
        intro ts0 t bt e hb
        subst e
        obtain ⟨b0, b1, rfl, k1, k2⟩ := encToks_snoc h3
        rw [hb b1 k2] at h1
        obtain ⟨e1, e2⟩ := List.append_inj' h1 rfl
        subst e1
        exact ⟨by simpa using e2.symm, k1⟩
      cases close with
      | input => exact absurd rfl h4
      | struct =>
        obtain ⟨ts0, e⟩ := h2.dropEnd.1 rfl
        have := (hlast ts0 .endStruct 0 e fun b h => by cases h; rfl).1
        exact absurd this (by decide)
      | doc =>
        obtain ⟨ts0, e, h7⟩ := h2.dropEnd.2 rfl
        have h8 := (hlast ts0 .endDoc 0x40 e fun b h => by cases h; rfl).2
        have hn := hx ts0 m [] (List.append_nil _).symm h8
        obtain ⟨s2', h9, -⟩ := c68_complete env henv hwf t ht cfg s .input l m [] ⟨ts0, h7.anyNested hn false, hn, h8⟩ (by rw [List.append_nil]; exact hs) (fun _ => ⟨hg, rfl⟩) (by rw [List.append_nil]; exact hroom) v c h5 h6
        exact ⟨s2', h9⟩
    · rw [List.concat_eq_append, ← List.append_assoc] at h1
      obtain ⟨e1, -⟩ := List.append_inj' h1 rfl
      subst e1
      have hn := hx ts a r rfl h3
      obtain ⟨s2', h7, -⟩ := c68_complete env henv hwf t ht cfg s close l a r ⟨ts, h2.anyNested hn false, hn, h3⟩ hs (fun h => absurd h h4) hroom v c h5 h6
      exact ⟨s2', h7⟩

/-- The example cut off between two elements meets the hypotheses, and is accepted. -/
example (v : V) (c : Stats) : (∃ s', (deserialize exEnv (.named 0) .default).run (exPipe [65, 244, 3, 130, 0, 130, 1, 120], .zero) = .ok v (s', c)) ↔
    (∃ s', (deserialize exEnv (.named 0) .default).run (Stream.fromSlice ([65, 244, 3, 130, 0, 130, 1, 120] ++ [0x40]), .zero) = .ok v (s', c)) :=
  c82_explicit_end exEnv exEnv_ok exEnv_wf (.named 0) rfl .default _ (noExceptions_of (by decide)) (exPipe _) (exPipe_over _ (by decide)) rfl (.inl rfl) (by decide)
    (Stream.fromSlice _) (over_fromSlice _ (by decide)) rfl (by decide) _ _
example : (match (deserialize exEnv (.named 0) .default).run (Stream.fromSlice ([65, 244, 3, 130, 0, 130, 1, 120] ++ [0x40]), .zero) with
    | .ok _ (s, _) => s.eof | _ => false) = true := by decide +kernel

end Fourleaf.Props
