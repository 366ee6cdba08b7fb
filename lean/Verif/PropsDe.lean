import Verif.PropsSer
import Verif.Limits
import Verif.NeedsUnique
import Verif.Grace

/-! # Properties of deserialisation from arbitrary input: C33–C37, C45, C46, C50, C52, C53 -/

namespace Fourleaf.Props
open Fourleaf Spec

/-! ## C33: truncated messages -/

/-- A stream over a proper beginning of a message, extended to the whole message. -/
theorem ext_over {s : Stream} {p q : List Byte} (hs : Over s p) (hroom : s.pos + (p ++ q).length ≤ U64MAX) :
    Over (ext q (s.inner.sched, s.graceful) s) (p ++ q) := by
  have hw := hs.within
  refine ⟨⟨hs.fresh.pos, hs.fresh.eof, hs.fresh.commit, hs.fresh.live⟩, hs.benign, ?_, ?_, hroom⟩
  · show s.inner.pos ≤ (s.inner.data ++ q).length; simp; omega
  · show (s.inner.data ++ q).drop s.inner.pos = _
    rw [List.drop_append_of_le_length hw, hs.rest]

/-- At the end of a struct (or the stream), everything read was there. -/
theorem _root_.Fourleaf.AtEnd.notDoomed {s : Stream} (h : AtEnd s) : ¬ Doomed s := by
  intro hd
  rcases h with h | ⟨h1, h2⟩
  · rw [hd.eof] at h; cases h
  · have := hd.beyond
    simp [vpos, h1] at this; omega

/-- **C33** Every proper prefix `p` of a message (in any spelling, for whatever tree of fields) is rejected with an error by every type, unless graceful EOF is on. -/
theorem c33_truncated (env : Env) (t : Ty) (cfg : Config) (l : Fields) (p q : List Byte) (hm : Message l (p ++ q)) (hq : q ≠ [])
    (s : Stream) (hs : Over s p) (hg : s.graceful = false) (hroom : s.pos + (p ++ q).length < U64MAX) :
    ∃ e st, (deserialize env t cfg).run (s, .zero) = .err (.client e) st := by
  cases hrun : (deserialize env t cfg).run (s, .zero) with
  | err e st =>
    cases e with
    | client e => exact ⟨e, st, rfl⟩
    | abort e => exact ((Prog.run_safe (deserialize env t cfg) (s, .zero) hs.fresh.inv).normal e st hrun).elim
  | ok v st =>
    exfalso
    obtain ⟨s', u'⟩ := st
    have hend : AtEnd s' := ((deserialize_budget env t cfg hs.fresh.inv).ok v s' u' hrun).2.2
    have hstep := (Prog.run_safe (deserialize env t cfg) (s, .zero) hs.fresh.inv).step
    rw [hrun] at hstep
    simp only [Res.state_ok] at hstep
    have hrel : Rel true q s (ext q (s.inner.sched, s.graceful) s) := .mk' hs.benign hs.benign hg
    have hover := ext_over hs (by omega : s.pos + (p ++ q).length ≤ U64MAX)
    rcases (Prog.run_rel _ q _ DErr.ended (deserialize_nice env t cfg).1 (.inr (deserialize_nice env t cfg).2.1) _ _ .zero hrel hs.fresh.inv).ok v _ hrun with ⟨t', h1, h2⟩ | ⟨-, hd⟩
    · have hover' : Over (ext q (s.inner.sched, s.graceful) s) ((p ++ q) ++ []) := by simpa using hover
      have hroom' : (ext q (s.inner.sched, s.graceful) s).pos + ((p ++ q) ++ []).length < U64MAX := by simpa [ext] using hroom
      rcases PM.cases (deTree env t cfg l) with ⟨v', c', hd⟩ | ⟨k, c', hd⟩
      · by_cases hf : c'.fits cfg
        · obtain ⟨s1, g1, g2⟩ := de_ok env t cfg hm hover' hroom' hd hf
          rw [g1] at h1
          cases h1
          have e1 : t'.eof = false := g2.over.fresh.eof
          have e2 := h2.eof
          have e3 : t'.inner.pos = s'.inner.pos := h2.ipos
          have e4 := g2.frame.off
          have e5 := g2.pos
          have e6 : (ext q (s.inner.sched, s.graceful) s).inner.pos = s.inner.pos := rfl
          have e7 : (ext q (s.inner.sched, s.graceful) s).pos = s.pos := rfl
          have hl : s.inner.data.length = s.inner.pos + p.length := by
            have := congrArg List.length hs.rest; have := hs.within; simp at *; omega
          have hq' : 0 < q.length := List.length_pos_iff.2 hq
          rcases hend with hend | ⟨-, hend⟩
          · rw [e2, hend] at e1; cases e1
          · rw [hstep.frame.data] at hend
            simp only [List.length_append] at e5
            omega
        · obtain ⟨e, st, g1, -⟩ := de_over_toks env t cfg hm .nil hover' hroom' hd hf
          rw [g1] at h1; cases h1
      · obtain ⟨e, st, g1, -⟩ := de_err_toks env t cfg hm .nil hover' hroom' hd
        rw [g1] at h1; cases h1
    · exact hend.notDoomed hd

theorem message_canon {l : Fields} {ts : List Tok} (h : BodyOf l ts) (hv : ∀ t ∈ ts, t.Valid) : Message l (canonToks ts) := ⟨ts, h, canonToks_enc hv⟩

/-- The fields of `exValue`. -/
def exTree : Fields := [(1, .int 500), (2, .blob []), (2, .blob [120]), (5, .int 7)]
def exBytes : List Byte := [65, 244, 3, 130, 0, 130, 1, 120, 69, 7, 0]

theorem exMessage : Message exTree exBytes := by
  have h : Message exTree (canonToks [.int 1 500, .blob 2 [], .blob 2 [120], .int 5 7, .endStruct]) :=
    message_canon (.int (.blob (.blob (.int .nil)))) (by decide)
  have e : canonToks [.int 1 500, .blob 2 [], .blob 2 [120], .int 5 7, .endStruct] = exBytes := by decide +kernel
  rwa [e] at h

/-- The message of `exValue` without its last byte is rejected. -/
example : ∃ e st, (deserialize exEnv (.named 0) .default).run (Stream.fromSlice [65, 244, 3, 130, 0, 130, 1, 120, 69, 7], .zero) = .err (.client e) st :=
  c33_truncated exEnv (.named 0) .default exTree [65, 244, 3, 130, 0, 130, 1, 120, 69, 7] [0] exMessage (by simp) _ (over_fromSlice _ (by decide)) rfl (by decide)

/-! ## C34: what follows, for arbitrary input -/

/-- **C34** (arbitrary input) If anything deserialises from a stream (with graceful EOF: not up to the end of the document), then also from a stream where more input follows and whose reader delivers the
data in other pieces: with the same value, the same use of the limits, and stopping at the same place, which is inside the original input. -/
theorem c34_arbitrary (env : Env) (t : Ty) (cfg : Config) (s : Stream) (hi : Inv s) (hb : Benign s.inner.sched)
    (v : V) (s' : Stream) (c : Stats) (hrun : (deserialize env t cfg).run (s, .zero) = .ok v (s', c)) (hg : s.graceful = true → s'.eof = false) (q : List Byte) (sc : List Ev) (hsc : Benign sc) :
    ∃ s2, (deserialize env t cfg).run ({ s with inner := { s.inner with data := s.inner.data ++ q, sched := sc } }, .zero) = .ok v (s2, c) ∧
      s2.pos = s'.pos ∧ s2.inner.pos = s'.inner.pos ∧ s2.depth = s'.depth ∧ s2.eof = s'.eof ∧ s2.commit = s'.commit ∧
      (s'.eof = true ∨ s'.inner.pos ≤ s.inner.data.length) := by
  have hi1 : Inv s.strict := hi.strict
  have hrun1 : (deserialize env t cfg).run (s.strict, .zero) = .ok v (s'.strict, c) := strict_run ((deserialize_plain env t cfg).mono fun o h => by cases o <;> trivial) hi hrun hg
  have hend : AtEnd s'.strict := ((deserialize_budget env t cfg hi1).ok v s'.strict c hrun1).2.2
  have hstep := (Prog.run_safe (deserialize env t cfg) (s, .zero) hi).step
  rw [hrun] at hstep
  have hrel : Rel true q s.strict (ext q (sc, s.graceful) s) := ⟨rfl, hb, hsc, fun _ => rfl, fun h => (by cases h), fun h => by cases h⟩
  rcases (Prog.run_rel _ q _ DErr.ended (deserialize_nice env t cfg).1 (.inr (deserialize_nice env t cfg).2.1) _ _ .zero hrel hi1).ok v _ hrun1 with ⟨t', h1, h2⟩ | ⟨-, hd⟩
  · refine ⟨t', h1, h2.pos, h2.ipos, h2.depth, h2.eof, h2.commit, hend.imp_right fun h => ?_⟩
    have := hstep.frame.data
    simp only [Res.state_ok] at this
    rw [← this]; exact h.2
  · exact absurd hd hend.notDoomed

/-- **C34** (any client) If a reading client stops wherever the input ends in an element (then with an error satisfying `D`), then its outcome, value or error, and what is observable of
the stream, stay the same when more input follows, which may be delivered in other pieces and with another setting of graceful EOF; provided it did not end with an error satisfying `D`, and not in a blob that goes beyond the end of the input
(with graceful EOF: and that the stream is not at the end of the document). -/
theorem c34_client {ε U α : Type} (D : ε → Prop) (p : Prog ε U α) (hp : p.OpsAll Op.whole) (hD : p.Ends D) (s : Stream) (u : U) (hi : Inv s) (hb : Benign s.inner.sched)
    (hg : s.graceful = true → p.OpsAll notClear) (q : List Byte) (sc : List Ev) (hsc : Benign sc) (g : Bool) :
    let t := { s with inner := { s.inner with data := s.inner.data ++ q, sched := sc }, graceful := g }
    let inside : Stream → Prop := fun s' => s'.inner.pos + (if s'.commit = some .skipBlob then s'.blobEnd - s'.pos else 0) ≤ s.inner.data.length ∧ (s.graceful = true → s'.eof = false)
    let same : Stream → Stream → Prop := fun s' t' => t'.pos = s'.pos ∧ t'.inner.pos = s'.inner.pos ∧ t'.depth = s'.depth ∧ t'.eof = s'.eof ∧ t'.commit = s'.commit ∧ t'.blobEnd = s'.blobEnd
    (∀ a s' u', p.run (s, u) = .ok a (s', u') → inside s' → ∃ t', p.run (t, u) = .ok a (t', u') ∧ same s' t') ∧
    (∀ e s' u', p.run (s, u) = .err e (s', u') → inside s' → (∀ d, e = .client d → ¬ D d) → ∃ t', p.run (t, u) = .err e (t', u') ∧ same s' t') := by
  intro t inside same
  have hi1 : Inv s.strict := hi.strict
  have hrel : Rel true q s.strict t := ⟨rfl, hb, hsc, fun _ => rfl, fun h => (by cases h), fun h => by cases h⟩
  have hr := p.run_rel true q D hp (.inr hD) s.strict t u hrel hi1
  have hst := (p.run_safe (s, u) hi).step
  have hno : ∀ s', Step s s' → inside s' → ¬ Doomed s'.strict := fun s' h1 h2 h3 => by
    have := h3.beyond; rw [show s'.strict.inner = s'.inner from rfl, h1.frame.data] at this
    have h2 : vpos s' ≤ s.inner.data.length := h2.1
    have h4 : vpos s'.strict = vpos s' := rfl
    omega
  refine ⟨fun a s' u' h hin => ?_, fun e s' u' h hin hd => ?_⟩
  · rw [h] at hst
    rcases hr.ok a _ (strict_run_client hi hg h hin.2) with ⟨t', h1, h2⟩ | ⟨-, h1⟩
    · exact ⟨t', h1, h2.pos, h2.ipos, h2.depth, h2.eof, h2.commit, h2.blobEnd⟩
    · exact absurd h1 (hno _ hst hin)
  · rw [h] at hst
    rcases hr.err e _ (strict_run_client_err hi hg h hin.2) with ⟨t', h1, h2⟩ | ⟨-, h1 | ⟨d, h1, h2⟩⟩
    · exact ⟨t', h1, h2.pos, h2.ipos, h2.depth, h2.eof, h2.commit, h2.blobEnd⟩
    · exact absurd h1 (hno _ hst hin)
    · exact absurd h2 (hd d h1)

/-- A client that reads one field and fails if it is not there. -/
example : (Prog.bind (.call .nextField fun e => e) fun f => match f with | none => .fail (.io .other) | some _ => .ret () : Prog Err Unit Unit).Ends (· = .io .unexpectedEof) :=
  ⟨.inr rfl, fun f => by cases f <;> trivial⟩

/-! ## C53: the limits only reject -/

/-- **C53** If a configuration is made more permissive, then the outcome stays the same for every type and input, unless the stricter configuration rejects the input because of a limit that
was raised (or an unknown field, if these are now allowed), or both fail with the same error. -/
theorem c53_limits_only_reject (env : Env) (t : Ty) (a b : Config) (hle : a.Le b) (s : Stream) (hi : Inv s) :
    (deserialize env t a).run (s, .zero) = (deserialize env t b).run (s, .zero) ∨
    (∃ e st, (deserialize env t a).run (s, .zero) = .err (.client e) st ∧ e.kind.Restricts a b) ∨
    ∃ e st st', (deserialize env t a).run (s, .zero) = .err (.client e) st ∧ (deserialize env t b).run (s, .zero) = .err (.client e) st' :=
  deserialize_lim env t hle hi

/-- In particular a value that is accepted stays the same. -/
theorem c53_value_stable (env : Env) (t : Ty) (a b : Config) (hle : a.Le b) (s : Stream) (hi : Inv s) (v : V) (st : PSt Stats)
    (h : (deserialize env t a).run (s, .zero) = .ok v st) : (deserialize env t b).run (s, .zero) = .ok v st := by
  rcases deserialize_lim env t hle hi with h1 | ⟨e, st', h1, -⟩ | ⟨e, st', st'', h1, -⟩
  · rw [← h1]; exact h
  · rw [h] at h1; cases h1
  · rw [h] at h1; cases h1

example : Config.default.Le { Config.default with maxBlob := 100000, recursionLimit := 40 } := ⟨by decide, by decide, by decide, fun h => h⟩

/-! ## Examples -/

theorem exEnv_wf : exEnv.wf := by
  intro i
  match i with
  | 0 => exact ⟨by decide, fun name t h => by cases h⟩
  | 1 =>
    refine ⟨?_, ?_⟩
    · intro x hx; cases List.mem_singleton.1 hx; exact ⟨by decide, fun name t h => by cases h⟩
    · intro b hb; cases hb; exact ⟨by decide, fun name t h => by cases h; exact ⟨rfl, rfl⟩⟩
  | _ + 2 => exact ⟨by decide, fun name t h => by cases h⟩

theorem exInv : Inv (Stream.fromSlice exBytes) := (fresh_fromSlice _).inv

/-- The example is accepted, and stores three elements of collections (two strings, one unknown field) and one byte. -/
theorem exRun : ∃ s', (deserialize exEnv (.named 0) .default).run (Stream.fromSlice exBytes, .zero) = .ok exValue (s', ⟨3, 1⟩) := by
  have h : deTree exEnv (.named 0) .default exTree = .ret exValue ⟨3, 1⟩ := by rfl
  obtain ⟨s', h1, -⟩ := de_ok (tail := []) exEnv (.named 0) .default exMessage (by simpa using over_fromSlice exBytes (by decide)) (by decide) h (by decide)
  exact ⟨s', h1⟩

/-! ## C35: `max_collect` -/

/-- **C35** (a) Whatever the type and input, the number of elements accounted for never exceeds `max_collect`, and a value that is returned contains no more elements of collections
(at all levels together) than `max_collect`. -/
theorem c35_bounded (env : Env) (henv : env.wf) (t : Ty) (ht : t.wf false = true) (cfg : Config) (s : Stream) (hi : Inv s) :
    (∀ v s' u, (deserialize env t cfg).run (s, .zero) = .ok v (s', u) →
      u.collected ≤ cfg.maxCollect ∧ ∃ k, HasType env t v k ∧ k.used.collected ≤ u.collected) ∧
    (∀ e s' u, (deserialize env t cfg).run (s, .zero) = .err (.client e) (s', u) → u.collected ≤ cfg.maxCollect) := by
  have hp := deserialize_post henv ht cfg hi
  refine ⟨fun v s' u h => ?_, fun e s' u h => (hp.err e s' u h).1.1⟩
  obtain ⟨-, h2, ⟨k, h3, -, h4⟩, -⟩ := hp.ok v s' u h
  exact ⟨h2.1, k, h3, h4.1⟩

/-- (b) If with a higher limit (all else equal) a value with more than `max_collect` elements is read from the input, or more than that are counted on the way (such as duplicates of a set), the input is rejected with `MaxCollectExceeded`. -/
theorem c35_exceeding (env : Env) (henv : env.wf) (t : Ty) (ht : t.wf false = true) (cfg : Config) (n : Nat) (s : Stream) (hi : Inv s)
    (v : V) (st : PSt Stats) (h : (deserialize env t { cfg with maxCollect := n }).run (s, .zero) = .ok v st)
    (k : Need) (hk : HasType env t v k) (hx : cfg.maxCollect < k.used.collected ∨ cfg.maxCollect < st.2.collected) :
    ∃ e st, (deserialize env t cfg).run (s, .zero) = .err (.client e) st ∧ e.kind = .maxCollectExceeded := by
  obtain ⟨s', u⟩ := st
  obtain ⟨-, h2, ⟨k', h3, -, h4⟩, -⟩ := (deserialize_post henv ht { cfg with maxCollect := n } hi).ok v s' u h
  cases Needs.unique h3 hk
  have hu : cfg.maxCollect < u.collected := hx.elim (fun hx => Nat.lt_of_lt_of_le hx h4.1) id
  have hn : u.collected ≤ n := h2.1
  rcases deserialize_lim env t (a := cfg) (b := { cfg with maxCollect := n }) ⟨Nat.le_refl _, by show cfg.maxCollect ≤ n; omega, Nat.le_refl _, fun h => h⟩ hi with h1 | ⟨e, st', h1, hr⟩ | ⟨e, st', st'', -, h1⟩
  · rw [h] at h1
    have := ((deserialize_budget env t cfg hi).ok v s' u h1).2.1.1
    omega
  · refine ⟨e, st', h1, ?_⟩
    generalize e.kind = kk at hr
    cases hr with
    | depth h => exact absurd h (Nat.lt_irrefl _)
    | collect _ => rfl
    | blob h => exact absurd h (Nat.lt_irrefl _)
    | unknown h h' => simp only at h'; rw [h] at h'; cases h'
  · rw [h] at h1; cases h1

/-! ## C36: `max_blob` -/

/-- **C36** (a) Whatever the type and input, the number of bytes accounted for never exceeds `max_blob`, and a value that is returned contains no more bytes in strings and byte vectors
(at all levels together) than `max_blob`. -/
theorem c36_bounded (env : Env) (henv : env.wf) (t : Ty) (ht : t.wf false = true) (cfg : Config) (s : Stream) (hi : Inv s) :
    (∀ v s' u, (deserialize env t cfg).run (s, .zero) = .ok v (s', u) →
      u.blob ≤ cfg.maxBlob ∧ ∃ k, HasType env t v k ∧ k.used.blob ≤ u.blob) ∧
    (∀ e s' u, (deserialize env t cfg).run (s, .zero) = .err (.client e) (s', u) → u.blob ≤ cfg.maxBlob) := by
  have hp := deserialize_post henv ht cfg hi
  refine ⟨fun v s' u h => ?_, fun e s' u h => (hp.err e s' u h).1.2⟩
  obtain ⟨-, h2, ⟨k, h3, -, h4⟩, -⟩ := hp.ok v s' u h
  exact ⟨h2.2, k, h3, h4.2⟩

/-- (b) If with a higher limit (all else equal) a value with more than `max_blob` bytes is read from the input, or more than that are counted, the input is rejected with `MaxBlobExceeded`. -/
theorem c36_exceeding (env : Env) (henv : env.wf) (t : Ty) (ht : t.wf false = true) (cfg : Config) (n : Nat) (s : Stream) (hi : Inv s)
    (v : V) (st : PSt Stats) (h : (deserialize env t { cfg with maxBlob := n }).run (s, .zero) = .ok v st)
    (k : Need) (hk : HasType env t v k) (hx : cfg.maxBlob < k.used.blob ∨ cfg.maxBlob < st.2.blob) :
    ∃ e st, (deserialize env t cfg).run (s, .zero) = .err (.client e) st ∧ e.kind = .maxBlobExceeded := by
  obtain ⟨s', u⟩ := st
  obtain ⟨-, h2, ⟨k', h3, -, h4⟩, -⟩ := (deserialize_post henv ht { cfg with maxBlob := n } hi).ok v s' u h
  cases Needs.unique h3 hk
  have hu : cfg.maxBlob < u.blob := hx.elim (fun hx => Nat.lt_of_lt_of_le hx h4.2) id
  have hn : u.blob ≤ n := h2.2
  rcases deserialize_lim env t (a := cfg) (b := { cfg with maxBlob := n }) ⟨Nat.le_refl _, Nat.le_refl _, by show cfg.maxBlob ≤ n; omega, fun h => h⟩ hi with h1 | ⟨e, st', h1, hr⟩ | ⟨e, st', st'', -, h1⟩
  · rw [h] at h1
    have := ((deserialize_budget env t cfg hi).ok v s' u h1).2.1.2
    omega
  · refine ⟨e, st', h1, ?_⟩
    generalize e.kind = kk at hr
    cases hr with
    | depth h => exact absurd h (Nat.lt_irrefl _)
    | collect h => exact absurd h (Nat.lt_irrefl _)
    | blob _ => rfl
    | unknown h h' => simp only at h'; rw [h] at h'; cases h'
  · rw [h] at h1; cases h1

/-- (c) The error is raised before anything of the blob is read: reading the content of a blob into memory (for a `String` or `Vec<u8>`) fails, if the blob is longer than what is left
of the budget, with nothing changed in the stream. -/
theorem c36_before_reading (c : Ctx) (f : Field) (n : Nat) (s : Stream) (u : Stats) (hf : f.value = .blob n) (hu : u.blob ≤ c.cfg.maxBlob) (hn : c.cfg.maxBlob < u.blob + n) :
    (Prim.string.conv c f).run (s, u) = .err (.client ⟨.maxBlobExceeded, c.path⟩) (s, u) ∧
    (vecConv c f).run (s, u) = .err (.client ⟨.maxBlobExceeded, c.path⟩) (s, u) := by
  have : (ownedBlob c f).run (s, u) = .err (.client ⟨.maxBlobExceeded, c.path⟩) (s, u) := by
    have h1 : ¬ u.blob > c.cfg.maxBlob := by omega
    have h2 : c.cfg.maxBlob - u.blob < n := by omega
    simp [ownedBlob, Prog.run, Ctx.lift, hf, Value.toBlob, Ctx.blob, Ctx.fail, h1, h2]
  constructor <;> simp only [Prim.conv, vecConv, Prog.run, this]

/-! ## C37: `recursion_limit` -/

/-- **C37** (a) Whatever the type and input, contexts are never nested deeper than `recursion_limit`: neither in the errors reported, nor in the values returned, and a stack whose size
depends only on the type and the limit suffices. -/
theorem c37_bounded (env : Env) (t : Ty) (cfg : Config) (s : Stream) (hi : Inv s) :
    (∀ e st, (deserialize env t cfg).run (s, .zero) = .err (.client e) st → e.path.length ≤ cfg.recursionLimit ∧ e.kind ≠ .stackOverflow) ∧
    (env.wf → t.wf false = true → ∀ v st, (deserialize env t cfg).run (s, .zero) = .ok v st → ∃ k, HasType env t v k ∧ k.depth ≤ cfg.recursionLimit) := by
  refine ⟨fun e st h => ?_, fun henv ht v st h => ?_⟩
  · have := deserialize_errs env t cfg (s, .zero) e st h
    exact ⟨this.len, this.so trivial⟩
  · obtain ⟨-, -, ⟨k, h1, h2, -⟩, -⟩ := (deserialize_post henv ht cfg hi).ok v st.1 st.2 h
    exact ⟨k, h1, h2⟩

/-- (b) If with a higher limit (all else equal) a value that needs more than `recursion_limit` levels is read from the input, the input is rejected with `RecursionLimitExceeded`. -/
theorem c37_exceeding (env : Env) (henv : env.wf) (t : Ty) (ht : t.wf false = true) (cfg : Config) (n : Nat) (s : Stream) (hi : Inv s)
    (v : V) (st : PSt Stats) (h : (deserialize env t { cfg with recursionLimit := n }).run (s, .zero) = .ok v st)
    (k : Need) (hk : HasType env t v k) (hx : cfg.recursionLimit < k.depth) :
    ∃ e st, (deserialize env t cfg).run (s, .zero) = .err (.client e) st ∧ e.kind = .recursionLimitExceeded := by
  obtain ⟨s', u⟩ := st
  obtain ⟨-, h2, ⟨k', h3, h4, -⟩, -⟩ := (deserialize_post henv ht { cfg with recursionLimit := n } hi).ok v s' u h
  cases Needs.unique h3 hk
  simp only at h4
  rcases deserialize_lim env t (a := cfg) (b := { cfg with recursionLimit := n }) ⟨by show cfg.recursionLimit ≤ n; omega, Nat.le_refl _, Nat.le_refl _, fun h => h⟩ hi with h1 | ⟨e, st', h1, hr⟩ | ⟨e, st', st'', -, h1⟩
  · rw [h] at h1
    obtain ⟨-, -, ⟨k', h5, h6, -⟩, -⟩ := (deserialize_post henv ht cfg hi).ok v s' u h1
    cases Needs.unique h5 hk
    omega
  · refine ⟨e, st', h1, ?_⟩
    generalize e.kind = kk at hr
    cases hr with
    | depth _ => rfl
    | collect h => exact absurd h (Nat.lt_irrefl _)
    | blob h => exact absurd h (Nat.lt_irrefl _)
    | unknown h h' => simp only at h'; rw [h] at h'; cases h'
  · rw [h] at h1; cases h1

theorem exNeed : ∃ k, HasType exEnv (.named 0) exValue k ∧ k.used.collected = 3 ∧ k.used.blob = 1 ∧ k.depth = 1 := by
  refine ⟨_, .bodyStruct (b := ⟨[⟨1, "a", .prim (.int .u16)⟩, ⟨2, "b", .vec (.prim .string)⟩], .unknown "rest" false, fun _ => true⟩) rfl
    (.partsUnknown (vs := [.num 500, .seq [.str "", .str "x"]]) rfl rfl
      (.fieldsCons (.fieldSingle rfl (.elemPrim (.int (by decide) (by decide))))
        (.fieldsCons (.fieldVec rfl (.eachCons (.elemPrim (.string (by decide))) (.eachCons (.elemPrim (.string (by decide))) .eachNil))) .fieldsNil))
      (.unknownCons (tag := 5) (by decide) (by decide) (.unkInt (n := 7)) .unknownNil)), by decide, by decide, by decide⟩

/-- The example contains 3 elements of collections, and 1 byte, and takes 1 level; with limits below that, it is rejected. -/
example :
    (∃ e st, (deserialize exEnv (.named 0) { Config.default with maxCollect := 2 }).run (Stream.fromSlice exBytes, .zero) = .err (.client e) st ∧ e.kind = .maxCollectExceeded) ∧
    (∃ e st, (deserialize exEnv (.named 0) { Config.default with maxBlob := 0 }).run (Stream.fromSlice exBytes, .zero) = .err (.client e) st ∧ e.kind = .maxBlobExceeded) ∧
    (∃ e st, (deserialize exEnv (.named 0) { Config.default with recursionLimit := 0 }).run (Stream.fromSlice exBytes, .zero) = .err (.client e) st ∧ e.kind = .recursionLimitExceeded) := by
  obtain ⟨s', h⟩ := exRun
  obtain ⟨k, h1, h2, h3, h4⟩ := exNeed
  exact ⟨c35_exceeding exEnv exEnv_wf (.named 0) rfl { Config.default with maxCollect := 2 } 256 _ exInv _ _ h k h1 (.inl (by rw [h2]; decide)),
    c36_exceeding exEnv exEnv_wf (.named 0) rfl { Config.default with maxBlob := 0 } 65536 _ exInv _ _ h k h1 (.inl (by rw [h3]; decide)),
    c37_exceeding exEnv exEnv_wf (.named 0) rfl { Config.default with recursionLimit := 0 } 32 _ exInv _ _ h k h1 (by rw [h4]; decide)⟩

/-! ## C45: totality -/

/-- **C45** For every type, configuration, and stream (at whatever position, with whatever input and behaviour of the reader, including failures), deserialisation returns a value or an
error: it does not panic or hang, the stack does not overflow, and the input is only read (position and offset stay in step). -/
theorem c45_total (env : Env) (t : Ty) (cfg : Config) (s : Stream) (hi : Inv s) :
    ((∃ v st, (deserialize env t cfg).run (s, .zero) = .ok v st) ∨
      ∃ e st, (deserialize env t cfg).run (s, .zero) = .err (.client e) st ∧ e.kind ≠ .panic ∧ e.kind ≠ .stackOverflow) ∧
    ∀ s', s' = ((deserialize env t cfg).run (s, .zero)).state.1 → Inv s' ∧ s'.inner.data = s.inner.data ∧ s'.pos + s.inner.pos = s.pos + s'.inner.pos := by
  have hsafe := Prog.run_safe (deserialize env t cfg) (s, .zero) hi
  refine ⟨?_, fun s' h => ?_⟩
  · cases hrun : (deserialize env t cfg).run (s, .zero) with
    | ok v st => exact .inl ⟨v, st, rfl⟩
    | err e st =>
      cases e with
      | abort e => exact (hsafe.normal e st hrun).elim
      | client e =>
        exact .inr ⟨e, st, rfl, ((deserialize_budget env t cfg hi).err e st.1 st.2 hrun).2, (deserialize_errs env t cfg _ e st hrun).so trivial⟩
  · subst h
    exact ⟨hsafe.step.inv, hsafe.step.frame.data, hsafe.step.frame.off⟩

/-! ## C46: valid values -/

/-- **C46** (a) Whatever the input, a value that is returned is a value of the type: numbers in range, sets and maps without duplicates, arrays of their length, tuples with their number
of components, declared variants, etc. (`V.str` and `V.chr` can only hold valid strings and characters.) -/
theorem c46_valid (env : Env) (henv : env.wf) (t : Ty) (ht : t.wf false = true) (cfg : Config) (s : Stream) (hi : Inv s) (v : V) (st : PSt Stats)
    (h : (deserialize env t cfg).run (s, .zero) = .ok v st) : ∃ k, HasType env t v k := by
  obtain ⟨-, -, ⟨k, h1, -⟩, -⟩ := (deserialize_post henv ht cfg hi).ok v st.1 st.2 h
  exact ⟨k, h1⟩

example : ∃ k, HasType exEnv (.named 0) exValue k := by
  obtain ⟨s', h⟩ := exRun
  exact c46_valid exEnv exEnv_wf _ rfl _ _ exInv _ _ h

/-! ## C50: error paths -/

/-- **C50** In whatever context (reached by `Context::push` from the top) a value, element or field is deserialised or finished, the path of an error extends the path of the context, and is not longer than `recursion_limit`. -/
theorem c50_paths (env : Env) (n : Nat) (c : Ctx) (hlen : c.path.length = c.depth) (hle : c.depth ≤ c.cfg.recursionLimit) (t : Ty) (a : Acc) (f : Field) (st st' : PSt Stats) (e : DErr) :
    (((ops env n).body t c).run st = .err (.client e) st' ∨ ((ops env n).element t c f).run st = .err (.client e) st' ∨
      ((ops env n).field t a c f).run st = .err (.client e) st' ∨ ((ops env n).finish t a c).run st = .err (.client e) st') →
    c.path <+: e.path ∧ e.path.length ≤ c.cfg.recursionLimit := by
  have ho := ops_errs env (S := max env.size 3) (by omega) (by omega) n
  have hc : c.Ok := ⟨hlen, hle⟩
  rintro (h | h | h | h)
  · exact ⟨(ho.body t c hc st e st' h).pre, (ho.body t c hc st e st' h).len⟩
  · exact ⟨(ho.element t c f hc st e st' h).pre, (ho.element t c f hc st e st' h).len⟩
  · exact ⟨(ho.field t a c f hc st e st' h).pre, (ho.field t a c f hc st e st' h).len⟩
  · exact ⟨(ho.finish t a c hc st e st' h).pre, (ho.finish t a c hc st e st' h).len⟩

example : (Ctx.mk [("a", 3), ("b", 5)] 2 .default).path.length = 2 ∧ 2 ≤ Config.default.recursionLimit := by decide

/-- A `bool` which is 2, inside the first component of a pair that is read at the place `field_1` of the second. -/
example : (match ((ops exEnv 5).field (.tuple [.prim .bool]) .init ⟨[("b", 5)], 1, .default⟩ ⟨7, 3, 1, .struct⟩).run (Stream.fromSlice [65, 2, 0], .zero) with
    | .err (.client e) _ => decide (e.path = [("b", 5), ("field_0", 0)] ∧ e.kind = .stream .integerOutOfRange)
    | _ => false) = true := by decide +kernel

/-! ## C52: values read can be written -/

/-- **C52** A value that was deserialised from any input (with whatever spelling, order of fields, or unknown fields) can be serialised again (by exactly one sequence of calls), and reading that gives back the same value under the same
configuration, provided unknown fields are ignored or the value does not involve a message of `()` (see C49). -/
theorem c52_reserialise (env : Env) (hok : env.Ok) (henv : env.wf) (t : Ty) (ht : t.wf false = true) (cfg : Config)
    (hl : cfg.ignoreUnknownFields = true ∨ ((∀ i, Decl.NoUnit (env.decl i)) ∧ ¬ UnitBody t)) (s : Stream) (hi : Inv s) (v : V) (st : PSt Stats)
    (h : (deserialize env t cfg).run (s, .zero) = .ok v st) :
    ∃ cs, ToStream env t v cs ∧ ∀ (r : Stream) (tail : List Byte), Over r (canonToks (callToks cs) ++ tail) →
      r.pos + (canonToks (callToks cs) ++ tail).length < U64MAX →
      ∃ r' u, (deserialize env t cfg).run (r, .zero) = .ok v (r', u) ∧ Behind r r' (canonToks (callToks cs)) tail := by
  obtain ⟨-, hf, ⟨k, h1, h2, h3⟩, -⟩ := (deserialize_post henv ht cfg hi).ok v st.1 st.2 h
  have hw : k.Within cfg := ⟨h2, Nat.le_trans h3.1 hf.1, Nat.le_trans h3.2 hf.2, fun hk => by
    rcases hl with hl | ⟨hl, hl'⟩
    · exact hl
    · have hs : k.lenient = false := strict_needs hl h1 hl'
      rw [hs] at hk; cases hk⟩
  obtain ⟨cs, l, g1, g2, g3⟩ := tree_roundtrip hok h1
  refine ⟨cs ++ [.commit], ⟨cs, g1, rfl⟩, fun r tail hr hroom => ?_⟩
  rw [callToks_commit] at hr hroom ⊢
  obtain ⟨r', e1, e2⟩ := de_ok env t cfg g2.message hr hroom (g3 cfg hw).1 (g3 cfg hw).2
  exact ⟨r', _, e1, e2⟩

example : ∃ cs, ToStream exEnv (.named 0) exValue cs := by
  obtain ⟨s', h⟩ := exRun
  obtain ⟨cs, h1, -⟩ := c52_reserialise exEnv exEnv_ok exEnv_wf (.named 0) rfl .default (.inl rfl) _ exInv _ _ h
  exact ⟨cs, h1⟩

end Fourleaf.Props
