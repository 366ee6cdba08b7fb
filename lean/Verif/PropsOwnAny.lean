import Verif.PropsOwn
import Verif.PropsExact
import Verif.TwinDe
import Verif.DeErr
import Verif.Limits

/-! # C47 for arbitrary bytes

Borrowing and copying agree not only about well-formed messages: whatever the bytes are, both accept them as the same value, having consumed the same bytes, or neither does.
-/

namespace Fourleaf.Props
open Fourleaf Spec

/-- **C47** (bytes with exceptions) For all bytes whatever, in both directions (`own`): what is accepted as one of the types is accepted as the other, with the same value and having consumed the same bytes, unless the other one reports an exception that is in the input. -/
theorem c47_exceptions {own : Bool} (env env' : Env) (he : OwnEnv own env env') (henv : env.Ok) (hwf : env.wf) (henv' : env'.Ok) (hwf' : env'.wf) (t t' : Ty) (ho : OwnTy own t t')
    (ht : t.wf false = true) (ht' : t'.wf false = true) (cfg : Config) (s : Stream) (m : List Byte) (hs : Over s m) (hseek : s.graceful = true → s.useSeek = false ∨ s.inner.seekable = false)
    (hroom : s.pos + m.length < U64MAX) (v : V) (s1 : Stream) (c : Stats) (h : (deserialize env t cfg).run (s, .zero) = .ok v (s1, c)) :
    ∃ c', OwnStats own c c' ∧ c.fits cfg ∧ ∀ n, c'.blob ≤ n →
      (∃ s2, (deserialize env' t' { cfg with maxBlob := n }).run (s, .zero) = .ok v (s2, c') ∧ s2.pos = s1.pos ∧ s2.inner.data.drop s2.inner.pos = s1.inner.data.drop s1.inner.pos) ∨
      ∃ ts a rest msg text e st, m = a ++ rest ∧ EncToks ts a ∧ .exception msg ∈ ts ∧ LossyText (msg.take 256) text ∧
        (deserialize env' t' { cfg with maxBlob := n }).run (s, .zero) = .err (.client e) st ∧ e.kind = .stream (.exception text) := by
  obtain ⟨close, l, a, rest, rfl, ⟨ts, h2, h3⟩, h4, h5, h6, h7⟩ := c68_any env henv hwf t ht cfg s m hs hseek hroom v s1 c h
  obtain ⟨c', h8, h9⟩ := own_reads he h5 (.body ho)
  refine ⟨c', h9, h6, fun n hn => ?_⟩
  have hf : c'.fits { cfg with maxBlob := n } := ⟨by rw [h9.collected]; exact h6.1, hn⟩
  rcases c68_exceptions env' henv' hwf' t' ht' { cfg with maxBlob := n } s close l ts a rest h2 h3 hs h4 hroom v c'
    (reads_cfg (a := cfg) (b := { cfg with maxBlob := n }) rfl rfl h8) hf with ⟨s2, k1, k2⟩ | ⟨msg, text, e, st, k1, k2, k3, k4⟩
  · exact .inl ⟨s2, k1, by rw [k2.pos, h7.pos], by rw [k2.rest, h7.rest]⟩
  · exact .inr ⟨ts, a, rest, msg, text, e, st, rfl, h3, k1, k2, k3, k4⟩

/-- The two outcomes on a slice. -/
theorem own_twin (env env' : Env) (he : OwnEnv true env env') (t t' : Ty) (ho : OwnTy true t t') (cfg : Config) (s : Stream) (hs : OnSlice s) :
    let r := (deserialize env t cfg).run (s, .zero)
    let r' := (deserialize env' t' cfg).run (s, .zero)
    (∃ v s1 c c', r = .ok v (s1, c) ∧ r' = .ok v (s1, c') ∧ c'.collected = c.collected ∧ c.blob ≤ c'.blob) ∨
    (∃ e e' st st', r = .err (.client e) st ∧ r' = .err (.client e') st' ∧ e'.kind = e.kind ∧ e'.path.map (·.2) = e.path.map (·.2)) ∨
    (∃ e' st', r' = .err (.client e') st' ∧ e'.kind = .maxBlobExceeded) ∨
    (Meets s ∧ (∃ e st, r = .err (.client e) st) ∧ ∃ e' st', r' = .err (.client e') st') := by
  intro r r'
  have h : TwR Eq Eq s r r' := deserialize_twin he ho cfg hs
  have hb : Post cfg .zero r fun _ s' _ => AtEnd s' := deserialize_budget env t cfg hs.inv
  have hb' : Post cfg .zero r' fun _ s' _ => AtEnd s' := deserialize_budget env' t' cfg hs.inv
  have hn : SafeRun (s, Stats.zero) r := Prog.run_safe (deserialize env t cfg) (s, .zero) hs.inv
  have hn' : SafeRun (s, Stats.zero) r' := Prog.run_safe (deserialize env' t' cfg) (s, .zero) hs.inv
  have hE : ∀ e st, r = .err (.client e) st → e.kind ≠ .stackOverflow := fun e st hr => (deserialize_errs env t cfg (s, .zero) e st hr).so trivial
  have hE' : ∀ e st, r' = .err (.client e) st → e.kind ≠ .stackOverflow := fun e st hr => (deserialize_errs env' t' cfg (s, .zero) e st hr).so trivial
  have hbad : ∀ {r : Res (Stop DErr) (PSt Stats) V}, Bad r → Post cfg .zero r (fun _ s' _ => AtEnd s') → SafeRun (s, Stats.zero) r → ∃ e st, r = .err (.client e) st := by
    intro r h hp hq
    cases r with
    | ok v st => exact absurd (h v st rfl).1 (hp.ok v st.1 st.2 rfl).2.2.notLost
    | err e st =>
      cases e with
      | client e => exact ⟨e, st, rfl⟩
      | abort e => exact (hq.normal e st rfl).elim
  clear_value r r'
  cases h with
  | ok hR hq hu _ _ =>
    subst hR hq
    exact .inl ⟨_, _, _, _, rfl, rfl, hu.collected, hu.blob⟩
  | err h1 h2 => exact .inr (.inl ⟨_, _, _, _, rfl, rfl, h1, h2⟩)
  | abort => exact (hn.normal _ _ rfl).elim
  | limit h1 => exact .inr (.inr (.inl ⟨_, _, rfl, h1⟩))
  | cut h1 h2 h3 => exact .inr (.inr (.inr ⟨h1, hbad h2 hb hn, hbad h3 hb' hn'⟩))
  | overL h1 => rcases h1 with h1 | h1
                · exact absurd h1 (hb.err _ _ _ rfl).2
                · exact absurd h1 (hE _ _ rfl)
  | overR h1 => rcases h1 with h1 | h1
                · exact absurd h1 (hb'.err _ _ _ rfl).2
                · exact absurd h1 (hE' _ _ rfl)

/-- **C47** (same outcome) For arbitrary bytes, however they are delivered (with graceful EOF: on a stream that does not seek): reading a type that borrows and reading the copying type, under the same limits,
either both succeed with the same value and leave the same stream, or both fail with the same error at the same place, or the copying one reports that the limit on bytes is exceeded, or both fail, and the input is cut off inside a blob. -/
theorem c47_same (env env' : Env) (he : OwnEnv true env env') (t t' : Ty) (ho : OwnTy true t t') (cfg : Config) (s : Stream) (hs : Fresh s) (hb : Benign s.inner.sched)
    (hseek : s.graceful = true → s.useSeek = false ∨ s.inner.seekable = false) :
    let r := (deserialize env t cfg).run (s, .zero)
    let r' := (deserialize env' t' cfg).run (s, .zero)
    (∃ v s1 s2 c c' sc, r = .ok v (s1, c) ∧ r' = .ok v (s2, c') ∧ s2 = { s1 with inner := { s1.inner with sched := sc } } ∧ c'.collected = c.collected ∧ c.blob ≤ c'.blob) ∨
    (∃ e e' st st', r = .err (.client e) st ∧ r' = .err (.client e') st' ∧ e'.kind = e.kind ∧ e'.path.map (·.2) = e.path.map (·.2)) ∨
    (∃ e' st', r' = .err (.client e') st' ∧ e'.kind = .maxBlobExceeded) ∨
    (Meets { s with inner := { s.inner with sched := [] } } ∧ (∃ e st, r = .err (.client e) st) ∧ ∃ e' st', r' = .err (.client e') st') := by
  intro r r'
  have hinv : Inv { s with inner := { s.inner with sched := [] } } := by
    have := hs.inv
    exact { this with }
  have hfr : Fresh { s with inner := { s.inner with sched := [] } } := ⟨hs.pos, hs.eof, hs.commit, hs.live⟩
  have hw := own_twin env env' he t t' ho cfg { s with inner := { s.inner with sched := [] } } ⟨hinv, rfl, hseek⟩
  obtain ⟨k1, k2⟩ := c21_chunking_independent (deserialize env t cfg) (deserialize_nice env t cfg).1 { s with inner := { s.inner with sched := [] } } Stats.zero hfr (fun e he => by cases he) s.inner.sched hb
  obtain ⟨k1', k2'⟩ := c21_chunking_independent (deserialize env' t' cfg) (deserialize_nice env' t' cfg).1 { s with inner := { s.inner with sched := [] } } Stats.zero hfr (fun e he => by cases he) s.inner.sched hb
  dsimp only at hw
  rcases hw with ⟨v, s1, c, c', h1, h2, h3⟩ | ⟨e, e', st, st', h1, h2, h3⟩ | ⟨e', st', h1, h2⟩ | ⟨h1, ⟨e, st, h2⟩, ⟨e', st', h3⟩⟩
  · obtain ⟨sc, l1⟩ := k1 _ _ h1
    obtain ⟨sc', l2⟩ := k1' _ _ h2
    exact .inl ⟨v, _, _, c, c', sc', l1, l2, rfl, h3⟩
  · obtain ⟨sc, l1⟩ := k2 _ _ h1
    obtain ⟨sc', l2⟩ := k2' _ _ h2
    exact .inr (.inl ⟨e, e', _, _, l1, l2, h3⟩)
  · obtain ⟨sc', l2⟩ := k2' _ _ h1
    exact .inr (.inr (.inl ⟨e', _, l2, h2⟩))
  · obtain ⟨sc, l1⟩ := k2 _ _ h2
    obtain ⟨sc', l2⟩ := k2' _ _ h3
    exact .inr (.inr (.inr ⟨h1, ⟨e, _, l1⟩, ⟨e', _, l2⟩⟩))

/-- **C47** (any bytes) For arbitrary bytes: they are accepted as a type that borrows exactly if they are accepted as the copying type (where the number of bytes is not limited, as borrowed bytes do not count);
with the same value, and having consumed the same bytes. -/
theorem c47_any (env env' : Env) (he : OwnEnv true env env') (henv : env.Ok) (hwf : env.wf) (henv' : env'.Ok) (hwf' : env'.wf) (t t' : Ty) (ho : OwnTy true t t')
    (ht : t.wf false = true) (ht' : t'.wf false = true) (cfg : Config) (s : Stream) (m : List Byte) (hs : Over s m) (hseek : s.graceful = true → s.useSeek = false ∨ s.inner.seekable = false)
    (hroom : s.pos + m.length < U64MAX) :
    (∀ v s1 c, (deserialize env t cfg).run (s, .zero) = .ok v (s1, c) → ∃ c', c'.collected = c.collected ∧ c.blob ≤ c'.blob ∧ ∀ n, c'.blob ≤ n →
      ∃ s2, (deserialize env' t' { cfg with maxBlob := n }).run (s, .zero) = .ok v (s2, c') ∧ s2.pos = s1.pos ∧ s2.inner.data.drop s2.inner.pos = s1.inner.data.drop s1.inner.pos) ∧
    (∀ v s2 c', (deserialize env' t' cfg).run (s, .zero) = .ok v (s2, c') → ∃ s1 c, (deserialize env t cfg).run (s, .zero) = .ok v (s1, c) ∧
      c.collected = c'.collected ∧ c.blob ≤ c'.blob ∧ s1.pos = s2.pos ∧ s1.inner.data.drop s1.inner.pos = s2.inner.data.drop s2.inner.pos) := by
  refine ⟨fun v s1 c h => ?_, fun v s2 c' h => ?_⟩
  · obtain ⟨c', h1, -, h2⟩ := c47_exceptions env env' he henv hwf henv' hwf' t t' ho ht ht' cfg s m hs hseek hroom v s1 c h
    refine ⟨c', h1.collected, by simpa using h1.blob, fun n hn => ?_⟩
    have hk : c'.blob ≤ max n cfg.maxBlob := by omega
    have hlim : (deserialize env t { cfg with maxBlob := max n cfg.maxBlob }).run (s, .zero) = .ok v (s1, c) := by
      rcases deserialize_lim env t (a := cfg) (b := { cfg with maxBlob := max n cfg.maxBlob }) ⟨Nat.le_refl _, Nat.le_refl _, Nat.le_max_right _ _, id⟩ (s := s) hs.fresh.inv with k | ⟨e, st, k, -⟩ | ⟨e, st, st', k, -⟩
      · exact k.symm.trans h
      · rw [k] at h; cases h
      · rw [k] at h; cases h
    have hbig : ∃ s2, (deserialize env' t' { cfg with maxBlob := max n cfg.maxBlob }).run (s, .zero) = .ok v (s2, c') := by
      rcases h2 _ hk with ⟨s2, k, -⟩ | ⟨-, -, -, -, text, e, st, -, -, -, -, k1, k2⟩
      · exact ⟨s2, k⟩
      · rcases c47_same env env' he t t' ho { cfg with maxBlob := max n cfg.maxBlob } s hs.fresh hs.benign hseek with ⟨_, _, _, _, _, _, -, l, -⟩ | ⟨_, _, _, _, l, -⟩ | ⟨_, _, l1, l2⟩ | ⟨-, ⟨_, _, l⟩, -⟩
        · rw [k1] at l; cases l
        · rw [hlim] at l; cases l
        · rw [k1] at l1; cases l1; rw [k2] at l2; cases l2
        · rw [hlim] at l; cases l
    obtain ⟨s2, hbig⟩ := hbig
    rcases h2 n hn with h | ⟨-, -, -, -, text, e, st, -, -, -, -, k1, k2⟩
    · exact h
    · rcases deserialize_lim env' t' (a := { cfg with maxBlob := n }) (b := { cfg with maxBlob := max n cfg.maxBlob }) ⟨Nat.le_refl _, Nat.le_refl _, Nat.le_max_left _ _, id⟩ (s := s) hs.fresh.inv with k | ⟨e', st', k, l⟩ | ⟨e', st', st'', k, l⟩
      · rw [k1, hbig] at k; cases k
      · rw [k1] at k; cases k; rw [k2] at l; cases l
      · rw [hbig] at l; cases l
  · rcases c47_same env env' he t t' ho cfg s hs.fresh hs.benign hseek with ⟨_, s1, _, c, _, _, l1, l2, l3, l4, l5⟩ | ⟨_, _, _, _, -, l, -⟩ | ⟨_, _, l, -⟩ | ⟨-, -, ⟨_, _, l⟩⟩
    · rw [h] at l2; cases l2
      exact ⟨s1, c, l1, l4.symm, l5, by rw [l3], by rw [l3]⟩
    · rw [h] at l; cases l
    · rw [h] at l; cases l
    · rw [h] at l; cases l

/-! ## Non-vacuity -/

theorem exOwnAny_ty : OwnTy true (.tuple [.prim .bytesRef, .prim .strRef]) (.tuple [.vec u8, .prim .string]) := .tuple rfl fun j t t' h h' => by
  match j with
  | 0 => cases h; cases h'; exact .bytes rfl
  | 1 => cases h; cases h'; exact .str rfl
  | n + 2 => cases h

/-- Bytes that are not a message (the document is closed by an end-of-document element, and rubbish follows) are accepted when borrowing, … -/
theorem exOwnAny_run : ∃ s1, (deserialize exEnv (.tuple [.prim .bytesRef, .prim .strRef]) .default).run (Stream.fromSlice [129, 2, 7, 8, 130, 1, 65, 64, 9], .zero) = .ok (.seq [.ofBytes [7, 8], .str "A"]) (s1, .zero) ∧ s1.pos = 8 := by
  have hd : CleanDoc .doc [(1, .blob [7, 8]), (2, .blob [65])] [129, 2, 7, 8, 130, 1, 65, 64] :=
    ⟨[.blob 1 [7, 8], .blob 2 [65], .endDoc], .blob (.blob .endDoc), (fun m h => by simp at h),
      (by decide +kernel : canonToks [.blob 1 [7, 8], .blob 2 [65], .endDoc] = [129, 2, 7, 8, 130, 1, 65, 64]) ▸ canonToks_enc (by decide)⟩
  obtain ⟨h1, h2⟩ := (c54_accepts exEnv exEnv_ok exEnv_wf _ rfl _ _ _ exOwn_message (by decide) _ _).1 exOwn_borrowed
  obtain ⟨s', h3, h4⟩ := c68_complete exEnv exEnv_ok exEnv_wf (.tuple [.prim .bytesRef, .prim .strRef]) rfl .default (Stream.fromSlice [129, 2, 7, 8, 130, 1, 65, 64, 9]) .doc _ _ [9] hd
    (over_fromSlice _ (by decide)) (fun h => by cases h) (by decide) _ _ h1 h2
  exact ⟨s', h3, h4.pos⟩

/-- … hence also when copying, and the same bytes are consumed. -/
example : ∃ c', ∀ n, c'.blob ≤ n → ∃ s2, (deserialize exEnv (.tuple [.vec u8, .prim .string]) { Config.default with maxBlob := n }).run (Stream.fromSlice [129, 2, 7, 8, 130, 1, 65, 64, 9], .zero) =
    .ok (.seq [.ofBytes [7, 8], .str "A"]) (s2, c') ∧ s2.pos = 8 := by
  obtain ⟨s1, h1, h2⟩ := exOwnAny_run
  obtain ⟨c', -, -, h⟩ := (c47_any exEnv exEnv exOwn_env exEnv_ok exEnv_wf exEnv_ok exEnv_wf _ _ exOwnAny_ty rfl rfl .default _ _ (over_fromSlice _ (by decide)) (fun h => by cases h) (by decide)).1 _ s1 _ h1
  refine ⟨c', fun n hn => ?_⟩
  obtain ⟨s2, h3, h4, -⟩ := h n hn
  exact ⟨s2, h3, by rw [h4, h2]⟩

/-- Bytes with an exception (in an unknown struct, which is skipped): accepted when borrowing, … -/
theorem exOwnExc_run : (match (deserialize exEnv (.tuple [.prim .bytesRef, .prim .strRef]) .default).run (Stream.fromSlice [129, 2, 7, 8, 130, 1, 65, 199, 128, 1, 65, 0, 64], .zero) with
    | .ok _ (s1, c) => decide (s1.pos = 13 ∧ c.blob = 0)
    | _ => false) = true := by decide +kernel

/-- … hence accepted when copying, with the same value. -/
example : ∃ v s1 c c', (deserialize exEnv (.tuple [.prim .bytesRef, .prim .strRef]) .default).run (Stream.fromSlice [129, 2, 7, 8, 130, 1, 65, 199, 128, 1, 65, 0, 64], .zero) = .ok v (s1, c) ∧ s1.pos = 13 ∧
    ∀ n, c'.blob ≤ n → ∃ s2, (deserialize exEnv (.tuple [.vec u8, .prim .string]) { Config.default with maxBlob := n }).run (Stream.fromSlice [129, 2, 7, 8, 130, 1, 65, 199, 128, 1, 65, 0, 64], .zero) = .ok v (s2, c') ∧ s2.pos = 13 := by
  have h0 := exOwnExc_run
  split at h0
  · rename_i v s1 c h1
    have hp := (of_decide_eq_true h0).1
    obtain ⟨c', -, -, h⟩ := (c47_any exEnv exEnv exOwn_env exEnv_ok exEnv_wf exEnv_ok exEnv_wf _ _ exOwnAny_ty rfl rfl .default _ _ (over_fromSlice _ (by decide)) (fun h => by cases h) (by decide)).1 _ s1 _ h1
    refine ⟨v, s1, c, c', h1, hp, fun n hn => ?_⟩
    obtain ⟨s2, k1, k2, -⟩ := h n hn
    exact ⟨s2, k1, k2.trans hp⟩
  · cases h0

/-- The hypotheses of `c47_same` are met by bytes with an error, which is the same and at the same place: the second field is missing. -/
example : Fresh (Stream.fromSlice [129, 2, 7, 8, 64]) ∧ Benign (Stream.fromSlice [129, 2, 7, 8, 64]).inner.sched ∧
    (match (deserialize exEnv (.tuple [.prim .bytesRef, .prim .strRef]) .default).run (Stream.fromSlice [129, 2, 7, 8, 64], .zero),
      (deserialize exEnv (.tuple [.vec u8, .prim .string]) .default).run (Stream.fromSlice [129, 2, 7, 8, 64], .zero) with
    | .err (.client e) _, .err (.client e') _ => decide (e.kind = e'.kind ∧ e.kind = .requiredFieldMissing ∧ e.path.map (·.2) = e'.path.map (·.2) ∧ e.path.length = 1)
    | _, _ => false) = true := ⟨fresh_fromSlice _, fun e he => (by cases he), by decide +kernel⟩

/-- The last alternative of `c47_same`: a blob of which one byte is missing. -/
example : Meets (Stream.fromSlice [129, 2, 7]) := by
  have h : (match nextElement (Stream.fromSlice [129, 2, 7]) with
    | .ok _ s => decide (s.live = true ∧ s.rest.length < blobRemaining s)
    | _ => false) = true := by decide +kernel
  split at h
  · rename_i e s he
    exact .next he (.here (of_decide_eq_true h).1 (of_decide_eq_true h).2)
  · cases h

end Fourleaf.Props
