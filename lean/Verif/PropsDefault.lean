import Verif.PropsDe
import Verif.PropsSer
import Verif.NeedsUnique

/-! # C78: which values are read back, exactly; the documented defaults -/

namespace Fourleaf.Props
open Fourleaf Spec

/-- The levels of nesting, elements of collections, and copied bytes of a value, compared to three limits. -/
def FitsIn (k : Need) (levels elements bytes : Nat) : Prop :=
  k.depth ≤ levels ∧ k.used.collected ≤ elements ∧ k.used.blob ≤ bytes

instance (k : Need) (a b c : Nat) : Decidable (FitsIn k a b c) := inferInstanceAs (Decidable (_ ∧ _))

/-- The message of a value, read with a configuration, is read back exactly if the value is within the three limits; otherwise the error tells a limit that
the value does exceed. -/
theorem exact_run (env : Env) (henv : env.Ok) (hwf : env.wf) (t : Ty) (ht : t.wf false = true) (v : V) (k : Need) (h : HasType env t v k) :
    ∃ cs, ToStream env t v cs ∧ (∀ cs', ToStream env t v cs' → cs' = cs) ∧
      ∀ cfg, (k.lenient = true → cfg.ignoreUnknownFields = true) → ∀ (r : Stream) (tail : List Byte), Over r (canonToks (callToks cs) ++ tail) →
        r.pos + (canonToks (callToks cs) ++ tail).length < U64MAX →
        if FitsIn k cfg.recursionLimit cfg.maxCollect cfg.maxBlob then
          ∃ r', (deserialize env t cfg).run (r, .zero) = .ok v (r', k.used) ∧ Behind r r' (canonToks (callToks cs)) tail
        else
          ∃ e st, (deserialize env t cfg).run (r, .zero) = .err (.client e) st ∧
            (e.kind = .recursionLimitExceeded ∧ cfg.recursionLimit < k.depth ∨ e.kind = .maxCollectExceeded ∧ cfg.maxCollect < k.used.collected ∨
              e.kind = .maxBlobExceeded ∧ cfg.maxBlob < k.used.blob) := by
  obtain ⟨cs, h1, h2, h3⟩ := c30_roundtrip env henv t v k h
  obtain ⟨cs0, l, h4, h5, h6⟩ := tree_roundtrip henv h
  have hcs : cs = cs0 ++ [.commit] := (h2 _ ⟨cs0, h4, rfl⟩).symm
  refine ⟨cs, h1, h2, fun cfg hl r tail hr hroom => ?_⟩
  have key : ∀ c, k.Within c → ∃ r', (deserialize env t c).run (r, .zero) = .ok v (r', k.used) ∧ Behind r r' (canonToks (callToks cs)) tail := by
    intro c hc
    rw [hcs, callToks_commit] at hr hroom ⊢
    exact de_ok env t _ h5.message hr hroom (h6 _ hc).1 (h6 _ hc).2
  split
  · rename_i hf
    exact key cfg ⟨hf.1, hf.2.1, hf.2.2, hl⟩
  · rename_i hf
    have hi := hr.fresh.inv
    let big : Config := ⟨max cfg.recursionLimit k.depth, cfg.ignoreUnknownFields, max cfg.maxBlob k.used.blob, max cfg.maxCollect k.used.collected⟩
    have hle : cfg.Le big := ⟨Nat.le_max_left _ _, Nat.le_max_left _ _, Nat.le_max_left _ _, fun h => h⟩
    obtain ⟨r', hb, -⟩ := key big ⟨Nat.le_max_right _ _, Nat.le_max_right _ _, Nat.le_max_right _ _, hl⟩
    rcases c53_limits_only_reject env t cfg big hle r hi with h7 | ⟨e, st, h7, h8⟩ | ⟨e, st, st', h7, h8⟩
    · exfalso
      rw [hb] at h7
      obtain ⟨a, -⟩ := (c35_bounded env hwf t ht cfg r hi).1 _ _ _ h7
      obtain ⟨b, -⟩ := (c36_bounded env hwf t ht cfg r hi).1 _ _ _ h7
      obtain ⟨k', hk', hd⟩ := (c37_bounded env t cfg r hi).2 hwf ht _ _ h7
      rw [Needs.unique hk' h] at hd
      exact hf ⟨hd, a, b⟩
    · refine ⟨e, st, h7, ?_⟩
      generalize e.kind = kk at h8
      cases h8 with
      | depth h => exact .inl ⟨rfl, by simp only [big] at h; omega⟩
      | collect h => exact .inr (.inl ⟨rfl, by simp only [big] at h; omega⟩)
      | blob h => exact .inr (.inr ⟨rfl, by simp only [big] at h; omega⟩)
      | unknown h h' => simp only [big] at h'; rw [h] at h'; cases h'
    · rw [hb] at h8; cases h8

/-- What `to_vec` wrote for a value is read back, under a configuration, if and only if the value has at most `recursion_limit` levels of nesting, `max_collect` elements of
collections and `max_blob` copied bytes, all in all. Otherwise the error names a limit which the value exceeds. (A value involving `()` may need `ignore_unknown_fields`, see C49.) -/
theorem exact_lenient (env : Env) (henv : env.Ok) (hwf : env.wf) (t : Ty) (ht : t.wf false = true) (v : V) (k : Need) (h : HasType env t v k) :
    ∃ cs, ToStream env t v cs ∧ (∀ cs', ToStream env t v cs' → cs' = cs) ∧
      ∀ cfg, (k.lenient = true → cfg.ignoreUnknownFields = true) → ∀ (r : Stream) (tail : List Byte), Over r (canonToks (callToks cs) ++ tail) →
        r.pos + (canonToks (callToks cs) ++ tail).length < U64MAX →
        ((∃ st, (deserialize env t cfg).run (r, .zero) = .ok v st) ↔ FitsIn k cfg.recursionLimit cfg.maxCollect cfg.maxBlob) ∧
        (¬ FitsIn k cfg.recursionLimit cfg.maxCollect cfg.maxBlob → ∃ e st, (deserialize env t cfg).run (r, .zero) = .err (.client e) st ∧
          (e.kind = .recursionLimitExceeded ∧ cfg.recursionLimit < k.depth ∨ e.kind = .maxCollectExceeded ∧ cfg.maxCollect < k.used.collected ∨
            e.kind = .maxBlobExceeded ∧ cfg.maxBlob < k.used.blob)) := by
  obtain ⟨cs, h1, h2, h3⟩ := exact_run env henv hwf t ht v k h
  refine ⟨cs, h1, h2, fun cfg hl r tail hr hroom => ?_⟩
  have := h3 cfg hl r tail hr hroom
  split at this
  · rename_i hf
    obtain ⟨r', hr', -⟩ := this
    exact ⟨⟨fun _ => hf, fun _ => ⟨_, hr'⟩⟩, fun hn => absurd hf hn⟩
  · rename_i hf
    obtain ⟨e, st, he, hk⟩ := this
    refine ⟨⟨fun ⟨st', hs⟩ => ?_, fun h => absurd h hf⟩, fun _ => ⟨e, st, he, hk⟩⟩
    rw [he] at hs; cases hs

/-- **C78** (b) With the default configuration (`from_slice_copy` and the like): a value is read back if and only if it has at most 32 levels of nesting, at most 256 elements of
collections, and at most 65536 copied bytes. -/
theorem c78_default (env : Env) (henv : env.Ok) (hwf : env.wf) (t : Ty) (ht : t.wf false = true) (v : V) (k : Need) (h : HasType env t v k) :
    ∃ cs, ToStream env t v cs ∧ ∀ (r : Stream) (tail : List Byte), Over r (canonToks (callToks cs) ++ tail) →
        r.pos + (canonToks (callToks cs) ++ tail).length < U64MAX →
        ((∃ st, (deserialize env t .default).run (r, .zero) = .ok v st) ↔ k.depth ≤ 32 ∧ k.used.collected ≤ 256 ∧ k.used.blob ≤ 65536) := by
  obtain ⟨cs, h1, -, h3⟩ := exact_lenient env henv hwf t ht v k h
  exact ⟨cs, h1, fun r tail hr hroom => (h3 .default (fun _ => rfl) r tail hr hroom).1⟩

/-- **C39** (c) With `ignore_unknown_fields`, whatever the input, no unknown field is ever reported. -/
theorem c39_never_reported (env : Env) (t : Ty) (cfg : Config) (hc : cfg.ignoreUnknownFields = true) (st st' : PSt Stats) (e : DErr)
    (h : (deserialize env t cfg).run st = .err (.client e) st') (tag : Byte) (pos : Nat) : e.kind ≠ .unknownField tag pos :=
  (deserialize_errs env t cfg st e st' h).unk hc tag pos

/-- An error for which this says something: the second field is missing, while there is an unknown one. -/
example : (match (deserialize exEnv (.tuple [.prim .bool, .prim .bool]) .default).run (Stream.fromSlice [65, 1, 73, 5, 0], .zero) with
    | .err (.client e) _ => decide (e.kind = .requiredFieldMissing) | _ => false) = true := by decide +kernel

/-- **C78** (c) Whatever the input: a value read with the default configuration has at most 32 levels, 256 elements and 65536 copied bytes, and the path of an error at most 32
components; an unknown field is not an error. -/
theorem c78_default_any_input (env : Env) (hwf : env.wf) (t : Ty) (ht : t.wf false = true) (s : Stream) (hi : Inv s) :
    (∀ v st, (deserialize env t .default).run (s, .zero) = .ok v st →
      ∃ k, HasType env t v k ∧ k.depth ≤ 32 ∧ k.used.collected ≤ 256 ∧ k.used.blob ≤ 65536) ∧
    (∀ e st, (deserialize env t .default).run (s, .zero) = .err (.client e) st → e.path.length ≤ 32 ∧ ∀ tag pos, e.kind ≠ .unknownField tag pos) := by
  refine ⟨fun v st h => ?_, fun e st h => ⟨((c37_bounded env t .default s hi).1 e st h).1, fun tag pos hk => ?_⟩⟩
  · obtain ⟨s', u⟩ := st
    obtain ⟨a, k, hk, hc⟩ := (c35_bounded env hwf t ht .default s hi).1 _ _ _ h
    obtain ⟨b, k', hk', hb⟩ := (c36_bounded env hwf t ht .default s hi).1 _ _ _ h
    obtain ⟨k'', hk'', hd⟩ := (c37_bounded env t .default s hi).2 hwf ht _ _ h
    rw [Needs.unique hk' hk] at hb
    rw [Needs.unique hk'' hk] at hd
    exact ⟨k, hk, hd, Nat.le_trans hc a, Nat.le_trans hb b⟩
  · exact c39_never_reported env t .default rfl _ _ e h tag pos hk

/-- The example value: one level, 3 elements, 1 byte. It is read back with limits 1, 3, 1, and not with 1, 2, 1. -/
example : ∃ k, HasType exEnv (.named 0) exValue k ∧ FitsIn k 32 256 65536 ∧ FitsIn k 1 3 1 ∧ ¬ FitsIn k 1 2 1 ∧ ¬ FitsIn k 0 3 1 := by
  obtain ⟨k, h1, h2, h3, h4⟩ := exNeed
  refine ⟨k, h1, ?_⟩
  unfold FitsIn
  omega

theorem exCalls : ToStream exEnv (.named 0) exValue ((((sops exEnv 8).body (.named 0) exValue).getD []) ++ [.commit]) :=
  by
  refine ⟨_, ⟨8, ?_⟩, rfl⟩
  have h : ((sops exEnv 8).body (.named 0) exValue).isSome = true := by decide +kernel
  revert h
  cases (sops exEnv 8).body (.named 0) exValue with
  | none => intro h; cases h
  | some l => intro _; rfl

/-- With a limit of 2 elements the value, which has 3, is refused for that reason. -/
example : ∃ cs, ToStream exEnv (.named 0) exValue cs ∧ ∃ e st, (deserialize exEnv (.named 0) ⟨1, true, 1, 2⟩).run (Stream.fromSlice (canonToks (callToks cs)), .zero) = .err (.client e) st ∧
    e.kind = .maxCollectExceeded := by
  obtain ⟨k, h1, h2, h3, h4⟩ := exNeed
  obtain ⟨cs, hcs, hun, h⟩ := exact_lenient exEnv exEnv_ok exEnv_wf (.named 0) rfl exValue k h1
  refine ⟨cs, hcs, ?_⟩
  have hl : (canonToks (callToks cs)).length < U64MAX := by rw [← hun _ exCalls]; decide +kernel
  have hov := over_fromSlice (canonToks (callToks cs)) (by omega)
  obtain ⟨e, st, he, hk⟩ := (h ⟨1, true, 1, 2⟩ (fun _ => rfl) (Stream.fromSlice (canonToks (callToks cs))) [] (by simpa using hov)
    (by simpa [Stream.fromSlice, Stream.newSeek, Stream.new] using hl)).2 (by unfold FitsIn; simp only; omega)
  refine ⟨e, st, he, ?_⟩
  rcases hk with hk | hk | hk
  · have := hk.2; simp only at this; omega
  · exact hk.1
  · have := hk.2; simp only at this; omega

end Fourleaf.Props
