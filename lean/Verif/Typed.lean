import Verif.Pulled
import Verif.HasType
import Verif.ConvLemmas
import Verif.DeErr

/-! # What deserialisation of arbitrary input can return

For arbitrary streams and input (malformed, truncated, hostile, with failing readers): every returned value is of the type asked for, what it takes is covered by
the statistics, the statistics stay within the limits, and no subtraction underflows. -/

namespace Fourleaf
open Spec

/-- Componentwise. -/
def Stats.le (a b : Stats) : Prop := a.collected ≤ b.collected ∧ a.blob ≤ b.blob

theorem Stats.le.refl (a : Stats) : a.le a := ⟨Nat.le_refl _, Nat.le_refl _⟩
theorem Stats.le.trans {a b c : Stats} (h : a.le b) (h' : b.le c) : a.le c := ⟨Nat.le_trans h.1 h'.1, Nat.le_trans h.2 h'.2⟩

/-- Outcome of a program started with `u` used up: on success `Q`, and in any case the limits are respected and no `panic`. -/
structure Post {α : Type} (cfg : Config) (u : Stats) (r : Res (Stop DErr) (PSt Stats) α) (Q : α → Stream → Stats → Prop) : Prop where
  ok : ∀ a s' u', r = .ok a (s', u') → u.le u' ∧ u'.fits cfg ∧ Q a s' u'
  err : ∀ e s' u', r = .err (.client e) (s', u') → u'.fits cfg ∧ e.kind ≠ .panic

namespace Post
variable {α β : Type} {cfg : Config} {s : Stream} {u : Stats} {Q : α → Stream → Stats → Prop} {R : β → Stream → Stats → Prop} {c : Ctx}

theorem ret {a : α} (hu : u.fits cfg) (h : Q a s u) : Post cfg u ((.ret a : P α).run (s, u)) Q :=
  ⟨fun a s' u' h' => by simp only [Prog.run] at h'; cases h'; exact ⟨.refl _, hu, h⟩, fun e s' u' h' => by simp [Prog.run] at h'⟩

theorem fail {k : Kind} (hu : u.fits cfg) (hk : k ≠ .panic) : Post cfg u ((c.fail k : P α).run (s, u)) Q :=
  ⟨fun a s' u' h' => by simp [Prog.run, Ctx.fail] at h', fun e s' u' h' => by simp only [Prog.run, Ctx.fail] at h'; cases h'; exact ⟨hu, hk⟩⟩

theorem bind {p : P α} {f : α → P β} (hi : Inv s) (h : Post cfg u (p.run (s, u)) Q)
    (hf : ∀ a s' u', Inv s' → u'.fits cfg → u.le u' → Q a s' u' → Post cfg u' ((f a).run (s', u')) R) : Post cfg u ((Prog.bind p f).run (s, u)) R := by
  have hs := Prog.run_safe p (s, u) hi
  simp only [Prog.run]
  cases hp : p.run (s, u) with
  | err e st =>
    refine ⟨fun a s' u' h' => by simp at h', fun e' s' u' h' => ?_⟩
    simp only at h'
    cases h'
    exact h.err _ _ _ hp
  | ok a st =>
    obtain ⟨s', u'⟩ := st
    rw [hp] at hs
    obtain ⟨h1, h2, h3⟩ := h.ok _ _ _ hp
    have := hf a s' u' hs.step.inv h2 h1 h3
    exact ⟨fun b s2 u2 h' => by have h4 := this.ok b s2 u2 h'; exact ⟨h1.trans h4.1, h4.2⟩, this.err⟩

theorem mono {r : Res (Stop DErr) (PSt Stats) α} {Q' : α → Stream → Stats → Prop} (h : Post cfg u r Q) (hq : ∀ a s' u', u.le u' → u'.fits cfg → Q a s' u' → Q' a s' u') :
    Post cfg u r Q' :=
  ⟨fun a s' u' h' => by obtain ⟨h1, h2, h3⟩ := h.ok a s' u' h'; exact ⟨h1, h2, hq _ _ _ h1 h2 h3⟩, h.err⟩

theorem call {o : Op α} (hu : u.fits cfg) (h : ∀ a s', o.exec s = .ok a s' → Q a s' u) : Post cfg u ((c.call o).run (s, u)) Q := by
  simp only [Ctx.call, Prog.run]
  cases ho : o.exec s with
  | ok a s' => exact ⟨fun a' s2 u2 h' => by simp only at h'; cases h'; exact ⟨.refl _, hu, h _ _ ho⟩, fun e s2 u2 h' => by simp at h'⟩
  | err e s' =>
    simp only
    split
    · exact ⟨fun a' s2 u2 h' => by simp at h', fun e s2 u2 h' => by simp at h'⟩
    · exact ⟨fun a' s2 u2 h' => by simp at h', fun e s2 u2 h' => by cases h'; exact ⟨hu, by simp⟩⟩

theorem lift {x : Except Err α} (hu : u.fits cfg) (h : ∀ a, x = .ok a → Q a s u) : Post cfg u ((c.lift x).run (s, u)) Q := by
  cases x with
  | error e => exact fail hu (by simp)
  | ok a => exact ret hu (h a rfl)

theorem pos (hu : u.fits cfg) : Post cfg u ((c.call .pos).run (s, u)) (fun _ s' u' => s' = s ∧ u' = u) :=
  call hu fun a s' h => by simp only [Op.exec] at h; cases h; exact ⟨rfl, rfl⟩

end Post

/-- A context that is not too deep. -/
structure CtxOk (cfg : Config) (c : Ctx) : Prop where
  eq : c.cfg = cfg
  le : c.depth ≤ cfg.recursionLimit

theorem Post.push {cfg : Config} {s : Stream} {u : Stats} {c : Ctx} {name : String} {p : Nat} (hc : CtxOk cfg c) (hu : u.fits cfg) :
    Post cfg u ((c.push name p).run (s, u)) (fun sub s' u' => s' = s ∧ u' = u ∧ CtxOk cfg sub ∧ sub.depth = c.depth + 1) := by
  unfold Ctx.push
  split
  · exact .fail hu (by simp)
  · rename_i h
    rw [hc.eq] at h
    exact .ret hu ⟨rfl, rfl, ⟨hc.eq, by simp; omega⟩, rfl⟩

theorem Post.collect {cfg : Config} {s : Stream} {u : Stats} {c : Ctx} (hc : CtxOk cfg c) (hu : u.fits cfg) :
    Post cfg u ((c.collect 1).run (s, u)) (fun _ s' u' => s' = s ∧ u'.collected = u.collected + 1 ∧ u'.blob = u.blob) := by
  simp only [Ctx.collect, Prog.run]
  rw [hc.eq]
  unfold Stats.fits at hu
  split
  · omega
  · split
    · exact .fail hu (by simp)
    · simp only [Prog.run]
      refine ⟨fun a s' u' h' => ?_, fun e s' u' h' => by simp at h'⟩
      cases h'
      exact ⟨⟨by simp, by simp⟩, ⟨by simp; omega, hu.2⟩, rfl, rfl, rfl⟩

theorem Post.blob {cfg : Config} {s : Stream} {u : Stats} {c : Ctx} {n : Nat} (hc : CtxOk cfg c) (hu : u.fits cfg) :
    Post cfg u ((c.blob n).run (s, u)) (fun _ s' u' => s' = s ∧ u'.collected = u.collected ∧ u'.blob = u.blob + n) := by
  simp only [Ctx.blob, Prog.run]
  rw [hc.eq]
  unfold Stats.fits at hu
  split
  · omega
  · split
    · exact .fail hu (by simp)
    · simp only [Prog.run]
      refine ⟨fun a s' u' h' => ?_, fun e s' u' h' => by simp at h'⟩
      cases h'
      exact ⟨⟨by simp, by simp⟩, ⟨hu.1, by simp; omega⟩, rfl, rfl, rfl⟩

theorem Post.skip {cfg : Config} {s : Stream} {u : Stats} {c : Ctx} {f : Field} (hu : u.fits cfg) :
    Post cfg u ((c.skip f).run (s, u)) (fun _ _ u' => u' = u) := by
  unfold Ctx.skip
  split
  · exact .call hu fun _ _ _ => rfl
  · exact .call hu fun _ _ _ => rfl
  · exact .ret hu rfl
  · exact .ret hu rfl

theorem toBlob_ok {v : Value} {n : Nat} (h : v.toBlob = .ok n) : v = .blob n := by
  cases v <;> simp [Value.toBlob] at h
  rw [h]

theorem Post.ownedBlob {cfg : Config} {s : Stream} {u : Stats} {c : Ctx} {f : Field} (hc : CtxOk cfg c) (hi : Inv s) (hu : u.fits cfg) (hf : FieldAt s f) :
    Post cfg u ((ownedBlob c f).run (s, u)) (fun d _ u' => d.length < 2 ^ 64 ∧ u'.collected = u.collected ∧ u.blob + d.length ≤ u'.blob) := by
  unfold Fourleaf.ownedBlob
  refine .bind (Q := fun n s' u' => s' = s ∧ u' = u ∧ f.value = .blob n) hi (.lift hu fun n hn => ⟨rfl, rfl, toBlob_ok hn⟩) ?_
  rintro n s' u' - hu' - ⟨rfl, rfl, hn⟩
  refine .bind hi (Post.blob hc hu') ?_
  rintro - s2 u2 - hu2 - ⟨rfl, h1, h2⟩
  refine .call hu2 fun d s3 h => ?_
  have := readFully_len hi h
  have := hf.blob n hn
  omega

theorem Post.extSlice {cfg : Config} {s : Stream} {u : Stats} {c : Ctx} {f : Field} (hi : Inv s) (hu : u.fits cfg) (hf : FieldAt s f) :
    Post cfg u ((extSlice c f).run (s, u)) (fun d _ _ => d.length < 2 ^ 64) := by
  unfold Fourleaf.extSlice
  refine .bind (Q := fun n s' u' => s' = s ∧ u' = u ∧ f.value = .blob n) hi (.lift hu fun n hn => ⟨rfl, rfl, toBlob_ok hn⟩) ?_
  rintro n s' u' - hu' - ⟨rfl, rfl, hn⟩
  refine .call hu' fun d s3 h => ?_
  have := slice_len h
  have := hf.blob n hn
  omega

/-- The items of a byte string. -/
def items (d : List Byte) : List V := d.map fun b => .num b.toNat

theorem Post.vecConv {cfg : Config} {s : Stream} {u : Stats} {c : Ctx} {f : Field} (hc : CtxOk cfg c) (hi : Inv s) (hu : u.fits cfg) (hf : FieldAt s f) :
    Post cfg u ((vecConv c f).run (s, u)) (fun vs _ u' => ∃ d : List Byte, vs = items d ∧ d.length < 2 ^ 64 ∧ u'.collected = u.collected ∧ u.blob + d.length ≤ u'.blob) := by
  unfold Fourleaf.vecConv
  refine .bind hi (Post.ownedBlob hc hi hu hf) ?_
  rintro d s' u' - hu' - h
  exact .ret hu' ⟨d, rfl, h⟩

theorem Post.arrConv {cfg : Config} {s : Stream} {u : Stats} {c : Ctx} {n : Nat} {f : Field} (hi : Inv s) (hu : u.fits cfg) (hf : FieldAt s f) :
    Post cfg u ((arrConv n c f).run (s, u)) (fun vs _ _ => ∃ d : List Byte, vs = items d ∧ d.length = n ∧ d.length < 2 ^ 64) := by
  unfold Fourleaf.arrConv
  refine .bind (Q := fun n s' u' => s' = s ∧ u' = u ∧ f.value = .blob n) hi (.lift hu fun n hn => ⟨rfl, rfl, toBlob_ok hn⟩) ?_
  rintro n' s' u' - hu' - ⟨rfl, rfl, hn⟩
  refine .bind (Q := fun _ s2 u2 => s2 = s' ∧ u2 = u') hi (.call hu' fun r s2 h => ?_) ?_
  · simp only [Op.exec, onLiveBlob] at h
    split at h <;> cases h
    exact ⟨rfl, rfl⟩
  rintro r s2 u2 - hu2 - ⟨rfl, rfl⟩
  split
  · exact .fail hu2 (by simp)
  · refine .bind (Q := fun d _ _ => d.length < 2 ^ 64 ∧ d.length ≤ n) hi (.call hu2 fun d s3 h => ?_) ?_
    · have := readFully_len hi h
      have := hf.blob n' hn
      omega
    · rintro d s3 u3 - hu3 - ⟨h1, h2⟩
      split
      · exact .fail hu3 (by simp)
      · exact .ret hu3 ⟨d, rfl, by omega, h1⟩

/-- What the value `v` takes is covered by the difference of the statistics. -/
theorem Post.conv {cfg : Config} {s : Stream} {u : Stats} {c : Ctx} {f : Field} (p : Prim) (hc : CtxOk cfg c) (hi : Inv s) (hu : u.fits cfg) (hf : FieldAt s f) :
    Post cfg u ((p.conv c f).run (s, u)) (fun v _ u' => ∃ n, PrimHas p v n ∧ u.blob + n ≤ u'.blob) := by
  have hid : ∀ {α : Type} (x : Except Err α) (Q : α → Prop), (∀ a, x = .ok a → Q a) → Post cfg u ((c.lift x).run (s, u)) (fun a _ u' => Q a ∧ u' = u) :=
    fun x Q h => .lift hu fun a ha => ⟨h a ha, rfl⟩
  cases p with
  | phantom =>
    refine .bind hi (hid _ (fun _ => True) fun _ _ => trivial) ?_
    rintro - s' u' - hu' - ⟨-, rfl⟩
    exact .ret hu' ⟨0, .phantom, Nat.le_refl _⟩
  | bool =>
    refine .bind hi (hid _ (fun _ => True) fun _ _ => trivial) ?_
    rintro b s' u' - hu' - ⟨-, rfl⟩
    exact .ret hu' ⟨0, .bool, Nat.le_refl _⟩
  | int k =>
    refine .bind hi (hid _ (fun i => k.min ≤ i ∧ i ≤ k.max) fun i h => ?_) ?_
    · cases hv : f.value with
      | int n => rw [hv] at h; have := (k.conv_iff n i).1 h; exact ⟨this.1, this.2.1⟩
      | _ => rw [hv] at h; cases k <;> simp [IntTy.conv, Value.toU8, Value.toU16, Value.toU32, Value.toU64, Value.toI8, Value.toI16, Value.toI32, Value.toI64, Value.toUnsigned, Value.toSigned, Value.asInt, Except.map] at h
    · rintro i s' u' - hu' - ⟨h, rfl⟩
      exact .ret hu' ⟨0, .int h.1 h.2, Nat.le_refl _⟩
  | char =>
    refine .bind hi (hid _ (fun _ => True) fun _ _ => trivial) ?_
    rintro n s' u' - hu' - ⟨-, rfl⟩
    split
    · exact .ret hu' ⟨0, .char, Nat.le_refl _⟩
    · exact .fail hu' (by simp)
  | string =>
    refine .bind hi (Post.ownedBlob hc hi hu hf) ?_
    rintro d s' u' - hu' - ⟨h1, h2, h3⟩
    split
    · rename_i st hs
      have hl : st.utf8ByteSize = d.length := by rw [← utf8_length, utf8_of_fromUtf8 hs]
      exact .ret hu' ⟨_, .string (by omega), by omega⟩
    · exact .fail hu' (by simp)
  | strRef =>
    refine .bind hi (Post.extSlice hi hu hf) ?_
    rintro d s' u' - hu' hle h1
    split
    · rename_i st hs
      have hl : st.utf8ByteSize = d.length := by rw [← utf8_length, utf8_of_fromUtf8 hs]
      exact .ret hu' ⟨_, .strRef (by omega), hle.2⟩
    · exact .fail hu' (by simp)
  | bytesRef =>
    refine .bind hi (Post.extSlice hi hu hf) ?_
    rintro d s' u' - hu' hle h1
    exact .ret hu' ⟨_, .bytesRef h1, hle.2⟩

end Fourleaf
