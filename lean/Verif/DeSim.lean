import Verif.Tree
import Verif.AbsLemmas

/-! # The deserialiser on streams refines the one on trees -/

namespace Fourleaf
open Spec

/-- Between elements: nested `D` deep, with the elements `a` to come. -/
structure AtBody (t : TS) (D : Nat) (a : List HTok) : Prop where
  eof : t.eof = false
  depth : max t.depth 1 = D
  toks : t.toks = a

/-- After the end of a struct that was at depth `D`. -/
structure Done (t : TS) (D : Nat) (rest : List HTok) : Prop where
  eof : t.eof = false
  depth : t.depth = D - 1
  cur : t.cur = none
  toks : t.toks = rest

/-- After the header of a field at depth `D` with the given value. -/
structure Mid (t : TS) (D : Nat) (v : Val) (rest : List HTok) : Prop where
  eof : t.eof = false
  pos : 1 ≤ D
  here : match v with
    | .int _ => t.depth = D ∧ t.toks = rest
    | .blob d => t.depth = D ∧ t.toks = rest ∧ t.cur = some d
    | .struct l | .enum _ l => t.depth = D + 1 ∧ ∃ a, BodyOf l (a.map (·.2)) ∧ t.toks = a ++ rest

/-- The descriptor of the field at hand. -/
structure Hand (f : Field) (D : Nat) (tag : Byte) (v : Val) : Prop where
  tag : f.tag = tag
  depth : f.depth = D
  value : f.value = v.head

theorem nextField_pad_cons {t : TS} {h : Nat} {ts : List HTok} (he : t.eof = false) (ht : t.toks = (h, .padding) :: ts) :
    TS.nextField t = TS.nextField { t with pos := t.pos + (t.cur.getD []).length + h, cur := none, toks := ts } := by
  simp [TS.nextField, TS.flush, TS.unpad, he, ht, TS.dropPads]

theorem nextField_cons {t : TS} {h : Nat} {k : Tok} {ts : List HTok} (he : t.eof = false) (ht : t.toks = (h, k) :: ts)
    (hk : k ≠ .padding) (hk' : ∀ m, k ≠ .exception m) : ∃ t', TS.nextField t =
      .ok (match elemOf (t.pos + (t.cur.getD []).length) t.depth k with | .field f => some f | _ => none) t' ∧
      t'.depth = k.depthAfter t.depth ∧ t'.eof = decide (k = .endDoc) ∧ t'.cur = contentOf k ∧ t'.toks = ts := by
  refine ⟨{ t with pos := t.pos + (t.cur.getD []).length + h, depth := k.depthAfter t.depth, eof := decide (k = .endDoc), cur := contentOf k, toks := ts }, ?_, rfl, rfl, rfl, rfl⟩
  cases k <;> simp_all [TS.nextField, TS.flush, TS.unpad, TS.dropPads, TS.readElement, elemOf]

/-- What `next_field` gives inside a struct. -/
def FieldPulled (t : TS) (D : Nat) (n : Nat) (rest : List HTok) : Fields → Prop
  | [] => ∃ t', TS.nextField t = .ok none t' ∧ Done t' D rest
  | (tag, v) :: fs => ∃ t' f b, TS.nextField t = .ok (some f) t' ∧ Hand f D tag v ∧ Mid t' D v (b ++ rest) ∧
      BodyOf fs (b.map (·.2)) ∧ b.length < n

theorem FieldPulled.mono {t : TS} {D n n' : Nat} {rest : List HTok} {l : Fields} (h : FieldPulled t D n rest l) (hn : n ≤ n') : FieldPulled t D n' rest l := by
  cases l with
  | nil => exact h
  | cons x fs =>
    obtain ⟨t', f, b, h1, h2, h3, h4, h5⟩ := h
    exact ⟨t', f, b, h1, h2, h3, h4, by omega⟩

theorem map_eq_cons' {a : List HTok} {x : Tok} {l : List Tok} (h : a.map (·.2) = x :: l) : ∃ k b, a = (k, x) :: b ∧ b.map (·.2) = l := by
  cases a with
  | nil => cases h
  | cons y b => rw [List.map_cons] at h; injection h with h1 h2; exact ⟨y.1, b, by rw [← h1], h2⟩

theorem pulled {l : Fields} {ts : List Tok} (hb : BodyOf l ts) : ∀ (a : List HTok) (t : TS) (D : Nat) (rest : List HTok),
    a.map (·.2) = ts → AtBody t D (a ++ rest) → FieldPulled t D a.length rest l := by
  induction hb with
  | nil =>
    intro a t D rest ha ht
    obtain ⟨k, b, rfl, hb⟩ := map_eq_cons' ha
    obtain rfl : b = [] := by simpa using hb
    obtain ⟨t', h1, h2, h3, h4, h5⟩ := nextField_cons ht.eof ht.toks (by simp) (by simp)
    refine ⟨t', h1, by rw [h3]; rfl, ?_, h4, h5⟩
    rw [h2, ← ht.depth]; simp only [Tok.depthAfter]; omega
  | pad _ ih =>
    intro a t D rest ha ht
    obtain ⟨k, b, rfl, hb⟩ := map_eq_cons' ha
    have := ih b { t with pos := t.pos + (t.cur.getD []).length + k, cur := none, toks := b ++ rest } D rest hb ⟨ht.eof, ht.depth, rfl⟩
    have e := nextField_pad_cons ht.eof ht.toks
    refine FieldPulled.mono (n := b.length) ?_ (by simp)
    revert this
    rename_i fs _ _
    cases fs <;> simp only [FieldPulled, e, List.append_eq] <;> exact id
  | int hb' ih | blob hb' ih =>
    intro a t D rest ha ht
    obtain ⟨k, b, rfl, hb⟩ := map_eq_cons' ha
    obtain ⟨t', h1, h2, h3, h4, h5⟩ := nextField_cons ht.eof ht.toks (by simp) (by simp)
    have hD := ht.depth
    refine ⟨t', _, b, h1, ⟨rfl, hD, rfl⟩, ⟨by rw [h3]; rfl, by omega, ?_⟩, by rw [hb]; exact hb', by simp⟩
    simp only [Tok.depthAfter] at h2
    simp only
    first
      | exact ⟨by omega, h5⟩
      | exact ⟨by omega, h5, h4⟩
  | struct ha' hb' iha ihb | enum ha' hb' iha ihb =>
    intro a t D rest ha ht
    obtain ⟨k, b, rfl, hb⟩ := map_eq_cons' ha
    obtain ⟨t', h1, h2, h3, h4, h5⟩ := nextField_cons ht.eof ht.toks (by simp) (by simp)
    have hD := ht.depth
    obtain ⟨b1, b2, rfl, e1, e2⟩ := List.map_eq_append_iff.1 hb
    refine ⟨t', _, b2, h1, ⟨rfl, hD, rfl⟩, ⟨by rw [h3]; rfl, by omega, ?_⟩, by rw [e2]; exact hb', by simp; omega⟩
    simp only [Tok.depthAfter] at h2
    exact ⟨by omega, b1, by rw [e1]; exact ha', by rw [h5, List.append_eq, List.append_assoc]⟩

theorem nextElement_cons {t : TS} {h : Nat} {k : Tok} {ts : List HTok} (he : t.eof = false) (ht : t.toks = (h, k) :: ts) :
    ∃ e t', TS.nextElement t = .ok e t' ∧
      t'.depth = k.depthAfter t.depth ∧ t'.eof = decide (k = .endDoc) ∧ t'.cur = contentOf k ∧ t'.toks = ts := by
  refine ⟨elemOf (t.pos + (t.cur.getD []).length) t.depth k, { t with pos := t.pos + (t.cur.getD []).length + h, depth := k.depthAfter t.depth, eof := decide (k = .endDoc), cur := contentOf k, toks := ts }, ?_, rfl, rfl, rfl, rfl⟩
  simp [TS.nextElement, TS.flush, he, ht, TS.readElement]

theorem skip_body {l : Fields} {ts : List Tok} (hb : BodyOf l ts) : ∀ (a : List HTok) (t : TS) (D d : Nat) (rest : List HTok),
    a.map (·.2) = ts → t.eof = false → t.depth = d + 1 → D ≤ d → t.toks = a ++ rest →
    ∃ t', Done t' (d + 1) rest ∧ ∀ fuel, TS.skipUpLoop D (a.length + fuel) t = TS.skipUpLoop D fuel t' := by
  have step : ∀ (t t' : TS) (e : Element) (D fuel : Nat), TS.nextElement t = .ok e t' → t.depth > D →
      TS.skipUpLoop D (fuel + 1) t = TS.skipUpLoop D fuel t' := by
    intro t t' e D fuel h h'
    rw [TS.skipUpLoop, if_pos h']; rw [M.bind_ok h]
  induction hb with
  | nil =>
    intro a t D d rest ha he hd hD ht
    obtain ⟨k, b, rfl, hb⟩ := map_eq_cons' ha
    obtain rfl : b = [] := by simpa using hb
    obtain ⟨e, t', h1, h2, h3, h4, h5⟩ := nextElement_cons he ht
    refine ⟨t', ⟨by rw [h3]; rfl, by rw [h2, hd]; rfl, h4, h5⟩, fun fuel => ?_⟩
    rw [List.length_singleton, Nat.add_comm]
    exact step _ _ _ _ _ h1 (by omega)
  | pad _ ih | int _ ih | blob _ ih =>
    intro a t D d rest ha he hd hD ht
    obtain ⟨k, b, rfl, hb⟩ := map_eq_cons' ha
    obtain ⟨e, t', h1, h2, h3, h4, h5⟩ := nextElement_cons he ht
    obtain ⟨t2, h6, h7⟩ := ih b t' D d rest hb (by rw [h3]; rfl) (by rw [h2, hd]; simp [Tok.depthAfter]) hD h5
    refine ⟨t2, h6, fun fuel => ?_⟩
    rw [← h7, List.length_cons, show b.length + 1 + fuel = b.length + fuel + 1 by omega]
    exact step _ _ _ _ _ h1 (by omega)
  | struct ha' hb' iha ihb | enum ha' hb' iha ihb =>
    intro a t D d rest ha he hd hD ht
    obtain ⟨k, b, rfl, hb⟩ := map_eq_cons' ha
    obtain ⟨e, t', h1, h2, h3, h4, h5⟩ := nextElement_cons he ht
    obtain ⟨b1, b2, rfl, e1, e2⟩ := List.map_eq_append_iff.1 hb
    obtain ⟨t2, h6, h7⟩ := iha b1 t' D (d + 1) (b2 ++ rest) e1 (by rw [h3]; rfl) (by rw [h2, hd]; simp [Tok.depthAfter]) (by omega)
      (by rw [h5, List.append_eq, List.append_assoc])
    obtain ⟨t3, h8, h9⟩ := ihb b2 t2 D d rest e2 h6.eof (by rw [h6.depth]; rfl) hD h6.toks
    refine ⟨t3, h8, fun fuel => ?_⟩
    rw [← h9, ← h7, List.length_cons, List.length_append,
      show b1.length + b2.length + 1 + fuel = b1.length + (b2.length + fuel) + 1 by omega]
    exact step _ _ _ _ _ h1 (by omega)

/-! ## Simulation -/

/-- The error says which limit `total` is over. -/
def Kind.exceeds (cfg : Config) (total : Stats) (k : Kind) : Prop :=
  (k = .maxCollectExceeded ∧ cfg.maxCollect < total.collected) ∨ (k = .maxBlobExceeded ∧ cfg.maxBlob < total.blob)

theorem Kind.exceeds.more {cfg : Config} {a b : Stats} {k : Kind} (h : k.exceeds cfg a) : k.exceeds cfg (a + b) := by
  unfold Kind.exceeds at *; rw [Stats.add_collected, Stats.add_blob]
  exact h.imp (fun h => ⟨h.1, by omega⟩) fun h => ⟨h.1, by omega⟩

theorem Kind.exceeds.not_fits {cfg : Config} {a : Stats} {k : Kind} (h : k.exceeds cfg a) : ¬ a.fits cfg := by
  unfold Kind.exceeds at h; unfold Stats.fits
  rcases h with h | h <;> omega

/-- The same kind of error, up to the position. -/
def Kind.unpos : Kind → Kind
  | .unknownField tag _ => .unknownField tag 0
  | k => k

/-- The outcome `r`, starting with `u` used up so far, is what `m` says: the value if the limits allow it, and otherwise an
error. -/
structure SimR {α : Type} (cfg : Config) (u : Stats) (r : Res (Stop DErr) (TS × Stats) α) (m : PM α) (Q : TS → Prop) : Prop where
  ok : ∀ a c, m = .ret a c → (u + c).fits cfg → ∃ t', r = .ok a (t', u + c) ∧ Q t'
  over : ∀ a c, m = .ret a c → ¬ (u + c).fits cfg → ∃ e st, r = .err (.client e) st ∧ e.kind.exceeds cfg (u + c)
  err : ∀ k c, m = .fail k c → ∃ e st, r = .err (.client e) st ∧ (e.kind.unpos = k ∨ e.kind.exceeds cfg (u + c))

/-- Program `p` at `t` does what `m` says. -/
abbrev Sim {α : Type} (cfg : Config) (t : TS) (u : Stats) (p : P α) (m : PM α) (Q : TS → Prop) : Prop :=
  SimR cfg u (p.abs (t, u)) m Q

theorem Stats.fits_left {cfg : Config} {a b : Stats} (h : (a + b).fits cfg) : a.fits cfg := by
  unfold Stats.fits at *; rw [Stats.add_collected, Stats.add_blob] at h; omega

namespace Sim
variable {α β : Type} {cfg : Config} {t : TS} {u : Stats}

theorem ret {a : α} {Q : TS → Prop} (hu : u.fits cfg) (h : Q t) : Sim cfg t u (.ret a) (.ret a) Q := by
  refine ⟨fun a' c h' _ => ?_, fun a' c h' hf => ?_, fun k _ h' => absurd h' PM.ret_ne_fail⟩
  · obtain ⟨rfl, rfl⟩ := PM.ret_inj h'
    exact ⟨t, rfl, h⟩
  · obtain ⟨rfl, rfl⟩ := PM.ret_inj h'
    exact absurd hu hf

theorem fail {c : Ctx} {k k' : Kind} {Q : TS → Prop} (h : k.unpos = k') : Sim cfg t u (c.fail k : P α) (.fail k') Q := by
  refine ⟨fun a' c h' _ => absurd h' PM.fail_ne_ret, fun a' c h' => absurd h' PM.fail_ne_ret, fun k2 c2 h' => ?_⟩
  obtain ⟨rfl, rfl⟩ := PM.fail_inj h'
  exact ⟨_, _, rfl, .inl h⟩

theorem seq {r : Res (Stop DErr) (TS × Stats) α} {k : α → M (Stop DErr) (TS × Stats) β} {m : PM α} {g : α → PM β} {Q R : TS → Prop}
    (h : SimR cfg u r m Q) (hf : ∀ a t' (u' : Stats), Q t' → u'.fits cfg → SimR cfg u' (k a (t', u')) (g a) R) :
    SimR cfg u (match r with | .ok a st => k a st | .err e st => .err e st) (PM.bind m g) R := by
  rcases m.cases with ⟨a, c, rfl⟩ | ⟨k, c0, rfl⟩
  · by_cases hfit : (u + c).fits cfg
    · obtain ⟨t', h1, h2⟩ := h.ok a c rfl hfit
      have hS := hf a t' (u + c) h2 hfit
      rw [h1]
      rcases (g a).cases with ⟨b, c', hg⟩ | ⟨k, c', hg⟩
      · rw [PM.bind_retc hg]
        refine ⟨fun b' d h' hf' => ?_, fun b' d h' hf' => ?_, fun k _ h' => absurd h' PM.ret_ne_fail⟩
        · obtain ⟨rfl, rfl⟩ := PM.ret_inj h'
          rw [← Stats.add_assoc] at hf' ⊢
          exact hS.ok b c' hg hf'
        · obtain ⟨rfl, rfl⟩ := PM.ret_inj h'
          rw [← Stats.add_assoc] at hf' ⊢
          exact hS.over b c' hg hf'
      · rw [PM.bind_retf hg]
        refine ⟨fun a' c h' _ => absurd h' PM.fail_ne_ret, fun a' c h' => absurd h' PM.fail_ne_ret, fun k2 c2 h' => ?_⟩
        obtain ⟨rfl, rfl⟩ := PM.fail_inj h'
        rw [← Stats.add_assoc]
        exact hS.err k c' hg
    · obtain ⟨e, st, h1, h2⟩ := h.over a c rfl hfit
      rw [h1]
      refine ⟨fun b d h' hf' => ?_, fun b d h' hf' => ⟨e, st, rfl, ?_⟩, fun k d h' => ⟨e, st, rfl, .inr ?_⟩⟩
      · obtain ⟨a', c1, c2, h3, h4, h5⟩ := PM.bind_eq_ret h'
        obtain ⟨rfl, rfl⟩ := PM.ret_inj h3
        subst h5
        rw [← Stats.add_assoc] at hf'
        exact absurd (Stats.fits_left hf') hfit
      · obtain ⟨a', c1, c2, h3, h4, h5⟩ := PM.bind_eq_ret h'
        obtain ⟨rfl, rfl⟩ := PM.ret_inj h3
        subst h5
        rw [← Stats.add_assoc]
        exact h2.more
      · rcases PM.bind_eq_fail h' with h3 | ⟨a', c1, c2, h3, h4, h5⟩
        · exact absurd h3 PM.ret_ne_fail
        · obtain ⟨rfl, rfl⟩ := PM.ret_inj h3
          subst h5
          rw [← Stats.add_assoc]
          exact h2.more
  · obtain ⟨e, st, h1, h2⟩ := h.err k c0 rfl
    rw [h1]
    refine ⟨fun a' c h' _ => absurd h' PM.fail_ne_ret, fun a' c h' => absurd h' PM.fail_ne_ret, fun k2 c2 h' => ?_⟩
    obtain ⟨rfl, rfl⟩ := PM.fail_inj h'
    exact ⟨e, st, rfl, h2⟩

theorem bind {p : P α} {f : α → P β} {m : PM α} {g : α → PM β} {Q R : TS → Prop} (h : Sim cfg t u p m Q)
    (hf : ∀ a t' (u' : Stats), Q t' → u'.fits cfg → Sim cfg t' u' (f a) (g a) R) : Sim cfg t u (.bind p f) (PM.bind m g) R :=
  by
  have := seq (k := fun a st => (f a).abs st) h hf
  show SimR cfg u ((Prog.bind p f).abs (t, u)) _ _
  simp only [Prog.abs]
  revert this
  cases p.abs (t, u) <;> exact id

theorem weaken {p : P α} {m : PM α} {Q R : TS → Prop} (h : Sim cfg t u p m Q) (hr : ∀ t', Q t' → R t') : Sim cfg t u p m R :=
  ⟨fun a c h1 h2 => by obtain ⟨t', h3, h4⟩ := h.ok a c h1 h2; exact ⟨t', h3, hr t' h4⟩, h.over, h.err⟩

theorem lift {c : Ctx} {x : Except Err α} (hu : u.fits cfg) : Sim cfg t u (c.lift x) (PM.lift x) (· = t) := by
  cases x with
  | ok a => exact ret hu rfl
  | error e => exact fail rfl

theorem congr {p p' : P α} {m : PM α} {Q : TS → Prop} (h : Sim cfg t u p m Q) (e : p'.abs (t, u) = p.abs (t, u)) :
    Sim cfg t u p' m Q := by
  refine ⟨?_, ?_, ?_⟩ <;> rw [e]
  · exact h.ok
  · exact h.over
  · exact h.err

/-- Entering a context. -/
theorem bind_push {c : Ctx} (hc : c.cfg = cfg) (name : String) (pos : Nat) {f : Ctx → P α} {g : Nat → PM α}
    {Q : TS → Prop} (h : ∀ sub : Ctx, sub.cfg = cfg → sub.depth = c.depth + 1 → Sim cfg t u (f sub) (g (c.depth + 1)) Q) :
    Sim cfg t u (.bind (c.push name pos) f) (PM.bind (pPush cfg c.depth) g) Q := by
  unfold Ctx.push pPush
  rw [hc]
  split
  · exact (fail (c := c) (k := .recursionLimitExceeded) (k' := .recursionLimitExceeded) rfl).congr rfl
  · rw [PM.bind_ret]
    exact (h ⟨c.path ++ [(name, pos)], c.depth + 1, cfg⟩ rfl rfl).congr rfl

/-- A successful API call. -/
theorem bind_call {γ : Type} {c : Ctx} {o : Op γ} {a : γ} {t' : TS} {f : γ → P α} {m : PM α} {Q : TS → Prop}
    (ho : TS.exec o t = .ok a t') (h : Sim cfg t' u (f a) m Q) : Sim cfg t u (.bind (c.call o) f) m Q := by
  have e : (Prog.bind (c.call o) f).abs (t, u) = (f a).abs (t', u) := by simp only [Prog.abs, Ctx.call, ho]
  refine ⟨?_, ?_, ?_⟩ <;> rw [e]
  · exact h.ok
  · exact h.over
  · exact h.err

/-- A sequence starting with a computation without a counterpart. -/
theorem bind_left {γ : Type} {p : P γ} {a : γ} {t' : TS} {f : γ → P α} {m : PM α} {Q : TS → Prop}
    (ho : p.abs (t, u) = .ok a (t', u)) (h : Sim cfg t' u (f a) m Q) : Sim cfg t u (.bind p f) m Q := by
  have e : (Prog.bind p f).abs (t, u) = (f a).abs (t', u) := by simp only [Prog.abs, ho]
  refine ⟨?_, ?_, ?_⟩ <;> rw [e]
  · exact h.ok
  · exact h.over
  · exact h.err

theorem collect {c : Ctx} (hc : c.cfg = cfg) (hu : u.fits cfg) : Sim cfg t u (c.collect 1) pCollect (· = t) := by
  have hu1 := hu.1
  have e : (c.collect 1).abs (t, u) = if cfg.maxCollect - u.collected < 1 then .err (.client ⟨.maxCollectExceeded, c.path⟩) (t, u)
      else .ok () (t, u + ⟨1, 0⟩) := by
    simp only [Ctx.collect, Prog.abs]
    rw [hc, if_neg (by omega)]
    split <;> rfl
  refine ⟨fun a d h hf => ?_, fun a d h hf => ?_, fun k _ h => absurd h PM.ret_ne_fail⟩
  · obtain ⟨-, rfl⟩ := PM.ret_inj h
    rw [e, if_neg (by have := hf.1; rw [Stats.add_collected] at this; simp at this; omega)]
    exact ⟨t, rfl, rfl⟩
  · obtain ⟨-, rfl⟩ := PM.ret_inj h
    have hov : cfg.maxCollect < u.collected + 1 := by
      have := hu.2
      simp [Stats.fits, Stats.add_collected, Stats.add_blob] at hf
      omega
    rw [e, if_pos (by omega)]
    exact ⟨_, _, rfl, .inl ⟨rfl, by rw [Stats.add_collected]; exact hov⟩⟩

theorem blob {c : Ctx} (hc : c.cfg = cfg) (hu : u.fits cfg) (n : Nat) : Sim cfg t u (c.blob n) (.ret () ⟨0, n⟩) (· = t) := by
  have hu1 := hu.2
  have e : (c.blob n).abs (t, u) = if cfg.maxBlob - u.blob < n then .err (.client ⟨.maxBlobExceeded, c.path⟩) (t, u)
      else .ok () (t, u + ⟨0, n⟩) := by
    simp only [Ctx.blob, Prog.abs]
    rw [hc, if_neg (by omega)]
    split <;> rfl
  refine ⟨fun a d h hf => ?_, fun a d h hf => ?_, fun k _ h => absurd h PM.ret_ne_fail⟩
  · obtain ⟨-, rfl⟩ := PM.ret_inj h
    rw [e, if_neg (by have := hf.2; rw [Stats.add_blob] at this; simp at this; omega)]
    exact ⟨t, rfl, rfl⟩
  · obtain ⟨-, rfl⟩ := PM.ret_inj h
    have hov : cfg.maxBlob < u.blob + n := by
      have := hu.1
      simp [Stats.fits, Stats.add_collected, Stats.add_blob] at hf
      omega
    rw [e, if_pos (by omega)]
    exact ⟨_, _, rfl, .inr ⟨rfl, by rw [Stats.add_blob]; exact hov⟩⟩

end Sim

theorem Mid.at_ {t : TS} {D : Nat} {v : Val} {rest : List HTok} (h : Mid t D v rest) (hv : (∃ n, v = .int n) ∨ ∃ d, v = .blob d) :
    AtBody t D rest := by
  have hp := h.pos
  have hh := h.here
  rcases hv with ⟨n, rfl⟩ | ⟨d, rfl⟩
  · exact ⟨h.eof, by rw [hh.1]; omega, hh.2⟩
  · exact ⟨h.eof, by rw [hh.1]; omega, hh.2.1⟩

section
variable {cfg : Config} {t : TS} {u : Stats} {c : Ctx} {f : Field} {D : Nat} {tag : Byte} {v : Val} {rest : List HTok}

theorem Val.toBlob_err (hv : ∀ d, v ≠ .blob d) : ∃ e, v.head.toBlob = .error e := by
  cases v with
  | blob d => exact absurd rfl (hv d)
  | _ => exact ⟨_, rfl⟩

theorem Val.bytes_err (hv : ∀ d, v ≠ .blob d) {e : Err} (he : v.head.toBlob = .error e) (cost : Nat → Stats) : v.bytes cost = .fail (.stream e) := by
  cases v with
  | blob d => exact absurd rfl (hv d)
  | _ => simp only [Val.bytes, he]; rfl

/-- A computation that starts with `to_blob`. -/
theorem sim_toBlob {α : Type} {g : Nat → P α} {cost : Nat → Stats} {k : List Byte → PM α} {Q : TS → Prop} (hh : Hand f D tag v)
    (h : ∀ d, v = .blob d → Sim cfg t u (g d.length) (PM.bind (.ret d (cost d.length)) k) Q) :
    Sim cfg t u (.bind (c.lift f.value.toBlob) g) (PM.bind (v.bytes cost) k) Q := by
  rw [hh.value]
  by_cases hv : ∃ d, v = .blob d
  · obtain ⟨d, rfl⟩ := hv
    exact (h d rfl).congr rfl
  · have hv' : ∀ d, v ≠ .blob d := fun d h => hv ⟨d, h⟩
    obtain ⟨e, he⟩ := Val.toBlob_err hv'
    rw [Val.bytes_err hv' he, he, PM.bind_fail]
    exact (Sim.fail (c := c) (k := .stream e) (k' := .stream e) rfl).congr rfl

theorem exec_slice {d : List Byte} (h : t.cur = some d) : TS.exec .slice t = .ok d t := by simp [TS.exec, TS.onBlob, h]
theorem exec_remaining {d : List Byte} (h : t.cur = some d) : TS.exec .remaining t = .ok d.length t := by simp [TS.exec, TS.onBlob, h]
theorem exec_readFully {d : List Byte} {n : Nat} (h : t.cur = some d) (hn : d.length ≤ n) : TS.exec (.readFully n) t =
    .ok d { t with pos := t.pos + d.length, cur := some [] } := by
  simp [TS.exec, TS.onBlob, h, TS.take]; omega

theorem sim_extSlice (hh : Hand f D tag v) (hm : Mid t D v rest) (hu : u.fits cfg) :
    Sim cfg t u (extSlice c f) (v.bytes noCost) (AtBody · D rest) := by
  rw [← PM.bind_ret_right (v.bytes noCost)]
  refine sim_toBlob hh fun d hd => ?_
  subst hd
  have hcur : t.cur = some d := hm.here.2.2
  rw [show (PM.ret d (noCost d.length)) = PM.ret d from rfl, PM.bind_ret]
  have e : (c.call .slice).abs (t, u) = (Prog.ret d : P _).abs (t, u) := by
    simp only [Ctx.call, Prog.abs, exec_slice hcur]
  exact (Sim.ret hu (hm.at_ (.inr ⟨d, rfl⟩))).congr e

theorem sim_ownedBlob (hc : c.cfg = cfg) (hh : Hand f D tag v) (hm : Mid t D v rest) (hu : u.fits cfg) :
    Sim cfg t u (ownedBlob c f) (v.bytes blobCost) (AtBody · D rest) := by
  rw [← PM.bind_ret_right (v.bytes blobCost)]
  refine sim_toBlob hh fun d hd => ?_
  subst hd
  have hcur : t.cur = some d := hm.here.2.2
  have hat := hm.at_ (.inr ⟨d, rfl⟩)
  have hB : Sim cfg t u (c.blob d.length) (.ret () (blobCost d.length)) (· = t) := .blob hc hu d.length
  refine ⟨fun a k h hf => ?_, fun a k h hf => ?_, fun k _ h => ?_⟩
  · rw [PM.bind_retc (f := fun a => PM.ret a) rfl, Stats.add_zero] at h
    obtain ⟨rfl, rfl⟩ := PM.ret_inj h
    obtain ⟨t', h1, rfl⟩ := hB.ok () _ rfl hf
    have hn : d.length ≤ c.cfg.maxBlob := by
      have := hf.2
      rw [Stats.add_blob] at this; simp [blobCost] at this; rw [hc]; omega
    exact ⟨{ t' with pos := t'.pos + d.length, cur := some [] }, by simp only [Prog.abs, h1, Ctx.call, exec_readFully hcur hn], hat.eof, hat.depth, hat.toks⟩
  · rw [PM.bind_retc (f := fun a => PM.ret a) rfl, Stats.add_zero] at h
    obtain ⟨rfl, rfl⟩ := PM.ret_inj h
    obtain ⟨e, st, h1, h2⟩ := hB.over () _ rfl hf
    exact ⟨e, st, by simp only [Prog.abs, h1], h2⟩
  · rw [PM.bind_retc (f := fun a => PM.ret a) rfl] at h
    exact absurd h PM.ret_ne_fail

theorem sim_vecConv (hc : c.cfg = cfg) (hh : Hand f D tag v) (hm : Mid t D v rest) (hu : u.fits cfg) :
    Sim cfg t u (vecConv c f) (readVec v) (AtBody · D rest) :=
  (sim_ownedBlob hc hh hm hu).bind fun _ _ _ h hu => .ret hu h

theorem sim_arrConv (n : Nat) (hh : Hand f D tag v) (hm : Mid t D v rest) (hu : u.fits cfg) :
    Sim cfg t u (arrConv n c f) (readArr n v) (AtBody · D rest) := by
  refine sim_toBlob hh fun d hd => ?_
  subst hd
  have hcur : t.cur = some d := hm.here.2.2
  have hat := hm.at_ (.inr ⟨d, rfl⟩)
  rw [show (PM.ret d (noCost d.length)) = PM.ret d from rfl, PM.bind_ret]
  refine Sim.bind_call (exec_remaining hcur) ?_
  split
  · exact .fail rfl
  · rename_i hn
    simp only [ne_eq, Decidable.not_not] at hn
    refine Sim.bind_call (exec_readFully hcur (by omega)) ?_
    rw [if_neg (by omega)]
    exact .ret hu ⟨hat.eof, hat.depth, hat.toks⟩

theorem sim_lift {α β : Type} {x : Value → Except Err α} {g : α → P β} {k : α → PM β} {Q : TS → Prop} (hh : Hand f D tag v)
    (h : ∀ a, x v.head = .ok a → Sim cfg t u (g a) (k a) Q) :
    Sim cfg t u (.bind (c.lift (x f.value)) g) (PM.bind (PM.lift (x v.head)) k) Q := by
  rw [hh.value]
  cases hx : x v.head with
  | error e => exact (Sim.fail (c := c) (k := .stream e) (k' := .stream e) rfl).congr rfl
  | ok a =>
    rw [show PM.lift (Except.ok a) = PM.ret a from rfl, PM.bind_ret]
    exact (h a hx).congr rfl

/-- Conversions that succeed on integers only. -/
theorem conv_int {k : IntTy} {i : Int} (h : k.conv v.head = .ok i) : ∃ n, v = .int n := by
  cases v with
  | int n => exact ⟨n, rfl⟩
  | _ => cases k <;> cases h
theorem toU32_int {i : UInt32} (h : v.head.toU32 = .ok i) : ∃ n, v = .int n := by
  cases v with
  | int n => exact ⟨n, rfl⟩
  | _ => cases h
theorem toBool_int {i : Bool} (h : v.head.toBool = .ok i) : ∃ n, v = .int n := by
  cases v with
  | int n => exact ⟨n, rfl⟩
  | _ => cases h
theorem toNull_int {i : Unit} (h : v.head.toNull = .ok i) : ∃ n, v = .int n := by
  cases v with
  | int n => exact ⟨n, rfl⟩
  | _ => cases h

theorem sim_prim (p : Prim) (hc : c.cfg = cfg) (hh : Hand f D tag v) (hm : Mid t D v rest) (hu : u.fits cfg) :
    Sim cfg t u (p.conv c f) (p.read v) (AtBody · D rest) := by
  cases p with
  | phantom => exact sim_lift (x := Value.toNull) hh fun a ha => .ret hu (hm.at_ (.inl (toNull_int ha)))
  | bool => exact sim_lift (x := Value.toBool) hh fun a ha => .ret hu (hm.at_ (.inl (toBool_int ha)))
  | int k => exact sim_lift (x := k.conv) hh fun a ha => .ret hu (hm.at_ (.inl (conv_int ha)))
  | char =>
    refine sim_lift (x := Value.toU32) hh fun a ha => ?_
    cases charFromU32 a with
    | some ch => exact .ret hu (hm.at_ (.inl (toU32_int ha)))
    | none => exact .fail rfl
  | string =>
    refine (sim_ownedBlob hc hh hm hu).bind fun d t' u' h hu => ?_
    cases fromUtf8 d with
    | some ch => exact .ret hu h
    | none => exact .fail rfl
  | strRef =>
    refine (sim_extSlice hh hm hu).bind fun d t' u' h hu => ?_
    cases fromUtf8 d with
    | some ch => exact .ret hu h
    | none => exact .fail rfl
  | bytesRef => exact (sim_extSlice hh hm hu).bind fun d t' u' h hu => .ret hu h

end

/-! ## The methods -/

/-- The methods `o` do what `p` says. -/
structure SimOps (cfg : Config) (o : Ops) (p : POps) : Prop where
  body : ∀ (T : Ty) (c : Ctx) (l : Fields) (t : TS) (u : Stats) (D : Nat) (a rest : List HTok), c.cfg = cfg → u.fits cfg →
    BodyOf l (a.map (·.2)) → AtBody t D (a ++ rest) → Sim cfg t u (o.body T c) (p.body T c.depth l) (Done · D rest)
  field : ∀ (T : Ty) (x : Acc) (c : Ctx) (f : Field) (t : TS) (u : Stats) (D : Nat) (tag : Byte) (v : Val) (rest : List HTok), c.cfg = cfg →
    u.fits cfg → Hand f D tag v → Mid t D v rest → Sim cfg t u (o.field T x c f) (p.field T x c.depth tag v) (AtBody · D rest)
  element : ∀ (T : Ty) (c : Ctx) (f : Field) (t : TS) (u : Stats) (D : Nat) (tag : Byte) (v : Val) (rest : List HTok), c.cfg = cfg →
    u.fits cfg → Hand f D tag v → Mid t D v rest → Sim cfg t u (o.element T c f) (p.element T c.depth tag v) (AtBody · D rest)
  finish : ∀ (T : Ty) (x : Acc) (c : Ctx) (t : TS) (u : Stats), c.cfg = cfg → u.fits cfg →
    Sim cfg t u (o.finish T x c) (p.finish T x c.depth) (· = t)

section
variable {cfg : Config} {o : Ops} {p : POps} (H : SimOps cfg o p)
include H

theorem sim_fieldStep {t : TS} {u : Stats} {c : Ctx} {f : Field} {D : Nat} {tag : Byte} {v : Val} {rest : List HTok}
    (fs : List FieldDecl) (unk : Option Bool) (st : LoopSt) (hc : c.cfg = cfg) (hu : u.fits cfg) (hh : Hand f D tag v) (hm : Mid t D v rest) :
    Sim cfg t u (fieldStep o fs unk c st f) (pFieldStep cfg p fs unk c.depth st tag v) (AtBody · D rest) := by
  unfold fieldStep pFieldStep
  rw [hh.tag]
  cases hi : fs.findIdx? (fun x => decide (x.tag = tag)) with
  | some i =>
    cases hx : fs[i]? with
    | none =>
      have := (List.findIdx?_eq_some_iff_getElem.1 hi).1
      rw [List.getElem?_eq_none_iff] at hx; omega
    | some x =>
      simp only [hx]
      refine .bind_push hc _ _ fun sub h1 h2 => ?_
      rw [← h2]
      exact (H.field x.ty _ sub f t u D tag v rest h1 hu hh hm).bind fun a t' u' h hu => .ret hu h
  | none =>
    cases unk with
    | some zc =>
      simp only
      refine .bind_push hc _ _ fun sub h1 h2 => ?_
      rw [← h2]
      exact (H.field _ _ sub f t u D tag v rest h1 hu hh hm).bind fun a t' u' h hu => .ret hu h
    | none =>
      simp only
      unfold Ctx.unknownField
      rw [hc]
      split
      · -- skip
        have hs : ∃ t', (c.skip f).abs (t, u) = .ok () (t', u) ∧ AtBody t' D rest := by
          unfold Ctx.skip
          rw [hh.value]
          have hp := hm.pos
          have hbody : ∀ l, (t.depth = D + 1 ∧ ∃ a, BodyOf l (a.map (·.2)) ∧ t.toks = a ++ rest) →
              ∃ t', (c.call (.skipUp f.depth)).abs (t, u) = .ok () (t', u) ∧ AtBody t' D rest := by
            intro l hl
            obtain ⟨h1, a, h2, h3⟩ := hl
            obtain ⟨t', h4, h5⟩ := skip_body h2 a t D D rest rfl hm.eof h1 (Nat.le_refl _) h3
            refine ⟨t', ?_, h4.eof, by rw [h4.depth]; omega, h4.toks⟩
            have e : TS.skipUpLoop D (t.toks.length + 2) t = .ok () t' := by
              rw [h3, List.length_append, show a.length + rest.length + 2 = a.length + (rest.length + 1 + 1) by omega, h5,
                TS.skipUpLoop, if_neg (by rw [h4.depth]; omega)]
            simp only [Ctx.call, Prog.abs, TS.exec, hh.depth, e]
          have hh' := hm.here
          cases v with
          | int n => exact ⟨t, rfl, hm.at_ (.inl ⟨n, rfl⟩)⟩
          | blob n => exact ⟨t, rfl, hm.at_ (.inr ⟨n, rfl⟩)⟩
          | struct l => exact hbody l hh'
          | enum d l => exact hbody l hh'
        obtain ⟨t', h1, h2⟩ := hs
        refine .bind_left (a := ()) (t' := t) rfl (.bind_left h1 (.ret hu h2))
      · exact (Sim.fail (c := c) (k := .unknownField f.tag f.pos) (by rw [hh.tag]; rfl)).congr rfl

theorem sim_runLoop {c : Ctx} (fs : List FieldDecl) (unk : Option Bool) (hc : c.cfg = cfg) (D : Nat) (rest : List HTok) :
    ∀ (l : Fields) (a : List HTok) (fuel : Nat) (t : TS) (u : Stats) (st : LoopSt), BodyOf l (a.map (·.2)) → AtBody t D (a ++ rest) →
    u.fits cfg → a.length < fuel → SimR cfg u (TS.runLoop true
      (fun (b : LoopSt) e => (match e with
        | .field f => Prog.bind (fieldStep o fs unk c b f) fun st' => .ret (.inl st')
        | _ => .ret (.inl b) : P (LoopSt ⊕ LoopSt)).abs)
      (fun e => (c.fail (.stream e) : P LoopSt).abs) (fun b => (Prog.ret b : P LoopSt).abs) fuel st (t, u))
     (pLoop cfg p fs unk c.depth st l) (Done · D rest) := by
  intro l
  induction l with
  | nil =>
    intro a fuel t u st hb ht hu hf
    obtain ⟨t', h1, h2⟩ : FieldPulled t D a.length rest [] := pulled hb a t D rest rfl ht
    cases fuel with
    | zero => omega
    | succ fuel =>
      simp only [TS.runLoop, TS.pull, if_true, h1]
      exact Sim.ret hu h2
  | cons x l ih =>
    obtain ⟨tag, v⟩ := x
    intro a fuel t u st hb ht hu hf
    obtain ⟨t1, f, b, h1, h2, h3, h4, h5⟩ : FieldPulled t D a.length rest ((tag, v) :: l) := pulled hb a t D rest rfl ht
    cases fuel with
    | zero => omega
    | succ fuel =>
      have hF := sim_fieldStep H fs unk st hc hu h2 h3
      have := Sim.seq hF (fun st' t' u' ht' hu' => ih b fuel t' u' st' h4 ht' hu' (by omega))
      simp only [TS.runLoop, TS.pull, if_true, h1, Prog.abs]
      rw [pLoop]
      revert this
      cases (fieldStep o fs unk c st f).abs (t1, u) <;> exact id

theorem sim_fieldLoop {t : TS} {u : Stats} {c : Ctx} {D : Nat} {a rest : List HTok} {l : Fields}
    (fs : List FieldDecl) (unk : Option Bool) (hc : c.cfg = cfg) (hu : u.fits cfg) (hb : BodyOf l (a.map (·.2))) (ht : AtBody t D (a ++ rest)) :
    Sim cfg t u (fieldLoop o fs unk c) (pLoop cfg p fs unk c.depth .init l) (Done · D rest) :=
  sim_runLoop H fs unk hc D rest l a _ t u .init hb ht hu (by simp only [ht.toks, List.length_append]; omega)

theorem sim_finishAll {c : Ctx} (hc : c.cfg = cfg) (st : LoopSt) : ∀ (fs : List FieldDecl) (i : Nat) (t : TS) (u : Stats), u.fits cfg →
    Sim cfg t u (finishAll o c st i fs) (pFinishAll cfg p c.depth st i fs) (· = t) := by
  intro fs
  induction fs with
  | nil => intro i t u hu; exact .ret hu rfl
  | cons x xs ih =>
    intro i t u hu
    rw [finishAll, pFinishAll]
    refine .bind_call (a := t.pos) (t' := t) rfl ?_
    refine .bind_push hc _ _ fun sub h1 h2 => ?_
    rw [← h2]
    refine (H.finish x.ty _ sub t u h1 hu).bind fun v t' u' ht' hu' => ?_
    subst ht'
    exact (ih (i + 1) t' u' hu').bind fun vs t'' u'' h hu => .ret hu h

theorem sim_structBody {t : TS} {u : Stats} {c : Ctx} {D : Nat} {a rest : List HTok} {l : Fields}
    (fs : List FieldDecl) (hc : c.cfg = cfg) (hu : u.fits cfg) (hb : BodyOf l (a.map (·.2))) (ht : AtBody t D (a ++ rest)) :
    Sim cfg t u (structBody o fs c) (pStruct cfg p fs c.depth l) (Done · D rest) :=
  (sim_fieldLoop H fs none hc hu hb ht).bind fun st t' _ h hu => (sim_finishAll H hc st fs 0 t' _ hu).weaken fun _ e => e ▸ h

theorem sim_defaultBody {t : TS} {u : Stats} {c : Ctx} {D : Nat} {a rest : List HTok} {l : Fields}
    (T : Ty) (hc : c.cfg = cfg) (hu : u.fits cfg) (hb : BodyOf l (a.map (·.2))) (ht : AtBody t D (a ++ rest)) :
    Sim cfg t u (defaultBody o T c) (pDefault cfg p T c.depth l) (Done · D rest) :=
  (sim_structBody H _ hc hu hb ht).bind fun _ _ _ h hu => .ret hu h

omit H in
theorem sim_construct {t : TS} {u : Stats} {c : Ctx} (b : Body) (vs : List V) (hu : u.fits cfg) :
    Sim cfg t u (construct b c vs) (pConstruct b vs) (· = t) := by
  unfold construct pConstruct
  split
  · exact .ret hu rfl
  · exact .fail rfl

theorem sim_macroBody {t : TS} {u : Stats} {c : Ctx} {D : Nat} {a rest : List HTok} {l : Fields}
    (b : Body) (hc : c.cfg = cfg) (hu : u.fits cfg) (hb : BodyOf l (a.map (·.2))) (ht : AtBody t D (a ++ rest)) :
    Sim cfg t u (macroBody o b c) (pMacro cfg p b c.depth l) (Done · D rest) := by
  unfold macroBody pMacro
  cases b.tail with
  | plain =>
    refine (sim_fieldLoop H _ none hc hu hb ht).bind fun st t' u' h hu => ?_
    refine (sim_finishAll H hc st _ 0 t' _ hu).bind fun vs t2 u2 h2 hu2 => ?_
    exact (sim_construct b vs hu2).weaken fun _ e => by rw [e, h2]; exact h
  | delegate name T =>
    refine .bind_call (a := t.pos) (t' := t) rfl ?_
    refine .bind_push hc _ _ fun sub h1 h2 => ?_
    rw [← h2]
    refine (H.body T sub l t u D a rest h1 hu hb ht).bind fun v t' u' h hu => ?_
    refine (sim_finishAll H hc .init _ 0 t' _ hu).bind fun vs t2 u2 h2 hu2 => ?_
    exact (sim_construct b _ hu2).weaken fun _ e => by rw [e, h2]; exact h
  | unknown name zc =>
    refine (sim_fieldLoop H _ (some zc) hc hu hb ht).bind fun st t' u' h hu => ?_
    refine (sim_finishAll H hc st _ 0 t' _ hu).bind fun vs t2 u2 h2 hu2 => ?_
    subst h2
    refine .bind_call (a := t2.pos) (t' := t2) rfl ?_
    refine .bind_push hc _ _ fun sub h1 h2 => ?_
    rw [← h2]
    refine (H.finish _ _ sub t2 u2 h1 hu2).bind fun v t3 u3 h3 hu3 => ?_
    exact (sim_construct b _ hu3).weaken fun _ e => by rw [e, h3]; exact h

theorem sim_bodyStep (env : Env) {t : TS} {u : Stats} {c : Ctx} {D : Nat} {a rest : List HTok} {l : Fields}
    (T : Ty) (hc : c.cfg = cfg) (hu : u.fits cfg) (hb : BodyOf l (a.map (·.2))) (ht : AtBody t D (a ++ rest)) :
    Sim cfg t u (bodyStep env o T c) (pBody env cfg p T c.depth l) (Done · D rest) := by
  cases T with
  | boxed T => exact H.body T c l t u D a rest hc hu hb ht
  | tuple ts => exact (sim_structBody H _ hc hu hb ht).bind fun _ _ _ h hu => .ret hu h
  | unknownFields zc =>
    exact (sim_fieldLoop H _ (some zc) hc hu hb ht).bind fun st t' u' h hu =>
      (H.finish _ _ c t' u' hc hu).weaken fun _ e => e ▸ h
  | named i =>
    simp only [bodyStep, pBody]
    cases env.decl i with
    | struct b => exact (sim_macroBody H b hc hu hb ht).bind fun _ _ _ h hu => .ret hu h
    | enum vs ca => exact sim_defaultBody H _ hc hu hb ht
  | _ => exact sim_defaultBody H _ hc hu hb ht

variable {t : TS} {u : Stats} {c : Ctx} {f : Field} {D : Nat} {tag : Byte} {v : Val} {rest : List HTok}

omit H in
theorem Done.at_ {D : Nat} (h : Done t (D + 1) rest) (hp : 1 ≤ D) : AtBody t D rest :=
  ⟨h.eof, by rw [h.depth]; omega, h.toks⟩

theorem sim_viaStruct (T : Ty) (hc : c.cfg = cfg) (hu : u.fits cfg) (hh : Hand f D tag v) (hm : Mid t D v rest) :
    Sim cfg t u (viaStruct o T c f) (pViaStruct p T c.depth v) (AtBody · D rest) := by
  have hp := hm.pos
  have hm' := hm.here
  unfold viaStruct pViaStruct
  cases v with
  | struct l =>
    rw [hh.value]
    obtain ⟨h1, a, h2, h3⟩ := hm'
    have := H.body T c l t u (D + 1) a rest hc hu h2 ⟨hm.eof, by rw [h1]; omega, h3⟩
    exact (this.weaken fun _ h => h.at_ hp).congr rfl
  | _ => exact sim_lift (x := Value.toStruct) hh fun a ha => nomatch ha

theorem sim_enum (variants : List (UInt64 × Body)) (ca : Option Body) (hc : c.cfg = cfg) (hu : u.fits cfg) (hh : Hand f D tag v) (hm : Mid t D v rest) :
    Sim cfg t u (enumElement o variants ca c f) (pEnum cfg p variants ca c.depth v) (AtBody · D rest) := by
  have hp := hm.pos
  have hm' := hm.here
  unfold enumElement pEnum
  cases v with
  | enum disc l =>
    rw [hh.value]
    obtain ⟨h1, a, h2, h3⟩ := hm'
    refine .bind_left (a := disc) (t' := t) rfl ?_
    have hB : ∀ b : Body, Sim cfg t u (.bind (macroBody o b c) fun vs => .ret (V.variant disc vs))
        (PM.bind (pMacro cfg p b c.depth l) fun vs => .ret (V.variant disc vs)) (AtBody · D rest) := fun b =>
      (sim_macroBody H b hc hu h2 ⟨hm.eof, by rw [h1]; omega, h3⟩).bind fun _ _ _ h hu => .ret hu (h.at_ hp)
    simp only
    cases variants.find? (fun x => decide (x.1 = disc)) with
    | some x => exact hB x.2
    | none =>
      cases ca with
      | some b => exact hB b
      | none => exact .fail rfl
  | _ => exact sim_lift (x := Value.toEnum) hh fun a ha => nomatch ha

theorem sim_elementStep (env : Env) (T : Ty) (hc : c.cfg = cfg) (hu : u.fits cfg) (hh : Hand f D tag v) (hm : Mid t D v rest) :
    Sim cfg t u (elementStep env o T c f) (pElement env cfg p T c.depth tag v) (AtBody · D rest) := by
  have hdef : Sim cfg t u (defaultElement o T c f) (PM.bind (p.field T .init c.depth tag v) fun a => p.finish T a c.depth) (AtBody · D rest) :=
    (H.field T .init c f t u D tag v rest hc hu hh hm).bind fun a t' u' h hu =>
      (H.finish T a c t' u' hc hu).weaken fun _ e => e ▸ h
  cases T with
  | prim _ => exact hdef
  | unknownField _ => exact hdef
  | boxed T => exact H.element T c f t u D tag v rest hc hu hh hm
  | small n e | large n e =>
    simp only [elementStep, pElement]
    split
    · exact (sim_arrConv n hh hm hu).bind fun _ _ _ h hu => .ret hu h
    · exact sim_viaStruct H _ hc hu hh hm
  | vec e =>
    simp only [elementStep, pElement]
    split
    · exact (sim_vecConv hc hh hm hu).bind fun _ _ _ h hu => .ret hu h
    · exact sim_viaStruct H _ hc hu hh hm
  | tuple _ => exact sim_viaStruct H _ hc hu hh hm
  | coll _ _ => exact sim_viaStruct H _ hc hu hh hm
  | option _ => exact sim_viaStruct H _ hc hu hh hm
  | map _ _ => exact sim_viaStruct H _ hc hu hh hm
  | unknownFields _ => exact sim_viaStruct H _ hc hu hh hm
  | named i =>
    simp only [elementStep, pElement]
    cases env.decl i with
    | enum vs ca => exact sim_enum H vs ca hc hu hh hm
    | struct b =>
      simp only
      cases b.tail with
      | plain => exact sim_viaStruct H _ hc hu hh hm
      | unknown _ _ => exact sim_viaStruct H _ hc hu hh hm
      | delegate name T =>
        refine .bind_push hc _ _ fun sub h1 h2 => ?_
        rw [← h2]
        refine (H.element T sub f t u D tag v rest h1 hu hh hm).bind fun w t' u' h hu => ?_
        exact (sim_construct b _ hu).bind fun _ _ _ e hu => .ret hu (e ▸ h)

omit H in
/-- Whatever a discarded conversion does, it does not abort. -/
theorem sim_discard {α β : Type} {q : P β} {m : PM β} {k : Kind} {Q R : TS → Prop} (hk : k.unpos = k) (h : Sim cfg t u q m Q) :
    Sim cfg t u (discard q c k : P α) (.fail k) R := by
  have : ∃ x st, (Prog.attempt q).abs (t, u) = .ok x st := by
    rcases m.cases with ⟨a, c, rfl⟩ | ⟨k, c0, rfl⟩
    · by_cases hf : (u + c).fits cfg
      · obtain ⟨t', h1, -⟩ := h.ok a c rfl hf
        exact ⟨_, _, by simp only [Prog.abs, h1]; rfl⟩
      · obtain ⟨e, st, h1, -⟩ := h.over a c rfl hf
        exact ⟨_, _, by simp only [Prog.abs, h1]; rfl⟩
    · obtain ⟨e, st, h1, -⟩ := h.err k c0 rfl
      exact ⟨_, _, by simp only [Prog.abs, h1]; rfl⟩
  obtain ⟨x, st, h1⟩ := this
  refine ⟨fun a' c h' _ => absurd h' PM.fail_ne_ret, fun a' c h' => absurd h' PM.fail_ne_ret, fun k2 c2 h' => ?_⟩
  obtain ⟨rfl, rfl⟩ := PM.fail_inj h'
  refine ⟨⟨k, c.path⟩, st, ?_, .inl hk⟩
  unfold discard
  simp only [Prog.abs] at h1 ⊢
  rw [h1]; rfl

theorem sim_fieldMeth (T : Ty) (x : Acc) (hc : c.cfg = cfg) (hu : u.fits cfg) (hh : Hand f D tag v) (hm : Mid t D v rest) :
    Sim cfg t u (fieldMeth o T x c f) (pField p T x c.depth tag v) (AtBody · D rest) := by
  have hel : ∀ (E : Ty) (u : Stats), u.fits cfg → ∀ g : V → Acc, Sim cfg t u (.bind (o.element E c f) fun w => .ret (g w))
      (PM.bind (p.element E c.depth tag v) fun w => .ret (g w)) (AtBody · D rest) := fun E u hu g =>
    (H.element E c f t u D tag v rest hc hu hh hm).bind fun _ _ _ h hu => .ret hu h
  have hcol : ∀ (E : Ty) (g : V → Acc), Sim cfg t u (.bind (c.collect 1) fun _ => .bind (o.element E c f) fun w => .ret (g w))
      (PM.bind pCollect fun _ => PM.bind (p.element E c.depth tag v) fun w => .ret (g w)) (AtBody · D rest) := fun E g =>
    (Sim.collect hc hu).bind fun _ t' u' e hu => by subst e; exact hel E u' hu g
  cases T with
  | prim q =>
    simp only [fieldMeth, pField]
    split
    · exact .fail rfl
    · exact (sim_prim q hc hh hm hu).bind fun _ _ _ h hu => .ret hu h
  | boxed T => exact H.field T x c f t u D tag v rest hc hu hh hm
  | small n e =>
    simp only [fieldMeth, pField]
    split
    · split
      · exact sim_discard rfl (sim_arrConv n hh hm hu)
      · exact (sim_arrConv n hh hm hu).bind fun _ _ _ h hu => .ret hu h
    · split
      · exact .fail rfl
      · split
        · exact .fail rfl
        · exact hel e u hu _
  | large n e =>
    simp only [fieldMeth, pField]
    split
    · refine (sim_arrConv n hh hm hu).bind fun _ _ _ h hu => ?_
      split
      · exact .fail rfl
      · exact .ret hu h
    · split
      · exact .fail rfl
      · exact hel e u hu _
  | tuple ts =>
    simp only [fieldMeth, pField]
    split
    · exact .fail rfl
    · exact hel _ u hu _
  | named i =>
    simp only [fieldMeth, pField]
    split
    · exact .fail rfl
    · exact hel _ u hu _
  | vec e =>
    simp only [fieldMeth, pField]
    split
    · split
      · exact sim_discard rfl (sim_vecConv hc hh hm hu)
      · exact (sim_vecConv hc hh hm hu).bind fun _ _ _ h hu => .ret hu h
    · exact hcol e _
  | coll k e => exact hcol e _
  | option e =>
    simp only [fieldMeth, pField]
    split
    · exact .fail rfl
    · exact hel _ u hu _
  | map k w => exact hcol _ _
  | unknownFields zc =>
    simp only [fieldMeth, pField]
    rw [hh.tag]
    exact hcol _ _
  | unknownField zc =>
    simp only [fieldMeth, pField]
    split
    · exact .fail rfl
    · rw [hh.value]
      have hm' := hm.here
      have hp := hm.pos
      cases v with
      | int n => exact .ret hu (hm.at_ (.inl ⟨n, rfl⟩))
      | blob d => exact hel _ u hu _
      | struct l =>
        obtain ⟨h1, a, h2, h3⟩ := hm'
        exact (H.body _ c l t u (D + 1) a rest hc hu h2 ⟨hm.eof, by rw [h1]; omega, h3⟩).bind fun _ _ _ h hu => .ret hu (h.at_ hp)
      | enum d l =>
        obtain ⟨h1, a, h2, h3⟩ := hm'
        exact (H.body _ c l t u (D + 1) a rest hc hu h2 ⟨hm.eof, by rw [h1]; omega, h3⟩).bind fun _ _ _ h hu => .ret hu (h.at_ hp)

theorem sim_finishMeth (T : Ty) (x : Acc) (hc : c.cfg = cfg) (hu : u.fits cfg) :
    Sim cfg t u (finishMeth o T x c) (pFinish p T x c.depth) (· = t) := by
  cases T with
  | boxed T => exact H.finish T x c t u hc hu
  | prim _ | tuple _ | named _ | unknownField _ =>
    simp only [finishMeth, pFinish]
    cases x.items with
    | nil => exact .fail rfl
    | cons v _ => exact .ret hu rfl
  | small n e =>
    simp only [finishMeth, pFinish]
    split
    · exact .ret hu rfl
    · split
      · split <;> exact .fail rfl
      · exact .ret hu rfl
  | large n e =>
    simp only [finishMeth, pFinish]
    split
    · split <;> exact .fail rfl
    · exact .ret hu rfl
  | vec e =>
    simp only [finishMeth, pFinish]
    split
    · exact .fail rfl
    · exact .ret hu rfl
  | _ => exact .ret hu rfl

end

/-- The methods on streams do what the methods on trees say. -/
theorem ops_sim (env : Env) (cfg : Config) : ∀ n, SimOps cfg (ops env n) (pops env cfg n) := by
  intro n
  induction n with
  | zero =>
    exact ⟨fun _ _ _ _ _ _ _ _ _ _ _ _ => .fail rfl, fun _ _ _ _ _ _ _ _ _ _ _ _ _ _ => .fail rfl,
      fun _ _ _ _ _ _ _ _ _ _ _ _ _ => .fail rfl, fun _ _ _ _ _ _ _ => .fail rfl⟩
  | succ n ih =>
    exact ⟨fun T c l t u D a rest hc hu hb ht => sim_bodyStep ih env T hc hu hb ht,
      fun T x c f t u D tag v rest hc hu hh hm => sim_fieldMeth ih T x hc hu hh hm,
      fun T c f t u D tag v rest hc hu hh hm => sim_elementStep ih env T hc hu hh hm,
      fun T x c t u hc hu => sim_finishMeth ih T x hc hu⟩

end Fourleaf
