import Verif.Typed

/-! # Deserialised values are typed: the induction over the methods -/

namespace Fourleaf
open Spec

mutual
/-- A type expression Rust accepts and whose values can be written: tuples have at most 16 components (`src/de.rs` 1371-1423), and
`UnknownFields`, which takes its tags from the input, is not the type of a single field (`fld`). -/
def Ty.wf (fld : Bool) : Ty → Bool
  | .prim _ | .unknownField _ | .named _ => true
  | .unknownFields _ => !fld
  | .boxed t => t.wf fld
  | .small _ t | .large _ t | .vec t | .coll _ t | .option t => t.wf false
  | .tuple ts => decide (ts.length ≤ 16) && Ty.wfs ts
  | .map k v => k.wf true && v.wf true
def Ty.wfs : List Ty → Bool
  | [] => true
  | t :: ts => t.wf true && Ty.wfs ts
end

theorem Ty.wf_weaken : ∀ {t : Ty}, t.wf true = true → t.wf false = true
  | .prim _, _ | .unknownField _, _ | .named _, _ => rfl
  | .unknownFields _, h => by simp [Ty.wf] at h
  | .boxed t, h => by simp only [Ty.wf] at h ⊢; exact Ty.wf_weaken h
  | .small _ t, h | .large _ t, h | .vec t, h | .coll _ t, h | .option t, h | .tuple _, h | .map _ _, h => by simpa only [Ty.wf] using h

/-- A well-formed body: the types of the fields are, and a delegating body has no other fields. -/
def Body.wf (b : Body) : Prop :=
  (∀ d ∈ b.fields, d.ty.wf true = true) ∧ ∀ name t, b.tail = .delegate name t → b.fields = [] ∧ t.wf false = true

def Decl.wf : Decl → Prop
  | .struct b => b.wf
  | .enum vs ca => (∀ x ∈ vs, x.2.wf) ∧ ∀ b, ca = some b → b.wf

def Env.wf (env : Env) : Prop := ∀ i, (env.decl i).wf

/-- The values `vs` are what `it` says, can be read back at depth `d`, and what they take is covered by the difference of the statistics. -/
def TV (env : Env) (cfg : Config) (it : Item) (vs : List V) (d : Nat) (u u' : Stats) : Prop :=
  ∃ k, Needs env it vs k ∧ d + k.depth ≤ cfg.recursionLimit ∧ u.collected + k.used.collected ≤ u'.collected ∧ u.blob + k.used.blob ≤ u'.blob

/-- A list of occurrences which, with `n` elements to collect, is covered by `c`. -/
def EachOk (env : Env) (cfg : Config) (d : Nat) (c : Stats) (e : Ty) (vs : List V) (n : Nat) : Prop :=
  ∃ k, Needs env (.each e) vs k ∧ (d ≤ cfg.recursionLimit → d + k.depth ≤ cfg.recursionLimit) ∧ k.used.collected + n ≤ c.collected ∧ k.used.blob ≤ c.blob

/-- What holds of an accumulator; `c` covers what the values in it take. -/
def AccOk (env : Env) (cfg : Config) (known : List Byte) (d : Nat) (c : Stats) : Ty → Acc → Prop
  | .boxed t, a => AccOk env cfg known d c t a
  | .small n e, a =>
    if e.isU8 then (a.flag = true ∧ ∃ b : List Byte, a.items = items b ∧ b.length = n ∧ b.length < 2 ^ 64) ∨ (a.flag = false ∧ a.items = [])
    else a.flag = false ∧ a.items.length ≤ n ∧ EachOk env cfg d c e a.items 0
  | .large n e, a =>
    if e.isU8 then a.items = [] ∨ ∃ b : List Byte, a.items = items b ∧ b.length = n ∧ b.length < 2 ^ 64
    else a.items.length ≤ n ∧ EachOk env cfg d c e a.items 0
  | .vec e, a =>
    if e.isU8 then (a.flag = true ∧ ∃ b : List Byte, a.items = items b ∧ b.length < 2 ^ 64 ∧ b.length ≤ c.blob) ∨ (a.flag = false ∧ a.items = [])
    else EachOk env cfg d c e a.items a.items.length
  | .coll .list e, a => EachOk env cfg d c e a.items a.items.length
  | .coll .set e, a => a.items.Nodup ∧ EachOk env cfg d c e a.items a.items.length
  | .option e, a => a.items.length ≤ 1 ∧ EachOk env cfg d c e a.items 0
  | .map tk tv, a => (a.items.map V.key).Nodup ∧ EachOk env cfg d c (.tuple [tk, tv]) a.items a.items.length
  | .unknownFields zc, a =>
    ∃ k, Needs env (.unknown known zc) a.items k ∧ (d ≤ cfg.recursionLimit + 1 → d + k.depth ≤ cfg.recursionLimit + 1) ∧ k.used.le c
  | t, a => a.items = [] ∨ ∃ v k, a.items = [v] ∧ Needs env (.elem t) [v] k ∧ d + k.depth ≤ cfg.recursionLimit ∧ k.used.le c

/-- What `finish` makes of it. -/
def FinOk (env : Env) (cfg : Config) (known : List Byte) (d : Nat) (c : Stats) : Ty → V → Prop
  | .unknownFields zc, v =>
    ∃ es k, v = .seq es ∧ Needs env (.unknown known zc) es k ∧ (d ≤ cfg.recursionLimit + 1 → d + k.depth ≤ cfg.recursionLimit + 1) ∧ k.used.le c
  | t, v => ∃ k, Needs env (.field t) [v] k ∧ (d ≤ cfg.recursionLimit → d + k.depth ≤ cfg.recursionLimit) ∧ k.used.le c

theorem EachOk.nil {env : Env} {cfg : Config} {d : Nat} {c : Stats} {e : Ty} : EachOk env cfg d c e [] 0 :=
  ⟨_, .eachNil, fun h => by simp [Need.zero]; exact h, by simp [Need.zero], by simp [Need.zero]⟩

theorem AccOk.init {env : Env} {cfg : Config} {known : List Byte} {d : Nat} : ∀ {t : Ty}, AccOk env cfg known d .zero t .init
  | .boxed t => by simp only [AccOk]; exact init
  | .small n e => by
    simp only [AccOk]; split
    · exact .inr ⟨rfl, rfl⟩
    · exact ⟨rfl, Nat.zero_le _, .nil⟩
  | .large n e => by
    simp only [AccOk]; split
    · exact .inl rfl
    · exact ⟨Nat.zero_le _, .nil⟩
  | .vec e => by
    simp only [AccOk]; split
    · exact .inr ⟨rfl, rfl⟩
    · exact .nil
  | .coll .list e => .nil
  | .coll .set e => ⟨List.nodup_nil, .nil⟩
  | .option e => ⟨Nat.zero_le _, .nil⟩
  | .map _ _ => ⟨List.nodup_nil, .nil⟩
  | .unknownFields zc => ⟨_, .unknownNil, fun h => by simp [Need.zero]; exact h, by simp [Need.zero, Stats.le, Stats.zero]⟩
  | .prim _ | .tuple _ | .named _ | .unknownField _ => .inl rfl

/-- Everything about the methods. -/
structure TOps (env : Env) (cfg : Config) (o : Ops) : Prop where
  body : ∀ t c s u, t.wf false = true → CtxOk cfg c → Inv s → u.fits cfg →
    Post cfg u ((o.body t c).run (s, u)) fun v s' u' => TV env cfg (.body t) [v] c.depth u u' ∧ AtEnd s'
  element : ∀ t c f s u, t.wf false = true → CtxOk cfg c → Inv s → u.fits cfg → FieldAt s f →
    Post cfg u ((o.element t c f).run (s, u)) fun v _ u' => TV env cfg (.elem t) [v] c.depth u u'
  field : ∀ t a known c0 c f s u, (t.wf true = true ∨ ∃ zc, t = .unknownFields zc) → CtxOk cfg c → Inv s → u.fits cfg → FieldAt s f →
    f.tag ∉ known → AccOk env cfg known c.depth c0 t a →
    Post cfg u ((o.field t a c f).run (s, u)) fun a' _ u' => ∃ c1, AccOk env cfg known c.depth c1 t a' ∧
      u.collected + c1.collected ≤ u'.collected + c0.collected ∧ u.blob + c1.blob ≤ u'.blob + c0.blob
  finish : ∀ t a known d c0 c s u, (t.wf true = true ∨ ∃ zc, t = .unknownFields zc) → u.fits cfg → AccOk env cfg known d c0 t a →
    Post cfg u ((o.finish t a c).run (s, u)) fun v s' u' => s' = s ∧ u' = u ∧ FinOk env cfg known d c0 t v

/-- Sum of `n` values from `i` on. -/
def sumN (f : Nat → Nat) (i : Nat) : Nat → Nat
  | 0 => 0
  | n + 1 => f i + sumN f (i + 1) n

theorem sumN_congr {f g : Nat → Nat} : ∀ (n i : Nat), (∀ j, i ≤ j → j < i + n → f j = g j) → sumN f i n = sumN g i n
  | 0, _, _ => rfl
  | n + 1, i, h => by
    simp only [sumN]
    rw [h i (Nat.le_refl _) (by omega), sumN_congr n (i + 1) fun j h1 h2 => h j (by omega) (by omega)]

theorem sumN_upd {f g : Nat → Nat} {j : Nat} (hg : ∀ k, k ≠ j → g k = f k) : ∀ (n i : Nat), i ≤ j → j < i + n → sumN g i n + f j = sumN f i n + g j
  | 0, i, h1, h2 => by omega
  | n + 1, i, h1, h2 => by
    simp only [sumN]
    by_cases hij : i = j
    · subst hij
      rw [sumN_congr (f := g) (g := f) n (i + 1) fun k h3 _ => hg k (by omega)]
      omega
    · have := sumN_upd hg n (i + 1) (by omega) (by omega)
      rw [hg i hij]
      omega

theorem sumN_zero : ∀ (n i : Nat), sumN (fun _ => 0) i n = 0
  | 0, _ => rfl
  | n + 1, i => by simp only [sumN]; rw [sumN_zero n]

/-- Invariant of the loop over the fields of a struct at depth `d - 1`. -/
def LoopOk (env : Env) (cfg : Config) (fs : List FieldDecl) (unk : Option Bool) (d : Nat) (u0 : Stats) (st : LoopSt) (u : Stats) : Prop :=
  ∃ (uses : Nat → Stats) (cu : Stats), (∀ i x, fs[i]? = some x → AccOk env cfg [] d (uses i) x.ty (st.accs i)) ∧
    (∀ zc, unk = some zc → AccOk env cfg (fs.map (·.tag)) d cu (.unknownFields zc) st.unk) ∧
    u0.collected + sumN (fun i => (uses i).collected) 0 fs.length + cu.collected ≤ u.collected ∧
    u0.blob + sumN (fun i => (uses i).blob) 0 fs.length + cu.blob ≤ u.blob

theorem LoopOk.init {env : Env} {cfg : Config} {fs : List FieldDecl} {unk : Option Bool} {d : Nat} {u : Stats} :
    LoopOk env cfg fs unk d u .init u :=
  ⟨fun _ => .zero, .zero, fun _ _ _ => .init, fun _ _ => .init, by simp [Stats.zero, sumN_zero], by simp [Stats.zero, sumN_zero]⟩

theorem findIdx_none_tag {fs : List FieldDecl} {tag : Byte} (h : fs.findIdx? (fun d => d.tag = tag) = none) : tag ∉ fs.map (·.tag) := by
  rw [List.findIdx?_eq_none_iff] at h
  intro hm
  obtain ⟨x, hx, rfl⟩ := List.mem_map.1 hm
  have := h x hx
  simp at this

section
variable {env : Env} {cfg : Config} {o : Ops} (H : TOps env cfg o)
include H

theorem typed_fieldStep {fs : List FieldDecl} {unk : Option Bool} {c : Ctx} {st : LoopSt} {f : Field} {s : Stream} {u u0 : Stats}
    (hw : ∀ d ∈ fs, d.ty.wf true = true) (hc : CtxOk cfg c) (hi : Inv s) (hu : u.fits cfg) (hf : FieldAt s f) (hl : LoopOk env cfg fs unk (c.depth + 1) u0 st u) :
    Post cfg u ((fieldStep o fs unk c st f).run (s, u)) fun st' _ u' => LoopOk env cfg fs unk (c.depth + 1) u0 st' u' := by
  unfold fieldStep
  obtain ⟨uses, cu, h1, h2, h3, h4⟩ := hl
  split
  · rename_i i hidx
    split
    · exact .ret hu ⟨uses, cu, h1, h2, h3, h4⟩
    · rename_i x hx
      refine .bind hi (Post.push hc hu) ?_
      rintro sub s' u' - - - ⟨rfl, rfl, hsub, hd⟩
      have hacc : AccOk env cfg [] sub.depth (uses i) x.ty (st.accs i) := by rw [hd]; exact h1 i x hx
      refine .bind hi (H.field x.ty (st.accs i) [] (uses i) sub f s' u' (.inl (hw x (List.mem_of_getElem? hx))) hsub hi hu hf (by simp) hacc) ?_
      rintro a s2 u2 - hu2 hle ⟨c1, hc1, e1, e2⟩
      refine .ret hu2 ⟨upd uses i c1, cu, ?_, h2, ?_, ?_⟩
      · intro j y hy
        simp only [upd]
        split
        · rename_i hj; subst hj
          rw [hx] at hy; cases hy
          rw [hd] at hc1; exact hc1
        · exact h1 j y hy
      · have hlt : i < fs.length := (List.getElem?_eq_some_iff.1 hx).1
        have := sumN_upd (f := fun i => (uses i).collected) (g := fun j => (upd uses i c1 j).collected) (j := i) (by intro k hk; simp [upd, hk]) fs.length 0 (by omega) (by omega)
        simp only [upd, if_true] at this ⊢
        omega
      · have hlt : i < fs.length := (List.getElem?_eq_some_iff.1 hx).1
        have := sumN_upd (f := fun i => (uses i).blob) (g := fun j => (upd uses i c1 j).blob) (j := i) (by intro k hk; simp [upd, hk]) fs.length 0 (by omega) (by omega)
        simp only [upd, if_true] at this ⊢
        omega
  · rename_i hidx
    split
    · rename_i zc
      refine .bind hi (Post.push hc hu) ?_
      rintro sub s' u' - - - ⟨rfl, rfl, hsub, hd⟩
      have hacc := h2 zc rfl
      rw [← hd] at hacc
      refine .bind hi (H.field (.unknownFields zc) st.unk (fs.map (·.tag)) cu sub f s' u' (.inr ⟨zc, rfl⟩) hsub hi hu hf (findIdx_none_tag hidx) hacc) ?_
      rintro a s2 u2 - hu2 hle ⟨c1, hc1, e1, e2⟩
      refine .ret hu2 ⟨uses, c1, h1, ?_, by omega, by omega⟩
      intro zc' hz; cases hz
      rw [hd] at hc1; exact hc1
    · refine .bind (Q := fun _ s' u' => s' = s ∧ u' = u) hi ?_ ?_
      · unfold Ctx.unknownField; split
        · exact .ret hu ⟨rfl, rfl⟩
        · exact .fail hu (by simp)
      rintro - s' u' - - - ⟨rfl, rfl⟩
      refine .bind hi (Post.skip hu) ?_
      rintro - s2 u2 - hu2 - rfl
      exact .ret hu2 ⟨uses, cu, h1, by simp, h3, h4⟩

theorem typed_fieldLoop {fs : List FieldDecl} {unk : Option Bool} {c : Ctx} {s : Stream} {u : Stats}
    (hw : ∀ d ∈ fs, d.ty.wf true = true) (hc : CtxOk cfg c) (hi : Inv s) (hu : u.fits cfg) :
    Post cfg u ((fieldLoop o fs unk c).run (s, u)) fun st s' u' => LoopOk env cfg fs unk (c.depth + 1) u st u' ∧ AtEnd s' := by
  simp only [fieldLoop, Prog.run]
  generalize (s.inner.data.length - s.inner.pos + 2) = fuel
  have hl : LoopOk env cfg fs unk (c.depth + 1) u .init u := .init
  generalize LoopSt.init = b at hl
  suffices hs : ∀ (u1 : Stats), u.le u1 → u1.fits cfg → LoopOk env cfg fs unk (c.depth + 1) u b u1 → 
      Post cfg u1 (runLoop true (fun st e => (match e with
        | .field f => .bind (fieldStep o fs unk c st f) fun st' => .ret (.inl st')
        | _ => .ret (.inl st) : P (LoopSt ⊕ LoopSt)).run) (fun e => (c.fail (.stream e) : P LoopSt).run) (fun b => (Prog.ret b : P LoopSt).run) fuel b (s, u1))
        fun st s' u' => LoopOk env cfg fs unk (c.depth + 1) u st u' ∧ AtEnd s' from hs u (.refl _) hu hl
  clear hl
  induction fuel generalizing b s with
  | zero => intro u1 _ hu1 _; exact ⟨fun a s' u' h' => by simp [runLoop] at h', fun e s' u' h' => by simp [runLoop] at h'⟩
  | succ fuel ih =>
    intro u1 hle hu1 hl
    simp only [runLoop]
    have hp : ∀ o s', pull true s = .ok o s' → Inv s' ∧ (o = none → AtEnd s') ∧ (∀ el, o = some el → ∃ f, el = .field f ∧ FieldAt s' f) := by
      intro o s' h
      have hs := (pull_safe true hi).1.step
      rw [h] at hs
      refine ⟨hs.inv, ?_⟩
      simp only [pull, if_true] at h
      cases hn : nextField s with
      | err e s2 => rw [hn] at h; cases h
      | ok o' s2 =>
        have hP := nextField_post hi hn
        rw [hn] at h
        cases o' with
        | none => cases h; exact ⟨fun _ => hP.2 rfl, by simp⟩
        | some f => cases h; exact ⟨by simp, fun el hel => by cases hel; exact ⟨f, rfl, hP.1 f rfl⟩⟩
    cases hq : pull true s with
    | err e s' =>
      simp only
      split
      · exact ⟨fun a s' u' h' => by simp at h', fun e s' u' h' => by simp at h'⟩
      · exact .fail hu1 (by simp)
    | ok o' s' =>
      obtain ⟨hi', hnone, hsome⟩ := hp _ _ hq
      cases o' with
      | none => exact .ret hu1 ⟨hl, hnone rfl⟩
      | some el =>
        obtain ⟨f, rfl, hf⟩ := hsome el rfl
        have hb : Post cfg u1 ((Prog.bind (fieldStep o fs unk c b f) fun st' => .ret (.inl st') : P (LoopSt ⊕ LoopSt)).run (s', u1))
            fun r _ u' => ∃ st', r = .inl st' ∧ LoopOk env cfg fs unk (c.depth + 1) u st' u' := by
          refine .bind hi' (typed_fieldStep H hw hc hi' hu1 hf hl) ?_
          rintro st' s2 u2 - hu2 - h
          exact .ret hu2 ⟨st', rfl, h⟩
        have hsafe := Prog.run_safe (Prog.bind (fieldStep o fs unk c b f) fun st' => .ret (.inl st') : P (LoopSt ⊕ LoopSt)) (s', u1) hi'
        simp only
        cases hr : (Prog.bind (fieldStep o fs unk c b f) fun st' => .ret (.inl st') : P (LoopSt ⊕ LoopSt)).run (s', u1) with
        | err e st2 => exact ⟨fun a s' u' h' => by simp at h', fun e s2 u2 h' => by simp only at h'; cases h'; exact hb.err _ _ _ hr⟩
        | ok r st2 =>
          obtain ⟨s2, u2⟩ := st2
          rw [hr] at hsafe
          obtain ⟨g1, g2, st', rfl, g3⟩ := hb.ok _ _ _ hr
          have := ih hsafe.step.inv st' u2 (hle.trans g1) g2 g3
          exact ⟨fun a s3 u3 h' => by have h4 := this.ok a s3 u3 h'; exact ⟨g1.trans h4.1, h4.2⟩, this.err⟩

theorem typed_finishAll {c : Ctx} {st : LoopSt} (hc : CtxOk cfg c) (uses : Nat → Stats) : ∀ (fs : List FieldDecl) (i : Nat) (s : Stream) (u : Stats), Inv s → u.fits cfg →
    (∀ d ∈ fs, d.ty.wf true = true) → (∀ j x, fs[j]? = some x → AccOk env cfg [] (c.depth + 1) (uses (i + j)) x.ty (st.accs (i + j))) →
    Post cfg u ((finishAll o c st i fs).run (s, u)) fun vs s' u' => s' = s ∧ u' = u ∧ ∃ k, Needs env (.fields fs) vs k ∧
      c.depth + k.depth ≤ cfg.recursionLimit ∧ k.used.collected ≤ sumN (fun i => (uses i).collected) i fs.length ∧
      k.used.blob ≤ sumN (fun i => (uses i).blob) i fs.length
  | [], i, s, u, hi, hu, _, _ => .ret hu ⟨rfl, rfl, _, .fieldsNil, by simp [Need.zero]; exact hc.le, by simp [Need.zero], by simp [Need.zero]⟩
  | x :: xs, i, s, u, hi, hu, hw, ha => by
    simp only [finishAll]
    refine .bind hi (Post.pos hu) ?_
    rintro p s' u' - - - ⟨rfl, rfl⟩
    refine .bind hi (Post.push hc hu) ?_
    rintro sub s' u' - - - ⟨rfl, rfl, hsub, hd⟩
    refine .bind hi (H.finish x.ty (st.accs i) [] (c.depth + 1) (uses i) sub s' u' (.inl (hw x (.head _))) hu (ha 0 x rfl)) ?_
    rintro v s' u' - - - ⟨rfl, rfl, hv⟩
    refine .bind hi (typed_finishAll hc uses xs (i + 1) s' u' hi hu (fun d hd => hw d (.tail _ hd)) fun j y hy => ?_) ?_
    · have := ha (j + 1) y (by simpa using hy)
      rw [show i + 1 + j = i + (j + 1) by omega]; exact this
    rintro vs s' u' - hu' - ⟨rfl, rfl, k', h1, h2, h3, h4⟩
    have hxw := hw x (.head _)
    have hv' : ∃ k, Needs env (.field x.ty) [v] k ∧ (c.depth + 1 ≤ cfg.recursionLimit → c.depth + 1 + k.depth ≤ cfg.recursionLimit) ∧ k.used.le (uses i) := by
      cases ht : x.ty with
      | unknownFields zc => rw [ht] at hxw; simp [Ty.wf] at hxw
      | _ => rw [ht] at hv; exact hv
    obtain ⟨k, g1, g2, g3⟩ := hv'
    have := g2 (by have := hsub.le; omega)
    refine .ret hu' ⟨rfl, rfl, _, .fieldsCons g1 h1, ?_, ?_, ?_⟩
    · simp only [Need.seq, Need.nest]; omega
    · simp only [Need.seq, Need.nest, List.length_cons, sumN]; have := g3.1; omega
    · simp only [Need.seq, Need.nest, List.length_cons, sumN]; have := g3.2; omega

/-- The loop and the calls of `finish`. -/
theorem typed_structBody {fs : List FieldDecl} {c : Ctx} {s : Stream} {u : Stats}
    (hw : ∀ d ∈ fs, d.ty.wf true = true) (hc : CtxOk cfg c) (hi : Inv s) (hu : u.fits cfg) :
    Post cfg u ((structBody o fs c).run (s, u)) fun vs s' u' => TV env cfg (.fields fs) vs c.depth u u' ∧ AtEnd s' := by
  refine .bind hi (typed_fieldLoop H (unk := none) hw hc hi hu) ?_
  rintro st s' u' hi' hu' - ⟨⟨uses, cu, h1, -, h3, h4⟩, hend⟩
  refine (typed_finishAll H hc uses fs 0 s' u' hi' hu' hw fun j x hx => by simpa using h1 j x hx).mono ?_
  rintro vs s2 u2 - - ⟨rfl, rfl, k, g1, g2, g3, g4⟩
  exact ⟨⟨k, g1, g2, by omega, by omega⟩, hend⟩

theorem typed_defaultBody {t : Ty} {c : Ctx} {s : Stream} {u : Stats} (ht : t.isWrapped env = true)
    (hw : t.wf true = true) (hc : CtxOk cfg c) (hi : Inv s) (hu : u.fits cfg) :
    Post cfg u ((defaultBody o t c).run (s, u)) fun v s' u' => TV env cfg (.body t) [v] c.depth u u' ∧ AtEnd s' := by
  refine .bind hi (typed_structBody H (fs := [⟨1, "top", t⟩]) (by intro d hd; cases List.mem_singleton.1 hd; exact hw) hc hi hu) ?_
  rintro vs s' u' - hu' - ⟨⟨k, h1, h2, h3, h4⟩, hend⟩
  refine .ret hu' ⟨?_, hend⟩
  cases h1 with
  | fieldsCons g1 g2 =>
    cases g2
    refine ⟨_, .bodyWrapped ht g1, ?_, ?_, ?_⟩
    · simp only [Need.seq, Need.nest] at h2 ⊢; omega
    · simp only [Need.seq, Need.nest] at h3 ⊢; omega
    · simp only [Need.seq, Need.nest] at h4 ⊢; omega

omit H in
theorem typed_construct {b : Body} {c : Ctx} {vs : List V} {s : Stream} {u : Stats} (hu : u.fits cfg) :
    Post cfg u ((construct b c vs).run (s, u)) fun vs' s' u' => s' = s ∧ u' = u ∧ vs' = vs ∧ b.check vs = true := by
  unfold construct; split
  · rename_i h; exact .ret hu ⟨rfl, rfl, rfl, h⟩
  · exact .fail hu (by simp)

theorem typed_macroBody {b : Body} {c : Ctx} {s : Stream} {u : Stats}
    (hw : b.wf) (hc : CtxOk cfg c) (hi : Inv s) (hu : u.fits cfg) :
    Post cfg u ((macroBody o b c).run (s, u)) fun vs s' u' => TV env cfg (.parts b) vs c.depth u u' ∧ AtEnd s' := by
  unfold macroBody
  split
  · rename_i ht
    refine .bind hi (typed_fieldLoop H (unk := none) hw.1 hc hi hu) ?_
    rintro st s' u' hi' hu' - ⟨⟨uses, cu, h1, -, h3, h4⟩, hend⟩
    refine .bind hi' (typed_finishAll H hc uses b.fields 0 s' u' hi' hu' hw.1 fun j x hx => by simpa using h1 j x hx) ?_
    rintro vs s2 u2 - hu2 - ⟨rfl, rfl, k, g1, g2, g3, g4⟩
    refine (typed_construct hu2).mono ?_
    rintro vs' s3 u3 - - ⟨rfl, rfl, rfl, hck⟩
    exact ⟨⟨k, .partsPlain ht hck g1, g2, by omega, by omega⟩, hend⟩
  · rename_i name t ht
    obtain ⟨hf, htw⟩ := hw.2 name t ht
    refine .bind hi (Post.pos hu) ?_
    rintro p s' u' - - - ⟨rfl, rfl⟩
    refine .bind hi (Post.push hc hu) ?_
    rintro sub s' u' - - - ⟨rfl, rfl, hsub, hd⟩
    refine .bind hi (H.body t sub s' u' htw hsub hi hu) ?_
    rintro v s2 u2 hi2 hu2 - ⟨⟨k, h1, h2, h3, h4⟩, hend⟩
    rw [hf]
    refine .bind (Q := fun vs s' u' => s' = s2 ∧ u' = u2 ∧ vs = []) hi2 (.ret hu2 ⟨rfl, rfl, rfl⟩) ?_
    rintro vs s3 u3 - hu3 - ⟨rfl, rfl, rfl⟩
    refine (typed_construct hu3).mono ?_
    rintro vs' s4 u4 - - ⟨rfl, rfl, rfl, hck⟩
    refine ⟨⟨_, .partsDelegate ht hf hck h1, ?_, h3, h4⟩, hend⟩
    simp only [Need.nest]; omega
  · rename_i name zc ht
    refine .bind hi (typed_fieldLoop H (unk := some zc) hw.1 hc hi hu) ?_
    rintro st s' u' hi' hu' - ⟨⟨uses, cu, h1, h2, h3, h4⟩, hend⟩
    refine .bind hi' (typed_finishAll H hc uses b.fields 0 s' u' hi' hu' hw.1 fun j x hx => by simpa using h1 j x hx) ?_
    rintro vs s2 u2 - hu2 - ⟨rfl, rfl, k, g1, g2, g3, g4⟩
    refine .bind hi' (Post.pos hu2) ?_
    rintro p s3 u3 - - - ⟨rfl, rfl⟩
    refine .bind hi' (Post.push hc hu2) ?_
    rintro sub s3 u3 - - - ⟨rfl, rfl, hsub, hd⟩
    refine .bind hi' (H.finish (.unknownFields zc) st.unk _ (c.depth + 1) cu sub s3 u3 (.inr ⟨zc, rfl⟩) hu2 (h2 zc rfl)) ?_
    rintro v s3 u3 - hu3 - ⟨rfl, rfl, es, k', rfl, e1, e2, e3⟩
    refine (typed_construct hu3).mono ?_
    rintro vs' s4 u4 - - ⟨rfl, rfl, rfl, hck⟩
    have hsl := hsub.le
    have := e2 (by omega)
    have e3' := e3.1
    have e3'' := e3.2
    refine ⟨⟨_, .partsUnknown ht hck g1 e1, ?_, ?_, ?_⟩, hend⟩
    · simp only [Need.seq, Need.nest, Need.zero]; omega
    · simp only [Need.seq, Need.nest, Need.zero]; omega
    · simp only [Need.seq, Need.nest, Need.zero]; omega

omit H in
theorem wfs_mem {ts : List Ty} (h : Ty.wfs ts = true) : ∀ t ∈ ts, t.wf true = true := by
  induction ts with
  | nil => intro t h; cases h
  | cons a l ih =>
    simp only [Ty.wfs, Bool.and_eq_true] at h
    intro t ht
    cases ht with
    | head => exact h.1
    | tail _ ht => exact ih h.2 t ht

omit H in
theorem tupleFields_wf {ts : List Ty} (h : Ty.wfs ts = true) : ∀ d ∈ tupleFields ts, d.ty.wf true = true := by
  intro d hd
  simp only [tupleFields, List.mem_mapIdx] at hd
  obtain ⟨i, hi, rfl⟩ := hd
  exact wfs_mem h _ (List.getElem_mem _)

omit H in
theorem wf_body {t : Ty} (h : t.wf false = true) (hw : ∀ zc, t ≠ .unknownFields zc) (hb : ∀ t', t ≠ .boxed t') : t.wf true = true := by
  cases t with
  | unknownFields zc => exact absurd rfl (hw zc)
  | boxed t' => exact absurd rfl (hb t')
  | _ => simpa only [Ty.wf] using h

theorem typed_bodyStep (henv : env.wf) (t : Ty) (c : Ctx) (s : Stream) (u : Stats) (hw : t.wf false = true) (hc : CtxOk cfg c) (hi : Inv s) (hu : u.fits cfg) :
    Post cfg u ((bodyStep env o t c).run (s, u)) fun v s' u' => TV env cfg (.body t) [v] c.depth u u' ∧ AtEnd s' := by
  cases t with
  | boxed t =>
    refine (H.body t c s u hw hc hi hu).mono ?_
    rintro v s' u' - - ⟨⟨k, h1, h2⟩, hend⟩
    exact ⟨⟨k, .bodyBoxed h1, h2⟩, hend⟩
  | tuple ts =>
    simp only [Ty.wf, Bool.and_eq_true, decide_eq_true_eq] at hw
    refine .bind hi (typed_structBody H (tupleFields_wf hw.2) hc hi hu) ?_
    rintro vs s' u' - hu' hle ⟨⟨k, h1, h2⟩, hend⟩
    refine .ret hu' ⟨?_, hend⟩
    by_cases hn : ts = []
    · subst hn
      cases h1
      exact ⟨_, .bodyUnit, by simp [Need.zero]; exact hc.le, by simp [Need.zero]; exact hle.1, by simp [Need.zero]; exact hle.2⟩
    · exact ⟨k, .bodyTuple hn hw.1 h1, h2⟩
  | unknownFields zc =>
    refine .bind hi (typed_fieldLoop H (unk := some zc) (fs := []) (by simp) hc hi hu) ?_
    rintro st s' u' hi' hu' - ⟨⟨uses, cu, -, h2, h3, h4⟩, hend⟩
    refine (H.finish (.unknownFields zc) st.unk [] (c.depth + 1) cu c s' u' (.inr ⟨zc, rfl⟩) hu' (h2 zc rfl)).mono ?_
    rintro v s3 u3 - hu3 ⟨rfl, rfl, es, k', rfl, e1, e2, e3⟩
    have := e2 (by have := hc.le; omega)
    have e3' := e3.1
    have e3'' := e3.2
    simp only [List.length_nil, sumN] at h3 h4
    exact ⟨⟨_, .bodyUnknown e1, by omega, by omega, by omega⟩, hend⟩
  | named i =>
    simp only [bodyStep]
    split
    · rename_i b he
      have hwf := henv i
      rw [he] at hwf
      refine .bind hi (typed_macroBody H hwf hc hi hu) ?_
      rintro vs s' u' - hu' - ⟨⟨k, h1, h2⟩, hend⟩
      exact .ret hu' ⟨⟨k, .bodyStruct he h1, h2⟩, hend⟩
    · rename_i he
      exact typed_defaultBody H (by simp [Ty.isWrapped, he]) rfl hc hi hu
  | prim _ | small _ _ | large _ _ | vec _ | coll _ _ | option _ | map _ _ | unknownField _ =>
    exact typed_defaultBody H rfl (wf_body hw (by simp) (by simp)) hc hi hu

theorem typed_viaStruct {t : Ty} {c : Ctx} {f : Field} {s : Stream} {u : Stats} (hw : t.wf false = true) (hc : CtxOk cfg c) (hi : Inv s) (hu : u.fits cfg) :
    Post cfg u ((viaStruct o t c f).run (s, u)) fun v _ u' => TV env cfg (.body t) [v] c.depth u u' := by
  refine .bind (Q := fun _ s' u' => s' = s ∧ u' = u) hi (.lift hu fun _ _ => ⟨rfl, rfl⟩) ?_
  rintro - s' u' - - - ⟨rfl, rfl⟩
  exact (H.body t c s' u' hw hc hi hu).mono fun v s' u' _ _ h => h.1

omit H in
/-- A body that is a struct with one field, seen as an element. -/
theorem wrapped_elem {t : Ty} {v : V} {d : Nat} {u u' : Stats} (ht : t.isColl = true) (hb : t.isWrapped env = true) (hne : ∀ i, t ≠ .named i)
    (h : TV env cfg (.body t) [v] d u u') : TV env cfg (.elem t) [v] d u u' := by
  obtain ⟨k, h1, h2⟩ := h
  cases h1 with
  | bodyBoxed _ => simp [Ty.isWrapped] at hb
  | bodyUnit => simp [Ty.isWrapped] at hb
  | bodyTuple _ _ _ => simp [Ty.isWrapped] at hb
  | bodyUnknown _ => simp [Ty.isWrapped] at hb
  | bodyStruct _ _ => exact absurd rfl (hne _)
  | bodyWrapped _ g => exact ⟨_, .elemColl ht g, h2⟩

theorem typed_enumElement {i : Nat} {vs : List (UInt64 × Body)} {ca : Option Body} {c : Ctx} {f : Field} {s : Stream} {u : Stats} (he : env.decl i = .enum vs ca)
    (hw : (Decl.enum vs ca).wf) (hc : CtxOk cfg c) (hi : Inv s) (hu : u.fits cfg) :
    Post cfg u ((enumElement o vs ca c f).run (s, u)) fun v _ u' => TV env cfg (.elem (.named i)) [v] c.depth u u' := by
  refine .bind (Q := fun _ s' u' => s' = s ∧ u' = u) hi (.lift hu fun _ _ => ⟨rfl, rfl⟩) ?_
  rintro d s' u' - - - ⟨rfl, rfl⟩
  split
  · rename_i x hx
    refine .bind hi (typed_macroBody H (hw.1 x (List.mem_of_find?_eq_some hx)) hc hi hu) ?_
    rintro vs' s2 u2 - hu2 - ⟨⟨k, h1, h2⟩, -⟩
    have hd : x.1 = d := by have := List.find?_some hx; simpa using this
    exact .ret hu2 ⟨k, .elemVariant (b := x.2) he (by rw [hx, ← hd]) h1, h2⟩
  · rename_i hn
    split
    · rename_i b
      refine .bind hi (typed_macroBody H (hw.2 b rfl) hc hi hu) ?_
      rintro vs' s2 u2 - hu2 - ⟨⟨k, h1, h2⟩, -⟩
      refine .ret hu2 ⟨k, .elemCatchAll he ?_ h1, h2⟩
      intro x hx heq
      have := List.find?_eq_none.1 hn x hx
      simp [heq] at this
    · exact .fail hu (by simp)

theorem typed_default {t : Ty} {c : Ctx} {f : Field} {s : Stream} {u : Stats} (hw : t.wf true = true) (hc : CtxOk cfg c) (hi : Inv s) (hu : u.fits cfg)
    (hf : FieldAt s f) (hfin : ∀ d c1 v, FinOk env cfg [] d c1 t v → ∃ k, Needs env (.elem t) [v] k ∧ (d ≤ cfg.recursionLimit → d + k.depth ≤ cfg.recursionLimit) ∧ k.used.le c1) :
    Post cfg u ((defaultElement o t c f).run (s, u)) fun v _ u' => TV env cfg (.elem t) [v] c.depth u u' := by
  refine .bind hi (H.field t .init [] .zero c f s u (.inl hw) hc hi hu hf (by simp) .init) ?_
  rintro a s' u' hi' hu' - ⟨c1, g1, g2, g3⟩
  refine (H.finish t a [] c.depth c1 c s' u' (.inl hw) hu' g1).mono ?_
  rintro v s2 u2 - - ⟨rfl, rfl, hv⟩
  obtain ⟨k, h1, h2, h3, h4⟩ := hfin _ _ _ hv
  simp only [Stats.zero] at g2 g3
  exact ⟨k, h1, h2 hc.le, by omega, by omega⟩

omit H in
theorem isU8_eq {e : Ty} (h : e.isU8 = true) : e = u8 := by
  unfold Ty.isU8 at h; split at h
  · rfl
  · cases h

theorem typed_elementStep (henv : env.wf) (t : Ty) (c : Ctx) (f : Field) (s : Stream) (u : Stats) (hw : t.wf false = true) (hc : CtxOk cfg c) (hi : Inv s) (hu : u.fits cfg)
    (hf : FieldAt s f) : Post cfg u ((elementStep env o t c f).run (s, u)) fun v _ u' => TV env cfg (.elem t) [v] c.depth u u' := by
  have hcl := hc.le
  cases t with
  | prim p =>
    refine typed_default H rfl hc hi hu hf ?_
    rintro d c1 v ⟨k, h1, h2, h3⟩
    cases h1 with | fieldSingle _ h1 => exact ⟨k, h1, h2, h3⟩
  | unknownField zc =>
    refine typed_default H rfl hc hi hu hf ?_
    rintro d c1 v ⟨k, h1, h2, h3⟩
    cases h1 with | fieldSingle _ h1 => exact ⟨k, h1, h2, h3⟩
  | boxed t =>
    refine (H.element t c f s u hw hc hi hu hf).mono ?_
    rintro v s' u' - - ⟨k, h1, h2⟩
    exact ⟨k, .elemBoxed h1, h2⟩
  | small n e =>
    simp only [elementStep]
    split
    · rename_i he
      cases isU8_eq he
      refine .bind hi (Post.arrConv hi hu hf) ?_
      rintro vs s' u' - hu' hle ⟨d, rfl, h1, h2⟩
      exact .ret hu' ⟨_, .elemSmall h1 h2, by simp [Need.zero]; exact hcl, by simp [Need.zero]; exact hle.1, by simp [Need.zero]; exact hle.2⟩
    · rename_i he
      exact (typed_viaStruct H hw hc hi hu).mono fun v s' u' _ _ h => wrapped_elem (by simpa [Ty.isColl] using he) rfl (by simp) h
  | large n e =>
    simp only [elementStep]
    split
    · rename_i he
      cases isU8_eq he
      refine .bind hi (Post.arrConv hi hu hf) ?_
      rintro vs s' u' - hu' hle ⟨d, rfl, h1, h2⟩
      exact .ret hu' ⟨_, .elemLarge h1 h2, by simp [Need.zero]; exact hcl, by simp [Need.zero]; exact hle.1, by simp [Need.zero]; exact hle.2⟩
    · rename_i he
      exact (typed_viaStruct H hw hc hi hu).mono fun v s' u' _ _ h => wrapped_elem (by simpa [Ty.isColl] using he) rfl (by simp) h
  | vec e =>
    simp only [elementStep]
    split
    · rename_i he
      cases isU8_eq he
      refine .bind hi (Post.vecConv hc hi hu hf) ?_
      rintro vs s' u' - hu' hle ⟨d, rfl, h1, h2, h3⟩
      exact .ret hu' ⟨_, .elemVec h1, by simp [Need.storing]; exact hcl, by simp [Need.storing]; omega, by simp [Need.storing]; omega⟩
    · rename_i he
      exact (typed_viaStruct H hw hc hi hu).mono fun v s' u' _ _ h => wrapped_elem (by simpa [Ty.isColl] using he) rfl (by simp) h
  | coll k e => exact (typed_viaStruct H hw hc hi hu).mono fun v s' u' _ _ h => wrapped_elem rfl rfl (by simp) h
  | option e => exact (typed_viaStruct H hw hc hi hu).mono fun v s' u' _ _ h => wrapped_elem rfl rfl (by simp) h
  | map tk tv => exact (typed_viaStruct H hw hc hi hu).mono fun v s' u' _ _ h => wrapped_elem rfl rfl (by simp) h
  | tuple ts =>
    refine (typed_viaStruct H hw hc hi hu).mono ?_
    rintro v s' u' hle - ⟨k, h1, h2⟩
    by_cases hn : ts = []
    · subst hn
      cases h1 with
      | bodyUnit => exact ⟨_, .elemUnit, by simp [Need.zero]; exact hcl, by simp [Need.zero]; exact hle.1, by simp [Need.zero]; exact hle.2⟩
      | bodyTuple h _ _ => exact absurd rfl h
      | bodyWrapped h _ => simp [Ty.isWrapped] at h
    · exact ⟨k, .elemTuple hn h1, h2⟩
  | unknownFields zc =>
    refine (typed_viaStruct H hw hc hi hu).mono ?_
    rintro v s' u' hle - ⟨k, h1, h2⟩
    exact ⟨k, .elemUnknown h1, h2⟩
  | named i =>
    simp only [elementStep]
    split
    · rename_i b he
      have hwf := henv i
      rw [he] at hwf
      split
      · rename_i name t' ht
        refine .bind hi (Post.push hc hu) ?_
        rintro sub s' u' - - - ⟨rfl, rfl, hsub, hd⟩
        obtain ⟨hbf, htw⟩ := hwf.2 name t' ht
        refine .bind hi (H.element t' sub f s' u' htw hsub hi hu hf) ?_
        rintro v s2 u2 hi2 hu2 - ⟨k, h1, h2, h3, h4⟩
        refine .bind hi2 (typed_construct hu2) ?_
        rintro vs s3 u3 - hu3 - ⟨rfl, rfl, rfl, hck⟩
        refine .ret hu3 ⟨_, .elemDelegate he ht hbf hck h1, ?_, h3, h4⟩
        simp only [Need.nest]; omega
      · rename_i hnd
        refine (typed_viaStruct H hw hc hi hu).mono ?_
        rintro v s' u' hle - ⟨k, h1, h2⟩
        refine ⟨k, .elemStruct he ?_ h1, h2⟩
        cases hb : b.tail with
        | delegate name t' => exact absurd hb (hnd _ _)
        | _ => rfl
    · rename_i vs ca he
      exact typed_enumElement H he (he ▸ henv i) hc hi hu

omit H in
theorem Post.discard {α β : Type} {p : P β} {k : Kind} {c : Ctx} {s : Stream} {u : Stats} {R : β → Stream → Stats → Prop} {Q : α → Stream → Stats → Prop} (h : Post cfg u (p.run (s, u)) R) (hk : k ≠ .panic) :
    Post cfg u ((discard p c k : P α).run (s, u)) Q := by
  simp only [Fourleaf.discard, Prog.run, Ctx.fail]
  cases hp : p.run (s, u) with
  | ok a st => exact ⟨fun a s' u' h' => by simp at h', fun e s' u' h' => by simp only at h'; cases h'; exact ⟨(h.ok _ _ _ hp).2.1, hk⟩⟩
  | err e st =>
    cases e with
    | client e => exact ⟨fun a s' u' h' => by simp at h', fun e s' u' h' => by simp only at h'; cases h'; exact ⟨(h.err _ _ _ hp).1, hk⟩⟩
    | abort e => exact ⟨fun a s' u' h' => by simp at h', fun e s' u' h' => by simp at h'⟩

/-- `c` and the difference of `u` and `u'`. -/
def Stats.plus (c u u' : Stats) : Stats := ⟨c.collected + (u'.collected - u.collected), c.blob + (u'.blob - u.blob)⟩

omit H in
theorem Stats.plus_le {c u u' : Stats} (h : u.le u') : u.collected + (c.plus u u').collected ≤ u'.collected + c.collected ∧ u.blob + (c.plus u u').blob ≤ u'.blob + c.blob := by
  have h1 := h.1
  have h2 := h.2
  simp only [Stats.plus]; omega

omit H in
theorem needs_each_append {e : Ty} {v : V} {k' : Need} (hv : Needs env (.elem e) [v] k') : ∀ (vs : List V) (k : Need), Needs env (.each e) vs k →
    ∃ k2, Needs env (.each e) (vs ++ [v]) k2 ∧ k2.depth = max k.depth k'.depth ∧ k2.used.collected = k.used.collected + k'.used.collected ∧ k2.used.blob = k.used.blob + k'.used.blob
  | [], k, h => by
    cases h
    refine ⟨_, .eachCons hv .eachNil, ?_, ?_, ?_⟩ <;> simp [Need.seq, Need.zero]
  | x :: xs, k, h => by
    cases h with
    | eachCons h1 h2 =>
      obtain ⟨k2, g1, g2, g3, g4⟩ := needs_each_append hv xs _ h2
      refine ⟨_, .eachCons h1 g1, ?_, ?_, ?_⟩ <;> simp only [Need.seq] <;> omega

omit H in
/-- One more occurrence. -/
theorem EachOk.append {d : Nat} {c u u0 u' : Stats} {e : Ty} {vs : List V} {v : V} {n m : Nat} (h : EachOk env cfg d c e vs n)
    (hv : TV env cfg (.elem e) [v] d u0 u') (hm : u0.collected = u.collected + m) (hb : u0.blob = u.blob) : EachOk env cfg d (c.plus u u') e (vs ++ [v]) (n + m) := by
  obtain ⟨k, h1, h2, h3, h4⟩ := h
  obtain ⟨k', g1, g2, g3, g4⟩ := hv
  obtain ⟨k2, e1, e2, e3, e4⟩ := needs_each_append g1 vs k h1
  refine ⟨k2, e1, fun hd => ?_, ?_, ?_⟩
  · have := h2 hd; omega
  · simp only [Stats.plus]; omega
  · simp only [Stats.plus]; omega

omit H in
theorem EachOk.mono {d : Nat} {c u u' : Stats} {e : Ty} {vs : List V} {n : Nat} (h : EachOk env cfg d c e vs n) (hl : u.le u') : EachOk env cfg d (c.plus u u') e vs n := by
  obtain ⟨k, h1, h2, h3, h4⟩ := h
  have := hl.1; have := hl.2
  refine ⟨k, h1, h2, ?_, ?_⟩ <;> simp only [Stats.plus] <;> omega

omit H in
theorem map_replace_same {e : V} : ∀ {l : List V}, e.key ∉ l.map V.key → l.map (fun x => if x.key = e.key then e else x) = l
  | [], _ => rfl
  | x :: xs, h => by
    simp only [List.map_cons, List.mem_cons, not_or] at h
    rw [List.map_cons, map_replace_same h.2, if_neg fun hh => h.1 hh.symm]

omit H in
theorem needs_each_replace {t : Ty} {e : V} {ke : Need} (he : Needs env (.elem t) [e] ke) : ∀ (l : List V) (k : Need), Needs env (.each t) l k → (l.map V.key).Nodup →
    ∃ k2, Needs env (.each t) (l.map fun x => if x.key = e.key then e else x) k2 ∧ k2.depth ≤ max k.depth ke.depth ∧
      k2.used.collected ≤ k.used.collected + ke.used.collected ∧ k2.used.blob ≤ k.used.blob + ke.used.blob
  | [], k, h, _ => by cases h; exact ⟨_, .eachNil, by omega, by omega, by omega⟩
  | x :: xs, k, h, hn => by
    simp only [List.map_cons, List.nodup_cons] at hn
    cases h with
    | eachCons h1 h2 =>
      rw [List.map_cons]
      by_cases hk : x.key = e.key
      · rw [if_pos hk, map_replace_same (hk ▸ hn.1)]
        refine ⟨_, .eachCons he h2, ?_, ?_, ?_⟩ <;> simp only [Need.seq] <;> omega
      · rw [if_neg hk]
        obtain ⟨k2, g1, g2, g3, g4⟩ := needs_each_replace he xs _ h2 hn.2
        refine ⟨_, .eachCons h1 g1, ?_, ?_, ?_⟩ <;> simp only [Need.seq] <;> omega

omit H in
theorem map_replace_keys {e : V} {l : List V} : (l.map fun x => if x.key = e.key then e else x).map V.key = l.map V.key := by
  induction l with
  | nil => rfl
  | cons x xs ih =>
    simp only [List.map_cons, ih]
    split
    · rename_i h; rw [h]
    · rfl

omit H in
theorem EachOk.replace {d : Nat} {c u u0 u' : Stats} {t : Ty} {vs : List V} {v : V} {n : Nat} (h : EachOk env cfg d c t vs n) (hn : (vs.map V.key).Nodup)
    (hv : TV env cfg (.elem t) [v] d u0 u') (hm : u.collected ≤ u0.collected) (hb : u0.blob = u.blob) :
    EachOk env cfg d (c.plus u u') t (vs.map fun x => if x.key = v.key then v else x) n := by
  obtain ⟨k, h1, h2, h3, h4⟩ := h
  obtain ⟨k', g1, g2, g3, g4⟩ := hv
  obtain ⟨k2, e1, e2, e3, e4⟩ := needs_each_replace g1 vs k h1 hn
  refine ⟨k2, e1, fun hd => ?_, ?_, ?_⟩
  · have := h2 hd; omega
  · simp only [Stats.plus]; omega
  · simp only [Stats.plus]; omega

omit H in
theorem needs_unknown_append {known : List Byte} {zc : Bool} {tag : Byte} {v : V} {k' : Need} (htag : TagOk tag) (hnk : tag ∉ known) (hv : Needs env (.elem (.unknownField zc)) [v] k') :
    ∀ (vs : List V) (k : Need), Needs env (.unknown known zc) vs k →
    ∃ k2, Needs env (.unknown known zc) (vs ++ [.seq [.num tag.toNat, v]]) k2 ∧ k2.depth = max k.depth (k'.depth + 1) ∧
      k2.used.collected = k.used.collected + k'.used.collected + 1 ∧ k2.used.blob = k.used.blob + k'.used.blob
  | [], k, h => by
    cases h
    refine ⟨_, .unknownCons htag hnk hv .unknownNil, ?_, ?_, ?_⟩ <;> simp [Need.seq, Need.zero, Need.nest, Need.collecting]
  | x :: xs, k, h => by
    cases h with
    | unknownCons t1 t2 h1 h2 =>
      obtain ⟨k2, g1, g2, g3, g4⟩ := needs_unknown_append htag hnk hv xs _ h2
      refine ⟨_, .unknownCons t1 t2 h1 g1, ?_, ?_, ?_⟩ <;> simp only [Need.seq, Need.nest, Need.collecting] <;> omega

theorem typed_elem1 {t : Ty} {c : Ctx} {f : Field} {s : Stream} {u c0 : Stats} (hw : t.wf false = true) (hc : CtxOk cfg c) (hi : Inv s) (hu : u.fits cfg)
    (hf : FieldAt s f) {g : V → Acc} {A : Stats → Acc → Prop}
    (hA : ∀ v u', u.le u' → TV env cfg (.elem t) [v] c.depth u u' → A (c0.plus u u') (g v)) :
    Post cfg u ((Prog.bind (o.element t c f) fun v => .ret (g v) : P Acc).run (s, u)) fun a' _ u' => ∃ c1, A c1 a' ∧
      u.collected + c1.collected ≤ u'.collected + c0.collected ∧ u.blob + c1.blob ≤ u'.blob + c0.blob := by
  refine .bind hi (H.element t c f s u hw hc hi hu hf) ?_
  rintro v s' u' - hu' hle h
  exact .ret hu' ⟨_, hA v u' hle h, Stats.plus_le hle⟩

omit H in
/-- A value alone in an accumulator. -/
theorem TV.single {t : Ty} {v : V} {d : Nat} {c0 u u' : Stats} (h : TV env cfg (.elem t) [v] d u u') :
    ∃ w k, [v] = [w] ∧ Needs env (.elem t) [w] k ∧ d + k.depth ≤ cfg.recursionLimit ∧ k.used.le (c0.plus u u') := by
  obtain ⟨k, h1, h2, h3, h4⟩ := h
  refine ⟨v, k, rfl, h1, h2, ?_, ?_⟩ <;> simp only [Stats.plus] <;> omega

/-- `collect(1)`, then an element. -/
theorem typed_collected {t : Ty} {c : Ctx} {f : Field} {s : Stream} {u c0 : Stats} (hw : t.wf false = true) (hc : CtxOk cfg c) (hi : Inv s) (hu : u.fits cfg)
    (hf : FieldAt s f) {g : V → Acc} {A : Stats → Acc → Prop}
    (hA : ∀ v u0 u', u.le u' → u0.collected = u.collected + 1 → u0.blob = u.blob → TV env cfg (.elem t) [v] c.depth u0 u' → A (c0.plus u u') (g v)) :
    Post cfg u ((Prog.bind (c.collect 1) fun _ => Prog.bind (o.element t c f) fun v => .ret (g v) : P Acc).run (s, u)) fun a' _ u' => ∃ c1, A c1 a' ∧
      u.collected + c1.collected ≤ u'.collected + c0.collected ∧ u.blob + c1.blob ≤ u'.blob + c0.blob := by
  refine .bind hi (Post.collect hc hu) ?_
  rintro - s' u0 - hu0 - ⟨rfl, h1, h2⟩
  refine .bind hi (H.element t c f s' u0 hw hc hi hu0 hf) ?_
  rintro v s2 u' - hu' hle h
  have hle' : u.le u' := ⟨by have := hle.1; omega, by have := hle.2; omega⟩
  exact .ret hu' ⟨_, hA v u0 u' hle' h1 h2 h, Stats.plus_le hle'⟩

theorem typed_fieldMeth (t : Ty) (a : Acc) (known : List Byte) (c0 : Stats) (c : Ctx) (f : Field) (s : Stream) (u : Stats)
    (hw : t.wf true = true ∨ ∃ zc, t = .unknownFields zc) (hc : CtxOk cfg c) (hi : Inv s) (hu : u.fits cfg) (hf : FieldAt s f)
    (hk : f.tag ∉ known) (ha : AccOk env cfg known c.depth c0 t a) :
    Post cfg u ((fieldMeth o t a c f).run (s, u)) fun a' _ u' => ∃ c1, AccOk env cfg known c.depth c1 t a' ∧
      u.collected + c1.collected ≤ u'.collected + c0.collected ∧ u.blob + c1.blob ≤ u'.blob + c0.blob := by
  have hcl := hc.le
  cases t with
  | prim p =>
    simp only [fieldMeth]
    split
    · exact .fail hu (by simp)
    · refine .bind hi (Post.conv p hc hi hu hf) ?_
      rintro v s' u' - hu' hle ⟨n, h1, h2⟩
      have h3 := hle.1
      refine .ret hu' ⟨c0.plus u u', .inr ⟨v, _, rfl, .elemPrim h1, ?_, ?_, ?_⟩, Stats.plus_le hle⟩
      · simp [Need.storing]; exact hcl
      · simp [Need.storing]
      · simp only [Need.storing, Stats.plus]; omega
  | boxed t =>
    simp only [fieldMeth, AccOk] at ha ⊢
    have hw' : t.wf true = true := by
      rcases hw with h | ⟨zc, h⟩
      · simpa only [Ty.wf] using h
      · cases h
    exact H.field t a known c0 c f s u (.inl hw') hc hi hu hf hk ha
  | small n e =>
    have hw' : e.wf false = true := by
      rcases hw with h | ⟨zc, h⟩
      · simpa only [Ty.wf] using h
      · cases h
    simp only [fieldMeth]
    split
    · rename_i he
      split
      · exact .discard (Post.arrConv hi hu hf) (by simp)
      · refine .bind hi (Post.arrConv hi hu hf) ?_
        rintro vs s' u' - hu' hle ⟨d, rfl, h1, h2⟩
        refine .ret hu' ⟨c0.plus u u', ?_, Stats.plus_le hle⟩
        simp only [AccOk, he, if_true]
        exact .inl ⟨trivial, d, rfl, h1, h2⟩
    · rename_i he
      simp only [AccOk, he, Bool.false_eq_true, if_false] at ha
      split
      · exact .fail hu (by simp)
      · split
        · exact .fail hu (by simp)
        · rename_i hlen
          refine typed_elem1 H hw' hc hi hu hf fun v u' hle h => ?_
          simp only [AccOk, he, Bool.false_eq_true, if_false]
          exact ⟨trivial, by simp; omega, ha.2.2.append (m := 0) h rfl rfl⟩
  | large n e =>
    have hw' : e.wf false = true := by
      rcases hw with h | ⟨zc, h⟩
      · simpa only [Ty.wf] using h
      · cases h
    simp only [fieldMeth]
    split
    · rename_i he
      refine .bind hi (Post.arrConv hi hu hf) ?_
      rintro vs s' u' - hu' hle ⟨d, rfl, h1, h2⟩
      split
      · exact .fail hu' (by simp)
      · refine .ret hu' ⟨c0.plus u u', ?_, Stats.plus_le hle⟩
        simp only [AccOk, he, if_true]
        exact .inr ⟨d, rfl, h1, h2⟩
    · rename_i he
      simp only [AccOk, he, Bool.false_eq_true, if_false] at ha
      split
      · exact .fail hu (by simp)
      · rename_i hlen
        refine typed_elem1 H hw' hc hi hu hf fun v u' hle h => ?_
        simp only [AccOk, he, Bool.false_eq_true, if_false]
        exact ⟨by simp; omega, ha.2.append (m := 0) h rfl rfl⟩
  | tuple ts =>
    simp only [fieldMeth]
    split
    · exact .fail hu (by simp)
    · have hw' : (Ty.tuple ts).wf false = true := by
        rcases hw with h | ⟨zc, h⟩
        · exact Ty.wf_weaken h
        · cases h
      exact typed_elem1 H hw' hc hi hu hf fun v u' hle h => .inr h.single
  | named i =>
    simp only [fieldMeth]
    split
    · exact .fail hu (by simp)
    · exact typed_elem1 H rfl hc hi hu hf fun v u' hle h => .inr h.single
  | vec e =>
    have hw' : e.wf false = true := by
      rcases hw with h | ⟨zc, h⟩
      · simpa only [Ty.wf] using h
      · cases h
    simp only [fieldMeth]
    split
    · rename_i he
      split
      · exact .discard (Post.vecConv hc hi hu hf) (by simp)
      · refine .bind hi (Post.vecConv hc hi hu hf) ?_
        rintro vs s' u' - hu' hle ⟨d, rfl, h1, h2, h3⟩
        refine .ret hu' ⟨c0.plus u u', ?_, Stats.plus_le hle⟩
        simp only [AccOk, he, if_true]
        exact .inl ⟨trivial, d, rfl, h1, by simp only [Stats.plus]; omega⟩
    · rename_i he
      simp only [AccOk, he, Bool.false_eq_true, if_false] at ha
      refine typed_collected H hw' hc hi hu hf fun v u0 u' hle h1 h2 h => ?_
      simp only [AccOk, he, Bool.false_eq_true, if_false, List.length_append, List.length_singleton]
      exact ha.append h h1 h2
  | coll k e =>
    have hw' : e.wf false = true := by
      rcases hw with h | ⟨zc, h⟩
      · simpa only [Ty.wf] using h
      · cases h
    simp only [fieldMeth]
    refine typed_collected H hw' hc hi hu hf fun v u0 u' hle h1 h2 h => ?_
    cases k with
    | list =>
      simp only [AccOk, List.length_append, List.length_singleton] at ha ⊢
      exact ha.append h h1 h2
    | set =>
      simp only [AccOk] at ha ⊢
      unfold setInsert
      split
      · exact ⟨ha.1, ha.2.mono hle⟩
      · rename_i hv
        refine ⟨?_, by simp only [List.length_append, List.length_singleton]; exact ha.2.append h h1 h2⟩
        rw [List.nodup_append]
        exact ⟨ha.1, by simp, fun x hx y hy => by cases List.mem_singleton.1 hy; intro hxy; exact hv (hxy ▸ hx)⟩
  | option e =>
    have hw' : e.wf false = true := by
      rcases hw with h | ⟨zc, h⟩
      · simpa only [Ty.wf] using h
      · cases h
    simp only [fieldMeth]
    split
    · exact .fail hu (by simp)
    · rename_i hn
      simp only [AccOk] at ha
      refine typed_elem1 H hw' hc hi hu hf fun v u' hle h => ?_
      simp only [AccOk]
      have hnil : a.items = [] := Classical.not_not.1 hn
      have := ha.2.append (m := 0) h rfl rfl
      rw [hnil] at this
      exact ⟨by simp, this⟩
  | map tk tv =>
    have hw' : (Ty.tuple [tk, tv]).wf false = true := by
      rcases hw with h | ⟨zc, h⟩
      · simp only [Ty.wf, Bool.and_eq_true] at h
        simp [Ty.wf, Ty.wfs, h]
      · cases h
    simp only [fieldMeth]
    simp only [AccOk] at ha
    refine typed_collected H hw' hc hi hu hf fun v u0 u' hle h1 h2 h => ?_
    simp only [AccOk]
    unfold mapInsert
    split
    · refine ⟨by rw [map_replace_keys]; exact ha.1, ?_⟩
      rw [List.length_map]
      exact ha.2.replace ha.1 h (by omega) h2
    · rename_i hany
      refine ⟨?_, by simp only [List.length_append, List.length_singleton]; exact ha.2.append h h1 h2⟩
      rw [List.map_append, List.nodup_append]
      refine ⟨ha.1, by simp, fun x hx y hy => ?_⟩
      simp only [List.map_cons, List.map_nil, List.mem_singleton] at hy
      subst hy
      intro hxy
      obtain ⟨z, hz, rfl⟩ := List.mem_map.1 hx
      exact hany (List.any_eq_true.2 ⟨z, hz, by simpa using hxy⟩)
  | unknownFields zc =>
    simp only [fieldMeth]
    simp only [AccOk] at ha
    obtain ⟨k, a1, a2, a3, a4⟩ := ha
    refine typed_collected H (t := .unknownField zc) rfl hc hi hu hf fun v u0 u' hle h1 h2 ⟨k', g1, g2, g3, g4⟩ => ?_
    obtain ⟨k2, e1, e2, e3, e4⟩ := needs_unknown_append hf.tag hk g1 _ _ a1
    simp only [AccOk]
    refine ⟨k2, e1, fun hd => ?_, ?_, ?_⟩
    · have := a2 hd; omega
    · simp only [Stats.plus]; omega
    · simp only [Stats.plus]; omega
  | unknownField zc =>
    simp only [fieldMeth]
    split
    · exact .fail hu (by simp)
    · split
      · refine .ret hu ⟨c0, .inr ⟨_, _, rfl, .unkInt, ?_, ?_⟩, by omega, by omega⟩
        · simp [Need.zero]; exact hcl
        · exact ⟨by simp [Need.zero], by simp [Need.zero]⟩
      · refine typed_elem1 H (by unfold unkBlobTy; cases zc <;> rfl) hc hi hu hf fun v u' hle h => .inr ?_
        obtain ⟨k, h1, h2, h3, h4⟩ := h
        have hx : ∃ d : List Byte, v = .ofBytes d ∧ d.length < 2 ^ 64 ∧ (if zc then 0 else d.length) ≤ k.used.blob := by
          cases zc with
          | true =>
            simp only [unkBlobTy, if_true] at h1
            cases h1 with
            | elemBoxed h1 => cases h1 with
              | elemPrim h1 => cases h1 with | bytesRef h => exact ⟨_, rfl, h, by simp⟩
              | elemColl hh _ => simp [Ty.isColl] at hh
            | elemColl hh _ => simp [Ty.isColl] at hh
          | false =>
            simp only [unkBlobTy, Bool.false_eq_true, if_false] at h1
            cases h1 with
            | elemBoxed h1 => cases h1 with
              | elemVec h => exact ⟨_, rfl, h, by simp [Need.storing]⟩
              | elemColl hh _ => simp [Ty.isColl, Ty.isU8] at hh
            | elemColl hh _ => simp [Ty.isColl] at hh
        obtain ⟨d, rfl, hd, hb⟩ := hx
        refine ⟨_, _, rfl, .unkBlob hd, ?_, ?_, ?_⟩
        · simp [Need.storing]; exact hcl
        · simp [Need.storing]
        · simp only [Need.storing, Stats.plus]; omega
      · refine .bind hi (H.body (.unknownFields zc) c s u rfl hc hi hu) ?_
        rintro v s' u' - hu' hle ⟨⟨k, h1, h2, h3, h4⟩, -⟩
        refine .ret hu' ⟨c0.plus u u', .inr ⟨_, _, rfl, .unkStruct h1, h2, ?_, ?_⟩, Stats.plus_le hle⟩ <;> simp only [Stats.plus] <;> omega
      · refine .bind hi (H.body (.unknownFields zc) c s u rfl hc hi hu) ?_
        rintro v s' u' - hu' hle ⟨⟨k, h1, h2, h3, h4⟩, -⟩
        refine .ret hu' ⟨c0.plus u u', .inr ⟨_, _, rfl, .unkEnum h1, h2, ?_, ?_⟩, Stats.plus_le hle⟩ <;> simp only [Stats.plus] <;> omega

theorem typed_finishMeth (t : Ty) (a : Acc) (known : List Byte) (d : Nat) (c0 : Stats) (c : Ctx) (s : Stream) (u : Stats)
    (hw : t.wf true = true ∨ ∃ zc, t = .unknownFields zc) (hu : u.fits cfg) (ha : AccOk env cfg known d c0 t a) :
    Post cfg u ((finishMeth o t a c).run (s, u)) fun v s' u' => s' = s ∧ u' = u ∧ FinOk env cfg known d c0 t v := by
  have hsingle : t.isSingle = true → (a.items = [] ∨ ∃ v k, a.items = [v] ∧ Needs env (.elem t) [v] k ∧ d + k.depth ≤ cfg.recursionLimit ∧ k.used.le c0) →
      Post cfg u ((match a.items with | v :: _ => .ret v | [] => c.fail .requiredFieldMissing : P V).run (s, u))
        fun v s' u' => s' = s ∧ u' = u ∧ ∃ k, Needs env (.field t) [v] k ∧ (d ≤ cfg.recursionLimit → d + k.depth ≤ cfg.recursionLimit) ∧ k.used.le c0 := by
    intro h1 h2
    rcases h2 with h2 | ⟨v, k, h2, h3, h4, h5⟩
    · rw [h2]; exact .fail hu (by simp)
    · rw [h2]; exact .ret hu ⟨rfl, rfl, k, .fieldSingle h1 h3, fun _ => h4, h5⟩
  cases t with
  | prim _ => exact hsingle rfl ha
  | tuple _ => exact hsingle rfl ha
  | named _ => exact hsingle rfl ha
  | unknownField _ => exact hsingle rfl ha
  | boxed t =>
    simp only [AccOk] at ha
    simp only [finishMeth]
    have hw' : t.wf true = true := by
      rcases hw with h | ⟨zc, h⟩
      · simpa only [Ty.wf] using h
      · cases h
    refine (H.finish t a known d c0 c s u (.inl hw') hu ha).mono ?_
    rintro v s' u' - - ⟨rfl, rfl, h⟩
    refine ⟨rfl, rfl, ?_⟩
    simp only [FinOk]
    cases t with
    | unknownFields zc => simp [Ty.wf] at hw'
    | _ => obtain ⟨k, h1, h2⟩ := h; exact ⟨k, .fieldBoxed h1, h2⟩
  | small n e =>
    simp only [finishMeth, FinOk]
    simp only [AccOk] at ha
    split at ha
    · rename_i he
      cases isU8_eq he
      rcases ha with ⟨hf, b, h1, h2, h3⟩ | ⟨hf, h1⟩
      · rw [if_pos hf, h1]
        exact .ret hu ⟨rfl, rfl, _, .fieldSingle rfl (.elemSmall h2 h3), fun h => by simp [Need.zero]; exact h, by simp [Need.zero], by simp [Need.zero]⟩
      · rw [if_neg (by simp [hf]), h1]
        split
        · split <;> exact .fail hu (by simp)
        · rename_i hn
          have hn : n = 0 := by simpa using hn
          exact .ret hu ⟨rfl, rfl, _, .fieldSingle (v := .ofBytes []) rfl (.elemSmall (by simp [hn]) (by simp)), fun h => by simp [Need.zero]; exact h, by simp [Need.zero], by simp [Need.zero]⟩
    · rename_i he
      obtain ⟨hf, h1, k, g1, g2, g3, g4⟩ := ha
      rw [if_neg (by simp [hf])]
      split
      · split <;> exact .fail hu (by simp)
      · exact .ret hu ⟨rfl, rfl, k, .fieldSmall (by simpa using he) (by omega) g1, g2, by omega, by omega⟩
  | large n e =>
    simp only [finishMeth, FinOk]
    simp only [AccOk] at ha
    split at ha
    · rename_i he
      cases isU8_eq he
      split
      · split <;> exact .fail hu (by simp)
      · rename_i hn
        have : ∃ b : List Byte, a.items = items b ∧ b.length = n ∧ b.length < 2 ^ 64 := by
          rcases ha with h1 | h1
          · rw [h1] at hn
            exact ⟨[], h1, by simp at hn ⊢; omega, by simp⟩
          · exact h1
        obtain ⟨b, h1, h2, h3⟩ := this
        rw [h1]
        exact .ret hu ⟨rfl, rfl, _, .fieldSingle rfl (.elemLarge h2 h3), fun h => by simp [Need.zero]; exact h, by simp [Need.zero], by simp [Need.zero]⟩
    · rename_i he
      obtain ⟨h1, k, g1, g2, g3, g4⟩ := ha
      split
      · split <;> exact .fail hu (by simp)
      · exact .ret hu ⟨rfl, rfl, k, .fieldLarge (by simpa using he) (by omega) g1, g2, by omega, by omega⟩
  | vec e =>
    simp only [finishMeth, FinOk]
    simp only [AccOk] at ha
    split at ha
    · rename_i he
      rcases ha with ⟨hf, b, h1, h2, h3⟩ | ⟨hf, h1⟩
      · rw [if_neg (by simp [hf])]
        cases isU8_eq he
        rw [h1]
        exact .ret hu ⟨rfl, rfl, _, .fieldSingle rfl (.elemVec h2), fun h => by simp [Need.storing]; exact h, by simp [Need.storing], by simp [Need.storing]; exact h3⟩
      · rw [if_pos (by simp [hf, he])]
        exact .fail hu (by simp)
    · rename_i he
      obtain ⟨k, g1, g2, g3, g4⟩ := ha
      rw [if_neg (by simp [he])]
      exact .ret hu ⟨rfl, rfl, _, .fieldVec (by simpa using he) g1, g2, by simp only [Need.collecting]; omega, g4⟩
  | coll k e =>
    simp only [finishMeth, FinOk]
    cases k with
    | list =>
      obtain ⟨k, g1, g2, g3, g4⟩ := ha
      exact .ret hu ⟨rfl, rfl, _, .fieldList g1, g2, by simp only [Need.collecting]; omega, g4⟩
    | set =>
      obtain ⟨hn, k, g1, g2, g3, g4⟩ := ha
      exact .ret hu ⟨rfl, rfl, _, .fieldSet hn g1, g2, by simp only [Need.collecting]; omega, g4⟩
  | option e =>
    simp only [finishMeth, FinOk]
    obtain ⟨hn, k, g1, g2, g3, g4⟩ := ha
    exact .ret hu ⟨rfl, rfl, _, .fieldOption hn g1, g2, by omega, g4⟩
  | map tk tv =>
    simp only [finishMeth, FinOk]
    obtain ⟨hn, k, g1, g2, g3, g4⟩ := ha
    exact .ret hu ⟨rfl, rfl, _, .fieldMap hn g1, g2, by simp only [Need.collecting]; omega, g4⟩
  | unknownFields zc =>
    simp only [finishMeth, FinOk]
    obtain ⟨k, g1, g2, g3⟩ := ha
    exact .ret hu ⟨rfl, rfl, _, k, rfl, g1, g2, g3⟩
end

theorem ops_typed {env : Env} (henv : env.wf) (cfg : Config) : ∀ n, TOps env cfg (ops env n)
  | 0 =>
    { body := fun t c s u _ _ _ hu => .fail hu (by simp)
      element := fun t c f s u _ _ _ hu _ => .fail hu (by simp)
      field := fun t a known c0 c f s u _ _ _ hu _ _ _ => .fail hu (by simp)
      finish := fun t a known d c0 c s u _ hu _ => .fail hu (by simp) }
  | n + 1 =>
    { body := typed_bodyStep (ops_typed henv cfg n) henv
      element := typed_elementStep (ops_typed henv cfg n) henv
      field := typed_fieldMeth (ops_typed henv cfg n)
      finish := typed_finishMeth (ops_typed henv cfg n) }

/-- Whatever the input: the value is of the type, it takes no more than the configuration allows, the statistics respect the limits, no panic. -/
theorem deserialize_post {env : Env} (henv : env.wf) {t : Ty} (ht : t.wf false = true) (cfg : Config) {s : Stream} (hi : Inv s) :
    Post cfg .zero ((deserialize env t cfg).run (s, .zero)) fun v s' u' =>
      (∃ k, HasType env t v k ∧ k.depth ≤ cfg.recursionLimit ∧ k.used.le u') ∧ AtEnd s' := by
  refine ((ops_typed henv cfg (stackNeed env t cfg)).body t (.top cfg) s .zero ht ⟨rfl, Nat.zero_le _⟩ hi ⟨Nat.zero_le _, Nat.zero_le _⟩).mono ?_
  rintro v s' u' - - ⟨⟨k, h1, h2, h3, h4⟩, hend⟩
  simp only [Ctx.top, Stats.zero] at h2 h3 h4
  exact ⟨⟨k, h1, by omega, by omega, by omega⟩, hend⟩

end Fourleaf
