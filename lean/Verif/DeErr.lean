import Verif.DeProg

/-! # Errors of the deserialiser: their paths, and the stack it needs -/

namespace Fourleaf
open Spec

/-- A context as `Context::top` and `Context::push` make them. -/
structure Ctx.Ok (c : Ctx) : Prop where
  len : c.path.length = c.depth
  le : c.depth ≤ c.cfg.recursionLimit

/-- What holds of an error `e` raised under the context `c`; with `B` the stack sufficed. -/
structure EOk (c : Ctx) (B : Prop) (e : DErr) : Prop where
  pre : c.path <+: e.path
  len : e.path.length ≤ c.cfg.recursionLimit
  so : B → e.kind ≠ .stackOverflow
  unk : c.cfg.ignoreUnknownFields = true → ∀ tag pos, e.kind ≠ .unknownField tag pos

/-- All errors of the program are like this. -/
def Errs {α : Type} (c : Ctx) (B : Prop) (p : P α) : Prop :=
  ∀ st e st', p.run st = .err (.client e) st' → EOk c B e

namespace Errs
variable {α β : Type} {c : Ctx} {B : Prop}

theorem ret (a : α) : Errs c B (.ret a) := fun _ _ _ h => by simp [Prog.run] at h
theorem fail'' (hc : c.Ok) {k : Kind} (h : B → k ≠ .stackOverflow) (hu : c.cfg.ignoreUnknownFields = true → ∀ tag pos, k ≠ .unknownField tag pos) :
    Errs c B (c.fail k : P α) := fun _ _ _ h' => by
  simp only [Ctx.fail, Prog.run] at h'
  cases h'
  exact ⟨List.prefix_refl _, by rw [hc.len]; exact hc.le, h, hu⟩
theorem fail' (hc : c.Ok) (h : B → False) : Errs c B (c.fail .stackOverflow : P α) := fail'' hc (fun b => (h b).elim) (by simp)
theorem fail (hc : c.Ok) {k : Kind} (h : k ≠ .stackOverflow ∧ ∀ tag pos, k ≠ .unknownField tag pos) : Errs c B (c.fail k : P α) := fail'' hc (fun _ => h.1) fun _ => h.2
theorem bind {p : P α} {f : α → P β} (h : Errs c B p) (hf : ∀ a, Errs c B (f a)) : Errs c B (.bind p f) := by
  intro st e st' h'
  simp only [Prog.run] at h'
  cases hp : p.run st with
  | ok a st1 => rw [hp] at h'; exact hf a st1 e st' h'
  | err e1 st1 => rw [hp] at h'; cases h'; exact h st e _ hp
theorem call (hc : c.Ok) {o : Op β} : Errs c B (c.call o) := by
  intro st e st' h'
  simp only [Ctx.call, Prog.run] at h'
  cases ho : o.exec st.1 with
  | ok a s1 => rw [ho] at h'; cases h'
  | err e1 s1 =>
    rw [ho] at h'
    simp only at h'
    split at h'
    · cases h'
    · cases h'
      exact ⟨List.prefix_refl _, by rw [hc.len]; exact hc.le, fun _ => by simp, fun _ => by simp⟩
theorem lift (hc : c.Ok) (x : Except Err α) : Errs c B (c.lift x) := by
  cases x
  · exact fail hc (by simp)
  · exact ret _
theorem push (hc : c.Ok) (name : String) (pos : Nat) {f : Ctx → P α}
    (h : ∀ sub : Ctx, sub.Ok → c.path <+: sub.path → sub.cfg = c.cfg → sub.depth = c.depth + 1 → c.depth < c.cfg.recursionLimit → Errs c B (f sub)) :
    Errs c B (.bind (c.push name pos) f) := by
  unfold Ctx.push
  split
  · intro st e st' h'
    simp only [Prog.run, Ctx.fail] at h'
    cases h'
    exact ⟨List.prefix_refl _, by rw [hc.len]; exact hc.le, fun _ => by simp, fun _ => by simp⟩
  · rename_i hd
    intro st e st' h'
    simp only [Prog.run] at h'
    exact h ⟨c.path ++ [(name, pos)], c.depth + 1, c.cfg⟩ ⟨by simp [hc.len], by simp; omega⟩ (List.prefix_append _ _) rfl rfl (by omega) st e st' h'
theorem sub {p : P α} {c' : Ctx} {B' : Prop} (h : Errs c' B' p) (hp : c.path <+: c'.path) (hcfg : c'.cfg = c.cfg) (hB : B → B') : Errs c B p := by
  intro st e st' h'
  have := h st e st' h'
  exact ⟨hp.trans this.pre, by rw [← hcfg]; exact this.len, fun b => this.so (hB b), fun h => this.unk (by rw [hcfg]; exact h)⟩
theorem mono {p : P α} {B' : Prop} (h : Errs c B' p) (hB : B → B') : Errs c B p := h.sub (List.prefix_refl _) rfl hB
theorem unknownField (hc : c.Ok) (f : Field) : Errs c B (c.unknownField f) := by
  unfold Ctx.unknownField; split
  · exact ret _
  · rename_i h
    exact fail'' hc (by simp) fun h' => absurd h' h
theorem getU : Errs c B (.getU : P Stats) := fun _ _ _ h => by simp [Prog.run] at h
theorem setU (u : Stats) : Errs c B (.setU u : P Unit) := fun _ _ _ h => by simp [Prog.run] at h
theorem collect (hc : c.Ok) (n : Nat) : Errs c B (c.collect n) :=
  getU.bind fun u => by
    split
    · exact fail hc (by simp)
    · split
      · exact fail hc (by simp)
      · exact setU _
theorem blob (hc : c.Ok) (n : Nat) : Errs c B (c.blob n) :=
  getU.bind fun u => by
    split
    · exact fail hc (by simp)
    · split
      · exact fail hc (by simp)
      · exact setU _
theorem skip (hc : c.Ok) (f : Field) : Errs c B (c.skip f) := by
  unfold Ctx.skip; split
  · exact call hc
  · exact call hc
  · exact ret _
  · exact ret _
theorem extSlice (hc : c.Ok) (f : Field) : Errs c B (extSlice c f) := (lift hc _).bind fun _ => call hc
theorem ownedBlob (hc : c.Ok) (f : Field) : Errs c B (ownedBlob c f) := (lift hc _).bind fun _ => (blob hc _).bind fun _ => call hc
theorem vecConv (hc : c.Ok) (f : Field) : Errs c B (vecConv c f) := (ownedBlob hc _).bind fun _ => ret _
theorem arrConv (n : Nat) (hc : c.Ok) (f : Field) : Errs c B (arrConv n c f) :=
  (lift hc _).bind fun _ => (call hc (o := .remaining)).bind fun _ => by
    split
    · exact fail hc (by simp)
    · refine (call hc (o := .readFully n)).bind fun _ => ?_
      split
      · exact fail hc (by simp)
      · exact ret _
theorem discard (hc : c.Ok) {p : P β} {k : Kind} (hk : k ≠ .stackOverflow ∧ ∀ tag pos, k ≠ .unknownField tag pos) : Errs c B (discard p c k : P α) := by
  intro st e st' h'
  simp only [Fourleaf.discard, Prog.run, Ctx.fail] at h'
  split at h' <;> rename_i hx
  · cases h'
    exact ⟨List.prefix_refl _, by rw [hc.len]; exact hc.le, fun _ => hk.1, fun _ => hk.2⟩
  · split at hx <;> cases hx; cases h'
theorem conv (p : Prim) (hc : c.Ok) (f : Field) : Errs c B (p.conv c f) := by
  cases p with
  | phantom | bool | int k => exact (lift hc _).bind fun _ => ret _
  | char =>
    refine (lift hc _).bind fun a => ?_
    split
    · exact ret _
    · exact fail hc (by simp)
  | string =>
    refine (ownedBlob hc _).bind fun a => ?_
    split
    · exact ret _
    · exact fail hc (by simp)
  | strRef =>
    refine (extSlice hc _).bind fun a => ?_
    split
    · exact ret _
    · exact fail hc (by simp)
  | bytesRef => exact (extSlice hc _).bind fun _ => ret _
end Errs

/-! ## The stack -/

/-- Stack frames for the calls at one level of the context. -/
def Ty.bodW (t : Ty) : Nat := t.size + 1
def Ty.eleW : Ty → Nat
  | .prim _ => 2
  | .boxed t => t.eleW + 1
  | .unknownField _ => 7
  | t => t.size + 2
def Ty.fldW : Ty → Nat
  | .prim _ => 1
  | .boxed t => t.fldW + 1
  | .small _ e | .large _ e | .vec e | .coll _ e | .option e => e.eleW + 1
  | .tuple ts => (Ty.tuple ts).eleW + 1
  | .named i => (Ty.named i).eleW + 1
  | .map k v => (Ty.tuple [k, v]).eleW + 1
  | .unknownFields zc => (Ty.unknownField zc).eleW + 1
  | .unknownField _ => 6

theorem Ty.eleW_le : ∀ t : Ty, t.eleW ≤ t.size + 6
  | .prim _ => by simp [eleW, size]
  | .boxed t => by have := eleW_le t; simp only [eleW, size]; omega
  | .unknownField _ => by simp [eleW, size]
  | .small .. | .large .. | .tuple _ | .vec _ | .coll .. | .option _ | .map .. | .unknownFields _ | .named _ => by simp [eleW]
theorem Ty.fldW_le : ∀ t : Ty, t.fldW ≤ t.size + 7
  | .prim _ => by simp [fldW, size]
  | .boxed t => by have := fldW_le t; simp only [fldW, size]; omega
  | .unknownField _ => by simp [fldW, size]
  | .small _ e | .large _ e | .vec e | .coll _ e | .option e => by have := eleW_le e; simp only [fldW, size]; omega
  | .tuple ts => by have := eleW_le (.tuple ts); simp only [fldW]; omega
  | .named i => by have := eleW_le (.named i); simp only [fldW]; omega
  | .map k v => by have := eleW_le (.tuple [k, v]); simp only [fldW, size, sizes] at *; omega
  | .unknownFields zc => by simp [fldW, size, eleW]
theorem Ty.size_pos : ∀ t : Ty, 1 ≤ t.size := by intro t; cases t <;> simp [size]

/-- With `n` frames, calls that need `w` at depth `d` are possible. -/
def Room (S n limit d w : Nat) : Prop := (limit - d) * (S + 7) + w ≤ n

theorem Room.same {S n limit d w w' : Nat} (h : Room S (n + 1) limit d w) (hw : w' + 1 ≤ w) : Room S n limit d w' := by
  unfold Room at *; omega
theorem Room.deeper {S n limit d w w' : Nat} (h : Room S (n + 1) limit d w) (hd : d < limit) (hw : w' ≤ S + 7) (hw1 : 1 ≤ w) : Room S n limit (d + 1) w' := by
  unfold Room at *
  have : (limit - d) * (S + 7) = (limit - (d + 1)) * (S + 7) + (S + 7) := by
    rw [show limit - d = limit - (d + 1) + 1 by omega, Nat.add_mul, Nat.one_mul]
  omega

/-- The methods, with `n` frames of stack. -/
structure ErrOps (S n : Nat) (o : Ops) : Prop where
  body : ∀ t c, c.Ok → Errs c (t.size ≤ S ∧ Room S n c.cfg.recursionLimit c.depth t.bodW) (o.body t c)
  field : ∀ t a c f, c.Ok → Errs c (t.size ≤ S ∧ Room S n c.cfg.recursionLimit c.depth t.fldW) (o.field t a c f)
  element : ∀ t c f, c.Ok → Errs c (t.size ≤ S ∧ Room S n c.cfg.recursionLimit c.depth t.eleW) (o.element t c f)
  finish : ∀ t a c, c.Ok → Errs c (t.size ≤ S ∧ Room S n c.cfg.recursionLimit c.depth t.size) (o.finish t a c)

theorem run_fieldLoop_errs {c : Ctx} {B : Prop} {o : Ops} {fs : List FieldDecl} {unk : Option Bool} (hc : c.Ok)
    (h : ∀ st f, Errs c B (fieldStep o fs unk c st f)) : Errs c B (fieldLoop o fs unk c) := by
  intro st e st' h'
  simp only [fieldLoop, Prog.run] at h'
  generalize (st.1.inner.data.length - st.1.inner.pos + 2) = fuel at h'
  generalize LoopSt.init = b at h'
  induction fuel generalizing b st with
  | zero => simp only [runLoop] at h'; cases h'
  | succ fuel ih =>
    simp only [runLoop] at h'
    split at h'
    · split at h'
      · cases h'
      · simp only [Ctx.fail, Prog.run] at h'
        cases h'
        exact ⟨List.prefix_refl _, by rw [hc.len]; exact hc.le, fun _ => by simp, fun _ => by simp⟩
    · cases h'
    · rename_i el s1 hp
      split at h'
      · rename_i e2 st2 hb
        cases h'
        cases el with
        | field f => exact ((h b f).bind fun _ => .ret _) _ _ _ hb
        | _ => simp [Prog.run] at hb
      · exact ih _ _ h'
      · cases h'

section
variable {S n : Nat} {o : Ops} (H : ErrOps S n o)
include H

/-- Types of declared fields are small. -/
def Small (S : Nat) (fs : List FieldDecl) : Prop := ∀ d ∈ fs, d.ty.size ≤ S

omit H in
theorem deep_le {S : Nat} {t : Ty} (h : t.size ≤ S) : t.fldW ≤ S + 7 ∧ t.bodW ≤ S + 7 ∧ t.eleW ≤ S + 7 ∧ t.size ≤ S + 7 := by
  have := t.fldW_le; have := t.eleW_le; unfold Ty.bodW; omega

theorem errs_fieldStep {c : Ctx} (hc : c.Ok) {w : Nat} (hw : 1 ≤ w) (fs : List FieldDecl) (unk : Option Bool) (st : LoopSt) (f : Field) :
    Errs c (1 ≤ S ∧ Small S fs ∧ Room S (n + 1) c.cfg.recursionLimit c.depth w) (fieldStep o fs unk c st f) := by
  unfold fieldStep
  split
  · split
    · exact .ret _
    · rename_i d hd
      refine .push hc _ _ fun sub hs hp hcfg hdep hlt => ?_
      refine ((H.field _ _ _ _ hs).sub hp hcfg fun b => ?_).bind fun _ => .ret _
      have hsz := b.2.1 d (List.mem_of_getElem? hd)
      exact ⟨hsz, by rw [hdep, hcfg]; exact b.2.2.deeper hlt (deep_le hsz).1 hw⟩
  · split
    · refine .push hc _ _ fun sub hs hp hcfg hdep hlt => ?_
      refine ((H.field _ _ _ _ hs).sub hp hcfg fun b => ?_).bind fun _ => .ret _
      have hsz : (Ty.unknownFields true).size ≤ S := b.1
      exact ⟨hsz, by rw [hdep, hcfg]; exact b.2.2.deeper hlt (deep_le hsz).1 hw⟩
    · exact (Errs.unknownField hc _).bind fun _ => (Errs.skip hc _).bind fun _ => .ret _

theorem errs_fieldLoop {c : Ctx} (hc : c.Ok) {w : Nat} (hw : 1 ≤ w) (fs : List FieldDecl) (unk : Option Bool) :
    Errs c (1 ≤ S ∧ Small S fs ∧ Room S (n + 1) c.cfg.recursionLimit c.depth w) (fieldLoop o fs unk c) :=
  run_fieldLoop_errs hc fun st f => errs_fieldStep H hc hw fs unk st f

theorem errs_finishAll {c : Ctx} (hc : c.Ok) {w : Nat} (hw : 1 ≤ w) (st : LoopSt) : ∀ (fs : List FieldDecl) (i : Nat),
    Errs c (1 ≤ S ∧ Small S fs ∧ Room S (n + 1) c.cfg.recursionLimit c.depth w) (finishAll o c st i fs) := by
  intro fs
  induction fs with
  | nil => intro i; exact .ret _
  | cons d ds ih =>
    intro i
    refine (Errs.call (o := .pos) hc).bind fun _ => .push hc _ _ fun sub hs hp hcfg hdep hlt => ?_
    refine ((H.finish _ _ _ hs).sub hp hcfg fun b => ?_).bind fun _ => ((ih _).mono fun b => ⟨b.1, fun x hx => b.2.1 x (.tail _ hx), b.2.2⟩).bind fun _ => .ret _
    have hsz := b.2.1 d (.head _)
    exact ⟨hsz, by rw [hdep, hcfg]; exact b.2.2.deeper hlt (deep_le hsz).2.2.2 hw⟩

theorem errs_structBody {c : Ctx} (hc : c.Ok) {w : Nat} (hw : 1 ≤ w) (fs : List FieldDecl) :
    Errs c (1 ≤ S ∧ Small S fs ∧ Room S (n + 1) c.cfg.recursionLimit c.depth w) (structBody o fs c) :=
  (errs_fieldLoop H hc hw _ _).bind fun _ => errs_finishAll H hc hw _ _ _

theorem errs_defaultBody {c : Ctx} (hc : c.Ok) {w : Nat} (hw : 1 ≤ w) (t : Ty) :
    Errs c (t.size ≤ S ∧ Room S (n + 1) c.cfg.recursionLimit c.depth w) (defaultBody o t c) :=
  ((errs_structBody H hc hw _).bind fun _ => .ret _).mono fun b => ⟨Nat.le_trans t.size_pos b.1, by
    intro d hd
    simp only [List.mem_singleton] at hd
    subst hd
    exact b.1, b.2⟩

omit H in
theorem errs_construct {c : Ctx} {B : Prop} (hc : c.Ok) (b : Body) (vs : List V) : Errs c B (construct b c vs) := by
  unfold construct; split
  · exact .ret _
  · exact .fail hc (by simp)

/-- The types of a body are small. -/
def Body.Small (S : Nat) (b : Body) : Prop := ∀ t ∈ b.types, t.size ≤ S

omit H in
theorem Body.Small.fields {b : Body} (h : b.Small S) : Fourleaf.Small S b.fields := fun d hd =>
  h _ (List.mem_append.2 (.inl (List.mem_map.2 ⟨d, hd, rfl⟩)))

theorem errs_macroBody {c : Ctx} (hc : c.Ok) {w : Nat} (hw : 1 ≤ w) (b : Body) :
    Errs c (1 ≤ S ∧ b.Small S ∧ Room S (n + 1) c.cfg.recursionLimit c.depth w) (macroBody o b c) := by
  unfold macroBody
  have hL := fun unk => (errs_fieldLoop H hc hw b.fields unk).mono (B := 1 ≤ S ∧ b.Small S ∧ Room S (n + 1) c.cfg.recursionLimit c.depth w) fun x => ⟨x.1, x.2.1.fields, x.2.2⟩
  have hF := fun st => (errs_finishAll H hc hw st b.fields 0).mono (B := 1 ≤ S ∧ b.Small S ∧ Room S (n + 1) c.cfg.recursionLimit c.depth w) fun x => ⟨x.1, x.2.1.fields, x.2.2⟩
  split
  · exact (hL _).bind fun _ => (hF _).bind fun _ => errs_construct hc _ _
  · rename_i name t ht
    refine (Errs.call (o := .pos) hc).bind fun _ => .push hc _ _ fun sub hs hp hcfg hdep hlt => ?_
    refine ((H.body _ _ hs).sub hp hcfg fun b => ?_).bind fun _ => (hF _).bind fun _ => errs_construct hc _ _
    have hsz := b.2.1 t (by simp [Body.types, ht])
    exact ⟨hsz, by rw [hdep, hcfg]; exact b.2.2.deeper hlt (deep_le hsz).2.1 hw⟩
  · refine (hL _).bind fun _ => (hF _).bind fun _ => (Errs.call (o := .pos) hc).bind fun _ => .push hc _ _ fun sub hs hp hcfg hdep hlt => ?_
    refine ((H.finish _ _ _ hs).sub hp hcfg fun b => ?_).bind fun _ => errs_construct hc _ _
    have hsz : (Ty.unknownFields true).size ≤ S := b.1
    exact ⟨hsz, by rw [hdep, hcfg]; exact b.2.2.deeper hlt (deep_le hsz).2.2.2 hw⟩

omit H in
theorem Env.small (env : Env) (hS : env.size ≤ S) (i : Nat) : ∀ t ∈ (env.decl i).types, t.size ≤ S :=
  fun t ht => Nat.le_trans (env.bound i t ht) hS

omit H in
theorem sizes_mem {ts : List Ty} : ∀ t ∈ ts, t.size ≤ Ty.sizes ts := by
  induction ts with
  | nil => intro t h; cases h
  | cons a l ih =>
    intro t h
    simp only [Ty.sizes]
    cases h with
    | head => omega
    | tail _ h => have := ih t h; omega

omit H in
theorem small_tuple {ts : List Ty} (h : (Ty.tuple ts).size ≤ S) : Small S (tupleFields ts) := by
  intro d hd
  simp only [tupleFields, List.mem_mapIdx] at hd
  obtain ⟨i, hi, rfl⟩ := hd
  have := sizes_mem ts[i] (List.getElem_mem _)
  simp only [Ty.size] at h
  simp only; omega

theorem errs_bodyStep (env : Env) (hS : env.size ≤ S) (t : Ty) {c : Ctx} (hc : c.Ok) :
    Errs c (t.size ≤ S ∧ Room S (n + 1) c.cfg.recursionLimit c.depth t.bodW) (bodyStep env o t c) := by
  have hD := errs_defaultBody H hc (w := t.bodW) (by simp [Ty.bodW]) t
  cases t with
  | boxed t => exact (H.body _ _ hc).mono fun b => ⟨by have := b.1; simp only [Ty.size] at this; omega, b.2.same (by simp [Ty.bodW, Ty.size])⟩
  | tuple ts =>
    exact ((errs_structBody H hc (w := (Ty.tuple ts).bodW) (by simp [Ty.bodW]) _).bind fun _ => .ret _).mono fun b =>
      ⟨Nat.le_trans (Ty.size_pos _) b.1, small_tuple b.1, b.2⟩
  | unknownFields zc =>
    refine Errs.bind ((errs_fieldLoop H hc (w := (Ty.unknownFields zc).bodW) (by simp [Ty.bodW]) _ _).mono fun b => ⟨Nat.le_trans (Ty.size_pos _) b.1, nofun, b.2⟩) fun _ => ?_
    exact (H.finish _ _ _ hc).mono fun b => ⟨b.1, b.2.same (by simp [Ty.bodW, Ty.size])⟩
  | named i =>
    simp only [bodyStep]
    split
    · rename_i b he
      refine ((errs_macroBody H hc (w := (Ty.named i).bodW) (by simp [Ty.bodW]) b).mono fun x => ⟨Nat.le_trans (Ty.size_pos _) x.1, ?_, x.2⟩).bind fun _ => .ret _
      have := env.small hS i
      rw [he] at this
      exact this
    · exact hD
  | _ => exact hD

theorem errs_viaStruct {t : Ty} {c : Ctx} (hc : c.Ok) (f : Field) {w : Nat} (hw : t.bodW + 1 ≤ w) :
    Errs c (t.size ≤ S ∧ Room S (n + 1) c.cfg.recursionLimit c.depth w) (viaStruct o t c f) :=
  (Errs.lift hc _).bind fun _ => (H.body _ _ hc).mono fun b => ⟨b.1, b.2.same hw⟩

theorem errs_enumElement {vs : List (UInt64 × Body)} {ca : Option Body} (hs : ∀ t ∈ (Decl.enum vs ca).types, t.size ≤ S) {c : Ctx} (hc : c.Ok) (f : Field) {w : Nat} (hw : 1 ≤ w) :
    Errs c (1 ≤ S ∧ Room S (n + 1) c.cfg.recursionLimit c.depth w) (enumElement o vs ca c f) := by
  refine (Errs.lift hc _).bind fun d => ?_
  split
  · rename_i v hv
    refine ((errs_macroBody H hc hw _).mono fun x => ⟨x.1, fun t ht => hs t ?_, x.2⟩).bind fun _ => .ret _
    exact List.mem_append.2 (.inl (List.mem_flatMap.2 ⟨v, List.mem_of_find?_eq_some hv, ht⟩))
  · split
    · refine ((errs_macroBody H hc hw _).mono fun x => ⟨x.1, fun t ht => hs t ?_, x.2⟩).bind fun _ => .ret _
      exact List.mem_append.2 (.inr ht)
    · exact .fail hc (by simp)

theorem errs_elementStep (env : Env) (hS : env.size ≤ S) (t : Ty) {c : Ctx} (f : Field) (hc : c.Ok) :
    Errs c (t.size ≤ S ∧ Room S (n + 1) c.cfg.recursionLimit c.depth t.eleW) (elementStep env o t c f) := by
  cases t with
  | prim p => exact ((H.field _ _ _ _ hc).mono fun b => ⟨b.1, b.2.same (by simp [Ty.eleW, Ty.fldW])⟩).bind fun _ => (H.finish _ _ _ hc).mono fun b => ⟨b.1, b.2.same (by simp [Ty.eleW, Ty.size])⟩
  | unknownField _ => exact ((H.field _ _ _ _ hc).mono fun b => ⟨b.1, b.2.same (by simp [Ty.eleW, Ty.fldW])⟩).bind fun _ => (H.finish _ _ _ hc).mono fun b => ⟨b.1, b.2.same (by simp [Ty.eleW, Ty.size])⟩
  | boxed t => exact (H.element _ _ _ hc).mono fun b => ⟨by have := b.1; simp only [Ty.size] at this; omega, b.2.same (by simp [Ty.eleW])⟩
  | small n e | large n e =>
    simp only [elementStep]; split
    · exact (Errs.arrConv _ hc _).bind fun _ => .ret _
    · exact errs_viaStruct H hc f (by simp [Ty.eleW, Ty.bodW])
  | vec e =>
    simp only [elementStep]; split
    · exact (Errs.vecConv hc _).bind fun _ => .ret _
    · exact errs_viaStruct H hc f (by simp [Ty.eleW, Ty.bodW])
  | named i =>
    have hT := env.small hS i
    simp only [elementStep]
    split
    · rename_i b he
      rw [he] at hT
      split
      · rename_i name t' ht
        refine .push hc _ _ fun sub hs hp hcfg hdep hlt => ?_
        refine ((H.element _ _ _ hs).sub hp hcfg fun x => ?_).bind fun _ => (errs_construct hc _ _).bind fun _ => .ret _
        have hsz := hT t' (by simp [Decl.types, Body.types, ht])
        exact ⟨hsz, by rw [hdep, hcfg]; exact x.2.deeper hlt (deep_le hsz).2.2.1 (by simp [Ty.eleW])⟩
      · exact errs_viaStruct H hc f (by simp [Ty.eleW, Ty.bodW])
    · rename_i vs ca he
      rw [he] at hT
      exact (errs_enumElement H hT hc f (w := (Ty.named i).eleW) (by simp [Ty.eleW])).mono fun b => ⟨Nat.le_trans (Ty.size_pos _) b.1, b.2⟩
  | _ => exact errs_viaStruct H hc f (by simp [Ty.eleW, Ty.bodW])

theorem errs_fieldMeth (hS : 3 ≤ S) (t : Ty) (a : Acc) {c : Ctx} (f : Field) (hc : c.Ok) :
    Errs c (t.size ≤ S ∧ Room S (n + 1) c.cfg.recursionLimit c.depth t.fldW) (fieldMeth o t a c f) := by
  have hel : ∀ {w : Nat} (E : Ty) (g : V → Acc), E.eleW + 1 ≤ w → (t.size ≤ S → E.size ≤ S) →
      Errs c (t.size ≤ S ∧ Room S (n + 1) c.cfg.recursionLimit c.depth w) (.bind (o.element E c f) fun w => .ret (g w)) := fun E g hw hs =>
    ((H.element _ _ _ hc).mono fun b => ⟨hs b.1, b.2.same hw⟩).bind fun _ => .ret _
  have hco : ∀ {w : Nat} (E : Ty) (g : V → Acc), E.eleW + 1 ≤ w → (t.size ≤ S → E.size ≤ S) →
      Errs c (t.size ≤ S ∧ Room S (n + 1) c.cfg.recursionLimit c.depth w) (.bind (c.collect 1) fun _ => .bind (o.element E c f) fun w => .ret (g w)) := fun E g hw hs =>
    (Errs.collect hc _).bind fun _ => hel E g hw hs
  have hsz : ∀ e : Ty, (e.size + 1 ≤ S → e.size ≤ S) := fun e => by omega
  cases t with
  | prim p =>
    simp only [fieldMeth]; split
    · exact .fail hc (by simp)
    · exact (Errs.conv _ hc _).bind fun _ => .ret _
  | boxed t => exact (H.field _ _ _ _ hc).mono fun b => ⟨hsz _ b.1, b.2.same (by simp [Ty.fldW])⟩
  | small n e =>
    simp only [fieldMeth]; split
    · split
      · exact .discard hc (by simp)
      · exact (Errs.arrConv _ hc _).bind fun _ => .ret _
    · split
      · exact .fail hc (by simp)
      · split
        · exact .fail hc (by simp)
        · exact hel e _ (Nat.le_refl _) (hsz e)
  | large n e =>
    simp only [fieldMeth]; split
    · refine (Errs.arrConv _ hc _).bind fun _ => ?_
      split
      · exact .fail hc (by simp)
      · exact .ret _
    · split
      · exact .fail hc (by simp)
      · exact hel e _ (Nat.le_refl _) (hsz e)
  | vec e =>
    simp only [fieldMeth]; split
    · split
      · exact .discard hc (by simp)
      · exact (Errs.vecConv hc _).bind fun _ => .ret _
    · exact hco e _ (Nat.le_refl _) (hsz e)
  | coll k e => exact hco e _ (Nat.le_refl _) (hsz e)
  | map k v => exact hco (.tuple [k, v]) _ (Nat.le_refl _) (by simp only [Ty.size, Ty.sizes]; omega)
  | unknownFields zc => exact hco (.unknownField zc) _ (Nat.le_refl _) id
  | unknownField zc =>
    simp only [fieldMeth]; split
    · exact .fail hc (by simp)
    · split
      · exact .ret _
      · exact hel _ _ (by simp only [unkBlobTy]; split <;> simp [Ty.eleW, Ty.fldW, Ty.size]) (fun _ => by simp only [unkBlobTy]; split <;> simp only [Ty.size] <;> omega)
      · exact ((H.body _ _ hc).mono fun b => ⟨b.1, b.2.same (by simp [Ty.bodW, Ty.fldW, Ty.size])⟩).bind fun _ => .ret _
      · exact ((H.body _ _ hc).mono fun b => ⟨b.1, b.2.same (by simp [Ty.bodW, Ty.fldW, Ty.size])⟩).bind fun _ => .ret _
  | tuple _ | named _ =>
    simp only [fieldMeth]; split
    · exact .fail hc (by simp)
    · exact hel _ _ (Nat.le_refl _) id
  | option e =>
    simp only [fieldMeth]; split
    · exact .fail hc (by simp)
    · exact hel _ _ (Nat.le_refl _) (hsz e)

theorem errs_finishMeth (t : Ty) (a : Acc) {c : Ctx} (hc : c.Ok) :
    Errs c (t.size ≤ S ∧ Room S (n + 1) c.cfg.recursionLimit c.depth t.size) (finishMeth o t a c) := by
  unfold finishMeth
  repeat' split
  all_goals first
    | exact .ret _
    | exact .fail hc (by simp)
    | exact (H.finish _ _ _ hc).mono fun b => ⟨by have := b.1; simp only [Ty.size] at this; omega, b.2.same (by simp [Ty.size])⟩
end

theorem ops_errs (env : Env) {S : Nat} (hS : env.size ≤ S) (hS3 : 3 ≤ S) : ∀ n, ErrOps S n (ops env n)
  | 0 => by
    have h0 : ∀ {limit d w : Nat}, 1 ≤ w → ¬ Room S 0 limit d w := by intro limit d w h h'; unfold Room at h'; omega
    exact ⟨fun t c hc => .fail' hc fun b => absurd b.2 (h0 (by simp [Ty.bodW])),
      fun t a c f hc => .fail' hc fun b => absurd b.2 (h0 (by cases t <;> simp [Ty.fldW])),
      fun t c f hc => .fail' hc fun b => absurd b.2 (h0 (by cases t <;> simp [Ty.eleW])),
      fun t a c hc => .fail' hc fun b => absurd b.2 (h0 t.size_pos)⟩
  | n + 1 =>
    have ih := ops_errs env hS hS3 n
    ⟨fun t _ hc => errs_bodyStep ih env hS t hc, fun t a _ f hc => errs_fieldMeth ih hS3 t a f hc,
      fun t _ f hc => errs_elementStep ih env hS t f hc, fun t a _ hc => errs_finishMeth ih t a hc⟩

theorem room_top (env : Env) (t : Ty) (cfg : Config) : ∃ S, env.size ≤ S ∧ 3 ≤ S ∧ t.size ≤ S ∧ Room S (stackNeed env t cfg) cfg.recursionLimit 0 t.bodW := by
  refine ⟨max env.size t.size + 3, by omega, by omega, by omega, ?_⟩
  unfold Room stackNeed Ty.bodW
  have h : (cfg.recursionLimit - 0) * (max env.size t.size + 3 + 7) ≤ cfg.recursionLimit * (4 * (max env.size t.size + 6)) :=
    Nat.mul_le_mul (Nat.sub_le _ _) (by omega)
  rw [Nat.add_mul, Nat.one_mul]
  omega

theorem deserialize_errs (env : Env) (t : Ty) (cfg : Config) : Errs (.top cfg) True (deserialize env t cfg) := by
  obtain ⟨S, h1, h2, h3, h4⟩ := room_top env t cfg
  exact ((ops_errs env h1 h2 _).body t (.top cfg) ⟨rfl, Nat.zero_le _⟩).mono fun _ => ⟨h3, h4⟩

end Fourleaf
