import Verif.DeErr

/-! # The names in the paths of errors

Every frame in the path of an error comes from the context, or has one of the names which the deserialiser pushes: names of declared fields, `top`, `field_0`, …, or the decimal digits of a tag. -/

namespace Fourleaf
open Spec

/-- All errors of the program have the frames of the context `c`, and frames with names in `N`. -/
def Named {α : Type} (N : String → Prop) (c : Ctx) (p : P α) : Prop :=
  ∀ st e st', p.run st = .err (.client e) st' → ∀ x ∈ e.path, x ∈ c.path ∨ N x.1

namespace Named
variable {α β : Type} {c : Ctx} {N : String → Prop}

theorem ret (a : α) : Named N c (.ret a) := fun _ _ _ h => by simp [Prog.run] at h
theorem fail {k : Kind} : Named N c (c.fail k : P α) := fun _ _ _ h' => by
  simp only [Ctx.fail, Prog.run] at h'
  cases h'
  exact fun x hx => .inl hx
theorem bind {p : P α} {f : α → P β} (h : Named N c p) (hf : ∀ a, Named N c (f a)) : Named N c (.bind p f) := by
  intro st e st' h'
  simp only [Prog.run] at h'
  cases hp : p.run st with
  | ok a st1 => rw [hp] at h'; exact hf a st1 e st' h'
  | err e1 st1 => rw [hp] at h'; cases h'; exact h st e _ hp
theorem call {o : Op β} : Named N c (c.call o) := by
  intro st e st' h'
  simp only [Ctx.call, Prog.run] at h'
  cases ho : o.exec st.1 with
  | ok a s1 => rw [ho] at h'; cases h'
  | err e1 s1 =>
    rw [ho] at h'
    simp only at h'
    split at h'
    · cases h'
    · cases h'
      exact fun x hx => .inl hx
theorem lift (x : Except Err α) : Named N c (c.lift x) := by
  cases x
  · exact fail
  · exact ret _
theorem push {name : String} (hn : N name) (pos : Nat) {f : Ctx → P α} (h : ∀ sub : Ctx, (∀ x ∈ sub.path, x ∈ c.path ∨ N x.1) → Named N c (f sub)) :
    Named N c (.bind (c.push name pos) f) := by
  unfold Ctx.push
  split
  · intro st e st' h'
    simp only [Prog.run, Ctx.fail] at h'
    cases h'
    exact fun x hx => .inl hx
  · intro st e st' h'
    simp only [Prog.run] at h'
    refine h ⟨c.path ++ [(name, pos)], c.depth + 1, c.cfg⟩ ?_ st e st' h'
    intro x hx
    rcases List.mem_append.1 hx with hx | hx
    · exact .inl hx
    · rw [List.mem_singleton.1 hx]; exact .inr hn
theorem sub {p : P α} {c' : Ctx} (h : Named N c' p) (hp : ∀ x ∈ c'.path, x ∈ c.path ∨ N x.1) : Named N c p := by
  intro st e st' h' x hx
  exact (h st e st' h' x hx).elim (hp x) .inr
theorem unknownField (f : Field) : Named N c (c.unknownField f) := by
  unfold Ctx.unknownField; split
  · exact ret _
  · exact fail
theorem getU : Named N c (.getU : P Stats) := fun _ _ _ h => by simp [Prog.run] at h
theorem setU (u : Stats) : Named N c (.setU u : P Unit) := fun _ _ _ h => by simp [Prog.run] at h
theorem collect (n : Nat) : Named N c (c.collect n) :=
  getU.bind fun u => by
    split
    · exact fail
    · split
      · exact fail
      · exact setU _
theorem blob (n : Nat) : Named N c (c.blob n) :=
  getU.bind fun u => by
    split
    · exact fail
    · split
      · exact fail
      · exact setU _
theorem skip (f : Field) : Named N c (c.skip f) := by
  unfold Ctx.skip; split
  · exact call
  · exact call
  · exact ret _
  · exact ret _
theorem extSlice (f : Field) : Named N c (extSlice c f) := (lift _).bind fun _ => call
theorem ownedBlob (f : Field) : Named N c (ownedBlob c f) := (lift _).bind fun _ => (blob _).bind fun _ => call
theorem vecConv (f : Field) : Named N c (vecConv c f) := (ownedBlob _).bind fun _ => ret _
theorem arrConv (n : Nat) (f : Field) : Named N c (arrConv n c f) :=
  (lift _).bind fun _ => (call (o := .remaining)).bind fun _ => by
    split
    · exact fail
    · refine (call (o := .readFully n)).bind fun _ => ?_
      split
      · exact fail
      · exact ret _
theorem discard {p : P β} {k : Kind} : Named N c (discard p c k : P α) := by
  intro st e st' h'
  simp only [Fourleaf.discard, Prog.run, Ctx.fail] at h'
  split at h' <;> rename_i hx
  · cases h'
    exact fun x hx => .inl hx
  · split at hx <;> cases hx; cases h'
theorem conv (p : Prim) (f : Field) : Named N c (p.conv c f) := by
  cases p with
  | phantom | bool | int k => exact (lift _).bind fun _ => ret _
  | char =>
    refine (lift _).bind fun a => ?_
    split
    · exact ret _
    · exact fail
  | string =>
    refine (ownedBlob _).bind fun a => ?_
    split
    · exact ret _
    · exact fail
  | strRef =>
    refine (extSlice _).bind fun a => ?_
    split
    · exact ret _
    · exact fail
  | bytesRef => exact (extSlice _).bind fun _ => ret _
end Named

structure NamedOps (N : String → Prop) (o : Ops) : Prop where
  body : ∀ t c, Named N c (o.body t c)
  field : ∀ t a c f, Named N c (o.field t a c f)
  element : ∀ t c f, Named N c (o.element t c f)
  finish : ∀ t a c, Named N c (o.finish t a c)

/-- The names which are not declared. -/
structure Builtin (N : String → Prop) : Prop where
  top : N "top"
  tuple : ∀ i : Nat, N s!"field_{i}"
  tag : ∀ b : Byte, N (tagName b)

/-- The names of the fields of a body. -/
def Body.names (b : Body) : List String :=
  b.fields.map (·.name) ++ match b.tail with | .plain => [] | .delegate n _ => [n] | .unknown n _ => [n]
/-- The names of the fields of a declaration. -/
def Decl.names : Decl → List String
  | .struct b => b.names
  | .enum vs ca => vs.flatMap (fun v => v.2.names) ++ (match ca with | some b => b.names | none => [])

theorem run_fieldLoop_named {N : String → Prop} {c : Ctx} {o : Ops} {fs : List FieldDecl} {unk : Option Bool}
    (h : ∀ st f, Named N c (fieldStep o fs unk c st f)) : Named N c (fieldLoop o fs unk c) := by
  intro st e st' h'
  simp only [fieldLoop, Prog.run] at h'
  generalize (st.1.inner.data.length - st.1.inner.pos + 2) = fuel at h'
  generalize LoopSt.init = b at h'
  induction fuel generalizing b st with
  | zero => simp only [runLoop] at h'; cases h'
  | succ fuel ih =>
    simp only [runLoop] at h'
    split at h'
    · split at h'
      · cases h'
      · simp only [Ctx.fail, Prog.run] at h'
        cases h'
        exact fun x hx => .inl hx
    · cases h'
    · rename_i el s1 hp
      split at h'
      · rename_i e2 st2 hb
        cases h'
        cases el with
        | field f => exact ((h b f).bind fun _ => .ret _) _ _ _ hb
        | _ => simp [Prog.run] at hb
      · exact ih _ _ h'
      · cases h'

section
variable {N : String → Prop} {o : Ops} (H : NamedOps N o) (hN : Builtin N)
include H hN

theorem named_fieldStep {c : Ctx} (fs : List FieldDecl) (hfs : ∀ d ∈ fs, N d.name) (unk : Option Bool) (st : LoopSt) (f : Field) : Named N c (fieldStep o fs unk c st f) := by
  unfold fieldStep
  split
  · split
    · exact .ret _
    · rename_i d hd
      exact .push (hfs d (List.mem_of_getElem? hd)) _ fun sub hs => ((H.field _ _ _ _).sub hs).bind fun _ => .ret _
  · split
    · exact .push (hN.tag _) _ fun sub hs => ((H.field _ _ _ _).sub hs).bind fun _ => .ret _
    · exact (Named.unknownField _).bind fun _ => (Named.skip _).bind fun _ => .ret _

theorem named_fieldLoop {c : Ctx} (fs : List FieldDecl) (hfs : ∀ d ∈ fs, N d.name) (unk : Option Bool) : Named N c (fieldLoop o fs unk c) :=
  run_fieldLoop_named fun st f => named_fieldStep H hN fs hfs unk st f

omit hN in
theorem named_finishAll {c : Ctx} (st : LoopSt) : ∀ (fs : List FieldDecl) (_ : ∀ d ∈ fs, N d.name) (i : Nat), Named N c (finishAll o c st i fs) := by
  intro fs
  induction fs with
  | nil => intro _ i; exact .ret _
  | cons d ds ih =>
    intro hfs i
    refine (Named.call (o := .pos)).bind fun _ => .push (hfs d (.head _)) _ fun sub hs => ?_
    exact ((H.finish _ _ _).sub hs).bind fun _ => (ih (fun x hx => hfs x (.tail _ hx)) _).bind fun _ => .ret _

theorem named_structBody {c : Ctx} (fs : List FieldDecl) (hfs : ∀ d ∈ fs, N d.name) : Named N c (structBody o fs c) :=
  (named_fieldLoop H hN _ hfs _).bind fun _ => named_finishAll H _ _ hfs _

theorem named_defaultBody {c : Ctx} (t : Ty) : Named N c (defaultBody o t c) :=
  (named_structBody H hN _ fun d hd => by rw [List.mem_singleton.1 hd]; exact hN.top).bind fun _ => .ret _

omit H hN in
theorem named_construct {c : Ctx} (b : Body) (vs : List V) : Named N c (construct b c vs) := by
  unfold construct; split
  · exact .ret _
  · exact .fail

theorem named_macroBody {c : Ctx} (b : Body) (hb : ∀ n ∈ b.names, N n) : Named N c (macroBody o b c) := by
  have hfs : ∀ d ∈ b.fields, N d.name := fun d hd => hb _ (List.mem_append.2 (.inl (List.mem_map.2 ⟨d, hd, rfl⟩)))
  unfold macroBody
  split
  · exact (named_fieldLoop H hN _ hfs _).bind fun _ => (named_finishAll H _ _ hfs _).bind fun _ => named_construct _ _
  · rename_i name t ht
    refine (Named.call (o := .pos)).bind fun _ => .push (hb name (by simp [Body.names, ht])) _ fun sub hs => ?_
    exact ((H.body _ _).sub hs).bind fun _ => (named_finishAll H _ _ hfs _).bind fun _ => named_construct _ _
  · rename_i name zc ht
    refine (named_fieldLoop H hN _ hfs _).bind fun _ => (named_finishAll H _ _ hfs _).bind fun _ => (Named.call (o := .pos)).bind fun _ =>
      .push (hb name (by simp [Body.names, ht])) _ fun sub hs => ?_
    exact ((H.finish _ _ _).sub hs).bind fun _ => named_construct _ _

theorem named_bodyStep (env : Env) (henv : ∀ i, ∀ n ∈ (env.decl i).names, N n) (t : Ty) {c : Ctx} : Named N c (bodyStep env o t c) := by
  have hD := named_defaultBody H hN (c := c) t
  cases t with
  | boxed t => exact H.body _ _
  | tuple ts =>
    refine (named_structBody H hN _ fun d hd => ?_).bind fun _ => .ret _
    simp only [tupleFields, List.mem_mapIdx] at hd
    obtain ⟨i, hi, rfl⟩ := hd
    exact hN.tuple i
  | unknownFields zc => exact (named_fieldLoop H hN _ (fun d hd => by cases hd) _).bind fun _ => H.finish _ _ _
  | named i =>
    simp only [bodyStep]
    split
    · rename_i b he
      have hE := henv i
      rw [he] at hE
      exact (named_macroBody H hN b hE).bind fun _ => .ret _
    · exact hD
  | _ => exact hD

omit hN in
theorem named_viaStruct {t : Ty} {c : Ctx} (f : Field) : Named N c (viaStruct o t c f) := (Named.lift _).bind fun _ => H.body _ _

theorem named_enumElement {vs : List (UInt64 × Body)} {ca : Option Body} (hs : ∀ n ∈ (Decl.enum vs ca).names, N n) {c : Ctx} (f : Field) :
    Named N c (enumElement o vs ca c f) := by
  refine (Named.lift _).bind fun d => ?_
  split
  · rename_i v hv
    refine (named_macroBody H hN _ fun n hn => hs n ?_).bind fun _ => .ret _
    exact List.mem_append.2 (.inl (List.mem_flatMap.2 ⟨v, List.mem_of_find?_eq_some hv, hn⟩))
  · split
    · refine (named_macroBody H hN _ fun n hn => hs n ?_).bind fun _ => .ret _
      exact List.mem_append.2 (.inr hn)
    · exact .fail

theorem named_elementStep (env : Env) (henv : ∀ i, ∀ n ∈ (env.decl i).names, N n) (t : Ty) {c : Ctx} (f : Field) : Named N c (elementStep env o t c f) := by
  cases t with
  | prim p => exact (H.field _ _ _ _).bind fun _ => H.finish _ _ _
  | unknownField _ => exact (H.field _ _ _ _).bind fun _ => H.finish _ _ _
  | boxed t => exact H.element _ _ _
  | small n e | large n e =>
    simp only [elementStep]; split
    · exact (Named.arrConv _ _).bind fun _ => .ret _
    · exact named_viaStruct H f
  | vec e =>
    simp only [elementStep]; split
    · exact (Named.vecConv _).bind fun _ => .ret _
    · exact named_viaStruct H f
  | named i =>
    have hE := henv i
    simp only [elementStep]
    split
    · rename_i b he
      rw [he] at hE
      split
      · rename_i name t' ht
        refine .push (hE name (by simp [Decl.names, Body.names, ht])) _ fun sub hs => ?_
        exact ((H.element _ _ _).sub hs).bind fun _ => (named_construct _ _).bind fun _ => .ret _
      · exact named_viaStruct H f
    · rename_i vs ca he
      rw [he] at hE
      exact named_enumElement H hN hE f
  | _ => exact named_viaStruct H f

omit hN in
theorem named_fieldMeth (t : Ty) (a : Acc) {c : Ctx} (f : Field) : Named N c (fieldMeth o t a c f) := by
  have hel : ∀ (E : Ty) (g : V → Acc), Named N c (.bind (o.element E c f) fun w => .ret (g w)) := fun E g => (H.element _ _ _).bind fun _ => .ret _
  have hco : ∀ (E : Ty) (g : V → Acc), Named N c (.bind (c.collect 1) fun _ => .bind (o.element E c f) fun w => .ret (g w)) := fun E g =>
    (Named.collect _).bind fun _ => hel E g
  cases t with
  | prim p =>
    simp only [fieldMeth]; split
    · exact .fail
    · exact (Named.conv _ _).bind fun _ => .ret _
  | boxed t => exact H.field _ _ _ _
  | small n e =>
    simp only [fieldMeth]; split
    · split
      · exact .discard
      · exact (Named.arrConv _ _).bind fun _ => .ret _
    · split
      · exact .fail
      · split
        · exact .fail
        · exact hel e _
  | large n e =>
    simp only [fieldMeth]; split
    · refine (Named.arrConv _ _).bind fun _ => ?_
      split
      · exact .fail
      · exact .ret _
    · split
      · exact .fail
      · exact hel e _
  | vec e =>
    simp only [fieldMeth]; split
    · split
      · exact .discard
      · exact (Named.vecConv _).bind fun _ => .ret _
    · exact hco e _
  | coll k e => exact hco e _
  | map k v => exact hco (.tuple [k, v]) _
  | unknownFields zc => exact hco (.unknownField zc) _
  | unknownField zc =>
    simp only [fieldMeth]; split
    · exact .fail
    · split
      · exact .ret _
      · exact hel _ _
      · exact (H.body _ _).bind fun _ => .ret _
      · exact (H.body _ _).bind fun _ => .ret _
  | tuple _ | named _ =>
    simp only [fieldMeth]; split
    · exact .fail
    · exact hel _ _
  | option e =>
    simp only [fieldMeth]; split
    · exact .fail
    · exact hel _ _

omit hN in
theorem named_finishMeth (t : Ty) (a : Acc) {c : Ctx} : Named N c (finishMeth o t a c) := by
  unfold finishMeth
  repeat' split
  all_goals first
    | exact .ret _
    | exact .fail
    | exact H.finish _ _ _
end

theorem ops_named {N : String → Prop} (hN : Builtin N) (env : Env) (henv : ∀ i, ∀ n ∈ (env.decl i).names, N n) : ∀ n, NamedOps N (ops env n)
  | 0 => ⟨fun _ _ => .fail, fun _ _ _ _ => .fail, fun _ _ _ => .fail, fun _ _ _ => .fail⟩
  | n + 1 =>
    have ih := ops_named hN env henv n
    ⟨fun t _ => named_bodyStep ih hN env henv t, fun t a _ f => named_fieldMeth ih t a f, fun t _ f => named_elementStep ih hN env henv t f, fun t a _ => named_finishMeth ih t a⟩

end Fourleaf
