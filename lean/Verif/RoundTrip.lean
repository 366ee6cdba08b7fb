import Verif.ConvLemmas
import Verif.TreeErr

/-! # Serialising a value gives a tree from which deserialisation gives the value back -/

namespace Fourleaf
open Spec

/-- The result is `a` at the cost `c`, unless the stack is too small. -/
def Gives {α : Type} (m : PM α) (a : α) (c : Stats) : Prop := (∃ c', m = .fail .stackOverflow c') ∨ m = .ret a c

theorem Gives.ret {α : Type} (a : α) (c : Stats) : Gives (.ret a c) a c := .inr rfl
theorem Gives.so {α : Type} (a : α) (c : Stats) : Gives (.fail .stackOverflow) a c := .inl ⟨_, rfl⟩
theorem Gives.bind {α β : Type} {m : PM α} {f : α → PM β} {a : α} {b : β} {c1 c2 : Stats} (h : Gives m a c1) (h' : Gives (f a) b c2) :
    Gives (m.bind f) b (c1 + c2) := by
  rcases h with ⟨c', h⟩ | h
  · rw [h]; exact .inl ⟨c', rfl⟩
  · rw [h]
    rcases h' with ⟨c', h'⟩ | h'
    · exact .inl ⟨_, PM.bind_retf h'⟩
    · exact .inr (PM.bind_retc h')
theorem Gives.bind' {α β : Type} {m : PM α} {f : α → PM β} {a : α} {b : β} {c1 c2 c : Stats} (h : Gives m a c1) (h' : Gives (f a) b c2) (hc : c1 + c2 = c) :
    Gives (m.bind f) b c := hc ▸ h.bind h'
/-- The continuation costs nothing. -/
theorem Gives.map {α β : Type} {m : PM α} {f : α → PM β} {a : α} {b : β} {c : Stats} (h : Gives m a c) (h' : Gives (f a) b .zero) :
    Gives (m.bind f) b c := by
  have := h.bind h'; rwa [Stats.add_zero] at this
/-- The first part costs nothing. -/
theorem Gives.pre {α β : Type} {m : PM α} {f : α → PM β} {a : α} {b : β} {c : Stats} (h : Gives m a .zero) (h' : Gives (f a) b c) :
    Gives (m.bind f) b c := by
  have := h.bind h'; rwa [Stats.zero_add] at this

/-! ## Trees of written elements -/

/-- The elements are the fields, and something may follow. -/
def PreOf (l : Fields) (ts : List Tok) : Prop := ∀ l' ts', BodyOf l' ts' → BodyOf (l ++ l') (ts ++ ts')

theorem PreOf.nil : PreOf [] [] := fun _ _ h => h
theorem PreOf.append {l l' : Fields} {ts ts' : List Tok} (h : PreOf l ts) (h' : PreOf l' ts') : PreOf (l ++ l') (ts ++ ts') := by
  intro m us hm; rw [List.append_assoc, List.append_assoc]; exact h _ _ (h' _ _ hm)
theorem PreOf.close {l : Fields} {ts : List Tok} (h : PreOf l ts) : BodyOf l (ts ++ [.endStruct]) := by
  have := h _ _ .nil; rwa [List.append_nil] at this

/-- The calls write the fields `l` (validly). -/
structure Writes (cs : List WCall) (l : Fields) : Prop where
  pre : PreOf l (callToks cs)
  valid : ∀ c ∈ cs, ∀ t ∈ c.toks, t.Valid

/-- The calls write the fields `l` and the end of the struct. -/
structure WritesBody (cs : List WCall) (l : Fields) : Prop where
  body : BodyOf l (callToks cs)
  valid : ∀ c ∈ cs, ∀ t ∈ c.toks, t.Valid

theorem callToks_append (a b : List WCall) : callToks (a ++ b) = callToks a ++ callToks b := by simp [callToks]
theorem callToks_cons (a : WCall) (b : List WCall) : callToks (a :: b) = a.toks ++ callToks b := by simp [callToks]

theorem Writes.nil : Writes [] [] := ⟨.nil, nofun⟩
theorem Writes.append {a b : List WCall} {l l' : Fields} (h : Writes a l) (h' : Writes b l') : Writes (a ++ b) (l ++ l') := by
  refine ⟨by rw [callToks_append]; exact h.pre.append h'.pre, fun c hc => ?_⟩
  rcases List.mem_append.1 hc with hc | hc
  · exact h.valid c hc
  · exact h'.valid c hc
theorem Writes.body {a b : List WCall} {l l' : Fields} (h : Writes a l) (h' : WritesBody b l') : WritesBody (a ++ b) (l ++ l') := by
  refine ⟨by rw [callToks_append]; exact h.pre _ _ h'.body, fun c hc => ?_⟩
  rcases List.mem_append.1 hc with hc | hc
  · exact h.valid c hc
  · exact h'.valid c hc
theorem WritesBody.ende : WritesBody [.endStruct] [] := ⟨.nil, by intro c hc; cases List.mem_singleton.1 hc; intro t ht; cases List.mem_singleton.1 ht; trivial⟩
theorem Writes.close {a : List WCall} {l : Fields} (h : Writes a l) : WritesBody (a ++ [.endStruct]) l := by
  have := h.body WritesBody.ende; rwa [List.append_nil] at this
theorem Writes.int {w : WCall} {tag : Byte} {n : UInt64} (ht : TagOk tag) (h : w.toks = [.int tag n]) : Writes [w] [(tag, .int n)] := by
  refine ⟨fun l' ts' h' => ?_, ?_⟩
  · simp only [callToks, List.flatMap_cons, List.flatMap_nil, h]; exact .int h'
  · intro c hc; cases List.mem_singleton.1 hc; rw [h]; intro t ht'; cases List.mem_singleton.1 ht'; exact ht
theorem Writes.blob {tag : Byte} {d : List Byte} (ht : TagOk tag) (hd : d.length < 2 ^ 64) : Writes [.blobData tag d] [(tag, .blob d)] := by
  refine ⟨fun l' ts' h' => .blob h', ?_⟩
  intro c hc; cases List.mem_singleton.1 hc; intro t ht'; cases List.mem_singleton.1 ht'; exact ⟨ht, hd⟩
theorem WritesBody.struct {tag : Byte} {b : List WCall} {l : Fields} (ht : TagOk tag) (h : WritesBody b l) : Writes (.struct tag :: b) [(tag, .struct l)] := by
  refine ⟨fun l' ts' h' => .struct h.body h', ?_⟩
  intro c hc
  rcases List.mem_cons.1 hc with rfl | hc
  · intro t ht'; cases List.mem_singleton.1 ht'; exact ht
  · exact h.valid c hc
theorem WritesBody.enum {tag : Byte} {disc : UInt64} {b : List WCall} {l : Fields} (ht : TagOk tag) (h : WritesBody b l) : Writes (.enum tag disc :: b) [(tag, .enum disc l)] := by
  refine ⟨fun l' ts' h' => .enum h.body h', ?_⟩
  intro c hc
  rcases List.mem_cons.1 hc with rfl | hc
  · intro t ht'; cases List.mem_singleton.1 ht'; exact ht
  · exact h.valid c hc

/-! ## Limits -/

/-- The configuration admits the need at the depth `d` (except for the totals). -/
structure Adm (k : Need) (cfg : Config) (d : Nat) : Prop where
  depth : k.depth + d ≤ cfg.recursionLimit
  lenient : k.lenient = true → cfg.ignoreUnknownFields = true

theorem Adm.nest {k : Need} {cfg : Config} {d : Nat} (h : Adm k.nest cfg d) : Adm k cfg (d + 1) ∧ d < cfg.recursionLimit := by
  have := h.depth
  simp only [Need.nest] at this
  exact ⟨⟨by omega, h.lenient⟩, by omega⟩
theorem Adm.left {k k' : Need} {cfg : Config} {d : Nat} (h : Adm (k.seq k') cfg d) : Adm k cfg d := by
  have := h.depth
  simp only [Need.seq] at this
  exact ⟨by omega, fun hl => h.lenient (by simp [Need.seq, hl])⟩
theorem Adm.right {k k' : Need} {cfg : Config} {d : Nat} (h : Adm (k.seq k') cfg d) : Adm k' cfg d := by
  have := h.depth
  simp only [Need.seq] at this
  exact ⟨by omega, fun hl => h.lenient (by simp [Need.seq, hl])⟩
theorem Adm.collecting {k : Need} {n : Nat} {cfg : Config} {d : Nat} (h : Adm (k.collecting n) cfg d) : Adm k cfg d := ⟨h.depth, h.lenient⟩

theorem pPush_ok {cfg : Config} {d : Nat} (h : d < cfg.recursionLimit) : pPush cfg d = .ret (d + 1) := by
  unfold pPush; rw [if_neg (by omega)]

theorem Stats.mk_add (a b c d : Nat) : (⟨a, b⟩ : Stats) + ⟨c, d⟩ = ⟨a + c, b + d⟩ := rfl

/-! ## Reading the occurrences of a field -/

/-- `deserialize_field` on each occurrence. -/
def pAccum (o : POps) (t : Ty) (d : Nat) (tag : Byte) : Acc → List Val → PM Acc
  | a, [] => .ret a
  | a, v :: vs => PM.bind (o.field t a d tag v) fun a' => pAccum o t d tag a' vs

theorem pAccum_congr {o o' : POps} {t t' : Ty} {d : Nat} {tag : Byte} (h : ∀ a v, o.field t a d tag v = o'.field t' a d tag v) :
    ∀ a vs, pAccum o t d tag a vs = pAccum o' t' d tag a vs
  | _, [] => rfl
  | a, v :: vs => by
    simp only [pAccum, h]
    exact congrArg _ (funext fun a' => pAccum_congr h a' vs)

/-- The occurrences `vals` are read as the value `v`. -/
def ReadsField (env : Env) (cfg : Config) (t : Ty) (d : Nat) (vals : List Val) (v : V) (c : Stats) : Prop :=
  ∃ acc, (∀ n tag, Gives (pAccum (pops env cfg n) t d tag .init vals) acc c) ∧ ∀ n d', Gives ((pops env cfg n).finish t acc d') v .zero

/-- Each occurrence is read as the value. -/
inductive EachReads (env : Env) (cfg : Config) (t : Ty) (d : Nat) : List V → List Val → Stats → Prop where
  | nil : EachReads env cfg t d [] [] .zero
  | cons {v vs val vals c c'} : (∀ n tag, Gives ((pops env cfg n).element t d tag val) v c) → EachReads env cfg t d vs vals c' →
      EachReads env cfg t d (v :: vs) (val :: vals) (c + c')

/-- Collections: `step` is what happens to the accumulator. -/
theorem EachReads.accum {env : Env} {cfg : Config} {e t : Ty} {d : Nat} {step : Acc → V → Acc} {x : Nat} {Q : Acc → List V → Prop}
    (hq : ∀ a v vs, Q a (v :: vs) → Q (step a v) vs)
    (hs : ∀ (o : POps) a v vs, Q a (v :: vs) → ∀ tag val c, Gives (o.element e d tag val) v c → Gives (pField o t a d tag val) (step a v) (⟨x, 0⟩ + c))
    {vs : List V} {vals : List Val} {c : Stats} (h : EachReads env cfg e d vs vals c) :
    ∀ a, Q a vs → ∀ n tag, Gives (pAccum (pops env cfg n) t d tag a vals) (vs.foldl step a) (⟨x * vs.length, 0⟩ + c) := by
  induction h with
  | nil => intro a _ n tag; exact .ret _ _
  | cons h _ ih =>
    rename_i v vs val vals c c' _
    intro a ha n tag
    cases n with
    | zero => exact .so _ _
    | succ n =>
      refine Gives.bind' (hs _ a v vs ha tag val c (h n tag)) (ih _ (hq _ _ _ ha) (n + 1) tag) ?_
      simp only [List.length_cons]
      show Stats.mk _ _ = Stats.mk _ _
      simp only [Stats.add_collected, Stats.add_blob, Nat.mul_add]
      congr 1 <;> omega

theorem foldl_push (vs : List V) (a : Acc) : vs.foldl (fun (a : Acc) v => (⟨a.flag, a.items ++ [v]⟩ : Acc)) a = ⟨a.flag, a.items ++ vs⟩ := by
  induction vs generalizing a with
  | nil => simp
  | cons v vs ih => rw [List.foldl, ih]; simp

theorem foldl_set (vs : List V) (a : Acc) (h : (a.items ++ vs).Nodup) : vs.foldl (fun (a : Acc) v => (⟨a.flag, setInsert v a.items⟩ : Acc)) a = ⟨a.flag, a.items ++ vs⟩ := by
  induction vs generalizing a with
  | nil => simp
  | cons v vs ih =>
    have hv : v ∉ a.items := by
      intro hv
      rw [List.nodup_append] at h
      exact h.2.2 v hv v (by simp) rfl
    have e : setInsert v a.items = a.items ++ [v] := by unfold setInsert; rw [if_neg hv]
    rw [List.foldl, e, ih _ (by simpa using h)]; simp

theorem foldl_map (vs : List V) (a : Acc) (h : ((a.items ++ vs).map V.key).Nodup) : vs.foldl (fun (a : Acc) v => (⟨a.flag, mapInsert v a.items⟩ : Acc)) a = ⟨a.flag, a.items ++ vs⟩ := by
  induction vs generalizing a with
  | nil => simp
  | cons v vs ih =>
    have hv : a.items.any (fun x => x.key == v.key) = false := by
      rw [List.any_eq_false]
      intro x hx hk
      rw [List.map_append, List.nodup_append] at h
      exact h.2.2 x.key (List.mem_map_of_mem hx) v.key (by simp) (by simpa using hk)
    have e : mapInsert v a.items = a.items ++ [v] := by unfold mapInsert; rw [hv]; rfl
    rw [List.foldl, e, ih _ (by simpa using h)]; simp

/-! ## Structs -/

/-- The fields of a struct, as a list of occurrences for each declaration. -/
def groups : List FieldDecl → List (List Val) → Fields
  | x :: xs, vs :: vss => vs.map (x.tag, ·) ++ groups xs vss
  | _, _ => []

inductive FieldsRead (env : Env) (cfg : Config) (d : Nat) : List FieldDecl → List V → List (List Val) → Stats → Prop where
  | nil : FieldsRead env cfg d [] [] [] .zero
  | cons {x xs v vs vals vss c c'} : d < cfg.recursionLimit → ReadsField env cfg x.ty (d + 1) vals v c → FieldsRead env cfg d xs vs vss c' →
      FieldsRead env cfg d (x :: xs) (v :: vs) (vals :: vss) (c + c')

theorem pLoop_append (cfg : Config) (o : POps) (fs : List FieldDecl) (unk : Option Bool) (d : Nat) (l' : Fields) :
    ∀ st l, pLoop cfg o fs unk d st (l ++ l') = PM.bind (pLoop cfg o fs unk d st l) fun st' => pLoop cfg o fs unk d st' l'
  | st, [] => by rw [pLoop, PM.bind_ret]; rfl
  | st, (tag, v) :: l => by
    simp only [List.cons_append, pLoop, PM.bind_assoc]
    exact congrArg _ (funext fun st' => pLoop_append cfg o fs unk d l' st' l)

theorem upd_self {α : Type} (f : Nat → α) (i : Nat) : upd f i (f i) = f := by
  funext j; unfold upd; split
  · rename_i h; rw [h]
  · rfl
theorem upd_upd {α : Type} (f : Nat → α) (i : Nat) (a b : α) : upd (upd f i a) i b = upd f i b := by
  funext j; unfold upd; split <;> rfl
theorem upd_same {α : Type} (f : Nat → α) (i : Nat) (a : α) : upd f i a i = a := by simp [upd]

/-- All occurrences of one field in a row. -/
theorem pLoop_group {cfg : Config} (o : POps) {fs : List FieldDecl} (unk : Option Bool) {d i : Nat} {x : FieldDecl} (hd : d < cfg.recursionLimit)
    (hi : fs.findIdx? (fun y => y.tag = x.tag) = some i) (hx : fs[i]? = some x) :
    ∀ (vals : List Val) (st : LoopSt), pLoop cfg o fs unk d st (vals.map (x.tag, ·)) =
      PM.bind (pAccum o x.ty (d + 1) x.tag (st.accs i) vals) fun a => .ret { st with accs := upd st.accs i a }
  | [], st => by
    simp only [List.map, pLoop, pAccum, PM.bind_ret, upd_self]
  | v :: vals, st => by
    simp only [List.map, pLoop, pAccum, pFieldStep, hi, hx, pPush_ok hd, PM.bind_ret, PM.bind_assoc]
    refine congrArg _ (funext fun a => ?_)
    rw [pLoop_group o unk hd hi hx vals]
    simp only [upd_upd, upd_same]

theorem findIdx_at {pre : List FieldDecl} {x : FieldDecl} {xs : List FieldDecl} (h : ((pre ++ x :: xs).map (·.tag)).Nodup) :
    (pre ++ x :: xs).findIdx? (fun y => y.tag = x.tag) = some pre.length := by
  rw [List.findIdx?_eq_some_iff_getElem]
  refine ⟨by simp, by simp, ?_⟩
  intro j hj
  rw [List.getElem_append_left hj]
  simp only [decide_eq_true_eq]
  intro hc
  rw [List.map_append, List.nodup_append] at h
  exact h.2.2 _ (List.mem_map_of_mem (List.getElem_mem hj)) x.tag (by simp) hc

theorem FieldsRead.loop {env : Env} {cfg : Config} {d : Nat} {ds : List FieldDecl} {vs : List V} {vss : List (List Val)} {c : Stats}
    (h : FieldsRead env cfg d ds vs vss c) (unk : Option Bool) :
    ∀ (pre : List FieldDecl), ((pre ++ ds).map (·.tag)).Nodup → ∀ st : LoopSt, (∀ j, pre.length ≤ j → st.accs j = .init) →
      ∃ st', (∀ n, Gives (pLoop cfg (pops env cfg n) (pre ++ ds) unk d st (groups ds vss)) st' c) ∧ st'.unk = st.unk ∧
        (∀ j, j < pre.length → st'.accs j = st.accs j) ∧
        ∀ st'' : LoopSt, (∀ j, pre.length ≤ j → st''.accs j = st'.accs j) → ∀ n, Gives (pFinishAll cfg (pops env cfg n) d st'' pre.length ds) vs .zero := by
  induction h with
  | nil =>
    intro pre _ st _
    exact ⟨st, fun n => .ret _ _, rfl, fun _ _ => rfl, fun _ _ _ => .ret _ _⟩
  | cons hd hr _ ih =>
    rename_i x xs v vs vals vss c c' _
    intro pre hn st hst
    obtain ⟨acc, h1, h2⟩ := hr
    obtain ⟨st', g1, g2, g3, g4⟩ := ih (pre ++ [x]) (by simpa using hn) { st with accs := upd st.accs pre.length acc } (by
      intro j hj; simp at hj
      show upd st.accs pre.length acc j = _
      unfold upd; rw [if_neg (by omega)]; exact hst j (by omega))
    simp only [List.append_assoc, List.cons_append, List.nil_append, List.length_append, List.length_cons, List.length_nil, Nat.zero_add] at g1 g3 g4
    refine ⟨st', fun n => ?_, g2, fun j hj => ?_, fun st'' hs n => ?_⟩
    · rw [groups, pLoop_append]
      refine Gives.bind ?_ (g1 n)
      rw [pLoop_group _ unk hd (findIdx_at hn) (by simp), hst _ (Nat.le_refl _)]
      exact (h1 n x.tag).map (.ret _ _)
    · rw [g3 j (by omega)]; show upd st.accs _ _ _ = _; unfold upd; rw [if_neg (by omega)]
    · rw [pFinishAll, pPush_ok hd, PM.bind_ret]
      have e : st''.accs pre.length = acc := by
        rw [hs _ (Nat.le_refl _), g3 _ (by omega)]; exact upd_same _ _ _
      rw [e]
      exact (h2 n _).pre ((g4 st'' (fun j hj => hs j (by omega)) n).map (.ret _ _))

theorem FieldsRead.loop0 {env : Env} {cfg : Config} {d : Nat} {ds : List FieldDecl} {vs : List V} {vss : List (List Val)} {c : Stats}
    (h : FieldsRead env cfg d ds vs vss c) (unk : Option Bool) (hn : (ds.map (·.tag)).Nodup) :
      ∃ st', (∀ n, Gives (pLoop cfg (pops env cfg n) ds unk d .init (groups ds vss)) st' c) ∧ st'.unk = .init ∧
        ∀ st'' : LoopSt, (∀ j, st''.accs j = st'.accs j) → ∀ n, Gives (pFinishAll cfg (pops env cfg n) d st'' 0 ds) vs .zero := by
  obtain ⟨st', h1, h2, -, h4⟩ := h.loop unk [] (by simpa using hn) .init (fun _ _ => rfl)
  exact ⟨st', h1, h2, fun st'' hs => h4 st'' fun j _ => hs j⟩

theorem FieldsRead.struct {env : Env} {cfg : Config} {d : Nat} {ds : List FieldDecl} {vs : List V} {vss : List (List Val)} {c : Stats}
    (h : FieldsRead env cfg d ds vs vss c) (hn : (ds.map (·.tag)).Nodup) (n : Nat) : Gives (pStruct cfg (pops env cfg n) ds d (groups ds vss)) vs c := by
  obtain ⟨st', h1, -, h3⟩ := h.loop0 none hn
  exact (h1 n).map (h3 st' (fun _ => rfl) n)

/-! ## Serialisation -/

theorem serAll_cons_some {f : V → Option (List WCall)} {v : V} {vs : List V} {a b : List WCall} (h : f v = some a) (h' : serAll f vs = some b) :
    serAll f (v :: vs) = some (a ++ b) := by simp [serAll, h, h']

/-- The field of a type that occurs exactly once. -/
theorem fieldSer_single {env : Env} {n : Nat} {t : Ty} {tag : Byte} {v : V} {cs : List WCall} (ht : t.isSingle = true)
    (h : (sops env n).element t tag v = some cs) : (sops env (n + 1)).field t tag v = some cs := by
  cases n with
  | zero => cases h
  | succ n =>
    show fieldSer (sops env (n + 1)) t tag v = _
    cases t <;> simp only [Ty.isSingle, Bool.false_eq_true, Ty.isByte_eq] at ht <;> first
      | exact h
      | (change elementSer env (sops env n) _ _ _ = _ at h
         cases v <;> simp only [elementSer, ht, if_true, reduceCtorEq] at h
         simp only [fieldSer, ht, if_true]; exact h)

theorem wrapped_of_field {env : Env} {n : Nat} {t : Ty} {tag : Byte} {v : V} {a : List WCall} (ht : t.isColl = true)
    (h : (sops env n).field t 1 v = some a) : (sops env (n + 1)).element t tag v = some (.struct tag :: a ++ [.endStruct]) := by
  have hw : wrapped (sops env n) t tag v = some (.struct tag :: a ++ [.endStruct]) := by simp only [wrapped, h, Option.map]
  cases n with
  | zero => cases h
  | succ n =>
    show elementSer env (sops env (n + 1)) t tag v = _
    cases t <;> simp only [Ty.isColl, Bool.false_eq_true, Bool.not_eq_true', Ty.isByte_eq] at ht <;> first
      | exact hw
      | (change fieldSer (sops env n) _ _ _ = _ at h
         cases v <;> simp only [fieldSer, ht, Bool.false_eq_true, if_false, reduceCtorEq] at h
         simp only [elementSer, ht, Bool.false_eq_true, if_false]; exact hw)

theorem Ty.isColl.wrapped {env : Env} {t : Ty} (h : t.isColl = true) : t.isWrapped env = true := by
  cases t <;> simp_all [Ty.isColl, Ty.isWrapped]

theorem bodySer_wrapped {env : Env} {o : SOps} {t : Ty} {v : V} (h : t.isWrapped env = true) : bodySer env o t v = defaultBodySer o t v := by
  cases t <;> simp only [Ty.isWrapped, Bool.false_eq_true] at h <;> try (simp only [bodySer])
  split at h
  · cases h
  · rename_i hd
    cases v <;> simp only [hd]

theorem pBody_wrapped {env : Env} {cfg : Config} {o : POps} {t : Ty} {d : Nat} {l : Fields} (h : t.isWrapped env = true) :
    pBody env cfg o t d l = pDefault cfg o t d l := by
  cases t <;> simp only [Ty.isWrapped, Bool.false_eq_true] at h <;> try (simp only [pBody])
  split at h
  · cases h
  · rename_i hd
    simp only [hd]

theorem pElement_coll {env : Env} {cfg : Config} {o : POps} {t : Ty} {d : Nat} {tag : Byte} {l : Fields} (h : t.isColl = true) :
    pElement env cfg o t d tag (.struct l) = o.body t d l := by
  cases t <;> simp only [Ty.isColl, Bool.false_eq_true, Bool.not_eq_true', Ty.isByte_eq] at h <;> simp only [pElement, h, Bool.false_eq_true, if_false, pViaStruct]

/-! ## The induction -/

/-- What is proved for each kind of item. -/
def RT (env : Env) : Item → List V → Need → Prop
  | .elem t, vs, k => ∃ v val, vs = [v] ∧
      (∀ tag, TagOk tag → ∃ cs, SerializesElement env t tag v cs ∧ Writes cs [(tag, val)]) ∧
      ∀ cfg d, Adm k cfg d → (∀ n tag, Gives ((pops env cfg n).element t d tag val) v k.used) ∧
        (t.isSingle = true → ReadsField env cfg t d [val] v k.used)
  | .field t, vs, k => ∃ v vals, vs = [v] ∧
      (∀ tag, TagOk tag → ∃ cs, SerializesField env t tag v cs ∧ Writes cs (vals.map (tag, ·))) ∧
      ∀ cfg d, Adm k cfg d → ReadsField env cfg t d vals v k.used
  | .body t, vs, k => ∃ v l, vs = [v] ∧ (∃ cs, SerializesBody env t v cs ∧ WritesBody cs l) ∧
      ∀ cfg d, Adm k cfg d → ∀ n, Gives ((pops env cfg n).body t d l) v k.used
  | .each t, vs, k => ∃ vals,
      (∀ tag, TagOk tag → ∃ cs N, serAll ((sops env N).element t tag) vs = some cs ∧ Writes cs (vals.map (tag, ·))) ∧
      ∀ cfg d, Adm k cfg d → EachReads env cfg t d vs vals k.used
  | .fields ds, vs, k => FieldsOk ds → ∃ vss,
      (∃ cs N, (∀ rest, serFields (sops env N) ds (vs ++ rest) = some (cs, rest)) ∧ Writes cs (groups ds vss)) ∧
      ∀ cfg d, Adm k cfg d → FieldsRead env cfg d ds vs vss k.used
  | .parts b, vs, k => b.Ok → ∃ l, (∃ cs N, macroBodySer (sops env N) b vs = some cs ∧ WritesBody cs l) ∧
      ∀ cfg d, Adm k cfg d → ∀ n, Gives (pMacro cfg (pops env cfg n) b d l) vs k.used
  | .unknown known zc, es, k => ∃ l, (∃ cs N, serAll (serUnknown (sops env N) zc) es = some cs ∧ Writes cs l) ∧
      ∀ cfg d, Adm k cfg d → ∀ fs : List FieldDecl, (∀ x ∈ fs, x.tag ∈ known) → ∀ st n,
        Gives (pLoop cfg (pops env cfg n) fs (some zc) d st l) { st with unk := ⟨st.unk.flag, st.unk.items ++ es⟩ } k.used


theorem groups_append_nil (ds : List FieldDecl) : groups ds [] = [] := by cases ds <;> rfl

/-- The macro gives the components of a tuple the tags of the specification. -/
theorem tupleFields_components (ts : List Ty) : tupleFields ts = components ts := rfl

theorem tupleFields_tag {ts : List Ty} (h : ts.length ≤ 16) : (tupleFields ts).map (·.tag.toNat) = List.range' 1 ts.length := by
  apply List.ext_getElem
  · simp [tupleFields]
  · intro i h1 h2
    simp [tupleFields] at h1 ⊢
    omega

theorem tupleFields_ok {ts : List Ty} (h : ts.length ≤ 16) : FieldsOk (tupleFields ts) := by
  have e := tupleFields_tag h
  constructor
  · intro d hd
    have : d.tag.toNat ∈ (tupleFields ts).map (·.tag.toNat) := List.mem_map_of_mem (f := fun d : FieldDecl => d.tag.toNat) hd
    rw [e, List.mem_range'_1] at this
    exact ⟨by omega, by omega⟩
  · have : ((tupleFields ts).map (·.tag.toNat)).Nodup := by rw [e]; exact List.nodup_range'
    rw [List.nodup_iff_pairwise_ne, List.pairwise_map] at this ⊢
    exact this.imp fun h h' => h (by rw [h'])

theorem tagOk_one : TagOk 1 := by decide
theorem tagOk_two : TagOk 2 := by decide

theorem FieldsRead.single {env : Env} {cfg : Config} {t : Ty} {d : Nat} {vals : List Val} {v : V} {c : Stats} (hd : d < cfg.recursionLimit)
    (h : ReadsField env cfg t (d + 1) vals v c) (n : Nat) : Gives (pDefault cfg (pops env cfg n) t d (vals.map (1, ·))) v c := by
  have := (FieldsRead.cons (x := ⟨1, "top", t⟩) hd h .nil).struct (by simp) n
  rw [groups, groups_append_nil, List.append_nil, Stats.add_zero] at this
  exact this.map (.ret _ _)

/-- Fields of tuples and declared types. -/
theorem readsField_elem {env : Env} {cfg : Config} {t : Ty} {d : Nat} {val : Val} {v : V} {c : Stats}
    (ht : (∃ ts, t = .tuple ts) ∨ ∃ i, t = .named i)
    (h : ∀ n tag, Gives ((pops env cfg n).element t d tag val) v c) : ReadsField env cfg t d [val] v c := by
  refine ⟨⟨false, [v]⟩, fun n tag => ?_, fun n d' => ?_⟩
  · cases n with
    | zero => exact .so _ _
    | succ n =>
      rcases ht with ⟨ts, rfl⟩ | ⟨i, rfl⟩
      all_goals
        refine Gives.map (a := (⟨false, [v]⟩ : Acc)) ?_ (.ret (⟨false, [v]⟩ : Acc) .zero)
        exact Gives.map (f := fun u => .ret (⟨false, [u]⟩ : Acc)) (h n tag) (.ret (⟨false, [v]⟩ : Acc) .zero)
  · cases n with
    | zero => exact .so _ _
    | succ n =>
      rcases ht with ⟨ts, rfl⟩ | ⟨i, rfl⟩ <;> exact .ret _ _

/-- Types with the default `deserialize_element`. -/
theorem element_of_field {env : Env} {cfg : Config} {t : Ty} {d : Nat} {val : Val} {v : V} {c : Stats}
    (ht : (∃ p, t = .prim p) ∨ ∃ zc, t = .unknownField zc)
    (h : ∀ n tag, Gives (pField (pops env cfg n) t .init d tag val) ⟨false, [v]⟩ c) :
    (∀ n tag, Gives ((pops env cfg n).element t d tag val) v c) ∧ (t.isSingle = true → ReadsField env cfg t d [val] v c) := by
  have hf : ∀ n tag, Gives ((pops env cfg n).field t .init d tag val) ⟨false, [v]⟩ c := by
    intro n tag
    cases n with
    | zero => exact .so _ _
    | succ n => exact h n tag
  have hfin : ∀ n d', Gives ((pops env cfg n).finish t ⟨false, [v]⟩ d') v .zero := by
    intro n d'
    cases n with
    | zero => exact .so _ _
    | succ n => rcases ht with ⟨ts, rfl⟩ | ⟨i, rfl⟩ <;> exact .ret _ _
  refine ⟨fun n tag => ?_, fun _ => ⟨⟨false, [v]⟩, fun n tag => ?_, hfin⟩⟩
  · cases n with
    | zero => exact .so _ _
    | succ n =>
      rcases ht with ⟨ts, rfl⟩ | ⟨i, rfl⟩
      all_goals
        simp only [pops, pElement]
        exact (hf n tag).map (hfin n d)
  · exact (hf n tag).map (.ret _ _)

theorem prim_rt {p : Prim} {v : V} {n : Nat} (h : PrimHas p v n) : ∃ val, (∀ tag, TagOk tag → ∃ cs, p.ser tag v = some cs ∧ Writes cs [(tag, val)]) ∧
    p.read val = .ret v ⟨0, n⟩ := by
  cases h with
  | phantom => exact ⟨.int 0, fun tag ht => ⟨_, rfl, .int ht rfl⟩, rfl⟩
  | bool =>
    rename_i b
    refine ⟨.int (if b then 1 else 0), fun tag ht => ⟨_, rfl, .int ht rfl⟩, ?_⟩
    cases b <;> rfl
  | int h1 h2 =>
    rename_i k i
    obtain ⟨m, h3, h4⟩ := k.call_toks 1 h1 h2
    refine ⟨.int m, fun tag ht => ⟨[k.call tag i], by simp only [Prim.ser, h1, h2, and_self, if_true], ?_⟩, ?_⟩
    · obtain ⟨m', h3', h4'⟩ := k.call_toks tag h1 h2
      have : m = m' := by apply UInt64.toNat_inj.1; omega
      exact .int ht (this ▸ h3')
    · have : k.conv (.int m) = .ok i := (k.conv_iff m i).2 ⟨h1, h2, h4⟩
      simp only [Prim.read, Val.head, this, PM.lift, PM.bind_ret]; rfl
  | char =>
    rename_i c
    refine ⟨.int (UInt64.ofNat c.val.toNat), fun tag ht => ⟨_, rfl, .int ht rfl⟩, ?_⟩
    simp only [Prim.read, Val.head, toU32_ofNat, PM.lift, PM.bind_ret, charFromU32_val]; rfl
  | string h =>
    rename_i s
    refine ⟨.blob (utf8 s), fun tag ht => ⟨_, rfl, .blob ht (by rw [utf8_length]; exact h)⟩, ?_⟩
    simp only [Prim.read, Val.bytes, utf8_length, blobCost]
    rw [PM.bind_retc (a := utf8 s) (b := .str s) (c' := .zero) (by simp only [fromUtf8_utf8])]
    rfl
  | strRef h =>
    rename_i s
    refine ⟨.blob (utf8 s), fun tag ht => ⟨_, rfl, .blob ht (by rw [utf8_length]; exact h)⟩, ?_⟩
    simp only [Prim.read, Val.bytes, noCost, PM.bind_ret, fromUtf8_utf8]; rfl
  | bytesRef h =>
    rename_i d
    refine ⟨.blob d, fun tag ht => ⟨[.blobData tag d], by simp only [Prim.ser, V.ofBytes, bytesOf_map, Option.map], .blob ht h⟩, ?_⟩
    simp only [Prim.read, Val.bytes, noCost, PM.bind_ret]; rfl

theorem isU8_eq {e : Ty} (h : e.isU8 = true) : e = u8 := by
  unfold Ty.isU8 at h; split at h
  · rfl
  · cases h


theorem serUnknown_ok {o : SOps} {zc : Bool} {tag : Byte} {u : V} {cs : List WCall} (h : o.field (.unknownField zc) tag u = some cs) :
    serUnknown o zc (.seq [.num tag.toNat, u]) = some cs := by
  have := tag.toNat_lt
  simp only [serUnknown]
  rw [if_pos (by omega)]
  have e : UInt8.ofNat (tag.toNat : Int).toNat = tag := by simp
  rw [e]; exact h

/-- Maps are written as lists of pairs. -/
theorem mapSer_le (env : Env) (tk tv : Ty) (tag : Byte) (N : Nat) : ∀ v, OLe ((sops env (N + 2)).element (.tuple [tk, tv]) tag v)
    ((fun e => match e with
      | .seq [k, v] =>
        ((sops env N).field tk 1 k).bind fun a => ((sops env N).field tv 2 v).map fun b => .struct tag :: a ++ b ++ [.endStruct]
      | _ => none) v) := by
  intro v x hx
  change ((bodySer env (sops env N) (.tuple [tk, tv]) v).map _) = some x at hx
  rw [Option.map_eq_some_iff] at hx
  obtain ⟨b, hb, rfl⟩ := hx
  cases v with
  | seq vs =>
    simp only [bodySer] at hb
    split at hb
    · rename_i a ha
      cases hb
      obtain ⟨n0, n1, e⟩ : ∃ n0 n1, tupleFields [tk, tv] = [⟨1, n0, tk⟩, ⟨2, n1, tv⟩] := ⟨_, _, rfl⟩
      rw [e] at ha
      match vs, ha with
      | [], ha => cases ha
      | [_], ha => simp [serFields] at ha
      | k :: v :: rest, ha =>
        simp only [serFields, Option.bind_eq_some_iff, Option.map_eq_some_iff] at ha
        obtain ⟨a1, h1, r, ⟨a2, h2, r', h3, rfl⟩, h4⟩ := ha
        cases h3
        simp only [Prod.mk.injEq] at h4
        obtain ⟨rfl, rfl⟩ := h4
        simp [h1, h2]
    · cases hb
  | _ => cases hb


theorem adm_zero {cfg : Config} {d : Nat} (h : d ≤ cfg.recursionLimit) : Adm .zero cfg d := ⟨by simpa [Need.zero] using h, by simp [Need.zero]⟩

theorem needs_rt {env : Env} (henv : env.Ok) {it : Item} {vs : List V} {k : Need} (h : Needs env it vs k) : RT env it vs k := by
  induction h with
  | bodyBoxed _ ih =>
    obtain ⟨v, l, rfl, ⟨cs, ⟨N, h1⟩, h2⟩, h3⟩ := ih
    refine ⟨v, l, rfl, ⟨cs, ⟨N + 1, h1⟩, h2⟩, fun cfg d ha n => ?_⟩
    cases n with
    | zero => exact .so _ _
    | succ n => exact h3 cfg d ha n
  | bodyUnit =>
    refine ⟨_, [(1, .struct [])], rfl, ⟨[.struct 1, .endStruct] ++ [.endStruct], ⟨3, rfl⟩, (WritesBody.ende.struct tagOk_one).close⟩, fun cfg d ha n => ?_⟩
    cases n with
    | zero => exact .so _ _
    | succ n =>
      have hl := ha.lenient rfl
      simp only [pops, pBody, pStruct, tupleFields, List.mapIdx_nil, pLoop, pFieldStep, List.findIdx?_nil, hl, if_true, PM.bind_ret, pFinishAll]
      exact .ret _ _
  | bodyTuple hne hlen _ ih =>
    rename_i ts vs k _
    obtain ⟨vss, ⟨cs, N, h1, h2⟩, h3⟩ := ih (tupleFields_ok hlen)
    refine ⟨_, groups (tupleFields ts) vss, rfl, ⟨cs ++ [.endStruct], ⟨N + 1, ?_⟩, h2.close⟩, fun cfg d ha n => ?_⟩
    · have := h1 []
      rw [List.append_nil] at this
      cases ts with
      | nil => exact absurd rfl hne
      | cons t ts => simp only [sops, bodySer, tupleFields_components, this]
    · cases n with
      | zero => exact .so _ _
      | succ n => simp only [pops, pBody]; exact ((h3 cfg d ha).struct (tupleFields_ok hlen).2 n).map (.ret _ _)
  | bodyUnknown _ ih =>
    rename_i zc es k _
    obtain ⟨l, ⟨cs, N, h1, h2⟩, h3⟩ := ih
    refine ⟨_, l, rfl, ⟨cs ++ [.endStruct], ⟨N + 1, by simp only [sops, bodySer, h1, Option.map]⟩, h2.close⟩, fun cfg d ha n => ?_⟩
    cases n with
    | zero => exact .so _ _
    | succ n =>
      have := h3 cfg d ha [] (fun _ h => by cases h) .init n
      refine this.map ?_
      cases n with
      | zero => exact .so _ _
      | succ n => exact .ret _ _
  | bodyStruct hd _ ih =>
    rename_i i b vs k _
    have hb : b.Ok := by have := henv i; rw [hd] at this; exact this
    obtain ⟨l, ⟨cs, N, h1, h2⟩, h3⟩ := ih hb
    refine ⟨_, l, rfl, ⟨cs, ⟨N + 1, by simp only [sops, bodySer, hd, h1]⟩, h2⟩, fun cfg d ha n => ?_⟩
    cases n with
    | zero => exact .so _ _
    | succ n => simp only [pops, pBody, hd]; exact (h3 cfg d ha n).map (.ret _ _)
  | bodyWrapped hw _ ih =>
    rename_i t v k _
    obtain ⟨v', vals, hv, h1, h3⟩ := ih
    cases hv
    obtain ⟨cs, ⟨N, h1⟩, h2⟩ := h1 1 tagOk_one
    refine ⟨v, vals.map (1, ·), rfl, ⟨cs ++ [.endStruct], ⟨N + 1, ?_⟩, h2.close⟩, fun cfg d ha n => ?_⟩
    · show bodySer env (sops env N) t v = _
      rw [bodySer_wrapped hw, defaultBodySer, h1]; rfl
    · cases n with
      | zero => exact .so _ _
      | succ n =>
        show Gives (pBody env cfg (pops env cfg n) t d _) v _
        rw [pBody_wrapped hw]
        exact FieldsRead.single ha.nest.2 (h3 cfg (d + 1) ha.nest.1) n
  | fieldBoxed _ ih =>
    rename_i t _ _ _
    obtain ⟨v, vals, rfl, h1, h3⟩ := ih
    refine ⟨v, vals, rfl, fun tag ht => ?_, fun cfg d ha => ?_⟩
    · obtain ⟨cs, ⟨N, h1⟩, h2⟩ := h1 tag ht
      exact ⟨cs, ⟨N + 1, h1⟩, h2⟩
    · obtain ⟨acc, g1, g2⟩ := h3 cfg d ha
      refine ⟨acc, fun n tag => ?_, fun n d' => ?_⟩
      · cases n with
        | zero => have e := pAccum_congr (o := pops env cfg 0) (t := .boxed t) (o' := pops env cfg 0) (t' := t) (d := d) (tag := tag) (fun _ _ => rfl); rw [e]; exact g1 0 tag
        | succ n => have e := pAccum_congr (o := pops env cfg (n + 1)) (t := .boxed t) (o' := pops env cfg n) (t' := t) (d := d) (tag := tag) (fun _ _ => rfl); rw [e]; exact g1 n tag
      · cases n with
        | zero => exact .so _ _
        | succ n => exact g2 n d'
  | fieldSingle hs _ ih =>
    obtain ⟨v', val, hv, h1, h3⟩ := ih
    cases hv
    refine ⟨_, [val], rfl, fun tag ht => ?_, fun cfg d ha => (h3 cfg d ha).2 hs⟩
    obtain ⟨cs, ⟨N, h1⟩, h2⟩ := h1 tag ht
    exact ⟨cs, ⟨N + 1, fieldSer_single hs h1⟩, h2⟩
  | fieldVec he _ ih =>
    rw [Ty.isByte_eq] at he
    rename_i e vs k _
    obtain ⟨vals, h1, h3⟩ := ih
    refine ⟨_, vals, rfl, fun tag ht => ?_, fun cfg d ha => ?_⟩
    · obtain ⟨cs, N, h1, h2⟩ := h1 tag ht
      exact ⟨cs, ⟨N + 1, by simp only [sops, fieldSer, he, Bool.false_eq_true, if_false, h1]⟩, h2⟩
    · have := (h3 cfg d ha.collecting).accum (t := .vec e) (step := fun (a : Acc) v => ⟨a.flag, a.items ++ [v]⟩) (x := 1) (Q := fun _ _ => True)
        (fun _ _ _ _ => trivial) (fun o a v vs _ tag val c h => by
          simp only [pField, he, Bool.false_eq_true, if_false]
          exact Gives.bind (.ret _ _) (h.map (.ret _ _))) .init trivial
      refine ⟨⟨false, vs⟩, fun n tag => ?_, fun n d' => ?_⟩
      · have := this n tag
        rw [foldl_push] at this
        have e : k.used.collected + vs.length = 1 * vs.length + k.used.collected := by omega
        have e' : (Need.collecting k vs.length).used = ⟨1 * vs.length, 0⟩ + k.used := by
          show Stats.mk _ _ = Stats.mk _ _; simp only [e, Nat.zero_add]
        rw [e']; exact this
      · cases n with
        | zero => exact .so _ _
        | succ n => simp only [pops, pFinish, he, Bool.false_and, Bool.false_eq_true, if_false]; exact .ret _ _
  | fieldSmall he hl _ ih =>
    rw [Ty.isByte_eq] at he
    rename_i m e vs k _
    obtain ⟨vals, h1, h3⟩ := ih
    refine ⟨_, vals, rfl, fun tag ht => ?_, fun cfg d ha => ?_⟩
    · obtain ⟨cs, N, h1, h2⟩ := h1 tag ht
      exact ⟨cs, ⟨N + 1, by simp only [sops, fieldSer, he, Bool.false_eq_true, if_false, h1]⟩, h2⟩
    · have := (h3 cfg d ha).accum (t := .small m e) (step := fun (a : Acc) v => ⟨a.flag, a.items ++ [v]⟩) (x := 0)
        (Q := fun a us => a.flag = false ∧ a.items.length + us.length ≤ m)
        (fun a v us h => ⟨h.1, by have := h.2; simp at this ⊢; omega⟩) (fun o a v us hq tag val c h => by
          have hl := hq.2
          simp only [List.length_cons] at hl
          simp only [pField, he, Bool.false_eq_true, if_false, hq.1]
          rw [if_neg (by omega)]
          have e : (⟨0, 0⟩ : Stats) + c = c := Stats.zero_add c
          rw [e]
          exact h.map (.ret _ _)) .init ⟨rfl, by simp [Acc.init]; omega⟩
      refine ⟨⟨false, vs⟩, fun n tag => ?_, fun n d' => ?_⟩
      · have := this n tag
        rw [foldl_push, Nat.zero_mul] at this
        have e : (⟨0, 0⟩ : Stats) + k.used = k.used := Stats.zero_add _
        rw [e] at this; exact this
      · cases n with
        | zero => exact .so _ _
        | succ n =>
          simp only [pops, pFinish, Bool.false_eq_true, if_false]
          rw [if_neg (by omega)]; exact .ret _ _
  | fieldLarge he hl _ ih =>
    rw [Ty.isByte_eq] at he
    rename_i m e vs k _
    obtain ⟨vals, h1, h3⟩ := ih
    refine ⟨_, vals, rfl, fun tag ht => ?_, fun cfg d ha => ?_⟩
    · obtain ⟨cs, N, h1, h2⟩ := h1 tag ht
      exact ⟨cs, ⟨N + 1, by simp only [sops, fieldSer, he, Bool.false_eq_true, if_false, h1]⟩, h2⟩
    · have := (h3 cfg d ha).accum (t := .large m e) (step := fun (a : Acc) v => ⟨a.flag, a.items ++ [v]⟩) (x := 0)
        (Q := fun a us => a.flag = false ∧ a.items.length + us.length ≤ m)
        (fun a v us h => ⟨h.1, by have := h.2; simp at this ⊢; omega⟩) (fun o a v us hq tag val c h => by
          have hl := hq.2
          simp only [List.length_cons] at hl
          simp only [pField, he, Bool.false_eq_true, if_false, hq.1]
          rw [if_neg (by omega)]
          have e : (⟨0, 0⟩ : Stats) + c = c := Stats.zero_add c
          rw [e]
          exact h.map (.ret _ _)) .init ⟨rfl, by simp [Acc.init]; omega⟩
      refine ⟨⟨false, vs⟩, fun n tag => ?_, fun n d' => ?_⟩
      · have := this n tag
        rw [foldl_push, Nat.zero_mul] at this
        have e : (⟨0, 0⟩ : Stats) + k.used = k.used := Stats.zero_add _
        rw [e] at this; exact this
      · cases n with
        | zero => exact .so _ _
        | succ n =>
          simp only [pops, pFinish]
          rw [if_neg (by omega)]; exact .ret _ _
  | fieldList _ ih =>
    rename_i e vs k _
    obtain ⟨vals, h1, h3⟩ := ih
    refine ⟨_, vals, rfl, fun tag ht => ?_, fun cfg d ha => ?_⟩
    · obtain ⟨cs, N, h1, h2⟩ := h1 tag ht
      exact ⟨cs, ⟨N + 1, by simp only [sops, fieldSer, h1]⟩, h2⟩
    · have := (h3 cfg d ha.collecting).accum (t := .coll .list e) (step := fun (a : Acc) v => ⟨a.flag, a.items ++ [v]⟩) (x := 1) (Q := fun _ _ => True)
        (fun _ _ _ _ => trivial) (fun o a v vs _ tag val c h => by
          simp only [pField]
          exact Gives.bind (.ret _ _) (h.map (.ret _ _))) .init trivial
      refine ⟨⟨false, vs⟩, fun n tag => ?_, fun n d' => ?_⟩
      · have := this n tag
        rw [foldl_push] at this
        have e : k.used.collected + vs.length = 1 * vs.length + k.used.collected := by omega
        have e' : (Need.collecting k vs.length).used = ⟨1 * vs.length, 0⟩ + k.used := by
          show Stats.mk _ _ = Stats.mk _ _; simp only [e, Nat.zero_add]
        rw [e']; exact this
      · cases n with
        | zero => exact .so _ _
        | succ n => exact .ret _ _
  | fieldSet hnd _ ih =>
    rename_i e vs k _
    obtain ⟨vals, h1, h3⟩ := ih
    refine ⟨_, vals, rfl, fun tag ht => ?_, fun cfg d ha => ?_⟩
    · obtain ⟨cs, N, h1, h2⟩ := h1 tag ht
      exact ⟨cs, ⟨N + 1, by simp only [sops, fieldSer, h1]⟩, h2⟩
    · have := (h3 cfg d ha.collecting).accum (t := .coll .set e) (step := fun (a : Acc) v => ⟨a.flag, setInsert v a.items⟩) (x := 1) (Q := fun _ _ => True)
        (fun _ _ _ _ => trivial) (fun o a v vs _ tag val c h => by
          simp only [pField]
          exact Gives.bind (.ret _ _) (h.map (.ret _ _))) .init trivial
      refine ⟨⟨false, vs⟩, fun n tag => ?_, fun n d' => ?_⟩
      · have := this n tag
        rw [foldl_set _ _ (by simpa [Acc.init] using hnd)] at this
        have e : k.used.collected + vs.length = 1 * vs.length + k.used.collected := by omega
        have e' : (Need.collecting k vs.length).used = ⟨1 * vs.length, 0⟩ + k.used := by
          show Stats.mk _ _ = Stats.mk _ _; simp only [e, Nat.zero_add]
        rw [e']; exact this
      · cases n with
        | zero => exact .so _ _
        | succ n => exact .ret _ _
  | fieldOption hl _ ih =>
    rename_i e vs k _
    obtain ⟨vals, h1, h3⟩ := ih
    refine ⟨_, vals, rfl, fun tag ht => ?_, fun cfg d ha => ?_⟩
    · obtain ⟨cs, N, h1, h2⟩ := h1 tag ht
      exact ⟨cs, ⟨N + 1, by simp only [sops, fieldSer, h1]⟩, h2⟩
    · have := (h3 cfg d ha).accum (t := .option e) (step := fun (a : Acc) v => ⟨a.flag, a.items ++ [v]⟩) (x := 0)
        (Q := fun a us => a.flag = false ∧ a.items.length + us.length ≤ 1)
        (fun a v us h => ⟨h.1, by have := h.2; simp at this ⊢; omega⟩) (fun o a v us hq tag val c h => by
          have hl := hq.2
          simp only [List.length_cons] at hl
          have hi : a.items = [] := List.length_eq_zero_iff.1 (by omega)
          simp only [pField, hi, ne_eq, not_true_eq_false, if_false, hq.1]
          have e : (⟨0, 0⟩ : Stats) + c = c := Stats.zero_add c
          rw [e]
          exact h.map (.ret _ _)) .init ⟨rfl, by simp [Acc.init]; omega⟩
      refine ⟨⟨false, vs⟩, fun n tag => ?_, fun n d' => ?_⟩
      · have := this n tag
        rw [foldl_push, Nat.zero_mul] at this
        have e : (⟨0, 0⟩ : Stats) + k.used = k.used := Stats.zero_add _
        rw [e] at this; exact this
      · cases n with
        | zero => exact .so _ _
        | succ n => exact .ret _ _
  | fieldMap hnd _ ih =>
    rename_i tk tv vs k _
    obtain ⟨vals, h1, h3⟩ := ih
    refine ⟨_, vals, rfl, fun tag ht => ?_, fun cfg d ha => ?_⟩
    · obtain ⟨cs, N, h1, h2⟩ := h1 tag ht
      refine ⟨cs, ⟨N + 1, ?_⟩, h2⟩
      have h1' := serAll_le (fun v => (sops_mono env (Nat.le_add_right N 2)).element (.tuple [tk, tv]) tag v) vs _ h1
      exact serAll_le (mapSer_le env tk tv tag N) vs _ h1'
    · have := (h3 cfg d ha.collecting).accum (t := .map tk tv) (step := fun (a : Acc) v => ⟨a.flag, mapInsert v a.items⟩) (x := 1) (Q := fun _ _ => True)
        (fun _ _ _ _ => trivial) (fun o a v vs _ tag val c h => by
          simp only [pField]
          exact Gives.bind (.ret _ _) (h.map (.ret _ _))) .init trivial
      refine ⟨⟨false, vs⟩, fun n tag => ?_, fun n d' => ?_⟩
      · have := this n tag
        rw [foldl_map _ _ (by simpa [Acc.init] using hnd)] at this
        have e : k.used.collected + vs.length = 1 * vs.length + k.used.collected := by omega
        have e' : (Need.collecting k vs.length).used = ⟨1 * vs.length, 0⟩ + k.used := by
          show Stats.mk _ _ = Stats.mk _ _; simp only [e, Nat.zero_add]
        rw [e']; exact this
      · cases n with
        | zero => exact .so _ _
        | succ n => exact .ret _ _
  | elemPrim hp =>
    rename_i p v n
    obtain ⟨val, h1, h2⟩ := prim_rt hp
    refine ⟨v, val, rfl, fun tag ht => ?_, fun cfg d ha => ?_⟩
    · obtain ⟨cs, h3, h4⟩ := h1 tag ht
      exact ⟨cs, ⟨1, h3⟩, h4⟩
    · refine element_of_field (.inl ⟨p, rfl⟩) fun n tag => ?_
      simp only [pField, Acc.init, ne_eq, not_true_eq_false, if_false]
      rw [h2]; exact Gives.map (.ret _ _) (.ret _ _)
  | elemBoxed _ ih =>
    obtain ⟨v, val, rfl, h1, h3⟩ := ih
    refine ⟨v, val, rfl, fun tag ht => ?_, fun cfg d ha => ⟨fun n tag => ?_, by simp [Ty.isSingle]⟩⟩
    · obtain ⟨cs, ⟨N, h1⟩, h2⟩ := h1 tag ht
      exact ⟨cs, ⟨N + 1, h1⟩, h2⟩
    · cases n with
      | zero => exact .so _ _
      | succ n => exact (h3 cfg d ha).1 n tag
  | elemVec hd =>
    rename_i d
    have hr : ∀ val, val = Val.blob d → readVec val = .ret (d.map fun b => .num b.toNat) ⟨0, d.length⟩ := by
      intro val hv; subst hv
      simp only [readVec, Val.bytes, blobCost]
      rw [PM.bind_retc (a := d) (b := d.map fun b => V.num b.toNat) (c' := .zero) rfl, Stats.add_zero]
    refine ⟨_, .blob d, rfl, fun tag ht => ?_, fun cfg dd ha => ⟨fun n tag => ?_, fun _ => ⟨⟨true, d.map fun b => .num b.toNat⟩, fun n tag => ?_, fun n d' => ?_⟩⟩⟩
    · exact ⟨[.blobData tag d], ⟨1, by simp [sops, elementSer, V.ofBytes, bytesOf_map, Ty.isU8, u8]⟩, .blob ht hd⟩
    · cases n with
      | zero => exact .so _ _
      | succ n =>
        simp only [pops, pElement, u8, Ty.isU8, if_true, hr _ rfl]
        exact Gives.map (.ret _ _) (.ret _ _)
    · cases n with
      | zero => exact .so _ _
      | succ n =>
        simp only [pAccum, pops, pField, u8, Ty.isU8, if_true, hr _ rfl, Acc.init, Bool.false_eq_true, if_false]
        exact Gives.map (Gives.map (.ret _ _) (.ret _ _)) (.ret _ _)
    · cases n with
      | zero => exact .so _ _
      | succ n => exact .ret _ _
  | elemSmall hn hd =>
    rename_i m d
    have hr : ∀ val, val = Val.blob d → readArr m val = .ret (d.map fun b => .num b.toNat) := by
      intro val hv; subst hv
      simp only [readArr, Val.bytes, noCost, PM.bind_ret]
      rw [if_neg (by omega)]
    refine ⟨_, .blob d, rfl, fun tag ht => ?_, fun cfg dd ha => ⟨fun n tag => ?_, fun _ => ⟨⟨true, d.map fun b => .num b.toNat⟩, fun n tag => ?_, fun n d' => ?_⟩⟩⟩
    · exact ⟨[.blobData tag d], ⟨1, by simp [sops, elementSer, V.ofBytes, bytesOf_map, Ty.isU8, u8]⟩, .blob ht hd⟩
    · cases n with
      | zero => exact .so _ _
      | succ n =>
        simp only [pops, pElement, u8, Ty.isU8, if_true, hr _ rfl]
        exact Gives.map (.ret _ _) (.ret _ _)
    · cases n with
      | zero => exact .so _ _
      | succ n =>
        simp only [pAccum, pops, pField, u8, Ty.isU8, if_true, hr _ rfl, Acc.init, Bool.false_eq_true, ne_eq, not_true_eq_false, or_self, if_false]
        exact Gives.map (Gives.map (.ret _ _) (.ret _ _)) (.ret _ _)
    · cases n with
      | zero => exact .so _ _
      | succ n => exact .ret _ _
  | elemLarge hn hd =>
    rename_i m d
    have hr : ∀ val, val = Val.blob d → readArr m val = .ret (d.map fun b => .num b.toNat) := by
      intro val hv; subst hv
      simp only [readArr, Val.bytes, noCost, PM.bind_ret]
      rw [if_neg (by omega)]
    refine ⟨_, .blob d, rfl, fun tag ht => ?_, fun cfg dd ha => ⟨fun n tag => ?_, fun _ => ⟨⟨false, d.map fun b => .num b.toNat⟩, fun n tag => ?_, fun n d' => ?_⟩⟩⟩
    · exact ⟨[.blobData tag d], ⟨1, by simp [sops, elementSer, V.ofBytes, bytesOf_map, Ty.isU8, u8]⟩, .blob ht hd⟩
    · cases n with
      | zero => exact .so _ _
      | succ n =>
        simp only [pops, pElement, u8, Ty.isU8, if_true, hr _ rfl]
        exact Gives.map (.ret _ _) (.ret _ _)
    · cases n with
      | zero => exact .so _ _
      | succ n =>
        simp only [pAccum, pops, pField, u8, Ty.isU8, if_true, hr _ rfl, Acc.init, List.length_nil, ne_eq, not_true_eq_false, if_false]
        exact Gives.map (Gives.map (.ret _ _) (.ret _ _)) (.ret _ _)
    · cases n with
      | zero => exact .so _ _
      | succ n =>
        simp only [pops, pFinish, List.length_map]
        rw [if_neg (by omega)]; exact .ret _ _
  | elemColl hc _ ih =>
    rename_i t v k _
    obtain ⟨v', vals, hv, h1, h3⟩ := ih
    cases hv
    obtain ⟨cs, ⟨N, h1⟩, h2⟩ := h1 1 tagOk_one
    refine ⟨v, .struct (vals.map (1, ·)), rfl, fun tag ht => ⟨_, ⟨N + 1, wrapped_of_field hc h1⟩, h2.close.struct ht⟩, fun cfg d ha => ⟨fun n tag => ?_, fun hs => ?_⟩⟩
    · cases n with
      | zero => exact .so _ _
      | succ n =>
        show Gives (pElement env cfg (pops env cfg n) t d tag _) v _
        rw [pElement_coll hc]
        cases n with
        | zero => exact .so _ _
        | succ n =>
          show Gives (pBody env cfg (pops env cfg n) t d _) v _
          rw [pBody_wrapped (Ty.isColl.wrapped hc)]
          exact FieldsRead.single ha.nest.2 (h3 cfg (d + 1) ha.nest.1) n
    · cases t <;> simp_all [Ty.isColl, Ty.isSingle]
  | elemUnit =>
    have hg : ∀ (cfg : Config) (d n : Nat) (tag : Byte), Gives ((pops env cfg n).element (.tuple []) d tag (.struct [])) (.seq []) .zero := by
      intro cfg d n tag
      cases n with
      | zero => exact .so _ _
      | succ n =>
        cases n with
        | zero => exact .so _ _
        | succ n => exact .ret _ _
    exact ⟨_, .struct [], rfl, fun tag ht => ⟨_, ⟨1, rfl⟩, WritesBody.ende.struct ht⟩, fun cfg d ha => ⟨hg cfg d, fun _ => readsField_elem (.inl ⟨_, rfl⟩) (hg cfg d)⟩⟩
  | elemTuple hne _ ih =>
    rename_i ts v k _
    obtain ⟨v', l, hv, ⟨cs, ⟨N, h1⟩, h2⟩, h3⟩ := ih
    cases hv
    have hg : ∀ cfg d, Adm k cfg d → ∀ n tag, Gives ((pops env cfg n).element (.tuple ts) d tag (.struct l)) v k.used := by
      intro cfg d ha n tag
      cases n with
      | zero => exact .so _ _
      | succ n => exact h3 cfg d ha n
    refine ⟨v, .struct l, rfl, fun tag ht => ⟨.struct tag :: cs, ⟨N + 1, ?_⟩, h2.struct ht⟩, fun cfg d ha => ⟨hg cfg d ha, fun _ => readsField_elem (.inl ⟨_, rfl⟩) (hg cfg d ha)⟩⟩
    cases ts with
    | nil => exact absurd rfl hne
    | cons t ts => simp only [sops, elementSer, h1, Option.map]
  | elemUnknown _ ih =>
    obtain ⟨v', l, hv, ⟨cs, ⟨N, h1⟩, h2⟩, h3⟩ := ih
    cases hv
    refine ⟨_, .struct l, rfl, fun tag ht => ⟨.struct tag :: cs, ⟨N + 1, by simp only [sops, elementSer, h1, Option.map]⟩, h2.struct ht⟩,
      fun cfg d ha => ⟨fun n tag => ?_, by simp [Ty.isSingle]⟩⟩
    cases n with
    | zero => exact .so _ _
    | succ n => exact h3 cfg d ha n
  | elemStruct hd ht hb ih =>
    rename_i i b v k
    obtain ⟨vs, rfl⟩ : ∃ vs, v = .seq vs := by
      cases hb with
      | bodyStruct => exact ⟨_, rfl⟩
      | bodyWrapped hw => simp only [Ty.isWrapped, hd, Bool.false_eq_true] at hw
    obtain ⟨v', l, hv, ⟨cs, ⟨N, h1⟩, h2⟩, h3⟩ := ih
    cases hv
    have hg : ∀ cfg d, Adm k cfg d → ∀ n tag, Gives ((pops env cfg n).element (.named i) d tag (.struct l)) (.seq vs) k.used := by
      intro cfg d ha n tag
      cases n with
      | zero => exact .so _ _
      | succ n =>
        simp only [pops, pElement, hd]
        split
        · rename_i hx; rw [hx] at ht; cases ht
        · exact h3 cfg d ha n
    refine ⟨_, .struct l, rfl, fun tag ht' => ⟨.struct tag :: cs, ⟨N + 1, ?_⟩, h2.struct ht'⟩, fun cfg d ha => ⟨hg cfg d ha, fun _ => readsField_elem (.inr ⟨_, rfl⟩) (hg cfg d ha)⟩⟩
    simp only [sops, elementSer, hd]
    split
    · rename_i hx; rw [hx] at ht; cases ht
    · rename_i hx _; rw [hx] at ht; cases ht
    · rw [h1]; rfl
  | elemDelegate hd ht hf hc _ ih =>
    rename_i i b name t u k _
    obtain ⟨v', val, hv, h1, h3⟩ := ih
    cases hv
    have hg : ∀ cfg d, Adm k.nest cfg d → ∀ n tag, Gives ((pops env cfg n).element (.named i) d tag val) (.seq [u]) k.used := by
      intro cfg d ha n tag
      cases n with
      | zero => exact .so _ _
      | succ n =>
        simp only [pops, pElement, hd, ht, pPush_ok ha.nest.2, PM.bind_ret]
        refine ((h3 cfg _ ha.nest.1).1 n tag).map ?_
        simp only [pConstruct, hc, if_true, PM.bind_ret]; exact .ret _ _
    refine ⟨_, val, rfl, fun tag ht' => ?_, fun cfg d ha => ⟨hg cfg d ha, fun _ => readsField_elem (.inr ⟨_, rfl⟩) (hg cfg d ha)⟩⟩
    obtain ⟨cs, ⟨N, h1⟩, h2⟩ := h1 tag ht'
    exact ⟨cs, ⟨N + 1, by simp only [sops, elementSer, hd, ht, h1]⟩, h2⟩
  | elemVariant hd hf _ ih =>
    rename_i i variants ca disc b vs k _
    have hb : b.Ok := by have := henv i; rw [hd] at this; exact this.1 _ (List.mem_of_find?_eq_some hf)
    obtain ⟨l, ⟨cs, N, h1, h2⟩, h3⟩ := ih hb
    have hg : ∀ cfg d, Adm k cfg d → ∀ n tag, Gives ((pops env cfg n).element (.named i) d tag (.enum disc l)) (.variant disc vs) k.used := by
      intro cfg d ha n tag
      cases n with
      | zero => exact .so _ _
      | succ n =>
        simp only [pops, pElement, hd, pEnum, hf]
        exact (h3 cfg d ha n).map (.ret _ _)
    refine ⟨_, .enum disc l, rfl, fun tag ht => ⟨.enum tag disc :: cs, ⟨N + 1, by simp only [sops, elementSer, hd, hf, h1, Option.map]⟩, h2.enum ht⟩,
      fun cfg d ha => ⟨hg cfg d ha, fun _ => readsField_elem (.inr ⟨_, rfl⟩) (hg cfg d ha)⟩⟩
  | elemCatchAll hd hne _ ih =>
    rename_i i variants disc b vs k _
    have hb : b.Ok := by have := henv i; rw [hd] at this; exact this.2 _ rfl
    have hf : variants.find? (fun x => x.1 = disc) = none := by
      rw [List.find?_eq_none]; intro x hx; simpa using hne x hx
    obtain ⟨l, ⟨cs, N, h1, h2⟩, h3⟩ := ih hb
    have hg : ∀ cfg d, Adm k cfg d → ∀ n tag, Gives ((pops env cfg n).element (.named i) d tag (.enum disc l)) (.variant disc vs) k.used := by
      intro cfg d ha n tag
      cases n with
      | zero => exact .so _ _
      | succ n =>
        simp only [pops, pElement, hd, pEnum, hf]
        exact (h3 cfg d ha n).map (.ret _ _)
    refine ⟨_, .enum disc l, rfl, fun tag ht => ⟨.enum tag disc :: cs, ⟨N + 1, by simp only [sops, elementSer, hd, hf, h1, Option.map]⟩, h2.enum ht⟩,
      fun cfg d ha => ⟨hg cfg d ha, fun _ => readsField_elem (.inr ⟨_, rfl⟩) (hg cfg d ha)⟩⟩
  | unkInt =>
    rename_i zc m
    have hm := m.toNat_lt
    refine ⟨_, .int m, rfl, fun tag ht => ⟨[.u64 tag m], ⟨1, ?_⟩, .int ht rfl⟩, fun cfg d ha => ?_⟩
    · simp only [sops, elementSer]
      rw [if_pos (by omega)]
      simp
    · exact element_of_field (.inr ⟨zc, rfl⟩) fun n tag => .ret _ _
  | unkBlob hl =>
    rename_i zc dd
    refine ⟨_, .blob dd, rfl, fun tag ht => ⟨[.blobData tag dd], ⟨1, ?_⟩, .blob ht hl⟩, fun cfg d ha => ?_⟩
    · simp only [sops, elementSer, V.ofBytes, bytesOf_map, Option.map]
    · refine element_of_field (.inr ⟨zc, rfl⟩) fun n tag => ?_
      simp only [pField, Acc.init, ne_eq, not_true_eq_false, if_false]
      refine Gives.map (a := V.ofBytes dd) ?_ (.ret _ _)
      cases n with
      | zero => exact .so _ _
      | succ n =>
        cases n with
        | zero => exact .so _ _
        | succ n =>
          cases zc with
          | false =>
            simp only [pops, pElement, unkBlobTy, Bool.false_eq_true, if_false, Ty.isU8, if_true, readVec, Val.bytes, blobCost, Need.storing]
            exact Gives.map (Gives.map (.ret _ _) (.ret _ _)) (.ret _ _)
          | true =>
            simp only [pops, pElement, unkBlobTy, if_true, Need.storing]
            cases n with
            | zero => exact .so _ _
            | succ n => exact .ret _ _
  | unkStruct _ ih =>
    rename_i zc u k _
    obtain ⟨v', l, hv, ⟨cs, ⟨N, h1⟩, h2⟩, h3⟩ := ih
    cases hv
    refine ⟨_, .struct l, rfl, fun tag ht => ⟨.struct tag :: cs, ⟨N + 1, by simp only [sops, elementSer, h1, Option.map]⟩, h2.struct ht⟩,
      fun cfg d ha => element_of_field (.inr ⟨zc, rfl⟩) fun n tag => ?_⟩
    simp only [pField, Acc.init, ne_eq, not_true_eq_false, if_false]
    exact (h3 cfg d ha n).map (.ret _ _)
  | unkEnum _ ih =>
    rename_i zc m u k _
    have hm := m.toNat_lt
    obtain ⟨v', l, hv, ⟨cs, ⟨N, h1⟩, h2⟩, h3⟩ := ih
    cases hv
    refine ⟨_, .enum m l, rfl, fun tag ht => ⟨.enum tag m :: cs, ⟨N + 1, ?_⟩, h2.enum ht⟩,
      fun cfg d ha => element_of_field (.inr ⟨zc, rfl⟩) fun n tag => ?_⟩
    · simp only [sops, elementSer, h1, Option.map]
      rw [if_pos (by omega)]; simp
    · simp only [pField, Acc.init, ne_eq, not_true_eq_false, if_false]
      exact (h3 cfg d ha n).map (.ret _ _)
  | eachNil => exact ⟨[], fun tag ht => ⟨[], 0, rfl, .nil⟩, fun cfg d ha => .nil⟩
  | eachCons _ _ ih1 ih2 =>
    obtain ⟨v', val, hv, h1, h3⟩ := ih1
    cases hv
    obtain ⟨vals, g1, g3⟩ := ih2
    refine ⟨val :: vals, fun tag ht => ?_, fun cfg d ha => .cons (h3 cfg d ha.left).1 (g3 cfg d ha.right)⟩
    obtain ⟨cs, ⟨N, h1⟩, h2⟩ := h1 tag ht
    obtain ⟨cs', M, g1, g2⟩ := g1 tag ht
    exact ⟨cs ++ cs', max N M, serAll_cons_some ((sops_mono env (Nat.le_max_left N M)).element _ _ _ _ h1)
      (serAll_le (fun v => (sops_mono env (Nat.le_max_right N M)).element _ tag v) _ _ g1), h2.append g2⟩
  | fieldsNil => exact fun _ => ⟨[], ⟨[], 0, fun _ => rfl, .nil⟩, fun cfg d ha => .nil⟩
  | fieldsCons _ _ ih1 ih2 =>
    rename_i x xs v vs k k' _ _
    intro hok
    obtain ⟨v', vals, hv, h1, h3⟩ := ih1
    cases hv
    obtain ⟨vss, ⟨cs', M, g1, g2⟩, g3⟩ := ih2 ⟨fun y hy => hok.1 y (List.mem_cons_of_mem _ hy), (List.nodup_cons.1 hok.2).2⟩
    obtain ⟨cs, ⟨N, h1⟩, h2⟩ := h1 x.tag (hok.1 x (by simp))
    refine ⟨vals :: vss, ⟨cs ++ cs', max N M, fun rest => ?_, h2.append g2⟩, fun cfg d ha => .cons ha.left.nest.2 (h3 cfg _ ha.left.nest.1) (g3 cfg d ha.right)⟩
    have e1 := (sops_mono env (Nat.le_max_left N M)).field _ _ _ _ h1
    have e2 := serFields_le (sops_mono env (Nat.le_max_right N M)) _ _ _ (g1 rest)
    simp only [List.cons_append, serFields, e1, e2, Option.bind, Option.map]
  | partsPlain ht hc _ ih =>
    rename_i b vs k _
    intro hok
    obtain ⟨vss, ⟨cs, N, h1, h2⟩, h3⟩ := ih hok
    refine ⟨groups b.fields vss, ⟨cs ++ [.endStruct], N, ?_, h2.close⟩, fun cfg d ha n => ?_⟩
    · have := h1 []
      rw [List.append_nil] at this
      simp only [macroBodySer, this, Option.bind, ht]
    · simp only [pMacro, ht]
      obtain ⟨st', g1, -, g3⟩ := (h3 cfg d ha).loop0 none hok.2
      refine (g1 n).map ((g3 st' (fun _ => rfl) n).map ?_)
      simp only [pConstruct, hc, if_true]; exact .ret _ _
  | partsDelegate ht hf hc _ ih =>
    rename_i b name t v k _
    intro hok
    obtain ⟨v', l, hv, ⟨cs, ⟨N, h1⟩, h2⟩, h3⟩ := ih
    cases hv
    refine ⟨l, ⟨cs, N, by simp only [macroBodySer, hf, serFields, Option.bind, ht, h1, Option.map, List.nil_append], h2⟩, fun cfg d ha n => ?_⟩
    simp only [pMacro, ht, pPush_ok ha.nest.2, PM.bind_ret, hf]
    refine (h3 cfg _ ha.nest.1 n).map ?_
    simp only [pFinishAll, PM.bind_ret, pConstruct, List.nil_append, hc, if_true]; exact .ret _ _
  | partsUnknown ht hc _ _ ih1 ih2 =>
    rename_i b name zc vs es k k' _ _
    intro hok
    obtain ⟨vss, ⟨cs, N, h1, h2⟩, h3⟩ := ih1 hok
    obtain ⟨l, ⟨cs', M, g1, g2⟩, g3⟩ := ih2
    refine ⟨groups b.fields vss ++ l, ⟨cs ++ (cs' ++ [.endStruct]), max N (M + 1), ?_, h2.body g2.close⟩, fun cfg d ha n => ?_⟩
    · have e1 := serFields_le (sops_mono env (Nat.le_max_left N (M + 1))) _ _ _ (h1 [.seq es])
      have e2 : (sops env (M + 1)).body (.unknownFields zc) (.seq es) = some (cs' ++ [.endStruct]) := by
        simp only [sops, bodySer, g1, Option.map]
      have e3 := (sops_mono env (Nat.le_max_right N (M + 1))).body _ _ _ e2
      simp only [macroBodySer, e1, Option.bind, ht, e3, Option.map]
    · have hd : d < cfg.recursionLimit := ha.right.nest.2
      obtain ⟨st', j1, j2, j3⟩ := (h3 cfg d ha.left.left).loop0 (some zc) hok.2
      have j4 := g3 cfg d ha.left.right b.fields (fun x hx => List.mem_map_of_mem hx) st' n
      simp only [pMacro, ht, pLoop_append]
      have hu : ((k.seq k').seq Need.zero.nest).used = k.used + k'.used := rfl
      rw [hu]
      refine ((j1 n).bind j4).map ?_
      refine (j3 { st' with unk := ⟨st'.unk.flag, st'.unk.items ++ es⟩ } (fun _ => rfl) n).map ?_
      rw [pPush_ok hd, PM.bind_ret]
      refine Gives.map (a := .seq es) ?_ ?_
      · cases n with
        | zero => exact .so _ _
        | succ n => simp only [j2, pops, pFinish, Acc.init, List.nil_append]; exact .ret _ _
      · simp only [pConstruct, hc, if_true]; exact .ret _ _
  | unknownNil =>
    refine ⟨[], ⟨[], 0, rfl, .nil⟩, fun cfg d ha fs hfs st n => ?_⟩
    rw [List.append_nil]; exact .ret _ _
  | unknownCons htag hk _ _ ih1 ih2 =>
    rename_i known zc tag u es k k' _ _
    obtain ⟨v', val, hv, h1, h3⟩ := ih1
    cases hv
    obtain ⟨l, ⟨cs', M, g1, g2⟩, g3⟩ := ih2
    obtain ⟨cs, ⟨N, h1⟩, h2⟩ := h1 tag htag
    refine ⟨(tag, val) :: l, ⟨cs ++ cs', max (N + 1) M, ?_, h2.append g2⟩, fun cfg d ha fs hfs st n => ?_⟩
    · have e0 := fieldSer_single (t := .unknownField zc) rfl h1
      have e1 := (sops_mono env (Nat.le_max_left (N + 1) M)).field _ _ _ _ e0
      exact serAll_cons_some (serUnknown_ok e1) (serAll_le (fun v => serUnknown_le (sops_mono env (Nat.le_max_right (N + 1) M)) zc v) _ _ g1)
    · have hfi : fs.findIdx? (fun x => x.tag = tag) = none := by
        rw [List.findIdx?_eq_none_iff]
        intro x hx
        simp only [decide_eq_false_iff_not]
        intro he; exact hk (he ▸ hfs x hx)
      simp only [pLoop, pFieldStep, hfi, pPush_ok ha.left.nest.2, PM.bind_ret]
      have hu : (((k.collecting 1).nest).seq k').used = (⟨1, 0⟩ + k.used) + k'.used := by
        show Stats.mk _ _ = Stats.mk _ _
        simp only [Need.nest, Need.collecting, Stats.add_collected, Stats.add_blob]
        congr 1 <;> omega
      rw [hu]
      refine Gives.bind (a := { st with unk := ⟨st.unk.flag, st.unk.items ++ [.seq [.num tag.toNat, u]]⟩ }) ?_ ?_
      · refine Gives.map (a := ⟨st.unk.flag, st.unk.items ++ [.seq [.num tag.toNat, u]]⟩) ?_ (.ret _ _)
        cases n with
        | zero => exact .so _ _
        | succ n =>
          simp only [pops, pField]
          exact Gives.bind (.ret _ _) (((h3 cfg (d + 1) ha.left.nest.1.collecting).1 n tag).map (.ret _ _))
      · have := g3 cfg d ha.right fs hfs { st with unk := ⟨st.unk.flag, st.unk.items ++ [.seq [.num tag.toNat, u]]⟩ } n
        simpa using this

end Fourleaf
