import Verif.ReadsComplete
import Verif.PropsTree

/-! # C54: what a message is read as; C40: cardinality -/

namespace Fourleaf.Props
open Fourleaf Spec

/-- Deserialising from any stream over the bytes `m` gives `v`, and takes `c` of the limits. -/
def Accepts (env : Env) (t : Ty) (cfg : Config) (m : List Byte) (v : V) (c : Stats) : Prop :=
  ∀ s : Stream, Over s m → s.pos + m.length < U64MAX → ∃ s', (deserialize env t cfg).run (s, .zero) = .ok v (s', c)

/-- Deserialising from any stream over the bytes `m` returns an error. -/
def Rejects (env : Env) (t : Ty) (cfg : Config) (m : List Byte) : Prop :=
  ∀ s : Stream, Over s m → s.pos + m.length < U64MAX → ∃ e st, (deserialize env t cfg).run (s, .zero) = .err (.client e) st ∧ e.kind ≠ .panic ∧ e.kind ≠ .stackOverflow

/-! ## C54 -/

/-- **C54** A message (in whatever spelling, from any stream) is accepted as a value exactly if the specification says that it is read as that value and this fits the limits.
Otherwise it is rejected. -/
theorem c54_accepts (env : Env) (henv : env.Ok) (hwf : env.wf) (t : Ty) (ht : t.wf false = true) (cfg : Config) (l : Fields) (m : List Byte) (hm : Message l m)
    (hlen : m.length < U64MAX) (v : V) (c : Stats) :
    Accepts env t cfg m v c ↔ Reads env cfg (.body t) 0 [.struct l] [v] c ∧ c.fits cfg := by
  rw [← deTree_iff henv hwf ht]
  constructor
  · intro h
    have hr : (Stream.fromSlice m).pos + m.length < U64MAX := by show 0 + m.length < U64MAX; omega
    exact (reads_iff hm (over_fromSlice m (by omega)) hr v c).1 (h _ (over_fromSlice m (by omega)) hr)
  · intro h s hs hroom
    exact (reads_iff hm hs hroom v c).2 h

theorem c54_rejects (env : Env) (henv : env.Ok) (hwf : env.wf) (t : Ty) (ht : t.wf false = true) (cfg : Config) (l : Fields) (m : List Byte) (hm : Message l m)
    (hlen : m.length < U64MAX) :
    Rejects env t cfg m ↔ ∀ v c, c.fits cfg → ¬ Reads env cfg (.body t) 0 [.struct l] [v] c := by
  have hr : (Stream.fromSlice m).pos + m.length < U64MAX := by show 0 + m.length < U64MAX; omega
  constructor
  · intro h v c hf hr'
    obtain ⟨s', h1⟩ := (c54_accepts env henv hwf t ht cfg l m hm hlen v c).2 ⟨hr', hf⟩ _ (over_fromSlice m (by omega)) hr
    obtain ⟨e, st, h2, -⟩ := h _ (over_fromSlice m (by omega)) hr
    rw [h1] at h2; cases h2
  · intro h s hs hroom
    rcases (c45_total env t cfg s hs.fresh.inv).1 with ⟨v, st, h1⟩ | h1
    · obtain ⟨h2, h3⟩ := (reads_iff hm hs hroom v st.2).1 ⟨st.1, h1⟩
      exact absurd ((deTree_iff henv hwf ht).1 h2) (h v st.2 h3)
    · exact h1

/-- A message is accepted or rejected, the same way from any stream. -/
theorem accepts_or_rejects (env : Env) (henv : env.Ok) (hwf : env.wf) (t : Ty) (ht : t.wf false = true) (cfg : Config) (l : Fields) (m : List Byte) (hm : Message l m)
    (hlen : m.length < U64MAX) : (∃ v c, Accepts env t cfg m v c) ∨ Rejects env t cfg m := by
  by_cases h : ∃ v c, Accepts env t cfg m v c
  · exact .inl h
  · refine .inr ((c54_rejects env henv hwf t ht cfg l m hm hlen).2 fun v c hf hr => h ⟨v, c, ?_⟩)
    exact (c54_accepts env henv hwf t ht cfg l m hm hlen v c).2 ⟨hr, hf⟩

/-- The example message is accepted as its value. -/
theorem exAccepts : Accepts exEnv (.named 0) .default exBytes exValue ⟨3, 1⟩ :=
  fun _ hs hroom => (reads_iff exMessage hs hroom _ _).2 ⟨rfl, by decide⟩

example : Reads exEnv .default (.body (.named 0)) 0 [.struct exTree] [exValue] ⟨3, 1⟩ :=
  ((c54_accepts exEnv exEnv_ok exEnv_wf _ rfl _ _ _ exMessage (by decide) _ _).1 exAccepts).1

/-! ## C40 -/

/-- The fields of a struct or tuple. -/
inductive FieldsOfTy (env : Env) : Ty → List FieldDecl → Prop where
  | tuple {ts} : ts.length ≤ 16 → FieldsOfTy env (.tuple ts) (components ts)
  | struct {i b} : env.decl i = .struct b → (∀ name t, b.tail ≠ .delegate name t) → FieldsOfTy env (.named i) b.fields
  | boxed {t fs} : FieldsOfTy env t fs → FieldsOfTy env (.boxed t) fs

/-- How often a field of a type may occur. Byte vectors and byte arrays are single values; a byte array of length 0 may be left out. -/
def _root_.Fourleaf.Ty.MayOccur (n : Nat) : Ty → Prop
  | .prim _ | .tuple _ | .named _ | .unknownField _ | .vec (.prim (.int .u8)) => n = 1
  | .small k (.prim (.int .u8)) => n = 1 ∨ (k = 0 ∧ n = 0)
  | .large k (.prim (.int .u8)) => n = 1 ∨ k = 0
  | .small k _ | .large k _ => n = k
  | .option _ => n ≤ 1
  | .vec _ | .coll .. | .map .. | .unknownFields _ => True
  | .boxed t => t.MayOccur n

theorem each_length {env : Env} {cfg : Config} {it : RItem} {d : Nat} {vals : List Val} {vs : List V} {c : Stats} (h : Reads env cfg it d vals vs c) :
    ∀ {t : Ty}, it = .each t → vals.length = vs.length := by
  induction h <;> intro t ht <;> cases ht
  · rfl
  · rename_i ih; simp [ih rfl]

theorem field_mayOccur {env : Env} {cfg : Config} {it : RItem} {d : Nat} {vals : List Val} {vs : List V} {c : Stats} (h : Reads env cfg it d vals vs c) :
    ∀ {t : Ty}, it = .field t → t.MayOccur vals.length := by
  induction h <;> intro t ht <;> cases ht
  case fieldBoxed ih => simpa only [Ty.MayOccur] using ih rfl
  case fieldSingle ht _ _ =>
    rename_i t _ _ _ _ _ _
    cases t <;> simp only [Ty.isSingle, Bool.false_eq_true, Ty.isByte_eq] at ht <;> try rfl
    all_goals rw [isU8_eq ht]; simp [Ty.MayOccur]
  case fieldNoBytes => exact .inr ⟨rfl, rfl⟩
  case fieldNoBytesL => exact .inr rfl
  case fieldVec he _ _ => unfold Ty.MayOccur; split <;> simp_all [Ty.isU8]
  case fieldList | fieldSet | fieldMap => trivial
  case fieldOption h _ _ => exact h
  case fieldSmall he h _ _ => unfold Ty.MayOccur; split <;> simp_all [Ty.isU8]
  case fieldLarge he h _ _ => unfold Ty.MayOccur; split <;> simp_all [Ty.isU8]

theorem fields_mayOccur {env : Env} {cfg : Config} {it : RItem} {d : Nat} {vals : List Val} {vs : List V} {c : Stats} (h : Reads env cfg it d vals vs c) :
    ∀ {fs : List FieldDecl} {l : Fields}, it = .fields fs → vals = [.struct l] → ∀ x ∈ fs, x.ty.MayOccur (occ x.tag l).length := by
  induction h <;> intro fs l ht hl <;> cases ht
  · intro x hx; cases hx
  · rename_i hf _ _ ih
    cases hl
    intro y hy
    rcases List.mem_cons.1 hy with rfl | hy
    · exact field_mayOccur hf rfl
    · exact ih rfl rfl y hy

/-- What a struct or tuple reads, read by its fields. -/
theorem reads_fields {env : Env} {cfg : Config} {t : Ty} {fs : List FieldDecl} (hf : FieldsOfTy env t fs) {d : Nat} {vals : List Val} {vs : List V} {c : Stats}
    (h : Reads env cfg (.body t) d vals vs c) : ∃ us c', Reads env cfg (.fields fs) d vals us c' := by
  induction hf with
  | tuple hl =>
    cases h with
    | bodyTuple _ _ h => exact ⟨_, _, h⟩
    | bodyWrapped hw => simp [Ty.isWrapped] at hw
  | struct hd hb =>
    cases h with
    | bodyStruct hd' h =>
      rw [hd] at hd'; cases hd'
      cases h with
      | partsPlain _ _ _ h => exact ⟨_, _, h⟩
      | partsDelegate hb' => exact absurd hb' (hb _ _)
      | partsUnknown _ _ _ h _ => exact ⟨_, _, h⟩
    | bodyWrapped hw => simp [Ty.isWrapped, hd] at hw
  | boxed _ ih =>
    cases h with
    | bodyBoxed h => exact ih h
    | bodyWrapped hw => simp [Ty.isWrapped] at hw

/-- **C40** (a) A message with a field that occurs more or less often than its type allows (missing, or repeated) is rejected by every struct and tuple, whatever else it contains. -/
theorem c40_rejected (env : Env) (henv : env.Ok) (hwf : env.wf) (t : Ty) (ht : t.wf false = true) (fs : List FieldDecl) (hfs : FieldsOfTy env t fs) (cfg : Config)
    (l : Fields) (m : List Byte) (hm : Message l m) (hlen : m.length < U64MAX)
    (x : FieldDecl) (hx : x ∈ fs) (hc : ¬ x.ty.MayOccur (l.countP (·.1 = x.tag))) : Rejects env t cfg m := by
  refine (c54_rejects env henv hwf t ht cfg l m hm hlen).2 fun v c _ h => hc ?_
  obtain ⟨us, c', h'⟩ := reads_fields hfs h
  have := fields_mayOccur h' rfl rfl x hx
  rwa [occ_eq, List.length_map, ← List.countP_eq_length_filter] at this

/-- A collection whose elements are not collected in a different order. -/
inductive ListOf : Ty → Ty → Prop where
  | vec {e} : e.isByte = false → ListOf (.vec e) e
  | list {e} : ListOf (.coll .list e) e

/-- The limits taken by a number of elements. -/
def sumStats : List Stats → Stats
  | [] => .zero
  | c :: cs => c + sumStats cs

theorem tuple1_elem {env : Env} {cfg : Config} {e : Ty} (he : e.isSingle = true) {val : Val} {w : V} {c : Stats}
    (h : Reads env cfg (.body (.tuple [e])) 0 [.struct [(1, val)]] [.seq [w]] c) (hne : ∀ n, e = .small n u8 ∨ e = .large n u8 → n ≠ 0) :
    0 < cfg.recursionLimit ∧ Reads env cfg (.elem e) 1 [val] [w] c := by
  cases h with
  | bodyWrapped hw => simp [Ty.isWrapped] at hw
  | bodyTuple _ _ h =>
    cases h with
    | fieldsCons hd hf hn =>
      cases hn
      refine ⟨hd, ?_⟩
      have ho : occ (1 : Byte) [(1, val)] = [val] := rfl
      simp only [Stats.add_zero]
      have hf : Reads env cfg (.field e) 1 [val] [w] _ := hf
      revert hf
      generalize hvals : [val] = vals
      intro hf
      cases hf with
      | fieldSingle _ h => cases hvals; exact h
      | fieldNoBytes => exact absurd rfl (hne 0 (.inl rfl))
      | fieldNoBytesL => exact absurd rfl (hne 0 (.inr rfl))
      | fieldVec h => rw [Ty.isByte_eq] at h; simp [Ty.isSingle, h] at he
      | fieldSmall h => rw [Ty.isByte_eq] at h; simp [Ty.isSingle, h] at he
      | fieldLarge h => rw [Ty.isByte_eq] at h; simp [Ty.isSingle, h] at he
      | _ => simp [Ty.isSingle] at he

theorem elems_each {env : Env} {cfg : Config} {e : Ty} {d : Nat} : ∀ (xs : List (Val × V × Stats)), (∀ x ∈ xs, Reads env cfg (.elem e) d [x.1] [x.2.1] x.2.2) →
    Reads env cfg (.each e) d (xs.map (·.1)) (xs.map (·.2.1)) (sumStats (xs.map (·.2.2)))
  | [], _ => .eachNil
  | x :: xs, h => .eachCons (h x (by simp)) (elems_each xs fun y hy => h y (by simp [hy]))

theorem occ_map (tag : Byte) (vals : List Val) : occ tag (vals.map (tag, ·)) = vals := by
  induction vals with
  | nil => rfl
  | cons x l ih => rw [List.map_cons, occ_cons_same, ih]

/-- (b) A field of type `Vec<T>` (or another collection that keeps all elements) accepts any number of occurrences: if each of the values `x.1` is accepted as a field of type `T` with value `x.2.1`, then
a message with all of them as occurrences of a field is accepted as the list of these values (if it fits the limits). -/
theorem c40_collection (env : Env) (henv : env.Ok) (hwf : env.wf) (e col : Ty) (hcol : ListOf col e) (he : e.isSingle = true) (hne : ∀ n, e = .small n u8 ∨ e = .large n u8 → n ≠ 0)
    (hw : e.wf true = true) (cfg : Config) (h0 : 0 < cfg.recursionLimit) (xs : List (Val × V × Stats))
    (hxs : ∀ x ∈ xs, ∃ m, Message [(1, x.1)] m ∧ m.length < U64MAX ∧ Accepts env (.tuple [e]) cfg m (.seq [x.2.1]) x.2.2)
    (m : List Byte) (hm : Message (xs.map (1, ·.1)) m) (hlen : m.length < U64MAX) (hfit : (⟨xs.length, 0⟩ + sumStats (xs.map (·.2.2)) : Stats).fits cfg) :
    Accepts env (.tuple [col]) cfg m (.seq [.seq (xs.map (·.2.1))]) (⟨xs.length, 0⟩ + sumStats (xs.map (·.2.2))) := by
  have hw1 : Ty.wf false (.tuple [e]) = true := by simp [Ty.wf, Ty.wfs, hw]
  have hw2 : Ty.wf false (.tuple [col]) = true := by
    cases hcol <;> simp [Ty.wf, Ty.wfs, Ty.wf_weaken hw]
  refine (c54_accepts env henv hwf _ hw2 cfg _ m hm hlen _ _).2 ⟨?_, hfit⟩
  have hel := elems_each (env := env) (cfg := cfg) (e := e) (d := 1) xs fun x hx => by
    obtain ⟨m', hm', hlen', ha⟩ := hxs x hx
    exact (tuple1_elem he ((c54_accepts env henv hwf _ hw1 cfg _ m' hm' hlen' _ _).1 ha).1 hne).2
  have hval : (xs.map fun x => ((1 : Byte), x.1)) = (xs.map (·.1)).map (1, ·) := by simp
  have hfield : Reads env cfg (.field col) 1 (xs.map (·.1)) [.seq (xs.map (·.2.1))] (⟨xs.length, 0⟩ + sumStats (xs.map (·.2.2))) := by
    cases hcol with
    | vec hu => simpa using Reads.fieldVec hu hel
    | list => simpa using Reads.fieldList hel
  rw [hval]
  refine .bodyTuple (by simp) (.inr ?_) ?_
  · intro x hx
    obtain ⟨v, -, rfl⟩ := List.mem_map.1 hx
    simp [components]
  · have := Reads.fieldsCons (env := env) (cfg := cfg) (x := ⟨1, s!"field_{0}", col⟩) (xs := []) (d := 0) (l := (xs.map (·.1)).map (1, ·)) h0 (by rw [occ_map]; exact hfield) .fieldsNil
    rw [Stats.add_zero] at this
    exact this

/-- `Vec<bool>` from two occurrences. -/
example : Accepts exEnv (.tuple [.vec (.prim .bool)]) .default [65, 1, 65, 0, 0] (.seq [.seq [.bool true, .bool false]]) ⟨2, 0⟩ := by
  have h1 : Message [(1, .int 1)] [65, 1, 0] := (by decide +kernel : canonToks [.int 1 1, .endStruct] = [65, 1, 0]) ▸ message_canon (.int .nil) (by decide)
  have h0 : Message [(1, .int 0)] [65, 0, 0] := (by decide +kernel : canonToks [.int 1 0, .endStruct] = [65, 0, 0]) ▸ message_canon (.int .nil) (by decide)
  refine c40_collection exEnv exEnv_ok exEnv_wf (.prim .bool) (.vec (.prim .bool)) (.vec rfl) rfl (by rintro n (h | h) <;> cases h) rfl .default (by decide)
    [(.int 1, .bool true, .zero), (.int 0, .bool false, .zero)] ?_ _
    ((by decide +kernel : canonToks [.int 1 1, .int 1 0, .endStruct] = [65, 1, 65, 0, 0]) ▸ message_canon (.int (.int .nil)) (by decide)) (by decide) (by decide)
  intro x hx
  simp only [List.mem_cons, List.not_mem_nil, or_false] at hx
  rcases hx with rfl | rfl
  · exact ⟨_, h1, by decide, fun s hs hroom => (reads_iff h1 hs hroom _ _).2 ⟨rfl, by decide⟩⟩
  · exact ⟨_, h0, by decide, fun s hs hroom => (reads_iff h0 hs hroom _ _).2 ⟨rfl, by decide⟩⟩

/-- `(bool,)` from two occurrences is an error, and from none. -/
example : Rejects exEnv (.tuple [.prim .bool]) .default [65, 1, 65, 0, 0] ∧ Rejects exEnv (.tuple [.prim .bool]) .default [0] := by
  refine ⟨c40_rejected exEnv exEnv_ok exEnv_wf _ rfl _ (.tuple (by decide)) _ [(1, .int 1), (1, .int 0)] _
      ((by decide +kernel : canonToks [.int 1 1, .int 1 0, .endStruct] = [65, 1, 65, 0, 0]) ▸ message_canon (.int (.int .nil)) (by decide)) (by decide)
      ⟨1, s!"field_{0}", .prim .bool⟩ (List.mem_singleton.2 rfl) (by simp [Ty.MayOccur]),
    c40_rejected exEnv exEnv_ok exEnv_wf _ rfl _ (.tuple (by decide)) _ [] _
      ((by decide +kernel : canonToks [.endStruct] = [0]) ▸ message_canon .nil (by decide)) (by decide)
      ⟨1, s!"field_{0}", .prim .bool⟩ (List.mem_singleton.2 rfl) (by simp [Ty.MayOccur])⟩

end Fourleaf.Props
