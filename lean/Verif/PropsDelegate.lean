import Verif.PropsBackward
import Verif.PropsUnits

/-! # C83: structs and enum variants that delegate to a field (the pseudo-tag `(*)`) -/

namespace Fourleaf.Props
open Fourleaf Spec

/-- `Delegates env i t ok`: the declaration with number `i` is a struct that delegates to a field of type `t`. Its value is `.seq [v]` where `v` is the value of the field, and the constructor accepts it if
`ok v = true`. -/
def Delegates (env : Env) (i : Nat) (t : Ty) (ok : V → Bool) : Prop :=
  ∃ b name, env.decl i = .struct b ∧ b.tail = .delegate name t ∧ ok = fun v => b.check [v]

/-- The same configuration with `n` more levels of recursion. -/
def _root_.Fourleaf.Config.deeper (cfg : Config) (n : Nat) : Config := { cfg with recursionLimit := cfg.recursionLimit + n }

/-! ## Writing -/

theorem delegates_fields {env : Env} (hwf : env.wf) {i : Nat} {b : Body} {name : String} {t : Ty} (h : env.decl i = .struct b) (ht : b.tail = .delegate name t) : b.fields = [] ∧ t.wf false = true := by
  have := hwf i
  rw [h] at this
  exact this.2 name t ht

theorem macroBodySer_delegate {o : SOps} {b : Body} {name : String} {t : Ty} (hf : b.fields = []) (ht : b.tail = .delegate name t) (v : V) : macroBodySer o b [v] = o.body t v := by
  simp only [macroBodySer, hf, serFields, ht, Option.bind_some, List.nil_append]
  cases o.body t v <;> rfl

theorem body_delegates {env : Env} (hwf : env.wf) {i : Nat} {t : Ty} {ok : V → Bool} (h : Delegates env i t ok) (v : V) (cs : List WCall) :
    SerializesBody env (.named i) (.seq [v]) cs ↔ SerializesBody env t v cs := by
  obtain ⟨b, name, h1, h2, -⟩ := h
  have he (n : Nat) : (sops env (n + 1)).body (.named i) (.seq [v]) = (sops env n).body t v := by
    simp only [sops, bodySer, h1]
    exact macroBodySer_delegate (delegates_fields hwf h1 h2).1 h2 v
  constructor
  · rintro ⟨n, h⟩
    cases n with
    | zero => cases h
    | succ n => exact ⟨n, he n ▸ h⟩
  · rintro ⟨n, h⟩
    exact ⟨n + 1, (he n).trans h⟩

theorem element_delegates {env : Env} {i : Nat} {t : Ty} {ok : V → Bool} (h : Delegates env i t ok) (n : Nat) (tag : Byte) (v : V) :
    (sops env (n + 1)).element (.named i) tag (.seq [v]) = (sops env n).element t tag v := by
  obtain ⟨b, name, h1, h2, -⟩ := h
  simp only [sops, elementSer, h1, h2]

/-- **C83** (a) As a whole message, a struct that delegates to a field is written like the value of that field. -/
theorem c83_written (env : Env) (hwf : env.wf) (i : Nat) (t : Ty) (ok : V → Bool) (h : Delegates env i t ok) (v : V) (cs : List WCall) :
    ToStream env (.named i) (.seq [v]) cs ↔ ToStream env t v cs :=
  exists_congr fun b => and_congr_left fun _ => body_delegates hwf h v b

/-- (b) As an element of a collection as well, and also as a field: like an element, so that a collection is wrapped in a struct. -/
theorem c83_written_element (env : Env) (i : Nat) (t : Ty) (ok : V → Bool) (h : Delegates env i t ok) (tag : Byte) (v : V) (cs : List WCall) :
    (SerializesElement env (.named i) tag (.seq [v]) cs ↔ SerializesElement env t tag v cs) ∧ (SerializesField env (.named i) tag (.seq [v]) cs ↔ SerializesElement env t tag v cs) := by
  have he := element_delegates h
  constructor <;> constructor
  · rintro ⟨n, h⟩
    cases n with
    | zero => cases h
    | succ n => exact ⟨n, he n tag v ▸ h⟩
  · rintro ⟨n, h⟩
    exact ⟨n + 1, (he n tag v).trans h⟩
  · rintro ⟨n, h⟩
    match n, h with
    | 0, h => cases h
    | 1, h => cases h
    | n + 2, h =>
      replace h : (sops env (n + 1)).element (.named i) tag (.seq [v]) = some cs := h
      exact ⟨n, he n tag v ▸ h⟩
  · rintro ⟨n, h⟩
    exact ⟨n + 2, (he n tag v).trans h⟩

/-- (c) A variant that delegates to a field is written as its discriminant with the fields of the message for the value of the field. -/
theorem c83_written_variant (env : Env) (hwf : env.wf) (i : Nat) (disc : UInt64) (b : Body) (hv : VariantOf env i disc b) (name : String) (t : Ty) (ht : b.tail = .delegate name t) (tag : Byte) (v : V)
    (cs : List WCall) : SerializesElement env (.named i) tag (.variant disc [v]) cs ↔ ∃ cs', SerializesBody env t v cs' ∧ cs = .enum tag disc :: cs' := by
  have he (n : Nat) : (sops env (n + 1)).element (.named i) tag (.variant disc [v]) = ((sops env n).body t v).map (.enum tag disc :: ·) := by
    have hi := hwf i
    cases hv with
    | declared h1 h2 =>
      rw [h1] at hi
      have hf := ((hi.1 _ (List.mem_of_find?_eq_some h2)).2 name t ht).1
      simp only [sops, elementSer, h1, h2]
      rw [macroBodySer_delegate hf ht]
    | @other variants h1 h2 =>
      rw [h1] at hi
      have hf := ((hi.2 b rfl).2 name t ht).1
      have h3 : variants.find? (fun x => x.1 = disc) = none := List.find?_eq_none.2 fun x hx => by simpa using h2 x hx
      simp only [sops, elementSer, h1, h3]
      rw [macroBodySer_delegate hf ht]
  constructor
  · rintro ⟨n, h⟩
    cases n with
    | zero => cases h
    | succ n =>
      rw [he, Option.map_eq_some_iff] at h
      obtain ⟨cs', h1, h2⟩ := h
      exact ⟨cs', ⟨n, h1⟩, h2.symm⟩
  · rintro ⟨cs', ⟨n, h⟩, rfl⟩
    exact ⟨n + 1, by rw [he, h]; rfl⟩

/-! ## Reading -/

/-- Only the remaining depth matters. -/
theorem reads_shift {env : Env} {a b : Config} (hs : a.ignoreUnknownFields = true → b.ignoreUnknownFields = true) {it : RItem} {d : Nat} {vals : List Val} {vs : List V} {c : Stats}
    (h : Reads env a it d vals vs c) : ∀ {d'}, a.recursionLimit + d' ≤ b.recursionLimit + d → Reads env b it d' vals vs c := by
  have hi : ∀ {tags l}, a.Ignores tags l → b.Ignores tags l := by
    rintro tags l (h | h)
    · exact .inl (hs h)
    · exact .inr h
  induction h with
  | bodyBoxed _ ih => exact fun hd => .bodyBoxed (ih hd)
  | bodyTuple h1 h2 _ ih => exact fun hd => .bodyTuple h1 (hi h2) (ih hd)
  | bodyUnknown _ ih => exact fun hd => .bodyUnknown (ih hd)
  | bodyStruct h _ ih => exact fun hd => .bodyStruct h (ih hd)
  | bodyWrapped h1 h2 h3 _ ih => exact fun hd => .bodyWrapped h1 (hi h2) (by omega) (ih (by omega))
  | fieldBoxed _ ih => exact fun hd => .fieldBoxed (ih hd)
  | fieldSingle h _ ih => exact fun hd => .fieldSingle h (ih hd)
  | fieldNoBytes => exact fun _ => .fieldNoBytes
  | fieldNoBytesL h => exact fun _ => .fieldNoBytesL h
  | fieldVec h _ ih => exact fun hd => .fieldVec h (ih hd)
  | fieldList _ ih => exact fun hd => .fieldList (ih hd)
  | fieldSet _ ih => exact fun hd => .fieldSet (ih hd)
  | fieldMap _ ih => exact fun hd => .fieldMap (ih hd)
  | fieldOption h _ ih => exact fun hd => .fieldOption h (ih hd)
  | fieldSmall h h' _ ih => exact fun hd => .fieldSmall h h' (ih hd)
  | fieldLarge h h' _ ih => exact fun hd => .fieldLarge h h' (ih hd)
  | elemPrim h => exact fun _ => .elemPrim h
  | elemBoxed _ ih => exact fun hd => .elemBoxed (ih hd)
  | elemVec => exact fun _ => .elemVec
  | elemSmall h => exact fun _ => .elemSmall h
  | elemLarge h => exact fun _ => .elemLarge h
  | elemStruct h _ ih => exact fun hd => .elemStruct h (ih hd)
  | elemDelegate h1 h2 h3 h4 _ ih => exact fun hd => .elemDelegate h1 h2 (by omega) h4 (ih (by omega))
  | elemVariant h1 h2 _ ih => exact fun hd => .elemVariant h1 h2 (ih hd)
  | elemCatchAll h1 h2 _ ih => exact fun hd => .elemCatchAll h1 h2 (ih hd)
  | unkInt => exact fun _ => .unkInt
  | unkBlob => exact fun _ => .unkBlob
  | unkStruct _ ih => exact fun hd => .unkStruct (ih hd)
  | unkEnum _ ih => exact fun hd => .unkEnum (ih hd)
  | eachNil => exact fun _ => .eachNil
  | eachCons _ _ ih1 ih2 => exact fun hd => .eachCons (ih1 hd) (ih2 hd)
  | fieldsNil => exact fun _ => .fieldsNil
  | fieldsCons h _ _ ih1 ih2 => exact fun hd => .fieldsCons (by omega) (ih1 (by omega)) (ih2 hd)
  | partsPlain h1 h2 h3 _ ih => exact fun hd => .partsPlain h1 h2 (hi h3) (ih hd)
  | partsDelegate h1 h2 h3 _ ih => exact fun hd => .partsDelegate h1 h2 (by omega) (ih (by omega))
  | partsUnknown h1 h2 h3 _ _ ih1 ih2 => exact fun hd => .partsUnknown h1 h2 (by omega) (ih1 hd) (ih2 hd)
  | unknownNil => exact fun _ => .unknownNil
  | unknownCons h _ _ ih1 ih2 => exact fun hd => .unknownCons (by omega) (ih1 (by omega)) (ih2 hd)

theorem reads_deeper {env : Env} {cfg : Config} (n : Nat) {it : RItem} {d : Nat} {vals : List Val} {vs : List V} {c : Stats} : Reads env (cfg.deeper n) it (d + n) vals vs c ↔ Reads env cfg it d vals vs c :=
  ⟨fun h => reads_shift (a := cfg.deeper n) (b := cfg) (fun h => h) h (by show cfg.recursionLimit + n + d ≤ _; omega),
   fun h => reads_shift (a := cfg) (b := cfg.deeper n) (fun h => h) h (by show _ ≤ cfg.recursionLimit + n + d; omega)⟩

theorem parts_delegate_iff {env : Env} {cfg : Config} {b : Body} {name : String} {t : Ty} (ht : b.tail = .delegate name t) {d : Nat} {vals : List Val} {vs : List V} {c : Stats} :
    Reads env cfg (.parts b) d vals vs c ↔ ∃ v, vs = [v] ∧ b.check [v] = true ∧ d < cfg.recursionLimit ∧ Reads env cfg (.body t) (d + 1) vals [v] c := by
  constructor
  · intro h
    cases h with
    | partsPlain g => rw [ht] at g; cases g
    | partsDelegate g h1 h2 h3 => rw [ht] at g; cases g; exact ⟨_, rfl, h1, h2, h3⟩
    | partsUnknown g => rw [ht] at g; cases g
  · rintro ⟨v, rfl, h1, h2, h3⟩
    exact .partsDelegate ht h1 h2 h3

theorem elem_delegate_iff {env : Env} {cfg : Config} {i : Nat} {t : Ty} {ok : V → Bool} (h : Delegates env i t ok) {d : Nat} {vals : List Val} {vs : List V} {c : Stats} :
    Reads env cfg (.elem (.named i)) d vals vs c ↔ ∃ v, vs = [.seq [v]] ∧ ok v = true ∧ d < cfg.recursionLimit ∧ Reads env cfg (.elem t) (d + 1) vals [v] c := by
  obtain ⟨b, name, h1, h2, rfl⟩ := h
  constructor
  · intro h
    cases h with
    | elemStruct hs => simp [Ty.inStruct, h1, h2] at hs
    | elemDelegate g1 g2 g3 g4 g5 => rw [h1] at g1; cases g1; rw [h2] at g2; cases g2; exact ⟨_, rfl, g4, g3, g5⟩
    | elemVariant g => rw [h1] at g; cases g
    | elemCatchAll g => rw [h1] at g; cases g
  · rintro ⟨v, rfl, g1, g2, g3⟩
    obtain ⟨val, rfl⟩ : ∃ val, vals = [val] := by
      clear g1 h2 h1
      generalize hi : RItem.elem t = it at g3
      generalize d + 1 = d' at g3
      generalize [v] = vs' at g3
      induction g3 generalizing t <;> first | exact ⟨_, rfl⟩ | (cases hi; done) | (rename_i ih; cases hi; exact ih rfl)
    exact .elemDelegate h1 h2 g2 g1 g3

theorem fits_deeper {cfg : Config} {n : Nat} {c : Stats} : c.fits (cfg.deeper n) ↔ c.fits cfg := Iff.rfl

/-- (d) As a whole message, a struct that delegates to a field is read like the value of that field, and takes one level of recursion: a message is accepted exactly if it is accepted as a value of the type
of the field with a recursion limit that is lower by one, and the constructor accepts this value. -/
theorem c83_reads (env : Env) (henv : env.Ok) (hwf : env.wf) (i : Nat) (t : Ty) (ok : V → Bool) (h : Delegates env i t ok) (cfg : Config) (l : Fields) (m : List Byte) (hm : Message l m)
    (hlen : m.length < U64MAX) (w : V) (c : Stats) :
    Accepts env (.named i) (cfg.deeper 1) m w c ↔ ∃ v, w = .seq [v] ∧ ok v = true ∧ Accepts env t cfg m v c := by
  obtain ⟨b, name, h1, h2, rfl⟩ := h
  have ht := (delegates_fields hwf h1 h2).2
  rw [c54_accepts env henv hwf (.named i) rfl _ l m hm hlen, fits_deeper]
  constructor
  · rintro ⟨hr, hf⟩
    cases hr with
    | bodyStruct g hp =>
      rw [h1] at g; cases g
      obtain ⟨v, rfl, hc, -, hb⟩ := (parts_delegate_iff h2).1 hp
      exact ⟨v, rfl, hc, (c54_accepts env henv hwf t ht cfg l m hm hlen v c).2 ⟨(reads_deeper _).1 hb, hf⟩⟩
    | bodyWrapped hw => simp [Ty.isWrapped, h1] at hw
  · rintro ⟨v, rfl, hc, ha⟩
    obtain ⟨hr, hf⟩ := (c54_accepts env henv hwf t ht cfg l m hm hlen v c).1 ha
    exact ⟨.bodyStruct h1 ((parts_delegate_iff h2).2 ⟨v, rfl, hc, by simp only [Config.deeper]; omega, (reads_deeper 1).2 hr⟩), hf⟩

/-- With no level of recursion, nothing is accepted. -/
theorem c83_no_level (env : Env) (henv : env.Ok) (hwf : env.wf) (i : Nat) (t : Ty) (ok : V → Bool) (h : Delegates env i t ok) (cfg : Config) (h0 : cfg.recursionLimit = 0) (l : Fields) (m : List Byte)
    (hm : Message l m) (hlen : m.length < U64MAX) : Rejects env (.named i) cfg m := by
  obtain ⟨b, name, h1, h2, rfl⟩ := h
  refine (c54_rejects env henv hwf (.named i) rfl cfg l m hm hlen).2 fun v c _ hr => ?_
  cases hr with
  | bodyStruct g hp =>
    rw [h1] at g; cases g
    obtain ⟨v, -, -, hd, -⟩ := (parts_delegate_iff h2).1 hp
    omega
  | bodyWrapped hw => simp [Ty.isWrapped, h1] at hw

theorem variant_elem {env : Env} {cfg : Config} {i : Nat} {disc : UInt64} {b : Body} (hv : VariantOf env i disc b) {d : Nat} {l : Fields} {w : V} {c : Stats}
    (h : Reads env cfg (.elem (.named i)) d [.enum disc l] [w] c) : ∃ vs, w = .variant disc vs ∧ Reads env cfg (.parts b) d [.struct l] vs c := by
  cases h with
  | elemDelegate g => cases hv with
    | declared h1 => rw [h1] at g; cases g
    | other h1 => rw [h1] at g; cases g
  | elemVariant g1 g2 g3 => cases hv with
    | declared h1 h2 => rw [h1] at g1; cases g1; rw [h2] at g2; cases g2; exact ⟨_, rfl, g3⟩
    | other h1 h2 =>
      rw [h1] at g1; cases g1
      exact absurd rfl (h2 _ (List.mem_of_find?_eq_some g2))
  | elemCatchAll g1 g2 g3 => cases hv with
    | declared h1 h2 =>
      rw [h1] at g1; cases g1
      exact absurd rfl (g2 _ (List.mem_of_find?_eq_some h2))
    | other h1 h2 => rw [h1] at g1; cases g1; exact ⟨_, rfl, g3⟩

/-- (e) A variant that delegates to a field: the message with the variant as its only field is accepted exactly if the message with the fields of the variant is accepted as a value of the type of the field,
with a recursion limit that is lower by two, and the constructor accepts this value. -/
theorem c83_reads_variant (env : Env) (henv : env.Ok) (hwf : env.wf) (i : Nat) (disc : UInt64) (b : Body) (hv : VariantOf env i disc b) (name : String) (t : Ty) (ht : b.tail = .delegate name t) (cfg : Config)
    (l : Fields) (m m' : List Byte) (hm : Message l m) (hm' : Message [(1, .enum disc l)] m') (hlen : m.length < U64MAX) (hlen' : m'.length < U64MAX) (w : V) (c : Stats) :
    Accepts env (.named i) (cfg.deeper 2) m' w c ↔ ∃ v, w = .variant disc [v] ∧ b.check [v] = true ∧ Accepts env t cfg m v c := by
  have hi := hwf i
  have hw : (Ty.named i).isWrapped env = true := by
    cases hv with
    | declared h1 _ => simp [Ty.isWrapped, h1]
    | other h1 _ => simp [Ty.isWrapped, h1]
  have htw : t.wf false = true := by
    cases hv with
    | declared h1 h2 => rw [h1] at hi; exact ((hi.1 _ (List.mem_of_find?_eq_some h2)).2 name t ht).2
    | other h1 h2 => rw [h1] at hi; exact ((hi.2 b rfl).2 name t ht).2
  have hocc : occ 1 [((1 : Byte), Val.enum disc l)] = [.enum disc l] := rfl
  rw [c54_accepts env henv hwf (.named i) rfl _ _ m' hm' hlen', fits_deeper]
  constructor
  · rintro ⟨hr, hf⟩
    cases hr with
    | bodyStruct g => simp [Ty.isWrapped, g] at hw
    | bodyWrapped _ _ _ hr =>
      rw [hocc] at hr
      cases hr with
      | fieldSingle _ hr =>
        obtain ⟨vs, rfl, hp⟩ := variant_elem hv hr
        obtain ⟨v, rfl, hc, -, hb⟩ := (parts_delegate_iff ht).1 hp
        exact ⟨v, rfl, hc, (c54_accepts env henv hwf t htw cfg l m hm hlen v c).2 ⟨(reads_deeper _).1 hb, hf⟩⟩
  · rintro ⟨v, rfl, hc, ha⟩
    obtain ⟨hr, hf⟩ := (c54_accepts env henv hwf t htw cfg l m hm hlen v c).1 ha
    refine ⟨.bodyWrapped hw (.inr (by simp)) (by simp [Config.deeper]) ?_, hf⟩
    rw [hocc]
    exact .fieldSingle rfl (variant_reads hv ((parts_delegate_iff ht).2 ⟨v, rfl, hc, by simp only [Config.deeper]; omega, (reads_deeper 2).2 hr⟩))

/-! ## Fields -/

theorem serFields_step {env : Env} (n : Nat) : ∀ (fs fs' : List FieldDecl) (vs : List V) (r : List WCall × List V), fs'.length = fs.length →
    (∀ (j : Nat) (x x' : FieldDecl) (v : V) (cs : List WCall), fs[j]? = some x → fs'[j]? = some x' → vs[j]? = some v → (sops env n).field x.ty x.tag v = some cs → (sops env (n + 1)).field x'.ty x'.tag v = some cs) →
    serFields (sops env n) fs vs = some r → serFields (sops env (n + 1)) fs' vs = some r
  | [], [], _, _, _, _, h => h
  | x :: fs, x' :: fs', [], _, _, _, h => by cases h
  | x :: fs, x' :: fs', v :: vs, r, hl, hf, h => by
    simp only [serFields, Option.bind_eq_some_iff, Option.map_eq_some_iff] at h ⊢
    obtain ⟨a, h1, r', h2, h3⟩ := h
    exact ⟨a, hf 0 x x' v a rfl rfl rfl h1, r', serFields_step n fs fs' vs r' (by simpa using hl) (fun j y y' w cs e1 e2 e3 => hf (j + 1) y y' w cs (by simpa using e1) (by simpa using e2) (by simpa using e3)) h2, h3⟩

theorem plain_ser {env : Env} {t : Ty} {fs : List FieldDecl} {chk : List V → Bool} (p : PlainTy env t fs chk) (hne : fs ≠ []) (vs : List V) (cs : List WCall) :
    SerializesBody env t (.seq vs) cs ↔ ∃ n a, serFields (sops env n) fs vs = some (a, []) ∧ cs = a ++ [.endStruct] := by
  have he (n : Nat) : (sops env (n + 1)).body t (.seq vs) = some cs ↔ ∃ a, serFields (sops env n) fs vs = some (a, []) ∧ cs = a ++ [.endStruct] := by
    cases p with
    | @tuple ts hl =>
      cases ts with
      | nil => exact absurd rfl hne
      | cons t ts =>
        simp only [sops, bodySer, tupleFields_components]
        split
        · rename_i a ha
          simp only [ha, Option.some.injEq, Prod.mk.injEq]
          exact ⟨fun h => ⟨a, ⟨rfl, trivial⟩, h.symm⟩, fun ⟨a', ⟨h1, _⟩, h2⟩ => by rw [h2, h1]⟩
        · rename_i hno
          exact ⟨fun h => by (cases h), fun ⟨a, ha, _⟩ => absurd ha (hno a)⟩
    | @struct i b hd ht =>
      simp only [sops, bodySer, hd, macroBodySer, ht]
      cases hs : serFields (sops env n) b.fields vs with
      | none => simp
      | some r =>
        obtain ⟨a, rest⟩ := r
        cases rest with
        | nil => simp [eq_comm]
        | cons => simp
  constructor
  · rintro ⟨n, h⟩
    cases n with
    | zero => cases h
    | succ n => exact ⟨n, (he n).1 h⟩
  · rintro ⟨n, h⟩
    exact ⟨n + 1, (he n).2 h⟩

theorem retyped_ser {env : Env} {t t' : Ty} {j : Nat} {a b : Ty} {ok : List V → Bool} (h : Retyped env t t' j a b ok) {vs : List V} {v : V} (hv : vs[j]? = some v)
    (hf : ∀ n tag cs, (sops env n).field a tag v = some cs → (sops env (n + 1)).field b tag v = some cs) {cs : List WCall} (hs : SerializesBody env t (.seq vs) cs) : SerializesBody env t' (.seq vs) cs := by
  obtain ⟨fs, chk, x, p, hx, rfl, p'⟩ := h.fields
  have hj : j < fs.length := (List.getElem?_eq_some_iff.1 hx).1
  have hne : fs ≠ [] := by rintro rfl; simp at hj
  obtain ⟨n, r, h1, rfl⟩ := (plain_ser p hne vs cs).1 hs
  refine (plain_ser p' (by simpa using hne) vs _).2 ⟨n + 1, r, serFields_step n fs _ vs _ (by simp) ?_ h1, rfl⟩
  intro k y y' w cs e1 e2 e3 h
  by_cases hk : j = k
  · subst hk
    rw [hx] at e1; cases e1
    rw [List.getElem?_set_self hj] at e2; cases e2
    rw [hv] at e3; cases e3
    exact hf _ _ _ h
  · rw [List.getElem?_set_ne hk, e1] at e2; cases e2
    exact (sops_le_succ env n).field _ _ _ _ h

/-- A field of a type that delegates to a field of type `a` is written like an array `[a; 1]`, i.e. like one element of a collection. -/
theorem field_one {env : Env} {i : Nat} {a : Ty} {ok : V → Bool} (h : Delegates env i a ok) (hu : a.isU8 = false) (n : Nat) (tag : Byte) (u : V) :
    (sops env (n + 2)).field (.named i) tag (.seq [u]) = (sops env (n + 1)).field (.small 1 a) tag (.seq [u]) := by
  have h1 : (sops env (n + 2)).field (.named i) tag (.seq [u]) = (sops env (n + 1)).element (.named i) tag (.seq [u]) := by simp only [sops, fieldSer]
  rw [h1, element_delegates h]
  simp only [sops, fieldSer, hu, serAll]
  cases (sops env n).element a tag u <;> simp

/-- (f) A field of a type that delegates to `a` is written exactly like a field of type `[a; 1]` (for a type other than `u8`, for which that is a blob), that is like the only element of a collection: -/
theorem c83_written_field (env : Env) (t t' : Ty) (j i : Nat) (a : Ty) (ok ok' : List V → Bool) (okD : V → Bool) (h : Retyped env t t' j (.small 1 a) (.named i) ok)
    (h' : Retyped env t' t j (.named i) (.small 1 a) ok') (hd : Delegates env i a okD) (hu : a.isByte = false) (vs : List V) (u : V) (hv : vs[j]? = some (.seq [u])) (cs : List WCall) :
    ToStream env t' (.seq vs) cs ↔ ToStream env t (.seq vs) cs := by
  have hu : a.isU8 = false := hu
  refine exists_congr fun b => and_congr_left fun _ => ⟨retyped_ser h' hv fun n tag cs hn => ?_, retyped_ser h hv fun n tag cs hn => ?_⟩
  · match n, hn with
    | 0, hn => cases hn
    | 1, hn => cases hn
    | n + 2, hn => exact (sops_mono env (by omega)).field _ _ _ _ ((field_one hd hu n tag u).symm.trans hn)
  · match n, hn with
    | 0, hn => cases hn
    | n + 1, hn => exact (field_one hd hu n tag u).trans hn

/-- As `fields_set`, where the new field is read with another configuration. -/
theorem fields_set_deeper {env : Env} {cfg cfg' : Config} (hs : cfg.ignoreUnknownFields = true → cfg'.ignoreUnknownFields = true) (hle : cfg.recursionLimit ≤ cfg'.recursionLimit) {d : Nat} {l : Fields}
    (fs : List FieldDecl) : ∀ {vs : List V} {c : Stats} {j : Nat} {x : FieldDecl},
    Reads env cfg (.fields fs) d [.struct l] vs c → fs[j]? = some x →
    ∃ v c1 c0, vs[j]? = some v ∧ c = c1 + c0 ∧ Reads env cfg (.field x.ty) (d + 1) (occ x.tag l) [v] c1 ∧
      ∀ ty' v' c1', Reads env cfg' (.field ty') (d + 1) (occ x.tag l) [v'] c1' → Reads env cfg' (.fields (fs.set j { x with ty := ty' })) d [.struct l] (vs.set j v') (c1' + c0) := by
  induction fs with
  | nil => intro _ _ _ _ _ h; simp at h
  | cons y fs ih =>
    intro vs c j x h hx
    cases h with
    | fieldsCons hd hf hr =>
      rename_i v vs c c'
      cases j with
      | zero =>
        cases hx
        exact ⟨v, c, c', rfl, rfl, hf, fun ty' v' c1' h' => .fieldsCons (x := { y with ty := ty' }) (Nat.lt_of_lt_of_le hd hle) h' (reads_weaken hs hle hr)⟩
      | succ j =>
        obtain ⟨w, c1, c0, e1, e2, h1, h2⟩ := ih hr (by simpa using hx)
        refine ⟨w, c1, c + c0, by simpa using e1, ?_, h1, fun ty' v' c1' h' => ?_⟩
        · rw [e2, ← Stats.add_assoc, ← Stats.add_assoc, Stats.add_comm c]
        · rw [← Stats.add_assoc, Stats.add_comm c1', Stats.add_assoc]
          exact .fieldsCons (Nat.lt_of_lt_of_le hd hle) (reads_weaken hs hle hf) (h2 ty' v' c1' h')

theorem retyped_deeper {env : Env} (henv : env.Ok) (hwf : env.wf) {t t' : Ty} {j : Nat} {a b : Ty} {ok : List V → Bool} (h : Retyped env t t' j a b ok) {cfg : Config} {l : Fields} {m : List Byte}
    (hm : Message l m) (hlen : m.length < U64MAX) {vs : List V} {c : Stats} (ha : Accepts env t cfg m (.seq vs) c) :
    ∃ v vals c1, 0 < cfg.recursionLimit ∧ vs[j]? = some v ∧ Reads env cfg (.field a) 1 vals [v] c1 ∧
      ∀ v', Reads env (cfg.deeper 1) (.field b) 1 vals [v'] c1 → ok (vs.set j v') = true → Accepts env t' (cfg.deeper 1) m (.seq (vs.set j v')) c := by
  obtain ⟨fs, chk, x, p, hx, rfl, p'⟩ := h.fields
  obtain ⟨hr, hf⟩ := (c54_accepts env henv hwf t h.wf cfg l m hm hlen _ c).1 ha
  obtain ⟨_, he, hi, hr⟩ := plain_inv p hr
  cases he
  obtain ⟨v, c1, c0, e1, e2, h1, h2⟩ := fields_set_deeper (cfg := cfg) (cfg' := cfg.deeper 1) (fun h => h) (by simp [Config.deeper]) fs hr hx
  refine ⟨v, _, c1, fields_depth hr (by rintro rfl; simp at hx), e1, h1, fun v' h' hok => ?_⟩
  subst e2
  refine (c54_accepts env henv hwf t' h.wf' _ l m hm hlen _ _).2 ⟨plain_mk p' hok ?_ (h2 _ _ _ h'), hf⟩
  rw [set_tags hx]
  exact hi

/-- (g) and it is read like a field of type `[a; 1]`, with one more level of recursion: -/
theorem c83_reads_field (env : Env) (henv : env.Ok) (hwf : env.wf) (t t' : Ty) (j i : Nat) (a : Ty) (ok : List V → Bool) (okD : V → Bool) (h : Retyped env t t' j (.small 1 a) (.named i) ok)
    (hd : Delegates env i a okD) (hu : a.isByte = false) (cfg : Config) (l : Fields) (m : List Byte) (hm : Message l m) (hlen : m.length < U64MAX) (vs : List V) (c : Stats)
    (ha : Accepts env t cfg m (.seq vs) c) :
    ∃ u, vs[j]? = some (.seq [u]) ∧ (okD u = true → ok vs = true → Accepts env t' (cfg.deeper 1) m (.seq vs) c) := by
  have hu : a.isU8 = false := hu
  obtain ⟨v, vals, c1, h0, e1, h1, h2⟩ := retyped_deeper henv hwf h hm hlen ha
  cases h1 with
  | fieldSingle hs => simp [Ty.isSingle, hu] at hs
  | fieldSmall _ hl he =>
    match vals, hl, he with
    | [val], _, he2 =>
      cases he2 with
      | eachCons he1 hn =>
        cases hn
        refine ⟨_, e1, fun ho hok => ?_⟩
        have := h2 _ (.fieldSingle rfl ((elem_delegate_iff hd).2 ⟨_, rfl, ho, Nat.succ_lt_succ h0, by rw [Stats.add_zero]; exact (reads_deeper 1).2 he1⟩)) (by rw [set_same e1]; exact hok)
        rwa [set_same e1] at this

/-- … and whatever is read as a field of the delegating type is read as a field of type `[a; 1]`. -/
theorem c83_reads_field_back (env : Env) (henv : env.Ok) (hwf : env.wf) (t t' : Ty) (j i : Nat) (a : Ty) (ok : List V → Bool) (okD : V → Bool) (h : Retyped env t' t j (.named i) (.small 1 a) ok)
    (hd : Delegates env i a okD) (hu : a.isByte = false) (cfg : Config) (l : Fields) (m : List Byte) (hm : Message l m) (hlen : m.length < U64MAX) (vs : List V) (c : Stats)
    (ha : Accepts env t' cfg m (.seq vs) c) :
    ∃ u, vs[j]? = some (.seq [u]) ∧ okD u = true ∧ (ok vs = true → Accepts env t cfg m (.seq vs) c) := by
  have hu : a.isU8 = false := hu
  obtain ⟨v, vals, c1, c0, e1, e2, hf, h1, h2⟩ := retyped_step henv hwf h hm hlen ha
  cases h1 with
  | fieldSingle _ he =>
    obtain ⟨u, hw, ho, hl, he1⟩ := (elem_delegate_iff hd).1 he
    cases hw
    refine ⟨u, e1, ho, fun hok => ?_⟩
    subst e2
    have h3 := Reads.fieldSmall (n := 1) hu rfl (.eachCons (reads_shallow he1 (Nat.le_succ 1)) .eachNil)
    rw [Stats.add_zero] at h3
    have := h2 _ _ h3 (by rw [set_same e1]; exact hok) hf
    rwa [set_same e1] at this

/-- (h) In collections, a delegating type is read like the type it delegates to: -/
theorem c83_reads_vec (env : Env) (henv : env.Ok) (hwf : env.wf) (t t' : Ty) (j i : Nat) (a : Ty) (ok : List V → Bool) (okD : V → Bool) (h : Retyped env t t' j (.vec a) (.vec (.named i)) ok)
    (hd : Delegates env i a okD) (hu : a.isByte = false) (cfg : Config) (l : Fields) (m : List Byte) (hm : Message l m) (hlen : m.length < U64MAX) (vs : List V) (c : Stats)
    (ha : Accepts env t cfg m (.seq vs) c) :
    ∃ us, vs[j]? = some (.seq us) ∧ ((∀ u ∈ us, okD u = true) → ok (vs.set j (.seq (us.map fun u => .seq [u]))) = true →
      Accepts env t' (cfg.deeper 1) m (.seq (vs.set j (.seq (us.map fun u => .seq [u])))) c) := by
  have hu : a.isU8 = false := hu
  obtain ⟨v, vals, c1, h0, e1, h1, h2⟩ := retyped_deeper henv hwf h hm hlen ha
  have each : ∀ (us : List V) (vals : List Val) (c : Stats), (∀ u ∈ us, okD u = true) → Reads env cfg (.each a) 1 vals us c → Reads env (cfg.deeper 1) (.each (.named i)) 1 vals (us.map fun u => .seq [u]) c := by
    intro us
    induction us with
    | nil => intro _ _ _ h; cases h; exact .eachNil
    | cons u us ih =>
      intro _ _ ho h
      cases h with
      | eachCons g1 g2 =>
        exact .eachCons ((elem_delegate_iff hd).2 ⟨u, rfl, ho u List.mem_cons_self, Nat.succ_lt_succ h0, (reads_deeper 1).2 g1⟩) (ih _ _ (fun w hw => ho w (List.mem_cons_of_mem _ hw)) g2)
  cases h1 with
  | fieldSingle hs => simp [Ty.isSingle, hu] at hs
  | fieldVec _ he => exact ⟨_, e1, fun ho hok => h2 _ (.fieldVec rfl (each _ _ _ ho he)) hok⟩

/-! ## Examples -/

/-- `struct Wrapper(Vec<u16>)`, which delegates and accepts at most two numbers, `enum E { 5 => V((*) P) }` and `struct P { 1 => n: u8 }`. -/
def exDelegate : Env where
  decl
    | 0 => .struct ⟨[], .delegate "inner" (.vec (.prim (.int .u16))), fun vs => match vs with | [.seq us] => us.length ≤ 2 | _ => false⟩
    | 1 => .enum [(5, ⟨[], .delegate "p" (.named 2), fun _ => true⟩)] none
    | _ => .struct ⟨[⟨1, "n", u8⟩], .plain, fun _ => true⟩
  size := 10
  bound := by
    intro i t ht
    match i with
    | 0 | 1 => revert t; decide
    | n + 2 =>
      cases List.mem_singleton.1 (show t ∈ [u8] from ht)
      decide

theorem exDelegate_ok : exDelegate.Ok := by
  intro i
  match i with
  | 0 => show FieldsOk _; decide
  | 1 =>
    refine ⟨?_, fun b h => by cases h⟩
    intro x hx
    cases List.mem_singleton.1 hx; show FieldsOk _; decide
  | _ + 2 => show FieldsOk _; decide

theorem exDelegate_wf : exDelegate.wf := by
  intro i
  match i with
  | 0 => exact ⟨by decide, fun name t h => by cases h; exact ⟨rfl, by decide⟩⟩
  | 1 =>
    refine ⟨?_, fun b h => by cases h⟩
    intro x hx
    cases List.mem_singleton.1 hx; exact ⟨by decide, fun name t h => by cases h; exact ⟨rfl, by decide⟩⟩
  | _ + 2 => exact ⟨by decide, fun name t h => by cases h⟩

theorem exDelegate_0 : Delegates exDelegate 0 (.vec (.prim (.int .u16))) fun v => match v with | .seq us => us.length ≤ 2 | _ => false :=
  ⟨_, _, rfl, rfl, by funext v; cases v <;> rfl⟩

/-- `Wrapper(vec![7, 8])` as a message: two fields. -/
example : ToStream exDelegate (.named 0) (.seq [.seq [.num 7, .num 8]]) [.u16 1 7, .u16 1 8, .endStruct, .commit] :=
  (c83_written exDelegate exDelegate_wf 0 _ _ exDelegate_0 _ _).2 ⟨[.u16 1 7, .u16 1 8, .endStruct], ⟨3, rfl⟩, rfl⟩

/-- As a field, the collection is wrapped in a struct. -/
example : ToStream exDelegate (.tuple [.named 0]) (.seq [.seq [.seq [.num 7, .num 8]]]) [.struct 1, .u16 1 7, .u16 1 8, .endStruct, .endStruct, .commit] :=
  (c83_written_field exDelegate (.tuple [.small 1 (.vec (.prim (.int .u16)))]) (.tuple [.named 0]) 0 0 (.vec (.prim (.int .u16))) _ _ _
    ⟨rfl, rfl, _, _, ⟨1, "field_0", _⟩, .tuple (by decide), rfl, rfl, .tuple (ts := [.named 0]) (by decide)⟩
    ⟨rfl, rfl, _, _, ⟨1, "field_0", _⟩, .tuple (ts := [.named 0]) (by decide), rfl, rfl, .tuple (ts := [.small 1 (.vec (.prim (.int .u16)))]) (by decide)⟩
    exDelegate_0 rfl _ (.seq [.num 7, .num 8]) rfl _).2 ⟨[.struct 1, .u16 1 7, .u16 1 8, .endStruct, .endStruct], ⟨5, rfl⟩, rfl⟩

theorem exDelegate_message : Message [(1, .int 7), (1, .int 8)] [65, 7, 65, 8, 0] :=
  (by decide +kernel : canonToks [.int 1 7, .int 1 8, .endStruct] = [65, 7, 65, 8, 0]) ▸ message_canon (.int (.int .nil)) (by decide)

/-- The message is read with two levels of recursion, one for the wrapper and one for the vector. -/
example : Accepts exDelegate (.named 0) ⟨2, false, 0, 2⟩ [65, 7, 65, 8, 0] (.seq [.seq [.num 7, .num 8]]) ⟨2, 0⟩ :=
  (c83_reads exDelegate exDelegate_ok exDelegate_wf 0 _ _ exDelegate_0 ⟨1, false, 0, 2⟩ _ _ exDelegate_message (by decide) _ _).2
    ⟨_, rfl, rfl, fun _ hs hroom => (reads_iff exDelegate_message hs hroom _ _).2 ⟨rfl, by decide⟩⟩

/-- A variant: its fields are those of the message for the field. -/
example : SerializesElement exDelegate (.named 1) 3 (.variant 5 [.seq [.num 9]]) [.enum 3 5, .u8 1 9, .endStruct] :=
  (c83_written_variant exDelegate exDelegate_wf 1 5 ⟨[], .delegate "p" (.named 2), fun _ => true⟩ (.declared rfl rfl) "p" (.named 2) rfl 3 _ _).2 ⟨[.u8 1 9, .endStruct], ⟨4, rfl⟩, rfl⟩
example : Accepts exDelegate (.named 1) ⟨3, false, 0, 0⟩ [1, 5, 65, 9, 0, 0] (.variant 5 [.seq [.num 9]]) .zero :=
  (c83_reads_variant exDelegate exDelegate_ok exDelegate_wf 1 5 ⟨[], .delegate "p" (.named 2), fun _ => true⟩ (.declared rfl rfl) "p" (.named 2) rfl ⟨1, false, 0, 0⟩ [(1, .int 9)] [65, 9, 0] _
    ((by decide +kernel : canonToks [.int 1 9, .endStruct] = [65, 9, 0]) ▸ message_canon (.int .nil) (by decide))
    ((by decide +kernel : canonToks [.enum 1 5, .int 1 9, .endStruct, .endStruct] = [1, 5, 65, 9, 0, 0]) ▸ message_canon (.enum (.int .nil) .nil) (by decide)) (by decide) (by decide) _ _).2
    ⟨_, rfl, rfl, fun _ hs hroom => (reads_iff ((by decide +kernel : canonToks [.int 1 9, .endStruct] = [65, 9, 0]) ▸ message_canon (.int .nil) (by decide) : Message [(1, .int 9)] [65, 9, 0]) hs hroom _ _).2 ⟨rfl, by decide⟩⟩

theorem exDelegate_nested : Message [(1, .struct [(1, .int 7), (1, .int 8)])] [193, 65, 7, 65, 8, 0, 0] :=
  (by decide +kernel : canonToks [.struct 1, .int 1 7, .int 1 8, .endStruct, .endStruct] = [193, 65, 7, 65, 8, 0, 0]) ▸ message_canon (.struct (.int (.int .nil)) .nil) (by decide)

/-- What is read as `([Vec<u16>; 1],)` with two levels is read as `(Wrapper,)` with three. -/
example : Accepts exDelegate (.tuple [.named 0]) ⟨3, false, 0, 2⟩ [193, 65, 7, 65, 8, 0, 0] (.seq [.seq [.seq [.num 7, .num 8]]]) ⟨2, 0⟩ := by
  obtain ⟨u, h1, h2⟩ := c83_reads_field exDelegate exDelegate_ok exDelegate_wf (.tuple [.small 1 (.vec (.prim (.int .u16)))]) (.tuple [.named 0]) 0 0 (.vec (.prim (.int .u16))) _ _
    ⟨rfl, rfl, _, _, ⟨1, "field_0", _⟩, .tuple (by decide), rfl, rfl, .tuple (ts := [.named 0]) (by decide)⟩ exDelegate_0 rfl ⟨2, false, 0, 2⟩ _ _ exDelegate_nested (by decide)
    [.seq [.seq [.num 7, .num 8]]] ⟨2, 0⟩ fun _ hs hroom => (reads_iff exDelegate_nested hs hroom _ _).2 ⟨rfl, by decide⟩
  cases h1
  exact h2 rfl rfl

end Fourleaf.Props
