import Verif.SerShape
import Verif.DeTop
import Verif.DeErr

/-! # Properties of serialisation and deserialisation: C30–C32, C34, C48, C49 -/

namespace Fourleaf.Props
open Fourleaf Spec

/-! ## C30: round trip -/

/-- What serialising a value writes, and that reading it gives the value. -/
theorem tree_roundtrip {env : Env} (henv : env.Ok) {t : Ty} {v : V} {k : Need} (h : HasType env t v k) :
    ∃ cs l, SerializesBody env t v cs ∧ WritesBody cs l ∧ ∀ cfg, k.Within cfg → deTree env t cfg l = .ret v k.used ∧ k.used.fits cfg := by
  obtain ⟨v', l, hv, ⟨cs, h1, h2⟩, h3⟩ := needs_rt henv h
  cases hv
  refine ⟨cs, l, h1, h2, fun cfg hk => ⟨?_, hk.collected, hk.blob⟩⟩
  exact (h3 cfg 0 ⟨hk.depth, hk.lenient⟩ _).resolve_left fun ⟨c, h⟩ => deTree_noso env t cfg l c h

theorem _root_.Fourleaf.WritesBody.message {cs : List WCall} {l : Fields} (h : WritesBody cs l) : Message l (canonToks (callToks cs)) :=
  ⟨_, h.body, canonToks_enc (by
    intro t ht
    simp only [callToks, List.mem_flatMap] at ht
    obtain ⟨c, hc, ht⟩ := ht
    exact h.valid c hc t ht)⟩

theorem callToks_commit (cs : List WCall) : callToks (cs ++ [.commit]) = callToks cs := by
  rw [callToks_append]; simp [callToks, WCall.toks]

/-- **C30** A value of any type, whose type declarations have distinct proper tags, is serialised by a determined sequence of calls. Executing it on any
sink puts a message there which deserialises to the same value (with any configuration that admits the value), from any stream over it,
whatever follows; exactly the message is consumed. -/
theorem c30_roundtrip (env : Env) (henv : env.Ok) (t : Ty) (v : V) (k : Need) (h : HasType env t v k) :
    ∃ cs, ToStream env t v cs ∧ (∀ cs', ToStream env t v cs' → cs' = cs) ∧
      ∀ w : Stream, Sink w → Benign w.inner.sched → w.pos + (canonToks (callToks cs)).length + 11 ≤ U64MAX →
        ∃ w', runCalls cs w = .ok () w' ∧ Sink w' ∧ w'.inner.data = written w.inner.data w.inner.pos (canonToks (callToks cs)) ∧
          ∀ cfg, k.Within cfg → ∀ (r : Stream) (tail : List Byte), Over r (canonToks (callToks cs) ++ tail) →
            r.pos + (canonToks (callToks cs) ++ tail).length < U64MAX →
            ∃ r', (deserialize env t cfg).run (r, .zero) = .ok v (r', k.used) ∧ Behind r r' (canonToks (callToks cs)) tail := by
  obtain ⟨cs, l, h1, h2, h3⟩ := tree_roundtrip henv h
  refine ⟨cs ++ [.commit], ⟨cs, h1, rfl⟩, ?_, fun w hw hb hroom => ?_⟩
  · rintro _ ⟨b, h4, rfl⟩; rw [serializesBody_unique h1 h4]
  · have hv : ∀ c ∈ cs ++ [.commit], ∀ t ∈ c.toks, t.Valid := by
      intro c hc
      rcases List.mem_append.1 hc with hc | hc
      · exact h2.valid c hc
      · cases List.mem_singleton.1 hc; intro t ht; cases ht
    obtain ⟨w', g1, g2, -, -, g3⟩ := c09_documented_format (cs ++ [.commit]) hv w hw hb hroom
    refine ⟨w', g1, g3, g2, fun cfg hk r tail hr hroom' => ?_⟩
    rw [callToks_commit] at hr hroom' ⊢
    exact de_ok env t cfg h2.message hr hroom' (h3 cfg hk).1 (h3 cfg hk).2

/-- Which sequences are values: of every type but `u8`, all whose elements are values (`isU8` plays no role here); of `u8`, all byte strings. -/
theorem c30_sequences (env : Env) :
    (∀ (e : Ty) (vs : List V), e ≠ .prim (.int .u8) → (∀ v ∈ vs, ∃ k, Needs env (.elem e) [v] k) →
      (∃ k, HasType env (.vec e) (.seq vs) k) ∧ (∃ k, HasType env (.small vs.length e) (.seq vs) k) ∧ ∃ k, HasType env (.large vs.length e) (.seq vs) k) ∧
    (∀ d : List Byte, d.length < 2 ^ 64 →
      (∃ k, HasType env (.vec (.prim (.int .u8))) (.ofBytes d) k) ∧ (∃ k, HasType env (.small d.length (.prim (.int .u8))) (.ofBytes d) k) ∧
      ∃ k, HasType env (.large d.length (.prim (.int .u8))) (.ofBytes d) k) := by
  refine ⟨fun e vs he hv => ?_, fun d hd => ?_⟩
  · have hu : e.isU8 = false := by
      unfold Ty.isU8
      split
      · exact absurd rfl he
      · rfl
    obtain ⟨k, hk⟩ : ∃ k, Needs env (.each e) vs k := by
      induction vs with
      | nil => exact ⟨_, .eachNil⟩
      | cons v vs ih =>
        obtain ⟨k1, h1⟩ := hv v (by simp)
        obtain ⟨k2, h2⟩ := ih fun w hw => hv w (by simp [hw])
        exact ⟨_, .eachCons h1 h2⟩
    exact ⟨⟨_, .bodyWrapped rfl (.fieldVec hu hk)⟩, ⟨_, .bodyWrapped rfl (.fieldSmall hu rfl hk)⟩, ⟨_, .bodyWrapped rfl (.fieldLarge hu rfl hk)⟩⟩
  · exact ⟨⟨_, .bodyWrapped rfl (.fieldSingle rfl (.elemVec hd))⟩, ⟨_, .bodyWrapped rfl (.fieldSingle rfl (.elemSmall rfl hd))⟩, ⟨_, .bodyWrapped rfl (.fieldSingle rfl (.elemLarge rfl hd))⟩⟩

/-- `vec![-1i8, 5]`. -/
example : ∃ k, HasType exEnv (.vec (.prim (.int .i8))) (.seq [.num (-1), .num 5]) k :=
  ((c30_sequences exEnv).1 (.prim (.int .i8)) [.num (-1), .num 5] (by simp) (by
    intro v hv
    rcases List.mem_cons.1 hv with rfl | hv
    · exact ⟨_, .elemPrim (.int (by decide) (by decide))⟩
    · cases List.mem_singleton.1 hv; exact ⟨_, .elemPrim (.int (by decide) (by decide))⟩)).1

/-- A declaration environment used in examples: `struct 0 { [1] a: u16, [2] b: Vec<String>, (?) rest: UnknownFields }` and
`enum 1 { 3 => { [1] x: i8 }, (?) => { (*) u: UnknownFields } }`. -/
def exEnv : Env where
  decl
    | 0 => .struct ⟨[⟨1, "a", .prim (.int .u16)⟩, ⟨2, "b", .vec (.prim .string)⟩], .unknown "rest" false, fun _ => true⟩
    | 1 => .enum [(3, ⟨[⟨1, "x", .prim (.int .i8)⟩], .plain, fun _ => true⟩)] (some ⟨[], .delegate "u" (.unknownFields false), fun _ => true⟩)
    | _ => .struct ⟨[], .plain, fun _ => true⟩
  size := 10
  bound := by
    intro i t ht
    match i with
    | 0 => revert t; decide
    | 1 => revert t; decide
    | _ + 2 => cases ht

theorem exEnv_ok : exEnv.Ok := by
  intro i
  match i with
  | 0 => show FieldsOk _; decide
  | 1 =>
    refine ⟨?_, ?_⟩
    · intro x hx; cases List.mem_singleton.1 hx; show FieldsOk _; decide
    · intro b hb; cases hb; show FieldsOk _; decide
  | _ + 2 => show FieldsOk _; decide

/-- The value `S { a: 500, b: ["", "x"], rest: { 5: 7 } }`. -/
def exValue : V := .seq [.num 500, .seq [.str "", .str "x"], .seq [.seq [.num 5, .variant 0 [.num 7]]]]

theorem exValue_type : ∃ k, HasType exEnv (.named 0) exValue k ∧ k.Within .default := by
  refine ⟨_, .bodyStruct (b := ⟨[⟨1, "a", .prim (.int .u16)⟩, ⟨2, "b", .vec (.prim .string)⟩], .unknown "rest" false, fun _ => true⟩) rfl
    (.partsUnknown (vs := [.num 500, .seq [.str "", .str "x"]]) rfl rfl
      (.fieldsCons (.fieldSingle rfl (.elemPrim (.int (by decide) (by decide))))
        (.fieldsCons (.fieldVec rfl (.eachCons (.elemPrim (.string (by decide))) (.eachCons (.elemPrim (.string (by decide))) .eachNil))) .fieldsNil))
      (.unknownCons (tag := 5) (by decide) (by decide) (.unkInt (n := 7)) .unknownNil)), ⟨by decide, by decide, by decide, by decide⟩⟩

/-! ## C31: several values -/

/-- Values of the given types deserialised one after the other from the same stream. -/
def readAll (env : Env) (cfg : Config) : List Ty → Stream → Option (List V × Stream)
  | [], s => some ([], s)
  | t :: ts, s =>
    match (deserialize env t cfg).run (s, .zero) with
    | .ok v (s', _) => (readAll env cfg ts s').map fun r => (v :: r.1, r.2)
    | _ => none

/-- `to_stream` for one value after the other. -/
inductive ToStreams (env : Env) : List (Ty × V) → List WCall → Prop where
  | nil : ToStreams env [] []
  | cons {t v xs cs cs'} : ToStream env t v cs → ToStreams env xs cs' → ToStreams env ((t, v) :: xs) (cs ++ cs')

theorem canonToks_append (a b : List Tok) : canonToks (a ++ b) = canonToks a ++ canonToks b := by simp [canonToks]

theorem streams_roundtrip {env : Env} (henv : env.Ok) {cfg : Config} : ∀ (xs : List (Ty × V)), (∀ x ∈ xs, ∃ k, HasType env x.1 x.2 k ∧ k.Within cfg) →
    ∃ cs, ToStreams env xs cs ∧ (∀ c ∈ cs, ∀ t ∈ c.toks, t.Valid) ∧
      ∀ (r : Stream) (tail : List Byte), Over r (canonToks (callToks cs) ++ tail) → r.pos + (canonToks (callToks cs) ++ tail).length < U64MAX →
        ∃ r', readAll env cfg (xs.map (·.1)) r = some (xs.map (·.2), r') ∧ Over r' tail ∧ r'.pos = r.pos + (canonToks (callToks cs)).length
  | [], _ => ⟨[], .nil, nofun, fun r tail hr _ => ⟨r, rfl, hr, rfl⟩⟩
  | (t, v) :: xs, h => by
    obtain ⟨k, hk, hw⟩ := h (t, v) (by simp)
    obtain ⟨cs, l, h1, h2, h3⟩ := tree_roundtrip henv hk
    obtain ⟨cs', g1, g2, g3⟩ := streams_roundtrip henv xs fun x hx => h x (List.mem_cons_of_mem _ hx)
    refine ⟨(cs ++ [.commit]) ++ cs', .cons ⟨cs, h1, rfl⟩ g1, ?_, fun r tail hr hroom => ?_⟩
    · intro c hc
      rcases List.mem_append.1 hc with hc | hc
      · rcases List.mem_append.1 hc with hc | hc
        · exact h2.valid c hc
        · cases List.mem_singleton.1 hc; intro t ht; cases ht
      · exact g2 c hc
    · rw [callToks_append, callToks_commit, canonToks_append] at hr hroom ⊢
      rw [List.append_assoc] at hr hroom
      obtain ⟨r', e1, e2⟩ := de_ok env t cfg h2.message hr hroom (h3 cfg hw).1 (h3 cfg hw).2
      obtain ⟨r'', e3, e4, e5⟩ := g3 r' tail e2.over (by
        rw [e2.pos]; simp only [List.length_append] at hroom ⊢; omega)
      refine ⟨r'', ?_, e4, by rw [e5, e2.pos]; simp only [List.length_append]; omega⟩
      simp only [List.map_cons, readAll, e1, e3, Option.map]

/-- **C31** Values written to a stream one after the other are read back in order by consecutive deserialisations; each starts right behind the previous message, and
the last one leaves the stream right behind its own. -/
theorem c31_sequence (env : Env) (henv : env.Ok) (cfg : Config) (xs : List (Ty × V)) (h : ∀ x ∈ xs, ∃ k, HasType env x.1 x.2 k ∧ k.Within cfg) :
    ∃ cs, ToStreams env xs cs ∧
      ∀ w : Stream, Sink w → Benign w.inner.sched → w.pos + (canonToks (callToks cs)).length + 11 ≤ U64MAX →
        ∃ w', runCalls cs w = .ok () w' ∧ w'.inner.data = written w.inner.data w.inner.pos (canonToks (callToks cs)) ∧
          ∀ (r : Stream) (tail : List Byte), Over r (canonToks (callToks cs) ++ tail) → r.pos + (canonToks (callToks cs) ++ tail).length < U64MAX →
            ∃ r', readAll env cfg (xs.map (·.1)) r = some (xs.map (·.2), r') ∧ Over r' tail ∧ r'.pos = r.pos + (canonToks (callToks cs)).length := by
  obtain ⟨cs, h1, h2, h3⟩ := streams_roundtrip henv xs h
  refine ⟨cs, h1, fun w hw hb hroom => ?_⟩
  obtain ⟨w', g1, g2, -⟩ := c09_documented_format cs h2 w hw hb hroom
  exact ⟨w', g1, g2, h3⟩

/-- The struct, then the pair `(9, true)`, then the struct again, as one `write_all` after the other. -/
example : ∃ cs, ToStreams exEnv [(.named 0, exValue), (.tuple [u8, .prim .bool], .seq [.num 9, .bool true]), (.named 0, exValue)] cs ∧
    ∀ r : Stream, Over r (canonToks (callToks cs)) → r.pos + (canonToks (callToks cs)).length + 11 ≤ U64MAX →
      ∃ r', readAll exEnv .default [.named 0, .tuple [u8, .prim .bool], .named 0] r = some ([exValue, .seq [.num 9, .bool true], exValue], r') ∧ Over r' [] := by
  have hp : ∃ k, HasType exEnv (.tuple [u8, .prim .bool]) (.seq [.num 9, .bool true]) k ∧ k.Within .default :=
    ⟨_, .bodyTuple (by decide) (by decide) (.fieldsCons (.fieldSingle rfl (.elemPrim (.int (by decide) (by decide)))) (.fieldsCons (.fieldSingle rfl (.elemPrim .bool)) .fieldsNil)),
      ⟨by decide, by decide, by decide, by decide⟩⟩
  obtain ⟨cs, h1, h2⟩ := c31_sequence exEnv exEnv_ok .default [(.named 0, exValue), (.tuple [u8, .prim .bool], .seq [.num 9, .bool true]), (.named 0, exValue)] (by
      intro x hx
      rcases List.mem_cons.1 hx with rfl | hx
      · exact exValue_type
      · rcases List.mem_cons.1 hx with rfl | hx
        · exact hp
        · cases List.mem_singleton.1 hx; exact exValue_type)
  refine ⟨cs, h1, fun r hr hroom => ?_⟩
  obtain ⟨w', -, -, h3⟩ := h2 (Stream.new ⟨[], 0, [], false⟩) ⟨.inl rfl, Nat.zero_le _⟩ (fun _ h => nomatch h) (by
    show 0 + _ + 11 ≤ _
    omega)
  obtain ⟨r', h4, h5, -⟩ := h3 r [] (by simpa using hr) (by rw [List.append_nil]; omega)
  exact ⟨r', h4, h5⟩

/-! ## C32: the contract of `Serialize` -/

/-- **C32** Whatever the type and value: `serialize_body` writes the fields of one struct with exactly one closing element, everything inside being balanced;
`serialize_element` exactly one field with the given tag; `serialize_field` any number of fields, all with the given tag. -/
theorem c32_contract (env : Env) (t : Ty) (v : V) :
    (∀ cs, SerializesBody env t v cs → ∃ l, BodyOf l (callToks cs)) ∧
    (∀ tag cs, SerializesElement env t tag v cs → ∃ val, ∀ l ts, BodyOf l ts → BodyOf ((tag, val) :: l) (callToks cs ++ ts)) ∧
    (∀ tag cs, SerializesField env t tag v cs → ∃ vals : List Val, ∀ l ts, BodyOf l ts → BodyOf (vals.map (tag, ·) ++ l) (callToks cs ++ ts)) :=
  ⟨fun cs ⟨n, h⟩ => (sops_shape env n).body t v cs h, fun tag cs ⟨n, h⟩ => (sops_shape env n).element t tag v cs h,
    fun tag cs ⟨n, h⟩ => (sops_shape env n).field t tag v cs h⟩

example : SerializesBody exEnv (.named 0) exValue
    [.u16 1 500, .blobData 2 [], .blobData 2 [120], .u64 5 7, .endStruct] := ⟨5, rfl⟩

/-! ## C34: what follows a message -/

/-- **C34** If a message deserialises from a stream that ends behind it, then also from a stream where anything follows (also something that
is not well-formed), with the same value and the same use of the limits, and the stream is left right behind the message. -/
theorem c34_tail (env : Env) (t : Ty) (cfg : Config) (l : Fields) (m tail : List Byte) (hm : Message l m) (s0 s : Stream) (hs0 : Over s0 m)
    (h0 : s0.pos + m.length < U64MAX) (v : V) (c : Stats) (s0' : Stream) (hrun : (deserialize env t cfg).run (s0, .zero) = .ok v (s0', c))
    (hs : Over s (m ++ tail)) (hroom : s.pos + (m ++ tail).length < U64MAX) :
    ∃ s', (deserialize env t cfg).run (s, .zero) = .ok v (s', c) ∧ Behind s s' m tail := by
  have hs0' : Over s0 (m ++ []) := by simpa using hs0
  have h0' : s0.pos + (m ++ ([] : List Byte)).length < U64MAX := by simpa using h0
  rcases PM.cases (deTree env t cfg l) with ⟨v', c', hd⟩ | ⟨k, c', hd⟩
  · by_cases hf : c'.fits cfg
    · obtain ⟨s1, h1, -⟩ := de_ok env t cfg hm hs0' h0' hd hf
      rw [hrun] at h1
      cases h1
      exact de_ok env t cfg hm hs hroom hd hf
    · obtain ⟨e, st, h1, -⟩ := de_over_toks env t cfg hm .nil hs0' h0' hd hf
      rw [hrun] at h1; cases h1
  · obtain ⟨e, st, h1, -⟩ := de_err_toks env t cfg hm .nil hs0' h0' hd
    rw [hrun] at h1; cases h1

/-! ## C49: strict mode -/

/-- `()`, possibly boxed. -/
inductive UnitBody : Ty → Prop where
  | unit : UnitBody (.tuple [])
  | boxed {t} : UnitBody t → UnitBody (.boxed t)

/-- No body delegates to `()` with `(*)`. -/
def Body.NoUnit (b : Body) : Prop := ∀ name t, b.tail = .delegate name t → ¬ UnitBody t
def Decl.NoUnit : Decl → Prop
  | .struct b => Body.NoUnit b
  | .enum vs ca => (∀ x ∈ vs, Body.NoUnit x.2) ∧ ∀ b, ca = some b → Body.NoUnit b

/-- Which values need `ignore_unknown_fields`. -/
theorem strict_needs {env : Env} (henv : ∀ i, Decl.NoUnit (env.decl i)) {it : Item} {vs : List V} {k : Need} (h : Needs env it vs k) :
    match it with
    | .body t => ¬ UnitBody t → k.lenient = false
    | .parts b => Body.NoUnit b → k.lenient = false
    | _ => k.lenient = false := by
  induction h with
  | bodyBoxed _ ih => exact fun h => ih fun h' => h (.boxed h')
  | bodyUnit => exact fun h => absurd .unit h
  | bodyTuple _ _ _ ih => exact fun _ => ih
  | bodyUnknown _ ih => exact fun _ => ih
  | bodyStruct hd _ ih => exact fun _ => ih (by have := henv ‹_›; rw [hd] at this; exact this)
  | bodyWrapped _ _ ih => exact fun _ => ih
  | fieldBoxed _ ih | fieldSingle _ _ ih | fieldVec _ _ ih | fieldSmall _ _ _ ih | fieldLarge _ _ _ ih | fieldList _ ih | fieldSet _ _ ih
    | fieldOption _ _ ih | fieldMap _ _ ih | elemBoxed _ ih | elemColl _ _ ih | elemDelegate _ _ _ _ _ ih => exact ih
  | elemPrim _ | elemVec _ | elemSmall _ _ | elemLarge _ _ | elemUnit | unkInt | unkBlob _ | eachNil | fieldsNil | unknownNil => rfl
  | elemTuple hne _ ih => exact ih fun h => by cases h; exact hne rfl
  | elemUnknown _ ih => exact ih fun h => by cases h
  | elemStruct _ _ _ ih => exact ih fun h => by cases h
  | elemVariant hd hf _ ih => exact ih (by have := henv ‹_›; rw [hd] at this; exact this.1 _ (List.mem_of_find?_eq_some hf))
  | elemCatchAll hd _ _ ih => exact ih (by have := henv ‹_›; rw [hd] at this; exact this.2 _ rfl)
  | unkStruct _ ih => exact ih fun h => by cases h
  | unkEnum _ ih => exact ih fun h => by cases h
  | eachCons _ _ ih1 ih2 => simp only at ih1 ih2 ⊢; simp [Need.seq, ih1, ih2]
  | fieldsCons _ _ ih1 ih2 => simp only at ih1 ih2 ⊢; simp [Need.seq, Need.nest, ih1, ih2]
  | partsPlain _ _ _ ih => exact fun _ => ih
  | partsDelegate ht _ _ _ ih => exact fun h => ih (h _ _ ht)
  | partsUnknown _ _ _ _ ih1 ih2 => intro _; simp only at ih1 ih2 ⊢; simp [Need.seq, Need.nest, Need.zero, ih1, ih2]
  | unknownCons _ _ _ _ ih1 ih2 => simp only at ih1 ih2 ⊢; simp [Need.seq, Need.nest, Need.collecting, ih1, ih2]

/-- Which configurations admit a value but for unknown fields. -/
theorem strict_within {env : Env} (henv : ∀ i, Decl.NoUnit (env.decl i)) {t : Ty} (ht : ¬ UnitBody t) {v : V} {k : Need} (h : HasType env t v k)
    {cfg : Config} (hw : k.Within cfg) : k.Within { cfg with ignoreUnknownFields := false } :=
  ⟨hw.depth, hw.collected, hw.blob, fun hl => by
    have hs : k.lenient = false := strict_needs henv h ht
    rw [hs] at hl; cases hl⟩

/-- **C49** (a) Unless the type is `()` (possibly boxed) or some declaration delegates to `()`, reading back a serialised value does not need
`ignore_unknown_fields`: with `ignore_unknown_fields = false`, and limits that suffice, what was serialised reads as the same value. -/
theorem c49_strict (env : Env) (hok : env.Ok) (henv : ∀ i, Decl.NoUnit (env.decl i)) (t : Ty) (ht : ¬ UnitBody t) (v : V) (k : Need) (h : HasType env t v k)
    (cfg : Config) (hw : k.Within cfg) :
    ∃ cs, ToStream env t v cs ∧ ∀ (s : Stream) (tail : List Byte), Over s (canonToks (callToks cs) ++ tail) →
      s.pos + (canonToks (callToks cs) ++ tail).length < U64MAX →
      ∃ s', (deserialize env t { cfg with ignoreUnknownFields := false }).run (s, .zero) = .ok v (s', k.used) ∧ Behind s s' (canonToks (callToks cs)) tail := by
  have hw' : k.Within { cfg with ignoreUnknownFields := false } := strict_within henv ht h hw
  obtain ⟨cs, l, h1, h2, h3⟩ := tree_roundtrip hok h
  refine ⟨cs ++ [.commit], ⟨cs, h1, rfl⟩, fun s tail hs hroom => ?_⟩
  rw [callToks_commit] at hs hroom ⊢
  exact de_ok env t _ h2.message hs hroom (h3 _ hw').1 (h3 _ hw').2

/-- `()`, possibly boxed or behind structs which delegate to it (`n` of them). -/
inductive UnitLike (env : Env) : Ty → V → Nat → Prop where
  | unit : UnitLike env (.tuple []) (.seq []) 0
  | boxed {t v n} : UnitLike env t v n → UnitLike env (.boxed t) v n
  | delegate {i b name t v n} : env.decl i = .struct b → b.tail = .delegate name t → b.fields = [] → UnitLike env t v n →
      UnitLike env (.named i) (.seq [v]) (n + 1)

theorem UnitLike.serializes {env : Env} {t : Ty} {v : V} {n : Nat} (h : UnitLike env t v n) :
    SerializesBody env t v [.struct 1, .endStruct, .endStruct] := by
  induction h with
  | unit => exact ⟨3, rfl⟩
  | boxed _ ih => obtain ⟨m, h⟩ := ih; exact ⟨m + 1, h⟩
  | delegate hd ht hf _ ih =>
    obtain ⟨m, h⟩ := ih
    refine ⟨m + 1, ?_⟩
    rw [sops]; dsimp only
    simp only [bodySer, hd, macroBodySer, hf, serFields, Option.bind, ht, h, Option.map, List.nil_append]

theorem UnitLike.refused {env : Env} {t : Ty} {v : V} {n : Nat} (h : UnitLike env t v n) {cfg : Config} (hc : cfg.ignoreUnknownFields = false) :
    ∀ d, n + d ≤ cfg.recursionLimit → ∀ m, (∃ c, (pops env cfg m).body t d [(1, .struct [])] = .fail .stackOverflow c) ∨
      (pops env cfg m).body t d [(1, .struct [])] = .fail (.unknownField 1 0) := by
  induction h with
  | unit =>
    intro d _ m
    cases m with
    | zero => exact .inl ⟨_, rfl⟩
    | succ m =>
      right
      rw [pops]; dsimp only
      simp only [pBody, pStruct, tupleFields, List.mapIdx_nil, pLoop, pFieldStep, List.findIdx?_nil, hc, Bool.false_eq_true, if_false, PM.bind_fail]
  | boxed _ ih =>
    intro d hd m
    cases m with
    | zero => exact .inl ⟨_, rfl⟩
    | succ m => exact ih d hd m
  | delegate hdl ht hf _ ih =>
    intro d hd m
    cases m with
    | zero => exact .inl ⟨_, rfl⟩
    | succ m =>
      rcases ih (d + 1) (by omega) m with ⟨c, h⟩ | h
      · refine .inl ⟨c, ?_⟩
        rw [pops]; dsimp only
        simp only [pBody, hdl, pMacro, ht, pPush_ok (show d < cfg.recursionLimit by omega), PM.bind_ret, h, PM.bind_fail]
      · right
        rw [pops]; dsimp only
        simp only [pBody, hdl, pMacro, ht, pPush_ok (show d < cfg.recursionLimit by omega), PM.bind_ret, h, PM.bind_fail]

/-- (b) `()`, boxed or behind structs which delegate to it, does not survive the round trip without `ignore_unknown_fields`: reading what `to_vec` writes fails with
`UnknownField` for the field 1 which `()` writes. -/
theorem c49_unit (env : Env) (t : Ty) (v : V) (n : Nat) (h : UnitLike env t v n) (cfg : Config) (hc : cfg.ignoreUnknownFields = false)
    (hn : n ≤ cfg.recursionLimit) :
    ∃ cs, ToStream env t v cs ∧ canonToks (callToks cs) = [0xC1, 0x00, 0x00] ∧ ∀ s : Stream, Over s (canonToks (callToks cs)) → s.pos + 3 < U64MAX →
      ∃ e st, (deserialize env t cfg).run (s, .zero) = .err (.client e) st ∧ ∃ pos, e.kind = .unknownField 1 pos := by
  refine ⟨[.struct 1, .endStruct, .endStruct] ++ [.commit], ⟨_, h.serializes, rfl⟩, by rw [callToks_commit]; rfl, fun s hs hroom => ?_⟩
  rw [callToks_commit] at hs
  have hm : Message [(1, .struct [])] (canonToks (callToks ([.struct 1, .endStruct] ++ [.endStruct]))) :=
    (WritesBody.message (WritesBody.ende.struct tagOk_one).close)
  have hd : deTree env t cfg [(1, .struct [])] = .fail (.unknownField 1 0) :=
    (h.refused hc 0 hn _).resolve_left fun ⟨c, h⟩ => deTree_noso env t cfg _ c h
  obtain ⟨e, st, h1, h2⟩ := de_err_toks env t cfg hm .nil (by simpa using hs) (by rw [List.append_nil]; exact hroom) hd
  refine ⟨e, st, h1, ?_⟩
  rcases h2 with h2 | h2
  · cases hk : e.kind <;> rw [hk] at h2 <;> simp [Kind.unpos] at h2
    exact ⟨_, by rw [h2]⟩
  · exact absurd ⟨Nat.zero_le _, Nat.zero_le _⟩ h2.not_fits

/-- The declarations of `exEnv` are an example of (a). -/
theorem exNoUnit : (∀ i, Decl.NoUnit (exEnv.decl i)) ∧ ¬ UnitBody (.named 0) := by
  refine ⟨fun i => ?_, nofun⟩
  match i with
  | 0 => intro _ _ h; cases h
  | 1 =>
    refine ⟨?_, ?_⟩
    · intro x hx; cases List.mem_singleton.1 hx; intro _ _ h; cases h
    · intro b hb; cases hb; intro _ _ h; cases h; nofun
  | _ + 2 => intro _ _ h; cases h

example : ∃ cs, ToStream exEnv (.named 0) exValue cs ∧ ∀ s : Stream, Over s (canonToks (callToks cs)) → s.pos + (canonToks (callToks cs)).length < U64MAX →
    ∃ s' u, (deserialize exEnv (.named 0) { Config.default with ignoreUnknownFields := false }).run (s, .zero) = .ok exValue (s', u) := by
  obtain ⟨k, h1, h2⟩ := exValue_type
  obtain ⟨cs, h3, h4⟩ := c49_strict exEnv exEnv_ok exNoUnit.1 (.named 0) exNoUnit.2 exValue k h1 .default h2
  refine ⟨cs, h3, fun s hs hroom => ?_⟩
  obtain ⟨s', h5, -⟩ := h4 s [] (by simpa using hs) (by simpa using hroom)
  exact ⟨s', _, h5⟩

/-- `struct 0 { (*) inner: Box<()> }` is an example of (b). -/
example : UnitLike ⟨fun _ => .struct ⟨[], .delegate "inner" (.boxed (.tuple [])), fun _ => true⟩, 4, by intro _ t _; revert t; decide⟩ (.named 0) (.seq [.seq []]) 1 :=
  .delegate rfl rfl rfl (.boxed .unit)

end Fourleaf.Props
