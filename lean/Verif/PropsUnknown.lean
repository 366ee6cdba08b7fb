import Verif.PropsReads

/-! # C42, C43: unknown fields are preserved -/

namespace Fourleaf
open Spec

mutual
/-- Nesting depth of a value. -/
def Val.depth : Val → Nat
  | .int _ | .blob _ => 0
  | .struct l | .enum _ l => fieldsDepth l
/-- Levels of a message: none if it is empty. -/
def fieldsDepth : List (Byte × Val) → Nat
  | [] => 0
  | (_, v) :: l => max (v.depth + 1) (fieldsDepth l)
end

mutual
/-- Number of fields at all levels. -/
def Val.count : Val → Nat
  | .int _ | .blob _ => 0
  | .struct l | .enum _ l => fieldsCount l
def fieldsCount : List (Byte × Val) → Nat
  | [] => 0
  | (_, v) :: l => 1 + v.count + fieldsCount l
end

mutual
/-- Number of bytes in blobs at all levels. -/
def Val.bytesIn : Val → Nat
  | .int _ => 0
  | .blob d => d.length
  | .struct l | .enum _ l => fieldsBytes l
def fieldsBytes : List (Byte × Val) → Nat
  | [] => 0
  | (_, v) :: l => v.bytesIn + fieldsBytes l
end

mutual
/-- A value as an `UnknownField`. -/
def Val.asUnknown : Val → V
  | .int n => .variant 0 [.num n.toNat]
  | .blob d => .variant 1 [.ofBytes d]
  | .struct l => .variant 2 [.seq (asUnknowns l)]
  | .enum disc l => .variant 3 [.num disc.toNat, .seq (asUnknowns l)]
/-- The fields of a message as `UnknownFields`: pairs of tag and content. -/
def asUnknowns : List (Byte × Val) → List V
  | [] => []
  | (tag, v) :: l => .seq [.num tag.toNat, v.asUnknown] :: asUnknowns l
end

theorem stats_mk (a b a' b' : Nat) : (⟨a, b⟩ : Stats) + ⟨a', b'⟩ = ⟨a + a', b + b'⟩ := rfl

mutual
theorem asUnknown_reads (env : Env) (cfg : Config) (zc : Bool) : ∀ (v : Val) (d : Nat), d + v.depth ≤ cfg.recursionLimit →
    Reads env cfg (.elem (.unknownField zc)) d [v] [v.asUnknown] ⟨v.count, if zc then 0 else v.bytesIn⟩
  | .int n, d, _ => by
    simp only [Val.asUnknown, Val.count, Val.bytesIn, ite_self]; exact Reads.unkInt
  | .blob data, d, _ => Reads.unkBlob
  | .struct l, d, h => by
    simp only [Val.depth, Val.asUnknown, Val.count, Val.bytesIn] at h ⊢
    exact .unkStruct (.bodyUnknown (asUnknowns_reads env cfg zc l d h))
  | .enum disc l, d, h => by
    simp only [Val.depth, Val.asUnknown, Val.count, Val.bytesIn] at h ⊢
    exact .unkEnum (.bodyUnknown (asUnknowns_reads env cfg zc l d h))
theorem asUnknowns_reads (env : Env) (cfg : Config) (zc : Bool) : ∀ (l : List (Byte × Val)) (d : Nat), d + fieldsDepth l ≤ cfg.recursionLimit →
    Reads env cfg (.unknown zc) d [.struct l] (asUnknowns l) ⟨fieldsCount l, if zc then 0 else fieldsBytes l⟩
  | [], d, _ => by
    simp only [asUnknowns, fieldsCount, fieldsBytes, ite_self]; exact Reads.unknownNil
  | (tag, v) :: l, d, h => by
    simp only [fieldsDepth, asUnknowns, fieldsCount, fieldsBytes] at h ⊢
    have h1 : d + 1 + v.depth ≤ cfg.recursionLimit := by omega
    have h2 : d + fieldsDepth l ≤ cfg.recursionLimit := by omega
    have := Reads.unknownCons (tag := tag) (show d < cfg.recursionLimit by omega) (asUnknown_reads env cfg zc v (d + 1) h1) (asUnknowns_reads env cfg zc l d h2)
    rw [stats_mk, stats_mk] at this
    cases zc <;> simpa using this
end

/-- Conversely, that is the only way to read unknown fields, and it needs the depth. -/
theorem unknown_reads {env : Env} {cfg : Config} {it : RItem} {d : Nat} {vals : List Val} {vs : List V} {c : Stats} (h : Reads env cfg it d vals vs c) :
    (∀ zc, it = .unknown zc → ∃ l, vals = [.struct l] ∧ vs = asUnknowns l ∧ c = ⟨fieldsCount l, if zc then 0 else fieldsBytes l⟩ ∧ d + fieldsDepth l ≤ max d cfg.recursionLimit) ∧
    (∀ zc, it = .elem (.unknownField zc) → ∃ v, vals = [v] ∧ vs = [v.asUnknown] ∧ c = ⟨v.count, if zc then 0 else v.bytesIn⟩ ∧ d + v.depth ≤ max d cfg.recursionLimit) ∧
    (∀ zc, it = .body (.unknownFields zc) → ∃ l, vals = [.struct l] ∧ vs = [.seq (asUnknowns l)] ∧ c = ⟨fieldsCount l, if zc then 0 else fieldsBytes l⟩ ∧ d + fieldsDepth l ≤ max d cfg.recursionLimit) := by
  induction h with
  | unknownNil => exact ⟨(fun zc _ => ⟨[], rfl, rfl, by simp only [fieldsCount, fieldsBytes, ite_self]; rfl, by simp only [fieldsDepth]; omega⟩), (fun zc h => by cases h), (fun zc h => by cases h)⟩
  | unknownCons hd _ _ ih1 ih2 =>
    refine ⟨fun zc h => ?_, (fun zc h => by cases h), (fun zc h => by cases h)⟩
    cases h
    obtain ⟨v, g1, g2, rfl, g3⟩ := ih1.2.1 _ rfl
    obtain ⟨l, g4, g5, rfl, g6⟩ := ih2.1 _ rfl
    cases g1; cases g2; cases g4; cases g5
    refine ⟨_, rfl, rfl, ?_, ?_⟩
    · simp only [fieldsCount, fieldsBytes, stats_mk]
      split <;> simp
    · simp only [fieldsDepth]; omega
  | unkInt => exact ⟨(fun zc h => by cases h), (fun zc h => ⟨_, rfl, rfl, by simp only [Val.count, Val.bytesIn, ite_self]; rfl, by simp only [Val.depth]; omega⟩), (fun zc h => by cases h)⟩
  | unkBlob => exact ⟨(fun zc h => by cases h), (fun zc h => ⟨_, rfl, rfl, by cases h; rfl, by simp only [Val.depth]; omega⟩), (fun zc h => by cases h)⟩
  | unkStruct _ ih =>
    refine ⟨(fun zc h => by cases h), (fun zc h => ?_), (fun zc h => by cases h)⟩
    obtain ⟨l, g1, g2, rfl, g3⟩ := ih.2.2 _ rfl
    cases g1; cases g2; cases h
    exact ⟨_, rfl, rfl, by simp only [Val.count, Val.bytesIn], by simpa only [Val.depth] using g3⟩
  | unkEnum _ ih =>
    refine ⟨(fun zc h => by cases h), (fun zc h => ?_), (fun zc h => by cases h)⟩
    obtain ⟨l, g1, g2, rfl, g3⟩ := ih.2.2 _ rfl
    cases g1; cases g2; cases h
    exact ⟨_, rfl, rfl, by simp only [Val.count, Val.bytesIn], by simpa only [Val.depth] using g3⟩
  | bodyUnknown _ ih =>
    refine ⟨(fun zc h => by cases h), (fun zc h => by cases h), (fun zc h => ?_)⟩
    obtain ⟨l, g1, g2, rfl, g3⟩ := ih.1 _ rfl
    cases g1; cases g2; cases h
    exact ⟨_, rfl, rfl, rfl, g3⟩
  | bodyWrapped hw _ _ _ _ => exact ⟨(fun zc h => by cases h), (fun zc h => by cases h), (fun zc h => by cases h; simp [Ty.isWrapped] at hw)⟩
  | elemStruct hw _ _ => exact ⟨(fun zc h => by cases h), (fun zc h => by cases h; simp [Ty.inStruct] at hw), (fun zc h => by cases h)⟩
  | _ => exact ⟨(fun zc h => by cases h), (fun zc h => by cases h), (fun zc h => by cases h)⟩

mutual
theorem asUnknown_inj : ∀ (a b : Val), a.asUnknown = b.asUnknown → a = b
  | .int n, b, h => by
    cases b <;> simp [Val.asUnknown] at h
    rw [UInt64.toNat_inj.1 (Int.ofNat_inj.1 h)]
  | .blob d, b, h => by
    cases b <;> simp [Val.asUnknown] at h
    rw [ofBytes_inj h]
  | .struct l, b, h => by
    cases b <;> simp [Val.asUnknown] at h
    rw [asUnknowns_inj _ _ h]
  | .enum disc l, b, h => by
    cases b <;> simp [Val.asUnknown] at h
    rw [UInt64.toNat_inj.1 (Int.ofNat_inj.1 h.1), asUnknowns_inj _ _ h.2]
theorem asUnknowns_inj : ∀ (a b : List (Byte × Val)), asUnknowns a = asUnknowns b → a = b
  | [], b, h => by
    cases b with
    | nil => rfl
    | cons x b => simp [asUnknowns] at h
  | (tag, v) :: l, b, h => by
    cases b with
    | nil => simp [asUnknowns] at h
    | cons x b =>
      obtain ⟨tag', v'⟩ := x
      simp only [asUnknowns, List.cons.injEq, V.seq.injEq, V.num.injEq, and_true] at h
      have h1 : tag = tag' := UInt8.toNat_inj.1 (by omega)
      rw [h1, asUnknown_inj _ _ h.1.2, asUnknowns_inj _ _ h.2]
end

end Fourleaf

namespace Fourleaf.Props
open Fourleaf Spec

/-- Serialising `v` writes the bytes `m`, to any sink. -/
def Produces (env : Env) (t : Ty) (v : V) (m : List Byte) : Prop :=
  ∃ cs, ToStream env t v cs ∧ (∀ cs', ToStream env t v cs' → cs' = cs) ∧
    ∀ w : Stream, Sink w → Benign w.inner.sched → w.pos + m.length + 11 ≤ U64MAX →
      ∃ w', runCalls cs w = .ok () w' ∧ Sink w' ∧ w'.inner.data = written w.inner.data w.inner.pos m

/-- What is written is a message that the specification reads as the value. -/
theorem produces {env : Env} (henv : env.Ok) (hwf : env.wf) {t : Ty} (ht : t.wf false = true) {v : V} {k : Need} (h : HasType env t v k) :
    ∃ l m, Produces env t v m ∧ Message l m ∧ ∀ cfg, k.Within cfg → Reads env cfg (.body t) 0 [.struct l] [v] k.used := by
  obtain ⟨cs, l, h1, h2, h3⟩ := tree_roundtrip henv h
  refine ⟨l, canonToks (callToks cs), ⟨cs ++ [.commit], ⟨cs, h1, rfl⟩, ?_, fun w hw hb hroom => ?_⟩, h2.message, fun cfg hk => (deTree_iff henv hwf ht).1 (h3 cfg hk).1⟩
  · rintro _ ⟨b, h4, rfl⟩; rw [serializesBody_unique h1 h4]
  · have hv : ∀ c ∈ cs ++ [.commit], ∀ t ∈ c.toks, t.Valid := by
      intro c hc
      rcases List.mem_append.1 hc with hc | hc
      · exact h2.valid c hc
      · cases List.mem_singleton.1 hc; intro t ht; cases ht
    rw [← callToks_commit] at hroom ⊢
    obtain ⟨w', g1, g2, -, -, g3⟩ := c09_documented_format (cs ++ [.commit]) hv w hw hb hroom
    exact ⟨w', g1, g3, g2⟩

/-- A configuration that admits a value. -/
def admitting (k : Need) : Config := ⟨k.depth, true, k.used.blob, k.used.collected⟩
theorem admitting_within (k : Need) : k.Within (admitting k) := ⟨Nat.le_refl _, Nat.le_refl _, Nat.le_refl _, fun _ => rfl⟩

/-- The values that are read are of the type. -/
theorem reads_type {env : Env} (henv : env.Ok) (hwf : env.wf) {t : Ty} (ht : t.wf false = true) {cfg : Config} {l : Fields} {m : List Byte} (hm : Message l m)
    (hlen : m.length < U64MAX) {v : V} {c : Stats} (h : Accepts env t cfg m v c) : ∃ k, HasType env t v k := by
  have hr : (Stream.fromSlice m).pos + m.length < U64MAX := by show 0 + m.length < U64MAX; omega
  obtain ⟨s', h1⟩ := h _ (over_fromSlice m (by omega)) hr
  exact c46_valid env hwf t ht cfg _ (over_fromSlice m (by omega)).fresh.inv v _ h1

/-! ## C42 -/

theorem unknown_body {env : Env} {cfg : Config} {zc : Bool} {l : Fields} {v : V} {c : Stats} :
    Reads env cfg (.body (.unknownFields zc)) 0 [.struct l] [v] c ↔
      v = .seq (asUnknowns l) ∧ c = ⟨fieldsCount l, if zc then 0 else fieldsBytes l⟩ ∧ fieldsDepth l ≤ cfg.recursionLimit := by
  constructor
  · intro h
    obtain ⟨l', g1, g2, rfl, g3⟩ := (unknown_reads h).2.2 zc rfl
    cases g1; cases g2
    exact ⟨rfl, rfl, by omega⟩
  · rintro ⟨rfl, rfl, hd⟩
    exact .bodyUnknown (asUnknowns_reads env cfg zc l 0 (by omega))

/-- **C42** (a) Every message whose nesting, number of fields, and bytes in blobs (if they are copied) are within the limits is accepted as `UnknownFields`; its value is
the tree of the message. -/
theorem c42_reads (env : Env) (henv : env.Ok) (hwf : env.wf) (zc : Bool) (cfg : Config) (l : Fields) (m : List Byte) (hm : Message l m) (hlen : m.length < U64MAX) (v : V) (c : Stats) :
    Accepts env (.unknownFields zc) cfg m v c ↔
      v = .seq (asUnknowns l) ∧ c = ⟨fieldsCount l, if zc then 0 else fieldsBytes l⟩ ∧
        fieldsDepth l ≤ cfg.recursionLimit ∧ fieldsCount l ≤ cfg.maxCollect ∧ (zc = false → fieldsBytes l ≤ cfg.maxBlob) := by
  rw [c54_accepts env henv hwf _ rfl cfg l m hm hlen, unknown_body]
  constructor
  · rintro ⟨⟨rfl, rfl, h1⟩, h2, h3⟩
    exact ⟨rfl, rfl, h1, h2, fun hz => by subst hz; exact h3⟩
  · rintro ⟨rfl, rfl, h1, h2, h3⟩
    refine ⟨⟨rfl, rfl, h1⟩, h2, ?_⟩
    cases zc with
    | false => exact h3 rfl
    | true => exact Nat.zero_le _

/-- (b) Different messages have different values: nothing is lost. -/
theorem c42_faithful (l l' : Fields) (h : asUnknowns l = asUnknowns l') : l = l' := asUnknowns_inj l l' h

/-- (c) Serialising the value writes a message with the same tree. It depends on the tree only, not on the spelling of the message that was read, so doing it again
writes the same bytes. -/
theorem c42_rewrite (env : Env) (henv : env.Ok) (hwf : env.wf) (zc : Bool) (l : Fields) (m : List Byte) (hm : Message l m) (hlen : m.length < U64MAX) :
    ∃ m', Produces env (.unknownFields zc) (.seq (asUnknowns l)) m' ∧ Message l m' := by
  have ha := (c42_reads env henv hwf zc ⟨fieldsDepth l, true, fieldsBytes l, fieldsCount l⟩ l m hm hlen (.seq (asUnknowns l)) _).2
    ⟨rfl, rfl, Nat.le_refl _, Nat.le_refl _, fun _ => Nat.le_refl _⟩
  obtain ⟨k, hk⟩ := reads_type henv hwf rfl hm hlen ha
  obtain ⟨l', m', h1, h2, h3⟩ := produces henv hwf rfl hk
  obtain ⟨g, -⟩ := unknown_body.1 (h3 _ (admitting_within k))
  simp only [V.seq.injEq] at g
  exact ⟨m', h1, asUnknowns_inj _ _ g ▸ h2⟩

example : ∃ m', Produces exEnv (.unknownFields false) (.seq (asUnknowns exTree)) m' ∧ Message exTree m' := c42_rewrite exEnv exEnv_ok exEnv_wf false exTree exBytes exMessage (by decide)
example : asUnknowns exTree = [.seq [.num 1, .variant 0 [.num 500]], .seq [.num 2, .variant 1 [.seq []]], .seq [.num 2, .variant 1 [.seq [.num 120]]], .seq [.num 5, .variant 0 [.num 7]]] ∧
    fieldsDepth exTree = 1 ∧ fieldsCount exTree = 4 ∧ fieldsBytes exTree = 1 := ⟨rfl, rfl, rfl, rfl⟩

/-! ## C43 -/

/-- The fields of a message that a body does not know. -/
def others (fs : List FieldDecl) (l : Fields) : Fields := l.filter fun x => fs.all fun d => d.tag ≠ x.1

theorem others_eq (fs : List FieldDecl) (l : Fields) : unknowns fs l = others fs l := by
  unfold unknowns others
  congr 1; funext x
  induction fs with
  | nil => rfl
  | cons d fs ih => simp_all

/-- Reading unknown fields in a message gives well-typed unknown fields. -/
theorem parts_unknown {env : Env} {cfg : Config} {b : Body} {name : String} {zc : Bool} (hb : b.tail = .unknown name zc) {d : Nat} {l : Fields} {vs : List V} {c : Stats}
    (h : Reads env cfg (.parts b) d [.struct l] vs c) : ∃ us, vs = us ++ [.seq (asUnknowns (others b.fields l))] := by
  cases h with
  | partsPlain h => rw [hb] at h; cases h
  | partsDelegate h => rw [hb] at h; cases h
  | partsUnknown h _ _ _ hu =>
    rw [hb] at h; cases h
    obtain ⟨l', g1, g2, -⟩ := (unknown_reads hu).1 _ rfl
    cases g1
    rw [g2, ← others_eq]
    exact ⟨_, rfl⟩

/-- **C43** A message that is accepted by a struct with a collector of unknown fields has as the last component of the value the fields it does not know (in the order of the message). Whatever
values `us'` of the right types replace the other components, serialising the value writes a message which contains exactly the same
fields with unknown tags, with equal content, in the same order. -/
theorem c43_edit (env : Env) (henv : env.Ok) (hwf : env.wf) (i : Nat) (b : Body) (hd : env.decl i = .struct b) (name : String) (zc : Bool) (hb : b.tail = .unknown name zc)
    (cfg : Config) (l : Fields) (m : List Byte) (hm : Message l m) (hlen : m.length < U64MAX) (v : V) (c : Stats) (hacc : Accepts env (.named i) cfg m v c) :
    ∃ us, v = .seq (us ++ [.seq (asUnknowns (others b.fields l))]) ∧
      ∀ us' k', Needs env (.fields b.fields) us' k' → b.check (us' ++ [.seq (asUnknowns (others b.fields l))]) = true →
        ∃ l' m', Produces env (.named i) (.seq (us' ++ [.seq (asUnknowns (others b.fields l))])) m' ∧ Message l' m' ∧ others b.fields l' = others b.fields l := by
  obtain ⟨hr, -⟩ := (c54_accepts env henv hwf _ rfl cfg l m hm hlen v c).1 hacc
  obtain ⟨k, hk⟩ := reads_type henv hwf rfl hm hlen hacc
  cases hr with
  | bodyWrapped hw => simp [Ty.isWrapped, hd] at hw
  | bodyStruct hd' hp =>
    rw [hd] at hd'; cases hd'
    obtain ⟨us, rfl⟩ := parts_unknown hb hp
    refine ⟨us, rfl, fun us' k' hus hc => ?_⟩
    have hu : ∃ k, Needs env (.unknown (b.fields.map (·.tag)) zc) (asUnknowns (others b.fields l)) k := by
      cases hk with
      | bodyStruct hd' hk =>
        rw [hd] at hd'; cases hd'
        revert hk
        generalize hvs : us ++ [V.seq (asUnknowns (others b.fields l))] = vs
        intro hk
        cases hk with
        | partsPlain h => rw [hb] at h; cases h
        | partsDelegate h => rw [hb] at h; cases h
        | partsUnknown h _ _ hu =>
          rw [hb] at h; cases h
          have := (List.append_inj_right' hvs rfl)
          simp only [List.cons.injEq, V.seq.injEq, and_true] at this
          exact ⟨_, this ▸ hu⟩
      | bodyWrapped hw => simp [Ty.isWrapped, hd] at hw
    obtain ⟨ku, hu⟩ := hu
    obtain ⟨l', m', h1, h2, h3⟩ := produces henv hwf rfl (Needs.bodyStruct hd (.partsUnknown hb hc hus hu))
    refine ⟨l', m', h1, h2, ?_⟩
    cases h3 _ (admitting_within _) with
    | bodyWrapped hw => simp [Ty.isWrapped, hd] at hw
    | bodyStruct hd' hp' =>
      rw [hd] at hd'; cases hd'
      obtain ⟨us2, g⟩ := parts_unknown hb hp'
      have := (List.append_inj_right' g rfl)
      simp only [List.cons.injEq, V.seq.injEq, and_true] at this
      exact (asUnknowns_inj _ _ this).symm

/-- The unknown field 5 of the example is kept when the other fields are replaced. -/
example : ∃ l' m', Produces exEnv (.named 0) (.seq [.num 9, .seq [.str "y"], .seq [.seq [.num 5, .variant 0 [.num 7]]]]) m' ∧ Message l' m' ∧
    others [⟨1, "a", .prim (.int .u16)⟩, ⟨2, "b", .vec (.prim .string)⟩] l' = [(5, .int 7)] := by
  obtain ⟨us, -, h⟩ := c43_edit exEnv exEnv_ok exEnv_wf 0 _ rfl "rest" false rfl .default exTree exBytes exMessage (by decide) _ _ exAccepts
  exact h [.num 9, .seq [.str "y"]] _ (.fieldsCons (.fieldSingle rfl (.elemPrim (.int (by decide) (by decide))))
        (.fieldsCons (.fieldVec rfl (.eachCons (.elemPrim (.string (by decide))) .eachNil)) .fieldsNil)) rfl

end Fourleaf.Props
