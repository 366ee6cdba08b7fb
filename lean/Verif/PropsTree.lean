import Verif.Alike
import Verif.PropsDe

/-! # Properties of reading messages in terms of their fields: C38–C40 -/

namespace Fourleaf.Props
open Fourleaf Spec

/-- Which values are read from a message. -/
theorem reads_iff {env : Env} {t : Ty} {cfg : Config} {l : Fields} {m : List Byte} {s : Stream} (hm : Message l m) (hs : Over s m)
    (hroom : s.pos + m.length < U64MAX) (v : V) (c : Stats) :
    (∃ s', (deserialize env t cfg).run (s, .zero) = .ok v (s', c)) ↔ (deTree env t cfg l = .ret v c ∧ c.fits cfg) := by
  have hs' : Over s (m ++ []) := by simpa using hs
  have hr' : s.pos + (m ++ ([] : List Byte)).length < U64MAX := by simpa using hroom
  constructor
  · rintro ⟨s', h⟩
    rcases PM.cases (deTree env t cfg l) with ⟨v', c', hd⟩ | ⟨k, c', hd⟩
    · by_cases hf : c'.fits cfg
      · obtain ⟨s1, h1, -⟩ := de_ok env t cfg hm hs' hr' hd hf
        rw [h] at h1; cases h1
        exact ⟨hd, hf⟩
      · obtain ⟨e, st, h1, -⟩ := de_over_toks env t cfg hm .nil hs' hr' hd hf
        rw [h] at h1; cases h1
    · obtain ⟨e, st, h1, -⟩ := de_err_toks env t cfg hm .nil hs' hr' hd
      rw [h] at h1; cases h1
  · rintro ⟨hd, hf⟩
    obtain ⟨s1, h1, -⟩ := de_ok env t cfg hm hs' hr' hd hf
    exact ⟨s1, h1⟩

/-- Two messages that are read the same: the same values, with the same use of the limits. -/
theorem same_runs {env : Env} {t t' : Ty} {cfg : Config} {l l' : Fields} {m m' : List Byte} {s s' : Stream} (hm : Message l m) (hm' : Message l' m')
    (hs : Over s m) (hs' : Over s' m') (hroom : s.pos + m.length < U64MAX) (hroom' : s'.pos + m'.length < U64MAX)
    (h : PM.Same (deTree env t cfg l) (deTree env t' cfg l')) (v : V) (c : Stats) :
    (∃ x, (deserialize env t cfg).run (s, .zero) = .ok v (x, c)) ↔ ∃ x, (deserialize env t' cfg).run (s', .zero) = .ok v (x, c) := by
  rw [reads_iff hm hs hroom, reads_iff hm' hs' hroom', h v c]

/-! ## C38: the order of fields -/

theorem occ_eq (tag : Byte) (l : Fields) : occ tag l = (l.filter (·.1 = tag)).map (·.2) := by
  induction l with
  | nil => rfl
  | cons x l ih =>
    obtain ⟨g, v⟩ := x
    by_cases h : g = tag
    · subst h; rw [occ_cons_same, ih]; simp
    · rw [occ_cons_other h, ih]; simp [h]

theorem mem_unknowns {fs : List FieldDecl} {l : Fields} {x : Byte × Val} : x ∈ unknowns fs l ↔ x ∈ l ∧ ∀ d ∈ fs, d.tag ≠ x.1 := by
  simp [unknowns]

/-- The same subsequence for each tag. -/
theorem stable_alike {env : Env} {strict : Bool} {fs : List FieldDecl} {l l' : Fields} (h : ∀ tag, l.filter (·.1 = tag) = l'.filter (·.1 = tag)) :
    Alike env strict (.fields fs none) [.struct l] [.struct l'] := by
  have hm : ∀ x, x ∈ l ↔ x ∈ l' := by
    intro x
    have := h x.1
    constructor
    · intro hx
      have : x ∈ l'.filter (·.1 = x.1) := by rw [← this]; simp [hx]
      exact (List.mem_filter.1 this).1
    · intro hx
      have : x ∈ l.filter (·.1 = x.1) := by rw [this]; simp [hx]
      exact (List.mem_filter.1 this).1
  refine .fields (fun x _ => ?_) (fun h => by cases h) fun _ => ?_
  · rw [occ_eq, occ_eq, h]; exact .refl
  · simp only [List.eq_nil_iff_forall_not_mem, mem_unknowns, hm]

/-- **C38** Two messages that have the same fields in a different order, such that the order of fields with equal tags is the same, are read as the same value (with the same use of limits)
by a declared struct without a collector of unknown fields, and by a tuple, with any configuration. -/
theorem c38_order (env : Env) (henv : env.Ok) (t : Ty) (ht : (∃ ts, t = .tuple ts ∧ ts.length ≤ 16) ∨ ∃ i b, t = .named i ∧ env.decl i = .struct b ∧ b.tail = .plain)
    (cfg : Config) (l l' : Fields) (h : ∀ tag, l.filter (·.1 = tag) = l'.filter (·.1 = tag)) (m m' : List Byte) (hm : Message l m) (hm' : Message l' m')
    (s s' : Stream) (hs : Over s m) (hs' : Over s' m') (hroom : s.pos + m.length < U64MAX) (hroom' : s'.pos + m'.length < U64MAX) (v : V) (c : Stats) :
    (∃ x, (deserialize env t cfg).run (s, .zero) = .ok v (x, c)) ↔ ∃ x, (deserialize env t cfg).run (s', .zero) = .ok v (x, c) := by
  refine same_runs hm hm' hs hs' hroom hroom' ?_ v c
  have ha : Alike env true (.body t) [.struct l] [.struct l'] := by
    rcases ht with ⟨ts, rfl, hl⟩ | ⟨i, b, rfl, hd, hb⟩
    · exact .bodyTuple hl (stable_alike h)
    · exact .bodyStruct hd (.partsPlain hb (stable_alike h))
  exact alike_sound henv (fun h => by cases h) ha _ _ l l' rfl rfl

/-- The same at all levels of nesting: whenever the messages differ only in the order of fields with different tags (`Alike`), inside any structs that are
read by declared fields, in elements of collections, variants of enums, etc. -/
theorem c38_nested (env : Env) (henv : env.Ok) (t : Ty) (cfg : Config) (l l' : Fields) (h : Alike env true (.body t) [.struct l] [.struct l'])
    (m m' : List Byte) (hm : Message l m) (hm' : Message l' m') (s s' : Stream) (hs : Over s m) (hs' : Over s' m') (hroom : s.pos + m.length < U64MAX) (hroom' : s'.pos + m'.length < U64MAX) (v : V) (c : Stats) :
    (∃ x, (deserialize env t cfg).run (s, .zero) = .ok v (x, c)) ↔ ∃ x, (deserialize env t cfg).run (s', .zero) = .ok v (x, c) :=
  same_runs hm hm' hs hs' hroom hroom' (alike_sound henv (fun h => by cases h) h _ _ l l' rfl rfl) v c

/-- Fields 2 and 1 of a pair exchanged, and fields 1 and 2 inside the second component. -/
example : Alike exEnv true (.body (.tuple [.vec (.prim .string), .tuple [.prim .bool, .prim .char]]))
    [.struct [(1, .blob [1]), (1, .blob [2]), (2, .struct [(1, .int 0), (2, .int 65)])]]
    [.struct [(1, .blob [1]), (2, .struct [(2, .int 65), (1, .int 0)]), (1, .blob [2])]] := by
  refine .bodyTuple (by decide) (.fields ?_ (fun h => by cases h) (fun _ => by decide))
  intro x hx
  simp only [components, List.mapIdx_cons, List.mapIdx_nil, List.mem_cons, List.not_mem_nil, or_false] at hx
  rcases hx with rfl | rfl
  · exact .refl
  · exact .occsCons (.fieldTuple (.elemStruct rfl (.bodyTuple (by decide) (stable_alike (by
      intro tag
      by_cases h1 : (1 : Byte) = tag
      · subst h1; rfl
      · by_cases h2 : (2 : Byte) = tag
        · subst h2; rfl
        · simp [h1, h2]))))) .occsNil

/-! ## C39: unknown fields -/

theorem unknown_alike {env : Env} {fs : List FieldDecl} {l l' : Fields} (h : ∀ x ∈ fs, l.filter (·.1 = x.tag) = l'.filter (·.1 = x.tag)) :
    Alike env false (.fields fs none) [.struct l] [.struct l'] :=
  .fields (fun x hx => by rw [occ_eq, occ_eq, h x hx]; exact .refl) (fun h => by cases h) fun h => by cases h

/-- **C39** (a) With `ignore_unknown_fields`, fields with undeclared tags have no influence, whatever they contain: a message is read as the same value as the message without them. -/
theorem c39_ignored (env : Env) (henv : env.Ok) (t : Ty) (fs : List FieldDecl)
    (ht : (∃ ts, t = .tuple ts ∧ ts.length ≤ 16 ∧ fs = components ts) ∨ ∃ i b, t = .named i ∧ env.decl i = .struct b ∧ b.tail = .plain ∧ fs = b.fields)
    (cfg : Config) (hc : cfg.ignoreUnknownFields = true) (l : Fields) (m m' : List Byte) (hm : Message l m) (hm' : Message (l.filter fun x => fs.any fun d => d.tag = x.1) m')
    (s s' : Stream) (hs : Over s m) (hs' : Over s' m') (hroom : s.pos + m.length < U64MAX) (hroom' : s'.pos + m'.length < U64MAX) (v : V) (c : Stats) :
    (∃ x, (deserialize env t cfg).run (s, .zero) = .ok v (x, c)) ↔ ∃ x, (deserialize env t cfg).run (s', .zero) = .ok v (x, c) := by
  refine same_runs hm hm' hs hs' hroom hroom' ?_ v c
  have hf : ∀ x ∈ fs, l.filter (·.1 = x.tag) = (l.filter fun x => fs.any fun d => d.tag = x.1).filter (·.1 = x.tag) := by
    intro x hx
    rw [List.filter_filter]
    refine List.filter_congr fun y _ => ?_
    by_cases h : y.1 = x.tag
    · have : fs.any (fun d => decide (d.tag = y.1)) = true := List.any_eq_true.2 ⟨x, hx, by simp [h]⟩
      simp [this]
    · simp [h]
  have ha : Alike env false (.body t) [.struct l] [.struct (l.filter fun x => fs.any fun d => d.tag = x.1)] := by
    rcases ht with ⟨ts, rfl, hl, rfl⟩ | ⟨i, b, rfl, hd, hb, rfl⟩
    · exact .bodyTuple hl (unknown_alike hf)
    · exact .bodyStruct hd (.partsPlain hb (unknown_alike hf))
  exact alike_sound henv (fun _ => hc) ha _ _ _ _ rfl rfl

/-- (b) The same at all levels: messages that differ only in unknown fields (and the order of fields), at any level. -/
theorem c39_nested (env : Env) (henv : env.Ok) (t : Ty) (cfg : Config) (hc : cfg.ignoreUnknownFields = true) (l l' : Fields) (h : Alike env false (.body t) [.struct l] [.struct l'])
    (m m' : List Byte) (hm : Message l m) (hm' : Message l' m') (s s' : Stream) (hs : Over s m) (hs' : Over s' m') (hroom : s.pos + m.length < U64MAX) (hroom' : s'.pos + m'.length < U64MAX) (v : V) (c : Stats) :
    (∃ x, (deserialize env t cfg).run (s, .zero) = .ok v (x, c)) ↔ ∃ x, (deserialize env t cfg).run (s', .zero) = .ok v (x, c) :=
  same_runs hm hm' hs hs' hroom hroom' (alike_sound henv (fun _ => hc) h _ _ l l' rfl rfl) v c

theorem pLoop_unknown {cfg : Config} (o : POps) {fs : List FieldDecl} {d : Nat} (hc : cfg.ignoreUnknownFields = false) :
    ∀ (l : Fields) (st st' : LoopSt) (c : Stats), unknowns fs l ≠ [] → pLoop cfg o fs none d st (l.filter fun x => fs.any fun d => d.tag = x.1) = .ret st' c →
    ∃ x ∈ unknowns fs l, ∃ c' c'', c = c' + c'' ∧ pLoop cfg o fs none d st l = .fail (.unknownField x.1 0) c'
  | [], _, _, _, h, _ => absurd rfl h
  | (tag, v) :: l, st, st', c, h, hr => by
    by_cases ht : fs.any (fun d => d.tag = tag) = true
    · have e1 : ((tag, v) :: l).filter (fun x => fs.any fun d => d.tag = x.1) = (tag, v) :: l.filter (fun x => fs.any fun d => d.tag = x.1) := by
        rw [List.filter_cons, if_pos ht]
      have e2 : unknowns fs ((tag, v) :: l) = unknowns fs l := by simp only [unknowns, List.filter_cons, ht]; rfl
      rw [e1] at hr
      rw [e2] at h ⊢
      simp only [pLoop] at hr ⊢
      obtain ⟨s1, c1, c2, h1, h2, rfl⟩ := PM.bind_eq_ret hr
      obtain ⟨x, hx, c', c'', rfl, h3⟩ := pLoop_unknown o hc l s1 st' c2 h h2
      refine ⟨x, hx, c1 + c', c'', (Stats.add_assoc ..).symm, ?_⟩
      rw [h1]; exact PM.bind_retf h3
    · have hn : fs.findIdx? (fun x => x.tag = tag) = none := by
        rw [List.findIdx?_eq_none_iff]
        intro x hx
        have := List.any_eq_false.1 (Bool.not_eq_true _ ▸ ht) x hx
        simpa using this
      refine ⟨(tag, v), by simp [unknowns, ht], .zero, c, (Stats.zero_add c).symm, ?_⟩
      simp only [pLoop, pFieldStep, hn, hc, Bool.false_eq_true, if_false, PM.bind_fail]

/-- (c) Without `ignore_unknown_fields`, a message with a field of an undeclared tag is an error; if the message without such fields is accepted, then the error is `UnknownField` with one of these tags. -/
theorem c39_reported (env : Env) (henv : env.Ok) (t : Ty) (fs : List FieldDecl)
    (ht : (∃ ts, t = .tuple ts ∧ ts.length ≤ 16 ∧ fs = components ts) ∨ ∃ i b, t = .named i ∧ env.decl i = .struct b ∧ b.tail = .plain ∧ fs = b.fields)
    (cfg : Config) (hc : cfg.ignoreUnknownFields = false) (l : Fields) (y : Byte × Val) (hy : y ∈ l) (hyt : ∀ d ∈ fs, d.tag ≠ y.1)
    (m : List Byte) (hm : Message l m) (s : Stream) (hs : Over s m) (hroom : s.pos + m.length < U64MAX) :
    ∃ e st, (deserialize env t cfg).run (s, .zero) = .err (.client e) st ∧
      ∀ m' s' v st', Message (l.filter fun x => fs.any fun d => d.tag = x.1) m' → Over s' m' → s'.pos + m'.length < U64MAX → (deserialize env t cfg).run (s', .zero) = .ok v st' →
        ∃ x ∈ l, (∀ d ∈ fs, d.tag ≠ x.1) ∧ ∃ pos, e.kind = .unknownField x.1 pos := by
  have hu : unknowns fs l ≠ [] := List.ne_nil_of_mem (mem_unknowns.2 ⟨hy, hyt⟩)
  have hs1 : Over s (m ++ []) := by simpa using hs
  have hr1 : s.pos + (m ++ ([] : List Byte)).length < U64MAX := by simpa using hroom
  have hok : FieldsOk fs := by
    rcases ht with ⟨ts, -, hl, rfl⟩ | ⟨i, b, -, hd, -, rfl⟩
    · exact tupleFields_ok hl
    · have := henv i; rw [hd] at this; exact this
  -- the loop over the fields comes first
  have hshape : ∃ n, ∃ k : LoopSt → PM V, ∀ l, deTree env t cfg l = PM.bind (pLoop cfg (pops env cfg n) fs none 0 .init l) k := by
    obtain ⟨n, hn⟩ : ∃ n, stackNeed env t cfg = n + 1 := ⟨stackNeed env t cfg - 1, by
      have : 0 < stackNeed env t cfg := Nat.mul_pos (by omega) (by omega)
      omega⟩
    rcases ht with ⟨ts, rfl, hl, rfl⟩ | ⟨i, b, rfl, hd, hb, rfl⟩
    · refine ⟨n, fun st => PM.bind (pFinishAll cfg (pops env cfg n) 0 st 0 (components ts)) fun vs => .ret (.seq vs), fun l => ?_⟩
      unfold deTree; rw [hn]; simp only [tupleFields_components, pops, pBody, pStruct, PM.bind_assoc]
    · refine ⟨n, fun st => PM.bind (PM.bind (pFinishAll cfg (pops env cfg n) 0 st 0 b.fields) fun vs => pConstruct b vs) fun vs => .ret (.seq vs), fun l => ?_⟩
      unfold deTree; rw [hn]; simp only [pops, pBody, hd, pMacro, hb, PM.bind_assoc]
  obtain ⟨n, k, hk⟩ := hshape
  rcases PM.cases (deTree env t cfg (l.filter fun x => fs.any fun d => d.tag = x.1)) with ⟨v, c, hd⟩ | ⟨kk, c, hd⟩
  · have hd0 := hd
    rw [hk] at hd
    obtain ⟨s1, c1, c2, h1, h2, rfl⟩ := PM.bind_eq_ret hd
    obtain ⟨x, hx, c', c'', rfl, h3⟩ := pLoop_unknown _ hc l .init s1 c1 hu h1
    have h4 : deTree env t cfg l = .fail (.unknownField x.1 0) c' := by rw [hk, h3]; rfl
    obtain ⟨e, st, g1, g2⟩ := de_err_toks env t cfg hm .nil hs1 hr1 h4
    refine ⟨e, st, g1, fun m' s' v' st' hm' hs' hroom' hrun => ⟨x, (mem_unknowns.1 hx).1, (mem_unknowns.1 hx).2, ?_⟩⟩
    rcases g2 with g2 | g2
    · cases hkk : e.kind <;> rw [hkk] at g2 <;> simp [Kind.unpos] at g2
      exact ⟨_, by rw [g2]⟩
    · exfalso
      obtain ⟨g3, g4⟩ := (reads_iff hm' hs' hroom' v' st'.2).1 ⟨st'.1, hrun⟩
      rw [hd0] at g3
      obtain ⟨-, g3⟩ := PM.ret_inj g3
      rw [← g3] at g4
      exact (Kind.exceeds.more (Kind.exceeds.more g2)).not_fits g4
  · -- the message without the unknown fields is not accepted either
    have hno : ∀ v c, deTree env t cfg l ≠ .ret v c := by
      intro v c h
      rw [hk] at h
      obtain ⟨s1, c1, c2, h1, h2, rfl⟩ := PM.bind_eq_ret h
      -- the loop fails at the unknown field
      have : ∀ (l : Fields) (st : LoopSt), unknowns fs l ≠ [] → ∀ st' c, pLoop cfg (pops env cfg n) fs none 0 st l ≠ .ret st' c := by
        intro l
        induction l with
        | nil => intro st h; exact absurd rfl h
        | cons x l ih =>
          obtain ⟨tag, v⟩ := x
          intro st h st' c hr
          simp only [pLoop] at hr
          obtain ⟨s1, c1, c2, h1, h2, rfl⟩ := PM.bind_eq_ret hr
          by_cases ht : fs.any (fun d => d.tag = tag) = true
          · have e2 : unknowns fs ((tag, v) :: l) = unknowns fs l := by simp only [unknowns, List.filter_cons, ht]; rfl
            rw [e2] at h
            exact ih _ h _ _ h2
          · have hn : fs.findIdx? (fun x => x.tag = tag) = none := by
              rw [List.findIdx?_eq_none_iff]
              intro x hx
              have := List.any_eq_false.1 (Bool.not_eq_true _ ▸ ht) x hx
              simpa using this
            simp only [pFieldStep, hn, hc, Bool.false_eq_true, if_false] at h1
            exact absurd h1 PM.fail_ne_ret
      exact this l _ hu _ _ h1
    rcases PM.cases (deTree env t cfg l) with ⟨v, c, h⟩ | ⟨k2, c, h⟩
    · exact absurd h (hno v c)
    · obtain ⟨e, st, g1, -⟩ := de_err_toks env t cfg hm .nil hs1 hr1 h
      refine ⟨e, st, g1, fun m' s' v' st' hm' hs' hroom' hrun => ?_⟩
      obtain ⟨g3, -⟩ := (reads_iff hm' hs' hroom' v' st'.2).1 ⟨st'.1, hrun⟩
      rw [hd] at g3
      exact absurd g3 PM.fail_ne_ret

/-- A message with an unknown field 9 (a struct) and the message without it: both are read as `(true,)`, the first only if unknown fields are ignored. -/
example : Message [(1, .int 1), (9, .struct [(1, .blob [7])])] [65, 1, 201, 129, 1, 7, 0, 0] ∧
    Message ([(1, .int 1), (9, .struct [(1, .blob [7])])].filter fun x => (components [.prim .bool]).any fun d => d.tag = x.1) [65, 1, 0] ∧
    deTree exEnv (.tuple [.prim .bool]) .default [(1, .int 1), (9, .struct [(1, .blob [7])])] = .ret (.seq [.bool true]) .zero ∧
    deTree exEnv (.tuple [.prim .bool]) .default [(1, .int 1)] = .ret (.seq [.bool true]) .zero ∧
    deTree exEnv (.tuple [.prim .bool]) { Config.default with ignoreUnknownFields := false } [(1, .int 1), (9, .struct [(1, .blob [7])])] = .fail (.unknownField 9 0) :=
  ⟨(by decide +kernel : canonToks [.int 1 1, .struct 9, .blob 1 [7], .endStruct, .endStruct] = [65, 1, 201, 129, 1, 7, 0, 0]) ▸
    message_canon (.int (.struct (.blob .nil) .nil)) (by decide),
   (by decide +kernel : canonToks [.int 1 1, .endStruct] = [65, 1, 0]) ▸ message_canon (.int .nil) (by decide), rfl, rfl, rfl⟩

end Fourleaf.Props
