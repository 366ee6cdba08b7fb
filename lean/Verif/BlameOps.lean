import Verif.BlameSim

/-! # Every error of a deserialiser on a well-formed message is a defect of the message: the methods -/

namespace Fourleaf
open Spec Props

/-- The errors of the methods with `n` frames of stack. -/
structure EPOps (env : Env) (cfg : Config) (n : Nat) : Prop where
  body : ∀ (T : Ty) (c : Ctx) (L : LFields) (t : TS) (u : Stats) (D : Nat) (a rest : List HTok) (start stop : Nat), T.wf false = true → c.cfg = cfg → u.fits cfg →
    LB start L stop a → AtBody t D (a ++ rest) → t.pos = start → t.cur = none →
    EP c (((ops env n).body T c).abs (t, u)) (Blames env cfg (.body T start L stop) c.depth)
  field : ∀ (T : Ty) (x : Acc) (k : Nat) (c : Ctx) (f : Field) (t : TS) (u : Stats) (D : Nat) (tag : Byte) (v : LVal) (q : Nat) (rest : List HTok), T.wf false = true → c.cfg = cfg →
    u.fits cfg → AccN T x k → Hand f D tag v.plain → MidL t D v q rest →
    EP c (((ops env n).field T x c f).abs (t, u)) (Blames env cfg (.occ T k f.pos v) c.depth)
  element : ∀ (T : Ty) (c : Ctx) (f : Field) (t : TS) (u : Stats) (D : Nat) (tag : Byte) (v : LVal) (q : Nat) (rest : List HTok), T.wf false = true → c.cfg = cfg →
    u.fits cfg → Hand f D tag v.plain → MidL t D v q rest →
    EP c (((ops env n).element T c f).abs (t, u)) (Blames env cfg (.elem T f.pos v) c.depth)
  finish : ∀ (T : Ty) (x : Acc) (k : Nat) (c : Ctx) (st : TS × Stats), AccN T x k →
    EP c (((ops env n).finish T x c).abs st) (fun path kd => path = [] ∧ Lacks T k kd)

theorem no_lacks_unknown {zc : Bool} {n : Nat} {k : Kind} : ¬ Lacks (.unknownFields zc) n k := by
  intro h
  cases h with
  | single h => rcases h with ⟨_, h⟩ | ⟨_, h⟩ | ⟨_, h⟩ | ⟨_, h⟩ | h <;> cases h

/-- Skipping a field succeeds. -/
theorem skip_ok {t : TS} {u : Stats} {c : Ctx} {f : Field} {D : Nat} {tag : Byte} {v : Val} {rest : List HTok} (hh : Hand f D tag v) (hm : Mid t D v rest) :
    ∃ t', (c.skip f).abs (t, u) = .ok () (t', u) := by
  unfold Ctx.skip
  rw [hh.value]
  have hbody : ∀ l, (t.depth = D + 1 ∧ ∃ a, BodyOf l (a.map (·.2)) ∧ t.toks = a ++ rest) → ∃ t', (c.call (.skipUp f.depth)).abs (t, u) = .ok () (t', u) := by
    intro l hl
    obtain ⟨h1, a, h2, h3⟩ := hl
    obtain ⟨t', h4, h5⟩ := skip_body h2 a t D D rest rfl hm.eof h1 (Nat.le_refl _) h3
    refine ⟨t', ?_⟩
    have e : TS.skipUpLoop D (t.toks.length + 2) t = .ok () t' := by
      rw [h3, List.length_append, show a.length + rest.length + 2 = a.length + (rest.length + 1 + 1) by omega, h5,
        TS.skipUpLoop, if_neg (by rw [h4.depth]; omega)]
    simp only [Ctx.call, Prog.abs, TS.exec, hh.depth, e]
  have hh' := hm.here
  cases v with
  | int n => exact ⟨t, rfl⟩
  | blob n => exact ⟨t, rfl⟩
  | struct l => exact hbody l hh'
  | enum d l => exact hbody l hh'

section
variable {env : Env} {cfg : Config} {n : Nat} (H : EPOps env cfg n)
include H

/-- The errors in the fields of a message. -/
abbrev InFields (env : Env) (cfg : Config) (ds : List FieldDecl) (unk : Option Bool) (full : LFields) (stop d : Nat) (path : List PathFrame) (k : Kind) : Prop :=
  Blames env cfg (.decls ds unk.isNone full stop) d path k ∨ ∃ zc, unk = some zc ∧ Blames env cfg (.unknown (ds.map (·.tag)) zc full) d path k

theorem ep_fieldStep {t : TS} {u : Stats} {c : Ctx} {f : Field} {D : Nat} {tag : Byte} {v : LVal} {q : Nat} {rest : List HTok} {ds : List FieldDecl}
    (unk : Option Bool) (hwf : ∀ x ∈ ds, x.ty.wf false = true) (st : LoopSt) (hc : c.cfg = cfg) (hu : u.fits cfg) (hh : Hand f D tag v.plain) (hm : MidL t D v q rest)
    {full pre post : LFields} (hfull : full = pre ++ (f.pos, tag, v) :: post) (hN : LoopN ds st (plains pre)) (stop : Nat) :
    EP c ((fieldStep (ops env n) ds unk c st f).abs (t, u)) (InFields env cfg ds unk full stop c.depth) := by
  have hmem : (f.pos, tag, v) ∈ full := by rw [hfull]; simp
  unfold fieldStep
  rw [hh.tag]
  cases hi : ds.findIdx? (fun x => decide (x.tag = tag)) with
  | some i =>
    obtain ⟨x, hx, hxt⟩ := findIdx_spec hi
    have hxm := List.mem_of_getElem? hx
    simp only [hx]
    refine EP.push hc (fun h => .inl (.tooDeep (by rintro rfl; cases hxm) h)) fun hd sub h1 h2 h3 => ?_
    refine (EP.sub h3 (H.field x.ty _ _ sub f t u D tag v q rest (hwf x hxm) h1 hu (hN i x hx) hh hm) fun path k hb => ?_).bind fun _ _ _ => .ret
    refine .inl (.inField hd hxm (by rw [hxt]; exact hfull) ?_)
    rw [h2, times_plains] at hb; exact hb
  | none =>
    have hnot : tag ∉ ds.map (·.tag) := by
      intro hm
      obtain ⟨x, hx, rfl⟩ := List.mem_map.1 hm
      have := List.findIdx?_eq_none_iff.1 hi x hx
      simp at this
    cases unk with
    | some zc =>
      simp only
      refine EP.push hc (fun h => .inr ⟨zc, rfl, .restDeep hmem hnot h⟩) fun hd sub h1 h2 h3 => ?_
      refine (EP.sub h3 (H.field (.unknownFields zc) _ 0 sub f t u D tag v q rest rfl h1 hu trivial hh hm) fun path k hb => ?_).bind fun _ _ _ => .ret
      rw [h2] at hb
      exact .inr ⟨zc, rfl, .inRest hmem hnot hd hb⟩
    | none =>
      simp only
      unfold Ctx.unknownField
      rw [hc]
      split
      · obtain ⟨t', h1⟩ := skip_ok (c := c) (u := u) hh hm.mid
        refine EP.bind .ret fun a st' h => ?_
        cases h
        refine EP.bind (fun e st h => by rw [h1] at h; cases h) fun _ _ _ => .ret
      · rename_i hig
        refine EP.bind (.fail ?_) fun _ _ h => by cases h
        rw [hh.tag]
        exact .inl (.undeclared (by simpa using hig) hmem hnot)

theorem ep_runLoop {c : Ctx} {ds : List FieldDecl} (unk : Option Bool) (hwf : ∀ x ∈ ds, x.ty.wf false = true) (hn : (ds.map (·.tag)).Nodup) (hc : c.cfg = cfg)
    (D : Nat) (rest : List HTok) (full : LFields) (stop : Nat) :
    ∀ (L pre : LFields) (a : List HTok) (p fuel : Nat) (t : TS) (u : Stats) (st : LoopSt), LB p L stop a → AtBody t D (a ++ rest) → t.next = p →
    u.fits cfg → a.length < fuel → full = pre ++ L → LoopN ds st (plains pre) → EP c (TS.runLoop true
      (fun (b : LoopSt) e => (match e with
        | .field f => Prog.bind (fieldStep (ops env n) ds unk c b f) fun st' => .ret (.inl st')
        | _ => .ret (.inl b) : P (LoopSt ⊕ LoopSt)).abs)
      (fun e => (c.fail (.stream e) : P LoopSt).abs) (fun b => (Prog.ret b : P LoopSt).abs) fuel st (t, u))
     (InFields env cfg ds unk full stop c.depth) := by
  intro L
  induction L with
  | nil =>
    intro pre a p fuel t u st hb ht hp hu hf hfull hN
    obtain ⟨t', h1, h2⟩ : PulledL t D a.length rest stop [] := pulledL hb t D rest ht hp
    cases fuel with
    | zero => omega
    | succ fuel =>
      simp only [TS.runLoop, TS.pull, if_true, h1]
      exact .ret
  | cons x L ih =>
    obtain ⟨p', tag, v⟩ := x
    intro pre a p fuel t u st hb ht hp hu hf hfull hN
    obtain ⟨t1, f, b, q, h1, h2, h3, h4, h5, h6⟩ : PulledL t D a.length rest stop ((p', tag, v) :: L) := pulledL hb t D rest ht hp
    cases fuel with
    | zero => omega
    | succ fuel =>
      subst h3
      have hF := ep_fieldStep H unk hwf st hc hu h2 h4 hfull hN stop
      have hS := sim_fieldStep (ops_sim env cfg n) ds unk st hc hu h2 h4.mid
      simp only [TS.runLoop, TS.pull, if_true, h1, Prog.abs]
      cases hr : (fieldStep (ops env n) ds unk c st f).abs (t1, u) with
      | err e st' =>
        simp only
        intro e' st'' he
        cases he
        exact hF _ _ hr
      | ok st' tu =>
        simp only
        obtain ⟨cc, g1, g2, g3⟩ := hS.inv hr
        have htot := abs_ok_total hr
        obtain ⟨t2, u2⟩ := tu
        refine ih (pre ++ [(f.pos, tag, v)]) b q fuel t2 u2 st' h5 g3 ?_ g2 (by omega) (by rw [hfull, List.append_assoc]; rfl) ?_
        · exact g3.next_eq htot h4.total
        · rw [plains_append]; exact hN.step hn g1

theorem ep_fieldLoop {t : TS} {u : Stats} {c : Ctx} {D : Nat} {a rest : List HTok} {L : LFields} {start stop : Nat} {ds : List FieldDecl} (unk : Option Bool)
    (hwf : ∀ x ∈ ds, x.ty.wf false = true) (hn : (ds.map (·.tag)).Nodup) (hc : c.cfg = cfg) (hu : u.fits cfg) (hb : LB start L stop a) (ht : AtBody t D (a ++ rest)) (hp : t.next = start) :
    EP c ((fieldLoop (ops env n) ds unk c).abs (t, u)) (InFields env cfg ds unk L stop c.depth) :=
  ep_runLoop H unk hwf hn hc D rest L stop L [] a start _ t u .init hb ht hp hu (by simp only [ht.toks, List.length_append]; omega) rfl (LoopN.init ds)

theorem ep_finishAll {c : Ctx} {ds : List FieldDecl} (hc : c.cfg = cfg) {st : LoopSt} {L : LFields} {stop : Nat} {closed : Bool} (hN : LoopN ds st (plains L)) :
    ∀ (xs pre : List FieldDecl) (t : TS) (u : Stats), ds = pre ++ xs → t.pos = stop → u.fits cfg →
    EP c ((finishAll (ops env n) c st pre.length xs).abs (t, u)) (Blames env cfg (.decls ds closed L stop) c.depth) := by
  intro xs
  induction xs with
  | nil => intro pre t u _ _ _; exact .ret
  | cons x xs ih =>
    intro pre t u hds ht hu
    have hxm : x ∈ ds := by rw [hds]; simp
    have hx : ds[pre.length]? = some x := by rw [hds]; simp
    rw [finishAll]
    refine EP.bind (.call (a := t.pos) (t' := t) rfl) fun p st' h => ?_
    have h : Res.ok (ε := Stop DErr) t.pos (t, u) = .ok p st' := h
    cases h
    refine EP.push hc (fun h => .tooDeep (by rintro rfl; cases hxm) h) fun hd sub h1 h2 h3 => ?_
    refine (EP.sub h3 (H.finish x.ty _ _ sub (t, u) (hN _ _ hx)) fun path k hb => ?_).bind fun v st' hr => ?_
    · obtain ⟨rfl, hb⟩ := hb
      rw [times_plains] at hb
      rw [ht]
      exact .missing hd hxm hb
    · obtain ⟨cc, -, g2, g3⟩ := ((ops_sim env cfg n).finish x.ty _ sub t u h1 hu).inv hr
      obtain ⟨t2, u2⟩ := st'
      simp only at g2 g3; subst g3
      have := ih (pre ++ [x]) t2 u2 (by rw [hds, List.append_assoc]; rfl) ht g2
      rw [List.length_append] at this
      exact this.bind fun _ _ _ => .ret

/-- After the loop over the fields of a message. -/
theorem after_loop {t : TS} {u : Stats} {c : Ctx} {D : Nat} {a rest : List HTok} {L : LFields} {start stop : Nat} {ds : List FieldDecl} {unk : Option Bool}
    (hn : (ds.map (·.tag)).Nodup) (hc : c.cfg = cfg) (hu : u.fits cfg) (hb : LB start L stop a) (ht : AtBody t D (a ++ rest)) (hp : t.next = start)
    {st : LoopSt} {tu : TS × Stats} (hr : (fieldLoop (ops env n) ds unk c).abs (t, u) = .ok st tu) :
    LoopN ds st (plains L) ∧ tu.1.pos = stop ∧ tu.2.fits cfg ∧ Done tu.1 D rest := by
  obtain ⟨cc, g1, g2, g3⟩ := (sim_fieldLoop (ops_sim env cfg n) ds unk hc hu hb.bodyOf ht).inv hr
  refine ⟨by simpa using LoopN.loop hn (LoopN.init ds) g1, g3.pos_eq ?_, g2, g3⟩
  rw [abs_ok_total hr, hb.stop_eq, TS.total, hp, ht.toks, sizeOfToks_append]; omega

theorem ep_structBody {t : TS} {u : Stats} {c : Ctx} {D : Nat} {a rest : List HTok} {L : LFields} {start stop : Nat} {ds : List FieldDecl}
    (hwf : ∀ x ∈ ds, x.ty.wf false = true) (hn : (ds.map (·.tag)).Nodup) (hc : c.cfg = cfg) (hu : u.fits cfg) (hb : LB start L stop a) (ht : AtBody t D (a ++ rest)) (hp : t.next = start) :
    EP c ((structBody (ops env n) ds c).abs (t, u)) (Blames env cfg (.decls ds true L stop) c.depth) := by
  refine ((ep_fieldLoop H none hwf hn hc hu hb ht hp).mono fun path k h => ?_).bind fun st tu hr => ?_
  · rcases h with h | ⟨zc, h, -⟩
    · exact h
    · cases h
  · obtain ⟨h1, h2, h3, -⟩ := after_loop H hn hc hu hb ht hp hr
    exact ep_finishAll H hc h1 ds [] tu.1 tu.2 rfl h2 h3

theorem ep_defaultBody {t : TS} {u : Stats} {c : Ctx} {D : Nat} {a rest : List HTok} {L : LFields} {start stop : Nat} {T : Ty}
    (hw : T.wf false = true) (hwr : T.isWrapped env = true) (hc : c.cfg = cfg) (hu : u.fits cfg) (hb : LB start L stop a) (ht : AtBody t D (a ++ rest)) (hp : t.next = start) :
    EP c ((defaultBody (ops env n) T c).abs (t, u)) (Blames env cfg (.body T start L stop) c.depth) :=
  ((ep_structBody H (ds := [⟨1, "top", T⟩]) (by intro x hx; cases List.mem_singleton.1 hx; exact hw) (by simp) hc hu hb ht hp).mono fun _ _ h => .bodyWrapped hwr h).bind fun _ _ _ => .ret

/-- A declared body whose constructor accepts everything. -/
theorem ep_macroAll {t : TS} {u : Stats} {c : Ctx} {D : Nat} {a rest : List HTok} {L : LFields} {start stop : Nat} (b : Body) (hbo : b.Ok) (hbw : b.wf)
    (hc : c.cfg = cfg) (hu : u.fits cfg) (hb : LB start L stop a) (ht : AtBody t D (a ++ rest)) (hp : t.pos = start) (hcur : t.cur = none) :
    EP c ((macroBody (ops env n) { b with check := fun _ => true } c).abs (t, u)) (Blames env cfg (.parts b start L stop) c.depth) := by
  have hx : t.next = start := by rw [TS.next, hcur, hp]; rfl
  have hwf : ∀ x ∈ b.fields, x.ty.wf false = true := fun x hx => Ty.wf_weaken (hbw.1 x hx)
  unfold macroBody
  simp only
  cases htl : b.tail with
  | plain =>
    simp only
    refine ((ep_fieldLoop H none hwf hbo.2 hc hu hb ht hx).mono fun path k h => ?_).bind fun st tu hr => ?_
    · rcases h with h | ⟨zc, h, -⟩
      · exact .partsPlain htl h
      · cases h
    · obtain ⟨h1, h2, h3, -⟩ := after_loop H hbo.2 hc hu hb ht hx hr
      refine ((ep_finishAll H (closed := true) hc h1 b.fields [] tu.1 tu.2 rfl h2 h3).mono fun _ _ h => .partsPlain htl h).bind fun vs tu' hr' => .ret
  | delegate name T =>
    simp only
    obtain ⟨hf, htw⟩ := hbw.2 name T htl
    refine EP.bind (.call (a := t.pos) (t' := t) rfl) fun p st' h => ?_
    have h : Res.ok (ε := Stop DErr) t.pos (t, u) = .ok p st' := h
    cases h
    refine EP.push hc (fun h => .delegateDeep htl h) fun hd sub h1 h2 h3 => ?_
    refine (EP.sub h3 (H.body T sub L t u D a rest start stop htw h1 hu hb ht hp hcur) fun path k hb' => ?_).bind fun v tu hr => ?_
    · rw [h2] at hb'; rw [hp]; exact .partsDelegate htl hd hb'
    · rw [hf]
      exact EP.bind .ret fun vs tu' h => .ret
  | unknown name zc =>
    simp only
    refine ((ep_fieldLoop H (some zc) hwf hbo.2 hc hu hb ht hx).mono fun path k h => ?_).bind fun st tu hr => ?_
    · rcases h with h | ⟨zc', h, h'⟩
      · exact .partsUnknown htl h
      · cases h; exact .partsRest htl h'
    · obtain ⟨h1, h2, h3, -⟩ := after_loop H hbo.2 hc hu hb ht hx hr
      refine ((ep_finishAll H (closed := false) hc h1 b.fields [] tu.1 tu.2 rfl h2 h3).mono fun _ _ h => .partsUnknown htl h).bind fun vs tu' hr' => ?_
      refine EP.bind (.call (a := tu'.1.pos) (t' := tu'.1) rfl) fun p st' h => ?_
      have h : Res.ok (ε := Stop DErr) tu'.1.pos (tu'.1, tu'.2) = .ok p st' := h
      cases h
      refine EP.push hc (fun h => .unknownDeep htl h) fun hd sub g1 g2 g3 => ?_
      refine (EP.sub g3 (H.finish (.unknownFields zc) _ 0 sub _ trivial) fun path k hb' => ?_).bind fun v tu hr => .ret
      exact absurd hb'.2 no_lacks_unknown

omit H in
theorem macroBody_split (o : Ops) (b : Body) (c : Ctx) (st : TS × Stats) :
    (macroBody o b c).abs st = (Prog.bind (macroBody o { b with check := fun _ => true } c) (construct b c)).abs st := by
  unfold macroBody
  simp only
  cases b.tail with
  | plain =>
    simp only [Prog.abs]
    cases (fieldLoop o b.fields none c).abs st with
    | err e st => rfl
    | ok a st =>
      simp only
      cases (finishAll o c a 0 b.fields).abs st <;> rfl
  | delegate name T =>
    simp only [Prog.abs]
    cases (c.call .pos).abs st with
    | err e st => rfl
    | ok a st =>
      simp only
      cases (c.push name a).abs st with
      | err e st => rfl
      | ok sub st =>
        simp only
        cases (o.body T sub).abs st with
        | err e st => rfl
        | ok v st =>
          simp only
          cases (finishAll o c .init 0 b.fields).abs st <;> rfl
  | unknown name zc =>
    simp only [Prog.abs]
    cases (fieldLoop o b.fields (some zc) c).abs st with
    | err e st => rfl
    | ok a st =>
      simp only
      cases (finishAll o c a 0 b.fields).abs st with
      | err e st => rfl
      | ok vs st =>
        simp only
        cases (c.call .pos).abs st with
        | err e st => rfl
        | ok p st =>
          simp only
          cases (c.push name p).abs st with
          | err e st => rfl
          | ok sub st =>
            simp only
            cases (o.finish (.unknownFields zc) a.unk sub).abs st <;> rfl

theorem ep_macroBody (henv : env.Ok) (hwf : env.wf) {t : TS} {u : Stats} {c : Ctx} {D : Nat} {a rest : List HTok} {L : LFields} {start stop : Nat} (b : Body) (hbo : b.Ok) (hbw : b.wf)
    (hc : c.cfg = cfg) (hu : u.fits cfg) (hb : LB start L stop a) (ht : AtBody t D (a ++ rest)) (hp : t.pos = start) (hcur : t.cur = none) :
    EP c ((macroBody (ops env n) b c).abs (t, u)) (Blames env cfg (.parts b start L stop) c.depth) := by
  rw [macroBody_split]
  refine (ep_macroAll H b hbo hbw hc hu hb ht hp hcur).bind fun vs tu hr => ?_
  obtain ⟨cc, g1, -, -⟩ := (sim_macroBody (ops_sim env cfg n) { b with check := fun _ => true } hc hu hb.bodyOf ht).inv hr
  have hR := parts_sound (reads_sound henv hwf cfg n) (fun m _ => reads_sound henv hwf cfg m) (b := { b with check := fun _ => true }) hbo hbw g1
  unfold construct
  split
  · exact .ret
  · rename_i hck
    exact .fail (.refused hR (by simpa using hck))

theorem ep_bodyStep (henv : env.Ok) (hwf : env.wf) {t : TS} {u : Stats} {c : Ctx} {D : Nat} {a rest : List HTok} {L : LFields} {start stop : Nat} {T : Ty} (hw : T.wf false = true)
    (hc : c.cfg = cfg) (hu : u.fits cfg) (hb : LB start L stop a) (ht : AtBody t D (a ++ rest)) (hp : t.pos = start) (hcur : t.cur = none) :
    EP c ((bodyStep env (ops env n) T c).abs (t, u)) (Blames env cfg (.body T start L stop) c.depth) := by
  have hx : t.next = start := by rw [TS.next, hcur, hp]; rfl
  cases T with
  | boxed T => exact (H.body T c L t u D a rest start stop (by simpa [Ty.wf] using hw) hc hu hb ht hp hcur).mono fun _ _ h => .bodyBoxed h
  | tuple ts =>
    simp only [Ty.wf, Bool.and_eq_true, decide_eq_true_eq] at hw
    exact ((ep_structBody H (fun x hx => Ty.wf_weaken (tupleFields_wf hw.2 x hx)) (tupleFields_ok hw.1).2 hc hu hb ht hx).mono fun _ _ h => .bodyTuple h).bind fun _ _ _ => .ret
  | unknownFields zc =>
    refine ((ep_fieldLoop H (ds := []) (some zc) (by simp) (by simp) hc hu hb ht hx).mono fun path k h => ?_).bind fun st tu hr => ?_
    · rcases h with h | ⟨zc', h, h'⟩
      · cases h with
        | tooDeep h => exact absurd rfl h
        | inField _ h => cases h
        | missing _ h => cases h
      · cases h; exact .bodyUnknown h'
    · exact (H.finish (.unknownFields zc) _ 0 c _ trivial).mono fun _ _ h => absurd h.2 no_lacks_unknown
  | named i =>
    have hok := henv i
    have hbw := hwf i
    simp only [bodyStep]
    cases hd : env.decl i with
    | struct b =>
      rw [hd] at hok hbw
      exact ((ep_macroBody H henv hwf b hok hbw hc hu hb ht hp hcur).mono fun _ _ h => .bodyStruct hd h).bind fun _ _ _ => .ret
    | enum vs ca => exact ep_defaultBody H hw (by simp [Ty.isWrapped, hd]) hc hu hb ht hx
  | _ => exact ep_defaultBody H hw rfl hc hu hb ht hx

end

end Fourleaf
