import Verif.Twin

/-! # The methods of the deserialiser for two types that differ in ownership -/

namespace Fourleaf
open Spec
open Props (OwnTy OwnFields OwnTail OwnBody OwnVariants OwnDecl OwnEnv Dir own_isU8 own_fields)

/-- `&[u8]` on the one side, `Vec<u8>` on the other (possibly boxed): their accumulators differ. -/
def bytesPair : Ty → Ty → Bool
  | .boxed t, .boxed t' => bytesPair t t'
  | .prim .bytesRef, .vec _ => true
  | _, _ => false

/-- The accumulators of both sides. -/
def AccT (t t' : Ty) (a a' : Acc) : Prop :=
  if bytesPair t t' then (a = .init ∧ a' = .init) ∨ ∃ d : List Byte, a = ⟨false, [.ofBytes d]⟩ ∧ a' = ⟨true, d.map fun b => .num b.toNat⟩ else a' = a

theorem AccT.init {t t' : Ty} : AccT t t' .init .init := by
  unfold AccT; split
  · exact .inl ⟨rfl, rfl⟩
  · rfl

theorem AccT.boxed {t t' : Ty} {a a' : Acc} : AccT (.boxed t) (.boxed t') a a' ↔ AccT t t' a a' := Iff.rfl

theorem AccT.eq {t t' : Ty} (h : bytesPair t t' = false) {a a' : Acc} : AccT t t' a a' ↔ a' = a := by unfold AccT; rw [h]; simp

theorem run_bind_bind {α β γ : Type} (p : P α) (f : α → P β) (g : β → P γ) (st : PSt Stats) : (Prog.bind (Prog.bind p f) g).run st = (Prog.bind p fun x => Prog.bind (f x) g).run st := by
  simp only [Prog.run]
  cases p.run st with
  | ok x st' => rfl
  | err e st' => rfl

namespace TwR
variable {s : Stream} {u u' : Stats} {c c' : Ctx} {f : Field}

theorem vecConv (h : OnSlice s) (hf : BlobAt s f) (hc : CtxT c c') (hu : StatR u u') : TwR Eq Twin s ((vecConv c f).run (s, u)) ((Fourleaf.vecConv c' f).run (s, u')) :=
  (ownedOwned h hf hc hu).bind (fun _ => .ret _) (fun _ => .ret _) fun _ _ _ _ _ _ hR hE hu h => .ret (hR ▸ rfl) hE hu h

theorem conv (p : Prim) (h : OnSlice s) (hf : BlobAt s f) (hc : CtxT c c') (hu : StatR u u') : TwR Eq Twin s ((p.conv c f).run (s, u)) ((p.conv c' f).run (s, u')) := by
  have ho := ownedOwned h hf hc hu
  have hx := (extSlice h hc hu (f := f)).twin
  cases p with
  | phantom => exact bind_lift hc fun _ _ => .ret rfl .same hu h
  | bool => exact bind_lift hc fun _ _ => .ret rfl .same hu h
  | int k => exact bind_lift hc fun _ _ => .ret rfl .same hu h
  | char =>
    refine bind_lift hc fun _ _ => ?_
    split
    · exact .ret rfl .same hu h
    · exact .fail hc
  | string =>
    refine ho.bind (fun _ => ?_) (fun _ => ?_) fun x y s1 s2 u1 u2 hR hE hu h => ?_
    · split
      · exact .ret _
      · exact .fail _ _
    · split
      · exact .ret _
      · exact .fail _ _
    · subst hR
      split
      · exact .ret rfl hE hu h
      · exact .fail hc
  | strRef =>
    refine hx.bind (fun _ => ?_) (fun _ => ?_) fun x y s1 s2 u1 u2 hR hE hu h => ?_
    · split
      · exact .ret _
      · exact .fail _ _
    · split
      · exact .ret _
      · exact .fail _ _
    · subst hR
      split
      · exact .ret rfl hE hu h
      · exact .fail hc
  | bytesRef => exact hx.bind (fun _ => .ret _) (fun _ => .ret _) fun _ _ _ _ _ _ hR hE hu h => .ret (hR ▸ rfl) hE hu h

theorem convStr (h : OnSlice s) (hf : BlobAt s f) (hc : CtxT c c') (hu : StatR u u') : TwR Eq Twin s ((Prim.strRef.conv c f).run (s, u)) ((Prim.string.conv c' f).run (s, u')) := by
  refine (sliceOwned h hf hc hu).bind (fun _ => ?_) (fun _ => ?_) fun x y s1 s2 u1 u2 hR hE hu h => ?_
  · split
    · exact .ret _
    · exact .fail _ _
  · split
    · exact .ret _
    · exact .fail _ _
  · subst hR
    split
    · exact .ret rfl hE hu h
    · exact .fail hc
end TwR

/-- The methods for both sides. -/
structure TwOps (o o' : Ops) : Prop where
  body : ∀ {t t' c c' s u u'}, OwnTy true t t' → CtxT c c' → OnSlice s → StatR u u' → TwR Eq Eq s ((o.body t c).run (s, u)) ((o'.body t' c').run (s, u'))
  element : ∀ {t t' c c' f s u u'}, OwnTy true t t' → CtxT c c' → OnSlice s → BlobAt s f → StatR u u' → TwR Eq Twin s ((o.element t c f).run (s, u)) ((o'.element t' c' f).run (s, u'))
  field : ∀ {t t' a a' c c' f s u u'}, OwnTy true t t' → AccT t t' a a' → CtxT c c' → OnSlice s → BlobAt s f → StatR u u' →
    TwR (AccT t t') Twin s ((o.field t a c f).run (s, u)) ((o'.field t' a' c' f).run (s, u'))
  finish : ∀ {E : Stream → Stream → Prop} {t t' a a' c c' s s' u u'}, OwnTy true t t' → AccT t t' a a' → CtxT c c' → OnSlice s → E s s' → StatR u u' →
    TwR Eq E s ((o.finish t a c).run (s, u)) ((o'.finish t' a' c').run (s', u'))
  /-- the element `&[u8]` is read as a field of its own, the element `Vec<u8>` is not -/
  bytes : ∀ {c c' f s u u'}, CtxT c c' → OnSlice s → BlobAt s f → StatR u u' →
    TwR Eq Twin s ((defaultElement o (.prim .bytesRef) c f).run (s, u)) ((Prog.bind (vecConv c' f) fun vs => .ret (.seq vs)).run (s, u'))
  strict : StrictOps o
  strict' : StrictOps o'

/-- The states of the two loops over the fields. -/
structure LoopT (fs fs' : List FieldDecl) (st st' : LoopSt) : Prop where
  accs : ∀ i x x', fs[i]? = some x → fs'[i]? = some x' → AccT x.ty x'.ty (st.accs i) (st'.accs i)
  unk : st'.unk = st.unk

theorem own_get {fs fs' : List FieldDecl} (h : OwnFields true fs fs') : ∀ {i : Nat} {x : FieldDecl}, fs[i]? = some x → ∃ x', fs'[i]? = some x' ∧ x'.tag = x.tag ∧ OwnTy true x.ty x'.ty := by
  induction h with
  | nil => intro i x hx; cases hx
  | cons h1 h2 _ ih =>
    intro i x hx
    cases i with
    | zero => cases hx; exact ⟨_, rfl, h1, h2⟩
    | succ i => simpa using ih (by simpa using hx)

theorem own_findIdx {fs fs' : List FieldDecl} (h : OwnFields true fs fs') (tag : Byte) : fs'.findIdx? (fun d => d.tag = tag) = fs.findIdx? (fun d => d.tag = tag) := by
  induction h with
  | nil => rfl
  | cons h1 h2 _ ih => simp [List.findIdx?_cons, h1, ih]

theorem nextField_blobAt {s s' : Stream} {f : Field} (hi : Inv s) (h : nextField s = .ok (some f) s') : BlobAt s' f := by
  unfold nextField at h
  cases hr : nextElementImpl true s with
  | err e s2 => rw [M.bind_err hr] at h; cases h
  | ok e s2 =>
    have hsh := nextElementImpl_shape hi hr
    rw [M.bind_ok hr] at h
    cases e with
    | padding => cases h
    | endOfStruct | endOfDoc => cases h
    | field f' =>
      cases h
      intro n hn
      simp only [Shape, Element.blobLen?, hn] at hsh
      exact ⟨hsh.2.2, hsh.2.1⟩
    | exception n =>
      dsimp only at h
      cases hm : readOrTrunc 256 s2 with
      | ok m s3 => rw [M.bind_ok hm] at h; cases h
      | err e s3 => rw [M.bind_err hm] at h; cases h

section
variable {env env' : Env} {o o' : Ops} (H : TwOps o o')
include H

theorem tw_fieldStep {fs fs' : List FieldDecl} {unk unk' : Option Bool} {c c' : Ctx} {st st' : LoopSt} {f : Field} {s : Stream} {u u' : Stats}
    (hfs : OwnFields true fs fs') (hk : (unk = none ∧ unk' = none) ∨ ∃ zc zc', unk = some zc ∧ unk' = some zc' ∧ Dir true zc zc')
    (hst : LoopT fs fs' st st') (hc : CtxT c c') (h : OnSlice s) (hf : BlobAt s f) (hu : StatR u u') :
    TwR (LoopT fs fs') Twin s ((fieldStep o fs unk c st f).run (s, u)) ((fieldStep o' fs' unk' c' st' f).run (s, u')) := by
  unfold fieldStep
  rw [own_findIdx hfs]
  cases hi : fs.findIdx? (fun d => d.tag = f.tag) with
  | some i =>
    dsimp only
    cases hx : fs[i]? with
    | none =>
      have : fs'[i]? = none := by
        have hl : fs'.length = fs.length := by have := congrArg List.length (Props.own_tags hfs); simpa using this
        rw [List.getElem?_eq_none_iff] at hx ⊢; omega
      rw [this]
      exact .ret hst .same hu h
    | some x =>
      obtain ⟨x', hx', -, ho⟩ := own_get hfs hx
      rw [hx']
      dsimp only
      refine .push hc fun sub sub' hs => (H.field ho (hst.accs i x x' hx hx') hs h hf hu).bind (fun _ => .ret _) (fun _ => .ret _) fun a a' s1 s2 u1 u2 hR hE hu h => .ret ⟨fun j y y' hy hy' => ?_, hst.unk⟩ hE hu h
      simp only [upd]
      split
      · rename_i hj
        subst hj
        rw [hx] at hy; rw [hx'] at hy'; cases hy; cases hy'; exact hR
      · exact hst.accs j y y' hy hy'
  | none =>
    dsimp only
    rcases hk with ⟨rfl, rfl⟩ | ⟨zc, zc', rfl, rfl, hd⟩
    · dsimp only
      simp only [Ctx.unknownField, hc.cfg]
      split
      · show TwR _ _ s ((Prog.bind (c.skip f) fun _ => .ret st).run (s, u)) ((Prog.bind (c'.skip f) fun _ => .ret st').run (s, u'))
        exact (TwR.skip hc h hu).bind (fun _ => .ret _) (fun _ => .ret _) fun _ _ s1 s2 u1 u2 hR hE hu h => .ret hst (hE ▸ .same) hu h
      · exact .err rfl hc.path
    · dsimp only
      refine .push hc fun sub sub' hs => (H.field (.unknownFields hd) ((AccT.eq rfl).2 hst.unk) hs h hf hu).bind (fun _ => .ret _) (fun _ => .ret _) fun a a' s1 s2 u1 u2 hR hE hu h => .ret ⟨hst.accs, ?_⟩ hE hu h
      exact (AccT.eq rfl).1 hR

omit H in
/-- The loops on both sides. -/
theorem tw_runLoop {β : Type} {R : β → β → Prop} {body body' : β → Element → P (β ⊕ β)} {c c' : Ctx} (hc : CtxT c c')
    (hb : ∀ x x' f s u u', R x x' → OnSlice s → BlobAt s f → StatR u u' → TwR (fun y y' => ∃ z z', y = .inl z ∧ y' = .inl z' ∧ R z z') Twin s ((body x (.field f)).run (s, u)) ((body' x' (.field f)).run (s, u'))) :
    ∀ (fuel : Nat) (x x' : β) (s s' : Stream) (u u' : Stats), R x x' → Twin s s' → OnSlice s → StatR u u' →
      TwR R Eq s (runLoop true (fun b e => (body b e).run) (fun e => (c.fail (.stream e) : P β).run) (fun b => (.ret b : P β).run) fuel x (s, u))
        (runLoop true (fun b e => (body' b e).run) (fun e => (c'.fail (.stream e) : P β).run) (fun b => (.ret b : P β).run) fuel x' (s', u')) := by
  have hL : ∀ (body : β → Element → P (β ⊕ β)) (c : Ctx) (fuel : Nat) (y : β) (s2 : Stream) (u2 : Stats), Inv s2 → Lost s2 →
      Bad (runLoop true (fun b e => (body b e).run) (fun e => (c.fail (.stream e) : P β).run) (fun b => (.ret b : P β).run) fuel y (s2, u2)) := by
    intro body c fuel y s2 u2 hi2 hl2 z st hr
    have hst := runLoop_step true (fun b e => (body b e).run) (fun e => (c.fail (.stream e) : P β).run) (fun b => (.ret b : P β).run)
      (fun b e st hi => Prog.run_safe _ st hi) (fun e st hi => Prog.run_safe _ st hi) (fun b st hi => Prog.run_safe _ st hi) fuel y (s2, u2) hi2
    rw [hr] at hst
    exact ⟨runLoop_lost (D := fun e d => d.kind = .stream e) body (fun e => c.fail (.stream e)) (fun b => .ret b) (fun e => ⟨_, rfl, rfl⟩) fuel y _ _ z hi2 hl2 hr, hst.inv⟩
  intro fuel
  induction fuel with
  | zero => intros; exact .abort
  | succ fuel ih =>
    intro x x' s s' u u' hst ht h hu
    simp only [runLoop]
    rw [ht.pull h true]
    cases hq : pull true s with
    | err e s1 =>
      simp only
      split
      · exact .abort
      · exact .err rfl hc.path
    | ok o1 s1 =>
      have hs := (pull_safe true h.inv).1.step
      rw [hq] at hs
      have h1 : OnSlice s1 := h.step hs
      have hm1 : Meets s1 → Meets s := pull_meets h.inv hq
      cases o1 with
      | none => exact .ok hst rfl hu hm1 h1
      | some el =>
        obtain ⟨f', hn, hf'⟩ := pull_true_ok hq
        cases f' with
        | none => cases hf'
        | some f =>
          cases hf'
          have hstep := hb x x' f s1 u u' hst h1 (nextField_blobAt h.inv hn) hu
          dsimp only
          revert hstep
          generalize (body x (.field f)).run (s1, u) = r
          generalize (body' x' (.field f)).run (s1, u') = r'
          intro hstep
          cases hstep with
          | ok a b c d e =>
            obtain ⟨z, z', rfl, rfl, hz⟩ := a
            dsimp only
            have := ih z z' _ _ _ _ hz b e c
            revert this
            generalize runLoop true _ _ _ fuel z _ = q
            generalize runLoop true _ _ _ fuel z' _ = q'
            intro this
            cases this with
            | ok a b c d' e => exact .ok a b c (fun h => hm1 (d (d' h))) e
            | err a b => exact .err a b
            | abort => exact .abort
            | limit h => exact .limit h
            | cut a b c => exact .cut (hm1 (d a)) b c
            | overL h => exact .overL h
            | overR h => exact .overR h
          | err a b => exact .err a b
          | abort => exact .abort
          | limit h => exact .limit h
          | cut a b d =>
            refine .cut (hm1 a) ?_ ?_
            · intro z st hr
              cases r with
              | err e st1 => cases hr
              | ok y st1 =>
                obtain ⟨k1, k2⟩ := b y st1 rfl
                cases y with
                | inr y => cases hr; exact ⟨k1, k2⟩
                | inl y => exact hL body c fuel y st1.1 st1.2 k2 k1 z st hr
            · intro z st hr
              cases r' with
              | err e st1 => cases hr
              | ok y st1 =>
                obtain ⟨k1, k2⟩ := d y st1 rfl
                cases y with
                | inr y => cases hr; exact ⟨k1, k2⟩
                | inl y => exact hL body' c' fuel y st1.1 st1.2 k2 k1 z st hr
          | overL h => exact .overL h
          | overR h => exact .overR h

theorem tw_fieldLoop {fs fs' : List FieldDecl} {unk unk' : Option Bool} {c c' : Ctx} {s : Stream} {u u' : Stats}
    (hfs : OwnFields true fs fs') (hk : (unk = none ∧ unk' = none) ∨ ∃ zc zc', unk = some zc ∧ unk' = some zc' ∧ Dir true zc zc')
    (hc : CtxT c c') (h : OnSlice s) (hu : StatR u u') :
    TwR (LoopT fs fs') Eq s ((fieldLoop o fs unk c).run (s, u)) ((fieldLoop o' fs' unk' c').run (s, u')) := by
  refine tw_runLoop (R := LoopT fs fs') (body := fun st e => match e with | .field f => .bind (fieldStep o fs unk c st f) fun st' => .ret (.inl st') | _ => .ret (.inl st))
    (body' := fun st e => match e with | .field f => .bind (fieldStep o' fs' unk' c' st f) fun st' => .ret (.inl st') | _ => .ret (.inl st))
    hc (fun x x' f s u u' hx h hf hu => ?_) (s.inner.data.length - s.inner.pos + 2) LoopSt.init LoopSt.init _ _ _ _ ⟨fun _ _ _ _ _ => .init, rfl⟩ .same h hu
  exact (tw_fieldStep H hfs hk hx hc h hf hu).bind (fun _ => .ret _) (fun _ => .ret _) fun _ _ _ _ _ _ hR hE hu h => .ret ⟨_, _, rfl, rfl, hR⟩ hE hu h

theorem tw_finishAll {c c' : Ctx} (hc : CtxT c c') {st st' : LoopSt} : ∀ {fs fs' : List FieldDecl} {i : Nat} {s : Stream} {u u' : Stats}, OwnFields true fs fs' →
    (∀ j x x', fs[j]? = some x → fs'[j]? = some x' → AccT x.ty x'.ty (st.accs (i + j)) (st'.accs (i + j))) → OnSlice s → StatR u u' →
    TwR Eq Eq s ((finishAll o c st i fs).run (s, u)) ((finishAll o' c' st' i fs').run (s, u'))
  | _, _, i, s, u, u', .nil, ha, h, hu => .ret rfl rfl hu h
  | _, _, i, s, u, u', .cons (x := x) (x' := x') (xs := xs) (xs' := xs') h1 h2 h3, ha, h, hu => by
    simp only [finishAll]
    have st1 : ∀ (o : Ops), StrictOps o → ∀ (c : Ctx) (st : LoopSt) (x : FieldDecl) (xs : List FieldDecl) (p : Nat), Strict (.bind (c.push x.name p) fun sub => .bind (o.finish x.ty (st.accs i) sub) fun v => .bind (finishAll o c st (i + 1) xs) fun vs => .ret (v :: vs)) :=
      fun o Ho c st x xs p => (Strict.push _ _ _).bind fun _ => (Ho.finish _ _ _).bind fun _ => (strict_finishAll Ho _ _ _ _).bind fun _ => .ret _
    refine (TwR.pos hc h hu).bind (fun _ => st1 o H.strict _ _ _ _ _) (fun _ => st1 o' H.strict' _ _ _ _ _) fun p p' s1 s2 u1 u2 hR hE hu h => ?_
    subst hR hE
    refine .push hc fun sub sub' hs => (H.finish (E := Eq) h2 (ha 0 x x' rfl rfl) hs h rfl hu).bind (fun _ => (strict_finishAll H.strict _ _ _ _).bind fun _ => .ret _) (fun _ => (strict_finishAll H.strict' _ _ _ _).bind fun _ => .ret _) fun v v' s1 s2 u1 u2 hR hE hu h => ?_
    subst hR hE
    refine (tw_finishAll hc h3 (fun j y y' hy hy' => ?_) h hu).bind (fun _ => .ret _) (fun _ => .ret _) fun vs vs' s1 s2 u1 u2 hR hE hu h => .ret (hR ▸ rfl) hE hu h
    have := ha (j + 1) y y' (by simpa using hy) (by simpa using hy')
    rw [show i + 1 + j = i + (j + 1) by omega]; exact this

theorem tw_structBody {fs fs' : List FieldDecl} {c c' : Ctx} {s : Stream} {u u' : Stats} (hfs : OwnFields true fs fs') (hc : CtxT c c') (h : OnSlice s) (hu : StatR u u') :
    TwR Eq Eq s ((structBody o fs c).run (s, u)) ((structBody o' fs' c').run (s, u')) :=
  (tw_fieldLoop H hfs (.inl ⟨rfl, rfl⟩) hc h hu).bind (fun _ => strict_finishAll H.strict _ _ _ _) (fun _ => strict_finishAll H.strict' _ _ _ _) fun st st' s1 s2 u1 u2 hR hE hu h => by
    subst hE
    exact tw_finishAll H hc hfs (fun j x x' hx hx' => by rw [Nat.zero_add]; exact hR.accs j x x' hx hx') h hu

theorem tw_defaultBody {t t' : Ty} {c c' : Ctx} {s : Stream} {u u' : Stats} (ho : OwnTy true t t') (hc : CtxT c c') (h : OnSlice s) (hu : StatR u u') :
    TwR Eq Eq s ((defaultBody o t c).run (s, u)) ((defaultBody o' t' c').run (s, u')) := by
  have hb := tw_structBody H (fs := [⟨1, "top", t⟩]) (fs' := [⟨1, "top", t'⟩]) (.cons rfl ho .nil) hc h hu
  unfold defaultBody
  exact hb.bind (fun _ => .ret _) (fun _ => .ret _) fun x y _ _ _ _ hR hE hu h => by subst hR; exact .ret rfl hE hu h

omit H in
theorem tw_construct {E : Stream → Stream → Prop} {b b' : Body} (hb : b'.check = b.check) {c c' : Ctx} {vs : List V} {s s' : Stream} {u u' : Stats} (hc : CtxT c c') (h : OnSlice s) (hE : E s s') (hu : StatR u u') :
    TwR Eq E s ((construct b c vs).run (s, u)) ((construct b' c' vs).run (s', u')) := by
  unfold construct; rw [hb]; split
  · exact .ret rfl hE hu h
  · exact .fail hc

theorem tw_macroBody {b b' : Body} (hb : OwnBody true b b') {c c' : Ctx} {s : Stream} {u u' : Stats} (hc : CtxT c c') (h : OnSlice s) (hu : StatR u u') :
    TwR Eq Eq s ((macroBody o b c).run (s, u)) ((macroBody o' b' c').run (s, u')) := by
  have hs := H.strict
  have hs' := H.strict'
  obtain ⟨hfs, ht, hk⟩ := hb
  unfold macroBody
  revert ht
  generalize b.tail = tl
  generalize b'.tail = tl'
  intro ht
  cases ht with
  | plain =>
    dsimp only
    refine (tw_fieldLoop H hfs (.inl ⟨rfl, rfl⟩) hc h hu).bind (fun _ => (strict_finishAll hs _ _ _ _).bind fun _ => strict_construct _ _ _) (fun _ => (strict_finishAll hs' _ _ _ _).bind fun _ => strict_construct _ _ _) fun st st' s1 s2 u1 u2 hR hE hu h => ?_
    subst hE
    refine (tw_finishAll H hc hfs (fun j x x' hx hx' => by rw [Nat.zero_add]; exact hR.accs j x x' hx hx') h hu).bind (fun _ => strict_construct _ _ _) (fun _ => strict_construct _ _ _) fun vs vs' s1 s2 u1 u2 hR hE hu h => ?_
    subst hR
    exact tw_construct hk hc h hE hu
  | delegate ho =>
    rename_i n n' t t'
    dsimp only
    have st : ∀ (o : Ops), StrictOps o → ∀ (c : Ctx) (n : String) (t : Ty) (b : Body) (p : Nat), Strict (.bind (c.push n p) fun sub => .bind (o.body t sub) fun v => .bind (finishAll o c .init 0 b.fields) fun vs => construct b c (vs ++ [v])) :=
      fun o Ho c n t b p => (Strict.push _ _ _).bind fun _ => (Ho.body _ _).bind fun _ => (strict_finishAll Ho _ _ _ _).bind fun _ => strict_construct _ _ _
    refine (TwR.pos hc h hu).bind (fun _ => st o hs _ _ _ _ _) (fun _ => st o' hs' _ _ _ _ _) fun p p' s1 s2 u1 u2 hR hE hu h => ?_
    subst hR hE
    refine .push hc fun sub sub' hsub => (H.body ho hsub h hu).bind (fun _ => (strict_finishAll hs _ _ _ _).bind fun _ => strict_construct _ _ _) (fun _ => (strict_finishAll hs' _ _ _ _).bind fun _ => strict_construct _ _ _) fun v v' s1 s2 u1 u2 hR hE hu h => ?_
    subst hR hE
    refine (tw_finishAll H hc hfs (fun j x x' hx hx' => .init) h hu).bind (fun _ => strict_construct _ _ _) (fun _ => strict_construct _ _ _) fun vs vs' s1 s2 u1 u2 hR hE hu h => ?_
    subst hR
    exact tw_construct hk hc h hE hu
  | unknown hd =>
    rename_i n n' zc zc'
    dsimp only
    have st : ∀ (o : Ops), StrictOps o → ∀ (c : Ctx) (n : String) (zc : Bool) (b : Body) (x : LoopSt) (vs : List V) (p : Nat), Strict (.bind (c.push n p) fun sub => .bind (o.finish (.unknownFields zc) x.unk sub) fun v => construct b c (vs ++ [v])) :=
      fun o Ho c n zc b x vs p => (Strict.push _ _ _).bind fun _ => (Ho.finish _ _ _).bind fun _ => strict_construct _ _ _
    have st2 : ∀ (o : Ops), StrictOps o → ∀ (c : Ctx) (n : String) (zc : Bool) (b : Body) (x : LoopSt) (vs : List V), Strict (.bind (c.call .pos) fun p => .bind (c.push n p) fun sub => .bind (o.finish (.unknownFields zc) x.unk sub) fun v => construct b c (vs ++ [v])) :=
      fun o Ho c n zc b x vs => (Strict.call (o := .pos) _ trivial).bind fun _ => st o Ho _ _ _ _ _ _ _
    refine (tw_fieldLoop H hfs (.inr ⟨_, _, rfl, rfl, hd⟩) hc h hu).bind (fun _ => (strict_finishAll hs _ _ _ _).bind fun _ => st2 o hs _ _ _ _ _ _) (fun _ => (strict_finishAll hs' _ _ _ _).bind fun _ => st2 o' hs' _ _ _ _ _ _) fun x x' s1 s2 u1 u2 hX hE hu h => ?_
    subst hE
    refine (tw_finishAll H hc hfs (fun j x x' hx hx' => by rw [Nat.zero_add]; exact hX.accs j x x' hx hx') h hu).bind (fun _ => st2 o hs _ _ _ _ _ _) (fun _ => st2 o' hs' _ _ _ _ _ _) fun vs vs' s1 s2 u1 u2 hR hE hu h => ?_
    subst hR hE
    refine (TwR.pos hc h hu).bind (fun _ => st o hs _ _ _ _ _ _ _) (fun _ => st o' hs' _ _ _ _ _ _ _) fun p p' s1 s2 u1 u2 hR hE hu h => ?_
    subst hR hE
    refine .push hc fun sub sub' hsub => (H.finish (E := Eq) (.unknownFields hd) ((AccT.eq rfl).2 hX.unk) hsub h rfl hu).bind (fun _ => strict_construct _ _ _) (fun _ => strict_construct _ _ _) fun v v' s1 s2 u1 u2 hR hE hu h => ?_
    subst hR
    exact tw_construct hk hc h hE hu

omit H in
theorem own_tuple {ts ts' : List Ty} (h : OwnTy true (.tuple ts) (.tuple ts')) : OwnFields true (tupleFields ts) (tupleFields ts') := by
  cases h with
  | tuple hl h =>
    refine own_fields (by simpa [tupleFields] using hl) fun j x x' hx hx' => ?_
    simp only [tupleFields, List.getElem?_mapIdx, Option.map_eq_some_iff] at hx hx'
    obtain ⟨t, ht, rfl⟩ := hx
    obtain ⟨t', ht', rfl⟩ := hx'
    exact ⟨rfl, h j t t' ht ht'⟩

theorem tw_bodyStep (he : OwnEnv true env env') {t t' : Ty} {c c' : Ctx} {s : Stream} {u u' : Stats} (ho : OwnTy true t t') (hc : CtxT c c') (h : OnSlice s) (hu : StatR u u') :
    TwR Eq Eq s ((bodyStep env o t c).run (s, u)) ((bodyStep env' o' t' c').run (s, u')) := by
  have hdef := tw_defaultBody H ho hc h hu
  cases ho with
  | boxed ho => exact H.body ho hc h hu
  | tuple hl hx =>
    exact (tw_structBody H (own_tuple (.tuple hl hx)) hc h hu).bind (fun _ => .ret _) (fun _ => .ret _) fun _ _ _ _ _ _ hR hE hu h => .ret (hR ▸ rfl) hE hu h
  | unknownFields hd =>
    exact (tw_fieldLoop H .nil (.inr ⟨_, _, rfl, rfl, hd⟩) hc h hu).bind (fun _ => H.strict.finish _ _ _) (fun _ => H.strict'.finish _ _ _) fun x x' s1 s2 u1 u2 hR hE hu h =>
      H.finish (.unknownFields hd) ((AccT.eq rfl).2 hR.unk) hc h hE hu
  | named =>
    rename_i i
    have hi := he i
    simp only [bodyStep]
    revert hi
    generalize env.decl i = dl
    generalize env'.decl i = dl'
    intro hi
    cases hi with
    | struct hb => exact (tw_macroBody H hb hc h hu).bind (fun _ => .ret _) (fun _ => .ret _) fun _ _ _ _ _ _ hR hE hu h => .ret (hR ▸ rfl) hE hu h
    | enum _ => exact hdef
    | enumCatchAll _ _ => exact hdef
  | str | bytes | string | vecu8 | unknownField | prim | small | large | vec | coll | option | map => exact hdef

theorem tw_viaStruct {t t' : Ty} {c c' : Ctx} {f : Field} {s : Stream} {u u' : Stats} (ho : OwnTy true t t') (hc : CtxT c c') (h : OnSlice s) (hu : StatR u u') :
    TwR Eq Twin s ((viaStruct o t c f).run (s, u)) ((viaStruct o' t' c' f).run (s, u')) :=
  (TwR.bind_lift hc fun _ _ => H.body ho hc h hu).twin

theorem tw_variant {vs vs' : List (UInt64 × Body)} {ca ca' : Option Body} (hv : OwnVariants true vs vs') (hca : (ca = none ∧ ca' = none) ∨ ∃ b b', ca = some b ∧ ca' = some b' ∧ OwnBody true b b')
    {c c' : Ctx} {f : Field} {s : Stream} {u u' : Stats} (hc : CtxT c c') (h : OnSlice s) (hu : StatR u u') :
    TwR Eq Twin s ((enumElement o vs ca c f).run (s, u)) ((enumElement o' vs' ca' c' f).run (s, u')) := by
  refine TwR.twin (TwR.bind_lift hc fun d _ => ?_)
  have hm : ∀ {b b' : Body}, OwnBody true b b' → TwR Eq Eq s ((Prog.bind (macroBody o b c) fun vs => .ret (.variant d vs) : P V).run (s, u)) ((Prog.bind (macroBody o' b' c') fun vs => .ret (.variant d vs) : P V).run (s, u')) := fun hb =>
    (tw_macroBody H hb hc h hu).bind (fun _ => .ret _) (fun _ => .ret _) fun _ _ _ _ _ _ hR hE hu h => .ret (hR ▸ rfl) hE hu h
  cases hf : vs.find? (fun v => v.1 = d) with
  | some x =>
    have hx : x.1 = d := by simpa using List.find?_some hf
    obtain ⟨d', b⟩ := x
    cases hx
    obtain ⟨b', hb', hb⟩ := Props.own_find hv hf
    rw [hb']
    exact hm hb
  | none =>
    have : vs'.find? (fun v => v.1 = d) = none := by
      rw [List.find?_eq_none] at hf ⊢
      have := Props.own_discs hv (disc := d) (by simpa using hf)
      simpa using this
    rw [this]
    rcases hca with ⟨rfl, rfl⟩ | ⟨b, b', rfl, rfl, hb⟩
    · exact .err rfl hc.path
    · exact hm hb

theorem tw_elementStep (he : OwnEnv true env env') {t t' : Ty} {c c' : Ctx} {f : Field} {s : Stream} {u u' : Stats} (ho : OwnTy true t t') (hc : CtxT c c') (h : OnSlice s) (hf : BlobAt s f) (hu : StatR u u') :
    TwR Eq Twin s ((elementStep env o t c f).run (s, u)) ((elementStep env' o' t' c' f).run (s, u')) := by
  have hdef : ∀ {t t'}, OwnTy true t t' → TwR Eq Twin s ((defaultElement o t c f).run (s, u)) ((defaultElement o' t' c' f).run (s, u')) := fun ho =>
    (H.field ho .init hc h hf hu).bind (fun _ => H.strict.finish _ _ _) (fun _ => H.strict'.finish _ _ _) fun x x' s1 s2 u1 u2 hR hE hu h => H.finish ho hR hc h hE hu
  have hvia := tw_viaStruct H ho hc h hu (f := f)
  cases ho with
  | str h1 => exact hdef (.str h1)
  | string h1 => cases h1
  | vecu8 h1 => cases h1
  | bytes h1 => exact H.bytes hc h hf hu
  | prim => exact hdef .prim
  | unknownField hd => exact hdef (.unknownField hd)
  | boxed ho => exact H.element ho hc h hf hu
  | small ho | large ho =>
    simp only [elementStep, own_isU8 ho]
    split
    · exact (TwR.arrConv _ h hf hc hu).bind (fun _ => .ret _) (fun _ => .ret _) fun _ _ _ _ _ _ hR hE hu h => .ret (hR ▸ rfl) hE hu h
    · exact hvia
  | vec ho =>
    simp only [elementStep, own_isU8 ho]
    split
    · exact (TwR.vecConv h hf hc hu).bind (fun _ => .ret _) (fun _ => .ret _) fun _ _ _ _ _ _ hR hE hu h => .ret (hR ▸ rfl) hE hu h
    · exact hvia
  | unknownFields | tuple | coll | option | map => exact hvia
  | named =>
    rename_i i
    have hi := he i
    simp only [elementStep]
    revert hi
    generalize env.decl i = dl
    generalize env'.decl i = dl'
    intro hi
    cases hi with
    | struct hb =>
      dsimp only
      have ht := hb.tail
      rename_i b b'
      revert ht
      generalize b.tail = tl
      generalize b'.tail = tl'
      intro ht
      cases ht with
      | plain => exact hvia
      | unknown _ => exact hvia
      | delegate ho =>
        dsimp only
        refine .push hc fun sub sub' hs => (H.element ho hs h hf hu).bind (fun _ => (strict_construct _ _ _).bind fun _ => .ret _) (fun _ => (strict_construct _ _ _).bind fun _ => .ret _) fun v v' s1 s2 u1 u2 hR hE hu h => ?_
        subst hR
        exact (tw_construct hb.check hc h hE hu).bind (fun _ => .ret _) (fun _ => .ret _) fun _ _ _ _ _ _ hR hE hu h => .ret (hR ▸ rfl) hE hu h
    | enum hv => exact tw_variant H hv (.inl ⟨rfl, rfl⟩) hc h hu
    | enumCatchAll hv hb => exact tw_variant H hv (.inr ⟨_, _, rfl, rfl, hb⟩) hc h hu

omit H in
theorem tw_bytes {c c' : Ctx} {f : Field} {s : Stream} {u u' : Stats} (hc : CtxT c c') (h : OnSlice s) (hf : BlobAt s f) (hu : StatR u u') :
    TwR (AccT (.prim .bytesRef) (.vec (.prim (.int .u8)))) Twin s ((Prog.bind (Prim.bytesRef.conv c f) fun v => .ret ⟨false, [v]⟩ : P Acc).run (s, u)) ((Prog.bind (vecConv c' f) fun vs => .ret ⟨true, vs⟩ : P Acc).run (s, u')) := by
  have hx := TwR.bind (R' := AccT (.prim .bytesRef) (.vec (.prim (.int .u8)))) (E' := Twin) (f := fun d => (.ret ⟨false, [.ofBytes d]⟩ : P Acc)) (f' := fun d => .ret ⟨true, d.map fun b => .num b.toNat⟩)
    (TwR.sliceOwned h hf hc hu) (fun _ => .ret _) (fun _ => .ret _) fun d d' s1 s2 u1 u2 hR hE hu h => by
      subst hR
      exact .ret (by simp only [AccT, bytesPair, if_true]; exact .inr ⟨d, rfl, rfl⟩) hE hu h
  have e1 : (Prog.bind (Prim.bytesRef.conv c f) fun v => .ret ⟨false, [v]⟩ : P Acc).run (s, u) = (Prog.bind (extSlice c f) fun d => (.ret ⟨false, [.ofBytes d]⟩ : P Acc)).run (s, u) := by
    simp only [Prim.conv, run_bind_bind]; simp only [Prog.run]
  have e2 : (Prog.bind (vecConv c' f) fun vs => .ret ⟨true, vs⟩ : P Acc).run (s, u') = (Prog.bind (ownedBlob c' f) fun d => (.ret ⟨true, d.map fun b => .num b.toNat⟩ : P Acc)).run (s, u') := by
    simp only [vecConv, run_bind_bind]; simp only [Prog.run]
  rw [e1, e2]
  exact hx

theorem tw_fieldMeth {t t' : Ty} {a a' : Acc} {c c' : Ctx} {f : Field} {s : Stream} {u u' : Stats} (ho : OwnTy true t t') (ha : AccT t t' a a') (hc : CtxT c c') (h : OnSlice s) (hf : BlobAt s f) (hu : StatR u u') :
    TwR (AccT t t') Twin s ((fieldMeth o t a c f).run (s, u)) ((fieldMeth o' t' a' c' f).run (s, u')) := by
  have hel : ∀ {E E' t t' : Ty} (g : V → Acc) {u u' : Stats}, OwnTy true E E' → bytesPair t t' = false → StatR u u' →
      TwR (AccT t t') Twin s ((Prog.bind (o.element E c f) fun v => .ret (g v) : P Acc).run (s, u)) ((Prog.bind (o'.element E' c' f) fun v => .ret (g v) : P Acc).run (s, u')) := fun g _ _ ho hb hu =>
    (H.element ho hc h hf hu).bind (fun _ => .ret _) (fun _ => .ret _) fun v v' _ _ _ _ hR hE hu h => by subst hR; exact .ret ((AccT.eq hb).2 rfl) hE hu h
  have hco : ∀ {E E' t t' : Ty} (g : V → Acc), OwnTy true E E' → bytesPair t t' = false →
      TwR (AccT t t') Twin s ((Prog.bind (c.collect 1) fun _ => Prog.bind (o.element E c f) fun v => .ret (g v) : P Acc).run (s, u)) ((Prog.bind (c'.collect 1) fun _ => Prog.bind (o'.element E' c' f) fun v => .ret (g v) : P Acc).run (s, u')) := fun g ho hb =>
    .collect hc hu fun u1 u2 hu => hel g ho hb hu
  have hpr : ∀ {t t' : Ty} (p p' : Prim) (a : Acc), bytesPair t t' = false → TwR Eq Twin s ((p.conv c f).run (s, u)) ((p'.conv c' f).run (s, u')) →
      TwR (AccT t t') Twin s ((if a.items ≠ [] then c.fail (.tooMany 1) else .bind (p.conv c f) fun v => .ret ⟨false, [v]⟩ : P Acc).run (s, u))
        ((if a.items ≠ [] then c'.fail (.tooMany 1) else .bind (p'.conv c' f) fun v => .ret ⟨false, [v]⟩ : P Acc).run (s, u')) := fun p p' a hb hx => by
    split
    · exact .fail hc
    · exact hx.bind (fun _ => .ret _) (fun _ => .ret _) fun v v' _ _ _ _ hR hE hu h => by subst hR; exact .ret ((AccT.eq hb).2 rfl) hE hu h
  cases ho with
  | string h1 => cases h1
  | vecu8 h1 => cases h1
  | str _ =>
    cases (AccT.eq rfl).1 ha
    exact hpr _ _ _ rfl (.convStr h hf hc hu)
  | bytes _ =>
    simp only [AccT, bytesPair, if_true] at ha
    simp only [fieldMeth]
    rcases ha with ⟨rfl, rfl⟩ | ⟨d, rfl, rfl⟩
    · simp only [Acc.init, ne_eq, not_true_eq_false, if_false, Bool.false_eq_true]
      exact tw_bytes hc h hf hu
    · simp only [ne_eq, List.cons_ne_nil, not_false_eq_true, if_true]
      obtain ⟨st, hst⟩ := discard_run (α := Acc) (p := vecConv c' f) (c := c') (k := .tooMany 1) (u := u') h.inv
      show TwR _ _ s _ ((discard (vecConv c' f) c' (.tooMany 1) : P Acc).run (s, u'))
      rw [hst]
      exact .err rfl hc.path
  | prim =>
    rename_i p
    have hb : bytesPair (.prim p) (.prim p) = false := by cases p <;> rfl
    cases (AccT.eq hb).1 ha
    exact hpr _ _ _ hb (.conv p h hf hc hu)
  | boxed ho => exact H.field ho ha hc h hf hu
  | small ho =>
    cases (AccT.eq rfl).1 ha
    simp only [fieldMeth, own_isU8 ho]
    split
    · split
      · exact .discard hc h.inv h.inv
      · exact (TwR.arrConv _ h hf hc hu).bind (fun _ => .ret _) (fun _ => .ret _) fun v v' _ _ _ _ hR hE hu h => by subst hR; exact .ret ((AccT.eq rfl).2 rfl) hE hu h
    · split
      · exact .fail hc
      · split
        · exact .fail hc
        · exact hel _ ho rfl hu
  | large ho =>
    cases (AccT.eq rfl).1 ha
    simp only [fieldMeth, own_isU8 ho]
    split
    · refine (TwR.arrConv _ h hf hc hu).bind (fun _ => ?_) (fun _ => ?_) fun v v' _ _ _ _ hR hE hu h => ?_
      · split
        · exact .fail _ _
        · exact .ret _
      · split
        · exact .fail _ _
        · exact .ret _
      · subst hR
        split
        · exact .fail hc
        · exact .ret ((AccT.eq rfl).2 rfl) hE hu h
    · split
      · exact .fail hc
      · exact hel _ ho rfl hu
  | tuple hl hx =>
    cases (AccT.eq rfl).1 ha
    simp only [fieldMeth]
    split
    · exact .fail hc
    · exact hel _ (.tuple hl hx) rfl hu
  | named =>
    cases (AccT.eq rfl).1 ha
    simp only [fieldMeth]
    split
    · exact .fail hc
    · exact hel _ .named rfl hu
  | option ho =>
    cases (AccT.eq rfl).1 ha
    simp only [fieldMeth]
    split
    · exact .fail hc
    · exact hel _ ho rfl hu
  | vec ho =>
    cases (AccT.eq rfl).1 ha
    simp only [fieldMeth, own_isU8 ho]
    split
    · split
      · exact .discard hc h.inv h.inv
      · exact (TwR.vecConv h hf hc hu).bind (fun _ => .ret _) (fun _ => .ret _) fun v v' _ _ _ _ hR hE hu h => by subst hR; exact .ret ((AccT.eq rfl).2 rfl) hE hu h
    · exact hco _ ho rfl
  | coll ho => cases (AccT.eq rfl).1 ha; exact hco _ ho rfl
  | map hk hv =>
    cases (AccT.eq rfl).1 ha
    refine hco _ (.tuple rfl fun j t t' ht ht' => ?_) rfl
    match j with
    | 0 => cases ht; cases ht'; exact hk
    | 1 => cases ht; cases ht'; exact hv
    | j + 2 => cases ht
  | unknownFields hd => cases (AccT.eq rfl).1 ha; exact hco _ (.unknownField hd) rfl
  | unknownField hd =>
    rename_i zc zc'
    cases (AccT.eq rfl).1 ha
    have hb : OwnTy true (unkBlobTy zc) (unkBlobTy zc') := by
      unfold unkBlobTy
      refine .boxed ?_
      cases zc <;> cases zc'
      · exact .vec .prim
      · simp [Dir] at hd
      · exact .bytes rfl
      · exact .prim
    simp only [fieldMeth]
    split
    · exact .fail hc
    · split
      · exact .ret ((AccT.eq rfl).2 rfl) .same hu h
      · exact hel _ hb rfl hu
      · exact (H.body (.unknownFields hd) hc h hu).twin.bind (fun _ => .ret _) (fun _ => .ret _) fun v v' _ _ _ _ hR hE hu h => by subst hR; exact .ret ((AccT.eq rfl).2 rfl) hE hu h
      · exact (H.body (.unknownFields hd) hc h hu).twin.bind (fun _ => .ret _) (fun _ => .ret _) fun v v' _ _ _ _ hR hE hu h => by subst hR; exact .ret ((AccT.eq rfl).2 rfl) hE hu h

theorem tw_finishMeth {E : Stream → Stream → Prop} {t t' : Ty} {a a' : Acc} {c c' : Ctx} {s s' : Stream} {u u' : Stats} (ho : OwnTy true t t') (ha : AccT t t' a a') (hc : CtxT c c') (h : OnSlice s) (hE : E s s') (hu : StatR u u') :
    TwR Eq E s ((finishMeth o t a c).run (s, u)) ((finishMeth o' t' a' c').run (s', u')) := by
  cases ho with
  | string h1 => cases h1
  | vecu8 h1 => cases h1
  | boxed ho => exact H.finish ho ha hc h hE hu
  | bytes _ =>
    simp only [AccT, bytesPair, if_true] at ha
    simp only [finishMeth]
    rcases ha with ⟨rfl, rfl⟩ | ⟨d, rfl, rfl⟩
    · exact .fail hc
    · simp only [Bool.not_true, Bool.and_false, Bool.false_eq_true, if_false]
      exact .ret rfl hE hu h
  | prim =>
    rename_i p
    have hb : bytesPair (.prim p) (.prim p) = false := by cases p <;> rfl
    cases (AccT.eq hb).1 ha
    simp only [finishMeth]
    split
    · exact .ret rfl hE hu h
    · exact .fail hc
  | small ho | large ho | vec ho =>
    cases (AccT.eq rfl).1 ha
    simp only [finishMeth, own_isU8 ho]
    repeat' split
    all_goals first | exact .ret rfl hE hu h | exact .fail hc
  | _ =>
    cases (AccT.eq rfl).1 ha
    simp only [finishMeth]
    repeat' split
    all_goals first | exact .ret rfl hE hu h | exact .fail hc
end

theorem ops_bytes (env : Env) (n : Nat) {c c' : Ctx} {f : Field} {s : Stream} {u u' : Stats} (hc : CtxT c c') (h : OnSlice s) (hf : BlobAt s f) (hu : StatR u u') :
    TwR Eq Twin s ((defaultElement (ops env n) (.prim .bytesRef) c f).run (s, u)) ((Prog.bind (vecConv c' f) fun vs => .ret (.seq vs)).run (s, u')) := by
  cases n with
  | zero => exact .overL (.inr rfl)
  | succ n =>
    have hx := TwR.bind (R' := Eq) (E' := Twin) (f := fun d => (.ret (.ofBytes d) : P V)) (f' := fun d => .ret (.seq (d.map fun b => .num b.toNat)))
      (TwR.sliceOwned h hf hc hu) (fun _ => .ret _) (fun _ => .ret _) fun d d' s1 s2 u1 u2 hR hE hu h => by
        subst hR
        exact .ret rfl hE hu h
    have e1 : (defaultElement (ops env (n + 1)) (.prim .bytesRef) c f).run (s, u) = (Prog.bind (extSlice c f) fun d => (.ret (.ofBytes d) : P V)).run (s, u) := by
      simp only [defaultElement, ops, fieldMeth, Acc.init, ne_eq, not_true_eq_false, if_false, run_bind_bind, Prim.conv, finishMeth]
      simp only [Prog.run]
    have e2 : (Prog.bind (vecConv c' f) fun vs => .ret (.seq vs) : P V).run (s, u') = (Prog.bind (ownedBlob c' f) fun d => (.ret (.seq (d.map fun b => .num b.toNat)) : P V)).run (s, u') := by
      simp only [vecConv, run_bind_bind]; simp only [Prog.run]
    rw [e1, e2]
    exact hx

theorem ops_twin {env env' : Env} (he : OwnEnv true env env') : ∀ n n', TwOps (ops env n) (ops env' n')
  | 0, n' =>
    { body := fun _ _ _ _ => .overL (.inr rfl)
      element := fun _ _ _ _ _ => .overL (.inr rfl)
      field := fun _ _ _ _ _ _ => .overL (.inr rfl)
      finish := fun _ _ _ _ _ _ => .overL (.inr rfl)
      bytes := ops_bytes env 0
      strict := ops_strict env 0
      strict' := ops_strict env' n' }
  | n + 1, 0 =>
    { body := fun _ _ _ _ => .overR (.inr rfl)
      element := fun _ _ _ _ _ => .overR (.inr rfl)
      field := fun _ _ _ _ _ _ => .overR (.inr rfl)
      finish := fun _ _ _ _ _ _ => .overR (.inr rfl)
      bytes := ops_bytes env (n + 1)
      strict := ops_strict env (n + 1)
      strict' := ops_strict env' 0 }
  | n + 1, n' + 1 =>
    have ih := ops_twin he n n'
    { body := tw_bodyStep ih he
      element := tw_elementStep ih he
      field := tw_fieldMeth ih
      finish := tw_finishMeth ih
      bytes := ops_bytes env (n + 1)
      strict := ops_strict env (n + 1)
      strict' := ops_strict env' (n' + 1) }

/-- The two deserialisers side by side. -/
theorem deserialize_twin {env env' : Env} (he : OwnEnv true env env') {t t' : Ty} (ho : OwnTy true t t') (cfg : Config) {s : Stream} (h : OnSlice s) :
    TwR Eq Eq s ((deserialize env t cfg).run (s, .zero)) ((deserialize env' t' cfg).run (s, .zero)) :=
  (ops_twin he _ _).body ho ⟨rfl, rfl, rfl⟩ h ⟨rfl, Nat.le_refl _⟩

end Fourleaf
