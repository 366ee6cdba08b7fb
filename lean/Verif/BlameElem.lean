import Verif.BlamePrim

/-! # Errors of single occurrences of fields, and of all methods -/

namespace Fourleaf
open Spec Props

theorem plain_blob {v : LVal} {d : List Byte} (h : v.plain = .blob d) : v = .blob d := by
  cases v with
  | blob d' => simp only [LVal.plain, Val.blob.injEq] at h; rw [h]
  | _ => simp [LVal.plain] at h

theorem not_blob {v : LVal} (h : ∀ d, v.plain ≠ .blob d) (d : List Byte) : v ≠ .blob d := by
  rintro rfl; exact h d rfl

section
variable {env : Env} {cfg : Config} {n : Nat} (H : EPOps env cfg n)
include H
variable {t : TS} {u : Stats} {c : Ctx} {f : Field} {D : Nat} {tag : Byte} {v : LVal} {q : Nat} {rest : List HTok}

theorem ep_viaStruct {T : Ty} (hw : T.wf false = true) (hT : T.inStruct env = true) (hc : c.cfg = cfg) (hu : u.fits cfg) (hh : Hand f D tag v.plain) (hm : MidL t D v q rest) :
    EP c ((viaStruct (ops env n) T c f).abs (t, u)) (Blames env cfg (.elem T f.pos v) c.depth) := by
  have hm' := hm.here
  unfold viaStruct
  rw [hh.value]
  refine EP.bind (EP.lift fun e he => ?_) fun _ st' hr => ?_
  · obtain ⟨h1, rfl⟩ := toStruct_err he
    exact .notStruct hT fun s l e h => h1 _ (by rw [h]; rfl)
  · cases v with
    | struct s l e =>
      obtain ⟨h1, h2, h3, h4, a, h5, h6⟩ := hm'
      cases hr
      exact (H.body T c l t u (D + 1) a rest s e hw hc hu h5 ⟨hm.eof, by rw [h1]; omega, h6⟩ h3 h2).mono fun _ _ h => .elemStruct hT h
    | _ => cases hr

theorem ep_enum (henv : env.Ok) (hwf : env.wf) {i : Nat} {vs : List (UInt64 × Body)} {ca : Option Body} (hd : env.decl i = .enum vs ca)
    (hc : c.cfg = cfg) (hu : u.fits cfg) (hh : Hand f D tag v.plain) (hm : MidL t D v q rest) :
    EP c ((enumElement (ops env n) vs ca c f).abs (t, u)) (Blames env cfg (.elem (.named i) f.pos v) c.depth) := by
  have hm' := hm.here
  have hok := henv i
  have hbw := hwf i
  rw [hd] at hok hbw
  unfold enumElement
  rw [hh.value]
  refine EP.bind (EP.lift fun e he => ?_) fun disc0 st' hr => ?_
  · obtain ⟨h1, rfl⟩ := toEnum_err he
    exact .notEnum hd fun disc s l e h => h1 _ _ (by rw [h]; rfl)
  · cases v with
    | enum disc s l e =>
      obtain ⟨h1, h2, h3, h4, a, h5, h6⟩ := hm'
      have hr : Res.ok (ε := Stop DErr) disc (t, u) = .ok disc0 st' := hr
      injection hr with e1 e2
      subst e1 e2
      have hB : ∀ b : Body, b.Ok → b.wf → EP c ((macroBody (ops env n) b c).abs (t, u)) (Blames env cfg (.parts b s l e) c.depth) := fun b g1 g2 =>
        ep_macroBody H henv hwf b (D := D + 1) g1 g2 hc hu h5 ⟨hm.eof, by rw [h1]; omega, h6⟩ h3 h2
      cases hf : vs.find? (fun x => decide (x.1 = disc)) with
      | some x =>
        simp only
        have hx := List.mem_of_find?_eq_some hf
        have hxd : x.1 = disc := by simpa using List.find?_some hf
        obtain ⟨d', b⟩ := x
        simp only at hxd; subst hxd
        exact ((hB b (hok.1 _ hx) (hbw.1 _ hx)).mono fun _ _ h => .elemVariant hd hf h).bind fun _ _ _ => .ret
      | none =>
        simp only
        have hnone : ∀ x ∈ vs, x.1 ≠ disc := fun x hx => by
          have := List.find?_eq_none.1 hf x hx
          simpa using this
        cases ca with
        | some b => exact ((hB b (hok.2 _ rfl) (hbw.2 _ rfl)).mono fun _ _ h => .elemCatchAll hd hnone h).bind fun _ _ _ => .ret
        | none => exact .fail (.unknownVariant hd hnone)
    | _ => cases hr

omit H in
/-- The first occurrence of a single value. -/
theorem Blames.first {T : Ty} {p d : Nat} {path : List PathFrame} {k : Kind} (hT : (∃ p, T = .prim p) ∨ ∃ zc, T = .unknownField zc)
    (h : Blames env cfg (.occ T 0 p v) d path k) : Blames env cfg (.elem T p v) d path k := by
  cases h with
  | occBoxed _ => rcases hT with ⟨_, hT⟩ | ⟨_, hT⟩ <;> cases hT
  | tooOften h =>
    cases h with
    | single _ h => omega
    | named h => omega
    | bytes _ h => omega
    | small => rcases hT with ⟨_, hT⟩ | ⟨_, hT⟩ <;> cases hT
    | large => rcases hT with ⟨_, hT⟩ | ⟨_, hT⟩ <;> cases hT
  | collectLimit h => rcases hT with ⟨_, rfl⟩ | ⟨_, rfl⟩ <;> cases h
  | occEach h h' => rcases hT with ⟨_, rfl⟩ | ⟨_, rfl⟩ <;> cases h <;> exact h'

omit H in
theorem Lacks.none_of_one {T : Ty} {k : Kind} (hT : (∃ p, T = .prim p) ∨ ∃ zc, T = .unknownField zc) : ¬ Lacks T 1 k := by
  intro h
  rcases hT with ⟨_, rfl⟩ | ⟨_, rfl⟩ <;> cases h

theorem ep_default {T : Ty} (hw : T.wf false = true) (hT : (∃ p, T = .prim p) ∨ ∃ zc, T = .unknownField zc) (hc : c.cfg = cfg) (hu : u.fits cfg)
    (hh : Hand f D tag v.plain) (hm : MidL t D v q rest) :
    EP c ((defaultElement (ops env n) T c f).abs (t, u)) (Blames env cfg (.elem T f.pos v) c.depth) := by
  refine ((H.field T .init 0 c f t u D tag v q rest hw hc hu (AccN.init T) hh hm).mono fun _ _ h => h.first hT).bind fun a st' hr => ?_
  obtain ⟨cc, g1, -, -⟩ := ((ops_sim env cfg n).field T .init c f t u D tag _ rest hc hu hh hm.mid).inv hr
  exact (H.finish T a 1 c st' (AccN.step (AccN.init T) g1)).mono fun _ _ h => absurd h.2 (Lacks.none_of_one hT)

omit H in
theorem ArrErr.blames {T : Ty} {m : Nat} {p d : Nat} {path : List PathFrame} {k : Kind} (hT : T = .small m u8 ∨ T = .large m u8) (h : ArrErr m v.plain path k) :
    Blames env cfg (.elem T p v) d path k := by
  rcases h with ⟨rfl, h2, rfl⟩ | ⟨rfl, ⟨data, h2, h3⟩, rfl⟩
  · exact .notBytes (hT.elim (fun h => .inr (.inl ⟨m, h⟩)) fun h => .inr (.inr ⟨m, h⟩)) fun d => not_blob h2 d
  · cases plain_blob h2; exact .arrayLength hT h3

omit H in
theorem OwnedErr.blames {p d : Nat} {path : List PathFrame} {k : Kind} (h : OwnedErr v.plain path k) :
    Blames env cfg (.elem (.vec u8) p v) d path k := by
  rcases h with ⟨rfl, h2, rfl⟩ | ⟨rfl, ⟨data, h2⟩, rfl⟩
  · exact .notBytes (.inl rfl) fun d => not_blob h2 d
  · cases plain_blob h2; exact .blobLimit (.inr rfl)

theorem ep_elementStep (henv : env.Ok) (hwf : env.wf) {T : Ty} (hw : T.wf false = true) (hc : c.cfg = cfg) (hu : u.fits cfg) (hh : Hand f D tag v.plain) (hm : MidL t D v q rest) :
    EP c ((elementStep env (ops env n) T c f).abs (t, u)) (Blames env cfg (.elem T f.pos v) c.depth) := by
  cases T with
  | prim p => exact ep_default H hw (.inl ⟨p, rfl⟩) hc hu hh hm
  | unknownField zc => exact ep_default H hw (.inr ⟨zc, rfl⟩) hc hu hh hm
  | boxed T => exact (H.element T c f t u D tag v q rest (by simpa [Ty.wf] using hw) hc hu hh hm).mono fun _ _ h => .elemBoxed h
  | small m e =>
    simp only [elementStep]
    split
    · rename_i he; cases isU8_eq he
      exact ((ep_arrConv m hh hm.mid).mono fun _ _ h => h.blames (.inl rfl)).bind fun _ _ _ => .ret
    · rename_i he; exact ep_viaStruct H hw (by simpa [Ty.inStruct] using he) hc hu hh hm
  | large m e =>
    simp only [elementStep]
    split
    · rename_i he; cases isU8_eq he
      exact ((ep_arrConv m hh hm.mid).mono fun _ _ h => h.blames (.inr rfl)).bind fun _ _ _ => .ret
    · rename_i he; exact ep_viaStruct H hw (by simpa [Ty.inStruct] using he) hc hu hh hm
  | vec e =>
    simp only [elementStep]
    split
    · rename_i he; cases isU8_eq he
      exact ((ep_vecConv hc hu hh hm.mid).mono fun _ _ h => h.blames).bind fun _ _ _ => .ret
    · rename_i he; exact ep_viaStruct H hw (by simpa [Ty.inStruct] using he) hc hu hh hm
  | tuple _ => exact ep_viaStruct H hw rfl hc hu hh hm
  | coll _ _ => exact ep_viaStruct H hw rfl hc hu hh hm
  | option _ => exact ep_viaStruct H hw rfl hc hu hh hm
  | map _ _ => exact ep_viaStruct H hw rfl hc hu hh hm
  | unknownFields _ => exact ep_viaStruct H hw rfl hc hu hh hm
  | named i =>
    simp only [elementStep]
    have hbw := hwf i
    cases hd : env.decl i with
    | enum vs ca => exact ep_enum H henv hwf hd hc hu hh hm
    | struct b =>
      rw [hd] at hbw
      simp only
      cases htl : b.tail with
      | plain => exact ep_viaStruct H hw (by simp [Ty.inStruct, hd, htl]) hc hu hh hm
      | unknown _ _ => exact ep_viaStruct H hw (by simp [Ty.inStruct, hd, htl]) hc hu hh hm
      | delegate name T =>
        obtain ⟨-, htw⟩ := hbw.2 name T htl
        refine EP.push hc (fun h => .elemDelegateDeep hd htl h) fun hd' sub h1 h2 h3 => ?_
        refine (EP.sub h3 (H.element T sub f t u D tag v q rest htw h1 hu hh hm) fun path k hb => ?_).bind fun w st' hr => ?_
        · rw [h2] at hb; exact .elemDelegate hd htl hd' hb
        · obtain ⟨cc, g1, -, -⟩ := ((ops_sim env cfg n).element T sub f t u D tag _ rest h1 hu hh hm.mid).inv hr
          have hR := (reads_sound henv hwf cfg n).elem T sub.depth tag v.plain w cc htw g1
          rw [h2] at hR
          refine EP.bind ?_ fun _ _ _ => .ret
          unfold construct
          split
          · exact .ret
          · rename_i hck; exact .fail (.elemRefused hd htl hR (by simpa using hck))

theorem ep_fieldMeth {T : Ty} {x : Acc} {k : Nat} (hw : T.wf false = true) (hc : c.cfg = cfg) (hu : u.fits cfg) (hx : AccN T x k) (hh : Hand f D tag v.plain) (hm : MidL t D v q rest) :
    EP c ((fieldMeth (ops env n) T x c f).abs (t, u)) (Blames env cfg (.occ T k f.pos v) c.depth) := by
  have hel : ∀ (E : Ty) (u : Stats), u.fits cfg → E.wf false = true → T.each = some E → ∀ g : V → Acc,
      EP c ((Prog.bind ((ops env n).element E c f) fun w => .ret (g w)).abs (t, u)) (Blames env cfg (.occ T k f.pos v) c.depth) := fun E u hu hE he g =>
    ((H.element E c f t u D tag v q rest hE hc hu hh hm).mono fun _ _ h => .occEach he h).bind fun _ _ _ => .ret
  have hcol : ∀ (E : Ty), E.wf false = true → T.each = some E → T.collects = some E → ∀ g : V → Acc,
      EP c ((Prog.bind (c.collect 1) fun _ => .bind ((ops env n).element E c f) fun w => .ret (g w)).abs (t, u)) (Blames env cfg (.occ T k f.pos v) c.depth) := by
    intro E hE he hco g
    refine (ep_collect hc hu (.collectLimit hco)).bind fun _ st' hr => ?_
    obtain ⟨cc, -, g2, g3⟩ := (Sim.collect (t := t) (c := c) hc hu).inv hr
    obtain ⟨t', u'⟩ := st'
    simp only at g2 g3; subst g3
    exact hel E u' g2 hE he g
  have hone : ∀ {T : Ty}, AccN T x k → (∃ p, T = .prim p) ∨ (∃ ts, T = .tuple ts) ∨ (∃ i, T = .named i) ∨ (∃ zc, T = .unknownField zc) ∨ (∃ e, T = .option e) → x.items ≠ [] → 1 ≤ k := by
    intro T hx hT hi
    have : x.items = [] ↔ k = 0 := by
      rcases hT with ⟨_, rfl⟩ | ⟨_, rfl⟩ | ⟨_, rfl⟩ | ⟨_, rfl⟩ | ⟨_, rfl⟩ <;> exact hx
    have := mt this.2 hi
    omega
  cases T with
  | prim p =>
    simp only [fieldMeth]
    split
    · rename_i h; exact .fail (.tooOften (.single (.inl ⟨p, rfl⟩) (hone hx (.inl ⟨p, rfl⟩) h)))
    · refine ((ep_prim p hc hu hh hm.mid).mono fun path k h => ?_).bind fun _ _ _ => .ret
      obtain ⟨rfl, h | ⟨rfl, ⟨data, h2⟩, rfl⟩⟩ := h
      · exact .occEach rfl (.elemPrim h)
      · cases plain_blob h2; exact .occEach rfl (.blobLimit (.inl rfl))
  | boxed T => exact (H.field T x k c f t u D tag v q rest (by simpa [Ty.wf] using hw) hc hu hx hh hm).mono fun _ _ h => .occBoxed h
  | small m e =>
    have hwe : e.wf false = true := by simpa only [Ty.wf] using hw
    simp only [fieldMeth]
    unfold AccN at hx
    split
    · rename_i he; cases isU8_eq he
      simp only [he, if_true] at hx
      split
      · rename_i h
        have hf : x.flag = true := by
          cases hfl : x.flag with
          | true => rfl
          | false => rw [hfl] at h; exact absurd (hx.2 hfl) (h.resolve_left (by simp))
        exact ep_discard (.tooOften (.single (.inr (.inr (.inr (.inr (.inr ⟨m, rfl⟩))))) (hx.1.1 hf)))
      · exact ((ep_arrConv m hh hm.mid).mono fun _ _ h => .occEach rfl (h.blames (.inl rfl))).bind fun _ _ _ => .ret
    · rename_i he
      simp only [he, Bool.false_eq_true, if_false] at hx
      have he' : e.isU8 = false := by simpa using he
      rw [if_neg (by simp [hx.1])]
      split
      · rename_i h; exact .fail (.tooOften (.small he' (by omega)))
      · exact hel e u hu hwe (by simp [Ty.each, he']) _
  | large m e =>
    have hwe : e.wf false = true := by simpa only [Ty.wf] using hw
    simp only [fieldMeth]
    unfold AccN at hx
    split
    · rename_i he; cases isU8_eq he
      simp only [he, if_true] at hx
      refine ((ep_arrConv m hh hm.mid).mono fun _ _ h => .occEach rfl (h.blames (.inr rfl))).bind fun _ _ _ => ?_
      split
      · rename_i h
        have hk : 1 ≤ k := by
          apply Classical.byContradiction; intro hk
          rw [hx.1 (by omega)] at h; exact h rfl
        exact .fail (.tooOften (.bytes (by rw [← hx.2 hk]; exact h) hk))
      · exact .ret
    · rename_i he
      simp only [he, Bool.false_eq_true, if_false] at hx
      have he' : e.isU8 = false := by simpa using he
      split
      · rename_i h; exact .fail (.tooOften (.large he' (by omega)))
      · exact hel e u hu hwe (by simp [Ty.each, he']) _
  | tuple ts =>
    simp only [fieldMeth]
    split
    · rename_i h; exact .fail (.tooOften (.single (.inr (.inl ⟨ts, rfl⟩)) (hone hx (.inr (.inl ⟨ts, rfl⟩)) h)))
    · exact hel _ u hu hw rfl _
  | named i =>
    simp only [fieldMeth]
    split
    · rename_i h; exact .fail (.tooOften (.named (hone hx (.inr (.inr (.inl ⟨i, rfl⟩))) h)))
    · exact hel _ u hu hw rfl _
  | vec e =>
    have hwe : e.wf false = true := by simpa only [Ty.wf] using hw
    simp only [fieldMeth]
    unfold AccN at hx
    split
    · rename_i he; cases isU8_eq he
      simp only [he, if_true] at hx
      split
      · rename_i h
        exact ep_discard (.tooOften (.single (.inr (.inr (.inr (.inr (.inl rfl))))) (hx.1 h)))
      · exact ((ep_vecConv hc hu hh hm.mid).mono fun _ _ h => .occEach rfl h.blames).bind fun _ _ _ => .ret
    · rename_i he
      have he' : e.isU8 = false := by simpa using he
      exact hcol e hwe (by simp [Ty.each, he']) (by simp [Ty.collects, he']) _
  | coll kd e => exact hcol e (by simpa only [Ty.wf] using hw) rfl rfl _
  | option e =>
    simp only [fieldMeth]
    split
    · rename_i h; exact .fail (.tooOften (.single (.inr (.inr (.inl ⟨e, rfl⟩))) (hone hx (.inr (.inr (.inr (.inr ⟨e, rfl⟩)))) h)))
    · exact hel _ u hu (by simpa only [Ty.wf] using hw) rfl _
  | map a b =>
    exact hcol (.tuple [a, b]) (by simp only [Ty.wf, Bool.and_eq_true] at hw; simp [Ty.wf, Ty.wfs, hw]) rfl rfl _
  | unknownFields zc => exact hcol (.unknownField zc) rfl rfl rfl _
  | unknownField zc =>
    simp only [fieldMeth]
    split
    · rename_i h; exact .fail (.tooOften (.single (.inr (.inr (.inr (.inl ⟨zc, rfl⟩)))) (hone hx (.inr (.inr (.inr (.inl ⟨zc, rfl⟩)))) h)))
    · rw [hh.value]
      have hm' := hm.here
      have hbody : ∀ {path : List PathFrame} {k' : Kind} {s e : Nat} {l : LFields}, Blames env cfg (.body (.unknownFields zc) s l e) c.depth path k' → Blames env cfg (.unknown [] zc l) c.depth path k' := by
        intro path k' s e l h
        cases h with
        | bodyUnknown h => exact h
        | bodyWrapped h => cases h
      cases v with
      | int n => exact .ret
      | blob d =>
        refine ((H.element (unkBlobTy zc) c f t u D tag (.blob d) q rest (by cases zc <;> rfl) hc hu hh hm).mono fun path k' h => .occEach rfl ?_).bind fun _ _ _ => .ret
        unfold unkBlobTy at h
        cases h with
        | elemBoxed h =>
          cases zc with
          | true =>
            simp only [if_true] at h
            cases h with
            | elemPrim h =>
              cases h with
              | notInt h => rcases h with h | h | ⟨_, h⟩ | h <;> cases h
              | notBlob _ h => exact absurd rfl (h d)
              | utf8 h => rcases h with h | h <;> cases h
            | blobLimit h => rcases h with h | h <;> cases h
            | arrayLength h => rcases h with h | h <;> cases h
            | notBytes _ h => exact absurd rfl (h d)
            | notStruct h => cases h
          | false =>
            simp only [Bool.false_eq_true, if_false] at h
            cases h with
            | blobLimit h => exact .unkBlobLimit
            | arrayLength h => rcases h with h | h <;> cases h
            | notBytes _ h => exact absurd rfl (h d)
            | notStruct h => cases h
        | blobLimit h => rcases h with h | h <;> cases h
        | arrayLength h => rcases h with h | h <;> cases h
        | notBytes _ h => exact absurd rfl (h d)
        | notStruct h => cases h
      | struct s l e =>
        obtain ⟨h1, h2, h3, h4, a, h5, h6⟩ := hm'
        exact ((H.body (.unknownFields zc) c l t u (D + 1) a rest s e rfl hc hu h5 ⟨hm.eof, by rw [h1]; omega, h6⟩ h3 h2).mono fun _ _ h =>
          .occEach rfl (.unkStruct (hbody h))).bind fun _ _ _ => .ret
      | enum disc s l e =>
        obtain ⟨h1, h2, h3, h4, a, h5, h6⟩ := hm'
        exact ((H.body (.unknownFields zc) c l t u (D + 1) a rest s e rfl hc hu h5 ⟨hm.eof, by rw [h1]; omega, h6⟩ h3 h2).mono fun _ _ h =>
          .occEach rfl (.unkEnum (hbody h))).bind fun _ _ _ => .ret

theorem ep_finishMeth {T : Ty} {x : Acc} {k : Nat} {st : TS × Stats} (hx : AccN T x k) :
    EP c ((finishMeth (ops env n) T x c).abs st) (fun path kd => path = [] ∧ Lacks T k kd) := by
  have hsingle : (x.items = [] ↔ k = 0) → ((∃ p, T = .prim p) ∨ (∃ ts, T = .tuple ts) ∨ (∃ i, T = .named i) ∨ (∃ zc, T = .unknownField zc) ∨ T = .vec u8) →
      EP c ((match x.items with | v :: _ => .ret v | [] => c.fail .requiredFieldMissing : P V).abs st) (fun path kd => path = [] ∧ Lacks T k kd) := by
    intro h1 h2
    cases hi : x.items with
    | nil => cases h1.1 hi; exact .fail ⟨rfl, .single h2⟩
    | cons v vs => exact .ret
  cases T with
  | boxed T => exact (H.finish T x k c st hx).mono fun _ _ h => ⟨h.1, .boxed h.2⟩
  | prim p => exact hsingle hx (.inl ⟨p, rfl⟩)
  | tuple p => exact hsingle hx (.inr (.inl ⟨p, rfl⟩))
  | named p => exact hsingle hx (.inr (.inr (.inl ⟨p, rfl⟩)))
  | unknownField p => exact hsingle hx (.inr (.inr (.inr (.inl ⟨p, rfl⟩))))
  | small m e =>
    simp only [finishMeth]
    unfold AccN at hx
    split
    · exact .ret
    · rename_i hf
      split
      · rename_i hlt
        by_cases he : e.isU8 = true
        · simp only [he, if_true] at hx
          have hi : x.items = [] := hx.2 (by simpa using hf)
          have hk : k = 0 := by have := mt hx.1.2 hf; omega
          subst hk
          rw [if_pos (by rw [hi]; rfl)]
          exact .fail ⟨rfl, .small (by omega)⟩
        · simp only [he, Bool.false_eq_true, if_false] at hx ⊢
          have he' : e.isU8 = false := by simpa using he
          split
          · rename_i h0
            have hk : k = 0 := by omega
            subst hk
            exact .fail ⟨rfl, .small (by omega)⟩
          · exact .fail ⟨rfl, .smallFew he' (by omega) (by omega)⟩
      · exact .ret
  | large m e =>
    simp only [finishMeth]
    unfold AccN at hx
    split
    · rename_i hlt
      by_cases he : e.isU8 = true
      · simp only [he, if_true] at hx
        have hk : k = 0 := by
          apply Classical.byContradiction; intro hk
          rw [hx.2 (by omega)] at hlt; omega
        subst hk
        rw [if_pos (by rw [hx.1 rfl]; rfl)]
        exact .fail ⟨rfl, .large (by omega)⟩
      · simp only [he, Bool.false_eq_true, if_false] at hx ⊢
        have he' : e.isU8 = false := by simpa using he
        split
        · rename_i h0
          have hk : k = 0 := by omega
          subst hk
          exact .fail ⟨rfl, .large (by omega)⟩
        · exact .fail ⟨rfl, .largeFew he' (by omega) (by omega)⟩
    · exact .ret
  | vec e =>
    simp only [finishMeth]
    unfold AccN at hx
    split
    · rename_i h
      simp only [Bool.and_eq_true, Bool.not_eq_true'] at h
      obtain ⟨he, hf⟩ := h
      cases isU8_eq he
      simp only [he, if_true] at hx
      have hk : k = 0 := by have := mt hx.2 (by simp [hf]); omega
      subst hk
      exact .fail ⟨rfl, .single (.inr (.inr (.inr (.inr rfl))))⟩
    · exact .ret
  | _ => exact .ret

end

theorem ops_ep {env : Env} (henv : env.Ok) (hwf : env.wf) (cfg : Config) : ∀ n, EPOps env cfg n := by
  have h0 : ∀ {α : Type} {c : Ctx} {st : TS × Stats} {B : List PathFrame → Kind → Prop}, EP c ((c.fail .stackOverflow : P α).abs st) B := fun e st h => by
    cases h; exact ⟨[], by simp, .inl rfl⟩
  intro n
  induction n with
  | zero => exact ⟨fun _ _ _ _ _ _ _ _ _ _ _ _ _ _ _ _ _ => h0, fun _ _ _ _ _ _ _ _ _ _ _ _ _ _ _ _ _ _ => h0, fun _ _ _ _ _ _ _ _ _ _ _ _ _ _ _ => h0, fun _ _ _ _ _ _ => h0⟩
  | succ n ih =>
    exact ⟨fun T c L t u D a rest start stop hw hc hu hb ht hp hcur => ep_bodyStep ih henv hwf hw hc hu hb ht hp hcur,
      fun T x k c f t u D tag v q rest hw hc hu hx hh hm => ep_fieldMeth ih hw hc hu hx hh hm,
      fun T c f t u D tag v q rest hw hc hu hh hm => ep_elementStep ih henv hwf hw hc hu hh hm,
      fun T x k c st hx => ep_finishMeth ih hx⟩

end Fourleaf
