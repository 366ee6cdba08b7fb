import Verif.BlameSim
import Verif.BlameLimit
import Verif.ReadsComplete

/-! # What is blamed cannot be read -/

namespace Fourleaf
open Spec

/-- The specification allows no way to read it. -/
def NoReads (env : Env) (cfg : Config) : BItem → Nat → Prop
  | .body t _ l _, d => ∀ vs c, ¬ Reads env cfg (.body t) d [.struct (plains l)] vs c
  | .decls ds closed l _, d => ∀ vs c, (closed = true → cfg.Ignores (ds.map (·.tag)) (plains l)) → ¬ Reads env cfg (.fields ds) d [.struct (plains l)] vs c
  | .parts b _ l _, d => b.Ok → b.wf → ∀ vs c, ¬ Reads env cfg (.parts b) d [.struct (plains l)] vs c
  | .unknown known zc l, d => ∀ l', (∀ x ∈ plains l, x.1 ∉ known → x ∈ l') → ∀ vs c, ¬ Reads env cfg (.unknown zc) d [.struct l'] vs c
  | .occ t n _ v, d => (∀ pre post vs c, pre.length = n → ¬ Reads env cfg (.field t) d (pre ++ v.plain :: post) vs c) ∧
      ∀ zc, t = .unknownFields zc → ∀ vs c, ¬ Reads env cfg (.elem (.unknownField zc)) d [v.plain] vs c
  | .elem t _ v, d => ∀ vs c, ¬ Reads env cfg (.elem t) d [v.plain] vs c

theorem mem_plains {p : Nat} {tag : Byte} {v : LVal} : ∀ {l : LFields}, (p, tag, v) ∈ l → (tag, v.plain) ∈ plains l
  | [], h => by cases h
  | x :: l, h => by
    rw [plains]
    rcases List.mem_cons.1 h with rfl | h
    · exact List.mem_cons_self
    · exact List.mem_cons_of_mem _ (mem_plains h)

theorem length_occ (tag : Byte) : ∀ (l : LFields), (occ tag (plains l)).length = timesOf tag l
  | [] => rfl
  | (p, t, v) :: l => by
    have ih := length_occ tag l
    simp only [plains, plainField, plainTagged, occ, timesOf] at ih ⊢
    by_cases h : t = tag
    · simp [h, ih]
    · simp [h, ih]

section
variable {env : Env} {cfg : Config}

theorem reads_fields_mem {it : RItem} {d : Nat} {vals : List Val} {vs : List V} {c : Stats} (h : Reads env cfg it d vals vs c) :
    ∀ ds l, it = .fields ds → vals = [.struct l] → ∀ x ∈ ds, d < cfg.recursionLimit ∧ ∃ v c, Reads env cfg (.field x.ty) (d + 1) (occ x.tag l) [v] c := by
  induction h with
  | fieldsNil => intro ds l h1 h2 x hx; cases h1; cases hx
  | fieldsCons hd h1 _ _ ih =>
    intro ds l h2 h3 x hx
    cases h2; cases h3
    rcases List.mem_cons.1 hx with rfl | hx
    · exact ⟨hd, _, _, h1⟩
    · exact ih _ _ rfl rfl x hx
  | _ => intro ds l h1; cases h1

theorem reads_each_mem {it : RItem} {d : Nat} {vals : List Val} {vs : List V} {c : Stats} (h : Reads env cfg it d vals vs c) :
    ∀ t, it = .each t → ∀ val ∈ vals, ∃ v c, Reads env cfg (.elem t) d [val] [v] c := by
  induction h with
  | eachNil => intro t h1 x hx; cases hx
  | eachCons h1 _ _ ih =>
    intro t h2 x hx
    cases h2
    rcases List.mem_cons.1 hx with rfl | hx
    · exact ⟨_, _, h1⟩
    · exact ih _ rfl x hx
  | _ => intro ds h1; cases h1

theorem reads_unknown_mem {it : RItem} {d : Nat} {vals : List Val} {vs : List V} {c : Stats} (h : Reads env cfg it d vals vs c) :
    ∀ zc l, it = .unknown zc → vals = [.struct l] → ∀ x ∈ l, d < cfg.recursionLimit ∧ ∃ u c, Reads env cfg (.elem (.unknownField zc)) (d + 1) [x.2] [u] c := by
  induction h with
  | unknownNil => intro ds l h1 h2 x hx; cases h2; cases hx
  | unknownCons hd h1 _ _ ih =>
    intro ds l h2 h3 x hx
    cases h2; cases h3
    rcases List.mem_cons.1 hx with rfl | hx
    · exact ⟨hd, _, _, h1⟩
    · exact ih _ _ rfl rfl x hx
  | _ => intro ds l h1; cases h1

theorem append_single {α : Type} {a b : List α} {x y : α} (h : a ++ x :: b = [y]) : a = [] ∧ x = y ∧ b = [] := by
  cases a with
  | nil => cases h; exact ⟨rfl, rfl, rfl⟩
  | cons z a => cases a <;> cases h

theorem reads_field_each {t e : Ty} (he : t.each = some e) {d : Nat} {pre post : List Val} {val : Val} {vs : List V} {c : Stats}
    (h : Reads env cfg (.field t) d (pre ++ val :: post) vs c) : ∃ u c', Reads env cfg (.elem e) d [val] [u] c' := by
  generalize hvals : pre ++ val :: post = vals at h
  have hmem : val ∈ vals := by rw [← hvals]; simp
  cases h with
  | fieldBoxed h => cases he
  | fieldSingle hs h =>
    obtain ⟨rfl, rfl, rfl⟩ := append_single hvals
    have : e = t := by
      cases t <;> simp_all [Ty.each, Ty.isSingle]
    subst this
    exact ⟨_, _, h⟩
  | fieldNoBytes => cases hmem
  | fieldNoBytesL h =>
    rw [h _ hmem]
    cases he
    exact ⟨_, _, .elemLarge rfl⟩
  | fieldVec hu h => simp only [Ty.each, hu] at he; cases he; exact reads_each_mem h _ rfl _ hmem
  | fieldList h => cases he; exact reads_each_mem h _ rfl _ hmem
  | fieldSet h => cases he; exact reads_each_mem h _ rfl _ hmem
  | fieldMap h => cases he; exact reads_each_mem h _ rfl _ hmem
  | fieldOption _ h => cases he; exact reads_each_mem h _ rfl _ hmem
  | fieldSmall hu _ h => simp only [Ty.each, hu] at he; cases he; exact reads_each_mem h _ rfl _ hmem
  | fieldLarge hu _ h => simp only [Ty.each, hu] at he; cases he; exact reads_each_mem h _ rfl _ hmem

theorem tooOften_no {t : Ty} {k : Kind} {d : Nat} {pre post : List Val} {val : Val} {vs : List V} {c : Stats} (h : TooOften t pre.length k) :
    ¬ Reads env cfg (.field t) d (pre ++ val :: post) vs c := by
  intro hr
  generalize hvals : pre ++ val :: post = vals at hr
  have hlen : pre.length + 1 ≤ vals.length := by rw [← hvals]; simp
  generalize pre.length = n at h hlen
  clear hvals
  cases h with
  | single ht h1 =>
    rcases ht with ⟨_, rfl⟩ | ⟨_, rfl⟩ | ⟨_, rfl⟩ | ⟨_, rfl⟩ | rfl | ⟨_, rfl⟩ <;> cases hr <;> first | (simp only [List.length_singleton, List.length_nil] at hlen; omega) | (rename_i h _; cases h; done) | (rename_i h _ _; cases h; done) | (rename_i h _ _ _; cases h; done) | omega
  | named h1 => cases hr; simp only [List.length_singleton] at hlen; omega
  | bytes h0 h1 => cases hr <;> first | (simp only [List.length_singleton] at hlen; omega) | exact h0 rfl | (rename_i h _ _; cases h)
  | small hu h1 => cases hr <;> simp_all [u8, Ty.isU8, Ty.isSingle] <;> omega
  | large hu h1 => cases hr <;> simp_all [u8, Ty.isU8, Ty.isSingle] <;> omega

theorem lacks_no {t : Ty} {n : Nat} {k : Kind} (h : Lacks t n k) : ∀ {d : Nat} {vals : List Val} {vs : List V} {c : Stats}, vals.length = n →
    ¬ Reads env cfg (.field t) d vals vs c := by
  induction h with
  | single ht =>
    intro d vals vs c hn hr
    rcases ht with ⟨_, rfl⟩ | ⟨_, rfl⟩ | ⟨_, rfl⟩ | ⟨_, rfl⟩ | rfl <;> cases hr <;> simp_all [u8, Ty.isU8]
  | boxed _ ih => intro d vals vs c hn hr; cases hr with | fieldBoxed h => exact ih hn h | fieldSingle h => cases h
  | small h0 => intro d vals vs c hn hr; cases hr <;> simp_all [u8, Ty.isU8]
  | large h0 => intro d vals vs c hn hr; cases hr <;> simp_all [u8, Ty.isU8]
  | smallFew hu h1 h2 => intro d vals vs c hn hr; cases hr <;> simp_all [u8, Ty.isU8, Ty.isSingle]
  | largeFew hu h1 h2 => intro d vals vs c hn hr; cases hr <;> simp_all [u8, Ty.isU8, Ty.isSingle]

theorem primFault_no {p : Prim} {v : Val} {k : Kind} {u : V} {n : Nat} (h : PrimFault p v k) : ¬ PrimReads p v u n := by
  intro hr
  cases h with
  | notInt hp hv => rcases hp with rfl | rfl | ⟨k, rfl⟩ | rfl <;> cases hr <;> exact hv _ rfl
  | phantom h => cases hr; exact h rfl
  | bool h0 h1 => cases hr <;> simp_all
  | int h => cases hr with | int h1 h2 h3 => exact h _ h1 h2 h3
  | @charRange n h => cases hr with | @char _ c h1 => have := c.val.toNat_lt; have : c.toNat < 2 ^ 32 := this; omega
  | char _ h => cases hr with | char h1 => exact h _ h1
  | notBlob hp hv => rcases hp with rfl | rfl | rfl <;> cases hr <;> exact hv _ rfl
  | utf8 hp h => rcases hp with rfl | rfl <;> cases hr <;> exact h _ rfl

theorem elem_det (henv : env.Ok) (hwf : env.wf) {t : Ty} {d : Nat} {val : Val} {u u' : V} {c c' : Stats} (h : Reads env cfg (.elem t) d [val] [u] c)
    (h' : Reads env cfg (.elem t) d [val] [u'] c') : u = u' := by
  obtain ⟨N, h1⟩ := reads_complete henv hwf h _ _ rfl rfl
  obtain ⟨M, h2⟩ := reads_complete henv hwf h' _ _ rfl rfl
  have h1 := h1 (max N M) (by omega) 0
  rw [h2 (max N M) (by omega) 0] at h1
  exact (PM.ret_inj h1).1.symm

theorem parts_det (henv : env.Ok) (hwf : env.wf) {b : Body} (hb : b.Ok) (hbw : b.wf) {d : Nat} {l : Fields} {u u' : List V} {c c' : Stats}
    (h : Reads env cfg (.parts b) d [.struct l] u c) (h' : Reads env cfg (.parts b) d [.struct l] u' c') : u = u' := by
  obtain ⟨N, h1⟩ := reads_complete henv hwf h hb hbw _ rfl
  obtain ⟨M, h2⟩ := reads_complete henv hwf h' hb hbw _ rfl
  have h1 : pMacro cfg (pops env cfg (max N M)) b d l = _ := h1 (max N M) (by omega)
  have h2 : pMacro cfg (pops env cfg (max N M)) b d l = _ := h2 (max N M) (by omega)
  rw [h2] at h1
  exact (PM.ret_inj h1).1.symm

theorem parts_unchecked {b : Body} {d : Nat} {vals : List Val} {vs : List V} {c : Stats} (h : Reads env cfg (.parts b) d vals vs c) :
    b.check vs = true ∧ Reads env cfg (.parts { b with check := fun _ => true }) d vals vs c := by
  cases h with
  | partsPlain h1 h2 h3 h4 => exact ⟨h2, .partsPlain (b := { b with check := fun _ => true }) h1 rfl h3 h4⟩
  | partsDelegate h1 h2 h3 h4 => exact ⟨h2, .partsDelegate (b := { b with check := fun _ => true }) h1 rfl h3 h4⟩
  | partsUnknown h1 h2 h3 h4 h5 => exact ⟨h2, .partsUnknown (b := { b with check := fun _ => true }) h1 rfl h3 h4 h5⟩

theorem blames_not_read (henv : env.Ok) (hwf : env.wf) {it : BItem} {d : Nat} {path : List PathFrame} {k : Kind} (h : Blames env cfg it d path k) (hk : k.limited = false) :
    NoReads env cfg it d := by
  induction h with
  | bodyBoxed _ ih =>
    intro vs c hr
    cases hr with
    | bodyBoxed hr => exact ih hk _ _ hr
    | bodyWrapped h => cases h
  | bodyTuple _ ih =>
    intro vs c hr
    cases hr with
    | bodyTuple _ h1 h2 => exact ih hk _ _ (fun _ => h1) h2
    | bodyWrapped h => cases h
  | bodyUnknown _ ih =>
    intro vs c hr
    cases hr with
    | bodyUnknown h => exact ih hk _ (fun x hx _ => hx) _ _ h
    | bodyWrapped h => cases h
  | @bodyStruct i b s l e d path k hd _ ih =>
    intro vs c hr
    have hb : b.Ok := by have := henv i; rw [hd] at this; exact this
    have hbw : b.wf := by have := hwf i; rw [hd] at this; exact this
    cases hr with
    | bodyStruct hd' h => rw [hd] at hd'; cases hd'; exact ih hk hb hbw _ _ h
    | bodyWrapped h => simp only [Ty.isWrapped, hd] at h; cases h
  | @bodyWrapped t s l e d path k ht _ ih =>
    intro vs c hr
    cases hr with
    | bodyBoxed _ => cases ht
    | bodyTuple _ _ _ => cases ht
    | bodyUnknown _ => cases ht
    | bodyStruct hd _ => simp only [Ty.isWrapped, hd] at ht; cases ht
    | bodyWrapped _ h1 h2 h3 => exact ih hk _ _ (fun _ => h1) (.fieldsCons h2 h3 .fieldsNil)
  | @tooDeep ds closed l e d h0 h1 =>
    intro vs c _ hr
    cases ds with
    | nil => exact h0 rfl
    | cons x ds => have := (reads_fields_mem hr _ _ rfl rfl x List.mem_cons_self).1; omega
  | undeclared h0 h1 h2 =>
    intro vs c hi _
    rcases hi rfl with h | h
    · rw [h0] at h; cases h
    · exact h2 (h _ (mem_plains h1))
  | @inField ds closed l e d x pre p v post path k hd hx hl _ ih =>
    intro vs c _ hr
    obtain ⟨-, u, c', h1⟩ := reads_fields_mem hr _ _ rfl rfl x hx
    rw [hl, plains_append, show occ x.tag (plains pre ++ plains ((p, x.tag, v) :: post)) = occ x.tag (plains pre) ++ occ x.tag (plains ((p, x.tag, v) :: post)) from List.filterMap_append] at h1
    have : occ x.tag (plains ((p, x.tag, v) :: post)) = v.plain :: occ x.tag (plains post) := by simp [plains, plainField, plainTagged, occ]
    rw [this] at h1
    exact (ih hk).1 _ _ _ _ (length_occ _ _) h1
  | missing hd hx hl =>
    intro vs c _ hr
    obtain ⟨-, u, c', h1⟩ := reads_fields_mem hr _ _ rfl rfl _ hx
    exact lacks_no hl (length_occ _ _) h1
  | partsPlain ht _ ih =>
    intro _ _ vs c hr
    cases hr with
    | partsPlain _ _ h1 h2 => exact ih hk _ _ (fun _ => h1) h2
    | partsDelegate h => rw [ht] at h; cases h
    | partsUnknown h => rw [ht] at h; cases h
  | delegateDeep ht hd =>
    intro _ _ vs c hr
    cases hr with
    | partsPlain h => rw [ht] at h; cases h
    | partsDelegate h _ h1 => omega
    | partsUnknown h => rw [ht] at h; cases h
  | partsDelegate ht hd _ ih =>
    intro _ _ vs c hr
    cases hr with
    | partsPlain h => rw [ht] at h; cases h
    | partsDelegate h _ _ h1 => rw [ht] at h; cases h; exact ih hk _ _ h1
    | partsUnknown h => rw [ht] at h; cases h
  | unknownDeep ht hd =>
    intro _ _ vs c hr
    cases hr with
    | partsPlain h => rw [ht] at h; cases h
    | partsDelegate h => rw [ht] at h; cases h
    | partsUnknown h _ h1 => omega
  | partsUnknown ht _ ih =>
    intro _ _ vs c hr
    cases hr with
    | partsPlain h => rw [ht] at h; cases h
    | partsDelegate h => rw [ht] at h; cases h
    | partsUnknown h _ _ h1 => exact ih hk _ _ (fun h => by cases h) h1
  | partsRest ht _ ih =>
    intro _ _ vs c hr
    cases hr with
    | partsPlain h => rw [ht] at h; cases h
    | partsDelegate h => rw [ht] at h; cases h
    | partsUnknown h _ _ _ h1 =>
      rw [ht] at h; cases h
      refine ih hk _ (fun x hx hn => ?_) _ _ h1
      unfold unknowns
      rw [List.mem_filter]
      refine ⟨hx, ?_⟩
      simp only [Bool.not_eq_true', List.any_eq_false, decide_eq_true_eq]
      exact fun y hy he => hn (List.mem_map.2 ⟨y, hy, he⟩)
  | @refused b s l e d vs c h hc =>
    intro hb hbw vs' c' hr
    obtain ⟨h1, h2⟩ := parts_unchecked hr
    have := parts_det henv hwf (b := { b with check := fun _ => true }) hb hbw h h2
    rw [this, h1] at hc; cases hc
  | restDeep h1 h2 h3 =>
    intro l' hl vs c hr
    have := (reads_unknown_mem hr _ _ rfl rfl _ (hl _ (mem_plains h1) h2)).1
    omega
  | inRest h1 h2 h3 _ ih =>
    intro l' hl vs c hr
    obtain ⟨-, u, c', h⟩ := reads_unknown_mem hr _ _ rfl rfl _ (hl _ (mem_plains h1) h2)
    exact (ih hk).2 _ rfl _ _ h
  | occBoxed _ ih =>
    refine ⟨fun pre post vs c hn hr => ?_, fun _ h => by cases h⟩
    generalize hv : pre ++ _ :: post = vals at hr
    cases hr with
    | fieldBoxed hr => rw [← hv] at hr; exact (ih hk).1 _ _ _ _ hn hr
    | fieldSingle h => cases h
  | tooOften h =>
    refine ⟨fun pre post vs c hn hr => tooOften_no (hn ▸ h) hr, fun zc ht => ?_⟩
    subst ht
    cases h with | single h => rcases h with ⟨_, h⟩ | ⟨_, h⟩ | ⟨_, h⟩ | ⟨_, h⟩ | h | ⟨_, h⟩ <;> cases h
  | collectLimit h => cases hk
  | @occEach t e n p v d path k he _ ih =>
    refine ⟨fun pre post vs c hn hr => ?_, fun zc ht vs c hr => ?_⟩
    · obtain ⟨u, c', h⟩ := reads_field_each he hr
      exact ih hk _ _ h
    · subst ht; cases he; exact ih hk _ _ hr
  | elemPrim h =>
    intro vs c hr
    generalize LVal.plain _ = val at hr h
    cases hr with
    | elemPrim hr => exact primFault_no h hr
    | elemStruct h0 => exact absurd h0 (by simp [Ty.inStruct])
  | blobLimit => cases hk
  | elemBoxed _ ih =>
    intro vs c hr
    generalize hv : LVal.plain _ = val at hr
    cases hr with
    | elemBoxed hr => rw [← hv] at hr; exact ih hk _ _ hr
    | elemStruct h => cases h
  | @notBytes t p v d ht hv =>
    intro vs c hr
    have hv' : ∀ data, v.plain ≠ .blob data := fun data h => by cases v <;> simp [LVal.plain] at h <;> exact hv _ rfl
    generalize v.plain = val at hr hv'
    rcases ht with rfl | ⟨m, rfl⟩ | ⟨m, rfl⟩ <;> cases hr <;> first | exact hv' _ rfl | (rename_i h _; cases h)
  | arrayLength ht hn =>
    intro vs c hr
    simp only [LVal.plain] at hr
    rcases ht with rfl | rfl
    · cases hr with | elemSmall h => exact hn h
    · cases hr with | elemLarge h => exact hn h
  | @notStruct t p v d ht hv =>
    intro vs c hr
    have hv' : ∀ l, v.plain ≠ .struct l := fun l h => by cases v <;> simp [LVal.plain] at h <;> exact hv _ _ _ rfl
    generalize v.plain = val at hr hv'
    cases hr with
    | elemStruct => exact hv' _ rfl
    | elemDelegate h1 h2 => simp only [Ty.inStruct, h1, h2, Ty.isByte_eq] at ht; cases ht
    | elemVariant h1 => simp only [Ty.inStruct, h1, Ty.isByte_eq] at ht; cases ht
    | elemCatchAll h1 => simp only [Ty.inStruct, h1, Ty.isByte_eq] at ht; cases ht
    | _ => cases ht
  | elemStruct ht _ ih =>
    intro vs c hr
    simp only [LVal.plain] at hr
    cases hr with
    | elemStruct _ h => exact ih hk _ _ h
    | elemDelegate h1 h2 => simp only [Ty.inStruct, h1, h2, Ty.isByte_eq] at ht; cases ht
    | _ => cases ht
  | elemDelegateDeep hd ht h =>
    intro vs c hr
    generalize LVal.plain _ = val at hr
    cases hr with
    | elemDelegate _ _ h1 => omega
    | elemStruct h1 => simp only [Ty.inStruct, hd, ht, Ty.isByte_eq] at h1; cases h1
    | elemVariant h1 => rw [hd] at h1; cases h1
    | elemCatchAll h1 => rw [hd] at h1; cases h1
  | elemDelegate hd ht h _ ih =>
    intro vs c hr
    generalize hv : LVal.plain _ = val at hr
    cases hr with
    | elemDelegate h1 h2 _ _ h3 => rw [hd] at h1; cases h1; rw [ht] at h2; cases h2; rw [← hv] at h3; exact ih hk _ _ h3
    | elemStruct h1 => simp only [Ty.inStruct, hd, ht, Ty.isByte_eq] at h1; cases h1
    | elemVariant h1 => rw [hd] at h1; cases h1
    | elemCatchAll h1 => rw [hd] at h1; cases h1
  | elemRefused hd ht hu hc =>
    intro vs c hr
    generalize hv : LVal.plain _ = val at hr hu
    cases hr with
    | elemDelegate h1 h2 _ h4 h3 =>
      rw [hd] at h1; cases h1; rw [ht] at h2; cases h2
      rw [elem_det henv hwf hu h3, h4] at hc; cases hc
    | elemStruct h1 => simp only [Ty.inStruct, hd, ht, Ty.isByte_eq] at h1; cases h1
    | elemVariant h1 => rw [hd] at h1; cases h1
    | elemCatchAll h1 => rw [hd] at h1; cases h1
  | @notEnum i vs ca p v d hd hv =>
    intro vs c hr
    have hv' : ∀ disc l, v.plain ≠ .enum disc l := fun disc l h => by cases v <;> simp [LVal.plain] at h <;> exact hv _ _ _ _ rfl
    generalize v.plain = val at hr hv'
    cases hr with
    | elemDelegate h1 => rw [hd] at h1; cases h1
    | elemStruct h1 => simp only [Ty.inStruct, hd, Ty.isByte_eq] at h1; cases h1
    | elemVariant h1 => exact hv' _ _ rfl
    | elemCatchAll h1 => exact hv' _ _ rfl
  | unknownVariant hd hv =>
    intro vs c hr
    simp only [LVal.plain] at hr
    cases hr with
    | elemDelegate h1 => rw [hd] at h1; cases h1
    | elemVariant h1 h2 => rw [hd] at h1; cases h1; exact hv _ (List.mem_of_find?_eq_some h2) rfl
    | elemCatchAll h1 => rw [hd] at h1; cases h1
  | @elemVariant i vs ca b p disc s l e d path k hd hf _ ih =>
    intro us c hr
    have hb : b.Ok := by have := henv i; rw [hd] at this; exact this.1 _ (List.mem_of_find?_eq_some hf)
    have hbw : b.wf := by have := hwf i; rw [hd] at this; exact this.1 _ (List.mem_of_find?_eq_some hf)
    simp only [LVal.plain] at hr
    cases hr with
    | elemDelegate h1 => rw [hd] at h1; cases h1
    | elemVariant h1 h2 h3 => rw [hd] at h1; cases h1; rw [hf] at h2; cases h2; exact ih hk hb hbw _ _ h3
    | elemCatchAll h1 h2 => rw [hd] at h1; cases h1; exact h2 _ (List.mem_of_find?_eq_some hf) rfl
  | @elemCatchAll i vs b p disc s l e d path k hd hf _ ih =>
    intro us c hr
    have hb : b.Ok := by have := henv i; rw [hd] at this; exact this.2 _ rfl
    have hbw : b.wf := by have := hwf i; rw [hd] at this; exact this.2 _ rfl
    simp only [LVal.plain] at hr
    cases hr with
    | elemDelegate h1 => rw [hd] at h1; cases h1
    | elemVariant h1 h2 h3 => rw [hd] at h1; cases h1; exact hf _ (List.mem_of_find?_eq_some h2) rfl
    | elemCatchAll h1 h2 h3 => rw [hd] at h1; cases h1; exact ih hk hb hbw _ _ h3
  | unkBlobLimit => cases hk
  | unkStruct _ ih =>
    intro vs c hr
    simp only [LVal.plain] at hr
    cases hr with
    | elemStruct h => cases h
    | unkStruct h =>
      cases h with
      | bodyUnknown h => exact ih hk _ (fun x hx _ => hx) _ _ h
      | bodyWrapped h => cases h
  | unkEnum _ ih =>
    intro vs c hr
    simp only [LVal.plain] at hr
    cases hr with
    | unkEnum h =>
      cases h with
      | bodyUnknown h => exact ih hk _ (fun x hx _ => hx) _ _ h
      | bodyWrapped h => cases h

end

end Fourleaf
