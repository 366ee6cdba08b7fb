import Verif.PropsDefault
import Verif.PropsLayout
import Verif.PropsReads
import Verif.PropsEnum
import Verif.PropsCompat
import Verif.PropsGrace

/-! # The message of `()`, wherever it occurs, is not read strictly -/

namespace Fourleaf.Props
open Fourleaf Spec

theorem occ_append (tag : Byte) (a b : Fields) : occ tag (a ++ b) = occ tag a ++ occ tag b := by
  simp [occ_eq]

theorem occ_map_other {tag g : Byte} (h : g ≠ tag) (vals : List Val) : occ tag (vals.map (g, ·)) = [] := by
  apply occ_nil
  intro x hx
  obtain ⟨v, -, rfl⟩ := List.mem_map.1 hx
  exact h

/-- The tags of the fields of declared fields are the declared ones. -/
theorem fields_tags {env : Env} : ∀ (ds : List FieldDecl) (vs : List V) (l : Fields), Layout env (.fields ds vs l) → ∀ x ∈ l, x.1 ∈ ds.map (·.tag)
  | [], _, _, h => by cases h; intro x hx; cases hx
  | d :: ds, _, _, h => by
    cases h with
    | fieldsCons h1 h2 =>
      intro x hx
      rcases List.mem_append.1 hx with hx | hx
      · obtain ⟨v, -, rfl⟩ := List.mem_map.1 hx
        exact List.mem_cons_self
      · exact List.mem_cons_of_mem _ (fields_tags ds _ _ h2 x hx)

theorem isWrapped_not {env : Env} {t : Ty} (h : t.isWrapped env = true) : (∀ ts, t ≠ .tuple ts) ∧ (∀ t', t ≠ .boxed t') ∧ (∀ zc, t ≠ .unknownFields zc) ∧
    ∀ i b, t = .named i → env.decl i ≠ .struct b := by
  refine ⟨?_, ?_, ?_, ?_⟩
  · rintro ts rfl; cases h
  · rintro ts rfl; cases h
  · rintro ts rfl; cases h
  · rintro i b rfl hd; simp [Ty.isWrapped, hd] at h

theorem layout_wrapped {env : Env} {t : Ty} (ht : t.isWrapped env = true) {v : V} {l : Fields} (h : Layout env (.body t v l)) :
    ∃ vals, l = vals.map (fun val => (1, val)) ∧ Layout env (.field t v vals) := by
  obtain ⟨n1, n2, n3, n4⟩ := isWrapped_not ht
  cases h with
  | bodyTuple => exact absurd rfl (n1 _)
  | bodyStruct hd => exact absurd hd (n4 _ _ rfl)
  | bodyUnknown => exact absurd rfl (n3 _)
  | bodyOther _ h => exact ⟨_, rfl, h⟩
  | bodyUnit => exact absurd rfl (n1 _)
  | bodyPointer => exact absurd rfl (n2 _)

theorem reads_wrapped {env : Env} {cfg : Config} {t : Ty} (ht : t.isWrapped env = true) {d : Nat} {l : Fields} {vs : List V} {c : Stats}
    (h : Reads env cfg (.body t) d [.struct l] vs c) : ∃ d' v c', Reads env cfg (.field t) d' (occ 1 l) [v] c' := by
  obtain ⟨n1, n2, n3, n4⟩ := isWrapped_not ht
  cases h with
  | bodyBoxed => exact absurd rfl (n2 _)
  | bodyTuple => exact absurd rfl (n1 _)
  | bodyUnknown => exact absurd rfl (n3 _)
  | bodyStruct hd => exact absurd hd (n4 _ _ rfl)
  | bodyWrapped _ _ _ h => exact ⟨_, _, _, h⟩

theorem isColl_wrapped {env : Env} {t : Ty} (h : t.isColl = true) : t.isWrapped env = true := by
  cases t <;> first | rfl | (simp [Ty.isColl] at h)

theorem layout_coll {env : Env} {t : Ty} (ht : t.isColl = true) {v : V} {val : Val} (h : Layout env (.element t v val)) :
    ∃ vals, val = .struct (vals.map fun x => (1, x)) ∧ Layout env (.field t v vals) := by
  cases h with
  | elementCollection _ h => exact ⟨_, rfl, h⟩
  | elementMap h => exact ⟨_, rfl, h⟩
  | elementBytes hb => cases hb <;> simp [Ty.isColl, Ty.isU8] at ht
  | _ => simp [Ty.isColl] at ht

theorem reads_coll {env : Env} {cfg : Config} {t : Ty} (ht : t.isColl = true) {d : Nat} {val : Val} {vs : List V} {c : Stats}
    (h : Reads env cfg (.elem t) d [val] vs c) : ∃ l, val = .struct l ∧ Reads env cfg (.body t) d [.struct l] vs c := by
  cases h with
  | elemStruct _ h => exact ⟨_, rfl, h⟩
  | elemVec | elemSmall | elemLarge => simp [Ty.isColl, Ty.isU8] at ht
  | _ => simp [Ty.isColl] at ht

/-- What a configuration which reports unknown fields does with the message of a value: if it is read at all then the value does not contain `()` in the place of a message. -/
def Strictly (env : Env) (cfg : Config) (it : Item) (vs : List V) (k : Need) : Prop :=
  match it with
  | .body t => ∀ v l d us c, vs = [v] → Layout env (.body t v l) → Reads env cfg (.body t) d [.struct l] us c → k.lenient = false
  | .field t => ∀ v vals d us c, vs = [v] → Layout env (.field t v vals) → Reads env cfg (.field t) d vals us c → k.lenient = false
  | .elem t => ∀ v val d us c, vs = [v] → Layout env (.element t v val) → Reads env cfg (.elem t) d [val] us c → k.lenient = false
  | .each t => ∀ vals d us c, Layout env (.each t vs vals) → Reads env cfg (.each t) d vals us c → k.lenient = false
  | .fields ds => FieldsOk ds → ∀ l L d us c, Layout env (.fields ds vs l) → (∀ x ∈ ds, occ x.tag L = occ x.tag l) → Reads env cfg (.fields ds) d [.struct L] us c →
      k.lenient = false
  | .parts b => b.Ok → ∀ l d us c, Layout env (.parts b vs l) → Reads env cfg (.parts b) d [.struct l] us c → k.lenient = false
  | .unknown _ _ => k.lenient = false

theorem unknowns_other {env : Env} {known : List Byte} {zc : Bool} : ∀ (l : Fields) {es : List V} {k : Need}, Needs env (.unknown known zc) es k → es = asUnknowns l →
    ∀ x ∈ l, x.1 ∉ known
  | [], _, _, _, _ => fun x hx => by cases hx
  | (g, v) :: l, es, k, h, he => by
    cases h with
    | unknownNil => simp [asUnknowns] at he
    | unknownCons _ hn _ h' =>
      simp only [asUnknowns, List.cons.injEq, V.seq.injEq, V.num.injEq, and_true] at he
      obtain ⟨⟨h1, -⟩, h2⟩ := he
      have h1 : _ = g := UInt8.toNat_inj.1 (Int.ofNat.inj h1)
      subst h1
      intro x hx
      rcases List.mem_cons.1 hx with rfl | hx
      · exact hn
      · exact unknowns_other l h' h2 x hx

theorem Strictly.of_strict {env : Env} {cfg : Config} {it : Item} {vs : List V} {k : Need} (h : k.lenient = false) : Strictly env cfg it vs k := by
  cases it with
  | body => exact fun _ _ _ _ _ _ _ _ => h
  | field => exact fun _ _ _ _ _ _ _ _ => h
  | elem => exact fun _ _ _ _ _ _ _ _ => h
  | each => exact fun _ _ _ _ _ _ => h
  | fields => exact fun _ _ _ _ _ _ _ _ _ => h
  | parts => exact fun _ _ _ _ _ _ _ => h
  | unknown => exact h

theorem struct_ok {env : Env} (henv : env.Ok) {i : Nat} {b : Body} (h : env.decl i = .struct b) : b.Ok := by
  have := henv i; rw [h] at this; exact this
theorem variant_ok {env : Env} (henv : env.Ok) {i : Nat} {variants ca} (h : env.decl i = .enum variants ca) : (∀ x ∈ variants, x.2.Ok) ∧ ∀ b, ca = some b → b.Ok := by
  have := henv i; rw [h] at this; exact this

theorem strictly {env : Env} (henv : env.Ok) {cfg : Config} (hc : cfg.ignoreUnknownFields = false) {it : Item} {vs : List V} {k : Need} (h : Needs env it vs k) :
    Strictly env cfg it vs k := by
  induction h with
  | bodyBoxed _ ih =>
    intro v l d us c hv hl hr
    cases hl with
    | bodyOther hn => cases hn <;> rename_i h <;> cases h
    | bodyPointer hl =>
      cases hr with
      | bodyBoxed hr => exact ih v l d us c hv hl hr
      | bodyWrapped h => cases h
  | bodyUnit =>
    intro v l d us c hv hl hr
    cases hl with
    | bodyTuple h => exact absurd rfl h
    | bodyOther hn => cases hn <;> rename_i h <;> cases h
    | bodyUnit =>
      cases hr with
      | bodyTuple _ hi =>
        rcases hi with hi | hi
        · rw [hc] at hi; cases hi
        · have := hi (1, .struct []) (by simp)
          simp [components] at this
      | bodyWrapped h => cases h
  | bodyTuple hne hlen _ ih =>
    intro v l d us c hv hl hr
    cases hv
    cases hl with
    | bodyTuple _ hl =>
      cases hr with
      | bodyTuple _ _ hr => exact ih (tupleFields_ok hlen) l l d _ c hl (fun _ _ => rfl) hr
      | bodyWrapped h => cases h
    | bodyOther hn => cases hn <;> rename_i h <;> cases h
    | bodyUnit => exact absurd rfl hne
  | bodyUnknown hn ih => intro v l d us c hv hl hr; exact ih
  | bodyStruct hd _ ih =>
    intro v l d us c hv hl hr
    cases hv
    cases hl with
    | bodyStruct hd' hl =>
      rw [hd] at hd'; cases hd'
      cases hr with
      | bodyStruct hd' hr =>
        rw [hd] at hd'; cases hd'
        exact ih (struct_ok henv hd) l d _ c hl hr
      | bodyWrapped h => simp [Ty.isWrapped, hd] at h
    | bodyOther hn =>
      cases hn with
      | enum h => rw [hd] at h; cases h
      | bytes h => cases h
      | collection h => cases h
  | bodyWrapped ht _ ih =>
    intro v l d us c hv hl hr
    obtain ⟨vals, rfl, hl'⟩ := layout_wrapped ht hl
    obtain ⟨d', u, c', hr⟩ := reads_wrapped ht hr
    rw [occ_map] at hr
    exact ih v vals d' _ c' hv hl' hr
  | fieldBoxed _ ih =>
    intro v vals d us c hv hl hr
    cases hl with
    | fieldCollection h => cases h
    | fieldOne h => cases h <;> rename_i h <;> cases h
    | fieldPointer hl =>
      cases hr with
      | fieldBoxed hr => exact ih v vals d us c hv hl hr
      | fieldSingle h => cases h
  | fieldSingle ht hn ih =>
    intro v vals d us c hv hl hr
    cases hl with
    | fieldCollection h => cases h <;> simp_all [Ty.isSingle]
    | fieldMap => cases ht
    | fieldPointer => cases ht
    | fieldOne _ hl =>
      cases hr with
      | fieldSingle _ hr => exact ih v _ d _ c hv hl hr
      | fieldNoBytesL =>
        cases hn with
        | elemLarge => rfl
        | elemColl h => cases h
      | fieldBoxed => cases ht
      | fieldVec h => rw [Ty.isByte_eq] at h; simp [Ty.isSingle, h] at ht
      | fieldSmall h => rw [Ty.isByte_eq] at h; simp [Ty.isSingle, h] at ht
      | fieldLarge h => rw [Ty.isByte_eq] at h; simp [Ty.isSingle, h] at ht
      | _ => cases ht
  | fieldVec he _ ih =>
    rw [Ty.isByte_eq] at he
    intro v vals d us c hv hl hr
    cases hv
    cases hl with
    | fieldCollection h hl =>
      cases h
      cases hr with
      | fieldSingle h => simp [Ty.isSingle, he] at h
      | fieldVec _ hr => exact ih _ _ _ _ hl hr
    | fieldOne h => cases h with | bytes h => cases h; cases he
  | fieldSmall he _ _ ih =>
    rw [Ty.isByte_eq] at he
    intro v vals d us c hv hl hr
    cases hv
    cases hl with
    | fieldCollection h hl =>
      cases h
      cases hr with
      | fieldSingle h => simp [Ty.isSingle, he] at h
      | fieldNoBytes => cases he
      | fieldSmall _ _ hr => exact ih _ _ _ _ hl hr
    | fieldOne h => cases h with | bytes h => cases h; cases he
  | fieldLarge he _ _ ih =>
    rw [Ty.isByte_eq] at he
    intro v vals d us c hv hl hr
    cases hv
    cases hl with
    | fieldCollection h hl =>
      cases h
      cases hr with
      | fieldSingle h => simp [Ty.isSingle, he] at h
      | fieldNoBytesL => cases he
      | fieldLarge _ _ hr => exact ih _ _ _ _ hl hr
    | fieldOne h => cases h with | bytes h => cases h; cases he
  | fieldList _ ih =>
    intro v vals d us c hv hl hr
    cases hv
    cases hl with
    | fieldCollection h hl =>
      cases h
      cases hr with
      | fieldSingle h => cases h
      | fieldList hr => exact ih _ _ _ _ hl hr
    | fieldOne h => cases h with | bytes h => cases h
  | fieldSet _ _ ih =>
    intro v vals d us c hv hl hr
    cases hv
    cases hl with
    | fieldCollection h hl =>
      cases h
      cases hr with
      | fieldSingle h => cases h
      | fieldSet hr => exact ih _ _ _ _ hl hr
    | fieldOne h => cases h with | bytes h => cases h
  | fieldOption _ _ ih =>
    intro v vals d us c hv hl hr
    cases hv
    cases hl with
    | fieldCollection h hl =>
      cases h
      cases hr with
      | fieldSingle h => cases h
      | fieldOption _ hr => exact ih _ _ _ _ hl hr
    | fieldOne h => cases h with | bytes h => cases h
  | fieldMap _ _ ih =>
    intro v vals d us c hv hl hr
    cases hv
    cases hl with
    | fieldCollection h => cases h
    | fieldMap hl =>
      cases hl with
      | fieldCollection h hl =>
        cases h
        cases hr with
        | fieldSingle h => cases h
        | fieldMap hr => exact ih _ _ _ _ hl hr
      | fieldOne h => cases h with | bytes h => cases h
    | fieldOne h => cases h with | bytes h => cases h
  | elemPrim _ | elemVec _ | elemSmall _ _ | elemLarge _ _ | elemUnit | unkInt | unkBlob _ | eachNil => exact .of_strict rfl
  | unknownNil => rfl
  | fieldsNil => exact .of_strict rfl
  | elemBoxed _ ih =>
    intro v val d us c hv hl hr
    cases hl with
    | elementCollection h => cases h
    | elementBytes h => cases h
    | elementPointer hl =>
      cases hr with
      | elemBoxed hr => exact ih v val d us c hv hl hr
      | elemStruct h => cases h
  | elemColl ht _ ih =>
    intro v val d us c hv hl hr
    obtain ⟨vals, rfl, hl'⟩ := layout_coll ht hl
    obtain ⟨l, h, hr⟩ := reads_coll ht hr
    cases h
    obtain ⟨d', u, c', hr⟩ := reads_wrapped (isColl_wrapped ht) hr
    rw [occ_map] at hr
    exact ih v vals d' _ c' hv hl' hr
  | elemTuple hne _ ih =>
    intro v val d us c hv hl hr
    cases hl with
    | elementCollection h => cases h
    | elementBytes h => cases h
    | elementTuple _ hl =>
      cases hr with
      | elemStruct _ hr => exact ih v _ d _ c hv hl hr
    | elementUnit => exact absurd rfl hne
  | elemUnknown hn _ => exact .of_strict (unknown_strict hn ⟨_, .inl rfl⟩)
  | elemStruct hd ht _ ih =>
    intro v val d us c hv hl hr
    cases hl with
    | elementCollection h => cases h
    | elementBytes h => cases h
    | elementStruct _ _ hl =>
      cases hr with
      | elemStruct _ hr => exact ih v _ d _ c hv hl hr
      | elemDelegate h1 h2 => rw [hd] at h1; cases h1; rw [h2] at ht; cases ht
    | elementDelegate h1 h2 => rw [hd] at h1; cases h1; rw [h2] at ht; cases ht
    | elementVariant h => rw [hd] at h; cases h
    | elementCatchAll h => rw [hd] at h; cases h
  | elemDelegate hd ht _ _ _ ih =>
    intro v val d us c hv hl hr
    obtain rfl : _ = v := List.cons.inj hv |>.1
    generalize hw : V.seq _ = w at hl
    cases hl with
    | elementCollection h => cases h
    | elementBytes h => cases h
    | elementVariant h => rw [hd] at h; cases h
    | elementCatchAll h => rw [hd] at h; cases h
    | elementStruct h1 h2 => rw [hd] at h1; cases h1; rw [ht] at h2; cases h2
    | elementDelegate h1 h2 hl =>
      cases hw
      rw [hd] at h1; cases h1; rw [ht] at h2; cases h2
      cases hr with
      | elemStruct h => simp [Ty.inStruct, hd, ht] at h
      | elemDelegate h1 h2 _ _ hr =>
        rw [hd] at h1; cases h1; rw [ht] at h2; cases h2
        exact ih _ val _ _ c rfl hl hr
      | elemVariant h => rw [hd] at h; cases h
      | elemCatchAll h => rw [hd] at h; cases h
  | elemVariant hd hf _ ih =>
    intro v val d us c hv hl hr
    cases hv
    cases hl with
    | elementCollection h => cases h
    | elementStruct h => rw [hd] at h; cases h
    | elementVariant h1 h2 hl =>
      rw [hd] at h1; cases h1; rw [hf] at h2; cases h2
      cases hr with
      | elemDelegate h => rw [hd] at h; cases h
      | elemVariant h1 h2 hr =>
        rw [hd] at h1; cases h1; rw [hf] at h2; cases h2
        exact ih ((variant_ok henv hd).1 _ (List.mem_of_find?_eq_some hf)) _ _ _ _ hl hr
      | elemCatchAll h1 h2 =>
        rw [hd] at h1; cases h1
        exact absurd rfl (h2 _ (List.mem_of_find?_eq_some hf))
    | elementCatchAll h1 h2 =>
      rw [hd] at h1; cases h1
      exact absurd rfl (h2 _ (List.mem_of_find?_eq_some hf))
  | elemCatchAll hd hf _ ih =>
    intro v val d us c hv hl hr
    cases hv
    cases hl with
    | elementCollection h => cases h
    | elementStruct h => rw [hd] at h; cases h
    | elementVariant h1 h2 =>
      rw [hd] at h1; cases h1
      exact absurd rfl (hf _ (List.mem_of_find?_eq_some h2))
    | elementCatchAll h1 h2 hl =>
      rw [hd] at h1; cases h1
      cases hr with
      | elemDelegate h => rw [hd] at h; cases h
      | elemVariant h1 h2 =>
        rw [hd] at h1; cases h1
        exact absurd rfl (hf _ (List.mem_of_find?_eq_some h2))
      | elemCatchAll h1 h2 hr =>
        rw [hd] at h1; cases h1
        exact ih ((variant_ok henv hd).2 _ rfl) _ _ _ _ hl hr
  | unkStruct hn _ | unkEnum hn _ => exact .of_strict (unknown_strict hn ⟨_, .inl rfl⟩)
  | eachCons _ _ ih1 ih2 =>
    intro vals d us c hl hr
    cases hl with
    | eachCons hl1 hl2 =>
      cases hr with
      | eachCons hr1 hr2 =>
        have h1 := ih1 _ _ _ _ _ rfl hl1 hr1
        have h2 := ih2 _ _ _ _ hl2 hr2
        simp [Need.seq, h1, h2]
  | fieldsCons _ _ ih1 ih2 =>
    intro hok l L d us c hl hL hr
    obtain ⟨ho1, ho2⟩ := hok
    simp only [List.map_cons, List.nodup_cons] at ho2
    cases hl with
    | fieldsCons hl1 hl2 =>
      cases hr with
      | fieldsCons _ hr1 hr2 =>
        rw [hL _ List.mem_cons_self, occ_append, occ_map, occ_nil, List.append_nil] at hr1
        · have h1 := ih1 _ _ _ _ _ rfl hl1 hr1
          have h2 := ih2 ⟨fun x hx => ho1 x (List.mem_cons_of_mem _ hx), ho2.2⟩ _ L _ _ _ hl2 (fun x hx => by
            rw [hL x (List.mem_cons_of_mem _ hx), occ_append, occ_map_other, List.nil_append]
            exact fun he => ho2.1 (he ▸ List.mem_map_of_mem hx)) hr2
          simp [Need.seq, Need.nest, h1, h2]
        · intro x hx he
          exact ho2.1 (he ▸ fields_tags _ _ _ hl2 x hx)
  | partsPlain ht _ _ ih =>
    intro hok l d us c hl hr
    cases hl with
    | partsPlain _ hl =>
      cases hr with
      | partsPlain _ _ _ hr => exact ih hok _ _ _ _ _ hl (fun _ _ => rfl) hr
      | partsDelegate h => rw [ht] at h; cases h
      | partsUnknown h => rw [ht] at h; cases h
    | partsDelegate h => rw [ht] at h; cases h
    | partsUnknown h => rw [ht] at h; cases h
  | partsDelegate ht hf _ _ ih =>
    intro hok l d us c hl hr
    generalize hvs : [_] = vs at hl
    cases hl with
    | partsPlain h => rw [ht] at h; cases h
    | partsDelegate h hl1 hl2 =>
      rw [ht] at h; cases h
      rw [hf] at hl1
      cases hl1
      cases hvs
      cases hr with
      | partsPlain h => rw [ht] at h; cases h
      | partsDelegate h _ _ hr =>
        rw [ht] at h; cases h
        exact ih _ _ _ _ _ rfl hl2 hr
      | partsUnknown h => rw [ht] at h; cases h
    | partsUnknown h => rw [ht] at h; cases h
  | partsUnknown ht _ _ hn ih1 ih2 =>
    intro hok l d us c hl hr
    generalize hvs : _ ++ [_] = vs at hl
    cases hl with
    | partsPlain h => rw [ht] at h; cases h
    | partsDelegate h => rw [ht] at h; cases h
    | @partsUnknown _ _ _ _ l1 l2 h hl =>
      obtain ⟨rfl, h'⟩ := List.append_inj' hvs rfl
      cases h'
      cases hr with
      | partsPlain h => rw [ht] at h; cases h
      | partsDelegate h => rw [ht] at h; cases h
      | partsUnknown _ _ _ hr =>
        have h1 := ih1 hok _ _ _ _ _ hl (fun x hx => by
          rw [occ_append, occ_nil (l := l2), List.append_nil]
          exact fun y hy he => unknowns_other _ hn rfl y hy (he ▸ List.mem_map_of_mem hx)) hr
        have h2 : _ = false := ih2
        simp [Need.seq, Need.nest, Need.zero, h1, h2]
  | unknownCons h1 h2 h3 h4 ih1 ih2 =>
    exact unknown_strict (.unknownCons h1 h2 h3 h4) ⟨_, .inr (.inr ⟨_, rfl⟩)⟩

mutual
theorem fieldsToks_body : ∀ (l : Fields) {l' : Fields} {ts : List Tok}, BodyOf l' ts → BodyOf (l ++ l') (fieldsToks l ++ ts)
  | [], _, _, h => h
  | (g, v) :: l, l', ts, h => by
    rw [fieldsToks, List.append_assoc]
    exact toks_body g v (fieldsToks_body l h)
theorem toks_body (g : Byte) : ∀ (v : Val) {l' : Fields} {ts : List Tok}, BodyOf l' ts → BodyOf ((g, v) :: l') (v.toks g ++ ts)
  | .int _, _, _, h => .int h
  | .blob _, _, _, h => .blob h
  | .struct l, _, _, h => by
    have := fieldsToks_body l .nil
    rw [List.append_nil] at this
    simp only [Val.toks, List.cons_append]
    exact .struct this h
  | .enum _ l, _, _, h => by
    have := fieldsToks_body l .nil
    rw [List.append_nil] at this
    simp only [Val.toks, List.cons_append]
    exact .enum this h
end

/-- The fields which are written are the documented ones. -/
theorem written_layout {env : Env} {t : Ty} {v : V} {cs : List WCall} {l : Fields} (h : SerializesBody env t v cs) (hw : WritesBody cs l) : Layout env (.body t v l) := by
  obtain ⟨l', h1, h2⟩ := (c80_methods env t v).1 cs h
  have h3 := fieldsToks_body l' .nil
  rw [List.append_nil, ← h2] at h3
  have hv : ∀ t ∈ callToks cs, t.Valid := by
    intro t ht
    obtain ⟨c, hc, ht⟩ := List.mem_flatMap.1 ht
    exact hw.valid c hc t ht
  obtain ⟨h7, -⟩ : l = l' ∧ _ := Message.unique (r := []) (r' := []) hw.message (message_canon h3 hv) rfl
  exact h7 ▸ h1

/-- **C78** (a) What `to_vec` wrote for a value is read back, under any configuration, if and only if the value has at most `recursion_limit` levels of nesting, `max_collect` elements of
collections and `max_blob` copied bytes, all in all, and either unknown fields are ignored or the value nowhere has `()` in the place of a message (as the whole message, or as what a struct or variant delegates to;
`()` as a field or element is no such place). Otherwise the error names a limit which the value exceeds, or an unknown field, and then the value has such a `()` and unknown fields are not ignored. -/
theorem c78_exact (env : Env) (henv : env.Ok) (hwf : env.wf) (t : Ty) (ht : t.wf false = true) (v : V) (k : Need) (h : HasType env t v k) :
    ∃ cs, ToStream env t v cs ∧ (∀ cs', ToStream env t v cs' → cs' = cs) ∧
      ∀ cfg, ∀ (r : Stream) (tail : List Byte), Over r (canonToks (callToks cs) ++ tail) → r.pos + (canonToks (callToks cs) ++ tail).length < U64MAX →
        let fits := FitsIn k cfg.recursionLimit cfg.maxCollect cfg.maxBlob ∧ (k.lenient = true → cfg.ignoreUnknownFields = true)
        ((∃ st, (deserialize env t cfg).run (r, .zero) = .ok v st) ↔ fits) ∧
        (¬ fits → ∃ e st, (deserialize env t cfg).run (r, .zero) = .err (.client e) st ∧
          (e.kind = .recursionLimitExceeded ∧ cfg.recursionLimit < k.depth ∨ e.kind = .maxCollectExceeded ∧ cfg.maxCollect < k.used.collected ∨
            e.kind = .maxBlobExceeded ∧ cfg.maxBlob < k.used.blob ∨ (∃ tag pos, e.kind = .unknownField tag pos) ∧ k.lenient = true ∧ cfg.ignoreUnknownFields = false)) := by
  obtain ⟨cs0, l, h4, h5, h6⟩ := tree_roundtrip henv h
  have hlay := written_layout h4 h5
  refine ⟨cs0 ++ [.commit], ⟨cs0, h4, rfl⟩, ?_, fun cfg r tail hr hroom => ?_⟩
  · rintro _ ⟨b, h7, rfl⟩; rw [serializesBody_unique h7 h4]
  rw [callToks_commit] at hr hroom
  have hi := hr.fresh.inv
  have key : ∀ c, k.Within c → ∃ r', (deserialize env t c).run (r, .zero) = .ok v (r', k.used) ∧ Behind r r' (canonToks (callToks cs0)) tail :=
    fun c hc => de_ok env t _ h5.message hr hroom (h6 _ hc).1 (h6 _ hc).2
  let big : Config := ⟨max cfg.recursionLimit k.depth, cfg.ignoreUnknownFields || k.lenient, max cfg.maxBlob k.used.blob, max cfg.maxCollect k.used.collected⟩
  have hle : cfg.Le big := ⟨Nat.le_max_left _ _, Nat.le_max_left _ _, Nat.le_max_left _ _, fun h => by simp [big, h]⟩
  obtain ⟨r', hb, hbehind⟩ := key big ⟨Nat.le_max_right _ _, Nat.le_max_right _ _, Nat.le_max_right _ _, fun h => by simp [big, h]⟩
  intro fits
  have hiff : (∃ st, (deserialize env t cfg).run (r, .zero) = .ok v st) ↔ fits := by
    refine ⟨fun ⟨st, hrun⟩ => ?_, fun hf => ?_⟩
    · have hst := c53_value_stable env t cfg big hle r hi v st hrun
      rw [hb] at hst
      cases hst
      obtain ⟨a, -⟩ := (c35_bounded env hwf t ht cfg r hi).1 _ _ _ hrun
      obtain ⟨b, -⟩ := (c36_bounded env hwf t ht cfg r hi).1 _ _ _ hrun
      obtain ⟨k', hk', hd⟩ := (c37_bounded env t cfg r hi).2 hwf ht _ _ hrun
      rw [Needs.unique hk' h] at hd
      refine ⟨⟨hd, a, b⟩, fun hl => ?_⟩
      cases hc : cfg.ignoreUnknownFields with
      | true => rfl
      | false =>
        exfalso
        have hrun1 := strict_run ((deserialize_plain env t cfg).mono fun o h => by cases o <;> trivial) hi hrun (fun _ => hbehind.over.fresh.eof)
        have hr1 : Over r.strict (canonToks (callToks cs0) ++ tail) := ⟨⟨hr.fresh.pos, hr.fresh.eof, hr.fresh.commit, hr.fresh.live⟩, hr.benign, hr.within, hr.rest, hr.room⟩
        obtain ⟨close, l', a', rest, e1, e2, e3, e4, -⟩ := c68_sound env henv hwf t ht cfg r.strict _ hr1 rfl hroom v _ _ hrun1
        have hdoc : IsDoc (decide (2 ≤ r.strict.depth)) .struct l (canonToks (callToks cs0)) := by
          obtain ⟨ts, g1, g2⟩ := h5.message
          exact ⟨ts, g1.document.2 _, g2⟩
        obtain ⟨-, rfl, -⟩ := c68_one _ _ _ _ _ _ _ _ _ hdoc e2 (by intro h; cases h) e3 e1
        have := strictly henv hc h v l 0 _ _ rfl hlay e4
        rw [hl] at this; cases this
    · obtain ⟨r'', h7, -⟩ := key cfg ⟨hf.1.1, hf.1.2.1, hf.1.2.2, hf.2⟩
      exact ⟨_, h7⟩
  refine ⟨hiff, fun hn => ?_⟩
  rcases c53_limits_only_reject env t cfg big hle r hi with h7 | ⟨e, st, h7, h8⟩ | ⟨e, st, st', h7, h8⟩
  · rw [hb] at h7
    exact absurd (hiff.1 ⟨_, h7⟩) hn
  · refine ⟨e, st, h7, ?_⟩
    generalize e.kind = kk at h8
    cases h8 with
    | depth h => exact .inl ⟨rfl, by simp only [big] at h; omega⟩
    | collect h => exact .inr (.inl ⟨rfl, by simp only [big] at h; omega⟩)
    | blob h => exact .inr (.inr (.inl ⟨rfl, by simp only [big] at h; omega⟩))
    | unknown h h' =>
      simp only [big, h, Bool.false_or] at h'
      exact .inr (.inr (.inr ⟨⟨_, _, rfl⟩, h', h⟩))
  · rw [hb] at h8; cases h8

/-- **C49** (c) With `ignore_unknown_fields = false` and limits that suffice, exactly the values which nowhere have `()` in the place of a message are read back; all others fail with `UnknownField`. -/
theorem c49_exact (env : Env) (henv : env.Ok) (hwf : env.wf) (t : Ty) (ht : t.wf false = true) (v : V) (k : Need) (h : HasType env t v k) :
    ∃ cs, ToStream env t v cs ∧ ∀ cfg, cfg.ignoreUnknownFields = false → FitsIn k cfg.recursionLimit cfg.maxCollect cfg.maxBlob →
      ∀ (r : Stream) (tail : List Byte), Over r (canonToks (callToks cs) ++ tail) → r.pos + (canonToks (callToks cs) ++ tail).length < U64MAX →
        ((∃ st, (deserialize env t cfg).run (r, .zero) = .ok v st) ↔ k.lenient = false) ∧
        (k.lenient = true → ∃ e st tag pos, (deserialize env t cfg).run (r, .zero) = .err (.client e) st ∧ e.kind = .unknownField tag pos) := by
  obtain ⟨cs, h1, -, h2⟩ := c78_exact env henv hwf t ht v k h
  refine ⟨cs, h1, fun cfg hc hf r tail hr hroom => ?_⟩
  obtain ⟨h3, h4⟩ := h2 cfg r tail hr hroom
  refine ⟨h3.trans ⟨fun h => ?_, fun h => ⟨hf, fun h' => by rw [h] at h'; cases h'⟩⟩, fun hl => ?_⟩
  · cases hl : k.lenient with
    | false => rfl
    | true => have := h.2 hl; rw [hc] at this; cases this
  · obtain ⟨e, st, h5, h6⟩ := h4 fun h => by have := h.2 hl; rw [hc] at this; cases this
    obtain ⟨f1, f2, f3⟩ := hf
    rcases h6 with h6 | h6 | h6 | ⟨⟨tag, pos, h6⟩, -⟩
    · omega
    · omega
    · omega
    · exact ⟨e, st, tag, pos, h5, h6⟩

/-! ### Examples -/

/-- `enum E { 1 => Stop((*)), 2 => Go { 1 => n } }` where `Stop` delegates to `()`. -/
def exStop : Env where
  decl
    | 0 => .enum [(1, ⟨[], .delegate "u" (.tuple []), fun _ => true⟩), (2, ⟨[⟨1, "n", .prim (.int .u8)⟩], .plain, fun _ => true⟩)] none
    | _ => .struct ⟨[], .plain, fun _ => true⟩
  size := 10
  bound := by
    intro i t ht
    match i with
    | 0 => revert t; decide
    | _ + 1 => cases ht

theorem exStop_ok : exStop.Ok := by
  intro i
  match i with
  | 0 =>
    refine ⟨?_, fun b h => by cases h⟩
    intro x hx
    rcases List.mem_cons.1 hx with rfl | hx
    · show FieldsOk _; decide
    · cases List.mem_singleton.1 hx; show FieldsOk _; decide
  | _ + 1 => show FieldsOk _; decide

theorem exStop_wf : exStop.wf := by
  intro i
  match i with
  | 0 =>
    refine ⟨?_, fun b h => by cases h⟩
    intro x hx
    rcases List.mem_cons.1 hx with rfl | hx
    · exact ⟨by decide, fun name t h => by cases h; exact ⟨rfl, by decide⟩⟩
    · cases List.mem_singleton.1 hx; exact ⟨by decide, fun name t h => by cases h⟩
  | _ + 1 => exact ⟨by decide, fun name t h => by cases h⟩

/-- `(E::Stop(()),)` has two levels, and has `()` in the place of a message. -/
theorem exStop_type : ∃ k, HasType exStop (.tuple [.named 0]) (.seq [.variant 1 [.seq []]]) k ∧ k.depth = 2 ∧ k.used = .zero ∧ k.lenient = true := by
  refine ⟨_, .bodyTuple (by simp) (by decide) (.fieldsCons (d := ⟨1, _, .named 0⟩) (.fieldSingle rfl (.elemVariant (b := ⟨[], .delegate "u" (.tuple []), fun _ => true⟩) rfl ?_ (.partsDelegate rfl rfl rfl .bodyUnit))) .fieldsNil), ?_⟩
  · rfl
  · decide

/-- So it is read back with `recursion_limit = 2` if unknown fields are ignored, and not otherwise. -/
example : ∃ cs, ToStream exStop (.tuple [.named 0]) (.seq [.variant 1 [.seq []]]) cs ∧ ∀ (ignore : Bool) (r : Stream), Over r (canonToks (callToks cs) ++ []) → r.pos + (canonToks (callToks cs) ++ []).length < U64MAX →
    ((∃ st, (deserialize exStop (.tuple [.named 0]) ⟨2, ignore, 0, 0⟩).run (r, .zero) = .ok (.seq [.variant 1 [.seq []]]) st) ↔ ignore = true) := by
  obtain ⟨k, h1, h2, h3, h4⟩ := exStop_type
  obtain ⟨cs, h5, -, h6⟩ := c78_exact exStop exStop_ok exStop_wf _ (by decide) _ k h1
  refine ⟨cs, h5, fun ignore r hr hroom => ((h6 ⟨2, ignore, 0, 0⟩ r [] hr hroom).1).trans ?_⟩
  simp [FitsIn, h2, h3, h4, Stats.zero]

/-- The message, and what comes of reading it: the field of `()` is reported, at its position. -/
example : (match (deserialize exStop (.tuple [.named 0]) ⟨2, false, 0, 0⟩).run (Stream.fromSlice (canonToks [.enum 1 1, .struct 1, .endStruct, .endStruct, .endStruct]), .zero) with
    | .err (.client e) _ => decide (e.kind = .unknownField 1 2) | _ => false) = true := by decide +kernel
example : (match (deserialize exStop (.tuple [.named 0]) ⟨2, true, 0, 0⟩).run (Stream.fromSlice (canonToks [.enum 1 1, .struct 1, .endStruct, .endStruct, .endStruct]), .zero) with
    | .ok v _ => decide (v = .seq [.variant 1 [.seq []]]) | _ => false) = true := by decide +kernel

end Fourleaf.Props
