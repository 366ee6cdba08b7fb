import Verif.BlameOps

/-! # Errors of the conversions of single values -/

namespace Fourleaf
open Spec Props

theorem Val.kind_head (v : Val) : v.head.kind = v.name := by cases v <;> rfl

/-- An error for a value which should be an integer. -/
def IntErr (v : Val) (e : Err) : Prop := ((∀ n, v ≠ .int n) ∧ e = .unexpectedType "Integer" v.name) ∨ ∃ n, v = .int n ∧ e = .integerOutOfRange

theorem toUnsigned_err {v : Val} {m : UInt64} {e : Err} (h : v.head.toUnsigned m = .error e) : IntErr v e := by
  cases v with
  | int n =>
    simp only [Val.head, Value.toUnsigned, Value.asInt] at h
    split at h
    · cases h; exact .inr ⟨n, rfl, rfl⟩
    · cases h
  | _ => cases h; exact .inl ⟨by simp, rfl⟩

theorem toSigned_err {v : Val} {lo hi : Int64} {e : Err} (h : v.head.toSigned lo hi = .error e) : IntErr v e := by
  cases v with
  | int n =>
    simp only [Val.head, Value.toSigned, Value.asInt] at h
    split at h
    · cases h; exact .inr ⟨n, rfl, rfl⟩
    · split at h
      · cases h; exact .inr ⟨n, rfl, rfl⟩
      · cases h
  | _ => cases h; exact .inl ⟨by simp, rfl⟩

theorem except_map_err {α β : Type} {x : Except Err α} {f : α → β} {e : Err} (h : x.map f = .error e) : x = .error e := by
  cases x with
  | error e' => cases h; rfl
  | ok a => cases h

theorem conv_err {k : IntTy} {v : Val} {e : Err} (h : k.conv v.head = .error e) : IntErr v e := by
  cases k <;> simp only [IntTy.conv, Value.toU8, Value.toU16, Value.toU32, Value.toU64, Value.toI8, Value.toI16, Value.toI32, Value.toI64] at h
  case u8 | u16 | u32 => exact toUnsigned_err (except_map_err (except_map_err h))
  case u64 | usize => exact toUnsigned_err (except_map_err h)
  case i8 | i16 | i32 => exact toSigned_err (except_map_err (except_map_err h))
  case i64 | isize => exact toSigned_err (except_map_err h)

theorem toNull_err {v : Val} {e : Err} (h : v.head.toNull = .error e) : IntErr v e := by
  cases v with
  | int n =>
    simp only [Val.head, Value.toNull, Value.asInt] at h
    split at h
    · cases h
    · cases h; exact .inr ⟨n, rfl, rfl⟩
  | _ => cases h; exact .inl ⟨by simp, rfl⟩

theorem toBool_err {v : Val} {e : Err} (h : v.head.toBool = .error e) : IntErr v e := by
  unfold Value.toBool at h
  cases h' : v.head.toU64 with
  | error e' => rw [h'] at h; cases h; exact toUnsigned_err h'
  | ok n =>
    rw [h'] at h
    cases v with
    | int m =>
      simp only at h
      split at h
      · cases h
      · split at h
        · cases h
        · cases h; exact .inr ⟨m, rfl, rfl⟩
    | _ => cases h'

theorem toBlob_err' {v : Val} {e : Err} (h : v.head.toBlob = .error e) : (∀ d, v ≠ .blob d) ∧ e = .unexpectedType "Blob" v.name := by
  cases v with
  | blob d => cases h
  | _ => cases h; exact ⟨by simp, rfl⟩

theorem toStruct_err {v : Val} {e : Err} (h : v.head.toStruct = .error e) : (∀ l, v ≠ .struct l) ∧ e = .unexpectedType "Struct" v.name := by
  cases v with
  | struct d => cases h
  | _ => cases h; exact ⟨by simp, rfl⟩

theorem toEnum_err {v : Val} {e : Err} (h : v.head.toEnum = .error e) : (∀ d l, v ≠ .enum d l) ∧ e = .unexpectedType "Enum" v.name := by
  cases v with
  | enum d l => cases h
  | _ => cases h; exact ⟨by simp, rfl⟩

section
variable {cfg : Config} {t : TS} {u : Stats} {c : Ctx} {f : Field} {D : Nat} {tag : Byte} {v : Val} {rest : List HTok} {B : List PathFrame → Kind → Prop}

/-- The value should be bytes, but is not. -/
def NotBytes (v : Val) (path : List PathFrame) (k : Kind) : Prop := path = [] ∧ (∀ d, v ≠ .blob d) ∧ k = .stream (.unexpectedType "Blob" v.name)

theorem ep_toBlob {α : Type} {g : Nat → P α} (hh : Hand f D tag v) (hm : Mid t D v rest) (h0 : ∀ path k, NotBytes v path k → B path k)
    (h : ∀ d, v = .blob d → t.cur = some d → EP c ((g d.length).abs (t, u)) B) :
    EP c ((Prog.bind (c.lift f.value.toBlob) g).abs (t, u)) B := by
  rw [hh.value]
  refine EP.bind (EP.lift fun e he => ?_) fun n st' hr => ?_
  · obtain ⟨h1, rfl⟩ := toBlob_err' he
    exact h0 _ _ ⟨rfl, h1, rfl⟩
  · cases v with
    | blob d => cases hr; exact h d rfl hm.here.2.2
    | _ => cases hr

theorem ep_extSlice (hh : Hand f D tag v) (hm : Mid t D v rest) : EP c ((extSlice c f).abs (t, u)) (NotBytes v) :=
  ep_toBlob hh hm (fun _ _ h => h) fun _ _ hcur => .call (exec_slice hcur)

theorem ep_blob {n : Nat} (hc : c.cfg = cfg) (hu : u.fits cfg) (h : B [] .maxBlobExceeded) : EP c ((c.blob n).abs (t, u)) B := by
  have hu1 := hu.2
  have e : (c.blob n).abs (t, u) = if cfg.maxBlob - u.blob < n then .err (.client ⟨.maxBlobExceeded, c.path⟩) (t, u)
      else .ok () (t, u + ⟨0, n⟩) := by
    simp only [Ctx.blob, Prog.abs]
    rw [hc, if_neg (by omega)]
    split <;> rfl
  rw [e]
  split
  · intro e st he; cases he; exact ⟨[], by simp, .inr h⟩
  · intro e st he; cases he

theorem ep_collect (hc : c.cfg = cfg) (hu : u.fits cfg) (h : B [] .maxCollectExceeded) : EP c ((c.collect 1).abs (t, u)) B := by
  have hu1 := hu.1
  have e : (c.collect 1).abs (t, u) = if cfg.maxCollect - u.collected < 1 then .err (.client ⟨.maxCollectExceeded, c.path⟩) (t, u)
      else .ok () (t, u + ⟨1, 0⟩) := by
    simp only [Ctx.collect, Prog.abs]
    rw [hc, if_neg (by omega)]
    split <;> rfl
  rw [e]
  split
  · intro e st he; cases he; exact ⟨[], by simp, .inr h⟩
  · intro e st he; cases he

/-- The errors of reading bytes into a buffer of their own. -/
def OwnedErr (v : Val) (path : List PathFrame) (k : Kind) : Prop := NotBytes v path k ∨ (path = [] ∧ (∃ d, v = .blob d) ∧ k = .maxBlobExceeded)

theorem ep_ownedBlob (hc : c.cfg = cfg) (hu : u.fits cfg) (hh : Hand f D tag v) (hm : Mid t D v rest) : EP c ((ownedBlob c f).abs (t, u)) (OwnedErr v) := by
  refine ep_toBlob hh hm (fun _ _ h => .inl h) fun d hd hcur => ?_
  refine EP.bind (ep_blob hc hu (.inr ⟨rfl, ⟨d, hd⟩, rfl⟩)) fun _ st' hr => ?_
  obtain ⟨cc, g1, g2, g3⟩ := (Sim.blob (t := t) (c := c) hc hu d.length).inv hr
  obtain ⟨t', u'⟩ := st'
  simp only at g2 g3; subst g3
  have hst : u' = u + ⟨0, d.length⟩ := by
    simp only [Ctx.blob, Prog.abs] at hr
    split at hr
    · cases hr
    · split at hr
      · cases hr
      · cases hr; rfl
  have hn : d.length ≤ c.cfg.maxBlob := by
    have := g2.2
    rw [hst, Stats.add_blob] at this; simp at this; rw [hc]; omega
  exact .call (exec_readFully hcur hn)

theorem ep_vecConv (hc : c.cfg = cfg) (hu : u.fits cfg) (hh : Hand f D tag v) (hm : Mid t D v rest) : EP c ((vecConv c f).abs (t, u)) (OwnedErr v) :=
  (ep_ownedBlob hc hu hh hm).bind fun _ _ _ => .ret

/-- The errors of reading an array of bytes. -/
def ArrErr (n : Nat) (v : Val) (path : List PathFrame) (k : Kind) : Prop := NotBytes v path k ∨ (path = [] ∧ (∃ d, v = .blob d ∧ d.length ≠ n) ∧ k = .invalidValueMsg)

theorem ep_arrConv (n : Nat) (hh : Hand f D tag v) (hm : Mid t D v rest) : EP c ((arrConv n c f).abs (t, u)) (ArrErr n v) := by
  refine ep_toBlob hh hm (fun _ _ h => .inl h) fun d hd hcur => ?_
  refine EP.bind (.call (exec_remaining hcur)) fun r st' hr => ?_
  have hr : Res.ok (ε := Stop DErr) d.length (t, u) = .ok r st' := by
    rw [← hr]; simp only [Ctx.call, Prog.abs, exec_remaining hcur]
  cases hr
  split
  · rename_i hn; exact .fail (.inr ⟨rfl, ⟨d, hd, hn⟩, rfl⟩)
  · rename_i hn
    simp only [ne_eq, Decidable.not_not] at hn
    refine EP.bind (.call (exec_readFully (t := t) hcur (by omega))) fun r st' hr => ?_
    have hr : Res.ok (ε := Stop DErr) d ({ t with pos := t.pos + d.length, cur := some [] }, u) = .ok r st' := by
      rw [← hr]; simp only [Ctx.call, Prog.abs, exec_readFully (t := t) (n := n) hcur (by omega)]
    cases hr
    rw [if_neg (by omega)]
    exact .ret

theorem ep_prim (p : Prim) (hc : c.cfg = cfg) (hu : u.fits cfg) (hh : Hand f D tag v) (hm : Mid t D v rest) :
    EP c ((p.conv c f).abs (t, u)) (fun path k => path = [] ∧ (PrimFault p v k ∨ (p = .string ∧ (∃ d, v = .blob d) ∧ k = .maxBlobExceeded))) := by
  have hint : ∀ {e : Err}, IntErr v e → (p = .phantom ∨ p = .bool ∨ (∃ k, p = .int k) ∨ p = .char) →
      (∀ n, v = .int n → PrimFault p (.int n) (.stream .integerOutOfRange)) → PrimFault p v (.stream e) := by
    intro e he hp hn
    rcases he with ⟨h1, rfl⟩ | ⟨n, rfl, rfl⟩
    · exact .notInt hp h1
    · exact hn n rfl
  cases p with
  | phantom =>
    refine EP.bind (EP.lift fun e he => ?_) fun _ _ _ => .ret
    rw [hh.value] at he
    refine ⟨rfl, .inl (hint (toNull_err he) (.inl rfl) fun n hn => .phantom fun h0 => ?_)⟩
    subst hn h0
    rw [toNull_iff (u := ()) |>.2 rfl] at he; cases he
  | bool =>
    refine EP.bind (EP.lift fun e he => ?_) fun _ _ _ => .ret
    rw [hh.value] at he
    refine ⟨rfl, .inl (hint (toBool_err he) (.inr (.inl rfl)) fun n hn => .bool (fun h0 => ?_) fun h0 => ?_)⟩
    · subst hn h0
      rw [(toBool_iff (v := .int 0) (b := false)).2 rfl] at he; cases he
    · subst hn h0
      rw [(toBool_iff (v := .int 1) (b := true)).2 rfl] at he; cases he
  | int k =>
    refine EP.bind (EP.lift fun e he => ?_) fun _ _ _ => .ret
    rw [hh.value] at he
    refine ⟨rfl, .inl (hint (conv_err he) (.inr (.inr (.inl ⟨k, rfl⟩))) fun n hn => .int fun i h1 h2 h3 => ?_)⟩
    rw [lift_int_iff.2 ⟨n, hn, h1, h2, h3⟩] at he; cases he
  | char =>
    refine EP.bind (EP.lift fun e he => ?_) fun n st' hr => ?_
    · rw [hh.value] at he
      refine ⟨rfl, .inl (hint (toUnsigned_err (except_map_err he)) (.inr (.inr (.inr rfl))) fun n hn => .charRange ?_)⟩
      apply Classical.byContradiction
      intro hlt
      rw [toU32_iff (n := UInt32.ofNat n.toNat) |>.2 ?_] at he
      · cases he
      · rw [hn, UInt32.toNat_ofNat_of_lt' (by simp [UInt32.size]; omega)]; simp
    · rw [hh.value] at hr
      cases hn : v.head.toU32 with
      | error e => rw [hn] at hr; cases hr
      | ok m =>
        rw [hn] at hr; cases hr
        have hv := toU32_iff.1 hn
        cases hch : charFromU32 n with
        | some ch => exact .ret
        | none =>
          have hlt := UInt32.toNat_lt n
          refine .fail ⟨rfl, .inl ?_⟩
          rw [hv]
          have e : (UInt64.ofNat n.toNat).toNat = n.toNat := u64nat (by omega)
          refine .char (by rw [e]; omega) fun ch h => ?_
          rw [e] at h
          have : n = ch.val := UInt32.toNat_inj.1 h
          rw [char_iff.2 this] at hch; cases hch
  | string =>
    refine ((ep_ownedBlob hc hu hh hm).mono fun path k h => ?_).bind fun d st' hr => ?_
    · rcases h with ⟨h1, h2, rfl⟩ | ⟨h1, h2, rfl⟩
      · exact ⟨h1, .inl (.notBlob (.inl rfl) h2)⟩
      · exact ⟨h1, .inr ⟨rfl, h2, rfl⟩⟩
    · obtain ⟨cc, g1, -, -⟩ := (sim_ownedBlob hc hh hm hu).inv hr
      obtain ⟨rfl, -⟩ := bytes_ret.1 g1
      cases hs : fromUtf8 d with
      | some s => exact .ret
      | none =>
        refine .fail ⟨rfl, .inl (.utf8 (.inl rfl) fun s h => ?_)⟩
        rw [utf8_iff.2 h] at hs; cases hs
  | strRef =>
    refine ((ep_extSlice hh hm).mono fun path k h => ?_).bind fun d st' hr => ?_
    · obtain ⟨h1, h2, rfl⟩ := h
      exact ⟨h1, .inl (.notBlob (.inr (.inl rfl)) h2)⟩
    · obtain ⟨cc, g1, -, -⟩ := (sim_extSlice hh hm hu).inv hr
      obtain ⟨rfl, -⟩ := bytes_ret.1 g1
      cases hs : fromUtf8 d with
      | some s => exact .ret
      | none =>
        refine .fail ⟨rfl, .inl (.utf8 (.inr rfl) fun s h => ?_)⟩
        rw [utf8_iff.2 h] at hs; cases hs
  | bytesRef =>
    refine ((ep_extSlice hh hm).mono fun path k h => ?_).bind fun d st' hr => .ret
    obtain ⟨h1, h2, rfl⟩ := h
    exact ⟨h1, .inl (.notBlob (.inr (.inr rfl)) h2)⟩

/-- After a conversion whose outcome does not matter. -/
theorem ep_discard {α β : Type} {q : P β} {k : Kind} (h : B [] k) : EP c ((discard q c k : P α).abs (t, u)) B := by
  intro e st he
  unfold discard at he
  simp only [Prog.abs, Ctx.fail] at he
  cases hq : q.abs (t, u) with
  | ok a st' => rw [hq] at he; cases he; exact ⟨[], by simp, .inr h⟩
  | err e' st' =>
    rw [hq] at he
    cases e' with
    | client e' => cases he; exact ⟨[], by simp, .inr h⟩
    | abort s => cases he

end

end Fourleaf
