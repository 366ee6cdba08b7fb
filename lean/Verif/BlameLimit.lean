import Verif.DeTop

/-! # What a message can use up of the limits -/

namespace Fourleaf
open Spec Props

mutual
/-- The number of fields in a value, at all levels. -/
def Val.fieldCount : Val → Nat
  | .int _ | .blob _ => 0
  | .struct fs | .enum _ fs => fieldCounts fs
def fieldCounts : List (Byte × Val) → Nat
  | [] => 0
  | x :: fs => oneCount x + fieldCounts fs
def oneCount : Byte × Val → Nat
  | (_, v) => 1 + v.fieldCount
end

mutual
/-- The number of bytes in blobs, at all levels. -/
def Val.blobBytes : Val → Nat
  | .int _ => 0
  | .blob d => d.length
  | .struct fs | .enum _ fs => blobBytess fs
def blobBytess : List (Byte × Val) → Nat
  | [] => 0
  | x :: fs => oneBlobBytes x + blobBytess fs
def oneBlobBytes : Byte × Val → Nat
  | (_, v) => v.blobBytes
end

/-- The errors about limits of what is stored. -/
def Kind.limited : Kind → Bool
  | .maxCollectExceeded | .maxBlobExceeded => true
  | _ => false

/-- Whatever the outcome, at most this is used up, and the error is not about the limits. -/
structure Within {α : Type} (m : PM α) (a b : Nat) : Prop where
  ok : ∀ r c, m = .ret r c → c.collected ≤ a ∧ c.blob ≤ b
  err : ∀ k c, m = .fail k c → c.collected ≤ a ∧ c.blob ≤ b
  kind : ∀ k c, m = .fail k c → k.limited = false

namespace Within
variable {α β : Type} {a b a' b' : Nat}

theorem ret {r : α} : Within (.ret r) a b :=
  ⟨fun _ _ h => by obtain ⟨-, rfl⟩ := PM.ret_inj h; simp [Stats.zero], fun _ _ h => absurd h PM.ret_ne_fail, fun _ _ h => absurd h PM.ret_ne_fail⟩
theorem retc {r : α} {c : Stats} (h1 : c.collected ≤ a) (h2 : c.blob ≤ b) : Within (.ret r c) a b :=
  ⟨fun _ _ h => by obtain ⟨-, rfl⟩ := PM.ret_inj h; exact ⟨h1, h2⟩, fun _ _ h => absurd h PM.ret_ne_fail, fun _ _ h => absurd h PM.ret_ne_fail⟩
theorem fail {k : Kind} (hk : k.limited = false := by rfl) : Within (.fail k : PM α) a b :=
  ⟨fun _ _ h => absurd h PM.fail_ne_ret, fun _ _ h => by obtain ⟨-, rfl⟩ := PM.fail_inj h; simp [Stats.zero], fun _ _ h => by obtain ⟨rfl, -⟩ := PM.fail_inj h; exact hk⟩
theorem mono {m : PM α} (h : Within m a b) (h1 : a ≤ a') (h2 : b ≤ b') : Within m a' b' :=
  ⟨fun r c e => by have := h.ok r c e; omega, fun k c e => by have := h.err k c e; omega, h.kind⟩
theorem bind {m : PM α} {f : α → PM β} (h : Within m a b) (hf : ∀ r, Within (f r) a' b') : Within (PM.bind m f) (a + a') (b + b') := by
  refine ⟨fun r c e => ?_, fun k c e => ?_, fun k c e => ?_⟩
  · obtain ⟨x, c1, c2, h1, h2, rfl⟩ := PM.bind_eq_ret e
    have := h.ok _ _ h1; have := (hf x).ok _ _ h2
    rw [Stats.add_collected, Stats.add_blob]; omega
  · rcases PM.bind_eq_fail e with h1 | ⟨x, c1, c2, h1, h2, rfl⟩
    · have := h.err _ _ h1; omega
    · have := h.ok _ _ h1; have := (hf x).err _ _ h2
      rw [Stats.add_collected, Stats.add_blob]; omega
  · rcases PM.bind_eq_fail e with h1 | ⟨x, c1, c2, h1, h2, rfl⟩
    · exact h.kind _ _ h1
    · exact (hf x).kind _ _ h2
/-- Then nothing more is used up. -/
theorem andThen {m : PM α} {f : α → PM β} (h : Within m a b) (hf : ∀ r, Within (f r) 0 0) : Within (PM.bind m f) a b := (h.bind hf).mono (by omega) (by omega)
/-- Nothing is used up before. -/
theorem before {m : PM α} {f : α → PM β} (h : Within m 0 0) (hf : ∀ r, Within (f r) a b) : Within (PM.bind m f) a b := (h.bind hf).mono (by omega) (by omega)
theorem push {cfg : Config} {d : Nat} : Within (pPush cfg d) 0 0 := by
  unfold pPush; split
  · exact fail
  · exact ret
theorem lift {x : Except Err α} : Within (PM.lift x) a b := by
  cases x with
  | ok a => exact ret
  | error e => exact fail
theorem collect : Within pCollect 1 0 := .retc (Nat.le_refl _) (Nat.le_refl _)
end Within

theorem within_bytes {v : Val} {cost : Nat → Stats} (hc : ∀ n, (cost n).collected = 0 ∧ (cost n).blob ≤ n) : Within (v.bytes cost) 0 v.blobBytes := by
  cases v with
  | blob d => exact .retc (by rw [(hc _).1]; exact Nat.le_refl _) (by simpa only [Val.blobBytes] using (hc _).2)
  | _ => exact (Within.fail : Within (PM.fail (.stream _)) _ _)

theorem within_prim (p : Prim) (v : Val) : Within (p.read v) 0 v.blobBytes := by
  have h0 : ∀ n, (noCost n).collected = 0 ∧ (noCost n).blob ≤ n := fun n => ⟨rfl, Nat.zero_le _⟩
  have h1 : ∀ n, (blobCost n).collected = 0 ∧ (blobCost n).blob ≤ n := fun n => ⟨rfl, Nat.le_refl _⟩
  cases p with
  | phantom => exact Within.lift.andThen fun _ => .ret
  | bool => exact Within.lift.andThen fun _ => .ret
  | int k => exact Within.lift.andThen fun _ => .ret
  | char => exact Within.lift.andThen fun n => by cases charFromU32 n <;> first | exact .fail | exact .ret
  | string => exact (within_bytes h1).andThen fun n => by cases fromUtf8 n <;> first | exact .fail | exact .ret
  | strRef => exact (within_bytes h0).andThen fun n => by cases fromUtf8 n <;> first | exact .fail | exact .ret
  | bytesRef => exact (within_bytes h0).andThen fun n => .ret

theorem within_arr (n : Nat) (v : Val) : Within (readArr n v) 0 v.blobBytes :=
  (within_bytes fun n => ⟨rfl, Nat.zero_le _⟩).andThen fun d => by split <;> first | exact .fail | exact .ret

theorem within_vec (v : Val) : Within (readVec v) 0 v.blobBytes := (within_bytes fun n => ⟨rfl, Nat.le_refl _⟩).andThen fun d => .ret

/-- What the methods use up. -/
structure WOps (o : POps) : Prop where
  body : ∀ t d l, Within (o.body t d l) (fieldCounts l) (blobBytess l)
  field : ∀ t x d tag v, Within (o.field t x d tag v) (1 + v.fieldCount) v.blobBytes
  element : ∀ t d tag v, Within (o.element t d tag v) v.fieldCount v.blobBytes
  unary : ∀ t x d tag v, ((∃ p, t = .prim p) ∨ ∃ zc, t = .unknownField zc) → Within (o.field t x d tag v) v.fieldCount v.blobBytes
  finish : ∀ t x d, Within (o.finish t x d) 0 0

section
variable {cfg : Config} {o : POps} (H : WOps o)
include H

theorem within_step (fs : List FieldDecl) (unk : Option Bool) (d : Nat) (st : LoopSt) (tag : Byte) (v : Val) :
    Within (pFieldStep cfg o fs unk d st tag v) (1 + v.fieldCount) v.blobBytes := by
  unfold pFieldStep
  cases fs.findIdx? (fun x => decide (x.tag = tag)) with
  | some i =>
    simp only
    cases fs[i]? with
    | none => exact .ret
    | some x => exact Within.push.before fun d' => (H.field _ _ _ _ _).andThen fun _ => .ret
  | none =>
    cases unk with
    | some zc => exact Within.push.before fun d' => (H.field _ _ _ _ _).andThen fun _ => .ret
    | none =>
      simp only
      split
      · exact .ret
      · exact .fail

theorem within_loop (fs : List FieldDecl) (unk : Option Bool) (d : Nat) : ∀ (l : Fields) (st : LoopSt), Within (pLoop cfg o fs unk d st l) (fieldCounts l) (blobBytess l)
  | [], _ => .ret
  | (tag, v) :: l, st => by
    rw [pLoop, fieldCounts, oneCount, blobBytess, oneBlobBytes]
    exact (within_step H fs unk d st tag v).bind fun st' => within_loop fs unk d l st'

theorem within_finishAll (d : Nat) (st : LoopSt) : ∀ (fs : List FieldDecl) (i : Nat), Within (pFinishAll cfg o d st i fs) 0 0
  | [], _ => .ret
  | x :: xs, i => Within.push.before fun d' => (H.finish _ _ _).before fun v => (within_finishAll d st xs (i + 1)).before fun vs => .ret

theorem within_struct (fs : List FieldDecl) (d : Nat) (l : Fields) : Within (pStruct cfg o fs d l) (fieldCounts l) (blobBytess l) :=
  (within_loop H fs none d l .init).andThen fun st => within_finishAll H d st fs 0

theorem within_default (t : Ty) (d : Nat) (l : Fields) : Within (pDefault cfg o t d l) (fieldCounts l) (blobBytess l) := (within_struct H _ d l).andThen fun _ => .ret

omit H in
theorem within_construct (b : Body) (vs : List V) : Within (pConstruct b vs) 0 0 := by
  unfold pConstruct; split
  · exact .ret
  · exact .fail

theorem within_macro (b : Body) (d : Nat) (l : Fields) : Within (pMacro cfg o b d l) (fieldCounts l) (blobBytess l) := by
  unfold pMacro
  cases b.tail with
  | plain => exact (within_loop H _ none d l .init).andThen fun st => (within_finishAll H d st _ 0).before fun vs => within_construct b vs
  | delegate name t => exact Within.push.before fun d' => (H.body t d' l).andThen fun v => (within_finishAll H d _ _ 0).before fun vs => within_construct b _
  | unknown name zc =>
    exact (within_loop H _ (some zc) d l .init).andThen fun st => (within_finishAll H d st _ 0).before fun vs => Within.push.before fun d' =>
      (H.finish _ _ _).before fun v => within_construct b _

theorem within_body (env : Env) (t : Ty) (d : Nat) (l : Fields) : Within (pBody env cfg o t d l) (fieldCounts l) (blobBytess l) := by
  cases t with
  | boxed t => exact H.body t d l
  | tuple ts => exact (within_struct H _ d l).andThen fun _ => .ret
  | unknownFields zc => exact (within_loop H _ (some zc) d l .init).andThen fun st => H.finish _ _ _
  | named i =>
    simp only [pBody]
    cases env.decl i with
    | struct b => exact (within_macro H b d l).andThen fun _ => .ret
    | enum _ _ => exact within_default H _ d l
  | _ => exact within_default H _ d l

theorem within_via (t : Ty) (d : Nat) (v : Val) : Within (pViaStruct o t d v) v.fieldCount v.blobBytes := by
  cases v with
  | struct l => rw [Val.fieldCount, Val.blobBytes]; exact H.body t d l
  | _ => rw [show pViaStruct o t d _ = PM.fail _ from rfl]; exact .fail

theorem within_enum (vs : List (UInt64 × Body)) (ca : Option Body) (d : Nat) (v : Val) : Within (pEnum cfg o vs ca d v) v.fieldCount v.blobBytes := by
  cases v with
  | enum disc l =>
    rw [Val.fieldCount, Val.blobBytes]
    unfold pEnum
    simp only
    cases vs.find? (fun x => decide (x.1 = disc)) with
    | some x => exact (within_macro H _ d l).andThen fun _ => .ret
    | none =>
      cases ca with
      | some b => exact (within_macro H _ d l).andThen fun _ => .ret
      | none => exact .fail
  | _ => exact (Within.fail : Within (PM.fail (.stream _)) _ _)

theorem within_element (env : Env) (t : Ty) (d : Nat) (tag : Byte) (v : Val) : Within (pElement env cfg o t d tag v) v.fieldCount v.blobBytes := by
  cases t with
  | prim p => exact (H.unary _ _ _ _ _ (.inl ⟨p, rfl⟩)).andThen fun _ => H.finish _ _ _
  | unknownField p => exact (H.unary _ _ _ _ _ (.inr ⟨p, rfl⟩)).andThen fun _ => H.finish _ _ _
  | boxed t => exact H.element _ _ _ _
  | small n e | large n e =>
    simp only [pElement]; split
    · exact ((within_arr n v).andThen fun _ => .ret).mono (Nat.zero_le _) (Nat.le_refl _)
    · exact within_via H _ _ _
  | vec e =>
    simp only [pElement]; split
    · exact ((within_vec v).andThen fun _ => .ret).mono (Nat.zero_le _) (Nat.le_refl _)
    · exact within_via H _ _ _
  | tuple _ => exact within_via H _ _ _
  | coll _ _ => exact within_via H _ _ _
  | option _ => exact within_via H _ _ _
  | map _ _ => exact within_via H _ _ _
  | unknownFields _ => exact within_via H _ _ _
  | named i =>
    simp only [pElement]
    cases env.decl i with
    | enum vs ca => exact within_enum H vs ca d v
    | struct b =>
      simp only
      cases b.tail with
      | plain => exact within_via H _ _ _
      | unknown _ _ => exact within_via H _ _ _
      | delegate name t =>
        exact Within.push.before fun d' => (H.element _ _ _ _).andThen fun u => (within_construct b _).before fun _ => .ret

theorem within_unary (t : Ty) (x : Acc) (d : Nat) (tag : Byte) (v : Val) (ht : (∃ p, t = .prim p) ∨ ∃ zc, t = .unknownField zc) :
    Within (pField o t x d tag v) v.fieldCount v.blobBytes := by
  rcases ht with ⟨p, rfl⟩ | ⟨zc, rfl⟩
  · simp only [pField]; split
    · exact .fail
    · exact ((within_prim p v).andThen fun _ => .ret).mono (Nat.zero_le _) (Nat.le_refl _)
  · simp only [pField]; split
    · exact .fail
    · cases v with
      | int n => exact .ret
      | blob d => exact (H.element _ _ _ _).andThen fun _ => .ret
      | struct l => rw [Val.fieldCount, Val.blobBytes]; exact (H.body _ _ _).andThen fun _ => .ret
      | enum disc l => rw [Val.fieldCount, Val.blobBytes]; exact (H.body _ _ _).andThen fun _ => .ret

theorem within_field (t : Ty) (x : Acc) (d : Nat) (tag : Byte) (v : Val) : Within (pField o t x d tag v) (1 + v.fieldCount) v.blobBytes := by
  have hel : ∀ (e : Ty) (g : V → Acc), Within (PM.bind (o.element e d tag v) fun u => .ret (g u)) (1 + v.fieldCount) v.blobBytes := fun e g =>
    ((H.element e d tag v).andThen fun _ => .ret).mono (by omega) (Nat.le_refl _)
  have hcol : ∀ (e : Ty) (g : V → Acc), Within (PM.bind pCollect fun _ => PM.bind (o.element e d tag v) fun u => .ret (g u)) (1 + v.fieldCount) v.blobBytes := fun e g =>
    (Within.collect.bind fun _ => (H.element e d tag v).andThen fun _ => .ret).mono (Nat.le_refl _) (by omega)
  have harr : ∀ (n : Nat) (g : List V → PM Acc), (∀ vs, Within (g vs) 0 0) → Within (PM.bind (readArr n v) g) (1 + v.fieldCount) v.blobBytes := fun n g hg =>
    ((within_arr n v).andThen hg).mono (by omega) (Nat.le_refl _)
  cases t with
  | prim p => exact (within_unary H _ x d tag v (.inl ⟨p, rfl⟩)).mono (by omega) (Nat.le_refl _)
  | unknownField p => exact (within_unary H _ x d tag v (.inr ⟨p, rfl⟩)).mono (by omega) (Nat.le_refl _)
  | boxed t => exact H.field _ _ _ _ _
  | small n e =>
    simp only [pField]; split
    · split
      · exact .fail
      · exact harr n _ fun _ => .ret
    · split
      · exact .fail
      · split
        · exact .fail
        · exact hel _ _
  | large n e =>
    simp only [pField]; split
    · refine harr n _ fun _ => ?_
      split
      · exact .fail
      · exact .ret
    · split
      · exact .fail
      · exact hel _ _
  | tuple _ | named _ | option _ =>
    simp only [pField]; split
    · exact .fail
    · exact hel _ _
  | vec e =>
    simp only [pField]; split
    · split
      · exact .fail
      · exact ((within_vec v).andThen fun _ => .ret).mono (by omega) (Nat.le_refl _)
    · exact hcol _ _
  | coll k e => exact hcol _ _
  | map k w => exact hcol _ _
  | unknownFields zc => exact hcol _ _

theorem within_finish (t : Ty) (x : Acc) (d : Nat) : Within (pFinish o t x d) 0 0 := by
  cases t with
  | boxed t => exact H.finish _ _ _
  | prim _ | tuple _ | named _ | unknownField _ =>
    simp only [pFinish]
    cases x.items with
    | nil => exact .fail
    | cons v _ => exact .ret
  | small n e =>
    simp only [pFinish]; split
    · exact .ret
    · split
      · split <;> exact .fail
      · exact .ret
  | large n e =>
    simp only [pFinish]; split
    · split <;> exact .fail
    · exact .ret
  | vec e =>
    simp only [pFinish]; split
    · exact .fail
    · exact .ret
  | _ => exact .ret
end

theorem pops_within (env : Env) (cfg : Config) : ∀ n, WOps (pops env cfg n)
  | 0 => ⟨fun _ _ _ => .fail, fun _ _ _ _ _ => .fail, fun _ _ _ _ => .fail, fun _ _ _ _ _ _ => .fail, fun _ _ _ => .fail⟩
  | n + 1 => ⟨within_body (pops_within env cfg n) env, within_field (pops_within env cfg n), within_element (pops_within env cfg n) env, within_unary (pops_within env cfg n),
      within_finish (pops_within env cfg n)⟩

/-- A limit is exceeded only by what the message contains. -/
theorem limits_real {env : Env} {t : Ty} {cfg : Config} {l : Fields} {m tail : List Byte} {rest : List Tok} {s : Stream} (hm : Message l m)
    (hr : EncToks rest tail) (hs : Over s (m ++ tail)) (hroom : s.pos + (m ++ tail).length < U64MAX) {e : DErr} {st : PSt Stats}
    (h : (deserialize env t cfg).run (s, .zero) = .err (.client e) st) :
    (e.kind = .maxCollectExceeded → cfg.maxCollect < fieldCounts l) ∧ (e.kind = .maxBlobExceeded → cfg.maxBlob < blobBytess l) := by
  have hW := (pops_within env cfg (stackNeed env t cfg)).body t 0 l
  have hex : ∀ c : Stats, c.collected ≤ fieldCounts l ∧ c.blob ≤ blobBytess l → e.kind.exceeds cfg c →
      (e.kind = .maxCollectExceeded → cfg.maxCollect < fieldCounts l) ∧ (e.kind = .maxBlobExceeded → cfg.maxBlob < blobBytess l) := by
    rintro c ⟨h1, h2⟩ (⟨h3, h4⟩ | ⟨h3, h4⟩)
    · exact ⟨fun _ => by omega, fun h => by rw [h3] at h; cases h⟩
    · exact ⟨fun h => by (rw [h3] at h; cases h), fun _ => by omega⟩
  have hno : ∀ k c, deTree env t cfg l = .fail k c → k ≠ .maxCollectExceeded ∧ k ≠ .maxBlobExceeded := fun k c h =>
    ⟨fun e => (by have := hW.kind k c h; rw [e] at this; cases this), fun e => (by have := hW.kind k c h; rw [e] at this; cases this)⟩
  rcases (deTree env t cfg l).cases with ⟨v, c, hd⟩ | ⟨k, c, hd⟩
  · by_cases hf : c.fits cfg
    · obtain ⟨s', h1, -⟩ := de_ok_toks env t cfg hm hr hs hroom hd hf
      rw [h1] at h; cases h
    · obtain ⟨e', st', h1, h2⟩ := de_over_toks env t cfg hm hr hs hroom hd hf
      rw [h1] at h; cases h
      exact hex c (hW.ok v c hd) h2
  · obtain ⟨e', st', h1, h2⟩ := de_err_toks env t cfg hm hr hs hroom hd
    rw [h1] at h; cases h
    rcases h2 with h2 | h2
    · obtain ⟨n1, n2⟩ := hno k c hd
      exact ⟨fun h3 => by rw [h3] at h2; exact absurd h2.symm n1, fun h3 => by rw [h3] at h2; exact absurd h2.symm n2⟩
    · exact hex c (hW.err k c hd) h2

end Fourleaf
