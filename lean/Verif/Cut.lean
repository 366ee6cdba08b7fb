import Verif.Junk

/-! # Documents that are cut off by an end-of-document element, or contain exceptions

The run of a deserialiser on any sequence of elements is compared with the run on a sequence of elements in which every struct is closed and there are no exceptions. -/

namespace Fourleaf
open Spec

/-- Number of bytes of the elements. -/
def wt : List HTok → Nat
  | [] => 0
  | (h, k) :: ts => h + ((contentOf k).getD []).length + wt ts

theorem wt_append (a b : List HTok) : wt (a ++ b) = wt a + wt b := by
  induction a with
  | nil => simp [wt]
  | cons x a ih => obtain ⟨h, k⟩ := x; simp only [List.cons_append, wt, ih]; omega

theorem EncH.wt {hs : List HTok} {bs : List Byte} (h : EncH hs bs) : bs.length = wt hs := by
  induction h with
  | nil => rfl
  | cons _ h1 _ ih => simp only [Fourleaf.wt, List.length_append]; omega

/-- What is left to read. -/
def TS.rem (t : TS) : Nat := (t.cur.getD []).length + wt t.toks

/-- The position advances by what is read. -/
structure AdvT (t t' : TS) : Prop where
  total : t'.pos + t'.rem = t.pos + t.rem
  mono : t.pos ≤ t'.pos

theorem AdvT.refl (t : TS) : AdvT t t := ⟨rfl, Nat.le_refl _⟩
theorem AdvT.trans {a b c : TS} (h : AdvT a b) (h' : AdvT b c) : AdvT a c := ⟨h'.total.trans h.total, Nat.le_trans h.mono h'.mono⟩

namespace TS
theorem flush_adv (t : TS) : AdvT t t.flush := by
  constructor <;> simp [TS.flush, rem] <;> omega

theorem dropPads_wt (p : Nat) (l : List HTok) : p ≤ (dropPads p l).1 ∧ (dropPads p l).1 + wt (dropPads p l).2 = p + wt l := by
  induction l generalizing p with
  | nil => simp [dropPads]
  | cons a l ih =>
    obtain ⟨hh, k⟩ := a
    unfold dropPads
    split
    · rename_i hk; subst hk
      have := ih (p + hh)
      simp [wt, contentOf]; omega
    · simp

theorem unpad_adv (t : TS) : AdvT t t.unpad := by
  have := dropPads_wt t.pos t.toks
  constructor <;> simp [TS.unpad, rem] <;> omega

theorem readElement_adv (t : TS) (hc : t.cur = none) : AdvT t (readElement t).state := by
  unfold readElement
  split
  · split
    · exact ⟨rfl, Nat.le_refl _⟩
    · exact .refl _
  · rename_i hh k ts htk
    constructor <;> simp [rem, htk, hc, wt] <;> omega

theorem nextElement_adv (t : TS) : AdvT t (nextElement t).state := by
  unfold nextElement
  split
  · exact .refl _
  · exact (flush_adv t).trans (readElement_adv _ rfl)

theorem take_adv (n : Nat) {c : List Byte} {t : TS} (hc : t.cur = some c) : AdvT t (take n c t).state := by
  constructor <;> simp [take, rem, hc] <;> omega

theorem exec_adv {β : Type} (o : Op β) (t : TS) : AdvT t (exec o t).state := by
  have ob : ∀ {α : Type} (f : List Byte → M Err TS α), (∀ c, t.cur = some c → AdvT t (f c t).state) → AdvT t (onBlob f t).state := by
    intro α f h
    unfold onBlob
    split
    · rename_i c hc; exact h c hc
    · exact .refl _
  cases o with
  | nextField =>
    show AdvT t (nextField t).state
    unfold nextField
    split
    · exact .refl _
    · have h1 := ((flush_adv t).trans (unpad_adv _)).trans (readElement_adv t.flush.unpad rfl)
      cases hr : readElement t.flush.unpad with
      | err e t' => rw [hr] at h1; exact h1
      | ok e t' =>
        rw [hr] at h1
        cases e with
        | exception n =>
          dsimp only
          unfold onBlob
          cases hc : t'.cur with
          | none => exact h1
          | some c => exact h1.trans (take_adv 256 hc)
        | _ => exact h1
  | nextElement => exact nextElement_adv t
  | skipUp d =>
    show AdvT t (skipUpLoop d (t.toks.length + 2) t).state
    generalize t.toks.length + 2 = fuel
    induction fuel generalizing t with
    | zero => exact .refl _
    | succ fuel ih =>
      unfold skipUpLoop
      split
      · rw [M.bind_apply]
        have := nextElement_adv t
        cases hn : nextElement t with
        | ok e t' => rw [hn] at this; exact this.trans (ih t' (fun f h => by
            unfold onBlob
            split
            · rename_i c hc; exact h c hc
            · exact .refl _))
        | err e t' => rw [hn] at this; exact this
      · exact .refl _
  | commit => exact flush_adv t
  | clearEof => exact ⟨rfl, Nat.le_refl _⟩
  | eof => exact .refl _
  | pos => exact .refl _
  | structDepth => exact .refl _
  | readFully max =>
    show AdvT t (onBlob (fun c t => if c.length > max then .err (.largeBlob max c.length) t else take c.length c t) t).state
    exact ob _ fun c hc => by
      split
      · exact .refl _
      · exact take_adv _ hc
  | readOrTrunc max => exact ob _ fun c hc => take_adv _ hc
  | read want => exact ob _ fun c hc => take_adv _ hc
  | slice => exact ob _ fun c hc => .refl _
  | remaining => exact ob _ fun c hc => .refl _

theorem pull_adv (fields : Bool) (t : TS) : AdvT t (pull fields t).state := by
  unfold pull
  cases fields with
  | true =>
    have := exec_adv .nextField t
    simp only [exec] at this
    simp only [if_true]
    split <;> rename_i h <;> rw [h] at this <;> exact this
  | false =>
    have := exec_adv .nextElement t
    simp only [exec] at this
    simp only [Bool.false_eq_true, if_false]
    split <;> rename_i h <;> rw [h] at this <;> exact this

theorem runLoop_adv {ε U β α : Type} (fields : Bool) (body : β → Element → M (Stop ε) (TS × U) (β ⊕ α))
    (onErr : Err → M (Stop ε) (TS × U) α) (onEnd : β → M (Stop ε) (TS × U) α)
    (hb : ∀ b e st, AdvT st.1 (body b e st).state.1)
    (hE : ∀ e st, AdvT st.1 (onErr e st).state.1)
    (hN : ∀ b st, AdvT st.1 (onEnd b st).state.1) :
    ∀ (fuel : Nat) (b : β) (st : TS × U), AdvT st.1 (runLoop fields body onErr onEnd fuel b st).state.1 := by
  intro fuel
  induction fuel with
  | zero => intro b st; exact .refl _
  | succ fuel ih =>
    intro b st
    unfold runLoop
    have hp := pull_adv fields st.1
    split
    · rename_i e s h
      rw [h] at hp
      split
      · exact hp
      · exact hp.trans (hE e (s, st.2))
    · rename_i s h
      rw [h] at hp
      exact hp.trans (hN b (s, st.2))
    · rename_i el s h
      rw [h] at hp
      have h2 := hb b el (s, st.2)
      split <;> rename_i h3 <;> rw [h3] at h2
      · exact hp.trans h2
      · exact (hp.trans h2).trans (ih _ _)
      · exact hp.trans h2
end TS

theorem Prog.abs_adv {ε U : Type} : ∀ {α : Type} (p : Prog ε U α) (st : TS × U), AdvT st.1 (p.abs st).state.1 := by
  intro α p
  induction p with
  | ret a => intro st; exact .refl _
  | fail e => intro st; exact .refl _
  | op o =>
    intro st
    have := TS.exec_adv o st.1
    simp only [Prog.abs]
    cases h : TS.exec o st.1 with
    | ok b s => rw [h] at this; exact this
    | err e s => rw [h] at this; simp only; split <;> exact this
  | call o f =>
    intro st
    have := TS.exec_adv o st.1
    simp only [Prog.abs]
    cases h : TS.exec o st.1 with
    | ok b s => rw [h] at this; exact this
    | err e s => rw [h] at this; simp only; split <;> exact this
  | getU => intro st; exact .refl _
  | setU u => intro st; exact .refl _
  | bind p f ihp ihf =>
    intro st
    have := ihp st
    simp only [Prog.abs]
    cases h : p.abs st with
    | ok b s => rw [h] at this; exact this.trans (ihf b s)
    | err e s => rw [h] at this; exact this
  | attempt p ih =>
    intro st
    have := ih st
    simp only [Prog.abs]
    cases h : p.abs st with
    | ok b s => rw [h] at this; exact this
    | err e s => rw [h] at this; cases e <;> exact this
  | loop fields init body onErr onEnd ih1 ih2 ih3 =>
    intro st
    simp only [Prog.abs]
    exact TS.runLoop_adv fields _ _ _ (fun b e st => ih1 b e st) (fun e st => ih2 e st) (fun b st => ih3 b st) _ _ _

/-- The elements with every struct closed: where the document (or, if `g`, the input) ends, all structs are closed; inside of nested structs, exceptions become padding. What a
run without error does not get to is replaced by something longer than the input, `X`. `D` structs are open. -/
def conv (g : Bool) (X : Nat) : Nat → List HTok → List HTok
  | D, [] => List.replicate (max D 1) (if g then 0 else X, .endStruct)
  | D, (h, k) :: ts =>
    match k with
    | .endDoc => (h, .endStruct) :: List.replicate (D - 1) (0, .endStruct)
    | .exception m => if 2 ≤ D then (h + m.length, .padding) :: conv g X D ts else [(X, .endStruct)]
    | _ => (h, k) :: conv g X (k.depthAfter D) ts

/-- Still the same elements. All exceptions ahead have a message in `E`. -/
structure Ph1 (E : List Byte → Prop) (g : Bool) (X : Nat) (t1 t2 : TS) : Prop where
  pos : t2.pos = t1.pos
  depth : t2.depth = t1.depth
  eof : t1.eof = false
  eof2 : t2.eof = false
  g1 : t1.graceful = g
  g2 : t2.graceful = true
  cur : t2.cur = t1.cur
  toks : t2.toks = conv g X t1.depth t1.toks
  exact_ : ∀ x ∈ t1.toks, ∀ m, x.2 = .exception m → E m

structure Ph2 (t1 t2 : TS) : Prop where
  pos : t2.pos = t1.pos
  depth : t1.depth = 0
  eof : t1.eof = true
  g2 : t2.graceful = true
  cur : t1.cur = none
  cur2 : t2.cur = none
  eof2 : t2.eof = true → t2.depth = 0
  toks : t2.toks = List.replicate t2.depth (0, .endStruct)

def CutRel (E : List Byte → Prop) (g : Bool) (X : Nat) (t1 t2 : TS) : Prop := Ph1 E g X t1 t2 ∨ Ph2 t1 t2

/-- What the second is like if the first failed: it failed too, or is beyond `X`, or the first met an exception. -/
def Excuse {α : Type} (E : List Byte → Prop) (X : Nat) (e : Err) (r2 : Res Err TS α) : Prop :=
  (∃ e t2, r2 = .err e t2) ∨ X ≤ r2.state.pos ∨ ∃ m, E m ∧ e = .exception (lossy (m.take 256))

/-- Success on the first means the same success on the second; failure of the first means failure of the second, unless there is an excuse. -/
def RCut {α : Type} (E : List Byte → Prop) (g : Bool) (X : Nat) (r1 r2 : Res Err TS α) : Prop :=
  match r1 with
  | .ok a t1 => ∃ t2, r2 = .ok a t2 ∧ CutRel E g X t1 t2
  | .err e _ => Excuse E X e r2

section
variable {E : List Byte → Prop} {g : Bool} {X : Nat}

theorem Ph1.flush {t1 t2 : TS} (h : Ph1 E g X t1 t2) : Ph1 E g X t1.flush t2.flush :=
  ⟨by simp [TS.flush, h.pos, h.cur], h.depth, h.eof, h.eof2, h.g1, h.g2, rfl, h.toks, h.exact_⟩

theorem Ph2.flush {t1 t2 : TS} (h : Ph2 t1 t2) : t2.flush = t2 := by
  have := h.cur2
  cases t2; simp only at this; subst this; rfl

theorem dropPads_conv (D : Nat) : ∀ (ts : List HTok) (p : Nat), (∀ h m l, (TS.dropPads p ts).2 ≠ (h, .exception m) :: l) →
    TS.dropPads p (conv g X D ts) = ((TS.dropPads p ts).1, conv g X D (TS.dropPads p ts).2) := by
  intro ts
  induction ts with
  | nil =>
    intro p _
    obtain ⟨n, hn⟩ : ∃ n, max D 1 = n + 1 := ⟨max D 1 - 1, by omega⟩
    simp [conv, hn, List.replicate_succ, TS.dropPads]
  | cons a ts ih =>
    obtain ⟨hh, k⟩ := a
    intro p hx
    cases k with
    | padding =>
      have : TS.dropPads p ((hh, Tok.padding) :: ts) = TS.dropPads (p + hh) ts := by rw [TS.dropPads, if_pos rfl]
      rw [this] at hx ⊢
      rw [← ih _ hx]
      simp only [conv, Tok.depthAfter, TS.dropPads, if_true]
    | exception m => exact absurd (by simp [TS.dropPads]) (hx hh m ts)
    | _ => simp [conv, TS.dropPads]

theorem Ph2.nextField {t1 t2 : TS} (h : Ph2 t1 t2) : RCut E g X (TS.nextField t1) (TS.nextField t2) := by
  have h1 : TS.nextField t1 = .ok none t1 := by unfold TS.nextField; rw [if_pos h.eof]
  rw [h1]
  unfold TS.nextField
  by_cases he : t2.eof = true
  · rw [if_pos he]; exact ⟨t2, rfl, .inr h⟩
  · rw [if_neg he, h.flush]
    have ht := h.toks
    cases hd : t2.depth with
    | zero =>
      rw [hd] at ht
      have hu : t2.unpad = t2 := by cases t2; simp only at ht; subst ht; rfl
      rw [hu]
      have : TS.readElement t2 = .ok .endOfDoc { t2 with eof := true, depth := 0 } := by
        unfold TS.readElement; rw [ht]; simp only [List.replicate_zero]; rw [h.g2, if_pos rfl]
      rw [this]
      exact ⟨_, rfl, .inr ⟨h.pos, h.depth, h.eof, h.g2, h.cur, h.cur2, fun _ => rfl, ht⟩⟩
    | succ n =>
      rw [hd, List.replicate_succ] at ht
      have hu : t2.unpad = t2 := by cases t2; simp only at ht; subst ht; simp [TS.unpad, TS.dropPads]
      rw [hu]
      have : TS.readElement t2 = .ok .endOfStruct ⟨t2.pos, n, false, t2.graceful, none, List.replicate n (0, .endStruct)⟩ := by
        unfold TS.readElement; rw [ht]; simp [elemOf, Tok.depthAfter, contentOf, hd]
      rw [this]
      exact ⟨_, rfl, .inr ⟨h.pos, h.depth, h.eof, h.g2, h.cur, rfl, (fun h => by cases h), rfl⟩⟩

/-- One element, not an exception: the same on both sides, or the document ends. -/
theorem Ph1.read {t1 t2 : TS} (h : Ph1 E g X t1 t2) (hc : t1.cur = none) (hx : ∀ hh m l, t1.toks ≠ (hh, .exception m) :: l) :
    (∃ e t1' t2', TS.readElement t1 = .ok e t1' ∧ TS.readElement t2 = .ok e t2' ∧ e ≠ .endOfDoc ∧ (∀ n, e ≠ .exception n) ∧ Ph1 E g X t1' t2' ∧ t1'.toks.length + 1 = t1.toks.length ∧ t2'.toks.length + 1 = t2.toks.length
      ∧ (t1'.cur = none ∨ t1.depth ≤ t1'.depth)) ∨
    (∃ t1' t2', TS.readElement t1 = .ok .endOfDoc t1' ∧ TS.readElement t2 = .ok .endOfStruct t2' ∧ Ph2 t1' t2' ∧ t2'.toks.length + 1 = t2.toks.length) ∨
    (∃ e t1' t2', TS.readElement t1 = .err e t1' ∧ TS.readElement t2 = .ok .endOfStruct t2' ∧ X ≤ t2'.pos ∧ t2'.toks.length + 1 = t2.toks.length) := by
  have ht := h.toks
  cases htk : t1.toks with
  | nil =>
    right
    obtain ⟨n, hn⟩ : ∃ n, max t1.depth 1 = n + 1 := ⟨max t1.depth 1 - 1, by omega⟩
    have hn' : n = t1.depth - 1 := by omega
    rw [htk, conv, hn, List.replicate_succ] at ht
    have h2 : TS.readElement t2 = .ok .endOfStruct ⟨t2.pos + (if g then 0 else X), t1.depth - 1, false, t2.graceful, none, List.replicate n (if g then 0 else X, .endStruct)⟩ := by
      unfold TS.readElement; rw [ht]; simp [elemOf, Tok.depthAfter, contentOf, h.depth]
    cases hg : g with
    | true =>
      left
      refine ⟨_, _, by unfold TS.readElement; rw [htk]; simp only; rw [h.g1, hg, if_pos rfl], h2, ?_, by rw [ht]; simp⟩
      rw [hg]
      exact ⟨h.pos, rfl, rfl, h.g2, hc, rfl, (fun h => by cases h), by simp [hn']⟩
    | false =>
      right
      refine ⟨_, _, _, by unfold TS.readElement; rw [htk]; simp only; rw [h.g1, hg, if_neg (by simp)], h2, ?_, by rw [ht]; simp⟩
      rw [hg]; simp
  | cons a ts =>
    obtain ⟨hh, k⟩ := a
    rw [htk] at ht
    have hxx := h.exact_
    rw [htk] at hxx
    have h1 : TS.readElement t1 = .ok (elemOf t1.pos t1.depth k) ⟨t1.pos + hh, k.depthAfter t1.depth, decide (k = .endDoc), t1.graceful, contentOf k, ts⟩ := by
      unfold TS.readElement; rw [htk]
    by_cases hk : k = .endDoc
    · subst hk
      right; left
      have h2 : TS.readElement t2 = .ok .endOfStruct ⟨t2.pos + hh, t1.depth - 1, false, t2.graceful, none, List.replicate (t1.depth - 1) (0, .endStruct)⟩ := by
        unfold TS.readElement; rw [ht]; simp [conv, elemOf, Tok.depthAfter, contentOf, h.depth]
      exact ⟨_, _, h1, h2, ⟨by simp [h.pos], rfl, rfl, h.g2, rfl, rfl, (fun h => by cases h), rfl⟩, by rw [ht]; simp [conv]⟩
    · left
      have hc' : conv g X t1.depth ((hh, k) :: ts) = (hh, k) :: conv g X (k.depthAfter t1.depth) ts := by
        cases k with
        | exception m => exact absurd htk (hx hh m ts)
        | endDoc => exact absurd rfl hk
        | _ => rfl
      rw [hc'] at ht
      have h2 : TS.readElement t2 = .ok (elemOf t1.pos t1.depth k) ⟨t1.pos + hh, k.depthAfter t1.depth, decide (k = .endDoc), t2.graceful, contentOf k, conv g X (k.depthAfter t1.depth) ts⟩ := by
        unfold TS.readElement; rw [ht, h.pos, h.depth]
      refine ⟨_, _, _, h1, h2, ?_, ?_, ⟨rfl, rfl, by simp [hk], by simp [hk], h.g1, h.g2, rfl, rfl, fun x hx m hm => hxx x (by simp [hx]) m hm⟩, by simp, by rw [ht]; simp, ?_⟩
      · cases k <;> simp [elemOf] at hk ⊢
      · intro n
        cases k with
        | exception m => exact absurd htk (hx hh m ts)
        | _ => simp [elemOf]
      · cases k <;> simp [contentOf, Tok.depthAfter] <;> omega

theorem Ph1.nextField {t1 t2 : TS} (h : Ph1 E g X t1 t2) : RCut E g X (TS.nextField t1) (TS.nextField t2) := by
  have hf := h.flush
  unfold TS.nextField
  rw [h.eof, h.eof2]
  simp only [Bool.false_eq_true, if_false]
  have hnp := TS.dropPads_nopad t1.flush.pos t1.flush.toks
  by_cases hx : ∃ hh m l, t1.flush.unpad.toks = (hh, .exception m) :: l
  · obtain ⟨hh, m, l, hx⟩ := hx
    have h1 : ∃ e t', TS.readElement t1.flush.unpad = .ok (.exception m.length) t' ∧ t'.cur = some e := by
      refine ⟨m, ⟨t1.flush.unpad.pos + hh, Tok.depthAfter t1.flush.unpad.depth (.exception m), decide (Tok.exception m = .endDoc), t1.flush.unpad.graceful, some m, l⟩, ?_, rfl⟩
      unfold TS.readElement; rw [hx]; rfl
    obtain ⟨e, t', h1, h2⟩ := h1
    rw [h1]
    simp only [TS.onBlob, h2, TS.take]
    have : ∀ (p : Nat) (l : List HTok) x, x ∈ (TS.dropPads p l).2 → x ∈ l := by
      intro p l
      induction l generalizing p with
      | nil => intro x hx; exact hx
      | cons a l ih =>
        intro x hx
        unfold TS.dropPads at hx
        split at hx
        · exact List.mem_cons_of_mem _ (ih _ _ hx)
        · exact hx
    have hm : e = m := by
      have := h1
      unfold TS.readElement at this
      rw [hx] at this
      cases this
      simpa [contentOf] using h2.symm
    subst hm
    exact .inr (.inr ⟨e, h.exact_ (hh, .exception e) (this _ _ _ (by show _ ∈ t1.flush.unpad.toks; rw [hx]; simp)) e rfl, rfl⟩)
  · have hx' : ∀ hh m l, t1.flush.unpad.toks ≠ (hh, .exception m) :: l := fun hh m l he => hx ⟨hh, m, l, he⟩
    have hdp := dropPads_conv (g := g) (X := X) t1.depth t1.flush.toks t1.flush.pos hx'
    have hmem : ∀ (p : Nat) (l : List HTok) x, x ∈ (TS.dropPads p l).2 → x ∈ l := by
      intro p l
      induction l generalizing p with
      | nil => intro x hx; exact hx
      | cons a l ih =>
        intro x hx
        unfold TS.dropPads at hx
        split at hx
        · exact List.mem_cons_of_mem _ (ih _ _ hx)
        · exact hx
    have hu : Ph1 E g X t1.flush.unpad t2.flush.unpad := by
      have e1 : t2.flush.toks = conv g X t1.depth t1.flush.toks := h.toks
      have e2 : t2.flush.pos = t1.flush.pos := hf.pos
      refine ⟨?_, h.depth, h.eof, h.eof2, h.g1, h.g2, rfl, ?_, ?_⟩
      · show (TS.dropPads t2.flush.pos t2.flush.toks).1 = (TS.dropPads t1.flush.pos t1.flush.toks).1
        rw [e1, e2, hdp]
      · show (TS.dropPads t2.flush.pos t2.flush.toks).2 = conv g X t1.depth (TS.dropPads t1.flush.pos t1.flush.toks).2
        rw [e1, e2, hdp]
      · exact fun x hx m => h.exact_ x (hmem _ _ _ hx) m
    rcases hu.read rfl hx' with ⟨e, t1', t2', a1, a2, a3, a4, a5, -⟩ | ⟨t1', t2', a1, a2, a3, -⟩ | ⟨e, t1', t2', a1, a2, a3, -⟩
    · rw [a1, a2]
      cases e with
      | exception n => exact absurd rfl (a4 n)
      | _ => exact ⟨_, rfl, .inl a5⟩
    · rw [a1, a2]
      exact ⟨_, rfl, .inr a3⟩
    · rw [a1, a2]
      exact .inr (.inl a3)

/-- Behind the end of the document, skipping up closes structs of the second. -/
theorem Ph2.skipUpLoop (d : Nat) {t1 : TS} : ∀ (fuel : Nat) (t2 : TS), Ph2 t1 t2 → t2.depth < fuel → ∃ t2', TS.skipUpLoop d fuel t2 = .ok () t2' ∧ Ph2 t1 t2' := by
  intro fuel
  induction fuel with
  | zero => intro _ _ h; omega
  | succ fuel ih =>
    intro t2 h hf
    unfold TS.skipUpLoop
    split
    · rename_i hd
      have he : t2.eof = false := by
        cases he : t2.eof with
        | false => rfl
        | true => have := h.eof2 he; omega
      obtain ⟨n, hn⟩ : ∃ n, t2.depth = n + 1 := ⟨t2.depth - 1, by omega⟩
      have ht := h.toks
      rw [hn, List.replicate_succ] at ht
      have : TS.nextElement t2 = .ok .endOfStruct ⟨t2.pos, n, false, t2.graceful, none, List.replicate n (0, .endStruct)⟩ := by
        unfold TS.nextElement
        rw [he, if_neg (by simp), h.flush]
        unfold TS.readElement; rw [ht]; simp [elemOf, Tok.depthAfter, contentOf, hn]
      rw [M.bind_ok this]
      exact ih _ ⟨h.pos, h.depth, h.eof, h.g2, h.cur, rfl, (fun h => by cases h), rfl⟩ (by simp only; omega)
    · exact ⟨t2, rfl, h⟩

theorem TS.skipUpLoop_pos (d : Nat) : ∀ (fuel : Nat) (t : TS), t.pos ≤ (TS.skipUpLoop d fuel t).state.pos := by
  intro fuel
  induction fuel with
  | zero => intro t; exact Nat.le_refl _
  | succ fuel ih =>
    intro t
    unfold TS.skipUpLoop
    split
    · rw [M.bind_apply]
      have := (TS.nextElement_adv t).mono
      cases hn : TS.nextElement t with
      | ok e t' => rw [hn] at this; exact Nat.le_trans this (ih t')
      | err e t' => rw [hn] at this; exact this
    · exact Nat.le_refl _

theorem Ph1.skipUpLoop {d : Nat} (hd : 1 ≤ d) : ∀ (fuel fuel2 : Nat) (t1 t2 : TS), Ph1 E g X t1.flush t2.flush → (t1.depth ≤ d → Ph1 E g X t1 t2) →
    t1.toks.length + 1 < fuel → t2.toks.length + 1 < fuel2 → RCut E g X (TS.skipUpLoop d fuel t1) (TS.skipUpLoop d fuel2 t2) := by
  intro fuel
  induction fuel with
  | zero => intro _ _ _ _ _ h; omega
  | succ fuel ih =>
    intro fuel2 t1 t2 h h0 hf hf2
    cases fuel2 with
    | zero => omega
    | succ fuel2 =>
      have hdep : t2.depth = t1.depth := h.depth
      unfold TS.skipUpLoop
      by_cases hg : t1.depth > d
      · rw [if_pos hg, if_pos (by omega)]
        have n1 : TS.nextElement t1 = TS.readElement t1.flush := by unfold TS.nextElement; rw [show t1.eof = false from h.eof, if_neg (by simp)]
        have n2 : TS.nextElement t2 = TS.readElement t2.flush := by unfold TS.nextElement; rw [show t2.eof = false from h.eof2, if_neg (by simp)]
        by_cases hx : ∃ hh m l, t1.flush.toks = (hh, .exception m) :: l
        · obtain ⟨hh, m, l, hx⟩ := hx
          have ht2 := h.toks
          rw [hx, conv] at ht2
          have hD : 2 ≤ t1.flush.depth := by show 2 ≤ t1.depth; omega
          rw [if_pos hD] at ht2
          have r1 : TS.nextElement t1 = .ok (.exception m.length) ⟨t1.flush.pos + hh, t1.depth, false, t1.graceful, some m, l⟩ := by
            rw [n1]; unfold TS.readElement; rw [hx]; rfl
          have r2 : TS.nextElement t2 = .ok .padding ⟨t1.flush.pos + (hh + m.length), t1.depth, false, t2.graceful, none, conv g X t1.depth l⟩ := by
            rw [n2]; unfold TS.readElement; rw [ht2, h.pos, h.depth]; rfl
          rw [M.bind_ok r1, M.bind_ok r2]
          have lx : t1.toks.length = l.length + 1 := by have := congrArg List.length hx; simpa [TS.flush] using this
          have lx2 : t2.toks.length = (conv g X t1.depth l).length + 1 := by have := congrArg List.length ht2; simpa [TS.flush] using this
          refine ih fuel2 _ _ ⟨?_, rfl, rfl, rfl, h.g1, h.g2, rfl, rfl, fun x hx' m => h.exact_ x (by rw [hx]; exact List.mem_cons_of_mem _ hx') m⟩ (fun hle => by simp only at hle; omega) (by simp only; omega) (by simp only; omega)
          simp [TS.flush]; omega
        · have l2 : t2.flush.toks = t2.toks := rfl
          have l1 : t1.flush.toks = t1.toks := rfl
          rcases h.read rfl (fun hh m l he => hx ⟨hh, m, l, he⟩) with ⟨e, t1', t2', a1, a2, a3, a4, a5, a6, a7, -⟩ | ⟨t1', t2', a1, a2, a3, a4⟩ | ⟨e, t1', t2', a1, a2, a3, -⟩
          · rw [l1] at a6; rw [l2] at a7
            rw [M.bind_ok (n1.trans a1), M.bind_ok (n2.trans a2)]
            exact ih fuel2 _ _ a5.flush (fun _ => a5) (by omega) (by omega)
          · rw [M.bind_ok (n1.trans a1), M.bind_ok (n2.trans a2)]
            have : TS.skipUpLoop d fuel t1' = .ok () t1' := by
              cases fuel with
              | zero => omega
              | succ fuel => unfold TS.skipUpLoop; rw [if_neg (by rw [a3.depth]; omega)]
            rw [this]
            obtain ⟨t3, k1, k2⟩ := Ph2.skipUpLoop d fuel2 t2' a3 (by
              have := congrArg List.length a3.toks
              rw [l2] at a4
              simp only [List.length_replicate] at this; omega)
            exact ⟨t3, k1, .inr k2⟩
          · rw [M.bind_err (n1.trans a1), M.bind_ok (n2.trans a2)]
            exact .inr (.inl (Nat.le_trans a3 (TS.skipUpLoop_pos d fuel2 t2')))
      · rw [if_neg hg, if_neg (by omega)]
        exact ⟨t2, rfl, .inl (h0 (by omega))⟩

theorem RCut.same {α : Type} {a : α} {t1 t2 : TS} (h : CutRel E g X t1 t2) : RCut E g X (.ok a t1) (.ok a t2) := ⟨t2, rfl, h⟩
theorem RCut.errs {α : Type} {e e' : Err} {t1 t2 : TS} : RCut E g X (.err e t1 : Res Err TS α) (.err e' t2) := .inl ⟨_, _, rfl⟩

theorem exec_c {β : Type} (o : Op β) (ho : o.calm) {t1 t2 : TS} (h : CutRel E g X t1 t2) : RCut E g X (TS.exec o t1) (TS.exec o t2) := by
  have hcur : t2.cur = t1.cur := by
    rcases h with h | h
    · exact h.cur
    · rw [h.cur, h.cur2]
  have hpos : t2.pos = t1.pos := by
    rcases h with h | h
    · exact h.pos
    · exact h.pos
  have ob : ∀ {α : Type} (f : List Byte → M Err TS α), (∀ c, t1.cur = some c → RCut E g X (f c t1) (f c t2)) → RCut E g X (TS.onBlob f t1) (TS.onBlob f t2) := by
    intro α f hf
    unfold TS.onBlob
    rw [hcur]
    cases hc : t1.cur with
    | none => exact .errs
    | some c => exact hf c hc
  cases o with
  | nextField =>
    rcases h with h | h
    · exact h.nextField
    · exact h.nextField
  | skipUp d =>
    rcases h with h | h
    · exact h.flush.skipUpLoop ho _ _ t1 t2 (fun _ => h) (by omega) (by omega)
    · have h1 : TS.exec (.skipUp d) t1 = .ok () t1 := by
        show TS.skipUpLoop d (t1.toks.length + 1 + 1) t1 = _
        unfold TS.skipUpLoop; rw [if_neg (by rw [h.depth]; omega)]
      rw [h1]
      obtain ⟨t3, k1, k2⟩ := Ph2.skipUpLoop d (t2.toks.length + 2) t2 h (by
        have := congrArg List.length h.toks
        simp only [List.length_replicate] at this; omega)
      exact ⟨t3, k1, .inr k2⟩
  | pos =>
    show RCut E g X (.ok t1.pos t1) (.ok t2.pos t2)
    rw [hpos]; exact .same h
  | readFully max =>
    show RCut E g X (TS.onBlob (fun c t => if c.length > max then .err (.largeBlob max c.length) t else TS.take c.length c t) t1) (TS.onBlob (fun c t => if c.length > max then .err (.largeBlob max c.length) t else TS.take c.length c t) t2)
    refine ob _ fun c hc => ?_
    split
    · exact .errs
    · refine ⟨_, rfl, ?_⟩
      rcases h with h | h
      · exact .inl ⟨by simp [h.pos], h.depth, h.eof, h.eof2, h.g1, h.g2, rfl, h.toks, h.exact_⟩
      · rw [h.cur] at hc; cases hc
  | slice => exact ob _ fun c hc => .same h
  | remaining => exact ob _ fun c hc => .same h
  | nextElement | commit | clearEof | eof | structDepth | readOrTrunc _ | read _ => exact ho.elim

/-- The same for clients. -/
def ExcuseP {ε U α : Type} (D : Err → ε → Prop) (E : List Byte → Prop) (X : Nat) (e : Stop ε) (r2 : Res (Stop ε) (TS × U) α) : Prop :=
  (∃ e st2, r2 = .err e st2) ∨ X ≤ r2.state.1.pos ∨ ∃ m d, E m ∧ e = .client d ∧ D (.exception (lossy (m.take 256))) d

def RCP {ε U α : Type} (D : Err → ε → Prop) (E : List Byte → Prop) (g : Bool) (X : Nat) (r1 r2 : Res (Stop ε) (TS × U) α) : Prop :=
  match r1 with
  | .ok a st1 => ∃ t2, r2 = .ok a (t2, st1.2) ∧ CutRel E g X st1.1 t2
  | .err e _ => ExcuseP D E X e r2

theorem runLoop_c {ε U β α : Type} {D : Err → ε → Prop} (body : β → Element → Prog ε U (β ⊕ α)) (onErr : Err → Prog ε U α) (onEnd : β → Prog ε U α)
    (hb : ∀ b (f : Field), 1 ≤ f.depth → ∀ t1 t2 u, CutRel E g X t1 t2 → RCP D E g X ((body b (.field f)).abs (t1, u)) ((body b (.field f)).abs (t2, u)))
    (hE : ∀ e, ∃ d, onErr e = .fail d ∧ D e d)
    (hN : ∀ b t1 t2 u, CutRel E g X t1 t2 → RCP D E g X ((onEnd b).abs (t1, u)) ((onEnd b).abs (t2, u))) :
    ∀ (fuel fuel2 : Nat) (b : β) (t1 t2 : TS) (u : U), CutRel E g X t1 t2 → t1.toks.length < fuel → t2.toks.length < fuel2 →
    RCP D E g X (TS.runLoop true (fun b e => (body b e).abs) (fun e => (onErr e).abs) (fun b => (onEnd b).abs) fuel b (t1, u))
      (TS.runLoop true (fun b e => (body b e).abs) (fun e => (onErr e).abs) (fun b => (onEnd b).abs) fuel2 b (t2, u)) := by
  intro fuel
  induction fuel with
  | zero => intro _ _ _ _ _ _ h; omega
  | succ fuel ih =>
    intro fuel2 b t1 t2 u h hf hf2
    cases fuel2 with
    | zero => omega
    | succ fuel2 =>
      have hP : RCut E g X (TS.nextField t1) (TS.nextField t2) := by
        rcases h with h | h
        · exact h.nextField
        · exact h.nextField
      have hadv : ∀ (st : TS × U) (b : β) (fuel : Nat), st.1.pos ≤ (TS.runLoop true (fun b e => (body b e).abs) (fun e => (onErr e).abs) (fun b => (onEnd b).abs) fuel b st).state.1.pos :=
        fun st b fuel => (TS.runLoop_adv true _ _ _ (fun b e st => (body b e).abs_adv st) (fun e st => (onErr e).abs_adv st) (fun b st => (onEnd b).abs_adv st) fuel b st).mono
      rw [TS.runLoop, TS.runLoop]
      dsimp only
      cases hn1 : TS.nextField t1 with
      | err e t1' =>
        rw [hn1] at hP
        have hp1 : TS.pull true t1 = .err e t1' := by unfold TS.pull; simp only [if_true, hn1]
        rw [hp1]
        obtain ⟨d, hd, hDd⟩ := hE e
        have goal : ∀ r2 : Res (Stop ε) (TS × U) α, ((∃ e st2, r2 = .err e st2) ∨ X ≤ r2.state.1.pos ∨ ∃ m, E m ∧ e = .exception (lossy (m.take 256))) →
            RCP D E g X (if e.abnormal = true then Res.err (Stop.abort e) (t1', u) else (onErr e).abs (t1', u)) r2 := by
          intro r2 hr2
          rw [hd]
          rcases hr2 with hr2 | hr2 | ⟨m, hm, rfl⟩
          · split <;> exact .inl hr2
          · split <;> exact .inr (.inl hr2)
          · exact .inr (.inr ⟨m, d, hm, rfl, hDd⟩)
        refine goal _ ?_
        rcases hP with ⟨e2, t2', h2⟩ | hX | hm
        · left
          have hp2 : TS.pull true t2 = .err e2 t2' := by unfold TS.pull; simp only [if_true, h2]
          rw [hp2]
          obtain ⟨d2, hd2, -⟩ := hE e2
          dsimp only
          rw [hd2]
          split <;> exact ⟨_, _, rfl⟩
        · right; left
          cases hn2 : TS.nextField t2 with
          | err e2 t2' =>
            rw [hn2] at hX
            have hp2 : TS.pull true t2 = .err e2 t2' := by unfold TS.pull; simp only [if_true, hn2]
            rw [hp2]
            dsimp only
            split
            · exact hX
            · exact Nat.le_trans hX ((onErr e2).abs_adv (t2', u)).mono
          | ok f t2' =>
            rw [hn2] at hX
            have hp2 := TS.pull_true hn2
            rw [hp2]
            cases f with
            | none => exact Nat.le_trans hX ((onEnd b).abs_adv (t2', u)).mono
            | some f =>
              dsimp only [Option.map_some]
              have hB := ((body b (.field f)).abs_adv (t2', u)).mono
              cases hb2 : (body b (.field f)).abs (t2', u) with
              | err e st => rw [hb2] at hB; exact Nat.le_trans hX hB
              | ok x st =>
                rw [hb2] at hB
                cases x with
                | inr a => exact Nat.le_trans hX hB
                | inl b' => exact Nat.le_trans (Nat.le_trans hX hB) (hadv _ _ _)
        · exact .inr (.inr hm)
      | ok f t1' =>
        rw [hn1] at hP
        obtain ⟨t2', hn2, hR⟩ := hP
        have hp1 := TS.pull_true hn1
        have hp2 := TS.pull_true hn2
        rw [hp1, hp2]
        cases f with
        | none => exact hN b t1' t2' u hR
        | some f =>
          dsimp only [Option.map_some]
          have hB := hb b f (TS.nextField_depth hn1) t1' t2' u hR
          have l1 := TS.pull_some hp1
          have l2 := TS.pull_some hp2
          have m1 := (body b (.field f)).abs_mono (t1', u)
          have m2 := (body b (.field f)).abs_mono (t2', u)
          cases hb1 : (body b (.field f)).abs (t1', u) with
          | err e st =>
            rw [hb1] at hB
            rcases hB with ⟨e2, st2, h2⟩ | hX | hm
            · rw [h2]; exact .inl ⟨_, _, rfl⟩
            · right; left
              cases hb2 : (body b (.field f)).abs (t2', u) with
              | err e st => rw [hb2] at hX; exact hX
              | ok x st =>
                rw [hb2] at hX
                cases x with
                | inr a => exact hX
                | inl b' => exact Nat.le_trans hX (hadv _ _ _)
            · exact .inr (.inr hm)
          | ok x st =>
            rw [hb1] at hB m1
            obtain ⟨t3, u3⟩ := st
            obtain ⟨t4, h4, hR4⟩ := hB
            rw [h4] at m2 ⊢
            simp only [Res.state_ok] at m1 m2
            cases x with
            | inr a => exact ⟨t4, rfl, hR4⟩
            | inl b' => exact ih fuel2 b' t3 t4 u3 hR4 (by omega) (by omega)

/-- **Two runs.** A deserialiser that succeeds on the elements of `t1` also succeeds, in the same way, on the converted elements. -/
theorem Prog.abs_c {ε U : Type} {D : Err → ε → Prop} : ∀ {α : Type} (p : Prog ε U α), p.Strict D →
    ∀ (t1 t2 : TS) (u : U), CutRel E g X t1 t2 → RCP D E g X (p.abs (t1, u)) (p.abs (t2, u)) := by
  intro α p
  induction p with
  | ret a => intro _ t1 t2 u h; exact ⟨t2, rfl, h⟩
  | fail e => intro _ t1 t2 u h; exact .inl ⟨_, _, rfl⟩
  | op o => intro ho; exact ho.elim
  | call o f =>
    intro ho t1 t2 u h
    have hx := exec_c (E := E) (g := g) (X := X) o ho.1 h
    simp only [Prog.abs]
    cases h1 : TS.exec o t1 with
    | ok b t1' =>
      rw [h1] at hx
      obtain ⟨t2', h2, h3⟩ := hx
      rw [h2]
      exact ⟨t2', rfl, h3⟩
    | err e t1' =>
      rw [h1] at hx
      have goal : ∀ {γ : Type} (r2 : Res (Stop ε) (TS × U) γ), ((∃ e st2, r2 = .err e st2) ∨ X ≤ r2.state.1.pos ∨ ∃ m, E m ∧ e = .exception (lossy (m.take 256))) →
          RCP D E g X (if e.abnormal = true then Res.err (Stop.abort e) (t1', u) else .err (.client (f e)) (t1', u)) r2 := by
        intro _ r2 hr2
        rcases hr2 with hr2 | hr2 | ⟨m, hm, rfl⟩
        · split <;> exact .inl hr2
        · split <;> exact .inr (.inl hr2)
        · exact .inr (.inr ⟨m, _, hm, rfl, ho.2 _⟩)
      refine goal _ ?_
      rcases hx with ⟨e2, t2', h2⟩ | hX | hm
      · rw [h2]; dsimp only; left; split <;> exact ⟨_, _, rfl⟩
      · right; left
        cases h2 : TS.exec o t2 with
        | ok b t2' => rw [h2] at hX; exact hX
        | err e2 t2' => rw [h2] at hX; dsimp only; split <;> exact hX
      · exact .inr (.inr hm)
  | getU => intro _ t1 t2 u h; exact ⟨t2, rfl, h⟩
  | setU u => intro _ t1 t2 u h; exact ⟨t2, rfl, h⟩
  | bind p f ihp ihf =>
    intro hp t1 t2 u h
    rcases hp with ⟨hp, hf⟩ | ⟨e, he⟩
    · simp only [Prog.abs]
      have h1 := ihp hp t1 t2 u h
      cases hr1 : p.abs (t1, u) with
      | ok a st =>
        rw [hr1] at h1
        obtain ⟨t1', u'⟩ := st
        obtain ⟨t2', h2, h3⟩ := h1
        rw [h2]
        exact ihf a (hf a) t1' t2' u' h3
      | err e st =>
        rw [hr1] at h1
        rcases h1 with ⟨e2, st2, h2⟩ | hX | hm
        · rw [h2]; exact .inl ⟨_, _, rfl⟩
        · right; left
          cases hr2 : p.abs (t2, u) with
          | ok a st => rw [hr2] at hX; exact Nat.le_trans hX ((f a).abs_adv st).mono
          | err e st => rw [hr2] at hX; exact hX
        · exact .inr (.inr hm)
    · have aux : ∀ t : TS, ∃ e' st', (Prog.bind p f).abs (t, u) = .err e' st' := by
        intro t
        simp only [Prog.abs]
        cases p.abs (t, u) with
        | ok a st => dsimp only; rw [he]; exact ⟨_, _, rfl⟩
        | err e st => exact ⟨_, _, rfl⟩
      obtain ⟨e1, st1, h1⟩ := aux t1
      rw [h1]
      exact .inl (aux t2)
  | attempt p ih => intro hp; exact hp.elim
  | loop fields init body onErr onEnd ih1 ih2 ih3 =>
    intro hp t1 t2 u h
    obtain ⟨rfl, h1, h2, h3⟩ := hp
    exact runLoop_c body onErr onEnd (fun b f hf => ih1 b (.field f) (h1 b f hf)) h2 (fun b => ih3 b (h3 b)) _ _ _ t1 t2 u h
      (by show t1.toks.length < t1.toks.length + 2; omega) (by show t2.toks.length < t2.toks.length + 2; omega)

end

end Fourleaf
