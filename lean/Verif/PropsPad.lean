import Verif.PropsTok

/-! # C16: padding is transparent -/

namespace Fourleaf
open Spec

def Field.erase (f : Field) : Field := { f with pos := 0 }

def Element.erase : Element → Element
  | .field f => .field f.erase
  | e => e

/-- Remove the byte offsets from the result of a call. -/
def Op.erase : {β : Type} → Op β → β → β
  | _, .nextField, r => r.map Field.erase
  | _, .nextElement, e => e.erase
  | _, .pos, _ => 0
  | _, .skipUp _, x | _, .commit, x | _, .clearEof, x | _, .eof, x | _, .structDepth, x | _, .readFully _, x
  | _, .readOrTrunc _, x | _, .read _, x | _, .slice, x | _, .remaining, x => x

/-- The program, except that it gets to see 0 instead of any byte offset. -/
def Prog.blind {ε U : Type} : {α : Type} → Prog ε U α → Prog ε U α
  | _, .ret a => .ret a
  | _, .fail e => .fail e
  | _, .op o => .bind (.op o) fun r => .ret (match r with | .ok b => .ok (o.erase b) | .error e => .error e)
  | _, .call o f => .bind (.call o f) fun b => .ret (o.erase b)
  | _, .getU => .getU
  | _, .setU u => .setU u
  | _, .bind p f => .bind p.blind fun a => (f a).blind
  | _, .attempt p => .attempt p.blind
  | _, .loop fields init body onErr onEnd =>
    .loop fields init (fun b e => (body b e.erase).blind) (fun e => (onErr e).blind) (fun b => (onEnd b).blind)

/-- Calls that do not return padding (and not the bare `Read::read`). -/
def Op.noPadding {β : Type} : Op β → Prop
  | .nextElement => False
  | .read _ => False
  | _ => True

/-- The program iterates with `next_field`, never with `next_element`. -/
def Prog.UsesNextField {ε U : Type} : {α : Type} → Prog ε U α → Prop
  | _, .ret _ => True
  | _, .fail _ => True
  | _, .op o => o.noPadding
  | _, .call o _ => o.noPadding
  | _, .getU => True
  | _, .setU _ => True
  | _, .bind p f => p.UsesNextField ∧ ∀ a, (f a).UsesNextField
  | _, .attempt p => p.UsesNextField
  | _, .loop fields _ body onErr onEnd =>
    fields = true ∧ (∀ b e, (body b e).UsesNextField) ∧ (∀ e, (onErr e).UsesNextField) ∧ (∀ b, (onEnd b).UsesNextField)

def stripPads (l : List Tok) : List Tok := l.filter (· ≠ .padding)

/-- `u` is `t` without padding and with arbitrary positions and spellings. -/
structure PadEq (t u : TS) : Prop where
  depth : t.depth = u.depth
  eof : t.eof = u.eof
  graceful : t.graceful = u.graceful
  cur : t.cur = u.cur
  toks : stripPads (t.toks.map (·.2)) = u.toks.map (·.2)
  nopad : ∀ x ∈ u.toks, x.2 ≠ .padding

theorem PadEq.flush {t u : TS} (h : PadEq t u) : PadEq t.flush u.flush :=
  ⟨h.depth, h.eof, h.graceful, rfl, h.toks, h.nopad⟩

theorem dropPads_strip : ∀ (p : Nat) (l : List HTok), stripPads (((TS.dropPads p l).2).map (·.2)) = stripPads (l.map (·.2)) := by
  intro p l
  induction l generalizing p with
  | nil => rfl
  | cons a l ih =>
    obtain ⟨h, k⟩ := a
    unfold TS.dropPads
    by_cases hk : k = .padding
    · rw [if_pos hk, ih]; subst hk; simp [stripPads]
    · rw [if_neg hk]

theorem dropPads_self : ∀ (p : Nat) (l : List HTok), (∀ x ∈ l, x.2 ≠ .padding) → TS.dropPads p l = (p, l) := by
  intro p l h
  cases l with
  | nil => rfl
  | cons a l =>
    obtain ⟨hh, k⟩ := a
    unfold TS.dropPads
    rw [if_neg (h (hh, k) (by simp))]

theorem PadEq.unpad {t u : TS} (h : PadEq t u) : PadEq t.unpad u :=
  ⟨h.depth, h.eof, h.graceful, h.cur, by rw [← h.toks]; exact dropPads_strip t.pos t.toks, h.nopad⟩

theorem unpad_self {u : TS} (h : ∀ x ∈ u.toks, x.2 ≠ .padding) : u.unpad = u := by
  unfold TS.unpad; rw [dropPads_self _ _ h]

/-- Same outcome up to byte offsets. -/
def RPad {α : Type} (er : α → α) : Res Err TS α → Res Err TS α → Prop
  | .ok a t, .ok b u => er a = er b ∧ PadEq t u
  | .err e t, .err e' u => e = e' ∧ PadEq t u
  | _, _ => False

theorem erase_elemOf (p p' d : Nat) (k : Tok) : (elemOf p d k).erase = (elemOf p' d k).erase := by
  cases k <;> rfl

theorem readElement_pad {t u : TS} (h : PadEq t u) (hp : ∀ x, t.toks.head? = some x → x.2 ≠ .padding) :
    RPad Element.erase (TS.readElement t) (TS.readElement u) := by
  have ht := h.toks
  unfold TS.readElement
  cases hu : u.toks with
  | nil =>
    rw [hu] at ht
    cases hk : t.toks with
    | cons a l =>
      have := hp a (by rw [hk]; rfl)
      rw [hk] at ht
      simp [stripPads, this] at ht
    | nil =>
      simp only
      rw [h.graceful]
      by_cases hg : u.graceful = true
      · rw [if_pos hg, if_pos hg]
        exact ⟨rfl, rfl, rfl, rfl, h.cur, by simp [stripPads], by simp⟩
      · rw [if_neg hg, if_neg hg]; exact ⟨rfl, h⟩
  | cons b m =>
    obtain ⟨h2, k2⟩ := b
    rw [hu] at ht
    cases hk : t.toks with
    | nil => rw [hk] at ht; simp [stripPads] at ht
    | cons a l =>
      obtain ⟨h1, k1⟩ := a
      have hne := hp (h1, k1) (by rw [hk]; rfl)
      rw [hk] at ht
      simp only [stripPads, List.map_cons, List.filter_cons, decide_eq_true hne, if_true, List.cons.injEq] at ht
      obtain ⟨rfl, ht⟩ := ht
      simp only
      rw [h.depth]
      refine ⟨erase_elemOf _ _ _ _, rfl, rfl, h.graceful, rfl, ht, fun x hx => h.nopad x (by rw [hu]; simp [hx])⟩

theorem PadEq.onBlob {α : Type} {er : α → α} {t u : TS} (h : PadEq t u) (f : List Byte → M Err TS α)
    (hf : ∀ c, t.cur = some c → RPad er (f c t) (f c u)) : RPad er (TS.onBlob f t) (TS.onBlob f u) := by
  unfold TS.onBlob
  rw [← h.cur]
  cases hc : t.cur with
  | none => exact ⟨rfl, h⟩
  | some c => exact hf c hc

theorem PadEq.take {t u : TS} (h : PadEq t u) (n : Nat) (c : List Byte) : RPad id (TS.take n c t) (TS.take n c u) :=
  ⟨rfl, h.depth, h.eof, h.graceful, rfl, h.toks, h.nopad⟩

theorem nextField_pad {t u : TS} (h : PadEq t u) : RPad (Option.map Field.erase) (TS.nextField t) (TS.nextField u) := by
  unfold TS.nextField
  rw [h.eof]
  by_cases he : u.eof = true
  · rw [if_pos he, if_pos he]; exact ⟨rfl, h⟩
  · rw [if_neg he, if_neg he]
    have hf := h.flush.unpad
    rw [unpad_self (u := u.flush) h.nopad]
    have hre := readElement_pad hf (fun x hx => TS.dropPads_nopad _ _ x hx)
    cases h1 : TS.readElement t.flush.unpad with
    | err e t' =>
      cases h2 : TS.readElement u.flush with
      | ok b u' => rw [h1, h2] at hre; exact hre.elim
      | err e' u' => rw [h1, h2] at hre; exact hre
    | ok a t' =>
      cases h2 : TS.readElement u.flush with
      | err e' u' => rw [h1, h2] at hre; exact hre.elim
      | ok b u' =>
        rw [h1, h2] at hre
        obtain ⟨he, hpq⟩ := hre
        cases a <;> cases b <;> simp only [Element.erase, Element.field.injEq, reduceCtorEq] at he
        · exact ⟨by simp [he], hpq⟩
        · exact ⟨rfl, hpq⟩
        · exact ⟨rfl, hpq⟩
        · simp only
          have := hpq.onBlob (er := id) (TS.take 256) (fun c _ => hpq.take 256 c)
          cases h3 : TS.onBlob (TS.take 256) t' with
          | ok m t'' =>
            cases h4 : TS.onBlob (TS.take 256) u' with
            | ok m' u'' => rw [h3, h4] at this; obtain ⟨hm, hp⟩ := this; simp only [id] at hm; subst hm; exact ⟨rfl, hp⟩
            | err e u'' => rw [h3, h4] at this; exact this.elim
          | err e t'' =>
            cases h4 : TS.onBlob (TS.take 256) u' with
            | ok m' u'' => rw [h3, h4] at this; exact this.elim
            | err e' u'' => rw [h3, h4] at this; exact this
        · exact ⟨rfl, hpq⟩

theorem skipUpLoop_pad (d : Nat) : ∀ (fuel fuel' : Nat) (t u : TS), PadEq t u → t.toks.length + 1 < fuel → u.toks.length + 1 < fuel' →
    (t.eof = true → t.depth ≤ d) → RPad id (TS.skipUpLoop d fuel t) (TS.skipUpLoop d fuel' u) := by
  intro fuel
  induction fuel with
  | zero => intro _ t u _ h; omega
  | succ fuel ih =>
    intro fuel' t u h hf hf' hE
    cases fuel' with
    | zero => omega
    | succ fuel' =>
      unfold TS.skipUpLoop
      by_cases hd : u.depth > d
      · rw [if_pos (by rw [h.depth]; exact hd)]
        have he : t.eof = false := by
          cases hh : t.eof with
          | false => rfl
          | true => have := hE hh; rw [h.depth] at this; omega
        cases hk : t.toks with
        | nil =>
          rw [if_pos hd]
          have hu : u.toks = [] := by
            have := h.toks; rw [hk] at this
            cases hu : u.toks with
            | nil => rfl
            | cons a l => rw [hu] at this; simp [stripPads] at this
          have hre := readElement_pad h.flush (by intro x hx; simp [TS.flush, hk] at hx)
          unfold TS.nextElement
          rw [M.bind_apply, M.bind_apply]
          simp only [he, ← h.eof, Bool.false_eq_true, if_false]
          cases h1 : TS.readElement t.flush with
          | err e t' =>
            cases h2 : TS.readElement u.flush with
            | ok b u' => rw [h1, h2] at hre; exact hre.elim
            | err e' u' => rw [h1, h2] at hre; exact hre
          | ok a t' =>
            cases h2 : TS.readElement u.flush with
            | err e' u' => rw [h1, h2] at hre; exact hre.elim
            | ok b u' =>
              rw [h1, h2] at hre
              -- graceful end: depth becomes 0
              have hdd : t'.depth = 0 := by
                unfold TS.readElement at h1
                simp only [TS.flush, hk] at h1
                split at h1 <;> cases h1
                rfl
              simp only
              have hf2 : 0 < fuel := by omega
              have hf2' : 0 < fuel' := by omega
              obtain ⟨f1, rfl⟩ : ∃ k, fuel = k + 1 := ⟨fuel - 1, by omega⟩
              obtain ⟨f2, rfl⟩ : ∃ k, fuel' = k + 1 := ⟨fuel' - 1, by omega⟩
              unfold TS.skipUpLoop
              rw [if_neg (by omega), if_neg (by rw [← hre.2.depth]; omega)]
              exact ⟨rfl, hre.2⟩
        | cons a l =>
          obtain ⟨hh, k⟩ := a
          by_cases hpk : k = .padding
          · -- padding: only `t` moves
            subst hpk
            have h1 : TS.nextElement t = .ok .padding { t.flush with pos := t.flush.pos + hh, toks := l } := by
              unfold TS.nextElement
              rw [if_neg (by simp [he])]
              unfold TS.readElement
              have : t.flush.toks = (hh, .padding) :: l := hk
              rw [this]
              simp only [elemOf, Tok.depthAfter, contentOf]
              congr 1
              simp [TS.flush, he]
            rw [M.bind_ok h1]
            have hstep : PadEq { t.flush with pos := t.flush.pos + hh, toks := l } u.flush := by
              refine ⟨h.depth, h.eof, h.graceful, rfl, ?_, h.nopad⟩
              have := h.toks
              rw [hk] at this
              simpa [stripPads, TS.flush] using this
            have hlen : t.toks.length = l.length + 1 := by rw [hk]; rfl
            have := ih (fuel' + 1) { t.flush with pos := t.flush.pos + hh, toks := l } u.flush hstep (by simp only; omega) (by exact hf') (by intro h'; simp [TS.flush, he] at h')
            have hfl : TS.skipUpLoop d (fuel' + 1) u.flush = (do let _ ← TS.nextElement; TS.skipUpLoop d fuel' : M Err TS Unit) u := by
              unfold TS.skipUpLoop
              rw [if_pos (show u.flush.depth > d from hd), M.bind_apply, M.bind_apply]
              have : TS.nextElement u.flush = TS.nextElement u := by
                unfold TS.nextElement
                rw [if_neg (by rw [show u.flush.eof = u.eof from rfl, ← h.eof, he]; simp), if_neg (by rw [← h.eof, he]; simp)]
                rfl
              rw [this]
            rw [hfl] at this
            rw [if_pos hd]
            exact this
          · rw [if_pos hd]
            have hre := readElement_pad h.flush (by intro x hx; simp [TS.flush, hk] at hx; subst hx; exact hpk)
            rw [M.bind_apply, M.bind_apply]
            have e1 : TS.nextElement t = TS.readElement t.flush := by unfold TS.nextElement; rw [if_neg (by simp [he])]
            have e2 : TS.nextElement u = TS.readElement u.flush := by unfold TS.nextElement; rw [if_neg (by rw [← h.eof]; simp [he])]
            rw [e1, e2]
            have r1 : TS.readElement t.flush = .ok (elemOf t.flush.pos t.depth k)
                { t.flush with pos := t.flush.pos + hh, depth := k.depthAfter t.depth, eof := decide (k = .endDoc), cur := contentOf k, toks := l } := by
              unfold TS.readElement
              have : t.flush.toks = (hh, k) :: l := hk
              rw [this]; rfl
            rw [r1] at hre ⊢
            cases h2 : TS.readElement u.flush with
            | err e' u' => rw [h2] at hre; exact hre.elim
            | ok b u' =>
              rw [h2] at hre
              simp only
              have hlt : u'.toks.length < u.toks.length := by
                unfold TS.readElement at h2
                cases hu : u.toks with
                | nil =>
                  have := h.toks
                  rw [hk, hu] at this
                  simp [stripPads, hpk] at this
                | cons x xs =>
                  have : u.flush.toks = x :: xs := hu
                  rw [this] at h2
                  cases h2
                  simp
              refine ih fuel' _ u' hre.2 (by have hlen : t.toks.length = l.length + 1 := (by rw [hk]; rfl); simp only; omega) (by omega) ?_
              intro h'
              simp only [decide_eq_true_eq] at h'
              subst h'
              exact Nat.zero_le _
      · rw [if_neg (by rw [h.depth]; exact hd), if_neg hd]
        exact ⟨rfl, h⟩

/-- At the end of the document the depth is 0. -/
def TS.EofOk (t : TS) : Prop := t.eof = true → t.depth = 0

theorem exec_pad {β : Type} (o : Op β) (ho : o.noPadding) {t u : TS} (h : PadEq t u) (hE : t.EofOk) :
    RPad o.erase (TS.exec o t) (TS.exec o u) := by
  cases o with
  | nextField => exact nextField_pad h
  | nextElement => exact ho.elim
  | skipUp d =>
    simp only [TS.exec]
    exact skipUpLoop_pad d _ _ t u h (by omega) (by omega) (fun he => by rw [hE he]; omega)
  | commit => exact ⟨rfl, h.flush⟩
  | clearEof => exact ⟨rfl, h.depth, rfl, h.graceful, h.cur, h.toks, h.nopad⟩
  | eof => exact ⟨h.eof, h⟩
  | pos => exact ⟨rfl, h⟩
  | structDepth => exact ⟨h.depth, h⟩
  | readFully max =>
    show RPad _ (TS.onBlob (fun c t => if c.length > max then Res.err (.largeBlob max c.length) t else TS.take c.length c t) t)
      (TS.onBlob (fun c t => if c.length > max then Res.err (.largeBlob max c.length) t else TS.take c.length c t) u)
    refine h.onBlob _ (fun c _ => ?_)
    show RPad _ (if c.length > max then Res.err _ t else TS.take c.length c t) (if c.length > max then Res.err _ u else TS.take c.length c u)
    by_cases hc : c.length > max
    · rw [if_pos hc, if_pos hc]; exact ⟨rfl, h⟩
    · rw [if_neg hc, if_neg hc]; exact h.take _ c
  | readOrTrunc max => exact h.onBlob _ (fun c _ => h.take max c)
  | read want => exact ho.elim
  | slice => exact h.onBlob _ (fun c _ => ⟨rfl, h⟩)
  | remaining => exact h.onBlob _ (fun c _ => ⟨rfl, h⟩)

theorem TS.EofOk.readElement {t : TS} (h : t.EofOk) : (TS.readElement t).state.EofOk := by
  unfold TS.readElement
  split
  · split
    · intro _; rfl
    · exact h
  · intro he
    simp only [Res.state_ok, decide_eq_true_eq] at he ⊢
    subst he; rfl

theorem TS.EofOk.nextField {t : TS} (h : t.EofOk) : (TS.nextField t).state.EofOk := by
  unfold TS.nextField
  split
  · exact h
  · have := TS.EofOk.readElement (t := t.flush.unpad) h
    cases hr : TS.readElement t.flush.unpad with
    | err e t' => rw [hr] at this; exact this
    | ok a t' =>
      rw [hr] at this
      cases a <;> try exact this
      simp only
      unfold TS.onBlob
      cases hc : t'.cur with
      | none => exact this
      | some c => exact this

theorem TS.EofOk.nextElement {t : TS} (h : t.EofOk) : (TS.nextElement t).state.EofOk := by
  unfold TS.nextElement
  split
  · exact h
  · exact TS.EofOk.readElement (t := t.flush) h

theorem TS.EofOk.skipUpLoop (d : Nat) : ∀ (fuel : Nat) {t : TS}, t.EofOk → (TS.skipUpLoop d fuel t).state.EofOk := by
  intro fuel
  induction fuel with
  | zero => intro t h; exact h
  | succ fuel ih =>
    intro t h
    unfold TS.skipUpLoop
    split
    · have hn := h.nextElement
      rw [M.bind_apply]
      cases hr : TS.nextElement t with
      | ok a t' => rw [hr] at hn; exact ih hn
      | err e t' => rw [hr] at hn; exact hn
    · exact h

theorem TS.EofOk.exec {β : Type} (o : Op β) {t : TS} (h : t.EofOk) : (TS.exec o t).state.EofOk := by
  have hb : ∀ {α : Type} (f : List Byte → M Err TS α), (∀ c, (f c t).state.EofOk) → (TS.onBlob f t).state.EofOk := by
    intro α f hf
    unfold TS.onBlob
    cases t.cur with
    | none => exact h
    | some c => exact hf c
  cases o with
  | nextField => exact h.nextField
  | nextElement => exact h.nextElement
  | skipUp d => exact TS.EofOk.skipUpLoop d _ h
  | commit => exact h
  | clearEof => intro h'; cases h'
  | eof => exact h
  | pos => exact h
  | structDepth => exact h
  | readFully max =>
    show (TS.onBlob (fun c t => if c.length > max then Res.err (.largeBlob max c.length) t else TS.take c.length c t) t).state.EofOk
    refine hb _ fun c => ?_
    by_cases hc : c.length > max
    · simp only [if_pos hc]; exact h
    · simp only [if_neg hc]; exact h
  | readOrTrunc max => exact hb _ fun c => h
  | read want => exact hb _ fun c => h
  | slice => exact hb _ fun c => h
  | remaining => exact hb _ fun c => h

theorem TS.EofOk.pull (fields : Bool) {t : TS} (h : t.EofOk) : (TS.pull fields t).state.EofOk := by
  unfold TS.pull
  cases fields with
  | true =>
    simp only [if_true]
    have := h.nextField
    cases hr : TS.nextField t with
    | ok a t' => rw [hr] at this; cases a <;> exact this
    | err e t' => rw [hr] at this; exact this
  | false =>
    simp only [Bool.false_eq_true, if_false]
    have := h.nextElement
    cases hr : TS.nextElement t with
    | ok a t' => rw [hr] at this; cases a <;> exact this
    | err e t' => rw [hr] at this; exact this

/-- Programs: same outcome. -/
def RPP {ε U α : Type} : Res (Stop ε) (TS × U) α → Res (Stop ε) (TS × U) α → Prop
  | .ok a st, .ok b st' => a = b ∧ PadEq st.1 st'.1 ∧ st.1.EofOk ∧ st.2 = st'.2
  | .err e st, .err e' st' => e = e' ∧ PadEq st.1 st'.1 ∧ st.1.EofOk ∧ st.2 = st'.2
  | _, _ => False

theorem pull_pad {t u : TS} (h : PadEq t u) : RPad (Option.map Element.erase) (TS.pull true t) (TS.pull true u) := by
  have := nextField_pad h
  unfold TS.pull
  simp only [if_true]
  cases h1 : TS.nextField t with
  | err e t' =>
    cases h2 : TS.nextField u with
    | ok b u' => rw [h1, h2] at this; exact this.elim
    | err e' u' => rw [h1, h2] at this; exact this
  | ok a t' =>
    cases h2 : TS.nextField u with
    | err e' u' => rw [h1, h2] at this; exact this.elim
    | ok b u' =>
      rw [h1, h2] at this
      obtain ⟨he, hp⟩ := this
      cases a <;> cases b <;> simp at he
      · exact ⟨rfl, hp⟩
      · exact ⟨by simp [Element.erase, he], hp⟩

theorem runLoop_pad {ε U β α : Type} (body : β → Element → M (Stop ε) (TS × U) (β ⊕ α))
    (onErr : Err → M (Stop ε) (TS × U) α) (onEnd : β → M (Stop ε) (TS × U) α)
    (hb : ∀ b e e' t t' u, e.erase = e'.erase → PadEq t t' → t.EofOk → RPP (body b e (t, u)) (body b e' (t', u)))
    (hE : ∀ e t t' u, PadEq t t' → t.EofOk → RPP (onErr e (t, u)) (onErr e (t', u)))
    (hN : ∀ b t t' u, PadEq t t' → t.EofOk → RPP (onEnd b (t, u)) (onEnd b (t', u)))
    (hmono : ∀ b e t u r t' u', body b e (t, u) = .ok r (t', u') → t'.toks.length ≤ t.toks.length) :
    ∀ (fuel fuel' : Nat) (b : β) (t t' : TS) (u : U), PadEq t t' → t.EofOk → t.toks.length < fuel → t'.toks.length < fuel' →
    RPP (TS.runLoop true body onErr onEnd fuel b (t, u)) (TS.runLoop true body onErr onEnd fuel' b (t', u)) := by
  intro fuel
  induction fuel with
  | zero => intro _ _ _ _ _ _ _ h; omega
  | succ fuel ih =>
    intro fuel' b t t' u h ho hf hf'
    cases fuel' with
    | zero => omega
    | succ fuel' =>
      unfold TS.runLoop
      have hP := pull_pad h
      have hO := ho.pull true
      simp only
      cases hp : TS.pull true t with
      | err e s =>
        rw [hp] at hP hO
        cases hp' : TS.pull true t' with
        | ok o s' => rw [hp'] at hP; exact hP.elim
        | err e' s' =>
          rw [hp'] at hP
          obtain ⟨rfl, hP⟩ := hP
          simp only
          by_cases ha : e.abnormal = true
          · rw [if_pos ha, if_pos ha]; exact ⟨rfl, hP, hO, rfl⟩
          · rw [if_neg ha, if_neg ha]; exact hE _ _ _ _ hP hO
      | ok o s =>
        rw [hp] at hP hO
        cases hp' : TS.pull true t' with
        | err e' s' => rw [hp'] at hP; exact hP.elim
        | ok o' s' =>
          rw [hp'] at hP
          obtain ⟨he, hP⟩ := hP
          cases o with
          | none =>
            cases o' with
            | none => exact hN _ _ _ _ hP hO
            | some => simp at he
          | some el =>
            cases o' with
            | none => simp at he
            | some el' =>
              simp at he
              simp only
              have hB := hb b el el' s s' u he hP hO
              have hlt := TS.pull_some hp
              have hlt' := TS.pull_some hp'
              cases hr : body b el (s, u) with
              | err e st =>
                rw [hr] at hB
                cases hr' : body b el' (s', u) with
                | ok o t' => rw [hr'] at hB; exact hB.elim
                | err e' t' => rw [hr'] at hB; exact hB
              | ok r st =>
                rw [hr] at hB
                cases hr' : body b el' (s', u) with
                | err e' t' => rw [hr'] at hB; exact hB.elim
                | ok r' st' =>
                  rw [hr'] at hB
                  obtain ⟨rfl, hA, hO', hu⟩ := hB
                  obtain ⟨s2, u2⟩ := st
                  obtain ⟨t2, u2'⟩ := st'
                  simp only at hA hu
                  subst hu
                  cases r with
                  | inr a => exact ⟨rfl, hA, hO', rfl⟩
                  | inl b' =>
                    have := hmono _ _ _ _ _ _ _ hr'
                    have := hmono _ _ _ _ _ _ _ hr
                    exact ih fuel' b' s2 t2 u2 hA hO' (by omega) (by omega)

theorem Prog.abs_pad {ε U : Type} : ∀ {α : Type} (p : Prog ε U α), p.UsesNextField → ∀ (t t' : TS) (u : U), PadEq t t' → t.EofOk →
    RPP (p.blind.abs (t, u)) (p.blind.abs (t', u)) := by
  intro α p
  induction p with
  | ret a => intro _ t t' u h ho; exact ⟨rfl, h, ho, rfl⟩
  | fail e => intro _ t t' u h ho; exact ⟨rfl, h, ho, rfl⟩
  | getU => intro _ t t' u h ho; exact ⟨rfl, h, ho, rfl⟩
  | setU u => intro _ t t' u h ho; exact ⟨rfl, h, ho, rfl⟩
  | op o =>
    intro hw t t' u h ho
    have hX := exec_pad o hw h ho
    have hO := TS.EofOk.exec o ho
    simp only [Prog.blind, Prog.abs]
    cases h1 : TS.exec o t with
    | ok a s =>
      rw [h1] at hX hO
      cases h2 : TS.exec o t' with
      | err e s' => rw [h2] at hX; exact hX.elim
      | ok b s' => rw [h2] at hX; exact ⟨by simp only [hX.1], hX.2, hO, rfl⟩
    | err e s =>
      rw [h1] at hX hO
      cases h2 : TS.exec o t' with
      | ok b s' => rw [h2] at hX; exact hX.elim
      | err e' s' =>
        rw [h2] at hX
        obtain ⟨rfl, hX⟩ := hX
        simp only
        by_cases ha : e.abnormal = true
        · rw [if_pos ha, if_pos ha]; exact ⟨rfl, hX, hO, rfl⟩
        · rw [if_neg ha, if_neg ha]; exact ⟨rfl, hX, hO, rfl⟩
  | call o f =>
    intro hw t t' u h ho
    have hX := exec_pad o hw h ho
    have hO := TS.EofOk.exec o ho
    simp only [Prog.blind, Prog.abs]
    cases h1 : TS.exec o t with
    | ok a s =>
      rw [h1] at hX hO
      cases h2 : TS.exec o t' with
      | err e s' => rw [h2] at hX; exact hX.elim
      | ok b s' => rw [h2] at hX; exact ⟨hX.1, hX.2, hO, rfl⟩
    | err e s =>
      rw [h1] at hX hO
      cases h2 : TS.exec o t' with
      | ok b s' => rw [h2] at hX; exact hX.elim
      | err e' s' =>
        rw [h2] at hX
        obtain ⟨rfl, hX⟩ := hX
        simp only
        by_cases ha : e.abnormal = true
        · rw [if_pos ha, if_pos ha]; exact ⟨rfl, hX, hO, rfl⟩
        · rw [if_neg ha, if_neg ha]; exact ⟨rfl, hX, hO, rfl⟩
  | bind p f ihp ihf =>
    intro hw t t' u h ho
    have h1 := ihp hw.1 t t' u h ho
    simp only [Prog.blind, Prog.abs]
    cases hr : p.blind.abs (t, u) with
    | ok a st =>
      rw [hr] at h1
      cases hr' : p.blind.abs (t', u) with
      | err e st' => rw [hr'] at h1; exact h1.elim
      | ok b st' =>
        rw [hr'] at h1
        obtain ⟨rfl, h2, h3, h4⟩ := h1
        obtain ⟨s2, u2⟩ := st
        obtain ⟨t2, u2'⟩ := st'
        simp only at h2 h3 h4
        subst h4
        exact ihf a (hw.2 a) _ _ _ h2 h3
    | err e st =>
      rw [hr] at h1
      cases hr' : p.blind.abs (t', u) with
      | ok b st' => rw [hr'] at h1; exact h1.elim
      | err e' st' => rw [hr'] at h1; exact h1
  | attempt p ih =>
    intro hw t t' u h ho
    have h1 := ih hw t t' u h ho
    simp only [Prog.blind, Prog.abs]
    cases hr : p.blind.abs (t, u) with
    | ok a st =>
      rw [hr] at h1
      cases hr' : p.blind.abs (t', u) with
      | err e st' => rw [hr'] at h1; exact h1.elim
      | ok b st' => rw [hr'] at h1; obtain ⟨rfl, h2⟩ := h1; exact ⟨rfl, h2⟩
    | err e st =>
      rw [hr] at h1
      cases hr' : p.blind.abs (t', u) with
      | ok b st' => rw [hr'] at h1; exact h1.elim
      | err e' st' =>
        rw [hr'] at h1
        obtain ⟨rfl, h2⟩ := h1
        cases e with
        | client e => exact ⟨rfl, h2⟩
        | abort e => exact ⟨rfl, h2⟩
  | loop fields init body onErr onEnd ihb ihe ihd =>
    intro hw t t' u h ho
    obtain ⟨rfl, hw1, hw2, hw3⟩ := hw
    simp only [Prog.blind, Prog.abs]
    refine runLoop_pad _ _ _ ?_ (fun e t t' u h ho => ihe e (hw2 e) t t' u h ho) (fun b t t' u h ho => ihd b (hw3 b) t t' u h ho) ?_ _ _ init t t' u h ho (by omega) (by omega)
    · intro b e e' t t' u he h ho
      simp only [he]
      exact ihb b _ (hw1 b _) t t' u h ho
    · intro b e t u r t' u' h
      have := Prog.abs_mono (body b e.erase).blind (t, u)
      rw [h] at this
      exact this

theorem Prog.blind_whole {ε U : Type} : ∀ {α : Type} (p : Prog ε U α), p.UsesNextField → p.blind.OpsAll Op.whole := by
  have hop : ∀ {β : Type} (o : Op β), o.noPadding → o.whole := by intro β o; cases o <;> simp [Op.noPadding, Op.whole]
  intro α p
  induction p with
  | ret a => intro _; trivial
  | fail e => intro _; trivial
  | getU => intro _; trivial
  | setU u => intro _; trivial
  | op o => intro h; exact ⟨hop o h, fun _ => trivial⟩
  | call o f => intro h; exact ⟨hop o h, fun _ => trivial⟩
  | bind p f ihp ihf => intro h; exact ⟨ihp h.1, fun a => ihf a (h.2 a)⟩
  | attempt p ih => intro h; exact ih h
  | loop fields init body onErr onEnd ihb ihe ihd =>
    intro h
    exact ⟨fun b e => ihb b _ (h.2.1 b _), fun e => ihe e (h.2.2.1 e), fun b => ihd b (h.2.2.2 b)⟩

namespace Props

/-- Same outcome of two runs: same value, error and state of the client, and the streams agree in depth and end flag. -/
def SameOutcome {ε U α : Type} : Res (Stop ε) (PSt U) α → Res (Stop ε) (PSt U) α → Prop
  | .ok a st, .ok b st' => a = b ∧ st.1.depth = st'.1.depth ∧ st.1.eof = st'.1.eof ∧ st.2 = st'.2
  | .err e st, .err e' st' => e = e' ∧ st.1.depth = st'.1.depth ∧ st.1.eof = st'.1.eof ∧ st.2 = st'.2
  | _, _ => False

/-- **C16** Two inputs whose elements are the same apart from padding (and which may be spelled, chunked, positioned
differently, seekable or not) cannot be told apart by a client that uses `next_field` and cannot see byte offsets, whatever it does. -/
theorem c16_padding_transparent {ε U α : Type} (p : Prog ε U α) (hp : p.UsesNextField) (s s' : Stream) (u : U)
    (ts ts' : List Tok) (bs bs' : List Byte) (hs : Over s bs) (hs' : Over s' bs') (hr : s.pos + bs.length < U64MAX) (hr' : s'.pos + bs'.length < U64MAX)
    (henc : EncToks ts bs) (henc' : EncToks ts' bs') (hd : s.depth = s'.depth) (hg : s.graceful = s'.graceful)
    (hpad : ts.filter (· ≠ .padding) = ts'.filter (· ≠ .padding)) :
    SameOutcome (p.blind.run (s, u)) (p.blind.run (s', u)) := by
  obtain ⟨hh, e1, e2⟩ := henc.toH
  obtain ⟨hh', e1', e2'⟩ := henc'.toH
  have ab : ∀ {s : Stream} {bs : List Byte} {hh : List HTok}, Over s bs → s.pos + bs.length < U64MAX → EncH hh bs →
      Abs s ⟨s.pos, s.depth, false, s.graceful, none, hh⟩ := by
    intro s bs hh hs hr he
    have hb : s.rest = bs := hs.rest
    exact Abs.ofFresh (by rw [hb]; exact hr) hs.fresh.eof hs.fresh.commit hs.fresh.live hs.benign hs.within (by rw [hb]; exact he)
  have a1 := Prog.run_abs p.blind (Prog.blind_whole p hp) s _ u (ab hs hr e1)
  have a2 := Prog.run_abs p.blind (Prog.blind_whole p hp) s' _ u (ab hs' hr' e1')
  -- a common padding-free stream
  let c : TS := ⟨0, s.depth, false, s.graceful, none, (stripPads ts).map (fun k => (0, k))⟩
  have hmap : ∀ l : List Tok, (l.map (fun k => ((0, k) : HTok))).map (·.2) = l := by intro l; simp [List.map_map, Function.comp_def]
  have hnp : ∀ x ∈ c.toks, x.2 ≠ .padding := by
    intro x hx
    simp only [c, List.mem_map, stripPads, List.mem_filter, decide_eq_true_eq] at hx
    obtain ⟨k, ⟨-, hk⟩, rfl⟩ := hx
    exact hk
  have p1 := Prog.abs_pad p hp ⟨s.pos, s.depth, false, s.graceful, none, hh⟩ c u
    ⟨rfl, rfl, rfl, rfl, by simp only [c, hmap]; rw [e2], hnp⟩ (by intro h; cases h)
  have p2 := Prog.abs_pad p hp ⟨s'.pos, s'.depth, false, s'.graceful, none, hh'⟩ c u
    ⟨hd.symm, rfl, hg.symm, rfl, by simp only [c, hmap, stripPads]; rw [e2']; exact hpad.symm, hnp⟩ (by intro h; cases h)
  have dep : ∀ {s : Stream} {t : TS}, Abs s t → s.depth = t.depth ∧ s.eof = t.eof := by
    intro s t h
    obtain ⟨r, h1, -⟩ := h.at_
    exact ⟨h1.depth, h1.eof⟩
  generalize p.blind.run (s, u) = r1 at *
  generalize p.blind.run (s', u) = r2 at *
  generalize p.blind.abs (_, u) = q1 at a1 p1
  generalize p.blind.abs ((⟨s'.pos, s'.depth, false, s'.graceful, none, hh'⟩ : TS), u) = q2 at a2 p2
  generalize p.blind.abs (c, u) = q3 at p1 p2
  cases r1 <;> cases q1 <;> (try exact a1.elim) <;> cases q3 <;> (try exact p1.elim) <;> cases q2 <;> (try exact p2.elim) <;>
    cases r2 <;> (try exact a2.elim)
  all_goals
    obtain ⟨x1, x2, x3⟩ := a1
    obtain ⟨y1, y2, y3⟩ := a2
    obtain ⟨z1, z2, -, z3⟩ := p1
    obtain ⟨w1, w2, -, w3⟩ := p2
    refine ⟨by rw [x1, y1, z1, w1], ?_, ?_, by rw [x3, y3, z3, w3]⟩
    · rw [(dep x2).1, (dep y2).1, z2.depth, w2.depth]
    · rw [(dep x2).2, (dep y2).2, z2.eof, w2.eof]

/-- A client which reports tags, kinds and blob contents it sees at the outermost level; it skips what is nested. -/
def c16Client : Prog Err (List Byte) (List Byte) :=
  .loop true ([] : List Byte) (fun acc e => match e with
    | .field f => match f.value with
      | .blob _ => .bind (.op (.readFully 100)) fun r => match r with
        | .ok d => .ret (.inl (acc ++ f.tag :: d))
        | .error e => .fail e
      | _ => .bind (.call (.skipUp f.depth) id) fun _ => .ret (.inl (acc ++ [f.tag]))
    | _ => .ret (.inl acc)) .fail .ret

example : c16Client.UsesNextField := by
  refine ⟨rfl, fun b e => ?_, fun e => trivial, fun b => trivial⟩
  cases e with
  | field f =>
    show Prog.UsesNextField (match f.value with | .blob _ => _ | _ => _)
    cases f.value with
    | blob n => exact ⟨trivial, fun a => by cases a <;> trivial⟩
    | int n => exact ⟨trivial, fun a => trivial⟩
    | struct => exact ⟨trivial, fun a => trivial⟩
    | enum n => exact ⟨trivial, fun a => trivial⟩
  | _ => trivial

example : (c16Client.blind.run (Stream.fromSlice [0xC1, 0x81, 1, 5, 0x00, 0x82, 2, 8, 9, 0x00], [])).state.1.depth = 0 := by decide +kernel
example : (match c16Client.blind.run (Stream.fromSlice [0xC0, 0xC1, 0xC0, 0xC0, 0x81, 1, 5, 0xC0, 0x00, 0xC0, 0x82, 2, 8, 9, 0xC0, 0x00], []) with
    | .ok a _ => a | .err _ _ => []) = [1, 2, 8, 9] := by decide +kernel

end Props
end Fourleaf
