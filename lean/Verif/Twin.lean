import Verif.PropsOwn
import Verif.PropsFail
import Verif.Junk

/-! # Borrowing and copying, side by side, on arbitrary bytes

The deserialiser of a type that borrows and that of the type that copies make the same calls, except that the one leaves the content of a blob unread where the other reads it (`Twin`); what they find next is the same. -/

namespace Fourleaf
open Spec
open Props (unread commit_whole commit_none OwnTy OwnFields OwnTail OwnBody OwnVariants OwnDecl OwnEnv Dir)

/-- Reading on element by element one meets a blob that is cut off by the end of the input. -/
inductive Meets : Stream → Prop where
  | here {s : Stream} : s.live = true → s.rest.length < blobRemaining s → Meets s
  | next {s s' : Stream} {e : Element} : nextElement s = .ok e s' → Meets s' → Meets s

/-- A stream over a slice; with graceful EOF it does not seek. -/
structure OnSlice (s : Stream) : Prop where
  inv : Inv s
  sched : s.inner.sched = []
  mode : s.graceful = true → NoSeek s

theorem OnSlice.step {s s' : Stream} (h : OnSlice s) (hs : Step s s') : OnSlice s' :=
  ⟨hs.inv, by have := hs.frame.sched; rw [h.sched] at this; exact List.suffix_nil.1 this, fun hg => (h.mode (hs.frame.graceful.symm.trans hg)).frame hs.frame⟩

/-- The same stream, or one where the content of a blob has been read and one where it has not. -/
inductive Twin : Stream → Stream → Prop where
  | same {s : Stream} : Twin s s
  | read {s : Stream} : s.live = true → blobRemaining s ≤ s.rest.length → Twin s (advBy s (blobRemaining s) [])

theorem blob_lost {s : Stream} (h : OnSlice s) (hl : s.live = true) (hc : s.rest.length < blobRemaining s) : Lost s := by
  obtain ⟨h1, h2⟩ := h.inv.liveOk hl
  have hr := rest_length s
  have he : s.eof = false := by
    cases he : s.eof with
    | false => rfl
    | true => have := h.inv.eofCommit he; rw [h1] at this; cases this
  unfold blobRemaining at hc
  cases hg : s.graceful with
  | false => exact .inl ⟨he, hg, by unfold vpos; rw [if_pos h1]; omega⟩
  | true => exact .inr ⟨he, h1, h.mode hg, h2, by omega⟩

theorem commit_read {s : Stream} (h : OnSlice s) (hl : s.live = true) (hc : blobRemaining s ≤ s.rest.length) :
    commit (advBy s (blobRemaining s) []) = commit s := by
  obtain ⟨h1, h2⟩ := h.inv.liveOk hl
  have hp := h.inv.pend
  rw [h1] at hp; simp at hp
  have hr := rest_length s
  have hu : unread s = blobRemaining s := by simp [unread, h1, blobRemaining]
  obtain ⟨k, sc, k1, k2, k3⟩ := commit_whole h.inv (by omega : s.inner.pos + unread s ≤ s.inner.data.length)
  rw [h.sched] at k2
  have := List.suffix_nil.1 k2
  subst this
  rcases k3 with ⟨k3, k4⟩ | ⟨k3, -⟩
  · rw [k4, k3, hu]
    have hb : ¬ (advBy s (blobRemaining s) []).blobEnd > (advBy s (blobRemaining s) []).pos := by
      show ¬ s.blobEnd > s.pos + blobRemaining s
      unfold blobRemaining; omega
    have : skipBlob (advBy s (blobRemaining s) []) = .ok () (advBy s (blobRemaining s) []) := by
      unfold skipBlob; rw [if_neg hb]
    unfold commit
    rw [show (advBy s (blobRemaining s) []).commit = some .skipBlob from h1]
    dsimp only
    rw [this]
  · exact absurd (by rw [h.sched]; intro e he; cases he) k3

theorem Twin.impl {s s' : Stream} (h : OnSlice s) (ht : Twin s s') (sp : Bool) : nextElementImpl sp s' = nextElementImpl sp s := by
  cases ht with
  | same => rfl
  | read hl hc =>
    unfold nextElementImpl
    rw [show (advBy s (blobRemaining s) []).eof = s.eof from rfl]
    split
    · rename_i he
      have := h.inv.eofCommit he
      rw [(h.inv.liveOk hl).1] at this; cases this
    · have hcr := commit_read h hl hc
      cases hx : commit s with
      | err e s1 => rw [hx] at hcr; rw [M.bind_err hx, M.bind_err hcr]
      | ok e s1 => rw [hx] at hcr; rw [M.bind_ok hx, M.bind_ok hcr]

theorem Twin.pull {s s' : Stream} (h : OnSlice s) (ht : Twin s s') (fields : Bool) : Fourleaf.pull fields s' = Fourleaf.pull fields s := by
  have h1 := ht.impl h true
  have h2 := ht.impl h false
  unfold Fourleaf.pull
  have h3 : nextField s' = nextField s := by
    unfold nextField
    cases hx : nextElementImpl true s with
    | err e s1 => rw [hx] at h1; rw [M.bind_err hx, M.bind_err h1]
    | ok e s1 => rw [hx] at h1; rw [M.bind_ok hx, M.bind_ok h1]
  have h4 : nextElement s' = nextElement s := h2
  rw [h3, h4]

theorem Twin.meets {s s' : Stream} (h : OnSlice s) (ht : Twin s s') (hm : Meets s') : Meets s := by
  cases hm with
  | here hl hc =>
    cases ht with
    | same => exact .here hl hc
    | read hl' hc' =>
      have hp := h.inv.pend
      rw [(h.inv.liveOk hl').1] at hp; simp at hp
      have : blobRemaining (advBy s (blobRemaining s) []) = 0 := by
        show s.blobEnd - (s.pos + blobRemaining s) = 0
        unfold blobRemaining; omega
      rw [this] at hc; exact absurd hc (by omega)
  | next he hm => exact .next ((ht.impl h false).symm.trans he) hm

/-- Skipping padding is reading on element by element. -/
theorem skipPad_meets : ∀ (fuel : Nat) {s s' : Stream} {e : Element}, Inv s → s.commit = none → s.eof = false → skipPadLoop fuel s = .ok e s' → Meets s' → Meets s := by
  intro fuel
  induction fuel with
  | zero => intro s s' e _ _ _ h; cases h
  | succ fuel ih =>
    intro s s' e hi hc he h hm
    rw [skipPadLoop] at h
    have hne : ∀ {e2 s2}, readElement s = .ok e2 s2 → nextElement s = .ok e2 s2 := by
      intro e2 s2 hr
      unfold nextElement nextElementImpl
      rw [if_neg (by rw [he]; simp), M.bind_ok (commit_none hc)]
      exact hr
    cases hr : readElement s with
    | err e' s2 => rw [M.bind_err hr] at h; cases h
    | ok e' s2 =>
      rw [M.bind_ok hr, M.ite_apply] at h
      have hR := readElement_safe hi hc he
      split at h
      · rename_i hp
        subst hp
        have hsh := readElement_shape hi hc he hr
        rw [hr] at hR
        exact .next (hne hr) (ih hR.1.step.inv hsh ((hR.2 _ _ rfl).1.1 (by simp)) h hm)
      · cases h; exact .next (hne hr) hm

theorem impl_meets {sp : Bool} {s s' : Stream} {e : Element} (hi : Inv s) (h : nextElementImpl sp s = .ok e s') (hm : Meets s') : Meets s := by
  cases sp with
  | false => exact .next h hm
  | true =>
    have h0 := h
    unfold nextElementImpl at h
    by_cases he : s.eof = true
    · rw [if_pos he] at h; cases h; exact hm
    · rw [if_neg he] at h
      have hC := commit_safe hi
      cases hr : commit s with
      | err e' s2 => rw [M.bind_err hr] at h; cases h
      | ok u s2 =>
        rw [hr] at hC
        obtain ⟨h1, h2, -, -⟩ := hC.2 _ _ rfl
        have hi2 : Inv s2 := hC.1.step.inv
        rw [M.bind_ok hr] at h
        have he2 : s2.eof = false := by rw [h2]; simpa using he
        have h2' : Meets s2 := skipPad_meets _ hi2 h1 he2 h hm
        have : nextElement s = nextElement s2 := by
          unfold nextElement nextElementImpl
          rw [if_neg he, if_neg (show ¬ s2.eof = true by simp [he2]), M.bind_ok hr, M.bind_ok (commit_none h1)]
        cases h2' with
        | here hl _ => rw [hi2.notLive h1] at hl; cases hl
        | next hn hm => exact .next (this.trans hn) hm

theorem pull_meets {s s' : Stream} {e : Option Element} (hi : Inv s) (h : pull true s = .ok e s') (hm : Meets s') : Meets s := by
  obtain ⟨f, h1, -⟩ := pull_true_ok h
  unfold nextField at h1
  cases hr : nextElementImpl true s with
  | err e s2 => rw [M.bind_err hr] at h1; cases h1
  | ok e s2 =>
    rw [M.bind_ok hr] at h1
    refine impl_meets hi hr ?_
    cases e with
    | padding => cases h1
    | endOfStruct | endOfDoc | field f => cases h1; exact hm
    | exception n =>
      dsimp only at h1
      cases hm : readOrTrunc 256 s2 with
      | ok m s3 => rw [M.bind_ok hm] at h1; cases h1
      | err e s3 => rw [M.bind_err hm] at h1; cases h1

theorem skipUpLoop_meets (d : Nat) : ∀ (fuel : Nat) {s s' : Stream}, skipUpLoop d fuel s = .ok () s' → Meets s' → Meets s := by
  intro fuel
  induction fuel with
  | zero => intro s s' h; cases h
  | succ fuel ih =>
    intro s s' h hm
    rw [skipUpLoop] at h
    split at h
    · cases hr : nextElement s with
      | err e s2 => rw [M.bind_err hr] at h; cases h
      | ok e s2 => rw [M.bind_ok hr] at h; exact .next hr (ih h hm)
    · cases h; exact hm

theorem skipUp_meets {d : Nat} {s s' : Stream} (h : skipUp d s = .ok () s') (hm : Meets s') : Meets s := skipUpLoop_meets d _ h hm

/-- Nothing is returned, unless by a stream that will find the input cut off. -/
def Bad {α : Type} (r : Res (Stop DErr) (PSt Stats) α) : Prop := ∀ x st, r = .ok x st → Lost st.1 ∧ Inv st.1

theorem Bad.of {α : Type} {p : P α} (hp : Strict p) {s : Stream} {u : Stats} (hi : Inv s) (h : Lost s) : Bad (p.run (s, u)) := by
  intro x st hr
  have := (p.run_safe (s, u) hi).step
  rw [hr] at this
  exact ⟨h.run hp hi hr, this.inv⟩

theorem Bad.bind {α β : Type} {p : P α} {f : α → P β} (hf : ∀ x, Strict (f x)) {s : Stream} {u : Stats} (h : Bad (p.run (s, u))) : Bad ((Prog.bind p f).run (s, u)) := by
  intro x st hr
  simp only [Prog.run] at hr
  cases hp : p.run (s, u) with
  | err e st1 => rw [hp] at hr; cases hr
  | ok y st1 =>
    rw [hp] at hr
    obtain ⟨h1, h2⟩ := h y st1 hp
    exact Bad.of (hf y) h2 h1 x st hr

/-- The statistics of both: the copying side has counted at least as many bytes. -/
structure StatR (u u' : Stats) : Prop where
  collected : u'.collected = u.collected
  blob : u.blob ≤ u'.blob

/-- How the outcomes of the borrowing and of the copying side are related. -/
inductive TwR {α : Type} (R : α → α → Prop) (E : Stream → Stream → Prop) (s : Stream) : Res (Stop DErr) (PSt Stats) α → Res (Stop DErr) (PSt Stats) α → Prop where
  | ok {x y : α} {s1 s2 : Stream} {u1 u2 : Stats} : R x y → E s1 s2 → StatR u1 u2 → (Meets s1 → Meets s) → OnSlice s1 → TwR R E s (.ok x (s1, u1)) (.ok y (s2, u2))
  /-- the same error at the same place -/
  | err {e e' : DErr} {st st'} : e'.kind = e.kind → e'.path.map (·.2) = e.path.map (·.2) → TwR R E s (.err (.client e) st) (.err (.client e') st')
  | abort {e : Err} {st st'} : TwR R E s (.err (.abort e) st) (.err (.abort e) st')
  /-- the bytes copied exceed the limit -/
  | limit {r} {e : DErr} {st} : e.kind = .maxBlobExceeded → TwR R E s r (.err (.client e) st)
  /-- the input is cut off inside a blob -/
  | cut {r r'} : Meets s → Bad r → Bad r' → TwR R E s r r'
  /-- excluded later -/
  | overL {r} {e : DErr} {st} : e.kind = .panic ∨ e.kind = .stackOverflow → TwR R E s (.err (.client e) st) r
  | overR {r} {e : DErr} {st} : e.kind = .panic ∨ e.kind = .stackOverflow → TwR R E s r (.err (.client e) st)

/-- The same context, up to names. -/
structure CtxT (c c' : Ctx) : Prop where
  path : c'.path.map (·.2) = c.path.map (·.2)
  depth : c'.depth = c.depth
  cfg : c'.cfg = c.cfg

theorem discard_run {α β : Type} {p : P β} {c : Ctx} {k : Kind} {s : Stream} {u : Stats} (hi : Inv s) : ∃ st, (discard p c k : P α).run (s, u) = .err (.client ⟨k, c.path⟩) st := by
  have hq := Prog.run_safe p (s, u) hi
  simp only [discard, Prog.run, Ctx.fail]
  cases hr : p.run (s, u) with
  | ok x st => exact ⟨st, rfl⟩
  | err e st =>
    cases e with
    | client e => exact ⟨st, rfl⟩
    | abort e => exact absurd hr (hq.normal e st)

namespace TwR
variable {α β : Type} {R : α → α → Prop} {E : Stream → Stream → Prop} {s s' : Stream} {u u' : Stats} {c c' : Ctx}

theorem imp {R' : α → α → Prop} {E' : Stream → Stream → Prop} {r r'} (h : TwR R E s r r') (hR : ∀ x y, R x y → R' x y) (hE : ∀ a b, E a b → E' a b) : TwR R' E' s r r' := by
  cases h with
  | ok a b c d e => exact .ok (hR _ _ a) (hE _ _ b) c d e
  | err a b => exact .err a b
  | abort => exact .abort
  | limit h => exact .limit h
  | cut a b c => exact .cut a b c
  | overL h => exact .overL h
  | overR h => exact .overR h

theorem twin {r r'} (h : TwR R Eq s r r') : TwR R Twin s r r' := h.imp (fun _ _ h => h) (fun _ _ h => h ▸ .same)

theorem ret {x y : α} (hR : R x y) (hE : E s s') (hu : StatR u u') (hs : OnSlice s) : TwR R E s ((.ret x : P α).run (s, u)) ((.ret y : P α).run (s', u')) := .ok hR hE hu id hs

theorem fail {k : Kind} {st st' : PSt Stats} (hc : CtxT c c') : TwR R E s ((c.fail k : P α).run st) ((c'.fail k : P α).run st') := .err rfl hc.path

theorem bind {R' : β → β → Prop} {E' : Stream → Stream → Prop} {p p' : P α} {f f' : α → P β} {s0 : Stream} (h : TwR R E s0 (p.run (s, u)) (p'.run (s', u')))
    (hs : ∀ x, Strict (f x)) (hs' : ∀ x, Strict (f' x))
    (hf : ∀ x y s1 s2 u1 u2, R x y → E s1 s2 → StatR u1 u2 → OnSlice s1 → TwR R' E' s1 ((f x).run (s1, u1)) ((f' y).run (s2, u2))) :
    TwR R' E' s0 ((Prog.bind p f).run (s, u)) ((Prog.bind p' f').run (s', u')) := by
  have hb := @Bad.bind α β p f hs s u
  have hb' := @Bad.bind α β p' f' hs' s' u'
  simp only [Prog.run] at hb hb' ⊢
  revert h hb hb'
  generalize p.run (s, u) = r
  generalize p'.run (s', u') = r'
  intro h hb hb'
  cases h with
  | ok a b c d e =>
    have := hf _ _ _ _ _ _ a b c e
    dsimp only
    revert this
    generalize (f _).run _ = q
    generalize (f' _).run _ = q'
    intro this
    cases this with
    | ok a b c d' e => exact .ok a b c (fun h => d (d' h)) e
    | err a b => exact .err a b
    | abort => exact .abort
    | limit h => exact .limit h
    | cut a b c => exact .cut (d a) b c
    | overL h => exact .overL h
    | overR h => exact .overR h
  | err a b => exact .err a b
  | abort => exact .abort
  | limit h => exact .limit h
  | cut a b c => exact .cut a (hb b) (hb' c)
  | overL h => exact .overL h
  | overR h => exact .overR h

theorem call {o : Op α} (hc : CtxT c c') (h : OnSlice s) (hu : StatR u u') (hm : ∀ b s1, o.exec s = .ok b s1 → Meets s1 → Meets s) :
    TwR Eq Eq s ((c.call o).run (s, u)) ((c'.call o).run (s, u')) := by
  have hS := ((c.call o).run_safe (s, u) h.inv).step
  simp only [Ctx.call, Prog.run] at hS ⊢
  cases hx : o.exec s with
  | ok b s1 =>
    rw [hx] at hS
    exact .ok rfl rfl hu (hm b s1 hx) (h.step hS)
  | err e s1 =>
    dsimp only
    split
    · exact .abort
    · exact .err rfl hc.path

theorem pos (hc : CtxT c c') (h : OnSlice s) (hu : StatR u u') : TwR Eq Eq s ((c.call .pos).run (s, u)) ((c'.call .pos).run (s, u')) :=
  call hc h hu fun _ _ hx hm => by cases hx; exact hm

theorem bind_lift {x : Except Err α} {R' : β → β → Prop} {f f' : α → P β} (hc : CtxT c c') (hf : ∀ y, x = .ok y → TwR R' E s ((f y).run (s, u)) ((f' y).run (s', u'))) :
    TwR R' E s ((Prog.bind (c.lift x) f).run (s, u)) ((Prog.bind (c'.lift x) f').run (s', u')) := by
  cases x with
  | error e => exact .err rfl hc.path
  | ok y => exact hf y rfl

theorem push {name name' : String} {pos : Nat} {f f' : Ctx → P α} (hc : CtxT c c')
    (hf : ∀ sub sub', CtxT sub sub' → TwR R E s ((f sub).run (s, u)) ((f' sub').run (s', u'))) :
    TwR R E s ((Prog.bind (c.push name pos) f).run (s, u)) ((Prog.bind (c'.push name' pos) f').run (s', u')) := by
  unfold Ctx.push
  rw [hc.depth, hc.cfg]
  split
  · exact .err rfl hc.path
  · exact hf _ _ ⟨by simp [hc.path], rfl, rfl⟩

theorem collect (hc : CtxT c c') (hu : StatR u u') {f f' : Unit → P α} (hf : ∀ u1 u2, StatR u1 u2 → TwR R E s ((f ()).run (s, u1)) ((f' ()).run (s', u2))) :
    TwR R E s ((Prog.bind (c.collect 1) f).run (s, u)) ((Prog.bind (c'.collect 1) f').run (s', u')) := by
  simp only [Ctx.collect, Prog.run, hc.cfg, hu.collected]
  by_cases h : u.collected > c.cfg.maxCollect
  · rw [if_pos h, if_pos h]; exact .err rfl hc.path
  · rw [if_neg h, if_neg h]
    by_cases h1 : c.cfg.maxCollect - u.collected < 1
    · rw [if_pos h1, if_pos h1]; exact .err rfl hc.path
    · rw [if_neg h1, if_neg h1]
      exact hf _ _ ⟨rfl, hu.blob⟩

theorem skip {f : Field} (hc : CtxT c c') (h : OnSlice s) (hu : StatR u u') : TwR Eq Eq s ((c.skip f).run (s, u)) ((c'.skip f).run (s, u')) := by
  unfold Ctx.skip; split
  · exact call hc h hu fun _ _ hx hm => skipUp_meets hx hm
  · exact call hc h hu fun _ _ hx hm => skipUp_meets hx hm
  · exact ret rfl rfl hu h
  · exact ret rfl rfl hu h

theorem discard {R : α → α → Prop} {p p' : P β} {k : Kind} (hc : CtxT c c') (hi : Inv s) (hi' : Inv s') :
    TwR R E s ((discard p c k : P α).run (s, u)) ((Fourleaf.discard p' c' k : P α).run (s', u')) := by
  obtain ⟨st, e1⟩ := discard_run (α := α) (p := p) (c := c) (k := k) (u := u) hi
  obtain ⟨st', e2⟩ := discard_run (α := α) (p := p') (c := c') (k := k) (u := u') hi'
  rw [e1, e2]
  exact .err rfl hc.path
end TwR

/-! ## The content of a blob -/

/-- A blob field has just been read: the handle is at its start. -/
def BlobAt (s : Stream) (f : Field) : Prop := ∀ n, f.value = .blob n → s.live = true ∧ s.blobEnd = s.pos + n

theorem readFully_exec {s : Stream} (h : OnSlice s) (hl : s.live = true) (hc : blobRemaining s ≤ s.rest.length) {max : Nat} (hm : blobRemaining s ≤ max) :
    Op.exec (.readFully max) s = .ok (s.rest.take (blobRemaining s)) (advBy s (blobRemaining s) []) := by
  obtain ⟨h1, h2⟩ := h.inv.liveOk hl
  have hp := h.inv.pend
  rw [h1] at hp; simp at hp
  simp only [Op.exec, onLiveBlob, hl, if_true, readFully]
  rw [if_neg (by omega)]
  obtain ⟨k, sc, k1, k2, k3, k4⟩ := drain_blob_spec (blobRemaining s) s (Nat.le_refl _) hp.2
  rw [h.sched] at k3
  have := List.suffix_nil.1 k3
  subst this
  rcases k4 with ⟨k4, k5⟩ | ⟨k4, -⟩
  · rw [k5, k4, Nat.min_eq_left hc]; rfl
  · exact absurd (by rw [h.sched]; intro e he; cases he) k4

theorem slice_exec {s : Stream} (h : OnSlice s) (hl : s.live = true) (hc : blobRemaining s ≤ s.rest.length) :
    Op.exec .slice s = .ok (s.rest.take (blobRemaining s)) s := by
  obtain ⟨h1, h2⟩ := h.inv.liveOk hl
  simp only [Op.exec, onLiveBlob, hl, if_true, blobSlice]
  have hi : innerSlice s = .ok s.inner.rest s := by unfold innerSlice; rw [if_neg (by omega)]
  rw [M.bind_ok hi, M.bind_ok (M.get_apply s), M.ite_apply, if_pos (by exact hc)]
  rfl

theorem advBy_onSlice {s : Stream} (h : OnSlice s) (hl : s.live = true) (hc : blobRemaining s ≤ s.rest.length) : OnSlice (advBy s (blobRemaining s) []) := by
  have hx := readFully_exec h hl hc (Nat.le_refl _)
  have hS := ((Prog.call (.readFully (blobRemaining s)) (fun e => (⟨.stream e, []⟩ : DErr)) : P (List Byte)).run_safe (s, Stats.zero) h.inv).step
  simp only [Prog.run, hx] at hS
  exact h.step hS

namespace TwR
variable {α β : Type} {R : α → α → Prop} {E : Stream → Stream → Prop} {s : Stream} {u u' : Stats} {c c' : Ctx} {f : Field}

/-- The content is there, or this is where the input is cut off. -/
theorem content {p p' : P α} {n : Nat} (h : OnSlice s) (hf : BlobAt s f) (hv : f.value = .blob n) (hp : Strict p) (hp' : Strict p')
    (hk : s.live = true → blobRemaining s = n → n ≤ s.rest.length → TwR R E s (p.run (s, u)) (p'.run (s, u'))) : TwR R E s (p.run (s, u)) (p'.run (s, u')) := by
  obtain ⟨hl, hb⟩ := hf n hv
  have hn : blobRemaining s = n := by unfold blobRemaining; omega
  by_cases hc : n ≤ s.rest.length
  · exact hk hl hn hc
  · have hc' : s.rest.length < blobRemaining s := by omega
    have hL := blob_lost h hl hc'
    exact .cut (.here hl hc') (.of hp h.inv hL) (.of hp' h.inv hL)

theorem toBlob_split {p p' : Nat → P α} (h : OnSlice s) (hf : BlobAt s f) (hc : CtxT c c') (hp : ∀ n, Strict (p n)) (hp' : ∀ n, Strict (p' n))
    (hk : ∀ n, s.live = true → blobRemaining s = n → n ≤ s.rest.length → TwR R E s ((p n).run (s, u)) ((p' n).run (s, u'))) :
    TwR R E s ((Prog.bind (c.lift f.value.toBlob) p).run (s, u)) ((Prog.bind (c'.lift f.value.toBlob) p').run (s, u')) :=
  bind_lift hc fun n hn => content h hf (toBlob_ok hn) (hp n) (hp' n) (hk n)

theorem extSlice (h : OnSlice s) (hc : CtxT c c') (hu : StatR u u') : TwR Eq Eq s ((extSlice c f).run (s, u)) ((Fourleaf.extSlice c' f).run (s, u')) :=
  bind_lift hc fun _ _ => call hc h hu fun _ _ hx hm => by
    have : ∀ {a s1}, blobSlice s = .ok a s1 → s1 = s := by
      intro a s1 hx
      unfold blobSlice innerSlice at hx
      rw [M.bind_apply] at hx
      split at hx
      · rename_i a s2 h1
        split at h1
        · cases h1
        · cases h1
          rw [M.bind_ok (M.get_apply s), M.ite_apply] at hx
          split at hx <;> cases hx
          rfl
      · cases hx
    simp only [Op.exec, onLiveBlob] at hx
    split at hx
    · rw [this hx] at hm; exact hm
    · cases hx

/-- Borrowing and copying the content. -/
theorem sliceOwned (h : OnSlice s) (hf : BlobAt s f) (hc : CtxT c c') (hu : StatR u u') : TwR Eq Twin s ((Fourleaf.extSlice c f).run (s, u)) ((ownedBlob c' f).run (s, u')) := by
  refine toBlob_split h hf hc (fun n => .call _ trivial) (fun n => (Strict.blob _ _).bind fun _ => .call _ trivial) fun n hl hn hcn => ?_
  subst hn
  simp only [Ctx.blob, Prog.run]
  by_cases h1 : u'.blob > c'.cfg.maxBlob
  · rw [if_pos h1]; exact .overR (.inl rfl)
  · rw [if_neg h1]
    by_cases h2 : c'.cfg.maxBlob - u'.blob < blobRemaining s
    · rw [if_pos h2]; exact .limit rfl
    · rw [if_neg h2]
      simp only [Ctx.call, Prog.run, slice_exec h hl hcn, readFully_exec h hl hcn (show blobRemaining s ≤ c'.cfg.maxBlob by omega)]
      exact .ok rfl (.read hl hcn) ⟨hu.collected, by have := hu.blob; show u.blob ≤ u'.blob + _; omega⟩ id h

theorem ownedOwned (h : OnSlice s) (hf : BlobAt s f) (hc : CtxT c c') (hu : StatR u u') : TwR Eq Twin s ((ownedBlob c f).run (s, u)) ((ownedBlob c' f).run (s, u')) := by
  refine toBlob_split h hf hc (fun n => (Strict.blob _ _).bind fun _ => .call _ trivial) (fun n => (Strict.blob _ _).bind fun _ => .call _ trivial) fun n hl hn hcn => ?_
  subst hn
  have hub := hu.blob
  simp only [Ctx.blob, Prog.run, hc.cfg]
  by_cases h1 : u'.blob > c.cfg.maxBlob
  · rw [if_pos h1]; exact .overR (.inl rfl)
  · rw [if_neg h1, if_neg (by omega)]
    by_cases h2 : c.cfg.maxBlob - u'.blob < blobRemaining s
    · rw [if_pos h2]; exact .limit rfl
    · rw [if_neg h2, if_neg (by omega)]
      simp only [Ctx.call, Prog.run, readFully_exec h hl hcn (show blobRemaining s ≤ c.cfg.maxBlob by omega)]
      exact .ok rfl .same ⟨hu.collected, by show u.blob + _ ≤ u'.blob + _; omega⟩ (fun hm => (Twin.read hl hcn).meets h hm) (advBy_onSlice h hl hcn)

theorem arrConv (n : Nat) (h : OnSlice s) (hf : BlobAt s f) (hc : CtxT c c') (hu : StatR u u') : TwR Eq Twin s ((arrConv n c f).run (s, u)) ((Fourleaf.arrConv n c' f).run (s, u')) := by
  have hst : ∀ (c : Ctx), Strict (.bind (c.call .remaining) fun r => if r ≠ n then c.fail .invalidValueMsg
      else .bind (c.call (.readFully n)) fun d => if d.length < n then c.fail (.stream (.io .unexpectedEof)) else .ret (d.map fun b => V.num b.toNat) : P (List V)) := fun c =>
    (Strict.call (o := .remaining) _ trivial).bind fun _ => by
      split
      · exact Strict.fail _ _
      · refine (Strict.call (o := .readFully n) _ trivial).bind fun _ => ?_
        split
        · exact Strict.fail _ _
        · exact Strict.ret _
  refine toBlob_split h hf hc (fun _ => hst c) (fun _ => hst c') fun k hl hn hcn => ?_
  subst hn
  simp only [Prog.run, Ctx.call]
  have : Op.exec .remaining s = .ok (blobRemaining s) s := by simp [Op.exec, onLiveBlob, hl]
  simp only [this]
  by_cases hr : blobRemaining s ≠ n
  · rw [if_pos hr, if_pos hr]; exact .err rfl hc.path
  · rw [if_neg hr, if_neg hr]
    have hr : blobRemaining s = n := by omega
    simp only [Prog.run, readFully_exec h hl hcn (show blobRemaining s ≤ n by omega)]
    split
    · exact .err rfl hc.path
    · exact .ok rfl .same hu (fun hm => (Twin.read hl hcn).meets h hm) (advBy_onSlice h hl hcn)
end TwR

end Fourleaf
