import Verif.Shift
import Verif.Budget

/-! # Deserialising from streams that differ in where they are -/

namespace Fourleaf
open Spec

/-- The kind of error, all positions larger by `k`. -/
def Kind.sh (k : Nat) : Kind → Kind
  | .unknownField tag pos => .unknownField tag (pos + k)
  | e => e

/-- The path, all positions larger by `k`. -/
def pathSh (k : Nat) (p : List PathFrame) : List PathFrame := p.map fun x => (x.1, x.2 + k)

/-- The error, all positions larger by `k`. -/
def DErr.sh (k : Nat) (e : DErr) : DErr := ⟨e.kind.sh k, pathSh k e.path⟩

/-- The context, all positions larger by `k`. -/
def Ctx.sh (k : Nat) (c : Ctx) : Ctx := { c with path := pathSh k c.path }

/-- How the outcomes are related: the same value, the stream being as far; the same error but for the positions; or the stream further ahead runs out of positions. -/
inductive SR {α : Type} (k : Nat) (A : List Byte) : Res (Stop DErr) (PSt Stats) α → Res (Stop DErr) (PSt Stats) α → Prop where
  | ok {a s u} : SR k A (.ok a (s, u)) (.ok a (moved k A s, u))
  | err {e st st'} : SR k A (.err (.client e) st) (.err (.client (e.sh k)) st')
  | abort {e st st'} : SR k A (.err (.abort e) st) (.err (.abort e) st')
  | over {r e st} : e.kind = .stream posOverflow → SR k A r (.err (.client e) st)

/-- Both streams are in a proper state. -/
structure Both (k : Nat) (A : List Byte) (s : Stream) : Prop where
  inv : Inv s
  inv' : Inv (moved k A s)
  low : Low k A s

theorem Both.step {k : Nat} {A : List Byte} {s s' : Stream} (h : Both k A s) (hs : Step s s') (hs' : Step (moved k A s) (moved k A s')) : Both k A s' :=
  ⟨hs.inv, hs'.inv, h.low.frame hs.frame⟩

namespace SR
variable {α β : Type} {k : Nat} {A : List Byte} {s : Stream} {u : Stats} {c : Ctx}

theorem ret {x : α} : SR k A ((.ret x : P α).run (s, u)) ((.ret x : P α).run (moved k A s, u)) := .ok

theorem fail {e : Kind} : SR k A ((c.fail e : P α).run (s, u)) (((c.sh k).fail (e.sh k) : P α).run (moved k A s, u)) := by
  simp only [Ctx.fail, Prog.run]; exact .err (e := ⟨e, c.path⟩)

theorem lift {x : Except Err α} : SR k A ((c.lift x).run (s, u)) (((c.sh k).lift x).run (moved k A s, u)) := by
  cases x
  · exact fail
  · exact ret

/-- The general form of sequencing. -/
theorem bindG {γ : Type} {p p' : P γ} {g : γ → γ} {f f' : γ → P β} (hb : Both k A s)
    (h : (∃ x s' u', p.run (s, u) = .ok x (s', u') ∧ p'.run (moved k A s, u) = .ok (g x) (moved k A s', u')) ∨
      (∃ e st st', p.run (s, u) = .err (.client e) st ∧ p'.run (moved k A s, u) = .err (.client (e.sh k)) st') ∨
      ∃ e st, p'.run (moved k A s, u) = .err (.client e) st ∧ e.kind = .stream posOverflow)
    (hf : ∀ x s' u', p.run (s, u) = .ok x (s', u') → Both k A s' → SR k A ((f x).run (s', u')) ((f' (g x)).run (moved k A s', u'))) :
    SR k A ((Prog.bind p f).run (s, u)) ((Prog.bind p' f').run (moved k A s, u)) := by
  have hs := Prog.run_safe p (s, u) hb.inv
  have hs' := Prog.run_safe p' (moved k A s, u) hb.inv'
  simp only [Prog.run]
  rcases h with ⟨x, s', u', h1, h2⟩ | ⟨e, st, st', h1, h2⟩ | ⟨e, st, h2, h3⟩
  · rw [h1] at hs ⊢
    rw [h2] at hs' ⊢
    exact hf x s' u' h1 (hb.step hs.step hs'.step)
  · rw [h1, h2]; exact .err
  · rw [h2]; exact .over h3

theorem cases' {r r' : Res (Stop DErr) (PSt Stats) α} (h : SR k A r r') (hn : ∀ e st, r = .err (.abort e) st → False) :
    (∃ x s' u', r = .ok x (s', u') ∧ r' = .ok x (moved k A s', u')) ∨
      (∃ e st st', r = .err (.client e) st ∧ r' = .err (.client (e.sh k)) st') ∨
      ∃ e st, r' = .err (.client e) st ∧ e.kind = .stream posOverflow := by
  cases h with
  | ok => exact .inl ⟨_, _, _, rfl, rfl⟩
  | err => exact .inr (.inl ⟨_, _, _, rfl, rfl⟩)
  | abort => exact absurd rfl (fun h => hn _ _ h)
  | over h => exact .inr (.inr ⟨_, _, rfl, h⟩)

theorem bind {p p' : P α} {f f' : α → P β} (hb : Both k A s) (h : SR k A (p.run (s, u)) (p'.run (moved k A s, u)))
    (hf : ∀ x s' u', p.run (s, u) = .ok x (s', u') → Both k A s' → SR k A ((f x).run (s', u')) ((f' x).run (moved k A s', u'))) :
    SR k A ((Prog.bind p f).run (s, u)) ((Prog.bind p' f').run (moved k A s, u)) :=
  bindG (g := id) hb (h.cases' (Prog.run_safe p (s, u) hb.inv).normal) hf

theorem call_cases (o : Op α) (hb : Both k A s) :
    (∃ x s' u', (c.call o).run (s, u) = .ok x (s', u') ∧ ((c.sh k).call o).run (moved k A s, u) = .ok (o.sh k x) (moved k A s', u')) ∨
      (∃ e st st', (c.call o).run (s, u) = .err (.client e) st ∧ ((c.sh k).call o).run (moved k A s, u) = .err (.client (e.sh k)) st') ∨
      ∃ e st, ((c.sh k).call o).run (moved k A s, u) = .err (.client e) st ∧ e.kind = .stream posOverflow := by
  have key := o.exec_sh hb.low hb.inv
  have hs := o.exec_safe hb.inv
  simp only [Ctx.call, Prog.run]
  revert key hs
  generalize o.exec s = r
  generalize o.exec (moved k A s) = r'
  intro key hs
  cases key with
  | ok => exact .inl ⟨_, _, _, rfl, rfl⟩
  | err =>
    rename_i e s'
    have := hs.normal e s' rfl
    simp only [this, Bool.false_eq_true, if_false]
    exact .inr (.inl ⟨_, _, _, rfl, rfl⟩)
  | over => exact .inr (.inr ⟨_, _, rfl, rfl⟩)

theorem call {o : Op α} (ho : o.sh k = id) (hb : Both k A s) : SR k A ((c.call o).run (s, u)) (((c.sh k).call o).run (moved k A s, u)) := by
  rcases call_cases (c := c) (u := u) o hb with ⟨x, s', u', h1, h2⟩ | ⟨e, st, st', h1, h2⟩ | ⟨e, st, h2, h3⟩
  · rw [h1, h2, ho]; exact .ok
  · rw [h1, h2]; exact .err
  · rw [h2]; exact .over h3

theorem bindCall {o : Op α} {f f' : α → P β} (hb : Both k A s)
    (hf : ∀ x s' u', (c.call o).run (s, u) = .ok x (s', u') → Both k A s' → SR k A ((f x).run (s', u')) ((f' (o.sh k x)).run (moved k A s', u'))) :
    SR k A ((Prog.bind (c.call o) f).run (s, u)) ((Prog.bind ((c.sh k).call o) f').run (moved k A s, u)) :=
  bindG hb (call_cases o hb) hf

theorem bind_lift {x : Except Err α} {f f' : α → P β} (hb : Both k A s) (hf : ∀ y, x = .ok y → SR k A ((f y).run (s, u)) ((f' y).run (moved k A s, u))) :
    SR k A ((Prog.bind (c.lift x) f).run (s, u)) ((Prog.bind ((c.sh k).lift x) f').run (moved k A s, u)) := by
  cases x with
  | error e => exact bind hb fail fun _ _ _ h => by simp [Ctx.fail, Ctx.lift, Prog.run] at h
  | ok y => exact bind hb ret fun _ _ _ h _ => by simp only [Ctx.lift, Prog.run] at h; cases h; exact hf y rfl

theorem push {name : String} {pos : Nat} {f f' : Ctx → P α}
    (hf : ∀ sub, SR k A ((f sub).run (s, u)) ((f' (sub.sh k)).run (moved k A s, u))) :
    SR k A ((Prog.bind (c.push name pos) f).run (s, u)) ((Prog.bind ((c.sh k).push name (pos + k)) f').run (moved k A s, u)) := by
  unfold Ctx.push
  show SR k A _ ((Prog.bind (if c.depth ≥ c.cfg.recursionLimit then _ else _) f').run _)
  split
  · simp only [Prog.run, Ctx.fail]; exact .err (e := ⟨.recursionLimitExceeded, c.path⟩)
  · have := hf ⟨c.path ++ [(name, pos)], c.depth + 1, c.cfg⟩
    simp only [Prog.run]
    simpa [Ctx.sh, pathSh] using this

theorem collect {f f' : Unit → P α} (hf : ∀ u', SR k A ((f ()).run (s, u')) ((f' ()).run (moved k A s, u'))) :
    SR k A ((Prog.bind (c.collect 1) f).run (s, u)) ((Prog.bind ((c.sh k).collect 1) f').run (moved k A s, u)) := by
  simp only [Ctx.collect, Prog.run]
  rw [show (c.sh k).cfg = c.cfg from rfl]
  by_cases h1 : u.collected > c.cfg.maxCollect
  · rw [if_pos h1, if_pos h1]; simp only [Prog.run, Ctx.fail]; exact .err (e := ⟨.panic, c.path⟩)
  · rw [if_neg h1, if_neg h1]
    by_cases h2 : c.cfg.maxCollect - u.collected < 1
    · rw [if_pos h2, if_pos h2]; simp only [Prog.run, Ctx.fail]; exact .err (e := ⟨.maxCollectExceeded, c.path⟩)
    · rw [if_neg h2, if_neg h2]; simp only [Prog.run]; exact hf _

theorem skip {f : Field} (hb : Both k A s) : SR k A ((c.skip f).run (s, u)) (((c.sh k).skip (f.sh k)).run (moved k A s, u)) := by
  unfold Ctx.skip
  show SR k A _ ((match f.value with | .struct => _ | .enum _ => _ | .int _ => _ | .blob _ => _ : P Unit).run _)
  cases f.value with
  | struct => exact call rfl hb
  | enum d => exact call rfl hb
  | int _ => exact ret
  | blob _ => exact ret

theorem ownedBlob {f : Field} (hb : Both k A s) :
    SR k A ((ownedBlob c f).run (s, u)) ((Fourleaf.ownedBlob (c.sh k) (f.sh k)).run (moved k A s, u)) := by
  unfold Fourleaf.ownedBlob
  refine bind_lift (f := fun len => .bind (c.blob len) fun _ => c.call (.readFully c.cfg.maxBlob)) hb fun n _ => ?_
  simp only [Ctx.blob, Prog.run]
  rw [show (c.sh k).cfg = c.cfg from rfl]
  by_cases h1 : u.blob > c.cfg.maxBlob
  · rw [if_pos h1, if_pos h1]; simp only [Prog.run, Ctx.fail]; exact .err (e := ⟨.panic, c.path⟩)
  · rw [if_neg h1, if_neg h1]
    by_cases h2 : c.cfg.maxBlob - u.blob < n
    · rw [if_pos h2, if_pos h2]; simp only [Prog.run, Ctx.fail]; exact .err (e := ⟨.maxBlobExceeded, c.path⟩)
    · rw [if_neg h2, if_neg h2]
      simp only [Prog.run]
      exact call (o := .readFully c.cfg.maxBlob) rfl hb

theorem extSlice {f : Field} (hb : Both k A s) :
    SR k A ((extSlice c f).run (s, u)) ((Fourleaf.extSlice (c.sh k) (f.sh k)).run (moved k A s, u)) :=
  bind_lift hb fun _ _ => call rfl hb

theorem vecConv {f : Field} (hb : Both k A s) :
    SR k A ((vecConv c f).run (s, u)) ((Fourleaf.vecConv (c.sh k) (f.sh k)).run (moved k A s, u)) :=
  bind hb (ownedBlob hb) fun _ _ _ _ _ => ret

theorem arrConv (n : Nat) {f : Field} (hb : Both k A s) :
    SR k A ((arrConv n c f).run (s, u)) ((Fourleaf.arrConv n (c.sh k) (f.sh k)).run (moved k A s, u)) := by
  refine bind_lift hb fun _ _ => bind hb (call rfl hb) fun r s' u' _ hb' => ?_
  split
  · exact fail
  · refine bind hb' (call rfl hb') fun d s' u' _ hb' => ?_
    split
    · exact fail
    · exact ret

theorem conv (p : Prim) {f : Field} (hb : Both k A s) :
    SR k A ((p.conv c f).run (s, u)) ((p.conv (c.sh k) (f.sh k)).run (moved k A s, u)) := by
  cases p with
  | phantom => exact bind hb lift fun _ _ _ _ _ => ret
  | bool => exact bind hb lift fun _ _ _ _ _ => ret
  | int k => exact bind hb lift fun _ _ _ _ _ => ret
  | char =>
    refine bind hb lift fun _ _ _ _ _ => ?_
    split
    · exact ret
    · exact fail
  | string =>
    refine bind hb (ownedBlob hb) fun _ _ _ _ _ => ?_
    split
    · exact ret
    · exact fail
  | strRef =>
    refine bind hb (extSlice hb) fun _ _ _ _ _ => ?_
    split
    · exact ret
    · exact fail
  | bytesRef => exact bind hb (extSlice hb) fun _ _ _ _ _ => ret

theorem discard {p p' : P β} {e : Kind} (hb : Both k A s) :
    SR k A ((discard p c e : P α).run (s, u)) ((Fourleaf.discard p' (c.sh k) (e.sh k) : P α).run (moved k A s, u)) := by
  have h1 := Prog.run_safe p (s, u) hb.inv
  have h2 := Prog.run_safe p' (moved k A s, u) hb.inv'
  have hd : ∀ (q : P β) (d : Ctx) (e : Kind) (t : Stream), (∀ x st, q.run (t, u) ≠ .err (.abort x) st) → ∃ st, (Fourleaf.discard q d e : P α).run (t, u) = .err (.client ⟨e, d.path⟩) st := by
    intro q d e t hq
    simp only [Fourleaf.discard, Prog.run, Ctx.fail]
    cases hr : q.run (t, u) with
    | ok x st => exact ⟨st, rfl⟩
    | err x st =>
      cases x with
      | client x => exact ⟨st, rfl⟩
      | abort x => exact absurd hr (hq x st)
  obtain ⟨st, e1⟩ := hd p c e s fun e st h => absurd h (h1.normal e st)
  obtain ⟨st', e2⟩ := hd p' (c.sh k) (e.sh k) (moved k A s) fun e st h => absurd h (h2.normal e st)
  rw [e1, e2]
  exact .err (e := ⟨e, c.path⟩)
end SR

/-- The methods on both streams. -/
structure MvOps (k : Nat) (A : List Byte) (o : Ops) : Prop where
  body : ∀ t c s u, Both k A s → SR k A ((o.body t c).run (s, u)) ((o.body t (c.sh k)).run (moved k A s, u))
  element : ∀ t c f s u, Both k A s → SR k A ((o.element t c f).run (s, u)) ((o.element t (c.sh k) (f.sh k)).run (moved k A s, u))
  field : ∀ t x c f s u, Both k A s → SR k A ((o.field t x c f).run (s, u)) ((o.field t x (c.sh k) (f.sh k)).run (moved k A s, u))
  finish : ∀ t x c s u, Both k A s → SR k A ((o.finish t x c).run (s, u)) ((o.finish t x (c.sh k)).run (moved k A s, u))

section
variable {env : Env} {k : Nat} {A : List Byte} {o : Ops} (H : MvOps k A o)
include H

theorem mv_fieldStep {fs : List FieldDecl} {unk : Option Bool} {c : Ctx} {st : LoopSt} {f : Field} {s : Stream} {u : Stats} (hb : Both k A s) :
    SR k A ((fieldStep o fs unk c st f).run (s, u)) ((fieldStep o fs unk (c.sh k) st (f.sh k)).run (moved k A s, u)) := by
  unfold fieldStep
  rw [show (f.sh k).tag = f.tag from rfl, show (f.sh k).pos = f.pos + k from rfl]
  split
  · split
    · exact .ret
    · exact .push fun sub => .bind hb (H.field _ _ sub f s u hb) fun _ _ _ _ _ => .ret
  · split
    · exact .push fun sub => .bind hb (H.field _ _ sub f s u hb) fun _ _ _ _ _ => .ret
    · refine .bind hb ?_ fun _ s' u' _ hb' => .bind hb' (.skip hb') fun _ _ _ _ _ => .ret
      unfold Ctx.unknownField
      show SR k A _ ((if c.cfg.ignoreUnknownFields = true then _ else _ : P Unit).run _)
      split
      · exact .ret
      · exact .fail

omit H in
theorem mv_runLoop {β α : Type} (body body' : β → Element → P (β ⊕ α)) (onErr onErr' : Err → M (Stop DErr) (PSt Stats) α) (onEnd onEnd' : β → M (Stop DErr) (PSt Stats) α)
    (hB : ∀ b e s u, Both k A s → SR k A ((body b e).run (s, u)) ((body' b (e.sh k)).run (moved k A s, u)))
    (hE : ∀ e s u, Both k A s → SR k A (onErr e (s, u)) (onErr' e (moved k A s, u))) (hO : ∀ s u, ∃ e st, onErr' posOverflow (s, u) = .err (.client e) st ∧ e.kind = .stream posOverflow)
    (hD : ∀ b s u, Both k A s → SR k A (onEnd b (s, u)) (onEnd' b (moved k A s, u))) : ∀ fuel b s u, Both k A s →
    SR k A (runLoop true (fun b e => (body b e).run) onErr onEnd fuel b (s, u)) (runLoop true (fun b e => (body' b e).run) onErr' onEnd' fuel b (moved k A s, u)) := by
  intro fuel
  induction fuel with
  | zero => intro b s u hb; exact .abort
  | succ fuel ih =>
    intro b s u hb
    simp only [runLoop]
    have hq := pull_sh (A := A) true hb.low hb.inv
    have hs := (pull_safe true hb.inv).1
    have hs' := (pull_safe true hb.inv').1
    revert hq hs hs'
    generalize pull true s = r
    generalize pull true (moved k A s) = r'
    intro hq hs hs'
    cases hq with
    | over =>
      rename_i t
      obtain ⟨e, st, h1, h2⟩ := hO t u
      show SR k A _ (onErr' posOverflow (t, u))
      rw [h1]; exact .over h2
    | err =>
      rename_i e s'
      have := hs.normal e s' rfl
      simp only [this, Bool.false_eq_true, if_false]
      exact hE _ _ _ (hb.step hs.step hs'.step)
    | ok =>
      rename_i o1 s'
      have hb' : Both k A s' := hb.step hs.step hs'.step
      cases o1 with
      | none => exact hD _ _ _ hb'
      | some el =>
        simp only [Option.map]
        have hB := hB b el s' u hb'
        have hsafe := Prog.run_safe (body b el) (s', u) hb'.inv
        have hsafe' := Prog.run_safe (body' b (el.sh k)) (moved k A s', u) hb'.inv'
        revert hB hsafe hsafe'
        generalize (body b el).run (s', u) = r
        generalize (body' b (el.sh k)).run (moved k A s', u) = r'
        intro hB hsafe hsafe'
        cases hB with
        | over h => exact .over h
        | err => exact .err
        | abort => exact .abort
        | ok =>
          rename_i y s2 u2
          cases y with
          | inl x' => exact ih x' s2 u2 (hb'.step hsafe.step hsafe'.step)
          | inr y => exact .ok

theorem mv_fieldLoop {fs : List FieldDecl} {unk : Option Bool} {c : Ctx} {s : Stream} {u : Stats} (hb : Both k A s) :
    SR k A ((fieldLoop o fs unk c).run (s, u)) ((fieldLoop o fs unk (c.sh k)).run (moved k A s, u)) := by
  simp only [fieldLoop, Prog.run]
  rw [moved_left]
  refine mv_runLoop _ _ _ _ _ _ (fun b e s u hb => ?_) (fun e s u hb => .fail) (fun s u => ⟨_, _, rfl, rfl⟩) (fun b s u hb => .ok) _ _ _ _ hb
  cases e with
  | field f => exact .bind hb (mv_fieldStep H hb) fun _ _ _ _ _ => .ret
  | _ => exact .ret

theorem mv_finishAll {c : Ctx} {st : LoopSt} : ∀ (fs : List FieldDecl) (i : Nat) (s : Stream) (u : Stats), Both k A s →
    SR k A ((finishAll o c st i fs).run (s, u)) ((finishAll o (c.sh k) st i fs).run (moved k A s, u))
  | [], i, s, u, hb => .ret
  | x :: xs, i, s, u, hb => by
    simp only [finishAll]
    refine .bindCall hb fun p s' u' _ hb' => .push fun sub => .bind hb' (H.finish _ _ _ _ _ hb') fun v s2 u2 _ hb2 => ?_
    exact .bind hb2 (mv_finishAll xs (i + 1) s2 u2 hb2) fun _ _ _ _ _ => .ret

theorem mv_structBody {fs : List FieldDecl} {c : Ctx} {s : Stream} {u : Stats} (hb : Both k A s) :
    SR k A ((structBody o fs c).run (s, u)) ((structBody o fs (c.sh k)).run (moved k A s, u)) :=
  .bind hb (mv_fieldLoop H hb) fun st s' u' _ hb' => mv_finishAll H fs 0 s' u' hb'

theorem mv_defaultBody {t : Ty} {c : Ctx} {s : Stream} {u : Stats} (hb : Both k A s) :
    SR k A ((defaultBody o t c).run (s, u)) ((defaultBody o t (c.sh k)).run (moved k A s, u)) :=
  .bind hb (mv_structBody H hb) fun _ _ _ _ _ => .ret

omit H in
theorem mv_construct {x : Body} {c : Ctx} {vs : List V} {s : Stream} {u : Stats} :
    SR k A ((construct x c vs).run (s, u)) ((construct x (c.sh k) vs).run (moved k A s, u)) := by
  unfold construct; split
  · exact .ret
  · exact .fail

theorem mv_macroBody {x : Body} {c : Ctx} {s : Stream} {u : Stats} (hb : Both k A s) :
    SR k A ((macroBody o x c).run (s, u)) ((macroBody o x (c.sh k)).run (moved k A s, u)) := by
  unfold macroBody
  split
  · exact .bind hb (mv_fieldLoop H hb) fun st s' u' _ hb' => .bind hb' (mv_finishAll H _ 0 s' u' hb') fun vs s2 u2 _ hb2 => mv_construct
  · refine .bindCall hb fun p s' u' _ hb' => .push fun sub => .bind hb' (H.body _ _ _ _ hb') fun v s2 u2 _ hb2 => ?_
    exact .bind hb2 (mv_finishAll H _ 0 s2 u2 hb2) fun vs s3 u3 _ _ => mv_construct
  · refine .bind hb (mv_fieldLoop H hb) fun st s' u' _ hb' => .bind hb' (mv_finishAll H _ 0 s' u' hb') fun vs s2 u2 _ hb2 => ?_
    exact .bindCall hb2 fun p s3 u3 _ hb3 => .push fun sub => .bind hb3 (H.finish _ _ _ _ _ hb3) fun v s4 u4 _ _ => mv_construct

theorem mv_bodyStep (t : Ty) (c : Ctx) (s : Stream) (u : Stats) (hb : Both k A s) :
    SR k A ((bodyStep env o t c).run (s, u)) ((bodyStep env o t (c.sh k)).run (moved k A s, u)) := by
  cases t with
  | boxed t => exact H.body t c s u hb
  | tuple ts => exact .bind hb (mv_structBody H hb) fun _ _ _ _ _ => .ret
  | unknownFields zc => exact .bind hb (mv_fieldLoop H hb) fun st s' u' _ hb' => H.finish _ _ _ _ _ hb'
  | named i =>
    simp only [bodyStep]
    split
    · exact .bind hb (mv_macroBody H hb) fun _ _ _ _ _ => .ret
    · exact mv_defaultBody H hb
  | prim _ | small _ _ | large _ _ | vec _ | coll _ _ | option _ | map _ _ | unknownField _ => exact mv_defaultBody H hb

theorem mv_viaStruct {t : Ty} {c : Ctx} {f : Field} {s : Stream} {u : Stats} (hb : Both k A s) :
    SR k A ((viaStruct o t c f).run (s, u)) ((viaStruct o t (c.sh k) (f.sh k)).run (moved k A s, u)) :=
  .bind_lift hb fun _ _ => H.body t c s u hb

theorem mv_enumElement {vs : List (UInt64 × Body)} {ca : Option Body} {c : Ctx} {f : Field} {s : Stream} {u : Stats} (hb : Both k A s) :
    SR k A ((enumElement o vs ca c f).run (s, u)) ((enumElement o vs ca (c.sh k) (f.sh k)).run (moved k A s, u)) := by
  refine .bind_lift hb fun d _ => ?_
  split
  · exact .bind hb (mv_macroBody H hb) fun _ _ _ _ _ => .ret
  · split
    · exact .bind hb (mv_macroBody H hb) fun _ _ _ _ _ => .ret
    · exact .fail

theorem mv_elementStep (t : Ty) (c : Ctx) (f : Field) (s : Stream) (u : Stats) (hb : Both k A s) :
    SR k A ((elementStep env o t c f).run (s, u)) ((elementStep env o t (c.sh k) (f.sh k)).run (moved k A s, u)) := by
  have hdef : ∀ t, SR k A ((defaultElement o t c f).run (s, u)) ((defaultElement o t (c.sh k) (f.sh k)).run (moved k A s, u)) := fun t =>
    .bind hb (H.field t .init c f s u hb) fun x s' u' _ hb' => H.finish t x c s' u' hb'
  cases t with
  | prim p => exact hdef _
  | unknownField zc => exact hdef _
  | boxed t => exact H.element t c f s u hb
  | small n e | large n e =>
    simp only [elementStep]
    split
    · exact .bind hb (.arrConv _ hb) fun _ _ _ _ _ => .ret
    · exact mv_viaStruct H hb
  | vec e =>
    simp only [elementStep]
    split
    · exact .bind hb (.vecConv hb) fun _ _ _ _ _ => .ret
    · exact mv_viaStruct H hb
  | coll _ _ | option _ | map _ _ | tuple _ | unknownFields _ => exact mv_viaStruct H hb
  | named i =>
    simp only [elementStep]
    split
    · split
      · exact .push fun sub => .bind hb (H.element _ _ _ _ _ hb) fun v s2 u2 _ hb2 => .bind hb2 mv_construct fun _ _ _ _ _ => .ret
      · exact mv_viaStruct H hb
    · exact mv_enumElement H hb

theorem mv_fieldMeth (t : Ty) (x : Acc) (c : Ctx) (f : Field) (s : Stream) (u : Stats) (hb : Both k A s) :
    SR k A ((fieldMeth o t x c f).run (s, u)) ((fieldMeth o t x (c.sh k) (f.sh k)).run (moved k A s, u)) := by
  have hel : ∀ (t : Ty) (g : V → Acc) (u : Stats), SR k A ((Prog.bind (o.element t c f) fun v => .ret (g v) : P Acc).run (s, u)) ((Prog.bind (o.element t (c.sh k) (f.sh k)) fun v => .ret (g v) : P Acc).run (moved k A s, u)) :=
    fun t g u => .bind hb (H.element t c f s u hb) fun _ _ _ _ _ => .ret
  cases t with
  | prim p =>
    simp only [fieldMeth]
    split
    · exact .fail
    · exact .bind hb (.conv p hb) fun _ _ _ _ _ => .ret
  | boxed t => exact H.field t x c f s u hb
  | small n e =>
    simp only [fieldMeth]
    split
    · split
      · exact .discard hb
      · exact .bind hb (.arrConv _ hb) fun _ _ _ _ _ => .ret
    · split
      · exact .fail
      · split
        · exact .fail
        · exact hel _ _ _
  | large n e =>
    simp only [fieldMeth]
    split
    · refine .bind hb (.arrConv _ hb) fun _ _ _ _ _ => ?_
      split
      · exact .fail
      · exact .ret
    · split
      · exact .fail
      · exact hel _ _ _
  | tuple ts | named i | option e =>
    simp only [fieldMeth]
    split
    · exact .fail
    · exact hel _ _ _
  | vec e =>
    simp only [fieldMeth]
    split
    · split
      · exact .discard hb
      · exact .bind hb (.vecConv hb) fun _ _ _ _ _ => .ret
    · exact .collect fun u' => hel _ _ _
  | coll k e => exact .collect fun u' => hel _ _ _
  | map tk tv => exact .collect fun u' => hel _ _ _
  | unknownFields zc => exact .collect fun u' => hel _ _ _
  | unknownField zc =>
    simp only [fieldMeth]
    rw [show (f.sh k).value = f.value from rfl]
    split
    · exact .fail
    · split
      · exact .ret
      · exact hel _ _ _
      · exact .bind hb (H.body _ _ _ _ hb) fun _ _ _ _ _ => .ret
      · exact .bind hb (H.body _ _ _ _ hb) fun _ _ _ _ _ => .ret

theorem mv_finishMeth (t : Ty) (x : Acc) (c : Ctx) (s : Stream) (u : Stats) (hb : Both k A s) :
    SR k A ((finishMeth o t x c).run (s, u)) ((finishMeth o t x (c.sh k)).run (moved k A s, u)) := by
  cases t with
  | boxed t => exact H.finish t x c s u hb
  | _ =>
    simp only [finishMeth]
    repeat' split
    all_goals first | exact .ret | exact .fail
end

theorem ops_mv (env : Env) (k : Nat) (A : List Byte) : ∀ n, MvOps k A (ops env n)
  | 0 =>
    { body := fun _ _ _ _ _ => .fail
      element := fun _ _ _ _ _ _ => .fail
      field := fun _ _ _ _ _ _ _ => .fail
      finish := fun _ _ _ _ _ _ => .fail }
  | n + 1 =>
    have ih := ops_mv env k A n
    { body := mv_bodyStep ih
      element := mv_elementStep ih
      field := mv_fieldMeth ih
      finish := mv_finishMeth ih }

theorem deserialize_mv (env : Env) (t : Ty) (cfg : Config) {k : Nat} {A : List Byte} {s : Stream} (hb : Both k A s) :
    SR k A ((deserialize env t cfg).run (s, .zero)) ((deserialize env t cfg).run (moved k A s, .zero)) :=
  (ops_mv env k A _).body t (.top cfg) s .zero hb

end Fourleaf
