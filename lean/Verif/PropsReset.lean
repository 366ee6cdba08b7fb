import Verif.PropsShift
import Verif.PropsSeek

/-! # C76: `reset_pos` changes what positions are called, and nothing else -/

namespace Fourleaf
namespace Props
open Fourleaf Spec

theorem reset_commits {s : Stream} (h : SInv s) (p : Nat) :
    (∃ e s1, commit s = .err e s1 ∧ resetPos p s = .err e s1) ∨
    (∃ s1, commit s = .ok () s1 ∧ s1.commit = none ∧ SInv s1 ∧ resetPos p s = .ok () { s1 with blobEnd := 0, dynStart := 0, pos := p }) := by
  unfold resetPos
  have hC := commit_good h
  cases hr : commit s with
  | err e s1 => exact .inl ⟨e, s1, rfl, by rw [M.bind_err hr]⟩
  | ok u s1 =>
    rw [hr] at hC
    obtain ⟨c1, -, -, -⟩ := hC.2 _ _ rfl
    have hs1 := hC.1.inv
    simp only [Res.state_ok] at hs1
    exact .inr ⟨s1, rfl, c1, hs1, by rw [M.bind_ok hr, M.modify_apply]⟩

/-- **C76** Whatever has been done with a stream before (in any session, with errors): `reset_pos` does what `commit` does, fails exactly if that fails (and in the same way), and otherwise only
changes the tracked position to the given one: the byte stream, the depth, and the flags for the end of the document and for graceful end of input are what they are after a `commit`. Unless
the end of the document has been read, the stream is the committed one for all clients, except for the numbering of positions (`SameAhead`). -/
theorem c76_reset_pos (i : Inner) (useSeek : Bool) (cs : List SCall) (p : UInt64) :
    let s := (Session.run cs (Session.start i useSeek)).stream
    (∀ e s1, commit s = .err e s1 → resetPos p.toNat s = .err e s1) ∧
    (∀ s1, commit s = .ok () s1 → ∃ s', resetPos p.toNat s = .ok () s' ∧ s'.pos = p.toNat ∧ s'.inner = s1.inner ∧ s'.depth = s1.depth ∧ s'.eof = s1.eof ∧ s'.graceful = s1.graceful ∧
      s'.useSeek = s1.useSeek ∧ commit s' = .ok () s' ∧ (s1.eof = false → SameAhead s1 s')) := by
  have hx := run_xinv cs _ (start_xinv i useSeek)
  dsimp only
  rcases reset_commits hx.stream p.toNat with ⟨e, s1, h1, h2⟩ | ⟨s1, h1, h2, h3, h4⟩
  · rw [h1, h2]
    exact ⟨fun e' s' h => (by cases h; rfl), fun s' h => (by cases h)⟩
  · rw [h1, h4]
    refine ⟨fun e' s' h => (by cases h), fun s' h => ?_⟩
    cases h
    have hl : s1.live = false := by
      cases hl : s1.live with
      | false => rfl
      | true => have := h3.liveOk hl; rw [h2] at this; cases this
    have hp : p.toNat ≤ U64MAX := by have := p.toNat_lt; unfold U64MAX; omega
    refine ⟨_, rfl, rfl, rfl, rfl, rfl, rfl, rfl, ?_, fun he => ⟨⟨h3.pos_le, he, h2, hl⟩, ⟨hp, he, h2, hl⟩, rfl, rfl, rfl, rfl, rfl, rfl⟩⟩
    unfold commit
    simp only [h2]

/-- **C76** So what a client does after `reset_pos`, looking at positions relative to the new one, it would have done after a `commit` (unless one of the two runs out of positions); and what is
deserialised is the same, or the same error with positions in it that are off by the difference. -/
theorem c76_client (i : Inner) (useSeek : Bool) (cs : List SCall) (p : UInt64) (s1 s' : Stream)
    (h1 : commit (Session.run cs (Session.start i useSeek)).stream = .ok () s1) (h2 : resetPos p.toNat (Session.run cs (Session.start i useSeek)).stream = .ok () s')
    (he : s1.eof = false) (hs : Placed s1) (ha : Placed s') :
    (∀ {ε U α : Type} (q : Prog ε U α) (u : U), (q.rel s1.pos).Smooth (s1, u) → (q.rel p.toNat).Smooth (s', u) →
      Likewise s1 s' ((q.rel s1.pos).run (s1, u)) ((q.rel p.toNat).run (s', u))) ∧
    (∀ (env : Env) (t : Ty) (cfg : Config),
      Elsewhere s1 s' ((deserialize env t cfg).run (s1, .zero)) ((deserialize env t cfg).run (s', .zero)) ∨
      (∃ e st, (deserialize env t cfg).run (s1, .zero) = .err (.client e) st ∧ e.kind = .stream posOverflow) ∨
      ∃ e st, (deserialize env t cfg).run (s', .zero) = .err (.client e) st ∧ e.kind = .stream posOverflow) := by
  obtain ⟨s'', e1, e2, -, -, -, -, -, -, e3⟩ := (c76_reset_pos i useSeek cs p).2 s1 h1
  rw [h2] at e1; cases e1
  have h := e3 he
  exact ⟨fun q u m1 m2 => by rw [← e2] at m2 ⊢; exact c73_client q h hs ha u m1 m2, fun env t cfg => c73_deserialize env t cfg h hs ha⟩

/-- A blob of which one of three bytes has been read, followed by an integer; then `reset_pos(1000)`. -/
def exReset : Session := Session.run [.nextField, .onBlob (.read 1)] (Session.start { data := [0x81, 3, 7, 8, 9, 0x42, 5, 0], pos := 0, sched := [], seekable := false } false)

example : (match commit exReset.stream with | .ok _ s => decide (s.pos = 5 ∧ s.inner.pos = 5 ∧ s.eof = false) | .err _ _ => false) = true := by decide +kernel
example : (match resetPos 1000 exReset.stream with | .ok _ s => decide (s.pos = 1000 ∧ s.inner.pos = 5 ∧ s.eof = false) | .err _ _ => false) = true := by decide +kernel
/-- The integer is at position 1000 then. -/
example : (match resetPos 1000 exReset.stream with
    | .ok _ s => (match nextField s with | .ok (some f) _ => decide (f.pos = 1000 ∧ f.tag = 2) | _ => false)
    | .err _ _ => false) = true := by decide +kernel
/-- The blob is cut off: `reset_pos` fails like `commit`. -/
example : (match resetPos 1000 (Session.run [.nextField] (Session.start { data := [0x81, 3, 7], pos := 0, sched := [], seekable := false } false)).stream with
    | .ok _ _ => false | .err e s => decide (e = .truncatedBlob 2 ∧ s.pos = 3)) = true := by decide +kernel

end Props
end Fourleaf
