/-! # Results and state-passing computations

A Rust method taking `&mut self` and returning `Result<T, E>` becomes a function from the
old state to either `ok value newState` or `err error newState`: a failed call also leaves a
new state behind, exactly as in Rust.
-/

namespace Fourleaf

/-- Outcome of a state-passing computation. The state is kept on errors. -/
inductive Res (ε σ α : Type) where
  | ok (a : α) (s : σ)
  | err (e : ε) (s : σ)
  deriving Repr, DecidableEq

/-- A method on a `&mut σ` returning `Result<α, ε>`. -/
abbrev M (ε σ α : Type) := σ → Res ε σ α

namespace M
variable {ε σ α β : Type}

def pure (a : α) : M ε σ α := fun s => .ok a s
def throw (e : ε) : M ε σ α := fun s => .err e s
/-- The `?` operator: continue on `Ok`, return early on `Err`. -/
def bind (m : M ε σ α) (f : α → M ε σ β) : M ε σ β := fun s =>
  match m s with
  | .ok a s' => f a s'
  | .err e s' => .err e s'

instance : Monad (M ε σ) where
  pure := M.pure
  bind := M.bind

def get : M ε σ σ := fun s => .ok s s
def modify (f : σ → σ) : M ε σ Unit := fun s => .ok () (f s)

@[simp] theorem pure_apply (a : α) (s : σ) : (Pure.pure a : M ε σ α) s = .ok a s := rfl
@[simp] theorem throw_apply (e : ε) (s : σ) : (M.throw e : M ε σ α) s = .err e s := rfl
@[simp] theorem get_apply (s : σ) : (M.get : M ε σ σ) s = .ok s s := rfl
@[simp] theorem modify_apply (f : σ → σ) (s : σ) :
    (M.modify f : M ε σ Unit) s = .ok () (f s) := rfl
theorem bind_apply (m : M ε σ α) (f : α → M ε σ β) (s : σ) :
    (m >>= f) s = match m s with | .ok a s' => f a s' | .err e s' => .err e s' := rfl
theorem bind_ok {m : M ε σ α} {f : α → M ε σ β} {s s' : σ} {a : α} (h : m s = .ok a s') :
    (m >>= f) s = f a s' := by rw [bind_apply, h]
theorem bind_err {m : M ε σ α} {f : α → M ε σ β} {s s' : σ} {e : ε} (h : m s = .err e s') :
    (m >>= f) s = .err e s' := by rw [bind_apply, h]
theorem ite_apply (c : Prop) [Decidable c] (m m' : M ε σ α) (s : σ) :
    (if c then m else m') s = if c then m s else m' s := by split <;> rfl
theorem seq_bind (m : M ε σ α) (f : M ε σ β) (s : σ) :
    (do let _ ← m; f) s = match m s with | .ok _ s' => f s' | .err e s' => .err e s' := rfl

end M

/-- The state left behind by a computation, whatever its outcome. -/
def Res.state {ε σ α : Type} : Res ε σ α → σ
  | .ok _ s => s
  | .err _ s => s

@[simp] theorem Res.state_ok {ε σ α : Type} (a : α) (s : σ) : (Res.ok a s : Res ε σ α).state = s := rfl
@[simp] theorem Res.state_err {ε σ α : Type} (e : ε) (s : σ) : (Res.err e s : Res ε σ α).state = s := rfl

/-- Kinds of `std::io::Error` the code distinguishes or creates. `device` is an injected failure
of the underlying byte stream. -/
inductive IoKind where
  | unexpectedEof | writeZero | invalidInput | interrupted | other | device
  deriving Repr, DecidableEq

/-- `stream::Error` (`src/stream.rs` 29-117), plus two outcomes which Rust expresses by not
returning: `panic` (arithmetic underflow, out-of-range slice, `unreachable!()`, failed assertion)
and `hang` (a loop that never ends). A text is the list of its characters; `&'static str` payloads of
`UnexpectedType` are enumerated, those of `IntegerOutOfRange` are dropped. -/
inductive Err where
  | io (k : IoKind)
  | integerOverflow
  | overwideInteger
  | exception (msg : List Char)
  | truncatedBlob (missing : Nat)
  | overlongBlob
  | incompleteBlob (missing : Nat)
  | positionBeforeStartOfDynamicBlob
  | overlongDynamicBlob
  | largeBlob (max remaining : Nat)
  | unexpectedType (expected actual : String)
  | integerOutOfRange
  | panic (what : String)
  | hang
  deriving Repr, DecidableEq

/-- The two outcomes in which the Rust code does not return. -/
def Err.abnormal : Err → Bool
  | .panic _ | .hang => true
  | _ => false

end Fourleaf
