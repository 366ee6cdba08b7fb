import Verif.Stream

/-! # Client programs of the reading API

A client of a reading `Stream` (for instance any deserialiser) is a value of the inductive type
`Prog`. Its leaves are calls of the API; the `Result` of a call is handed back to the program, which
may branch on it, keep going after errors, and so on. Loops are driven by `next_field` or
`next_element` (like `while let Some(field) = stream.next_field()? { … }`); recursion over anything
else is ordinary recursion in Lean. `U` is a mutable state of the client's own, `ε` its error type.

Blob operations are only meaningful while a blob handle is live, i.e. between the call that
returned the blob and the next call that moves on; Rust's borrow checker enforces it. In the model, a blob
operation without a live blob returns an error value.
-/

namespace Fourleaf

/-- API calls, indexed by their return type. -/
inductive Op : Type → Type where
  | nextField : Op (Option Field)
  | nextElement : Op Element
  | skipUp (depth : Nat) : Op Unit
  | commit : Op Unit
  | clearEof : Op Unit
  | eof : Op Bool
  | pos : Op Nat
  | structDepth : Op Nat
  | readFully (max : Nat) : Op (List Byte)
  | readOrTrunc (max : Nat) : Op (List Byte)
  /-- one `Read::read` call on the blob -/
  | read (want : Nat) : Op (List Byte)
  | slice : Op (List Byte)
  | remaining : Op Nat

/-- Run a blob operation if a blob handle is live. -/
def onLiveBlob {α : Type} (m : M Err Stream α) : M Err Stream α := fun s =>
  if s.live then m s else .err (.io .other) s

/-- The effect of an API call on the stream. -/
def Op.exec : {β : Type} → Op β → M Err Stream β
  | _, .nextField => Fourleaf.nextField
  | _, .nextElement => Fourleaf.nextElement
  | _, .skipUp d => Fourleaf.skipUp d
  | _, .commit => Fourleaf.commit
  | _, .clearEof => Fourleaf.clearEof
  | _, .eof => fun s => .ok s.eof s
  | _, .pos => fun s => .ok s.pos s
  | _, .structDepth => fun s => .ok s.depth s
  | _, .readFully max => onLiveBlob (Fourleaf.readFully max)
  | _, .readOrTrunc max => onLiveBlob (Fourleaf.readOrTrunc max)
  | _, .read want => onLiveBlob (blobRead want)
  | _, .slice => onLiveBlob blobSlice
  | _, .remaining => onLiveBlob fun s => .ok (blobRemaining s) s

/-- Client programs. -/
inductive Prog (ε U : Type) : Type → Type 1 where
  /-- return normally -/
  | ret {α : Type} (a : α) : Prog ε U α
  /-- return an error of the client's -/
  | fail {α : Type} (e : ε) : Prog ε U α
  /-- call the API; the program gets the `Result` -/
  | op {β : Type} (o : Op β) : Prog ε U (Except Err β)
  /-- call the API; on an error return the client's own error made of it (`.map_err(f)?`) -/
  | call {β : Type} (o : Op β) (f : Err → ε) : Prog ε U β
  /-- read and write the client's own state -/
  | getU : Prog ε U U
  | setU (u : U) : Prog ε U Unit
  /-- sequencing with `?` -/
  | bind {α β : Type} (p : Prog ε U α) (f : α → Prog ε U β) : Prog ε U β
  /-- catch the client's error -/
  | attempt {α : Type} (p : Prog ε U α) : Prog ε U (Except ε α)
  /-- `loop`: pull an element with `next_field` (`fields = true`) or `next_element`; at the end of
  the struct (`next_field`) or document (`next_element`) run `onEnd`, on an error `onErr`,
  otherwise the body, which says whether to go on. -/
  | loop {β α : Type} (fields : Bool) (init : β) (body : β → Element → Prog ε U (β ⊕ α))
      (onErr : Err → Prog ε U α) (onEnd : β → Prog ε U α) : Prog ε U α

/-- Why a program stopped without a value: its own error, or because a call did not return. -/
inductive Stop (ε : Type) where
  | client (e : ε)
  | abort (e : Err)
  deriving Repr, DecidableEq

/-- `next_field`, or `next_element` with the end of the document as `none`. -/
def pull (fields : Bool) : M Err Stream (Option Element) := fun s =>
  if fields then
    match nextField s with
    | .ok (some f) s' => .ok (some (.field f)) s'
    | .ok none s' => .ok none s'
    | .err e s' => .err e s'
  else
    match nextElement s with
    | .ok .endOfDoc s' => .ok none s'
    | .ok e s' => .ok (some e) s'
    | .err e s' => .err e s'

/-- State of a running client: the stream and the client's own state. -/
abbrev PSt (U : Type) := Stream × U

/-- The loop, given the meaning of its parts. Running out of fuel is a hang. -/
def runLoop {ε U β α : Type} (fields : Bool) (body : β → Element → M (Stop ε) (PSt U) (β ⊕ α))
    (onErr : Err → M (Stop ε) (PSt U) α) (onEnd : β → M (Stop ε) (PSt U) α) :
    Nat → β → M (Stop ε) (PSt U) α
  | 0, _, st => .err (.abort .hang) st
  | fuel + 1, b, st =>
    match pull fields st.1 with
    | .err e s => if e.abnormal then .err (.abort e) (s, st.2) else onErr e (s, st.2)
    | .ok none s => onEnd b (s, st.2)
    | .ok (some el) s =>
      match body b el (s, st.2) with
      | .err e st' => .err e st'
      | .ok (.inl b') st' => runLoop fields body onErr onEnd fuel b' st'
      | .ok (.inr a) st' => .ok a st'

/-- Execution of a client program on a stream. The fuel given to a loop is enough for one
iteration per byte of input; `c19_no_panic_no_hang` shows it never runs out. -/
def Prog.run {ε U : Type} : {α : Type} → Prog ε U α → M (Stop ε) (PSt U) α
  | _, .ret a => fun st => .ok a st
  | _, .fail e => fun st => .err (.client e) st
  | _, .op o => fun st =>
    match o.exec st.1 with
    | .ok b s => .ok (.ok b) (s, st.2)
    | .err e s => if e.abnormal then .err (.abort e) (s, st.2) else .ok (.error e) (s, st.2)
  | _, .call o f => fun st =>
    match o.exec st.1 with
    | .ok b s => .ok b (s, st.2)
    | .err e s => if e.abnormal then .err (.abort e) (s, st.2) else .err (.client (f e)) (s, st.2)
  | _, .getU => fun st => .ok st.2 st
  | _, .setU u => fun st => .ok () (st.1, u)
  | _, .bind p f => fun st =>
    match p.run st with
    | .ok a st' => (f a).run st'
    | .err e st' => .err e st'
  | _, .attempt p => fun st =>
    match p.run st with
    | .ok a st' => .ok (.ok a) st'
    | .err (.client e) st' => .ok (.error e) st'
    | .err (.abort e) st' => .err (.abort e) st'
  | _, .loop fields init body onErr onEnd => fun st =>
    runLoop fields (fun b e => (body b e).run) (fun e => (onErr e).run) (fun b => (onEnd b).run)
      (st.1.inner.data.length - st.1.inner.pos + 2) init st

instance {ε U : Type} : Monad (Prog ε U) where
  pure := .ret
  bind := .bind

/-- Every API call the program makes, in whatever branch, satisfies `P`. -/
def Prog.OpsAll {ε U : Type} (P : {β : Type} → Op β → Prop) : {α : Type} → Prog ε U α → Prop
  | _, .ret _ => True
  | _, .fail _ => True
  | _, .op o => P o
  | _, .call o _ => P o
  | _, .getU => True
  | _, .setU _ => True
  | _, .bind p f => p.OpsAll P ∧ ∀ a, (f a).OpsAll P
  | _, .attempt p => p.OpsAll P
  | _, .loop _ _ body onErr onEnd =>
    (∀ b e, (body b e).OpsAll P) ∧ (∀ e, (onErr e).OpsAll P) ∧ (∀ b, (onEnd b).OpsAll P)

/-- A call other than the bare `Read::read`, whose result depends on the reader's chunking by
contract. -/
def Op.whole {β : Type} : Op β → Prop
  | .read _ => False
  | _ => True

/-- Calls that pull no further element. -/
def Op.quiet {β : Type} : Op β → Prop
  | .nextField | .nextElement | .skipUp _ | .commit => False
  | _ => True

/-- Wherever the program meets the end of the input in an element, it stops, with an error satisfying `D`. -/
def Prog.Ends {ε U : Type} (D : ε → Prop) : {α : Type} → Prog ε U α → Prop
  | _, .ret _ => True
  | _, .fail _ => True
  | _, .op o => o.quiet
  | _, .call o f => o.quiet ∨ D (f (.io .unexpectedEof))
  | _, .getU => True
  | _, .setU _ => True
  | _, .bind p f => p.Ends D ∧ ∀ a, (f a).Ends D
  | _, .attempt p => p.Ends fun _ => False
  | _, .loop _ _ body onErr onEnd =>
    (∀ b e, (body b e).Ends D) ∧ (∃ d, onErr (.io .unexpectedEof) = .fail d ∧ D d) ∧ (∀ e, (onErr e).Ends D) ∧ (∀ b, (onEnd b).Ends D)

end Fourleaf
