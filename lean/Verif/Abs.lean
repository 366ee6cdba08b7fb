import Verif.TokLemmas

/-! # An abstract stream over elements

The same API as `Stream`, but over a list of elements instead of bytes: no encoding, chunking or
schedule. `AbsLemmas` proves that a `Stream` over any spelling of the elements behaves exactly like this for every
client program, so that properties of clients (deserialisers) can be shown here. -/

namespace Fourleaf
open Spec

/-- An element together with the number of bytes of its header (everything except blob content). -/
abbrev HTok := Nat × Tok

/-- `bs` spells the elements with headers of the given sizes. -/
inductive EncH : List HTok → List Byte → Prop where
  | nil : EncH [] []
  | cons {h t ts bs bs'} : EncTok t bs → bs.length = h + ((contentOf t).getD []).length → EncH ts bs' →
      EncH ((h, t) :: ts) (bs ++ bs')

structure TS where
  pos : Nat
  depth : Nat
  eof : Bool
  graceful : Bool
  /-- what is left of the current blob -/
  cur : Option (List Byte)
  toks : List HTok

namespace TS

def flush (t : TS) : TS := { t with pos := t.pos + (t.cur.getD []).length, cur := none }

/-- Read one element, no blob pending. -/
def readElement : M Err TS Element := fun t =>
  match t.toks with
  | [] => if t.graceful then .ok .endOfDoc { t with eof := true, depth := 0 } else .err (.io .unexpectedEof) t
  | (h, k) :: ts =>
    .ok (elemOf t.pos t.depth k)
      { t with pos := t.pos + h, depth := k.depthAfter t.depth, eof := decide (k = .endDoc), cur := contentOf k, toks := ts }

def nextElement : M Err TS Element := fun t =>
  if t.eof then .ok .endOfDoc t else readElement t.flush

/-- Drop leading padding. -/
def dropPads : Nat → List HTok → Nat × List HTok
  | p, [] => (p, [])
  | p, (h, k) :: ts => if k = .padding then dropPads (p + h) ts else (p, (h, k) :: ts)

def unpad (t : TS) : TS := { t with pos := (dropPads t.pos t.toks).1, toks := (dropPads t.pos t.toks).2 }

def onBlob {α : Type} (f : List Byte → M Err TS α) : M Err TS α := fun t =>
  match t.cur with
  | some c => f c t
  | none => .err (.io .other) t

def take (n : Nat) (c : List Byte) : M Err TS (List Byte) := fun t =>
  .ok (c.take n) { t with pos := t.pos + min n c.length, cur := some (c.drop n) }

def nextField : M Err TS (Option Field) := fun t =>
  if t.eof then .ok none t
  else
    match readElement t.flush.unpad with
    | .err e t' => .err e t'
    | .ok (.field f) t' => .ok (some f) t'
    | .ok (.exception _) t' =>
      match onBlob (take 256) t' with
      | .ok m t'' => .err (.exception (lossy m)) t''
      | .err e t'' => .err e t''
    | .ok _ t' => .ok none t'

def skipUpLoop (d : Nat) : Nat → M Err TS Unit
  | 0, t => .err .hang t
  | fuel + 1, t => if t.depth > d then (do let _ ← nextElement; skipUpLoop d fuel) t else .ok () t

def exec : {β : Type} → Op β → M Err TS β
  | _, .nextField => nextField
  | _, .nextElement => nextElement
  | _, .skipUp d => fun t => skipUpLoop d (t.toks.length + 2) t
  | _, .commit => fun t => .ok () t.flush
  | _, .clearEof => fun t => .ok () { t with eof := false }
  | _, .eof => fun t => .ok t.eof t
  | _, .pos => fun t => .ok t.pos t
  | _, .structDepth => fun t => .ok t.depth t
  | _, .readFully max => onBlob fun c t => if c.length > max then .err (.largeBlob max c.length) t else take c.length c t
  | _, .readOrTrunc max => onBlob fun c t => take max c t
  | _, .read want => onBlob fun c t => take want c t
  | _, .slice => onBlob fun c t => .ok c t
  | _, .remaining => onBlob fun c t => .ok c.length t

def pull (fields : Bool) : M Err TS (Option Element) := fun t =>
  if fields then
    match nextField t with
    | .ok (some f) t' => .ok (some (.field f)) t'
    | .ok none t' => .ok none t'
    | .err e t' => .err e t'
  else
    match nextElement t with
    | .ok .endOfDoc t' => .ok none t'
    | .ok e t' => .ok (some e) t'
    | .err e t' => .err e t'

def runLoop {ε U β α : Type} (fields : Bool) (body : β → Element → M (Stop ε) (TS × U) (β ⊕ α))
    (onErr : Err → M (Stop ε) (TS × U) α) (onEnd : β → M (Stop ε) (TS × U) α) :
    Nat → β → M (Stop ε) (TS × U) α
  | 0, _, st => .err (.abort .hang) st
  | fuel + 1, b, st =>
    match pull fields st.1 with
    | .err e s => if e.abnormal then .err (.abort e) (s, st.2) else onErr e (s, st.2)
    | .ok none s => onEnd b (s, st.2)
    | .ok (some el) s =>
      match body b el (s, st.2) with
      | .err e st' => .err e st'
      | .ok (.inl b') st' => runLoop fields body onErr onEnd fuel b' st'
      | .ok (.inr a) st' => .ok a st'

end TS

/-- Execution of a client program on the abstract stream. -/
def Prog.abs {ε U : Type} : {α : Type} → Prog ε U α → M (Stop ε) (TS × U) α
  | _, .ret a => fun st => .ok a st
  | _, .fail e => fun st => .err (.client e) st
  | _, .op o => fun st =>
    match TS.exec o st.1 with
    | .ok b s => .ok (.ok b) (s, st.2)
    | .err e s => if e.abnormal then .err (.abort e) (s, st.2) else .ok (.error e) (s, st.2)
  | _, .call o f => fun st =>
    match TS.exec o st.1 with
    | .ok b s => .ok b (s, st.2)
    | .err e s => if e.abnormal then .err (.abort e) (s, st.2) else .err (.client (f e)) (s, st.2)
  | _, .getU => fun st => .ok st.2 st
  | _, .setU u => fun st => .ok () (st.1, u)
  | _, .bind p f => fun st =>
    match p.abs st with
    | .ok a st' => (f a).abs st'
    | .err e st' => .err e st'
  | _, .attempt p => fun st =>
    match p.abs st with
    | .ok a st' => .ok (.ok a) st'
    | .err (.client e) st' => .ok (.error e) st'
    | .err (.abort e) st' => .err (.abort e) st'
  | _, .loop fields init body onErr onEnd => fun st =>
    TS.runLoop fields (fun b e => (body b e).abs) (fun e => (onErr e).abs) (fun b => (onEnd b).abs)
      (st.1.toks.length + 2) init st

end Fourleaf
