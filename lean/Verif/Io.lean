import Verif.Wire

/-! # The underlying byte stream

The type parameter `R` of `Stream<R>` (any `Read`/`Write`/`Seek`) is modelled by a byte list with an
offset (the semantics of `io::Cursor<Vec<u8>>`; `TransparentCursor`, `src/io.rs` 20-54, forwards everything to it) and a schedule that says how each successive `read`
or `write` call behaves, and whether a `seek` before it fails. A sink such as a pipe is the case in which nobody seeks.
-/

namespace Fourleaf

/-- `u64::MAX`. -/
def U64MAX : Nat := 2 ^ 64 - 1
/-- `i64::MAX`. -/
def I64MAX : Nat := 2 ^ 63 - 1

/-- Behaviour of one `read`/`write` call. -/
inductive Ev where
  /-- transfer at most `k + 1` bytes -/
  | short (k : Nat)
  /-- return `ErrorKind::Interrupted` without transferring anything -/
  | interrupted
  /-- fail with another error without transferring anything -/
  | fail
  /-- the next call is a `seek` and fails without moving (any other call fails as with `fail`). A `seek` that does not find this event takes none: it is successful,
  if the target is valid. So every sequence of outcomes of `read`, `write` and `seek` is that of a schedule. -/
  | noSeek
  /-- a `write` accepts nothing (`Ok(0)`); any other call fails as with `fail` -/
  | full
  deriving Repr, DecidableEq

/-- The underlying byte stream. `seekable = false` models an object whose `seek` always fails. -/
structure Inner where
  data : List Byte
  pos : Nat
  sched : List Ev
  seekable : Bool
  deriving Repr, DecidableEq

/-- The bytes between the current offset and the end. -/
def Inner.rest (i : Inner) : List Byte := i.data.drop i.pos

/-- `Read::read` with a buffer of `want` bytes: at most `want` bytes from the current offset.
Contract of `std::io::Read`; `Cursor`'s implementation when the schedule is exhausted. -/
def Inner.read (want : Nat) : M Err Inner (List Byte) := fun i =>
  match i.sched with
  | [] =>
    let d := i.rest.take want
    .ok d { i with pos := i.pos + d.length }
  | .short k :: sc =>
    let d := i.rest.take (min want (k + 1))
    .ok d { i with pos := i.pos + d.length, sched := sc }
  | .interrupted :: sc => .err (.io .interrupted) { i with sched := sc }
  | _ :: sc => .err (.io .device) { i with sched := sc }

/-- `BufRead::fill_buf` of the underlying stream: some bytes from the current offset on (at least one unless at the end) without moving. For a `Cursor`
(`src/io.rs` 28-37) all of them, which is the case of an exhausted schedule. Contract of `std::io::BufRead`. -/
def Inner.fillBuf : M Err Inner (List Byte) := fun i =>
  match i.sched with
  | [] => .ok i.rest i
  | .short k :: sc => .ok (i.rest.take (k + 1)) { i with sched := sc }
  | .interrupted :: sc => .err (.io .interrupted) { i with sched := sc }
  | _ :: sc => .err (.io .device) { i with sched := sc }

/-- Overwrite `data` from offset `pos` on with `chunk`, extending (and zero-filling) as needed:
`Cursor<Vec<u8>>::write`. -/
def splice (data : List Byte) (pos : Nat) (chunk : List Byte) : List Byte :=
  data.take pos ++ List.replicate (pos - data.length) 0 ++ chunk ++ data.drop (pos + chunk.length)

/-- `Write::write` of `buf`; returns the number of bytes accepted. -/
def Inner.write (buf : List Byte) : M Err Inner Nat := fun i =>
  match i.sched with
  | [] => .ok buf.length { i with data := splice i.data i.pos buf, pos := i.pos + buf.length }
  | .short k :: sc =>
    let chunk := buf.take (k + 1)
    .ok chunk.length
      { i with data := splice i.data i.pos chunk, pos := i.pos + chunk.length, sched := sc }
  | .interrupted :: sc => .err (.io .interrupted) { i with sched := sc }
  | .full :: sc => .ok 0 { i with sched := sc }
  | _ :: sc => .err (.io .device) { i with sched := sc }

/-- `std::io::SeekFrom`. -/
inductive SeekFrom where
  | start (n : Nat)
  | fromEnd (off : Int)
  | current (off : Int)
  deriving Repr, DecidableEq

/-- The offset a seek asks for. -/
def SeekFrom.target (w : SeekFrom) (i : Inner) : Int :=
  match w with
  | .start n => n
  | .fromEnd off => i.data.length + off
  | .current off => i.pos + off

/-- `Seek::seek` with the semantics of `Cursor`: a negative or overflowing target is refused
without moving; a target beyond the end is accepted. May fail according to the schedule. -/
def Inner.seek (w : SeekFrom) : M Err Inner Nat := fun i =>
  if i.seekable then
    if i.sched.head? = some .noSeek then .err (.io .device) { i with sched := i.sched.tail }
    else
      let t := w.target i
      if 0 ≤ t ∧ t ≤ U64MAX then .ok t.toNat { i with pos := t.toNat }
      else .err (.io .invalidInput) i
  else .err (.io .other) i

end Fourleaf
