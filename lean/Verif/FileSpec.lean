import Verif.BlobOps

/-! # Independent specification of a file of fixed size

What "the `Blob` is essentially a file of its own" (`src/stream.rs` 238-244) means: some bytes and a cursor. Reading and writing go on from the cursor
and stop at the end; seeking goes anywhere between the beginning and the end; the size never changes. The only things used from the model are the names of
the operations, of their results and of the errors. -/

namespace Fourleaf.Spec

structure File where
  content : List UInt8
  cur : Nat
  deriving Repr, DecidableEq

/-- The bytes from the cursor on. -/
def File.left (f : File) : List UInt8 := f.content.drop f.cur

/-- The content with `new` put at the cursor. -/
def File.put (f : File) (new : List UInt8) : List UInt8 :=
  f.content.take f.cur ++ new ++ f.content.drop (f.cur + new.length)

/-- Where a seek goes. -/
def File.target (f : File) : SeekFrom → Int
  | .start n => n
  | .fromEnd off => f.content.length + off
  | .current off => f.cur + off

/-- What the device may do: `prompt` if it transfers as much as possible and is never interrupted, `faulty` if it may fail or be full, `seekable` if it can seek at all. -/
structure Device where
  prompt : Bool
  faulty : Bool
  seekable : Bool

/-- One call may transfer `k` of `n` bytes: all of them if the device is prompt, and some if there are some. -/
def Device.transfers (d : Device) (k n : Nat) : Prop := k ≤ n ∧ (0 < n → 0 < k) ∧ (d.prompt = true → k = n)

/-- Single transfers, which may be interrupted. -/
def single : BlobOp → Prop
  | .read _ | .write _ | .bufRead _ => True
  | _ => False

/-- Operations that read up to their end. -/
def whole : BlobOp → Prop
  | .readFully _ | .readOrTrunc _ => True
  | _ => False

/-- `f.Does d o r f'`: the operation `o` on the file `f` returns `r` and leaves `f'`. -/
inductive File.Does (d : Device) : File → BlobOp → Except Err BlobRes → File → Prop where
  | read {f want k} : d.transfers k (min want f.left.length) → Does d f (.read want) (.ok (.bytes (f.left.take k))) ⟨f.content, f.cur + k⟩
  | readFully {f max} : f.left.length ≤ max → Does d f (.readFully max) (.ok (.bytes f.left)) ⟨f.content, f.content.length⟩
  | tooLarge {f max} : max < f.left.length → Does d f (.readFully max) (.error (.largeBlob max f.left.length)) f
  | readOrTrunc {f max} : Does d f (.readOrTrunc max) (.ok (.bytes (f.left.take max))) ⟨f.content, min (f.cur + max) f.content.length⟩
  | slice {f} : Does d f .slice (.ok (.bytes f.left)) f
  | sliceMut {f g} : Does d f (.sliceMut g) (.ok (.bytes f.left)) ⟨f.put ((g f.left).take f.left.length), f.cur⟩
  | remaining {f} : Does d f .remaining (.ok (.num f.left.length)) f
  | seek {f w} {n : Nat} : f.target w = (n : Int) → n ≤ f.content.length → d.seekable = true → Does d f (.seek w) (.ok (.num n)) ⟨f.content, n⟩
  | seekOut {f w} : (f.target w < 0 ∨ (f.content.length : Int) < f.target w) → Does d f (.seek w) (.error (.io .invalidInput)) f
  | seekNot {f w e} : d.seekable = false → Does d f (.seek w) (.error e) f
  | write {f buf k} : d.transfers k (min buf.length f.left.length) → Does d f (.write buf) (.ok (.num k)) ⟨f.put (buf.take k), f.cur + k⟩
  | bufRead {f g k} : d.transfers k f.left.length → Does d f (.bufRead g) (.ok (.bytes (f.left.take k))) ⟨f.content, f.cur + min (g (f.left.take k)) k⟩
  | interrupted {f o} : single o → d.prompt = false → Does d f o (.error (.io .interrupted)) f
  | failed {f o} : single o → d.faulty = true → Does d f o (.error (.io .device)) f
  | seekFailed {f w} : d.faulty = true → Does d f (.seek w) (.error (.io .device)) f
  | full {f buf} : d.faulty = true → Does d f (.write buf) (.ok (.num 0)) f
  | failedWithin {f o k} : whole o → k ≤ f.left.length → d.faulty = true → Does d f o (.error (.io .device)) ⟨f.content, f.cur + k⟩

/-- A sequence of operations, with what each returns. -/
inductive File.Run (d : Device) : File → List BlobOp → List (Except Err BlobRes) → File → Prop where
  | nil {f} : Run d f [] [] f
  | cons {f o r f' os rs f''} : f.Does d o r f' → Run d f' os rs f'' → Run d f (o :: os) (r :: rs) f''

end Fourleaf.Spec
