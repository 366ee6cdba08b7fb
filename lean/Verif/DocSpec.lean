import Verif.Tree

/-! # Specification: documents

What a reader that only looks for the end of the structs it is in takes for a document, out of arbitrary elements. -/

namespace Fourleaf
open Spec

/-- What ends a document: the end of its outermost struct, an end-of-document element, or (with graceful EOF) the end of the input. -/
inductive Close where
  | struct
  | doc
  | input
  deriving DecidableEq, Repr

/-- The elements are a document with these fields. Padding may occur everywhere; an end-of-document element (or the end of the input) closes all structs that are open; and in nested structs, there may be exceptions
(`nested` says whether this is a nested struct). -/
inductive Document : (nested : Bool) → Close → Fields → List Tok → Prop where
  | endStruct {n} : Document n .struct [] [.endStruct]
  | endDoc {n} : Document n .doc [] [.endDoc]
  | input {n} : Document n .input [] []
  | pad {n c fs ts} : Document n c fs ts → Document n c fs (.padding :: ts)
  | exception {c fs ts m} : Document true c fs ts → Document true c fs (.exception m :: ts)
  | int {n c tag k fs ts} : Document n c fs ts → Document n c ((tag, .int k) :: fs) (.int tag k :: ts)
  | blob {n c tag d fs ts} : Document n c fs ts → Document n c ((tag, .blob d) :: fs) (.blob tag d :: ts)
  | struct {n c tag l fs a b} : Document true .struct l a → Document n c fs b → Document n c ((tag, .struct l) :: fs) (.struct tag :: (a ++ b))
  | structCut {n c tag l a} : Document true c l a → c ≠ .struct → Document n c [(tag, .struct l)] (.struct tag :: a)
  | enum {n c tag d l fs a b} : Document true .struct l a → Document n c fs b → Document n c ((tag, .enum d l) :: fs) (.enum tag d :: (a ++ b))
  | enumCut {n c tag d l a} : Document true c l a → c ≠ .struct → Document n c [(tag, .enum d l)] (.enum tag d :: a)

/-- No exceptions. -/
def NoExc (ts : List Tok) : Prop := ∀ m, .exception m ∉ ts

end Fourleaf
