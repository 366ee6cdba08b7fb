import Verif.Types

/-!
# The fields of a tuple

A tuple is a struct whose components have the tags 1, 2, … and the names `field_0`, `field_1`, …. This is part of the specification: it does not use the model of the macro (`tupleFields`).
-/

namespace Fourleaf

/-- The component `i` (from 0) of a tuple is the field with the tag `i + 1`. -/
def components (ts : List Ty) : List FieldDecl :=
  ts.mapIdx fun i t => ⟨UInt8.ofNat (i + 1), s!"field_{i}", t⟩

/-- Is it `u8`, whose sequences are blobs? Part of the specification: it does not use the model's `Ty.isU8` (`serialized_as_slice`). -/
def Ty.isByte : Ty → Bool
  | .prim (.int .u8) => true
  | _ => false

end Fourleaf
