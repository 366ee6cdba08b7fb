import Verif.Wire

/-! # Specification: bytes as text

Independent of the code: what text a sequence of bytes stands for when parts of it may not be UTF-8. -/

namespace Fourleaf

/-- The UTF-8 bytes of a text. -/
def encText (t : List Char) : List Byte := t.flatMap String.utf8EncodeChar

/-- The bytes are the beginning of the UTF-8 encoding of some character, or all of it. -/
def StartsChar (p : List Byte) : Prop := ∃ c : Char, p <+: String.utf8EncodeChar c

/-- What lossy conversion means, after the Unicode standard ("substitution of maximal subparts"):
characters are kept; where the bytes do not begin with a character, the longest piece that at least
begins one, or else a single byte, is replaced by one U+FFFD. -/
inductive LossyText : List Byte → List Char → Prop
  | nil : LossyText [] []
  | char (c : Char) {l t} : LossyText l t → LossyText (String.utf8EncodeChar c ++ l) (c :: t)
  | bad (p : List Byte) {l t} : p ≠ [] → (∀ c : Char, ¬ String.utf8EncodeChar c <+: p ++ l) →
      (p.length = 1 ∨ StartsChar p) → (∀ q, q <+: p ++ l → p.length < q.length → ¬ StartsChar q) →
      LossyText l t → LossyText (p ++ l) ('\uFFFD' :: t)

end Fourleaf
