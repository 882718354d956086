import Mathlib.Data.Nat.Digits.Defs
import Verif.Model.Tensor
/-! # Printing shapes (include/deepworks/shape.hpp) -/

namespace DW.Print

/-- The character of a decimal digit. -/
def digitChar (d : Nat) : Char := Char.ofNat ('0'.toNat + d)

/-- A natural number in decimal. -/
def decimal (n : Nat) : List Char :=
  if n = 0 then ['0'] else ((Nat.digits 10 n).map digitChar).reverse

/-- `os << int` with default formatting. -/
def showInt (i : Int) : List Char := if i < 0 then '-' :: decimal i.natAbs else decimal i.natAbs

/-- The loop over all elements but the last, then the last one and the brace
(include/deepworks/shape.hpp:20-24). -/
def showItems : Shape → List Char
  | [] => []
  | [d] => showInt d ++ ['}']
  | d :: e :: ds => showInt d ++ [',', ' '] ++ showItems (e :: ds)

/-- `operator<<(std::ostream&, const Shape&)` (include/deepworks/shape.hpp:13-26). -/
def showShape (s : Shape) : List Char :=
  if s.isEmpty then ['{', ' ', '}'] else '{' :: showItems s

end DW.Print
