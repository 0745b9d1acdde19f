import Verif.Model.Basic

/-!
# Model of `/repo/libmy/print_string.h`
-/

set_option autoImplicit false

namespace Fstrm

/-- `isprint` in the "C" locale. print_string.h:39. -/
def isprint (c : UInt8) : Bool := 32 ≤ c && c ≤ 126

/-- A hexadecimal digit as printed by `%x`. print_string.h:45. -/
def hexDigit (n : Nat) : UInt8 :=
  if n < 10 then UInt8.ofNat (48 + n) else UInt8.ofNat (87 + n)

/-- One iteration of the loop, print_string.h:37-46: what is written for the byte `c`;
34 is the quotation mark, 92 the backslash, 120 the letter x. -/
def printByte (c : UInt8) : Bytes :=
  if isprint c then
    if c = 34 then [92, 34] else [c]
  else [92, 120, hexDigit (c.toNat / 16), hexDigit (c.toNat % 16)]

/-- `print_string`, print_string.h:32-49: what each of its `stdio` calls writes to `out`. Their results
are ignored by the code. -/
def printPieces (data : Bytes) : List Bytes := [[34]] ++ data.map printByte ++ [[34]]

/-- Everything `print_string` writes when no call fails. print_string.h:32-49. -/
def printString (data : Bytes) : Bytes := [34] ++ data.flatMap printByte ++ [34]

end Fstrm
