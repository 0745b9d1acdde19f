/-!
# Specification of numerals as written in C

Decimal, octal (leading `0`) and hexadecimal (leading `0x` or `0X`) numerals of any length and the
number they denote.
-/

set_option autoImplicit false

namespace Fstrm.Spec

/-- Value of a digit character in bases up to 16. -/
def digitVal (c : UInt8) : Option Nat :=
  if 48 ≤ c ∧ c ≤ 57 then some (c.toNat - 48)
  else if 97 ≤ c ∧ c ≤ 102 then some (c.toNat - 87)
  else if 65 ≤ c ∧ c ≤ 70 then some (c.toNat - 55)
  else none

/-- `c` is a digit of the given base. -/
def IsDigit (base : Nat) (c : UInt8) : Prop := ∃ v, digitVal c = some v ∧ v < base

/-- The number denoted by digits, most significant first. -/
def valueOf (base : Nat) (ds : List UInt8) : Nat :=
  ds.foldl (fun n c => n * base + (digitVal c).getD 0) 0

/-- `Numeral s v`: the characters `s` are a numeral denoting `v`. -/
inductive Numeral : List UInt8 → Nat → Prop where
  | dec (c : UInt8) (ds : List UInt8) (hc : c ≠ 48) (h : ∀ d ∈ c :: ds, IsDigit 10 d) :
      Numeral (c :: ds) (valueOf 10 (c :: ds))
  | oct (ds : List UInt8) (h : ∀ d ∈ ds, IsDigit 8 d) :
      Numeral (48 :: ds) (valueOf 8 ds)
  | hex (x : UInt8) (ds : List UInt8) (hx : x = 120 ∨ x = 88) (hne : ds ≠ [])
      (h : ∀ d ∈ ds, IsDigit 16 d) : Numeral (48 :: x :: ds) (valueOf 16 ds)

/-- White space: space, tab, newline, vertical tab, form feed, carriage return. -/
def IsSpace (c : UInt8) : Prop := c = 32 ∨ (9 ≤ c ∧ c ≤ 13)

end Fstrm.Spec
