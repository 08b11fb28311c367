import Mathlib.Data.Nat.Digits.Defs

/-! Model of `lambdalib/software/utils.py`: the text written to the standard output, as a list of characters. -/

namespace Lambdalib

def hexChar (d : Nat) : Char := "0123456789abcdef".toList.getD d '0'

/-- Hexadecimal digits of a number, without leading zeros. -/
def hexDigits (n : Nat) : List Char := (Nat.digits 16 n).reverse.map hexChar

/-- Python `hex(n)`. -/
def pyHex (n : Nat) : List Char := '0' :: 'x' :: if n = 0 then ['0'] else hexDigits n

/-- Python `f"{b:02x}"`. -/
def pyHex2 (b : Nat) : List Char := List.replicate (2 - (hexDigits b).length) '0' ++ hexDigits b

/-- `for i, b in enumerate(data)`, utils.py 12-16. -/
def hexdumpBody (i : Nat) : List Nat → List Char
  | [] => []
  | b :: l =>
    pyHex2 b ++ [' '] ++ (if i % 16 == 15 then '\n' :: (pyHex (i + 1) ++ [':', ' ']) else []) ++ hexdumpBody (i + 1) l

/-- The heading, utils.py 6-9. -/
def hexdumpHead : List Char :=
  "       ".toList ++ ((List.range 16).map fun i => (pyHex i).drop 2 ++ [' ', ' ']).flatten

/-- `hexdump`, software/utils.py 3-18. -/
def hexdump (data : List Nat) : List Char :=
  hexdumpHead ++ '\n' :: (['0', 'x', '0', '0', ':', ' '] ++ hexdumpBody 0 data ++ ['\n'])

end Lambdalib
