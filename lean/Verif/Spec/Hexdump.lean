/-! How a hex dump is read. -/

namespace Lambdalib

/-- Lines of a text. -/
def linesOf : List Char → List (List Char)
  | [] => [[]]
  | c :: l =>
    match linesOf l with
    | [] => []
    | a :: m => if c = '\n' then [] :: a :: m else (c :: a) :: m

/-- Value of a digit. -/
def hexDigitVal (c : Char) : Nat :=
  if '0' ≤ c ∧ c ≤ '9' then c.toNat - '0'.toNat
  else if 'a' ≤ c ∧ c ≤ 'f' then c.toNat - 'a'.toNat + 10 else 0

/-- Value of a number. -/
def hexVal (l : List Char) : Nat := l.foldl (fun v c => 16 * v + hexDigitVal c) 0

/-- Two digits and a space per byte. -/
def dumpBytes : List Char → List Nat
  | a :: b :: ' ' :: l => hexVal [a, b] :: dumpBytes l
  | _ => []

/-- A row: `0x`, the address, a colon, a space, and the bytes. -/
def dumpRow (l : List Char) : Nat × List Nat :=
  (hexVal ((l.takeWhile (· ≠ ':')).drop 2), dumpBytes ((l.dropWhile (· ≠ ':')).drop 2))

end Lambdalib
