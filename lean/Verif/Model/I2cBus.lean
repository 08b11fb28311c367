import Verif.Model.Basic

/-! Model of `lambdalib/software/i2c/bus.py`: the host library talking to the I2C bridge. Python integers are
`Int`; `data` arguments are lists. `dev` is any object with `write` and `read`; `dev.read(n)` may return fewer
than `n` bytes. -/

namespace Lambdalib

inductive PyErr | valueError | typeError | indexError
deriving DecidableEq, Repr

/-- `self.dev` (bus.py 18): effect of `write` and `read` on the state of the device. -/
structure PyDev (σ : Type) where
  write : List (BitVec 8) → σ → σ
  read : Nat → σ → List (BitVec 8) × σ

/-- `bytearray([...])` (bus.py 39, 57, 65, 82, 108): `ValueError` unless every element is in 0..255. -/
def pyBytes : List Int → Option (List (BitVec 8))
  | [] => some []
  | v :: l => if 0 ≤ v ∧ v < 256 then (pyBytes l).map (BitVec.ofInt 8 v :: ·) else none

/-- The loop of bus.py 30-32 and 51-53: `reg & 0xff`, then `reg >> 8`. -/
def regAddrLoop : Nat → Int → List Int
  | 0, _ => []
  | n + 1, reg => (reg % 256) :: regAddrLoop n (reg / 256)

/-- `reg_addr_size` (bus.py 28, 49). -/
def regAddrSize (width : Int) : Int := width / 8

/-- `reg_addr_array` (bus.py 29-33, 50-54). -/
def regAddrArray (width reg : Int) : List Int := (regAddrLoop (regAddrSize width).toNat reg).reverse

/-- Sequencing: an exception ends the function. -/
def pyBind {σ α β : Type} (r : Except PyErr α × σ) (f : α → σ → Except PyErr β × σ) : Except PyErr β × σ :=
  match r with
  | (.error e, s) => (.error e, s)
  | (.ok a, s) => f a s

section
variable {σ : Type} (dev : PyDev σ)

/-- `write(buffer)` followed by `read(1)[0]` (bus.py 39-42, 57-60, 65-68, 82-86). -/
def busRequest (l : List Int) (s : σ) : Except PyErr (BitVec 8) × σ :=
  match pyBytes l with
  | none => (.error .valueError, s)
  | some buffer =>
    let s := dev.write buffer s
    let r := dev.read 1 s
    match r.1 with
    | [] => (.error .indexError, r.2)
    | status :: _ => (.ok status, r.2)

/-- `I2CBus.write_block_data`, bus.py 27-46. -/
def writeBlockData (width addr reg : Int) (data : List Int) (s : σ) : Except PyErr (Option Nat) × σ :=
  let size := regAddrSize width + data.length
  let array := regAddrArray width reg ++ data
  match busRequest dev ([addr * 2, size] ++ array) s with
  | (.error e, s) => (.error e, s)
  | (.ok status, s) => if status ≠ 0 then (.ok none, s) else (.ok (some data.length), s)

/-- `I2CBus.read_block_data`, bus.py 48-73. -/
def readBlockData (width addr reg length : Int) (s : σ) : Except PyErr (Option (List (BitVec 8))) × σ :=
  match busRequest dev ([addr * 2, regAddrSize width] ++ regAddrArray width reg) s with
  | (.error e, s) => (.error e, s)
  | (.ok status, s) =>
    if status ≠ 0 then (.ok none, s)
    else
      match busRequest dev [addr * 2 + 1, length] s with
      | (.error e, s) => (.error e, s)
      | (.ok status, s) =>
        if status ≠ 0 then (.ok none, s)
        else
          let r := dev.read length.toNat s
          (.ok (some r.1), r.2)

/-- `I2CBus.write_byte_data`, bus.py 21-22: the result of `write_block_data` is dropped. -/
def writeByteData (width addr reg data : Int) (s : σ) : Except PyErr Unit × σ :=
  match writeBlockData dev width addr reg [data] s with
  | (.error e, s) => (.error e, s)
  | (.ok _, s) => (.ok (), s)

/-- `I2CBus.read_byte_data`, bus.py 24-25: `None[0]` is a `TypeError`. -/
def readByteData (width addr reg : Int) (s : σ) : Except PyErr (BitVec 8) × σ :=
  match readBlockData dev width addr reg 1 s with
  | (.error e, s) => (.error e, s)
  | (.ok none, s) => (.error .typeError, s)
  | (.ok (some []), s) => (.error .indexError, s)
  | (.ok (some (b :: _)), s) => (.ok b, s)

/-- What the discovery functions print. -/
inductive BusTok | dots | hex (addr : Nat) | newline
deriving DecidableEq, Repr

/-- Output for one address (bus.py 87-97, 115-121). -/
def busToks (addr : Nat) (status : BitVec 8) : List BusTok :=
  (if status ≠ 0 then [.dots] else [.hex addr]) ++ (if addr % 16 = 15 then [.newline] else [])

/-- The loop of `I2CBus.discover` from address `addr` for `n` addresses, bus.py 79-97. -/
def discoverLoop : Nat → Nat → σ → Except PyErr (List Nat × List BusTok) × σ
  | 0, _, s => (.ok ([], []), s)
  | n + 1, addr, s =>
    pyBind (busRequest dev [(addr : Int) * 2, 0] s) fun status s =>
      pyBind (discoverLoop n (addr + 1) s) fun r s =>
        (.ok ((if status ≠ 0 then [] else [addr]) ++ r.1, busToks addr status ++ r.2), s)

/-- `I2CBus.discover`, bus.py 75-99, with the printed map. -/
def discover (s : σ) : Except PyErr (List Nat × List BusTok) × σ := discoverLoop dev 128 0 s

/-- `I2CBus.discover_queue`, bus.py 101-121: the printed map. -/
def discoverQueue (s : σ) : Except PyErr (List BusTok) × σ :=
  match pyBytes ((List.range 128).flatMap fun (addr : Nat) => [(addr : Int) * 2, 0]) with
  | none => (.error .valueError, s)
  | some buffer =>
    let r := dev.read 128 (dev.write buffer s)
    (.ok (r.1.zipIdx.flatMap fun p => busToks p.2 p.1), r.2)

end

end Lambdalib
