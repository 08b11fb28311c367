import Verif.Spec.I2cDevice
import Verif.Spec.Ssd1306

/-! The SSD1306 display controller, as far as it concerns the picture: commands, addressing of the display memory (horizontal
addressing mode), and how it reads I2C transactions. After the data sheet. -/

namespace Lambdalib

/-- State of the controller. `mem` is the display memory: page (eight lines) and column. `pend` are the bytes of a command that
is not complete. `reg` holds the arguments of the settings. -/
structure SsdChip where
  on : Bool
  inverted : Bool
  allOn : Bool
  horizontal : Bool
  colStart : Nat
  colEnd : Nat
  pageStart : Nat
  pageEnd : Nat
  col : Nat
  page : Nat
  pend : List Nat
  reg : Nat → Nat
  mem : Nat → Nat → Nat

/-- Power on: display off, page addressing mode; the memory has any content. -/
def SsdChip.powerOn (mem : Nat → Nat → Nat) : SsdChip :=
  ⟨false, false, false, false, 0, 127, 0, 7, 0, 0, [], fun _ => 0, mem⟩

/-- Number of arguments of a command: addressing mode, contrast, charge pump, multiplex ratio, offset, clock, precharge, COM pins
and VCOMH have one; column and page range have two. -/
def ssdArgs (b : Nat) : Nat :=
  if b = 0x21 ∨ b = 0x22 then 2
  else if b = 0x20 ∨ b = 0x81 ∨ b = 0x8D ∨ b = 0xA8 ∨ b = 0xD3 ∨ b = 0xD5 ∨ b = 0xD9 ∨ b = 0xDA ∨ b = 0xDB then 1 else 0

/-- Effect of a complete command. -/
def SsdChip.exec (c : SsdChip) : List Nat → SsdChip
  | [b] =>
    if b = 0xAE then { c with on := false }
    else if b = 0xAF then { c with on := true }
    else if b = 0xA4 then { c with allOn := false }
    else if b = 0xA5 then { c with allOn := true }
    else if b = 0xA6 then { c with inverted := false }
    else if b = 0xA7 then { c with inverted := true }
    else c
  | [b, x] =>
    if b = 0x20 then { c with horizontal := decide (x % 4 = 0) }
    else { c with reg := fun k => if k = b then x else c.reg k }
  | [b, x, y] =>
    if b = 0x21 then { c with colStart := x, colEnd := y, col := x }
    else { c with pageStart := x, pageEnd := y, page := x }
  | _ => c

/-- A command byte. -/
def SsdChip.command (c : SsdChip) (b : Nat) : SsdChip :=
  let l := c.pend ++ [b]
  if l.length ≤ ssdArgs (l.headD 0) then { c with pend := l } else { c with pend := [] }.exec l

/-- A data byte goes to the memory; in horizontal addressing mode the column advances, and at the end of the columns the page. -/
def SsdChip.data (c : SsdChip) (b : Nat) : SsdChip :=
  let c' := { c with mem := fun p x => if p = c.page ∧ x = c.col then b else c.mem p x }
  if c.horizontal then
    if c.col = c.colEnd then { c' with col := c.colStart, page := if c.page = c.pageEnd then c.pageStart else c.page + 1 }
    else { c' with col := c.col + 1 }
  else { c' with col := (c.col + 1) % 128 }

/-- Position in a transaction: none open, address byte, control byte, commands, data, or not for this chip. -/
inductive SsdBusPos | idle | address | control | commands | data | ignore
deriving DecidableEq, Repr

/-- Effect of an event on the bus. The chip is at address 0x3C; the control byte 0x00 announces commands, 0x40 data. -/
def SsdChip.event (r : SsdBusPos × SsdChip) : DevEv → SsdBusPos × SsdChip
  | .start => (.address, r.2)
  | .stop => (.idle, r.2)
  | .wrote d true =>
    match r.1 with
    | .address => (if d = 0x78 then .control else .ignore, r.2)
    | .control => (if d = 0x00 then .commands else if d = 0x40 then .data else .ignore, r.2)
    | .commands => (.commands, r.2.command d.toNat)
    | .data => (.data, r.2.data d.toNat)
    | p => (p, r.2)
  | .wrote _ false => (.ignore, r.2)
  | .sent _ _ => r

/-- The chip after a history, from power on. -/
def SsdChip.run (mem : Nat → Nat → Nat) (log : List DevEv) : SsdBusPos × SsdChip :=
  log.foldl SsdChip.event (.idle, .powerOn mem)

/-- A display on the bus acknowledges its address after a start, and every byte of a transaction that began with it. -/
def I2cDev.IsDisplay (D : I2cDev) : Prop :=
  ∀ log, D.ack (log ++ [.start]) 0x78 = true ∧
    ∀ (body : List (BitVec 8)) d, D.ack (log ++ [.start, .wrote 0x78 true] ++ body.map (.wrote · true)) d = true

/-- The picture that the bytes of the user make, from a black screen: a frame ends at `last` or after `size` bytes, and the bytes
of a frame fill the screen from the first cell. State: cells filled in the open frame, picture. -/
def ssdPicture (size : Nat) (user : List (Nat × Bool)) : Nat × (Nat → Nat) :=
  user.foldl (fun a u =>
    (if u.2 || decide (a.1 + 1 = size) then 0 else a.1 + 1, fun k => if k = a.1 then u.1 else a.2 k)) (0, fun _ => 0)

/-- The chip shows a picture on a screen of `w` times `h` pixels: cell `k` is the eight lines of page `k / w` in column `k % w`. -/
structure SsdChip.Shows (c : SsdChip) (w h col : Nat) (pic : Nat → Nat) : Prop where
  on : c.on = true
  plain : c.inverted = false ∧ c.allOn = false
  lines : c.reg 0xA8 = h - 1
  pump : c.reg 0x8D = 0x14
  cells : ∀ p x, p < h / 8 → x < w → c.mem p (col + x) = pic (w * p + x)

end Lambdalib
