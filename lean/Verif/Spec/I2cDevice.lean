import Verif.Spec.I2cTarget

/-! An I2C device after the I2C bus specification, and the same device as seen by a programmer. -/

namespace Lambdalib

/-- What happens to a device: start and stop conditions, bytes received with the answer, bytes sent with the answer of the
initiator (`true` is acknowledged). -/
inductive DevEv
  | start | stop | wrote (d : BitVec 8) (ack : Bool) | sent (b : BitVec 8) (ack : Bool)
deriving DecidableEq, Repr

/-- The decisions of a device, given its history: whether to acknowledge a byte, and whether to send a byte next (only asked
after an acknowledged byte). -/
structure I2cDev where
  ack : List DevEv → BitVec 8 → Bool
  tx : List DevEv → Option (BitVec 8)

/-! ### The device as a programmer sees it -/

/-- Between two bytes the device ignores the bus, waits for a byte, or is going to send a byte. -/
inductive DevMode
  | rest | recv | send (b : BitVec 8)
deriving DecidableEq, Repr

/-- History and mode of a device. -/
structure DevAbs where
  log : List DevEv
  mode : DevMode
deriving DecidableEq, Repr

/-- Mode after a byte with answer `a`. -/
def I2cDev.after (D : I2cDev) (log : List DevEv) (a : Bool) : DevMode :=
  if a then (match D.tx log with | some b => .send b | none => .recv) else .rest

/-- Effect of an event on history and mode: a byte with an answer. -/
def I2cDev.byte (D : I2cDev) (log : List DevEv) (ev : DevEv) (a : Bool) : DevAbs :=
  ⟨log ++ [ev], D.after (log ++ [ev]) a⟩

/-- Effect of a command of the initiator. -/
def I2cDev.cmd (D : I2cDev) (A : DevAbs) : I2cCmd → DevAbs
  | .start => ⟨A.log ++ [.start], .recv⟩
  | .stop => ⟨A.log ++ [.stop], .rest⟩
  | .write d =>
    match A.mode with
    | .rest => A
    | .recv => D.byte A.log (.wrote d (D.ack A.log d)) (D.ack A.log d)
    | .send b => D.byte A.log (.sent b false) false
  | .read a =>
    match A.mode with
    | .rest => A
    | .recv => D.byte A.log (.wrote 0xFF (D.ack A.log 0xFF)) (D.ack A.log 0xFF)
    | .send b => D.byte A.log (.sent b a) a

/-- Whether a written byte is acknowledged. -/
def I2cDev.acks (D : I2cDev) (A : DevAbs) (d : BitVec 8) : Bool :=
  match A.mode with
  | .recv => D.ack A.log d
  | _ => false

/-- The byte that a read gives: all ones when the device does not send. -/
def I2cDev.gives (A : DevAbs) : BitVec 8 :=
  match A.mode with
  | .send b => b
  | _ => 0xFF

/-- Effect of a sequence of commands. -/
def I2cDev.cmds (D : I2cDev) (L : List I2cCmd) : DevAbs := L.foldl D.cmd ⟨[], .rest⟩

/-- Commands that make sense: no start or stop while the device sends, no start directly after a start, and no stop directly
after a byte read was acknowledged. -/
def DevAllowed (L : List I2cCmd) (A : DevAbs) : I2cCmd → Prop
  | .start => L.getLast? ≠ some .start ∧ ∀ b, A.mode ≠ .send b
  | .stop => L.getLast? ≠ some (.read true) ∧ ∀ b, A.mode ≠ .send b
  | _ => True

/-! ### The device on the wires -/

/-- Phases of a device on the wires: bits received so far; a byte received and answered; the answer on SDA; bit `k` on SDA;
waiting for the answer; answered. -/
inductive DevPh
  | rest
  | recv (bits : List Bool)
  | got (a : Bool)
  | acking (a : Bool)
  | send (b : BitVec 8) (k : Nat)
  | asking (b : BitVec 8)
  | asked (a : Bool)
deriving DecidableEq, Repr

/-- The byte with the given bits, most significant first. -/
def byteOf (l : List Bool) : BitVec 8 := BitVec.ofNat 8 (l.foldl (fun n b => 2 * n + (if b then 1 else 0)) 0)

/-- Phase at the first falling edge after a byte. -/
def I2cDev.begin (D : I2cDev) (log : List DevEv) (a : Bool) : DevPh :=
  match D.after log a with
  | .rest => .rest
  | .recv => .recv []
  | .send b => .send b 0

/-- The device on the wires. -/
def I2cDev.target (D : I2cDev) : I2cTarget (DevPh × List DevEv) where
  init := (.rest, [])
  fall t :=
    match t.1 with
    | .got a => (.acking a, t.2)
    | .acking a => (D.begin t.2 a, t.2)
    | .send b k => (if k < 7 then .send b (k + 1) else .asking b, t.2)
    | .asked a => (D.begin t.2 a, t.2)
    | _ => t
  rise t v :=
    match t.1 with
    | .recv l =>
      if l.length < 7 then (.recv (l ++ [v]), t.2)
      else
        let d := byteOf (l ++ [v])
        (.got (D.ack t.2 d), t.2 ++ [.wrote d (D.ack t.2 d)])
    | .asking b => (.asked (!v), t.2 ++ [.sent b (!v)])
    | _ => t
  start t := (.recv [], t.2 ++ [.start])
  stop t := (.rest, t.2 ++ [.stop])
  sda t :=
    match t.1 with
    | .acking a => !a
    | .send b k => b.getLsbD (7 - k)
    | _ => true

end Lambdalib
