import Verif.Spec.Window

/-! Specification vocabulary for the I2C bus. -/

namespace Lambdalib

/-- SDA levels at the SCL rising edges between cycles `a` and `a + m`. -/
def sclRises (scl sda : Nat → Bool) (a m : Nat) : List Bool :=
  xferWindow (fun n => !scl n) (fun n => scl (n + 1)) (fun n => sda (n + 1)) a m

/-- Changes of SDA while SCL is high before and after, between cycles `a` and `a + m`, each recorded by its
new level: false is a start condition, true a stop condition. -/
def busConds (scl sda : Nat → Bool) (a m : Nat) : List Bool :=
  xferWindow (fun n => scl n && scl (n + 1)) (fun n => sda n != sda (n + 1)) (fun n => sda (n + 1)) a m

/-- The first `b` bits of a byte, most significant first. -/
def msbBits (d : BitVec 8) (b : Nat) : List Bool := (List.range b).map fun j => d.getLsbD (7 - j)

/-- Commands of an I2C core. -/
inductive I2cCmd
  | start | stop | write (d : BitVec 8) | read (ack : Bool)
deriving DecidableEq, Repr

/-- The command for one beat of an I2C stream (payload `(r_wn, data)`): reads are acknowledged except the
last one. -/
def i2cBeatCmd (b : Beat (Bool × BitVec 8)) : I2cCmd :=
  if b.payload.1 then .read (!b.last) else .write b.payload.2

/-- One processed beat together with the flag "not acknowledged": a start if no transaction is open, the
command, and a stop if it was the last beat or was not acknowledged. State: commands so far, transaction
open. -/
def i2cTxnStep (r : List I2cCmd × Bool) (b : Beat (Bool × BitVec 8) × Bool) : List I2cCmd × Bool :=
  (r.1 ++ (if r.2 then [] else [.start]) ++ [i2cBeatCmd b.1] ++
    (if b.1.last || b.2 then [.stop] else []), !(b.1.last || b.2))

/-- The command sequence for a list of processed beats, and whether a transaction is left open. -/
def i2cTxn (l : List (Beat (Bool × BitVec 8) × Bool)) : List I2cCmd × Bool :=
  l.foldl i2cTxnStep ([], false)

/-- Progress of the register writer: the commands so far, number of completed groups of three bytes, position
in the current group, and number of bytes that were needed so far. -/
structure I2cGroups where
  cmds : List I2cCmd
  group : Nat
  pos : Nat
  need : Nat
deriving DecidableEq, Repr

/-- One more byte of the current group is sent with outcome `ack`: preceded by a start if it is the first;
not acknowledged, the transaction is stopped and the group begins again; after the third byte the transaction
is stopped and the next group begins. -/
def i2cGroupStep (f : Nat → BitVec 8) (r : I2cGroups) (ack : Bool) : I2cGroups :=
  { cmds := r.cmds ++ (if r.pos = 0 then [.start] else []) ++ [.write (f (3 * r.group + r.pos))] ++
      (if ack = false ∨ r.pos = 2 then [.stop] else [])
    group := if ack = true ∧ r.pos = 2 then r.group + 1 else r.group
    pos := if ack = false ∨ r.pos = 2 then 0 else r.pos + 1
    need := max r.need (3 * r.group + r.pos + 1) }

/-- The register writer for input bytes `f 0, f 1, ...` and the given acknowledges. -/
def i2cGroups (f : Nat → BitVec 8) (acks : List Bool) : I2cGroups :=
  acks.foldl (i2cGroupStep f) ⟨[], 0, 0, 0⟩

end Lambdalib
