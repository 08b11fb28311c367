import Verif.Model.UlpiDumpDirect
import Verif.Spec.CrossDomain

/-! A PHY with registers, after the ULPI specification 1.1, sections 3.8.1 and 3.8.3, and the register dump on its pins. -/

namespace Lambdalib

/-- State of the PHY: the bus is with the link, a read command is acknowledged, the PHY has taken the bus and will send a byte, it
sends a byte. -/
inductive RegPhySt
  | idle
  | ack
  | turn (b : Nat)
  | send (b : Nat)
deriving DecidableEq, Repr

/-- What the PHY would like to do in a cycle: take a command that is on the bus, send an RX CMD, or nothing. -/
inductive RegPhyWish
  | take
  | rxCmd (b : Nat)
  | wait
deriving DecidableEq, Repr

/-- The pins driven by the PHY in a state: `dir`, `nxt`, `data`. -/
def RegPhySt.pins : RegPhySt → Bool × Bool × Nat
  | .idle => (false, false, 0)
  | .ack => (false, true, 0)
  | .turn _ => (true, false, 0)
  | .send b => (true, false, b)

/-- One cycle of a PHY with the registers `R`; `o` is the byte on the bus. A read command is acknowledged some time after it has
been put on the bus; in the next cycle the PHY takes the bus, and sends the value in the one after. Outside of this it may
send RX CMDs whenever it likes. -/
def RegPhySt.step (R : Nat → Nat) (wish : RegPhyWish) (o : Nat) : RegPhySt → RegPhySt
  | .idle =>
    match wish with
    | .take => if o / 64 = 3 then .ack else .idle
    | .rxCmd b => .turn b
    | .wait => .idle
  | .ack => .turn (R (o % 64))
  | .turn b => .send b
  | .send _ =>
    match wish with
    | .rxCmd b => .send b
    | _ => .idle

/-- The surroundings at an instant: edges of the two clocks, what the PHY would like to do, whether the user takes a byte. -/
structure DumpEnv where
  edgeSync : Bool
  edgeUlpi : Bool
  wish : RegPhyWish
  ready : Bool
deriving DecidableEq, Repr

def RegPhySt.drive (p : RegPhySt) (e : DumpEnv) : DumpDirectIn :=
  ⟨e.edgeSync, e.edgeUlpi, p.pins.1, p.pins.2.1, p.pins.2.2, e.ready⟩

/-- The register dump and a PHY with the registers `R`, connected; the PHY has the clock `ulpi`. Output: the inputs and the outputs of the
dump. -/
def dumpWithPhy (c2 c4 maxAddr : Nat) (R : Nat → Nat) :
    Circuit (((PorSt × Nat) × DumpS) × RegPhySt) DumpEnv (DumpDirectIn × Bool × DumpOut) where
  reset := ((dumpDirect c2 c4 maxAddr).reset, .idle)
  out s e := (s.2.drive e, (dumpDirect c2 c4 maxAddr).out s.1 (s.2.drive e))
  next s e :=
    ((dumpDirect c2 c4 maxAddr).next s.1 (s.2.drive e),
     if e.edgeUlpi then s.2.step R e.wish ((dumpDirect c2 c4 maxAddr).out s.1 (s.2.drive e)).2.o else s.2)

/-- Bytes taken by the user before the instant `n`, at edges of `ulpi`. -/
def dumpTaken (x : Nat → DumpDirectIn × Bool × DumpOut) (n : Nat) : List Nat :=
  transferred (fun k => (x k).2.2.valid && (x k).1.edgeUlpi) (fun k => (x k).1.ready) (fun k => (x k).2.2.data) n

end Lambdalib
