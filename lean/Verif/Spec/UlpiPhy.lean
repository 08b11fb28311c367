/-! What a ULPI transceiver (PHY) takes from its pins, after the ULPI specification 1.1, sections 3.8.1 to 3.8.3. -/

namespace Lambdalib

/-- The pins in one cycle: `dir` and `nxt` are driven by the PHY, `data` and `stp` by the link. -/
structure PhyPins where
  dir : Bool
  nxt : Bool
  data : Nat
  stp : Bool
deriving DecidableEq, Repr

inductive PhySt
  | idle
  /-- in a transmission, bytes taken so far -/
  | tx (bytes : List Nat)
  /-- register write command taken -/
  | reg (addr : Nat)
  /-- register value taken -/
  | regVal (addr val : Nat)
deriving DecidableEq, Repr

structure Phy where
  st : PhySt
  /-- packets transmitted: the first byte is the packet identifier of the transmit command -/
  packets : List (List Nat)
  /-- register writes: address and value -/
  writes : List (Nat × Nat)
deriving DecidableEq, Repr

/-- One cycle. `stp` ends a transmission or a register write. While the PHY owns the bus, and in the turnaround cycle
thereafter, nothing is taken, and what was begun is abandoned. Otherwise `nxt` takes a byte: in idle a command (0 is no
command). -/
def Phy.step (dirPrev : Bool) (p : PhyPins) (m : Phy) : Phy :=
  if p.stp then
    match m.st with
    | .tx bytes => { m with st := .idle, packets := m.packets ++ [bytes] }
    | .regVal a v => { m with st := .idle, writes := m.writes ++ [(a, v)] }
    | _ => { m with st := .idle }
  else if p.dir || dirPrev then { m with st := .idle }
  else if p.nxt then
    match m.st with
    | .idle =>
      if p.data / 64 = 1 then { m with st := .tx [p.data % 16] }
      else if p.data / 64 = 2 then { m with st := .reg (p.data % 64) }
      else m
    | .tx bytes => { m with st := .tx (bytes ++ [p.data]) }
    | .reg a => { m with st := .regVal a p.data }
    | .regVal _ _ => m
  else m

/-- `dir` in the previous cycle. -/
def prevDir (p : Nat → PhyPins) : Nat → Bool
  | 0 => false
  | n + 1 => (p n).dir

/-- The PHY after `n` cycles. -/
def Phy.run (p : Nat → PhyPins) : Nat → Phy
  | 0 => ⟨.idle, [], []⟩
  | n + 1 => (Phy.run p n).step (prevDir p n) (p n)

/-- What the PHY tells the link in one cycle. -/
inductive PhyRx
  /-- takes the bus with `nxt` high: a packet begins -/
  | start
  /-- gives the bus back -/
  | release
  /-- RX CMD -/
  | cmd (v : Nat)
  /-- a byte of a packet -/
  | byte (b : Nat)
  | nothing
deriving DecidableEq, Repr

def phyRx (dirPrev dir nxt : Bool) (data : Nat) : PhyRx :=
  match dirPrev, dir, nxt with
  | false, true, true => .start
  | true, false, _ => .release
  | true, true, false => .cmd data
  | true, true, true => .byte data
  | _, _, _ => .nothing

/-- What was told in the first `n` cycles, the latest first; `data` is what the PHY drives. -/
def phyTold (dir nxt : Nat → Bool) (data : Nat → Nat) : Nat → List PhyRx
  | 0 => []
  | n + 1 => phyRx (match n with | 0 => false | k + 1 => dir k) (dir n) (nxt n) (data n) :: phyTold dir nxt data n

/-- Bits 5 and 4 of an RX CMD: 0 no packet, 1 packet, 3 packet with an error, 2 host disconnected. -/
def RxCmd.event (v : Nat) : Nat := v / 16 % 4

/-- A packet is being received: the latest of all that bears on it. -/
def packetActive (told : List PhyRx) : Bool :=
  (told.findSome? fun e => match e with
    | .start => some true
    | .release => some false
    | .cmd v => if RxCmd.event v = 2 then none else some (decide (RxCmd.event v ≠ 0))
    | _ => none).getD false

/-- An error was told by the latest RX CMD on the state of the receiver. -/
def packetError (told : List PhyRx) : Bool :=
  (told.findSome? fun e => match e with
    | .cmd v => if RxCmd.event v = 2 then none else some (decide (RxCmd.event v = 3))
    | _ => none).getD false

/-- The latest line state told. -/
def lineStateTold (told : List PhyRx) : Nat :=
  (told.findSome? fun e => match e with
    | .cmd v => some (v % 4)
    | _ => none).getD 0

/-- Function Control register, ULPI 1.1 section 4.2.2: not suspended. -/
def funcCtrl (reset : Bool) (op : Nat) (term : Bool) (xcvr : Nat) : Nat :=
  0x40 + (if reset then 0x20 else 0) + 8 * op + (if term then 4 else 0) + xcvr

/-- OTG Control register, ULPI 1.1 section 4.2.4: pull-downs only. -/
def otgCtrl (dp dm : Bool) : Nat := (if dm then 4 else 0) + (if dp then 2 else 0)

/-- The byte carries the low half of the packet identifier only. -/
def maskPid : List Nat → List Nat
  | [] => []
  | a :: l => a % 16 :: l

/-- Packets of a UTMI transmitter: a packet is what is accepted while `valid` stays high. The packets ended and the one
open in the first `n` cycles. -/
def utmiPackets (valid ready : Nat → Bool) (data : Nat → Nat) : Nat → List (List Nat) × List Nat
  | 0 => ([], [])
  | n + 1 =>
    let (ended, cur) := utmiPackets valid ready data n
    if valid n then (ended, cur ++ (if ready n then [data n] else []))
    else if cur = [] then (ended, []) else (ended ++ [cur], [])

end Lambdalib
