/-! Specification of the SSD1306 driver: bytes per packet and packets per session. -/

namespace Lambdalib

/-- A beat for the display: command (`dcn` low) or pixel data (`dcn` high), and end of packet. -/
structure SsdBeat where
  dcn : Bool
  data : Nat
  last : Bool
deriving DecidableEq, Repr

/-- A byte for the I2C bus, with end of transaction. -/
structure SsdByte where
  data : Nat
  last : Bool
deriving DecidableEq, Repr

/-! ### Bytes of the packets -/

/-- Progress through the packets: packets begun, the open packet (dropped or not), and the bytes sent. -/
structure SsdProg where
  begun : Nat
  inside : Option Bool
  bytes : List SsdByte
deriving DecidableEq, Repr

/-- Address byte: device 0x3C, write. -/
def ssdAddrByte : SsdByte := ⟨0x78, false⟩

/-- Control byte: pixel data or command. -/
def ssdCtrlByte (dcn : Bool) : SsdByte := ⟨if dcn then 0x40 else 0x00, false⟩

/-- One beat. `nak p`: the address byte of packet `p` is not acknowledged; then the packet is dropped. -/
def ssdStep (nak : Nat → Bool) (p : SsdProg) (b : SsdBeat) : SsdProg :=
  match p.inside with
  | none =>
    { begun := p.begun + 1
      inside := if b.last then none else some (!nak p.begun)
      bytes := p.bytes ++ if nak p.begun then [ssdAddrByte]
        else [ssdAddrByte, ssdCtrlByte b.dcn, ⟨b.data, b.last⟩] }
  | some sent =>
    { p with
      inside := if b.last then none else some sent
      bytes := p.bytes ++ if sent then [⟨b.data, b.last⟩] else [] }

def ssdBytes (nak : Nat → Bool) (beats : List SsdBeat) : SsdProg := beats.foldl (ssdStep nak) ⟨0, none, []⟩

/-- Position in the transactions on the bus. -/
inductive SsdPos | address | control | body
deriving DecidableEq, Repr

/-- Error flags of the address bytes among the bytes sent; a packet whose address byte has the flag has no more bytes. -/
def ssdErrStep (a : SsdPos × List Bool) (b : SsdByte × Bool) : SsdPos × List Bool :=
  match a.1 with
  | .address => (if b.2 then .address else .control, a.2 ++ [b.2])
  | .control => (.body, a.2)
  | .body => (if b.1.last then .address else .body, a.2)

def ssdErrors (sent : List (SsdByte × Bool)) : SsdPos × List Bool := sent.foldl ssdErrStep (.address, [])

/-- The value of `dcn` offered and not yet taken. -/
def heldDcn (valid ready dcn : Nat → Bool) : Nat → Option Bool
  | 0 => none
  | n + 1 => if valid n then (if ready n then none else some (dcn n)) else heldDcn valid ready dcn n

/-- The sender does not change `dcn` before the beat is taken. -/
def DcnHeld (valid ready dcn : Nat → Bool) : Prop :=
  ∀ n d, valid n = true → heldDcn valid ready dcn n = some d → dcn n = d

/-! ### Sessions -/

/-- Commands, each a packet of its own. -/
def ssdCmds (l : List Nat) : List SsdBeat := l.map fun b => ⟨false, b, true⟩

/-- A frame of black pixels. -/
def ssdBlack (size : Nat) : List SsdBeat := (List.range size).map fun j => ⟨true, 0, decide (j + 1 = size)⟩

/-- Bytes of the user, each with its `last`: a frame ends at `last` or after `size` bytes; each frame is preceded by the
addressing commands. First component: bytes of the open frame. -/
def ssdFrames (setup : List Nat) (size : Nat) (user : List (Nat × Bool)) : Nat × List SsdBeat :=
  user.foldl (fun a u =>
    let fin := u.2 || decide (a.1 + 1 = size)
    (if fin then 0 else a.1 + 1,
      a.2 ++ (if a.1 = 0 then ssdCmds setup else []) ++ [⟨true, u.1, fin⟩])) (0, [])

/-- What is sent before the first frame of the user. -/
def ssdBoot (init setup : List Nat) (size : Nat) : List SsdBeat := ssdCmds init ++ ssdCmds setup ++ ssdBlack size

/-- A session that was ended by a reset: between two frames, or before the black frame. -/
def SsdCut (init setup : List Nat) (size : Nat) (p : List SsdBeat × List (Nat × Bool)) : Prop :=
  ∃ S, S <+: ssdCmds setup ∧
    ((p.2 = [] ∧ p.1 = ssdCmds init ++ S) ∨
      ((ssdFrames setup size p.2).1 = 0 ∧ p.1 = ssdBoot init setup size ++ (ssdFrames setup size p.2).2 ++ S))

/-- The running session. `ready`: the screen was initialised and cleared. -/
def SsdNow (init setup : List Nat) (size : Nat) (ready : Bool) (p : List SsdBeat × List (Nat × Bool)) : Prop :=
  match ready with
  | false => p.2 = [] ∧ p.1 <+: ssdBoot init setup size
  | true => ∃ S, S <+: ssdCmds setup ∧ ((ssdFrames setup size p.2).1 ≠ 0 → S = []) ∧
      p.1 = ssdBoot init setup size ++ (ssdFrames setup size p.2).2 ++ S

/-! ### Screens -/

/-- Supported screens: width, height, clock divider, COM pins and first column. -/
def ssdScreens : List (Nat × Nat × Nat × Nat × Nat) :=
  [(128, 64, 128, 18, 0), (128, 32, 128, 2, 0), (96, 16, 96, 2, 0), (64, 48, 128, 18, 32), (64, 32, 128, 18, 32)]

/-- Initialisation of a screen: display off, clock, multiplex ratio (height - 1), no offset, start line 0, charge pump on,
horizontal addressing, column 127 is SEG0, scan from the last line, COM pins, contrast 127, precharge, VCOMH, show the
memory, not inverted, display on. -/
def ssdInitSeq (height clock pins : Nat) : List Nat :=
  [174] ++ [213, clock] ++ [168, height - 1] ++ [211, 0] ++ [64] ++ [141, 20] ++ [32, 0] ++ [161] ++ [200] ++
    [218, pins] ++ [129, 127] ++ [217, 241] ++ [219, 64] ++ [164] ++ [166] ++ [175]

/-- Addressing: columns `col` to `col + width - 1`, pages (of 8 lines) 0 to the last. -/
def ssdSetupSeq (width height col : Nat) : List Nat := [33, col, col + width - 1] ++ [34, 0, height / 8 - 1]

/-! ### Transactions -/

/-- Byte `j` starts a transaction: nothing was sent before, or the byte before ended one or was not acknowledged. -/
def SsdStarts (sent : List (SsdByte × Bool)) (j : Nat) : Prop :=
  j = 0 ∨ ∃ b, sent[j - 1]? = some b ∧ (b.1.last = true ∨ b.2 = true)

end Lambdalib
