import Verif.Spec.Circuit
import Verif.Model.Basic

/-! Model of the Verilog module `lambdalib/cores/usb/ulpi_wrapper.v`, which `UTMITranslator`
(lambdalib/cores/usb/utmi.py 17-37) instantiates. The reset input is not asserted after power-on, the registers start at
their reset values. Bytes are natural numbers; a disjoint OR is written as a sum. -/

namespace Lambdalib

/-- Inputs, ulpi_wrapper.v 34-45. -/
structure UwIn where
  data : Nat
  dir : Bool
  nxt : Bool
  txData : Nat
  txValid : Bool
  op : Fin 4
  xcvr : Fin 4
  term : Bool
  dp : Bool
  dm : Bool
deriving DecidableEq, Repr

/-- Outputs, ulpi_wrapper.v 48-55. -/
structure UwOut where
  data : Nat
  stp : Bool
  rxData : Nat
  txReady : Bool
  rxValid : Bool
  rxActive : Bool
  rxError : Bool
  lineState : Nat
deriving DecidableEq, Repr

/-- States, ulpi_wrapper.v 74-77. -/
inductive UwState | idle | cmd | data | reg
deriving DecidableEq, Repr

/-- Mode registers, ulpi_wrapper.v 93-97. -/
structure UwMode where
  update : Bool
  xcvr : Fin 4
  term : Bool
  op : Fin 4
  phyReset : Bool
deriving DecidableEq, Repr

/-- OTG registers, ulpi_wrapper.v 135-137. -/
structure UwOtg where
  update : Bool
  dp : Bool
  dm : Bool
deriving DecidableEq, Repr

/-- Transmit buffer, ulpi_wrapper.v 199-202; the indices have one bit. -/
structure UwBuf where
  b0 : Nat
  b1 : Nat
  v0 : Bool
  v1 : Bool
  wr : Bool
  rd : Bool
deriving DecidableEq, Repr

/-- Registers of the bus logic, ulpi_wrapper.v 79, 98, 138, 251-259. -/
structure UwCore where
  state : UwState
  data : Nat
  stp : Bool
  dataQ : Nat
  rxValid : Bool
  rxError : Bool
  rxActive : Bool
  lineState : Nat
  rxData : Nat
  modeWrite : Bool
  otgWrite : Bool
deriving DecidableEq, Repr

/-- All registers; `dirQ`: ulpi_wrapper.v 168, `delay`: 184. -/
structure UwS where
  mode : UwMode
  otg : UwOtg
  dirQ : Bool
  delay : Nat
  buf : UwBuf
  core : UwCore
deriving DecidableEq, Repr

/-- `turnaround_w`, ulpi_wrapper.v 176. -/
def uwTurn (s : UwS) (x : UwIn) : Bool := xor s.dirQ x.dir

/-- `mode_complete_w`, ulpi_wrapper.v 101-104. -/
def uwModeDone (s : UwS) (x : UwIn) : Bool := s.core.state == .reg && s.core.modeWrite && x.nxt && !x.dir

/-- `otg_complete_w`, ulpi_wrapper.v 141-144. -/
def uwOtgDone (s : UwS) (x : UwIn) : Bool := s.core.state == .reg && s.core.otgWrite && x.nxt && !x.dir

/-- `utmi_txready_o`, ulpi_wrapper.v 237. -/
def uwTxReady (s : UwS) : Bool := !(if s.buf.wr then s.buf.v1 else s.buf.v0) && s.delay == 0

/-- `utmi_tx_ready_w`, ulpi_wrapper.v 239. -/
def uwBufReady (s : UwS) : Bool := if s.buf.rd then s.buf.v1 else s.buf.v0

/-- `utmi_tx_data_w`, ulpi_wrapper.v 241. -/
def uwBufData (s : UwS) : Nat := if s.buf.rd then s.buf.b1 else s.buf.b0

/-- `utmi_tx_accept_w`, ulpi_wrapper.v 418-419. -/
def uwAccept (s : UwS) (x : UwIn) : Bool :=
  (s.core.state == .idle && !(s.mode.update || s.otg.update || uwTurn s x) && !x.dir) ||
  (s.core.state == .data && x.nxt && !x.dir)

/-- UTMI mode select, ulpi_wrapper.v 106-130. -/
def uwModeNext (s : UwS) (x : UwIn) : UwMode :=
  { xcvr := x.xcvr, term := x.term, op := x.op
    update :=
      if s.mode.update && uwModeDone s x then false
      else if s.mode.op != x.op || s.mode.term != x.term || s.mode.xcvr != x.xcvr then true
      else s.mode.update
    phyReset := if s.mode.update && uwModeDone s x then false else s.mode.phyReset }

/-- UTMI OTG control, ulpi_wrapper.v 146-163. -/
def uwOtgNext (s : UwS) (x : UwIn) : UwOtg :=
  { dp := x.dp, dm := x.dm
    update :=
      if s.otg.update && uwOtgDone s x then false
      else if s.otg.dp != x.dp || s.otg.dm != x.dm then true
      else s.otg.update }

/-- Transmit buffer, ulpi_wrapper.v 207-234: push, then pop. -/
def uwBufNext (s : UwS) (x : UwIn) : UwBuf :=
  let b := s.buf
  let b :=
    if x.txValid && uwTxReady s then
      if s.buf.wr then { b with b1 := x.txData, v1 := true, wr := false }
      else { b with b0 := x.txData, v0 := true, wr := true }
    else b
  if uwBufReady s && uwAccept s x then
    if s.buf.rd then { b with v1 := false, rd := false } else { b with v0 := false, rd := true }
  else b

/-- Bus logic, ulpi_wrapper.v 262-415. -/
def uwCoreNext (s : UwS) (x : UwIn) : UwCore :=
  let c := { s.core with stp := false, rxValid := false }
  if uwTurn s x && x.dir && x.nxt then
    let c := { c with rxActive := true }
    if s.core.state == .reg then { c with state := .idle, data := 0 } else c
  else if uwTurn s x && !x.dir then
    let c := { c with rxActive := false }
    if s.core.state == .reg then { c with state := .idle, data := 0 } else c
  else if !uwTurn s x then
    if x.dir && !x.nxt then
      let c := { c with lineState := x.data % 4 }
      if x.data / 16 % 4 = 0 then { c with rxActive := false, rxError := false }
      else if x.data / 16 % 4 = 1 then { c with rxActive := true, rxError := false }
      else if x.data / 16 % 4 = 3 then { c with rxActive := true, rxError := true }
      else c
    else if x.dir && x.nxt then { c with rxValid := true, rxData := x.data }
    else if s.core.state == .idle && s.mode.update then
      { c with
        dataQ := 64 + (if s.mode.phyReset then 32 else 0) + 8 * s.mode.op.val + (if s.mode.term then 4 else 0) +
          s.mode.xcvr.val
        data := 0x84, otgWrite := false, modeWrite := true, state := .cmd }
    else if s.core.state == .idle && s.otg.update then
      { c with
        dataQ := (if s.otg.dm then 4 else 0) + (if s.otg.dp then 2 else 0)
        data := 0x8a, otgWrite := true, modeWrite := false, state := .cmd }
    else if s.core.state == .idle && uwBufReady s then
      { c with data := 0x40 + uwBufData s % 16, state := .data }
    else if s.core.state == .cmd && x.nxt then { c with state := .reg, data := s.core.dataQ }
    else if s.core.state == .reg && x.nxt then
      { c with state := .idle, data := 0, stp := true, otgWrite := false, modeWrite := false }
    else if s.core.state == .data && x.nxt then
      if !uwBufReady s then { c with state := .idle, data := 0, stp := true }
      else { c with state := .data, data := uwBufData s }
    else c
  else c

/-- Module `ulpi_wrapper`, ulpi_wrapper.v 31-437. -/
def ulpiWrapper : Circuit UwS UwIn UwOut where
  reset :=
    { mode := ⟨false, 0, false, 3, true⟩
      otg := ⟨false, true, true⟩
      dirQ := false
      delay := 0
      buf := ⟨0, 0, false, false, false, false⟩
      core := ⟨.idle, 0, true, 0, false, false, false, 0, 0, false, false⟩ }
  out s _ :=
    { data := s.core.data, stp := s.core.stp, rxData := s.core.rxData, txReady := uwTxReady s
      rxValid := s.core.rxValid, rxActive := s.core.rxActive, rxError := s.core.rxError, lineState := s.core.lineState }
  next s x :=
    { mode := uwModeNext s x
      otg := uwOtgNext s x
      dirQ := x.dir
      delay := if s.core.rxActive then 7 else if s.delay != 0 then s.delay - 1 else s.delay
      buf := uwBufNext s x
      core := uwCoreNext s x }

end Lambdalib
