import Verif.Spec.Circuit
import Verif.Model.Basic

/-! Models of `lambdalib/cores/spi/slave.py` and `lambdalib/cores/spi/bridge.py`. -/

namespace Lambdalib

/-! ### SPIPHYSlave -/

/-- Inputs of `SPIPHYSlave`: the pins (`dq` is `mosi` or `dq.i` as a number), the sink. -/
structure SlvIn where
  clk : Bool
  csN : Bool
  dq : Nat
  valid : Bool
  data : Nat
  len : Nat
deriving DecidableEq, Repr, Inhabited

/-- Outputs: `sink.ready`, the output data pins, and the sink of the receive FIFO. -/
structure SlvOut where
  ready : Bool
  dqO : Nat
  fValid : Bool
  fData : Nat
  fLen : Nat
deriving DecidableEq, Repr

/-- Registers: two stages per `FFSynchronizer` (slave.py 56, 67, 73-74; reset value 0), `clk_r` (76), `cnt_in`,
`reg_in`, `idx` (100-101, 110), `cnt_out`, `reg_out` (130-131) and `dq_o` (52, 60). -/
structure SlvS where
  clk1 : Bool
  clk2 : Bool
  cs1 : Bool
  cs2 : Bool
  dq1 : Nat
  dq2 : Nat
  clkR : Bool
  cntIn : Nat
  regIn : Nat
  idx : Nat
  cntOut : Nat
  regOut : Nat
  dqO : Nat
deriving DecidableEq, Repr

/-- `sample` and `update` are `rise`/`fall` or the other way round (slave.py 84-90). -/
def slvMode (cpol cpha : Bool) : Bool := cpol == cpha

section
variable (width nb : Nat) (rising : Bool) (stages : List Nat)

/-- `rise` and `fall` (slave.py 79-81). -/
def slvRise (s : SlvS) : Bool := !s.cs2 && !s.clkR && s.clk2
def slvFall (s : SlvS) : Bool := !s.cs2 && s.clkR && !s.clk2

/-- `sample` and `update` (slave.py 85-90). -/
def slvSample (s : SlvS) : Bool := if rising then slvRise s else slvFall s
def slvUpdate (s : SlvS) : Bool := if rising then slvFall s else slvRise s

/-- `end` (slave.py 102). -/
def slvEnd (s : SlvS) : Bool := decide (s.cntIn > 0) && s.cs2

/-- Condition of the second branch (slave.py 119-120), which is also `fifo.sink.valid` (121). -/
def slvPush (s : SlvS) : Bool :=
  !slvSample rising s && (s.cntIn == stages.getD s.idx 0 || slvEnd s)

/-- Condition for loading (slave.py 135-136), which is also `sink.ready`. -/
def slvLoad (s : SlvS) : Bool := !s.cs2 && s.cntOut == 0

/-- `SPIPHYSlave.elaborate`, lambdalib/cores/spi/slave.py 43-155, without the receive FIFO (40-41, which is
assumed always ready by the code, 121). `width` data bits, `nb` data pins, `rising` from the clock mode, bits per
word `stages`. With `with_len=False` the input `len` is the constant `width` (96-97). Words longer than
`width` are not modelled faithfully (the shift of line 94 would be huge). -/
def spiSlave : Circuit SlvS SlvIn SlvOut where
  reset := ⟨false, false, false, false, 0, 0, false, 0, 0, 0, 0, 0, 0⟩
  out s _ :=
    { ready := slvLoad s
      dqO := s.dqO
      fValid := slvPush rising stages s
      fData := s.regIn
      fLen := s.cntIn }
  next s x :=
    let update := slvUpdate rising s
    { clk1 := x.clk
      clk2 := s.clk1
      cs1 := x.csN
      cs2 := s.cs1
      dq1 := x.dq
      dq2 := s.dq1
      clkR := s.clk2
      cntIn :=
        if slvSample rising s then truncRange (width + 1) (s.cntIn + nb)
        else if slvPush rising stages s then 0 else s.cntIn
      regIn := if slvSample rising s then (s.regIn * 2 ^ nb + s.dq2 % 2 ^ nb) % 2 ^ width else s.regIn
      idx :=
        if slvPush rising stages s then
          (if slvEnd s then 0 else if s.idx < stages.length - 1 then s.idx + 1 else s.idx)
        else s.idx
      cntOut :=
        if slvLoad s then (if x.valid then truncRange (width + 1) x.len else s.cntOut)
        else if update then (if s.cntOut > 0 then truncRange (width + 1) (s.cntOut + 2 ^ rangeWidth (width + 1) - nb) else s.cntOut)
        else if s.cs2 then 0 else s.cntOut
      regOut :=
        if slvLoad s then (if x.valid then x.data * 2 ^ (width - x.len) % 2 ^ width else s.regOut)
        else if update then s.regOut * 2 ^ nb % 2 ^ width else s.regOut
      dqO := if !slvLoad s && update then s.regOut / 2 ^ (width - nb) % 2 ^ nb else s.dqO }

end

/-! ### SPIWishboneBridge -/

/-- Inputs: the sink, `source.ready`, `bus.ack`, `bus.dat_r`. -/
structure BrgIn where
  valid : Bool
  data : Nat
  len : Nat
  ready : Bool
  ack : Bool
  datR : Nat
deriving DecidableEq, Repr, Inhabited

/-- Outputs: `sink.ready`, the source, the bus. -/
structure BrgOut where
  ready : Bool
  valid : Bool
  last : Bool
  data : Nat
  len : Nat
  cyc : Bool
  stb : Bool
  we : Bool
  adr : Nat
  datW : Nat
deriving DecidableEq, Repr

inductive BrgSt | command | addr | run
deriving DecidableEq, Repr

/-- Registers: FSM state, `command` (bridge.py 37-41) and `addr` (42). -/
structure BrgS where
  st : BrgSt
  write : Bool
  const : Bool
  count : Nat
  addr : Nat
deriving DecidableEq, Repr

/-- `bus.stb` (bridge.py 76, 84). -/
def brgStb (s : BrgS) (x : BrgIn) : Bool := s.st == .run && (if s.write then x.valid else x.ready)

/-- `SPIWishboneBridge.elaborate`, lambdalib/cores/spi/bridge.py 30-100, for data width `W` and address width
`aw`. `bus.sel` is constant (77, 85); `bytecount` (45-46) is not used. -/
def spiBridge (W aw : Nat) : Circuit BrgS BrgIn BrgOut where
  reset := ⟨.command, false, false, 0, 0⟩
  out s x :=
    { ready :=
        match s.st with
        | .command => true
        | .addr => true
        | .run => s.write && x.ack
      valid := s.st == .run && !s.write && x.ack
      last := s.st == .run && !s.write && decide (s.count ≤ W / 8)
      data := if s.st == .run && !s.write then x.datR else 0
      len := if s.st == .run && !s.write then W else 0
      cyc := s.st == .run
      stb := brgStb s x
      we := s.st == .run && s.write
      adr := if s.st == .run then s.addr / 2 ^ (W - aw) % 2 ^ aw else 0
      datW := if s.st == .run && s.write then x.data else 0 }
  next s x :=
    match s.st with
    | .command =>
      if x.valid && x.len == W then
        { s with st := .addr, write := x.data % 2 == 1, const := x.data / 2 % 2 == 1,
                 count := x.data / 4 % 2 ^ (W - 2) }
      else s
    | .addr =>
      if x.valid then (if x.len == W then { s with st := .run, addr := x.data % 2 ^ W } else { s with st := .command })
      else s
    | .run =>
      if brgStb s x && x.ack then
        { s with
          st := if decide (s.count ≤ W / 8) || (s.write && decide (x.len < W)) then .command else .run
          count := (s.count + 2 ^ (W - 2) - W / 8) % 2 ^ (W - 2)
          addr := (s.addr + W / 8) % 2 ^ W }
      else s

end Lambdalib
