import Verif.Spec.Circuit
import Verif.Model.Basic
import Verif.Model.Time

/-! Models of `lambdalib/cores/spi/clkgen.py`, `master.py` and `stream.py`. -/

namespace Lambdalib

/-! ### LiteSPIClkGen -/

/-- Inputs of `LiteSPIClkGen`: `en` and `div` (clkgen.py 18, 26). -/
structure SpiClkIn where
  en : Bool
  div : Nat
deriving DecidableEq, Repr

/-- Outputs: the `clk` pad, the strobes, and the registered strobes (clkgen.py 22-28, 79). `clkReg` is the
registered clock given to `USRMCLK` when the pads have no `clk` (68-75). -/
structure SpiClkOut where
  clk : Bool
  clkReg : Bool
  posedge : Bool
  negedge : Bool
  posedgeReg : Bool
  posedgeReg2 : Bool
deriving DecidableEq, Repr

/-- Registers (clkgen.py 27-28, 35, 37, 68). `en_int` (36) is never driven. -/
structure SpiClkS where
  cnt : Nat
  clk : Bool
  clkReg : Bool
  pe : Bool
  pe2 : Bool
deriving DecidableEq, Repr

/-- `LiteSPIClkGen.elaborate`, lambdalib/cores/spi/clkgen.py 30-81, with a counter of `w` bits. `sample` and
`update` (42-43) are not used by any code and not modelled. -/
def spiClkGen (w : Nat) : Circuit SpiClkS SpiClkIn SpiClkOut where
  reset := ⟨0, false, false, false, false⟩
  out s x :=
    { clk := s.clk
      clkReg := s.clkReg
      posedge := x.en && !s.clk && s.cnt == x.div
      negedge := x.en && s.clk && s.cnt == x.div
      posedgeReg := s.pe
      posedgeReg2 := s.pe2 }
  next s x :=
    { cnt := if x.en then (if s.cnt < x.div then (s.cnt + 1) % 2 ^ w else 0) else 0
      clk := if x.en then (if s.cnt < x.div then s.clk else !s.clk) else false
      clkReg := s.clk
      pe := x.en && !s.clk && s.cnt == x.div
      pe2 := s.pe }

/-! ### _LiteSPISDRPHYCore -/

/-- Payload of the sink: `spi_core2phy_layout`, lambdalib/cores/spi/common.py 7-15. -/
structure SpiWord where
  data : Nat
  len : Nat
  width : Nat
  oe : Bool
deriving DecidableEq, Repr, Inhabited

/-- Inputs of the core without its FIFO: `cs`, the sink, the data pins `dq_i` as a number, and the level of the
FIFO. With separate `miso`/`mosi` pads `dq_i` is `2 * miso` (master.py 81-86). -/
structure SpiPhyIn where
  cs : Bool
  valid : Bool
  last : Bool
  word : SpiWord
  dqI : Nat
  level : Nat
deriving DecidableEq, Repr

/-- Outputs: `sink.ready`, the pads, and the sink of the FIFO. -/
structure SpiPhyOut where
  ready : Bool
  csN : Bool
  clk : Bool
  dqO : Nat
  dqOe : Bool
  fValid : Bool
  fLast : Bool
  fData : Nat
deriving DecidableEq, Repr

/-- Registers (master.py 103-116, 149-152, 158 and the submodules). -/
structure SpiPhyS where
  ck : SpiClkS
  csCnt : Nat
  srOut : Nat
  srOutCnt : Nat
  srIn : Nat
  srInCnt : Nat
  widthR : Nat
  lastR : Bool
  oeR : Bool
  running : Bool
  fValid : Bool
  fLast : Bool
deriving DecidableEq, Repr

/-- `width_r` selects one of the cases 1, 2, 4, 8 (master.py 119-122, 134-137, 141-146). -/
def spiWidthCase (w : Nat) : Bool := w == 1 || w == 2 || w == 4 || w == 8

section
variable (W P div csDelay : Nat)

/-- Inputs of the clock generator (master.py 66, 168); `div` is an eight bit signal. -/
def spiPhyCk (s : SpiPhyS) : SpiClkIn := ⟨s.running, div % 2 ^ 8⟩

/-- `xfr_en` (master.py 76, 163-164) for a FIFO of depth 8. -/
def spiXfrEn (s : SpiPhyS) (x : SpiPhyIn) : Bool :=
  (waitTimer (csDelay + 1)).out s.csCnt x.cs && x.valid && !decide (x.level > 8 - 2)

/-- `sr_out_shift` (master.py 196-197). -/
def spiOutShift (s : SpiPhyS) : Bool := ((spiClkGen 8).out s.ck (spiPhyCk div s)).negedge

/-- `sr_out_end` (master.py 196-201). -/
def spiOutEnd (s : SpiPhyS) : Bool := spiOutShift div s && s.srOutCnt == 0

/-- `sr_out_load` (master.py 171-175). -/
def spiOutLoad (s : SpiPhyS) (x : SpiPhyIn) : Bool :=
  (!s.running || spiOutEnd div s) && spiXfrEn csDelay s x

/-- `sr_in_shift` (master.py 186-187). -/
def spiInShift (s : SpiPhyS) : Bool := ((spiClkGen 8).out s.ck (spiPhyCk div s)).posedgeReg

/-- `sr_in_end` (master.py 186-191). -/
def spiInEnd (s : SpiPhyS) : Bool := spiInShift div s && s.srInCnt == 0

/-- `_LiteSPISDRPHYCore.elaborate`, lambdalib/cores/spi/master.py 53-205, without the FIFO (59-61), for a data
width of `W` bits and `P` output pins. `hold_n`, `wp_n` are constants (97-100). -/
def spiPhy : Circuit SpiPhyS SpiPhyIn SpiPhyOut where
  reset := ⟨(spiClkGen 8).reset, (waitTimer (csDelay + 1)).reset, 0, 0, 0, 0, 0, false, false, false, false, false⟩
  out s x :=
    { ready := spiOutLoad div csDelay s x
      csN := !(waitTimer (csDelay + 1)).out s.csCnt x.cs
      clk := ((spiClkGen 8).out s.ck (spiPhyCk div s)).clk
      dqO := if spiWidthCase s.widthR then s.srOut / 2 ^ (W - s.widthR) % 2 ^ P else 0
      dqOe := s.oeR
      fValid := s.fValid
      fLast := s.fLast
      fData := s.srIn }
  next s x :=
    let load := spiOutLoad div csDelay s x
    { ck := (spiClkGen 8).next s.ck (spiPhyCk div s)
      csCnt := (waitTimer (csDelay + 1)).next s.csCnt x.cs
      srOut :=
        if load then x.word.data * 2 ^ (W - x.word.len) % 2 ^ W
        else if spiOutShift div s && spiWidthCase s.widthR then s.srOut * 2 ^ s.widthR % 2 ^ W
        else s.srOut
      srOutCnt :=
        if spiOutShift div s && !spiOutEnd div s then (s.srOutCnt + 256 - s.widthR) % 256
        else if load then (x.word.len + 256 - x.word.width) % 256
        else s.srOutCnt
      srIn :=
        if spiInShift div s && spiWidthCase s.widthR then
          (s.srIn * 2 ^ s.widthR + (if s.widthR = 1 then x.dqI / 2 % 2 else x.dqI % 2 ^ s.widthR)) % 2 ^ W
        else s.srIn
      srInCnt :=
        if spiInShift div s && !spiInEnd div s then (s.srInCnt + 256 - s.widthR) % 256
        else if load then (x.word.len + 256 - x.word.width) % 256
        else s.srInCnt
      widthR := if load then x.word.width else s.widthR
      lastR := if load then x.last else s.lastR
      oeR := if load then x.word.oe else s.oeR
      running := if load then true else if spiOutEnd div s && !spiXfrEn csDelay s x then false else s.running
      fValid := spiInEnd div s
      fLast := if spiInEnd div s then s.lastR else s.fLast }

end

/-! ### SPIPHYMaster -/

/-- The SPI frequency used after the limit, `SPIPHYMaster`, lambdalib/cores/spi/master.py 27-31. Frequencies are
exact rationals instead of floats. -/
def spiFreq (sys : Nat) (spi : Rat) : Rat := if spi > ((sys / 2 : Nat) : Rat) then ((sys / 2 : Nat) : Rat) else spi

/-- The divisor, master.py 32. -/
def spiDivisor (sys : Nat) (spi : Rat) : Int := ((sys : Rat) / spiFreq sys spi / 2 - 1).ceil

/-- The chip select delay in clock cycles, master.py 33. -/
def spiCsDelay (sys : Nat) (spi csDelay : Rat) : Int := (csDelay * sys / spiFreq sys spi).ceil

/-! ### SPIStream -/

/-- Inputs of `SPIStream`: `data_sink` (valid, last, data), `data_source.ready`, `phy_source.ready`, `phy_sink`
(valid, last, data). -/
structure SpiStrIn where
  dValid : Bool
  dLast : Bool
  dData : Nat
  dReady : Bool
  pReady : Bool
  pValid : Bool
  pLast : Bool
  pData : Nat
deriving DecidableEq, Repr

/-- Outputs of `SPIStream`: `cs`, `data_sink.ready`, `data_source`, `phy_source` (with the constant fields in
`word`), `phy_sink.ready`. -/
structure SpiStrOut where
  cs : Bool
  dReady : Bool
  dValid : Bool
  dLast : Bool
  dData : Nat
  pValid : Bool
  pLast : Bool
  pWord : SpiWord
  pReady : Bool
deriving DecidableEq, Repr

inductive SpiStrSt | idle | txRx | rx
deriving DecidableEq, Repr

/-- `SPIStream.elaborate`, lambdalib/cores/spi/stream.py 29-93. -/
def spiStream (width busWidth : Nat) : Circuit SpiStrSt SpiStrIn SpiStrOut where
  reset := .idle
  out s x :=
    { cs := s == .txRx || s == .rx
      dReady := x.pReady && s == .txRx
      dValid := x.pValid && (s == .txRx || s == .rx)
      dLast := x.pLast
      dData := x.pData
      pValid := x.dValid && s == .txRx
      pLast := x.dLast
      pWord := ⟨x.dData, width, busWidth, true⟩
      pReady := x.dReady && (s == .txRx || s == .rx) }
  next s x :=
    match s with
    | .idle => if x.dValid then .txRx else .idle
    | .txRx => if x.dValid && x.pReady && x.dLast then .rx else .txRx
    | .rx => if x.pValid && x.dReady && x.pLast then .idle else .rx

end Lambdalib
