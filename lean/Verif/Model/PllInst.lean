import Verif.Model.Pll
import Verif.Spec.PllPrim

/-! Model of `elaborate` of the two PLLs: the parameter dictionary given to the vendor primitive. -/

namespace Lambdalib

/-- The dictionary `pll_kwargs`, as the sequence of its assignments. -/
abbrev PrimDict := List (String × PrimVal)

/-- Lookup: the last assignment of a key counts. -/
def dictGet : PrimDict → String → Option PrimVal
  | [], _ => none
  | (a, v) :: l, k => match dictGet l k with
    | some w => some w
    | none => if a = k then some v else none

/-- `int(freq / 1e6)`. -/
def pllMHz (f : Rat) : PrimVal := .num ((f / 1000000).floor : Int)

/-- One secondary output, lattice_ecp5.py 288-328 (three times the same code with other names). -/
def ecpSlot (name : String) : Option EcpOut → PrimDict
  | some o =>
    [("a_FREQUENCY_PIN_" ++ name, pllMHz o.freq), ("p_" ++ name ++ "_ENABLE", .str "ENABLED"),
     ("p_" ++ name ++ "_DIV", .num o.div), ("p_" ++ name ++ "_CPHASE", .num o.cphase),
     ("p_" ++ name ++ "_FPHASE", .num o.fphase), ("o_" ++ name, .clock o.domain)]
  | none => [("p_" ++ name ++ "_ENABLE", .str "DISABLED")]

/-- `PLL_LatticeECP5.elaborate`, lambdalib/cores/pll/lattice_ecp5.py 250-363. Arguments: `i_domain`, `i_freq`,
`i_reset_less`, `fb_internal` and the computed parameters. The two fresh signals are nets 0 and 1. -/
def ecpInst (iDomain : String) (iFreq : Nat) (resetLess fbInternal : Bool) (v : EcpV) (p : EcpOut) (os : List EcpOut) :
    PrimDict :=
  [("a_ICP_CURRENT", .num 12), ("a_LPF_RESISTOR", .num 8), ("a_MFG_ENABLE_FILTEROPAMP", .num 1),
   ("a_MFG_GMCREF_SEL", .num 2), ("p_INTFB_WAKE", .str "DISABLED"), ("p_STDBY_ENABLE", .str "DISABLED"),
   ("p_DPHASE_SOURCE", .str "DISABLED"), ("p_OUTDIVIDER_MUXA", .str "DIVA"), ("p_OUTDIVIDER_MUXB", .str "DIVB"),
   ("p_OUTDIVIDER_MUXC", .str "DIVC"), ("p_OUTDIVIDER_MUXD", .str "DIVD"),
   ("i_PHASESEL0", .const 0), ("i_PHASESEL1", .const 0), ("i_PHASEDIR", .const 1), ("i_PHASESTEP", .const 1),
   ("i_PHASELOADREG", .const 1), ("i_PLLWAKESYNC", .const 0), ("i_ENCLKOP", .const 0),
   ("o_LOCK", .locked),
   ("a_FREQUENCY_PIN_CLKI", pllMHz iFreq), ("p_CLKI_DIV", .num v.iDiv), ("i_CLKI", .clock iDomain),
   ("a_FREQUENCY_PIN_CLKOP", pllMHz p.freq), ("p_CLKOP_ENABLE", .str "ENABLED"), ("p_CLKOP_DIV", .num p.div),
   ("p_CLKOP_CPHASE", .num p.cphase), ("p_CLKOP_FPHASE", .num p.fphase), ("o_CLKOP", .clock p.domain)] ++
  ecpSlot "CLKOS" os[0]? ++ ecpSlot "CLKOS2" os[1]? ++ ecpSlot "CLKOS3" os[2]? ++
  (if !resetLess then [("p_PLLRST_ENA", .str "ENABLED"), ("i_RST", .rst iDomain)]
   else [("p_PLLRST_ENA", .str "DISABLED"), ("i_RST", .const 0)]) ++
  [("p_CLKFB_DIV", .num v.fbDiv)] ++
  (if fbInternal then [("p_FEEDBK_PATH", .str "INT_OP"), ("i_CLKFB", .net 0), ("o_CLKINTFB", .net 0)]
   else [("p_FEEDBK_PATH", .str "CLKOP"), ("i_CLKFB", .clock p.domain), ("o_CLKINTFB", .net 1)])

/-- One secondary output, xilinx_7series.py 281-289; the names for `i` from 0 to 4. -/
def xilSlot (name : String) : Option XilOut → PrimDict
  | some o => [("p_" ++ name ++ "_DIVIDE", .num o.div), ("p_" ++ name ++ "_PHASE", .num o.phase),
      ("o_" ++ name, .clock o.domain)]
  | none => []

/-- `PLL_Xilinx7Series.elaborate`, lambdalib/cores/pll/xilinx_7series.py 250-291. The signal `pll_fb` is net 0. -/
def xilInst (iDomain : String) (iFreq : Nat) (resetLess : Bool) (v : XilV) (p : XilOut) (os : List XilOut) : PrimDict :=
  [("p_STARTUP_WAIT", .str "FALSE"), ("i_PWRDWN", .const 0), ("o_LOCKED", .locked),
   ("p_REF_JITTER1", .num (1 / 100)), ("p_CLKIN1_PERIOD", .num (1000000000 / iFreq)), ("i_CLKIN1", .clock iDomain),
   ("p_DIVCLK_DIVIDE", .num v.divclk), ("p_CLKFBOUT_MULT", .num v.mult), ("i_CLKFBIN", .net 0), ("o_CLKFBOUT", .net 0),
   ("p_CLKOUT0_DIVIDE", .num p.div), ("p_CLKOUT0_PHASE", .num p.phase), ("o_CLKOUT0", .clock p.domain)] ++
  (if resetLess then [("i_RST", .const 0)] else [("i_RST", .rst iDomain)]) ++
  xilSlot "CLKOUT1" os[0]? ++ xilSlot "CLKOUT2" os[1]? ++ xilSlot "CLKOUT3" os[2]? ++ xilSlot "CLKOUT4" os[3]? ++
  xilSlot "CLKOUT5" os[4]?

end Lambdalib
