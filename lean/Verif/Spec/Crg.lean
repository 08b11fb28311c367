import Verif.Spec.Circuit
import Verif.Spec.PllPrim

/-! Specification vocabulary for clock generators: a netlist of clock domains around one PLL primitive, which clocks and
resets are driven, at which frequency a domain runs, and when a domain is in reset. -/

namespace Lambdalib

/-- The clock or reset signal of a domain. -/
inductive CrgSig
  | clock (domain : String)
  | rst (domain : String)
deriving DecidableEq

/-- What a signal is assigned: the pads, a clock or reset signal, the lock output of the PLL, the reset of the PHY reset
controller, or a combination of these. -/
inductive CrgExpr
  | refClk
  | refRst
  | sig (s : CrgSig)
  | locked
  | phyReset
  | not (e : CrgExpr)
  | or (a b : CrgExpr)
deriving DecidableEq

/-- A clock generator: domains with whether they are without reset, combinational assignments, the connections of the
PLL primitive, and the reset synchronizers (input and domain). -/
structure CrgNet where
  domains : List (String × Bool)
  assigns : List (CrgSig × CrgExpr)
  pll : String → Option PrimVal
  syncs : List (CrgExpr × String)

/-- A PLL primitive: clock input, clock outputs, and the frequency on an output for a given input frequency. -/
structure CrgPrim where
  clkIn : String
  outs : List String
  freq : (String → Option PrimVal) → Rat → String → Option Rat

/-- EHXPLLL. -/
def ehxPrim : CrgPrim where
  clkIn := "i_CLKI"
  outs := ["o_CLKOP", "o_CLKOS", "o_CLKOS2", "o_CLKOS3"]
  freq get f k :=
    if k = "o_CLKOP" then ehxFreq get f "p_CLKOP_ENABLE" "p_CLKOP_DIV"
    else if k = "o_CLKOS" then ehxFreq get f "p_CLKOS_ENABLE" "p_CLKOS_DIV"
    else if k = "o_CLKOS2" then ehxFreq get f "p_CLKOS2_ENABLE" "p_CLKOS2_DIV"
    else if k = "o_CLKOS3" then ehxFreq get f "p_CLKOS3_ENABLE" "p_CLKOS3_DIV" else none

/-- PLLE2_BASE. -/
def pllePrim : CrgPrim where
  clkIn := "i_CLKIN1"
  outs := ["o_CLKOUT0", "o_CLKOUT1", "o_CLKOUT2", "o_CLKOUT3", "o_CLKOUT4", "o_CLKOUT5"]
  freq get f k :=
    if k = "o_CLKOUT0" then plleFreq get f "p_CLKOUT0_DIVIDE"
    else if k = "o_CLKOUT1" then plleFreq get f "p_CLKOUT1_DIVIDE"
    else if k = "o_CLKOUT2" then plleFreq get f "p_CLKOUT2_DIVIDE"
    else if k = "o_CLKOUT3" then plleFreq get f "p_CLKOUT3_DIVIDE"
    else if k = "o_CLKOUT4" then plleFreq get f "p_CLKOUT4_DIVIDE"
    else if k = "o_CLKOUT5" then plleFreq get f "p_CLKOUT5_DIVIDE" else none

/-- All drivers of clock and reset signals: assignments, PLL outputs and reset synchronizers. -/
def CrgNet.driven (P : CrgPrim) (c : CrgNet) : List CrgSig :=
  c.assigns.map Prod.fst ++ (P.outs.filterMap (primDrives c.pll)).map CrgSig.clock ++
    c.syncs.map (fun s => CrgSig.rst s.2)

/-- The signals of the domains: each has a clock, and a reset unless it is without. -/
def CrgNet.signals (c : CrgNet) : List CrgSig :=
  c.domains.flatMap (fun d => if d.2 then [.clock d.1] else [.clock d.1, .rst d.1])

/-- Domain `d` runs at frequency `q` when the reference pad runs at `f`. -/
inductive CrgNet.RunsAt (P : CrgPrim) (c : CrgNet) (f : Rat) : String → Rat → Prop
  | pad {d : String} (h : (CrgSig.clock d, CrgExpr.refClk) ∈ c.assigns) : RunsAt P c f d f
  | copy {d e : String} {q : Rat} (h : (CrgSig.clock d, CrgExpr.sig (.clock e)) ∈ c.assigns)
      (r : RunsAt P c f e q) : RunsAt P c f d q
  | pll {d e k : String} {g q : Rat} (hi : c.pll P.clkIn = some (.clock e)) (r : RunsAt P c f e g)
      (hk : k ∈ P.outs) (hd : primDrives c.pll k = some d) (hq : P.freq c.pll g k = some q) : RunsAt P c f d q

/-- Levels that come from outside: the reset pad, the lock output of the PLL, and the PHY reset controller. -/
structure CrgEnv where
  refRst : Bool
  locked : Bool
  phyReset : Bool
deriving DecidableEq

/-- Value of a reset expression, `rst` giving the resets of the domains; clocks have no level here. -/
def CrgExpr.level (env : CrgEnv) (rst : String → Bool) : CrgExpr → Bool
  | .refClk => false
  | .refRst => env.refRst
  | .sig (.clock _) => false
  | .sig (.rst d) => rst d
  | .locked => env.locked
  | .phyReset => env.phyReset
  | .not e => !(e.level env rst)
  | .or a b => a.level env rst || b.level env rst

/-- Reset synchronizer: two registers set asynchronously by the input, shifting in zeros. -/
def resetSync : Circuit (Bool × Bool) Bool Bool where
  reset := (true, true)
  out s a := a || s.2
  next s a := if a then (true, true) else (false, s.1)

/-- Resets `rst` of the domains over the cycles of the synchronized domain, for levels `env`: as assigned and as
synchronized. -/
structure CrgNet.Run (c : CrgNet) (env : Nat → CrgEnv) (rst : Nat → String → Bool) : Prop where
  assign : ∀ d e, (CrgSig.rst d, e) ∈ c.assigns → ∀ n, rst n d = e.level (env n) (rst n)
  sync : ∀ e d, (e, d) ∈ c.syncs → ∀ n, rst n d = resetSync.wave (fun m => e.level (env m) (rst m)) n

end Lambdalib
