import Mathlib.Data.Rat.Floor

/-! Specification vocabulary for the vendor PLL primitives: what an instance with named parameters and connections does,
from the vendor documentation. An instance is seen through a lookup by name; the prefix of a name is the convention of
the HDL: `p_` parameter, `i_` input, `o_` output. -/

namespace Lambdalib

/-- Value of a parameter, or what a port is connected to. -/
inductive PrimVal
  | num (q : Rat)
  | str (s : String)
  | const (n : Nat)
  | clock (domain : String)
  | rst (domain : String)
  | locked
  | net (n : Nat)
deriving DecidableEq

/-- Value of a numeric parameter. -/
def primNum (get : String → Option PrimVal) (k : String) : Option Rat :=
  match get k with
  | some (.num q) => some q
  | _ => none

/-- The clock domain driven by an output port. -/
def primDrives (get : String → Option PrimVal) (k : String) : Option String :=
  match get k with
  | some (.clock d) => some d
  | _ => none

/-- Whether two ports are connected to the same net. -/
def primSameNet (get : String → Option PrimVal) (a b : String) : Bool :=
  match get a, get b with
  | some x, some y => x == y
  | _, _ => false

/-- A divider setting: an integer from 1 to 128. -/
def primDivider (q : Rat) : Bool := decide (q.den = 1) && decide (1 ≤ q) && decide (q ≤ 128)

/-- EHXPLLL: frequency of the VCO at input frequency `f`. The phase detector compares the divided input with the
divided feedback; the feedback is the primary output, either through the output pin or internally, and must be
wired accordingly. -/
def ehxVco (get : String → Option PrimVal) (f : Rat) : Option Rat :=
  let wired :=
    (get "p_FEEDBK_PATH" == some (.str "CLKOP") && primSameNet get "i_CLKFB" "o_CLKOP") ||
    (get "p_FEEDBK_PATH" == some (.str "INT_OP") && primSameNet get "i_CLKFB" "o_CLKINTFB")
  match primNum get "p_CLKI_DIV", primNum get "p_CLKFB_DIV", primNum get "p_CLKOP_DIV" with
  | some i, some b, some o =>
    if wired && primDivider i && primDivider b && primDivider o then some (f / i * b * o) else none
  | _, _, _ => none

/-- EHXPLLL: frequency on an output, none if it is off or the setting illegal. -/
def ehxFreq (get : String → Option PrimVal) (f : Rat) (enable div : String) : Option Rat :=
  match ehxVco get f, primNum get div with
  | some w, some d => if get enable == some (.str "ENABLED") && primDivider d then some (w / d) else none
  | _, _ => none

/-- PLLE2_BASE: frequency of the VCO at input frequency `f`; feedback output wired to feedback input. -/
def plleVco (get : String → Option PrimVal) (f : Rat) : Option Rat :=
  match primNum get "p_DIVCLK_DIVIDE", primNum get "p_CLKFBOUT_MULT" with
  | some i, some m =>
    if primSameNet get "i_CLKFBIN" "o_CLKFBOUT" && primDivider i && primDivider m then some (f * m / i) else none
  | _, _ => none

/-- PLLE2_BASE: frequency on an output. -/
def plleFreq (get : String → Option PrimVal) (f : Rat) (div : String) : Option Rat :=
  match plleVco get f, primNum get div with
  | some w, some d => if primDivider d then some (w / d) else none
  | _, _ => none

end Lambdalib
