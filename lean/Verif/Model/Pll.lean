import Verif.Spec.Circuit
import Verif.Model.Basic
import Mathlib.Data.Rat.Floor

/-! Model of `lambdalib/cores/pll/lattice_ecp5.py` and `lambdalib/cores/pll/xilinx_7series.py`. The two `Parameters`
classes have the same structure and are modelled by one object parametrised by a `PllKind`. Frequencies and phases are
exact rationals instead of floats; the `isinstance` checks are replaced by typing. The instance built by
`elaborate` is modelled in `Model/PllInst.lean`. -/

namespace Lambdalib

/-- Python `min(l, key=...)`, the order of the keys given by `lt`: the first smallest element, none for the empty list
(where Python would raise; both `compute` methods test for that first). -/
def pyMin {α : Type} (lt : α → α → Bool) : List α → Option α
  | [] => none
  | a :: l => some (l.foldl (fun b v => if lt v b then v else b) a)

/-- Python order of pairs and triples. -/
def lexLt2 (a b : Rat × Rat) : Bool := decide (a.1 < b.1) || (decide (a.1 = b.1) && decide (a.2 < b.2))
def lexLt3 (a b : Rat × Rat × Rat) : Bool := decide (a.1 < b.1) || (decide (a.1 = b.1) && lexLt2 a.2 b.2)

/-! ### ECP5 -/

/-- What `_iter_variants` yields (lattice_ecp5.py 174). -/
structure EcpV where
  iDiv : Nat
  fbDiv : Nat
  opDiv : Nat
  pfd : Rat
  op : Rat
deriving DecidableEq, Repr

/-- `_iter_variants`, lambdalib/cores/pll/lattice_ecp5.py 161-174. -/
def ecpVariants (iFreq : Nat) : List EcpV :=
  (List.range' 1 128).flatMap fun (iDiv : Nat) =>
    let pfd : Rat := (iFreq : Rat) / iDiv
    if ¬ (3125000 ≤ pfd ∧ pfd ≤ 400000000) then []
    else (List.range' 1 80).flatMap fun (fbDiv : Nat) => (List.range' 1 128).flatMap fun (opDiv : Nat) =>
      let vco := pfd * fbDiv * opDiv
      if ¬ (400000000 ≤ vco ∧ vco ≤ 800000000) then []
      else
        let op := vco / opDiv
        if ¬ (10000000 ≤ op ∧ op ≤ 400000000) then [] else [⟨iDiv, fbDiv, opDiv, pfd, op⟩]

/-- `vco_freq` of a variant (lattice_ecp5.py 194, 199). -/
def EcpV.vco (v : EcpV) : Rat := v.pfd * v.fbDiv * v.opDiv

/-- `error`, lattice_ecp5.py 192-195. -/
def ecpError (oFreq : Nat) (v : EcpV) : Rat × Rat × Rat :=
  (|v.op - oFreq|, |v.vco - 600000000|, |v.pfd - 200000000|)

/-- `Parameters.Output` of the ECP5 (lattice_ecp5.py 14). -/
structure EcpOut where
  domain : String
  freq : Rat
  div : Int
  cphase : Rat
  fphase : Rat
deriving DecidableEq, Repr

/-- `self._op`, lattice_ecp5.py 199-211. -/
def ecpPrimary (domain : String) (v : EcpV) : EcpOut :=
  let opShift := (1 / v.op) * (1 / 2)
  ⟨domain, v.op, v.opDiv, opShift * v.vco, 0⟩

/-- `os_params`, lattice_ecp5.py 215-222. -/
def ecpSecondary (v : EcpV) (o : String × Rat × Rat) : EcpOut :=
  let osShift := (1 / o.2.1) * o.2.2 / 360
  ⟨o.1, o.2.1, (v.vco / o.2.1).floor, (ecpPrimary "" v).cphase + osShift * v.vco, 0⟩

/-! ### Xilinx -/

/-- What `_iter_variants` yields (xilinx_7series.py 178). -/
structure XilV where
  divclk : Nat
  mult : Nat
  out0 : Rat
  div0 : Nat
deriving DecidableEq, Repr

/-- `_iter_variants`, lambdalib/cores/pll/xilinx_7series.py 166-178. -/
def xilVariants (iFreq : Nat) : List XilV :=
  (List.range' 1 56).flatMap fun (divclk : Nat) => (List.range' 2 63).reverse.flatMap fun (mult : Nat) =>
    let vco : Rat := (iFreq : Rat) * mult / divclk
    if ¬ (800000000 ≤ vco ∧ vco ≤ 1600000000) then []
    else (List.range' 1 128).flatMap fun (div0 : Nat) =>
      let out0 := vco / div0
      if ¬ (6250000 ≤ out0 ∧ out0 ≤ 800000000) then [] else [⟨divclk, mult, out0, div0⟩]

/-- `vco_freq` of a variant (xilinx_7series.py 198, 207). -/
def XilV.vco (iFreq : Nat) (v : XilV) : Rat := (iFreq : Rat) * v.mult / v.divclk

/-- `error`, xilinx_7series.py 196-200. -/
def xilError (iFreq oFreq : Nat) (v : XilV) : Rat × Rat :=
  (|v.out0 - oFreq|, |v.vco iFreq - (800000000 + 1600000000) / 2|)

/-- `Parameters.Output` of the Xilinx PLL (xilinx_7series.py 11). -/
structure XilOut where
  domain : String
  freq : Rat
  div : Rat
  phase : Rat
deriving DecidableEq, Repr

/-- Python `%` for a positive divisor. -/
def ratMod (a b : Rat) : Rat := a - b * (a / b).floor

/-- `self._clkout0`, xilinx_7series.py 208-213. -/
def xilPrimary (domain : String) (v : XilV) : XilOut := ⟨domain, v.out0, v.div0, 0⟩

/-- `out_params`, xilinx_7series.py 217-222. -/
def xilSecondary (iFreq : Nat) (v : XilV) (o : String × Rat × Rat) : XilOut :=
  ⟨o.1, o.2.1, v.vco iFreq / o.2.1, ratMod ((xilPrimary "" v).phase + o.2.2) 360⟩

/-! ### Parameter objects -/

/-- What distinguishes the two classes. -/
structure PllKind (V O : Type) where
  iMin : Rat
  iMax : Rat
  oMin : Rat
  oMax : Rat
  maxOuts : Nat
  variants : Nat → List V
  better : Nat → Nat → V → V → Bool
  primary : String → V → O
  secondary : Nat → V → String × Rat × Rat → O

/-- The limits and formulas of the ECP5 (lattice_ecp5.py 65, 74, 145, 154). -/
def ecp5 : PllKind EcpV EcpOut where
  iMin := 8000000
  iMax := 400000000
  oMin := 10000000
  oMax := 400000000
  maxOuts := 3
  variants := ecpVariants
  better _ oFreq a b := lexLt3 (ecpError oFreq a) (ecpError oFreq b)
  primary := ecpPrimary
  secondary _ := ecpSecondary

/-- The limits and formulas of the Xilinx 7 series (xilinx_7series.py 58, 67, 150, 159). -/
def xilinx7 : PllKind XilV XilOut where
  iMin := 19000000
  iMax := 800000000
  oMin := 6250000
  oMax := 800000000
  maxOuts := 5
  variants := xilVariants
  better iFreq oFreq a b := lexLt2 (xilError iFreq oFreq a) (xilError iFreq oFreq b)
  primary := xilPrimary
  secondary := xilSecondary

inductive PllErr | frozen | frequency | phase | tooMany | duplicate | unsatisfied
deriving DecidableEq, Repr

/-- A `Parameters` object; `res` is the chosen variant, the primary and the secondary outputs in slot order (`_os`,
`_os2`, `_os3` resp. `_clkout1`, …), none until `_frozen`. -/
structure Pll (V O : Type) where
  iDomain : String
  oDomain : String
  iFreq : Nat
  oFreq : Nat
  outs : List (String × Rat × Rat)
  res : Option (V × O × List O)
deriving DecidableEq

section
variable {V O : Type} (k : PllKind V O)

/-- `__init__`, lattice_ecp5.py 58-92 and xilinx_7series.py 51-87; `int()` truncates. -/
def pllNew (iDomain : String) (iFreq : Rat) (oDomain : String) (oFreq : Rat) : Except PllErr (Pll V O) :=
  if ¬ (k.iMin ≤ iFreq ∧ iFreq ≤ k.iMax) then .error .frequency
  else if ¬ (k.oMin ≤ oFreq ∧ oFreq ≤ k.oMax) then .error .frequency
  else .ok ⟨iDomain, oDomain, iFreq.floor.toNat, oFreq.floor.toNat, [], none⟩

/-- `add_secondary_output`, lattice_ecp5.py 124-159 and xilinx_7series.py 129-164: result and object afterwards. -/
def pllAdd (s : Pll V O) (domain : String) (freq phase : Rat) : Except PllErr Unit × Pll V O :=
  if s.res.isSome then (.error .frozen, s)
  else if ¬ (k.oMin ≤ freq ∧ freq ≤ k.oMax) then (.error .frequency, s)
  else if ¬ (0 ≤ phase ∧ phase ≤ 360) then (.error .phase, s)
  else if s.outs.length = k.maxOuts then (.error .tooMany, s)
  else if domain ∈ s.outs.map Prod.fst then (.error .duplicate, s)
  else (.ok (), { s with outs := s.outs ++ [(domain, freq, phase)] })

/-- `compute`, lattice_ecp5.py 176-225 and xilinx_7series.py 180-225. -/
def pllCompute (s : Pll V O) : Except PllErr Unit × Pll V O :=
  if s.res.isSome then (.ok (), s)
  else match pyMin (k.better s.iFreq s.oFreq) (k.variants s.iFreq) with
    | none => (.error .unsatisfied, s)
    | some v =>
      (.ok (), { s with res := some (v, k.primary s.oDomain v, s.outs.map (k.secondary s.iFreq v)) })

/-- Calls on a parameter object. `read` is any of the properties `i_div`, `op`, `os`, … (lattice_ecp5.py 94-122,
xilinx_7series.py 89-127): it computes and then reads. -/
inductive PllCall
  | add (domain : String) (freq phase : Rat)
  | compute
  | read
deriving DecidableEq

/-- Result of a call: for `read` everything that can be read. -/
def pllCall (s : Pll V O) : PllCall → Except PllErr (Option (V × O × List O)) × Pll V O
  | .add d f p => ((pllAdd k s d f p).1.map (fun _ => none), (pllAdd k s d f p).2)
  | .compute => ((pllCompute k s).1.map (fun _ => none), (pllCompute k s).2)
  | .read => ((pllCompute k s).1.map (fun _ => (pllCompute k s).2.res), (pllCompute k s).2)

/-- Object after a sequence of calls. -/
def pllRun (s : Pll V O) : List PllCall → Pll V O
  | [] => s
  | c :: l => pllRun (pllCall k s c).2 l

end

/-! ### Delay line -/

inductive DelaySt | idle | rst | move
deriving DecidableEq, Repr

structure DelayS where
  st : DelaySt
  move : Bool
  curr : Nat
deriving DecidableEq, Repr

/-- Outputs: `locked`, and to the delay primitive the delay reset (inverted `LOADN`, without the domain reset) and
`MOVE`. -/
structure DelayOut where
  locked : Bool
  rst : Bool
  move : Bool
deriving DecidableEq, Repr

/-- `DELAY_LatticeECP5.elaborate`, lambdalib/cores/pll/lattice_ecp5.py 378-428, without the `DELAYF` primitive. Input:
`taps`, seven bits. -/
def delayEcp5 : Circuit DelayS Nat DelayOut where
  reset := ⟨.idle, false, 0⟩
  out s taps := ⟨taps == s.curr, s.st == .rst, s.move⟩
  next s taps :=
    match s.st with
    | .idle => if taps ≠ s.curr then { s with st := .rst } else s
    | .rst => ⟨.move, false, 0⟩
    | .move =>
      if taps = s.curr then { s with move := false, st := .idle }
      else { s with move := !s.move, curr := if s.move then (s.curr + 1) % 2 ^ 7 else s.curr }

end Lambdalib
