import Verif.Model.PllInst
import Verif.Spec.Crg

/-! Model of the clock generator of the examples, `examples/crg.py`. Not modelled: the request of the pads from the
platform, the log messages, and the inside of the PHY reset controller (luna) and of the reset synchronizer (amaranth);
the latter is described in `Spec/Crg.lean`. -/

namespace Lambdalib

/-- `sync_pll_arst`, examples/crg.py 60-63; `rstPin` is `platform.default_rst is not None`. -/
def crgArst (rstPin : Bool) : CrgExpr :=
  if rstPin then .or (.not .locked) (.sig (.rst "_ref")) else .not .locked

/-- `_CRG.elaborate` without the PLL parameters, examples/crg.py 36-79. -/
def crgNet (ulpi rstPin : Bool) (pll : PrimDict) : CrgNet where
  domains := [("_ref", !rstPin), ("sync", false), ("usb", false)] ++ (if ulpi then [] else [("usb_io", false)])
  assigns :=
    [(.clock "_ref", .refClk)] ++ (if rstPin then [(.rst "_ref", .refRst)] else []) ++
    (if ulpi then [(.rst "usb", .phyReset)]
     else [(.rst "usb", crgArst rstPin), (.clock "usb_io", .sig (.clock "sync")), (.rst "usb_io", crgArst rstPin)])
  pll := dictGet pll
  syncs := [(crgArst rstPin, "sync")]

/-- The PLL parameters, examples/crg.py 44-54 and 59 (the constructor computes): the chosen settings, or the error. -/
def crgPll {V O : Type} (k : PllKind V O) (ulpi : Bool) (refFreq syncFreq : Rat) :
    Except PllErr (Nat × Option (V × O × List O)) :=
  match pllNew k "_ref" refFreq "sync" syncFreq with
  | .error e => .error e
  | .ok s =>
    match (if ulpi then (.ok (), s) else pllAdd k s "usb" 12000000 0 : Except PllErr Unit × Pll V O) with
    | (.error e, _) => .error e
    | (.ok _, t) => (pllCall k t .read).1.map (fun r => (t.iFreq, r))

/-- `CRG_LatticeECP5`, examples/crg.py 85-86. -/
def crgEcp (ulpi rstPin : Bool) (refFreq syncFreq : Rat) : Except PllErr CrgNet :=
  match crgPll ecp5 ulpi refFreq syncFreq with
  | .error e => .error e
  | .ok (_, none) => .error .unsatisfied
  | .ok (i, some (v, p, os)) => .ok (crgNet ulpi rstPin (ecpInst "_ref" i (!rstPin) false v p os))

/-- `CRG_Xilinx7Series`, examples/crg.py 82-83. -/
def crgXil (ulpi rstPin : Bool) (refFreq syncFreq : Rat) : Except PllErr CrgNet :=
  match crgPll xilinx7 ulpi refFreq syncFreq with
  | .error e => .error e
  | .ok (_, none) => .error .unsatisfied
  | .ok (i, some (v, p, os)) => .ok (crgNet ulpi rstPin (xilInst "_ref" i (!rstPin) v p os))

end Lambdalib
