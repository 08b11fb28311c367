import Verif.Model.Iir

/-! Model of `IIRFilter(dynamic=True)` of `lambdalib/cores/filter/iir.py`: the coefficient registers can be written during the run. -/

namespace Lambdalib

/-- The filter with the given contents of `b_regs` and `a_regs` (iir.py 60-63). -/
def IirCfg.withCoef (c : IirCfg) (q : List Int × List Int) : IirCfg := { c with b := q.1, a := q.2 }

/-- Inputs in a cycle: those of the filter, and what `b_regs` and `a_regs` hold in this cycle. The registers are written by the user of
the filter, nothing in iir.py writes them. -/
structure IirDynIn where
  x : IirIn
  coef : List Int × List Int

/-- `IIRFilter.elaborate` with `dynamic=True`, iir.py 86-203, without the multiplier: the operands are read from the registers in the
cycle in which they are shown to the multiplier (151, 165). The configuration gives the widths and, by the length of its lists, the
number of registers. -/
def iirDyn (c : IirCfg) : Circuit IirS IirDynIn IirOut where
  reset := (iir c).reset
  out s x := (iir (c.withCoef x.coef)).out s x.x
  next s x := (iir (c.withCoef x.coef)).next s x.x

/-- Inputs of the filter with its own multiplier. -/
structure IirDynIntIn where
  x : IirIntIn
  coef : List Int × List Int

/-- `IIRFilter(dynamic=True)` with the internal multiplier (iir.py 107-110). -/
def iirDynInt (c : IirCfg) : Circuit (IirS × PipeValidS (BitVec (c.ws + c.wc))) IirDynIntIn IirOut where
  reset := (iirInt c).reset
  out s x := (iirInt (c.withCoef x.coef)).out s x.x
  next s x := (iirInt (c.withCoef x.coef)).next s x.x

end Lambdalib
