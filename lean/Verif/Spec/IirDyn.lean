import Verif.Spec.Iir

/-! Specification of a difference equation whose coefficients change from sample to sample. -/

namespace Lambdalib

/-- All samples, each with the equation in force: the final history and the outputs. The history is kept when the equation changes. -/
def varRun (l : List (DiffEq × Int)) : (List Int × List Int) × List Int :=
  l.foldl (fun s p => let r := p.1.step s.1 p.2; (r.1, s.2 ++ [r.2])) (([], []), [])

theorem varRun_snoc (l : List (DiffEq × Int)) (p : DiffEq × Int) :
    varRun (l ++ [p]) = ((p.1.step (varRun l).1 p.2).1, (varRun l).2 ++ [(p.1.step (varRun l).1 p.2).2]) := by
  simp [varRun, List.foldl_append]

end Lambdalib
