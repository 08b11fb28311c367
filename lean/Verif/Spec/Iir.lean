/-! Specification of a fixed-point difference equation. -/

namespace Lambdalib

/-- Scalar product; missing elements count as zero. -/
def dot (l m : List Int) : Int := (List.zipWith (· * ·) l m).sum

/-- Parameters: sample width, extra precision of the stored signals, width of the accumulator, coefficient shift,
coefficients for the inputs and for the previous outputs (starting with the latest one). -/
structure DiffEq where
  width : Nat
  ss : Nat
  accWidth : Nat
  sc : Nat
  b : List Int
  a : List Int

/-- Two's complement value of the low `w` bits. -/
def twos (w : Nat) (v : Int) : Int := v.bmod (2 ^ w)

/-- One sample: history of scaled inputs and outputs, latest first. -/
def DiffEq.step (e : DiffEq) (h : List Int × List Int) (d : Int) : (List Int × List Int) × Int :=
  let xs := d * 2 ^ e.ss :: h.1
  let acc := twos e.accWidth (dot e.b xs + dot e.a h.2)
  ((xs, twos (e.width + e.ss) (acc / 2 ^ e.sc) :: h.2), twos e.width (acc / 2 ^ (e.sc + e.ss)))

/-- All samples: the final history and the outputs. -/
def DiffEq.run (e : DiffEq) (l : List Int) : (List Int × List Int) × List Int :=
  l.foldl (fun s d => let r := e.step s.1 d; (r.1, s.2 ++ [r.2])) (([], []), [])

theorem DiffEq.run_snoc (e : DiffEq) (l : List Int) (d : Int) :
    e.run (l ++ [d]) = ((e.step (e.run l).1 d).1, (e.run l).2 ++ [(e.step (e.run l).1 d).2]) := by
  simp [DiffEq.run, List.foldl_append]

end Lambdalib
