/-! Counting cycles in which a signal is high. -/
namespace Lambdalib

/-- Number of cycles `k` with `a ≤ k < a + n` in which `f` is high. -/
def highCount (f : Nat → Bool) (a : Nat) : Nat → Nat
  | 0 => 0
  | n + 1 => highCount f a n + (if f (a + n) then 1 else 0)

end Lambdalib
