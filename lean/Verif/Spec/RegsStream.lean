import Verif.Spec.Layout
import Verif.Model.Regs

/-! What the software asks `RegsStream` for. -/

namespace Lambdalib

/-- The `last` register and the words asked for, after some writes: each write of the data register asks for a word, whose `last`
is the value of the other register. -/
def csrAsk {w : Nat} (s : Bool × List (BitVec w × Bool)) : Option (CsrWr w) → Bool × List (BitVec w × Bool)
  | some (.data v) => (s.1, s.2 ++ [(v, s.1)])
  | some (.last b) => (b, s.2)
  | none => s

/-- Words asked for in the first `n` cycles. -/
def csrAsked {w : Nat} (wr : Nat → Option (CsrWr w)) (n : Nat) : List (BitVec w × Bool) :=
  (((List.range n).map wr).foldl csrAsk (false, [])).2

/-- A FIFO accepts words as long as fewer than `depth` are stored. -/
def FifoRoom {σ : Type} {w : Nat} (f : Circuit σ (FifoIn w) (FifoOut w)) (depth : Nat) : Prop :=
  ∀ i n, (fifoWritten f i n).length < (fifoRead f i n).length + depth → (f.wave i n).wRdy = true

end Lambdalib
