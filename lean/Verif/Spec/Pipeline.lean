import Verif.Model.Pipeline
import Verif.Spec.Layout
import Verif.Spec.SpiWb

/-! Specification vocabulary for pipelines of stream components. -/

namespace Lambdalib

/-- What is assumed of a FIFO in a pipeline, beyond order and stability (`FifoContract`): a word inside is
offered at some time (`FifoLive`); when words are asked for again and again, there is room again and again;
whether there is room depends on the registers only. -/
structure FifoFlows {σ : Type} {w : Nat} (f : Circuit σ (FifoIn w) (FifoOut w)) (depth : Nat) : Prop where
  contract : FifoContract f depth
  live : FifoLive f
  room : ∀ i, (∀ n, ∃ m, n ≤ m ∧ (i m).rEn = true) → ∀ n, ∃ m, n ≤ m ∧ (f.wave i m).wRdy = true
  registered : ∀ s x y, (f.out s x).wRdy = (f.out s y).wRdy

/-- Register slices are as they are, FIFOs meet their contract. -/
def StreamPart.Flows {w : Nat} : StreamPart w → Prop
  | .valid => True
  | .ready => True
  | .fifo f depth => FifoFlows f depth

/-- Number of beats that a component can hold. -/
def StreamPart.capacity {w : Nat} : StreamPart w → Nat
  | .valid => 1
  | .ready => 1
  | .fifo _ depth => depth

/-- Number of cycles from sink to source for a register slice that is never held up. -/
def StreamPart.delay {w : Nat} : StreamPart w → Nat
  | .valid => 1
  | _ => 0

/-- The component is a register slice, not a FIFO. -/
def StreamPart.isSlice {w : Nat} : StreamPart w → Prop
  | .fifo _ _ => False
  | _ => True

/-- Something happens again and again. -/
def Recurs (p : Nat → Prop) : Prop := ∀ n, ∃ m, n ≤ m ∧ p m

end Lambdalib
