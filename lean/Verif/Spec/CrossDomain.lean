import Verif.Model.CrossDomain
import Verif.Spec.Layout
import Verif.Spec.SpiWb
import Verif.Spec.Convert

/-! Specification vocabulary for streams between two clocks. -/

namespace Lambdalib

/-- Number of edges before the instant `n`. -/
def edgeCount (e : Nat → Bool) : Nat → Nat
  | 0 => 0
  | n + 1 => edgeCount e n + (if e n then 1 else 0)

section
variable {σ α β : Type} (c : Circuit σ (XdIn α) (SOut β)) (i : Nat → XdIn α)

/-- Beats accepted on the sink before instant `n`: at edges of `cd_from` with `valid` and `ready`. -/
def xdAccepted (n : Nat) : List (Beat α) :=
  transferred (fun k => (i k).valid && (i k).edgeFrom) (fun k => (c.wave i k).ready) (fun k => (i k).beat) n

/-- Beats delivered on the source before instant `n`: at edges of `cd_to` with `valid` and `ready`. -/
def xdDelivered (n : Nat) : List (Beat β) :=
  transferred (fun k => (c.wave i k).valid && (i k).edgeTo) (fun k => (i k).ready)
    (fun k => (c.wave i k).beat) n

/-- `m` is the first edge at or after the instant `n`. -/
def NextEdge (e : Nat → Bool) (n m : Nat) : Prop := n ≤ m ∧ e m = true ∧ ∀ k, n ≤ k → k < m → e k = false

/-- The sender obeys the stream rule: from one edge of its clock to the next, a beat that is not taken stays. -/
def XdHolds : Prop :=
  ∀ n m, (i n).edgeFrom = true → NextEdge (fun k => (i k).edgeFrom) (n + 1) m →
    (i n).valid = true → (c.wave i n).ready = false → (i m).valid = true ∧ (i m).beat = (i n).beat

end

/-- What is assumed of the FIFO between the clocks for progress, beyond order and stability: a word inside is offered at some
time, there is room again and again if words are asked for again and again, and room stays until a word is written. -/
structure FifoCrosses {σ : Type} {w : Nat} (f : Circuit σ (FifoIn w) (FifoOut w)) : Prop where
  live : FifoLive f
  room : ∀ i, (∀ n, ∃ m, n ≤ m ∧ (i m).rEn = true) → ∀ n, ∃ m, n ≤ m ∧ (f.wave i m).wRdy = true
  roomStays : ∀ i n, (f.wave i n).wRdy = true → (i n).wEn = false → (f.wave i (n + 1)).wRdy = true

end Lambdalib
