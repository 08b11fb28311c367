import Verif.Model.Layout

/-! Specification vocabulary for layouts and FIFOs. -/
namespace Lambdalib

/-- Top-level field names, in order. -/
def Layout.topNames : Layout → List String
  | .nil => []
  | .leaf n _ r => n :: r.topNames
  | .sub n _ r => n :: r.topNames

/-- All signals of a layout, as (path, width), in order. -/
def Layout.signals : Layout → List (List String × Nat)
  | .nil => []
  | .leaf n w r => ([n], w) :: r.signals
  | .sub n i r => i.signals.map (fun p => (n :: p.1, p.2)) ++ r.signals

/-- All signals of a layout with directions, as (path, width, direction), in order. -/
def DLayout.signals : DLayout → List (List String × Nat × Dir)
  | .nil => []
  | .leaf n w d r => ([n], w, d) :: r.signals
  | .sub n i r => i.signals.map (fun p => (n :: p.1, p.2)) ++ r.signals

/-- Words written into a FIFO in the first `n` cycles. -/
def fifoWritten {σ : Type} {w : Nat} (f : Circuit σ (FifoIn w) (FifoOut w)) (i : Nat → FifoIn w)
    (n : Nat) : List (BitVec w) :=
  transferred (fun k => (i k).wEn) (fun k => (f.wave i k).wRdy) (fun k => (i k).wData) n

/-- Words read out of a FIFO in the first `n` cycles. -/
def fifoRead {σ : Type} {w : Nat} (f : Circuit σ (FifoIn w) (FifoOut w)) (i : Nat → FifoIn w)
    (n : Nat) : List (BitVec w) :=
  transferred (fun k => (f.wave i k).rRdy) (fun k => (i k).rEn) (fun k => (f.wave i k).rData) n

/-- The contract assumed of the FIFO primitives of `amaranth.lib.fifo`: words come out in the order
they went in, at most `depth` are stored, and an offered word is the oldest stored one and stays
offered until it is read. -/
structure FifoContract {σ : Type} {w : Nat} (f : Circuit σ (FifoIn w) (FifoOut w)) (depth : Nat) :
    Prop where
  order : ∀ i n, ∃ q, fifoWritten f i n = fifoRead f i n ++ q ∧ q.length ≤ depth ∧
    ((f.wave i n).rRdy = true → q.head? = some (f.wave i n).rData)
  stable : ∀ i n, (f.wave i n).rRdy = true → (i n).rEn = false → (f.wave i (n + 1)).rRdy = true

/-- A reference FIFO: a bounded queue with first-word fall-through. -/
def queueFifo (w depth : Nat) : Circuit (List (BitVec w)) (FifoIn w) (FifoOut w) where
  reset := []
  out q _ := { wRdy := decide (q.length < depth), rRdy := !q.isEmpty, rData := q.headD 0 }
  next q i :=
    (if i.rEn then q.tail else q) ++ (if i.wEn && decide (q.length < depth) then [i.wData] else [])

/-- Clock domain of the data entering a stage. -/
def Stage.inDomain : Stage → String
  | .width d => d
  | .cross w _ => w

/-- Clock domain of the data leaving a stage. -/
def Stage.outDomain : Stage → String
  | .width d => d
  | .cross _ r => r

/-- A chain of stages is correctly clocked from domain `a` to domain `b`. -/
def wellClocked : String → String → List Stage → Prop
  | a, b, [] => a = b
  | a, b, s :: l => s.inDomain = a ∧ wellClocked s.outDomain b l

instance decWellClocked : (a b : String) → (l : List Stage) → Decidable (wellClocked a b l)
  | a, b, [] => inferInstanceAs (Decidable (a = b))
  | a, b, s :: l => @instDecidableAnd (s.inDomain = a) (wellClocked s.outDomain b l) _
      (decWellClocked s.outDomain b l)

end Lambdalib
