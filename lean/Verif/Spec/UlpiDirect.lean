import Verif.Model.UlpiDirect
import Verif.Spec.Ulpi
import Verif.Spec.UlpiPhy
import Verif.Spec.CrossDomain

/-! Specification vocabulary for `DirectULPI` with its two clocks. -/

namespace Lambdalib

section
variable (i : Nat → DirectIn) (o : Nat → DirectOut)

/-- Bytes taken from the user before instant `n`, at edges of `sync`. -/
def directAccepted (n : Nat) : List (Nat × Bool) :=
  transferred (fun k => (i k).valid && (i k).edgeSync) (fun k => (o k).ready)
    (fun k => ((i k).beat.payload.toNat, (i k).beat.last)) n

/-- The user has handed over the beginning of a packet, but not its end. -/
def directUserOpen (n : Nat) : Bool :=
  match (directAccepted i o n).getLast? with
  | some (_, l) => !l
  | none => false

/-- Bytes taken by the user before instant `n`, at edges of `sync`. -/
def directDelivered (n : Nat) : List (Nat × Bool) :=
  transferred (fun k => (o k).valid && (i k).edgeSync) (fun k => (i k).ready)
    (fun k => ((o k).beat.payload.toNat, (o k).beat.last)) n

/-- Bytes handed to the PHY before instant `n`, at edges of `ulpi`. -/
def directGiven : Nat → List (Nat × Bool)
  | 0 => []
  | n + 1 => directGiven n ++ (if (i n).edgeUlpi then (o n).given.toList else [])

/-- What the PHY sends from the instant `m` on, in `k` instants: `dir` at the latest edge of `ulpi` and the items sampled (the first
cycle in which the PHY drives the bus is for turning it around). -/
def directSampled (m : Nat) : Nat → Bool × List RxItem
  | 0 => (false, [])
  | k + 1 =>
    let (p, l) := directSampled m k
    let x := i (m + k)
    if x.edgeUlpi then
      (x.dir, l ++ (if p && x.dir then [if x.nxt then .data x.dataI.toNat else .cmd x.dataI.toNat] else []))
    else (p, l)

/-- The PHY (it sees the pins at the edges of its clock `ulpi`), with `dir` at the latest edge. -/
def directPhy : Nat → Phy × Bool
  | 0 => (⟨.idle, [], []⟩, false)
  | n + 1 =>
    let (m, d) := directPhy n
    if (i n).edgeUlpi then (m.step d ⟨(i n).dir, (i n).nxt, (o n).o, (o n).stp⟩, (i n).dir) else (m, d)

/-- The PHY has been handed the beginning of a transfer, but not its end. -/
def directOpen (n : Nat) : Bool :=
  match (directGiven i o n).getLast? with
  | some (_, l) => !l
  | none => false

end

/-- Before the instant `n` the PHY does not take the bus inside a transfer, and finds a byte each time it asks for one there. -/
def DirectFed (i : Nat → DirectIn) (o : Nat → DirectOut) (n : Nat) : Prop :=
  ∀ k, k < n → (i k).edgeUlpi = true → directOpen i o k = true →
    (i k).dir = false ∧ ((i k).nxt = true → (o k).given.isSome = true)

/-- The FIFO shows at the instant `n` what was written before the instant `d n` (the delay of its synchronisers, which never shows
earlier what was written later), and no more. -/
structure FifoShows {σ : Type} {w : Nat} (f : Circuit σ (FifoIn w) (FifoOut w)) (d : Nat → Nat) : Prop where
  past : ∀ n, d n ≤ n
  mono : ∀ m n, m ≤ n → d m ≤ d n
  shows : ∀ i n, (f.wave i n).rRdy = true ↔ (fifoRead f i n).length < (fifoWritten f i (d n)).length

/-- A reference FIFO with delay: a word can be read one instant later than from `queueFifo`. State: words that can be read, and the word
written at the latest instant. -/
def lagFifo (w depth : Nat) : Circuit (List (BitVec w) × List (BitVec w)) (FifoIn w) (FifoOut w) where
  reset := ([], [])
  out s _ := { wRdy := decide (s.1.length + s.2.length < depth), rRdy := !s.1.isEmpty, rData := s.1.headD 0 }
  next s i :=
    ((if i.rEn then s.1.tail else s.1) ++ s.2,
      if i.wEn && decide (s.1.length + s.2.length < depth) then [i.wData] else [])

/-- The packets in a sequence of bytes with end marks, and the one that is not complete. -/
def cutPackets (l : List (Nat × Bool)) : List (List Nat) × List Nat :=
  l.foldl (fun r b => if b.2 then (r.1 ++ [r.2 ++ [b.1]], []) else (r.1, r.2 ++ [b.1])) ([], [])

end Lambdalib
