import Verif.Spec.Circuit

/-! Specification: position of a beat within its packet. -/

namespace Lambdalib

/-- Number of beats received since the last packet end in the history `h` (oldest first). -/
def sinceLast {α : Type} (h : List (Beat α)) : Nat := (h.reverse.takeWhile fun b => !b.last).length

/-- Position of the beat following history `h`, restarting after every `length` beats of a packet. -/
def packetPos {α : Type} (length : Nat) (h : List (Beat α)) : Nat := sinceLast h % length

/-- `j` is the index of the most recent beat of history `h` at position `k`. -/
def IsLatestAt {α : Type} (length : Nat) (h : List (Beat α)) (k j : Nat) : Prop :=
  j < h.length ∧ packetPos length (h.take j) = k ∧
    ∀ j', j < j' → j' < h.length → packetPos length (h.take j') ≠ k

end Lambdalib
