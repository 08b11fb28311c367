import Verif.Spec.Circuit

/-! Specifications of the stream utilities on finite sequences of beats. -/

namespace Lambdalib

/-- Number of beats carrying `first` / `last`. -/
def firsts {α : Type} (l : List (Beat α)) : Nat := l.countP (·.first)
def lasts {α : Type} (l : List (Beat α)) : Nat := l.countP (·.last)

/-- Keep every `count`-th `first` (starting with the very first one) and every `count`-th `last`
(starting with the `count`-th one); payloads unchanged. -/
def stitched {α : Type} (count : Nat) (l : List (Beat α)) : List (Beat α) :=
  l.mapIdx fun k b =>
    { first := b.first && decide (firsts (l.take k) % count = 0)
      last := b.last && decide (lasts (l.take k) % count = count - 1)
      payload := b.payload }

/-- A packet: `first` exactly on its initial beat, `last` exactly on its final beat. -/
def IsPacket {α : Type} (p : List (Beat α)) : Prop :=
  p ≠ [] ∧ ∀ k (h : k < p.length), (p[k].first = true ↔ k = 0) ∧
    (p[k].last = true ↔ k = p.length - 1)

/-- Keep or clear the delimiters of a packet. -/
def markPacket {α : Type} (keepFirst keepLast : Bool) (p : List (Beat α)) : List (Beat α) :=
  p.map fun b => ⟨b.first && keepFirst, b.last && keepLast, b.payload⟩

/-- Re-marking of `last`: `c` beats have been sent since the previous `last`; a beat gets `last`
when it had it or when it is the `count`-th one. -/
def boundPackets {α : Type} (count : Nat) : Nat → List (Beat α) → List (Beat α)
  | _, [] => []
  | c, b :: bs =>
    if c + 1 = count ∨ b.last = true then { b with last := true } :: boundPackets count 0 bs
    else b :: boundPackets count (c + 1) bs

end Lambdalib
