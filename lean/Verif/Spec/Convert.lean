import Verif.Spec.Circuit

/-!
Specification of width conversion on finite sequences of beats (independent of the models).
-/

namespace Lambdalib

/-- Splitting a sequence of beats into groups of `r` beats; a group also ends with a beat carrying
`last`. The pair is (closed groups, currently open group). -/
def groupStep {α : Type} (r : Nat) (g : List (List (Beat α)) × List (Beat α)) (b : Beat α) :
    List (List (Beat α)) × List (Beat α) :=
  if b.last = true ∨ g.2.length + 1 = r then (g.1 ++ [g.2 ++ [b]], []) else (g.1, g.2 ++ [b])

/-- See `groupStep`. -/
def groups {α : Type} (r : Nat) (l : List (Beat α)) : List (List (Beat α)) × List (Beat α) :=
  l.foldl (groupStep r) ([], [])

/-- Bits `k*w .. (k+1)*w - 1` of a word. -/
def slice {W : Nat} (w k : Nat) (x : BitVec W) : BitVec w := BitVec.ofNat w (x.toNat >>> (k * w))

/-- Position of the `k`-th narrow beat in a wide word of `r` lanes. -/
def position (r : Nat) (reverse : Bool) (k : Nat) : Nat := if reverse then r - 1 - k else k

/-- `word` carries the group of narrow beats `g`: its delimiters are the disjunction of those of the
group, and each beat's data is found at its position. -/
def Packs {wf wt : Nat} (r : Nat) (reverse : Bool) (word : Beat (BitVec wt))
    (g : List (Beat (BitVec wf))) : Prop :=
  word.first = g.any (·.first) ∧ word.last = g.any (·.last) ∧
  ∀ k (h : k < g.length), slice wf (position r reverse k) word.payload = g[k].payload

/-- The `r` narrow beats of a wide word, in transmission order. -/
def chunks {wf : Nat} (wt r : Nat) (reverse : Bool) (b : Beat (BitVec wf)) :
    List (Beat (BitVec wt)) :=
  (List.range r).map fun k =>
    { first := b.first && k == 0
      last := b.last && k + 1 == r
      payload := slice wt (position r reverse k) b.payload }

/-- Packets aligned on the ratio: `last` only on the final beat of a group of `r`, `first` only on
the initial one. -/
def Aligned {α : Type} (r : Nat) (A : List (Beat α)) : Prop :=
  ∀ k (h : k < A.length), (A[k].last = true → k % r = r - 1) ∧ (A[k].first = true → k % r = 0)

end Lambdalib
