import Verif.Spec.Circuit

/-! What the test helpers of an endpoint are meant to send. -/

namespace Lambdalib

/-- Value of a field with packet `k`: the latest assignment in the packets up to it, zero if there is none. -/
def bfmField (pkts : List (List (String × Nat))) (k : Nat) (name : String) : Nat :=
  (((pkts.take (k + 1)).flatten.reverse.find? (·.1 == name)).map Prod.snd).getD 0

/-- The beats to send: one per packet, `first` with the first, `last` with the last. -/
def bfmBeats (pkts : List (List (String × Nat))) : List (Beat (String → Nat)) :=
  (List.range pkts.length).map fun k => ⟨k == 0, k + 1 == pkts.length, bfmField pkts k⟩

/-- For `w` cycles before `n` nothing happens. -/
def idleWindow (ev : Nat → Bool) (w n : Nat) : Prop := w ≤ n ∧ ∀ k, n - w ≤ k → k < n → ev k = false

end Lambdalib
