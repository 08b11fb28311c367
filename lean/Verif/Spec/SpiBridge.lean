import Verif.Spec.Circuit

/-! Specification of the SPI-Wishbone bridge: what a sequence of received words means. -/

namespace Lambdalib

/-- A finished bus cycle: write flag, address, data. -/
structure WbXfer where
  we : Bool
  adr : Nat
  dat : Nat
deriving DecidableEq, Repr

/-- Number of bus cycles for `count` bytes with `b` bytes per word. -/
def burstLen (b count : Nat) : Nat := max 1 ((count + b - 1) / b)

/-- The word address of the `k`-th word of a burst starting at byte address `a`. -/
def burstAdr (W aw a k : Nat) : Nat := (a + k * (W / 8)) % 2 ^ W / 2 ^ (W - aw) % 2 ^ aw

/-- The words written by a burst of `k` words: they are cut after a word shorter than `W` bits. `ws` are (data,
length). -/
def fullBefore (W : Nat) (ws : List (Nat × Nat)) : Prop := ∀ w ∈ ws.dropLast, W ≤ w.2

def writeXfers (W aw a : Nat) (ws : List (Nat × Nat)) : List WbXfer :=
  ws.zipIdx.map fun p => ⟨true, burstAdr W aw a p.2, p.1.1⟩

def readXfers (W aw a : Nat) (rs : List Nat) : List WbXfer :=
  rs.zipIdx.map fun p => ⟨false, burstAdr W aw a p.2, p.1⟩

/-- Responses to a read: the data, `last` on the final word of the burst of `k` words. -/
def readReplies (k : Nat) (rs : List Nat) : List (Nat × Bool) :=
  rs.zipIdx.map fun p => (p.1, p.2 + 1 == k)

/-- `BrgDone W aw words xfers replies`: the received words were complete commands with these effects. -/
inductive BrgDone (W aw : Nat) : List (Nat × Nat) → List WbXfer → List (Nat × Bool) → Prop
  | nil : BrgDone W aw [] [] []
  | badCommand {A X R} (d l : Nat) : BrgDone W aw A X R → l ≠ W → BrgDone W aw (A ++ [(d, l)]) X R
  | badAddress {A X R} (c d l : Nat) : BrgDone W aw A X R → l ≠ W → BrgDone W aw (A ++ [(c, W), (d, l)]) X R
  | write {A X R} (c a : Nat) (ws : List (Nat × Nat)) : BrgDone W aw A X R → c % 2 = 1 → ws ≠ [] →
      fullBefore W ws → ws.length ≤ burstLen (W / 8) (c / 4) →
      (ws.length = burstLen (W / 8) (c / 4) ∨ ∃ w, ws.getLast? = some w ∧ w.2 < W) →
      BrgDone W aw (A ++ [(c, W), (a, W)] ++ ws) (X ++ writeXfers W aw a ws) R
  | read {A X R} (c a : Nat) (rs : List Nat) : BrgDone W aw A X R → c % 2 = 0 →
      rs.length = burstLen (W / 8) (c / 4) →
      BrgDone W aw (A ++ [(c, W), (a, W)]) (X ++ readXfers W aw a rs)
        (R ++ readReplies (burstLen (W / 8) (c / 4)) rs)

/-- The beginning of a command: what was received and done so far. -/
inductive BrgPart (W aw : Nat) : List (Nat × Nat) → List WbXfer → List (Nat × Bool) → Prop
  | none : BrgPart W aw [] [] []
  | command (c : Nat) : BrgPart W aw [(c, W)] [] []
  | write (c a : Nat) (ws : List (Nat × Nat)) : c % 2 = 1 → (∀ w ∈ ws, W ≤ w.2) →
      ws.length < burstLen (W / 8) (c / 4) →
      BrgPart W aw ([(c, W), (a, W)] ++ ws) (writeXfers W aw a ws) []
  | read (c a : Nat) (rs : List Nat) : c % 2 = 0 → rs.length < burstLen (W / 8) (c / 4) →
      BrgPart W aw [(c, W), (a, W)] (readXfers W aw a rs) (readReplies (burstLen (W / 8) (c / 4)) rs)

end Lambdalib
