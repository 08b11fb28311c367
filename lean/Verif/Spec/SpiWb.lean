import Verif.Spec.Layout
import Verif.Spec.SpiBridge

/-! What is assumed of the FIFO for progress, and the bus writes that words ask for. -/

namespace Lambdalib

/-- A FIFO with words inside offers one at some time. -/
def FifoLive {σ : Type} {w : Nat} (f : Circuit σ (FifoIn w) (FifoOut w)) : Prop :=
  ∀ i n, (fifoRead f i n).length < (fifoWritten f i n).length → ∃ m, n ≤ m ∧ (f.wave i m).rRdy = true

/-- Place in a sequence of commands: before a command, after the command `c`, after the command `c`, the address `a` and `k` data
words. -/
inductive WbPlace | command | address (c : Nat) | data (c a k : Nat)
deriving DecidableEq, Repr

/-- One more word: a command, an address or data of the write. Reads have no data. -/
def wbWord (W aw : Nat) (p : WbPlace × List WbXfer) (w : Nat × Nat) : WbPlace × List WbXfer :=
  match p.1 with
  | .command => (if w.2 = W then .address w.1 else .command, p.2)
  | .address c => (if w.2 = W ∧ c % 2 = 1 then .data c w.1 0 else .command, p.2)
  | .data c a k => (if k + 1 = burstLen (W / 8) (c / 4) ∨ w.2 < W then .command else .data c a (k + 1),
      p.2 ++ [⟨true, burstAdr W aw a k, w.1⟩])

/-- The bus writes that a sequence of words asks for. -/
def wbWrites (W aw : Nat) (ws : List (Nat × Nat)) : List WbXfer := (ws.foldl (wbWord W aw) (.command, [])).2

end Lambdalib
