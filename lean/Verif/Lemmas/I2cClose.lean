import Verif.Lemmas.I2cStream
import Verif.Spec.I2cTarget

/-! A circuit with an I2C initiator in it, connected to the wires: the levels that it sees depend on what it did before. This
construction shows that the hypotheses on the wires can be met, whatever the circuit does. -/

namespace Lambdalib

section
variable {τ σ ι ο : Type} (T : I2cTarget τ) (bidir : Bool) (c : Circuit σ ι ο) (core : σ → I2cS)
  (mk : Nat → σ → Bool → Bool → ι) (hold : Nat → Bool)

/-- What the driver reports. -/
def closeSee (r : σ × I2cBusS τ) : I2cDrvOut :=
  (i2cBusDriver bidir).out r.2.drv ⟨(core r.1).sclO, (core r.1).sdaO, true, true⟩

/-- One cycle of the wires. -/
def closeBus (b : I2cBusS τ) (sclO sdaO hold : Bool) : I2cBusS τ :=
  let x : I2cDrvIn := ⟨sclO, sdaO, true, true⟩
  let scl := i2cLineScl bidir b x hold
  let sda := i2cLineSda T bidir b x
  ⟨(i2cBusDriver bidir).next b.drv ⟨sclO, sdaO, scl, sda⟩, T.see b.tgt b.scl b.sda scl sda, scl, sda⟩

/-- The circuit on the wires. -/
def closeRun : Nat → σ × I2cBusS τ
  | 0 => (c.reset, ⟨(i2cBusDriver bidir).reset, T.init, true, true⟩)
  | n + 1 =>
    let r := closeRun n
    let y := closeSee bidir core r
    (c.next r.1 (mk n r.1 y.sclI y.sdaI), closeBus T bidir r.2 (core r.1).sclO (core r.1).sdaO (hold n))

/-- The inputs of the circuit on the wires. -/
def closeIn (n : Nat) : ι :=
  let r := closeRun T bidir c core mk hold n
  let y := closeSee bidir core r
  mk n r.1 y.sclI y.sdaI

theorem close_st (n : Nat) : c.st (closeIn T bidir c core mk hold) n = (closeRun T bidir c core mk hold n).1 := by
  induction n with
  | zero => rfl
  | succ n ih => rw [Circuit.st_succ, ih]; rfl

theorem close_bus (sclO sdaO : Nat → Bool)
    (h : ∀ n, sclO n = (core (c.st (closeIn T bidir c core mk hold) n)).sclO ∧
      sdaO n = (core (c.st (closeIn T bidir c core mk hold) n)).sdaO) (n : Nat) :
    i2cBusRun T bidir sclO sdaO hold n = (closeRun T bidir c core mk hold n).2 := by
  induction n with
  | zero => rfl
  | succ n ih =>
    obtain ⟨h1, h2⟩ := h n
    rw [close_st] at h1 h2
    rw [i2cBusRun, ih, h1, h2]
    rfl

end

end Lambdalib
