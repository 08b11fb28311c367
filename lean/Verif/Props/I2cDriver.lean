import Verif.Model.I2cWire
import Verif.Spec.I2cTarget

/-! Properties of the I2C bus driver (C89). -/

namespace Lambdalib

/-- Level of a line `d` cycles ago; the lines are taken as high before power on. -/
def levelAgo (d : Nat) (f : Nat → Bool) (n : Nat) : Bool := if n < d then true else f (n - d)

theorem levelAgo_succ (d : Nat) (f : Nat → Bool) (n : Nat) : levelAgo (d + 1) f (n + 1) = levelAgo d f n := by
  simp [levelAgo]

section
variable (bidir : Bool) (x : Nat → I2cDrvIn)

theorem i2cDrv_regs (n : Nat) :
    let s := (i2cBusDriver bidir).st x n
    s.scl1 = levelAgo 1 (fun k => (x k).sclPin) n ∧ s.scl2 = levelAgo 2 (fun k => (x k).sclPin) n ∧
    s.sda1 = levelAgo 1 (fun k => (x k).sdaPin) n ∧ s.sda2 = levelAgo 2 (fun k => (x k).sdaPin) n ∧
    s.sdaR = levelAgo 3 (fun k => (x k).sdaPin) n ∧
    s.sclR = if bidir then levelAgo 3 (fun k => (x k).sclPin) n else levelAgo 1 (fun k => (x k).sclO) n := by
  induction n with
  | zero => cases bidir <;> simp [i2cBusDriver, levelAgo]
  | succ n ih =>
    simp only [levelAgo_succ, Circuit.st_succ] at *
    obtain ⟨h1, h2, h3, h4, h5, h6⟩ := ih
    generalize (i2cBusDriver bidir).st x n = s at *
    cases bidir <;> simp [i2cBusDriver, levelAgo_succ, h1, h2, h3, h4, levelAgo]

/-- **C89.** The pads are open drain: SDA is never driven high, and pulled low exactly when asked; so is SCL when its pad
has an output enable. -/
theorem C89_open_drain (n : Nat) :
    let y := (i2cBusDriver bidir).wave x n
    y.sdaPad.level = (x n).sdaO ∧ (y.sdaPad.oe && y.sdaPad.o) = false ∧
    y.sclPad.level = (x n).sclO ∧ (bidir = true → (y.sclPad.oe && y.sclPad.o) = false) := by
  simp only [Circuit.wave]
  generalize (i2cBusDriver bidir).st x n = s
  cases bidir <;> simp [i2cBusDriver, PadOut.level]

/-- **C89.** The levels handed to the core are those of the lines two cycles ago; without output enable on the SCL pad, SCL is
taken to be what the core asks for. -/
theorem C89_levels (n : Nat) :
    let y := (i2cBusDriver bidir).wave x n
    y.sdaI = levelAgo 2 (fun k => (x k).sdaPin) n ∧
    y.sclI = if bidir then levelAgo 2 (fun k => (x k).sclPin) n else (x n).sclO := by
  obtain ⟨h1, h2, h3, h4, h5, h6⟩ := i2cDrv_regs bidir x n
  simp only [Circuit.wave] at *
  generalize (i2cBusDriver bidir).st x n = s at *
  cases bidir <;> simp [i2cBusDriver, h2, h4]

/-- **C89.** With an SCL pad that can be read, each edge of SCL and each change of SDA with SCL high is flagged in exactly one
cycle, two cycles after it became visible on the lines. -/
theorem C89_conditions_partial (hb : bidir = true) (n : Nat) :
    let y := (i2cBusDriver bidir).wave x n
    let scl := fun k => (x k).sclPin
    let sda := fun k => (x k).sdaPin
    (y.sample = true ↔ levelAgo 3 scl n = false ∧ levelAgo 2 scl n = true) ∧
    (y.setup = true ↔ levelAgo 3 scl n = true ∧ levelAgo 2 scl n = false) ∧
    (y.start = true ↔ levelAgo 2 scl n = true ∧ levelAgo 3 sda n = true ∧ levelAgo 2 sda n = false) ∧
    (y.stop = true ↔ levelAgo 2 scl n = true ∧ levelAgo 3 sda n = false ∧ levelAgo 2 sda n = true) := by
  subst hb
  obtain ⟨h1, h2, h3, h4, h5, h6⟩ := i2cDrv_regs true x n
  simp only [Circuit.wave] at *
  generalize (i2cBusDriver true).st x n = s at *
  simp only [i2cBusDriver, h2, h4, h5, h6, if_true]
  simp [and_assoc]

end

theorem busConds_one (scl sda : Nat → Bool) (n : Nat) : busConds scl sda n 1 =
    if (scl n && scl (n + 1)) && (sda n != sda (n + 1)) then [sda (n + 1)] else [] := rfl

/-- On a bus that obeys the rules, a start condition is flagged exactly when there was one: SDA changes and SCL edges do not
come together. -/
theorem C89_true_starts_partial (x : Nat → I2cDrvIn)
    (hs : ∀ n, (x n).sdaPin ≠ (x (n + 1)).sdaPin → (x n).sclPin = (x (n + 1)).sclPin)
    (h0 : (x 0).sdaPin = true) (n : Nat) :
    (((i2cBusDriver true).wave x (n + 3)).start = true ↔
      [false] = busConds (fun k => (x k).sclPin) (fun k => (x k).sdaPin) n 1) ∧
    (((i2cBusDriver true).wave x (n + 3)).stop = true ↔
      [true] = busConds (fun k => (x k).sclPin) (fun k => (x k).sdaPin) n 1) ∧
    ∀ m, m < 3 → ((i2cBusDriver true).wave x m).start = false ∧ ((i2cBusDriver true).wave x m).stop = false := by
  have h := C89_conditions_partial true x rfl
  refine ⟨?_, ?_, ?_⟩
  · rw [(h (n + 3)).2.2.1]
    have := hs n
    simp only [levelAgo, show ¬ (n + 3 < 2) by omega, show ¬ (n + 3 < 3) by omega, if_false,
      show n + 3 - 2 = n + 1 by omega, show n + 3 - 3 = n by omega, busConds_one]
    cases e1 : (x n).sdaPin <;> cases e2 : (x (n + 1)).sdaPin <;> cases e3 : (x n).sclPin <;>
      cases e4 : (x (n + 1)).sclPin <;> simp_all
  · rw [(h (n + 3)).2.2.2]
    have := hs n
    simp only [levelAgo, show ¬ (n + 3 < 2) by omega, show ¬ (n + 3 < 3) by omega, if_false,
      show n + 3 - 2 = n + 1 by omega, show n + 3 - 3 = n by omega, busConds_one]
    cases e1 : (x n).sdaPin <;> cases e2 : (x (n + 1)).sdaPin <;> cases e3 : (x n).sclPin <;>
      cases e4 : (x (n + 1)).sclPin <;> simp_all
  · intro m hm
    have h1 := (h m).2.2.1
    have h2 := (h m).2.2.2
    have : levelAgo 3 (fun k => (x k).sdaPin) m = true ∧ levelAgo 2 (fun k => (x k).sdaPin) m = true := by
      obtain rfl | rfl | rfl : m = 0 ∨ m = 1 ∨ m = 2 := by omega
      all_goals simp [levelAgo, h0]
    rw [this.1, this.2] at h1 h2
    constructor
    · simpa using h1
    · simpa using h2

/-- The core lowers SCL, changes SDA, and raises SCL again. -/
def i2cDrvSample (n : Nat) : I2cDrvIn :=
  let scl := !(2 ≤ n && n < 6)
  let sda := n < 5
  ⟨scl, sda, scl, sda⟩

/-- **C89 does not hold** for output-only SCL: SDA changes in the middle of an SCL low phase, which is data, but as SCL is not
delayed like SDA, a start condition is flagged. -/
theorem C89_output_only_false :
    (∀ n, busConds (fun k => (i2cDrvSample k).sclPin) (fun k => (i2cDrvSample k).sdaPin) n 1 = []) ∧
    (∀ n, (i2cDrvSample n).sdaPin ≠ (i2cDrvSample (n + 1)).sdaPin →
      (i2cDrvSample n).sclPin = (i2cDrvSample (n + 1)).sclPin) ∧
    (∀ n, (i2cDrvSample n).sclPin = (i2cDrvSample n).sclO ∧ (i2cDrvSample n).sdaPin = (i2cDrvSample n).sdaO) ∧
    ((i2cBusDriver false).wave i2cDrvSample 7).start = true ∧
    ((i2cBusDriver true).wave i2cDrvSample 7).start = false := by
  refine ⟨?_, ?_, fun n => ⟨rfl, rfl⟩, by decide, by decide⟩
  · intro n
    by_cases h : n = 4
    · subst h; decide
    · simp only [busConds_one, i2cDrvSample]
      have : decide (n < 5) = decide (n + 1 < 5) := by simp; omega
      simp [this]
  · intro n h
    by_cases e : n = 4
    · subst e; decide
    · simp only [i2cDrvSample] at h
      have : decide (n < 5) = decide (n + 1 < 5) := by simp; omega
      exact absurd this h

example : ((i2cBusDriver true).wave (fun n => ⟨true, n < 4, true, n < 4⟩) 6).start = true ∧
    busConds (fun _ => true) (fun n => n < 4) 3 1 = [false] := by decide

end Lambdalib
