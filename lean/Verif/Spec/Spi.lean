import Verif.Model.Spi

/-! Specification vocabulary for the SPI master. -/

namespace Lambdalib

/-- The values of `v` in the cycles in which `clk` has just risen, oldest first. -/
def clkRises {α : Type} (clk : Nat → Bool) (v : Nat → α) : Nat → List α
  | 0 => []
  | n + 1 => clkRises clk v n ++
      (if clk n && !(match n with | 0 => false | k + 1 => clk k) then [v n] else [])

/-- Words the PHY can send: 1, 2, 4 or 8 bits per clock pulse, a whole number of pulses, not longer than the
data word, not more than 256 bits, not more pins than there are. -/
structure SpiWordOk (W P : Nat) (w : SpiWord) : Prop where
  width : w.width = 1 ∨ w.width = 2 ∨ w.width = 4 ∨ w.width = 8
  dvd : w.width ∣ w.len
  pos : 0 < w.len
  len : w.len ≤ W
  max : w.len - w.width < 256
  pins : w.width ≤ P

/-- The groups of `width` bits of a word, most significant first. -/
def spiOuts (w : SpiWord) : List Nat :=
  (List.range (w.len / w.width)).map fun j => w.data / 2 ^ (w.len - w.width * (j + 1)) % 2 ^ w.width

/-- The bits sampled with one pulse: pin 1 (MISO) for one bit, the low pins otherwise. -/
def spiSample (width dq : Nat) : Nat := if width = 1 then dq / 2 % 2 else dq % 2 ^ width

/-- The number formed by the sampled groups, first group most significant. -/
def spiIns (width : Nat) (l : List Nat) : Nat := l.foldl (fun a dq => a * 2 ^ width + spiSample width dq) 0

/-- `SpiDone words pulses results`: the words were transferred completely, one after the other. `pulses` are
the output and input pins at the rising clock edges; each word has one result with the sampled bits in its
low `len` bits and with the word's `last`. -/
inductive SpiDone : List (Bool × SpiWord) → List (Nat × Nat) → List (Bool × Nat) → Prop
  | nil : SpiDone [] [] []
  | snoc {A E F} (w : SpiWord) (last : Bool) (e : List (Nat × Nat)) (r : Nat) : SpiDone A E F →
      e.map Prod.fst = spiOuts w → r % 2 ^ w.len = spiIns w.width (e.map Prod.snd) →
      SpiDone (A ++ [(last, w)]) (E ++ e) (F ++ [(last, r)])

end Lambdalib
