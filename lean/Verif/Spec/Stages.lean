import Mathlib.Data.List.Forall2
import Verif.Model.Stages
import Verif.Spec.Pipeline
import Verif.Spec.Convert
import Verif.Spec.StreamUtils
import Verif.Spec.UsbGenericX
import Verif.Spec.Float
import Verif.Spec.Iir

/-! What chains of stream components do to the sequence of beats. -/

namespace Lambdalib

/-- `d` is the product of the two operands in `a`, the first one in the low bits, read as signed or unsigned numbers, with its delimiters. -/
def Multiplies (wa wb : Nat) (sa sb : Bool) (a d : Beat (BitVec (wa + wb))) : Prop :=
  d.first = a.first ∧ d.last = a.last ∧
  shapeVal (sa || sb) d.payload = shapeVal sa (BitVec.ofNat wa a.payload.toNat) * shapeVal sb (BitVec.ofNat wb (a.payload.toNat / 2 ^ wa))

/-- `d` is the integer in `a` as a floating point number, rounded towards zero, with `last` (C26, C27). The most negative integer,
for which the converter is wrong, gives negative zero. -/
def Floats (a d : Beat (BitVec 32)) : Prop :=
  d.first = false ∧ d.last = a.last ∧ (a.payload ≠ 0x80000000#32 → IsRoundTowardZero a.payload.toInt d.payload) ∧
  (a.payload = 0x80000000#32 → d.payload = 0x80000000#32)

/-- The samples of the difference equation (`DiffEq`, C45) with the parameters of the filter, with `first` and `last` of the input. -/
def filtered (c : IirCfg) (x : List (Beat (BitVec c.width))) : List (Beat (BitVec c.width)) :=
  List.zipWith (fun b d => ⟨b.first, b.last, BitVec.ofInt c.width d⟩) x
    (DiffEq.run ⟨c.width, c.ws - c.width, c.ws + c.wc, c.sc, c.b, c.a.tail⟩ (x.map (·.payload.toInt))).2

/-- Which sequences `y` a component may make of the sequence `x`. -/
def StreamStage.Makes {a b : Nat} : StreamStage a b → List (Beat (BitVec a)) → List (Beat (BitVec b)) → Prop
  | .part _, x, y => y = x
  | .stitch count, x, y => y = stitched count x
  | .bound count, x, y => y = boundPackets count 0 x
  | .up _ r rev, x, y => List.Forall₂ (Packs r rev) y (groups r x).1
  | .down w r rev, x, y => y = x.flatMap (chunks w r rev)
  | .mult wa wb sa sb, x, y => List.Forall₂ (Multiplies wa wb sa sb) x y
  | .float, x, y => List.Forall₂ Floats x y
  | .filter c, x, y => y = filtered c x

/-- Which sequences a chain may make: one component after the other. -/
def StreamStages.Makes {a b : Nat} : StreamStages a b → List (Beat (BitVec a)) → List (Beat (BitVec b)) → Prop
  | .nil, x, y => y = x
  | .cons s l, x, y => ∃ z, s.Makes x z ∧ l.Makes z y

/-- What is assumed of a FIFO in a chain: order and offers (`FifoContract`, `FifoLive`), outputs from registers, and room again and
again if the words offered are taken. -/
structure FifoServes {σ : Type} {w : Nat} (f : Circuit σ (FifoIn w) (FifoOut w)) (depth : Nat) : Prop where
  contract : FifoContract f depth
  live : FifoLive f
  registered : FifoRegistered f
  room : ∀ i, (∀ n, (f.wave i n).rRdy = true → ∃ m, n ≤ m ∧ (f.wave i m).rRdy = true ∧ (i m).rEn = true) →
    Recurs (fun n => (f.wave i n).wRdy = true)

/-- Legal parameters of a component. -/
def StreamStage.Ok {a b : Nat} : StreamStage a b → Prop
  | .part (.fifo f depth) => FifoServes f depth
  | .part _ => True
  | .stitch count => 1 ≤ count
  | .bound count => 1 ≤ count
  | .up _ r _ => 2 ≤ r
  | .down _ r _ => 2 ≤ r
  | .mult _ _ _ _ => True
  | .float => True
  | .filter c => (0 < c.width ∧ c.width ≤ c.ws ∧ 0 < c.wc) ∧ (c.b.length = c.a.length ∧ 2 ≤ c.a.length) ∧
    ∀ v ∈ c.b ++ c.a, -2 ^ (c.wc - 1) ≤ v ∧ v < 2 ^ (c.wc - 1)

/-- Legal parameters of all components. -/
def StreamStages.Ok {a b : Nat} : StreamStages a b → Prop
  | .nil => True
  | .cons s l => s.Ok ∧ l.Ok

/-- Whatever is offered is taken at some time. -/
def Takes (valid ready : Nat → Bool) : Prop := ∀ n, valid n = true → ∃ m, n ≤ m ∧ valid m = true ∧ ready m = true

section
variable {σ α β : Type} (c : Circuit σ (SIn α) (SOut β)) (i : Nat → SIn α) (n : Nat)

/-- The beats accepted so far and the one on offer at the sink. -/
def presented : List (Beat α) := accepted c i n ++ (if (i n).valid then [(i n).beat] else [])

/-- The beats delivered so far and the one on offer at the source. -/
def shown : List (Beat β) := delivered c i n ++ (if (c.wave i n).valid then [(c.wave i n).beat] else [])

end

end Lambdalib
