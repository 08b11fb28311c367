import Verif.Spec.Circuit

/-! Specification of the SPI slave: what the pins mean. -/

namespace Lambdalib

/-- A signal after a two stage synchroniser with initial value `v`. -/
def sync2 {α : Type} (v : α) (f : Nat → α) : Nat → α
  | 0 => v
  | 1 => v
  | n + 2 => f n

/-- The previous value of a signal. -/
def prevOf {α : Type} (v : α) (f : Nat → α) : Nat → α
  | 0 => v
  | n + 1 => f n

/-- What happens on the receive side: the data pins are sampled, or the chip is deselected. -/
inductive SlvEv
  | sample (dq : Nat)
  | deselect
deriving DecidableEq, Repr

/-- An edge of the clock (rising or falling) in cycle `n`. -/
def edgeAt (rising : Bool) (clk : Nat → Bool) (n : Nat) : Bool :=
  if rising then !prevOf false clk n && clk n else prevOf false clk n && !clk n

/-- The events in cycle `n`, in terms of the synchronised pins. -/
def slvEvent (rising : Bool) (clk csN : Nat → Bool) (dq : Nat → Nat) (n : Nat) : List SlvEv :=
  if !csN n && edgeAt rising clk n then [.sample (dq n)]
  else if csN n && !prevOf false csN n then [.deselect] else []

def slvEvents (rising : Bool) (clk csN : Nat → Bool) (dq : Nat → Nat) : Nat → List SlvEv
  | 0 => []
  | n + 1 => slvEvents rising clk csN dq n ++ slvEvent rising clk csN dq n

/-- The number formed by groups of `nb` bits, first group most significant. -/
def groupsVal (nb : Nat) (l : List Nat) : Nat := l.foldl (fun a g => a * 2 ^ nb + g % 2 ^ nb) 0

/-- Receiver: current stage and the groups of the current word. -/
structure SlvSpec where
  stage : Nat
  bits : List Nat
deriving DecidableEq, Repr

/-- A word (value, number of bits) is complete when it has the number of bits of the stage; the last stage repeats.
Deselection delivers an incomplete word, if any, and restarts at the first stage. -/
def slvSpecStep (nb : Nat) (stages : List Nat) (s : SlvSpec) : SlvEv → SlvSpec × List (Nat × Nat)
  | .sample g =>
    let b := s.bits ++ [g]
    if nb * b.length = stages.getD s.stage 0 then
      (⟨min (s.stage + 1) (stages.length - 1), []⟩, [(groupsVal nb b, nb * b.length)])
    else (⟨s.stage, b⟩, [])
  | .deselect => (⟨0, []⟩, if s.bits = [] then [] else [(groupsVal nb s.bits, nb * s.bits.length)])

def slvSpec (nb : Nat) (stages : List Nat) (ev : List SlvEv) : SlvSpec × List (Nat × Nat) :=
  ev.foldl (fun a e => ((slvSpecStep nb stages a.1 e).1, a.2 ++ (slvSpecStep nb stages a.1 e).2)) (⟨0, []⟩, [])

/-- SPI clock modes: the clock idles at `cpol`, the leading edge leaves that level; data is captured on the leading edge
if `cpha` is 0 and on the trailing edge if it is 1. True for a rising edge. -/
def captureRising (cpol cpha : Bool) : Bool :=
  let leadingRising := !cpol
  if cpha then !leadingRising else leadingRising

/-! ### Transmit side -/

/-- The groups of `nb` bits of a word of `len` bits, most significant first. -/
def wordGroups (nb len data : Nat) : List Nat :=
  (List.range (len / nb)).map fun j => data / 2 ^ (len - nb * (j + 1)) % 2 ^ nb

/-- Transmitter: groups of the current word still to be sent, and the value on the pins. -/
structure SlvTx where
  todo : List Nat
  pins : Nat
deriving DecidableEq, Repr

/-- One cycle: while selected with nothing to send, an offered word is taken; otherwise an update edge puts the next
group on the pins; deselection drops what is left. -/
def slvTxStep (nb : Nat) (sel upd : Bool) (word : Option (Nat × Nat)) (s : SlvTx) : SlvTx :=
  match sel, s.todo with
  | true, [] =>
    match word with
    | some (data, len) => { s with todo := wordGroups nb len data }
    | none => s
  | true, g :: l => if upd then ⟨l, g⟩ else s
  | false, _ => { s with todo := [] }

def slvTx (nb : Nat) (sel upd : Nat → Bool) (word : Nat → Option (Nat × Nat)) : Nat → SlvTx
  | 0 => ⟨[], 0⟩
  | n + 1 => slvTxStep nb (sel n) (upd n) (word n) (slvTx nb sel upd word n)

end Lambdalib
