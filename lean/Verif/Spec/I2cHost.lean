import Verif.Spec.I2cPyDev
import Verif.Spec.I2cBridge

/-! A host that runs a program with `dev.write` and `dev.read`, and what calls of the library are to do. -/

namespace Lambdalib

/-- A program: it ends with a result, writes a buffer, or reads `n` bytes and goes on with them. -/
inductive PyProg (α : Type)
  | ret (r : α)
  | write (l : List (BitVec 8)) (k : PyProg α)
  | read (n : Nat) (k : List (BitVec 8) → PyProg α)

section
variable {α σ : Type}

/-- Result of a program with some device, and state of the device. -/
def PyProg.run (dev : PyDev σ) : PyProg α → σ → α × σ
  | .ret r, s => (r, s)
  | .write l k, s => k.run dev (dev.write l s)
  | .read n k, s => (k (dev.read n s).1).run dev (dev.read n s).2

/-- All bytes written. -/
def PyProg.written (dev : PyDev σ) : PyProg α → σ → List (BitVec 8)
  | .ret _, _ => []
  | .write l k, s => l ++ k.written dev (dev.write l s)
  | .read n k, s => (k (dev.read n s).1).written dev (dev.read n s).2

/-- Every read gives as many bytes as asked for. -/
def PyProg.Full (dev : PyDev σ) : PyProg α → σ → Prop
  | .ret _, _ => True
  | .write l k, s => k.Full dev (dev.write l s)
  | .read n k, s => (dev.read n s).1.length = n ∧ (k (dev.read n s).1).Full dev (dev.read n s).2

/-- Every buffer written consists of complete commands, whatever is read. -/
def PyProg.Complete : PyProg α → Prop
  | .ret _ => True
  | .write l k => ProtoComplete l ∧ k.Complete
  | .read _ k => ∀ r, (k r).Complete

/-- The last transaction was a read of at least one byte, it was refused, and its status was not read. -/
def BridgeS.Refused (d : BusDevices) (s : BridgeS) : Prop :=
  s.pending = [] ∧ s.replies ≠ [] ∧ ∃ g a n, s.log = g ++ [.read a n] ∧ d g (.read a n) = none ∧ n ≠ 0

/-- No byte is written after a refused read before its status was read. -/
def PyProg.Patient (d : BusDevices) : PyProg α → BridgeS → Prop
  | .ret _, _ => True
  | .write l k, s => (∀ p b q, l = p ++ b :: q → ¬ BridgeS.Refused d (p.foldl (bridgeByte d) s)) ∧
      k.Patient d ((bridgeDev d).write l s)
  | .read n k, s => (k ((bridgeDev d).read n s).1).Patient d ((bridgeDev d).read n s).2

/-- A buffer is written only when all replies were read. -/
def PyProg.Lockstep (d : BusDevices) : PyProg α → BridgeS → Prop
  | .ret _, _ => True
  | .write l k, s => s.replies = [] ∧ k.Lockstep d ((bridgeDev d).write l s)
  | .read n k, s => (k ((bridgeDev d).read n s).1).Lockstep d ((bridgeDev d).read n s).2

/-- Every buffer written has at most `cap` bytes, whatever is read. -/
def PyProg.Small (cap : Nat) : PyProg α → Prop
  | .ret _ => True
  | .write l k => l.length ≤ cap ∧ k.Small cap
  | .read _ k => ∀ r, (k r).Small cap

/-- The host: the rest of the program, bytes written and not yet sent, bytes received and not yet read. -/
structure PyHost (α : Type) where
  prog : PyProg α
  tx : List (BitVec 8)
  rx : List (BitVec 8)

/-- One step of the program. Reading waits until there are enough bytes. -/
def PyHost.act (h : PyHost α) : PyHost α :=
  match h.prog with
  | .ret _ => h
  | .write l k => ⟨k, h.tx ++ l, h.rx⟩
  | .read n k => if n ≤ h.rx.length then ⟨k (h.rx.take n), h.tx, h.rx.drop n⟩ else h

/-- One clock cycle: a byte may be sent, a byte may be received, the program may go on. -/
def PyHost.step (go sent : Bool) (got : Option (BitVec 8)) (h : PyHost α) : PyHost α :=
  let h' : PyHost α := ⟨h.prog, if sent then h.tx.tail else h.tx, h.rx ++ got.toList⟩
  if go then h'.act else h'

end

/-- Calls of the library. -/
inductive BusCall
  | write (width addr reg : Int) (data : List Int)
  | read (width addr reg length : Int)
  | discover
  | discoverQueue

/-- Their results. -/
inductive BusRes
  | wrote (r : Option Nat)
  | read (r : Option (List (BitVec 8)))
  | found (r : List Nat × List BusTok)
  | map (r : List BusTok)
deriving DecidableEq, Repr

/-- A call as modelled, with some device. -/
def BusCall.exec {σ : Type} (dev : PyDev σ) : BusCall → σ → Except PyErr BusRes × σ
  | .write w a r d, s => let x := writeBlockData dev w a r d s; (x.1.map .wrote, x.2)
  | .read w a r l, s => let x := readBlockData dev w a r l s; (x.1.map .read, x.2)
  | .discover, s => let x := Lambdalib.discover dev s; (x.1.map .found, x.2)
  | .discoverQueue, s => let x := Lambdalib.discoverQueue dev s; (x.1.map .map, x.2)

/-- Calls one after the other; an exception ends the program. -/
def BusCall.execAll {σ : Type} (dev : PyDev σ) : List BusCall → σ → Except PyErr (List BusRes) × σ
  | [], s => (.ok [], s)
  | c :: cs, s =>
    match c.exec dev s with
    | (.error e, s) => (.error e, s)
    | (.ok r, s) => let x := execAll dev cs s; (x.1.map (r :: ·), x.2)

end Lambdalib
