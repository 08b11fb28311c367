import Verif.Spec.Circuit

/-! Model of `Endpoint.bfm_send` and `Endpoint.bfm_read`, `lambdalib/interface/stream.py` 66-107.

They run inside a simulation process, from one clock edge to the next. What they assign after an edge takes effect in the cycle
that begins there, and after `Settle` they read the values of that cycle, so each is a synchronous circuit whose outputs are
driven from the start of the cycle. An exception ends the simulation. -/

namespace Lambdalib

/-- Assignment of the fields of a packet, a dictionary, one after the other (stream.py 73-74). Fields that the packet does not have
keep their value. The values fit the fields. -/
def bfmAssign (fields : String → Nat) (pkt : List (String × Nat)) : String → Nat :=
  pkt.foldl (fun f p => fun k => if k = p.1 then p.2 else f k) fields

/-- State of `bfm_send`: `i`, `elapsed`, the fields as they were left, and whether the exception was raised. -/
structure BfmSendS where
  i : Nat
  elapsed : Nat
  fields : String → Nat
  raised : Bool

/-- The fields in a cycle of `bfm_send`. -/
def bfmSendFields (pkts : List (List (String × Nat))) (s : BfmSendS) : String → Nat :=
  bfmAssign s.fields (pkts.getD s.i [])

/-- `Endpoint.bfm_send`, stream.py 66-86. The input is `ready`; the outputs are `valid` and the beat. -/
def bfmSend (pkts : List (List (String × Nat))) (timeout : Nat) : Circuit BfmSendS Bool (Bool × Beat (String → Nat)) where
  reset := ⟨0, 1, fun _ => 0, false⟩
  out s _ := (!s.raised && decide (s.i < pkts.length),
    ⟨s.i == 0, s.i == pkts.length - 1, bfmSendFields pkts s⟩)
  next s ready :=
    if s.raised || decide (pkts.length ≤ s.i) then s
    else if ready then ⟨s.i + 1, 1, bfmSendFields pkts s, false⟩
    else if s.elapsed + 1 ≥ timeout then { s with elapsed := s.elapsed + 1, raised := true }
    else { s with elapsed := s.elapsed + 1 }

/-- State of a process that calls `bfm_read` one time after the other: the values returned so far, `elapsed` and whether the
exception was raised. -/
structure BfmReadS (α : Type) where
  got : List α
  elapsed : Nat
  raised : Bool

/-- `Endpoint.bfm_read`, stream.py 88-107, called `count` times without pause: `ready` is cleared at the end of a call and set at
once by the next. Inputs: `valid` and the payload; output: `ready`. -/
def bfmRead {α : Type} (count timeout : Nat) : Circuit (BfmReadS α) (Bool × α) Bool where
  reset := ⟨[], 0, false⟩
  out s _ := !s.raised && decide (s.got.length < count)
  next s x :=
    if s.raised || decide (count ≤ s.got.length) then s
    else if x.1 then ⟨s.got ++ [x.2], 0, false⟩
    else if s.elapsed + 1 ≥ timeout then { s with elapsed := s.elapsed + 1, raised := true }
    else { s with elapsed := s.elapsed + 1 }

end Lambdalib
