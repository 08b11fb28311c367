import Verif.Spec.Circuit

/-! Model of `lambdalib/interface/stream_sim.py`.

The processes run once per clock edge (`add_sync_process`): they read the values before the edge, and what they assign
takes effect after the edge, so each is a synchronous circuit. `random.random() < self.speed` is an input, drawn anew in
each cycle. -/

namespace Lambdalib

/-! ### Sender -/

/-- State of `StreamSimSender.sync_process`: cycles of delay left, `i`, the driven `valid` and fields. -/
structure SimSendS (α : Type) where
  delay : Nat
  i : Nat
  valid : Bool
  beat : α
deriving Repr

/-- `StreamSimSender.sync_process`, stream_sim.py 36-60; input: `ready` and the random choice; output: `valid` and the
fields. One edge is lines 54-60 (without effect in the first, `valid` is low) and then 43-52. The dictionary of lists is
a list of records, all lists having the same length. -/
def simSender {α : Type} [Inhabited α] (data : List α) (delay : Nat) : Circuit (SimSendS α) (Bool × Bool) (Bool × α) where
  reset := ⟨delay, 0, false, default⟩
  out s _ := (s.valid, s.beat)
  next s x :=
    if s.delay = 0 then
      let i := if s.valid && x.1 then s.i + 1 else s.i
      let valid := if s.valid && x.1 then false else s.valid
      if i < data.length then
        ⟨0, i, if (!s.valid || (s.valid && x.1)) && x.2 then true else valid, data.getD i default⟩
      else ⟨0, i, valid, s.beat⟩
    else { s with delay := s.delay - 1 }

/-! ### Receiver -/

/-- State of `StreamSimReceiver.sync_process`: delay left, `ready`, and the recorded beats; `i` is their number. -/
structure SimRecvS (α : Type) where
  delay : Nat
  ready : Bool
  data : List α
deriving Repr

/-- Inputs: `valid`, the beat, the random choice. -/
structure SimRecvI (α : Type) where
  valid : Bool
  beat : α
  pick : Bool
deriving Repr

/-- `StreamSimReceiver.sync_process`, stream_sim.py 76-116; `full`: the speed is 1.0. The output is `ready`. -/
def simReceiver {α : Type} (length : Option Nat) (delay : Nat) (full : Bool) :
    Circuit (SimRecvS α) (SimRecvI α) Bool where
  reset := ⟨delay, false, []⟩
  out s _ := s.ready
  next s x :=
    if s.delay = 0 then
      if some s.data.length = length then s
      else
        let data := if x.valid && s.ready then s.data ++ [x.beat] else s.data
        if some data.length = length then { s with data := data }
        else { s with data := data, ready := (x.valid && x.pick) || full }
    else { s with delay := s.delay - 1 }

/-- `StreamSimReceiver.verify`, stream_sim.py 118-139: true if no exception is raised. Both are dictionaries of lists; a
key that was not recorded has the empty list (`defaultdict`). Assertions are enabled. -/
def simVerify {κ α : Type} [BEq κ] [BEq α] (data expected : List (κ × List α)) : Bool :=
  (expected.all fun (k, e) => e.length == ((data.lookup k).getD []).length) &&
  (expected.all fun (k, e) =>
    (List.range e.length).all fun i => ((data.lookup k).getD [])[i]? == e[i]?)

/-! ### Connection -/

inductive SimConnPt | start | idle | took | offer | given
deriving DecidableEq, Repr

/-- State of `StreamSimConnect.sync_process`: where it waits (lines 163, 177, 191 or 194, 197), `source.ready`, `stored`
and `store`, `sink.valid` and the fields of the sink. -/
structure SimConnS (α β : Type) where
  pt : SimConnPt
  ready : Bool
  stored : Bool
  store : α
  valid : Bool
  beat : β
deriving Repr

/-- Inputs: `source.valid`, the source beat, `sink.ready`, the random choice. -/
structure SimConnI (α : Type) where
  valid : Bool
  beat : α
  ready : Bool
  pick : Bool
deriving Repr

/-- Outputs: `source.ready`, `sink.valid` and the sink beat. -/
structure SimConnO (β : Type) where
  ready : Bool
  valid : Bool
  beat : β
deriving Repr

/-- `StreamSimConnect.sync_process`, stream_sim.py 150-198; `f` writes the stored fields to the sink. -/
def simConnect {α β : Type} [Inhabited α] [Inhabited β] (f : α → β) :
    Circuit (SimConnS α β) (SimConnI α) (SimConnO β) where
  reset := ⟨.start, false, false, default, false, default⟩
  out s _ := ⟨s.ready, s.valid, s.beat⟩
  next s x :=
    match s.pt with
    | .start => { s with ready := false, pt := .idle }
    | .idle =>
      if !s.stored && x.valid && x.pick then { s with store := x.beat, stored := true, ready := true, pt := .took }
      else if s.stored && x.pick then { s with beat := f s.store, valid := true, pt := .offer }
      else { s with ready := false, pt := .idle }
    | .took => { s with ready := false, pt := .idle }
    | .offer => if !x.ready then s else { s with valid := false, pt := .given }
    | .given => { s with stored := false, ready := false, pt := .idle }

/-- Fields of the sink after lines 181-186, one after the other; fields of the sink that are never assigned are zero. -/
def simFields (fields : List String) (remap : List (String × String)) (skip : List String) (r : String → Nat) :
    String → Nat :=
  fields.foldl (fun acc name =>
    let new := match remap.lookup name with
      | some n => n
      | none => name
    if !skip.contains new then fun k => if k = new then r name else acc k else acc) fun _ => 0

end Lambdalib
