import Verif.Spec.I2c

/-! Specification of the byte protocol of the I2C bridge. -/

namespace Lambdalib

/-- The address byte of a command as a beat for `I2CStream`. -/
def protoAddr (h : BitVec 8) (last : Bool) : Beat (Bool × BitVec 8) := ⟨false, last, (false, h)⟩

/-- A data byte to write as a beat for `I2CStream`. -/
def protoWr (last : Bool) (d : BitVec 8) : Beat (Bool × BitVec 8) := ⟨false, last, (false, d)⟩

/-- A byte to read as a beat for `I2CStream`. -/
def protoRd (last : Bool) : Beat (Bool × BitVec 8) := ⟨false, last, (true, 0)⟩

/-- `ProtoOk bytes beats replies`: one command as it should be. `bytes` come from the host, `beats` are given
to `I2CStream` (with the flag "not acknowledged"), `replies` go back to the host (with `last`). -/
inductive ProtoOk : List (BitVec 8) → List (Beat (Bool × BitVec 8) × Bool) → List (Bool × BitVec 8) → Prop
  /-- Write without data. -/
  | probe (h : BitVec 8) (hw : h.getLsbD 0 = false) :
    ProtoOk [h, 0] [(protoAddr h true, false)] [(true, 0)]
  /-- Write of `pre ++ [b]`, everything acknowledged. -/
  | write (h : BitVec 8) (pre : List (BitVec 8)) (b : BitVec 8) (hw : h.getLsbD 0 = false)
      (hl : pre.length + 1 < 256) :
    ProtoOk ([h, BitVec.ofNat 8 (pre.length + 1)] ++ pre ++ [b])
      ([(protoAddr h false, false)] ++ pre.map (fun d => (protoWr false d, false)) ++
        [(protoWr true b, false)]) [(true, 0)]
  /-- Write, address not acknowledged: the data bytes are discarded. -/
  | writeNakAddr (h : BitVec 8) (data : List (BitVec 8)) (hw : h.getLsbD 0 = false)
      (hl : data.length < 256) :
    ProtoOk ([h, BitVec.ofNat 8 data.length] ++ data) [(protoAddr h data.isEmpty, true)] [(true, 1)]
  /-- Write, byte `b` not acknowledged: the bytes after it are discarded. -/
  | writeNak (h : BitVec 8) (pre : List (BitVec 8)) (b : BitVec 8) (post : List (BitVec 8))
      (hw : h.getLsbD 0 = false) (hl : pre.length + 1 + post.length < 256) :
    ProtoOk ([h, BitVec.ofNat 8 (pre.length + 1 + post.length)] ++ pre ++ [b] ++ post)
      ([(protoAddr h false, false)] ++ pre.map (fun d => (protoWr false d, false)) ++
        [(protoWr post.isEmpty b, true)]) [(true, 1)]
  /-- Read of `pre ++ [b]`. -/
  | read (h : BitVec 8) (pre : List (BitVec 8)) (b : BitVec 8) (hr : h.getLsbD 0 = true)
      (hl : pre.length + 1 < 256) :
    ProtoOk [h, BitVec.ofNat 8 (pre.length + 1)]
      ([(protoAddr h false, false)] ++ List.replicate pre.length (protoRd false, false) ++
        [(protoRd true, false)])
      ([(true, 0)] ++ pre.map (fun d => (false, d)) ++ [(true, b)])
  /-- Read, address not acknowledged. -/
  | readNak (h : BitVec 8) (len : Nat) (hr : h.getLsbD 0 = true) (hl : len < 256) :
    ProtoOk [h, BitVec.ofNat 8 len] [(protoAddr h (len == 0), true)] [(true, 1)]

/-- Several complete commands. -/
inductive ProtoSeq :
    List (BitVec 8) → List (Beat (Bool × BitVec 8) × Bool) → List (Bool × BitVec 8) → Prop
  | nil : ProtoSeq [] [] []
  | snoc {a b c a' b' c'} : ProtoSeq a b c → ProtoOk a' b' c' → ProtoSeq (a ++ a') (b ++ b') (c ++ c')

/-- Where the host is in the byte protocol. -/
inductive ProtoPhase
  /-- Between commands; the last command was a read of this many bytes, if any. -/
  | header (rd : Option Nat)
  | length (h : BitVec 8)
  | data (rem : Nat)
deriving DecidableEq, Repr

def protoPhaseStep (p : ProtoPhase) (b : BitVec 8) : ProtoPhase :=
  match p with
  | .header _ => .length b
  | .length h =>
    if h.getLsbD 0 then .header (some b.toNat)
    else if b.toNat = 0 then .header none else .data b.toNat
  | .data rem => if rem = 1 then .header none else .data (rem - 1)

/-- The protocol phase after the host has sent `bytes`. -/
def protoPhase (bytes : List (BitVec 8)) : ProtoPhase := bytes.foldl protoPhaseStep (.header none)

end Lambdalib
