import Verif.Spec.Circuit
import Verif.Spec.Arbiter

/-! Several senders of packets on one stream. -/

namespace Lambdalib

variable {α : Type}

/-- A whole packet: `last` is on its final beat only. -/
def WholePacket (p : List (Beat α)) : Prop := ∃ a b, p = a ++ [b] ∧ b.last = true ∧ ∀ x ∈ a, x.last = false

/-- Beats of several senders, in packets one after the other: whole packets `ps`, each of one sender, and the beginning `part` of a
packet of sender `u`. -/
structure Packets (l : List (Nat × Beat α)) (ps : List (Nat × List (Beat α))) (u : Nat) (part : List (Beat α)) : Prop where
  eq : l = ps.flatMap (fun p => p.2.map (Prod.mk p.1)) ++ part.map (Prod.mk u)
  whole : ∀ p ∈ ps, WholePacket p.2
  open_ : ∀ x ∈ part, x.last = false

/-- The beats of one sender. -/
def beatsOf (u : Nat) (l : List (Nat × Beat α)) : List (Beat α) := (l.filter (·.1 = u)).map Prod.snd

end Lambdalib
