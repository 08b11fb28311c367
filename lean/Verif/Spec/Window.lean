import Verif.Spec.Circuit

/-! Transfers in a window of cycles. -/
namespace Lambdalib

/-- Values that crossed an interface in the cycles `a, ..., a + m - 1`. -/
def xferWindow {β : Type} (valid ready : Nat → Bool) (beat : Nat → β) (a m : Nat) : List β :=
  transferred (fun k => valid (a + k)) (fun k => ready (a + k)) (fun k => beat (a + k)) m

theorem xferWindow_succ {β : Type} (v r : Nat → Bool) (b : Nat → β) (a m : Nat) :
    xferWindow v r b a (m + 1) = xferWindow v r b a m ++
      (if v (a + m) && r (a + m) then [b (a + m)] else []) := rfl

@[simp] theorem xferWindow_zero {β : Type} (v r : Nat → Bool) (b : Nat → β) (a : Nat) :
    xferWindow v r b a 0 = [] := rfl

end Lambdalib
