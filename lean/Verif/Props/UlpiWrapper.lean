import Verif.Model.UlpiWrapper
import Verif.Spec.UlpiPhy

/-! C84: receiving through the UTMI to ULPI translator. -/

namespace Lambdalib

section
variable (x : Nat → UwIn)

/-- What the PHY told the translator. -/
def uwTold (n : Nat) : List PhyRx := phyTold (fun k => (x k).dir) (fun k => (x k).nxt) (fun k => (x k).data) n

/-- Bytes given to the UTMI side in the first `n` cycles. -/
def uwReceived (n : Nat) : List Nat :=
  (List.range n).filterMap fun k =>
    if (ulpiWrapper.wave x k).rxValid then some (ulpiWrapper.wave x k).rxData else none

theorem uw_dirQ (n : Nat) : (ulpiWrapper.st x n).dirQ = match n with | 0 => false | k + 1 => (x k).dir := by
  cases n <;> rfl

theorem uwTold_succ (n : Nat) :
    uwTold x (n + 1) = phyRx (ulpiWrapper.st x n).dirQ (x n).dir (x n).nxt (x n).data :: uwTold x n := by
  rw [uw_dirQ]; rfl

/-- One cycle of the receiver. -/
theorem uw_rx_step (s : UwS) (y : UwIn) :
    (ulpiWrapper.next s y).core.rxActive = (match phyRx s.dirQ y.dir y.nxt y.data with
      | .start => true
      | .release => false
      | .cmd v => if RxCmd.event v = 2 then s.core.rxActive else decide (RxCmd.event v ≠ 0)
      | _ => s.core.rxActive) ∧
    (ulpiWrapper.next s y).core.rxError = (match phyRx s.dirQ y.dir y.nxt y.data with
      | .cmd v => if RxCmd.event v = 2 then s.core.rxError else decide (RxCmd.event v = 3)
      | _ => s.core.rxError) ∧
    (ulpiWrapper.next s y).core.lineState = (match phyRx s.dirQ y.dir y.nxt y.data with
      | .cmd v => v % 4
      | _ => s.core.lineState) ∧
    (ulpiWrapper.next s y).core.rxValid = (match phyRx s.dirQ y.dir y.nxt y.data with
      | .byte _ => true
      | _ => false) ∧
    (∀ b, phyRx s.dirQ y.dir y.nxt y.data = .byte b → (ulpiWrapper.next s y).core.rxData = b) := by
  obtain ⟨mode, otg, dirQ, delay, buf, core⟩ := s
  obtain ⟨data, dir, nxt, txData, txValid, op, xcvr, term, dp, dm⟩ := y
  have hev : RxCmd.event data < 4 := Nat.mod_lt _ (by omega)
  unfold RxCmd.event at *
  simp only [ulpiWrapper, uwCoreNext, uwTurn]
  cases dirQ <;> cases dir <;> cases nxt
  case true.true.false =>
    simp only [phyRx, Bool.xor_false, Bool.xor_true, Bool.false_and, Bool.and_false, Bool.not_false, Bool.not_true,
      Bool.true_and, Bool.and_true, Bool.false_eq_true, if_false, if_true]
    have h4 : data / 16 % 4 = 0 ∨ data / 16 % 4 = 1 ∨ data / 16 % 4 = 2 ∨ data / 16 % 4 = 3 := by omega
    rcases h4 with h | h | h | h <;> simp [h]
  all_goals
    simp only [phyRx, Bool.xor_false, Bool.xor_true, Bool.false_and, Bool.and_false,
      Bool.not_false, Bool.not_true, Bool.true_and, Bool.and_true, Bool.false_eq_true, if_false, if_true]
    refine ⟨?_, ?_, ?_, ?_, ?_⟩
    all_goals (repeat' split) <;> simp

/-- C84: the receiver signals of UTMI show, one cycle later, what the PHY told: packet activity, error and line state. -/
theorem C84_status (n : Nat) :
    (ulpiWrapper.wave x n).rxActive = packetActive (uwTold x n) ∧
    (ulpiWrapper.wave x n).rxError = packetError (uwTold x n) ∧
    (ulpiWrapper.wave x n).lineState = lineStateTold (uwTold x n) := by
  change (ulpiWrapper.st x n).core.rxActive = _ ∧ (ulpiWrapper.st x n).core.rxError = _ ∧
    (ulpiWrapper.st x n).core.lineState = _
  induction n with
  | zero => exact ⟨rfl, rfl, rfl⟩
  | succ n ih =>
    obtain ⟨h1, h2, h3, -, -⟩ := uw_rx_step (ulpiWrapper.st x n) (x n)
    obtain ⟨i1, i2, i3⟩ := ih
    rw [Circuit.st_succ, h1, h2, h3, uwTold_succ, i1, i2, i3]
    generalize phyRx (ulpiWrapper.st x n).dirQ (x n).dir (x n).nxt (x n).data = e
    cases e with
    | cmd v =>
      simp only [packetActive, packetError, lineStateTold, List.findSome?_cons]
      by_cases hv : RxCmd.event v = 2
      · simp [hv]
      · simp [hv]
    | _ => simp [packetActive, packetError, lineStateTold, List.findSome?_cons]

/-- C84: the bytes given to the UTMI side are exactly those the PHY sent, in order, each one cycle later. -/
theorem C84_bytes (n : Nat) :
    uwReceived x (n + 1) = (uwTold x n).reverse.filterMap (fun e => match e with | .byte b => some b | _ => none) ∧
    ((ulpiWrapper.wave x (n + 1)).rxValid = true ↔ ∃ b, (uwTold x (n + 1)).head? = some (.byte b)) := by
  have hstep : ∀ n, (if (ulpiWrapper.wave x (n + 1)).rxValid then some (ulpiWrapper.wave x (n + 1)).rxData else none) =
      (match phyRx (ulpiWrapper.st x n).dirQ (x n).dir (x n).nxt (x n).data with | .byte b => some b | _ => none) := by
    intro n
    obtain ⟨-, -, -, h4, h5⟩ := uw_rx_step (ulpiWrapper.st x n) (x n)
    change (if (ulpiWrapper.st x (n + 1)).core.rxValid then some (ulpiWrapper.st x (n + 1)).core.rxData else none) = _
    rw [Circuit.st_succ, h4]
    generalize phyRx (ulpiWrapper.st x n).dirQ (x n).dir (x n).nxt (x n).data = e at *
    cases e with
    | byte b => simp [h5 b rfl]
    | _ => simp
  constructor
  · induction n with
    | zero => rfl
    | succ n ih =>
      have : uwReceived x (n + 1 + 1) = uwReceived x (n + 1) ++
          ((if (ulpiWrapper.wave x (n + 1)).rxValid then some (ulpiWrapper.wave x (n + 1)).rxData else none).toList) := by
        simp only [uwReceived]
        rw [List.range_succ, List.filterMap_append]
        congr 1
      rw [this, ih, hstep n, uwTold_succ, List.reverse_cons, List.filterMap_append]
      congr 1
  · obtain ⟨-, -, -, h4, -⟩ := uw_rx_step (ulpiWrapper.st x n) (x n)
    change (ulpiWrapper.st x (n + 1)).core.rxValid = true ↔ _
    rw [Circuit.st_succ, h4, uwTold_succ]
    generalize phyRx (ulpiWrapper.st x n).dirQ (x n).dir (x n).nxt (x n).data = e
    cases e <;> simp

/-- C84: if the PHY sends bytes only while it tells that a packet is active, `rx_active` is high with each byte. -/
theorem C84_within_packet
    (h : ∀ n b, (uwTold x (n + 1)).head? = some (.byte b) → packetActive (uwTold x n) = true) (n : Nat)
    (hv : (ulpiWrapper.wave x n).rxValid = true) : (ulpiWrapper.wave x n).rxActive = true := by
  cases n with
  | zero => exact absurd hv (by simp [Circuit.wave, Circuit.st, ulpiWrapper])
  | succ n =>
    obtain ⟨b, hb⟩ := (C84_bytes x n).2.mp hv
    rw [(C84_status x (n + 1)).1, ← h n b hb]
    rw [uwTold_succ] at hb ⊢
    simp only [List.head?_cons, Option.some.injEq] at hb
    rw [hb]
    simp [packetActive, List.findSome?_cons]

end

/-- A packet of three bytes with an RX CMD inside, after an RX CMD. -/
def uwRxDemo (n : Nat) : UwIn :=
  { data := [0, 0, 0x01, 0, 0x11, 0xa5, 0x11, 0x5a, 0x33, 0x02][n]?.getD 0
    dir := decide (n = 1 ∨ n = 2 ∨ (4 ≤ n ∧ n < 10)), nxt := decide (n = 4 ∨ n = 5 ∨ n = 7 ∨ n = 8)
    txData := 0, txValid := false, op := 3, xcvr := 0, term := false, dp := true, dm := true }

example : uwReceived uwRxDemo 14 = [0xa5, 0x5a, 0x33] ∧ lineStateTold (uwTold uwRxDemo 14) = 2 ∧
    packetActive (uwTold uwRxDemo 8) = true ∧ packetActive (uwTold uwRxDemo 10) = false := by decide +kernel

end Lambdalib
