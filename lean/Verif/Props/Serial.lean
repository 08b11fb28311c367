import Verif.Model.Serial
import Verif.Spec.SpiSlave

/-! C46: serial port wrappers. -/

namespace Lambdalib

section
variable (i : Nat → SerIn)

/-- Bytes taken from the UART receiver. -/
def serTaken (n : Nat) : List Nat :=
  transferred (fun k => (i k).rxRdy) (fun k => (serialStream.wave i k).rxAck) (fun k => (i k).rxData) n

/-- Bytes delivered on the source. -/
def serDelivered (n : Nat) : List Nat :=
  transferred (fun k => (serialStream.wave i k).valid) (fun k => (i k).ready) (fun k => (serialStream.wave i k).data) n

/-- Bytes accepted on the sink. -/
def serAccepted (n : Nat) : List Nat :=
  transferred (fun k => (i k).valid) (fun k => (serialStream.wave i k).ready) (fun k => (i k).data) n

/-- Bytes given to the UART transmitter. -/
def serGiven (n : Nat) : List Nat :=
  transferred (fun k => (serialStream.wave i k).txAck) (fun k => (i k).txRdy) (fun k => (serialStream.wave i k).txData) n

/-- C46: every byte taken from the receiver is delivered exactly once and in order. -/
theorem C46_receive (n : Nat) :
    serTaken i n = serDelivered i n ++
      (if (serialStream.wave i n).valid then [(serialStream.wave i n).data] else []) := by
  have step : ∀ (s : SerS) (x : SerIn) (T D : List Nat), T = D ++ (if s.valid then [s.data] else []) →
      T ++ (if x.rxRdy && (serialStream.out s x).rxAck then [x.rxData] else []) =
        D ++ (if (serialStream.out s x).valid && x.ready then [(serialStream.out s x).data] else []) ++
          (if (serialStream.next s x).valid then [(serialStream.next s x).data] else []) := by
    rintro ⟨v, d⟩ x T D rfl
    cases v <;> cases h1 : x.ready <;> cases h2 : x.rxRdy <;> simp [serialStream, h1, h2]
  have : serTaken i n = serDelivered i n ++
      (if (serialStream.st i n).valid then [(serialStream.st i n).data] else []) := by
    induction n with
    | zero => rfl
    | succ n ih => exact step _ _ _ _ ih
  exact this

/-- C46: a received byte on offer is held until it is taken. -/
theorem C46_stable : Stable (fun k => (serialStream.wave i k).valid) (fun k => (i k).ready)
    (fun k => (serialStream.wave i k).data) := by
  intro n
  simp only [Circuit.wave, Circuit.st_succ]
  generalize serialStream.st i n = s
  intro hv hr
  have hv : s.valid = true := hv
  simp [serialStream, hv, hr]

/-- C46: the receiver is acknowledged exactly when there is room for a byte. -/
theorem C46_ack (n : Nat) : (serialStream.wave i n).rxAck = true ↔
    (serialStream.wave i n).valid = false ∨ (i n).ready = true := by
  simp only [Circuit.wave]
  generalize serialStream.st i n = s
  simp [serialStream]

/-- C46: a byte taken in one cycle is on offer in the next. -/
theorem C46_latency (n : Nat) (h : (i n).rxRdy = true) (h2 : (serialStream.wave i n).rxAck = true) :
    (serialStream.wave i (n + 1)).valid = true ∧ (serialStream.wave i (n + 1)).data = (i n).rxData := by
  simp only [Circuit.wave, Circuit.st_succ] at *
  generalize serialStream.st i n = s at *
  have h2 : (!(s.valid && !(i n).ready)) = true := h2
  simp only [serialStream, h, h2]
  exact ⟨rfl, rfl⟩

/-- C46: transmitted bytes are handed over unchanged. -/
theorem C46_transmit (n : Nat) : serGiven i n = serAccepted i n := by
  induction n with
  | zero => rfl
  | succ n ih =>
    show serGiven i n ++ _ = serAccepted i n ++ _
    rw [ih]
    rfl

end

/-- C46: the transmit-only wrapper hands bytes over unchanged and connects the line. -/
theorem C46_tx (valid : Bool) (data : Nat) (rdy o : Bool) :
    let r := serialTx valid data rdy o
    (r.2.1 && rdy) = (valid && r.1) ∧ r.2.2.1 = data ∧ r.2.2.2 = o := ⟨rfl, rfl, rfl⟩

section
variable (divisor : Nat) (i : Nat → HdIn)

theorem hd_inv (n : Nat) :
    let s := (halfDuplex divisor).st i n
    s.timer ≤ divisor ∧
    (s.tx = true → ∃ k, k < n ∧ (i k).txRdy = false ∧ (∀ j, k < j → j < n → (i j).txRdy = true) ∧
      n + s.timer = k + divisor + 1) ∧
    (s.tx = false → ∀ k, k < n → (i k).txRdy = false → k + divisor + 1 < n) ∧
    (s.tx = false → s.timer = divisor ∨ (s.timer = 0 ∧ ∀ k, k < n → (i k).txRdy = false → k + divisor + 2 ≤ n)) := by
  induction n with
  | zero =>
    refine ⟨Nat.le_refl _, ?_, ?_, ?_⟩
    · intro h; cases h
    · intro _ k hk; omega
    · intro _; left; rfl
  | succ n ih =>
    obtain ⟨h1, h2, h3, h4⟩ := ih
    have hst := Circuit.st_succ (halfDuplex divisor) i n
    generalize (halfDuplex divisor).st i (n + 1) = s' at *
    generalize (halfDuplex divisor).st i n = s at *
    obtain ⟨p1, p2, tx, timer⟩ := s
    dsimp only at h1 h2 h3 h4
    have hx : ∀ k, k < n + 1 → k = n ∨ k < n := by omega
    cases tx
    · -- receiving
      have e : s' = ⟨(i n).pin, p1, !(i n).txRdy, divisor⟩ := by
        rw [hst]; simp [halfDuplex, waitTimer]
      subst e
      dsimp only
      refine ⟨Nat.le_refl _, ?_, ?_, fun _ => .inl rfl⟩
      · intro h
        exact ⟨n, by omega, by simpa using h, by omega, by omega⟩
      · intro h k hk hr
        rcases hx k hk with rfl | hk
        · rw [hr] at h; cases h
        · have := h3 rfl k hk hr; omega
    · obtain ⟨k, hk, hkr, hkall, hkt⟩ := h2 rfl
      cases hr : (i n).txRdy
      · have e : s' = ⟨(i n).pin, p1, true, divisor⟩ := by
          rw [hst]; simp [halfDuplex, waitTimer, hr]
        subst e
        dsimp only
        refine ⟨Nat.le_refl _, fun _ => ⟨n, by omega, hr, by omega, by omega⟩, ?_, ?_⟩
        · intro h; cases h
        · intro h; cases h
      · by_cases hz : timer = 0
        · subst hz
          have e : s' = ⟨(i n).pin, p1, false, 0⟩ := by
            rw [hst]; simp [halfDuplex, waitTimer, hr]
          subst e
          dsimp only
          have hall : ∀ q, q < n + 1 → (i q).txRdy = false → q + divisor + 2 ≤ n + 1 := by
            intro q hq hqr
            rcases hx q hq with rfl | hq
            · rw [hr] at hqr; cases hqr
            · rcases Nat.lt_or_ge k q with h | h
              · rw [hkall q h hq] at hqr; cases hqr
              · omega
          refine ⟨Nat.zero_le _, ?_, ?_, ?_⟩
          · intro h; cases h
          · intro _ q hq hqr; have := hall q hq hqr; omega
          · intro _; right; exact ⟨rfl, hall⟩
        · have ht : truncRange (divisor + 1) (timer - 1) = timer - 1 := truncRange_of_lt (by omega)
          have e : s' = ⟨(i n).pin, p1, true, timer - 1⟩ := by
            rw [hst]; simp [halfDuplex, waitTimer, hr, hz, ht]
          subst e
          dsimp only
          refine ⟨by omega, fun _ => ⟨k, by omega, hkr, ?_, by omega⟩, ?_, ?_⟩
          · intro j hj hjn
            rcases hx j hjn with rfl | hjn
            · exact hr
            · exact hkall j hj hjn
          · intro h; cases h
          · intro h; cases h

/-- C46: the line is driven exactly in the `divisor + 1` cycles after each cycle in which the transmitter is busy; so it
is driven while transmitting and released only after the stop time. -/
theorem C46_drive (n : Nat) : ((halfDuplex divisor).wave i n).oe = true ↔
    ∃ k, k < n ∧ n ≤ k + divisor + 1 ∧ (i k).txRdy = false := by
  obtain ⟨h1, h2, h3, _⟩ := hd_inv divisor i n
  simp only [Circuit.wave]
  generalize (halfDuplex divisor).st i n = s at *
  have ho : ((halfDuplex divisor).out s (i n)).oe = s.tx := by
    cases h : s.tx <;> simp [halfDuplex, h]
  rw [ho]
  constructor
  · intro h
    obtain ⟨k, a, b, _, c⟩ := h2 h
    exact ⟨k, a, by omega, b⟩
  · rintro ⟨k, a, b, c⟩
    cases h : s.tx
    · have := h3 h k a c; omega
    · rfl

theorem hd_sync (n : Nat) : ((halfDuplex divisor).st i n).p2 = sync2 true (fun k => (i k).pin) n ∧
    ((halfDuplex divisor).st i n).p1 = prevOf true (fun k => (i k).pin) n := by
  induction n with
  | zero => exact ⟨rfl, rfl⟩
  | succ n ih =>
    refine ⟨?_, rfl⟩
    show ((halfDuplex divisor).st i n).p1 = _
    rw [ih.2]; cases n <;> rfl

/-- C46: while driving, the transmitter's level is on the line and the receiver sees an idle line; otherwise the
receiver sees the line, two cycles late. -/
theorem C46_levels (n : Nat) :
    (((halfDuplex divisor).wave i n).oe = true →
      ((halfDuplex divisor).wave i n).o = (i n).txO ∧ ((halfDuplex divisor).wave i n).rxI = true) ∧
    (((halfDuplex divisor).wave i n).oe = false →
      ((halfDuplex divisor).wave i n).rxI = sync2 true (fun k => (i k).pin) n) := by
  have h := (hd_sync divisor i n).1
  simp only [Circuit.wave]
  generalize (halfDuplex divisor).st i n = s at *
  cases ht : s.tx <;> simp [halfDuplex, ht, h]

end

/-! ### Concrete runs -/

/-- Bytes arrive every third cycle, the source is ready every fourth. -/
def serDemo (n : Nat) : SerIn := ⟨true, n, n % 4 == 3, n % 5 == 0, n % 3 == 0, 100 + n⟩

example : serTaken serDemo 12 = [100, 103, 109] ∧ serDelivered serDemo 12 = [100, 103, 109] ∧
    serAccepted serDemo 12 = [0, 5, 10] := by decide

/-- The transmitter is busy in cycles 2 and 3, divisor 4: driven from cycle 3 to cycle 8. -/
example : (List.range 14).map (fun n => ((halfDuplex 4).wave (fun k => ⟨true, !(k == 2 || k == 3), false⟩) n).oe) =
    [false, false, false, true, true, true, true, true, true, false, false, false, false, false] := by decide

end Lambdalib
