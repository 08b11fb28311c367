import Verif.Lemmas.I2c

/-! Properties of the I2C bus initiator. -/

namespace Lambdalib

section
variable (period : Nat) (stretch : Bool) (i : Nat → I2cIn)

/-- **C30.** Whenever the driven SDA changes while SCL is driven high before and after, the initiator is
executing a start command and SDA falls, or a stop command and SDA rises. -/
theorem C30_i2c_sda_changes (n : Nat) (h0 : i2cScl period stretch i n = true)
    (h1 : i2cScl period stretch i (n + 1) = true)
    (hc : i2cSda period stretch i n ≠ i2cSda period stretch i (n + 1)) :
    ∃ k, (i2cExecutes period stretch i k n .start ∧ i2cSda period stretch i n = true) ∨
      (i2cExecutes period stretch i k n .stop ∧ i2cSda period stretch i n = false) := by
  have hne : ¬ i2cIdleAt period stretch i n := by
    intro h
    apply hc
    unfold i2cIdleAt at h
    simp only [i2cSda, Circuit.wave, Circuit.st_succ]
    generalize (i2cInitiator period stretch).st i n = s at *
    simp only [i2cInitiator, i2cFsm, h, i2cIdle]
    (repeat' split) <;> rfl
  obtain ⟨k, c, hx, hk⟩ := i2c_executes period stretch i n hne
  have hinv := i2c_inv period stretch i n
  refine ⟨k, ?_⟩
  clear hne
  simp only [i2cSda, i2cScl, Circuit.wave, Circuit.st_succ] at *
  generalize (i2cInitiator period stretch).st i n = s at *
  obtain ⟨fsm, busy, timer, bitno, rSh, wSh, rAck, sclO, sdaO, ackO, dataO⟩ := s
  revert hc h0 h1
  cases fsm <;> simp only [i2cInv, i2cKind] at hk hinv <;>
    simp only [i2cInitiator, i2cFsm, i2cSclL, i2cSclH, i2cStbX, id] <;>
    (repeat' split) <;> intros <;> simp_all

/-- **C30.** SDA and SCL never change in the same cycle: SDA changes only while SCL is driven low, apart from the changes of
`C30_i2c_sda_changes`. -/
theorem C30_i2c_one_line (n : Nat) (hc : i2cSda period stretch i n ≠ i2cSda period stretch i (n + 1)) :
    i2cScl period stretch i n = i2cScl period stretch i (n + 1) := by
  simp only [i2cSda, i2cScl, Circuit.wave, Circuit.st_succ] at *
  generalize (i2cInitiator period stretch).st i n = s at *
  obtain ⟨fsm, busy, timer, bitno, rSh, wSh, rAck, sclO, sdaO, ackO, dataO⟩ := s
  revert hc
  cases fsm <;>
    simp only [i2cInitiator, i2cFsm, i2cSclL, i2cSclH, i2cStbX, i2cIdle, id] <;>
    (repeat' split) <;> intros <;> simp_all

/-- **C31.** A write command taken in cycle `k` and finished in cycle `k + m` puts on the bus exactly nine
SCL rising edges, with the byte, most significant bit first, and then a released SDA. `ack_o` is then the
inverse of SDA sampled while SCL was high in the ninth pulse. -/
theorem C31_i2c_write (k m : Nat) (d : BitVec 8)
    (ha : i2cAccepts period stretch i k (.write d)) (hm1 : 1 ≤ m)
    (hbusy : ∀ j, 1 ≤ j → j < m → ¬ i2cIdleAt period stretch i (k + j))
    (hdone : i2cIdleAt period stretch i (k + m)) :
    i2cRises period stretch i k m = msbBits d 8 ++ [true] ∧
    ∃ c, c < k + m ∧ i2cSample period stretch i k c 9 ∧ i2cSda period stretch i c = true ∧
      ((i2cInitiator period stretch).wave i (k + m)).ackO = !(i c).sdaI := by
  obtain ⟨hidle, hs⟩ := ha
  have hs' : (i k).start = false ∧ (i k).stop = false ∧ (i k).write = true ∧ (i k).dataI = d := by
    unfold i2cStrobe at hs
    revert hs
    cases (i k).start <;> cases (i k).stop <;> cases (i k).write <;> cases (i k).read <;> simp
  obtain ⟨e1, e2, e3, e4⟩ := hs'
  obtain ⟨m, rfl⟩ : ∃ m', m = m' + 1 := ⟨m - 1, by omega⟩
  have hm0 : 1 ≤ m := by
    rcases Nat.eq_zero_or_pos m with h | h
    · subst h
      have hk := i2cKind_idle period stretch _ (i k) hidle
      rw [hs] at hk
      simp only [i2cIdleAt] at hdone
      rw [show k + (0 + 1) = k + 1 from rfl, Circuit.st_succ] at hdone
      rw [hdone] at hk
      exact absurd hk id
    · exact h
  obtain ⟨h1, h2⟩ := w_trace period stretch i k hidle e1 e2 e3 m
    (fun j a b => hbusy j a (by omega)) hm0
  have hst := w_step period stretch _ _ _ (i (k + m)) (i2c_inv period stretch i (k + m)) h1
  simp only at hst
  rw [← i2cRises_succ] at hst
  simp only [i2cIdleAt] at hdone
  rw [show k + (m + 1) = k + m + 1 from rfl, Circuit.st_succ] at hdone
  rcases hst with hst | ⟨_, g2, g3, g4⟩
  · unfold wRel at hst
    rw [hdone] at hst
    exact absurd hst id
  · unfold wRel at h1
    rw [g2] at h1
    rw [g3, h1.2, e4]
    refine ⟨rfl, ?_⟩
    obtain ⟨c, hc1, hc2, hc3, hc4⟩ := h2 g2
    refine ⟨c, by omega, hc2, hc3, ?_⟩
    rw [← hc4]
    exact g4

/-- **C32.** A read command taken in cycle `k` and finished in cycle `k + m` puts on the bus exactly nine
SCL rising edges, with SDA released at the first eight and the requested acknowledge (low for ack) at the
ninth. `data_o` is then, most significant bit first, SDA sampled while SCL was high in each of the eight
pulses. -/
theorem C32_i2c_read (k m : Nat) (a : Bool)
    (ha : i2cAccepts period stretch i k (.read a)) (hm1 : 1 ≤ m)
    (hbusy : ∀ j, 1 ≤ j → j < m → ¬ i2cIdleAt period stretch i (k + j))
    (hdone : i2cIdleAt period stretch i (k + m)) :
    i2cRises period stretch i k m = List.replicate 8 true ++ [!a] ∧
    ∀ j, j < 8 → ∃ c, c < k + m ∧ i2cSample period stretch i k c (j + 1) ∧
      i2cSda period stretch i c = true ∧
      ((i2cInitiator period stretch).wave i (k + m)).dataO.getLsbD (7 - j) = (i c).sdaI := by
  obtain ⟨hidle, hs⟩ := ha
  have hs' : (i k).start = false ∧ (i k).stop = false ∧ (i k).write = false ∧ (i k).read = true ∧
      (i k).ackI = a := by
    unfold i2cStrobe at hs
    revert hs
    cases (i k).start <;> cases (i k).stop <;> cases (i k).write <;> cases (i k).read <;> simp
  obtain ⟨e1, e2, e3, e5, e4⟩ := hs'
  obtain ⟨m, rfl⟩ : ∃ m', m = m' + 1 := ⟨m - 1, by omega⟩
  have hm0 : 1 ≤ m := by
    rcases Nat.eq_zero_or_pos m with h | h
    · subst h
      have hk := i2cKind_idle period stretch _ (i k) hidle
      rw [hs] at hk
      simp only [i2cIdleAt] at hdone
      rw [show k + (0 + 1) = k + 1 from rfl, Circuit.st_succ] at hdone
      rw [hdone] at hk
      exact absurd hk id
    · exact h
  obtain ⟨C, h1, h2⟩ := r_trace period stretch i k hidle e1 e2 e3 e5 m
    (fun j a b => hbusy j a (by omega)) hm0
  have hst := r_step period stretch _ _ _ _ (i (k + m)) (i2c_inv period stretch i (k + m)) h1
  simp only at hst
  rw [← i2cRises_succ] at hst
  simp only [i2cIdleAt] at hdone
  rw [show k + (m + 1) = k + m + 1 from rfl, Circuit.st_succ] at hdone
  rcases hst with hst | ⟨_, _, _, _, hst⟩ | ⟨_, g2, g3, g4⟩
  · unfold rRel at hst
    rw [hdone] at hst
    exact absurd hst.2.2 id
  · unfold rRel at hst
    rw [hdone] at hst
    exact absurd hst.2.2 id
  · unfold rRel at h1
    rw [g2] at h1
    obtain ⟨r1, r2, r3, r4, r5⟩ := h1
    rw [g3, r5, e4]
    refine ⟨rfl, ?_⟩
    intro j hj
    rw [List.length_map] at r3
    have hjC : j < C.length := by omega
    obtain ⟨c1, c2, c3⟩ := h2 j hjC
    refine ⟨C[j], by omega, c2, c3, ?_⟩
    have := r2 j (by simpa using hjC)
    rw [List.getElem_map] at this
    rw [← this, List.length_map, r3]
    change ((i2cInitiator period stretch).next ((i2cInitiator period stretch).st i (k + m))
      (i (k + m))).dataO.getLsbD (7 - j) = _
    rw [g4, r4]

/-- **C69.** Each finished command signals the right bus conditions: one start condition for a start, one
stop condition for a stop, none for a write or a read. For a start, SCL must be seen high when the command
is taken, and a low driven SDA must be seen low; for a stop, SCL must be seen high. -/
theorem C69_i2c_conditions (k m : Nat) (c : I2cCmd) (ha : i2cAccepts period stretch i k c)
    (h1 : c = .start → (i k).sclI = true ∧
      ((i k).sdaI = true → i2cSda period stretch i k = true))
    (h2 : c = .stop → (i k).sclI = true) (hm1 : 1 ≤ m)
    (hbusy : ∀ j, 1 ≤ j → j < m → ¬ i2cIdleAt period stretch i (k + j))
    (hdone : i2cIdleAt period stretch i (k + m)) :
    i2cConds period stretch i k m =
      (match c with | .start => [false] | .stop => [true] | .write _ => [] | .read _ => []) := by
  obtain ⟨m, rfl⟩ : ∃ m', m = m' + 1 := ⟨m - 1, by omega⟩
  have hm0 : 1 ≤ m := by
    rcases Nat.eq_zero_or_pos m with h | h
    · subst h
      have hk := i2cKind_idle period stretch _ (i k) ha.1
      rw [ha.2] at hk
      simp only [i2cIdleAt] at hdone
      rw [show k + (0 + 1) = k + 1 from rfl, Circuit.st_succ] at hdone
      rw [hdone] at hk
      exact absurd hk id
    · exact h
  obtain ⟨g1, g2⟩ := c_trace period stretch i k c ha h1 h2 m
    (fun j a b => hbusy j a (by omega)) hm0
  have hst := c_step period stretch c _ _ (i (k + m)) (i2c_inv period stretch i (k + m)) g2 g1
  simp only at hst
  rw [← i2cConds_succ] at hst
  simp only [i2cIdleAt] at hdone
  rw [show k + (m + 1) = k + m + 1 from rfl, Circuit.st_succ] at hdone
  rcases hst with hst | ⟨_, hst⟩
  · unfold cRel at hst
    rw [hdone] at hst
    exact absurd hst.2 id
  · rw [hst]
    cases c <;> rfl

/-- **C33 (partial).** While a command is executed, strobes and their data have no effect: two input
sequences which agree on the bus levels, and on the strobes in the cycles in which the initiator waits for
a command, give the same execution. Full claim: strobes in cycles with `busy` high have no effect.
Missing: in its first waiting cycle after a command `busy` is still high and a strobe is taken, see
`C33_i2c_busy_strobe_taken`. -/
theorem C33_i2c_ignores_partial (i' : Nat → I2cIn)
    (hbus : ∀ n, (i' n).sclI = (i n).sclI ∧ (i' n).sdaI = (i n).sdaI)
    (hidle : ∀ n, i2cIdleAt period stretch i n → i' n = i n) (n : Nat) :
    (i2cInitiator period stretch).wave i' n = (i2cInitiator period stretch).wave i n := by
  have key : ∀ n, (i2cInitiator period stretch).st i' n = (i2cInitiator period stretch).st i n := by
    intro n
    induction n with
    | zero => rfl
    | succ n ih =>
      rw [Circuit.st_succ, Circuit.st_succ, ih]
      by_cases h : i2cIdleAt period stretch i n
      · rw [hidle n h]
      · unfold i2cIdleAt at h
        obtain ⟨b1, b2⟩ := hbus n
        clear hidle ih
        generalize (i2cInitiator period stretch).st i n = s at *
        obtain ⟨fsm, busy, timer, bitno, rSh, wSh, rAck, sclO, sdaO, ackO, dataO⟩ := s
        cases fsm <;>
          simp only [i2cInitiator, i2cFsm, i2cSclL, i2cSclH, i2cStbX, i2cTimer, b1, b2]
        exact absurd rfl h
  simp only [Circuit.wave, key n]
  rfl

/-- **C33 (partial).** `busy` low means that the initiator waits for a command, so a strobe is executed; and
outside the waiting state `busy` is high. -/
theorem C33_i2c_busy_low_partial (n : Nat) (c : I2cCmd)
    (hb : ((i2cInitiator period stretch).wave i n).busy = false)
    (hs : i2cStrobe (i n) = some c) :
    i2cExecutes period stretch i n (n + 1) c ∧
      ((i2cInitiator period stretch).wave i (n + 1)).busy = true := by
  have hid : i2cIdleAt period stretch i n := by
    apply Classical.byContradiction
    intro h
    have := i2cBusy_inv period stretch i n h
    simp only [Circuit.wave] at hb
    change ((i2cInitiator period stretch).st i n).busy = false at hb
    rw [hb] at this
    cases this
  have hk := i2cKind_idle period stretch _ (i n) hid
  rw [hs] at hk
  have hne : ¬ i2cIdleAt period stretch i (n + 1) := by
    intro h
    change i2cKind ((i2cInitiator period stretch).st i (n + 1)).fsm c at hk
    unfold i2cIdleAt at h
    rw [h] at hk
    exact hk
  refine ⟨⟨⟨hid, hs⟩, by omega, ?_⟩, i2cBusy_inv period stretch i _ hne⟩
  intro j h1 h2
  have : j = n + 1 := by omega
  rw [this]; exact hne

/-- **C68 (partial).** With a period of at least four cycles, every command finishes if the bus clock
follows the driven clock infinitely often. Full claim: for every period. Missing: periods below four
cycles hang, see `C68_i2c_short_period_hangs`. -/
theorem C68_i2c_terminates_partial (hp : 4 ≤ period)
    (hinf : ∀ n, ∃ m, n ≤ m ∧ i2cClockFollows period stretch i m) (k : Nat) :
    ∃ m, k ≤ m ∧ i2cIdleAt period stretch i m :=
  i2c_progress period stretch i (period / 4) (i2c_quarter period hp) (by omega) k _ hinf
    (Nat.le_refl _)

/-- **C68 (partial).** Without clock stretching a command finishes within `36 * (period / 4 + 4) + period / 4 + 3`
cycles. -/
theorem C68_i2c_bound_partial (hp : 4 ≤ period)
    (hg : ∀ n, i2cClockFollows period stretch i n) (k : Nat) :
    ∃ m, k ≤ m ∧ m ≤ k + (36 * (period / 4 + 4) + (period / 4 + 3)) ∧
      i2cIdleAt period stretch i m :=
  i2c_progress_bound period stretch i (period / 4) (i2c_quarter period hp) (by omega) k _ hg
    (i2cMeasure_bound _ (by omega) _
      (i2cTimer_inv period stretch i (period / 4) (i2c_quarter period hp) k))

/-- **C68, negation.** With a period below four cycles a write command never finishes. -/
theorem C68_i2c_short_period_hangs (hp : period < 4) (k : Nat) (d : BitVec 8)
    (ha : i2cAccepts period stretch i k (.write d)) (m : Nat) :
    ¬ i2cIdleAt period stretch i (k + 1 + m) := by
  have ht : ∀ n, ((i2cInitiator period stretch).st i n).timer = 0 := by
    intro n
    have := i2cTimer_inv period stretch i 0 (by
      rw [show period / 4 = 0 by omega]
      simp [truncRange]) n
    omega
  obtain ⟨hid, hs⟩ := ha
  have key : ((i2cInitiator period stretch).st i (k + 1 + m)).fsm = .wDataSclL ∨
      ((i2cInitiator period stretch).st i (k + 1 + m)).fsm = .wDataSdaX ∨
      ((i2cInitiator period stretch).st i (k + 1 + m)).fsm = .wDataSclH := by
    induction m with
    | zero =>
      left
      rw [Nat.add_zero, Circuit.st_succ]
      unfold i2cIdleAt at hid
      generalize (i2cInitiator period stretch).st i k = s at *
      unfold i2cStrobe at hs
      simp only [i2cInitiator, i2cFsm, hid, i2cIdle]
      revert hs
      cases (i k).start <;> cases (i k).stop <;> cases (i k).write <;> cases (i k).read <;> simp
    | succ m ih =>
      have h0 := ht (k + 1 + m)
      rw [show k + 1 + (m + 1) = k + 1 + m + 1 from rfl, Circuit.st_succ]
      generalize (i2cInitiator period stretch).st i (k + 1 + m) = s at *
      rcases ih with h | h | h <;>
        simp [i2cInitiator, i2cFsm, h, i2cSclL, i2cSclH, i2cStbX, h0]
  unfold i2cIdleAt
  rcases key with h | h | h <;> rw [h] <;> simp

end

/-! ### Concrete cases -/

/-- No strobe, bus released. -/
def i2cQuiet : I2cIn := ⟨false, false, false, false, 0, false, true, true⟩

/-- Start in cycle 1, then a write of `0xA5` when the core is ready, acknowledged by a device holding SDA
low. -/
def i2cDemo (n : Nat) : I2cIn :=
  if n = 1 then { i2cQuiet with start := true }
  else if n = 10 then { i2cQuiet with write := true, dataI := 0xA5 }
  else { i2cQuiet with sdaI := false }

example : i2cAccepts 8 true i2cDemo 10 (.write 0xA5) := by
  unfold i2cAccepts i2cIdleAt
  decide +kernel

example : i2cRises 4 false (fun n => if n = 10 then { i2cQuiet with write := true, dataI := 0xA5 }
      else { i2cQuiet with sdaI := false }) 10 110
    = [true, false, true, false, false, true, false, true, true] := by decide +kernel

example : i2cConds 8 true i2cDemo 1 9 = [false] := by decide +kernel

example : ∀ n, i2cClockFollows 4 false i2cDemo n := fun _ h => by cases h

/-- **C33, negation.** In cycle 0 `busy` is high, and a start strobe in that cycle is executed: it pulls SDA
low, which does not happen without the strobe. -/
theorem C33_i2c_busy_strobe_taken :
    ∃ i i' : Nat → I2cIn, (∀ n, n ≠ 0 → i' n = i n) ∧ (i' 0).sclI = (i 0).sclI ∧
      (i' 0).sdaI = (i 0).sdaI ∧ ((i2cInitiator 8 true).wave i 0).busy = true ∧
      i2cSda 8 true i 9 = true ∧ i2cSda 8 true i' 9 = false :=
  ⟨fun _ => i2cQuiet, fun n => if n = 0 then { i2cQuiet with start := true } else i2cQuiet,
    fun n hn => by simp [hn], rfl, rfl, rfl, by decide +kernel, by decide +kernel⟩

end Lambdalib
