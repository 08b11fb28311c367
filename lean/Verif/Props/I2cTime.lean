import Verif.Lemmas.I2cTime

/-! C106: the I2C clock is not faster than asked for. -/

namespace Lambdalib

section
variable (period : Nat) (stretch : Bool) (i : Nat → I2cIn)

/-- One of the two driven lines changes from cycle `n` to the next. -/
def i2cLineChanges (n : Nat) : Prop :=
  i2cScl period stretch i (n + 1) ≠ i2cScl period stretch i n ∨ i2cSda period stretch i (n + 1) ≠ i2cSda period stretch i n

/-- The driven clock line rises from cycle `n` to the next. -/
def i2cClockRises (n : Nat) : Prop := i2cScl period stretch i n = false ∧ i2cScl period stretch i (n + 1) = true

/-- The driven clock line falls from cycle `n` to the next. -/
def i2cClockFalls (n : Nat) : Prop := i2cScl period stretch i n = true ∧ i2cScl period stretch i (n + 1) = false

theorem i2c_timer_inv (n : Nat) : ((i2cInitiator period stretch).st i n).timer ≤ period / 4 :=
  i2cTimer_inv period stretch i _ (i2c_quarter' period) n

theorem line_change_strobe (n : Nat) (h : i2cLineChanges period stretch i n) : ((i2cInitiator period stretch).st i n).timer = 0 := by
  refine Decidable.byContradiction fun h0 => ?_
  have := i2c_quiet period stretch _ (i n) h0
  rw [← Circuit.st_succ] at this
  rcases h with h | h
  · exact h this.1
  · exact h this.2

theorem rise_changes {n : Nat} (h : i2cClockRises period stretch i n) : i2cLineChanges period stretch i n := by
  left; rw [h.1, h.2]; decide

theorem fall_changes {n : Nat} (h : i2cClockFalls period stretch i n) : i2cLineChanges period stretch i n := by
  left; rw [h.1, h.2]; decide

/-- **C106.** Between two changes of the driven lines there is at least a quarter of a clock period. -/
theorem C106_quarter (n m : Nat) (hn : i2cLineChanges period stretch i n) (hm : i2cLineChanges period stretch i m) (hlt : n < m) :
    n + (period / 4 + 1) ≤ m := by
  have h1 := line_change_strobe period stretch i n hn
  have h2 := line_change_strobe period stretch i m hm
  have h3 := (i2cTimer_slow period stretch _ (i n) (i2c_timer_inv period stretch i n)).2 h1
  rw [← Circuit.st_succ] at h3
  have h4 := decrease_slow (fun n => ((i2cInitiator period stretch).st i n).timer)
    (fun n => (i2cTimer_slow period stretch _ (i n) (i2c_timer_inv period stretch i n)).1) (n + 1) (m - (n + 1))
  rw [show n + 1 + (m - (n + 1)) = m by omega] at h4
  omega

theorem rise_potential (n d : Nat) :
    i2cToRise ((i2cInitiator period stretch).st i n) * (period / 4 + 1) + ((i2cInitiator period stretch).st i n).timer ≤
    i2cToRise ((i2cInitiator period stretch).st i (n + d)) * (period / 4 + 1) +
      ((i2cInitiator period stretch).st i (n + d)).timer + d :=
  decrease_slow (fun n => i2cToRise ((i2cInitiator period stretch).st i n) * (period / 4 + 1) +
      ((i2cInitiator period stretch).st i n).timer)
    (fun n => i2c_rise_step period stretch _ (i n) (i2c_inv period stretch i n) (i2c_timer_inv period stretch i n)) n d

theorem fall_potential (n d : Nat) :
    i2cToFall ((i2cInitiator period stretch).st i n) * (period / 4 + 1) + ((i2cInitiator period stretch).st i n).timer ≤
    i2cToFall ((i2cInitiator period stretch).st i (n + d)) * (period / 4 + 1) +
      ((i2cInitiator period stretch).st i (n + d)).timer + d :=
  decrease_slow (fun n => i2cToFall ((i2cInitiator period stretch).st i n) * (period / 4 + 1) +
      ((i2cInitiator period stretch).st i n).timer)
    (fun n => i2c_fall_step period stretch _ (i n) (i2c_inv period stretch i n) (i2c_timer_inv period stretch i n)) n d

theorem rise_facts (n : Nat) (h : i2cClockRises period stretch i n) :
    ((i2cInitiator period stretch).st i n).timer = 0 ∧ i2cToRise ((i2cInitiator period stretch).st i n) = 1 ∧
    ((i2cInitiator period stretch).st i (n + 1)).timer = period / 4 ∧
    i2cToRise ((i2cInitiator period stretch).st i (n + 1)) = 4 ∧ i2cToFall ((i2cInitiator period stretch).st i (n + 1)) = 2 := by
  have h1 := line_change_strobe period stretch i n (rise_changes period stretch i h)
  obtain ⟨_, _, _, k, _⟩ := i2c_strobe period stretch _ (i n) (i2c_inv period stretch i n) h1
  obtain ⟨k1, k2, k3⟩ := k h.1 h.2
  exact ⟨h1, k1, (i2cTimer_slow period stretch _ (i n) (i2c_timer_inv period stretch i n)).2 h1, k2, k3⟩

theorem fall_facts (n : Nat) (h : i2cClockFalls period stretch i n) :
    ((i2cInitiator period stretch).st i n).timer = 0 ∧ i2cToFall ((i2cInitiator period stretch).st i n) = 1 ∧
    ((i2cInitiator period stretch).st i (n + 1)).timer = period / 4 ∧
    i2cToFall ((i2cInitiator period stretch).st i (n + 1)) = 4 ∧ i2cToRise ((i2cInitiator period stretch).st i (n + 1)) = 2 := by
  have h1 := line_change_strobe period stretch i n (fall_changes period stretch i h)
  obtain ⟨_, _, _, _, k⟩ := i2c_strobe period stretch _ (i n) (i2c_inv period stretch i n) h1
  obtain ⟨k1, k2, k3⟩ := k h.1 h.2
  exact ⟨h1, k1, (i2cTimer_slow period stretch _ (i n) (i2c_timer_inv period stretch i n)).2 h1, k2, k3⟩

/-- **C106.** From one rising edge of the clock to another at least four quarters pass, that is more than the period asked for. -/
theorem C106_clock_period (n m : Nat) (hn : i2cClockRises period stretch i n) (hm : i2cClockRises period stretch i m)
    (hlt : n < m) : n + 4 * (period / 4 + 1) ≤ m ∧ n + period < m := by
  obtain ⟨_, _, k1, k2, _⟩ := rise_facts period stretch i n hn
  obtain ⟨g1, g2, _⟩ := rise_facts period stretch i m hm
  have h := rise_potential period stretch i (n + 1) (m - (n + 1))
  rw [show n + 1 + (m - (n + 1)) = m by omega, k1, k2, g1, g2] at h
  omega

/-- **C106.** With the period that `I2CProto` and `I2CRegisterInit` compute (proto.py 67, init.py 47) the bus clock is slower than the
frequency asked for: the time `m - n` between rising edges is longer than `sys / freq` cycles, without rounding. -/
theorem C106_frequency (sys freq : Nat) (hf : 0 < freq) (hp : period = sys / freq) (n m : Nat)
    (hn : i2cClockRises period stretch i n) (hm : i2cClockRises period stretch i m) (hlt : n < m) : sys < (m - n) * freq := by
  have h := (C106_clock_period period stretch i n m hn hm hlt).2
  rw [hp] at h
  exact (Nat.div_lt_iff_lt_mul hf).1 (by omega)

/-- **C106.** The clock stays high for at least half a period. -/
theorem C106_clock_high (n m : Nat) (hn : i2cClockRises period stretch i n) (hm : i2cClockFalls period stretch i m)
    (hlt : n < m) : n + 2 * (period / 4 + 1) ≤ m ∧ 2 * n + period < 2 * m := by
  obtain ⟨_, _, k1, _, k2⟩ := rise_facts period stretch i n hn
  obtain ⟨g1, g2, _⟩ := fall_facts period stretch i m hm
  have h := fall_potential period stretch i (n + 1) (m - (n + 1))
  rw [show n + 1 + (m - (n + 1)) = m by omega, k1, k2, g1, g2] at h
  omega

/-- **C106.** The clock stays low for at least half a period. -/
theorem C106_clock_low (n m : Nat) (hn : i2cClockFalls period stretch i n) (hm : i2cClockRises period stretch i m)
    (hlt : n < m) : n + 2 * (period / 4 + 1) ≤ m ∧ 2 * n + period < 2 * m := by
  obtain ⟨_, _, k1, _, k2⟩ := fall_facts period stretch i n hn
  obtain ⟨g1, g2, _⟩ := rise_facts period stretch i m hm
  have h := rise_potential period stretch i (n + 1) (m - (n + 1))
  rw [show n + 1 + (m - (n + 1)) = m by omega, k1, k2, g1, g2] at h
  omega

/-- **C106.** A byte command that is taken while `busy` is low keeps `busy` high for at least 36 quarters, that is for more than nine
periods. -/
theorem C106_byte_time (k m : Nat) (hb : ((i2cInitiator period stretch).wave i k).busy = false)
    (hs : (i k).start = false) (hp : (i k).stop = false) (hw : (i k).write = true ∨ (i k).read = true) (hk : k < m)
    (hm : m ≤ k + 36 * (period / 4 + 1)) : ((i2cInitiator period stretch).wave i m).busy = true := by
  have hq := i2c_quarter' period
  have hidle : ((i2cInitiator period stretch).st i k).fsm = .idle := by
    refine Decidable.byContradiction fun h => ?_
    have := i2cBusy_inv period stretch i k h
    rw [Circuit.wave] at hb
    rw [show ((i2cInitiator period stretch).st i k).busy = false from hb] at this
    cases this
  have key : ∀ j, j < 36 * (period / 4 + 1) → ((i2cInitiator period stretch).st i (k + 1 + j)).fsm ≠ .idle ∧
      36 * (period / 4 + 1) + period / 4 ≤ i2cStrobes ((i2cInitiator period stretch).st i (k + 1 + j)) * (period / 4 + 1) +
        ((i2cInitiator period stretch).st i (k + 1 + j)).timer + j := by
    intro j
    induction j with
    | zero =>
      intro _
      have hinv := i2c_inv period stretch i k
      simp only [Circuit.wave, Nat.add_zero, Circuit.st_succ] at *
      generalize (i2cInitiator period stretch).st i k = s at *
      obtain ⟨fsm, busy, timer, bitno, rSh, wSh, rAck, sclO, sdaO, ackO, dataO⟩ := s
      simp only at hidle
      subst hidle
      simp only [i2cInv] at hinv
      obtain ⟨hi1, rfl⟩ := hinv
      simp only [i2cInitiator] at hb
      subst hb
      rcases hw with hw | hw
      · simp [i2cInitiator, i2cFsm, i2cIdle, hs, hp, hw, i2cStrobes, i2cRank, i2cIsSclH, i2cTimer, hq]
      · cases hw' : (i k).write <;>
          simp [i2cInitiator, i2cFsm, i2cIdle, hs, hp, hw, hw', i2cStrobes, i2cRank, i2cIsSclH, i2cTimer, hq]
    | succ j ih =>
      intro hj
      obtain ⟨h1, h2⟩ := ih (by omega)
      have h3 := i2c_end_step period stretch _ (i (k + 1 + j)) (i2c_inv period stretch i _) (i2c_timer_inv period stretch i _) h1
      rw [← Circuit.st_succ] at h3
      have h4 := i2c_timer_inv period stretch i (k + 1 + j + 1)
      rw [show k + 1 + (j + 1) = k + 1 + j + 1 from rfl]
      refine ⟨fun h => ?_, by omega⟩
      have h5 : i2cStrobes ((i2cInitiator period stretch).st i (k + 1 + j + 1)) = 0 := by
        simp [i2cStrobes, i2cRank, h]
      rw [h5] at h3
      omega
  have := i2cBusy_inv period stretch i m (by
    have := (key (m - (k + 1)) (by omega)).1
    rwa [show k + 1 + (m - (k + 1)) = m by omega] at this)
  exact this

/-- A write of `0x55` at a quarter of two cycles, taken at cycle 2: the clock rises after cycles 8 and 16, and the command is over at
cycle 76. -/
example : let i : Nat → I2cIn := fun n => ⟨false, false, n == 2, false, 0x55, false, true, true⟩
    ((i2cInitiator 4 false).wave i 2).busy = false ∧ (i 2).write = true ∧ i2cClockFalls 4 false i 4 ∧ i2cClockRises 4 false i 8 ∧
      i2cClockFalls 4 false i 12 ∧ i2cClockRises 4 false i 16 ∧ i2cLineChanges 4 false i 4 ∧ i2cLineChanges 4 false i 6 ∧
      ((i2cInitiator 4 false).wave i 75).busy = true ∧ ((i2cInitiator 4 false).wave i 76).busy = false := by
  unfold i2cClockFalls i2cClockRises i2cLineChanges
  decide +kernel

end
end Lambdalib
