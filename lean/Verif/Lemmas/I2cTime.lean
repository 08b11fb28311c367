import Verif.Lemmas.I2cStream

/-! Minimal times of the I2C initiator and of the stream wrapper. -/

namespace Lambdalib

theorem i2c_quarter' (period : Nat) : truncRange period (period / 4) = period / 4 := by
  by_cases h : 4 ≤ period
  · exact i2c_quarter period h
  · have : period / 4 = 0 := by omega
    rw [this]
    simp [truncRange]

/-- Timer strobes before the end of the command. -/
def i2cStrobes (s : I2cS) : Nat := i2cRank s - (if i2cIsSclH s.fsm && s.sclO then 1 else 0)

/-- Timer strobes before SCL rises, at least. -/
def i2cToRise (s : I2cS) : Nat :=
  match s.fsm with
  | .idle | .startSclL | .stopSclL | .wAckSclL | .rAckSclL | .wDataSclL | .rDataSclL => 3
  | .startSdaH | .stopSdaL | .wAckSdaH | .rAckSdaX | .wDataSdaX | .rDataSdaH => 2
  | .startSclH | .stopSclH | .wAckSclH | .rAckSclH | .wDataSclH | .rDataSclH => if s.sclO then 4 else 1
  | .startSdaL | .stopSdaH | .wAckSdaN | .rAckSdaN | .wDataSdaN | .rDataSdaN => 4

/-- Timer strobes before SCL falls, at least. -/
def i2cToFall (s : I2cS) : Nat :=
  match s.fsm with
  | .idle | .startSclL | .stopSclL | .wAckSclL | .rAckSclL | .wDataSclL | .rDataSclL => 1
  | .startSdaH | .stopSdaL | .wAckSdaH | .rAckSdaX | .wDataSdaX | .rDataSdaH => 4
  | .startSclH | .stopSclH | .wAckSclH | .rAckSclH | .wDataSclH | .rDataSclH => if s.sclO then 2 else 3
  | .startSdaL | .stopSdaH | .wAckSdaN | .rAckSdaN | .wDataSdaN | .rDataSdaN => 2

variable (period : Nat) (stretch : Bool)

theorem i2cTimer_slow (s : I2cS) (x : I2cIn) (ht : s.timer ≤ period / 4) :
    s.timer ≤ ((i2cInitiator period stretch).next s x).timer + 1 ∧
    (s.timer = 0 → ((i2cInitiator period stretch).next s x).timer = period / 4) := by
  simp only [i2cInitiator, i2cTimer, i2c_quarter']
  constructor
  · (repeat' split) <;> omega
  · intro h
    simp [h]

/-- Without timer strobe the lines are left alone. -/
theorem i2c_quiet (s : I2cS) (x : I2cIn) (h0 : s.timer ≠ 0) :
    ((i2cInitiator period stretch).next s x).sclO = s.sclO ∧ ((i2cInitiator period stretch).next s x).sdaO = s.sdaO := by
  obtain ⟨fsm, busy, timer, bitno, rSh, wSh, rAck, sclO, sdaO, ackO, dataO⟩ := s
  simp only at h0
  cases fsm <;> simp only [i2cInitiator, i2cFsm, i2cIdle, i2cSclL, i2cSclH, i2cStbX, id] <;>
    (repeat' split) <;> simp_all

theorem i2c_calm (s : I2cS) (x : I2cIn) (hi : i2cInv s) (h0 : s.timer ≠ 0) :
    i2cToRise s ≤ i2cToRise ((i2cInitiator period stretch).next s x) ∧
    i2cToFall s ≤ i2cToFall ((i2cInitiator period stretch).next s x) ∧
    (s.fsm ≠ .idle → i2cStrobes ((i2cInitiator period stretch).next s x) = i2cStrobes s) := by
  obtain ⟨fsm, busy, timer, bitno, rSh, wSh, rAck, sclO, sdaO, ackO, dataO⟩ := s
  simp only at h0
  cases fsm <;> simp only [i2cInv] at hi <;>
    simp only [i2cInitiator, i2cFsm, i2cIdle, i2cSclL, i2cSclH, i2cStbX, id] <;>
    (repeat' split) <;> simp_all [i2cToRise, i2cToFall, i2cStrobes, i2cIsSclH, i2cRank]

theorem i2c_strobe (s : I2cS) (x : I2cIn) (hi : i2cInv s) (h0 : s.timer = 0) :
    i2cToRise s ≤ i2cToRise ((i2cInitiator period stretch).next s x) + 1 ∧
    i2cToFall s ≤ i2cToFall ((i2cInitiator period stretch).next s x) + 1 ∧
    (s.fsm ≠ .idle → i2cStrobes s ≤ i2cStrobes ((i2cInitiator period stretch).next s x) + 1) ∧
    (s.sclO = false → ((i2cInitiator period stretch).next s x).sclO = true →
      i2cToRise s = 1 ∧ i2cToRise ((i2cInitiator period stretch).next s x) = 4 ∧
      i2cToFall ((i2cInitiator period stretch).next s x) = 2) ∧
    (s.sclO = true → ((i2cInitiator period stretch).next s x).sclO = false →
      i2cToFall s = 1 ∧ i2cToFall ((i2cInitiator period stretch).next s x) = 4 ∧
      i2cToRise ((i2cInitiator period stretch).next s x) = 2) := by
  obtain ⟨fsm, busy, timer, bitno, rSh, wSh, rAck, sclO, sdaO, ackO, dataO⟩ := s
  simp only at h0
  subst h0
  cases fsm <;> simp only [i2cInv] at hi <;>
    simp only [i2cInitiator, i2cFsm, i2cIdle, i2cSclL, i2cSclH, i2cStbX, id] <;>
    (repeat' split) <;> simp_all [i2cToRise, i2cToFall, i2cStrobes, i2cIsSclH, i2cRank] <;> (try split) <;> (try simp_all) <;> (try omega)

/-- A count of timer strobes that goes down at a strobe only is used up no faster than the timer runs. -/
theorem potential_step (q a b t t' : Nat) (h : t ≤ t' + 1) (h0 : t = 0 → t' = q ∧ a ≤ b + 1) (h1 : t ≠ 0 → a ≤ b) :
    a * (q + 1) + t ≤ b * (q + 1) + t' + 1 := by
  by_cases ht : t = 0
  · obtain ⟨rfl, ha⟩ := h0 ht
    have := Nat.mul_le_mul_right (t' + 1) ha
    rw [Nat.add_mul] at this
    omega
  · have := Nat.mul_le_mul_right (q + 1) (h1 ht)
    omega

theorem i2c_rise_step (s : I2cS) (x : I2cIn) (hi : i2cInv s) (ht : s.timer ≤ period / 4) :
    i2cToRise s * (period / 4 + 1) + s.timer ≤
      i2cToRise ((i2cInitiator period stretch).next s x) * (period / 4 + 1) + ((i2cInitiator period stretch).next s x).timer + 1 :=
  potential_step _ _ _ _ _ (i2cTimer_slow period stretch s x ht).1
    (fun h => ⟨(i2cTimer_slow period stretch s x ht).2 h, (i2c_strobe period stretch s x hi h).1⟩)
    (fun h => (i2c_calm period stretch s x hi h).1)

theorem i2c_fall_step (s : I2cS) (x : I2cIn) (hi : i2cInv s) (ht : s.timer ≤ period / 4) :
    i2cToFall s * (period / 4 + 1) + s.timer ≤
      i2cToFall ((i2cInitiator period stretch).next s x) * (period / 4 + 1) + ((i2cInitiator period stretch).next s x).timer + 1 :=
  potential_step _ _ _ _ _ (i2cTimer_slow period stretch s x ht).1
    (fun h => ⟨(i2cTimer_slow period stretch s x ht).2 h, (i2c_strobe period stretch s x hi h).2.1⟩)
    (fun h => (i2c_calm period stretch s x hi h).2.1)

theorem i2c_end_step (s : I2cS) (x : I2cIn) (hi : i2cInv s) (ht : s.timer ≤ period / 4) (hne : s.fsm ≠ .idle) :
    i2cStrobes s * (period / 4 + 1) + s.timer ≤
      i2cStrobes ((i2cInitiator period stretch).next s x) * (period / 4 + 1) + ((i2cInitiator period stretch).next s x).timer + 1 :=
  potential_step _ _ _ _ _ (i2cTimer_slow period stretch s x ht).1
    (fun h => ⟨(i2cTimer_slow period stretch s x ht).2 h, (i2c_strobe period stretch s x hi h).2.2.1 hne⟩)
    (fun h => Nat.le_of_eq ((i2c_calm period stretch s x hi h).2.2 hne).symm)

theorem decrease_slow (f : Nat → Nat) (h : ∀ n, f n ≤ f (n + 1) + 1) (n d : Nat) : f n ≤ f (n + d) + d := by
  induction d with
  | zero => exact Nat.le_refl _
  | succ d ih => have := h (n + d); rw [show n + (d + 1) = n + d + 1 from rfl]; omega

/-! ### I2CStream -/

/-- Cycles that a byte takes at least. -/
def i2cByteTime (period : Nat) : Nat := 36 * (period / 4 + 1)

/-- Invariant of the registers of `I2CStream`. -/
def strTimeInv (s : I2cStrS) : Prop :=
  i2cInv s.core ∧ s.core.timer ≤ period / 4 ∧ (s.core.fsm ≠ .idle → s.core.busy = true) ∧
  (s.fsm = .xfer → s.core.busy = false)

theorem i2c_busy_step (s : I2cS) (x : I2cIn) (hs : s.fsm ≠ .idle → s.busy = true) :
    ((i2cInitiator period stretch).next s x).fsm ≠ .idle → ((i2cInitiator period stretch).next s x).busy = true := by
  obtain ⟨fsm, busy, timer, bitno, rSh, wSh, rAck, sclO, sdaO, ackO, dataO⟩ := s
  cases fsm <;> simp only [i2cInitiator, i2cFsm, i2cIdle, i2cSclL, i2cSclH, i2cStbX, id] <;> (repeat' split) <;> simp_all

theorem str_time_step (s : I2cStrS) (x : I2cStrIn) (h : strTimeInv period s) :
    strTimeInv period ((i2cStream period stretch).next s x) := by
  obtain ⟨h1, h2, h3, h4⟩ := h
  refine ⟨i2c_step period stretch _ _ h1, i2cTimer_le period stretch _ (i2c_quarter' period) _ _ h2,
    i2c_busy_step period stretch _ _ h3, ?_⟩
  intro hx
  have hxf : i2cStrFsm s x = .xfer := hx
  have hid : s.core.fsm = .idle ∧ i2cStrobe (i2cStrCoreIn s x) = none := by
    have key : s.core.busy = false ∧ i2cStrobe (i2cStrCoreIn s x) = none := by
      obtain ⟨fsm, lastR, core⟩ := s
      simp only at h4
      cases fsm <;> simp only [i2cStrFsm] at hxf <;> (repeat' split at hxf) <;> simp_all [i2cStrobe, i2cStrCoreIn]
    refine ⟨Decidable.byContradiction fun hn => ?_, key.2⟩
    rw [h3 hn] at key
    cases key.1
  have := hid.2
  simp only [i2cStrobe] at this
  change ((i2cInitiator period stretch).next s.core (i2cStrCoreIn s x)).busy = false
  simp only [i2cInitiator, i2cFsm, hid.1, i2cIdle]
  (repeat' split at this) <;> simp_all

/-- Cycles before the end of a written byte, at least. -/
def strLeft (s : I2cStrS) : Nat :=
  if s.fsm = .waitWrite then i2cStrobes s.core * (period / 4 + 1) + s.core.timer - period / 4 else i2cByteTime period

theorem strLeft_le (s : I2cStrS) (h : strTimeInv period s) : strLeft period s ≤ i2cByteTime period := by
  unfold strLeft i2cByteTime
  split
  · have h1 : i2cStrobes s.core ≤ 36 := by
      have : i2cRank s.core ≤ 36 := by
        unfold i2cRank
        split <;> omega
      unfold i2cStrobes
      omega
    have := Nat.mul_le_mul_right (period / 4 + 1) h1
    have := h.2.1
    omega
  · exact Nat.le_refl _

/-- The time left goes down by at most one per cycle. -/
theorem strLeft_step (s : I2cStrS) (x : I2cStrIn) (h : strTimeInv period s) :
    strLeft period s ≤ strLeft period ((i2cStream period stretch).next s x) + 1 := by
  have hle := strLeft_le period s h
  by_cases hn : ((i2cStream period stretch).next s x).fsm = .waitWrite
  · have hn' : i2cStrFsm s x = .waitWrite := hn
    have e : strLeft period ((i2cStream period stretch).next s x) =
        i2cStrobes ((i2cInitiator period stretch).next s.core (i2cStrCoreIn s x)) * (period / 4 + 1) +
          ((i2cInitiator period stretch).next s.core (i2cStrCoreIn s x)).timer - period / 4 := by
      rw [strLeft, if_pos hn]; rfl
    rw [e]
    obtain ⟨h1, h2, h3, h4⟩ := h
    by_cases hw : s.fsm = .waitWrite
    · rw [strLeft, if_pos hw]
      by_cases hi : s.core.fsm = .idle
      · have : i2cStrobes s.core = 0 := by simp [i2cStrobes, i2cRank, hi]
        rw [this]
        omega
      · have := i2c_end_step period stretch s.core (i2cStrCoreIn s x) h1 h2 hi
        omega
    · -- the byte is taken now
      have hx : s.fsm = .xfer ∧ x.valid = true ∧ x.beat.payload.1 = false := by
        obtain ⟨fsm, lastR, core⟩ := s
        cases fsm <;> simp only [i2cStrFsm] at hn' <;> (repeat' split at hn') <;> simp_all
      have hb := h4 hx.1
      have hi : s.core.fsm = .idle := Decidable.byContradiction fun hn => by rw [h3 hn] at hb; cases hb
      have hbit : s.core.bitno = 0 := by
        unfold i2cInv at h1
        rw [hi] at h1
        exact h1.2
      have hq := i2c_quarter' period
      refine Nat.le_trans hle ?_
      have e1 : ((i2cInitiator period stretch).next s.core (i2cStrCoreIn s x)).fsm = .wDataSclL := by
        simp [i2cInitiator, i2cFsm, i2cIdle, hi, i2cStrCoreIn, hx]
      have e2 : ((i2cInitiator period stretch).next s.core (i2cStrCoreIn s x)).bitno = 0 := by
        simp [i2cInitiator, i2cFsm, i2cIdle, hi, i2cStrCoreIn, hx, hbit]
      have e3 : ((i2cInitiator period stretch).next s.core (i2cStrCoreIn s x)).timer = period / 4 := by
        simp [i2cInitiator, i2cTimer, hb, hq]
      have e4 : i2cStrobes ((i2cInitiator period stretch).next s.core (i2cStrCoreIn s x)) = 36 := by
        simp [i2cStrobes, i2cRank, i2cIsSclH, e1, e2]
      rw [e3, e4]
      unfold i2cByteTime
      omega
  · have : strLeft period ((i2cStream period stretch).next s x) = i2cByteTime period := by rw [strLeft, if_neg hn]
    omega

/-- When a written byte is over no time is left, and the next takes its whole time. -/
theorem strLeft_ready (s : I2cStrS) (x : I2cStrIn) (h : strTimeInv period s) (hp : x.beat.payload.1 = false)
    (hr : ((i2cStream period stretch).out s x).ready = true) :
    strLeft period s = 0 ∧ strLeft period ((i2cStream period stretch).next s x) = i2cByteTime period := by
  have hw : s.fsm = .waitWrite ∧ s.core.busy = false := by
    simpa [i2cStream, hp] using hr
  obtain ⟨h1, h2, h3, h4⟩ := h
  have hi : s.core.fsm = .idle := Decidable.byContradiction fun hn => by rw [h3 hn] at hw; cases hw.2
  constructor
  · rw [strLeft, if_pos hw.1, show i2cStrobes s.core = 0 by simp [i2cStrobes, i2cRank, hi]]
    omega
  · rw [strLeft, if_neg]
    change i2cStrFsm s x ≠ .waitWrite
    obtain ⟨fsm, lastR, core⟩ := s
    simp only at hw
    simp only [i2cStrFsm, hw]
    (repeat' split) <;> simp_all

end Lambdalib
