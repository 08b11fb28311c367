import Verif.Spec.I2cDevice
import Verif.Props.I2cWire

/-! Properties of the initiator with an I2C device on its wires (C91). -/

namespace Lambdalib

theorem I2cDev.conforming (D : I2cDev) : D.target.Conforming := by
  refine ⟨rfl, ?_, fun _ => rfl, fun _ => rfl⟩
  rintro ⟨p, l⟩ v
  cases p with
  | recv l' =>
    simp only [I2cDev.target]
    by_cases h : l'.length < 7 <;> simp [h]
  | _ => rfl

theorem byteOf_msbBits (d : BitVec 8) : byteOf (msbBits d 8) = d := by
  apply BitVec.eq_of_toNat_eq
  have h : ∀ n < 256, (byteOf (msbBits (BitVec.ofNat 8 n) 8)).toNat = n := by decide +kernel
  have := h d.toNat d.isLt
  rwa [BitVec.ofNat_toNat, BitVec.setWidth_eq] at this

section
variable (D : I2cDev)

/-- Between commands the device is at the end of a byte, or after a start or stop condition. -/
def DevPh.Rests : DevPh → Prop
  | .rest | .recv [] | .acking _ | .asked _ => True
  | _ => False

/-- The programmer's view of a device between commands. -/
def I2cDev.abs (t : DevPh × List DevEv) : DevAbs :=
  match t.1 with
  | .recv _ => ⟨t.2, .recv⟩
  | .acking a => ⟨t.2, D.after t.2 a⟩
  | .asked a => ⟨t.2, D.after t.2 a⟩
  | _ => ⟨t.2, .rest⟩

/-- Phase after the first falling edge. -/
theorem I2cDev.fall_eq (t : DevPh × List DevEv) (h : t.1.Rests) :
    D.target.fall t = (match (D.abs t).mode with | .rest => .rest | .recv => .recv [] | .send b => .send b 0, t.2) := by
  obtain ⟨p, l⟩ := t
  cases p with
  | recv b => cases b with | nil => rfl | cons => exact absurd h id
  | rest => rfl
  | acking a => rfl
  | asked a => rfl
  | _ => exact absurd h id

theorem I2cDev.abs_log (t : DevPh × List DevEv) : (D.abs t).log = t.2 := by
  obtain ⟨p, l⟩ := t
  cases p <;> rfl

/-- Some pulses of a device that ignores the bus. -/
theorem I2cDev.pulses_rest (l : List DevEv) (ms : List Bool) : D.target.pulses (.rest, l) ms = (.rest, l) := by
  induction ms with
  | nil => rfl
  | cons m ms ih => exact ih

theorem I2cDev.pulses_recv (l : List DevEv) (bs ms : List Bool) (h : bs.length + ms.length ≤ 7) :
    D.target.pulses (.recv bs, l) ms = (.recv (bs ++ ms), l) := by
  induction ms generalizing bs with
  | nil => simp [I2cTarget.pulses]
  | cons m ms ih =>
    simp only [List.length_cons] at h
    have h1 : D.target.pulse (.recv bs, l) m = (.recv (bs ++ [m]), l) := by
      simp only [I2cTarget.pulse, I2cDev.target]
      rw [if_pos (by omega)]
      simp
    change D.target.pulses (D.target.pulse (.recv bs, l) m) ms = _
    rw [h1, ih _ (by simp; omega)]
    simp

/-- A whole byte is received. -/
theorem I2cDev.pulses_byte (l : List DevEv) (ms : List Bool) (h : ms.length = 8) :
    D.target.pulses (.recv [], l) ms =
      (.got (D.ack l (byteOf ms)), l ++ [.wrote (byteOf ms) (D.ack l (byteOf ms))]) := by
  have hne : ms ≠ [] := by intro h'; rw [h'] at h; cases h
  have hms : ms.dropLast ++ [ms.getLast hne] = ms := List.dropLast_concat_getLast hne
  have hl : ms.dropLast.length = 7 := by simp [h]
  rw [← hms, pulses_snoc, D.pulses_recv l [] _ (by simp [hl])]
  simp only [I2cTarget.pulse, I2cDev.target, List.nil_append]
  rw [if_neg (by omega)]
  simp

/-- Some pulses while the device sends. -/
theorem I2cDev.pulses_send (l : List DevEv) (b : BitVec 8) (k : Nat) (ms : List Bool) (h : k + ms.length ≤ 7) :
    D.target.pulses (.send b k, l) ms = (.send b (k + ms.length), l) := by
  induction ms generalizing k with
  | nil => simp [I2cTarget.pulses]
  | cons m ms ih =>
    simp only [List.length_cons] at h
    have h1 : D.target.pulse (.send b k, l) m = (.send b (k + 1), l) := by
      simp only [I2cTarget.pulse, I2cDev.target]
      rw [if_pos (by omega)]
    change D.target.pulses (D.target.pulse (.send b k, l) m) ms = _
    rw [h1, ih _ (by omega)]
    simp
    omega

/-- Pulses only depend on what the first falling edge does. -/
theorem pulses_first {τ : Type} (T : I2cTarget τ) (t t' : τ) (h : T.fall t = T.fall t') (m : Bool) (ms : List Bool) :
    T.pulses t (m :: ms) = T.pulses t' (m :: ms) := by
  simp only [I2cTarget.pulses, List.foldl_cons, I2cTarget.pulse, h]

/-- The first falling edge of a sending device. -/
theorem I2cDev.pulses_first_send (t : DevPh × List DevEv) (h : t.1.Rests) (b : BitVec 8) (hm : (D.abs t).mode = .send b)
    (m : Bool) (ms : List Bool) (hl : ms.length ≤ 7) :
    D.target.pulses t (m :: ms) = (.send b ms.length, t.2) := by
  have hf := D.fall_eq t h
  rw [hm] at hf
  have : D.target.pulse t m = (.send b 0, t.2) := by
    simp only [I2cTarget.pulse, hf]
    rfl
  change D.target.pulses (D.target.pulse t m) ms = _
  rw [this, D.pulses_send _ _ _ _ (by omega)]
  simp

theorem I2cDev.pulses_first_recv (t : DevPh × List DevEv) (h : t.1.Rests) (hm : (D.abs t).mode = .recv)
    (m : Bool) (ms : List Bool) : D.target.pulses t (m :: ms) = D.target.pulses (.recv [], t.2) (m :: ms) := by
  have hf := D.fall_eq t h
  rw [hm] at hf
  exact pulses_first _ _ _ hf _ _

theorem I2cDev.pulses_first_rest (t : DevPh × List DevEv) (h : t.1.Rests) (hm : (D.abs t).mode = .rest)
    (m : Bool) (ms : List Bool) : D.target.pulses t (m :: ms) = (.rest, t.2) := by
  have hf := D.fall_eq t h
  rw [hm] at hf
  rw [pulses_first _ t (.rest, t.2) hf, D.pulses_rest]

/-- Eight pulses, then the ninth. -/
theorem I2cDev.nine (t : DevPh × List DevEv) (h : t.1.Rests) (ms : List Bool) (hl : ms.length = 8) (m : Bool) :
    D.target.pulses t (ms ++ [m]) =
      (match (D.abs t).mode with
        | .rest => (.rest, t.2)
        | .recv => (.acking (D.ack t.2 (byteOf ms)), t.2 ++ [.wrote (byteOf ms) (D.ack t.2 (byteOf ms))])
        | .send b => (.asked (!m), t.2 ++ [.sent b (!m)])) ∧
    D.target.offers (D.target.pulses t ms) =
      (match (D.abs t).mode with | .recv => !D.ack t.2 (byteOf ms) | _ => true) := by
  obtain ⟨m0, ms', rfl⟩ : ∃ m0 ms', ms = m0 :: ms' := by
    cases ms with
    | nil => cases hl
    | cons a b => exact ⟨a, b, rfl⟩
  have hl' : ms'.length = 7 := by simpa using hl
  rw [pulses_snoc]
  cases hm : (D.abs t).mode with
  | rest =>
    rw [D.pulses_first_rest t h hm]
    exact ⟨rfl, rfl⟩
  | recv =>
    rw [D.pulses_first_recv t h hm, D.pulses_byte _ _ hl]
    exact ⟨rfl, rfl⟩
  | send b =>
    rw [D.pulses_first_send t h b hm _ _ (by omega), hl']
    refine ⟨?_, rfl⟩
    simp [I2cTarget.pulse, I2cDev.target]

/-- The effect of a command on the wires is the effect seen by the programmer. -/
theorem I2cDev.cmd_wire (t : DevPh × List DevEv) (m : Bool) (c : I2cCmd) (y : (DevPh × List DevEv) × Bool) (h : t.1.Rests)
    (hc : D.target.Cmd (t, m) c y) : y.1.1.Rests ∧ D.abs y.1 = D.cmd (D.abs t) c := by
  have hlog := D.abs_log t
  have hp : ∀ v, (D.target.pulse t v).2 = t.2 := by
    intro v
    have hf := D.fall_eq t h
    cases hm : (D.abs t).mode <;> rw [hm] at hf <;> simp only [I2cTarget.pulse, hf] <;> rfl
  have hff : ∀ d : BitVec 8, (msbBits d 8).length = 8 := fun d => by simp [msbBits]
  have hn := D.nine t h
  have hb : byteOf (List.replicate 8 true) = 0xFF := by decide
  generalize hA : D.abs t = A at *
  obtain ⟨log, mode⟩ := A
  simp only at hlog
  subst hlog
  cases hc with
  | startNow t => exact ⟨trivial, rfl⟩
  | startPulse t m =>
    refine ⟨trivial, ?_⟩
    change (⟨(D.target.pulse t true).2 ++ [.start], .recv⟩ : DevAbs) = _
    rw [hp]
    rfl
  | stopNow t => exact ⟨trivial, rfl⟩
  | stopPulse t =>
    refine ⟨trivial, ?_⟩
    change (⟨(D.target.pulse t false).2 ++ [.stop], .rest⟩ : DevAbs) = _
    rw [hp]
    rfl
  | write t m d =>
    simp only
    rw [(hn _ (hff d) true).1, byteOf_msbBits]
    cases mode <;> exact ⟨trivial, rfl⟩
  | read t m a =>
    simp only
    rw [(hn _ (by simp) (!a)).1, hb]
    cases mode with
    | send b => exact ⟨trivial, by simp [I2cDev.abs, I2cDev.cmd, I2cDev.byte]⟩
    | _ => exact ⟨trivial, rfl⟩

theorem I2cDev.cmds_snoc (L : List I2cCmd) (c : I2cCmd) : D.cmds (L ++ [c]) = D.cmd (D.cmds L) c := by
  simp [I2cDev.cmds]

theorem I2cDev.cmds_wire (L : List I2cCmd) (y : (DevPh × List DevEv) × Bool) (h : D.target.Cmds L y) :
    y.1.1.Rests ∧ D.abs y.1 = D.cmds L := by
  induction h with
  | nil => exact ⟨trivial, rfl⟩
  | snoc h1 h2 ih =>
    obtain ⟨g1, g2⟩ := D.cmd_wire _ _ _ _ ih.1 h2
    rw [D.cmds_snoc, ← ih.2]
    exact ⟨g1, g2⟩

/-- What the device puts on SDA for the next byte. -/
theorem I2cDev.offers_eq (t : DevPh × List DevEv) (h : t.1.Rests) :
    D.target.offers t = (match (D.abs t).mode with | .send b => b.getLsbD 7 | _ => true) := by
  rw [I2cTarget.offers, D.fall_eq t h]
  cases (D.abs t).mode <;> rfl

/-- After a start the device leaves SDA alone. -/
theorem I2cDev.cmds_sda (L : List I2cCmd) (y : (DevPh × List DevEv) × Bool) (h : D.target.Cmds L y)
    (hl : L.getLast? ≠ some (.read true)) (hm : y.2 = false) : D.target.sda y.1 = true := by
  cases h with
  | nil => cases hm
  | snoc h1 h2 =>
    cases h2 with
    | startNow => rfl
    | startPulse => rfl
    | stopNow => cases hm
    | stopPulse => cases hm
    | write => cases hm
    | read t m a =>
      simp only at hm
      have : a = true := by simpa using hm
      subst this
      simp at hl

variable {D} {bidir : Bool} {period : Nat} {stretch : Bool} {i : Nat → I2cIn} {hold : Nat → Bool}
variable (hp : 4 ≤ period) (hw : I2cWired D.target bidir period stretch i hold)

/-- The commands taken before cycle `n` make sense for the device. -/
def I2cSensible (D : I2cDev) (period : Nat) (stretch : Bool) (i : Nat → I2cIn) (n : Nat) : Prop :=
  ∀ k, k < n → ∀ c, i2cAccepts period stretch i k c →
    DevAllowed (i2cCmdLog period stretch i k) (D.cmds (i2cCmdLog period stretch i k)) c

include hp hw in
theorem dev_allowed (n : Nat) (ha : I2cSensible D period stretch i n) : ∀ k, k < n → I2cAllowedAt D.target bidir period stretch i hold k := by
  induction n with
  | zero => intro k hk; omega
  | succ n ih =>
    intro k hk
    replace ih := ih (fun k hk => ha k (by omega))
    rcases Nat.lt_or_ge k n with h | h
    · exact ih k h
    · have : k = n := by omega
      subst this
      intro c hc
      have hcm := C90_wire_commands D.conforming hp hw k ih hc.1
      obtain ⟨h1, h2⟩ := D.cmds_wire _ _ hcm
      have hal := ha k (by omega) c hc
      rw [← h2] at hal
      have hof := D.offers_eq _ h1
      simp only at h1 h2 hal hof
      cases c with
      | start =>
        refine ⟨hal.1, ?_⟩
        rw [hof]
        cases hm : (D.abs (i2cBusOf D.target bidir period stretch i hold (k + 1)).tgt).mode with
        | send b => exact absurd hm (hal.2 b)
        | _ => rfl
      | stop =>
        simp only [I2cTarget.Allowed]
        split
        · rw [hof]
          cases hm : (D.abs (i2cBusOf D.target bidir period stretch i hold (k + 1)).tgt).mode with
          | send b => exact absurd hm (hal.2 b)
          | _ => rfl
        · rename_i hsda
          exact D.cmds_sda _ _ hcm hal.1 (by simpa using hsda)
      | _ => trivial

include hp hw in
/-- **C91.** When the initiator waits, the device on the wires has been through exactly what the commands say, in order. -/
theorem C91_device_history (n : Nat) (ha : I2cSensible D period stretch i n)
    (hn : i2cIdleAt period stretch i n) :
    (i2cBusOf D.target bidir period stretch i hold (n + 1)).tgt.2 = (D.cmds (i2cCmdLog period stretch i n)).log := by
  have hcm := C90_wire_commands D.conforming hp hw n (dev_allowed hp hw n ha) hn
  obtain ⟨h1, h2⟩ := D.cmds_wire _ _ hcm
  rw [← h2, D.abs_log]

include hp hw in
/-- **C91.** The result of each command is the answer of the device: a written byte is reported as acknowledged exactly if the
device acknowledges it, a byte read is the byte that the device sends, or all ones if it sends none. -/
theorem C91_device_answers (k e : Nat) (c : I2cCmd) (ha : I2cSensible D period stretch i e)
    (hr : i2cRan period stretch i k e c) :
    (∀ d, c = .write d →
      ((i2cInitiator period stretch).wave i e).ackO = D.acks (D.cmds (i2cCmdLog period stretch i k)) d) ∧
    (∀ a, c = .read a →
      ((i2cInitiator period stretch).wave i e).dataO = I2cDev.gives (D.cmds (i2cCmdLog period stretch i k))) := by
  have hcm := C90_wire_commands D.conforming hp hw k (dev_allowed hp hw k (fun j hj => ha j (by have := hr.2.1; omega))) hr.1.1
  obtain ⟨h1, h2⟩ := D.cmds_wire _ _ hcm
  obtain ⟨_, r1, r2⟩ := C90_wire_result D.conforming hp hw k e c (dev_allowed hp hw e ha) hr
  have hlog := D.abs_log (i2cBusOf D.target bidir period stretch i hold (k + 1)).tgt
  simp only at h1 h2
  rw [← h2]
  generalize (i2cBusOf D.target bidir period stretch i hold (k + 1)).tgt = t at *
  refine ⟨?_, ?_⟩
  · intro d hd
    rw [r1 d hd, (D.nine t h1 (msbBits d 8) (by simp [msbBits]) true).2, byteOf_msbBits, I2cDev.acks, hlog]
    cases (D.abs t).mode <;> simp
  · intro a hd
    apply BitVec.eq_of_getLsbD_eq
    intro b hb
    obtain ⟨j, hj, rfl⟩ : ∃ j, j < 8 ∧ b = 7 - j := ⟨7 - b, by omega, by omega⟩
    rw [r2 a hd j hj]
    -- the bit on SDA in pulse `j`
    cases hm : (D.abs t).mode with
    | send b =>
      simp only [I2cDev.gives, hm]
      cases j with
      | zero =>
        change D.target.offers t = _
        rw [D.offers_eq t h1, hm]
      | succ j =>
        rw [List.replicate_succ, D.pulses_first_send t h1 b hm _ _ (by simp; omega)]
        simp only [I2cTarget.offers, I2cDev.target, List.length_replicate]
        rw [if_pos (by omega)]
    | recv =>
      simp only [I2cDev.gives, hm]
      have hff : (0xFF : BitVec 8).getLsbD (7 - j) = true := by
        have : ∀ j < 8, (0xFF : BitVec 8).getLsbD (7 - j) = true := by decide
        exact this j hj
      rw [hff]
      cases j with
      | zero =>
        change D.target.offers t = _
        rw [D.offers_eq t h1, hm]
      | succ j =>
        rw [List.replicate_succ, D.pulses_first_recv t h1 hm, D.pulses_recv _ _ _ (by simp; omega)]
        rfl
    | rest =>
      simp only [I2cDev.gives, hm]
      have hff : (0xFF : BitVec 8).getLsbD (7 - j) = true := by
        have : ∀ j < 8, (0xFF : BitVec 8).getLsbD (7 - j) = true := by decide
        exact this j hj
      rw [hff]
      cases j with
      | zero =>
        change D.target.offers t = _
        rw [D.offers_eq t h1, hm]
      | succ j =>
        rw [List.replicate_succ, D.pulses_first_rest t h1 hm]
        rfl

end

/-- A device with write address 0xA0 and read address 0xA1, which takes all bytes written and sends 0x5C, 0x5D, ... -/
def sampleDev : I2cDev where
  ack log d := match log.getLast? with
    | some .start => d == 0xA0 || d == 0xA1
    | _ => true
  tx log := match log.getLast? with
    | some (.wrote d true) => if d == 0xA1 then some 0x5C else none
    | some (.sent b true) => some (b + 1)
    | _ => none

/-- Start, address, one byte read and refused, stop. -/
def devSampleIn (n : Nat) : I2cIn := ⟨n == 5, n == 270, n == 30, n == 150, 0xA1, false, false, false⟩

/-- On the wires the byte is read, and the device knows that it was refused. -/
example : (i2cWiresRun sampleDev.target true 4 true devSampleIn (fun _ => false) 300).1.fsm = .idle ∧
    (i2cWiresRun sampleDev.target true 4 true devSampleIn (fun _ => false) 300).1.dataO = 0x5C ∧
    (i2cWiresRun sampleDev.target true 4 true devSampleIn (fun _ => false) 300).2.tgt =
      (.rest, [.start, .wrote 0xA1 true, .sent 0x5C false, .stop]) ∧
    sampleDev.cmds [.start, .write 0xA1, .read false, .stop] =
      ⟨[.start, .wrote 0xA1 true, .sent 0x5C false, .stop], .rest⟩ := by decide +kernel

/-- The commands of the first part of this execution make sense. -/
example : I2cSensible sampleDev 4 true
    (i2cOnWires sampleDev.target true 4 true devSampleIn (fun _ => false)) 270 := by
  intro n hn c ⟨_, h⟩
  rw [(C90_wires_exist sampleDev.target true 4 true devSampleIn (fun _ => false) (fun _ h => by cases h)).2] at h
  by_cases h5 : n = 5
  · subst h5
    obtain rfl : c = .start := by simpa [i2cStrobe, devSampleIn] using h.symm
    have : i2cCmdLog 4 true (i2cOnWires sampleDev.target true 4 true devSampleIn (fun _ => false)) 5 = [] := by
      decide +kernel
    rw [this]
    refine ⟨by simp, fun b => ?_⟩
    simp [I2cDev.cmds]
  · by_cases h30 : n = 30
    · subst h30
      obtain rfl : c = .write 0xA1 := by simpa [i2cStrobe, devSampleIn] using h.symm
      trivial
    · by_cases h150 : n = 150
      · subst h150
        obtain rfl : c = .read false := by simpa [i2cStrobe, devSampleIn] using h.symm
        trivial
      · have : n ≠ 270 := by omega
        simp [i2cStrobe, devSampleIn, h5, h30, h150, this] at h

end Lambdalib
