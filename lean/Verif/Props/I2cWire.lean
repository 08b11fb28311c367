import Verif.Lemmas.I2cWire
import Verif.Lemmas.I2cClose
import Verif.Props.I2c

/-! Properties of the I2C initiator and a target on common wires (C90). -/

namespace Lambdalib

section
variable {τ : Type} (T : I2cTarget τ) (bidir : Bool) (period : Nat) (stretch : Bool) (i : Nat → I2cIn)
  (hold : Nat → Bool)

/-- The bus with the initiator on it. -/
def i2cBusOf (n : Nat) : I2cBusS τ :=
  i2cBusRun T bidir (i2cScl period stretch i) (i2cSda period stretch i) hold n

/-- The initiator sees the bus through its bus driver, and the target holds SCL only if the initiator supports it. -/
structure I2cWired : Prop where
  scl : ∀ n, (i n).sclI = ((i2cBusDriver bidir).out (i2cBusOf T bidir period stretch i hold n).drv
    ⟨i2cScl period stretch i n, i2cSda period stretch i n, true, true⟩).sclI
  sda : ∀ n, (i n).sdaI = ((i2cBusDriver bidir).out (i2cBusOf T bidir period stretch i hold n).drv
    ⟨i2cScl period stretch i n, i2cSda period stretch i n, true, true⟩).sdaI
  hold : ∀ n, hold n = true → bidir = true ∧ stretch = true

/-- A command taken in cycle `n` is allowed at that time. -/
def I2cAllowedAt (n : Nat) : Prop :=
  ∀ c, i2cAccepts period stretch i n c →
    T.Allowed (i2cCmdLog period stretch i n) (i2cBusOf T bidir period stretch i hold (n + 1)).tgt
      (i2cSda period stretch i n) c

/-- The bus as seen by the lemmas. -/
def i2cEnv (n : Nat) : WireS τ :=
  let b := i2cBusOf T bidir period stretch i hold n
  ⟨b.scl, b.drv.scl2, b.sda, b.drv.sda2, b.tgt⟩

theorem i2cBusOf_stage (n : Nat) :
    (i2cBusOf T bidir period stretch i hold n).drv.scl1 = (i2cBusOf T bidir period stretch i hold n).scl ∧
    (i2cBusOf T bidir period stretch i hold n).drv.sda1 = (i2cBusOf T bidir period stretch i hold n).sda := by
  cases n <;> exact ⟨rfl, rfl⟩

theorem i2cEnv_succ (n : Nat) : i2cEnv T bidir period stretch i hold (n + 1) =
    wireNext T (i2cEnv T bidir period stretch i hold n) ((i2cInitiator period stretch).st i n).sclO
      ((i2cInitiator period stretch).st i n).sdaO (hold n) := by
  obtain ⟨h1, h2⟩ := i2cBusOf_stage T bidir period stretch i hold n
  have hc : i2cScl period stretch i n = ((i2cInitiator period stretch).st i n).sclO := rfl
  have hd : i2cSda period stretch i n = ((i2cInitiator period stretch).st i n).sdaO := rfl
  have hs : i2cBusOf T bidir period stretch i hold (n + 1) =
    (let b := i2cBusOf T bidir period stretch i hold n
    let x : I2cDrvIn := ⟨i2cScl period stretch i n, i2cSda period stretch i n, true, true⟩
    let scl := i2cLineScl bidir b x (hold n)
    let sda := i2cLineSda T bidir b x
    ⟨(i2cBusDriver bidir).next b.drv ⟨i2cScl period stretch i n, i2cSda period stretch i n, scl, sda⟩,
      T.see b.tgt b.scl b.sda scl sda, scl, sda⟩) := rfl
  simp only [i2cEnv, hs, hc, hd]
  generalize i2cBusOf T bidir period stretch i hold n = b at *
  generalize (i2cInitiator period stretch).st i n = s at *
  simp only [wireNext, i2cBusDriver, i2cLineScl, i2cLineSda, PadOut.level, h1, h2]
  cases bidir <;> simp

variable {T bidir period stretch i hold}

theorem i2cWired_in (hw : I2cWired T bidir period stretch i hold) (n : Nat) :
    wireIn stretch bidir ((i2cInitiator period stretch).st i n) (i2cEnv T bidir period stretch i hold n) (hold n)
      (i n) := by
  refine ⟨?_, ?_, hw.hold n⟩
  · rw [hw.scl n]; rfl
  · rw [hw.sda n]; rfl

variable (hT : T.Conforming) (hp : 4 ≤ period) (hw : I2cWired T bidir period stretch i hold)

theorem i2cCmdLog_succ (n : Nat) : i2cCmdLog period stretch i (n + 1) = i2cCmdLog period stretch i n ++
    (if ((i2cInitiator period stretch).st i n).fsm = .idle then (i2cStrobe (i n)).toList else []) := rfl

include hT hp hw in
theorem wire_run (n : Nat) (ha : ∀ k, k < n → I2cAllowedAt T bidir period stretch i hold k) :
    let e := i2cEnv T bidir period stretch i hold
    let s := (i2cInitiator period stretch).st i
    (i2cIdleAt period stretch i n → ∃ y, T.Cmds (i2cCmdLog period stretch i n) y ∧
      wireIdle T ((i2cCmdLog period stretch i n).getLast? == some .start) y (s n) (e n)) ∧
    (¬ i2cIdleAt period stretch i n → ∃ k c, i2cExecutes period stretch i k n c ∧
      T.Cmds (i2cCmdLog period stretch i k) ((e (k + 1)).tgt, (s k).sdaO) ∧
      i2cCmdLog period stretch i n = i2cCmdLog period stretch i k ++ [c] ∧
      wireRel T (period / 4) (e (k + 1)).tgt (s k).sdaO c (s n) (e n)) := by
  intro e s
  have hq := i2c_quarter period hp
  have hq1 : 1 ≤ period / 4 := by omega
  induction n with
  | zero =>
    refine ⟨fun _ => ⟨(T.init, true), .nil, rfl, rfl, rfl, rfl, rfl, ?_, rfl, ?_⟩, fun h => absurd rfl h⟩
    · simp [e, s, i2cEnv, i2cBusOf, i2cBusRun, i2cInitiator, I2cTarget.see, hT.init, i2cBusDriver]
    · intro _ _
      simp [s, i2cInitiator, hT.init]
  | succ n ih =>
    replace ih := ih (fun k hk => ha k (by omega))
    have hin := i2cWired_in hw n
    have hinv := i2c_inv period stretch i n
    have he : e (n + 1) = wireNext T (e n) (s n).sclO (s n).sdaO (hold n) := i2cEnv_succ T bidir period stretch i hold n
    have hsn : s (n + 1) = (i2cInitiator period stretch).next (s n) (i n) := rfl
    by_cases hidle : i2cIdleAt period stretch i n
    · obtain ⟨y, hy1, hy2⟩ := ih.1 hidle
      have hst := wire_idle_step (period := period) (q := period / 4) hin hinv hy2
      rw [← he, ← hsn] at hst
      obtain ⟨hst1, hst2⟩ := hst
      have hlog := i2cCmdLog_succ (period := period) (stretch := stretch) (i := i) n
      rw [if_pos (show ((i2cInitiator period stretch).st i n).fsm = .idle from hidle)] at hlog
      cases hs : i2cStrobe (i n) with
      | none =>
        rw [hs] at hst2 hlog
        simp only [Option.toList_none, List.append_nil] at hlog
        rw [hlog]
        refine ⟨fun _ => ⟨y, hy1, hst2.1⟩, fun h => absurd hst2.1.1 h⟩
      | some c =>
        rw [hs] at hst2 hlog
        simp only [Option.toList_some] at hlog
        have hall := ha n (by omega) c ⟨hidle, hs⟩
        have ht : (i2cBusOf T bidir period stretch i hold (n + 1)).tgt = y.1 := hst1
        have hm : i2cSda period stretch i n = y.2 := by rw [hy2.2.2.2.2.1]; rfl
        rw [ht, hm] at hall
        have hrel := hst2 (fun hc => by
            subst hc
            obtain ⟨a1, a2⟩ := hall
            refine ⟨?_, a2⟩
            simpa using a1)
          (fun hc => by subst hc; exact hall)
        have hne : ¬ i2cIdleAt period stretch i (n + 1) := by
          intro h
          have h' : (s (n + 1)).fsm = .idle := h
          rw [wireRel, h'] at hrel
          exact hrel.2
        refine ⟨fun h => absurd h hne, fun _ => ⟨n, c, ⟨⟨hidle, hs⟩, by omega, ?_⟩, ?_, hlog, ?_⟩⟩
        · intro j h1 h2
          have : j = n + 1 := by omega
          subst this; exact hne
        · have : ((e (n + 1)).tgt, (s n).sdaO) = y := by
            rw [hst1, ← hy2.2.2.2.2.1]
          rw [this]; exact hy1
        · rw [hst1, ← hy2.2.2.2.2.1]; exact hrel
    · obtain ⟨k, c, hx, hc, hl, hr⟩ := ih.2 hidle
      have hst := wire_step hT hq hq1 hin hinv hr
      rw [← he, ← hsn] at hst
      have hlog := i2cCmdLog_succ (period := period) (stretch := stretch) (i := i) n
      rw [if_neg (show ¬ ((i2cInitiator period stretch).st i n).fsm = .idle from hidle), List.append_nil] at hlog
      rcases hst with hst | hst
      · have hne : ¬ i2cIdleAt period stretch i (n + 1) := by
          intro h
          have h' : (s (n + 1)).fsm = .idle := h
          rw [wireRel, h'] at hst
          exact hst.2
        refine ⟨fun h => absurd h hne, fun _ => ⟨k, c, ⟨hx.1, by have := hx.2.1; omega, ?_⟩, hc, by rw [hlog, hl], hst⟩⟩
        intro j h1 h2
        rcases Nat.lt_or_ge n j with h | h
        · have : j = n + 1 := by omega
          subst this; exact hne
        · exact hx.2.2 j h1 h
      · obtain ⟨y, d1, d2, d3⟩ := hst
        refine ⟨fun _ => ⟨y, ?_, ?_⟩, fun h => absurd d2.1 h⟩
        · rw [hlog, hl]
          exact .snoc hc d1
        · rw [hlog, hl]
          have : ((i2cCmdLog period stretch i k ++ [c]).getLast? == some .start) = (c == .start) := by
            simp
          rw [this]
          exact d2

include hT hp hw in
/-- **C90.** Whatever the target (or targets) on the wires does, and however long it stretches the clock: when the initiator
waits, the target has been told exactly the commands executed so far, in order: one start or stop condition per start or
stop, and nine clock pulses per written or read byte, with the bits of the byte, most significant first. -/
theorem C90_wire_commands (n : Nat) (ha : ∀ k, k < n → I2cAllowedAt T bidir period stretch i hold k)
    (hn : i2cIdleAt period stretch i n) :
    T.Cmds (i2cCmdLog period stretch i n)
      ((i2cBusOf T bidir period stretch i hold (n + 1)).tgt, i2cSda period stretch i n) := by
  obtain ⟨y, h1, h2⟩ := (wire_run hT hp hw n ha).1 hn
  have hst := (wire_idle_step (period := period) (q := period / 4) (i2cWired_in hw n) (i2c_inv period stretch i n) h2).1
  rw [← i2cEnv_succ] at hst
  have : ((i2cBusOf T bidir period stretch i hold (n + 1)).tgt, i2cSda period stretch i n) = y := by
    have h3 := h2.2.2.2.2.1
    obtain ⟨y1, y2⟩ := y
    simp only at h3 hst
    rw [h3, ← hst]
    rfl
  rw [this]
  exact h1

include hT hp hw in
/-- **C90.** Each command on its own: its effect on the target, and its result. A byte is reported as acknowledged exactly if
the target pulls SDA low in the ninth clock pulse, and the bits of a byte read are what the target puts on SDA in the first
eight. -/
theorem C90_wire_result (k e : Nat) (c : I2cCmd) (ha : ∀ k, k < e → I2cAllowedAt T bidir period stretch i hold k)
    (hr : i2cRan period stretch i k e c) :
    let t := (i2cBusOf T bidir period stretch i hold (k + 1)).tgt
    T.Cmd (t, i2cSda period stretch i k) c
      ((i2cBusOf T bidir period stretch i hold (e + 1)).tgt, i2cSda period stretch i e) ∧
    (∀ d, c = .write d →
      ((i2cInitiator period stretch).wave i e).ackO = !T.offers (T.pulses t (msbBits d 8))) ∧
    (∀ a, c = .read a → ∀ j, j < 8 →
      ((i2cInitiator period stretch).wave i e).dataO.getLsbD (7 - j) =
        T.offers (T.pulses t (List.replicate j true))) := by
  intro t
  obtain ⟨r1, r2, r3, r4⟩ := hr
  have hq := i2c_quarter period hp
  have hq1 : 1 ≤ period / 4 := by omega
  have hk1 : ¬ i2cIdleAt period stretch i (k + 1) := by
    have hk := i2cKind_idle period stretch _ (i k) r1.1
    rw [r1.2] at hk
    intro h
    unfold i2cIdleAt at h
    rw [Circuit.st_succ] at h
    simp only [h] at hk
    exact hk
  have hek : e ≠ k + 1 := by
    intro h; subst h; exact hk1 r3
  obtain ⟨p, rfl⟩ : ∃ p, e = p + 1 := ⟨e - 1, by omega⟩
  have hp1 : ¬ i2cIdleAt period stretch i p := r4 p (by omega) (by omega)
  obtain ⟨k', c', hx, hc, hl, hrel⟩ := (wire_run hT hp hw p (fun k hk => ha k (by omega))).2 hp1
  have hkk : k' = k := by
    rcases Nat.lt_trichotomy k' k with h | h | h
    · exact absurd r1.1 (hx.2.2 k h (by omega))
    · exact h
    · exact absurd hx.1.1 (r4 k' h (by have := hx.2.1; omega))
  subst hkk
  have hcc : c' = c := by
    have h1 := hx.1.2
    have h2 := r1.2
    rw [h1] at h2
    exact Option.some.inj h2
  subst hcc
  have hst := wire_step hT hq hq1 (i2cWired_in hw p) (i2c_inv period stretch i p) hrel
  rw [← i2cEnv_succ, ← Circuit.st_succ] at hst
  rcases hst with hst | hst
  · have h' : ((i2cInitiator period stretch).st i (p + 1)).fsm = .idle := r3
    rw [wireRel, h'] at hst
    exact absurd hst.2 id
  · obtain ⟨y, d1, d2, d3, d4⟩ := hst
    have hst := (wire_idle_step (period := period) (q := period / 4) (i2cWired_in hw (p + 1))
      (i2c_inv period stretch i (p + 1)) d2).1
    rw [← i2cEnv_succ] at hst
    refine ⟨?_, d3, ?_⟩
    · have : ((i2cBusOf T bidir period stretch i hold (p + 1 + 1)).tgt, i2cSda period stretch i (p + 1)) = y := by
        have h3 := d2.2.2.2.2.1
        obtain ⟨y1, y2⟩ := y
        simp only at h3 hst
        rw [h3, ← hst]
        rfl
      rw [this]
      exact d1
    · intro a hc j hj
      have := d4 a hc j (by simpa using hj)
      simp only [readBits_length, Nat.add_one_sub_one] at this
      rw [show 8 - 1 - j = 7 - j by omega] at this
      change ((i2cInitiator period stretch).st i (p + 1)).dataO.getLsbD (7 - j) = _
      rw [this]
      simp [readBits]
      rfl

/-- SCL of the core does not move while the timer runs, and the timer stands still while SCL does not follow. -/
theorem i2c_frozen (period : Nat) (hp : 4 ≤ period) (s : I2cS) (x : I2cIn) (h : x.sclI ≠ s.sclO) :
    1 ≤ ((i2cInitiator period true).next s x).timer ∧
    (1 ≤ s.timer → ((i2cInitiator period true).next s x).sclO = s.sclO) := by
  have hq := i2c_quarter period hp
  refine ⟨?_, ?_⟩
  · simp only [i2cInitiator, i2cTimer, hq]
    have : ¬ (s.sclO == x.sclI) = true := by
      simp only [beq_iff_eq]
      exact fun e => h e.symm
    simp only [this, Bool.not_true, Bool.false_or, Bool.false_eq_true, if_false]
    split
    · omega
    · rename_i hn
      simp only [Bool.or_eq_true, beq_iff_eq, not_or] at hn
      omega
  · intro ht
    have ht' : (s.timer == 0) = false := by simp; omega
    simp only [i2cInitiator, i2cFsm, ht']
    cases s.fsm <;> simp only [i2cSclL, i2cStbX, i2cSclH, i2cIdle] <;> (repeat' split) <;> simp_all

include hp hw in
/-- SCL follows the core again and again if the target does not hold it for ever. -/
theorem wired_follows (hrel : ∀ n, ∃ m, n ≤ m ∧ hold m = false) (n : Nat) :
    ∃ m, n ≤ m ∧ i2cClockFollows period stretch i m := by
  apply Classical.byContradiction
  intro hcon
  have hno : ∀ m, n ≤ m → stretch = true ∧ (i m).sclI ≠ i2cScl period stretch i m := by
    intro m hm
    apply Classical.byContradiction
    intro h
    apply hcon
    refine ⟨m, hm, fun hs => ?_⟩
    exact Classical.byContradiction fun h2 => h ⟨hs, h2⟩
  have hstr := (hno n (Nat.le_refl _)).1
  subst hstr
  have hbd : bidir = true := by
    cases hb : bidir
    · have := hw.scl n
      subst hb
      exact absurd this (hno n (Nat.le_refl _)).2
    · rfl
  subst hbd
  have hconst : ∀ d, 1 ≤ ((i2cInitiator period true).st i (n + 1 + d)).timer ∧
      i2cScl period true i (n + 1 + d) = i2cScl period true i (n + 1) := by
    intro d
    induction d with
    | zero =>
      refine ⟨?_, rfl⟩
      rw [Nat.add_zero, Circuit.st_succ]
      exact (i2c_frozen period hp _ _ (hno n (Nat.le_refl _)).2).1
    | succ d ih =>
      have := i2c_frozen period hp _ _ (hno (n + 1 + d) (by omega)).2
      rw [← Nat.add_assoc, ← ih.2]
      exact ⟨this.1, this.2 ih.1⟩
  obtain ⟨m, hm, hh⟩ := hrel (n + 1)
  have h2 := hw.scl (m + 2)
  have hne := (hno (m + 2) (by omega)).2
  apply hne
  rw [h2]
  have e1 := (i2cBusOf_stage T true period true i hold (m + 1)).1
  change (i2cBusOf T true period true i hold (m + 2)).drv.scl2 = _
  change (i2cBusOf T true period true i hold (m + 1)).drv.scl1 = _
  rw [e1]
  change i2cLineScl true _ _ (hold m) = _
  rw [hh]
  have a1 := (hconst (m - (n + 1))).2
  have a2 := (hconst (m + 2 - (n + 1))).2
  rw [show n + 1 + (m - (n + 1)) = m by omega] at a1
  rw [show n + 1 + (m + 2 - (n + 1)) = m + 2 by omega] at a2
  rw [a2, ← a1]
  simp [i2cLineScl, PadOut.level, i2cBusDriver]

include hp hw in
/-- **C90.** Every command finishes unless the target holds the clock for ever. -/
theorem C90_wire_finishes (hrel : ∀ n, ∃ m, n ≤ m ∧ hold m = false) (n : Nat) :
    ∃ m, n ≤ m ∧ i2cIdleAt period stretch i m :=
  C68_i2c_terminates_partial period stretch i hp (wired_follows hp hw hrel) n

end

/-! ### The hypotheses can be met -/

section
variable {τ : Type} (T : I2cTarget τ) (bidir : Bool) (period : Nat) (stretch : Bool) (u : Nat → I2cIn) (hold : Nat → Bool)

/-- The initiator on the wires, with the strobes and data of `u`. -/
def i2cOnWires : Nat → I2cIn :=
  closeIn T bidir (i2cInitiator period stretch) id (fun n _ scl sda => { u n with sclI := scl, sdaI := sda }) hold

/-- State of the whole. -/
def i2cWiresRun : Nat → I2cS × I2cBusS τ :=
  closeRun T bidir (i2cInitiator period stretch) id (fun n _ scl sda => { u n with sclI := scl, sdaI := sda }) hold

theorem i2cOnWires_st (n : Nat) : (i2cInitiator period stretch).st (i2cOnWires T bidir period stretch u hold) n =
    (i2cWiresRun T bidir period stretch u hold n).1 := close_st ..

theorem i2cOnWires_bus (n : Nat) : i2cBusOf T bidir period stretch (i2cOnWires T bidir period stretch u hold) hold n =
    (i2cWiresRun T bidir period stretch u hold n).2 := close_bus T bidir _ id _ hold _ _ (fun _ => ⟨rfl, rfl⟩) n

/-- C90: for all strobes, every target, and every way to hold the clock there is an execution on the wires. -/
theorem C90_wires_exist (hh : ∀ n, hold n = true → bidir = true ∧ stretch = true) :
    let i := i2cOnWires T bidir period stretch u hold
    I2cWired T bidir period stretch i hold ∧ ∀ n, i2cStrobe (i n) = i2cStrobe (u n) := by
  intro i
  refine ⟨⟨fun n => ?_, fun n => ?_, hh⟩, fun n => rfl⟩
  · rw [i2cOnWires_bus]
    simp only [i2cScl, i2cSda, Circuit.wave]
    rw [i2cOnWires_st]
    rfl
  · rw [i2cOnWires_bus]
    simp only [i2cScl, i2cSda, Circuit.wave]
    rw [i2cOnWires_st]
    rfl

end

/-- A target that counts falling edges and pulls SDA low from the tenth on until the next. -/
def wireSampleTarget : I2cTarget Nat where
  init := 0
  fall t := t + 1
  rise t _ := t
  start _ := 0
  stop _ := 0
  sda t := t != 9

/-- A start and a byte. -/
def wireSampleIn (n : Nat) : I2cIn := ⟨n == 5, false, n == 30, false, 0xA5, false, false, false⟩

/-- The target holds the clock for a while. -/
def wireSampleHold (n : Nat) : Bool := 60 ≤ n && n < 90

example : wireSampleTarget.Conforming := ⟨rfl, fun _ _ => rfl, fun _ => rfl, fun _ => rfl⟩

/-- The byte is acknowledged by the target, which has seen nine falling edges. -/
example : (i2cWiresRun wireSampleTarget true 4 true wireSampleIn wireSampleHold 200).1.fsm = .idle ∧
    (i2cWiresRun wireSampleTarget true 4 true wireSampleIn wireSampleHold 200).1.ackO = true ∧
    (i2cWiresRun wireSampleTarget true 4 true wireSampleIn wireSampleHold 200).2.tgt = 9 := by decide +kernel

example (n : Nat) : I2cAllowedAt wireSampleTarget true 4 true
    (i2cOnWires wireSampleTarget true 4 true wireSampleIn wireSampleHold) wireSampleHold n := by
  intro c ⟨_, h⟩
  rw [(C90_wires_exist wireSampleTarget true 4 true wireSampleIn wireSampleHold (fun _ _ => ⟨rfl, rfl⟩)).2] at h
  by_cases h5 : n = 5
  · subst h5
    obtain rfl : c = .start := by simpa [i2cStrobe, wireSampleIn] using h.symm
    refine ⟨by decide +kernel, ?_⟩
    rw [i2cOnWires_bus]
    decide +kernel
  · by_cases h30 : n = 30
    · subst h30
      obtain rfl : c = .write 0xA5 := by simpa [i2cStrobe, wireSampleIn] using h.symm
      trivial
    · simp [i2cStrobe, wireSampleIn, h5, h30] at h

end Lambdalib
