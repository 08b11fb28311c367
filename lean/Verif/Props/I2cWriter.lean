import Verif.Lemmas.I2cWriter
import Verif.Props.I2c

/-! Properties of `I2CWriterStream` (C35). -/

namespace Lambdalib

theorem wr_commands_of_rel {f : Nat → BitVec 8} {L : List I2cCmd} {A : List Bool} {nb : Nat} {s : I2cWrS}
    {x : I2cWrIn} (h : wrRel f L A nb s x) :
    let T := i2cGroups f A
    (nb = T.need ∧ (L = T.cmds ∨ T.cmds = L ++ [.stop] ∨ (T.pos = 0 ∧ L = T.cmds ++ [.start]))) ∨
    (nb = max T.need (3 * T.group + T.pos + 1) ∧
      L = T.cmds ++ (if T.pos = 0 then [.start] else []) ++ [.write (f (3 * T.group + T.pos))]) := by
  obtain ⟨_, h⟩ := h
  obtain ⟨fsm, stage, retry, c0, c1, c2, cs, core⟩ := s
  cases fsm <;> simp only at h
  case idle => obtain ⟨T, rfl, h1, h2, h3, h4, h5, _⟩ := h; exact .inl ⟨h5, .inl h2⟩
  case start => obtain ⟨T, rfl, h1, h2, h3, h4, h5, h6, _⟩ := h; exact .inl ⟨h6, .inl h2⟩
  case waitStart => obtain ⟨T, rfl, h2, h3, h4, h5, h6, _⟩ := h; exact .inl ⟨h6, .inr (.inr ⟨h3, h2⟩)⟩
  case write =>
    obtain ⟨T, rfl, h1, h0, h2, h3, h4, h5, _⟩ := h
    left
    refine ⟨h5, ?_⟩
    by_cases hp : (i2cGroups f A).pos = 0
    · exact .inr (.inr ⟨hp, by simpa [hp] using h2⟩)
    · exact .inl (by simpa [hp] using h2)
  case waitWrite =>
    obtain ⟨A', T, rfl, h0, h1, h2, h3, h4, _⟩ := h
    rcases h1 with ⟨rfl, _⟩ | ⟨rfl, _⟩
    · exact .inr ⟨h4, h2⟩
    · left
      rw [i2cGroups_snoc]
      refine ⟨h4, ?_⟩
      by_cases hc : core.ackO = false ∨ (i2cGroups f A').pos = 2
      · exact .inr (.inl (by simp only [i2cGroupStep, if_pos hc]; rw [h2]))
      · exact .inl (by simp only [i2cGroupStep, if_neg hc]; rw [h2, List.append_nil])
  case stop => obtain ⟨T, rfl, h1, h2, h3, h4, h5, _⟩ := h; exact .inl ⟨h5, .inr (.inl h2)⟩
  case waitStop => obtain ⟨T, rfl, h1, h2, h3, h4, h5, _⟩ := h; exact .inl ⟨h5, .inl h1.symm⟩

section
variable (period : Nat) (stretch : Bool) (i : Nat → I2cWrIn)

/-- C35, safety part: the executed commands are those of the groups of three accepted bytes, each group sent
again from its first byte after a byte was not acknowledged, up to the stop still to come or the start and the
byte being sent; exactly the bytes needed so far have been accepted, each one once. What is missing for C35 is
that a rejected group is sent again without further input (see `C35_writer_retry_refuted`). -/
theorem C35_writer_commands_partial (hst : i2cWrSinkStable period stretch i) (n : Nat) :
    let L := i2cCmdLog period stretch (i2cWrCi period stretch i) n
    let B := i2cWrBytes period stretch i n
    let T := i2cGroups (fun k => B.getD k 0) (i2cAckLog period stretch (i2cWrCi period stretch i) n)
    (B.length = T.need ∧ (L = T.cmds ∨ T.cmds = L ++ [.stop] ∨ (T.pos = 0 ∧ L = T.cmds ++ [.start]))) ∨
    (B.length = max T.need (3 * T.group + T.pos + 1) ∧
      L = T.cmds ++ (if T.pos = 0 then [.start] else []) ++ [.write (B.getD (3 * T.group + T.pos) 0)]) :=
  wr_commands_of_rel (wr_rel period stretch i hst n _ (fun _ _ => rfl))

/-- Commands are only ever added to the log. -/
theorem i2cCmdLog_mono (ci : Nat → I2cIn) (n d : Nat) :
    (i2cCmdLog period stretch ci n).length ≤ (i2cCmdLog period stretch ci (n + d)).length := by
  induction d with
  | zero => exact Nat.le_refl _
  | succ d ih =>
    refine Nat.le_trans ih ?_
    rw [show n + (d + 1) = n + d + 1 from rfl, i2cCmdLog, List.length_append]
    omega

/-- In a phase without strobes which only ends when `busy` is low, `busy` falls eventually. -/
theorem i2c_wait (ci : Nat → I2cIn) (hp : 4 ≤ period)
    (hinf : ∀ n, ∃ m, n ≤ m ∧ i2cClockFollows period stretch ci m) (W : Nat → Prop)
    (hq : ∀ n, W n → i2cStrobe (ci n) = none)
    (hstay : ∀ n, W n → ((i2cInitiator period stretch).st ci n).busy = true → W (n + 1))
    (n : Nat) (hn : W n) :
    ∃ m, n ≤ m ∧ W m ∧ ((i2cInitiator period stretch).st ci m).busy = false := by
  apply Classical.byContradiction
  intro hcon
  have hb : ∀ m, n ≤ m → W m → ((i2cInitiator period stretch).st ci m).busy = true := by
    intro m hm hf
    cases h : ((i2cInitiator period stretch).st ci m).busy
    · exact absurd ⟨m, hm, hf, h⟩ hcon
    · rfl
  have hall : ∀ d, W (n + d) := by
    intro d
    induction d with
    | zero => exact hn
    | succ d ih => exact hstay _ ih (hb (n + d) (by omega) ih)
  obtain ⟨m, hm, hid⟩ := C68_i2c_terminates_partial period stretch _ hp hinf n
  have hwm := hall (m - n)
  have hwm1 := hall (m - n + 1)
  rw [show n + (m - n) = m by omega] at hwm
  rw [show n + (m - n + 1) = m + 1 by omega] at hwm1
  have := (i2cCore_quiet period stretch _ (ci m) hid (hq m hwm)).2.1
  have hb1 := hb (m + 1) (by omega) hwm1
  rw [Circuit.st_succ, this] at hb1
  cases hb1

/-- C35, progress part: as long as the sink offers a byte, another command is executed; in particular a
rejected group is sent again. Missing: the same without a byte on offer. Needs a period of at least four
cycles and a bus clock that follows the driven clock infinitely often. -/
theorem C35_writer_progress_partial (hp : 4 ≤ period) (hst : i2cWrSinkStable period stretch i)
    (hinf : ∀ n, ∃ m, n ≤ m ∧
      (stretch = true → (i m).sclI = ((i2cWriterStream period stretch).wave i m).sclO))
    (n : Nat) (hval : ∀ m, n ≤ m → (i m).valid = true) :
    ∃ m, n ≤ m ∧ (i2cCmdLog period stretch (i2cWrCi period stretch i) n).length <
      (i2cCmdLog period stretch (i2cWrCi period stretch i) m).length := by
  have hinf' : ∀ n, ∃ m, n ≤ m ∧ i2cClockFollows period stretch (i2cWrCi period stretch i) m := by
    intro n
    obtain ⟨m, h1, h2⟩ := hinf n
    refine ⟨m, h1, fun h => ?_⟩
    rw [show (i2cWrCi period stretch i m).sclI = (i m).sclI from rfl, h2 h]
    change ((i2cWriterStream period stretch).st i m).core.sclO = _
    rw [i2cWr_core]
    rfl
  have hwait : ∀ w, (w = .waitStart ∨ w = .waitWrite ∨ w = .waitStop ∨ w = .idle) →
      ∀ m, ((i2cWriterStream period stretch).st i m).fsm = w →
      ∃ m', m ≤ m' ∧ ((i2cWriterStream period stretch).st i m').fsm = w ∧
        ((i2cWriterStream period stretch).st i m').core.busy = false := by
    intro w hw m hm
    have := i2c_wait period stretch (i2cWrCi period stretch i) hp hinf'
      (fun k => ((i2cWriterStream period stretch).st i k).fsm = w) ?_ ?_ m hm
    · obtain ⟨m', a, b, c⟩ := this
      exact ⟨m', a, b, by rw [i2cWr_core]; exact c⟩
    · intro n hf
      unfold i2cWrCi
      apply wr_strobe_none
      rw [hf]
      rcases hw with rfl | rfl | rfl | rfl <;> simp
    · intro n hf hb
      rw [← i2cWr_core] at hb
      simp only [Circuit.st_succ] at hf ⊢
      generalize (i2cWriterStream period stretch).st i n = s at *
      rcases hw with rfl | rfl | rfl | rfl <;> simp [i2cWriterStream, i2cWrFsm, hf, hb]
  -- a strobing state adds a command
  have hadd : ∀ m, n ≤ m → (((i2cWriterStream period stretch).st i m).fsm = .start ∨
      ((i2cWriterStream period stretch).st i m).fsm = .write ∨
      ((i2cWriterStream period stretch).st i m).fsm = .stop) →
      ∃ m, n ≤ m ∧ (i2cCmdLog period stretch (i2cWrCi period stretch i) n).length <
        (i2cCmdLog period stretch (i2cWrCi period stretch i) m).length := by
    intro m hm hf
    refine ⟨m + 1, by omega, ?_⟩
    have hmono := i2cCmdLog_mono period stretch (i2cWrCi period stretch i) n (m - n)
    rw [show n + (m - n) = m by omega] at hmono
    have hrel := (wr_rel period stretch i hst m (fun k => (i2cWrBytes period stretch i m).getD k 0)
      (fun _ _ => rfl)).2
    have hid : ((i2cInitiator period stretch).st (i2cWrCi period stretch i) m).fsm = .idle := by
      rw [← i2cWr_core]
      rcases hf with hf | hf | hf <;> rw [hf] at hrel <;> obtain ⟨T, _, h, _⟩ := hrel <;> exact h
    have hs : (i2cStrobe (i2cWrCi period stretch i m)).toList.length = 1 := by
      unfold i2cWrCi
      generalize (i2cWriterStream period stretch).st i m = s at *
      rcases hf with hf | hf | hf <;> simp [i2cStrobe, i2cWrCoreIn, hf]
    rw [i2cCmdLog, List.length_append, if_pos hid, hs]
    omega
  have tIdle : ∀ m, n ≤ m → ((i2cWriterStream period stretch).st i m).fsm = .idle →
      ∃ m, n ≤ m ∧ (i2cCmdLog period stretch (i2cWrCi period stretch i) n).length <
        (i2cCmdLog period stretch (i2cWrCi period stretch i) m).length := by
    intro m hm hf
    obtain ⟨m', h1, h2, h3⟩ := hwait _ (by simp) m hf
    refine hadd (m' + 1) (by omega) (.inl ?_)
    have hv := hval m' (by omega)
    rw [Circuit.st_succ]
    generalize (i2cWriterStream period stretch).st i m' = s at *
    simp [i2cWriterStream, i2cWrFsm, h2, h3, hv]
  cases hf : ((i2cWriterStream period stretch).st i n).fsm
  · exact tIdle n (Nat.le_refl _) hf
  · exact hadd n (Nat.le_refl _) (.inl hf)
  · obtain ⟨m', h1, h2, h3⟩ := hwait _ (by simp) n hf
    refine hadd (m' + 1) (by omega) (.inr (.inl ?_))
    rw [Circuit.st_succ]
    generalize (i2cWriterStream period stretch).st i m' = s at *
    simp [i2cWriterStream, i2cWrFsm, h2, h3]
  · exact hadd n (Nat.le_refl _) (.inr (.inl hf))
  · obtain ⟨m', h1, h2, h3⟩ := hwait _ (by simp) n hf
    refine hadd (m' + 1) (by omega) ?_
    have hv := hval m' (by omega)
    rw [Circuit.st_succ]
    generalize (i2cWriterStream period stretch).st i m' = s at *
    simp only [i2cWriterStream, i2cWrFsm, h2, h3, hv]
    cases s.core.ackO
    · simp
    · by_cases h : s.stage > 2 <;> simp [h]
  · exact hadd n (Nat.le_refl _) (.inr (.inr hf))
  · obtain ⟨m', h1, h2, h3⟩ := hwait _ (by simp) n hf
    refine tIdle (m' + 1) (by omega) ?_
    rw [Circuit.st_succ]
    generalize (i2cWriterStream period stretch).st i m' = s at *
    simp [i2cWriterStream, i2cWrFsm, h2, h3]

/-- Commands, outcomes and accepted bytes computed together with the registers. -/
def i2cWrRun : Nat → I2cWrS × List I2cCmd × List Bool × List (BitVec 8)
  | 0 => ((i2cWriterStream period stretch).reset, [], [], [])
  | n + 1 =>
    let r := i2cWrRun n
    let s' := (i2cWriterStream period stretch).next r.1 (i n)
    (s', r.2.1 ++ wrTaken r.1 (i n), r.2.2.1 ++ wrAcks r.2.1 r.1.core s'.core,
      r.2.2.2 ++ (if (i n).valid && ((i2cWriterStream period stretch).out r.1 (i n)).ready then
        [(i n).data] else []))

theorem i2cWrRun_eq (n : Nat) : i2cWrRun period stretch i n =
    ((i2cWriterStream period stretch).st i n,
      i2cCmdLog period stretch (i2cWrCi period stretch i) n,
      i2cAckLog period stretch (i2cWrCi period stretch i) n, i2cWrBytes period stretch i n) := by
  induction n with
  | zero => rfl
  | succ n ih =>
    rw [i2cWrRun, ih]
    refine Prod.ext rfl (Prod.ext ?_ (Prod.ext ?_ rfl))
    · simp only [wrTaken]
      rw [i2cWr_core]
      rfl
    · simp only [wrAcks]
      rw [← Circuit.st_succ, i2cWr_core, i2cWr_core]
      rfl

/-- A device that acknowledges the first two bytes only; exactly three bytes are offered. -/
def i2cWrSample (n : Nat) : I2cWrIn :=
  ⟨decide (n ≤ 157), BitVec.ofNat 8 n, true, decide (n < 8) || decide (170 < n)⟩

/-- Same, but the sender holds each byte until it is taken. -/
def i2cWrHeld (n : Nat) : I2cWrIn :=
  { i2cWrSample n with data := if n ≤ 7 then 0x40 else if n ≤ 82 then 0x41 else 0x42 }

theorem i2cWrHeld_run :
    let r := i2cWrRun 4 false i2cWrHeld 245
    r.2.1 = [.start, .write 0x40, .write 0x41, .write 0x42, .stop] ∧ r.2.2.1 = [true, true, false] ∧
      r.2.2.2 = [0x40, 0x41, 0x42] ∧ r.1.fsm = .idle ∧ r.1.core.busy = false ∧ r.1.core.fsm = .idle ∧
      r.1.stage = 3 ∧ r.1.cacheStage = 2 := by
  decide +kernel

theorem i2cWrHeld_stable : i2cWrSinkStable 4 false i2cWrHeld := by
  intro n hv hr
  by_cases h : n ≤ 6
  · simp [i2cWrHeld, i2cWrSample, show n ≤ 7 by omega, show n ≤ 157 by omega, show n ≤ 156 by omega, h]
  · by_cases h7 : n = 7
    · subst h7; exact absurd hr (by decide +kernel)
    by_cases h8 : n ≤ 81
    · simp [i2cWrHeld, i2cWrSample, show ¬ n ≤ 7 by omega, show ¬ n ≤ 6 by omega, show n ≤ 157 by omega,
        show n ≤ 156 by omega, show n ≤ 82 by omega, h8]
    by_cases h9 : n = 82
    · subst h9; exact absurd hr (by decide +kernel)
    by_cases h10 : n ≤ 156
    · simp [i2cWrHeld, i2cWrSample, show ¬ n ≤ 7 by omega, show ¬ n ≤ 6 by omega, show n ≤ 157 by omega,
        h10, show ¬ n ≤ 82 by omega, h8]
    by_cases h11 : n = 157
    · subst h11; exact absurd hr (by decide +kernel)
    · simp [i2cWrHeld, i2cWrSample, show ¬ n ≤ 157 by omega] at hv

/-- C35 refuted as stated: the third byte of a group is rejected while no further byte is on offer, and the
group is never sent again: no command follows the stop. -/
theorem C35_writer_retry_refuted :
    i2cWrSinkStable 4 false i2cWrHeld ∧
    i2cAckLog 4 false (i2cWrCi 4 false i2cWrHeld) 245 = [true, true, false] ∧
    ∀ n, 245 ≤ n → i2cCmdLog 4 false (i2cWrCi 4 false i2cWrHeld) n
      = [.start, .write 0x40, .write 0x41, .write 0x42, .stop] := by
  have hrun := i2cWrHeld_run
  rw [i2cWrRun_eq] at hrun
  obtain ⟨h1, h2, _, h3, h4, h5, h6, h7⟩ := hrun
  simp only at h1 h2 h3 h4 h5 h6 h7
  refine ⟨i2cWrHeld_stable, h2, ?_⟩
  have key : ∀ d, let s := (i2cWriterStream 4 false).st i2cWrHeld (245 + d)
      i2cCmdLog 4 false (i2cWrCi 4 false i2cWrHeld) (245 + d)
        = [.start, .write 0x40, .write 0x41, .write 0x42, .stop] ∧
      s.fsm = .idle ∧ s.core.fsm = .idle ∧ s.stage = 3 ∧ s.cacheStage = 2 := by
    intro d
    induction d with
    | zero => exact ⟨h1, h3, h5, h6, h7⟩
    | succ d ih =>
      obtain ⟨g1, g2, g3, g4, g5⟩ := ih
      have hno := wr_strobe_none _ (i2cWrHeld (245 + d)) (.inl g2)
      have hv : (i2cWrHeld (245 + d)).valid = false := by
        simp [i2cWrHeld, i2cWrSample, show ¬ 245 + d ≤ 157 by omega]
      refine ⟨?_, ?_⟩
      · rw [show 245 + (d + 1) = 245 + d + 1 from rfl, i2cCmdLog, g1]
        change _ ++ (if _ then (i2cStrobe (i2cWrCoreIn _ _)).toList else []) = _
        rw [hno]
        simp
      · rw [show 245 + (d + 1) = 245 + d + 1 from rfl, Circuit.st_succ]
        have hq := i2cCore_quiet 4 false _ _ g3 hno
        have hc := wr_core 4 false ((i2cWriterStream 4 false).st i2cWrHeld (245 + d))
          (i2cWrHeld (245 + d))
        rw [← hc] at hq
        obtain ⟨k1, _⟩ := wr_keep 4 false _ (i2cWrHeld (245 + d))
          (by rw [g2]; simp : ((i2cWriterStream 4 false).st i2cWrHeld (245 + d)).fsm ≠ .write)
        obtain ⟨c1, c2, _⟩ := wr_ctl 4 false ((i2cWriterStream 4 false).st i2cWrHeld (245 + d))
          (i2cWrHeld (245 + d))
        have hn : i2cWrFsm ((i2cWriterStream 4 false).st i2cWrHeld (245 + d)) (i2cWrHeld (245 + d)) =
            (i2cWriterStream 4 false).st i2cWrHeld (245 + d) := by
          clear hno hq hc k1 c1 c2 h1 h2 h3 h4 h5 h6 h7 g1
          generalize (i2cWriterStream 4 false).st i2cWrHeld (245 + d) = s at *
          simp [i2cWrFsm, g2, hv, i2cWrUseCache, g4, g5]
        rw [hn] at c1 c2
        exact ⟨by rw [c1, g2], hq.1, by rw [c2, g4], by rw [k1, g5]⟩
  intro n hn
  have := (key (n - 245)).1
  rwa [show 245 + (n - 245) = n by omega] at this

end

end Lambdalib
