import Verif.Props.UlpiWrapperTx

/-! C86: register writes of the UTMI to ULPI translator. -/

namespace Lambdalib

/-- A register write: `true` is for Function Control, `false` for OTG Control. -/
inductive UwOp
  | none
  | pend (k : Bool) (v : Nat)
  | done (k : Bool) (v : Nat)

def uwAddr (k : Bool) : Nat := if k then 4 else 10

def uwUpd (k : Bool) (s : UwS) : Bool := if k then s.mode.update else s.otg.update

def uwVal (k : Bool) (s : UwS) : Nat :=
  if k then 64 + (if s.mode.phyReset then 32 else 0) + 8 * s.mode.op.val + (if s.mode.term then 4 else 0) + s.mode.xcvr.val
  else (if s.otg.dm then 4 else 0) + (if s.otg.dp then 2 else 0)

/-- The register write under way in translator and PHY. -/
inductive UwReg (s : UwS) : PhySt → UwOp → Prop
  | none {m} : s.core.state = .idle ∨ s.core.state = .data → (∀ a, m ≠ .reg a) → (∀ a v, m ≠ .regVal a v) → UwReg s m .none
  | cmd {k} : s.core.state = .cmd → s.core.stp = false → s.core.data = 128 + uwAddr k → s.core.modeWrite = k →
      s.core.otgWrite = !k → uwUpd k s = true → UwReg s .idle (.pend k s.core.dataQ)
  | reg {k} : s.core.state = .reg → s.core.stp = false → s.core.data = s.core.dataQ → s.core.modeWrite = k →
      s.core.otgWrite = !k → uwUpd k s = true → s.dirQ = false → UwReg s (.reg (uwAddr k)) (.pend k s.core.dataQ)
  | lost {k} : s.core.state = .reg → s.core.stp = false → s.core.modeWrite = k →
      s.core.otgWrite = !k → uwUpd k s = true → s.dirQ = true → UwReg s .idle (.pend k s.core.dataQ)
  | done {k v} : s.core.state = .idle → s.core.stp = true → s.core.data = 0 → UwReg s (.regVal (uwAddr k) v) (.done k v)

/-- The value taken by the PHY but not yet written. -/
def UwOp.late : UwOp → List (Nat × Nat)
  | .done k v => [(uwAddr k, v)]
  | _ => []

/-- What a write may do in one cycle. -/
def UwOp.Step (s : UwS) : UwOp → UwOp → Prop
  | .pend k v, op' => op' = .pend k v ∨ op' = .none ∨ op' = .done k v
  | _, op' => op' = .none ∨ ∃ k, uwUpd k s = true ∧ op' = .pend k (uwVal k s)

/-- The write to `k` is taken in this cycle. -/
def UwOp.Takes (k : Bool) : UwOp → UwOp → Prop
  | .pend k' _, .done _ _ => k' = k
  | _, _ => False

theorem uw_upd_keep {s : UwS} {y : UwIn} {k : Bool} (h : uwUpd k s = true)
    (hd : (if k then uwModeDone s y else uwOtgDone s y) = false) : uwUpd k (ulpiWrapper.next s y) = true := by
  cases k <;> simp_all [uwUpd, ulpiWrapper, uwModeNext, uwOtgNext]

/-- From idle a write begins, or none. -/
theorem uw_reg_from_idle {s : UwS} (y : UwIn) (hs : s.core.state = .idle) :
    ∃ op', UwReg (ulpiWrapper.next s y) .idle op' ∧ (op' = .none ∨ ∃ k, uwUpd k s = true ∧ op' = .pend k (uwVal k s)) := by
  by_cases ht : uwTurn s y = false ∧ y.dir = false
  · obtain ⟨ht, hdir⟩ := ht
    by_cases hm : s.mode.update = true
    · have hc : (uwCoreNext s y).state = .cmd ∧ (uwCoreNext s y).stp = false ∧ (uwCoreNext s y).data = 0x84 ∧
          (uwCoreNext s y).modeWrite = true ∧ (uwCoreNext s y).otgWrite = false ∧ (uwCoreNext s y).dataQ = uwVal true s := by
        simp [uwCoreNext, ht, hdir, hs, hm, uwVal]
      have hu : uwUpd true (ulpiWrapper.next s y) = true :=
        uw_upd_keep (by simp [uwUpd, hm]) (by simp [uwModeDone, hs])
      have h := UwReg.cmd (s := ulpiWrapper.next s y) (k := true) hc.1 hc.2.1 hc.2.2.1 hc.2.2.2.1 hc.2.2.2.2.1 hu
      exact ⟨_, h, .inr ⟨true, by simp [uwUpd, hm], by
        change UwOp.pend true (uwCoreNext s y).dataQ = _; rw [hc.2.2.2.2.2]⟩⟩
    · rw [Bool.not_eq_true] at hm
      by_cases ho : s.otg.update = true
      · have hc : (uwCoreNext s y).state = .cmd ∧ (uwCoreNext s y).stp = false ∧ (uwCoreNext s y).data = 0x8a ∧
            (uwCoreNext s y).modeWrite = false ∧ (uwCoreNext s y).otgWrite = true ∧
            (uwCoreNext s y).dataQ = uwVal false s := by
          simp [uwCoreNext, ht, hdir, hs, hm, ho, uwVal]
        have hu : uwUpd false (ulpiWrapper.next s y) = true :=
          uw_upd_keep (by simp [uwUpd, ho]) (by simp [uwOtgDone, hs])
        have h := UwReg.cmd (s := ulpiWrapper.next s y) (k := false) hc.1 hc.2.1 hc.2.2.1 hc.2.2.2.1 hc.2.2.2.2.1 hu
        exact ⟨_, h, .inr ⟨false, by simp [uwUpd, ho], by
          change UwOp.pend false (uwCoreNext s y).dataQ = _; rw [hc.2.2.2.2.2]⟩⟩
      · rw [Bool.not_eq_true] at ho
        refine ⟨.none, .none ?_ (by simp) (by simp), .inl rfl⟩
        change (uwCoreNext s y).state = .idle ∨ (uwCoreNext s y).state = .data
        cases hb : uwBufReady s <;> simp [uwCoreNext, ht, hdir, hs, hm, ho, hb]
  · refine ⟨.none, .none (.inl ?_) (by simp) (by simp), .inl rfl⟩
    change (uwCoreNext s y).state = .idle
    cases h1 : uwTurn s y <;> cases h2 : y.dir <;> simp_all [uwCoreNext] <;>
      (repeat' split) <;> simp_all

/-- One cycle of a register write. -/
theorem uw_reg_step {s : UwS} {m : Phy} {cur o q : List Nat} {op : UwOp} (hrel : UwRel s m.st cur o q)
    (h : UwReg s m.st op) (y : UwIn)
    (hP1 : s.dirQ = true → y.dir = false → y.nxt = false)
    (hP2 : ∀ bs, m.st = .tx bs → s.core.stp = false → y.dir = false) :
    (m.step s.dirQ (uwPin s y)).writes = m.writes ++ op.late ∧
    ∃ op', UwReg (ulpiWrapper.next s y) (m.step s.dirQ (uwPin s y)).st op' ∧ op.Step s op' ∧
      (uwModeDone s y = true ↔ op.Takes true op') ∧ (uwOtgDone s y = true ↔ op.Takes false op') := by
  obtain ⟨st, pk, wr⟩ := m
  simp only at hrel h hP2
  cases h with
  | none h1 h2 h3 =>
    cases hrel with
    | idle g1 g2 g3 =>
      have hm : (Phy.step s.dirQ (uwPin s y) ⟨.idle, pk, wr⟩) = ⟨.idle, pk, wr⟩ := by simp [Phy.step, uwPin, g2]
      rw [hm]
      obtain ⟨op', ho, hs⟩ := uw_reg_from_idle y g1
      exact ⟨by simp [UwOp.late], op', ho, hs, by simp [uwModeDone, g1, UwOp.Takes], by simp [uwOtgDone, g1, UwOp.Takes]⟩
    | ended g1 g2 g3 g4 g5 =>
      have hm : (Phy.step s.dirQ (uwPin s y) ⟨.tx (maskPid cur), pk, wr⟩) = ⟨.idle, pk ++ [maskPid cur], wr⟩ := by
        simp [Phy.step, uwPin, g3]
      rw [hm]
      obtain ⟨op', ho, hs⟩ := uw_reg_from_idle y g1
      exact ⟨by simp [UwOp.late], op', ho, hs, by simp [uwModeDone, g1, UwOp.Takes], by simp [uwOtgDone, g1, UwOp.Takes]⟩
    | written => exact absurd rfl (h3 _ _)
    | cmd g1 => simp [g1] at h1
    | reg g1 => simp [g1] at h1
    | regLost g1 => simp [g1] at h1
    | @first _ p g1 g2 g3 g4 =>
      have e1 : (64 + p % 16) / 64 = 1 := by omega
      have hm : (Phy.step s.dirQ (uwPin s y) ⟨.idle, pk, wr⟩).writes = wr ∧
          (∀ a, (Phy.step s.dirQ (uwPin s y) ⟨.idle, pk, wr⟩).st ≠ .reg a) ∧
          (∀ a v, (Phy.step s.dirQ (uwPin s y) ⟨.idle, pk, wr⟩).st ≠ .regVal a v) := by
        cases a1 : s.dirQ <;> cases a2 : y.dir <;> cases a3 : y.nxt <;> simp [Phy.step, uwPin, g2, g3, a2, a3, e1]
      have hc : (uwCoreNext s y).state = .idle ∨ (uwCoreNext s y).state = .data := by
        cases a1 : s.dirQ <;> cases a2 : y.dir <;> cases a3 : y.nxt <;> cases a4 : uwBufReady s <;>
          simp [uwCoreNext, uwTurn, g1, a1, a2, a3, a4] <;> (repeat' split) <;> simp
      exact ⟨by simp [hm.1, UwOp.late], .none, .none hc hm.2.1 hm.2.2, .inl rfl,
        by simp [uwModeDone, g1, UwOp.Takes], by simp [uwOtgDone, g1, UwOp.Takes]⟩
    | data g1 g2 g3 g4 g5 =>
      have a2 : y.dir = false := hP2 _ rfl g2
      have hm : (Phy.step s.dirQ (uwPin s y) ⟨.tx (maskPid cur), pk, wr⟩).writes = wr ∧
          (∀ a, (Phy.step s.dirQ (uwPin s y) ⟨.tx (maskPid cur), pk, wr⟩).st ≠ .reg a) ∧
          (∀ a v, (Phy.step s.dirQ (uwPin s y) ⟨.tx (maskPid cur), pk, wr⟩).st ≠ .regVal a v) := by
        cases a3 : y.nxt <;> simp [Phy.step, uwPin, g2, g4, a2, a3]
      have hc : (uwCoreNext s y).state = .idle ∨ (uwCoreNext s y).state = .data := by
        cases a3 : y.nxt <;> cases a4 : uwBufReady s <;> simp [uwCoreNext, uwTurn, g1, g4, a2, a3, a4]
      exact ⟨by simp [hm.1, UwOp.late], .none, .none hc hm.2.1 hm.2.2, .inl rfl,
        by simp [uwModeDone, g1, UwOp.Takes], by simp [uwOtgDone, g1, UwOp.Takes]⟩
  | @cmd k h1 h2 h3 h4 h5 h6 =>
    have hnd : uwModeDone s y = false ∧ uwOtgDone s y = false := by simp [uwModeDone, uwOtgDone, h1]
    have hu : uwUpd k (ulpiWrapper.next s y) = true := uw_upd_keep h6 (by cases k <;> simp [hnd])
    have ek : s.core.data / 64 = 2 ∧ s.core.data % 64 = uwAddr k := by rw [h3]; cases k <;> simp [uwAddr]
    by_cases hg : s.dirQ = false ∧ y.dir = false ∧ y.nxt = true
    · obtain ⟨g1, g2, g3⟩ := hg
      have hm : (Phy.step s.dirQ (uwPin s y) ⟨.idle, pk, wr⟩) = ⟨.reg (uwAddr k), pk, wr⟩ := by
        simp [Phy.step, uwPin, h2, g1, g2, g3, ek]
      have hc : uwCoreNext s y = { s.core with stp := false, rxValid := false, state := .reg, data := s.core.dataQ } := by
        simp [uwCoreNext, uwTurn, h1, g1, g2, g3]
      rw [hm]
      have hr := UwReg.reg (s := ulpiWrapper.next s y) (k := k) (by simp [ulpiWrapper, hc]) (by simp [ulpiWrapper, hc])
        (by simp [ulpiWrapper, hc]) (by simp [ulpiWrapper, hc, h4]) (by simp [ulpiWrapper, hc, h5]) hu g2
      have hq : (ulpiWrapper.next s y).core.dataQ = s.core.dataQ := by simp [ulpiWrapper, hc]
      rw [hq] at hr
      exact ⟨by simp [UwOp.late], _, hr, .inl rfl, by simp [hnd, UwOp.Takes], by simp [hnd, UwOp.Takes]⟩
    · have hm : (Phy.step s.dirQ (uwPin s y) ⟨.idle, pk, wr⟩) = ⟨.idle, pk, wr⟩ := by
        cases g1 : s.dirQ <;> cases g2 : y.dir <;> cases g3 : y.nxt <;> simp_all [Phy.step, uwPin]
      have hc : (uwCoreNext s y).state = .cmd ∧ (uwCoreNext s y).stp = false ∧ (uwCoreNext s y).data = s.core.data ∧
          (uwCoreNext s y).modeWrite = s.core.modeWrite ∧ (uwCoreNext s y).otgWrite = s.core.otgWrite ∧
          (uwCoreNext s y).dataQ = s.core.dataQ := by
        refine ⟨?_, ?_, ?_, ?_, ?_, ?_⟩ <;>
        (cases g1 : s.dirQ <;> cases g2 : y.dir <;> cases g3 : y.nxt <;> first | (exfalso; simp_all; done) | skip) <;>
        simp [uwCoreNext, uwTurn, h1, g1, g2, g3] <;> (repeat' split) <;> rfl
      rw [hm]
      have hr := UwReg.cmd (s := ulpiWrapper.next s y) (k := k) hc.1 hc.2.1 (hc.2.2.1.trans h3) (hc.2.2.2.1.trans h4)
        (hc.2.2.2.2.1.trans h5) hu
      have hq : (ulpiWrapper.next s y).core.dataQ = s.core.dataQ := hc.2.2.2.2.2
      rw [hq] at hr
      exact ⟨by simp [UwOp.late], _, hr, .inl rfl, by simp [hnd, UwOp.Takes], by simp [hnd, UwOp.Takes]⟩
  | @reg k h1 h2 h3 h4 h5 h6 h7 =>
    cases g2 : y.dir <;> cases g3 : y.nxt
    · have hnd : uwModeDone s y = false ∧ uwOtgDone s y = false := by simp [uwModeDone, uwOtgDone, g3]
      have hu : uwUpd k (ulpiWrapper.next s y) = true := uw_upd_keep h6 (by cases k <;> simp [hnd])
      have hm : (Phy.step s.dirQ (uwPin s y) ⟨.reg (uwAddr k), pk, wr⟩) = ⟨.reg (uwAddr k), pk, wr⟩ := by
        simp [Phy.step, uwPin, h2, h7, g2, g3]
      have hc : uwCoreNext s y = { s.core with stp := false, rxValid := false } := by
        simp [uwCoreNext, uwTurn, h1, h7, g2, g3]
      rw [hm]
      have hr := UwReg.reg (s := ulpiWrapper.next s y) (k := k) (by simp [ulpiWrapper, hc, h1]) (by simp [ulpiWrapper, hc])
        (by simp [ulpiWrapper, hc, h3]) (by simp [ulpiWrapper, hc, h4]) (by simp [ulpiWrapper, hc, h5]) hu g2
      have hq : (ulpiWrapper.next s y).core.dataQ = s.core.dataQ := by simp [ulpiWrapper, hc]
      rw [hq] at hr
      exact ⟨by simp [UwOp.late], _, hr, .inl rfl, by simp [hnd, UwOp.Takes], by simp [hnd, UwOp.Takes]⟩
    · have hm : (Phy.step s.dirQ (uwPin s y) ⟨.reg (uwAddr k), pk, wr⟩) = ⟨.regVal (uwAddr k) s.core.dataQ, pk, wr⟩ := by
        simp [Phy.step, uwPin, h2, h7, g2, g3, h3]
      have hc : (uwCoreNext s y).state = .idle ∧ (uwCoreNext s y).data = 0 ∧ (uwCoreNext s y).stp = true := by
        simp [uwCoreNext, uwTurn, h1, h7, g2, g3]
      rw [hm]
      refine ⟨by simp [UwOp.late], _, .done hc.1 hc.2.2 hc.2.1, .inr (.inr rfl), ?_, ?_⟩
      · simp [uwModeDone, h1, h4, g2, g3, UwOp.Takes]
      · simp [uwOtgDone, h1, h5, g2, g3, UwOp.Takes]
    · have hnd : uwModeDone s y = false ∧ uwOtgDone s y = false := by simp [uwModeDone, uwOtgDone, g3]
      have hu : uwUpd k (ulpiWrapper.next s y) = true := uw_upd_keep h6 (by cases k <;> simp [hnd])
      have hm : (Phy.step s.dirQ (uwPin s y) ⟨.reg (uwAddr k), pk, wr⟩) = ⟨.idle, pk, wr⟩ := by
        simp [Phy.step, uwPin, h2, g2]
      have hc : uwCoreNext s y = { s.core with stp := false, rxValid := false } := by
        simp [uwCoreNext, uwTurn, h7, g2, g3]
      rw [hm]
      have hr := UwReg.lost (s := ulpiWrapper.next s y) (k := k) (by simp [ulpiWrapper, hc, h1]) (by simp [ulpiWrapper, hc])
        (by simp [ulpiWrapper, hc, h4]) (by simp [ulpiWrapper, hc, h5]) hu g2
      have hq : (ulpiWrapper.next s y).core.dataQ = s.core.dataQ := by simp [ulpiWrapper, hc]
      rw [hq] at hr
      exact ⟨by simp [UwOp.late], _, hr, .inl rfl, by simp [hnd, UwOp.Takes], by simp [hnd, UwOp.Takes]⟩
    · have hnd : uwModeDone s y = false ∧ uwOtgDone s y = false := by simp [uwModeDone, uwOtgDone, g2]
      have hm : (Phy.step s.dirQ (uwPin s y) ⟨.reg (uwAddr k), pk, wr⟩) = ⟨.idle, pk, wr⟩ := by
        simp [Phy.step, uwPin, h2, g2]
      have hc : (uwCoreNext s y).state = .idle := by simp [uwCoreNext, uwTurn, h1, h7, g2, g3]
      rw [hm]
      exact ⟨by simp [UwOp.late], .none, .none (.inl hc) (by simp) (by simp), .inr (.inl rfl),
        by simp [hnd, UwOp.Takes], by simp [hnd, UwOp.Takes]⟩
  | @lost k h1 h2 h4 h5 h6 h7 =>
    have hnd : uwModeDone s y = false ∧ uwOtgDone s y = false := by
      cases g2 : y.dir
      · simp [uwModeDone, uwOtgDone, hP1 h7 g2]
      · simp [uwModeDone, uwOtgDone, g2]
    have hm : (Phy.step s.dirQ (uwPin s y) ⟨.idle, pk, wr⟩) = ⟨.idle, pk, wr⟩ := by simp [Phy.step, uwPin, h2, h7]
    have hu : uwUpd k (ulpiWrapper.next s y) = true := uw_upd_keep h6 (by cases k <;> simp [hnd])
    rw [hm]
    cases g2 : y.dir
    · have hc : (uwCoreNext s y).state = .idle := by simp [uwCoreNext, uwTurn, h1, h7, g2]
      exact ⟨by simp [UwOp.late], .none, .none (.inl hc) (by simp) (by simp), .inr (.inl rfl),
        by simp [hnd, UwOp.Takes], by simp [hnd, UwOp.Takes]⟩
    · have hc : (uwCoreNext s y).state = .reg ∧ (uwCoreNext s y).stp = false ∧
          (uwCoreNext s y).modeWrite = s.core.modeWrite ∧ (uwCoreNext s y).otgWrite = s.core.otgWrite ∧
          (uwCoreNext s y).dataQ = s.core.dataQ := by
        refine ⟨?_, ?_, ?_, ?_, ?_⟩ <;> cases g3 : y.nxt <;> simp [uwCoreNext, uwTurn, h1, h7, g2, g3] <;>
          (repeat' split) <;> rfl
      have hr := UwReg.lost (s := ulpiWrapper.next s y) (k := k) hc.1 hc.2.1 (hc.2.2.1.trans h4)
        (hc.2.2.2.1.trans h5) hu g2
      have hq : (ulpiWrapper.next s y).core.dataQ = s.core.dataQ := hc.2.2.2.2
      rw [hq] at hr
      exact ⟨by simp [UwOp.late], _, hr, .inl rfl, by simp [hnd, UwOp.Takes], by simp [hnd, UwOp.Takes]⟩
  | @done k v h1 h2 h3 =>
    have hm : (Phy.step s.dirQ (uwPin s y) ⟨.regVal (uwAddr k) v, pk, wr⟩) = ⟨.idle, pk, wr ++ [(uwAddr k, v)]⟩ := by
      simp [Phy.step, uwPin, h2]
    rw [hm]
    obtain ⟨op', ho, hs⟩ := uw_reg_from_idle y h1
    exact ⟨by simp [UwOp.late], op', ho, hs, by simp [uwModeDone, h1, UwOp.Takes], by simp [uwOtgDone, h1, UwOp.Takes]⟩

/-- The write under way, read off the states. -/
def uwOpOf (s : UwS) (m : PhySt) : UwOp :=
  match m with
  | .regVal a v => .done (a == 4) v
  | _ => match s.core.state with
    | .cmd | .reg => .pend s.core.modeWrite s.core.dataQ
    | _ => .none

theorem UwReg.op_eq {s m op} (h : UwReg s m op) : op = uwOpOf s m := by
  cases h with
  | none h1 h2 h3 =>
    cases m with
    | regVal a v => exact absurd rfl (h3 a v)
    | _ => rcases h1 with h | h <;> simp [uwOpOf, h]
  | cmd h1 h2 h3 h4 => simp [uwOpOf, h1, h4]
  | reg h1 h2 h3 h4 => simp [uwOpOf, h1, h4]
  | lost h1 h2 h3 => simp [uwOpOf, h1, h3]
  | @done k v h1 => cases k <;> simp [uwOpOf, uwAddr]

theorem UwReg.upd {s m k v} (h : UwReg s m (.pend k v)) : uwUpd k s = true := by
  cases h <;> assumption

section
variable {x : Nat → UwIn}

def uwOp (x : Nat → UwIn) (n : Nat) : UwOp := uwOpOf (ulpiWrapper.st x n) (uwPhy x n).st

theorem uw_run (hf : UwPhyFair x) (n : Nat) :
    (∃ cur o q, UwRel (ulpiWrapper.st x n) (uwPhy x n).st cur o q) ∧ UwReg (ulpiWrapper.st x n) (uwPhy x n).st (uwOp x n) := by
  induction n with
  | zero => exact ⟨⟨_, _, _, uw_rel_init⟩, .none (.inl rfl) (by simp [uwPhy, Phy.run]) (by simp [uwPhy, Phy.run])⟩
  | succ n ih =>
    obtain ⟨⟨cur, o, q, h1⟩, h2⟩ := ih
    have hP2 := fun bs hbs hstp => hf.2 n bs hbs hstp
    have hs := uw_step h1 (x n) (hf.p1 n) hP2
    obtain ⟨-, op', hr, -⟩ := uw_reg_step h1 h2 (x n) (hf.p1 n) hP2
    rw [← uwPhy_succ, ← Circuit.st_succ] at hs hr
    refine ⟨?_, ?_⟩
    · rcases hs with ⟨-, cur', o', q', h, -⟩ | ⟨-, -, -, -, o', q', h, -⟩
      · exact ⟨_, _, _, h⟩
      · exact ⟨_, _, _, h⟩
    · rw [hr.op_eq] at hr; exact hr

theorem uw_op_step (hf : UwPhyFair x) (n : Nat) :
    (uwPhy x (n + 1)).writes = (uwPhy x n).writes ++ (uwOp x n).late ∧
    (uwOp x n).Step (ulpiWrapper.st x n) (uwOp x (n + 1)) ∧
    (uwModeDone (ulpiWrapper.st x n) (x n) = true ↔ (uwOp x n).Takes true (uwOp x (n + 1))) ∧
    (uwOtgDone (ulpiWrapper.st x n) (x n) = true ↔ (uwOp x n).Takes false (uwOp x (n + 1))) := by
  obtain ⟨⟨cur, o, q, h1⟩, h2⟩ := uw_run hf n
  obtain ⟨hw, op', hr, h3, h4, h5⟩ := uw_reg_step h1 h2 (x n) (hf.p1 n) (fun bs hbs hstp => hf.2 n bs hbs hstp)
  rw [← uwPhy_succ] at hw hr
  rw [← Circuit.st_succ] at hr
  have he : op' = uwOp x (n + 1) := hr.op_eq
  subst he
  exact ⟨hw, h3, h4, h5⟩

/-- The settings of one register as the PHY should have them. -/
def uwSetting (k first : Bool) (y : UwIn) : Nat :=
  if k then funcCtrl first y.op.val y.term y.xcvr.val else otgCtrl y.dp y.dm

/-- Values of the writes to one register. -/
def writesTo (a : Nat) (w : List (Nat × Nat)) : List Nat := w.filterMap fun p => if p.1 = a then some p.2 else none

theorem writesTo_append (a : Nat) (w w' : List (Nat × Nat)) : writesTo a (w ++ w') = writesTo a w ++ writesTo a w' := by
  simp [writesTo, List.filterMap_append]

def UwOp.lateTo (k : Bool) : UwOp → List Nat
  | .done k' v => if k' = k then [v] else []
  | _ => []

theorem writesTo_late (k : Bool) (op : UwOp) : writesTo (uwAddr k) op.late = op.lateTo k := by
  cases op with
  | done k' v => cases k <;> cases k' <;> simp [writesTo, UwOp.late, UwOp.lateTo, uwAddr]
  | _ => rfl

theorem uw_upd_pos {k : Bool} {n : Nat} (h : uwUpd k (ulpiWrapper.st x n) = true) : ∃ j, n = j + 1 := by
  cases n with
  | zero => cases k <;> exact absurd h (by simp [uwUpd, Circuit.st, ulpiWrapper])
  | succ n => exact ⟨n, rfl⟩

theorem uwVal_succ (k : Bool) (n : Nat) :
    uwVal k (ulpiWrapper.st x (n + 1)) = uwSetting k (ulpiWrapper.st x (n + 1)).mode.phyReset (x n) := by
  cases k <;> rfl

theorem mapIdx_snoc {α β : Type} (f : Nat → α → β) (l : List α) (a : α) :
    (l ++ [a]).mapIdx f = l.mapIdx f ++ [f l.length a] := by
  simp [List.mapIdx_append]

theorem take_mapIdx {α β : Type} (f : Nat → α → β) (l : List α) (n : Nat) :
    (l.mapIdx f).take n = (l.take n).mapIdx f :=
  List.ext_getElem (by simp) (by simp)

theorem mapIdx_const {α β : Type} (f : α → β) (l : List α) : l.mapIdx (fun _ a => f a) = l.map f :=
  List.ext_getElem (by simp) (by simp)

theorem isEmpty_eq_length_beq {α : Type} (l : List α) : l.isEmpty = (l.length == 0) := by cases l <;> simp

theorem uw_values (hf : UwPhyFair x) (k : Bool) (n : Nat) :
    ∃ ks : List Nat, writesTo (uwAddr k) ((uwPhy x n).writes ++ (uwOp x n).late) =
        ks.mapIdx (fun i t => uwSetting k (i == 0) (x t)) ∧
      ks.Pairwise (· < ·) ∧ (∀ t ∈ ks, t + 1 < n) ∧ (k = true → (ulpiWrapper.st x n).mode.phyReset = ks.isEmpty) ∧
      ∀ v, uwOp x n = .pend k v → ∃ t, v = uwSetting k ks.isEmpty (x t) ∧ t < n ∧ ∀ j ∈ ks, j < t := by
  induction n with
  | zero =>
    refine ⟨[], rfl, .nil, by simp, fun _ => rfl, ?_⟩
    intro v h
    exact absurd h (by simp [uwOp, uwOpOf, uwPhy, Phy.run, Circuit.st, ulpiWrapper])
  | succ n ih =>
    obtain ⟨ks, h1, h2, h3, h4, h5⟩ := ih
    obtain ⟨hw, hs, hm, -⟩ := uw_op_step hf n
    have hrun := (uw_run hf n).2
    have hrst : (ulpiWrapper.st x (n + 1)).mode.phyReset =
        if (ulpiWrapper.st x n).mode.update && uwModeDone (ulpiWrapper.st x n) (x n) then false
        else (ulpiWrapper.st x n).mode.phyReset := rfl
    rw [hw, writesTo_append, h1, writesTo_late]
    generalize hop : uwOp x n = op at *
    generalize hop' : uwOp x (n + 1) = op' at *
    have hlt : ∀ t ∈ ks, t + 1 < n + 1 := fun t ht => by have := h3 t ht; omega
    -- nothing taken
    have hkeep : ¬ op.Takes true op' → (k = true → (ulpiWrapper.st x (n + 1)).mode.phyReset = ks.isEmpty) := by
      intro hnt hk
      have : uwModeDone (ulpiWrapper.st x n) (x n) = false := by
        cases hd : uwModeDone (ulpiWrapper.st x n) (x n) with
        | false => rfl
        | true => exact absurd (hm.mp hd) hnt
      rw [hrst, this, Bool.and_false, if_neg (by simp)]
      exact h4 hk
    have hfresh : ∀ op0 : UwOp, (op' = .none ∨ ∃ k, uwUpd k (ulpiWrapper.st x n) = true ∧
        op' = .pend k (uwVal k (ulpiWrapper.st x n))) → (∀ k v, op ≠ .pend k v) →
        ∃ ks' : List Nat, (ks.mapIdx (fun i t => uwSetting k (i == 0) (x t)) ++
          op'.lateTo k) =
            ks'.mapIdx (fun i t => uwSetting k (i == 0) (x t)) ∧ ks'.Pairwise (· < ·) ∧ (∀ t ∈ ks', t + 1 < n + 1) ∧
          (k = true → (ulpiWrapper.st x (n + 1)).mode.phyReset = ks'.isEmpty) ∧
          ∀ v, op' = .pend k v → ∃ t, v = uwSetting k ks'.isEmpty (x t) ∧ t < n + 1 ∧ ∀ j ∈ ks', j < t := by
      intro _ hstep hnp
      have hnt : ¬ op.Takes true op' := by
        cases op with
        | pend k v => exact absurd rfl (hnp k v)
        | _ => simp [UwOp.Takes]
      rcases hstep with h | ⟨k', hu, h⟩
      · subst h
        exact ⟨ks, by simp [UwOp.lateTo], h2, hlt, hkeep hnt, by simp⟩
      · subst h
        refine ⟨ks, by simp [UwOp.lateTo], h2, hlt, hkeep hnt, ?_⟩
        intro v hv
        injection hv with hk hv
        subst hk
        obtain ⟨j, rfl⟩ := uw_upd_pos hu
        refine ⟨j, ?_, by omega, fun i hi => by have := h3 i hi; omega⟩
        rw [← hv, uwVal_succ]
        cases k' with
        | true => rw [h4 rfl]
        | false => rfl
    cases op with
    | none => exact hfresh .none hs (by simp)
    | done k' v => exact hfresh .none hs (by simp)
    | pend k' v =>
      rcases hs with h | h | h
      · subst h
        refine ⟨ks, by simp [UwOp.lateTo], h2, hlt, hkeep (by simp [UwOp.Takes]), ?_⟩
        intro v' hv
        obtain ⟨t, e1, e2, e3⟩ := h5 v' hv
        exact ⟨t, e1, by omega, e3⟩
      · subst h
        exact ⟨ks, by simp [UwOp.lateTo], h2, hlt, hkeep (by simp [UwOp.Takes]), by simp⟩
      · subst h
        by_cases hk : k' = k
        · subst hk
          obtain ⟨t, e1, e2, e3⟩ := h5 v rfl
          have htn : t + 1 < n + 1 := by omega
          refine ⟨ks ++ [t], ?_, ?_, ?_, ?_, by simp⟩
          · rw [mapIdx_snoc, e1, isEmpty_eq_length_beq]; simp [UwOp.lateTo]
          · rw [List.pairwise_append]
            exact ⟨h2, by simp, fun a ha b hb => by rw [List.mem_singleton.mp hb]; exact e3 a ha⟩
          · intro j hj
            rcases List.mem_append.mp hj with h | h
            · exact hlt j h
            · rw [List.mem_singleton.mp h]; exact htn
          · intro hk
            subst hk
            have hd := hm.mpr (by simp [UwOp.Takes])
            have hu : (ulpiWrapper.st x n).mode.update = true := hrun.upd
            rw [hrst, hd, hu]
            simp
        · refine ⟨ks, by simp [UwOp.lateTo, hk], h2, hlt, ?_, by simp⟩
          intro hk'
          refine hkeep ?_ hk'
          simp only [UwOp.Takes]
          intro h
          exact hk (h.trans hk'.symm)

/-- C86: what is written to the Function Control register of the PHY are the settings at cycles in increasing order, with
the reset bit in the first write and in no other; what is written to the OTG Control register are the pull-down settings
at cycles in increasing order. No other register is written. -/
theorem C86_values (hf : UwPhyFair x) (n : Nat) :
    (∃ ts : List Nat, writesTo 4 (uwPhy x n).writes =
      ts.mapIdx (fun i t => funcCtrl (i == 0) (x t).op.val (x t).term (x t).xcvr.val) ∧
      ts.Pairwise (· < ·) ∧ ∀ t ∈ ts, t < n) ∧
    (∃ ts : List Nat, writesTo 10 (uwPhy x n).writes = ts.map (fun t => otgCtrl (x t).dp (x t).dm) ∧
      ts.Pairwise (· < ·) ∧ ∀ t ∈ ts, t < n) ∧
    ∀ w ∈ (uwPhy x n).writes, w.1 = 4 ∨ w.1 = 10 := by
  have main : ∀ k, ∃ ts : List Nat, writesTo (uwAddr k) (uwPhy x n).writes =
      ts.mapIdx (fun i t => uwSetting k (i == 0) (x t)) ∧ ts.Pairwise (· < ·) ∧ ∀ t ∈ ts, t < n := by
    intro k
    obtain ⟨ks, h1, h2, h3, -⟩ := uw_values hf k n
    rw [writesTo_append] at h1
    have hp : writesTo (uwAddr k) (uwPhy x n).writes =
        (ks.take (writesTo (uwAddr k) (uwPhy x n).writes).length).mapIdx (fun i t => uwSetting k (i == 0) (x t)) := by
      have := congrArg (List.take (writesTo (uwAddr k) (uwPhy x n).writes).length) h1
      rw [List.take_left] at this
      exact this.trans (take_mapIdx _ _ _)
    refine ⟨_, hp, h2.sublist (List.take_sublist _ _), ?_⟩
    intro t ht
    have := h3 t (List.mem_of_mem_take ht)
    omega
  refine ⟨main true, ?_, ?_⟩
  · obtain ⟨ts, h1, h2, h3⟩ := main false
    exact ⟨ts, h1.trans (mapIdx_const _ _), h2, h3⟩
  · clear main
    induction n with
    | zero => simp [uwPhy, Phy.run]
    | succ n ih =>
      intro w hw
      rw [(uw_op_step hf n).1] at hw
      rcases List.mem_append.mp hw with h | h
      · exact ih w h
      · generalize uwOp x n = op at h
        cases op with
        | done k v =>
          rw [UwOp.late, List.mem_singleton] at h
          subst h
          cases k <;> simp [uwAddr]
        | _ => simp [UwOp.late] at h

/-- The part of the register that holds settings: Function Control without the reset and suspend bits. -/
def uwLow (k : Bool) (v : Nat) : Nat := if k then v % 32 else v

/-- The settings in the cycle before; before the first cycle those assumed at power-on. -/
def uwBefore (x : Nat → UwIn) (k : Bool) : Nat → Nat
  | 0 => if k then 24 else 6
  | n + 1 => uwLow k (uwSetting k false (x n))

/-- The settings of a register change in cycle `n`. -/
def uwChange (x : Nat → UwIn) (k : Bool) (n : Nat) : Bool := uwBefore x k n != uwBefore x k (n + 1)

/-- The PHY takes a value for the register in cycle `n`. -/
def uwTaken (x : Nat → UwIn) (k : Bool) (n : Nat) : Bool :=
  match (uwPhy x (n + 1)).st with | .regVal a _ => a == uwAddr k | _ => false

/-- The settings have changed since the PHY took the last value for the register. -/
def uwUnsettled (x : Nat → UwIn) (k : Bool) : Nat → Bool
  | 0 => false
  | n + 1 => if uwTaken x k n then false else uwChange x k n || uwUnsettled x k n

theorem uwLow_setting (k first : Bool) (y : UwIn) : uwLow k (uwSetting k first y) = uwLow k (uwSetting k false y) := by
  cases k
  · rfl
  · simp only [uwLow, uwSetting, funcCtrl, if_pos]
    cases first <;> simp <;> omega

theorem uwLow_val (k : Bool) (n : Nat) : uwLow k (uwVal k (ulpiWrapper.st x n)) = uwBefore x k n := by
  cases n with
  | zero =>
    cases k
    · rfl
    · simp [uwLow, uwVal, uwBefore, Circuit.st, ulpiWrapper]
      decide
  | succ n => rw [uwVal_succ, uwLow_setting]; rfl

theorem uwBefore_eq (k : Bool) (n : Nat) :
    uwBefore x k n = uwLow k (if k then funcCtrl false (ulpiWrapper.st x n).mode.op.val (ulpiWrapper.st x n).mode.term
      (ulpiWrapper.st x n).mode.xcvr.val else otgCtrl (ulpiWrapper.st x n).otg.dp (ulpiWrapper.st x n).otg.dm) := by
  cases n with
  | zero =>
    cases k
    · rfl
    · simp [uwLow, funcCtrl, uwBefore, Circuit.st, ulpiWrapper]
      decide
  | succ n => cases k <;> rfl

theorem func_inj (o o' : Fin 4) (t t' : Bool) (v v' : Fin 4) :
    (funcCtrl false o.val t v.val % 32 != funcCtrl false o'.val t' v'.val % 32) = (o != o' || t != t' || v != v') := by
  revert o o' t t' v v'; decide

theorem otg_inj (a a' b b' : Bool) : (otgCtrl a b != otgCtrl a' b') = (a != a' || b != b') := by
  revert a a' b b'; decide

theorem uwChange_true (n : Nat) : uwChange x true n = ((ulpiWrapper.st x n).mode.op != (x n).op ||
    (ulpiWrapper.st x n).mode.term != (x n).term || (ulpiWrapper.st x n).mode.xcvr != (x n).xcvr) := by
  rw [uwChange, uwBefore_eq]
  exact func_inj _ _ _ _ _ _

theorem uwChange_false (n : Nat) : uwChange x false n = ((ulpiWrapper.st x n).otg.dp != (x n).dp ||
    (ulpiWrapper.st x n).otg.dm != (x n).dm) := by
  rw [uwChange, uwBefore_eq]
  exact otg_inj _ _ _ _

theorem uw_taken_iff (hf : UwPhyFair x) (k : Bool) (n : Nat) :
    uwTaken x k n = true ↔ (uwOp x n).Takes k (uwOp x (n + 1)) := by
  have h1 := (uw_run hf (n + 1)).2
  obtain ⟨-, hs, -⟩ := uw_op_step hf n
  unfold uwTaken
  generalize uwOp x (n + 1) = op' at *
  generalize (uwPhy x (n + 1)).st = m at *
  generalize uwOp x n = op at *
  cases h1 with
  | @done k' v _ _ _ =>
    cases op with
    | pend k'' v' =>
      have hk : k' = k'' := by
        rcases hs with h | h | h
        · cases h
        · cases h
        · injection h
      subst hk
      cases k <;> cases k' <;> simp [uwAddr, UwOp.Takes]
    | none => rcases hs with h | ⟨_, _, h⟩ <;> cases h
    | done => rcases hs with h | ⟨_, _, h⟩ <;> cases h
  | none h1 h2 h3 =>
    have : ¬ op.Takes k .none := by cases op <;> simp [UwOp.Takes]
    cases m with
    | regVal a v => exact absurd rfl (h3 a v)
    | _ => simp [this]
  | cmd => cases op <;> simp [UwOp.Takes]
  | reg => cases op <;> simp [UwOp.Takes]
  | lost => cases op <;> simp [UwOp.Takes]

theorem uw_unsettled (hf : UwPhyFair x) (k : Bool) (n : Nat) : uwUpd k (ulpiWrapper.st x n) = uwUnsettled x k n := by
  induction n with
  | zero => cases k <;> rfl
  | succ n ih =>
    have ht := uw_taken_iff hf k n
    obtain ⟨-, hs, hm, ho⟩ := uw_op_step hf n
    have hrun := (uw_run hf n).2
    have hup : uwTaken x k n = true → uwUpd k (ulpiWrapper.st x n) = true := by
      intro h
      have h := ht.mp h
      generalize uwOp x n = op at *
      generalize uwOp x (n + 1) = op' at *
      cases op <;> cases op' <;> simp only [UwOp.Takes] at h
      subst h
      exact hrun.upd
    rw [uwUnsettled, ← ih]
    cases k with
    | true =>
      have hd : uwModeDone (ulpiWrapper.st x n) (x n) = uwTaken x true n := by
        rw [Bool.eq_iff_iff, hm, ht]
      have he : uwUpd true (ulpiWrapper.st x (n + 1)) =
          if (ulpiWrapper.st x n).mode.update && uwModeDone (ulpiWrapper.st x n) (x n) then false
          else if uwChange x true n then true else (ulpiWrapper.st x n).mode.update := by
        rw [uwChange_true]; rfl
      rw [he, hd]
      change uwTaken x true n = true → (ulpiWrapper.st x n).mode.update = true at hup
      change _ = if uwTaken x true n = true then false else uwChange x true n || (ulpiWrapper.st x n).mode.update
      cases h1 : uwTaken x true n <;> cases h2 : (ulpiWrapper.st x n).mode.update <;> simp_all
    | false =>
      have hd : uwOtgDone (ulpiWrapper.st x n) (x n) = uwTaken x false n := by
        rw [Bool.eq_iff_iff, ho, ht]
      have he : uwUpd false (ulpiWrapper.st x (n + 1)) =
          if (ulpiWrapper.st x n).otg.update && uwOtgDone (ulpiWrapper.st x n) (x n) then false
          else if uwChange x false n then true else (ulpiWrapper.st x n).otg.update := by
        rw [uwChange_false]; rfl
      rw [he, hd]
      change uwTaken x false n = true → (ulpiWrapper.st x n).otg.update = true at hup
      change _ = if uwTaken x false n = true then false else uwChange x false n || (ulpiWrapper.st x n).otg.update
      cases h1 : uwTaken x false n <;> cases h2 : (ulpiWrapper.st x n).otg.update <;> simp_all

theorem uw_latest (hf : UwPhyFair x) (k : Bool) (hc : ∀ n, uwChange x k n = true → uwUnsettled x k n = false) (n : Nat) :
    (∀ v, uwOp x n = .pend k v → uwLow k v = uwBefore x k n) ∧
    (uwUnsettled x k n = false →
      (writesTo (uwAddr k) ((uwPhy x n).writes ++ (uwOp x n).late)).getLast?.map (uwLow k) = some (uwBefore x k n) ∨
      ((writesTo (uwAddr k) ((uwPhy x n).writes ++ (uwOp x n).late)) = [] ∧ uwBefore x k n = uwBefore x k 0)) := by
  induction n with
  | zero =>
    refine ⟨?_, fun _ => .inr ⟨rfl, rfl⟩⟩
    intro v h
    exact absurd h (by simp [uwOp, uwOpOf, uwPhy, Phy.run, Circuit.st, ulpiWrapper])
  | succ n ih =>
    obtain ⟨i1, i2⟩ := ih
    obtain ⟨hw, hs, -⟩ := uw_op_step hf n
    have hrun := (uw_run hf n).2
    have ht := uw_taken_iff hf k n
    have hv := uwLow_val (x := x) k n
    have hu := uw_unsettled hf k n
    have hcn := hc n
    have hpend : ∀ v, uwOp x n = .pend k v → uwUnsettled x k n = true := by
      intro v hp; rw [hp] at hrun; rw [← hu]; exact hrun.upd
    rw [hw, writesTo_append, writesTo_late]
    change _ ∧ ((if uwTaken x k n then false else uwChange x k n || uwUnsettled x k n) = false → _)
    generalize hW : writesTo (uwAddr k) ((uwPhy x n).writes ++ (uwOp x n).late) = W at *
    generalize hop : uwOp x n = op at *
    generalize hop' : uwOp x (n + 1) = op' at *
    -- whether the settings change
    cases hch : uwChange x k n with
    | true =>
      have hun := hcn hch
      have hnp : ∀ v, op ≠ .pend k v := fun v h => by rw [hpend v h] at hun; cases hun
      have hnt : uwTaken x k n = false := by
        cases h : uwTaken x k n with
        | false => rfl
        | true =>
          have h := ht.mp h
          cases op <;> cases op' <;> simp only [UwOp.Takes] at h
          subst h
          exact absurd rfl (hnp _)
      refine ⟨?_, by simp [hnt]⟩
      intro v hv'
      subst hv'
      exfalso
      cases op with
      | pend k' v' =>
        rcases hs with h | h | h
        · injection h with h1 h2; subst h1; exact hnp _ rfl
        · cases h
        · cases h
      | none =>
        rcases hs with h | ⟨k', h1, h2⟩
        · cases h
        · injection h2 with h2 h3; subst h2; rw [hu, hun] at h1; cases h1
      | done =>
        rcases hs with h | ⟨k', h1, h2⟩
        · cases h
        · injection h2 with h2 h3; subst h2; rw [hu, hun] at h1; cases h1
    | false =>
      have heq : uwBefore x k (n + 1) = uwBefore x k n := by
        have : ¬ uwBefore x k n ≠ uwBefore x k (n + 1) := by
          intro hne
          rw [uwChange, bne_iff_ne.mpr hne] at hch
          cases hch
        exact (Classical.not_not.mp this).symm
      rw [heq]
      have hfresh : (op' = .none ∨ ∃ k, uwUpd k (ulpiWrapper.st x n) = true ∧
          op' = .pend k (uwVal k (ulpiWrapper.st x n))) → ¬ op.Takes k op' →
          (∀ v, op' = .pend k v → uwLow k v = uwBefore x k n) ∧
          ((if uwTaken x k n then false else false || uwUnsettled x k n) = false →
            (W ++ op'.lateTo k).getLast?.map (uwLow k) = some (uwBefore x k n) ∨
            (W ++ op'.lateTo k = [] ∧ uwBefore x k n = uwBefore x k 0)) := by
        intro h hnt
        have hnt' : uwTaken x k n = false := by
          cases h : uwTaken x k n with
          | false => rfl
          | true => exact absurd (ht.mp h) hnt
        rw [hnt']
        rcases h with h | ⟨k', h1, h2⟩
        · subst h
          exact ⟨by simp, by simpa [UwOp.lateTo] using i2⟩
        · subst h2
          refine ⟨?_, by simpa [UwOp.lateTo] using i2⟩
          intro v h
          injection h with e1 e2
          subst e1 e2
          exact hv
      cases op with
      | none => exact hfresh hs (by cases op' <;> simp [UwOp.Takes])
      | done k' v' => exact hfresh hs (by cases op' <;> simp [UwOp.Takes])
      | pend k' v' =>
        have hnt' : op' ≠ .done k v' → uwTaken x k n = false := by
          intro hne
          cases h : uwTaken x k n with
          | false => rfl
          | true =>
            have h := ht.mp h
            cases op' <;> simp only [UwOp.Takes] at h
            subst h
            rcases hs with h | h | h
            · cases h
            · cases h
            · exact absurd h hne
        rcases hs with h | h | h
        · subst h
          rw [hnt' (by simp)]
          exact ⟨i1, by simpa [UwOp.lateTo] using i2⟩
        · subst h
          rw [hnt' (by simp)]
          exact ⟨by simp, by simpa [UwOp.lateTo] using i2⟩
        · subst h
          refine ⟨by simp, ?_⟩
          by_cases hk : k' = k
          · subst hk
            intro _
            left
            simp [UwOp.lateTo, i1 v' rfl]
          · rw [hnt' (by simp [hk])]
            simpa [UwOp.lateTo, hk] using i2

/-- C86: if the settings of a register do not change again before the PHY has taken them, then the latest write to the
register holds the settings, once the PHY has taken a value since their last change (before any change there is no write).
Missing: settings that change while a write is waiting or under way, see `C86_refuted`. -/
theorem C86_latest_partial (hf : UwPhyFair x) (k : Bool)
    (hc : ∀ n, uwChange x k n = true → uwUnsettled x k n = false) (n : Nat)
    (hn : uwUnsettled x k n = false) (hstp : (ulpiWrapper.wave x n).stp = false) :
    (writesTo (uwAddr k) (uwPhy x n).writes).getLast?.map (uwLow k) = some (uwBefore x k n) ∨
    (writesTo (uwAddr k) (uwPhy x n).writes = [] ∧ uwBefore x k n = uwBefore x k 0) := by
  have h := (uw_latest hf k hc n).2 hn
  have hl : (uwOp x n).late = [] := by
    have hr := (uw_run hf n).2
    generalize uwOp x n = op at *
    generalize (uwPhy x n).st = m at *
    cases hr with
    | done h1 h2 h3 => exact absurd (h2.symm.trans hstp) (by simp)
    | _ => rfl
  rw [hl, List.append_nil] at h
  exact h

end

/-- Full speed settings from the second cycle, changed to high speed settings in the cycle given. -/
def uwRegDemo (late : Nat) (n : Nat) : UwIn :=
  { data := 0, dir := false, nxt := true, txData := 0, txValid := false
    op := 0, xcvr := if n < late then 1 else 0, term := decide (n < late), dp := false, dm := false }

theorem uwRegDemo_fair (late : Nat) : UwPhyFair (uwRegDemo late) := ⟨fun _ h => (by cases h), fun _ _ _ _ => rfl⟩

/-- From cycle 20 on nothing changes. -/
theorem uwRegDemo_fix (n : Nat) : ulpiWrapper.st (uwRegDemo 2) (n + 20) = ulpiWrapper.st (uwRegDemo 2) 20 ∧
    uwPhy (uwRegDemo 2) (n + 20) = uwPhy (uwRegDemo 2) 20 := by
  have hx : ∀ m, uwRegDemo 2 (m + 20) = uwRegDemo 2 20 := by
    intro m; simp [uwRegDemo]
  have h1 : ulpiWrapper.next (ulpiWrapper.st (uwRegDemo 2) 20) (uwRegDemo 2 20) = ulpiWrapper.st (uwRegDemo 2) 20 := by
    decide +kernel
  have h2 : (uwPhy (uwRegDemo 2) 20).step (ulpiWrapper.st (uwRegDemo 2) 20).dirQ
      (uwPin (ulpiWrapper.st (uwRegDemo 2) 20) (uwRegDemo 2 20)) = uwPhy (uwRegDemo 2) 20 := by
    decide +kernel
  induction n with
  | zero => exact ⟨rfl, rfl⟩
  | succ n ih =>
    rw [Nat.add_right_comm, Circuit.st_succ, uwPhy_succ, ih.1, ih.2, hx]
    exact ⟨h1, h2⟩

/-- C86 in full, that the register ends up with settings that no longer change, is false: the settings change while a
write is under way; the PHY is always ready and never interrupts, and is never told. -/
theorem C86_refuted : ∃ x : Nat → UwIn, UwPhyFair x ∧ (∀ n, (x n).nxt = true ∧ (x n).dir = false) ∧
    (∀ n, 2 ≤ n → uwBefore x true (n + 1) = 0) ∧
    ∀ n, 20 ≤ n → (writesTo 4 (uwPhy x n).writes).getLast?.map (· % 32) = some 5 := by
  refine ⟨uwRegDemo 2, uwRegDemo_fair 2, fun n => ⟨rfl, rfl⟩, ?_, ?_⟩
  · intro n hn
    have : ¬ n < 2 := by omega
    simp [uwBefore, uwLow, uwSetting, funcCtrl, uwRegDemo, this]
  · intro n hn
    obtain ⟨k, rfl⟩ : ∃ k, n = k + 20 := ⟨n - 20, by omega⟩
    rw [(uwRegDemo_fix k).2]
    decide +kernel

/-- The settings change once more after the PHY has taken them: both are written, with the reset bit only once. -/
example : (uwPhy (uwRegDemo 12) 24).writes = [(4, 0x65), (10, 0), (4, 0x40)] ∧
    (∀ n < 24, uwChange (uwRegDemo 12) true n = true → uwUnsettled (uwRegDemo 12) true n = false) ∧
    uwUnsettled (uwRegDemo 12) true 24 = false ∧ uwBefore (uwRegDemo 12) true 24 = 0 := by decide +kernel

end Lambdalib
