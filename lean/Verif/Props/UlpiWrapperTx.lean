import Verif.Model.UlpiWrapper
import Verif.Spec.UlpiPhy

/-! C85: transmitting through the UTMI to ULPI translator. -/

namespace Lambdalib

/-- The queue held in the transmit buffer. -/
inductive UwQueue : UwBuf → List Nat → Prop
  | empty {b : UwBuf} : b.v0 = false → b.v1 = false → b.wr = b.rd → UwQueue b []
  | one0 {b : UwBuf} : b.v0 = true → b.v1 = false → b.wr = true → b.rd = false → UwQueue b [b.b0]
  | one1 {b : UwBuf} : b.v0 = false → b.v1 = true → b.wr = false → b.rd = true → UwQueue b [b.b1]
  | two0 {b : UwBuf} : b.v0 = true → b.v1 = true → b.wr = false → b.rd = false → UwQueue b [b.b0, b.b1]
  | two1 {b : UwBuf} : b.v0 = true → b.v1 = true → b.wr = true → b.rd = true → UwQueue b [b.b1, b.b0]

theorem UwQueue.ready {s : UwS} {q : List Nat} (h : UwQueue s.buf q) :
    uwTxReady s = (decide (q.length < 2) && s.delay == 0) := by
  unfold uwTxReady
  cases h with
  | empty h1 h2 h3 => simp [h1, h2]
  | one0 h1 h2 h3 h4 => simp [h1, h2, h3]
  | one1 h1 h2 h3 h4 => simp [h1, h2, h3]
  | two0 h1 h2 h3 h4 => simp [h1, h2, h3]
  | two1 h1 h2 h3 h4 => simp [h1, h2, h3]

theorem UwQueue.bufReady {s : UwS} {q : List Nat} (h : UwQueue s.buf q) : uwBufReady s = !q.isEmpty := by
  unfold uwBufReady
  cases h with
  | empty h1 h2 h3 => simp [h1, h2]
  | one0 h1 h2 h3 h4 => simp [h1, h4]
  | one1 h1 h2 h3 h4 => simp [h2, h4]
  | two0 h1 h2 h3 h4 => simp [h1, h4]
  | two1 h1 h2 h3 h4 => simp [h2, h4]

theorem UwQueue.bufData {s : UwS} {q : List Nat} (h : UwQueue s.buf q) (hq : q ≠ []) :
    q = uwBufData s :: q.tail := by
  unfold uwBufData
  cases h with
  | empty h1 h2 h3 => exact absurd rfl hq
  | one0 h1 h2 h3 h4 => simp [h4]
  | one1 h1 h2 h3 h4 => simp [h4]
  | two0 h1 h2 h3 h4 => simp [h4]
  | two1 h1 h2 h3 h4 => simp [h4]

theorem UwQueue.length_le {b : UwBuf} {q : List Nat} (h : UwQueue b q) : q.length ≤ 2 := by
  cases h <;> simp

/-- The byte accepted from UTMI in a cycle. -/
def uwAcc (s : UwS) (y : UwIn) : List Nat := if y.txValid && uwTxReady s then [y.txData] else []

theorem UwQueue.next {s : UwS} {q : List Nat} (h : UwQueue s.buf q) (y : UwIn) :
    UwQueue (uwBufNext s y) ((if uwAccept s y then q.tail else q) ++ uwAcc s y) := by
  have hr := h.ready
  have hb := h.bufReady
  unfold uwBufNext uwAcc
  rw [hr, hb]
  generalize uwAccept s y = a
  obtain ⟨mode, otg, dirQ, delay, buf, core⟩ := s
  obtain ⟨data, dir, nxt, txData, txValid, op, xcvr, term, dp, dm⟩ := y
  obtain ⟨b0, b1, v0, v1, wr, rd⟩ := buf
  simp only at h ⊢
  generalize (delay == 0) = d
  cases h with
  | empty h1 h2 h3 =>
    simp only at h1 h2 h3
    subst h1 h2 h3
    cases txValid <;> cases d <;> cases wr <;> cases a <;> simp <;>
      first | exact .empty rfl rfl rfl | exact .one0 rfl rfl rfl rfl | exact .one1 rfl rfl rfl rfl
  | one0 h1 h2 h3 h4 =>
    simp only at h1 h2 h3 h4
    subst h1 h2 h3 h4
    cases txValid <;> cases d <;> cases a <;> simp <;>
      first
      | exact .empty rfl rfl rfl | exact .one0 rfl rfl rfl rfl | exact .one1 rfl rfl rfl rfl
      | exact .two0 rfl rfl rfl rfl | exact .two1 rfl rfl rfl rfl
  | one1 h1 h2 h3 h4 =>
    simp only at h1 h2 h3 h4
    subst h1 h2 h3 h4
    cases txValid <;> cases d <;> cases a <;> simp <;>
      first
      | exact .empty rfl rfl rfl | exact .one0 rfl rfl rfl rfl | exact .one1 rfl rfl rfl rfl
      | exact .two0 rfl rfl rfl rfl | exact .two1 rfl rfl rfl rfl
  | two0 h1 h2 h3 h4 =>
    simp only at h1 h2 h3 h4
    subst h1 h2 h3 h4
    cases txValid <;> cases d <;> cases a <;> simp <;>
      first
      | exact .empty rfl rfl rfl | exact .one0 rfl rfl rfl rfl | exact .one1 rfl rfl rfl rfl
      | exact .two0 rfl rfl rfl rfl | exact .two1 rfl rfl rfl rfl
  | two1 h1 h2 h3 h4 =>
    simp only at h1 h2 h3 h4
    subst h1 h2 h3 h4
    cases txValid <;> cases d <;> cases a <;> simp <;>
      first
      | exact .empty rfl rfl rfl | exact .one0 rfl rfl rfl rfl | exact .one1 rfl rfl rfl rfl
      | exact .two0 rfl rfl rfl rfl | exact .two1 rfl rfl rfl rfl

/-- Translator and PHY together: `cur` are the bytes of the transmission the PHY has taken, `out` is a byte taken from the
buffer and shown on the bus, `q` the bytes in the buffer. -/
inductive UwRel (s : UwS) : PhySt → List Nat → List Nat → List Nat → Prop
  | idle {q} : s.core.state = .idle → s.core.data = 0 → UwQueue s.buf q → UwRel s .idle [] [] q
  | ended {q cur} : s.core.state = .idle → s.core.data = 0 → s.core.stp = true → cur ≠ [] → UwQueue s.buf q →
      UwRel s (.tx (maskPid cur)) cur [] q
  | written {q a v} : s.core.state = .idle → s.core.data = 0 → s.core.stp = true → UwQueue s.buf q → UwRel s (.regVal a v) [] [] q
  | cmd {q} : s.core.state = .cmd → s.core.stp = false → s.core.data / 64 = 2 → UwQueue s.buf q → UwRel s .idle [] [] q
  | first {q p} : s.core.state = .data → s.core.stp = false → s.core.data = 64 + p % 16 → UwQueue s.buf q →
      UwRel s .idle [] [p] q
  | data {q cur} : s.core.state = .data → s.core.stp = false → cur ≠ [] → s.dirQ = false → UwQueue s.buf q →
      UwRel s (.tx (maskPid cur)) cur [s.core.data] q
  | reg {q a} : s.core.state = .reg → s.core.stp = false → s.dirQ = false → UwQueue s.buf q → UwRel s (.reg a) [] [] q
  | regLost {q} : s.core.state = .reg → s.core.stp = false → s.dirQ = true → UwQueue s.buf q → UwRel s .idle [] [] q

theorem UwRel.queue {s m cur o q} (h : UwRel s m cur o q) : UwQueue s.buf q := by
  cases h <;> assumption

/-- The pins of the PHY in a cycle. -/
def uwPin (s : UwS) (y : UwIn) : PhyPins := ⟨y.dir, y.nxt, s.core.data, s.core.stp⟩

theorem maskPid_append {l : List Nat} (h : l ≠ []) (a : Nat) : maskPid (l ++ [a]) = maskPid l ++ [a] := by
  cases l with
  | nil => exact absurd rfl h
  | cons b l => rfl

/-- From idle: a register write, a transmission, or nothing. -/
theorem uw_from_idle {s : UwS} (y : UwIn) {q : List Nat} (hs : s.core.state = .idle) (hd : s.core.data = 0)
    (hq : UwQueue s.buf q) :
    (∃ o' q', UwRel (ulpiWrapper.next s y) .idle [] o' q' ∧ o' ++ q' = q ++ uwAcc s y ∧ o'.length ≤ 1) := by
  have hn := hq.next y
  have hb := hq.bufReady
  by_cases ht : uwTurn s y = false ∧ y.dir = false
  · obtain ⟨ht, hdir⟩ := ht
    by_cases hm : s.mode.update = true
    · have ha : uwAccept s y = false := by simp [uwAccept, hs, hm]
      have hc : uwCoreNext s y = { s.core with
          stp := false, rxValid := false
          dataQ := 64 + (if s.mode.phyReset then 32 else 0) + 8 * s.mode.op.val + (if s.mode.term then 4 else 0) +
            s.mode.xcvr.val
          data := 0x84, otgWrite := false, modeWrite := true, state := .cmd } := by
        simp [uwCoreNext, ht, hdir, hs, hm]
      rw [ha] at hn
      exact ⟨[], _, .cmd (by simp [ulpiWrapper, hc]) (by simp [ulpiWrapper, hc]) (by simp [ulpiWrapper, hc]) hn, by simp,
        by simp⟩
    · rw [Bool.not_eq_true] at hm
      by_cases ho : s.otg.update = true
      · have ha : uwAccept s y = false := by simp [uwAccept, hs, ho]
        have hc : (uwCoreNext s y).state = .cmd ∧ (uwCoreNext s y).stp = false ∧ (uwCoreNext s y).data = 0x8a := by
          simp [uwCoreNext, ht, hdir, hs, hm, ho]
        rw [ha] at hn
        exact ⟨[], _, .cmd hc.1 hc.2.1 (by change (uwCoreNext s y).data / 64 = 2; rw [hc.2.2]) hn, by simp, by simp⟩
      · rw [Bool.not_eq_true] at ho
        have ha : uwAccept s y = true := by simp [uwAccept, hs, ho, hm, ht, hdir]
        rw [ha] at hn
        by_cases hqe : q = []
        · subst hqe
          have hc : (uwCoreNext s y).state = .idle ∧ (uwCoreNext s y).data = 0 := by
            simp [uwCoreNext, ht, hdir, hs, hm, ho, hb, hd]
          exact ⟨[], _, .idle hc.1 hc.2 hn, by simp, by simp⟩
        · have hb' : uwBufReady s = true := by rw [hb]; cases q <;> simp_all
          have hbd := hq.bufData hqe
          have hc : (uwCoreNext s y).state = .data ∧ (uwCoreNext s y).stp = false ∧
              (uwCoreNext s y).data = 64 + uwBufData s % 16 := by
            simp [uwCoreNext, ht, hdir, hs, hm, ho, hb']
          refine ⟨[uwBufData s], _, .first hc.1 hc.2.1 hc.2.2 hn, ?_, by simp⟩
          rw [if_pos rfl]
          generalize q.tail = t at hbd
          rw [hbd]
          simp
  · have ha : uwAccept s y = false := by
      cases h1 : uwTurn s y <;> cases h2 : y.dir <;> simp_all [uwAccept]
    rw [ha] at hn
    have hc : (uwCoreNext s y).state = .idle ∧ (uwCoreNext s y).data = 0 := by
      cases h1 : uwTurn s y <;> cases h2 : y.dir <;> simp_all [uwCoreNext] <;>
        (repeat' split) <;> simp_all
    exact ⟨[], _, .idle hc.1 hc.2 hn, by simp, by simp⟩

/-- One cycle of translator and PHY together. -/
theorem uw_step {s : UwS} {m : Phy} {cur o q : List Nat} (h : UwRel s m.st cur o q) (y : UwIn)
    (hP1 : s.dirQ = true → y.dir = false → y.nxt = false)
    (hP2 : ∀ bs, m.st = .tx bs → s.core.stp = false → y.dir = false) :
    (((m.step s.dirQ (uwPin s y)).packets = m.packets ∧
      ∃ cur' o' q', UwRel (ulpiWrapper.next s y) (m.step s.dirQ (uwPin s y)).st cur' o' q' ∧
        cur' ++ o' ++ q' = cur ++ o ++ q ++ uwAcc s y ∧
        ((ulpiWrapper.next s y).core.stp = true → cur' ≠ [] → q = []) ∧ (cur = [] ∨ s.core.stp = false))) ∨
    ((m.step s.dirQ (uwPin s y)).packets = m.packets ++ [maskPid cur] ∧ cur ≠ [] ∧ o = [] ∧ s.core.stp = true ∧
      ∃ o' q', UwRel (ulpiWrapper.next s y) (m.step s.dirQ (uwPin s y)).st [] o' q' ∧ o' ++ q' = q ++ uwAcc s y) := by
  obtain ⟨st, pk, wr⟩ := m
  simp only at h hP2
  cases h with
  | idle h1 h2 h3 =>
    refine .inl ?_
    have hm : (Phy.step s.dirQ (uwPin s y) ⟨.idle, pk, wr⟩) = ⟨.idle, pk, wr⟩ := by
      simp [Phy.step, uwPin, h2]
    rw [hm]
    obtain ⟨o', q', h, he, -⟩ := uw_from_idle y h1 h2 h3
    exact ⟨rfl, [], o', q', h, by simpa using he, fun _ h => absurd rfl h, .inl rfl⟩
  | ended h1 h2 h3 h4 h5 =>
    refine .inr ?_
    have hm : (Phy.step s.dirQ (uwPin s y) ⟨.tx (maskPid cur), pk, wr⟩) = ⟨.idle, pk ++ [maskPid cur], wr⟩ := by
      simp [Phy.step, uwPin, h3]
    rw [hm]
    obtain ⟨o', q', h, he, -⟩ := uw_from_idle y h1 h2 h5
    exact ⟨rfl, h4, rfl, h3, o', q', h, he⟩
  | @written _ a v h1 h2 h3 h4 =>
    refine .inl ?_
    have hm : (Phy.step s.dirQ (uwPin s y) ⟨.regVal a v, pk, wr⟩) = ⟨.idle, pk, wr ++ [(a, v)]⟩ := by
      simp [Phy.step, uwPin, h3]
    rw [hm]
    obtain ⟨o', q', h, he, -⟩ := uw_from_idle y h1 h2 h4
    exact ⟨rfl, [], o', q', h, by simpa using he, fun _ h => absurd rfl h, .inl rfl⟩
  | cmd h1 h2 h3 h4 =>
    refine .inl ?_
    have ha : uwAccept s y = false := by simp [uwAccept, h1]
    have hn := h4.next y
    rw [ha] at hn
    by_cases hg : s.dirQ = false ∧ y.dir = false ∧ y.nxt = true
    · obtain ⟨g1, g2, g3⟩ := hg
      have hm : (Phy.step s.dirQ (uwPin s y) ⟨.idle, pk, wr⟩) = ⟨.reg (s.core.data % 64), pk, wr⟩ := by
        simp [Phy.step, uwPin, h2, g1, g2, g3, h3]
      have hc : (uwCoreNext s y).state = .reg ∧ (uwCoreNext s y).stp = false := by
        simp [uwCoreNext, uwTurn, h1, g1, g2, g3]
      rw [hm]
      exact ⟨rfl, [], [], _, .reg hc.1 hc.2 g2 hn, by simp, fun _ h => absurd rfl h, .inl rfl⟩
    · have hm : (Phy.step s.dirQ (uwPin s y) ⟨.idle, pk, wr⟩) = ⟨.idle, pk, wr⟩ := by
        cases g1 : s.dirQ <;> cases g2 : y.dir <;> cases g3 : y.nxt <;> simp_all [Phy.step, uwPin]
      have hc : (uwCoreNext s y).state = .cmd ∧ (uwCoreNext s y).stp = false ∧ (uwCoreNext s y).data = s.core.data := by
        cases g1 : s.dirQ <;> cases g2 : y.dir <;> cases g3 : y.nxt <;> simp_all [uwCoreNext, uwTurn] <;>
          (repeat' split) <;> simp_all
      rw [hm]
      exact ⟨rfl, [], [], _, .cmd hc.1 hc.2.1 (by change (uwCoreNext s y).data / 64 = 2; rw [hc.2.2, h3]) hn, by simp,
        fun _ h => absurd rfl h, .inl rfl⟩
  | @first _ p h1 h2 h3 h4 =>
    refine .inl ?_
    have hn := h4.next y
    have hb := h4.bufReady
    by_cases hg : s.dirQ = false ∧ y.dir = false ∧ y.nxt = true
    · obtain ⟨g1, g2, g3⟩ := hg
      have ha : uwAccept s y = true := by simp [uwAccept, h1, g2, g3]
      have e1 : (64 + p % 16) / 64 = 1 := by omega
      have e2 : (64 + p % 16) % 16 = p % 16 := by omega
      have hm : (Phy.step s.dirQ (uwPin s y) ⟨.idle, pk, wr⟩) = ⟨.tx (maskPid [p]), pk, wr⟩ := by
        simp [Phy.step, uwPin, h2, g1, g2, g3, h3, e1, e2, maskPid]
      rw [hm]
      rw [ha, if_pos rfl] at hn
      by_cases hqe : q = []
      · subst hqe
        have hc : (uwCoreNext s y).state = .idle ∧ (uwCoreNext s y).stp = true ∧ (uwCoreNext s y).data = 0 := by
          simp [uwCoreNext, uwTurn, h1, g1, g2, g3, hb]
        exact ⟨rfl, [p], [], _, .ended hc.1 hc.2.2 hc.2.1 (by simp) hn, by simp, fun _ _ => rfl, .inl rfl⟩
      · have hb' : uwBufReady s = true := by rw [hb]; cases q <;> simp_all
        have hbd := h4.bufData hqe
        have hc : (uwCoreNext s y).state = .data ∧ (uwCoreNext s y).stp = false ∧
            (uwCoreNext s y).data = uwBufData s := by
          simp [uwCoreNext, uwTurn, h1, g1, g2, g3, hb']
        refine ⟨rfl, [p], [(ulpiWrapper.next s y).core.data], _, .data hc.1 hc.2.1 (by simp) g2 hn, ?_, ?_, .inl rfl⟩
        · change [p] ++ [(uwCoreNext s y).data] ++ _ = _
          rw [hc.2.2]
          generalize q.tail = t at hbd
          rw [hbd]
          simp
        · intro hst
          exact absurd (hc.2.1.symm.trans hst) (by simp)
    · have ha : uwAccept s y = false := by
        cases g1 : s.dirQ <;> cases g2 : y.dir <;> cases g3 : y.nxt <;> simp_all [uwAccept]
      have hm : (Phy.step s.dirQ (uwPin s y) ⟨.idle, pk, wr⟩) = ⟨.idle, pk, wr⟩ := by
        cases g1 : s.dirQ <;> cases g2 : y.dir <;> cases g3 : y.nxt <;> simp_all [Phy.step, uwPin]
      have hc : (uwCoreNext s y).state = .data ∧ (uwCoreNext s y).stp = false ∧ (uwCoreNext s y).data = s.core.data := by
        cases g1 : s.dirQ <;> cases g2 : y.dir <;> cases g3 : y.nxt <;> simp_all [uwCoreNext, uwTurn] <;>
          (repeat' split) <;> simp_all
      rw [hm]
      rw [ha] at hn
      exact ⟨rfl, [], [p], _, .first hc.1 hc.2.1 (hc.2.2.trans h3) hn, by simp, fun _ h => absurd rfl h, .inl rfl⟩
  | data h1 h2 h3 h4 h5 =>
    refine .inl ?_
    have hn := h5.next y
    have hb := h5.bufReady
    have g2 : y.dir = false := hP2 _ rfl h2
    cases g3 : y.nxt with
    | true =>
      have ha : uwAccept s y = true := by simp [uwAccept, h1, g2, g3]
      have hm : (Phy.step s.dirQ (uwPin s y) ⟨.tx (maskPid cur), pk, wr⟩) =
          ⟨.tx (maskPid (cur ++ [s.core.data])), pk, wr⟩ := by
        simp [Phy.step, uwPin, h2, h4, g2, g3, maskPid_append h3]
      rw [hm]
      rw [ha, if_pos rfl] at hn
      by_cases hqe : q = []
      · subst hqe
        have hc : (uwCoreNext s y).state = .idle ∧ (uwCoreNext s y).stp = true ∧ (uwCoreNext s y).data = 0 := by
          simp [uwCoreNext, uwTurn, h1, h4, g2, g3, hb]
        exact ⟨rfl, cur ++ [s.core.data], [], _, .ended hc.1 hc.2.2 hc.2.1 (by simp) hn, by simp, fun _ _ => rfl, .inr h2⟩
      · have hb' : uwBufReady s = true := by rw [hb]; cases q <;> simp_all
        have hbd := h5.bufData hqe
        have hc : (uwCoreNext s y).state = .data ∧ (uwCoreNext s y).stp = false ∧
            (uwCoreNext s y).data = uwBufData s := by
          simp [uwCoreNext, uwTurn, h1, h4, g2, g3, hb']
        refine ⟨rfl, cur ++ [s.core.data], [(ulpiWrapper.next s y).core.data], _,
          .data hc.1 hc.2.1 (by simp) g2 hn, ?_, ?_, .inr h2⟩
        · change cur ++ [s.core.data] ++ [(uwCoreNext s y).data] ++ _ = _
          rw [hc.2.2]
          generalize q.tail = t at hbd
          rw [hbd]
          simp
        · intro hst
          exact absurd (hc.2.1.symm.trans hst) (by simp)
    | false =>
      have ha : uwAccept s y = false := by simp [uwAccept, h1, g3]
      have hm : (Phy.step s.dirQ (uwPin s y) ⟨.tx (maskPid cur), pk, wr⟩) = ⟨.tx (maskPid cur), pk, wr⟩ := by
        simp [Phy.step, uwPin, h2, h4, g2, g3]
      have hc : (uwCoreNext s y).state = .data ∧ (uwCoreNext s y).stp = false ∧ (uwCoreNext s y).data = s.core.data := by
        simp [uwCoreNext, uwTurn, h1, h4, g2, g3]
      rw [hm]
      rw [ha] at hn
      refine ⟨rfl, cur, [(ulpiWrapper.next s y).core.data], _, .data hc.1 hc.2.1 h3 g2 hn, ?_, ?_, .inr h2⟩
      · change cur ++ [(uwCoreNext s y).data] ++ _ = _
        rw [hc.2.2]
        simp
      · intro hst
        exact absurd (hc.2.1.symm.trans hst) (by simp)
  | @reg _ a h1 h2 h3 h4 =>
    refine .inl ?_
    have ha : uwAccept s y = false := by simp [uwAccept, h1]
    have hn := h4.next y
    rw [ha] at hn
    cases g2 : y.dir <;> cases g3 : y.nxt
    · have hm : (Phy.step s.dirQ (uwPin s y) ⟨.reg a, pk, wr⟩) = ⟨.reg a, pk, wr⟩ := by
        simp [Phy.step, uwPin, h2, h3, g2, g3]
      have hc : (uwCoreNext s y).state = .reg ∧ (uwCoreNext s y).stp = false := by
        simp [uwCoreNext, uwTurn, h1, h3, g2, g3]
      rw [hm]
      exact ⟨rfl, [], [], _, .reg hc.1 hc.2 g2 hn, by simp, fun _ h => absurd rfl h, .inl rfl⟩
    · have hm : (Phy.step s.dirQ (uwPin s y) ⟨.reg a, pk, wr⟩) = ⟨.regVal a s.core.data, pk, wr⟩ := by
        simp [Phy.step, uwPin, h2, h3, g2, g3]
      have hc : (uwCoreNext s y).state = .idle ∧ (uwCoreNext s y).data = 0 ∧ (uwCoreNext s y).stp = true := by
        simp [uwCoreNext, uwTurn, h1, h3, g2, g3]
      rw [hm]
      exact ⟨rfl, [], [], _, .written hc.1 hc.2.1 hc.2.2 hn, by simp, fun _ h => absurd rfl h, .inl rfl⟩
    · have hm : (Phy.step s.dirQ (uwPin s y) ⟨.reg a, pk, wr⟩) = ⟨.idle, pk, wr⟩ := by
        simp [Phy.step, uwPin, h2, g2]
      have hc : (uwCoreNext s y).state = .reg ∧ (uwCoreNext s y).stp = false := by
        simp [uwCoreNext, uwTurn, h1, h3, g2, g3]
      rw [hm]
      exact ⟨rfl, [], [], _, .regLost hc.1 hc.2 g2 hn, by simp, fun _ h => absurd rfl h, .inl rfl⟩
    · have hm : (Phy.step s.dirQ (uwPin s y) ⟨.reg a, pk, wr⟩) = ⟨.idle, pk, wr⟩ := by
        simp [Phy.step, uwPin, h2, g2]
      have hc : (uwCoreNext s y).state = .idle ∧ (uwCoreNext s y).data = 0 := by
        simp [uwCoreNext, uwTurn, h1, h3, g2, g3]
      rw [hm]
      exact ⟨rfl, [], [], _, .idle hc.1 hc.2 hn, by simp, fun _ h => absurd rfl h, .inl rfl⟩
  | regLost h1 h2 h3 h4 =>
    refine .inl ?_
    have ha : uwAccept s y = false := by simp [uwAccept, h1]
    have hn := h4.next y
    rw [ha] at hn
    have hm : (Phy.step s.dirQ (uwPin s y) ⟨.idle, pk, wr⟩) = ⟨.idle, pk, wr⟩ := by
      simp [Phy.step, uwPin, h2, h3]
    rw [hm]
    cases g2 : y.dir
    · have hc : (uwCoreNext s y).state = .idle ∧ (uwCoreNext s y).data = 0 := by
        simp [uwCoreNext, uwTurn, h1, h3, g2]
      exact ⟨rfl, [], [], _, .idle hc.1 hc.2 hn, by simp, fun _ h => absurd rfl h, .inl rfl⟩
    · have hc : (uwCoreNext s y).state = .reg ∧ (uwCoreNext s y).stp = false := by
        constructor <;> cases g3 : y.nxt <;> simp [uwCoreNext, uwTurn, h1, h3, g2, g3] <;> (repeat' split) <;> rfl
      exact ⟨rfl, [], [], _, .regLost hc.1 hc.2 g2 hn, by simp, fun _ h => absurd rfl h, .inl rfl⟩

section
variable (x : Nat → UwIn)

/-- The pins between translator and PHY. -/
def uwPins (n : Nat) : PhyPins :=
  ⟨(x n).dir, (x n).nxt, (ulpiWrapper.wave x n).data, (ulpiWrapper.wave x n).stp⟩

/-- The PHY at the pins of the translator. -/
def uwPhy (n : Nat) : Phy := Phy.run (uwPins x) n

/-- Bytes accepted from UTMI in the first `n` cycles. -/
def uwAccepted (n : Nat) : List Nat :=
  (List.range n).filterMap fun k =>
    if (x k).txValid && (ulpiWrapper.wave x k).txReady then some (x k).txData else none

/-- The PHY keeps `nxt` low in the cycle it gives the bus back, and does not take the bus in a transmission. -/
def UwPhyFair : Prop :=
  (∀ n, (x n).dir = true → (x (n + 1)).dir = false → (x (n + 1)).nxt = false) ∧
  ∀ n bs, (uwPhy x n).st = .tx bs → (ulpiWrapper.wave x n).stp = false → (x n).dir = false

theorem uwPhy_succ (n : Nat) :
    uwPhy x (n + 1) = (uwPhy x n).step (ulpiWrapper.st x n).dirQ (uwPin (ulpiWrapper.st x n) (x n)) := by
  cases n <;> rfl

theorem uwAccepted_succ (n : Nat) : uwAccepted x (n + 1) = uwAccepted x n ++ uwAcc (ulpiWrapper.st x n) (x n) := by
  simp only [uwAccepted, List.range_succ, List.filterMap_append, uwAcc]
  congr 1
  change List.filterMap (fun k => if (x k).txValid && (ulpiWrapper.wave x k).txReady then some (x k).txData else none) [n] =
    if (x n).txValid && (ulpiWrapper.wave x n).txReady then _ else _
  simp only [List.filterMap_cons, List.filterMap_nil]
  cases (x n).txValid && (ulpiWrapper.wave x n).txReady <;> rfl

variable {x}

theorem UwPhyFair.p1 (h : UwPhyFair x) (n : Nat) :
    (ulpiWrapper.st x n).dirQ = true → (x n).dir = false → (x n).nxt = false := by
  cases n with
  | zero => intro h0; exact absurd h0 (by simp [Circuit.st, ulpiWrapper])
  | succ n => exact h.1 n

theorem uw_rel_init : UwRel (ulpiWrapper.st x 0) (uwPhy x 0).st [] [] [] :=
  .idle rfl rfl (.empty rfl rfl rfl)

theorem uw_bytes (hf : UwPhyFair x) (n : Nat) :
    ∃ cur o q, ∃ pks : List (List Nat), UwRel (ulpiWrapper.st x n) (uwPhy x n).st cur o q ∧
      uwAccepted x n = pks.flatten ++ cur ++ o ++ q ∧ (∀ p ∈ pks, p ≠ []) ∧ (uwPhy x n).packets = pks.map maskPid := by
  induction n with
  | zero => exact ⟨[], [], [], [], uw_rel_init, rfl, by simp, rfl⟩
  | succ n ih =>
    obtain ⟨cur, o, q, pks, h1, h2, h3, h4⟩ := ih
    have hs := uw_step h1 (x n) (hf.p1 n) (fun bs hbs hstp => hf.2 n bs hbs hstp)
    rw [← uwPhy_succ, ← Circuit.st_succ] at hs
    rw [uwAccepted_succ, h2]
    rcases hs with ⟨hp, cur', o', q', hr, he, -⟩ | ⟨hp, hne, ho, -, o', q', hr, he⟩
    · refine ⟨cur', o', q', pks, hr, ?_, h3, by rw [hp, h4]⟩
      simp only [List.append_assoc] at he ⊢
      rw [he]
    · refine ⟨[], o', q', pks ++ [cur], hr, ?_, ?_, ?_⟩
      · subst ho
        simp [he]
      · intro p hp
        rcases List.mem_append.mp hp with h | h
        · exact h3 p h
        · rw [List.mem_singleton.mp h]; exact hne
      · rw [hp, h4]; simp

variable (x)

/-- C85: the bytes accepted from UTMI reach the PHY in order, each exactly once: they are the bytes of the transmissions
completed, then of the one under way, then at most three not yet taken. Of the first byte of a transmission, the packet
identifier, the low half is sent. -/
theorem C85_bytes (hf : UwPhyFair x) (n : Nat) :
    ∃ done cur wait : List Nat, ∃ pks : List (List Nat),
      uwAccepted x n = done ++ cur ++ wait ∧ wait.length ≤ 3 ∧
      done = pks.flatten ∧ (∀ p ∈ pks, p ≠ []) ∧ (uwPhy x n).packets = pks.map maskPid ∧
      (cur ≠ [] → (uwPhy x n).st = .tx (maskPid cur)) ∧ (∀ bs, (uwPhy x n).st = .tx bs → cur ≠ []) := by
  obtain ⟨cur, o, q, pks, h1, h2, h3, h4⟩ := uw_bytes hf n
  refine ⟨pks.flatten, cur, o ++ q, pks, by rw [h2]; simp, ?_, rfl, h3, h4, ?_⟩
  · have := h1.queue.length_le
    have ho : o.length ≤ 1 := by
      generalize (uwPhy x n).st = st at h1
      cases h1 <;> simp
    simp; omega
  · generalize (uwPhy x n).st = st at h1
    cases h1 <;> simp_all

end

/-- A packet whose command the PHY interrupts once before it takes it, after the settings were written. -/
def uwTxDemo (n : Nat) : UwIn :=
  { data := 0x02, dir := decide (12 ≤ n ∧ n < 15), nxt := decide (n < 9 ∨ 17 ≤ n)
    txData := [0xc3, 0x11, 0x22][n - 10]?.getD 0x22, txValid := decide (10 ≤ n ∧ n < 19)
    op := 0, xcvr := 1, term := true, dp := false, dm := false }

example : UwPhyFair uwTxDemo ∧ uwAccepted uwTxDemo 24 = [0xc3, 0x11, 0x22, 0x22] ∧
    (uwPhy uwTxDemo 24).packets = [[0x3, 0x11, 0x22, 0x22]] ∧ (uwPhy uwTxDemo 24).writes = [(4, 0x65), (10, 0)] := by
  refine ⟨⟨?_, ?_⟩, by decide +kernel, by decide +kernel, by decide +kernel⟩
  · intro n h1 h2
    simp only [uwTxDemo, decide_eq_true_eq, decide_eq_false_iff_not] at h1 h2 ⊢
    omega
  · have h : ∀ n < 15, 12 ≤ n → (uwPhy uwTxDemo n).st = .idle := by decide +kernel
    intro n bs hb _
    by_cases hn : 12 ≤ n ∧ n < 15
    · rw [h n hn.2 hn.1] at hb; cases hb
    · simp only [uwTxDemo, decide_eq_false_iff_not]; exact hn

end Lambdalib
