import Verif.Lemmas.I2cStream
import Verif.Lemmas.List

/-! Helper lemmas for `I2CWriterStream`. -/

namespace Lambdalib

theorem i2cGroups_snoc (f : Nat → BitVec 8) (l : List Bool) (a : Bool) :
    i2cGroups f (l ++ [a]) = i2cGroupStep f (i2cGroups f l) a := by
  simp [i2cGroups]

theorem i2cGroups_pos (f : Nat → BitVec 8) (l : List Bool) : (i2cGroups f l).pos ≤ 2 := by
  induction l using snocInduction with
  | nil => simp [i2cGroups]
  | snoc l a ih =>
    rw [i2cGroups_snoc]
    simp only [i2cGroupStep]
    split <;> omega

/-- The cache holds the first `c` bytes of group `g`. -/
def wrCache (f : Nat → BitVec 8) (g c : Nat) (s : I2cWrS) : Prop :=
  (1 ≤ c → s.cache0 = f (3 * g)) ∧ (2 ≤ c → s.cache1 = f (3 * g + 1)) ∧
    (3 ≤ c → s.cache2 = f (3 * g + 2))

/-- What the module remembers when `nb` bytes were taken, group `g` is being sent, and `q` bytes of it were
already sent in this transaction. -/
def wrMem (f : Nat → BitVec 8) (g q nb need : Nat) (s : I2cWrS) : Prop :=
  nb = need ∧
  (if s.retry then q ≤ s.cacheStage + 1 ∧ s.cacheStage ≤ 2 ∧ need = 3 * g + s.cacheStage + 1 ∧
      wrCache f g (s.cacheStage + 1) s
   else need = 3 * g + q ∧ wrCache f g q s ∧ (q = 0 ∨ s.cacheStage + 1 = q))

/-- Relation between taken commands `L`, outcomes `A`, number of taken bytes `nb`, registers and current
inputs of `I2CWriterStream`. -/
def wrRel (f : Nat → BitVec 8) (L : List I2cCmd) (A : List Bool) (nb : Nat) (s : I2cWrS) (x : I2cWrIn) :
    Prop :=
  i2cBusyInv s.core ∧
  match s.fsm with
  | .idle => ∃ T, T = i2cGroups f A ∧ s.core.fsm = .idle ∧ L = T.cmds ∧ T.pos = 0 ∧
      s.stage ≤ 3 ∧ wrMem f T.group 0 nb T.need s
  | .start => ∃ T, T = i2cGroups f A ∧ s.core.fsm = .idle ∧ L = T.cmds ∧ T.pos = 0 ∧
      s.stage = 0 ∧ (s.retry = true ∨ x.valid = true) ∧ wrMem f T.group 0 nb T.need s
  | .waitStart => ∃ T, T = i2cGroups f A ∧ L = T.cmds ++ [.start] ∧ T.pos = 0 ∧
      s.stage = 0 ∧ (s.retry = true ∨ x.valid = true) ∧ wrMem f T.group 0 nb T.need s
  | .write => ∃ T, T = i2cGroups f A ∧ s.core.fsm = .idle ∧ T.pos ≤ 2 ∧
      L = T.cmds ++ (if T.pos = 0 then [.start] else []) ∧
      s.stage = T.pos ∧ (i2cWrUseCache s = true ∨ x.valid = true) ∧ wrMem f T.group T.pos nb T.need s
  | .waitWrite => ∃ A' T, T = i2cGroups f A' ∧ T.pos ≤ 2 ∧
      (A = A' ∧ s.core.fsm ≠ .idle ∨ A = A' ++ [s.core.ackO] ∧ s.core.fsm = .idle) ∧
      L = T.cmds ++ (if T.pos = 0 then [.start] else []) ++ [.write (f (3 * T.group + T.pos))] ∧
      s.stage = T.pos + 1 ∧
      wrMem f T.group (T.pos + 1) nb (max T.need (3 * T.group + T.pos + 1)) s
  | .stop => ∃ T, T = i2cGroups f A ∧ s.core.fsm = .idle ∧ T.cmds = L ++ [.stop] ∧ T.pos = 0 ∧
      s.stage ≤ 3 ∧ wrMem f T.group 0 nb T.need s
  | .waitStop => ∃ T, T = i2cGroups f A ∧ T.cmds = L ∧ L.getLast? = some .stop ∧ T.pos = 0 ∧
      s.stage ≤ 3 ∧ wrMem f T.group 0 nb T.need s

section
variable (period : Nat) (stretch : Bool)

/-- Commands taken by the core in one cycle. -/
def wrTaken (s : I2cWrS) (x : I2cWrIn) : List I2cCmd :=
  if s.core.fsm = .idle then (i2cStrobe (i2cWrCoreIn s x)).toList else []

/-- Outcomes recorded in one cycle. -/
def wrAcks (L : List I2cCmd) (s s' : I2cS) : List Bool :=
  match L.getLast? with
  | some (.write _) => if s.fsm ≠ .idle ∧ s'.fsm = .idle then [s'.ackO] else []
  | _ => []

theorem wrAcks_idle {L : List I2cCmd} {s s' : I2cS} (h : s.fsm = .idle) : wrAcks L s s' = [] := by
  unfold wrAcks
  split <;> simp [h]

theorem wrAcks_nw {L : List I2cCmd} {s s' : I2cS} {c : I2cCmd} (h : L.getLast? = some c)
    (hc : ∀ d, c ≠ .write d) : wrAcks L s s' = [] := by
  unfold wrAcks
  rw [h]
  cases c <;> simp_all

theorem wrMem_congr {f : Nat → BitVec 8} {g q nb need : Nat} {s s' : I2cWrS}
    (h : wrMem f g q nb need s) (h1 : s'.retry = s.retry) (h2 : s'.cacheStage = s.cacheStage)
    (h3 : s'.cache0 = s.cache0) (h4 : s'.cache1 = s.cache1) (h5 : s'.cache2 = s.cache2) :
    wrMem f g q nb need s' := by
  unfold wrMem wrCache at *
  rw [h1, h2, h3, h4, h5]
  exact h

/-- Registers that only change in `WRITE`. -/
theorem wr_keep (s : I2cWrS) (x : I2cWrIn) (h : s.fsm ≠ .write) :
    let s' := (i2cWriterStream period stretch).next s x
    s'.cacheStage = s.cacheStage ∧ s'.cache0 = s.cache0 ∧ s'.cache1 = s.cache1 ∧
      s'.cache2 = s.cache2 := by
  simp [i2cWriterStream, h]

theorem wr_core (s : I2cWrS) (x : I2cWrIn) :
    ((i2cWriterStream period stretch).next s x).core =
      (i2cInitiator period stretch).next s.core (i2cWrCoreIn s x) := rfl

theorem wr_ctl (s : I2cWrS) (x : I2cWrIn) :
    ((i2cWriterStream period stretch).next s x).fsm = (i2cWrFsm s x).fsm ∧
    ((i2cWriterStream period stretch).next s x).stage = (i2cWrFsm s x).stage ∧
    ((i2cWriterStream period stretch).next s x).retry = (i2cWrFsm s x).retry := ⟨rfl, rfl, rfl⟩

theorem wr_strobe_none (s : I2cWrS) (x : I2cWrIn)
    (h : s.fsm = .idle ∨ s.fsm = .waitStart ∨ s.fsm = .waitWrite ∨ s.fsm = .waitStop) :
    i2cStrobe (i2cWrCoreIn s x) = none := by
  rcases h with h | h | h | h <;> simp [i2cStrobe, i2cWrCoreIn, h]

theorem wr_not_ready (s : I2cWrS) (x : I2cWrIn) (h : s.fsm ≠ .write) :
    ((i2cWriterStream period stretch).out s x).ready = false := by
  have h' : (s.fsm == .write) = false := by simpa using h
  simp [i2cWriterStream, h']

theorem i2cCore_starts (s : I2cS) (x : I2cIn) (c : I2cCmd) (hf : s.fsm = .idle)
    (hs : i2cStrobe x = some c) : ((i2cInitiator period stretch).next s x).fsm ≠ .idle := by
  simp only [i2cInitiator, i2cFsm, hf, i2cIdle]
  unfold i2cStrobe at hs
  revert hs
  cases x.start <;> cases x.stop <;> cases x.write <;> cases x.read <;> simp <;>
    (repeat' split) <;> simp

theorem wr_step (f : Nat → BitVec 8) (L : List I2cCmd) (A : List Bool) (nb : Nat) (s : I2cWrS)
    (x x' : I2cWrIn) (h : wrRel f L A nb s x)
    (hf : x.valid = true → ((i2cWriterStream period stretch).out s x).ready = true → f nb = x.data)
    (hst : x.valid = true → ((i2cWriterStream period stretch).out s x).ready = false →
      x'.valid = true) :
    wrRel f (L ++ wrTaken s x)
      (A ++ wrAcks L s.core ((i2cWriterStream period stretch).next s x).core)
      (nb + (if x.valid && ((i2cWriterStream period stretch).out s x).ready then 1 else 0))
      ((i2cWriterStream period stretch).next s x) x' := by
  obtain ⟨hb, h⟩ := h
  refine ⟨i2cBusyInv_step period stretch s.core _ hb, ?_⟩
  have hq := i2cCore_quiet period stretch s.core (i2cWrCoreIn s x)
  have hgo := i2cCore_starts period stretch s.core (i2cWrCoreIn s x)
  have hkeep := wr_keep period stretch s x
  have hnr := wr_not_ready period stretch s x
  have hno := wr_strobe_none s x
  have hidle := i2cBusyInv_idle hb
  obtain ⟨c1, c2, c3⟩ := wr_ctl period stretch s x
  have hcore := wr_core period stretch s x
  rw [← hcore] at hq hgo
  cases hfsm : s.fsm <;> rw [hfsm] at h <;> simp only at h
  case idle =>
    obtain ⟨T, hT, k1, k2, k3, k4, k5⟩ := h
    have hno := hno (.inl hfsm)
    have hnr := hnr (by simp [hfsm])
    obtain ⟨e1, e2, e3, e4⟩ := hkeep (by simp [hfsm])
    rw [wrAcks_idle k1, hnr]
    have ht : wrTaken s x = [] := by simp [wrTaken, hno]
    rw [ht]
    simp only [List.append_nil, Bool.and_false, Bool.false_eq_true, if_false, Nat.add_zero]
    have hqq := hq k1 hno
    by_cases hgo : s.core.busy = false ∧ (x.valid || i2cWrUseCache s) = true
    · have hn : i2cWrFsm s x = { s with stage := 0, fsm := .start } := by
        simp only [i2cWrFsm, hfsm, hgo.1, hgo.2]; simp
      rw [hn] at c1 c2 c3
      rw [c1]
      refine ⟨T, hT, hqq.1, k2, k3, c2, ?_, wrMem_congr k5 c3 e1 e2 e3 e4⟩
      rw [c3]
      cases hv : x.valid
      · left
        have := hgo.2
        rw [hv] at this
        simp [i2cWrUseCache] at this
        exact this.1
      · right; exact hst hv hnr
    · have hn : i2cWrFsm s x = s := by
        simp only [i2cWrFsm, hfsm]
        cases hbz : s.core.busy
        · simp only [hbz, true_and, Bool.not_eq_true] at hgo
          simp [hgo]
        · simp
      rw [hn] at c1 c2 c3
      rw [c1, hfsm]
      exact ⟨T, hT, hqq.1, k2, k3, by rw [c2]; exact k4, wrMem_congr k5 c3 e1 e2 e3 e4⟩
  case start =>
    obtain ⟨T, hT, k1, k2, k3, k4, k5, k6⟩ := h
    have hnr := hnr (by simp [hfsm])
    obtain ⟨e1, e2, e3, e4⟩ := hkeep (by simp [hfsm])
    rw [wrAcks_idle k1, hnr]
    have ht : wrTaken s x = [.start] := by simp [wrTaken, k1, i2cStrobe, i2cWrCoreIn, hfsm]
    rw [ht]
    simp only [List.append_nil, Bool.and_false, Bool.false_eq_true, if_false, Nat.add_zero]
    have hn : i2cWrFsm s x = { s with fsm := .waitStart } := by
      simp only [i2cWrFsm, hfsm]
    rw [hn] at c1 c2 c3
    rw [c1]
    refine ⟨T, hT, by rw [k2], k3, by rw [c2]; exact k4, ?_, wrMem_congr k6 c3 e1 e2 e3 e4⟩
    rw [c3]
    rcases k5 with k5 | k5
    · exact .inl k5
    · exact .inr (hst k5 hnr)
  case waitStart =>
    obtain ⟨T, hT, k2, k3, k4, k5, k6⟩ := h
    have hno := hno (by simp [hfsm])
    have hnr := hnr (by simp [hfsm])
    obtain ⟨e1, e2, e3, e4⟩ := hkeep (by simp [hfsm])
    rw [wrAcks_nw (c := .start) (by rw [k2]; simp) (by simp), hnr]
    have ht : wrTaken s x = [] := by simp [wrTaken, hno]
    rw [ht]
    simp only [List.append_nil, Bool.and_false, Bool.false_eq_true, if_false, Nat.add_zero]
    cases hbz : s.core.busy
    · have hn : i2cWrFsm s x = { s with fsm := .write } := by simp [i2cWrFsm, hfsm, hbz]
      rw [hn] at c1 c2 c3
      rw [c1]
      refine ⟨T, hT, (hq (hidle hbz) hno).1, by omega, by simp [k2, k3], by rw [c2, k3]; exact k4, ?_,
        by rw [k3]; exact wrMem_congr k6 c3 e1 e2 e3 e4⟩
      rcases k5 with k5 | k5
      · left
        simp [i2cWrUseCache, c2, c3, k4, k5]
      · exact .inr (hst k5 hnr)
    · have hn : i2cWrFsm s x = s := by simp [i2cWrFsm, hfsm, hbz]
      rw [hn] at c1 c2 c3
      rw [c1, hfsm]
      refine ⟨T, hT, k2, k3, by rw [c2]; exact k4, ?_, wrMem_congr k6 c3 e1 e2 e3 e4⟩
      rw [c3]
      rcases k5 with k5 | k5
      · exact .inl k5
      · exact .inr (hst k5 hnr)
  case write =>
    obtain ⟨T, hT, k1, k0, k2, k3, k4, k5⟩ := h
    rw [wrAcks_idle k1]
    have hn : i2cWrFsm s x = { s with stage := (s.stage + 1) % 4, fsm := .waitWrite } := by
      simp only [i2cWrFsm, hfsm]
    rw [hn] at c1 c2 c3
    have hbyte : i2cWrData s x = f (3 * T.group + T.pos) ∧
        wrMem f T.group (T.pos + 1)
          (nb + (if x.valid && ((i2cWriterStream period stretch).out s x).ready then 1 else 0))
          (max T.need (3 * T.group + T.pos + 1)) ((i2cWriterStream period stretch).next s x) := by
      obtain ⟨m1, m2⟩ := k5
      cases hu : i2cWrUseCache s
      · -- a fresh byte
        have hv : x.valid = true := by simpa [hu] using k4
        have hrd : ((i2cWriterStream period stretch).out s x).ready = true := by
          simp [i2cWriterStream, hu, hfsm]
        have hfx := hf hv hrd
        have hneed : T.need = 3 * T.group + T.pos := by
          cases hr : s.retry
          · simpa [hr] using (by simpa [hr] using m2 : _ ∧ _).1
          · simp only [hr, if_true] at m2
            simp only [i2cWrUseCache, hr, Bool.true_and, decide_eq_false_iff_not] at hu
            omega
        have hcs : ((i2cWriterStream period stretch).next s x).cacheStage = T.pos := by
          simp [i2cWriterStream, hu, hfsm, k3]
        have hcc : wrCache f T.group (T.pos + 1) ((i2cWriterStream period stretch).next s x) := by
          have hold : wrCache f T.group T.pos s := by
            cases hr : s.retry
            · exact (by simpa [hr] using m2 : _ ∧ wrCache f T.group T.pos s ∧ _).2.1
            · simp only [hr, if_true] at m2
              simp only [i2cWrUseCache, hr, Bool.true_and, decide_eq_false_iff_not] at hu
              have : s.cacheStage + 1 = T.pos := by omega
              rw [← this]; exact m2.2.2.2
          obtain ⟨o0, o1, o2⟩ := hold
          rw [m1, hneed] at hfx
          unfold wrCache
          rcases (by omega : T.pos = 0 ∨ T.pos = 1 ∨ T.pos = 2) with hp | hp | hp <;>
            rw [hp] at o0 o1 o2 hfx k3 ⊢ <;>
            simp [i2cWriterStream, i2cWrFsm, hu, hfsm, k3] at o0 o1 o2 hfx ⊢ <;> simp_all
        refine ⟨by rw [i2cWrData, hu]; simp only [Bool.false_eq_true, if_false]; rw [← hfx, m1, hneed],
          ?_, ?_⟩
        · rw [hv, hrd, hneed, m1, hneed]; simp
        · rw [c3, hcs, hneed]
          cases hr : s.retry
          · simp only [Bool.false_eq_true, if_false]
            exact ⟨by omega, hcc, by simp⟩
          · simp only [if_true]
            exact ⟨by omega, by omega, by omega, hcc⟩
      · -- a byte from the cache
        have hr : s.retry = true := by simp [i2cWrUseCache] at hu; exact hu.1
        have hle : T.pos ≤ s.cacheStage := by simp [i2cWrUseCache] at hu; omega
        simp only [hr, if_true] at m2
        obtain ⟨m2, m3, m4, m5⟩ := m2
        have hrd : ((i2cWriterStream period stretch).out s x).ready = false := by
          simp [i2cWriterStream, hu]
        have e1 : ((i2cWriterStream period stretch).next s x).cacheStage = s.cacheStage ∧
            ((i2cWriterStream period stretch).next s x).cache0 = s.cache0 ∧
            ((i2cWriterStream period stretch).next s x).cache1 = s.cache1 ∧
            ((i2cWriterStream period stretch).next s x).cache2 = s.cache2 := by
          simp [i2cWriterStream, hu, i2cWrFsm, hfsm]
        refine ⟨?_, ?_, ?_⟩
        · rw [i2cWrData, hu]
          simp only [if_true]
          unfold wrCache at m5
          rcases (by omega : T.pos = 0 ∨ T.pos = 1 ∨ T.pos = 2) with hp | hp | hp <;> rw [hp] at k3 ⊢ <;>
            simp [k3] <;> first | exact m5.1 (by omega) | exact m5.2.1 (by omega) | exact m5.2.2 (by omega)
        · rw [hrd]; simp; omega
        · rw [c3, e1.1, hr]
          simp only [if_true]
          refine ⟨by omega, m3, by omega, ?_⟩
          unfold wrCache at *
          rw [e1.2.1, e1.2.2.1, e1.2.2.2]
          exact m5
    have hstr : i2cStrobe (i2cWrCoreIn s x) = some (.write (f (3 * T.group + T.pos))) := by
      rw [← hbyte.1]
      simp [i2cStrobe, i2cWrCoreIn, hfsm]
    have ht : wrTaken s x = [.write (f (3 * T.group + T.pos))] := by simp [wrTaken, k1, hstr]
    rw [ht, c1]
    refine ⟨A, T, hT, k0, .inl ⟨by simp, hgo _ k1 hstr⟩, by rw [k2], ?_, hbyte.2⟩
    rw [c2, k3]
    exact Nat.mod_eq_of_lt (by omega)
  case waitWrite =>
    obtain ⟨A', T, hT, k0, k1, k2, k3, k4⟩ := h
    have hno := hno (by simp [hfsm])
    have hnr := hnr (by simp [hfsm])
    obtain ⟨e1, e2, e3, e4⟩ := hkeep (by simp [hfsm])
    have ht : wrTaken s x = [] := by simp [wrTaken, hno]
    have hl : L.getLast? = some (.write (f (3 * T.group + T.pos))) := by rw [k2]; simp
    rw [ht, hnr]
    simp only [List.append_nil, Bool.and_false, Bool.false_eq_true, if_false, Nat.add_zero]
    cases hbz : s.core.busy
    · -- finished
      have hi := hidle hbz
      rw [wrAcks_idle hi]
      simp only [List.append_nil]
      have hA : A = A' ++ [s.core.ackO] := by
        rcases k1 with k1 | k1
        · exact absurd hi k1.2
        · exact k1.1
      have hG : i2cGroups f A = i2cGroupStep f T s.core.ackO := by rw [hA, i2cGroups_snoc, hT]
      have hqq := hq hi hno
      cases hack : s.core.ackO
      · -- not acknowledged
        have hn : i2cWrFsm s x = { s with retry := true, fsm := .stop } := by
          simp [i2cWrFsm, hfsm, hbz, hack]
        rw [hn] at c1 c2 c3
        rw [c1]
        rw [hack] at hG
        refine ⟨_, rfl, hqq.1, ?_, ?_, ?_, ?_⟩
        · rw [hG, k2]; simp [i2cGroupStep]
        · rw [hG]; simp [i2cGroupStep]
        · rw [c2, k3]; simp; omega
        · rw [hG]
          simp only [i2cGroupStep, Bool.false_eq_true, false_and, if_false]
          obtain ⟨m1, m2⟩ := k4
          refine ⟨m1, ?_⟩
          rw [c3, e1]
          simp only [if_true]
          unfold wrCache at *
          rw [e2, e3, e4]
          cases hr : s.retry
          · simp only [hr, Bool.false_eq_true, if_false] at m2
            obtain ⟨m2, m3, m4⟩ := m2
            have hc : s.cacheStage = T.pos := by omega
            rw [hc]
            exact ⟨by omega, k0, by omega, m3⟩
          · simp only [hr, if_true] at m2
            exact ⟨by omega, m2.2⟩
      · rw [hack] at hG
        by_cases hp : T.pos = 2
        · have hn : i2cWrFsm s x = { s with retry := false, fsm := .stop } := by
            simp [i2cWrFsm, hfsm, hbz, hack, k3, hp]
          rw [hn] at c1 c2 c3
          rw [c1]
          refine ⟨_, rfl, hqq.1, ?_, ?_, ?_, ?_⟩
          · rw [hG, k2]; simp [i2cGroupStep, hp]
          · rw [hG]; simp [i2cGroupStep, hp]
          · rw [c2, k3]; simp; omega
          · rw [hG]
            simp only [i2cGroupStep, hp, and_self, if_true]
            obtain ⟨m1, m2⟩ := k4
            rw [hp] at m1 m2
            refine ⟨m1, ?_⟩
            rw [c3]
            simp only [Bool.false_eq_true, if_false]
            refine ⟨?_, by simp [wrCache], by simp⟩
            cases hr : s.retry
            · simp only [hr, Bool.false_eq_true, if_false] at m2
              omega
            · simp only [hr, if_true] at m2
              omega
        · have hmem : wrMem f (i2cGroups f A).group (i2cGroups f A).pos nb (i2cGroups f A).need s := by
            rw [hG]
            simpa [i2cGroupStep, hp] using k4
          have hcm : L = (i2cGroups f A).cmds := by rw [hG, k2]; simp [i2cGroupStep, hp]
          have hps : (i2cGroups f A).pos = T.pos + 1 := by rw [hG]; simp [i2cGroupStep, hp]
          by_cases hgo' : (x.valid || i2cWrUseCache s) = true
          · have hn : i2cWrFsm s x = { s with fsm := .write } := by
              simp only [i2cWrFsm, hfsm, hbz, hack, k3]
              rw [if_pos (by decide), if_neg (by decide), if_neg (by omega), if_pos hgo']
            rw [hn] at c1 c2 c3
            rw [c1]
            refine ⟨_, rfl, hqq.1, by omega, ?_, by rw [c2, k3, hps], ?_,
              wrMem_congr hmem c3 e1 e2 e3 e4⟩
            · rw [if_neg (by omega), ← hcm, List.append_nil]
            · cases hv : x.valid
              · left
                rw [hv] at hgo'
                simp only [i2cWrUseCache, c2, c3, e1]
                simpa [i2cWrUseCache] using hgo'
              · exact .inr (hst hv hnr)
          · have hn : i2cWrFsm s x = s := by
              simp only [i2cWrFsm, hfsm, hbz, hack, k3]
              rw [if_pos (by decide), if_neg (by decide), if_neg (by omega), if_neg hgo']
            rw [hn] at c1 c2 c3
            rw [c1, hfsm]
            refine ⟨A', T, hT, k0, .inr ⟨?_, hqq.1⟩, k2, by rw [c2]; exact k3,
              wrMem_congr k4 c3 e1 e2 e3 e4⟩
            rw [hA, hqq.2.2.1]
    · have hn : i2cWrFsm s x = s := by simp [i2cWrFsm, hfsm, hbz]
      rw [hn] at c1 c2 c3
      rw [c1, hfsm]
      refine ⟨A', T, hT, k0, ?_, k2, by rw [c2]; exact k3, wrMem_congr k4 c3 e1 e2 e3 e4⟩
      rcases k1 with ⟨k1, k1'⟩ | ⟨k1, k1'⟩
      · by_cases hd : ((i2cWriterStream period stretch).next s x).core.fsm = .idle
        · right
          refine ⟨?_, hd⟩
          simp only [wrAcks, hl]
          rw [if_pos ⟨k1', hd⟩, k1]
        · left
          refine ⟨?_, hd⟩
          simp only [wrAcks, hl]
          rw [if_neg (fun h => hd h.2), k1, List.append_nil]
      · right
        have hqq := hq k1' hno
        rw [wrAcks_idle k1', List.append_nil]
        exact ⟨by rw [k1, hqq.2.2.1], hqq.1⟩
  case stop =>
    obtain ⟨T, hT, k1, k2, k3, k4, k5⟩ := h
    have hnr := hnr (by simp [hfsm])
    obtain ⟨e1, e2, e3, e4⟩ := hkeep (by simp [hfsm])
    rw [wrAcks_idle k1, hnr]
    have ht : wrTaken s x = [.stop] := by simp [wrTaken, k1, i2cStrobe, i2cWrCoreIn, hfsm]
    rw [ht]
    simp only [List.append_nil, Bool.and_false, Bool.false_eq_true, if_false, Nat.add_zero]
    have hn : i2cWrFsm s x = { s with fsm := .waitStop } := by
      simp only [i2cWrFsm, hfsm]
    rw [hn] at c1 c2 c3
    rw [c1]
    exact ⟨T, hT, k2, by simp, k3, by rw [c2]; exact k4, wrMem_congr k5 c3 e1 e2 e3 e4⟩
  case waitStop =>
    obtain ⟨T, hT, k2, k2', k3, k4, k5⟩ := h
    have hno := hno (by simp [hfsm])
    have hnr := hnr (by simp [hfsm])
    obtain ⟨e1, e2, e3, e4⟩ := hkeep (by simp [hfsm])
    rw [wrAcks_nw k2' (by simp), hnr]
    have ht : wrTaken s x = [] := by simp [wrTaken, hno]
    rw [ht]
    simp only [List.append_nil, Bool.and_false, Bool.false_eq_true, if_false, Nat.add_zero]
    cases hbz : s.core.busy
    · have hn : i2cWrFsm s x = { s with fsm := .idle } := by simp [i2cWrFsm, hfsm, hbz]
      rw [hn] at c1 c2 c3
      rw [c1]
      exact ⟨T, hT, (hq (hidle hbz) hno).1, k2.symm, k3, by rw [c2]; exact k4,
        wrMem_congr k5 c3 e1 e2 e3 e4⟩
    · have hn : i2cWrFsm s x = s := by simp [i2cWrFsm, hfsm, hbz]
      rw [hn] at c1 c2 c3
      rw [c1, hfsm]
      exact ⟨T, hT, k2, k2', k3, by rw [c2]; exact k4, wrMem_congr k5 c3 e1 e2 e3 e4⟩

end

section
variable (period : Nat) (stretch : Bool) (i : Nat → I2cWrIn)

/-- Inputs of the initiator in an execution of `I2CWriterStream`. -/
def i2cWrCi (n : Nat) : I2cIn := i2cWrCoreIn ((i2cWriterStream period stretch).st i n) (i n)

theorem i2cWr_core (n : Nat) : ((i2cWriterStream period stretch).st i n).core =
    (i2cInitiator period stretch).st (i2cWrCi period stretch i) n := by
  induction n with
  | zero => rfl
  | succ n ih =>
    rw [Circuit.st_succ, Circuit.st_succ, ← ih]
    rfl

/-- Bytes accepted by `I2CWriterStream`. -/
def i2cWrBytes (n : Nat) : List (BitVec 8) :=
  transferred (fun k => (i k).valid) (fun k => ((i2cWriterStream period stretch).wave i k).ready)
    (fun k => (i k).data) n

/-- The sender does not withdraw an offered byte. -/
def i2cWrSinkStable : Prop :=
  Stable (fun k => (i k).valid) (fun k => ((i2cWriterStream period stretch).wave i k).ready)
    (fun k => (i k).data)

theorem wr_rel (hst : i2cWrSinkStable period stretch i) (n : Nat) (f : Nat → BitVec 8)
    (hf : ∀ k, k < (i2cWrBytes period stretch i n).length →
      f k = (i2cWrBytes period stretch i n).getD k 0) :
    wrRel f (i2cCmdLog period stretch (i2cWrCi period stretch i) n)
      (i2cAckLog period stretch (i2cWrCi period stretch i) n)
      (i2cWrBytes period stretch i n).length ((i2cWriterStream period stretch).st i n) (i n) := by
  induction n with
  | zero =>
    refine ⟨fun h => absurd rfl h, _, rfl, rfl, rfl, rfl, by simp [i2cWriterStream], ?_⟩
    simp [wrMem, wrCache, i2cWriterStream, i2cGroups, i2cAckLog, i2cWrBytes, transferred]
  | succ n ih =>
    have eB : i2cWrBytes period stretch i (n + 1) = i2cWrBytes period stretch i n ++
        (if (i n).valid && ((i2cWriterStream period stretch).out
          ((i2cWriterStream period stretch).st i n) (i n)).ready then [(i n).data] else []) := rfl
    have eL : (i2cWrBytes period stretch i (n + 1)).length = (i2cWrBytes period stretch i n).length +
        (if (i n).valid && ((i2cWriterStream period stretch).out
          ((i2cWriterStream period stretch).st i n) (i n)).ready then 1 else 0) := by
      rw [eB, List.length_append]
      split <;> rfl
    have ih := ih (fun k hk => by
      rw [hf k (by rw [eL]; omega), eB, List.getD_eq_getElem?_getD, List.getElem?_append_left hk,
        ← List.getD_eq_getElem?_getD])
    have hfn : (i n).valid = true → ((i2cWriterStream period stretch).out
          ((i2cWriterStream period stretch).st i n) (i n)).ready = true →
        f (i2cWrBytes period stretch i n).length = (i n).data := by
      intro h1 h2
      rw [hf _ (by rw [eL, h1, h2]; simp), eB, h1, h2]
      simp
    have h := wr_step period stretch f _ _ _ _ _ (i (n + 1)) ih hfn (fun h1 h2 => (hst n h1 h2).1)
    rw [eL]
    have e1 : i2cCmdLog period stretch (i2cWrCi period stretch i) (n + 1) =
        i2cCmdLog period stretch (i2cWrCi period stretch i) n ++
          wrTaken ((i2cWriterStream period stretch).st i n) (i n) := by
      unfold wrTaken
      rw [i2cWr_core]
      rfl
    have e2 : i2cAckLog period stretch (i2cWrCi period stretch i) (n + 1) =
        i2cAckLog period stretch (i2cWrCi period stretch i) n ++
          wrAcks (i2cCmdLog period stretch (i2cWrCi period stretch i) n)
            ((i2cWriterStream period stretch).st i n).core
            ((i2cWriterStream period stretch).st i (n + 1)).core := by
      unfold wrAcks
      rw [i2cWr_core, i2cWr_core]
      rfl
    rw [e1, e2]
    exact h

end

end Lambdalib
