import Verif.Model.I2cStream
import Verif.Lemmas.I2c

/-! How wrappers see the I2C initiator. -/

namespace Lambdalib

section
variable (period : Nat) (stretch : Bool)

/-- `busy` low and no strobe: nothing happens. -/
theorem i2cCore_quiet (s : I2cS) (x : I2cIn) (hf : s.fsm = .idle) (hs : i2cStrobe x = none) :
    let s' := (i2cInitiator period stretch).next s x
    s'.fsm = .idle ∧ s'.busy = false ∧ s'.ackO = s.ackO ∧ s'.dataO = s.dataO := by
  simp only [i2cInitiator, i2cFsm, hf, i2cIdle]
  unfold i2cStrobe at hs
  revert hs
  cases x.start <;> cases x.stop <;> cases x.write <;> cases x.read <;> simp [hf]

theorem i2cCore_busy (s : I2cS) (x : I2cIn) (c : I2cCmd) (hf : s.fsm = .idle)
    (hs : i2cStrobe x = some c) :
    ((i2cInitiator period stretch).next s x).busy = true := by
  simp only [i2cInitiator, i2cFsm, hf, i2cIdle]
  unfold i2cStrobe at hs
  revert hs
  cases x.start <;> cases x.stop <;> cases x.write <;> cases x.read <;> simp

/-- Invariant of the initiator: `busy` is high outside the waiting state. -/
def i2cBusyInv (s : I2cS) : Prop := s.fsm ≠ .idle → s.busy = true

theorem i2cBusyInv_step (s : I2cS) (x : I2cIn) (hs : i2cBusyInv s) :
    i2cBusyInv ((i2cInitiator period stretch).next s x) := by
  unfold i2cBusyInv at *
  obtain ⟨fsm, busy, timer, bitno, rSh, wSh, rAck, sclO, sdaO, ackO, dataO⟩ := s
  cases fsm <;>
    simp only [i2cInitiator, i2cFsm, i2cIdle, i2cSclL, i2cSclH, i2cStbX, id] <;>
    (repeat' split) <;> simp_all

theorem i2cBusyInv_idle {s : I2cS} (h : i2cBusyInv s) (hb : s.busy = false) : s.fsm = .idle := by
  apply Classical.byContradiction
  intro hf
  rw [h hf] at hb
  cases hb

variable (ci : Nat → I2cIn)

/-- The commands taken by the initiator in the first `n` cycles. -/
def i2cCmdLog : Nat → List I2cCmd
  | 0 => []
  | n + 1 => i2cCmdLog n ++
      (if ((i2cInitiator period stretch).st ci n).fsm = .idle then (i2cStrobe (ci n)).toList else [])

/-- Command `c` was taken in cycle `k`, and finished in cycle `e`. -/
def i2cRan (k e : Nat) (c : I2cCmd) : Prop :=
  i2cAccepts period stretch ci k c ∧ k < e ∧ i2cIdleAt period stretch ci e ∧
    ∀ j, k < j → j < e → ¬ i2cIdleAt period stretch ci j

/-- A command after which no strobe was given is finished when `busy` is low, and its results are still
there. -/
theorem i2c_finished (k n : Nat) (c : I2cCmd) (ha : i2cAccepts period stretch ci k c) (hkn : k < n)
    (hq : ∀ j, k < j → j < n → i2cStrobe (ci j) = none)
    (hb : ((i2cInitiator period stretch).st ci n).busy = false) :
    ∃ e, e ≤ n ∧ i2cRan period stretch ci k e c ∧
      ((i2cInitiator period stretch).st ci n).ackO = ((i2cInitiator period stretch).st ci e).ackO ∧
      ((i2cInitiator period stretch).st ci n).dataO = ((i2cInitiator period stretch).st ci e).dataO := by
  have hidle : i2cIdleAt period stretch ci n := by
    apply Classical.byContradiction
    intro h
    rw [i2cBusy_inv period stretch ci n h] at hb
    cases hb
  clear hb
  -- search the first idle cycle
  obtain ⟨d, rfl⟩ : ∃ d, n = k + 1 + d := ⟨n - k - 1, by omega⟩
  have key : ∀ d, (∀ j, k < j → j < k + 1 + d → i2cStrobe (ci j) = none) →
      (∀ j, k < j → j < k + 1 + d → ¬ i2cIdleAt period stretch ci j) ∨
      ∃ e, k < e ∧ e < k + 1 + d ∧ i2cIdleAt period stretch ci e ∧
        (∀ j, k < j → j < e → ¬ i2cIdleAt period stretch ci j) ∧
        i2cIdleAt period stretch ci (k + 1 + d) ∧
        ((i2cInitiator period stretch).st ci (k + 1 + d)).ackO =
          ((i2cInitiator period stretch).st ci e).ackO ∧
        ((i2cInitiator period stretch).st ci (k + 1 + d)).dataO =
          ((i2cInitiator period stretch).st ci e).dataO := by
    intro d
    induction d with
    | zero => intro _; left; intro j h1 h2; omega
    | succ d ih =>
      intro hq
      have hq' := hq (k + 1 + d) (by omega) (by omega)
      rw [show k + 1 + (d + 1) = k + 1 + d + 1 from rfl]
      rcases ih (fun j a b => hq j a (by omega)) with h | ⟨e, h1, h2, h3, h4, h5, h6, h7⟩
      · by_cases hi : i2cIdleAt period stretch ci (k + 1 + d)
        · right
          have hqs := i2cCore_quiet period stretch _ (ci (k + 1 + d)) hi hq'
          refine ⟨k + 1 + d, by omega, by omega, hi, h, hqs.1, hqs.2.2.1, hqs.2.2.2⟩
        · left
          intro j a b
          rcases Nat.lt_or_ge j (k + 1 + d) with hj | hj
          · exact h j a hj
          · have : j = k + 1 + d := by omega
            rw [this]; exact hi
      · right
        have hqs := i2cCore_quiet period stretch _ (ci (k + 1 + d)) h5 hq'
        refine ⟨e, h1, by omega, h3, h4, hqs.1, ?_, ?_⟩
        · rw [← h6]; exact hqs.2.2.1
        · rw [← h7]; exact hqs.2.2.2
  rcases key d hq with h | ⟨e, h1, h2, h3, h4, h5, h6, h7⟩
  · exact ⟨k + 1 + d, by omega, ⟨ha, by omega, hidle, h⟩, rfl, rfl⟩
  · exact ⟨e, by omega, ⟨ha, h1, h3, h4⟩, h6, h7⟩

/-- The outcomes of the write commands that finished in the first `n` cycles. -/
def i2cAckLog : Nat → List Bool
  | 0 => []
  | n + 1 => i2cAckLog n ++
      (match (i2cCmdLog period stretch ci n).getLast? with
       | some (.write _) =>
         if ((i2cInitiator period stretch).st ci n).fsm ≠ .idle ∧
             ((i2cInitiator period stretch).st ci (n + 1)).fsm = .idle then
           [((i2cInitiator period stretch).st ci (n + 1)).ackO] else []
       | _ => [])

end

/-! ### I2CStream -/

section
variable (period : Nat) (stretch : Bool) (i : Nat → I2cStrIn)

/-- Inputs of the initiator in an execution of `I2CStream`. -/
def i2cStrCi (n : Nat) : I2cIn := i2cStrCoreIn ((i2cStream period stretch).st i n) (i n)

theorem i2cStr_core (n : Nat) : ((i2cStream period stretch).st i n).core =
    (i2cInitiator period stretch).st (i2cStrCi period stretch i) n := by
  induction n with
  | zero => rfl
  | succ n ih =>
    rw [Circuit.st_succ, Circuit.st_succ, ← ih]
    rfl

theorem i2cTxn_snoc (l : List (Beat (Bool × BitVec 8) × Bool)) (b : Beat (Bool × BitVec 8) × Bool) :
    i2cTxn (l ++ [b]) = i2cTxnStep (i2cTxn l) b := by
  simp [i2cTxn]

/-- Relation between the taken commands `L`, the processed beats `B`, the registers and the current inputs of
`I2CStream`. -/
def strRel (L : List I2cCmd) (B : List (Beat (Bool × BitVec 8) × Bool)) (s : I2cStrS) (x : I2cStrIn) :
    Prop :=
  i2cBusyInv s.core ∧
  match s.fsm with
  | .idle => L = (i2cTxn B).1 ∧ (i2cTxn B).2 = false
  | .start => L = (i2cTxn B).1 ∧ (i2cTxn B).2 = false ∧ s.core.busy = false
  | .waitStart => L = (i2cTxn B).1 ++ [.start] ∧ (i2cTxn B).2 = false
  | .xfer => s.core.busy = false ∧ L = (i2cTxn B).1 ++ (if (i2cTxn B).2 then [] else [.start])
  | .waitWrite => x.valid = true ∧ x.beat.payload.1 = false ∧ s.lastR = x.beat.last ∧
      L = (i2cTxn B).1 ++ (if (i2cTxn B).2 then [] else [.start]) ++ [.write x.beat.payload.2]
  | .waitRead => (i2cTxn B).2 = !s.lastR ∧ (i2cTxn B).1 = L ++ (if s.lastR then [.stop] else [])
  | .stop => (i2cTxn B).2 = false ∧ s.core.busy = false ∧ (i2cTxn B).1 = L ++ [.stop]
  | .waitStop => (i2cTxn B).2 = false ∧ L = (i2cTxn B).1

theorem str_step (L : List I2cCmd) (B : List (Beat (Bool × BitVec 8) × Bool)) (s : I2cStrS)
    (x x' : I2cStrIn) (h : strRel L B s x)
    (hst : x.valid = true → ((i2cStream period stretch).out s x).ready = false →
      x'.valid = true ∧ x'.beat = x.beat) :
    strRel (L ++ (if s.core.fsm = .idle then (i2cStrobe (i2cStrCoreIn s x)).toList else []))
      (B ++ (if x.valid && ((i2cStream period stretch).out s x).ready then
        [(x.beat, ((i2cStream period stretch).out s x).error)] else []))
      ((i2cStream period stretch).next s x) x' := by
  obtain ⟨fsm, lastR, core⟩ := s
  obtain ⟨hb, h⟩ := h
  simp only at hb
  refine ⟨i2cBusyInv_step period stretch core _ hb, ?_⟩
  have hidle := i2cBusyInv_idle hb
  have hq := i2cCore_quiet period stretch core
  obtain ⟨valid, ⟨first, last, rwn, data⟩, ready, sclI, sdaI⟩ := x
  obtain ⟨valid', ⟨first', last', rwn', data'⟩, ready', sclI', sdaI'⟩ := x'
  cases fsm <;> simp only at h
  case idle =>
    cases hbusy : core.busy <;> cases valid <;>
      simp [i2cStream, i2cStrFsm, hbusy, i2cStrCoreIn, i2cStrobe, h]
    · exact (hq _ (hidle hbusy) (by simp [i2cStrobe])).2.1
  case start =>
    simp [i2cStream, i2cStrFsm, i2cStrCoreIn, i2cStrobe, h, hidle h.2.2]
  case waitStart =>
    cases hbusy : core.busy <;>
      simp [i2cStream, i2cStrFsm, hbusy, i2cStrCoreIn, i2cStrobe, h]
    exact (hq _ (hidle hbusy) (by simp [i2cStrobe])).2.1
  case xfer =>
    obtain ⟨h1, h2⟩ := h
    have hi := hidle h1
    cases valid
    · simp [i2cStream, i2cStrFsm, i2cStrCoreIn, i2cStrobe, h2]
      exact (hq _ hi (by simp [i2cStrobe])).2.1
    · cases rwn
      · simp [i2cStream] at hst
        simp [i2cStream, i2cStrFsm, i2cStrCoreIn, i2cStrobe, hi, h2, hst]
      · simp [i2cStream, i2cStrFsm, i2cStrCoreIn, i2cStrobe, hi, h2, i2cTxn_snoc, i2cTxnStep,
          i2cBeatCmd]
  case waitWrite =>
    obtain ⟨h1, h2, h3, h4⟩ := h
    subst h1 h2 h3
    cases hbusy : core.busy
    · have := (hq (i2cStrCoreIn ⟨.waitWrite, lastR, core⟩
        ⟨true, ⟨first, lastR, false, data⟩, ready, sclI, sdaI⟩) (hidle hbusy)
          (by simp [i2cStrobe, i2cStrCoreIn])).2.1
      simp only [i2cStrCoreIn] at this
      cases hack : core.ackO <;> cases lastR <;>
        simp [i2cStream, i2cStrFsm, hbusy, hack, i2cStrCoreIn, i2cStrobe, h4, i2cTxn_snoc,
          i2cTxnStep, i2cBeatCmd] <;> simpa using this
    · simp [i2cStream, hbusy] at hst
      simp [i2cStream, i2cStrFsm, hbusy, i2cStrCoreIn, i2cStrobe, h4, hst]
  case waitRead =>
    cases hbusy : core.busy
    · have := (hq (i2cStrCoreIn ⟨.waitRead, lastR, core⟩
        ⟨valid, ⟨first, last, rwn, data⟩, ready, sclI, sdaI⟩) (hidle hbusy)
          (by simp [i2cStrobe, i2cStrCoreIn])).2.1
      simp only [i2cStrCoreIn] at this
      cases ready <;> cases lastR <;>
        simp [i2cStream, i2cStrFsm, hbusy, i2cStrCoreIn, i2cStrobe, h] <;> simpa using this
    · simp [i2cStream, i2cStrFsm, hbusy, i2cStrCoreIn, i2cStrobe, h]
  case stop =>
    simp [i2cStream, i2cStrFsm, i2cStrCoreIn, i2cStrobe, h, hidle h.2.1]
  case waitStop =>
    cases hbusy : core.busy <;>
      simp [i2cStream, i2cStrFsm, hbusy, i2cStrCoreIn, i2cStrobe, h]

/-- Beats processed by `I2CStream`: those accepted on the sink, each with `error` in that cycle. -/
def i2cStrBeats (n : Nat) : List (Beat (Bool × BitVec 8) × Bool) :=
  transferred (fun k => (i k).valid) (fun k => ((i2cStream period stretch).wave i k).ready)
    (fun k => ((i k).beat, ((i2cStream period stretch).wave i k).error)) n

/-- The sender obeys the stream rule. -/
def i2cStrSinkStable : Prop :=
  Stable (fun k => (i k).valid) (fun k => ((i2cStream period stretch).wave i k).ready)
    (fun k => (i k).beat)

/-- The sender obeys the stream rule before cycle `n`. -/
def i2cStrStableTo (n : Nat) : Prop :=
  ∀ k, k < n → (i k).valid = true → ((i2cStream period stretch).wave i k).ready = false →
    (i (k + 1)).valid = true ∧ (i (k + 1)).beat = (i k).beat

theorem str_rel_upto (n : Nat) (hst : i2cStrStableTo period stretch i n) :
    strRel (i2cCmdLog period stretch (i2cStrCi period stretch i) n) (i2cStrBeats period stretch i n)
      ((i2cStream period stretch).st i n) (i n) := by
  induction n with
  | zero =>
    refine ⟨?_, rfl, rfl⟩
    intro h; exact absurd rfl h
  | succ n ih =>
    have h := str_step period stretch _ _ _ _ (i (n + 1)) (ih (fun k hk => hst k (by omega))) (hst n (by omega))
    rw [i2cStr_core] at h
    exact h

theorem str_rel (hst : i2cStrSinkStable period stretch i) (n : Nat) :
    strRel (i2cCmdLog period stretch (i2cStrCi period stretch i) n) (i2cStrBeats period stretch i n)
      ((i2cStream period stretch).st i n) (i n) := str_rel_upto period stretch i n (fun k _ => hst k)

end

end Lambdalib
