import Verif.Spec.I2cTxn
import Verif.Props.I2cDevice
import Verif.Props.I2cStream
import Verif.Lemmas.List
import Verif.Props.UlpiDump

/-! `I2CStream` with initiator and bus driver on the wires, with a device (C92). -/

namespace Lambdalib

section
variable (D : I2cDev)

theorem I2cDev.beats_snoc (l : List (Beat (Bool × BitVec 8))) (b : Beat (Bool × BitVec 8)) :
    D.beats (l ++ [b]) = D.beat (D.beats l) b := by
  simp [I2cDev.beats]

theorem I2cDev.naks_append (l m : List (Beat (Bool × BitVec 8))) (r : DevAbs × Bool) :
    D.naks r (l ++ m) = D.naks r l ++ D.naks (l.foldl D.beat r) m := by
  induction l generalizing r with
  | nil => rfl
  | cons b l ih => simp [I2cDev.naks, ih]

theorem I2cDev.reads_append (l m : List (Beat (Bool × BitVec 8))) (r : DevAbs × Bool) :
    D.reads r (l ++ m) = D.reads r l ++ D.reads (l.foldl D.beat r) m := by
  induction l generalizing r with
  | nil => rfl
  | cons b l ih => simp [I2cDev.reads, ih]

/-- Power on. -/
def devRest : DevAbs × Bool := (⟨[], .rest⟩, false)

theorem I2cDev.naks_snoc (l : List (Beat (Bool × BitVec 8))) (b : Beat (Bool × BitVec 8)) :
    D.naks devRest (l ++ [b]) = D.naks devRest l ++ [D.nak (D.beats l) b] := by
  rw [D.naks_append]; rfl

theorem I2cDev.reads_snoc (l : List (Beat (Bool × BitVec 8))) (b : Beat (Bool × BitVec 8)) :
    D.reads devRest (l ++ [b]) = D.reads devRest l ++
      (if b.payload.1 then [⟨false, b.last, I2cDev.gives (D.opened (D.beats l))⟩] else []) := by
  rw [D.reads_append]
  simp [I2cDev.reads]
  rfl

theorem I2cDev.naks_length (l : List (Beat (Bool × BitVec 8))) (r : DevAbs × Bool) : (D.naks r l).length = l.length := by
  induction l generalizing r with
  | nil => rfl
  | cons b l ih => simp [I2cDev.naks, ih]

theorem snoc_inj {α : Type} {a b : List α} {x y : α} (h : a ++ [x] = b ++ [y]) : a = b ∧ x = y := by
  have := List.append_inj' h rfl
  exact ⟨this.1, by simpa using this.2⟩

theorem eq_snoc {α : Type} (l : List α) : l = [] ∨ ∃ m a, l = m ++ [a] := by
  induction l using snocInduction with
  | nil => exact .inl rfl
  | snoc m a _ => exact .inr ⟨m, a, rfl⟩

/-- The commands for beats with the results of the device. -/
theorem I2cDev.txn_eq (B : List (Beat (Bool × BitVec 8) × Bool)) (h : B.map Prod.snd = D.naks devRest (B.map Prod.fst)) :
    D.cmds (i2cTxn B).1 = (D.beats (B.map Prod.fst)).1 ∧ (i2cTxn B).2 = (D.beats (B.map Prod.fst)).2 := by
  induction B using snocInduction with
  | nil => exact ⟨rfl, rfl⟩
  | snoc B b ih =>
    rw [List.map_append, List.map_append, List.map_singleton, List.map_singleton, D.naks_snoc] at h
    obtain ⟨h1, h2⟩ := snoc_inj h
    obtain ⟨e1, e2⟩ := ih h1
    rw [List.map_append, List.map_singleton, D.beats_snoc, i2cTxn_snoc, i2cTxnStep, I2cDev.beat, h2]
    simp only [I2cDev.cmds, List.foldl_append] at e1 ⊢
    rw [e1, e2, I2cDev.opened]
    cases (D.beats (B.map Prod.fst)).2 <;> cases b.1.last <;> cases D.nak (D.beats (B.map Prod.fst)) b.1 <;> simp

/-- A transaction that is not open has been stopped. -/
theorem i2cTxn_closed (B : List (Beat (Bool × BitVec 8) × Bool)) (h : (i2cTxn B).2 = false) :
    (i2cTxn B).1 = [] ∨ ∃ L, (i2cTxn B).1 = L ++ [.stop] := by
  rcases eq_snoc B with rfl | ⟨B, b, rfl⟩
  · left; rfl
  · right
    rw [i2cTxn_snoc, i2cTxnStep] at h ⊢
    simp only [Bool.not_eq_false'] at h
    rw [h]
    exact ⟨_, rfl⟩

/-- The device rests after a byte that was not acknowledged. -/
theorem I2cDev.nak_rest (r : DevAbs × Bool) (b : Beat (Bool × BitVec 8)) (h : D.nak r b = true) :
    (D.cmd (D.opened r) (i2cBeatCmd b)).mode = .rest := by
  simp only [I2cDev.nak, Bool.and_eq_true, Bool.not_eq_true'] at h
  obtain ⟨h1, h2⟩ := h
  rw [i2cBeatCmd, h1]
  simp only [Bool.false_eq_true, if_false]
  generalize D.opened r = A at *
  simp only [I2cDev.acks] at h2
  simp only [I2cDev.cmd]
  cases hm : A.mode with
  | rest => simp [hm]
  | recv => rw [hm] at h2; simp only at h2; simp [I2cDev.byte, I2cDev.after, h2]
  | send b => simp [I2cDev.byte, I2cDev.after]

/-- No command is taken between the cycles. -/
theorem i2cCmdLog_quiet (period : Nat) (stretch : Bool) (ci : Nat → I2cIn) (k n : Nat) (c : I2cCmd)
    (ha : i2cAccepts period stretch ci k c) (hk : k < n) (hq : ∀ j, k < j → j < n → i2cStrobe (ci j) = none) :
    i2cCmdLog period stretch ci n = i2cCmdLog period stretch ci k ++ [c] := by
  obtain ⟨d, rfl⟩ : ∃ d, n = k + 1 + d := ⟨n - k - 1, by omega⟩
  clear hk
  induction d with
  | zero =>
    rw [Nat.add_zero, i2cCmdLog_succ, if_pos (show ((i2cInitiator period stretch).st ci k).fsm = .idle from ha.1), ha.2]
    rfl
  | succ d ih =>
    rw [← Nat.add_assoc, i2cCmdLog_succ, hq (k + 1 + d) (by omega) (by omega)]
    rw [ih (fun j h1 h2 => hq j h1 (by omega))]
    simp

variable {D} {bidir : Bool} {period : Nat} {stretch : Bool} {i : Nat → I2cStrIn} {hold : Nat → Bool}
variable (hp : 4 ≤ period) (hw : I2cWired D.target bidir period stretch (i2cStrCi period stretch i) hold)
  (hst : i2cStrSinkStable period stretch i)
  (hfit : ∀ n, D.Fits ((i2cStrBeats period stretch i n).map Prod.fst))

/-- The command log of the initiator inside `I2CStream`. -/
local notation "LOG" n => i2cCmdLog period stretch (i2cStrCi period stretch i) n
local notation "BTS" n => i2cStrBeats period stretch i n

theorem sys_beats_succ (n : Nat) : i2cStrBeats period stretch i (n + 1) = i2cStrBeats period stretch i n ++
    (if (i n).valid && ((i2cStream period stretch).out ((i2cStream period stretch).st i n) (i n)).ready then
      [((i n).beat, ((i2cStream period stretch).out ((i2cStream period stretch).st i n) (i n)).error)] else []) := rfl

/-- The commands make sense as long as the results are those of the device. -/
theorem sys_sensible_step (n : Nat) (hst : i2cStrStableTo period stretch i n) (hfit : D.Fits ((i2cStrBeats period stretch i n).map Prod.fst)) (hB : (BTS n).map Prod.snd = D.naks devRest ((BTS n).map Prod.fst)) (c : I2cCmd)
    (hc : i2cAccepts period stretch (i2cStrCi period stretch i) n c) : DevAllowed (LOG n) (D.cmds (LOG n)) c := by
  obtain ⟨hb, hrel⟩ := str_rel_upto period stretch i n hst
  obtain ⟨t1, t2⟩ := D.txn_eq _ hB
  have hx := hfit
  have hstr := hc.2
  unfold i2cStrCi at hstr
  generalize i2cCmdLog period stretch (i2cStrCi period stretch i) n = L at *
  generalize i2cStrBeats period stretch i n = B at *
  generalize (i2cStream period stretch).st i n = s at *
  cases hf : s.fsm <;> rw [hf] at hrel <;> simp [i2cStrCoreIn, i2cStrobe, hf] at hstr
  case start =>
    subst hstr
    obtain ⟨r1, r2, r3⟩ := hrel
    subst r1
    rcases i2cTxn_closed B r2 with h | ⟨L, h⟩
    · rw [h]
      simp [DevAllowed, I2cDev.cmds]
    · rw [h]
      simp [DevAllowed, D.cmds_snoc, I2cDev.cmd]
  case xfer =>
    repeat' split at hstr
    all_goals cases hstr <;> trivial
  case stop =>
    subst hstr
    obtain ⟨r1, r2, r3⟩ := hrel
    rcases eq_snoc B with rfl | ⟨B, b, rfl⟩
    · simp [i2cTxn] at r3
    · rw [i2cTxn_snoc, i2cTxnStep] at r1 r3
      simp only [Bool.not_eq_false'] at r1
      rw [r1] at r3
      simp only [if_true] at r3
      obtain ⟨r3, _⟩ := snoc_inj r3
      rw [List.map_append, List.map_append, List.map_singleton, List.map_singleton, D.naks_snoc] at hB
      obtain ⟨g1, g2⟩ := snoc_inj hB
      obtain ⟨u1, u2⟩ := D.txn_eq _ g1
      have hL : D.cmds L = D.cmd (D.opened (D.beats (B.map Prod.fst))) (i2cBeatCmd b.1) := by
        rw [← r3, D.cmds_snoc]
        congr 1
        rw [I2cDev.opened, ← u2, ← u1]
        cases (i2cTxn B).2 <;> simp [D.cmds_snoc]
      refine ⟨?_, ?_⟩
      · rw [← r3]
        simp only [List.getLast?_append, List.getLast?_singleton, Option.some_or, ne_eq, Option.some.injEq]
        intro h
        rw [i2cBeatCmd] at h
        split at h
        · rename_i hr
          simp only [I2cCmd.read.injEq, Bool.not_eq_true'] at h
          rw [h] at r1
          rw [I2cDev.nak, hr] at g2
          simp at g2
          rw [g2] at r1
          simp at r1
        · cases h
      · rw [hL]
        cases hl : b.1.last
        · rw [hl, g2] at r1
          simp only [Bool.false_or] at r1
          rw [D.nak_rest _ _ r1]
          simp
        · refine hx (B.map Prod.fst) b.1 [] (by simp) hl

include hp hw in
/-- What the device answers to the command that the wrapper waits for. -/
theorem sys_answer (n : Nat) (hst : i2cStrStableTo period stretch i n) (hs : I2cSensible D period stretch (i2cStrCi period stretch i) n)
    (hbusy : ((i2cStream period stretch).st i n).core.busy = false) :
    (((i2cStream period stretch).st i n).fsm = .waitWrite →
      ((i2cStream period stretch).st i n).core.ackO = D.acks (D.cmds (LOG n).dropLast) (i n).beat.payload.2) ∧
    (((i2cStream period stretch).st i n).fsm = .waitRead →
      ((i2cStream period stretch).st i n).core.dataO = I2cDev.gives (D.cmds (LOG n).dropLast)) := by
  have hcore := i2cStr_core period stretch i n
  refine ⟨fun hf => ?_, fun hf => ?_⟩
  · obtain ⟨k, h1, h2, h3⟩ := (str_current_upto period stretch i n hst).1 hf
    obtain ⟨e, g1, g2, g3, g4⟩ := i2c_finished period stretch _ k n _ h2 h1 h3 (by rw [← hcore]; exact hbusy)
    have := (C91_device_answers hp hw k e _ (fun j hj => hs j (by omega)) g2).1 _ rfl
    rw [i2cCmdLog_quiet _ _ _ k n _ h2 h1 h3, List.dropLast_concat, ← this, hcore, g3]
    rfl
  · obtain ⟨k, h1, h2, h3⟩ := (str_current_upto period stretch i n hst).2 hf
    obtain ⟨e, g1, g2, g3, g4⟩ := i2c_finished period stretch _ k n _ h2 h1 h3 (by rw [← hcore]; exact hbusy)
    have := (C91_device_answers hp hw k e _ (fun j hj => hs j (by omega)) g2).2 _ rfl
    rw [i2cCmdLog_quiet _ _ _ k n _ h2 h1 h3, List.dropLast_concat, ← this, hcore, g4]
    rfl

include hp hw in
theorem sys_run_upto (n : Nat) (hst : ∀ k, k < n → i2cStrStableTo period stretch i k) (hfit : ∀ k, k < n → D.Fits ((i2cStrBeats period stretch i k).map Prod.fst)) : (BTS n).map Prod.snd = D.naks devRest ((BTS n).map Prod.fst) ∧
    I2cSensible D period stretch (i2cStrCi period stretch i) n := by
  induction n with
  | zero => exact ⟨rfl, fun k hk => absurd hk (by omega)⟩
  | succ n ih =>
    obtain ⟨hB, hs⟩ := ih (fun k hk => hst k (by omega)) (fun k hk => hfit k (by omega))
    refine ⟨?_, ?_⟩
    · rw [sys_beats_succ]
      split
      · rename_i hr
        rw [List.map_append, List.map_append, List.map_singleton, List.map_singleton, D.naks_snoc, hB]
        congr 2
        obtain ⟨t1, t2⟩ := D.txn_eq _ hB
        obtain ⟨_, hrel⟩ := str_rel_upto period stretch i n (hst n (by omega))
        have hans := fun h => (sys_answer hp hw n (hst n (by omega)) hs h).1
        generalize i2cCmdLog period stretch (i2cStrCi period stretch i) n = L at *
        generalize i2cStrBeats period stretch i n = B at *
        generalize (i2cStream period stretch).st i n = s at *
        cases hf : s.fsm <;> simp [i2cStream, hf] at hr ⊢
        case xfer => simp [I2cDev.nak, hr]
        case waitWrite =>
          rw [hf] at hrel
          obtain ⟨r1, r2, r3, r4⟩ := hrel
          rw [hr.2, hans hr.2 hf, I2cDev.nak, r2, r4, List.dropLast_concat, I2cDev.opened, ← t2, ← t1]
          cases (i2cTxn B).2 <;> simp [D.cmds_snoc]
      · rw [List.append_nil]
        exact hB
    · intro k hk c hc
      rcases Nat.lt_or_ge k n with h | h
      · exact hs k h c hc
      · have : k = n := by omega
        subst this
        exact sys_sensible_step k (hst k (by omega)) (hfit k (by omega)) hB c hc

include hp hw hst hfit in
theorem sys_run (n : Nat) : (BTS n).map Prod.snd = D.naks devRest ((BTS n).map Prod.fst) ∧
    I2cSensible D period stretch (i2cStrCi period stretch i) n :=
  sys_run_upto hp hw n (fun _ _ k _ => hst k) (fun k _ => hfit k)

include hp hw hst hfit in
/-- **C92.** `error` is raised exactly for the bytes that the device does not acknowledge. -/
theorem C92_errors (n : Nat) :
    (i2cStrBeats period stretch i n).map Prod.snd =
      D.naks (⟨[], .rest⟩, false) ((i2cStrBeats period stretch i n).map Prod.fst) :=
  (sys_run hp hw hst hfit n).1

include hp hw in
theorem sys_reads_upto (n : Nat) (hst : ∀ k, k < n → i2cStrStableTo period stretch i k)
    (hfit : ∀ k, k < n → D.Fits ((i2cStrBeats period stretch i k).map Prod.fst)) : D.reads devRest ((BTS n).map Prod.fst) = i2cStrDelivered period stretch i n ++
    (if ((i2cStream period stretch).st i n).fsm = .waitRead then
      [⟨false, ((i2cStream period stretch).st i n).lastR, I2cDev.gives (D.cmds (LOG n).dropLast)⟩] else []) := by
  induction n with
  | zero => rfl
  | succ n ih =>
    replace ih := ih (fun k hk => hst k (by omega)) (fun k hk => hfit k (by omega))
    obtain ⟨hB, hs⟩ := sys_run_upto hp hw n (fun k hk => hst k (by omega)) (fun k hk => hfit k (by omega))
    obtain ⟨t1, t2⟩ := D.txn_eq _ hB
    obtain ⟨_, hrel⟩ := str_rel_upto period stretch i n (hst n (by omega))
    have hans := fun h => (sys_answer hp hw n (hst n (by omega)) hs h).2
    have e2 : i2cStrDelivered period stretch i (n + 1) = i2cStrDelivered period stretch i n ++
      (if ((i2cStream period stretch).out ((i2cStream period stretch).st i n) (i n)).valid &&
          (i n).ready then
        [((i2cStream period stretch).out ((i2cStream period stretch).st i n) (i n)).beat] else []) :=
      rfl
    have e3 := i2cCmdLog_succ (period := period) (stretch := stretch) (i := i2cStrCi period stretch i) n
    rw [sys_beats_succ, e2, e3, ← i2cStr_core, Circuit.st_succ]
    rw [show i2cStrCi period stretch i n = i2cStrCoreIn ((i2cStream period stretch).st i n) (i n) from rfl]
    have hid : ((i2cStream period stretch).st i n).core.busy = false →
        ((i2cStream period stretch).st i n).core.fsm = .idle := by
      intro h
      exact i2cBusyInv_idle (str_rel_upto period stretch i n (hst n (by omega))).1 h
    clear e2 e3 hw hst hfit hB hs
    generalize i2cCmdLog period stretch (i2cStrCi period stretch i) n = L at *
    generalize i2cStrBeats period stretch i n = B at *
    generalize i2cStrDelivered period stretch i n = R at *
    generalize (i2cStream period stretch).st i n = s at *
    generalize i n = x at *
    obtain ⟨fsm, lastR, core⟩ := s
    simp only at hid hans hrel ih ⊢
    rw [List.map_append, D.reads_append, ih]
    obtain ⟨valid, ⟨first, last, rwn, data⟩, ready, sclI, sdaI⟩ := x
    have hd : (B.map Prod.fst).foldl D.beat devRest = D.beats (B.map Prod.fst) := rfl
    rw [hd]
    cases fsm
    case xfer =>
      obtain ⟨r1, r2⟩ := hrel
      have hop : D.opened (D.beats (B.map Prod.fst)) = D.cmds L := by
        rw [r2, I2cDev.opened, ← t2, ← t1]
        cases (i2cTxn B).2 <;> simp [D.cmds_snoc]
      cases valid <;> cases rwn <;>
        simp [i2cStream, i2cStrFsm, I2cDev.reads, hop, hid r1, i2cStrCoreIn, i2cStrobe]
    case waitRead =>
      cases hb : core.busy
      · cases ready <;> cases lastR <;>
          simp [i2cStream, i2cStrFsm, hb, I2cDev.reads, i2cStrCoreIn, i2cStrobe, hans hb]
      · simp [i2cStream, i2cStrFsm, hb, I2cDev.reads, i2cStrCoreIn, i2cStrobe]
    case waitWrite =>
      obtain ⟨_, hr, _⟩ := hrel
      simp only at hr
      subst hr
      cases hb : core.busy <;> cases valid <;> cases ha : core.ackO <;> cases lastR <;>
        simp [i2cStream, i2cStrFsm, hb, ha, I2cDev.reads]
    all_goals
      simp only [i2cStream, i2cStrFsm]
      (repeat' split) <;> simp_all [I2cDev.reads]

include hp hw hst hfit in
theorem sys_reads (n : Nat) : D.reads devRest ((BTS n).map Prod.fst) = i2cStrDelivered period stretch i n ++
    (if ((i2cStream period stretch).st i n).fsm = .waitRead then
      [⟨false, ((i2cStream period stretch).st i n).lastR, I2cDev.gives (D.cmds (LOG n).dropLast)⟩] else []) :=
  sys_reads_upto hp hw n (fun _ _ k _ => hst k) (fun k _ => hfit k)

include hp hw hst hfit in
/-- **C92.** The bytes delivered are those that the device sends for the beats accepted; at most one is still to be
delivered. -/
theorem C92_reads (n : Nat) : ∃ pend, pend.length ≤ 1 ∧
    D.reads (⟨[], .rest⟩, false) ((i2cStrBeats period stretch i n).map Prod.fst) =
      i2cStrDelivered period stretch i n ++ pend ∧
    (((i2cStream period stretch).wave i n).ready = true → pend = []) := by
  refine ⟨_, ?_, sys_reads hp hw hst hfit n, ?_⟩
  · split <;> simp
  · simp only [Circuit.wave]
    generalize (i2cStream period stretch).st i n = s
    intro h
    split
    · rename_i hf
      simp [i2cStream, hf] at h
    · rfl

include hst in
/-- A transaction is begun only for a beat that is offered. -/
theorem sys_pending (n : Nat) :
    (((i2cStream period stretch).st i n).fsm = .start ∨ ((i2cStream period stretch).st i n).fsm = .waitStart ∨
      (((i2cStream period stretch).st i n).fsm = .xfer ∧ (i2cTxn (BTS n)).2 = false)) → (i n).valid = true := by
  induction n with
  | zero => intro h; rcases h with h | h | h <;> simp [i2cStream] at h
  | succ n ih =>
    intro h
    have hs := hst n
    have hrel := (str_rel period stretch i hst n).2
    rw [sys_beats_succ, Circuit.st_succ] at h
    simp only [Circuit.wave] at hs
    generalize i2cCmdLog period stretch (i2cStrCi period stretch i) n = L at *
    generalize i2cStrBeats period stretch i n = B at *
    generalize (i2cStream period stretch).st i n = s at *
    have hkeep : (i n).valid = true → ((i2cStream period stretch).out s (i n)).ready = false →
        (i (n + 1)).valid = true := fun a b => (hs a b).1
    clear hs
    obtain ⟨fsm, lastR, core⟩ := s
    cases fsm
    case idle =>
      cases hv : (i n).valid <;> cases hb : core.busy <;> simp [i2cStream, i2cStrFsm, hv, hb] at h hkeep
      exact hkeep
    case start => exact hkeep (ih (by simp)) rfl
    case waitStart => exact hkeep (ih (by simp)) rfl
    case xfer =>
      cases hv : (i n).valid
      · simp [i2cStream, i2cStrFsm, hv] at h ih
        simp [h] at ih
      · cases hr : (i n).beat.payload.1 <;> simp [i2cStream, i2cStrFsm, hv, hr] at h
    case waitWrite =>
      obtain ⟨r1, r2, r3, r4⟩ := hrel
      cases hb : core.busy <;> cases ha : core.ackO <;> cases hl : lastR <;>
        simp [i2cStream, i2cStrFsm, hb, ha, hl, r1, i2cTxn_snoc, i2cTxnStep] at h
      simp only [hl] at r3
      rw [← r3] at h
      cases h
    case waitRead =>
      cases hb : core.busy <;> cases hrd : (i n).ready <;> cases hl : lastR <;>
        simp [i2cStream, i2cStrFsm, hb, hrd, hl] at h
      obtain ⟨r1, r2⟩ := hrel
      simp only [hl] at r1
      rw [r1] at h
      cases h
    case stop => simp [i2cStream, i2cStrFsm] at h
    case waitStop => cases hb : core.busy <;> simp [i2cStream, i2cStrFsm, hb] at h

include hst in
/-- The initiator waits when the wrapper does. -/
theorem sys_core_idle (n : Nat) (hf : ((i2cStream period stretch).st i n).fsm = .idle) :
    ((i2cStream period stretch).st i n).core.fsm = .idle := by
  induction n with
  | zero => rfl
  | succ n ih =>
    have hb := (str_rel period stretch i hst n).1
    have hrel := (str_rel period stretch i hst n).2
    rw [Circuit.st_succ] at hf ⊢
    generalize (i2cStream period stretch).st i n = s at *
    have hq := i2cCore_quiet period stretch s.core (i2cStrCoreIn s (i n))
    have hx : ((i2cStream period stretch).next s (i n)).core =
      (i2cInitiator period stretch).next s.core (i2cStrCoreIn s (i n)) := rfl
    rw [hx]
    obtain ⟨fsm, lastR, core⟩ := s
    cases fsm
    case idle => exact (hq (ih rfl) (by simp [i2cStrCoreIn, i2cStrobe])).1
    case waitStop =>
      cases hbu : core.busy
      · exact (hq (i2cBusyInv_idle hb hbu) (by simp [i2cStrCoreIn, i2cStrobe])).1
      · simp [i2cStream, i2cStrFsm, hbu] at hf
    case xfer =>
      simp only [i2cStream, i2cStrFsm] at hf
      repeat' split at hf
      all_goals cases hf
    case waitWrite =>
      simp only [i2cStream, i2cStrFsm] at hf
      repeat' split at hf
      all_goals cases hf
    case waitRead =>
      simp only [i2cStream, i2cStrFsm] at hf
      repeat' split at hf
      all_goals cases hf
    case waitStart =>
      simp only [i2cStream, i2cStrFsm] at hf
      repeat' split at hf
      all_goals cases hf
    case start => simp [i2cStream, i2cStrFsm] at hf
    case stop => simp [i2cStream, i2cStrFsm] at hf

include hp hw hst hfit in
/-- What the device has been through when the wrapper waits for beats. -/
theorem sys_history (n : Nat) (hv : (i n).valid = false)
    (hf : ((i2cStream period stretch).st i n).fsm = .idle ∨ ((i2cStream period stretch).st i n).fsm = .xfer) :
    (i2cBusOf D.target bidir period stretch (i2cStrCi period stretch i) hold (n + 1)).tgt.2 =
      (D.beats ((BTS n).map Prod.fst)).1.log ∧
    (((i2cStream period stretch).st i n).fsm = .idle ↔ (D.beats ((BTS n).map Prod.fst)).2 = false) := by
  obtain ⟨hB, hs⟩ := sys_run hp hw hst hfit n
  obtain ⟨t1, t2⟩ := D.txn_eq _ hB
  obtain ⟨hb, hrel⟩ := str_rel period stretch i hst n
  have hpend := sys_pending hst n
  have hid : i2cIdleAt period stretch (i2cStrCi period stretch i) n := by
    unfold i2cIdleAt
    rw [← i2cStr_core]
    rcases hf with hf | hf
    · exact sys_core_idle hst n hf
    · rw [hf] at hrel
      exact i2cBusyInv_idle hb hrel.1
  rw [C91_device_history hp hw n hs hid, ← t1, ← t2]
  rcases hf with hf | hf
  · rw [hf] at hrel
    obtain ⟨r1, r2⟩ := hrel
    rw [← r1]
    exact ⟨rfl, by simp [hf, r2]⟩
  · rw [hf] at hrel
    obtain ⟨r1, r2⟩ := hrel
    have : (i2cTxn (BTS n)).2 = true := by
      cases h : (i2cTxn (BTS n)).2
      · rw [hpend (.inr (.inr ⟨hf, h⟩))] at hv
        cases hv
      · rfl
    rw [this] at r2
    simp only [if_true, List.append_nil] at r2
    rw [← r2]
    exact ⟨rfl, by simp [hf, this]⟩

include hp hw hst in
/-- When nothing more is offered, the wrapper comes to wait for beats. -/
theorem sys_settles (hrel : ∀ n, ∃ m, n ≤ m ∧ hold m = false) (m0 : Nat)
    (hrdy : ∀ n, m0 ≤ n → ((i2cStream period stretch).st i n).fsm = .waitRead → ∃ m, n ≤ m ∧ (i m).ready = true)
    (hv : ∀ n, m0 ≤ n → (i n).valid = false) :
    ∃ m, m0 ≤ m ∧ ∀ n, m ≤ n → ((i2cStream period stretch).st i n).fsm = .idle ∨
      ((i2cStream period stretch).st i n).fsm = .xfer := by
  have hwait := str_wait period stretch i hp (wired_follows hp hw hrel)
  suffices h : ∃ m, m0 ≤ m ∧ (((i2cStream period stretch).st i m).fsm = .idle ∨
      ((i2cStream period stretch).st i m).fsm = .xfer) by
    obtain ⟨m, hm, hf⟩ := h
    refine ⟨m, hm, fun n hn => ?_⟩
    obtain ⟨d, rfl⟩ : ∃ d, n = m + d := ⟨n - m, by omega⟩
    clear hn
    induction d with
    | zero => exact hf
    | succ d ih =>
      have hv' := hv (m + d) (by omega)
      rw [← Nat.add_assoc, Circuit.st_succ]
      generalize (i2cStream period stretch).st i (m + d) = s at *
      rcases ih with h | h
      · left
        simp [i2cStream, i2cStrFsm, h, hv']
      · right
        simp [i2cStream, i2cStrFsm, h, hv']
  have tWaitStart : ∀ m, m0 ≤ m → ((i2cStream period stretch).st i m).fsm ≠ .waitStart := by
    intro m hm h
    have := sys_pending hst m (.inr (.inl h))
    rw [hv m hm] at this
    cases this
  have tWaitStop : ∀ m, m0 ≤ m → ((i2cStream period stretch).st i m).fsm = .waitStop → ∃ m, m0 ≤ m ∧
      (((i2cStream period stretch).st i m).fsm = .idle ∨ ((i2cStream period stretch).st i m).fsm = .xfer) := by
    intro m hm hf
    obtain ⟨m', h1, h2, h3⟩ := hwait .waitStop
      (by
        intro n hf
        unfold i2cStrCi
        generalize (i2cStream period stretch).st i n = s at *
        simp [i2cStrCoreIn, i2cStrobe, hf])
      (by
        intro n hf hb
        rw [Circuit.st_succ]
        generalize (i2cStream period stretch).st i n = s at *
        simp [i2cStream, i2cStrFsm, hf, hb]) m hf
    refine ⟨m' + 1, by omega, .inl ?_⟩
    rw [Circuit.st_succ]
    generalize (i2cStream period stretch).st i m' = s at *
    simp [i2cStream, i2cStrFsm, h2, h3]
  have tStop : ∀ m, m0 ≤ m → ((i2cStream period stretch).st i m).fsm = .stop → ∃ m, m0 ≤ m ∧
      (((i2cStream period stretch).st i m).fsm = .idle ∨ ((i2cStream period stretch).st i m).fsm = .xfer) := by
    intro m hm hf
    apply tWaitStop (m + 1) (by omega)
    rw [Circuit.st_succ]
    generalize (i2cStream period stretch).st i m = s at *
    simp [i2cStream, i2cStrFsm, hf]
  have tRead : ∀ m, m0 ≤ m → ((i2cStream period stretch).st i m).fsm = .waitRead → ∃ m, m0 ≤ m ∧
      (((i2cStream period stretch).st i m).fsm = .idle ∨ ((i2cStream period stretch).st i m).fsm = .xfer) := by
    intro m hm hf
    obtain ⟨m', h1, h2, h3⟩ := hwait .waitRead
      (by
        intro n hf
        unfold i2cStrCi
        generalize (i2cStream period stretch).st i n = s at *
        simp [i2cStrCoreIn, i2cStrobe, hf])
      (by
        intro n hf hb
        rw [Circuit.st_succ]
        generalize (i2cStream period stretch).st i n = s at *
        simp [i2cStream, i2cStrFsm, hf, hb]) m hf
    obtain ⟨q, hq1, hq2⟩ := hrdy m' (by omega) h2
    obtain ⟨j, j1, ⟨j2, j3⟩, j4⟩ := eventually_leave
      (fun n => ((i2cStream period stretch).st i n).fsm = .waitRead ∧
        ((i2cStream period stretch).st i n).core.busy = false) (fun n => (i n).ready = true)
      (by
        intro n ⟨a, b⟩ hr
        have hb := (str_rel period stretch i hst n).1
        rw [Circuit.st_succ]
        generalize (i2cStream period stretch).st i n = s at *
        have hq := (i2cCore_quiet period stretch s.core (i2cStrCoreIn s (i n)) (i2cBusyInv_idle hb b)
          (by simp [i2cStrCoreIn, i2cStrobe, a])).2.1
        refine ⟨by simp [i2cStream, i2cStrFsm, a, hr], hq⟩) (q - m') m' ⟨h2, h3⟩
      (by rw [show m' + (q - m') = q by omega]; exact hq2)
    cases hl : ((i2cStream period stretch).st i j).lastR
    · refine ⟨j + 1, by omega, .inr ?_⟩
      rw [Circuit.st_succ]
      generalize (i2cStream period stretch).st i j = s at *
      simp [i2cStream, i2cStrFsm, j2, j3, j4, hl]
    · apply tStop (j + 1) (by omega)
      rw [Circuit.st_succ]
      generalize (i2cStream period stretch).st i j = s at *
      simp [i2cStream, i2cStrFsm, j2, j3, j4, hl]
  cases hf : ((i2cStream period stretch).st i m0).fsm
  · exact ⟨m0, Nat.le_refl _, .inl hf⟩
  · have := sys_pending hst m0 (.inl hf)
    rw [hv m0 (Nat.le_refl _)] at this
    cases this
  · exact absurd hf (tWaitStart m0 (Nat.le_refl _))
  · exact ⟨m0, Nat.le_refl _, .inr hf⟩
  · have := (str_rel period stretch i hst m0).2
    rw [hf] at this
    have := this.1
    rw [hv m0 (Nat.le_refl _)] at this
    cases this
  · exact tRead m0 (Nat.le_refl _) hf
  · exact tStop m0 (Nat.le_refl _) hf
  · exact tWaitStop m0 (Nat.le_refl _) hf

end

/-! ### The whole system -/

/-- `I2CStream` fed from a list of beats; inputs: ready of the receiver, levels of the lines. -/
def i2cFedIn (r : I2cStrS × List (Beat (Bool × BitVec 8))) (rdy scl sda : Bool) : I2cStrIn :=
  ⟨!r.2.isEmpty, r.2.headD ⟨false, false, (false, 0)⟩, rdy, scl, sda⟩

/-- The circuit with its sender. -/
def i2cFed (period : Nat) (stretch : Bool) (q : List (Beat (Bool × BitVec 8))) :
    Circuit (I2cStrS × List (Beat (Bool × BitVec 8))) (Bool × Bool × Bool) I2cStrOut where
  reset := ((i2cStream period stretch).reset, q)
  out r x := (i2cStream period stretch).out r.1 (i2cFedIn r x.1 x.2.1 x.2.2)
  next r x :=
    let y := i2cFedIn r x.1 x.2.1 x.2.2
    ((i2cStream period stretch).next r.1 y,
      if y.valid && ((i2cStream period stretch).out r.1 y).ready then r.2.tail else r.2)

section
variable (D : I2cDev) (bidir : Bool) (period : Nat) (stretch : Bool) (q : List (Beat (Bool × BitVec 8)))
  (rdy hold : Nat → Bool)

/-- The inputs of `i2cFed` on the wires with a device. -/
def i2cSysWire : Nat → Bool × Bool × Bool :=
  closeIn D.target bidir (i2cFed period stretch q) (fun r => r.1.core) (fun n _ scl sda => (rdy n, scl, sda)) hold

/-- The beats not sent yet. -/
def i2cSysQueue (n : Nat) : List (Beat (Bool × BitVec 8)) :=
  ((i2cFed period stretch q).st (i2cSysWire D bidir period stretch q rdy hold) n).2

/-- The inputs of `I2CStream` in the whole system: sender, receiver, wires, device. -/
def i2cSys (n : Nat) : I2cStrIn :=
  let x := i2cSysWire D bidir period stretch q rdy hold n
  i2cFedIn ((i2cFed period stretch q).st (i2cSysWire D bidir period stretch q rdy hold) n) x.1 x.2.1 x.2.2

theorem i2cSys_st (n : Nat) : (i2cStream period stretch).st (i2cSys D bidir period stretch q rdy hold) n =
    ((i2cFed period stretch q).st (i2cSysWire D bidir period stretch q rdy hold) n).1 := by
  induction n with
  | zero => rfl
  | succ n ih => rw [Circuit.st_succ, ih]; rfl

theorem i2cSys_queue_succ (n : Nat) : i2cSysQueue D bidir period stretch q rdy hold (n + 1) =
    if (i2cSys D bidir period stretch q rdy hold n).valid &&
      ((i2cStream period stretch).wave (i2cSys D bidir period stretch q rdy hold) n).ready then
      (i2cSysQueue D bidir period stretch q rdy hold n).tail else i2cSysQueue D bidir period stretch q rdy hold n := by
  have : (i2cStream period stretch).wave (i2cSys D bidir period stretch q rdy hold) n =
      (i2cStream period stretch).out ((i2cFed period stretch q).st (i2cSysWire D bidir period stretch q rdy hold) n).1
        (i2cSys D bidir period stretch q rdy hold n) := by
    rw [Circuit.wave, i2cSys_st]
  rw [this]
  rfl

theorem i2cSys_in (n : Nat) :
    (i2cSys D bidir period stretch q rdy hold n).valid = (!(i2cSysQueue D bidir period stretch q rdy hold n).isEmpty) ∧
    (i2cSys D bidir period stretch q rdy hold n).beat =
      (i2cSysQueue D bidir period stretch q rdy hold n).headD ⟨false, false, (false, 0)⟩ ∧
    (i2cSys D bidir period stretch q rdy hold n).ready = rdy n := ⟨rfl, rfl, rfl⟩

theorem i2cSys_stable : i2cStrSinkStable period stretch (i2cSys D bidir period stretch q rdy hold) := by
  intro n hv hr
  obtain ⟨a1, a2, _⟩ := i2cSys_in D bidir period stretch q rdy hold n
  obtain ⟨b1, b2, _⟩ := i2cSys_in D bidir period stretch q rdy hold (n + 1)
  have := i2cSys_queue_succ D bidir period stretch q rdy hold n
  simp only at hv hr ⊢
  rw [hr, Bool.and_false] at this
  simp only [Bool.false_eq_true, if_false] at this
  rw [this, ← a1] at b1
  rw [this, ← a2] at b2
  exact ⟨by rw [b1, hv], b2⟩

theorem i2cSys_beats (n : Nat) :
    (i2cStrBeats period stretch (i2cSys D bidir period stretch q rdy hold) n).map Prod.fst ++
      i2cSysQueue D bidir period stretch q rdy hold n = q := by
  induction n with
  | zero => rfl
  | succ n ih =>
    obtain ⟨a1, a2, _⟩ := i2cSys_in D bidir period stretch q rdy hold n
    have e : i2cStrBeats period stretch (i2cSys D bidir period stretch q rdy hold) (n + 1) =
      i2cStrBeats period stretch (i2cSys D bidir period stretch q rdy hold) n ++
      (if (i2cSys D bidir period stretch q rdy hold n).valid &&
          ((i2cStream period stretch).wave (i2cSys D bidir period stretch q rdy hold) n).ready then
        [((i2cSys D bidir period stretch q rdy hold n).beat,
          ((i2cStream period stretch).wave (i2cSys D bidir period stretch q rdy hold) n).error)] else []) := rfl
    rw [e, i2cSys_queue_succ, a1, a2]
    generalize i2cStrBeats period stretch (i2cSys D bidir period stretch q rdy hold) n = B at *
    generalize i2cSysQueue D bidir period stretch q rdy hold n = Q at *
    generalize (i2cStream period stretch).wave (i2cSys D bidir period stretch q rdy hold) n = y at *
    rw [← ih]
    cases Q with
    | nil => simp
    | cons b Q => cases y.ready <;> simp

/-- C92: the hypotheses on wires and sender are met by the whole system. -/
theorem C92_system_exists (hh : ∀ n, hold n = true → bidir = true ∧ stretch = true) :
    let i := i2cSys D bidir period stretch q rdy hold
    I2cWired D.target bidir period stretch (i2cStrCi period stretch i) hold ∧ i2cStrSinkStable period stretch i ∧
      (∀ n, (i n).ready = rdy n) ∧ ∀ n, (i2cStrBeats period stretch i n).map Prod.fst <+: q := by
  intro i
  have hc : ∀ n, (i2cInitiator period stretch).st (i2cStrCi period stretch i) n =
      ((i2cFed period stretch q).st (i2cSysWire D bidir period stretch q rdy hold) n).1.core := by
    intro n
    rw [← i2cStr_core, i2cSys_st]
  have hb : ∀ n, i2cBusOf D.target bidir period stretch (i2cStrCi period stretch i) hold n =
      (closeRun D.target bidir (i2cFed period stretch q) (fun r : I2cStrS × List (Beat (Bool × BitVec 8)) => r.1.core)
        (fun n _ scl sda => (rdy n, scl, sda)) hold n).2 := by
    refine close_bus D.target bidir _ (fun r : I2cStrS × List (Beat (Bool × BitVec 8)) => r.1.core) _ hold _ _ (fun n => ?_)
    have := hc n
    constructor
    · change ((i2cInitiator period stretch).st (i2cStrCi period stretch i) n).sclO = _
      rw [this]; rfl
    · change ((i2cInitiator period stretch).st (i2cStrCi period stretch i) n).sdaO = _
      rw [this]; rfl
  have hs := fun n => close_st D.target bidir (i2cFed period stretch q)
    (fun r : I2cStrS × List (Beat (Bool × BitVec 8)) => r.1.core) (fun n _ scl sda => (rdy n, scl, sda)) hold n
  refine ⟨⟨fun n => ?_, fun n => ?_, hh⟩, i2cSys_stable D bidir period stretch q rdy hold, fun _ => rfl, fun n => ⟨_, i2cSys_beats ..⟩⟩
  · rw [hb n]
    simp only [i2cScl, i2cSda, Circuit.wave]
    rw [hc n]
    unfold i2cSysWire
    rw [hs n]
    rfl
  · rw [hb n]
    simp only [i2cScl, i2cSda, Circuit.wave]
    rw [hc n]
    unfold i2cSysWire
    rw [hs n]
    rfl

theorem I2cDev.Fits.prefix {D : I2cDev} {l m : List (Beat (Bool × BitVec 8))} (h : D.Fits m) (hp : l <+: m) : D.Fits l := by
  obtain ⟨t, rfl⟩ := hp
  intro p b s hl
  exact h p b (s ++ t) (by rw [hl]; simp)

/-- **C92.** The whole system, `I2CStream` with initiator and bus driver on the wires with a device, runs any list of beats to
its end, and then for ever: `error` was raised for exactly the bytes that the device does not acknowledge, the bytes delivered are
those that the device sends, and the device has been through exactly what the beats say. -/
theorem C92_system (hp : 4 ≤ period) (hh : ∀ n, hold n = true → bidir = true ∧ stretch = true)
    (hrel : ∀ n, ∃ m, n ≤ m ∧ hold m = false) (hrdy : ∀ n, ∃ m, n ≤ m ∧ rdy m = true) (hfit : D.Fits q) :
    let i := i2cSys D bidir period stretch q rdy hold
    ∃ m, ∀ n, m ≤ n →
      i2cStrBeats period stretch i n = q.zip (D.naks (⟨[], .rest⟩, false) q) ∧
      i2cStrDelivered period stretch i n = D.reads (⟨[], .rest⟩, false) q ∧
      (i2cBusOf D.target bidir period stretch (i2cStrCi period stretch i) hold (n + 1)).tgt.2 = (D.beats q).1.log := by
  intro i
  obtain ⟨hw, hst, _, hpre⟩ := C92_system_exists D bidir period stretch q rdy hold hh
  change I2cWired D.target bidir period stretch (i2cStrCi period stretch i) hold at hw
  change i2cStrSinkStable period stretch i at hst
  have hfit' : ∀ n, D.Fits ((i2cStrBeats period stretch i n).map Prod.fst) := fun n => hfit.prefix (hpre n)
  have hfollow := wired_follows hp hw hrel
  have hinf : ∀ n, ∃ m, n ≤ m ∧ (stretch = true → (i m).sclI = ((i2cStream period stretch).wave i m).sclO) := by
    intro n
    obtain ⟨m, h1, h2⟩ := hfollow n
    refine ⟨m, h1, fun h => ?_⟩
    have := h2 h
    change _ = ((i2cInitiator period stretch).st (i2cStrCi period stretch i) m).sclO at this
    rw [← i2cStr_core] at this
    exact this
  have hprog := C34_stream_progress period stretch i hp hst hinf hrdy
  -- the queue runs empty
  have hempty : ∀ k n, (i2cSysQueue D bidir period stretch q rdy hold n).length ≤ k →
      ∃ m, i2cSysQueue D bidir period stretch q rdy hold m = [] := by
    intro k
    induction k with
    | zero => intro n hn; exact ⟨n, List.length_eq_zero_iff.mp (by omega)⟩
    | succ k ih =>
      intro n hn
      cases hq : i2cSysQueue D bidir period stretch q rdy hold n with
      | nil => exact ⟨n, hq⟩
      | cons b Q =>
        have hv : (i n).valid = true := by
          rw [(i2cSys_in D bidir period stretch q rdy hold n).1, hq]
          rfl
        obtain ⟨m, h1, h2⟩ := hprog n hv
        obtain ⟨j, j1, j2, j3⟩ := eventually_leave
          (fun n => i2cSysQueue D bidir period stretch q rdy hold n = b :: Q)
          (fun n => ((i2cStream period stretch).wave i n).ready = true)
          (by
            intro n a hr
            have hr' : ((i2cStream period stretch).wave i n).ready = false := by simpa using hr
            rw [i2cSys_queue_succ]
            change (if _ && ((i2cStream period stretch).wave i n).ready then _ else _) = _
            rw [hr', Bool.and_false]
            exact a) (m - n) n hq (by rw [show n + (m - n) = m by omega]; exact h2)
        apply ih (j + 1)
        rw [i2cSys_queue_succ]
        change (if _ && ((i2cStream period stretch).wave i j).ready then _ else _ : List _).length ≤ _
        rw [j3, (i2cSys_in D bidir period stretch q rdy hold j).1, j2]
        rw [hq] at hn
        simpa using hn
  obtain ⟨m0, hm0⟩ := hempty _ 0 (Nat.le_refl _)
  have hq0 : ∀ n, m0 ≤ n → i2cSysQueue D bidir period stretch q rdy hold n = [] := by
    intro n hn
    obtain ⟨d, rfl⟩ : ∃ d, n = m0 + d := ⟨n - m0, by omega⟩
    clear hn
    induction d with
    | zero => exact hm0
    | succ d ih =>
      rw [← Nat.add_assoc, i2cSys_queue_succ, ih]
      split <;> rfl
  have hv0 : ∀ n, m0 ≤ n → (i n).valid = false := by
    intro n hn
    rw [(i2cSys_in D bidir period stretch q rdy hold n).1, hq0 n hn]
    rfl
  obtain ⟨m, hm, hf⟩ := sys_settles hp hw hst hrel m0 (fun n _ _ => hrdy n) hv0
  refine ⟨m, fun n hn => ?_⟩
  have hbeats : (i2cStrBeats period stretch i n).map Prod.fst = q := by
    have := i2cSys_beats D bidir period stretch q rdy hold n
    rw [hq0 n (by omega), List.append_nil] at this
    exact this
  have he := C92_errors hp hw hst hfit' n
  refine ⟨?_, ?_, ?_⟩
  · rw [hbeats] at he
    rw [← he]
    conv => rhs; rw [← hbeats]
    generalize i2cStrBeats period stretch i n = B
    induction B with
    | nil => rfl
    | cons b B ih => simp [← ih]
  · have := sys_reads hp hw hst hfit' n
    rw [hbeats, if_neg (by rcases hf n hn with h | h <;> simp [h]), List.append_nil] at this
    exact this.symm
  · have := (sys_history hp hw hst hfit' n (hv0 n (by omega)) (hf n hn)).1
    rw [this, hbeats]


end

/-- `Fits`, beat by beat. -/
def I2cDev.fitsFrom (D : I2cDev) (r : DevAbs × Bool) : List (Beat (Bool × BitVec 8)) → Bool
  | [] => true
  | b :: l => (!b.last || (match (D.cmd (D.opened r) (i2cBeatCmd b)).mode with | .send _ => false | _ => true)) &&
      D.fitsFrom (D.beat r b) l

theorem I2cDev.fits_of (D : I2cDev) (l : List (Beat (Bool × BitVec 8))) (h : D.fitsFrom devRest l = true) : D.Fits l := by
  have key : ∀ p r b q, D.fitsFrom r (p ++ b :: q) = true → b.last = true →
      ∀ x, (D.cmd (D.opened (p.foldl D.beat r)) (i2cBeatCmd b)).mode ≠ .send x := by
    intro p
    induction p with
    | nil =>
      intro r b q h hl x hx
      simp only [List.nil_append, I2cDev.fitsFrom, Bool.and_eq_true, hl] at h
      simp only [List.foldl_nil] at hx
      rw [hx] at h
      simp at h
    | cons a p ih =>
      intro r b q h
      simp only [List.cons_append, I2cDev.fitsFrom, Bool.and_eq_true] at h
      exact ih _ b q h.2
  intro p b q hl
  subst hl
  exact key p devRest b q h

/-- Two bytes read, a byte written to a chip that is not there, and two bytes written. -/
def sysSample : List (Beat (Bool × BitVec 8)) :=
  [⟨true, false, (false, 0xA1)⟩, ⟨false, false, (true, 0)⟩, ⟨false, true, (true, 0)⟩, ⟨true, false, (false, 0x42)⟩,
    ⟨true, false, (false, 0xA0)⟩, ⟨false, true, (false, 0x17)⟩]

example : sampleDev.Fits sysSample := sampleDev.fits_of _ (by decide)

example : sampleDev.naks (⟨[], .rest⟩, false) sysSample = [false, false, false, true, false, false] ∧
    sampleDev.reads (⟨[], .rest⟩, false) sysSample = [⟨false, false, 0x5C⟩, ⟨false, true, 0x5D⟩] ∧
    (sampleDev.beats sysSample).1.log = [.start, .wrote 0xA1 true, .sent 0x5C true, .sent 0x5D false, .stop,
      .start, .wrote 0x42 false, .stop, .start, .wrote 0xA0 true, .wrote 0x17 true, .stop] := by decide

/-- The theorem applied: the clock is held every now and then, and the receiver is ready every third cycle. -/
example : ∃ m, ∀ n, m ≤ n → i2cStrDelivered 8 true
    (i2cSys sampleDev true 8 true sysSample (fun n => n % 3 == 0) (fun n => n % 50 < 20)) n =
      [⟨false, false, 0x5C⟩, ⟨false, true, 0x5D⟩] := by
  obtain ⟨m, hm⟩ := C92_system sampleDev true 8 true sysSample (fun n => n % 3 == 0) (fun n => n % 50 < 20) (by omega)
    (fun _ _ => ⟨rfl, rfl⟩) (fun n => ⟨50 * n + 20, by omega, by simp⟩) (fun n => ⟨3 * n, by omega, by simp⟩)
    (sampleDev.fits_of _ (by decide))
  refine ⟨m, fun n hn => ?_⟩
  rw [(hm n hn).2.1]
  decide

end Lambdalib
