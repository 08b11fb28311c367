import Verif.Spec.I2cGroupsDev
import Verif.Spec.I2cBridge
import Verif.Props.I2cSystem
import Verif.Props.I2cWriter

/-! `I2CWriterStream` with initiator and bus driver on the wires, with a device (C103). -/

namespace Lambdalib

section
variable (D : I2cDev) (f : Nat → BitVec 8)

/-- The outcomes of the first `k` bytes. -/
def I2cDev.groupAcks (k : Nat) : List Bool := (List.range k).map fun j => D.groupAck f (D.groups f j)

theorem I2cDev.groupAcks_succ (k : Nat) : D.groupAcks f (k + 1) = D.groupAcks f k ++ [D.groupAck f (D.groups f k)] := by
  simp [I2cDev.groupAcks, List.range_succ]

theorem I2cDev.groupAcks_length (k : Nat) : (D.groupAcks f k).length = k := by
  simp [I2cDev.groupAcks]

/-- The commands for the answers of the device. -/
theorem I2cDev.groups_eq (k : Nat) :
    let T := i2cGroups f (D.groupAcks f k)
    D.cmds T.cmds = (D.groups f k).dev ∧ T.group = (D.groups f k).group ∧ T.pos = (D.groups f k).pos := by
  induction k with
  | zero => exact ⟨rfl, rfl, rfl⟩
  | succ k ih =>
    obtain ⟨e1, e2, e3⟩ := ih
    simp only
    rw [D.groupAcks_succ, i2cGroups_snoc, I2cDev.groups]
    simp only [i2cGroupStep, I2cDev.groupByte]
    rw [e2, e3]
    have hc : D.cmds ((i2cGroups f (D.groupAcks f k)).cmds ++ (if (D.groups f k).pos = 0 then [.start] else []) ++
        [.write (f (3 * (D.groups f k).group + (D.groups f k).pos))]) =
        D.cmd (D.groupAt (D.groups f k)) (.write (f (3 * (D.groups f k).group + (D.groups f k).pos))) := by
      rw [D.cmds_snoc, I2cDev.groupAt]
      split
      · rw [D.cmds_snoc, e1]
      · rw [List.append_nil, e1]
    cases ha : D.groupAck f (D.groups f k)
    · refine ⟨?_, by simp, by simp⟩
      rw [if_pos (Or.inl rfl : false = false ∨ _), D.cmds_snoc, hc]
      rfl
    · by_cases hp : (D.groups f k).pos = 2
      · refine ⟨?_, by simp [hp], by simp [hp]⟩
        rw [if_pos (Or.inr hp : true = false ∨ _), D.cmds_snoc, hc, if_pos rfl, if_pos hp]
      · refine ⟨?_, by simp [hp], by simp [hp]⟩
        rw [if_neg (show ¬ (true = false ∨ (D.groups f k).pos = 2) by simp [hp]), List.append_nil, hc, if_pos rfl, if_neg hp]

/-- The device rests after a byte that was not acknowledged. -/
theorem I2cDev.acks_rest (A : DevAbs) (d : BitVec 8) (h : D.acks A d = false) : (D.cmd A (.write d)).mode = .rest := by
  simp only [I2cDev.acks] at h
  simp only [I2cDev.cmd]
  cases hm : A.mode with
  | rest => simp [hm]
  | recv => rw [hm] at h; simp only at h; simp [I2cDev.byte, I2cDev.after, h]
  | send b => simp [I2cDev.byte, I2cDev.after]

/-- An acknowledged byte is the last event. -/
theorem I2cDev.acks_log (A : DevAbs) (d : BitVec 8) (h : D.acks A d = true) :
    D.cmd A (.write d) = D.byte A.log (.wrote d true) true := by
  simp only [I2cDev.acks] at h
  simp only [I2cDev.cmd]
  cases hm : A.mode with
  | rest => rw [hm] at h; cases h
  | recv => rw [hm] at h; simp only at h; simp [h]
  | send b => rw [hm] at h; cases h

theorem I2cDev.groups_log (k : Nat) (h : (D.groups f k).pos ≠ 0) : ∃ l d, (D.groups f k).dev.log = l ++ [.wrote d true] := by
  cases k with
  | zero => exact absurd rfl h
  | succ k =>
    rw [I2cDev.groups] at h ⊢
    simp only [I2cDev.groupByte] at h ⊢
    cases ha : D.groupAck f (D.groups f k)
    · rw [ha] at h; simp at h
    · rw [ha] at h
      simp only [if_true] at h ⊢
      split at h
      · exact absurd rfl h
      · rename_i hp
        rw [if_neg hp, D.acks_log _ _ ha]
        exact ⟨_, _, rfl⟩

/-- A polite device never wants to send at the end of a group. -/
theorem I2cDev.groups_fit (hD : D.Polite) (k : Nat) (hp : (D.groups f k).pos = 2) (x : BitVec 8) :
    (D.cmd (D.groupAt (D.groups f k)) (.write (f (3 * (D.groups f k).group + (D.groups f k).pos)))).mode ≠ .send x := by
  intro hm
  cases ha : D.groupAck f (D.groups f k)
  · rw [D.acks_rest _ _ ha] at hm; cases hm
  · rw [D.acks_log _ _ ha] at hm
    have hat : D.groupAt (D.groups f k) = (D.groups f k).dev := by simp [I2cDev.groupAt, hp]
    rw [hat] at hm
    obtain ⟨l, d, e⟩ := D.groups_log f k (by omega)
    simp only [I2cDev.byte, I2cDev.after, if_true] at hm
    cases ht : D.tx ((D.groups f k).dev.log ++ [.wrote (f (3 * (D.groups f k).group + (D.groups f k).pos)) true]) with
    | none => rw [ht] at hm; cases hm
    | some y =>
      rcases hD _ _ ht with ⟨L, h, e', _⟩ | ⟨L, b', e'⟩
      · rw [e, show L ++ [DevEv.start, .wrote h true] = (L ++ [.start]) ++ [.wrote h true] by simp] at e'
        obtain ⟨e1, _⟩ := snoc_inj e'
        obtain ⟨_, e2⟩ := snoc_inj e1
        cases e2
      · obtain ⟨_, e2⟩ := snoc_inj e'
        cases e2

/-- Between two groups no transaction is open. -/
theorem i2cGroups_closed (A : List Bool) (h : (i2cGroups f A).pos = 0) :
    (i2cGroups f A).cmds = [] ∨ ∃ L, (i2cGroups f A).cmds = L ++ [.stop] := by
  rcases eq_snoc A with rfl | ⟨A, a, rfl⟩
  · left; rfl
  · right
    rw [i2cGroups_snoc] at h ⊢
    simp only [i2cGroupStep] at h ⊢
    split at h
    · rename_i hc
      rw [if_pos hc]
      exact ⟨_, rfl⟩
    · omega

/-- Number of bytes in a list of commands. -/
def cmdWrites (L : List I2cCmd) : Nat := L.countP fun c => match c with | .write _ => true | _ => false

theorem cmdWrites_append (L M : List I2cCmd) : cmdWrites (L ++ M) = cmdWrites L + cmdWrites M := List.countP_append

theorem i2cGroups_writes (A : List Bool) : cmdWrites (i2cGroups f A).cmds = A.length := by
  induction A using snocInduction with
  | nil => rfl
  | snoc A a ih =>
    rw [i2cGroups_snoc]
    simp only [i2cGroupStep, cmdWrites_append, ih, List.length_append, List.length_singleton]
    have h1 : cmdWrites (if (i2cGroups f A).pos = 0 then [.start] else []) = 0 := by split <;> rfl
    have h2 : cmdWrites (if a = false ∨ (i2cGroups f A).pos = 2 then [.stop] else []) = 0 := by split <;> rfl
    rw [h1, h2]
    rfl

end

/-- The command that the initiator is executing is the last one in the log. -/
theorem i2c_current (period : Nat) (stretch : Bool) (ci : Nat → I2cIn) (n : Nat) (h : ¬ i2cIdleAt period stretch ci n) :
    ∃ k c, i2cExecutes period stretch ci k n c ∧ i2cCmdLog period stretch ci n = i2cCmdLog period stretch ci k ++ [c] := by
  induction n with
  | zero => exact absurd rfl h
  | succ n ih =>
    have e : i2cCmdLog period stretch ci (n + 1) = i2cCmdLog period stretch ci n ++
      (if ((i2cInitiator period stretch).st ci n).fsm = .idle then (i2cStrobe (ci n)).toList else []) := rfl
    by_cases hi : i2cIdleAt period stretch ci n
    · cases hs : i2cStrobe (ci n) with
      | none =>
        have := (i2cCore_quiet period stretch _ (ci n) hi hs).1
        exact absurd this h
      | some c =>
        refine ⟨n, c, ⟨⟨hi, hs⟩, by omega, fun j h1 h2 => ?_⟩, ?_⟩
        · rw [show j = n + 1 by omega]; exact h
        · rw [e, if_pos (show ((i2cInitiator period stretch).st ci n).fsm = .idle from hi), hs]; rfl
    · obtain ⟨k, c, ⟨h1, h2, h3⟩, h4⟩ := ih hi
      refine ⟨k, c, ⟨h1, by omega, fun j a b => ?_⟩, ?_⟩
      · rcases Nat.lt_or_ge n j with hj | hj
        · rw [show j = n + 1 by omega]; exact h
        · exact h3 j a hj
      · rw [e, if_neg (show ¬ ((i2cInitiator period stretch).st ci n).fsm = .idle from hi), List.append_nil, h4]

section
variable {D : I2cDev} {bidir : Bool} {period : Nat} {stretch : Bool} {i : Nat → I2cWrIn} {hold : Nat → Bool} {f : Nat → BitVec 8}
variable (hp : 4 ≤ period) (hw : I2cWired D.target bidir period stretch (i2cWrCi period stretch i) hold)
  (hst : i2cWrSinkStable period stretch i) (hD : D.Polite)
  (hf : ∀ n k, k < (i2cWrBytes period stretch i n).length → f k = (i2cWrBytes period stretch i n).getD k 0)

local notation "LOG" n => i2cCmdLog period stretch (i2cWrCi period stretch i) n
local notation "ACK" n => i2cAckLog period stretch (i2cWrCi period stretch i) n
local notation "ST" n => Circuit.st (i2cWriterStream period stretch) i n

include hst hD hf in
theorem wsys_sensible_step (n k : Nat) (hA : (ACK n) = D.groupAcks f k) (c : I2cCmd)
    (hc : i2cAccepts period stretch (i2cWrCi period stretch i) n c) : DevAllowed (LOG n) (D.cmds (LOG n)) c := by
  obtain ⟨hb, hrel⟩ := wr_rel period stretch i hst n f (hf n)
  have hstr := hc.2
  unfold i2cWrCi at hstr
  rw [hA] at hrel
  generalize i2cCmdLog period stretch (i2cWrCi period stretch i) n = L at *
  generalize (i2cWriterStream period stretch).st i n = s at *
  cases hfs : s.fsm <;> rw [hfs] at hrel <;> simp [i2cWrCoreIn, i2cStrobe, hfs] at hstr
  case start =>
    subst hstr
    obtain ⟨T, rfl, _, r1, r2, _⟩ := hrel
    subst r1
    rcases i2cGroups_closed f _ r2 with h | ⟨L, h⟩
    · rw [h]; simp [DevAllowed, I2cDev.cmds]
    · rw [h]; simp [DevAllowed, D.cmds_snoc, I2cDev.cmd]
  case write => subst hstr; trivial
  case stop =>
    subst hstr
    obtain ⟨T, rfl, _, r1, r2, _⟩ := hrel
    cases k with
    | zero =>
      have := congrArg List.length r1
      simp [I2cDev.groupAcks, i2cGroups] at this
    | succ k =>
      obtain ⟨e1, e2, e3⟩ := D.groups_eq f k
      rw [D.groupAcks_succ, i2cGroups_snoc] at r1 r2
      simp only [i2cGroupStep] at r1 r2
      split at r2
      · rename_i hcnd
        rw [if_pos hcnd] at r1
        obtain ⟨r1, _⟩ := snoc_inj r1
        rw [e2, e3] at r1
        have hL : D.cmds L =
            D.cmd (D.groupAt (D.groups f k)) (.write (f (3 * (D.groups f k).group + (D.groups f k).pos))) := by
          rw [← r1, D.cmds_snoc, I2cDev.groupAt]
          split
          · rw [D.cmds_snoc, e1]
          · rw [List.append_nil, e1]
        refine ⟨?_, ?_⟩
        · rw [← r1]; simp
        · rw [hL]
          rcases hcnd with hcnd | hcnd
          · rw [D.acks_rest _ _ hcnd]; simp
          · exact D.groups_fit f hD k (by rw [← e3]; exact hcnd)
      · omega

include hp hw hst hD hf in
/-- The outcomes are the answers of the device. -/
theorem wsys_run (n : Nat) : (∃ k, (ACK n) = D.groupAcks f k) ∧
    I2cSensible D period stretch (i2cWrCi period stretch i) n := by
  induction n with
  | zero => exact ⟨⟨0, rfl⟩, fun k hk => absurd hk (by omega)⟩
  | succ n ih =>
    obtain ⟨⟨k, hA⟩, hs⟩ := ih
    have hs' : I2cSensible D period stretch (i2cWrCi period stretch i) (n + 1) := by
      intro j hj c hc
      rcases Nat.lt_or_ge j n with h | h
      · exact hs j h c hc
      · have : j = n := by omega
        subst this
        exact wsys_sensible_step hst hD hf j k hA c hc
    refine ⟨?_, hs'⟩
    have e : (ACK (n + 1)) = (ACK n) ++ (match (LOG n).getLast? with
       | some (.write _) =>
         if ((i2cInitiator period stretch).st (i2cWrCi period stretch i) n).fsm ≠ .idle ∧
             ((i2cInitiator period stretch).st (i2cWrCi period stretch i) (n + 1)).fsm = .idle then
           [((i2cInitiator period stretch).st (i2cWrCi period stretch i) (n + 1)).ackO] else []
       | _ => []) := rfl
    rw [e]
    split
    · rename_i d hl
      split
      · rename_i hc
        obtain ⟨j, c, ⟨h1, h2, h3⟩, h4⟩ := i2c_current period stretch (i2cWrCi period stretch i) n hc.1
        rw [h4] at hl
        simp only [List.getLast?_append, List.getLast?_singleton, Option.some_or, Option.some.injEq] at hl
        subst hl
        have hans := (C91_device_answers hp hw j (n + 1) _ hs' ⟨h1, by omega, hc.2, fun q a b => h3 q a (by omega)⟩).1 d rfl
        simp only [Circuit.wave] at hans
        have hans' : ((i2cInitiator period stretch).st (i2cWrCi period stretch i) (n + 1)).ackO =
          D.acks (D.cmds (i2cCmdLog period stretch (i2cWrCi period stretch i) j)) d := hans
        obtain ⟨e1, e2, e3⟩ := D.groups_eq f k
        refine ⟨k + 1, ?_⟩
        rw [D.groupAcks_succ, hA, hans']
        congr 2
        have hr := wr_commands_of_rel (wr_rel period stretch i hst n f (hf n))
        obtain ⟨hbi, hrel⟩ := wr_rel period stretch i hst n f (hf n)
        rw [hA, h4] at hrel
        have hcore := i2cWr_core period stretch i n
        rw [← hcore] at hc
        generalize i2cCmdLog period stretch (i2cWrCi period stretch i) j = L at *
        generalize (i2cWriterStream period stretch).st i n = s at *
        obtain ⟨fsm, stage, retry, c0, c1, c2, cs, core⟩ := s
        cases fsm <;> simp only at hrel
        case waitWrite =>
          obtain ⟨A', T, rfl, r0, r1, r2, _⟩ := hrel
          rcases r1 with ⟨r1, _⟩ | ⟨_, r1⟩
          · subst r1
            obtain ⟨r2, r3⟩ := snoc_inj r2
            simp only [I2cCmd.write.injEq] at r3
            rw [I2cDev.groupAck, ← e2, ← e3, ← r3]
            congr 1
            rw [r2, I2cDev.groupAt, e3]
            split
            · rw [D.cmds_snoc, e1]
            · rw [List.append_nil, e1]
          · exact absurd r1 hc.1
        case waitStart =>
          obtain ⟨T, _, r2, _⟩ := hrel
          obtain ⟨_, r⟩ := snoc_inj r2
          cases r
        case waitStop =>
          obtain ⟨T, _, _, r2, _⟩ := hrel
          simp at r2
        case idle => obtain ⟨T, _, r, _⟩ := hrel; exact absurd r hc.1
        case start => obtain ⟨T, _, r, _⟩ := hrel; exact absurd r hc.1
        case write => obtain ⟨T, _, r, _⟩ := hrel; exact absurd r hc.1
        case stop => obtain ⟨T, _, r, _⟩ := hrel; exact absurd r hc.1
      · rw [List.append_nil]; exact ⟨k, hA⟩
    · rw [List.append_nil]; exact ⟨k, hA⟩


theorem wsys_ack_succ (n : Nat) : (ACK (n + 1)) = (ACK n) ++ wrAcks (LOG n) (ST n).core (ST (n + 1)).core := by
  unfold wrAcks
  rw [i2cWr_core, i2cWr_core]
  rfl

theorem wsys_log_succ (n : Nat) : (LOG (n + 1)) = (LOG n) ++ wrTaken (ST n) (i n) := by
  unfold wrTaken
  rw [i2cWr_core]
  rfl

include hst hf in
theorem wsys_writes_succ (n : Nat) : cmdWrites (LOG (n + 1)) = cmdWrites (LOG n) + (if (ST n).fsm = .write then 1 else 0) := by
  have hrel := (wr_rel period stretch i hst n f (hf n)).2
  rw [wsys_log_succ, cmdWrites_append]
  congr 1
  unfold wrTaken
  generalize (i2cWriterStream period stretch).st i n = s at *
  cases hfs : s.fsm <;> rw [hfs] at hrel <;> simp only [i2cStrobe, i2cWrCoreIn, hfs]
  case write =>
    obtain ⟨T, _, h, _⟩ := hrel
    rw [h]; rfl
  case start => split <;> rfl
  case stop => split <;> rfl
  all_goals split <;> rfl

include hst hf in
/-- Where the last attempt ended. -/
theorem wsys_stage (n : Nat) : ((ST n).fsm = .stop ∨ (ST n).fsm = .waitStop ∨ (ST n).fsm = .idle) →
    (ACK n) = [] ∨ ∃ A a, (ACK n) = A ++ [a] ∧ (ST n).stage = (i2cGroups f A).pos + 1 := by
  induction n with
  | zero => intro _; left; rfl
  | succ n ih =>
    intro h
    rw [wsys_ack_succ]
    obtain ⟨hb, hrel⟩ := wr_rel period stretch i hst n f (hf n)
    rw [Circuit.st_succ] at h ⊢
    generalize i2cCmdLog period stretch (i2cWrCi period stretch i) n = L at *
    generalize i2cAckLog period stretch (i2cWrCi period stretch i) n = A at *
    generalize (i2cWriterStream period stretch).st i n = s at *
    obtain ⟨c1, c2, c3⟩ := wr_ctl period stretch s (i n)
    rw [c1] at h
    rw [c2]
    cases hfs : s.fsm <;> rw [hfs] at hrel ih
    case idle =>
      obtain ⟨T, _, r1, _⟩ := hrel
      rw [wrAcks_idle r1, List.append_nil]
      have : (i2cWrFsm s (i n)).stage = s.stage := by
        simp only [i2cWrFsm, hfs] at h ⊢
        split at h
        · rename_i hb
          rw [if_pos hb]
          split at h
          · simp at h
          · rename_i hv; rw [if_neg hv]
        · rename_i hb; rw [if_neg hb]
      rw [this]
      exact ih (by simp)
    case start => simp [i2cWrFsm, hfs] at h
    case waitStart =>
      simp only [i2cWrFsm, hfs] at h
      split at h <;> simp [hfs] at h
    case write => simp [i2cWrFsm, hfs] at h
    case waitWrite =>
      obtain ⟨A', T, rfl, r0, r1, r2, r3, _⟩ := hrel
      cases hbz : s.core.busy
      · have hi := i2cBusyInv_idle hb hbz
        rcases r1 with ⟨_, r1⟩ | ⟨r1, _⟩
        · exact absurd hi r1
        · right
          rw [wrAcks_idle hi, List.append_nil]
          refine ⟨A', _, r1, ?_⟩
          rw [← r3]
          simp only [i2cWrFsm, hfs]
          (repeat' split) <;> rfl
      · simp [i2cWrFsm, hfs, hbz] at h
    case stop =>
      obtain ⟨T, _, r1, _⟩ := hrel
      rw [wrAcks_idle r1, List.append_nil]
      have : (i2cWrFsm s (i n)).stage = s.stage := by simp [i2cWrFsm, hfs]
      rw [this]
      exact ih (by simp)
    case waitStop =>
      obtain ⟨T, _, r1, r2, _⟩ := hrel
      rw [wrAcks_nw r2 (by simp), List.append_nil]
      have : (i2cWrFsm s (i n)).stage = s.stage := by
        simp only [i2cWrFsm, hfs]
        split <;> rfl
      rw [this]
      exact ih (by simp)

section
variable (hrls : ∀ n, ∃ m, n ≤ m ∧ hold m = false)

include hp hw hst hf hrls in
theorem wsys_wait (w : I2cWrSt) (hwt : w = .waitStart ∨ w = .waitWrite ∨ w = .waitStop ∨ w = .idle) (K g n : Nat)
    (h : (ST n).fsm = w ∧ cmdWrites (LOG n) = K ∧ (ST n).stage = g) :
    ∃ m, n ≤ m ∧ ((ST m).fsm = w ∧ cmdWrites (LOG m) = K ∧ (ST m).stage = g) ∧ (ST m).core.busy = false := by
  obtain ⟨m, h1, h2, h3⟩ := i2c_wait period stretch (i2cWrCi period stretch i) hp (wired_follows hp hw hrls)
    (fun m => (ST m).fsm = w ∧ cmdWrites (LOG m) = K ∧ (ST m).stage = g)
    (by
      intro n ⟨hfs, _⟩
      unfold i2cWrCi
      apply wr_strobe_none
      rw [hfs]
      rcases hwt with rfl | rfl | rfl | rfl <;> simp)
    (by
      intro n ⟨hfs, hK, hg⟩ hb
      rw [← i2cWr_core] at hb
      refine ⟨?_, ?_, ?_⟩
      · rw [Circuit.st_succ]
        generalize (i2cWriterStream period stretch).st i n = s at *
        rcases hwt with rfl | rfl | rfl | rfl <;> simp [i2cWriterStream, i2cWrFsm, hfs, hb]
      · rw [wsys_writes_succ hst hf, hK, hfs]
        rcases hwt with rfl | rfl | rfl | rfl <;> rfl
      · rw [Circuit.st_succ]
        generalize (i2cWriterStream period stretch).st i n = s at *
        rcases hwt with rfl | rfl | rfl | rfl <;> simp [i2cWriterStream, i2cWrFsm, hfs, hb, hg]) n h
  rw [← i2cWr_core] at h3
  exact ⟨m, h1, h2, h3⟩

/-- The writer waits for a byte. -/
def wrWaits (s : I2cWrS) (x : I2cWrIn) : Prop :=
  s.core.busy = false ∧ x.valid = false ∧ i2cWrUseCache s = false ∧
    (s.fsm = .idle ∨ (s.fsm = .waitWrite ∧ s.core.ackO = true ∧ s.stage ≤ 2))

include hp hw hst hf hrls in
theorem wsys_stop (n : Nat) (h : (ST n).fsm = .stop) :
    ∃ m, n ≤ m ∧ (ST m).fsm = .idle ∧ cmdWrites (LOG m) = cmdWrites (LOG n) ∧ (ST m).stage = (ST n).stage := by
  have h1 : (ST (n + 1)).fsm = .waitStop ∧ (ST (n + 1)).stage = (ST n).stage := by
    rw [Circuit.st_succ]
    generalize (i2cWriterStream period stretch).st i n = s at *
    simp [i2cWriterStream, i2cWrFsm, h]
  have h2 : cmdWrites (LOG (n + 1)) = cmdWrites (LOG n) := by
    rw [wsys_writes_succ hst hf, h]; rfl
  obtain ⟨m, g1, ⟨g2, g3, g4⟩, g5⟩ := wsys_wait hp hw hst hf hrls .waitStop (by simp) _ _ (n + 1) ⟨h1.1, h2, h1.2⟩
  refine ⟨m + 1, by omega, ?_, ?_, ?_⟩
  · rw [Circuit.st_succ]
    generalize (i2cWriterStream period stretch).st i m = s at *
    simp [i2cWriterStream, i2cWrFsm, g2, g5]
  · rw [wsys_writes_succ hst hf, g2, g3]; rfl
  · rw [← g4, Circuit.st_succ]
    generalize (i2cWriterStream period stretch).st i m = s at *
    simp [i2cWriterStream, i2cWrFsm, g2, g5]

include hp hw hst hf hrls in
theorem wsys_next_start (n : Nat) (h : (ST n).fsm = .waitStart) :
    ∃ m, n ≤ m ∧ (ST m).fsm = .write ∧ cmdWrites (LOG m) = cmdWrites (LOG n) := by
  obtain ⟨m, g1, ⟨g2, g3, g4⟩, g5⟩ := wsys_wait hp hw hst hf hrls .waitStart (by simp) _ _ n ⟨h, rfl, rfl⟩
  refine ⟨m + 1, by omega, ?_, ?_⟩
  · rw [Circuit.st_succ]
    generalize (i2cWriterStream period stretch).st i m = s at *
    simp [i2cWriterStream, i2cWrFsm, g2, g5]
  · rw [wsys_writes_succ hst hf, g2, g3]; rfl

include hp hw hst hf hrls in
theorem wsys_next_idle (n : Nat) (h : (ST n).fsm = .idle) :
    ∃ m, n ≤ m ∧ ((ST m).fsm = .write ∨ wrWaits (ST m) (i m)) ∧ cmdWrites (LOG m) = cmdWrites (LOG n) := by
  obtain ⟨m, g1, ⟨g2, g3, g4⟩, g5⟩ := wsys_wait hp hw hst hf hrls .idle (by simp) _ _ n ⟨h, rfl, rfl⟩
  by_cases hgo : ((i m).valid || i2cWrUseCache (ST m)) = true
  · have e1 : (ST (m + 1)).fsm = .start := by
      rw [Circuit.st_succ]
      generalize (i2cWriterStream period stretch).st i m = s at *
      simp only [i2cWriterStream, i2cWrFsm, g2, g5, hgo]
      rfl
    have e2 : (ST (m + 2)).fsm = .waitStart := by
      rw [Circuit.st_succ]
      generalize (i2cWriterStream period stretch).st i (m + 1) = s at *
      simp [i2cWriterStream, i2cWrFsm, e1]
    obtain ⟨q, q1, q2, q3⟩ := wsys_next_start hp hw hst hf hrls (m + 2) e2
    refine ⟨q, by omega, .inl q2, ?_⟩
    rw [q3, wsys_writes_succ hst hf, e1, wsys_writes_succ hst hf, g2, g3]
    rfl
  · refine ⟨m, g1, .inr ?_, g3⟩
    simp only [Bool.not_eq_true, Bool.or_eq_false_iff] at hgo
    exact ⟨g5, hgo.1, hgo.2, .inl g2⟩

include hp hw hst hf hrls in
/-- The writer comes to send another byte, or waits for one. -/
theorem wsys_next (n : Nat) :
    ∃ m, n ≤ m ∧ ((ST m).fsm = .write ∨ wrWaits (ST m) (i m)) ∧ cmdWrites (LOG m) = cmdWrites (LOG n) := by
  have tStop : ∀ m, n ≤ m → (ST m).fsm = .stop → cmdWrites (LOG m) = cmdWrites (LOG n) →
      ∃ m, n ≤ m ∧ ((ST m).fsm = .write ∨ wrWaits (ST m) (i m)) ∧ cmdWrites (LOG m) = cmdWrites (LOG n) := by
    intro m hm h hc
    obtain ⟨q, q1, q2, q3, _⟩ := wsys_stop hp hw hst hf hrls m h
    obtain ⟨r, r1, r2, r3⟩ := wsys_next_idle hp hw hst hf hrls q q2
    exact ⟨r, by omega, r2, by rw [r3, q3, hc]⟩
  cases h : (ST n).fsm
  · exact wsys_next_idle hp hw hst hf hrls n h
  · have e2 : (ST (n + 1)).fsm = .waitStart := by
      rw [Circuit.st_succ]
      generalize (i2cWriterStream period stretch).st i n = s at *
      simp [i2cWriterStream, i2cWrFsm, h]
    obtain ⟨q, q1, q2, q3⟩ := wsys_next_start hp hw hst hf hrls (n + 1) e2
    refine ⟨q, by omega, .inl q2, ?_⟩
    rw [q3, wsys_writes_succ hst hf, h]
    rfl
  · obtain ⟨q, q1, q2, q3⟩ := wsys_next_start hp hw hst hf hrls n h
    exact ⟨q, q1, .inl q2, q3⟩
  · exact ⟨n, Nat.le_refl _, .inl h, rfl⟩
  · obtain ⟨m, g1, ⟨g2, g3, g4⟩, g5⟩ := wsys_wait hp hw hst hf hrls .waitWrite (by simp) _ _ n ⟨h, rfl, rfl⟩
    have hc : cmdWrites (LOG (m + 1)) = cmdWrites (LOG n) := by rw [wsys_writes_succ hst hf, g2, g3]; rfl
    cases ha : (ST m).core.ackO
    · refine tStop (m + 1) (by omega) ?_ hc
      rw [Circuit.st_succ]
      generalize (i2cWriterStream period stretch).st i m = s at *
      simp [i2cWriterStream, i2cWrFsm, g2, g5, ha]
    · by_cases hs : (ST m).stage > 2
      · refine tStop (m + 1) (by omega) ?_ hc
        rw [Circuit.st_succ]
        generalize (i2cWriterStream period stretch).st i m = s at *
        simp [i2cWriterStream, i2cWrFsm, g2, g5, ha, hs]
      · by_cases hgo : ((i m).valid || i2cWrUseCache (ST m)) = true
        · refine ⟨m + 1, by omega, .inl ?_, hc⟩
          rw [Circuit.st_succ]
          generalize (i2cWriterStream period stretch).st i m = s at *
          simp only [i2cWriterStream, i2cWrFsm, g2, g5, hgo, ha, if_neg hs]
          rfl
        · refine ⟨m, g1, .inr ?_, g3⟩
          simp only [Bool.not_eq_true, Bool.or_eq_false_iff] at hgo
          exact ⟨g5, hgo.1, hgo.2, .inr ⟨g2, ha, by omega⟩⟩
  · exact tStop n (Nat.le_refl _) h rfl
  · obtain ⟨m, g1, ⟨g2, g3, g4⟩, g5⟩ := wsys_wait hp hw hst hf hrls .waitStop (by simp) _ _ n ⟨h, rfl, rfl⟩
    have hc : cmdWrites (LOG (m + 1)) = cmdWrites (LOG n) := by rw [wsys_writes_succ hst hf, g2, g3]; rfl
    obtain ⟨r, r1, r2, r3⟩ := wsys_next_idle hp hw hst hf hrls (m + 1) (by
      rw [Circuit.st_succ]
      generalize (i2cWriterStream period stretch).st i m = s at *
      simp [i2cWriterStream, i2cWrFsm, g2, g5])
    exact ⟨r, by omega, r2, by rw [r3, hc]⟩


theorem I2cDev.groups_pos (D : I2cDev) (f : Nat → BitVec 8) (k : Nat) : (D.groups f k).pos ≤ 2 := by
  rw [← (D.groups_eq f k).2.2]
  exact i2cGroups_pos f _

/-- As long as the last byte of group `R` has not been sent, not all bytes of `R + 1` groups are needed. -/
theorem I2cDev.groups_need (D : I2cDev) (f : Nat → BitVec 8) (R k : Nat)
    (h : ∀ j, j < k → ¬ ((D.groups f j).group = R ∧ (D.groups f j).pos = 2)) :
    (D.groups f k).group ≤ R ∧ (i2cGroups f (D.groupAcks f k)).need < 3 * R + 3 := by
  induction k with
  | zero => exact ⟨Nat.zero_le _, by simp [I2cDev.groupAcks, i2cGroups]⟩
  | succ k ih =>
    obtain ⟨h1, h2⟩ := ih (fun j hj => h j (by omega))
    have h3 := h k (by omega)
    have h4 := D.groups_pos f k
    obtain ⟨e1, e2, e3⟩ := D.groups_eq f k
    obtain ⟨_, e2', _⟩ := D.groups_eq f (k + 1)
    rw [← e2', D.groupAcks_succ, i2cGroups_snoc]
    simp only [i2cGroupStep, e2, e3]
    split <;> omega

include hp hw hst hD hf in
/-- Bytes sent and outcomes, when no byte is on the wires. -/
theorem wsys_idle_log (n K : Nat) (hK : cmdWrites (LOG n) = K) (hfs : (ST n).fsm = .idle) :
    (ACK n) = D.groupAcks f K ∧ (LOG n) = (i2cGroups f (D.groupAcks f K)).cmds ∧
    (i2cWrBytes period stretch i n).length = (i2cGroups f (D.groupAcks f K)).need := by
  obtain ⟨⟨k, hA⟩, _⟩ := wsys_run hp hw hst hD hf n
  obtain ⟨_, hrel⟩ := wr_rel period stretch i hst n f (hf n)
  rw [hfs] at hrel
  obtain ⟨T, rfl, r1, r2, r3, r4, r5, _⟩ := hrel
  rw [hA] at r2 r5
  rw [r2, i2cGroups_writes, D.groupAcks_length] at hK
  subst hK
  exact ⟨hA, r2, r5⟩

include hp hw hst hD hf in
/-- C103: whenever the writer is at rest, the device has been through the bytes sent so far, group by group, each group begun
again after a byte that the device did not acknowledge. -/
theorem wsys_history (n : Nat) (hfs : (ST n).fsm = .idle) :
    (i2cBusOf D.target bidir period stretch (i2cWrCi period stretch i) hold (n + 1)).tgt.2 =
      (D.groups f (cmdWrites (LOG n))).dev.log := by
  obtain ⟨_, hs⟩ := wsys_run hp hw hst hD hf n
  obtain ⟨_, hL, _⟩ := wsys_idle_log hp hw hst hD hf n _ rfl hfs
  obtain ⟨_, hrel⟩ := wr_rel period stretch i hst n f (hf n)
  rw [hfs] at hrel
  obtain ⟨T, _, r1, _⟩ := hrel
  have hid : i2cIdleAt period stretch (i2cWrCi period stretch i) n := by
    unfold i2cIdleAt
    rw [← i2cWr_core]
    exact r1
  rw [C91_device_history hp hw n hs hid, ← (D.groups_eq f _).1, ← hL]

include hp hw hst hD hf in
theorem wsys_waits_bytes (n : Nat) (h : wrWaits (ST n) (i n)) :
    (i2cWrBytes period stretch i n).length = (i2cGroups f (D.groupAcks f (cmdWrites (LOG n)))).need := by
  obtain ⟨w1, w2, w3, w4 | ⟨w4, w5, w6⟩⟩ := h
  · exact (wsys_idle_log hp hw hst hD hf n _ rfl w4).2.2
  · obtain ⟨⟨k, hA⟩, _⟩ := wsys_run hp hw hst hD hf n
    obtain ⟨hb, hrel⟩ := wr_rel period stretch i hst n f (hf n)
    rw [w4] at hrel
    obtain ⟨A', T, rfl, r0, r1, r2, r3, r4, _⟩ := hrel
    rcases r1 with ⟨_, r1⟩ | ⟨r1, _⟩
    · exact absurd (i2cBusyInv_idle hb w1) r1
    · have hk : cmdWrites (LOG n) = k := by
        have : (D.groupAcks f k).length = k := D.groupAcks_length f k
        rw [← hA, r1, List.length_append, List.length_singleton] at this
        rw [r2, cmdWrites_append, cmdWrites_append, i2cGroups_writes, ← this]
        split <;> rfl
      rw [hk, ← hA, r1, i2cGroups_snoc, r4]
      rfl

include hp hw hst hD hf hrls in
/-- With the bytes of `R + 1` groups on offer one after another, the writer sends bytes until the last byte of the last group has
been sent once, and then rests for ever. -/
theorem wsys_finish (R n0 K : Nat) (h0 : cmdWrites (LOG n0) ≤ K)
    (hv1 : ∀ n, n0 ≤ n → (i2cWrBytes period stretch i n).length < 3 * R + 3 → (i n).valid = true)
    (hv2 : ∀ n, (i2cWrBytes period stretch i n).length = 3 * R + 3 → (i n).valid = false)
    (hK : (D.groups f K).group = R ∧ (D.groups f K).pos = 2)
    (hmin : ∀ j, j < K → ¬ ((D.groups f j).group = R ∧ (D.groups f j).pos = 2)) :
    ∃ m, ∀ n, m ≤ n → (ST n).fsm = .idle ∧ cmdWrites (LOG n) = K + 1 ∧
      (i2cWrBytes period stretch i n).length = 3 * R + 3 := by
  -- another byte is sent
  have more : ∀ n, n0 ≤ n → cmdWrites (LOG n) ≤ K →
      ∃ m, n ≤ m ∧ (ST m).fsm = .write ∧ cmdWrites (LOG m) = cmdWrites (LOG n) := by
    intro n hn hk
    obtain ⟨m, m1, m2, m3⟩ := wsys_next hp hw hst hf hrls n
    rcases m2 with m2 | m2
    · exact ⟨m, m1, m2, m3⟩
    · exfalso
      have hb := wsys_waits_bytes hp hw hst hD hf m m2
      have hn := (D.groups_need f R (cmdWrites (LOG m)) (fun j hj => hmin j (by omega))).2
      have := hv1 m (by omega) (by omega)
      rw [m2.2.1] at this
      cases this
  -- the byte number `K` is sent
  have a : ∀ d n, n0 ≤ n → cmdWrites (LOG n) + d = K → ∃ m, n ≤ m ∧ (ST m).fsm = .write ∧ cmdWrites (LOG m) = K := by
    intro d
    induction d with
    | zero =>
      intro n hn hd
      obtain ⟨m, m1, m2, m3⟩ := more n hn (by omega)
      exact ⟨m, m1, m2, by omega⟩
    | succ d ih =>
      intro n hn hd
      obtain ⟨m, m1, m2, m3⟩ := more n hn (by omega)
      have := wsys_writes_succ (period := period) (stretch := stretch) hst hf m
      rw [m2, if_pos rfl] at this
      obtain ⟨q, q1, q2, q3⟩ := ih (m + 1) (by omega) (by omega)
      exact ⟨q, by omega, q2, q3⟩
  obtain ⟨m, m1, m2, m3⟩ := a (K - cmdWrites (LOG n0)) n0 (Nat.le_refl _) (by omega)
  have hw1 := wsys_writes_succ (period := period) (stretch := stretch) hst hf m
  rw [m2, if_pos rfl, m3] at hw1
  -- its stage
  have hst2 : (ST (m + 1)).fsm = .waitWrite ∧ (ST (m + 1)).stage = 3 := by
    obtain ⟨⟨k, hA⟩, _⟩ := wsys_run hp hw hst hD hf m
    obtain ⟨hb, hrel⟩ := wr_rel period stretch i hst m f (hf m)
    rw [m2] at hrel
    obtain ⟨T, rfl, r0, r1, r2, r3, _⟩ := hrel
    have hk : k = K := by
      rw [← m3, r2, cmdWrites_append, i2cGroups_writes, hA, D.groupAcks_length]
      split <;> rfl
    have hs : (ST m).stage = 2 := by
      rw [r3, hA, (D.groups_eq f k).2.2, hk, hK.2]
    rw [Circuit.st_succ]
    generalize (i2cWriterStream period stretch).st i m = s at *
    simp [i2cWriterStream, i2cWrFsm, m2, hs]
  -- the writer comes to rest
  have hq : ∃ q, (ST q).fsm = .idle ∧ cmdWrites (LOG q) = K + 1 := by
    obtain ⟨q, g1, ⟨g2, g3, g4⟩, g5⟩ := wsys_wait hp hw hst hf hrls .waitWrite (by simp) _ _ (m + 1) ⟨hst2.1, hw1, hst2.2⟩
    have hs : (ST (q + 1)).fsm = .stop := by
      rw [Circuit.st_succ]
      generalize (i2cWriterStream period stretch).st i q = s at *
      cases ha : s.core.ackO <;> simp [i2cWriterStream, i2cWrFsm, g2, g5, g4, ha]
    obtain ⟨r, r1, r2, r3, _⟩ := wsys_stop hp hw hst hf hrls (q + 1) hs
    refine ⟨r, r2, ?_⟩
    rw [r3, wsys_writes_succ hst hf, g2, g3]
    rfl
  obtain ⟨q, q1, q2⟩ := hq
  -- bytes taken at rest
  have full : ∀ n, (ST n).fsm = .idle → cmdWrites (LOG n) = K + 1 → (i2cWrBytes period stretch i n).length = 3 * R + 3 := by
    intro n h1 h2
    rw [(wsys_idle_log hp hw hst hD hf n _ h2 h1).2.2, D.groupAcks_succ, i2cGroups_snoc]
    have hn := (D.groups_need f R K hmin).2
    obtain ⟨_, e2, e3⟩ := D.groups_eq f K
    simp only [i2cGroupStep, e2, e3, hK.1, hK.2]
    omega
  have stay : ∀ d, (ST (q + d)).fsm = .idle ∧ cmdWrites (LOG (q + d)) = K + 1 := by
    intro d
    induction d with
    | zero => exact ⟨q1, q2⟩
    | succ d ih =>
      obtain ⟨i1, i2⟩ := ih
      have hfull := full _ i1 i2
      have hv := hv2 _ hfull
      have hlog := wsys_idle_log hp hw hst hD hf _ _ i2 i1
      have hstage : (ST (q + d)).stage = 3 := by
        rcases wsys_stage hst hf (q + d) (.inr (.inr i1)) with h | ⟨A, a, h, hs⟩
        · rw [hlog.1] at h
          have := congrArg List.length h
          rw [D.groupAcks_length] at this
          cases this
        · rw [hlog.1, D.groupAcks_succ] at h
          obtain ⟨h, _⟩ := snoc_inj h
          rw [hs, ← h, (D.groups_eq f K).2.2, hK.2]
      have huc : i2cWrUseCache (ST (q + d)) = false := by
        obtain ⟨_, hrel⟩ := wr_rel period stretch i hst (q + d) f (hf _)
        rw [i1] at hrel
        obtain ⟨T, _, _, _, _, _, r5, r6⟩ := hrel
        cases hr : (ST (q + d)).retry
        · simp [i2cWrUseCache, hr]
        · rw [hr] at r6
          simp only [if_true] at r6
          simp only [i2cWrUseCache, hstage, hr, Bool.true_and, decide_eq_false_iff_not]
          omega
      refine ⟨?_, ?_⟩
      · rw [← Nat.add_assoc, Circuit.st_succ]
        generalize (i2cWriterStream period stretch).st i (q + d) = s at *
        cases hb : s.core.busy <;> simp [i2cWriterStream, i2cWrFsm, i1, hb, huc, hv]
      · rw [← Nat.add_assoc, wsys_writes_succ hst hf, i1, i2]
        rfl
  refine ⟨q, fun n hn => ?_⟩
  obtain ⟨d, rfl⟩ : ∃ d, n = q + d := ⟨n - q, by omega⟩
  exact ⟨(stay d).1, (stay d).2, full _ (stay d).1 (stay d).2⟩

end

end

end Lambdalib
