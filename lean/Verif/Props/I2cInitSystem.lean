import Verif.Props.I2cInit
import Verif.Props.I2cWriterSystem
import Verif.Lemmas.I2cClose
import Verif.Props.UsbEp

/-! `I2CRegisterInit` with writer, initiator and bus driver on the wires, with a device (C103). -/

namespace Lambdalib

section
variable (i2cAddr : Nat) (regs : List (BitVec 8 × BitVec 8)) (expose : Bool) (period : Nat) (i : Nat → InitFullIn)

/-- Inputs of the part around the writer, in an execution. -/
def initFullRi (n : Nat) : RegInitIn := initFullReg period ((i2cInitFull i2cAddr regs expose period).st i n) (i n)

/-- Inputs of the writer, in an execution. -/
def initFullWi (n : Nat) : I2cWrIn :=
  initFullWr i2cAddr regs expose period ((i2cInitFull i2cAddr regs expose period).st i n) (i n)

theorem initFull_st (n : Nat) : (i2cInitFull i2cAddr regs expose period).st i n =
    ((i2cRegisterInit i2cAddr regs expose).st (initFullRi i2cAddr regs expose period i) n,
      (i2cWriterStream period true).st (initFullWi i2cAddr regs expose period i) n) := by
  induction n with
  | zero => rfl
  | succ n ih =>
    rw [Circuit.st_succ (i2cRegisterInit i2cAddr regs expose), Circuit.st_succ (i2cWriterStream period true)]
    rw [← (Prod.mk.injEq ..).mp ih |>.1, ← (Prod.mk.injEq ..).mp ih |>.2]
    rfl

/-- The writer sees what the part around it drives, and the other way round. -/
theorem initFull_link (n : Nat) :
    let r := (i2cRegisterInit i2cAddr regs expose).wave (initFullRi i2cAddr regs expose period i) n
    let w := (i2cWriterStream period true).wave (initFullWi i2cAddr regs expose period i) n
    (initFullWi i2cAddr regs expose period i n).valid = r.valid ∧
    (initFullWi i2cAddr regs expose period i n).data = r.beat.payload ∧
    (initFullRi i2cAddr regs expose period i n).wready = w.ready ∧
    (initFullRi i2cAddr regs expose period i n).expValid = (i n).expValid ∧
    (initFullRi i2cAddr regs expose period i n).expBeat = (i n).expBeat ∧
    ((i2cInitFull i2cAddr regs expose period).wave i n).done = r.done ∧
    ((i2cInitFull i2cAddr regs expose period).wave i n).expReady = r.expReady := by
  have h := initFull_st i2cAddr regs expose period i n
  have h1 : (i2cRegisterInit i2cAddr regs expose).st (initFullRi i2cAddr regs expose period i) n =
    ((i2cInitFull i2cAddr regs expose period).st i n).1 := by rw [h]
  have h2 : (i2cWriterStream period true).st (initFullWi i2cAddr regs expose period i) n =
    ((i2cInitFull i2cAddr regs expose period).st i n).2 := by rw [h]
  simp only [Circuit.wave]
  refine ⟨?_, ?_, ?_, rfl, rfl, ?_, ?_⟩
  · rw [h1]; rfl
  · rw [h1]; rfl
  · rw [h2]; rfl
  · rw [h1]; rfl
  · rw [h1]; rfl

theorem initFull_bytes (n : Nat) : i2cWrBytes period true (initFullWi i2cAddr regs expose period i) n =
    (initWritten i2cAddr regs expose (initFullRi i2cAddr regs expose period i) n).map (·.payload) := by
  rw [initWritten, transferred_map]
  refine transferred_congr (fun n => (initFull_link i2cAddr regs expose period i n).1)
    (fun n => (initFull_link i2cAddr regs expose period i n).2.2.1.symm)
    (fun n => (initFull_link i2cAddr regs expose period i n).2.1) n

/-- The part around the writer does not withdraw a byte if the exposed endpoint does not. -/
theorem init_keeps (s : (MemRdS (BitVec 8) × PipeValidS (BitVec 8)) × Bool) (x x' : RegInitIn)
    (hx : x.expValid = true → ((i2cRegisterInit i2cAddr regs expose).out s x).expReady = false →
      x'.expValid = true ∧ x'.expBeat = x.expBeat)
    (hv : ((i2cRegisterInit i2cAddr regs expose).out s x).valid = true) (hr : x.wready = false) :
    ((i2cRegisterInit i2cAddr regs expose).out ((i2cRegisterInit i2cAddr regs expose).next s x) x').valid = true ∧
    ((i2cRegisterInit i2cAddr regs expose).out ((i2cRegisterInit i2cAddr regs expose).next s x) x').beat =
      ((i2cRegisterInit i2cAddr regs expose).out s x).beat := by
  obtain ⟨⟨m, p⟩, done⟩ := s
  obtain ⟨pv, pb⟩ := p
  obtain ⟨wr, ev, eb⟩ := x
  simp only at hr
  subst hr
  cases expose <;> cases done <;>
    simp [i2cRegisterInit, regInitMemReady, memoryStreamReaderBuffered, bufferedSrc, pipeValid] at hx hv ⊢
  all_goals first
    | exact hx hv
    | simp [hv]

theorem initFull_stable
    (hx : Stable (fun k => (i k).expValid) (fun k => ((i2cInitFull i2cAddr regs expose period).wave i k).expReady)
      (fun k => (i k).expBeat)) :
    i2cWrSinkStable period true (initFullWi i2cAddr regs expose period i) := by
  intro n hv hr
  obtain ⟨l1, l2, l3, l4, l5, l6, l7⟩ := initFull_link i2cAddr regs expose period i n
  obtain ⟨m1, m2, m3, m4, m5, m6, m7⟩ := initFull_link i2cAddr regs expose period i (n + 1)
  simp only at hv hr ⊢
  rw [← l3] at hr
  rw [l1] at hv
  rw [m1, m2, l2]
  have hxn := hx n
  simp only at hxn
  rw [l7, ← l4, ← l5, ← m4, ← m5] at hxn
  simp only [Circuit.wave, Circuit.st_succ] at hv hxn ⊢
  generalize (i2cRegisterInit i2cAddr regs expose).st (initFullRi i2cAddr regs expose period i) n = s at *
  obtain ⟨a, b⟩ := init_keeps i2cAddr regs expose s _ (initFullRi i2cAddr regs expose period i (n + 1)) hxn hv hr
  exact ⟨a, by rw [b]⟩

/-- A table byte is offered only as long as not all were taken. -/
theorem init_valid_lt (ri : Nat → RegInitIn) (h : regs ≠ []) (n : Nat) (hq : ∀ n, (ri n).expValid = false)
    (hv : ((i2cRegisterInit i2cAddr regs expose).wave ri n).valid = true) :
    (initWritten i2cAddr regs expose ri n).length < (initBytes i2cAddr regs).length := by
  obtain ⟨⟨k, hk, e⟩, h2, h3, h4⟩ := init_rel i2cAddr regs expose ri h n
  have hT : (regsDataToMem i2cAddr regs).mapIdx
      (fun j x => (⟨false, decide (j + 1 = (regsDataToMem i2cAddr regs).length), x⟩ :
        Beat (BitVec 8))) = initBeats i2cAddr regs := by
    rw [regsDataToMem_eq]; rfl
  have hlen : (initBeats i2cAddr regs).length = (initBytes i2cAddr regs).length := by
    rw [initBeats, List.length_mapIdx]
  have hne : regsDataToMem i2cAddr regs ≠ [] := by
    rw [regsDataToMem_eq]; exact initBytes_ne i2cAddr regs h
  have hE : initExposed i2cAddr regs expose ri n = [] := by
    clear e h2 h3 h4 hv
    induction n with
    | zero => rfl
    | succ n ih =>
      have eE : initExposed i2cAddr regs expose ri (n + 1) = initExposed i2cAddr regs expose ri n ++
        (if (ri n).expValid && ((i2cRegisterInit i2cAddr regs expose).wave ri n).expReady then
          [(ri n).expBeat] else []) := rfl
      rw [eE, ih, hq n]
      rfl
  rw [h3, hE, List.append_nil]
  obtain ⟨⟨j, hj, ej⟩, _⟩ := C18_reader_buffered_plays (regsDataToMem i2cAddr regs) hne
    (initMemIn i2cAddr regs expose ri) 0 n (.inl rfl) (fun _ _ _ => rfl)
  rw [hT, Nat.zero_add] at ej
  have hm := init_mem i2cAddr regs expose ri n
  have hmv : ((memoryStreamReaderBuffered (regsDataToMem i2cAddr regs)).wave (initMemIn i2cAddr regs expose ri) n).valid = true := by
    simp only [Circuit.wave] at hv ⊢
    rw [← hm]
    simp only [initMemIn]
    have hqn := hq n
    generalize (i2cRegisterInit i2cAddr regs expose).st ri n = s at *
    simp only [i2cRegisterInit] at hv
    split at hv
    · simp only at hv
      rw [hqn] at hv
      cases hv
    · exact hv
  rw [hmv] at ej
  simp only [if_true] at ej
  have hl := congrArg List.length ej
  rw [List.length_append, List.length_take, List.length_singleton, hlen] at hl
  omega

end

/-! ### The table and the device -/

/-- What a device goes through when a register is written and all bytes are acknowledged. -/
def tableTxn (i2cAddr : Nat) (r : BitVec 8 × BitVec 8) : List DevEv :=
  [.start, .wrote (BitVec.ofNat 8 (2 * i2cAddr)) true, .wrote r.1 true, .wrote r.2 true, .stop]

/-- Byte number `k` of the table. -/
def tableByte (i2cAddr : Nat) (regs : List (BitVec 8 × BitVec 8)) (k : Nat) : BitVec 8 := (initBytes i2cAddr regs).getD k 0

theorem initBytes_length (i2cAddr : Nat) (regs : List (BitVec 8 × BitVec 8)) :
    (initBytes i2cAddr regs).length = 3 * regs.length := by
  induction regs with
  | nil => rfl
  | cons r rs ih =>
    simp only [initBytes, List.flatMap_cons, List.length_append, List.length_cons, List.length_nil] at ih ⊢
    omega

theorem tableByte_eq (i2cAddr : Nat) (regs : List (BitVec 8 × BitVec 8)) (g : Nat) (r : BitVec 8 × BitVec 8)
    (h : regs[g]? = some r) :
    tableByte i2cAddr regs (3 * g) = BitVec.ofNat 8 (2 * i2cAddr) ∧ tableByte i2cAddr regs (3 * g + 1) = r.1 ∧
      tableByte i2cAddr regs (3 * g + 2) = r.2 := by
  unfold tableByte
  induction regs generalizing g with
  | nil => simp at h
  | cons q qs ih =>
    have e : initBytes i2cAddr (q :: qs) = BitVec.ofNat 8 (2 * i2cAddr) :: q.1 :: q.2 :: initBytes i2cAddr qs := rfl
    rw [e]
    cases g with
    | zero =>
      simp only [List.getElem?_cons_zero, Option.some.injEq] at h
      subst h
      exact ⟨rfl, rfl, rfl⟩
    | succ g =>
      rw [List.getElem?_cons_succ] at h
      exact ih g h

section
variable (D : I2cDev) (bidir : Bool) (i2cAddr : Nat) (regs : List (BitVec 8 × BitVec 8)) (expose : Bool) (period : Nat)
  (hold : Nat → Bool)

/-- The inputs of `I2CRegisterInit` on the wires with a device, nothing offered on the exposed endpoint. -/
def initWire : Nat → InitFullIn :=
  closeIn D.target bidir (i2cInitFull i2cAddr regs expose period) (fun r => r.2.core)
    (fun _ _ scl sda => ⟨false, ⟨false, false, 0⟩, scl, sda⟩) hold

/-- What the device has been through. -/
def initHistory (n : Nat) : List DevEv :=
  (i2cBusOf D.target bidir period true
    (i2cWrCi period true (initFullWi i2cAddr regs expose period (initWire D bidir i2cAddr regs expose period hold))) hold n).tgt.2

theorem initWire_wired (hh : ∀ n, hold n = true → bidir = true) :
    I2cWired D.target bidir period true
      (i2cWrCi period true (initFullWi i2cAddr regs expose period (initWire D bidir i2cAddr regs expose period hold))) hold := by
  have hc : ∀ n, (i2cInitiator period true).st (i2cWrCi period true
      (initFullWi i2cAddr regs expose period (initWire D bidir i2cAddr regs expose period hold))) n =
      ((i2cInitFull i2cAddr regs expose period).st (initWire D bidir i2cAddr regs expose period hold) n).2.core := by
    intro n
    rw [← i2cWr_core, initFull_st]
  have hb : ∀ n, i2cBusOf D.target bidir period true (i2cWrCi period true
      (initFullWi i2cAddr regs expose period (initWire D bidir i2cAddr regs expose period hold))) hold n =
      (closeRun D.target bidir (i2cInitFull i2cAddr regs expose period) (fun r : InitFullS => r.2.core)
        (fun _ _ scl sda => ⟨false, ⟨false, false, 0⟩, scl, sda⟩) hold n).2 := by
    refine close_bus D.target bidir _ (fun r : InitFullS => r.2.core) _ hold _ _ (fun n => ?_)
    have := hc n
    constructor
    · change ((i2cInitiator period true).st _ n).sclO = _
      rw [this]; rfl
    · change ((i2cInitiator period true).st _ n).sdaO = _
      rw [this]; rfl
  have hs := fun n => close_st D.target bidir (i2cInitFull i2cAddr regs expose period)
    (fun r : InitFullS => r.2.core) (fun _ _ scl sda => ⟨false, ⟨false, false, 0⟩, scl, sda⟩) hold n
  refine ⟨fun n => ?_, fun n => ?_, fun n h => ⟨hh n h, rfl⟩⟩
  · rw [hb n]
    simp only [i2cScl, i2cSda, Circuit.wave]
    rw [hc n]
    unfold initWire
    rw [hs n]
    rfl
  · rw [hb n]
    simp only [i2cScl, i2cSda, Circuit.wave]
    rw [hc n]
    unfold initWire
    rw [hs n]
    rfl

/-- C103, general form. `I2CRegisterInit` on the wires with a device: bytes are sent until the last byte of the table has been sent
once, a register being written again from its address whenever a byte is refused. Then, for ever, `done` is high and the device has been
through exactly this. -/
theorem C103_init_partial (h : regs ≠ []) (hp : 4 ≤ period) (hh : ∀ n, hold n = true → bidir = true)
    (hrel : ∀ n, ∃ m, n ≤ m ∧ hold m = false) (hD : D.Polite) (K : Nat)
    (hK : (D.groups (tableByte i2cAddr regs) K).group + 1 = regs.length ∧ (D.groups (tableByte i2cAddr regs) K).pos = 2)
    (hmin : ∀ j, j < K →
      ¬ ((D.groups (tableByte i2cAddr regs) j).group + 1 = regs.length ∧ (D.groups (tableByte i2cAddr regs) j).pos = 2)) :
    ∃ m, ∀ n, m ≤ n →
      ((i2cInitFull i2cAddr regs expose period).wave (initWire D bidir i2cAddr regs expose period hold) n).done = true ∧
      initHistory D bidir i2cAddr regs expose period hold (n + 1) = (D.groups (tableByte i2cAddr regs) (K + 1)).dev.log := by
  have hw := initWire_wired D bidir i2cAddr regs expose period hold hh
  unfold initHistory
  have hq : ∀ n, (initWire D bidir i2cAddr regs expose period hold n).expValid = false := fun n => rfl
  generalize initWire D bidir i2cAddr regs expose period hold = i at *
  have hst : i2cWrSinkStable period true (initFullWi i2cAddr regs expose period i) :=
    initFull_stable i2cAddr regs expose period i (fun n hv => by simp only at hv; rw [hq n] at hv; cases hv)
  have hqr : ∀ n, (initFullRi i2cAddr regs expose period i n).expValid = false := fun n => by
    rw [(initFull_link i2cAddr regs expose period i n).2.2.2.1]; exact hq n
  have hE : ∀ n, initExposed i2cAddr regs expose (initFullRi i2cAddr regs expose period i) n = [] := by
    intro n
    induction n with
    | zero => rfl
    | succ n ih =>
      have eE : initExposed i2cAddr regs expose (initFullRi i2cAddr regs expose period i) (n + 1) =
        initExposed i2cAddr regs expose (initFullRi i2cAddr regs expose period i) n ++
        (if (initFullRi i2cAddr regs expose period i n).expValid &&
            ((i2cRegisterInit i2cAddr regs expose).wave (initFullRi i2cAddr regs expose period i) n).expReady then
          [(initFullRi i2cAddr regs expose period i n).expBeat] else []) := rfl
      rw [eE, ih, hqr n]
      rfl
  have hlen : (initBeats i2cAddr regs).length = (initBytes i2cAddr regs).length := by
    rw [initBeats, List.length_mapIdx]
  have hpay : (initBeats i2cAddr regs).map (·.payload) = initBytes i2cAddr regs := by
    rw [initBeats]
    apply List.ext_getElem?
    intro j
    simp only [List.getElem?_map, List.getElem?_mapIdx]
    cases (initBytes i2cAddr regs)[j]? <;> rfl
  -- bytes taken by the writer
  have hby : ∀ n, ∃ k, k ≤ (initBytes i2cAddr regs).length ∧
      i2cWrBytes period true (initFullWi i2cAddr regs expose period i) n = (initBytes i2cAddr regs).take k ∧
      (((i2cInitFull i2cAddr regs expose period).wave i n).done = true ↔ k = (initBytes i2cAddr regs).length) := by
    intro n
    obtain ⟨⟨k, k1, k2, k3, _⟩, _⟩ := C59_init_bytes i2cAddr regs expose (initFullRi i2cAddr regs expose period i) h n
    refine ⟨k, by omega, ?_, ?_⟩
    · rw [initFull_bytes, k2, hE n, List.append_nil, List.map_take, hpay]
    · rw [(initFull_link i2cAddr regs expose period i n).2.2.2.2.2.1, k3, hlen]
  have hN := initBytes_length i2cAddr regs
  have hR : regs.length = (regs.length - 1) + 1 := by
    have : regs.length ≠ 0 := fun h0 => h (List.length_eq_zero_iff.mp h0)
    omega
  have hf : ∀ n k, k < (i2cWrBytes period true (initFullWi i2cAddr regs expose period i) n).length →
      tableByte i2cAddr regs k = (i2cWrBytes period true (initFullWi i2cAddr regs expose period i) n).getD k 0 := by
    intro n k hk
    obtain ⟨j, j1, j2, _⟩ := hby n
    rw [j2] at hk ⊢
    rw [List.length_take] at hk
    unfold tableByte
    rw [List.getD_eq_getElem?_getD, List.getD_eq_getElem?_getD, List.getElem?_take, if_pos (by omega)]
  have hlink := fun n => (initFull_link i2cAddr regs expose period i n).1
  have s0 : cmdWrites (i2cCmdLog period true (i2cWrCi period true (initFullWi i2cAddr regs expose period i)) 2) ≤ K := by
    rw [wsys_writes_succ hst hf, wsys_writes_succ hst hf]
    have h1 : ((i2cWriterStream period true).st (initFullWi i2cAddr regs expose period i) 0).fsm ≠ .write := by
      simp [i2cWriterStream]
    have h2 : ((i2cWriterStream period true).st (initFullWi i2cAddr regs expose period i) (0 + 1)).fsm ≠ .write := by
      rw [Circuit.st_succ]
      simp only [Circuit.st_zero]
      simp only [i2cWriterStream, i2cWrFsm]
      repeat' split
      all_goals simp
    rw [if_neg h1, if_neg h2]
    exact Nat.zero_le _
  have s1 : ∀ n, 2 ≤ n → (i2cWrBytes period true (initFullWi i2cAddr regs expose period i) n).length < 3 * (regs.length - 1) + 3 →
      (initFullWi i2cAddr regs expose period i n).valid = true := by
    intro n hn hlt
    rw [hlink n]
    apply C59_init_offers i2cAddr regs expose _ h n hn
    rw [← (initFull_link i2cAddr regs expose period i n).2.2.2.2.2.1]
    obtain ⟨k, k1, k2, k3⟩ := hby n
    cases hd : ((i2cInitFull i2cAddr regs expose period).wave i n).done
    · rfl
    · have := k3.mp hd
      rw [k2, List.length_take] at hlt
      omega
  have s2 : ∀ n, (i2cWrBytes period true (initFullWi i2cAddr regs expose period i) n).length = 3 * (regs.length - 1) + 3 →
      (initFullWi i2cAddr regs expose period i n).valid = false := by
    intro n heq
    cases hv : (initFullWi i2cAddr regs expose period i n).valid
    · rfl
    · rw [hlink n] at hv
      have := init_valid_lt i2cAddr regs expose (initFullRi i2cAddr regs expose period i) h n hqr hv
      rw [initFull_bytes, List.length_map] at heq
      omega
  obtain ⟨m, hm⟩ := wsys_finish (i := initFullWi i2cAddr regs expose period i) hp hw hst hD hf hrel (regs.length - 1) 2 K s0 s1 s2
    (by omega) (fun j hj hc => hmin j hj (by omega))
  refine ⟨m, fun n hn => ?_⟩
  obtain ⟨g1, g2, g3⟩ := hm n hn
  refine ⟨?_, ?_⟩
  · obtain ⟨k, k1, k2, k3⟩ := hby n
    apply k3.mpr
    rw [k2, List.length_take] at g3
    omega
  · rw [wsys_history hp hw hst hD hf n g1, g2]

end

/-! ### What the device has been through -/

section
variable (D : I2cDev) (i2cAddr : Nat) (regs : List (BitVec 8 × BitVec 8))

local notation "GR" k => I2cDev.groups D (tableByte i2cAddr regs) k

/-- The registers written so far. -/
def tableTxns (g : Nat) : List DevEv := (regs.take g).flatMap (tableTxn i2cAddr)

theorem tableTxns_succ (g : Nat) (r : BitVec 8 × BitVec 8) (h : regs[g]? = some r) :
    tableTxns i2cAddr regs (g + 1) = tableTxns i2cAddr regs g ++ tableTxn i2cAddr r := by
  unfold tableTxns
  have hg : g < regs.length := (List.getElem?_eq_some_iff.mp h).1
  rw [List.take_succ_eq_append_getElem hg, List.flatMap_append]
  rw [List.getElem?_eq_getElem hg, Option.some.injEq] at h
  rw [h]
  simp

/-- Among what the device has been through are the writes of all registers counted as complete, in order. -/
theorem groups_written (k : Nat) (hg : (GR k).group ≤ regs.length) :
    List.Sublist (tableTxns i2cAddr regs (GR k).group) (GR k).dev.log ∧
    ∀ r, regs[(GR k).group]? = some r → (GR k).pos ≠ 0 →
      List.Sublist (tableTxns i2cAddr regs (GR k).group ++ (tableTxn i2cAddr r).take ((GR k).pos + 1)) (GR k).dev.log := by
  induction k with
  | zero => exact ⟨by simp [I2cDev.groups, tableTxns], fun r _ h => absurd rfl h⟩
  | succ k ih =>
    have hp := D.groups_pos (tableByte i2cAddr regs) k
    rw [I2cDev.groups] at hg ⊢
    generalize (GR k) = q at *
    obtain ⟨A, g, p⟩ := q
    simp only at ih hp
    cases ha : D.groupAck (tableByte i2cAddr regs) ⟨A, g, p⟩
    · -- refused
      simp only [I2cDev.groupByte, ha, Bool.false_eq_true, if_false] at hg ⊢
      refine ⟨?_, fun r _ h => absurd rfl h⟩
      refine (ih hg).1.trans ?_
      have h1 : List.Sublist A.log (D.groupAt ⟨A, g, p⟩).log := by
        unfold I2cDev.groupAt
        split
        · exact List.sublist_append_left _ _
        · exact List.Sublist.refl _
      refine h1.trans ?_
      simp only [I2cDev.cmd]
      refine List.Sublist.trans ?_ (List.sublist_append_left _ _)
      cases (D.groupAt ⟨A, g, p⟩).mode with
      | rest => exact List.Sublist.refl _
      | recv => exact List.sublist_append_left _ _
      | send b => exact List.sublist_append_left _ _
    · have hb := D.acks_log _ _ ha
      simp only at hb
      simp only [I2cDev.groupByte, ha, if_true] at hg ⊢
      rw [hb] at hg ⊢
      have hgl : g ≤ regs.length := by split at hg <;> simp only at hg <;> omega
      obtain ⟨i1, i2⟩ := ih hgl
      by_cases hglt : g < regs.length
      · obtain ⟨t1, t2, t3⟩ := tableByte_eq i2cAddr regs g _ (List.getElem?_eq_getElem hglt)
        replace i2 := i2 _ (List.getElem?_eq_getElem hglt)
        have hreg : ∀ r, regs[g]? = some r → r = regs[g] := by
          intro r hr
          rw [List.getElem?_eq_getElem hglt, Option.some.injEq] at hr
          exact hr.symm
        rcases (by omega : p = 0 ∨ p = 1 ∨ p = 2) with rfl | rfl | rfl
        · simp only [I2cDev.groupAt, if_true, I2cDev.cmd, I2cDev.byte, Nat.add_zero, t1]
          refine ⟨i1.trans (List.Sublist.trans (List.sublist_append_left _ _) (List.sublist_append_left _ _)), ?_⟩
          intro r hr _
          simp only [tableTxn, List.take, List.append_assoc, List.cons_append, List.nil_append]
          exact i1.append (List.Sublist.refl _)
        · simp only [I2cDev.groupAt, I2cDev.byte, t2]
          refine ⟨i1.trans (List.sublist_append_left _ _), ?_⟩
          intro r hr _
          have := i2 (by simp)
          simp only [tableTxn, List.take] at this ⊢
          rw [hreg r hr]
          have := this.append (List.Sublist.refl [DevEv.wrote regs[g].1 true])
          simpa using this
        · rw [if_pos rfl]
          simp only [I2cDev.groupAt, I2cDev.cmd, I2cDev.byte, t3]
          refine ⟨?_, fun r _ h => absurd rfl h⟩
          rw [tableTxns_succ i2cAddr regs g _ (List.getElem?_eq_getElem hglt)]
          have := i2 (by simp)
          simp only [tableTxn, List.take] at this ⊢
          have := this.append (List.Sublist.refl [DevEv.wrote regs[g].2 true, .stop])
          simpa using this
      · -- nothing left to write
        have hge : g = regs.length := by omega
        split at hg
        · simp only at hg; omega
        · rename_i hp2
          rw [if_neg hp2]
          simp only at hg ⊢
          refine ⟨?_, ?_⟩
          · refine i1.trans ?_
            simp only [I2cDev.byte]
            refine List.Sublist.trans ?_ (List.sublist_append_left _ _)
            unfold I2cDev.groupAt
            split
            · exact List.sublist_append_left _ _
            · exact List.Sublist.refl _
          · intro r hr
            rw [hge, List.getElem?_eq_none (Nat.le_refl _)] at hr
            cases hr

/-- A polite device that acknowledges every byte of the table goes through exactly the writes of the table. -/
theorem groups_acked (hD : D.Polite)
    (hack : ∀ p d, (p ++ [.wrote d true] <+: regs.flatMap (tableTxn i2cAddr)) → D.ack p d = true) (k : Nat)
    (hk : k ≤ 3 * regs.length) :
    (GR k).group = k / 3 ∧ (GR k).pos = k % 3 ∧ ((GR k).pos ≠ 0 → (GR k).dev.mode = .recv) ∧
    (∀ r, regs[k / 3]? = some r → (GR k).dev.log = tableTxns i2cAddr regs (k / 3) ++
      (if k % 3 = 0 then [] else (tableTxn i2cAddr r).take (k % 3 + 1))) ∧
    (k % 3 = 0 → (GR k).dev.log = tableTxns i2cAddr regs (k / 3)) := by
  induction k with
  | zero => exact ⟨rfl, rfl, fun h => absurd rfl h, fun r _ => by simp [I2cDev.groups, tableTxns], fun _ => by simp [I2cDev.groups, tableTxns]⟩
  | succ k ih =>
    obtain ⟨i1, i2, i3, i4, i5⟩ := ih (by omega)
    clear ih
    have hglt : k / 3 < regs.length := by omega
    obtain ⟨r, hr⟩ : ∃ r, regs[k / 3]? = some r := ⟨_, List.getElem?_eq_getElem hglt⟩
    obtain ⟨t1, t2, t3⟩ := tableByte_eq i2cAddr regs _ r hr
    replace i4 := i4 r hr
    have hpre : tableTxns i2cAddr regs (k / 3) ++ tableTxn i2cAddr r <+: regs.flatMap (tableTxn i2cAddr) := by
      rw [← tableTxns_succ i2cAddr regs _ r hr]
      unfold tableTxns
      have e : regs.flatMap (tableTxn i2cAddr) =
          (regs.take (k / 3 + 1)).flatMap (tableTxn i2cAddr) ++ (regs.drop (k / 3 + 1)).flatMap (tableTxn i2cAddr) := by
        rw [← List.flatMap_append, List.take_append_drop]
      rw [e]
      exact List.prefix_append _ _
    have even : (BitVec.ofNat 8 (2 * i2cAddr)).getLsbD 0 = false := by simp [BitVec.getLsbD]
    rw [I2cDev.groups]
    generalize (GR k) = q at *
    obtain ⟨⟨log, mode⟩, g, p⟩ := q
    simp only at i1 i2 i3 i4 i5
    subst i1
    -- the mode after an acknowledged byte
    have hmode : ∀ l d, (∀ l', l = l' ++ [.start] → d.getLsbD 0 = false) → D.after (l ++ [.wrote d true]) true = .recv := by
      intro l d hl
      unfold I2cDev.after
      simp only [if_true]
      cases ht : D.tx (l ++ [.wrote d true]) with
      | none => rfl
      | some y =>
        rcases hD _ _ ht with ⟨L, h, e, he⟩ | ⟨L, b', e⟩
        · rw [show L ++ [DevEv.start, .wrote h true] = (L ++ [.start]) ++ [.wrote h true] by simp] at e
          obtain ⟨e1, e2⟩ := snoc_inj e
          simp only [DevEv.wrote.injEq, and_true] at e2
          subst e2
          rw [hl L e1] at he
          cases he
        · obtain ⟨_, e2⟩ := snoc_inj e
          cases e2
    rcases (by omega : k % 3 = 0 ∨ k % 3 = 1 ∨ k % 3 = 2) with h3 | h3 | h3
    · rw [h3] at i2
      subst i2
      replace i5 := i5 h3
      subst i5
      have ha := hack (tableTxns i2cAddr regs (k / 3) ++ [.start]) (BitVec.ofNat 8 (2 * i2cAddr)) (by
        refine List.IsPrefix.trans ?_ hpre
        exact ⟨[.wrote r.1 true, .wrote r.2 true, .stop], by simp [tableTxn]⟩)
      have hm := hmode (tableTxns i2cAddr regs (k / 3) ++ [.start]) (BitVec.ofNat 8 (2 * i2cAddr)) (fun _ _ => even)
      have e : D.groupByte (tableByte i2cAddr regs) ⟨⟨tableTxns i2cAddr regs (k / 3), mode⟩, k / 3, 0⟩ =
          ⟨⟨tableTxns i2cAddr regs (k / 3) ++ [.start] ++ [.wrote (BitVec.ofNat 8 (2 * i2cAddr)) true], .recv⟩, k / 3, 1⟩ := by
        simp only [I2cDev.groupByte, I2cDev.groupAck, I2cDev.groupAt, I2cDev.acks, I2cDev.cmd, Nat.add_zero, t1, if_true, ha,
          I2cDev.byte, hm]
        simp
      rw [e]
      refine ⟨by simp only; omega, by simp only; omega, fun _ => rfl, ?_, fun h => by omega⟩
      intro r' hr'
      rw [show (k + 1) / 3 = k / 3 by omega] at hr' ⊢
      rw [hr, Option.some.injEq] at hr'
      subst hr'
      rw [show (k + 1) % 3 = 1 by omega]
      simp [tableTxn]
    · rw [h3] at i2
      subst i2
      replace i3 := i3 (by simp)
      subst i3
      rw [h3, if_neg (by omega)] at i4
      subst i4
      simp only [tableTxn, List.take] at *
      have ha := hack (tableTxns i2cAddr regs (k / 3) ++ [.start, .wrote (BitVec.ofNat 8 (2 * i2cAddr)) true]) r.1 (by
        refine List.IsPrefix.trans ?_ hpre
        refine ⟨[.wrote r.2 true, .stop], ?_⟩
        rw [List.append_assoc, List.append_assoc]
        rfl)
      have hm := hmode (tableTxns i2cAddr regs (k / 3) ++ [.start, .wrote (BitVec.ofNat 8 (2 * i2cAddr)) true]) r.1 (by
        intro l' e
        rw [show ∀ x : List DevEv, x ++ [DevEv.start, .wrote (BitVec.ofNat 8 (2 * i2cAddr)) true] =
          (x ++ [.start]) ++ [.wrote (BitVec.ofNat 8 (2 * i2cAddr)) true] by simp] at e
        obtain ⟨_, e⟩ := snoc_inj e
        cases e)
      have e : D.groupByte (tableByte i2cAddr regs)
          ⟨⟨tableTxns i2cAddr regs (k / 3) ++ [.start, .wrote (BitVec.ofNat 8 (2 * i2cAddr)) true], .recv⟩, k / 3, 1⟩ =
          ⟨⟨tableTxns i2cAddr regs (k / 3) ++ [.start, .wrote (BitVec.ofNat 8 (2 * i2cAddr)) true] ++ [.wrote r.1 true], .recv⟩,
            k / 3, 2⟩ := by
        simp only [I2cDev.groupByte, I2cDev.groupAck, I2cDev.groupAt, I2cDev.acks, I2cDev.cmd, t2, ha,
          I2cDev.byte, Nat.one_ne_zero, if_false, if_true, hm]
        simp
      rw [e]
      refine ⟨by simp only; omega, by simp only; omega, fun _ => rfl, ?_, fun h => by omega⟩
      intro r' hr'
      rw [show (k + 1) / 3 = k / 3 by omega] at hr' ⊢
      rw [hr, Option.some.injEq] at hr'
      subst hr'
      rw [show (k + 1) % 3 = 2 by omega]
      simp
    · rw [h3] at i2
      subst i2
      replace i3 := i3 (by simp)
      subst i3
      rw [h3, if_neg (by omega)] at i4
      subst i4
      simp only [tableTxn, List.take] at *
      have ha := hack (tableTxns i2cAddr regs (k / 3) ++ [.start, .wrote (BitVec.ofNat 8 (2 * i2cAddr)) true, .wrote r.1 true]) r.2 (by
        refine List.IsPrefix.trans ?_ hpre
        refine ⟨[.stop], ?_⟩
        rw [List.append_assoc, List.append_assoc]
        rfl)
      have hlog : tableTxns i2cAddr regs ((k + 1) / 3) = tableTxns i2cAddr regs (k / 3) ++ tableTxn i2cAddr r := by
        rw [show (k + 1) / 3 = k / 3 + 1 by omega, tableTxns_succ i2cAddr regs _ r hr]
      have e : D.groupByte (tableByte i2cAddr regs)
          ⟨⟨tableTxns i2cAddr regs (k / 3) ++ [.start, .wrote (BitVec.ofNat 8 (2 * i2cAddr)) true, .wrote r.1 true], .recv⟩, k / 3, 2⟩ =
          ⟨⟨tableTxns i2cAddr regs (k / 3) ++ tableTxn i2cAddr r, .rest⟩, k / 3 + 1, 0⟩ := by
        simp only [I2cDev.groupByte, I2cDev.groupAck, I2cDev.groupAt, I2cDev.acks, I2cDev.cmd, t3, ha,
          I2cDev.byte, if_true, tableTxn]
        simp [ha]
      rw [e]
      refine ⟨by simp only; omega, by simp only; omega, fun h => absurd rfl h, ?_, fun _ => hlog.symm⟩
      intro r' hr'
      rw [hlog, show (k + 1) % 3 = 0 by omega]
      simp


/-- A device that from some byte on acknowledges everything lets the table come to its end. -/
theorem groups_end (h : regs ≠ [])
    (hev : ∃ k0, ∀ k, k0 ≤ k → D.groupAck (tableByte i2cAddr regs) (GR k) = true) :
    ∃ K, ((GR K).group + 1 = regs.length ∧ (GR K).pos = 2) ∧
      ∀ j, j < K → ¬ ((GR j).group + 1 = regs.length ∧ (GR j).pos = 2) := by
  have ex : ∃ K, (GR K).group + 1 = regs.length ∧ (GR K).pos = 2 := by
    apply Classical.byContradiction
    intro hcon
    obtain ⟨k0, hk0⟩ := hev
    have hR : regs.length ≠ 0 := fun h0 => h (List.length_eq_zero_iff.mp h0)
    have hle : ∀ k, (GR k).group < regs.length := by
      intro k
      have := (D.groups_need (tableByte i2cAddr regs) (regs.length - 1) k (fun j _ hc =>
        hcon ⟨j, by have := hc.1; omega, hc.2⟩)).1
      omega
    have hgrow : ∀ d, d ≤ 3 * (GR (k0 + d)).group + (GR (k0 + d)).pos := by
      intro d
      induction d with
      | zero => exact Nat.zero_le _
      | succ d ih =>
        rw [← Nat.add_assoc, I2cDev.groups]
        simp only [I2cDev.groupByte, hk0 (k0 + d) (by omega), if_true]
        split <;> simp only <;> omega
    have := hgrow (3 * regs.length)
    have := hle (k0 + 3 * regs.length)
    have := D.groups_pos (tableByte i2cAddr regs) (k0 + 3 * regs.length)
    omega
  -- the first one
  obtain ⟨K, hK⟩ := ex
  induction K using Nat.strongRecOn with
  | _ K ih =>
    by_cases hm : ∃ j, j < K ∧ (GR j).group + 1 = regs.length ∧ (GR j).pos = 2
    · obtain ⟨j, j1, j2⟩ := hm
      exact ih j j1 j2
    · exact ⟨K, hK, fun j j1 j2 => hm ⟨j, j1, j2⟩⟩

end

section
variable (D : I2cDev) (bidir : Bool) (i2cAddr : Nat) (regs : List (BitVec 8 × BitVec 8)) (expose : Bool) (period : Nat)
  (hold : Nat → Bool)

/-- C103, for a device that refuses bytes for a while but not the last value of the table. In the end, and then for ever, `done` is
high and all registers have been written in order, each in one transaction with all bytes acknowledged. -/
theorem C103_registers_partial (h : regs ≠ []) (hp : 4 ≤ period) (hh : ∀ n, hold n = true → bidir = true)
    (hrel : ∀ n, ∃ m, n ≤ m ∧ hold m = false) (hD : D.Polite)
    (hev : ∃ k0, ∀ k, k0 ≤ k → D.groupAck (tableByte i2cAddr regs) (D.groups (tableByte i2cAddr regs) k) = true)
    (hlast : ∀ k, (D.groups (tableByte i2cAddr regs) k).group + 1 = regs.length →
      (D.groups (tableByte i2cAddr regs) k).pos = 2 →
      D.groupAck (tableByte i2cAddr regs) (D.groups (tableByte i2cAddr regs) k) = true) :
    ∃ m log, List.Sublist (regs.flatMap (tableTxn i2cAddr)) log ∧ ∀ n, m ≤ n →
      ((i2cInitFull i2cAddr regs expose period).wave (initWire D bidir i2cAddr regs expose period hold) n).done = true ∧
      initHistory D bidir i2cAddr regs expose period hold (n + 1) = log := by
  obtain ⟨K, hK, hmin⟩ := groups_end D i2cAddr regs h hev
  obtain ⟨m, hm⟩ := C103_init_partial D bidir i2cAddr regs expose period hold h hp hh hrel hD K hK hmin
  refine ⟨m, _, ?_, hm⟩
  have hg : (D.groups (tableByte i2cAddr regs) (K + 1)).group = regs.length := by
    rw [I2cDev.groups]
    simp only [I2cDev.groupByte, hlast K hK.1 hK.2, if_true, if_pos hK.2]
    exact hK.1
  have := (groups_written D i2cAddr regs (K + 1) (Nat.le_of_eq hg)).1
  rw [hg] at this
  unfold tableTxns at this
  rwa [List.take_length] at this

/-- C103, for a device that acknowledges every byte of the table: in the end, and then for ever, `done` is high and the device has
been through exactly one write transaction for each register, in order, and nothing else. -/
theorem C103_acked_partial (h : regs ≠ []) (hp : 4 ≤ period) (hh : ∀ n, hold n = true → bidir = true)
    (hrel : ∀ n, ∃ m, n ≤ m ∧ hold m = false) (hD : D.Polite)
    (hack : ∀ p d, (p ++ [.wrote d true] <+: regs.flatMap (tableTxn i2cAddr)) → D.ack p d = true) :
    ∃ m, ∀ n, m ≤ n →
      ((i2cInitFull i2cAddr regs expose period).wave (initWire D bidir i2cAddr regs expose period hold) n).done = true ∧
      initHistory D bidir i2cAddr regs expose period hold (n + 1) = regs.flatMap (tableTxn i2cAddr) := by
  have hR : regs.length ≠ 0 := fun h0 => h (List.length_eq_zero_iff.mp h0)
  have hg := fun k hk => groups_acked D i2cAddr regs hD hack k hk
  obtain ⟨m, hm⟩ := C103_init_partial D bidir i2cAddr regs expose period hold h hp hh hrel hD (3 * regs.length - 1)
    (by
      obtain ⟨g1, g2, _⟩ := hg (3 * regs.length - 1) (by omega)
      rw [g1, g2]
      omega)
    (fun j hj hc => by
      obtain ⟨g1, g2, _⟩ := hg j (by omega)
      rw [g1, g2] at hc
      omega)
  refine ⟨m, fun n hn => ?_⟩
  obtain ⟨h1, h2⟩ := hm n hn
  refine ⟨h1, ?_⟩
  rw [h2, show 3 * regs.length - 1 + 1 = 3 * regs.length by omega, (hg _ (Nat.le_refl _)).2.2.2.2 (by omega)]
  unfold tableTxns
  rw [show 3 * regs.length / 3 = regs.length by omega, List.take_length]

end

/-- A device that refuses the value 0x42 the first time it is written, and nothing else. -/
def shyDev : I2cDev where
  ack log d := decide (d ≠ 0x42) || decide (DevEv.wrote 0x42 false ∈ log)
  tx _ := none

theorem shyDev_polite : shyDev.Polite := fun _ _ h => by cases h

/-- C103 does not hold: when the device refuses the last value of the table once, the value is not sent again, and `done` is high. With
another register behind it in the table, the same device would have been written again and would have acknowledged. -/
theorem C103_last_value_refuted :
    ∃ m, ∀ n, m ≤ n →
      ((i2cInitFull 0x50 [(0x10, 0x42)] false 4).wave (initWire shyDev false 0x50 [(0x10, 0x42)] false 4 (fun _ => false)) n).done = true ∧
      initHistory shyDev false 0x50 [(0x10, 0x42)] false 4 (fun _ => false) (n + 1) =
        [.start, .wrote 0xA0 true, .wrote 0x10 true, .wrote 0x42 false, .stop] ∧
      ¬ List.Sublist (tableTxn 0x50 (0x10, 0x42))
        (initHistory shyDev false 0x50 [(0x10, 0x42)] false 4 (fun _ => false) (n + 1)) ∧
      shyDev.ack (initHistory shyDev false 0x50 [(0x10, 0x42)] false 4 (fun _ => false) (n + 1)) 0x42 = true := by
  obtain ⟨m, hm⟩ := C103_init_partial shyDev false 0x50 [(0x10, 0x42)] false 4 (fun _ => false) (by simp) (by omega) (by simp)
    (fun n => ⟨n, Nat.le_refl _, rfl⟩) shyDev_polite 2 (by decide +kernel) (by decide +kernel)
  refine ⟨m, fun n hn => ?_⟩
  obtain ⟨h1, h2⟩ := hm n hn
  have e : (shyDev.groups (tableByte 0x50 [(0x10, 0x42)]) 3).dev.log =
      [.start, .wrote 0xA0 true, .wrote 0x10 true, .wrote 0x42 false, .stop] := by decide +kernel
  rw [h2, e]
  exact ⟨h1, rfl, by decide +kernel, by decide +kernel⟩

/-- With a register behind it, the refused value is sent again. -/
example : ∃ m, ∀ n, m ≤ n →
      ((i2cInitFull 0x50 [(0x10, 0x42), (0x11, 0)] false 4).wave
        (initWire shyDev false 0x50 [(0x10, 0x42), (0x11, 0)] false 4 (fun _ => false)) n).done = true ∧
      initHistory shyDev false 0x50 [(0x10, 0x42), (0x11, 0)] false 4 (fun _ => false) (n + 1) =
        [.start, .wrote 0xA0 true, .wrote 0x10 true, .wrote 0x42 false, .stop,
         .start, .wrote 0xA0 true, .wrote 0x10 true, .wrote 0x42 true, .stop,
         .start, .wrote 0xA0 true, .wrote 0x11 true, .wrote 0 true, .stop] := by
  obtain ⟨m, hm⟩ := C103_init_partial shyDev false 0x50 [(0x10, 0x42), (0x11, 0)] false 4 (fun _ => false) (by simp) (by omega)
    (by simp) (fun n => ⟨n, Nat.le_refl _, rfl⟩) shyDev_polite 8 (by decide +kernel) (by decide +kernel)
  refine ⟨m, fun n hn => ?_⟩
  obtain ⟨h1, h2⟩ := hm n hn
  exact ⟨h1, by rw [h2]; decide +kernel⟩

/-- Once the value was refused, the device acknowledges everything. -/
theorem shyDev_acks (f : Nat → BitVec 8) (r : DevGroups) (h1 : r.pos = 0 ∨ r.dev.mode = .recv)
    (h2 : DevEv.wrote 0x42 false ∈ r.dev.log) :
    shyDev.groupAck f r = true ∧ ((shyDev.groupByte f r).pos = 0 ∨ (shyDev.groupByte f r).dev.mode = .recv) ∧
      DevEv.wrote 0x42 false ∈ (shyDev.groupByte f r).dev.log := by
  obtain ⟨⟨log, mode⟩, g, p⟩ := r
  simp only at h1 h2
  replace h2 : DevEv.wrote (66#8) false ∈ log := h2
  have ha : shyDev.groupAck f ⟨⟨log, mode⟩, g, p⟩ = true := by
    rcases h1 with h | h
    · subst h
      simp [I2cDev.groupAck, I2cDev.groupAt, I2cDev.cmd, I2cDev.acks, shyDev, h2]
    · subst h
      unfold I2cDev.groupAck I2cDev.groupAt
      split <;> simp [I2cDev.cmd, I2cDev.acks, shyDev, h2]
  refine ⟨ha, ?_⟩
  have hm : (shyDev.groupAt ⟨⟨log, mode⟩, g, p⟩).mode = .recv ∧
      DevEv.wrote 0x42 false ∈ (shyDev.groupAt ⟨⟨log, mode⟩, g, p⟩).log := by
    unfold I2cDev.groupAt
    rcases h1 with h | h
    · simp [h, I2cDev.cmd, h2]
    · subst h
      split <;> simp [I2cDev.cmd, h2]
  have hk : ∀ d, (shyDev.cmd (shyDev.groupAt ⟨⟨log, mode⟩, g, p⟩) (.write d)).mode = .recv ∧
      DevEv.wrote 0x42 false ∈ (shyDev.cmd (shyDev.groupAt ⟨⟨log, mode⟩, g, p⟩) (.write d)).log := by
    intro d
    obtain ⟨m1, m2⟩ := hm
    generalize shyDev.groupAt ⟨⟨log, mode⟩, g, p⟩ = A at m1 m2
    obtain ⟨l, m⟩ := A
    simp only at m1 m2
    subst m1
    replace m2 : DevEv.wrote (66#8) false ∈ l := m2
    simp [I2cDev.cmd, I2cDev.byte, I2cDev.after, shyDev, m2]
  unfold I2cDev.groupByte
  simp only [ha, if_true]
  by_cases hp : p = 2
  · simp [hp, I2cDev.cmd]
    have := (hk (f (3 * g + p))).2
    rw [hp] at this
    exact this
  · simp only [if_neg hp]
    exact ⟨Or.inr (hk _).1, (hk _).2⟩

/-- The hypotheses on a device that refuses for a while. -/
example : ∃ m log, List.Sublist [.start, .wrote 0xA0 true, .wrote 0x10 true, .wrote 0x42 true, .stop,
      .start, .wrote 0xA0 true, .wrote 0x11 true, .wrote 0 true, .stop] log ∧ ∀ n, m ≤ n →
      ((i2cInitFull 0x50 [(0x10, 0x42), (0x11, 0)] false 4).wave
        (initWire shyDev false 0x50 [(0x10, 0x42), (0x11, 0)] false 4 (fun _ => false)) n).done = true ∧
      initHistory shyDev false 0x50 [(0x10, 0x42), (0x11, 0)] false 4 (fun _ => false) (n + 1) = log := by
  have inv : ∀ d, ((shyDev.groups (tableByte 0x50 [(0x10, 0x42), (0x11, 0)]) (3 + d)).pos = 0 ∨
      (shyDev.groups (tableByte 0x50 [(0x10, 0x42), (0x11, 0)]) (3 + d)).dev.mode = .recv) ∧
      DevEv.wrote 0x42 false ∈ (shyDev.groups (tableByte 0x50 [(0x10, 0x42), (0x11, 0)]) (3 + d)).dev.log := by
    intro d
    induction d with
    | zero => decide +kernel
    | succ d ih =>
      rw [← Nat.add_assoc]
      exact (shyDev_acks _ _ ih.1 ih.2).2
  have hall : ∀ k, 3 ≤ k → shyDev.groupAck (tableByte 0x50 [(0x10, 0x42), (0x11, 0)])
      (shyDev.groups (tableByte 0x50 [(0x10, 0x42), (0x11, 0)]) k) = true := fun k hk => by
    have := inv (k - 3)
    rw [show 3 + (k - 3) = k by omega] at this
    exact (shyDev_acks _ _ this.1 this.2).1
  have h := C103_registers_partial shyDev false 0x50 [(0x10, 0x42), (0x11, 0)] false 4 (fun _ => false) (by simp) (by omega)
    (by simp) (fun n => ⟨n, Nat.le_refl _, rfl⟩) shyDev_polite ⟨3, hall⟩ (fun k h1 h2 => by
      by_cases hk : 3 ≤ k
      · exact hall k hk
      · have : k = 0 ∨ k = 1 ∨ k = 2 := by omega
        rcases this with h | h | h <;> subst h <;> revert h1 h2 <;> decide +kernel)
  exact h

/-- A device that acknowledges everything, and holds the clock now and then. -/
example : ∃ m, ∀ n, m ≤ n →
      ((i2cInitFull 0x3C [(1, 2), (3, 4)] true 10).wave
        (initWire ⟨fun _ _ => true, fun _ => none⟩ true 0x3C [(1, 2), (3, 4)] true 10 (fun n => n % 5 == 0)) n).done = true ∧
      initHistory ⟨fun _ _ => true, fun _ => none⟩ true 0x3C [(1, 2), (3, 4)] true 10 (fun n => n % 5 == 0) (n + 1) =
        [.start, .wrote 0x78 true, .wrote 1 true, .wrote 2 true, .stop,
         .start, .wrote 0x78 true, .wrote 3 true, .wrote 4 true, .stop] :=
  C103_acked_partial ⟨fun _ _ => true, fun _ => none⟩ true 0x3C [(1, 2), (3, 4)] true 10 (fun n => n % 5 == 0) (by simp) (by omega)
    (fun _ _ => rfl) (fun n => ⟨5 * n + 1, by omega, by simp⟩) (fun _ _ h => by cases h) (fun _ _ _ => rfl)

end Lambdalib
