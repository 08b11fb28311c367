import Verif.Model.I2c
import Verif.Spec.I2c

namespace Lambdalib

/-- Driven SCL level per FSM state, and idle value of the bit counter. -/
def i2cInv (s : I2cS) : Prop :=
  match s.fsm with
  | .idle | .startSclL | .startSdaL | .stopSclL | .stopSdaH | .wAckSclL | .wAckSdaN
  | .rAckSclL | .rAckSdaN => s.sclO = true ∧ s.bitno = 0
  | .startSdaH | .stopSdaL | .wAckSdaH | .rAckSdaX => s.sclO = false ∧ s.bitno = 0
  | .startSclH | .stopSclH | .wAckSclH | .rAckSclH => s.bitno = 0
  | .wDataSclL | .wDataSdaN | .rDataSclL | .rDataSdaN => s.sclO = true ∧ s.bitno < 8
  | .wDataSdaX | .rDataSdaH => s.sclO = false ∧ s.bitno < 8
  | .wDataSclH | .rDataSclH => s.bitno < 8

theorem i2c_step (period : Nat) (stretch : Bool) (s : I2cS) (x : I2cIn) (h : i2cInv s) :
    i2cInv ((i2cInitiator period stretch).next s x) := by
  obtain ⟨fsm, busy, timer, bitno, rSh, wSh, rAck, sclO, sdaO, ackO, dataO⟩ := s
  cases fsm <;> simp only [i2cInv] at h <;>
    simp only [i2cInitiator, i2cFsm, i2cIdle, i2cSclL, i2cSclH, i2cStbX] <;>
    (repeat' split) <;> simp_all [i2cInv] <;> omega

theorem i2c_inv (period : Nat) (stretch : Bool) (i : Nat → I2cIn) (n : Nat) :
    i2cInv ((i2cInitiator period stretch).st i n) :=
  (i2cInitiator period stretch).st_invariant i2cInv ⟨rfl, rfl⟩ (i2c_step period stretch) i n

/-! ### Write -/

theorem msbBits_succ (d : BitVec 8) (b : Nat) : msbBits d (b + 1) = msbBits d b ++ [d.getLsbD (7 - b)] := by
  simp [msbBits, List.range_succ]

/-- Progress of a write of `d`: `R` lists the SDA levels at the SCL rising edges so far. -/
def wRel (d : BitVec 8) (R : List Bool) (s : I2cS) : Prop :=
  match s.fsm with
  | .wDataSclL | .wDataSdaX => s.wSh = d <<< s.bitno ∧ R = msbBits d s.bitno
  | .wDataSclH => s.wSh = d <<< s.bitno ∧ s.sdaO = d.getLsbD (7 - s.bitno) ∧
      R = msbBits d (if s.sclO then s.bitno + 1 else s.bitno)
  | .wDataSdaN => s.wSh = d <<< (s.bitno + 1) ∧ R = msbBits d (s.bitno + 1)
  | .wAckSclL | .wAckSdaH => R = msbBits d 8
  | .wAckSclH => s.sdaO = true ∧ R = msbBits d 8 ++ (if s.sclO then [true] else [])
  | .wAckSdaN => s.sdaO = true ∧ R = msbBits d 8 ++ [true]
  | _ => False

theorem shl_getLsbD7 (d : BitVec 8) (b : Nat) (hb : b < 8) :
    (d <<< b).getLsbD 7 = d.getLsbD (7 - b) := by
  rw [BitVec.getLsbD_shiftLeft]
  have : ¬ 7 < b := by omega
  simp [this]

theorem w_step (period : Nat) (stretch : Bool) (d : BitVec 8) (R : List Bool) (s : I2cS) (x : I2cIn)
    (hi : i2cInv s) (h : wRel d R s) :
    let s' := (i2cInitiator period stretch).next s x
    let R' := R ++ (if !s.sclO && s'.sclO then [s'.sdaO] else [])
    wRel d R' s' ∨ (s'.fsm = .idle ∧ s.fsm = .wAckSdaN ∧ R' = R ∧ s'.ackO = s.ackO) := by
  intro s' R'
  simp only [s', R']
  clear s' R'
  obtain ⟨fsm, busy, timer, bitno, rSh, wSh, rAck, sclO, sdaO, ackO, dataO⟩ := s
  have hs := shl_getLsbD7 d bitno
  have hm := msbBits_succ d bitno
  cases fsm <;> simp only [wRel, i2cInv] at h hi <;>
    simp only [i2cInitiator, i2cFsm, i2cSclL, i2cSclH, i2cStbX, id] <;>
    (repeat' split) <;> simp_all [wRel, BitVec.shiftLeft_add]
  have e : (bitno + 1) % 8 = bitno + 1 := by omega
  rw [e, hm, BitVec.shiftLeft_add]
  simp

section
variable (period : Nat) (stretch : Bool) (i : Nat → I2cIn)

/-- Driven SCL level. -/
abbrev i2cScl (n : Nat) : Bool := ((i2cInitiator period stretch).wave i n).sclO
/-- Driven SDA level. -/
abbrev i2cSda (n : Nat) : Bool := ((i2cInitiator period stretch).wave i n).sdaO

/-- SDA levels at the SCL rising edges in a window. -/
def i2cRises (a m : Nat) : List Bool :=
  sclRises (i2cScl period stretch i) (i2cSda period stretch i) a m

theorem i2cRises_succ (a m : Nat) :
    i2cRises period stretch i a (m + 1) = i2cRises period stretch i a m ++
      (if !((i2cInitiator period stretch).st i (a + m)).sclO &&
          ((i2cInitiator period stretch).next ((i2cInitiator period stretch).st i (a + m))
            (i (a + m))).sclO
        then [((i2cInitiator period stretch).next ((i2cInitiator period stretch).st i (a + m))
            (i (a + m))).sdaO] else []) := rfl

/-- A sampling point of the bus within a command started at cycle `k`: SCL is driven high, seen high when
stretching is supported, SDA is released, and `r` rising edges have occurred. -/
def i2cSample (k c r : Nat) : Prop :=
  k < c ∧ i2cScl period stretch i c = true ∧ (stretch = true → (i c).sclI = true) ∧
  (i2cRises period stretch i k (c - k)).length = r

theorem w_trace (k : Nat) (hidle : ((i2cInitiator period stretch).st i k).fsm = .idle)
    (hs : (i k).start = false) (hp : (i k).stop = false) (hw : (i k).write = true) (m : Nat)
    (hm : ∀ j, 1 ≤ j → j ≤ m → ((i2cInitiator period stretch).st i (k + j)).fsm ≠ .idle)
    (hm1 : 1 ≤ m) :
    wRel (i k).dataI (i2cRises period stretch i k m) ((i2cInitiator period stretch).st i (k + m)) ∧
    (((i2cInitiator period stretch).st i (k + m)).fsm = .wAckSdaN →
      ∃ c, c < k + m ∧ i2cSample period stretch i k c 9 ∧ i2cSda period stretch i c = true ∧
        ((i2cInitiator period stretch).st i (k + m)).ackO = !(i c).sdaI) := by
  induction m with
  | zero => omega
  | succ m ih =>
    rcases Nat.eq_zero_or_pos m with h0 | h0
    · subst h0
      have hinv := i2c_inv period stretch i k
      rw [i2cRises_succ]
      change wRel _ _ ((i2cInitiator period stretch).next
        ((i2cInitiator period stretch).st i (k + 0)) (i (k + 0))) ∧ _
      rw [show k + (0 + 1) = k + 1 from rfl, Circuit.st_succ]
      simp only [Nat.add_zero, i2cRises, sclRises, xferWindow_zero, List.nil_append]
      generalize (i2cInitiator period stretch).st i k = s at *
      obtain ⟨fsm, busy, timer, bitno, rSh, wSh, rAck, sclO, sdaO, ackO, dataO⟩ := s
      simp only at hidle
      subst hidle
      simp only [i2cInv] at hinv
      constructor
      · simp [i2cInitiator, i2cFsm, i2cIdle, hs, hp, hw, wRel, hinv, msbBits]
      · simp [i2cInitiator, i2cFsm, i2cIdle, hs, hp, hw]
    · obtain ⟨h1, h2⟩ := ih (fun j a b => hm j a (by omega)) h0
      have hinv := i2c_inv period stretch i (k + m)
      have hne := hm (m + 1) (by omega) (by omega)
      have hst := w_step period stretch _ _ _ (i (k + m)) hinv h1
      simp only at hst
      rw [← i2cRises_succ] at hst
      rw [show k + (m + 1) = k + m + 1 from rfl, Circuit.st_succ] at hne ⊢
      have hrel := hst.resolve_right (fun h => hne h.1)
      refine ⟨hrel, ?_⟩
      intro hf
      -- either sampled in this cycle or earlier
      have hcases : (((i2cInitiator period stretch).st i (k + m)).fsm = .wAckSdaN ∧
          ((i2cInitiator period stretch).next ((i2cInitiator period stretch).st i (k + m))
            (i (k + m))).ackO = ((i2cInitiator period stretch).st i (k + m)).ackO) ∨
          (((i2cInitiator period stretch).st i (k + m)).fsm = .wAckSclH ∧
            ((i2cInitiator period stretch).st i (k + m)).sclO = true ∧
            (stretch = true → (i (k + m)).sclI = true) ∧
            ((i2cInitiator period stretch).next ((i2cInitiator period stretch).st i (k + m))
              (i (k + m))).ackO = !(i (k + m)).sdaI) := by
        clear hst hrel h2 hinv hne hm ih
        generalize (i2cInitiator period stretch).st i (k + m) = s at *
        obtain ⟨fsm, busy, timer, bitno, rSh, wSh, rAck, sclO, sdaO, ackO, dataO⟩ := s
        generalize i (k + m) = x at *
        revert hf h1
        cases fsm <;> simp only [wRel] <;>
          simp only [i2cInitiator, i2cFsm, i2cSclL, i2cSclH, i2cStbX, id] <;>
          (repeat' split) <;> intros <;> simp_all <;>
          (cases hst : stretch <;> simp_all)
      rcases hcases with ⟨g1, g2⟩ | ⟨g1, g2, g3, g4⟩
      · obtain ⟨c, hc1, hc2, hc3, hc4⟩ := h2 g1
        exact ⟨c, by omega, hc2, hc3, by rw [g2]; exact hc4⟩
      · have hr : wRel (i k).dataI (i2cRises period stretch i k m)
          ((i2cInitiator period stretch).st i (k + m)) := h1
        unfold wRel at hr
        rw [g1] at hr
        refine ⟨k + m, by omega, ⟨by omega, g2, g3, ?_⟩, hr.1, g4⟩
        rw [show k + m - k = m by omega, hr.2, g2]
        simp [msbBits]

/-! ### Read -/

/-- Progress of a read with acknowledge `a`: `B` lists the bits sampled so far, `R` the SDA levels at
the SCL rising edges so far. -/
def rRel (a : Bool) (B R : List Bool) (s : I2cS) : Prop :=
  s.rAck = a ∧ (∀ j (hj : j < B.length), s.rSh.getLsbD (B.length - 1 - j) = B[j]) ∧
  match s.fsm with
  | .rDataSclL | .rDataSdaH => B.length = s.bitno ∧ R = List.replicate s.bitno true
  | .rDataSclH => B.length = s.bitno ∧ s.sdaO = true ∧
      R = List.replicate (if s.sclO then s.bitno + 1 else s.bitno) true
  | .rDataSdaN => B.length = s.bitno + 1 ∧ R = List.replicate (s.bitno + 1) true
  | .rAckSclL | .rAckSdaX => B.length = 8 ∧ R = List.replicate 8 true
  | .rAckSclH => B.length = 8 ∧ s.sdaO = !a ∧
      R = List.replicate 8 true ++ (if s.sclO then [!a] else [])
  | .rAckSdaN => B.length = 8 ∧ s.dataO = s.rSh ∧ R = List.replicate 8 true ++ [!a]
  | _ => False

theorem shift_in (r : BitVec 8) (B : List Bool) (b : Bool) (hl : B.length < 8)
    (h : ∀ j (hj : j < B.length), r.getLsbD (B.length - 1 - j) = B[j]) :
    ∀ j (hj : j < (B ++ [b]).length),
      ((r <<< 1) ||| (if b then 1 else 0 : BitVec 8)).getLsbD ((B ++ [b]).length - 1 - j)
        = (B ++ [b])[j] := by
  intro j hj
  simp only [List.length_append, List.length_singleton] at hj ⊢
  by_cases hjB : j < B.length
  · rw [List.getElem_append_left hjB, ← h j hjB, BitVec.getLsbD_or, BitVec.getLsbD_shiftLeft]
    obtain ⟨q, hq⟩ : ∃ q, B.length + 1 - 1 - j = q + 1 := ⟨B.length - 1 - j, by omega⟩
    have hq2 : B.length - 1 - j = q := by omega
    have hq8 : q + 1 < 8 := by omega
    rw [hq, hq2]
    have hz : (if b then 1 else 0 : BitVec 8).getLsbD (q + 1) = false := by
      cases b
      · simp
      · simp only [if_true]
        change (1#8).getLsbD (q + 1) = false
        rw [BitVec.getLsbD_one]
        simp
    rw [hz]
    simp [hq8]
  · have : j = B.length := by omega
    subst this
    rw [List.getElem_append_right (by omega)]
    simp only [Nat.add_sub_cancel, Nat.sub_self, List.getElem_cons_zero]
    rw [BitVec.getLsbD_or, BitVec.getLsbD_shiftLeft]
    cases b <;> simp

theorem r_step (a : Bool) (B R : List Bool) (s : I2cS) (x : I2cIn)
    (hi : i2cInv s) (h : rRel a B R s) :
    let s' := (i2cInitiator period stretch).next s x
    let R' := R ++ (if !s.sclO && s'.sclO then [s'.sdaO] else [])
    rRel a B R' s' ∨
    (s.sclO = true ∧ (stretch = true → x.sclI = true) ∧ s.sdaO = true ∧ R.length = B.length + 1 ∧
      rRel a (B ++ [x.sdaI]) R' s') ∨
    (s'.fsm = .idle ∧ s.fsm = .rAckSdaN ∧ R' = R ∧ s'.dataO = s.dataO) := by
  intro s' R'
  simp only [s', R']
  clear s' R'
  obtain ⟨fsm, busy, timer, bitno, rSh, wSh, rAck, sclO, sdaO, ackO, dataO⟩ := s
  obtain ⟨ha, hB, h⟩ := h
  simp only at ha hB
  cases fsm <;> simp only [i2cInv] at h hi
  case rDataSclH =>
    have hsh := shift_in rSh B x.sdaI (by omega) hB
    simp only [i2cInitiator, i2cFsm, i2cSclH]
    by_cases ht : timer = 0
    · left
      refine ⟨by simpa [ht] using ha, by simpa [ht] using hB, ?_⟩
      cases sclO <;> simp_all [List.replicate_succ']
    · cases sclO
      · left
        refine ⟨by simpa [ht] using ha, by simpa [ht] using hB, ?_⟩
        simp_all
      · by_cases hx : stretch = false ∨ x.sclI = true
        · right; left
          refine ⟨rfl, fun hst => ?_, h.2.1, by rw [h.2.2]; simp [h.1], ?_⟩
          · rcases hx with hx | hx
            · rw [hx] at hst; cases hst
            · exact hx
          have hx' : (!stretch || x.sclI == true) = true := by rcases hx with hx | hx <;> simp [hx]
          simp only [hx', if_true, ht, beq_iff_eq, if_false]
          refine ⟨ha, hsh, ?_⟩
          simp_all
        · left
          have hx' : (!stretch || x.sclI == true) = false := by
            cases stretch <;> cases hs : x.sclI <;> simp_all
          simp only [hx', if_true, ht, beq_iff_eq, if_false]
          refine ⟨ha, hB, ?_⟩
          simp_all
  case rDataSdaN =>
    left
    simp only [i2cInitiator, i2cFsm, i2cStbX]
    by_cases ht : timer = 0
    · refine ⟨by simpa [ht] using ha, by simpa [ht] using hB, ?_⟩
      by_cases hb : bitno = 7
      · simp_all
      · have e : (bitno + 1) % 8 = bitno + 1 := by omega
        simp [hb, ht, e, h]
    · refine ⟨by simpa [ht] using ha, by simpa [ht] using hB, ?_⟩
      simp_all
  all_goals
    simp only [i2cInitiator, i2cFsm, i2cSclL, i2cSclH, i2cStbX, id] <;>
    (repeat' split) <;> simp_all [rRel]

theorem r_trace (k : Nat) (hidle : ((i2cInitiator period stretch).st i k).fsm = .idle)
    (hs : (i k).start = false) (hp : (i k).stop = false) (hw : (i k).write = false)
    (hr : (i k).read = true) (m : Nat)
    (hm : ∀ j, 1 ≤ j → j ≤ m → ((i2cInitiator period stretch).st i (k + j)).fsm ≠ .idle)
    (hm1 : 1 ≤ m) :
    ∃ C : List Nat, rRel (i k).ackI (C.map fun c => (i c).sdaI) (i2cRises period stretch i k m)
        ((i2cInitiator period stretch).st i (k + m)) ∧
      ∀ j (hj : j < C.length), C[j] < k + m ∧ i2cSample period stretch i k C[j] (j + 1) ∧
        i2cSda period stretch i C[j] = true := by
  induction m with
  | zero => omega
  | succ m ih =>
    rcases Nat.eq_zero_or_pos m with h0 | h0
    · subst h0
      refine ⟨[], ?_, by simp⟩
      have hinv := i2c_inv period stretch i k
      rw [i2cRises_succ]
      rw [show k + (0 + 1) = k + 1 from rfl, Circuit.st_succ]
      simp only [Nat.add_zero, i2cRises, sclRises, xferWindow_zero, List.nil_append]
      generalize (i2cInitiator period stretch).st i k = s at *
      obtain ⟨fsm, busy, timer, bitno, rSh, wSh, rAck, sclO, sdaO, ackO, dataO⟩ := s
      simp only at hidle
      subst hidle
      simp only [i2cInv] at hinv
      refine ⟨?_, by simp, ?_⟩ <;>
        simp [i2cInitiator, i2cFsm, i2cIdle, hs, hp, hw, hr, hinv]
    · obtain ⟨C, h1, h2⟩ := ih (fun j a b => hm j a (by omega)) h0
      have hinv := i2c_inv period stretch i (k + m)
      have hne := hm (m + 1) (by omega) (by omega)
      have hst := r_step period stretch _ _ _ _ (i (k + m)) hinv h1
      simp only at hst
      rw [← i2cRises_succ] at hst
      rw [show k + (m + 1) = k + m + 1 from rfl, Circuit.st_succ] at hne ⊢
      rcases hst with hst | ⟨g1, g2, g3, g4, g5⟩ | hst
      · exact ⟨C, hst, fun j hj => ⟨by have := (h2 j hj).1; omega, (h2 j hj).2⟩⟩
      · refine ⟨C ++ [k + m], by simpa using g5, ?_⟩
        intro j hj
        simp only [List.length_append, List.length_singleton] at hj
        by_cases hjC : j < C.length
        · rw [List.getElem_append_left hjC]
          exact ⟨by have := (h2 j hjC).1; omega, (h2 j hjC).2⟩
        · have : j = C.length := by omega
          subst this
          rw [List.getElem_append_right (by omega)]
          simp only [Nat.sub_self, List.getElem_cons_zero]
          refine ⟨by omega, ⟨by omega, g1, g2, ?_⟩, g3⟩
          rw [show k + m - k = m by omega, g4]
          simp
      · exact absurd hst.1 hne
end

/-! ### Commands -/

/-- The command requested by the strobes, i2c.py 192-213: start, stop, write and read by decreasing
priority. -/
def i2cStrobe (x : I2cIn) : Option I2cCmd :=
  if x.start then some .start
  else if x.stop then some .stop
  else if x.write then some (.write x.dataI)
  else if x.read then some (.read x.ackI) else none

/-- The kind of command each FSM state belongs to. -/
def i2cKind : I2cSt → I2cCmd → Prop
  | .idle, _ => False
  | .startSclL, c | .startSdaH, c | .startSclH, c | .startSdaL, c => c = .start
  | .stopSclL, c | .stopSdaL, c | .stopSclH, c | .stopSdaH, c => c = .stop
  | .wDataSclL, c | .wDataSdaX, c | .wDataSclH, c | .wDataSdaN, c
  | .wAckSclL, c | .wAckSdaH, c | .wAckSclH, c | .wAckSdaN, c => ∃ d, c = .write d
  | .rDataSclL, c | .rDataSdaH, c | .rDataSclH, c | .rDataSdaN, c
  | .rAckSclL, c | .rAckSdaX, c | .rAckSclH, c | .rAckSdaN, c => ∃ a, c = .read a

section
variable (period : Nat) (stretch : Bool) (i : Nat → I2cIn)

/-- The core is waiting for a command in cycle `n`. -/
def i2cIdleAt (n : Nat) : Prop := ((i2cInitiator period stretch).st i n).fsm = .idle

/-- The core takes command `c` in cycle `n`. -/
def i2cAccepts (n : Nat) (c : I2cCmd) : Prop :=
  i2cIdleAt period stretch i n ∧ i2cStrobe (i n) = some c

/-- The core executes, in cycle `n`, command `c` taken in cycle `k`. -/
def i2cExecutes (k n : Nat) (c : I2cCmd) : Prop :=
  i2cAccepts period stretch i k c ∧ k < n ∧
    ∀ j, k < j → j ≤ n → ¬ i2cIdleAt period stretch i j

theorem i2cKind_step (s : I2cS) (x : I2cIn) (c : I2cCmd) (h : i2cKind s.fsm c) :
    ((i2cInitiator period stretch).next s x).fsm = .idle ∨
      i2cKind ((i2cInitiator period stretch).next s x).fsm c := by
  obtain ⟨fsm, busy, timer, bitno, rSh, wSh, rAck, sclO, sdaO, ackO, dataO⟩ := s
  cases fsm <;> simp only [i2cKind] at h <;>
    simp only [i2cInitiator, i2cFsm, i2cIdle, i2cSclL, i2cSclH, i2cStbX, id] <;>
    (repeat' split) <;> simp_all [i2cKind]

theorem i2cKind_idle (s : I2cS) (x : I2cIn) (h : s.fsm = .idle) :
    match i2cStrobe x with
    | none => ((i2cInitiator period stretch).next s x).fsm = .idle
    | some c => i2cKind ((i2cInitiator period stretch).next s x).fsm c := by
  simp only [i2cInitiator, i2cFsm, h, i2cIdle, i2cStrobe]
  cases x.start <;> cases x.stop <;> cases x.write <;> cases x.read <;>
    cases x.sclI <;> cases x.sdaI <;> cases s.sdaO <;> simp [i2cKind]

/-- Outside the waiting state, exactly the most recently taken command is being executed. -/
theorem i2c_executes (n : Nat) (h : ¬ i2cIdleAt period stretch i n) :
    ∃ k c, i2cExecutes period stretch i k n c ∧
      i2cKind ((i2cInitiator period stretch).st i n).fsm c := by
  induction n with
  | zero => exact absurd rfl h
  | succ n ih =>
    by_cases hi : i2cIdleAt period stretch i n
    · have hk := i2cKind_idle period stretch _ (i n) hi
      cases hs : i2cStrobe (i n) with
      | none => rw [hs] at hk; exact absurd hk h
      | some c =>
        rw [hs] at hk
        refine ⟨n, c, ⟨⟨hi, hs⟩, by omega, ?_⟩, hk⟩
        intro j h1 h2
        have : j = n + 1 := by omega
        rw [this]; exact h
    · obtain ⟨k, c, ⟨h1, h2, h3⟩, h4⟩ := ih hi
      refine ⟨k, c, ⟨h1, by omega, ?_⟩, ?_⟩
      · intro j hj1 hj2
        rcases Nat.lt_or_ge j (n + 1) with hj | hj
        · exact h3 j hj1 (by omega)
        · have : j = n + 1 := by omega
          rw [this]; exact h
      · exact (i2cKind_step period stretch _ (i n) c h4).resolve_left h

/-! ### Start and stop conditions -/

/-- Conditions signalled between `a` and `a + m`: each change of the driven SDA while SCL is driven high
before and after, recorded by its new level (false: start condition, true: stop condition). -/
def i2cConds (a m : Nat) : List Bool :=
  busConds (i2cScl period stretch i) (i2cSda period stretch i) a m

theorem i2cConds_succ (a m : Nat) :
    i2cConds period stretch i a (m + 1) = i2cConds period stretch i a m ++
      (if (((i2cInitiator period stretch).st i (a + m)).sclO &&
          ((i2cInitiator period stretch).next ((i2cInitiator period stretch).st i (a + m))
            (i (a + m))).sclO) &&
          (((i2cInitiator period stretch).st i (a + m)).sdaO !=
          ((i2cInitiator period stretch).next ((i2cInitiator period stretch).st i (a + m))
            (i (a + m))).sdaO)
        then [((i2cInitiator period stretch).next ((i2cInitiator period stretch).st i (a + m))
            (i (a + m))).sdaO] else []) := rfl

/-- Progress of a command with respect to the signalled conditions `C`. -/
def cRel (C : List Bool) (s : I2cS) : Prop :=
  C = [] ∧
  match s.fsm with
  | .idle => False
  | .startSclH | .startSdaL => s.sdaO = true
  | .stopSclH | .stopSdaH => s.sdaO = false
  | _ => True

/-- Conditions a command must signal. -/
def i2cCmdConds : I2cCmd → List Bool
  | .start => [false]
  | .stop => [true]
  | _ => []

theorem c_step (c : I2cCmd) (C : List Bool) (s : I2cS) (x : I2cIn)
    (hi : i2cInv s) (hk : i2cKind s.fsm c) (h : cRel C s) :
    let s' := (i2cInitiator period stretch).next s x
    let C' := C ++ (if (s.sclO && s'.sclO) && (s.sdaO != s'.sdaO) then [s'.sdaO] else [])
    cRel C' s' ∨ (s'.fsm = .idle ∧ C' = i2cCmdConds c) := by
  intro s' C'
  simp only [s', C']
  clear s' C'
  obtain ⟨fsm, busy, timer, bitno, rSh, wSh, rAck, sclO, sdaO, ackO, dataO⟩ := s
  obtain ⟨hC, h⟩ := h
  subst hC
  cases fsm <;> simp only [i2cInv, i2cKind] at h hi hk <;>
    simp only [i2cInitiator, i2cFsm, i2cIdle, i2cSclL, i2cSclH, i2cStbX, id] <;>
    (repeat' split) <;> simp_all [cRel, i2cCmdConds] <;>
    first
    | (obtain ⟨d, rfl⟩ := hk; rfl; done)
    | (rcases hk with h | h <;> rw [h])

theorem c_trace (k : Nat) (c : I2cCmd) (ha : i2cAccepts period stretch i k c)
    (h1 : c = .start → (i k).sclI = true ∧
      ((i k).sdaI = true → i2cSda period stretch i k = true))
    (h2 : c = .stop → (i k).sclI = true) (m : Nat)
    (hm : ∀ j, 1 ≤ j → j ≤ m → ¬ i2cIdleAt period stretch i (k + j)) (hm1 : 1 ≤ m) :
    cRel (i2cConds period stretch i k m) ((i2cInitiator period stretch).st i (k + m)) ∧
      i2cKind ((i2cInitiator period stretch).st i (k + m)).fsm c := by
  induction m with
  | zero => omega
  | succ m ih =>
    rcases Nat.eq_zero_or_pos m with h0 | h0
    · subst h0
      obtain ⟨hidle, hs⟩ := ha
      have hk := i2cKind_idle period stretch _ (i k) hidle
      rw [hs] at hk
      have hinv := i2c_inv period stretch i k
      rw [i2cConds_succ]
      rw [show k + (0 + 1) = k + 1 from rfl, Circuit.st_succ]
      refine ⟨?_, hk⟩
      clear hk
      simp only [Nat.add_zero, i2cConds, busConds, xferWindow_zero, List.nil_append]
      simp only [i2cIdleAt, i2cSda, Circuit.wave] at hidle h1
      generalize (i2cInitiator period stretch).st i k = s at *
      generalize i k = x at *
      obtain ⟨fsm, busy, timer, bitno, rSh, wSh, rAck, sclO, sdaO, ackO, dataO⟩ := s
      simp only at hidle
      subst hidle
      simp only [i2cInv] at hinv
      simp only [i2cInitiator, i2cFsm, i2cIdle] at h1 ⊢
      unfold i2cStrobe at hs
      (repeat' split) <;> simp_all [cRel] <;> (try subst hs) <;> simp_all
    · obtain ⟨g1, g2⟩ := ih (fun j a b => hm j a (by omega)) h0
      have hinv := i2c_inv period stretch i (k + m)
      have hne := hm (m + 1) (by omega) (by omega)
      have hst := c_step period stretch c _ _ (i (k + m)) hinv g2 g1
      have hks := i2cKind_step period stretch _ (i (k + m)) c g2
      simp only at hst
      rw [← i2cConds_succ] at hst
      simp only [i2cIdleAt] at hne
      rw [show k + (m + 1) = k + m + 1 from rfl, Circuit.st_succ] at hne ⊢
      exact ⟨hst.resolve_right (fun h => hne h.1), hks.resolve_left hne⟩

/-! ### Termination -/

/-- Remaining FSM steps of a command. -/
def i2cRank (s : I2cS) : Nat :=
  match s.fsm with
  | .idle => 0
  | .startSclL | .stopSclL | .wAckSclL | .rAckSclL => 4
  | .startSdaH | .stopSdaL | .wAckSdaH | .rAckSdaX => 3
  | .startSclH | .stopSclH | .wAckSclH | .rAckSclH => 2
  | .startSdaL | .stopSdaH | .wAckSdaN | .rAckSdaN => 1
  | .wDataSclL | .rDataSclL => 4 * (8 - s.bitno) + 4
  | .wDataSdaX | .rDataSdaH => 4 * (8 - s.bitno) + 3
  | .wDataSclH | .rDataSclH => 4 * (8 - s.bitno) + 2
  | .wDataSdaN | .rDataSdaN => 4 * (8 - s.bitno) + 1

/-- States waiting for SCL to rise. -/
def i2cIsSclH : I2cSt → Bool
  | .startSclH | .stopSclH | .wAckSclH | .rAckSclH | .wDataSclH | .rDataSclH => true
  | _ => false

/-- Remaining useful cycles in the current FSM state. -/
def i2cWait (s : I2cS) : Nat :=
  if i2cIsSclH s.fsm then (if s.sclO then (if s.timer = 0 then 2 else 1) else s.timer + 3)
  else s.timer + 1

/-- Termination measure of a command, `q` is the quarter period. -/
def i2cMeasure (q : Nat) (s : I2cS) : Nat := i2cRank s * (q + 4) + i2cWait s

theorem i2cTimer_le (q : Nat) (hq : truncRange period (period / 4) = q) (s : I2cS) (x : I2cIn)
    (h : s.timer ≤ q) : ((i2cInitiator period stretch).next s x).timer ≤ q := by
  simp only [i2cInitiator, i2cTimer, hq]
  (repeat' split) <;> omega

theorem i2cTimer_inv (q : Nat) (hq : truncRange period (period / 4) = q) (n : Nat) :
    ((i2cInitiator period stretch).st i n).timer ≤ q :=
  (i2cInitiator period stretch).st_invariant (fun s => s.timer ≤ q) (Nat.zero_le _)
    (fun s x h => i2cTimer_le period stretch q hq s x h) i n

/-- busy is set outside the waiting state -/
theorem i2cBusy_inv (n : Nat) (h : ¬ i2cIdleAt period stretch i n) :
    ((i2cInitiator period stretch).st i n).busy = true := by
  have := (i2cInitiator period stretch).st_invariant (fun s => s.fsm ≠ .idle → s.busy = true)
    (fun h => absurd rfl h) ?_ i n
  · exact this h
  · intro s x hs
    obtain ⟨fsm, busy, timer, bitno, rSh, wSh, rAck, sclO, sdaO, ackO, dataO⟩ := s
    cases fsm <;>
      simp only [i2cInitiator, i2cFsm, i2cIdle, i2cSclL, i2cSclH, i2cStbX, id] <;>
      (repeat' split) <;> simp_all

theorem i2cWait_le (q : Nat) (hq1 : 1 ≤ q) (s : I2cS) (h : s.timer ≤ q) : i2cWait s ≤ q + 3 := by
  unfold i2cWait
  (repeat' split) <;> omega

/-- A state which is not waiting for SCL advances on the timer strobe. -/
theorem i2cRank_stb (s : I2cS) (x : I2cIn) (ht : s.timer = 0) (hi : i2cInv s)
    (hh : i2cIsSclH s.fsm = false) (hne : s.fsm ≠ .idle) :
    i2cRank ((i2cInitiator period stretch).next s x) < i2cRank s := by
  obtain ⟨fsm, busy, timer, bitno, rSh, wSh, rAck, sclO, sdaO, ackO, dataO⟩ := s
  simp only at ht
  subst ht
  cases fsm <;> simp only [i2cInv, i2cIsSclH, reduceCtorEq, ne_eq, not_true_eq_false] at hi hh hne <;>
    simp only [i2cInitiator, i2cFsm, i2cSclL, i2cStbX, i2cRank, beq_self_eq_true, if_true] <;>
    try omega
  all_goals
    by_cases h7 : bitno = 7 <;> simp [h7] <;> omega

/-- A state which is not waiting for SCL holds without timer strobe. -/
theorem i2cHold (s : I2cS) (x : I2cIn) (ht : s.timer ≠ 0)
    (hh : i2cIsSclH s.fsm = false) (hne : s.fsm ≠ .idle) :
    (i2cInitiator period stretch).next s x = { s with timer := i2cTimer period stretch s x } := by
  obtain ⟨fsm, busy, timer, bitno, rSh, wSh, rAck, sclO, sdaO, ackO, dataO⟩ := s
  simp only at ht
  cases fsm <;> simp only [i2cIsSclH, reduceCtorEq, ne_eq, not_true_eq_false] at hh hne <;>
    simp [i2cInitiator, i2cFsm, i2cSclL, i2cStbX, ht]

/-- A state waiting for SCL. -/
theorem i2cSclH_next (s : I2cS) (x : I2cIn) (hh : i2cIsSclH s.fsm = true) :
    (s.timer = 0 → (i2cInitiator period stretch).next s x =
      { s with sclO := true, timer := i2cTimer period stretch s x }) ∧
    (s.timer ≠ 0 → s.sclO = false → (i2cInitiator period stretch).next s x =
      { s with timer := i2cTimer period stretch s x }) ∧
    (s.timer ≠ 0 → s.sclO = true → stretch = true → x.sclI = false →
      (i2cInitiator period stretch).next s x = { s with timer := i2cTimer period stretch s x }) ∧
    (s.timer ≠ 0 → s.sclO = true → (stretch = false ∨ x.sclI = true) →
      i2cRank ((i2cInitiator period stretch).next s x) < i2cRank s) := by
  obtain ⟨fsm, busy, timer, bitno, rSh, wSh, rAck, sclO, sdaO, ackO, dataO⟩ := s
  cases fsm <;> simp only [i2cIsSclH, reduceCtorEq] at hh <;>
    refine ⟨?_, ?_, ?_, ?_⟩ <;> intros <;>
    simp_all [i2cInitiator, i2cFsm, i2cSclH, i2cRank]

theorem i2cMeasure_timer (q : Nat) (s : I2cS) (t : Nat) :
    i2cMeasure q { s with timer := t } = i2cRank s * (q + 4) +
      (if i2cIsSclH s.fsm then (if s.sclO then (if t = 0 then 2 else 1) else t + 3) else t + 1) := rfl

theorem i2cMeasure_step (q : Nat) (hq : truncRange period (period / 4) = q) (hq1 : 1 ≤ q)
    (s : I2cS) (x : I2cIn) (hb : s.busy = true) (hi : i2cInv s) (ht : s.timer ≤ q)
    (hne : s.fsm ≠ .idle) :
    i2cMeasure q ((i2cInitiator period stretch).next s x) < i2cMeasure q s ∨
      (i2cMeasure q ((i2cInitiator period stretch).next s x) = i2cMeasure q s ∧
        stretch = true ∧ x.sclI ≠ s.sclO) := by
  have key : ∀ a b c d : Nat, a < b → c ≤ q + 3 → a * (q + 4) + c < b * (q + 4) + d := by
    intro a b c d hab hc
    have := Nat.mul_le_mul_right (q + 4) (show a + 1 ≤ b from hab)
    rw [Nat.add_mul] at this
    omega
  have hw := i2cWait_le q hq1 _ (i2cTimer_le period stretch q hq s x ht)
  have htm : i2cTimer period stretch s x = (if s.timer = 0 then q
      else if stretch = false ∨ s.sclO = x.sclI then s.timer - 1 else s.timer) := by
    simp [i2cTimer, hb, hq]
  cases hh : i2cIsSclH s.fsm
  · by_cases h0 : s.timer = 0
    · left
      exact key _ _ _ _ (i2cRank_stb period stretch s x h0 hi hh hne) hw
    · rw [i2cHold period stretch s x h0 hh hne, i2cMeasure_timer, htm, if_neg h0]
      simp only [i2cMeasure, i2cWait, hh, Bool.false_eq_true, if_false]
      generalize i2cRank s * (q + 4) = r
      by_cases hg : stretch = false ∨ s.sclO = x.sclI
      · left; rw [if_pos hg]; omega
      · right
        have : stretch = true := by cases stretch <;> simp_all
        refine ⟨by rw [if_neg hg], this, fun h => hg (Or.inr h.symm)⟩
  · obtain ⟨n1, n2, n3, n4⟩ := i2cSclH_next period stretch s x hh
    by_cases h0 : s.timer = 0
    · rw [n1 h0]
      left
      have hr : ∀ t, i2cRank { s with sclO := true, timer := t } = i2cRank s := fun _ => rfl
      have hq0 : ¬ q = 0 := by omega
      simp only [i2cMeasure, hr, i2cWait, hh, htm, h0]
      cases s.sclO <;> simp [hq0]
    · cases hs : s.sclO
      · rw [n2 h0 hs, i2cMeasure_timer, htm, if_neg h0]
        simp only [i2cMeasure, i2cWait, hh, hs, Bool.false_eq_true, if_true, if_false]
        generalize i2cRank s * (q + 4) = r
        by_cases hg : stretch = false ∨ false = x.sclI
        · left; rw [if_pos hg]; omega
        · right
          have : stretch = true := by cases stretch <;> simp_all
          refine ⟨by rw [if_neg hg], this, fun h => hg (Or.inr h.symm)⟩
      · by_cases hg : stretch = false ∨ x.sclI = true
        · left
          exact key _ _ _ _ (n4 h0 hs hg) hw
        · right
          have hst : stretch = true := by cases stretch <;> simp_all
          have hx : x.sclI = false := by cases h : x.sclI <;> simp_all
          rw [n3 h0 hs hst hx, i2cMeasure_timer, htm, if_neg h0]
          simp [i2cMeasure, i2cWait, hh, h0, hs, hst, hx]

theorem i2cMeasure_bound (q : Nat) (hq1 : 1 ≤ q) (s : I2cS) (ht : s.timer ≤ q) :
    i2cMeasure q s ≤ 36 * (q + 4) + (q + 3) := by
  have h1 := i2cWait_le q hq1 s ht
  have h2 : i2cRank s ≤ 36 := by
    unfold i2cRank
    split <;> omega
  have := Nat.mul_le_mul_right (q + 4) h2
  unfold i2cMeasure
  omega

/-- A cycle in which the bus clock follows the driven clock. -/
def i2cClockFollows (n : Nat) : Prop := stretch = true → (i n).sclI = i2cScl period stretch i n

/-- Within `m` cycles without return to the waiting state the measure decreased by the number of good
cycles, counted by `g`. -/
theorem i2c_progress (q : Nat) (hq : truncRange period (period / 4) = q) (hq1 : 1 ≤ q)
    (k b : Nat) (hinf : ∀ n, ∃ m, n ≤ m ∧ i2cClockFollows period stretch i m)
    (hb : i2cMeasure q ((i2cInitiator period stretch).st i k) ≤ b) :
    ∃ m, k ≤ m ∧ i2cIdleAt period stretch i m := by
  induction b using Nat.strongRecOn generalizing k with
  | ind b ih =>
    obtain ⟨m, hm, hg⟩ := hinf k
    -- walk to cycle m
    have walk : ∀ d, (∃ m, k ≤ m ∧ i2cIdleAt period stretch i m) ∨
        i2cMeasure q ((i2cInitiator period stretch).st i (k + d)) ≤ b := by
      intro d
      induction d with
      | zero => right; exact hb
      | succ d ihd =>
        rcases ihd with h | h
        · left; exact h
        · by_cases hid : i2cIdleAt period stretch i (k + d)
          · left; exact ⟨k + d, by omega, hid⟩
          · right
            have := i2cMeasure_step period stretch q hq hq1 _ (i (k + d))
              (i2cBusy_inv period stretch i _ hid) (i2c_inv period stretch i _)
              (i2cTimer_inv period stretch i q hq _) hid
            rw [show k + (d + 1) = k + d + 1 from rfl, Circuit.st_succ]
            omega
    rcases walk (m - k) with h | h
    · exact h
    · rw [show k + (m - k) = m by omega] at h
      by_cases hid : i2cIdleAt period stretch i m
      · exact ⟨m, hm, hid⟩
      · have hst := i2cMeasure_step period stretch q hq hq1 _ (i m)
          (i2cBusy_inv period stretch i _ hid) (i2c_inv period stretch i _)
          (i2cTimer_inv period stretch i q hq _) hid
        have hlt : i2cMeasure q ((i2cInitiator period stretch).st i (m + 1)) < b := by
          rw [Circuit.st_succ]
          rcases hst with hst | ⟨_, h1, h2⟩
          · omega
          · exact absurd (hg h1) h2
        obtain ⟨m', h1, h2⟩ := ih _ hlt (m + 1) (Nat.le_refl _)
        exact ⟨m', by omega, h2⟩

theorem i2c_progress_bound (q : Nat) (hq : truncRange period (period / 4) = q) (hq1 : 1 ≤ q)
    (k b : Nat) (hg : ∀ n, i2cClockFollows period stretch i n)
    (hb : i2cMeasure q ((i2cInitiator period stretch).st i k) ≤ b) :
    ∃ m, k ≤ m ∧ m ≤ k + b ∧ i2cIdleAt period stretch i m := by
  induction b generalizing k with
  | zero =>
    have : 0 < i2cWait ((i2cInitiator period stretch).st i k) := by
      unfold i2cWait; (repeat' split) <;> omega
    unfold i2cMeasure at hb
    omega
  | succ b ih =>
    by_cases hid : i2cIdleAt period stretch i k
    · exact ⟨k, by omega, by omega, hid⟩
    · have hst := i2cMeasure_step period stretch q hq hq1 _ (i k)
          (i2cBusy_inv period stretch i _ hid) (i2c_inv period stretch i _)
          (i2cTimer_inv period stretch i q hq _) hid
      have hlt : i2cMeasure q ((i2cInitiator period stretch).st i (k + 1)) ≤ b := by
        rw [Circuit.st_succ]
        rcases hst with hst | ⟨_, h1, h2⟩
        · omega
        · exact absurd (hg k h1) h2
      obtain ⟨m, h1, h2, h3⟩ := ih (k + 1) hlt
      exact ⟨m, by omega, by omega, h3⟩

theorem i2c_quarter (hp : 4 ≤ period) : truncRange period (period / 4) = period / 4 :=
  truncRange_of_lt (by omega)
end

end Lambdalib
