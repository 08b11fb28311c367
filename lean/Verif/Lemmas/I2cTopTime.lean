import Verif.Lemmas.I2cTime
import Verif.Props.I2cHost

/-! How long `I2CProto` takes for the bytes of a write command (C107). -/

namespace Lambdalib

/-- Complete commands are complete for the host. -/
theorem ok_complete {a b c} (h : ProtoOk a b c) : ProtoComplete a := by
  have wr : ∀ (h : BitVec 8) (data : List (BitVec 8)), h.getLsbD 0 = false → data.length < 256 →
      ProtoComplete ([h, BitVec.ofNat 8 data.length] ++ data) := by
    intro h data hh hl
    have hln : (BitVec.ofNat 8 data.length).toNat = data.length := by simp; omega
    unfold ProtoComplete protoPhase
    rw [List.foldl_append]
    simp only [List.foldl_cons, List.foldl_nil, protoPhaseStep, hh, hln]
    by_cases h0 : data.length = 0
    · rw [List.length_eq_zero_iff] at h0
      subst h0
      exact ⟨none, rfl⟩
    · rw [if_neg (by simp), if_neg h0, phase_data _ _ (Nat.le_refl _), if_pos ⟨rfl, by omega⟩]
      exact ⟨none, rfl⟩
  cases h with
  | probe h hw => exact wr h [] hw (by simp)
  | write h pre b hw hl =>
    have := wr h (pre ++ [b]) hw (by simpa using hl)
    simpa using this
  | writeNakAddr h data hw hl => exact wr h data hw hl
  | writeNak h pre b post hw hl =>
    have := wr h (pre ++ [b] ++ post) hw (by simp; omega)
    simpa [Nat.add_comm, Nat.add_left_comm, Nat.add_assoc] using this
  | read h pre b hr hl => exact ⟨_, by simp only [protoPhase, List.foldl_cons, List.foldl_nil, protoPhaseStep, hr]; rfl⟩
  | readNak h len hr hl => exact ⟨_, by simp only [protoPhase, List.foldl_cons, List.foldl_nil, protoPhaseStep, hr]; rfl⟩

theorem seq_complete {a b c} (h : ProtoSeq a b c) : ProtoComplete a := by
  induction h with
  | nil => exact ⟨none, rfl⟩
  | snoc _ hok ih => exact phase_append _ _ ih (ok_complete hok)

/-- The host has the data bytes of a write command that are missing. -/
theorem data_left (w t : List (BitVec 8)) (r : Nat) (h : protoPhase w = .data r) (hr : r ≠ 0) (hc : ProtoComplete (w ++ t)) : r ≤ t.length := by
  apply Decidable.byContradiction
  intro hn
  obtain ⟨rd, hc⟩ := hc
  unfold protoPhase at h hc
  rw [List.foldl_append, h, phase_data t r (by omega), if_neg (by omega)] at hc
  cases hc

section
variable (period : Nat) (stretch : Bool)

/-- Times of the bytes of a write command: `A` are the bytes taken from the host, `n` is the current cycle. -/
def protoClock (A : Nat → List (BitVec 8)) (n : Nat) (s : I2cProtoS) : Prop :=
  match s.fsm with
  | .addr => ∃ t, t ≤ n ∧ A t = A n ∧ i2cByteTime period ≤ (n - t) + strLeft period s.str
  | .write => ∃ t a h pre, t ≤ n ∧ A t = a ++ [h, BitVec.ofNat 8 (s.len + pre.length)] ∧ A n = A t ++ pre ∧ ProtoComplete a ∧
      h.getLsbD 0 = false ∧ s.len + pre.length < 256 ∧ (pre.length + 2) * i2cByteTime period ≤ (n - t) + strLeft period s.str
  | .error => ∀ rem, protoPhase (A n) = .data rem → ∃ t a h pre, t ≤ n ∧ A t = a ++ [h, BitVec.ofNat 8 (s.len + pre.length)] ∧
      A n = A t ++ pre ∧ ProtoComplete a ∧ h.getLsbD 0 = false ∧ s.len + pre.length < 256 ∧ i2cByteTime period ≤ n - t
  | _ => True

theorem str_starts (s : I2cStrS) (x : I2cStrIn) (h : s.fsm ≠ .waitWrite) (hx : x.valid = false) :
    strLeft period ((i2cStream period stretch).next s x) = i2cByteTime period := by
  rw [strLeft, if_neg]
  change i2cStrFsm s x ≠ .waitWrite
  obtain ⟨fsm, lastR, core⟩ := s
  cases fsm <;> simp only [i2cStrFsm] <;> (repeat' split) <;> simp_all

theorem protoDec_eq (len : Nat) (h1 : 1 ≤ len) (h2 : len < 256) : i2cProtoDec len = len - 1 := by
  unfold i2cProtoDec; omega

set_option maxHeartbeats 1000000 in
theorem clock_step (A : Nat → List (BitVec 8)) (n : Nat) (s : I2cProtoS) (x : I2cProtoIn) {B R Dl}
    (hrel : protoRel (A n) B R Dl s) (hi : strTimeInv period s.str) (hA : A (n + 1) = A n ++ protoAcc period stretch s x)
    (ht : (∃ rem, protoPhase (A n) = .data rem) → s.fsm ≠ .addr → x.valid = true) (hK : protoClock period A n s) :
    protoClock period A (n + 1) ((i2cProto period stretch).next s x) := by
  have hst := strLeft_step period stretch s.str (i2cProtoStrIn s x) hi
  have hrd := strLeft_ready period stretch s.str (i2cProtoStrIn s x) hi
  have hbe := str_starts period stretch s.str (i2cProtoStrIn s x)
  have hn : (i2cProto period stretch).next s x = { i2cProtoFsm s x ((i2cStream period stretch).out s.str (i2cProtoStrIn s x)) with
    str := (i2cStream period stretch).next s.str (i2cProtoStrIn s x) } := rfl
  have ho : ((i2cProto period stretch).out s x).ready = (s.fsm == .header || s.fsm == .length ||
      (s.fsm == .write && ((i2cStream period stretch).out s.str (i2cProtoStrIn s x)).ready) || (s.fsm == .error && decide (s.len ≥ 1))) := rfl
  rw [hn]
  unfold protoAcc at hA
  rw [ho] at hA
  have hpay : (i2cProtoStrIn s x).beat.payload.1 = (s.fsm == .read) := rfl
  have hsv : (i2cProtoStrIn s x).valid = (s.fsm == .addr || s.fsm == .read || s.fsm == .write) := rfl
  rw [hpay] at hrd
  rw [hsv] at hbe
  obtain ⟨hww, _, a, b, c, d, hseq, _, hrel⟩ := hrel
  have hac := seq_complete hseq.seq
  generalize hso : (i2cStream period stretch).out s.str (i2cProtoStrIn s x) = o at *
  generalize hsn : (i2cStream period stretch).next s.str (i2cProtoStrIn s x) = str' at *
  clear hso hsn hn ho hpay hsv hseq
  obtain ⟨fsm, header, len, status, str⟩ := s
  unfold protoClock i2cProtoFsm
  cases fsm <;> simp only [protoClock] at hK hrel hww hA hrd hbe ht hst ⊢
  case header => cases hv : x.valid <;> simp
  case length =>
    cases hv : x.valid <;> simp only [Bool.false_eq_true, if_false, if_true]
    · refine ⟨n + 1, Nat.le_refl _, rfl, ?_⟩
      rw [hbe (fun h => by simpa using hww h) rfl]
      omega
  case addr =>
    obtain ⟨t, ht1, ht2, ht3⟩ := hK
    obtain ⟨g1, _, _, g4, g5⟩ := hrel
    have hA : A (n + 1) = A n := by rw [hA]; simp
    cases hor : o.ready
    · simp only [Bool.false_eq_true, if_false]
      exact ⟨t, by omega, by rw [hA, ht2], by omega⟩
    · obtain ⟨r1, r2⟩ := hrd rfl hor
      simp only [if_true]
      cases hoe : o.error
      · simp only [Bool.false_eq_true, if_false]
        cases hh : header.getLsbD 0
        · simp only [Bool.false_eq_true, if_false]
          by_cases hl : len ≥ 1
          · simp only [hl, if_true]
            refine ⟨t, a, header, [], by omega, by rw [ht2, g1]; rfl, by rw [hA, ht2]; simp, hac, hh, g4, ?_⟩
            simp only [List.length_nil]
            omega
          · simp only [hl, if_false]
        · simp only [if_true]
      · simp only [if_true]
        intro rem hrem
        rw [hA, g5] at hrem
        cases hh : header.getLsbD 0
        · exact ⟨t, a, header, [], by omega, by rw [ht2, g1]; rfl, by rw [hA, ht2]; simp, hac, hh, g4, by omega⟩
        · rw [hh] at hrem
          cases hrem
  case ok => cases x.ready <;> simp
  case read => cases o.ready <;> by_cases hl : len = 1 <;> simp [hl]
  case flush => cases o.valid <;> cases x.ready <;> cases o.beat.last <;> simp
  case write =>
    obtain ⟨t, a', h', pre', k1, k2, k3, k4, k5, k6, k7⟩ := hK
    obtain ⟨pre, g1, g2, g3, g4, g5, _⟩ := hrel
    rw [ht ⟨_, g5⟩ (by simp)] at hA
    cases hor : o.ready
    · simp only [Bool.false_eq_true, if_false]
      have hA : A (n + 1) = A n := by rw [hA, hor]; simp
      exact ⟨t, a', h', pre', by omega, k2, by rw [hA, k3], k4, k5, k6, by omega⟩
    · obtain ⟨r1, r2⟩ := hrd rfl hor
      have hA : A (n + 1) = A n ++ [x.data] := by rw [hA, hor]; simp
      rw [protoDec_eq len g2 (by omega)]
      simp only [if_true]
      have e : len - 1 + (pre' ++ [x.data]).length = len + pre'.length := by simp; omega
      cases hoe : o.error
      · simp only [Bool.false_eq_true, if_false]
        by_cases hl : len = 1
        · simp only [hl, if_true]
        · simp only [hl, if_false]
          refine ⟨t, a', h', pre' ++ [x.data], by omega, by rw [e, k2], by rw [hA, k3, List.append_assoc], k4, k5, by rw [e]; exact k6, ?_⟩
          rw [List.length_append, List.length_singleton, r2]
          rw [show pre'.length + 1 + 2 = (pre'.length + 2) + 1 from rfl, Nat.add_mul (pre'.length + 2) 1]
          omega
      · simp only [if_true]
        intro rem hrem
        refine ⟨t, a', h', pre' ++ [x.data], by omega, by rw [e, k2], by rw [hA, k3, List.append_assoc], k4, k5, by rw [e]; exact k6, ?_⟩
        have : 1 * i2cByteTime period ≤ (pre'.length + 2) * i2cByteTime period := Nat.mul_le_mul_right _ (by omega)
        omega
  case error =>
    obtain ⟨a', b', g1, g2, g3, g4, g5⟩ := hrel
    by_cases hl : len ≥ 1
    · simp only [hl, if_true]
      rw [protoDec_eq len hl g4]
      intro rem hrem
      rcases g5 with ⟨_, g5⟩ | ⟨L, _, _, _, _, _, rd, g5⟩
      · rw [if_neg (by omega)] at g5
        obtain ⟨t, a', h', pre', k1, k2, k3, k4, k5, k6, k7⟩ := hK _ g5
        rw [ht ⟨_, g5⟩ (by simp)] at hA
        have hA : A (n + 1) = A n ++ [x.data] := by rw [hA]; simp [hl]
        have e : len - 1 + (pre' ++ [x.data]).length = len + pre'.length := by simp; omega
        exact ⟨t, a', h', pre' ++ [x.data], by omega, by rw [e, k2], by rw [hA, k3, List.append_assoc], k4, k5, by rw [e]; exact k6, by omega⟩
      · exfalso
        split at hA
        · rw [hA, protoPhase_snoc, g5] at hrem
          cases hrem
        · rw [hA, List.append_nil, g5] at hrem
          cases hrem
    · simp only [hl, if_false]
  case status => cases x.ready <;> simp

end

end Lambdalib
