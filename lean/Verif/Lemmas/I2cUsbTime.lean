import Verif.Lemmas.I2cTopTime

/-! When `I2CProto` needs the data bytes of a write command, behind a FIFO that holds bytes back (C112). -/

namespace Lambdalib

section
variable (period : Nat) (stretch : Bool)

/-- Time since the last byte was taken, while bytes go over the bus: `A` are the bytes taken from the host, `n` is the current cycle. -/
def protoWait (A : Nat → List (BitVec 8)) (n : Nat) (s : I2cProtoS) : Prop :=
  s.fsm = .addr ∨ s.fsm = .write → ∃ t, t ≤ n ∧ A t = A n ∧ i2cByteTime period ≤ (n - t) + strLeft period s.str

set_option maxHeartbeats 1000000 in
theorem wait_step (A : Nat → List (BitVec 8)) (n : Nat) (s : I2cProtoS) (x : I2cProtoIn) {B R Dl}
    (hrel : protoRel (A n) B R Dl s) (hi : strTimeInv period s.str) (hA : A (n + 1) = A n ++ protoAcc period stretch s x)
    (ht : (∃ rem, protoPhase (A n) = .data rem) → s.fsm ≠ .addr → x.valid = true) (hK : protoWait period A n s) :
    protoWait period A (n + 1) ((i2cProto period stretch).next s x) := by
  have hst := strLeft_step period stretch s.str (i2cProtoStrIn s x) hi
  have hrd := strLeft_ready period stretch s.str (i2cProtoStrIn s x) hi
  have hbe := str_starts period stretch s.str (i2cProtoStrIn s x)
  have hn : (i2cProto period stretch).next s x = { i2cProtoFsm s x ((i2cStream period stretch).out s.str (i2cProtoStrIn s x)) with
    str := (i2cStream period stretch).next s.str (i2cProtoStrIn s x) } := rfl
  have ho : ((i2cProto period stretch).out s x).ready = (s.fsm == .header || s.fsm == .length ||
      (s.fsm == .write && ((i2cStream period stretch).out s.str (i2cProtoStrIn s x)).ready) || (s.fsm == .error && decide (s.len ≥ 1))) := rfl
  rw [hn]
  unfold protoAcc at hA
  rw [ho] at hA
  have hpay : (i2cProtoStrIn s x).beat.payload.1 = (s.fsm == .read) := rfl
  have hsv : (i2cProtoStrIn s x).valid = (s.fsm == .addr || s.fsm == .read || s.fsm == .write) := rfl
  rw [hpay] at hrd
  rw [hsv] at hbe
  obtain ⟨hww, _, a, b, c, d, _, _, hrel⟩ := hrel
  generalize hso : (i2cStream period stretch).out s.str (i2cProtoStrIn s x) = o at *
  generalize hsn : (i2cStream period stretch).next s.str (i2cProtoStrIn s x) = str' at *
  clear hso hsn hn ho hpay hsv
  obtain ⟨fsm, header, len, status, str⟩ := s
  unfold protoWait at hK ⊢
  unfold i2cProtoFsm
  cases fsm <;> simp only at hK hrel hww hA hrd hbe ht hst ⊢
  case header => cases hv : x.valid <;> simp
  case length =>
    cases hv : x.valid <;> simp only [Bool.false_eq_true, if_false, if_true]
    · simp
    · intro _
      refine ⟨n + 1, Nat.le_refl _, rfl, ?_⟩
      rw [hbe (fun h => by simpa using hww h) rfl]
      omega
  case addr =>
    obtain ⟨t, ht1, ht2, ht3⟩ := hK (.inl trivial)
    have hA : A (n + 1) = A n := by rw [hA]; simp
    cases hor : o.ready
    · simp only [Bool.false_eq_true, if_false]
      exact fun _ => ⟨t, by omega, by rw [hA, ht2], by omega⟩
    · obtain ⟨r1, r2⟩ := hrd rfl hor
      rw [r2]
      exact fun _ => ⟨n + 1, Nat.le_refl _, rfl, by omega⟩
  case ok => cases x.ready <;> simp
  case read => cases o.ready <;> by_cases hl : len = 1 <;> simp [hl]
  case flush => cases o.valid <;> cases x.ready <;> cases o.beat.last <;> simp
  case write =>
    obtain ⟨t, ht1, ht2, ht3⟩ := hK (.inr trivial)
    obtain ⟨pre, g1, g2, g3, g4, g5, _⟩ := hrel
    cases hor : o.ready
    · simp only [Bool.false_eq_true, if_false]
      have hA : A (n + 1) = A n := by rw [hA, hor]; simp
      exact fun _ => ⟨t, by omega, by rw [hA, ht2], by omega⟩
    · obtain ⟨r1, r2⟩ := hrd rfl hor
      rw [r2]
      exact fun _ => ⟨n + 1, Nat.le_refl _, rfl, by omega⟩
  case error =>
    by_cases hl : len ≥ 1 <;> simp [hl]
  case status => cases x.ready <;> simp

/-- There are bytes for the state in which `I2CProto` is: `q` bytes are there, `fast` says that bytes come without pause. -/
def protoFed (fast : Prop) (A : List (BitVec 8)) (s : I2cProtoS) (q : Nat) : Prop :=
  s.fsm = .write ∨ (s.fsm = .error ∧ fast ∧ ∃ r, protoPhase A = .data r) → 1 ≤ q

set_option maxHeartbeats 1000000 in
theorem fed_step (fast : Prop) (A : Nat → List (BitVec 8)) (n : Nat) (s : I2cProtoS) (x : I2cProtoIn) (q q' : Nat) {B R Dl}
    (hrel : protoRel (A n) B R Dl s) (hi : strTimeInv period s.str) (hA : A (n + 1) = A n ++ protoAcc period stretch s x)
    (ht : (∃ rem, protoPhase (A n) = .data rem) → s.fsm ≠ .addr → x.valid = true) (hK : protoWait period A n s)
    (hfill : ∀ t r, t ≤ n → A t = A n → i2cByteTime period ≤ n - t → protoPhase (A n) = .data r → r ≠ 0 → min r 2 ≤ q)
    (hkeep : protoAcc period stretch s x = [] → q ≤ q') (huse : q ≤ q' + 1)
    (hfast : fast → ∀ r, protoPhase (A n) = .data r → 2 ≤ r → 1 ≤ q → 1 ≤ q') (hV : protoFed fast (A n) s q) :
    protoFed fast (A (n + 1)) ((i2cProto period stretch).next s x) q' := by
  have hrd := strLeft_ready period stretch s.str (i2cProtoStrIn s x) hi
  have hn : (i2cProto period stretch).next s x = { i2cProtoFsm s x ((i2cStream period stretch).out s.str (i2cProtoStrIn s x)) with
    str := (i2cStream period stretch).next s.str (i2cProtoStrIn s x) } := rfl
  have ho : ((i2cProto period stretch).out s x).ready = (s.fsm == .header || s.fsm == .length ||
      (s.fsm == .write && ((i2cStream period stretch).out s.str (i2cProtoStrIn s x)).ready) || (s.fsm == .error && decide (s.len ≥ 1))) := rfl
  rw [hn]
  unfold protoAcc at hA hkeep
  rw [ho] at hA hkeep
  have hpay : (i2cProtoStrIn s x).beat.payload.1 = (s.fsm == .read) := rfl
  rw [hpay] at hrd
  obtain ⟨hww, _, a, b, c, d, _, _, hrel⟩ := hrel
  generalize hso : (i2cStream period stretch).out s.str (i2cProtoStrIn s x) = o at *
  generalize hsn : (i2cStream period stretch).next s.str (i2cProtoStrIn s x) = str' at *
  clear hso hsn hn ho hpay
  obtain ⟨fsm, header, len, status, str⟩ := s
  unfold protoWait at hK
  unfold protoFed at hV ⊢
  unfold i2cProtoFsm
  cases fsm <;> simp only at hK hrel hww hA hrd ht hkeep hV ⊢
  case header => cases hv : x.valid <;> simp
  case length => cases hv : x.valid <;> simp
  case addr =>
    obtain ⟨t, ht1, ht2, ht3⟩ := hK (.inl trivial)
    obtain ⟨g1, _, _, g4, g5⟩ := hrel
    have hA : A (n + 1) = A n := by rw [hA]; simp
    have hk : q ≤ q' := hkeep (by simp)
    cases hor : o.ready
    · simp
    · obtain ⟨r1, r2⟩ := hrd rfl hor
      have hgo : ∀ r, protoPhase (A n) = .data r → 1 ≤ q' := by
        intro r hr
        have hr0 : r ≠ 0 := by
          rw [g5] at hr
          split at hr
          · cases hr
          · split at hr
            · cases hr
            · cases hr; assumption
        have := hfill t r ht1 ht2 (by omega) hr hr0
        omega
      simp only [if_true]
      cases hoe : o.error
      · simp only [Bool.false_eq_true, if_false]
        cases hh : header.getLsbD 0
        · simp only [Bool.false_eq_true, if_false]
          by_cases hl : len ≥ 1
          · intro _
            rw [hh] at g5
            simp only [Bool.false_eq_true, if_false] at g5
            rw [if_neg (by omega)] at g5
            exact hgo _ g5
          · simp [hl]
        · simp
      · simp only [if_true]
        rintro (h | ⟨_, _, r, hr⟩)
        · cases h
        · rw [hA] at hr
          exact hgo r hr
  case ok => cases x.ready <;> simp
  case read => cases o.ready <;> by_cases hl : len = 1 <;> simp [hl]
  case flush => cases o.valid <;> cases x.ready <;> cases o.beat.last <;> simp
  case write =>
    obtain ⟨t, ht1, ht2, ht3⟩ := hK (.inr trivial)
    obtain ⟨pre, g1, g2, g3, g4, g5, _⟩ := hrel
    have hq := hV (.inl trivial)
    cases hor : o.ready
    · have hk : q ≤ q' := hkeep (by rw [hor]; simp)
      exact fun _ => by omega
    · obtain ⟨r1, r2⟩ := hrd rfl hor
      have hf := hfill t len ht1 ht2 (by omega) g5 (by omega)
      rw [ht ⟨_, g5⟩ (by simp)] at hA
      have hA : A (n + 1) = A n ++ [x.data] := by rw [hA, hor]; simp
      rw [protoDec_eq len g2 (by omega)]
      simp only [if_true]
      have hph : len = 1 → ∃ rd, protoPhase (A (n + 1)) = .header rd := by
        intro h1
        rw [hA, protoPhase_snoc, g5, h1]
        exact ⟨_, rfl⟩
      cases hoe : o.error
      · simp only [Bool.false_eq_true, if_false]
        by_cases hl : len = 1
        · simp [hl]
        · intro _
          omega
      · simp only [if_true]
        rintro (h | ⟨_, _, r, hr⟩)
        · cases h
        · by_cases hl : len = 1
          · obtain ⟨rd, e⟩ := hph hl
            rw [hr] at e
            cases e
          · omega
  case error =>
    obtain ⟨a', b', g1, g2, g3, g4, g5⟩ := hrel
    by_cases hl : len ≥ 1
    · simp only [hl, if_true]
      rintro (h | ⟨_, hfs, r, hr⟩)
      · cases h
      rcases g5 with ⟨_, g5⟩ | ⟨L, _, _, _, _, _, rd, g5⟩
      · rw [if_neg (by omega)] at g5
        rw [ht ⟨_, g5⟩ (by simp)] at hA
        have hA' : A (n + 1) = A n ++ [x.data] := by rw [hA]; simp [hl]
        have hq := hV (.inr ⟨trivial, hfs, _, g5⟩)
        refine hfast hfs len g5 ?_ hq
        apply Decidable.byContradiction
        intro h1
        rw [hA', protoPhase_snoc, g5, show len = 1 by omega] at hr
        cases hr
      · exfalso
        split at hA
        · rw [hA, protoPhase_snoc, g5] at hr
          cases hr
        · rw [hA, List.append_nil, g5] at hr
          cases hr
    · simp [hl]
  case status => cases x.ready <;> simp

end

end Lambdalib
