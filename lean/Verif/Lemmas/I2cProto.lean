import Verif.Model.I2cProto
import Verif.Spec.I2cProto
import Verif.Lemmas.I2cStream

/-! Helper lemmas for `I2CProto`. -/

namespace Lambdalib

section
variable (period : Nat) (stretch : Bool)

/-! How `I2CStream` reacts in each situation of the wrapper. -/

theorem str_noinput (s : I2cStrS) (x : I2cStrIn) (hv : x.valid = false) (h1 : s.fsm ≠ .waitWrite)
    (h2 : s.fsm ≠ .waitRead) :
    ((i2cStream period stretch).out s x).ready = false ∧
    ((i2cStream period stretch).out s x).valid = false ∧
    ((i2cStream period stretch).next s x).fsm ≠ .waitWrite ∧
    ((i2cStream period stretch).next s x).fsm ≠ .waitRead := by
  obtain ⟨fsm, lastR, core⟩ := s
  cases fsm <;> cases hb : core.busy <;> simp_all [i2cStream, i2cStrFsm]

theorem str_writing (s : I2cStrS) (x : I2cStrIn) (hv : x.valid = true) (hw : x.beat.payload.1 = false)
    (h2 : s.fsm ≠ .waitRead) :
    ((i2cStream period stretch).out s x).valid = false ∧
    ((i2cStream period stretch).next s x).fsm ≠ .waitRead ∧
    (((i2cStream period stretch).out s x).ready = true →
      ((i2cStream period stretch).next s x).fsm ≠ .waitWrite) ∧
    (((i2cStream period stretch).out s x).ready = true →
      s.fsm = .waitWrite) := by
  obtain ⟨fsm, lastR, core⟩ := s
  cases fsm <;> cases hb : core.busy <;> cases ha : core.ackO <;> cases lastR <;>
    simp_all [i2cStream, i2cStrFsm]

theorem str_reading (s : I2cStrS) (x : I2cStrIn) (hv : x.valid = true) (hw : x.beat.payload.1 = true)
    (h1 : s.fsm ≠ .waitWrite) :
    (s.fsm = .xfer ∧ ((i2cStream period stretch).out s x).ready = true ∧
      ((i2cStream period stretch).out s x).error = false ∧
      ((i2cStream period stretch).out s x).valid = false ∧
      ((i2cStream period stretch).next s x).fsm = .waitRead ∧
      ((i2cStream period stretch).next s x).lastR = x.beat.last) ∨
    (s.fsm ≠ .xfer ∧ s.fsm ≠ .waitRead ∧ ((i2cStream period stretch).out s x).ready = false ∧
      ((i2cStream period stretch).out s x).valid = false ∧
      ((i2cStream period stretch).next s x).fsm ≠ .waitRead ∧
      ((i2cStream period stretch).next s x).fsm ≠ .waitWrite) ∨
    (s.fsm = .waitRead ∧ ((i2cStream period stretch).out s x).ready = false ∧
      ((i2cStream period stretch).next s x).lastR = s.lastR ∧
      ((((i2cStream period stretch).out s x).valid && x.ready) = true ∧
        ((i2cStream period stretch).out s x).beat.last = s.lastR ∧
        ((i2cStream period stretch).next s x).fsm ≠ .waitRead ∧
        ((i2cStream period stretch).next s x).fsm ≠ .waitWrite ∨
       (((i2cStream period stretch).out s x).valid && x.ready) = false ∧
        ((i2cStream period stretch).next s x).fsm = .waitRead)) := by
  obtain ⟨fsm, lastR, core⟩ := s
  cases fsm
  case waitRead =>
    right; right
    cases hb : core.busy <;> cases hr : x.ready <;> cases lastR <;> simp [i2cStream, i2cStrFsm, hb, hr]
  case xfer => left; simp [i2cStream, i2cStrFsm, hv, hw]
  case waitWrite => exact absurd rfl h1
  all_goals
    right; left
    cases hb : core.busy <;> simp [i2cStream, i2cStrFsm, hv, hb]

theorem str_flushing (s : I2cStrS) (x : I2cStrIn) (hv : x.valid = false) (h1 : s.fsm = .waitRead) :
    ((i2cStream period stretch).out s x).ready = false ∧
      ((i2cStream period stretch).next s x).lastR = s.lastR ∧
      ((((i2cStream period stretch).out s x).valid && x.ready) = true ∧
        ((i2cStream period stretch).out s x).beat.last = s.lastR ∧
        ((i2cStream period stretch).next s x).fsm ≠ .waitRead ∧
        ((i2cStream period stretch).next s x).fsm ≠ .waitWrite ∨
       (((i2cStream period stretch).out s x).valid && x.ready) = false ∧
        ((i2cStream period stretch).next s x).fsm = .waitRead) := by
  obtain ⟨fsm, lastR, core⟩ := s
  subst h1
  cases hb : core.busy <;> cases hr : x.ready <;> cases lastR <;> simp [i2cStream, i2cStrFsm, hb, hr]

theorem i2cProtoDec_eq (n : Nat) (h1 : 1 ≤ n) (h2 : n < 256) : i2cProtoDec n = n - 1 := by
  unfold i2cProtoDec; omega

theorem protoPhase_snoc (l : List (BitVec 8)) (b : BitVec 8) :
    protoPhase (l ++ [b]) = protoPhaseStep (protoPhase l) b := by
  simp [protoPhase]

/-- `ProtoSeq` together with the replies that are data. -/
inductive ProtoSeqD : List (BitVec 8) → List (Beat (Bool × BitVec 8) × Bool) → List (Bool × BitVec 8) →
    List (Bool × BitVec 8) → Prop
  | nil : ProtoSeqD [] [] [] []
  | snoc {a b c d a' b' c'} : ProtoSeqD a b c d → ProtoOk a' b' c' →
    ProtoSeqD (a ++ a') (b ++ b') (c ++ c') (d ++ c'.tail)

theorem ProtoSeqD.seq {a b c d} (h : ProtoSeqD a b c d) : ProtoSeq a b c := by
  induction h with
  | nil => exact ProtoSeq.nil
  | snoc _ h ih => exact ProtoSeq.snoc ih h

/-- Relation between accepted bytes `A`, beats given to `I2CStream` `B`, replies `R`, bytes delivered by `I2CStream` `Dl`
and the registers. -/
def protoRel (A : List (BitVec 8)) (B : List (Beat (Bool × BitVec 8) × Bool)) (R Dl : List (Bool × BitVec 8))
    (s : I2cProtoS) : Prop :=
  (s.str.fsm = .waitWrite → s.fsm = .addr ∨ s.fsm = .write) ∧
  (s.str.fsm = .waitRead → s.fsm = .read ∨ s.fsm = .flush) ∧
  ∃ a b c d, ProtoSeqD a b c d ∧ Dl = d ++ R.drop (c.length + 1) ∧
  match s.fsm with
  | .header => A = a ∧ B = b ∧ R = c ∧ ∃ rd, protoPhase A = .header rd
  | .length => A = a ++ [s.header] ∧ B = b ∧ R = c ∧ protoPhase A = .length s.header
  | .addr => A = a ++ [s.header, BitVec.ofNat 8 s.len] ∧ B = b ∧ R = c ∧ s.len < 256 ∧
      protoPhase A = (if s.header.getLsbD 0 then .header (some s.len)
        else if s.len = 0 then .header none else .data s.len)
  | .ok => A = a ++ [s.header, BitVec.ofNat 8 s.len] ∧ B = b ++ [(protoAddr s.header false, false)] ∧
      R = c ∧ 1 ≤ s.len ∧ s.len < 256 ∧ s.header.getLsbD 0 = true ∧
      protoPhase A = .header (some s.len)
  | .read => ∃ (k : Nat) (pre : List (BitVec 8)) (rd : Option Nat), A = a ++ [s.header, BitVec.ofNat 8 (s.len + k)] ∧ 1 ≤ s.len ∧
      s.len + k < 256 ∧ s.header.getLsbD 0 = true ∧ protoPhase A = .header rd ∧
      B = b ++ [(protoAddr s.header false, false)] ++ List.replicate k (protoRd false, false) ∧
      R = c ++ [(true, 0)] ++ pre.map (fun d => (false, d)) ∧
      pre.length + (if s.str.fsm = .waitRead then 1 else 0) = k ∧
      (s.str.fsm = .waitRead → s.str.lastR = false)
  | .flush => ∃ (pre : List (BitVec 8)) (rd : Option Nat), A = a ++ [s.header, BitVec.ofNat 8 (pre.length + 1)] ∧
      pre.length + 1 < 256 ∧ s.header.getLsbD 0 = true ∧ protoPhase A = .header rd ∧
      B = b ++ [(protoAddr s.header false, false)] ++ List.replicate pre.length (protoRd false, false) ++
        [(protoRd true, false)] ∧
      R = c ++ [(true, 0)] ++ pre.map (fun d => (false, d)) ∧
      s.str.fsm = .waitRead ∧ s.str.lastR = true
  | .write => ∃ (pre : List (BitVec 8)), A = a ++ [s.header, BitVec.ofNat 8 (s.len + pre.length)] ++ pre ∧ 1 ≤ s.len ∧
      s.len + pre.length < 256 ∧ s.header.getLsbD 0 = false ∧ protoPhase A = .data s.len ∧
      B = b ++ [(protoAddr s.header false, false)] ++ pre.map (fun d => (protoWr false d, false)) ∧ R = c
  | .error => ∃ a' b', A = a ++ a' ∧ B = b ++ b' ∧ R = c ∧ s.len < 256 ∧
      ((∀ post, post.length = s.len → ProtoOk (a' ++ post) b' [(true, 1)]) ∧
      (if s.len = 0 then ∃ rd, protoPhase A = .header rd else protoPhase A = .data s.len) ∨
      ∃ L, L < 256 ∧ s.len ≤ L ∧ a' = [s.header, BitVec.ofNat 8 L] ∧ b' = [(protoAddr s.header (L == 0), true)] ∧
        s.header.getLsbD 0 = true ∧ ∃ rd, protoPhase A = .header rd)
  | .status => ∃ a' b', A = a ++ a' ∧ B = b ++ b' ∧ R = c ∧ (∃ rd, protoPhase A = .header rd) ∧
      ProtoOk a' b' [(true, if s.status then 1 else 0)]

/-- What the circuit accepts and gives in one cycle. -/
def protoAcc (s : I2cProtoS) (x : I2cProtoIn) : List (BitVec 8) :=
  if x.valid && ((i2cProto period stretch).out s x).ready then [x.data] else []

def protoGive (s : I2cProtoS) (x : I2cProtoIn) : List (Bool × BitVec 8) :=
  if ((i2cProto period stretch).out s x).valid && x.ready then
    [(((i2cProto period stretch).out s x).beat.last, ((i2cProto period stretch).out s x).beat.payload)]
  else []

def protoBeat (s : I2cProtoS) (x : I2cProtoIn) : List (Beat (Bool × BitVec 8) × Bool) :=
  if (i2cProtoStrIn s x).valid && ((i2cStream period stretch).out s.str (i2cProtoStrIn s x)).ready then
    [((i2cProtoStrIn s x).beat, ((i2cStream period stretch).out s.str (i2cProtoStrIn s x)).error)]
  else []

def protoDel (s : I2cProtoS) (x : I2cProtoIn) : List (Bool × BitVec 8) :=
  let o := (i2cStream period stretch).out s.str (i2cProtoStrIn s x)
  if o.valid && (i2cProtoStrIn s x).ready then [(o.beat.last, o.beat.payload)] else []

theorem protoDel_eq (s : I2cProtoS) (x : I2cProtoIn) : protoDel period stretch s x =
    if s.fsm = .read ∨ s.fsm = .flush then protoGive period stretch s x else [] := by
  obtain ⟨fsm, header, len, status, str⟩ := s
  cases fsm <;> simp [protoDel, protoGive, i2cProto, i2cProtoStrIn]

attribute [-simp] BitVec.getLsbD_eq_getElem in
set_option maxHeartbeats 1000000 in
theorem proto_step (A : List (BitVec 8)) (B : List (Beat (Bool × BitVec 8) × Bool))
    (R Dl : List (Bool × BitVec 8)) (s : I2cProtoS) (x : I2cProtoIn) (h : protoRel A B R Dl s)
    (hv : (∃ rem, protoPhase A = .data rem) → s.fsm ≠ .addr → x.valid = true)
    (hr : ∀ len e, protoPhase A = .header (some len) → (i2cProtoStrIn s x).beat.payload.1 = false →
      (protoBeat period stretch s x) = [((i2cProtoStrIn s x).beat, e)] → (len = 0 → e = true))
    (hq : ∀ a b c h L, ProtoSeq a b c → A = a ++ [h, BitVec.ofNat 8 L] → B = b ++ [(protoAddr h false, true)] → R = c →
      h.getLsbD 0 = true → L ≠ 0 → L < 256 → x.valid = false) :
    protoRel (A ++ protoAcc period stretch s x) (B ++ protoBeat period stretch s x)
      (R ++ protoGive period stretch s x) (Dl ++ protoDel period stretch s x) ((i2cProto period stretch).next s x) := by
  rw [protoDel_eq]
  obtain ⟨fsm, header, len, status, str⟩ := s
  obtain ⟨hw, hrd, a, b, c, d, hseq, hd, h⟩ := h
  simp only at hw hrd
  generalize hxi : i2cProtoStrIn ⟨fsm, header, len, status, str⟩ x = xi at hr
  generalize hstr : (i2cStream period stretch).next str xi = str'
  cases fsm <;> simp only at h <;>
    simp only [reduceCtorEq, or_self, or_true, true_or, if_true, if_false, List.append_nil]
  case header =>
    obtain ⟨h1, h2, h3, rd, h4⟩ := h
    have e := str_noinput period stretch str xi (by rw [← hxi]; rfl)
      (fun h => by simpa using hw h) (fun h => by simpa using hrd h)
    rw [hstr] at e
    have eB : protoBeat period stretch ⟨.header, header, len, status, str⟩ x = [] := by
      simp [protoBeat, i2cProtoStrIn]
    have eG : protoGive period stretch ⟨.header, header, len, status, str⟩ x = [] := by
      simp [protoGive, i2cProto]
    rw [eB, eG, List.append_nil, List.append_nil]
    cases hx : x.valid
    · have eA : protoAcc period stretch ⟨.header, header, len, status, str⟩ x = [] := by
        simp [protoAcc, hx]
      have hn : (i2cProto period stretch).next ⟨.header, header, len, status, str⟩ x =
          ⟨.header, header, len, status, str'⟩ := by simp [i2cProto, i2cProtoFsm, hx, hxi, hstr]
      rw [eA, hn, List.append_nil]
      exact ⟨fun h => absurd h e.2.2.1, fun h => absurd h e.2.2.2, a, b, c, d, hseq, hd, h1, h2, h3, rd, h4⟩
    · have eA : protoAcc period stretch ⟨.header, header, len, status, str⟩ x = [x.data] := by
        simp [protoAcc, hx, i2cProto]
      have hn : (i2cProto period stretch).next ⟨.header, header, len, status, str⟩ x =
          ⟨.length, x.data, len, status, str'⟩ := by simp [i2cProto, i2cProtoFsm, hx, hxi, hstr]
      rw [eA, hn]
      refine ⟨fun h => absurd h e.2.2.1, fun h => absurd h e.2.2.2, a, b, c, d, hseq, hd, ?_, h2, h3, ?_⟩
      · rw [h1]
      · rw [protoPhase_snoc, h4]; rfl
  case length =>
    obtain ⟨h1, h2, h3, h4⟩ := h
    have e := str_noinput period stretch str xi (by rw [← hxi]; rfl)
      (fun h => by simpa using hw h) (fun h => by simpa using hrd h)
    rw [hstr] at e
    have eB : protoBeat period stretch ⟨.length, header, len, status, str⟩ x = [] := by
      simp [protoBeat, i2cProtoStrIn]
    have eG : protoGive period stretch ⟨.length, header, len, status, str⟩ x = [] := by
      simp [protoGive, i2cProto]
    rw [eB, eG, List.append_nil, List.append_nil]
    cases hx : x.valid
    · have eA : protoAcc period stretch ⟨.length, header, len, status, str⟩ x = [] := by
        simp [protoAcc, hx]
      have hn : (i2cProto period stretch).next ⟨.length, header, len, status, str⟩ x =
          ⟨.length, header, len, status, str'⟩ := by simp [i2cProto, i2cProtoFsm, hx, hxi, hstr]
      rw [eA, hn, List.append_nil]
      exact ⟨fun h => absurd h e.2.2.1, fun h => absurd h e.2.2.2, a, b, c, d, hseq, hd, h1, h2, h3, h4⟩
    · have eA : protoAcc period stretch ⟨.length, header, len, status, str⟩ x = [x.data] := by
        simp [protoAcc, hx, i2cProto]
      have hn : (i2cProto period stretch).next ⟨.length, header, len, status, str⟩ x =
          ⟨.addr, header, x.data.toNat, status, str'⟩ := by
        simp [i2cProto, i2cProtoFsm, hx, hxi, hstr]
      rw [eA, hn]
      refine ⟨fun h => absurd h e.2.2.1, fun h => absurd h e.2.2.2, a, b, c, d, hseq, hd, ?_, h2, h3,
        x.data.isLt, ?_⟩
      · rw [h1]; simp
      · rw [protoPhase_snoc, h4]; rfl
  case addr =>
    obtain ⟨h1, h2, h3, h4, h5⟩ := h
    have e := str_writing period stretch str xi (by rw [← hxi]; rfl) (by rw [← hxi]; rfl)
      (fun h => by simpa using hrd h)
    rw [hstr] at e
    obtain ⟨e1, e2, e3, e4⟩ := e
    have eG : protoGive period stretch ⟨.addr, header, len, status, str⟩ x = [] := by
      simp [protoGive, i2cProto]
    have eA : protoAcc period stretch ⟨.addr, header, len, status, str⟩ x = [] := by
      simp [protoAcc, i2cProto]
    rw [eA, eG, List.append_nil, List.append_nil]
    have hbeat : xi.beat = protoAddr header (len == 0) := by rw [← hxi]; simp [i2cProtoStrIn, protoAddr]
    have hval : xi.valid = true := by rw [← hxi]; rfl
    cases hrdy : ((i2cStream period stretch).out str xi).ready
    · have eB : protoBeat period stretch ⟨.addr, header, len, status, str⟩ x = [] := by
        simp [protoBeat, hxi, hrdy]
      have hn : (i2cProto period stretch).next ⟨.addr, header, len, status, str⟩ x =
          ⟨.addr, header, len, status, str'⟩ := by simp [i2cProto, i2cProtoFsm, hxi, hstr, hrdy]
      rw [eB, hn, List.append_nil]
      exact ⟨fun _ => .inl rfl, fun h => absurd h e2, a, b, c, d, hseq, hd, h1, h2, h3, h4, h5⟩
    · have eB : protoBeat period stretch ⟨.addr, header, len, status, str⟩ x =
          [(xi.beat, ((i2cStream period stretch).out str xi).error)] := by
        simp [protoBeat, hxi, hrdy, hval]
      have hr' := fun l hl => hr l _ hl (by rw [← hxi]; rfl) eB
      rw [eB, hbeat]
      cases herr : ((i2cStream period stretch).out str xi).error
      · cases hh : header.getLsbD 0
        · by_cases hl : len = 0
          · subst hl
            have hn : (i2cProto period stretch).next ⟨.addr, header, 0, status, str⟩ x =
                ⟨.status, header, 0, false, str'⟩ := by
              simp [i2cProto, i2cProtoFsm, hxi, hstr, hrdy, herr, hh]
            rw [hn]
            refine ⟨fun h => absurd h (e3 hrdy), fun h => absurd h e2, a, b, c, d, hseq, hd, _, _, h1,
              by rw [h2], h3, ⟨none, by rw [h5]; simp [hh]⟩, ?_⟩
            exact ProtoOk.probe header hh
          · have hn : (i2cProto period stretch).next ⟨.addr, header, len, status, str⟩ x =
                ⟨.write, header, len, status, str'⟩ := by
              simp [i2cProto, i2cProtoFsm, hxi, hstr, hrdy, herr, hh, show 1 ≤ len by omega]
            rw [hn]
            refine ⟨fun h => absurd h (e3 hrdy), fun h => absurd h e2, a, b, c, d, hseq, hd, [], ?_, Nat.pos_of_ne_zero hl,
              by simpa using h4, hh, by rw [h5]; simp [hh, hl], ?_, h3⟩
            · rw [h1]; simp
            · rw [h2, show (len == 0) = false by simpa using hl]; simp
        · have hn : (i2cProto period stretch).next ⟨.addr, header, len, status, str⟩ x =
              ⟨.ok, header, len, status, str'⟩ := by
            simp [i2cProto, i2cProtoFsm, hxi, hstr, hrdy, herr, hh]
          rw [hn]
          have hph : protoPhase A = .header (some len) := by rw [h5]; simp [hh]
          have hl : len ≠ 0 := by
            intro h0
            have := hr' len hph h0
            rw [herr] at this
            cases this
          refine ⟨fun h => absurd h (e3 hrdy), fun h => absurd h e2, a, b, c, d, hseq, hd, h1, ?_, h3,
            Nat.pos_of_ne_zero hl, h4, hh, hph⟩
          rw [h2, show (len == 0) = false by simpa using hl]
      · have hn : (i2cProto period stretch).next ⟨.addr, header, len, status, str⟩ x =
            ⟨.error, header, len, status, str'⟩ := by
          simp [i2cProto, i2cProtoFsm, hxi, hstr, hrdy, herr]
        rw [hn]
        refine ⟨fun h => absurd h (e3 hrdy), fun h => absurd h e2, a, b, c, d, hseq, hd,
          [header, BitVec.ofNat 8 len], _, h1, by rw [h2], h3, h4, ?_⟩
        cases hh : header.getLsbD 0
        · refine .inl ⟨fun post hpost => ?_, ?_⟩
          · simp only at hpost
            have := ProtoOk.writeNakAddr header post hh (by omega)
            have hemp : post.isEmpty = (len == 0) := by
              rw [← hpost]
              cases post <;> rfl
            rw [hpost, hemp] at this
            exact this
          · by_cases hl : len = 0
            · simp [hl, h5, hh]
            · simp [hl, h5, hh]
        · exact .inr ⟨len, h4, Nat.le_refl _, rfl, rfl, rfl, some len, by rw [h5]; simp [hh]⟩
  case ok =>
    obtain ⟨h1, h2, h3, h4, h5, h6, h7⟩ := h
    have e := str_noinput period stretch str xi (by rw [← hxi]; rfl)
      (fun h => by simpa using hw h) (fun h => by simpa using hrd h)
    rw [hstr] at e
    have eB : protoBeat period stretch ⟨.ok, header, len, status, str⟩ x = [] := by
      simp [protoBeat, i2cProtoStrIn]
    have eA : protoAcc period stretch ⟨.ok, header, len, status, str⟩ x = [] := by
      simp [protoAcc, i2cProto]
    rw [eB, eA, List.append_nil, List.append_nil]
    cases hx : x.ready
    · have eG : protoGive period stretch ⟨.ok, header, len, status, str⟩ x = [] := by
        simp [protoGive, hx]
      have hn : (i2cProto period stretch).next ⟨.ok, header, len, status, str⟩ x =
          ⟨.ok, header, len, status, str'⟩ := by simp [i2cProto, i2cProtoFsm, hx, hxi, hstr]
      rw [eG, hn, List.append_nil]
      exact ⟨fun h => absurd h e.2.2.1, fun h => absurd h e.2.2.2, a, b, c, d, hseq, hd, h1, h2, h3, h4, h5, h6, h7⟩
    · have eG : protoGive period stretch ⟨.ok, header, len, status, str⟩ x = [(true, 0)] := by
        simp [protoGive, hx, i2cProto]
      have hn : (i2cProto period stretch).next ⟨.ok, header, len, status, str⟩ x =
          ⟨.read, header, len, status, str'⟩ := by simp [i2cProto, i2cProtoFsm, hx, hxi, hstr]
      rw [eG, hn]
      refine ⟨fun h => absurd h e.2.2.1, fun h => absurd h e.2.2.2, a, b, c, d, hseq, by rw [hd, h3]; simp, 0, [], _, h1, h4, h5, h6,
        h7, by rw [h2]; simp, by rw [h3]; simp, ?_, fun h => absurd h e.2.2.2⟩
      simp [e.2.2.2]
  case read =>
    obtain ⟨k, pre, rd, h1, h2, h3, h4, h5, h6, h7, h8, h9⟩ := h
    have hbeat : xi.beat = protoRd (len == 1) := by rw [← hxi]; simp [i2cProtoStrIn, protoRd]
    have hval : xi.valid = true := by rw [← hxi]; rfl
    have hxr : xi.ready = x.ready := by rw [← hxi]; simp [i2cProtoStrIn]
    have eA : protoAcc period stretch ⟨.read, header, len, status, str⟩ x = [] := by
      simp [protoAcc, i2cProto]
    have e := str_reading period stretch str xi hval (by rw [hbeat]; rfl)
      (fun h => by simpa using hw h)
    rw [hstr] at e
    rw [eA, List.append_nil]
    rcases e with ⟨e0, e1, e2, e3, e4, e5⟩ | ⟨e0, e0', e1, e2, e3, e4⟩ | ⟨e0, e1, e2, e3⟩
    · have eB : protoBeat period stretch ⟨.read, header, len, status, str⟩ x =
          [(protoRd (len == 1), false)] := by
        simp [protoBeat, hxi, e1, hval, e2, hbeat]
      have eG : protoGive period stretch ⟨.read, header, len, status, str⟩ x = [] := by
        simp [protoGive, i2cProto, hxi, e3]
      rw [eB, eG, List.append_nil]
      rw [e0] at h8
      simp only [reduceCtorEq, if_false, Nat.add_zero] at h8
      by_cases hl : len = 1
      · have hn : (i2cProto period stretch).next ⟨.read, header, len, status, str⟩ x =
            ⟨.flush, header, 0, status, str'⟩ := by
          simp only [i2cProto, i2cProtoFsm, hxi, hstr, e1, if_true, if_pos hl]
          rw [show i2cProtoDec len = 0 by rw [hl]; rfl]
        rw [hn]
        refine ⟨fun h => ?_, fun _ => .inr rfl, a, b, c, d, hseq, by rw [List.append_nil]; exact hd, pre, rd, ?_, by omega, h4, h5, ?_, h7, e4, ?_⟩
        · rw [e4] at h; cases h
        · rw [h1, h8, hl, Nat.add_comm]
        · rw [h6, hl, h8]; simp
        · simp only [e5, hbeat, protoRd, hl]; rfl
      · have hn : (i2cProto period stretch).next ⟨.read, header, len, status, str⟩ x =
            ⟨.read, header, len - 1, status, str'⟩ := by
          simp [i2cProto, i2cProtoFsm, hxi, hstr, e1, hl, i2cProtoDec_eq len h2 (by omega)]
        rw [hn]
        refine ⟨fun h => ?_, fun _ => .inl rfl, a, b, c, d, hseq, by rw [List.append_nil]; exact hd, k + 1, pre, rd, ?_, ?_, ?_, h4, h5, ?_, h7,
          ?_, ?_⟩
        · rw [e4] at h; cases h
        · rw [h1]; simp only; rw [show len - 1 + (k + 1) = len + k by omega]
        · simp only; omega
        · simp only; omega
        · rw [h6, List.replicate_succ', ← List.append_assoc,
            show (len == 1) = false by simpa using hl]
        · simp only [e4, if_true]; omega
        · intro _; simp only [e5, hbeat, protoRd]; simp [hl]
    · have eB : protoBeat period stretch ⟨.read, header, len, status, str⟩ x = [] := by
        simp [protoBeat, hxi, e1]
      have eG : protoGive period stretch ⟨.read, header, len, status, str⟩ x = [] := by
        simp [protoGive, i2cProto, hxi, e2]
      have hn : (i2cProto period stretch).next ⟨.read, header, len, status, str⟩ x =
          ⟨.read, header, len, status, str'⟩ := by
        simp [i2cProto, i2cProtoFsm, hxi, hstr, e1]
      rw [eB, eG, hn, List.append_nil, List.append_nil]
      refine ⟨fun h => absurd h e4, fun h => absurd h e3, a, b, c, d, hseq, by rw [List.append_nil]; exact hd, k, pre, rd, h1, h2, h3, h4, h5, h6, h7,
        ?_, fun h => absurd h e3⟩
      simp only [e0', if_false] at h8
      simp only [e3, if_false]
      exact h8
    · have eB : protoBeat period stretch ⟨.read, header, len, status, str⟩ x = [] := by
        simp [protoBeat, hxi, e1]
      have hn : (i2cProto period stretch).next ⟨.read, header, len, status, str⟩ x =
          ⟨.read, header, len, status, str'⟩ := by
        simp [i2cProto, i2cProtoFsm, hxi, hstr, e1]
      rw [eB, hn, List.append_nil]
      simp only [e0, if_true] at h8
      have hlr := h9 e0
      rw [hxr] at e3
      rcases e3 with ⟨g1, g2, g3, g4⟩ | ⟨g1, g2⟩
      · have eG : protoGive period stretch ⟨.read, header, len, status, str⟩ x =
            [(false, ((i2cStream period stretch).out str xi).beat.payload)] := by
          simp only [protoGive, i2cProto, hxi]
          rw [Bool.and_eq_true] at g1
          simp [g1.1, g1.2, g2, hlr]
        rw [eG]
        refine ⟨fun h => absurd h g4, fun h => absurd h g3, a, b, c, d, hseq, by rw [hd, h7]; simp [List.drop_append], k,
          pre ++ [((i2cStream period stretch).out str xi).beat.payload], rd, h1, h2, h3, h4, h5, h6, ?_, ?_,
          fun h => absurd h g3⟩
        · rw [h7]; simp
        · simp only [g3, if_false, List.length_append, List.length_singleton]; omega
      · have eG : protoGive period stretch ⟨.read, header, len, status, str⟩ x = [] := by
          simp only [protoGive, i2cProto, hxi]
          rw [Bool.and_eq_false_iff] at g1
          rcases g1 with g1 | g1 <;> simp [g1]
        rw [eG, List.append_nil]
        refine ⟨fun h => ?_, fun _ => .inl rfl, a, b, c, d, hseq, by rw [List.append_nil]; exact hd, k, pre, rd, h1, h2, h3, h4, h5, h6, h7, ?_,
          fun _ => ?_⟩
        · rw [g2] at h; cases h
        · simp only [g2, if_true]; exact h8
        · simp only [e2]; exact hlr
  case flush =>
    obtain ⟨pre, rd, h1, h3, h4, h5, h6, h7, h8, h9⟩ := h
    have hval : xi.valid = false := by rw [← hxi]; rfl
    have hxr : xi.ready = x.ready := by rw [← hxi]; simp [i2cProtoStrIn]
    have eA : protoAcc period stretch ⟨.flush, header, len, status, str⟩ x = [] := by
      simp [protoAcc, i2cProto]
    have e := str_flushing period stretch str xi hval h8
    rw [hstr] at e
    obtain ⟨e1, e2, e3⟩ := e
    have eB : protoBeat period stretch ⟨.flush, header, len, status, str⟩ x = [] := by
      simp [protoBeat, hxi, e1]
    rw [eA, eB, List.append_nil, List.append_nil]
    rw [hxr] at e3
    rcases e3 with ⟨g1, g2, g3, g4⟩ | ⟨g1, g2⟩
    · have eG : protoGive period stretch ⟨.flush, header, len, status, str⟩ x =
          [(true, ((i2cStream period stretch).out str xi).beat.payload)] := by
        simp only [protoGive, i2cProto, hxi]
        have g1' := g1
        rw [Bool.and_eq_true] at g1'
        simp [g1'.1, g1'.2, g2, h9]
      have hn : (i2cProto period stretch).next ⟨.flush, header, len, status, str⟩ x =
          ⟨.header, header, len, status, str'⟩ := by
        simp only [i2cProto, i2cProtoFsm, hxi, hstr]
        rw [g1, g2, h9]
        simp
      rw [eG, hn]
      refine ⟨fun h => absurd h g4, fun h => absurd h g3, _, _, _, _,
        ProtoSeqD.snoc hseq (ProtoOk.read header pre
          ((i2cStream period stretch).out str xi).beat.payload h4 h3), by
          rw [hd, h7, List.drop_eq_nil_of_le (as := _ ++ _ ++ _ ++ [_]) (by simp <;> omega)]
          simp [List.drop_append, List.drop_eq_nil_of_le (Nat.le_succ c.length)], h1, ?_, ?_, rd, h5⟩
      · rw [h6]; simp
      · rw [h7]; simp
    · have eG : protoGive period stretch ⟨.flush, header, len, status, str⟩ x = [] := by
        simp only [protoGive, i2cProto, hxi]
        rw [Bool.and_eq_false_iff] at g1
        rcases g1 with g1 | g1 <;> simp [g1]
      have hn : (i2cProto period stretch).next ⟨.flush, header, len, status, str⟩ x =
          ⟨.flush, header, len, status, str'⟩ := by
        simp only [i2cProto, i2cProtoFsm, hxi, hstr]
        rw [g1]
        simp
      rw [eG, hn, List.append_nil]
      refine ⟨fun h => ?_, fun _ => .inr rfl, a, b, c, d, hseq, by rw [List.append_nil]; exact hd, pre, rd, h1, h3, h4, h5, h6, h7, g2, ?_⟩
      · rw [g2] at h; cases h
      · simp only [e2]; exact h9
  case write =>
    obtain ⟨pre, h1, h2, h3, h4, h5, h6, h7⟩ := h
    have hxv := hv ⟨_, h5⟩ (by simp)
    have e := str_writing period stretch str xi (by rw [← hxi]; rfl) (by rw [← hxi]; rfl)
      (fun h => by simpa using hrd h)
    rw [hstr] at e
    obtain ⟨e1, e2, e3, e4⟩ := e
    have eG : protoGive period stretch ⟨.write, header, len, status, str⟩ x = [] := by
      simp [protoGive, i2cProto]
    rw [eG, List.append_nil]
    have hbeat : xi.beat = protoWr (len == 1) x.data := by rw [← hxi]; simp [i2cProtoStrIn, protoWr]
    have hval : xi.valid = true := by rw [← hxi]; rfl
    cases hrdy : ((i2cStream period stretch).out str xi).ready
    · have eB : protoBeat period stretch ⟨.write, header, len, status, str⟩ x = [] := by
        simp [protoBeat, hxi, hrdy]
      have eA : protoAcc period stretch ⟨.write, header, len, status, str⟩ x = [] := by
        simp [protoAcc, i2cProto, hxi, hrdy]
      have hn : (i2cProto period stretch).next ⟨.write, header, len, status, str⟩ x =
          ⟨.write, header, len, status, str'⟩ := by simp [i2cProto, i2cProtoFsm, hxi, hstr, hrdy]
      rw [eA, eB, hn, List.append_nil, List.append_nil]
      exact ⟨fun _ => .inr rfl, fun h => absurd h e2, a, b, c, d, hseq, hd, pre, h1, h2, h3, h4, h5, h6, h7⟩
    · have eB : protoBeat period stretch ⟨.write, header, len, status, str⟩ x =
          [(protoWr (len == 1) x.data, ((i2cStream period stretch).out str xi).error)] := by
        simp [protoBeat, hxi, hrdy, hval, hbeat]
      have eA : protoAcc period stretch ⟨.write, header, len, status, str⟩ x = [x.data] := by
        simp [protoAcc, i2cProto, hxi, hrdy, hxv]
      rw [eB, eA]
      have hph : protoPhase (A ++ [x.data]) = if len = 1 then .header none else .data (len - 1) := by
        rw [protoPhase_snoc, h5]; rfl
      cases herr : ((i2cStream period stretch).out str xi).error
      · by_cases hl : len = 1
        · have hn : (i2cProto period stretch).next ⟨.write, header, len, status, str⟩ x =
              ⟨.status, header, 0, false, str'⟩ := by
            simp only [i2cProto, i2cProtoFsm, hxi, hstr, hrdy, herr, if_true, if_pos hl, Bool.false_eq_true,
              if_false]
            rw [show i2cProtoDec len = 0 by rw [hl]; rfl]
          rw [hn]
          refine ⟨fun h => absurd h (e3 hrdy), fun h => absurd h e2, a, b, c, d, hseq, hd,
            [header, BitVec.ofNat 8 (pre.length + 1)] ++ pre ++ [x.data],
            [(protoAddr header false, false)] ++ pre.map (fun d => (protoWr false d, false)) ++
              [(protoWr true x.data, false)], ?_, ?_, h7, ?_, ?_⟩
          · rw [h1, hl, Nat.add_comm]; simp
          · rw [h6, hl]; simp
          · rw [hph, hl]; exact ⟨none, rfl⟩
          · exact ProtoOk.write header pre x.data h4 (by omega)
        · have hn : (i2cProto period stretch).next ⟨.write, header, len, status, str⟩ x =
              ⟨.write, header, len - 1, status, str'⟩ := by
            simp [i2cProto, i2cProtoFsm, hxi, hstr, hrdy, herr, hl, i2cProtoDec_eq len h2 (by omega)]
          rw [hn]
          refine ⟨fun h => absurd h (e3 hrdy), fun h => absurd h e2, a, b, c, d, hseq, hd, pre ++ [x.data], ?_, ?_,
            ?_, h4, ?_, ?_, h7⟩
          · rw [h1]
            simp only [List.length_append, List.length_singleton]
            rw [show len - 1 + (pre.length + 1) = len + pre.length by omega, List.append_assoc]
          · simp only; omega
          · simp only [List.length_append, List.length_singleton]; omega
          · rw [hph, if_neg hl]
          · rw [h6, show (len == 1) = false by simpa using hl]; simp
      · have hn : (i2cProto period stretch).next ⟨.write, header, len, status, str⟩ x =
            ⟨.error, header, len - 1, status, str'⟩ := by
          simp [i2cProto, i2cProtoFsm, hxi, hstr, hrdy, herr, i2cProtoDec_eq len h2 (by omega)]
        rw [hn]
        refine ⟨fun h => absurd h (e3 hrdy), fun h => absurd h e2, a, b, c, d, hseq, hd,
          [header, BitVec.ofNat 8 (len + pre.length)] ++ pre ++ [x.data],
          [(protoAddr header false, false)] ++ pre.map (fun d => (protoWr false d, false)) ++
            [(protoWr (len == 1) x.data, true)], ?_, ?_, h7, ?_, .inl ⟨?_, ?_⟩⟩
        · rw [h1]; simp
        · rw [h6]; simp
        · simp only; omega
        · intro post hpost
          simp only at hpost
          have := ProtoOk.writeNak header pre x.data post h4 (by omega)
          rw [hpost, show pre.length + 1 + (len - 1) = len + pre.length by omega] at this
          have hemp : post.isEmpty = (len == 1) := by
            cases post
            · simp only [List.length_nil] at hpost
              simp; omega
            · simp only [List.length_cons] at hpost
              simp; omega
          rw [hemp] at this
          exact this
        · simp only
          rw [hph]
          by_cases hl : len = 1
          · simp [hl]
          · simp [hl, show len - 1 ≠ 0 by omega]
  case error =>
    obtain ⟨a', b', h1, h2, h3, h4, h⟩ := h
    have e := str_noinput period stretch str xi (by rw [← hxi]; rfl)
      (fun h => by simpa using hw h) (fun h => by simpa using hrd h)
    rw [hstr] at e
    have eB : protoBeat period stretch ⟨.error, header, len, status, str⟩ x = [] := by
      simp [protoBeat, i2cProtoStrIn]
    have eG : protoGive period stretch ⟨.error, header, len, status, str⟩ x = [] := by
      simp [protoGive, i2cProto]
    rw [eB, eG, List.append_nil, List.append_nil]
    rcases h with ⟨h5, h6⟩ | ⟨L, g1, g2, g3, g4, g5, rd, g6⟩
    rotate_left
    · by_cases hl : len = 0
      · have eA : protoAcc period stretch ⟨.error, header, len, status, str⟩ x = [] := by
          simp [protoAcc, i2cProto, hl]
        have hn : (i2cProto period stretch).next ⟨.error, header, len, status, str⟩ x =
            ⟨.status, header, len, true, str'⟩ := by
          simp only [i2cProto, i2cProtoFsm, hxi, hstr]
          rw [if_neg (by omega)]
        rw [eA, hn, List.append_nil]
        refine ⟨fun h => absurd h e.2.2.1, fun h => absurd h e.2.2.2, a, b, c, d, hseq, hd, a', b', h1, h2, h3, ⟨rd, g6⟩, ?_⟩
        rw [g3, g4]
        exact ProtoOk.readNak header L g5 g1
      · have hxv : x.valid = false := hq a b c header L hseq.seq (by rw [h1, g3])
          (by rw [h2, g4, show (L == 0) = false by simp; omega]) h3 g5 (by omega) g1
        have eA : protoAcc period stretch ⟨.error, header, len, status, str⟩ x = [] := by
          simp [protoAcc, hxv]
        have hn : (i2cProto period stretch).next ⟨.error, header, len, status, str⟩ x =
            ⟨.error, header, len - 1, status, str'⟩ := by
          simp [i2cProto, i2cProtoFsm, hxi, hstr, show 1 ≤ len by omega,
            i2cProtoDec_eq len (by omega) h4]
        rw [eA, hn, List.append_nil]
        exact ⟨fun h => absurd h e.2.2.1, fun h => absurd h e.2.2.2, a, b, c, d, hseq, hd, a', b', h1, h2, h3,
          Nat.lt_of_le_of_lt (Nat.sub_le _ _) h4, .inr ⟨L, g1, Nat.le_trans (Nat.sub_le _ _) g2, g3, g4, g5, rd, g6⟩⟩
    by_cases hl : len = 0
    · have eA : protoAcc period stretch ⟨.error, header, len, status, str⟩ x = [] := by
        simp [protoAcc, i2cProto, hl]
      have hn : (i2cProto period stretch).next ⟨.error, header, len, status, str⟩ x =
          ⟨.status, header, len, true, str'⟩ := by
        simp only [i2cProto, i2cProtoFsm, hxi, hstr]
        rw [if_neg (by omega)]
      rw [eA, hn, List.append_nil]
      rw [if_pos hl] at h6
      refine ⟨fun h => absurd h e.2.2.1, fun h => absurd h e.2.2.2, a, b, c, d, hseq, hd, a', b', h1, h2, h3, h6, ?_⟩
      have := h5 [] (by simp [hl])
      simpa using this
    · rw [if_neg hl] at h6
      have hxv := hv ⟨_, h6⟩ (by simp)
      have eA : protoAcc period stretch ⟨.error, header, len, status, str⟩ x = [x.data] := by
        simp [protoAcc, i2cProto, hxv, show 1 ≤ len by omega]
      have hn : (i2cProto period stretch).next ⟨.error, header, len, status, str⟩ x =
          ⟨.error, header, len - 1, status, str'⟩ := by
        simp [i2cProto, i2cProtoFsm, hxi, hstr, show 1 ≤ len by omega,
          i2cProtoDec_eq len (by omega) h4]
      rw [eA, hn]
      refine ⟨fun h => absurd h e.2.2.1, fun h => absurd h e.2.2.2, a, b, c, d, hseq, hd, a' ++ [x.data], b', ?_, h2,
        h3, ?_, .inl ⟨?_, ?_⟩⟩
      · rw [h1]; simp
      · simp only; omega
      · intro post hpost
        have := h5 (x.data :: post) (by simp only at hpost; simp [hpost]; omega)
        simpa using this
      · simp only
        rw [protoPhase_snoc, h6]
        by_cases hl1 : len = 1
        · simp [hl1, protoPhaseStep]
        · simp [hl1, protoPhaseStep, show len - 1 ≠ 0 by omega]
  case status =>
    obtain ⟨a', b', h1, h2, h3, h4, h5⟩ := h
    have e := str_noinput period stretch str xi (by rw [← hxi]; rfl)
      (fun h => by simpa using hw h) (fun h => by simpa using hrd h)
    rw [hstr] at e
    have eB : protoBeat period stretch ⟨.status, header, len, status, str⟩ x = [] := by
      simp [protoBeat, i2cProtoStrIn]
    have eA : protoAcc period stretch ⟨.status, header, len, status, str⟩ x = [] := by
      simp [protoAcc, i2cProto]
    rw [eB, eA, List.append_nil, List.append_nil]
    cases hx : x.ready
    · have eG : protoGive period stretch ⟨.status, header, len, status, str⟩ x = [] := by
        simp [protoGive, hx]
      have hn : (i2cProto period stretch).next ⟨.status, header, len, status, str⟩ x =
          ⟨.status, header, len, status, str'⟩ := by simp [i2cProto, i2cProtoFsm, hx, hxi, hstr]
      rw [eG, hn, List.append_nil]
      exact ⟨fun h => absurd h e.2.2.1, fun h => absurd h e.2.2.2, a, b, c, d, hseq, hd, a', b', h1, h2, h3, h4, h5⟩
    · have eG : protoGive period stretch ⟨.status, header, len, status, str⟩ x =
          [(true, if status then 1 else 0)] := by
        simp [protoGive, hx, i2cProto]
      have hn : (i2cProto period stretch).next ⟨.status, header, len, status, str⟩ x =
          ⟨.header, header, len, status, str'⟩ := by simp [i2cProto, i2cProtoFsm, hx, hxi, hstr]
      rw [eG, hn]
      exact ⟨fun h => absurd h e.2.2.1, fun h => absurd h e.2.2.2, _, _, _, _, ProtoSeqD.snoc hseq h5, by
        rw [hd, h3, List.drop_eq_nil_of_le (by simp), List.drop_eq_nil_of_le (by simp)]; simp, h1, h2,
        by rw [h3], h4⟩

end

end Lambdalib
