import Verif.Lemmas.I2cProto
import Verif.Lemmas.Run
import Verif.Props.I2cStream

/-! Properties of `I2CProto` (C36). -/

namespace Lambdalib

section
variable (period : Nat) (stretch : Bool) (i : Nat → I2cProtoIn)

/-- Inputs of the `I2CStream` in an execution of `I2CProto`. -/
def i2cProtoSi (n : Nat) : I2cStrIn := i2cProtoStrIn ((i2cProto period stretch).st i n) (i n)

theorem i2cProto_str (n : Nat) : ((i2cProto period stretch).st i n).str =
    (i2cStream period stretch).st (i2cProtoSi period stretch i) n := by
  induction n with
  | zero => rfl
  | succ n ih =>
    rw [Circuit.st_succ, Circuit.st_succ, ← ih]
    rfl

/-- Bytes accepted from the host. -/
def i2cProtoBytes (n : Nat) : List (BitVec 8) :=
  transferred (fun k => (i k).valid) (fun k => ((i2cProto period stretch).wave i k).ready)
    (fun k => (i k).data) n

/-- Bytes given to the host, with `last`. -/
def i2cProtoReplies (n : Nat) : List (Bool × BitVec 8) :=
  transferred (fun k => ((i2cProto period stretch).wave i k).valid) (fun k => (i k).ready)
    (fun k => (((i2cProto period stretch).wave i k).beat.last,
      ((i2cProto period stretch).wave i k).beat.payload)) n

/-- In cycle `n` the host offers a byte if the bridge is in the data bytes of a write command, after the end of the address byte. -/
def i2cProtoInTimeAt (n : Nat) : Prop :=
  (∃ rem, protoPhase (i2cProtoBytes period stretch i n) = .data rem) →
    ((i2cProto period stretch).st i n).fsm ≠ .addr → (i n).valid = true

/-- The host offers the data bytes of a write command without pause, from the end of the address byte on. -/
def i2cProtoInTime : Prop := ∀ n, i2cProtoInTimeAt period stretch i n

/-- Reads of zero bytes are refused: their address bytes are not acknowledged. -/
def i2cProtoZeroRefused : Prop :=
  ∀ n len, protoPhase (i2cProtoBytes period stretch i n) = .header (some len) →
    let x := i2cProtoSi period stretch i n
    let o := (i2cStream period stretch).wave (i2cProtoSi period stretch i) n
    x.valid = true → o.ready = true → x.beat.payload.1 = false → len = 0 → o.error = true

/-- When the last thing sent was a read of at least one byte whose address was not acknowledged, the host offers nothing until it
has got the status. -/
def i2cProtoPatient : Prop :=
  ∀ n a b c h L, ProtoSeq a b c → i2cProtoBytes period stretch i n = a ++ [h, BitVec.ofNat 8 L] →
    i2cStrBeats period stretch (i2cProtoSi period stretch i) n = b ++ [(protoAddr h false, true)] →
    i2cProtoReplies period stretch i n = c → h.getLsbD 0 = true → L ≠ 0 → L < 256 → (i n).valid = false

/-- Bytes delivered by the `I2CStream` inside, with `last`. -/
def i2cProtoData (n : Nat) : List (Bool × BitVec 8) :=
  transferred (fun k => ((i2cStream period stretch).wave (i2cProtoSi period stretch i) k).valid)
    (fun k => (i2cProtoSi period stretch i k).ready)
    (fun k => (((i2cStream period stretch).wave (i2cProtoSi period stretch i) k).beat.last,
      ((i2cStream period stretch).wave (i2cProtoSi period stretch i) k).beat.payload)) n

theorem proto_rel_upto (n : Nat)
    (ht : ∀ k, k < n → i2cProtoInTimeAt period stretch i k)
    (ha : ∀ k, k < n → ∀ len, protoPhase (i2cProtoBytes period stretch i k) = .header (some len) →
      let x := i2cProtoSi period stretch i k
      let o := (i2cStream period stretch).wave (i2cProtoSi period stretch i) k
      x.valid = true → o.ready = true → x.beat.payload.1 = false → len = 0 → o.error = true)
    (hq : ∀ k, k < n → ∀ a b c h L, ProtoSeq a b c → i2cProtoBytes period stretch i k = a ++ [h, BitVec.ofNat 8 L] →
      i2cStrBeats period stretch (i2cProtoSi period stretch i) k = b ++ [(protoAddr h false, true)] →
      i2cProtoReplies period stretch i k = c → h.getLsbD 0 = true → L ≠ 0 → L < 256 → (i k).valid = false) :
    protoRel (i2cProtoBytes period stretch i n) (i2cStrBeats period stretch (i2cProtoSi period stretch i) n)
      (i2cProtoReplies period stretch i n) (i2cProtoData period stretch i n) ((i2cProto period stretch).st i n) := by
  induction n with
  | zero =>
    exact ⟨(by intro h; exact nomatch h), (by intro h; exact nomatch h), [], [], [], [], ProtoSeqD.nil, rfl, rfl, rfl,
      rfl, none, rfl⟩
  | succ n ih =>
    have h := proto_step period stretch _ _ _ _ _ (i n)
      (ih (fun k hk => ht k (by omega)) (fun k hk => ha k (by omega)) (fun k hk => hq k (by omega))) (ht n (by omega)) ?_ (hq n (by omega))
    · have e : i2cStrBeats period stretch (i2cProtoSi period stretch i) (n + 1) =
          i2cStrBeats period stretch (i2cProtoSi period stretch i) n ++
            protoBeat period stretch ((i2cProto period stretch).st i n) (i n) := by
        unfold protoBeat
        rw [i2cProto_str]
        rfl
      have e' : i2cProtoData period stretch i (n + 1) = i2cProtoData period stretch i n ++
          protoDel period stretch ((i2cProto period stretch).st i n) (i n) := by
        unfold protoDel
        rw [i2cProto_str]
        rfl
      rw [e, e']
      exact h
    · intro len e hp hr hb
      have h1 := ha n (by omega) len hp
      have hx : i2cProtoSi period stretch i n = i2cProtoStrIn ((i2cProto period stretch).st i n) (i n) := rfl
      have ho : (i2cStream period stretch).wave (i2cProtoSi period stretch i) n =
          (i2cStream period stretch).out ((i2cProto period stretch).st i n).str
            (i2cProtoStrIn ((i2cProto period stretch).st i n) (i n)) := by
        rw [i2cProto_str]; rfl
      simp only [hx, ho] at h1
      unfold protoBeat at hb
      split at hb
      · rename_i hc
        rw [Bool.and_eq_true] at hc
        have he : ((i2cStream period stretch).out ((i2cProto period stretch).st i n).str
            (i2cProtoStrIn ((i2cProto period stretch).st i n) (i n))).error = e := by
          simpa using hb
        rw [← he]
        exact h1 hc.1 hc.2 hr
      · cases hb

theorem proto_rel (ht : i2cProtoInTime period stretch i) (ha : i2cProtoZeroRefused period stretch i)
    (hq : i2cProtoPatient period stretch i) (n : Nat) :
    protoRel (i2cProtoBytes period stretch i n) (i2cStrBeats period stretch (i2cProtoSi period stretch i) n)
      (i2cProtoReplies period stretch i n) (i2cProtoData period stretch i n) ((i2cProto period stretch).st i n) :=
  proto_rel_upto period stretch i n (fun k _ => ht k) (fun k _ => ha k) (fun k _ => hq k)

/-- C36, for hosts that send data bytes without pause and wait for the status of a refused read, and when empty reads are refused:
at any time the bytes taken from the host, the beats given to the I2C core and the replies are those of some complete well-formed
commands followed by prefixes of one more command; data is returned only when the whole read command was taken. Missing: pauses of
the host inside a write, hosts that send on before they got the status of a refused read, and empty reads that are acknowledged,
for which the claim is false (see the `_refuted` theorems). -/
theorem C36_proto_partial (ht : i2cProtoInTime period stretch i)
    (ha : i2cProtoZeroRefused period stretch i) (hq : i2cProtoPatient period stretch i) (n : Nat) :
    ∃ a b c a' b' c' p q r, ProtoSeq a b c ∧ ProtoOk a' b' c' ∧ p <+: a' ∧ q <+: b' ∧ r <+: c' ∧
      (r ≠ [] → p = a') ∧
      i2cProtoBytes period stretch i n = a ++ p ∧
      i2cStrBeats period stretch (i2cProtoSi period stretch i) n = b ++ q ∧
      i2cProtoReplies period stretch i n = c ++ r := by
  have h := proto_rel period stretch i ht ha hq n
  generalize i2cProtoBytes period stretch i n = A at *
  generalize i2cStrBeats period stretch (i2cProtoSi period stretch i) n = B at *
  generalize i2cProtoReplies period stretch i n = R at *
  generalize (i2cProto period stretch).st i n = s at *
  obtain ⟨fsm, header, len, status, str⟩ := s
  obtain ⟨_, _, a, b, c, d, hseqd, _, h⟩ := h
  have hseq := hseqd.seq
  have complete : ∀ (h : BitVec 8) (l : Nat), l < 256 → (h.getLsbD 0 = true → l ≠ 0) →
      ∃ rest bs rs, ProtoOk ([h, BitVec.ofNat 8 l] ++ rest) bs rs ∧
        (h.getLsbD 0 = true → rest = []) := by
    intro h l hl hz
    cases hh : h.getLsbD 0
    · exact ⟨List.replicate l 0, _, _, by
        simpa using ProtoOk.writeNakAddr h (List.replicate l 0) hh (by simpa using hl), by simp⟩
    · have := hz hh
      have := ProtoOk.read h (List.replicate (l - 1) 0) 0 hh (by simp; omega)
      rw [List.length_replicate, show l - 1 + 1 = l by omega] at this
      exact ⟨[], _, _, this, fun _ => rfl⟩
  cases fsm <;> simp only at h
  case header =>
    obtain ⟨rfl, rfl, rfl, _⟩ := h
    exact ⟨_, _, _, _, _, _, [], [], [], hseq, ProtoOk.probe 0 (by decide), by simp, by simp, by simp, by simp,
      by simp, by simp, by simp⟩
  case length =>
    obtain ⟨rfl, rfl, rfl, _⟩ := h
    obtain ⟨rest, bs, rs, hok, _⟩ := complete header 1 (by omega) (by simp)
    exact ⟨_, _, _, _, _, _, [header], [], [], hseq, hok, by simp, by simp, by simp, by simp, rfl, by simp,
      by simp⟩
  case addr =>
    obtain ⟨rfl, rfl, rfl, hl, _⟩ := h
    by_cases hz : header.getLsbD 0 = true ∧ len = 0
    · obtain ⟨h1, rfl⟩ := hz
      exact ⟨_, _, _, _, _, _, _, [], [], hseq, ProtoOk.readNak header 0 h1 hl, List.prefix_rfl,
        List.nil_prefix, List.nil_prefix, by simp, rfl, by simp, by simp⟩
    · obtain ⟨rest, bs, rs, hok, _⟩ := complete header len hl (fun h h0 => hz ⟨h, h0⟩)
      exact ⟨_, _, _, _, _, _, [header, BitVec.ofNat 8 len], [], [], hseq, hok, by simp, by simp, by simp,
        by simp, rfl, by simp, by simp⟩
  case ok =>
    obtain ⟨rfl, rfl, rfl, h1, h2, h3, _⟩ := h
    have := ProtoOk.read header (List.replicate (len - 1) 0) 0 h3 (by simp; omega)
    rw [List.length_replicate, show len - 1 + 1 = len by omega] at this
    exact ⟨_, _, _, _, _, _, _, [(protoAddr header false, false)], [], hseq, this, List.prefix_rfl, by simp,
      by simp, by simp, rfl, rfl, by simp⟩
  case read =>
    obtain ⟨k, pre, rd, rfl, h1, h2, h3, _, rfl, rfl, h5, _⟩ := h
    have hk : pre.length ≤ k := by omega
    have := ProtoOk.read header (pre ++ List.replicate (len + k - 1 - pre.length) 0) 0 h3
      (by simp; omega)
    rw [List.length_append, List.length_replicate,
      show pre.length + (len + k - 1 - pre.length) = len + k - 1 by omega,
      show len + k - 1 + 1 = len + k by omega] at this
    refine ⟨_, _, _, _, _, _, _, [(protoAddr header false, false)] ++
      List.replicate k (protoRd false, false), [(true, 0)] ++ pre.map (fun d => (false, d)), hseq, this,
      List.prefix_rfl, ?_, ?_, fun _ => rfl, rfl, by simp, by simp⟩
    · rw [show len + k - 1 = k + (len - 1) by omega, ← List.replicate_append_replicate]
      simp only [← List.append_assoc]
      rw [List.append_assoc (_ ++ _)]
      exact List.prefix_append _ _
    · simp
  case flush =>
    obtain ⟨pre, rd, rfl, h1, h2, _, rfl, rfl, _⟩ := h
    have := ProtoOk.read header pre 0 h2 h1
    refine ⟨_, _, _, _, _, _, _, _, [(true, 0)] ++ pre.map (fun d => (false, d)), hseq, this,
      List.prefix_rfl, List.prefix_rfl, ?_, fun _ => rfl, rfl, by simp, by simp⟩
    simp
  case write =>
    obtain ⟨pre, rfl, h1, h2, h3, _, rfl, rfl⟩ := h
    have := ProtoOk.write header (pre ++ List.replicate (len - 1) 0) 0 h3 (by simp; omega)
    rw [List.length_append, List.length_replicate, show pre.length + (len - 1) + 1 = len + pre.length by omega]
      at this
    refine ⟨_, _, _, _, _, _, [header, BitVec.ofNat 8 (len + pre.length)] ++ pre,
      [(protoAddr header false, false)] ++ pre.map (fun d => (protoWr false d, false)), [], hseq, this, ?_, ?_,
      by simp, by simp, by simp, by simp, by simp⟩
    · simp
    · simp
  case error =>
    obtain ⟨a', b', rfl, rfl, rfl, h1, h⟩ := h
    rcases h with ⟨h2, _⟩ | ⟨L, g1, _, rfl, rfl, g5, _⟩
    rotate_left
    · exact ⟨_, _, _, _, _, _, _, _, [], hseq, ProtoOk.readNak _ L g5 g1, List.prefix_rfl, List.prefix_rfl,
        by simp, by simp, rfl, rfl, by simp⟩
    exact ⟨_, _, _, _, _, _, a', b', [], hseq, h2 (List.replicate len 0) (by simp), by simp, List.prefix_rfl,
      by simp, by simp, rfl, rfl, by simp⟩
  case status =>
    obtain ⟨a', b', rfl, rfl, rfl, _, h2⟩ := h
    exact ⟨_, _, _, _, _, _, a', b', [], hseq, h2, List.prefix_rfl, List.prefix_rfl,
      by simp, by simp, rfl, rfl, by simp⟩

/-- C36: under the same assumption on the host, the I2C core is fed according to the stream rule, so that
everything proved about `I2CStream` (C34) applies to the bus of the bridge. -/
theorem C36_proto_core_stable_partial (ht : i2cProtoInTime period stretch i)
    (ha : i2cProtoZeroRefused period stretch i) (hq : i2cProtoPatient period stretch i)
    (hst : Stable (fun k => (i k).valid) (fun k => ((i2cProto period stretch).wave i k).ready)
      (fun k => (i k).data)) :
    i2cStrSinkStable period stretch (i2cProtoSi period stretch i) := by
  intro n hv hr
  dsimp only at hv hr ⊢
  have hrel := proto_rel period stretch i ht ha hq n
  have ht' := ht n
  unfold i2cProtoInTimeAt at ht'
  have hs := hst n
  simp only [Circuit.wave] at hr hs
  rw [← i2cProto_str] at hr
  unfold i2cProtoSi at hv hr ⊢
  rw [Circuit.st_succ]
  generalize i2cProtoBytes period stretch i n = A at *
  generalize (i2cProto period stretch).st i n = s at *
  obtain ⟨fsm, header, len, status, str⟩ := s
  obtain ⟨_, _, a, b, c, _, _, _, hrel⟩ := hrel
  cases fsm
  case addr =>
    have hn : (i2cProto period stretch).next ⟨.addr, header, len, status, str⟩ (i n) =
      ⟨.addr, header, len, status,
        (i2cStream period stretch).next str (i2cProtoStrIn ⟨.addr, header, len, status, str⟩ (i n))⟩ := by
      simp [i2cProto, i2cProtoFsm, hr]
    rw [hn]
    simp [i2cProtoStrIn]
  case read =>
    have hn : (i2cProto period stretch).next ⟨.read, header, len, status, str⟩ (i n) =
      ⟨.read, header, len, status,
        (i2cStream period stretch).next str (i2cProtoStrIn ⟨.read, header, len, status, str⟩ (i n))⟩ := by
      simp [i2cProto, i2cProtoFsm, hr]
    rw [hn]
    simp [i2cProtoStrIn]
  case write =>
    have hn : (i2cProto period stretch).next ⟨.write, header, len, status, str⟩ (i n) =
      ⟨.write, header, len, status,
        (i2cStream period stretch).next str (i2cProtoStrIn ⟨.write, header, len, status, str⟩ (i n))⟩ := by
      simp [i2cProto, i2cProtoFsm, hr]
    obtain ⟨pre, _, _, _, _, h5, _⟩ := hrel
    have hd := (hs (ht' ⟨_, h5⟩ (by simp)) (by simp [i2cProto, hr])).2
    rw [hn]
    simp [i2cProtoStrIn, hd]
  all_goals simp [i2cProtoStrIn] at hv

/-- C36: the commands executed on the bus are those of the beats (see C34). -/
theorem C36_proto_bus_partial (ht : i2cProtoInTime period stretch i)
    (ha : i2cProtoZeroRefused period stretch i) (hq : i2cProtoPatient period stretch i)
    (hst : Stable (fun k => (i k).valid) (fun k => ((i2cProto period stretch).wave i k).ready)
      (fun k => (i k).data)) (n : Nat) :
    let si := i2cProtoSi period stretch i
    let L := i2cCmdLog period stretch (i2cStrCi period stretch si) n
    let T := i2cTxn (i2cStrBeats period stretch si n)
    L = T.1 ∨ T.1 = L ++ [.stop] ∨ (T.2 = false ∧ L = T.1 ++ [.start]) ∨
      ((si n).valid = true ∧ (si n).beat.payload.1 = false ∧
        L = T.1 ++ (if T.2 then [] else [.start]) ++ [i2cBeatCmd (si n).beat]) :=
  C34_stream_commands period stretch _ (C36_proto_core_stable_partial period stretch i ht ha hq hst) n

/-! Witnesses -/

/-- Bytes, beats and replies computed together with the registers. -/
def i2cProtoRun : Nat → I2cProtoS × List (BitVec 8) × List (Beat (Bool × BitVec 8) × Bool) ×
    List (Bool × BitVec 8)
  | 0 => ((i2cProto period stretch).reset, [], [], [])
  | n + 1 =>
    let r := i2cProtoRun n
    ((i2cProto period stretch).next r.1 (i n), r.2.1 ++ protoAcc period stretch r.1 (i n),
      r.2.2.1 ++ protoBeat period stretch r.1 (i n), r.2.2.2 ++ protoGive period stretch r.1 (i n))

theorem i2cProtoRun_eq (n : Nat) : i2cProtoRun period stretch i n =
    ((i2cProto period stretch).st i n, i2cProtoBytes period stretch i n,
      i2cStrBeats period stretch (i2cProtoSi period stretch i) n, i2cProtoReplies period stretch i n) := by
  induction n with
  | zero => rfl
  | succ n ih =>
    rw [i2cProtoRun, ih]
    refine Prod.ext rfl (Prod.ext rfl (Prod.ext ?_ rfl))
    simp only [protoBeat]
    rw [i2cProto_str]
    rfl

end

/-- Reply of the devices on the bus from cycle 12 on: `sda`. -/
def protoHost (l : List (BitVec 8)) (sda : Bool) (n : Nat) : I2cProtoIn :=
  ⟨decide (n < l.length), l.getD n 0, true, true, decide (n < 12) || sda⟩

/-- C36 does not hold for a host that pauses inside a write: after header 0xA0 and length 1 a data byte is
written and success is reported although the host sent no data byte. -/
theorem C36_proto_pause_refuted :
    let i := protoHost [0xA0, 1] false
    i2cProtoBytes 4 false i 200 = [0xA0, 1] ∧
    i2cStrBeats 4 false (i2cProtoSi 4 false i) 200 =
      [(protoAddr 0xA0 false, false), (protoWr true 0, false)] ∧
    i2cProtoReplies 4 false i 200 = [(true, 0)] := by
  intro i
  have h : (i2cProtoRun 4 false i 200).2 =
      ([0xA0, 1], [(protoAddr 0xA0 false, false), (protoWr true 0, false)], [(true, 0)]) := by
    decide +kernel
  rw [i2cProtoRun_eq] at h
  simp only [Prod.mk.injEq] at h
  exact h

/-- C36 does not hold for an acknowledged read of zero bytes: bytes are read and returned. -/
theorem C36_proto_read_zero_refuted :
    let i := protoHost [0xA1, 0] false
    i2cProtoBytes 4 false i 300 = [0xA1, 0] ∧
    i2cProtoReplies 4 false i 300 = [(true, 0), (false, 0), (false, 0)] := by
  intro i
  have h : ((i2cProtoRun 4 false i 300).2.1, (i2cProtoRun 4 false i 300).2.2.2) =
      ([0xA1, 0], [(true, 0), (false, 0), (false, 0)]) := by
    decide +kernel
  rw [i2cProtoRun_eq] at h
  simp only [Prod.mk.injEq] at h
  exact h

/-- A host that sends a read of one byte from 0xA1 and then a write of no bytes to 0xB0, holding each byte until
it is taken; nobody acknowledges. -/
def protoNakHost (n : Nat) : I2cProtoIn :=
  ⟨decide (n < 87), if n = 0 then 0xA1 else if n = 1 then 1 else if n < 84 then 0xB0 else 0, true, true, true⟩

theorem proto_length_idle (period : Nat) (stretch : Bool) (s : I2cProtoS) (x : I2cProtoIn)
    (h : s.fsm = .length) (hv : x.valid = false) :
    ((i2cProto period stretch).next s x).fsm = .length ∧ ((i2cProto period stretch).out s x).valid = false := by
  simp [i2cProto, i2cProtoFsm, h, hv]

/-- C36 does not hold for a refused read: the header of the next command is discarded, its length byte is taken
as a header, and the second command is never answered. -/
theorem C36_proto_read_nak_refuted :
    i2cProtoBytes 4 false protoNakHost 87 = [0xA1, 1, 0xB0, 0] ∧
    (∀ n, 87 ≤ n → i2cProtoReplies 4 false protoNakHost n = [(true, 1)]) := by
  have h : ((i2cProtoRun 4 false protoNakHost 87).1.fsm, (i2cProtoRun 4 false protoNakHost 87).2.1,
      (i2cProtoRun 4 false protoNakHost 87).2.2.2) = (.length, [0xA1, 1, 0xB0, 0], [(true, 1)]) := by
    decide +kernel
  rw [i2cProtoRun_eq] at h
  simp only [Prod.mk.injEq] at h
  refine ⟨h.2.1, fun n hn => ?_⟩
  suffices ∀ k, ((i2cProto 4 false).st protoNakHost (87 + k)).fsm = .length ∧
      i2cProtoReplies 4 false protoNakHost (87 + k) = [(true, 1)] by
    rw [show n = 87 + (n - 87) by omega]; exact (this _).2
  intro k
  induction k with
  | zero => exact ⟨h.1, h.2.2⟩
  | succ k ih =>
    have := proto_length_idle 4 false _ (protoNakHost (87 + k)) ih.1 (by simp [protoNakHost])
    refine ⟨this.1, ?_⟩
    unfold i2cProtoReplies at ih ⊢
    rw [show 87 + (k + 1) = 87 + k + 1 by omega, transferred_succ, ih.2]
    simp [Circuit.wave, this.2]

/-! The hypotheses of the theorems above are met by a host that reads one byte (0xA1, 1), whether the address is acknowledged
(`sda = false`) or not. -/

theorem protoHost_read_phase (sda : Bool) (n : Nat) (hn : 2 ≤ n) :
    i2cProtoBytes 4 false (protoHost [0xA1, 1] sda) n = [0xA1, 1] := by
  rw [show n = 2 + (n - 2) by omega]
  generalize n - 2 = k
  induction k with
  | zero => cases sda <;> decide +kernel
  | succ k ih =>
    unfold i2cProtoBytes at ih ⊢
    rw [show 2 + (k + 1) = 2 + k + 1 by omega, transferred_succ, ih]
    have : (protoHost [0xA1, 1] sda (2 + k)).valid = false := by simp [protoHost]
    simp only [this]
    rfl

theorem protoHost_read_early (sda : Bool) (n : Nat) (hn : n < 2) :
    i2cProtoBytes 4 false (protoHost [0xA1, 1] sda) n = [0xA1].take n := by
  have : n = 0 ∨ n = 1 := by omega
  rcases this with rfl | rfl
  · rfl
  · cases sda <;> decide +kernel

example (sda : Bool) : i2cProtoInTime 4 false (protoHost [0xA1, 1] sda) := by
  rintro n ⟨rem, h⟩ -
  by_cases hn : n < 2
  · simp [protoHost, hn]
  · rw [protoHost_read_phase sda n (by omega)] at h
    exact absurd h (by simp [protoPhase, protoPhaseStep])

example (sda : Bool) : i2cProtoZeroRefused 4 false (protoHost [0xA1, 1] sda) := by
  intro n len hp x o hx ho hb hz
  subst hz
  by_cases hn : n < 2
  · have : n = 0 ∨ n = 1 := by omega
    rw [protoHost_read_early sda n hn] at hp
    rcases this with rfl | rfl <;> simp [protoPhase, protoPhaseStep] at hp
  · rw [protoHost_read_phase sda n (by omega)] at hp
    simp [protoPhase, protoPhaseStep] at hp

example (sda : Bool) : i2cProtoPatient 4 false (protoHost [0xA1, 1] sda) := by
  intro n a b c h L _ hA
  by_cases hn : n < 2
  · rw [protoHost_read_early sda n hn] at hA
    have := congrArg List.length hA
    simp at this
    omega
  · simp [protoHost]
    omega

example : i2cProtoReplies 4 false (protoHost [0xA1, 1] false) 300 = [(true, 0), (true, 0)] := by
  have h : (i2cProtoRun 4 false (protoHost [0xA1, 1] false) 300).2.2.2 = [(true, 0), (true, 0)] := by
    decide +kernel
  rw [i2cProtoRun_eq] at h
  exact h

example : i2cStrBeats 4 false (i2cProtoSi 4 false (protoHost [0xA1, 1] true)) 300 = [(protoAddr 0xA1 false, true)] ∧
    i2cProtoReplies 4 false (protoHost [0xA1, 1] true) 300 = [(true, 1)] := by
  have h : (i2cProtoRun 4 false (protoHost [0xA1, 1] true) 300).2.2 = ([(protoAddr 0xA1 false, true)], [(true, 1)]) := by
    decide +kernel
  rw [i2cProtoRun_eq] at h
  simp only [Prod.mk.injEq] at h
  exact h

end Lambdalib
