import Verif.Spec.I2cBridge
import Verif.Lemmas.I2cBus
import Verif.Props.I2cSystem
import Verif.Props.I2cProto

/-! Helper lemmas for the I2C bridge on the wires. -/

namespace Lambdalib

section
variable (D : I2cDev)

theorem byte_even (h : BitVec 8) (hb : h.getLsbD 0 = false) : h.toNat % 2 = 0 ∧ BitVec.ofNat 8 (2 * (h.toNat / 2)) = h := by
  rw [← BitVec.testBit_toNat, Nat.testBit_zero] at hb
  have hh : h.toNat % 2 = 0 := by simpa using hb
  refine ⟨hh, ?_⟩
  rw [show 2 * (h.toNat / 2) = h.toNat by omega]
  simp

theorem byte_odd (h : BitVec 8) (hb : h.getLsbD 0 = true) :
    h.toNat % 2 = 1 ∧ BitVec.ofNat 8 (2 * (h.toNat / 2) + 1) = h := by
  rw [← BitVec.testBit_toNat, Nat.testBit_zero] at hb
  have hh : h.toNat % 2 = 1 := by simpa using hb
  refine ⟨hh, ?_⟩
  rw [show 2 * (h.toNat / 2) + 1 = h.toNat by omega]
  simp

/-- A packet that is acknowledged. -/
theorem I2cDev.exec_ok (l : List (Beat (Bool × BitVec 8))) (r : DevAbs × Bool) (h : ∀ e ∈ D.naks r l, e = false) :
    D.exec r l = (l.foldl D.beat r, some ((D.reads r l).map (·.payload))) := by
  induction l generalizing r with
  | nil => rfl
  | cons b l ih =>
    simp only [I2cDev.naks, List.mem_cons, forall_eq_or_imp] at h
    rw [I2cDev.exec, h.1, ih _ h.2]
    simp only [Bool.false_eq_true, if_false, List.foldl_cons, I2cDev.reads, List.map_append, Option.map_some]
    split <;> rfl

/-- A packet with a byte that is not acknowledged. -/
theorem I2cDev.exec_nak (l : List (Beat (Bool × BitVec 8))) (b : Beat (Bool × BitVec 8)) (rest : List (Beat (Bool × BitVec 8)))
    (r : DevAbs × Bool) (h : ∀ e ∈ D.naks r l, e = false) (hb : D.nak (l.foldl D.beat r) b = true) :
    D.exec r (l ++ b :: rest) = ((l ++ [b]).foldl D.beat r, none) := by
  induction l generalizing r with
  | nil => simp only [List.foldl_nil] at hb; simp [I2cDev.exec, hb]
  | cons c l ih =>
    simp only [I2cDev.naks, List.mem_cons, forall_eq_or_imp] at h
    rw [List.cons_append, I2cDev.exec, h.1, ih _ h.2 hb]
    simp

theorem wrBeats_append (pre : List (BitVec 8)) (b : BitVec 8) (post : List (BitVec 8)) :
    wrBeats (pre ++ b :: post) = pre.map (protoWr false) ++ protoWr post.isEmpty b :: wrBeats post := by
  induction pre with
  | nil => rfl
  | cons c pre ih => rw [List.cons_append, wrBeats, ih]; cases pre <;> simp

theorem rdBeats_eq (n : Nat) : rdBeats (n + 1) = List.replicate n (protoRd false) ++ [protoRd true] := by
  induction n with
  | zero => rfl
  | succ n ih => rw [rdBeats, ih]; simp [List.replicate_succ]

theorem I2cDev.naks_read (r : DevAbs × Bool) (l : List (Beat (Bool × BitVec 8))) (h : ∀ b ∈ l, b.payload.1 = true) :
    ∀ e ∈ D.naks r l, e = false := by
  induction l generalizing r with
  | nil => simp [I2cDev.naks]
  | cons b l ih =>
    simp only [List.mem_cons, forall_eq_or_imp] at h
    simp only [I2cDev.naks, List.mem_cons, forall_eq_or_imp]
    exact ⟨by simp [I2cDev.nak, h.1], ih _ h.2⟩

theorem I2cDev.reads_write (r : DevAbs × Bool) (l : List (Beat (Bool × BitVec 8))) (h : ∀ b ∈ l, b.payload.1 = false) :
    D.reads r l = [] := by
  induction l generalizing r with
  | nil => rfl
  | cons b l ih =>
    simp only [List.mem_cons, forall_eq_or_imp] at h
    simp [I2cDev.reads, h.1, ih _ h.2]

theorem I2cDev.reads_length (r : DevAbs × Bool) (l : List (Beat (Bool × BitVec 8))) :
    (D.reads r l).length = (l.filter fun b => b.payload.1).length := by
  induction l generalizing r with
  | nil => rfl
  | cons b l ih =>
    cases h : b.payload.1 <;> simp [I2cDev.reads, h, ih, Nat.add_comm]

theorem I2cDev.beats_closed (r : DevAbs × Bool) (b : Beat (Bool × BitVec 8)) : (D.beat r b).2 = !(b.last || D.nak r b) := by
  simp only [I2cDev.beat]
  split
  · rename_i h; simp [h]
  · rename_i h; simp only [Bool.not_eq_true] at h; simp [h]

theorem rdBeats_read (n : Nat) : ∀ b ∈ rdBeats n, b.payload.1 = true := by
  induction n with
  | zero => simp [rdBeats]
  | succ n ih =>
    simp only [rdBeats, List.mem_cons, forall_eq_or_imp]
    exact ⟨rfl, ih⟩

/-- A read is refused exactly if its address is. -/
theorem I2cDev.bus_read (r : DevAbs × Bool) (h : BitVec 8) (hb : h.getLsbD 0 = true) (n : Nat) :
    (D.exec r (txnBeats (.read (h.toNat / 2) n))).2 = none ↔ D.nak r (protoAddr h (n == 0)) = true := by
  rw [txnBeats, (byte_odd h hb).2, I2cDev.exec]
  cases hn : D.nak r (protoAddr h (n == 0))
  · simp only [Bool.false_eq_true, if_false]
    rw [D.exec_ok _ _ (D.naks_read _ _ (rdBeats_read n))]
    simp
  · simp

/-- A packet that was acknowledged. -/
theorem exec_all (l : List (Beat (Bool × BitVec 8))) (x : Beat (Bool × BitVec 8)) (hx : x.last = true) (r : DevAbs × Bool)
    (h : ∀ e ∈ D.naks r (l ++ [x]), e = false) :
    D.exec r (l ++ [x]) = ((l ++ [x]).foldl D.beat r, some ((D.reads r (l ++ [x])).map (·.payload))) ∧
    ((l ++ [x]).foldl D.beat r).2 = false := by
  refine ⟨D.exec_ok _ r h, ?_⟩
  rw [List.foldl_append, List.foldl_cons, List.foldl_nil, D.beats_closed, hx]
  rfl

/-- A packet that was refused at the byte `x`. -/
theorem exec_refused (l : List (Beat (Bool × BitVec 8))) (x : Beat (Bool × BitVec 8)) (rest : List (Beat (Bool × BitVec 8)))
    (r : DevAbs × Bool) (hB : List.replicate l.length false ++ [true] = D.naks r (l ++ [x])) :
    D.exec r (l ++ x :: rest) = ((l ++ [x]).foldl D.beat r, none) ∧ ((l ++ [x]).foldl D.beat r).2 = false := by
  rw [D.naks_append] at hB
  obtain ⟨h1, h2⟩ := List.append_inj hB (by rw [D.naks_length]; simp)
  simp only [I2cDev.naks, List.cons.injEq, and_true] at h2
  refine ⟨D.exec_nak _ _ _ r (fun e he => ?_) h2.symm, ?_⟩
  · rw [← h1] at he
    exact (List.mem_replicate.mp he).2
  · rw [List.foldl_append, List.foldl_cons, List.foldl_nil, D.beats_closed, ← h2]
    simp

/-- A well-formed command whose results are those of the device has the effect of its transaction. -/
theorem proto_exec {a b c} (h : ProtoOk a b c) (r : DevAbs × Bool) (hB : b.map Prod.snd = D.naks r (b.map Prod.fst)) :
    (D.exec r (txnBeats (cmdTxn a))).1 = (b.map Prod.fst).foldl D.beat r ∧
    ((b.map Prod.fst).foldl D.beat r).2 = false ∧
    c.tail.length = (D.reads r (b.map Prod.fst)).length ∧
    (c.tail = (D.reads r (b.map Prod.fst)).map (fun x => (x.last, x.payload)) →
      c.map Prod.snd = txnReply (D.exec r (txnBeats (cmdTxn a))).2) ∧
    (txnReply (D.exec r (txnBeats (cmdTxn a))).2).length = c.length := by
  cases h with
  | probe h hw =>
    obtain ⟨h1, h2⟩ := byte_even h hw
    have e : txnBeats (cmdTxn [h, 0]) = [] ++ [protoAddr h true] := by
      simp [cmdTxn, h1, txnBeats, h2, wrBeats]
    obtain ⟨g1, g2⟩ := exec_all D [] (protoAddr h true) rfl r (by
      intro e he
      rw [show [] ++ [protoAddr h true] = [(protoAddr h true, false)].map Prod.fst from rfl, ← hB] at he
      simpa using he)
    rw [e, g1]
    exact ⟨rfl, g2, rfl, fun _ => rfl, rfl⟩
  | write h pre b hw hl =>
    obtain ⟨h1, h2⟩ := byte_even h hw
    have e : txnBeats (cmdTxn ([h, BitVec.ofNat 8 (pre.length + 1)] ++ pre ++ [b])) =
        (protoAddr h false :: pre.map (protoWr false)) ++ [protoWr true b] := by
      simp [cmdTxn, h1, txnBeats, h2, wrBeats_append, wrBeats]
      cases pre <;> rfl
    have e2 : ([(protoAddr h false, false)] ++ pre.map (fun d => (protoWr false d, false)) ++
        [(protoWr true b, false)]).map Prod.fst = (protoAddr h false :: pre.map (protoWr false)) ++ [protoWr true b] := by
      simp
    rw [e2] at hB ⊢
    obtain ⟨g1, g2⟩ := exec_all D (protoAddr h false :: pre.map (protoWr false)) (protoWr true b) rfl r (by
      intro e he
      rw [← hB] at he
      simp at he
      grind)
    have g3 : D.reads r ((protoAddr h false :: pre.map (protoWr false)) ++ [protoWr true b]) = [] := by
      apply D.reads_write
      intro x hx
      simp at hx
      rcases hx with rfl | ⟨_, _, rfl⟩ | rfl <;> rfl
    rw [e, g1, g3]
    exact ⟨rfl, g2, rfl, fun _ => rfl, rfl⟩
  | writeNakAddr h data hw hl =>
    obtain ⟨h1, h2⟩ := byte_even h hw
    have e : txnBeats (cmdTxn ([h, BitVec.ofNat 8 data.length] ++ data)) =
        [] ++ protoAddr h data.isEmpty :: wrBeats data := by
      simp [cmdTxn, h1, txnBeats, h2]
    obtain ⟨g1, g2⟩ := exec_refused D [] (protoAddr h data.isEmpty) (wrBeats data) r hB
    rw [e, g1]
    exact ⟨rfl, g2, rfl, fun _ => rfl, rfl⟩
  | writeNak h pre b post hw hl =>
    obtain ⟨h1, h2⟩ := byte_even h hw
    have e : txnBeats (cmdTxn ([h, BitVec.ofNat 8 (pre.length + 1 + post.length)] ++ pre ++ [b] ++ post)) =
        (protoAddr h false :: pre.map (protoWr false)) ++ protoWr post.isEmpty b :: wrBeats post := by
      simp [cmdTxn, h1, txnBeats, h2, wrBeats_append]
      cases pre <;> rfl
    have e2 : ([(protoAddr h false, false)] ++ pre.map (fun d => (protoWr false d, false)) ++
        [(protoWr post.isEmpty b, true)]).map Prod.fst =
          (protoAddr h false :: pre.map (protoWr false)) ++ [protoWr post.isEmpty b] := by
      simp
    rw [e2] at hB ⊢
    obtain ⟨g1, g2⟩ := exec_refused D (protoAddr h false :: pre.map (protoWr false)) (protoWr post.isEmpty b) (wrBeats post) r
      (by
        rw [← hB]
        simp [List.replicate_succ, Function.comp_def, List.map_const'])
    have g3 : D.reads r ((protoAddr h false :: pre.map (protoWr false)) ++ [protoWr post.isEmpty b]) = [] := by
      apply D.reads_write
      intro x hx
      simp at hx
      rcases hx with rfl | ⟨_, _, rfl⟩ | rfl <;> rfl
    rw [e, g1, g3]
    exact ⟨rfl, g2, rfl, fun _ => rfl, rfl⟩
  | read h pre b hr hl =>
    obtain ⟨h1, h2⟩ := byte_odd h hr
    have e : txnBeats (cmdTxn [h, BitVec.ofNat 8 (pre.length + 1)]) =
        (protoAddr h false :: List.replicate pre.length (protoRd false)) ++ [protoRd true] := by
      have : (pre.length + 1) % 256 = pre.length + 1 := Nat.mod_eq_of_lt hl
      simp [cmdTxn, h1, txnBeats, h2, rdBeats_eq, this]
    have e2 : ([(protoAddr h false, false)] ++ List.replicate pre.length (protoRd false, false) ++
        [(protoRd true, false)]).map Prod.fst =
          (protoAddr h false :: List.replicate pre.length (protoRd false)) ++ [protoRd true] := by
      simp
    rw [e2] at hB ⊢
    obtain ⟨g1, g2⟩ := exec_all D (protoAddr h false :: List.replicate pre.length (protoRd false)) (protoRd true) rfl r (by
      intro e he
      rw [← hB] at he
      simp at he
      grind)
    rw [e, g1]
    refine ⟨rfl, g2, ?_, fun hc => ?_, ?_⟩
    · rw [D.reads_length]
      simp [protoAddr, protoRd]
    rotate_left
    · simp only [txnReply, List.length_cons, List.length_map, D.reads_length]
      simp [protoAddr, protoRd]
    · simp only [txnReply]
      rw [show ([(true, (0 : BitVec 8))] ++ pre.map (fun d => (false, d)) ++ [(true, b)]).map Prod.snd =
        0 :: (([(true, (0 : BitVec 8))] ++ pre.map (fun d => (false, d)) ++ [(true, b)]).tail).map Prod.snd by simp, hc,
        List.map_map]
      rfl
  | readNak h len hr hl =>
    obtain ⟨h1, h2⟩ := byte_odd h hr
    have e : txnBeats (cmdTxn [h, BitVec.ofNat 8 len]) = [] ++ protoAddr h (len == 0) :: rdBeats len := by
      have : len % 256 = len := Nat.mod_eq_of_lt hl
      simp [cmdTxn, h1, txnBeats, h2, this]
    obtain ⟨g1, g2⟩ := exec_refused D [] (protoAddr h (len == 0)) (rdBeats len) r hB
    rw [e, g1]
    exact ⟨rfl, g2, rfl, fun _ => rfl, rfl⟩

/-- What the bridge machine does with the bytes of a well-formed command. -/
theorem proto_bridge {a b c} (h : ProtoOk a b c) (d : BusDevices) (s : BridgeS) (hp : s.pending = []) :
    a.foldl (bridgeByte d) s = ⟨[], s.replies ++ txnReply (d s.log (cmdTxn a)), s.log ++ [cmdTxn a]⟩ := by
  have hz : BitVec.ofNat 8 (0 : Nat) = 0 := rfl
  have W : ∀ (h : BitVec 8) (data : List (BitVec 8)), h.getLsbD 0 = false → data.length < 256 →
      ([h, BitVec.ofNat 8 data.length] ++ data).foldl (bridgeByte d) s =
      ⟨[], s.replies ++ txnReply (d s.log (cmdTxn ([h, BitVec.ofNat 8 data.length] ++ data))),
        s.log ++ [cmdTxn ([h, BitVec.ofNat 8 data.length] ++ data)]⟩ := by
    intro h data hb hl
    have hh := (byte_even h hb).1
    rw [bridge_write d s h data hp hh hl]
    simp [cmdTxn, hh]
  have R : ∀ (h : BitVec 8) (l : BitVec 8), h.getLsbD 0 = true →
      [h, l].foldl (bridgeByte d) s = ⟨[], s.replies ++ txnReply (d s.log (cmdTxn [h, l])), s.log ++ [cmdTxn [h, l]]⟩ := by
    intro h l hb
    have hh := (byte_odd h hb).1
    rw [bridge_read d s h l hp hh]
    simp [cmdTxn, hh]
  cases h with
  | probe h hw => exact W h [] hw (by simp)
  | write h pre b hw hl =>
    have := W h (pre ++ [b]) hw (by simpa using hl)
    simpa using this
  | writeNakAddr h data hw hl => exact W h data hw hl
  | writeNak h pre b post hw hl =>
    have := W h (pre ++ [b] ++ post) hw (by simp; omega)
    simpa [Nat.add_assoc, Nat.add_comm, Nat.add_left_comm] using this
  | read h pre b hr hl => exact R h _ hr
  | readNak h len hr hl => exact R h _ hr

/-- Complete commands whose results are those of the device. -/
theorem seq_bridge {a b c d} (h : ProtoSeqD a b c d) (hB : b.map Prod.snd = D.naks devRest (b.map Prod.fst)) :
    let S := a.foldl (bridgeByte D.bus) ⟨[], [], []⟩
    S.pending = [] ∧ D.state S.log = D.beats (b.map Prod.fst) ∧ (D.beats (b.map Prod.fst)).2 = false ∧
    d.length = (D.reads devRest (b.map Prod.fst)).length ∧
    (d = (D.reads devRest (b.map Prod.fst)).map (fun x => (x.last, x.payload)) → S.replies = c.map Prod.snd) ∧
    S.replies.length = c.length := by
  induction h with
  | nil => exact ⟨rfl, rfl, rfl, rfl, fun _ => rfl, rfl⟩
  | @snoc a b c d a' b' c' hs hok ih =>
    intro S
    rw [List.map_append, List.map_append, D.naks_append] at hB
    obtain ⟨hB1, hB2⟩ := List.append_inj hB (by rw [D.naks_length]; simp)
    obtain ⟨i1, i2, i3, i4, i5, i6⟩ := ih hB1
    obtain ⟨j1, j2, j3, j4, j5⟩ := proto_exec D hok _ hB2
    have hbs : ((b.map Prod.fst).foldl D.beat devRest) = D.beats (b.map Prod.fst) := rfl
    rw [hbs] at j1 j2 j3 j4 j5
    have hS : S = (a' : List (BitVec 8)).foldl (bridgeByte D.bus) (a.foldl (bridgeByte D.bus) ⟨[], [], []⟩) := by
      simp only [S]
      rw [List.foldl_append]
    rw [hS, proto_bridge hok D.bus _ i1]
    have hst : ∀ l t, D.state (l ++ [t]) = (D.exec (D.state l) (txnBeats t)).1 := fun l t => by simp [I2cDev.state]
    have hb2 : D.beats ((b ++ b').map Prod.fst) = (b'.map Prod.fst).foldl D.beat (D.beats (b.map Prod.fst)) := by
      simp [I2cDev.beats]
    refine ⟨rfl, ?_, ?_, ?_, ?_, ?_⟩
    · simp only
      rw [hst, i2, hb2, j1]
    · rw [hb2, j2]
    · rw [List.map_append, D.reads_append, List.length_append, List.length_append, i4, j3]
      rfl
    · intro hd
      rw [List.map_append, D.reads_append, List.map_append] at hd
      obtain ⟨k1, k2⟩ := List.append_inj hd (by rw [i4]; simp)
      simp only
      rw [i5 k1, List.map_append, j4 k2, I2cDev.bus, i2]
    · simp only
      rw [List.length_append, List.length_append, i6, ← j5, I2cDev.bus, i2]

end

end Lambdalib
