import Verif.Lemmas.Ulpi
import Mathlib.Tactic.Linarith
import Mathlib.Tactic.NormNum
import Mathlib.Data.Rat.Floor

/-! Properties of the ULPI link (C47, C48, C49, C57, C60, C73). -/

namespace Lambdalib

/-! ### C47: receive splitter -/

/-- The items given to the splitter in the first `n` cycles. -/
def rxItems (valid cmd : Nat → Bool) (data : Nat → Nat) : Nat → List RxItem
  | 0 => []
  | n + 1 => rxItems valid cmd data n ++
      (if valid n then [if cmd n then .cmd (data n) else .data (data n)] else [])

/-- The bytes presented by the splitter in the first `n` cycles. -/
def rxEmitted (valid : Nat → Bool) (data : Nat → Nat) (last : Nat → Bool) (n : Nat) : List (Nat × Bool) :=
  transferred valid (fun _ => true) (fun k => (data k, last k)) n

theorem splitRel_run (i : Nat → USplitIn) (n : Nat) :
    splitRel (splitterUlpi.st i n) (rxItems (fun k => (i k).valid) (fun k => (i k).cmd) (fun k => (i k).data) n)
      (rxEmitted (fun k => (splitterUlpi.wave i k).1) (fun k => (splitterUlpi.wave i k).2.1)
        (fun k => (splitterUlpi.wave i k).2.2) n) := by
  induction n with
  | zero => exact ⟨rfl, rfl⟩
  | succ n ih =>
    have := splitRel_step ih (i n)
    simp only [rxItems, rxEmitted, transferred, Bool.and_true] at this ⊢
    exact this

/-- C47: whatever the PHY sends, the bytes presented by the splitter up to the cycle after cycle `n` are the packets
made of the items given up to cycle `n`: RX CMDs dropped, `last` on the byte after which the packet is over. -/
theorem C47_packets (i : Nat → USplitIn) (n : Nat) :
    rxEmitted (fun k => (splitterUlpi.wave i k).1) (fun k => (splitterUlpi.wave i k).2.1)
        (fun k => (splitterUlpi.wave i k).2.2) (n + 1)
      = rxPackets (rxItems (fun k => (i k).valid) (fun k => (i k).cmd) (fun k => (i k).data) n) := by
  have h := (splitRel_run i n).1
  simp only [rxEmitted, transferred, Bool.and_true] at h ⊢
  exact h

/-- What the specification says: the data bytes of complete packets come out unchanged and in order. -/
theorem C47_bytes (l : List RxItem) :
    (rxPackets l).map Prod.fst <+: l.filterMap (fun e => match e with | .data b => some b | .cmd _ => none) := by
  induction l with
  | nil => exact List.prefix_rfl
  | cons e l ih =>
    cases e with
    | cmd v => exact ih
    | data b =>
      simp only [rxPackets, List.filterMap_cons]
      split
      · exact List.nil_prefix
      · simpa using ih

/-- A packet of bytes, RX CMDs of an active packet anywhere in it, ended by an inactive RX CMD: exactly its bytes come
out, the final one marked `last`, and what follows is treated afresh. -/
theorem C47_packet (p : List RxItem) (b v : Nat) (rest : List RxItem)
    (hp : ∀ e ∈ p, e.inactive = false) (hv : (RxItem.cmd v).inactive = true) (mid : List RxItem)
    (hm : ∀ e ∈ mid, e.active = true) :
    rxPackets (p ++ .data b :: mid ++ .cmd v :: rest) =
      (p.filterMap (fun e => match e with | .data b => some (b, false) | .cmd _ => none)) ++ (b, true) :: rxPackets rest := by
  have hva : (RxItem.cmd v).active = false := by
    simp [RxItem.inactive, RxItem.active] at hv ⊢; exact hv
  have hmid : ∀ (mid : List RxItem), (∀ e ∈ mid, e.active = true) →
      rxPackets (mid ++ .cmd v :: rest) = rxPackets rest ∧
      (mid ++ .cmd v :: rest).find? (fun e => !e.active) = some (.cmd v) := by
    intro mid hm
    induction mid with
    | nil => exact ⟨rfl, by rw [List.nil_append, List.find?_cons]; simp [hva]⟩
    | cons e t ih =>
      obtain ⟨h1, h2⟩ := ih (fun e he => hm e (List.mem_cons_of_mem _ he))
      have he := hm e List.mem_cons_self
      refine ⟨?_, by rw [List.cons_append, List.find?_cons]; simpa [he] using h2⟩
      cases e with
      | data b => simp [RxItem.active] at he
      | cmd w => exact h1
  have hfind : ∀ p : List RxItem, (∀ e ∈ p, e.inactive = false) →
      ∃ d, (p ++ .data b :: mid ++ .cmd v :: rest).find? (fun e => !e.active) = some d ∧ d.inactive = false := by
    intro p hp
    induction p with
    | nil => exact ⟨.data b, rfl, rfl⟩
    | cons e p ih =>
      have hpe := hp e List.mem_cons_self
      by_cases he : e.active = true
      · obtain ⟨d, hd, hd'⟩ := ih (fun x hx => hp x (List.mem_cons_of_mem _ hx))
        exact ⟨d, by rw [List.cons_append, List.cons_append, List.find?_cons]; simpa [he] using hd, hd'⟩
      · simp only [Bool.not_eq_true] at he
        exact ⟨e, by rw [List.cons_append, List.cons_append, List.find?_cons]; simp [he], hpe⟩
  induction p with
  | nil =>
    obtain ⟨h1, h2⟩ := hmid mid hm
    simp only [List.nil_append, List.cons_append, rxPackets, h2, h1, hv, List.filterMap_nil]
  | cons e p ih =>
    have ih := ih (fun e he => hp e (List.mem_cons_of_mem _ he))
    cases e with
    | cmd w => exact ih
    | data c =>
      have hf := hfind p (fun e he => hp e (List.mem_cons_of_mem _ he))
      obtain ⟨d, hd, hd'⟩ := hf
      show rxPackets (.data c :: (p ++ .data b :: mid ++ .cmd v :: rest)) = _
      simp only [rxPackets, hd, hd', ih, List.filterMap_cons, List.cons_append]

/-- A packet of two bytes with an RX CMD in between and after. -/
example : rxPackets [.cmd 0x10, .data 0xc3, .cmd 0x11, .data 7, .cmd 0x10, .cmd 0x01, .cmd 0x10, .data 9]
    = [(0xc3, false), (7, true)] := by decide

/-! ### C48: sender -/

theorem sender_step (s : Bool) (x : SIn Nat) (A D : List (Nat × Bool)) (h1 : D = txPackets true A)
    (h2 : s = txStart true A) :
    D ++ ((if (senderUlpi.out s x).valid && x.ready then [(senderUlpi.out s x).beat] else []).map
        (fun b => (b.payload, b.last)))
      = txPackets true (A ++ ((if x.valid && (senderUlpi.out s x).ready then [x.beat] else []).map
        (fun b => (b.payload, b.last)))) ∧
    senderUlpi.next s x = txStart true (A ++ ((if x.valid && (senderUlpi.out s x).ready then [x.beat] else []).map
        (fun b => (b.payload, b.last)))) := by
  have hr : (senderUlpi.out s x).ready = x.ready := by cases s <;> rfl
  have hv : (senderUlpi.out s x).valid = x.valid := by cases s <;> rfl
  rw [hr, hv, h1]
  by_cases hx : (x.valid && x.ready) = true
  · simp only [hx, if_true, List.map_cons, List.map_nil]
    rw [txPackets_snoc, txStart_snoc, ← h2]
    refine ⟨?_, if_pos hx⟩
    cases s <;> simp [senderUlpi, Nat.add_comm]
  · simp only [if_neg hx, List.map_nil, List.append_nil]
    exact ⟨trivial, (if_neg hx).trans h2⟩

theorem sender_run (i : Nat → SIn Nat) (n : Nat) :
    (delivered senderUlpi i n).map (fun b => (b.payload, b.last))
      = txPackets true ((accepted senderUlpi i n).map (fun b => (b.payload, b.last))) ∧
    senderUlpi.st i n = txStart true ((accepted senderUlpi i n).map (fun b => (b.payload, b.last))) := by
  induction n with
  | zero => exact ⟨rfl, rfl⟩
  | succ n ih =>
    obtain ⟨h1, h2⟩ := ih
    simp only [accepted, delivered, transferred, List.map_append] at h1 h2 ⊢
    exact sender_step _ (i n) _ _ h1 h2

/-- C48: at any time the beats delivered are the beats accepted, in order, with the first byte of each packet turned
into the transmit command carrying its packet identifier. -/
theorem C48_tagged (i : Nat → SIn Nat) (n : Nat) :
    (delivered senderUlpi i n).map (fun b => (b.payload, b.last))
      = txPackets true ((accepted senderUlpi i n).map (fun b => (b.payload, b.last))) := (sender_run i n).1

/-- C48: nothing is delayed: a beat is accepted exactly when it is delivered. -/
theorem C48_no_delay (i : Nat → SIn Nat) (n : Nat) :
    (senderUlpi.wave i n).valid = (i n).valid ∧ (senderUlpi.wave i n).ready = (i n).ready := by
  simp only [Circuit.wave]
  cases senderUlpi.st i n <;> exact ⟨rfl, rfl⟩

/-- C48: the offered beat does not change while it waits, if the input obeys the stream rule. -/
theorem C48_stable (i : Nat → SIn Nat) (h : SinkStable senderUlpi i) : SourceStable senderUlpi i := by
  intro n hv hr
  have hd := C48_no_delay i n
  obtain ⟨a, b⟩ := h n (hd.1.symm.trans hv) (hd.2.trans hr)
  refine ⟨(C48_no_delay i (n + 1)).1.trans a, ?_⟩
  have hb : (i (n + 1)).beat = (i n).beat := b
  have hr : (i n).ready = false := hr
  simp only [Circuit.wave, Circuit.st_succ]
  generalize senderUlpi.st i n = s
  have hs : senderUlpi.next s (i n) = s := by simp [senderUlpi, hr]
  rw [hs]
  cases s <;> simp [senderUlpi, hb]

/-- Two packets: a three-byte DATA0 packet and a one-byte ACK. -/
example : txPackets true [(0xc3, false), (0x80, false), (0x06, true), (0xd2, true)]
    = [(0x43, false), (0x80, false), (0x06, true), (0x42, true)] := by decide

/-! ### C49: transceiver -/

theorem xcvr_dirR (i : Nat → XcvrIn) (n : Nat) : (xcvr.st i n).dirR = prevOf false (fun k => (i k).dir) n := by
  cases n <;> rfl

/-- C49: the bus is driven exactly in the cycles where the PHY does not drive it and did not in the cycle before. -/
theorem C49_drive (i : Nat → XcvrIn) (n : Nat) :
    (xcvr.wave i n).oe = true ↔ (i n).dir = false ∧ prevOf false (fun k => (i k).dir) n = false := by
  rw [← xcvr_dirR]
  simp only [Circuit.wave]
  generalize xcvr.st i n = s
  simp [xcvr, and_comm]

/-- C49: a byte is consumed only in a cycle where the link drives the bus, the PHY asserts NXT, STP is low and the byte
itself is on the bus. -/
theorem C49_consume (i : Nat → XcvrIn) (n : Nat) (hv : (i n).valid = true) :
    (xcvr.wave i n).ready = true ↔
      ((xcvr.wave i n).oe = true ∧ (i n).nxt = true ∧ (xcvr.wave i n).stp = false) ∧
      (xcvr.wave i n).o = (i n).data := by
  simp only [Circuit.wave]
  generalize xcvr.st i n = s
  cases hd : s.dirR <;> cases hx : (i n).dir <;> cases hs : s.stp <;> cases hn : (i n).nxt <;>
    simp [xcvr, hd, hx, hs, hn, hv]

/-- C49: with nothing to send the bus shows the idle value. -/
theorem C49_idle (i : Nat → XcvrIn) (n : Nat) (hv : (i n).valid = false ∨ (xcvr.wave i n).stp = true) :
    (xcvr.wave i n).o = 0 := by
  simp only [Circuit.wave] at *
  generalize xcvr.st i n = s at *
  rcases hv with h | h
  · simp [xcvr, h]
  · have : s.stp = true := h
    simp [xcvr, this]

/-- C49: STP is high exactly in the cycle after the last byte of a packet is taken. -/
theorem C49_stp (i : Nat → XcvrIn) (n : Nat) :
    (xcvr.wave i 0).stp = false ∧
    ((xcvr.wave i (n + 1)).stp = true ↔
      (i n).valid = true ∧ (xcvr.wave i n).ready = true ∧ (i n).last = true) := by
  refine ⟨rfl, ?_⟩
  simp only [Circuit.wave, Circuit.st_succ]
  generalize xcvr.st i n = s
  cases hd : s.dirR <;> cases hx : (i n).dir <;> cases hs : s.stp <;> cases hn : (i n).nxt <;>
    simp [xcvr, hd, hx, hs, hn]

/-- C49: STP is a one-cycle pulse. -/
theorem C49_stp_pulse (i : Nat → XcvrIn) (n : Nat) (h : (xcvr.wave i n).stp = true) :
    (xcvr.wave i (n + 1)).stp = false := by
  cases h' : (xcvr.wave i (n + 1)).stp with
  | false => rfl
  | true =>
    obtain ⟨_, hr, _⟩ := ((C49_stp i n).2).mp h'
    simp only [Circuit.wave] at h hr
    generalize xcvr.st i n = s at *
    have hs : s.stp = true := h
    simp [xcvr, hs] at hr

theorem xcvr_report (s : XcvrS) (x y : XcvrIn) :
    (if (xcvr.out (xcvr.next s x) y).sValid then
        [if (xcvr.out (xcvr.next s x) y).sCmd then RxItem.cmd (xcvr.out (xcvr.next s x) y).sData
          else .data (xcvr.out (xcvr.next s x) y).sData] else [])
      = (if s.dirR && x.dir then [if x.nxt then .data x.dataI else .cmd x.dataI] else []) := by
  cases hd : s.dirR <;> cases hx : x.dir <;> cases hn : x.nxt <;> simp [xcvr, hd, hx, hn]

/-- C49: every byte on the bus outside turnaround cycles is reported exactly once, in the next cycle, in order, with
its command flag. -/
theorem C49_receive (i : Nat → XcvrIn) (n : Nat) :
    rxItems (fun k => (xcvr.wave i k).sValid) (fun k => (xcvr.wave i k).sCmd) (fun k => (xcvr.wave i k).sData) (n + 1)
      = rxSampled (fun k => (i k).dir) (fun k => (i k).nxt) (fun k => (i k).dataI) n := by
  induction n with
  | zero => rfl
  | succ n ih =>
    rw [rxItems, ih, rxSampled]
    congr 1
    rw [← xcvr_dirR]
    exact xcvr_report _ _ _

/-- A packet of two bytes sent while the PHY throttles, then the PHY takes the bus and sends an RX CMD. -/
example :
    let i : Nat → XcvrIn := fun n =>
      [⟨true, false, 0x43, false, false, 0⟩, ⟨true, false, 0x43, false, true, 0⟩, ⟨true, true, 9, false, true, 0⟩,
       ⟨false, false, 0, false, false, 0⟩, ⟨false, false, 0, true, false, 0⟩, ⟨false, false, 0, true, false, 0x4c⟩].getD n
        ⟨false, false, 0, false, false, 0⟩
    (List.range 7).map (fun n => ((xcvr.wave i n).oe, (xcvr.wave i n).o, (xcvr.wave i n).stp, (xcvr.wave i n).sValid))
      = [(true, 0x43, false, false), (true, 0x43, false, false), (true, 9, false, false), (true, 0, true, false),
         (false, 0, false, false), (false, 0, false, false), (false, 0, false, true)] := by decide

/-! ### C57: power-on reset -/

theorem por_run (c2 c4 : Nat) (h2 : c2 < 2 ^ 30) (h4 : c4 < 2 ^ 30) (i : Nat → Unit) (n : Nat) :
    (ulpiPor c2 c4).st i n =
      (if n ≤ c2 then (PorSt.reset, n) else if n ≤ c2 + 1 + c4 then (.wait, n - (c2 + 1)) else (.idle, 0)) := by
  induction n with
  | zero => simp [ulpiPor]
  | succ n ih =>
    rw [Circuit.st_succ, ih]
    by_cases a : n < c2
    · rw [if_pos (by omega), if_pos (by omega)]
      have hm : (n + 1) % 2 ^ 30 = n + 1 := Nat.mod_eq_of_lt (by omega)
      simp [ulpiPor, ulpiTimer, ulpiTimerDone, Nat.ne_of_lt a, -Nat.reducePow, hm]
    · by_cases b : n = c2
      · subst b
        rw [if_pos (by omega), if_neg (by omega), if_pos (by omega)]
        simp [ulpiPor, ulpiTimer, ulpiTimerDone]
      · by_cases c : n < c2 + 1 + c4
        · rw [if_neg (by omega), if_pos (by omega), if_neg (by omega), if_pos (by omega)]
          have hne : ¬ (n - (c2 + 1) = c4) := by omega
          have hm : (n - (c2 + 1) + 1) % 2 ^ 30 = n + 1 - (c2 + 1) := by
            rw [Nat.mod_eq_of_lt (by omega)]; omega
          simp only [ulpiPor, ulpiTimer, ulpiTimerDone, beq_eq_false_iff_ne.mpr hne, hm]; simp
        · by_cases d : n = c2 + 1 + c4
          · subst d
            rw [if_neg (by omega), if_pos (by omega), if_neg (by omega), if_neg (by omega)]
            simp [ulpiPor, ulpiTimer, ulpiTimerDone]
          · rw [if_neg (by omega), if_neg (by omega), if_neg (by omega), if_neg (by omega)]
            simp [ulpiPor, ulpiTimer]

/-- C57: the reset is high in exactly the first `c2 + 1` cycles and `done` in exactly the cycles after `c4 + 1` more,
for ever. -/
theorem C57_sequence (c2 c4 : Nat) (h2 : c2 < 2 ^ 30) (h4 : c4 < 2 ^ 30) (i : Nat → Unit) (n : Nat) :
    ((ulpiPor c2 c4).wave i n).1 = decide (n < c2 + 1) ∧
    ((ulpiPor c2 c4).wave i n).2 = decide (c2 + 1 + (c4 + 1) ≤ n) := by
  simp only [Circuit.wave, por_run c2 c4 h2 h4]
  by_cases a : n ≤ c2
  · rw [if_pos a]
    simp only [ulpiPor]
    refine ⟨?_, ?_⟩
    · rw [decide_eq_true (by omega)]; rfl
    · rw [decide_eq_false (by omega)]; rfl
  · rw [if_neg a]
    by_cases b : n ≤ c2 + 1 + c4
    · rw [if_pos b]
      simp only [ulpiPor]
      refine ⟨?_, ?_⟩
      · rw [decide_eq_false (by omega)]; rfl
      · rw [decide_eq_false (by omega)]; rfl
    · rw [if_neg b]
      simp only [ulpiPor]
      refine ⟨?_, ?_⟩
      · rw [decide_eq_false (by omega)]; rfl
      · rw [decide_eq_true (by omega)]; rfl

/-- C57: in time: for every clock frequency up to 200 GHz the reset lasts more than 2 µs and at most one clock period
longer; then 4 ms likewise. -/
theorem C57_time (f : Rat) (h0 : 0 < f) (h1 : f ≤ 200000000000) :
    ulpiC2 f < 2 ^ 30 ∧ ulpiC4 f < 2 ^ 30 ∧
    2 / 1000000 < ((ulpiC2 f + 1 : Nat) : Rat) / f ∧ ((ulpiC2 f + 1 : Nat) : Rat) / f ≤ 2 / 1000000 + 1 / f ∧
    4 / 1000 < ((ulpiC4 f + 1 : Nat) : Rat) / f ∧ ((ulpiC4 f + 1 : Nat) : Rat) / f ≤ 4 / 1000 + 1 / f := by
  have key : ∀ d : Rat, 0 < d → d ≤ 5 / 1000 →
      (f * d).floor.toNat < 2 ^ 30 ∧ d < (((f * d).floor.toNat + 1 : Nat) : Rat) / f ∧
      (((f * d).floor.toNat + 1 : Nat) : Rat) / f ≤ d + 1 / f := by
    intro d hd hd'
    have hp : 0 ≤ f * d := by positivity
    have hnn : 0 ≤ (f * d).floor := by rw [Rat.le_floor_iff]; simpa using hp
    have hc : (((f * d).floor.toNat : Nat) : Rat) = ((f * d).floor : Rat) := by
      have : (((f * d).floor.toNat : Nat) : Int) = (f * d).floor := Int.toNat_of_nonneg hnn
      exact_mod_cast congrArg (fun z : Int => (z : Rat)) this
    have hle := Rat.floor_le (f * d)
    have hlt := Rat.lt_floor_add_one (f * d)
    push_cast at hlt
    refine ⟨?_, ?_, ?_⟩
    · have : (((f * d).floor.toNat : Nat) : Rat) < ((2 ^ 30 : Nat) : Rat) := by
        rw [hc]; push_cast
        nlinarith
      exact_mod_cast this
    · rw [lt_div_iff₀ h0]; push_cast; rw [hc]; linarith [mul_comm f d]
    · rw [div_le_iff₀ h0, add_mul, one_div, inv_mul_cancel₀ (ne_of_gt h0)]; push_cast; rw [hc]
      linarith [mul_comm f d]
  obtain ⟨a1, a2, a3⟩ := key (2 / 1000000) (by norm_num) (by norm_num)
  obtain ⟨b1, b2, b3⟩ := key (4 / 1000) (by norm_num) (by norm_num)
  exact ⟨a1, b1, a2, a3, b2, b3⟩

/-- C57, UTMI translator: the reset is high for `cycles - 1` cycles, then low for ever. -/
theorem C57_utmi (cycles : Nat) (h : 0 < cycles) (i : Nat → Unit) (n : Nat) :
    (utmiPor cycles).wave i n = decide (n < cycles - 1) := by
  have hs : (utmiPor cycles).st i n = cycles - 1 - n := by
    induction n with
    | zero => rfl
    | succ n ih =>
      rw [Circuit.st_succ, ih]
      by_cases a : cycles - 1 - n > 0
      · simp only [utmiPor, a, if_true]
        rw [truncRange_of_lt (by omega)]; omega
      · simp only [utmiPor, a, if_false]; omega
  rw [Circuit.wave, hs]
  show decide (cycles - 1 - n > 0) = _
  congr 1
  exact propext (by omega)

example : ulpiC2 100000000 = 200 ∧ ulpiC4 100000000 = 400000 ∧ (400000 < 2 ^ 30) := by
  refine ⟨?_, ?_, by decide⟩
  · have : (100000000 * (2 / 1000000) : Rat) = ((200 : Int) : Rat) := by norm_num
    rw [ulpiC2, this, Rat.floor_intCast]; rfl
  · have : (100000000 * (4 / 1000) : Rat) = ((400000 : Int) : Rat) := by norm_num
    rw [ulpiC4, this, Rat.floor_intCast]; rfl

end Lambdalib
