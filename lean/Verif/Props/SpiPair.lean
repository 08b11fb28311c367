import Verif.Lemmas.SpiSampled
import Verif.Props.SpiMaster
import Verif.Props.SpiSlvTop

/-! C114: the SPI master bridge on one board and the SPI slave bridge on another, each with its own clock. The theorems are for slaves
that sample the pins at least once in 4 cycles of the master. Missing: slower ones, see `C114_slow_slave_refuted`. -/

namespace Lambdalib

/-- The pins of the two bridges are connected. In its cycle `n` the slave samples the pins as they are in cycle `t n` of the master. The
clocks have nothing to do with each other, but between two samples the master makes no more than half a period of the SPI clock, and no
more than 4 cycles. -/
structure SpiWired (nb div csDelay : Nat) (i : Nat → SpiMstIn) (j : Nat → SlvTopIn) (t : Nat → Nat) : Prop where
  start : t 0 = 0
  mono : ∀ n, t n ≤ t (n + 1)
  half : ∀ n, t (n + 1) ≤ t n + (div % 256 + 1)
  four : ∀ n, t (n + 1) ≤ t n + 4
  clk : ∀ n, (j n).clk = mstClk 8 nb div csDelay i (t n)
  csN : ∀ n, (j n).csN = mstCsN 8 nb div csDelay i (t n)
  dq : ∀ n, (j n).dq = (mstDq 8 nb div csDelay i (t n)).1

section
variable {nb div csDelay : Nat} {i : Nat → SpiMstIn} {j : Nat → SlvTopIn} {t : Nat → Nat}

theorem pair_cfg (hnb : nb = 1 ∨ nb = 2 ∨ nb = 4 ∨ nb = 8) : SpiMstCfg 8 nb :=
  ⟨hnb, by rcases hnb with rfl | rfl | rfl | rfl <;> decide, by omega, by omega⟩

theorem SpiWired.mono_le (h : SpiWired nb div csDelay i j t) {a b : Nat} (hab : a ≤ b) : t a ≤ t b := by
  obtain ⟨d, rfl⟩ := Nat.exists_eq_add_of_le hab
  induction d with
  | zero => exact Nat.le_refl _
  | succ d ih => exact Nat.le_trans (ih (by omega)) (h.mono (a + d))

/-- What the slave has seen, against the words accepted by the master. -/
theorem pair_spec (h : SpiWired nb div csDelay i j t) (hnb : nb = 1 ∨ nb = 2 ∨ nb = 4 ∨ nb = 8) (n : Nat) :
    ∃ A e cur, mstAcc 8 nb div csDelay i (t n + 1) = A ++ cur ∧ (cur = [] ∧ e = [] ∨ cur.length = 1 ∧ e.length < 8 / nb) ∧
      (linkPulses 8 nb div csDelay 8 false (mstLink i) (t n + 1)).length = A.length * (8 / nb) + List.length (α := Nat) e ∧
      slvSent nb j (n + 3) = A.map fun b => (b.2 % 2 ^ 8, 8) := by
  have hs := link_sampled 8 nb div csDelay 8 false (mstLink i) (pair_cfg hnb).link t h.start
    (fun n => ⟨h.mono n, h.half n, h.four n⟩) n
  obtain ⟨A, e, cur, h1, h2, h3, h4⟩ := link_spec 8 nb div csDelay 8 false (mstLink i) (pair_cfg hnb).link (t n + 1)
  refine ⟨A, e, cur, by rw [mst_acc]; exact h1, h2, h3, ?_⟩
  rw [h4] at hs
  have hseen : slvSeen true (slvTopIn j) (n + 3) = slvEvents true (fun k => (j k).clk) (fun k => (j k).csN) (fun k => (j k).dq) (n + 1) :=
    slvEvents_sync true _ _ _ (n + 1)
  have e1 : (fun k => (j k).clk) = fun k => linkClk 8 nb div csDelay 8 false (mstLink i) (t k) := by
    funext k; rw [h.clk, mst_clk]
  have e2 : (fun k => (j k).csN) = fun k => linkCsN 8 nb div csDelay 8 false (mstLink i) (t k) := by
    funext k; rw [h.csN, mst_csn]
  have e3 : (fun k => (j k).dq) = fun k => linkDq 8 nb div csDelay 8 false (mstLink i) (t k) := by
    funext k; rw [h.dq]; unfold mstDq; rw [mst_out]; rfl
  rw [slvSent, hseen, e1, e2, e3, hs]

theorem slvSent_first (n : Nat) (hn : n < 3) : ∀ w, w ∉ slvSent nb j n := by
  intro w hw
  have h2 : slvSeen true (slvTopIn j) 2 = [] := rfl
  have h3 : slvSent nb j n = [] := by
    match n, hn with
    | 0, _ => rfl
    | 1, _ => rfl
    | 2, _ => rw [slvSent, h2]; rfl
  rw [h3] at hw
  cases hw

/-- **C114.** The slave sees whole bytes only: they are the first of those accepted by the master. -/
theorem C114_sent_partial (h : SpiWired nb div csDelay i j t) (hnb : nb = 1 ∨ nb = 2 ∨ nb = 4 ∨ nb = 8) (n : Nat) :
    (∀ w ∈ slvSent nb j n, w.2 = 8) ∧
      (slvSent nb j n).map Prod.fst <+: (mstAcc 8 nb div csDelay i (t n + 1)).map fun b => b.2 % 256 := by
  rcases Nat.lt_or_ge n 3 with hn | hn
  · have : slvSent nb j n = [] := List.eq_nil_iff_forall_not_mem.mpr (slvSent_first n hn)
    rw [this]
    exact ⟨nofun, List.nil_prefix⟩
  · obtain ⟨k, rfl⟩ : ∃ k, n = k + 3 := ⟨n - 3, by omega⟩
    obtain ⟨A, e, cur, h1, _, _, h4⟩ := pair_spec h hnb k
    rw [h4]
    refine ⟨?_, ?_⟩
    · intro w hw
      obtain ⟨b, _, rfl⟩ := List.mem_map.mp hw
      rfl
    · rw [List.map_map]
      have hm : mstAcc 8 nb div csDelay i (t k + 1) <+: mstAcc 8 nb div csDelay i (t (k + 3) + 1) := by
        obtain ⟨d, hd⟩ := Nat.exists_eq_add_of_le (h.mono_le (show k ≤ k + 3 by omega))
        rw [hd, show t k + d + 1 = t k + 1 + d by omega]
        exact transferred_prefix _ _ _ (t k + 1) d
      rw [h1] at hm
      exact List.IsPrefix.map (fun b : Bool × Nat => b.2 % 256) ((List.prefix_append _ _).trans hm)

/-- **C114.** The bytes given to the USB device of the slave's board are at any time the first of those accepted from the USB device of
the master's board, if none was lost in the FIFO. -/
theorem C114_bytes_partial (h : SpiWired nb div csDelay i j t) (hnb : nb = 1 ∨ nb = 2 ∨ nb = 4 ∨ nb = 8) (n : Nat)
    (hroom : ∀ k < n, ¬ slvLost nb j k) :
    slvGot nb j n <+: (mstAcc 8 nb div csDelay i (t n + 1)).map fun b => b.2 % 256 := by
  obtain ⟨h1, h2⟩ := C114_sent_partial h hnb n
  obtain ⟨p, _, hp⟩ := C111_bytes_partial nb j hnb n hroom h1
  rw [hp, List.append_assoc] at h2
  exact (List.prefix_append _ _).trans h2

/-- **C114.** All of them arrive, if the USB device of the slave's board takes bytes again and again, none is lost in the FIFO, and the
clocks do not stop. -/
theorem C114_delivered_partial (h : SpiWired nb div csDelay i j t) (hnb : nb = 1 ∨ nb = 2 ∨ nb = 4 ∨ nb = 8)
    (htime : ∀ m, ∃ n, m ≤ t n) (hroom : ∀ k, ¬ slvLost nb j k)
    (htakes : ∀ n, ∃ m, n ≤ m ∧ (j m).ready = true ∧ (j m).avail = true) (n : Nat) :
    ∃ m, ((mstAcc 8 nb div csDelay i n).map fun b => b.2 % 256) <+: slvGot nb j m := by
  have hT := link_T 8 nb 8 (pair_cfg hnb).link
  obtain ⟨k, hk⟩ := htime (n + 2 * (8 / nb) * (div % 256 + 1))
  obtain ⟨A, e, cur, h1, h2, h3, h4⟩ := pair_spec h hnb k
  have hl := link_sent 8 nb div csDelay 8 false (mstLink i) (pair_cfg hnb).link n
  obtain ⟨d, hd⟩ := Nat.exists_eq_add_of_le (Nat.le_succ_of_le hk)
  have hm := link_pulses_mono 8 nb div csDelay 8 false (mstLink i) (n + 2 * (8 / nb) * (div % 256 + 1)) d
  rw [← hd] at hm
  rw [show (t k).succ = t k + 1 from rfl, h3] at hm
  rw [← mst_acc] at hl
  have he : e.length < 8 / nb := by
    rcases h2 with ⟨_, rfl⟩ | ⟨_, h⟩
    · exact hT
    · exact h
  have hlen : (mstAcc 8 nb div csDelay i n).length ≤ A.length := by
    have : (mstAcc 8 nb div csDelay i n).length * (8 / nb) < (A.length + 1) * (8 / nb) := by
      rw [Nat.add_mul, Nat.one_mul]; omega
    have := Nat.lt_of_mul_lt_mul_right this
    omega
  have hpre : mstAcc 8 nb div csDelay i n <+: A := by
    have hp : mstAcc 8 nb div csDelay i n <+: mstAcc 8 nb div csDelay i (t k + 1) := by
      obtain ⟨d, hd⟩ := Nat.exists_eq_add_of_le (show n ≤ t k + 1 by omega)
      rw [hd]
      exact transferred_prefix _ _ _ n d
    rw [h1] at hp
    exact List.prefix_of_prefix_length_le hp (List.prefix_append _ _) hlen
  obtain ⟨m, hm⟩ := C111_delivered nb j hnb hroom htakes (k + 3) (C114_sent_partial h hnb (k + 3)).1
  refine ⟨m, List.IsPrefix.trans ?_ hm⟩
  rw [h4, List.map_map]
  exact List.IsPrefix.map (fun b : Bool × Nat => b.2 % 256) hpre

/-- **C114.** None is lost, if the USB device of the slave's board takes a byte in each time of two cycles per clock pulse of a byte. -/
theorem C114_room_partial (h : SpiWired nb div csDelay i j t) (hnb : nb = 1 ∨ nb = 2 ∨ nb = 4 ∨ nb = 8)
    (hfifo : ∀ n, ((slvTop nb).st j n).fifo.length < 2 → (j n).room = true)
    (hwin : ∀ n, ∃ m, n ≤ m ∧ m < n + 2 * (8 / nb) ∧ (j m).ready = true ∧ (j m).avail = true) (k : Nat) : ¬ slvLost nb j k :=
  C111_room nb j hnb hfifo hwin (fun n => (C114_sent_partial h hnb n).1) k

/-- **C114.** From one USB device to the other: a byte offered until it is accepted arrives, after all those before it, if both USB devices
take what they are given: that of the master's board takes answers again and again. -/
theorem C114_arrives_partial (h : SpiWired nb div csDelay i j t) (hnb : nb = 1 ∨ nb = 2 ∨ nb = 4 ∨ nb = 8)
    (htime : ∀ m, ∃ n, m ≤ t n)
    (hfifo : ∀ n, ((slvTop nb).st j n).fifo.length < 2 → (j n).room = true)
    (hwin : ∀ n, ∃ m, n ≤ m ∧ m < n + 2 * (8 / nb) ∧ (j m).ready = true ∧ (j m).avail = true)
    (hio : ∀ n, ∃ m, n ≤ m ∧ (i m).dReady = true ∧ (i m).avail = true) (n : Nat)
    (hhold : ∀ m, n ≤ m → (∀ k, n ≤ k → k < m → ((spiMst 8 nb div csDelay).wave i k).str.dReady = false) →
      (i m).dValid = true ∧ (i m).dData = (i n).dData) :
    ∃ m, ((mstAcc 8 nb div csDelay i n).map (fun b => b.2 % 256) ++ [(i n).dData % 256]) <+: slvGot nb j m := by
  -- the first cycle in which it is accepted
  obtain ⟨m, hm, hv0, hr⟩ := C109_accepted 8 nb div csDelay i (pair_cfg hnb) hio n fun m h1 h2 => (hhold m h1 h2).1
  have hfirst : ∃ m, n ≤ m ∧ ((spiMst 8 nb div csDelay).wave i m).str.dReady = true ∧
      ∀ k, n ≤ k → k < m → ((spiMst 8 nb div csDelay).wave i k).str.dReady = false := by
    obtain ⟨d, rfl⟩ := Nat.exists_eq_add_of_le hm
    clear hm hv0
    induction d using Nat.strongRecOn with
    | ind d ih =>
      by_cases hk : ∃ k, k < d ∧ ((spiMst 8 nb div csDelay).wave i (n + k)).str.dReady = true
      · obtain ⟨k, hk, hk'⟩ := hk
        exact ih k hk hk'
      · refine ⟨n + d, by omega, hr, ?_⟩
        intro k h1 h2
        obtain ⟨e, rfl⟩ := Nat.exists_eq_add_of_le h1
        cases hx : ((spiMst 8 nb div csDelay).wave i (n + e)).str.dReady
        · rfl
        · exact absurd ⟨e, by omega, hx⟩ hk
  obtain ⟨m, hm, hr, hbefore⟩ := hfirst
  obtain ⟨hv, hdat⟩ := hhold m hm hbefore
  have hsame : mstAcc 8 nb div csDelay i m = mstAcc 8 nb div csDelay i n := by
    obtain ⟨d, rfl⟩ := Nat.exists_eq_add_of_le hm
    have : ∀ e, e ≤ d → mstAcc 8 nb div csDelay i (n + e) = mstAcc 8 nb div csDelay i n := by
      intro e
      induction e with
      | zero => intro _; rfl
      | succ e ih =>
        intro he
        have e1 : mstAcc 8 nb div csDelay i (n + e + 1) = mstAcc 8 nb div csDelay i (n + e) ++
          (if (i (n + e)).dValid && ((spiMst 8 nb div csDelay).wave i (n + e)).str.dReady then
            [((i (n + e)).dLast, (i (n + e)).dData)] else []) := rfl
        rw [← Nat.add_assoc, e1, hbefore (n + e) (by omega) (by omega), ih (by omega)]
        simp
    exact this d (Nat.le_refl _)
  have hacc : mstAcc 8 nb div csDelay i (m + 1) = mstAcc 8 nb div csDelay i n ++ [((i m).dLast, (i m).dData)] := by
    have e1 : mstAcc 8 nb div csDelay i (m + 1) = mstAcc 8 nb div csDelay i m ++
      (if (i m).dValid && ((spiMst 8 nb div csDelay).wave i m).str.dReady then [((i m).dLast, (i m).dData)] else []) := rfl
    rw [e1, hv, hr, hsame]
    rfl
  have hroom := C114_room_partial h hnb hfifo hwin
  obtain ⟨k, hk⟩ := C114_delivered_partial h hnb htime hroom (fun n => by
    obtain ⟨m, h1, _, h2⟩ := hwin n
    exact ⟨m, h1, h2⟩) (m + 1)
  refine ⟨k, ?_⟩
  rw [hacc, List.map_append, List.map_cons, List.map_nil, hdat] at hk
  exact hk

end

/-! Concrete cases. -/

/-- A user with one packet of one byte from cycle `s` on. The result is shown two cycles after it was written, as a buffered FIFO does. -/
def spiPairDemo (s n : Nat) : SpiMstIn := ⟨decide (s ≤ n ∧ n < 60), true, 165, true, n % 2 == 1, 0⟩

/-- The slave bridge on its pins, with the USB device always ready. -/
def spiPairIn (div csDelay : Nat) (i : Nat → SpiMstIn) (t : Nat → Nat) (n : Nat) : SlvTopIn :=
  ⟨mstClk 8 1 div csDelay i (t n), mstCsN 8 1 div csDelay i (t n), (mstDq 8 1 div csDelay i (t n)).1, false, 0, true, true, true⟩

/-- Clocks of any ratio `p / q`, `q` samples in `p` cycles of the master, are fine as long as that is not too few. -/
theorem spiPairIn_wired (div csDelay : Nat) (i : Nat → SpiMstIn) (p q : Nat) (hq : 0 < q) (h1 : p ≤ q * (div % 256)) (h2 : p ≤ q * 3) :
    SpiWired 1 div csDelay i (spiPairIn div csDelay i fun n => p * n / q) (fun n => p * n / q) := by
  have key : ∀ n d, p ≤ q * d → p * (n + 1) / q ≤ p * n / q + (d + 1) := by
    intro n d hd
    refine Nat.le_trans (Nat.div_le_div_right (c := q) (show p * (n + 1) ≤ p * n + q * (d + 1) by
      rw [Nat.mul_add, Nat.mul_add]; omega)) ?_
    rw [Nat.add_mul_div_left _ _ hq]
  exact ⟨by simp, fun n => Nat.div_le_div_right (Nat.mul_le_mul_left p (Nat.le_succ n)), fun n => key n _ h1,
    fun n => key n 3 h2, fun _ => rfl, fun _ => rfl, fun _ => rfl⟩

/-- A board with 100 MHz, an SPI clock of 20 MHz, and a board with 60 MHz: the byte arrives. -/
example : SpiWired 1 2 10 (spiPairDemo 0) (spiPairIn 2 10 (spiPairDemo 0) fun n => 5 * n / 3) (fun n => 5 * n / 3) ∧
    spiDivisor 100000000 20000000 = 2 ∧ spiCsDelay 100000000 20000000 2 = 10 ∧
    slvGot 1 (spiPairIn 2 10 (spiPairDemo 0) fun n => 5 * n / 3) 60 = [165] :=
  ⟨spiPairIn_wired 2 10 _ 5 3 (by omega) (by omega) (by omega), by decide +kernel, by decide +kernel, by decide +kernel⟩

/-- The other hypotheses of `C114_arrives_partial`. -/
example : (∀ m, ∃ n, m ≤ 5 * n / 3) ∧
    (∀ n, ∃ m, n ≤ m ∧ m < n + 2 * (8 / 1) ∧ (spiPairIn 2 10 (spiPairDemo 0) (fun n => 5 * n / 3) m).ready = true ∧
      (spiPairIn 2 10 (spiPairDemo 0) (fun n => 5 * n / 3) m).avail = true) ∧
    (∀ n, ∃ m, n ≤ m ∧ (spiPairDemo 0 m).dReady = true ∧ (spiPairDemo 0 m).avail = true) :=
  ⟨fun m => ⟨m, by omega⟩, fun n => ⟨n, by omega, by omega, rfl, rfl⟩, fun n => ⟨2 * n + 1, by omega, rfl, by
    show ((2 * n + 1) % 2 == 1) = true
    rw [show (2 * n + 1) % 2 = 1 by omega]; rfl⟩⟩

/-- **C114 is refuted** for a slave with a slower clock, however slow the SPI clock is: with boards of 100 MHz and 16 MHz and an SPI clock of
5 MHz, so that the slave samples each level of the clock at least once, the slave can miss the last bit, because the master deselects the
chip soon after the last rising edge. It delivers 82, the byte 165 without its last bit. -/
theorem C114_slow_slave_refuted : ¬ ∀ (sys : Nat) (spi : Rat) (i : Nat → SpiMstIn) (t : Nat → Nat), t 0 = 0 →
    (∀ n, t n ≤ t (n + 1) ∧ t (n + 1) ≤ t n + ((spiDivisor sys spi).toNat % 256 + 1)) → ∀ n,
    slvGot 1 (spiPairIn (spiDivisor sys spi).toNat (spiCsDelay sys spi 2).toNat i t) n <+:
      (mstAcc 8 1 (spiDivisor sys spi).toNat (spiCsDelay sys spi 2).toNat i (t n + 1)).map fun b => b.2 % 256 := by
  intro h
  have := h 100000000 5000000 (spiPairDemo 1) (fun n => 25 * n / 4) rfl
  rw [show (spiDivisor 100000000 5000000).toNat = 9 by decide +kernel,
    show (spiCsDelay 100000000 5000000 2).toNat = 40 by decide +kernel] at this
  replace this := this (fun n => ⟨Nat.div_le_div_right (by omega), by show 25 * (n + 1) / 4 ≤ 25 * n / 4 + 10; omega⟩) 40
  revert this
  have e1 : slvGot 1 (spiPairIn 9 40 (spiPairDemo 1) fun n => 25 * n / 4) 40 = [82] := by decide +kernel
  have e2 : (mstAcc 8 1 9 40 (spiPairDemo 1) (25 * 40 / 4 + 1)).map (fun b => b.2 % 256) = [165] := by decide +kernel
  rw [e1, e2]
  decide

end Lambdalib
