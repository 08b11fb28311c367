import Verif.Model.UsbEp
import Verif.Props.Layout
import Verif.Props.Ulpi

/-! Properties of the USB endpoint adapters (C60) and of the ULPI receive path (C74). -/

namespace Lambdalib

/-- What an adapter must preserve of a beat. -/
def usbByte (b : Beat (BitVec 8)) : BitVec 8 × Bool := (b.payload, b.last)

/-- C60, adapters without FIFO: each byte is passed on exactly once, at once, with its `last`. -/
theorem C60_sync_adapter (i : Nat → SIn (BitVec 8)) (n : Nat) :
    (delivered usbSyncAdapter i n).map usbByte = (accepted usbSyncAdapter i n).map usbByte := by
  induction n with
  | zero => rfl
  | succ n ih =>
    simp only [accepted, delivered, transferred, List.map_append] at ih ⊢
    rw [ih]
    congr 1
    show List.map usbByte (if ((i n).valid && (i n).ready) = true then [⟨false, (i n).beat.last, (i n).beat.payload⟩] else [])
      = List.map usbByte (if ((i n).valid && (i n).ready) = true then [(i n).beat] else [])
    split <;> rfl

theorem usbAsyncOut_st {σ : Type} (f : Circuit σ (FifoIn (1 + (1 + 8))) (FifoOut (1 + (1 + 8))))
    (i : Nat → SIn (BitVec 8)) (n : Nat) :
    (usbAsyncOutAdapter f).st i n = (fifoWrapper f).st (fun k => usbAsyncIn (i k)) n := by
  induction n with
  | zero => rfl
  | succ n ih => rw [Circuit.st_succ, Circuit.st_succ, ih]; rfl

theorem usbAsyncIn_st {σ : Type} (f : Circuit σ (FifoIn (1 + (1 + 8))) (FifoOut (1 + (1 + 8))))
    (i : Nat → SIn (BitVec 8)) (n : Nat) : (usbAsyncInAdapter f).st i n = (fifoWrapper f).st i n := by
  induction n with
  | zero => rfl
  | succ n ih => rw [Circuit.st_succ, Circuit.st_succ, ih]; rfl

theorem transferred_congr {β : Type} {v v' r r' : Nat → Bool} {b b' : Nat → β} (hv : ∀ n, v n = v' n)
    (hr : ∀ n, r n = r' n) (hb : ∀ n, b n = b' n) (n : Nat) : transferred v r b n = transferred v' r' b' n := by
  rw [show v = v' from funext hv, show r = r' from funext hr, show b = b' from funext hb]

theorem transferred_map {β γ : Type} (f : β → γ) (v r : Nat → Bool) (b : Nat → β) (n : Nat) :
    (transferred v r b n).map f = transferred v r (fun k => f (b k)) n := by
  induction n with
  | zero => rfl
  | succ n ih => simp only [transferred, List.map_append, ih]; split <;> rfl

/-- C60, adapters with FIFO: bytes come out exactly once and in order, at most the FIFO depth is on the way. -/
theorem C60_async_out_adapter {σ : Type} {depth : Nat}
    (f : Circuit σ (FifoIn (1 + (1 + 8))) (FifoOut (1 + (1 + 8)))) (hf : FifoContract f depth)
    (i : Nat → SIn (BitVec 8)) (n : Nat) :
    ∃ q, (accepted (usbAsyncOutAdapter f) i n).map usbByte = (delivered (usbAsyncOutAdapter f) i n).map usbByte ++ q ∧
      q.length ≤ depth := by
  obtain ⟨q, h1, h2, _⟩ := C08_fifo_lossless f hf (fun k => usbAsyncIn (i k)) n
  refine ⟨q.map usbByte, ?_, by simpa using h2⟩
  have hA : (accepted (usbAsyncOutAdapter f) i n).map usbByte
      = (accepted (fifoWrapper f) (fun k => usbAsyncIn (i k)) n).map usbByte := by
    simp only [accepted, transferred_map]
    apply transferred_congr <;> intro k
    · rfl
    · simp only [Circuit.wave, usbAsyncOut_st]; rfl
    · rfl
  have hD : (delivered (usbAsyncOutAdapter f) i n).map usbByte
      = (delivered (fifoWrapper f) (fun k => usbAsyncIn (i k)) n).map usbByte := by
    simp only [delivered, transferred_map]
    apply transferred_congr <;> intro k
    · simp only [Circuit.wave, usbAsyncOut_st]; rfl
    · rfl
    · simp only [Circuit.wave, usbAsyncOut_st]; rfl
  rw [hA, hD, h1, List.map_append]

theorem C60_async_in_adapter {σ : Type} {depth : Nat}
    (f : Circuit σ (FifoIn (1 + (1 + 8))) (FifoOut (1 + (1 + 8)))) (hf : FifoContract f depth)
    (i : Nat → SIn (BitVec 8)) (n : Nat) :
    ∃ q, (accepted (usbAsyncInAdapter f) i n).map usbByte = (delivered (usbAsyncInAdapter f) i n).map usbByte ++ q ∧
      q.length ≤ depth := by
  obtain ⟨q, h1, h2, _⟩ := C08_fifo_lossless f hf i n
  refine ⟨q.map usbByte, ?_, by simpa using h2⟩
  have hA : (accepted (usbAsyncInAdapter f) i n).map usbByte = (accepted (fifoWrapper f) i n).map usbByte := by
    simp only [accepted, transferred_map]
    apply transferred_congr <;> intro k
    · rfl
    · simp only [Circuit.wave, usbAsyncIn_st]; rfl
    · rfl
  have hD : (delivered (usbAsyncInAdapter f) i n).map usbByte = (delivered (fifoWrapper f) i n).map usbByte := by
    simp only [delivered, transferred_map]
    apply transferred_congr <;> intro k
    · simp only [Circuit.wave, usbAsyncIn_st]; rfl
    · rfl
    · simp only [Circuit.wave, usbAsyncIn_st]; rfl
  rw [hA, hD, h1, List.map_append]

/-- C60: the adapters never set `first`: the user of an OUT endpoint has to go by `last`. -/
theorem C60_async_out_first {σ : Type} {depth : Nat}
    (f : Circuit σ (FifoIn (1 + (1 + 8))) (FifoOut (1 + (1 + 8)))) (hf : FifoContract f depth)
    (i : Nat → SIn (BitVec 8)) (n : Nat) : ∀ b ∈ delivered (usbAsyncOutAdapter f) i n, b.first = false := by
  obtain ⟨q, h1, -⟩ := C08_fifo_lossless f hf (fun k => usbAsyncIn (i k)) n
  have hA : ∀ v r : Nat → Bool, ∀ m, ∀ b ∈ transferred v r (fun k => (usbAsyncIn (i k)).beat) m, b.first = false := by
    intro v r m
    induction m with
    | zero => intro b hb; cases hb
    | succ m ih =>
      intro b hb
      simp only [transferred, List.mem_append] at hb
      rcases hb with hb | hb
      · exact ih b hb
      · split at hb
        · rw [List.mem_singleton.1 hb]; rfl
        · cases hb
  have hD : delivered (usbAsyncOutAdapter f) i n = delivered (fifoWrapper f) (fun k => usbAsyncIn (i k)) n := by
    unfold delivered
    apply transferred_congr <;> intro k
    · simp only [Circuit.wave, usbAsyncOut_st]; rfl
    · rfl
    · simp only [Circuit.wave, usbAsyncOut_st]; rfl
  intro b hb
  rw [hD] at hb
  exact hA _ _ n b (by
    have : b ∈ accepted (fifoWrapper f) (fun k => usbAsyncIn (i k)) n := by rw [h1]; exact List.mem_append_left _ hb
    exact this)

example : (delivered (usbAsyncOutAdapter (queueFifo (1 + (1 + 8)) 8))
    (fun n => ⟨n < 2, ⟨n = 0, n = 1, BitVec.ofNat 8 (n + 5)⟩, 2 ≤ n⟩) 4).map usbByte = [(5, false), (6, true)] := by decide

/-! ### C74: receive path -/

theorem ulpiRx_st {σ : Type} (f : Circuit σ (FifoIn (1 + (1 + 8))) (FifoOut (1 + (1 + 8))))
    (i : Nat → USplitIn × Bool) (n : Nat) :
    (ulpiRx f).st i n = (splitterUlpi.st (fun k => (i k).1) n,
      (fifoWrapper f).st (fun k => ulpiRxIn (splitterUlpi.st (fun k => (i k).1) k) (i k).2) n) := by
  induction n with
  | zero => rfl
  | succ n ih => rw [Circuit.st_succ, ih]; rfl

/-- Bytes taken by the user of the receive path. -/
def ulpiRxTaken {σ : Type} (f : Circuit σ (FifoIn (1 + (1 + 8))) (FifoOut (1 + (1 + 8))))
    (i : Nat → USplitIn × Bool) (n : Nat) : List (Nat × Bool) :=
  transferred (fun k => ((ulpiRx f).wave i k).valid) (fun k => (i k).2)
    (fun k => (((ulpiRx f).wave i k).beat.payload.toNat, ((ulpiRx f).wave i k).beat.last)) n

/-- Items received from the PHY. -/
def ulpiRxItems (i : Nat → USplitIn × Bool) (n : Nat) : List RxItem :=
  rxItems (fun k => (i k).1.valid) (fun k => (i k).1.cmd) (fun k => (i k).1.data) n

/-- A packet of nine bytes, then a packet of one byte; the reader sleeps for twenty cycles. -/
def ulpiRxDemo (k : Nat) : USplitIn × Bool :=
  (⟨decide (k < 10 ∨ k = 40 ∨ k = 41), if k < 9 then k + 1 else if k = 40 then 0x55 else 0, k == 9 || k == 41⟩,
    decide (20 ≤ k))

/-- The reader sees a single packet of nine bytes instead. -/
example : ulpiRxTaken (queueFifo (1 + (1 + 8)) (fifoDepth 2)) ulpiRxDemo 51
    = [(1, false), (2, false), (3, false), (4, false), (5, false), (6, false), (7, false), (8, false), (0x55, true)] ∧
    rxPackets (ulpiRxItems ulpiRxDemo 50)
    = [(1, false), (2, false), (3, false), (4, false), (5, false), (6, false), (7, false), (8, false), (9, true), (0x55, true)] := by
  decide +kernel

/-- C74 (full claim, refuted): the user gets every byte of every packet received. The receive FIFO is filled without
looking at its `ready`: with a slow reader the end mark of a packet can be lost, and two packets become one. -/
theorem C74_receive_refuted :
    ¬ ∀ (i : Nat → USplitIn × Bool) (n : Nat),
      (∀ k, (i k).1.data < 256) →
      ∃ q, rxPackets (ulpiRxItems i n) = ulpiRxTaken (queueFifo (1 + (1 + 8)) (fifoDepth 2)) i (n + 1) ++ q ∧
        q.length ≤ fifoDepth 2 := by
  intro h
  obtain ⟨q, h1, _⟩ := h ulpiRxDemo 50 (by
    intro k; simp only [ulpiRxDemo]; split
    · omega
    · split <;> decide)
  have hp : ulpiRxTaken (queueFifo (1 + (1 + 8)) (fifoDepth 2)) ulpiRxDemo (50 + 1) <+: rxPackets (ulpiRxItems ulpiRxDemo 50) :=
    ⟨q, h1.symm⟩
  exact absurd hp (by decide +kernel)

/-- C74 (partial: the FIFO is never full when a byte arrives): then the user gets every byte of every packet received,
in order, with its `last`; at most the FIFO depth is on the way. -/
theorem C74_receive_partial {σ : Type} {depth : Nat}
    (f : Circuit σ (FifoIn (1 + (1 + 8))) (FifoOut (1 + (1 + 8)))) (hf : FifoContract f depth)
    (i : Nat → USplitIn × Bool) (hb : ∀ k, (i k).1.data < 256)
    (hroom : ∀ k, (splitterUlpi.wave (fun j => (i j).1) k).1 = true → ((ulpiRx f).wave i k).ready = true) (n : Nat) :
    ∃ q, rxPackets (ulpiRxItems i n) = ulpiRxTaken f i (n + 1) ++ q ∧ q.length ≤ depth := by
  let j := fun k => ulpiRxIn (splitterUlpi.st (fun k => (i k).1) k) (i k).2
  obtain ⟨q, h1, h2, _⟩ := C08_fifo_lossless f hf j (n + 1)
  have hw : ∀ k, (ulpiRx f).wave i k = (fifoWrapper f).wave j k := by
    intro k; simp only [Circuit.wave, ulpiRx_st]; rfl
  have hsmall : ∀ k, (splitterUlpi.st (fun j => (i j).1) k).data < 256 ∧
      (splitterUlpi.st (fun j => (i j).1) k).bufData < 256 := by
    intro k
    induction k with
    | zero => exact ⟨Nat.zero_lt_succ _, Nat.zero_lt_succ _⟩
    | succ k ih =>
      rw [Circuit.st_succ]
      have := hb k
      generalize splitterUlpi.st (fun j => (i j).1) k = s at *
      simp only [splitterUlpi]
      repeat' split
      all_goals simp_all
  refine ⟨q.map (fun b => (b.payload.toNat, b.last)), ?_, by simpa using h2⟩
  have hA : (accepted (fifoWrapper f) j (n + 1)).map (fun b => (b.payload.toNat, b.last))
      = rxPackets (ulpiRxItems i n) := by
    rw [ulpiRxItems, ← C47_packets (fun k => (i k).1) n]
    simp only [accepted, transferred_map, rxEmitted]
    have : ∀ m, transferred (fun k => (j k).valid) (fun k => ((fifoWrapper f).wave j k).ready)
        (fun k => ((j k).beat.payload.toNat, (j k).beat.last)) m
      = transferred (fun k => (splitterUlpi.wave (fun k => (i k).1) k).1) (fun _ => true)
        (fun k => ((splitterUlpi.wave (fun k => (i k).1) k).2.1, (splitterUlpi.wave (fun k => (i k).1) k).2.2)) m := by
      intro m
      induction m with
      | zero => rfl
      | succ m ih =>
        rw [transferred, transferred, ih]
        congr 1
        have hv : (j m).valid = (splitterUlpi.wave (fun k => (i k).1) m).1 := rfl
        have hr := hroom m
        rw [hw] at hr
        have hp : ((j m).beat.payload.toNat, (j m).beat.last)
            = ((splitterUlpi.wave (fun k => (i k).1) m).2.1, (splitterUlpi.wave (fun k => (i k).1) m).2.2) := by
          have h := (hsmall m).1
          refine Prod.ext ?_ rfl
          show (BitVec.ofNat 8 (splitterUlpi.st (fun j => (i j).1) m).data).toNat = _
          rw [BitVec.toNat_ofNat]
          exact Nat.mod_eq_of_lt h
        rw [hv, hp]
        cases hx : (splitterUlpi.wave (fun k => (i k).1) m).1 with
        | false => rfl
        | true => rw [hr hx]
    exact this (n + 1)
  have hD : (delivered (fifoWrapper f) j (n + 1)).map (fun b => (b.payload.toNat, b.last)) = ulpiRxTaken f i (n + 1) := by
    simp only [delivered, transferred_map, ulpiRxTaken]
    apply transferred_congr <;> intro k
    · rw [hw]
    · rfl
    · rw [hw]
  rw [← hA, ← hD, h1, List.map_append]

/-- A reader that is always ready meets the hypothesis. -/
example (i : Nat → USplitIn × Bool) (hr : ∀ k, (i k).2 = true) (k : Nat) :
    ((ulpiRx (queueFifo (1 + (1 + 8)) 8)).wave i k).ready = true := by
  have h : ((ulpiRx (queueFifo (1 + (1 + 8)) 8)).st i k).2.length ≤ 1 := by
    induction k with
    | zero => exact Nat.zero_le _
    | succ k ih =>
      rw [Circuit.st_succ]
      have := hr k
      generalize (ulpiRx (queueFifo (1 + (1 + 8)) 8)).st i k = s at *
      simp only [ulpiRx, fifoWrapper, queueFifo, fifoDrive, ulpiRxIn, this, if_true, List.length_append, List.length_tail]
      split <;> simp <;> omega
  simp only [Circuit.wave]
  generalize (ulpiRx (queueFifo (1 + (1 + 8)) 8)).st i k = s at *
  simp only [ulpiRx, fifoWrapper, queueFifo]
  exact decide_eq_true (by omega)

end Lambdalib
