import Verif.Model.Spi
import Verif.Spec.Count

/-! Properties of the SPI clock generator (C38) and of `SPIStream` (C40). -/

namespace Lambdalib

/-! ### C38 -/

section
variable (w d : Nat) (i : Nat → SpiClkIn)

/-- One cycle with `en` high: counter and clock as functions of the number of cycles since enable. -/
theorem spiClk_step (hd : d < 2 ^ w) (s : SpiClkS) (x : SpiClkIn) (hx : x.div = d) (he : x.en = true) (k : Nat)
    (hc : s.cnt = k % (d + 1)) (hk : s.clk = decide (k / (d + 1) % 2 = 1)) :
    ((spiClkGen w).next s x).cnt = (k + 1) % (d + 1) ∧
      ((spiClkGen w).next s x).clk = decide ((k + 1) / (d + 1) % 2 = 1) := by
  have h1 : k = (d + 1) * (k / (d + 1)) + k % (d + 1) := (Nat.div_add_mod k (d + 1)).symm
  have h2 : k % (d + 1) < d + 1 := Nat.mod_lt _ (by omega)
  generalize k / (d + 1) = q at *
  generalize k % (d + 1) = r at *
  simp only [spiClkGen, he, hx, hc, hk, if_true]
  by_cases hlt : r < d
  · have e1 : (k + 1) % (d + 1) = r + 1 := by
      rw [h1, Nat.add_assoc, Nat.mul_add_mod, Nat.mod_eq_of_lt (by omega)]
    have e2 : (k + 1) / (d + 1) = q := by
      rw [h1, Nat.add_assoc, Nat.mul_add_div (by omega), Nat.div_eq_of_lt (by omega)]; rfl
    rw [if_pos hlt, if_pos hlt, e1, e2, Nat.mod_eq_of_lt (by omega)]
    exact ⟨rfl, rfl⟩
  · have e : r = d := by omega
    have e1 : (k + 1) % (d + 1) = 0 := by
      rw [h1, e, Nat.add_assoc, Nat.mul_add_mod, Nat.mod_self]
    have e2 : (k + 1) / (d + 1) = q + 1 := by
      rw [h1, e, Nat.add_assoc, Nat.mul_add_div (by omega), Nat.div_self (by omega)]
    rw [if_neg hlt, if_neg hlt, e1, e2]
    refine ⟨rfl, ?_⟩
    by_cases h : q % 2 = 1
    · rw [decide_eq_true h, decide_eq_false (by omega)]; rfl
    · rw [decide_eq_false h, decide_eq_true (by omega)]; rfl

/-- C38: from the cycle `a` in which the generator is enabled, for as long as it stays enabled, the clock toggles
every `div + 1` cycles, starting low. -/
theorem C38_clk_wave (hw : d < 2 ^ w) (hd : ∀ n, (i n).div = d) (a : Nat)
    (ha : a = 0 ∨ (i (a - 1)).en = false) (k : Nat) (hk : ∀ j, j < k → (i (a + j)).en = true) :
    ((spiClkGen w).wave i (a + k)).clk = decide (k / (d + 1) % 2 = 1) := by
  suffices ((spiClkGen w).st i (a + k)).cnt = k % (d + 1) ∧
      ((spiClkGen w).st i (a + k)).clk = decide (k / (d + 1) % 2 = 1) from this.2
  induction k with
  | zero =>
    cases a with
    | zero => simp [spiClkGen]
    | succ a =>
      have : (i a).en = false := by simpa using ha
      rw [Nat.add_zero, Circuit.st_succ]
      generalize (spiClkGen w).st i a = s
      simp [spiClkGen, this]
  | succ k ih =>
    have ih := ih (fun j hj => hk j (by omega))
    exact spiClk_step w d hw _ _ (hd _) (hk k (by omega)) k ih.1 ih.2

/-- C38: the clock is low in the cycle after a cycle with `en` low, and the phase restarts (with the theorem
above, whose `a` is that cycle). -/
theorem C38_clk_disabled (n : Nat) (he : (i n).en = false) : ((spiClkGen w).wave i (n + 1)).clk = false := by
  simp only [Circuit.wave, Circuit.st_succ]
  generalize (spiClkGen w).st i n = s
  simp [spiClkGen, he]

theorem spiClk_cnt_le (hd : ∀ n, (i n).div = d) (n : Nat) : ((spiClkGen w).st i n).cnt ≤ d := by
  induction n with
  | zero => exact Nat.zero_le _
  | succ n ih =>
    rw [Circuit.st_succ]
    have := hd n
    generalize (spiClkGen w).st i n = s at *
    simp only [spiClkGen, this]
    split
    · split
      · exact Nat.le_trans (Nat.mod_le _ _) (by omega)
      · omega
    · omega

/-- C38: `posedge` is high exactly in the cycle before the pin rises; `negedge` exactly in the cycle before
the pin falls while enabled. -/
theorem C38_strobes (hd : ∀ n, (i n).div = d) (n : Nat) :
    let o := (spiClkGen w).wave i
    (o n).posedge = (!(o n).clk && (o (n + 1)).clk) ∧
    (o n).negedge = ((i n).en && (o n).clk && !(o (n + 1)).clk) := by
  have hc := spiClk_cnt_le w d i hd n
  have hx := hd n
  simp only [Circuit.wave, Circuit.st_succ]
  generalize (spiClkGen w).st i n = s at *
  simp only [spiClkGen, hx]
  by_cases h : s.cnt < d
  · have : s.cnt ≠ d := by omega
    cases (i n).en <;> cases s.clk <;> simp [h, this]
  · have : s.cnt = d := by omega
    cases (i n).en <;> cases s.clk <;> simp [this]

/-- C38: the registered outputs follow one and two cycles later. -/
theorem C38_registered (n : Nat) :
    let o := (spiClkGen w).wave i
    (o (n + 1)).posedgeReg = (o n).posedge ∧ (o (n + 2)).posedgeReg2 = (o n).posedge ∧
      (o (n + 1)).clkReg = (o n).clk :=
  ⟨rfl, rfl, rfl⟩

end

/-- Divider 1, enabled from cycle 2 on: two cycles low, two cycles high. -/
example : (List.range 10).map (fun n => ((spiClkGen 8).wave (fun n => ⟨decide (2 ≤ n), 1⟩) n).clk) =
    [false, false, false, false, true, true, false, false, true, true] := by decide

/-! ### C40 -/

section
variable (width busWidth : Nat) (i : Nat → SpiStrIn)

theorem spiStream_out_step (s : SpiStrSt) (x : SpiStrIn) :
    let o := (spiStream width busWidth).out s x
    (if o.pValid && x.pReady then [(o.pLast, o.pWord)] else []) =
      (if x.dValid && o.dReady then [(x.dLast, x.dData)] else []).map
        fun b => (b.1, (⟨b.2, width, busWidth, true⟩ : SpiWord)) := by
  obtain ⟨a, b, c, d, e, f, g, h⟩ := x
  cases s <;> cases a <;> cases e <;> rfl

theorem spiStream_in_step (s : SpiStrSt) (x : SpiStrIn) :
    let o := (spiStream width busWidth).out s x
    (if o.dValid && x.dReady then [(o.dLast, o.dData)] else []) =
      (if x.pValid && o.pReady then [(x.pLast, x.pData)] else []) := by
  obtain ⟨a, b, c, d, e, f, g, h⟩ := x
  cases s <;> cases d <;> cases f <;> rfl

/-- C40: what is accepted from the user is what the PHY accepts, unchanged, in the same cycles, with the
configured word length and bus width. -/
theorem C40_forward_out (n : Nat) :
    transferred (fun k => ((spiStream width busWidth).wave i k).pValid) (fun k => (i k).pReady)
      (fun k => (((spiStream width busWidth).wave i k).pLast, ((spiStream width busWidth).wave i k).pWord)) n =
    (transferred (fun k => (i k).dValid) (fun k => ((spiStream width busWidth).wave i k).dReady)
      (fun k => ((i k).dLast, (i k).dData)) n).map fun b => (b.1, ⟨b.2, width, busWidth, true⟩) := by
  induction n with
  | zero => rfl
  | succ n ih =>
    rw [transferred_succ, transferred_succ, List.map_append, ih]
    congr 1
    exact spiStream_out_step width busWidth _ (i n)

/-- C40: what is delivered to the user is what is taken from the PHY, unchanged, in the same cycles. -/
theorem C40_forward_in (n : Nat) :
    transferred (fun k => ((spiStream width busWidth).wave i k).dValid) (fun k => (i k).dReady)
      (fun k => (((spiStream width busWidth).wave i k).dLast, ((spiStream width busWidth).wave i k).dData)) n =
    transferred (fun k => (i k).pValid) (fun k => ((spiStream width busWidth).wave i k).pReady)
      (fun k => ((i k).pLast, (i k).pData)) n := by
  induction n with
  | zero => rfl
  | succ n ih =>
    rw [transferred_succ, transferred_succ, ih]
    congr 1
    exact spiStream_in_step width busWidth _ (i n)

/-- Number of `last` beats accepted from the user before cycle `n`. -/
def spiTxLasts (n : Nat) : Nat :=
  highCount (fun k => (i k).dValid && ((spiStream width busWidth).wave i k).dReady && (i k).dLast) 0 n

/-- Number of `last` words delivered to the user before cycle `n`. -/
def spiRxLasts (n : Nat) : Nat :=
  highCount (fun k => ((spiStream width busWidth).wave i k).dValid && (i k).dReady &&
    ((spiStream width busWidth).wave i k).dLast) 0 n

/-- The PHY answers a `last` beat only after it was given one. -/
def SpiPhyAnswers : Prop :=
  ∀ n, (i n).pValid = true → (i n).pLast = true → spiRxLasts width busWidth i n < spiTxLasts width busWidth i n

/-- One cycle of the FSM with the two counts. -/
theorem spiStream_step (s : SpiStrSt) (x : SpiStrIn) (t r : Nat)
    (h : t = r + (if s = .rx then 1 else 0)) (ha : x.pValid = true → x.pLast = true → r < t) :
    let o := (spiStream width busWidth).out s x
    t + (if x.dValid && o.dReady && x.dLast then 1 else 0) =
      r + (if o.dValid && x.dReady && o.dLast then 1 else 0) +
        (if (spiStream width busWidth).next s x = .rx then 1 else 0) := by
  subst h
  obtain ⟨a, b, c, d, e, f, g, h⟩ := x
  cases s <;> cases a <;> cases b <;> cases d <;> cases e <;> cases f <;> cases g <;>
    simp_all [spiStream]

theorem spiStream_counts (ha : SpiPhyAnswers width busWidth i) (n : Nat) :
    spiTxLasts width busWidth i n = spiRxLasts width busWidth i n +
      (if (spiStream width busWidth).st i n = .rx then 1 else 0) := by
  induction n with
  | zero => rfl
  | succ n ih =>
    have := spiStream_step width busWidth _ (i n) _ _ ih (ha n)
    have e1 : spiTxLasts width busWidth i (n + 1) = spiTxLasts width busWidth i n +
        (if (i n).dValid && ((spiStream width busWidth).wave i n).dReady && (i n).dLast then 1 else 0) := by
      simp only [spiTxLasts, highCount, Nat.zero_add]
    have e2 : spiRxLasts width busWidth i (n + 1) = spiRxLasts width busWidth i n +
        (if ((spiStream width busWidth).wave i n).dValid && (i n).dReady &&
          ((spiStream width busWidth).wave i n).dLast then 1 else 0) := by
      simp only [spiRxLasts, highCount, Nat.zero_add]
    rw [e1, e2]
    exact this

theorem spiStream_cs_step (s : SpiStrSt) (x y : SpiStrIn) (t r : Nat)
    (h : t = r + (if s = .rx then 1 else 0)) :
    let o := (spiStream width busWidth).out s x
    (((spiStream width busWidth).out ((spiStream width busWidth).next s x) y).cs = true ↔
      if o.cs then ¬ (t = r + 1 ∧ o.dValid = true ∧ x.dReady = true ∧ o.dLast = true)
      else x.dValid = true) := by
  subst h
  obtain ⟨a, b, c, d, e, f, g, h⟩ := x
  cases s <;> cases a <;> cases b <;> cases d <;> cases e <;> cases f <;> cases g <;>
    simp_all [spiStream]

/-- C40: no beat is taken while the response to an earlier `last` beat is outstanding. -/
theorem C40_no_overlap (ha : SpiPhyAnswers width busWidth i) (n : Nat)
    (hv : ((spiStream width busWidth).wave i n).pValid = true ∨
      ((spiStream width busWidth).wave i n).dReady = true) :
    spiTxLasts width busWidth i n = spiRxLasts width busWidth i n := by
  rw [spiStream_counts width busWidth i ha n]
  simp only [Circuit.wave] at hv
  generalize (spiStream width busWidth).st i n = s at *
  cases s <;> simp_all [spiStream]

/-- C40: chip select goes up exactly in the cycle after a beat appears, stays up until the response to the
`last` beat is delivered, and is down in the next cycle. -/
theorem C40_cs (ha : SpiPhyAnswers width busWidth i) (n : Nat) :
    let o := (spiStream width busWidth).wave i
    (o 0).cs = false ∧
    ((o (n + 1)).cs = true ↔
      if (o n).cs then
        ¬ (spiTxLasts width busWidth i n = spiRxLasts width busWidth i n + 1 ∧
          (o n).dValid = true ∧ (i n).dReady = true ∧ (o n).dLast = true)
      else (i n).dValid = true) := by
  have hc := spiStream_counts width busWidth i ha n
  exact ⟨rfl, spiStream_cs_step width busWidth _ _ _ _ _ hc⟩

/-- C40: transfers happen only with chip select up. -/
theorem C40_transfers_selected (n : Nat) (h : ((spiStream width busWidth).wave i n).cs = false) :
    ((spiStream width busWidth).wave i n).pValid = false ∧ ((spiStream width busWidth).wave i n).dReady = false ∧
    ((spiStream width busWidth).wave i n).dValid = false ∧ ((spiStream width busWidth).wave i n).pReady = false := by
  simp only [Circuit.wave] at *
  generalize (spiStream width busWidth).st i n = s at *
  cases s <;> simp_all [spiStream]

/-- C40: with chip select up and the response to no `last` beat outstanding, the user and the PHY are connected
directly. -/
theorem C40_connected (ha : SpiPhyAnswers width busWidth i) (n : Nat)
    (h : ((spiStream width busWidth).wave i n).cs = true) :
    let o := (spiStream width busWidth).wave i n
    o.dValid = (i n).pValid ∧ o.pReady = (i n).dReady ∧
    (spiTxLasts width busWidth i n = spiRxLasts width busWidth i n →
      o.pValid = (i n).dValid ∧ o.dReady = (i n).pReady) := by
  have hc := spiStream_counts width busWidth i ha n
  simp only [Circuit.wave] at *
  generalize (spiStream width busWidth).st i n = s at *
  rw [hc]
  cases s <;> simp_all [spiStream]

end

/-- One packet of one beat: accepted in cycle 1, answered in cycle 3. -/
def spiStreamDemo (n : Nat) : SpiStrIn :=
  ⟨decide (n < 2), true, 0xA5, true, decide (n = 1), decide (n = 3), true, 0x5A⟩

theorem spiStreamDemo_idle (n : Nat) (hn : 4 ≤ n) : (spiStream 8 1).st spiStreamDemo n = .idle := by
  rw [show n = 4 + (n - 4) by omega]
  generalize n - 4 = k
  induction k with
  | zero => decide
  | succ k ih =>
    rw [← Nat.add_assoc, Circuit.st_succ, ih]
    simp [spiStream, spiStreamDemo]
    omega

example : SpiPhyAnswers 8 1 spiStreamDemo := by
  intro n hv _
  have : n = 3 := by simpa [spiStreamDemo] using hv
  subst this
  decide

example : (List.range 6).map (fun n => ((spiStream 8 1).wave spiStreamDemo n).cs) =
    [false, true, true, true, false, false] := by decide

end Lambdalib
