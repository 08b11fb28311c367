import Verif.Model.Regs
import Verif.Spec.Regs

/-! C23: registers filled from a stream. -/

namespace Lambdalib
variable {α : Type} [Inhabited α]

/-- Beats accepted by `StreamRegs` during the first `n` cycles. -/
def regsHist (length : Nat) (i : Nat → SinkIn α) (n : Nat) : List (Beat α) :=
  transferred (fun k => (i k).valid) (fun k => ((streamRegs length).wave i k).ready)
    (fun k => (i k).beat) n

theorem sinceLast_snoc {α : Type} (h : List (Beat α)) (b : Beat α) :
    sinceLast (h ++ [b]) = if b.last then 0 else sinceLast h + 1 := by
  unfold sinceLast
  cases hb : b.last <;> simp [hb]

theorem latest_snoc_same {α : Type} {length : Nat} {h : List (Beat α)} {b : Beat α} {k j : Nat}
    (hk : packetPos length h = k) (hj : IsLatestAt length (h ++ [b]) k j) : j = h.length := by
  obtain ⟨h1, h2, h3⟩ := hj
  simp only [List.length_append, List.length_singleton] at h1
  by_cases hlt : j < h.length
  · exact absurd (by rw [List.take_left]; exact hk) (h3 h.length hlt (by simp))
  · omega

theorem latest_snoc_ne {α : Type} {length : Nat} {h : List (Beat α)} {b : Beat α} {k j : Nat}
    (hk : packetPos length h ≠ k) (hj : IsLatestAt length (h ++ [b]) k j) :
    IsLatestAt length h k j := by
  obtain ⟨h1, h2, h3⟩ := hj
  simp only [List.length_append, List.length_singleton] at h1 h3
  have hlt : j < h.length := by
    rcases Nat.lt_or_ge j h.length with h4 | h4
    · exact h4
    · have : j = h.length := by omega
      subst this
      rw [List.take_left] at h2
      exact absurd h2 hk
  refine ⟨hlt, ?_, ?_⟩
  · rw [List.take_append_of_le_length (by omega)] at h2; exact h2
  · intro j' h4 h5
    have := h3 j' h4 (by omega)
    rwa [List.take_append_of_le_length (by omega)] at this

/-- Step of the index: it is the position of the next beat. -/
theorem idx_step (length : Nat) (hl : 0 < length) (c idx : Nat) (hi : idx = c % length)
    (last : Bool) :
    (if idx == length - 1 || last then 0 else truncRange length (idx + 1))
      = (if last then 0 else c + 1) % length := by
  have hlt : idx < length := by rw [hi]; exact Nat.mod_lt _ hl
  cases last
  · by_cases h : idx = length - 1
    · simp only [h, beq_self_eq_true, Bool.true_or, if_true, Bool.false_eq_true, if_false]
      rw [Nat.add_mod, ← hi, h]
      rcases Nat.lt_or_ge 1 length with h1 | h1
      · rw [Nat.mod_eq_of_lt h1, show length - 1 + 1 = length by omega, Nat.mod_self]
      · have : length = 1 := by omega
        subst this; simp
    · have h1 : 1 < length := by omega
      simp only [beq_iff_eq, h, Bool.or_false, if_false, Bool.false_eq_true]
      rw [truncRange_of_lt (by omega), Nat.add_mod, ← hi, Nat.mod_eq_of_lt h1,
        Nat.mod_eq_of_lt (by omega)]
  · simp

theorem regs_inv (length : Nat) (hl : 0 < length) (i : Nat → SinkIn α) (n : Nat) :
    ((streamRegs length).st i n).idx = packetPos length (regsHist length i n) ∧
    (∀ k j (hj : j < (regsHist length i n).length), IsLatestAt length (regsHist length i n) k j →
      ((streamRegs length).st i n).regs k = (regsHist length i n)[j].payload) ∧
    (∀ k, (∀ j < (regsHist length i n).length, packetPos length ((regsHist length i n).take j) ≠ k) →
      ((streamRegs length).st i n).regs k = default) := by
  induction n with
  | zero =>
    refine ⟨by simp [streamRegs, regsHist, packetPos, sinceLast], ?_, fun k _ => rfl⟩
    intro k j hj; simp [regsHist] at hj
  | succ n ih =>
    obtain ⟨h1, h2, h3⟩ := ih
    have hlt : ((streamRegs length).st i n).idx < length := by
      rw [h1]; exact Nat.mod_lt _ hl
    cases hv : (i n).valid
    · have hh : regsHist length i (n + 1) = regsHist length i n := by
        simp [regsHist, transferred_succ, hv]
      rw [hh, Circuit.st_succ]
      generalize (streamRegs length).st i n = s at *
      simp only [streamRegs, hv, Bool.false_eq_true, if_false]
      exact ⟨h1, h2, h3⟩
    · have hh : regsHist length i (n + 1) = regsHist length i n ++ [(i n).beat] := by
        simp [regsHist, transferred_succ, hv, Circuit.wave, streamRegs]
      rw [hh, Circuit.st_succ]
      generalize (streamRegs length).st i n = s at *
      generalize regsHist length i n = h at *
      have hai : arrayIdx length s.idx = s.idx := by simp [arrayIdx, hlt]
      simp only [streamRegs, hv, if_true, hai]
      refine ⟨?_, ?_, ?_⟩
      · rw [idx_step length hl _ _ h1, packetPos, sinceLast_snoc]
      · intro k j hj hlat
        by_cases hk : packetPos length h = k
        · have := latest_snoc_same hk hlat
          subst this
          rw [if_pos (by rw [h1, hk])]
          simp
        · rw [if_neg (by rw [h1]; exact fun e => hk e.symm)]
          have := latest_snoc_ne hk hlat
          rw [h2 k j this.1 this, List.getElem_append_left this.1]
      · intro k hk
        have hk' := hk h.length (by simp)
        rw [List.take_left] at hk'
        rw [if_neg (by rw [h1]; exact fun e => hk' e.symm)]
        refine h3 k fun j hj => ?_
        have := hk j (by simp; omega)
        rwa [List.take_append_of_le_length (by omega)] at this

/-- C23: the stream is never stalled. -/
theorem C23_regs_never_stall (length : Nat) (i : Nat → SinkIn α) (n : Nat) :
    ((streamRegs length).wave i n).ready = true := rfl

/-- C23: register `k` holds the payload of the most recent accepted beat at position `k`. -/
theorem C23_regs_latest (length : Nat) (hl : 0 < length) (i : Nat → SinkIn α) (n k j : Nat)
    (hj : IsLatestAt length (regsHist length i n) k j) :
    ((streamRegs length).wave i n).regs k = ((regsHist length i n)[j]'hj.1).payload :=
  (regs_inv length hl i n).2.1 k j hj.1 hj

/-- C23: a register whose position has not been received yet holds its reset value. -/
theorem C23_regs_untouched (length : Nat) (hl : 0 < length) (i : Nat → SinkIn α) (n k : Nat)
    (h : ∀ j < (regsHist length i n).length, packetPos length ((regsHist length i n).take j) ≠ k) :
    ((streamRegs length).wave i n).regs k = default :=
  (regs_inv length hl i n).2.2 k h

/-- C23: `we[k]` is high exactly in the cycle after a beat at position `k` was accepted, and low at
reset. -/
theorem C23_regs_we (length : Nat) (hl : 0 < length) (i : Nat → SinkIn α) (n k : Nat) :
    ((streamRegs length).wave i 0).we k = false ∧
    (((streamRegs length).wave i (n + 1)).we k = true ↔
      (i n).valid = true ∧ packetPos length (regsHist length i n) = k) := by
  refine ⟨rfl, ?_⟩
  have h1 := (regs_inv length hl i n).1
  have hlt : ((streamRegs length).st i n).idx < length := by rw [h1]; exact Nat.mod_lt _ hl
  rw [← h1]
  change ((streamRegs length).st i (n + 1)).we k = true ↔ _
  rw [Circuit.st_succ]
  generalize (streamRegs length).st i n = s at *
  cases hv : (i n).valid
  · simp [streamRegs, hv]
  · simp only [streamRegs, hv, arrayIdx, hlt, if_true, true_and]
    by_cases h : k = s.idx
    · simp [h]
    · have h' : s.idx ≠ k := fun e => h e.symm
      simp [h, h']

/-- Beats accepted by the LiteX `StreamRegs` during the first `n` cycles. -/
def lxRegsHist (depth : Nat) (conv : α → α) (i : Nat → SinkIn α) (n : Nat) : List (Beat α) :=
  transferred (fun k => (i k).valid) (fun k => ((litexStreamRegs depth conv).wave i k).ready)
    (fun k => (i k).beat) n

theorem lxRegs_sim (depth : Nat) (conv : α → α)
    (i : Nat → SinkIn α) (n : Nat) :
    let j : Nat → SinkIn α := fun k => ⟨(i k).valid, ⟨(i k).beat.first, (i k).beat.last,
      conv (i k).beat.payload⟩⟩
    ((litexStreamRegs depth conv).st i n).regs = ((streamRegs depth).st j n).regs ∧
    ((litexStreamRegs depth conv).st i n).idx = ((streamRegs depth).st j n).idx ∧
    regsHist depth j n = (lxRegsHist depth conv i n).map
      fun b => ⟨b.first, b.last, conv b.payload⟩ := by
  intro j
  induction n with
  | zero => exact ⟨rfl, rfl, rfl⟩
  | succ n ih =>
    obtain ⟨h1, h2, h3⟩ := ih
    simp only [regsHist, lxRegsHist, transferred_succ] at h3 ⊢
    rw [h3, Circuit.st_succ, Circuit.st_succ]
    generalize (litexStreamRegs depth conv).st i n = s at *
    generalize (streamRegs depth).st j n = t at *
    cases hv : (i n).valid <;>
      simp [litexStreamRegs, streamRegs, hv, j, h1, h2, Circuit.wave]

theorem sinceLast_map {α β : Type} (f : α → β) (h : List (Beat α)) :
    sinceLast (h.map fun b => (⟨b.first, b.last, f b.payload⟩ : Beat β)) = sinceLast h := by
  unfold sinceLast
  rw [← List.map_reverse]
  induction h.reverse with
  | nil => rfl
  | cons a l ih => cases ha : a.last <;> simp_all

/-- C23, LiteX variant: never stalled; register `k` holds the (possibly byte-reversed) payload of the
most recent accepted beat at position `k`. -/
theorem C23_litex_regs_latest (depth : Nat) (hl : 0 < depth) (conv : α → α)
    (i : Nat → SinkIn α) (n k j : Nat)
    (hj : IsLatestAt depth (lxRegsHist depth conv i n) k j) :
    ((litexStreamRegs depth conv).wave i n).ready = true ∧
    ((litexStreamRegs depth conv).wave i n).regs k
      = conv ((lxRegsHist depth conv i n)[j]'hj.1).payload := by
  refine ⟨rfl, ?_⟩
  obtain ⟨h1, _, h3⟩ := lxRegs_sim depth conv i n
  have hj' : IsLatestAt depth (regsHist depth (fun k => (⟨(i k).valid, ⟨(i k).beat.first,
      (i k).beat.last, conv (i k).beat.payload⟩⟩ : SinkIn α)) n) k j := by
    rw [h3]
    obtain ⟨a, b, c⟩ := hj
    refine ⟨by simpa using a, ?_, ?_⟩
    · rw [← List.map_take, packetPos, sinceLast_map]; exact b
    · intro j' x y
      rw [← List.map_take, packetPos, sinceLast_map]
      exact c j' x (by simpa using y)
  have := C23_regs_latest depth hl _ n k j hj'
  change ((litexStreamRegs depth conv).st i n).regs k = _
  rw [h1]
  refine Eq.trans this ?_
  simp only [h3, List.getElem_map]

/-- C23, LiteX variant: the `drdy` event is triggered exactly when a beat with `last` is accepted. -/
theorem C23_litex_regs_trigger (depth : Nat) (conv : α → α) (i : Nat → SinkIn α) (n : Nat) :
    ((litexStreamRegs depth conv).wave i n).trigger = true ↔
      (i n).valid = true ∧ ((litexStreamRegs depth conv).wave i n).ready = true ∧
      (i n).beat.last = true := by
  simp [Circuit.wave, litexStreamRegs]

/-- A packet of two beats, a pause, then a packet of three, into three registers. -/
def regsSample : Nat → SinkIn Nat := fun n =>
  ⟨n ≠ 2, ⟨false, n = 1 || n = 5, 20 + n⟩⟩
example : (List.range 3).map ((streamRegs 3).wave regsSample 5).regs = [23, 24, 0] := by decide
example : ((streamRegs 3).wave regsSample 6).regs 1 = 24 := by decide
example : IsLatestAt 3 (regsHist 3 regsSample 6) 1 3 := by
  refine ⟨by decide, by decide, ?_⟩
  intro j h1 h2
  have : (regsHist 3 regsSample 6).length = 5 := by decide
  have : j = 4 := by omega
  subst this; decide
example : ((litexStreamRegs 3 (fun x => x * 2)).wave regsSample 6).regs 1 = 48 := by decide

end Lambdalib
