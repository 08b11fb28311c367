import Verif.Model.Led
import Verif.Spec.Count
import Mathlib.Tactic.Linarith
import Mathlib.Tactic.NormNum
import Mathlib.Data.Rat.Floor

/-! C43: `WS2812B`, C44: `BlinkKeep`, C72: `BlinkDomain`. -/

namespace Lambdalib

section Blink
variable (timeout thresh : Nat) (i : Nat → Bool)

/-- Specification: the input was active in one of the `timeout` cycles before cycle `n`. -/
def recentlyActive (n : Nat) : Prop := ∃ k, k < n ∧ n ≤ k + timeout ∧ i k = true

theorem blink_inv (n : Nat) :
    ((blinkKeep timeout thresh).st i n).inc = n % 256 ∧
    (∀ c, 0 < c → c ≤ timeout → (((blinkKeep timeout thresh).st i n).counter ≥ c ↔
      ∃ k, k < n ∧ n + c ≤ k + timeout + 1 ∧ i k = true)) ∧
    ((blinkKeep timeout thresh).st i n).counter ≤ timeout := by
  induction n with
  | zero => exact ⟨rfl, by intro c h1 h2; simp [blinkKeep]; omega, Nat.zero_le _⟩
  | succ n ih =>
    rw [Circuit.st_succ]
    generalize (blinkKeep timeout thresh).st i n = s at *
    obtain ⟨h1, h2, h3⟩ := ih
    refine ⟨?_, ?_, ?_⟩
    · simp [blinkKeep, h1]
    · intro c hc hc2
      cases hi : i n
      · have hn : ((blinkKeep timeout thresh).next s false).counter = s.counter - 1 := by
          simp only [blinkKeep, Bool.false_eq_true, if_false]
          split
          · exact truncRange_of_lt (by omega)
          · omega
        rw [hn]
        by_cases hct : c = timeout
        · constructor
          · intro h; omega
          · rintro ⟨k, hk, hk2, hk3⟩
            have : k = n := by omega
            rw [this, hi] at hk3; cases hk3
        · have := h2 (c + 1) (by omega) (by omega)
          constructor
          · intro h
            obtain ⟨k, hk, hk2, hk3⟩ := this.mp (by omega)
            exact ⟨k, by omega, by omega, hk3⟩
          · rintro ⟨k, hk, hk2, hk3⟩
            have hkn : k ≠ n := by intro h; rw [h, hi] at hk3; cases hk3
            have := this.mpr ⟨k, by omega, by omega, hk3⟩
            omega
      · have hn : ((blinkKeep timeout thresh).next s true).counter = timeout := by
          simp only [blinkKeep, if_true]
          exact truncRange_of_lt (by omega)
        rw [hn]
        exact ⟨fun _ => ⟨n, by omega, by omega, hi⟩, fun _ => hc2⟩
    · simp only [blinkKeep]
      split
      · rw [truncRange_of_lt (by omega)]
      · split
        · rw [truncRange_of_lt (by omega)]; omega
        · exact Nat.zero_le _

/-- C44: the LED is on exactly in the first `thresh` slots of each period of 256 cycles while the input was active in
one of the last `timeout` cycles. -/
theorem C44_led (ht : 256 ≤ timeout) (n : Nat) :
    (blinkKeep timeout thresh).wave i n = true ↔ n % 256 < thresh ∧ recentlyActive timeout i n := by
  obtain ⟨h1, h2, _⟩ := blink_inv timeout thresh i n
  have := h2 1 (by omega) (by omega)
  unfold recentlyActive
  simp only [Circuit.wave]
  generalize (blinkKeep timeout thresh).st i n = s at *
  simp only [blinkKeep, Bool.and_eq_true, decide_eq_true_eq, h1]
  constructor
  · rintro ⟨h, hc⟩
    obtain ⟨k, a, b, c⟩ := this.mp hc
    exact ⟨h, k, a, by omega, c⟩
  · rintro ⟨h, k, a, b, c⟩
    exact ⟨h, this.mpr ⟨k, a, by omega, c⟩⟩

/-- Number of small remainders in an aligned period. -/
theorem highCount_lt_mod (t p : Nat) (f : Nat → Bool) (m : Nat) (hm : m ≤ 256)
    (hf : ∀ k, k < m → (f (p * 256 + k) = true ↔ k < t)) : highCount f (p * 256) m = min m t := by
  induction m with
  | zero => simp [highCount]
  | succ m ih =>
    rw [highCount, ih (by omega) (fun k hk => hf k (by omega))]
    have := hf m (by omega)
    by_cases h : m < t
    · rw [if_pos (this.mpr h)]; omega
    · rw [if_neg (fun h' => h (this.mp h'))]; omega

/-- C44: in a period of 256 cycles during which the gate is open the LED is on for `duty * 256` cycles, rounded
down. -/
theorem C44_duty (ht : 256 ≤ timeout) (duty : Rat) (h0 : 0 ≤ duty) (h1 : duty ≤ 1) (p : Nat)
    (hg : ∀ k < 256, recentlyActive timeout i (p * 256 + k)) :
    (highCount ((blinkKeep timeout (blinkThresh duty)).wave i) (p * 256) 256 : Int) = (duty * 256).floor := by
  have hb : blinkThresh duty ≤ 256 := by
    unfold blinkThresh
    have : (duty * 256).floor ≤ 256 := by
      have h2 : ((duty * 256).floor : Rat) ≤ duty * 256 := Rat.floor_le _
      have h3 : ((duty * 256).floor : Rat) ≤ ((256 : Int) : Rat) := by
        have : duty * 256 ≤ 256 := by linarith
        calc _ ≤ duty * 256 := h2
          _ ≤ 256 := this
          _ = _ := by norm_num
      exact_mod_cast h3
    omega
  rw [highCount_lt_mod (blinkThresh duty) p _ 256 (Nat.le_refl _), Nat.min_eq_right hb, blinkThresh, Int.toNat_of_nonneg]
  · have : (0 : Rat) ≤ duty * 256 := by linarith
    exact Rat.le_floor_iff.mpr (by exact_mod_cast this)
  · intro k hk
    rw [C44_led timeout _ i ht]
    have : (p * 256 + k) % 256 = k := by omega
    rw [this]
    exact ⟨fun h => h.1, fun h => ⟨h, hg k hk⟩⟩

/-- C72: the heartbeat LED has a half period of 2^25 cycles and starts low. -/
theorem C72_heartbeat (j : Nat → Unit) (n : Nat) : blinkDomain.wave j n = (n / 2 ^ 25 % 2 == 1) := by
  have h : blinkDomain.st j n = n % 2 ^ 26 := by
    induction n with
    | zero => rfl
    | succ n ih =>
      rw [Circuit.st_succ, ih]
      show (n % 2 ^ 26 + 1) % 2 ^ 26 = _
      omega
  simp only [Circuit.wave, h]
  show (n % 2 ^ 26).testBit 25 = _
  rw [Nat.testBit_mod_two_pow]
  simp only [Nat.testBit, Nat.shiftRight_eq_div_pow]
  rw [Nat.and_comm, Nat.and_one_is_mod]
  rcases Nat.mod_two_eq_zero_or_one (n / 2 ^ 25) with h | h <;> simp [h]

end Blink

/-! ### WS2812B -/

section Ws
variable (p : WsTiming) (width : Nat)

/-- Specification: level of the line in cycle `t` of the transmission of pixel `d`: bits of `T + 1` cycles, most
significant first, each high for `T1H` or `T0H` cycles and then low. -/
def wsLevel (d t : Nat) : Bool :=
  decide (t % (p.t + 1) < if d.testBit (width - 1 - t / (p.t + 1)) then p.t1h else p.t0h)

/-- Usable timings. -/
structure WsOk : Prop where
  h0 : p.t0h ≤ p.t
  h1 : p.t1h ≤ p.t
  h2 : p.t ≤ p.trst
  h3 : 0 < width

variable (i : Nat → WsIn)

theorem ws_high (s : WsS) (h : s.st = .transmit) : wsHigh p width s =
    decide (s.cycs < if s.sreg.testBit (width - 1) then p.t1h else p.t0h) := by
  unfold wsHigh
  cases s.sreg.testBit (width - 1) <;> simp

theorem ws_row (hp : WsOk p width) (m j d : Nat) (l : Bool) (sr : Nat)
    (h : (ws2812b p width).st i m = ⟨.transmit, sr, 0, j, l⟩) :
    ∀ c ≤ p.t, (ws2812b p width).st i (m + c) = ⟨.transmit, sr, c, j, l⟩ := by
  intro c
  induction c with
  | zero => intro _; exact h
  | succ c ih =>
    intro hc
    rw [← Nat.add_assoc, Circuit.st_succ, ih (by omega)]
    have h2 := hp.h2
    have hlt : c < p.t := by omega
    have hinc : wsInc p width ⟨.transmit, sr, c, j, l⟩ = true := by simp [wsInc, hlt]
    have ht : truncRange (p.trst + 1) (c + 1) = c + 1 := truncRange_of_lt (by omega)
    simp only [ws2812b, hinc, if_true, ht]
    split
    · rfl
    · first | rfl | rw [if_pos hlt]

theorem ws_reg (hp : WsOk p width) (n : Nat) (hr : ((ws2812b p width).wave i n).ready = true)
    (hv : (i n).valid = true) : ∀ j < width,
    (ws2812b p width).st i (n + 1 + j * (p.t + 1)) =
      ⟨.transmit, (i n).data * 2 ^ j % 2 ^ width, 0, j, (i n).last⟩ := by
  intro j
  induction j with
  | zero =>
    intro _
    have hst : ((ws2812b p width).st i n).st = .idle := by simpa [Circuit.wave, ws2812b] using hr
    rw [Nat.zero_mul, Nat.add_zero, Circuit.st_succ]
    generalize (ws2812b p width).st i n = s at *
    simp [ws2812b, hst, hv, wsInc]
  | succ j ih =>
    intro hj
    have := ws_row p width i hp _ j (i n).data _ _ (ih (by omega)) p.t (Nat.le_refl _)
    rw [Nat.add_mul j, Nat.one_mul, ← Nat.add_assoc (n + 1), ← Nat.add_assoc _ p.t, Circuit.st_succ, this]
    have hh : wsHigh p width ⟨.transmit, (i n).data * 2 ^ j % 2 ^ width, p.t, j, (i n).last⟩ = false := by
      rw [ws_high _ _ _ rfl]
      have h0 := hp.h0
      have h1 := hp.h1
      simp only [decide_eq_false_iff_not]
      split <;> omega
    have hinc : wsInc p width ⟨.transmit, (i n).data * 2 ^ j % 2 ^ width, p.t, j, (i n).last⟩ = false := by
      simp only [wsInc, hh]; simp
    have hjw : j < width - 1 := by omega
    simp only [ws2812b, hinc, hh, Bool.false_eq_true, if_false, Nat.lt_irrefl, hjw, if_true]
    rw [truncRange_of_lt (by omega)]
    congr 1
    rw [Nat.mul_mod_mod, Nat.pow_succ]
    congr 1
    rw [← Nat.mul_assoc, Nat.mul_comm 2, Nat.mul_assoc, Nat.mul_comm 2]

/-- C43: a pixel that is taken is sent bit by bit with the exact timing, and nothing is taken meanwhile. -/
theorem C43_pixel (hp : WsOk p width) (n : Nat) (hr : ((ws2812b p width).wave i n).ready = true)
    (hv : (i n).valid = true) (t : Nat) (ht : t < width * (p.t + 1)) :
    ((ws2812b p width).wave i (n + 1 + t)).pin = wsLevel p width (i n).data t ∧
    ((ws2812b p width).wave i (n + 1 + t)).ready = false := by
  have hj : t / (p.t + 1) < width := Nat.div_lt_of_lt_mul (by rw [Nat.mul_comm]; exact ht)
  have hc : t % (p.t + 1) ≤ p.t := by have := Nat.mod_lt t (y := p.t + 1) (by omega); omega
  have h := ws_row p width i hp _ _ (i n).data _ _ (ws_reg p width i hp n hr hv _ hj) _ hc
  rw [show n + 1 + t / (p.t + 1) * (p.t + 1) + t % (p.t + 1) = n + 1 + t by
    have := Nat.div_add_mod' t (p.t + 1); omega] at h
  simp only [Circuit.wave, h]
  refine ⟨?_, rfl⟩
  show (true && wsHigh p width _) = _
  rw [ws_high _ _ _ rfl, wsLevel, Bool.true_and]
  have hb : ((i n).data * 2 ^ (t / (p.t + 1)) % 2 ^ width).testBit (width - 1) =
      (i n).data.testBit (width - 1 - t / (p.t + 1)) := by
    have h3 := hp.h3
    rw [Nat.testBit_mod_two_pow, Nat.testBit_mul_two_pow]
    have e1 : width - 1 < width := by omega
    have e2 : t / (p.t + 1) ≤ width - 1 := by omega
    simp [e1, e2]
  dsimp only
  rw [hb]

/-- State after the last bit. -/
theorem ws_after (hp : WsOk p width) (n : Nat) (hr : ((ws2812b p width).wave i n).ready = true)
    (hv : (i n).valid = true) :
    ((ws2812b p width).st i (n + 1 + width * (p.t + 1))).st = (if (i n).last then .reset else .idle) ∧
    ((ws2812b p width).st i (n + 1 + width * (p.t + 1))).cycs = 0 := by
  have h3 := hp.h3
  obtain ⟨w, hw⟩ : ∃ w, width = w + 1 := ⟨width - 1, by omega⟩
  have := ws_row p width i hp _ _ (i n).data _ _ (ws_reg p width i hp n hr hv w (by omega)) p.t (Nat.le_refl _)
  rw [show width * (p.t + 1) = w * (p.t + 1) + p.t + 1 by rw [hw, Nat.add_mul w, Nat.one_mul]; omega,
    ← Nat.add_assoc, ← Nat.add_assoc, Circuit.st_succ, this]
  have hh : wsHigh p width ⟨.transmit, (i n).data * 2 ^ w % 2 ^ width, p.t, w, (i n).last⟩ = false := by
    rw [ws_high _ _ _ rfl]
    have h0 := hp.h0
    have h1 := hp.h1
    simp only [decide_eq_false_iff_not]
    split <;> omega
  have hinc : wsInc p width ⟨.transmit, (i n).data * 2 ^ w % 2 ^ width, p.t, w, (i n).last⟩ = false := by
    simp only [wsInc, hh]; simp
  have hjw : ¬ w < width - 1 := by omega
  simp only [ws2812b, hinc, hh, Bool.false_eq_true, if_false, Nat.lt_irrefl, hjw]
  cases (i n).last <;> simp

/-- C43: after a pixel without `last` the next one can be taken at once. -/
theorem C43_next (hp : WsOk p width) (n : Nat) (hr : ((ws2812b p width).wave i n).ready = true)
    (hv : (i n).valid = true) (hl : (i n).last = false) :
    ((ws2812b p width).wave i (n + 1 + width * (p.t + 1))).ready = true := by
  have := (ws_after p width i hp n hr hv).1
  rw [hl] at this
  simp only [Circuit.wave]
  generalize (ws2812b p width).st i (n + 1 + width * (p.t + 1)) = s at *
  simp [ws2812b, this]

/-- C43: after a pixel with `last` the line stays low for `TRST + 1` cycles during which nothing is taken, then the
next pixel can be taken. -/
theorem C43_reset (hp : WsOk p width) (n : Nat) (hr : ((ws2812b p width).wave i n).ready = true)
    (hv : (i n).valid = true) (hl : (i n).last = true) :
    (∀ t ≤ p.trst, (ws2812b p width).wave i (n + 1 + width * (p.t + 1) + t) = ⟨false, false⟩) ∧
    ((ws2812b p width).wave i (n + 1 + width * (p.t + 1) + p.trst + 1)).ready = true := by
  obtain ⟨h1, h2⟩ := ws_after p width i hp n hr hv
  rw [hl] at h1
  generalize n + 1 + width * (p.t + 1) = m at *
  have key : ∀ t ≤ p.trst, ((ws2812b p width).st i (m + t)).st = .reset ∧ ((ws2812b p width).st i (m + t)).cycs = t := by
    intro t
    induction t with
    | zero => intro _; exact ⟨h1, h2⟩
    | succ t ih =>
      intro ht
      obtain ⟨a, b⟩ := ih (by omega)
      rw [← Nat.add_assoc, Circuit.st_succ]
      generalize (ws2812b p width).st i (m + t) = s at *
      have : ¬ p.trst ≤ t := by omega
      have e : truncRange (p.trst + 1) (t + 1) = t + 1 := truncRange_of_lt (by omega)
      simp [ws2812b, a, b, wsInc, this, e]
  constructor
  · intro t ht
    obtain ⟨a, b⟩ := key t ht
    simp only [Circuit.wave]
    generalize (ws2812b p width).st i (m + t) = s at *
    simp [ws2812b, a]
  · obtain ⟨a, b⟩ := key p.trst (Nat.le_refl _)
    simp only [Circuit.wave, Circuit.st_succ]
    generalize (ws2812b p width).st i (m + p.trst) = s at *
    simp [ws2812b, a, b]

/-- C43: while waiting for a pixel the line is low and the driver keeps waiting. It waits after reset. -/
theorem C43_idle : ((ws2812b p width).wave i 0).ready = true ∧
    ∀ n, ((ws2812b p width).wave i n).ready = true → ((ws2812b p width).wave i n).pin = false ∧
      ((i n).valid = false → ((ws2812b p width).wave i (n + 1)).ready = true) := by
  refine ⟨rfl, ?_⟩
  intro n h
  simp only [Circuit.wave, Circuit.st_succ] at *
  generalize (ws2812b p width).st i n = s at *
  have hst : s.st = .idle := by simpa [ws2812b] using h
  refine ⟨by simp [ws2812b, hst], ?_⟩
  intro hv
  simp [ws2812b, hst, hv]

end Ws

/-- `int(x)` of a product with the clock frequency is within one cycle below it. -/
theorem floor_cycles (a : Rat) (h : 0 ≤ a) : ((a.floor.toNat : Nat) : Rat) ≤ a ∧ a < (a.floor.toNat : Nat) + 1 := by
  have h0 : 0 ≤ a.floor := Rat.le_floor_iff.mpr (by exact_mod_cast h)
  have e : ((a.floor.toNat : Nat) : Rat) = (a.floor : Rat) := by
    have : ((a.floor.toNat : Nat) : Int) = a.floor := Int.toNat_of_nonneg h0
    calc ((a.floor.toNat : Nat) : Rat) = (((a.floor.toNat : Nat) : Int) : Rat) := by norm_cast
      _ = _ := by rw [this]
  rw [e]
  exact ⟨Rat.floor_le a, by have := Rat.lt_floor_add_one a; push_cast at this; exact this⟩

theorem floor_toNat_mono (a b : Rat) (h0 : 0 ≤ a) (h : a ≤ b) : a.floor.toNat ≤ b.floor.toNat := by
  have h1 := floor_cycles a h0
  have h2 := floor_cycles b (by linarith)
  have : ((a.floor.toNat : Nat) : Rat) < (b.floor.toNat : Nat) + 1 := by linarith [h1.1, h2.2]
  have : a.floor.toNat < b.floor.toNat + 1 := by exact_mod_cast this
  omega

/-- C43: for every clock frequency the timings are usable, high times are at most one cycle below the nominal ones,
a bit (`T + 1` cycles) lasts more than 890 ns and at most one cycle more, and the reset gap (`TRST + 1` cycles) lasts
more than 80 us. -/
theorem C43_timing (f : Rat) (hf : 0 < f) (width : Nat) (hw : 0 < width) :
    WsOk (wsTiming f) width ∧
    (((wsTiming f).t0h : Rat) / f ≤ 295 / 1000000000 ∧ 295 / 1000000000 < ((wsTiming f).t0h + 1 : Rat) / f) ∧
    (((wsTiming f).t1h : Rat) / f ≤ 595 / 1000000000 ∧ 595 / 1000000000 < ((wsTiming f).t1h + 1 : Rat) / f) ∧
    (((wsTiming f).t : Rat) / f ≤ 890 / 1000000000 ∧ 890 / 1000000000 < ((wsTiming f).t + 1 : Rat) / f) ∧
    80 / 1000000 < ((wsTiming f).trst + 1 : Rat) / f := by
  refine ⟨⟨?_, ?_, ?_, hw⟩, ?_, ?_, ?_, ?_⟩
  · exact floor_toNat_mono _ _ (by linarith) (by linarith)
  · exact floor_toNat_mono _ _ (by linarith) (by linarith)
  · exact floor_toNat_mono _ _ (by linarith) (by linarith)
  · rw [div_le_iff₀ hf, lt_div_iff₀ hf]
    exact floor_cycles _ (by linarith)
  · rw [div_le_iff₀ hf, lt_div_iff₀ hf]
    exact floor_cycles _ (by linarith)
  · rw [div_le_iff₀ hf, lt_div_iff₀ hf]
    exact floor_cycles _ (by linarith)
  · rw [lt_div_iff₀ hf]
    exact (floor_cycles _ (by linarith)).2

/-! ### Concrete runs -/

/-- One pulse at cycle 5 keeps the gate open until cycle 261. -/
example : recentlyActive 256 (fun n => n == 5) 261 ∧ ¬ recentlyActive 256 (fun n => n == 5) 262 := by
  refine ⟨⟨5, by omega, by omega, rfl⟩, ?_⟩
  rintro ⟨k, h1, h2, h3⟩
  simp at h3
  omega

example : (blinkKeep 256 128).wave (fun n => n == 5) 100 = true ∧ (blinkKeep 256 128).wave (fun n => n == 5) 200 = false := by
  decide +kernel

example : blinkThresh (1 / 2) = 128 := by
  have : (1 / 2 * 256 : Rat) = ((128 : Int) : Rat) := by norm_num
  rw [blinkThresh, this, Rat.floor_intCast]; rfl

/-- Small timings, two pixels `0b10` and `0b01` (the second one last). -/
def wsDemoP : WsTiming := ⟨1, 2, 3, 5⟩
def wsDemo (n : Nat) : WsIn := ⟨true, decide (n > 0), if n = 0 then 2 else 1⟩

example : WsOk wsDemoP 2 := ⟨by decide, by decide, by decide, by decide⟩

example : (List.range 26).map (fun n => ((ws2812b wsDemoP 2).wave wsDemo n).pin) =
    [false, true, true, false, false, true, false, false, false, false, true, false, false, false, true, true, false,
      false, false, false, false, false, false, false, false, true] := by decide +kernel

example : (List.range 26).filter (fun n => ((ws2812b wsDemoP 2).wave wsDemo n).ready) = [0, 9, 24] := by decide +kernel

end Lambdalib
