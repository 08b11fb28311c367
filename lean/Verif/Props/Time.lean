import Verif.Lemmas.Time
import Verif.Spec.Count

/-! C19-C22, C64: timers and clock generators. -/

namespace Lambdalib

/-- C19: `done` is high exactly when `wait` was high in each of the `t` preceding cycles. -/
theorem C19_waittimer_exact (t : Nat) (wait : Nat → Bool) (n : Nat) :
    (waitTimer t).wave wait n = true ↔
      t ≤ n ∧ ∀ k < n, n ≤ k + t → wait k = true := by
  have h := (waitTimer_inv t wait n).2 t (Nat.le_refl t)
  rw [← h]
  simp only [Circuit.wave, waitTimer, beq_iff_eq]
  change (waitTimer t).st wait n = 0 ↔ (waitTimer t).st wait n + t ≤ t
  omega

/-- C20: from power-on, or after a cycle without any wait input, while exactly input `i` is held,
`done` is low for the first `ts[i]` cycles and high afterwards. -/
theorem C20_waitntimer_exact (ts : List Nat) (i : Nat) (hi : i < ts.length)
    (wait : Nat → Nat → Bool) (s j : Nat)
    (hs : s = 0 ∨ ∀ k < ts.length, wait (s - 1) k = false)
    (hw : ∀ l ≤ j, ∀ k < ts.length, wait (s + l) k = true ↔ k = i) :
    (waitNTimer ts).wave wait (s + j) = true ↔ ts[i] ≤ j := by
  have hget : ts.getD i 0 = ts[i] := by simp [hi]
  have hmax : ts[i] ≤ maxList ts := le_maxList ts _ (List.getElem_mem hi)
  have hout : ∀ l ≤ j, ∀ c, (waitNTimer ts).out c (wait (s + l)) = true ↔ c = ts[i] := by
    intro l hl c
    simp only [waitNTimer, List.any_eq_true, List.mem_range, Bool.and_eq_true, beq_iff_eq]
    constructor
    · rintro ⟨k, hk, hwk, hc⟩
      have := (hw l hl k hk).1 hwk
      subst this; rw [hc, hget]
    · intro hc
      exact ⟨i, hi, (hw l hl i hi).2 rfl, by rw [hget, hc]⟩
  have hany : ∀ l ≤ j, (List.range ts.length).any (wait (s + l)) = true := by
    intro l hl
    simp only [List.any_eq_true, List.mem_range]
    exact ⟨i, hi, (hw l hl i hi).2 rfl⟩
  have h0 : (waitNTimer ts).st wait s = 0 := by
    rcases hs with rfl | hs
    · rfl
    · cases s with
      | zero => rfl
      | succ s =>
        rw [Circuit.st_succ]
        have : (List.range ts.length).any (wait s) = false := by
          simp only [List.any_eq_false, List.mem_range]
          intro k hk
          have := hs k hk
          simp only [Nat.add_sub_cancel] at this
          simp [this]
        generalize (waitNTimer ts).st wait s = c
        simp only [waitNTimer, this, Bool.false_eq_true, if_false]
  have hst : ∀ l ≤ j, (waitNTimer ts).st wait (s + l) = min l ts[i] := by
    intro l
    induction l with
    | zero => intro _; simp [h0]
    | succ l ih =>
      intro hl
      have ihl := ih (by omega)
      rw [← Nat.add_assoc, Circuit.st_succ, ihl]
      have hn : ∀ c, (waitNTimer ts).next c (wait (s + l)) =
          if (List.range ts.length).any (wait (s + l)) then
            (if !((waitNTimer ts).out c (wait (s + l))) then truncRange (maxList ts + 1) (c + 1)
             else c) else 0 := fun _ => rfl
      rw [hn, hany l (by omega), if_pos rfl]
      by_cases hc : min l ts[i] = ts[i]
      · rw [(hout l (by omega) _).2 hc]
        simp; omega
      · have : (waitNTimer ts).out (min l ts[i]) (wait (s + l)) = false := by
          rw [← Bool.not_eq_true]; exact fun h => hc ((hout l (by omega) _).1 h)
        rw [this, truncRange_of_lt (by omega)]
        simp; omega
  rw [Circuit.wave, hout j (Nat.le_refl j), hst j (Nat.le_refl j)]
  omega

/-- Accumulated count and phase of the pulse generator over `n` cycles without `rst`. -/
theorem pulse_run (tw : Nat) (htw : tw ≤ 2 ^ 32) (rst : Nat → Bool) (m : Nat) :
    ∀ n, (∀ k, m ≤ k → k < m + n → rst k = false) → ((pulseClock tw).st rst m).acc < 2 ^ 32 →
    ((pulseClock tw).st rst (m + n)).acc < 2 ^ 32 ∧
    ((pulseClock tw).st rst m).acc + n * tw = ((pulseClock tw).st rst (m + n)).acc
      + 2 ^ 32 * highCount ((pulseClock tw).wave rst) (m + 1) n := by
  intro n
  induction n with
  | zero => intro _ h; simp [highCount, h]
  | succ n ih =>
    intro hr ha
    obtain ⟨h1, h2⟩ := ih (fun k hk hk2 => hr k hk (by omega)) ha
    have hs : (pulseClock tw).st rst (m + n + 1)
        = accStep tw ((pulseClock tw).st rst (m + n)).acc := by
      rw [Circuit.st_succ, hr (m + n) (by omega) (by omega)]; rfl
    have hw : (pulseClock tw).wave rst (m + 1 + n)
        = (accStep tw ((pulseClock tw).st rst (m + n)).acc).tick := by
      rw [show m + 1 + n = m + n + 1 by omega, Circuit.wave, hs]; rfl
    have h3 := accStep_spec tw _ h1 htw
    rw [highCount, hw, ← Nat.add_assoc, hs]
    refine ⟨h3.1, ?_⟩
    rw [Nat.add_mul, Nat.one_mul, Nat.mul_add]
    omega

theorem pulse_acc_lt (tw : Nat) (rst : Nat → Bool) (n : Nat) :
    ((pulseClock tw).st rst n).acc < 2 ^ 32 := by
  refine (pulseClock tw).st_invariant (fun s => s.acc < 2 ^ 32) (by simp [pulseClock]) ?_ rst n
  intro s x h
  cases x
  · simp only [pulseClock, accStep]
    exact Nat.mod_lt _ (by decide)
  · simp [pulseClock]

/-- C21: without `rst`, the number of pulses among the first `n+1` cycles is `⌊n*tw/2^32⌋`. -/
theorem C21_pulseclock_rate (tw : Nat) (htw : tw ≤ 2 ^ 32) (rst : Nat → Bool) (n : Nat)
    (hr : ∀ k < n, rst k = false) :
    highCount ((pulseClock tw).wave rst) 0 (n + 1) = n * tw / 2 ^ 32 := by
  have h := pulse_run tw htw rst 0 n (fun k _ hk => hr k (by omega)) (pulse_acc_lt _ _ _)
  have h0 : ∀ n, highCount ((pulseClock tw).wave rst) 0 (n + 1)
      = highCount ((pulseClock tw).wave rst) 1 n := by
    intro n
    induction n with
    | zero => simp [highCount, Circuit.wave, pulseClock]
    | succ n ih =>
      rw [highCount, ih, highCount, show 0 + (n + 1) = 1 + n by omega]
  rw [h0]
  have ha : ((pulseClock tw).st rst 0).acc = 0 := rfl
  rw [ha] at h
  simp only [Nat.zero_add] at h
  omega

/-- C21: after a `rst` cycle the phase is one half: the number of pulses in the `n` cycles that
follow the first cycle after `rst` is `⌊(n*tw + 2^31)/2^32⌋`. -/
theorem C21_pulseclock_rate_after_rst (tw : Nat) (htw : tw ≤ 2 ^ 32) (rst : Nat → Bool) (m n : Nat)
    (hm : rst m = true) (hr : ∀ k, m < k → k ≤ m + n → rst k = false) :
    highCount ((pulseClock tw).wave rst) (m + 2) n = (n * tw + 2 ^ 31) / 2 ^ 32 := by
  have ha : ((pulseClock tw).st rst (m + 1)).acc = 2 ^ 31 := by
    rw [Circuit.st_succ, hm]; rfl
  have h := pulse_run tw htw rst (m + 1) n (fun k hk hk2 => hr k (by omega) (by omega))
    (pulse_acc_lt _ _ _)
  rw [ha] at h
  rw [show m + 1 + 1 = m + 2 by rfl] at h
  omega

/-- C21: no new pulse starts while `rst` is held. -/
theorem C21_pulseclock_rst_quiet (tw : Nat) (rst : Nat → Bool) (n : Nat) (hr : rst n = true) :
    (pulseClock tw).wave rst (n + 1) = (pulseClock tw).wave rst n := by
  simp [Circuit.wave, Circuit.st_succ, hr, pulseClock]

/-- C21: the tuning word computed from integer frequencies makes the pulse count match the ideal
count `n*target/sys` to within one pulse over the first `2^32` cycles. -/
theorem C21_tuningword_error (sys target n : Nat) (hs : 0 < sys) (hn : n ≤ 2 ^ 32) :
    n * pulseTuningWord sys target / 2 ^ 32 ≤ n * target / sys ∧
    n * target / sys ≤ n * pulseTuningWord sys target / 2 ^ 32 + 1 := by
  unfold pulseTuningWord
  generalize hq : target * 2 ^ 32 / sys = q
  have h1 : q * sys ≤ target * 2 ^ 32 := by rw [← hq]; exact Nat.div_mul_le_self _ _
  have h2 : target * 2 ^ 32 < (q + 1) * sys := by
    rw [← hq]; exact (Nat.div_lt_iff_lt_mul hs).1 (Nat.lt_succ_self _)
  constructor
  · rw [Nat.le_div_iff_mul_le hs]
    have h3 : n * q / 2 ^ 32 * 2 ^ 32 ≤ n * q := Nat.div_mul_le_self _ _
    have h4 : n * q / 2 ^ 32 * 2 ^ 32 * sys ≤ n * q * sys := Nat.mul_le_mul_right _ h3
    have h5 : n * (q * sys) ≤ n * (target * 2 ^ 32) := Nat.mul_le_mul_left _ h1
    have h6 : n * q / 2 ^ 32 * sys * 2 ^ 32 ≤ n * target * 2 ^ 32 := by
      calc n * q / 2 ^ 32 * sys * 2 ^ 32 = n * q / 2 ^ 32 * 2 ^ 32 * sys := by
            rw [Nat.mul_assoc, Nat.mul_comm sys, ← Nat.mul_assoc]
        _ ≤ n * q * sys := h4
        _ = n * (q * sys) := by rw [Nat.mul_assoc]
        _ ≤ n * (target * 2 ^ 32) := h5
        _ = n * target * 2 ^ 32 := by rw [Nat.mul_assoc]
    omega
  · rw [← Nat.lt_succ_iff, Nat.div_lt_iff_lt_mul hs]
    have h3 : n * q < (n * q / 2 ^ 32 + 1) * 2 ^ 32 := by omega
    have h4 : n * (q + 1) ≤ (n * q / 2 ^ 32 + 2) * 2 ^ 32 := by
      rw [Nat.mul_add]; omega
    have h5 : n * (target * 2 ^ 32) ≤ n * ((q + 1) * sys) := Nat.mul_le_mul_left _ (Nat.le_of_lt h2)
    by_cases hn0 : n = 0
    · subst hn0; simp; omega
    · have h6 : n * (target * 2 ^ 32) < n * ((q + 1) * sys) :=
        Nat.mul_lt_mul_of_pos_left h2 (by omega)
      have h7 : n * ((q + 1) * sys) ≤ (n * q / 2 ^ 32 + 2) * 2 ^ 32 * sys := by
        rw [← Nat.mul_assoc]; exact Nat.mul_le_mul_right _ h4
      have h8 : n * target * 2 ^ 32 < (n * q / 2 ^ 32 + 2) * sys * 2 ^ 32 := by
        calc n * target * 2 ^ 32 = n * (target * 2 ^ 32) := by rw [Nat.mul_assoc]
          _ < n * ((q + 1) * sys) := h6
          _ ≤ (n * q / 2 ^ 32 + 2) * 2 ^ 32 * sys := h7
          _ = (n * q / 2 ^ 32 + 2) * sys * 2 ^ 32 := by
            rw [Nat.mul_assoc, Nat.mul_comm (2 ^ 32), ← Nat.mul_assoc]
      exact Nat.lt_of_mul_lt_mul_right h8

/-- Accumulator of the tuning clock. -/
theorem tuning_run (tw : Nat) (htw : tw ≤ 2 ^ 32) (u : Nat → Unit) :
    ∀ n, ((tuningClock tw).st u (n + 1)).p.acc < 2 ^ 32 ∧
      (n + 1) * tw = ((tuningClock tw).st u (n + 1)).p.acc + 2 ^ 32 *
        (highCount (fun k => (tuningClock tw).wave u (k + 1) != (tuningClock tw).wave u k) 0 (n + 1)
          + (if ((tuningClock tw).st u (n + 1)).p.tick then 1 else 0)) := by
  intro n
  induction n with
  | zero =>
    have h := accStep_spec tw 0 (by decide) htw
    have hs : ((tuningClock tw).st u 1) = ⟨accStep tw 0, false⟩ := rfl
    have hw : (tuningClock tw).wave u 1 = false ∧ (tuningClock tw).wave u 0 = false := ⟨rfl, rfl⟩
    simp only [Nat.zero_add, hs, highCount, hw.1, hw.2]
    refine ⟨h.1, ?_⟩
    simp only [Nat.zero_add] at h
    simpa using h.2
  | succ n ih =>
    obtain ⟨h1, h2⟩ := ih
    have h := accStep_spec tw _ h1 htw
    have hs : (tuningClock tw).st u (n + 1 + 1) =
      ⟨accStep tw ((tuningClock tw).st u (n + 1)).p.acc,
        if ((tuningClock tw).st u (n + 1)).p.tick then !((tuningClock tw).st u (n + 1)).o
        else ((tuningClock tw).st u (n + 1)).o⟩ := rfl
    have hw : ∀ k, (tuningClock tw).wave u k = ((tuningClock tw).st u k).o := fun _ => rfl
    rw [highCount, Nat.zero_add, hs]
    simp only [hw, hs] at h2 ⊢
    refine ⟨h.1, ?_⟩
    have ht : (if ((if ((tuningClock tw).st u (n + 1)).p.tick = true then
        !((tuningClock tw).st u (n + 1)).o else ((tuningClock tw).st u (n + 1)).o)
          != ((tuningClock tw).st u (n + 1)).o) = true then 1 else 0)
        = if ((tuningClock tw).st u (n + 1)).p.tick = true then 1 else 0 := by
      cases ((tuningClock tw).st u (n + 1)).p.tick <;>
        cases ((tuningClock tw).st u (n + 1)).o <;> simp
    rw [ht]
    rw [Nat.add_mul (n + 1) 1 tw, Nat.one_mul]
    simp only [Nat.mul_add] at h2 ⊢
    omega

/-- C22: the number of edges of `o` over the first `n+2` cycles (`n+1` cycle boundaries) is
`⌊n*tw/2^32⌋`. -/
theorem C22_tuningclock_edges (tw : Nat) (htw : tw ≤ 2 ^ 32) (u : Nat → Unit) (n : Nat) :
    highCount (fun k => (tuningClock tw).wave u (k + 1) != (tuningClock tw).wave u k) 0 (n + 1)
      = n * tw / 2 ^ 32 := by
  cases n with
  | zero => simp [highCount, Circuit.wave, Circuit.st, tuningClock]
  | succ n =>
    have h := tuning_run tw htw u n
    have hs : ∀ k, (tuningClock tw).wave u (k + 1) =
      if ((tuningClock tw).st u k).p.tick then !((tuningClock tw).wave u k)
      else (tuningClock tw).wave u k := fun _ => rfl
    rw [highCount, Nat.zero_add, hs (n + 1), h.2]
    have ht : (if ((if ((tuningClock tw).st u (n + 1)).p.tick = true then
        !((tuningClock tw).wave u (n + 1)) else (tuningClock tw).wave u (n + 1))
          != (tuningClock tw).wave u (n + 1)) = true then 1 else 0)
        = if ((tuningClock tw).st u (n + 1)).p.tick = true then 1 else 0 := by
      cases ((tuningClock tw).st u (n + 1)).p.tick <;>
        cases (tuningClock tw).wave u (n + 1) <;> simp
    rw [ht]
    have := h.1
    omega

/-- C22: with the tuning word computed from integer frequencies (target at most half the system
clock), the number of edges is the ideal `2*n*target/sys` (two per target period) to within one edge
over the first `2^32` cycles. -/
theorem C22_tuningclock_frequency (sys target n : Nat) (hs : 0 < sys) (ht : 2 * target ≤ sys)
    (hn : n ≤ 2 ^ 32) (u : Nat → Unit) :
    let c := tuningClock (tuningTuningWord sys target)
    let edges := highCount (fun k => c.wave u (k + 1) != c.wave u k) 0 (n + 1)
    edges ≤ n * (2 * target) / sys ∧ n * (2 * target) / sys ≤ edges + 1 := by
  intro c edges
  have hw : tuningTuningWord sys target ≤ 2 ^ 32 := by
    unfold tuningTuningWord
    calc 2 * target * 2 ^ 32 / sys ≤ sys * 2 ^ 32 / sys :=
          Nat.div_le_div_right (Nat.mul_le_mul_right _ ht)
      _ = 2 ^ 32 := Nat.mul_div_cancel_left _ hs
  have e : edges = n * tuningTuningWord sys target / 2 ^ 32 := C22_tuningclock_edges _ hw u n
  rw [e]
  exact C21_tuningword_error sys (2 * target) n hs hn

/-- C22: the output level is the parity of the edge count. -/
theorem C22_tuningclock_parity (tw : Nat) (htw : tw ≤ 2 ^ 32) (u : Nat → Unit) (n : Nat) :
    (tuningClock tw).wave u (n + 1) = (n * tw / 2 ^ 32 % 2 == 1) := by
  rw [← C22_tuningclock_edges tw htw u n]
  have key : ∀ (f : Nat → Bool) (m : Nat), f 0 = false →
      f m = (highCount (fun k => f (k + 1) != f k) 0 m % 2 == 1) := by
    intro f m h0
    induction m with
    | zero => simp [highCount, h0]
    | succ m ih =>
      rw [highCount, Nat.zero_add]
      generalize highCount (fun k => f (k + 1) != f k) 0 m = c at *
      have hc : c % 2 = 0 ∨ c % 2 = 1 := by omega
      cases hfm : f m <;> cases hfm1 : f (m + 1) <;> simp [hfm] at ih ⊢ <;> omega
  exact key _ _ rfl

/-- C64 (full claim, refuted): with `tw = 2^31` a `rst` arriving during a pulse makes the pulse last
two cycles. -/
theorem C64_pulseclock_onecycle_refuted :
    ¬ ∀ (tw : Nat) (rst : Nat → Bool) (n : Nat), tw ≤ 2 ^ 31 →
      (pulseClock tw).wave rst n = true → (pulseClock tw).wave rst (n + 1) = false := by
  intro h
  have := h (2 ^ 31) (fun n => n == 2) 2 (by decide) (by decide)
  revert this; decide

/-- C64 (partial): pulses last one cycle provided `rst` is not asserted during a pulse. -/
theorem C64_pulseclock_onecycle_partial (tw : Nat) (htw : tw ≤ 2 ^ 31) (rst : Nat → Bool)
    (hr : ∀ k, (pulseClock tw).wave rst k = true → rst k = false) (n : Nat)
    (h : (pulseClock tw).wave rst n = true) : (pulseClock tw).wave rst (n + 1) = false := by
  have hinv : ∀ n, ((pulseClock tw).st rst n).tick = true → ((pulseClock tw).st rst n).acc < tw := by
    intro n
    induction n with
    | zero => intro h; cases h
    | succ n ih =>
      rw [Circuit.st_succ]
      cases hrn : rst n
      · intro ht
        have hst : (pulseClock tw).next ((pulseClock tw).st rst n) false
          = accStep tw ((pulseClock tw).st rst n).acc := rfl
        rw [hst] at ht ⊢
        have h3 := accStep_spec tw _ (pulse_acc_lt tw rst n) (by omega)
        rw [ht] at h3
        have := pulse_acc_lt tw rst n
        simp only [if_true] at h3
        omega
      · intro ht
        have hst : ((pulseClock tw).next ((pulseClock tw).st rst n) true).tick
          = ((pulseClock tw).st rst n).tick := rfl
        rw [hst] at ht
        have := hr n ht
        rw [hrn] at this; cases this
  have h1 := hinv n h
  rw [Circuit.wave, Circuit.st_succ, hr n h]
  have hst : (pulseClock tw).next ((pulseClock tw).st rst n) false
    = accStep tw ((pulseClock tw).st rst n).acc := rfl
  rw [hst]
  change (accStep tw ((pulseClock tw).st rst n).acc).tick = false
  have h3 := accStep_spec tw _ (pulse_acc_lt tw rst n) (by omega)
  cases ht : (accStep tw ((pulseClock tw).st rst n).acc).tick
  · rfl
  · rw [ht] at h3
    simp only [if_true] at h3
    omega

/-! Concrete cases. -/

/-- `wait` high in cycles 2..6. -/
example : (List.range 8).map ((waitTimer 3).wave (fun n => 2 ≤ n && n < 7)) =
    [false, false, false, false, false, true, true, true] := by decide
example : (List.range 7).map ((waitNTimer [1, 4]).wave (fun n k => 1 ≤ n && k == 1)) =
    [false, false, false, false, false, true, true] := by decide
example : highCount ((pulseClock (2 ^ 30)).wave (fun _ => false)) 0 9 = 2 := by decide
example : highCount ((pulseClock (2 ^ 30)).wave (fun n => n == 1)) 3 6 = 2 := by decide
example : (List.range 8).map ((tuningClock (2 ^ 31)).wave (fun _ => ())) =
    [false, false, false, true, true, false, false, true] := by decide
example : pulseTuningWord 100000000 25000000 = 2 ^ 30 := by decide
example : tuningTuningWord 100000000 25000000 = 2 ^ 31 := by decide

end Lambdalib
