import Verif.Model.StreamUtils
import Verif.Lemmas.Time
import Verif.Spec.Count
import Verif.Spec.Arbiter

/-! Lemmas about round-robin selection. -/

namespace Lambdalib

theorem mod_cand {n g d : Nat} (hg : g < n) (hd : d < n - 1) :
    (g + 1 + d) % n < n ∧ (g + 1 + d) % n ≠ g ∧ cdist n g ((g + 1 + d) % n) = d + 1 := by
  have hlt := Nat.mod_lt (g + 1 + d) (show n > 0 by omega)
  refine ⟨hlt, ?_⟩
  by_cases h : g + 1 + d < n
  · rw [Nat.mod_eq_of_lt h]; unfold cdist
    refine ⟨by omega, ?_⟩
    rw [if_pos (by omega)]; omega
  · have : (g + 1 + d) % n = g + 1 + d - n := by
      rw [Nat.mod_eq_sub_mod (by omega), Nat.mod_eq_of_lt (by omega)]
    rw [this]; unfold cdist
    refine ⟨by omega, ?_⟩
    rw [if_neg (by omega)]; omega

theorem cand_of {n g j : Nat} (hg : g < n) (hj : j < n) (hne : j ≠ g) :
    cdist n g j - 1 < n - 1 ∧ (g + 1 + (cdist n g j - 1)) % n = j := by
  unfold cdist
  by_cases h : g ≤ j
  · rw [if_pos h]
    refine ⟨by omega, ?_⟩
    rw [show g + 1 + (j - g - 1) = j by omega, Nat.mod_eq_of_lt hj]
  · rw [if_neg h]
    refine ⟨by omega, ?_⟩
    rw [show g + 1 + (j + n - g - 1) = j + n by omega, Nat.add_mod_right, Nat.mod_eq_of_lt hj]

theorem roundRobinNext_none {n g : Nat} {req : Nat → Bool} (hg : g < n)
    (h : ∀ j < n, j ≠ g → req j = false) : roundRobinNext n g req = g := by
  unfold roundRobinNext
  rw [if_pos hg]
  have : ((List.range (n - 1)).map fun d => (g + 1 + d) % n).find? req = none := by
    rw [List.find?_eq_none]
    intro x hx
    rw [List.mem_map] at hx
    obtain ⟨d, hd, rfl⟩ := hx
    rw [List.mem_range] at hd
    have := mod_cand hg hd
    simp [h _ this.1 this.2.1]
  rw [this]

theorem roundRobinNext_some {n g : Nat} {req : Nat → Bool} (hg : g < n)
    (h : ∃ j < n, j ≠ g ∧ req j = true) :
    roundRobinNext n g req < n ∧ roundRobinNext n g req ≠ g ∧
    req (roundRobinNext n g req) = true ∧
    ∀ j < n, j ≠ g → req j = true → cdist n g (roundRobinNext n g req) ≤ cdist n g j := by
  unfold roundRobinNext
  rw [if_pos hg]
  cases hf : ((List.range (n - 1)).map fun d => (g + 1 + d) % n).find? req with
  | none =>
    exfalso
    rw [List.find?_eq_none] at hf
    obtain ⟨j, hj, hne, hr⟩ := h
    have := cand_of hg hj hne
    exact hf j (List.mem_map.2 ⟨_, List.mem_range.2 this.1, this.2⟩) hr
  | some x =>
    rw [List.find?_eq_some_iff_getElem] at hf
    obtain ⟨hx, k, hk, hkx, hmin⟩ := hf
    simp only [List.length_map, List.length_range] at hk
    simp only [List.getElem_map, List.getElem_range] at hkx hmin
    have hc := mod_cand hg hk
    rw [hkx] at hc
    simp only [truncRange_of_lt hc.1]
    refine ⟨hc.1, hc.2.1, hx, ?_⟩
    intro j hj hne hr
    rw [hc.2.2]
    have hcj := cand_of hg hj hne
    by_cases hlt : k ≤ cdist n g j - 1
    · have : 1 ≤ cdist n g j := by unfold cdist; split <;> omega
      omega
    · exfalso
      have := hmin _ (show cdist n g j - 1 < k by omega)
      rw [hcj.2, hr] at this
      simp at this

theorem roundRobinNext_lt {n g : Nat} {req : Nat → Bool} (hg : g < n) :
    roundRobinNext n g req < n := by
  by_cases h : ∃ j < n, j ≠ g ∧ req j = true
  · exact (roundRobinNext_some hg h).1
  · rw [roundRobinNext_none hg]
    · exact hg
    · intro j hj hne
      rw [← Bool.not_eq_true]
      exact fun hr => h ⟨j, hj, hne, hr⟩

theorem cdist_step {n g g' j : Nat} (hg : g < n) (hg' : g' < n) (hj : j < n) (hne : g' ≠ g)
    (hle : cdist n g g' ≤ cdist n g j) : cdist n g' j + 1 ≤ cdist n g j := by
  unfold cdist at *
  split at hle <;> split at hle <;> split <;> (try split) <;> omega

/-- Any grant waveform driven by enabled round-robin steps serves a persistent requester after at
most `n-1` enabled steps. -/
theorem rr_fair {n : Nat} (g : Nat → Nat) (run : Nat → Bool) (req : Nat → Nat → Bool)
    (hg : ∀ k, g k < n)
    (hs : ∀ k, g (k + 1) = if run k then roundRobinNext n (g k) (req k) else g k)
    (j : Nat) (hj : j < n) (a m : Nat) (hreq : ∀ k, a ≤ k → k < a + m → req k j = true)
    (hcount : n - 1 ≤ highCount run a m) : ∃ k, a ≤ k ∧ k ≤ a + m ∧ g k = j := by
  refine Classical.byContradiction fun hno => ?_
  have hne : ∀ k, a ≤ k → k ≤ a + m → g k ≠ j := fun k h1 h2 h3 => hno ⟨k, h1, h2, h3⟩
  have key : ∀ l ≤ m, cdist n (g (a + l)) j + highCount run a l ≤ n - 1 := by
    intro l
    induction l with
    | zero =>
      intro _
      have := hg a
      simp only [highCount, Nat.add_zero]
      unfold cdist; split <;> omega
    | succ l ih =>
      intro hl
      have ih := ih (by omega)
      have hst := hs (a + l)
      rw [← Nat.add_assoc, hst, highCount]
      cases hr : run (a + l)
      · simpa using ih
      · simp only [if_true]
        have hne' := hne (a + l) (by omega) (by omega)
        have hs' := roundRobinNext_some (hg (a + l)) ⟨j, hj, Ne.symm hne',
          hreq (a + l) (by omega) (by omega)⟩
        have := cdist_step (hg (a + l)) hs'.1 hj hs'.2.1
          (hs'.2.2.2 j hj (Ne.symm hne') (hreq (a + l) (by omega) (by omega)))
        omega
  have h1 := key m (Nat.le_refl m)
  have h2 := hne (a + m) (by omega) (by omega)
  have h3 : 1 ≤ cdist n (g (a + m)) j := by
    have := hg (a + m)
    unfold cdist; split <;> omega
  omega

section
variable {α : Type} [Inhabited α]

theorem arb_grant_lt (n t : Nat) (hn : 2 ≤ n) (i : Nat → ArbIn α) (k : Nat) :
    ((arbiter n t).st i k).grant < n := by
  refine (arbiter n t).st_invariant (fun s => s.grant < n) (by simp [arbiter]; omega) ?_ i k
  intro s x h
  simp only [arbiter]
  split
  · exact roundRobinNext_lt h
  · exact h

/-- The waveform on the stall timer's `wait` input. -/
def arbWait (n t : Nat) (i : Nat → ArbIn α) (k : Nat) : Bool :=
  let s := (arbiter n t).st i k
  s.ongoing && !(arbOut n s (i k)).valid && !arbRun n s (i k)

theorem arb_stall (n t : Nat) (i : Nat → ArbIn α) (k : Nat) :
    ((arbiter n t).st i k).stall = (waitTimer t).st (arbWait n t i) k := by
  induction k with
  | zero => rfl
  | succ k ih =>
    rw [Circuit.st_succ, Circuit.st_succ, ← ih]
    rfl

theorem arb_stall_zero (n t : Nat) (i : Nat → ArbIn α) (k : Nat) :
    ((arbiter n t).st i k).stall = 0 ↔ t ≤ k ∧ ∀ j < k, k ≤ j + t → arbWait n t i j = true := by
  rw [arb_stall, ← (waitTimer_inv t (arbWait n t i) k).2 t (Nat.le_refl t)]
  omega

/-- When the stall timer has expired, the granted sink has been granted and silent for `t` cycles. -/
theorem arb_silent (n t : Nat) (hn : 2 ≤ n) (i : Nat → ArbIn α) (k : Nat)
    (h : ((arbiter n t).st i k).stall = 0) :
    t ≤ k ∧ ∀ j < k, k ≤ j + t → ((arbiter n t).st i j).grant = ((arbiter n t).st i k).grant ∧
      ((arbiter n t).st i j).ongoing = true ∧
      (i j).valid ((arbiter n t).st i k).grant = false := by
  obtain ⟨h1, h2⟩ := (arb_stall_zero n t i k).1 h
  refine ⟨h1, ?_⟩
  have hg : ∀ d, d ≤ t → d ≤ k →
      ((arbiter n t).st i (k - d)).grant = ((arbiter n t).st i k).grant := by
    intro d
    induction d with
    | zero => intro _ _; rfl
    | succ d ih =>
      intro hd hk
      have ih := ih (by omega) (by omega)
      have hw := h2 (k - (d + 1)) (by omega) (by omega)
      rw [← ih, show k - d = k - (d + 1) + 1 by omega, Circuit.st_succ]
      simp only [arbWait] at hw
      generalize (arbiter n t).st i (k - (d + 1)) = s at *
      simp only [Bool.and_eq_true, Bool.not_eq_true'] at hw
      simp [arbiter, hw.2]
  intro j hj hjt
  have hgj := hg (k - j) (by omega) (by omega)
  rw [show k - (k - j) = j by omega] at hgj
  have hw := h2 j hj hjt
  have hlt := arb_grant_lt n t hn i j
  refine ⟨hgj, ?_⟩
  rw [← hgj]
  simp only [arbWait] at hw
  generalize (arbiter n t).st i j = s at *
  simp only [Bool.and_eq_true, Bool.not_eq_true', arbOut, if_pos hlt] at hw
  exact hw.1

/-- While a packet is open and its beats are not completed, the arbiter moves on only when the stall
timer has expired. -/
theorem arb_keep (n t : Nat) (i : Nat → ArbIn α) (k : Nat)
    (ho : ((arbiter n t).st i k).ongoing = true ∨ ((arbiter n t).wave i k).valid = true)
    (hc : (((arbiter n t).wave i k).valid && (i k).ready &&
      ((arbiter n t).wave i k).beat.last) = false)
    (hst : ((arbiter n t).st i k).stall ≠ 0) :
    ((arbiter n t).st i (k + 1)).grant = ((arbiter n t).st i k).grant := by
  rw [Circuit.st_succ]
  simp only [Circuit.wave] at *
  generalize (arbiter n t).st i k = s at *
  have hr : arbRun n s (i k) = false := by
    simp only [arbiter] at ho hc
    simp only [arbRun, hc]
    rcases ho with ho | ho <;> simp [ho, hst]
  simp [arbiter, hr]

theorem arb_ongoing (n t : Nat) (i : Nat → ArbIn α) (k : Nat) :
    ((arbiter n t).st i (k + 1)).ongoing =
      if ((arbiter n t).wave i k).valid && (i k).ready then !((arbiter n t).wave i k).beat.last
      else ((arbiter n t).st i k).ongoing := rfl

theorem arb_step (n t : Nat) (i : Nat → ArbIn α) (k : Nat) :
    ((arbiter n t).st i (k + 1)).grant =
      if arbRun n ((arbiter n t).st i k) (i k) then
        roundRobinNext n ((arbiter n t).st i k).grant (i k).valid
      else ((arbiter n t).st i k).grant := rfl

end
end Lambdalib
