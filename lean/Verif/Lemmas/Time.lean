import Verif.Model.Time

/-! Helper lemmas for timers and phase accumulators. -/

namespace Lambdalib

theorem waitTimer_inv (t : Nat) (wait : Nat → Bool) (n : Nat) :
    (waitTimer t).st wait n ≤ t ∧
    ∀ m ≤ t, ((waitTimer t).st wait n + m ≤ t ↔
      (m ≤ n ∧ ∀ k < n, n ≤ k + m → wait k = true)) := by
  induction n with
  | zero =>
    simp [waitTimer]
    omega
  | succ n ih =>
    rw [Circuit.st_succ]
    generalize (waitTimer t).st wait n = c at *
    obtain ⟨h1, h2⟩ := ih
    cases hw : wait n
    · have hn : (waitTimer t).next c false = t := by simp [waitTimer]
      rw [hn]
      refine ⟨Nat.le_refl t, fun m hm => ⟨fun h => ?_, fun h => ?_⟩⟩
      · have hm0 : m = 0 := by omega
        subst hm0
        exact ⟨by omega, fun k hk hk2 => by omega⟩
      · by_cases hm0 : m = 0
        · omega
        · have := h.2 n (by omega) (by omega)
          rw [hw] at this; cases this
    · by_cases hc : c = 0
      · have hn : (waitTimer t).next c true = 0 := by simp [waitTimer, hc]
        rw [hn]
        refine ⟨by omega, fun m hm => ⟨fun _ => ?_, fun _ => by omega⟩⟩
        have h3 := (h2 t (Nat.le_refl t)).1 (by omega)
        refine ⟨by omega, fun k hk hk2 => ?_⟩
        by_cases hkn : k = n
        · rw [hkn]; exact hw
        · exact h3.2 k (by omega) (by omega)
      · have hn : (waitTimer t).next c true = c - 1 := by
          simp [waitTimer, hc, truncRange_of_lt (show c - 1 < t + 1 by omega)]
        rw [hn]
        refine ⟨by omega, fun m hm => ?_⟩
        by_cases hm0 : m = 0
        · subst hm0
          exact ⟨fun _ => ⟨by omega, fun k hk hk2 => by omega⟩, fun _ => by omega⟩
        · have h3 := h2 (m - 1) (by omega)
          constructor
          · intro h
            have h4 := h3.1 (by omega)
            refine ⟨by omega, fun k hk hk2 => ?_⟩
            by_cases hkn : k = n
            · rw [hkn]; exact hw
            · exact h4.2 k (by omega) (by omega)
          · intro h
            have h4 := h3.2 ⟨by omega, fun k hk hk2 => h.2 k (by omega) (by omega)⟩
            omega

theorem le_maxList (ts : List Nat) (x : Nat) (h : x ∈ ts) : x ≤ maxList ts := by
  unfold maxList
  have key : ∀ (ts : List Nat) (a : Nat), a ≤ ts.foldl max a ∧ ∀ x ∈ ts, x ≤ ts.foldl max a := by
    intro ts
    induction ts with
    | nil => intro a; simp
    | cons y ts ih =>
      intro a
      have := ih (max a y)
      simp only [List.foldl_cons, List.mem_cons]
      refine ⟨by have := this.1; omega, ?_⟩
      rintro x (rfl | hx)
      · have := this.1; omega
      · exact this.2 x hx
  exact (key ts 0).2 x h

/-- Number of pulses produced by `n` accumulator steps from phase `a`, and the final phase. -/
theorem accStep_spec (tw a : Nat) (ha : a < 2 ^ 32) (htw : tw ≤ 2 ^ 32) :
    (accStep tw a).acc < 2 ^ 32 ∧
    a + tw = (accStep tw a).acc + 2 ^ 32 * (if (accStep tw a).tick then 1 else 0) := by
  unfold accStep
  simp only
  refine ⟨Nat.mod_lt _ (by decide), ?_⟩
  have h : (a + tw) / 2 ^ 32 = 0 ∨ (a + tw) / 2 ^ 32 = 1 := by omega
  have h2 := Nat.div_add_mod (a + tw) (2 ^ 32)
  rcases h with h | h <;> rw [h] at h2 <;> simp [h] <;> omega

end Lambdalib
