/-!
Amaranth data representation helpers shared by the models. These model Amaranth itself (documented
0.4 behaviour), not a file of /repo.
-/

namespace Lambdalib

/-- Width of `Signal(range(n))`: the least number of bits holding `n-1` (0 bits for `n ≤ 1`). -/
def rangeWidth (n : Nat) : Nat := if n ≤ 1 then 0 else Nat.log2 (n - 1) + 1

/-- Assignment to a signal of shape `range(n)`: the value is truncated to the signal's width. -/
def truncRange (n v : Nat) : Nat := v % 2 ^ rangeWidth n

theorem truncRange_of_lt {n v : Nat} (h : v < n) : truncRange n v = v := by
  unfold truncRange rangeWidth
  split
  · have : v = 0 := by omega
    simp [this]
  · apply Nat.mod_eq_of_lt
    have h1 : n - 1 < 2 ^ ((n - 1).log2 + 1) := Nat.lt_log2_self
    omega

/-- `x[k*w : (k+1)*w]`, lane `k` of a vector made of `w`-bit lanes. -/
def getLane {W : Nat} (w k : Nat) (x : BitVec W) : BitVec w := x.extractLsb' (k * w) w

/-- `x[k*w : (k+1)*w].eq(v)`: overwrite lane `k`, keep all the other bits. -/
def setLane {W : Nat} (w k : Nat) (x : BitVec W) (v : BitVec w) : BitVec W :=
  (x &&& ~~~ ((BitVec.allOnes w).setWidth W <<< (k * w))) ||| (v.setWidth W <<< (k * w))

theorem getLane_setLane_same {w W k : Nat} (x : BitVec W) (v : BitVec w) (h : (k + 1) * w ≤ W) :
    getLane w k (setLane w k x v) = v := by
  rw [Nat.add_mul] at h
  ext b hb
  simp only [getLane, setLane, BitVec.getElem_extractLsb', BitVec.getLsbD_or, BitVec.getLsbD_and,
    BitVec.getLsbD_not, BitVec.getLsbD_shiftLeft, BitVec.getLsbD_setWidth, BitVec.getLsbD_allOnes]
  have h1 : k * w + b < W := by omega
  have h2 : b < W := by omega
  have h3 : ¬ k * w + b < k * w := by omega
  simp [h1, hb, h2, h3]

theorem getLane_setLane_ne {w W k j : Nat} (x : BitVec W) (v : BitVec w) (hne : j ≠ k) :
    getLane w j (setLane w k x v) = getLane w j x := by
  ext b hb
  simp only [getLane, setLane, BitVec.getElem_extractLsb', BitVec.getLsbD_or, BitVec.getLsbD_and,
    BitVec.getLsbD_not, BitVec.getLsbD_shiftLeft, BitVec.getLsbD_setWidth, BitVec.getLsbD_allOnes]
  rcases Nat.lt_or_gt_of_ne hne with h | h
  · have : (j + 1) * w ≤ k * w := Nat.mul_le_mul_right w h
    rw [Nat.add_mul] at this
    have h1 : j * w + b < k * w := by omega
    by_cases hW : j * w + b < W <;> simp_all
  · have : (k + 1) * w ≤ j * w := Nat.mul_le_mul_right w h
    rw [Nat.add_mul] at this
    have h1 : ¬ j * w + b < k * w := by omega
    have h2 : ¬ j * w + b - k * w < w := by omega
    by_cases hW : j * w + b < W
    · simp [hW, h1, h2, BitVec.getLsbD_of_ge v _ (Nat.le_of_not_lt h2)]
    · simp [hW, BitVec.getLsbD_of_ge x _ (Nat.le_of_not_lt hW)]

/-- Two vectors of `r` lanes with equal lanes are equal. -/
theorem eq_of_getLane_eq {w r W : Nat} (hW : W = r * w) (x y : BitVec W)
    (h : ∀ k < r, getLane w k x = getLane w k y) : x = y := by
  subst hW
  ext b hb
  have hw : 0 < w := by
    rcases Nat.eq_zero_or_pos w with h0 | h0
    · subst h0; simp at hb
    · exact h0
  have hk : b / w < r := Nat.div_lt_of_lt_mul (by rw [Nat.mul_comm]; exact hb)
  have := congrArg (fun z => z.getLsbD (b % w)) (h (b / w) hk)
  simp only [getLane, BitVec.getLsbD_extractLsb', Nat.mod_lt _ hw, decide_true, Bool.true_and] at this
  have hb2 : b / w * w + b % w = b := Nat.div_add_mod' b w
  rw [hb2] at this
  simpa [BitVec.getLsbD_eq_getElem hb] using this

end Lambdalib
