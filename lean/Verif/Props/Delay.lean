import Verif.Model.Pll
import Verif.Lemmas.Run

/-! Properties of the ECP5 delay line control (C53). -/

namespace Lambdalib

/-- Number of move pulses (falling edges of `move`) the delay primitive has seen since its last reset. -/
def movePulses (rst move : Nat → Bool) : Nat → Nat
  | 0 => 0
  | n + 1 => if rst n then 0 else movePulses rst move n + (if move n && !move (n + 1) then 1 else 0)

section
variable (taps : Nat → Nat)

/-- The position of the delay primitive. -/
def delayPos (n : Nat) : Nat :=
  movePulses (fun k => (delayEcp5.wave taps k).rst) (fun k => (delayEcp5.wave taps k).move) n

/-- Registers, position and request. -/
structure DelayInv (s : DelayS) (pos t : Nat) : Prop where
  pos : pos = s.curr
  still : s.st ≠ .move → s.move = false
  move : s.st = .move → s.curr ≤ t ∧ (s.move = true → s.curr < t)

theorem delay_step (s : DelayS) (pos t t' : Nat) (ht : t < 128) (h : DelayInv s pos t)
    (hkeep : t' < t → t = s.curr ∨ pos < t') :
    DelayInv (delayEcp5.next s t)
      (if s.st == .rst then 0 else pos + (if s.move && !(delayEcp5.next s t).move then 1 else 0)) t' := by
  obtain ⟨st, mv, curr⟩ := s
  obtain ⟨h1, h2, h3⟩ := h
  dsimp only at *
  subst h1
  cases st with
  | idle =>
    have := h2 (by simp); subst this
    by_cases hc : t = pos
    · have e : delayEcp5.next ⟨.idle, false, pos⟩ t = ⟨.idle, false, pos⟩ := by simp [delayEcp5, hc]
      rw [e]; constructor <;> simp
    · have e : delayEcp5.next ⟨.idle, false, pos⟩ t = ⟨.rst, false, pos⟩ := by simp [delayEcp5, hc]
      rw [e]; constructor <;> simp
  | rst =>
    have e : delayEcp5.next ⟨.rst, mv, pos⟩ t = ⟨.move, false, 0⟩ := by simp [delayEcp5]
    rw [e]; constructor <;> simp
  | move =>
    obtain ⟨g1, g2⟩ := h3 rfl
    by_cases hc : t = pos
    · have hm : mv = false := by cases mv with
        | false => rfl
        | true => have := g2 rfl; omega
      have e : delayEcp5.next ⟨.move, mv, pos⟩ t = ⟨.idle, false, pos⟩ := by simp [delayEcp5, hc]
      rw [e, hm]; constructor <;> simp
    · have hlt : pos < t' := by
        by_cases hh : t' < t
        · rcases hkeep hh with h | h
          · exact absurd h hc
          · exact h
        · omega
      cases mv with
      | false =>
        have e : delayEcp5.next ⟨.move, false, pos⟩ t = ⟨.move, true, pos⟩ := by simp [delayEcp5, hc]
        rw [e]; constructor <;> simp; omega
      | true =>
        have e : delayEcp5.next ⟨.move, true, pos⟩ t = ⟨.move, false, pos + 1⟩ := by
          have : (pos + 1) % 2 ^ 7 = pos + 1 := Nat.mod_eq_of_lt (by omega)
          simp only [delayEcp5, hc, if_false, if_true]; rw [this]; rfl
        rw [e]; constructor <;> simp; omega

/-- C53 (partial): if the request is lowered only while `locked` is high or to more taps than the line has moved, then whenever
`locked` is high the number of move pulses since the last delay reset is the requested tap count. Missing: requests lowered
before lock to a position that was passed or is being left, see `C53_lock_refuted`. -/
theorem C53_lock_partial (ht : ∀ n, taps n < 128)
    (hkeep : ∀ n, taps (n + 1) < taps n → (delayEcp5.wave taps n).locked = true ∨ delayPos taps n < taps (n + 1)) (n : Nat)
    (hl : (delayEcp5.wave taps n).locked = true) : delayPos taps n = taps n := by
  have key : ∀ n, DelayInv (delayEcp5.st taps n) (delayPos taps n) (taps n) := by
    intro n
    induction n with
    | zero => constructor <;> simp [delayEcp5, Circuit.st, delayPos, movePulses]
    | succ n ih =>
      have hs := delay_step _ _ _ (taps (n + 1)) (ht n) ih (fun hh => by
        rcases hkeep n hh with h | h
        · left; simpa [Circuit.wave, delayEcp5] using h
        · exact .inr h)
      rw [Circuit.st_succ]
      exact hs
  have hl' : taps n = (delayEcp5.st taps n).curr := by simpa [Circuit.wave, delayEcp5] using hl
  rw [hl']
  exact (key n).pos

/-- Cycles left until lock. -/
def delayRank (t : Nat) (s : DelayS) : Nat :=
  match s.st with
  | .idle => if t = s.curr then 0 else 2 + 2 * t
  | .rst => 1 + 2 * t
  | .move => 2 * ((t + 128 - s.curr) % 128) - (if s.move then 1 else 0)

theorem delay_rank_step (t : Nat) (s : DelayS) (ht : t < 128) (hc : s.curr < 128) :
    delayRank t (delayEcp5.next s t) = delayRank t s - 1 ∧ (delayEcp5.next s t).curr < 128 ∧
    (delayRank t s = 0 → t = s.curr) ∧ delayRank t s ≤ 256 := by
  obtain ⟨st, mv, curr⟩ := s
  dsimp only at hc
  cases st with
  | idle =>
    by_cases h : t = curr
    · simp [delayEcp5, delayRank, h, hc]
    · simp [delayEcp5, delayRank, h, hc]; omega
  | rst => simp [delayEcp5, delayRank]; omega
  | move =>
    by_cases h : t = curr
    · subst h
      simp [delayEcp5, delayRank, hc]
    · cases mv with
      | false => simp [delayEcp5, delayRank, h]; omega
      | true =>
        simp only [delayEcp5, delayRank, h, if_false, if_true]
        refine ⟨?_, ?_, ?_, ?_⟩ <;> simp <;> omega

/-- C53: if the request is stable from cycle `N` on then from cycle `N + 256` on `locked` is high, whatever happened
before. -/
theorem C53_locks (ht : ∀ n, taps n < 128) (N : Nat) (hst : ∀ n, N ≤ n → taps n = taps N) (n : Nat)
    (hn : N + 256 ≤ n) : (delayEcp5.wave taps n).locked = true := by
  have hcurr : ∀ n, (delayEcp5.st taps n).curr < 128 := by
    intro n
    induction n with
    | zero => simp [Circuit.st, delayEcp5]
    | succ n ih => rw [Circuit.st_succ]; exact (delay_rank_step _ _ (ht n) ih).2.1
  have hr : ∀ k, delayRank (taps N) (delayEcp5.st taps (N + k)) ≤ 256 - k := by
    intro k
    induction k with
    | zero => exact (delay_rank_step _ _ (ht N) (hcurr N)).2.2.2
    | succ k ih =>
      have := (delay_rank_step (taps N) _ (ht N) (hcurr (N + k))).1
      have e : delayEcp5.st taps (N + (k + 1)) = delayEcp5.next (delayEcp5.st taps (N + k)) (taps N) := by
        rw [← Nat.add_assoc, Circuit.st_succ, hst (N + k) (by omega)]
      rw [e, this]; omega
  have h0 : delayRank (taps N) (delayEcp5.st taps n) = 0 := by
    have := hr (n - N)
    rw [show N + (n - N) = n by omega] at this
    omega
  have := (delay_rank_step _ _ (ht N) (hcurr n)).2.2.1 h0
  show (taps n == (delayEcp5.st taps n).curr) = true
  rw [hst n (by omega), ← this]; simp

end

/-- Five taps are requested, then two, in the middle of the third move pulse. -/
def delayDemo (n : Nat) : Nat := if n < 7 then 5 else 2

/-- C53 fails if the request is lowered before lock: the pulse in progress is not counted, and `locked` then stays high
for ever with the delay at three taps instead of two. -/
theorem C53_lock_refuted :
    (∀ n, delayDemo n < 128) ∧ ∀ n, 8 ≤ n → (delayEcp5.wave delayDemo n).locked = true ∧ delayDemo n = 2 ∧
      delayPos delayDemo n = 3 := by
  refine ⟨fun n => by unfold delayDemo; split <;> omega, ?_⟩
  have key : ∀ n, delayEcp5.st delayDemo (8 + n) = ⟨.idle, false, 2⟩ ∧ delayPos delayDemo (8 + n) = 3 := by
    intro n
    induction n with
    | zero => decide +kernel
    | succ n ih =>
      obtain ⟨h1, h2⟩ := ih
      have hd : delayDemo (8 + n) = 2 := by unfold delayDemo; rw [if_neg (by omega)]
      have hs : delayEcp5.st delayDemo (8 + (n + 1)) = ⟨.idle, false, 2⟩ := by
        rw [← Nat.add_assoc, Circuit.st_succ, h1, hd]; rfl
      refine ⟨hs, ?_⟩
      have hr : (delayEcp5.wave delayDemo (8 + n)).rst = false := by simp only [Circuit.wave, h1]; rfl
      have hm : (delayEcp5.wave delayDemo (8 + n)).move = false := by simp only [Circuit.wave, h1]; rfl
      show movePulses _ _ (8 + n + 1) = 3
      simp only [movePulses, hr, hm]
      exact h2
  intro n hn
  obtain ⟨h1, h2⟩ := key (n - 8)
  rw [show 8 + (n - 8) = n by omega] at h1 h2
  have hd : delayDemo n = 2 := by unfold delayDemo; rw [if_neg (by omega)]
  refine ⟨?_, hd, h2⟩
  simp only [Circuit.wave, h1, hd]; rfl

/-- Requests: 6, lowered on the way to 4, raised on the way to 5; then 1 when locked. -/
def delayOk (n : Nat) : Nat := if n < 6 then 6 else if n < 8 then 4 else if n < 40 then 5 else 1

example : delayPos delayOk 30 = 5 ∧ (delayEcp5.wave delayOk 39).locked = true ∧
    delayPos delayOk 60 = 1 ∧ (delayEcp5.wave delayOk 60).locked = true := by decide +kernel

example : ∀ n, delayOk (n + 1) < delayOk n → (delayEcp5.wave delayOk n).locked = true ∨ delayPos delayOk n < delayOk (n + 1) := by
  intro n hn
  have : n = 5 ∨ n = 39 := by
    unfold delayOk at hn
    split at hn <;> split at hn <;> (try split at hn) <;> (try split at hn) <;> (try split at hn) <;> (try split at hn) <;> omega
  rcases this with h | h <;> subst h <;> decide +kernel

end Lambdalib
