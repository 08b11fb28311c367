import Verif.Model.StreamSim
import Verif.Props.UlpiDump

/-! Properties of the stream simulation helpers (C58, C78-C81). -/

namespace Lambdalib

/-! ### C58: verify -/

/-- C58: `verify` succeeds exactly when each expected list equals the recorded one (the empty one if nothing was
recorded under the name). -/
theorem C58_verify {κ α : Type} [BEq κ] [BEq α] [LawfulBEq α] (data expected : List (κ × List α)) :
    simVerify data expected = true ↔ ∀ k e, (k, e) ∈ expected → (data.lookup k).getD [] = e := by
  simp only [simVerify, Bool.and_eq_true, List.all_eq_true]
  constructor
  · rintro ⟨h1, h2⟩ k e hm
    have a := h1 (k, e) hm
    have b := h2 (k, e) hm
    dsimp only at a b
    generalize (data.lookup k).getD [] = v at *
    have a : e.length = v.length := by simpa using a
    apply List.ext_getElem?
    intro i
    by_cases hi : i < e.length
    · have := b i (List.mem_range.mpr hi)
      simpa using this
    · rw [List.getElem?_eq_none (by omega), List.getElem?_eq_none (by omega)]
  · intro h
    constructor
    · rintro ⟨k, e⟩ hm
      simp [h k e hm]
    · rintro ⟨k, e⟩ hm
      simp [h k e hm]

example : simVerify [("data", [1, 2, 3]), ("last", [0, 0, 1])] [("last", [0, 0, 1]), ("data", [1, 2, 3])] = true := by
  decide
example : simVerify [("data", [1, 2, 3])] [("data", [1, 2])] = false := by decide
example : simVerify [("data", [1, 2, 3])] [("last", [0])] = false := by decide

/-! ### C78: sender -/

section
variable {α : Type} [Inhabited α] (data : List α) (delay : Nat) (x : Nat → Bool × Bool)

/-- Beats taken from the sender. -/
def simSent (n : Nat) : List α :=
  transferred (fun k => ((simSender data delay).wave x k).1) (fun k => (x k).1)
    (fun k => ((simSender data delay).wave x k).2) n

/-- Relation between the state and the number of beats taken. -/
structure SimSendRel (s : SimSendS α) (k : Nat) : Prop where
  i : s.i = k
  le : k ≤ data.length
  valid : s.valid = true → s.delay = 0 ∧ k < data.length ∧ data[k]? = some s.beat
  delay : s.delay ≠ 0 → k = 0

theorem simSend_step (s : SimSendS α) (x : Bool × Bool) (k : Nat) (h : SimSendRel data s k) :
    SimSendRel data ((simSender data delay).next s x) (k + if s.valid && x.1 then 1 else 0) := by
  obtain ⟨d, i, valid, beat⟩ := s
  obtain ⟨h1, h2, h3, h4⟩ := h
  obtain ⟨r, p⟩ := x
  dsimp only at *
  subst h1
  have hget : ∀ j, j < data.length → data[j]? = some (data.getD j default) := by
    intro j hj; simp [List.getD, hj]
  simp only [simSender]
  by_cases hd : d = 0
  · subst hd
    rw [if_pos rfl]
    by_cases hf : (valid && r) = true
    · have hv : valid = true := by simp at hf; exact hf.1
      have h3 := h3 hv
      rw [if_pos hf, if_pos hf, if_pos hf]
      by_cases hl : i + 1 < data.length
      · rw [if_pos hl]
        exact ⟨rfl, by omega, fun _ => ⟨rfl, hl, hget _ hl⟩, fun hh => absurd rfl hh⟩
      · rw [if_neg hl]
        exact ⟨rfl, by omega, (by simp), fun hh => absurd rfl hh⟩
    · rw [if_neg hf, if_neg hf, if_neg hf, Nat.add_zero]
      by_cases hl : i < data.length
      · rw [if_pos hl]
        exact ⟨rfl, h2, fun _ => ⟨rfl, hl, hget _ hl⟩, fun hh => absurd rfl hh⟩
      · rw [if_neg hl]
        exact ⟨rfl, h2, fun hv => h3 hv, fun hh => absurd rfl hh⟩
  · rw [if_neg hd]
    have hv : valid = false := by
      cases valid with
      | false => rfl
      | true => exact absurd (h3 rfl).1 hd
    subst hv
    simp only [Bool.false_and, Bool.false_eq_true, if_false, Nat.add_zero]
    exact ⟨rfl, h2, (by simp), fun _ => h4 hd⟩

theorem simSend_rel (n : Nat) : SimSendRel data ((simSender data delay).st x n) (simSent data delay x n).length ∧
    simSent data delay x n = data.take (simSent data delay x n).length := by
  induction n with
  | zero => exact ⟨⟨rfl, Nat.zero_le _, by simp [simSender], fun _ => rfl⟩, by simp [simSent, transferred]⟩
  | succ n ih =>
    obtain ⟨h1, h2⟩ := ih
    have hs := simSend_step data delay _ (x n) _ h1
    have he : simSent data delay x (n + 1) = simSent data delay x n ++
        (if ((simSender data delay).st x n).valid && (x n).1 then [((simSender data delay).st x n).beat] else []) := rfl
    rw [he, Circuit.st_succ]
    have hv := h1.valid
    generalize (simSender data delay).st x n = s at *
    generalize simSent data delay x n = l at *
    by_cases hf : (s.valid && (x n).1) = true
    · rw [if_pos hf] at hs ⊢
      simp only [List.length_append, List.length_singleton]
      refine ⟨hs, ?_⟩
      rw [List.take_add_one, (hv (by simp at hf; exact hf.1)).2.2, ← h2]
      rfl
    · rw [if_neg hf] at hs ⊢
      rw [List.append_nil]
      exact ⟨hs, h2⟩

/-- C78: at any time the beats taken from the sender are a prefix of the data; the sender never withdraws or changes a beat
it offers; and if the receiver is ready and the random choice positive again and again, all the data is sent. -/
theorem C78_sender : (∀ n, simSent data delay x n <+: data) ∧
    Stable (fun k => ((simSender data delay).wave x k).1) (fun k => (x k).1)
      (fun k => ((simSender data delay).wave x k).2) ∧
    ((∀ n, ∃ m, n ≤ m ∧ (x m).1 = true) → (∀ n, ∃ m, n ≤ m ∧ (x m).2 = true) →
      ∃ N, ∀ n, N ≤ n → simSent data delay x n = data) := by
  refine ⟨fun n => ?_, ?_, ?_⟩
  · rw [(simSend_rel data delay x n).2]; exact List.take_prefix _ _
  · intro n hv hr
    have h := (simSend_rel data delay x n).1
    simp only [Circuit.wave, Circuit.st_succ] at *
    generalize (simSender data delay).st x n = s at *
    generalize (simSent data delay x n).length = k at *
    generalize x n = y at *
    generalize x (n + 1) = z at *
    obtain ⟨d, i, valid, beat⟩ := s
    obtain ⟨h1, h2, h3, h4⟩ := h
    obtain ⟨r, p⟩ := y
    dsimp only [simSender] at *
    subst h1 hr hv
    obtain ⟨a1, a2, a3⟩ := h3 rfl
    subst a1
    have a4 : data[i] = beat := by
      rw [List.getElem?_eq_getElem a2] at a3; exact Option.some.inj a3
    simp [a2, a4]
  · intro hr hp
    -- progress measure: beats left, then not offered yet, then delay
    have hmono : ∀ n, (simSent data delay x n).length ≤ (simSent data delay x (n + 1)).length := by
      intro n; simp [simSent, transferred]
    have step : ∀ k, k ≤ data.length → ∃ n, (simSent data delay x n).length ≥ k := by
      intro k
      induction k with
      | zero => intro _; exact ⟨0, Nat.zero_le _⟩
      | succ k ih =>
        intro hk
        obtain ⟨n, hn⟩ := ih (by omega)
        refine Classical.byContradiction fun hno => ?_
        have hno : ∀ m, (simSent data delay x m).length < k + 1 := by
          intro m
          rcases Nat.lt_or_ge (simSent data delay x m).length (k + 1) with h | h
          · exact h
          · exact absurd ⟨m, h⟩ hno
        have hge : ∀ m, n ≤ m → (simSent data delay x m).length = k := by
          intro m hm
          obtain ⟨d, rfl⟩ := Nat.exists_eq_add_of_le hm
          induction d with
          | zero => have := hno n; simp at *; omega
          | succ d ih2 =>
            have := ih2 (by omega)
            have h3 := hmono (n + d)
            have h4 := hno (n + d + 1)
            rw [show n + (d + 1) = n + d + 1 by omega]
            omega
        -- the delay ends
        have hdelay : ∀ d m, n ≤ m → ((simSender data delay).st x m).delay ≤ d →
            ∃ m', m ≤ m' ∧ ((simSender data delay).st x m').delay = 0 := by
          intro d
          induction d with
          | zero => intro m _ h0; exact ⟨m, Nat.le_refl _, by omega⟩
          | succ d ihd =>
            intro m hm h0
            by_cases hz : ((simSender data delay).st x m).delay = 0
            · exact ⟨m, Nat.le_refl _, hz⟩
            · obtain ⟨m', h1, h2⟩ := ihd (m + 1) (by omega) (by
                rw [Circuit.st_succ]
                generalize (simSender data delay).st x m = s at *
                simp only [simSender]
                rw [if_neg hz]
                dsimp only
                omega)
              exact ⟨m', by omega, h2⟩
        obtain ⟨m0, hm0, hd0⟩ := hdelay _ n (Nat.le_refl _) (Nat.le_refl _)
        have hd : ∀ d, ((simSender data delay).st x (m0 + d)).delay = 0 := by
          intro d
          induction d with
          | zero => exact hd0
          | succ d ihd =>
            rw [show m0 + (d + 1) = m0 + d + 1 by omega, Circuit.st_succ]
            generalize (simSender data delay).st x (m0 + d) = s at *
            simp only [simSender]
            rw [if_pos ihd]
            split <;> split <;> rfl
        -- a positive choice makes the beat offered
        obtain ⟨m1, hm1, hp1⟩ := hp m0
        obtain ⟨d1, rfl⟩ := Nat.exists_eq_add_of_le hm1
        have hstep : ∀ m, n ≤ m → ((simSender data delay).st x m).delay = 0 →
            (((simSender data delay).st x m).valid = true → (x m).1 = false) ∧
            (((simSender data delay).st x m).valid = true ∨ (x m).2 = true →
              ((simSender data delay).st x (m + 1)).valid = true) := by
          intro m hm hd
          have hl := hge m hm
          have hl1 := hge (m + 1) (by omega)
          have hrel := (simSend_rel data delay x m).1
          have he : simSent data delay x (m + 1) = simSent data delay x m ++
              (if ((simSender data delay).st x m).valid && (x m).1 then [((simSender data delay).st x m).beat] else []) := rfl
          rw [he, List.length_append, hl] at hl1
          rw [hl] at hrel
          have hnf : ((simSender data delay).st x m).valid = true → (x m).1 = false := by
            intro hv
            rw [hv] at hl1
            cases hr1 : (x m).1 with
            | false => rfl
            | true => rw [hr1] at hl1; simp at hl1
          refine ⟨hnf, ?_⟩
          intro hor
          rw [Circuit.st_succ]
          generalize (simSender data delay).st x m = s at *
          generalize x m = y at *
          obtain ⟨d, i, valid, beat⟩ := s
          obtain ⟨h1, h2, h3, h4⟩ := hrel
          obtain ⟨r, p⟩ := y
          dsimp only at *
          subst h1 hd
          have hlt : i < data.length := by omega
          cases valid
          · have hp : p = true := by simpa using hor
            subst hp
            simp [simSender, hlt]
          · have := hnf rfl
            subst this
            simp [simSender, hlt]
        have hv1 : ((simSender data delay).st x (m0 + d1 + 1)).valid = true :=
          (hstep (m0 + d1) (by omega) (hd d1)).2 (Or.inr hp1)
        have hv : ∀ e, ((simSender data delay).st x (m0 + d1 + 1 + e)).valid = true := by
          intro e
          induction e with
          | zero => exact hv1
          | succ e ihe =>
            exact (hstep (m0 + d1 + 1 + e) (by omega) (by
              rw [show m0 + d1 + 1 + e = m0 + (d1 + 1 + e) by omega]; exact hd _)).2 (Or.inl ihe)
        obtain ⟨m2, hm2, hr2⟩ := hr (m0 + d1 + 1)
        obtain ⟨e, rfl⟩ := Nat.exists_eq_add_of_le hm2
        have := (hstep (m0 + d1 + 1 + e) (by omega) (by
              rw [show m0 + d1 + 1 + e = m0 + (d1 + 1 + e) by omega]; exact hd _)).1 (hv e)
        rw [hr2] at this
        cases this
    obtain ⟨N, hN⟩ := step data.length (Nat.le_refl _)
    refine ⟨N, fun n hn => ?_⟩
    obtain ⟨h1, h2⟩ := simSend_rel data delay x n
    have hle : (simSent data delay x N).length ≤ (simSent data delay x n).length := by
      obtain ⟨d, rfl⟩ := Nat.exists_eq_add_of_le hn
      clear hn h1 h2
      induction d with
      | zero => exact Nat.le_refl _
      | succ d ih => exact Nat.le_trans ih (hmono _)
    rw [h2, List.take_of_length_le (by omega)]

end

/-- A slow receiver and a speed of one half. -/
def simSendDemo (n : Nat) : Bool × Bool := (decide (n % 3 = 0), decide (n % 2 = 1))

example : simSent [5, 6, 7] 2 simSendDemo 20 = [5, 6, 7] ∧ simSent [5, 6, 7] 2 simSendDemo 9 = [5] := by decide +kernel

/-! ### C79, C80: receiver -/

section
variable {α : Type} (length : Option Nat) (delay : Nat) (full : Bool) (x : Nat → SimRecvI α)

/-- Beats taken by the receiver. -/
def simTaken (n : Nat) : List α :=
  transferred (fun k => (x k).valid) (fun k => (simReceiver length delay full).wave x k) (fun k => (x k).beat) n

/-- What the receiver has recorded. -/
def simRecorded (n : Nat) : List α := ((simReceiver length delay full).st x n).data

/-- The first beats, as many as asked for. -/
def firstBeats (length : Option Nat) (l : List α) : List α :=
  match length with
  | none => l
  | some k => l.take k

/-- C79: at any time the receiver has recorded exactly the beats that were transferred, in order, up to the length asked
for. -/
theorem C79_receiver (n : Nat) : simRecorded length delay full x n = firstBeats length (simTaken length delay full x n) := by
  have key : ∀ n, simRecorded length delay full x n = firstBeats length (simTaken length delay full x n) ∧
      (((simReceiver length delay full).st x n).delay ≠ 0 → ((simReceiver length delay full).st x n).ready = false) ∧
      (some (simRecorded length delay full x n).length ≠ length →
        simRecorded length delay full x n = simTaken length delay full x n) := by
    intro n
    induction n with
    | zero => cases length <;> simp [simRecorded, simTaken, transferred, firstBeats, simReceiver]
    | succ n ih =>
      obtain ⟨h1, h2, h3⟩ := ih
      have he : simTaken length delay full x (n + 1) = simTaken length delay full x n ++
        (if (x n).valid && ((simReceiver length delay full).st x n).ready then [(x n).beat] else []) := rfl
      rw [he]
      simp only [simRecorded, Circuit.st_succ] at *
      generalize (simReceiver length delay full).st x n = s at *
      generalize simTaken length delay full x n = l at *
      generalize x n = y at *
      obtain ⟨d, ready, rec⟩ := s
      obtain ⟨valid, beat, pick⟩ := y
      dsimp only at *
      simp only [simReceiver]
      by_cases hd : d = 0
      · subst hd
        rw [if_pos rfl]
        by_cases hl : some rec.length = length
        · rw [if_pos hl]
          subst hl
          refine ⟨?_, by simp, by simp⟩
          simp only [firstBeats] at *
          have hll : rec.length ≤ l.length := by
            have := congrArg List.length h1
            rw [List.length_take] at this; omega
          rw [List.take_append_of_le_length hll]
          exact h1
        · rw [if_neg hl]
          have h3 := h3 hl
          subst h3
          have hdata : (if (valid && ready) = true then rec ++ [beat] else rec) =
              rec ++ (if (valid && ready) = true then [beat] else []) := by split <;> simp
          rw [hdata]
          generalize hq : rec ++ (if (valid && ready) = true then [beat] else []) = q
          have hq2 : q.length ≤ rec.length + 1 := by rw [← hq]; split <;> simp
          have hfb : q = firstBeats length q := by
            cases length with
            | none => rfl
            | some k =>
              simp only [firstBeats] at h1 ⊢
              have hk : rec.length ≤ k := by
                have := congrArg List.length h1
                rw [List.length_take] at this; omega
              have hk2 : rec.length ≠ k := by simpa using hl
              rw [List.take_of_length_le (by omega)]
          split
          · exact ⟨hfb, by simp, fun _ => rfl⟩
          · exact ⟨hfb, by simp, fun _ => rfl⟩
      · rw [if_neg hd]
        have hr := h2 hd
        subst hr
        simp only [Bool.and_false, Bool.false_eq_true, if_false, List.append_nil]
        exact ⟨h1, by simp, h3⟩
  exact (key n).1

/-- C79: if the sender does not withdraw beats, and the receiver runs at full speed or the random choice is positive again
and again, each beat offered before the length is reached is taken. -/
theorem C79_live
    (hst : Stable (fun k => (x k).valid) (fun k => (simReceiver length delay full).wave x k) (fun k => (x k).beat))
    (hp : full = true ∨ ∀ n, ∃ m, n ≤ m ∧ (x m).pick = true) (n : Nat) (hv : (x n).valid = true)
    (hl : some (simRecorded length delay full x n).length ≠ length) :
    ∃ m, n ≤ m ∧ (x m).valid = true ∧ (simReceiver length delay full).wave x m = true := by
  refine Classical.byContradiction fun hno => ?_
  have hno : ∀ m, n ≤ m → (x m).valid = true → ((simReceiver length delay full).st x m).ready = false := by
    intro m hm hv
    cases hh : ((simReceiver length delay full).st x m).ready with
    | false => rfl
    | true => exact absurd ⟨m, hm, hv, hh⟩ hno
  have hall : ∀ m, n ≤ m → (x m).valid = true := by
    intro m hm
    obtain ⟨d, rfl⟩ := Nat.exists_eq_add_of_le hm
    induction d with
    | zero => exact hv
    | succ d ih => exact (hst (n + d) (ih (by omega)) (hno _ (by omega) (ih (by omega)))).1
  have hstep : ∀ (s : SimRecvS α) (y : SimRecvI α), s.ready = false → y.valid = true → some s.data.length ≠ length →
      ((simReceiver length delay full).next s y).data = s.data ∧
      ((simReceiver length delay full).next s y).delay = s.delay - 1 ∧
      (s.delay = 0 → ((simReceiver length delay full).next s y).ready = (y.pick || full)) := by
    rintro ⟨d, r, l⟩ ⟨v, b, p⟩ h1 h2 h3
    dsimp only at h1 h2 h3
    subst h1 h2
    simp only [simReceiver]
    by_cases hd : d = 0
    · subst hd; simp [h3]
    · rw [if_neg hd]; exact ⟨rfl, rfl, fun h => absurd h hd⟩
  have hdata : ∀ d, ((simReceiver length delay full).st x (n + d)).data = ((simReceiver length delay full).st x n).data ∧
      ((simReceiver length delay full).st x (n + d)).delay = ((simReceiver length delay full).st x n).delay - d := by
    intro d
    induction d with
    | zero => exact ⟨rfl, rfl⟩
    | succ d ih =>
      have := hstep _ (x (n + d)) (hno (n + d) (by omega) (hall _ (by omega))) (hall _ (by omega))
        (by rw [ih.1]; exact hl)
      rw [← Circuit.st_succ] at this
      exact ⟨this.1.trans ih.1, by rw [← Nat.add_assoc, this.2.1, ih.2]; omega⟩
  have hgo : ∀ d, ((simReceiver length delay full).st x n).delay ≤ d → ((x (n + d)).pick || full) = true → False := by
    intro d hd hpk
    have := hstep _ (x (n + d)) (hno (n + d) (by omega) (hall _ (by omega))) (hall _ (by omega))
      (by rw [(hdata d).1]; exact hl)
    have h3 := this.2.2 (by rw [(hdata d).2]; omega)
    rw [← Circuit.st_succ, hno (n + d + 1) (by omega) (hall _ (by omega)), hpk] at h3
    cases h3
  rcases hp with hp | hp
  · exact hgo _ (Nat.le_refl _) (by simp [hp])
  · obtain ⟨m, hm, hpm⟩ := hp (n + ((simReceiver length delay full).st x n).delay)
    obtain ⟨d, rfl⟩ := Nat.exists_eq_add_of_le hm
    rw [Nat.add_assoc] at hpm
    exact hgo _ (Nat.le_add_right _ d) (by simp [hpm])

/-- C80 (partial): as long as no more beats are offered than asked for, each beat taken is recorded. The full claim is for
every number of beats offered. -/
theorem C80_takes_only_length_partial (n : Nat)
    (h : ∀ k, length = some k → (simTaken length delay full x n).length ≤ k) :
    simRecorded length delay full x n = simTaken length delay full x n := by
  rw [C79_receiver]
  cases length with
  | none => rfl
  | some k => exact List.take_of_length_le (h k rfl)

end

/-- C80 is false of the code: after the last beat asked for the receiver stays ready, and takes further beats without
recording them. -/
theorem C80_takes_only_length_refuted :
    ∃ (x : Nat → SimRecvI Nat) (n : Nat),
      Stable (fun k => (x k).valid) (fun k => (simReceiver (some 2) 0 true).wave x k) (fun k => (x k).beat) ∧
      2 < (simTaken (some 2) 0 true x n).length ∧ (simRecorded (some 2) 0 true x n).length = 2 := by
  refine ⟨fun n => ⟨true, n - 1, true⟩, 6, ?_, by decide +kernel, by decide +kernel⟩
  intro n _ hr
  have key : ∀ n, ((simReceiver (some 2) 0 true).st (fun n => (⟨true, n - 1, true⟩ : SimRecvI Nat)) (n + 1)).ready = true ∧
      ((simReceiver (some 2) 0 true).st (fun n => (⟨true, n - 1, true⟩ : SimRecvI Nat)) (n + 1)).delay = 0 := by
    intro n
    induction n with
    | zero => exact ⟨rfl, rfl⟩
    | succ n ih =>
      rw [Circuit.st_succ]
      generalize (simReceiver (some 2) 0 true).st (fun n => (⟨true, n - 1, true⟩ : SimRecvI Nat)) (n + 1) = s at *
      obtain ⟨d, ready, rec⟩ := s
      obtain ⟨a, b⟩ := ih
      dsimp only at a b
      subst a b
      simp only [simReceiver, if_true]
      split
      · exact ⟨rfl, rfl⟩
      · split <;> simp
  cases n with
  | zero => exact ⟨rfl, rfl⟩
  | succ n =>
    have := (key n).1
    change ((simReceiver (some 2) 0 true).st _ (n + 1)).ready = false at hr
    rw [this] at hr; cases hr

example : simRecorded (some 2) 1 false (fun n => (⟨decide (n % 2 = 0 ∨ 3 < n), n, decide (n < 5)⟩ : SimRecvI Nat)) 9 = [5] := by
  decide +kernel

/-! ### C81: connection -/

section
variable {α β : Type} [Inhabited α] [Inhabited β] (f : α → β) (x : Nat → SimConnI α)

/-- Beats taken from the source. -/
def simConnAccepted (n : Nat) : List α :=
  transferred (fun k => (x k).valid) (fun k => ((simConnect f).wave x k).ready) (fun k => (x k).beat) n

/-- Beats given to the sink. -/
def simConnDelivered (n : Nat) : List β :=
  transferred (fun k => ((simConnect f).wave x k).valid) (fun k => (x k).ready) (fun k => ((simConnect f).wave x k).beat) n

/-- Relation between the state, the input of this cycle and the beats in flight. -/
def SimConnRel (s : SimConnS α β) (y : SimConnI α) (pend : List α) : Prop :=
  match s.pt with
  | .start => s.ready = false ∧ s.valid = false ∧ s.stored = false ∧ pend = []
  | .idle => s.ready = false ∧ s.valid = false ∧ pend = if s.stored then [s.store] else []
  | .took => s.ready = true ∧ s.valid = false ∧ s.stored = true ∧ pend = [] ∧ y.valid = true ∧ y.beat = s.store
  | .offer => s.ready = false ∧ s.valid = true ∧ s.stored = true ∧ pend = [s.store] ∧ s.beat = f s.store
  | .given => s.ready = false ∧ s.valid = false ∧ s.stored = true ∧ pend = []

theorem simConn_step (s : SimConnS α β) (y z : SimConnI α) (pend : List α) (h : SimConnRel f s y pend)
    (hst : y.valid = true → s.ready = false → z.valid = true ∧ z.beat = y.beat) :
    ∃ pend', SimConnRel f ((simConnect f).next s y) z pend' ∧
      pend ++ (if y.valid && s.ready then [y.beat] else []) =
        (if s.valid && y.ready then [s.store] else []) ++ pend' ∧
      (s.valid = true → s.beat = f s.store) := by
  obtain ⟨pt, ready, stored, store, valid, beat⟩ := s
  obtain ⟨yv, yb, yr, yp⟩ := y
  obtain ⟨zv, zb, zr, zp⟩ := z
  cases pt
  · obtain ⟨h1, h2, h3, h4⟩ := h
    dsimp only at *
    subst h1 h2 h3 h4
    exact ⟨[], by simp [SimConnRel, simConnect], by simp, by simp⟩
  · obtain ⟨h1, h2, h3⟩ := h
    dsimp only at *
    subst h1 h2 h3
    refine ⟨if stored then [store] else [], ?_, by simp, by simp⟩
    cases stored <;> cases yv <;> cases yp <;> simp_all [SimConnRel, simConnect]
  · obtain ⟨h1, h2, h3, h4, h5, h6⟩ := h
    dsimp only at *
    subst h1 h2 h3 h4 h5 h6
    exact ⟨[yb], by simp [SimConnRel, simConnect], by simp, by simp⟩
  · obtain ⟨h1, h2, h3, h4, h5⟩ := h
    dsimp only at *
    subst h1 h2 h3 h4 h5
    cases yr
    · exact ⟨[store], by simp [SimConnRel, simConnect], by simp, by simp⟩
    · exact ⟨[], by simp [SimConnRel, simConnect], by simp, by simp⟩
  · obtain ⟨h1, h2, h3, h4⟩ := h
    dsimp only at *
    subst h1 h2 h3 h4
    exact ⟨[], by simp [SimConnRel, simConnect], by simp, by simp⟩

theorem simConn_rel (hst : Stable (fun k => (x k).valid) (fun k => ((simConnect f).wave x k).ready) (fun k => (x k).beat))
    (n : Nat) : ∃ pend, SimConnRel f ((simConnect f).st x n) (x n) pend ∧
      (simConnAccepted f x n).map f = simConnDelivered f x n ++ pend.map f := by
  induction n with
  | zero => exact ⟨[], ⟨rfl, rfl, rfl, rfl⟩, by simp [simConnAccepted, simConnDelivered, transferred]⟩
  | succ n ih =>
    obtain ⟨pend, h1, h2⟩ := ih
    obtain ⟨pend', s1, s2, s3⟩ := simConn_step f _ (x n) (x (n + 1)) pend h1 (hst n)
    refine ⟨pend', by rw [Circuit.st_succ]; exact s1, ?_⟩
    have e1 : simConnAccepted f x (n + 1) = simConnAccepted f x n ++
        (if (x n).valid && ((simConnect f).st x n).ready then [(x n).beat] else []) := rfl
    have e2 : simConnDelivered f x (n + 1) = simConnDelivered f x n ++
        (if ((simConnect f).st x n).valid && (x n).ready then [((simConnect f).st x n).beat] else []) := rfl
    rw [e1, e2, List.map_append, h2, List.append_assoc, ← List.map_append, s2, List.map_append, List.append_assoc]
    congr 2
    by_cases hf : (((simConnect f).st x n).valid && (x n).ready) = true
    · rw [if_pos hf, if_pos hf]
      simp only [List.map_cons, List.map_nil]
      rw [s3 (by simp at hf; exact hf.1)]
    · rw [if_neg hf, if_neg hf]; rfl

/-- C81: with a stable sender, what the connection gives to the sink is what it took from the source, in order, each once,
with the fields mapped, at most one beat being under way; it never withdraws or changes a beat it offers. -/
theorem C81_connect (hst : Stable (fun k => (x k).valid) (fun k => ((simConnect f).wave x k).ready) (fun k => (x k).beat)) :
    (∀ n, ∃ pend : List α, pend.length ≤ 1 ∧
      (simConnAccepted f x n).map f = simConnDelivered f x n ++ pend.map f) ∧
    Stable (fun k => ((simConnect f).wave x k).valid) (fun k => (x k).ready) (fun k => ((simConnect f).wave x k).beat) := by
  constructor
  · intro n
    obtain ⟨pend, h1, h2⟩ := simConn_rel f x hst n
    refine ⟨pend, ?_, h2⟩
    generalize (simConnect f).st x n = s at h1
    obtain ⟨pt, ready, stored, store, valid, beat⟩ := s
    cases pt
    · rw [h1.2.2.2]; simp
    · rw [h1.2.2]; dsimp only; split <;> simp
    · rw [h1.2.2.2.1]; simp
    · rw [h1.2.2.2.1]; simp
    · rw [h1.2.2.2]; simp
  · intro n hv hr
    obtain ⟨pend, h1, h2⟩ := simConn_rel f x hst n
    simp only [Circuit.wave, Circuit.st_succ] at *
    generalize (simConnect f).st x n = s at *
    generalize x n = y at *
    obtain ⟨pt, ready, stored, store, valid, beat⟩ := s
    obtain ⟨yv, yb, yr, yp⟩ := y
    dsimp only at hr
    subst hr
    have hv : valid = true := hv
    cases pt
    · exact absurd (h1.2.1.symm.trans hv) (by simp)
    · exact absurd (h1.2.1.symm.trans hv) (by simp)
    · exact absurd (h1.2.1.symm.trans hv) (by simp)
    · exact ⟨hv, rfl⟩
    · exact absurd (h1.2.1.symm.trans hv) (by simp)

theorem simConn_next_start (s : SimConnS α β) (y : SimConnI α) (h : s.pt = .start) (h2 : s.stored = false) :
    ((simConnect f).next s y).pt = .idle ∧ ((simConnect f).next s y).stored = false := by
  obtain ⟨pt, ready, stored, store, valid, beat⟩ := s
  dsimp only at h h2; subst h h2; exact ⟨rfl, rfl⟩

theorem simConn_next_idle (s : SimConnS α β) (y : SimConnI α) (h : s.pt = .idle) (h2 : s.stored = true) :
    if y.pick then ((simConnect f).next s y).pt = .offer
    else ((simConnect f).next s y).pt = .idle ∧ ((simConnect f).next s y).stored = true := by
  obtain ⟨pt, ready, stored, store, valid, beat⟩ := s
  obtain ⟨yv, yb, yr, yp⟩ := y
  dsimp only at h h2; subst h h2
  cases yp <;> simp [simConnect]

theorem simConn_next_free (s : SimConnS α β) (y : SimConnI α) (h : s.pt = .idle) (h2 : s.stored = false)
    (hv : y.valid = true) :
    if y.pick then ((simConnect f).next s y).ready = true
    else ((simConnect f).next s y).pt = .idle ∧ ((simConnect f).next s y).stored = false := by
  obtain ⟨pt, ready, stored, store, valid, beat⟩ := s
  obtain ⟨yv, yb, yr, yp⟩ := y
  dsimp only at h h2 hv; subst h h2 hv
  cases yp <;> simp [simConnect]

theorem simConn_next_took (s : SimConnS α β) (y : SimConnI α) (h : s.pt = .took) (h2 : s.stored = true) :
    ((simConnect f).next s y).pt = .idle ∧ ((simConnect f).next s y).stored = true := by
  obtain ⟨pt, ready, stored, store, valid, beat⟩ := s
  dsimp only at h h2; subst h h2; exact ⟨rfl, rfl⟩

theorem simConn_next_offer (s : SimConnS α β) (y : SimConnI α) (h : s.pt = .offer) :
    if y.ready then ((simConnect f).next s y).pt = .given else ((simConnect f).next s y).pt = .offer := by
  obtain ⟨pt, ready, stored, store, valid, beat⟩ := s
  obtain ⟨yv, yb, yr, yp⟩ := y
  dsimp only at h; subst h
  cases yr <;> simp [simConnect]

theorem simConn_next_given (s : SimConnS α β) (y : SimConnI α) (h : s.pt = .given) :
    ((simConnect f).next s y).pt = .idle ∧ ((simConnect f).next s y).stored = false := by
  obtain ⟨pt, ready, stored, store, valid, beat⟩ := s
  dsimp only at h; subst h; exact ⟨rfl, rfl⟩

/-- The connection becomes free again and again. -/
theorem simConn_free (hst : Stable (fun k => (x k).valid) (fun k => ((simConnect f).wave x k).ready) (fun k => (x k).beat))
    (hr : ∀ n, ∃ m, n ≤ m ∧ (x m).ready = true) (hp : ∀ n, ∃ m, n ≤ m ∧ (x m).pick = true) (n : Nat) :
    ∃ m, n ≤ m ∧ ((simConnect f).st x m).pt = .idle ∧ ((simConnect f).st x m).stored = false := by
  have hgiven : ∀ n, ((simConnect f).st x n).pt = .given →
      ∃ m, n ≤ m ∧ ((simConnect f).st x m).pt = .idle ∧ ((simConnect f).st x m).stored = false := by
    intro n h
    exact ⟨n + 1, by omega, by rw [Circuit.st_succ]; exact simConn_next_given f _ _ h⟩
  have hoffer : ∀ n, ((simConnect f).st x n).pt = .offer →
      ∃ m, n ≤ m ∧ ((simConnect f).st x m).pt = .idle ∧ ((simConnect f).st x m).stored = false := by
    intro n h
    obtain ⟨m, hm, hrm⟩ := hr n
    obtain ⟨d, rfl⟩ := Nat.exists_eq_add_of_le hm
    obtain ⟨j, hj, a, b⟩ := eventually_leave (fun k => ((simConnect f).st x k).pt = .offer) (fun k => (x k).ready = true)
      (fun k hk hn => by
        have := simConn_next_offer f _ (x k) hk
        rw [if_neg hn] at this
        rw [Circuit.st_succ]; exact this) d n h hrm
    have := simConn_next_offer f _ (x j) a
    rw [if_pos b, ← Circuit.st_succ] at this
    obtain ⟨m, h1, h2⟩ := hgiven _ this
    exact ⟨m, by omega, h2⟩
  have hidle : ∀ n, ((simConnect f).st x n).pt = .idle → ((simConnect f).st x n).stored = true →
      ∃ m, n ≤ m ∧ ((simConnect f).st x m).pt = .idle ∧ ((simConnect f).st x m).stored = false := by
    intro n h hs
    obtain ⟨m, hm, hrm⟩ := hp n
    obtain ⟨d, rfl⟩ := Nat.exists_eq_add_of_le hm
    obtain ⟨j, hj, a, b⟩ := eventually_leave
      (fun k => ((simConnect f).st x k).pt = .idle ∧ ((simConnect f).st x k).stored = true) (fun k => (x k).pick = true)
      (fun k hk hn => by
        have := simConn_next_idle f _ (x k) hk.1 hk.2
        rw [if_neg hn] at this
        rw [Circuit.st_succ]; exact this) d n ⟨h, hs⟩ hrm
    have := simConn_next_idle f _ (x j) a.1 a.2
    rw [if_pos b, ← Circuit.st_succ] at this
    obtain ⟨m, h1, h2⟩ := hoffer _ this
    exact ⟨m, by omega, h2⟩
  obtain ⟨pend, h1, -⟩ := simConn_rel f x hst n
  cases hpt : ((simConnect f).st x n).pt
  · simp only [SimConnRel, hpt] at h1
    exact ⟨n + 1, by omega, by rw [Circuit.st_succ]; exact simConn_next_start f _ _ hpt h1.2.2.1⟩
  · cases hs : ((simConnect f).st x n).stored
    · exact ⟨n, Nat.le_refl _, hpt, hs⟩
    · exact hidle n hpt hs
  · simp only [SimConnRel, hpt] at h1
    have := simConn_next_took f _ (x n) hpt h1.2.2.1
    rw [← Circuit.st_succ] at this
    obtain ⟨m, h1, h2⟩ := hidle _ this.1 this.2
    exact ⟨m, by omega, h2⟩
  · exact hoffer n hpt
  · exact hgiven n hpt

/-- C81: if the sink is ready and the random choice positive again and again, each beat offered is taken, and each beat
taken is given to the sink. -/
theorem C81_live (hst : Stable (fun k => (x k).valid) (fun k => ((simConnect f).wave x k).ready) (fun k => (x k).beat))
    (hr : ∀ n, ∃ m, n ≤ m ∧ (x m).ready = true) (hp : ∀ n, ∃ m, n ≤ m ∧ (x m).pick = true) (n : Nat) :
    ((x n).valid = true → ∃ m, n ≤ m ∧ (x m).valid = true ∧ ((simConnect f).wave x m).ready = true) ∧
    ∃ m, n ≤ m ∧ (simConnAccepted f x n).map f <+: simConnDelivered f x m := by
  constructor
  · intro hv
    refine Classical.byContradiction fun hno => ?_
    have hno : ∀ m, n ≤ m → (x m).valid = true → ((simConnect f).wave x m).ready = false := by
      intro m hm hv
      cases hh : ((simConnect f).wave x m).ready with
      | false => rfl
      | true => exact absurd ⟨m, hm, hv, hh⟩ hno
    have hall : ∀ d, (x (n + d)).valid = true := by
      intro d
      induction d with
      | zero => exact hv
      | succ d ih => exact (hst (n + d) ih (hno _ (by omega) ih)).1
    obtain ⟨m, hm, h1, h2⟩ := simConn_free f x hst hr hp n
    obtain ⟨m', hm', hp'⟩ := hp m
    obtain ⟨d, rfl⟩ := Nat.exists_eq_add_of_le hm'
    have hall2 : ∀ k, n ≤ k → (x k).valid = true := by
      intro k hk
      obtain ⟨d, rfl⟩ := Nat.exists_eq_add_of_le hk
      exact hall d
    obtain ⟨j, hj, a, b⟩ := eventually_leave
      (fun k => n ≤ k ∧ ((simConnect f).st x k).pt = .idle ∧ ((simConnect f).st x k).stored = false)
      (fun k => (x k).pick = true)
      (fun k hk hn => by
        have := simConn_next_free f _ (x k) hk.2.1 hk.2.2 (hall2 k hk.1)
        rw [if_neg hn] at this
        rw [Circuit.st_succ]; exact ⟨by omega, this⟩) d m ⟨hm, h1, h2⟩ hp'
    have := simConn_next_free f _ (x j) a.2.1 a.2.2 (hall2 j a.1)
    rw [if_pos b, ← Circuit.st_succ] at this
    have h3 := hno (j + 1) (by omega) (hall2 _ (by omega))
    have h4 : ((simConnect f).wave x (j + 1)).ready = true := this
    rw [h3] at h4
    cases h4
  · obtain ⟨m, hm, h1, h2⟩ := simConn_free f x hst hr hp n
    refine ⟨m, hm, ?_⟩
    obtain ⟨pend, r1, r2⟩ := simConn_rel f x hst m
    simp only [SimConnRel, h1, h2] at r1
    have hpn : pend = [] := by simpa using r1.2.2
    subst hpn
    rw [List.map_nil, List.append_nil] at r2
    rw [← r2]
    have : simConnAccepted f x n <+: simConnAccepted f x m := by
      obtain ⟨d, rfl⟩ := Nat.exists_eq_add_of_le hm
      clear hm h1 h2 r1 r2
      induction d with
      | zero => exact List.prefix_refl _
      | succ d ih => exact ih.trans (List.prefix_append _ _)
    exact this.map f

end

/-- A source sending 10, 20, 30 and a slow sink. -/
def simConnDemo (n : Nat) : SimConnI Nat :=
  ⟨decide (n < 19), if n < 3 then 10 else if n < 11 then 20 else 30, decide (n % 4 = 3), decide (n % 2 = 1)⟩

example : simConnAccepted (· + 1) simConnDemo 40 = [10, 20, 30] ∧ simConnDelivered (· + 1) simConnDemo 40 = [11, 21, 31] := by
  decide +kernel
example : ∀ n < 40, (simConnDemo n).valid = true → ((simConnect (· + 1)).wave simConnDemo n).ready = false →
    (simConnDemo (n + 1)).valid = true ∧ (simConnDemo (n + 1)).beat = (simConnDemo n).beat := by decide +kernel

/-- C81: fields with distinct new names: a field is copied under its new name unless that is omitted, all other fields are
zero. -/
theorem C81_fields (fields : List String) (remap : List (String × String)) (skip : List String) (r : String → Nat)
    (hinj : (fields.map fun n => (remap.lookup n).getD n).Nodup) :
    (∀ n ∈ fields, simFields fields remap skip r ((remap.lookup n).getD n) =
      if (remap.lookup n).getD n ∈ skip then 0 else r n) ∧
    (∀ k, (∀ n ∈ fields, (remap.lookup n).getD n ≠ k) → simFields fields remap skip r k = 0) := by
  have hnew : ∀ n, (match remap.lookup n with | some m => m | none => n) = (remap.lookup n).getD n := by
    intro n; cases remap.lookup n <;> rfl
  have key : ∀ (l : List String) (acc : String → Nat), (l.map fun n => (remap.lookup n).getD n).Nodup →
      (∀ n ∈ l, (l.foldl (fun acc name =>
          let new := match remap.lookup name with
            | some n => n
            | none => name
          if !skip.contains new then fun k => if k = new then r name else acc k else acc) acc) ((remap.lookup n).getD n) =
        if (remap.lookup n).getD n ∈ skip then acc ((remap.lookup n).getD n) else r n) ∧
      (∀ k, (∀ n ∈ l, (remap.lookup n).getD n ≠ k) → (l.foldl (fun acc name =>
          let new := match remap.lookup name with
            | some n => n
            | none => name
          if !skip.contains new then fun k => if k = new then r name else acc k else acc) acc) k = acc k) := by
    intro l
    induction l with
    | nil => intro acc _; simp
    | cons a l ih =>
      intro acc hnd
      rw [List.map_cons, List.nodup_cons] at hnd
      simp only [List.foldl_cons, hnew] at ih ⊢
      obtain ⟨i1, i2⟩ := ih (if (!skip.contains ((remap.lookup a).getD a)) = true then
        fun k => if k = (remap.lookup a).getD a then r a else acc k else acc) hnd.2
      have hne : ∀ n ∈ l, (remap.lookup n).getD n ≠ (remap.lookup a).getD a := by
        intro n hn he
        exact hnd.1 (he ▸ List.mem_map_of_mem (f := fun n => (remap.lookup n).getD n) hn)
      constructor
      · intro n hn
        rcases List.mem_cons.mp hn with rfl | hn
        · rw [i2 _ hne]
          by_cases ho : (remap.lookup n).getD n ∈ skip
          · simp [ho]
          · simp [ho]
        · rw [i1 n hn]
          by_cases ho : (remap.lookup n).getD n ∈ skip
          · rw [if_pos ho, if_pos ho]
            split
            · exact if_neg (hne n hn)
            · rfl
          · rw [if_neg ho, if_neg ho]
      · intro k hk
        rw [i2 k (fun n hn => hk n (List.mem_cons_of_mem _ hn))]
        split
        · exact if_neg (fun he => hk a List.mem_cons_self he.symm)
        · rfl
  exact key fields (fun _ => 0) hinj

example : simFields ["a", "b", "c"] [("a", "x")] ["c"] (fun s => if s = "a" then 1 else if s = "b" then 2 else 3) "x" = 1 := by
  decide

end Lambdalib
