import Verif.Model.Pipe

/-! C01, C02: register slices. -/

namespace Lambdalib
variable {α : Type} [Inhabited α]

/-- C01: at every cycle, accepted = delivered ++ the single beat on offer. -/
theorem C01_pipevalid_lossless (i : Nat → SIn α) (n : Nat) :
    accepted pipeValid i n = delivered pipeValid i n ++
      (if (pipeValid.wave i n).valid then [(pipeValid.wave i n).beat] else []) := by
  refine stream_induct pipeValid
    (fun A D s => A = D ++ if s.valid then [s.beat] else []) ?_ ?_ i n
  · simp [pipeValid]
  · rintro A D s x rfl
    cases h : s.valid <;> cases h2 : x.valid <;> cases h3 : x.ready <;> simp_all [pipeValid]

/-- C01: an offered beat is neither withdrawn nor changed before it is taken. -/
theorem C01_pipevalid_stable (i : Nat → SIn α) : SourceStable pipeValid i := by
  intro n
  simp only [Circuit.wave, Circuit.st_succ]
  generalize pipeValid.st i n = s
  intro hv hr
  simp_all [pipeValid]

/-- C01: a beat can be accepted in every cycle in which the slot is free or being freed, so the
slice sustains one beat per cycle. -/
theorem C01_pipevalid_ready (i : Nat → SIn α) (n : Nat) :
    (pipeValid.wave i n).ready = true ↔
      (pipeValid.wave i n).valid = false ∨ (i n).ready = true := by
  simp only [Circuit.wave]
  generalize pipeValid.st i n = s
  simp [pipeValid]

/-- The skid register is only in use when it holds a beat. -/
theorem pipeReady_inv (i : Nat → SIn α) (n : Nat) :
    (pipeReady.st i n).valid → (pipeReady.st i n).dValid := by
  refine pipeReady.st_invariant (fun s => s.valid → s.dValid) ?_ ?_ i n
  · simp [pipeReady]
  · intro s x
    cases h : s.valid <;> cases h2 : s.dValid <;> cases h3 : x.valid <;> cases h4 : x.ready <;>
      simp_all [pipeReady]

/-- C02: at every cycle, accepted = delivered ++ one buffered beat exactly when `sink.ready` is low
(and that beat is then the one on offer). -/
theorem C02_pipeready_lossless (i : Nat → SIn α) (n : Nat) :
    accepted pipeReady i n = delivered pipeReady i n ++
      (if (pipeReady.wave i n).ready then [] else [(pipeReady.wave i n).beat]) := by
  have key : accepted pipeReady i n = delivered pipeReady i n ++
      (if (pipeReady.st i n).valid then [(pipeReady.st i n).dBeat] else []) ∧
      ((pipeReady.st i n).valid → (pipeReady.st i n).dValid) := by
    refine stream_induct pipeReady (fun A D s => A = D ++ (if s.valid then [s.dBeat] else []) ∧
      (s.valid → s.dValid)) ?_ ?_ i n
    · simp [pipeReady]
    · rintro A D s x ⟨rfl, hv⟩
      cases h : s.valid <;> cases h1 : s.dValid <;> cases h2 : x.valid <;> cases h3 : x.ready <;>
        simp_all [pipeReady]
  rw [key.1, Circuit.wave]
  generalize pipeReady.st i n = s
  cases h : s.valid <;> simp_all [pipeReady]

/-- C02: the beat offered on `source` is stable under back-pressure for a sender that obeys the
stream rule or not: once offered, it stays. -/
theorem C02_pipeready_stable (i : Nat → SIn α) : SourceStable pipeReady i := by
  intro n
  have := pipeReady_inv i n
  simp only [Circuit.wave, Circuit.st_succ] at *
  generalize pipeReady.st i n = s at *
  intro hv hr
  cases h : s.valid <;> simp_all [pipeReady]

/-- C02: `sink.ready` in a cycle does not depend on the inputs of that cycle: two environments that
agree on all earlier cycles see the same `sink.ready`. -/
theorem C02_pipeready_ready_registered (i j : Nat → SIn α) (n : Nat) (h : ∀ k < n, i k = j k) :
    (pipeReady.wave i n).ready = (pipeReady.wave j n).ready := by
  have hst : ∀ m ≤ n, pipeReady.st i m = pipeReady.st j m := by
    intro m hm
    induction m with
    | zero => rfl
    | succ m ih => rw [Circuit.st_succ, Circuit.st_succ, ih (by omega), h m (by omega)]
  rw [Circuit.wave, Circuit.wave, hst n (Nat.le_refl n)]
  generalize pipeReady.st j n = s
  simp [pipeReady]

/-- C02: a beat is offered whenever one is buffered or incoming, so an idle slice adds no latency. -/
theorem C02_pipeready_valid (i : Nat → SIn α) (n : Nat) :
    (pipeReady.wave i n).valid = true ↔
      (pipeReady.wave i n).ready = false ∨ (i n).valid = true := by
  have := pipeReady_inv i n
  simp only [Circuit.wave] at *
  generalize pipeReady.st i n = s at *
  cases h : s.valid <;> simp_all [pipeReady]

/-- Sample schedule: three beats, receiver stalling in cycles 1 and 2. -/
def pipeSample : Nat → SIn Nat := fun n => ⟨n < 4, ⟨n == 0, n == 3, 10 + n⟩, n == 0 || 3 ≤ n⟩

example : accepted pipeValid pipeSample 8
    = [⟨true, false, 10⟩, ⟨false, true, 13⟩] := by decide
example : delivered pipeValid pipeSample 8 = accepted pipeValid pipeSample 8 := by decide
example : (pipeValid.wave pipeSample 2).valid = true ∧ (pipeSample 2).ready = false := by decide
example : accepted pipeReady pipeSample 3 = [⟨true, false, 10⟩, ⟨false, false, 11⟩] ∧
    delivered pipeReady pipeSample 3 = [⟨true, false, 10⟩] ∧
    (pipeReady.wave pipeSample 3).ready = false := by decide

end Lambdalib
