/-
Specification vocabulary: synchronous circuits and valid/ready streams.

Nothing in this file models code of /repo; it fixes the meaning of "clock cycle", "execution",
"beat accepted", "beat delivered" and "stable under back-pressure" used by all property statements.
-/

namespace Lambdalib

/-- A synchronous circuit with one clock: registers `σ`, inputs `ι`, outputs `ο`.
`out` is the combinational part, `next` the register update at the clock edge. -/
structure Circuit (σ ι ο : Type) where
  reset : σ
  out : σ → ι → ο
  next : σ → ι → σ

namespace Circuit
variable {σ ι ο : Type}

/-- Register contents during cycle `n` when the inputs follow the waveform `i`. -/
def st (c : Circuit σ ι ο) (i : Nat → ι) : Nat → σ
  | 0 => c.reset
  | n + 1 => c.next (c.st i n) (i n)

/-- Output values during cycle `n` when the inputs follow the waveform `i`. -/
def wave (c : Circuit σ ι ο) (i : Nat → ι) (n : Nat) : ο := c.out (c.st i n) (i n)

@[simp] theorem st_zero (c : Circuit σ ι ο) (i : Nat → ι) : c.st i 0 = c.reset := rfl
theorem st_succ (c : Circuit σ ι ο) (i : Nat → ι) (n : Nat) :
    c.st i (n + 1) = c.next (c.st i n) (i n) := rfl

/-- An inductive invariant holds in every cycle. -/
theorem st_invariant (c : Circuit σ ι ο) (P : σ → Prop) (h0 : P c.reset)
    (hs : ∀ s x, P s → P (c.next s x)) (i : Nat → ι) (n : Nat) : P (c.st i n) := by
  induction n with
  | zero => exact h0
  | succ n ih => exact hs _ _ ih

end Circuit

/-- One beat of a stream: payload and packet delimiters. -/
structure Beat (α : Type) where
  first : Bool
  last : Bool
  payload : α
deriving DecidableEq, Repr, Inhabited

/-- Inputs of a stream component with one `sink` and one `source`:
`sink.valid`, the sink beat, and `source.ready`. -/
structure SIn (α : Type) where
  valid : Bool
  beat : Beat α
  ready : Bool
deriving DecidableEq, Repr, Inhabited

/-- Outputs of a stream component with one `sink` and one `source`:
`sink.ready`, `source.valid` and the source beat. -/
structure SOut (β : Type) where
  ready : Bool
  valid : Bool
  beat : Beat β
deriving DecidableEq, Repr, Inhabited

/-- The list of values that crossed an interface during the first `n` cycles: those present in the
cycles where both `valid` and `ready` are high, oldest first. -/
def transferred {β : Type} (valid ready : Nat → Bool) (beat : Nat → β) : Nat → List β
  | 0 => []
  | n + 1 => transferred valid ready beat n ++ (if valid n && ready n then [beat n] else [])

/-- The sender obeys the stream rule: an offered beat is neither withdrawn nor changed before it is
taken. -/
def Stable {β : Type} (valid ready : Nat → Bool) (beat : Nat → β) : Prop :=
  ∀ n, valid n = true → ready n = false → valid (n + 1) = true ∧ beat (n + 1) = beat n

section
variable {σ α β : Type}

/-- Beats accepted on `sink` during the first `n` cycles. -/
def accepted (c : Circuit σ (SIn α) (SOut β)) (i : Nat → SIn α) (n : Nat) : List (Beat α) :=
  transferred (fun k => (i k).valid) (fun k => (c.wave i k).ready) (fun k => (i k).beat) n

/-- Beats delivered on `source` during the first `n` cycles. -/
def delivered (c : Circuit σ (SIn α) (SOut β)) (i : Nat → SIn α) (n : Nat) : List (Beat β) :=
  transferred (fun k => (c.wave i k).valid) (fun k => (i k).ready) (fun k => (c.wave i k).beat) n

/-- The component obeys the stream rule on its `source`. -/
def SourceStable (c : Circuit σ (SIn α) (SOut β)) (i : Nat → SIn α) : Prop :=
  Stable (fun k => (c.wave i k).valid) (fun k => (i k).ready) (fun k => (c.wave i k).beat)

/-- The environment obeys the stream rule on `sink`. -/
def SinkStable (c : Circuit σ (SIn α) (SOut β)) (i : Nat → SIn α) : Prop :=
  Stable (fun k => (i k).valid) (fun k => (c.wave i k).ready) (fun k => (i k).beat)

end

@[simp] theorem transferred_zero {β : Type} (v r : Nat → Bool) (b : Nat → β) :
    transferred v r b 0 = [] := rfl
theorem transferred_succ {β : Type} (v r : Nat → Bool) (b : Nat → β) (n : Nat) :
    transferred v r b (n + 1)
      = transferred v r b n ++ (if v n && r n then [b n] else []) := rfl

section
variable {σ α β : Type}

theorem accepted_succ (c : Circuit σ (SIn α) (SOut β)) (i : Nat → SIn α) (n : Nat) :
    accepted c i (n + 1) = accepted c i n ++
      (if (i n).valid && (c.out (c.st i n) (i n)).ready then [(i n).beat] else []) := rfl

theorem delivered_succ (c : Circuit σ (SIn α) (SOut β)) (i : Nat → SIn α) (n : Nat) :
    delivered c i (n + 1) = delivered c i n ++
      (if (c.out (c.st i n) (i n)).valid && (i n).ready
        then [(c.out (c.st i n) (i n)).beat] else []) := rfl

/-- Induction principle: a relation between accepted beats, delivered beats and registers that is
preserved by one arbitrary clock cycle holds in every cycle of every execution. -/
theorem stream_induct (c : Circuit σ (SIn α) (SOut β))
    (P : List (Beat α) → List (Beat β) → σ → Prop) (h0 : P [] [] c.reset)
    (hs : ∀ A D s x, P A D s →
      P (A ++ (if x.valid && (c.out s x).ready then [x.beat] else []))
        (D ++ (if (c.out s x).valid && x.ready then [(c.out s x).beat] else [])) (c.next s x))
    (i : Nat → SIn α) (n : Nat) : P (accepted c i n) (delivered c i n) (c.st i n) := by
  induction n with
  | zero => exact h0
  | succ n ih => exact hs _ _ _ _ ih

end

end Lambdalib
