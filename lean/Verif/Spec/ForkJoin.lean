import Verif.Model.ForkJoin
import Verif.Spec.Stages

/-! Specification vocabulary for fork and join. -/

namespace Lambdalib

/-- What is assumed of a component between `Splitter` and `Merger`: beats come out in order and unchanged, offers are stable, the
source does not depend on its own `ready` nor `ready` on the offer in the same cycle; if what it offers is taken, it takes what is
offered to it and gives all that it has. -/
structure Branch {σ α : Type} (c : Circuit σ (SIn α) (SOut α)) : Prop where
  indep : ∀ s v v' b b' r, (c.out s ⟨v, b, r⟩).ready = (c.out s ⟨v', b', r⟩).ready
  shows : ∀ s v b r r', (c.out s ⟨v, b, r⟩).valid = (c.out s ⟨v, b, r'⟩).valid ∧ (c.out s ⟨v, b, r⟩).beat = (c.out s ⟨v, b, r'⟩).beat
  order : ∀ i n, ∃ q, accepted c i n = delivered c i n ++ q
  stable : ∀ i, SinkStable c i → SourceStable c i
  accepts : ∀ i, SinkStable c i → Takes (fun k => (c.wave i k).valid) (fun k => (i k).ready) →
    Takes (fun k => (i k).valid) (fun k => (c.wave i k).ready)
  delivers : ∀ i, SinkStable c i → Takes (fun k => (c.wave i k).valid) (fun k => (i k).ready) → ∀ n, ∃ m,
    (accepted c i n).length ≤ (delivered c i m).length

/-- Two beats with the same delimiters and the same values in the fields `l`. -/
def SameIn (l : List String) (a b : Beat Fields) : Prop :=
  a.first = b.first ∧ a.last = b.last ∧ ∀ f ∈ l, a.payload f = b.payload f

end Lambdalib
