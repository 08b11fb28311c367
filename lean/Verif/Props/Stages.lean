import Verif.Spec.Stages
import Verif.Lemmas.ConverterRoundtrip
import Verif.Props.Progress
import Verif.Props.Arith
import Verif.Props.Iir

/-! C123: chains of stream components with changes of the width. -/

namespace Lambdalib

/-- What one component contributes to a chain. -/
structure StageGood {σ α β : Type} (c : Circuit σ (SIn α) (SOut β)) (R : List (Beat α) → List (Beat β) → Prop) : Prop where
  indep : ReadyIndep c
  stable : ∀ i, SinkStable c i → SourceStable c i
  safe : ∀ i, SinkStable c i → ∀ n, ∃ q, R (presented c i n) (shown c i n ++ q)
  more : ∀ x y x', R x y → x <+: x' → ∃ y', y <+: y' ∧ R x' y'
  less : ∀ x x' y', R x' y' → x <+: x' → ∃ y, y <+: y' ∧ R x y
  accepts : ∀ i, SinkStable c i → Takes (fun k => (c.wave i k).valid) (fun k => (i k).ready) →
    Takes (fun k => (i k).valid) (fun k => (c.wave i k).ready)
  delivers : ∀ i, SinkStable c i → Takes (fun k => (c.wave i k).valid) (fun k => (i k).ready) →
    ∀ n, ∃ m y, R (accepted c i n) y ∧ y <+: delivered c i m

/-- A sink that is ready at some time after every offer takes every offer. -/
theorem takes_of {valid ready : Nat → Bool} (hk : ∀ n, valid n = true → ready n = false → valid (n + 1) = true)
    (h : ∀ n, (∀ m, n ≤ m → valid m = true) → ∃ m, n ≤ m ∧ ready m = true) : Takes valid ready := by
  intro n hv
  refine Classical.byContradiction fun hno => ?_
  have key : ∀ m, n ≤ m → valid m = true := by
    intro m hm
    induction m, hm using Nat.le_induction with
    | base => exact hv
    | succ m hm ih =>
      refine hk m ih ?_
      cases hr : ready m with
      | false => rfl
      | true => exact absurd ⟨m, hm, ih, hr⟩ hno
  obtain ⟨m, hm, hr⟩ := h n key
  exact hno ⟨m, hm, key m hm, hr⟩

section Show
variable {σ α β : Type} (c : Circuit σ (SIn α) (SOut β))

/-- The source does not depend on its own `ready` in the same cycle. -/
def ShowIndep : Prop := ∀ s v b r r', (c.out s ⟨v, b, r⟩).valid = (c.out s ⟨v, b, r'⟩).valid ∧
  (c.out s ⟨v, b, r⟩).beat = (c.out s ⟨v, b, r'⟩).beat

/-- The run `i` up to cycle `n`, in which the receiver is ready; after that the sender only keeps its beat. -/
def stopAt (i : Nat → SIn α) (n k : Nat) : SIn α :=
  if k < n then i k else if k = n then ⟨(i n).valid, (i n).beat, true⟩
  else ⟨(i n).valid && !(c.out (c.st i n) ⟨(i n).valid, (i n).beat, true⟩).ready, (i n).beat, false⟩

theorem stopAt_st (i : Nat → SIn α) (n k : Nat) (hk : k ≤ n) : c.st (stopAt c i n) k = c.st i k := by
  induction k with
  | zero => rfl
  | succ k ih =>
    rw [Circuit.st_succ, Circuit.st_succ, ih (by omega)]
    rw [show stopAt c i n k = i k by simp [stopAt]; omega]

theorem stopAt_lists (i : Nat → SIn α) (n k : Nat) (hk : k ≤ n) :
    accepted c (stopAt c i n) k = accepted c i k ∧ delivered c (stopAt c i n) k = delivered c i k := by
  induction k with
  | zero => exact ⟨rfl, rfl⟩
  | succ k ih =>
    have e : stopAt c i n k = i k := by simp [stopAt]; omega
    rw [accepted_succ, accepted_succ, delivered_succ, delivered_succ, (ih (by omega)).1, (ih (by omega)).2,
      stopAt_st c i n k (by omega), e]
    exact ⟨rfl, rfl⟩

theorem stopAt_stable (i : Nat → SIn α) (hs : SinkStable c i) (n : Nat) : SinkStable c (stopAt c i n) := by
  intro k hv hr
  dsimp only at hv hr ⊢
  rcases Nat.lt_trichotomy k n with h | h | h
  · have e : stopAt c i n k = i k := by simp [stopAt, h]
    have hw : c.wave (stopAt c i n) k = c.wave i k := by rw [Circuit.wave, Circuit.wave, stopAt_st c i n k (by omega), e]
    rw [hw] at hr
    rw [e] at hv ⊢
    have := hs k hv hr
    by_cases h1 : k + 1 < n
    · rw [show stopAt c i n (k + 1) = i (k + 1) by simp [stopAt, h1]]
      exact this
    · have : k + 1 = n := by omega
      subst this
      simpa [stopAt] using hs k hv hr
  · subst h
    have e : stopAt c i k k = ⟨(i k).valid, (i k).beat, true⟩ := by simp [stopAt]
    have e1 : stopAt c i k (k + 1) = ⟨(i k).valid && !(c.out (c.st i k) ⟨(i k).valid, (i k).beat, true⟩).ready, (i k).beat, false⟩ := by
      simp [stopAt]
    rw [Circuit.wave, stopAt_st c i k k (Nat.le_refl k), e] at hr
    rw [e] at hv ⊢
    rw [e1, hr]
    exact ⟨by simpa using hv, rfl⟩
  · have e : ∀ k, n < k → stopAt c i n k
        = ⟨(i n).valid && !(c.out (c.st i n) ⟨(i n).valid, (i n).beat, true⟩).ready, (i n).beat, false⟩ := by
      intro k hk
      have h1 : ¬ k < n := by omega
      have h2 : ¬ k = n := by omega
      simp [stopAt, h1, h2]
    rw [e k h] at hv ⊢
    rw [e (k + 1) (by omega)]
    exact ⟨hv, rfl⟩

/-- It is enough to look at the beats delivered. -/
theorem show_of_delivered {R : List (Beat α) → List (Beat β) → Prop} (hi : ShowIndep c)
    (h : ∀ i, SinkStable c i → ∀ n, ∃ q, R (presented c i n) (delivered c i n ++ q))
    (i : Nat → SIn α) (hs : SinkStable c i) (n : Nat) : ∃ q, R (presented c i n) (shown c i n ++ q) := by
  have := h _ (stopAt_stable c i hs n) (n + 1)
  have e : stopAt c i n n = ⟨(i n).valid, (i n).beat, true⟩ := by simp [stopAt]
  have e1 : stopAt c i n (n + 1) = ⟨(i n).valid && !(c.out (c.st i n) ⟨(i n).valid, (i n).beat, true⟩).ready, (i n).beat, false⟩ := by
    simp [stopAt]
  have l := stopAt_lists c i n n (Nat.le_refl n)
  have hp : presented c (stopAt c i n) (n + 1) = presented c i n := by
    rw [presented, presented, accepted_succ, l.1, stopAt_st c i n n (Nat.le_refl n), e, e1]
    cases hv : (i n).valid <;> cases hr : (c.out (c.st i n) ⟨(i n).valid, (i n).beat, true⟩).ready <;>
      rw [hv] at hr <;> simp [hr]
  have hd : delivered c (stopAt c i n) (n + 1) = shown c i n := by
    have g := hi (c.st i n) (i n).valid (i n).beat true (i n).ready
    rw [shown, delivered_succ, l.2, stopAt_st c i n n (Nat.le_refl n), e, g.1, g.2, Circuit.wave]
    simp
  rw [hp, hd] at this
  exact this

end Show

/-- For a function on sequences that keeps prefixes. -/
theorem more_of_fun {α β : Type} (f : List α → List β) (hf : ∀ x z, f x <+: f (x ++ z)) :
    (∀ x y x', y = f x → x <+: x' → ∃ y', y <+: y' ∧ y' = f x') ∧
    (∀ x x' y', y' = f x' → x <+: x' → ∃ y, y <+: y' ∧ y = f x) := by
  constructor
  · rintro x y x' rfl ⟨z, rfl⟩
    exact ⟨_, hf x z, rfl⟩
  · rintro x x' y' rfl ⟨z, rfl⟩
    exact ⟨_, hf x z, rfl⟩

/-- If a component that is ahead always offers a beat at some time, everything accepted is delivered. -/
theorem takes_delivers {σ α β : Type} (c : Circuit σ (SIn α) (SOut β)) (F : List (Beat α) → List (Beat β))
    (hF : ∀ x z, F x <+: F (x ++ z)) (hlen : ∀ x, (F x).length = x.length) (i : Nat → SIn α)
    (ho : ∀ n, ∃ q, F (accepted c i n) = delivered c i n ++ q)
    (ht : Takes (fun k => (c.wave i k).valid) (fun k => (i k).ready))
    (hl : ∀ n, (delivered c i n).length < (accepted c i n).length → ∃ m, n ≤ m ∧ (c.wave i m).valid = true)
    (n : Nat) : ∃ m, F (accepted c i n) <+: delivered c i m := by
  have key : ∀ k, ∃ m, n ≤ m ∧ min k (accepted c i n).length ≤ (delivered c i m).length := by
    intro k
    induction k with
    | zero => exact ⟨n, Nat.le_refl _, by omega⟩
    | succ k ih =>
      obtain ⟨m, hm, h⟩ := ih
      by_cases hlt : (delivered c i m).length < (accepted c i n).length
      · obtain ⟨m1, h1, hv⟩ := hl m (Nat.lt_of_lt_of_le hlt (accepted_mono c i hm).length_le)
        obtain ⟨m2, h2, h3, h4⟩ := ht m1 hv
        have := transferred_grows (fun k => (c.wave i k).valid) (fun k => (i k).ready) (fun k => (c.wave i k).beat)
          (Nat.le_trans h1 h2) h3 h4
        change (delivered c i m).length < (delivered c i (m2 + 1)).length at this
        exact ⟨m2 + 1, by omega, by omega⟩
      · exact ⟨m, hm, by omega⟩
  obtain ⟨m, hm, h⟩ := key (accepted c i n).length
  refine ⟨m, ?_⟩
  obtain ⟨q, e⟩ := ho m
  obtain ⟨z, ez⟩ := accepted_mono c i hm
  have h1 := hF (accepted c i n) z
  rw [ez, e] at h1
  exact List.prefix_of_prefix_length_le h1 (List.prefix_append _ _) (by rw [hlen]; omega)

/-- A component that changes each beat by itself. `P` says what is wanted of the change `f`. -/
theorem good_map {σ α β : Type} (c : Circuit σ (SIn α) (SOut β)) (f : Beat α → Beat β) (P : Beat α → Beat β → Prop)
    (hP : ∀ a, P a (f a)) (hi : ReadyIndep c) (hsi : ShowIndep c)
    (hst : ∀ i, SinkStable c i → SourceStable c i) (ho : ∀ i n, ∃ q, (accepted c i n).map f = delivered c i n ++ q)
    (hr : ∀ i n, (c.wave i n).ready = true ↔ (c.wave i n).valid = false ∨ (i n).ready = true)
    (hl : ∀ i n, (delivered c i n).length < (accepted c i n).length → ∃ m, n ≤ m ∧ (c.wave i m).valid = true) :
    StageGood c (fun x y => List.Forall₂ P x y) := by
  have made : ∀ x, List.Forall₂ P x (x.map f) := by
    intro x
    induction x with
    | nil => exact .nil
    | cons a x ih => exact .cons (hP a) ih
  refine ⟨hi, hst, show_of_delivered c (R := fun x y => List.Forall₂ P x y) hsi ?_, ?_, ?_, ?_, ?_⟩
  · intro i _ n
    obtain ⟨q, e⟩ := ho i n
    refine ⟨q ++ (if (i n).valid then [(i n).beat] else []).map f, ?_⟩
    rw [← List.append_assoc, ← e, ← List.map_append]
    exact made _
  · rintro x y x' h ⟨z, rfl⟩
    exact ⟨y ++ z.map f, List.prefix_append _ _, List.rel_append h (made z)⟩
  · rintro x x' y' h ⟨z, rfl⟩
    refine ⟨y'.take x.length, List.take_prefix _ _, ?_⟩
    have := List.forall₂_take x.length h
    rwa [List.take_left] at this
  · intro i hs ht
    refine takes_of (fun n h1 h2 => (hs n h1 h2).1) fun n _ => ?_
    cases hv : (c.wave i n).valid with
    | false => exact ⟨n, Nat.le_refl n, (hr i n).2 (.inl hv)⟩
    | true =>
      obtain ⟨m, hm, _, h⟩ := ht n hv
      exact ⟨m, hm, (hr i m).2 (.inr h)⟩
  · intro i _ ht n
    obtain ⟨m, h⟩ := takes_delivers c (List.map f) (fun x z => by rw [List.map_append]; exact List.prefix_append _ _)
      (fun x => List.length_map f) i (ho i) ht (hl i) n
    exact ⟨m, _, made _, h⟩

/-- From order, stability and progress to what a component of equal layouts contributes. -/
theorem good_equal {σ α : Type} (c : Circuit σ (SIn α) (SOut α)) (hi : ReadyIndep c) (hsi : ShowIndep c)
    (hst : ∀ i, SinkStable c i → SourceStable c i) (ho : ∀ i n, ∃ q, accepted c i n = delivered c i n ++ q)
    (ha : ∀ i, SinkStable c i → Takes (fun k => (c.wave i k).valid) (fun k => (i k).ready) →
      Takes (fun k => (i k).valid) (fun k => (c.wave i k).ready))
    (hl : ∀ i n, (delivered c i n).length < (accepted c i n).length → ∃ m, n ≤ m ∧ (c.wave i m).valid = true) :
    StageGood c (fun x y => y = x) where
  indep := hi
  stable := hst
  safe := show_of_delivered c (R := fun x y => y = x) hsi (by
    intro i _ n
    obtain ⟨q, e⟩ := ho i n
    exact ⟨q ++ (if (i n).valid then [(i n).beat] else []), by rw [presented, e, List.append_assoc]⟩)
  more := (more_of_fun id fun x z => List.prefix_append x z).1
  less := (more_of_fun id fun x z => List.prefix_append x z).2
  accepts := ha
  delivers := by
    intro i _ ht n
    obtain ⟨m, h⟩ := takes_delivers c id (fun x z => List.prefix_append x z) (fun _ => rfl) i (ho i) ht (hl i) n
    exact ⟨m, _, rfl, h⟩

/-- A component in which the handshake is only wires. -/
theorem good_wired {σ α β : Type} (c : Circuit σ (SIn α) (SOut β)) (f : List (Beat α) → List (Beat β))
    (hw : ∀ s x, (c.out s x).ready = x.ready ∧ (c.out s x).valid = x.valid) (hsi : ShowIndep c)
    (hst : ∀ i, SinkStable c i → SourceStable c i) (hf : ∀ x z, f x <+: f (x ++ z))
    (hd : ∀ i n, delivered c i n = f (accepted c i n)) : StageGood c (fun x y => y = f x) where
  indep := fun s v v' b b' r => (hw s ⟨v, b, r⟩).1.trans (hw s ⟨v', b', r⟩).1.symm
  stable := hst
  safe := show_of_delivered c (R := fun x y => y = f x) hsi (by
    intro i _ n
    obtain ⟨q, e⟩ := hf (accepted c i n) (if (i n).valid then [(i n).beat] else [])
    exact ⟨q, by rw [presented, ← e, hd]⟩)
  more := (more_of_fun f hf).1
  less := (more_of_fun f hf).2
  accepts := by
    intro i _ ht n hv
    obtain ⟨m, hm, h1, h2⟩ := ht n ((hw _ _).2.trans hv)
    exact ⟨m, hm, (hw _ _).2.symm.trans h1, (hw _ _).1.trans h2⟩
  delivers := fun i _ _ n => ⟨n, _, rfl, hd i n ▸ List.prefix_refl _⟩

theorem stage_valid {α : Type} [Inhabited α] : StageGood (pipeValid : Circuit _ (SIn α) (SOut α)) (fun x y => y = x) := by
  refine good_equal _ good_pipeValid.indep (fun _ _ _ _ _ => ⟨rfl, rfl⟩) good_pipeValid.stable
    (fun i n => ⟨_, C01_pipevalid_lossless i n⟩) ?_ ?_
  · intro i hs ht
    refine takes_of (fun n h1 h2 => (hs n h1 h2).1) fun n _ => ?_
    cases hv : (pipeValid.wave i n).valid with
    | false => exact ⟨n, Nat.le_refl n, (C01_pipevalid_ready i n).2 (.inl hv)⟩
    | true =>
      obtain ⟨m, hm, _, h⟩ := ht n hv
      exact ⟨m, hm, (C01_pipevalid_ready i m).2 (.inr h)⟩
  · intro i n h
    rw [C01_pipevalid_lossless] at h
    cases hv : (pipeValid.wave i n).valid with
    | true => exact ⟨n, Nat.le_refl n, hv⟩
    | false => simp [hv] at h

theorem stage_ready {α : Type} [Inhabited α] : StageGood (pipeReady : Circuit _ (SIn α) (SOut α)) (fun x y => y = x) := by
  refine good_equal _ good_pipeReady.indep (fun _ _ _ _ _ => ⟨rfl, rfl⟩) good_pipeReady.stable
    (fun i n => ⟨_, C02_pipeready_lossless i n⟩) ?_ ?_
  · intro i hs ht
    refine takes_of (fun n h1 h2 => (hs n h1 h2).1) fun n hv => ?_
    obtain ⟨m, hm, _, h⟩ := ht n ((C02_pipeready_valid i n).2 (.inr (hv n (Nat.le_refl n))))
    refine ⟨m + 1, by omega, ?_⟩
    have h' : (i m).ready = true := h
    simp only [Circuit.wave, Circuit.st_succ]
    generalize pipeReady.st i m = s
    cases hv : (i m).valid <;> simp [pipeReady, h', hv]
  · intro i n h
    rw [C02_pipeready_lossless] at h
    cases hv : (pipeReady.wave i n).ready with
    | false => exact ⟨n, Nat.le_refl n, (C02_pipeready_valid i n).2 (.inl hv)⟩
    | true => simp [hv] at h

theorem stage_fifo {σ : Type} {w depth : Nat} (f : Circuit σ (FifoIn (1 + (1 + w))) (FifoOut (1 + (1 + w))))
    (hf : FifoServes f depth) : StageGood (fifoWrapper f) (fun x y => y = x) := by
  refine good_equal _ ?_ ?_ (fun i _ => C08_fifo_stable f hf.contract i) ?_ ?_ ?_
  · intro s v v' b b' r
    exact congrArg FifoOut.wRdy (hf.registered _ _ _)
  · intro s v b r r'
    simp only [fifoWrapper]
    rw [hf.registered s (fifoDrive ⟨v, b, r⟩) (fifoDrive ⟨v, b, r'⟩)]
    exact ⟨rfl, rfl⟩
  · intro i n
    obtain ⟨q, h1, _⟩ := C08_fifo_lossless f hf.contract i n
    exact ⟨q, h1⟩
  · intro i hs ht
    refine takes_of (fun n h1 h2 => (hs n h1 h2).1) fun n _ => ?_
    obtain ⟨m, hm, h⟩ := hf.room (fun k => fifoDrive (i k)) (by
      intro k hk
      obtain ⟨m, hm, h1, h2⟩ := ht k (by dsimp only; rw [fifoWrapper_wave]; exact hk)
      dsimp only at h1
      rw [fifoWrapper_wave] at h1
      exact ⟨m, hm, h1, h2⟩) n
    exact ⟨m, hm, by rw [fifoWrapper_wave]; exact h⟩
  · intro i n h
    rw [(fifoWrapper_counts f i n).1, (fifoWrapper_counts f i n).2] at h
    obtain ⟨m, hm, hv⟩ := hf.live _ n h
    exact ⟨m, hm, by rw [fifoWrapper_wave]; exact hv⟩

theorem bound_append {α : Type} (count k : Nat) (x z : List (Beat α)) :
    boundPackets count k x <+: boundPackets count k (x ++ z) := by
  induction x generalizing k with
  | nil => exact List.nil_prefix
  | cons b x ih =>
    rw [List.cons_append, boundPackets, boundPackets]
    split
    · exact List.prefix_cons_inj _ |>.2 (ih 0)
    · exact List.prefix_cons_inj _ |>.2 (ih (k + 1))

theorem stage_stitch {α : Type} (count : Nat) (hc : 1 ≤ count) :
    StageGood (stitcher count : Circuit _ (SIn α) (SOut α)) (fun x y => y = stitched count x) := by
  refine good_wired _ (stitched count) (fun _ _ => ⟨rfl, rfl⟩) (fun _ _ _ _ _ => ⟨rfl, rfl⟩) ?_
    (fun x z => stitched_append count x z ▸ List.prefix_append _ _)
    (C09_stitcher_marks count hc)
  intro i hs n hv hr
  have h := hs n
  simp only [Circuit.wave, Circuit.st_succ] at *
  generalize (stitcher (α := α) count).st i n = s at *
  have g := h hv hr
  have e : (stitcher count).next s (i n) = s := by simp [stitcher, hr]
  rw [e]
  simp only [stitcher, g.2]
  exact ⟨g.1, trivial⟩

theorem stage_bound {α : Type} (count : Nat) (hc : 1 ≤ count) :
    StageGood (lastInserter count : Circuit _ (SIn α) (SOut α)) (fun x y => y = boundPackets count 0 x) := by
  refine good_wired _ (boundPackets count 0) (fun _ _ => ⟨rfl, rfl⟩) (fun _ _ _ _ _ => ⟨rfl, rfl⟩) ?_ (bound_append count 0)
    (C12_lastinserter_marks count hc)
  intro i hs n hv hr
  have h := hs n
  simp only [Circuit.wave, Circuit.st_succ] at *
  generalize (lastInserter (α := α) count).st i n = s at *
  have g := h hv hr
  have e : (lastInserter count).next s (i n) = s := by simp [lastInserter, hr]
  rw [e]
  simp only [lastInserter, g.2]
  exact ⟨g.1, trivial⟩

theorem groups_append {α : Type} (r : Nat) (x z : List (Beat α)) : (groups r x).1 <+: (groups r (x ++ z)).1 := by
  have key : ∀ (z : List (Beat α)) (g : List (List (Beat α)) × List (Beat α)), g.1 <+: (z.foldl (groupStep r) g).1 := by
    intro z
    induction z with
    | nil => intro g; exact List.prefix_refl _
    | cons b z ih =>
      intro g
      refine List.IsPrefix.trans ?_ (ih _)
      rw [groupStep]
      split
      · exact List.prefix_append _ _
      · exact List.prefix_refl _
  rw [groups, groups, List.foldl_append]
  exact key z _

/-- Every sequence of beats can be packed: the converter does it. -/
theorem packs_exists (w r : Nat) (rev : Bool) (hr : 2 ≤ r) (x : List (Beat (BitVec w))) :
    ∃ y : List (Beat (BitVec (r * w))), List.Forall₂ (Packs r rev) y (groups r x).1 := by
  let i : Nat → SIn (BitVec w) := fun k => ⟨decide (k < x.length), x.getD k ⟨false, false, 0⟩, true⟩
  have key : ∀ n, n ≤ x.length → accepted (upConverter w (r * w) r rev) i n = x.take n := by
    intro n
    induction n with
    | zero => intro _; simp [accepted, transferred]
    | succ n ih =>
      intro h
      have hw : ((upConverter w (r * w) r rev).out ((upConverter w (r * w) r rev).st i n) (i n)).ready = true :=
        (C03_upconverter_ready rev i n).2 (.inr rfl)
      have hv : (i n).valid = true := decide_eq_true (by omega)
      have hb : (i n).beat = x[n]'(by omega) := by
        change x.getD n _ = _
        rw [List.getD_eq_getElem?_getD, List.getElem?_eq_getElem (by omega)]; rfl
      rw [accepted_succ, ih (by omega), hw, hv, hb, List.take_succ_eq_append_getElem (by omega)]
      rfl
  have := (C03_upconverter_packs rev hr rfl i x.length).1
  rw [key _ (Nat.le_refl _), List.take_length] at this
  exact ⟨_, this⟩

theorem stage_up (w r : Nat) (rev : Bool) (hr : 2 ≤ r) :
    StageGood (upConverter w (r * w) r rev) (fun x y => List.Forall₂ (Packs r rev) y (groups r x).1) := by
  have less : ∀ (x x' : List (Beat (BitVec w))) (y' : List (Beat (BitVec (r * w)))),
      List.Forall₂ (Packs r rev) y' (groups r x').1 → x <+: x' → ∃ y, y <+: y' ∧ List.Forall₂ (Packs r rev) y (groups r x).1 := by
    rintro x x' y' h ⟨z, rfl⟩
    refine ⟨y'.take (groups r x).1.length, List.take_prefix _ _, ?_⟩
    have := List.forall₂_take (groups r x).1.length h
    rwa [← List.prefix_iff_eq_take.1 (groups_append r x z)] at this
  have more : ∀ (x : List (Beat (BitVec w))) (y : List (Beat (BitVec (r * w)))) (x' : List (Beat (BitVec w))),
      List.Forall₂ (Packs r rev) y (groups r x).1 → x <+: x' → ∃ y', y <+: y' ∧ List.Forall₂ (Packs r rev) y' (groups r x').1 := by
    rintro x y x' h ⟨z, rfl⟩
    obtain ⟨t, ht⟩ := groups_append r x z
    obtain ⟨Y, hY⟩ := packs_exists w r rev hr (x ++ z)
    have hd := List.forall₂_drop (groups r x).1.length hY
    rw [← ht, List.drop_left] at hd
    exact ⟨y ++ Y.drop (groups r x).1.length, List.prefix_append _ _, ht ▸ List.rel_append h hd⟩
  refine ⟨up_readyIndep w (r * w) r rev, fun i _ => C03_upconverter_stable rev i, ?_, more, less, ?_, ?_⟩
  · intro i hs n
    obtain ⟨y, ⟨q, e⟩, h⟩ := more _ _ (presented (upConverter w (r * w) r rev) i n) (C03_upconverter_packs rev hr rfl i n).1
      (List.prefix_append _ _)
    exact ⟨q, by rw [shown, e]; exact h⟩
  · intro i hs ht
    refine takes_of (fun n h1 h2 => (hs n h1 h2).1) fun n _ => ?_
    cases hv : ((upConverter w (r * w) r rev).wave i n).valid with
    | false => exact ⟨n, Nat.le_refl n, (C03_upconverter_ready rev i n).2 (.inl hv)⟩
    | true =>
      obtain ⟨m, hm, _, h⟩ := ht n hv
      exact ⟨m, hm, (C03_upconverter_ready rev i m).2 (.inr h)⟩
  · intro i hs ht n
    have hlen : ∃ m, n ≤ m ∧ (groups r (accepted (upConverter w (r * w) r rev) i n)).1.length
        ≤ (delivered (upConverter w (r * w) r rev) i m).length := by
      have h3 := (C03_upconverter_packs rev hr rfl i n).1.length_eq
      rw [List.length_append] at h3
      cases hv : ((upConverter w (r * w) r rev).wave i n).valid with
      | false =>
        rw [hv] at h3
        exact ⟨n, Nat.le_refl n, by rw [← h3]; simp⟩
      | true =>
        obtain ⟨m, hm, h1, h2⟩ := ht n hv
        have := transferred_grows (fun k => ((upConverter w (r * w) r rev).wave i k).valid) (fun k => (i k).ready)
          (fun k => ((upConverter w (r * w) r rev).wave i k).beat) hm h1 h2
        change (delivered (upConverter w (r * w) r rev) i n).length < (delivered (upConverter w (r * w) r rev) i (m + 1)).length at this
        rw [hv] at h3
        simp only [if_true, List.length_cons, List.length_nil] at h3
        exact ⟨m + 1, by omega, by omega⟩
    obtain ⟨m, hm, hle⟩ := hlen
    obtain ⟨y, hy, h⟩ := less _ _ _ (C03_upconverter_packs rev hr rfl i m).1 (accepted_mono _ i hm)
    exact ⟨m, y, h, List.prefix_of_prefix_length_le hy (List.prefix_append _ _) (by rw [h.length_eq]; exact hle)⟩

theorem stage_down (w r : Nat) (rev : Bool) (hr : 2 ≤ r) :
    StageGood (downConverter (r * w) w r rev) (fun x y => y = x.flatMap (chunks w r rev)) := by
  have pre : ∀ x z : List (Beat (BitVec (r * w))), x.flatMap (chunks w r rev) <+: (x ++ z).flatMap (chunks w r rev) := by
    intro x z
    rw [List.flatMap_append]
    exact List.prefix_append _ _
  refine ⟨down_readyIndep (r * w) w r rev, fun i hs => C04_downconverter_stable rev i hs,
    show_of_delivered _ (R := fun x y => y = x.flatMap (chunks w r rev)) (fun _ _ _ _ _ => ⟨rfl, rfl⟩) ?_, (more_of_fun _ pre).1, (more_of_fun _ pre).2, ?_, ?_⟩
  · intro i hs n
    obtain ⟨k, _, hv, e⟩ := C04_downconverter_serialises (wt := w) rev hr i hs n
    rw [e, presented, List.flatMap_append]
    cases hvn : (i n).valid with
    | true => exact ⟨(chunks w r rev (i n).beat).drop k, by simp⟩
    | false =>
      have : k = 0 := by
        rcases Nat.eq_zero_or_pos k with h | h
        · exact h
        · rw [hvn] at hv; exact absurd (hv h) (by simp)
      exact ⟨[], by simp [this]⟩
  · intro i hs ht
    refine takes_of (fun n h1 h2 => (hs n h1 h2).1) fun n hv => ?_
    refine down_accepts rev hr i hs (fun a => ?_) n (hv n (Nat.le_refl n))
    obtain ⟨m, hm, _, h⟩ := ht (max a n) (hv _ (by omega))
    exact ⟨m, by omega, h⟩
  · intro i hs _ n
    obtain ⟨k, _, _, e⟩ := C04_downconverter_serialises (wt := w) rev hr i hs n
    exact ⟨n, _, rfl, by rw [e]; exact List.prefix_append _ _⟩

/-- The product as a beat. -/
def multBeat {wa wb : Nat} (sa sb : Bool) (a : Beat (BitVec (wa + wb))) : Beat (BitVec (wa + wb)) :=
  ⟨a.first, a.last, multiply sa sb (a.payload.extractLsb' 0 wa, a.payload.extractLsb' wa wb)⟩

theorem mult_order (wa wb : Nat) (sa sb : Bool) (i : Nat → SIn (BitVec (wa + wb))) (n : Nat) :
    (accepted (multStage wa wb sa sb) i n).map (multBeat sa sb) = delivered (multStage wa wb sa sb) i n ++
      (if ((multStage wa wb sa sb).wave i n).valid then [((multStage wa wb sa sb).wave i n).beat] else []) := by
  refine stream_induct (multStage wa wb sa sb)
    (fun A D s => A.map (multBeat sa sb) = D ++ if s.valid then [s.beat] else []) ?_ ?_ i n
  · simp [multStage, multiplier]
  · rintro A D s x h
    cases h1 : s.valid <;> cases h2 : x.valid <;> cases h3 : x.ready <;>
      simp_all [multStage, multStage.multWord, multiplier, multBeat]

theorem stage_mult (wa wb : Nat) (sa sb : Bool) :
    StageGood (multStage wa wb sa sb) (fun x y => List.Forall₂ (Multiplies wa wb sa sb) x y) := by
  refine good_map _ (multBeat sa sb) _ ?_ (fun _ _ _ _ _ _ => rfl) (fun _ _ _ _ _ => ⟨rfl, rfl⟩) ?_
    (fun i n => ⟨_, mult_order wa wb sa sb i n⟩) ?_ ?_
  · intro a
    refine ⟨rfl, rfl, (C24_product_exact sa sb _).trans ?_⟩
    have e1 : a.payload.extractLsb' 0 wa = BitVec.ofNat wa a.payload.toNat := by
      apply BitVec.eq_of_toNat_eq; simp
    have e2 : a.payload.extractLsb' wa wb = BitVec.ofNat wb (a.payload.toNat / 2 ^ wa) := by
      apply BitVec.eq_of_toNat_eq; simp [Nat.shiftRight_eq_div_pow]
    rw [e1, e2]
  · intro i _ n
    simp only [Circuit.wave, Circuit.st_succ]
    generalize (multStage wa wb sa sb).st i n = s
    intro hv hr
    simp_all [multStage, multStage.multWord, multiplier]
  · intro i n
    simp only [Circuit.wave]
    generalize (multStage wa wb sa sb).st i n = s
    simp [multStage, multStage.multWord, multiplier]
  · intro i n h
    have e := congrArg List.length (mult_order wa wb sa sb i n)
    rw [List.length_map, List.length_append] at e
    cases hv : ((multStage wa wb sa sb).wave i n).valid with
    | true => exact ⟨n, Nat.le_refl n, hv⟩
    | false => rw [hv] at e; simp at e; omega

theorem stage_float : StageGood int2float (fun x y => List.Forall₂ Floats x y) := by
  refine good_map _ (fun b => ⟨false, b.last, i2f b.payload⟩) _ ?_ (fun _ _ _ _ _ _ => rfl) (fun _ _ _ _ _ => ⟨rfl, rfl⟩)
    (fun i _ => (C27_int2float_stable i).1) (fun i n => ⟨_, i2f_inv i n⟩) (fun i n => (C27_int2float_stable i).2 n) ?_
  · exact fun a => ⟨rfl, rfl, fun hx => (C26_int2float_rounds_partial a.payload hx).1,
      fun hx => (congrArg i2f hx).trans (by decide)⟩
  · intro i n h
    have e := congrArg List.length (i2f_inv i n)
    rw [List.length_map, List.length_append] at e
    cases hv : (int2float.wave i n).valid with
    | true => exact ⟨n, Nat.le_refl n, hv⟩
    | false =>
      refine ⟨n + 1, Nat.le_succ n, ?_⟩
      simp only [Circuit.wave, Circuit.st_succ] at hv ⊢
      generalize int2float.st i n = s at *
      have hv2 : s.v2 = false := hv
      cases h1 : s.v1 with
      | true => simp [int2float, hv2, h1]
      | false => simp [i2fInFlight, hv2, h1] at e; omega

section Filter
variable (c : IirCfg) (i : Nat → SIn (BitVec c.width))

/-- The inputs of the filter. -/
def iirStageIn (k : Nat) : IirIntIn := iirStage.iirBits c (i k)

theorem iirStage_st (n : Nat) : (iirStage c).st i n = (iirInt c).st (iirStageIn c i) n := by
  induction n with
  | zero => rfl
  | succ n ih => rw [Circuit.st_succ, Circuit.st_succ, ih]; rfl

theorem iirStage_wave (n : Nat) : (iirStage c).wave i n =
    ⟨((iirInt c).wave (iirStageIn c i) n).ready, ((iirInt c).wave (iirStageIn c i) n).valid,
      ⟨((iirInt c).wave (iirStageIn c i) n).first, ((iirInt c).wave (iirStageIn c i) n).last,
        BitVec.ofInt c.width ((iirInt c).wave (iirStageIn c i) n).data⟩⟩ := by
  rw [Circuit.wave, iirStage_st]; rfl

/-- A beat as a sample and back. -/
def beatSample (b : Beat (BitVec c.width)) : IirSample := ⟨b.first, b.last, b.payload.toInt⟩
def sampleBeat (s : IirSample) : Beat (BitVec c.width) := ⟨s.first, s.last, BitVec.ofInt c.width s.data⟩

theorem iirStage_lists (n : Nat) : (accepted (iirStage c) i n).map (beatSample c) = iirIntAccepted c (iirStageIn c i) n ∧
    (iirIntDelivered c (iirStageIn c i) n).map (sampleBeat c) = delivered (iirStage c) i n := by
  induction n with
  | zero => exact ⟨rfl, rfl⟩
  | succ n ih =>
    have e1 : accepted (iirStage c) i (n + 1) = accepted (iirStage c) i n ++
      (if (i n).valid && ((iirStage c).wave i n).ready then [(i n).beat] else []) := rfl
    have e2 : delivered (iirStage c) i (n + 1) = delivered (iirStage c) i n ++
      (if ((iirStage c).wave i n).valid && (i n).ready then [((iirStage c).wave i n).beat] else []) := rfl
    rw [e1, e2, iirStage_wave, iirIntAccepted, iirIntDelivered, transferred_succ, transferred_succ]
    refine ⟨?_, ?_⟩
    · rw [List.map_append, ih.1]
      refine congrArg _ ?_
      change List.map _ (if (i n).valid && _ then _ else _) = if (i n).valid && _ then _ else _
      split <;> rfl
    · rw [List.map_append, ← ih.2]
      refine congrArg _ ?_
      change List.map _ (if _ && (i n).ready then _ else _) = if _ && (i n).ready then _ else _
      split <;> rfl

theorem filtered_eq (x : List (Beat (BitVec c.width))) :
    filtered c x = (iirExpect c (x.map (beatSample c))).map (sampleBeat c) := by
  rw [iirExpect, List.map_zipWith, List.zipWith_map_left, List.map_map]
  rfl

theorem run_length (e : DiffEq) (l : List Int) : (e.run l).2.length = l.length := by
  induction l using List.reverseRecOn with
  | nil => rfl
  | append_singleton l d ih => rw [DiffEq.run_snoc]; simp [ih]

theorem filtered_length (x : List (Beat (BitVec c.width))) : (filtered c x).length = x.length := by
  rw [filtered, List.length_zipWith, run_length, List.length_map, Nat.min_self]

theorem filtered_append (x z : List (Beat (BitVec c.width))) : filtered c x <+: filtered c (x ++ z) := by
  induction z using List.reverseRecOn with
  | nil => exact (List.append_nil x).symm ▸ List.prefix_refl _
  | append_singleton z b ih =>
    refine ih.trans ?_
    rw [← List.append_assoc, filtered_eq, filtered_eq]
    generalize x ++ z = y
    rw [List.map_append, List.map_cons, List.map_nil, iirExpect_snoc, List.map_append]
    exact List.prefix_append _ _

/-- A filter that is at work has accepted a sample and not given it away since. -/
theorem iir_busy (n : Nat) (h : ((iirStage c).wave i n).ready = false) :
    ∃ a, a < n ∧ (i a).valid = true ∧ ((iirStage c).wave i a).ready = true ∧
      ∀ m, a < m → m ≤ n → ((iirStage c).wave i m).ready = false := by
  induction n with
  | zero =>
    have e : ((iirStage c).wave i 0).ready = true := rfl
    rw [e] at h
    cases h
  | succ n ih =>
    cases hr : ((iirStage c).wave i n).ready with
    | false =>
      obtain ⟨a, h1, h2, h3, h4⟩ := ih hr
      refine ⟨a, by omega, h2, h3, fun m g1 g2 => ?_⟩
      rcases Nat.lt_or_ge n m with g | g
      · rw [show m = n + 1 by omega]; exact h
      · exact h4 m g1 g
    | true =>
      refine ⟨n, Nat.lt_succ_self n, ?_, hr, fun m g1 g2 => by rw [show m = n + 1 by omega]; exact h⟩
      rw [iirStage_wave] at h hr
      simp only [Circuit.wave, Circuit.st_succ] at h hr
      generalize (iirInt c).st (iirStageIn c i) n = s at *
      have hst : s.1.st = .idle := by simpa [iirInt, iir] using hr
      cases hv : (i n).valid with
      | true => rfl
      | false => simp [iirInt, iir, hst, iirMult, iirStageIn, iirStage.iirBits, hv] at h

theorem iir_given (n : Nat) (hv : ((iirStage c).wave i n).valid = true) :
    ((i n).ready = true → ((iirStage c).wave i (n + 1)).ready = true) ∧
    ((i n).ready = false → ((iirStage c).wave i (n + 1)).valid = true) := by
  rw [iirStage_wave] at hv ⊢
  simp only [Circuit.wave, Circuit.st_succ] at hv ⊢
  generalize (iirInt c).st (iirStageIn c i) n = s at *
  have hst : s.1.st = .output := by simpa [iirInt, iir] using hv
  refine ⟨fun h => ?_, fun h => ?_⟩ <;> simp [iirInt, iir, hst, iirMult, iirStageIn, iirStage.iirBits, h]

/-- A filter that is at work offers a sample at some time. -/
theorem iir_offers (ho : IirOk c) (n : Nat) (h : ((iirStage c).wave i n).ready = false) :
    ∃ m, n ≤ m ∧ ((iirStage c).wave i m).valid = true := by
  obtain ⟨a, h1, h2, h3, h4⟩ := iir_busy c i n h
  have hv : ((iirStage c).wave i (a + 2 * c.size + 2)).valid = true := by
    rw [iirStage_wave]
    exact (C45_latency c (iirStageIn c i) ho a (by rw [iirStage_wave] at h3; exact h3) h2).1
  rcases Nat.le_total n (a + 2 * c.size + 2) with g | g
  · exact ⟨_, g, hv⟩
  · refine ⟨n, Nat.le_refl n, ?_⟩
    clear h
    induction n, g using Nat.le_induction with
    | base => exact hv
    | succ n g ih =>
      have hvn := ih (by omega) (fun m g1 g2 => h4 m g1 (by omega))
      cases hr : (i n).ready with
      | false => exact (iir_given c i n hvn).2 hr
      | true => exact absurd ((iir_given c i n hvn).1 hr) (by rw [h4 (n + 1) (by omega) (Nat.le_refl _)]; simp)

end Filter

theorem stage_filter (c : IirCfg) (h : (StreamStage.filter c).Ok) : StageGood (iirStage c) (fun x y => y = filtered c x) := by
  obtain ⟨⟨hw, hws, hwc⟩, ⟨hl, hs⟩, hc⟩ := h
  have ho : IirOk c := ⟨hw, hws, hl, hs⟩
  have hb : ∀ v ∈ c.b, InSigned c.wc v := fun v hv => hc v (List.mem_append_left _ hv)
  have ha : ∀ v ∈ c.a, InSigned c.wc v := fun v hv => hc v (List.mem_append_right _ hv)
  have hx : ∀ (i : Nat → SIn (BitVec c.width)) n, InSigned c.width (iirStageIn c i n).sample.data := by
    intro i n
    exact ⟨BitVec.le_toInt _, BitVec.toInt_lt⟩
  have order : ∀ i n, ∃ q, filtered c (accepted (iirStage c) i n) = delivered (iirStage c) i n ++ q ∧
      q.length = if ((iirStage c).wave i n).ready then 0 else 1 := by
    intro i n
    obtain ⟨p, h1, h2, _⟩ := C45_filter c (iirStageIn c i) ho hwc hb ha (hx i) n
    refine ⟨p.map (sampleBeat c), ?_, ?_⟩
    · rw [filtered_eq, (iirStage_lists c i n).1, h1, List.map_append, (iirStage_lists c i n).2]
    · rw [List.length_map, h2, iirStage_wave]
  have offers : ∀ i n, (delivered (iirStage c) i n).length < (accepted (iirStage c) i n).length →
      ∃ m, n ≤ m ∧ ((iirStage c).wave i m).valid = true := by
    intro i n g
    obtain ⟨q, h1, h2⟩ := order i n
    have h3 := congrArg List.length h1
    rw [filtered_length, List.length_append] at h3
    refine iir_offers c i ho n ?_
    cases hr : ((iirStage c).wave i n).ready with
    | false => rfl
    | true => rw [hr] at h2; simp at h2; rw [h2] at h3; simp at h3; omega
  refine ⟨?_, ?_, show_of_delivered _ (R := fun x y => y = filtered c x) ?_ ?_, (more_of_fun _ (filtered_append c)).1,
    (more_of_fun _ (filtered_append c)).2, ?_, ?_⟩
  · intro s v v' b b' r
    rfl
  · intro i _ n hv hr
    have g := C45_stable c (iirInner c (iirStageIn c i)) ho (hx i)
      (iirInt_contract c _ (Nat.lt_of_lt_of_le hw hws) hwc hb ha) n
    beta_reduce at hv g ⊢
    rw [iirStage_wave] at hv
    rw [iirStage_wave, iirStage_wave]
    simp only [← iirInt_wave] at g
    have g' := g hv hr
    simp only [Prod.mk.injEq] at g'
    refine ⟨g'.1, ?_⟩
    simp only [g'.2.1, g'.2.2.1, g'.2.2.2]
  · intro s v b r r'
    exact ⟨rfl, rfl⟩
  · intro i _ n
    obtain ⟨q, e, _⟩ := order i n
    obtain ⟨z, ez⟩ := filtered_append c (accepted (iirStage c) i n) (if (i n).valid then [(i n).beat] else [])
    exact ⟨q ++ z, by rw [presented, ← ez, e, List.append_assoc]⟩
  · intro i hs ht
    refine takes_of (fun n h1 h2 => (hs n h1 h2).1) fun n _ => ?_
    cases hr : ((iirStage c).wave i n).ready with
    | true => exact ⟨n, Nat.le_refl n, hr⟩
    | false =>
      obtain ⟨m, hm, hv⟩ := iir_offers c i ho n hr
      obtain ⟨m2, h2, h3, h4⟩ := ht m hv
      exact ⟨m2 + 1, by omega, (iir_given c i m2 h3).1 h4⟩
  · intro i _ ht n
    obtain ⟨m, g⟩ := takes_delivers _ (filtered c) (filtered_append c) (filtered_length c) i
      (fun n => (order i n).imp fun _ g => g.1) ht (offers i) n
    exact ⟨m, _, rfl, g⟩

theorem stage_wire {α : Type} : StageGood (identityConverter : Circuit _ (SIn α) (SOut α)) (fun x y => y = x) :=
  good_wired _ id (fun _ _ => ⟨rfl, rfl⟩) (fun _ _ _ _ _ => ⟨rfl, rfl⟩) (fun _ h => h) (fun x z => List.prefix_append x z)
    (fun i n => (C06_identity i n).symm)

theorem stage_chain {σ τ α β γ : Type} [Inhabited β] (c1 : Circuit σ (SIn α) (SOut β)) (c2 : Circuit τ (SIn β) (SOut γ))
    {R1 : List (Beat α) → List (Beat β) → Prop} {R2 : List (Beat β) → List (Beat γ) → Prop}
    (h1 : StageGood c1 R1) (h2 : StageGood c2 R2) : StageGood (chain c1 c2) (fun x y => ∃ z, R1 x z ∧ R2 z y) := by
  have in2 : ∀ i n, (chainIn2 c1 c2 i n).valid = (c1.wave (chainIn1 c1 c2 i) n).valid ∧
      (chainIn2 c1 c2 i n).beat = (c1.wave (chainIn1 c1 c2 i) n).beat := by
    intro i n
    have e : c1.st (chainIn1 c1 c2 i) n = ((chain c1 c2).st i n).1 := by rw [chain_st]
    simp only [Circuit.wave, e]
    exact ⟨rfl, rfl⟩
  have st2 : ∀ i, SinkStable (chain c1 c2) i → SinkStable c2 (chainIn2 c1 c2 i) := fun i hs =>
    chain_middle_stable c1 c2 i h2.indep (h1.stable _ (chain_sinkStable c1 c2 i hs))
  have t2 : ∀ i, Takes (fun k => ((chain c1 c2).wave i k).valid) (fun k => (i k).ready) →
      Takes (fun k => (c2.wave (chainIn2 c1 c2 i) k).valid) (fun k => (chainIn2 c1 c2 i k).ready) := by
    intro i ht n hv
    obtain ⟨m, hm, g1, g2⟩ := ht n ((chain_wave2 c1 c2 i n).1.trans hv)
    exact ⟨m, hm, (chain_wave2 c1 c2 i m).1.symm.trans g1, g2⟩
  have t1 : ∀ i, SinkStable (chain c1 c2) i → Takes (fun k => ((chain c1 c2).wave i k).valid) (fun k => (i k).ready) →
      Takes (fun k => (c1.wave (chainIn1 c1 c2 i) k).valid) (fun k => (chainIn1 c1 c2 i k).ready) := by
    intro i hs ht n hv
    obtain ⟨m, hm, g1, g2⟩ := h2.accepts _ (st2 i hs) (t2 i ht) n ((in2 i n).1.trans hv)
    exact ⟨m, hm, (in2 i m).1.symm.trans g1, (chain_middle_ready c1 c2 i h2.indep m).symm.trans g2⟩
  refine ⟨fun s v v' b b' r => h1.indep _ _ _ _ _ _, ?_, ?_, ?_, ?_, ?_, ?_⟩
  · intro i hs n hv hr
    have e := chain_wave2 c1 c2 i
    have := h2.stable _ (st2 i hs) n ((e n).1.symm.trans hv) hr
    exact ⟨(e (n + 1)).1.trans this.1, (e (n + 1)).2.trans (this.2.trans (e n).2.symm)⟩
  · intro i hs n
    obtain ⟨q1, g1⟩ := h1.safe _ (chain_sinkStable c1 c2 i hs) n
    obtain ⟨q2, g2⟩ := h2.safe _ (st2 i hs) n
    have e1 : presented (chain c1 c2) i n = presented c1 (chainIn1 c1 c2 i) n := by
      rw [presented, presented, chain_accepted]; rfl
    have e2 : presented c2 (chainIn2 c1 c2 i) n = shown c1 (chainIn1 c1 c2 i) n := by
      rw [presented, shown, chain_middle c1 c2 i h2.indep, (in2 i n).1, (in2 i n).2]
    have e3 : shown (chain c1 c2) i n = shown c2 (chainIn2 c1 c2 i) n := by
      rw [shown, shown, chain_delivered, (chain_wave2 c1 c2 i n).1, (chain_wave2 c1 c2 i n).2]
    rw [e2] at g2
    obtain ⟨y, ⟨q, e⟩, g3⟩ := h2.more _ _ _ g2 (List.prefix_append _ q1)
    refine ⟨q2 ++ q, _, e1 ▸ g1, ?_⟩
    rw [e3, ← List.append_assoc, e]
    exact g3
  · rintro x y x' ⟨z, g1, g2⟩ hx
    obtain ⟨z', hz, g3⟩ := h1.more _ _ _ g1 hx
    obtain ⟨y', hy, g4⟩ := h2.more _ _ _ g2 hz
    exact ⟨y', hy, z', g3, g4⟩
  · rintro x x' y' ⟨z', g1, g2⟩ hx
    obtain ⟨z, hz, g3⟩ := h1.less _ _ _ g1 hx
    obtain ⟨y, hy, g4⟩ := h2.less _ _ _ g2 hz
    exact ⟨y, hy, z, g3, g4⟩
  · intro i hs ht n hv
    obtain ⟨m, hm, g1, g2⟩ := h1.accepts _ (chain_sinkStable c1 c2 i hs) (t1 i hs ht) n hv
    exact ⟨m, hm, g1, (chain_wave1 c1 c2 i m).trans g2⟩
  · intro i hs ht n
    obtain ⟨m1, z, g1, hz⟩ := h1.delivers _ (chain_sinkStable c1 c2 i hs) (t1 i hs ht) n
    obtain ⟨m2, y2, g2, hy2⟩ := h2.delivers _ (st2 i hs) (t2 i ht) m1
    rw [chain_middle c1 c2 i h2.indep] at hz
    obtain ⟨y, hy, g3⟩ := h2.less _ _ _ g2 hz
    refine ⟨m2, y, ⟨z, by rw [chain_accepted]; exact g1, g3⟩, ?_⟩
    rw [chain_delivered]
    exact hy.trans hy2

theorem stage_good {a b : Nat} (s : StreamStage a b) (h : s.Ok) : StageGood s.circuit s.Makes := by
  cases s with
  | part p =>
    cases p with
    | valid => exact stage_valid
    | ready => exact stage_ready
    | fifo f d => exact stage_fifo f h
  | stitch count => exact stage_stitch count h
  | bound count => exact stage_bound count h
  | up _ r rev => exact stage_up _ r rev h
  | down _ r rev => exact stage_down _ r rev h
  | mult wa wb sa sb => exact stage_mult wa wb sa sb
  | float => exact stage_float
  | filter c => exact stage_filter c h

theorem stages_good {a b : Nat} (l : StreamStages a b) (h : l.Ok) : StageGood l.circuit l.Makes := by
  induction l with
  | nil => exact stage_wire
  | cons s l ih => exact stage_chain s.circuit l.circuit (stage_good s h.1) (ih h.2)

/-- C123 (order): what is on offer and delivered at the end of a chain is the beginning of what its components make of the beats
presented to it. -/
theorem C123_order {a b : Nat} (l : StreamStages a b) (h : l.Ok) (i : Nat → SIn (BitVec a)) (hs : SinkStable l.circuit i)
    (n : Nat) : ∃ q, l.Makes (presented l.circuit i n) (shown l.circuit i n ++ q) :=
  (stages_good l h).safe i hs n

/-- C123 (arrival): if the receiver takes what is offered at some time, everything that the components make of the beats
accepted is delivered at some time. -/
theorem C123_arrives {a b : Nat} (l : StreamStages a b) (h : l.Ok) (i : Nat → SIn (BitVec a)) (hs : SinkStable l.circuit i)
    (ht : Takes (fun k => (l.circuit.wave i k).valid) (fun k => (i k).ready)) (n : Nat) :
    ∃ m y, l.Makes (accepted l.circuit i n) y ∧ y <+: delivered l.circuit i m :=
  (stages_good l h).delivers i hs ht n

/-- C123 (acceptance): if the receiver takes what is offered at some time, the chain takes every beat offered to it at some time. -/
theorem C123_accepts {a b : Nat} (l : StreamStages a b) (h : l.Ok) (i : Nat → SIn (BitVec a)) (hs : SinkStable l.circuit i)
    (ht : Takes (fun k => (l.circuit.wave i k).valid) (fun k => (i k).ready)) :
    Takes (fun k => (i k).valid) (fun k => (l.circuit.wave i k).ready) :=
  (stages_good l h).accepts i hs ht

/-- C123 (stability): a beat offered at the end stays, unchanged, until it is taken. -/
theorem C123_stable {a b : Nat} (l : StreamStages a b) (h : l.Ok) (i : Nat → SIn (BitVec a)) (hs : SinkStable l.circuit i) :
    SourceStable l.circuit i :=
  (stages_good l h).stable i hs

theorem parts_makes {a b : Nat} (l : StreamStages a b) (ps : List (StreamPart a)) (x : List (Beat (BitVec a)))
    (y : List (Beat (BitVec b))) : (l.parts ps).Makes x y ↔ l.Makes x y := by
  induction ps with
  | nil => exact Iff.rfl
  | cons p ps ih =>
    constructor
    · rintro ⟨z, rfl, h⟩
      exact ih.1 h
    · exact fun h => ⟨x, rfl, ih.2 h⟩

/-- C123 (there and back): words split, passed through any slices and FIFOs and put together again with the same ratio and lane
order arrive unchanged: those on offer and delivered are the first of those presented, and all accepted are delivered. -/
theorem C123_there_and_back (w r : Nat) (rev : Bool) (ps : List (StreamPart w))
    (h : StreamStages.Ok (.cons (.down w r rev) ((StreamStages.cons (.up w r rev) .nil).parts ps)))
    (i : Nat → SIn (BitVec (r * w)))
    (hs : SinkStable (StreamStages.circuit (.cons (.down w r rev) ((StreamStages.cons (.up w r rev) .nil).parts ps))) i) :
    let c := StreamStages.circuit (.cons (.down w r rev) ((StreamStages.cons (.up w r rev) .nil).parts ps))
    (∀ n, shown c i n <+: presented c i n) ∧
    (Takes (fun k => (c.wave i k).valid) (fun k => (i k).ready) → ∀ n, ∃ m, accepted c i n <+: delivered c i m) := by
  have hr : 2 ≤ r := h.1
  have key : ∀ x y, StreamStages.Makes (.cons (.down w r rev) ((StreamStages.cons (.up w r rev) .nil).parts ps)) x y → y = x := by
    rintro x y ⟨z, rfl, g⟩
    obtain ⟨y', g, rfl⟩ := (parts_makes _ ps _ _).1 g
    change List.Forall₂ (Packs r rev) y (groups r (x.flatMap (chunks w r rev))).1 at g
    rw [groups_flatMap_chunks (by omega), List.forall₂_map_right_iff] at g
    have h4 : List.Forall₂ (fun (x b : Beat (BitVec (r * w))) => x = b) y x :=
      g.imp (fun _ _ h => eq_of_packs_chunks (by omega) rfl h)
    rwa [List.forall₂_eq_eq_eq] at h4
  refine ⟨fun n => ?_, fun ht n => ?_⟩
  · obtain ⟨q, g⟩ := C123_order _ h i hs n
    exact ⟨q, key _ _ g⟩
  · obtain ⟨m, y, g, hy⟩ := C123_arrives _ h i hs ht n
    exact ⟨m, key _ _ g ▸ hy⟩

/-- The reference FIFO meets what is assumed of a FIFO. -/
theorem C123_fifo_serves (w depth : Nat) (hd : 1 ≤ depth) : FifoServes (queueFifo w depth) depth where
  contract := C08_fifo_contract_inhabited w depth
  live := C101_live_inhabited w depth
  registered := fun _ _ _ => rfl
  room := by
    intro i ht n
    refine Classical.byContradiction fun hno => ?_
    have full : ∀ m, n ≤ m → depth ≤ ((queueFifo w depth).st i m).length := by
      intro m hm
      refine Nat.le_of_not_lt fun h => hno ⟨m, hm, ?_⟩
      simp only [Circuit.wave, queueFifo] at h ⊢
      exact decide_eq_true h
    obtain ⟨m, hm, h1, h2⟩ := ht n (by
      have := full n (Nat.le_refl n)
      simp only [Circuit.wave]
      generalize (queueFifo w depth).st i n = q at *
      cases q with
      | nil => simp at this; omega
      | cons x q => rfl)
    have le : ((queueFifo w depth).st i m).length ≤ depth := by
      clear h1 h2 hm
      induction m with
      | zero => exact Nat.zero_le _
      | succ m ih =>
        rw [Circuit.st_succ]
        generalize (queueFifo w depth).st i m = q at *
        have : q.tail.length ≤ q.length := by simp
        by_cases h : q.length < depth
        · cases hw : (i m).wEn <;> cases hr : (i m).rEn <;> simp [queueFifo, h, hw, hr] <;> omega
        · cases hw : (i m).wEn <;> cases hr : (i m).rEn <;> simp [queueFifo, h, hw, hr] <;> omega
    have h3 := full m hm
    have h4 := full (m + 1) (by omega)
    rw [Circuit.st_succ] at h4
    simp only [Circuit.wave] at h1
    generalize (queueFifo w depth).st i m = q at *
    cases q with
    | nil => simp at h3; omega
    | cons x q =>
      have : ¬ (x :: q).length < depth := by omega
      simp only [queueFifo, h2, if_true, List.tail_cons, this, decide_false, Bool.and_false] at h4
      simp at h4 le h3
      omega

/-! Concrete cases. -/

/-- 16-bit words through bytes: split, FIFO, slice, put together, and every second packet marked. -/
def stagesDemo : StreamStages (2 * 8) (2 * 8) :=
  .cons (.down 8 2 false) (.cons (.part (.fifo (queueFifo (1 + (1 + 8)) 2) 2)) (.cons (.part .ready)
    (.cons (.up 8 2 false) (.cons (.stitch 2) .nil))))

/-- Two packets of one word each; the receiver is ready in two of three cycles. -/
def stagesIn (k : Nat) : SIn (BitVec (2 * 8)) :=
  ⟨decide (k < 4), ⟨true, true, if k < 2 then 0x1234 else 0x5678⟩, k % 3 != 0⟩

example : stagesDemo.Ok := ⟨Nat.le_refl 2, C123_fifo_serves _ 2 (by decide), trivial, Nat.le_refl 2, (by decide : 1 ≤ 2), trivial⟩

example : accepted stagesDemo.circuit stagesIn 4 = [⟨true, true, 0x1234⟩, ⟨true, true, 0x5678⟩] := by decide +kernel

example : delivered stagesDemo.circuit stagesIn 12 = [⟨true, false, 0x1234⟩, ⟨false, true, 0x5678⟩] := by decide +kernel

/-- Bytes in pairs, multiplied as signed numbers, and the 16-bit products in pairs as floating point numbers. -/
def stagesSum : StreamStages 8 32 :=
  .cons (.up 8 2 false) (.cons (.mult 8 8 true true) (.cons (.up 16 2 false) (.cons .float .nil)))

/-- Bytes 3, -2 and 5, 0 are -6 and 0, which make the integer 0xfffa. -/
def stagesBytes (k : Nat) : SIn (BitVec 8) := ⟨decide (k < 4), ⟨k == 0, k == 3, [3, 0xfe, 5, 0].getD k 0⟩, true⟩

example : stagesSum.Ok := ⟨Nat.le_refl 2, trivial, Nat.le_refl 2, trivial, trivial⟩

example : delivered stagesSum.circuit stagesBytes 10 = [⟨false, true, 0x477ffa00⟩] := by decide +kernel

/-- 16-bit words as two bytes through the filter of C45. -/
def stagesFilter : StreamStages (2 * 8) 8 := .cons (.down 8 2 false) (.cons (.part .valid) (.cons (.filter iirDemoC) .nil))

example : stagesFilter.Ok := ⟨Nat.le_refl 2, trivial, ⟨⟨by decide, by decide, by decide⟩, ⟨rfl, by decide⟩,
  by simp [iirDemoC]⟩, trivial⟩

example : delivered stagesFilter.circuit (fun k => ⟨true, ⟨k == 0, false, 0x1414⟩, k % 3 == 0⟩) 40 =
    [⟨true, false, 10⟩, ⟨false, false, 25⟩, ⟨false, false, 32⟩, ⟨false, false, 36⟩] := by decide +kernel

end Lambdalib
