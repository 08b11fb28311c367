import Verif.Spec.Pipeline
import Verif.Lemmas.Converter
import Verif.Props.Pipe
import Verif.Props.Layout
import Verif.Props.RegsStream
import Verif.Props.SpiWb

/-! C115: pipelines of register slices and FIFOs of any length. -/

namespace Lambdalib

/-- What one component contributes to a pipeline. -/
structure StreamGood {σ α : Type} (c : Circuit σ (SIn α) (SOut α)) (cap : Nat) : Prop where
  indep : ReadyIndep c
  order : ∀ i n, ∃ q, accepted c i n = delivered c i n ++ q ∧ q.length ≤ cap
  stable : ∀ i, SinkStable c i → SourceStable c i
  accepts : ∀ i, Recurs (fun m => (i m).ready = true) → Recurs (fun m => (c.wave i m).ready = true)
  delivers : ∀ i, Recurs (fun m => (i m).ready = true) → ∀ n, ∃ m,
    (accepted c i n).length ≤ (delivered c i m).length

theorem accepted_mono {σ α β : Type} (c : Circuit σ (SIn α) (SOut β)) (i : Nat → SIn α) {n m : Nat}
    (h : n ≤ m) : accepted c i n <+: accepted c i m := by
  induction m, h using Nat.le_induction with
  | base => exact List.prefix_refl _
  | succ m _ ih => exact ih.trans (accepted_succ c i m ▸ List.prefix_append _ _)

theorem delivered_mono {σ α β : Type} (c : Circuit σ (SIn α) (SOut β)) (i : Nat → SIn α) {n m : Nat}
    (h : n ≤ m) : delivered c i n <+: delivered c i m := by
  induction m, h using Nat.le_induction with
  | base => exact List.prefix_refl _
  | succ m _ ih => exact ih.trans (delivered_succ c i m ▸ List.prefix_append _ _)

/-- A beat on offer is delivered when the receiver is next ready. -/
theorem offered_delivered {σ α β : Type} (c : Circuit σ (SIn α) (SOut β)) (i : Nat → SIn α)
    (hs : SourceStable c i) (hr : Recurs (fun m => (i m).ready = true)) (n : Nat)
    (hv : (c.wave i n).valid = true) : ∃ m, n ≤ m ∧
      (delivered c i n).length < (delivered c i m).length := by
  obtain ⟨m, hm, hrm⟩ := hr n
  obtain ⟨d, rfl⟩ := Nat.exists_eq_add_of_le hm
  clear hm
  induction d generalizing n with
  | zero =>
    refine ⟨n + 1, Nat.le_succ n, ?_⟩
    have hv' : (c.out (c.st i n) (i n)).valid = true := hv
    have hr' : (i n).ready = true := hrm
    rw [delivered_succ, hv', hr']
    simp
  | succ d ih =>
    cases hrn : (i n).ready with
    | true =>
      refine ⟨n + 1, Nat.le_succ n, ?_⟩
      have hv' : (c.out (c.st i n) (i n)).valid = true := hv
      rw [delivered_succ, hv', hrn]
      simp
    | false =>
      obtain ⟨m, h1, h2⟩ := ih (n + 1) (hs n hv hrn).1 (by
        have e : n + 1 + d = n + (d + 1) := by omega
        rw [e]; exact hrm)
      refine ⟨m, by omega, Nat.lt_of_le_of_lt (delivered_mono c i (Nat.le_succ n)).length_le h2⟩

/-- If a component that is ahead always offers a beat at some time, everything accepted is delivered. -/
theorem good_delivers {σ α : Type} (c : Circuit σ (SIn α) (SOut α)) (i : Nat → SIn α)
    (hs : SourceStable c i) (hr : Recurs (fun m => (i m).ready = true))
    (hl : ∀ n, (delivered c i n).length < (accepted c i n).length → ∃ m, n ≤ m ∧ (c.wave i m).valid = true)
    (n : Nat) : ∃ m, (accepted c i n).length ≤ (delivered c i m).length := by
  have key : ∀ k, ∃ m, n ≤ m ∧ min k (accepted c i n).length ≤ (delivered c i m).length := by
    intro k
    induction k with
    | zero => exact ⟨n, Nat.le_refl _, by omega⟩
    | succ k ih =>
      obtain ⟨m, hm, h⟩ := ih
      by_cases hlt : (delivered c i m).length < (accepted c i n).length
      · obtain ⟨m1, h1, hv⟩ := hl m (Nat.lt_of_lt_of_le hlt (accepted_mono c i hm).length_le)
        obtain ⟨m2, h2, h3⟩ := offered_delivered c i hs hr m1 hv
        have := (delivered_mono c i h1).length_le
        exact ⟨m2, by omega, by omega⟩
      · exact ⟨m, hm, by omega⟩
  obtain ⟨m, _, h⟩ := key (accepted c i n).length
  exact ⟨m, by omega⟩

theorem good_pipeValid {α : Type} [Inhabited α] :
    StreamGood (pipeValid : Circuit _ (SIn α) (SOut α)) 1 where
  indep := by intro s v v' b b' r; rfl
  order := by
    intro i n
    refine ⟨_, C01_pipevalid_lossless i n, ?_⟩
    split <;> simp
  stable := fun i _ => C01_pipevalid_stable i
  accepts := by
    intro i hr n
    obtain ⟨m, hm, h⟩ := hr n
    exact ⟨m, hm, (C01_pipevalid_ready i m).2 (.inr h)⟩
  delivers := by
    intro i hr n
    refine good_delivers _ i (C01_pipevalid_stable i) hr ?_ n
    intro n h
    rw [C01_pipevalid_lossless] at h
    cases hv : (pipeValid.wave i n).valid with
    | true => exact ⟨n, Nat.le_refl n, hv⟩
    | false => simp [hv] at h

theorem good_pipeReady {α : Type} [Inhabited α] :
    StreamGood (pipeReady : Circuit _ (SIn α) (SOut α)) 1 where
  indep := by intro s v v' b b' r; rfl
  order := by
    intro i n
    refine ⟨_, C02_pipeready_lossless i n, ?_⟩
    split <;> simp
  stable := fun i _ => C02_pipeready_stable i
  accepts := by
    intro i hr n
    obtain ⟨m, hm, h⟩ := hr n
    refine ⟨m + 1, by omega, ?_⟩
    have h' : (i m).ready = true := h
    simp only [Circuit.wave, Circuit.st_succ]
    generalize pipeReady.st i m = s
    cases hv : (i m).valid <;> simp [pipeReady, h', hv]
  delivers := by
    intro i hr n
    refine good_delivers _ i (C02_pipeready_stable i) hr ?_ n
    intro n h
    rw [C02_pipeready_lossless] at h
    cases hv : (pipeReady.wave i n).ready with
    | false => exact ⟨n, Nat.le_refl n, (C02_pipeready_valid i n).2 (.inl hv)⟩
    | true => simp [hv] at h

theorem fifoWrapper_counts {σ : Type} {w : Nat}
    (f : Circuit σ (FifoIn (1 + (1 + w))) (FifoOut (1 + (1 + w)))) (i : Nat → SIn (BitVec w)) (n : Nat) :
    (accepted (fifoWrapper f) i n).length = (fifoWritten f (fun k => fifoDrive (i k)) n).length ∧
    (delivered (fifoWrapper f) i n).length = (fifoRead f (fun k => fifoDrive (i k)) n).length := by
  induction n with
  | zero => exact ⟨rfl, rfl⟩
  | succ n ih =>
    have e1 : accepted (fifoWrapper f) i (n + 1) = accepted (fifoWrapper f) i n ++
      (if (i n).valid && ((fifoWrapper f).wave i n).ready then [(i n).beat] else []) := rfl
    have e2 : fifoWritten f (fun k => fifoDrive (i k)) (n + 1) =
      fifoWritten f (fun k => fifoDrive (i k)) n ++
      (if (i n).valid && (f.wave (fun k => fifoDrive (i k)) n).wRdy
        then [packBeat (i n).beat] else []) := rfl
    have e3 : delivered (fifoWrapper f) i (n + 1) = delivered (fifoWrapper f) i n ++
      (if ((fifoWrapper f).wave i n).valid && (i n).ready
        then [((fifoWrapper f).wave i n).beat] else []) := rfl
    have e4 : fifoRead f (fun k => fifoDrive (i k)) (n + 1) =
      fifoRead f (fun k => fifoDrive (i k)) n ++
      (if (f.wave (fun k => fifoDrive (i k)) n).rRdy && (i n).ready
        then [(f.wave (fun k => fifoDrive (i k)) n).rData] else []) := rfl
    rw [e1, e2, e3, e4, fifoWrapper_wave]
    simp only [List.length_append, ih]
    refine ⟨?_, ?_⟩ <;> split <;> rfl

theorem good_fifo {σ : Type} {w depth : Nat}
    (f : Circuit σ (FifoIn (1 + (1 + w))) (FifoOut (1 + (1 + w)))) (hf : FifoFlows f depth) :
    StreamGood (fifoWrapper f) depth where
  indep := by
    intro s v v' b b' r
    exact hf.registered _ _ _
  order := by
    intro i n
    obtain ⟨q, h1, h2, _⟩ := C08_fifo_lossless f hf.contract i n
    exact ⟨q, h1, h2⟩
  stable := fun i _ => C08_fifo_stable f hf.contract i
  accepts := by
    intro i hr n
    obtain ⟨m, hm, h⟩ := hf.room (fun k => fifoDrive (i k)) hr n
    refine ⟨m, hm, ?_⟩
    beta_reduce
    rw [fifoWrapper_wave]; exact h
  delivers := by
    intro i hr n
    refine good_delivers _ i (C08_fifo_stable f hf.contract i) hr ?_ n
    intro n h
    rw [(fifoWrapper_counts f i n).1, (fifoWrapper_counts f i n).2] at h
    obtain ⟨m, hm, hv⟩ := hf.live _ n h
    refine ⟨m, hm, ?_⟩
    rw [fifoWrapper_wave]; exact hv

theorem good_wire {α : Type} : StreamGood (identityConverter : Circuit _ (SIn α) (SOut α)) 0 where
  indep := by intro s v v' b b' r; rfl
  order := fun i n => ⟨[], (List.append_nil _).symm, Nat.le_refl 0⟩
  stable := fun i h => h
  accepts := fun i h => h
  delivers := fun i _ n => ⟨n, Nat.le_refl _⟩

theorem good_chain {σ τ α : Type} [Inhabited α] (c1 : Circuit σ (SIn α) (SOut α))
    (c2 : Circuit τ (SIn α) (SOut α)) {k1 k2 : Nat} (h1 : StreamGood c1 k1) (h2 : StreamGood c2 k2) :
    StreamGood (chain c1 c2) (k1 + k2) where
  indep := by
    intro s v v' b b' r
    exact h1.indep _ _ _ _ _ _
  order := by
    intro i n
    obtain ⟨q1, e1, l1⟩ := h1.order (chainIn1 c1 c2 i) n
    obtain ⟨q2, e2, l2⟩ := h2.order (chainIn2 c1 c2 i) n
    refine ⟨q2 ++ q1, ?_, by rw [List.length_append]; omega⟩
    rw [chain_accepted, chain_delivered, e1, chain_middle c1 c2 i h2.indep, e2, List.append_assoc]
  stable := by
    intro i hs
    have a := h1.stable _ (chain_sinkStable c1 c2 i hs)
    have b := h2.stable _ (chain_middle_stable c1 c2 i h2.indep a)
    intro n hv hr
    have e := chain_wave2 c1 c2 i
    have := b n ((e n).1.symm.trans hv) hr
    exact ⟨(e (n + 1)).1.trans this.1, (e (n + 1)).2.trans (this.2.trans (e n).2.symm)⟩
  accepts := by
    intro i hr
    have a : Recurs (fun m => (c2.wave (chainIn2 c1 c2 i) m).ready = true) := h2.accepts _ hr
    have b : Recurs (fun m => (chainIn1 c1 c2 i m).ready = true) := by
      intro n
      obtain ⟨m, hm, h⟩ := a n
      exact ⟨m, hm, (chain_middle_ready c1 c2 i h2.indep m).symm.trans h⟩
    intro n
    obtain ⟨m, hm, h⟩ := h1.accepts _ b n
    exact ⟨m, hm, (chain_wave1 c1 c2 i m).trans h⟩
  delivers := by
    intro i hr n
    have a : Recurs (fun m => (c2.wave (chainIn2 c1 c2 i) m).ready = true) := h2.accepts _ hr
    have b : Recurs (fun m => (chainIn1 c1 c2 i m).ready = true) := by
      intro n
      obtain ⟨m, hm, h⟩ := a n
      exact ⟨m, hm, (chain_middle_ready c1 c2 i h2.indep m).symm.trans h⟩
    obtain ⟨m1, e1⟩ := h1.delivers _ b n
    obtain ⟨m2, e2⟩ := h2.delivers (chainIn2 c1 c2 i) hr m1
    refine ⟨m2, ?_⟩
    rw [chain_accepted, chain_delivered]
    rw [chain_middle c1 c2 i h2.indep] at e1
    omega

theorem good_pipeline {w : Nat} (l : List (StreamPart w)) (h : ∀ p ∈ l, p.Flows) :
    StreamGood (pipeline l) ((l.map StreamPart.capacity).sum) := by
  induction l with
  | nil => exact good_wire
  | cons p l ih =>
    have hp := h p List.mem_cons_self
    refine good_chain p.circuit (pipeline l) ?_ (ih fun q hq => h q (List.mem_cons_of_mem _ hq))
    cases p with
    | valid => exact good_pipeValid
    | ready => exact good_pipeReady
    | fifo f d => exact good_fifo f hp

/-- C115: a pipeline of any components in any order loses, adds, changes and reorders nothing, and holds at
most as many beats as its components together. -/
theorem C115_pipeline_lossless {w : Nat} (l : List (StreamPart w)) (h : ∀ p ∈ l, p.Flows)
    (i : Nat → SIn (BitVec w)) (n : Nat) :
    ∃ q, accepted (pipeline l) i n = delivered (pipeline l) i n ++ q ∧
      q.length ≤ (l.map StreamPart.capacity).sum :=
  (good_pipeline l h).order i n

/-- C115: for a sender that obeys the stream rule, the pipeline obeys it at its source. -/
theorem C115_pipeline_stable {w : Nat} (l : List (StreamPart w)) (h : ∀ p ∈ l, p.Flows)
    (i : Nat → SIn (BitVec w)) (hs : SinkStable (pipeline l) i) : SourceStable (pipeline l) i :=
  (good_pipeline l h).stable i hs

/-- C115: no pipeline blocks: if the receiver is ready again and again, so is the pipeline at its sink. -/
theorem C115_pipeline_accepts {w : Nat} (l : List (StreamPart w)) (h : ∀ p ∈ l, p.Flows)
    (i : Nat → SIn (BitVec w)) (hr : Recurs (fun m => (i m).ready = true)) :
    Recurs (fun m => ((pipeline l).wave i m).ready = true) :=
  (good_pipeline l h).accepts i hr

/-- C115: if the receiver is ready again and again, every accepted beat is delivered. -/
theorem C115_pipeline_delivers {w : Nat} (l : List (StreamPart w)) (h : ∀ p ∈ l, p.Flows)
    (i : Nat → SIn (BitVec w)) (hr : Recurs (fun m => (i m).ready = true)) (n : Nat) :
    ∃ m, accepted (pipeline l) i n <+: delivered (pipeline l) i m := by
  obtain ⟨m, hm⟩ := (good_pipeline l h).delivers i hr n
  obtain ⟨q, e, _⟩ := (good_pipeline l h).order i (max n m)
  refine ⟨max n m, ?_⟩
  have h1 := accepted_mono (pipeline l) i (Nat.le_max_left n m)
  have h2 := (delivered_mono (pipeline l) i (Nat.le_max_right n m)).length_le
  rw [e] at h1
  exact List.prefix_of_prefix_length_le h1 (List.prefix_append _ _) (Nat.le_trans hm h2)

theorem slices_streaming {w : Nat} (l : List (StreamPart w)) (h : ∀ p ∈ l, p.isSlice)
    (i : Nat → SIn (BitVec w)) (hr : ∀ n, (i n).ready = true) (n : Nat) :
    ((pipeline l).wave i n).ready = true ∧
    ((pipeline l).wave i (n + (l.map StreamPart.delay).sum)).valid = (i n).valid ∧
    ((i n).valid = true → ((pipeline l).wave i (n + (l.map StreamPart.delay).sum)).beat = (i n).beat) := by
  induction l generalizing i n with
  | nil => exact ⟨hr n, rfl, fun _ => rfl⟩
  | cons p l ih =>
    have hp := h p List.mem_cons_self
    have hl : ∀ q ∈ l, q.isSlice := fun q hq => h q (List.mem_cons_of_mem _ hq)
    have hf : ∀ q ∈ l, q.Flows := by
      intro q hq
      have := hl q hq
      cases q <;> trivial
    have hi := (good_pipeline l hf).indep
    have h2 := ih hl (chainIn2 p.circuit (pipeline l) i) (fun n => hr n)
    have r1 : ∀ n, (chainIn1 p.circuit (pipeline l) i n).ready = true := fun n =>
      (chain_middle_ready p.circuit (pipeline l) i hi n).symm.trans (h2 n).1
    have one : ∀ n, (p.circuit.wave (chainIn1 p.circuit (pipeline l) i) n).ready = true ∧
        (p.circuit.wave (chainIn1 p.circuit (pipeline l) i) (n + p.delay)).valid = (i n).valid ∧
        (p.circuit.wave (chainIn1 p.circuit (pipeline l) i) (n + p.delay)).beat = (i n).beat := by
      have v : ∀ n, (chainIn1 p.circuit (pipeline l) i n).valid = (i n).valid := fun _ => rfl
      have b : ∀ n, (chainIn1 p.circuit (pipeline l) i n).beat = (i n).beat := fun _ => rfl
      generalize chainIn1 p.circuit (pipeline l) i = j at r1 v b
      intro n
      cases p with
      | valid =>
        replace r1 := r1 n
        refine ⟨(C01_pipevalid_ready j n).2 (.inr r1), ?_⟩
        change (pipeValid.wave j (n + 1)).valid = _ ∧ (pipeValid.wave j (n + 1)).beat = _
        simp only [Circuit.wave, Circuit.st_succ]
        generalize pipeValid.st j n = s
        simp [pipeValid, r1, v, b]
      | ready =>
        have hs : ∀ n, (pipeReady.st j n).valid = false := by
          intro n
          induction n with
          | zero => rfl
          | succ n ih =>
            rw [Circuit.st_succ]
            have := r1 n
            generalize pipeReady.st j n = s at ih
            simp [pipeReady, this]
        change (pipeReady.wave j n).ready = true ∧ (pipeReady.wave j n).valid = _ ∧
          (pipeReady.wave j n).beat = _
        have := hs n
        simp only [Circuit.wave]
        generalize pipeReady.st j n = s at this
        simp [pipeReady, this, v, b]
      | fifo f d => exact hp.elim
    have mid : ∀ n, (chainIn2 p.circuit (pipeline l) i n).valid
          = (p.circuit.wave (chainIn1 p.circuit (pipeline l) i) n).valid ∧
        (chainIn2 p.circuit (pipeline l) i n).beat
          = (p.circuit.wave (chainIn1 p.circuit (pipeline l) i) n).beat := by
      intro n
      have e : p.circuit.st (chainIn1 p.circuit (pipeline l) i) n
          = ((chain p.circuit (pipeline l)).st i n).1 := by rw [chain_st]
      simp only [Circuit.wave, e]
      exact ⟨rfl, rfl⟩
    have e : n + ((p :: l).map StreamPart.delay).sum
        = n + p.delay + (l.map StreamPart.delay).sum := by
      simp only [List.map_cons, List.sum_cons]; omega
    rw [e]
    have w2 := chain_wave2 p.circuit (pipeline l) i (n + p.delay + (l.map StreamPart.delay).sum)
    refine ⟨(chain_wave1 p.circuit (pipeline l) i n).trans (one n).1, ?_, ?_⟩
    · exact w2.1.trans ((h2 (n + p.delay)).2.1.trans ((mid _).1.trans (one n).2.1))
    · intro hv
      exact w2.2.trans (((h2 (n + p.delay)).2.2 ((mid _).1.trans ((one n).2.1.trans hv))).trans
        ((mid _).2.trans (one n).2.2))

/-- C115: with a receiver that is always ready, a pipeline of register slices takes a beat in every cycle and
shows it at its source after exactly as many cycles as it has `PipeValid` slices. -/
theorem C115_pipeline_streaming {w : Nat} (l : List (StreamPart w)) (h : ∀ p ∈ l, p.isSlice)
    (i : Nat → SIn (BitVec w)) (hr : ∀ n, (i n).ready = true) (n : Nat) :
    ((pipeline l).wave i n).ready = true ∧
    ((pipeline l).wave i (n + (l.map StreamPart.delay).sum)).valid = (i n).valid ∧
    ((i n).valid = true → ((pipeline l).wave i (n + (l.map StreamPart.delay).sum)).beat = (i n).beat) :=
  slices_streaming l h i hr n

/-- A FIFO that has room whenever it is not full meets the conditions. -/
theorem fifoFlows_of_room {σ : Type} {w depth : Nat} (f : Circuit σ (FifoIn w) (FifoOut w)) (hd : 0 < depth)
    (hc : FifoContract f depth) (hl : FifoLive f) (hr : FifoRoom f depth)
    (hreg : ∀ s x y, (f.out s x).wRdy = (f.out s y).wRdy) : FifoFlows f depth where
  contract := hc
  live := hl
  registered := hreg
  room := by
    intro i hi n
    refine Classical.byContradiction fun hno => ?_
    have hno' : ∀ m, n ≤ m → (f.wave i m).wRdy = false := by
      intro m hm
      cases h : (f.wave i m).wRdy with
      | false => rfl
      | true => exact absurd ⟨m, hm, h⟩ hno
    have full : ∀ m, n ≤ m →
        (fifoRead f i m).length + depth ≤ (fifoWritten f i m).length := by
      intro m hm
      refine Nat.le_of_not_lt fun hlt => ?_
      have h1 := hr i m hlt
      rw [hno' m hm] at h1
      exact absurd h1 (by decide)
    obtain ⟨m, hm, hv⟩ := hl i n (by have := full n (Nat.le_refl n); omega)
    obtain ⟨m2, hm2, hen⟩ := hi m
    obtain ⟨d, rfl⟩ := Nat.exists_eq_add_of_le hm2
    clear hm2
    have readOne : ∀ k, n ≤ k → (f.wave i k).rRdy = true → (i k).rEn = true → False := by
      intro k hk h1 h2
      have a := full (k + 1) (by omega)
      have e1 : fifoWritten f i (k + 1) = fifoWritten f i k ++
        (if (i k).wEn && (f.wave i k).wRdy then [(i k).wData] else []) := rfl
      have e2 : fifoRead f i (k + 1) = fifoRead f i k ++
        (if (f.wave i k).rRdy && (i k).rEn then [(f.wave i k).rData] else []) := rfl
      rw [e1, e2, h1, h2, hno' k hk] at a
      obtain ⟨q, e, l, _⟩ := hc.order i k
      rw [e] at a
      simp at a
      omega
    induction d generalizing m with
    | zero => exact readOne m hm hv hen
    | succ d ih =>
      cases h : (i m).rEn with
      | true => exact readOne m hm hv h
      | false =>
        refine ih (m + 1) (by omega) (hc.stable i m hv h) ?_
        have e : m + 1 + d = m + (d + 1) := by omega
        rw [e]; exact hen

/-- The reference FIFO meets the conditions of C115. -/
theorem C115_flows_inhabited (w depth : Nat) (hd : 0 < depth) : FifoFlows (queueFifo w depth) depth :=
  fifoFlows_of_room _ hd (C08_fifo_contract_inhabited w depth) (C101_live_inhabited w depth)
    (C94_room_inhabited w depth) (fun _ _ _ => rfl)

/-- A pipeline of four components. -/
def pipelineDemo : List (StreamPart 8) :=
  [.valid, .ready, .fifo (queueFifo 10 8) 8, .valid]

/-- Six beats for a receiver that is ready in every third cycle. -/
def pipelineDemoIn : Nat → SIn (BitVec 8) := fun n =>
  ⟨n < 6, ⟨n == 0, n == 5, BitVec.ofNat 8 (10 + n)⟩, n % 3 == 2⟩

example : ∀ p ∈ pipelineDemo, p.Flows := by
  intro p hp
  simp only [pipelineDemo, List.mem_cons, List.not_mem_nil, or_false] at hp
  rcases hp with rfl | rfl | rfl | rfl
  · trivial
  · trivial
  · exact C115_flows_inhabited 10 8 (by decide)
  · trivial

example : Recurs (fun m => (pipelineDemoIn m).ready = true) := by
  intro n
  refine ⟨3 * n + 2, by omega, ?_⟩
  change ((3 * n + 2) % 3 == 2) = true
  have : (3 * n + 2) % 3 = 2 := by omega
  rw [this]; rfl

example : (accepted (pipeline pipelineDemo) pipelineDemoIn 6).map (·.payload) = [10, 11, 12, 13, 14, 15] ∧
    (delivered (pipeline pipelineDemo) pipelineDemoIn 6).map (·.payload) = [10] ∧
    (delivered (pipeline pipelineDemo) pipelineDemoIn 30).map (·.payload)
      = [10, 11, 12, 13, 14, 15] := by decide +kernel

example : ∀ p ∈ ([.valid, .ready, .valid] : List (StreamPart 8)), p.isSlice := by
  intro p hp
  simp only [List.mem_cons, List.not_mem_nil, or_false] at hp
  rcases hp with rfl | rfl | rfl <;> trivial

end Lambdalib
