import Verif.Spec.CrossDomain
import Verif.Props.Pipeline

/-! Helper lemmas: a component that is clocked at some instants only does what it does with these instants alone. -/

namespace Lambdalib

theorem edgeCount_mono (e : Nat → Bool) {n m : Nat} (h : n ≤ m) : edgeCount e n ≤ edgeCount e m := by
  induction m, h using Nat.le_induction with
  | base => exact Nat.le_refl _
  | succ m _ ih => exact Nat.le_trans ih (Nat.le_add_right _ _)

theorem edge_unique (e : Nat → Bool) {n m : Nat} (hn : e n = true) (hm : e m = true)
    (h : edgeCount e n = edgeCount e m) : n = m := by
  have key : ∀ a b, e a = true → a < b → edgeCount e a < edgeCount e b := by
    intro a b ha hab
    have h1 : edgeCount e (a + 1) = edgeCount e a + 1 := by simp [edgeCount, ha]
    have := edgeCount_mono e (show a + 1 ≤ b from hab)
    omega
  rcases Nat.lt_trichotomy n m with hlt | heq | hgt
  · have := key n m hn hlt; omega
  · exact heq
  · have := key m n hm hgt; omega

/-- The inputs at the edges, in order. -/
noncomputable def atEdges {ι : Type} [Inhabited ι] (e : Nat → Bool) (i : Nat → ι) (k : Nat) : ι :=
  open Classical in
  if h : ∃ m, e m = true ∧ edgeCount e m = k then i h.choose else default

theorem atEdges_count {ι : Type} [Inhabited ι] (e : Nat → Bool) (i : Nat → ι) {n : Nat} (h : e n = true) :
    atEdges e i (edgeCount e n) = i n := by
  have hex : ∃ m, e m = true ∧ edgeCount e m = edgeCount e n := ⟨n, h, rfl⟩
  unfold atEdges
  rw [dif_pos hex]
  exact congrArg i (edge_unique e hex.choose_spec.1 h hex.choose_spec.2)

theorem edge_exists (e : Nat → Bool) (he : Recurs (fun n => e n = true)) (k : Nat) :
    ∃ m, e m = true ∧ edgeCount e m = k := by
  have next : ∀ n, ∃ m, n ≤ m ∧ e m = true ∧ edgeCount e m = edgeCount e n := by
    intro n
    obtain ⟨m, hm, h⟩ := he n
    obtain ⟨d, rfl⟩ := Nat.exists_eq_add_of_le hm
    clear hm
    induction d generalizing n with
    | zero => exact ⟨n, Nat.le_refl n, h, rfl⟩
    | succ d ih =>
      cases hn : e n with
      | true => exact ⟨n, Nat.le_refl n, hn, rfl⟩
      | false =>
        have e2 : n + 1 + d = n + (d + 1) := by omega
        obtain ⟨m, h1, h2, h3⟩ := ih (n + 1) (by rw [e2]; exact h)
        exact ⟨m, by omega, h2, by rw [h3]; simp [edgeCount, hn]⟩
  induction k with
  | zero =>
    obtain ⟨m, _, h2, h3⟩ := next 0
    exact ⟨m, h2, h3⟩
  | succ k ih =>
    obtain ⟨m, h1, h2⟩ := ih
    obtain ⟨m', _, h3, h4⟩ := next (m + 1)
    exact ⟨m', h3, by rw [h4]; simp [edgeCount, h1, h2]⟩

/-- A word that is offered to a down-converter is taken if the receiver is ready again and again. -/
theorem down_accepts {wf wt r : Nat} (rev : Bool) (hr : 2 ≤ r) (j : Nat → SIn (BitVec wf))
    (hs : SinkStable (downConverter wf wt r rev) j) (hrec : Recurs (fun k => (j k).ready = true)) (k : Nat)
    (hv : (j k).valid = true) : ∃ m, k ≤ m ∧ ((downConverter wf wt r rev).wave j m).ready = true := by
  refine Classical.byContradiction fun hno => ?_
  have hno' : ∀ m, k ≤ m → ((downConverter wf wt r rev).wave j m).ready = false := by
    intro m hm
    cases h : ((downConverter wf wt r rev).wave j m).ready with
    | false => rfl
    | true => exact absurd ⟨m, hm, h⟩ hno
  have valid : ∀ m, k ≤ m → (j m).valid = true := by
    intro m hm
    induction m, hm using Nat.le_induction with
    | base => exact hv
    | succ m hm ih => exact (hs m ih (hno' m hm)).1
  have lt : ∀ m, (downConverter wf wt r rev).st j m < r := fun m => (downInv (rev := rev) (by omega) j hs m).lt
  -- each ready cycle moves on
  have step : ∀ m, k ≤ m → (downConverter wf wt r rev).st j (m + 1)
      = (downConverter wf wt r rev).st j m + (if (j m).ready then 1 else 0) := by
    intro m hm
    have a := hno' m hm
    have b := valid m hm
    have l := lt m
    rw [Circuit.st_succ]
    rw [Circuit.wave] at a
    generalize (downConverter wf wt r rev).st j m = s at *
    cases hrm : (j m).ready with
    | false => simp [downConverter, hrm]
    | true =>
      have ne : s ≠ r - 1 := by
        intro e
        simp [downConverter, hrm, e] at a
      have : truncRange r (s + 1) = s + 1 := truncRange_of_lt (by omega)
      simp [downConverter, hrm, b, ne, this]
  have far : ∀ t, ∃ m, k ≤ m ∧ t ≤ (downConverter wf wt r rev).st j m := by
    intro t
    induction t with
    | zero => exact ⟨k, Nat.le_refl k, Nat.zero_le _⟩
    | succ t ih =>
      obtain ⟨m, hm, h⟩ := ih
      obtain ⟨m1, hm1, h1⟩ := hrec m
      have mono : ∀ d, (downConverter wf wt r rev).st j m ≤ (downConverter wf wt r rev).st j (m + d) := by
        intro d
        induction d with
        | zero => exact Nat.le_refl _
        | succ d ih => rw [← Nat.add_assoc, step (m + d) (by omega)]; omega
      obtain ⟨d, rfl⟩ := Nat.exists_eq_add_of_le hm1
      refine ⟨m + d + 1, by omega, ?_⟩
      have h1' : (j (m + d)).ready = true := h1
      rw [step (m + d) (by omega), h1']
      have := mono d
      simp only [if_true]
      omega
  obtain ⟨m, _, h⟩ := far r
  have := lt m
  omega

section
variable {σ τ : Type} {wf wt : Nat} (c : Circuit σ (SIn (BitVec wf)) (SOut (BitVec wt)))
  (f : Circuit τ (FifoIn (1 + (1 + wt))) (FifoOut (1 + (1 + wt)))) (i : Nat → XdIn (BitVec wf))

/-- What the converter sees. -/
def xdIn (n : Nat) : SIn (BitVec wf) :=
  ⟨(i n).valid, (i n).beat,
    ((fifoWrapper f).out ((crossAfter c f).st i n).2 ⟨false, zeroBeat, false⟩).ready⟩

/-- What the FIFO sees. -/
def xdFifo (n : Nat) : SIn (BitVec wt) :=
  let o := c.out ((crossAfter c f).st i n).1 (xdIn c f i n)
  ⟨o.valid && (i n).edgeFrom, o.beat, (i n).ready && (i n).edgeTo⟩

/-- Edges of the clock of the converter. -/
def xdEdge (n : Nat) : Bool := (i n).edgeFrom

/-- The converter sees the instants with an edge only. -/
noncomputable def xdConv : Nat → SIn (BitVec wf) := atEdges (xdEdge i) (xdIn c f i)

theorem xd_st2 (n : Nat) : (fifoWrapper f).st (xdFifo c f i) n = ((crossAfter c f).st i n).2 := by
  induction n with
  | zero => rfl
  | succ n ih => rw [Circuit.st_succ, Circuit.st_succ, ih]; rfl

theorem xd_st1 (n : Nat) : c.st (xdConv c f i) (edgeCount (xdEdge i) n) = ((crossAfter c f).st i n).1 := by
  induction n with
  | zero => rfl
  | succ n ih =>
    rw [Circuit.st_succ]
    cases he : (i n).edgeFrom with
    | false =>
      have h1 : edgeCount (xdEdge i) (n + 1) = edgeCount (xdEdge i) n := by simp [edgeCount, xdEdge, he]
      rw [h1, ih]
      simp [crossAfter, he]
    | true =>
      have h1 : edgeCount (xdEdge i) (n + 1) = edgeCount (xdEdge i) n + 1 := by simp [edgeCount, xdEdge, he]
      have h2 : xdConv c f i (edgeCount (xdEdge i) n) = xdIn c f i n := atEdges_count _ _ he
      have key : ∀ s x, ((crossAfter c f).next s x).1 = if x.edgeFrom then
          c.next s.1 ⟨x.valid, x.beat, ((fifoWrapper f).out s.2 ⟨false, zeroBeat, false⟩).ready⟩ else s.1 :=
        fun _ _ => rfl
      rw [h1, Circuit.st_succ, ih, h2, key, if_pos he]
      rfl

variable (hreg : ∀ s x y, (f.out s x).wRdy = (f.out s y).wRdy)
include hreg

theorem xd_ready (n : Nat) : ((fifoWrapper f).wave (xdFifo c f i) n).ready = (xdIn c f i n).ready := by
  rw [Circuit.wave, xd_st2]
  exact hreg _ _ _

omit hreg in
theorem xd_accepted (n : Nat) :
    xdAccepted (crossAfter c f) i n = accepted c (xdConv c f i) (edgeCount (xdEdge i) n) := by
  induction n with
  | zero => rfl
  | succ n ih =>
    have e1 : xdAccepted (crossAfter c f) i (n + 1) = xdAccepted (crossAfter c f) i n ++
      (if ((i n).valid && (i n).edgeFrom) && ((crossAfter c f).wave i n).ready then [(i n).beat] else []) := rfl
    rw [e1, ih]
    cases he : (i n).edgeFrom with
    | false =>
      have h1 : edgeCount (xdEdge i) (n + 1) = edgeCount (xdEdge i) n := by simp [edgeCount, xdEdge, he]
      rw [h1]; simp
    | true =>
      have h1 : edgeCount (xdEdge i) (n + 1) = edgeCount (xdEdge i) n + 1 := by simp [edgeCount, xdEdge, he]
      have h2 : xdConv c f i (edgeCount (xdEdge i) n) = xdIn c f i n := atEdges_count _ _ he
      rw [h1, accepted_succ, xd_st1, h2, Bool.and_true]
      rfl

theorem xd_middle (n : Nat) :
    delivered c (xdConv c f i) (edgeCount (xdEdge i) n) = accepted (fifoWrapper f) (xdFifo c f i) n := by
  induction n with
  | zero => rfl
  | succ n ih =>
    have e1 : accepted (fifoWrapper f) (xdFifo c f i) (n + 1) = accepted (fifoWrapper f) (xdFifo c f i) n ++
      (if (xdFifo c f i n).valid && ((fifoWrapper f).wave (xdFifo c f i) n).ready
        then [(xdFifo c f i n).beat] else []) := rfl
    rw [e1, xd_ready c f i hreg, ← ih]
    cases he : (i n).edgeFrom with
    | false =>
      have h1 : edgeCount (xdEdge i) (n + 1) = edgeCount (xdEdge i) n := by simp [edgeCount, xdEdge, he]
      have h2 : (xdFifo c f i n).valid = false := by simp [xdFifo, he]
      rw [h1, h2]; simp
    | true =>
      have h1 : edgeCount (xdEdge i) (n + 1) = edgeCount (xdEdge i) n + 1 := by simp [edgeCount, xdEdge, he]
      have h2 : xdConv c f i (edgeCount (xdEdge i) n) = xdIn c f i n := atEdges_count _ _ he
      have h3 : (xdFifo c f i n).valid = (c.out ((crossAfter c f).st i n).1 (xdIn c f i n)).valid := by
        simp [xdFifo, he]
      rw [h1, delivered_succ, xd_st1, h2, h3]
      rfl

omit hreg in
theorem xd_wave (n : Nat) : ((crossAfter c f).wave i n).valid = ((fifoWrapper f).wave (xdFifo c f i) n).valid ∧
    ((crossAfter c f).wave i n).beat = ((fifoWrapper f).wave (xdFifo c f i) n).beat := by
  simp only [Circuit.wave, xd_st2]
  exact ⟨rfl, rfl⟩

omit hreg in
theorem xd_delivered (n : Nat) :
    xdDelivered (crossAfter c f) i n = delivered (fifoWrapper f) (xdFifo c f i) n := by
  induction n with
  | zero => rfl
  | succ n ih =>
    have e1 : xdDelivered (crossAfter c f) i (n + 1) = xdDelivered (crossAfter c f) i n ++
      (if (((crossAfter c f).wave i n).valid && (i n).edgeTo) && (i n).ready
        then [((crossAfter c f).wave i n).beat] else []) := rfl
    have e2 : delivered (fifoWrapper f) (xdFifo c f i) (n + 1) = delivered (fifoWrapper f) (xdFifo c f i) n ++
      (if ((fifoWrapper f).wave (xdFifo c f i) n).valid && ((i n).ready && (i n).edgeTo)
        then [((fifoWrapper f).wave (xdFifo c f i) n).beat] else []) := rfl
    rw [e1, e2, ih, (xd_wave c f i n).1, (xd_wave c f i n).2]
    congr 1
    cases ((fifoWrapper f).wave (xdFifo c f i) n).valid <;> cases (i n).ready <;> cases (i n).edgeTo <;> rfl

omit hreg in
/-- A sender that holds its beats from edge to edge. -/
theorem xd_sinkStable (he : Recurs (fun n => (i n).edgeFrom = true)) (hs : XdHolds (crossAfter c f) i) :
    SinkStable c (xdConv c f i) := by
  intro k hv hr
  beta_reduce at hv hr ⊢
  obtain ⟨n, hn, hk⟩ := edge_exists (xdEdge i) he k
  obtain ⟨m, hm, hk'⟩ := edge_exists (xdEdge i) he (k + 1)
  have e1 : xdConv c f i k = xdIn c f i n := by rw [← hk]; exact atEdges_count _ _ hn
  have e2 : xdConv c f i (k + 1) = xdIn c f i m := by rw [← hk']; exact atEdges_count _ _ hm
  have c1 : edgeCount (xdEdge i) (n + 1) = k + 1 := by simp [edgeCount, hn, hk]
  have lt : n < m := by
    refine Nat.lt_of_not_le fun h => ?_
    have := edgeCount_mono (xdEdge i) h
    omega
  have ne : NextEdge (fun k => (i k).edgeFrom) (n + 1) m := by
    refine ⟨lt, hm, ?_⟩
    intro t h1 h2
    cases ht : (i t).edgeFrom with
    | false => exact ht
    | true =>
      have a := edgeCount_mono (xdEdge i) h1
      have b := edgeCount_mono (xdEdge i) (show t + 1 ≤ m from h2)
      have d : edgeCount (xdEdge i) (t + 1) = edgeCount (xdEdge i) t + 1 := by simp [edgeCount, xdEdge, ht]
      omega
  rw [e1] at hv
  have hr' : ((crossAfter c f).wave i n).ready = false := by
    rw [Circuit.wave, ← hk, xd_st1, hk, e1] at hr
    exact hr
  have := hs n m hn ne hv hr'
  rw [e1, e2]
  exact this

omit hreg in
/-- A run of the FIFO with a receiver that takes words again and again. -/
theorem xd_takes (hr : Recurs (fun n => (i n).ready = true ∧ (i n).edgeTo = true)) :
    Recurs (fun n => (xdFifo c f i n).ready = true) := by
  intro n
  obtain ⟨m, hm, h1, h2⟩ := hr n
  refine ⟨m, hm, ?_⟩
  change ((i m).ready && (i m).edgeTo) = true
  rw [h1, h2]; rfl

/-- Everything handed over to the FIFO is delivered. -/
theorem xd_through {depth : Nat} (hf : FifoContract f depth) (hx : FifoCrosses f)
    (hr : Recurs (fun n => (i n).ready = true ∧ (i n).edgeTo = true)) (n : Nat) :
    ∃ m, (delivered c (xdConv c f i) (edgeCount (xdEdge i) n)).length
      ≤ (xdDelivered (crossAfter c f) i m).length := by
  obtain ⟨m, h⟩ := good_delivers (fifoWrapper f) (xdFifo c f i) (C08_fifo_stable f hf _) (xd_takes c f i hr) (by
    intro n h
    rw [(fifoWrapper_counts f _ n).1, (fifoWrapper_counts f _ n).2] at h
    obtain ⟨m, hm, hv⟩ := hx.live _ n h
    refine ⟨m, hm, ?_⟩
    rw [fifoWrapper_wave]; exact hv) n
  exact ⟨m, by rw [xd_middle c f i hreg, xd_delivered]; exact h⟩

/-- The converter finds room in the FIFO again and again. -/
theorem xd_room (hx : FifoCrosses f) (he : Recurs (fun n => (i n).edgeFrom = true))
    (hr : Recurs (fun n => (i n).ready = true ∧ (i n).edgeTo = true)) :
    Recurs (fun k => (xdConv c f i k).ready = true) := by
  intro k
  obtain ⟨n, hn, hk⟩ := edge_exists (xdEdge i) he k
  obtain ⟨m, hm, h⟩ := hx.room (fun k => fifoDrive (xdFifo c f i k)) (xd_takes c f i hr) n
  obtain ⟨m', hm', hedge⟩ := he m
  obtain ⟨d, rfl⟩ := Nat.exists_eq_add_of_le hm'
  clear hm'
  have key : ∃ t, m ≤ t ∧ (i t).edgeFrom = true ∧ (f.wave (fun k => fifoDrive (xdFifo c f i k)) t).wRdy = true := by
    clear hm hk
    induction d generalizing m with
    | zero => exact ⟨m, Nat.le_refl m, hedge, h⟩
    | succ d ih =>
      cases ht : (i m).edgeFrom with
      | true => exact ⟨m, Nat.le_refl m, ht, h⟩
      | false =>
        have e2 : m + 1 + d = m + (d + 1) := by omega
        obtain ⟨t, h1, h2, h3⟩ := ih (m + 1) (hx.roomStays _ m h (by
          change ((c.out ((crossAfter c f).st i m).1 (xdIn c f i m)).valid && (i m).edgeFrom) = false
          rw [ht]; simp)) (by rw [e2]; exact hedge)
        exact ⟨t, by omega, h2, h3⟩
  obtain ⟨t, h1, h2, h3⟩ := key
  refine ⟨edgeCount (xdEdge i) t, ?_, ?_⟩
  · rw [← hk]; exact edgeCount_mono _ (by omega)
  · beta_reduce
    have e1 : xdConv c f i (edgeCount (xdEdge i) t) = xdIn c f i t := atEdges_count _ _ h2
    rw [e1, ← xd_ready c f i hreg, fifoWrapper_wave]
    exact h3

omit hreg in
/-- What the converter does at its `k`-th edge is seen at some instant. -/
theorem xd_instant (he : Recurs (fun n => (i n).edgeFrom = true)) (n k : Nat) (hk : edgeCount (xdEdge i) n ≤ k)
    (h : (c.wave (xdConv c f i) k).ready = true) :
    ∃ m, n ≤ m ∧ (i m).edgeFrom = true ∧ ((crossAfter c f).wave i m).ready = true := by
  obtain ⟨m, hm, hmk⟩ := edge_exists (xdEdge i) he k
  refine ⟨m, ?_, hm, ?_⟩
  · refine Nat.le_of_not_lt fun hlt => ?_
    have a := edgeCount_mono (xdEdge i) (show m + 1 ≤ n from hlt)
    have b : edgeCount (xdEdge i) (m + 1) = edgeCount (xdEdge i) m + 1 := by simp [edgeCount, hm]
    omega
  · have e1 : xdConv c f i (edgeCount (xdEdge i) m) = xdIn c f i m := atEdges_count _ _ hm
    rw [Circuit.wave, ← hmk, xd_st1, e1] at h
    exact h

/-- The words that the converter has handed over are those delivered and those in the FIFO. -/
theorem xd_order {depth : Nat} (hf : FifoContract f depth) (n : Nat) :
    ∃ q, delivered c (xdConv c f i) (edgeCount (xdEdge i) n) = xdDelivered (crossAfter c f) i n ++ q ∧
      q.length ≤ depth := by
  obtain ⟨q, h1, h2, _⟩ := C08_fifo_lossless f hf (xdFifo c f i) n
  exact ⟨q, by rw [xd_middle c f i hreg, xd_delivered, h1], h2⟩

end

end Lambdalib
