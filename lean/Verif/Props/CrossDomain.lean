import Verif.Lemmas.CrossDomain
import Verif.Props.Converter

/-! C116: `Converter` between two clocks. -/

namespace Lambdalib

section
variable {τ : Type} {wf wt depth : Nat} (f : Circuit τ (FifoIn (1 + (1 + wt))) (FifoOut (1 + (1 + wt))))
  (hf : FifoContract f depth) (hreg : ∀ s x y, (f.out s x).wRdy = (f.out s y).wRdy)

/-- C116 (partial): clock crossing without width conversion. Missing: conversion behind the crossing, refuted below. -/
theorem C116_same_partial (f : Circuit τ (FifoIn (1 + (1 + wf))) (FifoOut (1 + (1 + wf))))
    (hf : FifoContract f depth) (hreg : ∀ s x y, (f.out s x).wRdy = (f.out s y).wRdy)
    (i : Nat → XdIn (BitVec wf)) (n : Nat) :
    ∃ q, xdAccepted (crossAfter identityConverter f) i n
      = xdDelivered (crossAfter identityConverter f) i n ++ q ∧ q.length ≤ depth := by
  obtain ⟨q, h1, h2⟩ := xd_order identityConverter f i hreg hf n
  exact ⟨q, by rw [xd_accepted, ← h1]; rfl, h2⟩

include hf hreg in
/-- C116 (partial): narrow to wide. Whatever the two clocks do, the words delivered, those in the FIFO and at most one more
carry the closed groups of the narrow beats accepted, in order. -/
theorem C116_up_partial {r : Nat} (rev : Bool) (hr : 2 ≤ r) (hw : wt = r * wf) (i : Nat → XdIn (BitVec wf)) (n : Nat) :
    let c := crossAfter (upConverter wf wt r rev) f
    ∃ q, List.Forall₂ (Packs r rev) (xdDelivered c i n ++ q) (groups r (xdAccepted c i n)).1 ∧ q.length ≤ depth + 1 := by
  intro c
  obtain ⟨q, h1, h2⟩ := xd_order (upConverter wf wt r rev) f i hreg hf n
  have h3 := (C03_upconverter_packs rev hr hw (xdConv (upConverter wf wt r rev) f i) (edgeCount (xdEdge i) n)).1
  rw [h1, List.append_assoc] at h3
  refine ⟨_, by rw [xd_accepted]; exact h3, ?_⟩
  rw [List.length_append]
  split <;> simp <;> omega

include hf hreg in
/-- C116 (partial): wide to narrow, for a sender that holds its words from edge to edge. Whatever the two clocks do, the beats
delivered and those in the FIFO are the chunks of the words accepted and the first `k < r` chunks of the word that the sender shows
at its next edge. -/
theorem C116_down_partial {r : Nat} (rev : Bool) (hr : 2 ≤ r) (i : Nat → XdIn (BitVec wf))
    (he : Recurs (fun n => (i n).edgeFrom = true)) (hs : XdHolds (crossAfter (downConverter wf wt r rev) f) i)
    (n m : Nat) (hm : NextEdge (fun k => (i k).edgeFrom) n m) :
    let c := crossAfter (downConverter wf wt r rev) f
    ∃ q k, xdDelivered c i n ++ q
        = (xdAccepted c i n).flatMap (chunks wt r rev) ++ (chunks wt r rev (i m).beat).take k ∧
      q.length ≤ depth ∧ k < r ∧ (0 < k → (i m).valid = true) := by
  intro c
  obtain ⟨q, h1, h2⟩ := xd_order (downConverter wf wt r rev) f i hreg hf n
  obtain ⟨k, h3, h4, h5⟩ := C04_downconverter_serialises rev hr (xdConv (downConverter wf wt r rev) f i)
    (xd_sinkStable _ f i he hs) (edgeCount (xdEdge i) n)
  have ec : ∀ d, n + d ≤ m → edgeCount (xdEdge i) (n + d) = edgeCount (xdEdge i) n := by
    intro d hd
    induction d with
    | zero => rfl
    | succ d ih =>
      have a : xdEdge i (n + d) = false := hm.2.2 (n + d) (by omega) (by omega)
      rw [← ih (by omega)]
      simp [← Nat.add_assoc, edgeCount, a]
  have e1 : xdConv (downConverter wf wt r rev) f i (edgeCount (xdEdge i) n) = xdIn (downConverter wf wt r rev) f i m := by
    obtain ⟨d, rfl⟩ := Nat.exists_eq_add_of_le hm.1
    rw [← ec d (Nat.le_refl _)]
    exact atEdges_count _ _ hm.2.1
  rw [e1] at h4 h5
  exact ⟨q, k, by rw [xd_accepted, ← h1]; exact h5, h2, h3, h4⟩

include hf hreg in
/-- C116 (partial): narrow to wide, nothing gets stuck: if the receiver takes words again and again, every closed group is
delivered. -/
theorem C116_up_arrives_partial {r : Nat} (rev : Bool) (hr : 2 ≤ r) (hw : wt = r * wf) (hx : FifoCrosses f)
    (i : Nat → XdIn (BitVec wf)) (he : Recurs (fun n => (i n).edgeFrom = true))
    (ht : Recurs (fun n => (i n).ready = true ∧ (i n).edgeTo = true)) (n : Nat) :
    let c := crossAfter (upConverter wf wt r rev) f
    ∃ m, (groups r (xdAccepted c i n)).1.length ≤ (xdDelivered c i m).length := by
  intro c
  have h3 := (C03_upconverter_packs rev hr hw (xdConv (upConverter wf wt r rev) f i) (edgeCount (xdEdge i) n)).1.length_eq
  have hroom := xd_room (upConverter wf wt r rev) f i hreg hx he ht
  have key : ∃ k, (groups r (accepted (upConverter wf wt r rev) (xdConv (upConverter wf wt r rev) f i)
      (edgeCount (xdEdge i) n))).1.length
      ≤ (delivered (upConverter wf wt r rev) (xdConv (upConverter wf wt r rev) f i) k).length := by
    rw [List.length_append] at h3
    cases hv : ((upConverter wf wt r rev).wave (xdConv (upConverter wf wt r rev) f i) (edgeCount (xdEdge i) n)).valid with
    | false =>
      rw [hv] at h3
      exact ⟨edgeCount (xdEdge i) n, by rw [← h3]; simp⟩
    | true =>
      obtain ⟨k, _, h⟩ := offered_delivered _ _ (C03_upconverter_stable rev _) hroom _ hv
      rw [hv] at h3
      simp only [if_true, List.length_cons, List.length_nil] at h3
      exact ⟨k, by omega⟩
  obtain ⟨k, hk⟩ := key
  obtain ⟨t, _, htk⟩ := edge_exists (xdEdge i) he k
  obtain ⟨m, h⟩ := xd_through (upConverter wf wt r rev) f i hreg hf hx ht t
  rw [htk] at h
  exact ⟨m, by rw [xd_accepted]; exact Nat.le_trans hk h⟩

include hf hreg in
/-- C116 (partial): wide to narrow, nothing gets stuck. -/
theorem C116_down_arrives_partial {r : Nat} (rev : Bool) (hr : 2 ≤ r) (hx : FifoCrosses f)
    (i : Nat → XdIn (BitVec wf)) (he : Recurs (fun n => (i n).edgeFrom = true))
    (hs : XdHolds (crossAfter (downConverter wf wt r rev) f) i)
    (ht : Recurs (fun n => (i n).ready = true ∧ (i n).edgeTo = true)) (n : Nat) :
    let c := crossAfter (downConverter wf wt r rev) f
    ∃ m, r * (xdAccepted c i n).length ≤ (xdDelivered c i m).length := by
  intro c
  obtain ⟨k, h3, h4, h5⟩ := C04_downconverter_serialises rev hr (xdConv (downConverter wf wt r rev) f i)
    (xd_sinkStable _ f i he hs) (edgeCount (xdEdge i) n)
  obtain ⟨m, h⟩ := xd_through (downConverter wf wt r rev) f i hreg hf hx ht n
  refine ⟨m, Nat.le_trans ?_ h⟩
  rw [xd_accepted, h5, List.length_append, List.length_flatMap]
  have : ((accepted (downConverter wf wt r rev) (xdConv (downConverter wf wt r rev) f i)
      (edgeCount (xdEdge i) n)).map fun b => (chunks wt r rev b).length).sum
      = r * (accepted (downConverter wf wt r rev) (xdConv (downConverter wf wt r rev) f i)
      (edgeCount (xdEdge i) n)).length := by
    generalize accepted (downConverter wf wt r rev) (xdConv (downConverter wf wt r rev) f i)
      (edgeCount (xdEdge i) n) = l
    induction l with
    | nil => rfl
    | cons b l ih => rw [List.map_cons, List.sum_cons, ih, chunks_length, List.length_cons, Nat.mul_succ, Nat.add_comm]
  omega

include hreg in
/-- C116 (partial): narrow to wide, the sender is not held up for ever: the sink is ready at some later edge of its clock. -/
theorem C116_up_accepts_partial {r : Nat} (rev : Bool) (hx : FifoCrosses f)
    (i : Nat → XdIn (BitVec wf)) (he : Recurs (fun n => (i n).edgeFrom = true))
    (ht : Recurs (fun n => (i n).ready = true ∧ (i n).edgeTo = true)) :
    Recurs (fun n => (i n).edgeFrom = true ∧ ((crossAfter (upConverter wf wt r rev) f).wave i n).ready = true) := by
  intro n
  obtain ⟨k, hk, h⟩ := xd_room (upConverter wf wt r rev) f i hreg hx he ht (edgeCount (xdEdge i) n)
  exact xd_instant _ f i he n k hk ((C03_upconverter_ready rev _ k).2 (.inr h))

include hreg in
/-- C116 (partial): wide to narrow, a word that is offered is taken at some later edge. -/
theorem C116_down_accepts_partial {r : Nat} (rev : Bool) (hr : 2 ≤ r) (hx : FifoCrosses f)
    (i : Nat → XdIn (BitVec wf)) (he : Recurs (fun n => (i n).edgeFrom = true))
    (hs : XdHolds (crossAfter (downConverter wf wt r rev) f) i)
    (ht : Recurs (fun n => (i n).ready = true ∧ (i n).edgeTo = true)) (n : Nat) (hn : (i n).edgeFrom = true)
    (hv : (i n).valid = true) :
    ∃ m, n ≤ m ∧ (i m).edgeFrom = true ∧
      ((crossAfter (downConverter wf wt r rev) f).wave i m).ready = true := by
  have hroom := xd_room (downConverter wf wt r rev) f i hreg hx he ht
  have e1 : xdConv (downConverter wf wt r rev) f i (edgeCount (xdEdge i) n) = xdIn (downConverter wf wt r rev) f i n :=
    atEdges_count _ _ hn
  obtain ⟨k, hk, h⟩ := down_accepts rev hr _ (xd_sinkStable _ f i he hs) hroom (edgeCount (xdEdge i) n) (by rw [e1]; exact hv)
  exact xd_instant _ f i he n k hk h

end

/-- A sender of four bytes at every second instant, a receiver at every third. -/
def xdDemo : Nat → XdIn (BitVec 8) := fun n =>
  ⟨n % 2 == 0, n % 3 == 0, n < 8, ⟨false, false, BitVec.ofNat 8 (n / 2)⟩, true⟩

/-- The converter from 8 to 16 bits in front of the crossing. -/
example : (xdAccepted (crossAfter (upConverter 8 16 2 false) (queueFifo 18 8)) xdDemo 30).map (·.payload) = [0, 1, 2, 3] ∧
    (xdDelivered (crossAfter (upConverter 8 16 2 false) (queueFifo 18 8)) xdDemo 30).map (·.payload)
      = [0x0100, 0x0302] := by decide +kernel

/-- C116 (full claim, refuted): the same converter behind the crossing, as `put_width_converter_first=False` places it. It has the clock
of the sender, so that it takes the byte 1 twice and misses the byte 3. -/
theorem C116_behind_refuted :
    ¬ ∀ (i : Nat → XdIn (BitVec 8)) (n : Nat), ∃ q, List.Forall₂ (Packs 2 false)
      (xdDelivered (crossBefore (upConverter 8 16 2 false) (queueFifo 10 8)) i n ++ q)
      (groups 2 (xdAccepted (crossBefore (upConverter 8 16 2 false) (queueFifo 10 8)) i n)).1 := by
  intro h
  obtain ⟨q, hq⟩ := h xdDemo 30
  have h1 : xdAccepted (crossBefore (upConverter 8 16 2 false) (queueFifo 10 8)) xdDemo 30
      = [⟨false, false, 0⟩, ⟨false, false, 1⟩, ⟨false, false, 2⟩, ⟨false, false, 3⟩] := by decide +kernel
  have h2 : xdDelivered (crossBefore (upConverter 8 16 2 false) (queueFifo 10 8)) xdDemo 30
      = [⟨false, false, 0x0100⟩, ⟨false, false, 0x0201⟩] := by decide +kernel
  have h3 : (groups 2 ([⟨false, false, 0⟩, ⟨false, false, 1⟩, ⟨false, false, 2⟩, ⟨false, false, 3⟩] :
      List (Beat (BitVec 8)))).1
      = [[⟨false, false, 0⟩, ⟨false, false, 1⟩], [⟨false, false, 2⟩, ⟨false, false, 3⟩]] := by decide
  rw [h1, h2, h3] at hq
  cases hq with
  | cons _ hq =>
    cases hq with
    | cons hp _ =>
      have := hp.2.2 0 (by decide)
      revert this
      decide

/-- The reference FIFO meets the conditions for progress. -/
theorem C116_crosses_inhabited (w depth : Nat) (hd : 0 < depth) : FifoCrosses (queueFifo w depth) where
  live := C101_live_inhabited w depth
  room := (C115_flows_inhabited w depth hd).room
  roomStays := by
    intro i n
    simp only [Circuit.wave, Circuit.st_succ]
    generalize (queueFifo w depth).st i n = s
    intro h1 h2
    have h1' : s.length < depth := by simpa [queueFifo] using h1
    simp only [queueFifo, h2, decide_eq_true_eq, Bool.false_and, Bool.false_eq_true, if_false, List.append_nil]
    split
    · rw [List.length_tail]; omega
    · exact h1'

/-- A sender that shows one word for ever at every second instant, a receiver that is ready at every third. -/
def xdDemoDown : Nat → XdIn (BitVec 16) := fun n =>
  ⟨n % 2 == 0, n % 3 == 0, true, ⟨true, true, 0x0201⟩, n % 6 == 0⟩

example : XdHolds (crossAfter (downConverter 16 8 2 false) (queueFifo 10 8)) xdDemoDown :=
  fun _ _ _ _ _ _ => ⟨rfl, rfl⟩

example : Recurs (fun n => (xdDemoDown n).edgeFrom = true) ∧
    Recurs (fun n => (xdDemoDown n).ready = true ∧ (xdDemoDown n).edgeTo = true) := by
  have h0 : ∀ n, (6 * n) % 2 = 0 ∧ (6 * n) % 3 = 0 ∧ (6 * n) % 6 = 0 := by intro n; omega
  refine ⟨fun n => ⟨6 * n, by omega, ?_⟩, fun n => ⟨6 * n, by omega, ?_, ?_⟩⟩
  · change ((6 * n) % 2 == 0) = true
    rw [(h0 n).1]; rfl
  · change ((6 * n) % 6 == 0) = true
    rw [(h0 n).2.2]; rfl
  · change ((6 * n) % 3 == 0) = true
    rw [(h0 n).2.1]; rfl

example : (xdAccepted (crossAfter (downConverter 16 8 2 false) (queueFifo 10 8)) xdDemoDown 30).length = 6 ∧
    xdDelivered (crossAfter (downConverter 16 8 2 false) (queueFifo 10 8)) xdDemoDown 30
      = [⟨true, false, 1⟩, ⟨false, true, 2⟩, ⟨true, false, 1⟩, ⟨false, true, 2⟩] := by decide +kernel

end Lambdalib
