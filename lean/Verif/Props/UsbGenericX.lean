import Verif.Spec.UsbGenericX
import Verif.Props.UsbGeneric
import Verif.Props.Pipeline
import Verif.Props.CrossDomain
import Verif.Props.I2cBridge

/-! `USBGenericDevice` between the clocks of luna's device and of the user (C119). -/

namespace Lambdalib

theorem recurs_gate {a b : Nat → Bool} (h : Recurs (fun t => a t = true ∧ b t = true)) : Recurs (fun t => (a t && b t) = true) := by
  intro n
  obtain ⟨m, hm, h1, h2⟩ := h n
  refine ⟨m, hm, ?_⟩
  beta_reduce
  rw [h1, h2]; rfl

/-- Whatever has gone into a FIFO wrapper comes out, if words are asked for again and again. -/
theorem fifo_through {σ : Type} {depth : Nat} (f : Circuit σ (FifoIn (1 + (1 + 8))) (FifoOut (1 + (1 + 8)))) (hf : FifoContract f depth)
    (hx : FifoCrosses f) (x : Nat → SIn (BitVec 8)) (hr : Recurs (fun t => (x t).ready = true)) (n : Nat) :
    ∃ m, (accepted (fifoWrapper f) x n).length ≤ (delivered (fifoWrapper f) x m).length := by
  refine good_delivers (fifoWrapper f) x (C08_fifo_stable f hf _) hr ?_ n
  intro n h
  rw [(fifoWrapper_counts f _ n).1, (fifoWrapper_counts f _ n).2] at h
  obtain ⟨m, hm, hv⟩ := hx.live _ n h
  refine ⟨m, hm, ?_⟩
  rw [fifoWrapper_wave]; exact hv

theorem usbX_prefix {β : Type} (v r : Nat → Bool) (b : Nat → β) {m n : Nat} (h : m ≤ n) :
    transferred v r b m <+: transferred v r b n := by
  obtain ⟨d, rfl⟩ := Nat.exists_eq_add_of_le h
  exact transferred_prefix v r b m d

theorem transferred_length {β γ : Type} {v v' r r' : Nat → Bool} (b : Nat → β) (b' : Nat → γ) (hv : ∀ n, v n = v' n)
    (hr : ∀ n, r n = r' n) (n : Nat) : (transferred v r b n).length = (transferred v' r' b' n).length := by
  rw [← List.length_map (fun _ => ()), ← List.length_map (as := transferred v' r' b' n) (fun _ => ()), transferred_map, transferred_map]
  exact congrArg List.length (transferred_congr hv hr (fun _ => rfl) n)

theorem usbAsync_lengths {σ : Type} (f : Circuit σ (FifoIn (1 + (1 + 8))) (FifoOut (1 + (1 + 8)))) (x : Nat → SIn (BitVec 8)) (n : Nat) :
    (accepted (usbAsyncOutAdapter f) x n).length = (accepted (fifoWrapper f) (fun t => usbAsyncIn (x t)) n).length ∧
    (delivered (usbAsyncOutAdapter f) x n).length = (delivered (fifoWrapper f) (fun t => usbAsyncIn (x t)) n).length ∧
    (accepted (usbAsyncInAdapter f) x n).length = (accepted (fifoWrapper f) x n).length ∧
    (delivered (usbAsyncInAdapter f) x n).length = (delivered (fifoWrapper f) x n).length := by
  refine ⟨?_, ?_, ?_, ?_⟩ <;> apply transferred_length <;> intro k
  · rfl
  · simp only [Circuit.wave, usbAsyncOut_st]; rfl
  · simp only [Circuit.wave, usbAsyncOut_st]; rfl
  · rfl
  · rfl
  · simp only [Circuit.wave, usbAsyncIn_st]; rfl
  · simp only [Circuit.wave, usbAsyncIn_st]; rfl
  · rfl

/-- There is room at an edge of the writer's clock again and again. -/
theorem fifo_room_edge {σ : Type} (f : Circuit σ (FifoIn (1 + (1 + 8))) (FifoOut (1 + (1 + 8)))) (hx : FifoCrosses f)
    (x : Nat → SIn (BitVec 8)) (e : Nat → Bool) (he : Recurs (fun t => e t = true)) (hw : ∀ t, e t = false → (x t).valid = false)
    (hr : Recurs (fun t => (x t).ready = true)) :
    Recurs (fun t => e t = true ∧ ((fifoWrapper f).wave x t).ready = true) := by
  intro n
  obtain ⟨m, hm, h⟩ := hx.room (fun k => fifoDrive (x k)) hr n
  obtain ⟨m', hm', hedge⟩ := he m
  obtain ⟨d, rfl⟩ := Nat.exists_eq_add_of_le hm'
  clear hm'
  beta_reduce at hedge
  induction d generalizing m with
  | zero => exact ⟨m, hm, hedge, by rw [fifoWrapper_wave]; exact h⟩
  | succ d ih =>
    cases ht : e m with
    | true => exact ⟨m, hm, ht, by rw [fifoWrapper_wave]; exact h⟩
    | false =>
      have e2 : m + 1 + d = m + (d + 1) := by omega
      exact ih (m + 1) (by omega) (hx.roomStays _ m h (hw m ht)) (by rw [e2]; exact hedge)

section
variable {σ τ : Type} (fo : Circuit σ (FifoIn (1 + (1 + 8))) (FifoOut (1 + (1 + 8))))
  (fi : Circuit τ (FifoIn (1 + (1 + 8))) (FifoOut (1 + (1 + 8)))) (sizes : List (Nat × Nat)) (i : Nat → UsbDevXIn)

theorem usbX_st (n : Nat) : (usbGenericX fo fi sizes).st i n =
    (usbGeneric (usbAsyncOutAdapter fo) (usbAsyncInAdapter fi) sizes).st (fun t => usbGated (i t)) n := by
  induction n with
  | zero => rfl
  | succ n ih => rw [Circuit.st_succ, Circuit.st_succ, ih]; rfl

/-- The signals of the device are the same for the gated inputs, as the FIFOs show their registers. -/
theorem usbX_out (ho : FifoRegistered fo) (hi : FifoRegistered fi) (s : (UsbEp → σ) × (UsbEp → τ)) (x : UsbDevXIn) :
    let g := (usbGeneric (usbAsyncOutAdapter fo) (usbAsyncInAdapter fi) sizes)
    (g.out s x.dev).outReady = (g.out s (usbGated x)).outReady ∧ (g.out s x.dev).inp = (g.out s (usbGated x)).inp ∧
    (g.out s x.dev).sinkReady = (g.out s (usbGated x)).sinkReady ∧ (g.out s x.dev).source = (g.out s (usbGated x)).source := by
  have e1 : ∀ s x y, (usbAsyncOutAdapter fo).out s x = (usbAsyncOutAdapter fo).out s y := by
    intro s x y
    simp only [usbAsyncOutAdapter, fifoWrapper]
    rw [ho s (fifoDrive (usbAsyncIn x)) (fifoDrive (usbAsyncIn y))]
  have e2 : ∀ s x y, (usbAsyncInAdapter fi).out s x = (usbAsyncInAdapter fi).out s y := by
    intro s x y
    simp only [usbAsyncInAdapter, fifoWrapper]
    rw [hi s (fifoDrive x) (fifoDrive y)]
  intro g
  refine ⟨funext fun j => ?_, funext fun j => ?_, funext fun j => ?_, funext fun j => ?_⟩
  · simp only [g, usbGeneric]
    cases usbEpNum sizes false j with
    | none => rfl
    | some e => exact congrArg SOut.ready (e1 _ _ _)
  · simp only [g, usbGeneric]
    cases usbEpNum sizes true j with
    | none => rfl
    | some e => dsimp only; rw [e2 (s.2 e) (usbInIn e x.dev) (usbInIn e (usbGated x))]
  · simp only [g, usbGeneric, usbSinkReady]
    cases usbEpOf sizes true j with
    | none => rfl
    | some e => exact congrArg SOut.ready (e2 _ _ _)
  · simp only [g, usbGeneric, usbSource]
    cases usbEpOf sizes false j with
    | none => rfl
    | some e => dsimp only; rw [e1 (s.1 e) (usbOutIn e x.dev) (usbOutIn e (usbGated x))]

variable (ho : FifoRegistered fo) (hi : FifoRegistered fi)

include ho hi

theorem usbX_wave (n : Nat) :
    let w := (usbGeneric (usbAsyncOutAdapter fo) (usbAsyncInAdapter fi) sizes).wave (fun t => usbGated (i t)) n
    let v := (usbGenericX fo fi sizes).wave i n
    v.outReady = w.outReady ∧ v.inp = w.inp ∧ v.sinkReady = w.sinkReady ∧ v.source = w.source := by
  simp only [Circuit.wave]
  rw [usbX_st]
  exact usbX_out fo fi sizes ho hi _ _

/-- What goes over the streams between two clocks is what goes over them with the gated inputs. -/
theorem usbX_lists (k n : Nat) :
    usbXHostSent (usbGenericX fo fi sizes) i k n
      = usbHostSent (usbAsyncOutAdapter fo) (usbAsyncInAdapter fi) sizes (fun t => usbGated (i t)) k n ∧
    usbXUserGot (usbGenericX fo fi sizes) i k n
      = usbUserGot (usbAsyncOutAdapter fo) (usbAsyncInAdapter fi) sizes (fun t => usbGated (i t)) k n ∧
    usbXUserSent (usbGenericX fo fi sizes) i k n
      = usbUserSent (usbAsyncOutAdapter fo) (usbAsyncInAdapter fi) sizes (fun t => usbGated (i t)) k n ∧
    usbXHostGot (usbGenericX fo fi sizes) i k n
      = usbHostGot (usbAsyncOutAdapter fo) (usbAsyncInAdapter fi) sizes (fun t => usbGated (i t)) k n := by
  have h := usbX_wave fo fi sizes i ho hi
  refine ⟨?_, ?_, ?_, ?_⟩
  · exact congrArg (List.map usbByte) (transferred_congr (fun _ => rfl) (fun t => congrFun (h t).1 k) (fun _ => rfl) n)
  · exact congrArg (List.map usbByte)
      (transferred_congr (fun t => congrArg Prod.fst (congrFun (h t).2.2.2 k)) (fun _ => rfl) (fun t => congrArg Prod.snd (congrFun (h t).2.2.2 k)) n)
  · exact congrArg (List.map usbByte) (transferred_congr (fun _ => rfl) (fun t => congrFun (h t).2.2.1 k) (fun _ => rfl) n)
  · exact congrArg (List.map usbByte)
      (transferred_congr (fun t => congrArg Prod.fst (congrFun (h t).2.1 k)) (fun _ => rfl) (fun t => congrArg Prod.snd (congrFun (h t).2.1 k)) n)

/-- **C119.** Between two clocks, what luna's OUT endpoint `k + 1` hands over at edges of its clock is what the user takes from
`sources[k]` at edges of the other, byte by byte with the ends of packets, once and in order, but for at most the FIFO's depth. -/
theorem C119_out {depth : Nat} (hf : FifoContract fo depth) (k : Nat) (s : Nat × Nat) (hs : sizes[k]? = some s) (h0 : s.2 ≠ 0) (n : Nat) :
    ∃ q, usbXHostSent (usbGenericX fo fi sizes) i (k + 1) n = usbXUserGot (usbGenericX fo fi sizes) i k n ++ q ∧ q.length ≤ depth := by
  rw [(usbX_lists fo fi sizes i ho hi (k + 1) n).1, (usbX_lists fo fi sizes i ho hi k n).2.1]
  exact C113_out _ _ _ _ (C113_adapters fo hf).2.1 k s hs h0 n

/-- **C119.** The other direction: what the user puts into `sinks[k]` at edges of `sync` is what luna's IN endpoint takes at edges of
`usb`. -/
theorem C119_in {depth : Nat} (hf : FifoContract fi depth) (k : Nat) (s : Nat × Nat) (hs : sizes[k]? = some s) (h0 : s.1 ≠ 0) (n : Nat) :
    ∃ q, usbXUserSent (usbGenericX fo fi sizes) i k n = usbXHostGot (usbGenericX fo fi sizes) i (k + 1) n ++ q ∧ q.length ≤ depth := by
  rw [(usbX_lists fo fi sizes i ho hi k n).2.2.1, (usbX_lists fo fi sizes i ho hi (k + 1) n).2.2.2]
  exact C113_in _ _ _ _ (C113_adapters fi hf).2.2 k s hs h0 n

/-- **C119.** Whatever luna's OUT endpoint has handed over is taken by the user at some time, if the user is ready at edges of their clock
again and again. -/
theorem C119_out_arrives {depth : Nat} (hf : FifoContract fo depth) (hx : FifoCrosses fo) (k : Nat) (s : Nat × Nat)
    (hs : sizes[k]? = some s) (h0 : s.2 ≠ 0) (hr : Recurs (fun t => (i t).dev.srcReady k = true ∧ (i t).edgeSync = true)) (n : Nat) :
    ∃ m, n ≤ m ∧ usbXHostSent (usbGenericX fo fi sizes) i (k + 1) n <+: usbXUserGot (usbGenericX fo fi sizes) i k m := by
  have key : ∃ m, (usbXHostSent (usbGenericX fo fi sizes) i (k + 1) n).length ≤ (usbXUserGot (usbGenericX fo fi sizes) i k m).length := by
    obtain ⟨m, h⟩ := fifo_through fo hf hx (fun t => usbAsyncIn (usbOutIn ⟨false, 1 + k, s.2, k⟩ (usbGated (i t)))) (recurs_gate hr) n
    refine ⟨m, ?_⟩
    rw [(usbX_lists fo fi sizes i ho hi (k + 1) n).1, (usbX_lists fo fi sizes i ho hi k m).2.1,
      (usbGeneric_out _ _ sizes _ k s hs h0 n).1, (usbGeneric_out _ _ sizes _ k s hs h0 m).2, List.length_map, List.length_map,
      (usbAsync_lengths fo _ n).1, (usbAsync_lengths fo _ m).2.1]
    exact h
  obtain ⟨m, h⟩ := key
  have mono : ∀ a b, a ≤ b → usbXUserGot (usbGenericX fo fi sizes) i k a <+: usbXUserGot (usbGenericX fo fi sizes) i k b ∧
      usbXHostSent (usbGenericX fo fi sizes) i (k + 1) a <+: usbXHostSent (usbGenericX fo fi sizes) i (k + 1) b :=
    fun a b h => ⟨(usbX_prefix _ _ _ h).map _, (usbX_prefix _ _ _ h).map _⟩
  obtain ⟨q, hq, _⟩ := C119_out fo fi sizes i ho hi hf k s hs h0 (max n m)
  have a1 := (mono n (max n m) (Nat.le_max_left n m)).2
  have a2 := (mono m (max n m) (Nat.le_max_right n m)).1.length_le
  exact ⟨max n m, Nat.le_max_left n m, List.prefix_of_prefix_length_le a1 ⟨q, hq.symm⟩ (by omega)⟩

/-- **C119.** Whatever the user has put into `sinks[k]` is taken by luna's IN endpoint at some time, if that is ready at edges of its clock
again and again. -/
theorem C119_in_arrives {depth : Nat} (hf : FifoContract fi depth) (hx : FifoCrosses fi) (k : Nat) (s : Nat × Nat)
    (hs : sizes[k]? = some s) (h0 : s.1 ≠ 0) (hr : Recurs (fun t => (i t).dev.inReady (k + 1) = true ∧ (i t).edgeUsb = true)) (n : Nat) :
    ∃ m, n ≤ m ∧ usbXUserSent (usbGenericX fo fi sizes) i k n <+: usbXHostGot (usbGenericX fo fi sizes) i (k + 1) m := by
  have key : ∃ m, (usbXUserSent (usbGenericX fo fi sizes) i k n).length ≤ (usbXHostGot (usbGenericX fo fi sizes) i (k + 1) m).length := by
    obtain ⟨m, h⟩ := fifo_through fi hf hx (fun t => usbInIn ⟨true, 1 + k, s.1, k⟩ (usbGated (i t)))
      (by rw [Nat.add_comm k 1] at hr; exact recurs_gate hr) n
    refine ⟨m, ?_⟩
    rw [(usbX_lists fo fi sizes i ho hi k n).2.2.1, (usbX_lists fo fi sizes i ho hi (k + 1) m).2.2.2,
      (usbGeneric_in _ _ sizes _ k s hs h0 n).1, (usbGeneric_in _ _ sizes _ k s hs h0 m).2, List.length_map, List.length_map,
      (usbAsync_lengths fi _ n).2.2.1, (usbAsync_lengths fi _ m).2.2.2]
    exact h
  obtain ⟨m, h⟩ := key
  have mono : ∀ a b, a ≤ b → usbXHostGot (usbGenericX fo fi sizes) i (k + 1) a <+: usbXHostGot (usbGenericX fo fi sizes) i (k + 1) b ∧
      usbXUserSent (usbGenericX fo fi sizes) i k a <+: usbXUserSent (usbGenericX fo fi sizes) i k b :=
    fun a b h => ⟨(usbX_prefix _ _ _ h).map _, (usbX_prefix _ _ _ h).map _⟩
  obtain ⟨q, hq, _⟩ := C119_in fo fi sizes i ho hi hf k s hs h0 (max n m)
  have a1 := (mono n (max n m) (Nat.le_max_left n m)).2
  have a2 := (mono m (max n m) (Nat.le_max_right n m)).1.length_le
  exact ⟨max n m, Nat.le_max_left n m, List.prefix_of_prefix_length_le a1 ⟨q, hq.symm⟩ (by omega)⟩

/-- **C119.** Neither side is held up for ever: luna's OUT endpoint finds room at an edge of its clock again and again if the user takes
bytes again and again, and the user finds room at an edge of theirs if luna's IN endpoint does. -/
theorem C119_room (hxo : FifoCrosses fo) (hxi : FifoCrosses fi) (k : Nat) (s : Nat × Nat) (hs : sizes[k]? = some s)
    (hu : Recurs (fun t => (i t).edgeUsb = true)) (hy : Recurs (fun t => (i t).edgeSync = true)) :
    (s.2 ≠ 0 → Recurs (fun t => (i t).dev.srcReady k = true ∧ (i t).edgeSync = true) →
      Recurs (fun t => (i t).edgeUsb = true ∧ ((usbGenericX fo fi sizes).wave i t).outReady (k + 1) = true)) ∧
    (s.1 ≠ 0 → Recurs (fun t => (i t).dev.inReady (k + 1) = true ∧ (i t).edgeUsb = true) →
      Recurs (fun t => (i t).edgeSync = true ∧ ((usbGenericX fo fi sizes).wave i t).sinkReady k = true)) := by
  constructor
  · intro h0 hr n
    obtain ⟨_, h2⟩ := usbEp_find sizes false k s hs h0
    obtain ⟨m, hm, h3, h4⟩ := fifo_room_edge fo hxo (fun t => usbAsyncIn (usbOutIn ⟨false, 1 + k, s.2, k⟩ (usbGated (i t))))
      (fun t => (i t).edgeUsb) hu (fun t h => by simp [usbAsyncIn, usbOutIn, usbGated, h]) (recurs_gate hr) n
    refine ⟨m, hm, h3, ?_⟩
    rw [(usbX_wave fo fi sizes i ho hi m).1, Nat.add_comm k 1]
    have := (usbGeneric_st (usbAsyncOutAdapter fo) (usbAsyncInAdapter fi) sizes (fun t => usbGated (i t)) ⟨false, 1 + k, s.2, k⟩ m).1
    rw [usbAsyncOut_st] at this
    simp only [Circuit.wave] at h4 ⊢
    rw [← this] at h4
    simp only [usbGeneric, h2]
    exact h4
  · intro h0 hr n
    obtain ⟨h1, _⟩ := usbEp_find sizes true k s hs h0
    obtain ⟨m, hm, h3, h4⟩ := fifo_room_edge fi hxi (fun t => usbInIn ⟨true, 1 + k, s.1, k⟩ (usbGated (i t)))
      (fun t => (i t).edgeSync) hy (fun t h => by simp [usbInIn, usbGated, h])
      (by rw [Nat.add_comm k 1] at hr; exact recurs_gate hr) n
    refine ⟨m, hm, h3, ?_⟩
    rw [(usbX_wave fo fi sizes i ho hi m).2.2.1]
    have := (usbGeneric_st (usbAsyncOutAdapter fo) (usbAsyncInAdapter fi) sizes (fun t => usbGated (i t)) ⟨true, 1 + k, s.1, k⟩ m).2
    rw [usbAsyncIn_st] at this
    simp only [Circuit.wave] at h4 ⊢
    rw [← this] at h4
    simp only [usbGeneric, usbSinkReady, h1]
    exact h4

omit ho hi in
/-- **C119.** Seen at an edge of the user's clock, an activity bit is high exactly if a byte is put into `sinks[k]` or taken from
`sources[k]` at this edge; at other instants no byte is. -/
theorem C119_activity (k n : Nat) :
    (usbXUserSent (usbGenericX fo fi sizes) i k (n + 1) ≠ usbXUserSent (usbGenericX fo fi sizes) i k n ↔
      (i n).edgeSync = true ∧ ((usbGenericX fo fi sizes).wave i n).txActivity k = true) ∧
    (usbXUserGot (usbGenericX fo fi sizes) i k (n + 1) ≠ usbXUserGot (usbGenericX fo fi sizes) i k n ↔
      (i n).edgeSync = true ∧ ((usbGenericX fo fi sizes).wave i n).rxActivity k = true) := by
  have hlen : ∀ s : Nat × Nat, sizes[k]? = some s → decide (k < sizes.length) = true := by
    intro s hs
    rw [List.getElem?_eq_some_iff] at hs
    exact decide_eq_true hs.1
  have hadd : ∀ (l m : List (BitVec 8 × Bool)) (b : Bool) (x : BitVec 8 × Bool),
      m = l ++ (if b then [x] else []) → (m ≠ l ↔ b = true) := by
    rintro l m b x rfl
    cases b <;> simp
  constructor
  · have e : ((usbGenericX fo fi sizes).wave i n).txActivity k =
        (((i n).dev.sink k).1 && ((usbGenericX fo fi sizes).wave i n).sinkReady k) := by
      cases hs : sizes[k]? with
      | none =>
        have h := (usbEp_none sizes true k (by rw [hs]; nofun)).1
        simp only [Circuit.wave, usbGenericX, usbGeneric, usbSinkReady, h, Bool.and_false]
      | some s => simp only [Circuit.wave, usbGenericX, usbGeneric, hlen s hs, Bool.true_and]
    rw [e, hadd _ _ (((i n).dev.sink k).1 && (i n).edgeSync && ((usbGenericX fo fi sizes).wave i n).sinkReady k) (usbByte ((i n).dev.sink k).2)]
    · simp only [Bool.and_eq_true]
      constructor
      · rintro ⟨⟨a, b⟩, c⟩; exact ⟨b, a, c⟩
      · rintro ⟨b, a, c⟩; exact ⟨⟨a, b⟩, c⟩
    · simp only [usbXUserSent, transferred, List.map_append]
      split <;> rfl
  · have e : ((usbGenericX fo fi sizes).wave i n).rxActivity k =
        ((((usbGenericX fo fi sizes).wave i n).source k).1 && (i n).dev.srcReady k) := by
      cases hs : sizes[k]? with
      | none =>
        have h := (usbEp_none sizes false k (by rw [hs]; nofun)).1
        simp only [Circuit.wave, usbGenericX, usbGeneric, usbSource, h, Bool.false_and, Bool.and_false]
      | some s => simp only [Circuit.wave, usbGenericX, usbGeneric, hlen s hs, Bool.true_and]
    rw [e, hadd _ _ ((((usbGenericX fo fi sizes).wave i n).source k).1 && ((i n).dev.srcReady k && (i n).edgeSync))
      (usbByte (((usbGenericX fo fi sizes).wave i n).source k).2)]
    · simp only [Bool.and_eq_true]
      constructor
      · rintro ⟨a, c, b⟩; exact ⟨b, a, c⟩
      · rintro ⟨b, a, c⟩; exact ⟨a, c, b⟩
    · simp only [usbXUserGot, transferred, List.map_append]
      split <;> rfl

/-- **C119.** A byte offered at a source or to luna's IN endpoint stays until an edge of the reader's clock takes it. -/
theorem C119_stable {do_ di : Nat} (hfo : FifoContract fo do_) (hfi : FifoContract fi di) (k : Nat) (s : Nat × Nat)
    (hs : sizes[k]? = some s) (n : Nat) :
    (s.2 ≠ 0 → (((usbGenericX fo fi sizes).wave i n).source k).1 = true → ((i n).dev.srcReady k && (i n).edgeSync) = false →
      ((usbGenericX fo fi sizes).wave i (n + 1)).source k = ((usbGenericX fo fi sizes).wave i n).source k) ∧
    (s.1 ≠ 0 → (((usbGenericX fo fi sizes).wave i n).inp (k + 1)).1 = true → ((i n).dev.inReady (k + 1) && (i n).edgeUsb) = false →
      ((usbGenericX fo fi sizes).wave i (n + 1)).inp (k + 1) = ((usbGenericX fo fi sizes).wave i n).inp (k + 1)) := by
  constructor
  · intro h0
    obtain ⟨h1, _⟩ := usbEp_find sizes false k s hs h0
    have e : ∀ n, ((usbGenericX fo fi sizes).wave i n).source k =
        (((fifoWrapper fo).wave (fun t => usbAsyncIn (usbOutIn ⟨false, 1 + k, s.2, k⟩ (usbGated (i t)))) n).valid,
         ((fifoWrapper fo).wave (fun t => usbAsyncIn (usbOutIn ⟨false, 1 + k, s.2, k⟩ (usbGated (i t)))) n).beat) := by
      intro n
      rw [(usbX_wave fo fi sizes i ho hi n).2.2.2]
      have := (usbGeneric_st (usbAsyncOutAdapter fo) (usbAsyncInAdapter fi) sizes (fun t => usbGated (i t)) ⟨false, 1 + k, s.2, k⟩ n).1
      rw [usbAsyncOut_st] at this
      simp only [Circuit.wave]
      rw [← this]
      simp only [usbGeneric, usbSource, h1]
      rfl
    rw [e n, e (n + 1)]
    intro hv hr
    obtain ⟨a, b⟩ := C08_fifo_stable fo hfo _ n hv hr
    exact Prod.ext (a.trans hv.symm) b
  · intro h0
    obtain ⟨_, h2⟩ := usbEp_find sizes true k s hs h0
    rw [Nat.add_comm k 1]
    have e : ∀ n, ((usbGenericX fo fi sizes).wave i n).inp (1 + k) =
        (((fifoWrapper fi).wave (fun t => usbInIn ⟨true, 1 + k, s.1, k⟩ (usbGated (i t))) n).valid,
         ⟨false, ((fifoWrapper fi).wave (fun t => usbInIn ⟨true, 1 + k, s.1, k⟩ (usbGated (i t))) n).beat.last,
           ((fifoWrapper fi).wave (fun t => usbInIn ⟨true, 1 + k, s.1, k⟩ (usbGated (i t))) n).beat.payload⟩) := by
      intro n
      rw [(usbX_wave fo fi sizes i ho hi n).2.1]
      have := (usbGeneric_st (usbAsyncOutAdapter fo) (usbAsyncInAdapter fi) sizes (fun t => usbGated (i t)) ⟨true, 1 + k, s.1, k⟩ n).2
      rw [usbAsyncIn_st] at this
      simp only [Circuit.wave]
      rw [← this]
      simp only [usbGeneric, h2]
      rfl
    rw [e n, e (n + 1)]
    intro hv hr
    obtain ⟨a, b⟩ := C08_fifo_stable fi hfi _ n hv hr
    refine Prod.ext (a.trans hv.symm) ?_
    beta_reduce at b
    dsimp only
    rw [b]

end

theorem queueFifo_registered (w depth : Nat) : FifoRegistered (queueFifo w depth) := fun _ _ _ => rfl

/-- A clock of luna at every second instant, one of the user at every third; bytes to endpoints 1 and 2 and from the user. -/
def usbXDemo (t : Nat) : UsbDevXIn where
  edgeUsb := t % 2 == 0
  edgeSync := t % 3 == 0
  dev :=
    { out := fun j => (decide (t < 8), ⟨false, t == 6, BitVec.ofNat 8 (t / 2 + 16 * j)⟩)
      inReady := fun _ => true
      sink := fun k => (decide (t < 9), ⟨false, t == 6, BitVec.ofNat 8 (t / 3 + 64 * k)⟩)
      srcReady := fun _ => true }

/-- Two pairs, the second without IN endpoint: the theorems apply, and all that was sent has arrived. -/
example :
    let c := usbGenericX (queueFifo (1 + (1 + 8)) 8) (queueFifo (1 + (1 + 8)) 8) [(64, 64), (0, 64)]
    FifoContract (queueFifo (1 + (1 + 8)) 8) 8 ∧ FifoCrosses (queueFifo (1 + (1 + 8)) 8) ∧
    usbXHostSent c usbXDemo 2 30 = [(32, false), (33, false), (34, false), (35, true)] ∧
    usbXUserGot c usbXDemo 1 30 = [(32, false), (33, false), (34, false), (35, true)] ∧
    usbXUserGot c usbXDemo 0 30 = [(16, false), (17, false), (18, false), (19, true)] ∧
    usbXHostGot c usbXDemo 1 30 = [(0, false), (1, false), (2, true)] ∧ usbXUserSent c usbXDemo 1 30 = [] := by
  refine ⟨C08_fifo_contract_inhabited _ 8, C116_crosses_inhabited _ 8 (by decide), ?_⟩
  decide +kernel

end Lambdalib
