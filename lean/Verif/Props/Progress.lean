import Verif.Props.CrossDomain
import Verif.Props.StreamUtils
import Verif.Props.ArbiterPackets

/-! C122: the stream components keep moving. A receiver that is ready again and again gets everything, and no sender waits for
ever. -/

namespace Lambdalib

/-- If something is not the case at any later time, it is false from now on. -/
theorem never_of_not {f : Nat → Bool} {n : Nat} (h : ¬ ∃ m, n ≤ m ∧ f m = true) (m : Nat) (hm : n ≤ m) : f m = false := by
  cases hf : f m with
  | false => rfl
  | true => exact absurd ⟨m, hm, hf⟩ h

/-- An offer that is kept meets a ready receiver. -/
theorem kept_meets {valid ready : Nat → Bool} (hk : ∀ n, valid n = true → ready n = false → valid (n + 1) = true)
    (hr : Recurs (fun m => ready m = true)) (n : Nat) (hv : valid n = true) : ∃ m, n ≤ m ∧ valid m = true ∧ ready m = true := by
  refine Classical.byContradiction fun hno => ?_
  have key : ∀ m, n ≤ m → valid m = true ∧ ready m = false := by
    intro m hm
    induction m, hm using Nat.le_induction with
    | base =>
      refine ⟨hv, ?_⟩
      cases h : ready n with
      | false => rfl
      | true => exact absurd ⟨n, Nat.le_refl n, hv, h⟩ hno
    | succ m hm ih =>
      have hv' := hk m ih.1 ih.2
      refine ⟨hv', ?_⟩
      cases h : ready (m + 1) with
      | false => rfl
      | true => exact absurd ⟨m + 1, by omega, hv', h⟩ hno
  obtain ⟨m, hm, h⟩ := hr n
  rw [(key m hm).2] at h
  cases h

theorem transferred_mono {β : Type} (valid ready : Nat → Bool) (beat : Nat → β) {n m : Nat} (h : n ≤ m) :
    (transferred valid ready beat n).length ≤ (transferred valid ready beat m).length := by
  induction m, h using Nat.le_induction with
  | base => exact Nat.le_refl _
  | succ m _ ih => rw [transferred_succ, List.length_append]; omega

theorem transferred_grows {β : Type} (valid ready : Nat → Bool) (beat : Nat → β) {n m : Nat} (h : n ≤ m)
    (hv : valid m = true) (hr : ready m = true) :
    (transferred valid ready beat n).length < (transferred valid ready beat (m + 1)).length := by
  have := transferred_mono valid ready beat h
  rw [transferred_succ, List.length_append, hv, hr]
  simp
  omega

section Converters
variable {wf wt r : Nat} (rev : Bool)

/-- **C122.** Narrow to wide: while the receiver is ready, a beat is taken in every cycle. -/
theorem C122_up_full_speed (i : Nat → SIn (BitVec wf)) (n : Nat) (h : (i n).ready = true) :
    ((upConverter wf wt r rev).wave i n).ready = true :=
  (C03_upconverter_ready rev i n).2 (.inr h)

/-- **C122.** Narrow to wide: a word is offered in the cycle after the beat that completes it. -/
theorem C122_up_latency (hr : 2 ≤ r) (hw : wt = r * wf) (i : Nat → SIn (BitVec wf)) (n : Nat)
    (h : (groups r (accepted (upConverter wf wt r rev) i n)).1.length
      < (groups r (accepted (upConverter wf wt r rev) i (n + 1))).1.length) :
    ((upConverter wf wt r rev).wave i (n + 1)).valid = true := by
  have h0 := (C03_upconverter_packs rev hr hw i n).1.length_eq
  have h1 := (C03_upconverter_packs rev hr hw i (n + 1)).1.length_eq
  have e : delivered (upConverter wf wt r rev) i (n + 1) = delivered (upConverter wf wt r rev) i n ++
    (if ((upConverter wf wt r rev).wave i n).valid && (i n).ready then [((upConverter wf wt r rev).wave i n).beat] else []) := rfl
  rw [List.length_append] at h0 h1
  rw [e, List.length_append] at h1
  cases hv : ((upConverter wf wt r rev).wave i (n + 1)).valid with
  | true => rfl
  | false =>
    rw [hv] at h1
    cases hv0 : ((upConverter wf wt r rev).wave i n).valid <;> cases hr0 : (i n).ready <;>
      simp [hv0, hr0] at h0 h1 <;> omega

/-- **C122.** Narrow to wide: every completed word is delivered to a receiver that is ready again and again. -/
theorem C122_up_delivers (hr : 2 ≤ r) (hw : wt = r * wf) (i : Nat → SIn (BitVec wf))
    (hrec : Recurs (fun m => (i m).ready = true)) (n : Nat) :
    ∃ m, (groups r (accepted (upConverter wf wt r rev) i n)).1.length ≤ (delivered (upConverter wf wt r rev) i m).length := by
  have h3 := (C03_upconverter_packs rev hr hw i n).1.length_eq
  rw [List.length_append] at h3
  cases hv : ((upConverter wf wt r rev).wave i n).valid with
  | false =>
    rw [hv] at h3
    exact ⟨n, by rw [← h3]; simp⟩
  | true =>
    obtain ⟨k, _, h⟩ := offered_delivered _ _ (C03_upconverter_stable rev i) hrec _ hv
    rw [hv] at h3
    simp only [if_true, List.length_cons, List.length_nil] at h3
    exact ⟨k, by omega⟩

/-- **C122.** Wide to narrow: a word on offer is taken at some time, if the receiver is ready again and again. -/
theorem C122_down_accepts (hr : 2 ≤ r) (i : Nat → SIn (BitVec wf)) (hs : SinkStable (downConverter wf wt r rev) i)
    (hrec : Recurs (fun m => (i m).ready = true)) (n : Nat) (hv : (i n).valid = true) :
    ∃ m, n ≤ m ∧ (i m).valid = true ∧ ((downConverter wf wt r rev).wave i m).ready = true := by
  refine Classical.byContradiction fun hno => ?_
  have valid : ∀ m, n ≤ m → (i m).valid = true := by
    intro m hm
    induction m, hm using Nat.le_induction with
    | base => exact hv
    | succ m hm ih =>
      refine (hs m ih ?_).1
      cases h : ((downConverter wf wt r rev).wave i m).ready with
      | false => exact h
      | true => exact absurd ⟨m, hm, ih, h⟩ hno
  obtain ⟨m, hm, h⟩ := down_accepts rev hr i hs hrec n hv
  exact hno ⟨m, hm, valid m hm, h⟩

/-- **C122.** Wide to narrow at full speed: with a sender that always has a word and a receiver that is always ready, a narrow
beat goes out in every cycle and a word is taken every `r` cycles. -/
theorem C122_down_full_speed (hr : 2 ≤ r) (i : Nat → SIn (BitVec wf)) (hs : SinkStable (downConverter wf wt r rev) i)
    (hv : ∀ n, (i n).valid = true) (hrd : ∀ n, (i n).ready = true) (n : Nat) :
    (delivered (downConverter wf wt r rev) i n).length = n ∧ (accepted (downConverter wf wt r rev) i n).length = n / r := by
  have h1 : (delivered (downConverter wf wt r rev) i n).length = n := by
    induction n with
    | zero => rfl
    | succ n ih =>
      have e : delivered (downConverter wf wt r rev) i (n + 1) = delivered (downConverter wf wt r rev) i n ++
        (if (i n).valid && (i n).ready then [((downConverter wf wt r rev).wave i n).beat] else []) := rfl
      rw [e, List.length_append, ih, hv, hrd]
      rfl
  refine ⟨h1, ?_⟩
  obtain ⟨k, hk, _, e⟩ := C04_downconverter_serialises rev hr i hs n
  have hc : ∀ b : Beat (BitVec wf), (chunks wt r rev b).length = r := fun b => by simp [chunks]
  have e' := congrArg List.length e
  rw [h1, List.length_append, List.length_take, hc, List.length_flatMap] at e'
  have : ((accepted (downConverter wf wt r rev) i n).map fun b => (chunks wt r rev b).length).sum
      = r * (accepted (downConverter wf wt r rev) i n).length := by
    generalize accepted (downConverter wf wt r rev) i n = l
    induction l with
    | nil => rfl
    | cons b l ih => rw [List.map_cons, List.sum_cons, ih, hc, List.length_cons, Nat.mul_succ]; omega
  rw [this] at e'
  have hmin : min k r = k := by omega
  rw [hmin] at e'
  generalize (accepted (downConverter wf wt r rev) i n).length = L at e' ⊢
  rw [e', Nat.mul_add_div (by omega), Nat.div_eq_of_lt hk]
  rfl

end Converters

/-- **C122.** Splitter: a beat on offer is taken at some time if every receiver is ready again and again, each on its own. -/
theorem C122_splitter_accepts (ls : List (List String)) (i : Nat → SplitIn) (hs : SplitStable ls i)
    (hrec : ∀ j < ls.length, Recurs (fun m => (i m).ready j = true)) (n : Nat) (hv : (i n).valid = true) :
    ∃ m, n ≤ m ∧ (i m).valid = true ∧ ((splitter ls).wave i m).ready = true := by
  refine Classical.byContradiction fun hno => ?_
  have hno' : ∀ m, n ≤ m → (i m).valid = true → ((splitter ls).wave i m).ready = false := by
    intro m hm hvm
    cases h : ((splitter ls).wave i m).ready with
    | false => rfl
    | true => exact absurd ⟨m, hm, hvm, h⟩ hno
  have valid : ∀ m, n ≤ m → (i m).valid = true := by
    intro m hm
    induction m, hm using Nat.le_induction with
    | base => exact hv
    | succ m hm ih => exact (hs m ih (hno' m hm ih)).1
  have step : ∀ m, n ≤ m → ∀ j, (splitter ls).st i (m + 1) j = ((splitter ls).st i m j || (i m).ready j) := by
    intro m hm j
    have a := hno' m hm (valid m hm)
    have b := valid m hm
    rw [Circuit.st_succ]
    rw [Circuit.wave] at a
    generalize (splitter ls).st i m = done at *
    have hend : ¬ (allBelow ls.length fun k => ((i m).valid && !done k) && (i m).ready k || done k) = true := by
      intro h
      have : ((splitter ls).out done (i m)).ready = true := by
        simp only [splitter]
        rw [allBelow_iff] at h ⊢
        intro k hk
        have := h k hk
        cases hd : done k <;> simp_all
      rw [a] at this
      cases this
    simp only [splitter]
    rw [if_neg hend, b]
    beta_reduce
    by_cases hd : done j = true
    · simp [hd]
    · have hd' : done j = false := by simpa using hd
      rw [hd']
      cases hrj : (i m).ready j <;> simp
  have stays : ∀ m m', n ≤ m → m ≤ m' → ∀ j, (splitter ls).st i m j = true → (splitter ls).st i m' j = true := by
    intro m m' hm hmm j h
    induction m', hmm using Nat.le_induction with
    | base => exact h
    | succ m' hmm ih => rw [step m' (by omega), ih]; rfl
  have all : ∀ K, K ≤ ls.length → ∃ m, n ≤ m ∧ ∀ j < K, (splitter ls).st i m j = true := by
    intro K
    induction K with
    | zero => intro _; exact ⟨n, Nat.le_refl n, fun j hj => absurd hj (by omega)⟩
    | succ K ih =>
      intro hK
      obtain ⟨m, hm, h⟩ := ih (by omega)
      obtain ⟨m1, hm1, h1⟩ := hrec K (by omega) m
      refine ⟨m1 + 1, by omega, fun j hj => ?_⟩
      by_cases hjK : j = K
      · subst hjK
        have h1' : (i m1).ready j = true := h1
        rw [step m1 (by omega), h1']
        simp
      · exact stays m (m1 + 1) hm (by omega) j (h j (by omega))
  obtain ⟨m, hm, h⟩ := all ls.length (Nat.le_refl _)
  have hb := hno' m hm (valid m hm)
  rw [Circuit.wave] at hb
  have : ((splitter ls).out ((splitter ls).st i m) (i m)).ready = true := by
    generalize (splitter ls).st i m = done at *
    simp only [splitter]
    rw [allBelow_iff]
    intro k hk
    simp [h k hk]
  rw [hb] at this
  cases this

/-- **C122.** Merger: if every sink gets a beat at some time and keeps it, and the receiver is ready again and again, the beats
are taken. -/
theorem C122_merger_accepts (ls : List (List String)) (i : Nat → MergeIn)
    (hs : ∀ j < ls.length, Stable (fun k => (i k).valid j) (fun k => ((merger ls).wave i k).ready j) (fun k => (i k).beat j))
    (hrec : Recurs (fun m => (i m).ready = true)) (n : Nat) (hv : ∀ j < ls.length, ∃ m, n ≤ m ∧ (i m).valid j = true) :
    ∃ m, n ≤ m ∧ ∀ j < ls.length, (i m).valid j = true ∧ ((merger ls).wave i m).ready j = true := by
  refine Classical.byContradiction fun hno => ?_
  have hno' : ∀ m, n ≤ m → ∀ j, ((merger ls).wave i m).ready j = false := by
    intro m hm j
    cases h : ((merger ls).wave i m).ready j with
    | false => rfl
    | true =>
      exact absurd ⟨m, hm, fun k hk => ⟨C11_merger_all_valid ls i m j h k hk,
        (C11_merger_lockstep ls i m k j).trans h⟩⟩ hno
  have keep : ∀ j < ls.length, ∀ m m', n ≤ m → m ≤ m' → (i m).valid j = true → (i m').valid j = true := by
    intro j hj m m' hm hmm h
    induction m', hmm using Nat.le_induction with
    | base => exact h
    | succ m' hmm ih => exact (hs j hj m' ih (hno' m' (by omega) j)).1
  have all : ∀ K, K ≤ ls.length → ∃ m, n ≤ m ∧ ∀ j < K, (i m).valid j = true := by
    intro K
    induction K with
    | zero => intro _; exact ⟨n, Nat.le_refl n, fun j hj => absurd hj (by omega)⟩
    | succ K ih =>
      intro hK
      obtain ⟨m, hm, h⟩ := ih (by omega)
      obtain ⟨m1, hm1, h1⟩ := hv K (by omega)
      refine ⟨max m m1, by omega, fun j hj => ?_⟩
      by_cases hjK : j = K
      · subst hjK
        exact keep j (by omega) m1 _ hm1 (by omega) h1
      · exact keep j (by omega) m _ hm (by omega) (h j (by omega))
  obtain ⟨m, hm, h⟩ := all ls.length (Nat.le_refl _)
  obtain ⟨m1, hm1, h1⟩ := hrec m
  have := (C11_merger_progress ls i m1 0).2 ⟨fun k hk => keep k hk m m1 hm hm1 (h k hk), .inr h1⟩
  rw [hno' m1 (by omega)] at this
  cases this

/-- **C122.** Merger: what was taken is delivered. -/
theorem C122_merger_delivers (ls : List (List String)) (hn : ls ≠ []) (hc : mergerCheck ls = .ok ()) (i : Nat → MergeIn)
    (hrec : Recurs (fun m => (i m).ready = true)) (n j : Nat) (hj : j < ls.length) :
    ∃ m, (mergeAccepted ls i j n).length ≤ (mergeDelivered ls i m).length := by
  rw [(C11_merger_combines ls hn hc i n).1 j hj, mergeOut, List.length_append]
  cases hv : ((merger ls).wave i n).valid with
  | false => exact ⟨n, by simp⟩
  | true =>
    obtain ⟨m, hm, h1, h2⟩ := kept_meets (valid := fun k => ((merger ls).wave i k).valid) (ready := fun k => (i k).ready)
      (fun k h1 h2 => (C11_merger_stable ls i k h1 h2).1) hrec n hv
    refine ⟨m + 1, ?_⟩
    have : (mergeDelivered ls i n).length < (mergeDelivered ls i (m + 1)).length := transferred_grows _ _ _ hm h1 h2
    simp only [if_true, List.length_cons, List.length_nil]
    omega

section Timeout
variable {α : Type} [Inhabited α]

/-- **C122.** LastOnTimeout: while the receiver is ready, a beat is taken in every cycle. -/
theorem C122_timeout_full_speed (t : Nat) (i : Nat → SIn α) (n : Nat) (h : (i n).ready = true) :
    ((lastOnTimeout t).wave i n).ready = true :=
  (C13_lastontimeout_ready t i n).2 (.inr h)

/-- **C122.** LastOnTimeout: every beat that was taken is delivered to a receiver that is ready again and again, also when no
other beat follows. -/
theorem C122_timeout_delivers (t : Nat) (i : Nat → SIn α) (hs : SinkStable (lastOnTimeout t) i)
    (hrec : Recurs (fun m => (i m).ready = true)) (n : Nat) :
    ∃ m, (accepted (lastOnTimeout t) i n).length ≤ (delivered (lastOnTimeout t) i m).length := by
  have len : ∀ k, ∃ pend : List (Beat α), (accepted (lastOnTimeout t) i k).length
      = (delivered (lastOnTimeout t) i k).length + pend.length ∧ pend.length ≤ 1 ∧
      (((lastOnTimeout t).wave i k).valid = true ↔ ∃ b, pend = [b] ∧ (b.last = true ∨ (i k).valid = true ∨ Idle t i k)) := by
    intro k
    obtain ⟨A', pend, h1, h2, h3, h4, _⟩ := C13_lastontimeout_behaviour t i k
    refine ⟨pend, ?_, h3, h4⟩
    have := congrArg List.length h2
    rw [List.length_map, List.length_map] at this
    rw [h1, List.length_append, this]
  obtain ⟨pend, h1, h2, h3⟩ := len n
  by_cases hoff : ∃ m, n ≤ m ∧ ((lastOnTimeout t).wave i m).valid = true
  · obtain ⟨m, hm, hv⟩ := hoff
    obtain ⟨m1, hm1, g1, g2⟩ := kept_meets (valid := fun k => ((lastOnTimeout t).wave i k).valid) (ready := fun k => (i k).ready)
      (fun k a b => (C13_lastontimeout_data_stable t i hs k a b).1) hrec m hv
    refine ⟨m1 + 1, ?_⟩
    have : (delivered (lastOnTimeout t) i n).length < (delivered (lastOnTimeout t) i (m1 + 1)).length :=
      transferred_grows _ _ _ (Nat.le_trans hm hm1) g1 g2
    omega
  · have off := never_of_not (f := fun m => ((lastOnTimeout t).wave i m).valid) hoff
    have same : ∀ m, n ≤ m → delivered (lastOnTimeout t) i m = delivered (lastOnTimeout t) i n := by
      intro m hm
      induction m, hm using Nat.le_induction with
      | base => rfl
      | succ m hm ih =>
        have e : delivered (lastOnTimeout t) i (m + 1) = delivered (lastOnTimeout t) i m ++
          (if ((lastOnTimeout t).wave i m).valid && (i m).ready then [((lastOnTimeout t).wave i m).beat] else []) := rfl
        have := off m hm
        rw [e, this, ih]
        simp
    by_cases hp : pend.length = 0
    · exact ⟨n, by omega⟩
    · exfalso
      have quiet : ∀ m, n ≤ m → (i m).valid = false ∧ ¬ Idle t i m := by
        intro m hm
        obtain ⟨p, g1, g2, g3⟩ := len m
        have hle := (accepted_mono (lastOnTimeout t) i hm).length_le
        rw [same m hm] at g1
        have hp1 : p.length = 1 := by omega
        obtain ⟨b, rfl⟩ := List.length_eq_one_iff.1 hp1
        have hoffm := off m hm
        rw [hoffm] at g3
        constructor
        · cases hv : (i m).valid with
          | false => rfl
          | true => exact absurd (g3.2 ⟨b, rfl, .inr (.inl hv)⟩) (by simp)
        · intro hi
          exact absurd (g3.2 ⟨b, rfl, .inr (.inr hi)⟩) (by simp)
      exact (quiet (n + t) (by omega)).2 ⟨by omega, fun k _ hk => (quiet k (by omega)).1⟩

end Timeout

section Arb
variable {α : Type} [Inhabited α]

/-- No sink sends a packet without end: if it sends beats for ever, it sends `last` again and again. -/
def ArbEnds (n t : Nat) (i : Nat → ArbIn α) : Prop :=
  ∀ s < n, Recurs (fun k => arbSinkXfer n t i s k = true) →
    Recurs (fun k => arbSinkXfer n t i s k = true ∧ ((i k).beat s).last = true)

/-- The grant can move again and again. -/
theorem arb_runs (n t : Nat) (hn : 2 ≤ n) (i : Nat → ArbIn α) (hs : ArbSinksStable n t i) (he : ArbEnds n t i)
    (hrec : Recurs (fun m => (i m).ready = true)) (a : Nat) :
    ∃ m, a ≤ m ∧ arbRun n ((arbiter n t).st i m) (i m) = true := by
  refine Classical.byContradiction fun hno => ?_
  have hrun := never_of_not (f := fun m => arbRun n ((arbiter n t).st i m) (i m)) hno
  have hsel : ∀ m, a ≤ m → arbSelected n t i m = arbSelected n t i a := by
    intro m hm
    induction m, hm using Nat.le_induction with
    | base => rfl
    | succ m hm ih =>
      have := arb_step n t i m
      rw [hrun m hm] at this
      exact this.trans ih
  have hg := (C15_arbiter_routes n t hn i a).1
  by_cases hv : Recurs (fun m => (i m).valid (arbSelected n t i a) = true)
  · -- the sink sends, and its packet ends
    have hx : Recurs (fun k => arbSinkXfer n t i (arbSelected n t i a) k = true) := by
      intro b
      obtain ⟨m, hm, h⟩ := hv (max a b)
      have hr' : Recurs (fun m => (decide (a ≤ m) && (i m).ready) = true) := by
        intro c
        obtain ⟨m, hm, h⟩ := hrec (max a c)
        exact ⟨m, by omega, Bool.and_eq_true_iff.2 ⟨by simp; omega, h⟩⟩
      obtain ⟨m1, hm1, g1, g2⟩ := kept_meets
        (valid := fun k => (i k).valid (arbSelected n t i a) && decide (a ≤ k)) (ready := fun m => decide (a ≤ m) && (i m).ready)
        (by
          intro k h1 h2
          rw [Bool.and_eq_true] at h1
          have hak : a ≤ k := by simpa using h1.2
          have hnr : (i k).ready = false := by simpa [hak] using h2
          have := (hs _ hg k h1.1 (by
            change ((arbiter n t).wave i k).ready _ = false
            rw [(C15_arbiter_routes n t hn i k).2.2.2, hnr]; simp)).1
          dsimp only at this
          rw [this]; simp; omega) hr' m (by
          have h' : (i m).valid (arbSelected n t i a) = true := h
          rw [h']; simp; omega)
      refine ⟨m1, by omega, ?_⟩
      rw [Bool.and_eq_true] at g1 g2
      have ham : a ≤ m1 := by simpa using g1.2
      rw [arbSinkXfer, (C15_arbiter_routes n t hn i m1).2.2.2, hsel m1 ham, g1.1, g2.2]
      simp
    obtain ⟨m, hm, h1, h2⟩ := he _ hg hx a
    have hroute := C15_arbiter_routes n t hn i m
    have hx' : ((arbiter n t).wave i m).valid = true ∧ (i m).ready = true ∧ ((arbiter n t).wave i m).beat.last = true := by
      rw [hroute.2.1, hroute.2.2.1, hsel m hm]
      rw [arbSinkXfer, Bool.and_eq_true, hroute.2.2.2, hsel m hm] at h1
      exact ⟨h1.1, by simpa using h1.2, h2⟩
    have := hrun m hm
    simp only [Circuit.wave] at hx'
    generalize (arbiter n t).st i m = s at *
    have e : (arbiter n t).out s (i m) = arbOut n s (i m) := rfl
    rw [e] at hx'
    simp only [arbRun] at this
    rw [hx'.1, hx'.2.1, hx'.2.2] at this
    simp at this
  · -- the sink is silent, and the stall timer expires
    obtain ⟨b, hb⟩ : ∃ b, ∀ m, b ≤ m → (i m).valid (arbSelected n t i a) = false := by
      refine Classical.byContradiction fun h2 => hv fun c => Classical.byContradiction fun h3 => h2 ⟨c, ?_⟩
      exact never_of_not (f := fun m => (i m).valid (arbSelected n t i a)) h3
    have hwait : ∀ m, a ≤ m → b ≤ m → arbWait n t i m = true := by
      intro m h1 h2
      have g1 := hrun m h1
      have g2 : ((arbiter n t).wave i m).valid = false := by
        rw [(C15_arbiter_routes n t hn i m).2.1, hsel m h1]; exact hb m h2
      simp only [Circuit.wave] at g2
      simp only [arbWait]
      generalize (arbiter n t).st i m = s at *
      have e : (arbiter n t).out s (i m) = arbOut n s (i m) := rfl
      rw [e] at g2
      rw [g1, g2]
      simp only [arbRun, g2] at g1
      cases ho : s.ongoing with
      | true => rfl
      | false => rw [ho] at g1; simp at g1
    have hz : ((arbiter n t).st i (max a b + t)).stall = 0 := by
      rw [arb_stall_zero]
      exact ⟨by omega, fun j h1 h2 => hwait j (by omega) (by omega)⟩
    have := hrun (max a b + t) (by omega)
    simp only [arbRun, hz] at this
    simp at this

/-- **C122.** Arbiter: every beat on offer is taken at some time, whatever pauses the senders make inside their packets, if no
packet is without end, the receiver is ready again and again and the timeout is not zero. -/
theorem C122_arbiter_serves (n t : Nat) (hn : 2 ≤ n) (ht : 1 ≤ t) (i : Nat → ArbIn α) (hs : ArbSinksStable n t i)
    (he : ArbEnds n t i) (hrec : Recurs (fun m => (i m).ready = true)) (s : Nat) (hsn : s < n) (a : Nat)
    (hv : (i a).valid s = true) : ∃ m, a ≤ m ∧ arbSinkXfer n t i s m = true := by
  refine Classical.byContradiction fun hno => ?_
  have hnx := never_of_not (f := arbSinkXfer n t i s) hno
  have hval : ∀ m, a ≤ m → (i m).valid s = true := by
    intro m hm
    induction m, hm using Nat.le_induction with
    | base => exact hv
    | succ m hm ih =>
      have := hnx m hm
      rw [arbSinkXfer, ih, Bool.true_and] at this
      exact (hs s hsn m ih this).1
  obtain ⟨c, hc⟩ := highCount_unbounded _ (arb_runs n t hn i hs he hrec) (a + 1) (n - 1)
  obtain ⟨k, k1, _, hk⟩ := rr_fair (n := n) (arbSelected n t i) _ (fun k => (i k).valid)
    (arb_grant_lt n t hn i) (arb_step n t i) s hsn (a + 1) c (fun k h1 _ => hval k (by omega)) hc
  -- once selected it stays so
  have stall : ∀ m, a + 1 ≤ m → arbSelected n t i m = s → ((arbiter n t).st i m).stall ≠ 0 := by
    intro m hm hsel h0
    have := (arb_silent n t hn i m h0).2 (m - 1) (by omega) (by omega)
    have h2 := this.2.2
    have e : ((arbiter n t).st i m).grant = s := hsel
    rw [e, hval _ (by omega)] at h2
    cases h2
  have sel : ∀ m, k ≤ m → arbSelected n t i m = s := by
    intro m hm
    induction m, hm using Nat.le_induction with
    | base => exact hk
    | succ m hm ih =>
      have hr := C15_arbiter_routes n t hn i m
      have hx := hnx m (by omega)
      rw [arbSinkXfer, hr.2.2.2, ih, hval m (by omega)] at hx
      have hx' : (i m).ready = false := by simpa using hx
      have hvm : ((arbiter n t).wave i m).valid = true := by rw [hr.2.1, ih]; exact hval m (by omega)
      exact (arb_keep n t i m (.inr hvm) (by rw [hx']; simp) (stall m (by omega) ih)).trans ih
  obtain ⟨m, hm, h⟩ := hrec k
  have hx := hnx m (by omega)
  have h' : (i m).ready = true := h
  rw [arbSinkXfer, (C15_arbiter_routes n t hn i m).2.2.2, sel m hm, hval m (by omega), h'] at hx
  simp at hx

/-- Two sinks that always offer packets of one beat, and a receiver that is ready in every other cycle. -/
def arbBusy : Nat → ArbIn Nat := fun n => ⟨fun _ => true, fun s => ⟨true, true, s⟩, n % 2 == 0⟩

theorem arbBusy_recurs : Recurs (fun m => (arbBusy m).ready = true) := fun n =>
  ⟨2 * n, by omega, by simp [arbBusy]⟩

theorem arbBusy_ends (n t : Nat) : ArbSinksStable n t arbBusy ∧ ArbEnds n t arbBusy :=
  ⟨fun _ _ _ _ _ => ⟨rfl, rfl⟩, fun _ _ h c => (h c).imp fun _ g => ⟨g.1, g.2, rfl⟩⟩

/-- **C122.** The timeout must not be zero: with zero the grant moves on in every cycle, and a sink can wait for ever. -/
theorem C122_arbiter_zero_timeout (m : Nat) : arbSinkXfer 2 0 arbBusy 1 m = false := by
  have even : ∀ k, (arbiter 2 0).st arbBusy (2 * k) = ⟨0, false, 0⟩ := by
    intro k
    induction k with
    | zero => rfl
    | succ k ih =>
      have e0 : arbBusy (2 * k) = ⟨fun _ => true, fun s => ⟨true, true, s⟩, true⟩ := by simp [arbBusy]
      have e1 : arbBusy (2 * k + 1) = ⟨fun _ => true, fun s => ⟨true, true, s⟩, false⟩ := by simp [arbBusy]
      rw [show 2 * (k + 1) = 2 * k + 1 + 1 by omega, Circuit.st_succ, Circuit.st_succ, ih, e0, e1]
      decide
  rw [arbSinkXfer, Circuit.wave]
  rcases Nat.mod_two_eq_zero_or_one m with h | h
  · obtain ⟨k, rfl⟩ : ∃ k, m = 2 * k := ⟨m / 2, by omega⟩
    rw [even k]
    rfl
  · have : (arbBusy m).ready = false := by simp [arbBusy, h]
    generalize (arbiter 2 0).st arbBusy m = s
    simp [arbiter, arbOut, this]

/-- With a timeout both sinks are served. -/
example : arbSinkXfer 2 3 arbBusy 0 0 = true ∧ arbSinkXfer 2 3 arbBusy 1 2 = true ∧ arbSinkXfer 2 3 arbBusy 0 4 = true := by
  decide
example : ∃ m, 7 ≤ m ∧ arbSinkXfer 2 3 arbBusy 1 m = true :=
  C122_arbiter_serves 2 3 (by decide) (by decide) arbBusy (arbBusy_ends 2 3).1 (arbBusy_ends 2 3).2 arbBusy_recurs 1 (by decide) 7 rfl

/-- A sink that stops inside its packet: the other one is served all the same, after the timeout. -/
example : (List.range 6).map (arbSinkXfer 2 3 arbStallSample 1) = [false, false, false, false, false, true] := by decide

end Arb

/-! Concrete cases. -/

/-- Two receivers that are never ready at the same time. -/
def splitTurns : Nat → SplitIn := fun n => ⟨true, ⟨true, true, fun _ => 3⟩, fun j => n % 2 == j⟩

example : SplitStable [["a"], ["b"]] splitTurns ∧
    (∀ j < [["a"], ["b"]].length, Recurs (fun m => (splitTurns m).ready j = true)) :=
  ⟨fun _ _ _ => ⟨rfl, rfl⟩, fun j hj n => ⟨2 * n + j, by omega, by
    have : j < 2 := hj
    simp only [splitTurns, beq_iff_eq]; omega⟩⟩
example : (List.range 5).map (fun n => ((splitter [["a"], ["b"]]).wave splitTurns n).ready) = [false, true, false, true, false] := by
  decide

/-- One beat without `last`, then silence; the receiver is ready in every fifth cycle. -/
def lotOnce : Nat → SIn Nat := fun n => ⟨n == 0, ⟨true, false, 5⟩, n % 5 == 4⟩

example : SinkStable (lastOnTimeout 2) lotOnce ∧ Recurs (fun m => (lotOnce m).ready = true) := by
  refine ⟨fun n hv hr => ?_, fun n => ⟨5 * n + 4, by omega, by simp [lotOnce]⟩⟩
  have : n = 0 := by simpa [lotOnce] using hv
  subst this
  revert hr
  decide
example : delivered (lastOnTimeout 2) lotOnce 5 = [⟨false, true, 5⟩] := by decide

example : (upSample 0).ready = true ∧ ((upConverter 8 16 2 false).wave upSample 2).valid = true ∧
    (groups 2 (accepted (upConverter 8 16 2 false) upSample 1)).1.length <
      (groups 2 (accepted (upConverter 8 16 2 false) upSample 2)).1.length := by decide

/-- A sender that always has a word, and a receiver that is always ready. -/
def downFull : Nat → SIn (BitVec 32) := fun _ => ⟨true, ⟨true, true, 0xAABBCCDD⟩, true⟩

example : (delivered (downConverter 32 8 4 false) downFull 9).length = 9 ∧
    (accepted (downConverter 32 8 4 false) downFull 9).length = 2 :=
  C122_down_full_speed false (by decide) downFull (fun _ _ _ => ⟨rfl, rfl⟩) (fun _ => rfl) (fun _ => rfl) 9

/-- Sink 1 of the merger comes later than sink 0. -/
def mergeLate : Nat → MergeIn := fun n =>
  ⟨fun k => k == 0 || 3 ≤ n, fun k => ⟨true, true, fun _ => k⟩, n % 2 == 1⟩

example : (∀ j < [["a"], ["b"]].length, ∃ m, 0 ≤ m ∧ (mergeLate m).valid j = true) ∧
    (List.range 4).map (fun n => ((merger [["a"], ["b"]]).wave mergeLate n).ready 0) = [false, false, false, true] :=
  ⟨fun _ _ => ⟨3, by omega, by simp [mergeLate]⟩, by decide⟩

end Lambdalib
