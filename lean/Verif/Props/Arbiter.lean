import Verif.Lemmas.Arbiter

/-! C14, C15, C16, C65: round robin and arbiter. -/

namespace Lambdalib

/-- C14: the grant is always a legal index. -/
theorem C14_roundrobin_legal (n : Nat) (hn : 2 ≤ n) (i : Nat → Bool × (Nat → Bool)) (k : Nat) :
    (roundRobin n).wave i k < n := by
  refine (roundRobin n).st_invariant (fun s => s < n) (by simp [roundRobin]; omega) ?_ i k
  intro s x h
  simp only [roundRobin]
  split
  · exact roundRobinNext_lt h
  · exact h

/-- C14: the grant moves only in enabled cycles, and then to the next other requester in cyclic order
if there is one. -/
theorem C14_roundrobin_next (n : Nat) (hn : 2 ≤ n) (i : Nat → Bool × (Nat → Bool)) (k : Nat) :
    let g := (roundRobin n).wave i k
    let g' := (roundRobin n).wave i (k + 1)
    ((i k).1 = false → g' = g) ∧
    ((∀ j < n, j ≠ g → (i k).2 j = false) → g' = g) ∧
    ((i k).1 = true → (∃ j < n, j ≠ g ∧ (i k).2 j = true) →
      g' < n ∧ g' ≠ g ∧ (i k).2 g' = true ∧
      ∀ j < n, j ≠ g → (i k).2 j = true → cdist n g g' ≤ cdist n g j) := by
  have hg := C14_roundrobin_legal n hn i k
  simp only [Circuit.wave, Circuit.st_succ] at *
  generalize (roundRobin n).st i k = s at *
  simp only [roundRobin] at *
  refine ⟨fun h => by simp [h], fun h => ?_, fun h1 h2 => ?_⟩
  · split
    · exact roundRobinNext_none hg h
    · rfl
  · simp only [h1, if_true]
    exact roundRobinNext_some hg h2

/-- C14: a requester that keeps requesting is granted after at most `n-1` enabled cycles. -/
theorem C14_roundrobin_fair (n : Nat) (hn : 2 ≤ n) (i : Nat → Bool × (Nat → Bool))
    (j : Nat) (hj : j < n) (a m : Nat) (hreq : ∀ k, a ≤ k → k < a + m → (i k).2 j = true)
    (hcount : n - 1 ≤ highCount (fun k => (i k).1) a m) :
    ∃ k, a ≤ k ∧ k ≤ a + m ∧ (roundRobin n).wave i k = j :=
  rr_fair (n := n) ((roundRobin n).wave i) (fun k => (i k).1) (fun k => (i k).2)
    (C14_roundrobin_legal n hn i) (fun _ => rfl) j hj a m hreq hcount

/-- Three requesters, requester 2 persistent, all requesting. -/
example : highCount (fun _ => true) 0 2 = 2 ∧
    (roundRobin 3).wave (fun _ => (true, fun _ => true)) 2 = 2 := by decide

section
variable {α : Type} [Inhabited α]

/-- The sink currently connected to the source. -/
def arbSelected (n t : Nat) (i : Nat → ArbIn α) (k : Nat) : Nat := ((arbiter n t).st i k).grant

/-- A beat crosses the source in cycle `k`. -/
def arbXfer (n t : Nat) (i : Nat → ArbIn α) (k : Nat) : Bool :=
  ((arbiter n t).wave i k).valid && (i k).ready

/-- A beat crosses sink `s` in cycle `k`. -/
def arbSinkXfer (n t : Nat) (i : Nat → ArbIn α) (s k : Nat) : Bool :=
  (i k).valid s && ((arbiter n t).wave i k).ready s

/-- C15: the source mirrors exactly one sink, the selected one: same `valid`, same beat, and only
that sink sees `source.ready`. -/
theorem C15_arbiter_routes (n t : Nat) (hn : 2 ≤ n) (i : Nat → ArbIn α) (k : Nat) :
    let s := arbSelected n t i k
    let o := (arbiter n t).wave i k
    s < n ∧ o.valid = (i k).valid s ∧ o.beat = (i k).beat s ∧
      ∀ j, o.ready j = (decide (j = s) && (i k).ready) := by
  have hg := arb_grant_lt n t hn i k
  delta arbSelected Circuit.wave
  generalize (arbiter n t).st i k = s at *
  refine ⟨hg, by simp [arbiter, arbOut, hg], by simp [arbiter, arbOut, hg], ?_⟩
  intro j
  simp only [arbiter, arbOut]
  by_cases h : j = s.grant
  · simp [h, hg]
  · simp [h]

/-- C15: a beat leaves the source exactly when it is acknowledged to one sink, unchanged. -/
theorem C15_arbiter_one_sink (n t : Nat) (hn : 2 ≤ n) (i : Nat → ArbIn α) (k : Nat) :
    (arbXfer n t i k = true ↔ ∃ s < n, arbSinkXfer n t i s k = true) ∧
    ∀ s < n, arbSinkXfer n t i s k = true →
      ((arbiter n t).wave i k).beat = (i k).beat s ∧
      ∀ s' < n, arbSinkXfer n t i s' k = true → s' = s := by
  obtain ⟨h1, h2, h3, h4⟩ := C15_arbiter_routes n t hn i k
  simp only [arbXfer, arbSinkXfer, h2, h3, h4, Bool.and_eq_true, decide_eq_true_eq]
  refine ⟨⟨fun h => ⟨_, h1, h.1, rfl, h.2⟩, ?_⟩, ?_⟩
  · rintro ⟨s, _, hv, rfl, hr⟩; exact ⟨hv, hr⟩
  · rintro s _ ⟨hv, rfl, hr⟩
    exact ⟨rfl, fun s' _ h' => h'.2.1⟩

theorem arb_open (n t : Nat) (i : Nat → ArbIn α) (k : Nat) :
    ((arbiter n t).st i k).ongoing
      = openPacket (arbXfer n t i) (fun k => ((arbiter n t).wave i k).beat.last) k := by
  induction k with
  | zero => rfl
  | succ k ih => rw [arb_ongoing, openPacket, ← ih]; rfl

theorem arb_silent_open (n t : Nat) (hn : 2 ≤ n) (i : Nat → ArbIn α) (k : Nat) (ht : 1 ≤ t)
    (h : ((arbiter n t).st i k).stall = 0) : ((arbiter n t).st i k).ongoing = true := by
  obtain ⟨h1, h2⟩ := arb_silent n t hn i k h
  have h3 := h2 (k - 1) (by omega) (by omega)
  have hk : k = k - 1 + 1 := by omega
  have hv : ((arbiter n t).wave i (k - 1)).valid = false := by
    have := (C15_arbiter_routes n t hn i (k - 1)).2.1
    rw [this]
    rw [← h3.1] at h3
    exact h3.2.2
  rw [hk, arb_ongoing, hv]
  exact h3.2.1

/-- C15: after a beat without `last` from sink `s`, the next beat on the source comes from sink `s`
again, unless sink `s` was silent for `timeout` consecutive cycles in between, or, with the packet
already open, immediately before the beat. -/
theorem C15_arbiter_atomic (n t : Nat) (hn : 2 ≤ n) (i : Nat → ArbIn α) (a b s s' : Nat)
    (hab : a < b) (ha : arbSinkXfer n t i s a = true) (hl : ((i a).beat s).last = false)
    (hb : arbSinkXfer n t i s' b = true)
    (hmid : ∀ k, a < k → k < b → arbXfer n t i k = false) :
    s' = s ∨ ∃ c, (a < c ∨ (c + t = a ∧ openPacket (arbXfer n t i)
        (fun k => ((arbiter n t).wave i k).beat.last) a = true)) ∧ c + t ≤ b ∧
      ∀ k, c ≤ k → k < c + t → (i k).valid s = false := by
  have hroute := C15_arbiter_routes n t hn i
  simp only [arbSinkXfer, (hroute a).2.2.2 s, Bool.and_eq_true, decide_eq_true_eq] at ha
  simp only [arbSinkXfer, (hroute b).2.2.2 s', Bool.and_eq_true, decide_eq_true_eq] at hb
  have hsel : ((arbiter n t).st i a).grant = s := ha.2.1.symm
  have hselb : ((arbiter n t).st i b).grant = s' := hb.2.1.symm
  have hva : ((arbiter n t).wave i a).valid = true := by
    rw [(hroute a).2.1]; rw [← ha.2.1]; exact ha.1
  have hla : ((arbiter n t).wave i a).beat.last = false := by
    rw [(hroute a).2.2.1]; rw [← ha.2.1]; exact hl
  rcases Classical.em (∃ c, (a < c ∨ (c + t = a ∧ openPacket (arbXfer n t i)
        (fun k => ((arbiter n t).wave i k).beat.last) a = true)) ∧ c + t ≤ b ∧
      ∀ k, c ≤ k → k < c + t → (i k).valid s = false) with hw | hw
  · exact .inr hw
  left
  -- without a silent window the grant and the open packet persist
  have key : ∀ m, a + 1 + m ≤ b → ((arbiter n t).st i (a + 1 + m)).grant = s ∧
      ((arbiter n t).st i (a + 1 + m)).ongoing = true := by
    intro m
    induction m with
    | zero =>
      intro _
      constructor
      · rw [Nat.add_zero, arb_keep n t i a (.inr hva) (by simp [hla])]
        · exact hsel
        · intro h0
          obtain ⟨h1, h2⟩ := arb_silent n t hn i a h0
          by_cases ht : t = 0
          · exact hw ⟨a + 1, .inl (by omega), by omega, fun k _ _ => by omega⟩
          have hop := arb_silent_open n t hn i a (by omega) h0
          rw [arb_open] at hop
          refine hw ⟨a - t, .inr ⟨by omega, hop⟩, by omega, fun k hk1 hk2 => ?_⟩
          have := (h2 k (by omega) (by omega)).2.2
          rw [hsel] at this; exact this
      · rw [Nat.add_zero, arb_ongoing, hva, ha.2.2, hla]; rfl
    | succ m ih =>
      intro hm
      obtain ⟨ih1, ih2⟩ := ih (by omega)
      have hx := hmid (a + 1 + m) (by omega) (by omega)
      simp only [arbXfer] at hx
      rw [← Nat.add_assoc]
      constructor
      · rw [arb_keep n t i _ (.inl ih2) (by rw [hx]; rfl)]
        · exact ih1
        · intro h0
          obtain ⟨h1, h2⟩ := arb_silent n t hn i _ h0
          by_cases hat : a + 1 + m ≤ a + t
          · -- the window would contain cycle `a`, where the sink is valid
            have := (h2 a (by omega) (by omega)).2.2
            rw [ih1, ha.1] at this; cases this
          · refine hw ⟨a + 1 + m - t, .inl (by omega), by omega, fun k hk1 hk2 => ?_⟩
            have := (h2 k (by omega) (by omega)).2.2
            rw [ih1] at this; exact this
      · rw [arb_ongoing, hx]; exact ih2
  have := (key (b - (a + 1)) (by omega)).1
  rw [show a + 1 + (b - (a + 1)) = b by omega, hselb] at this
  exact this

/-- A release of the source, from observable signals: a packet completes, or no packet is open and
nothing is offered. -/
def arbRelease (n t : Nat) (i : Nat → ArbIn α) (k : Nat) : Bool :=
  let o := fun k => (arbiter n t).wave i k
  (arbXfer n t i k && (o k).beat.last) ||
  (!openPacket (arbXfer n t i) (fun k => (o k).beat.last) k && !(o k).valid)

/-- C16: a sink that keeps requesting is selected after at most `n-1` releases of the source. -/
theorem C16_arbiter_fair (n t : Nat) (hn : 2 ≤ n) (i : Nat → ArbIn α) (s : Nat) (hs : s < n)
    (a m : Nat) (hreq : ∀ k, a ≤ k → k < a + m → (i k).valid s = true)
    (hcount : n - 1 ≤ highCount (arbRelease n t i) a m) :
    ∃ k, a ≤ k ∧ k ≤ a + m ∧ arbSelected n t i k = s := by
  have hle : ∀ m, highCount (arbRelease n t i) a m ≤
      highCount (fun k => arbRun n ((arbiter n t).st i k) (i k)) a m := by
    intro m
    induction m with
    | zero => exact Nat.le_refl _
    | succ m ih =>
      rw [highCount, highCount]
      refine Nat.add_le_add ih ?_
      cases hr : arbRelease n t i (a + m)
      · simp
      · have : arbRun n ((arbiter n t).st i (a + m)) (i (a + m)) = true := by
          simp only [arbRelease, ← arb_open] at hr
          simp only [arbXfer, Circuit.wave] at hr
          generalize (arbiter n t).st i (a + m) = s at *
          simp only [arbiter] at hr
          simp only [arbRun]
          rw [Bool.or_eq_true] at hr
          rcases hr with hr | hr
          · simp [hr]
          · rw [Bool.and_eq_true] at hr
            simp only [Bool.not_eq_true'] at hr
            simp [hr.1, hr.2]
        simp [this]
  exact rr_fair (n := n) (arbSelected n t i) _ (fun k => (i k).valid)
    (arb_grant_lt n t hn i) (arb_step n t i) s hs a m hreq (Nat.le_trans hcount (hle m))

/-- C16: a selected sink that is silent in the middle of a packet while another sink waits loses the
source within `timeout + 1` cycles. -/
theorem C16_arbiter_stall (n t : Nat) (hn : 2 ≤ n) (i : Nat → ArbIn α) (s j c : Nat) (hj : j < n)
    (hjs : j ≠ s)
    (hopen : openPacket (arbXfer n t i) (fun k => ((arbiter n t).wave i k).beat.last) c = true)
    (hsilent : ∀ k, c ≤ k → k ≤ c + t → (i k).valid s = false)
    (hwait : ∀ k, c ≤ k → k ≤ c + t → (i k).valid j = true) :
    ∃ k, c ≤ k ∧ k ≤ c + t + 1 ∧ arbSelected n t i k ≠ s := by
  refine Classical.byContradiction fun hno => ?_
  have hsel : ∀ k, c ≤ k → k ≤ c + t + 1 → ((arbiter n t).st i k).grant = s := fun k h1 h2 =>
    Classical.byContradiction fun h => hno ⟨k, h1, h2, h⟩
  have hval : ∀ k, c ≤ k → k ≤ c + t → ((arbiter n t).wave i k).valid = false := by
    intro k h1 h2
    rw [(C15_arbiter_routes n t hn i k).2.1]
    have := hsel k h1 (by omega)
    simp only [arbSelected, this]
    exact hsilent k h1 h2
  have hong : ∀ d, d ≤ t → ((arbiter n t).st i (c + d)).ongoing = true := by
    intro d
    induction d with
    | zero => intro _; rw [Nat.add_zero, arb_open]; exact hopen
    | succ d ih =>
      intro hd
      rw [← Nat.add_assoc, arb_ongoing, hval _ (by omega) (by omega)]
      exact ih (by omega)
  have hrun : ∀ k, c ≤ k → k ≤ c + t → arbRun n ((arbiter n t).st i k) (i k) = false := by
    intro k h1 h2
    rw [← Bool.not_eq_true]
    intro hr
    have hst := arb_step n t i k
    rw [hr, hsel k h1 (by omega), hsel (k + 1) (by omega) (by omega)] at hst
    simp only [if_true] at hst
    have hlt := arb_grant_lt n t hn i k
    rw [hsel k h1 (by omega)] at hlt
    exact (roundRobinNext_some hlt ⟨j, hj, hjs, hwait k h1 h2⟩).2.1 hst.symm
  have hz : ((arbiter n t).st i (c + t)).stall = 0 := by
    rw [arb_stall_zero]
    refine ⟨by omega, fun k hk1 hk2 => ?_⟩
    have h1 := hong (k - c) (by omega)
    rw [show c + (k - c) = k by omega] at h1
    have h2 := hval k (by omega) (by omega)
    have h3 := hrun k (by omega) (by omega)
    simp only [Circuit.wave, arbiter] at h2
    simp only [arbWait]
    simp only [arbiter] at h1 h3
    rw [Bool.and_eq_true, Bool.and_eq_true]
    exact ⟨⟨h1, by rw [Bool.not_eq_true']; exact h2⟩, by rw [Bool.not_eq_true']; exact h3⟩
  have := hrun (c + t) (by omega) (by omega)
  simp only [arbRun, hz] at this
  simp at this

/-- Sink 1 sends a two-beat packet while sink 0 is idle, then sink 0 sends. -/
def arbSample : Nat → ArbIn Nat := fun n =>
  ⟨fun s => if s = 1 then n ≤ 2 else 2 ≤ n, fun s => ⟨true, n = 2, 10 * s + n⟩, true⟩
example : (List.range 5).map (arbSelected 2 4 arbSample) = [0, 1, 1, 0, 0] := by decide
example : arbSinkXfer 2 4 arbSample 1 1 = true ∧ arbSinkXfer 2 4 arbSample 1 2 = true := by decide
/-- The hypotheses of `C16_arbiter_stall` are met: sink 0 opens a packet and stops. -/
def arbStallSample : Nat → ArbIn Nat := fun n =>
  ⟨fun s => if s = 0 then n = 0 else true, fun _ => ⟨n = 0, false, n⟩, true⟩
example : openPacket (arbXfer 2 3 arbStallSample)
    (fun k => ((arbiter 2 3).wave arbStallSample k).beat.last) 1 = true ∧
    (List.range 6).map (arbSelected 2 3 arbStallSample) = [0, 0, 0, 0, 0, 1] := by decide

/-- C65 (full claim, refuted): a packet whose sender resumes exactly when the stall timer expires is
cut: its next beat is delivered, then another sink's beat follows although the first sink was not
silent in between. -/
def AtomicStrict (n t : Nat) (i : Nat → ArbIn α) : Prop :=
  ∀ a b s s', a < b → arbSinkXfer n t i s a = true → ((i a).beat s).last = false →
    arbSinkXfer n t i s' b = true → (∀ k, a < k → k < b → arbXfer n t i k = false) →
    s' = s ∨ ∃ c, a < c ∧ c + t ≤ b ∧ ∀ k, c ≤ k → k < c + t → (i k).valid s = false

/-- Sink 0: beat, 2 silent cycles, then resumes; sink 1 waits. Timeout 2. -/
def arbCutSample : Nat → ArbIn Nat := fun n =>
  ⟨fun s => if s = 0 then n = 0 || 3 ≤ n else true, fun _ => ⟨n = 0, false, n⟩, true⟩

theorem C65_arbiter_resume_refuted :
    ¬ ∀ (n t : Nat) (i : Nat → ArbIn Nat), 2 ≤ n → 1 ≤ t → AtomicStrict n t i := by
  intro h
  have := h 2 2 arbCutSample (by decide) (by decide) 3 4 0 1 (by decide) (by decide) (by decide)
    (by decide) (fun k h1 h2 => by omega)
  rcases this with h | ⟨c, h1, h2, _⟩
  · cases h
  · omega

/-- C65 (partial): the strict claim holds for packets whose sender was not silent for `timeout`
cycles immediately before the beat inside an already open packet. -/
theorem C65_arbiter_resume_partial (n t : Nat) (hn : 2 ≤ n) (i : Nat → ArbIn α) (a b s s' : Nat)
    (hab : a < b) (ha : arbSinkXfer n t i s a = true) (hl : ((i a).beat s).last = false)
    (hb : arbSinkXfer n t i s' b = true)
    (hmid : ∀ k, a < k → k < b → arbXfer n t i k = false)
    (hresume : (∃ k, k < a ∧ a ≤ k + t ∧ (i k).valid s = true) ∨
      openPacket (arbXfer n t i) (fun k => ((arbiter n t).wave i k).beat.last) a = false) :
    s' = s ∨ ∃ c, a < c ∧ c + t ≤ b ∧ ∀ k, c ≤ k → k < c + t → (i k).valid s = false := by
  rcases C15_arbiter_atomic n t hn i a b s s' hab ha hl hb hmid with h | ⟨c, h1, h2, h3⟩
  · exact .inl h
  · rcases h1 with h1 | h1
    · exact .inr ⟨c, h1, h2, h3⟩
    · rcases hresume with ⟨k, hk1, hk2, hk3⟩ | hop
      · rw [h3 k (by omega) (by omega)] at hk3; cases hk3
      · rw [h1.2] at hop; cases hop

/-- All sinks obey the stream rule. -/
def ArbSinksStable (n t : Nat) (i : Nat → ArbIn α) : Prop :=
  ∀ s < n, Stable (fun k => (i k).valid s) (fun k => ((arbiter n t).wave i k).ready s)
    (fun k => (i k).beat s)

/-- C66 (full claim, refuted): a beat offered on the source can be replaced before it is taken. -/
theorem C66_arbiter_stable_refuted :
    ¬ ∀ (n t : Nat) (i : Nat → ArbIn Nat), 2 ≤ n → 1 ≤ t → ArbSinksStable n t i →
      Stable (fun k => ((arbiter n t).wave i k).valid) (fun k => (i k).ready)
        (fun k => ((arbiter n t).wave i k).beat) := by
  intro h
  let i : Nat → ArbIn Nat := fun n =>
    ⟨fun s => if s = 0 then n = 0 || 3 ≤ n else true,
      fun s => ⟨false, false, if s = 0 ∧ n = 0 then 7 else s⟩, n = 0⟩
  have hs : ArbSinksStable 2 2 i := by
    intro s hs n hv hr
    rcases Nat.lt_or_ge s 1 with h0 | h0
    · have : s = 0 := by omega
      subst this
      match n with
      | 0 => revert hr; decide
      | 1 => revert hv; decide
      | 2 => revert hv; decide
      | n + 3 => exact ⟨by simp [i], by simp [i]⟩
    · have : s = 1 := by omega
      subst this
      exact ⟨by simp [i], by simp [i]⟩
  have := h 2 2 i (by decide) (by decide) hs 3 (by decide) (by decide)
  revert this; decide

/-- C66 (partial): the offer is stable unless the selected sink was silent for `timeout` cycles just
before with a packet open. -/
theorem C66_arbiter_stable_partial (n t : Nat) (hn : 2 ≤ n) (i : Nat → ArbIn α)
    (hs : ArbSinksStable n t i) (k : Nat)
    (hv : ((arbiter n t).wave i k).valid = true) (hr : (i k).ready = false)
    (hact : (∃ j < k, k ≤ j + t ∧ (i j).valid (arbSelected n t i k) = true) ∨ k < t ∨
      openPacket (arbXfer n t i) (fun k => ((arbiter n t).wave i k).beat.last) k = false)
    (ht : 1 ≤ t) :
    ((arbiter n t).wave i (k + 1)).valid = true ∧
      ((arbiter n t).wave i (k + 1)).beat = ((arbiter n t).wave i k).beat := by
  obtain ⟨h1, h2, h3, h4⟩ := C15_arbiter_routes n t hn i k
  obtain ⟨_, h2', h3', _⟩ := C15_arbiter_routes n t hn i (k + 1)
  have hk : arbSelected n t i (k + 1) = arbSelected n t i k := by
    refine arb_keep n t i k (.inr hv) (by simp [hr]) ?_
    intro h0
    obtain ⟨h5, h6⟩ := arb_silent n t hn i k h0
    rcases hact with ⟨j, hj⟩ | hj | hj
    · have := (h6 j hj.1 hj.2.1).2.2
      rw [show ((arbiter n t).st i k).grant = arbSelected n t i k from rfl, hj.2.2] at this
      cases this
    · omega
    · rw [← arb_open, arb_silent_open n t hn i k ht h0] at hj; cases hj
  rw [h2', h3', hk, h3]
  refine hs _ h1 k ?_ ?_
  · rw [h2] at hv; exact hv
  · exact (h4 _).trans (by simp [hr])

end
end Lambdalib
