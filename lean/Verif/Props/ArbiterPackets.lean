import Verif.Spec.Shared
import Verif.Props.Arbiter

/-! Packets through the arbiter, for senders that do not pause for long within a packet. -/

namespace Lambdalib

section
variable {α : Type} [Inhabited α] (n t : Nat) (i : Nat → ArbIn α)

/-- Beats that crossed the source, each with the sink it came from. -/
def arbTagged (k : Nat) : List (Nat × Beat α) :=
  transferred (fun k => ((arbiter n t).wave i k).valid) (fun k => (i k).ready)
    (fun k => (arbSelected n t i k, ((arbiter n t).wave i k).beat)) k

/-- Beats taken from sink `s`. -/
def arbTaken (s k : Nat) : List (Beat α) :=
  transferred (fun k => (i k).valid s) (fun k => ((arbiter n t).wave i k).ready s) (fun k => (i k).beat s) k

/-- Sink `s` has sent the beginning of a packet. -/
def arbInside (s k : Nat) : Bool := openPacket (arbSinkXfer n t i s) (fun k => ((i k).beat s).last) k

/-- No sink pauses for `t` cycles within a packet. -/
def ArbNoPause : Prop :=
  ∀ s < n, ∀ c, ∃ k, c ≤ k ∧ k < c + t ∧ (arbInside n t i s k = true → (i k).valid s = true)

/-- The beats taken from a sink are those on the source that came from it. -/
theorem C105_taken_from (hn : 2 ≤ n) (s k : Nat) (hs : s < n) : arbTaken n t i s k = beatsOf s (arbTagged n t i k) := by
  induction k with
  | zero => rfl
  | succ k ih =>
    have e1 : arbTaken n t i s (k + 1) = arbTaken n t i s k ++
      (if (i k).valid s && ((arbiter n t).wave i k).ready s then [(i k).beat s] else []) := rfl
    have e2 : arbTagged n t i (k + 1) = arbTagged n t i k ++
      (if ((arbiter n t).wave i k).valid && (i k).ready then [(arbSelected n t i k, ((arbiter n t).wave i k).beat)] else []) := rfl
    obtain ⟨h1, h2, h3, h4⟩ := C15_arbiter_routes n t hn i k
    rw [e1, e2, ih, beatsOf, beatsOf, List.filter_append, List.map_append, h2, h3, h4 s]
    congr 1
    by_cases h : s = arbSelected n t i k
    · subst h
      simp only [decide_true, Bool.true_and]
      split <;> simp
    · simp only [h, decide_false, Bool.false_and, Bool.and_false, Bool.false_eq_true, if_false]
      split <;> simp [Ne.symm h]

variable {n t i}

theorem arb_inside_succ (hn : 2 ≤ n) (s k : Nat) : arbInside n t i s (k + 1) =
    if (i k).valid s && (decide (s = arbSelected n t i k) && (i k).ready) then !((i k).beat s).last else arbInside n t i s k := by
  have := (C15_arbiter_routes n t hn i k).2.2.2 s
  simp only [arbInside, openPacket, arbSinkXfer, this]

theorem arb_packets (hn : 2 ≤ n) (hnp : ArbNoPause n t i) (k : Nat) : ∃ ps u part, Packets (arbTagged n t i k) ps u part ∧
    (∀ p ∈ ps, p.1 < n) ∧
    ((arbiter n t).st i k).ongoing = !part.isEmpty ∧ (part ≠ [] → arbSelected n t i k = u ∧ u < n) ∧
    (∀ s < n, arbInside n t i s k = (decide (s = u) && !part.isEmpty)) ∧ ((arbiter n t).st i k).stall ≠ 0 := by
  have hstall : ∀ k, (∀ j ≤ k, ((arbiter n t).st i j).ongoing = true → arbInside n t i (arbSelected n t i j) j = true) →
      ((arbiter n t).st i k).stall ≠ 0 := by
    intro k hin h0
    obtain ⟨h1, h2⟩ := arb_silent n t hn i k h0
    have hlt := arb_grant_lt n t hn i k
    obtain ⟨j, j1, j2, j3⟩ := hnp _ hlt (k - t)
    obtain ⟨g1, g2, g3⟩ := h2 j (by omega) (by omega)
    have := hin j (by omega) g2
    unfold arbSelected at this
    rw [g1] at this
    rw [j3 this] at g3
    cases g3
  have key : ∀ k, (∃ ps u part, Packets (arbTagged n t i k) ps u part ∧ (∀ p ∈ ps, p.1 < n) ∧
      ((arbiter n t).st i k).ongoing = !part.isEmpty ∧ (part ≠ [] → arbSelected n t i k = u ∧ u < n) ∧
      (∀ s < n, arbInside n t i s k = (decide (s = u) && !part.isEmpty))) ∧
      (∀ j ≤ k, ((arbiter n t).st i j).ongoing = true → arbInside n t i (arbSelected n t i j) j = true) := by
    intro k
    induction k with
    | zero =>
      refine ⟨⟨[], 0, [], ⟨rfl, by simp, by simp⟩, by simp, rfl, by simp, fun s _ => by simp [arbInside, openPacket]⟩, ?_⟩
      intro j hj h
      obtain rfl : j = 0 := by omega
      simp [Circuit.st, arbiter] at h
    | succ k ih =>
      obtain ⟨⟨ps, u, part, hP, hpn, hon, hsel, hin⟩, hall⟩ := ih
      have hst := hstall k hall
      have step : ∃ ps u part, Packets (arbTagged n t i (k + 1)) ps u part ∧ (∀ p ∈ ps, p.1 < n) ∧
          ((arbiter n t).st i (k + 1)).ongoing = !part.isEmpty ∧ (part ≠ [] → arbSelected n t i (k + 1) = u ∧ u < n) ∧
          (∀ s < n, arbInside n t i s (k + 1) = (decide (s = u) && !part.isEmpty)) := by
        have e2 : arbTagged n t i (k + 1) = arbTagged n t i k ++
          (if ((arbiter n t).wave i k).valid && (i k).ready then [(arbSelected n t i k, ((arbiter n t).wave i k).beat)] else []) :=
          rfl
        have e3 := arb_ongoing n t i k
        have e4 := fun s => arb_inside_succ (t := t) (i := i) hn s k
        have hkeep := arb_keep n t i k
        obtain ⟨h1, h2, h3, h4⟩ := C15_arbiter_routes n t hn i k
        cases hx : ((arbiter n t).wave i k).valid && (i k).ready
        · -- nothing crosses
          rw [hx] at e2 e3
          simp only [Bool.false_eq_true, if_false, List.append_nil] at e2 e3
          refine ⟨ps, u, part, e2 ▸ hP, hpn, e3 ▸ hon, fun hne => ?_, fun s hs => ?_⟩
          · obtain ⟨g1, g2⟩ := hsel hne
            have hong : ((arbiter n t).st i k).ongoing = true := by rw [hon]; simpa using hne
            exact ⟨(hkeep (.inl hong) (by rw [hx]; rfl) hst).trans g1, g2⟩
          · rw [e4, hin s hs]
            by_cases h : s = arbSelected n t i k
            · rw [← h] at h2
              rw [h2] at hx
              rw [show ((i k).valid s && (decide (s = arbSelected n t i k) && (i k).ready)) = false by
                rw [decide_eq_true h, Bool.true_and]; exact hx]
              rfl
            · simp [h]
        · rw [hx] at e2 e3
          simp only [if_true] at e2 e3
          have hown : part ≠ [] → u = arbSelected n t i k := fun h => ((hsel h).1).symm
          -- the packet after the beat
          have hP' : arbTagged n t i (k + 1) = ps.flatMap (fun p => p.2.map (Prod.mk p.1)) ++
              (part ++ [((arbiter n t).wave i k).beat]).map (Prod.mk (arbSelected n t i k)) := by
            rw [e2, hP.eq, List.map_append, List.append_assoc]
            congr 1
            by_cases h : part = []
            · subst h; rfl
            · rw [hown h]; rfl
          have hx' := Bool.and_eq_true_iff.mp hx
          cases hl : ((arbiter n t).wave i k).beat.last
          · refine ⟨ps, arbSelected n t i k, part ++ [((arbiter n t).wave i k).beat], ⟨hP', hP.whole, ?_⟩, hpn, ?_, fun _ => ⟨?_, h1⟩, ?_⟩
            · intro x hx
              rcases List.mem_append.mp hx with hx | hx
              · exact hP.open_ x hx
              · rw [List.mem_singleton.mp hx]; exact hl
            · rw [e3, hl]; simp
            · exact hkeep (.inr hx'.1) (by rw [hl]; simp) hst
            · intro s hs
              rw [e4]
              by_cases h : s = arbSelected n t i k
              · rw [← h] at h2 h3
                rw [← h2, hx'.1, ← h3, hx'.2, hl]
                simp [h]
              · simp only [h, decide_false, Bool.false_and, Bool.and_false, Bool.false_eq_true, if_false]
                rw [hin s hs]
                by_cases hp : part = []
                · simp [hp]
                · rw [hown hp]; simp [h]
          · refine ⟨ps ++ [(arbSelected n t i k, part ++ [((arbiter n t).wave i k).beat])], 0, [], ⟨?_, ?_, by simp⟩, ?_, ?_, by simp, ?_⟩
            · rw [hP']; simp
            · intro p hp
              rcases List.mem_append.mp hp with hp | hp
              · exact hP.whole p hp
              · rw [List.mem_singleton.mp hp]
                exact ⟨part, _, rfl, hl, hP.open_⟩
            · intro p hp
              rcases List.mem_append.mp hp with hp | hp
              · exact hpn p hp
              · rw [List.mem_singleton.mp hp]; exact h1
            · rw [e3, hl]; rfl
            · intro s hs
              rw [e4]
              by_cases h : s = arbSelected n t i k
              · rw [← h] at h2 h3
                rw [← h2, hx'.1, ← h3, hx'.2, hl]
                simp [h]
              · simp only [h, decide_false, Bool.false_and, Bool.and_false, Bool.false_eq_true, if_false]
                rw [hin s hs]
                by_cases hp : part = []
                · simp [hp]
                · rw [hown hp]; simp [h]
      refine ⟨step, fun j hj hong => ?_⟩
      rcases Nat.lt_or_ge j (k + 1) with h | h
      · exact hall j (by omega) hong
      · obtain rfl : j = k + 1 := by omega
        obtain ⟨ps, u, part, -, -, g1, g2, g3⟩ := step
        rw [g1] at hong
        have hne : part ≠ [] := by simpa using hong
        rw [g3 _ ((g2 hne).1 ▸ (g2 hne).2), (g2 hne).1]
        simp [hong]
  obtain ⟨⟨ps, u, part, h⟩, hall⟩ := key k
  exact ⟨ps, u, part, h.1, h.2.1, h.2.2.1, h.2.2.2.1, h.2.2.2.2, hstall k hall⟩

/-- The selected sink keeps the source while its beat waits. -/
theorem arb_selected_keep (hn : 2 ≤ n) (hnp : ArbNoPause n t i) (k : Nat)
    (ho : ((arbiter n t).st i k).ongoing = true ∨ ((arbiter n t).wave i k).valid = true)
    (hc : (((arbiter n t).wave i k).valid && (i k).ready && ((arbiter n t).wave i k).beat.last) = false) :
    arbSelected n t i (k + 1) = arbSelected n t i k := by
  obtain ⟨_, _, _, _, _, _, _, _, hst⟩ := arb_packets hn hnp k
  exact arb_keep n t i k ho hc hst

/-- **C105.** Without long pauses the source obeys the stream rule. -/
theorem C105_source_stable (hn : 2 ≤ n) (hnp : ArbNoPause n t i) (hs : ArbSinksStable n t i) :
    Stable (fun k => ((arbiter n t).wave i k).valid) (fun k => (i k).ready) (fun k => ((arbiter n t).wave i k).beat) := by
  intro k hv hr
  simp only at hv hr ⊢
  obtain ⟨h1, h2, h3, h4⟩ := C15_arbiter_routes n t hn i k
  obtain ⟨_, h2', h3', _⟩ := C15_arbiter_routes n t hn i (k + 1)
  have hk := arb_selected_keep hn hnp k (.inr hv) (by simp [hr])
  rw [h2', h3', hk, h3]
  exact hs _ h1 k (h2.symm.trans hv) ((h4 _).trans (by simp [hr]))

theorem highCount_unbounded (f : Nat → Bool) (h : ∀ k, ∃ m, k ≤ m ∧ f m = true) (a c : Nat) :
    ∃ m, c ≤ highCount f a m := by
  induction c with
  | zero => exact ⟨0, Nat.zero_le _⟩
  | succ c ih =>
    obtain ⟨m, hm⟩ := ih
    obtain ⟨k, k1, k2⟩ := h (a + m)
    have mono : ∀ d, highCount f a m ≤ highCount f a (m + d) := by
      intro d
      induction d with
      | zero => exact Nat.le_refl _
      | succ d ih => rw [← Nat.add_assoc, highCount]; omega
    refine ⟨k - a + 1, ?_⟩
    have := mono (k - a - m)
    rw [show m + (k - a - m) = k - a by omega] at this
    rw [highCount, show a + (k - a) = k by omega, k2]
    simp only [if_true]
    omega

/-- No sink sends `L` beats of one packet. -/
def ArbBounded (n t : Nat) (i : Nat → ArbIn α) (L : Nat) : Prop :=
  ∀ s < n, ∀ k pre part, arbTaken n t i s k = pre ++ part → (∀ x ∈ part, x.last = false) → part.length < L

theorem arbTaken_succ (s k : Nat) : arbTaken n t i s (k + 1) = arbTaken n t i s k ++
    (if arbSinkXfer n t i s k then [(i k).beat s] else []) := rfl

theorem arb_sinkXfer_selected (hn : 2 ≤ n) (k : Nat) :
    arbSinkXfer n t i (arbSelected n t i k) k = (((arbiter n t).wave i k).valid && (i k).ready) := by
  obtain ⟨h1, h2, h3, h4⟩ := C15_arbiter_routes n t hn i k
  rw [arbSinkXfer, h4, h2]
  simp

/-- The source is released again and again. -/
theorem arb_releases (hn : 2 ≤ n) (hnp : ArbNoPause n t i) (L : Nat) (hL : ArbBounded n t i L)
    (hgo : ∀ k, ((arbiter n t).wave i k).valid = true → ∃ m, k ≤ m ∧ arbXfer n t i m = true) (a : Nat) :
    ∃ m, a ≤ m ∧ arbRelease n t i m = true := by
  refine Classical.byContradiction fun hno => ?_
  have hrel : ∀ m, a ≤ m → arbRelease n t i m = false := fun m hm => by
    cases h : arbRelease n t i m
    · rfl
    · exact absurd ⟨m, hm, h⟩ hno
  have hnl : ∀ m, a ≤ m → (((arbiter n t).wave i m).valid && (i m).ready && ((arbiter n t).wave i m).beat.last) = false := by
    intro m hm
    have := hrel m hm
    simp only [arbRelease, Bool.or_eq_false_iff] at this
    exact this.1
  have hop : ∀ m, a ≤ m → ((arbiter n t).st i m).ongoing = true ∨ ((arbiter n t).wave i m).valid = true := by
    intro m hm
    have := hrel m hm
    simp only [arbRelease, Bool.or_eq_false_iff, ← arb_open] at this
    cases h : ((arbiter n t).st i m).ongoing
    · right
      have h2 := this.2
      rw [h] at h2
      simpa using h2
    · exact .inl rfl
  have hsel : ∀ d, arbSelected n t i (a + d) = arbSelected n t i a := by
    intro d
    induction d with
    | zero => rfl
    | succ d ih => rw [← Nat.add_assoc, arb_selected_keep hn hnp _ (hop _ (by omega)) (hnl _ (by omega)), ih]
  have hsel' : ∀ m, a ≤ m → arbSelected n t i m = arbSelected n t i a := fun m hm => by
    have := hsel (m - a)
    rwa [show a + (m - a) = m by omega] at this
  have hg := (C15_arbiter_routes n t hn i a).1
  -- it transfers again and again
  have hxf : ∀ m, a ≤ m → ∃ m', m ≤ m' ∧ arbXfer n t i m' = true := by
    intro m hm
    rcases Classical.em (∃ m', m ≤ m' ∧ ((arbiter n t).wave i m').valid = true) with ⟨m', h1, h2⟩ | hnv
    · obtain ⟨m'', h3, h4⟩ := hgo m' h2
      exact ⟨m'', by omega, h4⟩
    · exfalso
      obtain ⟨k, k1, k2, k3⟩ := hnp _ hg m
      have hv : ((arbiter n t).wave i k).valid = false := by
        cases h : ((arbiter n t).wave i k).valid
        · rfl
        · exact absurd ⟨k, k1, h⟩ hnv
      have hon : ((arbiter n t).st i k).ongoing = true := by
        rcases hop k (by omega) with h | h
        · exact h
        · rw [hv] at h; cases h
      obtain ⟨ps, u, part, _, _, g1, g2, g3, _⟩ := arb_packets hn hnp k
      rw [g1] at hon
      have hne : part ≠ [] := by simpa using hon
      have := k3 (by rw [g3 _ hg, ← (g2 hne).1, hsel' k (by omega)]; simp [hon])
      have hr := (C15_arbiter_routes n t hn i k).2.1
      rw [hsel' k (by omega), this, hv] at hr
      cases hr
  -- a packet grows without end
  have grow : ∀ j, ∃ m pre part, a ≤ m ∧ arbTaken n t i (arbSelected n t i a) m = pre ++ part ∧
      (∀ x ∈ part, x.last = false) ∧ j ≤ part.length := by
    intro j
    induction j with
    | zero => exact ⟨a, _, [], Nat.le_refl _, (List.append_nil _).symm, by simp, Nat.zero_le _⟩
    | succ j ih =>
      obtain ⟨m, pre, part, h1, h2, h3, h4⟩ := ih
      obtain ⟨m', g1, g2⟩ := hxf m h1
      have ext : ∀ d, ∃ part', arbTaken n t i (arbSelected n t i a) (m + d) = pre ++ part' ∧
          (∀ x ∈ part', x.last = false) ∧ j ≤ part'.length := by
        intro d
        induction d with
        | zero => exact ⟨part, h2, h3, h4⟩
        | succ d ih =>
          obtain ⟨part', e1, e2, e3⟩ := ih
          rw [← Nat.add_assoc, arbTaken_succ, e1]
          split
          · rename_i hx
            refine ⟨part' ++ [(i (m + d)).beat (arbSelected n t i a)], by simp, ?_, by simp; omega⟩
            intro x hxm
            rcases List.mem_append.mp hxm with hxm | hxm
            · exact e2 x hxm
            · rw [List.mem_singleton.mp hxm]
              have hn1 := hnl (m + d) (by omega)
              rw [← hsel' (m + d) (by omega), arb_sinkXfer_selected hn] at hx
              rw [hx, (C15_arbiter_routes n t hn i (m + d)).2.2.1, hsel' (m + d) (by omega)] at hn1
              simpa using hn1
          · exact ⟨part', by simp, e2, e3⟩
      obtain ⟨part', e1, e2, e3⟩ := ext (m' - m)
      rw [show m + (m' - m) = m' by omega] at e1
      have hx : arbSinkXfer n t i (arbSelected n t i a) m' = true := by
        have := arb_sinkXfer_selected (t := t) (i := i) hn m'
        rw [hsel' m' (by omega)] at this
        rw [this]
        exact g2
      refine ⟨m' + 1, pre, part' ++ [(i m').beat (arbSelected n t i a)], by omega, ?_, ?_, by simp; omega⟩
      · rw [arbTaken_succ, e1, if_pos hx]; simp
      · intro x hxm
        rcases List.mem_append.mp hxm with hxm | hxm
        · exact e2 x hxm
        · rw [List.mem_singleton.mp hxm]
          have hn1 := hnl m' (by omega)
          have g2' : (((arbiter n t).wave i m').valid && (i m').ready) = true := g2
          rw [g2', (C15_arbiter_routes n t hn i m').2.2.1, hsel' m' (by omega)] at hn1
          simpa using hn1
  obtain ⟨m, pre, part, _, h2, h3, h4⟩ := grow L
  have := hL _ hg m pre part h2 h3
  omega

/-- **C105.** Every offered beat is taken, when packets are of bounded length and do not pause and the receiver takes what is
offered to it. -/
theorem C105_served (hn : 2 ≤ n) (hnp : ArbNoPause n t i) (hs : ArbSinksStable n t i) (L : Nat) (hL : ArbBounded n t i L)
    (hgo : ∀ k, ((arbiter n t).wave i k).valid = true → ∃ m, k ≤ m ∧ arbXfer n t i m = true)
    (s : Nat) (hsn : s < n) (a : Nat) (hv : (i a).valid s = true) : ∃ m, a ≤ m ∧ arbSinkXfer n t i s m = true := by
  refine Classical.byContradiction fun hno => ?_
  have hnx : ∀ m, a ≤ m → arbSinkXfer n t i s m = false := fun m hm => by
    cases h : arbSinkXfer n t i s m
    · rfl
    · exact absurd ⟨m, hm, h⟩ hno
  have hval : ∀ d, (i (a + d)).valid s = true := by
    intro d
    induction d with
    | zero => exact hv
    | succ d ih =>
      refine (hs s hsn (a + d) ih ?_).1
      have := hnx (a + d) (by omega)
      rw [arbSinkXfer, ih] at this
      simpa using this
  have hval' : ∀ m, a ≤ m → (i m).valid s = true := fun m hm => by
    have := hval (m - a)
    rwa [show a + (m - a) = m by omega] at this
  obtain ⟨m, hm⟩ := highCount_unbounded (arbRelease n t i) (fun k => arb_releases hn hnp L hL hgo k) a (n - 1)
  obtain ⟨k, k1, k2, k3⟩ := C16_arbiter_fair n t hn i s hsn a m (fun k h1 _ => hval' k h1) hm
  have hwv : ∀ j, a ≤ j → arbSelected n t i j = s → ((arbiter n t).wave i j).valid = true := by
    intro j hj h
    rw [(C15_arbiter_routes n t hn i j).2.1, h]
    exact hval' j hj
  have hnr : ∀ j, a ≤ j → arbSelected n t i j = s → (((arbiter n t).wave i j).valid && (i j).ready) = false := by
    intro j hj h
    rw [← arb_sinkXfer_selected hn, h]
    exact hnx j hj
  have stay : ∀ d, arbSelected n t i (k + d) = s := by
    intro d
    induction d with
    | zero => exact k3
    | succ d ih =>
      rw [← Nat.add_assoc, arb_selected_keep hn hnp _ (.inr (hwv _ (by omega) ih)) (by rw [hnr _ (by omega) ih]; rfl), ih]
  obtain ⟨m', m1, m2⟩ := hgo k (hwv k k1 k3)
  have hsm := stay (m' - k)
  rw [show k + (m' - k) = m' by omega] at hsm
  have := hnr m' (by omega) hsm
  have m2' : (((arbiter n t).wave i m').valid && (i m').ready) = true := m2
  rw [m2'] at this
  cases this

end

end Lambdalib
