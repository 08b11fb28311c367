import Verif.Lemmas.SpiMaster

/-! The pins of the SPI master sampled by another clock. -/

namespace Lambdalib

section
variable (W nb div csDelay sw : Nat) (miso : Bool) (i : Nat → SpiLinkIn)

/-- The clock pin is a register of the clock generator. -/
theorem link_clk_st (n : Nat) : linkClk W nb div csDelay sw miso i n =
    ((spiLink W nb div csDelay sw true miso).st i n).phy.ck.clk := rfl

/-- Clock of the master: at rest, or its counter runs; a change needs the counter at its end. -/
def ckRest (s : SpiPhyS) : Prop := s.ck.cnt ≤ div % 256 ∧ (s.running = false → s.ck.clk = false ∧ s.ck.cnt = 0)

theorem link_rest (n : Nat) : ckRest div ((spiLink W nb div csDelay sw true miso).st i n).phy := by
  induction n with
  | zero => exact ⟨Nat.zero_le _, fun _ => ⟨rfl, rfl⟩⟩
  | succ n ih =>
    obtain ⟨h1, h2⟩ := ih
    rw [link_phy] at h1 h2
    rw [link_phy, Circuit.st_succ]
    generalize (spiPhy W nb div csDelay).st (linkPi W nb div csDelay sw miso i) n = s at *
    generalize linkPi W nb div csDelay sw miso i n = x at *
    have hD : div % 2 ^ 8 = div % 256 := rfl
    have hlt : div % 256 < 256 := Nat.mod_lt _ (by omega)
    refine ⟨?_, ?_⟩
    · show (if s.running then (if s.ck.cnt < div % 2 ^ 8 then (s.ck.cnt + 1) % 2 ^ 8 else 0) else 0) ≤ _
      split
      · split
        · have := Nat.mod_le (s.ck.cnt + 1) (2 ^ 8); omega
        · omega
      · omega
    · intro hr
      replace hr : (if spiOutLoad div csDelay s x then true
        else if spiOutEnd div s && !spiXfrEn csDelay s x then false else s.running) = false := hr
      show (if s.running then (if s.ck.cnt < div % 2 ^ 8 then s.ck.clk else !s.ck.clk) else false) = false ∧
        (if s.running then (if s.ck.cnt < div % 2 ^ 8 then (s.ck.cnt + 1) % 2 ^ 8 else 0) else 0) = 0
      cases hrun : s.running
      · simp
      · rw [hrun] at hr
        split at hr
        · cases hr
        · split at hr
          · rename_i he
            simp only [spiOutEnd, spiOutShift, spiClkGen, spiPhyCk, Bool.and_eq_true, beq_iff_eq] at he
            obtain ⟨⟨⟨⟨_, a⟩, b⟩, _⟩, _⟩ := he
            simp [a, b]
          · cases hr

/-- One step of the clock. -/
theorem link_clk_step (n : Nat) :
    ((spiLink W nb div csDelay sw true miso).st i (n + 1)).phy.ck.cnt ≤ ((spiLink W nb div csDelay sw true miso).st i n).phy.ck.cnt + 1 ∧
    (((spiLink W nb div csDelay sw true miso).st i n).phy.ck.cnt < div % 256 →
      (((spiLink W nb div csDelay sw true miso).st i n).phy.running = false → ((spiLink W nb div csDelay sw true miso).st i n).phy.ck.clk = false) →
      linkClk W nb div csDelay sw miso i (n + 1) = linkClk W nb div csDelay sw miso i n) ∧
    (linkClk W nb div csDelay sw miso i (n + 1) ≠ linkClk W nb div csDelay sw miso i n →
      (((spiLink W nb div csDelay sw true miso).st i n).phy.running = false → ((spiLink W nb div csDelay sw true miso).st i n).phy.ck.clk = false) →
      ((spiLink W nb div csDelay sw true miso).st i (n + 1)).phy.ck.cnt = 0) := by
  rw [link_clk_st, link_clk_st]
  rw [link_phy, link_phy, Circuit.st_succ]
  generalize (spiPhy W nb div csDelay).st (linkPi W nb div csDelay sw miso i) n = s
  generalize linkPi W nb div csDelay sw miso i n = x
  have e1 : ((spiPhy W nb div csDelay).next s x).ck.cnt =
    (if s.running then (if s.ck.cnt < div % 2 ^ 8 then (s.ck.cnt + 1) % 2 ^ 8 else 0) else 0) := rfl
  have e2 : ((spiPhy W nb div csDelay).next s x).ck.clk =
    (if s.running then (if s.ck.cnt < div % 2 ^ 8 then s.ck.clk else !s.ck.clk) else false) := rfl
  have hD : div % 2 ^ 8 = div % 256 := rfl
  rw [e1, e2]
  refine ⟨?_, ?_, ?_⟩
  · split
    · split
      · exact Nat.mod_le _ _
      · omega
    · omega
  · intro h h'
    cases hr : s.running
    · simp [h' hr]
    · simp [h]
  · intro h h'
    cases hr : s.running
    · simp
    · rw [hr] at h
      simp only [if_true] at h ⊢
      split at h
      · exact absurd rfl h
      · rename_i hn
        rw [if_neg hn]

/-- After a change, and at the beginning, the clock keeps its level for half a period. -/
theorem link_level_holds (a : Nat)
    (h : a = 0 ∨ ∃ b, a = b + 1 ∧ linkClk W nb div csDelay sw miso i a ≠ linkClk W nb div csDelay sw miso i b) (j : Nat) (hj : j ≤ div % 256) :
    linkClk W nb div csDelay sw miso i (a + j) = linkClk W nb div csDelay sw miso i a ∧
      ((spiLink W nb div csDelay sw true miso).st i (a + j)).phy.ck.cnt ≤ j := by
  induction j with
  | zero =>
    refine ⟨rfl, ?_⟩
    rcases h with rfl | ⟨b, rfl, hb⟩
    · exact Nat.le_refl 0
    · have := (link_clk_step W nb div csDelay sw miso i b).2.2 hb fun hr => ((link_rest W nb div csDelay sw miso i b).2 hr).1
      exact Nat.le_of_eq this
  | succ j ih =>
    obtain ⟨h1, h2⟩ := ih (by omega)
    have hs := link_clk_step W nb div csDelay sw miso i (a + j)
    have h3 := hs.2.1 (by omega) fun hr => ((link_rest W nb div csDelay sw miso i (a + j)).2 hr).1
    exact ⟨by rw [← Nat.add_assoc, h3, h1], by rw [← Nat.add_assoc]; have := hs.1; omega⟩

/-- The data pins do not change while the clock is high. -/
theorem link_dq_holds (n : Nat) (h : linkClk W nb div csDelay sw miso i n = true)
    (h' : linkClk W nb div csDelay sw miso i (n + 1) = true) :
    linkDq W nb div csDelay sw miso i (n + 1) = linkDq W nb div csDelay sw miso i n := by
  have hr := link_rest W nb div csDelay sw miso i n
  have e : ∀ k, linkDq W nb div csDelay sw miso i k = (let s := (spiPhy W nb div csDelay).st (linkPi W nb div csDelay sw miso i) k
      if spiWidthCase s.widthR then s.srOut / 2 ^ (W - s.widthR) % 2 ^ nb else 0) := by
    intro k; rw [← link_phy]; rfl
  rw [e, e, Circuit.st_succ]
  rw [link_clk_st, link_phy] at h h'
  rw [Circuit.st_succ] at h'
  rw [link_phy] at hr
  generalize (spiPhy W nb div csDelay).st (linkPi W nb div csDelay sw miso i) n = s at *
  generalize linkPi W nb div csDelay sw miso i n = x at *
  have hrun : s.running = true := by
    cases hx : s.running
    · have := (hr.2 hx).1; rw [h] at this; cases this
    · rfl
  replace h' : (if s.running then (if s.ck.cnt < div % 2 ^ 8 then s.ck.clk else !s.ck.clk) else false) = true := h'
  have hlt : s.ck.cnt < div % 2 ^ 8 := by
    rw [hrun, h] at h'
    simp only [if_true] at h'
    split at h'
    · assumption
    · cases h'
  have hsh : spiOutShift div s = false := by
    simp only [spiOutShift, spiClkGen, spiPhyCk]
    rw [beq_eq_false_iff_ne.mpr (by omega), Bool.and_false]
  have hend : spiOutEnd div s = false := by rw [spiOutEnd, hsh]; rfl
  have hl : spiOutLoad div csDelay s x = false := by rw [spiOutLoad, hend, hrun]; rfl
  simp [spiPhy, hl, hsh]

/-- The chip stays selected for at least four cycles after each rising edge, or until the clock falls. -/
theorem link_cs_holds (hc : SpiLinkCfg W nb sw) (n : Nat) (h : linkClk W nb div csDelay sw miso i n = true)
    (hcnt : ((spiLink W nb div csDelay sw true miso).st i n).phy.ck.cnt < 4) : linkCsN W nb div csDelay sw miso i n = false := by
  cases hs : linkCsN W nb div csDelay sw miso i n
  · rfl
  · exfalso
    obtain ⟨_, _, _, i4⟩ := link_late W nb div csDelay sw miso i hc n
    rw [link_csn] at hs
    rw [link_clk_st] at h
    rcases i4 (by simpa using hs) with h' | ⟨_, _, _, h'⟩
    · rw [h] at h'; cases h'.2
    · omega

/-- Edges in a row of cycles. -/
theorem link_pulses_add (n : Nat) (d : Nat) (h : ∀ k, n ≤ k → k < n + d → edgeAt true (linkClk W nb div csDelay sw miso i) k = false) :
    linkPulses W nb div csDelay sw miso i (n + d) = linkPulses W nb div csDelay sw miso i n := by
  induction d with
  | zero => rfl
  | succ d ih =>
    rw [← Nat.add_assoc, link_pulses_succ, h (n + d) (by omega) (by omega), ih fun k h1 h2 => h k h1 (by omega)]
    simp

/-- A span of cycles in which the clock has changed at most once. -/
theorem link_span (T d : Nat) (hd : d ≤ div % 256 + 1) :
    (∀ k, k ≤ d → linkClk W nb div csDelay sw miso i (T + k) = linkClk W nb div csDelay sw miso i T) ∨
    ∃ a, T < a ∧ a ≤ T + d ∧ (∀ k, T ≤ k → k < a → linkClk W nb div csDelay sw miso i k = linkClk W nb div csDelay sw miso i T) ∧
      linkClk W nb div csDelay sw miso i a = !linkClk W nb div csDelay sw miso i T ∧
      ∀ j, a + j ≤ T + d → linkClk W nb div csDelay sw miso i (a + j) = linkClk W nb div csDelay sw miso i a ∧
        ((spiLink W nb div csDelay sw true miso).st i (a + j)).phy.ck.cnt ≤ j := by
  induction d with
  | zero =>
    left
    intro k hk
    obtain rfl : k = 0 := by omega
    rfl
  | succ d ih =>
    rcases ih (by omega) with h | ⟨a, h1, h2, h3, h4, h5⟩
    · by_cases he : linkClk W nb div csDelay sw miso i (T + (d + 1)) = linkClk W nb div csDelay sw miso i T
      · left
        intro k hk
        by_cases hkd : k ≤ d
        · exact h k hkd
        · obtain rfl : k = d + 1 := by omega
          exact he
      · right
        refine ⟨T + (d + 1), by omega, Nat.le_refl _, ?_, ?_, ?_⟩
        · intro k k1 k2
          obtain ⟨m, rfl⟩ := Nat.exists_eq_add_of_le k1
          exact h m (by omega)
        · revert he
          cases linkClk W nb div csDelay sw miso i (T + (d + 1)) <;> cases linkClk W nb div csDelay sw miso i T <;> simp
        · intro j hj
          obtain rfl : j = 0 := by omega
          refine link_level_holds W nb div csDelay sw miso i _ (.inr ⟨T + d, rfl, ?_⟩) 0 (Nat.zero_le _)
          rw [h d (Nat.le_refl _)]
          exact he
    · right
      refine ⟨a, h1, by omega, h3, h4, ?_⟩
      intro j hj
      refine link_level_holds W nb div csDelay sw miso i a (.inr ⟨a - 1, by omega, ?_⟩) j (by omega)
      rw [h3 (a - 1) (by omega) (by omega), h4]
      cases linkClk W nb div csDelay sw miso i T <;> simp

/-- The data pins at the end of a high phase are those at its beginning. -/
theorem link_dq_high (a j : Nat) (h : ∀ k, k ≤ j → linkClk W nb div csDelay sw miso i (a + k) = true) :
    linkDq W nb div csDelay sw miso i (a + j) = linkDq W nb div csDelay sw miso i a := by
  induction j with
  | zero => rfl
  | succ j ih =>
    rw [← Nat.add_assoc, link_dq_holds W nb div csDelay sw miso i (a + j) (h j (by omega)) (h (j + 1) (Nat.le_refl _)),
      ih fun k hk => h k (by omega)]

/-- When the chip is not selected, the receiver has no part of a word, and there is no edge. -/
theorem link_idle_spec (hc : SpiLinkCfg W nb sw) (n : Nat) (h : linkCsN W nb div csDelay sw miso i n = true) :
    ∃ w, slvSpec nb [W] ((linkPulses W nb div csDelay sw miso i (n + 1)).map fun p => .sample p.1) = (⟨0, []⟩, w) := by
  rw [link_pulses_succ, link_no_stray W nb div csDelay sw miso i hc n h]
  simp only [Bool.false_eq_true, if_false, List.append_nil]
  have hd := link_deselected W nb div csDelay sw miso i hc n h
  rw [link_acc] at hd
  exact ⟨_, slvSpec_done W nb sw hc hd (by
    intro a ha
    obtain ⟨b, _, rfl⟩ := List.mem_map.mp ha
    exact ⟨b.2, rfl⟩)⟩

/-- Sampled often enough, the pins tell the slave the same as if it had the clock of the master. -/
theorem link_sampled (hc : SpiLinkCfg W nb sw) (t : Nat → Nat) (h0 : t 0 = 0)
    (ht : ∀ n, t n ≤ t (n + 1) ∧ t (n + 1) ≤ t n + (div % 256 + 1) ∧ t (n + 1) ≤ t n + 4) (n : Nat) :
    slvSpec nb [W] (slvEvents true (fun k => linkClk W nb div csDelay sw miso i (t k)) (fun k => linkCsN W nb div csDelay sw miso i (t k))
        (fun k => linkDq W nb div csDelay sw miso i (t k)) (n + 1)) =
      slvSpec nb [W] ((linkPulses W nb div csDelay sw miso i (t n + 1)).map fun p => .sample p.1) := by
  induction n with
  | zero =>
    have e1 : edgeAt true (linkClk W nb div csDelay sw miso i) 0 = false := rfl
    have e2 : edgeAt true (fun k => linkClk W nb div csDelay sw miso i (t k)) 0 = false := by
      simp only [edgeAt, h0]; rfl
    rw [h0, link_pulses_succ, e1, slvEvents, slvEvent, e2]
    simp only [slvEvents, Bool.and_false, Bool.false_eq_true, if_false]
    have : linkPulses W nb div csDelay sw miso i 0 = [] := rfl
    rw [this]
    split <;> simp [slvSpec, slvSpecStep]
  | succ n ih =>
    obtain ⟨d, hd⟩ := Nat.exists_eq_add_of_le (ht n).1
    have hd1 : d ≤ div % 256 + 1 := by have := (ht n).2.1; omega
    have hd2 : d ≤ 4 := by have := (ht n).2.2; omega
    have hprev : prevOf false (fun k => linkClk W nb div csDelay sw miso i (t k)) (n + 1) = linkClk W nb div csDelay sw miso i (t n) := rfl
    rw [slvEvents]
    generalize hT : t n = T at *
    -- the events of this sample
    have key : (∃ g, linkPulses W nb div csDelay sw miso i (T + d + 1) = linkPulses W nb div csDelay sw miso i (T + 1) ++ [g] ∧
          edgeAt true (fun k => linkClk W nb div csDelay sw miso i (t k)) (n + 1) = true ∧
          linkCsN W nb div csDelay sw miso i (T + d) = false ∧ linkDq W nb div csDelay sw miso i (T + d) = g.1) ∨
        (linkPulses W nb div csDelay sw miso i (T + d + 1) = linkPulses W nb div csDelay sw miso i (T + 1) ∧
          edgeAt true (fun k => linkClk W nb div csDelay sw miso i (t k)) (n + 1) = false) := by
      have hedge : edgeAt true (fun k => linkClk W nb div csDelay sw miso i (t k)) (n + 1) =
          (!linkClk W nb div csDelay sw miso i T && linkClk W nb div csDelay sw miso i (T + d)) := by
        rw [edgeAt, if_pos rfl, hprev, hd]
      have hed : ∀ k, edgeAt true (linkClk W nb div csDelay sw miso i) (k + 1) =
        (!linkClk W nb div csDelay sw miso i k && linkClk W nb div csDelay sw miso i (k + 1)) := fun _ => rfl
      rw [hedge, show T + d + 1 = T + 1 + d by omega]
      rcases link_span W nb div csDelay sw miso i T d hd1 with h | ⟨a, h1, h2, h3, h4, h5⟩
      · right
        constructor
        · apply link_pulses_add
          intro k k1 k2
          obtain ⟨m, rfl⟩ : ∃ m, k = T + m + 1 := ⟨k - T - 1, by omega⟩
          rw [hed, h m (by omega), show T + m + 1 = T + (m + 1) by omega, h (m + 1) (by omega)]
          cases linkClk W nb div csDelay sw miso i T <;> rfl
        · rw [h d (Nat.le_refl _)]
          cases linkClk W nb div csDelay sw miso i T <;> rfl
      · obtain ⟨j, hj⟩ := Nat.exists_eq_add_of_le h2
        have h6 := h5 j (by omega)
        rw [← hj] at h6
        obtain ⟨b, rfl⟩ : ∃ b, a = b + 1 := ⟨a - 1, by omega⟩
        have hbefore : ∀ k, T + 1 ≤ k → k < b + 1 → edgeAt true (linkClk W nb div csDelay sw miso i) k = false := by
          intro k k1 k2
          obtain ⟨m, rfl⟩ : ∃ m, k = m + 1 := ⟨k - 1, by omega⟩
          rw [hed, h3 m (by omega) (by omega), h3 (m + 1) (by omega) (by omega)]
          cases linkClk W nb div csDelay sw miso i T <;> rfl
        have hafter : ∀ k, b + 2 ≤ k → k < b + 2 + j → edgeAt true (linkClk W nb div csDelay sw miso i) k = false := by
          intro k k1 k2
          obtain ⟨m, rfl⟩ : ∃ m, k = b + 1 + m + 1 := ⟨k - b - 2, by omega⟩
          rw [hed, (h5 m (by omega)).1, show b + 1 + m + 1 = b + 1 + (m + 1) by omega, (h5 (m + 1) (by omega)).1]
          cases linkClk W nb div csDelay sw miso i (b + 1) <;> rfl
        have p1 : linkPulses W nb div csDelay sw miso i (b + 1) = linkPulses W nb div csDelay sw miso i (T + 1) := by
          obtain ⟨m, hm⟩ : ∃ m, b + 1 = T + 1 + m := ⟨b - T, by omega⟩
          rw [hm]
          exact link_pulses_add W nb div csDelay sw miso i (T + 1) m fun k k1 k2 => hbefore k k1 (by omega)
        have p2 : linkPulses W nb div csDelay sw miso i (T + 1 + d) = linkPulses W nb div csDelay sw miso i (b + 2) := by
          rw [show T + 1 + d = b + 2 + j by omega]
          exact link_pulses_add W nb div csDelay sw miso i (b + 2) j hafter
        rw [p2, link_pulses_succ, p1, hed, h3 b (by omega) (by omega), h4]
        cases hT' : linkClk W nb div csDelay sw miso i T
        · left
          rw [hT'] at h4
          refine ⟨_, rfl, by rw [h6.1, h4]; rfl, ?_, ?_⟩
          · exact link_cs_holds W nb div csDelay sw miso i hc _ (by rw [h6.1, h4]; rfl) (by omega)
          · rw [hj]
            exact link_dq_high W nb div csDelay sw miso i (b + 1) j fun k hk => by rw [(h5 k (by omega)).1, h4]; rfl
        · right
          exact ⟨by simp, by simp⟩
    rw [hd]
    unfold slvSpec at ih ⊢
    rw [List.foldl_append, ih, slvEvent]
    simp only [hd]
    rcases key with ⟨g, k1, k2, k3, k4⟩ | ⟨k1, k2⟩
    · rw [k1, k2, k3, k4, List.map_append, List.foldl_append]
      rfl
    · rw [k1, k2]
      simp only [Bool.and_false, Bool.false_eq_true, if_false]
      cases hcs : linkCsN W nb div csDelay sw miso i (T + d)
      · simp
      · obtain ⟨w, hw⟩ := link_idle_spec W nb div csDelay sw miso i hc (T + d) hcs
        rw [k1] at hw
        unfold slvSpec at hw
        rw [hw]
        split <;> simp [slvSpecStep]

end

end Lambdalib
