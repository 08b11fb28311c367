import Verif.Lemmas.SpiMaster
import Verif.Lemmas.SpiDevice
import Verif.Lemmas.Run
import Verif.Props.I2cBridge

/-! C109: `SPIStream` and the SPI master with a device on the pins. -/

namespace Lambdalib

/-- Configurations: 1, 2, 4 or 8 pins, words of a whole number of clock pulses, not more than 256 bits (with one pin). -/
structure SpiMstCfg (W nb : Nat) : Prop where
  width : nb = 1 ∨ nb = 2 ∨ nb = 4 ∨ nb = 8
  dvd : nb ∣ W
  pos : 0 < W
  max : W - nb < 256

theorem SpiMstCfg.link {W nb : Nat} (h : SpiMstCfg W nb) : SpiLinkCfg W nb W := ⟨h.width, h.dvd, h.pos, h.max, Nat.le_refl _⟩

section
variable (W nb div csDelay : Nat) (i : Nat → SpiMstIn)

/-- Words accepted from the user, with `last`. -/
def mstAcc (n : Nat) : List (Bool × Nat) :=
  transferred (fun k => (i k).dValid) (fun k => ((spiMst W nb div csDelay).wave i k).str.dReady)
    (fun k => ((i k).dLast, (i k).dData)) n

/-- Words delivered to the user, with `last`. -/
def mstGot (n : Nat) : List (Bool × Nat) :=
  transferred (fun k => ((spiMst W nb div csDelay).wave i k).str.dValid) (fun k => (i k).dReady)
    (fun k => (((spiMst W nb div csDelay).wave i k).str.dLast, ((spiMst W nb div csDelay).wave i k).str.dData)) n

/-- The pins. -/
def mstCsN (n : Nat) : Bool := ((spiMst W nb div csDelay).wave i n).phy.csN
def mstClk (n : Nat) : Bool := ((spiMst W nb div csDelay).wave i n).phy.clk
def mstDq (n : Nat) : Nat × Nat := (((spiMst W nb div csDelay).wave i n).phy.dqO, (i n).dqI)

/-- What the device has seen. -/
def mstSess (n : Nat) : List (List (Nat × Nat)) :=
  spiSessions (mstCsN W nb div csDelay i) (mstClk W nb div csDelay i) (mstDq W nb div csDelay i) n

/-- The same inputs, with an SPI slave listening on the pins. -/
def mstLink (n : Nat) : SpiLinkIn :=
  ⟨(i n).dValid, (i n).dLast, (i n).dData, (i n).dReady, (i n).avail, (i n).dqI, false, 0, 0⟩

theorem mst_st (n : Nat) : (spiMst W nb div csDelay).st i n =
    ⟨((spiLink W nb div csDelay W true false).st (mstLink i) n).str, ((spiLink W nb div csDelay W true false).st (mstLink i) n).phy,
      ((spiLink W nb div csDelay W true false).st (mstLink i) n).fifo⟩ := by
  induction n with
  | zero => rfl
  | succ n ih => rw [Circuit.st_succ, ih, Circuit.st_succ]; rfl

theorem mst_out (n : Nat) : (spiMst W nb div csDelay).wave i n =
    ⟨((spiLink W nb div csDelay W true false).wave (mstLink i) n).str,
      ((spiLink W nb div csDelay W true false).wave (mstLink i) n).phy⟩ := by
  simp only [Circuit.wave]
  rw [mst_st]
  rfl

theorem mst_acc (n : Nat) : mstAcc W nb div csDelay i n = linkAcc W nb div csDelay W false (mstLink i) n := by
  unfold mstAcc linkAcc
  apply transferred_congr <;> intro k
  · rfl
  · rw [mst_out]
  · rfl

theorem mst_csn : mstCsN W nb div csDelay i = linkCsN W nb div csDelay W false (mstLink i) := by
  funext k; unfold mstCsN; rw [mst_out]; rfl

theorem mst_clk : mstClk W nb div csDelay i = linkClk W nb div csDelay W false (mstLink i) := by
  funext k; unfold mstClk; rw [mst_out]; rfl

theorem mst_sess (n : Nat) : mstSess W nb div csDelay i n = linkSess W nb div csDelay W false (mstLink i) n := by
  unfold mstSess linkSess
  rw [mst_csn, mst_clk]
  congr 1
  funext k
  unfold mstDq
  rw [mst_out]
  rfl

theorem mst_got (n : Nat) : mstGot W nb div csDelay i n = linkPopped W nb div csDelay W false (mstLink i) n := by
  induction n with
  | zero => rfl
  | succ n ih =>
    have e1 : mstGot W nb div csDelay i (n + 1) = mstGot W nb div csDelay i n ++
      (if ((spiMst W nb div csDelay).wave i n).str.dValid && (i n).dReady then
        [(((spiMst W nb div csDelay).wave i n).str.dLast, ((spiMst W nb div csDelay).wave i n).str.dData)] else []) := rfl
    have e2 : linkPopped W nb div csDelay W false (mstLink i) (n + 1) = linkPopped W nb div csDelay W false (mstLink i) n ++
      (if linkPop W nb div csDelay W false (mstLink i) n && true then
        [((spiLink W nb div csDelay W true false).st (mstLink i) n).fifo.headD (false, 0)] else []) := rfl
    have key : ∀ (s : SpiLinkS) (x : SpiLinkIn), (if ((spiLink W nb div csDelay W true false).out s x).str.dValid && x.dReady then
          [(((spiLink W nb div csDelay W true false).out s x).str.dLast, ((spiLink W nb div csDelay W true false).out s x).str.dData)]
          else []) =
        (if ((spiLinkStr s x (spiLinkPads W nb div csDelay false s x).ready).pValid && ((spiStream W nb).out s.str
            (spiLinkStr s x (spiLinkPads W nb div csDelay false s x).ready)).pReady) && true then [s.fifo.headD (false, 0)] else []) := by
      intro s x
      obtain ⟨str, phy, fifo, slv⟩ := s
      obtain ⟨dv, dl, dd, dr, av, dq, sv, sd, sl⟩ := x
      simp only [spiLink, spiStream, spiLinkStr, Bool.and_true]
      cases str <;> cases dr <;> simp
    rw [e1, e2, ih, mst_out]
    congr 1
    exact key _ (mstLink i n)

/-- **C109.** When the chip is not selected, the words accepted are whole packets. The device has seen one selection for each
packet, in order, in which exactly the words of the packet were sent, and the user got one packet for each packet, of the same
length, with the words that were on the data pins at the clock edges. -/
theorem C109_exchange (hc : SpiMstCfg W nb) (n : Nat) (h : mstCsN W nb div csDelay i n = true) :
    ∃ xs : List (List Nat × List (Nat × Nat)), (∀ x ∈ xs, x.1 ≠ [] ∧ x.2.map Prod.fst = spiSent W nb x.1) ∧
      mstAcc W nb div csDelay i n = (xs.map fun x => spiPacket x.1).flatten ∧
      mstSess W nb div csDelay i n = xs.map Prod.snd ∧
      mstGot W nb div csDelay i n = (xs.map fun x => spiPacket (spiAnswer W nb (x.2.map Prod.snd))).flatten ∧
      ∀ x ∈ xs, (spiAnswer W nb (x.2.map Prod.snd)).length = x.1.length := by
  rw [mst_csn] at h
  have hT := link_T W nb W hc.link
  obtain ⟨m, _, hm, c, cs, s1, s2, s3, s4, s5, _⟩ := link_since W nb div csDelay W false (mstLink i) hc.link n
  obtain ⟨xs, cp, cs', i1, i2, i3, i4, i5, _⟩ := link_sess W nb div csDelay W false (mstLink i) hc.link (n + 1)
  have hp : prevOf true (linkCsN W nb div csDelay W false (mstLink i)) (n + 1) = true := h
  obtain ⟨a1, a2, a3⟩ := link_high W nb div csDelay W false (mstLink i) hc.link n h
  obtain ⟨rfl, rfl⟩ := i5 hp
  rw [hp] at i4
  simp only [if_true, List.append_nil] at i2 i3 i4
  obtain ⟨_, c2, c3⟩ := link_closed W nb div csDelay W false (mstLink i) hc.link n h
  rw [a1] at i2
  rw [a2] at i3
  rw [a3] at i4
  have hlen : ∀ x ∈ xs, (x.2.map Prod.snd).length = x.1.length * (W / nb) := fun x hx => by
    have := congrArg List.length (i1 x hx).2
    rw [spiSent_length] at this
    simpa using this
  have hans : ∀ x ∈ xs, (spiAnswer W nb (x.2.map Prod.snd)).length = x.1.length := fun x hx => by
    rw [spiAnswer_length, hlen x hx, Nat.mul_div_cancel _ hT]
  refine ⟨xs, i1, by rw [mst_acc, i2], by rw [mst_sess, i4], ?_, hans⟩
  rw [mst_got, ← link_taken W nb div csDelay W false (mstLink i) hc.link n h]
  have hlt := link_results_lt W nb div csDelay W false (mstLink i) n
  have hfst : (spiResults W nb div csDelay (linkPi W nb div csDelay W false (mstLink i)) n).map Prod.fst =
      ((xs.map fun x => spiPacket (spiAnswer W nb (x.2.map Prod.snd))).flatten).map Prod.fst := by
    rw [c2, i2, List.map_flatten, List.map_flatten, List.map_map, List.map_map]
    congr 1
    apply List.map_congr_left
    intro x hx
    exact (spiPacket_fst (hans x hx)).symm
  have hsnd : (spiResults W nb div csDelay (linkPi W nb div csDelay W false (mstLink i)) n).map Prod.snd =
      ((xs.map fun x => spiPacket (spiAnswer W nb (x.2.map Prod.snd))).flatten).map Prod.snd := by
    have e : (spiResults W nb div csDelay (linkPi W nb div csDelay W false (mstLink i)) n).map (fun f => f.2 % 2 ^ W) =
        (spiResults W nb div csDelay (linkPi W nb div csDelay W false (mstLink i)) n).map Prod.snd :=
      List.map_congr_left fun f hf => Nat.mod_eq_of_lt (hlt f hf)
    rw [← e, c3, i3, List.map_flatten, spiAnswer_flatten W nb _ ?_ hT, List.map_flatten, List.map_map, List.map_map, List.map_map]
    · congr 1
      apply List.map_congr_left
      intro x _
      simp only [Function.comp]
      rw [spiPacket_snd]
    · intro a ha
      rw [List.map_map] at ha
      obtain ⟨x, hx, rfl⟩ := List.mem_map.mp ha
      exact ⟨x.1.length, hlen x hx⟩
  have : ∀ l m : List (Bool × Nat), l.map Prod.fst = m.map Prod.fst → l.map Prod.snd = m.map Prod.snd → l = m := by
    intro l
    induction l with
    | nil => intro m h _; exact (List.map_eq_nil_iff.mp h.symm).symm
    | cons a l ih =>
      intro m h1 h2
      cases m with
      | nil => simp at h1
      | cons b m =>
        simp only [List.map_cons, List.cons.injEq] at h1 h2
        rw [ih m h1.2 h2.2, Prod.ext h1.1 h2.1]
  exact this _ _ hfst hsnd

/-- **C109.** The clock rises only while the chip is selected. -/
theorem C109_clock (hc : SpiMstCfg W nb) (n : Nat) (h : mstCsN W nb div csDelay i n = true) :
    edgeAt true (mstClk W nb div csDelay i) n = false := by
  rw [mst_csn] at h
  rw [mst_clk]
  exact link_no_stray W nb div csDelay W false (mstLink i) hc.link n h

/-- **C109.** With a device on the pins, the user gets the device's answers. -/
theorem C109_device (hc : SpiMstCfg W nb) (D : SpiDevice) (n : Nat) (h : mstCsN W nb div csDelay i n = true)
    (hD : D.On (mstCsN W nb div csDelay i) (mstClk W nb div csDelay i) (mstDq W nb div csDelay i) n) :
    ∃ ps : List (List Nat), (∀ p ∈ ps, p ≠ []) ∧ mstAcc W nb div csDelay i n = (ps.map spiPacket).flatten ∧
      mstSess W nb div csDelay i n = D.sessions (ps.map (spiSent W nb)) ∧
      mstGot W nb div csDelay i n = ((D.sessions (ps.map (spiSent W nb))).map fun s =>
        spiPacket (spiAnswer W nb (s.map Prod.snd))).flatten := by
  obtain ⟨xs, h1, h2, h3, h4, _⟩ := C109_exchange W nb div csDelay i hc n h
  have hS : D.sessions ((xs.map Prod.fst).map (spiSent W nb)) = xs.map Prod.snd := by
    have := D.on_sessions hD
    change mstSess W nb div csDelay i n = D.sessions ((mstSess W nb div csDelay i n).map (List.map Prod.fst)) at this
    rw [h3, List.map_map] at this
    rw [this, List.map_map]
    congr 1
    apply List.map_congr_left
    intro x hx
    exact (h1 x hx).2.symm
  refine ⟨xs.map Prod.fst, ?_, by rw [h2, List.map_map]; rfl, by rw [h3, hS], by rw [h4, hS, List.map_map]; rfl⟩
  intro p hp
  obtain ⟨x, hx, rfl⟩ := List.mem_map.mp hp
  exact (h1 x hx).1

/-- **C109.** If the user takes the answers again and again, then once the last word of a packet is accepted, the chip is deselected
before another word is accepted: with `C109_exchange`, every packet is answered completely. -/
theorem C109_answered (hc : SpiMstCfg W nb) (hio : ∀ n, ∃ m, n ≤ m ∧ (i m).dReady = true ∧ (i m).avail = true) (n : Nat)
    (A : List (Bool × Nat)) (d : Nat) (h : mstAcc W nb div csDelay i n = A ++ [(true, d)]) :
    ∃ m, mstCsN W nb div csDelay i m = true ∧ mstAcc W nb div csDelay i m = mstAcc W nb div csDelay i n := by
  rw [mst_acc] at h
  obtain ⟨m, h1, h2⟩ := link_answered W nb div csDelay W false (mstLink i) hc.link hio n A d h
  exact ⟨m, by rw [mst_csn]; exact h1, by rw [mst_acc, mst_acc]; exact h2⟩

/-- **C109.** If the user takes the answers again and again, a word offered until it is accepted is accepted. -/
theorem C109_accepted (hc : SpiMstCfg W nb) (hio : ∀ n, ∃ m, n ≤ m ∧ (i m).dReady = true ∧ (i m).avail = true) (n : Nat)
    (hhold : ∀ m, n ≤ m → (∀ k, n ≤ k → k < m → ((spiMst W nb div csDelay).wave i k).str.dReady = false) → (i m).dValid = true) :
    ∃ m, n ≤ m ∧ (i m).dValid = true ∧ ((spiMst W nb div csDelay).wave i m).str.dReady = true := by
  obtain ⟨m, h1, h2, h3⟩ := C97_accepted W nb div csDelay W false (mstLink i) hc.link hio n (by
    intro m hm hk
    exact hhold m hm fun k h1 h2 => by rw [mst_out]; exact hk k h1 h2)
  exact ⟨m, h1, h2, by rw [mst_out]; exact h3⟩

/-- **C109.** At any time: since the last cycle without selection, the words accepted are the beginning of one packet, the device
has seen the beginning of the selection for them (or not yet the selection), and the user got the beginning of the answer. -/
theorem C109_progress (hc : SpiMstCfg W nb) (n : Nat) :
    ∃ m, m ≤ n ∧ mstCsN W nb div csDelay i m = true ∧ ∃ c s g,
      mstAcc W nb div csDelay i n = mstAcc W nb div csDelay i m ++ c ∧
      (∃ p r, p ≠ [] ∧ spiPacket p = c ++ r) ∧
      (mstSess W nb div csDelay i n = mstSess W nb div csDelay i m ++ [s] ∨ mstSess W nb div csDelay i n = mstSess W nb div csDelay i m ∧ s = []) ∧
      s.map Prod.fst <+: spiSent W nb (c.map Prod.snd) ∧
      mstGot W nb div csDelay i n = mstGot W nb div csDelay i m ++ g ∧
      g.map Prod.snd <+: spiAnswer W nb (s.map Prod.snd) ∧ g.map Prod.fst <+: c.map Prod.fst := by
  obtain ⟨m, hmn, hm, c, cs, s1, s2, s3, s4, s5, s6⟩ := link_since W nb div csDelay W false (mstLink i) hc.link n
  have hT := link_T W nb W hc.link
  have hself : linkCsN W nb div csDelay W false (mstLink i) n = true → c = [] ∧ cs = [] := by
    intro h
    have := s5 h
    subst this
    exact ⟨by simpa using s1, by simpa using s2⟩
  obtain ⟨c1, c2, c3⟩ := link_closed W nb div csDelay W false (mstLink i) hc.link m hm
  rw [link_taken W nb div csDelay W false (mstLink i) hc.link m hm] at c2 c3
  -- the words sent completely
  obtain ⟨A, cur, E, e, p, g1, g2, g3, g4, g5⟩ := C39_transfer W nb div csDelay (linkPi W nb div csDelay W false (mstLink i))
    (link_ok div csDelay false (mstLink i) hc.link) n
  rw [link_acc] at g1
  obtain ⟨A', cur', t1, rfl, rfl⟩ := List.map_eq_append_iff.mp g1
  obtain ⟨d1, d2, d3⟩ := g3.closed hT A' rfl
  replace g2 : linkPulses W nb div csDelay W false (mstLink i) n = E ++ e := g2
  rw [link_fifo W nb div csDelay W false (mstLink i) hc.link] at d2 d3
  have hcut : e.map Prod.fst <+: spiSent W nb (cur'.map Prod.snd) ∧ e.length < W / nb := by
    rcases g5 with ⟨_, rfl⟩ | ⟨last, w, h, h', h''⟩
    · exact ⟨List.nil_prefix, hT⟩
    · match cur', h with
      | [b], h =>
        simp only [List.map_cons, List.map_nil, List.cons.injEq, and_true] at h
        obtain ⟨_, rfl⟩ := Prod.mk.inj h
        refine ⟨?_, h'⟩
        rw [h'']
        simp only [spiSent, List.map_cons, List.map_nil, List.flatMap_cons, List.flatMap_nil, List.append_nil]
        exact List.take_prefix _ _
      | [], h => cases h
      | _ :: _ :: _, h => cases h
  obtain ⟨g, hg⟩ : linkPopped W nb div csDelay W false (mstLink i) m <+: linkPopped W nb div csDelay W false (mstLink i) n := by
    obtain ⟨d, rfl⟩ : ∃ d, n = m + d := ⟨n - m, by omega⟩
    exact transferred_prefix _ _ _ m d
  have hlt : ∀ f ∈ linkPopped W nb div csDelay W false (mstLink i) n, f.2 < 2 ^ W := fun f hf =>
    link_results_lt W nb div csDelay W false (mstLink i) n f (by
      rw [link_fifo W nb div csDelay W false (mstLink i) hc.link]; simp [hf])
  have hEl : (E.map Prod.snd).length = A'.length * (W / nb) := by
    have := congrArg List.length d1
    rw [spiSent_length] at this
    simpa using this
  have hMl : ((linkPulses W nb div csDelay W false (mstLink i) m).map Prod.snd).length =
      (linkAcc W nb div csDelay W false (mstLink i) m).length * (W / nb) := by
    have := congrArg List.length c1
    rw [spiSent_length] at this
    simpa using this
  refine ⟨m, hmn, by rw [mst_csn]; exact hm, c, cs, g, by rw [mst_acc, mst_acc]; exact s1, ?_, ?_, ?_, by rw [mst_got, mst_got]; exact hg.symm,
    ?_, ?_⟩
  · cases hh : linkCsN W nb div csDelay W false (mstLink i) n
    · by_cases hs : ((spiLink W nb div csDelay W true false).st (mstLink i) n).str = .txRx
      · obtain ⟨q, rfl⟩ := (s6 hh).1 hs
        exact ⟨q ++ [0], [(true, 0)], by simp, by rw [spiPacket_snoc]⟩
      · obtain ⟨q, hq, rfl⟩ := (s6 hh).2 hs
        exact ⟨q, [], hq, by simp⟩
    · rw [(hself hh).1]
      exact ⟨[0], [(true, 0)], nofun, rfl⟩
  · rw [mst_sess, mst_sess, s3]
    cases hh : linkCsN W nb div csDelay W false (mstLink i) n
    · cases hp : prevOf true (linkCsN W nb div csDelay W false (mstLink i)) n
      · exact .inl rfl
      · exact .inr ⟨by simp, s4 hp⟩
    · exact .inr ⟨by simp, (hself hh).2⟩
  · have h1 : (linkPulses W nb div csDelay W false (mstLink i) n).map Prod.fst <+:
        spiSent W nb ((linkAcc W nb div csDelay W false (mstLink i) n).map Prod.snd) := by
      rw [g2, t1, List.map_append, List.map_append, spiSent_append, d1]
      exact (List.prefix_append_right_inj _).mpr hcut.1
    rw [s1, s2, List.map_append, List.map_append, spiSent_append, c1] at h1
    exact (List.prefix_append_right_inj _).mp h1
  · have h1 : (linkPopped W nb div csDelay W false (mstLink i) n).map (fun f => f.2 % 2 ^ W) <+:
        spiAnswer W nb ((linkPulses W nb div csDelay W false (mstLink i) n).map Prod.snd) := by
      rw [g2, List.map_append, spiAnswer_append W nb _ _ _ hEl hT, ← d3, List.map_append, List.map_append, List.append_assoc,
        List.append_assoc]
      exact List.prefix_append _ _
    rw [s2, List.map_append, spiAnswer_append W nb _ _ _ hMl hT, ← c3, ← hg, List.map_append] at h1
    have h2 := (List.prefix_append_right_inj _).mp h1
    rwa [List.map_congr_left (g := Prod.snd) fun f hf => Nat.mod_eq_of_lt (hlt f (by rw [← hg]; simp [hf]))] at h2
  · have h1 : (linkPopped W nb div csDelay W false (mstLink i) n).map Prod.fst <+:
        (linkAcc W nb div csDelay W false (mstLink i) n).map Prod.fst := by
      rw [t1, List.map_append, ← d2, List.map_append, List.map_append, List.append_assoc, List.append_assoc]
      exact List.prefix_append _ _
    rw [s1, List.map_append, ← c2, ← hg, List.map_append] at h1
    exact (List.prefix_append_right_inj _).mp h1

/-! ### Devices on the pins -/

/-- The same inputs with other data pins. -/
def SpiMstIn.pins (x : SpiMstIn) (d : Nat) : SpiMstIn := { x with dqI := d }

/-- What the device drives in a cycle: given the selections so far, the pin `cs_n` and its previous value. -/
def devDrives (D : SpiDevice) (h : List (List (Nat × Nat))) (csN prev : Bool) : Nat :=
  D ((spiSelect (!csN && prev) h).dropLast.map (List.map Prod.fst)) (((spiSelect (!csN && prev) h).getLastD []).map Prod.fst)

/-- The master with a device on the pins: state, selections, and the previous values of `cs_n` and `clk`. -/
def mstClose (D : SpiDevice) (u : Nat → SpiMstIn) : Nat → SpiMstS × List (List (Nat × Nat)) × Bool × Bool
  | 0 => ((spiMst W nb div csDelay).reset, [], true, false)
  | n + 1 =>
    let r := mstClose D u n
    let o := ((spiMst W nb div csDelay).out r.1 (u n)).phy
    let dq := devDrives D r.2.1 o.csN r.2.2.1
    let h := spiSelect (!o.csN && r.2.2.1) r.2.1
    ((spiMst W nb div csDelay).next r.1 ((u n).pins dq),
      (if !o.csN && (!r.2.2.2 && o.clk) then h.dropLast ++ [h.getLastD [] ++ [(o.dqO, dq)]] else h), o.csN, o.clk)

def mstCloseIn (D : SpiDevice) (u : Nat → SpiMstIn) (n : Nat) : SpiMstIn :=
  let r := mstClose W nb div csDelay D u n
  (u n).pins (devDrives D r.2.1 ((spiMst W nb div csDelay).out r.1 (u n)).phy.csN r.2.2.1)

theorem mst_close (D : SpiDevice) (u : Nat → SpiMstIn) (n : Nat) : mstClose W nb div csDelay D u n =
    ((spiMst W nb div csDelay).st (mstCloseIn W nb div csDelay D u) n, mstSess W nb div csDelay (mstCloseIn W nb div csDelay D u) n,
      prevOf true (mstCsN W nb div csDelay (mstCloseIn W nb div csDelay D u)) n,
      prevOf false (mstClk W nb div csDelay (mstCloseIn W nb div csDelay D u)) n) := by
  induction n with
  | zero => rfl
  | succ n ih =>
    have h1 : (spiMst W nb div csDelay).st (mstCloseIn W nb div csDelay D u) (n + 1) =
      (spiMst W nb div csDelay).next ((spiMst W nb div csDelay).st (mstCloseIn W nb div csDelay D u) n)
        (mstCloseIn W nb div csDelay D u n) := rfl
    have h2 : mstSess W nb div csDelay (mstCloseIn W nb div csDelay D u) (n + 1) =
      (let h := spiSelect (!mstCsN W nb div csDelay (mstCloseIn W nb div csDelay D u) n &&
          prevOf true (mstCsN W nb div csDelay (mstCloseIn W nb div csDelay D u)) n)
          (mstSess W nb div csDelay (mstCloseIn W nb div csDelay D u) n)
      if !mstCsN W nb div csDelay (mstCloseIn W nb div csDelay D u) n &&
          edgeAt true (mstClk W nb div csDelay (mstCloseIn W nb div csDelay D u)) n then
        h.dropLast ++ [h.getLastD [] ++ [mstDq W nb div csDelay (mstCloseIn W nb div csDelay D u) n]] else h) := rfl
    have h3 : mstCloseIn W nb div csDelay D u n = (u n).pins (devDrives D (mstClose W nb div csDelay D u n).2.1
      ((spiMst W nb div csDelay).out (mstClose W nb div csDelay D u n).1 (u n)).phy.csN (mstClose W nb div csDelay D u n).2.2.1) := rfl
    rw [ih] at h3
    rw [h1, h2, mstClose, ih]
    simp only [mstCsN, mstClk, mstDq, Circuit.wave, edgeAt, prevOf, if_true]
    rw [h3]
    rfl

theorem mst_on (D : SpiDevice) (u : Nat → SpiMstIn) (n : Nat) :
    D.On (mstCsN W nb div csDelay (mstCloseIn W nb div csDelay D u)) (mstClk W nb div csDelay (mstCloseIn W nb div csDelay D u))
      (mstDq W nb div csDelay (mstCloseIn W nb div csDelay D u)) n := by
  intro k _ h1 h2
  have h3 : mstCloseIn W nb div csDelay D u k = (u k).pins (devDrives D (mstClose W nb div csDelay D u k).2.1
    ((spiMst W nb div csDelay).out (mstClose W nb div csDelay D u k).1 (u k)).phy.csN (mstClose W nb div csDelay D u k).2.2.1) := rfl
  rw [mst_close] at h3
  show (mstCloseIn W nb div csDelay D u k).dqI = _
  rw [h3]
  rfl

/-- **C109.** Whatever the user and the device do, there is such an execution. -/
theorem C109_device_exists (D : SpiDevice) (u : Nat → SpiMstIn) :
    ∃ i : Nat → SpiMstIn, (∀ n, i n = (u n).pins (i n).dqI) ∧
      ∀ n, D.On (mstCsN W nb div csDelay i) (mstClk W nb div csDelay i) (mstDq W nb div csDelay i) n :=
  ⟨mstCloseIn W nb div csDelay D u, fun _ => rfl, mst_on W nb div csDelay D u⟩

/-- **C109.** With a fast clock (`div` at most 3) the clock is low whenever the chip is not selected. Missing: slower clocks, see
`C109_release_refuted`. -/
theorem C109_release_partial (hc : SpiMstCfg W nb) (hd : div % 256 ≤ 3) (n : Nat) (h : mstCsN W nb div csDelay i n = true) :
    mstClk W nb div csDelay i n = false := by
  rw [mst_csn] at h
  rw [mst_clk]
  exact link_release W nb div csDelay W false (mstLink i) hc.link hd n h

end

/-- A user with one packet of one word, who is ready in every eighth cycle. -/
def spiMstDemo (n : Nat) : SpiMstIn := ⟨decide (n < 100), true, 165, n % 8 == 0, true, 0⟩

/-- **C109 is refuted** for slower clocks: with a system clock of 100 MHz and an SPI clock of 2.5 MHz, the chip is deselected during
the last clock pulse, that is before the last falling edge. -/
theorem C109_release_refuted : ¬ ∀ (W nb sys : Nat) (spi : Rat) (i : Nat → SpiMstIn), SpiMstCfg W nb →
    ∀ n, mstCsN W nb (spiDivisor sys spi).toNat (spiCsDelay sys spi 2).toNat i n = true →
      mstClk W nb (spiDivisor sys spi).toNat (spiCsDelay sys spi 2).toNat i n = false := by
  intro h
  have := h 8 1 100000000 2500000 spiMstDemo ⟨.inl rfl, ⟨8, rfl⟩, by omega, by omega⟩ 396
  rw [show (spiDivisor 100000000 2500000).toNat = 19 by decide +kernel,
    show (spiCsDelay 100000000 2500000 2).toNat = 80 by decide +kernel] at this
  revert this
  decide +kernel

example : SpiMstCfg 8 1 := ⟨.inl rfl, ⟨8, rfl⟩, by omega, by omega⟩
example : SpiMstCfg 8 4 := ⟨.inr (.inr (.inl rfl)), ⟨2, rfl⟩, by omega, by omega⟩

/-- A device that returns what it received one bit later, after a one. -/
def spiShiftDev : SpiDevice := fun _ o => 2 * o.getLastD 1

/-- A packet of two words, 165 and 60, and then one of one word. -/
def spiMstDemo2 (n : Nat) : SpiMstIn :=
  ⟨decide (n < 22) || decide (60 ≤ n), decide (8 < n), if n < 10 then 165 else 60, n % 8 == 0, true, 0⟩

/-- The hypotheses of `C109_device` are met, and the user gets the packet shifted by one bit. -/
example : spiShiftDev.On (mstCsN 8 1 0 2 (mstCloseIn 8 1 0 2 spiShiftDev spiMstDemo2)) (mstClk 8 1 0 2 (mstCloseIn 8 1 0 2 spiShiftDev spiMstDemo2))
      (mstDq 8 1 0 2 (mstCloseIn 8 1 0 2 spiShiftDev spiMstDemo2)) 45 ∧
    mstCsN 8 1 0 2 (mstCloseIn 8 1 0 2 spiShiftDev spiMstDemo2) 45 = true ∧
    mstAcc 8 1 0 2 (mstCloseIn 8 1 0 2 spiShiftDev spiMstDemo2) 45 = [(false, 165), (true, 60)] ∧
    mstGot 8 1 0 2 (mstCloseIn 8 1 0 2 spiShiftDev spiMstDemo2) 45 = [(false, 210), (true, 158)] :=
  ⟨mst_on 8 1 0 2 spiShiftDev spiMstDemo2 45, by decide +kernel, by decide +kernel, by decide +kernel⟩

/-- The answer in closed form. -/
example : ((spiShiftDev.sessions ([[165, 60]].map (spiSent 8 1))).map fun s => spiPacket (spiAnswer 8 1 (s.map Prod.snd))).flatten =
    [(false, 210), (true, 158)] := by decide +kernel

example : ∀ n, ∃ m, n ≤ m ∧ (spiMstDemo2 m).dReady = true ∧ (spiMstDemo2 m).avail = true := fun n =>
  ⟨8 * n, by omega, by simp [spiMstDemo2], rfl⟩

end Lambdalib
