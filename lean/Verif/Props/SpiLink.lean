import Verif.Props.UlpiDump
import Verif.Props.I2cSystem
import Verif.Model.SpiLink
import Verif.Props.Spi
import Verif.Props.SpiPhy
import Verif.Props.SpiSlave
import Verif.Props.UsbEp

/-! C97: `SPIStream`, the SPI master and the SPI slave together. -/

namespace Lambdalib

/-- Configurations: 1, 2, 4 or 8 pins, words of a whole number of clock pulses, not more than 256 bits (with one pin), and not
longer than the slave's words. -/
structure SpiLinkCfg (W nb sw : Nat) : Prop where
  width : nb = 1 ∨ nb = 2 ∨ nb = 4 ∨ nb = 8
  dvd : nb ∣ W
  pos : 0 < W
  max : W - nb < 256
  slave : W ≤ sw

theorem SpiLinkCfg.word {W nb sw : Nat} (h : SpiLinkCfg W nb sw) (d : Nat) : SpiWordOk W nb ⟨d, W, nb, true⟩ :=
  ⟨h.width, h.dvd, h.pos, Nat.le_refl _, h.max, Nat.le_refl _⟩

theorem SpiLinkCfg.nb_pos {W nb sw : Nat} (h : SpiLinkCfg W nb sw) : 0 < nb := by
  rcases h.width with h | h | h | h <;> omega

section
variable (W nb div csDelay sw : Nat) (miso : Bool) (i : Nat → SpiLinkIn)

/-- Words accepted from the user of `SPIStream`, with `last`. -/
def linkAcc (n : Nat) : List (Bool × Nat) :=
  transferred (fun k => (i k).dValid) (fun k => ((spiLink W nb div csDelay sw true miso).wave i k).str.dReady)
    (fun k => ((i k).dLast, (i k).dData)) n

/-- Words the slave gives to its receive FIFO: data and number of bits. -/
def linkRec (n : Nat) : List (Nat × Nat) :=
  transferred (fun k => ((spiLink W nb div csDelay sw true miso).wave i k).slv.fValid) (fun _ => true)
    (fun k => (((spiLink W nb div csDelay sw true miso).wave i k).slv.fData,
      ((spiLink W nb div csDelay sw true miso).wave i k).slv.fLen)) n

/-- Inputs of the parts. -/
def linkPi (n : Nat) : SpiPhyIn := spiLinkPhy W nb miso ((spiLink W nb div csDelay sw true miso).st i n) (i n)
def linkSi (n : Nat) : SpiStrIn :=
  spiLinkStr ((spiLink W nb div csDelay sw true miso).st i n) (i n)
    (spiLinkPads W nb div csDelay miso ((spiLink W nb div csDelay sw true miso).st i n) (i n)).ready
def linkVi (n : Nat) : SlvIn := spiLinkSlv W nb div csDelay miso ((spiLink W nb div csDelay sw true miso).st i n) (i n)

theorem link_phy (n : Nat) : ((spiLink W nb div csDelay sw true miso).st i n).phy =
    (spiPhy W nb div csDelay).st (linkPi W nb div csDelay sw miso i) n := by
  induction n with
  | zero => rfl
  | succ n ih => rw [Circuit.st_succ, Circuit.st_succ, ← ih]; rfl

theorem link_str (n : Nat) : ((spiLink W nb div csDelay sw true miso).st i n).str =
    (spiStream W nb).st (linkSi W nb div csDelay sw miso i) n := by
  induction n with
  | zero => rfl
  | succ n ih => rw [Circuit.st_succ, Circuit.st_succ, ← ih]; rfl

theorem link_slv (n : Nat) : ((spiLink W nb div csDelay sw true miso).st i n).slv =
    (spiSlave sw nb true [W]).st (linkVi W nb div csDelay sw miso i) n := by
  induction n with
  | zero => rfl
  | succ n ih => rw [Circuit.st_succ, Circuit.st_succ, ← ih]; rfl

theorem link_pads (n : Nat) : ((spiLink W nb div csDelay sw true miso).wave i n).phy =
    (spiPhy W nb div csDelay).wave (linkPi W nb div csDelay sw miso i) n := by
  simp only [Circuit.wave]
  rw [← link_phy]
  rfl

theorem link_rec (n : Nat) : linkRec W nb div csDelay sw miso i n =
    slvLog sw nb true [W] (linkVi W nb div csDelay sw miso i) n := by
  unfold linkRec slvLog
  apply transferred_congr <;> intro k <;> simp only [Circuit.wave] <;> rw [← link_slv] <;> rfl

/-- What the master accepts is what the user gave. -/
theorem link_acc (n : Nat) : spiAccepted W nb div csDelay (linkPi W nb div csDelay sw miso i) n =
    (linkAcc W nb div csDelay sw miso i n).map fun b => (b.1, (⟨b.2, W, nb, true⟩ : SpiWord)) := by
  have h := C40_forward_out W nb (linkSi W nb div csDelay sw miso i) n
  have e1 : linkAcc W nb div csDelay sw miso i n = transferred (fun k => (linkSi W nb div csDelay sw miso i k).dValid)
      (fun k => ((spiStream W nb).wave (linkSi W nb div csDelay sw miso i) k).dReady)
      (fun k => ((linkSi W nb div csDelay sw miso i k).dLast, (linkSi W nb div csDelay sw miso i k).dData)) n := by
    unfold linkAcc
    apply transferred_congr <;> intro k
    · rfl
    · simp only [Circuit.wave]; rw [← link_str]; rfl
    · rfl
  rw [e1, ← h]
  unfold spiAccepted
  apply transferred_congr <;> intro k
  · simp only [Circuit.wave]; rw [← link_str]; rfl
  · simp only [Circuit.wave]; rw [← link_phy]; rfl
  · simp only [Circuit.wave]; rw [← link_str]; rfl

/-- Words popped from the FIFO. -/
def linkPop (n : Nat) : Bool :=
  (linkSi W nb div csDelay sw miso i n).pValid &&
    ((spiStream W nb).out ((spiLink W nb div csDelay sw true miso).st i n).str (linkSi W nb div csDelay sw miso i n)).pReady

def linkPopped (n : Nat) : List (Bool × Nat) :=
  transferred (linkPop W nb div csDelay sw miso i) (fun _ => true)
    (fun k => (((spiLink W nb div csDelay sw true miso).st i k).fifo.headD (false, 0))) n

theorem link_ok {W nb sw : Nat} (div csDelay : Nat) (miso : Bool) (i : Nat → SpiLinkIn) (hc : SpiLinkCfg W nb sw) (n : Nat)
    (_ : (linkPi W nb div csDelay sw miso i n).valid = true) : SpiWordOk W nb (linkPi W nb div csDelay sw miso i n).word :=
  hc.word _

theorem link_level : FifoLevel (fun n => ((spiPhy W nb div csDelay).wave (linkPi W nb div csDelay sw miso i) n).fValid)
    (linkPop W nb div csDelay sw miso i) (fun n => (linkPi W nb div csDelay sw miso i n).level) := by
  refine ⟨rfl, fun n => ?_⟩
  have h1 : (linkPi W nb div csDelay sw miso i (n + 1)).level = ((spiLink W nb div csDelay sw true miso).st i (n + 1)).fifo.length := rfl
  have h2 : (linkPi W nb div csDelay sw miso i n).level = ((spiLink W nb div csDelay sw true miso).st i n).fifo.length := rfl
  show (linkPi W nb div csDelay sw miso i (n + 1)).level + _ = _ + (if _ && @decide (_ < 8) (Nat.decLt _ _) then 1 else 0)
  simp only [h1, h2]
  rw [← link_pads, Circuit.st_succ]
  have hp : linkPop W nb div csDelay sw miso i n = true → ((spiLink W nb div csDelay sw true miso).st i n).fifo ≠ [] := by
    intro h h'
    simp [linkPop, linkSi, spiLinkStr, h'] at h
  have hn : ((spiLink W nb div csDelay sw true miso).next ((spiLink W nb div csDelay sw true miso).st i n) (i n)).fifo =
    (if linkPop W nb div csDelay sw miso i n then ((spiLink W nb div csDelay sw true miso).st i n).fifo.tail
      else ((spiLink W nb div csDelay sw true miso).st i n).fifo) ++
    (if ((spiLink W nb div csDelay sw true miso).wave i n).phy.fValid &&
        decide (((spiLink W nb div csDelay sw true miso).st i n).fifo.length < 8) then
      [(((spiLink W nb div csDelay sw true miso).wave i n).phy.fLast, ((spiLink W nb div csDelay sw true miso).wave i n).phy.fData)]
      else []) := rfl
  rw [hn]
  generalize ((spiLink W nb div csDelay sw true miso).st i n).fifo = q at *
  generalize ((spiLink W nb div csDelay sw true miso).wave i n).phy = o at *
  cases hq : linkPop W nb div csDelay sw miso i n
  · simp; split <;> simp
  · have := hp hq
    match q, this with
    | a :: l, _ => simp; split <;> simp <;> omega

/-- The FIFO loses nothing. -/
theorem link_fifo (hc : SpiLinkCfg W nb sw) (n : Nat) :
    spiResults W nb div csDelay (linkPi W nb div csDelay sw miso i) n = linkPopped W nb div csDelay sw miso i n ++
      ((spiLink W nb div csDelay sw true miso).st i n).fifo := by
  induction n with
  | zero => rfl
  | succ n ih =>
    have hno := C39_no_overflow W nb div csDelay (linkPi W nb div csDelay sw miso i) (link_ok div csDelay miso i hc)
      (linkPop W nb div csDelay sw miso i) (link_level W nb div csDelay sw miso i) n
    have h2 : (linkPi W nb div csDelay sw miso i n).level = ((spiLink W nb div csDelay sw true miso).st i n).fifo.length := rfl
    have e1 : spiResults W nb div csDelay (linkPi W nb div csDelay sw miso i) (n + 1) =
      spiResults W nb div csDelay (linkPi W nb div csDelay sw miso i) n ++
      (if ((spiPhy W nb div csDelay).wave (linkPi W nb div csDelay sw miso i) n).fValid && true then
        [(((spiPhy W nb div csDelay).wave (linkPi W nb div csDelay sw miso i) n).fLast,
          ((spiPhy W nb div csDelay).wave (linkPi W nb div csDelay sw miso i) n).fData)] else []) := rfl
    have e2 : linkPopped W nb div csDelay sw miso i (n + 1) = linkPopped W nb div csDelay sw miso i n ++
      (if linkPop W nb div csDelay sw miso i n && true then
        [((spiLink W nb div csDelay sw true miso).st i n).fifo.headD (false, 0)] else []) := rfl
    have hn : ((spiLink W nb div csDelay sw true miso).next ((spiLink W nb div csDelay sw true miso).st i n) (i n)).fifo =
      (if linkPop W nb div csDelay sw miso i n then ((spiLink W nb div csDelay sw true miso).st i n).fifo.tail
        else ((spiLink W nb div csDelay sw true miso).st i n).fifo) ++
      (if ((spiLink W nb div csDelay sw true miso).wave i n).phy.fValid &&
          decide (((spiLink W nb div csDelay sw true miso).st i n).fifo.length < 8) then
        [(((spiLink W nb div csDelay sw true miso).wave i n).phy.fLast, ((spiLink W nb div csDelay sw true miso).wave i n).phy.fData)]
        else []) := rfl
    have hp : linkPop W nb div csDelay sw miso i n = true → ((spiLink W nb div csDelay sw true miso).st i n).fifo ≠ [] := by
      intro h h'
      simp [linkPop, linkSi, spiLinkStr, h'] at h
    rw [h2] at hno
    rw [e1, e2, ih, Circuit.st_succ, hn, link_pads]
    generalize ((spiLink W nb div csDelay sw true miso).st i n).fifo = q at *
    generalize (spiPhy W nb div csDelay).wave (linkPi W nb div csDelay sw miso i) n = o at *
    cases hq : linkPop W nb div csDelay sw miso i n
    · cases hv : o.fValid
      · simp
      · simp [hno hv]
    · have := hp hq
      match q, this with
      | a :: l, _ =>
        cases hv : o.fValid
        · simp
        · have := hno hv
          simp at this
          simp [this]

theorem SpiDone.flags {A : List (Bool × SpiWord)} {E : List (Nat × Nat)} {F : List (Bool × Nat)} (h : SpiDone A E F) :
    F.map Prod.fst = A.map Prod.fst := by
  induction h with
  | nil => rfl
  | snoc w last e r _ _ _ ih => simp [ih]

/-- Words accepted whose results are still to be popped: those in the FIFO and at most two more. -/
theorem link_out (hc : SpiLinkCfg W nb sw) (n : Nat) :
    ∃ r, (linkAcc W nb div csDelay sw miso i n).map Prod.fst = (linkPopped W nb div csDelay sw miso i n).map Prod.fst ++
      (((spiLink W nb div csDelay sw true miso).st i n).fifo.map Prod.fst ++ r) := by
  obtain ⟨A, cur, E, e, p, h1, h2, h3, h4, h5⟩ := C39_transfer W nb div csDelay (linkPi W nb div csDelay sw miso i)
    (link_ok div csDelay miso i hc) n
  have hf := h3.flags
  rw [link_fifo W nb div csDelay sw miso i hc n] at hf
  have ha := congrArg (List.map Prod.fst) h1
  rw [link_acc] at ha
  simp only [List.map_map, List.map_append] at ha hf
  refine ⟨p.map Prod.fst ++ cur.map Prod.fst, ?_⟩
  rw [← List.append_assoc, ← List.append_assoc, hf, ← ha]
  rfl

/-- State of `SPIStream` against the results outstanding: none in `IDLE` or before the chip is selected, none with `last` in
`TX_RX`, and in `RX` only the newest with `last`. -/
def linkFlags (str : SpiStrSt) (csCnt : Nat) (o : List Bool) : Prop :=
  (csCnt ≠ 0 → o = []) ∧
    match str with
    | .idle => o = []
    | .txRx => true ∉ o
    | .rx => ∃ o', o = o' ++ [true] ∧ true ∉ o'

theorem link_flags_step (str : SpiStrSt) (c c' : Nat) (o : List Bool) (h : linkFlags str c o) (fl r : List Bool)
    (hr : o = fl ++ r) (y : SpiStrIn) (hp : y.pValid = true → fl.head? = some y.pLast) (hrd : y.pReady = true → c = 0)
    (hc : c' ≠ 0 → c ≠ 0 ∨ str = .idle) :
    ∃ o', o ++ (if y.dValid && ((spiStream W nb).out str y).dReady then [y.dLast] else []) =
        (if y.pValid && ((spiStream W nb).out str y).pReady then [y.pLast] else []) ++ o' ∧
      linkFlags ((spiStream W nb).next str y) c' o' := by
  obtain ⟨h1, h2⟩ := h
  obtain ⟨dv, dl, dd, dr, pr, pv, pl, pd⟩ := y
  simp only at hp hrd
  cases str with
  | idle =>
    simp only at h2
    subst h2
    refine ⟨[], by simp [spiStream], fun _ => rfl, ?_⟩
    cases dv <;> simp [spiStream]
  | txRx =>
    simp only at h2
    have hacc : c' ≠ 0 → o = [] ∧ pr = false := by
      intro hc'
      rcases hc hc' with h | h
      · refine ⟨h1 h, ?_⟩
        cases pr
        · rfl
        · exact absurd (hrd rfl) h
      · cases h
    cases hpop : (pv && dr)
    · refine ⟨o ++ (if dv && pr then [dl] else []), by simp [spiStream, hpop], ?_, ?_⟩
      · intro hc'
        obtain ⟨h3, h4⟩ := hacc hc'
        simp [h3, h4]
      · cases dv <;> cases pr <;> cases dl <;> simp_all [spiStream]
        exact ⟨fl ++ r, by simp, by simpa using h2⟩
    · have hpv : pv = true := by cases pv <;> simp_all
      have hh := hp hpv
      match fl, hh with
      | b :: l, hh =>
        simp at hh
        subst hh hr
        have hb : b = false := by cases b <;> simp_all
        subst hb
        refine ⟨(l ++ r) ++ (if dv && pr then [dl] else []), by simp [spiStream, hpop], ?_, ?_⟩
        · intro hc'
          obtain ⟨h3, h4⟩ := hacc hc'
          cases h3
        · cases dv <;> cases pr <;> cases dl <;> simp_all [spiStream]
          exact ⟨l ++ r, by simp, by simpa using h2⟩
  | rx =>
    obtain ⟨o', rfl, h3⟩ := h2
    have hc0 : c' = 0 := by
      apply Classical.byContradiction
      intro hc'
      rcases hc hc' with h | h
      · have := h1 h
        simp at this
      · cases h
    cases hpop : (pv && dr)
    · refine ⟨o' ++ [true], by simp [spiStream, hpop], fun h => absurd hc0 h, ?_⟩
      cases pv <;> cases dr <;> simp_all [spiStream] <;> exact ⟨o', hr.symm, h3⟩
    · have hpv : pv = true := by cases pv <;> simp_all
      have hh := hp hpv
      match o', hr, h3 with
      | [], hr, _ =>
        have : pl = true := by
          cases fl with
          | nil => cases hh
          | cons b l => simp at hh hr; rw [← hh, ← hr.1]
        subst this
        exact ⟨[], by simp [spiStream, hpop], fun _ => rfl, by cases pv <;> cases dr <;> simp_all [spiStream]⟩
      | b :: l, hr, h3 =>
        have : pl = false := by
          cases fl with
          | nil => cases hh
          | cons b' l' => simp at hh hr; rw [← hh, ← hr.1]; cases b <;> simp_all
        subst this
        have hb : b = false := by cases b <;> simp_all
        subst hb
        refine ⟨l ++ [true], by simp [spiStream, hpop], fun h => absurd hc0 h, ?_⟩
        cases pv <;> cases dr <;> simp_all [spiStream]

theorem link_inv (hc : SpiLinkCfg W nb sw) (n : Nat) :
    ∃ o, (linkAcc W nb div csDelay sw miso i n).map Prod.fst = (linkPopped W nb div csDelay sw miso i n).map Prod.fst ++ o ∧
      linkFlags ((spiLink W nb div csDelay sw true miso).st i n).str ((spiLink W nb div csDelay sw true miso).st i n).phy.csCnt o := by
  induction n with
  | zero => exact ⟨[], rfl, fun _ => rfl, rfl⟩
  | succ n ih =>
    obtain ⟨o, i1, i2⟩ := ih
    obtain ⟨r, hr⟩ := link_out W nb div csDelay sw miso i hc n
    rw [i1] at hr
    have hr := List.append_cancel_left hr
    have e1 : linkAcc W nb div csDelay sw miso i (n + 1) = linkAcc W nb div csDelay sw miso i n ++
      (if (i n).dValid && ((spiLink W nb div csDelay sw true miso).wave i n).str.dReady then [((i n).dLast, (i n).dData)] else []) := rfl
    have e2 : linkPopped W nb div csDelay sw miso i (n + 1) = linkPopped W nb div csDelay sw miso i n ++
      (if linkPop W nb div csDelay sw miso i n && true then
        [((spiLink W nb div csDelay sw true miso).st i n).fifo.headD (false, 0)] else []) := rfl
    obtain ⟨o', h1, h2⟩ := link_flags_step W nb _ _ ((spiLink W nb div csDelay sw true miso).st i (n + 1)).phy.csCnt o i2 _ r hr
      (linkSi W nb div csDelay sw miso i n) (by
        intro h
        simp only [linkSi, spiLinkStr] at h ⊢
        generalize ((spiLink W nb div csDelay sw true miso).st i n).fifo = q at *
        cases q with
        | nil => simp at h
        | cons a l => simp) (by
        intro h
        simp only [linkSi, spiLinkStr, spiLinkPads, spiPhy, spiOutLoad, spiXfrEn, waitTimer, Bool.and_eq_true, beq_iff_eq] at h
        exact h.2.1.1) (by
        rw [Circuit.st_succ]
        generalize (spiLink W nb div csDelay sw true miso).st i n = s
        intro h
        cases hs : s.str
        · exact .inr rfl
        all_goals
          left
          intro hz
          simp [spiLink, spiPhy, waitTimer, spiLinkPhy, spiStream, hs, hz] at h)
    refine ⟨o', ?_, ?_⟩
    · rw [e1, e2, List.map_append, List.map_append, i1, List.append_assoc, List.append_assoc]
      congr 1
      have a1 : (if (i n).dValid && ((spiLink W nb div csDelay sw true miso).wave i n).str.dReady then
        [((i n).dLast, (i n).dData)] else []).map Prod.fst = (if (linkSi W nb div csDelay sw miso i n).dValid &&
          ((spiStream W nb).out ((spiLink W nb div csDelay sw true miso).st i n).str (linkSi W nb div csDelay sw miso i n)).dReady then
        [(linkSi W nb div csDelay sw miso i n).dLast] else []) := by
        rw [apply_ite (List.map Prod.fst)]
        rfl
      have a2 : (if linkPop W nb div csDelay sw miso i n && true then
        [((spiLink W nb div csDelay sw true miso).st i n).fifo.headD (false, 0)] else []).map Prod.fst =
        (if (linkSi W nb div csDelay sw miso i n).pValid && ((spiStream W nb).out
          ((spiLink W nb div csDelay sw true miso).st i n).str (linkSi W nb div csDelay sw miso i n)).pReady then
        [(linkSi W nb div csDelay sw miso i n).pLast] else []) := by
        rw [apply_ite (List.map Prod.fst), Bool.and_true]
        rfl
      rw [a1, a2]
      exact h1
    · rw [Circuit.st_succ] at h2 ⊢
      exact h2

/-- When the chip is not selected, all words accepted have been sent. -/
theorem link_deselected (hc : SpiLinkCfg W nb sw) (n : Nat)
    (h : ((spiLink W nb div csDelay sw true miso).wave i n).phy.csN = true) :
    SpiDone (spiAccepted W nb div csDelay (linkPi W nb div csDelay sw miso i) n)
      (spiPulses W nb div csDelay (linkPi W nb div csDelay sw miso i) n)
      (spiResults W nb div csDelay (linkPi W nb div csDelay sw miso i) n) := by
  obtain ⟨o, h1, h2, _⟩ := link_inv W nb div csDelay sw miso i hc n
  have hz : ((spiLink W nb div csDelay sw true miso).st i n).phy.csCnt ≠ 0 := by
    intro hz
    have : ((spiLink W nb div csDelay sw true miso).wave i n).phy.csN =
      !(((spiLink W nb div csDelay sw true miso).st i n).phy.csCnt == 0) := rfl
    rw [this, hz] at h
    cases h
  rw [h2 hz, List.append_nil] at h1
  obtain ⟨A, cur, E, e, p, g1, g2, g3, g4, g5⟩ := C39_transfer W nb div csDelay (linkPi W nb div csDelay sw miso i)
    (link_ok div csDelay miso i hc) n
  have hf := congrArg List.length g3.flags
  have hr := congrArg List.length (link_fifo W nb div csDelay sw miso i hc n)
  have ha := congrArg List.length g1
  have hq := congrArg List.length h1
  rw [link_acc] at ha
  simp at hf hr ha hq
  have hp : p = [] := List.eq_nil_of_length_eq_zero (by omega)
  have hcur : cur = [] := List.eq_nil_of_length_eq_zero (by omega)
  subst hp hcur
  rcases g5 with ⟨_, rfl⟩ | ⟨_, _, h, _⟩
  · rw [g1, g2]
    simpa using g3
  · cases h

/-! ### The slave's side -/

/-- Receiving fewer groups than a word has. -/
theorem slvSpec_part (l : List Nat) (b : List Nat) (ws : List (Nat × Nat)) (h : nb * (b.length + l.length) < W) (hnb : 0 < nb) :
    (l.map SlvEv.sample).foldl (fun a e => ((slvSpecStep nb [W] a.1 e).1, a.2 ++ (slvSpecStep nb [W] a.1 e).2)) (⟨0, b⟩, ws) =
      (⟨0, b ++ l⟩, ws) := by
  induction l generalizing b with
  | nil => simp
  | cons g l ih =>
    have hb : nb * (b.length + 1) < W := by
      refine Nat.lt_of_le_of_lt (Nat.mul_le_mul_left nb ?_) h
      simp
    have hne : ¬ nb * (b.length + 1) = W := by omega
    have hstep : slvSpecStep nb [W] ⟨0, b⟩ (.sample g) = (⟨0, b ++ [g]⟩, []) := by
      simp [slvSpecStep, hne]
    simp only [List.map_cons, List.foldl_cons, hstep, List.append_nil]
    rw [ih (b ++ [g]) (by simp at h ⊢; rw [show b.length + 1 + l.length = b.length + (l.length + 1) by omega]; exact h)]
    simp

/-- Receiving a word. -/
theorem slvSpec_word (l : List Nat) (ws : List (Nat × Nat)) (h : nb * l.length = W) (hW : 0 < W) :
    (l.map SlvEv.sample).foldl (fun a e => ((slvSpecStep nb [W] a.1 e).1, a.2 ++ (slvSpecStep nb [W] a.1 e).2)) (⟨0, []⟩, ws) =
      (⟨0, []⟩, ws ++ [(groupsVal nb l, W)]) := by
  rcases l.eq_nil_or_concat with rfl | ⟨l', g, rfl⟩
  · simp at h; omega
  · have hnb : 0 < nb := by
      rcases Nat.eq_zero_or_pos nb with h0 | h0
      · subst h0; simp at h; omega
      · exact h0
    rw [List.concat_eq_append] at h ⊢
    simp only [List.length_append, List.length_singleton] at h
    rw [List.map_append, List.foldl_append, slvSpec_part W nb l' [] ws (by simp; rw [← h, Nat.mul_add]; omega) hnb]
    simp [slvSpecStep, h]

/-- The groups of a word make up the word. -/
theorem groupsVal_outs (d : Nat) (hd : nb ∣ W) (hnb : 0 < nb) : groupsVal nb (spiOuts ⟨d, W, nb, true⟩) = d % 2 ^ W := by
  have key : ∀ m, m ≤ W / nb → groupsVal nb ((spiOuts ⟨d, W, nb, true⟩).take m) = d / 2 ^ (W - nb * m) % 2 ^ (nb * m) := by
    intro m
    induction m with
    | zero => intro _; simp [groupsVal, Nat.mod_one]
    | succ m ih =>
      intro hm
      rw [spiOuts_getElem ⟨d, W, nb, true⟩ m (show m < W / nb by omega), groupsVal_snoc, ih (by omega)]
      have hle : nb * (m + 1) ≤ W := by
        have := Nat.mul_le_mul_left nb hm
        rwa [Nat.mul_div_cancel' hd] at this
      have e : nb * (m + 1) = nb * m + nb := by rw [Nat.mul_add, Nat.mul_one]
      simp only [Nat.mod_mod]
      rw [show W - nb * m = W - nb * (m + 1) + nb by omega, Nat.pow_add, ← Nat.div_div_eq_div_mul]
      generalize d / 2 ^ (W - nb * (m + 1)) = a
      rw [e, Nat.pow_add, Nat.mul_comm (2 ^ (nb * m)), Nat.mod_mul, Nat.mul_comm (2 ^ nb), Nat.add_comm]
  have := key (W / nb) (Nat.le_refl _)
  rw [Nat.mul_div_cancel' hd, Nat.sub_self, List.take_of_length_le (by simp [spiOuts_length])] at this
  simpa using this

/-- What the slave makes of the pulses of complete words. -/
theorem slvSpec_done (hc : SpiLinkCfg W nb sw) {A : List (Bool × SpiWord)} {E : List (Nat × Nat)} {F : List (Bool × Nat)}
    (h : SpiDone A E F) (hA : ∀ a ∈ A, ∃ d, a.2 = ⟨d, W, nb, true⟩) :
    slvSpec nb [W] (E.map fun p => .sample p.1) = (⟨0, []⟩, A.map fun a => (a.2.data % 2 ^ W, W)) := by
  induction h with
  | nil => rfl
  | @snoc A E F w last e r _ ho _ ih =>
    obtain ⟨d, hd⟩ := hA (last, w) (by simp)
    simp only at hd
    subst hd
    have := ih fun a ha => hA a (by simp [ha])
    unfold slvSpec at this ⊢
    rw [List.map_append, List.foldl_append, this]
    have he : (e.map fun p => SlvEv.sample p.1) = (spiOuts ⟨d, W, nb, true⟩).map SlvEv.sample := by
      rw [← ho, List.map_map]; rfl
    rw [he, slvSpec_word W nb _ _ (by rw [spiOuts_length]; exact Nat.mul_div_cancel' hc.dvd) hc.pos,
      groupsVal_outs W nb d hc.dvd hc.nb_pos]
    simp

/-- The synchronisers delay the events by two cycles. -/
theorem slvEvents_sync (rising : Bool) (clk csN : Nat → Bool) (dq : Nat → Nat) (n : Nat) :
    slvEvents rising (sync2 false clk) (sync2 false csN) (sync2 0 dq) (n + 2) = slvEvents rising clk csN dq n := by
  induction n with
  | zero => cases rising <;> rfl
  | succ n ih =>
    show slvEvents rising (sync2 false clk) (sync2 false csN) (sync2 0 dq) (n + 2) ++ _ = slvEvents rising clk csN dq n ++ _
    rw [ih]
    congr 1
    cases n <;> rfl

/-- The pins. -/
def linkClk (n : Nat) : Bool := ((spiLink W nb div csDelay sw true miso).wave i n).phy.clk
def linkCsN (n : Nat) : Bool := ((spiLink W nb div csDelay sw true miso).wave i n).phy.csN
def linkDq (n : Nat) : Nat := ((spiLink W nb div csDelay sw true miso).wave i n).phy.dqO

theorem link_seen (n : Nat) : slvSeen true (linkVi W nb div csDelay sw miso i) (n + 2) =
    slvEvents true (linkClk W nb div csDelay sw miso i) (linkCsN W nb div csDelay sw miso i) (linkDq W nb div csDelay sw miso i) n :=
  slvEvents_sync true _ _ _ n

/-- The pulses that the slave is to see. -/
def linkPulses (n : Nat) : List (Nat × Nat) := spiPulses W nb div csDelay (linkPi W nb div csDelay sw miso i) n

theorem link_pulses_succ (n : Nat) : linkPulses W nb div csDelay sw miso i (n + 1) = linkPulses W nb div csDelay sw miso i n ++
    (if edgeAt true (linkClk W nb div csDelay sw miso i) n then
      [(linkDq W nb div csDelay sw miso i n, (linkPi W nb div csDelay sw miso i n).dqI)] else []) := by
  have e : ∀ k, ((spiPhy W nb div csDelay).wave (linkPi W nb div csDelay sw miso i) k).clk = linkClk W nb div csDelay sw miso i k := by
    intro k; rw [← link_pads]; rfl
  unfold linkPulses spiPulses
  show clkRises _ _ n ++ _ = clkRises _ _ n ++ _
  congr 1
  have e' : ∀ k, ((spiPhy W nb div csDelay).wave (linkPi W nb div csDelay sw miso i) k).dqO = linkDq W nb div csDelay sw miso i k := by
    intro k; rw [← link_pads]; rfl
  simp only [edgeAt, if_true, e, e']
  rw [Bool.and_comm]
  cases n <;> rfl

theorem SpiDone.snd_len {A : List (Bool × SpiWord)} {E : List (Nat × Nat)} {F : List (Bool × Nat)} (h : SpiDone A E F)
    (hA : ∀ a ∈ A, ∃ d, a.2 = ⟨d, W, nb, true⟩) : E.length = A.length * (W / nb) := by
  induction h with
  | nil => simp
  | @snoc A E F w last e r _ ho _ ih =>
    obtain ⟨d, hd⟩ := hA (last, w) (by simp)
    simp only at hd
    subst hd
    have h1 := ih fun a ha => hA a (by simp [ha])
    have h2 := congrArg List.length ho
    rw [spiOuts_length] at h2
    simp only [List.length_map] at h2
    simp only [List.length_append, List.length_singleton, h1, h2, Nat.add_mul, Nat.one_mul]

/-- The words under way: those sent completely and at most one more, of which less than all pulses were sent. -/
theorem link_transfer (hc : SpiLinkCfg W nb sw) (n : Nat) :
    ∃ A E e F cur, linkAcc W nb div csDelay sw miso i n = A ++ cur ∧
      linkPulses W nb div csDelay sw miso i n = E ++ e ∧
      SpiDone (A.map fun b => (b.1, (⟨b.2, W, nb, true⟩ : SpiWord))) E F ∧
      (cur = [] ∧ e = [] ∨ cur.length = 1 ∧ e.length < W / nb) := by
  obtain ⟨A, cur, E, e, p, g1, g2, g3, g4, g5⟩ := C39_transfer W nb div csDelay (linkPi W nb div csDelay sw miso i)
    (link_ok div csDelay miso i hc) n
  rw [link_acc] at g1
  obtain ⟨A', cur', h1, rfl, rfl⟩ := List.map_eq_append_iff.mp g1
  refine ⟨A', E, e, _, cur', h1, g2, g3, ?_⟩
  rcases g5 with ⟨h, h'⟩ | ⟨last, w, h, h', _⟩
  · exact .inl ⟨by simpa using h, h'⟩
  · right
    have hl := congrArg List.length h
    simp at hl
    refine ⟨hl, ?_⟩
    match cur', hl with
    | [b], _ =>
      simp at h
      rw [← h.2] at h'
      exact h'

/-- What the slave makes of the pulses. -/
theorem link_spec (hc : SpiLinkCfg W nb sw) (n : Nat) :
    ∃ A e cur, linkAcc W nb div csDelay sw miso i n = A ++ cur ∧ (cur = [] ∧ e = [] ∨ cur.length = 1 ∧ e.length < W / nb) ∧
      (linkPulses W nb div csDelay sw miso i n).length = A.length * (W / nb) + e.length ∧
      slvSpec nb [W] ((linkPulses W nb div csDelay sw miso i n).map fun p => .sample p.1) =
        (⟨0, e⟩, A.map fun b => (b.2 % 2 ^ W, W)) := by
  obtain ⟨A, E, e, F, cur, h1, h2, h3, h4⟩ := link_transfer W nb div csDelay sw miso i hc n
  have hA : ∀ a ∈ A.map (fun b => (b.1, (⟨b.2, W, nb, true⟩ : SpiWord))), ∃ d, a.2 = ⟨d, W, nb, true⟩ := by
    intro a ha
    obtain ⟨b, _, rfl⟩ := List.mem_map.mp ha
    exact ⟨b.2, rfl⟩
  refine ⟨A, e.map Prod.fst, cur, h1, ?_, ?_, ?_⟩
  · simpa using h4
  · rw [h2, List.length_append, h3.snd_len W nb hA]
    simp
  · have hd := slvSpec_done W nb sw hc h3 hA
    unfold slvSpec at hd ⊢
    rw [h2, List.map_append, List.foldl_append, hd]
    rw [show (e.map fun p => SlvEv.sample p.1) = (e.map Prod.fst).map SlvEv.sample by rw [List.map_map]; rfl]
    rw [slvSpec_part W nb _ [] _ ?_ hc.nb_pos]
    · simp
    · rcases h4 with ⟨_, rfl⟩ | ⟨_, h⟩
      · simpa using hc.pos
      · simp only [List.length_nil, Nat.zero_add, List.length_map]
        have := Nat.mul_le_mul_left nb (Nat.succ_le_of_lt h)
        rw [Nat.mul_div_cancel' hc.dvd, Nat.mul_succ] at this
        have := hc.nb_pos
        omega

/-- The slave sees the pulses, and no deselection inside a word. -/
theorem link_events (hc : SpiLinkCfg W nb sw) (n : Nat) :
    slvSpec nb [W] (slvEvents true (linkClk W nb div csDelay sw miso i) (linkCsN W nb div csDelay sw miso i)
        (linkDq W nb div csDelay sw miso i) n) =
      slvSpec nb [W] ((linkPulses W nb div csDelay sw miso i n).map fun p => .sample p.1) := by
  induction n with
  | zero => rfl
  | succ n ih =>
    rw [link_pulses_succ, slvEvents, slvEvent, List.map_append]
    unfold slvSpec at ih ⊢
    rw [List.foldl_append, List.foldl_append, ih]
    cases hcs : linkCsN W nb div csDelay sw miso i n
    · cases edgeAt true (linkClk W nb div csDelay sw miso i) n <;> rfl
    · have hd := link_deselected W nb div csDelay sw miso i hc n hcs
      rw [link_acc] at hd
      have hA : ∀ a ∈ (linkAcc W nb div csDelay sw miso i n).map (fun b => (b.1, (⟨b.2, W, nb, true⟩ : SpiWord))),
          ∃ d, a.2 = ⟨d, W, nb, true⟩ := by
        intro a ha
        obtain ⟨b, _, rfl⟩ := List.mem_map.mp ha
        exact ⟨b.2, rfl⟩
      have hT : 0 < W / nb := Nat.div_pos (Nat.le_of_dvd hc.pos hc.dvd) hc.nb_pos
      have hno : edgeAt true (linkClk W nb div csDelay sw miso i) n = false := by
        cases hed : edgeAt true (linkClk W nb div csDelay sw miso i) n
        · rfl
        · exfalso
          have l1 := hd.snd_len W nb hA
          have l2 := congrArg List.length (link_pulses_succ W nb div csDelay sw miso i n)
          rw [hed] at l2
          have l0 : (linkPulses W nb div csDelay sw miso i n).length =
            (spiPulses W nb div csDelay (linkPi W nb div csDelay sw miso i) n).length := rfl
          simp only [if_true, List.length_append, List.length_singleton, l0, l1, List.length_map] at l2
          obtain ⟨A, e, cur, s1, s2, s3, _⟩ := link_spec W nb div csDelay sw miso i hc (n + 1)
          have hacc : linkAcc W nb div csDelay sw miso i (n + 1) = linkAcc W nb div csDelay sw miso i n := by
            have e1 : linkAcc W nb div csDelay sw miso i (n + 1) = linkAcc W nb div csDelay sw miso i n ++
              (if (i n).dValid && ((spiLink W nb div csDelay sw true miso).wave i n).str.dReady then
                [((i n).dLast, (i n).dData)] else []) := rfl
            have hr : ((spiLink W nb div csDelay sw true miso).wave i n).str.dReady = false := by
              cases hr : ((spiLink W nb div csDelay sw true miso).wave i n).str.dReady
              · rfl
              · have hr' : ((spiPhy W nb div csDelay).wave (linkPi W nb div csDelay sw miso i) n).ready = true := by
                  rw [← link_pads]
                  simp only [Circuit.wave, spiLink, spiStream, Bool.and_eq_true] at hr ⊢
                  exact hr.1
                have := (C39_selected W nb div csDelay (linkPi W nb div csDelay sw miso i) n hr').1
                rw [← link_pads] at this
                exact absurd hcs (by rw [show linkCsN W nb div csDelay sw miso i n = false from this]; simp)
            rw [e1, hr]
            simp
          rw [hacc] at s1
          have sl := congrArg List.length s1
          simp only [List.length_append] at sl
          rw [l2] at s3
          rcases s2 with ⟨h, h'⟩ | ⟨h, h'⟩
          · rw [h, List.length_nil, Nat.add_zero] at sl
            rw [h', List.length_nil, sl] at s3
            omega
          · rw [h] at sl
            rw [sl, Nat.add_mul, Nat.one_mul] at s3
            omega
      have hsp := slvSpec_done W nb sw hc hd hA
      have hsp' : slvSpec nb [W] ((linkPulses W nb div csDelay sw miso i n).map fun p => .sample p.1) = _ := hsp
      unfold slvSpec at hsp'
      rw [hno, hsp']
      cases prevOf false (linkCsN W nb div csDelay sw miso i) n <;> simp [slvSpecStep]

theorem link_acc_succ (n : Nat) : linkAcc W nb div csDelay sw miso i (n + 1) = linkAcc W nb div csDelay sw miso i n ++
    (if (i n).dValid && ((spiLink W nb div csDelay sw true miso).wave i n).str.dReady then [((i n).dLast, (i n).dData)] else []) := rfl

theorem link_acc_mono (n d : Nat) : linkAcc W nb div csDelay sw miso i n <+: linkAcc W nb div csDelay sw miso i (n + d) := by
  induction d with
  | zero => exact List.prefix_refl _
  | succ d ih => exact ih.trans (by rw [← Nat.add_assoc, link_acc_succ]; exact List.prefix_append _ _)

theorem link_pulses_mono (n d : Nat) :
    (linkPulses W nb div csDelay sw miso i n).length ≤ (linkPulses W nb div csDelay sw miso i (n + d)).length := by
  induction d with
  | zero => exact Nat.le_refl _
  | succ d ih =>
    refine Nat.le_trans ih ?_
    rw [← Nat.add_assoc, link_pulses_succ]
    simp

/-- The slave has received the words whose pulses are over, except perhaps for the newest, which it delivers at once. -/
theorem link_received (hc : SpiLinkCfg W nb sw) (n : Nat) :
    ∃ A e cur, linkAcc W nb div csDelay sw miso i n = A ++ cur ∧ (cur = [] ∧ e = [] ∨ cur.length = 1 ∧ e.length < W / nb) ∧
      (linkPulses W nb div csDelay sw miso i n).length = A.length * (W / nb) + List.length (α := Nat) e ∧
      (slvCut (linkRec W nb div csDelay sw miso i (n + 2)) <+: A.map fun b => (b.2 % 2 ^ W, W)) ∧
      ((A.map fun b => (b.2 % 2 ^ W, W)) <+: slvCut (linkRec W nb div csDelay sw miso i (n + 3))) := by
  obtain ⟨A, e, cur, h1, h2, h3, h4⟩ := link_spec W nb div csDelay sw miso i hc n
  refine ⟨A, e, cur, h1, h2, h3, ?_⟩
  have hs := slv_inv sw nb true [W] (linkVi W nb div csDelay sw miso i)
    ⟨hc.nb_pos, by simp, by simpa using ⟨hc.pos, hc.slave, hc.dvd⟩⟩ (fun _ _ _ => .inr (slvSpec_stage_zero nb W _)) (n + 2)
  have hsucc : linkRec W nb div csDelay sw miso i (n + 3) = linkRec W nb div csDelay sw miso i (n + 2) ++
      if slvPush true [W] ((spiSlave sw nb true [W]).st (linkVi W nb div csDelay sw miso i) (n + 2)) then
        [(((spiSlave sw nb true [W]).st (linkVi W nb div csDelay sw miso i) (n + 2)).regIn,
          ((spiSlave sw nb true [W]).st (linkVi W nb div csDelay sw miso i) (n + 2)).cntIn)] else [] := by
    rw [link_rec, link_rec]
    show _ ++ (if _ && true then _ else _) = _
    rw [Bool.and_true]
    rfl
  dsimp only at hs
  rw [link_seen, link_events W nb div csDelay sw miso i hc, h4, ← link_rec] at hs
  rcases hs with ⟨_, hs⟩ | ⟨v, l, hB, hs⟩
  · simp only at hs
    rw [hs]
    refine ⟨List.prefix_refl _, ?_⟩
    rw [hsucc]
    simp [slvCut]
  · simp only at hs
    rw [hs]
    refine ⟨List.prefix_append _ _, ?_⟩
    have hp : slvPush true [W] ((spiSlave sw nb true [W]).st (linkVi W nb div csDelay sw miso i) (n + 2)) = true := by
      simp [slvPush, slvSample, slvRise, hB.edge, hB.cnt, hB.full]
    rw [hsucc, hp]
    simp only [if_true, slvCut, List.map_append, List.map_cons, List.map_nil, hB.cnt, hB.reg]
    exact List.prefix_refl _

/-- **C97.** The words received by the slave are at any time the first of the words accepted by the master's stream, each with all
its bits. -/
theorem C97_received (hc : SpiLinkCfg W nb sw) (n : Nat) :
    slvCut (linkRec W nb div csDelay sw miso i n) <+: (linkAcc W nb div csDelay sw miso i n).map fun b => (b.2 % 2 ^ W, W) := by
  rcases Nat.lt_or_ge n 2 with h | h
  · have hs := C41_words_single sw nb true (linkVi W nb div csDelay sw miso i) W hc.nb_pos ⟨hc.pos, hc.slave, hc.dvd⟩ n
    obtain ⟨p, _, hs⟩ := hs
    have : slvSeen true (linkVi W nb div csDelay sw miso i) n = [] := by
      match n, h with
      | 0, _ => rfl
      | 1, _ => rfl
    rw [this, ← link_rec] at hs
    have : slvCut (linkRec W nb div csDelay sw miso i n) = [] := by
      have : ([] : List (Nat × Nat)) = slvCut (linkRec W nb div csDelay sw miso i n) ++ p := hs
      exact (List.append_eq_nil_iff.mp this.symm).1
    rw [this]
    exact List.nil_prefix
  · obtain ⟨A, e, cur, h1, _, _, h4, _⟩ := link_received W nb div csDelay sw miso i hc (n - 2)
    rw [show n - 2 + 2 = n by omega] at h4
    refine h4.trans ?_
    refine List.IsPrefix.trans (List.IsPrefix.map _ ?_) (List.IsPrefix.map _ (?_ : linkAcc W nb div csDelay sw miso i (n - 2) <+: _))
    · rw [h1]
      exact List.prefix_append _ _
    · have := link_acc_mono W nb div csDelay sw miso i (n - 2) 2
      rwa [show n - 2 + 2 = n by omega] at this

/-- The clock of a word ends after its pulses. -/
theorem spi_ends (W P div csDelay : Nat) (i : Nat → SpiPhyIn) (m : Nat)
    (hw : SpiWordOk W P (i m).word) (h : ((spiPhy W P div csDelay).wave i m).ready = true) (t : Nat)
    (ht : t = m + 1 + 2 * ((i m).word.len / (i m).word.width) * (div % 256 + 1)) :
    ∃ u, t = u + 1 ∧ m + 1 ≤ u ∧ spiOutEnd div ((spiPhy W P div csDelay).st i u) = true := by
  obtain ⟨hw0, hw8, hT, _⟩ := hw.facts
  have hTp : 0 < (i m).word.len / (i m).word.width := Nat.div_pos (Nat.le_of_dvd hw.pos hw.dvd) hw0
  generalize hTT : (i m).word.len / (i m).word.width = T at *
  generalize hDD : div % 256 + 1 = d at *
  have hd : 0 < d := by omega
  have hle : 1 ≤ 2 * T * d := Nat.mul_pos (by omega) hd
  obtain ⟨k1, k2, k3, k4, k5⟩ := spi_time W P div csDelay i m hw h (2 * T * d - 1) (by rw [hTT, hDD]; omega) _ rfl
  rw [hDD] at k3 k4 k5
  have q1 : (2 * T * d - 1) / d = 2 * T - 1 := by
    apply Nat.div_eq_of_lt_le
    · rw [Nat.sub_mul]; omega
    · rw [show 2 * T - 1 + 1 = 2 * T by omega]; omega
  have q2 : (2 * T * d - 1) % d = d - 1 := by
    have := Nat.div_add_mod (2 * T * d - 1) d
    rw [q1, Nat.mul_sub, Nat.mul_comm d (2 * T)] at this
    have : d ≤ 2 * T * d := Nat.le_mul_of_pos_left d (by omega)
    omega
  have q3 : (2 * T * d - 1) / (2 * d) = T - 1 := by
    rw [Nat.mul_comm 2 d, ← Nat.div_div_eq_div_mul, q1]
    omega
  rw [q1] at k5
  rw [q2] at k4
  rw [q3, show T - 1 + 1 = T by omega, hT, Nat.sub_self] at k3
  replace ht : t = m + 1 + (2 * T * d - 1) + 1 := by omega
  generalize hu : m + 1 + (2 * T * d - 1) = u at *
  have hend : spiOutEnd div ((spiPhy W P div csDelay).st i u) = true := by
    have hq : div % 2 ^ 8 = d - 1 := by
      have : div % 2 ^ 8 = div % 256 := rfl
      omega
    simp [spiOutEnd, spiOutShift, spiClkGen, spiPhyCk, k1, k3, k4, k5]
    try omega
  exact ⟨u, ht, by omega, hend⟩

/-- When the time of a word is over, it has been sent. -/
theorem spi_sent (W P div csDelay : Nat) (i : Nat → SpiPhyIn) (hok : ∀ n, (i n).valid = true → SpiWordOk W P (i n).word) (m : Nat)
    (hw : SpiWordOk W P (i m).word) (h : ((spiPhy W P div csDelay).wave i m).ready = true) (t : Nat)
    (ht : t = m + 1 + 2 * ((i m).word.len / (i m).word.width) * (div % 256 + 1)) :
    ∃ A E F, SpiDone A E F ∧ spiAccepted W P div csDelay i (m + 1) <+: A ∧ E <+: spiPulses W P div csDelay i t ∧
      A <+: spiAccepted W P div csDelay i t := by
  obtain ⟨u, ht, hu, hend⟩ := spi_ends W P div csDelay i m hw h t ht
  have hmono : spiAccepted W P div csDelay i (m + 1) <+: spiAccepted W P div csDelay i u := by
    obtain ⟨j, rfl⟩ : ∃ j, u = m + 1 + j := ⟨u - (m + 1), by omega⟩
    generalize m + 1 = a
    clear * -
    induction j with
    | zero => exact List.prefix_refl _
    | succ j ih => exact ih.trans ⟨_, (rfl : _ ++ (if _ && _ then _ else _) = _)⟩
  have hacc : spiAccepted W P div csDelay i (u + 1) = spiAccepted W P div csDelay i u ++
    (if (i u).valid && ((spiPhy W P div csDelay).wave i u).ready then [((i u).last, (i u).word)] else []) := rfl
  obtain ⟨⟨_, A0, E0, hdone, hcase⟩, _⟩ := spi_inv W P div csDelay i hok t
  rw [ht] at hdone hcase ⊢
  have hmono' : spiAccepted W P div csDelay i u <+: spiAccepted W P div csDelay i (u + 1) := by
    rw [hacc]; exact List.prefix_append _ _
  rcases hcase with ⟨_, _, _, _, h1, h2⟩ | ⟨_, _, h1, h2⟩ | ⟨hrun, last, w, mm, e, _, h1, h2⟩
  · exact ⟨A0, E0, _, hdone, h1 ▸ hmono.trans hmono', h2 ▸ List.prefix_refl _, h1 ▸ List.prefix_refl _⟩
  · exact ⟨A0, E0, _, hdone, h1 ▸ hmono.trans hmono', h2 ▸ List.prefix_refl _, h1 ▸ List.prefix_refl _⟩
  · have hl : ((spiPhy W P div csDelay).wave i u).ready = true := by
      show spiOutLoad div csDelay ((spiPhy W P div csDelay).st i u) (i u) = true
      rw [Circuit.st_succ] at hrun
      generalize (spiPhy W P div csDelay).st i u = s at *
      simp only [spiPhy, spiOutLoad, hend, Bool.or_true, Bool.true_and] at hrun ⊢
      cases hx : spiXfrEn csDelay s (i u)
      · simp [hx] at hrun
      · rfl
    have hv : (i u).valid = true := by
      have hl : spiOutLoad div csDelay ((spiPhy W P div csDelay).st i u) (i u) = true := hl
      simp only [spiOutLoad, spiXfrEn, Bool.and_eq_true] at hl
      exact hl.2.1.2
    rw [hl, hv, h1] at hacc
    have hA : A0 = spiAccepted W P div csDelay i u := (snoc_inj hacc).1
    exact ⟨A0, E0, _, hdone, hA ▸ hmono, h2 ▸ List.prefix_append _ _, h1 ▸ List.prefix_append _ _⟩

theorem link_sent (hc : SpiLinkCfg W nb sw) (n : Nat) :
    (linkAcc W nb div csDelay sw miso i n).length * (W / nb) ≤
      (linkPulses W nb div csDelay sw miso i (n + 2 * (W / nb) * (div % 256 + 1))).length := by
  induction n with
  | zero => simp [linkAcc, transferred]
  | succ n ih =>
    cases ha : ((i n).dValid && ((spiLink W nb div csDelay sw true miso).wave i n).str.dReady)
    · rw [link_acc_succ, ha]
      have := link_pulses_mono W nb div csDelay sw miso i (n + 2 * (W / nb) * (div % 256 + 1)) 1
      rw [show n + 1 + 2 * (W / nb) * (div % 256 + 1) = n + 2 * (W / nb) * (div % 256 + 1) + 1 by omega]
      simp
      omega
    · have hr : ((spiPhy W nb div csDelay).wave (linkPi W nb div csDelay sw miso i) n).ready = true := by
        rw [← link_pads]
        simp only [Circuit.wave, spiLink, spiStream, Bool.and_eq_true] at ha ⊢
        exact ha.2.1
      obtain ⟨A, E, F, h1, h2, h3, h4⟩ := spi_sent W nb div csDelay (linkPi W nb div csDelay sw miso i) (link_ok div csDelay miso i hc) n
        (hc.word _) hr _ rfl
      have hw : (linkPi W nb div csDelay sw miso i n).word = ⟨(i n).dData, W, nb, true⟩ := rfl
      rw [hw] at h3 h4
      simp only at h3 h4
      rw [link_acc] at h2 h4
      have hA : ∀ a ∈ A, ∃ d, a.2 = ⟨d, W, nb, true⟩ := by
        intro a ha
        obtain ⟨b, _, rfl⟩ := List.mem_map.mp (h4.subset ha)
        exact ⟨b.2, rfl⟩
      have l1 := h1.snd_len W nb hA
      have l2 := h2.length_le
      have l3 : E.length ≤ (linkPulses W nb div csDelay sw miso i (n + 1 + 2 * (W / nb) * (div % 256 + 1))).length := h3.length_le
      rw [List.length_map] at l2
      have := Nat.mul_le_mul_right (W / nb) l2
      omega

/-- **C97.** Every word accepted has been received by the slave after the time of its clock pulses and three more cycles. -/
theorem C97_all_received (hc : SpiLinkCfg W nb sw) (n : Nat) :
    ((linkAcc W nb div csDelay sw miso i n).map fun b => (b.2 % 2 ^ W, W)) <+:
      slvCut (linkRec W nb div csDelay sw miso i (n + 2 * (W / nb) * (div % 256 + 1) + 3)) := by
  obtain ⟨A, e, cur, h1, h2, h3, _, h4⟩ := link_received W nb div csDelay sw miso i hc (n + 2 * (W / nb) * (div % 256 + 1))
  refine List.IsPrefix.trans (List.IsPrefix.map _ ?_) h4
  have hs := link_sent W nb div csDelay sw miso i hc n
  have hm := link_acc_mono W nb div csDelay sw miso i n (2 * (W / nb) * (div % 256 + 1))
  have hT : 0 < W / nb := Nat.div_pos (Nat.le_of_dvd hc.pos hc.dvd) hc.nb_pos
  rw [h3] at hs
  rw [h1] at hm
  have hlen : (linkAcc W nb div csDelay sw miso i n).length ≤ A.length := by
    have he : e.length < W / nb := by
      rcases h2 with ⟨_, rfl⟩ | ⟨_, h⟩
      · exact hT
      · exact h
    apply Classical.byContradiction
    intro hn
    have := Nat.mul_le_mul_right (W / nb) (show A.length + 1 ≤ (linkAcc W nb div csDelay sw miso i n).length by omega)
    rw [Nat.add_mul, Nat.one_mul] at this
    omega
  exact List.prefix_of_prefix_length_le hm (List.prefix_append _ _) hlen

/-- Without new words the master stops. -/
theorem spi_stops (W P div csDelay : Nat) (i : Nat → SpiPhyIn) (hok : ∀ n, (i n).valid = true → SpiWordOk W P (i n).word) (n : Nat) :
    ∃ k, ((spiPhy W P div csDelay).st i (n + k)).running = false ∨
      ∃ j, j < k ∧ ((spiPhy W P div csDelay).wave i (n + j)).ready = true := by
  have hv : ∀ n, ((spiPhy W P div csDelay).wave i n).ready = true → (i n).valid = true := by
    intro n hl
    have hl : spiOutLoad div csDelay ((spiPhy W P div csDelay).st i n) (i n) = true := hl
    simp only [spiOutLoad, spiXfrEn, Bool.and_eq_true] at hl
    exact hl.2.1.2
  have hrun : ∀ n, ((spiPhy W P div csDelay).wave i n).ready = false →
      (((spiPhy W P div csDelay).st i n).running = false ∨ spiOutEnd div ((spiPhy W P div csDelay).st i n) = true) →
      ((spiPhy W P div csDelay).st i (n + 1)).running = false := by
    intro n hl h
    have hl : spiOutLoad div csDelay ((spiPhy W P div csDelay).st i n) (i n) = false := hl
    rw [Circuit.st_succ]
    generalize (spiPhy W P div csDelay).st i n = s at *
    rcases h with h | h
    · simp only [spiPhy, hl, h]
      simp
    · have : spiXfrEn csDelay s (i n) = false := by simpa [spiOutLoad, h] using hl
      simp only [spiPhy, hl, h, this]
      simp
  induction n with
  | zero => exact ⟨0, .inl rfl⟩
  | succ n ih =>
    cases hr : ((spiPhy W P div csDelay).wave i n).ready
    · obtain ⟨k, h | ⟨j, hj, h⟩⟩ := ih
      · match k with
        | 0 => exact ⟨0, .inl (hrun n hr (.inl h))⟩
        | k + 1 => exact ⟨k, .inl (by rwa [show n + 1 + k = n + (k + 1) by omega])⟩
      · match j with
        | 0 => rw [Nat.add_zero, hr] at h; cases h
        | j + 1 => exact ⟨k, .inr ⟨j, by omega, by rwa [show n + 1 + j = n + (j + 1) by omega]⟩⟩
    · obtain ⟨u, ht, hu, he⟩ := spi_ends W P div csDelay i n (hok n (hv n hr)) hr _ rfl
      obtain ⟨j, rfl⟩ : ∃ j, u = n + 1 + j := ⟨u - (n + 1), by omega⟩
      cases hr2 : ((spiPhy W P div csDelay).wave i (n + 1 + j)).ready
      · exact ⟨j + 1, .inl (hrun _ hr2 (.inr he))⟩
      · exact ⟨j + 1, .inr ⟨j, by omega, hr2⟩⟩

/-- Nothing goes on in the master. -/
def linkQuiet (s : SpiLinkS) : Prop := s.phy.running = false ∧ s.phy.ck.pe = false ∧ s.phy.fValid = false

theorem link_quiet_step (s : SpiLinkS) (x : SpiLinkIn) (hq : linkQuiet s) (hv : x.dValid = true)
    (hr : ((spiLink W nb div csDelay sw true miso).out s x).str.dReady = false) :
    let s' := (spiLink W nb div csDelay sw true miso).next s x
    linkQuiet s' ∧ s'.fifo = (if x.avail && x.dReady && !(s.str == .idle) then s.fifo.tail else s.fifo) ∧
      s'.str = (match s.str with
        | .idle => .txRx
        | .txRx => .txRx
        | .rx => if x.avail && x.dReady && !s.fifo.isEmpty && (s.fifo.headD (false, 0)).1 then .idle else .rx) ∧
      (s.str = .txRx → (s.phy.csCnt ≠ 0 → s'.phy.csCnt < s.phy.csCnt) ∧ (s.fifo = [] → s.phy.csCnt ≠ 0)) := by
  obtain ⟨str, phy, fifo, slv⟩ := s
  obtain ⟨h1, h2, h3⟩ := hq
  simp only at h1 h2 h3
  have hl : spiOutLoad div csDelay phy (spiLinkPhy W nb miso ⟨str, phy, fifo, slv⟩ x) = false := by
    cases hl : spiOutLoad div csDelay phy (spiLinkPhy W nb miso ⟨str, phy, fifo, slv⟩ x)
    · rfl
    · have hv2 : (spiLinkPhy W nb miso ⟨str, phy, fifo, slv⟩ x).valid = true := by
        simp only [spiOutLoad, spiXfrEn, Bool.and_eq_true] at hl
        exact hl.2.1.2
      have hr : (spiOutLoad div csDelay phy (spiLinkPhy W nb miso ⟨str, phy, fifo, slv⟩ x) && str == .txRx) = false := hr
      rw [hl] at hr
      cases str <;> simp [spiStream, spiLinkPhy] at hr hv2
  have hend : spiOutEnd div phy = false := by simp [spiOutEnd, spiOutShift, spiClkGen, spiPhyCk, h1]
  have hready : (spiLinkPads W nb div csDelay miso ⟨str, phy, fifo, slv⟩ x).ready = false := hl
  have hfv : (spiLinkPads W nb div csDelay miso ⟨str, phy, fifo, slv⟩ x).fValid = false := h3
  refine ⟨⟨?_, ?_, ?_⟩, ?_, ?_, ?_⟩
  · simp [spiLink, spiPhy, hl, hend, h1]
  · simp [spiLink, spiPhy, spiClkGen, spiPhyCk, h1]
  · simp [spiLink, spiPhy, spiInEnd, spiInShift, spiClkGen, h2]
  · simp only [spiLink, hfv]
    cases str <;> cases ha : x.avail <;> cases hd : x.dReady <;> cases fifo <;> simp [spiStream, spiLinkStr, ha, hd]
  · simp only [spiLink, hready]
    cases str <;> cases ha : x.avail <;> cases hd : x.dReady <;> cases fifo <;> simp [spiStream, spiLinkStr, hv, ha, hd]
  · intro hs
    simp only at hs
    subst hs
    refine ⟨fun h => ?_, fun hf h => ?_⟩
    · simp only at h
      simp only [spiLink, spiPhy, waitTimer, spiLinkPhy, spiStream]
      have : (phy.csCnt == 0) = false := by simpa using h
      simp only [this]
      have : truncRange (csDelay + 1 + 1) (phy.csCnt - 1) ≤ phy.csCnt - 1 := Nat.mod_le _ _
      simp
      omega
    · simp only at hf h
      subst hf
      simp [spiOutLoad, spiXfrEn, spiLinkPhy, spiStream, waitTimer, h1, h, spiLinkStr, hv] at hl

/-- **C97.** If the user takes the results again and again, a word offered until it is accepted is accepted. -/
theorem C97_accepted (hc : SpiLinkCfg W nb sw) (hio : ∀ n, ∃ m, n ≤ m ∧ (i m).dReady = true ∧ (i m).avail = true) (n : Nat)
    (hhold : ∀ m, n ≤ m → (∀ k, n ≤ k → k < m → ((spiLink W nb div csDelay sw true miso).wave i k).str.dReady = false) →
      (i m).dValid = true) :
    ∃ m, n ≤ m ∧ (i m).dValid = true ∧ ((spiLink W nb div csDelay sw true miso).wave i m).str.dReady = true := by
  apply Classical.byContradiction
  intro hno
  have hall : ∀ m, n ≤ m → (i m).dValid = true ∧ ((spiLink W nb div csDelay sw true miso).wave i m).str.dReady = false := by
    intro m
    induction m using Nat.strongRecOn with
    | _ m ih =>
      intro hm
      have hv := hhold m hm (fun k hk hkm => (ih k hkm hk).2)
      refine ⟨hv, ?_⟩
      cases h : ((spiLink W nb div csDelay sw true miso).wave i m).str.dReady
      · rfl
      · exact absurd ⟨m, hm, hv, h⟩ hno
  have hnr : ∀ m, n ≤ m → ((spiPhy W nb div csDelay).wave (linkPi W nb div csDelay sw miso i) m).ready = false := by
    intro m hm
    obtain ⟨_, h⟩ := hall m hm
    rw [← link_pads]
    have hv : ((spiLink W nb div csDelay sw true miso).wave i m).phy.ready = true →
        (spiLinkPhy W nb miso ((spiLink W nb div csDelay sw true miso).st i m) (i m)).valid = true := by
      intro hl
      simp only [Circuit.wave] at hl
      generalize (spiLink W nb div csDelay sw true miso).st i m = s at *
      simp only [spiLink, spiLinkPads, spiPhy, spiOutLoad, spiXfrEn, Bool.and_eq_true] at hl
      exact hl.2.1.2
    cases hl : ((spiLink W nb div csDelay sw true miso).wave i m).phy.ready
    · rfl
    · have hv := hv hl
      simp only [Circuit.wave] at *
      generalize (spiLink W nb div csDelay sw true miso).st i m = s at *
      have hl : (spiLinkPads W nb div csDelay miso s (i m)).ready = true := hl
      cases hs : s.str <;> simp [spiLink, spiStream, spiLinkStr, spiLinkPhy, hl, hs] at h hv
  -- the master stops
  obtain ⟨N, hN, hQ⟩ : ∃ N, n ≤ N ∧ linkQuiet ((spiLink W nb div csDelay sw true miso).st i N) := by
    obtain ⟨k, h | ⟨j, _, h⟩⟩ := spi_stops W nb div csDelay (linkPi W nb div csDelay sw miso i) (link_ok div csDelay miso i hc) n
    · refine ⟨n + k + 1, by omega, ?_⟩
      have hl := hnr (n + k) (by omega)
      have hpe : ((spiPhy W nb div csDelay).st (linkPi W nb div csDelay sw miso i) (n + k)).ck.pe = false := by
        obtain ⟨⟨_, _, _, _, hcase⟩, _⟩ := spi_inv W nb div csDelay (linkPi W nb div csDelay sw miso i) (link_ok div csDelay miso i hc) (n + k)
        rcases hcase with ⟨_, _, _, h4, _⟩ | ⟨h1, _⟩ | ⟨h1, _⟩
        · exact h4
        · rw [h] at h1; cases h1
        · rw [h] at h1; cases h1
      unfold linkQuiet
      rw [link_phy, Circuit.st_succ]
      simp only [Circuit.wave] at hl
      generalize (spiPhy W nb div csDelay).st (linkPi W nb div csDelay sw miso i) (n + k) = s at *
      have hl : spiOutLoad div csDelay s (linkPi W nb div csDelay sw miso i (n + k)) = false := hl
      have hend : spiOutEnd div s = false := by simp [spiOutEnd, spiOutShift, spiClkGen, spiPhyCk, h]
      refine ⟨?_, ?_, ?_⟩
      · simp [spiPhy, hl, hend, h]
      · simp [spiPhy, spiClkGen, spiPhyCk, h]
      · simp [spiPhy, spiInEnd, spiInShift, spiClkGen, hpe]
    · rw [hnr _ (by omega)] at h; cases h
  -- it stays so
  have hQall : ∀ d, linkQuiet ((spiLink W nb div csDelay sw true miso).st i (N + d)) := by
    intro d
    induction d with
    | zero => exact hQ
    | succ d ih =>
      obtain ⟨a1, a2⟩ := hall (N + d) (by omega)
      rw [← Nat.add_assoc, Circuit.st_succ]
      exact (link_quiet_step W nb div csDelay sw miso _ _ ih a1 a2).1
  have hstep : ∀ m, N ≤ m → _ := fun m hm => by
    have hq := hQall (m - N)
    rw [show N + (m - N) = m by omega] at hq
    obtain ⟨a1, a2⟩ := hall m (by omega)
    have := link_quiet_step W nb div csDelay sw miso _ _ hq a1 a2
    rw [← Circuit.st_succ] at this
    exact this.2
  -- the results outstanding are in the FIFO
  have hflags : ∀ m, N ≤ m → ((spiLink W nb div csDelay sw true miso).st i m).str = .rx →
      ((spiLink W nb div csDelay sw true miso).st i m).fifo ≠ [] := by
    intro m hm hs hf
    have hq := hQall (m - N)
    rw [show N + (m - N) = m by omega] at hq
    obtain ⟨q1, q2, q3⟩ := hq
    obtain ⟨⟨_, A0, E0, hdone, hcase⟩, _⟩ := spi_inv W nb div csDelay (linkPi W nb div csDelay sw miso i) (link_ok div csDelay miso i hc) m
    rw [← link_phy] at hdone hcase
    rw [q3] at hdone
    simp only [Bool.false_eq_true, if_false, List.append_nil] at hdone
    have hA : spiAccepted W nb div csDelay (linkPi W nb div csDelay sw miso i) m = A0 := by
      rcases hcase with ⟨_, _, _, _, h, _⟩ | ⟨h1, _⟩ | ⟨h1, _⟩
      · exact h
      · rw [q1] at h1; cases h1
      · rw [q1] at h1; cases h1
    have hfl := hdone.flags
    rw [link_fifo W nb div csDelay sw miso i hc, ← hA, link_acc, hf] at hfl
    simp only [List.map_map, List.append_nil] at hfl
    obtain ⟨o, h1, h2⟩ := link_inv W nb div csDelay sw miso i hc m
    have : (linkAcc W nb div csDelay sw miso i m).map Prod.fst = (linkPopped W nb div csDelay sw miso i m).map Prod.fst := hfl.symm
    rw [this] at h1
    have ho : o = [] := by
      have := congrArg List.length h1
      simp at this
      exact this
    rw [hs, ho] at h2
    obtain ⟨o', h, _⟩ := h2.2
    simp at h
  -- `TX_RX` is reached
  have hpop : ∀ m, N ≤ m → ((spiLink W nb div csDelay sw true miso).st i m).str ≠ .idle →
      ∃ j, m ≤ j ∧ ((spiLink W nb div csDelay sw true miso).st i j).str = ((spiLink W nb div csDelay sw true miso).st i m).str ∧
        ((spiLink W nb div csDelay sw true miso).st i j).fifo = ((spiLink W nb div csDelay sw true miso).st i m).fifo ∧
        (i j).dReady = true ∧ (i j).avail = true := by
    intro m hm hs
    obtain ⟨k, hk, hk1, hk2⟩ := hio m
    obtain ⟨j, hj, ⟨_, p2, p3⟩, p4⟩ := eventually_leave
      (fun j => N ≤ j ∧ ((spiLink W nb div csDelay sw true miso).st i j).str = ((spiLink W nb div csDelay sw true miso).st i m).str ∧
        ((spiLink W nb div csDelay sw true miso).st i j).fifo = ((spiLink W nb div csDelay sw true miso).st i m).fifo)
      (fun j => (i j).dReady = true ∧ (i j).avail = true) (by
        intro j ⟨a1, a2, a3⟩ hne
        obtain ⟨b1, b2, _⟩ := hstep j a1
        have hz : ((i j).avail && (i j).dReady) = false := by
          cases h1 : (i j).avail <;> cases h2 : (i j).dReady <;> simp_all
        refine ⟨by omega, ?_, ?_⟩
        · rw [b2, a2]
          cases hs2 : ((spiLink W nb div csDelay sw true miso).st i m).str
          · exact absurd hs2 hs
          · rfl
          · simp only [hz, Bool.false_and]; rfl
        · rw [b1, hz]
          exact a3) (k - m) m ⟨hm, rfl, rfl⟩ (by rw [show m + (k - m) = k by omega]; exact ⟨hk1, hk2⟩)
    exact ⟨j, hj, p2, p3, p4⟩
  have hidle : ∀ m, N ≤ m → ((spiLink W nb div csDelay sw true miso).st i m).str = .idle →
      ((spiLink W nb div csDelay sw true miso).st i (m + 1)).str = .txRx := by
    intro m hm hs
    rw [(hstep m hm).2.1, hs]
  have hrx : ∀ L m, N ≤ m → ((spiLink W nb div csDelay sw true miso).st i m).str = .rx →
      ((spiLink W nb div csDelay sw true miso).st i m).fifo.length = L →
      ∃ j, N ≤ j ∧ ((spiLink W nb div csDelay sw true miso).st i j).str = .txRx := by
    intro L
    induction L with
    | zero => intro m hm hs hf; exact absurd (List.eq_nil_of_length_eq_zero hf) (hflags m hm hs)
    | succ L ih =>
      intro m hm hs hf
      obtain ⟨j, hj, j1, j2, j3, j4⟩ := hpop m hm (by rw [hs]; exact (nomatch ·))
      obtain ⟨b1, b2, _⟩ := hstep j (by omega)
      rw [j1, j2, j3, j4, hs] at b1 b2
      simp only [Bool.and_true, Bool.true_and] at b1 b2
      split at b2
      · exact ⟨j + 2, by omega, hidle (j + 1) (by omega) b2⟩
      · refine ih (j + 1) (by omega) b2 ?_
        rw [b1]
        simp [hf]
  obtain ⟨M, hM, hMs⟩ : ∃ j, N ≤ j ∧ ((spiLink W nb div csDelay sw true miso).st i j).str = .txRx := by
    cases hs : ((spiLink W nb div csDelay sw true miso).st i N).str
    · exact ⟨N + 1, by omega, hidle N (Nat.le_refl _) hs⟩
    · exact ⟨N, Nat.le_refl _, hs⟩
    · exact hrx _ N (Nat.le_refl _) hs rfl
  -- the FIFO runs empty
  have hdrain : ∀ L m, N ≤ m → ((spiLink W nb div csDelay sw true miso).st i m).str = .txRx →
      ((spiLink W nb div csDelay sw true miso).st i m).fifo.length = L →
      ∃ j, N ≤ j ∧ ((spiLink W nb div csDelay sw true miso).st i j).str = .txRx ∧
        ((spiLink W nb div csDelay sw true miso).st i j).fifo = [] := by
    intro L
    induction L with
    | zero => intro m hm hs hf; exact ⟨m, hm, hs, List.eq_nil_of_length_eq_zero hf⟩
    | succ L ih =>
      intro m hm hs hf
      obtain ⟨j, hj, j1, j2, j3, j4⟩ := hpop m hm (by rw [hs]; exact (nomatch ·))
      obtain ⟨b1, b2, _⟩ := hstep j (by omega)
      rw [j1, j2, j3, j4, hs] at b1
      rw [j1, hs] at b2
      refine ih (j + 1) (by omega) b2 ?_
      rw [b1]
      simp [hf]
  obtain ⟨K, hK, hKs, hKf⟩ := hdrain _ M hM hMs rfl
  -- the chip is selected
  have hsel : ∀ c m, N ≤ m → ((spiLink W nb div csDelay sw true miso).st i m).str = .txRx →
      ((spiLink W nb div csDelay sw true miso).st i m).fifo = [] →
      ((spiLink W nb div csDelay sw true miso).st i m).phy.csCnt = c → False := by
    intro c
    induction c using Nat.strongRecOn with
    | _ c ih =>
      intro m hm hs hf hcs
      obtain ⟨b1, b2, b3⟩ := hstep m hm
      obtain ⟨b3, b4⟩ := b3 hs
      have hne := b4 hf
      rw [hs] at b2
      rw [hf] at b1
      refine ih _ (by rw [← hcs]; exact b3 hne) (m + 1) (by omega) b2 ?_ rfl
      rw [b1]
      split <;> rfl
  exact hsel _ K hK hKs hKf rfl

end

/-- Eight bit words over one pin; quad with words of 32 bits. -/
example : SpiLinkCfg 8 1 8 := ⟨.inl rfl, ⟨8, rfl⟩, by omega, by omega, by omega⟩
example : SpiLinkCfg 32 4 40 := ⟨.inr (.inr (.inl rfl)), ⟨8, rfl⟩, by omega, by omega, by omega⟩

/-- A user with the words 165 and (last) 60, taking results in every second cycle. -/
def spiLinkDemo (miso : Bool) (n : Nat) : SpiLinkIn :=
  ⟨true, decide (10 ≤ n), if n < 10 then 165 else 60, n % 2 == 0, true, 3, true, 90, 8⟩

example : linkAcc 8 1 0 2 8 false (spiLinkDemo false) 36 = [(false, 165), (true, 60)] ∧
    linkRec 8 1 0 2 8 false (spiLinkDemo false) 41 = [(165, 8), (60, 8)] := by decide +kernel

example : ∀ n, ∃ m, n ≤ m ∧ (spiLinkDemo false m).dReady = true ∧ (spiLinkDemo false m).avail = true :=
  fun n => ⟨2 * n, by omega, by simp [spiLinkDemo], rfl⟩

end Lambdalib
