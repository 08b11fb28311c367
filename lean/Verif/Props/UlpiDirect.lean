import Verif.Lemmas.UlpiDirect
import Verif.Props.CrossDomain
import Verif.Props.I2cBridge

/-! C117: `DirectULPI` as a whole, between the clock of the user and the clock of the PHY. -/

namespace Lambdalib

section
variable {τ ρ : Type} {depth rdepth : Nat} (c2 c4 t2 t4 : Nat)
  (f : Circuit τ (FifoIn (1 + (1 + 8))) (FifoOut (1 + (1 + 8)))) (hf : FifoContract f depth)
  (hreg : ∀ s x y, (f.out s x).rRdy = (f.out s y).rRdy ∧ (f.out s x).rData = (f.out s y).rData)
  (g : Circuit ρ (FifoIn (1 + (1 + 8))) (FifoOut (1 + (1 + 8)))) (hg : FifoContract g rdepth) (i : Nat → DirectIn)

/-- C117: whatever the clock of the PHY does (it may stand still), the reset pin is high until the user's clock has had `c2 + 1` edges, and
the bus is idle until it has had `c4 + 1` more. -/
theorem C117_reset (h2 : c2 < 2 ^ 30) (h4 : c4 < 2 ^ 30) (n : Nat) :
    let o := (directUlpi c2 c4 t2 t4 f g).wave i
    (o n).rst = decide (edgeCount (fun k => (i k).edgeSync) n < c2 + 1) ∧
    (edgeCount (fun k => (i k).edgeSync) n < c2 + 1 + (c4 + 1) →
      (o n).o = 0 ∧ (o n).stp = false ∧ (o n).given = none ∧ directGiven i o n = []) := by
  intro o
  have hE : edgeCount (fun k => (i k).edgeSync) = edgeCount (dSync i) := rfl
  rw [hE]
  have hrst : ∀ n, edgeCount (dSync i) n < c2 + 1 + (c4 + 1) →
      ((directUlpi c2 c4 t2 t4 f g).st i n).core.st = .reset ∧ ((directUlpi c2 c4 t2 t4 f g).st i n).core.x.stp = false ∧
      directGiven i o n = [] := by
    intro n
    induction n with
    | zero => intro _; exact ⟨rfl, rfl, rfl⟩
    | succ n ih =>
      intro h
      have hle : edgeCount (dSync i) n ≤ edgeCount (dSync i) (n + 1) := edgeCount_mono _ (by omega)
      obtain ⟨a, b, d⟩ := ih (by omega)
      have hp := (d_porOut c2 c4 t2 t4 f g i h2 h4 n).2
      rw [decide_eq_false (by omega)] at hp
      have hv : (ulpiBus ((directUlpi c2 c4 t2 t4 f g).st i n).core (dCore c2 c4 t2 t4 f g i n)).1 = false := by
        simp [ulpiBus, a]
      have hgn : (o n).given = none := by
        show (if (ulpiBus ((directUlpi c2 c4 t2 t4 f g).st i n).core (dCore c2 c4 t2 t4 f g i n)).1 && _
          then some _ else none) = none
        rw [hv]; rfl
      have hgiven : directGiven i o (n + 1) = [] := by
        rw [directGiven, d, hgn]; simp
      have key : ∀ s x, ((directUlpi c2 c4 t2 t4 f g).next s x).core
        = if x.edgeUlpi then (ulpiCore t2 t4).next s.core (directCore c2 c4 f s x) else s.core := fun _ _ => rfl
      have k1 : ∀ s x, ((ulpiCore t2 t4).next s x).x.stp = (xcvr.next s.x (ulpiX s x)).stp := fun _ _ => rfl
      rw [Circuit.st_succ, key]
      refine ⟨?_, ?_, hgiven⟩ <;> split
      · have hp' : (directCore c2 c4 f ((directUlpi c2 c4 t2 t4 f g).st i n) (i n)).porDone = false := hp
        generalize directCore c2 c4 f ((directUlpi c2 c4 t2 t4 f g).st i n) (i n) = x at *
        generalize ((directUlpi c2 c4 t2 t4 f g).st i n).core = s at *
        simp [ulpiCore, a, hp']
      · exact a
      · rw [k1]
        have hv' : (ulpiX ((directUlpi c2 c4 t2 t4 f g).st i n).core
          (directCore c2 c4 f ((directUlpi c2 c4 t2 t4 f g).st i n) (i n))).valid = false := hv
        simp [xcvr, b, hv']
      · exact b
  constructor
  · have hp := d_porOut c2 c4 t2 t4 f g i h2 h4 n
    have e : (o n).rst = (((directUlpi c2 c4 t2 t4 f g).st i n).core.st == .reset && (dCore c2 c4 t2 t4 f g i n).porRst) := rfl
    rw [e, hp.1]
    by_cases h : edgeCount (dSync i) n < c2 + 1
    · rw [(hrst n (by omega)).1]; simp [h]
    · simp [h]
  · intro h
    obtain ⟨a, b, d⟩ := hrst n h
    have hv : (ulpiBus ((directUlpi c2 c4 t2 t4 f g).st i n).core (dCore c2 c4 t2 t4 f g i n)).1 = false := by
      simp [ulpiBus, a]
    refine ⟨?_, b, ?_, d⟩
    · show (if _ && (ulpiBus ((directUlpi c2 c4 t2 t4 f g).st i n).core (dCore c2 c4 t2 t4 f g i n)).1 then _ else 0) = 0
      rw [hv, Bool.and_false]; rfl
    · show (if (ulpiBus ((directUlpi c2 c4 t2 t4 f g).st i n).core (dCore c2 c4 t2 t4 f g i n)).1 && _
        then some _ else none) = none
      rw [hv]; rfl

include hf hreg in
/-- C117: whatever the two clocks do, what is handed to the PHY is a beginning of the two configuration writes, or all of them and then
the bytes taken from the user, tagged per packet, without those still in the FIFO. -/
theorem C117_transmit (n : Nat) :
    let o := (directUlpi c2 c4 t2 t4 f g).wave i
    (∃ k, k < 4 ∧ directGiven i o n = ulpiInit.take k ∧ (directAccepted i o n).length ≤ depth) ∨
    (∃ D q, directAccepted i o n = D ++ q ∧ q.length ≤ depth ∧ directGiven i o n = ulpiInit ++ txPackets true D) := by
  intro o
  obtain ⟨q, h1, h2⟩ := d_transmit c2 c4 t2 t4 f g i hreg hf n
  rcases C73_link t2 t4 (dRun c2 c4 t2 t4 f g i) (edgeCount (dEdge i) n) with ⟨k, hk, h3, h4, _⟩ | ⟨h3, _⟩
  · left
    rw [h4, List.nil_append] at h1
    exact ⟨k, hk, by rw [d_given, h3], by rw [h1]; exact h2⟩
  · right
    exact ⟨_, q, h1, h2, by rw [d_given]; exact h3⟩

theorem d_up (n : Nat) (h : 4 ≤ (directGiven i ((directUlpi c2 c4 t2 t4 f g).wave i) n).length) :
    ((directUlpi c2 c4 t2 t4 f g).st i n).core.st = .linkUp := by
  obtain ⟨_, _, _, _, hl⟩ := linkRel_run t2 t4 (dRun c2 c4 t2 t4 f g i) (edgeCount (dEdge i) n)
  rw [d_core] at hl
  rw [d_given] at h
  refine Classical.byContradiction fun hst => ?_
  rw [(hl.down hst).1, List.length_take] at h
  cases hs : ((directUlpi c2 c4 t2 t4 f g).st i n).core.st <;> rw [hs] at h <;>
    first | exact absurd hs hst | simp [ulpiInitCount] at h

/-- C117: the link comes up: if the user's clock runs and the PHY takes a byte again and again, both configuration writes are made. -/
theorem C117_comes_up (h2 : c2 < 2 ^ 30) (h4 : c4 < 2 ^ 30) (ht2 : t2 < 2 ^ 30)
    (hs : Recurs (fun n => (i n).edgeSync = true))
    (ht : Recurs (fun n => (i n).edgeUlpi = true ∧ (i n).nxt = true ∧ ((directUlpi c2 c4 t2 t4 f g).wave i n).oe = true)) :
    ∃ n, ulpiInit <+: directGiven i ((directUlpi c2 c4 t2 t4 f g).wave i) n := by
  have hu : Recurs (fun n => dEdge i n = true) := fun n => by
    obtain ⟨m, h1, h2, _⟩ := ht n
    exact ⟨m, h1, h2⟩
  obtain ⟨k, hk⟩ := C73_comes_up t2 t4 ht2 (dRun c2 c4 t2 t4 f g i) (by
    obtain ⟨m, _, hm⟩ := edge_exists (dSync i) hs (c2 + 1 + (c4 + 1))
    obtain ⟨t, h1, h3⟩ := hu m
    refine ⟨edgeCount (dEdge i) t, ?_⟩
    rw [dRun_at c2 c4 t2 t4 f g i h3, (d_porOut c2 c4 t2 t4 f g i h2 h4 t).2]
    have := edgeCount_mono (dSync i) h1
    exact decide_eq_true (by omega)) (by
    intro n
    obtain ⟨m, _, hm⟩ := edge_exists (dEdge i) hu (n + 1)
    obtain ⟨t, h1, h3, h5, h6⟩ := ht m
    have hle := edgeCount_mono (dEdge i) h1
    have ho : (!((directUlpi c2 c4 t2 t4 f g).st i t).core.x.dirR && !(i t).dir) = true := h6
    simp only [Bool.and_eq_true, Bool.not_eq_true'] at ho
    refine ⟨edgeCount (dEdge i) t, by omega, ?_, ?_, ?_⟩
    · rw [dRun_at c2 c4 t2 t4 f g i h3]; exact h5
    · rw [dRun_at c2 c4 t2 t4 f g i h3]; exact ho.2
    · obtain ⟨d, hd⟩ : ∃ d, edgeCount (dEdge i) t = d + 1 := ⟨edgeCount (dEdge i) t - 1, by omega⟩
      have hc := d_core c2 c4 t2 t4 f g i t
      rw [hd, Circuit.st_succ] at hc
      rw [hd, ← ho.1, ← hc]; rfl)
  obtain ⟨t, _, hc⟩ := edge_exists (dEdge i) hu k
  exact ⟨t, by rw [d_given, hc]; exact hk⟩

/-- The PHY reads the transmit FIFO again and again once the link is up. -/
theorem d_reads (N : Nat) (hN : ulpiInit <+: directGiven i ((directUlpi c2 c4 t2 t4 f g).wave i) N)
    (ht : Recurs (fun n => (i n).edgeUlpi = true ∧ (i n).nxt = true ∧
      ((directUlpi c2 c4 t2 t4 f g).wave i n).oe = true ∧ ((directUlpi c2 c4 t2 t4 f g).wave i n).stp = false)) :
    Recurs (fun n => (dTx c2 c4 t2 t4 f g i n).ready = true) := by
  intro n
  obtain ⟨m, hm, h1, h3, h5, h6⟩ := ht (max n N)
  refine ⟨m, by omega, ?_⟩
  have hst := d_up c2 c4 t2 t4 f g i m (by
    obtain ⟨d, rfl⟩ := Nat.exists_eq_add_of_le (show N ≤ m by omega)
    have a := hN.length_le
    have b := (directGiven_prefix i ((directUlpi c2 c4 t2 t4 f g).wave i) N d).length_le
    have e : ulpiInit.length = 4 := rfl
    omega)
  have ho : (!((directUlpi c2 c4 t2 t4 f g).st i m).core.x.dirR && !(i m).dir) = true := h5
  have hs : ((directUlpi c2 c4 t2 t4 f g).st i m).core.x.stp = false := h6
  show ((dOut c2 c4 t2 t4 f g i m).ready && (i m).edgeUlpi) = true
  have e7 : ∀ s x, ((ulpiCore t2 t4).out s x).ready = (s.st == .linkUp && (xcvr.out s.x (ulpiX s x)).ready) := by
    intro s x
    show (senderUlpi.out _ _).ready = _
    cases s.sd <;> rfl
  have x1 : ∀ s x, (xcvr.out s.x (ulpiX s x)).ready = (!s.x.dirR && !x.dir && !s.x.stp && x.nxt) := fun _ _ => rfl
  rw [dOut, e7, x1, hst, hs, h1]
  have d1 : (dCore c2 c4 t2 t4 f g i m).dir = (i m).dir := rfl
  have d2 : (dCore c2 c4 t2 t4 f g i m).nxt = (i m).nxt := rfl
  rw [d1, d2, h3, ho]; rfl

include hf hreg in
/-- C117: nothing gets stuck on the way to the PHY: every byte taken from the user is handed to it, if the user's clock runs and the
PHY takes a byte again and again. -/
theorem C117_arrives (hx : FifoCrosses f) (h2 : c2 < 2 ^ 30) (h4 : c4 < 2 ^ 30) (ht2 : t2 < 2 ^ 30)
    (hs : Recurs (fun n => (i n).edgeSync = true))
    (ht : Recurs (fun n => (i n).edgeUlpi = true ∧ (i n).nxt = true ∧
      ((directUlpi c2 c4 t2 t4 f g).wave i n).oe = true ∧ ((directUlpi c2 c4 t2 t4 f g).wave i n).stp = false)) (n : Nat) :
    let o := (directUlpi c2 c4 t2 t4 f g).wave i
    ∃ m, ulpiInit ++ txPackets true (directAccepted i o n) <+: directGiven i o m := by
  intro o
  obtain ⟨N, hN⟩ := C117_comes_up c2 c4 t2 t4 f g i h2 h4 ht2 hs (fun n => by
    obtain ⟨m, a, b, c, d, _⟩ := ht n
    exact ⟨m, a, b, c, d⟩)
  obtain ⟨m, hm⟩ := good_delivers (fifoWrapper f) (dTx c2 c4 t2 t4 f g i) (C08_fifo_stable f hf _)
    (d_reads c2 c4 t2 t4 f g i N hN ht) (by
      intro n h
      rw [(fifoWrapper_counts f _ n).1, (fifoWrapper_counts f _ n).2] at h
      obtain ⟨m, hm, hv⟩ := hx.live _ n h
      refine ⟨m, hm, ?_⟩
      rw [fifoWrapper_wave]; exact hv) n
  have mono : ∀ a d, accepted (fifoWrapper f) (dTx c2 c4 t2 t4 f g i) a <+: accepted (fifoWrapper f) (dTx c2 c4 t2 t4 f g i) (a + d) :=
    fun a d => transferred_prefix _ _ _ a d
  have monod : ∀ a d, delivered (fifoWrapper f) (dTx c2 c4 t2 t4 f g i) a
      <+: delivered (fifoWrapper f) (dTx c2 c4 t2 t4 f g i) (a + d) :=
    fun a d => transferred_prefix _ _ _ a d
  refine ⟨m + n + N, ?_⟩
  obtain ⟨q, h1, _⟩ := C08_fifo_lossless f hf (dTx c2 c4 t2 t4 f g i) (m + n + N)
  have hp : accepted (fifoWrapper f) (dTx c2 c4 t2 t4 f g i) n
      <+: delivered (fifoWrapper f) (dTx c2 c4 t2 t4 f g i) (m + n + N) := by
    refine List.prefix_of_prefix_length_le (l₃ := accepted (fifoWrapper f) (dTx c2 c4 t2 t4 f g i) (m + n + N)) ?_ ⟨q, h1.symm⟩ ?_
    · have := mono n (m + N)
      rw [show n + (m + N) = m + n + N by omega] at this
      exact this
    · have := (monod m (n + N)).length_le
      rw [← Nat.add_assoc] at this
      omega
  have hp' := List.IsPrefix.map (fun b : Beat (BitVec 8) => (b.payload.toNat, b.last)) hp
  rw [← d_accepted, d_middle c2 c4 t2 t4 f g i hreg] at hp'
  have hup : 4 ≤ (directGiven i o (m + n + N)).length := by
    have a := hN.length_le
    have b := (directGiven_prefix i o N (m + n)).length_le
    rw [show N + (m + n) = m + n + N by omega] at b
    have e : ulpiInit.length = 4 := rfl
    exact Nat.le_trans a b
  obtain ⟨_, _, _, _, hl⟩ := linkRel_run t2 t4 (dRun c2 c4 t2 t4 f g i) (edgeCount (dEdge i) (m + n + N))
  rw [d_core] at hl
  rw [d_given, (hl.up (d_up c2 c4 t2 t4 f g i _ hup)).1]
  obtain ⟨r, hr⟩ := hp'
  rw [← hr, txPackets_append, ← List.append_assoc]
  exact List.prefix_append _ _

/-- C117: the user is not held up for ever. -/
theorem C117_accepts (hx : FifoCrosses f) (h2 : c2 < 2 ^ 30) (h4 : c4 < 2 ^ 30) (ht2 : t2 < 2 ^ 30)
    (hs : Recurs (fun n => (i n).edgeSync = true))
    (ht : Recurs (fun n => (i n).edgeUlpi = true ∧ (i n).nxt = true ∧
      ((directUlpi c2 c4 t2 t4 f g).wave i n).oe = true ∧ ((directUlpi c2 c4 t2 t4 f g).wave i n).stp = false)) :
    Recurs (fun n => (i n).edgeSync = true ∧ ((directUlpi c2 c4 t2 t4 f g).wave i n).ready = true) := by
  intro n
  obtain ⟨N, hN⟩ := C117_comes_up c2 c4 t2 t4 f g i h2 h4 ht2 hs (fun n => by
    obtain ⟨m, a, b, c, d, _⟩ := ht n
    exact ⟨m, a, b, c, d⟩)
  obtain ⟨m, hm, h⟩ := hx.room (fun k => fifoDrive (dTx c2 c4 t2 t4 f g i k)) (d_reads c2 c4 t2 t4 f g i N hN ht) n
  obtain ⟨m', hm', hedge⟩ := hs m
  obtain ⟨d, rfl⟩ := Nat.exists_eq_add_of_le hm'
  have key : ∃ t, m ≤ t ∧ (i t).edgeSync = true ∧ (f.wave (fun k => fifoDrive (dTx c2 c4 t2 t4 f g i k)) t).wRdy = true := by
    clear hm hm'
    induction d generalizing m with
    | zero => exact ⟨m, Nat.le_refl m, hedge, h⟩
    | succ d ih =>
      cases hc : (i m).edgeSync with
      | true => exact ⟨m, Nat.le_refl m, hc, h⟩
      | false =>
        have e2 : m + 1 + d = m + (d + 1) := by omega
        obtain ⟨t, a, b, c⟩ := ih (m + 1) (hx.roomStays _ m h (by
          change ((i m).valid && (i m).edgeSync) = false
          rw [hc]; simp)) (by rw [e2]; exact hedge)
        exact ⟨t, by omega, b, c⟩
  obtain ⟨t, a, b, c⟩ := key
  refine ⟨t, by omega, b, ?_⟩
  have e : ((directUlpi c2 c4 t2 t4 f g).wave i t).ready = ((fifoWrapper f).wave (dTx c2 c4 t2 t4 f g i) t).ready := by
    rw [Circuit.wave, Circuit.wave, d_tx]; rfl
  rw [e, fifoWrapper_wave]
  exact c

include hf hreg in
/-- C117 (partial: the PHY never finds the FIFO empty inside a packet and does not take the bus there): the PHY makes exactly the two
register writes and transmits exactly the user's packets, in order; of the first byte of a packet it gets the low half. -/
theorem C117_phy_partial (n : Nat) (hfed : DirectFed i ((directUlpi c2 c4 t2 t4 f g).wave i) n) :
    let o := (directUlpi c2 c4 t2 t4 f g).wave i
    let m := (directPhy i o n).1
    m.writes <+: [(4, 0x60), (10, 0)] ∧
    ∃ D q, directAccepted i o n = D ++ q ∧ q.length ≤ depth ∧ m.packets <+: (cutPackets D).1.map maskPid ∧
      ((o n).stp = false → m.packets = (cutPackets D).1.map maskPid) ∧
      (D ≠ [] → m.writes = [(4, 0x60), (10, 0)]) := by
  intro o m
  obtain ⟨_, h⟩ := d_phy c2 c4 t2 t4 f g i n hfed
  obtain ⟨q, h1, h2⟩ := d_transmit c2 c4 t2 t4 f g i hreg hf n
  have hstp : (o n).stp = ((directUlpi c2 c4 t2 t4 f g).st i n).core.x.stp := rfl
  generalize ((directUlpi c2 c4 t2 t4 f g).st i n).core = s at *
  generalize hD : linkAccepted (dRun c2 c4 t2 t4 f g i) ((ulpiCore t2 t4).wave (dRun c2 c4 t2 t4 f g i)) (edgeCount (dEdge i) n) = D at *
  have hm : (directPhy i o n).1 = m := rfl
  rw [hm] at h
  rw [hstp]
  clear_value m
  have hw : m.writes <+: (phySettled s.x.stp m).writes ∧ m.packets <+: (phySettled s.x.stp m).packets := by
    unfold phySettled
    split
    · obtain ⟨st, p, w⟩ := m
      cases st <;> simp [Phy.step]
    · exact ⟨List.prefix_rfl, List.prefix_rfl⟩
  have he : (phyExpect s.st (cutPackets D)).writes <+: [(4, 0x60), (10, 0)] ∧
      (phyExpect s.st (cutPackets D)).packets = (cutPackets D).1.map maskPid := by
    by_cases hst : s.st = .linkUp
    · rw [hst]; exact ⟨List.prefix_rfl, rfl⟩
    · rw [(h.down hst).1]
      cases hs : s.st <;> first | exact absurd hs hst | (simp [phyExpect, cutPackets])
  rw [h.phy] at hw
  refine ⟨hw.1.trans he.1, D, q, h1, h2, by rw [← he.2]; exact hw.2, fun h0 => ?_, fun hD' => ?_⟩
  · have := h.phy
    rw [h0] at this
    have e : m = phyExpect s.st (cutPackets D) := this
    rw [← he.2, ← e]
  · by_cases hst : s.st = .linkUp
    · exact h.writes hst hD'
    · exact absurd (h.down hst).1 hD'

include hf hreg in
/-- C117: the transmit FIFO never runs empty inside a packet if the user is as fast as the PHY: while a packet is open, at least one byte is
handed over between any two edges of `ulpi` (as seen through the delay `d` of the FIFO). -/
theorem C117_fed (d : Nat → Nat) (hd : FifoShows f d) (n : Nat)
    (hdir : ∀ k, k < n → (i k).edgeUlpi = true →
      directOpen i ((directUlpi c2 c4 t2 t4 f g).wave i) k = true → (i k).dir = false)
    (hfast : ∀ m k, m < k → k < n → (i m).edgeUlpi = true → (i k).edgeUlpi = true →
      directUserOpen i ((directUlpi c2 c4 t2 t4 f g).wave i) (d m) = true →
      (directAccepted i ((directUlpi c2 c4 t2 t4 f g).wave i) (d m)).length
        < (directAccepted i ((directUlpi c2 c4 t2 t4 f g).wave i) (d k)).length) :
    DirectFed i ((directUlpi c2 c4 t2 t4 f g).wave i) n := by
  induction n with
  | zero => intro k hk; omega
  | succ n ih =>
    replace ih := ih (fun k hk => hdir k (by omega)) (fun m k hm hk => hfast m k hm (by omega))
    intro k hk he ho
    by_cases hkn : k < n
    · exact ih k hkn he ho
    · obtain rfl : k = n := by omega
      have hdk := hdir k (by omega) he ho
      refine ⟨hdk, fun hn => ?_⟩
      obtain ⟨_, h⟩ := d_phy c2 c4 t2 t4 f g i k ih
      rw [d_open] at ho
      obtain ⟨h1, h2⟩ := h.opened ho
      have hval : (dOut c2 c4 t2 t4 f g i k).busValid = true := by
        have e : (dOut c2 c4 t2 t4 f g i k).busValid
          = (ulpiBus ((directUlpi c2 c4 t2 t4 f g).st i k).core (dCore c2 c4 t2 t4 f g i k)).1 := rfl
        rw [e]
        by_cases hst : ((directUlpi c2 c4 t2 t4 f g).st i k).core.st = .linkUp
        · have hsd := h.start hst
          have hv := d_full c2 c4 t2 t4 f g i hreg hf d hd k (fun m hm hem => hfast m k hm (by omega) hem he) (by
            intro hc
            rw [hc] at hsd
            rw [hst, hsd] at ho
            exact nomatch ho)
          unfold ulpiBus
          rw [hst]
          show (senderUlpi.out _ _).valid = true
          rw [hv]
          cases ((directUlpi c2 c4 t2 t4 f g).st i k).core.sd <;> rfl
        · unfold ulpiBus
          unfold ulpiOpen at ho
          cases hs : ((directUlpi c2 c4 t2 t4 f g).st i k).core.st <;> rw [hs] at ho hst <;>
            first | rfl | exact absurd rfl hst | exact nomatch ho
      have hready : (dOut c2 c4 t2 t4 f g i k).busReady = true := by
        have e : (dOut c2 c4 t2 t4 f g i k).busReady
          = (!((directUlpi c2 c4 t2 t4 f g).st i k).core.x.dirR && !(i k).dir &&
            !((directUlpi c2 c4 t2 t4 f g).st i k).core.x.stp && (i k).nxt) := rfl
        rw [e, h1, h2, hdk, hn]; rfl
      show (if (dOut c2 c4 t2 t4 f g i k).busValid && (dOut c2 c4 t2 t4 f g i k).busReady
        then some ((dOut c2 c4 t2 t4 f g i k).busData, (dOut c2 c4 t2 t4 f g i k).busLast) else none).isSome = true
      rw [hval, hready]; rfl

include hf hreg in
/-- C117: with a user as fast as the PHY, and a PHY that does not take the bus inside a packet, the PHY transmits exactly the user's
packets. -/
theorem C117_phy_fast (d : Nat → Nat) (hd : FifoShows f d) (n : Nat)
    (hdir : ∀ k, k < n → (i k).edgeUlpi = true →
      directOpen i ((directUlpi c2 c4 t2 t4 f g).wave i) k = true → (i k).dir = false)
    (hfast : ∀ m k, m < k → k < n → (i m).edgeUlpi = true → (i k).edgeUlpi = true →
      directUserOpen i ((directUlpi c2 c4 t2 t4 f g).wave i) (d m) = true →
      (directAccepted i ((directUlpi c2 c4 t2 t4 f g).wave i) (d m)).length
        < (directAccepted i ((directUlpi c2 c4 t2 t4 f g).wave i) (d k)).length) :
    let o := (directUlpi c2 c4 t2 t4 f g).wave i
    (o n).stp = false → ∃ D q, directAccepted i o n = D ++ q ∧ q.length ≤ depth ∧
      (directPhy i o n).1.packets = (cutPackets D).1.map maskPid := by
  intro o hs
  obtain ⟨_, D, q, h1, h2, _, h3, _⟩ := C117_phy_partial c2 c4 t2 t4 f hf hreg g i n
    (C117_fed c2 c4 t2 t4 f hf hreg g i d hd n hdir hfast)
  exact ⟨D, q, h1, h2, h3 hs⟩

include hg in
/-- C117: whatever the two clocks do, nothing is delivered before the PHY is configured; after that the bytes delivered to the user are,
in order, bytes (with their end marks) of the packets that the PHY has sent since. -/
theorem C117_receive_order (n : Nat) :
    let o := (directUlpi c2 c4 t2 t4 f g).wave i
    ((directGiven i o n).length < 4 ∧ directDelivered i o n = []) ∨
    ∃ m, m ≤ n ∧ (∀ k, k < m → (directGiven i o k).length < 4) ∧ (directGiven i o m).length = 4 ∧
      List.Sublist (directDelivered i o n) (rxPackets (directSampled i m (n - m)).2) := by
  intro o
  have hsub : List.Sublist (directDelivered i o n)
      (linkReceived ((ulpiCore t2 t4).wave (dRun c2 c4 t2 t4 f g i)) (edgeCount (dEdge i) n)) := by
    obtain ⟨q, h1, _⟩ := C08_fifo_lossless g hg (dRx c2 c4 t2 t4 f g i) n
    have h := (d_written c2 c4 t2 t4 f g i n).1
    rw [h1, List.map_append] at h
    rw [d_delivered]
    exact (List.sublist_append_left _ _).trans h
  rcases d_link c2 c4 t2 t4 f g i n with ⟨h1, h2⟩ | ⟨m, h1, h2, h3, h4⟩
  · left
    rw [h2] at hsub
    exact ⟨h1, List.sublist_nil.mp hsub⟩
  · right
    refine ⟨m, h1, h2, h3, hsub.trans ?_⟩
    rw [← h4]
    exact (linkReceived_prefix _ _ 2).sublist

include hg in
/-- C117 (partial: no byte finds the receive FIFO full; `C74_receive_refuted` shows what happens otherwise): two edges of the PHY's clock
later, every byte of the packets sent by the PHY is delivered or in the FIFO. -/
theorem C117_receive_partial
    (hlost : ∀ k, (i k).edgeUlpi = true → ((directUlpi c2 c4 t2 t4 f g).wave i k).lost = false) (n n' : Nat)
    (hn : edgeCount (fun k => (i k).edgeUlpi) n' = edgeCount (fun k => (i k).edgeUlpi) n + 2) :
    let o := (directUlpi c2 c4 t2 t4 f g).wave i
    (directGiven i o n).length < 4 ∨
    ∃ m, m ≤ n ∧ (∀ k, k < m → (directGiven i o k).length < 4) ∧ (directGiven i o m).length = 4 ∧
      ∃ q, rxPackets (directSampled i m (n - m)).2 = directDelivered i o n' ++ q ∧ q.length ≤ rdepth := by
  intro o
  rcases d_link c2 c4 t2 t4 f g i n with ⟨h1, h2⟩ | ⟨m, h1, h2, h3, h4⟩
  · exact .inl h1
  · right
    refine ⟨m, h1, h2, h3, ?_⟩
    obtain ⟨q, h5, h6, _⟩ := C08_fifo_lossless g hg (dRx c2 c4 t2 t4 f g i) n'
    refine ⟨q.map (fun b => (b.payload.toNat, b.last)), ?_, by simpa using h6⟩
    have h := (d_written c2 c4 t2 t4 f g i n').2 hlost
    have hn' : edgeCount (dEdge i) n' = edgeCount (dEdge i) n + 2 := hn
    rw [← h4, ← hn', ← h, h5, List.map_append, d_delivered]

include hg in
/-- C117 (partial, as before): everything received is delivered if the user takes bytes again and again and the PHY's clock runs. -/
theorem C117_receive_arrives_partial (hx : FifoLive g)
    (hlost : ∀ k, (i k).edgeUlpi = true → ((directUlpi c2 c4 t2 t4 f g).wave i k).lost = false)
    (hu : Recurs (fun n => (i n).edgeUlpi = true)) (hr : Recurs (fun n => (i n).ready = true ∧ (i n).edgeSync = true)) (n : Nat) :
    let o := (directUlpi c2 c4 t2 t4 f g).wave i
    (directGiven i o n).length < 4 ∨
    ∃ m, m ≤ n ∧ (∀ k, k < m → (directGiven i o k).length < 4) ∧ (directGiven i o m).length = 4 ∧
      ∃ t, rxPackets (directSampled i m (n - m)).2 <+: directDelivered i o t := by
  intro o
  rcases d_link c2 c4 t2 t4 f g i n with ⟨h1, h2⟩ | ⟨m, h1, h2, h3, h4⟩
  · exact .inl h1
  · right
    refine ⟨m, h1, h2, h3, ?_⟩
    obtain ⟨n', _, hn'⟩ := edge_exists (dEdge i) hu (edgeCount (dEdge i) n + 2)
    obtain ⟨t, ht⟩ := good_delivers (fifoWrapper g) (dRx c2 c4 t2 t4 f g i) (C08_fifo_stable g hg _) (by
      intro n
      obtain ⟨m, hm, a, b⟩ := hr n
      refine ⟨m, hm, ?_⟩
      change ((i m).ready && (i m).edgeSync) = true
      rw [a, b]; rfl) (by
      intro n h
      rw [(fifoWrapper_counts g _ n).1, (fifoWrapper_counts g _ n).2] at h
      obtain ⟨m, hm, hv⟩ := hx _ n h
      refine ⟨m, hm, ?_⟩
      rw [fifoWrapper_wave]; exact hv) n'
    refine ⟨n' + t, ?_⟩
    have h := (d_written c2 c4 t2 t4 f g i n').2 hlost
    rw [← h4, ← hn', ← h, d_delivered]
    refine List.IsPrefix.map _ ?_
    obtain ⟨q, h1, _⟩ := C08_fifo_lossless g hg (dRx c2 c4 t2 t4 f g i) (n' + t)
    refine List.prefix_of_prefix_length_le (l₃ := accepted (fifoWrapper g) (dRx c2 c4 t2 t4 f g i) (n' + t))
      (transferred_prefix _ _ _ n' t) ⟨q, h1.symm⟩ ?_
    have := (transferred_prefix (fun k => ((fifoWrapper g).wave (dRx c2 c4 t2 t4 f g i) k).valid)
      (fun k => (dRx c2 c4 t2 t4 f g i k).ready) (fun k => ((fifoWrapper g).wave (dRx c2 c4 t2 t4 f g i) k).beat) t n').length_le
    rw [Nat.add_comm t n'] at this
    exact Nat.le_trans ht this

end

/-- A user whose clock is `k` times slower than the PHY's hands over a packet of three bytes, one at each edge; the PHY is always ready. -/
def directDemo (k : Nat) (n : Nat) : DirectIn :=
  ⟨n % k == 0, true, false, true, 0, decide (150 ≤ n) && decide (n < 150 + 3 * k),
    ⟨n == 150, decide (150 + 2 * k ≤ n), BitVec.ofNat 8 (0xa5 + (n - 150) / k)⟩, true⟩

/-- `DirectULPI` for a (slow) clock of 1 kHz; its timer counts 120 cycles of 60 MHz. -/
def directDemoUlpi := directUlpi (ulpiC2 1000) (ulpiC4 1000) 120 240000 (queueFifo (1 + (1 + 8)) 32) (queueFifo (1 + (1 + 8)) 32)

theorem directDemo_counts : ulpiC2 1000 = 0 ∧ ulpiC4 1000 = 4 := by
  constructor <;> decide +kernel

/-- With equal clocks the PHY transmits the packet. -/
example : (directPhy (directDemo 1) (directDemoUlpi.wave (directDemo 1)) 165).1
    = ⟨.idle, [[5, 0xa6, 0xa7]], [(4, 0x60), (10, 0)]⟩ := by decide +kernel

/-- C117 (full claim, refuted): if the PHY never takes the bus and the user offers the next byte of an open packet at every edge of its
clock, the PHY transmits the user's packets. With a clock half as fast as the PHY's, the FIFO runs empty inside the packet and the PHY
transmits five bytes, two of them zero. -/
theorem C117_phy_refuted :
    ¬ ∀ (i : Nat → DirectIn) (n : Nat), (∀ k, (i k).dir = false) →
      (∀ k, k < n → (i k).edgeSync = true → directUserOpen i (directDemoUlpi.wave i) k = true → (i k).valid = true) →
      (directPhy i (directDemoUlpi.wave i) n).1.packets
        <+: (cutPackets (directAccepted i (directDemoUlpi.wave i) n)).1.map maskPid := by
  intro h
  have before : ∀ k, k ≤ 150 → directAccepted (directDemo 2) (directDemoUlpi.wave (directDemo 2)) k = [] := by
    intro k
    induction k with
    | zero => intro _; rfl
    | succ k ih =>
      intro hk
      have e : directAccepted (directDemo 2) (directDemoUlpi.wave (directDemo 2)) (k + 1)
        = directAccepted (directDemo 2) (directDemoUlpi.wave (directDemo 2)) k ++
          (if ((directDemo 2 k).valid && (directDemo 2 k).edgeSync) && (directDemoUlpi.wave (directDemo 2) k).ready
            then [((directDemo 2 k).beat.payload.toNat, (directDemo 2 k).beat.last)] else []) := rfl
      have hv : (directDemo 2 k).valid = false := by
        show (decide (150 ≤ k) && _) = false
        rw [decide_eq_false (by omega)]; rfl
      rw [e, ih (by omega), hv]; rfl
  have after : ∀ d, directAccepted (directDemo 2) (directDemoUlpi.wave (directDemo 2)) (156 + d)
      = directAccepted (directDemo 2) (directDemoUlpi.wave (directDemo 2)) 156 := by
    intro d
    induction d with
    | zero => rfl
    | succ d ih =>
      have e : directAccepted (directDemo 2) (directDemoUlpi.wave (directDemo 2)) (156 + d + 1)
        = directAccepted (directDemo 2) (directDemoUlpi.wave (directDemo 2)) (156 + d) ++
          (if ((directDemo 2 (156 + d)).valid && (directDemo 2 (156 + d)).edgeSync) &&
            (directDemoUlpi.wave (directDemo 2) (156 + d)).ready
            then [((directDemo 2 (156 + d)).beat.payload.toNat, (directDemo 2 (156 + d)).beat.last)] else []) := rfl
      have hv : (directDemo 2 (156 + d)).valid = false := by
        show (decide (150 ≤ 156 + d) && decide (156 + d < 150 + 3 * 2)) = false
        rw [decide_eq_false (p := 156 + d < 150 + 3 * 2) (by omega), Bool.and_false]
      rw [ih, hv] at e
      exact e.trans (List.append_nil _)
  have whole : directAccepted (directDemo 2) (directDemoUlpi.wave (directDemo 2)) 156
      = [(0xa5, false), (0xa6, false), (0xa7, true)] := by decide +kernel
  have hp := h (directDemo 2) 165 (fun _ => rfl) (by
    intro k _ _ ho
    by_cases h1 : k ≤ 150
    · rw [directUserOpen, before k h1] at ho; exact nomatch ho
    · by_cases h2 : k < 156
      · show (decide (150 ≤ k) && decide (k < 150 + 3 * 2)) = true
        rw [decide_eq_true (by omega), decide_eq_true (by omega)]; rfl
      · obtain ⟨d, rfl⟩ := Nat.exists_eq_add_of_le (show 156 ≤ k by omega)
        rw [directUserOpen, after, whole] at ho; exact nomatch ho)
  have hq : (directPhy (directDemo 2) (directDemoUlpi.wave (directDemo 2)) 165).1.packets
      = [[5, 0, 0xa6, 0, 0xa7]] := by decide +kernel
  rw [hq, show 165 = 156 + 9 from rfl, after, whole] at hp
  revert hp
  decide

/-- The reference FIFO: its output depends on registers only. -/
example (s : List (BitVec (1 + (1 + 8)))) (x y : FifoIn (1 + (1 + 8))) :
    ((queueFifo (1 + (1 + 8)) 32).out s x).rRdy = ((queueFifo (1 + (1 + 8)) 32).out s y).rRdy ∧
    ((queueFifo (1 + (1 + 8)) 32).out s x).rData = ((queueFifo (1 + (1 + 8)) 32).out s y).rData := ⟨rfl, rfl⟩

/-- Two packets for a PHY that throttles, the FIFO never runs empty inside one (counts zero). -/
def directDemoFed (n : Nat) : DirectIn :=
  ⟨true, true, n == 7, n % 2 == 0, 0, decide (n < 6), ⟨false, n == 2 || n == 5, BitVec.ofNat 8 (0x11 * n)⟩, true⟩

example : let o := (directUlpi 0 0 0 0 (queueFifo (1 + (1 + 8)) 32) (queueFifo (1 + (1 + 8)) 32)).wave directDemoFed
    DirectFed directDemoFed o 30 ∧
    (directPhy directDemoFed o 30).1 = ⟨.idle, [[0, 0x11, 0x22], [3, 0x44, 0x55]], [(4, 0x60), (10, 0)]⟩ := by
  unfold DirectFed
  decide +kernel

theorem lag_inv (w depth : Nat) (i : Nat → FifoIn w) (n : Nat) :
    fifoWritten (lagFifo w depth) i n
      = fifoRead (lagFifo w depth) i n ++ ((lagFifo w depth).st i n).1 ++ ((lagFifo w depth).st i n).2 ∧
    ((lagFifo w depth).st i n).1.length + ((lagFifo w depth).st i n).2.length ≤ depth ∧
    fifoWritten (lagFifo w depth) i (n - 1) = fifoRead (lagFifo w depth) i n ++ ((lagFifo w depth).st i n).1 := by
  induction n with
  | zero => exact ⟨rfl, Nat.zero_le _, rfl⟩
  | succ n ih =>
    have e1 : fifoWritten (lagFifo w depth) i (n + 1) = fifoWritten (lagFifo w depth) i n ++
      (if (i n).wEn && decide (((lagFifo w depth).st i n).1.length + ((lagFifo w depth).st i n).2.length < depth)
        then [(i n).wData] else []) := rfl
    have e2 : fifoRead (lagFifo w depth) i (n + 1) = fifoRead (lagFifo w depth) i n ++
      (if !((lagFifo w depth).st i n).1.isEmpty && (i n).rEn
        then [((lagFifo w depth).st i n).1.headD 0] else []) := rfl
    have e3 : (lagFifo w depth).st i (n + 1) =
      ((if (i n).rEn then ((lagFifo w depth).st i n).1.tail else ((lagFifo w depth).st i n).1) ++ ((lagFifo w depth).st i n).2,
        if (i n).wEn && decide (((lagFifo w depth).st i n).1.length + ((lagFifo w depth).st i n).2.length < depth)
          then [(i n).wData] else []) := rfl
    rw [Nat.add_sub_cancel, e1, e2, e3, ih.1]
    have hlen := ih.2.1
    generalize (lagFifo w depth).st i n = s at *
    obtain ⟨q, p⟩ := s
    dsimp only at *
    refine ⟨?_, ?_, ?_⟩
    · cases q with
      | nil => simp
      | cons x q => cases (i n).rEn <;> simp
    · rw [List.length_append]
      by_cases hw : ((i n).wEn && decide (q.length + p.length < depth)) = true
      · rw [if_pos hw]
        simp at hw
        split <;> simp <;> omega
      · rw [if_neg hw]
        split <;> simp <;> omega
    · cases q with
      | nil => simp
      | cons x q => cases (i n).rEn <;> simp

theorem lagFifo_contract (w depth : Nat) : FifoContract (lagFifo w depth) depth := by
  constructor
  · intro i n
    obtain ⟨h1, h2, _⟩ := lag_inv w depth i n
    refine ⟨_, by rw [h1, List.append_assoc], by rw [List.length_append]; exact h2, fun hr => ?_⟩
    have hr' : (!((lagFifo w depth).st i n).1.isEmpty) = true := hr
    show _ = some (((lagFifo w depth).st i n).1.headD 0)
    generalize (lagFifo w depth).st i n = s at *
    obtain ⟨q, p⟩ := s
    cases q with
    | nil => exact nomatch hr'
    | cons x q => rfl
  · intro i n hr hen
    have hr' : (!((lagFifo w depth).st i n).1.isEmpty) = true := hr
    have e3 : ((lagFifo w depth).st i (n + 1)).1 =
      (if (i n).rEn then ((lagFifo w depth).st i n).1.tail else ((lagFifo w depth).st i n).1) ++ ((lagFifo w depth).st i n).2 := rfl
    show (!((lagFifo w depth).st i (n + 1)).1.isEmpty) = true
    rw [e3, hen]
    generalize (lagFifo w depth).st i n = s at *
    obtain ⟨q, p⟩ := s
    cases q with
    | nil => exact nomatch hr'
    | cons x q => rfl

theorem lagFifo_shows (w depth : Nat) : FifoShows (lagFifo w depth) (fun n => n - 1) where
  past n := Nat.sub_le n 1
  mono m n h := by omega
  shows i n := by
    rw [(lag_inv w depth i n).2.2, List.length_append]
    show (!((lagFifo w depth).st i n).1.isEmpty) = true ↔ _
    cases ((lagFifo w depth).st i n).1 <;> simp

/-- With this FIFO: the user hands over a byte at each instant of a packet, and the PHY, which may ask for one at each instant, transmits
both packets. -/
example : let f := lagFifo (1 + (1 + 8)) 32
    let o := (directUlpi 0 0 0 0 f f).wave directDemoFed
    (∀ k, k < 31 → (directDemoFed k).edgeUlpi = true → directOpen directDemoFed o k = true → (directDemoFed k).dir = false) ∧
    (∀ m k, m < k → k < 31 → (directDemoFed m).edgeUlpi = true → (directDemoFed k).edgeUlpi = true →
      directUserOpen directDemoFed o (m - 1) = true →
      (directAccepted directDemoFed o (m - 1)).length < (directAccepted directDemoFed o (k - 1)).length) ∧
    (directPhy directDemoFed o 31).1.packets = [[0, 0x11, 0x22], [3, 0x44, 0x55]] := by
  intro f o
  refine ⟨by decide +kernel, ?_, by decide +kernel⟩
  have h : ∀ m, m < 31 → directUserOpen directDemoFed o (m - 1) = true →
      (directAccepted directDemoFed o (m - 1)).length < (directAccepted directDemoFed o m).length := by decide +kernel
  intro m k hmk hk _ _ ho
  refine Nat.lt_of_lt_of_le (h m (by omega) ho) ?_
  obtain ⟨d, hd⟩ := Nat.exists_eq_add_of_le (show m ≤ k - 1 by omega)
  rw [hd]
  exact (transferred_prefix _ _ _ m d).length_le

/-- The PHY sends two packets, the user's clock has every third instant. -/
def directDemoRx (n : Nat) : DirectIn :=
  let l : List (Bool × Bool × BitVec 8) := [(true, true, 0), (true, false, 0x10), (true, true, 0xd2), (true, false, 0x00),
    (false, false, 0), (true, true, 0), (true, true, 0xc3), (true, true, 0x80), (true, false, 0x10), (true, true, 6), (true, false, 0)]
  let p := l.getD (n - 150) (false, true, 0)
  if n < 150 then ⟨n % 3 == 0, true, false, true, 0, false, zeroBeat, true⟩
  else ⟨n % 3 == 0, true, p.1, p.2.1, p.2.2, false, zeroBeat, true⟩

example : directDelivered directDemoRx (directDemoUlpi.wave directDemoRx) 180
    = [(0xd2, true), (0xc3, false), (0x80, false), (6, true)] := by decide +kernel

end Lambdalib
