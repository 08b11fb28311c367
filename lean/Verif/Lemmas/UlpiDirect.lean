import Verif.Spec.UlpiDirect
import Verif.Lemmas.CrossDomain
import Verif.Props.UlpiLink
import Verif.Props.UsbEp
import Verif.Props.Pipeline
import Verif.Props.I2cBridge

/-! Helper lemmas: the link and the PHY; the parts of `DirectULPI`, each at the edges of its clock. -/

namespace Lambdalib

theorem cutPackets_snoc (l : List (Nat × Bool)) (b : Nat × Bool) :
    cutPackets (l ++ [b]) = if b.2 then ((cutPackets l).1 ++ [(cutPackets l).2 ++ [b.1]], [])
      else ((cutPackets l).1, (cutPackets l).2 ++ [b.1]) := by
  simp [cutPackets, List.foldl_append]

theorem maskPid_snoc (l : List Nat) (b : Nat) : maskPid (l ++ [b]) = if l = [] then [b % 16] else maskPid l ++ [b] := by
  cases l <;> simp [maskPid]

/-- The PHY when the pending end mark has arrived. -/
def phySettled (stp : Bool) (m : Phy) : Phy := if stp then m.step false ⟨false, false, 0, true⟩ else m

theorem phy_stp (m : Phy) (d : Bool) (p : PhyPins) (h : p.stp = true) :
    m.step d p = m.step false ⟨false, false, 0, true⟩ := by simp [Phy.step, h]

/-- What the PHY has to be in each state of the link. -/
def phyExpect (st : UlpiSt) (p : List (List Nat) × List Nat) : Phy :=
  match st with
  | .reset | .init0 => ⟨.idle, [], []⟩
  | .init1 => ⟨.reg 4, [], []⟩
  | .init2 | .init3 => ⟨.idle, [], [(4, 0x60)]⟩
  | .init4 => ⟨.reg 10, [], [(4, 0x60)]⟩
  | .linkUp => ⟨if p.2 = [] then .idle else .tx (maskPid p.2), p.1.map maskPid, [(4, 0x60), (10, 0)]⟩

/-- The link is inside a transfer. -/
def ulpiOpen (st : UlpiSt) (sd : Bool) : Bool := st == .init1 || st == .init4 || (st == .linkUp && !sd)

/-- Link and PHY: state of the link, `dir` at the latest edge, pending end mark, whether a packet starts. -/
structure PhyRel (st : UlpiSt) (dirR stp sd : Bool) (m : Phy) (A : List (Nat × Bool)) : Prop where
  phy : phySettled stp m = phyExpect st (cutPackets A)
  opened : ulpiOpen st sd = true → dirR = false ∧ stp = false
  start : st = .linkUp → sd = decide ((cutPackets A).2 = [])
  ended : stp = true → st = .init2 ∨ st = .linkUp
  down : st ≠ .linkUp → A = [] ∧ sd = true
  writes : st = .linkUp → A ≠ [] → m.writes = [(4, 0x60), (10, 0)]

set_option maxHeartbeats 1000000 in
theorem phyRel_step (c2 c4 : Nat) (s : UlpiS) {m : Phy} {A : List (Nat × Bool)}
    (h : PhyRel s.st s.x.dirR s.x.stp s.sd m A) (x : UlpiIn)
    (hopen : ulpiOpen s.st s.sd = true → x.dir = false ∧ (x.nxt = true → (ulpiBus s x).1 = true))
    (s' : UlpiS) (hs' : s' = (ulpiCore c2 c4).next s x) (o : UlpiOut) (ho : o = (ulpiCore c2 c4).out s x) :
    PhyRel s'.st s'.x.dirR s'.x.stp s'.sd (m.step s.x.dirR ⟨x.dir, x.nxt, o.o, o.stp⟩)
      (A ++ (if x.valid && o.ready then [(x.beat.payload, x.beat.last)] else [])) := by
  have e1 : s'.x.dirR = x.dir := by rw [hs']; rfl
  have e2 : s'.x.stp = (xcvr.next s.x (ulpiX s x)).stp := by rw [hs']; rfl
  have e3 : s'.sd = senderUlpi.next s.sd ⟨x.valid, x.beat, (s.st == .linkUp) && (xcvr.out s.x (ulpiX s x)).ready⟩ := by
    rw [hs']; rfl
  have e4 : s'.st = match s.st with
        | .reset => if x.porDone then .init0 else .reset
        | .init0 => if (xcvr.out s.x (ulpiX s x)).ready then .init1 else .init0
        | .init1 => if (xcvr.out s.x (ulpiX s x)).ready then .init2 else .init1
        | .init2 => if (ulpiTimer c2 c4).out s.timer (s.st == .init2, false) then .init3 else .init2
        | .init3 => if (xcvr.out s.x (ulpiX s x)).ready then .init4 else .init3
        | .init4 => if (xcvr.out s.x (ulpiX s x)).ready then .linkUp else .init4
        | .linkUp => .linkUp := by rw [hs']; rfl
  have e5 : o.o = (xcvr.out s.x (ulpiX s x)).o := by rw [ho]; rfl
  have e6 : o.stp = s.x.stp := by rw [ho]; rfl
  have e7 : o.ready = (s.st == .linkUp && (xcvr.out s.x (ulpiX s x)).ready) := by
    rw [ho]
    show (senderUlpi.out _ _).ready = _
    cases s.sd <;> rfl
  have x1 : (xcvr.out s.x (ulpiX s x)).ready = (!s.x.dirR && !x.dir && !s.x.stp && x.nxt) := rfl
  have x2 : (xcvr.out s.x (ulpiX s x)).o
    = if !s.x.dirR && !x.dir && !s.x.stp && (ulpiBus s x).1 then (ulpiBus s x).2.2 else 0 := rfl
  have x3 : (xcvr.next s.x (ulpiX s x)).stp = if s.x.stp then false else
    if !s.x.dirR && !x.dir && !s.x.stp && (ulpiBus s x).1 && ((ulpiBus s x).2.1 && x.nxt) then true else s.x.stp := rfl
  have x4 : senderUlpi.next s.sd ⟨x.valid, x.beat, (s.st == .linkUp) && (xcvr.out s.x (ulpiX s x)).ready⟩
    = if x.valid && ((s.st == .linkUp) && (xcvr.out s.x (ulpiX s x)).ready) then x.beat.last else s.sd := rfl
  have x5 : ulpiBus s x = match s.st with
      | .init0 => (true, false, 0x80 ||| 0x4)
      | .init1 => (true, true, 0x60)
      | .init3 => (true, false, 0x80 ||| 0xa)
      | .init4 => (true, true, 0x00)
      | .linkUp => (x.valid, x.beat.last, if s.sd then x.beat.payload % 16 + 16 * 4 else x.beat.payload)
      | _ => (false, false, 0) := by
    unfold ulpiBus
    cases s.st <;> try rfl
    cases s.sd <;> rfl
  rw [e1, e2, e3, e4, e5, e6, e7, x4, x3, x2, x1]
  rw [x5] at hopen ⊢
  clear e1 e2 e3 e4 e5 e6 e7 x1 x2 x3 x4 x5 hs' ho s' o
  obtain ⟨st, ⟨dirR, stp, sValid, sData, sCmd⟩, timer, sp, sd⟩ := s
  obtain ⟨dir, nxt, dataI, porDone, porRst, valid, beat⟩ := x
  dsimp only at *
  generalize (ulpiTimer c2 c4).out timer (st == .init2, false) = tm
  obtain ⟨hphy, hop, hsd, hstp, hdown, hwr⟩ := h
  cases stp with
  | true =>
    rw [phy_stp _ _ _ rfl]
    have hm : m.step false ⟨false, false, 0, true⟩ = phyExpect st (cutPackets A) := hphy
    rw [hm]
    clear hm hphy
    rcases hstp rfl with h1 | h1
    · subst h1
      obtain ⟨rfl, h1⟩ := hdown (fun h => nomatch h)
      subst h1
      cases tm <;> constructor <;> simp [phySettled, phyExpect, ulpiOpen]
    · subst h1
      have hc : sd = true := by
        cases sd with
        | true => rfl
        | false => have := hop rfl; simp at this
      subst hc
      have hc : (cutPackets A).2 = [] := by simpa using (hsd rfl).symm
      constructor <;> simp [phySettled, ulpiOpen, hc]
      simp [phyExpect]
  | false =>
    have hm : m = phyExpect st (cutPackets A) := hphy
    clear hphy hstp
    cases st with
    | linkUp =>
      have hs := hsd rfl
      clear hsd
      cases sd with
      | true =>
        have hc : (cutPackets A).2 = [] := by simpa using hs.symm
        clear hs hop hopen
        have hdv : (beat.payload % 16 + 64) / 64 = 1 := by omega
        have hdm : (beat.payload % 16 + 64) % 16 = beat.payload % 16 := by omega
        cases hl : beat.last <;> cases valid <;> cases dirR <;> cases dir <;> cases nxt <;> constructor <;>
          simp [phySettled, phyExpect, Phy.step, ulpiOpen, hm, hc, cutPackets_snoc, hdv, hdm, maskPid]
      | false =>
        have hc : (cutPackets A).2 ≠ [] := by simpa using hs.symm
        obtain ⟨h1, _⟩ := hop rfl
        obtain ⟨h2, h3⟩ := hopen rfl
        subst h1 h2
        cases nxt with
        | false => constructor <;> simp [phySettled, phyExpect, Phy.step, ulpiOpen, hm, hc]
        | true =>
          have hv : valid = true := h3 rfl
          subst hv
          cases hl : beat.last <;> constructor <;>
            simp [phySettled, phyExpect, Phy.step, ulpiOpen, hm, hc, cutPackets_snoc, maskPid_snoc]
    | init1 =>
      obtain ⟨rfl, h1⟩ := hdown (fun h => nomatch h)
      subst h1
      obtain ⟨h1, _⟩ := hop rfl
      obtain ⟨h2, h3⟩ := hopen rfl
      subst h1 h2
      cases nxt <;> constructor <;> simp [phySettled, phyExpect, Phy.step, ulpiOpen, hm]
    | init4 =>
      obtain ⟨rfl, h1⟩ := hdown (fun h => nomatch h)
      subst h1
      obtain ⟨h1, _⟩ := hop rfl
      obtain ⟨h2, h3⟩ := hopen rfl
      subst h1 h2
      cases nxt <;> constructor <;> simp [phySettled, phyExpect, Phy.step, ulpiOpen, hm, cutPackets]
    | reset =>
      obtain ⟨rfl, h1⟩ := hdown (fun h => nomatch h)
      subst h1
      cases porDone <;> cases dirR <;> cases dir <;> cases nxt <;> constructor <;>
        simp [phySettled, phyExpect, Phy.step, ulpiOpen, hm]
    | init2 =>
      obtain ⟨rfl, h1⟩ := hdown (fun h => nomatch h)
      subst h1
      cases tm <;> cases dirR <;> cases dir <;> cases nxt <;> constructor <;>
        simp [phySettled, phyExpect, Phy.step, ulpiOpen, hm]
    | init0 =>
      obtain ⟨rfl, h1⟩ := hdown (fun h => nomatch h)
      subst h1
      cases dirR <;> cases dir <;> cases nxt <;> constructor <;>
        simp [phySettled, phyExpect, Phy.step, ulpiOpen, hm]
    | init3 =>
      obtain ⟨rfl, h1⟩ := hdown (fun h => nomatch h)
      subst h1
      cases dirR <;> cases dir <;> cases nxt <;> constructor <;>
        simp [phySettled, phyExpect, Phy.step, ulpiOpen, hm]

section
variable {τ ρ : Type} (c2 c4 t2 t4 : Nat) (f : Circuit τ (FifoIn (1 + (1 + 8))) (FifoOut (1 + (1 + 8))))
  (g : Circuit ρ (FifoIn (1 + (1 + 8))) (FifoOut (1 + (1 + 8)))) (i : Nat → DirectIn)

instance : Inhabited UlpiIn := ⟨⟨false, false, 0, false, false, false, zeroBeat⟩⟩

def dEdge (n : Nat) : Bool := (i n).edgeUlpi
def dSync (n : Nat) : Bool := (i n).edgeSync

/-- Inputs of the parts at the instants. -/
def dCore (n : Nat) : UlpiIn := directCore c2 c4 f ((directUlpi c2 c4 t2 t4 f g).st i n) (i n)
def dTx (n : Nat) : SIn (BitVec 8) := directTx c2 c4 t2 t4 f ((directUlpi c2 c4 t2 t4 f g).st i n) (i n)
def dRx (n : Nat) : SIn (BitVec 8) := directRx c2 c4 t2 t4 f ((directUlpi c2 c4 t2 t4 f g).st i n) (i n)

/-- The part in the domain `ulpi` alone. -/
noncomputable def dRun : Nat → UlpiIn := atEdges (dEdge i) (dCore c2 c4 t2 t4 f g i)

theorem d_tx (n : Nat) : (fifoWrapper f).st (dTx c2 c4 t2 t4 f g i) n = ((directUlpi c2 c4 t2 t4 f g).st i n).tx := by
  induction n with
  | zero => rfl
  | succ n ih => rw [Circuit.st_succ, Circuit.st_succ, ih]; rfl

theorem d_rx (n : Nat) : (fifoWrapper g).st (dRx c2 c4 t2 t4 f g i) n = ((directUlpi c2 c4 t2 t4 f g).st i n).rx := by
  induction n with
  | zero => rfl
  | succ n ih => rw [Circuit.st_succ, Circuit.st_succ, ih]; rfl

theorem d_por (n : Nat) : (ulpiPor c2 c4).st (fun _ => ()) (edgeCount (dSync i) n)
    = ((directUlpi c2 c4 t2 t4 f g).st i n).por := by
  induction n with
  | zero => rfl
  | succ n ih =>
    have key : ∀ s x, ((directUlpi c2 c4 t2 t4 f g).next s x).por
      = if x.edgeSync then (ulpiPor c2 c4).next s.por () else s.por := fun _ _ => rfl
    rw [Circuit.st_succ, key]
    cases he : (i n).edgeSync with
    | false =>
      have h1 : edgeCount (dSync i) (n + 1) = edgeCount (dSync i) n := by simp [edgeCount, dSync, he]
      rw [h1, ih]; rfl
    | true =>
      have h1 : edgeCount (dSync i) (n + 1) = edgeCount (dSync i) n + 1 := by simp [edgeCount, dSync, he]
      rw [h1, Circuit.st_succ, ih]; rfl

theorem dRun_at {n : Nat} (h : (i n).edgeUlpi = true) :
    dRun c2 c4 t2 t4 f g i (edgeCount (dEdge i) n) = dCore c2 c4 t2 t4 f g i n := atEdges_count _ _ h

theorem dEdge_succ (n : Nat) : edgeCount (dEdge i) (n + 1) = edgeCount (dEdge i) n + (if (i n).edgeUlpi then 1 else 0) := rfl

theorem d_core (n : Nat) : (ulpiCore t2 t4).st (dRun c2 c4 t2 t4 f g i) (edgeCount (dEdge i) n)
    = ((directUlpi c2 c4 t2 t4 f g).st i n).core := by
  induction n with
  | zero => rfl
  | succ n ih =>
    have key : ∀ s x, ((directUlpi c2 c4 t2 t4 f g).next s x).core
      = if x.edgeUlpi then (ulpiCore t2 t4).next s.core (directCore c2 c4 f s x) else s.core := fun _ _ => rfl
    rw [Circuit.st_succ, key, dEdge_succ]
    cases he : (i n).edgeUlpi with
    | false => exact ih
    | true =>
      have h2 := dRun_at c2 c4 t2 t4 f g i he
      show (ulpiCore t2 t4).st (dRun c2 c4 t2 t4 f g i) (edgeCount (dEdge i) n + 1) = _
      rw [Circuit.st_succ, ih, h2]; rfl

/-- Outputs of the part in the domain `ulpi` at an instant. -/
def dOut (n : Nat) : UlpiOut :=
  (ulpiCore t2 t4).out ((directUlpi c2 c4 t2 t4 f g).st i n).core (dCore c2 c4 t2 t4 f g i n)

theorem d_wave {n : Nat} (h : (i n).edgeUlpi = true) :
    (ulpiCore t2 t4).wave (dRun c2 c4 t2 t4 f g i) (edgeCount (dEdge i) n) = dOut c2 c4 t2 t4 f g i n := by
  rw [Circuit.wave, d_core, dRun_at c2 c4 t2 t4 f g i h]; rfl

theorem d_given (n : Nat) : directGiven i ((directUlpi c2 c4 t2 t4 f g).wave i) n
    = busGiven ((ulpiCore t2 t4).wave (dRun c2 c4 t2 t4 f g i)) (edgeCount (dEdge i) n) := by
  induction n with
  | zero => rfl
  | succ n ih =>
    rw [directGiven, ih, dEdge_succ]
    cases he : (i n).edgeUlpi with
    | false => simp
    | true =>
      have e2 : ∀ (o : Nat → UlpiOut) k, busGiven o (k + 1) = busGiven o k ++
        (if (o k).busValid && (o k).busReady then [((o k).busData, (o k).busLast)] else []) := fun _ _ => rfl
      rw [if_pos rfl, if_pos rfl, e2, d_wave c2 c4 t2 t4 f g i he]
      congr 1
      show (if (dOut c2 c4 t2 t4 f g i n).busValid && (dOut c2 c4 t2 t4 f g i n).busReady
        then some ((dOut c2 c4 t2 t4 f g i n).busData, (dOut c2 c4 t2 t4 f g i n).busLast) else none).toList = _
      cases (dOut c2 c4 t2 t4 f g i n).busValid && (dOut c2 c4 t2 t4 f g i n).busReady <;> rfl

/-- What the user's side of the transmit FIFO accepts. -/
theorem d_accepted (n : Nat) : directAccepted i ((directUlpi c2 c4 t2 t4 f g).wave i) n
    = (accepted (fifoWrapper f) (dTx c2 c4 t2 t4 f g i) n).map (fun b => (b.payload.toNat, b.last)) := by
  rw [accepted, transferred_map]
  refine transferred_congr (fun _ => rfl) (fun k => ?_) (fun _ => rfl) n
  rw [Circuit.wave, Circuit.wave, d_tx]; rfl

theorem d_delivered (n : Nat) : directDelivered i ((directUlpi c2 c4 t2 t4 f g).wave i) n
    = (delivered (fifoWrapper g) (dRx c2 c4 t2 t4 f g i) n).map (fun b => (b.payload.toNat, b.last)) := by
  have h : ∀ k, ((directUlpi c2 c4 t2 t4 f g).wave i k).valid = ((fifoWrapper g).wave (dRx c2 c4 t2 t4 f g i) k).valid ∧
      ((directUlpi c2 c4 t2 t4 f g).wave i k).beat = ((fifoWrapper g).wave (dRx c2 c4 t2 t4 f g i) k).beat := by
    intro k
    rw [Circuit.wave, Circuit.wave, d_rx]; exact ⟨rfl, rfl⟩
  rw [delivered, transferred_map, directDelivered]
  induction n with
  | zero => rfl
  | succ n ih =>
    rw [transferred, transferred, ih, (h n).1, (h n).2]
    congr 1
    show (if (((fifoWrapper g).wave (dRx c2 c4 t2 t4 f g i) n).valid && (i n).edgeSync) && (i n).ready then _ else _)
      = (if ((fifoWrapper g).wave (dRx c2 c4 t2 t4 f g i) n).valid && ((i n).ready && (i n).edgeSync) then _ else _)
    cases ((fifoWrapper g).wave (dRx c2 c4 t2 t4 f g i) n).valid <;> cases (i n).ready <;> cases (i n).edgeSync <;> rfl

variable (hreg : ∀ s x y, (f.out s x).rRdy = (f.out s y).rRdy ∧ (f.out s x).rData = (f.out s y).rData)
include hreg

/-- What the other side of the transmit FIFO gives is what the part in the domain `ulpi` takes. -/
theorem d_middle (n : Nat) :
    (delivered (fifoWrapper f) (dTx c2 c4 t2 t4 f g i) n).map (fun b => (b.payload.toNat, b.last))
      = linkAccepted (dRun c2 c4 t2 t4 f g i) ((ulpiCore t2 t4).wave (dRun c2 c4 t2 t4 f g i)) (edgeCount (dEdge i) n) := by
  induction n with
  | zero => rfl
  | succ n ih =>
    have hw : ((fifoWrapper f).wave (dTx c2 c4 t2 t4 f g i) n).valid = (dCore c2 c4 t2 t4 f g i n).valid ∧
        (((fifoWrapper f).wave (dTx c2 c4 t2 t4 f g i) n).beat.payload.toNat,
          ((fifoWrapper f).wave (dTx c2 c4 t2 t4 f g i) n).beat.last)
          = ((dCore c2 c4 t2 t4 f g i n).beat.payload, (dCore c2 c4 t2 t4 f g i n).beat.last) := by
      rw [Circuit.wave, d_tx]
      have a := hreg ((directUlpi c2 c4 t2 t4 f g).st i n).tx (fifoDrive (dTx c2 c4 t2 t4 f g i n))
        (fifoDrive ⟨false, zeroBeat, false⟩)
      refine ⟨a.1, ?_⟩
      show ((unpackBeat (f.out _ (fifoDrive (dTx c2 c4 t2 t4 f g i n))).rData).payload.toNat,
        (unpackBeat (f.out _ (fifoDrive (dTx c2 c4 t2 t4 f g i n))).rData).last) = _
      rw [a.2]; rfl
    have e1 : delivered (fifoWrapper f) (dTx c2 c4 t2 t4 f g i) (n + 1)
      = delivered (fifoWrapper f) (dTx c2 c4 t2 t4 f g i) n ++
        (if ((fifoWrapper f).wave (dTx c2 c4 t2 t4 f g i) n).valid && (dTx c2 c4 t2 t4 f g i n).ready
          then [((fifoWrapper f).wave (dTx c2 c4 t2 t4 f g i) n).beat] else []) := rfl
    have hr : (dTx c2 c4 t2 t4 f g i n).ready = ((dOut c2 c4 t2 t4 f g i n).ready && (i n).edgeUlpi) := rfl
    rw [e1, List.map_append, ih, dEdge_succ, hw.1, hr]
    cases he : (i n).edgeUlpi with
    | false => simp
    | true =>
      have e2 : ∀ (x : Nat → UlpiIn) (o : Nat → UlpiOut) k, linkAccepted x o (k + 1) = linkAccepted x o k ++
        (if (x k).valid && (o k).ready then [((x k).beat.payload, (x k).beat.last)] else []) := fun _ _ _ => rfl
      rw [if_pos rfl, e2, d_wave c2 c4 t2 t4 f g i he, dRun_at c2 c4 t2 t4 f g i he, ← hw.2]
      congr 1
      simp only [Bool.and_true]
      split <;> rfl

/-- Everything the user has handed over is on the bus or in the FIFO. -/
theorem d_transmit {depth : Nat} (hf : FifoContract f depth) (n : Nat) :
    ∃ q, directAccepted i ((directUlpi c2 c4 t2 t4 f g).wave i) n
      = linkAccepted (dRun c2 c4 t2 t4 f g i) ((ulpiCore t2 t4).wave (dRun c2 c4 t2 t4 f g i)) (edgeCount (dEdge i) n) ++ q ∧
      q.length ≤ depth := by
  obtain ⟨q, h1, h2, _⟩ := C08_fifo_lossless f hf (dTx c2 c4 t2 t4 f g i) n
  refine ⟨q.map (fun b => (b.payload.toNat, b.last)), ?_, by simpa using h2⟩
  rw [d_accepted, h1, List.map_append, d_middle c2 c4 t2 t4 f g i hreg]

omit hreg

/-! ### Receive side -/

theorem d_small (n : Nat) : ((directUlpi c2 c4 t2 t4 f g).st i n).core.x.sData < 256 ∧
    ((directUlpi c2 c4 t2 t4 f g).st i n).core.sp.data < 256 ∧
    ((directUlpi c2 c4 t2 t4 f g).st i n).core.sp.bufData < 256 := by
  induction n with
  | zero => exact ⟨Nat.zero_lt_succ _, Nat.zero_lt_succ _, Nat.zero_lt_succ _⟩
  | succ n ih =>
    have key : ∀ s x, ((directUlpi c2 c4 t2 t4 f g).next s x).core
      = if x.edgeUlpi then (ulpiCore t2 t4).next s.core (directCore c2 c4 f s x) else s.core := fun _ _ => rfl
    rw [Circuit.st_succ, key]
    generalize (directUlpi c2 c4 t2 t4 f g).st i n = s at *
    split
    · have hx : (directCore c2 c4 f s (i n)).dataI < 256 := (i n).dataI.isLt
      generalize directCore c2 c4 f s (i n) = x at *
      have e1 : ((ulpiCore t2 t4).next s.core x).x.sData = if s.core.x.dirR && x.dir then x.dataI else s.core.x.sData := rfl
      have e2 : ((ulpiCore t2 t4).next s.core x).sp = splitterUlpi.next s.core.sp ⟨s.core.st == .linkUp && s.core.x.sValid,
        if s.core.st == .linkUp then s.core.x.sData else 0, s.core.st == .linkUp && s.core.x.sCmd⟩ := rfl
      rw [e1, e2]
      have hd : (if s.core.st == .linkUp then s.core.x.sData else 0) < 256 := by split <;> omega
      generalize (if s.core.st == .linkUp then s.core.x.sData else 0) = d at *
      generalize (s.core.st == .linkUp && s.core.x.sValid) = v
      generalize (s.core.st == .linkUp && s.core.x.sCmd) = cm
      refine ⟨by split <;> omega, ?_⟩
      generalize s.core.sp = sp at *
      simp only [splitterUlpi]
      repeat' split
      all_goals first | exact ⟨ih.2.1, ih.2.2⟩ | exact ⟨ih.2.2, hd⟩ | exact ⟨ih.2.1, hd⟩ | exact ⟨ih.2.2, ih.2.2⟩
    · exact ih

theorem d_rxBeat (n : Nat) : ((dRx c2 c4 t2 t4 f g i n).beat.payload.toNat, (dRx c2 c4 t2 t4 f g i n).beat.last)
    = ((dOut c2 c4 t2 t4 f g i n).rxData, (dOut c2 c4 t2 t4 f g i n).rxLast) := by
  have h := (d_small c2 c4 t2 t4 f g i n).2.1
  refine Prod.ext ?_ rfl
  show (BitVec.ofNat 8 ((directUlpi c2 c4 t2 t4 f g).st i n).core.sp.data).toNat = _
  rw [BitVec.toNat_ofNat]
  exact Nat.mod_eq_of_lt h

theorem d_lost (n : Nat) : ((directUlpi c2 c4 t2 t4 f g).wave i n).lost
    = ((dOut c2 c4 t2 t4 f g i n).rxValid && !((fifoWrapper g).wave (dRx c2 c4 t2 t4 f g i) n).ready) := by
  rw [Circuit.wave, Circuit.wave, d_rx]; rfl

/-- The receive FIFO takes some of the bytes it is given, all of them if none is lost. -/
theorem d_written (n : Nat) :
    List.Sublist ((accepted (fifoWrapper g) (dRx c2 c4 t2 t4 f g i) n).map (fun b => (b.payload.toNat, b.last)))
      (linkReceived ((ulpiCore t2 t4).wave (dRun c2 c4 t2 t4 f g i)) (edgeCount (dEdge i) n)) ∧
    ((∀ k, (i k).edgeUlpi = true → ((directUlpi c2 c4 t2 t4 f g).wave i k).lost = false) →
      (accepted (fifoWrapper g) (dRx c2 c4 t2 t4 f g i) n).map (fun b => (b.payload.toNat, b.last))
        = linkReceived ((ulpiCore t2 t4).wave (dRun c2 c4 t2 t4 f g i)) (edgeCount (dEdge i) n)) := by
  induction n with
  | zero => exact ⟨List.Sublist.slnil, fun _ => rfl⟩
  | succ n ih =>
    have e1 : accepted (fifoWrapper g) (dRx c2 c4 t2 t4 f g i) (n + 1)
      = accepted (fifoWrapper g) (dRx c2 c4 t2 t4 f g i) n ++
        (if (dRx c2 c4 t2 t4 f g i n).valid && ((fifoWrapper g).wave (dRx c2 c4 t2 t4 f g i) n).ready
          then [(dRx c2 c4 t2 t4 f g i n).beat] else []) := rfl
    have hv : (dRx c2 c4 t2 t4 f g i n).valid = ((dOut c2 c4 t2 t4 f g i n).rxValid && (i n).edgeUlpi) := rfl
    have e2 : ∀ (o : Nat → UlpiOut) k, linkReceived o (k + 1) = linkReceived o k ++
      (if (o k).rxValid && true then [((o k).rxData, (o k).rxLast)] else []) := fun _ _ => rfl
    rw [e1, List.map_append, dEdge_succ, hv]
    cases he : (i n).edgeUlpi with
    | false => simpa using ih
    | true =>
      rw [if_pos rfl, e2, d_wave c2 c4 t2 t4 f g i he]
      have hb := d_rxBeat c2 c4 t2 t4 f g i n
      have hl := d_lost c2 c4 t2 t4 f g i n
      cases hx : (dOut c2 c4 t2 t4 f g i n).rxValid with
      | false => simpa using ih
      | true =>
        rw [hx] at hl
        cases hr : ((fifoWrapper g).wave (dRx c2 c4 t2 t4 f g i) n).ready with
        | true =>
          have e3 : List.map (fun b => (b.payload.toNat, b.last))
              (if (true && true && true) = true then [(dRx c2 c4 t2 t4 f g i n).beat] else [])
              = [((dOut c2 c4 t2 t4 f g i n).rxData, (dOut c2 c4 t2 t4 f g i n).rxLast)] := by
            rw [← hb]; rfl
          rw [e3]
          exact ⟨ih.1.append (List.Sublist.refl _), fun h => by rw [ih.2 h]; rfl⟩
        | false =>
          refine ⟨?_, fun h => ?_⟩
          · simpa using ih.1.trans (List.sublist_append_left _ _)
          · rw [hr, h n he] at hl; simp at hl

theorem d_sampled (m k : Nat) :
    directSampled i m k =
      (prevOf false (fun j => (dRun c2 c4 t2 t4 f g i (edgeCount (dEdge i) m + j)).dir)
        (edgeCount (dEdge i) (m + k) - edgeCount (dEdge i) m),
       rxSampledFrom (dRun c2 c4 t2 t4 f g i) (edgeCount (dEdge i) m) (edgeCount (dEdge i) (m + k))) := by
  induction k with
  | zero => simp [directSampled, prevOf, rxSampledFrom, rxSampled]
  | succ k ih =>
    have hge : edgeCount (dEdge i) m ≤ edgeCount (dEdge i) (m + k) := edgeCount_mono _ (by omega)
    rw [directSampled, ih, ← Nat.add_assoc, dEdge_succ]
    cases he : (i (m + k)).edgeUlpi with
    | false => dsimp only; rw [he]; rfl
    | true =>
      have hat := dRun_at c2 c4 t2 t4 f g i he
      have hsub : edgeCount (dEdge i) (m + k) + 1 - edgeCount (dEdge i) m
        = (edgeCount (dEdge i) (m + k) - edgeCount (dEdge i) m) + 1 := by omega
      have hadd : edgeCount (dEdge i) m + (edgeCount (dEdge i) (m + k) - edgeCount (dEdge i) m)
        = edgeCount (dEdge i) (m + k) := by omega
      dsimp only
      rw [if_pos rfl, if_pos he, rxSampledFrom, rxSampledFrom, hsub, rxSampled, prevOf, hadd, hat]
      rfl

/-- The instant after a given edge. -/
theorem edge_before (e : Nat → Bool) (n v : Nat) (hv : v < edgeCount e n) :
    ∃ t, t < n ∧ e t = true ∧ edgeCount e t = v := by
  induction n with
  | zero => simp [edgeCount] at hv
  | succ n ih =>
    by_cases h : v < edgeCount e n
    · obtain ⟨t, h1, h2, h3⟩ := ih h
      exact ⟨t, by omega, h2, h3⟩
    · cases he : e n with
      | false => simp [edgeCount, he] at hv; omega
      | true =>
        simp [edgeCount, he] at hv
        exact ⟨n, by omega, he, by omega⟩

theorem linkReceived_prefix (o : Nat → UlpiOut) (k d : Nat) : linkReceived o k <+: linkReceived o (k + d) := by
  induction d with
  | zero => exact List.prefix_rfl
  | succ d ih => exact ih.trans ⟨_, rfl⟩

theorem busGiven_prefix (o : Nat → UlpiOut) (k d : Nat) : busGiven o k <+: busGiven o (k + d) := by
  induction d with
  | zero => exact List.prefix_rfl
  | succ d ih => exact ih.trans ⟨_, rfl⟩

theorem directGiven_prefix (o : Nat → DirectOut) (k d : Nat) : directGiven i o k <+: directGiven i o (k + d) := by
  induction d with
  | zero => exact List.prefix_rfl
  | succ d ih => exact ih.trans ⟨_, rfl⟩

/-- The link in terms of instants: what the splitter has given by then and later. -/
theorem d_link (n : Nat) :
    ((directGiven i ((directUlpi c2 c4 t2 t4 f g).wave i) n).length < 4 ∧
      linkReceived ((ulpiCore t2 t4).wave (dRun c2 c4 t2 t4 f g i)) (edgeCount (dEdge i) n) = []) ∨
    ∃ m, m ≤ n ∧ (∀ k, k < m → (directGiven i ((directUlpi c2 c4 t2 t4 f g).wave i) k).length < 4) ∧
      (directGiven i ((directUlpi c2 c4 t2 t4 f g).wave i) m).length = 4 ∧
      linkReceived ((ulpiCore t2 t4).wave (dRun c2 c4 t2 t4 f g i)) (edgeCount (dEdge i) n + 2)
        = rxPackets (directSampled i m (n - m)).2 := by
  rcases C73_link t2 t4 (dRun c2 c4 t2 t4 f g i) (edgeCount (dEdge i) n) with ⟨k, hk, h1, _, h3⟩ | ⟨_, m, hm, h0, h1, h2, h3⟩
  · left
    refine ⟨?_, h3⟩
    rw [d_given, h1, List.length_take]; omega
  · right
    obtain ⟨t, ht, he, hc⟩ := edge_before (dEdge i) n (m - 1) (by omega)
    have hc1 : edgeCount (dEdge i) (t + 1) = m := by
      have he' : (i t).edgeUlpi = true := he
      rw [dEdge_succ, hc, if_pos he']; omega
    refine ⟨t + 1, ht, ?_, ?_, ?_⟩
    · intro k hk
      have hle := edgeCount_mono (dEdge i) (show k ≤ t by omega)
      rw [hc] at hle
      obtain ⟨d, hd⟩ := Nat.exists_eq_add_of_le hle
      have hp := (busGiven_prefix ((ulpiCore t2 t4).wave (dRun c2 c4 t2 t4 f g i)) (edgeCount (dEdge i) k) d).length_le
      rw [← hd] at hp
      rw [d_given]; omega
    · rw [d_given, hc1, h2]
    · rw [d_sampled c2 c4 t2 t4 f g, hc1, show t + 1 + (n - (t + 1)) = n by omega]
      exact h3

/-! ### The PHY -/

theorem link_open {s : UlpiS} {G A D S} (h : LinkRel s G A D S) :
    (match G.getLast? with | some (_, l) => !l | none => false) = ulpiOpen s.st s.sd := by
  by_cases hst : s.st = .linkUp
  · obtain ⟨hG, hsd, _⟩ := h.up hst
    rw [hst, hG, hsd]
    rcases List.eq_nil_or_concat A with rfl | ⟨L, b, rfl⟩
    · rfl
    · rw [List.concat_eq_append, txPackets_snoc, txStart_snoc, ← List.append_assoc, List.getLast?_concat]
      rfl
  · obtain ⟨hG, _, _, _, _, hsd⟩ := h.down hst
    rw [hG, hsd]
    cases hs : s.st <;> first | exact absurd hs hst | rfl

theorem d_open (n : Nat) : directOpen i ((directUlpi c2 c4 t2 t4 f g).wave i) n
    = ulpiOpen ((directUlpi c2 c4 t2 t4 f g).st i n).core.st ((directUlpi c2 c4 t2 t4 f g).st i n).core.sd := by
  obtain ⟨_, _, _, _, h⟩ := linkRel_run t2 t4 (dRun c2 c4 t2 t4 f g i) (edgeCount (dEdge i) n)
  have := link_open h
  rw [d_core] at this
  rw [← this, directOpen, d_given]
  cases (busGiven ((ulpiCore t2 t4).wave (dRun c2 c4 t2 t4 f g i)) (edgeCount (dEdge i) n)).getLast? <;> rfl

theorem d_phy (n : Nat) (hfed : DirectFed i ((directUlpi c2 c4 t2 t4 f g).wave i) n) :
    (directPhy i ((directUlpi c2 c4 t2 t4 f g).wave i) n).2 = ((directUlpi c2 c4 t2 t4 f g).st i n).core.x.dirR ∧
    PhyRel ((directUlpi c2 c4 t2 t4 f g).st i n).core.st ((directUlpi c2 c4 t2 t4 f g).st i n).core.x.dirR
      ((directUlpi c2 c4 t2 t4 f g).st i n).core.x.stp ((directUlpi c2 c4 t2 t4 f g).st i n).core.sd
      (directPhy i ((directUlpi c2 c4 t2 t4 f g).wave i) n).1
      (linkAccepted (dRun c2 c4 t2 t4 f g i) ((ulpiCore t2 t4).wave (dRun c2 c4 t2 t4 f g i)) (edgeCount (dEdge i) n)) := by
  induction n with
  | zero =>
    refine ⟨rfl, ?_⟩
    constructor <;> simp [Circuit.st, directUlpi, ulpiCore, xcvr, directPhy, phySettled, phyExpect, ulpiOpen,
      senderUlpi, linkAccepted, transferred, edgeCount]
  | succ n ih =>
    replace ih := ih (fun k hk => hfed k (by omega))
    have key : ∀ s x, ((directUlpi c2 c4 t2 t4 f g).next s x).core
      = if x.edgeUlpi then (ulpiCore t2 t4).next s.core (directCore c2 c4 f s x) else s.core := fun _ _ => rfl
    rw [Circuit.st_succ, key, directPhy, dEdge_succ]
    cases he : (i n).edgeUlpi with
    | false => exact ih
    | true =>
      have hf := hfed n (by omega) he
      rw [d_open] at hf
      have e2 : ∀ (x : Nat → UlpiIn) (o : Nat → UlpiOut) k, linkAccepted x o (k + 1) = linkAccepted x o k ++
        (if (x k).valid && (o k).ready then [((x k).beat.payload, (x k).beat.last)] else []) := fun _ _ _ => rfl
      simp only [if_true]
      rw [e2, d_wave c2 c4 t2 t4 f g i he, dRun_at c2 c4 t2 t4 f g i he]
      refine ⟨rfl, ?_⟩
      have hstep := phyRel_step t2 t4 _ ih.2 (dCore c2 c4 t2 t4 f g i n) (by
        intro ho
        obtain ⟨a, b⟩ := hf ho
        refine ⟨a, fun hn => ?_⟩
        have hg : ((directUlpi c2 c4 t2 t4 f g).wave i n).given
          = if (dOut c2 c4 t2 t4 f g i n).busValid && (dOut c2 c4 t2 t4 f g i n).busReady
            then some ((dOut c2 c4 t2 t4 f g i n).busData, (dOut c2 c4 t2 t4 f g i n).busLast) else none := rfl
        have hs := b hn
        rw [hg] at hs
        cases hb : (dOut c2 c4 t2 t4 f g i n).busValid with
        | true => exact hb
        | false => rw [hb] at hs; simp at hs) _ rfl (dOut c2 c4 t2 t4 f g i n) rfl
      rw [← ih.1] at hstep
      exact hstep

/-- The latest transfer. -/
theorem transferred_latest {β : Type} (v r : Nat → Bool) (b : Nat → β) (n : Nat) (h : transferred v r b n ≠ []) :
    ∃ m, m < n ∧ v m = true ∧ r m = true ∧ (transferred v r b n).length = (transferred v r b m).length + 1 := by
  induction n with
  | zero => exact absurd rfl h
  | succ n ih =>
    rw [transferred_succ] at h ⊢
    cases hv : v n && r n with
    | true =>
      rw [Bool.and_eq_true] at hv
      exact ⟨n, by omega, hv.1, hv.2, by simp [hv.1, hv.2]⟩
    | false =>
      rw [hv] at h
      simp only [Bool.false_eq_true, if_false, List.append_nil] at h ⊢
      obtain ⟨m, h1, h2⟩ := ih h
      exact ⟨m, by omega, h2⟩

include hreg in
/-- In `LINK-UP` inside a packet there is a byte in the FIFO if the user is fast enough. -/
theorem d_full {depth : Nat} (hf : FifoContract f depth) (d : Nat → Nat) (hd : FifoShows f d) (n : Nat)
    (hfast : ∀ m, m < n → (i m).edgeUlpi = true →
      directUserOpen i ((directUlpi c2 c4 t2 t4 f g).wave i) (d m) = true →
      (directAccepted i ((directUlpi c2 c4 t2 t4 f g).wave i) (d m)).length
        < (directAccepted i ((directUlpi c2 c4 t2 t4 f g).wave i) (d n)).length)
    (hopen : (cutPackets (linkAccepted (dRun c2 c4 t2 t4 f g i)
      ((ulpiCore t2 t4).wave (dRun c2 c4 t2 t4 f g i)) (edgeCount (dEdge i) n))).2 ≠ []) :
    (dCore c2 c4 t2 t4 f g i n).valid = true := by
  have hshow : ∀ k, (dCore c2 c4 t2 t4 f g i k).valid = true ↔
      (delivered (fifoWrapper f) (dTx c2 c4 t2 t4 f g i) k).length
        < (directAccepted i ((directUlpi c2 c4 t2 t4 f g).wave i) (d k)).length := by
    intro k
    rw [d_accepted, List.length_map, (fifoWrapper_counts f _ k).2, (fifoWrapper_counts f _ (d k)).1,
      ← hd.shows (fun j => fifoDrive (dTx c2 c4 t2 t4 f g i j)) k]
    have e : (f.wave (fun j => fifoDrive (dTx c2 c4 t2 t4 f g i j)) k).rRdy
        = ((fifoWrapper f).wave (dTx c2 c4 t2 t4 f g i) k).valid := by rw [fifoWrapper_wave]
    rw [e, Circuit.wave, d_tx]
    exact Iff.of_eq (congrArg (· = true)
      (hreg ((directUlpi c2 c4 t2 t4 f g).st i k).tx (fifoDrive ⟨false, zeroBeat, false⟩)
        (fifoDrive (dTx c2 c4 t2 t4 f g i k))).1)
  rw [← d_middle c2 c4 t2 t4 f g i hreg] at hopen
  have hne : delivered (fifoWrapper f) (dTx c2 c4 t2 t4 f g i) n ≠ [] := by
    intro h; rw [h] at hopen; exact hopen rfl
  obtain ⟨m, hm, hv, hr, hlen⟩ := transferred_latest _ _ _ n hne
  have hedge : (i m).edgeUlpi = true := by
    have : ((dOut c2 c4 t2 t4 f g i m).ready && (i m).edgeUlpi) = true := hr
    rw [Bool.and_eq_true] at this
    exact this.2
  have hvm : (dCore c2 c4 t2 t4 f g i m).valid = true := by
    have : ((fifoWrapper f).wave (dTx c2 c4 t2 t4 f g i) m).valid = true := hv
    rw [Circuit.wave, d_tx] at this
    have a := (hreg ((directUlpi c2 c4 t2 t4 f g).st i m).tx (fifoDrive (dTx c2 c4 t2 t4 f g i m))
      (fifoDrive ⟨false, zeroBeat, false⟩)).1
    have a' : ((fifoWrapper f).out ((directUlpi c2 c4 t2 t4 f g).st i m).tx (dTx c2 c4 t2 t4 f g i m)).valid
      = (dCore c2 c4 t2 t4 f g i m).valid := a
    rw [← a']; exact this
  rw [hshow] at hvm ⊢
  have hlen' : (delivered (fifoWrapper f) (dTx c2 c4 t2 t4 f g i) n).length
    = (delivered (fifoWrapper f) (dTx c2 c4 t2 t4 f g i) m).length + 1 := hlen
  have hpre : ∀ a b, a ≤ b → directAccepted i ((directUlpi c2 c4 t2 t4 f g).wave i) a
      <+: directAccepted i ((directUlpi c2 c4 t2 t4 f g).wave i) b := by
    intro a b hab
    obtain ⟨e, rfl⟩ := Nat.exists_eq_add_of_le hab
    exact transferred_prefix _ _ _ a e
  have hmono := (hpre _ _ (hd.mono m n (by omega))).length_le
  by_cases hlt : (delivered (fifoWrapper f) (dTx c2 c4 t2 t4 f g i) n).length
      < (directAccepted i ((directUlpi c2 c4 t2 t4 f g).wave i) (d m)).length
  · omega
  · refine Nat.lt_of_le_of_lt ?_ (hfast m hm hedge ?_)
    · omega
    · -- what the user has handed over by then is what the PHY has been given by now
      have heq : directAccepted i ((directUlpi c2 c4 t2 t4 f g).wave i) (d m)
          = (delivered (fifoWrapper f) (dTx c2 c4 t2 t4 f g i) n).map (fun b => (b.payload.toNat, b.last)) := by
        have p1 := hpre (d m) n (by have := hd.past m; omega)
        obtain ⟨q, h1, _⟩ := C08_fifo_lossless f hf (dTx c2 c4 t2 t4 f g i) n
        have p2 : (delivered (fifoWrapper f) (dTx c2 c4 t2 t4 f g i) n).map (fun b => (b.payload.toNat, b.last))
            <+: directAccepted i ((directUlpi c2 c4 t2 t4 f g).wave i) n := by
          rw [d_accepted, h1, List.map_append]; exact List.prefix_append _ _
        exact (List.prefix_of_prefix_length_le p1 p2 (by rw [List.length_map]; omega)).eq_of_length
          (by rw [List.length_map]; omega)
      rw [directUserOpen, heq]
      generalize (delivered (fifoWrapper f) (dTx c2 c4 t2 t4 f g i) n).map (fun b => (b.payload.toNat, b.last)) = L at hopen
      rcases List.eq_nil_or_concat L with rfl | ⟨L', b, rfl⟩
      · exact absurd rfl hopen
      · rw [List.concat_eq_append] at hopen ⊢
        rw [List.getLast?_concat]
        rw [cutPackets_snoc] at hopen
        cases hb : b.2 with
        | true => rw [hb] at hopen; exact absurd rfl hopen
        | false => dsimp only; rw [hb]; rfl

/-! ### Progress -/

theorem txPackets_append (s : Bool) (a b : List (Nat × Bool)) :
    txPackets s (a ++ b) = txPackets s a ++ txPackets (txStart s a) b := by
  induction a generalizing s with
  | nil => rfl
  | cons x a ih => rw [txStart_cons, List.cons_append, txPackets, txPackets, ih]; rfl

theorem d_porOut (h2 : c2 < 2 ^ 30) (h4 : c4 < 2 ^ 30) (n : Nat) :
    (dCore c2 c4 t2 t4 f g i n).porRst = decide (edgeCount (dSync i) n < c2 + 1) ∧
    (dCore c2 c4 t2 t4 f g i n).porDone = decide (c2 + 1 + (c4 + 1) ≤ edgeCount (dSync i) n) := by
  have h := C57_sequence c2 c4 h2 h4 (fun _ => ()) (edgeCount (dSync i) n)
  rw [Circuit.wave, d_por c2 c4 t2 t4 f g] at h
  exact h

end

end Lambdalib
