import Verif.Props.Ulpi
import Verif.Props.UlpiDump

/-! Property C73: bring-up of the ULPI link and transparency afterwards. -/

namespace Lambdalib

/-- The bytes taken by the PHY, with their end-of-transfer marks. -/
def busGiven (o : Nat → UlpiOut) (n : Nat) : List (Nat × Bool) :=
  transferred (fun k => (o k).busValid) (fun k => (o k).busReady) (fun k => ((o k).busData, (o k).busLast)) n

/-- The bytes taken from the user. -/
def linkAccepted (i : Nat → UlpiIn) (o : Nat → UlpiOut) (n : Nat) : List (Nat × Bool) :=
  transferred (fun k => (i k).valid) (fun k => (o k).ready) (fun k => ((i k).beat.payload, (i k).beat.last)) n

/-- The bytes given to the user. -/
def linkReceived (o : Nat → UlpiOut) (n : Nat) : List (Nat × Bool) :=
  rxEmitted (fun k => (o k).rxValid) (fun k => (o k).rxData) (fun k => (o k).rxLast) n

/-- The two register writes that configure the PHY: Function Control (address 4) := 0x60, OTG Control (address 10) := 0. -/
def ulpiInit : List (Nat × Bool) := [(0x84, false), (0x60, true), (0x8a, false), (0x00, true)]

def ulpiInitCount : UlpiSt → Nat
  | .reset | .init0 => 0 | .init1 => 1 | .init2 | .init3 => 2 | .init4 => 3 | .linkUp => 4

/-- The link relation before and after link-up; `S` are the items sampled since link-up. -/
structure LinkRel (s : UlpiS) (G A D : List (Nat × Bool)) (S : List RxItem) : Prop where
  down : s.st ≠ .linkUp → G = ulpiInit.take (ulpiInitCount s.st) ∧ A = [] ∧ D = [] ∧ S = [] ∧
    s.sp = splitterUlpi.reset ∧ s.sd = true
  up : s.st = .linkUp → G = ulpiInit ++ txPackets true A ∧ s.sd = txStart true A ∧
    ∃ I, splitRel s.sp I D ∧
      S = I ++ (if s.x.sValid then [if s.x.sCmd then RxItem.cmd s.x.sData else .data s.x.sData] else [])
  stp : s.x.stp = true → s.st = .init2 ∨ s.st = .linkUp

def linkStepRx (s : UlpiS) (x : UlpiIn) : List RxItem :=
  if s.st == .linkUp && (s.x.dirR && x.dir) then [if x.nxt then .data x.dataI else .cmd x.dataI] else []

set_option maxHeartbeats 1000000 in
theorem linkRel_step (c2 c4 : Nat) {s : UlpiS} {G A D S} (h : LinkRel s G A D S) (x : UlpiIn) :
    LinkRel ((ulpiCore c2 c4).next s x)
      (G ++ (if ((ulpiCore c2 c4).out s x).busValid && ((ulpiCore c2 c4).out s x).busReady
        then [(((ulpiCore c2 c4).out s x).busData, ((ulpiCore c2 c4).out s x).busLast)] else []))
      (A ++ (if x.valid && ((ulpiCore c2 c4).out s x).ready then [(x.beat.payload, x.beat.last)] else []))
      (D ++ (if ((ulpiCore c2 c4).out s x).rxValid && true
        then [(((ulpiCore c2 c4).out s x).rxData, ((ulpiCore c2 c4).out s x).rxLast)] else []))
      (S ++ linkStepRx s x) := by
  by_cases hst : s.st = .linkUp
  · obtain ⟨hG, hsd, I, hsp, hS⟩ := h.up hst
    have hup : ((ulpiCore c2 c4).next s x).st = .linkUp := by simp only [ulpiCore, hst]
    refine ⟨fun hn => absurd hup hn, fun _ => ?_, fun _ => Or.inr hup⟩
    have hbv : (ulpiBus s x).1 = x.valid := by
      simp only [ulpiBus, hst]; cases s.sd <;> rfl
    have hbl : (ulpiBus s x).2.1 = x.beat.last := by
      simp only [ulpiBus, hst]; cases s.sd <;> rfl
    have hbd : (ulpiBus s x).2.2 = (if s.sd then 0x40 + x.beat.payload % 16 else x.beat.payload) := by
      simp only [ulpiBus, hst]; cases s.sd <;> simp [senderUlpi, Nat.add_comm]
    have hrdy : ((ulpiCore c2 c4).out s x).ready = ((ulpiCore c2 c4).out s x).busReady := by
      simp only [ulpiCore, hst]; cases s.sd <;> simp [senderUlpi]
    have hv : ((ulpiCore c2 c4).out s x).busValid = x.valid := hbv
    have hsdn : ((ulpiCore c2 c4).next s x).sd =
        (if x.valid && ((ulpiCore c2 c4).out s x).busReady then x.beat.last else s.sd) := by
      simp only [ulpiCore, hst, senderUlpi]; simp
    rw [hrdy, hv, hsdn]
    refine ⟨?_, ?_, ?_⟩
    · by_cases hx : (x.valid && ((ulpiCore c2 c4).out s x).busReady) = true
      · rw [if_pos hx, if_pos hx, txPackets_snoc, hG, ← hsd, List.append_assoc]
        show ulpiInit ++ (_ ++ [((ulpiBus s x).2.2, (ulpiBus s x).2.1)]) = _
        rw [hbd, hbl]
      · rw [if_neg hx, if_neg hx, List.append_nil, List.append_nil, hG]
    · by_cases hx : (x.valid && ((ulpiCore c2 c4).out s x).busReady) = true
      · rw [if_pos hx, if_pos hx, txStart_snoc]
      · rw [if_neg hx, if_neg hx, List.append_nil, hsd]
    · refine ⟨I ++ splitItem ⟨true && s.x.sValid, s.x.sData, true && s.x.sCmd⟩, ?_, ?_⟩
      · have := splitRel_step hsp ⟨true && s.x.sValid, s.x.sData, true && s.x.sCmd⟩
        have hn : ((ulpiCore c2 c4).next s x).sp
            = splitterUlpi.next s.sp ⟨true && s.x.sValid, s.x.sData, true && s.x.sCmd⟩ := by
          simp only [ulpiCore, hst]; rfl
        rw [hn]
        simpa [ulpiCore, splitterUlpi] using this
      · rw [hS]
        have hx : ((ulpiCore c2 c4).next s x).x = xcvr.next s.x (ulpiX s x) := rfl
        rw [hx]
        have hrep := xcvr_report s.x (ulpiX s x) (ulpiX s x)
        have hi : splitItem ⟨true && s.x.sValid, s.x.sData, true && s.x.sCmd⟩
            = (if s.x.sValid then [if s.x.sCmd then RxItem.cmd s.x.sData else .data s.x.sData] else []) := by
          simp [splitItem]
        rw [hi]
        congr 1
        have hl : linkStepRx s x = (if s.x.dirR && x.dir then [if x.nxt then .data x.dataI else .cmd x.dataI] else []) := by
          simp [linkStepRx, hst]
        rw [hl]
        exact hrep.symm
  · obtain ⟨hG, hA, hD, hS, hsp, hsd⟩ := h.down hst
    have hstp := h.stp
    clear h
    obtain ⟨st, ⟨dirR, stp, sValid, sData, sCmd⟩, timer, sp, sd⟩ := s
    obtain ⟨dir, nxt, dataI, porDone, porRst, valid, beat⟩ := x
    dsimp only at hst hG hsp hsd hstp
    subst hA hD hS hsp hsd
    cases st with
    | linkUp => exact absurd rfl hst
    | reset =>
      cases stp with
      | true => simp at hstp
      | false =>
        cases porDone <;> constructor <;>
          simp [ulpiCore, ulpiX, ulpiBus, xcvr, senderUlpi, splitterUlpi, linkStepRx, hG, ulpiInitCount]
    | init2 =>
      cases ht : (ulpiTimer c2 c4).out timer (true, false) <;> constructor <;>
        simp [ulpiCore, ulpiX, ulpiBus, xcvr, senderUlpi, splitterUlpi, linkStepRx, hG, ulpiInitCount, ht]
    | init0 =>
      cases stp with
      | true => simp at hstp
      | false =>
        cases dirR <;> cases dir <;> cases nxt <;> constructor <;>
          simp [ulpiCore, ulpiX, ulpiBus, xcvr, senderUlpi, splitterUlpi, linkStepRx, hG, ulpiInitCount, ulpiInit]
    | init1 =>
      cases stp with
      | true => simp at hstp
      | false =>
        cases dirR <;> cases dir <;> cases nxt <;> constructor <;>
          simp [ulpiCore, ulpiX, ulpiBus, xcvr, senderUlpi, splitterUlpi, linkStepRx, hG, ulpiInitCount, ulpiInit]
    | init3 =>
      cases stp with
      | true => simp at hstp
      | false =>
        cases dirR <;> cases dir <;> cases nxt <;> constructor <;>
          simp [ulpiCore, ulpiX, ulpiBus, xcvr, senderUlpi, splitterUlpi, linkStepRx, hG, ulpiInitCount, ulpiInit]
    | init4 =>
      cases stp with
      | true => simp at hstp
      | false =>
        by_cases hr : (!dirR && !dir && nxt) = true
        · simp only [Bool.and_eq_true, Bool.not_eq_true'] at hr
          obtain ⟨⟨rfl, rfl⟩, rfl⟩ := hr
          refine ⟨fun h => absurd rfl h, fun _ => ⟨?_, ?_, [], ⟨?_, ?_⟩, ?_⟩, fun _ => Or.inr rfl⟩
          · rw [hG]; simp [ulpiCore, ulpiX, ulpiBus, xcvr, senderUlpi, ulpiInitCount, ulpiInit, txPackets]
          · simp [ulpiCore, senderUlpi, txStart]
          · simp [ulpiCore, splitterUlpi, rxPackets]
          · simp [ulpiCore, splitterUlpi, rxPending]
          · simp [ulpiCore, xcvr, linkStepRx]
        · cases dirR <;> cases dir <;> cases nxt <;> first | exact absurd rfl hr | skip
          all_goals
            constructor <;>
            simp [ulpiCore, ulpiX, ulpiBus, xcvr, senderUlpi, splitterUlpi, linkStepRx, hG, ulpiInitCount, ulpiInit]

/-- Items sampled on the bus from cycle `m` on, up to cycle `n`. -/
def rxSampledFrom (i : Nat → UlpiIn) (m n : Nat) : List RxItem :=
  rxSampled (fun k => (i (m + k)).dir) (fun k => (i (m + k)).nxt) (fun k => (i (m + k)).dataI) (n - m)

theorem linkRel_run (c2 c4 : Nat) (i : Nat → UlpiIn) (n : Nat) :
    ∃ m, m ≤ n ∧ (((ulpiCore c2 c4).st i n).st ≠ .linkUp → m = n) ∧
      (((ulpiCore c2 c4).st i n).st = .linkUp → prevOf false (fun k => (i k).dir) m = false ∧
        0 < m ∧ ((ulpiCore c2 c4).st i (m - 1)).st ≠ .linkUp ∧ ((ulpiCore c2 c4).st i m).st = .linkUp) ∧
      LinkRel ((ulpiCore c2 c4).st i n) (busGiven ((ulpiCore c2 c4).wave i) n)
        (linkAccepted i ((ulpiCore c2 c4).wave i) n) (linkReceived ((ulpiCore c2 c4).wave i) n)
        (rxSampledFrom i m n) := by
  induction n with
  | zero =>
    refine ⟨0, Nat.le_refl _, fun _ => rfl, fun h => (nomatch h), ?_⟩
    constructor <;> simp [ulpiCore, ulpiInitCount, busGiven, linkAccepted, linkReceived, rxEmitted, transferred,
      rxSampledFrom, rxSampled, senderUlpi, xcvr]
  | succ n ih =>
    obtain ⟨m, hm, h1, h2, h⟩ := ih
    have hdirR : ((ulpiCore c2 c4).st i n).x.dirR = prevOf false (fun k => (i k).dir) n := by cases n <;> rfl
    have hstep := linkRel_step c2 c4 h (i n)
    by_cases hst : ((ulpiCore c2 c4).st i n).st = .linkUp
    · have hup : ((ulpiCore c2 c4).st i (n + 1)).st = .linkUp := by
        rw [Circuit.st_succ]; generalize (ulpiCore c2 c4).st i n = s at *; simp only [ulpiCore, hst]
      refine ⟨m, by omega, fun hn => absurd hup hn, fun _ => h2 hst, ?_⟩
      have hS : rxSampledFrom i m (n + 1) = rxSampledFrom i m n ++ linkStepRx ((ulpiCore c2 c4).st i n) (i n) := by
        rw [rxSampledFrom, show n + 1 - m = (n - m) + 1 by omega, rxSampled, ← rxSampledFrom]
        congr 1
        rw [linkStepRx, hst, hdirR]
        have hp : prevOf false (fun k => (i (m + k)).dir) (n - m) = prevOf false (fun k => (i k).dir) n := by
          by_cases he : n = m
          · subst he; rw [Nat.sub_self, (h2 hst).1]; rfl
          · obtain ⟨d, hd⟩ : ∃ d, n - m = d + 1 := ⟨n - m - 1, by omega⟩
            rw [hd]
            obtain ⟨e, he⟩ : ∃ e, n = e + 1 := ⟨n - 1, by omega⟩
            rw [he]
            show (i (m + d)).dir = (i e).dir
            rw [show m + d = e by omega]
        rw [hp, show m + (n - m) = n by omega]
        simp
      rw [hS]
      exact hstep
    · have hmn := h1 hst
      have hrx : linkStepRx ((ulpiCore c2 c4).st i n) (i n) = [] := by
        simp [linkStepRx, hst]
      have hSn : rxSampledFrom i m n = [] := (h.down hst).2.2.2.1
      refine ⟨n + 1, Nat.le_refl _, fun _ => rfl, ?_, ?_⟩
      · intro hup
        refine ⟨?_, by omega, hst, hup⟩
        show (i n).dir = false
        rw [Circuit.st_succ] at hup
        generalize (ulpiCore c2 c4).st i n = s at *
        cases hs : s.st <;> simp only [ulpiCore, hs] at hup
        case linkUp => exact absurd hs hst
        case init4 =>
          by_cases hr : (xcvr.out s.x (ulpiX s (i n))).ready = true
          · simp [xcvr, ulpiX] at hr; exact hr.1.1.2
          · rw [if_neg hr] at hup; cases hup
        all_goals first | (split at hup <;> cases hup) | cases hup
      · rw [hrx, hSn] at hstep
        have hz : rxSampledFrom i (n + 1) (n + 1) = [] := by simp [rxSampledFrom, rxSampled]
        rw [hz]
        exact hstep

/-- C73: until the PHY has taken the two configuration writes, the bytes it has taken are a beginning of them, nothing
is taken from the user and nothing is given to the user. Afterwards what the PHY takes is the configuration followed by
exactly the user's packets tagged with the transmit command, and what the user gets is exactly the packets the PHY has
sent since cycle `m`, the one after the cycle in which it took the last configuration byte (up to two cycles ago). -/
theorem C73_link (c2 c4 : Nat) (i : Nat → UlpiIn) (n : Nat) :
    let G := busGiven ((ulpiCore c2 c4).wave i) n
    let A := linkAccepted i ((ulpiCore c2 c4).wave i) n
    (∃ k, k < 4 ∧ G = ulpiInit.take k ∧ A = [] ∧ linkReceived ((ulpiCore c2 c4).wave i) n = []) ∨
    (G = ulpiInit ++ txPackets true A ∧
      ∃ m, m ≤ n ∧ 0 < m ∧ (busGiven ((ulpiCore c2 c4).wave i) (m - 1)).length < 4 ∧
        (busGiven ((ulpiCore c2 c4).wave i) m).length = 4 ∧
        linkReceived ((ulpiCore c2 c4).wave i) (n + 2) = rxPackets (rxSampledFrom i m n)) := by
  intro G A
  obtain ⟨m, hm, h1, h2, h⟩ := linkRel_run c2 c4 i n
  by_cases hst : ((ulpiCore c2 c4).st i n).st = .linkUp
  · right
    obtain ⟨hG, _, I, hsp, hS⟩ := h.up hst
    obtain ⟨_, hm0, hm1, hm2⟩ := h2 hst
    have hlt : (busGiven ((ulpiCore c2 c4).wave i) (m - 1)).length < 4 := by
      obtain ⟨_, _, _, _, h'⟩ := linkRel_run c2 c4 i (m - 1)
      rw [(h'.down hm1).1, List.length_take]
      have : ulpiInitCount ((ulpiCore c2 c4).st i (m - 1)).st < 4 := by
        cases hs : ((ulpiCore c2 c4).st i (m - 1)).st <;> first | decide | exact absurd hs hm1
      omega
    have hge : 4 ≤ (busGiven ((ulpiCore c2 c4).wave i) m).length := by
      obtain ⟨_, _, _, _, h'⟩ := linkRel_run c2 c4 i m
      rw [(h'.up hm2).1, List.length_append]
      exact Nat.le_add_right 4 _
    have hle : (busGiven ((ulpiCore c2 c4).wave i) m).length ≤ (busGiven ((ulpiCore c2 c4).wave i) (m - 1)).length + 1 := by
      obtain ⟨a, rfl⟩ : ∃ a, m = a + 1 := ⟨m - 1, by omega⟩
      simp only [busGiven, Nat.add_sub_cancel]
      rw [transferred_succ, List.length_append]
      split <;> simp
    refine ⟨hG, m, hm, hm0, hlt, by omega, ?_⟩
    have hup : ((ulpiCore c2 c4).st i n).st = .linkUp := hst
    -- the splitter has seen the item reported in cycle `n` one cycle later
    have hs1 := splitRel_step hsp ⟨true && ((ulpiCore c2 c4).st i n).x.sValid, ((ulpiCore c2 c4).st i n).x.sData,
      true && ((ulpiCore c2 c4).st i n).x.sCmd⟩
    have hitem : I ++ splitItem ⟨true && ((ulpiCore c2 c4).st i n).x.sValid, ((ulpiCore c2 c4).st i n).x.sData,
        true && ((ulpiCore c2 c4).st i n).x.sCmd⟩ = rxSampledFrom i m n := by
      rw [hS]; simp [splitItem]
    rw [hitem] at hs1
    have hn : ((ulpiCore c2 c4).st i (n + 1)).sp
        = splitterUlpi.next ((ulpiCore c2 c4).st i n).sp ⟨true && ((ulpiCore c2 c4).st i n).x.sValid,
            ((ulpiCore c2 c4).st i n).x.sData, true && ((ulpiCore c2 c4).st i n).x.sCmd⟩ := by
      rw [Circuit.st_succ]
      generalize (ulpiCore c2 c4).st i n = s at *
      simp only [ulpiCore, hst]; rfl
    rw [← hn] at hs1
    have := hs1.1
    simp only [linkReceived, rxEmitted, transferred, Bool.and_true] at this ⊢
    exact this
  · left
    obtain ⟨hG, hA, hD, _⟩ := h.down hst
    refine ⟨ulpiInitCount ((ulpiCore c2 c4).st i n).st, ?_, hG, hA, hD⟩
    cases hs : ((ulpiCore c2 c4).st i n).st <;> first | decide | exact absurd hs hst

theorem link_timer_zero (c2 c4 : Nat) (i : Nat → UlpiIn) (n : Nat) :
    ((ulpiCore c2 c4).st i n).st ≠ .init2 → ((ulpiCore c2 c4).st i n).timer = 0 := by
  cases n with
  | zero => intro _; rfl
  | succ n =>
    rw [Circuit.st_succ]
    generalize (ulpiCore c2 c4).st i n = s
    intro h
    by_cases hs : s.st = .init2
    · have hb : (UlpiSt.init2 == UlpiSt.init2) = true := rfl
      simp only [ulpiCore, hs, hb] at h ⊢
      cases hd : (ulpiTimer c2 c4).out s.timer (true, false) with
      | false => simp [hd] at h
      | true =>
        have hd' : ulpiTimerDone c2 c4 s.timer true false = true := hd
        simp [ulpiTimer, hd']
    · have : (s.st == UlpiSt.init2) = false := by simpa using hs
      simp only [ulpiCore, ulpiTimer, this, Bool.or_self]; rfl

theorem link_init2 (c2 c4 : Nat) (h2 : c2 < 2 ^ 30) (i : Nat → UlpiIn) (n : Nat)
    (h : ((ulpiCore c2 c4).st i n).st = .init2) (h0 : ((ulpiCore c2 c4).st i n).timer = 0) :
    (∀ d, d ≤ c2 → ((ulpiCore c2 c4).st i (n + d)).st = .init2 ∧ ((ulpiCore c2 c4).st i (n + d)).timer = d) ∧
    ((ulpiCore c2 c4).st i (n + c2 + 1)).st = .init3 := by
  have hrun : ∀ d, d ≤ c2 →
      ((ulpiCore c2 c4).st i (n + d)).st = .init2 ∧ ((ulpiCore c2 c4).st i (n + d)).timer = d := by
    intro d
    induction d with
    | zero => intro _; exact ⟨h, h0⟩
    | succ d ih =>
      intro hd
      obtain ⟨a, b⟩ := ih (by omega)
      rw [← Nat.add_assoc, Circuit.st_succ]
      generalize (ulpiCore c2 c4).st i (n + d) = s at *
      have hf : ulpiTimerDone c2 c4 s.timer true false = false := by
        simp [ulpiTimerDone, b]; omega
      have hm : (d + 1) % 2 ^ 30 = d + 1 := Nat.mod_eq_of_lt (by omega)
      have hb : (UlpiSt.init2 == UlpiSt.init2) = true := rfl
      constructor
      · simp only [ulpiCore, ulpiTimer, a, hb, hf]; rfl
      · simp only [ulpiCore, ulpiTimer, a, hb, hf]
        simp only [b, hm]; rfl
  refine ⟨hrun, ?_⟩
  obtain ⟨a, b⟩ := hrun c2 (Nat.le_refl _)
  rw [Circuit.st_succ]
  generalize (ulpiCore c2 c4).st i (n + c2) = s at *
  have hf : ulpiTimerDone c2 c4 s.timer true false = true := by simp [ulpiTimerDone, b]
  have hb : (UlpiSt.init2 == UlpiSt.init2) = true := rfl
  simp only [ulpiCore, ulpiTimer, a, hb, hf]; rfl

/-- C73: after the first register write (which resets the PHY) nothing is put on the bus for `c2 + 1` cycles, that is
for more than 2 µs of the 60 MHz ULPI clock with `c2 = 120`. -/
theorem C73_reset_gap (c2 c4 : Nat) (h2 : c2 < 2 ^ 30) (i : Nat → UlpiIn) (n : Nat)
    (hlen : (busGiven ((ulpiCore c2 c4).wave i) n).length = 1)
    (hlen' : (busGiven ((ulpiCore c2 c4).wave i) (n + 1)).length = 2) (d : Nat) (hd : d ≤ c2) :
    ((ulpiCore c2 c4).wave i (n + 1 + d)).busValid = false ∧ ((ulpiCore c2 c4).wave i (n + 1 + d)).o = 0 := by
  obtain ⟨m, _, _, _, h⟩ := linkRel_run c2 c4 i n
  have hst : ((ulpiCore c2 c4).st i n).st = .init1 := by
    by_cases hu : ((ulpiCore c2 c4).st i n).st = .linkUp
    · have := (h.up hu).1; rw [this] at hlen; simp [ulpiInit] at hlen
    · have := (h.down hu).1
      rw [this] at hlen
      cases hs : ((ulpiCore c2 c4).st i n).st <;> rw [hs] at hlen <;> simp [ulpiInit, ulpiInitCount] at hlen ⊢
  have h0 := link_timer_zero c2 c4 i n (by rw [hst]; simp)
  have hnext : ((ulpiCore c2 c4).st i (n + 1)).st = .init2 ∧ ((ulpiCore c2 c4).st i (n + 1)).timer = 0 := by
    obtain ⟨m', _, _, _, h'⟩ := linkRel_run c2 c4 i (n + 1)
    have hst' : ((ulpiCore c2 c4).st i (n + 1)).st = .init1 ∨ ((ulpiCore c2 c4).st i (n + 1)).st = .init2 := by
      rw [Circuit.st_succ]
      generalize (ulpiCore c2 c4).st i n = s at *
      simp only [ulpiCore, hst]
      split <;> simp
    have ht : ((ulpiCore c2 c4).st i (n + 1)).timer = 0 := by
      rw [Circuit.st_succ]
      generalize (ulpiCore c2 c4).st i n = s at *
      have hb : (UlpiSt.init1 == UlpiSt.init2) = false := rfl
      simp [ulpiCore, ulpiTimer, hst, hb]
    rcases hst' with hs | hs
    · have := (h'.down (by rw [hs]; simp)).1
      rw [this, hs] at hlen'
      simp [ulpiInit, ulpiInitCount] at hlen'
    · exact ⟨hs, ht⟩
  obtain ⟨hs, _⟩ := (link_init2 c2 c4 h2 i (n + 1) hnext.1 hnext.2).1 d hd
  simp only [Circuit.wave]
  generalize (ulpiCore c2 c4).st i (n + 1 + d) = s at *
  simp [ulpiCore, ulpiX, ulpiBus, hs, xcvr]

/-- C73: the link comes up: if the power-on reset ends and the PHY keeps taking bytes, both writes are made. -/
theorem C73_comes_up (c2 c4 : Nat) (h2 : c2 < 2 ^ 30) (i : Nat → UlpiIn)
    (hpor : ∃ k, (i k).porDone = true)
    (htake : ∀ n, ∃ k, n < k ∧ (i k).nxt = true ∧ (i k).dir = false ∧ (i (k - 1)).dir = false) :
    ∃ n, ulpiInit <+: busGiven ((ulpiCore c2 c4).wave i) n := by
  let s := fun n => (ulpiCore c2 c4).st i n
  have hs : ∀ n, s (n + 1) = (ulpiCore c2 c4).next (s n) (i n) := fun n => rfl
  have hdir : ∀ n, (s (n + 1)).x.dirR = (i n).dir := fun n => rfl
  have hstp : ∀ n, (s n).x.stp = true → (s n).st = .init2 ∨ (s n).st = .linkUp := by
    intro n; obtain ⟨_, _, _, _, h⟩ := linkRel_run c2 c4 i n; exact h.stp
  -- a state that waits for the PHY to take a byte
  have send : ∀ (a b : UlpiSt), a ≠ .init2 → a ≠ .linkUp →
      (∀ t x, t.st = a → ((ulpiCore c2 c4).next t x).st = (if (xcvr.out t.x (ulpiX t x)).ready then b else a)) →
      ∀ n, (s n).st = a → ∃ j, (s j).st = b := by
    intro a b ha2 hal hnext n hn
    have hrdy : ∀ m, (s m).st = a → (xcvr.out (s m).x (ulpiX (s m) (i m))).ready =
        (!(s m).x.dirR && !(i m).dir && (i m).nxt) := by
      intro m hm
      have : (s m).x.stp = false := by
        cases h : (s m).x.stp with
        | false => rfl
        | true => rcases hstp m h with h | h <;> rw [hm] at h <;> contradiction
      simp [xcvr, ulpiX, this]
    obtain ⟨k, hk, g1, g2, g3⟩ := htake n
    obtain ⟨j, _, p, he⟩ := eventually_leave (fun m => (s m).st = a)
      (fun m => (!(s m).x.dirR && !(i m).dir && (i m).nxt) = true)
      (by
        intro m hm hne
        rw [hs, hnext _ _ hm, hrdy m hm, if_neg hne]) (k - n) n hn
      (by
        rw [show n + (k - n) = k by omega]
        have := hdir (k - 1)
        rw [show k - 1 + 1 = k by omega] at this
        simp [this, g1, g2, g3])
    exact ⟨j + 1, by rw [hs, hnext _ _ p, hrdy j p, if_pos he]⟩
  have e0 : ∃ n, (s n).st = .init0 := by
    obtain ⟨k, hk⟩ := hpor
    obtain ⟨j, _, p, he⟩ := eventually_leave (fun m => (s m).st = .reset) (fun m => (i m).porDone = true)
      (by
        intro m hm hne
        rw [hs]
        simp only [ulpiCore, hm, if_neg hne]) k 0 rfl (by rw [Nat.zero_add]; exact hk)
    exact ⟨j + 1, by rw [hs]; simp only [ulpiCore, p, if_pos he]⟩
  obtain ⟨n0, e0⟩ := e0
  obtain ⟨n1, e1⟩ := send .init0 .init1 (by simp) (by simp) (by intro t x ht; simp only [ulpiCore, ht]) n0 e0
  obtain ⟨n2, e2⟩ := send .init1 .init2 (by simp) (by simp) (by intro t x ht; simp only [ulpiCore, ht]) n1 e1
  -- the first cycle of the pause
  have e2' : ∃ m, (s m).st = .init2 ∧ (s m).timer = 0 := by
    have : ∀ n, (s n).st = .init2 → ∃ m, (s m).st = .init2 ∧ (s m).timer = 0 := by
      intro n
      induction n with
      | zero => intro h; cases h
      | succ n ih =>
        intro h
        by_cases hp : (s n).st = .init2
        · exact ih hp
        · have h0 := link_timer_zero c2 c4 i n hp
          refine ⟨n + 1, h, ?_⟩
          rw [hs]
          have hb : ((s n).st == UlpiSt.init2) = false := by simpa using hp
          simp only [ulpiCore, ulpiTimer, hb, Bool.or_self]; rfl
    exact this n2 e2
  obtain ⟨m, e2, e2t⟩ := e2'
  have e3 := (link_init2 c2 c4 h2 i m e2 e2t).2
  obtain ⟨n4, e4⟩ := send .init3 .init4 (by simp) (by simp) (by intro t x ht; simp only [ulpiCore, ht]) _ e3
  obtain ⟨n5, e5⟩ := send .init4 .linkUp (by simp) (by simp) (by intro t x ht; simp only [ulpiCore, ht]) n4 e4
  obtain ⟨_, _, _, _, h⟩ := linkRel_run c2 c4 i n5
  exact ⟨n5, _, ((h.up e5).1).symm⟩

/-- A PHY that takes a byte every other cycle; the user sends a two-byte packet, the PHY answers with one byte. -/
def linkDemo (n : Nat) : UlpiIn :=
  ⟨decide (40 ≤ n ∧ n ≤ 44), n % 2 == 1, [0, 0x5a, 0x5a, 0x01].getD (n - 40) 0, true, false, decide (20 ≤ n ∧ n < 24),
    ⟨false, decide (22 ≤ n), if n < 22 then 0xc3 else 0x11⟩⟩

example : busGiven ((ulpiCore 3 5).wave linkDemo) 60
    = [(0x84, false), (0x60, true), (0x8a, false), (0, true), (0x43, false), (0x11, true)] := by decide +kernel

example : linkReceived ((ulpiCore 3 5).wave linkDemo) 60 = [(0x5a, false), (1, true)] := by decide +kernel

end Lambdalib
