import Verif.Model.I2cShared
import Verif.Spec.Tca9548a
import Verif.Props.ArbiterPackets
import Verif.Props.I2cSystem
import Verif.Props.I2cRegStream

/-! Several users of one I2C bus (C105), among them the driver of a TCA9548A. -/

namespace Lambdalib

section
variable (n t period : Nat) (stretch : Bool) (i : Nat → I2cShareIn)

/-- What the arbiter sees. -/
def shareArb (k : Nat) : ArbIn (Bool × BitVec 8) :=
  i2cShareArbIn n period stretch ((i2cShare n t period stretch).st i k) (i k)

/-- What `I2CStream` sees. -/
def shareStr (k : Nat) : I2cStrIn := i2cShareStrIn n ((i2cShare n t period stretch).st i k) (i k)

/-- The beats executed on the bus, each with its user. -/
def shareTagged (k : Nat) : List (Nat × Beat (Bool × BitVec 8)) := arbTagged n t (shareArb n t period stretch i) k

theorem share_st (k : Nat) : (i2cShare n t period stretch).st i k =
    ((arbiter n t).st (shareArb n t period stretch i) k, (i2cStream period stretch).st (shareStr n t period stretch i) k) := by
  induction k with
  | zero => rfl
  | succ k ih => 
    have h1 : ((i2cShare n t period stretch).st i k).1 = (arbiter n t).st (shareArb n t period stretch i) k := congrArg Prod.fst ih
    have h2 : ((i2cShare n t period stretch).st i k).2 = (i2cStream period stretch).st (shareStr n t period stretch i) k :=
      congrArg Prod.snd ih
    rw [Circuit.st_succ, Circuit.st_succ, Circuit.st_succ, ← h1, ← h2]
    rfl

theorem share_wave (k : Nat) :
    ((i2cStream period stretch).wave (shareStr n t period stretch i) k).ready = (shareArb n t period stretch i k).ready ∧
    (shareStr n t period stretch i k).valid = ((arbiter n t).wave (shareArb n t period stretch i) k).valid ∧
    (shareStr n t period stretch i k).beat = ((arbiter n t).wave (shareArb n t period stretch i) k).beat := by
  have h := share_st n t period stretch i k
  have h1 := congrArg Prod.fst h
  have h2 := congrArg Prod.snd h
  simp only at h1 h2
  simp only [Circuit.wave]
  rw [← h1, ← h2]
  exact ⟨rfl, rfl, rfl⟩

/-- The beats taken by `I2CStream` are those of the users. -/
theorem share_beats (k : Nat) : (i2cStrBeats period stretch (shareStr n t period stretch i) k).map Prod.fst =
    (shareTagged n t period stretch i k).map Prod.snd := by
  induction k with
  | zero => rfl
  | succ k ih =>
    obtain ⟨h1, h2, h3⟩ := share_wave n t period stretch i k
    have e1 : i2cStrBeats period stretch (shareStr n t period stretch i) (k + 1) =
      i2cStrBeats period stretch (shareStr n t period stretch i) k ++
      (if (shareStr n t period stretch i k).valid && ((i2cStream period stretch).wave (shareStr n t period stretch i) k).ready then
        [((shareStr n t period stretch i k).beat, ((i2cStream period stretch).wave (shareStr n t period stretch i) k).error)] else []) := rfl
    have e2 : shareTagged n t period stretch i (k + 1) = shareTagged n t period stretch i k ++
      (if ((arbiter n t).wave (shareArb n t period stretch i) k).valid && (shareArb n t period stretch i k).ready then
        [(arbSelected n t (shareArb n t period stretch i) k, ((arbiter n t).wave (shareArb n t period stretch i) k).beat)] else []) := rfl
    rw [e1, e2, List.map_append, List.map_append, ih, h1, h2, h3]
    split <;> rfl

/-- The users obey the stream rule and do not pause for `t` cycles within a packet. -/
structure ShareUsers : Prop where
  two : 2 ≤ n
  stable : ArbSinksStable n t (shareArb n t period stretch i)
  nopause : ArbNoPause n t (shareArb n t period stretch i)

variable {n t period stretch i} (hu : ShareUsers n t period stretch i)

include hu in
theorem share_str_stable : i2cStrSinkStable period stretch (shareStr n t period stretch i) := by
  intro k hv hr
  obtain ⟨h1, h2, h3⟩ := share_wave n t period stretch i k
  obtain ⟨_, h2', h3'⟩ := share_wave n t period stretch i (k + 1)
  simp only at hv hr ⊢
  rw [h2', h3', h3]
  rw [h2] at hv
  rw [h1] at hr
  exact C105_source_stable hu.two hu.nopause hu.stable k hv hr

/-! ### Packets on the bus -/

/-- After a whole packet no transaction is open. -/
theorem I2cDev.beats_whole (D : I2cDev) (l p : List (Beat (Bool × BitVec 8))) (h : WholePacket p) :
    (D.beats (l ++ p)).2 = false := by
  obtain ⟨a, b, rfl, hb, _⟩ := h
  rw [← List.append_assoc, D.beats_snoc, I2cDev.beat]
  simp [hb]

include hu in
/-- **C105.** The bus executes whole packets, each of one user, one after the other, and possibly the beginning of one more; each of
them begins when no transaction is open. -/
theorem C105_packets (D : I2cDev) (k : Nat) : ∃ ps u part, Packets (shareTagged n t period stretch i k) ps u part ∧
    (∀ p ∈ ps, p.1 < n) ∧ (part ≠ [] → u < n) ∧
    (i2cStrBeats period stretch (shareStr n t period stretch i) k).map Prod.fst = ps.flatMap Prod.snd ++ part ∧
    ∀ qs rs, ps = qs ++ rs → (D.beats (qs.flatMap Prod.snd)).2 = false := by
  obtain ⟨ps, u, part, h1, h2, _, h3, _⟩ := arb_packets hu.two hu.nopause k
  refine ⟨ps, u, part, h1, h2, fun h => (h3 h).2, ?_, ?_⟩
  · rw [share_beats]
    have := h1.eq
    unfold shareTagged
    rw [this, List.map_append, List.map_flatMap]
    simp [Function.comp_def]
  · intro qs rs e
    rcases eq_snoc qs with rfl | ⟨qs, q, rfl⟩
    · rfl
    · rw [List.flatMap_append]
      have := h1.whole q (by rw [e]; simp)
      simpa using D.beats_whole (qs.flatMap Prod.snd) q.2 this

variable {D : I2cDev} {bidir : Bool} {hold : Nat → Bool}
variable (hp : 4 ≤ period)
  (hw : I2cWired D.target bidir period stretch (i2cStrCi period stretch (shareStr n t period stretch i)) hold)
  (hfit : ∀ k, D.Fits ((shareTagged n t period stretch i k).map Prod.snd))

include hfit in
theorem share_fits (k : Nat) : D.Fits ((i2cStrBeats period stretch (shareStr n t period stretch i) k).map Prod.fst) := by
  rw [share_beats]
  exact hfit k

include hu hp hw hfit in
/-- **C105.** When nothing is offered and the bus driver waits, the devices have been through exactly the packets. -/
theorem C105_history (k : Nat) (hv : ∀ u < n, (i k).valid u = false)
    (hf : ((i2cStream period stretch).st (shareStr n t period stretch i) k).fsm = .idle ∨
      ((i2cStream period stretch).st (shareStr n t period stretch i) k).fsm = .xfer) :
    (i2cBusOf D.target bidir period stretch (i2cStrCi period stretch (shareStr n t period stretch i)) hold (k + 1)).tgt.2 =
      (D.beats ((shareTagged n t period stretch i k).map Prod.snd)).1.log := by
  have hv' : (shareStr n t period stretch i k).valid = false := by
    rw [(share_wave n t period stretch i k).2.1]
    obtain ⟨h1, h2, _⟩ := C15_arbiter_routes n t hu.two (shareArb n t period stretch i) k
    rw [h2]
    exact hv _ h1
  rw [(sys_history hp hw (share_str_stable hu) (share_fits hfit) k hv' hf).1, share_beats]

include hu hp hw in
/-- Offered beats are executed. -/
theorem share_progress (hrel : ∀ k, ∃ m, k ≤ m ∧ hold m = false) (hrdy : ∀ k, ∃ m, k ≤ m ∧ (i m).ready = true) (k : Nat)
    (hv : ((arbiter n t).wave (shareArb n t period stretch i) k).valid = true) :
    ∃ m, k ≤ m ∧ arbXfer n t (shareArb n t period stretch i) m = true := by
  have hfollow := wired_follows hp hw hrel
  have hinf : ∀ n', ∃ m, n' ≤ m ∧ (stretch = true → (shareStr n t period stretch i m).sclI =
      ((i2cStream period stretch).wave (shareStr n t period stretch i) m).sclO) := by
    intro n'
    obtain ⟨m, h1, h2⟩ := hfollow n'
    refine ⟨m, h1, fun h => ?_⟩
    have := h2 h
    change _ = ((i2cInitiator period stretch).st (i2cStrCi period stretch (shareStr n t period stretch i)) m).sclO at this
    rw [← i2cStr_core] at this
    exact this
  have hst := share_str_stable hu
  obtain ⟨m, h1, h2⟩ := C34_stream_progress period stretch (shareStr n t period stretch i) hp hst hinf hrdy k
    (by rw [(share_wave n t period stretch i k).2.1]; exact hv)
  obtain ⟨j, j1, j2, j3⟩ := eventually_leave
    (fun m => ((arbiter n t).wave (shareArb n t period stretch i) m).valid = true)
    (fun m => (shareArb n t period stretch i m).ready = true)
    (fun m a b => (C105_source_stable hu.two hu.nopause hu.stable m a (by simpa using b)).1) (m - k) k hv
    (by
      rw [show k + (m - k) = m by omega, ← (share_wave n t period stretch i m).1]
      exact h2)
  exact ⟨j, j1, by rw [arbXfer, j2, j3]; rfl⟩

include hu hp hw in
/-- **C105.** Every user is served: a beat that is offered is executed, when the packets have a bounded length and the bytes read
are taken. -/
theorem C105_bus_served (hrel : ∀ k, ∃ m, k ≤ m ∧ hold m = false) (hrdy : ∀ k, ∃ m, k ≤ m ∧ (i m).ready = true)
    (L : Nat) (hL : ArbBounded n t (shareArb n t period stretch i) L) (u : Nat) (hun : u < n) (k : Nat) (hv : (i k).valid u = true) :
    ∃ m, k ≤ m ∧ (i m).valid u = true ∧ ((i2cShare n t period stretch).wave i m).ready u = true := by
  obtain ⟨m, h1, h2⟩ := C105_served hu.two hu.nopause hu.stable L hL (share_progress hu hp hw hrel hrdy) u hun k hv
  rw [arbSinkXfer, Bool.and_eq_true] at h2
  refine ⟨m, h1, h2.1, ?_⟩
  have e := congrArg Prod.fst (share_st n t period stretch i m)
  simp only at e
  have h3 := h2.2
  simp only [Circuit.wave] at h3 ⊢
  rw [← e] at h3
  exact h3

/-! ### The multiplexer -/

variable (n t period stretch i) in
/-- What the driver of the multiplexer on sink `m` sees. -/
def shareTca (m : Nat) (ctrl : Nat → BitVec 8) (k : Nat) : TcaIn := ⟨ctrl k, ((i2cShare n t period stretch).wave i k).ready m⟩

/-- Sink `m` is driven by a `TCA9548A`. -/
structure ShareMux (n t period : Nat) (stretch : Bool) (i : Nat → I2cShareIn) (m addr : Nat) (ctrl : Nat → BitVec 8) : Prop where
  lt : m < n
  valid : ∀ k, (i k).valid m = ((tca9548a addr).wave (shareTca n t period stretch i m ctrl) k).valid
  beat : ∀ k, (i k).beat m = ((tca9548a addr).wave (shareTca n t period stretch i m ctrl) k).beat

/-- No other user begins a transaction with the address of the multiplexer. -/
def ShareOthers (D : I2cDev) (n t period : Nat) (stretch : Bool) (i : Nat → I2cShareIn) (m : Nat) (a : BitVec 8) : Prop :=
  ∀ k p u b q, shareTagged n t period stretch i k = p ++ (u, b) :: q → u ≠ m → (D.beats (p.map Prod.snd)).2 = false →
    b.payload ≠ (false, a)

theorem muxAfter_snoc (a r0 : BitVec 8) (log : List DevEv) (e : DevEv) :
    muxAfter a r0 (log ++ [e]) = muxStep a (muxAfter a r0 log) e := by
  simp [muxAfter]

/-- The address byte of the chip. -/
def muxByte (addr : Nat) : BitVec 8 := BitVec.ofNat 8 (2 * addr)

theorem muxByte_ne (addr : Nat) : muxByte addr ≠ 0xFF := by
  intro h
  have := congrArg BitVec.toNat h
  simp [muxByte] at this
  omega

/-- The chip does not care for the transactions of others. -/
theorem mux_other (D : I2cDev) (a r0 v : BitVec 8) (ha : a ≠ 0xFF) (l : List (Beat (Bool × BitVec 8))) (b : Beat (Bool × BitVec 8))
    (h1 : (muxAfter a r0 (D.beats l).1.log).reg = v) (h2 : (muxAfter a r0 (D.beats l).1.log).channels = v)
    (h3 : (D.beats l).2 = true → (muxAfter a r0 (D.beats l).1.log).ph = .off)
    (hb : (D.beats l).2 = false → b.payload ≠ (false, a)) :
    (muxAfter a r0 (D.beats (l ++ [b])).1.log).reg = v ∧ (muxAfter a r0 (D.beats (l ++ [b])).1.log).channels = v ∧
    ((D.beats (l ++ [b])).2 = true → (muxAfter a r0 (D.beats (l ++ [b])).1.log).ph = .off) := by
  rw [D.beats_snoc]
  generalize D.beats l = r at *
  -- after the byte
  have key : (muxAfter a r0 (D.cmd (D.opened r) (i2cBeatCmd b)).log).reg = v ∧
      (muxAfter a r0 (D.cmd (D.opened r) (i2cBeatCmd b)).log).channels = v ∧
      (muxAfter a r0 (D.cmd (D.opened r) (i2cBeatCmd b)).log).ph = .off := by
    obtain ⟨⟨log, mode⟩, op⟩ := r
    obtain ⟨first, last, rwn, data⟩ := b
    generalize hc : muxAfter a r0 log = c at *
    obtain ⟨ph, reg, channels⟩ := c
    cases op
    · simp only [I2cDev.opened, Bool.false_eq_true, if_false]
      simp only at h1 h2 hb
      subst h1 h2
      cases rwn
      · have hd : data ≠ a := fun h => hb trivial (by rw [h])
        simp only [i2cBeatCmd, I2cDev.cmd, Bool.false_eq_true, if_false, I2cDev.byte, muxAfter_snoc, hc, muxStep]
        simp [hd]
      · simp only [i2cBeatCmd, I2cDev.cmd, if_true, I2cDev.byte, muxAfter_snoc, hc, muxStep]
        simp [show ¬ (255#8 = a) from Ne.symm ha]
    · have := h3 rfl
      simp only at this h1 h2
      subst this h1 h2
      simp only [I2cDev.opened, if_true]
      cases rwn <;> cases mode <;>
        simp [i2cBeatCmd, I2cDev.cmd, I2cDev.byte, muxAfter_snoc, hc, muxStep]
  obtain ⟨k1, k2, k3⟩ := key
  simp only [I2cDev.beat]
  split
  · generalize D.cmd (D.opened r) (i2cBeatCmd b) = A at *
    simp only [I2cDev.cmd, muxAfter_snoc, muxStep]
    simp [k1]
  · exact ⟨k1, k2, fun _ => k3⟩

/-- State of bus, chip and driver. -/
def muxInv (D : I2cDev) (m addr : Nat) (r0 : BitVec 8) (l : List (Nat × Beat (Bool × BitVec 8))) (s : TcaS) : Prop :=
  ∃ v, (muxAfter (muxByte addr) r0 (D.beats (l.map Prod.snd)).1.log).reg = v ∧
    (muxAfter (muxByte addr) r0 (D.beats (l.map Prod.snd)).1.log).channels = v ∧
    (s.init = false → s.mux = false ∧ s.addrN = false) ∧
    (s.mux = false → s.addrN = false ∧ (s.init = true → v = s.ctrlR)) ∧
    (s.addrN = false → (D.beats (l.map Prod.snd)).2 = true →
      (muxAfter (muxByte addr) r0 (D.beats (l.map Prod.snd)).1.log).ph = .off) ∧
    (s.addrN = false → ∀ p b, l = p ++ [(m, b)] → b.last = true) ∧
    (s.addrN = true → (∃ p b, l = p ++ [(m, b)] ∧ b.last = false) ∧ (D.beats (l.map Prod.snd)).2 = true ∧
      (∃ L, (D.beats (l.map Prod.snd)).1 = ⟨L ++ [.start, .wrote (muxByte addr) true], .recv⟩) ∧
      (muxAfter (muxByte addr) r0 (D.beats (l.map Prod.snd)).1.log).ph = .ctrl)

include hu in
/-- The user of the next beat of a packet is that of the packet. -/
theorem share_atomic (k : Nat) (p : List (Nat × Beat (Bool × BitVec 8))) (u : Nat) (b : Beat (Bool × BitVec 8))
    (h : shareTagged n t period stretch i k = p ++ [(u, b)]) (hb : b.last = false) :
    arbSelected n t (shareArb n t period stretch i) k = u := by
  obtain ⟨ps, w, part, h1, _, _, h3, _⟩ := arb_packets hu.two hu.nopause k
  have e := h1.eq
  have e' : p ++ [(u, b)] = _ := h.symm.trans e
  rcases eq_snoc part with rfl | ⟨part, x, rfl⟩
  · exfalso
    rw [List.map_nil, List.append_nil] at e'
    rcases eq_snoc ps with rfl | ⟨ps, q, rfl⟩
    · simp at e'
    · obtain ⟨a, c, e2, hc, _⟩ := h1.whole q (by simp)
      rw [List.flatMap_append, List.flatMap_singleton, e2, List.map_append, List.map_singleton, ← List.append_assoc] at e'
      obtain ⟨_, e3⟩ := snoc_inj e'
      injection e3 with _ e3
      rw [e3, hc] at hb
      cases hb
  · rw [List.map_append, List.map_singleton, ← List.append_assoc] at e'
    obtain ⟨_, e3⟩ := snoc_inj e'
    injection e3 with e3 _
    rw [e3]
    exact (h3 (by simp)).1

include hu in
theorem mux_inv {m addr : Nat} {ctrl : Nat → BitVec 8} (hm : ShareMux n t period stretch i m addr ctrl)
    (hD : MuxOnBus D (muxByte addr)) (ho : ShareOthers D n t period stretch i m (muxByte addr)) (r0 : BitVec 8) (k : Nat) :
    muxInv D m addr r0 (shareTagged n t period stretch i k)
      ((tca9548a addr).st (shareTca n t period stretch i m ctrl) k) := by
  induction k with
  | zero => exact ⟨r0, rfl, rfl, by simp [tca9548a], by simp [tca9548a], by simp [shareTagged, arbTagged, transferred, I2cDev.beats],
      by simp [shareTagged, arbTagged, transferred],
      by simp [tca9548a]⟩
  | succ k ih =>
    have e2 : shareTagged n t period stretch i (k + 1) = shareTagged n t period stretch i k ++
      (if ((arbiter n t).wave (shareArb n t period stretch i) k).valid && (shareArb n t period stretch i k).ready then
        [(arbSelected n t (shareArb n t period stretch i) k, ((arbiter n t).wave (shareArb n t period stretch i) k).beat)] else []) := rfl
    have hat := share_atomic hu k
    have hoth := ho (k + 1) (shareTagged n t period stretch i k)
    obtain ⟨h1, h2, h3, h4⟩ := C15_arbiter_routes n t hu.two (shareArb n t period stretch i) k
    have hrd : ((i2cShare n t period stretch).wave i k).ready m = (decide (m = arbSelected n t (shareArb n t period stretch i) k) &&
        (shareArb n t period stretch i k).ready) := by
      rw [← h4]
      have e := congrArg Prod.fst (share_st n t period stretch i k)
      simp only at e
      simp only [Circuit.wave]
      rw [← e]
      rfl
    have hv := hm.valid k
    have hb := hm.beat k
    have hva : ∀ u, (shareArb n t period stretch i k).valid u = (i k).valid u := fun _ => rfl
    have hba : ∀ u, (shareArb n t period stretch i k).beat u = (i k).beat u := fun _ => rfl
    rw [hva] at h2
    rw [hba] at h3
    rw [e2] at hoth ⊢
    rw [Circuit.st_succ]
    have htr : (shareTca n t period stretch i m ctrl k).ready = ((i2cShare n t period stretch).wave i k).ready m := rfl
    simp only [Circuit.wave] at hv hb
    rw [h2, h3] at hoth ⊢
    clear e2 h2 h3 h4 ho
    generalize shareTagged n t period stretch i k = l at *
    generalize (tca9548a addr).st (shareTca n t period stretch i m ctrl) k = s at *
    generalize shareTca n t period stretch i m ctrl k = x at *
    generalize arbSelected n t (shareArb n t period stretch i) k = g at *
    generalize (shareArb n t period stretch i k).ready = rdy at *
    generalize ((i2cShare n t period stretch).wave i k).ready m = rm at *
    obtain ⟨v, i1, i2, i3, i4, i5, i7, i6⟩ := ih
    obtain ⟨mux, init, ctrlR, addrN⟩ := s
    obtain ⟨xc, xr⟩ := x
    simp only at htr
    subst htr
    simp only at i3 i4 i5 i6
    cases hx : ((i k).valid g && rdy)
    · -- nothing executed
      rw [hx] at hoth
      simp only [Bool.false_eq_true, if_false, List.append_nil]
      refine ⟨v, i1, i2, ?_⟩
      clear hoth hat
      cases hmux : mux
      · subst hmux
        obtain ⟨rfl, i4'⟩ := i4 rfl
        cases init
        · simp [tca9548a]
          exact ⟨i5 rfl, fun p b => i7 rfl p b⟩
        · have : v = ctrlR := i4' rfl
          subst this
          by_cases hc : xc = v
          · simp [tca9548a, hc]
            exact ⟨i5 rfl, fun p b => i7 rfl p b⟩
          · simp [tca9548a, hc]
            exact ⟨i5 rfl, fun p b => i7 rfl p b⟩
      · subst hmux
        have hr0 : xr = false := by
          rw [hrd]
          by_cases hg : m = g
          · subst hg
            rw [hv] at hx
            simpa [tca9548a] using hx
          · simp [hg]
        subst hr0
        have hin : init = true := by
          cases init
          · have := (i3 rfl).1; cases this
          · rfl
        subst hin
        simp [tca9548a]
        exact ⟨i5, i7, i6⟩
    · rw [hx] at hoth
      simp only [if_true] at hoth ⊢
      rw [Bool.and_eq_true] at hx
      by_cases hg : g = m
      · -- the driver of the multiplexer
        subst hg
        have hmux : mux = true := by
          have := hx.1
          rw [hv] at this
          simpa [tca9548a] using this
        subst hmux
        have hin : init = true := by
          cases init
          · have := (i3 rfl).1; cases this
          · rfl
        subst hin
        have hr1 : xr = true := by rw [hrd, hx.2]; simp
        subst hr1
        rw [hb]
        cases addrN
        · -- address
          clear hoth i6
          have hopen : (D.beats (l.map Prod.snd)).2 = false := by
            rcases eq_snoc l with rfl | ⟨p, ⟨w, b⟩, rfl⟩
            · rfl
            · have hbl : b.last = true := by
                cases hbl : b.last
                · have := hat p w b rfl hbl
                  subst this
                  rw [i7 rfl p b rfl] at hbl
                  cases hbl
                · rfl
              rw [List.map_append, List.map_singleton, D.beats_snoc, I2cDev.beat]
              simp [hbl]
          have hbt : ((tca9548a addr).out ⟨true, true, ctrlR, false⟩ ⟨xc, true⟩).beat = ⟨false, false, (false, muxByte addr)⟩ := by
            simp [tca9548a, muxByte, i2cAddrByte, Nat.mul_comm]
          rw [hbt]
          have hev : D.beats (l.map Prod.snd ++ [⟨false, false, (false, muxByte addr)⟩]) =
              (⟨(D.beats (l.map Prod.snd)).1.log ++ [.start, .wrote (muxByte addr) true], .recv⟩, true) := by
            rw [D.beats_snoc]
            generalize D.beats (l.map Prod.snd) = r at *
            have e1 := hD.ackAddr r.1.log
            have e2 := hD.tx r.1.log
            simp [I2cDev.beat, I2cDev.nak, I2cDev.opened, hopen, I2cDev.acks, I2cDev.cmd, i2cBeatCmd, I2cDev.byte, I2cDev.after, e1, e2]
          refine ⟨v, ?_⟩
          rw [List.map_append, List.map_singleton, hev]
          generalize (D.beats (l.map Prod.snd)).1.log = L at *
          have hsn : L ++ [DevEv.start, .wrote (muxByte addr) true] = L ++ [.start] ++ [.wrote (muxByte addr) true] := by simp
          rw [hsn, muxAfter_snoc, muxAfter_snoc]
          generalize muxAfter (muxByte addr) r0 L = c at *
          simp [tca9548a, muxStep, i1, i2]
        · -- control byte
          obtain ⟨_, i61, ⟨L, i62⟩, i63⟩ := i6 rfl
          have hbt : ((tca9548a addr).out ⟨true, true, ctrlR, true⟩ ⟨xc, true⟩).beat = ⟨false, true, (false, ctrlR)⟩ := by
            simp [tca9548a]
          rw [hbt]
          have hlog : (D.beats (l.map Prod.snd)).1.log = L ++ [.start, .wrote (muxByte addr) true] := by rw [i62]
          have hev : D.beats (l.map Prod.snd ++ [⟨false, true, (false, ctrlR)⟩]) =
              (⟨(D.beats (l.map Prod.snd)).1.log ++ [.wrote ctrlR true] ++ [.stop], .rest⟩, false) := by
            rw [D.beats_snoc, hlog]
            generalize D.beats (l.map Prod.snd) = r at *
            have e1 := hD.ackCtrl L ctrlR
            obtain ⟨r, op⟩ := r
            simp only at i61 i62
            subst i61 i62
            simp [I2cDev.beat, I2cDev.nak, I2cDev.opened, I2cDev.acks, I2cDev.cmd, i2cBeatCmd, I2cDev.byte, e1]
          refine ⟨ctrlR, ?_⟩
          rw [List.map_append, List.map_singleton, hev]
          generalize (D.beats (l.map Prod.snd)).1.log = L at *
          rw [muxAfter_snoc, muxAfter_snoc]
          generalize muxAfter (muxByte addr) r0 L = c at *
          simp [tca9548a, muxStep, i63]
      · -- another user
        have hnot : addrN = false := by
          cases addrN
          · rfl
          · obtain ⟨⟨p, b, e, hbl⟩, _⟩ := i6 rfl
            exact absurd (hat p m b e hbl) hg
        subst hnot
        obtain ⟨j1, j2, j3⟩ := mux_other D (muxByte addr) r0 v (muxByte_ne addr) (l.map Prod.snd) ((i k).beat g) i1 i2 (i5 rfl)
          (hoth g _ [] rfl hg)
        have hr0 : xr = false := by rw [hrd]; simp [Ne.symm hg]
        subst hr0
        refine ⟨v, by simpa using j1, by simpa using j2, ?_⟩
        rw [List.map_append, List.map_singleton]
        cases mux
        · obtain ⟨-, i4⟩ := i4 rfl
          cases init
          · simp [tca9548a]
            exact ⟨j3, fun e => absurd e hg⟩
          · have := i4 rfl
            subst this
            by_cases hc : xc = v
            · simp [tca9548a, hc]
              exact ⟨j3, fun e => absurd e hg⟩
            · simp [tca9548a, hc]
              exact ⟨j3, fun e => absurd e hg⟩
        · have hin : init = true := by
            cases init
            · have := (i3 rfl).1; cases this
            · rfl
          subst hin
          simp [tca9548a]
          exact ⟨j3, fun e => absurd e hg⟩

include hu in
/-- **C105.** When `done` of the driver of the multiplexer is high, the packets executed so far have connected the channels that
`ctrl` says, whatever the chip had before and whatever the other users do. -/
theorem C105_mux {m addr : Nat} {ctrl : Nat → BitVec 8} (hm : ShareMux n t period stretch i m addr ctrl)
    (hD : MuxOnBus D (muxByte addr)) (ho : ShareOthers D n t period stretch i m (muxByte addr)) (r0 : BitVec 8) (k : Nat)
    (hd : ((tca9548a addr).wave (shareTca n t period stretch i m ctrl) k).done = true) :
    muxChannels (muxByte addr) r0 (D.beats ((shareTagged n t period stretch i k).map Prod.snd)).1.log = ctrl k := by
  obtain ⟨v, _, h2, _, h4, _⟩ := mux_inv hu hm hD ho r0 k
  simp only [Circuit.wave] at hd
  have hx : (shareTca n t period stretch i m ctrl k).ctrl = ctrl k := rfl
  generalize (tca9548a addr).st (shareTca n t period stretch i m ctrl) k = s at *
  simp only [tca9548a, Bool.and_eq_true, Bool.not_eq_true', beq_iff_eq] at hd
  rw [muxChannels, h2, (h4 hd.1.1).2 hd.1.2, ← hd.2, hx]

include hu hp hw hfit in
/-- **C105.** On the wires: when `done` is high and a start condition or a byte of any user begins, the chip has connected the
channels that `ctrl` says. -/
theorem C105_mux_wires {m addr : Nat} {ctrl : Nat → BitVec 8} (hm : ShareMux n t period stretch i m addr ctrl)
    (hD : MuxOnBus D (muxByte addr)) (ho : ShareOthers D n t period stretch i m (muxByte addr)) (r0 : BitVec 8) (k : Nat)
    (hd : ((tca9548a addr).wave (shareTca n t period stretch i m ctrl) k).done = true) (c : I2cCmd) (hc : c ≠ .stop)
    (ha : i2cAccepts period stretch (i2cStrCi period stretch (shareStr n t period stretch i)) k c) :
    muxChannels (muxByte addr) r0
      (i2cBusOf D.target bidir period stretch (i2cStrCi period stretch (shareStr n t period stretch i)) hold (k + 1)).tgt.2 =
      ctrl k := by
  have hst := share_str_stable hu
  obtain ⟨hB, hs⟩ := sys_run hp hw hst (share_fits hfit) k
  obtain ⟨t1, t2⟩ := D.txn_eq _ hB
  obtain ⟨hb, hrel⟩ := str_rel period stretch _ hst k
  have hmx := C105_mux hu hm hD ho r0 k hd
  rw [← share_beats, ← t1] at hmx
  rw [C91_device_history hp hw k hs ha.1]
  have hstr := ha.2
  unfold i2cStrCi at hstr
  generalize i2cCmdLog period stretch (i2cStrCi period stretch (shareStr n t period stretch i)) k = L at *
  generalize i2cStrBeats period stretch (shareStr n t period stretch i) k = B at *
  generalize (i2cStream period stretch).st (shareStr n t period stretch i) k = s at *
  have hstart : muxChannels (muxByte addr) r0 (D.cmds ((i2cTxn B).1 ++ [.start])).log = ctrl k := by
    rw [D.cmds_snoc]
    simp only [I2cDev.cmd, muxChannels, muxAfter_snoc, muxStep]
    exact hmx
  cases hf : s.fsm <;> rw [hf] at hrel <;> simp [i2cStrCoreIn, i2cStrobe, hf] at hstr
  case start => rw [hrel.1]; exact hmx
  case xfer =>
    rw [hrel.2]
    cases (i2cTxn B).2
    · exact hstart
    · simpa using hmx
  case stop => exact absurd hstr.symm hc

include hu hp hw in
/-- **C105.** Once `ctrl` stays, `done` rises and stays, whatever the other users do. -/
theorem C105_mux_settles {m addr : Nat} {ctrl : Nat → BitVec 8} (hm : ShareMux n t period stretch i m addr ctrl)
    (hrel : ∀ k, ∃ m, k ≤ m ∧ hold m = false) (hrdy : ∀ k, ∃ m, k ≤ m ∧ (i m).ready = true)
    (L : Nat) (hL : ArbBounded n t (shareArb n t period stretch i) L) (k0 : Nat) (hc : ∀ k, k0 ≤ k → ctrl k = ctrl k0) :
    ∃ k1, k0 ≤ k1 ∧ ∀ k, k1 ≤ k → ((tca9548a addr).wave (shareTca n t period stretch i m ctrl) k).done = true := by
  refine C29_tca_progress addr (shareTca n t period stretch i m ctrl) k0 hc (fun k hv => ?_)
  rw [← hm.valid k] at hv
  obtain ⟨k', h1, _, h2⟩ := C105_bus_served hu hp hw hrel hrdy L hL m hm.lt k hv
  exact ⟨k', h1, h2⟩

end

end Lambdalib
