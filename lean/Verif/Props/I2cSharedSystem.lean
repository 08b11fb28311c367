import Verif.Props.I2cShared
import Verif.Lemmas.I2cClose

/-! The whole system of C105: the driver of a multiplexer and other users behind an arbiter, on the wires with devices. -/

namespace Lambdalib

/-- Beats of a user not taken yet, and whether one must be offered now. -/
abbrev UserS := List (Beat (Bool × BitVec 8)) × Bool

/-- State of the whole circuit: arbiter and `I2CStream`, driver of the multiplexer, users. -/
abbrev MuxFedS := (ArbS × I2cStrS) × TcaS × (Nat → UserS)

/-- Inputs: `ctrl`; for each user whether it begins a packet; `ready` of the receiver of the bytes read; levels of the lines. -/
structure MuxFedIn where
  ctrl : BitVec 8
  go : Nat → Bool
  rdy : Bool
  scl : Bool
  sda : Bool

/-- A user offers its beats in order, begins packets when it likes to, and does not pause in them. -/
def userValid (r : UserS) (go : Bool) : Bool := !r.1.isEmpty && (r.2 || go)

def userBeat (r : UserS) : Beat (Bool × BitVec 8) := r.1.headD ⟨false, false, (false, 0)⟩

def userNext (r : UserS) (go ready : Bool) : UserS :=
  if userValid r go && ready then (r.1.tail, !(userBeat r).last) else (r.1, userValid r go)

section
variable (n t addr period : Nat) (stretch : Bool) (q : Nat → List (Beat (Bool × BitVec 8)))

/-- Sink 0 is driven by the `TCA9548A`, the others by users. -/
def muxFedIn (r : MuxFedS) (x : MuxFedIn) : I2cShareIn where
  valid u := if u = 0 then ((tca9548a addr).out r.2.1 ⟨x.ctrl, false⟩).valid else userValid (r.2.2 u) (x.go u)
  beat u := if u = 0 then ((tca9548a addr).out r.2.1 ⟨x.ctrl, false⟩).beat else userBeat (r.2.2 u)
  ready := x.rdy
  sclI := x.scl
  sdaI := x.sda

/-- The circuit with its users. -/
def muxFed : Circuit MuxFedS MuxFedIn I2cShareOut where
  reset := ((i2cShare n t period stretch).reset, (tca9548a addr).reset, fun u => (q u, false))
  out r x := (i2cShare n t period stretch).out r.1 (muxFedIn addr r x)
  next r x :=
    let y := muxFedIn addr r x
    let o := (i2cShare n t period stretch).out r.1 y
    ((i2cShare n t period stretch).next r.1 y, (tca9548a addr).next r.2.1 ⟨x.ctrl, o.ready 0⟩,
      fun u => userNext (r.2.2 u) (x.go u) (o.ready u))

variable (D : I2cDev) (bidir : Bool) (ctrl : Nat → BitVec 8) (go : Nat → Nat → Bool) (rdy hold : Nat → Bool)

/-- The inputs of `muxFed` on the wires with devices. -/
def muxSysWire : Nat → MuxFedIn :=
  closeIn D.target bidir (muxFed n t addr period stretch q) (fun r => r.1.2.core)
    (fun k _ scl sda => ⟨ctrl k, go k, rdy k, scl, sda⟩) hold

/-- State of the whole circuit on the wires. -/
def muxSysSt (k : Nat) : MuxFedS :=
  (muxFed n t addr period stretch q).st (muxSysWire n t addr period stretch q D bidir ctrl go rdy hold) k

/-- The inputs of arbiter and `I2CStream` in the whole system. -/
def muxSys (k : Nat) : I2cShareIn :=
  muxFedIn addr (muxSysSt n t addr period stretch q D bidir ctrl go rdy hold k)
    (muxSysWire n t addr period stretch q D bidir ctrl go rdy hold k)

local notation "SYS" => muxSys n t addr period stretch q D bidir ctrl go rdy hold
local notation "ST" => muxSysSt n t addr period stretch q D bidir ctrl go rdy hold

theorem muxSys_st (k : Nat) : (i2cShare n t period stretch).st (muxSys n t addr period stretch q D bidir ctrl go rdy hold) k =
    (muxSysSt n t addr period stretch q D bidir ctrl go rdy hold k).1 := by
  induction k with
  | zero => rfl
  | succ k ih => rw [Circuit.st_succ, ih]; rfl

theorem muxSys_out (k : Nat) : (i2cShare n t period stretch).wave (muxSys n t addr period stretch q D bidir ctrl go rdy hold) k =
    (i2cShare n t period stretch).out (muxSysSt n t addr period stretch q D bidir ctrl go rdy hold k).1
      (muxSys n t addr period stretch q D bidir ctrl go rdy hold k) := by
  rw [Circuit.wave, muxSys_st]

theorem muxSys_tca (k : Nat) :
    (tca9548a addr).st (shareTca n t period stretch (muxSys n t addr period stretch q D bidir ctrl go rdy hold) 0 ctrl) k =
      (muxSysSt n t addr period stretch q D bidir ctrl go rdy hold k).2.1 := by
  induction k with
  | zero => rfl
  | succ k ih =>
    rw [Circuit.st_succ, ih, shareTca, muxSys_out]
    rfl

theorem muxSys_user (k u : Nat) : (muxSysSt n t addr period stretch q D bidir ctrl go rdy hold (k + 1)).2.2 u =
    userNext ((muxSysSt n t addr period stretch q D bidir ctrl go rdy hold k).2.2 u) (go k u)
      (((i2cShare n t period stretch).wave (muxSys n t addr period stretch q D bidir ctrl go rdy hold) k).ready u) := by
  rw [muxSys_out]
  rfl

theorem muxSys_valid (k u : Nat) (hu : u ≠ 0) : (muxSys n t addr period stretch q D bidir ctrl go rdy hold k).valid u =
    userValid ((muxSysSt n t addr period stretch q D bidir ctrl go rdy hold k).2.2 u) (go k u) ∧
    (muxSys n t addr period stretch q D bidir ctrl go rdy hold k).beat u =
      userBeat ((muxSysSt n t addr period stretch q D bidir ctrl go rdy hold k).2.2 u) := by
  have h : (muxSysWire n t addr period stretch q D bidir ctrl go rdy hold k).go = go k := rfl
  simp [muxSys, muxFedIn, hu, h]

/-- The driver of the multiplexer is user 0. -/
theorem muxSys_mux (hn : 0 < n) : ShareMux n t period stretch (muxSys n t addr period stretch q D bidir ctrl go rdy hold) 0 addr ctrl := by
  refine ⟨hn, fun k => ?_, fun k => ?_⟩
  · simp only [Circuit.wave, muxSys_tca]
    rfl
  · simp only [Circuit.wave, muxSys_tca]
    rfl

theorem muxSys_wired (hh : ∀ k, hold k = true → bidir = true ∧ stretch = true) :
    I2cWired D.target bidir period stretch
      (i2cStrCi period stretch (shareStr n t period stretch (muxSys n t addr period stretch q D bidir ctrl go rdy hold))) hold := by
  have hc : ∀ k, (i2cInitiator period stretch).st
      (i2cStrCi period stretch (shareStr n t period stretch (muxSys n t addr period stretch q D bidir ctrl go rdy hold))) k =
      (muxSysSt n t addr period stretch q D bidir ctrl go rdy hold k).1.2.core := by
    intro k
    rw [← i2cStr_core, ← muxSys_st, share_st]
  have hb : ∀ k, i2cBusOf D.target bidir period stretch
      (i2cStrCi period stretch (shareStr n t period stretch (muxSys n t addr period stretch q D bidir ctrl go rdy hold))) hold k =
      (closeRun D.target bidir (muxFed n t addr period stretch q) (fun r : MuxFedS => r.1.2.core)
        (fun k _ scl sda => ⟨ctrl k, go k, rdy k, scl, sda⟩) hold k).2 := by
    refine close_bus D.target bidir _ (fun r : MuxFedS => r.1.2.core) _ hold _ _ (fun k => ?_)
    have := hc k
    constructor
    · change ((i2cInitiator period stretch).st (i2cStrCi period stretch (shareStr n t period stretch
        (muxSys n t addr period stretch q D bidir ctrl go rdy hold))) k).sclO = _
      rw [this]; rfl
    · change ((i2cInitiator period stretch).st (i2cStrCi period stretch (shareStr n t period stretch
        (muxSys n t addr period stretch q D bidir ctrl go rdy hold))) k).sdaO = _
      rw [this]; rfl
  have hs := fun k => close_st D.target bidir (muxFed n t addr period stretch q) (fun r : MuxFedS => r.1.2.core)
    (fun k _ scl sda => ⟨ctrl k, go k, rdy k, scl, sda⟩) hold k
  refine ⟨fun k => ?_, fun k => ?_, hh⟩
  · rw [hb k]
    simp only [i2cScl, i2cSda, Circuit.wave]
    rw [hc k]
    unfold muxSysSt muxSysWire
    rw [hs k]
    rfl
  · rw [hb k]
    simp only [i2cScl, i2cSda, Circuit.wave]
    rw [hc k]
    unfold muxSysSt muxSysWire
    rw [hs k]
    rfl

/-- The arbiter as a part of the circuit. -/
theorem share_arb_ready (i : Nat → I2cShareIn) (u k : Nat) : ((arbiter n t).wave (shareArb n t period stretch i) k).ready u =
    ((i2cShare n t period stretch).wave i k).ready u := by
  have e := congrArg Prod.fst (share_st n t period stretch i k)
  simp only at e
  simp only [Circuit.wave]
  rw [← e]
  rfl

theorem muxSys_stable : ArbSinksStable n t (shareArb n t period stretch (muxSys n t addr period stretch q D bidir ctrl go rdy hold)) := by
  intro u _ k hv hr
  simp only [share_arb_ready] at hv hr ⊢
  change (muxSys n t addr period stretch q D bidir ctrl go rdy hold k).valid u = true at hv
  change (muxSys n t addr period stretch q D bidir ctrl go rdy hold (k + 1)).valid u = true ∧
    (muxSys n t addr period stretch q D bidir ctrl go rdy hold (k + 1)).beat u =
      (muxSys n t addr period stretch q D bidir ctrl go rdy hold k).beat u
  by_cases h0 : u = 0
  · subst h0
    have e1 : ∀ k, (muxSys n t addr period stretch q D bidir ctrl go rdy hold k).valid 0 = _ := fun k => (by
      exact (show (muxSys n t addr period stretch q D bidir ctrl go rdy hold k).valid 0 =
        ((tca9548a addr).wave (shareTca n t period stretch (muxSys n t addr period stretch q D bidir ctrl go rdy hold) 0 ctrl) k).valid by
        simp only [Circuit.wave, muxSys_tca]; rfl))
    have e2 : ∀ k, (muxSys n t addr period stretch q D bidir ctrl go rdy hold k).beat 0 =
        ((tca9548a addr).wave (shareTca n t period stretch (muxSys n t addr period stretch q D bidir ctrl go rdy hold) 0 ctrl) k).beat := by
      intro k
      simp only [Circuit.wave, muxSys_tca]; rfl
    rw [e1] at hv
    rw [e1, e2, e2]
    exact C29_tca_stable addr _ k hv hr
  · obtain ⟨a1, a2⟩ := muxSys_valid n t addr period stretch q D bidir ctrl go rdy hold k u h0
    obtain ⟨b1, b2⟩ := muxSys_valid n t addr period stretch q D bidir ctrl go rdy hold (k + 1) u h0
    have e := muxSys_user n t addr period stretch q D bidir ctrl go rdy hold k u
    rw [a1] at hv
    rw [b1, b2, a2, e, hr]
    generalize (muxSysSt n t addr period stretch q D bidir ctrl go rdy hold k).2.2 u = r at *
    simp only [userNext, Bool.and_false, Bool.false_eq_true, if_false, hv]
    simp only [userValid, Bool.and_eq_true] at hv
    simp [userValid, userBeat] at hv ⊢
    exact hv.1

/-- The packets of a user. -/
def WholePackets (l : List (Beat (Bool × BitVec 8))) : Prop := ∃ ps : List (List (Beat (Bool × BitVec 8))), l = ps.flatten ∧ ∀ p ∈ ps, WholePacket p

/-- The rest of whole packets after a beat. -/
theorem whole_rest (l : List (Beat (Bool × BitVec 8))) (h : WholePackets l) (p r : List (Beat (Bool × BitVec 8)))
    (b : Beat (Bool × BitVec 8)) (e : l = p ++ b :: r) (hb : b.last = false) : r ≠ [] := by
  rintro rfl
  obtain ⟨ps, e2, h⟩ := h
  rcases eq_snoc ps with rfl | ⟨ps, x, rfl⟩
  · rw [e] at e2; simp at e2
  · obtain ⟨a, c, e3, hc, _⟩ := h x (by simp)
    rw [e, List.flatten_append, List.flatten_singleton, e3, ← List.append_assoc] at e2
    obtain ⟨_, e4⟩ := snoc_inj e2
    rw [e4, hc] at hb
    cases hb

/-- What was taken from a user, and what is left. -/
theorem muxSys_queue (u : Nat) (hu : u ≠ 0) (hq : WholePackets (q u)) (k : Nat) :
    arbTaken n t (shareArb n t period stretch (muxSys n t addr period stretch q D bidir ctrl go rdy hold)) u k ++
      ((muxSysSt n t addr period stretch q D bidir ctrl go rdy hold k).2.2 u).1 = q u ∧
    (arbInside n t (shareArb n t period stretch (muxSys n t addr period stretch q D bidir ctrl go rdy hold)) u k = true →
      ((muxSysSt n t addr period stretch q D bidir ctrl go rdy hold k).2.2 u).2 = true ∧
      ∃ p b, arbTaken n t (shareArb n t period stretch (muxSys n t addr period stretch q D bidir ctrl go rdy hold)) u k = p ++ [b] ∧
        b.last = false) := by
  induction k with
  | zero => exact ⟨rfl, by simp [arbInside, openPacket]⟩
  | succ k ih =>
    obtain ⟨i1, i2⟩ := ih
    obtain ⟨a1, a2⟩ := muxSys_valid n t addr period stretch q D bidir ctrl go rdy hold k u hu
    have e1 := arbTaken_succ (n := n) (t := t)
      (i := shareArb n t period stretch (muxSys n t addr period stretch q D bidir ctrl go rdy hold)) u k
    have e2 : arbInside n t (shareArb n t period stretch (muxSys n t addr period stretch q D bidir ctrl go rdy hold)) u (k + 1) =
      if arbSinkXfer n t (shareArb n t period stretch (muxSys n t addr period stretch q D bidir ctrl go rdy hold)) u k then
        !((muxSys n t addr period stretch q D bidir ctrl go rdy hold k).beat u).last
      else arbInside n t (shareArb n t period stretch (muxSys n t addr period stretch q D bidir ctrl go rdy hold)) u k := rfl
    have e3 : arbSinkXfer n t (shareArb n t period stretch (muxSys n t addr period stretch q D bidir ctrl go rdy hold)) u k =
        (userValid ((muxSysSt n t addr period stretch q D bidir ctrl go rdy hold k).2.2 u) (go k u) &&
          ((i2cShare n t period stretch).wave (muxSys n t addr period stretch q D bidir ctrl go rdy hold) k).ready u) := by
      rw [arbSinkXfer, share_arb_ready]
      change ((muxSys n t addr period stretch q D bidir ctrl go rdy hold k).valid u && _) = _
      rw [a1]
    have e4 := muxSys_user n t addr period stretch q D bidir ctrl go rdy hold k u
    change _ = _ ++ (if _ then [(muxSys n t addr period stretch q D bidir ctrl go rdy hold k).beat u] else []) at e1
    rw [e1, e2, e3, e4, a2]
    generalize arbTaken n t (shareArb n t period stretch (muxSys n t addr period stretch q D bidir ctrl go rdy hold)) u k = T at *
    generalize arbInside n t (shareArb n t period stretch (muxSys n t addr period stretch q D bidir ctrl go rdy hold)) u k = I at *
    generalize (muxSysSt n t addr period stretch q D bidir ctrl go rdy hold k).2.2 u = r at *
    generalize ((i2cShare n t period stretch).wave (muxSys n t addr period stretch q D bidir ctrl go rdy hold) k).ready u = rd at *
    obtain ⟨l, f⟩ := r
    simp only at i1 i2
    unfold userNext
    split
    · rename_i hx
      simp only [Bool.and_eq_true, userValid] at hx
      cases l with
      | nil => simp at hx
      | cons b l =>
        refine ⟨by simpa [userBeat] using i1, ?_⟩
        intro h
        refine ⟨h, T, b, rfl, by simpa [userBeat] using h⟩
    · rename_i hx
      refine ⟨by simpa using i1, ?_⟩
      intro h
      obtain ⟨h1, p, b, h2, h3⟩ := i2 h
      refine ⟨?_, p, b, by simpa using h2, h3⟩
      subst h1
      have hl := whole_rest (q u) hq p l b (by rw [← i1, h2]; simp) h3
      simp [userValid, hl]

/-- In the middle of a packet a user has a beat to offer. -/
theorem muxSys_inside (u : Nat) (hu : u ≠ 0) (hq : WholePackets (q u)) (k : Nat)
    (h : arbInside n t (shareArb n t period stretch (muxSys n t addr period stretch q D bidir ctrl go rdy hold)) u k = true) :
    (muxSys n t addr period stretch q D bidir ctrl go rdy hold k).valid u = true := by
  obtain ⟨h1, h2⟩ := muxSys_queue n t addr period stretch q D bidir ctrl go rdy hold u hu hq k
  obtain ⟨h3, p, b, h4, h5⟩ := h2 h
  rw [(muxSys_valid n t addr period stretch q D bidir ctrl go rdy hold k u hu).1]
  have hl := whole_rest (q u) hq p ((muxSysSt n t addr period stretch q D bidir ctrl go rdy hold k).2.2 u).1 b
    (by rw [← h1, h4]; simp) h5
  simp [userValid, h3, hl]

/-- The driver of the multiplexer: packets of two beats without pause. -/
theorem muxSys_tca_inside (k : Nat) :
    arbInside n t (shareArb n t period stretch (muxSys n t addr period stretch q D bidir ctrl go rdy hold)) 0 k =
      (muxSysSt n t addr period stretch q D bidir ctrl go rdy hold k).2.1.addrN ∧
    ((muxSysSt n t addr period stretch q D bidir ctrl go rdy hold k).2.1.addrN = true →
      (muxSys n t addr period stretch q D bidir ctrl go rdy hold k).valid 0 = true) ∧
    ∀ pre part, arbTaken n t (shareArb n t period stretch (muxSys n t addr period stretch q D bidir ctrl go rdy hold)) 0 k =
      pre ++ part → (∀ x ∈ part, x.last = false) →
      part.length ≤ if (muxSysSt n t addr period stretch q D bidir ctrl go rdy hold k).2.1.addrN then 1 else 0 := by
  have hv : ∀ k, (muxSys n t addr period stretch q D bidir ctrl go rdy hold k).valid 0 =
      (muxSysSt n t addr period stretch q D bidir ctrl go rdy hold k).2.1.mux := fun k => rfl
  have hl : ∀ k, ((muxSys n t addr period stretch q D bidir ctrl go rdy hold k).beat 0).last =
      ((muxSysSt n t addr period stretch q D bidir ctrl go rdy hold k).2.1.mux &&
      (muxSysSt n t addr period stretch q D bidir ctrl go rdy hold k).2.1.addrN) := fun k => rfl
  induction k with
  | zero =>
    refine ⟨rfl, by simp [muxSysSt, muxFed, tca9548a], ?_⟩
    intro pre part h _
    have h' : [] = pre ++ part := h
    simp at h'
    simp [h'.2]
  | succ k ih =>
    obtain ⟨i1, i2, i3⟩ := ih
    have e1 := arbTaken_succ (n := n) (t := t)
      (i := shareArb n t period stretch (muxSys n t addr period stretch q D bidir ctrl go rdy hold)) 0 k
    have e2 : arbInside n t (shareArb n t period stretch (muxSys n t addr period stretch q D bidir ctrl go rdy hold)) 0 (k + 1) =
      if arbSinkXfer n t (shareArb n t period stretch (muxSys n t addr period stretch q D bidir ctrl go rdy hold)) 0 k then
        !((muxSys n t addr period stretch q D bidir ctrl go rdy hold k).beat 0).last
      else arbInside n t (shareArb n t period stretch (muxSys n t addr period stretch q D bidir ctrl go rdy hold)) 0 k := rfl
    have e3 : arbSinkXfer n t (shareArb n t period stretch (muxSys n t addr period stretch q D bidir ctrl go rdy hold)) 0 k =
        ((muxSysSt n t addr period stretch q D bidir ctrl go rdy hold k).2.1.mux &&
          ((i2cShare n t period stretch).wave (muxSys n t addr period stretch q D bidir ctrl go rdy hold) k).ready 0) := by
      rw [arbSinkXfer, share_arb_ready]
      rfl
    have e4 : (muxSysSt n t addr period stretch q D bidir ctrl go rdy hold (k + 1)).2.1 = (tca9548a addr).next
        (muxSysSt n t addr period stretch q D bidir ctrl go rdy hold k).2.1
        ⟨ctrl k, ((i2cShare n t period stretch).wave (muxSys n t addr period stretch q D bidir ctrl go rdy hold) k).ready 0⟩ := by
      rw [muxSys_out]
      rfl
    rw [hv] at i2
    change _ = _ ++ (if _ then [(muxSys n t addr period stretch q D bidir ctrl go rdy hold k).beat 0] else []) at e1
    have hlk := hl k
    rw [e1, e2, e3, hv, i1, e4]
    clear e1 e2 e3 e4
    generalize arbTaken n t (shareArb n t period stretch (muxSys n t addr period stretch q D bidir ctrl go rdy hold)) 0 k = T at *
    generalize (muxSys n t addr period stretch q D bidir ctrl go rdy hold k).beat 0 = b at *
    generalize (muxSysSt n t addr period stretch q D bidir ctrl go rdy hold k).2.1 = s at *
    generalize ((i2cShare n t period stretch).wave (muxSys n t addr period stretch q D bidir ctrl go rdy hold) k).ready 0 = rd at *
    obtain ⟨mux, init, ctrlR, addrN⟩ := s
    simp only at i2 i3 hlk
    have htail : ∀ pre part, T ++ [b] = pre ++ part → (∀ x ∈ part, x.last = false) → part.length ≤
        if b.last then 0 else (if addrN then 1 else 0) + 1 := by
      intro pre part h1 h2
      rcases eq_snoc part with rfl | ⟨part, x, rfl⟩
      · simp
      · rw [← List.append_assoc] at h1
        obtain ⟨h3, rfl⟩ := snoc_inj h1
        have := i3 pre part h3 (fun x hx => h2 x (by simp [hx]))
        rw [h2 b (by simp)]
        simp only [Bool.false_eq_true, if_false, List.length_append, List.length_singleton]
        omega
    cases mux
    · have : addrN = false := by
        cases addrN
        · rfl
        · exact absurd (i2 rfl) (by simp)
      subst this
      have i3' : ∀ pre part, T = pre ++ part → (∀ x ∈ part, x.last = false) → part = [] := by
        intro pre part h1 h2
        have := i3 pre part h1 h2
        simpa using this
      by_cases hi : init = true <;> by_cases hc : ctrl k = ctrlR <;>
        simp [tca9548a, hi, hc] <;> exact i3'
    · cases rd <;> cases addrN <;> simp [tca9548a] at hlk i3 htail ⊢
      · exact i3
      · exact i3
      · simpa [hlk] using htail
      · simpa [hlk] using htail

/-- **C105.** The hypotheses on wires and users are met by the whole system: a `TCA9548A` and users that send whole packets. -/
theorem C105_system_exists (hn : 2 ≤ n) (ht : 1 ≤ t) (hq : ∀ u, WholePackets (q u))
    (hh : ∀ k, hold k = true → bidir = true ∧ stretch = true) :
    let i := muxSys n t addr period stretch q D bidir ctrl go rdy hold
    I2cWired D.target bidir period stretch (i2cStrCi period stretch (shareStr n t period stretch i)) hold ∧
      ShareUsers n t period stretch i ∧ ShareMux n t period stretch i 0 addr ctrl ∧
      (∃ L, ArbBounded n t (shareArb n t period stretch i) L) ∧ ∀ k, (i k).ready = rdy k := by
  intro i
  refine ⟨muxSys_wired n t addr period stretch q D bidir ctrl go rdy hold hh,
    ⟨hn, muxSys_stable n t addr period stretch q D bidir ctrl go rdy hold, ?_⟩,
    muxSys_mux n t addr period stretch q D bidir ctrl go rdy hold (by omega), ?_, fun _ => rfl⟩
  · intro u _ k
    refine ⟨k, Nat.le_refl _, by omega, fun h => ?_⟩
    by_cases h0 : u = 0
    · subst h0
      obtain ⟨h1, h2, _⟩ := muxSys_tca_inside n t addr period stretch q D bidir ctrl go rdy hold k
      exact h2 (h1 ▸ h)
    · exact muxSys_inside n t addr period stretch q D bidir ctrl go rdy hold u h0 (hq u) k h
  · obtain ⟨L, hL⟩ : ∃ L, ∀ u < n, (q u).length < L := by
      clear hn
      induction n with
      | zero => exact ⟨0, fun u hu => absurd hu (by omega)⟩
      | succ n ih =>
        obtain ⟨L, hL⟩ := ih
        refine ⟨L + (q n).length + 1, fun u hu => ?_⟩
        rcases Nat.lt_or_ge u n with h | h
        · have := hL u h; omega
        · obtain rfl : u = n := by omega
          omega
    refine ⟨L + 2, fun u hu k pre part h1 h2 => ?_⟩
    by_cases h0 : u = 0
    · subst h0
      have := (muxSys_tca_inside n t addr period stretch q D bidir ctrl go rdy hold k).2.2 pre part h1 h2
      split at this <;> omega
    · have := (muxSys_queue n t addr period stretch q D bidir ctrl go rdy hold u h0 (hq u) k).1
      have e := congrArg List.length this
      rw [h1] at e
      simp only [List.length_append] at e
      have := hL u hu
      omega

/-- **C105.** The whole system: users that send whole packets, and a `TCA9548A`, on one bus. From some time on the devices have been
through all packets of all users, each user's packets in its order and no packet inside another one, and the multiplexer has connected
the channels that `ctrl` says. -/
theorem C105_system (hn : 2 ≤ n) (ht : 1 ≤ t) (hp : 4 ≤ period) (hq : ∀ u, WholePackets (q u))
    (hh : ∀ k, hold k = true → bidir = true ∧ stretch = true) (hrel : ∀ k, ∃ m, k ≤ m ∧ hold m = false)
    (hrdy : ∀ k, ∃ m, k ≤ m ∧ rdy m = true) (hgo : ∀ u k, ∃ m, k ≤ m ∧ go m u = true)
    (k0 : Nat) (hc : ∀ k, k0 ≤ k → ctrl k = ctrl k0)
    (hfit : ∀ k, D.Fits ((shareTagged n t period stretch (muxSys n t addr period stretch q D bidir ctrl go rdy hold) k).map Prod.snd))
    (hD : MuxOnBus D (muxByte addr))
    (ho : ShareOthers D n t period stretch (muxSys n t addr period stretch q D bidir ctrl go rdy hold) 0 (muxByte addr)) (r0 : BitVec 8) :
    let i := muxSys n t addr period stretch q D bidir ctrl go rdy hold
    ∃ m, ∀ k, m ≤ k → ∃ ps : List (Nat × List (Beat (Bool × BitVec 8))),
      Packets (shareTagged n t period stretch i k) ps 0 [] ∧
      (∀ u, 1 ≤ u → u < n → beatsOf u (shareTagged n t period stretch i k) = q u) ∧
      (i2cBusOf D.target bidir period stretch (i2cStrCi period stretch (shareStr n t period stretch i)) hold (k + 1)).tgt.2 =
        (D.beats (ps.flatMap Prod.snd)).1.log ∧
      muxChannels (muxByte addr) r0
        (i2cBusOf D.target bidir period stretch (i2cStrCi period stretch (shareStr n t period stretch i)) hold (k + 1)).tgt.2 = ctrl k0 := by
  intro i
  obtain ⟨hw, hu, hm, ⟨L, hL⟩, hr⟩ := C105_system_exists n t addr period stretch q D bidir ctrl go rdy hold hn ht hq hh
  change I2cWired D.target bidir period stretch (i2cStrCi period stretch (shareStr n t period stretch i)) hold at hw
  change ShareUsers n t period stretch i at hu
  change ShareMux n t period stretch i 0 addr ctrl at hm
  change ArbBounded n t (shareArb n t period stretch i) L at hL
  have hrdy' : ∀ k, ∃ m, k ≤ m ∧ (i m).ready = true := fun k => by
    obtain ⟨m, h1, h2⟩ := hrdy k
    exact ⟨m, h1, (hr m).trans h2⟩
  -- the queue of each user runs empty
  have hshrink : ∀ u k, (((muxSysSt n t addr period stretch q D bidir ctrl go rdy hold (k + 1)).2.2 u).1 =
      ((muxSysSt n t addr period stretch q D bidir ctrl go rdy hold k).2.2 u).1 ∨
      ((muxSysSt n t addr period stretch q D bidir ctrl go rdy hold (k + 1)).2.2 u).1 =
      ((muxSysSt n t addr period stretch q D bidir ctrl go rdy hold k).2.2 u).1.tail) := by
    intro u k
    rw [muxSys_user]
    unfold userNext
    split
    · right; rfl
    · left; rfl
  have hstay : ∀ u k, ((muxSysSt n t addr period stretch q D bidir ctrl go rdy hold k).2.2 u).1 = [] → ∀ d,
      ((muxSysSt n t addr period stretch q D bidir ctrl go rdy hold (k + d)).2.2 u).1 = [] := by
    intro u k h d
    induction d with
    | zero => exact h
    | succ d ih =>
      rcases hshrink u (k + d) with e | e <;> rw [← Nat.add_assoc, e, ih]
      rfl
  have hserve : ∀ u, 1 ≤ u → u < n → ∀ k, ((muxSysSt n t addr period stretch q D bidir ctrl go rdy hold k).2.2 u).1 ≠ [] →
      ∃ m, k ≤ m ∧ (((muxSysSt n t addr period stretch q D bidir ctrl go rdy hold (m + 1)).2.2 u).1 =
        ((muxSysSt n t addr period stretch q D bidir ctrl go rdy hold k).2.2 u).1.tail) := by
    intro u h1 h2 k hne
    refine Classical.byContradiction fun hno => ?_
    have hsame : ∀ d, ((muxSysSt n t addr period stretch q D bidir ctrl go rdy hold (k + d)).2.2 u).1 =
        ((muxSysSt n t addr period stretch q D bidir ctrl go rdy hold k).2.2 u).1 := by
      intro d
      induction d with
      | zero => rfl
      | succ d ih =>
        rcases hshrink u (k + d) with e | e
        · rw [← Nat.add_assoc, e, ih]
        · exact absurd ⟨k + d, by omega, by rw [e, ih]⟩ hno
    obtain ⟨m, m1, m2⟩ := hgo u k
    have hv : (i m).valid u = true := by
      rw [(muxSys_valid n t addr period stretch q D bidir ctrl go rdy hold m u (by omega)).1]
      have := hsame (m - k)
      rw [show k + (m - k) = m by omega] at this
      simp only [userValid, this, m2]
      simp [hne]
    obtain ⟨m', g1, g2, g3⟩ := C105_bus_served hu hp hw hrel hrdy' L hL u h2 m hv
    refine hno ⟨m', by omega, ?_⟩
    rw [muxSys_user]
    rw [(muxSys_valid n t addr period stretch q D bidir ctrl go rdy hold m' u (by omega)).1] at g2
    have g3' : ((i2cShare n t period stretch).wave (muxSys n t addr period stretch q D bidir ctrl go rdy hold) m').ready u = true := g3
    rw [g3']
    unfold userNext
    rw [g2]
    have := hsame (m' - k)
    rw [show k + (m' - k) = m' by omega] at this
    simp [this]
  have hempty1 : ∀ u, 1 ≤ u → u < n → ∀ c k, ((muxSysSt n t addr period stretch q D bidir ctrl go rdy hold k).2.2 u).1.length ≤ c →
      ∃ m, ∀ k, m ≤ k → ((muxSysSt n t addr period stretch q D bidir ctrl go rdy hold k).2.2 u).1 = [] := by
    intro u h1 h2 c
    induction c with
    | zero =>
      intro k hk
      refine ⟨k, fun k' hk' => ?_⟩
      have := hstay u k (List.length_eq_zero_iff.mp (by omega)) (k' - k)
      rwa [show k + (k' - k) = k' by omega] at this
    | succ c ih =>
      intro k hk
      by_cases hne : ((muxSysSt n t addr period stretch q D bidir ctrl go rdy hold k).2.2 u).1 = []
      · refine ⟨k, fun k' hk' => ?_⟩
        have := hstay u k hne (k' - k)
        rwa [show k + (k' - k) = k' by omega] at this
      · obtain ⟨m, _, e⟩ := hserve u h1 h2 k hne
        exact ih (m + 1) (by rw [e, List.length_tail]; omega)
  have hempty : ∃ m, ∀ k, m ≤ k → ∀ u, 1 ≤ u → u < n →
      ((muxSysSt n t addr period stretch q D bidir ctrl go rdy hold k).2.2 u).1 = [] := by
    have : ∀ c ≤ n, ∃ m, ∀ k, m ≤ k → ∀ u, 1 ≤ u → u < c →
        ((muxSysSt n t addr period stretch q D bidir ctrl go rdy hold k).2.2 u).1 = [] := by
      intro c
      induction c with
      | zero => intro _; exact ⟨0, fun _ _ u _ h => absurd h (by omega)⟩
      | succ c ih =>
        intro hcn
        obtain ⟨m1, h1⟩ := ih (by omega)
        by_cases hc0 : c = 0
        · exact ⟨0, fun _ _ u h h' => absurd h (by omega)⟩
        · obtain ⟨m2, h2⟩ := hempty1 c (by omega) (by omega) _ 0 (Nat.le_refl _)
          refine ⟨m1 + m2, fun k hk u hu1 hu2 => ?_⟩
          rcases Nat.lt_or_ge u c with h | h
          · exact h1 k (by omega) u hu1 h
          · obtain rfl : u = c := by omega
            exact h2 k (by omega)
    exact this n (Nat.le_refl _)
  obtain ⟨m1, hm1⟩ := hempty
  obtain ⟨m2, hm2, hdone⟩ := C105_mux_settles hu hp hw hm hrel hrdy' L hL k0 hc
  have hmux0 : ∀ k, m2 ≤ k → (muxSysSt n t addr period stretch q D bidir ctrl go rdy hold k).2.1.mux = false := by
    intro k hk
    have := hdone k hk
    simp only [Circuit.wave] at this
    rw [show (tca9548a addr).st (shareTca n t period stretch i 0 ctrl) k =
      (muxSysSt n t addr period stretch q D bidir ctrl go rdy hold k).2.1 from muxSys_tca ..] at this
    simp only [tca9548a, Bool.and_eq_true, Bool.not_eq_true'] at this
    exact this.1.1
  -- nothing is offered any more
  have hquiet : ∀ k, m1 + m2 ≤ k → ∀ u < n, (i k).valid u = false := by
    intro k hk u hun
    by_cases h0 : u = 0
    · subst h0
      exact hmux0 k (by omega)
    · rw [(muxSys_valid n t addr period stretch q D bidir ctrl go rdy hold k u h0).1]
      simp [userValid, hm1 k (by omega) u (by omega) hun]
  have hq' : ∀ k, m1 + m2 ≤ k → (shareStr n t period stretch i k).valid = false := by
    intro k hk
    rw [(share_wave n t period stretch i k).2.1]
    obtain ⟨h1, h2, _⟩ := C15_arbiter_routes n t hn (shareArb n t period stretch i) k
    rw [h2]
    exact hquiet k hk _ h1
  obtain ⟨m, hmm, hset⟩ := sys_settles hp hw (share_str_stable hu) hrel (m1 + m2) (fun k _ _ => hrdy' k) hq'
  refine ⟨m, fun k hk => ?_⟩
  obtain ⟨ps, u, part, h1, h2, h3, h4, h5, _⟩ := arb_packets hu.two hu.nopause k
  have hpart : part = [] := by
    refine Classical.byContradiction fun hne => ?_
    obtain ⟨_, hun⟩ := h4 hne
    have := h5 u hun
    rw [show (decide (u = u) && !part.isEmpty) = true by simp [hne]] at this
    have hv : (i k).valid u = true := by
      by_cases h0 : u = 0
      · subst h0
        obtain ⟨g1, g2, _⟩ := muxSys_tca_inside n t addr period stretch q D bidir ctrl go rdy hold k
        exact g2 (g1 ▸ this)
      · exact muxSys_inside n t addr period stretch q D bidir ctrl go rdy hold u h0 (hq u) k this
    rw [hquiet k (by omega) u hun] at hv
    cases hv
  subst hpart
  have hlog := C105_history hu hp hw hfit k (hquiet k (by omega)) (hset k hk)
  have hmx := C105_mux hu hm hD ho r0 k (hdone k (by omega))
  refine ⟨ps, ⟨h1.eq, h1.whole, by simp⟩, ?_, ?_, ?_⟩
  · intro u hu1 hu2
    have := (muxSys_queue n t addr period stretch q D bidir ctrl go rdy hold u (by omega) (hq u) k).1
    rw [hm1 k (by omega) u hu1 hu2, List.append_nil, C105_taken_from n t _ hn u k hu2] at this
    exact this
  · rw [hlog]
    have := h1.eq
    unfold shareTagged
    rw [this]
    simp [List.map_flatMap, Function.comp_def]
  · rw [hlog, hmx, hc k (by omega)]

/-- Users that never write the address byte of the multiplexer do not reach it. -/
theorem muxSys_others (hn : 2 ≤ n) (hq : ∀ u, WholePackets (q u)) (a : BitVec 8)
    (h : ∀ u, 1 ≤ u → u < n → ∀ b ∈ q u, b.payload ≠ (false, a)) :
    ShareOthers D n t period stretch (muxSys n t addr period stretch q D bidir ctrl go rdy hold) 0 a := by
  intro k p u b r e hu0 _
  have htag : ∀ k, ∀ x ∈ shareTagged n t period stretch (muxSys n t addr period stretch q D bidir ctrl go rdy hold) k, x.1 < n := by
    intro k
    induction k with
    | zero => intro x hx; simp [shareTagged, arbTagged, transferred] at hx
    | succ k ih =>
      intro x hx
      have e2 : shareTagged n t period stretch (muxSys n t addr period stretch q D bidir ctrl go rdy hold) (k + 1) =
        shareTagged n t period stretch (muxSys n t addr period stretch q D bidir ctrl go rdy hold) k ++
        (if ((arbiter n t).wave (shareArb n t period stretch (muxSys n t addr period stretch q D bidir ctrl go rdy hold)) k).valid &&
            (shareArb n t period stretch (muxSys n t addr period stretch q D bidir ctrl go rdy hold) k).ready then
          [(arbSelected n t (shareArb n t period stretch (muxSys n t addr period stretch q D bidir ctrl go rdy hold)) k,
            ((arbiter n t).wave (shareArb n t period stretch (muxSys n t addr period stretch q D bidir ctrl go rdy hold)) k).beat)]
          else []) := rfl
      rw [e2] at hx
      rcases List.mem_append.mp hx with hx | hx
      · exact ih x hx
      · split at hx
        · rw [List.mem_singleton.mp hx]
          exact (C15_arbiter_routes n t hn _ k).1
        · simp at hx
  have hun : u < n := htag k (u, b) (by rw [e]; simp)
  have hb : b ∈ beatsOf u (shareTagged n t period stretch (muxSys n t addr period stretch q D bidir ctrl go rdy hold) k) := by
    rw [e, beatsOf]
    simp
  rw [shareTagged, ← C105_taken_from n t _ hn u k hun] at hb
  refine h u (by omega) hun b ?_
  rw [← (muxSys_queue n t addr period stretch q D bidir ctrl go rdy hold u hu0 (hq u) k).1]
  exact List.mem_append_left _ hb

end

/-- Devices that never send fit with all packets. -/
theorem fits_of_silent (D : I2cDev) (h : ∀ L, D.tx L = none) (l : List (Beat (Bool × BitVec 8))) : D.Fits l := by
  intro p b r _ _ x
  generalize D.opened (D.beats p) = A
  rw [i2cBeatCmd]
  split <;> simp only [I2cDev.cmd] <;> cases hm : A.mode <;> simp [I2cDev.byte, I2cDev.after, h, hm] <;> split <;> simp

/-- A bus on which all is acknowledged. -/
def ackDev : I2cDev := ⟨fun _ _ => true, fun _ => none⟩

/-- User 1 writes to a device at 0x50, user 2 to one at 0x51; the multiplexer is set to channel 2. -/
def muxUsers (u : Nat) : List (Beat (Bool × BitVec 8)) :=
  if u = 1 then [⟨false, false, (false, 0xA0)⟩, ⟨false, true, (false, 0x01)⟩]
  else if u = 2 then [⟨false, false, (false, 0xA2)⟩, ⟨false, false, (false, 0x02)⟩, ⟨false, true, (false, 0x03)⟩] else []

theorem muxUsers_whole (u : Nat) : WholePackets (muxUsers u) := by
  unfold muxUsers
  split
  · exact ⟨[_], (List.flatten_singleton).symm, by
      intro p hp
      rw [List.mem_singleton.mp hp]
      exact ⟨[⟨false, false, (false, 0xA0)⟩], ⟨false, true, (false, 0x01)⟩, rfl, rfl, by simp⟩⟩
  split
  · exact ⟨[_], (List.flatten_singleton).symm, by
      intro p hp
      rw [List.mem_singleton.mp hp]
      exact ⟨[⟨false, false, (false, 0xA2)⟩, ⟨false, false, (false, 0x02)⟩], ⟨false, true, (false, 0x03)⟩, rfl, rfl, by simp⟩⟩
  · exact ⟨[], rfl, by simp⟩

/-- The hypotheses of `C105_system` are met, with clock stretching and pauses between packets. -/
example : ∃ m, ∀ k, m ≤ k →
    muxChannels (muxByte 0x70) 0xFF (i2cBusOf ackDev.target true 8 true (i2cStrCi 8 true (shareStr 3 100 8 true
      (muxSys 3 100 0x70 8 true muxUsers ackDev true (fun k => if k < 50 then 1 else 4) (fun k u => k % (u + 2) == 0)
        (fun k => k % 2 == 0) (fun k => k % 3 == 0)))) (fun k => k % 3 == 0) (k + 1)).tgt.2 = 4 := by
  have hD : MuxOnBus ackDev (muxByte 0x70) := ⟨fun _ => rfl, fun _ _ => rfl, fun _ => rfl⟩
  obtain ⟨m, h⟩ := C105_system 3 100 0x70 8 true muxUsers ackDev true (fun k => if k < 50 then 1 else 4)
    (fun k u => k % (u + 2) == 0) (fun k => k % 2 == 0) (fun k => k % 3 == 0) (by decide) (by decide) (by decide) muxUsers_whole
    (fun _ _ => ⟨rfl, rfl⟩)
    (fun k => ⟨3 * k + 1, by omega, by simp⟩) (fun k => ⟨2 * k, by omega, by simp⟩)
    (fun u k => ⟨(u + 2) * k, Nat.le_mul_of_pos_left k (by omega), by simp⟩) 50 (fun k hk => by simp; omega)
    (fun k => fits_of_silent ackDev (fun _ => rfl) _) hD
    (muxSys_others 3 100 0x70 8 true muxUsers ackDev true _ _ _ _ (by decide) muxUsers_whole _ (by
      intro u h1 h2 b hb
      obtain rfl | rfl : u = 1 ∨ u = 2 := by omega
      all_goals
        simp [muxUsers] at hb
        rcases hb with rfl | hb
        · decide
        · first
          | (subst hb; decide)
          | (rcases hb with rfl | rfl <;> decide))) 0xFF
  exact ⟨m, fun k hk => by
    obtain ⟨ps, _, _, _, h4⟩ := h k hk
    exact h4⟩

/-! ### What is not true -/

/-- User 0 sends the beginning of a packet and pauses; user 1 waits. -/
def pauseUsers (k : Nat) : I2cShareIn :=
  ⟨fun u => if u = 0 then decide (k ≤ 87) else true, fun u => ⟨false, false, (false, BitVec.ofNat 8 u)⟩, true, true, false⟩

theorem pause_ready : ((i2cShare 2 2 4 false).wave pauseUsers 87).ready 0 = true := by decide +kernel

theorem pause_tagged : shareTagged 2 2 4 false pauseUsers 170 =
    [(0, ⟨false, false, (false, 0)⟩), (1, ⟨false, false, (false, 1)⟩)] := by decide +kernel

/-- **C105**, not for users that pause: the beats of two users end up in one transaction. -/
theorem C105_pause_refuted : ¬ ∀ (n t period : Nat) (stretch : Bool) (i : Nat → I2cShareIn), 2 ≤ n → 1 ≤ t → 4 ≤ period →
    ArbSinksStable n t (shareArb n t period stretch i) → ∀ k, ∃ ps u part, Packets (shareTagged n t period stretch i k) ps u part := by
  intro h
  have hs : ArbSinksStable 2 2 (shareArb 2 2 4 false pauseUsers) := by
    intro u hu k hv hr
    simp only [share_arb_ready] at hr
    have hv' : (pauseUsers k).valid u = true := hv
    have hb : ∀ k, (pauseUsers k).beat u = ⟨false, false, (false, BitVec.ofNat 8 u)⟩ := fun _ => rfl
    refine ⟨?_, (hb (k + 1)).trans (hb k).symm⟩
    change (pauseUsers (k + 1)).valid u = true
    by_cases h0 : u = 0
    · subst h0
      have : k ≤ 87 := by simpa [pauseUsers] using hv'
      have hne : k ≠ 87 := by
        rintro rfl
        rw [pause_ready] at hr
        cases hr
      have : k + 1 ≤ 87 := by omega
      simp [pauseUsers, this]
    · simp [pauseUsers, h0]
  obtain ⟨ps, u, part, hP⟩ := h 2 2 4 false pauseUsers (by decide) (by decide) (by decide) hs 170
  have e := hP.eq
  rw [pause_tagged] at e
  rcases eq_snoc ps with rfl | ⟨ps, x, rfl⟩
  · simp only [List.flatMap_nil, List.nil_append] at e
    match part with
    | [] => simp at e
    | [_] => simp at e
    | _ :: _ :: _ => simp at e; omega
  · obtain ⟨a, b, e2, hb, _⟩ := hP.whole x (by simp)
    have hmem : (x.1, b) ∈ [((0 : Nat), (⟨false, false, (false, 0)⟩ : Beat (Bool × BitVec 8))), (1, ⟨false, false, (false, 1)⟩)] := by
      rw [e]
      simp [e2]
    simp at hmem
    rcases hmem with ⟨_, rfl⟩ | ⟨_, rfl⟩ <;> cases hb

/-- **C105**: a packet for another device, which does not acknowledge its address, can set the multiplexer: the wrapper goes on with
the rest of the packet as with a new transaction. This is why `ShareOthers` speaks of the bytes that begin a transaction. -/
theorem C105_restart_refuted : ¬ ∀ (D : I2cDev) (addr : Nat) (p : List (Beat (Bool × BitVec 8))) (r0 : BitVec 8),
    MuxOnBus D (muxByte addr) → WholePacket p → (∀ b ∈ p.head?, b.payload ≠ (false, muxByte addr)) →
    muxChannels (muxByte addr) r0 (D.beats p).1.log = r0 := by
  intro h
  have := h ⟨fun L d => d != 0x20 || decide (L.getLast? = some (.wrote 0xE0 true)), fun _ => none⟩ 0x70
    [⟨false, false, (false, 0x20)⟩, ⟨false, false, (false, 0xE0)⟩, ⟨false, true, (false, 5)⟩] 0
    ⟨fun _ => by simp [muxByte], fun L c => by
      rw [show L ++ [DevEv.start, .wrote (muxByte 0x70) true] = (L ++ [.start]) ++ [.wrote (muxByte 0x70) true] by simp]
      simp only [List.getLast?_append, List.getLast?_singleton, Option.some_or, muxByte]
      simp, fun _ => rfl⟩
    ⟨[⟨false, false, (false, 0x20)⟩, ⟨false, false, (false, 0xE0)⟩], ⟨false, true, (false, 5)⟩, rfl, rfl, by simp⟩ (by decide)
  revert this
  decide

end Lambdalib
