import Verif.Lemmas.I2cStream
import Verif.Props.I2c

/-! Properties of `I2CStream` (C34). -/

namespace Lambdalib

theorem str_commands_of_rel {L : List I2cCmd} {B : List (Beat (Bool × BitVec 8) × Bool)} {s : I2cStrS}
    {x : I2cStrIn} (h : strRel L B s x) :
    L = (i2cTxn B).1 ∨ (i2cTxn B).1 = L ++ [.stop] ∨
      ((i2cTxn B).2 = false ∧ L = (i2cTxn B).1 ++ [.start]) ∨
      (x.valid = true ∧ x.beat.payload.1 = false ∧
        L = (i2cTxn B).1 ++ (if (i2cTxn B).2 then [] else [.start]) ++ [i2cBeatCmd x.beat]) := by
  obtain ⟨_, h⟩ := h
  obtain ⟨fsm, lastR, core⟩ := s
  cases fsm <;> simp only at h
  case idle => exact .inl h.1
  case start => exact .inl h.1
  case waitStart => exact .inr (.inr (.inl ⟨h.2, h.1⟩))
  case xfer =>
    cases hop : (i2cTxn B).2
    · exact .inr (.inr (.inl ⟨rfl, by simpa [hop] using h.2⟩))
    · exact .inl (by simpa [hop] using h.2)
  case waitWrite =>
    refine .inr (.inr (.inr ⟨h.1, h.2.1, ?_⟩))
    rw [h.2.2.2]
    simp [i2cBeatCmd, h.2.1]
  case waitRead =>
    cases lastR
    · exact .inl (by simpa using h.2.symm)
    · exact .inr (.inl (by simpa using h.2))
  case stop => exact .inr (.inl h.2.2)
  case waitStop => exact .inl h.2

section
variable (period : Nat) (stretch : Bool) (i : Nat → I2cStrIn)

/-- C34: the commands executed by the initiator are those of the accepted beats, in order: a start when no
transaction is open, then a write or a read per beat, then a stop after a beat marked `last` or not
acknowledged. At any time the executed commands differ from those of the accepted beats only by the stop
still to come, or by the start and the command of the beat being offered. -/
theorem C34_stream_commands (hst : i2cStrSinkStable period stretch i) (n : Nat) :
    let L := i2cCmdLog period stretch (i2cStrCi period stretch i) n
    let T := i2cTxn (i2cStrBeats period stretch i n)
    L = T.1 ∨ T.1 = L ++ [.stop] ∨ (T.2 = false ∧ L = T.1 ++ [.start]) ∨
      ((i n).valid = true ∧ (i n).beat.payload.1 = false ∧
        L = T.1 ++ (if T.2 then [] else [.start]) ++ [i2cBeatCmd (i n).beat]) := by
  exact str_commands_of_rel (str_rel period stretch i hst n)

/-- The command whose result the wrapper is waiting for. -/
theorem str_current_upto (n : Nat) (hst : i2cStrStableTo period stretch i n) :
    let ci := i2cStrCi period stretch i
    let s := (i2cStream period stretch).st i n
    (s.fsm = .waitWrite → ∃ k, k < n ∧
      i2cAccepts period stretch ci k (.write (i n).beat.payload.2) ∧
      ∀ j, k < j → j < n → i2cStrobe (ci j) = none) ∧
    (s.fsm = .waitRead → ∃ k, k < n ∧ i2cAccepts period stretch ci k (.read (!s.lastR)) ∧
      ∀ j, k < j → j < n → i2cStrobe (ci j) = none) := by
  induction n with
  | zero => exact ⟨fun h => by simp [i2cStream] at h, fun h => by simp [i2cStream] at h⟩
  | succ n ih =>
    replace ih := ih (fun k hk => hst k (by omega))
    obtain ⟨hb, hrel⟩ := str_rel_upto period stretch i n (fun k hk => hst k (by omega))
    have hcore := i2cStr_core period stretch i n
    have hstn := hst n (by omega)
    have hacc : ∀ c, ((i2cStream period stretch).st i n).fsm = .xfer →
        i2cStrobe (i2cStrCi period stretch i n) = some c →
        i2cAccepts period stretch (i2cStrCi period stretch i) n c := by
      intro c hf hs
      refine ⟨?_, hs⟩
      unfold i2cIdleAt
      rw [← hcore]
      rw [hf] at hrel
      exact i2cBusyInv_idle hb hrel.1
    have hci : i2cStrCi period stretch i n =
      i2cStrCoreIn ((i2cStream period stretch).st i n) (i n) := rfl
    simp only [Circuit.wave] at hstn
    constructor
    · intro hf
      rw [Circuit.st_succ] at hf
      generalize (i2cStream period stretch).st i n = s at *
      obtain ⟨fsm, lastR, core⟩ := s
      cases fsm
      case xfer =>
        have hx : (i n).valid = true ∧ (i n).beat.payload.1 = false := by
          simp only [i2cStream, i2cStrFsm] at hf
          cases hv : (i n).valid <;> cases hr : (i n).beat.payload.1 <;> simp [hv, hr] at hf ⊢
        obtain ⟨e1, e2⟩ := hstn hx.1 (by simp [i2cStream, hx])
        refine ⟨n, by omega, ?_, fun j a b => by omega⟩
        rw [e2]
        apply hacc _ rfl
        rw [hci]
        simp [i2cStrCoreIn, i2cStrobe, hx]
      case waitWrite =>
        obtain ⟨k, h1, h2, h3⟩ := ih.1 rfl
        have hbusy : core.busy = true := by
          cases hbusy : core.busy
          · simp only [i2cStream, i2cStrFsm, hbusy] at hf
            revert hf
            cases core.ackO <;> cases lastR <;> simp
          · rfl
        simp only at hrel
        obtain ⟨e1, e2⟩ := hstn hrel.1 (by simp [i2cStream, hbusy])
        rw [e2]
        refine ⟨k, by omega, h2, ?_⟩
        intro j a b
        rcases Nat.lt_or_ge j n with hj | hj
        · exact h3 j a hj
        · have : j = n := by omega
          rw [this, hci]
          simp [i2cStrCoreIn, i2cStrobe]
      all_goals
        exfalso
        revert hf
        simp only [i2cStream, i2cStrFsm]
        (repeat' split) <;> simp
    · intro hf
      rw [Circuit.st_succ] at hf ⊢
      generalize (i2cStream period stretch).st i n = s at *
      obtain ⟨fsm, lastR, core⟩ := s
      cases fsm
      case xfer =>
        have hx : (i n).valid = true ∧ (i n).beat.payload.1 = true := by
          simp only [i2cStream, i2cStrFsm] at hf
          cases hv : (i n).valid <;> cases hr : (i n).beat.payload.1 <;> simp [hv, hr] at hf ⊢
        refine ⟨n, by omega, ?_, fun j a b => by omega⟩
        apply hacc _ rfl
        rw [hci]
        simp [i2cStrCoreIn, i2cStrobe, hx, i2cStream]
      case waitRead =>
        obtain ⟨k, h1, h2, h3⟩ := ih.2 rfl
        refine ⟨k, by omega, h2, ?_⟩
        intro j a b
        rcases Nat.lt_or_ge j n with hj | hj
        · exact h3 j a hj
        · have : j = n := by omega
          rw [this, hci]
          simp [i2cStrCoreIn, i2cStrobe]
      all_goals
        exfalso
        revert hf
        simp only [i2cStream, i2cStrFsm]
        (repeat' split) <;> simp

theorem str_current (hst : i2cStrSinkStable period stretch i) (n : Nat) :
    let ci := i2cStrCi period stretch i
    let s := (i2cStream period stretch).st i n
    (s.fsm = .waitWrite → ∃ k, k < n ∧
      i2cAccepts period stretch ci k (.write (i n).beat.payload.2) ∧
      ∀ j, k < j → j < n → i2cStrobe (ci j) = none) ∧
    (s.fsm = .waitRead → ∃ k, k < n ∧ i2cAccepts period stretch ci k (.read (!s.lastR)) ∧
      ∀ j, k < j → j < n → i2cStrobe (ci j) = none) :=
  str_current_upto period stretch i n (fun k _ => hst k)

/-- C34: when a write beat is accepted, the initiator has run exactly that write, its byte was on the bus, and
`error` tells whether the target failed to acknowledge. -/
theorem C34_stream_write_outcome (hst : i2cStrSinkStable period stretch i) (n : Nat)
    (hv : (i n).valid = true) (hw : (i n).beat.payload.1 = false)
    (hr : ((i2cStream period stretch).wave i n).ready = true) :
    ∃ k e, e ≤ n ∧ i2cRan period stretch (i2cStrCi period stretch i) k e
        (.write (i n).beat.payload.2) ∧
      i2cRises period stretch (i2cStrCi period stretch i) k (e - k)
        = msbBits (i n).beat.payload.2 8 ++ [true] ∧
      ∃ c, k < c ∧ c < e ∧ ((i2cStream period stretch).wave i c).sclO = true ∧
        ((i2cStream period stretch).wave i n).error = (i c).sdaI := by
  have hcore := i2cStr_core period stretch i n
  have hf : ((i2cStream period stretch).st i n).fsm = .waitWrite ∧
      ((i2cStream period stretch).st i n).core.busy = false := by
    simp only [Circuit.wave] at hr
    generalize (i2cStream period stretch).st i n = s at *
    simpa [i2cStream, hw] using hr
  obtain ⟨k, h1, h2, h3⟩ := (str_current period stretch i hst n).1 hf.1
  obtain ⟨e, g1, g2, g3, g4⟩ := i2c_finished period stretch _ k n _ h2 h1 h3
    (by rw [← hcore]; exact hf.2)
  obtain ⟨a1, a2, a3, a4⟩ := g2
  obtain ⟨w1, c, w2, ⟨w3, w4, w5, w6⟩, w7, w8⟩ := C31_i2c_write period stretch _ k (e - k)
    (i n).beat.payload.2 a1 (by omega) (fun j x y => a4 _ (by omega) (by omega))
    (by rw [show k + (e - k) = e by omega]; exact a3)
  refine ⟨k, e, g1, ⟨a1, a2, a3, a4⟩, w1, c, w3, by omega, ?_, ?_⟩
  · change ((i2cStream period stretch).st i c).core.sclO = true
    rw [i2cStr_core]
    exact w4
  · rw [show k + (e - k) = e by omega] at w8
    have herr : ((i2cStream period stretch).wave i n).error =
        !((i2cStream period stretch).st i n).core.ackO := by
      simp only [Circuit.wave]
      generalize (i2cStream period stretch).st i n = s at *
      simp [i2cStream, hf]
    rw [herr, hcore, g3]
    change ((i2cInitiator period stretch).st (i2cStrCi period stretch i) e).ackO = _ at w8
    rw [w8, Bool.not_not]
    rfl

/-- C34: a byte offered on the source is the result of a read the initiator has run, acknowledged unless it
is the last one; its bits are the bus levels sampled under SCL high, most significant bit first. -/
theorem C34_stream_read_data (hst : i2cStrSinkStable period stretch i) (n : Nat)
    (hv : ((i2cStream period stretch).wave i n).valid = true) :
    let b := ((i2cStream period stretch).wave i n).beat
    ∃ k e, e ≤ n ∧ i2cRan period stretch (i2cStrCi period stretch i) k e (.read (!b.last)) ∧
      i2cRises period stretch (i2cStrCi period stretch i) k (e - k)
        = List.replicate 8 true ++ [b.last] ∧
      ∀ j, j < 8 → ∃ c, k < c ∧ c < e ∧ ((i2cStream period stretch).wave i c).sclO = true ∧
        i2cSample period stretch (i2cStrCi period stretch i) k c (j + 1) ∧
        b.payload.getLsbD (7 - j) = (i c).sdaI := by
  intro b
  have hcore := i2cStr_core period stretch i n
  have hf : ((i2cStream period stretch).st i n).fsm = .waitRead ∧
      ((i2cStream period stretch).st i n).core.busy = false := by
    simp only [Circuit.wave] at hv
    generalize (i2cStream period stretch).st i n = s at *
    simpa [i2cStream] using hv
  have hbeat : b.last = ((i2cStream period stretch).st i n).lastR ∧
      b.payload = ((i2cStream period stretch).st i n).core.dataO := by
    simp only [b, Circuit.wave]
    generalize (i2cStream period stretch).st i n = s at *
    simp [i2cStream, hf]
  obtain ⟨k, h1, h2, h3⟩ := (str_current period stretch i hst n).2 hf.1
  obtain ⟨e, g1, g2, g3, g4⟩ := i2c_finished period stretch _ k n _ h2 h1 h3
    (by rw [← hcore]; exact hf.2)
  rw [← hbeat.1] at g2
  obtain ⟨a1, a2, a3, a4⟩ := g2
  obtain ⟨w1, w2⟩ := C32_i2c_read period stretch _ k (e - k)
    (!b.last) a1 (by omega) (fun j x y => a4 _ (by omega) (by omega))
    (by rw [show k + (e - k) = e by omega]; exact a3)
  refine ⟨k, e, g1, ⟨a1, a2, a3, a4⟩, by rw [w1, Bool.not_not], ?_⟩
  intro j hj
  obtain ⟨c, c1, c2, c3, c4⟩ := w2 j hj
  refine ⟨c, c2.1, by omega, ?_, c2, ?_⟩
  · change ((i2cStream period stretch).st i c).core.sclO = true
    rw [i2cStr_core]
    exact c2.2.1
  · rw [show k + (e - k) = e by omega] at c4
    change ((i2cInitiator period stretch).st (i2cStrCi period stretch i) e).dataO.getLsbD _ = _ at c4
    rw [hbeat.2, hcore, g4, c4]
    rfl

/-- Beats delivered on the source of `I2CStream`. -/
def i2cStrDelivered (n : Nat) : List (Beat (BitVec 8)) :=
  transferred (fun k => ((i2cStream period stretch).wave i k).valid) (fun k => (i k).ready)
    (fun k => ((i2cStream period stretch).wave i k).beat) n

/-- C34: every accepted read yields exactly one byte on the source, in order and with the same `last`; at most
one byte is outstanding, and it has not been overtaken by another command. -/
theorem C34_stream_read_count (hst : i2cStrSinkStable period stretch i) (n : Nat) :
    ∃ pend : List Bool, pend.length ≤ 1 ∧
      ((i2cStrBeats period stretch i n).filter (fun b => b.1.payload.1)).map (fun b => b.1.last)
        = (i2cStrDelivered period stretch i n).map (fun b => b.last) ++ pend ∧
      (pend = [] ∨ ((i2cStream period stretch).wave i n).ready = false) := by
  have key : let s := (i2cStream period stretch).st i n
      ((i2cStrBeats period stretch i n).filter (fun b => b.1.payload.1)).map (fun b => b.1.last)
        = (i2cStrDelivered period stretch i n).map (fun b => b.last) ++
          (if s.fsm = .waitRead then [s.lastR] else []) := by
    induction n with
    | zero => rfl
    | succ n ih =>
      intro s
      have e1 : i2cStrBeats period stretch i (n + 1) = i2cStrBeats period stretch i n ++
        (if (i n).valid && ((i2cStream period stretch).out ((i2cStream period stretch).st i n)
            (i n)).ready then
          [((i n).beat, ((i2cStream period stretch).out ((i2cStream period stretch).st i n)
            (i n)).error)] else []) := rfl
      have e2 : i2cStrDelivered period stretch i (n + 1) = i2cStrDelivered period stretch i n ++
        (if ((i2cStream period stretch).out ((i2cStream period stretch).st i n) (i n)).valid &&
            (i n).ready then
          [((i2cStream period stretch).out ((i2cStream period stretch).st i n) (i n)).beat] else []) :=
        rfl
      have e3 : s = (i2cStream period stretch).next ((i2cStream period stretch).st i n) (i n) := rfl
      rw [e1, e2, e3, List.filter_append, List.map_append, ih, List.map_append]
      have hrel := (str_rel period stretch i hst n).2
      clear e1 e2 e3 s ih
      have hww : ((i2cStream period stretch).st i n).fsm = .waitWrite →
          (i n).beat.payload.1 = false := by
        intro hf
        rw [hf] at hrel
        exact hrel.2.1
      clear hrel hst
      generalize (i2cStream period stretch).st i n = s at *
      generalize i n = x at *
      obtain ⟨fsm, lastR, core⟩ := s
      obtain ⟨valid, ⟨first, last, rwn, data⟩, ready, sclI, sdaI⟩ := x
      cases fsm
      case xfer => cases valid <;> cases rwn <;> simp [i2cStream, i2cStrFsm]
      case waitRead =>
        cases hb : core.busy <;> cases ready <;> cases lastR <;> simp [i2cStream, i2cStrFsm, hb]
      case waitWrite =>
        have hr : rwn = false := hww rfl
        subst hr
        cases hb : core.busy <;> cases valid <;> cases ha : core.ackO <;> cases lastR <;>
          simp [i2cStream, i2cStrFsm, hb, ha]
      all_goals
        simp only [i2cStream, i2cStrFsm]
        (repeat' split) <;> simp_all
  refine ⟨_, ?_, key, ?_⟩
  · split <;> simp
  · simp only [Circuit.wave]
    generalize (i2cStream period stretch).st i n = s
    by_cases hf : s.fsm = .waitRead
    · right; simp [i2cStream, hf]
    · left; simp [hf]

/-- C34: a byte offered on the source is kept until it is taken. -/
theorem C34_stream_source_stable (hst : i2cStrSinkStable period stretch i) :
    Stable (fun k => ((i2cStream period stretch).wave i k).valid) (fun k => (i k).ready)
      (fun k => ((i2cStream period stretch).wave i k).beat) := by
  intro n hv hr
  obtain ⟨hb, _⟩ := str_rel period stretch i hst n
  simp only [Circuit.wave, Circuit.st_succ] at *
  generalize (i2cStream period stretch).st i n = s at *
  have hf : s.fsm = .waitRead ∧ s.core.busy = false := by simpa [i2cStream] using hv
  have hq := i2cCore_quiet period stretch s.core (i2cStrCoreIn s (i n)) (i2cBusyInv_idle hb hf.2)
    (by simp [i2cStrCoreIn, i2cStrobe, hf])
  simp only at hq
  have e1 : ((i2cStream period stretch).next s (i n)).fsm = .waitRead := by
    simp [i2cStream, i2cStrFsm, hf, hr]
  have e2 : ((i2cStream period stretch).next s (i n)).core =
    (i2cInitiator period stretch).next s.core (i2cStrCoreIn s (i n)) := rfl
  have e3 : ((i2cStream period stretch).next s (i n)).lastR = s.lastR := by
    simp [i2cStream, hf]
  generalize (i2cStream period stretch).next s (i n) = s' at *
  simp [i2cStream, e1, e2, e3, hf, hq]

/-! Progress -/

/-- In a state without strobes which is only left when `busy` is low, `busy` falls eventually. -/
theorem str_wait (hp : 4 ≤ period)
    (hinf : ∀ n, ∃ m, n ≤ m ∧
      i2cClockFollows period stretch (i2cStrCi period stretch i) m)
    (w : I2cStrSt)
    (hq : ∀ n, ((i2cStream period stretch).st i n).fsm = w →
      i2cStrobe (i2cStrCi period stretch i n) = none)
    (hstay : ∀ n, ((i2cStream period stretch).st i n).fsm = w →
      ((i2cStream period stretch).st i n).core.busy = true →
      ((i2cStream period stretch).st i (n + 1)).fsm = w)
    (n : Nat) (hn : ((i2cStream period stretch).st i n).fsm = w) :
    ∃ m, n ≤ m ∧ ((i2cStream period stretch).st i m).fsm = w ∧
      ((i2cStream period stretch).st i m).core.busy = false := by
  apply Classical.byContradiction
  intro hcon
  have hb : ∀ m, n ≤ m → ((i2cStream period stretch).st i m).fsm = w →
      ((i2cStream period stretch).st i m).core.busy = true := by
    intro m hm hf
    cases h : ((i2cStream period stretch).st i m).core.busy
    · exact absurd ⟨m, hm, hf, h⟩ hcon
    · rfl
  have hall : ∀ d, ((i2cStream period stretch).st i (n + d)).fsm = w := by
    intro d
    induction d with
    | zero => exact hn
    | succ d ih => exact hstay _ ih (hb (n + d) (by omega) ih)
  obtain ⟨m, hm, hid⟩ := C68_i2c_terminates_partial period stretch _ hp hinf n
  have hwm := hall (m - n)
  have hwm1 := hall (m - n + 1)
  rw [show n + (m - n) = m by omega] at hwm
  rw [show n + (m - n + 1) = m + 1 by omega] at hwm1
  have := (i2cCore_quiet period stretch _ (i2cStrCi period stretch i m) hid (hq m hwm)).2.1
  have hb1 := hb (m + 1) (by omega) hwm1
  rw [i2cStr_core, Circuit.st_succ, this] at hb1
  cases hb1

/-- With a period of at least four cycles, an offered beat is accepted eventually, provided the bus clock follows the driven
clock infinitely often and, while the beat waits, a receiver to which a byte is due is ready at some time. -/
theorem str_progress (hp : 4 ≤ period)
    (hst : i2cStrSinkStable period stretch i)
    (hinf : ∀ n, ∃ m, n ≤ m ∧
      (stretch = true → (i m).sclI = ((i2cStream period stretch).wave i m).sclO)) (n : Nat)
    (hrdy : (∀ m, n ≤ m → ((i2cStream period stretch).wave i m).ready = false) →
      ∀ m, n ≤ m → ((i2cStream period stretch).st i m).fsm = .waitRead → ∃ m', m ≤ m' ∧ (i m').ready = true)
    (hv : (i n).valid = true) :
    ∃ m, n ≤ m ∧ ((i2cStream period stretch).wave i m).ready = true := by
  apply Classical.byContradiction
  intro hcon
  have hnr : ∀ m, n ≤ m → ((i2cStream period stretch).wave i m).ready = false := by
    intro m hm
    cases h : ((i2cStream period stretch).wave i m).ready
    · rfl
    · exact absurd ⟨m, hm, h⟩ hcon
  have hval : ∀ d, (i (n + d)).valid = true := by
    intro d
    induction d with
    | zero => exact hv
    | succ d ih => exact (hst (n + d) ih (hnr _ (by omega))).1
  have hval : ∀ m, n ≤ m → (i m).valid = true := by
    intro m hm
    have := hval (m - n)
    rwa [show n + (m - n) = m by omega] at this
  have hinf' : ∀ n, ∃ m, n ≤ m ∧
      i2cClockFollows period stretch (i2cStrCi period stretch i) m := by
    intro n
    obtain ⟨m, h1, h2⟩ := hinf n
    refine ⟨m, h1, fun h => ?_⟩
    rw [show (i2cStrCi period stretch i m).sclI = (i m).sclI from rfl, h2 h]
    change ((i2cStream period stretch).st i m).core.sclO = _
    rw [i2cStr_core]
    rfl
  -- transitions
  have hwait : ∀ w, (w = .waitStart ∨ w = .waitWrite ∨ w = .waitRead ∨ w = .waitStop ∨ w = .idle) →
      ∀ m, ((i2cStream period stretch).st i m).fsm = w →
      ∃ m', m ≤ m' ∧ ((i2cStream period stretch).st i m').fsm = w ∧
        ((i2cStream period stretch).st i m').core.busy = false := by
    intro w hw m hm
    refine str_wait period stretch i hp hinf' w ?_ ?_ m hm
    · intro n hf
      unfold i2cStrCi
      generalize (i2cStream period stretch).st i n = s at *
      rcases hw with rfl | rfl | rfl | rfl | rfl <;> simp [i2cStrCoreIn, i2cStrobe, hf]
    · intro n hf hb
      rw [Circuit.st_succ]
      generalize (i2cStream period stretch).st i n = s at *
      rcases hw with rfl | rfl | rfl | rfl | rfl <;> simp [i2cStream, i2cStrFsm, hf, hb]
  have tWrite : ∀ m, n ≤ m → ((i2cStream period stretch).st i m).fsm = .waitWrite → False := by
    intro m hm hf
    obtain ⟨m', h1, h2, h3⟩ := hwait _ (by simp) m hf
    have := hnr m' (by omega)
    simp only [Circuit.wave] at this
    generalize (i2cStream period stretch).st i m' = s at *
    simp [i2cStream, h2, h3] at this
  have tXfer : ∀ m, n ≤ m → ((i2cStream period stretch).st i m).fsm = .xfer → False := by
    intro m hm hf
    cases hrw : (i m).beat.payload.1
    · apply tWrite (m + 1) (by omega)
      rw [Circuit.st_succ]
      have := hval m hm
      generalize (i2cStream period stretch).st i m = s at *
      simp [i2cStream, i2cStrFsm, hf, hrw, this]
    · have h1 := hnr m hm
      have h2 := hval m hm
      simp only [Circuit.wave] at h1
      generalize (i2cStream period stretch).st i m = s at *
      simp [i2cStream, hf, hrw, h2] at h1
  have tWaitStart : ∀ m, n ≤ m → ((i2cStream period stretch).st i m).fsm = .waitStart → False := by
    intro m hm hf
    obtain ⟨m', h1, h2, h3⟩ := hwait _ (by simp) m hf
    apply tXfer (m' + 1) (by omega)
    rw [Circuit.st_succ]
    generalize (i2cStream period stretch).st i m' = s at *
    simp [i2cStream, i2cStrFsm, h2, h3]
  have tStart : ∀ m, n ≤ m → ((i2cStream period stretch).st i m).fsm = .start → False := by
    intro m hm hf
    apply tWaitStart (m + 1) (by omega)
    rw [Circuit.st_succ]
    generalize (i2cStream period stretch).st i m = s at *
    simp [i2cStream, i2cStrFsm, hf]
  have tIdle : ∀ m, n ≤ m → ((i2cStream period stretch).st i m).fsm = .idle → False := by
    intro m hm hf
    -- idle is left as soon as busy is low, since a beat is offered
    obtain ⟨m', h1, h2, h3⟩ := hwait _ (by simp) m hf
    apply tStart (m' + 1) (by omega)
    rw [Circuit.st_succ]
    have := hval m' (by omega)
    generalize (i2cStream period stretch).st i m' = s at *
    simp [i2cStream, i2cStrFsm, h2, h3, this]
  have tWaitStop : ∀ m, n ≤ m → ((i2cStream period stretch).st i m).fsm = .waitStop → False := by
    intro m hm hf
    obtain ⟨m', h1, h2, h3⟩ := hwait _ (by simp) m hf
    apply tIdle (m' + 1) (by omega)
    rw [Circuit.st_succ]
    generalize (i2cStream period stretch).st i m' = s at *
    simp [i2cStream, i2cStrFsm, h2, h3]
  have tStop : ∀ m, n ≤ m → ((i2cStream period stretch).st i m).fsm = .stop → False := by
    intro m hm hf
    apply tWaitStop (m + 1) (by omega)
    rw [Circuit.st_succ]
    generalize (i2cStream period stretch).st i m = s at *
    simp [i2cStream, i2cStrFsm, hf]
  have tRead : ∀ m, n ≤ m → ((i2cStream period stretch).st i m).fsm = .waitRead → False := by
    intro m hm hf
    obtain ⟨m', h1, h2, h3⟩ := hwait _ (by simp) m hf
    obtain ⟨q, hq1, hq2⟩ := hrdy hnr m' (by omega) h2
    -- the byte stays on offer until the ready cycle, or the state is left before
    have hstay : ∀ d, (∃ q', n ≤ q' ∧ (((i2cStream period stretch).st i q').fsm = .xfer ∨
        ((i2cStream period stretch).st i q').fsm = .stop)) ∨
        (((i2cStream period stretch).st i (m' + d)).fsm = .waitRead ∧
          ((i2cStream period stretch).st i (m' + d)).core.busy = false) := by
      intro d
      induction d with
      | zero => exact .inr ⟨h2, h3⟩
      | succ d ih =>
        rcases ih with h | ⟨g1, g2⟩
        · exact .inl h
        · have hcq : ((i2cStream period stretch).st i (m' + d + 1)).core.busy = false := by
            have hid : ((i2cInitiator period stretch).st (i2cStrCi period stretch i)
                (m' + d)).fsm = .idle := by
              obtain ⟨hb, _⟩ := str_rel period stretch i hst (m' + d)
              rw [← i2cStr_core]
              exact i2cBusyInv_idle hb g2
            rw [i2cStr_core, Circuit.st_succ]
            refine (i2cCore_quiet period stretch _ _ hid ?_).2.1
            unfold i2cStrCi
            simp [i2cStrCoreIn, i2cStrobe, g1]
          cases hrd : (i (m' + d)).ready
          · right
            refine ⟨?_, hcq⟩
            rw [show m' + (d + 1) = m' + d + 1 from rfl, Circuit.st_succ]
            generalize (i2cStream period stretch).st i (m' + d) = s at *
            simp [i2cStream, i2cStrFsm, g1, g2, hrd]
          · left
            refine ⟨m' + d + 1, by omega, ?_⟩
            rw [Circuit.st_succ]
            generalize (i2cStream period stretch).st i (m' + d) = s at *
            simp only [i2cStream, i2cStrFsm, g1, g2, hrd]
            cases s.lastR <;> simp
    rcases hstay (q - m' + 1) with ⟨q', a, b | b⟩ | ⟨b, _⟩
    · exact tXfer q' a b
    · exact tStop q' a b
    · rcases hstay (q - m') with ⟨q', a, b | b⟩ | ⟨b1, b2⟩
      · exact tXfer q' a b
      · exact tStop q' a b
      · rw [show m' + (q - m' + 1) = q + 1 by omega, Circuit.st_succ] at b
        rw [show m' + (q - m') = q by omega] at b1 b2
        generalize (i2cStream period stretch).st i q = s at *
        simp only [i2cStream, i2cStrFsm, b1, b2, hq2] at b
        revert b
        cases s.lastR <;> simp
  cases hf : ((i2cStream period stretch).st i n).fsm
  · exact tIdle n (Nat.le_refl _) hf
  · exact tStart n (Nat.le_refl _) hf
  · exact tWaitStart n (Nat.le_refl _) hf
  · exact tXfer n (Nat.le_refl _) hf
  · exact tWrite n (Nat.le_refl _) hf
  · exact tRead n (Nat.le_refl _) hf
  · exact tStop n (Nat.le_refl _) hf
  · exact tWaitStop n (Nat.le_refl _) hf

/-- C34: with a period of at least four cycles, every offered beat is accepted eventually, provided the bus
clock follows the driven clock infinitely often and the receiver is infinitely often ready. -/
theorem C34_stream_progress (hp : 4 ≤ period)
    (hst : i2cStrSinkStable period stretch i)
    (hinf : ∀ n, ∃ m, n ≤ m ∧
      (stretch = true → (i m).sclI = ((i2cStream period stretch).wave i m).sclO))
    (hrdy : ∀ n, ∃ m, n ≤ m ∧ (i m).ready = true) (n : Nat) (hv : (i n).valid = true) :
    ∃ m, n ≤ m ∧ ((i2cStream period stretch).wave i m).ready = true :=
  str_progress period stretch i hp hst hinf n (fun _ m _ _ => hrdy m) hv

/-- Write of a chip address, acknowledged by a device that holds SDA low, then a last byte read from a device
that toggles SDA. -/
def i2cStrSample (n : Nat) : I2cStrIn :=
  if n ≤ 81 then ⟨true, ⟨false, false, (false, 0xA1)⟩, true, true, decide (n < 8)⟩
  else ⟨decide (n ≤ 82), ⟨false, true, (true, 0)⟩, true, true, decide (n % 24 < 11)⟩

example : i2cCmdLog 4 false (i2cStrCi 4 false i2cStrSample) 190
    = [.start, .write 0xA1, .read false, .stop] := by decide +kernel

example : i2cStrBeats 4 false i2cStrSample 190
    = [(⟨false, false, (false, 0xA1)⟩, false), (⟨false, true, (true, 0)⟩, false)] := by
  decide +kernel


example : i2cStrSinkStable 4 false i2cStrSample := by
  intro n hv hr
  by_cases h : n ≤ 80
  · simp [i2cStrSample, h, show n ≤ 81 by omega, show n + 1 ≤ 81 by omega]
  · by_cases h2 : n ≤ 82
    · obtain rfl | rfl : n = 81 ∨ n = 82 := by omega
      · exact absurd hr (by decide +kernel)
      · exact absurd hr (by decide +kernel)
    · simp [i2cStrSample, h2, show ¬ n ≤ 81 by omega] at hv

end

end Lambdalib
