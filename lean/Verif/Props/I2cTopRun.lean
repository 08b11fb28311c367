import Verif.Model.I2cTop
import Verif.Props.I2cHost
import Verif.Props.Layout

/-! The UART, the FIFOs and the host of the I2C bridge of the examples, seen from `I2CProto` (C107). -/

namespace Lambdalib

/-- Bytes in a FIFO. -/
def topPay (q : List (BitVec (1 + (1 + 8)))) : List (BitVec 8) := q.map fun b => (unpackBeat b).payload

/-- Bytes on their way from the UART to `I2CProto`. -/
def topInside (s : I2cTopS) : List (BitVec 8) := topPay s.rx ++ if s.ser.valid then [BitVec.ofNat 8 s.ser.data] else []

theorem topShow_eq (depth : Nat) (q : List (BitVec (1 + (1 + 8)))) :
    (topShow depth q).ready = decide (q.length < fifoDepth depth) ∧ (topShow depth q).valid = !q.isEmpty ∧
      (topShow depth q).beat = unpackBeat (q.headD 0) := ⟨rfl, rfl, rfl⟩

theorem topFifo_next (depth : Nat) (q : List (BitVec (1 + (1 + 8)))) (x : SIn (BitVec 8)) :
    topPay ((topFifo depth).next q x) = (if x.ready then (topPay q).tail else topPay q) ++
      (if x.valid && (topShow depth q).ready then [x.beat.payload] else []) := by
  have e : (topFifo depth).next q x = (if x.ready then q.tail else q) ++
      (if x.valid && (topShow depth q).ready then [packBeat x.beat] else []) := rfl
  rw [e]
  unfold topPay
  rw [List.map_append]
  congr 1
  · split <;> simp
  · split
    · rw [List.map_singleton, C08_fifo_pack_unpack]
    · rfl

section
variable (period : Nat) (stretch : Bool) (depth : Nat)

/-- A byte from the UART is taken if there is room. -/
theorem top_rxAck (s : I2cTopS) (x : I2cTopIn) (h : (topInside s).length ≤ fifoDepth depth) :
    ((i2cTop period stretch depth).out s x).rxAck = true := by
  change (!(s.ser.valid && !(topShow depth s.rx).ready)) = true
  rw [(topShow_eq depth s.rx).1]
  unfold topInside topPay at h
  cases hv : s.ser.valid
  · rfl
  · rw [hv] at h
    simp at h
    simp
    omega

/-- What a cycle does to the bytes on their way to `I2CProto`. -/
theorem top_inside_next (s : I2cTopS) (x : I2cTopIn) (ha : ((i2cTop period stretch depth).out s x).rxAck = true) :
    let y := topProtoIn depth s x
    let o := (i2cProto period stretch).out s.proto y
    topInside ((i2cTop period stretch depth).next s x) = (if y.valid && o.ready then (topInside s).tail else topInside s) ++
      (if x.rxRdy then [x.rxData] else []) := by
  intro y o
  have hy : y.valid = !s.rx.isEmpty := rfl
  have ha' : (!(s.ser.valid && !(topShow depth s.rx).ready)) = true := ha
  have e1 : ((i2cTop period stretch depth).next s x).rx = (topFifo depth).next s.rx ⟨s.ser.valid, ⟨false, false, BitVec.ofNat 8 s.ser.data⟩, o.ready⟩ := rfl
  have e2 : ((i2cTop period stretch depth).next s x).ser = (if (!(s.ser.valid && !(topShow depth s.rx).ready)) && x.rxRdy then ⟨true, x.rxData.toNat⟩
    else if s.ser.valid && (topShow depth s.rx).ready then { s.ser with valid := false } else s.ser) := rfl
  unfold topInside
  rw [e1, e2, ha', topFifo_next, hy]
  obtain ⟨ser, rx, tx, proto⟩ := s
  obtain ⟨v, d⟩ := ser
  simp only at *
  generalize (topShow depth rx).ready = r at *
  generalize o.ready = ord at *
  have hrx : topPay rx = [] ↔ rx.isEmpty = true := by simp [topPay]
  have hz : rx.isEmpty = true → topPay rx = [] := hrx.2
  have hnz : rx.isEmpty = false → ∃ a l, topPay rx = a :: l := by
    intro h
    cases hp : topPay rx with
    | nil => rw [hrx.1 hp] at h; cases h
    | cons a l => exact ⟨a, l, rfl⟩
  generalize topPay rx = q at *
  cases he : rx.isEmpty
  · obtain ⟨a, l, rfl⟩ := hnz he
    cases v <;> cases r <;> cases ord <;> cases hx : x.rxRdy <;> simp_all
  · rw [hz he]
    cases v <;> cases r <;> cases ord <;> cases hx : x.rxRdy <;> simp_all

/-- What a cycle does to the bytes on their way to the UART. -/
theorem top_outside_next (s : I2cTopS) (x : I2cTopIn) :
    let y := topProtoIn depth s x
    let o := (i2cProto period stretch).out s.proto y
    let u := (i2cTop period stretch depth).out s x
    topPay s.tx ++ (if o.valid && y.ready then some o.beat.payload else none).toList =
      (if u.txAck && x.txRdy then some u.txData else none).toList ++ topPay ((i2cTop period stretch depth).next s x).tx := by
  intro y o u
  have e1 : ((i2cTop period stretch depth).next s x).tx = (topFifo depth).next s.tx ⟨o.valid, o.beat, x.txRdy⟩ := rfl
  have e2 : u.txAck = !s.tx.isEmpty := rfl
  have e3 : u.txData = BitVec.ofNat 8 (unpackBeat (s.tx.headD 0)).payload.toNat := rfl
  have e4 : y.ready = (topShow depth s.tx).ready := rfl
  rw [e1, e2, e3, e4, topFifo_next]
  generalize (topShow depth s.tx).ready = r
  obtain ⟨ser, rx, tx, proto⟩ := s
  simp only at *
  generalize o.valid = v
  generalize o.beat.payload = b
  cases tx with
  | nil => cases v <;> cases r <;> cases x.txRdy <;> simp [topPay]
  | cons a l => cases v <;> cases r <;> cases x.txRdy <;> simp [topPay]

variable (i : Nat → I2cTopIn)

/-- Inputs of `I2CProto` in an execution of the bridge. -/
def topPi (n : Nat) : I2cProtoIn := topProtoIn depth ((i2cTop period stretch depth).st i n) (i n)

theorem top_proto (n : Nat) : ((i2cTop period stretch depth).st i n).proto = (i2cProto period stretch).st (topPi period stretch depth i) n := by
  induction n with
  | zero => rfl
  | succ n ih =>
    rw [Circuit.st_succ, Circuit.st_succ, ← ih]
    rfl

theorem top_wave (n : Nat) : (i2cProto period stretch).wave (topPi period stretch depth i) n =
    (i2cProto period stretch).out ((i2cTop period stretch depth).st i n).proto (topPi period stretch depth i n) := by
  rw [Circuit.wave, top_proto]

end

section
variable {α : Type}

/-- An execution of the bridge with a host behind the UART. The UART has received a byte of the host in the cycles with `rxRdy`; the
byte is lost if the bridge does not take it. -/
structure UartRun (period : Nat) (stretch : Bool) (depth : Nat) (p : PyProg α) (i : Nat → I2cTopIn) (go : Nat → Bool)
    (h : Nat → PyHost α) : Prop where
  init : h 0 = ⟨p, [], []⟩
  step : ∀ n, let o := (i2cTop period stretch depth).wave i n
    h (n + 1) = (h n).step (go n) (i n).rxRdy (if o.txAck && (i n).txRdy then some o.txData else none)
  send : ∀ n, (i n).rxRdy = true → ∃ t, (h n).tx = (i n).rxData :: t

/-- The host as `I2CProto` sees it: bytes in the bridge are those of the host. -/
def uartHost (s : I2cTopS) (h : PyHost α) : PyHost α := ⟨h.prog, topInside s ++ h.tx, h.rx ++ topPay s.tx⟩

/-- The program goes on: it does not wait for bytes that are in the bridge. -/
def uartGo (go : Bool) (prog : PyProg α) (rx : List (BitVec 8)) : Bool :=
  go && match prog with
    | .read m _ => decide (m ≤ rx.length)
    | _ => true

/-- A step of the host. -/
theorem uart_act (go : Bool) (h : PyHost α) (a b : List (BitVec 8)) :
    (if uartGo go h.prog h.rx then (PyHost.act ⟨h.prog, a ++ h.tx, h.rx ++ b⟩) else ⟨h.prog, a ++ h.tx, h.rx ++ b⟩) =
      (let k := if go then h.act else h; ⟨k.prog, a ++ k.tx, k.rx ++ b⟩ : PyHost α) := by
  obtain ⟨prog, tx, rx⟩ := h
  cases go
  · rfl
  · simp only [uartGo, Bool.true_and]
    cases prog with
    | ret r => rfl
    | write l k => simp [PyHost.act]
    | read m k =>
      by_cases hm : m ≤ rx.length
      · simp only [hm, decide_true, if_true, PyHost.act, List.length_append]
        rw [if_pos (by omega), List.take_append_of_le_length hm, List.drop_append_of_le_length hm]
      · simp only [PyHost.act, hm, if_false, decide_false, Bool.false_eq_true, if_true]

variable {period : Nat} {stretch : Bool} {depth : Nat} {p : PyProg α} {i : Nat → I2cTopIn} {go : Nat → Bool} {h : Nat → PyHost α}

/-- The host as `I2CProto` sees it, in an execution. -/
def uartSeen (period : Nat) (stretch : Bool) (depth : Nat) (i : Nat → I2cTopIn) (h : Nat → PyHost α) (n : Nat) : PyHost α :=
  uartHost ((i2cTop period stretch depth).st i n) (h n)

/-- When its program goes on. -/
def uartGoes (period : Nat) (stretch : Bool) (depth : Nat) (i : Nat → I2cTopIn) (go : Nat → Bool) (h : Nat → PyHost α) (n : Nat) : Bool :=
  let o := (i2cTop period stretch depth).wave i n
  uartGo (go n) (h n).prog ((h n).rx ++ (if o.txAck && (i n).txRdy then some o.txData else none).toList)

theorem uart_offer (s : I2cTopS) (x : I2cTopIn) (hv : (topProtoIn depth s x).valid = true) :
    ∃ t, topInside s = (topProtoIn depth s x).data :: t := by
  have e1 : (topProtoIn depth s x).valid = !s.rx.isEmpty := rfl
  have e2 : (topProtoIn depth s x).data = (unpackBeat (s.rx.headD 0)).payload := rfl
  rw [e2]
  rw [e1] at hv
  unfold topInside topPay
  cases hx : s.rx with
  | nil => rw [hx] at hv; cases hv
  | cons a l => exact ⟨_, rfl⟩

/-- One cycle, when no byte is lost. -/
theorem uart_step (s : I2cTopS) (x : I2cTopIn) (go : Bool) (h : PyHost α) (ha : ((i2cTop period stretch depth).out s x).rxAck = true)
    (hsend : x.rxRdy = true → ∃ t, h.tx = x.rxData :: t) :
    let u := (i2cTop period stretch depth).out s x
    let y := topProtoIn depth s x
    let o := (i2cProto period stretch).out s.proto y
    let got := if u.txAck && x.txRdy then some u.txData else none
    uartHost ((i2cTop period stretch depth).next s x) (h.step go x.rxRdy got) =
      (uartHost s h).step (uartGo go h.prog (h.rx ++ got.toList)) (y.valid && o.ready)
        (if o.valid && y.ready then some o.beat.payload else none) := by
  intro u y o got
  have h1 := top_inside_next period stretch depth s x ha
  have h2 := top_outside_next period stretch depth s x
  simp only [PyHost.step, uartHost]
  have htx : (if y.valid && o.ready then (topInside s ++ h.tx).tail else topInside s ++ h.tx) =
      topInside ((i2cTop period stretch depth).next s x) ++ (if x.rxRdy then h.tx.tail else h.tx) := by
    rw [h1, List.append_assoc]
    have e : (if x.rxRdy then [x.rxData] else []) ++ (if x.rxRdy then h.tx.tail else h.tx) = h.tx := by
      split
      · rename_i hr
        obtain ⟨t, ht⟩ := hsend hr
        rw [ht]; rfl
      · rfl
    rw [e]
    change _ = (if y.valid && o.ready then (topInside s).tail else topInside s) ++ h.tx
    split
    · rename_i hv
      rw [Bool.and_eq_true] at hv
      obtain ⟨t, ht⟩ := uart_offer s x hv.1
      rw [ht]; rfl
    · rfl
  have h2' : h.rx ++ topPay s.tx ++ (if o.valid && y.ready then some o.beat.payload else none).toList =
      h.rx ++ got.toList ++ topPay ((i2cTop period stretch depth).next s x).tx := by
    rw [List.append_assoc, List.append_assoc]
    exact congrArg (h.rx ++ ·) h2
  rw [htx, h2']
  exact (uart_act go ⟨h.prog, if x.rxRdy then h.tx.tail else h.tx, h.rx ++ got.toList⟩
    (topInside ((i2cTop period stretch depth).next s x)) (topPay ((i2cTop period stretch depth).next s x).tx)).symm

/-- As long as no byte is lost, the bridge with its host is a host for `I2CProto`. -/
theorem uart_host_to (hu : UartRun period stretch depth p i go h) (N : Nat)
    (ha : ∀ n, n < N → ((i2cTop period stretch depth).wave i n).rxAck = true) :
    PyHostRunTo period stretch p (topPi period stretch depth i) (uartGoes period stretch depth i go h)
      (uartSeen period stretch depth i h) N := by
  refine ⟨?_, ?_, ?_, ?_⟩
  · rw [uartSeen, hu.init]; rfl
  · intro n hn
    have := uart_step ((i2cTop period stretch depth).st i n) (i n) (go n) (h n) (ha n hn) (hu.send n)
    simp only [top_wave]
    simp only [uartSeen, Circuit.st_succ]
    rw [hu.step n]
    exact this
  · intro n _ hv
    obtain ⟨t, ht⟩ := uart_offer _ (i n) hv
    refine ⟨t ++ (h n).tx, ?_⟩
    simp only [uartSeen, uartHost, ht]
    rfl
  · intro n hn hv hr
    rw [top_wave] at hr
    simp only [topPi, Circuit.st_succ] at *
    generalize (i2cTop period stretch depth).st i n = s at *
    have e1 : (topProtoIn depth s (i n)).valid = !s.rx.isEmpty := rfl
    have e2 : (topProtoIn depth ((i2cTop period stretch depth).next s (i n)) (i (n + 1))).valid =
      !((i2cTop period stretch depth).next s (i n)).rx.isEmpty := rfl
    have e3 := topFifo_next depth s.rx ⟨s.ser.valid, ⟨false, false, BitVec.ofNat 8 s.ser.data⟩,
      ((i2cProto period stretch).out s.proto (topProtoIn depth s (i n))).ready⟩
    have e4 : ((i2cTop period stretch depth).next s (i n)).rx = (topFifo depth).next s.rx ⟨s.ser.valid, ⟨false, false, BitVec.ofNat 8 s.ser.data⟩,
      ((i2cProto period stretch).out s.proto (topProtoIn depth s (i n))).ready⟩ := rfl
    rw [← e4] at e3
    simp only [hr, Bool.false_eq_true, if_false] at e3
    rw [e1] at hv
    rw [e2]
    generalize ((i2cTop period stretch depth).next s (i n)).rx = q at *
    cases q with
    | cons => rfl
    | nil =>
      have : topPay s.rx = [] := (List.append_eq_nil_iff.1 e3.symm).1
      simp [topPay] at this
      rw [this] at hv
      cases hv

/-- The room in the bridge. -/
theorem uart_room {d : BusDevices} {A R : List (BitVec 8)} {n c cap : Nat}
    (H : HostAt d p A R (uartSeen period stretch depth i h n) c) (hs : p.Small cap) (hl : p.Lockstep d ⟨[], [], []⟩)
    (hcap : cap ≤ fifoDepth depth) : ((i2cTop period stretch depth).wave i n).rxAck = true := by
  refine top_rxAck period stretch depth _ _ ?_
  have := (H.small cap hs hl).1
  simp only [uartSeen, uartHost, List.length_append] at this
  omega

end

end Lambdalib
