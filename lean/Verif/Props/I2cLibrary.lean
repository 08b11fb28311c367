import Verif.Props.I2cHost

/-! Calls of the host library on `I2CProto`, wires and device (C102). -/

namespace Lambdalib

/-! ### Calls of the library as programs -/

section
variable {α β σ : Type}

/-- A program, then another one. -/
def PyProg.bind : PyProg α → (α → PyProg β) → PyProg β
  | .ret a, f => f a
  | .write l k, f => .write l (k.bind f)
  | .read n k, f => .read n fun r => (k r).bind f

theorem PyProg.bind_run (dev : PyDev σ) (p : PyProg α) (f : α → PyProg β) : ∀ s,
    (p.bind f).run dev s = (f (p.run dev s).1).run dev (p.run dev s).2 := by
  induction p with
  | ret a => intro s; rfl
  | write l k ih => intro s; exact ih _
  | read n k ih => intro s; exact ih _ _

theorem PyProg.bind_written (dev : PyDev σ) (p : PyProg α) (f : α → PyProg β) : ∀ s,
    (p.bind f).written dev s = p.written dev s ++ (f (p.run dev s).1).written dev (p.run dev s).2 := by
  induction p with
  | ret a => intro s; rfl
  | write l k ih => intro s; simp only [PyProg.bind, PyProg.written, ih, PyProg.run, List.append_assoc]
  | read n k ih => intro s; exact ih _ _

theorem PyProg.bind_full (dev : PyDev σ) (p : PyProg α) (f : α → PyProg β) : ∀ s, p.Full dev s →
    (f (p.run dev s).1).Full dev (p.run dev s).2 → (p.bind f).Full dev s := by
  induction p with
  | ret a => intro s _ h; exact h
  | write l k ih => intro s h1 h2; exact ih _ h1 h2
  | read n k ih => intro s h1 h2; exact ⟨h1.1, ih _ _ h1.2 h2⟩

theorem PyProg.bind_patient (d : BusDevices) (p : PyProg α) (f : α → PyProg β) : ∀ s, p.Patient d s →
    (f (p.run (bridgeDev d) s).1).Patient d (p.run (bridgeDev d) s).2 → (p.bind f).Patient d s := by
  induction p with
  | ret a => intro s _ h; exact h
  | write l k ih => intro s h1 h2; exact ⟨h1.1, ih _ h1.2 h2⟩
  | read n k ih => intro s h1 h2; exact ih _ _ h1 h2

theorem PyProg.bind_lockstep (d : BusDevices) (p : PyProg α) (f : α → PyProg β) : ∀ s, p.Lockstep d s →
    (f (p.run (bridgeDev d) s).1).Lockstep d (p.run (bridgeDev d) s).2 → (p.bind f).Lockstep d s := by
  induction p with
  | ret a => intro s _ h; exact h
  | write l k ih => intro s h1 h2; exact ⟨h1.1, ih _ h1.2 h2⟩
  | read n k ih => intro s h1 h2; exact ih _ _ h1 h2

theorem PyProg.bind_small (cap : Nat) (p : PyProg α) (f : α → PyProg β) (h : p.Small cap) (hf : ∀ a, (f a).Small cap) :
    (p.bind f).Small cap := by
  induction p with
  | ret a => exact hf a
  | write l k ih => exact ⟨h.1, ih h.2⟩
  | read n k ih => exact fun r => ih r (h r)

theorem PyProg.bind_complete (p : PyProg α) (f : α → PyProg β) (h : p.Complete) (hf : ∀ a, (f a).Complete) :
    (p.bind f).Complete := by
  induction p with
  | ret a => exact hf a
  | write l k ih => exact ⟨h.1, ih h.2⟩
  | read n k ih => exact fun r => ih r (h r)

/-- Sequencing: an exception ends the program. -/
def PyProg.thenOk (p : PyProg (Except PyErr α)) (f : α → PyProg (Except PyErr β)) : PyProg (Except PyErr β) :=
  p.bind fun | .error e => .ret (.error e) | .ok a => f a

/-- `busRequest`. -/
def reqProg (l : List Int) : PyProg (Except PyErr (BitVec 8)) :=
  match pyBytes l with
  | none => .ret (.error .valueError)
  | some b => .write b (.read 1 fun r => .ret (match r with | [] => .error .indexError | s :: _ => .ok s))

theorem reqProg_run (dev : PyDev σ) (l : List Int) (s : σ) : (reqProg l).run dev s = busRequest dev l s := by
  unfold reqProg busRequest
  cases pyBytes l with
  | none => rfl
  | some b =>
    simp only [PyProg.run]
    cases (dev.read 1 (dev.write b s)).1 <;> rfl

def writeProg (width addr reg : Int) (data : List Int) : PyProg (Except PyErr (Option Nat)) :=
  (reqProg ([addr * 2, regAddrSize width + data.length] ++ (regAddrArray width reg ++ data))).thenOk fun status =>
    .ret (.ok (if status ≠ 0 then none else some data.length))

def readProg (width addr reg length : Int) : PyProg (Except PyErr (Option (List (BitVec 8)))) :=
  (reqProg ([addr * 2, regAddrSize width] ++ regAddrArray width reg)).thenOk fun status =>
    if status ≠ 0 then .ret (.ok none) else (reqProg [addr * 2 + 1, length]).thenOk fun status =>
      if status ≠ 0 then .ret (.ok none) else .read length.toNat fun r => .ret (.ok (some r))

def discoverProg : Nat → Nat → PyProg (Except PyErr (List Nat × List BusTok))
  | 0, _ => .ret (.ok ([], []))
  | n + 1, addr => (reqProg [(addr : Int) * 2, 0]).thenOk fun status => (discoverProg n (addr + 1)).thenOk fun r =>
      .ret (.ok ((if status ≠ 0 then [] else [addr]) ++ r.1, busToks addr status ++ r.2))

def queueProg : PyProg (Except PyErr (List BusTok)) :=
  match pyBytes ((List.range 128).flatMap fun (addr : Nat) => [(addr : Int) * 2, 0]) with
  | none => .ret (.error .valueError)
  | some buffer => .write buffer (.read 128 fun r => .ret (.ok (r.zipIdx.flatMap fun p => busToks p.2 p.1)))

/-- A call as a program. -/
def BusCall.prog : BusCall → PyProg (Except PyErr BusRes)
  | .write w a r d => (writeProg w a r d).bind fun x => .ret (x.map .wrote)
  | .read w a r l => (readProg w a r l).bind fun x => .ret (x.map .read)
  | .discover => (discoverProg 128 0).bind fun x => .ret (x.map .found)
  | .discoverQueue => queueProg.bind fun x => .ret (x.map .map)

/-- Calls one after the other. -/
def BusCall.progAll : List BusCall → PyProg (Except PyErr (List BusRes))
  | [] => .ret (.ok [])
  | c :: cs => c.prog.thenOk fun r => (progAll cs).bind fun x => .ret (x.map (r :: ·))

theorem PyProg.thenOk_run (dev : PyDev σ) (p : PyProg (Except PyErr α)) (f : α → PyProg (Except PyErr β)) (s : σ) :
    (p.thenOk f).run dev s = match p.run dev s with
      | (.error e, s) => (.error e, s)
      | (.ok a, s) => (f a).run dev s := by
  unfold PyProg.thenOk
  rw [PyProg.bind_run]
  rcases p.run dev s with ⟨_ | _, s⟩ <;> rfl

theorem writeProg_run (dev : PyDev σ) (w a r : Int) (d : List Int) (s : σ) :
    (writeProg w a r d).run dev s = writeBlockData dev w a r d s := by
  unfold writeProg writeBlockData
  rw [PyProg.thenOk_run, reqProg_run]
  simp only
  rcases busRequest dev ([a * 2, regAddrSize w + ↑d.length] ++ (regAddrArray w r ++ d)) s with ⟨_ | status, s⟩
  · rfl
  · simp only [PyProg.run]
    split <;> rfl

theorem readProg_run (dev : PyDev σ) (w a r l : Int) (s : σ) :
    (readProg w a r l).run dev s = readBlockData dev w a r l s := by
  unfold readProg readBlockData
  rw [PyProg.thenOk_run, reqProg_run]
  rcases busRequest dev ([a * 2, regAddrSize w] ++ regAddrArray w r) s with ⟨_ | status, s⟩
  · rfl
  · simp only
    split
    · rfl
    · rw [PyProg.thenOk_run, reqProg_run]
      rcases busRequest dev [a * 2 + 1, l] s with ⟨_ | status, s⟩
      · rfl
      · simp only
        split <;> rfl

theorem discoverProg_run (dev : PyDev σ) (n : Nat) : ∀ a s, (discoverProg n a).run dev s = discoverLoop dev n a s := by
  induction n with
  | zero => intro a s; rfl
  | succ n ih =>
    intro a s
    unfold discoverProg discoverLoop
    rw [PyProg.thenOk_run, reqProg_run]
    rcases busRequest dev [(a : Int) * 2, 0] s with ⟨_ | status, s⟩
    · rfl
    · simp only [pyBind]
      rw [PyProg.thenOk_run, ih]
      rcases discoverLoop dev n (a + 1) s with ⟨_ | r, s⟩ <;> rfl

theorem queueProg_run (dev : PyDev σ) (s : σ) : queueProg.run dev s = discoverQueue dev s := by
  unfold queueProg discoverQueue
  generalize pyBytes _ = b
  cases b <;> rfl

theorem BusCall.prog_run (dev : PyDev σ) (c : BusCall) (s : σ) : c.prog.run dev s = c.exec dev s := by
  cases c <;> simp only [BusCall.prog, BusCall.exec, PyProg.bind_run, PyProg.run]
  · rw [writeProg_run]
  · rw [readProg_run]
  · rw [discoverProg_run]; rfl
  · rw [queueProg_run]

/-- C102: the programs are the modelled calls, with any device. -/
theorem C102_program_of_calls (dev : PyDev σ) (cs : List BusCall) : ∀ s,
    (BusCall.progAll cs).run dev s = BusCall.execAll dev cs s := by
  induction cs with
  | nil => intro s; rfl
  | cons c cs ih =>
    intro s
    rw [BusCall.progAll, BusCall.execAll, PyProg.thenOk_run, BusCall.prog_run]
    rcases c.exec dev s with ⟨_ | r, s⟩
    · rfl
    · simp only
      rw [PyProg.bind_run, ih]
      rfl

end

/-! ### What the calls are to do -/

/-- The register width of a write is not negative. -/
def BusCall.WidthOk : BusCall → Prop
  | .write w _ _ _ => 0 ≤ w
  | _ => True

instance (w a : Int) (d : List Int) : Decidable (WriteFits w a d) := by unfold WriteFits; infer_instance

/-- The write that sets the register address of a block read. -/
def regTxn (w a r : Int) : BusTxn := .write a.toNat (beBytes (w / 8).toNat r)

/-- Result of a call and transactions on the bus, for the transactions before. What does not fit the protocol is a `ValueError`. -/
def BusCall.spec (d : BusDevices) (log : List BusTxn) : BusCall → Except PyErr BusRes × List BusTxn
  | .write w a r data =>
    let t := BusTxn.write a.toNat (beBytes (w / 8).toNat r ++ data.map (BitVec.ofInt 8))
    if WriteFits w a data then (.ok (.wrote (if (d log t).isSome then some data.length else none)), [t]) else (.error .valueError, [])
  | .read w a r l =>
    let t := regTxn w a r
    let u := BusTxn.read a.toNat l.toNat
    if 0 ≤ a ∧ a ≤ 127 ∧ 0 ≤ w ∧ w / 8 ≤ 255 then
      if (d log t).isSome then
        if 0 ≤ l ∧ l ≤ 255 then (.ok (.read (d (log ++ [t]) u)), [t, u]) else (.error .valueError, [t])
      else (.ok (.read none), [t])
    else (.error .valueError, [])
  | .discover => (.ok (.found ((List.range 128).filter (probeAck d log 0), (List.range 128).flatMap (busMap (probeAck d log 0)))), probes 0 128)
  | .discoverQueue => (.ok (.map ((List.range 128).flatMap (busMap (probeAck d log 0)))), probes 0 128)

/-- Results and transactions of calls, for the transactions before. An exception ends the program. -/
def BusCall.specAll (d : BusDevices) : List BusTxn → List BusCall → Except PyErr (List BusRes) × List BusTxn
  | _, [] => (.ok [], [])
  | log, c :: cs =>
    match c.spec d log with
    | (.error e, t) => (.error e, t)
    | (.ok r, t) => let y := specAll d (log ++ t) cs; (y.1.map (r :: ·), t ++ y.2)

/-- A block read of zero bytes is refused by the device. -/
def BusCall.ReadOk (d : BusDevices) (log : List BusTxn) : BusCall → Prop
  | .read w a r l => (d log (regTxn w a r)).isSome = true →
      l = 0 → d (log ++ [regTxn w a r]) (.read a.toNat 0) = none
  | _ => True

def BusCall.ReadOkAll (d : BusDevices) : List BusTxn → List BusCall → Prop
  | _, [] => True
  | log, c :: cs => c.ReadOk d log ∧ ReadOkAll d (log ++ (c.spec d log).2) cs

/-- A call other than a block read of zero bytes. -/
def BusCall.NonEmpty : BusCall → Prop
  | .read _ _ _ l => l ≠ 0
  | _ => True

theorem BusCall.readOk_nonEmpty (d : BusDevices) (cs : List BusCall) : ∀ log, (∀ c ∈ cs, c.NonEmpty) →
    BusCall.ReadOkAll d log cs := by
  induction cs with
  | nil => intros; trivial
  | cons c cs ih =>
    intro log h
    refine ⟨?_, ih _ fun c hc => h c (by simp [hc])⟩
    have := h c (by simp)
    cases c with
    | read w a r l => exact fun _ h0 => absurd h0 this
    | write _ _ _ _ => trivial
    | discover => trivial
    | discoverQueue => trivial

/-! ### Answers of a device -/

theorem exec_rd (D : I2cDev) (n : Nat) : ∀ r l, (D.exec r (rdBeats n)).2 = some l → l.length = n := by
  induction n with
  | zero => intro r l h; cases h; rfl
  | succ n ih =>
    intro r l h
    simp only [rdBeats, I2cDev.exec, protoRd] at h
    split at h
    · cases h
    · rw [Option.map_eq_some_iff] at h
      obtain ⟨l', h1, h2⟩ := h
      rw [← h2]
      have := ih _ _ h1
      simp [this]

theorem exec_wr (D : I2cDev) (data : List (BitVec 8)) : ∀ r l, (D.exec r (wrBeats data)).2 = some l → l = [] := by
  induction data with
  | nil => intro r l h; cases h; rfl
  | cons x data ih =>
    intro r l h
    simp only [wrBeats, I2cDev.exec, protoWr] at h
    split at h
    · cases h
    · rw [Option.map_eq_some_iff] at h
      obtain ⟨l', h1, h2⟩ := h
      rw [← h2]
      simp [ih _ _ h1]

/-- The answers of any device have the right number of bytes. -/
theorem I2cDev.bus_sized (D : I2cDev) : D.bus.Sized := by
  intro log t l h
  simp only [I2cDev.bus] at h
  cases t with
  | write a data =>
    simp only [txnBeats, I2cDev.exec, protoAddr] at h
    split at h
    · cases h
    · rw [Option.map_eq_some_iff] at h
      obtain ⟨l', h1, h2⟩ := h
      rw [← h2]
      simp [exec_wr D _ _ _ h1]
  | read a n =>
    simp only [txnBeats, I2cDev.exec, protoAddr] at h
    split at h
    · cases h
    · rw [Option.map_eq_some_iff] at h
      obtain ⟨l', h1, h2⟩ := h
      rw [← h2]
      simp [exec_rd D _ _ _ h1]

/-! ### Reads among the bytes written -/

/-- `ReadsZero` after some transactions. -/
def ReadsZeroFrom (d : BusDevices) (log : List BusTxn) (q : List (BitVec 8)) : Prop :=
  ∀ p h, (p ++ [h, 0]) <+: q → (p.foldl (bridgeByte d) ⟨[], [], log⟩).pending = [] → h.getLsbD 0 = true →
    d (p.foldl (bridgeByte d) ⟨[], [], log⟩).log (.read (h.toNat / 2) 0) = none

theorem readsZeroFrom_nil (d : BusDevices) (log : List BusTxn) : ReadsZeroFrom d log [] := by
  intro p h hp
  have := hp.length_le
  simp at this

theorem readsZeroFrom_append (d : BusDevices) (log log' : List BusTxn) (q q' r : List (BitVec 8)) (h1 : ReadsZeroFrom d log q)
    (he : q.foldl (bridgeByte d) ⟨[], [], log⟩ = ⟨[], r, log'⟩) (h2 : ReadsZeroFrom d log' q') : ReadsZeroFrom d log (q ++ q') := by
  intro p h hp hpend hh
  by_cases hA : p.length + 2 ≤ q.length
  · refine h1 p h ?_ hpend hh
    exact List.prefix_of_prefix_length_le hp (List.prefix_append q q') (by simpa using hA)
  · by_cases hB : q.length ≤ p.length
    · have hq : q <+: p := List.prefix_of_prefix_length_le (List.prefix_append q q')
        ((List.prefix_append p [h, 0]).trans hp) hB
      obtain ⟨p', rfl⟩ := hq
      rw [List.append_assoc, List.prefix_append_right_inj] at hp
      have hf := bridge_fold_replies d p' [] r [] log'
      rw [List.append_nil] at hf
      rw [List.foldl_append, he, hf] at hpend ⊢
      exact h2 p' h hp hpend hh
    · have hq : q <+: p ++ [h] := List.prefix_of_prefix_length_le (List.prefix_append q q')
        (List.IsPrefix.trans (by simp) hp) (by simp; omega)
      have hq : q = p ++ [h] := hq.eq_of_length (by simp; omega)
      rw [hq, List.foldl_append] at he
      generalize p.foldl (bridgeByte d) ⟨[], [], log⟩ = s at hpend he
      obtain ⟨sp, sr, sl⟩ := s
      simp only at hpend
      subst hpend
      cases he

/-- Bytes of which no part is a complete command stay in the bridge. -/
theorem bridge_pending (d : BusDevices) (r : List (BitVec 8)) (log : List BusTxn) (q : List (BitVec 8)) :
    (∀ p, p <+: q → p ≠ [] → ∀ rd, protoPhase p ≠ .header rd) → q.foldl (bridgeByte d) ⟨[], r, log⟩ = ⟨q, r, log⟩ := by
  induction q using snocInduction with
  | nil => intro _; rfl
  | snoc q b ih =>
    intro h
    rw [List.foldl_append, ih fun p hp => h p (hp.trans (List.prefix_append q [b]))]
    simp only [List.foldl_cons, List.foldl_nil, bridgeByte]
    have := h (q ++ [b]) List.prefix_rfl (by simp)
    generalize protoPhase (q ++ [b]) = x at this
    cases x with
    | header rd => exact absurd rfl (this rd)
    | length _ => rfl
    | data _ => rfl

/-- A part of a write command is not complete. -/
theorem phase_write (h : BitVec 8) (data : List (BitVec 8)) (hh : h.toNat % 2 = 0) (hl : data.length < 256) (p : List (BitVec 8))
    (hp : p <+: [h, BitVec.ofNat 8 data.length] ++ data) (h0 : p ≠ []) :
    (∃ rd, protoPhase p = .header rd) ↔ p.length = data.length + 2 := by
  have hb : h.getLsbD 0 = false := by
    rw [← BitVec.testBit_toNat, Nat.testBit_zero]; simp; omega
  have hln : (BitVec.ofNat 8 data.length).toNat = data.length := by simp; omega
  match p, h0 with
  | [a], _ =>
    constructor
    · intro ⟨rd, e⟩
      cases e
    · intro e; simp at e
  | a :: b :: p, _ =>
    obtain ⟨t, ht⟩ := hp
    simp only [List.cons_append, List.nil_append, List.cons.injEq] at ht
    obtain ⟨rfl, rfl, ht⟩ := ht
    have hple : p.length ≤ data.length := by rw [← ht]; simp
    simp only [protoPhase, List.foldl_cons, protoPhaseStep, hb, hln, Bool.false_eq_true, if_false]
    by_cases hz : data.length = 0
    · have : p = [] := List.length_eq_zero_iff.mp (by omega)
      subst this
      simp [hz]
    · rw [if_neg hz, phase_data p _ hple]
      by_cases e : p.length = data.length
      · rw [if_pos ⟨e, by omega⟩]
        simp [e]
      · rw [if_neg (by omega)]
        simp [e]

theorem readsZeroFrom_write (d : BusDevices) (log : List BusTxn) (h : BitVec 8) (data : List (BitVec 8)) (hh : h.toNat % 2 = 0)
    (hl : data.length < 256) : ReadsZeroFrom d log ([h, BitVec.ofNat 8 data.length] ++ data) := by
  intro p a hp hpend ha
  have hpp : p <+: [h, BitVec.ofNat 8 data.length] ++ data := (List.prefix_append p [a, 0]).trans hp
  have hlen := hp.length_le
  simp only [List.length_append, List.length_cons, List.length_nil] at hlen
  rw [bridge_pending d [] log p] at hpend
  · simp only at hpend
    subst hpend
    obtain ⟨t, ht⟩ := hp
    simp only [List.cons_append, List.nil_append, List.cons.injEq] at ht
    rw [ht.1, ← BitVec.testBit_toNat, Nat.testBit_zero] at ha
    simp at ha
    omega
  · intro p' hp' h0 rd e
    have := (phase_write h data hh hl p' (hp'.trans hpp) h0).1 ⟨rd, e⟩
    have := hp'.length_le
    omega

theorem readsZeroFrom_read (d : BusDevices) (log : List BusTxn) (h l : BitVec 8)
    (hr : l = 0 → d log (.read (h.toNat / 2) 0) = none) : ReadsZeroFrom d log [h, l] := by
  intro p a hp hpend ha
  have hlen := hp.length_le
  have : p = [] := List.length_eq_zero_iff.mp (by
    simp only [List.length_append, List.length_cons, List.length_nil] at hlen; omega)
  subst this
  obtain ⟨t, ht⟩ := hp
  simp only [List.cons_append, List.nil_append, List.cons.injEq] at ht
  obtain ⟨rfl, ht, _⟩ := ht
  exact hr ht.symm

/-! ### Nothing is written before the status of a refused read -/

/-- While a command is sent to an idle bridge nothing is refused. -/
theorem quiet_command (d : BusDevices) (log : List BusTxn) (l : List (BitVec 8))
    (h : ∀ p b q, l = p ++ b :: q → p ≠ [] → ∀ p', p' <+: p → p' ≠ [] → ∀ rd, protoPhase p' ≠ .header rd) :
    ∀ p b q, l = p ++ b :: q → ¬ BridgeS.Refused d (p.foldl (bridgeByte d) ⟨[], [], log⟩) := by
  intro p b q e hr
  by_cases hp : p = []
  · subst hp
    exact hr.2.1 rfl
  · rw [bridge_pending d [] log p (h p b q e hp)] at hr
    exact hp hr.1

theorem quiet_write (d : BusDevices) (log : List BusTxn) (h : BitVec 8) (data : List (BitVec 8)) (hh : h.toNat % 2 = 0)
    (hl : data.length < 256) : ∀ p b q, [h, BitVec.ofNat 8 data.length] ++ data = p ++ b :: q →
      ¬ BridgeS.Refused d (p.foldl (bridgeByte d) ⟨[], [], log⟩) := by
  refine quiet_command d log _ fun p b q e _ p' hp' h0 rd hrd => ?_
  have h1 := (phase_write h data hh hl p' (hp'.trans (by rw [e]; exact List.prefix_append _ _)) h0).1 ⟨rd, hrd⟩
  have h2 := hp'.length_le
  have h3 := congrArg List.length e
  simp at h3
  omega

theorem quiet_read (d : BusDevices) (log : List BusTxn) (h l : BitVec 8) : ∀ p b q, [h, l] = p ++ b :: q →
      ¬ BridgeS.Refused d (p.foldl (bridgeByte d) ⟨[], [], log⟩) := by
  refine quiet_command d log _ fun p b q e h1 p' hp' h0 rd hrd => ?_
  match p, h1 with
  | [a], _ =>
    match p', h0 with
    | [c], _ => cases hrd
    | c :: c' :: p', _ => have := hp'.length_le; simp at this
  | a :: a' :: p, _ => have := congrArg List.length e; simp at this

/-! ### The calls with the bridge machine -/

section
variable {α β : Type}

/-- A program on an idle bridge: its result, and the transactions. -/
structure ProgOk (d : BusDevices) (log : List BusTxn) (p : PyProg α) (a : α) (log' : List BusTxn) : Prop where
  run : p.run (bridgeDev d) ⟨[], [], log⟩ = (a, ⟨[], [], log'⟩)
  full : p.Full (bridgeDev d) ⟨[], [], log⟩
  fold : ∃ r, (p.written (bridgeDev d) ⟨[], [], log⟩).foldl (bridgeByte d) ⟨[], [], log⟩ = ⟨[], r, log'⟩
  reads : ReadsZeroFrom d log (p.written (bridgeDev d) ⟨[], [], log⟩)
  patient : p.Patient d ⟨[], [], log⟩
  lock : p.Lockstep d ⟨[], [], log⟩

theorem ProgOk.ret (d : BusDevices) (log : List BusTxn) (a : α) : ProgOk d log (.ret a) a log :=
  ⟨rfl, trivial, ⟨[], rfl⟩, readsZeroFrom_nil d log, trivial, trivial⟩

theorem ProgOk.bind {d : BusDevices} {log log' log'' : List BusTxn} {p : PyProg α} {f : α → PyProg β} {a : α} {b : β}
    (hp : ProgOk d log p a log') (hf : ProgOk d log' (f a) b log'') : ProgOk d log (p.bind f) b log'' := by
  obtain ⟨r, e⟩ := hp.fold
  obtain ⟨r', e'⟩ := hf.fold
  refine ⟨?_, ?_, ?_, ?_, ?_, ?_⟩
  · rw [PyProg.bind_run, hp.run]; exact hf.run
  · refine PyProg.bind_full _ _ _ _ hp.full ?_
    rw [hp.run]; exact hf.full
  · rw [PyProg.bind_written, hp.run, List.foldl_append, e]
    have := bridge_fold_replies d ((f a).written (bridgeDev d) ⟨[], [], log'⟩) [] r [] log'
    rw [List.append_nil, e'] at this
    exact ⟨_, this⟩
  · rw [PyProg.bind_written, hp.run]
    exact readsZeroFrom_append d log log' _ _ r hp.reads e hf.reads
  · refine PyProg.bind_patient d p f _ hp.patient ?_
    rw [hp.run]; exact hf.patient
  · refine PyProg.bind_lockstep d p f _ hp.lock ?_
    rw [hp.run]; exact hf.lock

theorem ProgOk.thenOk {d : BusDevices} {log log' log'' : List BusTxn} {p : PyProg (Except PyErr α)}
    {f : α → PyProg (Except PyErr β)} {a : α} {b : Except PyErr β} (hp : ProgOk d log p (.ok a) log')
    (hf : ProgOk d log' (f a) b log'') : ProgOk d log (p.thenOk f) b log'' := ProgOk.bind hp hf

theorem ProgOk.thenErr {d : BusDevices} {log log' : List BusTxn} {p : PyProg (Except PyErr α)}
    {f : α → PyProg (Except PyErr β)} {e : PyErr} (hp : ProgOk d log p (.error e) log') :
    ProgOk d log (p.thenOk f) (.error e) log' := ProgOk.bind hp (ProgOk.ret d _ _)

theorem reqProg_error (d : BusDevices) (log : List BusTxn) (l : List Int) (h : pyBytes l = none) :
    ProgOk d log (reqProg l) (.error .valueError) log := by
  unfold reqProg
  rw [h]
  exact ProgOk.ret d _ _

theorem reqProg_error_complete (l : List Int) (h : pyBytes l = none) : (reqProg l).Complete := by
  unfold reqProg
  rw [h]
  trivial

end

theorem pyBytes_write_none (w a r : Int) (data : List Int) (hw : 0 ≤ w) (hf : ¬ WriteFits w a data) :
    pyBytes ([a * 2, regAddrSize w + data.length] ++ (regAddrArray w r ++ data)) = none := by
  have h := C37_write_rejected ⟨fun _ _ => (), fun _ _ => ([], ())⟩ () w a r data hw hf
  unfold writeBlockData busRequest at h
  simp only at h
  generalize pyBytes _ = b at h ⊢
  cases b with
  | none => rfl
  | some b => cases h

theorem pyBytes_reg_none (w a r : Int) (hf : ¬ (0 ≤ a ∧ a ≤ 127 ∧ 0 ≤ w ∧ w / 8 ≤ 255)) :
    pyBytes ([a * 2, regAddrSize w] ++ regAddrArray w r) = none := by
  have h := C37_read_rejected_partial ⟨fun _ _ => (), fun _ _ => ([], ())⟩ () w a r 0 (by omega)
  unfold readBlockData busRequest at h
  simp only at h
  generalize pyBytes _ = b at h ⊢
  cases b with
  | none => rfl
  | some b => cases h

theorem pyBytes_len_none (a l : Int) (hf : ¬ (0 ≤ l ∧ l ≤ 255)) : pyBytes [a * 2 + 1, l] = none :=
  pyBytes_none _ l (by simp) (by omega)

theorem pyBytes_write (addr : Int) (arr : List Int) (ha : 0 ≤ addr ∧ addr ≤ 127) (hl : arr.length ≤ 255)
    (hv : ∀ v ∈ arr, 0 ≤ v ∧ v < 256) : pyBytes ([addr * 2, (arr.length : Int)] ++ arr) =
      some ([BitVec.ofInt 8 (addr * 2), BitVec.ofNat 8 (arr.map (BitVec.ofInt 8)).length] ++ arr.map (BitVec.ofInt 8)) := by
  rw [pyBytes_some]
  · simp [BitVec.ofInt_natCast]
  · intro v hv'
    simp only [List.cons_append, List.nil_append, List.mem_cons] at hv'
    rcases hv' with rfl | rfl | hv'
    · omega
    · omega
    · exact hv v hv'

theorem pyBytes_read (addr len : Int) (ha : 0 ≤ addr ∧ addr ≤ 127) (hl : 0 ≤ len ∧ len ≤ 255) :
    pyBytes [addr * 2 + 1, len] = some [BitVec.ofInt 8 (addr * 2 + 1), BitVec.ofInt 8 len] := by
  rw [pyBytes_some]
  · rfl
  · intro v hv'
    simp only [List.mem_cons, List.not_mem_nil, or_false] at hv'
    rcases hv' with rfl | rfl <;> omega

theorem addr_even (addr : Int) (ha : 0 ≤ addr ∧ addr ≤ 127) : (BitVec.ofInt 8 (addr * 2)).toNat = addr.toNat * 2 := by
  rw [BitVec.toNat_ofInt]; omega

theorem addr_odd (addr : Int) (ha : 0 ≤ addr ∧ addr ≤ 127) : (BitVec.ofInt 8 (addr * 2 + 1)).toNat = addr.toNat * 2 + 1 := by
  rw [BitVec.toNat_ofInt]; omega

/-- The buffer of a write consists of a complete command. -/
theorem reqProg_write_complete (addr : Int) (arr : List Int) (ha : 0 ≤ addr ∧ addr ≤ 127) (hl : arr.length ≤ 255)
    (hv : ∀ v ∈ arr, 0 ≤ v ∧ v < 256) (l : List Int) (hq : l = [addr * 2, (arr.length : Int)] ++ arr) : (reqProg l).Complete := by
  subst hq
  unfold reqProg
  rw [pyBytes_write addr arr ha hl hv]
  refine ⟨(phase_write _ _ (by rw [addr_even addr ha]; omega) (by simp; omega) _ List.prefix_rfl (by simp)).2 (by simp), ?_⟩
  intro r
  trivial

theorem reqProg_read_complete (addr len : Int) (ha : 0 ≤ addr ∧ addr ≤ 127) (hl : 0 ≤ len ∧ len ≤ 255) :
    (reqProg [addr * 2 + 1, len]).Complete := by
  unfold reqProg
  rw [pyBytes_read addr len ha hl]
  refine ⟨⟨some (BitVec.ofInt 8 len).toNat, ?_⟩, fun r => trivial⟩
  have : (BitVec.ofInt 8 (addr * 2 + 1)).getLsbD 0 = true := by
    rw [← BitVec.testBit_toNat, Nat.testBit_zero, addr_odd addr ha]; simp
  simp [protoPhase, protoPhaseStep, this]

section
variable (d : BusDevices) (hd : d.Sized)

include hd in
theorem reqProg_write_ok (log : List BusTxn) (addr : Int) (arr : List Int) (ha : 0 ≤ addr ∧ addr ≤ 127) (hl : arr.length ≤ 255)
    (hv : ∀ v ∈ arr, 0 ≤ v ∧ v < 256) :
    let t := BusTxn.write addr.toNat (arr.map (BitVec.ofInt 8))
    ProgOk d log (reqProg ([addr * 2, (arr.length : Int)] ++ arr)) (.ok (if (d log t).isSome then 0 else 1)) (log ++ [t]) := by
  intro t
  have hrun := request_write d hd ⟨[], [], log⟩ rfl rfl addr arr ha hl hv
  rw [← reqProg_run] at hrun
  have hfold := bridge_write d ⟨[], [], log⟩ (BitVec.ofInt 8 (addr * 2)) (arr.map (BitVec.ofInt 8)) rfl
    (by rw [addr_even addr ha]; omega) (by simp; omega)
  refine ⟨hrun, ?_, ?_, ?_, ?_, ?_⟩ <;> unfold reqProg <;> rw [pyBytes_write addr arr ha hl hv]
  · refine ⟨?_, trivial⟩
    simp only [bridgeDev]
    rw [hfold]
    generalize d _ _ = x
    cases x <;> simp [txnReply]
  · refine ⟨txnReply (d log t), ?_⟩
    simp only [PyProg.written, List.append_nil]
    rw [hfold, addr_even addr ha, Nat.mul_div_cancel _ (by omega)]
    rfl
  · simp only [PyProg.written, List.append_nil]
    exact readsZeroFrom_write d log _ _ (by rw [addr_even addr ha]; omega) (by simp; omega)
  · exact ⟨quiet_write d log _ _ (by rw [addr_even addr ha]; omega) (by simp; omega), trivial⟩
  · exact ⟨rfl, trivial⟩

/-- The read of a block read: command, status and data. -/
theorem readTail_ok (hd : d.Sized) (log : List BusTxn) (addr len : Int) (ha : 0 ≤ addr ∧ addr ≤ 127) (hl : 0 ≤ len ∧ len ≤ 255)
    (hr : len = 0 → d log (.read addr.toNat 0) = none) :
    let u := BusTxn.read addr.toNat len.toNat
    ProgOk d log ((reqProg [addr * 2 + 1, len]).thenOk fun status =>
      if status ≠ 0 then .ret (.ok none) else .read len.toNat fun r => .ret (.ok (some r))) (.ok (d log u)) (log ++ [u]) := by
  intro u
  have hm : (BitVec.ofInt 8 len).toNat = len.toNat := by rw [BitVec.toNat_ofInt]; omega
  have hfold := bridge_read d ⟨[], [], log⟩ (BitVec.ofInt 8 (addr * 2 + 1)) (BitVec.ofInt 8 len) rfl
    (by rw [addr_odd addr ha]; omega)
  rw [addr_odd addr ha, hm, show (addr.toNat * 2 + 1) / 2 = addr.toNat by omega, show BusTxn.read addr.toNat len.toNat = u from rfl] at hfold
  have hz : len = 0 ↔ BitVec.ofInt 8 len = 0 := by
    constructor
    · rintro rfl; rfl
    · intro e; rw [e] at hm; simp at hm; omega
  have hreads : ReadsZeroFrom d log [BitVec.ofInt 8 (addr * 2 + 1), BitVec.ofInt 8 len] := by
    refine readsZeroFrom_read d log _ _ fun h0 => ?_
    rw [addr_odd addr ha, show (addr.toNat * 2 + 1) / 2 = addr.toNat by omega]
    exact hr (hz.2 h0)
  simp only [List.nil_append] at hfold
  unfold reqProg PyProg.thenOk
  rw [pyBytes_read addr len ha hl]
  simp only [PyProg.bind]
  cases e : d log u with
  | none =>
    rw [e] at hfold
    refine ⟨?_, ?_, ?_, ?_, ⟨quiet_read d log _ _, ?_⟩, ⟨rfl, ?_⟩⟩
    · simp only [PyProg.run, bridgeDev]; rw [hfold]; rfl
    · simp only [PyProg.Full, bridgeDev]; rw [hfold]; exact ⟨rfl, trivial⟩
    · simp only [PyProg.written, bridgeDev]; rw [hfold]; exact ⟨_, hfold⟩
    · simp only [PyProg.written, bridgeDev]; rw [hfold]; exact hreads
    · simp only [PyProg.Patient, bridgeDev]; rw [hfold]; exact trivial
    · simp only [PyProg.Lockstep, bridgeDev]; rw [hfold]; exact trivial
  | some l =>
    rw [e] at hfold
    have hsz : l.length = len.toNat := hd _ _ _ e
    refine ⟨?_, ?_, ?_, ?_, ⟨quiet_read d log _ _, ?_⟩, ⟨rfl, ?_⟩⟩
    · simp only [PyProg.run, bridgeDev]; rw [hfold]; simp [txnReply, PyProg.run, ← hsz]
    · simp only [PyProg.Full, bridgeDev]; rw [hfold]; simp [txnReply, PyProg.Full, ← hsz]
    · simp only [PyProg.written, bridgeDev]; rw [hfold]; exact ⟨_, hfold⟩
    · simp only [PyProg.written, bridgeDev]; rw [hfold]; exact hreads
    · simp only [PyProg.Patient, bridgeDev]; rw [hfold]; exact trivial
    · simp only [PyProg.Lockstep, bridgeDev]; rw [hfold]; exact trivial

theorem regArr_len (w r : Int) (hw : 0 ≤ w) : ((regAddrArray w r).length : Int) = regAddrSize w := by
  simp [regAddrArray, regAddrLoop_length, regAddrSize]; omega

theorem regArr_data_range (w r : Int) (data : List Int) (h : ∀ v ∈ data, 0 ≤ v ∧ v ≤ 255) :
    ∀ v ∈ regAddrArray w r ++ data, 0 ≤ v ∧ v < 256 := by
  intro v hv
  rcases List.mem_append.mp hv with hv | hv
  · exact regAddrArray_range _ _ v hv
  · have := h v hv; omega

include hd in
theorem discoverProg_ok (n : Nat) : ∀ (a : Nat) (log : List BusTxn), a + n ≤ 128 →
    ProgOk d log (discoverProg n a)
      (.ok ((List.range' a n).filter (probeAck d log a), (List.range' a n).flatMap (busMap (probeAck d log a)))) (log ++ probes a n) := by
  induction n with
  | zero =>
    intro a log _
    have := ProgOk.ret d log (.ok ([], []) : Except PyErr (List Nat × List BusTok))
    simpa [discoverProg, probes] using this
  | succ n ih =>
    intro a log hn
    have h1 := reqProg_write_ok d hd log (a : Int) [] (by omega) (by simp) (by simp)
    have h2 := ih (a + 1) (log ++ [.write a []]) (by omega)
    refine ProgOk.thenOk (by simpa using h1) (ProgOk.thenOk h2 ?_)
    have hrun := discoverLoop_spec d hd 128 (Nat.le_refl _) (n + 1) a log (by omega)
    rw [← discoverProg_run, discoverProg, PyProg.thenOk_run] at hrun
    have h1r := h1.run
    simp only [List.length_nil, Int.ofNat_eq_natCast, Int.natCast_zero, List.append_nil, List.map_nil, Int.toNat_natCast] at h1r
    rw [h1r] at hrun
    simp only [PyProg.thenOk_run] at hrun
    rw [h2.run] at hrun
    simp only [PyProg.run, Prod.mk.injEq, BridgeS.mk.injEq, true_and] at hrun
    rw [← hrun.1, ← hrun.2]
    exact ProgOk.ret d _ _

theorem queue_reads (n : Nat) : ∀ (a : Nat) (log : List BusTxn), a + n ≤ 128 →
    ReadsZeroFrom d log ((List.range' a n).flatMap fun k => [BitVec.ofNat 8 (k * 2), (0 : BitVec 8)]) := by
  induction n with
  | zero => intro a log _; exact readsZeroFrom_nil d log
  | succ n ih =>
    intro a log hn
    have hm : (BitVec.ofNat 8 (a * 2)).toNat = a * 2 := by simp; omega
    rw [List.range'_succ, List.flatMap_cons]
    exact readsZeroFrom_append d log _ _ _ _ (readsZeroFrom_write d log (BitVec.ofNat 8 (a * 2)) [] (by omega) (by simp))
      (bridge_write d ⟨[], [], log⟩ (BitVec.ofNat 8 (a * 2)) [] rfl (by omega) (by simp)) (ih _ _ (by omega))

theorem queue_quiet (n : Nat) : ∀ (a : Nat) (r : List (BitVec 8)) (log : List BusTxn), a + n ≤ 128 →
    (r = [] ∨ ∃ g x y, log = g ++ [.write x y]) →
    ∀ p b q, ((List.range' a n).flatMap fun k => [BitVec.ofNat 8 (k * 2), (0 : BitVec 8)]) = p ++ b :: q →
      ¬ BridgeS.Refused d (p.foldl (bridgeByte d) ⟨[], r, log⟩) := by
  induction n with
  | zero => intro a r log _ _ p b q e; simp at e
  | succ n ih =>
    intro a r log hn hl p b q e
    have hm : (BitVec.ofNat 8 (a * 2)).toNat = a * 2 := by simp; omega
    rw [List.range'_succ, List.flatMap_cons] at e
    match p with
    | [] =>
      rintro ⟨_, h1, g, x, y, h2, _⟩
      rcases hl with rfl | ⟨g', x', y', rfl⟩
      · exact h1 rfl
      · have := (snoc_inj h2).2
        cases this
    | [c] =>
      rintro ⟨h1, _⟩
      cases h1
    | c :: c' :: p =>
      simp only [List.cons_append, List.nil_append, List.cons.injEq] at e
      obtain ⟨rfl, rfl, e⟩ := e
      have hf := bridge_write d ⟨[], r, log⟩ (BitVec.ofNat 8 (a * 2)) [] rfl (by omega) (by simp)
      rw [show BitVec.ofNat 8 (a * 2) :: 0 :: p = ([BitVec.ofNat 8 (a * 2), BitVec.ofNat 8 ([] : List (BitVec 8)).length] ++ []) ++ p from rfl,
        List.foldl_append, hf]
      exact ih (a + 1) _ _ (by omega) (.inr ⟨_, _, _, rfl⟩) p b q e

include hd in
theorem queueProg_ok (log : List BusTxn) : ProgOk d log queueProg
    (.ok ((List.range 128).flatMap (busMap (probeAck d log 0)))) (log ++ probes 0 128) := by
  have hrun := C37_discover_queue d hd log
  rw [← queueProg_run] at hrun
  have hfold := bridge_probes d hd 128 0 [] log (by omega)
  have hreads := queue_reads d 128 0 log (by omega)
  rw [← List.range_eq_range'] at hfold hreads
  refine ⟨hrun, ?_, ?_, ?_, ?_, ?_⟩ <;> unfold queueProg <;> rw [pyBytes_probes]
  · refine ⟨?_, trivial⟩
    simp only [bridgeDev]
    rw [hfold]
    simp
  · exact ⟨_, by simpa only [PyProg.written, List.append_nil] using hfold⟩
  · simpa only [PyProg.written, List.append_nil] using hreads
  · have hq := queue_quiet d 128 0 [] log (by omega) (.inl rfl)
    rw [← List.range_eq_range'] at hq
    exact ⟨hq, trivial⟩
  · exact ⟨rfl, trivial⟩

include hd in
/-- A call on an idle bridge. -/
theorem BusCall.prog_ok (log : List BusTxn) (c : BusCall) (hc : c.WidthOk) (hr : c.ReadOk d log) :
    ProgOk d log c.prog (c.spec d log).1 (log ++ (c.spec d log).2) := by
  cases c with
  | write w a r data =>
    have hw : 0 ≤ w := hc
    simp only [BusCall.spec]
    by_cases hfit : WriteFits w a data
    case neg =>
      rw [if_neg hfit, List.append_nil]
      exact ProgOk.bind (ProgOk.thenErr (reqProg_error d log _ (pyBytes_write_none w a r data hw hfit))) (ProgOk.ret d _ _)
    rw [if_pos hfit]
    obtain ⟨h1, h2, h4, h5⟩ := hfit
    have hlen : ((regAddrArray w r ++ data).length : Int) = regAddrSize w + data.length := by
      rw [List.length_append, Int.natCast_add, regArr_len w r hw]
    have h := reqProg_write_ok d hd log a (regAddrArray w r ++ data) ⟨h1, h2⟩
      (by rw [regAddrSize] at hlen; omega) (regArr_data_range w r data h5)
    rw [hlen, List.map_append, regAddrArray_be] at h
    refine ProgOk.bind (ProgOk.thenOk h (ProgOk.ret d _ _)) ?_
    generalize (d log _).isSome = x
    cases x <;> exact ProgOk.ret d _ _
  | read w a r l =>
    simp only [BusCall.spec]
    by_cases hfit : 0 ≤ a ∧ a ≤ 127 ∧ 0 ≤ w ∧ w / 8 ≤ 255
    case neg =>
      rw [if_neg hfit, List.append_nil]
      exact ProgOk.bind (ProgOk.thenErr (reqProg_error d log _ (pyBytes_reg_none w a r hfit))) (ProgOk.ret d _ _)
    rw [if_pos hfit]
    obtain ⟨ha1, ha2, hw, hs⟩ := hfit
    have ha : 0 ≤ a ∧ a ≤ 127 := ⟨ha1, ha2⟩
    have hlen := regArr_len w r hw
    have h := reqProg_write_ok d hd log a (regAddrArray w r) ha (by rw [regAddrSize] at hlen; omega) (regAddrArray_range w r)
    rw [hlen, regAddrArray_be] at h
    simp only [BusCall.ReadOk] at hr
    change ProgOk d log _ (Except.ok (if (d log (regTxn w a r)).isSome then 0 else 1)) (log ++ [regTxn w a r]) at h
    cases e : (d log (regTxn w a r)).isSome
    · rw [e] at h
      exact ProgOk.bind (ProgOk.thenOk h (ProgOk.ret d _ _)) (ProgOk.ret d _ _)
    · rw [e] at h
      rw [if_pos rfl]
      by_cases hl : 0 ≤ l ∧ l ≤ 255
      case neg =>
        rw [if_neg hl]
        exact ProgOk.bind (ProgOk.thenOk h (ProgOk.thenErr (reqProg_error d _ _ (pyBytes_len_none a l hl)))) (ProgOk.ret d _ _)
      rw [if_pos hl]
      have ht := readTail_ok d hd (log ++ [regTxn w a r]) a l ha hl (hr e)
      have hb : ProgOk d log (readProg w a r l) _ _ := ProgOk.thenOk h ht
      have := ProgOk.bind (f := fun x => .ret (x.map BusRes.read)) hb (ProgOk.ret d _ _)
      rw [List.append_assoc] at this
      exact this
  | discover =>
    have h := discoverProg_ok d hd 128 0 log (by omega)
    rw [← List.range_eq_range'] at h
    exact ProgOk.bind h (ProgOk.ret d _ _)
  | discoverQueue => exact ProgOk.bind (queueProg_ok d hd log) (ProgOk.ret d _ _)

include hd in
theorem BusCall.progAll_ok (cs : List BusCall) : ∀ log, (∀ c ∈ cs, c.WidthOk) → BusCall.ReadOkAll d log cs →
    ProgOk d log (BusCall.progAll cs) (BusCall.specAll d log cs).1 (log ++ (BusCall.specAll d log cs).2) := by
  induction cs with
  | nil =>
    intro log _ _
    have := ProgOk.ret d log (.ok [] : Except PyErr (List BusRes))
    simpa [BusCall.progAll, BusCall.specAll] using this
  | cons c cs ih =>
    intro log hf hr
    have h1 := BusCall.prog_ok d hd log c (hf c (by simp)) hr.1
    have h2 := ih _ (fun c hc => hf c (by simp [hc])) hr.2
    unfold BusCall.specAll BusCall.progAll
    generalize c.spec d log = x at h1 h2
    obtain ⟨x | x, t⟩ := x
    · exact ProgOk.thenErr h1
    · have := ProgOk.thenOk (f := fun r => (BusCall.progAll cs).bind fun x => .ret (x.map (r :: ·))) h1
        (ProgOk.bind h2 (ProgOk.ret d _ _))
      rw [List.append_assoc] at this
      exact this

end

section
variable {α β : Type}

theorem PyProg.thenOk_complete (p : PyProg (Except PyErr α)) (f : α → PyProg (Except PyErr β)) (h : p.Complete)
    (hf : ∀ a, (f a).Complete) : (p.thenOk f).Complete := by
  refine PyProg.bind_complete p _ h fun a => ?_
  cases a with
  | error e => trivial
  | ok a => exact hf a

end

theorem probe_complete (a : Nat) (q : PyProg (Except PyErr (BitVec 8))) (ha : a < 128) (hq : q = reqProg [(a : Int) * 2, 0]) :
    q.Complete := by
  obtain ⟨l, hl⟩ : ∃ l : List Int, l = [(a : Int) * 2, 0] := ⟨_, rfl⟩
  rw [hq, ← hl]
  exact reqProg_write_complete (a : Int) [] (by omega) (by simp) (by simp) l (by simpa using hl)

theorem discoverProg_complete (n : Nat) : ∀ a : Nat, a + n ≤ 128 → (discoverProg n a).Complete := by
  induction n with
  | zero => intro a _; trivial
  | succ n ih =>
    intro a hn
    rw [discoverProg]
    generalize hq : reqProg [(a : Int) * 2, 0] = q
    have h := probe_complete a q (by omega) hq.symm
    apply PyProg.thenOk_complete _ _ h
    intro s
    apply PyProg.thenOk_complete _ _ (ih _ (by omega))
    intro r
    trivial

theorem queue_phase : protoPhase ((List.range 128).flatMap fun k => [BitVec.ofNat 8 (k * 2), (0 : BitVec 8)]) = .header none := by
  decide +kernel

theorem queueProg_complete (q : PyProg (Except PyErr (List BusTok))) (hq : q = queueProg) : q.Complete := by
  rw [hq]
  unfold queueProg
  rw [pyBytes_probes]
  have h : ProtoComplete ((List.range 128).flatMap fun k => [BitVec.ofNat 8 (k * 2), (0 : BitVec 8)]) := ⟨none, queue_phase⟩
  generalize ((List.range 128).flatMap fun k => [BitVec.ofNat 8 (k * 2), (0 : BitVec 8)]) = q at h ⊢
  exact ⟨h, fun _ => trivial⟩

theorem BusCall.prog_complete (c : BusCall) (hc : c.WidthOk) : c.prog.Complete := by
  cases c with
  | write w a r data =>
    have hw : 0 ≤ w := hc
    by_cases hfit : WriteFits w a data
    case neg =>
      exact PyProg.bind_complete _ _ (PyProg.thenOk_complete _ _
        (reqProg_error_complete _ (pyBytes_write_none w a r data hw hfit)) fun _ => trivial) fun _ => trivial
    obtain ⟨h1, h2, h4, h5⟩ := hfit
    have hlen : ((regAddrArray w r ++ data).length : Int) = regAddrSize w + data.length := by
      rw [List.length_append, Int.natCast_add, regArr_len w r hw]
    have h := reqProg_write_complete a (regAddrArray w r ++ data) ⟨h1, h2⟩
      (by rw [regAddrSize] at hlen; omega) (regArr_data_range w r data h5) _ rfl
    rw [hlen] at h
    exact PyProg.bind_complete _ _ (PyProg.thenOk_complete _ _ h fun _ => trivial) fun _ => trivial
  | read w a r l =>
    have h : (reqProg ([a * 2, regAddrSize w] ++ regAddrArray w r)).Complete := by
      by_cases hfit : 0 ≤ a ∧ a ≤ 127 ∧ 0 ≤ w ∧ w / 8 ≤ 255
      · obtain ⟨ha1, ha2, hw, hs⟩ := hfit
        have hlen := regArr_len w r hw
        have h := reqProg_write_complete a (regAddrArray w r) ⟨ha1, ha2⟩ (by rw [regAddrSize] at hlen; omega) (regAddrArray_range w r) _ rfl
        rwa [hlen] at h
      · exact reqProg_error_complete _ (pyBytes_reg_none w a r hfit)
    have h' : (reqProg [a * 2 + 1, l]).Complete := by
      by_cases hl : 0 ≤ l ∧ l ≤ 255
      · by_cases ha : 0 ≤ a ∧ a ≤ 127
        · exact reqProg_read_complete a l ha hl
        · exact reqProg_error_complete _ (pyBytes_none _ (a * 2 + 1) (by simp) (by omega))
      · exact reqProg_error_complete _ (pyBytes_len_none a l hl)
    refine PyProg.bind_complete _ _ (PyProg.thenOk_complete _ _ h fun s => ?_) fun _ => trivial
    split
    · trivial
    · refine PyProg.thenOk_complete _ _ h' fun s => ?_
      split
      · trivial
      · exact fun _ => trivial
  | discover =>
    have h := discoverProg_complete 128 0 (by omega)
    unfold BusCall.prog
    generalize discoverProg 128 0 = q at h ⊢
    exact PyProg.bind_complete _ _ h fun _ => trivial
  | discoverQueue =>
    unfold BusCall.prog
    generalize hq : queueProg = q
    have h := queueProg_complete q hq.symm
    exact PyProg.bind_complete _ _ h fun _ => trivial

theorem BusCall.progAll_complete (cs : List BusCall) (h : ∀ c ∈ cs, c.WidthOk) : (BusCall.progAll cs).Complete := by
  induction cs with
  | nil => trivial
  | cons c cs ih =>
    refine PyProg.thenOk_complete _ _ (BusCall.prog_complete c (h c (by simp))) fun r => ?_
    exact PyProg.bind_complete _ _ (ih fun c hc => h c (by simp [hc])) fun _ => trivial

/-! ### The calls with the whole system -/

section
variable {D : I2cDev} {bidir : Bool} {period : Nat} {stretch : Bool} {cs : List BusCall} {i : Nat → I2cProtoIn} {go : Nat → Bool}
  {h : Nat → PyHost (Except PyErr (List BusRes))} {hold : Nat → Bool}

/-- **C102.** Calls of the library, one after the other, by a host that talks to `I2CProto` over byte streams, with a device on the
wires: the program ends with the results of the calls with the answers of the device, or with the exception of the first call that
does not fit the protocol; nothing is left in either direction, and the device has been through exactly the transactions of the calls. Missing: block reads of zero bytes
that the device does not refuse, for which `I2CProto` is wrong (C36), and devices that send when not addressed for a read. -/
theorem C102_calls_partial (hp : 4 ≤ period)
    (hw : I2cWired D.target bidir period stretch (i2cStrCi period stretch (i2cProtoSi period stretch i)) hold)
    (hrun : PyHostRun period stretch (BusCall.progAll cs) i go h) (ht : i2cProtoInTime period stretch i) (hD : D.Polite)
    (hrel : ∀ n, ∃ m, n ≤ m ∧ hold m = false) (hrdy : ∀ n, ∃ m, n ≤ m ∧ (i m).ready = true)
    (hgo : ∀ n, ∃ m, n ≤ m ∧ go m = true) (hf : ∀ c ∈ cs, c.WidthOk) (hr : BusCall.ReadOkAll D.bus [] cs) :
    let r := BusCall.specAll D.bus [] cs
    ∃ m, ∀ n, m ≤ n → (h n).prog = .ret r.1 ∧ (h n).tx = [] ∧ (h n).rx = [] ∧
      (i2cBusOf D.target bidir period stretch (i2cStrCi period stretch (i2cProtoSi period stretch i)) hold (n + 1)).tgt.2 =
        (D.state r.2).1.log := by
  intro r
  have hok := BusCall.progAll_ok D.bus D.bus_sized cs [] hf hr
  have := C102_program_partial hp hw hrun ht hD (BusCall.progAll_complete cs hf) hok.full hok.reads hok.patient hrel hrdy hgo
  simp only [hok.run] at this
  exact this

/-- **C102.** The same for a host that offers what it has. -/
theorem C102_calls_system_partial (D : I2cDev) (bidir : Bool) (period : Nat) (stretch : Bool) (cs : List BusCall) (rdy go hold : Nat → Bool)
    (hp : 4 ≤ period) (hh : ∀ n, hold n = true → bidir = true ∧ stretch = true) (hrel : ∀ n, ∃ m, n ≤ m ∧ hold m = false)
    (hrdy : ∀ n, ∃ m, n ≤ m ∧ rdy m = true) (hgo : ∀ n, ∃ m, n ≤ m ∧ go m = true) (hD : D.Polite)
    (hf : ∀ c ∈ cs, c.WidthOk) (hr : BusCall.ReadOkAll D.bus [] cs) :
    let r := BusCall.specAll D.bus [] cs
    ∃ m, ∀ n, m ≤ n → (pySysHost D bidir period stretch (BusCall.progAll cs) rdy go hold n).prog = .ret r.1 ∧
      (pySysHost D bidir period stretch (BusCall.progAll cs) rdy go hold n).tx = [] ∧
      (pySysHost D bidir period stretch (BusCall.progAll cs) rdy go hold n).rx = [] ∧
      pySysLog D bidir period stretch (BusCall.progAll cs) rdy go hold (n + 1) = (D.state r.2).1.log := by
  obtain ⟨hw, hrun, ht, hrd⟩ := C102_host_exists D bidir period stretch (BusCall.progAll cs) rdy go hold hh
    (BusCall.progAll_complete cs hf)
  exact C102_calls_partial hp hw hrun ht hD hrel (by simpa only [hrd] using hrdy) hgo hf hr

/-- **C102.** Calls other than block reads of zero bytes, one after the other: no condition on the answers of the device. -/
theorem C102_calls (hp : 4 ≤ period)
    (hw : I2cWired D.target bidir period stretch (i2cStrCi period stretch (i2cProtoSi period stretch i)) hold)
    (hrun : PyHostRun period stretch (BusCall.progAll cs) i go h) (ht : i2cProtoInTime period stretch i) (hD : D.Polite)
    (hrel : ∀ n, ∃ m, n ≤ m ∧ hold m = false) (hrdy : ∀ n, ∃ m, n ≤ m ∧ (i m).ready = true)
    (hgo : ∀ n, ∃ m, n ≤ m ∧ go m = true) (hf : ∀ c ∈ cs, c.WidthOk) (hr : ∀ c ∈ cs, c.NonEmpty) :
    let r := BusCall.specAll D.bus [] cs
    ∃ m, ∀ n, m ≤ n → (h n).prog = .ret r.1 ∧ (h n).tx = [] ∧ (h n).rx = [] ∧
      (i2cBusOf D.target bidir period stretch (i2cStrCi period stretch (i2cProtoSi period stretch i)) hold (n + 1)).tgt.2 =
        (D.state r.2).1.log :=
  C102_calls_partial hp hw hrun ht hD hrel hrdy hgo hf (BusCall.readOk_nonEmpty D.bus cs [] hr)

/-- **C102.** The same for a host that offers what it has. -/
theorem C102_calls_system (D : I2cDev) (bidir : Bool) (period : Nat) (stretch : Bool) (cs : List BusCall) (rdy go hold : Nat → Bool)
    (hp : 4 ≤ period) (hh : ∀ n, hold n = true → bidir = true ∧ stretch = true) (hrel : ∀ n, ∃ m, n ≤ m ∧ hold m = false)
    (hrdy : ∀ n, ∃ m, n ≤ m ∧ rdy m = true) (hgo : ∀ n, ∃ m, n ≤ m ∧ go m = true) (hD : D.Polite)
    (hf : ∀ c ∈ cs, c.WidthOk) (hr : ∀ c ∈ cs, c.NonEmpty) :
    let r := BusCall.specAll D.bus [] cs
    ∃ m, ∀ n, m ≤ n → (pySysHost D bidir period stretch (BusCall.progAll cs) rdy go hold n).prog = .ret r.1 ∧
      (pySysHost D bidir period stretch (BusCall.progAll cs) rdy go hold n).tx = [] ∧
      (pySysHost D bidir period stretch (BusCall.progAll cs) rdy go hold n).rx = [] ∧
      pySysLog D bidir period stretch (BusCall.progAll cs) rdy go hold (n + 1) = (D.state r.2).1.log :=
  C102_calls_system_partial D bidir period stretch cs rdy go hold hp hh hrel hrdy hgo hD hf (BusCall.readOk_nonEmpty D.bus cs [] hr)

end

/-! ### Examples -/

/-- A block write, a block read, a write to an absent device and a discovery. -/
def libSample : List BusCall := [.write 16 0x50 0x1122 [0x33], .write 8 0x50 7 [1], .read 8 0x50 0x10 2, .write 8 0x21 0 [5], .discover]

theorem libSample_width : ∀ c ∈ libSample, c.WidthOk := by
  simp [libSample, BusCall.WidthOk]

theorem libSample_nonEmpty : ∀ c ∈ libSample, c.NonEmpty := by
  simp [libSample, BusCall.NonEmpty]

/-- A device with address 0xA0 that cannot be read. -/
def deafDev : I2cDev where
  ack log d := match log.reverse with
    | .start :: _ => d == 0xA0
    | _ => true
  tx _ := none

/-- The results of the sample, without the printed map. -/
example : ((BusCall.specAll politeDev.bus [] libSample).1.map fun l => l.map fun | BusRes.found r => BusRes.found (r.1, []) | x => x) =
    .ok [.wrote (some 1), .wrote (some 1), .read (some [0x5C, 0x5D]), .wrote none, .found ([0x50], [])] ∧
    (BusCall.specAll politeDev.bus [] libSample).2.take 5 =
      [.write 0x50 [0x11, 0x22, 0x33], .write 0x50 [7, 1], .write 0x50 [0x10], .read 0x50 2, .write 0x21 [0, 5]] := by
  decide +kernel

/-- A block read that is refused, and one that does not fit, which ends the program. -/
example : BusCall.specAll deafDev.bus [] [.read 8 0x50 0x10 2, .write 8 0x50 7 [1], .read 8 0x50 0 300, .discover] =
    (.error .valueError, [.write 0x50 [0x10], .read 0x50 2, .write 0x50 [7, 1], .write 0x50 [0]]) := by
  decide +kernel

example : BusCall.specAll deafDev.bus [] [.read 8 0x50 0x10 2, .write 8 0x50 7 [1]] =
    (.ok [.read none, .wrote (some 1)], [.write 0x50 [0x10], .read 0x50 2, .write 0x50 [7, 1]]) := by
  decide +kernel

/-- The theorem applied: the clock is held every now and then, and the program goes on every fifth cycle. -/
example : ∃ m, ∀ n, m ≤ n → (pySysHost politeDev true 8 true (BusCall.progAll libSample) (fun n => n % 3 == 0) (fun n => n % 5 == 0)
    (fun n => n % 50 < 20) n).prog = .ret (BusCall.specAll politeDev.bus [] libSample).1 := by
  obtain ⟨m, hm⟩ := C102_calls_system politeDev true 8 true libSample (fun n => n % 3 == 0) (fun n => n % 5 == 0)
    (fun n => n % 50 < 20) (by omega) (fun _ _ => ⟨rfl, rfl⟩) (fun n => ⟨50 * n + 20, by omega, by simp⟩)
    (fun n => ⟨3 * n, by omega, by simp⟩) (fun n => ⟨5 * n, by omega, by simp⟩) politeDev_polite libSample_width libSample_nonEmpty
  exact ⟨m, fun n hn => (hm n hn).1⟩

/-- With the device that cannot be read. -/
example : ∃ m, ∀ n, m ≤ n → (pySysHost deafDev true 8 true (BusCall.progAll [.read 8 0x50 0x10 2, .write 8 0x50 7 [1]]) (fun n => n % 3 == 0)
    (fun n => n % 5 == 0) (fun n => n % 50 < 20) n).prog = .ret (.ok [.read none, .wrote (some 1)]) := by
  obtain ⟨m, hm⟩ := C102_calls_system deafDev true 8 true [.read 8 0x50 0x10 2, .write 8 0x50 7 [1]] (fun n => n % 3 == 0)
    (fun n => n % 5 == 0) (fun n => n % 50 < 20) (by omega) (fun _ _ => ⟨rfl, rfl⟩) (fun n => ⟨50 * n + 20, by omega, by simp⟩)
    (fun n => ⟨3 * n, by omega, by simp⟩) (fun n => ⟨5 * n, by omega, by simp⟩) (fun _ _ h => nomatch h)
    (by simp [BusCall.WidthOk]) (by simp [BusCall.NonEmpty])
  refine ⟨m, fun n hn => ?_⟩
  rw [(hm n hn).1, show (BusCall.specAll deafDev.bus [] [.read 8 0x50 0x10 2, .write 8 0x50 7 [1]]).1 =
    .ok [.read none, .wrote (some 1)] from by decide +kernel]

end Lambdalib
