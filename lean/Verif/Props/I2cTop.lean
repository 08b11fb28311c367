import Verif.Lemmas.I2cTopTime
import Verif.Props.I2cTopRun
import Verif.Props.I2cLibrary

/-! The host library over a UART: the I2C bridge of the examples (C107). -/

namespace Lambdalib

/-! ### Logs of the bridge machine -/

theorem bridge_log_mono (d : BusDevices) (a p : List (BitVec 8)) (s : BridgeS) :
    (a.foldl (bridgeByte d) s).log <+: ((a ++ p).foldl (bridgeByte d) s).log := by
  rw [List.foldl_append]
  generalize a.foldl (bridgeByte d) s = s
  induction p generalizing s with
  | nil => exact List.prefix_rfl
  | cons b p ih =>
    refine List.IsPrefix.trans ?_ (ih (bridgeByte d s b))
    unfold bridgeByte
    simp only
    split
    · exact List.prefix_append _ _
    · exact List.prefix_rfl

/-- The transactions do not depend on what is read. -/
theorem bridge_log_written {α : Type} (d : BusDevices) (p : PyProg α) : ∀ s,
    (p.run (bridgeDev d) s).2.log = ((p.written (bridgeDev d) s).foldl (bridgeByte d) s).log := by
  have hind : ∀ (l : List (BitVec 8)) p r g, (l.foldl (bridgeByte d) ⟨p, r, g⟩).log = (l.foldl (bridgeByte d) ⟨p, [], g⟩).log := by
    intro l p r g
    have := bridge_fold_replies d l p r [] g
    rw [List.append_nil] at this
    rw [this]
  induction p with
  | ret r => intro s; rfl
  | write l k ih =>
    intro s
    simp only [PyProg.run, PyProg.written, ih, List.foldl_append]
    rfl
  | read n k ih =>
    intro s
    simp only [PyProg.run, PyProg.written, ih]
    obtain ⟨p, r, g⟩ := s
    rw [hind]
    exact (hind _ _ _ _).symm

section
variable {D : I2cDev} {bidir : Bool} {period : Nat} {stretch : Bool} {i : Nat → I2cProtoIn} {hold : Nat → Bool}

/-- The bytes that are dropped belong to a write that the device has refused. -/
theorem error_refused (hp : 4 ≤ period)
    (hw : I2cWired D.target bidir period stretch (i2cStrCi period stretch (i2cProtoSi period stretch i)) hold) (hD : D.Polite) (n : Nat)
    (hh : ∀ k, k < n → i2cHostHoldsAt period stretch i k) (ht : ∀ k, k < n → i2cProtoInTimeAt period stretch i k)
    (hr : ReadsZero D.bus (i2cProtoBytes period stretch i n))
    (hpt : ∀ k, k < n → (i k).valid = true →
      ¬ Owes D.bus (i2cProtoBytes period stretch i k) (i2cProtoReplies period stretch i k).length)
    (hs : ((i2cProto period stretch).st i n).fsm = .error) (rem : Nat) (hph : protoPhase (i2cProtoBytes period stretch i n) = .data rem)
    (post : List (BitVec 8)) (hpost : post.length = ((i2cProto period stretch).st i n).len) :
    ∃ r, ((i2cProtoBytes period stretch i n ++ post).foldl (bridgeByte D.bus) ⟨[], [], []⟩).replies = r ++ [1] := by
  have hst := fun k (hk : k < n) => bridge_stable hp hw hD k (fun l hl => hh l (by omega)) (fun l hl => ht l (by omega)) (hr.prefix (bytes_prefix (by omega)))
    fun k _ => hpt k (by omega)
  have hfit := fun k (hk : k < n) => bridge_fits hp hw hD k (fun l hl => hh l (by omega)) (fun l hl => ht l (by omega)) (hr.prefix (bytes_prefix (by omega)))
    fun k _ => hpt k (by omega)
  have hrel := bridge_rel hp hw hD n hh ht hr hpt
  have hB := (sys_run_upto hp hw n hst hfit).1
  have hRd := sys_reads_upto hp hw n hst hfit
  have hdat : i2cProtoData period stretch i n =
      (i2cStrDelivered period stretch (i2cProtoSi period stretch i) n).map (fun x => (x.last, x.payload)) :=
    (transferred_map (fun x : Beat (BitVec 8) => (x.last, x.payload)) _ _ _ n).symm
  obtain ⟨pend, hpend⟩ : ∃ pend, (D.reads devRest ((i2cStrBeats period stretch (i2cProtoSi period stretch i) n).map
      Prod.fst)).map (fun x => (x.last, x.payload)) = i2cProtoData period stretch i n ++ pend := by
    rw [hRd, List.map_append, hdat]
    exact ⟨_, rfl⟩
  clear hRd hdat hfit hst hr
  generalize i2cProtoBytes period stretch i n = A at *
  generalize i2cStrBeats period stretch (i2cProtoSi period stretch i) n = B at *
  generalize i2cProtoReplies period stretch i n = R at *
  generalize i2cProtoData period stretch i n = Dl at *
  generalize (i2cProto period stretch).st i n = s at *
  obtain ⟨fsm, header, len, status, str⟩ := s
  obtain ⟨_, _, a, b, c, d, hseq, hdl, hrel⟩ := hrel
  simp only at hs hpost
  subst hs
  simp only at hrel
  obtain ⟨a', b', h1, h2, h3, h4, h5⟩ := hrel
  rcases h5 with ⟨h5, _⟩ | ⟨_, _, _, _, _, _, rd, h5⟩
  · have hseq' := ProtoSeqD.snoc hseq (h5 post hpost)
    rw [hdl, h3, List.drop_eq_nil_of_le (by omega), List.append_nil, h2] at hpend
    rw [h2] at hB
    obtain ⟨_, _, g3, _, _⟩ := seq_split (extra := []) (X := []) (pend := pend) hseq' (by simpa using hB) (by simpa using hpend)
    rw [h1, List.append_assoc, g3, List.map_append]
    exact ⟨_, rfl⟩
  · rw [h5] at hph
    cases hph

end

/-! ### The bridge over a UART -/

section
variable {α : Type} {D : I2cDev} {bidir : Bool} {period : Nat} {stretch : Bool} {depth : Nat} {p : PyProg α} {i : Nat → I2cTopIn}
  {go : Nat → Bool} {h : Nat → PyHost α} {hold : Nat → Bool} {g : Nat}

local notation "PI" => topPi period stretch depth i
local notation "TS" n => Circuit.st (i2cTop period stretch depth) i n
local notation "AA" n => i2cProtoBytes period stretch (topPi period stretch depth i) n
local notation "ACK" n => I2cTopOut.rxAck (Circuit.wave (i2cTop period stretch depth) i n) = true

/-- Bytes that the bridge has taken from the UART. -/
def topTaken (period : Nat) (stretch : Bool) (depth : Nat) (i : Nat → I2cTopIn) (n : Nat) : Nat :=
  (i2cProtoBytes period stretch (topPi period stretch depth i) n).length + (topInside ((i2cTop period stretch depth).st i n)).length

theorem top_acc (n : Nat) : (AA (n + 1)) = (AA n) ++ protoAcc period stretch (TS n).proto (PI n) := by
  have : (AA (n + 1)) = (AA n) ++ (if (PI n).valid && ((i2cProto period stretch).wave (PI) n).ready then [(PI n).data] else []) := rfl
  rw [this, top_wave]
  rfl

theorem taken_succ (n : Nat) (ha : ACK n) : topTaken period stretch depth i (n + 1) =
    topTaken period stretch depth i n + if (i n).rxRdy then 1 else 0 := by
  unfold topTaken
  rw [top_acc, Circuit.st_succ, top_inside_next period stretch depth _ _ ha]
  have hoff := uart_offer (depth := depth) (TS n) (i n)
  change (_ ++ (if (PI n).valid && ((i2cProto period stretch).out (TS n).proto (PI n)).ready then [(PI n).data] else [])).length +
    ((if (PI n).valid && ((i2cProto period stretch).out (TS n).proto (PI n)).ready then (topInside (TS n)).tail else topInside (TS n)) ++ _).length = _
  change (PI n).valid = true → _ at hoff
  cases hv : (PI n).valid && ((i2cProto period stretch).out (TS n).proto (PI n)).ready
  · cases (i n).rxRdy <;> simp <;> omega
  · rw [Bool.and_eq_true] at hv
    obtain ⟨t, ht⟩ := hoff hv.1
    rw [ht]
    cases (i n).rxRdy <;> simp <;> omega

/-- What the bridge has taken is in its FIFO, or beyond, one cycle later. -/
theorem taken_shown (n : Nat) (ha : ACK n) : topTaken period stretch depth i n ≤ (AA (n + 1)).length + (TS (n + 1)).rx.length := by
  have e : (TS (n + 1)).rx.length = (topPay (TS (n + 1)).rx).length := by simp [topPay]
  unfold topTaken
  rw [e, top_acc, Circuit.st_succ]
  have ha' : (!((TS n).ser.valid && !(topShow depth (TS n).rx).ready)) = true := ha
  have e2 : topPay ((i2cTop period stretch depth).next (TS n) (i n)).rx = _ := topFifo_next depth (TS n).rx ⟨(TS n).ser.valid,
    ⟨false, false, BitVec.ofNat 8 (TS n).ser.data⟩, ((i2cProto period stretch).out (TS n).proto (PI n)).ready⟩
  rw [e2]
  unfold protoAcc topInside
  have hv : (PI n).valid = !(TS n).rx.isEmpty := rfl
  rw [hv]
  have hl : (topPay (TS n).rx).length = (TS n).rx.length := by simp [topPay]
  have hem : (TS n).rx.isEmpty = (topPay (TS n).rx).isEmpty := by simp [topPay]
  rw [hem]
  generalize topPay (TS n).rx = q
  generalize (topShow depth (TS n).rx).ready = r at *
  generalize (TS n).ser.valid = v at *
  generalize ((i2cProto period stretch).out (TS n).proto (PI n)).ready = o
  cases q <;> cases v <;> cases r <;> cases o <;> simp_all <;> omega

/-- The host has more and more bytes to send, or sent. -/
theorem total_succ (hu : UartRun period stretch depth p i go h) (n : Nat) (ha : ACK n) :
    topTaken period stretch depth i n + (h n).tx.length ≤ topTaken period stretch depth i (n + 1) + (h (n + 1)).tx.length := by
  have hs := hu.step n
  simp only [PyHost.step] at hs
  have h1 : (if (i n).rxRdy then (h n).tx.tail else (h n).tx).length ≤ (h (n + 1)).tx.length := by
    rw [hs]
    cases go n
    · exact Nat.le_refl _
    · exact List.IsPrefix.length_le (PyHost.act_tx (PyHost.mk (h n).prog (if (i n).rxRdy then (h n).tx.tail else (h n).tx) _))
  rw [taken_succ n ha]
  have hsend := hu.send n
  cases hr : (i n).rxRdy
  · rw [hr] at h1
    simp at h1 ⊢
    omega
  · obtain ⟨t, ht⟩ := hsend hr
    rw [hr, ht] at h1
    simp at h1 ⊢
    rw [ht]
    simp
    omega

theorem total_mono (hu : UartRun period stretch depth p i go h) (n d : Nat) (ha : ∀ k, k < n + d → ACK k) :
    topTaken period stretch depth i n + (h n).tx.length ≤ topTaken period stretch depth i (n + d) + (h (n + d)).tx.length := by
  induction d with
  | zero => exact Nat.le_refl _
  | succ d ih => exact Nat.le_trans (ih fun k hk => ha k (by omega)) (total_succ hu (n + d) (ha _ (by omega)))

theorem taken_mono (n d : Nat) (ha : ∀ k, k < n + d → ACK k) :
    topTaken period stretch depth i n ≤ topTaken period stretch depth i (n + d) := by
  induction d with
  | zero => exact Nat.le_refl _
  | succ d ih =>
    have := ih fun k hk => ha k (by omega)
    have := taken_succ (n + d) (ha _ (by omega))
    rw [← Nat.add_assoc]
    omega

/-- A byte arrives in every `g` cycles while the host has some. -/
theorem taken_pace (hu : UartRun period stretch depth p i go h) (hpace : ∀ n, (h n).tx ≠ [] → ∃ m, n ≤ m ∧ m < n + g ∧ (i m).rxRdy = true)
    (t k : Nat) (ha : ∀ j, j < t + k * g → ACK j) :
    topTaken period stretch depth i t + min k (h t).tx.length ≤ topTaken period stretch depth i (t + k * g) := by
  induction k with
  | zero => simp
  | succ k ih =>
    have hkg : (k + 1) * g = k * g + g := by rw [Nat.add_mul, Nat.one_mul]
    rw [hkg] at ha ⊢
    have ih := ih fun j hj => ha j (by omega)
    have hm := taken_mono (t + k * g) g fun j hj => ha j (by omega)
    rw [← Nat.add_assoc]
    by_cases h0 : (h (t + k * g)).tx = []
    · have := total_mono hu t (k * g) fun j hj => ha j (by omega)
      rw [h0] at this
      simp only [List.length_nil] at this
      omega
    · obtain ⟨m, h1, h2, h3⟩ := hpace _ h0
      have e1 := taken_succ m (ha m (by omega))
      rw [h3] at e1
      simp only [if_true] at e1
      have e2 := taken_mono (t + k * g) (m - (t + k * g)) fun j hj => ha j (by omega)
      rw [show t + k * g + (m - (t + k * g)) = m by omega] at e2
      have e3 := taken_mono (m + 1) (t + k * g + g - (m + 1)) fun j hj => ha j (by omega)
      rw [show m + 1 + (t + k * g + g - (m + 1)) = t + k * g + g by omega] at e3
      omega

/-- The bytes of the host are offered in time. -/
theorem arrived (hu : UartRun period stretch depth p i go h) (hpace : ∀ n, (h n).tx ≠ [] → ∃ m, n ≤ m ∧ m < n + g ∧ (i m).rxRdy = true)
    (n t m : Nat) (ha : ∀ j, j < n → ACK j) (hn : t + m * g + 1 ≤ n) (hm : m ≤ (uartSeen period stretch depth i h t).tx.length)
    (hlt : (AA n).length < (AA t).length + m) : (PI n).valid = true := by
  have h1 := taken_pace hu hpace t m fun j hj => ha j (by omega)
  have h2 := taken_mono (t + m * g) (n - 1 - (t + m * g)) fun j hj => ha j (by omega)
  rw [show t + m * g + (n - 1 - (t + m * g)) = n - 1 by omega] at h2
  have h3 := taken_shown (n - 1) (ha _ (by omega))
  rw [show n - 1 + 1 = n by omega] at h3
  have h4 : topTaken period stretch depth i t = (AA t).length + (topInside (TS t)).length := rfl
  simp only [uartSeen, uartHost, List.length_append] at hm
  have hv : (PI n).valid = !(TS n).rx.isEmpty := rfl
  rw [hv]
  cases hq : (TS n).rx with
  | cons => rfl
  | nil =>
    rw [hq] at h3
    simp only [List.length_nil] at h3
    omega

variable (hp : 4 ≤ period)
  (hw : I2cWired D.target bidir period stretch (i2cStrCi period stretch (i2cProtoSi period stretch (topPi period stretch depth i))) hold)
  (hu : UartRun period stretch depth p i go h)
  (hpace : ∀ n, (h n).tx ≠ [] → ∃ m, n ≤ m ∧ m < n + g ∧ (i m).rxRdy = true) (hD : D.Polite)
  (hc : p.Complete) (hf : p.Full (bridgeDev D.bus) ⟨[], [], []⟩)
  (hr : ReadsZero D.bus (p.written (bridgeDev D.bus) ⟨[], [], []⟩)) (hpt : p.Patient D.bus ⟨[], [], []⟩)
  (hl : p.Lockstep D.bus ⟨[], [], []⟩) (hsm : p.Small (fifoDepth depth)) (hg : g + 1 ≤ i2cByteTime period)
  (hshort : ∀ l a data, l ++ [.write a data] <+: (p.run (bridgeDev D.bus) ⟨[], [], []⟩).2.log → D.bus l (.write a data) = none →
    data.length * g + 1 ≤ i2cByteTime period)

theorem top_time (n : Nat) : strTimeInv period ((i2cProto period stretch).st (PI) n).str := by
  induction n with
  | zero =>
    exact ⟨⟨rfl, rfl⟩, by simp [i2cProto, i2cStream, i2cInitiator, Circuit.st], fun h => absurd rfl h, fun h => nomatch h⟩
  | succ n ih =>
    rw [Circuit.st_succ]
    exact str_time_step period stretch _ _ ih

include hp hw hu hpace hD hc hf hr hpt hl hsm hg hshort in
/-- No byte is lost, and the data bytes of writes are there when they are needed. -/
theorem top_in_time (N : Nat) : (∀ k, k < N → ACK k) ∧ ∀ k, k < N → i2cProtoInTimeAt period stretch (PI) k := by
  induction N with
  | zero => exact ⟨fun k hk => absurd hk (by omega), fun k hk => absurd hk (by omega)⟩
  | succ N ih =>
    obtain ⟨ha, ht⟩ := ih
    have hrun := uart_host_to hu N ha
    have hat := host_at_upto hp hw hD hc hf hr hpt N hrun ht
    have hack : ACK N := by
      obtain ⟨c, H⟩ := hat N (Nat.le_refl N)
      exact uart_room H hsm hl (Nat.le_refl _)
    have hzero : ∀ m, m ≤ N → ReadsZero D.bus (AA m) := by
      intro m hm
      obtain ⟨c, H⟩ := hat m hm
      refine hr.prefix ?_
      rw [H.written, List.append_assoc]
      exact List.prefix_append _ _
    have hpat : ∀ k, k < N → (PI k).valid = true → ¬ Owes D.bus (AA k) (i2cProtoReplies period stretch (PI) k).length := by
      intro k hk hv
      obtain ⟨c, H⟩ := hat k (by omega)
      have := H.patient_in (hrun.offer k (by omega) hv)
      rwa [List.length_map] at this
    have hholds := host_holds_to N hrun
    have hrel : ∀ m, m ≤ N → _ := fun m hm => bridge_rel hp hw hD m (fun k hk => hholds k (by omega)) (fun k hk => ht k (by omega)) (hzero m hm)
      (fun k hk => hpat k (by omega))
    have hclock : ∀ m, m ≤ N → protoClock period (fun n => AA n) m ((i2cProto period stretch).st (PI) m) := by
      intro m hm
      induction m with
      | zero => trivial
      | succ m ihm =>
        rw [Circuit.st_succ]
        refine clock_step period stretch (fun n => AA n) m _ (PI m) (hrel m (by omega)) (top_time m) ?_ (ht m (by omega)) (ihm (by omega))
        rw [← top_proto]
        exact top_acc m
    refine ⟨fun k hk => ?_, fun k hk => ?_⟩
    · rcases Nat.lt_or_ge k N with hk' | hk'
      · exact ha k hk'
      · obtain rfl : k = N := by omega
        exact hack
    · rcases Nat.lt_or_ge k N with hk' | hk'
      · exact ht k hk'
      obtain rfl : k = N := by omega
      rintro ⟨rem, hph⟩ hna
      obtain ⟨c, H⟩ := hat k (Nat.le_refl k)
      have hK := hclock k (Nat.le_refl k)
      have hrl := hrel k (Nat.le_refl k)
      have herr := error_refused hp hw hD k hholds ht (hzero k (Nat.le_refl k)) hpat
      have hti := top_time (period := period) (stretch := stretch) (depth := depth) (i := i) k
      have hle := strLeft_le period _ hti
      -- the data bytes were with the host when the command was taken
      have hcmd : ∀ t (a : List (BitVec 8)) (hd : BitVec 8) (L : Nat), t ≤ k → (AA t) = a ++ [hd, BitVec.ofNat 8 L] → ProtoComplete a →
          hd.getLsbD 0 = false → L < 256 → 1 ≤ L → L ≤ (uartSeen period stretch depth i h t).tx.length := by
        intro t a hd L htk hA ⟨rd, hca⟩ hb hL hL1
        obtain ⟨ct, Ht⟩ := hat t htk
        refine data_left (AA t) _ L ?_ (by omega) Ht.bytes
        rw [hA, show a ++ [hd, BitVec.ofNat 8 L] = a ++ [hd] ++ [BitVec.ofNat 8 L] by simp, protoPhase_snoc, protoPhase_snoc, hca]
        have : (BitVec.ofNat 8 L).toNat = L := by simp; omega
        simp only [protoPhaseStep, hb, this]
        rw [if_neg (by simp), if_neg (by omega)]
      have harr := fun t m => arrived hu hpace k t m ha
      obtain ⟨_, _, a0, b0, c0, d0, _, _, hrl⟩ := hrl
      generalize hs : (i2cProto period stretch).st (PI) k = s at *
      obtain ⟨fsm, header, len, status, str⟩ := s
      cases fsm <;> simp only [protoClock] at hK hrl hle hna herr
      case header => obtain ⟨_, _, _, rd, e⟩ := hrl; rw [hph] at e; cases e
      case length => rw [hph] at hrl; cases hrl.2.2.2
      case addr => exact absurd rfl hna
      case ok => rw [hph] at hrl; cases hrl.2.2.2.2.2.2
      case read => obtain ⟨_, _, _, _, _, _, _, e, _⟩ := hrl; rw [hph] at e; cases e
      case flush => obtain ⟨_, _, _, _, _, e, _⟩ := hrl; rw [hph] at e; cases e
      case status => obtain ⟨_, _, _, _, _, ⟨_, e⟩, _⟩ := hrl; rw [hph] at e; cases e
      case write =>
        obtain ⟨t, a, hd, pre, k1, k2, k3, k4, k5, k6, k7⟩ := hK
        obtain ⟨_, _, g2, _⟩ := hrl
        have hx := hcmd t a hd (len + pre.length) k1 k2 k4 k5 k6 (by omega)
        refine harr t (pre.length + 1) ?_ (by omega) (by rw [k3, List.length_append]; omega)
        have e1 : (pre.length + 2) * i2cByteTime period = (pre.length + 1) * i2cByteTime period + i2cByteTime period := by
          rw [show pre.length + 2 = pre.length + 1 + 1 from rfl, Nat.add_mul, Nat.one_mul]
        have e2 : (pre.length + 1) * (g + 1) ≤ (pre.length + 1) * i2cByteTime period := Nat.mul_le_mul_left _ hg
        have e3 : (pre.length + 1) * (g + 1) = (pre.length + 1) * g + (pre.length + 1) := by rw [Nat.mul_add, Nat.mul_one]
        omega
      case error =>
        obtain ⟨t, a, hd, pre, k1, k2, k3, k4, k5, k6, k7⟩ := hK _ hph
        obtain ⟨_, _, _, _, _, _, hrl⟩ := hrl
        have hlen : 1 ≤ len := by
          rcases hrl with ⟨_, e⟩ | ⟨_, _, _, _, _, _, _, e⟩
          · split at e
            · obtain ⟨_, e⟩ := e; rw [hph] at e; cases e
            · omega
          · rw [hph] at e; cases e
        have hdl : protoPhase (AA k) = .data len := by
          rcases hrl with ⟨_, e⟩ | ⟨_, _, _, _, _, _, _, e⟩
          · rwa [if_neg (by omega)] at e
          · rw [hph] at e; cases e
        have hpl := data_left (AA k) _ len hdl (by omega) H.bytes
        -- the write, and what the device answers
        obtain ⟨data, hdata⟩ : ∃ data, data = pre ++ ((uartSeen period stretch depth i h k).tx.take len) := ⟨_, rfl⟩
        have hdlen : data.length = len + pre.length := by
          rw [hdata, List.length_append, List.length_take]; omega
        have hAA : (AA k) ++ (uartSeen period stretch depth i h k).tx.take len = a ++ ([hd, BitVec.ofNat 8 data.length] ++ data) := by
          rw [k3, k2, hdlen, hdata]; simp
        obtain ⟨r, hrep⟩ := herr trivial rem hph ((uartSeen period stretch depth i h k).tx.take len) (by rw [List.length_take]; omega)
        have hpd : (a.foldl (bridgeByte D.bus) ⟨[], [], []⟩).pending = [] := by
          rcases bridge_phase D.bus a with h1 | h1
          · exact h1.1
          · exact absurd k4 h1.2.2
        have hwr := bridge_write D.bus (a.foldl (bridgeByte D.bus) ⟨[], [], []⟩) hd data hpd (byte_even hd k5).1 (by omega)
        have hnone : D.bus (a.foldl (bridgeByte D.bus) ⟨[], [], []⟩).log (.write (hd.toNat / 2) data) = none := by
          rw [hAA, List.foldl_append, hwr] at hrep
          cases e : D.bus (a.foldl (bridgeByte D.bus) ⟨[], [], []⟩).log (.write (hd.toNat / 2) data) with
          | none => rfl
          | some l =>
            have hz := D.bus_sized _ _ _ e
            simp only [List.length_eq_zero_iff] at hz
            rw [e, hz] at hrep
            have := (snoc_inj (show _ ++ [(0 : BitVec 8)] = r ++ [1] from hrep)).2
            exact absurd this (by decide)
        have hpre : (a.foldl (bridgeByte D.bus) ⟨[], [], []⟩).log ++ [.write (hd.toNat / 2) data] <+:
            (p.run (bridgeDev D.bus) ⟨[], [], []⟩).2.log := by
          rw [bridge_log_written, H.written]
          have : (AA k) ++ (uartSeen period stretch depth i h k).tx.take len <+: (AA k) ++ (uartSeen period stretch depth i h k).tx :=
            (List.prefix_append_right_inj _).2 (List.take_prefix _ _)
          obtain ⟨rest, hrest⟩ := this
          rw [← hrest, List.append_assoc]
          refine List.IsPrefix.trans ?_ (bridge_log_mono D.bus _ _ _)
          rw [hAA, List.foldl_append, hwr]
          exact List.prefix_rfl
        have hsh := hshort _ _ _ hpre hnone
        rw [hdlen] at hsh
        exact harr t (len + pre.length) (by omega) (hcmd t a hd _ k1 k2 k4 k5 k6 (by omega)) (by rw [k3, List.length_append]; omega)

/-! ### Progress -/

theorem tx_next (n : Nat) : topPay (TS (n + 1)).tx = (if (i n).txRdy then (topPay (TS n).tx).tail else topPay (TS n).tx) ++
    (if ((i2cProto period stretch).wave (PI) n).valid && (PI n).ready then [((i2cProto period stretch).wave (PI) n).beat.payload] else []) := by
  rw [top_wave, Circuit.st_succ]
  exact topFifo_next depth _ _

/-- The transmit FIFO becomes empty if `I2CProto` sends no more. -/
theorem tx_empties (htx : ∀ n, ∃ m, n ≤ m ∧ (i m).txRdy = true) (L : Nat) : ∀ n, (topPay (TS n).tx).length ≤ L →
    (∀ m, n ≤ m → (((i2cProto period stretch).wave (PI) m).valid && (PI m).ready) = false) →
    ∃ M, n ≤ M ∧ ∀ k, M ≤ k → topPay (TS k).tx = [] := by
  have hmono : ∀ n d, (∀ m, n ≤ m → (((i2cProto period stretch).wave (PI) m).valid && (PI m).ready) = false) →
      (topPay (TS (n + d)).tx).length ≤ (topPay (TS n).tx).length := by
    intro n d hno
    induction d with
    | zero => exact Nat.le_refl _
    | succ d ih =>
      have := tx_next (period := period) (stretch := stretch) (depth := depth) (i := i) (n + d)
      rw [hno (n + d) (by omega)] at this
      rw [← Nat.add_assoc, this]
      refine Nat.le_trans ?_ ih
      split <;> simp
  induction L with
  | zero =>
    intro n hl hno
    refine ⟨n, Nat.le_refl n, fun k hk => ?_⟩
    have := hmono n (k - n) hno
    rw [show n + (k - n) = k by omega] at this
    exact List.length_eq_zero_iff.1 (by omega)
  | succ L ih =>
    intro n hl hno
    obtain ⟨m, hm, ht⟩ := htx n
    have h1 := hmono n (m - n) hno
    rw [show n + (m - n) = m by omega] at h1
    have h2 := tx_next (period := period) (stretch := stretch) (depth := depth) (i := i) m
    rw [hno m hm, ht] at h2
    obtain ⟨M, h3, h4⟩ := ih (m + 1) (by rw [h2]; simp; omega) (fun k hk => hno k (by omega))
    exact ⟨M, by omega, h4⟩

theorem tx_room (htx : ∀ n, ∃ m, n ≤ m ∧ (i m).txRdy = true) (n : Nat) : ∃ m, n ≤ m ∧ (PI m).ready = true := by
  apply Classical.byContradiction
  intro hno
  have hf : ∀ m, n ≤ m → (PI m).ready = false := by
    intro m hm
    cases hr : (PI m).ready
    · rfl
    · exact absurd ⟨m, hm, hr⟩ hno
  obtain ⟨M, h1, h2⟩ := tx_empties (period := period) (stretch := stretch) (depth := depth) htx _ n (Nat.le_refl _)
    (fun m hm => by rw [hf m hm, Bool.and_false])
  have h3 := hf M h1
  have h4 : (PI M).ready = decide ((TS M).tx.length < fifoDepth depth) := rfl
  have h5 : (TS M).tx = [] := by
    have := h2 M (Nat.le_refl M)
    simpa [topPay] using this
  rw [h4, h5] at h3
  unfold fifoDepth at h3
  split at h3 <;> simp at h3
  omega

/-- Bytes of the host reach `I2CProto`. -/
theorem seen_live (hu : UartRun period stretch depth p i go h) (hpace : ∀ n, (h n).tx ≠ [] → ∃ m, n ≤ m ∧ m < n + g ∧ (i m).rxRdy = true)
    (ha : ∀ n, ACK n) (n : Nat) (hne : (uartSeen period stretch depth i h n).tx ≠ []) : ∃ m, n ≤ m ∧ (PI m).valid = true := by
  apply Classical.byContradiction
  intro hno
  have hf : ∀ m, n ≤ m → (PI m).valid = false := by
    intro m hm
    cases hr : (PI m).valid
    · rfl
    · exact absurd ⟨m, hm, hr⟩ hno
  have hA : ∀ d, (AA (n + d)) = (AA n) := by
    intro d
    induction d with
    | zero => rfl
    | succ d ih =>
      have := top_acc (period := period) (stretch := stretch) (depth := depth) (i := i) (n + d)
      unfold protoAcc at this
      rw [hf (n + d) (by omega), ih] at this
      rw [← Nat.add_assoc]
      simpa using this
  have hle : ∀ k, n ≤ k → topTaken period stretch depth i k ≤ (AA n).length := by
    intro k hk
    have h1 := taken_shown k (ha k)
    have h2 := hA (k + 1 - n)
    rw [show n + (k + 1 - n) = k + 1 by omega] at h2
    have h3 : (PI (k + 1)).valid = !(TS (k + 1)).rx.isEmpty := rfl
    rw [hf (k + 1) (by omega)] at h3
    cases hq : (TS (k + 1)).rx with
    | nil => rw [hq, h2] at h1; exact h1
    | cons => rw [hq] at h3; cases h3
  have h0 := hle n (Nat.le_refl n)
  have hin : topInside (TS n) = [] := List.length_eq_zero_iff.1 (by unfold topTaken at h0; omega)
  simp only [uartSeen, uartHost, hin, List.nil_append] at hne
  obtain ⟨m, hm, _, hr⟩ := hpace n hne
  have h1 := taken_succ m (ha m)
  rw [hr] at h1
  simp only [if_true] at h1
  have h2 := hle (m + 1) (by omega)
  have h3 : (AA n).length ≤ topTaken period stretch depth i m := by
    have := hA (m - n)
    rw [show n + (m - n) = m by omega] at this
    unfold topTaken
    rw [this]
    omega
  omega

theorem seen_run (hu : UartRun period stretch depth p i go h) (hpace : ∀ n, (h n).tx ≠ [] → ∃ m, n ≤ m ∧ m < n + g ∧ (i m).rxRdy = true)
    (ha : ∀ n, ACK n) : PyHostRun period stretch p (PI) (uartGoes period stretch depth i go h) (uartSeen period stretch depth i h) where
  init := (uart_host_to hu 0 fun n _ => ha n).init
  step n := (uart_host_to hu (n + 1) fun n _ => ha n).step n (by omega)
  offer n := (uart_host_to hu n fun n _ => ha n).offer n (by omega)
  keep n := (uart_host_to hu (n + 1) fun n _ => ha n).keep n (by omega)
  live n := seen_live hu hpace ha n

variable (hrel : ∀ n, ∃ m, n ≤ m ∧ hold m = false) (htx : ∀ n, ∃ m, n ≤ m ∧ (i m).txRdy = true) (hgo : ∀ n, ∃ m, n ≤ m ∧ go m = true)

include hp hw hu hpace hD hc hf hr hpt hl hsm hg hshort hrel htx hgo in
/-- The program goes on, again and again. -/
theorem seen_goes (n : Nat) : ∃ m, n ≤ m ∧ uartGoes period stretch depth i go h m = true := by
  have hall := fun N => top_in_time hp hw hu hpace hD hc hf hr hpt hl hsm hg hshort N
  have ha : ∀ n, ACK n := fun n => (hall (n + 1)).1 n (by omega)
  have ht : i2cProtoInTime period stretch (PI) := fun n => (hall (n + 1)).2 n (by omega)
  have hrun := seen_run hu hpace ha
  apply Classical.byContradiction
  intro hno
  have hfg : ∀ m, n ≤ m → uartGoes period stretch depth i go h m = false := by
    intro m hm
    cases hr : uartGoes period stretch depth i go h m
    · rfl
    · exact absurd ⟨m, hm, hr⟩ hno
  have hst : ∀ m, n ≤ m → i2cProtoBytes period stretch (PI) m ++ (uartSeen period stretch depth i h m).tx =
      i2cProtoBytes period stretch (PI) n ++ (uartSeen period stretch depth i h n).tx := by
    intro m hm
    obtain ⟨d, rfl⟩ : ∃ d, m = n + d := ⟨m - n, by omega⟩
    induction d with
    | zero => rfl
    | succ d ih =>
      obtain ⟨tx, e, _, hb⟩ := host_move hrun (n + d)
      rw [hfg (n + d) (by omega)] at e
      simp only [Bool.false_eq_true, if_false] at e
      rw [← ih (by omega), ← Nat.add_assoc, e]
      exact hb
  obtain ⟨M, hM, hdr⟩ := host_drains hp hw hrun ht hD hc hf hr hpt hrel (tx_room htx) n hst
  have hq : ∀ m, M ≤ m → (((i2cProto period stretch).wave (PI) m).valid && (PI m).ready) = false := by
    intro m hm
    have e1 := (hdr m hm).2.2.1
    have e2 := (hdr (m + 1) (by omega)).2.2.1
    have e3 : i2cProtoReplies period stretch (PI) (m + 1) = i2cProtoReplies period stretch (PI) m ++
      (if ((i2cProto period stretch).wave (PI) m).valid && (PI m).ready then
        [(((i2cProto period stretch).wave (PI) m).beat.last, ((i2cProto period stretch).wave (PI) m).beat.payload)] else []) := rfl
    rw [← e1, e3, List.map_append] at e2
    have e4 := congrArg List.length e2
    cases hv : ((i2cProto period stretch).wave (PI) m).valid && (PI m).ready
    · rfl
    · rw [hv] at e4
      simp at e4
  obtain ⟨K, hK, hemp⟩ := tx_empties (period := period) (stretch := stretch) (depth := depth) htx _ M (Nat.le_refl _) hq
  obtain ⟨k, hk, hgk⟩ := hgo K
  have hng := hfg k (by omega)
  obtain ⟨c, H⟩ := host_at hp hw hrun ht hD hc hf hr hpt k
  obtain ⟨g1, g2, g3, _⟩ := hdr k (by omega)
  simp only [uartGoes, uartGo, hgk, Bool.true_and] at hng
  have hrx : (uartSeen period stretch depth i h k).rx = (h k).rx := by
    simp only [uartSeen, uartHost, hemp k (by omega), List.append_nil]
  cases hpg : (h k).prog with
  | ret r => rw [hpg] at hng; cases hng
  | write l q => rw [hpg] at hng; cases hng
  | read m q =>
    rw [hpg] at hng
    have hfull := H.full
    have hx := H.rx
    have hpg' : (uartSeen period stretch depth i h k).prog = .read m q := hpg
    rw [hpg', g1, g2, List.append_nil] at hfull
    have hlen := hfull.1
    rw [hrx, g3] at hx
    simp only [bridgeDev, bridgeAt, List.length_take] at hlen
    simp only [decide_eq_false_iff_not, List.length_append] at hng
    rw [hx] at hng
    omega

include hp hw hu hpace hD hc hf hr hpt hl hsm hg hshort hrel htx hgo in
/-- **C107.** A program whose host is behind a UART, on the I2C bridge of the examples with a device on the wires: no byte from the UART
is lost, and the program ends with the result that the bridge machine gives. Conditions on the program, beyond those of C102: it writes
a buffer only when it has read all replies, no buffer is longer than the FIFO, and writes that the device refuses are so short that
their bytes have arrived when a byte on the bus is over. -/
theorem C107_uart_program_partial :
    let r := p.run (bridgeDev D.bus) ⟨[], [], []⟩
    (∀ n, ACK n) ∧ ∃ m, ∀ n, m ≤ n → (h n).prog = .ret r.1 ∧ (h n).tx = [] ∧ (h n).rx = r.2.replies ∧
      (i2cBusOf D.target bidir period stretch (i2cStrCi period stretch (i2cProtoSi period stretch (PI))) hold (n + 1)).tgt.2 =
        (D.state r.2.log).1.log := by
  intro r
  have hall := fun N => top_in_time hp hw hu hpace hD hc hf hr hpt hl hsm hg hshort N
  have ha : ∀ n, ACK n := fun n => (hall (n + 1)).1 n (by omega)
  have ht : i2cProtoInTime period stretch (PI) := fun n => (hall (n + 1)).2 n (by omega)
  have hrun := seen_run hu hpace ha
  obtain ⟨M, hM⟩ := C102_program_partial hp hw hrun ht hD hc hf hr hpt hrel (tx_room htx)
    (seen_goes hp hw hu hpace hD hc hf hr hpt hl hsm hg hshort hrel htx hgo)
  have hq : ∀ m, M ≤ m → (((i2cProto period stretch).wave (PI) m).valid && (PI m).ready) = false := by
    intro m hm
    obtain ⟨e0, _, e1, _⟩ := hM m hm
    have e2 := (hM (m + 1) (by omega)).2.2.1
    have e3 := hrun.step m
    simp only [PyHost.step, PyHost.act, e0] at e3
    have e4 := congrArg (fun q : PyHost α => q.rx.length) e3
    rw [ite_self] at e4
    simp only [e2, e1, List.length_append] at e4
    cases hv : ((i2cProto period stretch).wave (PI) m).valid && (PI m).ready
    · rfl
    · rw [hv] at e4
      simp at e4
  obtain ⟨K, hK, hemp⟩ := tx_empties (period := period) (stretch := stretch) (depth := depth) htx _ M (Nat.le_refl _) hq
  refine ⟨ha, K, fun n hn => ?_⟩
  obtain ⟨e0, e1, e2, e3⟩ := hM n (by omega)
  refine ⟨e0, (List.append_eq_nil_iff.1 e1).2, ?_, e3⟩
  have : (h n).rx ++ topPay (TS n).tx = r.2.replies := e2
  rwa [hemp n hn, List.append_nil] at this

end

end Lambdalib
