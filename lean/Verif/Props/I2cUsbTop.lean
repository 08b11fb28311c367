import Verif.Lemmas.I2cUsbTime
import Verif.Props.I2cUsbRun
import Verif.Props.I2cTop

/-! The host library over USB: the I2C bridge of the examples (C112). -/

namespace Lambdalib

theorem UsbPyHost.act_tx {α : Type} (size : Nat) (h : UsbPyHost α) : h.tx <+: (h.act size).tx := by
  obtain ⟨prog, tx, pk, cur⟩ := h
  cases prog with
  | ret r => exact List.prefix_rfl
  | write l k => exact List.prefix_append _ _
  | read n k =>
    simp only [UsbPyHost.act]
    split <;> exact List.prefix_rfl

section
variable {α : Type} {D : I2cDev} {bidir : Bool} {size : Nat} {zlp : Bool} {period : Nat} {stretch : Bool} {depth : Nat} {p : PyProg α}
  {i : Nat → I2cUsbTopIn} {go : Nat → Bool} {h : Nat → UsbPyHost α} {hold : Nat → Bool} {g : Nat}

local notation "PI" => usbPi period stretch depth i
local notation "TS" n => Circuit.st (i2cUsbTop period stretch depth) i n
local notation "AA" n => i2cProtoBytes period stretch (usbPi period stretch depth i) n
local notation "SEEN" n => usbSeen period stretch depth i h n
local notation "MID" n => usbMid size zlp period stretch depth i h n
local notation "DL" n => usbDelivered period stretch depth i n

/-- Bytes that the bridge has taken from the OUT endpoint. -/
def usbTaken (period : Nat) (stretch : Bool) (depth : Nat) (i : Nat → I2cUsbTopIn) (n : Nat) : Nat :=
  (i2cProtoBytes period stretch (usbPi period stretch depth i) n).length + ((i2cUsbTop period stretch depth).st i n).rx.length

theorem usbl_acc (n : Nat) : (AA (n + 1)) = (AA n) ++ protoAcc period stretch (TS n).proto (PI n) := by
  have : (AA (n + 1)) = (AA n) ++ (if (PI n).valid && ((i2cProto period stretch).wave (PI) n).ready then [(PI n).data] else []) := rfl
  rw [this, usbl_wave]
  rfl

theorem usbl_bytes (n : Nat) : (AA (n + 1)) ++ topPay (TS (n + 1)).rx = (AA n) ++ topPay (TS n).rx ++
    (if (i n).srcValid && ((i2cUsbTop period stretch depth).wave i n).srcReady then [(i n).src.payload] else []) := by
  rw [usbl_acc, Circuit.st_succ, usbl_inside_next period stretch depth (TS n) (i n)]
  have hoff := usbl_offer (depth := depth) (TS n) (i n)
  change (_ ++ (if (PI n).valid && ((i2cProto period stretch).out (TS n).proto (PI n)).ready then [(PI n).data] else [])) ++
    ((if (PI n).valid && ((i2cProto period stretch).out (TS n).proto (PI n)).ready then (topPay (TS n).rx).tail else topPay (TS n).rx) ++ _) =
    _ ++ (if (i n).srcValid && ((i2cUsbTop period stretch depth).out (TS n) (i n)).srcReady then [(i n).src.payload] else [])
  change (PI n).valid = true → _ at hoff
  cases hv : (PI n).valid && ((i2cProto period stretch).out (TS n).proto (PI n)).ready
  · simp
  · rw [Bool.and_eq_true] at hv
    obtain ⟨t, ht⟩ := hoff hv.1
    rw [ht]
    change (_ ++ [(PI n).data]) ++ _ = _ ++ (PI n).data :: t ++ _
    simp

theorem usbl_taken_succ (n : Nat) : usbTaken period stretch depth i (n + 1) =
    usbTaken period stretch depth i n + if (i n).srcValid && decide ((TS n).rx.length < fifoDepth depth) then 1 else 0 := by
  have := congrArg List.length (usbl_bytes (period := period) (stretch := stretch) (depth := depth) (i := i) n)
  have e : ((i2cUsbTop period stretch depth).wave i n).srcReady = decide ((TS n).rx.length < fifoDepth depth) := rfl
  rw [e] at this
  unfold usbTaken
  simp only [List.length_append] at this
  simp only [topPay, List.length_map] at this
  rw [this]
  congr 1
  split <;> rfl

theorem usbl_taken_mono (n d : Nat) : usbTaken period stretch depth i n ≤ usbTaken period stretch depth i (n + d) := by
  induction d with
  | zero => exact Nat.le_refl _
  | succ d ih =>
    have := usbl_taken_succ (period := period) (stretch := stretch) (depth := depth) (i := i) (n + d)
    rw [← Nat.add_assoc]
    omega

/-- Bytes move from the host to the bridge. -/
theorem usbl_mid (hu : UsbRun size zlp period stretch depth p i go h) (n : Nat) :
    (AA (n + 1)) ++ topPay (TS (n + 1)).rx ++ (MID n).tx = (AA n) ++ (SEEN n).tx := by
  rw [usbl_bytes]
  have e1 : (MID n).tx = if (i n).srcValid && ((i2cUsbTop period stretch depth).wave i n).srcReady then (h n).tx.tail else (h n).tx := rfl
  have e2 : (SEEN n).tx = topPay (TS n).rx ++ (h n).tx := rfl
  rw [e1, e2]
  cases hv : (i n).srcValid && ((i2cUsbTop period stretch depth).wave i n).srcReady
  · simp
  · rw [Bool.and_eq_true] at hv
    obtain ⟨t, ht⟩ := hu.send n hv.1
    rw [ht]
    simp

theorem usbl_next (hu : UsbRun size zlp period stretch depth p i go h) (n : Nat) : h (n + 1) = if go n then (MID n).act size else MID n := by
  rw [hu.step n]
  rfl

theorem usbl_total_succ (hu : UsbRun size zlp period stretch depth p i go h) (n : Nat) :
    (AA n).length + (SEEN n).tx.length ≤ (AA (n + 1)).length + (SEEN (n + 1)).tx.length := by
  have h1 := congrArg List.length (usbl_mid hu n)
  have h2 : (MID n).tx.length ≤ (h (n + 1)).tx.length := by
    rw [usbl_next hu n]
    cases go n
    · exact Nat.le_refl _
    · exact (UsbPyHost.act_tx size (MID n)).length_le
  have e2 : (SEEN (n + 1)).tx = topPay (TS (n + 1)).rx ++ (h (n + 1)).tx := rfl
  rw [e2]
  simp only [List.length_append] at h1 ⊢
  omega

theorem usbl_total_mono (hu : UsbRun size zlp period stretch depth p i go h) (n d : Nat) :
    (AA n).length + (SEEN n).tx.length ≤ (AA (n + d)).length + (SEEN (n + d)).tx.length := by
  induction d with
  | zero => exact Nat.le_refl _
  | succ d ih => exact Nat.le_trans ih (usbl_total_succ hu (n + d))

theorem usbl_seen_len (n : Nat) : (AA n).length + (SEEN n).tx.length = usbTaken period stretch depth i n + (h n).tx.length := by
  simp only [usbSeen, usbHost, usbTaken, List.length_append, topPay, List.length_map]
  omega

theorem usbl_A_mono (n d : Nat) : (AA n).length ≤ (AA (n + d)).length := (bytes_prefix (by omega)).length_le

/-- Bytes of the host arrive in the FIFO, as long as there is room. -/
theorem usbl_arrive (hu : UsbRun size zlp period stretch depth p i go h)
    (hpace : ∀ n, (h n).tx ≠ [] → ∃ m, n ≤ m ∧ m < n + g ∧ (i m).srcValid = true) (t k : Nat) :
    min (usbTaken period stretch depth i t + k) ((AA t).length + min (SEEN t).tx.length (fifoDepth depth)) ≤
      usbTaken period stretch depth i (t + k * g) := by
  induction k with
  | zero => simp only [Nat.zero_mul, Nat.add_zero]; omega
  | succ k ih =>
    have hkg : (k + 1) * g = k * g + g := by rw [Nat.add_mul, Nat.one_mul]
    rw [hkg, ← Nat.add_assoc t]
    have hA := usbl_A_mono (period := period) (stretch := stretch) (depth := depth) (i := i) t (k * g)
    have hT := usbl_total_mono hu t (k * g)
    rw [usbl_seen_len (t + k * g)] at hT
    generalize t + k * g = u at *
    have hm := usbl_taken_mono (period := period) (stretch := stretch) (depth := depth) (i := i) u g
    by_cases hd : min (usbTaken period stretch depth i t + (k + 1)) ((AA t).length + min (SEEN t).tx.length (fifoDepth depth)) ≤
        usbTaken period stretch depth i u
    · omega
    · have hne : (h u).tx ≠ [] := by
        intro h0
        rw [h0] at hT
        simp only [List.length_nil] at hT
        omega
      obtain ⟨m, h1, h2, h3⟩ := hpace u hne
      have e1 := usbl_taken_succ (period := period) (stretch := stretch) (depth := depth) (i := i) m
      have e2 := usbl_taken_mono (period := period) (stretch := stretch) (depth := depth) (i := i) u (m - u)
      rw [show u + (m - u) = m by omega] at e2
      have e3 := usbl_taken_mono (period := period) (stretch := stretch) (depth := depth) (i := i) (m + 1) (u + g - (m + 1))
      rw [show m + 1 + (u + g - (m + 1)) = u + g by omega] at e3
      have e4 := usbl_A_mono (period := period) (stretch := stretch) (depth := depth) (i := i) u (m - u)
      rw [show u + (m - u) = m by omega] at e4
      have e5 : usbTaken period stretch depth i m = (AA m).length + (TS m).rx.length := rfl
      rw [h3, Bool.true_and] at e1
      by_cases hr : (TS m).rx.length < fifoDepth depth
      · rw [if_pos (by simpa using hr)] at e1
        omega
      · omega

variable (hs : 0 < size) (hp : 4 ≤ period)
  (hw : I2cWired D.target bidir period stretch (i2cStrCi period stretch (i2cProtoSi period stretch (usbPi period stretch depth i))) hold)
  (hu : UsbRun size zlp period stretch depth p i go h)
  (hpace : ∀ n, (h n).tx ≠ [] → ∃ m, n ≤ m ∧ m < n + g ∧ (i m).srcValid = true) (hD : D.Polite)
  (hc : p.Complete) (hf : p.Full (bridgeDev D.bus) ⟨[], [], []⟩)
  (hr : ReadsZero D.bus (p.written (bridgeDev D.bus) ⟨[], [], []⟩)) (hpt : p.Patient D.bus ⟨[], [], []⟩)
  (hfr : p.Framed (fun n => zlp = false ∨ n % size ≠ 0) D.bus ⟨[], [], []⟩) (hg : 2 * g ≤ i2cByteTime period)
  (hshort : g = 1 ∨ ∀ l a data, l ++ [.write a data] <+: (p.run (bridgeDev D.bus) ⟨[], [], []⟩).2.log → D.bus l (.write a data) = none →
    data.length ≤ fifoDepth depth ∧ data.length * g ≤ i2cByteTime period)

theorem usbl_time (n : Nat) : strTimeInv period ((i2cProto period stretch).st (PI) n).str := by
  induction n with
  | zero =>
    exact ⟨⟨rfl, rfl⟩, by simp [i2cProto, i2cStream, i2cInitiator, Circuit.st], fun h => absurd rfl h, fun h => nomatch h⟩
  | succ n ih =>
    rw [Circuit.st_succ]
    exact str_time_step period stretch _ _ ih

/-- The messages when a byte is on its way to the endpoint. -/
theorem usbl_frame_mid (d : BusDevices) (ok : Nat → Prop) (W : List (BitVec 8)) (n : Nat) (hF : FrameAt size zlp ok d W (DL n) (h n)) :
    FrameAt size zlp ok d W (DL (n + 1)) (MID n) := by
  obtain ⟨ms0, ms1, h1, h2, h3, h4⟩ := hF
  refine ⟨ms0, ms1, h1, ?_, ?_, h4⟩
  · rw [usbDelivered, List.length_append]
    omega
  · have e : ((MID n).pk, (MID n).cur) = (usbGot ((i2cUsbTop period stretch depth).wave i n) (i n)).toList.foldl (usbIn size zlp)
      ((h n).pk, (h n).cur) := rfl
    rw [e, h3, usbDelivered, List.drop_append_of_le_length h2, List.foldl_append]

/-- The messages after a cycle. -/
theorem usbl_frame_next (hs : 0 < size) (hu : UsbRun size zlp period stretch depth p i go h) (d : BusDevices) (n : Nat)
    (hF : FrameAt size zlp (fun n => zlp = false ∨ n % size ≠ 0) d ((AA n) ++ (SEEN n).tx) (DL n) (h n))
    (hP : (DL (n + 1)) <+: (frameMsgs d ((AA n) ++ (SEEN n).tx)).flatMap flagMsg) :
    FrameAt size zlp (fun n => zlp = false ∨ n % size ≠ 0) d ((AA (n + 1)) ++ (SEEN (n + 1)).tx) (DL (n + 1)) (h (n + 1)) := by
  have hM := usbl_frame_mid (period := period) (stretch := stretch) (depth := depth) d _ _ n hF
  have hW := usbl_mid hu n
  have e2 : (SEEN (n + 1)).tx = topPay (TS (n + 1)).rx ++ (h (n + 1)).tx := rfl
  rw [e2, usbl_next hu n, ← List.append_assoc]
  cases go n
  · simp only [Bool.false_eq_true, if_false]
    rw [hW]
    exact hM
  · simp only [if_true]
    obtain ⟨l, hl, hF'⟩ := frame_act hs (MID n) hM hP
    rw [hl, ← List.append_assoc, hW]
    exact hF'

include hs hp hw hu hpace hD hc hf hr hpt hfr hg hshort in
/-- Calls of `recv` return what is asked for, and the data bytes of writes are there when they are needed. -/
theorem usbl_in_time (N : Nat) : (∀ k, k < N → UsbExact size (MID k)) ∧ (∀ k, k < N → i2cProtoInTimeAt period stretch (PI) k) ∧
    (∀ k, k ≤ N → FrameAt size zlp (fun n => zlp = false ∨ n % size ≠ 0) D.bus ((AA k) ++ (SEEN k).tx) (DL k) (h k)) ∧
    (∀ k, k ≤ N → (DL k) <+: (frameMsgs D.bus ((AA k) ++ (SEEN k).tx)).flatMap flagMsg) ∧
    ∀ k, k ≤ N → protoFed (g = 1) (AA k) ((i2cProto period stretch).st (PI) k) (TS k).rx.length := by
  induction N with
  | zero =>
    refine ⟨fun k hk => absurd hk (by omega), fun k hk => absurd hk (by omega), fun k hk => ?_, fun k hk => ?_, fun k hk => ?_⟩ <;>
      obtain rfl : k = 0 := by omega
    · rw [usbSeen, hu.init]
      exact ⟨[], [], rfl, Nat.le_refl _, rfl, hfr⟩
    · exact List.nil_prefix
    · rintro (e | ⟨e, _⟩) <;> cases e
  | succ N ih =>
    obtain ⟨hx, ht, hF, hP, hV⟩ := ih
    have hrun := usbl_host_to hu N hx
    have hat := host_at_upto hp hw hD hc hf hr hpt N hrun ht
    have hzero : ∀ m, m ≤ N → ReadsZero D.bus (AA m) := by
      intro m hm
      obtain ⟨c, H⟩ := hat m hm
      refine hr.prefix ?_
      rw [H.written, List.append_assoc]
      exact List.prefix_append _ _
    have hpat : ∀ k, k < N → (PI k).valid = true → ¬ Owes D.bus (AA k) (i2cProtoReplies period stretch (PI) k).length := by
      intro k hk hv
      obtain ⟨c, H⟩ := hat k (by omega)
      have := H.patient_in (hrun.offer k (by omega) hv)
      rwa [List.length_map] at this
    have hholds := host_holds_to N hrun
    have hrel : ∀ m, m ≤ N → _ := fun m hm => bridge_rel hp hw hD m (fun k hk => hholds k (by omega)) (fun k hk => ht k (by omega)) (hzero m hm)
      (fun k hk => hpat k (by omega))
    have hAcc : ∀ m, (AA (m + 1)) = (AA m) ++ protoAcc period stretch ((i2cProto period stretch).st (PI) m) (PI m) := by
      intro m
      rw [← usbl_proto]
      exact usbl_acc m
    have hclock : ∀ m, m ≤ N → protoClock period (fun n => AA n) m ((i2cProto period stretch).st (PI) m) := by
      intro m hm
      induction m with
      | zero => trivial
      | succ m ihm =>
        rw [Circuit.st_succ]
        exact clock_step period stretch (fun n => AA n) m _ (PI m) (hrel m (by omega)) (usbl_time m) (hAcc m) (ht m (by omega)) (ihm (by omega))
    have hwait : ∀ m, m ≤ N → protoWait period (fun n => AA n) m ((i2cProto period stretch).st (PI) m) := by
      intro m hm
      induction m with
      | zero => rintro (e | e) <;> cases e
      | succ m ihm =>
        rw [Circuit.st_succ]
        exact wait_step period stretch (fun n => AA n) m _ (PI m) (hrel m (by omega)) (usbl_time m) (hAcc m) (ht m (by omega)) (ihm (by omega))
    -- the messages
    have hflags := bridge_flags hp hw hD N hholds ht (hzero N (Nat.le_refl N)) hpat
    have hPs : (DL (N + 1)) <+: (frameMsgs D.bus ((AA N) ++ (SEEN N).tx)).flatMap flagMsg :=
      (usbl_delivered_succ period stretch depth i N).trans (hflags.trans (flags_mono D.bus _ _))
    have hXN : UsbExact size (MID N) := frame_exact hs (MID N) (usbl_frame_mid _ _ _ N (hF N (Nat.le_refl N))) hPs
    have hFN := usbl_frame_next hs hu D.bus N (hF N (Nat.le_refl N)) hPs
    have hPN : (DL (N + 1)) <+: (frameMsgs D.bus ((AA (N + 1)) ++ (SEEN (N + 1)).tx)).flatMap flagMsg := by
      have hW := usbl_mid hu N
      have e2 : (SEEN (N + 1)).tx = topPay (TS (N + 1)).rx ++ (h (N + 1)).tx := rfl
      obtain ⟨l, hl⟩ : (MID N).tx <+: (h (N + 1)).tx := by
        rw [usbl_next hu N]
        cases go N
        · exact List.prefix_rfl
        · exact UsbPyHost.act_tx size (MID N)
      rw [e2, ← hl, ← List.append_assoc, ← List.append_assoc, hW]
      exact hPs.trans (flags_mono D.bus _ _)
    -- the data bytes
    have hleft : ∀ t r, t ≤ N → protoPhase (AA t) = .data r → r ≠ 0 → r ≤ (SEEN t).tx.length := by
      intro t r htN hph h0
      obtain ⟨ct, Ht⟩ := hat t htN
      exact data_left (AA t) _ r hph h0 Ht.bytes
    have harr := fun t k => usbl_arrive hu hpace t k
    have hdep : 8 ≤ fifoDepth depth := by unfold fifoDepth; split <;> omega
    have htk : ∀ m, usbTaken period stretch depth i m = (AA m).length + (TS m).rx.length := fun m => rfl
    have htm : ∀ a b, a ≤ b → usbTaken period stretch depth i a ≤ usbTaken period stretch depth i b := by
      intro a b hab
      have := usbl_taken_mono (period := period) (stretch := stretch) (depth := depth) (i := i) a (b - a)
      rwa [show a + (b - a) = b by omega] at this
    have hfill : ∀ t r, t ≤ N → (AA t) = (AA N) → i2cByteTime period ≤ N - t → protoPhase (AA N) = .data r → r ≠ 0 →
        min r 2 ≤ (TS N).rx.length := by
      intro t r h1 h2 h3 h4 h5
      have k1 := harr t 2
      have k2 := hleft t r h1 (by rw [h2]; exact h4) h5
      have k3 := htm (t + 2 * g) N (by omega)
      rw [htk N, ← h2] at k3
      have := htk t
      omega
    have hcur : i2cProtoInTimeAt period stretch (PI) N := by
      rintro ⟨rem, hph⟩ hna
      have hvalid : 1 ≤ (TS N).rx.length → (PI N).valid = true := by
        intro h1
        have e : (PI N).valid = !(TS N).rx.isEmpty := rfl
        rw [e]
        cases hq : (TS N).rx with
        | nil => rw [hq] at h1; cases h1
        | cons => rfl
      refine hvalid ?_
      obtain ⟨c, H⟩ := hat N (Nat.le_refl N)
      have hK := hclock N (Nat.le_refl N)
      have hrl := hrel N (Nat.le_refl N)
      have hVN := hV N (Nat.le_refl N)
      have herr := error_refused hp hw hD N hholds ht (hzero N (Nat.le_refl N)) hpat
      have hti := usbl_time (period := period) (stretch := stretch) (depth := depth) (i := i) N
      have hle := strLeft_le period _ hti
      obtain ⟨_, _, a0, b0, c0, d0, _, _, hrl⟩ := hrl
      generalize hst : (i2cProto period stretch).st (PI) N = s at *
      obtain ⟨fsm, header, len, status, str⟩ := s
      cases fsm <;> simp only [protoClock, protoFed] at hK hrl hle hna herr hVN
      case header => obtain ⟨_, _, _, rd, e⟩ := hrl; rw [hph] at e; cases e
      case length => rw [hph] at hrl; cases hrl.2.2.2
      case addr => exact absurd rfl hna
      case ok => rw [hph] at hrl; cases hrl.2.2.2.2.2.2
      case read => obtain ⟨_, _, _, _, _, _, _, e, _⟩ := hrl; rw [hph] at e; cases e
      case flush => obtain ⟨_, _, _, _, _, e, _⟩ := hrl; rw [hph] at e; cases e
      case status => obtain ⟨_, _, _, _, _, ⟨_, e⟩, _⟩ := hrl; rw [hph] at e; cases e
      case write => exact hVN (.inl trivial)
      case error =>
        rcases hshort with h1 | hshort
        · exact hVN (.inr ⟨trivial, h1, _, hph⟩)
        obtain ⟨t, a, hd, pre, k1, k2, k3, k4, k5, k6, k7⟩ := hK _ hph
        obtain ⟨_, _, _, _, _, _, hrl⟩ := hrl
        have hlen : 1 ≤ len := by
          rcases hrl with ⟨_, e⟩ | ⟨_, _, _, _, _, _, _, e⟩
          · split at e
            · obtain ⟨_, e⟩ := e; rw [hph] at e; cases e
            · omega
          · rw [hph] at e; cases e
        have hdl : protoPhase (AA N) = .data len := by
          rcases hrl with ⟨_, e⟩ | ⟨_, _, _, _, _, _, _, e⟩
          · rwa [if_neg (by omega)] at e
          · rw [hph] at e; cases e
        have hpl := data_left (AA N) _ len hdl (by omega) H.bytes
        -- the data bytes were with the host when the command was taken
        have hcmd : len + pre.length ≤ (SEEN t).tx.length := by
          refine hleft t _ k1 ?_ (by omega)
          obtain ⟨rd, hca⟩ := k4
          rw [k2, show a ++ [hd, BitVec.ofNat 8 (len + pre.length)] = a ++ [hd] ++ [BitVec.ofNat 8 (len + pre.length)] by simp,
            protoPhase_snoc, protoPhase_snoc, hca]
          have : (BitVec.ofNat 8 (len + pre.length)).toNat = len + pre.length := by simp; omega
          simp only [protoPhaseStep, k5, this]
          rw [if_neg (by simp), if_neg (by omega)]
        -- the write, and what the device answers
        obtain ⟨data, hdata⟩ : ∃ data, data = pre ++ ((SEEN N).tx.take len) := ⟨_, rfl⟩
        have hdlen : data.length = len + pre.length := by
          rw [hdata, List.length_append, List.length_take]; omega
        have hAA : (AA N) ++ (SEEN N).tx.take len = a ++ ([hd, BitVec.ofNat 8 data.length] ++ data) := by
          rw [k3, k2, hdlen, hdata]; simp
        obtain ⟨r, hrep⟩ := herr trivial rem hph ((SEEN N).tx.take len) (by rw [List.length_take]; omega)
        have hpd : (a.foldl (bridgeByte D.bus) ⟨[], [], []⟩).pending = [] := by
          rcases bridge_phase D.bus a with h1 | h1
          · exact h1.1
          · exact absurd k4 h1.2.2
        have hwr := bridge_write D.bus (a.foldl (bridgeByte D.bus) ⟨[], [], []⟩) hd data hpd (byte_even hd k5).1 (by omega)
        have hnone : D.bus (a.foldl (bridgeByte D.bus) ⟨[], [], []⟩).log (.write (hd.toNat / 2) data) = none := by
          rw [hAA, List.foldl_append, hwr] at hrep
          cases e : D.bus (a.foldl (bridgeByte D.bus) ⟨[], [], []⟩).log (.write (hd.toNat / 2) data) with
          | none => rfl
          | some l =>
            have hz := D.bus_sized _ _ _ e
            simp only [List.length_eq_zero_iff] at hz
            rw [e, hz] at hrep
            have := (snoc_inj (show _ ++ [(0 : BitVec 8)] = r ++ [1] from hrep)).2
            exact absurd this (by decide)
        have hpre : (a.foldl (bridgeByte D.bus) ⟨[], [], []⟩).log ++ [.write (hd.toNat / 2) data] <+:
            (p.run (bridgeDev D.bus) ⟨[], [], []⟩).2.log := by
          rw [bridge_log_written, H.written]
          have : (AA N) ++ (SEEN N).tx.take len <+: (AA N) ++ (SEEN N).tx :=
            (List.prefix_append_right_inj _).2 (List.take_prefix _ _)
          obtain ⟨rest, hrest⟩ := this
          rw [← hrest, List.append_assoc]
          refine List.IsPrefix.trans ?_ (bridge_log_mono D.bus _ _ _)
          rw [hAA, List.foldl_append, hwr]
          exact List.prefix_rfl
        obtain ⟨hs1, hs2⟩ := hshort _ _ _ hpre hnone
        rw [hdlen] at hs1 hs2
        have e1 := harr t (len + pre.length)
        have e2 := htm (t + (len + pre.length) * g) N (by omega)
        have e3 := htk t
        have e4 := htk N
        rw [k3, List.length_append] at e4
        omega
    have htN : ∀ k, k < N + 1 → i2cProtoInTimeAt period stretch (PI) k := by
      intro k hk
      rcases Nat.lt_or_ge k N with hk' | hk'
      · exact ht k hk'
      · obtain rfl : k = N := by omega
        exact hcur
    have hsucc := usbl_taken_succ (period := period) (stretch := stretch) (depth := depth) (i := i) N
    have hAN := congrArg List.length (hAcc N)
    rw [List.length_append] at hAN
    have hle1 : (protoAcc period stretch ((i2cProto period stretch).st (PI) N) (PI N)).length ≤ 1 := by
      unfold protoAcc
      split <;> simp
    rw [htk, htk, hAN] at hsucc
    have hVs := fed_step period stretch (g = 1) (fun n => AA n) N _ (PI N) (TS N).rx.length (TS (N + 1)).rx.length (hrel N (Nat.le_refl N)) (usbl_time N)
      (hAcc N) hcur (hwait N (Nat.le_refl N)) hfill (fun h0 => by rw [h0, List.length_nil] at hsucc; omega) (by omega)
      (fun h1 r hph h2 h3 => by
        by_cases h4 : 2 ≤ (TS N).rx.length
        · omega
        · have h5 := hleft N r (Nat.le_refl N) hph (by omega)
          have h6 : (h N).tx ≠ [] := by
            intro h0
            simp only [usbSeen, usbHost, h0, List.append_nil, topPay, List.length_map] at h5
            omega
          obtain ⟨m, m1, m2, m3⟩ := hpace N h6
          obtain rfl : m = N := by omega
          rw [m3, Bool.true_and, if_pos (by simp; omega)] at hsucc
          omega) (hV N (Nat.le_refl N))
    refine ⟨fun k hk => ?_, htN, fun k hk => ?_, fun k hk => ?_, fun k hk => ?_⟩ <;> rcases Nat.lt_or_ge k (N + 1) with hk' | hk'
    · rcases Nat.lt_or_ge k N with hk' | hk'
      · exact hx k hk'
      · obtain rfl : k = N := by omega
        exact hXN
    · omega
    · exact hF k (by omega)
    · obtain rfl : k = N + 1 := by omega
      exact hFN
    · exact hP k (by omega)
    · obtain rfl : k = N + 1 := by omega
      exact hPN
    · exact hV k (by omega)
    · obtain rfl : k = N + 1 := by omega
      rw [Circuit.st_succ]
      exact hVs

/-! ### Progress -/

theorem usbl_tx_next (n : Nat) : topPay (TS (n + 1)).tx = (if (i n).sinkReady then (topPay (TS n).tx).tail else topPay (TS n).tx) ++
    (if ((i2cProto period stretch).wave (PI) n).valid && (PI n).ready then [((i2cProto period stretch).wave (PI) n).beat.payload] else []) := by
  rw [usbl_wave, Circuit.st_succ]
  exact topFifo_next depth _ _

/-- The transmit FIFO becomes empty if `I2CProto` sends no more. -/
theorem usbl_tx_empties (htx : ∀ n, ∃ m, n ≤ m ∧ (i m).sinkReady = true) (L : Nat) : ∀ n, (topPay (TS n).tx).length ≤ L →
    (∀ m, n ≤ m → (((i2cProto period stretch).wave (PI) m).valid && (PI m).ready) = false) →
    ∃ M, n ≤ M ∧ ∀ k, M ≤ k → topPay (TS k).tx = [] := by
  have hmono : ∀ n d, (∀ m, n ≤ m → (((i2cProto period stretch).wave (PI) m).valid && (PI m).ready) = false) →
      (topPay (TS (n + d)).tx).length ≤ (topPay (TS n).tx).length := by
    intro n d hno
    induction d with
    | zero => exact Nat.le_refl _
    | succ d ih =>
      have := usbl_tx_next (period := period) (stretch := stretch) (depth := depth) (i := i) (n + d)
      rw [hno (n + d) (by omega)] at this
      rw [← Nat.add_assoc, this]
      refine Nat.le_trans ?_ ih
      split <;> simp
  induction L with
  | zero =>
    intro n hl hno
    refine ⟨n, Nat.le_refl n, fun k hk => ?_⟩
    have := hmono n (k - n) hno
    rw [show n + (k - n) = k by omega] at this
    exact List.length_eq_zero_iff.1 (by omega)
  | succ L ih =>
    intro n hl hno
    obtain ⟨m, hm, ht⟩ := htx n
    have h1 := hmono n (m - n) hno
    rw [show n + (m - n) = m by omega] at h1
    have h2 := usbl_tx_next (period := period) (stretch := stretch) (depth := depth) (i := i) m
    rw [hno m hm, ht] at h2
    obtain ⟨M, h3, h4⟩ := ih (m + 1) (by rw [h2]; simp; omega) (fun k hk => hno k (by omega))
    exact ⟨M, by omega, h4⟩

theorem usbl_tx_room (htx : ∀ n, ∃ m, n ≤ m ∧ (i m).sinkReady = true) (n : Nat) : ∃ m, n ≤ m ∧ (PI m).ready = true := by
  apply Classical.byContradiction
  intro hno
  have hf : ∀ m, n ≤ m → (PI m).ready = false := by
    intro m hm
    cases hr : (PI m).ready
    · rfl
    · exact absurd ⟨m, hm, hr⟩ hno
  obtain ⟨M, h1, h2⟩ := usbl_tx_empties (period := period) (stretch := stretch) (depth := depth) htx _ n (Nat.le_refl _)
    (fun m hm => by rw [hf m hm, Bool.and_false])
  have h3 := hf M h1
  have h4 : (PI M).ready = decide ((TS M).tx.length < fifoDepth depth) := rfl
  have h5 : (TS M).tx = [] := by
    have := h2 M (Nat.le_refl M)
    simpa [topPay] using this
  rw [h4, h5] at h3
  unfold fifoDepth at h3
  split at h3 <;> simp at h3
  omega

/-- Bytes of the host reach `I2CProto`. -/
theorem usbl_live (hpace : ∀ n, (h n).tx ≠ [] → ∃ m, n ≤ m ∧ m < n + g ∧ (i m).srcValid = true)
    (n : Nat) (hne : (SEEN n).tx ≠ []) : ∃ m, n ≤ m ∧ (PI m).valid = true := by
  apply Classical.byContradiction
  intro hno
  have hf : ∀ m, n ≤ m → (TS m).rx = [] := by
    intro m hm
    have e : (PI m).valid = !(TS m).rx.isEmpty := rfl
    cases hq : (TS m).rx with
    | nil => rfl
    | cons a l =>
      rw [hq] at e
      exact absurd ⟨m, hm, e⟩ hno
  simp only [usbSeen, usbHost, hf n (Nat.le_refl n)] at hne
  obtain ⟨m, hm, _, hr⟩ := hpace n hne
  have h1 := usbl_inside_next period stretch depth (TS m) (i m)
  have h2 : (TS (m + 1)).rx = ((i2cUsbTop period stretch depth).next (TS m) (i m)).rx := by rw [Circuit.st_succ]
  rw [← h2, hf (m + 1) (by omega)] at h1
  have e : ((i2cUsbTop period stretch depth).out (TS m) (i m)).srcReady = decide ((TS m).rx.length < fifoDepth depth) := rfl
  have hd : 0 < fifoDepth depth := by unfold fifoDepth; split <;> omega
  rw [e, hf m hm, hr] at h1
  simp [topPay, hd] at h1

theorem usbl_run (hu : UsbRun size zlp period stretch depth p i go h)
    (hpace : ∀ n, (h n).tx ≠ [] → ∃ m, n ≤ m ∧ m < n + g ∧ (i m).srcValid = true)
    (hx : ∀ n, UsbExact size (MID n)) : PyHostRun period stretch p (PI) (usbGoes size zlp period stretch depth i go h) (usbSeen period stretch depth i h) where
  init := (usbl_host_to hu 0 fun n _ => hx n).init
  step n := (usbl_host_to hu (n + 1) fun n _ => hx n).step n (by omega)
  offer n := (usbl_host_to hu n fun n _ => hx n).offer n (by omega)
  keep n := (usbl_host_to hu (n + 1) fun n _ => hx n).keep n (by omega)
  live n := usbl_live hpace n

variable (hrel : ∀ n, ∃ m, n ≤ m ∧ hold m = false) (htx : ∀ n, ∃ m, n ≤ m ∧ (i m).sinkReady = true) (hgo : ∀ n, ∃ m, n ≤ m ∧ go m = true)

include hs hp hw hu hpace hD hc hf hr hpt hfr hg hshort hrel htx hgo in
/-- The program goes on, again and again. -/
theorem usbl_goes (n : Nat) : ∃ m, n ≤ m ∧ usbGoes size zlp period stretch depth i go h m = true := by
  have hall := fun N => usbl_in_time hs hp hw hu hpace hD hc hf hr hpt hfr hg hshort N
  have hx : ∀ n, UsbExact size (MID n) := fun n => (hall (n + 1)).1 n (by omega)
  have ht : i2cProtoInTime period stretch (PI) := fun n => (hall (n + 1)).2.1 n (by omega)
  have hrun := usbl_run hu hpace hx
  apply Classical.byContradiction
  intro hno
  have hfg : ∀ m, n ≤ m → usbGoes size zlp period stretch depth i go h m = false := by
    intro m hm
    cases hr : usbGoes size zlp period stretch depth i go h m
    · rfl
    · exact absurd ⟨m, hm, hr⟩ hno
  have hst : ∀ m, n ≤ m → (AA m) ++ (SEEN m).tx = (AA n) ++ (SEEN n).tx := by
    intro m hm
    obtain ⟨d, rfl⟩ : ∃ d, m = n + d := ⟨m - n, by omega⟩
    induction d with
    | zero => rfl
    | succ d ih =>
      obtain ⟨tx, e, _, hb⟩ := host_move hrun (n + d)
      rw [hfg (n + d) (by omega)] at e
      simp only [Bool.false_eq_true, if_false] at e
      rw [← ih (by omega), ← Nat.add_assoc, e]
      exact hb
  obtain ⟨M, hM, hdr⟩ := host_drains hp hw hrun ht hD hc hf hr hpt hrel (usbl_tx_room htx) n hst
  have hq : ∀ m, M ≤ m → (((i2cProto period stretch).wave (PI) m).valid && (PI m).ready) = false := by
    intro m hm
    have e1 := (hdr m hm).2.2.1
    have e2 := (hdr (m + 1) (by omega)).2.2.1
    have e3 : i2cProtoReplies period stretch (PI) (m + 1) = i2cProtoReplies period stretch (PI) m ++
      (if ((i2cProto period stretch).wave (PI) m).valid && (PI m).ready then
        [(((i2cProto period stretch).wave (PI) m).beat.last, ((i2cProto period stretch).wave (PI) m).beat.payload)] else []) := rfl
    rw [← e1, e3, List.map_append] at e2
    have e4 := congrArg List.length e2
    cases hv : ((i2cProto period stretch).wave (PI) m).valid && (PI m).ready
    · rfl
    · rw [hv] at e4
      simp at e4
  obtain ⟨K, hK, hemp⟩ := usbl_tx_empties (period := period) (stretch := stretch) (depth := depth) htx _ M (Nat.le_refl _) hq
  obtain ⟨k, hk, hgk⟩ := hgo K
  have hng := hfg k (by omega)
  obtain ⟨g1, g2, g3, _⟩ := hdr k (by omega)
  simp only [usbGoes, usbGo, hgk, Bool.true_and] at hng
  obtain ⟨_, _, hF, hP, _⟩ := hall (k + 1)
  have hFm := usbl_frame_mid (period := period) (stretch := stretch) (depth := depth) D.bus _ _ k (hF k (by omega))
  have hlen : (DL (k + 1)).length = (frameMsgs D.bus ((AA k) ++ (SEEN k).tx)).flatten.length := by
    rw [g2, List.append_nil, ← frame_replies, g1, ← g3, ← usbl_delivered]
    have h0 : ∀ m, K ≤ m → (TS m).tx = [] := fun m hm => by simpa [topPay] using hemp m hm
    have h1 : (DL (k + 1)) = (DL k) := by
      rw [usbDelivered]
      have e : usbGot ((i2cUsbTop period stretch depth).wave i k) (i k) = if !(TS k).tx.isEmpty && (i k).sinkReady then
        some ((unpackBeat ((TS k).tx.headD 0)).last, (unpackBeat ((TS k).tx.headD 0)).payload) else none := rfl
      rw [e, h0 k (by omega)]
      simp
    rw [h1, h0 k (by omega)]
    simp [topFlag]
  have hpre : (DL (k + 1)) <+: (frameMsgs D.bus ((AA k) ++ (SEEN k).tx)).flatMap flagMsg := by
    have h1 := hP (k + 1) (Nat.le_refl _)
    rw [hst (k + 1) (by omega), ← hst k (by omega)] at h1
    exact h1
  cases hpg : (h k).prog with
  | ret r => rw [hpg] at hng; cases hng
  | write l q => rw [hpg] at hng; cases hng
  | read m q =>
    rw [hpg] at hng
    obtain ⟨ms0, ms1, f1, f2, f3, f4⟩ := hFm
    have f4 : (h k).prog.Framed _ _ _ := f4
    rw [hpg] at f4
    obtain ⟨hok, msg, ms, f5, f6, _⟩ := f4
    simp only at f5
    have hne : msg ≠ [] := frame_ne D.bus ((AA k) ++ (SEEN k).tx) ⟨[], [], []⟩ (by simp) msg (by change _ ∈ frameMsgs _ _; rw [f1, f5]; simp)
    have hrest := frame_rest f1 f2 hpre
    rw [f5] at hrest
    have := usb_read_message size zlp hs msg ms hne (by rw [f6]; exact hok) _ hrest
    simp only at this
    rw [← f3, f6] at this
    simp only at this
    rcases this with ⟨_, e, _⟩ | ⟨e, _⟩
    · simp only [e] at hng
      cases hng
    · rw [f1, f5] at hlen
      simp only [List.flatten_append, List.flatten_cons, List.length_append] at hlen
      rw [List.length_drop] at e
      omega

include hs hp hw hu hpace hD hc hf hr hpt hfr hg hshort hrel htx hgo in
/-- **C112.** A program whose host is behind USB, on the I2C bridge of the examples with a device on the wires: the program ends with the
result that the bridge machine gives. Conditions on the program, beyond those of C102: every call of `recv` asks for exactly the next
message of the bridge, and if the endpoint ends full packets with an empty one, no message fills its packets. Bytes come from the OUT
endpoint at least every `g` cycles, twice in the time of a byte on the bus; writes that the device refuses fit into the FIFO and arrive
within one such time, unless bytes come without pause. -/
theorem C112_usb_program_partial :
    let r := p.run (bridgeDev D.bus) ⟨[], [], []⟩
    ∃ m, ∀ n, m ≤ n → (h n).prog = .ret r.1 ∧ (h n).tx = [] ∧ (h n).pk.flatten ++ (h n).cur = r.2.replies ∧
      (r.2.replies = [] → (h n).pk = []) ∧
      (i2cBusOf D.target bidir period stretch (i2cStrCi period stretch (i2cProtoSi period stretch (PI))) hold (n + 1)).tgt.2 =
        (D.state r.2.log).1.log := by
  intro r
  have hall := fun N => usbl_in_time hs hp hw hu hpace hD hc hf hr hpt hfr hg hshort N
  have hx : ∀ n, UsbExact size (MID n) := fun n => (hall (n + 1)).1 n (by omega)
  have ht : i2cProtoInTime period stretch (PI) := fun n => (hall (n + 1)).2.1 n (by omega)
  have hrun := usbl_run hu hpace hx
  obtain ⟨M, hM⟩ := C102_program_partial hp hw hrun ht hD hc hf hr hpt hrel (usbl_tx_room htx)
    (usbl_goes hs hp hw hu hpace hD hc hf hr hpt hfr hg hshort hrel htx hgo)
  have hq : ∀ m, M ≤ m → (((i2cProto period stretch).wave (PI) m).valid && (PI m).ready) = false := by
    intro m hm
    obtain ⟨e0, _, e1, _⟩ := hM m hm
    have e2 := (hM (m + 1) (by omega)).2.2.1
    have e3 := hrun.step m
    simp only [PyHost.step, PyHost.act, e0] at e3
    have e4 := congrArg (fun q : PyHost α => q.rx.length) e3
    rw [ite_self] at e4
    simp only [e2, e1, List.length_append] at e4
    cases hv : ((i2cProto period stretch).wave (PI) m).valid && (PI m).ready
    · rfl
    · rw [hv] at e4
      simp at e4
  obtain ⟨K, hK, hemp⟩ := usbl_tx_empties (period := period) (stretch := stretch) (depth := depth) htx _ M (Nat.le_refl _) hq
  refine ⟨K, fun n hn => ?_⟩
  obtain ⟨e0, e1, e2, e3⟩ := hM n (by omega)
  have e2 : (h n).pk.flatten ++ (h n).cur ++ topPay (TS n).tx = r.2.replies := e2
  rw [hemp n hn, List.append_nil] at e2
  refine ⟨e0, (List.append_eq_nil_iff.1 e1).2, e2, fun h0 => ?_, e3⟩
  obtain ⟨_, _, hF, _, _⟩ := hall n
  obtain ⟨ms0, ms1, _, _, f3, _⟩ := hF n (Nat.le_refl n)
  have f5 := usbIn_flatten size zlp ((DL n).drop ms0.flatten.length) ([], [])
  rw [← f3] at f5
  simp only [List.flatten_nil, List.nil_append] at f5
  rw [e2, h0] at f5
  rw [List.map_eq_nil_iff.1 f5.symm] at f3
  exact congrArg Prod.fst f3

end

end Lambdalib
