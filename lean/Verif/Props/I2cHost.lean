import Verif.Spec.I2cHost
import Verif.Props.I2cBridge
import Verif.Props.I2cBus

/-! The host library on `I2CProto`, wires and device (C102). -/

namespace Lambdalib

section
variable {α : Type}

/-- An execution of a host with `I2CProto`: it offers the next byte, and keeps it until it is taken. -/
structure PyHostRun (period : Nat) (stretch : Bool) (p : PyProg α) (i : Nat → I2cProtoIn) (go : Nat → Bool) (h : Nat → PyHost α) : Prop where
  init : h 0 = ⟨p, [], []⟩
  step : ∀ n, let o := (i2cProto period stretch).wave i n
    h (n + 1) = (h n).step (go n) ((i n).valid && o.ready) (if o.valid && (i n).ready then some o.beat.payload else none)
  offer : ∀ n, (i n).valid = true → ∃ t, (h n).tx = (i n).data :: t
  keep : ∀ n, (i n).valid = true → ((i2cProto period stretch).wave i n).ready = false → (i (n + 1)).valid = true
  live : ∀ n, (h n).tx ≠ [] → ∃ m, n ≤ m ∧ (i m).valid = true

/-- The same up to cycle `N`. -/
structure PyHostRunTo (period : Nat) (stretch : Bool) (p : PyProg α) (i : Nat → I2cProtoIn) (go : Nat → Bool) (h : Nat → PyHost α)
    (N : Nat) : Prop where
  init : h 0 = ⟨p, [], []⟩
  step : ∀ n, n < N → let o := (i2cProto period stretch).wave i n
    h (n + 1) = (h n).step (go n) ((i n).valid && o.ready) (if o.valid && (i n).ready then some o.beat.payload else none)
  offer : ∀ n, n ≤ N → (i n).valid = true → ∃ t, (h n).tx = (i n).data :: t
  keep : ∀ n, n < N → (i n).valid = true → ((i2cProto period stretch).wave i n).ready = false → (i (n + 1)).valid = true

theorem PyHostRun.upTo {period : Nat} {stretch : Bool} {p : PyProg α} {i : Nat → I2cProtoIn} {go : Nat → Bool} {h : Nat → PyHost α}
    (hr : PyHostRun period stretch p i go h) (N : Nat) : PyHostRunTo period stretch p i go h N :=
  ⟨hr.init, fun n _ => hr.step n, fun n _ => hr.offer n, fun n _ => hr.keep n⟩

theorem PyHostRunTo.mono {period : Nat} {stretch : Bool} {p : PyProg α} {i : Nat → I2cProtoIn} {go : Nat → Bool} {h : Nat → PyHost α}
    {N M : Nat} (hr : PyHostRunTo period stretch p i go h N) (hM : M ≤ N) : PyHostRunTo period stretch p i go h M :=
  ⟨hr.init, fun n hn => hr.step n (by omega), fun n hn => hr.offer n (by omega), fun n hn => hr.keep n (by omega)⟩

/-! ### The bridge machine -/

theorem bridge_fold_replies (d : BusDevices) (l : List (BitVec 8)) : ∀ p r r' g,
    l.foldl (bridgeByte d) ⟨p, r ++ r', g⟩ =
      ⟨(l.foldl (bridgeByte d) ⟨p, r', g⟩).pending, r ++ (l.foldl (bridgeByte d) ⟨p, r', g⟩).replies,
        (l.foldl (bridgeByte d) ⟨p, r', g⟩).log⟩ := by
  induction l with
  | nil => intros; rfl
  | cons b l ih =>
    intro p r r' g
    simp only [List.foldl_cons]
    have e : ∃ p1 r1 g1, bridgeByte d ⟨p, r', g⟩ b = ⟨p1, r1, g1⟩ ∧ bridgeByte d ⟨p, r ++ r', g⟩ b = ⟨p1, r ++ r1, g1⟩ := by
      unfold bridgeByte
      simp only
      split
      · exact ⟨_, _, _, rfl, by simp⟩
      · exact ⟨_, _, _, rfl, rfl⟩
    obtain ⟨p1, r1, g1, e1, e2⟩ := e
    rw [e1, e2, ih]

/-- The bridge after the bytes `w`, when `c` replies have been read. -/
def bridgeAt (d : BusDevices) (w : List (BitVec 8)) (c : Nat) : BridgeS :=
  let s := w.foldl (bridgeByte d) ⟨[], [], []⟩
  { s with replies := s.replies.drop c }

theorem bridgeAt_write (d : BusDevices) (w l : List (BitVec 8)) (c : Nat)
    (hc : c ≤ (w.foldl (bridgeByte d) ⟨[], [], []⟩).replies.length) :
    (bridgeDev d).write l (bridgeAt d w c) = bridgeAt d (w ++ l) c := by
  simp only [bridgeDev, bridgeAt, List.foldl_append]
  generalize w.foldl (bridgeByte d) ⟨[], [], []⟩ = s at *
  obtain ⟨p, r, g⟩ := s
  simp only at hc ⊢
  have h1 := bridge_fold_replies d l p (r.take c) (r.drop c) g
  rw [List.take_append_drop] at h1
  rw [h1]
  simp only
  rw [List.drop_left' (by simp; omega)]

/-- A refused read seen by the bridge machine. -/
theorem owes_refused (d : BusDevices) (w : List (BitVec 8)) (c : Nat) (h : Owes d w c) : BridgeS.Refused d (bridgeAt d w c) := by
  obtain ⟨p, a, l, rfl, h1, h2, h3, h4, h5⟩ := h
  have e := bridge_read d (p.foldl (bridgeByte d) ⟨[], [], []⟩) a l h1 (byte_odd a h2).1
  simp only [BridgeS.Refused, bridgeAt]
  refine ⟨?_, ?_, ?_⟩
  · rw [List.foldl_append, e]
  · intro h0
    rw [List.drop_eq_nil_iff] at h0
    omega
  · rw [List.foldl_append, e]
    refine ⟨_, _, _, rfl, h4, ?_⟩
    intro h0
    exact h3 (BitVec.eq_of_toNat_eq h0)

theorem Owes.mono {d : BusDevices} {w : List (BitVec 8)} {m n : Nat} (h : Owes d w n) (hm : m ≤ n) : Owes d w m := by
  obtain ⟨p, a, l, h1, h2, h3, h4, h5, h6⟩ := h
  exact ⟨p, a, l, h1, h2, h3, h4, h5, by omega⟩

theorem phase_append (a b : List (BitVec 8)) (ha : ProtoComplete a) (hb : ProtoComplete b) : ProtoComplete (a ++ b) := by
  obtain ⟨rd, ha⟩ := ha
  obtain ⟨rd', hb⟩ := hb
  unfold ProtoComplete protoPhase at *
  rw [List.foldl_append, ha]
  cases b with
  | nil => exact ⟨_, rfl⟩
  | cons x b => exact ⟨rd', hb⟩

/-! ### The program and the bridge machine -/

variable {D : I2cDev} {bidir : Bool} {period : Nat} {stretch : Bool} {p : PyProg α} {i : Nat → I2cProtoIn} {go : Nat → Bool}
  {h : Nat → PyHost α} {hold : Nat → Bool}

/-- The place of the host in the run of its program with the bridge machine. -/
structure HostAt (d : BusDevices) (p : PyProg α) (A R : List (BitVec 8)) (h : PyHost α) (c : Nat) : Prop where
  le : c ≤ R.length
  rx : h.rx = R.drop c
  run : p.run (bridgeDev d) ⟨[], [], []⟩ = h.prog.run (bridgeDev d) (bridgeAt d (A ++ h.tx) c)
  written : p.written (bridgeDev d) ⟨[], [], []⟩ = A ++ h.tx ++ h.prog.written (bridgeDev d) (bridgeAt d (A ++ h.tx) c)
  full : h.prog.Full (bridgeDev d) (bridgeAt d (A ++ h.tx) c)
  complete : h.prog.Complete
  bytes : ProtoComplete (A ++ h.tx)
  patient : h.prog.Patient d (bridgeAt d (A ++ h.tx) c)
  quiet : ∀ p b q, h.tx = p ++ b :: q → ¬ Owes d (A ++ p) R.length
  lock : p.Lockstep d ⟨[], [], []⟩ → h.prog.Lockstep d (bridgeAt d (A ++ h.tx) c)
  small : ∀ cap, p.Small cap → p.Lockstep d ⟨[], [], []⟩ → h.tx.length ≤ cap ∧ h.prog.Small cap

/-- Where the bridge machine is in the byte protocol. -/
theorem bridge_phase (d : BusDevices) (w : List (BitVec 8)) :
    let s := w.foldl (bridgeByte d) ⟨[], [], []⟩
    (s.pending = [] ∧ ProtoComplete w) ∨ (s.pending ≠ [] ∧ protoPhase w = protoPhase s.pending ∧ ¬ ProtoComplete w) := by
  induction w using snocInduction with
  | nil => exact .inl ⟨rfl, none, rfl⟩
  | snoc w b ih =>
    intro s
    have hs : s = bridgeByte d (w.foldl (bridgeByte d) ⟨[], [], []⟩) b := by
      simp only [s, List.foldl_append, List.foldl_cons, List.foldl_nil]
    generalize w.foldl (bridgeByte d) ⟨[], [], []⟩ = t at ih hs
    have hph : protoPhase (w ++ [b]) = protoPhase (t.pending ++ [b]) := by
      simp only at ih
      rw [protoPhase_snoc, protoPhase_snoc]
      rcases ih with ⟨h1, rd, h2⟩ | ⟨h1, h2, h3⟩
      · rw [h1, h2]; rfl
      · rw [h2]
    rw [hs]
    unfold bridgeByte ProtoComplete
    simp only [hph]
    generalize hx : protoPhase (t.pending ++ [b]) = x
    cases x with
    | header rd => exact .inl ⟨rfl, rd, rfl⟩
    | length _ => exact .inr ⟨by simp, hx.symm, by simp⟩
    | data _ => exact .inr ⟨by simp, hx.symm, by simp⟩

/-- The end of a command brings a reply. -/
theorem bridge_grows (d : BusDevices) (w t : List (BitVec 8)) (h0 : t ≠ []) (hc : ProtoComplete (w ++ t)) :
    (w.foldl (bridgeByte d) ⟨[], [], []⟩).replies.length < ((w ++ t).foldl (bridgeByte d) ⟨[], [], []⟩).replies.length := by
  rcases eq_snoc t with rfl | ⟨t, b, rfl⟩
  · exact absurd rfl h0
  rw [← List.append_assoc] at hc ⊢
  have h1 := (bridge_mono d w t ⟨[], [], []⟩).length_le
  refine Nat.lt_of_le_of_lt h1 ?_
  have ih := bridge_phase d (w ++ t)
  have hph : protoPhase (w ++ t ++ [b]) = protoPhase (((w ++ t).foldl (bridgeByte d) ⟨[], [], []⟩).pending ++ [b]) := by
    simp only at ih
    rw [protoPhase_snoc, protoPhase_snoc]
    rcases ih with ⟨h1, rd, h2⟩ | ⟨h1, h2, h3⟩
    · rw [h1, h2]; rfl
    · rw [h2]
  rw [List.foldl_append (l := w ++ t)]
  obtain ⟨rd, hc⟩ := hc
  rw [hph] at hc
  simp only [List.foldl_cons, List.foldl_nil, bridgeByte, hc, List.length_append]
  generalize d _ _ = x
  cases x <;> simp [txnReply]

theorem HostAt.act {d : BusDevices} {A R : List (BitVec 8)} {h : PyHost α} {c : Nat} (H : HostAt d p A R h c)
    (hA : R <+: (A.foldl (bridgeByte d) ⟨[], [], []⟩).replies) : ∃ c', HostAt d p A R h.act c' := by
  have hR := hA.trans (bridge_mono d A h.tx ⟨[], [], []⟩)
  obtain ⟨prog, tx, rx⟩ := h
  obtain ⟨h1, h2, h3, h4, h5, h6, h7, h8, h9, h10, h11⟩ := H
  simp only at *
  have hle := hR.length_le
  cases prog with
  | ret r => exact ⟨c, h1, h2, h3, h4, h5, h6, h7, h8, h9, h10, h11⟩
  | write l k =>
    have e := bridgeAt_write d (A ++ tx) l c (by omega)
    rw [List.append_assoc] at e
    refine ⟨c, h1, h2, ?_, ?_, ?_, h6.2, ?_, ?_, ?_, ?_, ?_⟩
    · rw [h3]; simp only [PyProg.run, PyHost.act]; rw [e]
    · rw [h4]; simp only [PyProg.written, PyHost.act]; rw [e]; simp only [List.append_assoc]
    · simp only [PyProg.Full] at h5; simp only [PyHost.act]; rw [← e]; exact h5
    · simp only [PyHost.act]; rw [← List.append_assoc]; exact phase_append _ _ h7 h6.1
    · simp only [PyHost.act]; rw [← e]; exact h8.2
    · intro p b q hq
      simp only [PyHost.act] at hq
      rw [List.append_eq_append_iff] at hq
      rcases hq with ⟨p', rfl, hq⟩ | ⟨t, ht, hq⟩
      · intro ho
        refine h8.1 p' b q hq ?_
        have := owes_refused d _ _ (ho.mono h1)
        rw [← List.append_assoc] at this
        have e' := bridgeAt_write d (A ++ tx) p' c (by omega)
        rw [← e'] at this
        exact this
      · cases t with
        | nil =>
          intro ho
          refine h8.1 [] b q (by simpa using hq.symm) ?_
          have := owes_refused d _ _ (ho.mono h1)
          rw [List.append_nil] at ht
          rw [← ht] at this
          exact this
        | cons x t => exact h9 p x t ht
    · intro hl
      have := (h10 hl).2
      rw [e] at this
      exact this
    · intro cap hs hl
      have h0 := (h10 hl).1
      simp only [bridgeAt, List.drop_eq_nil_iff] at h0
      have htx : tx = [] := by
        refine Decidable.byContradiction fun hn => ?_
        have := bridge_grows d A tx hn h7
        have := hA.length_le
        omega
      simp only [PyHost.act, htx, List.nil_append]
      exact (h11 cap hs hl).2
  | read n k =>
    by_cases hn : n ≤ rx.length
    · have e : (bridgeDev d).read n (bridgeAt d (A ++ tx) c) = (rx.take n, bridgeAt d (A ++ tx) (c + n)) := by
        simp only [bridgeDev, bridgeAt, List.drop_drop]
        congr 1
        obtain ⟨t, ht⟩ := hR
        rw [← ht, h2, List.drop_append_of_le_length h1, List.take_append_of_le_length (by rw [← h2]; exact hn)]
      have ea : (PyHost.act ⟨.read n k, tx, rx⟩) = ⟨k (rx.take n), tx, rx.drop n⟩ := by
        simp only [PyHost.act, hn, if_true]
      rw [ea]
      rw [h2, List.length_drop] at hn
      simp only [PyProg.Full, e] at h5
      refine ⟨c + n, by omega, by simp only [h2, List.drop_drop], ?_, ?_, h5.2, h6 _, h7, ?_, h9, ?_, fun cap h1 h2 => ⟨(h11 cap h1 h2).1, (h11 cap h1 h2).2 _⟩⟩
      · rw [h3]; simp only [PyProg.run, e]
      · rw [h4]; simp only [PyProg.written, e]
      · simp only [PyProg.Patient, e] at h8; exact h8
      · intro hl
        have := h10 hl
        simp only [PyProg.Lockstep, e] at this
        exact this
    · have ea : (PyHost.act ⟨.read n k, tx, rx⟩) = ⟨.read n k, tx, rx⟩ := by
        simp only [PyHost.act, hn, if_false]
      rw [ea]
      exact ⟨c, h1, h2, h3, h4, h5, h6, h7, h8, h9, h10, h11⟩

variable (hp : 4 ≤ period)
  (hw : I2cWired D.target bidir period stretch (i2cStrCi period stretch (i2cProtoSi period stretch i)) hold)
  (hrun : PyHostRun period stretch p i go h) (ht : i2cProtoInTime period stretch i) (hD : D.Polite)
  (hc : p.Complete) (hf : p.Full (bridgeDev D.bus) ⟨[], [], []⟩)
  (hr : ReadsZero D.bus (p.written (bridgeDev D.bus) ⟨[], [], []⟩)) (hpt : p.Patient D.bus ⟨[], [], []⟩)

/-- The replies received. -/
local notation "REP" n => List.map Prod.snd (i2cProtoReplies period stretch i n)

theorem PyHost.act_tx (h : PyHost α) : h.tx <+: h.act.tx := by
  obtain ⟨prog, tx, rx⟩ := h
  unfold PyHost.act
  cases prog with
  | ret r => exact List.prefix_rfl
  | write l k => exact List.prefix_append _ _
  | read n k => simp only; split <;> exact List.prefix_rfl

theorem host_holds_to (N : Nat) (hrun : PyHostRunTo period stretch p i go h N) (n : Nat) (hn : n < N) :
    i2cHostHoldsAt period stretch i n := by
  intro hv hrd
  obtain ⟨t, ht⟩ := hrun.offer n (by omega) hv
  obtain ⟨t', ht'⟩ := hrun.offer (n + 1) (by omega) (hrun.keep n hn hv hrd)
  have hs := hrun.step n hn
  simp only [hrd, Bool.and_false, PyHost.step] at hs
  have : (i n).data :: t <+: (h (n + 1)).tx := by
    rw [hs]
    split
    · refine List.IsPrefix.trans ?_ (PyHost.act_tx _)
      rw [ht]
      exact List.prefix_rfl
    · rw [← ht]
      exact List.prefix_rfl
  rw [ht'] at this
  exact (List.cons_prefix_cons.1 this).1.symm

include hrun in
theorem host_holds : i2cHostHolds period stretch i := fun n => host_holds_to (n + 1) (hrun.upTo _) n (by omega)

/-- What the step of the hardware does. -/
theorem host_move_to (N : Nat) (hrun : PyHostRunTo period stretch p i go h N) (n : Nat) (hn : n < N) : ∃ tx, (h (n + 1)) = (if go n then (PyHost.act ⟨(h n).prog, tx, (h (n)).rx ++
      ((i2cProtoReplies period stretch i (n + 1)).map Prod.snd).drop (REP n).length⟩) else ⟨(h n).prog, tx, (h n).rx ++
      ((i2cProtoReplies period stretch i (n + 1)).map Prod.snd).drop (REP n).length⟩) ∧
    (REP n) <+: (REP (n + 1)) ∧
    i2cProtoBytes period stretch i (n + 1) ++ tx = i2cProtoBytes period stretch i n ++ (h n).tx := by
  have hs := hrun.step n hn
  have ho := hrun.offer n (by omega)
  simp only [PyHost.step] at hs
  have e1 : i2cProtoBytes period stretch i (n + 1) = i2cProtoBytes period stretch i n ++
    (if (i n).valid && ((i2cProto period stretch).wave i n).ready then [(i n).data] else []) := rfl
  have e2 : i2cProtoReplies period stretch i (n + 1) = i2cProtoReplies period stretch i n ++
    (if ((i2cProto period stretch).wave i n).valid && (i n).ready then
      [(((i2cProto period stretch).wave i n).beat.last, ((i2cProto period stretch).wave i n).beat.payload)] else []) := rfl
  refine ⟨if (i n).valid && ((i2cProto period stretch).wave i n).ready then (h n).tx.tail else (h n).tx, ?_, ?_, ?_⟩
  · rw [hs, e2, List.map_append, List.drop_left]
    have : ((if ((i2cProto period stretch).wave i n).valid && (i n).ready then
        some ((i2cProto period stretch).wave i n).beat.payload else none).toList) =
        (if ((i2cProto period stretch).wave i n).valid && (i n).ready then
      [(((i2cProto period stretch).wave i n).beat.last, ((i2cProto period stretch).wave i n).beat.payload)] else []).map Prod.snd := by
      split <;> rfl
    rw [this]
  · rw [e2, List.map_append]
    exact List.prefix_append _ _
  · rw [e1]
    split
    · rename_i hv
      rw [Bool.and_eq_true] at hv
      obtain ⟨t, ht⟩ := ho hv.1
      rw [ht]
      simp
    · simp

include hrun in
/-- What the step of the hardware does. -/
theorem host_move (n : Nat) : ∃ tx, (h (n + 1)) = (if go n then (PyHost.act ⟨(h n).prog, tx, (h (n)).rx ++
      ((i2cProtoReplies period stretch i (n + 1)).map Prod.snd).drop (REP n).length⟩) else ⟨(h n).prog, tx, (h n).rx ++
      ((i2cProtoReplies period stretch i (n + 1)).map Prod.snd).drop (REP n).length⟩) ∧
    (REP n) <+: (REP (n + 1)) ∧
    i2cProtoBytes period stretch i (n + 1) ++ tx = i2cProtoBytes period stretch i n ++ (h n).tx :=
  host_move_to (n + 1) (hrun.upTo _) n (by omega)

/-- A host at its place sends nothing while the status of a refused read is to come. -/
theorem HostAt.patient_in {d : BusDevices} {A R : List (BitVec 8)} {x : BitVec 8} {h : PyHost α} {c : Nat} (H : HostAt d p A R h c)
    (ho : ∃ t, h.tx = x :: t) : ¬ Owes d A R.length := by
  obtain ⟨t, ht⟩ := ho
  have := H.quiet [] x t ht
  rwa [List.append_nil] at this

include hp hw hD hc hf hr hpt in
theorem host_at_upto (n : Nat) (hrun : PyHostRunTo period stretch p i go h n)
    (ht : ∀ k, k < n → i2cProtoInTimeAt period stretch i k) : ∀ m, m ≤ n → ∃ c, HostAt D.bus p (i2cProtoBytes period stretch i m) (REP m) (h m) c := by
  induction n with
  | zero =>
    intro m hm
    obtain rfl : m = 0 := by omega
    refine ⟨0, Nat.zero_le _, ?_, ?_, ?_, ?_, ?_, ?_, ?_, ?_, ?_, ?_⟩ <;> rw [hrun.init]
    · rfl
    · rfl
    · rfl
    · exact hf
    · exact hc
    · exact ⟨none, rfl⟩
    · exact hpt
    · intro p b q hq
      simp at hq
    · exact id
    · exact fun cap h _ => ⟨Nat.zero_le _, h⟩
  | succ n ih =>
    intro m hm
    rcases Nat.lt_or_ge n m with hm' | hm'
    rotate_left
    · exact ih (hrun.mono (by omega)) (fun k hk => ht k (by omega)) m hm'
    obtain rfl : m = n + 1 := by omega
    replace ih := ih (hrun.mono (by omega)) (fun k hk => ht k (by omega))
    have ihn := ih
    obtain ⟨c, h1, h2, h3, h4, h5, h6, h7, h8, h9, h10, h11⟩ := ih n (Nat.le_refl n)
    obtain ⟨tx, e, hpre, hb⟩ := host_move_to (n + 1) hrun n (by omega)
    rw [← hb] at h3 h4 h5 h7 h8 h10
    have hfit : ReadsZero D.bus (i2cProtoBytes period stretch i (n + 1)) := by
      refine hr.prefix ?_
      rw [h4, List.append_assoc]
      exact List.prefix_append _ _
    have hrep := C93_replies_partial hp hw hD (n + 1) (host_holds_to (n + 1) hrun) ht hfit (fun k hk hv => by
      obtain ⟨c, H⟩ := ihn k (by omega)
      have := H.patient_in (hrun.offer k (by omega) hv)
      rwa [List.length_map] at this)
    have H : HostAt D.bus p (i2cProtoBytes period stretch i (n + 1)) (REP (n + 1)) ⟨(h n).prog, tx, (h (n)).rx ++
      ((i2cProtoReplies period stretch i (n + 1)).map Prod.snd).drop (REP n).length⟩ c := by
      refine ⟨Nat.le_trans h1 hpre.length_le, ?_, h3, h4, h5, h6, h7, h8, ?_, h10, fun cap g1 g2 => ⟨?_, (h11 cap g1 g2).2⟩⟩
      · obtain ⟨t, ht⟩ := hpre
        simp only [← ht, List.drop_left, h2]
        rw [List.drop_append_of_le_length h1]
      · intro p b q hq ho
        simp only at hq
        obtain ⟨s, hs⟩ := transferred_prefix (fun k => (i k).valid) (fun k => ((i2cProto period stretch).wave i k).ready)
          (fun k => (i k).data) n 1
        have hs : i2cProtoBytes period stretch i n ++ s = i2cProtoBytes period stretch i (n + 1) := hs
        rw [← hs, List.append_assoc, hq] at hb
        have hb := List.append_cancel_left hb
        refine h9 (s ++ p) b q (by rw [← hb]; simp) ?_
        rw [← List.append_assoc, hs]
        exact ho.mono hpre.length_le
      · have hl := congrArg List.length hb
        rw [List.length_append, List.length_append] at hl
        have := (bytes_prefix (period := period) (stretch := stretch) (i := i) (Nat.le_add_right n 1)).length_le
        have := (h11 cap g1 g2).1
        change tx.length ≤ cap
        omega
    rw [e]
    split
    · exact H.act hrep
    · exact ⟨c, H⟩

include hp hw hrun ht hD hc hf hr hpt in
theorem host_at (n : Nat) : ∃ c, HostAt D.bus p (i2cProtoBytes period stretch i n) (REP n) (h n) c :=
  host_at_upto hp hw hD hc hf hr hpt n (hrun.upTo n) (fun k _ => ht k) n (Nat.le_refl n)

include hp hw hrun ht hD hc hf hr hpt in
theorem host_patient : i2cHostPatient D period stretch i := by
  intro k hv
  obtain ⟨c, H⟩ := host_at hp hw hrun ht hD hc hf hr hpt k
  have := H.patient_in (hrun.offer k hv)
  rwa [List.length_map] at this

/-- Nothing of the host changes but what is sent and received, as long as the program does not go on. -/
theorem PyHost.act_ret (h : PyHost α) (r : α) (hr : h.prog = .ret r) : h.act = h := by
  unfold PyHost.act
  rw [hr]

variable (hrel : ∀ n, ∃ m, n ≤ m ∧ hold m = false) (hrdy : ∀ n, ∃ m, n ≤ m ∧ (i m).ready = true)

include hp hw hrun ht hD hc hf hr hpt hrel hrdy in
/-- When the program writes nothing more, everything is sent and all replies come. -/
theorem host_drains (n : Nat) (hstay : ∀ m, n ≤ m → i2cProtoBytes period stretch i m ++ (h m).tx =
      i2cProtoBytes period stretch i n ++ (h n).tx) :
    let W := i2cProtoBytes period stretch i n ++ (h n).tx
    let S := W.foldl (bridgeByte D.bus) ⟨[], [], []⟩
    ∃ m, n ≤ m ∧ ∀ k, m ≤ k → i2cProtoBytes period stretch i k = W ∧ (h k).tx = [] ∧ (REP k) = S.replies ∧
      (i2cBusOf D.target bidir period stretch (i2cStrCi period stretch (i2cProtoSi period stretch i)) hold (k + 1)).tgt.2 =
        (D.state S.log).1.log := by
  intro W S
  obtain ⟨c, H⟩ := host_at hp hw hrun ht hD hc hf hr hpt n
  have hq : ∀ k, i2cProtoBytes period stretch i k <+: W := by
    intro k
    rcases Nat.le_total k n with hk | hk
    · exact (bytes_prefix hk).trans (List.prefix_append _ _)
    · rw [show W = _ from (hstay k hk).symm]
      exact List.prefix_append _ _
  have hfit : ReadsZero D.bus W := hr.prefix (by rw [H.written]; exact List.prefix_append _ _)
  have hlive : ∀ k, i2cProtoBytes period stretch i k ≠ W → ∃ m, k ≤ m ∧ (i m).valid = true := by
    intro k hk
    by_cases hm : i2cProtoBytes period stretch i (max k n) = W
    · -- a byte is sent between
      apply Classical.byContradiction
      intro hno
      have : ∀ d, i2cProtoBytes period stretch i (k + d) = i2cProtoBytes period stretch i k := by
        intro d
        induction d with
        | zero => rfl
        | succ d ih =>
          have hv : (i (k + d)).valid = false := by
            cases hv : (i (k + d)).valid
            · rfl
            · exact absurd ⟨k + d, by omega, hv⟩ hno
          have e1 : i2cProtoBytes period stretch i (k + d + 1) = i2cProtoBytes period stretch i (k + d) ++
            (if (i (k + d)).valid && ((i2cProto period stretch).wave i (k + d)).ready then [(i (k + d)).data] else []) := rfl
          rw [← Nat.add_assoc, e1, hv, ih]
          simp
      have := this (max k n - k)
      rw [show k + (max k n - k) = max k n by omega, hm] at this
      exact hk this.symm
    · have hs := hstay (max k n) (by omega)
      obtain ⟨m, h1, h2⟩ := hrun.live (max k n) (by
        intro h0
        rw [h0, List.append_nil] at hs
        exact hm hs)
      exact ⟨m, by omega, h2⟩
  obtain ⟨m, hm⟩ := C93_bridge_completes_partial hp hw (host_holds hrun) ht hD
    (host_patient hp hw hrun ht hD hc hf hr hpt) hq hfit hrel hrdy hlive H.bytes
  refine ⟨max m n, by omega, fun k hk => ?_⟩
  obtain ⟨h1, h2, h3⟩ := hm k (by omega)
  have hs := hstay k (by omega)
  refine ⟨h1, ?_, h2, h3⟩
  rw [h1] at hs
  exact List.append_right_eq_self.1 hs

include hrun in
/-- The program goes on, or the host only sends and receives. -/
theorem host_next (n : Nat) : (h (n + 1)).prog = (h n).prog ∧
      i2cProtoBytes period stretch i (n + 1) ++ (h (n + 1)).tx = i2cProtoBytes period stretch i n ++ (h n).tx ∧
      (go n = true → ∀ m k, (h n).prog = .read m k → (h (n + 1)).rx.length < m) ∧ (go n = true → ∀ l k, (h n).prog ≠ .write l k) ∨
    (∃ l k, (h n).prog = .write l k ∧ (h (n + 1)).prog = k) ∨ (∃ m k l, (h n).prog = .read m k ∧ (h (n + 1)).prog = k l) := by
  obtain ⟨tx, e, hpre, hb⟩ := host_move hrun n
  rw [e]
  cases go n
  · refine .inl ⟨rfl, hb, (nomatch ·), (nomatch ·)⟩
  · simp only [if_true]
    unfold PyHost.act
    cases hpg : (h n).prog with
    | ret r => exact .inl ⟨rfl, hb, fun _ _ _ h => (nomatch h), fun _ _ _ h => (nomatch h)⟩
    | write l k => exact .inr (.inl ⟨l, k, rfl, rfl⟩)
    | read m k =>
      simp only
      split
      · exact .inr (.inr ⟨m, k, _, rfl, rfl⟩)
      · rename_i hm
        refine .inl ⟨rfl, hb, fun _ _ _ h => ?_, fun _ _ _ h => (nomatch h)⟩
        cases h
        exact Nat.lt_of_not_le hm

variable (hgo : ∀ n, ∃ m, n ≤ m ∧ go m = true)

include hp hw hrun ht hD hc hf hr hpt hrel hrdy hgo in
/-- The program ends. -/
theorem host_ends (P : PyProg α) : ∀ n, (h n).prog = P → ∃ m r, n ≤ m ∧ (h m).prog = .ret r := by
  -- as long as the program does not go on
  have hsame : ∀ n, (∀ d, (h (n + d)).prog = (h n).prog → (h (n + d + 1)).prog = (h n).prog ∧
      i2cProtoBytes period stretch i (n + d + 1) ++ (h (n + d + 1)).tx = i2cProtoBytes period stretch i (n + d) ++ (h (n + d)).tx) →
      ∀ d, (h (n + d)).prog = (h n).prog ∧
        i2cProtoBytes period stretch i (n + d) ++ (h (n + d)).tx = i2cProtoBytes period stretch i n ++ (h n).tx := by
    intro n hx d
    induction d with
    | zero => exact ⟨rfl, rfl⟩
    | succ d ih =>
      obtain ⟨h1, h2⟩ := hx d ih.1
      exact ⟨h1, h2.trans ih.2⟩
  induction P with
  | ret r => intro n hn; exact ⟨n, r, Nat.le_refl n, hn⟩
  | write l k ih =>
    intro n hn
    apply Classical.byContradiction
    intro hno
    have hx := hsame n (by
      intro d hd
      rcases host_next hrun (n + d) with ⟨h1, h2, _⟩ | ⟨l', k', h1, h2⟩ | ⟨m, k', l', h1, h2⟩
      · exact ⟨h1.trans hd, h2⟩
      · rw [hd, hn] at h1
        cases h1
        obtain ⟨m, r, g1, g2⟩ := ih (n + d + 1) h2
        exact absurd ⟨m, r, by omega, g2⟩ hno
      · rw [hd, hn] at h1
        cases h1)
    obtain ⟨m, hm, hg⟩ := hgo n
    obtain ⟨d, rfl⟩ : ∃ d, m = n + d := ⟨m - n, by omega⟩
    rcases host_next hrun (n + d) with ⟨h1, h2, _, h4⟩ | ⟨l', k', h1, h2⟩ | ⟨m, k', l', h1, h2⟩
    · exact h4 hg l k ((hx d).1.trans hn)
    · rw [(hx d).1, hn] at h1
      cases h1
      obtain ⟨m, r, g1, g2⟩ := ih (n + d + 1) h2
      exact absurd ⟨m, r, by omega, g2⟩ hno
    · rw [(hx d).1, hn] at h1
      cases h1
  | read m k ih =>
    intro n hn
    apply Classical.byContradiction
    intro hno
    have hx := hsame n (by
      intro d hd
      rcases host_next hrun (n + d) with ⟨h1, h2, _⟩ | ⟨l', k', h1, h2⟩ | ⟨m, k', l', h1, h2⟩
      · exact ⟨h1.trans hd, h2⟩
      · rw [hd, hn] at h1
        cases h1
      · rw [hd, hn] at h1
        cases h1
        obtain ⟨m, r, g1, g2⟩ := ih l' (n + d + 1) h2
        exact absurd ⟨m, r, by omega, g2⟩ hno)
    obtain ⟨M, hM, hall⟩ := host_drains hp hw hrun ht hD hc hf hr hpt hrel hrdy n (by
      intro m hm
      obtain ⟨d, rfl⟩ : ∃ d, m = n + d := ⟨m - n, by omega⟩
      exact (hx d).2)
    obtain ⟨N, hN, hg⟩ := hgo M
    obtain ⟨d, rfl⟩ : ∃ d, N = n + d := ⟨N - n, by omega⟩
    rcases host_next hrun (n + d) with ⟨h1, h2, h3, _⟩ | ⟨l', k', h1, h2⟩ | ⟨m, k', l', h1, h2⟩
    · have hlt := h3 hg m k ((hx d).1.trans hn)
      obtain ⟨c, H⟩ := host_at hp hw hrun ht hD hc hf hr hpt (n + d + 1)
      obtain ⟨g1, g2, g3, _⟩ := hall (n + d + 1) (by omega)
      have hfull := H.full
      rw [h1, (hx d).1, hn] at hfull
      have hlen := hfull.1
      rw [g1, g2, List.append_nil] at hlen
      rw [H.rx, g3] at hlt
      simp only [bridgeDev, bridgeAt, List.length_take] at hlen
      omega
    · rw [(hx d).1, hn] at h1
      cases h1
    · rw [(hx d).1, hn] at h1
      cases h1
      obtain ⟨m, r, g1, g2⟩ := ih l' (n + d + 1) h2
      exact absurd ⟨m, r, by omega, g2⟩ hno

include hp hw hrun ht hD hc hf hr hpt hrel hrdy hgo in
/-- **C102.** A program whose host talks to `I2CProto` over byte streams, with a device on the wires, ends; its result is the one
that the bridge machine gives, with the answers of the device; all bytes are sent, the replies that were not read are those of the
bridge machine, and the device has been through exactly the transactions. Missing: programs that write on before they have read the
status of a refused read, and reads of zero bytes that are not refused, for which `I2CProto` is wrong (C36), and devices that send
when not addressed for a read. -/
theorem C102_program_partial :
    let r := p.run (bridgeDev D.bus) ⟨[], [], []⟩
    ∃ m, ∀ n, m ≤ n → (h n).prog = .ret r.1 ∧ (h n).tx = [] ∧ (h n).rx = r.2.replies ∧
      (i2cBusOf D.target bidir period stretch (i2cStrCi period stretch (i2cProtoSi period stretch i)) hold (n + 1)).tgt.2 =
        (D.state r.2.log).1.log := by
  intro r
  obtain ⟨M, x, _, hM⟩ := host_ends hp hw hrun ht hD hc hf hr hpt hrel hrdy hgo p 0 (by rw [hrun.init])
  have hret : ∀ d, (h (M + d)).prog = .ret x ∧
      i2cProtoBytes period stretch i (M + d) ++ (h (M + d)).tx = i2cProtoBytes period stretch i M ++ (h M).tx := by
    intro d
    induction d with
    | zero => exact ⟨hM, rfl⟩
    | succ d ih =>
      rcases host_next hrun (M + d) with ⟨h1, h2, _⟩ | ⟨l', k', h1, h2⟩ | ⟨m, k', l', h1, h2⟩
      · exact ⟨h1.trans ih.1, h2.trans ih.2⟩
      · rw [ih.1] at h1; cases h1
      · rw [ih.1] at h1; cases h1
  obtain ⟨N, hN, hall⟩ := host_drains hp hw hrun ht hD hc hf hr hpt hrel hrdy M (by
    intro m hm
    obtain ⟨d, rfl⟩ : ∃ d, m = M + d := ⟨m - M, by omega⟩
    exact (hret d).2)
  refine ⟨N, fun n hn => ?_⟩
  obtain ⟨d, rfl⟩ : ∃ d, n = M + d := ⟨n - M, by omega⟩
  obtain ⟨g1, g2, g3, g4⟩ := hall (M + d) hn
  obtain ⟨c, H⟩ := host_at hp hw hrun ht hD hc hf hr hpt (M + d)
  have hrun' : r = _ := H.run
  rw [(hret d).1, PyProg.run, g1, g2, List.append_nil] at hrun'
  refine ⟨by rw [hrun', (hret d).1], g2, ?_, ?_⟩
  · rw [H.rx, g3, hrun']; rfl
  · rw [g4, hrun']; rfl

end

/-! ### The whole system -/

/-- Inputs of `I2CProto` when the host offers what it has. -/
def pyFedIn {α : Type} (r : I2cProtoS × PyHost α) (rdy scl sda : Bool) : I2cProtoIn :=
  ⟨!r.2.tx.isEmpty, r.2.tx.headD 0, rdy, scl, sda⟩

/-- The circuit with its host. -/
def pyFed {α : Type} (period : Nat) (stretch : Bool) (p : PyProg α) :
    Circuit (I2cProtoS × PyHost α) ((Bool × Bool) × Bool × Bool) I2cProtoOut where
  reset := ((i2cProto period stretch).reset, ⟨p, [], []⟩)
  out r x := (i2cProto period stretch).out r.1 (pyFedIn r x.1.1 x.2.1 x.2.2)
  next r x :=
    let y := pyFedIn r x.1.1 x.2.1 x.2.2
    let o := (i2cProto period stretch).out r.1 y
    ((i2cProto period stretch).next r.1 y,
      r.2.step x.1.2 (y.valid && o.ready) (if o.valid && y.ready then some o.beat.payload else none))

section
variable {α : Type} (D : I2cDev) (bidir : Bool) (period : Nat) (stretch : Bool) (p : PyProg α) (rdy go hold : Nat → Bool)

/-- The inputs of `pyFed` on the wires with a device. -/
def pyWire : Nat → (Bool × Bool) × Bool × Bool :=
  closeIn D.target bidir (pyFed period stretch p) (fun r => r.1.str.core) (fun n _ scl sda => ((rdy n, go n), scl, sda)) hold

/-- The host in the whole system: program, `I2CProto`, wires, device. -/
def pySysHost (n : Nat) : PyHost α := ((pyFed period stretch p).st (pyWire D bidir period stretch p rdy go hold) n).2

/-- The inputs of `I2CProto` in the whole system. -/
def pySysIn (n : Nat) : I2cProtoIn :=
  let x := pyWire D bidir period stretch p rdy go hold n
  pyFedIn ((pyFed period stretch p).st (pyWire D bidir period stretch p rdy go hold) n) x.1.1 x.2.1 x.2.2

/-- What the device has been through, after `n` cycles. -/
def pySysLog (n : Nat) : List DevEv :=
  (i2cBusOf D.target bidir period stretch
    (i2cStrCi period stretch (i2cProtoSi period stretch (pySysIn D bidir period stretch p rdy go hold))) hold n).tgt.2

theorem pySys_st (n : Nat) : (i2cProto period stretch).st (pySysIn D bidir period stretch p rdy go hold) n =
    ((pyFed period stretch p).st (pyWire D bidir period stretch p rdy go hold) n).1 := by
  induction n with
  | zero => rfl
  | succ n ih => rw [Circuit.st_succ, ih]; rfl

theorem pySys_in (n : Nat) :
    (pySysIn D bidir period stretch p rdy go hold n).valid = (!(pySysHost D bidir period stretch p rdy go hold n).tx.isEmpty) ∧
    (pySysIn D bidir period stretch p rdy go hold n).data = (pySysHost D bidir period stretch p rdy go hold n).tx.headD 0 ∧
    (pySysIn D bidir period stretch p rdy go hold n).ready = rdy n := ⟨rfl, rfl, rfl⟩

theorem pySys_run : PyHostRun period stretch p (pySysIn D bidir period stretch p rdy go hold) go
    (pySysHost D bidir period stretch p rdy go hold) := by
  have hv : ∀ n, (pySysHost D bidir period stretch p rdy go hold n).tx ≠ [] →
      (pySysIn D bidir period stretch p rdy go hold n).valid = true := by
    intro n hn
    rw [(pySys_in D bidir period stretch p rdy go hold n).1]
    cases h : (pySysHost D bidir period stretch p rdy go hold n).tx
    · exact absurd h hn
    · rfl
  have hoff : ∀ n, (pySysIn D bidir period stretch p rdy go hold n).valid = true →
      ∃ t, (pySysHost D bidir period stretch p rdy go hold n).tx = (pySysIn D bidir period stretch p rdy go hold n).data :: t := by
    intro n hn
    rw [(pySys_in D bidir period stretch p rdy go hold n).2.1]
    rw [(pySys_in D bidir period stretch p rdy go hold n).1] at hn
    generalize (pySysHost D bidir period stretch p rdy go hold n).tx = l at *
    cases l with
    | nil => cases hn
    | cons a l => exact ⟨l, rfl⟩
  have hstep : ∀ n, let o := (i2cProto period stretch).wave (pySysIn D bidir period stretch p rdy go hold) n
      pySysHost D bidir period stretch p rdy go hold (n + 1) = (pySysHost D bidir period stretch p rdy go hold n).step (go n)
        ((pySysIn D bidir period stretch p rdy go hold n).valid && o.ready)
        (if o.valid && (pySysIn D bidir period stretch p rdy go hold n).ready then some o.beat.payload else none) := by
    intro n o
    have : o = (i2cProto period stretch).out ((pyFed period stretch p).st (pyWire D bidir period stretch p rdy go hold) n).1
        (pySysIn D bidir period stretch p rdy go hold n) := by
      simp only [o]
      rw [Circuit.wave, pySys_st]
    rw [this]
    rfl
  refine ⟨rfl, hstep, hoff, fun n h1 h2 => hv _ ?_, fun n h1 => ⟨n, Nat.le_refl n, hv n h1⟩⟩
  have hs := hstep n
  obtain ⟨t, ht⟩ := hoff n h1
  simp only [h2, Bool.and_false, PyHost.step] at hs
  rw [hs]
  intro h0
  have : (pySysHost D bidir period stretch p rdy go hold n).tx <+: [] := by
    rw [← h0]
    split
    · refine List.IsPrefix.trans ?_ (PyHost.act_tx _)
      exact List.prefix_rfl
    · exact List.prefix_rfl
  rw [ht] at this
  exact absurd (List.prefix_nil.1 this) (by simp)

/-- C102: the whole system meets the hypotheses on wires and host. -/
theorem C102_host_exists (hh : ∀ n, hold n = true → bidir = true ∧ stretch = true) (hc : p.Complete) :
    let i := pySysIn D bidir period stretch p rdy go hold
    I2cWired D.target bidir period stretch (i2cStrCi period stretch (i2cProtoSi period stretch i)) hold ∧
      PyHostRun period stretch p i go (pySysHost D bidir period stretch p rdy go hold) ∧ i2cProtoInTime period stretch i ∧
      (∀ n, (i n).ready = rdy n) := by
  intro i
  have hrun := pySys_run D bidir period stretch p rdy go hold
  have hcc : ∀ n, (i2cInitiator period stretch).st (i2cStrCi period stretch (i2cProtoSi period stretch i)) n =
      ((pyFed period stretch p).st (pyWire D bidir period stretch p rdy go hold) n).1.str.core := by
    intro n
    rw [← i2cStr_core, ← i2cProto_str, pySys_st]
  have hb : ∀ n, i2cBusOf D.target bidir period stretch (i2cStrCi period stretch (i2cProtoSi period stretch i)) hold n =
      (closeRun D.target bidir (pyFed period stretch p) (fun r : I2cProtoS × PyHost α => r.1.str.core)
        (fun n _ scl sda => ((rdy n, go n), scl, sda)) hold n).2 := by
    refine close_bus D.target bidir _ (fun r : I2cProtoS × PyHost α => r.1.str.core) _ hold _ _ (fun n => ?_)
    have := hcc n
    constructor
    · change ((i2cInitiator period stretch).st (i2cStrCi period stretch (i2cProtoSi period stretch i)) n).sclO = _
      rw [this]; rfl
    · change ((i2cInitiator period stretch).st (i2cStrCi period stretch (i2cProtoSi period stretch i)) n).sdaO = _
      rw [this]; rfl
  have hs := fun n => close_st D.target bidir (pyFed period stretch p)
    (fun r : I2cProtoS × PyHost α => r.1.str.core) (fun n _ scl sda => ((rdy n, go n), scl, sda)) hold n
  have hcomp : ∀ n, (pySysHost D bidir period stretch p rdy go hold n).prog.Complete ∧
      ProtoComplete (i2cProtoBytes period stretch i n ++ (pySysHost D bidir period stretch p rdy go hold n).tx) := by
    intro n
    induction n with
    | zero => exact ⟨hc, none, rfl⟩
    | succ n ih =>
      obtain ⟨tx, e, _, hb⟩ := host_move hrun n
      obtain ⟨h1, h2⟩ := ih
      rw [← hb] at h2
      rw [e]
      split
      · unfold PyHost.act
        generalize (pySysHost D bidir period stretch p rdy go hold n).prog = P at *
        cases P with
        | ret r => exact ⟨h1, h2⟩
        | write l k =>
          refine ⟨h1.2, ?_⟩
          simp only
          rw [← List.append_assoc]
          exact phase_append _ _ h2 h1.1
        | read m k =>
          simp only
          split
          · exact ⟨h1 _, h2⟩
          · exact ⟨h1, h2⟩
      · exact ⟨h1, h2⟩
  refine ⟨⟨fun n => ?_, fun n => ?_, hh⟩, hrun, fun n hn _ => ?_, fun _ => rfl⟩
  · rw [hb n]
    simp only [i2cScl, i2cSda, Circuit.wave]
    rw [hcc n]
    change (pyWire D bidir period stretch p rdy go hold n).2.1 = _
    unfold pyWire
    rw [hs n]
    rfl
  · rw [hb n]
    simp only [i2cScl, i2cSda, Circuit.wave]
    rw [hcc n]
    change (pyWire D bidir period stretch p rdy go hold n).2.2 = _
    unfold pyWire
    rw [hs n]
    rfl
  · obtain ⟨rem, hn⟩ := hn
    rw [(pySys_in D bidir period stretch p rdy go hold n).1]
    cases h : (pySysHost D bidir period stretch p rdy go hold n).tx
    · obtain ⟨rd, h2⟩ := (hcomp n).2
      rw [h, List.append_nil, hn] at h2
      cases h2
    · rfl

/-- **C102.** The whole system, for a host that offers what it has: the program ends with the result of the bridge machine. -/
theorem C102_system_partial (hp : 4 ≤ period) (hh : ∀ n, hold n = true → bidir = true ∧ stretch = true)
    (hrel : ∀ n, ∃ m, n ≤ m ∧ hold m = false) (hrdy : ∀ n, ∃ m, n ≤ m ∧ rdy m = true)
    (hgo : ∀ n, ∃ m, n ≤ m ∧ go m = true) (hD : D.Polite)
    (hc : p.Complete) (hf : p.Full (bridgeDev D.bus) ⟨[], [], []⟩)
    (hr : ReadsZero D.bus (p.written (bridgeDev D.bus) ⟨[], [], []⟩)) (hpt : p.Patient D.bus ⟨[], [], []⟩) :
    let r := p.run (bridgeDev D.bus) ⟨[], [], []⟩
    ∃ m, ∀ n, m ≤ n → (pySysHost D bidir period stretch p rdy go hold n).prog = .ret r.1 ∧
      (pySysHost D bidir period stretch p rdy go hold n).tx = [] ∧
      (pySysHost D bidir period stretch p rdy go hold n).rx = r.2.replies ∧
      pySysLog D bidir period stretch p rdy go hold (n + 1) = (D.state r.2.log).1.log := by
  obtain ⟨hw, hrun, ht, hrd⟩ := C102_host_exists D bidir period stretch p rdy go hold hh hc
  exact C102_program_partial hp hw hrun ht hD hc hf hr hpt hrel (by simpa only [hrd] using hrdy) hgo

end

end Lambdalib
