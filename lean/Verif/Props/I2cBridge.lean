import Verif.Lemmas.I2cBridge
import Verif.Props.UsbEp

/-! `I2CProto` with initiator and bus driver on the wires, with a device (C93). -/

namespace Lambdalib

section
variable (D : I2cDev)

theorem I2cDev.open_log (l : List (Beat (Bool × BitVec 8))) : (D.beats l).2 = true →
    ∀ L, (D.beats l).1.log ≠ L ++ [.start] := by
  induction l using snocInduction with
  | nil => intro h; simp [I2cDev.beats] at h
  | snoc l b ih =>
    rw [D.beats_snoc]
    intro h L
    rw [D.beats_closed] at h
    simp only [Bool.not_eq_true', Bool.or_eq_false_iff] at h
    have e : D.beat (D.beats l) b = (D.cmd (D.opened (D.beats l)) (i2cBeatCmd b), true) := by
      simp [I2cDev.beat, h.1, h.2]
    rw [e]
    have ho : (D.opened (D.beats l)).mode = .rest → ∀ L, (D.opened (D.beats l)).log ≠ L ++ [.start] := by
      unfold I2cDev.opened
      cases hr : (D.beats l).2
      · simp [I2cDev.cmd]
      · simp only [if_true]
        exact fun _ => ih hr
    have hn := h.2
    unfold I2cDev.nak at hn
    generalize D.opened (D.beats l) = A at *
    unfold i2cBeatCmd
    cases hb : b.payload.1 <;> simp only [Bool.false_eq_true, if_true, if_false, I2cDev.cmd] <;>
      cases hm : A.mode
    all_goals simp [I2cDev.byte, I2cDev.acks, hb, hm] at hn ⊢
    all_goals first
      | exact ho hm L
      | skip
    all_goals
      intro hx
      obtain ⟨_, hx⟩ := List.append_inj' hx rfl
      simp at hx

/-- A polite device never wants to send at the end of a packet, if packets begin with an address and reads of zero bytes are
refused. -/
theorem fits_polite (hD : D.Polite) (l : List (Beat (Bool × BitVec 8)))
    (h : ∀ p b q, l = p ++ b :: q → (D.beats p).2 = false → b.payload.1 = false ∧
      (b.last = true → b.payload.2.getLsbD 0 = true → D.nak (D.beats p) b = true)) : D.Fits l := by
  intro p b q hl hlast x hx
  have h' := h p b q hl
  have hopen := D.open_log p
  have hA : (D.beats p).2 = true → D.opened (D.beats p) = (D.beats p).1 := by
    intro h; simp [I2cDev.opened, h]
  have hnak : D.nak (D.beats p) b = (!b.payload.1 && !D.acks (D.opened (D.beats p)) b.payload.2) := rfl
  rw [hnak] at h'
  generalize hAA : D.opened (D.beats p) = A at *
  have key : ∀ d, (∃ y, D.tx (A.log ++ [.wrote d true]) = some y) → (∃ L, A.log = L ++ [.start]) ∧ d.getLsbD 0 = true := by
    intro d ⟨y, hy⟩
    rcases hD _ _ hy with ⟨L, h, e, he⟩ | ⟨L, b', e⟩
    · rw [show L ++ [DevEv.start, .wrote h true] = (L ++ [.start]) ++ [.wrote h true] by simp] at e
      obtain ⟨e1, e2⟩ := snoc_inj e
      simp only [DevEv.wrote.injEq, and_true] at e2
      subst e2
      exact ⟨⟨L, e1⟩, he⟩
    · obtain ⟨_, e2⟩ := snoc_inj e
      cases e2
  have closed : (∃ L, A.log = L ++ [.start]) → (D.beats p).2 = false := by
    rintro ⟨L, hL⟩
    cases hr : (D.beats p).2
    · rfl
    · rw [hA hr] at hL
      exact absurd hL (hopen hr L)
  unfold i2cBeatCmd at hx
  cases hb : b.payload.1
  · rw [hb] at hx
    simp only [Bool.false_eq_true, if_false, I2cDev.cmd] at hx
    cases hm : A.mode with
    | rest => rw [hm] at hx; simp only at hx; rw [hm] at hx; cases hx
    | send y => rw [hm] at hx; simp [I2cDev.byte, I2cDev.after] at hx
    | recv =>
      rw [hm] at hx
      simp only [I2cDev.byte, I2cDev.after] at hx
      cases ha : D.ack A.log b.payload.2
      · rw [ha] at hx; simp at hx
      · rw [ha] at hx
        simp only [if_true] at hx
        obtain ⟨k1, k2⟩ := key b.payload.2 (by
          cases ht : D.tx (A.log ++ [.wrote b.payload.2 true]) with
          | none => rw [ht] at hx; cases hx
          | some y => exact ⟨y, rfl⟩)
        have := (h' (closed k1)).2 hlast k2
        simp [I2cDev.acks, hm, ha] at this
  · rw [hb] at hx
    simp only [if_true, I2cDev.cmd, hlast, Bool.not_true] at hx
    cases hm : A.mode with
    | rest => rw [hm] at hx; simp only at hx; rw [hm] at hx; cases hx
    | send y => rw [hm] at hx; simp [I2cDev.byte, I2cDev.after] at hx
    | recv =>
      rw [hm] at hx
      simp only [I2cDev.byte, I2cDev.after] at hx
      cases ha : D.ack A.log 0xFF
      · rw [ha] at hx; simp at hx
      · rw [ha] at hx
        simp only [if_true] at hx
        obtain ⟨k1, k2⟩ := key 0xFF (by
          cases ht : D.tx (A.log ++ [.wrote 0xFF true]) with
          | none => rw [ht] at hx; cases hx
          | some y => exact ⟨y, rfl⟩)
        have := (h' (closed k1)).1
        rw [hb] at this
        cases this

end

section
variable {D : I2cDev} {bidir : Bool} {period : Nat} {stretch : Bool} {i : Nat → I2cProtoIn} {hold : Nat → Bool}
  {q : List (BitVec 8)}

/-- The host keeps the byte that it offers until it is taken. -/
def i2cHostHolds (period : Nat) (stretch : Bool) (i : Nat → I2cProtoIn) : Prop :=
  ∀ n, (i n).valid = true → ((i2cProto period stretch).wave i n).ready = false → (i (n + 1)).data = (i n).data

/-- A byte offered in cycle `n` is held until it is taken. -/
def i2cHostHoldsAt (period : Nat) (stretch : Bool) (i : Nat → I2cProtoIn) (n : Nat) : Prop :=
  (i n).valid = true → ((i2cProto period stretch).wave i n).ready = false → (i (n + 1)).data = (i n).data

/-- The host sends nothing while the status of a refused read is to come. -/
def i2cHostPatient (D : I2cDev) (period : Nat) (stretch : Bool) (i : Nat → I2cProtoIn) : Prop :=
  ∀ n, (i n).valid = true → ¬ Owes D.bus (i2cProtoBytes period stretch i n) (i2cProtoReplies period stretch i n).length

theorem proto_sink_stable (N : Nat) (hh : ∀ k, k < N → i2cHostHoldsAt period stretch i k)
    (ht : ∀ k, k < N → i2cProtoInTimeAt period stretch i k)
    (hrel : ∀ k, k < N → protoRel (i2cProtoBytes period stretch i k)
      (i2cStrBeats period stretch (i2cProtoSi period stretch i) k) (i2cProtoReplies period stretch i k)
      (i2cProtoData period stretch i k) ((i2cProto period stretch).st i k)) :
    i2cStrStableTo period stretch (i2cProtoSi period stretch i) N := by
  intro n hn hv hr
  have hs := hh n hn
  have hrel := hrel n hn
  have ht := ht n hn
  unfold i2cHostHoldsAt at hs
  unfold i2cProtoInTimeAt at ht
  simp only [Circuit.wave] at hr hs
  rw [← i2cProto_str] at hr
  unfold i2cProtoSi at hv hr ⊢
  rw [Circuit.st_succ]
  generalize (i2cProto period stretch).st i n = s at *
  obtain ⟨fsm, header, len, status, str⟩ := s
  cases fsm <;> simp [i2cProtoStrIn] at hv
  case addr =>
    have hn : (i2cProto period stretch).next ⟨.addr, header, len, status, str⟩ (i n) =
      ⟨.addr, header, len, status,
        (i2cStream period stretch).next str (i2cProtoStrIn ⟨.addr, header, len, status, str⟩ (i n))⟩ := by
      simp [i2cProto, i2cProtoFsm, hr]
    rw [hn]
    exact ⟨rfl, rfl⟩
  case read =>
    have hn : (i2cProto period stretch).next ⟨.read, header, len, status, str⟩ (i n) =
      ⟨.read, header, len, status,
        (i2cStream period stretch).next str (i2cProtoStrIn ⟨.read, header, len, status, str⟩ (i n))⟩ := by
      simp [i2cProto, i2cProtoFsm, hr]
    rw [hn]
    exact ⟨rfl, rfl⟩
  case write =>
    have hn : (i2cProto period stretch).next ⟨.write, header, len, status, str⟩ (i n) =
      ⟨.write, header, len, status,
        (i2cStream period stretch).next str (i2cProtoStrIn ⟨.write, header, len, status, str⟩ (i n))⟩ := by
      simp [i2cProto, i2cProtoFsm, hr]
    rw [hn]
    obtain ⟨_, _, a, b, c, d, _, _, pre, h1, h2, h3, h4, h5, _⟩ := hrel
    have := hs (ht ⟨_, h5⟩ (by simp)) (by simp [i2cProto, hr])
    simp [i2cProtoStrIn, this]


/-- Packets begin with an address, and those that end there refuse the read address. -/
def packetsOk (D : I2cDev) (l : List (Beat (Bool × BitVec 8))) : Prop :=
  ∀ p b q, l = p ++ b :: q → (D.beats p).2 = false → b.payload.1 = false ∧
    (b.last = true → b.payload.2.getLsbD 0 = true → D.nak (D.beats p) b = true)

theorem packetsOk_snoc (D : I2cDev) (l : List (Beat (Bool × BitVec 8))) (b : Beat (Bool × BitVec 8)) (h : packetsOk D l)
    (hb : (D.beats l).2 = false → b.payload.1 = false ∧
      (b.last = true → b.payload.2.getLsbD 0 = true → D.nak (D.beats l) b = true)) : packetsOk D (l ++ [b]) := by
  intro p c q e
  rcases eq_snoc q with rfl | ⟨q, x, rfl⟩
  · obtain ⟨rfl, rfl⟩ := snoc_inj e
    exact hb
  · rw [← List.cons_append, ← List.append_assoc] at e
    obtain ⟨rfl, rfl⟩ := snoc_inj e
    exact h p c q rfl

variable (hp : 4 ≤ period)
  (hw : I2cWired D.target bidir period stretch (i2cStrCi period stretch (i2cProtoSi period stretch i)) hold)
  (hh : i2cHostHolds period stretch i) (ht : i2cProtoInTime period stretch i)
  (hD : D.Polite) (hpt : i2cHostPatient D period stretch i) (hq : ∀ n, i2cProtoBytes period stretch i n <+: q)
  (hr : ReadsZero D.bus q)

theorem ReadsZero.prefix {d : BusDevices} {p q : List (BitVec 8)} (h : ReadsZero d q) (hp : p <+: q) : ReadsZero d p :=
  fun a b hx => h a b (hx.trans hp)

theorem ReadsFit.prefix {d : BusDevices} {p q : List (BitVec 8)} (h : ReadsFit d q) (hp : p <+: q) : ReadsFit d p :=
  fun a b c hx => h a b c (hx.trans hp)

theorem ReadsFit.zero {d : BusDevices} {q : List (BitVec 8)} (h : ReadsFit d q) : ReadsZero d q :=
  fun p a hx h1 h2 => (h p a 0 hx h1 h2).2 rfl

theorem ReadsFit.free {d : BusDevices} {p q : List (BitVec 8)} (h : ReadsFit d q) (hp : p <+: q) (n : Nat) : ¬ Owes d p n := by
  rintro ⟨r, a, l, rfl, h1, h2, h3, h4, _⟩
  exact h3 ((h r a l hp h1 h2).1 h4)

theorem seq_data {a b c} (h : ProtoSeq a b c) : ∃ d, ProtoSeqD a b c d := by
  induction h with
  | nil => exact ⟨_, .nil⟩
  | snoc _ h ih =>
    obtain ⟨d, ih⟩ := ih
    exact ⟨_, .snoc ih h⟩

/-- A packet that is going on. -/
theorem open_of (l : List (Beat (Bool × BitVec 8))) (b : Beat (Bool × BitVec 8)) (hl : b.last = false)
    (hn : D.nak (D.beats l) b = false) : (D.beats (l ++ [b])).2 = true := by
  rw [D.beats_snoc, D.beats_closed, hl, hn]
  rfl

/-- Beats all of which are acknowledged and none of which is the last. -/
theorem open_of_all (b : List (Beat (Bool × BitVec 8) × Bool)) (c : List (Beat (Bool × BitVec 8) × Bool)) (hc : c ≠ [])
    (hl : ∀ x ∈ c, x.1.last = false ∧ x.2 = false)
    (hB : (b ++ c).map Prod.snd = D.naks devRest ((b ++ c).map Prod.fst)) :
    (D.beats ((b ++ c).map Prod.fst)).2 = true := by
  rcases eq_snoc c with rfl | ⟨c, x, rfl⟩
  · exact absurd rfl hc
  · rw [← List.append_assoc, List.map_append (l₂ := [x]), List.map_append (l₂ := [x]), List.map_singleton, List.map_singleton, D.naks_snoc] at hB
    obtain ⟨_, h2⟩ := snoc_inj hB
    have hx := hl x (by simp)
    rw [← List.append_assoc, List.map_append, List.map_singleton]
    exact open_of _ _ hx.1 (by rw [← h2]; exact hx.2)

theorem transferred_prefix {β : Type} (v r : Nat → Bool) (b : Nat → β) (k d : Nat) :
    transferred v r b k <+: transferred v r b (k + d) := by
  induction d with
  | zero => exact List.prefix_rfl
  | succ d ih => rw [← Nat.add_assoc, transferred_succ]; exact ih.trans (List.prefix_append _ _)

include hp hw hD in
theorem bridge_run (n : Nat)
    (hh : ∀ k, k < n → i2cHostHoldsAt period stretch i k) (ht : ∀ k, k < n → i2cProtoInTimeAt period stretch i k)
    (hr : ReadsZero D.bus (i2cProtoBytes period stretch i n))
    (hpt : ∀ k, k < n → (i k).valid = true →
      ¬ Owes D.bus (i2cProtoBytes period stretch i k) (i2cProtoReplies period stretch i k).length) :
    (∀ k, k < n → ∀ len, protoPhase (i2cProtoBytes period stretch i k) = .header (some len) →
      let x := i2cProtoSi period stretch i k
      let o := (i2cStream period stretch).wave (i2cProtoSi period stretch i) k
      x.valid = true → o.ready = true → x.beat.payload.1 = false → len = 0 → o.error = true) ∧
    (∀ k, k < n → ∀ a b c h L, ProtoSeq a b c → i2cProtoBytes period stretch i k = a ++ [h, BitVec.ofNat 8 L] →
      i2cStrBeats period stretch (i2cProtoSi period stretch i) k = b ++ [(protoAddr h false, true)] →
      i2cProtoReplies period stretch i k = c → h.getLsbD 0 = true → L ≠ 0 → L < 256 → (i k).valid = false) ∧
    packetsOk D ((i2cStrBeats period stretch (i2cProtoSi period stretch i) n).map Prod.fst) := by
  induction n with
  | zero =>
    refine ⟨fun k hk => absurd hk (by omega), fun k hk => absurd hk (by omega), ?_⟩
    intro p b q e
    change [] = p ++ b :: q at e
    simp at e
  | succ n ih =>
    replace hr := hr.prefix (transferred_prefix _ _ _ n 1)
    change ReadsZero D.bus (i2cProtoBytes period stretch i n) at hr
    obtain ⟨i1, i3, i2⟩ := ih (fun k hk => hh k (by omega)) (fun k hk => ht k (by omega)) hr fun k hk => hpt k (by omega)
    have hst : ∀ k, k < n + 1 → i2cStrStableTo period stretch (i2cProtoSi period stretch i) k := fun k hk =>
      proto_sink_stable k (fun l hl => hh l (by omega)) (fun l hl => ht l (by omega)) fun j hj => proto_rel_upto period stretch i j (fun l hl => ht l (by omega)) (fun l hl => i1 l (by omega))
        (fun l hl => i3 l (by omega))
    have hfit : ∀ k, k < n + 1 → D.Fits ((i2cStrBeats period stretch (i2cProtoSi period stretch i) k).map Prod.fst) := by
      intro k hk
      refine (fits_polite D hD _ i2).prefix ?_
      obtain ⟨d, rfl⟩ : ∃ d, n = k + d := ⟨n - k, by omega⟩
      exact List.IsPrefix.map _ (transferred_prefix ..)
    have hB := (sys_run_upto hp hw (n + 1) hst hfit).1
    have hB0 := (sys_run_upto hp hw n (fun k hk => hst k (by omega)) (fun k hk => hfit k (by omega))).1
    have hrel := proto_rel_upto period stretch i n (fun k hk => ht k (by omega)) i1 i3
    have hquiet : ∀ a b c h L, ProtoSeq a b c → i2cProtoBytes period stretch i n = a ++ [h, BitVec.ofNat 8 L] →
        i2cStrBeats period stretch (i2cProtoSi period stretch i) n = b ++ [(protoAddr h false, true)] →
        i2cProtoReplies period stretch i n = c → h.getLsbD 0 = true → L ≠ 0 → L < 256 → (i n).valid = false := by
      intro a b c h L hs hA hBe hC hb hL hL2
      obtain ⟨d, hs⟩ := seq_data hs
      rw [hBe, List.map_append, List.map_append, D.naks_append] at hB0
      obtain ⟨k1, k2⟩ := List.append_inj hB0 (by rw [D.naks_length]; simp)
      obtain ⟨g1, g2, _, _, _, g6⟩ := seq_bridge D hs k1
      have hlen : (BitVec.ofNat 8 L).toNat = L := by simp; omega
      refine Bool.eq_false_iff.2 fun hv => hpt n (by omega) hv ⟨a, h, BitVec.ofNat 8 L, hA, g1, hb, ?_, ?_, ?_⟩
      · intro h0
        rw [h0] at hlen
        exact hL hlen.symm
      · rw [I2cDev.bus, g2, D.bus_read _ _ hb, hlen, show (L == 0) = false by simpa using hL]
        have k3 : D.nak (List.foldl D.beat devRest (List.map Prod.fst b)) (protoAddr h false) = true := by
          simpa [I2cDev.naks] using k2.symm
        exact k3
      · rw [hC, hA, List.foldl_append, bridge_read D.bus _ h _ g1 (byte_odd h hb).1]
        simp only [List.length_append, g6]
        cases D.bus (List.foldl (bridgeByte D.bus) ⟨[], [], []⟩ a).log (.read (h.toNat / 2) (BitVec.ofNat 8 L).toNat) <;>
          simp [txnReply]
    rw [sys_beats_succ] at hB ⊢
    have hst' := i2cProto_str period stretch i n
    rw [← hst'] at hB ⊢
    have hsi : i2cProtoSi period stretch i n = i2cProtoStrIn ((i2cProto period stretch).st i n) (i n) := rfl
    have hwv : (i2cStream period stretch).wave (i2cProtoSi period stretch i) n =
      (i2cStream period stretch).out ((i2cProto period stretch).st i n).str (i2cProtoSi period stretch i n) := by
      rw [Circuit.wave, ← hst']
    suffices h : ∀ x o A B, x = i2cProtoSi period stretch i n →
        o = (i2cStream period stretch).out ((i2cProto period stretch).st i n).str (i2cProtoSi period stretch i n) →
        A = i2cProtoBytes period stretch i n → B = i2cStrBeats period stretch (i2cProtoSi period stretch i) n →
        (∀ len, protoPhase A = .header (some len) → x.valid = true → o.ready = true →
        x.beat.payload.1 = false → len = 0 → o.error = true) ∧ (x.valid = true → o.ready = true →
        (D.beats (B.map Prod.fst)).2 = false → x.beat.payload.1 = false ∧
          (x.beat.last = true → x.beat.payload.2.getLsbD 0 = true → D.nak (D.beats (B.map Prod.fst)) x.beat = true)) by
      have h := h _ _ _ _ rfl rfl rfl rfl
      refine ⟨fun k hk l hl => ?_, fun k hk => ?_, ?_⟩
      rotate_left
      · rcases Nat.lt_or_ge k n with h' | h'
        · exact i3 k h'
        · have : k = n := by omega
          subst this
          exact hquiet
      rotate_left
      · rcases Nat.lt_or_ge k n with h' | h'
        · exact i1 k h' l hl
        · have : k = n := by omega
          subst this
          simp only [hwv]
          exact h.1 l hl
      · split
        · rename_i hc
          rw [Bool.and_eq_true] at hc
          rw [List.map_append, List.map_singleton]
          exact packetsOk_snoc D _ _ i2 (h.2 hc.1 hc.2)
        · rw [List.append_nil]
          exact i2
    intro x o A B hx ho hA hBB
    rw [← ho, ← hx, ← hBB] at hB
    rw [← hBB] at hB0
    rw [← hx] at hsi
    rw [← hA] at hr
    rw [← hA, ← hBB] at hrel
    clear hx ho hA hBB hwv hst' hst hfit i1 i2 i3 ih hquiet
    generalize (i2cProto period stretch).st i n = s at *
    obtain ⟨fsm, header, len, status, str⟩ := s
    obtain ⟨_, _, a, b, c, d, hseq, _, hrel⟩ := hrel
    have hnak : x.valid = true → o.ready = true → o.error = D.nak (D.beats (B.map Prod.fst)) x.beat := by
      intro h1 h2
      rw [h1, h2] at hB
      simp only [Bool.and_self, if_true, List.map_append, List.map_singleton] at hB
      rw [D.naks_snoc] at hB
      exact (snoc_inj hB).2
    cases fsm <;> simp only at hrel <;> subst hsi
    case addr =>
      obtain ⟨h1, h2, h3, h4, h5⟩ := hrel
      subst h2
      have hbeat : (i2cProtoStrIn ⟨.addr, header, len, status, str⟩ (i n)).beat = protoAddr header (len == 0) := by
        simp [i2cProtoStrIn, protoAddr]
      obtain ⟨g1, g2, g3, _, _⟩ := seq_bridge D hseq hB0
      have M : header.getLsbD 0 = true → len = 0 → D.nak (D.beats (B.map Prod.fst)) (protoAddr header (len == 0)) = true := by
        intro hb h0
        subst h0
        have := hr a header (by rw [h1]; exact List.prefix_rfl) g1 hb
        rwa [I2cDev.bus, g2, D.bus_read _ _ hb] at this
      refine ⟨fun l hl hv hrd hp1 hl0 => ?_, fun hv hrd hc => ⟨by rw [hbeat]; rfl, fun hlast hbit => ?_⟩⟩
      · rw [hnak hv hrd, hbeat]
        rw [h5] at hl
        split at hl
        · rename_i hb
          simp only [ProtoPhase.header.injEq, Option.some.injEq] at hl
          exact M hb (hl.trans hl0)
        · split at hl <;> cases hl
      · rw [hbeat] at hlast hbit ⊢
        exact M hbit (by simpa [protoAddr] using hlast)
    case read =>
      obtain ⟨k, pre, rd, h1, h2, h3, h4, h5, h6, h7⟩ := hrel
      refine ⟨fun l hl hv hrd hp1 => absurd hp1 (by simp [i2cProtoStrIn]), fun _ _ hc => ?_⟩
      rw [h6, List.append_assoc] at hB0 hc
      rw [open_of_all b _ (by simp) (by
        intro x hx
        simp only [List.mem_append, List.mem_singleton, List.mem_replicate] at hx
        rcases hx with rfl | ⟨_, rfl⟩ <;> exact ⟨rfl, rfl⟩) hB0] at hc
      cases hc
    case write =>
      obtain ⟨pre, h1, h2, h3, h4, h5, h6, h7⟩ := hrel
      refine ⟨fun l hl => absurd hl (by rw [h5]; simp), fun _ _ hc => ?_⟩
      rw [h6, List.append_assoc] at hB0 hc
      rw [open_of_all b _ (by simp) (by
        intro x hx
        simp only [List.mem_append, List.mem_singleton, List.mem_map] at hx
        rcases hx with rfl | ⟨_, _, rfl⟩ <;> exact ⟨rfl, rfl⟩) hB0] at hc
      cases hc
    all_goals exact ⟨fun _ _ h => absurd h (by simp [i2cProtoStrIn]), fun h => absurd h (by simp [i2cProtoStrIn])⟩

include hp hw hD in
theorem bridge_rel (n : Nat)
    (hh : ∀ k, k < n → i2cHostHoldsAt period stretch i k) (ht : ∀ k, k < n → i2cProtoInTimeAt period stretch i k)
    (hr : ReadsZero D.bus (i2cProtoBytes period stretch i n))
    (hpt : ∀ k, k < n → (i k).valid = true →
      ¬ Owes D.bus (i2cProtoBytes period stretch i k) (i2cProtoReplies period stretch i k).length) :
    protoRel (i2cProtoBytes period stretch i n)
      (i2cStrBeats period stretch (i2cProtoSi period stretch i) n) (i2cProtoReplies period stretch i n)
      (i2cProtoData period stretch i n) ((i2cProto period stretch).st i n) :=
  proto_rel_upto period stretch i n ht (bridge_run hp hw hD n hh ht hr hpt).1
    (bridge_run hp hw hD n hh ht hr hpt).2.1

theorem bytes_prefix {k n : Nat} (h : k ≤ n) : i2cProtoBytes period stretch i k <+: i2cProtoBytes period stretch i n := by
  obtain ⟨d, rfl⟩ : ∃ d, n = k + d := ⟨n - k, by omega⟩
  exact transferred_prefix ..

include hp hw hD in
theorem bridge_stable (n : Nat)
    (hh : ∀ k, k < n → i2cHostHoldsAt period stretch i k) (ht : ∀ k, k < n → i2cProtoInTimeAt period stretch i k)
    (hr : ReadsZero D.bus (i2cProtoBytes period stretch i n))
    (hpt : ∀ k, k < n → (i k).valid = true →
      ¬ Owes D.bus (i2cProtoBytes period stretch i k) (i2cProtoReplies period stretch i k).length) :
    i2cStrStableTo period stretch (i2cProtoSi period stretch i) n :=
  proto_sink_stable n hh ht fun _ hk => bridge_rel hp hw hD _ (fun l hl => hh l (by omega)) (fun l hl => ht l (by omega)) (hr.prefix (bytes_prefix (by omega)))
    fun k _ => hpt k (by omega)

include hp hw hD in
theorem bridge_fits (n : Nat)
    (hh : ∀ k, k < n → i2cHostHoldsAt period stretch i k) (ht : ∀ k, k < n → i2cProtoInTimeAt period stretch i k)
    (hr : ReadsZero D.bus (i2cProtoBytes period stretch i n))
    (hpt : ∀ k, k < n → (i k).valid = true →
      ¬ Owes D.bus (i2cProtoBytes period stretch i k) (i2cProtoReplies period stretch i k).length) :
    D.Fits ((i2cStrBeats period stretch (i2cProtoSi period stretch i) n).map Prod.fst) :=
  fits_polite D hD _ (bridge_run hp hw hD n hh ht hr hpt).2.2

/-- The replies of the bridge machine grow with the bytes. -/
theorem bridge_mono (d : BusDevices) (a p : List (BitVec 8)) (s : BridgeS) :
    (a.foldl (bridgeByte d) s).replies <+: ((a ++ p).foldl (bridgeByte d) s).replies := by
  rw [List.foldl_append]
  generalize a.foldl (bridgeByte d) s = s
  induction p generalizing s with
  | nil => exact List.prefix_rfl
  | cons b p ih =>
    refine List.IsPrefix.trans ?_ (ih (bridgeByte d s b))
    unfold bridgeByte
    simp only
    split
    · exact List.prefix_append _ _
    · exact List.prefix_rfl

/-- Data of finished commands, and data of the command that is going on. -/
theorem seq_split {a b c d extra X pend} (hs : ProtoSeqD a b c d)
    (hB : (b ++ extra).map Prod.snd = D.naks devRest ((b ++ extra).map Prod.fst))
    (hd : (D.reads devRest ((b ++ extra).map Prod.fst)).map (fun x => (x.last, x.payload)) = (d ++ X) ++ pend) :
    let S := a.foldl (bridgeByte D.bus) ⟨[], [], []⟩
    S.pending = [] ∧ D.state S.log = D.beats (b.map Prod.fst) ∧ S.replies = c.map Prod.snd ∧
    extra.map Prod.snd = D.naks (D.beats (b.map Prod.fst)) (extra.map Prod.fst) ∧
    (D.reads (D.beats (b.map Prod.fst)) (extra.map Prod.fst)).map (fun x => (x.last, x.payload)) = X ++ pend := by
  intro S
  rw [List.map_append, List.map_append, D.naks_append] at hB
  obtain ⟨hB1, hB2⟩ := List.append_inj hB (by rw [D.naks_length]; simp)
  obtain ⟨g1, g2, g3, g4, g5, _⟩ := seq_bridge D hs hB1
  rw [List.map_append, D.reads_append, List.map_append, List.append_assoc] at hd
  obtain ⟨hd1, hd2⟩ := List.append_inj hd (by rw [g4]; simp)
  exact ⟨g1, g2, g5 hd1.symm, hB2, hd2⟩

include hp hw hD in
/-- **C93.** At any time the replies are a beginning of those that the bytes taken from the host ask for, with the answers given by
the device on the wires. -/
theorem C93_replies_partial (n : Nat)
    (hh : ∀ k, k < n → i2cHostHoldsAt period stretch i k) (ht : ∀ k, k < n → i2cProtoInTimeAt period stretch i k)
    (hr : ReadsZero D.bus (i2cProtoBytes period stretch i n))
    (hpt : ∀ k, k < n → (i k).valid = true →
      ¬ Owes D.bus (i2cProtoBytes period stretch i k) (i2cProtoReplies period stretch i k).length) :
    (i2cProtoReplies period stretch i n).map Prod.snd <+:
      ((i2cProtoBytes period stretch i n).foldl (bridgeByte D.bus) ⟨[], [], []⟩).replies := by
  have hst := fun k (hk : k < n) => bridge_stable hp hw hD k (fun l hl => hh l (by omega)) (fun l hl => ht l (by omega)) (hr.prefix (bytes_prefix (by omega)))
    fun k _ => hpt k (by omega)
  have hfit := fun k (hk : k < n) => bridge_fits hp hw hD k (fun l hl => hh l (by omega)) (fun l hl => ht l (by omega)) (hr.prefix (bytes_prefix (by omega)))
    fun k _ => hpt k (by omega)
  have hrel := bridge_rel hp hw hD n hh ht hr hpt
  have hB := (sys_run_upto hp hw n hst hfit).1
  have hRd := sys_reads_upto hp hw n hst hfit
  have hdat : i2cProtoData period stretch i n =
      (i2cStrDelivered period stretch (i2cProtoSi period stretch i) n).map (fun x => (x.last, x.payload)) :=
    (transferred_map (fun x : Beat (BitVec 8) => (x.last, x.payload)) _ _ _ n).symm
  obtain ⟨pend, hpend⟩ : ∃ pend, (D.reads devRest ((i2cStrBeats period stretch (i2cProtoSi period stretch i) n).map
      Prod.fst)).map (fun x => (x.last, x.payload)) = i2cProtoData period stretch i n ++ pend := by
    rw [hRd, List.map_append, hdat]
    exact ⟨_, rfl⟩
  clear hRd hdat hfit hst hr
  generalize i2cProtoBytes period stretch i n = A at *
  generalize i2cStrBeats period stretch (i2cProtoSi period stretch i) n = B at *
  generalize i2cProtoReplies period stretch i n = R at *
  generalize i2cProtoData period stretch i n = Dl at *
  generalize (i2cProto period stretch).st i n = s at *
  obtain ⟨fsm, header, len, status, str⟩ := s
  obtain ⟨_, _, a, b, c, d, hseq, hdl, hrel⟩ := hrel
  rw [hdl] at hpend
  have simple : ∀ p extra, A = a ++ p → B = b ++ extra → R = c → R.map Prod.snd <+:
      (A.foldl (bridgeByte D.bus) ⟨[], [], []⟩).replies := by
    intro p extra h1 h2 h3
    subst h1 h2 h3
    obtain ⟨_, _, g3, _, _⟩ := seq_split hseq hB hpend
    rw [← g3]
    exact bridge_mono ..
  have reading : ∀ N rest tl, N < 256 → N ≠ 0 → header.getLsbD 0 = true → A = a ++ [header, BitVec.ofNat 8 N] →
      B = b ++ ([(protoAddr header false, false)] ++ rest) → rest.map Prod.fst ++ tl = rdBeats N →
      (∃ X, R = c ++ ([(true, 0)] ++ X)) → R.map Prod.snd <+: (A.foldl (bridgeByte D.bus) ⟨[], [], []⟩).replies := by
    rintro N rest tl hN hN0 hb h1 h2 h3 ⟨X, h4⟩
    subst h1 h2 h4
    rw [show (c ++ ([(true, (0 : BitVec 8))] ++ X)).drop (c.length + 1) = X by
      rw [← List.append_assoc]; exact List.drop_left' (by simp)] at hpend
    obtain ⟨g1, g2, g3, g4, g5⟩ := seq_split hseq hB hpend
    rw [List.foldl_append, bridge_read D.bus _ header _ g1 (byte_odd header hb).1]
    have hlen : (BitVec.ofNat 8 N).toNat = N := by simp; omega
    simp only [hlen, g3, I2cDev.bus, g2]
    have hna : D.nak (D.beats (b.map Prod.fst)) (protoAddr header false) = false := by
      change false :: rest.map Prod.snd = D.nak _ (protoAddr header false) :: D.naks _ (rest.map Prod.fst) at g4
      exact (List.cons.inj g4).1.symm
    have hall : ∀ e ∈ D.naks (D.beats (b.map Prod.fst)) (protoAddr header false :: rdBeats N), e = false := by
      simp only [I2cDev.naks, List.mem_cons, forall_eq_or_imp]
      exact ⟨hna, D.naks_read _ _ (rdBeats_read N)⟩
    rw [txnBeats, (byte_odd header hb).2, show (N == 0) = false by simpa using hN0, D.exec_ok _ _ hall]
    rw [List.map_append, List.map_append]
    refine (List.prefix_append_right_inj _).2 ?_
    simp only [txnReply, List.map_singleton, List.singleton_append]
    refine (List.prefix_cons_inj _).2 ?_
    rw [← h3, show protoAddr header false :: (rest.map Prod.fst ++ tl) =
      ([(protoAddr header false, false)] ++ rest).map Prod.fst ++ tl by simp, D.reads_append, List.map_append]
    refine List.IsPrefix.trans ?_ (List.prefix_append _ _)
    rw [show (fun x : Beat (BitVec 8) => x.payload) = Prod.snd ∘ fun x : Beat (BitVec 8) => (x.last, x.payload) from rfl,
      ← List.map_map, g5, List.map_append]
    exact List.prefix_append _ _
  cases fsm <;> simp only at hrel
  case header => exact simple [] [] (by simp [hrel.1]) (by simp [hrel.2.1]) hrel.2.2.1
  case length => exact simple _ [] hrel.1 (by simp [hrel.2.1]) hrel.2.2.1
  case addr => exact simple _ [] hrel.1 (by simp [hrel.2.1]) hrel.2.2.1
  case ok => exact simple _ _ hrel.1 hrel.2.1 hrel.2.2.1
  case write =>
    obtain ⟨pre, h1, h2, h3, h4, h5, h6, h7⟩ := hrel
    exact simple _ _ (by rw [h1, List.append_assoc]) (by rw [h6, List.append_assoc]) h7
  case error =>
    obtain ⟨a', b', h1, h2, h3, _⟩ := hrel
    exact simple _ _ h1 h2 h3
  case status =>
    obtain ⟨a', b', h1, h2, h3, _⟩ := hrel
    exact simple _ _ h1 h2 h3
  case read =>
    obtain ⟨k, pre, rd, h1, h2, h3, h4, h5, h6, h7, h8, h9⟩ := hrel
    refine reading (len + k) (List.replicate k (protoRd false, false)) (rdBeats len) h3 (by omega) h4 h1
      (by rw [h6, List.append_assoc]) ?_ ⟨pre.map fun d => (false, d), by rw [h7, List.append_assoc]⟩
    rw [List.map_replicate]
    obtain ⟨l, rfl⟩ : ∃ l, len = l + 1 := ⟨len - 1, by omega⟩
    rw [show l + 1 + k = l + k + 1 by omega, rdBeats_eq, rdBeats_eq, ← List.append_assoc, Nat.add_comm l k,
      List.replicate_append_replicate]
  case flush =>
    obtain ⟨pre, rd, h1, h3, h4, h5, h6, h7, h8, h9⟩ := hrel
    refine reading (pre.length + 1) (List.replicate pre.length (protoRd false, false) ++ [(protoRd true, false)]) [] h3
      (by omega) h4 h1 (by rw [h6]; simp) ?_ ⟨pre.map fun d => (false, d), by rw [h7, List.append_assoc]⟩
    rw [rdBeats_eq]
    simp

/-! ### Completion -/

/-- Distance from the end, with `left` bytes still to be taken. -/
def bridgeRank (s : I2cProtoS) (left : Nat) : Nat :=
  left * 10000 + (match s.fsm with
    | .addr => 8 | .ok => 6 | .read => 5 | .write => 5 | .flush => 4 | .error => 3 | .status => 2 | .header => 1
    | .length => 0) * 300 + s.len

/-- In each cycle nothing changes, or the end comes nearer. -/
theorem bridge_move (s : I2cProtoS) (x : I2cProtoIn) (left left' : Nat)
    (hl : s.fsm = .read ∨ s.fsm = .write → 1 ≤ s.len ∧ s.len < 256) (he : s.fsm = .error → s.len < 256)
    (hleft : left = left' + (protoAcc period stretch s x).length) :
    (((i2cProto period stretch).next s x).fsm = s.fsm ∧ ((i2cProto period stretch).next s x).len = s.len ∧ left' = left) ∨
      bridgeRank ((i2cProto period stretch).next s x) left' < bridgeRank s left := by
  obtain ⟨fsm, header, len, status, str⟩ := s
  unfold protoAcc at hleft
  have hbyte := x.data.isLt
  cases fsm
  case header =>
    cases hv : x.valid <;> simp [i2cProto, i2cProtoFsm, hv, bridgeRank] at hleft ⊢ <;> omega
  case length =>
    cases hv : x.valid <;> simp [i2cProto, i2cProtoFsm, hv, bridgeRank] at hleft ⊢ <;> omega
  case addr =>
    simp only [i2cProto, i2cProtoFsm, bridgeRank] at hleft ⊢
    generalize (i2cStream period stretch).out str _ = o at *
    cases o.ready <;> cases o.error <;> cases header.getLsbD 0 <;> rcases Nat.eq_zero_or_pos len with h | h
    all_goals simp [h, show ¬ 1 ≤ 0 by omega] at hleft ⊢
    all_goals first | omega | (simp [show 1 ≤ len by omega]; omega)
  case ok =>
    cases hv : x.ready <;> simp [i2cProto, i2cProtoFsm, hv, bridgeRank] at hleft ⊢ <;> omega
  case status =>
    cases hv : x.ready <;> simp [i2cProto, i2cProtoFsm, hv, bridgeRank] at hleft ⊢ <;> omega
  case error =>
    have := he rfl
    dsimp only at this
    by_cases h : 1 ≤ len
    · have := i2cProtoDec_eq len h this
      cases hv : x.valid <;> simp [i2cProto, i2cProtoFsm, h, hv, bridgeRank, this] at hleft ⊢ <;> omega
    · cases hv : x.valid <;> simp [i2cProto, i2cProtoFsm, h, hv, bridgeRank] at hleft ⊢ <;> omega
  case flush =>
    simp only [i2cProto, i2cProtoFsm, bridgeRank] at hleft ⊢
    generalize (i2cStream period stretch).out str _ = o at *
    cases o.valid <;> cases x.ready <;> cases o.beat.last <;> simp at hleft ⊢ <;> omega
  case read =>
    obtain ⟨h1, h2⟩ := hl (.inl rfl)
    have hd := i2cProtoDec_eq len h1 h2
    simp only [i2cProto, i2cProtoFsm, bridgeRank] at hleft ⊢
    generalize (i2cStream period stretch).out str _ = o at *
    dsimp only at h1 h2
    cases o.ready <;> by_cases h : len = 1 <;> simp [h, hd] at hleft ⊢ <;> simp_all <;> omega
  case write =>
    obtain ⟨h1, h2⟩ := hl (.inr rfl)
    have hd := i2cProtoDec_eq len h1 h2
    simp only [i2cProto, i2cProtoFsm, bridgeRank] at hleft ⊢
    generalize (i2cStream period stretch).out str _ = o at *
    dsimp only at h1 h2
    cases hv : x.valid <;> cases hr : o.ready <;> cases ho : o.error <;> by_cases h : len = 1 <;>
      simp [h, hd, hv, hr, ho, show i2cProtoDec 1 = 0 from rfl] at hleft ⊢ <;> omega

include hp hw hh ht hD hpt hq hr in
/-- All commands are taken, and the bridge waits for the next one. -/
theorem bridge_completes (hrel : ∀ n, ∃ m, n ≤ m ∧ hold m = false) (hrdy : ∀ n, ∃ m, n ≤ m ∧ (i m).ready = true)
    (hlive : ∀ n, i2cProtoBytes period stretch i n ≠ q → ∃ m, n ≤ m ∧ (i m).valid = true) (hc : ProtoComplete q) :
    ∃ m, ((i2cProto period stretch).st i m).fsm = .header ∧ i2cProtoBytes period stretch i m = q := by
  have hr' := fun n => hr.prefix (hq n)
  have hst : i2cStrSinkStable period stretch (i2cProtoSi period stretch i) :=
    fun n => bridge_stable hp hw hD (n + 1) (fun k _ => hh k) (fun k _ => ht k) (hr' (n + 1)) (fun k _ => hpt k) n (by omega)
  have hfit := fun n => bridge_fits hp hw hD n (fun k _ => hh k) (fun k _ => ht k) (hr' n) (fun k _ => hpt k)
  have hrel' := fun n => bridge_rel hp hw hD n (fun k _ => hh k) (fun k _ => ht k) (hr' n) (fun k _ => hpt k)
  -- a time of least distance
  obtain ⟨n, hmin⟩ : ∃ n, ∀ m, bridgeRank ((i2cProto period stretch).st i n) (q.length - (i2cProtoBytes period stretch i n).length) ≤
      bridgeRank ((i2cProto period stretch).st i m) (q.length - (i2cProtoBytes period stretch i m).length) := by
    generalize hf : (fun n => bridgeRank ((i2cProto period stretch).st i n)
      (q.length - (i2cProtoBytes period stretch i n).length)) = f
    have key : ∀ k n, f n ≤ k → ∃ n, ∀ m, f n ≤ f m := by
      intro k
      induction k with
      | zero => intro n hn; exact ⟨n, fun m => by omega⟩
      | succ k ih =>
        intro n hn
        by_cases h : ∃ m, f m ≤ k
        · obtain ⟨m, hm⟩ := h; exact ih m hm
        · exact ⟨n, fun m => by
            have : ¬ f m ≤ k := fun h' => h ⟨m, h'⟩
            omega⟩
    obtain ⟨n, hn⟩ := key _ 0 (Nat.le_refl _)
    exact ⟨n, fun m => by simpa [← hf] using hn m⟩
  -- nothing changes any more
  have hacc : ∀ m, i2cProtoBytes period stretch i (m + 1) = i2cProtoBytes period stretch i m ++
      protoAcc period stretch ((i2cProto period stretch).st i m) (i m) := fun m => rfl
  have hstay : ∀ d, ((i2cProto period stretch).st i (n + d)).fsm = ((i2cProto period stretch).st i n).fsm ∧
      ((i2cProto period stretch).st i (n + d)).len = ((i2cProto period stretch).st i n).len ∧
      (i2cProtoBytes period stretch i (n + d)).length = (i2cProtoBytes period stretch i n).length := by
    intro d
    induction d with
    | zero => exact ⟨rfl, rfl, rfl⟩
    | succ d ih =>
      have hr0 := hrel' (n + d)
      have hm0 := hmin (n + d)
      have hm1 := hmin (n + d + 1)
      have hl1 := (hq (n + d + 1)).length_le
      rw [hacc, List.length_append] at hm1 hl1
      have mv := bridge_move (period := period) (stretch := stretch) ((i2cProto period stretch).st i (n + d)) (i (n + d))
        (q.length - (i2cProtoBytes period stretch i (n + d)).length)
        (q.length - ((i2cProtoBytes period stretch i (n + d)).length +
          (protoAcc period stretch ((i2cProto period stretch).st i (n + d)) (i (n + d))).length))
        (by
          intro h
          obtain ⟨_, _, a, b, c, dd, _, _, hm⟩ := hr0
          rcases h with h | h <;> simp only [h] at hm
          · obtain ⟨k, _, _, _, h1, h2, _⟩ := hm; exact ⟨h1, by omega⟩
          · obtain ⟨pre, _, h1, h2, _⟩ := hm; exact ⟨h1, by omega⟩)
        (by
          intro h
          obtain ⟨_, _, a, b, c, dd, _, _, hm⟩ := hr0
          simp only [h] at hm
          obtain ⟨_, _, _, _, _, h1, _⟩ := hm; exact h1) (by omega)
      rw [← Nat.add_assoc, hacc, List.length_append]
      rw [Circuit.st_succ] at hm1 ⊢
      have hle : bridgeRank ((i2cProto period stretch).st i (n + d)) (q.length - (i2cProtoBytes period stretch i (n + d)).length) =
          bridgeRank ((i2cProto period stretch).st i n) (q.length - (i2cProtoBytes period stretch i n).length) := by
        unfold bridgeRank
        rw [ih.1, ih.2.1, ih.2.2]
      rcases mv with ⟨e1, e2, e3⟩ | mv
      · refine ⟨e1.trans ih.1, e2.trans ih.2.1, ?_⟩
        rw [← ih.2.2]
        omega
      · omega
  have hnr : ∀ m, n ≤ m → ((i2cProto period stretch).st i m).fsm = ((i2cProto period stretch).st i n).fsm ∧
      ((i2cProto period stretch).st i m).len = ((i2cProto period stretch).st i n).len ∧
      i2cProtoBytes period stretch i m = i2cProtoBytes period stretch i n := by
    intro m hm
    obtain ⟨d, rfl⟩ : ∃ d, m = n + d := ⟨m - n, by omega⟩
    refine ⟨(hstay d).1, (hstay d).2.1, ?_⟩
    have := transferred_prefix (fun k => (i k).valid) (fun k => ((i2cProto period stretch).wave i k).ready) (fun k => (i k).data) n d
    exact (this.eq_of_length (hstay d).2.2.symm).symm
  clear hmin hstay
  have hstr : ∀ m, ((i2cProto period stretch).st i n).fsm = .addr ∨ ((i2cProto period stretch).st i n).fsm = .read ∨
      ((i2cProto period stretch).st i n).fsm = .write → n ≤ m → ((i2cStream period stretch).wave (i2cProtoSi period stretch i) m).ready = true →
      False := by
    intro m hf hm hrd
    have h1 := (hnr (m + 1) (by omega)).2.2.trans (hnr m hm).2.2.symm
    have h2 := (hnr (m + 1) (by omega)).1.trans (hnr m hm).1.symm
    have h3 := (hnr (m + 1) (by omega)).2.1.trans (hnr m hm).2.1.symm
    rw [← (hnr m hm).1] at hf
    have hr0 := hrel' m
    rw [Circuit.wave, ← i2cProto_str] at hrd
    rw [Circuit.st_succ] at h2 h3
    have hsi : i2cProtoSi period stretch i m = i2cProtoStrIn ((i2cProto period stretch).st i m) (i m) := rfl
    rw [hsi] at hrd
    generalize (i2cProto period stretch).st i m = s at *
    obtain ⟨_, _, a, b, c, dd, _, _, hmm⟩ := hr0
    obtain ⟨fsm, header, len, status, str⟩ := s
    dsimp only at hf hrd
    rcases hf with rfl | rfl | rfl <;> simp only [i2cProto, i2cProtoFsm, hrd] at h2 h3 hmm
    · simp only [if_true] at h2
      revert h2
      split <;> (try split) <;> (try split) <;> simp
    · obtain ⟨k, _, _, _, h4, h5, _⟩ := hmm
      simp only [if_true] at h3
      rw [i2cProtoDec_eq _ h4 (by omega)] at h3
      omega
    · obtain ⟨pre, _, h4, h5, _⟩ := hmm
      simp only [if_true] at h2 h3
      revert h2 h3
      split <;> (try split) <;> simp [i2cProtoDec_eq _ h4 (show len < 256 by omega)] <;> omega
  have hfollow := wired_follows hp hw hrel
  have hinf : ∀ n, ∃ m, n ≤ m ∧ (stretch = true → (i2cProtoSi period stretch i m).sclI =
      ((i2cStream period stretch).wave (i2cProtoSi period stretch i) m).sclO) := by
    intro n
    obtain ⟨m, h1, h2⟩ := hfollow n
    refine ⟨m, h1, fun h => ?_⟩
    have := h2 h
    change _ = ((i2cInitiator period stretch).st (i2cStrCi period stretch (i2cProtoSi period stretch i)) m).sclO at this
    rw [← i2cStr_core] at this
    exact this
  have hprog : ((i2cProto period stretch).st i n).fsm = .addr ∨ ((i2cProto period stretch).st i n).fsm = .read ∨
      ((i2cProto period stretch).st i n).fsm = .write → False := by
    intro hf
    obtain ⟨m, h1, h2⟩ := str_progress period stretch (i2cProtoSi period stretch i) hp hst hinf n (by
      intro _ m hm hwr
      obtain ⟨m', g1, g2⟩ := hrdy m
      refine ⟨m', g1, ?_⟩
      rw [← i2cProto_str] at hwr
      have h3 := (hrel' m).2.1 hwr
      have h4 : ((i2cProto period stretch).st i m').fsm = .read ∨ ((i2cProto period stretch).st i m').fsm = .flush := by
        rwa [(hnr m' (by omega)).1, ← (hnr m hm).1]
      simp only [i2cProtoSi, i2cProtoStrIn, g2, Bool.and_true]
      rcases h4 with h4 | h4 <;> simp [h4]) (by
      simp only [i2cProtoSi, i2cProtoStrIn]
      rcases hf with h | h | h <;> simp [h])
    exact hstr m hf h1 h2
  have hphase : i2cProtoBytes period stretch i n = q → ∃ rd, protoPhase (i2cProtoBytes period stretch i n) = .header rd := by
    intro h; rw [h]; exact hc
  have htake : ∀ m, n ≤ m → (i m).valid = true → ((i2cProto period stretch).wave i m).ready = false := by
    intro m hm hv
    cases hrd : ((i2cProto period stretch).wave i m).ready
    · rfl
    · have h1 := (hnr (m + 1) (by omega)).2.2.trans (hnr m hm).2.2.symm
      rw [hacc] at h1
      have : (protoAcc period stretch ((i2cProto period stretch).st i m) (i m)) = [(i m).data] := by
        unfold protoAcc
        rw [Circuit.wave] at hrd
        rw [hv, hrd]
        rfl
      rw [this] at h1
      have := congrArg List.length h1
      simp at this
  have hwaits : ((i2cProto period stretch).st i n).fsm = .header ∨ ((i2cProto period stretch).st i n).fsm = .length →
      i2cProtoBytes period stretch i n = q := by
    intro hf
    apply Classical.byContradiction
    intro hne
    obtain ⟨m, h1, h2⟩ := hlive n hne
    have := htake m h1 h2
    rw [← (hnr m h1).1] at hf
    rw [Circuit.wave] at this
    generalize (i2cProto period stretch).st i m = s at *
    rcases hf with hf | hf <;> simp [i2cProto, hf] at this
  have hok : ((i2cProto period stretch).st i n).fsm = .ok ∨ ((i2cProto period stretch).st i n).fsm = .status → False := by
    intro hf
    obtain ⟨m, h1, h2⟩ := hrdy n
    have h3 := (hnr (m + 1) (by omega)).1.trans (hnr m h1).1.symm
    rw [← (hnr m h1).1] at hf
    rw [Circuit.st_succ] at h3
    generalize (i2cProto period stretch).st i m = s at *
    rcases hf with hf | hf <;> simp [i2cProto, i2cProtoFsm, hf, h2] at h3
  have hr0 := hrel' n
  refine ⟨n, ?_⟩
  cases hf : ((i2cProto period stretch).st i n).fsm
  case header => exact ⟨rfl, hwaits (.inl hf)⟩
  case length =>
    obtain ⟨_, _, a, b, c, dd, _, _, hm⟩ := hr0
    simp only [hf] at hm
    obtain ⟨rd, h⟩ := hphase (hwaits (.inr hf))
    rw [hm.2.2.2] at h
    cases h
  case addr => exact absurd (hprog (.inl hf)) id
  case read => exact absurd (hprog (.inr (.inl hf))) id
  case write => exact absurd (hprog (.inr (.inr hf))) id
  case ok => exact absurd (hok (.inl hf)) id
  case status => exact absurd (hok (.inr hf)) id
  case error =>
    have h2 := (hnr (n + 1) (by omega)).1
    have h3 := (hnr (n + 1) (by omega)).2.1
    rw [Circuit.st_succ] at h2 h3
    obtain ⟨_, _, a, b, c, dd, _, _, hm⟩ := hr0
    generalize (i2cProto period stretch).st i n = s at *
    simp only [hf] at hm
    obtain ⟨_, _, _, _, _, h5, _⟩ := hm
    by_cases h : 1 ≤ s.len
    · simp [i2cProto, i2cProtoFsm, hf, h, i2cProtoDec_eq _ h h5] at h3
      omega
    · simp [i2cProto, i2cProtoFsm, hf, h] at h2
  case flush =>
    have hfl : ∀ m, n ≤ m → ((i2cProto period stretch).st i m).fsm = .flush := fun m hm => (hnr m hm).1.trans hf
    have hwr : ∀ m, n ≤ m → ((i2cStream period stretch).st (i2cProtoSi period stretch i) m).fsm = .waitRead ∧
        ((i2cStream period stretch).st (i2cProtoSi period stretch i) m).lastR = true := by
      intro m hm
      obtain ⟨_, _, a, b, c, dd, _, _, hx⟩ := hrel' m
      simp only [hfl m hm] at hx
      obtain ⟨_, _, _, _, _, _, _, _, h1, h2⟩ := hx
      rw [← i2cProto_str]
      exact ⟨h1, h2⟩
    obtain ⟨m', h1, h2, h3⟩ := str_wait period stretch (i2cProtoSi period stretch i) hp hfollow .waitRead
      (by
        intro n hf
        unfold i2cStrCi
        generalize (i2cStream period stretch).st (i2cProtoSi period stretch i) n = s at *
        simp [i2cStrCoreIn, i2cStrobe, hf])
      (by
        intro n hf hb
        rw [Circuit.st_succ]
        generalize (i2cStream period stretch).st (i2cProtoSi period stretch i) n = s at *
        simp [i2cStream, i2cStrFsm, hf, hb]) n (hwr n (Nat.le_refl _)).1
    obtain ⟨k, k1, k2⟩ := hrdy m'
    have hbusy : ∀ d, ((i2cStream period stretch).st (i2cProtoSi period stretch i) (m' + d)).core.busy = false := by
      intro d
      induction d with
      | zero => exact h3
      | succ d ih =>
        have hb := (str_rel period stretch (i2cProtoSi period stretch i) hst (m' + d)).1
        have ha := (hwr (m' + d) (by omega)).1
        rw [← Nat.add_assoc, Circuit.st_succ]
        generalize (i2cStream period stretch).st (i2cProtoSi period stretch i) (m' + d) = s at *
        exact (i2cCore_quiet period stretch s.core (i2cStrCoreIn s (i2cProtoSi period stretch i (m' + d))) (i2cBusyInv_idle hb ih)
          (by simp [i2cStrCoreIn, i2cStrobe, ha])).2.1
    have hbk := hbusy (k - m')
    rw [show m' + (k - m') = k by omega] at hbk
    have hwk := hwr k (by omega)
    have hfk := hfl k (by omega)
    have hfk1 := hfl (k + 1) (by omega)
    rw [← i2cProto_str] at hbk hwk
    rw [Circuit.st_succ] at hfk1
    generalize (i2cProto period stretch).st i k = s at *
    simp [i2cProto, i2cProtoFsm, hfk, i2cStream, hwk.1, hwk.2, hbk, k2] at hfk1

include hp hw hh ht hD hpt hq hr in
/-- **C93.** All commands are carried out: from some time on all bytes are taken, the replies are those that the commands ask
for, with the answers of the device, and the device has been through exactly the transactions of the commands. -/
theorem C93_bridge_completes_partial (hrel : ∀ n, ∃ m, n ≤ m ∧ hold m = false) (hrdy : ∀ n, ∃ m, n ≤ m ∧ (i m).ready = true)
    (hlive : ∀ n, i2cProtoBytes period stretch i n ≠ q → ∃ m, n ≤ m ∧ (i m).valid = true) (hc : ProtoComplete q) :
    let S := q.foldl (bridgeByte D.bus) ⟨[], [], []⟩
    ∃ m, ∀ n, m ≤ n → i2cProtoBytes period stretch i n = q ∧
      (i2cProtoReplies period stretch i n).map Prod.snd = S.replies ∧
      (i2cBusOf D.target bidir period stretch (i2cStrCi period stretch (i2cProtoSi period stretch i)) hold (n + 1)).tgt.2 =
        (D.state S.log).1.log := by
  intro S
  have hr' := fun n => hr.prefix (hq n)
  have hst : i2cStrSinkStable period stretch (i2cProtoSi period stretch i) :=
    fun n => bridge_stable hp hw hD (n + 1) (fun k _ => hh k) (fun k _ => ht k) (hr' (n + 1)) (fun k _ => hpt k) n (by omega)
  have hfit := fun n => bridge_fits hp hw hD n (fun k _ => hh k) (fun k _ => ht k) (hr' n) (fun k _ => hpt k)
  have hrel' := fun n => bridge_rel hp hw hD n (fun k _ => hh k) (fun k _ => ht k) (hr' n) (fun k _ => hpt k)
  obtain ⟨m0, hf0, hq0⟩ := bridge_completes hp hw hh ht hD hpt hq hr hrel hrdy hlive hc
  have hstay : ∀ n, m0 ≤ n → ((i2cProto period stretch).st i n).fsm = .header ∧ i2cProtoBytes period stretch i n = q := by
    intro n hn
    obtain ⟨d, rfl⟩ : ∃ d, n = m0 + d := ⟨n - m0, by omega⟩
    clear hn
    induction d with
    | zero => exact ⟨hf0, hq0⟩
    | succ d ih =>
      have h1 := (hq (m0 + d + 1)).length_le
      have hacc : i2cProtoBytes period stretch i (m0 + d + 1) = i2cProtoBytes period stretch i (m0 + d) ++
        protoAcc period stretch ((i2cProto period stretch).st i (m0 + d)) (i (m0 + d)) := rfl
      rw [hacc, ih.2, List.length_append] at h1
      rw [← Nat.add_assoc, hacc, ih.2, Circuit.st_succ]
      have hf := ih.1
      generalize (i2cProto period stretch).st i (m0 + d) = s at *
      cases hv : (i (m0 + d)).valid
      · constructor
        · simp [i2cProto, i2cProtoFsm, hf, hv]
        · simp [protoAcc, hv]
      · simp [protoAcc, i2cProto, hf, hv] at h1
  have hnov : ∀ n, m0 ≤ n → (i2cProtoSi period stretch i n).valid = false := by
    intro n hn
    simp [i2cProtoSi, i2cProtoStrIn, (hstay n hn).1]
  obtain ⟨m, hm, hset⟩ := sys_settles hp hw hst hrel m0 (by
    intro n hn hwr
    rw [← i2cProto_str] at hwr
    have := (hrel' n).2.1 hwr
    rw [(hstay n hn).1] at this
    rcases this with h | h <;> cases h) hnov
  refine ⟨m, fun n hn => ⟨(hstay n (by omega)).2, ?_⟩⟩
  obtain ⟨hlog, _⟩ := sys_history hp hw hst hfit n (hnov n (by omega)) (hset n hn)
  rw [hlog]
  have hB := (sys_run hp hw hst hfit n).1
  have hRd := sys_reads hp hw hst hfit n
  rw [if_neg (by rcases hset n hn with h | h <;> simp [h]), List.append_nil] at hRd
  have hdat : i2cProtoData period stretch i n =
      (i2cStrDelivered period stretch (i2cProtoSi period stretch i) n).map (fun x => (x.last, x.payload)) :=
    (transferred_map (fun x : Beat (BitVec 8) => (x.last, x.payload)) _ _ _ n).symm
  rw [← hRd] at hdat
  obtain ⟨_, _, a, b, c, d, hseq, hdl, hmm⟩ := hrel' n
  simp only [(hstay n (by omega)).1] at hmm
  obtain ⟨h1, h2, h3, _⟩ := hmm
  rw [(hstay n (by omega)).2] at h1
  rw [h2] at hB hdat ⊢
  rw [h3] at hdl ⊢
  rw [hdl, List.drop_eq_nil_of_le (by omega), List.append_nil] at hdat
  obtain ⟨_, g2, _, _, g5, _⟩ := seq_bridge D hseq hB
  rw [← h1] at g2 g5
  exact ⟨(g5 hdat).symm, by rw [g2]⟩

end

/-! ### The whole system -/

/-- Inputs of `I2CProto` when the host sends from a list of bytes. -/
def i2cProtoFedIn (r : I2cProtoS × List (BitVec 8)) (rdy scl sda : Bool) : I2cProtoIn :=
  ⟨!r.2.isEmpty, r.2.headD 0, rdy, scl, sda⟩

/-- The circuit with its host. -/
def i2cProtoFed (period : Nat) (stretch : Bool) (q : List (BitVec 8)) :
    Circuit (I2cProtoS × List (BitVec 8)) (Bool × Bool × Bool) I2cProtoOut where
  reset := ((i2cProto period stretch).reset, q)
  out r x := (i2cProto period stretch).out r.1 (i2cProtoFedIn r x.1 x.2.1 x.2.2)
  next r x :=
    let y := i2cProtoFedIn r x.1 x.2.1 x.2.2
    ((i2cProto period stretch).next r.1 y,
      if y.valid && ((i2cProto period stretch).out r.1 y).ready then r.2.tail else r.2)

section
variable (D : I2cDev) (bidir : Bool) (period : Nat) (stretch : Bool) (q : List (BitVec 8)) (rdy hold : Nat → Bool)

/-- The inputs of `i2cProtoFed` on the wires with a device. -/
def i2cHostWire : Nat → Bool × Bool × Bool :=
  closeIn D.target bidir (i2cProtoFed period stretch q) (fun r => r.1.str.core) (fun n _ scl sda => (rdy n, scl, sda)) hold

/-- The bytes not sent yet. -/
def i2cHostQueue (n : Nat) : List (BitVec 8) :=
  ((i2cProtoFed period stretch q).st (i2cHostWire D bidir period stretch q rdy hold) n).2

/-- The inputs of `I2CProto` in the whole system: host, wires, device. -/
def i2cHost (n : Nat) : I2cProtoIn :=
  let x := i2cHostWire D bidir period stretch q rdy hold n
  i2cProtoFedIn ((i2cProtoFed period stretch q).st (i2cHostWire D bidir period stretch q rdy hold) n) x.1 x.2.1 x.2.2

theorem i2cHost_st (n : Nat) : (i2cProto period stretch).st (i2cHost D bidir period stretch q rdy hold) n =
    ((i2cProtoFed period stretch q).st (i2cHostWire D bidir period stretch q rdy hold) n).1 := by
  induction n with
  | zero => rfl
  | succ n ih => rw [Circuit.st_succ, ih]; rfl

theorem i2cHost_queue_succ (n : Nat) : i2cHostQueue D bidir period stretch q rdy hold (n + 1) =
    if (i2cHost D bidir period stretch q rdy hold n).valid &&
      ((i2cProto period stretch).wave (i2cHost D bidir period stretch q rdy hold) n).ready then
      (i2cHostQueue D bidir period stretch q rdy hold n).tail else i2cHostQueue D bidir period stretch q rdy hold n := by
  have : (i2cProto period stretch).wave (i2cHost D bidir period stretch q rdy hold) n =
      (i2cProto period stretch).out ((i2cProtoFed period stretch q).st (i2cHostWire D bidir period stretch q rdy hold) n).1
        (i2cHost D bidir period stretch q rdy hold n) := by
    rw [Circuit.wave, i2cHost_st]
  rw [this]
  rfl

theorem i2cHost_in (n : Nat) :
    (i2cHost D bidir period stretch q rdy hold n).valid = (!(i2cHostQueue D bidir period stretch q rdy hold n).isEmpty) ∧
    (i2cHost D bidir period stretch q rdy hold n).data = (i2cHostQueue D bidir period stretch q rdy hold n).headD 0 ∧
    (i2cHost D bidir period stretch q rdy hold n).ready = rdy n := ⟨rfl, rfl, rfl⟩

theorem i2cHost_bytes (n : Nat) :
    i2cProtoBytes period stretch (i2cHost D bidir period stretch q rdy hold) n ++
      i2cHostQueue D bidir period stretch q rdy hold n = q := by
  induction n with
  | zero => rfl
  | succ n ih =>
    obtain ⟨a1, a2, _⟩ := i2cHost_in D bidir period stretch q rdy hold n
    have e : i2cProtoBytes period stretch (i2cHost D bidir period stretch q rdy hold) (n + 1) =
      i2cProtoBytes period stretch (i2cHost D bidir period stretch q rdy hold) n ++
      (if (i2cHost D bidir period stretch q rdy hold n).valid &&
          ((i2cProto period stretch).wave (i2cHost D bidir period stretch q rdy hold) n).ready then
        [(i2cHost D bidir period stretch q rdy hold n).data] else []) := rfl
    rw [e, i2cHost_queue_succ, a1, a2]
    generalize i2cProtoBytes period stretch (i2cHost D bidir period stretch q rdy hold) n = B at *
    generalize i2cHostQueue D bidir period stretch q rdy hold n = Q at *
    generalize (i2cProto period stretch).wave (i2cHost D bidir period stretch q rdy hold) n = y at *
    rw [← ih]
    cases Q with
    | nil => simp
    | cons b Q => cases y.ready <;> simp

/-- C93: the hypotheses on wires and host are met by the whole system. -/
theorem C93_host_exists (hh : ∀ n, hold n = true → bidir = true ∧ stretch = true) (hc : ProtoComplete q) :
    let i := i2cHost D bidir period stretch q rdy hold
    I2cWired D.target bidir period stretch (i2cStrCi period stretch (i2cProtoSi period stretch i)) hold ∧
      i2cHostHolds period stretch i ∧ i2cProtoInTime period stretch i ∧ (∀ n, i2cProtoBytes period stretch i n <+: q) ∧
      (∀ n, (i n).ready = rdy n) ∧
      ∀ n, i2cProtoBytes period stretch i n ≠ q → ∃ m, n ≤ m ∧ (i m).valid = true := by
  intro i
  have hcc : ∀ n, (i2cInitiator period stretch).st (i2cStrCi period stretch (i2cProtoSi period stretch i)) n =
      ((i2cProtoFed period stretch q).st (i2cHostWire D bidir period stretch q rdy hold) n).1.str.core := by
    intro n
    rw [← i2cStr_core, ← i2cProto_str, i2cHost_st]
  have hb : ∀ n, i2cBusOf D.target bidir period stretch (i2cStrCi period stretch (i2cProtoSi period stretch i)) hold n =
      (closeRun D.target bidir (i2cProtoFed period stretch q) (fun r : I2cProtoS × List (BitVec 8) => r.1.str.core)
        (fun n _ scl sda => (rdy n, scl, sda)) hold n).2 := by
    refine close_bus D.target bidir _ (fun r : I2cProtoS × List (BitVec 8) => r.1.str.core) _ hold _ _ (fun n => ?_)
    have := hcc n
    constructor
    · change ((i2cInitiator period stretch).st (i2cStrCi period stretch (i2cProtoSi period stretch i)) n).sclO = _
      rw [this]; rfl
    · change ((i2cInitiator period stretch).st (i2cStrCi period stretch (i2cProtoSi period stretch i)) n).sdaO = _
      rw [this]; rfl
  have hs := fun n => close_st D.target bidir (i2cProtoFed period stretch q)
    (fun r : I2cProtoS × List (BitVec 8) => r.1.str.core) (fun n _ scl sda => (rdy n, scl, sda)) hold n
  have hqb := i2cHost_bytes D bidir period stretch q rdy hold
  have hvalid : ∀ n, i2cProtoBytes period stretch i n ≠ q → (i n).valid = true := by
    intro n hn
    rw [(i2cHost_in D bidir period stretch q rdy hold n).1]
    cases hQ : i2cHostQueue D bidir period stretch q rdy hold n
    · have := hqb n
      rw [hQ, List.append_nil] at this
      exact absurd this hn
    · rfl
  refine ⟨⟨fun n => ?_, fun n => ?_, hh⟩, fun n hv hn => ?_, fun n hn _ => ?_, fun n => ⟨_, hqb n⟩, fun _ => rfl,
    fun n hn => ⟨n, Nat.le_refl _, hvalid n hn⟩⟩
  · rw [hb n]
    simp only [i2cScl, i2cSda, Circuit.wave]
    rw [hcc n]
    change (i2cHostWire D bidir period stretch q rdy hold n).2.1 = _
    unfold i2cHostWire
    rw [hs n]
    rfl
  · rw [hb n]
    simp only [i2cScl, i2cSda, Circuit.wave]
    rw [hcc n]
    change (i2cHostWire D bidir period stretch q rdy hold n).2.2 = _
    unfold i2cHostWire
    rw [hs n]
    rfl
  · rw [(i2cHost_in D bidir period stretch q rdy hold n).2.1, (i2cHost_in D bidir period stretch q rdy hold (n + 1)).2.1,
      i2cHost_queue_succ]
    change ((if (i n).valid && ((i2cProto period stretch).wave i n).ready then _ else _ : List _)).headD 0 = _
    rw [hn, Bool.and_false]
    rfl
  · apply hvalid
    intro h
    rw [h] at hn
    obtain ⟨rem, hn⟩ := hn
    obtain ⟨rd, hc⟩ := hc
    rw [hc] at hn
    cases hn

/-- **C93.** The whole system, host, `I2CProto` with initiator and bus driver, wires and a device, carries out any list of
complete commands: from some time on the host has got the replies that the commands ask for, with the answers of the device, and
the device has been through exactly the transactions of the commands. Missing: reads refused by the device and reads of zero bytes
that are not, for which `I2CProto` is wrong (C36), and devices that send when not addressed for a read. -/
theorem C93_system_partial (hp : 4 ≤ period) (hh : ∀ n, hold n = true → bidir = true ∧ stretch = true)
    (hrel : ∀ n, ∃ m, n ≤ m ∧ hold m = false) (hrdy : ∀ n, ∃ m, n ≤ m ∧ rdy m = true) (hc : ProtoComplete q)
    (hD : D.Polite) (hr : ReadsFit D.bus q) :
    let i := i2cHost D bidir period stretch q rdy hold
    let S := q.foldl (bridgeByte D.bus) ⟨[], [], []⟩
    ∃ m, ∀ n, m ≤ n → (i2cProtoReplies period stretch i n).map Prod.snd = S.replies ∧
      (i2cBusOf D.target bidir period stretch (i2cStrCi period stretch (i2cProtoSi period stretch i)) hold (n + 1)).tgt.2 =
        (D.state S.log).1.log := by
  intro i S
  obtain ⟨hw, hho, ht, hq, hrd, hlive⟩ := C93_host_exists D bidir period stretch q rdy hold hh hc
  obtain ⟨m, hm⟩ := C93_bridge_completes_partial hp hw hho ht hD (fun n _ => hr.free (hq n) _) hq hr.zero hrel (by simpa only [hrd] using hrdy) hlive hc
  exact ⟨m, fun n hn => (hm n hn).2⟩

end

/-- `ReadsFit`, byte by byte. -/
def readsFitB (d : BusDevices) (q : List (BitVec 8)) : Bool :=
  (List.range q.length).all fun k =>
    match q.drop k with
    | h :: l :: _ =>
      let s := (q.take k).foldl (bridgeByte d) ⟨[], [], []⟩
      !s.pending.isEmpty || !h.getLsbD 0 || ((d s.log (.read (h.toNat / 2) l.toNat)).isNone == (l == 0))
    | _ => true

theorem readsFit_of (d : BusDevices) (q : List (BitVec 8)) (h : readsFitB d q = true) : ReadsFit d q := by
  rintro p a l ⟨t, rfl⟩ h1 h2
  unfold readsFitB at h
  rw [List.all_eq_true] at h
  have h := h p.length (by simp)
  rw [show p ++ [a, l] ++ t = p ++ (a :: l :: t) by simp, List.drop_left, List.take_left] at h
  simp only [h1, h2, List.isEmpty_nil, Bool.not_true, Bool.false_or, beq_iff_eq] at h
  rw [← Option.isNone_iff_eq_none, h]
  simp

/-- A device with addresses 0xA0 and 0xA1, which sends 0x5C, 0x5D, ... when it is read. -/
def politeDev : I2cDev where
  ack log d := match log.reverse with
    | .start :: _ => d == 0xA0 || d == 0xA1
    | _ => d != 0x55
  tx log := match log.reverse with
    | .wrote d true :: .start :: _ => if d == 0xA1 then some 0x5C else none
    | .sent b true :: _ => some (b + 1)
    | _ => none

theorem politeDev_polite : politeDev.Polite := by
  intro log b h
  have hl := List.reverse_reverse log
  simp only [politeDev] at h
  split at h
  · rename_i d l e
    rw [e] at hl
    by_cases hd : d = 0xA1
    · subst hd
      exact .inl ⟨l.reverse, 0xA1, by rw [← hl]; simp, by decide⟩
    · simp at h; exact absurd h.1 hd
  · rename_i b' l e
    rw [e] at hl
    exact .inr ⟨l.reverse, b', by rw [← hl]; simp⟩
  · cases h

/-- Two bytes written, a byte written to a chip that is not there, a write with a byte that is refused, a probe, and two
bytes read. -/
def bridgeSample : List (BitVec 8) := [0xA0, 2, 0x11, 0x22, 0x42, 1, 0x33, 0xA0, 2, 0x55, 0x66, 0xA0, 0, 0xA1, 2]

theorem bridgeSample_complete : ProtoComplete bridgeSample := ⟨_, rfl⟩

example : ReadsFit politeDev.bus bridgeSample := readsFit_of _ _ (by decide +kernel)

example : bridgeSample.foldl (bridgeByte politeDev.bus) ⟨[], [], []⟩ =
    ⟨[], [0, 1, 1, 0, 0, 0x5C, 0x5D], [.write 0x50 [0x11, 0x22], .write 0x21 [0x33], .write 0x50 [0x55, 0x66], .write 0x50 [],
      .read 0x50 2]⟩ := by decide +kernel

example : (politeDev.state (bridgeSample.foldl (bridgeByte politeDev.bus) ⟨[], [], []⟩).log).1.log =
    [.start, .wrote 0xA0 true, .wrote 0x11 true, .wrote 0x22 true, .stop, .start, .wrote 0x42 false, .stop,
      .start, .wrote 0xA0 true, .wrote 0x55 false, .stop, .start, .wrote 0xA0 true, .stop,
      .start, .wrote 0xA1 true, .sent 0x5C true, .sent 0x5D false, .stop] := by decide +kernel

/-- The theorem applied: the clock is held every now and then, and the host is ready for replies every third cycle. -/
example : ∃ m, ∀ n, m ≤ n → (i2cProtoReplies 8 true
    (i2cHost politeDev true 8 true bridgeSample (fun n => n % 3 == 0) (fun n => n % 50 < 20)) n).map Prod.snd =
      [0, 1, 1, 0, 0, 0x5C, 0x5D] := by
  obtain ⟨m, hm⟩ := C93_system_partial politeDev true 8 true bridgeSample (fun n => n % 3 == 0) (fun n => n % 50 < 20)
    (by omega) (fun _ _ => ⟨rfl, rfl⟩) (fun n => ⟨50 * n + 20, by omega, by simp⟩) (fun n => ⟨3 * n, by omega, by simp⟩)
    bridgeSample_complete politeDev_polite (readsFit_of _ _ (by decide +kernel))
  refine ⟨m, fun n hn => ?_⟩
  rw [(hm n hn).1]
  decide +kernel

end Lambdalib
