import Verif.Model.Bfm
import Verif.Spec.Bfm
import Verif.Lemmas.List
import Verif.Lemmas.Run

/-! The test helpers of an endpoint (C95, C96). -/

namespace Lambdalib

/-! ### Sending -/

/-- Beats taken from `bfm_send`. -/
def bfmSent (pkts : List (List (String × Nat))) (timeout : Nat) (rdy : Nat → Bool) (n : Nat) : List (Beat (String → Nat)) :=
  transferred (fun k => ((bfmSend pkts timeout).wave rdy k).1) rdy (fun k => ((bfmSend pkts timeout).wave rdy k).2) n

theorem bfmAssign_find (pkt : List (String × Nat)) (f : String → Nat) (name : String) :
    bfmAssign f pkt name = ((pkt.reverse.find? (·.1 == name)).map Prod.snd).getD (f name) := by
  unfold bfmAssign
  induction pkt using snocInduction with
  | nil => rfl
  | snoc l p ih =>
    rw [List.foldl_append, List.reverse_append]
    simp only [List.foldl_cons, List.foldl_nil, List.reverse_singleton, List.singleton_append, List.find?_cons]
    by_cases h : p.1 = name
    · simp [h]
    · have h' : ¬ name = p.1 := fun e => h e.symm
      rw [show (p.1 == name) = false by simpa using h]
      simp only [h', if_false]
      exact ih

theorem bfmField_eq (pkts : List (List (String × Nat))) (k : Nat) (h : k < pkts.length) :
    bfmField pkts k = bfmAssign (if k = 0 then fun _ => 0 else bfmField pkts (k - 1)) (pkts.getD k []) := by
  funext name
  rw [bfmAssign_find]
  have hd : pkts.getD k [] = pkts[k] := by simp [List.getD_eq_getElem?_getD, h]
  rw [hd]
  unfold bfmField
  rw [List.take_succ_eq_append_getElem h, List.flatten_append, List.reverse_append, List.find?_append]
  simp only [List.flatten_cons, List.flatten_nil, List.append_nil]
  cases hf : pkts[k].reverse.find? (·.1 == name) with
  | some x => simp
  | none =>
    cases k with
    | zero => simp
    | succ k => simp

theorem bfmSend_inv (pkts : List (List (String × Nat))) (timeout : Nat) (rdy : Nat → Bool) (n : Nat) :
    let s := (bfmSend pkts timeout).st rdy n
    s.i ≤ pkts.length ∧ s.fields = (if s.i = 0 then fun _ => 0 else bfmField pkts (s.i - 1)) ∧
    bfmSent pkts timeout rdy n = (bfmBeats pkts).take s.i := by
  induction n with
  | zero => exact ⟨Nat.zero_le _, rfl, rfl⟩
  | succ n ih =>
    have e : bfmSent pkts timeout rdy (n + 1) = bfmSent pkts timeout rdy n ++
      (if ((bfmSend pkts timeout).out ((bfmSend pkts timeout).st rdy n) (rdy n)).1 && rdy n then
        [((bfmSend pkts timeout).out ((bfmSend pkts timeout).st rdy n) (rdy n)).2] else []) := rfl
    rw [e, Circuit.st_succ]
    obtain ⟨h1, h2, h3⟩ := ih
    rw [h3]
    clear e h3
    generalize (bfmSend pkts timeout).st rdy n = s at *
    obtain ⟨i, el, fields, raised⟩ := s
    simp only at h1 h2
    cases raised
    case true => simp [bfmSend, h1, h2]
    case false =>
      rcases Nat.lt_or_ge i pkts.length with hi | hi
      · cases hr : rdy n
        · by_cases ht : el + 1 ≥ timeout <;> simp [bfmSend, h1, h2, ht, show ¬ pkts.length ≤ i by omega]
        · have hb : bfmSendFields pkts ⟨i, el, fields, false⟩ = bfmField pkts i := by
            rw [bfmField_eq pkts i hi, ← h2]; rfl
          have hl : i < (bfmBeats pkts).length := by simp [bfmBeats, hi]
          simp only [bfmSend, hb, show ¬ pkts.length ≤ i by omega, hi]
          refine ⟨?_, ?_, ?_⟩
          · simp; omega
          · simp
          · simp only [Bool.false_or, decide_false, Bool.false_eq_true, if_false, if_true, Bool.not_false, decide_true,
              Bool.and_self]
            rw [List.take_succ_eq_append_getElem hl]
            simp only [bfmBeats, List.getElem_map, List.getElem_range]
            have : (i == pkts.length - 1) = (i + 1 == pkts.length) := by
              rw [Bool.eq_iff_iff]; simp; omega
            rw [this]
      · have : i = pkts.length := by omega
        subst this
        simp [bfmSend, h2]

/-- **C95.** The beats taken are the beginning of those to send: one per packet, in order, with `first` and `last` and the fields
as assigned. -/
theorem C95_send_order (pkts : List (List (String × Nat))) (timeout : Nat) (rdy : Nat → Bool) (n : Nat) :
    bfmSent pkts timeout rdy n <+: bfmBeats pkts := by
  rw [(bfmSend_inv pkts timeout rdy n).2.2]
  exact List.take_prefix ..

/-- Cycles that `bfm_send` waits. -/
def bfmSendWait (timeout : Nat) : Nat := max (timeout - 1) 1

theorem bfmSend_wait (pkts : List (List (String × Nat))) (timeout : Nat) (rdy : Nat → Bool) (n : Nat) :
    let s := (bfmSend pkts timeout).st rdy n
    (s.raised = true → ∃ m, m ≤ n ∧ idleWindow rdy (bfmSendWait timeout) m ∧
      (bfmSent pkts timeout rdy (m - bfmSendWait timeout)).length < pkts.length) ∧
    (s.raised = false → s.i < pkts.length → ∃ c, s.elapsed = c + 1 ∧ idleWindow rdy c n ∧
      ((bfmSend pkts timeout).st rdy (n - c)).i = s.i ∧ (c = 0 ∨ c + 1 < timeout)) := by
  induction n with
  | zero =>
    refine ⟨fun h => (nomatch h), fun _ _ => ⟨0, rfl, ⟨Nat.le_refl _, fun k _ hk => absurd hk (by omega)⟩, rfl, .inl rfl⟩⟩
  | succ n ih =>
    obtain ⟨i1, i2⟩ := ih
    have hl : ∀ m, (bfmSent pkts timeout rdy m).length = min ((bfmSend pkts timeout).st rdy m).i pkts.length := by
      intro m
      rw [(bfmSend_inv pkts timeout rdy m).2.2]
      simp [bfmBeats]
    cases hr : ((bfmSend pkts timeout).st rdy n).raised
    case true =>
      have hst : (bfmSend pkts timeout).st rdy (n + 1) = (bfmSend pkts timeout).st rdy n := by
        rw [Circuit.st_succ]
        generalize (bfmSend pkts timeout).st rdy n = s at *
        simp [bfmSend, hr]
      refine ⟨fun _ => ?_, fun h => ?_⟩
      · obtain ⟨m, h1, h2⟩ := i1 hr
        exact ⟨m, by omega, h2⟩
      · rw [hst, hr] at h; cases h
    case false =>
      by_cases hi : pkts.length ≤ ((bfmSend pkts timeout).st rdy n).i
      · have hst : (bfmSend pkts timeout).st rdy (n + 1) = (bfmSend pkts timeout).st rdy n := by
          rw [Circuit.st_succ]
          generalize (bfmSend pkts timeout).st rdy n = s at *
          simp [bfmSend, hi]
        rw [hst]
        exact ⟨fun h => (by rw [hr] at h; cases h), fun _ h => by omega⟩
      · obtain ⟨c, c1, ⟨c2, c3⟩, c4, c5⟩ := i2 hr (by omega)
        cases hrd : rdy n
        · have hst : (bfmSend pkts timeout).st rdy (n + 1) = { (bfmSend pkts timeout).st rdy n with
              elapsed := c + 2, raised := decide (c + 2 ≥ timeout) } := by
            rw [Circuit.st_succ]
            generalize (bfmSend pkts timeout).st rdy n = s at *
            obtain ⟨i, el, fields, raised⟩ := s
            simp only at hr c1 hi
            subst hr c1
            by_cases ht : c + 2 ≥ timeout <;> simp [bfmSend, hi, hrd, ht]
          have hwin : ∀ k, n + 1 - (c + 1) ≤ k → k < n + 1 → rdy k = false := by
            intro k k1 k2
            rcases Nat.lt_or_ge k n with h | h
            · exact c3 k (by omega) h
            · rw [show k = n by omega, hrd]
          rw [hst]
          refine ⟨fun h => ?_, fun h _ => ?_⟩
          · simp only [decide_eq_true_eq] at h
            have hw : bfmSendWait timeout = c + 1 := by unfold bfmSendWait; omega
            refine ⟨n + 1, Nat.le_refl _, ⟨by omega, by rw [hw]; exact hwin⟩, ?_⟩
            rw [hw, hl, show n + 1 - (c + 1) = n - c by omega, c4]
            omega
          · simp only [decide_eq_false_iff_not] at h
            refine ⟨c + 1, rfl, ⟨by omega, hwin⟩, ?_, .inr (by omega)⟩
            rw [show n + 1 - (c + 1) = n - c by omega, c4]
        · have hst : (bfmSend pkts timeout).st rdy (n + 1) = ⟨((bfmSend pkts timeout).st rdy n).i + 1, 1,
              bfmSendFields pkts ((bfmSend pkts timeout).st rdy n), false⟩ := by
            rw [Circuit.st_succ]
            generalize (bfmSend pkts timeout).st rdy n = s at *
            simp [bfmSend, hi, hr, hrd]
          refine ⟨fun h => ?_, fun _ _ => ⟨0, ?_, ⟨Nat.zero_le _, fun k _ hk => absurd hk (by omega)⟩, rfl, .inl rfl⟩⟩
          · rw [hst] at h; cases h
          · rw [hst]

theorem bfmSend_raised_stays (pkts : List (List (String × Nat))) (timeout : Nat) (rdy : Nat → Bool) (n d : Nat)
    (h : ((bfmSend pkts timeout).st rdy n).raised = true) : ((bfmSend pkts timeout).st rdy (n + d)).raised = true := by
  induction d with
  | zero => exact h
  | succ d ih =>
    rw [← Nat.add_assoc, Circuit.st_succ]
    generalize (bfmSend pkts timeout).st rdy (n + d) = s at *
    simp [bfmSend, ih]

/-- A window without `ready` leaves the packet where it is, or raises the exception. -/
theorem bfmSend_window (pkts : List (List (String × Nat))) (timeout : Nat) (rdy : Nat → Bool) (n d : Nat)
    (h : ∀ k, n ≤ k → k < n + d → rdy k = false) (hi : ((bfmSend pkts timeout).st rdy n).i < pkts.length)
    (hr : ((bfmSend pkts timeout).st rdy (n + d)).raised = false) :
    ((bfmSend pkts timeout).st rdy (n + d)).i = ((bfmSend pkts timeout).st rdy n).i ∧
    ((bfmSend pkts timeout).st rdy (n + d)).elapsed = ((bfmSend pkts timeout).st rdy n).elapsed + d ∧
    (d = 0 ∨ ((bfmSend pkts timeout).st rdy (n + d)).elapsed < timeout) := by
  induction d with
  | zero => exact ⟨rfl, rfl, .inl rfl⟩
  | succ d ih =>
    have hr' : ((bfmSend pkts timeout).st rdy (n + d)).raised = false := by
      cases hx : ((bfmSend pkts timeout).st rdy (n + d)).raised
      · rfl
      · have := bfmSend_raised_stays pkts timeout rdy (n + d) 1 hx
        rw [Nat.add_assoc, hr] at this
        cases this
    obtain ⟨i1, i2, _⟩ := ih (fun k h1 h2 => h k h1 (by omega)) hr'
    have hrd := h (n + d) (by omega) (by omega)
    rw [← Nat.add_assoc, Circuit.st_succ] at hr ⊢
    rw [← i1] at hi
    generalize (bfmSend pkts timeout).st rdy (n + d) = s at *
    have hn : (bfmSend pkts timeout).next s (rdy (n + d)) =
      (if s.elapsed + 1 ≥ timeout then { s with elapsed := s.elapsed + 1, raised := true }
        else { s with elapsed := s.elapsed + 1 }) := by
      simp [bfmSend, hr', hrd, show ¬ pkts.length ≤ s.i by omega]
    rw [hn] at hr ⊢
    split at hr
    · cases hr
    · rename_i ht
      rw [if_neg ht]
      exact ⟨i1, by simp only; omega, .inr (by simp only; omega)⟩

/-- **C95.** The exception is raised exactly if, with a packet left to send, `ready` is low for `timeout - 1` cycles (at least
one). -/
theorem C95_send_timeout (pkts : List (List (String × Nat))) (timeout : Nat) (rdy : Nat → Bool) (n : Nat) :
    ((bfmSend pkts timeout).st rdy n).raised = true ↔ ∃ m, m ≤ n ∧ idleWindow rdy (max (timeout - 1) 1) m ∧
      (bfmSent pkts timeout rdy (m - max (timeout - 1) 1)).length < pkts.length := by
  constructor
  · exact (bfmSend_wait pkts timeout rdy n).1
  · rintro ⟨m, h1, ⟨h2, h3⟩, h4⟩
    suffices h : ((bfmSend pkts timeout).st rdy m).raised = true by
      have := bfmSend_raised_stays pkts timeout rdy m (n - m) h
      rwa [show m + (n - m) = n by omega] at this
    cases hr : ((bfmSend pkts timeout).st rdy m).raised
    · rw [(bfmSend_inv pkts timeout rdy _).2.2] at h4
      have hi : ((bfmSend pkts timeout).st rdy (m - max (timeout - 1) 1)).i < pkts.length := by
        simp [bfmBeats] at h4
        omega
      have hm : m - max (timeout - 1) 1 + max (timeout - 1) 1 = m := by omega
      have := bfmSend_window pkts timeout rdy (m - max (timeout - 1) 1) (max (timeout - 1) 1)
        (fun k k1 k2 => h3 k k1 (by omega)) hi (by rw [hm]; exact hr)
      rw [hm] at this
      obtain ⟨_, t2, t3⟩ := this
      have he : 1 ≤ ((bfmSend pkts timeout).st rdy (m - max (timeout - 1) 1)).elapsed := by
        generalize m - max (timeout - 1) 1 = j
        refine (bfmSend pkts timeout).st_invariant (P := fun s => 1 ≤ s.elapsed) (Nat.le_refl _) ?_ rdy j
        intro s x hs
        simp only [bfmSend]
        split
        · exact hs
        · split
          · exact Nat.le_refl _
          · split <;> exact Nat.le_succ_of_le hs
      omega
    · rfl

/-- **C95.** If `ready` is high at least once in any `timeout - 1` cycles, all packets are sent, within that many cycles each, and
the exception is not raised. -/
theorem C95_send_all (pkts : List (List (String × Nat))) (timeout : Nat) (rdy : Nat → Bool)
    (h : ∀ n, ∃ k, n ≤ k ∧ k < n + max (timeout - 1) 1 ∧ rdy k = true) (n : Nat) (hn : pkts.length * max (timeout - 1) 1 ≤ n) :
    bfmSent pkts timeout rdy n = bfmBeats pkts ∧ ((bfmSend pkts timeout).st rdy n).raised = false := by
  have hnr : ∀ n, ((bfmSend pkts timeout).st rdy n).raised = false := by
    intro n
    cases hr : ((bfmSend pkts timeout).st rdy n).raised
    · rfl
    · obtain ⟨m, _, ⟨h2, h3⟩, _⟩ := (C95_send_timeout pkts timeout rdy n).1 hr
      obtain ⟨k, k1, k2, k3⟩ := h (m - max (timeout - 1) 1)
      rw [h3 k k1 (by omega)] at k3
      cases k3
  refine ⟨?_, hnr n⟩
  have mono : ∀ n d, ((bfmSend pkts timeout).st rdy n).i ≤ ((bfmSend pkts timeout).st rdy (n + d)).i := by
    intro n d
    induction d with
    | zero => exact Nat.le_refl _
    | succ d ih =>
      refine Nat.le_trans ih ?_
      rw [← Nat.add_assoc, Circuit.st_succ]
      generalize (bfmSend pkts timeout).st rdy (n + d) = s
      simp only [bfmSend]
      split
      · exact Nat.le_refl _
      · split
        · exact Nat.le_succ _
        · split <;> exact Nat.le_refl _
  have prog : ∀ j, min j pkts.length ≤ ((bfmSend pkts timeout).st rdy (j * max (timeout - 1) 1)).i := by
    intro j
    induction j with
    | zero => omega
    | succ j ih =>
      obtain ⟨k, k1, k2, k3⟩ := h (j * max (timeout - 1) 1)
      have m1 := mono (j * max (timeout - 1) 1) (k - j * max (timeout - 1) 1)
      rw [show j * max (timeout - 1) 1 + (k - j * max (timeout - 1) 1) = k by omega] at m1
      have m2 := mono (k + 1) ((j + 1) * max (timeout - 1) 1 - (k + 1))
      rw [show k + 1 + ((j + 1) * max (timeout - 1) 1 - (k + 1)) = (j + 1) * max (timeout - 1) 1 by
        rw [Nat.add_mul]; omega] at m2
      have hs : min (((bfmSend pkts timeout).st rdy k).i + 1) pkts.length ≤ ((bfmSend pkts timeout).st rdy (k + 1)).i := by
        have hrk := hnr k
        rw [Circuit.st_succ]
        generalize (bfmSend pkts timeout).st rdy k = s at *
        by_cases hi : pkts.length ≤ s.i
        · simp [bfmSend, hi]
          omega
        · simp [bfmSend, hi, hrk, k3]
          omega
      omega
  have hp := prog pkts.length
  have hm := mono (pkts.length * max (timeout - 1) 1) (n - pkts.length * max (timeout - 1) 1)
  rw [show pkts.length * max (timeout - 1) 1 + (n - pkts.length * max (timeout - 1) 1) = n by omega] at hm
  rw [(bfmSend_inv pkts timeout rdy n).2.2, List.take_of_length_le]
  simp [bfmBeats]
  omega

/-- Two packets, the second without `id`, `ready` every third cycle. -/
example : (bfmSent [[("data", 5), ("id", 1)], [("data", 6)]] 100 (fun n => n % 3 == 2) 10).map
    (fun b => (b.first, b.last, b.payload "data", b.payload "id")) = [(true, false, 5, 1), (false, true, 6, 1)] := by
  decide +kernel

example : ∀ n, ∃ k, n ≤ k ∧ k < n + max (100 - 1) 1 ∧ (k % 3 == 2) = true := by
  intro n
  exact ⟨n + (2 - n % 3), by omega, by omega, by simp; omega⟩

example : ((bfmSend [[("data", 5)]] 4).st (fun _ => false) 3).raised = true ∧
    ((bfmSend [[("data", 5)]] 4).st (fun n => n == 2) 3).raised = false := by decide +kernel

/-! ### Reading -/

section
variable {α : Type}

/-- Payloads of the beats that the caller of `bfm_read` takes. -/
def bfmTaken (count timeout : Nat) (src : Nat → Bool × α) (n : Nat) : List α :=
  transferred (fun k => (src k).1) (fun k => (bfmRead count timeout).wave src k) (fun k => (src k).2) n

/-- **C96.** What the calls return are the payloads of the beats taken, in order, one per call, and no further beat is taken. -/
theorem C96_read_order (count timeout : Nat) (src : Nat → Bool × α) (n : Nat) :
    ((bfmRead count timeout).st src n).got = bfmTaken count timeout src n ∧ (bfmTaken count timeout src n).length ≤ count := by
  suffices h : ((bfmRead count timeout).st src n).got = bfmTaken count timeout src n ∧
      ((bfmRead count timeout).st src n).got.length ≤ count by
    exact ⟨h.1, by rw [← h.1]; exact h.2⟩
  induction n with
  | zero => exact ⟨rfl, Nat.zero_le _⟩
  | succ n ih =>
    have e : bfmTaken count timeout src (n + 1) = bfmTaken count timeout src n ++
      (if (src n).1 && (bfmRead count timeout).out ((bfmRead count timeout).st src n) (src n) then [(src n).2] else []) := rfl
    rw [e, ← ih.1, Circuit.st_succ]
    have hl := ih.2
    clear e ih
    generalize (bfmRead count timeout).st src n = s at *
    obtain ⟨got, el, raised⟩ := s
    simp only at hl
    rcases Nat.lt_or_ge got.length count with h | h
    · cases raised <;> cases hv : (src n).1 <;> by_cases ht : el + 1 ≥ timeout <;>
        simp [bfmRead, hv, ht, h, show ¬ count ≤ got.length by omega] <;> omega
    · simp [bfmRead, h, show ¬ got.length < count by omega, hl]

theorem bfmRead_raised_stays (count timeout : Nat) (src : Nat → Bool × α) (n d : Nat)
    (h : ((bfmRead count timeout).st src n).raised = true) : ((bfmRead count timeout).st src (n + d)).raised = true := by
  induction d with
  | zero => exact h
  | succ d ih =>
    rw [← Nat.add_assoc, Circuit.st_succ]
    generalize (bfmRead count timeout).st src (n + d) = s at *
    simp [bfmRead, ih]

theorem bfmRead_wait (count timeout : Nat) (src : Nat → Bool × α) (n : Nat) :
    let s := (bfmRead count timeout).st src n
    (s.raised = true → ∃ m, m ≤ n ∧ idleWindow (fun k => (src k).1) (max timeout 1) m ∧
      ((bfmRead count timeout).st src (m - max timeout 1)).got.length < count) ∧
    (s.raised = false → s.got.length < count → ∃ c, s.elapsed = c ∧ idleWindow (fun k => (src k).1) c n ∧
      ((bfmRead count timeout).st src (n - c)).got = s.got ∧ (c = 0 ∨ c < timeout)) := by
  induction n with
  | zero =>
    refine ⟨fun h => (nomatch h), fun _ _ => ⟨0, rfl, ⟨Nat.le_refl _, fun k _ hk => absurd hk (by omega)⟩, rfl, .inl rfl⟩⟩
  | succ n ih =>
    obtain ⟨i1, i2⟩ := ih
    cases hr : ((bfmRead count timeout).st src n).raised
    case true =>
      have hst : (bfmRead count timeout).st src (n + 1) = (bfmRead count timeout).st src n := by
        rw [Circuit.st_succ]
        generalize (bfmRead count timeout).st src n = s at *
        simp [bfmRead, hr]
      refine ⟨fun _ => ?_, fun h => ?_⟩
      · obtain ⟨m, h1, h2⟩ := i1 hr
        exact ⟨m, by omega, h2⟩
      · rw [hst, hr] at h; cases h
    case false =>
      by_cases hi : count ≤ ((bfmRead count timeout).st src n).got.length
      · have hst : (bfmRead count timeout).st src (n + 1) = (bfmRead count timeout).st src n := by
          rw [Circuit.st_succ]
          generalize (bfmRead count timeout).st src n = s at *
          simp [bfmRead, hi]
        rw [hst]
        exact ⟨fun h => (by rw [hr] at h; cases h), fun _ h => by omega⟩
      · obtain ⟨c, c1, ⟨c2, c3⟩, c4, c5⟩ := i2 hr (by omega)
        cases hrd : (src n).1
        · have hst : (bfmRead count timeout).st src (n + 1) = { (bfmRead count timeout).st src n with
              elapsed := c + 1, raised := decide (c + 1 ≥ timeout) } := by
            rw [Circuit.st_succ]
            generalize (bfmRead count timeout).st src n = s at *
            obtain ⟨got, el, raised⟩ := s
            simp only at hr c1 hi
            subst hr c1
            by_cases ht : el + 1 ≥ timeout <;> simp [bfmRead, hi, hrd, ht]
          have hwin : ∀ k, n + 1 - (c + 1) ≤ k → k < n + 1 → (src k).1 = false := by
            intro k k1 k2
            rcases Nat.lt_or_ge k n with h | h
            · exact c3 k (by omega) h
            · rw [show k = n by omega, hrd]
          rw [hst]
          refine ⟨fun h => ?_, fun h _ => ?_⟩
          · simp only [decide_eq_true_eq] at h
            have hw : max timeout 1 = c + 1 := by omega
            refine ⟨n + 1, Nat.le_refl _, ⟨by omega, by rw [hw]; exact hwin⟩, ?_⟩
            rw [hw, show n + 1 - (c + 1) = n - c by omega, c4]
            omega
          · simp only [decide_eq_false_iff_not] at h
            refine ⟨c + 1, rfl, ⟨by omega, hwin⟩, ?_, .inr (by omega)⟩
            rw [show n + 1 - (c + 1) = n - c by omega, c4]
        · have hst : (bfmRead count timeout).st src (n + 1) =
              ⟨((bfmRead count timeout).st src n).got ++ [(src n).2], 0, false⟩ := by
            rw [Circuit.st_succ]
            generalize (bfmRead count timeout).st src n = s at *
            simp [bfmRead, hi, hr, hrd]
          refine ⟨fun h => ?_, fun _ _ => ⟨0, ?_, ⟨Nat.zero_le _, fun k _ hk => absurd hk (by omega)⟩, rfl, .inl rfl⟩⟩
          · rw [hst] at h; cases h
          · rw [hst]

/-- **C96.** The exception is raised exactly if, while a call waits, `valid` is low for `timeout` cycles (at least one). -/
theorem C96_read_timeout (count timeout : Nat) (src : Nat → Bool × α) (n : Nat) :
    ((bfmRead count timeout).st src n).raised = true ↔ ∃ m, m ≤ n ∧ idleWindow (fun k => (src k).1) (max timeout 1) m ∧
      (bfmTaken count timeout src (m - max timeout 1)).length < count := by
  constructor
  · intro h
    obtain ⟨m, h1, h2, h3⟩ := (bfmRead_wait count timeout src n).1 h
    rw [(C96_read_order count timeout src _).1] at h3
    exact ⟨m, h1, h2, h3⟩
  · rintro ⟨m, h1, ⟨h2, h3⟩, h4⟩
    rw [← (C96_read_order count timeout src _).1] at h4
    suffices h : ((bfmRead count timeout).st src m).raised = true by
      have := bfmRead_raised_stays count timeout src m (n - m) h
      rwa [show m + (n - m) = n by omega] at this
    have key : ∀ d, m - max timeout 1 + d ≤ m → ((bfmRead count timeout).st src (m - max timeout 1 + d)).raised = true ∨
        (((bfmRead count timeout).st src (m - max timeout 1 + d)).got.length < count ∧
          d ≤ ((bfmRead count timeout).st src (m - max timeout 1 + d)).elapsed ∧ (d = 0 ∨ d < timeout)) := by
      intro d
      induction d with
      | zero => exact fun _ => .inr ⟨h4, Nat.zero_le _, .inl rfl⟩
      | succ d ih =>
        intro hd
        rcases ih (by omega) with h | ⟨i1, i2, _⟩
        · exact .inl (bfmRead_raised_stays count timeout src _ 1 h)
        · have hv := h3 (m - max timeout 1 + d) (by omega) (by omega)
          rw [← Nat.add_assoc, Circuit.st_succ]
          generalize (bfmRead count timeout).st src (m - max timeout 1 + d) = s at *
          obtain ⟨got, el, raised⟩ := s
          simp only at i1 i2 hv
          cases raised
          · by_cases ht : el + 1 ≥ timeout
            · left
              simp [bfmRead, show ¬ count ≤ got.length by omega, hv, ht]
            · right
              simp [bfmRead, show ¬ count ≤ got.length by omega, hv, ht, i1]
              omega
          · left
            simp [bfmRead]
    rcases key (max timeout 1) (by omega) with h | ⟨_, _, h⟩
    · rwa [show m - max timeout 1 + max timeout 1 = m by omega] at h
    · omega

/-- **C96.** While no exception is raised, every beat offered to a waiting call is taken at once. -/
theorem C96_read_takes (count timeout : Nat) (src : Nat → Bool × α) (n : Nat)
    (hr : ((bfmRead count timeout).st src n).raised = false) (hl : (bfmTaken count timeout src n).length < count)
    (hv : (src n).1 = true) : bfmTaken count timeout src (n + 1) = bfmTaken count timeout src n ++ [(src n).2] := by
  have e : bfmTaken count timeout src (n + 1) = bfmTaken count timeout src n ++
      (if (src n).1 && (bfmRead count timeout).out ((bfmRead count timeout).st src n) (src n) then [(src n).2] else []) := rfl
  rw [← (C96_read_order count timeout src n).1] at hl
  rw [e, hv]
  generalize (bfmRead count timeout).st src n = s at *
  simp [bfmRead, hr, hl]

end

example : ((bfmRead 2 5).st (fun n => (n == 3 || n == 4 || n == 5, n)) 10).got = [3, 4] ∧
    ((bfmRead 2 5).st (fun n => (n == 3 || n == 4 || n == 5, n)) 10).raised = false ∧
    ((bfmRead 2 3).st (fun n => (n == 3 || n == 4 || n == 5, n)) 10).raised = true := by decide +kernel

end Lambdalib
