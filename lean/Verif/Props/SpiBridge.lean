import Verif.Model.SpiSlave
import Verif.Spec.SpiBridge

/-! C42: the SPI-Wishbone bridge. -/

namespace Lambdalib

section
variable (W aw : Nat)

/-- What crosses the interfaces in one cycle. -/
def brgAcc (s : BrgS) (x : BrgIn) : List (Nat × Nat) :=
  if x.valid && ((spiBridge W aw).out s x).ready then [(x.data, x.len)] else []

def brgBus (s : BrgS) (x : BrgIn) : List WbXfer :=
  let o := (spiBridge W aw).out s x
  if o.cyc && o.stb && x.ack then [⟨o.we, o.adr, if o.we then o.datW else x.datR⟩] else []

def brgSrc (s : BrgS) (x : BrgIn) : List (Nat × Bool) :=
  let o := (spiBridge W aw).out s x
  if o.valid && x.ready then [(o.data, o.last)] else []

/-- Relation between the registers and the history. -/
def brgRel (A : List (Nat × Nat)) (X : List WbXfer) (R : List (Nat × Bool)) (s : BrgS) : Prop :=
  ∃ A0 X0 R0, BrgDone W aw A0 X0 R0 ∧
    ((s.st = .command ∧ A = A0 ∧ X = X0 ∧ R = R0) ∨
     (∃ c, s.st = .addr ∧ A = A0 ++ [(c, W)] ∧ X = X0 ∧ R = R0 ∧ s.write = (c % 2 == 1) ∧ s.count = c / 4 ∧
        c < 2 ^ W) ∨
     (∃ c a ws, s.st = .run ∧ s.write = true ∧ c % 2 = 1 ∧ A = A0 ++ [(c, W), (a, W)] ++ ws ∧
        X = X0 ++ writeXfers W aw a ws ∧ R = R0 ∧ (∀ w ∈ ws, W ≤ w.2) ∧
        ws.length < burstLen (W / 8) (c / 4) ∧ s.count = c / 4 - ws.length * (W / 8) ∧ c < 2 ^ W ∧
        s.addr = (a + ws.length * (W / 8)) % 2 ^ W) ∨
     (∃ c a rs, s.st = .run ∧ s.write = false ∧ c % 2 = 0 ∧ A = A0 ++ [(c, W), (a, W)] ∧
        X = X0 ++ readXfers W aw a rs ∧ R = R0 ++ readReplies (burstLen (W / 8) (c / 4)) rs ∧
        rs.length < burstLen (W / 8) (c / 4) ∧ s.count = c / 4 - rs.length * (W / 8) ∧ c < 2 ^ W ∧
        s.addr = (a + rs.length * (W / 8)) % 2 ^ W))

theorem burst_last (b c k : Nat) (hb : 0 < b) (hk : k < burstLen b c) :
    (c - k * b ≤ b ↔ k + 1 = burstLen b c) := by
  have h1 : (c + b - 1) / b ≤ k + 1 ↔ c ≤ (k + 1) * b := by
    have e : (c + b - 1) / b < k + 1 + 1 ↔ c + b - 1 < (k + 1 + 1) * b := Nat.div_lt_iff_lt_mul hb
    have e2 : (k + 1 + 1) * b = (k + 1) * b + b := by rw [Nat.add_mul (k + 1), Nat.one_mul]
    rw [e2] at e
    constructor
    · intro h; have := e.mp (by omega); omega
    · intro h; have := e.mpr (by omega); omega
  have e3 : (k + 1) * b = k * b + b := by rw [Nat.add_mul, Nat.one_mul]
  unfold burstLen at hk ⊢
  constructor
  · intro h
    have := h1.mpr (by omega)
    omega
  · intro h
    have := h1.mp (by omega)
    omega

theorem zipIdx_snoc {α β : Type} (f : α × Nat → β) (l : List α) (v : α) :
    (l ++ [v]).zipIdx.map f = l.zipIdx.map f ++ [f (v, l.length)] := by
  rw [List.zipIdx_append, List.map_append]
  simp

theorem fullBefore_snoc (ws : List (Nat × Nat)) (w : Nat × Nat) (h : ∀ w ∈ ws, W ≤ w.2) : fullBefore W (ws ++ [w]) := by
  intro v hv
  rw [List.dropLast_concat] at hv
  exact h v hv

theorem brg_step (hW : 8 ≤ W) (A : List (Nat × Nat)) (X : List WbXfer) (R : List (Nat × Bool)) (s : BrgS) (x : BrgIn)
    (h : brgRel W aw A X R s) (hx : x.data < 2 ^ W) :
    brgRel W aw (A ++ brgAcc W aw s x) (X ++ brgBus W aw s x) (R ++ brgSrc W aw s x)
      ((spiBridge W aw).next s x) := by
  obtain ⟨A0, X0, R0, hd, h⟩ := h
  obtain ⟨st, write, const, count, addr⟩ := s
  obtain ⟨valid, data, len, ready, ack, datR⟩ := x
  dsimp only at hx h
  have hb : 0 < W / 8 := by omega
  have h4 : ∀ c, c < 2 ^ W → c / 4 < 2 ^ (W - 2) := by
    intro c hc
    have : 2 ^ W = 2 ^ (W - 2) * 4 := by
      rw [show (4 : Nat) = 2 ^ 2 from rfl, ← Nat.pow_add]; congr 1; omega
    omega
  rcases h with ⟨hst, rfl, rfl, rfl⟩ | ⟨c, hst, rfl, rfl, rfl, hw, hc, hcl⟩ |
    ⟨c, a, ws, hst, hw, hodd, rfl, rfl, rfl, hfull, hlt, hc, hcl, ha⟩ |
    ⟨c, a, rs, hst, hw, heven, rfl, rfl, rfl, hlt, hc, hcl, ha⟩
  · subst hst
    have e2 : brgBus W aw ⟨.command, write, const, count, addr⟩ ⟨valid, data, len, ready, ack, datR⟩ = [] := rfl
    have e3 : brgSrc W aw ⟨.command, write, const, count, addr⟩ ⟨valid, data, len, ready, ack, datR⟩ = [] := rfl
    rw [e2, e3, List.append_nil, List.append_nil]
    cases valid
    · exact ⟨A, X, R, hd, .inl ⟨rfl, by simp [brgAcc], rfl, rfl⟩⟩
    · have e1 : brgAcc W aw ⟨.command, write, const, count, addr⟩ ⟨true, data, len, ready, ack, datR⟩ =
        [(data, len)] := rfl
      rw [e1]
      by_cases hl : len = W
      · subst hl
        refine ⟨A, X, R, hd, .inr (.inl ⟨data, ?_, rfl, rfl, rfl, ?_, ?_, hx⟩)⟩
        · simp [spiBridge]
        · simp [spiBridge]
        · simp only [spiBridge, BEq.rfl, Bool.and_self, if_true]
          exact Nat.mod_eq_of_lt (h4 _ hx)
      · refine ⟨_, X, R, .badCommand data len hd hl, .inl ⟨?_, rfl, rfl, rfl⟩⟩
        simp [spiBridge, hl]
  · subst hst
    have e2 : brgBus W aw ⟨.addr, write, const, count, addr⟩ ⟨valid, data, len, ready, ack, datR⟩ = [] := rfl
    have e3 : brgSrc W aw ⟨.addr, write, const, count, addr⟩ ⟨valid, data, len, ready, ack, datR⟩ = [] := rfl
    rw [e2, e3, List.append_nil, List.append_nil]
    cases valid
    · exact ⟨A0, X, R, hd, .inr (.inl ⟨c, rfl, by simp [brgAcc], rfl, rfl, hw, hc, hcl⟩)⟩
    · have e1 : brgAcc W aw ⟨.addr, write, const, count, addr⟩ ⟨true, data, len, ready, ack, datR⟩ =
        [(data, len)] := rfl
      rw [e1]
      have hpos : 0 < burstLen (W / 8) (c / 4) := by unfold burstLen; omega
      by_cases hl : len = W
      · subst hl
        have hn : (spiBridge len aw).next ⟨.addr, write, const, count, addr⟩ ⟨true, data, len, ready, ack, datR⟩ =
          ⟨.run, write, const, count, data % 2 ^ len⟩ := by simp [spiBridge]
        rw [hn]
        cases write
        · refine ⟨A0, X, R, hd, .inr (.inr (.inr ⟨c, data, [], rfl, rfl, ?_, ?_, ?_, ?_, hpos, ?_, hcl, ?_⟩))⟩
          · have : ¬ c % 2 = 1 := by intro h; rw [h] at hw; cases hw
            omega
          · simp
          · simp [readXfers]
          · simp [readReplies]
          · simp [hc]
          · simp
        · refine ⟨A0, X, R, hd, .inr (.inr (.inl ⟨c, data, [], rfl, rfl, ?_, ?_, ?_, rfl, ?_, hpos, ?_, hcl, ?_⟩))⟩
          · simpa using hw.symm
          · simp
          · simp [writeXfers]
          · simp
          · simp [hc]
          · simp
      · have hn : (spiBridge W aw).next ⟨.addr, write, const, count, addr⟩ ⟨true, data, len, ready, ack, datR⟩ =
          ⟨.command, write, const, count, addr⟩ := by simp [spiBridge, hl]
        rw [hn]
        exact ⟨_, X, R, .badAddress c data len hd hl, .inl ⟨rfl, by simp, rfl, rfl⟩⟩
  · subst hst
    subst hw
    have e3 : brgSrc W aw ⟨.run, true, const, count, addr⟩ ⟨valid, data, len, ready, ack, datR⟩ = [] := rfl
    rw [e3, List.append_nil]
    by_cases hx1 : valid = true ∧ ack = true
    · obtain ⟨rfl, rfl⟩ := hx1
      have e1 : brgAcc W aw ⟨.run, true, const, count, addr⟩ ⟨true, data, len, ready, true, datR⟩ =
        [(data, len)] := rfl
      have e2 : brgBus W aw ⟨.run, true, const, count, addr⟩ ⟨true, data, len, ready, true, datR⟩ =
        [⟨true, addr / 2 ^ (W - aw) % 2 ^ aw, data⟩] := rfl
      have e4 : writeXfers W aw a (ws ++ [(data, len)]) =
          writeXfers W aw a ws ++ [⟨true, addr / 2 ^ (W - aw) % 2 ^ aw, data⟩] := by
        unfold writeXfers
        rw [zipIdx_snoc, burstAdr, ← ha]
      have hlast := burst_last (W / 8) (c / 4) ws.length hb hlt
      rw [← hc] at hlast
      have hn : (spiBridge W aw).next ⟨.run, true, const, count, addr⟩ ⟨true, data, len, ready, true, datR⟩ =
          ⟨if decide (count ≤ W / 8) || decide (len < W) then .command else .run, true, const,
            (count + 2 ^ (W - 2) - W / 8) % 2 ^ (W - 2), (addr + W / 8) % 2 ^ W⟩ := rfl
      rw [e1, e2, hn, List.append_assoc X0, ← e4, List.append_assoc _ ws]
      by_cases hend : count ≤ W / 8 ∨ len < W
      · have hif : (decide (count ≤ W / 8) || decide (len < W)) = true := by simpa using hend
        refine ⟨_, _, _, .write c a (ws ++ [(data, len)]) hd hodd (by simp) (fullBefore_snoc W ws _ hfull) ?_ ?_,
          .inl ⟨by rw [hif]; rfl, rfl, rfl, rfl⟩⟩
        · rw [List.length_append, List.length_singleton]; omega
        · rcases hend with h | h
          · left; rw [List.length_append, List.length_singleton]; exact hlast.mp h
          · right; exact ⟨(data, len), by simp, h⟩
      · have hif : (decide (count ≤ W / 8) || decide (len < W)) = false := by
          simp only [Bool.or_eq_false_iff, decide_eq_false_iff_not]
          exact ⟨fun h => hend (.inl h), fun h => hend (.inr h)⟩
        have hn1 : ¬ count ≤ W / 8 := fun h => hend (.inl h)
        have hn2 : W ≤ len := Nat.not_lt.mp fun h => hend (.inr h)
        refine ⟨A0, X0, R, hd, .inr (.inr (.inl ⟨c, a, ws ++ [(data, len)], by rw [hif]; rfl, rfl, hodd, rfl, rfl, rfl,
          ?_, ?_, ?_, hcl, ?_⟩))⟩
        · intro w hw
          rcases List.mem_append.mp hw with hw | hw
          · exact hfull w hw
          · simp at hw; subst hw; exact hn2
        · rw [List.length_append, List.length_singleton]
          have : ¬ ws.length + 1 = burstLen (W / 8) (c / 4) := fun h => hn1 (hlast.mpr h)
          omega
        · rw [List.length_append, List.length_singleton]
          have := h4 c hcl
          show (count + 2 ^ (W - 2) - W / 8) % 2 ^ (W - 2) = _
          rw [show count + 2 ^ (W - 2) - W / 8 = (count - W / 8) + 2 ^ (W - 2) by omega, Nat.add_mod_right,
            Nat.mod_eq_of_lt (by omega), hc, Nat.add_mul, Nat.one_mul, Nat.sub_add_eq]
        · rw [List.length_append, List.length_singleton]
          show (addr + W / 8) % 2 ^ W = _
          rw [ha, Nat.mod_add_mod, Nat.add_mul, Nat.one_mul, Nat.add_assoc]
    · have e1 : brgAcc W aw ⟨.run, true, const, count, addr⟩ ⟨valid, data, len, ready, ack, datR⟩ = [] := by
        cases valid <;> cases ack <;> first | rfl | exact absurd ⟨rfl, rfl⟩ hx1
      have e2 : brgBus W aw ⟨.run, true, const, count, addr⟩ ⟨valid, data, len, ready, ack, datR⟩ = [] := by
        cases valid <;> cases ack <;> first | rfl | exact absurd ⟨rfl, rfl⟩ hx1
      have hn : (spiBridge W aw).next ⟨.run, true, const, count, addr⟩ ⟨valid, data, len, ready, ack, datR⟩ =
          ⟨.run, true, const, count, addr⟩ := by
        cases valid <;> cases ack <;> first | rfl | exact absurd ⟨rfl, rfl⟩ hx1
      rw [e1, e2, hn, List.append_nil, List.append_nil]
      exact ⟨A0, X0, R, hd, .inr (.inr (.inl ⟨c, a, ws, rfl, rfl, hodd, rfl, rfl, rfl, hfull, hlt, hc, hcl, ha⟩))⟩
  · subst hst
    subst hw
    have e1 : brgAcc W aw ⟨.run, false, const, count, addr⟩ ⟨valid, data, len, ready, ack, datR⟩ = [] := by
      cases valid <;> rfl
    rw [e1, List.append_nil]
    by_cases hx1 : ready = true ∧ ack = true
    · obtain ⟨rfl, rfl⟩ := hx1
      have hlast := burst_last (W / 8) (c / 4) rs.length hb hlt
      rw [← hc] at hlast
      have e2 : brgBus W aw ⟨.run, false, const, count, addr⟩ ⟨valid, data, len, true, true, datR⟩ =
        [⟨false, addr / 2 ^ (W - aw) % 2 ^ aw, datR⟩] := rfl
      have e3 : brgSrc W aw ⟨.run, false, const, count, addr⟩ ⟨valid, data, len, true, true, datR⟩ =
        [(datR, decide (count ≤ W / 8))] := rfl
      have e4 : readXfers W aw a (rs ++ [datR]) =
          readXfers W aw a rs ++ [⟨false, addr / 2 ^ (W - aw) % 2 ^ aw, datR⟩] := by
        unfold readXfers
        rw [zipIdx_snoc, burstAdr, ← ha]
      have e5 : readReplies (burstLen (W / 8) (c / 4)) (rs ++ [datR]) =
          readReplies (burstLen (W / 8) (c / 4)) rs ++ [(datR, decide (count ≤ W / 8))] := by
        unfold readReplies
        rw [zipIdx_snoc]
        congr 3
        rw [Bool.eq_iff_iff]
        simp only [beq_iff_eq, decide_eq_true_eq]
        exact hlast.symm
      have hn : (spiBridge W aw).next ⟨.run, false, const, count, addr⟩ ⟨valid, data, len, true, true, datR⟩ =
          ⟨if decide (count ≤ W / 8) then .command else .run, false, const,
            (count + 2 ^ (W - 2) - W / 8) % 2 ^ (W - 2), (addr + W / 8) % 2 ^ W⟩ := by
        simp only [spiBridge, brgStb, BEq.rfl, Bool.false_and, Bool.or_false, Bool.and_self, Bool.true_and]
        rfl
      rw [e2, e3, hn, List.append_assoc X0, List.append_assoc R0, ← e4, ← e5]
      by_cases hend : count ≤ W / 8
      · have hif : decide (count ≤ W / 8) = true := by simpa using hend
        refine ⟨_, _, _, .read c a (rs ++ [datR]) hd heven ?_, .inl ⟨by rw [hif]; rfl, rfl, rfl, rfl⟩⟩
        rw [List.length_append, List.length_singleton]; exact hlast.mp hend
      · have hif : decide (count ≤ W / 8) = false := by simpa using hend
        refine ⟨A0, X0, R0, hd, .inr (.inr (.inr ⟨c, a, rs ++ [datR], by rw [hif]; rfl, rfl, heven, rfl, rfl, rfl,
          ?_, ?_, hcl, ?_⟩))⟩
        · rw [List.length_append, List.length_singleton]
          have : ¬ rs.length + 1 = burstLen (W / 8) (c / 4) := fun h => hend (hlast.mpr h)
          omega
        · rw [List.length_append, List.length_singleton]
          have := h4 c hcl
          show (count + 2 ^ (W - 2) - W / 8) % 2 ^ (W - 2) = _
          rw [show count + 2 ^ (W - 2) - W / 8 = (count - W / 8) + 2 ^ (W - 2) by omega, Nat.add_mod_right,
            Nat.mod_eq_of_lt (by omega), hc, Nat.add_mul, Nat.one_mul, Nat.sub_add_eq]
        · rw [List.length_append, List.length_singleton]
          show (addr + W / 8) % 2 ^ W = _
          rw [ha, Nat.mod_add_mod, Nat.add_mul, Nat.one_mul, Nat.add_assoc]
    · have e2 : brgBus W aw ⟨.run, false, const, count, addr⟩ ⟨valid, data, len, ready, ack, datR⟩ = [] := by
        cases ready <;> cases ack <;> first | rfl | exact absurd ⟨rfl, rfl⟩ hx1
      have e3 : brgSrc W aw ⟨.run, false, const, count, addr⟩ ⟨valid, data, len, ready, ack, datR⟩ = [] := by
        cases ready <;> cases ack <;> first | rfl | exact absurd ⟨rfl, rfl⟩ hx1
      have hn : (spiBridge W aw).next ⟨.run, false, const, count, addr⟩ ⟨valid, data, len, ready, ack, datR⟩ =
          ⟨.run, false, const, count, addr⟩ := by
        cases ready <;> cases ack <;> first | rfl | exact absurd ⟨rfl, rfl⟩ hx1
      rw [e2, e3, hn, List.append_nil, List.append_nil]
      exact ⟨A0, X0, R0, hd, .inr (.inr (.inr ⟨c, a, rs, rfl, rfl, heven, rfl, rfl, rfl, hlt, hc, hcl, ha⟩))⟩

variable (i : Nat → BrgIn)

/-- The words received, the bus cycles finished and the replies delivered in the first `n` cycles. -/
def brgWords (n : Nat) : List (Nat × Nat) :=
  transferred (fun k => (i k).valid) (fun k => ((spiBridge W aw).wave i k).ready)
    (fun k => ((i k).data, (i k).len)) n

def brgXfers (n : Nat) : List WbXfer :=
  transferred (fun k => ((spiBridge W aw).wave i k).cyc && ((spiBridge W aw).wave i k).stb) (fun k => (i k).ack)
    (fun k => ⟨((spiBridge W aw).wave i k).we, ((spiBridge W aw).wave i k).adr,
      if ((spiBridge W aw).wave i k).we then ((spiBridge W aw).wave i k).datW else (i k).datR⟩) n

def brgReplies (n : Nat) : List (Nat × Bool) :=
  transferred (fun k => ((spiBridge W aw).wave i k).valid) (fun k => (i k).ready)
    (fun k => (((spiBridge W aw).wave i k).data, ((spiBridge W aw).wave i k).last)) n

/-- C42: at every moment the received words, the finished bus cycles and the replies are those of a sequence of
complete commands followed by the beginning of one. -/
theorem C42_commands (hW : 8 ≤ W) (hx : ∀ n, (i n).data < 2 ^ W) (n : Nat) :
    ∃ A X R a x r, brgWords W aw i n = A ++ a ∧ brgXfers W aw i n = X ++ x ∧ brgReplies W aw i n = R ++ r ∧
      BrgDone W aw A X R ∧ BrgPart W aw a x r := by
  have h : brgRel W aw (brgWords W aw i n) (brgXfers W aw i n) (brgReplies W aw i n) ((spiBridge W aw).st i n) := by
    induction n with
    | zero => exact ⟨[], [], [], .nil, .inl ⟨rfl, rfl, rfl, rfl⟩⟩
    | succ n ih => exact brg_step W aw hW _ _ _ _ (i n) ih (hx n)
  obtain ⟨A, X, R, hd, h⟩ := h
  rcases h with ⟨_, h1, h2, h3⟩ | ⟨c, _, h1, h2, h3, _⟩ | ⟨c, a, ws, _, _, hodd, h1, h2, h3, hf, hlt, _⟩ |
    ⟨c, a, rs, _, _, he, h1, h2, h3, hlt, _⟩
  · exact ⟨A, X, R, [], [], [], by simpa using h1, by simpa using h2, by simpa using h3, hd, .none⟩
  · exact ⟨A, X, R, [(c, W)], [], [], h1, by simpa using h2, by simpa using h3, hd, .command c⟩
  · exact ⟨A, X, R, [(c, W), (a, W)] ++ ws, _, [], by rw [h1, List.append_assoc], h2, by simpa using h3, hd,
      .write c a ws hodd hf hlt⟩
  · exact ⟨A, X, R, [(c, W), (a, W)], _, _, h1, h2, h3, hd, .read c a rs he hlt⟩

/-- C42: the bridge never stalls by itself: it takes words, or waits for the bus with its strobe following the
sender (writes) or the receiver (reads). -/
theorem C42_no_stall (n : Nat) :
    ((spiBridge W aw).wave i n).ready = true ∨ ((spiBridge W aw).wave i n).cyc = true ∧
      ((spiBridge W aw).wave i n).stb =
        if ((spiBridge W aw).wave i n).we then (i n).valid else (i n).ready := by
  have h : ∀ (s : BrgS) (x : BrgIn), ((spiBridge W aw).out s x).ready = true ∨ ((spiBridge W aw).out s x).cyc = true ∧
      ((spiBridge W aw).out s x).stb = if ((spiBridge W aw).out s x).we then x.valid else x.ready := by
    intro s x
    cases hs : s.st <;> cases hw : s.write <;> simp [spiBridge, hs, hw, brgStb]
  exact h _ _

/-- C42: the bus rule: a request that is not acknowledged is held, provided the sender (writes) holds its word or the
receiver (reads) keeps asking. -/
theorem C42_bus_held (n : Nat) (h : ((spiBridge W aw).wave i n).stb = true) (ha : (i n).ack = false)
    (hv : (i n).valid = true → ((spiBridge W aw).wave i n).ready = false →
      (i (n + 1)).valid = true ∧ (i (n + 1)).data = (i n).data)
    (hr : (i n).ready = true → (i (n + 1)).ready = true) :
    let o := (spiBridge W aw).wave i n
    let p := (spiBridge W aw).wave i (n + 1)
    o.cyc = true ∧ p.cyc = true ∧ p.stb = true ∧ p.we = o.we ∧ p.adr = o.adr ∧ p.datW = o.datW := by
  simp only [Circuit.wave, Circuit.st_succ] at *
  generalize (spiBridge W aw).st i n = s at *
  generalize i n = x at *
  generalize i (n + 1) = y at *
  obtain ⟨st, write, const, count, addr⟩ := s
  cases st
  · simp [spiBridge, brgStb] at h
  · simp [spiBridge, brgStb] at h
  · cases write
    · have h : x.ready = true := by simpa [spiBridge, brgStb] using h
      simp [spiBridge, brgStb, ha, hr h]
    · have h : x.valid = true := by simpa [spiBridge, brgStb] using h
      obtain ⟨h1, h2⟩ := hv h (by simp [spiBridge, ha])
      simp [spiBridge, brgStb, ha, h1, h2]

/-- C42: replies have the full word length. -/
theorem C42_reply_len (n : Nat) (h : ((spiBridge W aw).wave i n).valid = true) :
    ((spiBridge W aw).wave i n).len = W := by
  simp only [Circuit.wave] at *
  generalize (spiBridge W aw).st i n = s at *
  cases hs : s.st <;> cases hw : s.write <;> simp_all [spiBridge]

end

/-! ### Concrete run -/

/-- A write of 6 bytes at 0x100 (two words), a read of 4 bytes at 0x200, a short command. The bus answers every
second cycle. -/
def brgDemo (n : Nat) : BrgIn :=
  let w := [(6 * 4 + 1, 32), (0x100, 32), (0xAAAA, 32), (0xAAAA, 32), (0xBBBB, 32), (0xBBBB, 32), (4 * 4, 32),
    (0x200, 32), (7, 8), (7, 8), (7, 8)]
  { valid := decide (n < w.length), data := (w.getD n (0, 0)).1, len := (w.getD n (0, 0)).2, ready := true,
    ack := n % 2 == 1, datR := 0xC0 + n % 16 }

example : ∀ n, (brgDemo n).data < 2 ^ 32 := by
  intro n
  rcases Nat.lt_or_ge n 11 with h | h
  · have : ∀ n < 11, (brgDemo n).data < 2 ^ 32 := by decide
    exact this n h
  · have : (brgDemo n).data = 0 := by simp [brgDemo, List.getD, h]
    omega

example : brgWords 32 30 brgDemo 20 = [(25, 32), (0x100, 32), (0xAAAA, 32), (0xBBBB, 32), (16, 32), (0x200, 32),
    (7, 8)] := by decide
example : brgXfers 32 30 brgDemo 20 = [⟨true, 0x40, 0xAAAA⟩, ⟨true, 0x41, 0xBBBB⟩, ⟨false, 0x80, 0xC9⟩] := by decide
example : brgReplies 32 30 brgDemo 20 = [(0xC9, true)] := by decide

end Lambdalib
