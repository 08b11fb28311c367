import Verif.Model.I2cStream
import Verif.Spec.Window
import Mathlib.Data.List.Chain
import Mathlib.Data.List.Infix

/-! Properties of `I2CRegStream` (C28) and `TCA9548A` (C29). -/

namespace Lambdalib

/-! ### C28 -/

/-- The I2C transaction for one register write. -/
def regWriteBytes (i2cAddr : Nat) (b : Beat (BitVec 8 × BitVec 8)) : List (Beat (BitVec 8)) :=
  [⟨false, false, BitVec.ofNat 8 (2 * i2cAddr)⟩, ⟨false, false, b.payload.1⟩,
   ⟨false, true, b.payload.2⟩]

/-- Relation between accepted writes, delivered bytes and registers. -/
def regStrRel (i2cAddr : Nat) (A : List (Beat (BitVec 8 × BitVec 8))) (D : List (Beat (BitVec 8)))
    (s : RegStrS) : Prop :=
  match s.fsm with
  | .idle => s.valid = false ∧ s.last = false ∧ A.flatMap (regWriteBytes i2cAddr) = D
  | .slave => s.valid = true ∧ s.last = false ∧ A.flatMap (regWriteBytes i2cAddr) =
      D ++ [⟨false, false, s.data⟩, ⟨false, false, s.addr⟩, ⟨false, true, s.val⟩]
  | .reg => s.valid = true ∧ s.last = false ∧ A.flatMap (regWriteBytes i2cAddr) =
      D ++ [⟨false, false, s.data⟩, ⟨false, true, s.val⟩]
  | .val => s.valid = true ∧ s.last = true ∧ A.flatMap (regWriteBytes i2cAddr) =
      D ++ [⟨false, true, s.data⟩]

theorem regStr_rel (i2cAddr : Nat) (i : Nat → SIn (BitVec 8 × BitVec 8)) (n : Nat) :
    regStrRel i2cAddr (accepted (i2cRegStream i2cAddr) i n) (delivered (i2cRegStream i2cAddr) i n)
      ((i2cRegStream i2cAddr).st i n) := by
  refine stream_induct (i2cRegStream i2cAddr) (regStrRel i2cAddr) ⟨rfl, rfl, rfl⟩ ?_ i n
  intro A D s x h
  obtain ⟨fsm, valid, last, data, addr, val⟩ := s
  cases fsm <;> simp only [regStrRel] at h <;> obtain ⟨rfl, rfl, h⟩ := h <;>
    cases hv : x.valid <;> cases hr : x.ready <;>
    simp [i2cRegStream, regStrRel, hv, hr, h, regWriteBytes, i2cAddrByte, Nat.mul_comm]

/-- C28: the delivered bytes are the register writes in order, each as chip address shifted left by one,
register address, value marked `last`; a write is only accepted when all earlier ones are delivered, and
otherwise the next byte is being offered. -/
theorem C28_regstream_bytes (i2cAddr : Nat) (i : Nat → SIn (BitVec 8 × BitVec 8)) (n : Nat) :
    let c := i2cRegStream i2cAddr
    delivered c i n <+: (accepted c i n).flatMap (regWriteBytes i2cAddr) ∧
    ((c.wave i n).ready = true →
      delivered c i n = (accepted c i n).flatMap (regWriteBytes i2cAddr) ∧ (c.wave i n).valid = false) ∧
    ((c.wave i n).ready = false → (c.wave i n).valid = true ∧
      delivered c i n ++ [(c.wave i n).beat] <+: (accepted c i n).flatMap (regWriteBytes i2cAddr)) := by
  intro c
  have h := regStr_rel i2cAddr i n
  simp only [c, Circuit.wave]
  generalize (i2cRegStream i2cAddr).st i n = s at *
  obtain ⟨fsm, valid, last, data, addr, val⟩ := s
  cases fsm <;> simp only [regStrRel] at h <;> obtain ⟨rfl, rfl, h⟩ := h <;> rw [h] <;>
    simp [i2cRegStream]

/-- C28: an offered byte is kept until it is taken. -/
theorem C28_regstream_stable (i2cAddr : Nat) (i : Nat → SIn (BitVec 8 × BitVec 8)) :
    SourceStable (i2cRegStream i2cAddr) i := by
  intro n hv hr
  have h := regStr_rel i2cAddr i n
  simp only [Circuit.wave, Circuit.st_succ] at *
  generalize (i2cRegStream i2cAddr).st i n = s at *
  obtain ⟨fsm, valid, last, data, addr, val⟩ := s
  cases fsm <;> simp only [regStrRel] at h <;> obtain ⟨rfl, rfl, _⟩ := h <;>
    simp [i2cRegStream, hr] at hv ⊢

example : delivered (i2cRegStream 0x50)
    (fun n => ⟨n == 0, ⟨false, false, (1, 2)⟩, n != 2⟩) 6
    = [⟨false, false, 0xA0⟩, ⟨false, false, 1⟩, ⟨false, true, 2⟩] := by decide

/-! ### C29 -/

/-- Beats delivered by the multiplexer driver. -/
def tcaDelivered (i2cAddr : Nat) (i : Nat → TcaIn) (n : Nat) : List (Beat (Bool × BitVec 8)) :=
  transferred (fun k => ((tca9548a i2cAddr).wave i k).valid) (fun k => (i k).ready)
    (fun k => ((tca9548a i2cAddr).wave i k).beat) n

/-- The transaction which selects the channels `c`: write of the chip address, then of the control byte. -/
def tcaPacket (i2cAddr : Nat) (c : BitVec 8) : List (Beat (Bool × BitVec 8)) :=
  [⟨false, false, (false, BitVec.ofNat 8 (2 * i2cAddr))⟩, ⟨false, true, (false, c)⟩]

/-- `cs` is a legal sequence of channel selections after `n` cycles: first the power-up value 0, then values of
`ctrl` seen before, each different from its predecessor. -/
def TcaSelections (i : Nat → TcaIn) (n : Nat) (cs : List (BitVec 8)) : Prop :=
  (∀ c ∈ cs.head?, c = 0) ∧ (∀ c ∈ cs.tail, ∃ k < n, (i k).ctrl = c) ∧
  cs.IsChain (· ≠ ·)

theorem TcaSelections.mono {i : Nat → TcaIn} {n : Nat} {cs : List (BitVec 8)}
    (h : TcaSelections i n cs) : TcaSelections i (n + 1) cs :=
  ⟨h.1, fun c hc => let ⟨k, hk, e⟩ := h.2.1 c hc; ⟨k, by omega, e⟩, h.2.2⟩

/-- Relation between delivered beats `D` and registers after `n` cycles. -/
def tcaRel (i2cAddr : Nat) (i : Nat → TcaIn) (n : Nat) (D : List (Beat (Bool × BitVec 8)))
    (s : TcaS) : Prop :=
  ∃ cs, TcaSelections i n cs ∧
    (s.init = false → s.mux = false ∧ s.addrN = false ∧ s.ctrlR = 0 ∧ cs = []) ∧
    (s.init = true → cs.getLast? = some s.ctrlR) ∧
    (s.mux = false → s.addrN = false ∧ D = cs.flatMap (tcaPacket i2cAddr)) ∧
    (s.mux = true → D = cs.dropLast.flatMap (tcaPacket i2cAddr) ++
      (if s.addrN then [⟨false, false, (false, BitVec.ofNat 8 (2 * i2cAddr))⟩] else []))

theorem tca_step (i2cAddr : Nat) (i : Nat → TcaIn) (n : Nat) (D : List (Beat (Bool × BitVec 8)))
    (s : TcaS) (h : tcaRel i2cAddr i n D s) :
    tcaRel i2cAddr i (n + 1) (D ++ (if ((tca9548a i2cAddr).out s (i n)).valid && (i n).ready then
      [((tca9548a i2cAddr).out s (i n)).beat] else [])) ((tca9548a i2cAddr).next s (i n)) := by
  obtain ⟨cs, h1, h2, h3, h4, h5⟩ := h
  unfold tcaRel
  obtain ⟨mux, init, ctrlR, addrN⟩ := s
  simp only at h2 h3 h4 h5
  cases hmux : mux
  · subst hmux
    obtain ⟨rfl, h4⟩ := h4 rfl
    cases hinit : init
    · subst hinit
      obtain ⟨_, _, rfl, rfl⟩ := h2 rfl
      refine ⟨[0], ⟨by simp, by simp, by simp⟩, ?_⟩
      simp [tca9548a, h4]
    · subst hinit
      have h3 := h3 rfl
      by_cases hc : (i n).ctrl = ctrlR
      · refine ⟨cs, h1.mono, ?_⟩
        simp [tca9548a, h4, h3, hc]
      · refine ⟨cs ++ [(i n).ctrl], ?_, ?_⟩
        · obtain ⟨g1, g2, g3⟩ := h1
          have hne : cs ≠ [] := by rintro rfl; simp at h3
          refine ⟨?_, ?_, ?_⟩
          · obtain ⟨a, l, rfl⟩ := List.exists_cons_of_ne_nil hne
            simpa using g1
          · obtain ⟨a, l, rfl⟩ := List.exists_cons_of_ne_nil hne
            intro c hc'
            simp only [List.cons_append, List.tail_cons, List.mem_append, List.mem_singleton] at hc'
            rcases hc' with hc' | rfl
            · obtain ⟨k, hk, e⟩ := g2 c (by simpa using hc'); exact ⟨k, by omega, e⟩
            · exact ⟨n, by omega, rfl⟩
          · rw [List.isChain_append]
            refine ⟨g3, by simp, ?_⟩
            intro x hx y hy
            rw [h3] at hx
            simp only [Option.mem_def, Option.some.injEq, List.head?_cons] at hx hy
            subst hx; subst hy
            exact fun h => hc h.symm
        · simp [tca9548a, h4, hc]
  · subst hmux
    have hi : init = true := by
      cases init
      · have := (h2 rfl).1; simp at this
      · rfl
    subst hi
    have h3 := h3 rfl
    have h5 := h5 rfl
    refine ⟨cs, h1.mono, ?_⟩
    have hcs : cs.dropLast ++ [ctrlR] = cs := by
      have := List.dropLast_append_getLast? ctrlR h3
      exact this
    cases hr : (i n).ready <;> cases hN : addrN
    all_goals
      simp [tca9548a, hr, hN, h3, h5, i2cAddrByte, Nat.mul_comm]
    conv => rhs; rw [← hcs]
    simp [tcaPacket, Nat.mul_comm]

theorem tca_rel (i2cAddr : Nat) (i : Nat → TcaIn) (n : Nat) :
    tcaRel i2cAddr i n (tcaDelivered i2cAddr i n) ((tca9548a i2cAddr).st i n) := by
  induction n with
  | zero => exact ⟨[], ⟨by simp, by simp, by simp⟩, by simp [tca9548a], by simp [tca9548a],
      by simp [tca9548a, tcaDelivered], by simp [tca9548a]⟩
  | succ n ih => exact tca_step i2cAddr i n _ _ ih

/-- C29: the delivered beats are complete channel selections in order, plus possibly the first byte of the
one in progress. When `done` is high all of them are complete, and the last one selects the value
currently on `ctrl`. -/
theorem C29_tca_selections (i2cAddr : Nat) (i : Nat → TcaIn) (n : Nat) :
    ∃ cs, TcaSelections i n cs ∧
      (tcaDelivered i2cAddr i n = cs.flatMap (tcaPacket i2cAddr) ∨
        tcaDelivered i2cAddr i n =
          cs.flatMap (tcaPacket i2cAddr) ++ [⟨false, false, (false, BitVec.ofNat 8 (2 * i2cAddr))⟩]) ∧
      (((tca9548a i2cAddr).wave i n).done = true →
        tcaDelivered i2cAddr i n = cs.flatMap (tcaPacket i2cAddr) ∧
        cs.getLast? = some (i n).ctrl) := by
  obtain ⟨cs, h1, h2, h3, h4, h5⟩ := tca_rel i2cAddr i n
  simp only [Circuit.wave]
  generalize (tca9548a i2cAddr).st i n = s at *
  obtain ⟨mux, init, ctrlR, addrN⟩ := s
  simp only at h2 h3 h4 h5
  cases mux
  · refine ⟨cs, h1, .inl (h4 rfl).2, ?_⟩
    intro hd
    simp only [tca9548a, Bool.not_false, Bool.true_and, Bool.and_eq_true, beq_iff_eq] at hd
    exact ⟨(h4 rfl).2, by rw [h3 hd.1, hd.2]⟩
  · refine ⟨cs.dropLast, ⟨?_, ?_, ?_⟩, ?_, ?_⟩
    · intro c hc
      refine h1.1 c ?_
      cases cs with
      | nil => simp at hc
      | cons a l => cases l <;> simp_all
    · intro c hc
      refine h1.2.1 c ?_
      cases cs with
      | nil => simp at hc
      | cons a l =>
        cases l with
        | nil => simp at hc
        | cons b l' =>
          simp only [List.dropLast_cons₂, List.tail_cons] at hc ⊢
          exact List.mem_of_mem_dropLast hc
    · exact h1.2.2.prefix (List.dropLast_prefix cs)
    · have h5 := h5 rfl
      cases addrN <;> simp_all
    · intro hd
      simp [tca9548a] at hd

/-- C29: an offered beat is kept until it is taken. -/
theorem C29_tca_stable (i2cAddr : Nat) (i : Nat → TcaIn) :
    Stable (fun k => ((tca9548a i2cAddr).wave i k).valid) (fun k => (i k).ready)
      (fun k => ((tca9548a i2cAddr).wave i k).beat) := by
  intro n hv hr
  simp only [Circuit.wave, Circuit.st_succ] at *
  generalize (tca9548a i2cAddr).st i n = s at *
  obtain ⟨mux, init, ctrlR, addrN⟩ := s
  simp only [tca9548a] at hv
  subst hv
  simp [tca9548a, hr]

/-- C29: once `ctrl` stays constant and the receiver takes what is offered, `done` rises and stays. -/
theorem C29_tca_progress (i2cAddr : Nat) (i : Nat → TcaIn) (n : Nat)
    (hc : ∀ k, n ≤ k → (i k).ctrl = (i n).ctrl) (hr : ∀ k, ((tca9548a i2cAddr).wave i k).valid = true → ∃ m, k ≤ m ∧ (i m).ready = true) :
    ∃ m, n ≤ m ∧ ∀ k, m ≤ k → ((tca9548a i2cAddr).wave i k).done = true := by
  -- one step helper facts
  have stay : ∀ m, n ≤ m → ((tca9548a i2cAddr).wave i m).done = true →
      ∀ k, m ≤ k → ((tca9548a i2cAddr).wave i k).done = true := by
    intro m hm hd k hk
    obtain ⟨d, rfl⟩ : ∃ d, k = m + d := ⟨k - m, by omega⟩
    clear hk
    induction d with
    | zero => exact hd
    | succ d ih =>
      have e1 := hc (m + d) (by omega)
      have e2 := hc (m + d + 1) (by omega)
      rw [show m + (d + 1) = m + d + 1 from rfl]
      generalize m + d = k at *
      simp only [Circuit.wave, Circuit.st_succ] at ih ⊢
      generalize (tca9548a i2cAddr).st i k = s at *
      obtain ⟨mux, init, ctrlR, addrN⟩ := s
      simp only [tca9548a, Bool.and_eq_true, beq_iff_eq, Bool.not_eq_true'] at ih
      obtain ⟨⟨rfl, rfl⟩, rfl⟩ := ih
      simp [tca9548a, e1, e2]
  have hold : ∀ k, ((tca9548a i2cAddr).st i k).mux = true → (i k).ready = false →
      (tca9548a i2cAddr).st i (k + 1) = (tca9548a i2cAddr).st i k := by
    intro k h1 h2
    rw [Circuit.st_succ]
    simp [tca9548a, h2] at h1 ⊢
    intro h; simp [h1] at h
  -- in MUX, wait for a ready cycle
  have wait : ∀ k, ((tca9548a i2cAddr).st i k).mux = true →
      ∃ m, k ≤ m ∧ (i m).ready = true ∧
        (tca9548a i2cAddr).st i m = (tca9548a i2cAddr).st i k := by
    intro k hk
    obtain ⟨m, hm, hmr⟩ := hr k hk
    obtain ⟨d, rfl⟩ : ∃ d, m = k + d := ⟨m - k, by omega⟩
    clear hm
    induction d generalizing k with
    | zero => exact ⟨k, by omega, hmr, rfl⟩
    | succ d ih =>
      cases h : (i k).ready
      · have e := hold k hk h
        obtain ⟨m, a, b, c⟩ := ih (k + 1) (by rw [e]; exact hk)
          (by rw [show k + 1 + d = k + (d + 1) by omega]; exact hmr)
        exact ⟨m, by omega, b, by rw [c, e]⟩
      · exact ⟨k, by omega, h, rfl⟩
  -- leave MUX
  have leave1 : ∀ k, ((tca9548a i2cAddr).st i k).mux = true →
      ((tca9548a i2cAddr).st i k).addrN = true →
      ∃ m, k < m ∧ ((tca9548a i2cAddr).st i m).mux = false ∧
        ((tca9548a i2cAddr).st i m).init = ((tca9548a i2cAddr).st i k).init ∧
        ((tca9548a i2cAddr).st i m).ctrlR = ((tca9548a i2cAddr).st i k).ctrlR := by
    intro k h1 h2
    obtain ⟨m, hm, hmr, e⟩ := wait k h1
    refine ⟨m + 1, by omega, ?_⟩
    rw [Circuit.st_succ, e]
    generalize (tca9548a i2cAddr).st i k = s at *
    simp [tca9548a, h1, h2, hmr]
  have leave : ∀ k, ((tca9548a i2cAddr).st i k).mux = true →
      ∃ m, k < m ∧ ((tca9548a i2cAddr).st i m).mux = false ∧
        ((tca9548a i2cAddr).st i m).init = ((tca9548a i2cAddr).st i k).init ∧
        ((tca9548a i2cAddr).st i m).ctrlR = ((tca9548a i2cAddr).st i k).ctrlR := by
    intro k h1
    cases h2 : ((tca9548a i2cAddr).st i k).addrN
    · obtain ⟨m, hm, hmr, e⟩ := wait k h1
      have f1 : ((tca9548a i2cAddr).st i (m + 1)).mux = true ∧
          ((tca9548a i2cAddr).st i (m + 1)).addrN = true ∧
          ((tca9548a i2cAddr).st i (m + 1)).init = ((tca9548a i2cAddr).st i k).init ∧
          ((tca9548a i2cAddr).st i (m + 1)).ctrlR = ((tca9548a i2cAddr).st i k).ctrlR := by
        rw [Circuit.st_succ, e]
        generalize (tca9548a i2cAddr).st i k = s at *
        simp [tca9548a, h1, h2, hmr]
      obtain ⟨m', a, b, c, d⟩ := leave1 (m + 1) f1.1 f1.2.1
      exact ⟨m', by omega, b, by rw [c, f1.2.2.1], by rw [d, f1.2.2.2]⟩
    · exact leave1 k h1 h2
  -- initialised
  have hinit : ∀ k, ((tca9548a i2cAddr).st i k).mux = true →
      ((tca9548a i2cAddr).st i k).init = true := by
    intro k h
    obtain ⟨cs, _, g2, _⟩ := tca_rel i2cAddr i k
    cases h' : ((tca9548a i2cAddr).st i k).init
    · have := (g2 h').1; rw [h] at this; cases this
    · rfl
  -- from an initialised idle state
  have fromIdle : ∀ k, n ≤ k → ((tca9548a i2cAddr).st i k).mux = false →
      ((tca9548a i2cAddr).st i k).init = true →
      ∃ m, n ≤ m ∧ ((tca9548a i2cAddr).wave i m).done = true := by
    intro k hk h1 h2
    by_cases h3 : (i k).ctrl = ((tca9548a i2cAddr).st i k).ctrlR
    · refine ⟨k, hk, ?_⟩
      simp only [Circuit.wave]
      generalize (tca9548a i2cAddr).st i k = s at *
      simp [tca9548a, h1, h2, h3]
    · have f : ((tca9548a i2cAddr).st i (k + 1)).mux = true ∧
          ((tca9548a i2cAddr).st i (k + 1)).ctrlR = (i k).ctrl := by
        rw [Circuit.st_succ]
        generalize (tca9548a i2cAddr).st i k = s at *
        simp [tca9548a, h1, h2, h3]
      obtain ⟨m, a, b, c, d⟩ := leave (k + 1) f.1
      refine ⟨m, by omega, ?_⟩
      have e := hinit (k + 1) f.1
      rw [e] at c
      rw [f.2, hc k hk, ← hc m (by omega)] at d
      simp only [Circuit.wave]
      generalize (tca9548a i2cAddr).st i m = s at *
      simp [tca9548a, b, c, d]
  have ex : ∃ m, n ≤ m ∧ ((tca9548a i2cAddr).wave i m).done = true := by
    cases h1 : ((tca9548a i2cAddr).st i n).mux
    · cases h2 : ((tca9548a i2cAddr).st i n).init
      · have f : ((tca9548a i2cAddr).st i (n + 1)).mux = true := by
          rw [Circuit.st_succ]
          generalize (tca9548a i2cAddr).st i n = s at *
          simp [tca9548a, h1, h2]
        obtain ⟨m, a, b, c, d⟩ := leave (n + 1) f
        rw [hinit _ f] at c
        exact fromIdle m (by omega) b c
      · exact fromIdle n (by omega) h1 h2
    · obtain ⟨m, a, b, c, d⟩ := leave n h1
      rw [hinit _ h1] at c
      exact fromIdle m (by omega) b c
  obtain ⟨m, hm, hd⟩ := ex
  exact ⟨m, hm, stay m hm hd⟩

example : tcaDelivered 0x70 (fun _ => ⟨4, true⟩) 8
    = tcaPacket 0x70 0 ++ tcaPacket 0x70 4 := by decide

example : ((tca9548a 0x70).wave (fun _ => ⟨4, true⟩) 6).done = true ∧
    ((tca9548a 0x70).wave (fun _ => ⟨4, true⟩) 3).done = false := by decide

end Lambdalib
