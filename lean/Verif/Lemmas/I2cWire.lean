import Verif.Lemmas.I2cStream
import Verif.Spec.I2cTarget

/-! The initiator, the bus driver and a target on common wires: a clock pulse of the initiator is a clock pulse of the
target. -/

namespace Lambdalib

section
variable {τ : Type} (T : I2cTarget τ)

/-- What the lines and the target have been through: levels in the previous cycle, outputs of the synchronisers, target. -/
structure WireS (τ : Type) where
  scl1 : Bool
  scl2 : Bool
  sda1 : Bool
  sda2 : Bool
  tgt : τ

/-- Next cycle on the wires. -/
def wireNext (e : WireS τ) (sclO sdaO hold : Bool) : WireS τ :=
  let scl := sclO && !(hold && !e.scl1)
  let sda := sdaO && T.sda e.tgt
  ⟨scl, e.scl1, sda, e.sda1, T.see e.tgt e.scl1 e.sda1 scl sda⟩

/-- SCL is high before the pulse. -/
def phL (t0 : τ) (s : I2cS) (e : WireS τ) : Prop :=
  s.sclO = true ∧ e.scl1 = true ∧ e.tgt = t0 ∧ e.sda1 = (s.sdaO && T.sda t0)

/-- SCL has been pulled low, SDA is about to change. -/
def phX (q : Nat) (t0 : τ) (s : I2cS) (e : WireS τ) : Prop :=
  s.sclO = false ∧
    ((e.scl1 = true ∧ e.tgt = t0 ∧ s.timer = q) ∨ (e.scl1 = false ∧ e.tgt = T.fall t0))

/-- SDA is set; SCL is about to be released, or has been. -/
def phH (q : Nat) (t0 : τ) (s : I2cS) (e : WireS τ) : Prop :=
  (s.sclO = false ∧ e.scl1 = false ∧ e.scl2 = false ∧ e.tgt = T.fall t0 ∧
    (s.timer < q → e.sda1 = (s.sdaO && T.sda (T.fall t0))) ∧
    (s.timer + 1 < q → e.sda2 = (s.sdaO && T.sda (T.fall t0)))) ∨
  (s.sclO = true ∧ s.timer = q ∧ e.sda1 = (s.sdaO && T.sda (T.fall t0)) ∧
    e.sda2 = (s.sdaO && T.sda (T.fall t0)) ∧
    ((e.scl1 = false ∧ e.scl2 = false ∧ e.tgt = T.fall t0) ∨
      (e.scl1 = true ∧ e.tgt = T.pulse t0 s.sdaO)))

/-- SCL is high after the pulse. -/
def phN (t0 : τ) (s : I2cS) (e : WireS τ) : Prop :=
  s.sclO = true ∧ e.scl1 = true ∧ e.sda1 = (s.sdaO && T.sda (T.fall t0)) ∧
    e.sda2 = (s.sdaO && T.sda (T.fall t0)) ∧ e.tgt = T.pulse t0 s.sdaO

variable {T}

/-- Relevant registers of the core, free of the FSM. -/
theorem phL_stay (hT : T.Conforming) {t0 : τ} {s s' : I2cS} {e : WireS τ} {hold : Bool} (h : phL T t0 s e)
    (h1 : s'.sclO = s.sclO) (h2 : s'.sdaO = s.sdaO) :
    phL T t0 s' (wireNext T e s.sclO s.sdaO hold) ∧ (wireNext T e s.sclO s.sdaO hold).scl2 = true := by
  obtain ⟨a, b, c, d⟩ := h
  subst c
  rw [phL, h1, h2]
  simp [wireNext, a, b, d, I2cTarget.see]
  grind

theorem phL_fall {q : Nat} {t0 : τ} {s s' : I2cS} {e : WireS τ} {hold : Bool} (h : phL T t0 s e)
    (h1 : s'.sclO = false) (h2 : s'.timer = q) :
    phX T q t0 s' (wireNext T e s.sclO s.sdaO hold) := by
  obtain ⟨a, b, c, d⟩ := h
  subst c
  rw [phX, h1, h2]
  simp [wireNext, a, b, d, I2cTarget.see]
  grind

theorem phX_stay {q : Nat} {t0 : τ} {s s' : I2cS} {e : WireS τ} {hold : Bool} (h : phX T q t0 s e)
    (h1 : s'.sclO = s.sclO) :
    phX T q t0 s' (wireNext T e s.sclO s.sdaO hold) := by
  obtain ⟨a, h⟩ := h
  rw [phX, h1]
  rcases h with ⟨b, c, d⟩ | ⟨b, c⟩ <;> simp [wireNext, a, b, c, I2cTarget.see]

theorem phX_set {q : Nat} {t0 : τ} {s s' : I2cS} {e : WireS τ} {hold : Bool} (h : phX T q t0 s e)
    (hq : 1 ≤ q) (ht : s.timer = 0) (h1 : s'.sclO = s.sclO) (h2 : s'.timer = q) :
    phH T q t0 s' (wireNext T e s.sclO s.sdaO hold) := by
  obtain ⟨a, h⟩ := h
  rw [phH, h1, h2]
  rcases h with ⟨b, c, d⟩ | ⟨b, c⟩
  · omega
  · simp [wireNext, a, b, c, I2cTarget.see]
    omega

/-- Before SCL is released. -/
theorem phH_low {q : Nat} {t0 : τ} {s s' : I2cS} {e : WireS τ} {hold : Bool} (h : phH T q t0 s e)
    (hl : s.sclO = false) (h1 : s'.sclO = false) (h2 : s'.sdaO = s.sdaO) (h3 : s'.timer + 1 = s.timer) :
    phH T q t0 s' (wireNext T e s.sclO s.sdaO hold) := by
  rcases h with h | h
  · obtain ⟨a, b, c, d, f, g⟩ := h
    left
    rw [h1, h2]
    simp only [wireNext, a, b, d, I2cTarget.see]
    refine ⟨by simp, by simp, by simp, by simp, fun _ => by simp, fun h => f (by omega)⟩
  · rw [hl] at h; simp at h

theorem phH_release {q : Nat} {t0 : τ} {s s' : I2cS} {e : WireS τ} {hold : Bool} (h : phH T q t0 s e)
    (hq : 1 ≤ q) (hl : s.sclO = false) (ht : s.timer = 0) (h1 : s'.sclO = true) (h2 : s'.sdaO = s.sdaO)
    (h3 : s'.timer = q) :
    phH T q t0 s' (wireNext T e s.sclO s.sdaO hold) := by
  rcases h with h | h
  · obtain ⟨a, b, c, d, f, g⟩ := h
    right
    rw [h1, h2]
    simp only [wireNext, a, b, d, I2cTarget.see]
    exact ⟨by simp, h3, by simp, f (by omega), .inl ⟨by simp, by simp, by simp⟩⟩
  · rw [hl] at h; simp at h

/-- Waiting for SCL to be seen high. -/
theorem phH_wait (hT : T.Conforming) {q : Nat} {t0 : τ} {s s' : I2cS} {e : WireS τ} {hold : Bool} (h : phH T q t0 s e)
    (hl : s.sclO = true) (h1 : s'.sclO = true) (h2 : s'.sdaO = s.sdaO) (h3 : s'.timer = s.timer) :
    phH T q t0 s' (wireNext T e s.sclO s.sdaO hold) := by
  rcases h with h | h
  · rw [hl] at h; simp at h
  · obtain ⟨a, b, c, d, f⟩ := h
    right
    have hp : T.sda (T.pulse t0 s.sdaO) = T.sda (T.fall t0) := hT.rise _ _
    rw [h1, h2, h3]
    rcases f with ⟨f1, f2, f3⟩ | ⟨f1, f2⟩
    · simp only [wireNext, a, c, f1, f3, I2cTarget.see]
      refine ⟨by simp, b, by simp, by simp, ?_⟩
      cases hold
      · right; simp [I2cTarget.pulse]
      · left; simp
    · simp only [wireNext, a, c, f1, f2, I2cTarget.see, hp]
      refine ⟨by simp, b, by simp, by simp, ?_⟩
      right
      simp
      cases s.sdaO <;> cases T.sda (T.fall t0) <;> simp

/-- SCL has been seen high, or is taken to be high without looking. -/
theorem phH_done (hT : T.Conforming) {q : Nat} {t0 : τ} {s s' : I2cS} {e : WireS τ} {hold : Bool} (h : phH T q t0 s e)
    (hl : s.sclO = true) (hs : e.scl2 = true ∨ hold = false) (h1 : s'.sclO = true) (h2 : s'.sdaO = s.sdaO) :
    phN T t0 s' (wireNext T e s.sclO s.sdaO hold) := by
  rcases h with h | h
  · rw [hl] at h; simp at h
  · obtain ⟨a, b, c, d, f⟩ := h
    have hp : T.sda (T.pulse t0 s.sdaO) = T.sda (T.fall t0) := hT.rise _ _
    rw [phN, h1, h2]
    rcases f with ⟨f1, f2, f3⟩ | ⟨f1, f2⟩
    · have : hold = false := by
        rcases hs with hs | hs
        · rw [f2] at hs; cases hs
        · exact hs
      subst this
      simp only [wireNext, a, c, f1, f3, I2cTarget.see]
      refine ⟨by simp, by simp, by simp, by simp, ?_⟩
      simp [I2cTarget.pulse]
    · simp only [wireNext, a, c, f1, f2, I2cTarget.see, hp]
      refine ⟨by simp, by simp, by simp, by simp, ?_⟩
      simp
      cases s.sdaO <;> cases T.sda (T.fall t0) <;> simp

theorem phH_sda {q : Nat} {t0 : τ} {s : I2cS} {e : WireS τ} (h : phH T q t0 s e) (hl : s.sclO = true) :
    e.sda2 = (s.sdaO && T.sda (T.fall t0)) ∧ s.timer = q := by
  rcases h with h | h
  · rw [hl] at h; simp at h
  · exact ⟨h.2.2.2.1, h.2.1⟩

theorem phN_stay (hT : T.Conforming) {t0 : τ} {s s' : I2cS} {e : WireS τ} {hold : Bool} (h : phN T t0 s e)
    (h1 : s'.sclO = s.sclO) (h2 : s'.sdaO = s.sdaO) :
    phN T t0 s' (wireNext T e s.sclO s.sdaO hold) ∧
      phL T (T.pulse t0 s.sdaO) s' (wireNext T e s.sclO s.sdaO hold) ∧
      (wireNext T e s.sclO s.sdaO hold).scl2 = true := by
  obtain ⟨a, b, c, d, f⟩ := h
  have hp : T.sda (T.pulse t0 s.sdaO) = T.sda (T.fall t0) := hT.rise _ _
  rw [phN, phL, h1, h2]
  simp only [wireNext, a, b, c, d, f, I2cTarget.see, hp]
  simp
  cases s.sdaO <;> cases T.sda (T.fall t0) <;> simp

/-! ### One step of the core -/

variable {period : Nat} {stretch bidir : Bool} {q : Nat}

/-- The core sees the lines through the bus driver, and SCL is held by the target only if the core can wait. -/
structure wireIn (stretch bidir : Bool) (s : I2cS) (e : WireS τ) (hold : Bool) (x : I2cIn) : Prop where
  scl : x.sclI = if bidir then e.scl2 else s.sclO
  sda : x.sdaI = e.sda2
  hold : hold = true → bidir = true ∧ stretch = true

theorem step_L (hT : T.Conforming) (hq : truncRange period (period / 4) = q) {t0 : τ} {s : I2cS} {e : WireS τ}
    {hold : Bool} {x : I2cIn} {nxt : I2cSt} (h : phL T t0 s e)
    {s' : I2cS} (hs : s' = { i2cSclL s (s.timer == 0) nxt with timer := i2cTimer period stretch s x }) :
    (∃ tm, s' = { s with timer := tm } ∧ phL T t0 s' (wireNext T e s.sclO s.sdaO hold)) ∨
    (s' = { s with sclO := false, fsm := nxt, timer := q } ∧ phX T q t0 s' (wireNext T e s.sclO s.sdaO hold)) := by
  subst hs
  simp only [i2cSclL]
  split
  · right
    rename_i ht
    have : i2cTimer period stretch s x = q := by simp [i2cTimer, ht, hq]
    rw [this]
    exact ⟨rfl, phL_fall h rfl rfl⟩
  · left
    exact ⟨_, rfl, (phL_stay hT h rfl rfl).1⟩

theorem step_X (hq : truncRange period (period / 4) = q) (hq1 : 1 ≤ q) {t0 : τ} {s : I2cS} {e : WireS τ}
    {hold : Bool} {x : I2cIn} {nxt : I2cSt} (h : phX T q t0 s e) {upd : I2cS → I2cS} (hu : (upd s).sclO = s.sclO)
    {s' : I2cS} (hs : s' = { i2cStbX s (s.timer == 0) nxt upd with timer := i2cTimer period stretch s x }) :
    (∃ tm, s' = { s with timer := tm } ∧ phX T q t0 s' (wireNext T e s.sclO s.sdaO hold)) ∨
    (s' = { upd s with fsm := nxt, timer := q } ∧ phH T q t0 s' (wireNext T e s.sclO s.sdaO hold)) := by
  subst hs
  simp only [i2cStbX]
  split
  · right
    rename_i ht
    have : i2cTimer period stretch s x = q := by simp [i2cTimer, ht, hq]
    rw [this]
    exact ⟨rfl, phX_set h hq1 (by simpa using ht) hu rfl⟩
  · left
    exact ⟨_, rfl, phX_stay h rfl⟩

theorem step_H (hT : T.Conforming) (hq : truncRange period (period / 4) = q) (hq1 : 1 ≤ q) {t0 : τ} {s : I2cS}
    {e : WireS τ} {hold : Bool} {x : I2cIn} {nxt : I2cSt} (hx : wireIn stretch bidir s e hold x)
    (hb : s.busy = true) (h : phH T q t0 s e)
    {upd : I2cS → I2cS} (hu : (upd s).sclO = s.sclO) (hu' : (upd s).sdaO = s.sdaO)
    {s' : I2cS} (hs : s' = { i2cSclH stretch s x (s.timer == 0) nxt upd with timer := i2cTimer period stretch s x }) :
    (∃ b tm, s' = { s with sclO := b, timer := tm } ∧ phH T q t0 s' (wireNext T e s.sclO s.sdaO hold)) ∨
    (∃ tm, s' = { upd s with fsm := nxt, timer := tm } ∧ x.sdaI = (s.sdaO && T.offers t0) ∧
      phN T t0 s' (wireNext T e s.sclO s.sdaO hold)) := by
  subst hs
  obtain ⟨hx1, hx2, hx3⟩ := hx
  cases ht : (s.timer == 0)
  · cases hl : s.sclO
    · -- SCL still low
      left
      refine ⟨false, i2cTimer period stretch s x, by simp [i2cSclH, hl], ?_⟩
      simp only [i2cSclH, hl]
      simp
      have hc : e.scl2 = false := by
        rcases h with h | h
        · exact h.2.2.1
        · rw [hl] at h; simp at h
      have hxs : x.sclI = false := by rw [hx1, hc, hl]; simp
      have ht2 : i2cTimer period stretch s x + 1 = s.timer := by
        simp only [beq_eq_false_iff_ne] at ht
        simp [i2cTimer, ht, hb, hl, hxs]
        omega
      have := phH_low (s' := { s with timer := i2cTimer period stretch s x }) (hold := hold) h hl hl rfl ht2
      simpa [hl] using this
    · have hsda := phH_sda h hl
      cases hc : (!stretch || x.sclI == true)
      · left
        refine ⟨true, i2cTimer period stretch s x, by simp only [i2cSclH, hl, hc]; simp [hl], ?_⟩
        simp only [i2cSclH, hl, hc]
        simp
        have ht2 : i2cTimer period stretch s x = s.timer := by
          simp only [beq_eq_false_iff_ne] at ht
          simp only [Bool.or_eq_false_iff, Bool.not_eq_false', beq_eq_false_iff_ne, ne_eq, Bool.not_eq_true] at hc
          simp [i2cTimer, ht, hb, hl, hc]
        have := phH_wait hT (s' := { s with timer := i2cTimer period stretch s x }) (hold := hold) h hl hl rfl ht2
        simpa [hl] using this
      · right
        refine ⟨i2cTimer period stretch s x, by simp only [i2cSclH, hl, hc]; simp [hl], ?_⟩
        simp only [i2cSclH, hl, hc]
        simp
        have hh : e.scl2 = true ∨ hold = false := by
          cases hold
          · exact .inr rfl
          · obtain ⟨h1, h2⟩ := hx3 rfl
            left
            rw [h2] at hc
            rw [h1] at hx1
            simp only [if_true] at hx1
            rw [← hx1]
            simpa using hc
        have := phH_done hT (s' := { upd s with fsm := nxt, timer := i2cTimer period stretch s x }) (hold := hold)
          h hl hh (by rw [← hl]; exact hu) hu'
        rw [hl] at this
        exact ⟨by rw [hx2]; exact hsda.1, this⟩
  · left
    have ht' : s.timer = 0 := by simpa using ht
    have hl : s.sclO = false := by
      cases hl : s.sclO
      · rfl
      · have := (phH_sda h hl).2
        omega
    refine ⟨true, i2cTimer period stretch s x, by simp [i2cSclH], ?_⟩
    simp only [i2cSclH]
    simp
    have ht2 : i2cTimer period stretch s x = q := by simp [i2cTimer, ht', hq]
    exact phH_release (s' := { s with sclO := true, timer := i2cTimer period stretch s x }) h hq1 hl ht' rfl rfl ht2

theorem step_N (hT : T.Conforming) {t0 : τ} {s : I2cS} {e : WireS τ}
    {hold : Bool} {x : I2cIn} {nxt : I2cSt} (h : phN T t0 s e) {upd : I2cS → I2cS} (hu : (upd s).sclO = s.sclO)
    (hu' : (upd s).sdaO = s.sdaO)
    {s' : I2cS} (hs : s' = { i2cStbX s (s.timer == 0) nxt upd with timer := i2cTimer period stretch s x }) :
    (∃ tm, s' = { s with timer := tm } ∧ phN T t0 s' (wireNext T e s.sclO s.sdaO hold)) ∨
    (∃ tm, s' = { upd s with fsm := nxt, timer := tm } ∧
      phL T (T.pulse t0 s.sdaO) s' (wireNext T e s.sclO s.sdaO hold) ∧
      (wireNext T e s.sclO s.sdaO hold).scl2 = true ∧
      (wireNext T e s.sclO s.sdaO hold).sda2 = (s.sdaO && T.sda (T.fall t0))) := by
  subst hs
  simp only [i2cStbX]
  split
  · right
    obtain ⟨a, b, c⟩ := phN_stay hT (s' := { upd s with fsm := nxt, timer := i2cTimer period stretch s x }) (hold := hold)
      h hu hu'
    refine ⟨_, rfl, b, c, h.2.2.1⟩
  · left
    exact ⟨_, rfl, (phN_stay hT h rfl rfl).1⟩

/-! ### Commands -/

/-- The low bits of a byte, the first one shifted in being the highest. -/
def bitsOf (r : BitVec 8) (l : List Bool) : Prop :=
  ∀ j (hj : j < l.length), r.getLsbD (l.length - 1 - j) = l[j]

variable (T)

/-- Bits offered by the target during a read. -/
def readBits (t : τ) (k : Nat) : List Bool :=
  (List.range k).map fun j => T.offers (T.pulses t (List.replicate j true))

/-- A command taken with the target in state `tc` and SDA released by the core or not (`m`) is under way. -/
def wireRel (q : Nat) (tc : τ) (m : Bool) (c : I2cCmd) (s : I2cS) (e : WireS τ) : Prop :=
  s.busy = true ∧
  match s.fsm with
  | .idle => False
  | .startSclL => c = .start ∧ T.offers tc = true ∧ phL T tc s e
  | .startSdaH => c = .start ∧ T.offers tc = true ∧ phX T q tc s e
  | .startSclH => c = .start ∧ T.offers tc = true ∧ s.sdaO = true ∧ phH T q tc s e
  | .startSdaL => c = .start ∧ s.sclO = true ∧ e.scl1 = true ∧ e.sda1 = true ∧ s.sdaO = true ∧
      T.sda e.tgt = true ∧ ((m = true ∧ e.tgt = tc) ∨ e.tgt = T.pulse tc true)
  | .stopSclL => c = .stop ∧ m = true ∧ T.offers tc = true ∧ phL T tc s e
  | .stopSdaL => c = .stop ∧ m = true ∧ T.offers tc = true ∧ phX T q tc s e
  | .stopSclH => c = .stop ∧ m = true ∧ T.offers tc = true ∧ s.sdaO = false ∧ phH T q tc s e
  | .stopSdaH => c = .stop ∧ s.sclO = true ∧ e.scl1 = true ∧ e.sda1 = false ∧ s.sdaO = false ∧
      T.sda e.tgt = true ∧ ((m = false ∧ e.tgt = tc) ∨ (m = true ∧ e.tgt = T.pulse tc false))
  | .wDataSclL => ∃ d, c = .write d ∧ s.wSh = d <<< s.bitno ∧ phL T (T.pulses tc (msbBits d s.bitno)) s e
  | .wDataSdaX => ∃ d, c = .write d ∧ s.wSh = d <<< s.bitno ∧ phX T q (T.pulses tc (msbBits d s.bitno)) s e
  | .wDataSclH => ∃ d, c = .write d ∧ s.wSh = d <<< s.bitno ∧ s.sdaO = d.getLsbD (7 - s.bitno) ∧
      phH T q (T.pulses tc (msbBits d s.bitno)) s e
  | .wDataSdaN => ∃ d, c = .write d ∧ s.wSh = d <<< (s.bitno + 1) ∧ s.sdaO = d.getLsbD (7 - s.bitno) ∧
      phN T (T.pulses tc (msbBits d s.bitno)) s e
  | .wAckSclL => ∃ d, c = .write d ∧ phL T (T.pulses tc (msbBits d 8)) s e
  | .wAckSdaH => ∃ d, c = .write d ∧ phX T q (T.pulses tc (msbBits d 8)) s e
  | .wAckSclH => ∃ d, c = .write d ∧ s.sdaO = true ∧ phH T q (T.pulses tc (msbBits d 8)) s e
  | .wAckSdaN => ∃ d, c = .write d ∧ s.sdaO = true ∧ s.ackO = !T.offers (T.pulses tc (msbBits d 8)) ∧
      phN T (T.pulses tc (msbBits d 8)) s e
  | .rDataSclL => ∃ a, c = .read a ∧ s.rAck = a ∧ bitsOf s.rSh (readBits T tc s.bitno) ∧
      phL T (T.pulses tc (List.replicate s.bitno true)) s e
  | .rDataSdaH => ∃ a, c = .read a ∧ s.rAck = a ∧ bitsOf s.rSh (readBits T tc s.bitno) ∧
      phX T q (T.pulses tc (List.replicate s.bitno true)) s e
  | .rDataSclH => ∃ a, c = .read a ∧ s.rAck = a ∧ bitsOf s.rSh (readBits T tc s.bitno) ∧ s.sdaO = true ∧
      phH T q (T.pulses tc (List.replicate s.bitno true)) s e
  | .rDataSdaN => ∃ a, c = .read a ∧ s.rAck = a ∧ bitsOf s.rSh (readBits T tc (s.bitno + 1)) ∧ s.sdaO = true ∧
      phN T (T.pulses tc (List.replicate s.bitno true)) s e
  | .rAckSclL => ∃ a, c = .read a ∧ s.rAck = a ∧ bitsOf s.rSh (readBits T tc 8) ∧
      phL T (T.pulses tc (List.replicate 8 true)) s e
  | .rAckSdaX => ∃ a, c = .read a ∧ s.rAck = a ∧ bitsOf s.rSh (readBits T tc 8) ∧
      phX T q (T.pulses tc (List.replicate 8 true)) s e
  | .rAckSclH => ∃ a, c = .read a ∧ s.sdaO = !a ∧ bitsOf s.rSh (readBits T tc 8) ∧
      phH T q (T.pulses tc (List.replicate 8 true)) s e
  | .rAckSdaN => ∃ a, c = .read a ∧ s.sdaO = !a ∧ bitsOf s.dataO (readBits T tc 8) ∧
      phN T (T.pulses tc (List.replicate 8 true)) s e

/-- The core waits for a command; `y` is the target after it has seen the present levels, and whether the core releases
SDA. `st` tells that the last command was a start. -/
def wireIdle (st : Bool) (y : τ × Bool) (s : I2cS) (e : WireS τ) : Prop :=
  s.fsm = .idle ∧ s.sclO = true ∧ e.scl1 = true ∧ e.scl2 = true ∧ y.2 = s.sdaO ∧
    T.see e.tgt true e.sda1 true (s.sdaO && T.sda e.tgt) = y.1 ∧
    (s.sdaO && T.sda e.tgt) = (s.sdaO && T.sda y.1) ∧
    (st = false → (e.sda1 = true ∨ e.sda2 = true) → (s.sdaO && T.sda y.1) = true)

/-- Results of a finished command. -/
def wireResult (tc : τ) (c : I2cCmd) (s : I2cS) : Prop :=
  (∀ d, c = .write d → s.ackO = !T.offers (T.pulses tc (msbBits d 8))) ∧
  (∀ a, c = .read a → bitsOf s.dataO (readBits T tc 8))

/-- The command is finished. -/
def wireDone (tc : τ) (m : Bool) (c : I2cCmd) (s : I2cS) (e : WireS τ) : Prop :=
  ∃ y, T.Cmd (tc, m) c y ∧ wireIdle T (c == .start) y s e ∧ wireResult T tc c s

variable {T}

theorem pulses_snoc (t : τ) (l : List Bool) (b : Bool) : T.pulses t (l ++ [b]) = T.pulse (T.pulses t l) b := by
  simp [I2cTarget.pulses]

theorem readBits_succ (t : τ) (k : Nat) :
    readBits T t (k + 1) = readBits T t k ++ [T.offers (T.pulses t (List.replicate k true))] := by
  simp [readBits, List.range_succ]

@[simp] theorem readBits_length (t : τ) (k : Nat) : (readBits T t k).length = k := by simp [readBits]

/-- From the end of a pulse to the waiting state. -/
theorem wireIdle_of_phL (hT : T.Conforming) {t : τ} {s : I2cS} {e : WireS τ} (hf : s.fsm = .idle) (h : phL T t s e)
    (h2 : e.scl2 = true) (h3 : e.sda2 = (s.sdaO && T.sda t)) (st : Bool) :
    wireIdle T st (t, s.sdaO) s e := by
  obtain ⟨a, b, c, d⟩ := h
  subst c
  refine ⟨hf, a, b, h2, rfl, ?_, rfl, ?_⟩
  · simp only [I2cTarget.see, d]
    cases s.sdaO <;> cases T.sda e.tgt <;> simp
  · intro _ h
    rw [d, h3] at h
    simpa using h

theorem wire_step_start (hT : T.Conforming) (hq : truncRange period (period / 4) = q) (hq1 : 1 ≤ q) {tc : τ} {m : Bool}
    {c : I2cCmd} {s : I2cS} {e : WireS τ} {hold : Bool} {x : I2cIn} (hx : wireIn stretch bidir s e hold x)
    (h : wireRel T q tc m c s e)
    (hk : s.fsm = .startSclL ∨ s.fsm = .startSdaH ∨ s.fsm = .startSclH ∨ s.fsm = .startSdaL) :
    wireRel T q tc m c ((i2cInitiator period stretch).next s x) (wireNext T e s.sclO s.sdaO hold) ∨
    wireDone T tc m c ((i2cInitiator period stretch).next s x) (wireNext T e s.sclO s.sdaO hold) := by
  generalize hs' : (i2cInitiator period stretch).next s x = s'
  simp only [i2cInitiator, i2cFsm] at hs'
  obtain ⟨hb, h⟩ := h
  rcases hk with hf | hf | hf | hf <;> simp only [hf] at h hs'
  · obtain ⟨h1, h2, h3⟩ := h
    left
    rcases step_L hT hq (hold := hold) h3 hs'.symm with ⟨tm, e1, e2⟩ | ⟨e1, e2⟩ <;> subst e1 <;>
      simp only [wireRel, hf] <;> exact ⟨hb, h1, h2, e2⟩
  · obtain ⟨h1, h2, h3⟩ := h
    left
    rcases step_X hq hq1 (hold := hold) h3 (by rfl) hs'.symm with ⟨tm, e1, e2⟩ | ⟨e1, e2⟩ <;> subst e1 <;>
      simp only [wireRel, hf]
    · exact ⟨hb, h1, h2, e2⟩
    · exact ⟨hb, h1, h2, trivial, e2⟩
  · obtain ⟨h1, h2, h3, h4⟩ := h
    left
    rcases step_H hT hq hq1 hx hb h4 (by rfl) (by rfl) hs'.symm with ⟨b, tm, e1, e2⟩ | ⟨tm, e1, e2, e3⟩ <;> subst e1 <;>
      simp only [wireRel, hf]
    · exact ⟨hb, h1, h2, h3, e2⟩
    · obtain ⟨f1, f2, f3, f4, f5⟩ := e3
      have : T.sda (T.fall tc) = true := h2
      have hp : T.sda (T.pulse tc true) = T.sda (T.fall tc) := hT.rise _ _
      simp only [id, h3, this] at f1 f2 f3 f4 f5
      refine ⟨hb, h1, f1, by rw [h3]; exact f2, by rw [h3]; simpa using f3, h3, ?_, .inr ?_⟩
      · rw [h3, f5, hp, this]
      · rw [h3]; exact f5
  · obtain ⟨h1, h2, h3, h4, h5, h6, h7⟩ := h
    subst hs'
    simp only [i2cStbX]
    split
    · right
      subst h1
      refine ⟨(T.start e.tgt, false), ?_, ?_, ?_, ?_⟩
      · rcases h7 with ⟨g1, g2⟩ | g
        · subst g1; rw [g2]; exact .startNow _
        · rw [g]; exact .startPulse _ _
      · refine ⟨rfl, h2, ?_, ?_, rfl, ?_, ?_, ?_⟩
        · simp [wireNext, h2, h3]
        · simp [wireNext, h3]
        · simp [wireNext, h2, h3, h4, h5, h6, I2cTarget.see]
        · simp
        · simp
      · simp
      · simp
    · left
      simp only [wireRel, hf]
      refine ⟨hb, h1, h2, ?_, ?_, h5, ?_, ?_⟩ <;>
        simp [wireNext, h2, h3, h4, h5, h6, I2cTarget.see, h7]

theorem wire_step_stop (hT : T.Conforming) (hq : truncRange period (period / 4) = q) (hq1 : 1 ≤ q) {tc : τ} {m : Bool}
    {c : I2cCmd} {s : I2cS} {e : WireS τ} {hold : Bool} {x : I2cIn} (hx : wireIn stretch bidir s e hold x)
    (h : wireRel T q tc m c s e)
    (hk : s.fsm = .stopSclL ∨ s.fsm = .stopSdaL ∨ s.fsm = .stopSclH ∨ s.fsm = .stopSdaH) :
    wireRel T q tc m c ((i2cInitiator period stretch).next s x) (wireNext T e s.sclO s.sdaO hold) ∨
    wireDone T tc m c ((i2cInitiator period stretch).next s x) (wireNext T e s.sclO s.sdaO hold) := by
  generalize hs' : (i2cInitiator period stretch).next s x = s'
  simp only [i2cInitiator, i2cFsm] at hs'
  obtain ⟨hb, h⟩ := h
  rcases hk with hf | hf | hf | hf <;> simp only [hf] at h hs'
  · obtain ⟨h1, h0, h2, h3⟩ := h
    left
    rcases step_L hT hq (hold := hold) h3 hs'.symm with ⟨tm, e1, e2⟩ | ⟨e1, e2⟩ <;> subst e1 <;>
      simp only [wireRel, hf] <;> exact ⟨hb, h1, h0, h2, e2⟩
  · obtain ⟨h1, h0, h2, h3⟩ := h
    left
    rcases step_X hq hq1 (hold := hold) h3 (by rfl) hs'.symm with ⟨tm, e1, e2⟩ | ⟨e1, e2⟩ <;> subst e1 <;>
      simp only [wireRel, hf]
    · exact ⟨hb, h1, h0, h2, e2⟩
    · exact ⟨hb, h1, h0, h2, trivial, e2⟩
  · obtain ⟨h1, h0, h2, h3, h4⟩ := h
    left
    rcases step_H hT hq hq1 hx hb h4 (by rfl) (by rfl) hs'.symm with ⟨b, tm, e1, e2⟩ | ⟨tm, e1, e2, e3⟩ <;> subst e1 <;>
      simp only [wireRel, hf]
    · exact ⟨hb, h1, h0, h2, h3, e2⟩
    · obtain ⟨f1, f2, f3, f4, f5⟩ := e3
      have : T.sda (T.fall tc) = true := h2
      have hp : T.sda (T.pulse tc false) = T.sda (T.fall tc) := hT.rise _ _
      simp only [id, h3, this] at f1 f2 f3 f4 f5
      refine ⟨hb, h1, f1, by rw [h3]; exact f2, by rw [h3]; simpa using f3, h3, ?_, .inr ⟨h0, ?_⟩⟩
      · rw [h3, f5, hp, this]
      · rw [h3]; exact f5
  · obtain ⟨h1, h2, h3, h4, h5, h6, h7⟩ := h
    subst hs'
    simp only [i2cStbX]
    split
    · right
      subst h1
      refine ⟨(T.stop e.tgt, true), ?_, ?_, ?_, ?_⟩
      · rcases h7 with ⟨g1, g2⟩ | ⟨g1, g2⟩
        · subst g1; rw [g2]; exact .stopNow _
        · subst g1; rw [g2]; exact .stopPulse _
      · have hst := hT.stop e.tgt
        refine ⟨rfl, h2, ?_, ?_, rfl, ?_, ?_, ?_⟩
        · simp [wireNext, h2, h3]
        · simp [wireNext, h3]
        · simp [wireNext, h2, h3, h4, h5, h6, I2cTarget.see]
        · simp [wireNext, h2, h3, h4, h5, h6, I2cTarget.see, hst]
        · simp [hst]
      · simp
      · simp
    · left
      simp only [wireRel, hf]
      refine ⟨hb, h1, h2, ?_, ?_, h5, ?_, ?_⟩ <;>
        simp [wireNext, h2, h3, h4, h5, h6, I2cTarget.see, h7]

theorem wire_step_write (hT : T.Conforming) (hq : truncRange period (period / 4) = q) (hq1 : 1 ≤ q) {tc : τ} {m : Bool}
    {c : I2cCmd} {s : I2cS} {e : WireS τ} {hold : Bool} {x : I2cIn} (hx : wireIn stretch bidir s e hold x)
    (hi : i2cInv s) (h : wireRel T q tc m c s e)
    (hk : s.fsm = .wDataSclL ∨ s.fsm = .wDataSdaX ∨ s.fsm = .wDataSclH ∨ s.fsm = .wDataSdaN ∨
      s.fsm = .wAckSclL ∨ s.fsm = .wAckSdaH ∨ s.fsm = .wAckSclH ∨ s.fsm = .wAckSdaN) :
    wireRel T q tc m c ((i2cInitiator period stretch).next s x) (wireNext T e s.sclO s.sdaO hold) ∨
    wireDone T tc m c ((i2cInitiator period stretch).next s x) (wireNext T e s.sclO s.sdaO hold) := by
  generalize hs' : (i2cInitiator period stretch).next s x = s'
  simp only [i2cInitiator, i2cFsm] at hs'
  obtain ⟨hb, h⟩ := h
  rcases hk with hf | hf | hf | hf | hf | hf | hf | hf <;> simp only [hf] at h hs' <;> obtain ⟨d, h1, h⟩ := h <;>
    simp only [i2cInv, hf] at hi
  · obtain ⟨h2, h3⟩ := h
    left
    rcases step_L hT hq (hold := hold) h3 hs'.symm with ⟨tm, e1, e2⟩ | ⟨e1, e2⟩ <;> subst e1 <;>
      simp only [wireRel, hf] <;> exact ⟨hb, d, h1, h2, e2⟩
  · obtain ⟨h2, h3⟩ := h
    left
    rcases step_X hq hq1 (hold := hold) h3 (by rfl) hs'.symm with ⟨tm, e1, e2⟩ | ⟨e1, e2⟩ <;> subst e1 <;>
      simp only [wireRel, hf]
    · exact ⟨hb, d, h1, h2, e2⟩
    · exact ⟨hb, d, h1, h2, by rw [h2]; exact shl_getLsbD7 d _ hi.2, e2⟩
  · obtain ⟨h2, h3, h4⟩ := h
    left
    rcases step_H hT hq hq1 hx hb h4 (by rfl) (by rfl) hs'.symm with ⟨b, tm, e1, e2⟩ | ⟨tm, e1, e2, e3⟩ <;> subst e1 <;>
      simp only [wireRel, hf]
    · exact ⟨hb, d, h1, h2, h3, e2⟩
    · exact ⟨hb, d, h1, by rw [h2, BitVec.shiftLeft_add], h3, e3⟩
  · obtain ⟨h2, h3, h4⟩ := h
    left
    rcases step_N hT (hold := hold) h4 (by rfl) (by rfl) hs'.symm with ⟨tm, e1, e2⟩ | ⟨tm, e1, e2, _, _⟩
    · subst e1
      simp only [wireRel, hf]
      exact ⟨hb, d, h1, h2, h3, e2⟩
    · rw [show T.pulse (T.pulses tc (msbBits d s.bitno)) s.sdaO = T.pulses tc (msbBits d (s.bitno + 1)) by
        rw [h3, msbBits_succ, pulses_snoc]] at e2
      by_cases h7 : s.bitno = 7
      · simp only [h7, beq_self_eq_true, if_true] at e1
        subst e1
        simp only [wireRel]
        exact ⟨hb, d, h1, by simpa [h7] using e2⟩
      · have : (s.bitno == 7) = false := by simpa using h7
        have h8 : (s.bitno + 1) % 8 = s.bitno + 1 := by omega
        simp only [this, h8] at e1
        simp at e1
        subst e1
        simp only [wireRel]
        exact ⟨hb, d, h1, h2, e2⟩
  · left
    rcases step_L hT hq (hold := hold) h hs'.symm with ⟨tm, e1, e2⟩ | ⟨e1, e2⟩ <;> subst e1 <;>
      simp only [wireRel, hf] <;> exact ⟨hb, d, h1, e2⟩
  · left
    rcases step_X hq hq1 (hold := hold) h (by rfl) hs'.symm with ⟨tm, e1, e2⟩ | ⟨e1, e2⟩ <;> subst e1 <;>
      simp only [wireRel, hf]
    · exact ⟨hb, d, h1, e2⟩
    · exact ⟨hb, d, h1, trivial, e2⟩
  · obtain ⟨h3, h4⟩ := h
    left
    rcases step_H hT hq hq1 hx hb h4 (by rfl) (by rfl) hs'.symm with ⟨b, tm, e1, e2⟩ | ⟨tm, e1, e2, e3⟩ <;> subst e1 <;>
      simp only [wireRel, hf]
    · exact ⟨hb, d, h1, h3, e2⟩
    · exact ⟨hb, d, h1, h3, by rw [e2, h3]; simp, e3⟩
  · obtain ⟨h3, h4, h5⟩ := h
    rcases step_N hT (hold := hold) h5 (by rfl) (by rfl) hs'.symm with ⟨tm, e1, e2⟩ | ⟨tm, e1, e2, e3, e4⟩
    · left
      subst e1
      simp only [wireRel, hf]
      exact ⟨hb, d, h1, h3, h4, e2⟩
    · right
      subst h1
      rw [show T.pulse (T.pulses tc (msbBits d 8)) s.sdaO = T.pulses tc (msbBits d 8 ++ [true]) by
        rw [h3, pulses_snoc]] at e2
      subst e1
      refine ⟨_, .write _ _ _, ?_, ?_, ?_⟩
      · have hp : T.sda (T.pulses tc (msbBits d 8 ++ [true])) = T.sda (T.fall (T.pulses tc (msbBits d 8))) := by
          rw [pulses_snoc]; exact hT.rise _ _
        have := wireIdle_of_phL hT (s := { s with fsm := .idle, timer := tm }) rfl (by exact e2)
          (by exact e3) (by rw [hp]; exact e4) (.write d == I2cCmd.start)
        simp only [id, h3] at this ⊢
        exact this
      · intro d' hd'
        cases hd'
        exact h4
      · intro a ha
        cases ha

theorem wire_step_read (hT : T.Conforming) (hq : truncRange period (period / 4) = q) (hq1 : 1 ≤ q) {tc : τ} {m : Bool}
    {c : I2cCmd} {s : I2cS} {e : WireS τ} {hold : Bool} {x : I2cIn} (hx : wireIn stretch bidir s e hold x)
    (hi : i2cInv s) (h : wireRel T q tc m c s e)
    (hk : s.fsm = .rDataSclL ∨ s.fsm = .rDataSdaH ∨ s.fsm = .rDataSclH ∨ s.fsm = .rDataSdaN ∨
      s.fsm = .rAckSclL ∨ s.fsm = .rAckSdaX ∨ s.fsm = .rAckSclH ∨ s.fsm = .rAckSdaN) :
    wireRel T q tc m c ((i2cInitiator period stretch).next s x) (wireNext T e s.sclO s.sdaO hold) ∨
    wireDone T tc m c ((i2cInitiator period stretch).next s x) (wireNext T e s.sclO s.sdaO hold) := by
  generalize hs' : (i2cInitiator period stretch).next s x = s'
  simp only [i2cInitiator, i2cFsm] at hs'
  obtain ⟨hb, h⟩ := h
  rcases hk with hf | hf | hf | hf | hf | hf | hf | hf <;> simp only [hf] at h hs' <;> obtain ⟨a, h1, h⟩ := h <;>
    simp only [i2cInv, hf] at hi
  · obtain ⟨h0, h2, h3⟩ := h
    left
    rcases step_L hT hq (hold := hold) h3 hs'.symm with ⟨tm, e1, e2⟩ | ⟨e1, e2⟩ <;> subst e1 <;>
      simp only [wireRel, hf] <;> exact ⟨hb, a, h1, h0, h2, e2⟩
  · obtain ⟨h0, h2, h3⟩ := h
    left
    rcases step_X hq hq1 (hold := hold) h3 (by rfl) hs'.symm with ⟨tm, e1, e2⟩ | ⟨e1, e2⟩ <;> subst e1 <;>
      simp only [wireRel, hf]
    · exact ⟨hb, a, h1, h0, h2, e2⟩
    · exact ⟨hb, a, h1, h0, h2, trivial, e2⟩
  · obtain ⟨h0, h2, h3, h4⟩ := h
    left
    rcases step_H hT hq hq1 hx hb h4 (by rfl) (by rfl) hs'.symm with ⟨b, tm, e1, e2⟩ | ⟨tm, e1, e2, e3⟩ <;> subst e1 <;>
      simp only [wireRel, hf]
    · exact ⟨hb, a, h1, h0, h2, h3, e2⟩
    · refine ⟨hb, a, h1, h0, ?_, h3, e3⟩
      rw [h3, Bool.true_and] at e2
      rw [e2, readBits_succ]
      exact shift_in _ _ _ (by simpa using hi) h2
  · obtain ⟨h0, h2, h3, h4⟩ := h
    left
    rcases step_N hT (hold := hold) h4 (by rfl) (by rfl) hs'.symm with ⟨tm, e1, e2⟩ | ⟨tm, e1, e2, _, _⟩
    · subst e1
      simp only [wireRel, hf]
      exact ⟨hb, a, h1, h0, h2, h3, e2⟩
    · rw [show T.pulse (T.pulses tc (List.replicate s.bitno true)) s.sdaO =
          T.pulses tc (List.replicate (s.bitno + 1) true) by rw [h3, List.replicate_succ', pulses_snoc]] at e2
      by_cases h7 : s.bitno = 7
      · simp only [h7, beq_self_eq_true, if_true] at e1
        subst e1
        simp only [wireRel]
        rw [h7] at h2
        exact ⟨hb, a, h1, h0, h2, by simpa [h7] using e2⟩
      · have : (s.bitno == 7) = false := by simpa using h7
        have h8 : (s.bitno + 1) % 8 = s.bitno + 1 := by omega
        simp only [this, h8] at e1
        simp at e1
        subst e1
        simp only [wireRel]
        exact ⟨hb, a, h1, h0, h2, e2⟩
  · obtain ⟨h0, h2, h⟩ := h
    left
    rcases step_L hT hq (hold := hold) h hs'.symm with ⟨tm, e1, e2⟩ | ⟨e1, e2⟩ <;> subst e1 <;>
      simp only [wireRel, hf] <;> exact ⟨hb, a, h1, h0, h2, e2⟩
  · obtain ⟨h0, h2, h⟩ := h
    left
    rcases step_X hq hq1 (hold := hold) h (by rfl) hs'.symm with ⟨tm, e1, e2⟩ | ⟨e1, e2⟩ <;> subst e1 <;>
      simp only [wireRel, hf]
    · exact ⟨hb, a, h1, h0, h2, e2⟩
    · exact ⟨hb, a, h1, by rw [h0], h2, e2⟩
  · obtain ⟨h3, h2, h4⟩ := h
    left
    rcases step_H hT hq hq1 hx hb h4 (by rfl) (by rfl) hs'.symm with ⟨b, tm, e1, e2⟩ | ⟨tm, e1, e2, e3⟩ <;> subst e1 <;>
      simp only [wireRel, hf]
    · exact ⟨hb, a, h1, h3, h2, e2⟩
    · exact ⟨hb, a, h1, h3, h2, e3⟩
  · obtain ⟨h3, h4, h5⟩ := h
    rcases step_N hT (hold := hold) h5 (by rfl) (by rfl) hs'.symm with ⟨tm, e1, e2⟩ | ⟨tm, e1, e2, e3, e4⟩
    · left
      subst e1
      simp only [wireRel, hf]
      exact ⟨hb, a, h1, h3, h4, e2⟩
    · right
      subst h1
      rw [show T.pulse (T.pulses tc (List.replicate 8 true)) s.sdaO =
        T.pulses tc (List.replicate 8 true ++ [!a]) by rw [h3, pulses_snoc]] at e2
      subst e1
      refine ⟨_, .read _ _ _, ?_, ?_, ?_⟩
      · have hp : T.sda (T.pulses tc (List.replicate 8 true ++ [!a])) =
            T.sda (T.fall (T.pulses tc (List.replicate 8 true))) := by
          rw [pulses_snoc]; exact hT.rise _ _
        have := wireIdle_of_phL hT (s := { s with fsm := .idle, timer := tm }) rfl (by exact e2)
          (by exact e3) (by rw [hp]; exact e4) (.read a == I2cCmd.start)
        simp only [id, h3] at this ⊢
        exact this
      · intro d' hd'
        cases hd'
      · intro a' ha
        exact h4

theorem wire_step (hT : T.Conforming) (hq : truncRange period (period / 4) = q) (hq1 : 1 ≤ q) {tc : τ} {m : Bool}
    {c : I2cCmd} {s : I2cS} {e : WireS τ} {hold : Bool} {x : I2cIn} (hx : wireIn stretch bidir s e hold x)
    (hi : i2cInv s) (h : wireRel T q tc m c s e) :
    wireRel T q tc m c ((i2cInitiator period stretch).next s x) (wireNext T e s.sclO s.sdaO hold) ∨
    wireDone T tc m c ((i2cInitiator period stretch).next s x) (wireNext T e s.sclO s.sdaO hold) := by
  cases hf : s.fsm
  case idle => rw [wireRel, hf] at h; exact absurd h.2 id
  case startSclL | startSdaH | startSclH | startSdaL => exact wire_step_start hT hq hq1 hx h (by simp [hf])
  case stopSclL | stopSdaL | stopSclH | stopSdaH => exact wire_step_stop hT hq hq1 hx h (by simp [hf])
  case wDataSclL | wDataSdaX | wDataSclH | wDataSdaN | wAckSclL | wAckSdaH | wAckSclH | wAckSdaN =>
    exact wire_step_write hT hq hq1 hx hi h (by simp [hf])
  case rDataSclL | rDataSdaH | rDataSclH | rDataSdaN | rAckSclL | rAckSdaX | rAckSclH | rAckSdaN =>
    exact wire_step_read hT hq hq1 hx hi h (by simp [hf])

/-- A waiting cycle: without strobe nothing changes, with an allowed strobe the command begins. -/
theorem wire_idle_step {st : Bool} {y : τ × Bool}
    {s : I2cS} {e : WireS τ} {hold : Bool} {x : I2cIn} (hx : wireIn stretch bidir s e hold x)
    (hi : i2cInv s) (h : wireIdle T st y s e) :
    (wireNext T e s.sclO s.sdaO hold).tgt = y.1 ∧
    match i2cStrobe x with
    | none => wireIdle T st y ((i2cInitiator period stretch).next s x) (wireNext T e s.sclO s.sdaO hold) ∧
        ((i2cInitiator period stretch).next s x).ackO = s.ackO ∧
        ((i2cInitiator period stretch).next s x).dataO = s.dataO
    | some c => (c = .start → st = false ∧ T.offers y.1 = true) →
        (c = .stop → if y.2 then T.offers y.1 = true else T.sda y.1 = true) →
        wireRel T q y.1 y.2 c ((i2cInitiator period stretch).next s x) (wireNext T e s.sclO s.sdaO hold) := by
  obtain ⟨t, m⟩ := y
  obtain ⟨hf, h1, h2, h3, h4, h5, h6, h7⟩ := h
  simp only at h4 h5 h6 h7 ⊢
  subst h4
  have hxs : x.sclI = true := by rw [hx.scl, h3, h1]; simp
  have hxd := hx.sda
  have hw : wireNext T e s.sclO s.sdaO hold =
      ⟨true, true, (s.sdaO && T.sda t), e.sda1, t⟩ := by
    rw [h6] at h5
    simp only [wireNext, h1, h2, Bool.not_true, Bool.and_false, Bool.not_false, Bool.and_true]
    rw [h6, h5]
  rw [hw]
  refine ⟨rfl, ?_⟩
  have hphL : ∀ s' : I2cS, s'.sclO = s.sclO → s'.sdaO = s.sdaO →
      phL T t s' ⟨true, true, (s.sdaO && T.sda t), e.sda1, t⟩ := by
    intro s' g1 g2
    exact ⟨by rw [g1, h1], rfl, rfl, by rw [g2]⟩
  have hstb : ∀ b : Bool, T.see t true b true b = t := by
    intro b; cases b <;> simp [I2cTarget.see]
  cases hst : i2cStrobe x with
  | none =>
    have hst' : x.start = false ∧ x.stop = false ∧ x.write = false ∧ x.read = false := by
      unfold i2cStrobe at hst
      revert hst
      cases x.start <;> cases x.stop <;> cases x.write <;> cases x.read <;> simp
    simp only [i2cInitiator, i2cFsm, hf, i2cIdle, hst']
    simp only [Bool.false_eq_true, if_false]
    refine ⟨⟨rfl, h1, rfl, rfl, rfl, hstb _, rfl, ?_⟩, trivial, trivial⟩
    intro hs hor
    rcases hor with hor | hor
    · exact hor
    · exact h7 hs (.inl hor)
  | some c =>
    intro ha hb
    cases c with
    | start =>
      have hst' : x.start = true := by
        unfold i2cStrobe at hst
        revert hst
        cases x.start <;> cases x.stop <;> cases x.write <;> cases x.read <;> simp
      obtain ⟨a1, a2⟩ := ha rfl
      simp only [i2cInitiator, i2cFsm, hf, i2cIdle, hst', hxs, if_true, Bool.true_and]
      cases hd : x.sdaI
      · simp only [wireRel, Bool.false_eq_true, if_false, Bool.not_true]
        exact ⟨trivial, trivial, a2, hphL _ rfl rfl⟩
      · have := h7 a1 (.inr (by rw [← hxd, hd]))
        simp only [Bool.and_eq_true] at this
        simp only [wireRel, if_true]
        exact ⟨trivial, trivial, h1, trivial, by simp [this], this.1, this.2, .inl ⟨this.1, trivial⟩⟩
    | stop =>
      have hst' : x.start = false ∧ x.stop = true := by
        unfold i2cStrobe at hst
        revert hst
        cases x.start <;> cases x.stop <;> cases x.write <;> cases x.read <;> simp
      have hb := hb rfl
      simp only [i2cInitiator, i2cFsm, hf, i2cIdle, hst', hxs, if_true, Bool.true_and]
      cases hd : s.sdaO
      · rw [hd] at hb
        simp only [Bool.false_eq_true, if_false] at hb
        simp [wireRel, hd, h1, hb]
      · rw [hd] at hb
        simp only [if_true] at hb
        have := hphL { s with fsm := .stopSclL, busy := true, timer := i2cTimer period stretch s x } rfl rfl
        rw [hd] at this
        simp only [wireRel, Bool.not_true, Bool.false_eq_true, if_false]
        exact ⟨trivial, trivial, trivial, hb, by simpa [hd] using this⟩
    | write d =>
      have hst' : x.start = false ∧ x.stop = false ∧ x.write = true ∧ x.dataI = d := by
        unfold i2cStrobe at hst
        revert hst
        cases x.start <;> cases x.stop <;> cases x.write <;> cases x.read <;> simp
      simp only [i2cInv, hf] at hi
      simp only [i2cInitiator, i2cFsm, hf, i2cIdle, hst']
      simp [wireRel, hi]
      exact hphL _ h1.symm rfl
    | read a =>
      have hst' : x.start = false ∧ x.stop = false ∧ x.write = false ∧ x.read = true ∧ x.ackI = a := by
        unfold i2cStrobe at hst
        revert hst
        cases x.start <;> cases x.stop <;> cases x.write <;> cases x.read <;> simp
      simp only [i2cInv, hf] at hi
      simp only [i2cInitiator, i2cFsm, hf, i2cIdle, hst']
      simp [wireRel, hi]
      exact ⟨fun j hj => by simp at hj, hphL _ h1.symm rfl⟩

end

end Lambdalib
