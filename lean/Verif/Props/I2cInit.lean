import Verif.Model.I2cStream
import Verif.Props.Mem

/-! Properties of `I2CRegisterInit` (C59). -/

namespace Lambdalib

/-- The byte sequence of an init table: for each register the chip address shifted left by one, the
register address and the value; the very last byte is marked `last`. -/
def initBytes (i2cAddr : Nat) (regs : List (BitVec 8 × BitVec 8)) : List (BitVec 8) :=
  regs.flatMap fun r => [BitVec.ofNat 8 (2 * i2cAddr), r.1, r.2]

/-- `initBytes` as beats. -/
def initBeats (i2cAddr : Nat) (regs : List (BitVec 8 × BitVec 8)) : List (Beat (BitVec 8)) :=
  (initBytes i2cAddr regs).mapIdx fun j x =>
    ⟨false, decide (j + 1 = (initBytes i2cAddr regs).length), x⟩

theorem regsDataToMem_eq (i2cAddr : Nat) (regs : List (BitVec 8 × BitVec 8)) :
    regsDataToMem i2cAddr regs = initBytes i2cAddr regs := by
  have key : ∀ l m, regs.foldl
      (fun mem r => mem ++ [i2cAddrByte i2cAddr] ++ [r.1] ++ [r.2]) (l : List (BitVec 8)) = m →
      m = l ++ initBytes i2cAddr regs := by
    induction regs with
    | nil => intro l m h; simpa [initBytes] using h.symm
    | cons r rs ih =>
      intro l m h
      rw [List.foldl_cons] at h
      rw [ih _ _ h]
      simp [initBytes, i2cAddrByte, Nat.mul_comm]
  have := key [] _ rfl
  rw [List.nil_append] at this
  exact this

theorem initBytes_ne (i2cAddr : Nat) (regs : List (BitVec 8 × BitVec 8)) (h : regs ≠ []) :
    initBytes i2cAddr regs ≠ [] := by
  cases regs with
  | nil => exact absurd rfl h
  | cons r rs => simp [initBytes]

section
variable (i2cAddr : Nat) (regs : List (BitVec 8 × BitVec 8)) (expose : Bool) (i : Nat → RegInitIn)

/-- Beats handed to the inner writer. -/
def initWritten (n : Nat) : List (Beat (BitVec 8)) :=
  transferred (fun k => ((i2cRegisterInit i2cAddr regs expose).wave i k).valid)
    (fun k => (i k).wready) (fun k => ((i2cRegisterInit i2cAddr regs expose).wave i k).beat) n

/-- Beats accepted on the exposed writer endpoint. -/
def initExposed (n : Nat) : List (Beat (BitVec 8)) :=
  transferred (fun k => (i k).expValid)
    (fun k => ((i2cRegisterInit i2cAddr regs expose).wave i k).expReady) (fun k => (i k).expBeat) n

/-- Inputs of the memory reader. -/
def initMemIn (n : Nat) : Bool × Bool :=
  (false, regInitMemReady expose ((i2cRegisterInit i2cAddr regs expose).st i n).2 (i n))

theorem init_mem (n : Nat) : ((i2cRegisterInit i2cAddr regs expose).st i n).1 =
    (memoryStreamReaderBuffered (regsDataToMem i2cAddr regs)).st
      (initMemIn i2cAddr regs expose i) n := by
  induction n with
  | zero => rfl
  | succ n ih =>
    rw [Circuit.st_succ, Circuit.st_succ, ← ih]
    rfl

theorem init_rel (h : regs ≠ []) (n : Nat) :
    let c := i2cRegisterInit i2cAddr regs expose
    let D := rdReadB (regsDataToMem i2cAddr regs) (initMemIn i2cAddr regs expose i) 0 n
    (∃ k ≤ (initBeats i2cAddr regs).length, D = (initBeats i2cAddr regs).take k) ∧
    ((c.st i n).2 = true ↔ D.length = (initBeats i2cAddr regs).length) ∧
    initWritten i2cAddr regs expose i n = D ++ initExposed i2cAddr regs expose i n ∧
    (((c.st i n).2 = false ∨ expose = false) → initExposed i2cAddr regs expose i n = []) := by
  intro c D
  have hT : (regsDataToMem i2cAddr regs).mapIdx
      (fun j x => (⟨false, decide (j + 1 = (regsDataToMem i2cAddr regs).length), x⟩ :
        Beat (BitVec 8))) = initBeats i2cAddr regs := by
    rw [regsDataToMem_eq]; rfl
  have hlen : (initBeats i2cAddr regs).length = (regsDataToMem i2cAddr regs).length := by
    rw [← hT, List.length_mapIdx]
  have hne : regsDataToMem i2cAddr regs ≠ [] := by
    rw [regsDataToMem_eq]; exact initBytes_ne i2cAddr regs h
  have plays := fun n => C18_reader_buffered_plays (regsDataToMem i2cAddr regs) hne
    (initMemIn i2cAddr regs expose i) 0 n (.inl rfl) (fun _ _ _ => rfl)
  have h1 : ∃ k ≤ (initBeats i2cAddr regs).length, D = (initBeats i2cAddr regs).take k := by
    obtain ⟨⟨k, hk, e⟩, _⟩ := plays n
    rw [hT] at e
    have hp : D <+: (initBeats i2cAddr regs).take k := by
      rw [← e]; exact List.prefix_append _ _
    have hp2 : D <+: initBeats i2cAddr regs := hp.trans (List.take_prefix _ _)
    exact ⟨D.length, hp2.length_le, (List.prefix_iff_eq_take.mp hp2)⟩
  refine ⟨h1, ?_⟩
  clear h1
  simp only [D, c]
  clear D c
  induction n with
  | zero =>
    refine ⟨?_, rfl, fun _ => rfl⟩
    simp only [Circuit.st_zero, rdReadB, xferWindow_zero, List.length_nil]
    rw [hlen]
    have : (regsDataToMem i2cAddr regs).length ≠ 0 := fun h => hne (List.length_eq_zero_iff.mp h)
    constructor
    · intro h; cases h
    · intro h; exact absurd h.symm this
  | succ n ih =>
    obtain ⟨i1, i2, i3⟩ := ih
    have eD : rdReadB (regsDataToMem i2cAddr regs) (initMemIn i2cAddr regs expose i) 0 (n + 1) =
        rdReadB (regsDataToMem i2cAddr regs) (initMemIn i2cAddr regs expose i) 0 n ++
        (if ((memoryStreamReaderBuffered (regsDataToMem i2cAddr regs)).wave
              (initMemIn i2cAddr regs expose i) n).valid &&
            (initMemIn i2cAddr regs expose i n).2 then
          [((memoryStreamReaderBuffered (regsDataToMem i2cAddr regs)).wave
              (initMemIn i2cAddr regs expose i) n).beat] else []) := by
      unfold rdReadB
      rw [xferWindow_succ, Nat.zero_add]
    have hm := init_mem i2cAddr regs expose i n
    -- outputs in this cycle
    obtain ⟨⟨k, hk, e⟩, _⟩ := plays n
    rw [hT] at e
    simp only [Nat.zero_add] at e
    generalize hmo : (memoryStreamReaderBuffered (regsDataToMem i2cAddr regs)).wave
        (initMemIn i2cAddr regs expose i) n = mo at *
    have hmo' : (memoryStreamReaderBuffered (regsDataToMem i2cAddr regs)).out
        ((i2cRegisterInit i2cAddr regs expose).st i n).1
        (false, regInitMemReady expose ((i2cRegisterInit i2cAddr regs expose).st i n).2 (i n)) = mo := by
      rw [hm, ← hmo]; rfl
    have hw : (i2cRegisterInit i2cAddr regs expose).wave i n =
        if expose && ((i2cRegisterInit i2cAddr regs expose).st i n).2 then
          ⟨(i n).expValid, (i n).expBeat, ((i2cRegisterInit i2cAddr regs expose).st i n).2,
            (i n).wready⟩
        else ⟨mo.valid, mo.beat, ((i2cRegisterInit i2cAddr regs expose).st i n).2, false⟩ := by
      rw [← hmo']; rfl
    have hd : ((i2cRegisterInit i2cAddr regs expose).st i (n + 1)).2 =
        if mo.valid && (initMemIn i2cAddr regs expose i n).2 && mo.beat.last then true
        else ((i2cRegisterInit i2cAddr regs expose).st i n).2 := by
      rw [← hmo']; rfl
    have eW : initWritten i2cAddr regs expose i (n + 1) = initWritten i2cAddr regs expose i n ++
        (if ((i2cRegisterInit i2cAddr regs expose).wave i n).valid && (i n).wready then
          [((i2cRegisterInit i2cAddr regs expose).wave i n).beat] else []) := rfl
    have eE : initExposed i2cAddr regs expose i (n + 1) = initExposed i2cAddr regs expose i n ++
        (if (i n).expValid && ((i2cRegisterInit i2cAddr regs expose).wave i n).expReady then
          [(i n).expBeat] else []) := rfl
    rw [eD, eW, eE, hd, hw, i2]
    have hmr : (initMemIn i2cAddr regs expose i n).2 =
      regInitMemReady expose ((i2cRegisterInit i2cAddr regs expose).st i n).2 (i n) := rfl
    clear eD eW eE hd hw hmo hmo' hm plays i2
    generalize rdReadB (regsDataToMem i2cAddr regs) (initMemIn i2cAddr regs expose i) 0 n = D at *
    generalize initExposed i2cAddr regs expose i n = E at *
    generalize (initMemIn i2cAddr regs expose i n).2 = mr at *
    generalize ((i2cRegisterInit i2cAddr regs expose).st i n).2 = done at *
    -- the byte on offer
    have hlast : mo.valid = true → D.length < (initBeats i2cAddr regs).length ∧
        (mo.beat.last = true ↔ D.length + 1 = (initBeats i2cAddr regs).length) := by
      intro hv
      rw [hv] at e
      simp only [if_true] at e
      have hl := congrArg List.length e
      rw [List.length_append, List.length_take, List.length_singleton] at hl
      have hlt : D.length < (initBeats i2cAddr regs).length := by omega
      refine ⟨hlt, ?_⟩
      have hg : (D ++ [mo.beat])[D.length]? = some mo.beat := by simp
      rw [e, List.getElem?_take, if_pos (by omega)] at hg
      rw [← hT, List.getElem?_mapIdx] at hg
      have hlt' : D.length < (regsDataToMem i2cAddr regs).length := by omega
      rw [List.getElem?_eq_getElem hlt'] at hg
      simp only [Option.map_some, Option.some.injEq] at hg
      rw [← hg, hlen]
      simp
    unfold regInitMemReady at hmr
    clear e hk hT hlen hne
    generalize (initBeats i2cAddr regs).length = N at *
    obtain ⟨mv, ⟨mf, ml, mp⟩, mx⟩ := mo
    simp only at hlast ⊢
    cases done <;> cases expose <;> cases mv <;> cases hwr : (i n).wready <;>
      cases ml <;> simp_all <;> omega

/-- C59: the beats handed to the I2C writer are a prefix of the init bytes, followed by what was accepted on
the exposed endpoint. `done` is high exactly when all init bytes have been taken; before that nothing is
accepted on the exposed endpoint, and afterwards the exposed endpoint is connected straight through. -/
theorem C59_init_bytes (h : regs ≠ []) (n : Nat) :
    let o := (i2cRegisterInit i2cAddr regs expose).wave i n
    (∃ k, k ≤ (initBeats i2cAddr regs).length ∧ initWritten i2cAddr regs expose i n =
        (initBeats i2cAddr regs).take k ++ initExposed i2cAddr regs expose i n ∧
      (o.done = true ↔ k = (initBeats i2cAddr regs).length) ∧
      (o.done = false → initExposed i2cAddr regs expose i n = [])) ∧
    (o.done = false → o.expReady = false) ∧
    (o.done = true → expose = true →
      o.valid = (i n).expValid ∧ o.beat = (i n).expBeat ∧ o.expReady = (i n).wready) := by
  intro o
  obtain ⟨⟨k, hk, e⟩, h2, h3, h4⟩ := init_rel i2cAddr regs expose i h n
  have ho : o.done = ((i2cRegisterInit i2cAddr regs expose).st i n).2 := by
    simp only [o, Circuit.wave]
    simp only [i2cRegisterInit]
    split <;> rfl
  refine ⟨⟨k, hk, by rw [h3, e], ?_, ?_⟩, ?_, ?_⟩
  · rw [ho, h2, e, List.length_take, Nat.min_eq_left hk]
  · intro hd; exact h4 (.inl (by rw [← ho]; exact hd))
  · intro hd
    rw [ho] at hd
    simp only [o, Circuit.wave]
    generalize (i2cRegisterInit i2cAddr regs expose).st i n = s at *
    simp [i2cRegisterInit, hd]
  · intro hd he
    rw [ho] at hd
    simp only [o, Circuit.wave]
    generalize (i2cRegisterInit i2cAddr regs expose).st i n = s at *
    simp [i2cRegisterInit, hd, he]

/-- C59: without an exposed endpoint exactly the init bytes are handed over and nothing else. -/
theorem C59_init_unexposed (h : regs ≠ []) (n : Nat) :
    initWritten i2cAddr regs false i n <+: initBeats i2cAddr regs := by
  obtain ⟨⟨k, hk, e⟩, h2, h3, h4⟩ := init_rel i2cAddr regs false i h n
  rw [h3, e, h4 (.inr rfl), List.append_nil]
  exact List.take_prefix _ _

/-- C59: from the third cycle on, a byte is offered to the writer until all have been taken. -/
theorem C59_init_offers (h : regs ≠ []) (n : Nat) (hn : 2 ≤ n)
    (hd : ((i2cRegisterInit i2cAddr regs expose).wave i n).done = false) :
    ((i2cRegisterInit i2cAddr regs expose).wave i n).valid = true := by
  obtain ⟨⟨k, hk, e⟩, h2, h3, h4⟩ := init_rel i2cAddr regs expose i h n
  obtain ⟨m, rfl⟩ : ∃ m, n = m + 1 := ⟨n - 1, by omega⟩
  have ho : ((i2cRegisterInit i2cAddr regs expose).st i (m + 1)).2 = false := by
    rw [← hd]
    simp only [Circuit.wave]
    simp only [i2cRegisterInit]
    split <;> rfl
  have hne : regsDataToMem i2cAddr regs ≠ [] := by
    rw [regsDataToMem_eq]; exact initBytes_ne i2cAddr regs h
  have hlen : (initBeats i2cAddr regs).length = (regsDataToMem i2cAddr regs).length := by
    rw [regsDataToMem_eq, initBeats, List.length_mapIdx]
  have hlt : (rdReadB (regsDataToMem i2cAddr regs) (initMemIn i2cAddr regs expose i) 0
      (m + 1)).length < (regsDataToMem i2cAddr regs).length := by
    have : ¬ (rdReadB (regsDataToMem i2cAddr regs) (initMemIn i2cAddr regs expose i) 0
        (m + 1)).length = (initBeats i2cAddr regs).length := by
      intro hh
      rw [h2.mpr hh] at ho
      cases ho
    have hle : (rdReadB (regsDataToMem i2cAddr regs) (initMemIn i2cAddr regs expose i) 0
      (m + 1)).length ≤ (initBeats i2cAddr regs).length := by
      rw [e, List.length_take]; omega
    omega
  have hv := C18_reader_buffered_available (regsDataToMem i2cAddr regs) hne
    (initMemIn i2cAddr regs expose i) 0 m (.inl rfl) (fun _ _ _ => rfl) (by omega) hlt
  have hm := init_mem i2cAddr regs expose i (m + 1)
  rw [Nat.zero_add] at hv
  simp only [Circuit.wave] at hv ⊢
  rw [← hm] at hv
  simp only [initMemIn] at hv
  generalize (i2cRegisterInit i2cAddr regs expose).st i (m + 1) = s at *
  simp only [i2cRegisterInit, ho, Bool.and_false, Bool.false_eq_true, if_false] at hv ⊢
  exact hv

/-- C59: if the writer keeps taking bytes now and then, `done` rises. -/
theorem C59_init_completes (h : regs ≠ []) (hr : ∀ k, ∃ m, k ≤ m ∧ (i m).wready = true) :
    ∃ n, ((i2cRegisterInit i2cAddr regs expose).wave i n).done = true := by
  -- the number of bytes taken reaches every bound
  have key : ∀ b, ∃ n, 2 ≤ n ∧ (((i2cRegisterInit i2cAddr regs expose).wave i n).done = true ∨
      b ≤ (initWritten i2cAddr regs expose i n).length) := by
    intro b
    induction b with
    | zero => exact ⟨2, by omega, .inr (by omega)⟩
    | succ b ih =>
      obtain ⟨n, hn, hd | hb⟩ := ih
      · exact ⟨n, hn, .inl hd⟩
      · obtain ⟨m, hm, hmr⟩ := hr n
        cases hd : ((i2cRegisterInit i2cAddr regs expose).wave i m).done
        · refine ⟨m + 1, by omega, .inr ?_⟩
          have hv := C59_init_offers i2cAddr regs expose i h m (by omega) hd
          have eW : initWritten i2cAddr regs expose i (m + 1) = initWritten i2cAddr regs expose i m ++
            (if ((i2cRegisterInit i2cAddr regs expose).wave i m).valid && (i m).wready then
              [((i2cRegisterInit i2cAddr regs expose).wave i m).beat] else []) := rfl
          rw [eW, hv, hmr]
          have mono : ∀ d, (initWritten i2cAddr regs expose i n).length ≤
              (initWritten i2cAddr regs expose i (n + d)).length := by
            intro d
            induction d with
            | zero => exact Nat.le_refl _
            | succ d ihd =>
              refine Nat.le_trans ihd ?_
              change (initWritten i2cAddr regs expose i (n + d)).length ≤
                (initWritten i2cAddr regs expose i (n + d) ++ _).length
              rw [List.length_append]
              omega
          have := mono (m - n)
          rw [show n + (m - n) = m by omega] at this
          simp
          omega
        · exact ⟨m, by omega, .inl hd⟩
  obtain ⟨n, hn, hd | hb⟩ := key ((initBeats i2cAddr regs).length)
  · exact ⟨n, hd⟩
  · obtain ⟨⟨k, hk, e, h1, h2⟩, _⟩ := C59_init_bytes i2cAddr regs expose i h n
    cases hd : ((i2cRegisterInit i2cAddr regs expose).wave i n).done
    · rw [e, h2 hd, List.append_nil, List.length_take] at hb
      have : k = (initBeats i2cAddr regs).length := by omega
      have := h1.mpr this
      rw [hd] at this
      cases this
    · exact ⟨n, hd⟩

end

example : initWritten 0x50 [(1, 2)] true (fun n => ⟨n != 4, true, ⟨false, false, 0x77⟩⟩) 8 =
    [⟨false, false, 0xA0⟩, ⟨false, false, 1⟩, ⟨false, true, 2⟩, ⟨false, false, 0x77⟩,
     ⟨false, false, 0x77⟩] := by decide

end Lambdalib
