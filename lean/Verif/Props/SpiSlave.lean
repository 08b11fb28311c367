import Verif.Model.SpiSlave
import Verif.Spec.SpiSlave
import Verif.Spec.Spi

/-! C41, C71: the SPI slave. -/

namespace Lambdalib

section
variable (width nb : Nat) (rising : Bool) (stages : List Nat) (i : Nat → SlvIn)

/-- The pins as seen by the slave, two cycles late. -/
def slvClk : Nat → Bool := sync2 false fun n => (i n).clk
def slvCsN : Nat → Bool := sync2 false fun n => (i n).csN
def slvDq : Nat → Nat := sync2 0 fun n => (i n).dq

/-- The words given to the receive FIFO. -/
def slvLog (n : Nat) : List (Nat × Nat) :=
  transferred (fun k => ((spiSlave width nb rising stages).wave i k).fValid) (fun _ => true)
    (fun k => (((spiSlave width nb rising stages).wave i k).fData, ((spiSlave width nb rising stages).wave i k).fLen)) n

theorem slv_sync (n : Nat) :
    let s := (spiSlave width nb rising stages).st i n
    s.clk2 = slvClk i n ∧ s.cs2 = slvCsN i n ∧ s.dq2 = slvDq i n ∧ s.clkR = prevOf false (slvClk i) n ∧
      s.clk1 = prevOf false (fun n => (i n).clk) n ∧ s.cs1 = prevOf false (fun n => (i n).csN) n ∧
      s.dq1 = prevOf 0 (fun n => (i n).dq) n := by
  induction n with
  | zero => exact ⟨rfl, rfl, rfl, rfl, rfl, rfl, rfl⟩
  | succ n ih =>
    obtain ⟨h1, h2, h3, h4, h5, h6, h7⟩ := ih
    refine ⟨?_, ?_, ?_, ?_, rfl, rfl, rfl⟩
    · show ((spiSlave width nb rising stages).st i n).clk1 = _
      rw [h5]; cases n <;> rfl
    · show ((spiSlave width nb rising stages).st i n).cs1 = _
      rw [h6]; cases n <;> rfl
    · show ((spiSlave width nb rising stages).st i n).dq1 = _
      rw [h7]; cases n <;> rfl
    · show ((spiSlave width nb rising stages).st i n).clk2 = _
      rw [h1]; rfl

/-- Configurations with `nb` pins and words of at most `width` bits. -/
structure SlvCfg : Prop where
  pins : 0 < nb
  ne : stages ≠ []
  stage : ∀ k ∈ stages, 0 < k ∧ k ≤ width ∧ nb ∣ k

/-- Value with the bits of the word only. -/
def slvCut (l : List (Nat × Nat)) : List (Nat × Nat) := l.map fun w => (w.1 % 2 ^ w.2, w.2)

/-- Relation between the registers and the specification. `pc` is the previous `cs_n`. -/
structure SlvA (s : SlvS) (pc : Bool) (sp : SlvSpec) : Prop where
  idx : s.idx = sp.stage
  idxLt : s.idx < stages.length
  cnt : s.cntIn = nb * sp.bits.length
  lt : s.cntIn < stages.getD s.idx 0
  reg : s.regIn % 2 ^ s.cntIn = groupsVal nb sp.bits
  off : pc = true → s.cntIn = 0

/-- A complete word about to be delivered. -/
structure SlvB (s : SlvS) (pc : Bool) (sp : SlvSpec) (v l : Nat) : Prop where
  idxLt : s.idx < stages.length
  stage : sp.stage = min (s.idx + 1) (stages.length - 1)
  bits : sp.bits = []
  cnt : s.cntIn = l
  full : l = stages.getD s.idx 0
  reg : s.regIn % 2 ^ l = v
  edge : s.clkR = rising
  on : pc = false

theorem slv_reg (r c g : Nat) (hc : c + nb ≤ width) :
    (r * 2 ^ nb + g % 2 ^ nb) % 2 ^ width % 2 ^ (c + nb) = r % 2 ^ c * 2 ^ nb + g % 2 ^ nb := by
  rw [Nat.mod_mod_of_dvd _ (Nat.pow_dvd_pow 2 hc), Nat.pow_add, Nat.mul_comm (2 ^ c), Nat.mod_mul,
    Nat.mul_comm r, Nat.mul_add_mod, Nat.mod_mod, Nat.mul_add_div (Nat.two_pow_pos nb),
    Nat.div_eq_of_lt (Nat.mod_lt _ (Nat.two_pow_pos nb)), Nat.add_zero, Nat.mul_comm (r % 2 ^ c), Nat.add_comm]

theorem groupsVal_snoc (l : List Nat) (g : Nat) :
    groupsVal nb (l ++ [g]) = groupsVal nb l * 2 ^ nb + g % 2 ^ nb := by
  simp [groupsVal]

/-- One cycle of the receiver. -/
theorem slv_step (hc : SlvCfg width nb stages) (s : SlvS) (x : SlvIn) (pc : Bool) (sp : SlvSpec)
    (log ws : List (Nat × Nat))
    (h : (SlvA nb stages s pc sp ∧ ws = slvCut log) ∨
      ∃ v l, SlvB rising stages s pc sp v l ∧ ws = slvCut log ++ [(v, l)])
    (hdes : s.cs2 = true → pc = false → sp.bits ≠ [] ∨ sp.stage = 0) :
    let ev := if !s.cs2 && (if rising then !s.clkR && s.clk2 else s.clkR && !s.clk2) then [SlvEv.sample s.dq2]
      else if s.cs2 && !pc then [SlvEv.deselect] else []
    let r := ev.foldl (fun a e => ((slvSpecStep nb stages a.1 e).1, a.2 ++ (slvSpecStep nb stages a.1 e).2)) (sp, ws)
    let s' := (spiSlave width nb rising stages).next s x
    let log' := log ++ if slvPush rising stages s then [(s.regIn, s.cntIn)] else []
    (SlvA nb stages s' s.cs2 r.1 ∧ r.2 = slvCut log') ∨
      ∃ v l, SlvB rising stages s' s.cs2 r.1 v l ∧ r.2 = slvCut log' ++ [(v, l)] := by
  intro ev r s' log'
  have hsame : slvSample rising s =
      (!s.cs2 && (if rising then !s.clkR && s.clk2 else s.clkR && !s.clk2)) := by
    cases rising <;> simp [slvSample, slvRise, slvFall, Bool.and_assoc]
  have hcut : slvCut log' = slvCut log ++
      if slvPush rising stages s then [(s.regIn % 2 ^ s.cntIn, s.cntIn)] else [] := by
    simp only [log', slvCut, List.map_append]
    split <;> rfl
  rcases h with ⟨hA, hws⟩ | ⟨v, l, hB, hws⟩
  · have hmem : stages.getD s.idx 0 ∈ stages := by
      rw [List.getD_eq_getElem?_getD, List.getElem?_eq_getElem hA.idxLt]; simp
    obtain ⟨hpos, hle, hdvd⟩ := hc.stage _ hmem
    have hlt := hA.lt
    have hne : (s.cntIn == stages.getD s.idx 0) = false := by simp only [beq_eq_false_iff_ne]; omega
    cases hs : slvSample rising s
    · have hev : ev = if s.cs2 && !pc then [SlvEv.deselect] else [] := by
        simp only [ev]; rw [← hsame, hs]; rfl
      have hreg : s'.regIn = s.regIn := by simp [s', spiSlave, hs]
      cases hcs : s.cs2
      · -- selected, nothing happens
        left
        have hp : slvPush rising stages s = false := by
          simp only [slvPush, hs, hne, slvEnd, hcs]; simp
        have hev : ev = [] := by rw [hev, hcs]; rfl
        have hr : r = (sp, ws) := by simp only [r, hev]; rfl
        have hcn : s'.cntIn = s.cntIn := by simp [s', spiSlave, hs, hp]
        have hid : s'.idx = s.idx := by simp [s', spiSlave, hp]
        rw [hcut, hp, hr]
        refine ⟨⟨by rw [hid]; exact hA.idx, by rw [hid]; exact hA.idxLt, by rw [hcn]; exact hA.cnt,
          by rw [hcn, hid]; exact hlt, by rw [hreg, hcn]; exact hA.reg, fun h => (nomatch h)⟩, by simpa using hws⟩
      · by_cases hz : s.cntIn = 0
        · -- deselected at a word boundary
          left
          have hp : slvPush rising stages s = false := by
            rw [hz] at hne
            simp only [slvPush, hs, slvEnd, hz, hne]; simp
          have hcn : s'.cntIn = 0 := by simp [s', spiSlave, hs, hp, hz]
          have hid : s'.idx = s.idx := by simp [s', spiSlave, hp]
          have hb : sp.bits = [] := by
            have h1 := hA.cnt
            rw [hz] at h1
            have h2 : sp.bits.length = 0 := by
              rcases Nat.mul_eq_zero.mp h1.symm with h | h
              · have := hc.pins; omega
              · exact h
            exact List.eq_nil_of_length_eq_zero h2
          have hr : r.1.stage = sp.stage ∧ r.1.bits = [] ∧ r.2 = ws := by
            cases hpc : pc
            · have hev : ev = [.deselect] := by rw [hev, hcs, hpc]; rfl
              have h0 : sp.stage = 0 := by
                rcases hdes hcs hpc with h | h
                · exact absurd hb h
                · exact h
              simp only [r, hev, List.foldl_cons, List.foldl_nil, slvSpecStep, h0, hb]
              exact ⟨trivial, trivial, by simp⟩
            · have hev : ev = [] := by rw [hev, hcs, hpc]; rfl
              simp only [r, hev]
              exact ⟨rfl, hb, rfl⟩
          rw [hcut, hp]
          refine ⟨⟨by rw [hid, hr.1]; exact hA.idx, by rw [hid]; exact hA.idxLt, by rw [hcn, hr.2.1]; simp,
            by rw [hcn, hid]; exact hpos, by rw [hcn, hr.2.1]; simp [groupsVal, Nat.mod_one], fun _ => hcn⟩, ?_⟩
          rw [hr.2.2]; simpa using hws
        · -- deselected inside a word
          left
          have hp : slvPush rising stages s = true := by
            have : s.cntIn > 0 := by omega
            simp [slvPush, hs, slvEnd, hcs, this]
          have he : slvEnd s = true := by
            have : s.cntIn > 0 := by omega
            simp [slvEnd, hcs, this]
          have hpc : pc = false := by
            cases h : pc
            · rfl
            · exact absurd (hA.off h) hz
          have hev : ev = [.deselect] := by rw [hev, hcs, hpc]; rfl
          have hb : sp.bits ≠ [] := by
            intro h
            have := hA.cnt
            rw [h] at this
            exact hz (by simpa using this)
          have hr : r = (⟨0, []⟩, ws ++ [(groupsVal nb sp.bits, nb * sp.bits.length)]) := by
            simp only [r, hev, List.foldl_cons, List.foldl_nil, slvSpecStep, if_neg hb]
          have hcn : s'.cntIn = 0 := by simp [s', spiSlave, hs, hp]
          have hid : s'.idx = 0 := by simp [s', spiSlave, hp, he]
          rw [hcut, hp, hr]
          have hL : 0 < stages.length := List.length_pos_iff.mpr hc.ne
          have hmem0 : stages.getD 0 0 ∈ stages := by
            rw [List.getD_eq_getElem?_getD, List.getElem?_eq_getElem hL]; simp
          refine ⟨⟨hid, by rw [hid]; exact hL, by rw [hcn]; rfl, by rw [hcn, hid]; exact (hc.stage _ hmem0).1,
            by rw [hcn]; simp [groupsVal, Nat.mod_one], fun _ => hcn⟩, ?_⟩
          rw [← hA.cnt, ← hA.reg, hws]; rfl
    · -- sample
      have hp : slvPush rising stages s = false := by simp [slvPush, hs]
      have hs2 := hs
      rw [hsame] at hs2
      have hev : ev = [.sample s.dq2] := by simp only [ev]; rw [hs2]; rfl
      have hcs : s.cs2 = false := by
        simp only [Bool.and_eq_true, Bool.not_eq_true'] at hs2; exact hs2.1
      have hstep : s.cntIn + nb ≤ stages.getD s.idx 0 := by
        obtain ⟨q, hq⟩ := hdvd
        rw [hq, hA.cnt] at hlt ⊢
        have : sp.bits.length < q := Nat.lt_of_mul_lt_mul_left hlt
        calc nb * sp.bits.length + nb = nb * (sp.bits.length + 1) := by rw [Nat.mul_add, Nat.mul_one]
          _ ≤ nb * q := Nat.mul_le_mul_left _ this
      have hcn : s'.cntIn = s.cntIn + nb := by
        simp only [s', spiSlave, hs, if_true]
        exact truncRange_of_lt (by omega)
      have hid : s'.idx = s.idx := by simp [s', spiSlave, hp]
      have hreg : s'.regIn % 2 ^ (s.cntIn + nb) = groupsVal nb (sp.bits ++ [s.dq2]) := by
        simp only [s', spiSlave, hs, if_true]
        rw [slv_reg width nb _ _ _ (by omega), groupsVal_snoc, hA.reg]
      have hlen : nb * (sp.bits ++ [s.dq2]).length = s.cntIn + nb := by
        rw [List.length_append, List.length_singleton, Nat.mul_add, Nat.mul_one, hA.cnt]
      rw [hcut, hp]
      simp only [r, hev, List.foldl_cons, List.foldl_nil, slvSpecStep, ← hA.idx, hlen]
      by_cases hf : s.cntIn + nb = stages.getD s.idx 0
      · rw [if_pos hf]
        right
        refine ⟨groupsVal nb (sp.bits ++ [s.dq2]), s.cntIn + nb, ⟨by rw [hid]; exact hA.idxLt, by rw [hid], rfl,
          hcn, by rw [hid]; exact hf, hreg, ?_, hcs⟩, by rw [hws]; simp⟩
        show s.clk2 = rising
        rw [hcs] at hs2
        cases rising
        · simp at hs2; exact hs2.2
        · simp at hs2; exact hs2.2
      · rw [if_neg hf]
        left
        refine ⟨⟨hid, by rw [hid]; exact hA.idxLt, by rw [hcn, hlen], by rw [hcn, hid]; omega,
          by rw [hcn]; exact hreg, fun h => by rw [hcs] at h; cases h⟩, by rw [hws]; simp⟩
  · have hmem : stages.getD s.idx 0 ∈ stages := by
      rw [List.getD_eq_getElem?_getD, List.getElem?_eq_getElem hB.idxLt]; simp
    obtain ⟨hpos, hle, hdvd⟩ := hc.stage _ hmem
    have hs : slvSample rising s = false := by
      rw [hsame, hB.edge]; cases rising <;> simp
    have hev : ev = if s.cs2 then [SlvEv.deselect] else [] := by
      simp only [ev]; rw [← hsame, hs, hB.on]; simp
    have hp : slvPush rising stages s = true := by
      simp only [slvPush, hs, hB.cnt, ← hB.full]; simp
    have hcn : s'.cntIn = 0 := by simp [s', spiSlave, hs, hp]
    have hL : 0 < stages.length := List.length_pos_iff.mpr hc.ne
    left
    rw [hcut, hp]
    have hlog : slvCut log ++ [(v, l)] = slvCut log ++ [(s.regIn % 2 ^ s.cntIn, s.cntIn)] := by
      rw [hB.cnt, hB.reg]
    cases hcs : s.cs2
    · have hid : s'.idx = min (s.idx + 1) (stages.length - 1) := by
        have he : slvEnd s = false := by simp [slvEnd, hcs]
        have := hB.idxLt
        simp only [s', spiSlave, hp, he, if_true]
        split
        · exact absurd ‹_› (by simp)
        · split <;> omega
      have hev : ev = [] := by rw [hev, hcs]; rfl
      have hr : r = (sp, ws) := by simp only [r, hev]; rfl
      have hmem' : stages.getD (min (s.idx + 1) (stages.length - 1)) 0 ∈ stages := by
        have : min (s.idx + 1) (stages.length - 1) < stages.length := by omega
        rw [List.getD_eq_getElem?_getD, List.getElem?_eq_getElem this]; simp
      rw [hr]
      refine ⟨⟨by rw [hid, hB.stage], by rw [hid]; omega, by rw [hcn, hB.bits]; simp,
        by rw [hcn, hid]; exact (hc.stage _ hmem').1, by rw [hcn, hB.bits]; simp [groupsVal, Nat.mod_one],
        fun h => (nomatch h)⟩, by rw [hws, hlog]; rfl⟩
    · have hid : s'.idx = 0 := by
        have he : slvEnd s = true := by
          have : s.cntIn > 0 := by rw [hB.cnt, hB.full]; exact hpos
          simp [slvEnd, hcs, this]
        simp [s', spiSlave, hp, he]
      have hev : ev = [.deselect] := by rw [hev, hcs]; rfl
      have hr : r = (⟨0, []⟩, ws) := by
        simp only [r, hev, List.foldl_cons, List.foldl_nil, slvSpecStep, if_pos hB.bits, List.append_nil]
      have hmem0 : stages.getD 0 0 ∈ stages := by
        rw [List.getD_eq_getElem?_getD, List.getElem?_eq_getElem hL]; simp
      rw [hr]
      refine ⟨⟨hid, by rw [hid]; exact hL, by rw [hcn]; rfl, by rw [hcn, hid]; exact (hc.stage _ hmem0).1,
        by rw [hcn]; simp [groupsVal, Nat.mod_one], fun _ => hcn⟩, by rw [hws, hlog]; rfl⟩

/-- The events seen by the slave in the first `n` cycles. -/
def slvSeen (n : Nat) : List SlvEv := slvEvents rising (slvClk i) (slvCsN i) (slvDq i) n

theorem slv_inv (hc : SlvCfg width nb stages)
    (hdes : ∀ n, slvCsN i n = true → prevOf false (slvCsN i) n = false →
      (slvSpec nb stages (slvSeen rising i n)).1.bits ≠ [] ∨ (slvSpec nb stages (slvSeen rising i n)).1.stage = 0)
    (n : Nat) :
    let s := (spiSlave width nb rising stages).st i n
    let pc := prevOf false (slvCsN i) n
    let sp := slvSpec nb stages (slvSeen rising i n)
    let log := slvLog width nb rising stages i n
    (SlvA nb stages s pc sp.1 ∧ sp.2 = slvCut log) ∨
      ∃ v l, SlvB rising stages s pc sp.1 v l ∧ sp.2 = slvCut log ++ [(v, l)] := by
  induction n with
  | zero =>
    left
    have hL : 0 < stages.length := List.length_pos_iff.mpr hc.ne
    have hmem0 : stages.getD 0 0 ∈ stages := by
      rw [List.getD_eq_getElem?_getD, List.getElem?_eq_getElem hL]; simp
    exact ⟨⟨rfl, hL, rfl, (hc.stage _ hmem0).1, Nat.zero_mod _, fun _ => rfl⟩, rfl⟩
  | succ n ih =>
    obtain ⟨h1, h2, h3, h4, _⟩ := slv_sync width nb rising stages i n
    have hs := slv_step width nb rising stages hc _ (i n) _ _ _ _ ih
      (by intro hcs hpc; rw [h2] at hcs; exact hdes n hcs hpc)
    have hev : (if !((spiSlave width nb rising stages).st i n).cs2 && (if rising then
          !((spiSlave width nb rising stages).st i n).clkR && ((spiSlave width nb rising stages).st i n).clk2 else
          ((spiSlave width nb rising stages).st i n).clkR && !((spiSlave width nb rising stages).st i n).clk2)
        then [SlvEv.sample ((spiSlave width nb rising stages).st i n).dq2]
        else if ((spiSlave width nb rising stages).st i n).cs2 && !prevOf false (slvCsN i) n then [SlvEv.deselect]
        else []) = slvEvent rising (slvClk i) (slvCsN i) (slvDq i) n := by
      rw [h1, h2, h3, h4]; rfl
    have hspec : slvSpec nb stages (slvSeen rising i (n + 1)) =
        (slvEvent rising (slvClk i) (slvCsN i) (slvDq i) n).foldl
          (fun a e => ((slvSpecStep nb stages a.1 e).1, a.2 ++ (slvSpecStep nb stages a.1 e).2))
          (slvSpec nb stages (slvSeen rising i n)) := by
      rw [slvSeen, slvEvents, slvSpec, List.foldl_append]; rfl
    have hlog : slvLog width nb rising stages i (n + 1) = slvLog width nb rising stages i n ++
        if slvPush rising stages ((spiSlave width nb rising stages).st i n) then
          [(((spiSlave width nb rising stages).st i n).regIn, ((spiSlave width nb rising stages).st i n).cntIn)]
        else [] := by
      show _ ++ (if _ && true then _ else _) = _
      rw [Bool.and_true]; rfl
    have hcs : prevOf false (slvCsN i) (n + 1) = ((spiSlave width nb rising stages).st i n).cs2 := by
      rw [h2]; rfl
    dsimp only at hs ⊢
    rw [hev] at hs
    rw [hspec, hlog, hcs, Circuit.st_succ]
    exact hs

/-- C41 (partial): the received words are those of the specification, in order, at most one of them being delivered
one cycle later; provided the chip is deselected only inside a word or at the first stage. Missing: deselection at
a word boundary at a later stage, see `C41_restart_refuted`. -/
theorem C41_words_partial (hc : SlvCfg width nb stages)
    (hdes : ∀ n, slvCsN i n = true → prevOf false (slvCsN i) n = false →
      (slvSpec nb stages (slvSeen rising i n)).1.bits ≠ [] ∨ (slvSpec nb stages (slvSeen rising i n)).1.stage = 0)
    (n : Nat) :
    ∃ p, p.length ≤ 1 ∧
      (slvSpec nb stages (slvSeen rising i n)).2 = slvCut (slvLog width nb rising stages i n) ++ p := by
  rcases slv_inv width nb rising stages i hc hdes n with ⟨_, h⟩ | ⟨v, l, _, h⟩
  · exact ⟨[], Nat.zero_le _, by simpa using h⟩
  · exact ⟨[(v, l)], Nat.le_refl _, h⟩

theorem slvSpec_stage_zero (k : Nat) (ev : List SlvEv) : (slvSpec nb [k] ev).1.stage = 0 := by
  have : ∀ (a : SlvSpec × List (Nat × Nat)), a.1.stage = 0 →
      (ev.foldl (fun a e => ((slvSpecStep nb [k] a.1 e).1, a.2 ++ (slvSpecStep nb [k] a.1 e).2)) a).1.stage = 0 := by
    induction ev with
    | nil => intro a h; exact h
    | cons e ev ih =>
      intro a h
      rw [List.foldl_cons]
      apply ih
      cases e
      · simp only [slvSpecStep]
        split
        · simp
        · exact h
      · rfl
  exact this _ rfl

/-- C41: with one word size (the default), the received words are exactly those of the specification for every pin
waveform. -/
theorem C41_words_single (k : Nat) (hnb : 0 < nb) (hk : 0 < k ∧ k ≤ width ∧ nb ∣ k) (n : Nat) :
    ∃ p, p.length ≤ 1 ∧
      (slvSpec nb [k] (slvSeen rising i n)).2 = slvCut (slvLog width nb rising [k] i n) ++ p :=
  C41_words_partial width nb rising [k] i ⟨hnb, by simp, by simpa using hk⟩
    (fun _ _ _ => .inr (slvSpec_stage_zero nb k _)) n

/-- C41: in each of the four clock modes the bits received are those present at the capture edges of that mode. -/
theorem C41_words_mode (cpol cpha : Bool) (k : Nat) (hnb : 0 < nb) (hk : 0 < k ∧ k ≤ width ∧ nb ∣ k) (n : Nat) :
    ∃ p, p.length ≤ 1 ∧
      (slvSpec nb [k] (slvSeen (captureRising cpol cpha) i n)).2 =
        slvCut (slvLog width nb (slvMode cpol cpha) [k] i n) ++ p := by
  have : captureRising cpol cpha = slvMode cpol cpha := by cases cpol <;> cases cpha <;> rfl
  rw [this]
  exact C41_words_single width nb _ i k hnb hk n

/-! ### Transmit side -/

/-- A field of a shifted and cut register. -/
theorem slv_field (r a b c W : Nat) (h1 : a ≤ b) (h2 : b + c ≤ W) :
    r * 2 ^ a % 2 ^ W / 2 ^ b % 2 ^ c = r / 2 ^ (b - a) % 2 ^ c := by
  have hW : 2 ^ W = 2 ^ b * 2 ^ (W - b) := by rw [← Nat.pow_add]; congr 1; omega
  have hb : 2 ^ b = 2 ^ a * 2 ^ (b - a) := by rw [← Nat.pow_add]; congr 1; omega
  rw [hW, Nat.mod_mul_right_div_self, Nat.mod_mod_of_dvd _ (Nat.pow_dvd_pow 2 (by omega)), hb, Nat.mul_comm r,
    Nat.mul_div_mul_left _ _ (Nat.two_pow_pos a)]

/-- The groups at the top of the output register. -/
def regGroups (k r : Nat) : List Nat := (List.range k).map fun j => r / 2 ^ (width - nb * (j + 1)) % 2 ^ nb

theorem regGroups_load (k data : Nat) (hk : nb * k ≤ width) :
    regGroups width nb k (data * 2 ^ (width - nb * k) % 2 ^ width) =
      (List.range k).map fun j => data / 2 ^ (nb * k - nb * (j + 1)) % 2 ^ nb := by
  apply List.map_congr_left
  intro j hj
  have hj : j < k := List.mem_range.mp hj
  have h1 : nb * (j + 1) ≤ nb * k := Nat.mul_le_mul_left _ hj
  have h2 : nb * (j + 1) = nb * j + nb := by rw [Nat.mul_add, Nat.mul_one]
  rw [slv_field _ _ _ _ _ (by omega) (by omega)]
  congr 3
  omega

theorem regGroups_succ (k r : Nat) (hk : nb * (k + 1) ≤ width) :
    regGroups width nb (k + 1) r =
      r / 2 ^ (width - nb) % 2 ^ nb :: regGroups width nb k (r * 2 ^ nb % 2 ^ width) := by
  unfold regGroups
  rw [List.range_succ_eq_map, List.map_cons, List.map_map]
  congr 1
  · rw [Nat.zero_add, Nat.mul_one]
  · apply List.map_congr_left
    intro j hj
    have hj : j < k := List.mem_range.mp hj
    have h1 : nb * (j + 1 + 1) ≤ nb * (k + 1) := Nat.mul_le_mul_left _ (by omega)
    have h2 : nb * (j + 1) = nb * j + nb := by rw [Nat.mul_add, Nat.mul_one]
    have h3 : nb * (j + 1 + 1) = nb * (j + 1) + nb := by rw [Nat.mul_add, Nat.mul_one]
    rw [slv_field _ _ _ _ _ (by omega) (by omega)]
    show r / 2 ^ (width - nb * (j + 1 + 1)) % 2 ^ nb = _
    congr 3
    omega

/-- Relation for the transmitter. -/
def SlvT (s : SlvS) (t : SlvTx) : Prop :=
  s.dqO = t.pins ∧ ∃ k, s.cntOut = nb * k ∧ nb * k ≤ width ∧ t.todo = regGroups width nb k s.regOut

theorem slv_tx_step (hnb : 0 < nb) (s : SlvS) (x : SlvIn) (t : SlvTx) (h : SlvT width nb s t)
    (hx : x.valid = true → nb ∣ x.len ∧ x.len ≤ width) :
    slvLoad s = (!s.cs2 && decide (t.todo = [])) ∧
    SlvT width nb ((spiSlave width nb rising stages).next s x)
      (slvTxStep nb (!s.cs2) (if rising then s.clkR && !s.clk2 else !s.clkR && s.clk2)
        (if x.valid then some (x.data, x.len) else none) t) := by
  obtain ⟨hp, k, hcnt, hle, htodo⟩ := h
  have hup : s.cs2 = false → slvUpdate rising s = (if rising then s.clkR && !s.clk2 else !s.clkR && s.clk2) := by
    intro h; cases rising <;> simp [slvUpdate, slvRise, slvFall, h]
  have hup' : s.cs2 = true → slvUpdate rising s = false := by
    intro h; cases rising <;> simp [slvUpdate, slvRise, slvFall, h]
  obtain ⟨todo, pins⟩ := t
  dsimp only at hp htodo
  cases hcs : s.cs2
  · have hup := hup hcs
    cases k with
    | zero =>
      have hl : slvLoad s = true := by simp [slvLoad, hcs, hcnt]
      have ht : todo = [] := htodo
      subst ht
      refine ⟨by rw [hl]; rfl, ?_⟩
      have hd : ((spiSlave width nb rising stages).next s x).dqO = s.dqO := by simp [spiSlave, hl]
      cases hv : x.valid
      · refine ⟨by rw [hd]; exact hp, 0, ?_, Nat.zero_le _, rfl⟩
        simp [spiSlave, hl, hv, hcnt]
      · obtain ⟨⟨q, hq⟩, hlen⟩ := hx hv
        have hc' : ((spiSlave width nb rising stages).next s x).cntOut = x.len := by
          simp only [spiSlave, hl, hv, if_true]; exact truncRange_of_lt (by omega)
        have hr' : ((spiSlave width nb rising stages).next s x).regOut = x.data * 2 ^ (width - x.len) % 2 ^ width := by
          simp only [spiSlave, hl, hv, if_true]
        refine ⟨by rw [hd]; exact hp, q, by rw [hc', hq], by omega, ?_⟩
        show wordGroups nb x.len x.data = _
        rw [hr', hq, regGroups_load width nb q x.data (by omega), wordGroups, Nat.mul_div_cancel_left _ hnb]
    | succ k =>
      have hpos : 0 < nb * (k + 1) := Nat.mul_pos hnb (by omega)
      have hl : slvLoad s = false := by
        simp only [slvLoad, hcs, hcnt, Bool.not_false, Bool.true_and, beq_eq_false_iff_ne]; omega
      rw [regGroups_succ width nb k _ hle] at htodo
      subst htodo
      refine ⟨by rw [hl]; simp, ?_⟩
      rw [← hup]
      cases hu : slvUpdate rising s
      · refine ⟨?_, k + 1, ?_, hle, ?_⟩
        · simpa [spiSlave, hl, hu, slvTxStep] using hp
        · simp [spiSlave, hl, hu, hcs, hcnt]
        · have hr' : ((spiSlave width nb rising stages).next s x).regOut = s.regOut := by
            simp [spiSlave, hl, hu]
          rw [hr', regGroups_succ width nb k _ hle]
          rfl
      · refine ⟨?_, k, ?_, ?_, ?_⟩
        · simp only [spiSlave, hl, hu, Bool.not_false, Bool.true_and, if_true]
          rfl
        · have : s.cntOut > 0 := by omega
          have h2 : ((spiSlave width nb rising stages).next s x).cntOut =
              truncRange (width + 1) (s.cntOut + 2 ^ rangeWidth (width + 1) - nb) := by
            simp [spiSlave, hl, hu, this]
          have h3 : nb * (k + 1) = nb * k + nb := by rw [Nat.mul_add, Nat.mul_one]
          have h4 : ∀ M, nb * k + nb + M - nb = nb * k + M := by intro M; omega
          rw [h2, hcnt, h3, h4, truncRange, Nat.add_mod_right]
          exact truncRange_of_lt (by omega)
        · have h3 : nb * (k + 1) = nb * k + nb := by rw [Nat.mul_add, Nat.mul_one]
          omega
        · have hr' : ((spiSlave width nb rising stages).next s x).regOut = s.regOut * 2 ^ nb % 2 ^ width := by
            simp [spiSlave, hl, hu]
          rw [hr']
          rfl
  · have hl : slvLoad s = false := by simp [slvLoad, hcs]
    have hu := hup' hcs
    refine ⟨by rw [hl]; rfl, ?_⟩
    refine ⟨?_, 0, ?_, Nat.zero_le _, rfl⟩
    · have : ((spiSlave width nb rising stages).next s x).dqO = s.dqO := by simp [spiSlave, hl, hu]
      rw [this, hp]
      simp [slvTxStep]
    · simp [spiSlave, hl, hu, hcs]

/-- The transmitter of the specification, driven by the synchronised pins and the offered words. -/
def slvTxOf (n : Nat) : SlvTx :=
  slvTx nb (fun k => !slvCsN i k) (fun k => edgeAt (!rising) (slvClk i) k)
    (fun k => if (i k).valid then some ((i k).data, (i k).len) else none) n

/-- C71 (partial): the output pins are those of the specification: while selected the slave takes a word when it has
nothing to send, and each update edge puts its next group of bits, most significant first, on the pins. Missing: in
the clock modes in which the master samples before the first update edge, the response is one edge late, see
`C71_first_bit_refuted`; and a word offered right after power-on is lost, see `C71_power_on_refuted`. -/
theorem C71_transmit_partial (hnb : 0 < nb) (hok : ∀ n, (i n).valid = true → nb ∣ (i n).len ∧ (i n).len ≤ width)
    (n : Nat) :
    ((spiSlave width nb rising stages).wave i n).dqO = (slvTxOf nb rising i n).pins ∧
    ((spiSlave width nb rising stages).wave i n).ready =
      (!slvCsN i n && decide ((slvTxOf nb rising i n).todo = [])) := by
  have key : ∀ n, SlvT width nb ((spiSlave width nb rising stages).st i n) (slvTxOf nb rising i n) := by
    intro n
    induction n with
    | zero => exact ⟨rfl, 0, rfl, Nat.zero_le _, rfl⟩
    | succ n ih =>
      obtain ⟨h1, h2, h3, h4, _⟩ := slv_sync width nb rising stages i n
      have := (slv_tx_step width nb rising stages hnb _ (i n) _ ih (hok n)).2
      rw [Circuit.st_succ]
      have he : slvTxOf nb rising i (n + 1) = slvTxStep nb (!((spiSlave width nb rising stages).st i n).cs2)
          (if rising then ((spiSlave width nb rising stages).st i n).clkR &&
              !((spiSlave width nb rising stages).st i n).clk2
            else !((spiSlave width nb rising stages).st i n).clkR && ((spiSlave width nb rising stages).st i n).clk2)
          (if (i n).valid then some ((i n).data, (i n).len) else none) (slvTxOf nb rising i n) := by
        rw [h1, h2, h4]
        cases rising <;> rfl
      rw [he]
      exact this
  refine ⟨(key n).1, ?_⟩
  obtain ⟨h1, h2, h3, h4, _⟩ := slv_sync width nb rising stages i n
  have := (slv_tx_step width nb rising stages hnb _ (i n) _ (key n) (hok n)).1
  rw [h2] at this
  exact this

end

/-! ### Concrete runs -/

/-- A clock waveform of four cycles per bit; selected in cycles 4 to 83; MOSI alternates slowly. -/
def slvDemo (n : Nat) : SlvIn :=
  ⟨decide (8 ≤ n ∧ n < 80 ∧ n % 4 / 2 = 1), !decide (4 ≤ n ∧ n < 84), if n / 12 % 2 = 1 then 1 else 0,
    decide (6 ≤ n), 0x9C, 8⟩

example : SlvCfg 8 1 [4, 8] := ⟨by decide, by decide, by decide⟩

example : slvLog 8 1 true [4, 8] slvDemo 100 = [(7, 4), (28, 8), (28, 6)] := by decide +kernel
example : (slvSpec 1 [4, 8] (slvSeen true slvDemo 100)).2 = [(7, 4), (28, 8), (28, 6)] := by decide +kernel

/-- The hypothesis of `C41_words_partial` holds for this run: it is deselected inside a word. -/
example : ∀ n, slvCsN slvDemo n = true → prevOf false (slvCsN slvDemo) n = false →
    (slvSpec 1 [4, 8] (slvSeen true slvDemo n)).1.bits ≠ [] ∨
      (slvSpec 1 [4, 8] (slvSeen true slvDemo n)).1.stage = 0 := by
  intro n h1 h2
  have : n = 2 ∨ n = 86 := by
    match n with
    | 0 => cases h1
    | 1 => cases h1
    | 2 => exact .inl rfl
    | n + 3 =>
      simp only [slvCsN, prevOf, sync2, slvDemo] at h1 h2
      simp at h1 h2
      omega
  rcases this with rfl | rfl
  · right; rfl
  · left; decide +kernel

/-- Two selections, the first of four bits, the second of eight. -/
def slvTwice (n : Nat) : SlvIn :=
  ⟨decide (n % 4 / 2 = 1) && decide (8 ≤ n ∧ n < 24 ∨ 40 ≤ n ∧ n < 72), !decide (4 ≤ n ∧ n < 30 ∨ 36 ≤ n ∧ n < 80),
    if n / 8 % 2 = 1 then 1 else 0, false, 0, 0⟩

/-- C41 fails with several stages when the chip is deselected at a word boundary: the second selection does not
restart at the first stage; eight bits arrive as one word instead of four and four. -/
theorem C41_restart_refuted :
    ¬ ∀ (i : Nat → SlvIn) (n : Nat), ∃ p, p.length ≤ 1 ∧
      (slvSpec 1 [4, 8] (slvSeen true i n)).2 = slvCut (slvLog 8 1 true [4, 8] i n) ++ p := by
  intro h
  obtain ⟨p, hp, he⟩ := h slvTwice 90
  have h1 : (slvSpec 1 [4, 8] (slvSeen true slvTwice 90)).2 = [(12, 4), (12, 4), (12, 4)] := by decide +kernel
  have h2 : slvLog 8 1 true [4, 8] slvTwice 90 = [(12, 4), (204, 8)] := by decide +kernel
  rw [h1, h2] at he
  simp [slvCut] at he

/-- The values of the output pins in the cycles in which the clock pin (or its inverse) has just risen. -/
def slvMasterSees (rising : Bool) (i : Nat → SlvIn) (n : Nat) : List Nat :=
  clkRises (fun k => if rising then (i k).clk else !(i k).clk) (fun k => ((spiSlave 8 1 rising [8]).wave i k).dqO) n

/-- The word 0x9C with eight clock cycles per bit. -/
def slvSlow (n : Nat) : SlvIn :=
  ⟨decide (16 ≤ n ∧ n % 8 / 4 = 1), !decide (4 ≤ n), 0, decide (6 ≤ n), 0x9C, 8⟩

/-- C71 fails in the clock modes that sample at the first edge: although the word 0x9C was taken before the first
edge, the first sample is not its first bit but what was on the pins before. -/
theorem C71_first_bit_refuted : slvMasterSees true slvSlow 80 = [0, 1, 0, 0, 1, 1, 1, 0] ∧
    wordGroups 1 8 0x9C = [1, 0, 0, 1, 1, 1, 0, 0] := by decide +kernel

/-- C71 fails after power-on: the synchroniser of the chip select starts low, the slave believes to be selected, takes
the word 0x81 offered in the first cycle and drops it; the only word sent is the next one. -/
def slvPowerOn (n : Nat) : SlvIn := { slvSlow n with valid := true, data := if n < 2 then 0x81 else 0x9C }

theorem C71_power_on_refuted : ((spiSlave 8 1 true [8]).wave slvPowerOn 0).ready = true ∧ (slvPowerOn 0).csN = true ∧
    slvMasterSees true slvPowerOn 80 = [0, 1, 0, 0, 1, 1, 1, 0] := by decide +kernel

/-- In a mode sampling at the second edge all bits arrive. -/
example : slvMasterSees false slvSlow 85 = 0 :: wordGroups 1 8 0x9C := by decide +kernel

end Lambdalib
