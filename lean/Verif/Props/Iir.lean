import Verif.Lemmas.Iir
import Verif.Props.Arith
import Mathlib.Tactic.Linarith
import Mathlib.Tactic.Positivity
import Mathlib.Tactic.Ring

/-! C45: the IIR filter. -/

namespace Lambdalib

section
variable (c : IirCfg) (i : Nat → IirIn)

/-- Usable configuration: `order ≥ 1`, as many coefficients for inputs as for outputs. -/
structure IirOk : Prop where
  width : 0 < c.width
  ws : c.width ≤ c.ws
  len : c.b.length = c.a.length
  size : 2 ≤ c.a.length

/-- `d` is a value of a `w` bit signed signal. -/
def InSigned (w : Nat) (d : Int) : Prop := -2 ^ (w - 1) ≤ d ∧ d < 2 ^ (w - 1)

/-- Samples accepted, samples delivered, operands taken by the multiplier, its results. -/
def iirAccepted (n : Nat) : List IirSample :=
  transferred (fun k => (i k).valid) (fun k => ((iir c).wave i k).ready)
    (fun k => ⟨(i k).first, (i k).last, (i k).data⟩) n
def iirDelivered (n : Nat) : List IirSample :=
  transferred (fun k => ((iir c).wave i k).valid) (fun k => (i k).ready)
    (fun k => ⟨((iir c).wave i k).first, ((iir c).wave i k).last, ((iir c).wave i k).data⟩) n
def iirIssued (n : Nat) : List IirTerm :=
  transferred (fun k => ((iir c).wave i k).mValid) (fun k => (i k).mReady)
    (fun k => (((iir c).wave i k).mA, ((iir c).wave i k).mB, ((iir c).wave i k).mLast)) n
def iirResults (n : Nat) : List (Int × Bool) :=
  transferred (fun k => (i k).mValid) (fun _ => true) (fun k => ((i k).mC, (i k).mLast)) n

/-- Contract of the multiplier: its results are, in order, the products of operands it has taken. -/
def MultContract : Prop :=
  ∀ n, iirResults i n <+: (iirIssued c i n).map fun t => (t.1 * t.2.1, t.2.2)

theorem iir_inv (ho : IirOk c) (hx : ∀ n, InSigned c.width (i n).data) (hm : MultContract c i) (n : Nat) :
    iirRel c (iirAccepted c i n) (iirDelivered c i n) (iirIssued c i n) (iirResults i n) ((iir c).st i n) := by
  induction n with
  | zero =>
    refine ⟨rfl, .inl ⟨rfl, rfl, rfl, rfl, ?_, ?_⟩⟩
    · simp [iir, iirAccepted, DiffEq.run, pad_nil]
    · simp [iir, iirAccepted, DiffEq.run, pad_nil]
  | succ n ih =>
    have e : iirResults i (n + 1) = iirResults i n ++ iirRes (i n) := by
      simp [iirResults, transferred_succ, iirRes]
    have hc := hm (n + 1)
    rw [e] at hc ⊢
    exact iir_step c ho.width ho.ws ho.len ho.size _ _ _ _ _ (i n) ih (hx n).1 (hx n).2 hc

theorem iir_offer (ho : IirOk c) (A D : List IirSample) (I : List IirTerm) (R : List (Int × Bool)) (s : IirS) (x : IirIn)
    (h : iirRel c A D I R s) (hx : InSigned c.width x.data) (hm : R <+: I.map iirProd) :
    ∃ p, iirExpect c A = D ++ p ∧ p.length = (if ((iir c).out s x).ready then 0 else 1) ∧
      (((iir c).out s x).valid = true →
        p = [⟨((iir c).out s x).first, ((iir c).out s x).last, ((iir c).out s x).data⟩]) := by
  have h' := iir_step c ho.width ho.ws ho.len ho.size _ _ _ _ _ { x with ready := true, mValid := false } h hx.1
    hx.2 (by
      have e : iirRes { x with ready := true, mValid := false } = [] := rfl
      rw [e, List.append_nil, List.map_append]
      exact hm.trans (List.prefix_append _ _))
  obtain ⟨_, h⟩ := h
  rcases h with ⟨hst, hv, hE, hR, hi, hoo⟩ | ⟨A0, d, I0, k, hA, hE, hf, hl, hi, hoo, hol, hI, hR, h⟩
  · refine ⟨[], by simpa using hE, ?_, ?_⟩
    · simp [iir, hst]
    · simp [iir, hst]
  · have hne : s.st ≠ .idle := by
      rcases h with ⟨h, _⟩ | ⟨h, _⟩
      · exact h
      · rw [h]; decide
    refine ⟨_, by rw [hA, iirExpect_snoc, hE], ?_, ?_⟩
    · simp [iir, hne]
    · intro hv
      have hst : s.st = .output := by simpa [iir] using hv
      -- taking the sample now would complete it
      obtain ⟨_, h'⟩ := h'
      have hst' : ((iir c).next s { x with ready := true, mValid := false }).st = .idle := by simp [iir, hst]
      rcases h' with ⟨_, _, hE', _⟩ | ⟨_, _, _, _, _, _, _, _, _, _, _, _, _, h'⟩
      · have eA : iirAccd c s { x with ready := true, mValid := false } = [] := by simp [iirAccd, iir, hst]
        have eD : iirDel c s { x with ready := true, mValid := false } =
            [⟨((iir c).out s x).first, ((iir c).out s x).last, ((iir c).out s x).data⟩] := by
          simp [iirDel, iir, hst]
        rw [eA, eD, List.append_nil, hA, iirExpect_snoc, hE] at hE'
        exact List.append_cancel_left hE'
      · rcases h' with ⟨h, _⟩ | ⟨h, _⟩
        · exact absurd hst' h
        · rw [h] at hst'; cases hst'

/-- C45: with any multiplier obeying the contract, whatever its latency and back-pressure, the delivered samples are
those of the difference equation, except for the one in progress, with `first` and `last` of the accepted ones; a new
sample is accepted exactly when none is in progress. -/
theorem C45_filter_any_multiplier (ho : IirOk c) (hx : ∀ n, InSigned c.width (i n).data) (hm : MultContract c i)
    (n : Nat) :
    ∃ p, iirExpect c (iirAccepted c i n) = iirDelivered c i n ++ p ∧
      p.length = (if ((iir c).wave i n).ready then 0 else 1) ∧
      (((iir c).wave i n).valid = true →
        p = [⟨((iir c).wave i n).first, ((iir c).wave i n).last, ((iir c).wave i n).data⟩]) :=
  iir_offer c ho _ _ _ _ _ (i n) (iir_inv c i ho hx hm n) (hx n) (hm n)

/-- C45: a sample on offer is held until it is taken. -/
theorem C45_stable (ho : IirOk c) (hx : ∀ n, InSigned c.width (i n).data) (hm : MultContract c i) :
    Stable (fun k => ((iir c).wave i k).valid) (fun k => (i k).ready)
      (fun k => (((iir c).wave i k).first, ((iir c).wave i k).last, ((iir c).wave i k).data)) := by
  intro n hv hr
  have h := iir_inv c i ho hx hm n
  simp only [Circuit.wave, Circuit.st_succ] at *
  generalize (iir c).st i n = s at *
  have hst : s.st = .output := by simpa [iir] using hv
  obtain ⟨_, h⟩ := h
  rcases h with ⟨h, _⟩ | ⟨A0, d, I0, k, hA, hE, hf, hl, hi, hoo, hol, hI, hR, h⟩
  · rw [h] at hst; cases hst
  · rcases h with ⟨_, h, _⟩ | ⟨_, h, _⟩
    · exact absurd hst h
    · simp [iir, hst, hr, h]

end

/-! ### The filter with its own multiplier -/

section
variable (c : IirCfg) (i : Nat → IirIntIn)

/-- Inputs of the filter proper. -/
def iirInner (n : Nat) : IirIn := iirMult c ((iirInt c).st i n).2 (i n)

theorem iirInt_st (n : Nat) : ((iirInt c).st i n).1 = (iir c).st (iirInner c i) n := by
  induction n with
  | zero => rfl
  | succ n ih =>
    show (iir c).next ((iirInt c).st i n).1 (iirInner c i n) = _
    rw [ih]; rfl

theorem iirInt_wave (n : Nat) : (iirInt c).wave i n = (iir c).wave (iirInner c i) n := by
  show (iir c).out ((iirInt c).st i n).1 (iirInner c i n) = _
  rw [iirInt_st]; rfl

theorem inSigned_wrap (w : Nat) (v : Int) (hw : 0 < w) : InSigned w (wrapS w v) := by
  have e : (2 : Int) ^ w = 2 * 2 ^ (w - 1) := by
    rw [show (2 : Int) * 2 ^ (w - 1) = 2 ^ (w - 1) * 2 by omega, ← Int.pow_succ]; congr 1; omega
  have hp : (0 : Int) < 2 ^ (w - 1) := Int.pow_pos (by omega)
  have e2 : ((2 ^ w : Nat) : Int) = 2 * 2 ^ (w - 1) := by rw [← e]; norm_cast
  have h1 := Int.le_bmod (x := v) (m := 2 ^ w) (Nat.pow_pos (by omega))
  have h2 := Int.bmod_lt (x := v) (m := 2 ^ w) (Nat.pow_pos (by omega))
  unfold InSigned wrapS
  omega

theorem wrap_of_inSigned (w : Nat) (v : Int) (hw : 0 < w) (h : InSigned w v) : v.bmod (2 ^ w) = v := by
  obtain ⟨h1, h2⟩ := h
  have e : (2 : Int) ^ w = 2 * 2 ^ (w - 1) := by
    rw [show (2 : Int) * 2 ^ (w - 1) = 2 ^ (w - 1) * 2 by omega, ← Int.pow_succ]; congr 1; omega
  have hp : (0 : Int) < 2 ^ (w - 1) := Int.pow_pos (by omega)
  have e2 : ((2 ^ w : Nat) : Int) = 2 * 2 ^ (w - 1) := by rw [← e]; norm_cast
  apply Int.bmod_eq_of_le <;> omega

theorem inSigned_zero (w : Nat) : InSigned w 0 := by
  have hp : (0 : Int) < 2 ^ (w - 1) := Int.pow_pos (by omega)
  unfold InSigned; omega

/-- The signal registers keep values of their width. -/
theorem iir_range_step (hws : 0 < c.ws) (s : IirS) (x : IirIn)
    (h : (∀ v ∈ s.iR, InSigned c.ws v) ∧ (∀ v ∈ s.oR, InSigned c.ws v)) :
    (∀ v ∈ ((iir c).next s x).iR, InSigned c.ws v) ∧ (∀ v ∈ ((iir c).next s x).oR, InSigned c.ws v) := by
  obtain ⟨st, idx, iR, oR, cR, validR, lastR, sumR, first, last⟩ := s
  obtain ⟨h1, h2⟩ := h
  dsimp only at h1 h2
  cases st with
  | idle =>
    cases hv : x.valid
    · simp only [iir, hv]; exact ⟨h1, h2⟩
    · simp only [iir, hv, if_true]
      constructor
      · intro v hv
        rcases List.mem_cons.mp hv with rfl | hv
        · exact inSigned_wrap _ _ hws
        · exact h1 v (List.dropLast_subset _ hv)
      · intro v hv
        rcases List.mem_cons.mp hv with rfl | hv
        · exact inSigned_zero _
        · exact h2 v (List.dropLast_subset _ hv)
  | runB => simp only [iir]; split <;> (try split) <;> exact ⟨h1, h2⟩
  | runA => simp only [iir]; split <;> (try split) <;> exact ⟨h1, h2⟩
  | wait => simp only [iir]; split <;> exact ⟨h1, h2⟩
  | output =>
    simp only [iir]
    refine ⟨h1, ?_⟩
    intro v hv
    rcases List.mem_or_eq_of_mem_set hv with hv | hv
    · exact h2 v hv
    · rw [hv]; exact inSigned_wrap _ _ hws

/-- The signal registers hold values of their width. -/
theorem iir_range (hws : 0 < c.ws) (j : Nat → IirIn) (n : Nat) :
    (∀ v ∈ ((iir c).st j n).iR, InSigned c.ws v) ∧ (∀ v ∈ ((iir c).st j n).oR, InSigned c.ws v) := by
  refine (iir c).st_invariant (fun s => (∀ v ∈ s.iR, InSigned c.ws v) ∧ (∀ v ∈ s.oR, InSigned c.ws v)) ?_ ?_ j n
  · constructor <;>
    · intro v hv
      have : v = 0 := by simp [iir] at hv; exact hv.2
      rw [this]; exact inSigned_zero _
  · exact fun s x h => iir_range_step c hws s x h

theorem getD_inSigned (w : Nat) (l : List Int) (k : Nat) (h : ∀ v ∈ l, InSigned w v) : InSigned w (l.getD k 0) := by
  rcases Nat.lt_or_ge k l.length with hk | hk
  · have : l.getD k 0 = l[k] := by simp [hk]
    rw [this]; exact h _ (List.getElem_mem hk)
  · have : l.getD k 0 = 0 := by simp [hk]
    rw [this]; exact inSigned_zero _

/-- The operands fit the multiplier. -/
theorem iir_operands (hws : 0 < c.ws) (hb : ∀ v ∈ c.b, InSigned c.wc v) (ha : ∀ v ∈ c.a, InSigned c.wc v)
    (j : Nat → IirIn) (n : Nat) :
    InSigned c.ws ((iir c).wave j n).mA ∧ InSigned c.wc ((iir c).wave j n).mB := by
  obtain ⟨h1, h2⟩ := iir_range c hws j n
  simp only [Circuit.wave]
  generalize (iir c).st j n = s at *
  simp only [iir]
  constructor
  · split
    · exact getD_inSigned _ _ _ h1
    · split
      · exact getD_inSigned _ _ _ h2
      · exact inSigned_zero _
  · split
    · exact getD_inSigned _ _ _ hb
    · split
      · exact getD_inSigned _ _ _ ha
      · exact inSigned_zero _

/-- The internal multiplier obeys the contract. -/
theorem iirInt_contract (hws : 0 < c.ws) (hwc : 0 < c.wc) (hb : ∀ v ∈ c.b, InSigned c.wc v)
    (ha : ∀ v ∈ c.a, InSigned c.wc v) : MultContract c (iirInner c i) := by
  have key : ∀ n, iirResults (iirInner c i) n ++
      (if ((iirInt c).st i n).2.valid
        then [(((iirInt c).st i n).2.beat.payload.toInt, ((iirInt c).st i n).2.beat.last)] else []) =
      (iirIssued c (iirInner c i) n).map fun t => (t.1 * t.2.1, t.2.2) := by
    intro n
    induction n with
    | zero => rfl
    | succ n ih =>
      have e1 : iirResults (iirInner c i) (n + 1) = iirResults (iirInner c i) n ++
          (if ((iirInt c).st i n).2.valid
            then [(((iirInt c).st i n).2.beat.payload.toInt, ((iirInt c).st i n).2.beat.last)] else []) := by
        simp [iirResults, transferred_succ, iirInner, iirMult]
      have e2 : iirIssued c (iirInner c i) (n + 1) = iirIssued c (iirInner c i) n ++
          (if ((iir c).wave (iirInner c i) n).mValid then [(((iir c).wave (iirInner c i) n).mA,
            ((iir c).wave (iirInner c i) n).mB, ((iir c).wave (iirInner c i) n).mLast)] else []) := by
        simp [iirIssued, transferred_succ, iirInner, iirMult]
      rw [e1, ih, e2, List.map_append]
      congr 1
      obtain ⟨h1, h2⟩ := iir_operands c hws hb ha (iirInner c i) n
      have e3 : ((iirInt c).st i (n + 1)).2 = ⟨((iir c).wave (iirInner c i) n).mValid, ⟨false,
          ((iir c).wave (iirInner c i) n).mLast, multiply true true (BitVec.ofInt c.ws ((iir c).wave (iirInner c i) n).mA,
            BitVec.ofInt c.wc ((iir c).wave (iirInner c i) n).mB)⟩⟩ := by
        have : (iir c).wave (iirInner c i) n = (iir c).out ((iirInt c).st i n).1 (iirInner c i n) := by
          rw [iirInt_st]; rfl
        rw [this]
        simp only [Circuit.st_succ, iirInt, multiplier, Bool.or_true, if_true]
        rfl
      rw [e3]
      have hp := C24_product_exact true true (BitVec.ofInt c.ws ((iir c).wave (iirInner c i) n).mA,
        BitVec.ofInt c.wc ((iir c).wave (iirInner c i) n).mB)
      simp only [productSigned, Bool.or_self, shapeVal, if_true, BitVec.toInt_ofInt,
        wrap_of_inSigned _ _ hws h1, wrap_of_inSigned _ _ hwc h2] at hp
      cases hv : ((iir c).wave (iirInner c i) n).mValid
      · rfl
      · simp [hp]
  intro n
  rw [← key n]
  exact List.prefix_append _ _

/-- Samples accepted and delivered. -/
def iirIntAccepted (n : Nat) : List IirSample :=
  transferred (fun k => (i k).valid) (fun k => ((iirInt c).wave i k).ready) (fun k => (i k).sample) n
def iirIntDelivered (n : Nat) : List IirSample :=
  transferred (fun k => ((iirInt c).wave i k).valid) (fun k => (i k).ready)
    (fun k => ⟨((iirInt c).wave i k).first, ((iirInt c).wave i k).last, ((iirInt c).wave i k).data⟩) n

/-- C45: the delivered samples are those of the difference equation, for every schedule. -/
theorem C45_filter (ho : IirOk c) (hwc : 0 < c.wc) (hb : ∀ v ∈ c.b, InSigned c.wc v) (ha : ∀ v ∈ c.a, InSigned c.wc v)
    (hx : ∀ n, InSigned c.width (i n).sample.data) (n : Nat) :
    ∃ p, iirExpect c (iirIntAccepted c i n) = iirIntDelivered c i n ++ p ∧
      p.length = (if ((iirInt c).wave i n).ready then 0 else 1) ∧
      (((iirInt c).wave i n).valid = true →
        p = [⟨((iirInt c).wave i n).first, ((iirInt c).wave i n).last, ((iirInt c).wave i n).data⟩]) := by
  have hws : 0 < c.ws := Nat.lt_of_lt_of_le ho.width ho.ws
  have := C45_filter_any_multiplier c (iirInner c i) ho hx (iirInt_contract c i hws hwc hb ha) n
  have e1 : iirIntAccepted c i n = iirAccepted c (iirInner c i) n := by
    unfold iirIntAccepted iirAccepted
    simp only [iirInt_wave]
    rfl
  have e2 : iirIntDelivered c i n = iirDelivered c (iirInner c i) n := by
    unfold iirIntDelivered iirDelivered
    simp only [iirInt_wave]
    rfl
  rw [e1, e2, iirInt_wave]
  exact this

/-- The accumulation registers follow the operands by two cycles. -/
theorem iirInt_delay (n : Nat) : ((iirInt c).st i (n + 2)).1.validR = ((iirInt c).wave i n).mValid ∧
    ((iirInt c).st i (n + 2)).1.lastR = ((iirInt c).wave i n).mLast := by
  have e : ((iirInt c).st i (n + 1)).2.valid = ((iirInt c).wave i n).mValid ∧
      ((iirInt c).st i (n + 1)).2.beat.last = ((iirInt c).wave i n).mLast := by
    simp only [Circuit.st_succ, Circuit.wave]
    generalize (iirInt c).st i n = s
    simp [iirInt, multiplier]
  rw [← e.1, ← e.2]
  rw [Circuit.st_succ _ _ (n + 1)]
  generalize (iirInt c).st i (n + 1) = s
  obtain ⟨⟨st, idx, iR, oR, cR, validR, lastR, sumR, first, last⟩, m⟩ := s
  have : ∀ (s : IirS) (x : IirIn), ((iir c).next s x).validR = x.mValid ∧ ((iir c).next s x).lastR = x.mLast := by
    rintro ⟨st, idx, iR, oR, cR, validR, lastR, sumR, first, last⟩ x
    cases st <;> dsimp only [iir] <;> repeat' split
    all_goals exact ⟨rfl, rfl⟩
  exact this _ _

theorem iir_idx_step (hs : 2 ≤ c.size) (s : IirS) (x : IirIn) (h : iirIdxOk c s) : iirIdxOk c ((iir c).next s x) := by
  obtain ⟨st, idx, iR, oR, cR, validR, lastR, sumR, first, last⟩ := s
  cases st with
  | idle =>
    have h : idx = 0 := h
    subst h
    simp only [iir]
    split
    · show 0 < c.size; omega
    · exact rfl
  | runB =>
    have h : idx < c.size := h
    simp only [iir]
    split
    · split
      · rw [truncRange_of_lt (by omega)]; show idx + 1 < c.size; omega
      · rw [truncRange_of_lt (by omega)]; exact ⟨Nat.le_refl 1, by show 1 < c.size; omega⟩
    · exact h
  | runA =>
    have h : 1 ≤ idx ∧ idx < c.size := h
    simp only [iir]
    split
    · split
      · rw [truncRange_of_lt (by omega)]; exact ⟨by show 1 ≤ idx + 1; omega, by show idx + 1 < c.size; omega⟩
      · exact rfl
    · exact h
  | wait =>
    have h : idx = 0 := h
    simp only [iir]
    split <;> exact h
  | output =>
    have h : idx = 0 := h
    simp only [iir]
    cases x.ready <;> exact h

/-- C45: with its own multiplier the filter delivers exactly `2 * size + 2` cycles after accepting. -/
theorem C45_latency (ho : IirOk c) (n : Nat) (hr : ((iirInt c).wave i n).ready = true) (hv : (i n).valid = true) :
    ((iirInt c).wave i (n + 2 * c.size + 2)).valid = true ∧
    ∀ t < 2 * c.size + 1, ((iirInt c).wave i (n + 1 + t)).valid = false ∧
      ((iirInt c).wave i (n + 1 + t)).ready = false := by
  have hs : 2 ≤ c.size := ho.size
  have hz : ∀ n, ((iirInt c).st i n).1.st = .idle → ((iirInt c).st i n).1.idx = 0 := by
    intro n
    have : iirIdxOk c ((iirInt c).st i n).1 := by
      exact (iirInt c).st_invariant (fun s => iirIdxOk c s.1) rfl (fun s x h => iir_idx_step c hs _ _ h) i n
    intro h
    unfold iirIdxOk at this
    rw [h] at this
    exact this
  have hB : ∀ k, k < c.size → ((iirInt c).st i (n + 1 + k)).1.st = .runB ∧ ((iirInt c).st i (n + 1 + k)).1.idx = k := by
    intro k
    induction k with
    | zero =>
      intro _
      have hst : ((iirInt c).st i n).1.st = .idle := by simpa [Circuit.wave, iirInt, iir] using hr
      have h0 := hz n hst
      rw [Nat.add_zero, Circuit.st_succ]
      generalize (iirInt c).st i n = s at *
      simp [iirInt, iir, hst, iirMult, hv, h0]
    | succ k ih =>
      intro hk
      obtain ⟨h1, h2⟩ := ih (by omega)
      rw [← Nat.add_assoc, Circuit.st_succ]
      generalize (iirInt c).st i (n + 1 + k) = s at *
      have hlt : k < c.size - 1 := by omega
      have := truncRange_of_lt (n := c.size) (v := k + 1) hk
      simp [iirInt, iir, h1, h2, iirMult, hlt, this]
  have hA : ∀ k, k + 1 < c.size →
      ((iirInt c).st i (n + 1 + c.size + k)).1.st = .runA ∧ ((iirInt c).st i (n + 1 + c.size + k)).1.idx = k + 1 := by
    intro k
    induction k with
    | zero =>
      intro _
      obtain ⟨h1, h2⟩ := hB (c.size - 1) (by omega)
      rw [show n + 1 + c.size + 0 = n + 1 + (c.size - 1) + 1 by omega, Circuit.st_succ]
      generalize (iirInt c).st i (n + 1 + (c.size - 1)) = s at *
      have := truncRange_of_lt (n := c.size) (v := 1) (by omega)
      simp [iirInt, iir, h1, h2, iirMult, this]
    | succ k ih =>
      intro hk
      obtain ⟨h1, h2⟩ := ih (by omega)
      rw [← Nat.add_assoc, Circuit.st_succ]
      generalize (iirInt c).st i (n + 1 + c.size + k) = s at *
      have hlt : k + 1 < c.size - 1 := by omega
      have := truncRange_of_lt (n := c.size) (v := k + 1 + 1) hk
      simp [iirInt, iir, h1, h2, iirMult, hlt, this]
  have hW : ((iirInt c).st i (n + 2 * c.size)).1.st = .wait := by
    obtain ⟨h1, h2⟩ := hA (c.size - 2) (by omega)
    rw [show n + 2 * c.size = n + 1 + c.size + (c.size - 2) + 1 by omega, Circuit.st_succ]
    generalize (iirInt c).st i (n + 1 + c.size + (c.size - 2)) = s at *
    have h2 : s.1.idx = c.size - 1 := by omega
    simp [iirInt, iir, h1, h2, iirMult]
  have hl1 : ((iirInt c).wave i (n + 2 * c.size - 2)).mLast = false := by
    have hor : (((iirInt c).st i (n + 2 * c.size - 2)).1.st = .runB) ∨
        (((iirInt c).st i (n + 2 * c.size - 2)).1.st = .runA ∧
          ((iirInt c).st i (n + 2 * c.size - 2)).1.idx = c.size - 2) := by
      by_cases h2 : c.size = 2
      · left
        have := (hB (c.size - 1) (by omega)).1
        rw [show n + 1 + (c.size - 1) = n + 2 * c.size - 2 by omega] at this
        exact this
      · right
        have := hA (c.size - 3) (by omega)
        rw [show n + 1 + c.size + (c.size - 3) = n + 2 * c.size - 2 by omega,
          show c.size - 3 + 1 = c.size - 2 by omega] at this
        exact this
    simp only [Circuit.wave]
    generalize (iirInt c).st i (n + 2 * c.size - 2) = s at *
    rcases hor with h | ⟨h, h2⟩
    · simp [iirInt, iir, h]
    · simp only [iirInt, iir, h, h2]
      simp
      omega
  have hl2 : ((iirInt c).wave i (n + 2 * c.size - 1)).mLast = true ∧
      ((iirInt c).wave i (n + 2 * c.size - 1)).mValid = true := by
    obtain ⟨h1, h2⟩ := hA (c.size - 2) (by omega)
    rw [show n + 1 + c.size + (c.size - 2) = n + 2 * c.size - 1 by omega] at h1 h2
    simp only [Circuit.wave]
    generalize (iirInt c).st i (n + 2 * c.size - 1) = s at *
    have h2 : s.1.idx = c.size - 1 := by omega
    simp [iirInt, iir, h1, h2]
  have hW2 : ((iirInt c).st i (n + 2 * c.size + 1)).1.st = .wait := by
    have hd := (iirInt_delay c i (n + 2 * c.size - 2)).2
    rw [hl1, show n + 2 * c.size - 2 + 2 = n + 2 * c.size by omega] at hd
    rw [Circuit.st_succ]
    generalize (iirInt c).st i (n + 2 * c.size) = s at *
    simp [iirInt, iir, hW, hd]
  have hO : ((iirInt c).st i (n + 2 * c.size + 2)).1.st = .output := by
    obtain ⟨hd1, hd2⟩ := iirInt_delay c i (n + 2 * c.size - 1)
    rw [show n + 2 * c.size - 1 + 2 = n + 2 * c.size + 1 by omega] at hd1 hd2
    rw [hl2.2] at hd1
    rw [hl2.1] at hd2
    rw [show n + 2 * c.size + 2 = n + 2 * c.size + 1 + 1 by omega, Circuit.st_succ]
    generalize (iirInt c).st i (n + 2 * c.size + 1) = s at *
    simp [iirInt, iir, hW2, hd1, hd2]
  constructor
  · simp only [Circuit.wave]
    generalize (iirInt c).st i (n + 2 * c.size + 2) = s at *
    simp [iirInt, iir, hO]
  · intro t ht
    have hor : ((iirInt c).st i (n + 1 + t)).1.st = .runB ∨ ((iirInt c).st i (n + 1 + t)).1.st = .runA ∨
        ((iirInt c).st i (n + 1 + t)).1.st = .wait := by
      rcases Nat.lt_or_ge t c.size with h | h
      · exact .inl (hB t h).1
      · rcases Nat.lt_or_ge t (2 * c.size - 1) with h2 | h2
        · have := (hA (t - c.size) (by omega)).1
          rw [show n + 1 + c.size + (t - c.size) = n + 1 + t by omega] at this
          exact .inr (.inl this)
        · right; right
          rcases Nat.lt_or_ge t (2 * c.size) with h3 | h3
          · rw [show n + 1 + t = n + 2 * c.size by omega]; exact hW
          · rw [show n + 1 + t = n + 2 * c.size + 1 by omega]; exact hW2
    simp only [Circuit.wave]
    generalize (iirInt c).st i (n + 1 + t) = s at *
    rcases hor with h | h | h <;> simp [iirInt, iir, h]

end

/-- C45: the fixed-point coefficients and their negations fit the coefficient width. `cmax` bounds the coefficients,
`nbits` is at least the binary logarithm of `cmax + 1` (iir.py 46-47), the shift is `wc - nbits - 1` (48). -/
theorem C45_coefficients_fit (v cmax : Rat) (nbits wc : Nat) (h1 : -cmax ≤ v) (h2 : v ≤ cmax)
    (hn : cmax + 1 ≤ 2 ^ nbits) (hw : nbits + 1 ≤ wc) :
    InSigned wc (iirCoeff (wc - nbits - 1) v) ∧ InSigned wc (-iirCoeff (wc - nbits - 1) v) := by
  have hp : (0 : Rat) < 2 ^ (wc - nbits - 1) := by positivity
  have e : (2 : Rat) ^ (wc - 1) = 2 ^ nbits * 2 ^ (wc - nbits - 1) := by
    rw [← pow_add]; congr 1; omega
  have hb1 : v * 2 ^ (wc - nbits - 1) < 2 ^ (wc - 1) := by
    rw [e]; exact mul_lt_mul_of_pos_right (by linarith) hp
  have hb2 : -2 ^ (wc - 1) < v * 2 ^ (wc - nbits - 1) := by
    rw [e, ← neg_mul]; exact mul_lt_mul_of_pos_right (by linarith) hp
  have key : -2 ^ (wc - 1) < iirCoeff (wc - nbits - 1) v ∧ iirCoeff (wc - nbits - 1) v < 2 ^ (wc - 1) := by
    unfold iirCoeff
    split
    · rename_i h0
      have h3 := Rat.floor_le (v * 2 ^ (wc - nbits - 1))
      have h4 : 0 ≤ (v * 2 ^ (wc - nbits - 1)).floor :=
        Rat.le_floor_iff.mpr (by have := mul_nonneg h0 hp.le; exact_mod_cast this)
      have h5 : ((v * 2 ^ (wc - nbits - 1)).floor : Rat) < 2 ^ (wc - 1) := lt_of_le_of_lt h3 hb1
      have h6 : (v * 2 ^ (wc - nbits - 1)).floor < 2 ^ (wc - 1) := by exact_mod_cast h5
      have : (0 : Int) < 2 ^ (wc - 1) := by positivity
      omega
    · rename_i h0
      have h3 := Rat.le_ceil (x := v * 2 ^ (wc - nbits - 1))
      have h4 : (v * 2 ^ (wc - nbits - 1)).ceil ≤ 0 := by
        have : v * 2 ^ (wc - nbits - 1) ≤ 0 := mul_nonpos_of_nonpos_of_nonneg (by linarith) hp.le
        exact Rat.ceil_le_iff.mpr (by exact_mod_cast this)
      have h5 : (-2 ^ (wc - 1) : Rat) < ((v * 2 ^ (wc - nbits - 1)).ceil : Rat) := lt_of_lt_of_le hb2 h3
      have h6 : -2 ^ (wc - 1) < (v * 2 ^ (wc - nbits - 1)).ceil := by exact_mod_cast h5
      have : (0 : Int) < 2 ^ (wc - 1) := by positivity
      omega
  unfold InSigned
  omega

/-! ### Concrete run -/

/-- `y[n] = (x[n] + x[n-1]) / 2 + y[n-1] / 2` in 8 bit samples with 4 bits of extra precision and coefficients with 4
fractional bits. -/
def iirDemoC : IirCfg := ⟨8, 12, 8, 4, [8, 8], [-16, 8]⟩

example : IirOk iirDemoC := ⟨by decide, by decide, by decide, by decide⟩
example : (∀ v ∈ iirDemoC.b, InSigned iirDemoC.wc v) ∧ (∀ v ∈ iirDemoC.a, InSigned iirDemoC.wc v) := by
  simp [iirDemoC, InSigned]

/-- A step of height 20, the receiver is ready every third cycle. -/
def iirDemo (n : Nat) : IirIntIn := ⟨true, ⟨n == 0, false, 20⟩, n % 3 == 0⟩

example : iirIntDelivered iirDemoC iirDemo 40 = [⟨true, false, 10⟩, ⟨false, false, 25⟩, ⟨false, false, 32⟩, ⟨false, false, 36⟩] ∧
    (iirIntAccepted iirDemoC iirDemo 40).length = 5 := by decide +kernel

end Lambdalib
