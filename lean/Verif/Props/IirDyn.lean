import Verif.Model.IirDyn
import Verif.Spec.IirDyn
import Verif.Props.Iir

/-! C121: the IIR filter with coefficients that change during the run. -/

namespace Lambdalib

section
variable (c : IirCfg) (i : Nat → IirDynIn)

/-- A sample together with the contents of the coefficient registers that apply to it. -/
abbrev IirTagged := IirSample × (List Int × List Int)

/-- The equation with the given contents of the coefficient registers. -/
def iirVarEqn (q : List Int × List Int) : DiffEq := ⟨c.width, c.ws - c.width, c.ws + c.wc, c.sc, q.1, q.2.tail⟩

/-- The samples that must come out. -/
def iirVarExpect (S : List IirTagged) : List IirSample :=
  List.zipWith (fun s d => { s.1 with data := d }) S (varRun (S.map fun p => (iirVarEqn c p.2, p.1.data))).2

/-- Samples accepted, with the contents of the coefficient registers in the cycle after; samples delivered; operands taken by the
multiplier; its results. -/
def iirDynAccepted (n : Nat) : List IirTagged :=
  transferred (fun k => (i k).x.valid) (fun k => ((iirDyn c).wave i k).ready)
    (fun k => (⟨(i k).x.first, (i k).x.last, (i k).x.data⟩, (i (k + 1)).coef)) n
def iirDynDelivered (n : Nat) : List IirSample :=
  transferred (fun k => ((iirDyn c).wave i k).valid) (fun k => (i k).x.ready)
    (fun k => ⟨((iirDyn c).wave i k).first, ((iirDyn c).wave i k).last, ((iirDyn c).wave i k).data⟩) n
def iirDynIssued (n : Nat) : List IirTerm :=
  transferred (fun k => ((iirDyn c).wave i k).mValid) (fun k => (i k).x.mReady)
    (fun k => (((iirDyn c).wave i k).mA, ((iirDyn c).wave i k).mB, ((iirDyn c).wave i k).mLast)) n
def iirDynResults (n : Nat) : List (Int × Bool) :=
  transferred (fun k => (i k).x.mValid) (fun _ => true) (fun k => ((i k).x.mC, (i k).x.mLast)) n

/-- As many registers as in the configuration. -/
def CoefLen : Prop := ∀ n, (i n).coef.1.length = c.size ∧ (i n).coef.2.length = c.size

/-- The registers do not change while operands are given to the multiplier. -/
def CoefHeld : Prop := ∀ n, ((iirDyn c).wave i n).mValid = true → ((iirDyn c).wave i (n + 1)).mValid = true → (i (n + 1)).coef = (i n).coef

/-- The multiplier's contract, as in C45. -/
def DynContract : Prop := ∀ n, iirDynResults i n <+: (iirDynIssued c i n).map fun t => (t.1 * t.2.1, t.2.2)

theorem withCoef_size (q : List Int × List Int) : (c.withCoef q).size = q.2.length := rfl

/-- The coefficients matter only while operands are given. -/
theorem iir_coef_irrelevant (q r : List Int × List Int) (hl : q.2.length = r.2.length) (s : IirS) (x : IirIn)
    (h : (s.st ≠ .runB ∧ s.st ≠ .runA) ∨ q = r) :
    (iir (c.withCoef q)).out s x = (iir (c.withCoef r)).out s x ∧ (iir (c.withCoef q)).next s x = (iir (c.withCoef r)).next s x := by
  rcases h with ⟨h1, h2⟩ | rfl
  · obtain ⟨st, idx, iR, oR, cR, validR, lastR, sumR, first, last⟩ := s
    dsimp only at h1 h2
    cases st with
    | runB => exact absurd rfl h1
    | runA => exact absurd rfl h2
    | idle => exact ⟨rfl, rfl⟩
    | wait => exact ⟨rfl, rfl⟩
    | output => exact ⟨rfl, rfl⟩
  · exact ⟨rfl, rfl⟩

/-- Between two samples the relation does not depend on the coefficients. -/
theorem iirCur_idle (q r : List Int × List Int) (hl : q.2.length = r.2.length) (hh : List Int × List Int)
    (cur : Option IirSample) (I : List IirTerm) (R : List (Int × Bool)) (s : IirS) (hs : s.st = .idle)
    (h : iirCur (c.withCoef q) hh cur I R s) : cur = none ∧ iirCur (c.withCoef r) hh none I R s := by
  obtain ⟨h0, ⟨h1, h⟩ | ⟨d, I0, k, hc, _, _, _, _, _, _, _, h⟩⟩ := h
  · refine ⟨h1, ?_, .inl ⟨rfl, ?_⟩⟩
    · unfold iirIdxOk at *; rw [hs] at *; exact h0
    · have e : (c.withCoef q).size = (c.withCoef r).size := hl
      rw [e] at h; exact h
  · exfalso
    rcases h with ⟨h, _⟩ | ⟨h, _⟩
    · exact h hs
    · rw [hs] at h; cases h

theorem iirVarExpect_snoc (A : List IirTagged) (d : IirTagged) :
    iirVarExpect c (A ++ [d]) = iirVarExpect c A ++ [{ d.1 with data :=
      ((iirVarEqn c d.2).step (varRun (A.map fun p => (iirVarEqn c p.2, p.1.data))).1 d.1.data).2 }] := by
  have hlen : ∀ l, (varRun l).2.length = l.length := by
    intro l
    rw [← List.reverse_reverse l]
    induction l.reverse with
    | nil => rfl
    | cons x l ih => rw [List.reverse_cons, varRun_snoc]; simp [ih]
  unfold iirVarExpect
  rw [List.map_append, List.map_singleton, varRun_snoc, List.zipWith_append (by simp [hlen])]
  rfl

/-- The relation at cycle `n`. -/
def iirDynRel (n : Nat) : Prop :=
  ∃ (q : List Int × List Int) (A0 : List IirTagged) (cur : Option IirSample),
    q.1.length = c.size ∧ q.2.length = c.size ∧
    ((((iirDyn c).st i n).st = .runB ∨ ((iirDyn c).st i n).st = .runA) → q = (i n).coef) ∧
    iirDynAccepted c i n = A0 ++ (Option.toList cur).map (fun d => (d, q)) ∧
    iirVarExpect c A0 = iirDynDelivered c i n ∧
    iirCur (c.withCoef q) (varRun (A0.map fun p => (iirVarEqn c p.2, p.1.data))).1 cur (iirDynIssued c i n) (iirDynResults i n)
      ((iirDyn c).st i n)

theorem iirDyn_mValid (n : Nat) : ((iirDyn c).wave i n).mValid = true ↔
    ((iirDyn c).st i n).st = .runB ∨ ((iirDyn c).st i n).st = .runA := by
  simp only [Circuit.wave]
  generalize (iirDyn c).st i n = s
  cases hs : s.st <;> simp [iirDyn, iir, hs]

theorem iirDyn_inv (ho : IirOk c) (hx : ∀ n, InSigned c.width (i n).x.data) (hl : CoefLen c i) (hh : CoefHeld c i)
    (hm : DynContract c i) (n : Nat) : iirDynRel c i n := by
  induction n with
  | zero =>
    refine ⟨(c.b, c.a), [], none, ho.len, rfl, ?_, rfl, rfl, rfl, .inl ⟨rfl, rfl, rfl, rfl, ?_, ?_⟩⟩
    · rintro (h | h) <;> cases h
    · simp [iirDyn, iir, varRun, pad_nil]; rfl
    · simp [iirDyn, iir, varRun, pad_nil]; rfl
  | succ n ih =>
    obtain ⟨q, A0, cur, hq1, hq2, hq, hA, hD, hc⟩ := ih
    -- the coefficients that apply from now on
    obtain ⟨q', hq1', hq2', hc', hcur', hirr, hkeep⟩ : ∃ q' : List Int × List Int, q'.1.length = c.size ∧ q'.2.length = c.size ∧
        iirCur (c.withCoef q') (varRun (A0.map fun p => (iirVarEqn c p.2, p.1.data))).1 cur (iirDynIssued c i n) (iirDynResults i n)
          ((iirDyn c).st i n) ∧
        (cur = none ∨ q' = q) ∧
        ((((iirDyn c).st i n).st ≠ .runB ∧ ((iirDyn c).st i n).st ≠ .runA) ∨ (i n).coef = q') ∧
        (((iirDyn c).st i n).st = .idle → q' = (i (n + 1)).coef) := by
      by_cases hs : ((iirDyn c).st i n).st = .idle
      · obtain ⟨h1, h2⟩ := iirCur_idle c q (i (n + 1)).coef (by rw [hq2, (hl (n + 1)).2]) _ _ _ _ _ hs hc
        refine ⟨(i (n + 1)).coef, (hl _).1, (hl _).2, ?_, .inl h1, .inl ?_, fun _ => rfl⟩
        · rw [h1]; exact h2
        · rw [hs]; exact ⟨by decide, by decide⟩
      · refine ⟨q, hq1, hq2, hc, .inr rfl, ?_, fun h => absurd h hs⟩
        by_cases h1 : ((iirDyn c).st i n).st = .runB
        · exact .inr (hq (.inl h1)).symm
        · by_cases h2 : ((iirDyn c).st i n).st = .runA
          · exact .inr (hq (.inr h2)).symm
          · exact .inl ⟨h1, h2⟩
    have hA' : iirDynAccepted c i n = A0 ++ (Option.toList cur).map (fun d => (d, q')) := by
      rcases hcur' with h | h
      · rw [hA, h]; rfl
      · rw [hA, h]
    obtain ⟨eo, en⟩ := iir_coef_irrelevant c (i n).coef q' (by rw [(hl n).2, hq2']) ((iirDyn c).st i n) (i n).x hirr
    have ew : (iirDyn c).wave i n = (iir (c.withCoef q')).out ((iirDyn c).st i n) (i n).x := eo
    have es : (iirDyn c).st i (n + 1) = (iir (c.withCoef q')).next ((iirDyn c).st i n) (i n).x := by
      rw [Circuit.st_succ]; exact en
    have eI : iirDynIssued c i (n + 1) = iirDynIssued c i n ++ iirIss (c.withCoef q') ((iirDyn c).st i n) (i n).x := by
      unfold iirDynIssued; rw [transferred_succ, ew]; rfl
    have eR : iirDynResults i (n + 1) = iirDynResults i n ++ iirRes (i n).x := by
      simp [iirDynResults, transferred_succ, iirRes]
    have eD : iirDynDelivered c i (n + 1) = iirDynDelivered c i n ++ iirDel (c.withCoef q') ((iirDyn c).st i n) (i n).x := by
      unfold iirDynDelivered; rw [transferred_succ, ew]; rfl
    have eA : iirDynAccepted c i (n + 1) = iirDynAccepted c i n ++
        (iirAccd (c.withCoef q') ((iirDyn c).st i n) (i n).x).map (fun d => (d, (i (n + 1)).coef)) := by
      unfold iirDynAccepted
      rw [transferred_succ, ew]
      unfold iirAccd
      split <;> rfl
    have hcon := hm (n + 1)
    rw [eI, eR] at hcon
    obtain ⟨hh', cur', hnew, hmove⟩ := iir_cur_step (c.withCoef q') ho.width ho.ws (by show q'.1.length = q'.2.length; rw [hq1', hq2'])
      (by rw [withCoef_size, hq2']; exact ho.size) _ cur _ _ _ (i n).x hc' (hx n).1 (hx n).2 hcon
    rw [← es, ← eI, ← eR] at hnew
    have hrun : ((iirDyn c).st i (n + 1)).st = .runB ∨ ((iirDyn c).st i (n + 1)).st = .runA → q' = (i (n + 1)).coef := by
      intro hr
      by_cases hs : ((iirDyn c).st i n).st = .idle
      · exact hkeep hs
      · have hn : ((iirDyn c).st i n).st = .runB ∨ ((iirDyn c).st i n).st = .runA := by
          rw [es] at hr
          generalize (iirDyn c).st i n = s at *
          obtain ⟨st, idx, iR, oR, cR, validR, lastR, sumR, first, last⟩ := s
          dsimp only at hs ⊢
          cases st with
          | idle => exact absurd rfl hs
          | runB => exact .inl rfl
          | runA => exact .inr rfl
          | wait => exfalso; simp only [iir] at hr; split at hr <;> rcases hr with h | h <;> cases h
          | output => exfalso; simp only [iir] at hr; split at hr <;> rcases hr with h | h <;> cases h
        rw [hh n ((iirDyn_mValid c i n).mpr hn) ((iirDyn_mValid c i (n + 1)).mpr hr)]
        rcases hirr with ⟨h1, h2⟩ | h
        · rcases hn with h | h
          · exact absurd h h1
          · exact absurd h h2
        · exact h.symm
    have eeq : (c.withCoef q').eqn = iirVarEqn c q' := rfl
    rcases hmove with ⟨e1, e2, e3, e4⟩ | ⟨d, e0, e1, e2, e3, e4⟩ | ⟨d, e0, e1, e2, e3, e4⟩
    · subst e3 e4
      refine ⟨q', A0, cur', hq1', hq2', hrun, ?_, ?_, hnew⟩
      · rw [eA, e1, List.map_nil, List.append_nil]; exact hA'
      · rw [eD, e2, List.append_nil]; exact hD
    · subst e0 e3 e4
      have hs : ((iirDyn c).st i n).st = .idle := by
        unfold iirAccd at e1
        split at e1
        · rename_i h
          rw [Bool.and_eq_true] at h
          simpa [iir] using h.2
        · cases e1
      refine ⟨q', A0, some d, hq1', hq2', hrun, ?_, ?_, hnew⟩
      · rw [eA, e1, hA', hkeep hs]; simp
      · rw [eD, e2, List.append_nil]; exact hD
    · subst e0 e3 e4
      refine ⟨q', A0 ++ [(d, q')], none, hq1', hq2', hrun, ?_, ?_, ?_⟩
      · rw [eA, e1, hA']; simp
      · rw [iirVarExpect_snoc, hD, eD, e2, ← eeq]
      · rw [List.map_append, List.map_singleton, varRun_snoc]; exact hnew

theorem iirDyn_offer (ho : IirOk c) (hx : ∀ n, InSigned c.width (i n).x.data) (hl : CoefLen c i) (hh : CoefHeld c i)
    (hm : DynContract c i) (n : Nat) :
    ∃ p, iirVarExpect c (iirDynAccepted c i n) = iirDynDelivered c i n ++ p ∧
      p.length = (if ((iirDyn c).wave i n).ready then 0 else 1) ∧
      (((iirDyn c).wave i n).valid = true →
        p = [⟨((iirDyn c).wave i n).first, ((iirDyn c).wave i n).last, ((iirDyn c).wave i n).data⟩]) := by
  obtain ⟨q, A0, cur, hq1, hq2, hq, hA, hD, hrel⟩ := iirDyn_inv c i ho hx hl hh hm n
  have hcon := hm n
  obtain ⟨hh', cur', _, hmove⟩ := iir_cur_step (c.withCoef q) ho.width ho.ws (by show q.1.length = q.2.length; rw [hq1, hq2])
    (by rw [withCoef_size, hq2]; exact ho.size) _ cur _ _ _ { (i n).x with ready := true, mValid := false } hrel (hx n).1 (hx n).2
    (by
      have e : iirRes { (i n).x with ready := true, mValid := false } = [] := rfl
      rw [e, List.append_nil, List.map_append]
      exact hcon.trans (List.prefix_append _ _))
  obtain ⟨h0, h⟩ := hrel
  have hr : ((iirDyn c).wave i n).ready = (((iirDyn c).st i n).st == .idle) := rfl
  have hv : ((iirDyn c).wave i n).valid = (((iirDyn c).st i n).st == .output) := rfl
  rw [hA, hr, hv]
  rcases h with ⟨hc, hs, _⟩ | ⟨d, I0, k, hc, _, _, _, _, _, _, _, h⟩
  · subst hc
    exact ⟨[], by simp [hD], by simp [hs], by simp [hs]⟩
  · subst hc
    have hs : ((iirDyn c).st i n).st ≠ .idle := by
      rcases h with ⟨h, _⟩ | ⟨h, _⟩
      · exact h
      · rw [h]; decide
    refine ⟨_, by rw [Option.toList_some, List.map_singleton, iirVarExpect_snoc, hD], by simp [hs], ?_⟩
    intro hvv
    have hst : ((iirDyn c).st i n).st = .output := by simpa using hvv
    have eD : iirDel (c.withCoef q) ((iirDyn c).st i n) { (i n).x with ready := true, mValid := false } =
        [⟨((iirDyn c).wave i n).first, ((iirDyn c).wave i n).last, ((iirDyn c).wave i n).data⟩] := by
      simp only [Circuit.wave]
      generalize (iirDyn c).st i n = s at *
      simp [iirDel, iirDyn, iir, hst]; rfl
    rw [eD] at hmove
    rcases hmove with ⟨_, e2, _⟩ | ⟨d', _, _, e2, _⟩ | ⟨d', e0, _, e2, _⟩
    · cases e2
    · cases e2
    · cases e0
      exact e2.symm

/-- C121: with any multiplier obeying the contract, if the coefficient registers do not change while the operands of a sample are
given to the multiplier, the delivered samples are those of the difference equation in which every sample has the coefficients that the
registers hold in the cycle after it is accepted, and the history of inputs and outputs goes on across changes. A new sample is accepted
exactly when none is in progress. -/
theorem C121_any_multiplier (ho : IirOk c) (hx : ∀ n, InSigned c.width (i n).x.data) (hl : CoefLen c i) (hh : CoefHeld c i)
    (hm : DynContract c i) (n : Nat) :
    ∃ p, iirVarExpect c (iirDynAccepted c i n) = iirDynDelivered c i n ++ p ∧
      p.length = (if ((iirDyn c).wave i n).ready then 0 else 1) ∧
      (((iirDyn c).wave i n).valid = true →
        p = [⟨((iirDyn c).wave i n).first, ((iirDyn c).wave i n).last, ((iirDyn c).wave i n).data⟩]) :=
  iirDyn_offer c i ho hx hl hh hm n

end

/-! ### The filter with its own multiplier -/

section
variable (c : IirCfg) (i : Nat → IirDynIntIn)

/-- Inputs of the filter proper. -/
def iirDynInner (n : Nat) : IirDynIn := ⟨iirMult c ((iirDynInt c).st i n).2 (i n).x, (i n).coef⟩

theorem iirDynInt_st (n : Nat) : ((iirDynInt c).st i n).1 = (iirDyn c).st (iirDynInner c i) n := by
  induction n with
  | zero => rfl
  | succ n ih =>
    show (iir (c.withCoef (i n).coef)).next ((iirDynInt c).st i n).1 (iirDynInner c i n).x = _
    rw [ih]; rfl

theorem iirDynInt_wave (n : Nat) : (iirDynInt c).wave i n = (iirDyn c).wave (iirDynInner c i) n := by
  show (iir (c.withCoef (i n).coef)).out ((iirDynInt c).st i n).1 (iirDynInner c i n).x = _
  rw [iirDynInt_st]; rfl

/-- The coefficient registers hold values of their width. -/
def CoefRange : Prop := ∀ n, (∀ v ∈ (i n).coef.1, InSigned c.wc v) ∧ (∀ v ∈ (i n).coef.2, InSigned c.wc v)

theorem iirDyn_range (hws : 0 < c.ws) (j : Nat → IirDynIn) (n : Nat) :
    (∀ v ∈ ((iirDyn c).st j n).iR, InSigned c.ws v) ∧ (∀ v ∈ ((iirDyn c).st j n).oR, InSigned c.ws v) := by
  refine (iirDyn c).st_invariant (fun s => (∀ v ∈ s.iR, InSigned c.ws v) ∧ (∀ v ∈ s.oR, InSigned c.ws v)) ?_ ?_ j n
  · exact iir_range c hws (fun _ => ⟨false, false, false, 0, false, false, false, false, 0⟩) 0
  · exact fun s x h => iir_range_step (c.withCoef x.coef) hws s x.x h

theorem iirDyn_operands (hws : 0 < c.ws) (j : Nat → IirDynIn) (n : Nat) (hb : ∀ v ∈ (j n).coef.1, InSigned c.wc v)
    (ha : ∀ v ∈ (j n).coef.2, InSigned c.wc v) :
    InSigned c.ws ((iirDyn c).wave j n).mA ∧ InSigned c.wc ((iirDyn c).wave j n).mB := by
  obtain ⟨h1, h2⟩ := iirDyn_range c hws j n
  simp only [Circuit.wave]
  generalize (iirDyn c).st j n = s at *
  simp only [iirDyn, iir]
  constructor
  · split
    · exact getD_inSigned _ _ _ h1
    · split
      · exact getD_inSigned _ _ _ h2
      · exact inSigned_zero _
  · split
    · exact getD_inSigned _ _ _ hb
    · split
      · exact getD_inSigned _ _ _ ha
      · exact inSigned_zero _

/-- The internal multiplier obeys the contract. -/
theorem iirDynInt_contract (hws : 0 < c.ws) (hwc : 0 < c.wc) (hr : CoefRange c i) : DynContract c (iirDynInner c i) := by
  have key : ∀ n, iirDynResults (iirDynInner c i) n ++
      (if ((iirDynInt c).st i n).2.valid
        then [(((iirDynInt c).st i n).2.beat.payload.toInt, ((iirDynInt c).st i n).2.beat.last)] else []) =
      (iirDynIssued c (iirDynInner c i) n).map fun t => (t.1 * t.2.1, t.2.2) := by
    intro n
    induction n with
    | zero => rfl
    | succ n ih =>
      have e1 : iirDynResults (iirDynInner c i) (n + 1) = iirDynResults (iirDynInner c i) n ++
          (if ((iirDynInt c).st i n).2.valid
            then [(((iirDynInt c).st i n).2.beat.payload.toInt, ((iirDynInt c).st i n).2.beat.last)] else []) := by
        simp [iirDynResults, transferred_succ, iirDynInner, iirMult]
      have e2 : iirDynIssued c (iirDynInner c i) (n + 1) = iirDynIssued c (iirDynInner c i) n ++
          (if ((iirDyn c).wave (iirDynInner c i) n).mValid then [(((iirDyn c).wave (iirDynInner c i) n).mA,
            ((iirDyn c).wave (iirDynInner c i) n).mB, ((iirDyn c).wave (iirDynInner c i) n).mLast)] else []) := by
        simp [iirDynIssued, transferred_succ, iirDynInner, iirMult]
      rw [e1, ih, e2, List.map_append]
      congr 1
      obtain ⟨h1, h2⟩ := iirDyn_operands c hws (iirDynInner c i) n (hr n).1 (hr n).2
      have e3 : ((iirDynInt c).st i (n + 1)).2 = ⟨((iirDyn c).wave (iirDynInner c i) n).mValid, ⟨false,
          ((iirDyn c).wave (iirDynInner c i) n).mLast, multiply true true (BitVec.ofInt c.ws ((iirDyn c).wave (iirDynInner c i) n).mA,
            BitVec.ofInt c.wc ((iirDyn c).wave (iirDynInner c i) n).mB)⟩⟩ := by
        have : (iirDyn c).wave (iirDynInner c i) n = (iirDyn c).out ((iirDynInt c).st i n).1 (iirDynInner c i n) := by
          rw [iirDynInt_st]; rfl
        rw [this]
        simp only [Circuit.st_succ, iirDynInt, iirInt, multiplier, Bool.or_true, if_true]
        rfl
      rw [e3]
      have hp := C24_product_exact true true (BitVec.ofInt c.ws ((iirDyn c).wave (iirDynInner c i) n).mA,
        BitVec.ofInt c.wc ((iirDyn c).wave (iirDynInner c i) n).mB)
      simp only [productSigned, Bool.or_self, shapeVal, if_true, BitVec.toInt_ofInt,
        wrap_of_inSigned _ _ hws h1, wrap_of_inSigned _ _ hwc h2] at hp
      cases hv : ((iirDyn c).wave (iirDynInner c i) n).mValid
      · rfl
      · simp [hp]
  intro n
  rw [← key n]
  exact List.prefix_append _ _

/-- Samples accepted, with the contents of the coefficient registers in the cycle after; samples delivered. -/
def iirDynIntAccepted (n : Nat) : List IirTagged :=
  transferred (fun k => (i k).x.valid) (fun k => ((iirDynInt c).wave i k).ready)
    (fun k => ((i k).x.sample, (i (k + 1)).coef)) n
def iirDynIntDelivered (n : Nat) : List IirSample :=
  transferred (fun k => ((iirDynInt c).wave i k).valid) (fun k => (i k).x.ready)
    (fun k => ⟨((iirDynInt c).wave i k).first, ((iirDynInt c).wave i k).last, ((iirDynInt c).wave i k).data⟩) n

/-- C121: the filter with its own multiplier, if the coefficient registers do not change while it is busy with a sample: the same. -/
theorem C121_dynamic (ho : IirOk c) (hwc : 0 < c.wc) (hx : ∀ n, InSigned c.width (i n).x.sample.data)
    (hlen : ∀ n, (i n).coef.1.length = c.size ∧ (i n).coef.2.length = c.size) (hr : CoefRange c i)
    (hheld : ∀ n, ((iirDynInt c).wave i n).ready = false → ((iirDynInt c).wave i (n + 1)).ready = false → (i (n + 1)).coef = (i n).coef)
    (n : Nat) :
    ∃ p, iirVarExpect c (iirDynIntAccepted c i n) = iirDynIntDelivered c i n ++ p ∧
      p.length = (if ((iirDynInt c).wave i n).ready then 0 else 1) ∧
      (((iirDynInt c).wave i n).valid = true →
        p = [⟨((iirDynInt c).wave i n).first, ((iirDynInt c).wave i n).last, ((iirDynInt c).wave i n).data⟩]) := by
  have hws : 0 < c.ws := Nat.lt_of_lt_of_le ho.width ho.ws
  have hbusy : ∀ n, ((iirDyn c).wave (iirDynInner c i) n).mValid = true → ((iirDynInt c).wave i n).ready = false := by
    intro n h
    rw [iirDynInt_wave]
    have hr : ((iirDyn c).wave (iirDynInner c i) n).ready = (((iirDyn c).st (iirDynInner c i) n).st == .idle) := rfl
    rw [hr]
    rcases (iirDyn_mValid c _ n).mp h with h | h <;> rw [h] <;> rfl
  have := C121_any_multiplier c (iirDynInner c i) ho hx hlen (fun n h1 h2 => hheld n (hbusy n h1) (hbusy (n + 1) h2))
    (iirDynInt_contract c i hws hwc hr) n
  have e1 : iirDynIntAccepted c i n = iirDynAccepted c (iirDynInner c i) n := by
    unfold iirDynIntAccepted iirDynAccepted
    simp only [iirDynInt_wave]
    rfl
  have e2 : iirDynIntDelivered c i n = iirDynDelivered c (iirDynInner c i) n := by
    unfold iirDynIntDelivered iirDynDelivered
    simp only [iirDynInt_wave]
    rfl
  rw [e1, e2, iirDynInt_wave]
  exact this

end

/-! ### Concrete run -/

/-- Two samples with the first set of coefficients, then others: written in cycle `m - 1`. -/
def iirDynDemo (m n : Nat) : IirDynIntIn :=
  ⟨⟨true, ⟨false, false, 40⟩, true⟩, if n < m then ([8, 8], [-16, 8]) else ([16, 0], [-16, 0])⟩

theorem iirDynDemo_ok : (∀ n, InSigned iirDemoC.width (iirDynDemo 14 n).x.sample.data) ∧
    (∀ n, (iirDynDemo 14 n).coef.1.length = iirDemoC.size ∧ (iirDynDemo 14 n).coef.2.length = iirDemoC.size) ∧
    CoefRange iirDemoC (iirDynDemo 14) ∧
    ∀ n, ((iirDynInt iirDemoC).wave (iirDynDemo 14) n).ready = false → ((iirDynInt iirDemoC).wave (iirDynDemo 14) (n + 1)).ready = false →
      (iirDynDemo 14 (n + 1)).coef = (iirDynDemo 14 n).coef := by
  refine ⟨fun n => by simp [iirDynDemo, iirDemoC, InSigned], ?_, ?_, ?_⟩
  · intro n
    unfold iirDynDemo
    dsimp only
    split <;> exact ⟨rfl, rfl⟩
  · intro n
    unfold iirDynDemo
    dsimp only
    split <;> simp [iirDemoC, InSigned]
  · intro n _ h
    by_cases hn : n = 13
    · subst hn
      exact absurd h (by decide +kernel)
    · unfold iirDynDemo
      dsimp only
      by_cases h1 : n < 14
      · rw [if_pos h1, if_pos (by omega)]
      · rw [if_neg h1, if_neg (by omega)]

/-- Two samples with `y[n] = (x[n] + x[n-1]) / 2 + y[n-1] / 2`, then `y[n] = x[n]`. -/
example : (iirDynIntDelivered iirDemoC (iirDynDemo 14) 30).map (·.data) = [20, 50, 40, 40] := by decide +kernel

/-- C121: the condition is needed: registers written while a sample is being computed give an output of neither set of coefficients. The
second sample must be 50 with the old ones and 40 with the new ones. -/
theorem C121_mixed : (iirDynIntDelivered iirDemoC (iirDynDemo 9) 14).map (·.data) = [20, 20] ∧
    (iirDynIntDelivered iirDemoC (iirDynDemo 14) 14).map (·.data) = [20, 50] ∧
    (iirDynIntDelivered iirDemoC (iirDynDemo 8) 14).map (·.data) = [20, 40] := by decide +kernel

end Lambdalib
