import Verif.Model.Iir
import Verif.Spec.Iir

/-! Invariant of the IIR filter. -/

namespace Lambdalib

/-- Operands given to the multiplier: signal, coefficient, `last`. -/
abbrev IirTerm := Int × Int × Bool

/-- What the multiplier must answer. -/
def iirProd (t : IirTerm) : Int × Bool := (t.1 * t.2.1, t.2.2)

/-- The difference equation of a filter. -/
def IirCfg.eqn (c : IirCfg) : DiffEq := ⟨c.width, c.ss, c.ws + c.wc, c.sc, c.b, c.a.tail⟩

/-- The samples that must come out. -/
def iirExpect (c : IirCfg) (S : List IirSample) : List IirSample :=
  List.zipWith (fun s d => { s with data := d }) S (c.eqn.run (S.map (·.data))).2

/-- First `n` elements, filled with zeros. -/
def pad (n : Nat) (l : List Int) : List Int := (l ++ List.replicate n 0).take n

theorem pad_length (n : Nat) (l : List Int) : (pad n l).length = n := by simp [pad]

theorem pad_nil (n : Nat) : pad n [] = List.replicate n 0 := by simp [pad]

theorem pad_cons (n : Nat) (x : Int) (l : List Int) : pad (n + 1) (x :: l) = x :: pad n l := by
  simp only [pad, List.cons_append, List.take_succ_cons]
  congr 1
  rw [List.replicate_succ', ← List.append_assoc, List.take_append_of_le_length]
  simp

theorem pad_dropLast (n : Nat) (l : List Int) : (pad (n + 1) l).dropLast = pad n l := by
  rw [List.dropLast_eq_take, pad_length]
  simp only [pad, List.take_take]
  rw [List.replicate_succ', ← List.append_assoc, List.take_append_of_le_length]
  · congr 1; omega
  · simp

theorem dot_nil (l : List Int) : dot l [] = 0 := by simp [dot]

theorem dot_cons (a b : Int) (l m : List Int) : dot (a :: l) (b :: m) = a * b + dot l m := by simp [dot]

theorem dot_zeros (l : List Int) (n : Nat) : dot l (List.replicate n 0) = 0 := by
  induction l generalizing n with
  | nil => simp [dot]
  | cons a l ih =>
    cases n with
    | zero => simp [dot]
    | succ n => rw [List.replicate_succ, dot_cons, ih]; simp

theorem dot_pad (l m : List Int) : dot l (pad l.length m) = dot l m := by
  induction l generalizing m with
  | nil => simp [dot]
  | cons a l ih =>
    cases m with
    | nil => rw [pad_nil, dot_zeros, dot_nil]
    | cons x m => rw [List.length_cons, pad_cons, dot_cons, dot_cons, ih]

section
variable (c : IirCfg)

/-- The operands of one sample. -/
def iirTerms (iR oR : List Int) : List IirTerm :=
  (List.range c.size).map (fun k => (iR.getD k 0, c.b.getD k 0, false)) ++
  (List.range (c.size - 1)).map (fun k => (oR.getD (k + 1) 0, c.a.getD (k + 1) 0, k + 1 == c.size - 1))

theorem iirTerms_length (iR oR : List Int) : (iirTerms c iR oR).length = c.size + (c.size - 1) := by
  simp [iirTerms]

theorem iirTerms_b (iR oR : List Int) (k : Nat) (h : k < c.size) :
    (iirTerms c iR oR)[k]? = some (iR.getD k 0, c.b.getD k 0, false) := by
  rw [iirTerms, List.getElem?_append_left (by simpa using h)]
  simp [h]

theorem iirTerms_a (iR oR : List Int) (k : Nat) (h1 : 1 ≤ k) (h : k < c.size) :
    (iirTerms c iR oR)[c.size + k - 1]? = some (oR.getD k 0, c.a.getD k 0, k == c.size - 1) := by
  obtain ⟨j, rfl⟩ : ∃ j, k = j + 1 := ⟨k - 1, by omega⟩
  have e : c.size + (j + 1) - 1 = c.size + j := by omega
  rw [e, iirTerms, List.getElem?_append_right (by simp)]
  have : j < c.size - 1 := by omega
  simp [this]

/-- Only the final term is marked. -/
theorem iirTerms_last (iR oR : List Int) (k : Nat) (t : IirTerm) (h : (iirTerms c iR oR)[k]? = some t)
    (hl : t.2.2 = true) : k + 1 = c.size + (c.size - 1) := by
  have hk : k < c.size + (c.size - 1) := by
    rw [← iirTerms_length c iR oR]
    exact (List.getElem?_eq_some_iff.mp h).1
  rcases Nat.lt_or_ge k c.size with h1 | h1
  · rw [iirTerms_b c iR oR k h1] at h
    injection h with h
    rw [← h] at hl
    cases hl
  · have := iirTerms_a c iR oR (k + 1 - c.size) (by omega) (by omega)
    rw [show c.size + (k + 1 - c.size) - 1 = k by omega, h] at this
    injection this with h
    rw [h] at hl
    simp at hl
    omega

/-- Sum of products. -/
def termSum (T : List IirTerm) : Int := (T.map fun t => t.1 * t.2.1).sum

theorem termSum_append (T U : List IirTerm) : termSum (T ++ U) = termSum T + termSum U := by
  simp [termSum]

theorem range_dot (l m : List Int) (n o : Nat) (hl : l.length = n + o) (hm : m.length = n + o)
    (f : Nat → Bool) :
    termSum ((List.range n).map fun k => (m.getD (k + o) 0, l.getD (k + o) 0, f k)) = dot (l.drop o) (m.drop o) := by
  induction n generalizing l m o with
  | zero =>
    have : l.drop o = [] := List.drop_eq_nil_of_le (by omega)
    rw [this]; simp [termSum, dot]
  | succ n ih =>
    have := ih l m (o + 1) (by omega) (by omega)
    rw [List.range_succ_eq_map, List.map_cons, List.map_map]
    have e : ∀ x (X : List IirTerm), termSum (x :: X) = x.1 * x.2.1 + termSum X := by intros; simp [termSum]
    rw [e]
    have hl' : o < l.length := by omega
    have hm' : o < m.length := by omega
    rw [List.drop_eq_getElem_cons hl', List.drop_eq_getElem_cons hm', dot_cons, ← this]
    congr 1
    · simp [hl', hm', Int.mul_comm]
    · simp only [termSum, List.map_map]
      congr 1
      apply List.map_congr_left
      intro k _
      simp only [Function.comp]
      rw [show k.succ + o = k + (o + 1) by omega]

theorem iirTerms_sum (iR oR : List Int) (hb : c.b.length = c.size) (hi : iR.length = c.size) (ho : oR.length = c.size)
    (hs : 0 < c.size) :
    termSum (iirTerms c iR oR) = dot c.b iR + dot c.a.tail oR.tail := by
  rw [iirTerms, termSum_append]
  congr 1
  · have := range_dot c.b iR c.size 0 (by omega) (by omega) (fun _ => false)
    simpa using this
  · have := range_dot c.a oR (c.size - 1) 1 (by show c.a.length = _; simp only [IirCfg.size] at *; omega) (by omega)
      (fun k => k + 1 == c.size - 1)
    simpa using this

/-- State of the accumulation of the terms `T`, `m` given to the multiplier and `k` answered. -/
structure IirAcc (T : List IirTerm) (m k : Nat) (sumR cR : Int) (validR lastR : Bool) : Prop where
  km : k ≤ m
  mT : m ≤ T.length
  sum : wrapS (c.ws + c.wc) (sumR + if validR then cR else 0) = wrapS (c.ws + c.wc) (termSum (T.take k))
  last : validR = true → 0 < k ∧ ∃ t, T[k - 1]? = some t ∧ t.2.2 = lastR

theorem wrapS_add_wrapS (w : Nat) (a b : Int) : wrapS w (wrapS w a + b) = wrapS w (a + b) := by
  simp [wrapS]

theorem wrapS_wrapS (w : Nat) (a : Int) : wrapS w (wrapS w a) = wrapS w a := by
  simp [wrapS]

/-- The next answer of a multiplier obeying the contract. -/
theorem contract_step (T : List IirTerm) (I0 : List IirTerm) (m k : Nat) (r : Int × Bool) (hk : k ≤ T.length)
    (h : (I0 ++ T.take k).map iirProd ++ [r] <+: (I0 ++ T.take m).map iirProd) :
    k < m ∧ k < T.length ∧ ∃ t, T[k]? = some t ∧ r = iirProd t := by
  rw [List.map_append, List.map_append, List.append_assoc, List.prefix_append_right_inj] at h
  have hlen := h.length_le
  simp only [List.length_append, List.length_map, List.length_take, List.length_singleton] at hlen
  have h1 : k < m := by omega
  have h2 : k < T.length := by omega
  refine ⟨h1, h2, T[k], by simp [h2], ?_⟩
  obtain ⟨Z, hZ⟩ := h
  have := congrArg (fun l => l[k]?) hZ
  simp only [List.append_assoc] at this
  rw [List.getElem?_append_right (by simp; omega)] at this
  simp [h1, h2, Nat.min_eq_left hk] at this
  rw [this]

theorem acc_step (T I0 : List IirTerm) (m m' k : Nat) (sumR cR : Int) (validR lastR : Bool)
    (h : IirAcc c T m k sumR cR validR lastR) (hm : m ≤ m') (hmT : m' ≤ T.length) (mv ml : Bool) (mc : Int)
    (hc : (I0 ++ T.take k).map iirProd ++ (if mv then [(mc, ml)] else []) <+: (I0 ++ T.take m').map iirProd) :
    ∃ k', (I0 ++ T.take k).map iirProd ++ (if mv then [(mc, ml)] else []) = (I0 ++ T.take k').map iirProd ∧
      IirAcc c T m' k' (if validR then wrapS (c.ws + c.wc) (sumR + cR) else sumR) mc mv ml ∧ k ≤ k' := by
  have hkT : k ≤ T.length := Nat.le_trans h.km h.mT
  have hs : ∀ z : Int, wrapS (c.ws + c.wc) ((if validR then wrapS (c.ws + c.wc) (sumR + cR) else sumR) + z) =
      wrapS (c.ws + c.wc) (termSum (T.take k) + z) := by
    intro z
    have := h.sum
    cases validR
    · simp only [Bool.false_eq_true, if_false, Int.add_zero] at this ⊢
      rw [← wrapS_add_wrapS _ sumR, this, wrapS_add_wrapS]
    · simp only [if_true] at this ⊢
      rw [this, wrapS_add_wrapS]
  cases mv
  · refine ⟨k, by simp, ⟨Nat.le_trans h.km hm, hmT, ?_, by intro h; cases h⟩, Nat.le_refl _⟩
    have := hs 0
    rw [Int.add_zero (termSum _)] at this
    exact this
  · obtain ⟨h1, h2, t, ht, hr⟩ := contract_step T I0 m' k (mc, ml) hkT hc
    have etake : T.take (k + 1) = T.take k ++ [t] := by
      rw [List.take_succ, ht]; rfl
    refine ⟨k + 1, ?_, ⟨by omega, hmT, ?_, ?_⟩, Nat.le_succ _⟩
    · rw [etake, hr]; simp
    · rw [etake, termSum_append]
      have : termSum [t] = mc := by
        have := congrArg Prod.fst hr
        simp [termSum, iirProd] at this ⊢
        exact this.symm
      rw [this]
      exact hs mc
    · intro _
      refine ⟨by omega, t, by simpa using ht, ?_⟩
      exact (congrArg Prod.snd hr).symm

/-- Number of terms given to the multiplier. -/
def iirM (s : IirS) : Nat :=
  match s.st with
  | .idle => 0
  | .runB => s.idx
  | .runA => c.size + s.idx - 1
  | .wait => c.size + (c.size - 1)
  | .output => c.size + (c.size - 1)

/-- The index register. -/
def iirIdxOk (s : IirS) : Prop :=
  match s.st with
  | .runB => s.idx < c.size
  | .runA => 1 ≤ s.idx ∧ s.idx < c.size
  | _ => s.idx = 0

/-- Relation between the registers and what happened: accepted and delivered samples, terms given to the multiplier and
its answers. -/
def iirRel (A D : List IirSample) (I : List IirTerm) (R : List (Int × Bool)) (s : IirS) : Prop :=
  iirIdxOk c s ∧
  ((s.st = .idle ∧ s.validR = false ∧ iirExpect c A = D ∧ R = I.map iirProd ∧
     s.iR = pad c.size (c.eqn.run (A.map (·.data))).1.1 ∧ s.oR = pad c.size (c.eqn.run (A.map (·.data))).1.2) ∨
   (∃ A0 d I0 k, A = A0 ++ [d] ∧ iirExpect c A0 = D ∧ s.first = d.first ∧ s.last = d.last ∧
     s.iR = pad c.size (d.data * 2 ^ c.ss :: (c.eqn.run (A0.map (·.data))).1.1) ∧
     s.oR.tail = pad (c.size - 1) (c.eqn.run (A0.map (·.data))).1.2 ∧ s.oR.length = c.size ∧
     I = I0 ++ (iirTerms c s.iR s.oR).take (iirM c s) ∧
     R = (I0 ++ (iirTerms c s.iR s.oR).take k).map iirProd ∧
     ((s.st ≠ .idle ∧ s.st ≠ .output ∧ IirAcc c (iirTerms c s.iR s.oR) (iirM c s) k s.sumR s.cR s.validR s.lastR) ∨
      (s.st = .output ∧ s.validR = false ∧ k = c.size + (c.size - 1) ∧
        s.sumR = wrapS (c.ws + c.wc) (dot c.b s.iR + dot c.a.tail s.oR.tail)))))

/-- One step. -/
def iirAccd (s : IirS) (x : IirIn) : List IirSample :=
  if x.valid && ((iir c).out s x).ready then [⟨x.first, x.last, x.data⟩] else []
def iirDel (s : IirS) (x : IirIn) : List IirSample :=
  let o := (iir c).out s x
  if o.valid && x.ready then [⟨o.first, o.last, o.data⟩] else []
def iirIss (s : IirS) (x : IirIn) : List IirTerm :=
  let o := (iir c).out s x
  if o.mValid && x.mReady then [(o.mA, o.mB, o.mLast)] else []
def iirRes (x : IirIn) : List (Int × Bool) := if x.mValid then [(x.mC, x.mLast)] else []

theorem iirExpect_snoc (A : List IirSample) (d : IirSample) :
    iirExpect c (A ++ [d]) =
      iirExpect c A ++ [{ d with data := (c.eqn.step (c.eqn.run (A.map (·.data))).1 d.data).2 }] := by
  have hlen : ∀ l : List Int, (c.eqn.run l).2.length = l.length := by
    intro l
    rw [← List.reverse_reverse l]
    induction l.reverse with
    | nil => rfl
    | cons x l ih => rw [List.reverse_cons, DiffEq.run_snoc]; simp [ih]
  unfold iirExpect
  rw [List.map_append, List.map_singleton, DiffEq.run_snoc, List.zipWith_append (by simp [hlen])]
  rfl

theorem no_answer (I : List IirTerm) (x : IirIn) (h : I.map iirProd ++ iirRes x <+: I.map iirProd) :
    x.mValid = false := by
  cases hv : x.mValid
  · rfl
  · have := h.length_le
    simp [iirRes, hv] at this
    omega

/-- Samples in the range of the sample width are scaled exactly. -/
theorem scale_exact (w ss : Nat) (hw : 0 < w) (d : Int) (h1 : -2 ^ (w - 1) ≤ d) (h2 : d < 2 ^ (w - 1)) :
    wrapS (w + ss) (d * 2 ^ ss) = d * 2 ^ ss := by
  have e : (2 : Int) ^ (w + ss) = 2 * (2 ^ (w - 1) * 2 ^ ss) := by
    rw [← Int.mul_assoc, show (2 : Int) * 2 ^ (w - 1) = 2 ^ (w - 1) * 2 by omega, ← Int.pow_succ, ← Int.pow_add]
    congr 1; omega
  have hp : (0 : Int) < 2 ^ ss := Int.pow_pos (by omega)
  have h3 : -(2 ^ (w - 1) * 2 ^ ss) ≤ d * 2 ^ ss := by
    rw [← Int.neg_mul]; exact Int.mul_le_mul_of_nonneg_right h1 (by omega)
  have h4 : d * 2 ^ ss < 2 ^ (w - 1) * 2 ^ ss := Int.mul_lt_mul_of_pos_right h2 hp
  unfold wrapS
  have e2 : (((2 ^ (w + ss) : Nat)) : Int) = 2 * (2 ^ (w - 1) * 2 ^ ss) := by
    rw [← e]; norm_cast
  have e3 : (2 : Int) ^ (w + ss) = (((2 ^ (w + ss) : Nat)) : Int) := by norm_cast
  apply Int.bmod_eq_of_le <;> omega


/-- The relation for the sample in progress, if there is one, with any history of inputs and outputs before it. -/
def iirCur (hh : List Int × List Int) (cur : Option IirSample) (I : List IirTerm) (R : List (Int × Bool)) (s : IirS) : Prop :=
  iirIdxOk c s ∧
  ((cur = none ∧ s.st = .idle ∧ s.validR = false ∧ R = I.map iirProd ∧ s.iR = pad c.size hh.1 ∧ s.oR = pad c.size hh.2) ∨
   (∃ d I0 k, cur = some d ∧ s.first = d.first ∧ s.last = d.last ∧
     s.iR = pad c.size (d.data * 2 ^ c.ss :: hh.1) ∧
     s.oR.tail = pad (c.size - 1) hh.2 ∧ s.oR.length = c.size ∧
     I = I0 ++ (iirTerms c s.iR s.oR).take (iirM c s) ∧
     R = (I0 ++ (iirTerms c s.iR s.oR).take k).map iirProd ∧
     ((s.st ≠ .idle ∧ s.st ≠ .output ∧ IirAcc c (iirTerms c s.iR s.oR) (iirM c s) k s.sumR s.cR s.validR s.lastR) ∨
      (s.st = .output ∧ s.validR = false ∧ k = c.size + (c.size - 1) ∧
        s.sumR = wrapS (c.ws + c.wc) (dot c.b s.iR + dot c.a.tail s.oR.tail)))))

/-- What can happen in a cycle: nothing, a sample is accepted, or the sample in progress is delivered. -/
def IirMove (hh : List Int × List Int) (cur : Option IirSample) (acc del : List IirSample) (hh' : List Int × List Int)
    (cur' : Option IirSample) : Prop :=
  (acc = [] ∧ del = [] ∧ hh' = hh ∧ cur' = cur) ∨
  (∃ d, cur = none ∧ acc = [d] ∧ del = [] ∧ hh' = hh ∧ cur' = some d) ∨
  (∃ d, cur = some d ∧ acc = [] ∧ del = [{ d with data := (c.eqn.step hh d.data).2 }] ∧
    hh' = (c.eqn.step hh d.data).1 ∧ cur' = none)

theorem iirRel_iff (A D : List IirSample) (I : List IirTerm) (R : List (Int × Bool)) (s : IirS) :
    iirRel c A D I R s ↔ ∃ A0 cur, A = A0 ++ Option.toList cur ∧ iirExpect c A0 = D ∧
      iirCur c (c.eqn.run (A0.map (·.data))).1 cur I R s := by
  constructor
  · rintro ⟨h0, ⟨h1, h2, h3, h⟩ | ⟨A0, d, I0, k, hA, hE, h⟩⟩
    · exact ⟨A, none, by simp, h3, h0, .inl ⟨rfl, h1, h2, h⟩⟩
    · exact ⟨A0, some d, hA, hE, h0, .inr ⟨d, I0, k, rfl, h⟩⟩
  · rintro ⟨A0, cur, hA, hE, h0, ⟨hc, h1, h2, h⟩ | ⟨d, I0, k, hc, h⟩⟩
    · subst hc
      rw [Option.toList_none, List.append_nil] at hA
      subst hA
      exact ⟨h0, .inl ⟨h1, h2, hE, h⟩⟩
    · subst hc
      exact ⟨h0, .inr ⟨A0, d, I0, k, hA, hE, h⟩⟩

set_option maxHeartbeats 1000000 in
theorem iir_cur_step (hw : 0 < c.width) (hws : c.width ≤ c.ws) (hb : c.b.length = c.size) (hs : 2 ≤ c.size)
    (hh : List Int × List Int) (cur : Option IirSample) (I : List IirTerm) (R : List (Int × Bool)) (s : IirS) (x : IirIn)
    (h : iirCur c hh cur I R s) (hx1 : -2 ^ (c.width - 1) ≤ x.data) (hx2 : x.data < 2 ^ (c.width - 1))
    (hc : R ++ iirRes x <+: (I ++ iirIss c s x).map iirProd) :
    ∃ hh' cur', iirCur c hh' cur' (I ++ iirIss c s x) (R ++ iirRes x) ((iir c).next s x) ∧
      IirMove c hh cur (iirAccd c s x) (iirDel c s x) hh' cur' := by
  obtain ⟨n, hn⟩ : ∃ n, c.size = n + 1 := ⟨c.size - 1, by omega⟩
  obtain ⟨st, idx, iR, oR, cR, validR, lastR, sumR, first, last⟩ := s
  obtain ⟨hidx, h⟩ := h
  rcases h with ⟨hcur, hst, hv, hR, hi, ho⟩ | ⟨d, I0, k, hcur, hf, hl, hi, ho, hol, hI, hR, h⟩
  · dsimp only at hst hv hi ho
    subst hst hv
    have hi0 : idx = 0 := hidx
    subst hi0
    have e1 : iirIss c ⟨.idle, 0, iR, oR, cR, false, lastR, sumR, first, last⟩ x = [] := rfl
    have e2 : iirDel c ⟨.idle, 0, iR, oR, cR, false, lastR, sumR, first, last⟩ x = [] := rfl
    rw [e1, List.append_nil] at hc
    rw [e1, e2, List.append_nil]
    rw [hR] at hc
    have hmv := no_answer I x hc
    have e3 : iirRes x = [] := by simp [iirRes, hmv]
    rw [e3, List.append_nil]
    cases hxv : x.valid
    · have e4 : iirAccd c ⟨.idle, 0, iR, oR, cR, false, lastR, sumR, first, last⟩ x = [] := by simp [iirAccd, hxv]
      have en : (iir c).next ⟨.idle, 0, iR, oR, cR, false, lastR, sumR, first, last⟩ x =
          ⟨.idle, 0, iR, oR, x.mC, false, x.mLast, 0, first, last⟩ := by simp [iir, hxv, hmv]
      rw [e4, en]
      exact ⟨hh, cur, ⟨rfl, .inl ⟨hcur, rfl, rfl, hR, hi, ho⟩⟩, .inl ⟨rfl, rfl, rfl, rfl⟩⟩
    · have e4 : iirAccd c ⟨.idle, 0, iR, oR, cR, false, lastR, sumR, first, last⟩ x =
          [⟨x.first, x.last, x.data⟩] := by simp [iirAccd, hxv, iir]
      have hsc : wrapS c.ws (x.data * 2 ^ c.ss) = x.data * 2 ^ c.ss := by
        have := scale_exact c.width c.ss hw x.data hx1 hx2
        rw [show c.width + c.ss = c.ws by simp only [IirCfg.ss]; omega] at this
        exact this
      have en : (iir c).next ⟨.idle, 0, iR, oR, cR, false, lastR, sumR, first, last⟩ x =
          ⟨.runB, 0, x.data * 2 ^ c.ss :: iR.dropLast, 0 :: oR.dropLast, x.mC, false, x.mLast, 0, x.first, x.last⟩ := by
        simp [iir, hxv, hmv, hsc]
      rw [e4, en]
      refine ⟨hh, some ⟨x.first, x.last, x.data⟩, ⟨by show 0 < c.size; omega, .inr ⟨⟨x.first, x.last, x.data⟩, I, 0, rfl, rfl, rfl, ?_, ?_, ?_, ?_, ?_,
        .inl ⟨(fun h => by cases h), (fun h => by cases h), ⟨Nat.le_refl _, Nat.zero_le _, ?_, by intro h; cases h⟩⟩⟩⟩,
        .inr (.inl ⟨_, hcur, rfl, rfl, rfl, rfl⟩)⟩
      · dsimp only
        rw [hi, hn, pad_cons, pad_dropLast]
      · dsimp only
        rw [ho, hn, List.tail_cons, pad_dropLast]
        rfl
      · dsimp only
        rw [ho, hn, pad_dropLast, List.length_cons, pad_length]
      · simp [iirM]
      · simp [hR]
      · simp [termSum]
  · dsimp only at hf hl hi ho hol hI hR
    have hil : iR.length = c.size := by rw [hi, pad_length]
    rcases h with ⟨hs1, hs2, hacc⟩ | ⟨hst, hv, hk, hsum⟩
    · dsimp only at hs1 hs2 hacc
      -- the common part: one more answer
      have key : ∀ (st' : IirSt) (idx' : Nat), st' ≠ .idle → st' ≠ .output →
          iirIdxOk c ⟨st', idx', iR, oR, x.mC, x.mValid, x.mLast,
            if validR then wrapS (c.ws + c.wc) (sumR + cR) else sumR, first, last⟩ →
          I ++ iirIss c ⟨st, idx, iR, oR, cR, validR, lastR, sumR, first, last⟩ x =
            I0 ++ (iirTerms c iR oR).take (iirM c ⟨st', idx', iR, oR, x.mC, x.mValid, x.mLast,
              if validR then wrapS (c.ws + c.wc) (sumR + cR) else sumR, first, last⟩) →
          iirM c ⟨st, idx, iR, oR, cR, validR, lastR, sumR, first, last⟩ ≤
            iirM c ⟨st', idx', iR, oR, x.mC, x.mValid, x.mLast,
              if validR then wrapS (c.ws + c.wc) (sumR + cR) else sumR, first, last⟩ →
          iirM c ⟨st', idx', iR, oR, x.mC, x.mValid, x.mLast,
              if validR then wrapS (c.ws + c.wc) (sumR + cR) else sumR, first, last⟩ ≤ c.size + (c.size - 1) →
          iirCur c hh cur (I ++ iirIss c ⟨st, idx, iR, oR, cR, validR, lastR, sumR, first, last⟩ x) (R ++ iirRes x)
            ⟨st', idx', iR, oR, x.mC, x.mValid, x.mLast,
              if validR then wrapS (c.ws + c.wc) (sumR + cR) else sumR, first, last⟩ := by
        intro st' idx' hn1 hn2 hok hIs hm hmT
        rw [hIs, hR] at hc
        rw [hIs, hR]
        obtain ⟨k', hk', hacc', _⟩ := acc_step c (iirTerms c iR oR) I0 _ _ k sumR cR validR lastR hacc hm
          (by rw [iirTerms_length]; exact hmT) x.mValid x.mLast x.mC hc
        refine ⟨hok, .inr ⟨d, I0, k', hcur, hf, hl, hi, ho, hol, rfl, hk', .inl ⟨hn1, hn2, hacc'⟩⟩⟩
      have eA : iirAccd c ⟨st, idx, iR, oR, cR, validR, lastR, sumR, first, last⟩ x = [] := by
        simp [iirAccd, iir, hs1]
      have eD : iirDel c ⟨st, idx, iR, oR, cR, validR, lastR, sumR, first, last⟩ x = [] := by
        simp [iirDel, iir, hs2]
      rw [eA, eD]
      refine ⟨hh, cur, ?_, .inl ⟨rfl, rfl, rfl, rfl⟩⟩
      have snoc : ∀ m t, (iirTerms c iR oR)[m]? = some t →
          I0 ++ (iirTerms c iR oR).take m ++ [t] = I0 ++ (iirTerms c iR oR).take (m + 1) := by
        intro m t ht
        rw [List.take_succ, ht, List.append_assoc]; rfl
      cases st with
      | idle => exact absurd rfl hs1
      | output => exact absurd rfl hs2
      | runB =>
        have hidx : idx < c.size := hidx
        cases hr : x.mReady
        · have en : (iir c).next ⟨.runB, idx, iR, oR, cR, validR, lastR, sumR, first, last⟩ x =
              ⟨.runB, idx, iR, oR, x.mC, x.mValid, x.mLast,
                if validR then wrapS (c.ws + c.wc) (sumR + cR) else sumR, first, last⟩ := by
            simp [iir, hr]
          have ei : iirIss c ⟨.runB, idx, iR, oR, cR, validR, lastR, sumR, first, last⟩ x = [] := by
            simp [iirIss, hr]
          rw [en]
          exact key .runB idx (by decide) (by decide) hidx (by rw [ei, List.append_nil]; exact hI) (Nat.le_refl _)
            (by show idx ≤ _; omega)
        · have ei : iirIss c ⟨.runB, idx, iR, oR, cR, validR, lastR, sumR, first, last⟩ x =
              [(iR.getD idx 0, c.b.getD idx 0, false)] := by
            simp only [iirIss, iir, hr]
            rfl
          have hsn := snoc idx _ (iirTerms_b c iR oR idx hidx)
          by_cases hlt : idx < c.size - 1
          · have en : (iir c).next ⟨.runB, idx, iR, oR, cR, validR, lastR, sumR, first, last⟩ x =
                ⟨.runB, idx + 1, iR, oR, x.mC, x.mValid, x.mLast,
                  if validR then wrapS (c.ws + c.wc) (sumR + cR) else sumR, first, last⟩ := by
              have := truncRange_of_lt (n := c.size) (v := idx + 1) (by omega)
              simp [iir, hr, hlt, this]
            rw [en]
            exact key .runB (idx + 1) (by decide) (by decide) (by show idx + 1 < c.size; omega)
              (by rw [ei, hI]; exact hsn) (by show idx ≤ idx + 1; omega) (by show idx + 1 ≤ _; omega)
          · have en : (iir c).next ⟨.runB, idx, iR, oR, cR, validR, lastR, sumR, first, last⟩ x =
                ⟨.runA, 1, iR, oR, x.mC, x.mValid, x.mLast,
                  if validR then wrapS (c.ws + c.wc) (sumR + cR) else sumR, first, last⟩ := by
              have := truncRange_of_lt (n := c.size) (v := 1) (by omega)
              simp [iir, hr, hlt, this]
            rw [en]
            refine key .runA 1 (by decide) (by decide) ⟨Nat.le_refl 1, by show 1 < c.size; omega⟩ ?_
              (by show idx ≤ c.size + 1 - 1; omega) (by show c.size + 1 - 1 ≤ _; omega)
            rw [ei, hI]
            show _ = I0 ++ (iirTerms c iR oR).take (c.size + 1 - 1)
            rw [show c.size + 1 - 1 = idx + 1 by omega]
            exact hsn
      | runA =>
        obtain ⟨hidx1, hidx⟩ : 1 ≤ idx ∧ idx < c.size := hidx
        cases hr : x.mReady
        · have en : (iir c).next ⟨.runA, idx, iR, oR, cR, validR, lastR, sumR, first, last⟩ x =
              ⟨.runA, idx, iR, oR, x.mC, x.mValid, x.mLast,
                if validR then wrapS (c.ws + c.wc) (sumR + cR) else sumR, first, last⟩ := by
            simp [iir, hr]
          have ei : iirIss c ⟨.runA, idx, iR, oR, cR, validR, lastR, sumR, first, last⟩ x = [] := by
            simp [iirIss, hr]
          rw [en]
          exact key .runA idx (by decide) (by decide) ⟨hidx1, hidx⟩ (by rw [ei, List.append_nil]; exact hI)
            (Nat.le_refl _) (by show c.size + idx - 1 ≤ _; omega)
        · have ei : iirIss c ⟨.runA, idx, iR, oR, cR, validR, lastR, sumR, first, last⟩ x =
              [(oR.getD idx 0, c.a.getD idx 0, idx == c.size - 1)] := by
            simp only [iirIss, iir, hr]
            rfl
          have hsn := snoc _ _ (iirTerms_a c iR oR idx hidx1 hidx)
          by_cases hlt : idx < c.size - 1
          · have en : (iir c).next ⟨.runA, idx, iR, oR, cR, validR, lastR, sumR, first, last⟩ x =
                ⟨.runA, idx + 1, iR, oR, x.mC, x.mValid, x.mLast,
                  if validR then wrapS (c.ws + c.wc) (sumR + cR) else sumR, first, last⟩ := by
              have := truncRange_of_lt (n := c.size) (v := idx + 1) (by omega)
              simp [iir, hr, hlt, this]
            rw [en]
            refine key .runA (idx + 1) (by decide) (by decide) ⟨by show 1 ≤ idx + 1; omega, by show idx + 1 < c.size; omega⟩ ?_
              (by show c.size + idx - 1 ≤ c.size + (idx + 1) - 1; omega) (by show c.size + (idx + 1) - 1 ≤ _; omega)
            rw [ei, hI]
            show _ = I0 ++ (iirTerms c iR oR).take (c.size + (idx + 1) - 1)
            rw [show c.size + (idx + 1) - 1 = (c.size + idx - 1) + 1 by omega]
            exact hsn
          · have en : (iir c).next ⟨.runA, idx, iR, oR, cR, validR, lastR, sumR, first, last⟩ x =
                ⟨.wait, 0, iR, oR, x.mC, x.mValid, x.mLast,
                  if validR then wrapS (c.ws + c.wc) (sumR + cR) else sumR, first, last⟩ := by
              simp [iir, hr, hlt]
            rw [en]
            refine key .wait 0 (by decide) (by decide) rfl ?_
              (by show c.size + idx - 1 ≤ c.size + (c.size - 1); omega) (Nat.le_refl _)
            rw [ei, hI]
            show _ = I0 ++ (iirTerms c iR oR).take (c.size + (c.size - 1))
            rw [show c.size + (c.size - 1) = (c.size + idx - 1) + 1 by omega]
            exact hsn
      | wait =>
        have hidx : idx = 0 := hidx
        subst hidx
        have ei : iirIss c ⟨.wait, 0, iR, oR, cR, validR, lastR, sumR, first, last⟩ x = [] := rfl
        by_cases hend : (validR && lastR) = true
        · obtain ⟨rfl, rfl⟩ : validR = true ∧ lastR = true := by simpa using hend
          obtain ⟨hk0, t, ht, htl⟩ := hacc.last rfl
          have hk := iirTerms_last c iR oR _ t ht htl
          have hk : k = c.size + (c.size - 1) := by omega
          have en : (iir c).next ⟨.wait, 0, iR, oR, cR, true, true, sumR, first, last⟩ x =
              ⟨.output, 0, iR, oR, x.mC, x.mValid, x.mLast, wrapS (c.ws + c.wc) (sumR + cR), first, last⟩ := by
            simp [iir]
          have hR' : R = I.map iirProd := by rw [hR, hI, hk]; rfl
          rw [ei, List.append_nil, hR'] at hc
          have hmv := no_answer I x hc
          have e3 : iirRes x = [] := by simp [iirRes, hmv]
          rw [en, ei, e3, List.append_nil, List.append_nil, hmv]
          refine ⟨rfl, .inr ⟨d, I0, k, hcur, hf, hl, hi, ho, hol, hI, hR, .inr ⟨rfl, rfl, hk, ?_⟩⟩⟩
          have := hacc.sum
          simp only [if_true] at this
          show wrapS (c.ws + c.wc) (sumR + cR) = _
          rw [this, hk, List.take_of_length_le (by rw [iirTerms_length]; exact Nat.le_refl _),
            iirTerms_sum c iR oR hb hil hol (by omega)]
        · have en : (iir c).next ⟨.wait, 0, iR, oR, cR, validR, lastR, sumR, first, last⟩ x =
              ⟨.wait, 0, iR, oR, x.mC, x.mValid, x.mLast,
                if validR then wrapS (c.ws + c.wc) (sumR + cR) else sumR, first, last⟩ := by
            simp only [iir]
            rw [if_neg hend]
            simp
          rw [en]
          exact key .wait 0 (by decide) (by decide) rfl (by rw [ei, List.append_nil]; exact hI) (Nat.le_refl _)
            (Nat.le_refl _)
    · dsimp only at hst hv hk hsum
      subst hst hv
      have hidx : idx = 0 := hidx
      subst hidx
      have ei : iirIss c ⟨.output, 0, iR, oR, cR, false, lastR, sumR, first, last⟩ x = [] := rfl
      have hR' : R = I.map iirProd := by rw [hR, hI, hk]; rfl
      rw [ei, List.append_nil, hR'] at hc
      have hmv := no_answer I x hc
      have e3 : iirRes x = [] := by simp [iirRes, hmv]
      have eA : iirAccd c ⟨.output, 0, iR, oR, cR, false, lastR, sumR, first, last⟩ x = [] := by
        simp [iirAccd, iir]
      rw [ei, e3, eA, List.append_nil, List.append_nil]
      obtain ⟨o, oT, rfl⟩ : ∃ o oT, oR = o :: oT := by
        cases oR with
        | nil => simp at hol; omega
        | cons o oT => exact ⟨o, oT, rfl⟩
      have en : (iir c).next ⟨.output, 0, iR, o :: oT, cR, false, lastR, sumR, first, last⟩ x =
          ⟨if x.ready then .idle else .output, 0, iR, wrapS c.ws (sumR / 2 ^ c.sc) :: oT, x.mC, false, x.mLast, sumR,
            first, last⟩ := by
        simp [iir, hmv]
      rw [en]
      -- the terms do not depend on the first output register
      have hterms : ∀ z, iirTerms c iR (z :: oT) = iirTerms c iR (o :: oT) := by
        intro z; simp [iirTerms]
      have hsum' : sumR = twos c.eqn.accWidth (dot c.eqn.b (d.data * 2 ^ c.eqn.ss :: hh.1) +
          dot c.eqn.a hh.2) := by
        rw [hsum, hi, ho]
        show wrapS (c.ws + c.wc) _ = twos (c.ws + c.wc) _
        have e1 : dot c.b (pad c.size (d.data * 2 ^ c.ss :: hh.1)) =
            dot c.b (d.data * 2 ^ c.ss :: hh.1) := by
          rw [← hb]; exact dot_pad _ _
        have e2 : dot c.a.tail (pad (c.size - 1) hh.2) =
            dot c.a.tail hh.2 := by
          rw [show c.size - 1 = c.a.tail.length by simp [IirCfg.size]]; exact dot_pad _ _
        rw [e1, e2]
        rfl
      cases hr : x.ready
      · have eD : iirDel c ⟨.output, 0, iR, o :: oT, cR, false, lastR, sumR, first, last⟩ x = [] := by
          simp [iirDel, hr]
        rw [eD]
        refine ⟨hh, cur, ⟨rfl, .inr ⟨d, I0, k, hcur, hf, hl, hi, ho, hol, ?_, ?_, .inr ⟨rfl, rfl, hk, hsum⟩⟩⟩, .inl ⟨rfl, rfl, rfl, rfl⟩⟩
        · dsimp only; rw [hterms]; exact hI
        · dsimp only; rw [hterms]; exact hR
      · have eD : iirDel c ⟨.output, 0, iR, o :: oT, cR, false, lastR, sumR, first, last⟩ x =
            [⟨first, last, wrapS c.width (sumR / 2 ^ (c.sc + c.ss))⟩] := by
          simp [iirDel, iir, hr]
        rw [eD]
        have hstep : (c.eqn.step hh d.data) =
            ((d.data * 2 ^ c.ss :: hh.1,
              wrapS c.ws (sumR / 2 ^ c.sc) :: hh.2),
              wrapS c.width (sumR / 2 ^ (c.sc + c.ss))) := by
          rw [hsum']
          have : c.width + c.ss = c.ws := by simp only [IirCfg.ss]; omega
          simp only [DiffEq.step]
          show ((_, twos (c.width + c.ss) _ :: _), _) = _
          rw [this]
          rfl
        refine ⟨_, none, ⟨rfl, .inl ⟨rfl, rfl, rfl, hR', ?_, ?_⟩⟩, .inr (.inr ⟨d, hcur, rfl, ?_, rfl, rfl⟩)⟩
        · rw [hstep]
          exact hi
        · rw [hstep]
          show wrapS c.ws (sumR / 2 ^ c.sc) :: oT = pad c.size (_ :: _)
          rw [hn, pad_cons]
          congr 1
          rw [hn] at ho
          exact ho
        · rw [hstep, ← hf, ← hl]

theorem iir_step (hw : 0 < c.width) (hws : c.width ≤ c.ws) (hb : c.b.length = c.size) (hs : 2 ≤ c.size)
    (A D : List IirSample) (I : List IirTerm) (R : List (Int × Bool)) (s : IirS) (x : IirIn)
    (h : iirRel c A D I R s) (hx1 : -2 ^ (c.width - 1) ≤ x.data) (hx2 : x.data < 2 ^ (c.width - 1))
    (hc : R ++ iirRes x <+: (I ++ iirIss c s x).map iirProd) :
    iirRel c (A ++ iirAccd c s x) (D ++ iirDel c s x) (I ++ iirIss c s x) (R ++ iirRes x) ((iir c).next s x) := by
  obtain ⟨A0, cur, hA, hE, h⟩ := (iirRel_iff c A D I R s).mp h
  rw [iirRel_iff]
  obtain ⟨hh', cur', h', hm⟩ := iir_cur_step c hw hws hb hs _ cur I R s x h hx1 hx2 hc
  rcases hm with ⟨e1, e2, e3, e4⟩ | ⟨d, e0, e1, e2, e3, e4⟩ | ⟨d, e0, e1, e2, e3, e4⟩
  · subst e3 e4
    exact ⟨A0, cur', by rw [e1, List.append_nil]; exact hA, by rw [e2, List.append_nil]; exact hE, h'⟩
  · subst e0 e3 e4
    refine ⟨A0, some d, ?_, by rw [e2, List.append_nil]; exact hE, h'⟩
    rw [e1, hA]; simp
  · subst e0 e3 e4
    refine ⟨A0 ++ [d], none, ?_, ?_, ?_⟩
    · rw [e1, hA]; simp
    · rw [iirExpect_snoc, hE, e2]
    · rw [List.map_append, List.map_singleton, DiffEq.run_snoc]; exact h'

end

end Lambdalib
