import Verif.Lemmas.Converter

/-! Helper lemmas relating grouping and serialisation. -/

namespace Lambdalib

theorem groups_append_chunks {wf wt r : Nat} {rev : Bool} (hr : 1 ≤ r)
    (L : List (Beat (BitVec wt))) (hL : (groups r L).2 = []) (b : Beat (BitVec wf)) (m : Nat)
    (hm : m < r) :
    groups r (L ++ (chunks wt r rev b).take m) = ((groups r L).1, (chunks wt r rev b).take m) := by
  induction m with
  | zero => simp only [List.take_zero, List.append_nil]; rw [← hL]
  | succ m ih =>
    have htake : (chunks wt r rev b).take (m + 1)
        = (chunks wt r rev b).take m
          ++ [(chunks wt r rev b)[m]'(by simp [chunks]; omega)] := by
      rw [List.take_add_one, List.getElem?_eq_getElem (by simp [chunks]; omega)]; rfl
    rw [htake, ← List.append_assoc, groups_snoc, ih (by omega), groupStep, if_neg]
    simp only [List.length_take, chunks_length]
    simp [chunks]
    omega

theorem groups_append_chunks_full {wf wt r : Nat} {rev : Bool} (hr : 1 ≤ r)
    (L : List (Beat (BitVec wt))) (hL : (groups r L).2 = []) (b : Beat (BitVec wf)) :
    groups r (L ++ chunks wt r rev b) = ((groups r L).1 ++ [chunks wt r rev b], []) := by
  have htake : chunks wt r rev b
      = (chunks wt r rev b).take (r - 1)
        ++ [(chunks wt r rev b)[r - 1]'(by simp [chunks]; omega)] := by
    have h := List.take_of_length_le (l := chunks wt r rev b) (i := r - 1 + 1)
      (by simp [chunks]; omega)
    rw [List.take_add_one] at h
    have h2 : (chunks wt r rev b)[r - 1]? = some ((chunks wt r rev b)[r - 1]'(by
      simp [chunks]; omega)) := List.getElem?_eq_getElem _
    rw [h2] at h
    exact h.symm
  have h1 := groups_append_chunks (rev := rev) hr L hL b (r - 1) (by omega)
  have h2 : groups r (L ++ chunks wt r rev b) = groups r (L ++ ((chunks wt r rev b).take (r - 1)
        ++ [(chunks wt r rev b)[r - 1]'(by simp [chunks]; omega)])) := by
    rw [← htake]
  rw [h2, ← List.append_assoc, groups_snoc, h1, groupStep, if_pos]
  · simp only [← htake]
  · right
    simp [chunks]; omega

theorem groups_flatMap_chunks {wf wt r : Nat} {rev : Bool} (hr : 1 ≤ r)
    (A : List (Beat (BitVec wf))) :
    groups r (A.flatMap (chunks wt r rev)) = (A.map (chunks wt r rev), []) := by
  induction A using snocInduction with
  | nil => simp [groups]
  | snoc A b ih =>
    simp only [List.flatMap_append, List.flatMap_cons, List.flatMap_nil, List.append_nil,
      List.map_append, List.map_cons, List.map_nil]
    rw [groups_append_chunks_full hr _ (by rw [ih]), ih]

/-- A word carrying all the chunks of `b` is `b`. -/
theorem eq_of_packs_chunks {w W r : Nat} {rev : Bool} (hr : 1 ≤ r) (hW : W = r * w)
    {x b : Beat (BitVec W)}
    (h : Packs r rev x (chunks w r rev b)) : x = b := by
  obtain ⟨h1, h2, h3⟩ := h
  have e1 : x.first = b.first := by
    rw [h1]
    simp only [chunks, List.any_map]
    rw [Bool.eq_iff_iff]; simp
    intro _; exact hr
  have e2 : x.last = b.last := by
    rw [h2]
    simp only [chunks, List.any_map]
    rw [Bool.eq_iff_iff]; simp
    constructor
    · rintro ⟨_, _, h, _⟩; exact h
    · intro h; exact ⟨r - 1, by omega, h, by omega⟩
  have e3 : x.payload = b.payload := by
    apply eq_of_getLane_eq hW
    intro k hk
    obtain ⟨j, hj, rfl⟩ := position_surj rev hk
    have := h3 j (by simp [chunks, hj])
    rw [getLane_eq_slice, getLane_eq_slice, this]
    simp [chunks]
  cases x; cases b; simp_all

/-- A group whose delimiters are at its ends. -/
def GroupOk {α : Type} (r : Nat) (g : List (Beat α)) : Prop :=
  ∀ k (h : k < g.length), (g[k].last = true → k = r - 1) ∧ (g[k].first = true → k = 0)

theorem groups_aligned {α : Type} {r : Nat} (hr : 1 ≤ r) (A : List (Beat α)) (hA : Aligned r A) :
    (∀ g ∈ (groups r A).1, g.length = r ∧ GroupOk r g) ∧ GroupOk r (groups r A).2 ∧
      A.length = r * (groups r A).1.length + (groups r A).2.length := by
  induction A using snocInduction with
  | nil => simp [groups, GroupOk]
  | snoc A b ih =>
    have hA' : Aligned r A := by
      intro k hk
      have := hA k (by simp; omega)
      rwa [List.getElem_append_left hk] at this
    obtain ⟨i1, i2, i3⟩ := ih hA'
    have ho := groups_open r hr A
    have hb := hA A.length (by simp)
    simp only [List.getElem_concat_length] at hb
    have hmod : A.length % r = (groups r A).2.length := by
      rw [i3, Nat.mul_add_mod]; exact Nat.mod_eq_of_lt ho.1
    rw [hmod] at hb
    have hg : GroupOk r ((groups r A).2 ++ [b]) := by
      intro k hk
      simp only [List.length_append, List.length_cons, List.length_nil, Nat.zero_add] at hk
      by_cases hkl : k = (groups r A).2.length
      · subst hkl; simpa using hb
      · rw [List.getElem_append_left (by omega)]
        exact i2 k (by omega)
    rw [groups_snoc, groupStep]
    split
    · rename_i h
      have hlen : (groups r A).2.length + 1 = r := by
        rcases h with h | h
        · have := hb.1 h; omega
        · exact h
      refine ⟨?_, by simp [GroupOk], ?_⟩
      · intro g hgm
        simp only [List.mem_append, List.mem_singleton] at hgm
        rcases hgm with hgm | rfl
        · exact i1 g hgm
        · exact ⟨by simp [hlen], hg⟩
      · simp only [List.length_append, List.length_cons, List.length_nil, i3]
        rw [Nat.mul_add]; omega
    · refine ⟨i1, hg, ?_⟩
      simp only [List.length_append, List.length_cons, List.length_nil, i3]
      omega

/-- Serialising a word that carries a complete well-delimited group restores the group. -/
theorem chunks_of_packs {w W r : Nat} {rev : Bool} (hr : 1 ≤ r)
    {x : Beat (BitVec W)} {g : List (Beat (BitVec w))} (hlen : g.length = r) (hg : GroupOk r g)
    (h : Packs r rev x g) : chunks w r rev x = g := by
  obtain ⟨h1, h2, h3⟩ := h
  apply List.ext_getElem
  · simp [chunks, hlen]
  · intro k hk hk'
    have hgk := hg k hk'
    have e3 := h3 k hk'
    have e1 : (x.first && k == 0) = g[k].first := by
      rw [h1, Bool.eq_iff_iff]
      simp only [Bool.and_eq_true, List.any_eq_true, beq_iff_eq]
      constructor
      · rintro ⟨⟨y, hy, hyf⟩, rfl⟩
        obtain ⟨j, hj, rfl⟩ := List.getElem_of_mem hy
        have hj0 := (hg j hj).2 hyf
        subst hj0; exact hyf
      · intro hf
        exact ⟨⟨g[k], List.getElem_mem _, hf⟩, hgk.2 hf⟩
    have e2 : (x.last && k + 1 == r) = g[k].last := by
      rw [h2, Bool.eq_iff_iff]
      simp only [Bool.and_eq_true, List.any_eq_true, beq_iff_eq]
      constructor
      · rintro ⟨⟨y, hy, hyf⟩, hk1⟩
        obtain ⟨j, hj, rfl⟩ := List.getElem_of_mem hy
        have hj0 := (hg j hj).1 hyf
        have : j = k := by omega
        subst this; exact hyf
      · intro hf
        have := hgk.1 hf
        exact ⟨⟨g[k], List.getElem_mem _, hf⟩, by omega⟩
    simp only [chunks, List.getElem_map, List.getElem_range, e1, e2, e3]

theorem flatMap_chunks_of_packs {w W r : Nat} {rev : Bool} (hr : 1 ≤ r)
    {D : List (Beat (BitVec W))} {gs : List (List (Beat (BitVec w)))}
    (h : List.Forall₂ (Packs r rev) D gs) (hg : ∀ g ∈ gs, g.length = r ∧ GroupOk r g) :
    D.flatMap (chunks w r rev) = gs.flatten := by
  induction h with
  | nil => simp
  | cons hxy _ ih =>
    have h1 := hg _ (List.mem_cons_self ..)
    rw [List.flatMap_cons, List.flatten_cons, chunks_of_packs hr h1.1 h1.2 hxy,
      ih (fun g hgm => hg g (List.mem_cons_of_mem _ hgm))]

end Lambdalib
