import Verif.Spec.SpiSession
import Verif.Props.SpiLink

/-! Lemmas on exchanges with an SPI device. -/

namespace Lambdalib

theorem spiPacket_snoc (l : List Nat) (d : Nat) : spiPacket (l ++ [d]) = l.map (fun d => (false, d)) ++ [(true, d)] := by
  induction l with
  | nil => rfl
  | cons a l ih =>
    cases l with
    | nil => rfl
    | cons b l => simp only [List.cons_append, spiPacket] at ih ⊢; rw [ih]; rfl

theorem spiPacket_snd (l : List Nat) : (spiPacket l).map Prod.snd = l := by
  rcases l.eq_nil_or_concat with rfl | ⟨l, d, rfl⟩
  · rfl
  · rw [List.concat_eq_append, spiPacket_snoc]
    simp [Function.comp_def]

theorem spiPacket_fst {l m : List Nat} (h : l.length = m.length) : (spiPacket l).map Prod.fst = (spiPacket m).map Prod.fst := by
  rcases l.eq_nil_or_concat with rfl | ⟨l, d, rfl⟩ <;> rcases m.eq_nil_or_concat with rfl | ⟨m, e, rfl⟩
  · rfl
  · simp at h
  · simp at h
  · rw [List.concat_eq_append, List.concat_eq_append] at *
    rw [spiPacket_snoc, spiPacket_snoc]
    simp at h
    simp [Function.comp_def, h]

theorem spiSent_append (W nb : Nat) (p q : List Nat) : spiSent W nb (p ++ q) = spiSent W nb p ++ spiSent W nb q := by
  simp [spiSent]

theorem spiSent_length (W nb : Nat) (p : List Nat) : (spiSent W nb p).length = p.length * (W / nb) := by
  induction p with
  | nil => simp [spiSent]
  | cons d l ih =>
    rw [show d :: l = [d] ++ l from rfl, spiSent_append, List.length_append, ih]
    simp [spiSent, spiOuts_length, Nat.add_mul]
    omega

theorem spiSent_flatten (W nb : Nat) (l : List (List Nat)) : spiSent W nb l.flatten = (l.map (spiSent W nb)).flatten := by
  induction l with
  | nil => rfl
  | cons a l ih => simp [spiSent_append, ih]

theorem spiAnswer_append (W nb : Nat) (l m : List Nat) (k : Nat) (h : l.length = k * (W / nb)) (hT : 0 < W / nb) :
    spiAnswer W nb (l ++ m) = spiAnswer W nb l ++ spiAnswer W nb m := by
  unfold spiAnswer
  have e1 : (l ++ m).length / (W / nb) = k + m.length / (W / nb) := by
    rw [List.length_append, h, Nat.mul_comm, Nat.mul_add_div hT]
  have e2 : l.length / (W / nb) = k := by rw [h, Nat.mul_div_cancel _ hT]
  rw [e1, e2, List.range_add, List.map_append, List.map_map]
  congr 1
  · apply List.map_congr_left
    intro j hj
    have hj := List.mem_range.mp hj
    have : j * (W / nb) + (W / nb) ≤ l.length := by
      rw [h, ← Nat.succ_mul]; exact Nat.mul_le_mul_right _ hj
    rw [List.drop_append_of_le_length (by omega), List.take_append_of_le_length (by rw [List.length_drop]; omega)]
  · apply List.map_congr_left
    intro j _
    simp only [Function.comp]
    rw [Nat.add_mul, ← h, List.drop_append, List.drop_eq_nil_of_le (Nat.le_add_right _ _)]
    simp

theorem spiAnswer_length (W nb : Nat) (l : List Nat) : (spiAnswer W nb l).length = l.length / (W / nb) := by simp [spiAnswer]

theorem spiAnswer_one (W nb : Nat) (l : List Nat) (h : l.length = W / nb) (hT : 0 < W / nb) : spiAnswer W nb l = [spiIns nb l] := by
  unfold spiAnswer
  rw [h, Nat.div_self hT]
  simp [List.take_of_length_le (Nat.le_of_eq h)]

theorem spiAnswer_flatten (W nb : Nat) (l : List (List Nat)) (h : ∀ a ∈ l, ∃ k, a.length = k * (W / nb)) (hT : 0 < W / nb) :
    spiAnswer W nb l.flatten = (l.map (spiAnswer W nb)).flatten := by
  induction l with
  | nil => simp [spiAnswer]
  | cons a l ih =>
    obtain ⟨k, hk⟩ := h a (by simp)
    rw [List.flatten_cons, spiAnswer_append W nb _ _ k hk hT, ih fun a ha => h a (by simp [ha])]
    rfl

/-- Complete transfers of words of one kind. -/
theorem SpiDone.closed {W nb : Nat} (hT : 0 < W / nb) {A : List (Bool × SpiWord)} {E : List (Nat × Nat)} {F : List (Bool × Nat)}
    (h : SpiDone A E F) (B : List (Bool × Nat)) (hB : A = B.map fun b => (b.1, (⟨b.2, W, nb, true⟩ : SpiWord))) :
    E.map Prod.fst = spiSent W nb (B.map Prod.snd) ∧ F.map Prod.fst = B.map Prod.fst ∧
      F.map (fun f => f.2 % 2 ^ W) = spiAnswer W nb (E.map Prod.snd) := by
  induction h generalizing B with
  | nil =>
    have : B = [] := by simpa using hB.symm
    subst this
    simp [spiSent, spiAnswer]
  | @snoc A E F w last e r hd ho hr ih =>
    obtain ⟨B', b, rfl, rfl, hb⟩ : ∃ B' b, B = B' ++ [b] ∧ A = B'.map (fun b => (b.1, (⟨b.2, W, nb, true⟩ : SpiWord))) ∧
        (last, w) = (b.1, (⟨b.2, W, nb, true⟩ : SpiWord)) := by
      rcases B.eq_nil_or_concat with rfl | ⟨B', b, rfl⟩
      · simp at hB
      · rw [List.concat_eq_append, List.map_append] at hB
        obtain ⟨h1, h2⟩ := List.append_inj' hB rfl
        exact ⟨B', b, by simp, h1, by simpa using h2⟩
    obtain ⟨h1, h2, h3⟩ := ih B' rfl
    obtain ⟨rfl, rfl⟩ := Prod.mk.inj hb
    have hl : (E.map Prod.snd).length = B'.length * (W / nb) := by
      have := congrArg List.length h1
      rw [spiSent_length] at this
      simpa using this
    have he : (e.map Prod.snd).length = W / nb := by
      have := congrArg List.length ho
      rw [spiOuts_length] at this
      simpa using this
    refine ⟨?_, ?_, ?_⟩
    · rw [List.map_append, List.map_append, spiSent_append, h1, ho]
      simp [spiSent]
    · simp [h2]
    · rw [List.map_append, List.map_append, spiAnswer_append W nb _ _ _ hl hT, h3, spiAnswer_one W nb _ he hT]
      simp only [List.map_cons, List.map_nil]
      rw [← hr]

end Lambdalib
