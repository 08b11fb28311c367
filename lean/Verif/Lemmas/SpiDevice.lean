import Verif.Spec.SpiSession

/-! Lemmas on SPI devices. -/

namespace Lambdalib

variable (D : SpiDevice)

theorem SpiDevice.session_snoc (b : List (List Nat)) (o : List Nat) (x : Nat) :
    D.session b (o ++ [x]) = D.session b o ++ [(x, D b o)] := by
  unfold SpiDevice.session
  rw [List.zipIdx_append, List.map_append]
  congr 1
  · apply List.map_congr_left
    intro p hp
    obtain ⟨a, k⟩ := p
    have := List.mem_zipIdx hp
    rw [List.take_append_of_le_length (by omega)]
  · simp

theorem SpiDevice.sessions_snoc (l : List (List Nat)) (x : List Nat) :
    D.sessions (l ++ [x]) = D.sessions l ++ [D.session l x] := by
  unfold SpiDevice.sessions
  rw [List.zipIdx_append, List.map_append]
  congr 1
  · apply List.map_congr_left
    intro p hp
    obtain ⟨a, k⟩ := p
    have := List.mem_zipIdx hp
    rw [List.take_append_of_le_length (by omega)]
  · simp

/-- What a device on the pins drives. -/
theorem SpiDevice.on_sessions {csN clk : Nat → Bool} {dq : Nat → Nat × Nat} {n : Nat} (h : D.On csN clk dq n) :
    spiSessions csN clk dq n = D.sessions ((spiSessions csN clk dq n).map (List.map Prod.fst)) := by
  have key : ∀ m, m ≤ n → spiSessions csN clk dq m = D.sessions ((spiSessions csN clk dq m).map (List.map Prod.fst)) := by
    intro m
    induction m with
    | zero => intro _; rfl
    | succ m ih =>
      intro hm
      have hi := ih (by omega)
      have hd := h m (by omega)
      have hsel : ∀ f, spiSelect f (spiSessions csN clk dq m) =
          D.sessions ((spiSelect f (spiSessions csN clk dq m)).map (List.map Prod.fst)) := by
        intro f
        cases f
        · exact hi
        · simp only [spiSelect, if_true, List.map_append, List.map_cons, List.map_nil]
          rw [D.sessions_snoc, ← hi]
          rfl
      simp only [spiSessions]
      split
      · rename_i hc
        simp only [Bool.and_eq_true, Bool.not_eq_true'] at hc
        have hd := hd hc.1 hc.2
        have hs := hsel (!csN m && prevOf true csN m)
        simp only at hd
        generalize spiSelect (!csN m && prevOf true csN m) (spiSessions csN clk dq m) = S at *
        rcases S.eq_nil_or_concat with rfl | ⟨l, c, rfl⟩
        · simp only [List.dropLast_nil, List.getLastD_nil, List.nil_append, List.map_nil] at hd ⊢
          rw [show dq m = ((dq m).1, (dq m).2) from rfl, hd]
          rfl
        · rw [List.concat_eq_append] at hs hd ⊢
          simp only [List.dropLast_concat, List.getLastD_concat, List.map_append, List.map_cons, List.map_nil] at hd hs ⊢
          rw [D.sessions_snoc] at hs ⊢
          obtain ⟨h1, h2⟩ := List.append_inj' hs rfl
          rw [← h1, D.session_snoc, ← hd]
          simp only [List.cons.injEq, and_true] at h2
          rw [← h2]
      · exact hsel _
  exact key n (Nat.le_refl _)

end Lambdalib
