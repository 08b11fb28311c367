import Verif.Model.I2cBus
import Verif.Spec.I2cPyDev

/-! Lemmas for the host library. -/

namespace Lambdalib

theorem pyBytes_some (l : List Int) (h : ∀ v ∈ l, 0 ≤ v ∧ v < 256) :
    pyBytes l = some (l.map (BitVec.ofInt 8)) := by
  induction l with
  | nil => rfl
  | cons a l ih =>
    rw [pyBytes, if_pos (h a (by simp)), ih (fun v hv => h v (by simp [hv]))]
    rfl

theorem pyBytes_none (l : List Int) (v : Int) (hv : v ∈ l) (h : ¬ (0 ≤ v ∧ v < 256)) : pyBytes l = none := by
  induction l with
  | nil => simp at hv
  | cons a l ih =>
    rw [pyBytes]
    by_cases e : v = a
    · rw [← e, if_neg h]
    · rw [ih (by simpa [e] using hv)]
      split <;> rfl

theorem regAddrLoop_length (n : Nat) (v : Int) : (regAddrLoop n v).length = n := by
  induction n generalizing v with
  | zero => rfl
  | succ n ih => simp [regAddrLoop, ih]

theorem regAddrLoop_range (n : Nat) (v : Int) : ∀ x ∈ regAddrLoop n v, 0 ≤ x ∧ x < 256 := by
  induction n generalizing v with
  | zero => simp [regAddrLoop]
  | succ n ih =>
    intro x hx
    simp only [regAddrLoop, List.mem_cons] at hx
    rcases hx with rfl | hx
    · omega
    · exact ih _ x hx

theorem ofInt8_emod (v : Int) : BitVec.ofInt 8 (v % 256) = BitVec.ofInt 8 v := by
  apply BitVec.eq_of_toInt_eq
  simp [BitVec.toInt_ofInt, Int.bmod_def]

theorem regAddrLoop_get (n : Nat) (v : Int) (k : Nat) (hk : k < n) :
    ((regAddrLoop n v).map (BitVec.ofInt 8))[k]? = some (BitVec.ofInt 8 (v / 256 ^ k)) := by
  induction n generalizing v k with
  | zero => omega
  | succ n ih =>
    cases k with
    | zero => simp [regAddrLoop, ofInt8_emod]
    | succ k =>
      simp only [regAddrLoop, List.map_cons, List.getElem?_cons_succ]
      rw [ih _ k (by omega), Int.ediv_ediv_of_nonneg (by omega), Int.pow_succ, Int.mul_comm]

theorem regAddrArray_be (w v : Int) :
    (regAddrArray w v).map (BitVec.ofInt 8) = beBytes (w / 8).toNat v := by
  unfold regAddrArray regAddrSize beBytes
  generalize (w / 8).toNat = n
  apply List.ext_getElem?
  intro k
  by_cases hk : k < n
  · rw [List.map_reverse, List.getElem?_reverse (by simp [regAddrLoop_length, hk])]
    simp only [List.length_map, regAddrLoop_length]
    rw [regAddrLoop_get n v _ (by omega)]
    simp [hk]
  · rw [List.getElem?_eq_none (by simp [regAddrLoop_length]; omega),
      List.getElem?_eq_none (by simp; omega)]

theorem regAddrArray_range (w v : Int) : ∀ x ∈ regAddrArray w v, 0 ≤ x ∧ x < 256 := by
  intro x hx
  exact regAddrLoop_range _ _ x (by simpa [regAddrArray] using hx)

/-! The bridge -/

theorem phase_data (b : List (BitVec 8)) : ∀ m, b.length ≤ m → 
    b.foldl protoPhaseStep (.data m) = if b.length = m ∧ 0 < m then .header none else .data (m - b.length) := by
  induction b with
  | nil => intro m _; simp; omega
  | cons x b ih =>
    intro m hm
    simp only [List.length_cons] at hm
    simp only [List.foldl_cons, protoPhaseStep]
    by_cases h1 : m = 1
    · have : b = [] := by cases b <;> simp_all
      subst this
      simp [h1]
    · rw [if_neg h1, ih _ (by omega)]
      simp only [List.length_cons]
      by_cases e : b.length + 1 = m
      · rw [if_pos (by omega), if_pos (by omega)]
      · rw [if_neg (by omega), if_neg (by omega), Nat.sub_sub, Nat.add_comm 1]

/-- The bytes of a write command. -/
theorem bridge_write (d : BusDevices) (s : BridgeS) (h : BitVec 8) (data : List (BitVec 8))
    (hp : s.pending = []) (hh : h.toNat % 2 = 0) (hl : data.length < 256) :
    ([h, BitVec.ofNat 8 data.length] ++ data).foldl (bridgeByte d) s =
      ⟨[], s.replies ++ txnReply (d s.log (.write (h.toNat / 2) data)),
        s.log ++ [.write (h.toNat / 2) data]⟩ := by
  have hb : h.getLsbD 0 = false := by
    rw [← BitVec.testBit_toNat, Nat.testBit_zero]; simp; omega
  obtain ⟨p, r, g⟩ := s
  simp only at hp
  subst hp
  have e1 : bridgeByte d ⟨[], r, g⟩ h = ⟨[h], r, g⟩ := rfl
  have hln : (BitVec.ofNat 8 data.length).toNat = data.length := by simp; omega
  have hph : protoPhase [h, BitVec.ofNat 8 data.length] =
      if data.length = 0 then .header none else .data data.length := by
    simp only [protoPhase, List.foldl_cons, List.foldl_nil, protoPhaseStep, hb, hln]
    simp
  cases hd : data with
  | nil =>
    subst hd
    simp only [List.cons_append, List.nil_append, List.foldl_cons, List.foldl_nil, e1]
    simp only [bridgeByte, List.cons_append, List.nil_append, hph]
    simp [cmdTxn, hh]
  | cons x rest =>
    rw [← hd]
    have h0 : data.length ≠ 0 := by simp [hd]
    -- prefixes of the data stay pending
    have key : ∀ post pre, data = pre ++ post → 0 < post.length →
        post.foldl (bridgeByte d) ⟨[h, BitVec.ofNat 8 data.length] ++ pre, r, g⟩ =
        ⟨[], r ++ txnReply (d g (.write (h.toNat / 2) data)), g ++ [.write (h.toNat / 2) data]⟩ := by
      intro post
      induction post with
      | nil => intro _ _ h; simp at h
      | cons y post ih =>
        intro pre he _
        have hlen : data.length = pre.length + (post.length + 1) := by rw [he]; simp
        have hph2 : protoPhase ([h, BitVec.ofNat 8 data.length] ++ pre ++ [y]) =
            if post = [] then .header none else .data (data.length - (pre.length + 1)) := by
          unfold protoPhase at hph ⊢
          rw [List.append_assoc, List.foldl_append, hph, if_neg h0, phase_data _ _ (by simp; omega)]
          simp only [List.length_append, List.length_cons, List.length_nil]
          by_cases e : post = []
          · rw [if_pos e, if_pos]; subst e; simp at hlen; omega
          · have : 0 < post.length := List.length_pos_iff.mpr e
            rw [if_neg e, if_neg (by omega)]
        rw [List.foldl_cons, bridgeByte]
        simp only [hph2]
        by_cases e : post = []
        · subst e
          rw [if_pos rfl, List.foldl_nil]
          have : [h, BitVec.ofNat 8 data.length] ++ pre ++ [y] = h :: BitVec.ofNat 8 data.length :: data := by
            rw [he]; simp
          rw [this]
          simp [cmdTxn, hh]
        · rw [if_neg e]
          have := ih (pre ++ [y]) (by rw [he]; simp) (List.length_pos_iff.mpr e)
          rw [← List.append_assoc] at this
          exact this
    have e2 : bridgeByte d ⟨[h], r, g⟩ (BitVec.ofNat 8 data.length) =
        ⟨[h, BitVec.ofNat 8 data.length] ++ [], r, g⟩ := by
      simp only [bridgeByte, List.cons_append, List.nil_append, hph, if_neg h0]
    rw [List.foldl_append, List.foldl_cons, List.foldl_cons, List.foldl_nil, e1, e2,
      key data [] rfl (by omega)]

/-- The bytes of a read command. -/
theorem bridge_read (d : BusDevices) (s : BridgeS) (h l : BitVec 8)
    (hp : s.pending = []) (hh : h.toNat % 2 = 1) :
    [h, l].foldl (bridgeByte d) s =
      ⟨[], s.replies ++ txnReply (d s.log (.read (h.toNat / 2) l.toNat)),
        s.log ++ [.read (h.toNat / 2) l.toNat]⟩ := by
  have hb : h.getLsbD 0 = true := by
    rw [← BitVec.testBit_toNat, Nat.testBit_zero]; simp; omega
  obtain ⟨p, r, g⟩ := s
  simp only at hp
  subst hp
  have e1 : bridgeByte d ⟨[], r, g⟩ h = ⟨[h], r, g⟩ := rfl
  have hph : protoPhase [h, l] = .header (some l.toNat) := by
    simp only [protoPhase, List.foldl_cons, List.foldl_nil, protoPhaseStep, hb]
    simp
  simp only [List.foldl_cons, List.foldl_nil, e1]
  simp only [bridgeByte, List.cons_append, List.nil_append, hph]
  simp [cmdTxn, hh]

end Lambdalib
