import Verif.Spec.SpiUsb
import Verif.Lemmas.SpiSession
import Verif.Lemmas.SpiDevice
import Verif.Props.UsbHost

/-! Lemmas about packets, messages and answers over USB. -/

namespace Lambdalib

theorem usbMessagesAfter_packet (p : List Nat) (hp : p ≠ []) :
    ∀ (cur : List Nat) (r : List (Bool × Nat)), usbMessagesAfter cur (spiPacket p ++ r) = (cur ++ p) :: usbMessagesAfter [] r := by
  induction p with
  | nil => exact absurd rfl hp
  | cons d l ih =>
    intro cur r
    cases l with
    | nil => simp [spiPacket, usbMessagesAfter]
    | cons e l =>
      simp only [spiPacket, List.cons_append, usbMessagesAfter, Bool.false_eq_true, if_false]
      rw [ih (by simp)]
      simp

theorem usbMessages_packets (ps : List (List Nat)) (h : ∀ p ∈ ps, p ≠ []) : usbMessages (ps.map spiPacket).flatten = ps := by
  unfold usbMessages
  induction ps with
  | nil => rfl
  | cons p ps ih =>
    rw [List.map_cons, List.flatten_cons, usbMessagesAfter_packet p (h p (by simp)), ih fun p hp => h p (by simp [hp])]
    rfl

/-- Packets can be told apart. -/
theorem spiPackets_inj (ps qs : List (List Nat)) (hp : ∀ p ∈ ps, p ≠ []) (hq : ∀ p ∈ qs, p ≠ [])
    (h : (ps.map spiPacket).flatten = (qs.map spiPacket).flatten) : ps = qs := by
  rw [← usbMessages_packets ps hp, h, usbMessages_packets qs hq]

theorem usbCut_flatten {β : Type} (size : Nat) (k : Nat) : ∀ m : List β, (usbCut size false k m).flatten = m := by
  induction k with
  | zero =>
    intro m
    unfold usbCut
    cases m <;> simp
  | succ k ih => intro m; simp only [usbCut, List.flatten_cons, ih]; exact List.take_append_drop _ _

theorem usbPackets_flatten {β : Type} (size : Nat) (m : List β) : (usbPackets size false m).flatten = m := by
  unfold usbPackets
  cases m with
  | nil => rfl
  | cons a m => exact usbCut_flatten _ _ _

/-- Lists of lists of the same lengths. -/
theorem usbCut_lengths {β γ : Type} (size : Nat) (hs : 0 < size) (k : Nat) :
    ∀ (m : List β) (l : List (List γ)), m.length / size = k → l.map List.length = (usbCut size false k m).map List.length →
      usbCut size false k l.flatten = l ∧ l.flatten.length = m.length := by
  induction k with
  | zero =>
    intro m l hk hl
    unfold usbCut at hl
    cases m with
    | nil =>
      have : l = [] := by simpa using hl
      subst this
      exact ⟨rfl, rfl⟩
    | cons a m =>
      simp only [List.isEmpty_cons, Bool.false_and, Bool.false_eq_true, if_false, List.map_cons, List.map_nil] at hl
      match l, hl with
      | [], hl => simp at hl
      | _ :: _ :: _, hl => simp at hl
      | [x], hl =>
        have hx : x.length = (a :: m).length := by simpa using hl
        have : x ≠ [] := by intro e; subst e; simp at hx
        refine ⟨?_, by simpa using hx⟩
        unfold usbCut
        simp [this]
  | succ k ih =>
    intro m l hk hl
    have hge : size ≤ m.length := by
      apply Classical.byContradiction; intro hc
      rw [Nat.div_eq_of_lt (by omega)] at hk; omega
    have hkd : (m.drop size).length / size = k := by
      have := Nat.div_eq_sub_div hs hge
      rw [List.length_drop]
      omega
    match l, hl with
    | [], hl => simp [usbCut] at hl
    | x :: l, hl =>
      simp only [usbCut, List.map_cons, List.cons.injEq] at hl
      have hx : x.length = size := by rw [hl.1, List.length_take]; omega
      obtain ⟨h1, h2⟩ := ih (m.drop size) l hkd hl.2
      constructor
      · simp only [usbCut, List.flatten_cons]
        rw [List.take_left' hx, List.drop_left' hx, h1]
      · rw [List.flatten_cons, List.length_append, h2, List.length_drop, hx]; omega

theorem usbCut_length {β : Type} (size : Nat) (hs : 0 < size) (k : Nat) :
    ∀ (m : List β), m.length / size = k → ∀ p ∈ usbCut size false k m, p ≠ [] ∧ p.length ≤ size := by
  induction k with
  | zero =>
    intro m hk p hp
    unfold usbCut at hp
    have hlt : m.length < size := by rcases Nat.div_eq_zero_iff.mp hk with h | h <;> omega
    cases m with
    | nil => simp at hp
    | cons a m =>
      simp at hp
      subst hp
      exact ⟨by simp, by omega⟩
  | succ k ih =>
    intro m hk p hp
    have hge : size ≤ m.length := by
      apply Classical.byContradiction; intro hc
      rw [Nat.div_eq_of_lt (by omega)] at hk; omega
    have hkd : (m.drop size).length / size = k := by
      have := Nat.div_eq_sub_div hs hge
      rw [List.length_drop]
      omega
    simp only [usbCut, List.mem_cons] at hp
    rcases hp with rfl | hp
    · have : (m.take size).length = size := by rw [List.length_take]; omega
      exact ⟨by intro e; rw [e] at this; simp at this; omega, by omega⟩
    · exact ih _ hkd p hp

theorem usbPackets_length {β : Type} (size : Nat) (hs : 0 < size) (m : List β) :
    ∀ p ∈ usbPackets size false m, p ≠ [] ∧ p.length ≤ size := by
  unfold usbPackets
  split
  · simp
  · exact usbCut_length size hs _ m rfl

theorem usbPackets_lengths {β γ : Type} (size : Nat) (hs : 0 < size) (m : List β) (l : List (List γ))
    (hl : l.map List.length = (usbPackets size false m).map List.length) :
    usbPackets size false l.flatten = l ∧ l.flatten.length = m.length := by
  unfold usbPackets at hl ⊢
  cases m with
  | nil =>
    have : l = [] := by simpa using hl
    subst this
    exact ⟨rfl, rfl⟩
  | cons a m =>
    simp only [List.isEmpty_cons, Bool.false_eq_true, if_false] at hl
    obtain ⟨h1, h2⟩ := usbCut_lengths size hs _ (a :: m) l rfl hl
    have : l.flatten ≠ [] := by intro e; rw [e] at h2; simp at h2
    rw [if_neg (by simpa using this), h2, h1]
    exact ⟨rfl, rfl⟩

theorem usbPackets_full {β : Type} (size : Nat) (hs : 0 < size) (m : List β) (hm : m ≠ []) (hle : m.length ≤ size) :
    usbPackets size false m = [m] := by
  unfold usbPackets
  rw [if_neg (by simpa using hm)]
  rcases Nat.lt_or_eq_of_le hle with h | h
  · rw [Nat.div_eq_of_lt h]
    simp [usbCut, hm]
  · rw [h, Nat.div_self hs]
    have ht : m.take size = m := List.take_of_length_le (by omega)
    have hd : m.drop size = [] := List.drop_of_length_le (by omega)
    simp [usbCut, ht, hd]

theorem usbPackets_short {β : Type} (size : Nat) (zlp : Bool) (m : List β) (hm : m ≠ []) (hle : m.length < size) :
    usbPackets size zlp m = [m] := by
  unfold usbPackets
  rw [if_neg (by simpa using hm), Nat.div_eq_of_lt hle]
  simp [usbCut, hm]

theorem flatMap_usbPackets {β : Type} (size : Nat) (hs : 0 < size) (l : List (List β)) (h : ∀ p ∈ l, p ≠ [] ∧ p.length ≤ size) :
    l.flatMap (usbPackets size false) = l := by
  induction l with
  | nil => rfl
  | cons p l ih =>
    rw [List.flatMap_cons, usbPackets_full size hs p (h p (by simp)).1 (h p (by simp)).2, ih fun p hp => h p (by simp [hp])]
    rfl

/-! Answers -/

section
variable (D : SpiDevice) (W nb : Nat)

theorem SpiDevice.session_length (b : List (List Nat)) (o : List Nat) : (D.session b o).length = o.length := by
  simp [SpiDevice.session]

theorem SpiDevice.answers_append (a b before : List (List Nat)) :
    D.answers W nb before (a ++ b) = D.answers W nb before a ++ D.answers W nb (before ++ a.map (spiSent W nb)) b := by
  unfold SpiDevice.answers
  rw [List.zipIdx_append, List.map_append]
  congr 1
  · apply List.map_congr_left
    intro p hp
    have := (List.mem_zipIdx hp).2.1
    rw [List.take_append_of_le_length (by omega)]
  · rw [List.zipIdx_eq_map_add, List.map_map]
    apply List.map_congr_left
    intro p hp
    simp only [Function.comp]
    rw [show 0 + a.length + p.2 = a.length + p.2 by omega] <;> try rfl
    rw [List.take_length_add_append, List.map_append, List.append_assoc]

theorem SpiDevice.answers_lengths (hT : 0 < W / nb) (before l : List (List Nat)) :
    (D.answers W nb before l).map List.length = l.map List.length := by
  unfold SpiDevice.answers
  rw [List.map_map]
  have : (fun p : List Nat × Nat => p.1.length) = List.length ∘ Prod.fst := rfl
  conv => rhs; rw [← List.zipIdx_map_fst 0 l, List.map_map]
  apply List.map_congr_left
  intro p _
  simp only [Function.comp]
  rw [spiAnswer_length, List.length_map, D.session_length, spiSent_length, Nat.mul_div_cancel _ hT]

theorem SpiDevice.answers_sessions (l : List (List Nat)) :
    (D.sessions (l.map (spiSent W nb))).map (fun s => spiAnswer W nb (s.map Prod.snd)) = D.answers W nb [] l := by
  unfold SpiDevice.sessions SpiDevice.answers
  rw [List.zipIdx_map, List.map_map, List.map_map]
  apply List.map_congr_left
  intro p _
  simp [Function.comp, List.map_take]

end

/-- Buffers that can be exchanged: with empty packets after full ones only buffers shorter than a packet. -/
def UsbFits (perPacket : Bool) (size : Nat) (zlp : Bool) (d : List Nat) : Prop :=
  d ≠ [] ∧ if perPacket then zlp = false ∨ d.length < size else d.length % size ≠ 0

theorem usbOutPackets_ne (perPacket : Bool) (size : Nat) (hs : 0 < size) (d : List Nat) (hd : d ≠ []) :
    ∀ p ∈ usbOutPackets perPacket size d, p ≠ [] := by
  unfold usbOutPackets
  split
  · exact fun p hp => (usbPackets_length size hs d p hp).1
  · simpa using hd

theorem usbOutPackets_flatten (perPacket : Bool) (size : Nat) (d : List Nat) : (usbOutPackets perPacket size d).flatten = d := by
  unfold usbOutPackets
  split
  · exact usbPackets_flatten size d
  · simp

theorem usb_recv_group (asynchronous perPacket zlp : Bool) (size : Nat) (hs : 0 < size) (d : List Nat) (hd : UsbFits perPacket size zlp d)
    (l : List (List Nat)) (hl : l.map List.length = (usbOutPackets perPacket size d).map List.length) (rest : List (List Nat)) :
    usbRecv asynchronous size (some d.length) (l.flatMap (usbPackets size zlp) ++ rest) = (some (.ok l.flatten), rest) := by
  obtain ⟨h0, h1⟩ := hd
  have hpos := List.length_pos_iff.mpr h0
  have single : ∀ z : Bool, l.map List.length = [d.length] → (z = false ∨ d.length % size ≠ 0) →
      usbRecv asynchronous size (some d.length) (l.flatMap (usbPackets size z) ++ rest) = (some (.ok l.flatten), rest) := by
    intro z h hz
    match l, h with
    | [], h => simp at h
    | _ :: _ :: _, h => simp at h
    | [x], h =>
      have hx : x.length = d.length := by simpa using h
      have := C98_recv_partial asynchronous size z hs x (by intro e; subst e; simp at hx; omega) rest d.length
        (Or.inl ⟨hx.symm, by rw [hx]; exact hz⟩)
      simpa using this
  cases perPacket with
  | false =>
    simp only [Bool.false_eq_true, if_false] at h1
    exact single zlp (by simpa [usbOutPackets] using hl) (.inr h1)
  | true =>
    simp only [if_true] at h1
    by_cases hlt : d.length < size
    · refine single zlp ?_ (.inr (by rw [Nat.mod_eq_of_lt hlt]; omega))
      rw [hl, usbOutPackets, if_pos rfl, usbPackets_short size false d h0 hlt]
      rfl
    · have hz : zlp = false := by rcases h1 with h | h; exacts [h, absurd h hlt]
      subst hz
      rw [usbOutPackets, if_pos rfl] at hl
      obtain ⟨e1, e2⟩ := usbPackets_lengths size hs d l hl
      rw [flatMap_usbPackets size hs l (by
        rw [← e1]
        exact usbPackets_length size hs _)]
      have := C98_recv_partial asynchronous size false hs l.flatten (by intro e; rw [e] at e2; simp at e2; omega) rest d.length
        (Or.inl ⟨e2.symm, .inl rfl⟩)
      rw [e1] at this
      exact this

theorem usb_recv_buffers (D : SpiDevice) (nb : Nat) (hT : 0 < 8 / nb) (asynchronous perPacket zlp : Bool) (size : Nat) (hs : 0 < size)
    (ds : List (List Nat)) (hd : ∀ d ∈ ds, UsbFits perPacket size zlp d) : ∀ before,
    usbRecvAll asynchronous size (ds.map List.length)
      ((D.answers 8 nb before (ds.flatMap (usbOutPackets perPacket size))).flatMap (usbPackets size zlp)) =
      (some (D.buffers nb perPacket size before ds), []) := by
  induction ds with
  | nil => intro before; rfl
  | cons d ds ih =>
    intro before
    rw [List.flatMap_cons, D.answers_append, List.flatMap_append, List.map_cons, usbRecvAll,
      usb_recv_group asynchronous perPacket zlp size hs d (hd d (by simp)) _ (D.answers_lengths 8 nb hT _ _)]
    simp only
    rw [ih fun d hd' => hd d (by simp [hd'])]
    rfl

theorem SpiDevice.buffers_lengths (D : SpiDevice) (nb : Nat) (hT : 0 < 8 / nb) (perPacket : Bool) (size : Nat)
    (ds : List (List Nat)) : ∀ before, (D.buffers nb perPacket size before ds).map List.length = ds.map List.length := by
  induction ds with
  | nil => intro before; rfl
  | cons d ds ih =>
    intro before
    rw [SpiDevice.buffers, List.map_cons, List.map_cons, ih, List.length_flatten, D.answers_lengths 8 nb hT, ← List.length_flatten,
      usbOutPackets_flatten]

end Lambdalib
