import Verif.Model.UsbDevice
import Verif.Spec.UsbDevice

/-! Properties of the generic USB device (C56, C82). -/

namespace Lambdalib

theorem usb_or128 (n : Nat) (h : n < 128) : 0x80 ||| n = 128 + n := by
  have := Nat.two_pow_add_eq_or_of_lt (i := 7) (b := n) h 1
  simpa using this.symm

theorem usbEndpoints_mem (sizes : List (Nat × Nat)) : ∀ k (e : UsbEp), e ∈ usbEndpoints k sizes ↔
    (e.number = 1 + e.stream ∧ k ≤ e.stream ∧ e.size ≠ 0 ∧
      ∃ s, sizes[e.stream - k]? = some s ∧ e.size = if e.isIn then s.1 else s.2) := by
  induction sizes with
  | nil => intro k e; simp [usbEndpoints]
  | cons a l ih =>
    intro k e
    obtain ⟨i, o⟩ := a
    obtain ⟨isIn, number, size, stream⟩ := e
    simp only [usbEndpoints, List.mem_append, ih]
    constructor
    · rintro ((h | h) | ⟨h1, h2, h3, h4⟩)
      · split at h
        · simp at h
          obtain ⟨rfl, rfl, rfl, rfl⟩ := h
          rename_i ho
          exact ⟨rfl, Nat.le_refl _, by simpa using ho, (i, size), by simp, by simp⟩
        · simp at h
      · split at h
        · simp at h
          obtain ⟨rfl, rfl, rfl, rfl⟩ := h
          rename_i ho
          exact ⟨rfl, Nat.le_refl _, by simpa using ho, (size, o), by simp, by simp⟩
        · simp at h
      · refine ⟨h1, by omega, h3, ?_⟩
        rw [show stream - k = (stream - (k + 1)) + 1 by omega]
        exact h4
    · rintro ⟨h1, h2, h3, s, h4, h5⟩
      by_cases hk : stream = k
      · left
        subst hk h1
        simp at h4
        subst h4
        cases isIn
        · left; dsimp only at h5; simp at h5; subst h5; simp [h3]
        · right; dsimp only at h5; simp at h5; subst h5; simp [h3]
      · right
        refine ⟨h1, by omega, h3, s, ?_, h5⟩
        rw [show stream - k = (stream - (k + 1)) + 1 by omega] at h4
        exact h4

theorem usbParse_out (k m : Nat) (h : k + 1 < 16) : usbParse (1 + k, m) = some ⟨false, 1 + k, m⟩ := by
  have h1 : (1 + k) / 16 % 8 = 0 := by omega
  have h2 : (1 + k) % 16 = 1 + k := by omega
  have h3 : ¬ 128 ≤ 1 + k := by omega
  simp only [usbParse]
  rw [if_pos ⟨by omega, h1, by omega⟩, h2, decide_eq_false h3]

theorem usbParse_in (k m : Nat) (h : k + 1 < 16) : usbParse (0x80 ||| (1 + k), m) = some ⟨true, 1 + k, m⟩ := by
  rw [usb_or128 _ (by omega)]
  have h1 : (128 + (1 + k)) / 16 % 8 = 0 := by omega
  have h2 : (128 + (1 + k)) % 16 = 1 + k := by omega
  have h3 : 128 ≤ 128 + (1 + k) := by omega
  simp only [usbParse]
  rw [if_pos ⟨by omega, h1, by omega⟩, h2, decide_eq_true h3]

theorem usbDescriptors_parse (sizes : List (Nat × Nat)) : ∀ k, k + sizes.length < 16 →
    (usbDescriptors k sizes).map usbParse =
      (usbEndpoints k sizes).map fun e => some ⟨e.isIn, e.number, e.size⟩ := by
  induction sizes with
  | nil => intro k _; rfl
  | cons a l ih =>
    intro k hk
    obtain ⟨i, o⟩ := a
    rw [List.length_cons] at hk
    simp only [usbDescriptors, usbEndpoints, List.map_append, ih (k + 1) (by omega)]
    congr 1
    congr 1
    · split
      · simp only [List.map_cons, List.map_nil]; rw [usbParse_out k o (by omega)]
      · rfl
    · split
      · simp only [List.map_cons, List.map_nil]; rw [usbParse_in k i (by omega)]
      · rfl

theorem usbDescriptors_addr (sizes : List (Nat × Nat)) : ∀ k, k + sizes.length < 128 →
    (∀ d ∈ usbDescriptors k sizes, k + 1 ≤ d.1 % 128 ∧ d.1 % 128 ≤ k + sizes.length ∧ d.1 < 256) ∧
    ((usbDescriptors k sizes).map Prod.fst).Nodup := by
  induction sizes with
  | nil => intro k _; simp [usbDescriptors]
  | cons a l ih =>
    intro k hk
    obtain ⟨i, o⟩ := a
    rw [List.length_cons] at hk
    obtain ⟨h1, h2⟩ := ih (k + 1) (by omega)
    have hor := usb_or128 (1 + k) (by omega)
    constructor
    · intro d hd
      simp only [usbDescriptors, List.mem_append] at hd
      rw [List.length_cons]
      rcases hd with (hd | hd) | hd
      · split at hd
        · simp at hd; subst hd; dsimp only; omega
        · simp at hd
      · split at hd
        · simp only [List.mem_singleton] at hd; subst hd; dsimp only; rw [hor]; omega
        · simp at hd
      · have := h1 d hd; omega
    · have hnot : ∀ a, a % 128 = 1 + k → a ∉ (usbDescriptors (k + 1) l).map Prod.fst := by
        intro a ha hm
        obtain ⟨d, hd, rfl⟩ := List.mem_map.mp hm
        have := h1 d hd
        omega
      simp only [usbDescriptors, hor]
      by_cases ho : (o != 0) = true <;> by_cases hi : (i != 0) = true
      · rw [if_pos ho, if_pos hi]
        simp only [List.cons_append, List.nil_append, List.map_cons, List.nodup_cons]
        refine ⟨?_, hnot _ (by omega), h2⟩
        intro hm
        rcases List.mem_cons.mp hm with hm | hm
        · omega
        · exact hnot _ (by omega) hm
      · rw [if_pos ho, if_neg hi]
        simp only [List.cons_append, List.nil_append, List.append_nil, List.map_cons, List.nodup_cons]
        exact ⟨hnot _ (by omega), h2⟩
      · rw [if_neg ho, if_pos hi]
        simp only [List.cons_append, List.nil_append, List.map_cons, List.nodup_cons]
        exact ⟨hnot _ (by omega), h2⟩
      · rw [if_neg ho, if_neg hi]
        simpa using h2

/-- C56: the endpoints instantiated are exactly those asked for, each connected to the stream of its pair, for every list
of sizes. -/
theorem C56_endpoints (sizes : List (Nat × Nat)) :
    (∀ e, UsbWanted sizes e ↔ ∃ s, ⟨e.isIn, e.number, e.size, s⟩ ∈ usbEndpoints 0 sizes) ∧
    (∀ e ∈ usbEndpoints 0 sizes, e.number = e.stream + 1) ∧
    (∀ e ∈ usbEndpoints 0 sizes, ∀ e' ∈ usbEndpoints 0 sizes, e.isIn = e'.isIn → e.number = e'.number → e = e') := by
  refine ⟨?_, ?_, ?_⟩
  · intro e
    constructor
    · rintro ⟨h1, h2, s, h3, h4⟩
      refine ⟨e.number - 1, ?_⟩
      rw [usbEndpoints_mem]
      exact ⟨by dsimp only; omega, Nat.zero_le _, h2, s, h3, h4⟩
    · rintro ⟨s, hs⟩
      rw [usbEndpoints_mem] at hs
      obtain ⟨h1, h2, h3, t, h4, h5⟩ := hs
      dsimp only at *
      refine ⟨by omega, h3, t, ?_, h5⟩
      rw [show e.number - 1 = s - 0 by omega]
      exact h4
  · intro e he
    rw [usbEndpoints_mem] at he
    omega
  · intro e he e' he' h1 h2
    rw [usbEndpoints_mem] at he he'
    obtain ⟨a1, a2, a3, s, a4, a5⟩ := he
    obtain ⟨b1, b2, b3, t, b4, b5⟩ := he'
    have hs : e.stream = e'.stream := by omega
    rw [hs, b4] at a4
    cases a4
    obtain ⟨isIn, number, size, stream⟩ := e
    obtain ⟨isIn', number', size', stream'⟩ := e'
    dsimp only at *
    subst h1 h2 hs
    rw [a5, b5]

/-- C56 (partial): with at most 15 pairs every descriptor has a legal address, and the descriptors are, in order, those of
the endpoints instantiated; the addresses are distinct. The full claim is for every number of pairs. -/
theorem C56_descriptors_partial (sizes : List (Nat × Nat)) (h : sizes.length ≤ 15) :
    (usbDescriptors 0 sizes).map usbParse =
      (usbEndpoints 0 sizes).map (fun e => some ⟨e.isIn, e.number, e.size⟩) ∧
    ((usbDescriptors 0 sizes).map Prod.fst).Nodup :=
  ⟨usbDescriptors_parse sizes 0 (by omega), (usbDescriptors_addr sizes 0 (by omega)).2⟩

/-- C56: the addresses are distinct up to 127 pairs. -/
theorem C56_distinct_partial (sizes : List (Nat × Nat)) (h : sizes.length ≤ 127) :
    ((usbDescriptors 0 sizes).map Prod.fst).Nodup := (usbDescriptors_addr sizes 0 (by omega)).2

/-- C56 is false of the code for sixteen pairs: the last address is not legal; and for 129 pairs an OUT endpoint has the
address of an IN endpoint. The constructor accepts both. -/
theorem C56_descriptors_refuted :
    (∃ sizes, sizes = usbSizes false none 16 none ∧ ∃ d ∈ usbDescriptors 0 sizes, usbParse d = none) ∧
    (∃ sizes, sizes = usbSizes false none 129 none ∧ ¬ ((usbDescriptors 0 sizes).map Prod.fst).Nodup) :=
  ⟨⟨_, rfl, (16, 512), by decide, by decide⟩, ⟨_, rfl, by decide +kernel⟩⟩

/-- C56: without a size list every pair has two endpoints of the packet size: the given one, or 64 with a full speed
connector and 512 otherwise. -/
theorem C56_default_sizes (hasDn : Bool) (mp : Option Nat) (pairs : Nat) :
    (usbSizes hasDn mp pairs none).length = pairs ∧
    ∀ s ∈ usbSizes hasDn mp pairs none, s.1 = s.2 ∧
      (∀ m, mp = some m → s.1 = m) ∧ (mp = none → s.1 = if hasDn then 64 else 512) := by
  refine ⟨by simp [usbSizes], ?_⟩
  intro s hs
  simp only [usbSizes, List.mem_map] at hs
  obtain ⟨_, _, rfl⟩ := hs
  cases mp <;> simp

example : usbDescriptors 0 [(512, 512), (0, 64), (64, 0)] = [(1, 512), (129, 512), (2, 64), (131, 64)] := by decide
example : usbEndpoints 0 [(512, 512), (0, 64), (64, 0)] =
    [⟨false, 1, 512, 0⟩, ⟨true, 1, 512, 0⟩, ⟨false, 2, 64, 1⟩, ⟨true, 3, 64, 2⟩] := by decide
example : UsbWanted [(512, 512), (0, 64), (64, 0)] ⟨true, 3, 64⟩ := ⟨by decide, by decide, (64, 0), rfl, rfl⟩

/-- C82: the host opens the device asked for: the one with matching vendor and product that has exactly `idx` matching
devices before it in the list, and none if there are no more than `idx`. -/
theorem C82_open (vid pid idx : Nat) (l : List (Nat × Nat)) :
    (∀ pos, usbOpen vid pid idx 0 0 l = some pos ↔
      (l[pos]? = some (vid, pid) ∧ (l.take pos).count (vid, pid) = idx)) ∧
    (usbOpen vid pid idx 0 0 l = none ↔ l.count (vid, pid) ≤ idx) := by
  have key : ∀ (l : List (Nat × Nat)) index p0, index ≤ idx →
      (∀ pos, usbOpen vid pid idx index p0 l = some (p0 + pos) ↔
        (l[pos]? = some (vid, pid) ∧ index + (l.take pos).count (vid, pid) = idx)) ∧
      (∀ pos, usbOpen vid pid idx index p0 l = some pos → p0 ≤ pos) ∧
      (usbOpen vid pid idx index p0 l = none ↔ index + l.count (vid, pid) ≤ idx) := by
    intro l
    induction l with
    | nil => intro index p0 hi; simpa [usbOpen] using hi
    | cons a l ih =>
      intro index p0 hi
      obtain ⟨v, p⟩ := a
      by_cases hm : v = vid ∧ p = pid
      · obtain ⟨rfl, rfl⟩ := hm
        by_cases hx : index = idx
        · subst hx
          simp only [usbOpen, beq_self_eq_true, Bool.and_self, if_true]
          refine ⟨?_, by simp, by simp⟩
          intro pos
          cases pos with
          | zero => simp
          | succ pos => simp
        · simp only [usbOpen, beq_self_eq_true, Bool.and_self, if_true]
          rw [if_neg (by simpa using hx)]
          obtain ⟨i1, i2, i3⟩ := ih (index + 1) (p0 + 1) (by omega)
          refine ⟨?_, fun pos hp => by have := i2 pos hp; omega, ?_⟩
          · intro pos
            cases pos with
            | zero =>
              constructor
              · intro hp; have := i2 _ hp; omega
              · rintro ⟨_, h2⟩; simp at h2; exact absurd h2 hx
            | succ pos =>
              rw [show p0 + (pos + 1) = p0 + 1 + pos by omega, i1 pos]
              simp only [List.getElem?_cons_succ, List.take_succ_cons, List.count_cons_self]
              constructor <;> rintro ⟨h1, h2⟩ <;> exact ⟨h1, by omega⟩
          · rw [i3, List.count_cons_self]; omega
      · have hne : ((v, p) : Nat × Nat) ≠ (vid, pid) := by
          intro h; exact hm ⟨congrArg Prod.fst h, congrArg Prod.snd h⟩
        have hb : ¬ (v == vid && p == pid) = true := by simpa using hm
        simp only [usbOpen]
        rw [if_neg hb]
        obtain ⟨i1, i2, i3⟩ := ih index (p0 + 1) hi
        refine ⟨?_, fun pos hp => by have := i2 pos hp; omega, ?_⟩
        · intro pos
          cases pos with
          | zero =>
            constructor
            · intro hp; have := i2 _ hp; omega
            · rintro ⟨h1, _⟩; simp at h1; exact absurd h1 hm
          | succ pos =>
            rw [show p0 + (pos + 1) = p0 + 1 + pos by omega, i1 pos]
            simp only [List.getElem?_cons_succ, List.take_succ_cons, List.count_cons_of_ne hne]
        · rw [i3, List.count_cons_of_ne hne]
  obtain ⟨k1, k2, k3⟩ := key l 0 0 (Nat.zero_le _)
  refine ⟨fun pos => ?_, by simpa using k3⟩
  have := k1 pos
  simpa using this

example : usbOpen 0xffff 0x1234 1 0 0 [(1, 2), (0xffff, 0x1234), (0xffff, 0x1235), (0xffff, 0x1234)] = some 3 := by decide
example : usbOpen 0xffff 0x1234 2 0 0 [(1, 2), (0xffff, 0x1234), (0xffff, 0x1235), (0xffff, 0x1234)] = none := by decide

end Lambdalib
