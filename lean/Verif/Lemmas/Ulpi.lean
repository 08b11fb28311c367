import Verif.Spec.Ulpi
import Verif.Model.Ulpi

/-! Helper lemmas about the ULPI specification functions and the one-step behaviour of the components. -/

namespace Lambdalib

theorem and_48_eq_zero (v : Nat) : (v &&& 0x30 = 0) ↔ (v.testBit 4 = false ∧ v.testBit 5 = false) := by
  constructor
  · intro h
    have h4 : (v &&& 0x30).testBit 4 = false := by rw [h]; rfl
    have h5 : (v &&& 0x30).testBit 5 = false := by rw [h]; rfl
    rw [Nat.testBit_and] at h4 h5
    have a : (0x30 : Nat).testBit 4 = true := by decide
    have b : (0x30 : Nat).testBit 5 = true := by decide
    rw [a, Bool.and_true] at h4; rw [b, Bool.and_true] at h5
    exact ⟨h4, h5⟩
  · rintro ⟨h4, h5⟩
    apply Nat.eq_of_testBit_eq
    intro i
    rw [Nat.testBit_and, Nat.zero_testBit]
    match i with
    | 0 => simp [show (0x30 : Nat).testBit 0 = false by decide]
    | 1 => simp [show (0x30 : Nat).testBit 1 = false by decide]
    | 2 => simp [show (0x30 : Nat).testBit 2 = false by decide]
    | 3 => simp [show (0x30 : Nat).testBit 3 = false by decide]
    | 4 => simp [h4]
    | 5 => simp [h5]
    | i + 6 =>
      have : (0x30 : Nat).testBit (i + 6) = false :=
        Nat.testBit_lt_two_pow (Nat.lt_of_lt_of_le (show 0x30 < 2 ^ 6 by decide)
          (Nat.pow_le_pow_right (by decide) (by omega)))
      simp [this]

/-- The byte not yet delivered. -/
def rxPending (l : List RxItem) : Option Nat :=
  match (l.filter (fun e => !e.active)).getLast? with
  | some (.data b) => some b
  | _ => none

theorem rxPending_snoc (l : List RxItem) (e : RxItem) :
    rxPending (l ++ [e]) = (if e.active then rxPending l else match e with | .data b => some b | .cmd _ => none) := by
  unfold rxPending
  rw [List.filter_append]
  by_cases h : e.active = true
  · simp [h]
  · simp only [Bool.not_eq_true] at h
    simp only [h, List.filter_cons, Bool.not_false, if_true, List.filter_nil, List.getLast?_concat]
    cases e <;> simp

theorem rxPackets_none {l : List RxItem} (h : l.find? (fun e => !e.active) = none) :
    rxPackets l = [] ∧ l.filter (fun e => !e.active) = [] := by
  induction l with
  | nil => exact ⟨rfl, rfl⟩
  | cons e l ih =>
    rw [List.find?_cons] at h
    split at h
    · exact absurd h (by simp)
    · rename_i he
      obtain ⟨h1, h2⟩ := ih h
      refine ⟨?_, by rw [List.filter_cons, he]; simpa using h2⟩
      cases e with
      | data b => simp [RxItem.active] at he
      | cmd v => exact h1

theorem rxPackets_snoc (l : List RxItem) (e : RxItem) :
    rxPackets (l ++ [e]) = rxPackets l ++
      (match rxPending l with | some b => if e.active then [] else [(b, e.inactive)] | none => []) := by
  induction l with
  | nil => cases e <;> rfl
  | cons a l ih =>
    cases a with
    | cmd v =>
      show rxPackets (l ++ [e]) = _
      rw [ih]
      show _ = rxPackets l ++ _
      congr 1
      by_cases hv : (RxItem.cmd v).active = true
      · unfold rxPending; rw [List.filter_cons]; simp [hv]
      · unfold rxPending
        rw [List.filter_cons]
        simp only [Bool.not_eq_true] at hv
        simp only [hv, Bool.not_false, if_true]
        cases hl : l.filter (fun e => !e.active) with
        | nil => simp
        | cons b t => simp [List.getLast?_cons]
    | data b =>
      have hact : (RxItem.data b).active = false := rfl
      cases hf : l.find? (fun e => !e.active) with
      | none =>
        obtain ⟨h1, h2⟩ := rxPackets_none hf
        have hp : rxPending (.data b :: l) = some b := by
          unfold rxPending; rw [List.filter_cons, h2]; simp [hact]
        have hp' : rxPending l = none := by unfold rxPending; rw [h2]; rfl
        have hb : rxPackets (.data b :: l) = [] := by simp only [rxPackets, hf]
        rw [hp, hb]
        have hr : rxPackets (l ++ [e]) = [] := by rw [ih, hp', h1]; rfl
        show rxPackets (.data b :: (l ++ [e])) = _
        simp only [rxPackets, List.find?_append, hf, Option.none_or, hr]
        by_cases he : e.active = true
        · simp [he]
        · simp only [Bool.not_eq_true] at he; simp [he]
      | some c =>
        have hne : l.filter (fun e => !e.active) ≠ [] := by
          intro h
          have := List.mem_of_find?_eq_some hf
          have hc := List.find?_some hf
          have : c ∈ l.filter (fun e => !e.active) := List.mem_filter.mpr ⟨this, hc⟩
          rw [h] at this; exact absurd this (by simp)
        have hp : rxPending (.data b :: l) = rxPending l := by
          unfold rxPending
          rw [List.filter_cons]
          simp only [hact, Bool.not_false, if_true]
          cases hl : l.filter (fun e => !e.active) with
          | nil => exact absurd hl hne
          | cons x t => simp [List.getLast?_cons]
        rw [hp]
        show rxPackets (.data b :: (l ++ [e])) = _
        simp only [rxPackets, List.find?_append, hf, Option.some_or, ih, List.cons_append]

/-- One step of the splitter against the specification. -/
def splitRel (s : USplitS) (items : List RxItem) (emitted : List (Nat × Bool)) : Prop :=
  emitted ++ (if s.valid then [(s.data, s.last)] else []) = rxPackets items ∧
  rxPending items = (if s.bufValid then some s.bufData else none)

def splitItem (x : USplitIn) : List RxItem :=
  if x.valid then [if x.cmd then .cmd x.data else .data x.data] else []

theorem splitRel_step {s : USplitS} {items emitted} (h : splitRel s items emitted) (x : USplitIn) :
    splitRel (splitterUlpi.next s x) (items ++ splitItem x)
      (emitted ++ (if s.valid then [(s.data, s.last)] else [])) := by
  obtain ⟨h1, h2⟩ := h
  unfold splitRel
  rw [h1]
  cases hv : x.valid with
  | false => simp [splitItem, splitterUlpi, hv, h2]
  | true =>
    cases hc : x.cmd with
    | false =>
      simp only [splitItem, hv, hc, if_true, Bool.false_eq_true, if_false]
      rw [rxPackets_snoc, rxPending_snoc, h2]
      cases hb : s.bufValid <;> simp [splitterUlpi, hv, hc, hb, RxItem.active, RxItem.inactive]
    | true =>
      simp only [splitItem, hv, hc, if_true]
      rw [rxPackets_snoc, rxPending_snoc, h2]
      by_cases h0 : x.data &&& 0x30 = 0
      · obtain ⟨a, b⟩ := (and_48_eq_zero _).mp h0
        cases hb : s.bufValid <;> simp [splitterUlpi, hv, hc, hb, RxItem.active, RxItem.inactive, h0, a, b]
      · have : (x.data.testBit 4 || x.data.testBit 5) = true := by
          cases ha : x.data.testBit 4 <;> cases hb : x.data.testBit 5 <;> simp_all [and_48_eq_zero]
        cases hb : s.bufValid <;> simp [splitterUlpi, hv, hc, hb, RxItem.active, h0, this]

/-- Whether a packet starts after the given beats. -/
def txStart (s : Bool) (l : List (Nat × Bool)) : Bool := match l.getLast? with | none => s | some x => x.2

theorem txStart_cons (s : Bool) (x : Nat × Bool) (l) : txStart s (x :: l) = txStart x.2 l := by
  unfold txStart
  rw [List.getLast?_cons]
  cases l.getLast? <;> rfl

theorem txPackets_snoc (s : Bool) (l : List (Nat × Bool)) (x : Nat × Bool) :
    txPackets s (l ++ [x]) = txPackets s l ++ [(if txStart s l then 0x40 + x.1 % 16 else x.1, x.2)] := by
  induction l generalizing s with
  | nil => rfl
  | cons a l ih =>
    show (_ :: txPackets a.2 (l ++ [x])) = (_ :: txPackets a.2 l) ++ _
    rw [ih, txStart_cons]
    rfl

theorem txStart_snoc (s : Bool) (l : List (Nat × Bool)) (x : Nat × Bool) : txStart s (l ++ [x]) = x.2 := by
  simp [txStart]

end Lambdalib
