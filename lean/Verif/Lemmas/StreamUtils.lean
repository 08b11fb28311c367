import Verif.Model.StreamUtils
import Verif.Spec.StreamUtils
import Verif.Lemmas.List
import Verif.Lemmas.Time

/-! Helper lemmas for the stream utilities. -/

namespace Lambdalib

theorem stitched_snoc {α : Type} (count : Nat) (l : List (Beat α)) (b : Beat α) :
    stitched count (l ++ [b]) = stitched count l ++
      [{ first := b.first && decide (firsts l % count = 0)
         last := b.last && decide (lasts l % count = count - 1)
         payload := b.payload }] := by
  unfold stitched
  rw [List.mapIdx_append]
  congr 1
  · apply List.ext_getElem
    · simp
    · intro k h1 h2
      simp only [List.length_mapIdx] at h1
      simp [List.take_append_of_le_length (Nat.le_of_lt h1)]
  · simp

theorem stitched_append {α : Type} (count : Nat) (l m : List (Beat α)) :
    stitched count (l ++ m) = stitched count l ++ m.mapIdx fun k b =>
      { first := b.first && decide ((firsts l + firsts (m.take k)) % count = 0)
        last := b.last && decide ((lasts l + lasts (m.take k)) % count = count - 1)
        payload := b.payload } := by
  unfold stitched
  rw [List.mapIdx_append]
  congr 1
  · apply List.ext_getElem
    · simp
    · intro k h1 h2
      simp only [List.length_mapIdx] at h1
      simp [List.take_append_of_le_length (Nat.le_of_lt h1)]
  · apply List.ext_getElem
    · simp
    · intro k h1 h2
      simp [firsts, lasts, List.take_append, List.take_of_length_le]
      constructor <;> congr

theorem step_mod {count c x : Nat} (hc : 1 ≤ count) (hx : x = c % count) :
    (if x < count - 1 then truncRange count (x + 1) else 0) = (c + 1) % count := by
  have hlt : x < count := by rw [hx]; exact Nat.mod_lt _ hc
  rw [Nat.add_mod, ← hx]
  by_cases h1 : count = 1
  · subst h1; simp; omega
  rw [Nat.mod_eq_of_lt (show 1 < count by omega)]
  by_cases h : x < count - 1
  · rw [if_pos h, truncRange_of_lt (by omega), Nat.mod_eq_of_lt (by omega)]
  · have : x + 1 = count := by omega
    rw [if_neg h, this, Nat.mod_self]

theorem firsts_packet_take {α : Type} {p : List (Beat α)} (hp : IsPacket p) (k : Nat)
    (hk : k < p.length) : firsts (p.take k) = if k = 0 then 0 else 1 := by
  induction k with
  | zero => simp [firsts]
  | succ k ih =>
    have ihk := ih (by omega)
    unfold firsts at *
    rw [List.take_add_one, List.getElem?_eq_getElem (by omega), List.countP_append, ihk]
    have := (hp.2 k (by omega)).1
    by_cases h0 : k = 0
    · subst h0; simpa using this
    · have hf : p[k].first = false := by
        rw [← Bool.not_eq_true]; exact fun h => h0 (this.1 h)
      simp [h0, hf]

theorem lasts_packet_take {α : Type} {p : List (Beat α)} (hp : IsPacket p) (k : Nat)
    (hk : k < p.length) : lasts (p.take k) = 0 := by
  induction k with
  | zero => simp [lasts]
  | succ k ih =>
    have ihk := ih (by omega)
    unfold lasts at *
    rw [List.take_add_one, List.getElem?_eq_getElem (by omega), List.countP_append, ihk]
    have := (hp.2 k (by omega)).2
    have hf : p[k].last = false := by
      rw [← Bool.not_eq_true]; exact fun h => by have := this.1 h; omega
    simp [hf]

theorem firsts_packet {α : Type} {p : List (Beat α)} (hp : IsPacket p) : firsts p = 1 := by
  have hpos : 0 < p.length := List.length_pos_iff.2 hp.1
  have h : p = p.take (p.length - 1) ++ [p[p.length - 1]] := by
    rw [← List.dropLast_eq_take, ← List.getLast_eq_getElem hp.1, List.dropLast_append_getLast]
  have h1 := firsts_packet_take hp (p.length - 1) (by omega)
  have h2 := (hp.2 (p.length - 1) (by omega)).1
  rw [h]
  unfold firsts at *
  rw [List.countP_append, h1]
  by_cases h0 : p.length - 1 = 0
  · simp only [h0, if_true] at *
    simpa using h2
  · have hf : p[p.length - 1].first = false := by
      rw [← Bool.not_eq_true]; exact fun h => h0 (h2.1 h)
    simp [h0, hf]

theorem lasts_packet {α : Type} {p : List (Beat α)} (hp : IsPacket p) : lasts p = 1 := by
  have hpos : 0 < p.length := List.length_pos_iff.2 hp.1
  have h : p = p.take (p.length - 1) ++ [p[p.length - 1]] := by
    rw [← List.dropLast_eq_take, ← List.getLast_eq_getElem hp.1, List.dropLast_append_getLast]
  have h1 := lasts_packet_take hp (p.length - 1) (by omega)
  have h2 := ((hp.2 (p.length - 1) (by omega)).2).2 rfl
  rw [h]
  unfold lasts at *
  rw [List.countP_append, h1]
  simpa using h2

theorem allBelow_iff {n : Nat} {f : Nat → Bool} : allBelow n f = true ↔ ∀ k < n, f k = true := by
  simp [allBelow]

theorem anyBelow_iff {n : Nat} {f : Nat → Bool} : anyBelow n f = true ↔ ∃ k < n, f k = true := by
  simp [anyBelow]

theorem boundPackets_append {α : Type} (count : Nat) (l : List (Beat α)) :
    ∀ (c : Nat) (m : List (Beat α)), boundPackets count c (l ++ m) =
      boundPackets count c l ++ boundPackets count
        (l.foldl (fun c b => if c + 1 = count ∨ b.last = true then 0 else c + 1) c) m := by
  induction l with
  | nil => intro c m; simp [boundPackets]
  | cons b l ih =>
    intro c m
    simp only [List.cons_append, boundPackets, List.foldl_cons]
    split <;> simp [ih]

end Lambdalib
