import Verif.Model.Hexdump
import Verif.Spec.Hexdump
import Mathlib.Data.Nat.Digits.Lemmas

/-! C83: the hex dump. -/

namespace Lambdalib

theorem linesOf_ne_nil (l : List Char) : linesOf l ≠ [] := by
  induction l with
  | nil => simp [linesOf]
  | cons c l ih =>
    simp only [linesOf]
    split
    · contradiction
    · split <;> simp

theorem linesOf_append (a b : List Char) (h : '\n' ∉ a) : linesOf (a ++ '\n' :: b) = a :: linesOf b := by
  induction a with
  | nil =>
    simp only [List.nil_append, linesOf]
    split
    · rename_i h; exact absurd h (linesOf_ne_nil b)
    · rename_i h; simp [h]
  | cons c a ih =>
    simp only [List.mem_cons, not_or] at h
    simp only [List.cons_append, linesOf, ih h.2]
    rw [if_neg (fun e => h.1 e.symm)]

theorem hexChar_val (d : Nat) (h : d < 16) : hexDigitVal (hexChar d) = d := by
  have : ∀ d < 16, hexDigitVal (hexChar d) = d := by decide +kernel
  exact this d h

theorem hexChar_ne (d : Nat) : hexChar d ≠ '\n' ∧ hexChar d ≠ ':' := by
  by_cases h : d < 16
  · have : ∀ d < 16, hexChar d ≠ '\n' ∧ hexChar d ≠ ':' := by decide +kernel
    exact this d h
  · have : hexChar d = '0' := by
      have hl : "0123456789abcdef".toList.length = 16 := by decide +kernel
      unfold hexChar
      rw [List.getD_eq_getElem?_getD, List.getElem?_eq_none (by omega)]
      rfl
    rw [this]; decide

theorem hexDigits_ne (n : Nat) : '\n' ∉ hexDigits n ∧ ':' ∉ hexDigits n := by
  constructor <;> intro h <;> obtain ⟨d, -, hd⟩ := List.mem_map.mp h
  · exact (hexChar_ne d).1 hd
  · exact (hexChar_ne d).2 hd

theorem hexDigits_val (n : Nat) : hexVal (hexDigits n) = n := by
  unfold hexVal hexDigits
  rw [List.foldl_map, List.foldl_reverse]
  have key : ∀ l : List Nat, (∀ d ∈ l, d < 16) →
      l.foldr (fun c v => 16 * v + hexDigitVal (hexChar c)) 0 = Nat.ofDigits 16 l := by
    intro l
    induction l with
    | nil => intro _; rfl
    | cons a l ih =>
      intro h
      rw [List.foldr_cons, ih (fun d hd => h d (List.mem_cons_of_mem _ hd)), Nat.ofDigits_cons,
        hexChar_val a (h a List.mem_cons_self)]
      omega
  rw [key _ (fun d hd => Nat.digits_lt_base (by omega) hd), Nat.ofDigits_digits]

theorem pyHex_val (n : Nat) (h : n ≠ 0) : hexVal ((pyHex n).drop 2) = n := by
  simp only [pyHex, if_neg h, List.drop_succ_cons, List.drop_zero]
  exact hexDigits_val n

theorem pyHex_ne (n : Nat) : '\n' ∉ pyHex n ∧ ':' ∉ pyHex n := by
  by_cases h : n = 0
  · subst h; decide
  · simp only [pyHex, if_neg h]
    have := hexDigits_ne n
    constructor
    · simp [this.1]
    · simp [this.2]

/-- A byte is two digits. -/
theorem pyHex2_byte (b : Nat) (h : b < 256) :
    ∃ c d, pyHex2 b = [c, d] ∧ hexVal [c, d] = b ∧ c ≠ '\n' ∧ d ≠ '\n' := by
  have : ∀ b < 256, pyHex2 b = [hexChar (b / 16), hexChar (b % 16)] ∧
      hexVal [hexChar (b / 16), hexChar (b % 16)] = b := by decide +kernel
  exact ⟨_, _, (this b h).1, (this b h).2, (hexChar_ne _).1, (hexChar_ne _).1⟩

/-- The bytes of a row. -/
def rowText (q : List Nat) : List Char := (q.map fun b => pyHex2 b ++ [' ']).flatten

theorem rowText_nl (q : List Nat) (h : ∀ b ∈ q, b < 256) : '\n' ∉ rowText q := by
  intro hm
  simp only [rowText, List.mem_flatten, List.mem_map] at hm
  obtain ⟨t, ⟨b, hb, rfl⟩, ht⟩ := hm
  obtain ⟨c, d, h1, -, h3, h4⟩ := pyHex2_byte b (h b hb)
  rw [h1] at ht
  simp at ht
  rcases ht with ht | ht
  · exact h3 ht.symm
  · exact h4 ht.symm

theorem dumpBytes_rowText (q : List Nat) (h : ∀ b ∈ q, b < 256) : dumpBytes (rowText q) = q := by
  induction q with
  | nil => rfl
  | cons b q ih =>
    obtain ⟨c, d, h1, h2, -, -⟩ := pyHex2_byte b (h b List.mem_cons_self)
    have : rowText (b :: q) = c :: d :: ' ' :: rowText q := by simp [rowText, h1]
    rw [this, dumpBytes, h2, ih (fun x hx => h x (List.mem_cons_of_mem _ hx))]

theorem dumpRow_text (lab : List Char) (hl : ':' ∉ lab) (q : List Nat) (h : ∀ b ∈ q, b < 256) :
    dumpRow (lab ++ ':' :: ' ' :: rowText q) = (hexVal (lab.drop 2), q) := by
  have hp : ∀ c ∈ lab, decide (c ≠ ':') = true := by
    intro c hc; simp; rintro rfl; exact hl hc
  unfold dumpRow
  rw [List.takeWhile_append_of_pos hp, List.dropWhile_append_of_pos hp]
  simp [dumpBytes_rowText q h]

/-- Lines after the header. -/
theorem hexdump_lines (l : List Nat) : ∀ (i r : Nat) (lab : List Char) (q : List Nat), '\n' ∉ lab → q.length = i % 16 →
    (∀ b ∈ q ++ l, b < 256) → 16 * r ≤ (q ++ l).length →
    (linesOf (lab ++ ':' :: ' ' :: (rowText q ++ (hexdumpBody i l ++ ['\n']))))[r]? =
      some ((if r = 0 then lab else pyHex (16 * (i / 16 + r))) ++ ':' :: ' ' ::
        rowText (((q ++ l).drop (16 * r)).take 16)) := by
  induction l with
  | nil =>
    intro i r lab q hlab hq hb hr
    rw [List.append_nil] at hr hb
    have hr0 : r = 0 := by omega
    subst hr0
    have hn : '\n' ∉ lab ++ ':' :: ' ' :: rowText q := by
      have := rowText_nl q hb
      simp [hlab, this]
    have := linesOf_append _ [] hn
    simp only [hexdumpBody, List.nil_append, List.append_nil]
    rw [show lab ++ ':' :: ' ' :: (rowText q ++ ['\n']) = (lab ++ ':' :: ' ' :: rowText q) ++ '\n' :: [] by simp, this]
    simp only [List.getElem?_cons_zero, if_true, Nat.mul_zero, List.drop_zero]
    rw [List.take_of_length_le (by omega)]
  | cons b l ih =>
    intro i r lab q hlab hq hb hr
    have hcat : q ++ b :: l = (q ++ [b]) ++ l := by simp
    have hrow : rowText (q ++ [b]) = rowText q ++ (pyHex2 b ++ [' ']) := by simp [rowText]
    by_cases hi : i % 16 = 15
    · have hbody : hexdumpBody i (b :: l) = pyHex2 b ++ [' '] ++ '\n' :: (pyHex (i + 1) ++ [':', ' ']) ++ hexdumpBody (i + 1) l := by
        simp [hexdumpBody, hi]
      have hn : '\n' ∉ lab ++ ':' :: ' ' :: rowText (q ++ [b]) := by
        have := rowText_nl (q ++ [b]) (fun c hc => hb c (by rw [hcat]; exact List.mem_append_left _ hc))
        simp [hlab, this]
      have hsplit : lab ++ ':' :: ' ' :: (rowText q ++ (hexdumpBody i (b :: l) ++ ['\n'])) =
          (lab ++ ':' :: ' ' :: rowText (q ++ [b])) ++
            '\n' :: (pyHex (i + 1) ++ ':' :: ' ' :: (rowText [] ++ (hexdumpBody (i + 1) l ++ ['\n']))) := by
        rw [hbody, hrow]; simp [rowText]
      rw [hsplit, linesOf_append _ _ hn]
      have hlen : (q ++ [b]).length = 16 := by simp; omega
      cases r with
      | zero =>
        simp only [List.getElem?_cons_zero, if_true, Nat.mul_zero, List.drop_zero]
        rw [hcat, List.take_append_of_le_length (by omega), List.take_of_length_le (by omega)]
      | succ r =>
        rw [List.getElem?_cons_succ, ih (i + 1) r (pyHex (i + 1)) [] (pyHex_ne _).1 (by simp; omega)
          (fun c hc => hb c (by rw [hcat]; exact List.mem_append_right _ (by simpa using hc)))
          (by rw [hcat, List.length_append, hlen] at hr; simp; omega)]
        have hdrop : (q ++ b :: l).drop (16 * (r + 1)) = l.drop (16 * r) := by
          rw [hcat, show 16 * (r + 1) = (q ++ [b]).length + 16 * r by omega, List.drop_append]
          simp
        rw [hdrop, List.nil_append]
        congr 2
        have hd : (i + 1) / 16 = i / 16 + 1 := by omega
        by_cases hr0 : r = 0
        · subst hr0
          rw [if_pos rfl, if_neg (by omega)]
          congr 1; omega
        · rw [if_neg hr0, if_neg (by omega)]
          congr 1; omega
    · have hbody : hexdumpBody i (b :: l) = pyHex2 b ++ [' '] ++ hexdumpBody (i + 1) l := by
        simp [hexdumpBody, hi]
      have := ih (i + 1) r lab (q ++ [b]) hlab (by simp; omega) (by rw [← hcat]; exact hb) (by rw [← hcat]; exact hr)
      rw [hrow, ← hcat, show (i + 1) / 16 = i / 16 by omega] at this
      rw [hbody, ← this]
      simp

theorem hexdumpHead_nl : '\n' ∉ hexdumpHead := by decide +kernel

/-- The text of a row. -/
theorem hexdump_row (data : List Nat) (hb : ∀ b ∈ data, b < 256) (r : Nat) (hr : 16 * r ≤ data.length) :
    (linesOf (hexdump data))[r + 1]? = some ((if r = 0 then ['0', 'x', '0', '0'] else pyHex (16 * r)) ++ ':' :: ' ' ::
      rowText ((data.drop (16 * r)).take 16)) := by
  have hh : hexdump data = hexdumpHead ++
      '\n' :: (['0', 'x', '0', '0'] ++ ':' :: ' ' :: (rowText [] ++ (hexdumpBody 0 data ++ ['\n']))) := by
    simp [hexdump, rowText]
  rw [hh, linesOf_append _ _ hexdumpHead_nl, List.getElem?_cons_succ,
    hexdump_lines data 0 r ['0', 'x', '0', '0'] [] (by decide) rfl (by simpa using hb) (by simpa using hr)]
  simp

/-- C83: row `r` of the dump (after the heading) shows the address `16 r` and the bytes at this and the next fifteen
addresses. -/
theorem C83_rows (data : List Nat) (hb : ∀ b ∈ data, b < 256) (r : Nat) (hr : 16 * r ≤ data.length) :
    ((linesOf (hexdump data))[r + 1]?).map dumpRow = some (16 * r, (data.drop (16 * r)).take 16) := by
  rw [hexdump_row data hb r hr, Option.map_some]
  congr 1
  have hq : ∀ b ∈ (data.drop (16 * r)).take 16, b < 256 :=
    fun b h => hb b (List.mem_of_mem_drop (List.mem_of_mem_take h))
  by_cases h0 : r = 0
  · subst h0
    rw [if_pos rfl, dumpRow_text _ (by decide) _ hq]
    rfl
  · rw [if_neg h0, dumpRow_text _ (pyHex_ne _).2 _ hq, pyHex_val _ (by omega)]

theorem rowText_get (q : List Nat) (h : ∀ b ∈ q, b < 256) (j : Nat) (hj : j < q.length) :
    ∃ c d, (rowText q)[3 * j]? = some c ∧ (rowText q)[3 * j + 1]? = some d ∧ (rowText q)[3 * j + 2]? = some ' ' ∧
      hexVal [c, d] = q[j] := by
  induction q generalizing j with
  | nil => simp at hj
  | cons b q ih =>
    obtain ⟨c, d, h1, h2, -, -⟩ := pyHex2_byte b (h b List.mem_cons_self)
    have e : rowText (b :: q) = c :: d :: ' ' :: rowText q := by simp [rowText, h1]
    cases j with
    | zero => exact ⟨c, d, by rw [e]; rfl, by rw [e]; rfl, by rw [e]; rfl, h2⟩
    | succ j =>
      obtain ⟨c', d', g1, g2, g3, g4⟩ := ih (fun x hx => h x (List.mem_cons_of_mem _ hx)) j (by simpa using hj)
      refine ⟨c', d', ?_, ?_, ?_, by simpa using g4⟩
      · rw [e, show 3 * (j + 1) = 3 * j + 1 + 1 + 1 by omega]; simpa using g1
      · rw [e, show 3 * (j + 1) + 1 = 3 * j + 1 + 1 + 1 + 1 by omega]; simpa using g2
      · rw [e, show 3 * (j + 1) + 2 = 3 * j + 2 + 1 + 1 + 1 by omega]; simpa using g3

/-- C83: the heading shows the last digit of the address of each byte above the byte, for addresses below 256: in column `7 + 3 j` the
heading has the digit `j` and blanks beside it, and the byte at `16 r + j` is in columns `6 + 3 j` and `7 + 3 j` of its row. -/
theorem C83_heading (data : List Nat) (hb : ∀ b ∈ data, b < 256) (r j : Nat) (hr : r < 16) (hj : j < 16)
    (h : 16 * r + j < data.length) :
    ∃ head row c d x, (linesOf (hexdump data))[0]? = some head ∧ (linesOf (hexdump data))[r + 1]? = some row ∧
      head[6 + 3 * j]? = some ' ' ∧ head[7 + 3 * j]? = some x ∧ head[8 + 3 * j]? = some ' ' ∧ x = hexChar j ∧ hexDigitVal x = j ∧
      row[6 + 3 * j]? = some c ∧ row[7 + 3 * j]? = some d ∧ row[8 + 3 * j]? = some ' ' ∧ hexVal [c, d] = data[16 * r + j] := by
  have hhead : (linesOf (hexdump data))[0]? = some hexdumpHead := by
    unfold hexdump
    rw [linesOf_append _ _ hexdumpHead_nl]
    rfl
  have hq : ∀ b ∈ (data.drop (16 * r)).take 16, b < 256 :=
    fun b h => hb b (List.mem_of_mem_drop (List.mem_of_mem_take h))
  obtain ⟨c, d, g1, g2, g3, g4⟩ := rowText_get _ hq j (by simp; omega)
  have hlab : ((if r = 0 then ['0', 'x', '0', '0'] else pyHex (16 * r)) ++ [':', ' ']).length = 6 := by
    have : ∀ r < 16, ((if r = 0 then ['0', 'x', '0', '0'] else pyHex (16 * r)) ++ [':', ' ']).length = 6 := by decide +kernel
    exact this r hr
  have hc : ∀ j < 16, hexdumpHead[6 + 3 * j]? = some ' ' ∧ hexdumpHead[7 + 3 * j]? = some (hexChar j) ∧
      hexdumpHead[8 + 3 * j]? = some ' ' := by decide +kernel
  obtain ⟨c1, c2, c3⟩ := hc j hj
  refine ⟨_, _, c, d, hexChar j, hhead, hexdump_row data hb r (by omega), c1, c2, c3, rfl, hexChar_val j hj, ?_, ?_, ?_, ?_⟩
  · rw [show ∀ l : List Char, l ++ ':' :: ' ' :: rowText ((data.drop (16 * r)).take 16) =
      (l ++ [':', ' ']) ++ rowText ((data.drop (16 * r)).take 16) by simp,
      List.getElem?_append_right (by omega), hlab, show 6 + 3 * j - 6 = 3 * j by omega]
    exact g1
  · rw [show ∀ l : List Char, l ++ ':' :: ' ' :: rowText ((data.drop (16 * r)).take 16) =
      (l ++ [':', ' ']) ++ rowText ((data.drop (16 * r)).take 16) by simp,
      List.getElem?_append_right (by omega), hlab, show 7 + 3 * j - 6 = 3 * j + 1 by omega]
    exact g2
  · rw [show ∀ l : List Char, l ++ ':' :: ' ' :: rowText ((data.drop (16 * r)).take 16) =
      (l ++ [':', ' ']) ++ rowText ((data.drop (16 * r)).take 16) by simp,
      List.getElem?_append_right (by omega), hlab, show 8 + 3 * j - 6 = 3 * j + 2 by omega]
    exact g3
  · rw [g4]
    simp

/-- From address 256 on the rows are one column further to the right than the heading. -/
example : ((linesOf (hexdump (List.replicate 257 0xAB)))[17]?).map (fun row => (row.take 10)) =
    some ['0', 'x', '1', '0', '0', ':', ' ', 'a', 'b', ' '] := by decide +kernel

/-- C83: different data have different dumps. -/
theorem C83_lossless (d e : List Nat) (hd : ∀ b ∈ d, b < 256) (he : ∀ b ∈ e, b < 256) (h : hexdump d = hexdump e) : d = e := by
  have key : ∀ n (d e : List Nat), d.length ≤ n →
      (∀ r, 16 * r ≤ d.length → 16 * r ≤ e.length → (d.drop (16 * r)).take 16 = (e.drop (16 * r)).take 16) → d = e := by
    intro n
    induction n using Nat.strongRecOn with
    | _ n ih =>
      intro d e hn hh
      have h0 := hh 0 (by omega) (by omega)
      simp only [Nat.mul_zero, List.drop_zero] at h0
      by_cases hl : d.length < 16
      · have hlen := congrArg List.length h0
        simp only [List.length_take] at hlen
        rw [List.take_of_length_le (by omega), List.take_of_length_le (by omega)] at h0
        exact h0
      · have hlen := congrArg List.length h0
        simp only [List.length_take] at hlen
        have := ih (n - 16) (by omega) (d.drop 16) (e.drop 16) (by simp; omega) (by
          intro r h1 h2
          simp only [List.length_drop] at h1 h2
          have := hh (r + 1) (by omega) (by omega)
          rw [List.drop_drop, List.drop_drop, show 16 + 16 * r = 16 * (r + 1) by omega]
          exact this)
        rw [← List.take_append_drop 16 d, h0, this, List.take_append_drop]
  refine key _ d e (Nat.le_refl _) (fun r h1 h2 => ?_)
  have a := C83_rows d hd r h1
  have b := C83_rows e he r h2
  rw [h, b] at a
  exact (Prod.mk.inj (Option.some.inj a)).2.symm

example : (linesOf (hexdump ((List.range 20).map (· * 7)))).map dumpRow =
    [(hexVal ((linesOf (hexdump []))[0]!.drop 2), []), (0, [0, 7, 14, 21, 28, 35, 42, 49, 56, 63, 70, 77, 84, 91, 98, 105]), (16, [112, 119, 126, 133]), (0, [])] := by
  decide +kernel

end Lambdalib
