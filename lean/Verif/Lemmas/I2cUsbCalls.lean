import Verif.Lemmas.I2cFrames

/-! Calls of the host library ask for whole messages of the bridge (C112). -/

namespace Lambdalib

section
variable {α β : Type}

/-- Every read of a program asks for exactly the next message, and result and bridge at the end are in `Q`. -/
def PyProg.FramedTo (ok : Nat → Prop) (d : BusDevices) (Q : α → FrameS → Prop) : PyProg α → FrameS → Prop
  | .ret a, s => Q a s
  | .write l k, s => k.FramedTo ok d Q (l.foldl (frameByte d) s)
  | .read n k, s => ok n ∧ ∃ m ms, s.msgs = m :: ms ∧ m.length = n ∧ (k m).FramedTo ok d Q { s with msgs := ms }

theorem PyProg.FramedTo.framed {ok : Nat → Prop} {d : BusDevices} {Q : α → FrameS → Prop} (p : PyProg α) : ∀ s,
    p.FramedTo ok d Q s → p.Framed ok d s := by
  induction p with
  | ret a => intros; trivial
  | write l k ih => intro s h; exact ih _ h
  | read n k ih =>
    intro s h
    obtain ⟨h0, m, ms, h1, h2, h3⟩ := h
    exact ⟨h0, m, ms, h1, h2, ih m _ h3⟩

theorem PyProg.FramedTo.bind {ok : Nat → Prop} {d : BusDevices} {Q : α → FrameS → Prop} {R : β → FrameS → Prop} (p : PyProg α)
    (f : α → PyProg β) (hf : ∀ a s, Q a s → (f a).FramedTo ok d R s) : ∀ s, p.FramedTo ok d Q s → (p.bind f).FramedTo ok d R s := by
  induction p with
  | ret a => intro s h; exact hf a s h
  | write l k ih => intro s h; exact ih _ h
  | read n k ih =>
    intro s h
    obtain ⟨h0, m, ms, h1, h2, h3⟩ := h
    exact ⟨h0, m, ms, h1, h2, ih m _ h3⟩

/-- A program on an idle bridge, that leaves it idle. -/
structure FrOk (ok : Nat → Prop) (d : BusDevices) (log : List BusTxn) (p : PyProg α) (a : α) (log' : List BusTxn) : Prop where
  framed : p.FramedTo ok d (fun b s => b = a ∧ s = ⟨[], [], log'⟩) ⟨[], [], log⟩

theorem FrOk.ret (ok : Nat → Prop) (d : BusDevices) (log : List BusTxn) (a : α) : FrOk ok d log (.ret a) a log := ⟨rfl, rfl⟩

theorem FrOk.bind {ok : Nat → Prop} {d : BusDevices} {log log' log'' : List BusTxn} {p : PyProg α} {f : α → PyProg β} {a : α} {b : β}
    (hp : FrOk ok d log p a log') (hf : FrOk ok d log' (f a) b log'') : FrOk ok d log (p.bind f) b log'' :=
  ⟨PyProg.FramedTo.bind p f (by rintro a' s ⟨rfl, rfl⟩; exact hf.framed) _ hp.framed⟩

theorem FrOk.thenOk {ok : Nat → Prop} {d : BusDevices} {log log' log'' : List BusTxn} {p : PyProg (Except PyErr α)}
    {f : α → PyProg (Except PyErr β)} {a : α} {b : Except PyErr β} (hp : FrOk ok d log p (.ok a) log')
    (hf : FrOk ok d log' (f a) b log'') : FrOk ok d log (p.thenOk f) b log'' := FrOk.bind hp hf

theorem FrOk.thenErr {ok : Nat → Prop} {d : BusDevices} {log log' : List BusTxn} {p : PyProg (Except PyErr α)}
    {f : α → PyProg (Except PyErr β)} {e : PyErr} (hp : FrOk ok d log p (.error e) log') :
    FrOk ok d log (p.thenOk f) (.error e) log' := FrOk.bind hp (FrOk.ret ok d _ _)

end

theorem reqProg_error_fr (ok : Nat → Prop) (d : BusDevices) (log : List BusTxn) (l : List Int) (h : pyBytes l = none) :
    FrOk ok d log (reqProg l) (.error .valueError) log := by
  unfold reqProg
  rw [h]
  exact FrOk.ret ok d _ _

section
variable (ok : Nat → Prop) (h1 : ok 1) (d : BusDevices) (hd : d.Sized)

include h1 hd in
theorem reqProg_write_fr (log : List BusTxn) (addr : Int) (arr : List Int) (ha : 0 ≤ addr ∧ addr ≤ 127) (hl : arr.length ≤ 255)
    (hv : ∀ v ∈ arr, 0 ≤ v ∧ v < 256) :
    let t := BusTxn.write addr.toNat (arr.map (BitVec.ofInt 8))
    FrOk ok d log (reqProg ([addr * 2, (arr.length : Int)] ++ arr)) (.ok (if (d log t).isSome then 0 else 1)) (log ++ [t]) := by
  intro t
  have hfold := bridge_write d ⟨[], [], log⟩ (BitVec.ofInt 8 (addr * 2)) (arr.map (BitVec.ofInt 8)) rfl
    (by rw [addr_even addr ha]; omega) (by simp; omega)
  rw [addr_even addr ha, Nat.mul_div_cancel _ (by omega)] at hfold
  have hfr := frame_one d _ [] _ log t hfold
  unfold reqProg
  rw [pyBytes_write addr arr ha hl hv]
  refine ⟨?_⟩
  unfold PyProg.FramedTo PyProg.FramedTo
  rw [hfr]
  cases e : d log t with
  | none => exact ⟨h1, [1], [], rfl, rfl, rfl, rfl⟩
  | some l =>
    have hz : l = [] := List.length_eq_zero_iff.1 (hd _ _ _ e)
    subst hz
    exact ⟨h1, [0], [], rfl, rfl, rfl, rfl⟩

include h1 hd in
theorem readTail_fr (log : List BusTxn) (addr len : Int) (ha : 0 ≤ addr ∧ addr ≤ 127) (hl : 0 ≤ len ∧ len ≤ 255)
    (hr : len = 0 → d log (.read addr.toNat 0) = none) (hk : ok len.toNat ∨ len = 0) :
    let u := BusTxn.read addr.toNat len.toNat
    FrOk ok d log ((reqProg [addr * 2 + 1, len]).thenOk fun status =>
      if status ≠ 0 then .ret (.ok none) else .read len.toNat fun r => .ret (.ok (some r))) (.ok (d log u)) (log ++ [u]) := by
  intro u
  have hm : (BitVec.ofInt 8 len).toNat = len.toNat := by rw [BitVec.toNat_ofInt]; omega
  have hfold := bridge_read d ⟨[], [], log⟩ (BitVec.ofInt 8 (addr * 2 + 1)) (BitVec.ofInt 8 len) rfl
    (by rw [addr_odd addr ha]; omega)
  rw [addr_odd addr ha, hm, show (addr.toNat * 2 + 1) / 2 = addr.toNat by omega, show BusTxn.read addr.toNat len.toNat = u from rfl] at hfold
  have hfr := frame_one d _ [] _ log u hfold
  unfold reqProg PyProg.thenOk
  rw [pyBytes_read addr len ha hl]
  simp only [PyProg.bind]
  refine ⟨?_⟩
  unfold PyProg.FramedTo PyProg.FramedTo
  rw [hfr]
  cases e : d log u with
  | none => exact ⟨h1, [1], [], rfl, rfl, rfl, rfl⟩
  | some l =>
    have hsz : l.length = len.toNat := hd _ _ _ e
    cases l with
    | nil =>
      simp only [List.length_nil] at hsz
      have h0 : len = 0 := by omega
      have := hr h0
      rw [show u = .read addr.toNat 0 by simp only [u, ← hsz], this] at e
      cases e
    | cons b l =>
      have hk : ok len.toNat := hk.resolve_right (fun h0 => by rw [h0] at hsz; simp at hsz)
      exact ⟨h1, [0], [b :: l], rfl, rfl, hk, b :: l, [], rfl, hsz, rfl, rfl⟩

include h1 hd in
theorem discoverProg_fr (n : Nat) : ∀ (a : Nat) (log : List BusTxn), a + n ≤ 128 →
    ∃ r, FrOk ok d log (discoverProg n a) (.ok r) (log ++ probes a n) := by
  induction n with
  | zero =>
    intro a log _
    refine ⟨([], []), ?_⟩
    rw [show log ++ probes a 0 = log by simp [probes]]
    exact FrOk.ret ok d log _
  | succ n ih =>
    intro a log hn
    have h2 := reqProg_write_fr ok h1 d hd log (a : Int) [] (by omega) (by simp) (by simp)
    obtain ⟨r, h3⟩ := ih (a + 1) (log ++ [.write a []]) (by omega)
    rw [show log ++ [BusTxn.write a []] ++ probes (a + 1) n = log ++ probes a (n + 1) by simp [probes, List.range'_succ]] at h3
    exact ⟨_, FrOk.thenOk (by simpa using h2) (FrOk.thenOk h3 (FrOk.ret ok d _ _))⟩

/-- What a call must be for the endpoint: no `discover_queue`, and the data of a block read has a length that is `ok`. -/
def BusCall.FrameOk (ok : Nat → Prop) : BusCall → Prop
  | .read _ _ _ l => l ≤ 0 ∨ ok l.toNat
  | .discoverQueue => False
  | _ => True

include h1 hd in
theorem BusCall.prog_fr (log : List BusTxn) (c : BusCall) (hc : c.WidthOk) (hr : c.ReadOk d log) (hk : c.FrameOk ok) :
    ∃ r, FrOk ok d log c.prog r (log ++ (c.spec d log).2) := by
  cases c with
  | write w a r data =>
    have hw : 0 ≤ w := hc
    simp only [BusCall.spec]
    by_cases hfit : WriteFits w a data
    case neg =>
      rw [if_neg hfit, List.append_nil]
      exact ⟨_, FrOk.bind (FrOk.thenErr (reqProg_error_fr ok d log _ (pyBytes_write_none w a r data hw hfit))) (FrOk.ret ok d _ _)⟩
    rw [if_pos hfit]
    obtain ⟨g1, g2, g4, g5⟩ := hfit
    have hlen : ((regAddrArray w r ++ data).length : Int) = regAddrSize w + data.length := by
      rw [List.length_append, Int.natCast_add, regArr_len w r hw]
    have h := reqProg_write_fr ok h1 d hd log a (regAddrArray w r ++ data) ⟨g1, g2⟩
      (by rw [regAddrSize] at hlen; omega) (regArr_data_range w r data g5)
    rw [hlen, List.map_append, regAddrArray_be] at h
    exact ⟨_, FrOk.bind (FrOk.thenOk h (FrOk.ret ok d _ _)) (FrOk.ret ok d _ _)⟩
  | read w a r l =>
    simp only [BusCall.spec]
    by_cases hfit : 0 ≤ a ∧ a ≤ 127 ∧ 0 ≤ w ∧ w / 8 ≤ 255
    case neg =>
      rw [if_neg hfit, List.append_nil]
      exact ⟨_, FrOk.bind (FrOk.thenErr (reqProg_error_fr ok d log _ (pyBytes_reg_none w a r hfit))) (FrOk.ret ok d _ _)⟩
    rw [if_pos hfit]
    obtain ⟨ha1, ha2, hw, hs⟩ := hfit
    have ha : 0 ≤ a ∧ a ≤ 127 := ⟨ha1, ha2⟩
    have hlen := regArr_len w r hw
    have h := reqProg_write_fr ok h1 d hd log a (regAddrArray w r) ha (by rw [regAddrSize] at hlen; omega) (regAddrArray_range w r)
    rw [hlen, regAddrArray_be] at h
    simp only [BusCall.ReadOk] at hr
    change FrOk ok d log _ (Except.ok (if (d log (regTxn w a r)).isSome then 0 else 1)) (log ++ [regTxn w a r]) at h
    cases e : (d log (regTxn w a r)).isSome
    · rw [e] at h
      exact ⟨_, FrOk.bind (FrOk.thenOk h (FrOk.ret ok d _ _)) (FrOk.ret ok d _ _)⟩
    · rw [e] at h
      rw [if_pos rfl]
      by_cases hl : 0 ≤ l ∧ l ≤ 255
      case neg =>
        rw [if_neg hl]
        exact ⟨_, FrOk.bind (FrOk.thenOk h (FrOk.thenErr (reqProg_error_fr ok d _ _ (pyBytes_len_none a l hl)))) (FrOk.ret ok d _ _)⟩
      rw [if_pos hl]
      have ht := readTail_fr ok h1 d hd (log ++ [regTxn w a r]) a l ha hl (hr e) (by
        rcases hk with hk | hk
        · exact .inr (by omega)
        · exact .inl hk)
      have hb : FrOk ok d log (readProg w a r l) _ _ := FrOk.thenOk h ht
      have := FrOk.bind (f := fun x => .ret (x.map BusRes.read)) hb (FrOk.ret ok d _ _)
      rw [List.append_assoc] at this
      exact ⟨_, this⟩
  | discover =>
    obtain ⟨r, h⟩ := discoverProg_fr ok h1 d hd 128 0 log (by omega)
    exact ⟨_, FrOk.bind h (FrOk.ret ok d _ _)⟩
  | discoverQueue => exact hk.elim

include h1 hd in
theorem BusCall.progAll_fr (cs : List BusCall) : ∀ log, (∀ c ∈ cs, c.WidthOk) → BusCall.ReadOkAll d log cs → (∀ c ∈ cs, c.FrameOk ok) →
    (BusCall.progAll cs).Framed ok d ⟨[], [], log⟩ := by
  suffices ∀ log, (∀ c ∈ cs, c.WidthOk) → BusCall.ReadOkAll d log cs → (∀ c ∈ cs, c.FrameOk ok) →
      ∃ r log', FrOk ok d log (BusCall.progAll cs) r log' by
    intro log hf hr hk
    obtain ⟨r, log', h⟩ := this log hf hr hk
    exact PyProg.FramedTo.framed _ _ h.framed
  induction cs with
  | nil => intro log _ _ _; exact ⟨_, _, FrOk.ret ok d log _⟩
  | cons c cs ih =>
    intro log hf hr hk
    obtain ⟨r, hc⟩ := BusCall.prog_fr ok h1 d hd log c (hf c (by simp)) hr.1 (hk c (by simp))
    unfold BusCall.progAll
    cases r with
    | error e => exact ⟨_, _, FrOk.thenErr hc⟩
    | ok x =>
      obtain ⟨r', log', h'⟩ := ih _ (fun c hc => hf c (by simp [hc])) hr.2 (fun c hc => hk c (by simp [hc]))
      exact ⟨_, _, FrOk.thenOk hc (FrOk.bind h' (FrOk.ret ok d _ _))⟩

end

end Lambdalib
