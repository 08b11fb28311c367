import Verif.Lemmas.StreamUtils

/-! C09, C10, C11, C12, C13, C61: stream utilities. -/

namespace Lambdalib

section Stitcher
variable {α : Type}

/-- C09: payloads pass unchanged and in order; of the accepted `first` (resp. `last`) marks exactly
those whose rank is 0 (resp. `count-1`) modulo `count` are kept. -/
theorem C09_stitcher_marks (count : Nat) (hc : 1 ≤ count) (i : Nat → SIn α) (n : Nat) :
    delivered (stitcher count) i n = stitched count (accepted (stitcher count) i n) := by
  refine (stream_induct (stitcher count) (fun A D s => D = stitched count A ∧
    s.fIdx = firsts A % count ∧ s.lIdx = lasts A % count) ?_ ?_ i n).1
  · simp [stitcher, stitched, firsts, lasts]
  · rintro A D s ⟨v, b, r⟩ ⟨rfl, h2, h3⟩
    by_cases hvr : v = true ∧ r = true
    · obtain ⟨rfl, rfl⟩ := hvr
      have hf := step_mod hc h2
      have hl := step_mod hc h3
      simp only [stitcher, Bool.and_true, if_true, stitched_snoc, Bool.true_and]
      refine ⟨?_, ?_, ?_⟩
      · simp only [h2, h3]
        rfl
      · cases hb : b.first
        · simp [firsts, h2, hb]
        · simp only [if_true, hf]; simp [firsts, hb]
      · cases hb : b.last
        · simp [lasts, h3, hb]
        · simp only [if_true, hl]; simp [lasts, hb]
    · have hvr' : (v && r) = false := by
        cases v <;> cases r <;> simp_all
      simp only [stitcher, hvr', Bool.false_and, Bool.false_eq_true, if_false, List.append_nil]
      exact ⟨trivial, h2, h3⟩

/-- C09: for well-delimited packets the output is the concatenation of the packets, with `first` kept
on packets 0, count, 2*count, ... and `last` kept on packets count-1, 2*count-1, ... -/
theorem C09_stitcher_packets (count : Nat) (ps : List (List (Beat α)))
    (hp : ∀ p ∈ ps, IsPacket p) :
    stitched count ps.flatten = (ps.mapIdx fun j p =>
      markPacket (decide (j % count = 0)) (decide (j % count = count - 1)) p).flatten := by
  suffices h : stitched count ps.flatten = (ps.mapIdx fun j p =>
      markPacket (decide (j % count = 0)) (decide (j % count = count - 1)) p).flatten ∧
      firsts ps.flatten = ps.length ∧ lasts ps.flatten = ps.length from h.1
  induction ps using snocInduction with
  | nil => simp [stitched, firsts, lasts]
  | snoc ps p ih =>
    obtain ⟨i1, i2, i3⟩ := ih (fun q hq => hp q (by simp [hq]))
    have hpk := hp p (by simp)
    have e1 := firsts_packet hpk
    have e2 := lasts_packet hpk
    refine ⟨?_, ?_, ?_⟩
    · rw [List.flatten_append, List.flatten_singleton, stitched_append, i1, List.mapIdx_append,
        List.flatten_append]
      congr 1
      simp only [List.mapIdx_cons, List.mapIdx_nil, List.flatten_cons, List.flatten_nil,
        List.append_nil, Nat.zero_add, markPacket]
      apply List.ext_getElem
      · simp
      · intro k h1 h2
        have hk : k < p.length := by simpa using h1
        have hfl := hpk.2 k hk
        simp only [List.getElem_mapIdx, List.getElem_map, i2, i3, firsts_packet_take hpk k hk,
          lasts_packet_take hpk k hk, Nat.add_zero]
        by_cases h0 : k = 0
        · simp [h0]
        · have hf : p[k].first = false := by
            rw [← Bool.not_eq_true]; exact fun h => h0 (hfl.1.1 h)
          simp [hf]
    · simp only [firsts, List.flatten_append, List.flatten_singleton, List.countP_append] at *
      simp [i2, e1]
    · simp only [lasts, List.flatten_append, List.flatten_singleton, List.countP_append] at *
      simp [i3, e2]

/-- C09: handshakes pass straight through. -/
theorem C09_stitcher_handshake (count : Nat) (i : Nat → SIn α) (n : Nat) :
    ((stitcher count).wave i n).valid = (i n).valid ∧
    ((stitcher count).wave i n).ready = (i n).ready := ⟨rfl, rfl⟩

/-- Two one-beat packets then a two-beat packet, stitched by two. -/
def stitchSample : Nat → SIn Nat := fun n =>
  ⟨n < 4, ⟨n != 3, n != 2, n⟩, true⟩
example : delivered (stitcher 2) stitchSample 4 =
    [⟨true, false, 0⟩, ⟨false, true, 1⟩, ⟨true, false, 2⟩, ⟨false, false, 3⟩] := by decide
example : ∀ p ∈ [[(⟨true, true, 0⟩ : Beat Nat)], [⟨true, true, 1⟩],
    [⟨true, false, 2⟩, ⟨false, true, 3⟩]], IsPacket p := by
  simp only [IsPacket]; decide

end Stitcher

section Splitter

/-- Beats accepted on the splitter's sink. -/
def splitAccepted (ls : List (List String)) (i : Nat → SplitIn) (n : Nat) : List (Beat Fields) :=
  transferred (fun k => (i k).valid) (fun k => ((splitter ls).wave i k).ready)
    (fun k => (i k).beat) n

/-- Beats delivered on source `j` of the splitter. -/
def splitDelivered (ls : List (List String)) (i : Nat → SplitIn) (j n : Nat) :
    List (Beat (List (String × Nat))) :=
  transferred (fun k => ((splitter ls).wave i k).valid j) (fun k => (i k).ready j)
    (fun k => ((splitter ls).wave i k).beat j) n

/-- The part of a beat that belongs to the fields `l`. -/
def projBeat (l : List String) (b : Beat Fields) : Beat (List (String × Nat)) :=
  ⟨b.first, b.last, l.map fun f => (f, b.payload f)⟩

/-- The environment holds the beat offered to the splitter until it is accepted. -/
def SplitStable (ls : List (List String)) (i : Nat → SplitIn) : Prop :=
  Stable (fun k => (i k).valid) (fun k => ((splitter ls).wave i k).ready) (fun k => (i k).beat)

theorem split_inv (ls : List (List String)) (hn : ls ≠ []) (i : Nat → SplitIn)
    (hs : SplitStable ls i) (n : Nat) :
    (∃ j < ls.length, (splitter ls).st i n j = false) ∧
    ∀ j (hj : j < ls.length), ((splitter ls).st i n j = true → (i n).valid = true) ∧
      splitDelivered ls i j n = (splitAccepted ls i n).map (projBeat ls[j]) ++
        (if (splitter ls).st i n j then [projBeat ls[j] (i n).beat] else []) := by
  have hpos : 0 < ls.length := List.length_pos_iff.2 hn
  induction n with
  | zero =>
    refine ⟨⟨0, hpos, rfl⟩, fun j hj => ⟨?_, ?_⟩⟩
    · intro h; cases h
    · simp [splitDelivered, splitAccepted, splitter]
  | succ n ih =>
    obtain ⟨⟨j0, hj0, hd0⟩, ih⟩ := ih
    have hst := hs n
    simp only [splitDelivered, splitAccepted, transferred_succ] at ih ⊢
    rw [Circuit.st_succ]
    generalize hA : transferred (fun k => (i k).valid) (fun k => ((splitter ls).wave i k).ready)
      (fun k => (i k).beat) n = A at *
    have hst : (i n).valid = true → ((splitter ls).out ((splitter ls).st i n) (i n)).ready = false →
      (i (n + 1)).valid = true ∧ (i (n + 1)).beat = (i n).beat := hst
    delta Circuit.wave at *
    beta_reduce at *
    generalize (splitter ls).st i n = done at *
    by_cases hend : allBelow ls.length
        (fun k => ((i n).valid && !done k) && (i n).ready k || done k) = true
    · -- everything transferred
      have hall := allBelow_iff.1 hend
      have hv : (i n).valid = true := by
        have := hall j0 hj0
        rw [hd0] at this
        cases hv : (i n).valid
        · simp [hv] at this
        · rfl
      have hrdy : ((splitter ls).out done (i n)).ready = true := by
        simp only [splitter]
        rw [allBelow_iff]
        intro k hk
        have := hall k hk
        cases hdk : done k <;> simp_all
      have hnext : (splitter ls).next done (i n) = fun _ => false := by
        simp only [splitter]; rw [if_pos hend]
      rw [hnext]
      refine ⟨⟨0, hpos, rfl⟩, fun j hj => ⟨fun h => by simp at h, ?_⟩⟩
      have h3 := (ih j hj).2
      rw [h3, hrdy, hv]
      have hj2 := hall j hj
      have hbeat : ((splitter ls).out done (i n)).beat j = projBeat ls[j] (i n).beat := by
        simp [splitter, projBeat, hj]
      rw [hbeat]
      have hvj : ((splitter ls).out done (i n)).valid j = !done j := by simp [splitter, hv]
      rw [hvj]
      cases hdj : done j
      · rw [hdj, hv] at hj2
        simp at hj2
        simp [hj2]
      · simp
    · -- still waiting for some source
      have hend' := hend
      rw [allBelow_iff] at hend'
      simp only [not_forall] at hend'
      obtain ⟨k0, hk0, hk0f⟩ := hend'
      have hacc : ((i n).valid && ((splitter ls).out done (i n)).ready) = false := by
        rw [← Bool.not_eq_true]
        intro h
        rw [Bool.and_eq_true] at h
        obtain ⟨hv, hr⟩ := h
        simp only [splitter] at hr
        have hr' := (allBelow_iff.1 hr) k0 hk0
        apply hk0f
        rw [hv]
        cases hdk : done k0
        · rw [hdk] at hr'; simpa using hr'
        · simp
      have hnext : (splitter ls).next done (i n) = fun k =>
          if ((i n).valid && !done k) && (i n).ready k then true else done k := by
        simp only [splitter]; rw [if_neg hend]
      rw [hnext, hacc]
      have hkeep : (i n).valid = true → (i (n + 1)).valid = true ∧ (i (n + 1)).beat = (i n).beat := by
        intro hv
        rw [hv] at hacc
        exact hst hv (by simpa using hacc)
      refine ⟨⟨k0, hk0, ?_⟩, fun j hj => ⟨?_, ?_⟩⟩
      · simp only [Bool.not_eq_true, Bool.or_eq_false_iff] at hk0f
        beta_reduce
        rw [hk0f.1, hk0f.2]; simp
      · intro h
        by_cases hv : (i n).valid = true
        · exact (hkeep hv).1
        · have hv' : (i n).valid = false := by simpa using hv
          rw [hv'] at h
          simp at h
          exact absurd ((ih j hj).1 h) hv
      · have h3 := (ih j hj).2
        rw [h3]
        have hbeat : ((splitter ls).out done (i n)).beat j = projBeat ls[j] (i n).beat := by
          simp [splitter, projBeat, hj]
        have hvj : ((splitter ls).out done (i n)).valid j = ((i n).valid && !done j) := by
          simp [splitter]
        rw [hbeat, hvj]
        cases hdj : done j
        · cases hv : (i n).valid
          · simp [hdj]
          · rw [(hkeep hv).2]
            cases hrj : (i n).ready j <;> simp [hdj, hrj]
        · have hv := (ih j hj).1 hdj
          rw [(hkeep hv).2]
          simp [hdj]

/-- C10: for a sender that holds its beat, every source delivers exactly the projections of the
accepted beats, in order, plus at most the projection of the beat being presented. -/
theorem C10_splitter_exactly_once (ls : List (List String)) (hn : ls ≠ []) (i : Nat → SplitIn)
    (hs : SplitStable ls i) (n j : Nat) (hj : j < ls.length) :
    splitDelivered ls i j n = (splitAccepted ls i n).map (projBeat ls[j]) ∨
    ((i n).valid = true ∧ splitDelivered ls i j n =
      (splitAccepted ls i n).map (projBeat ls[j]) ++ [projBeat ls[j] (i n).beat]) := by
  have h := (split_inv ls hn i hs n).2 j hj
  cases hd : (splitter ls).st i n j
  · left; rw [h.2, hd]; simp
  · right; exact ⟨h.1 hd, by rw [h.2, hd]; simp⟩

/-- C10: a presented beat is acknowledged exactly in the cycle in which every source that still
offers its part has it taken. -/
theorem C10_splitter_ack (ls : List (List String)) (i : Nat → SplitIn) (n : Nat)
    (hv : (i n).valid = true) :
    ((splitter ls).wave i n).ready = true ↔
      ∀ j < ls.length, ((splitter ls).wave i n).valid j = true → (i n).ready j = true := by
  simp only [Circuit.wave]
  generalize (splitter ls).st i n = done
  simp only [splitter, allBelow_iff, hv]
  constructor
  · intro h j hj hvj
    have := h j hj
    cases hd : done j <;> simp_all
  · intro h j hj
    have := h j hj
    cases hd : done j <;> simp_all

/-- C10: each source keeps its offer until it is taken (for a sender that holds its beat). -/
theorem C10_splitter_source_stable (ls : List (List String)) (i : Nat → SplitIn)
    (hs : SplitStable ls i) (j : Nat) (hj : j < ls.length) :
    Stable (fun k => ((splitter ls).wave i k).valid j) (fun k => (i k).ready j)
      (fun k => ((splitter ls).wave i k).beat j) := by
  intro n hv hr
  have hst := hs n
  simp only [Circuit.wave, Circuit.st_succ] at *
  generalize (splitter ls).st i n = done at *
  have hvd : (i n).valid = true ∧ done j = false := by simpa [splitter] using hv
  have hnr : ((splitter ls).out done (i n)).ready = false := by
    rw [← Bool.not_eq_true]
    intro h
    simp only [splitter] at h
    have := (allBelow_iff.1 h) j hj
    simp [hr, hvd.2] at this
  obtain ⟨h1, h2⟩ := hst hvd.1 hnr
  have hend : ¬ (allBelow ls.length
      (fun k => ((i n).valid && !done k) && (i n).ready k || done k) = true) := by
    intro h
    have := (allBelow_iff.1 h) j hj
    simp [hr, hvd.2] at this
  constructor
  · have hnext : (splitter ls).next done (i n) j = false := by
      simp only [splitter]; rw [if_neg hend]; simp [hr, hvd.2]
    change ((i (n + 1)).valid && !(splitter ls).next done (i n) j) = true
    rw [h1, hnext]; rfl
  · simp [splitter, h2]

/-- C10: the layouts accepted are exactly those whose fields all exist and are pairwise distinct. -/
theorem C10_splitter_ctor (lf : List String) (ls : List (List String)) :
    splitterCheck lf ls = .ok () ↔ (∀ f ∈ ls.flatten, f ∈ lf) ∧ ls.flatten.Nodup := by
  have key : ∀ (fs used : List String), splitterCheck.go lf used fs = .ok () ↔
      (∀ f ∈ fs, f ∈ lf) ∧ fs.Nodup ∧ ∀ f ∈ fs, f ∉ used := by
    intro fs
    induction fs with
    | nil => intro used; simp [splitterCheck.go]
    | cons f fs ih =>
      intro used
      rw [splitterCheck.go]
      by_cases h1 : f ∈ lf
      · by_cases h2 : f ∈ used
        · simp [h1, h2]
        · rw [if_neg (by simp [h1]), if_neg h2, ih]
          simp only [List.mem_cons, not_or, List.nodup_cons]
          constructor
          · rintro ⟨a, b, c⟩
            refine ⟨?_, ⟨fun hf => (c f hf).1 rfl, b⟩, ?_⟩
            · rintro g (rfl | hg)
              · exact h1
              · exact a g hg
            · rintro g (rfl | hg)
              · exact h2
              · exact (c g hg).2
          · rintro ⟨a, ⟨b1, b2⟩, c⟩
            refine ⟨fun g hg => a g (.inr hg), b2, fun g hg => ⟨?_, c g (.inr hg)⟩⟩
            rintro rfl; exact b1 hg
      · simp [h1]
  have := key ls.flatten []
  simpa [splitterCheck] using this

/-- Two sources; the second one is slow. -/
def splitSample : Nat → SplitIn := fun n =>
  ⟨true, ⟨true, false, fun f => if f = "a" then 5 else 7⟩, fun k => k == 0 || n % 3 == 2⟩
example : SplitStable [["a"], ["b"]] splitSample := fun _ _ _ => ⟨rfl, rfl⟩
example : splitDelivered [["a"], ["b"]] splitSample 0 2 = [⟨true, false, [("a", 5)]⟩] := by decide
example : splitDelivered [["a"], ["b"]] splitSample 1 3 = [⟨true, false, [("b", 7)]⟩] := by decide
example : splitterCheck ["a", "b"] [["a"], ["b"]] = .ok () := by decide
example : splitterCheck ["a", "b"] [["a"], ["a"]] ≠ .ok () := by decide

end Splitter

section Merger

/-- Beats accepted on sink `j` of the merger. -/
def mergeAccepted (ls : List (List String)) (i : Nat → MergeIn) (j n : Nat) : List (Beat Fields) :=
  transferred (fun k => (i k).valid j) (fun k => ((merger ls).wave i k).ready j)
    (fun k => (i k).beat j) n

/-- Beats delivered on the merger's source. -/
def mergeDelivered (ls : List (List String)) (i : Nat → MergeIn) (n : Nat) : List (Beat Fields) :=
  transferred (fun k => ((merger ls).wave i k).valid) (fun k => (i k).ready)
    (fun k => ((merger ls).wave i k).beat) n

/-- Delivered beats followed by the one on offer. -/
def mergeOut (ls : List (List String)) (i : Nat → MergeIn) (n : Nat) : List (Beat Fields) :=
  mergeDelivered ls i n ++
    (if ((merger ls).wave i n).valid then [((merger ls).wave i n).beat] else [])

/-- C11: the sinks are acknowledged together. -/
theorem C11_merger_lockstep (ls : List (List String)) (i : Nat → MergeIn) (n j k : Nat) :
    ((merger ls).wave i n).ready j = ((merger ls).wave i n).ready k := rfl

/-- C11: a sink is acknowledged only when every sink has a beat. -/
theorem C11_merger_all_valid (ls : List (List String)) (i : Nat → MergeIn) (n j : Nat)
    (h : ((merger ls).wave i n).ready j = true) : ∀ k < ls.length, (i n).valid k = true := by
  simp only [Circuit.wave] at h
  generalize (merger ls).st i n = s at h
  simp only [merger, mergerInner, Bool.and_eq_true] at h
  exact allBelow_iff.1 h.1

/-- Payload of a merged beat for a legal set of layouts. -/
theorem mergePayload_spec (ls : List (List String)) (hc : mergerCheck ls = .ok ())
    (p : Nat → Fields) (j : Nat) (hj : j < ls.length) (f : String) (hf : f ∈ ls[j]) :
    mergePayload ls p f = p j f := by
  have hnd : ls.flatten.Nodup := by
    have key : ∀ (fs used : List String), mergerCheck.go used fs = .ok () → 
        fs.Nodup ∧ ∀ f ∈ fs, f ∉ used := by
      intro fs
      induction fs with
      | nil => intro used; simp
      | cons f fs ih =>
        intro used h
        rw [mergerCheck.go] at h
        by_cases h2 : f ∈ used
        · simp [h2] at h
        · rw [if_neg h2] at h
          obtain ⟨a, b⟩ := ih _ h
          refine ⟨List.nodup_cons.2 ⟨fun hf => (b f hf) (by simp), a⟩, ?_⟩
          intro g hg
          rcases List.mem_cons.1 hg with rfl | hg
          · exact h2
          · exact fun hu => b g hg (by simp [hu])
    exact (key _ _ hc).1
  have key : ∀ (ls : List (List String)) (k : Nat) (acc : Fields), ls.flatten.Nodup →
      (∀ f, f ∉ ls.flatten → mergePayload.go p k acc ls f = acc f) ∧
      ∀ j (hj : j < ls.length), ∀ f ∈ ls[j], mergePayload.go p k acc ls f = p (k + j) f := by
    intro ls
    induction ls with
    | nil => intro k acc _; simp [mergePayload.go]
    | cons l ls ih =>
      intro k acc hnd
      simp only [List.flatten_cons] at hnd
      have hnd2 := (List.nodup_append.1 hnd)
      obtain ⟨i1, i2⟩ := ih (k + 1) (fun f => if f ∈ l then p k f else acc f) hnd2.2.1
      constructor
      · intro f hf
        simp only [List.flatten_cons, List.mem_append, not_or] at hf
        rw [mergePayload.go, i1 f hf.2]
        simp [hf.1]
      · intro j hj f hf
        cases j with
        | zero =>
          simp only [List.getElem_cons_zero] at hf
          have hnot : f ∉ ls.flatten := fun h => hnd2.2.2 f hf f h rfl
          rw [mergePayload.go, i1 f hnot]
          simp [hf]
        | succ j =>
          simp only [List.getElem_cons_succ] at hf
          rw [mergePayload.go, i2 j (by simpa using hj) f hf]
          congr 1; omega
  have := (key ls 0 (fun _ => 0) hnd).2 j hj f hf
  simpa [mergePayload] using this

/-- C11: the k-th beat out combines exactly the k-th accepted beat of every sink: same payload fields,
delimiters the disjunction of the inputs'. -/
theorem C11_merger_combines (ls : List (List String)) (hn : ls ≠ [])
    (hc : mergerCheck ls = .ok ()) (i : Nat → MergeIn) (n : Nat) :
    (∀ j < ls.length, (mergeAccepted ls i j n).length = (mergeOut ls i n).length) ∧
    ∀ k (hk : k < (mergeOut ls i n).length),
      ((mergeOut ls i n)[k].first = true ↔
        ∃ j < ls.length, ∃ b, (mergeAccepted ls i j n)[k]? = some b ∧ b.first = true) ∧
      ((mergeOut ls i n)[k].last = true ↔
        ∃ j < ls.length, ∃ b, (mergeAccepted ls i j n)[k]? = some b ∧ b.last = true) ∧
      ∀ j (hj : j < ls.length), ∃ b, (mergeAccepted ls i j n)[k]? = some b ∧
        ∀ f ∈ ls[j], (mergeOut ls i n)[k].payload f = b.payload f := by
  have hpos : 0 < ls.length := List.length_pos_iff.2 hn
  -- all beats out, before splitting by sink
  have step : ∀ n, (∀ j < ls.length, mergeAccepted ls i j (n + 1) = mergeAccepted ls i j n ++
        (if ((merger ls).wave i n).ready 0 then [(i n).beat j] else [])) ∧
      mergeOut ls i (n + 1) = mergeOut ls i n ++
        (if ((merger ls).wave i n).ready 0 then [(mergerInner ls (i n)).beat] else []) := by
    intro n
    constructor
    · intro j hj
      simp only [mergeAccepted, transferred_succ]
      congr 1
      rw [C11_merger_lockstep ls i n j 0]
      cases hr : ((merger ls).wave i n).ready 0
      · simp
      · have := C11_merger_all_valid ls i n 0 hr j hj
        simp [this]
    · simp only [mergeOut, mergeDelivered, transferred_succ]
      delta Circuit.wave
      beta_reduce
      rw [Circuit.st_succ]
      generalize transferred _ _ _ _ = D
      generalize (merger ls).st i n = s
      generalize i (n + 1) = y
      generalize i n = x
      have key : ∀ (x' y' : SIn Fields), 
          ((D ++ if ((pipeValid.out s x').valid && x'.ready) = true then
              [(pipeValid.out s x').beat] else []) ++
            if (pipeValid.out (pipeValid.next s x') y').valid = true then
              [(pipeValid.out (pipeValid.next s x') y').beat] else []) =
          (D ++ if (pipeValid.out s x').valid = true then [(pipeValid.out s x').beat] else []) ++
            if (x'.valid && (pipeValid.out s x').ready) = true then [x'.beat] else [] := by
        intro x' y'
        cases hv : s.valid <;> cases hr : x'.ready <;> cases hv' : x'.valid <;>
          simp_all [pipeValid]
      exact key (mergerInner ls x) (mergerInner ls y)
  induction n with
  | zero =>
    refine ⟨?_, ?_⟩
    · intro j hj
      simp [mergeAccepted, mergeOut, mergeDelivered, Circuit.wave, merger, pipeValid]
    · intro k hk
      simp [mergeOut, mergeDelivered, Circuit.wave, merger, pipeValid] at hk
  | succ n ih =>
    obtain ⟨sA, sO⟩ := step n
    obtain ⟨i1, i2⟩ := ih
    cases hr : ((merger ls).wave i n).ready 0
    · rw [hr] at sO sA
      simp only [Bool.false_eq_true, if_false, List.append_nil] at sO sA
      refine ⟨fun j hj => by rw [sA j hj, sO]; exact i1 j hj, ?_⟩
      rw [sO]
      intro k hk
      have := i2 k hk
      refine ⟨?_, ?_, ?_⟩
      · rw [this.1]
        constructor <;> rintro ⟨j, hj, b, hb, h⟩ <;> refine ⟨j, hj, b, ?_, h⟩
        · rw [sA j hj]; exact hb
        · rw [sA j hj] at hb; exact hb
      · rw [this.2.1]
        constructor <;> rintro ⟨j, hj, b, hb, h⟩ <;> refine ⟨j, hj, b, ?_, h⟩
        · rw [sA j hj]; exact hb
        · rw [sA j hj] at hb; exact hb
      · intro j hj
        obtain ⟨b, hb, h⟩ := this.2.2 j hj
        exact ⟨b, by rw [sA j hj]; exact hb, h⟩
    · rw [hr] at sO sA
      simp only [if_true] at sO sA
      refine ⟨fun j hj => by rw [sA j hj, sO]; simp [i1 j hj], ?_⟩
      rw [sO]
      intro k hk
      by_cases hkl : k < (mergeOut ls i n).length
      · have := i2 k hkl
        rw [List.getElem_append_left hkl]
        have hsame : ∀ j (_ : j < ls.length), (mergeAccepted ls i j (n + 1))[k]?
            = (mergeAccepted ls i j n)[k]? := by
          intro j hj
          rw [sA j hj, List.getElem?_append_left (by rw [i1 j hj]; exact hkl)]
        refine ⟨?_, ?_, ?_⟩
        · rw [this.1]
          constructor <;> rintro ⟨j, hj, b, hb, h⟩ <;> refine ⟨j, hj, b, ?_, h⟩
          · rw [hsame j hj]; exact hb
          · rw [hsame j hj] at hb; exact hb
        · rw [this.2.1]
          constructor <;> rintro ⟨j, hj, b, hb, h⟩ <;> refine ⟨j, hj, b, ?_, h⟩
          · rw [hsame j hj]; exact hb
          · rw [hsame j hj] at hb; exact hb
        · intro j hj
          obtain ⟨b, hb, h⟩ := this.2.2 j hj
          exact ⟨b, by rw [hsame j hj]; exact hb, h⟩
      · have hk' : k = (mergeOut ls i n).length := by
          simp only [List.length_append, List.length_cons, List.length_nil] at hk; omega
        subst hk'
        have hnew : ∀ j (_ : j < ls.length),
            (mergeAccepted ls i j (n + 1))[(mergeOut ls i n).length]? = some ((i n).beat j) := by
          intro j hj
          rw [sA j hj, ← i1 j hj]; simp
        simp only [List.getElem_concat_length]
        refine ⟨?_, ?_, ?_⟩
        · simp only [mergerInner, anyBelow_iff]
          constructor
          · rintro ⟨j, hj, h⟩; exact ⟨j, hj, _, hnew j hj, h⟩
          · rintro ⟨j, hj, b, hb, h⟩
            rw [hnew j hj] at hb; cases hb; exact ⟨j, hj, h⟩
        · simp only [mergerInner, anyBelow_iff]
          constructor
          · rintro ⟨j, hj, h⟩; exact ⟨j, hj, _, hnew j hj, h⟩
          · rintro ⟨j, hj, b, hb, h⟩
            rw [hnew j hj] at hb; cases hb; exact ⟨j, hj, h⟩
        · intro j hj
          refine ⟨_, hnew j hj, ?_⟩
          intro f hf
          exact mergePayload_spec ls hc _ j hj f hf

/-- C11: the merged beat on offer is stable under back-pressure. -/
theorem C11_merger_stable (ls : List (List String)) (i : Nat → MergeIn) :
    Stable (fun k => ((merger ls).wave i k).valid) (fun k => (i k).ready)
      (fun k => ((merger ls).wave i k).beat) := by
  intro n
  simp only [Circuit.wave, Circuit.st_succ]
  generalize (merger ls).st i n = s
  intro hv hr
  have hv' : s.valid = true := hv
  have hr' : (mergerInner ls (i n)).ready = false := hr
  have : (merger ls).next s (i n) = s := by simp [merger, pipeValid, hv', hr']
  rw [this]
  exact ⟨hv, rfl⟩

/-- C11: the sinks are acknowledged as soon as all are valid and the output slot is free. -/
theorem C11_merger_progress (ls : List (List String)) (i : Nat → MergeIn) (n j : Nat) :
    ((merger ls).wave i n).ready j = true ↔ (∀ k < ls.length, (i n).valid k = true) ∧
      (((merger ls).wave i n).valid = false ∨ (i n).ready = true) := by
  simp only [Circuit.wave]
  generalize (merger ls).st i n = s
  simp [merger, mergerInner, pipeValid, allBelow_iff]

/-- C11: the layouts accepted are exactly those with pairwise distinct field names. -/
theorem C11_merger_ctor (ls : List (List String)) :
    mergerCheck ls = .ok () ↔ ls.flatten.Nodup := by
  have key : ∀ (fs used : List String), mergerCheck.go used fs = .ok () ↔
      fs.Nodup ∧ ∀ f ∈ fs, f ∉ used := by
    intro fs
    induction fs with
    | nil => intro used; simp [mergerCheck.go]
    | cons f fs ih =>
      intro used
      rw [mergerCheck.go]
      by_cases h2 : f ∈ used
      · simp [h2]
      · rw [if_neg h2, ih]
        simp only [List.mem_cons, not_or, List.nodup_cons]
        constructor
        · rintro ⟨b, c⟩
          refine ⟨⟨fun hf => (c f hf).1 rfl, b⟩, ?_⟩
          rintro g (rfl | hg)
          · exact h2
          · exact (c g hg).2
        · rintro ⟨⟨b1, b2⟩, c⟩
          refine ⟨b2, fun g hg => ⟨?_, c g (.inr hg)⟩⟩
          rintro rfl; exact b1 hg
  have := key ls.flatten []
  simpa [mergerCheck] using this

/-- Two sinks, the second becoming valid one cycle later. -/
def mergeSample : Nat → MergeIn := fun n =>
  ⟨fun k => k == 0 || 1 ≤ n, fun k => ⟨k == 0, false, fun _ => 10 * k + 3⟩, true⟩
example : mergerCheck [["a"], ["b"]] = .ok () := by decide
example : (mergeOut [["a"], ["b"]] mergeSample 2).map
    (fun b => (b.first, b.last, b.payload "a", b.payload "b")) = [(true, false, 3, 13)] := by decide

end Merger

section LastInserter
variable {α : Type}

/-- C12: the delivered beats are the accepted beats re-marked by `boundPackets`. -/
theorem C12_lastinserter_marks (count : Nat) (hc : 1 ≤ count) (i : Nat → SIn α) (n : Nat) :
    delivered (lastInserter count) i n
      = boundPackets count 0 (accepted (lastInserter count) i n) := by
  refine (stream_induct (lastInserter count) (fun A D s => D = boundPackets count 0 A ∧
    s = A.foldl (fun c b => if c + 1 = count ∨ b.last = true then 0 else c + 1) 0 ∧ s < count)
    ?_ ?_ i n).1
  · simp [lastInserter, boundPackets]; omega
  · rintro A D s ⟨v, b, r⟩ ⟨rfl, h2, h3⟩
    by_cases hvr : v = true ∧ r = true
    · obtain ⟨rfl, rfl⟩ := hvr
      simp only [lastInserter, Bool.and_true, if_true, boundPackets_append, List.foldl_append,
        List.foldl_cons, List.foldl_nil, ← h2]
      have hiff : (s == count - 1 || b.last) = true ↔ (s + 1 = count ∨ b.last = true) := by
        simp; constructor <;> (rintro (h | h) <;> [left; right]) <;> first | omega | exact h
      by_cases h : s + 1 = count ∨ b.last = true
      · have h' := hiff.2 h
        simp only [h', boundPackets, if_pos h]
        refine ⟨by cases b; simp, by simp, by simp; omega⟩
      · have h' : (s == count - 1 || b.last) = false := by
          rw [← Bool.not_eq_true]; exact fun hh => h (hiff.1 hh)
        have hb : b.last = false := by simp at h'; exact h'.2
        simp only [not_or] at h
        simp only [h', boundPackets, if_neg (not_or.2 h)]
        rw [truncRange_of_lt (by omega)]
        refine ⟨by cases b; simp_all, ?_, ?_⟩ <;> simp <;> omega
    · have hvr' : (v && r) = false := by cases v <;> cases r <;> simp_all
      simp only [lastInserter, hvr', Bool.false_eq_true, if_false, List.append_nil]
      exact ⟨trivial, h2, h3⟩

/-- C12: payload and `first` are untouched and original `last` marks are kept. -/
theorem C12_lastinserter_preserves (count c : Nat) (l : List (Beat α)) :
    List.Forall₂ (fun o b => o.payload = b.payload ∧ o.first = b.first ∧
      (b.last = true → o.last = true)) (boundPackets count c l) l := by
  induction l generalizing c with
  | nil => exact .nil
  | cons b l ih =>
    rw [boundPackets]
    split
    · exact .cons ⟨rfl, rfl, fun _ => rfl⟩ (ih 0)
    · exact .cons ⟨rfl, rfl, id⟩ (ih (c + 1))

/-- C12: any `count` consecutive delivered beats contain a `last`, so no packet is longer than
`count`. -/
theorem C12_lastinserter_bounded (count : Nat) (hc : 1 ≤ count) (l pre w post : List (Beat α))
    (h : boundPackets count 0 l = pre ++ w ++ post) (hw : w.length = count) :
    ∃ b ∈ w, b.last = true := by
  have key : ∀ (l : List (Beat α)) (c : Nat), c < count → ∀ pre w post : List (Beat α),
      boundPackets count c l = pre ++ w ++ post →
      (w.length = count ∨ (pre = [] ∧ w.length + c = count)) → ∃ b ∈ w, b.last = true := by
    intro l
    induction l with
    | nil =>
      intro c hcl pre w post h hw
      simp only [boundPackets] at h
      have h' := congrArg List.length h
      simp only [List.length_nil, List.length_append] at h'
      rcases hw with hw | ⟨_, hw⟩ <;> omega
    | cons b l ih =>
      intro c hcl pre w post h hw
      rw [boundPackets] at h
      split at h
      · rename_i hb
        cases pre with
        | cons x pre =>
          simp only [List.cons_append, List.cons.injEq] at h
          rcases hw with hw | ⟨h0, _⟩
          · exact ih 0 (by omega) pre w post h.2 (.inl hw)
          · cases h0
        | nil =>
          cases w with
          | nil =>
            simp at hw; omega
          | cons x w =>
            simp only [List.nil_append, List.cons_append, List.cons.injEq] at h
            exact ⟨x, by simp, by rw [← h.1]⟩
      · rename_i hb
        simp only [not_or] at hb
        cases pre with
        | cons x pre =>
          simp only [List.cons_append, List.cons.injEq] at h
          rcases hw with hw | ⟨h0, _⟩
          · exact ih (c + 1) (by omega) pre w post h.2 (.inl hw)
          · cases h0
        | nil =>
          cases w with
          | nil => simp at hw; omega
          | cons x w =>
            simp only [List.nil_append, List.cons_append, List.cons.injEq] at h
            simp only [List.length_cons] at hw
            have hlen : w.length + 1 + c ≥ count := by rcases hw with hw | hw <;> omega
            -- take the part of the window that completes the packet
            have hsplit : boundPackets count (c + 1) l = [] ++ w.take (count - (c + 1)) ++
                (w.drop (count - (c + 1)) ++ post) := by
              rw [h.2]; simp [← List.append_assoc, List.take_append_drop]
            obtain ⟨y, hy, hyl⟩ := ih (c + 1) (by omega) [] _ _ hsplit
              (.inr ⟨rfl, by simp; omega⟩)
            exact ⟨y, by simp [List.mem_of_mem_take hy], hyl⟩
  exact key l 0 (by omega) pre w post h (.inl hw)

/-- C12: a `last` is inserted only at the end of a full packet: a delivered `last` that was not
present on the input ends a run of `count` beats whose other beats carry no `last`. -/
theorem C12_lastinserter_only_when_full (count : Nat) (l : List (Beat α)) (k : Nat)
    (hk : k < l.length) (hk' : k < (boundPackets count 0 l).length)
    (ho : ((boundPackets count 0 l)[k]).last = true) (hi : l[k].last = false) :
    count ≤ k + 1 ∧ ∀ j (hj : j < (boundPackets count 0 l).length), j < k → k + 1 ≤ j + count →
      ((boundPackets count 0 l)[j]).last = false := by
  have key : ∀ (l : List (Beat α)) (c k : Nat) (hk : k < l.length)
      (hk' : k < (boundPackets count c l).length),
      ((boundPackets count c l)[k]).last = true → l[k].last = false →
      count ≤ k + c + 1 ∧ ∀ j (hj : j < (boundPackets count c l).length), j < k →
        k + 1 ≤ j + count → ((boundPackets count c l)[j]).last = false := by
    intro l
    induction l with
    | nil => intro c k hk; simp at hk
    | cons b l ih =>
      intro c k hk hk'
      simp only [boundPackets] at hk' ⊢
      split
      · rename_i hb
        cases k with
        | zero =>
          intro _ h2
          simp only [List.getElem_cons_zero] at h2
          rw [h2] at hb
          simp at hb
          exact ⟨by omega, fun j hj hjk => by omega⟩
        | succ k =>
          simp only [List.getElem_cons_succ]
          intro h1 h2
          have := ih 0 k (by simpa using hk) (by simpa [hb] using hk') h1 h2
          refine ⟨by omega, ?_⟩
          intro j hj hjk hjc
          cases j with
          | zero => omega
          | succ j =>
            simp only [List.getElem_cons_succ]
            exact this.2 j (by simpa using hj) (by omega) (by omega)
      · rename_i hb
        simp only [not_or, Bool.not_eq_true] at hb
        cases k with
        | zero =>
          simp only [List.getElem_cons_zero]
          intro h1 h2; rw [h1] at h2; cases h2
        | succ k =>
          simp only [List.getElem_cons_succ]
          intro h1 h2
          have := ih (c + 1) k (by simpa using hk) (by simpa [hb] using hk') h1 h2
          refine ⟨by omega, ?_⟩
          intro j hj hjk hjc
          cases j with
          | zero => simpa using hb.2
          | succ j =>
            simp only [List.getElem_cons_succ]
            exact this.2 j (by simpa using hj) (by omega) (by omega)
  simpa using key l 0 k hk hk' ho hi

/-- C12: handshakes pass straight through. -/
theorem C12_lastinserter_handshake (count : Nat) (i : Nat → SIn α) (n : Nat) :
    ((lastInserter count).wave i n).valid = (i n).valid ∧
    ((lastInserter count).wave i n).ready = (i n).ready := ⟨rfl, rfl⟩

/-- Seven beats with an original `last` on the second, `count = 3`. -/
def liSample : Nat → SIn Nat := fun n => ⟨n < 7, ⟨n == 0, n == 1, n⟩, true⟩
example : (delivered (lastInserter 3) liSample 7).map (·.last) =
    [false, true, false, false, true, false, false] := by decide

end LastInserter

section LastOnTimeout
variable {α : Type} [Inhabited α]

/-- The input has been idle for the `t` cycles before cycle `n`. -/
def Idle (t : Nat) (i : Nat → SIn α) (n : Nat) : Prop :=
  t ≤ n ∧ ∀ k < n, n ≤ k + t → (i k).valid = false

theorem lot_timer (t : Nat) (i : Nat → SIn α) (n : Nat) :
    ((lastOnTimeout t).st i n).timer = (waitTimer t).st (fun k => !(i k).valid) n := by
  induction n with
  | zero => rfl
  | succ n ih =>
    rw [Circuit.st_succ, Circuit.st_succ, ← ih]
    generalize (lastOnTimeout t).st i n = s
    simp only [lastOnTimeout]
    split
    · rfl
    · split <;> rfl

theorem lot_idle (t : Nat) (i : Nat → SIn α) (n : Nat) :
    ((lastOnTimeout t).st i n).timer = 0 ↔ Idle t i n := by
  rw [lot_timer]
  have h := (waitTimer_inv t (fun k => !(i k).valid) n).2 t (Nat.le_refl t)
  simp only [Bool.not_eq_true'] at h
  unfold Idle
  rw [← h]; omega

theorem lot_inv (t : Nat) (i : Nat → SIn α) (n : Nat) :
    let A := accepted (lastOnTimeout t) i n
    let D := delivered (lastOnTimeout t) i n
    let s := (lastOnTimeout t).st i n
    ∃ A', A'.map (·.payload) = D.map (·.payload) ∧
      A = A' ++ (if s.loaded then [A.getLastD zeroBeat] else []) ∧
      (s.loaded = true → s.data = (A.getLastD zeroBeat).payload ∧
        s.lastR = (A.getLastD zeroBeat).last) := by
  refine stream_induct (lastOnTimeout t) (fun A D s =>
    ∃ A', A'.map (·.payload) = D.map (·.payload) ∧
      A = A' ++ (if s.loaded then [A.getLastD zeroBeat] else []) ∧
      (s.loaded = true → s.data = (A.getLastD zeroBeat).payload ∧
        s.lastR = (A.getLastD zeroBeat).last)) ?_ ?_ i n
  · exact ⟨[], by simp [lastOnTimeout]⟩
  · rintro A D s ⟨v, b, r⟩ ⟨A', h1, h2, h3⟩
    cases hv : lotValid s ⟨v, b, r⟩
    · -- nothing offered
      cases v
      · refine ⟨A', ?_⟩
        simp [lastOnTimeout, hv, -List.getLastD_eq_getLast?]
        exact ⟨h1, h2, h3⟩
      · have hl : s.loaded = false := by
          rw [← Bool.not_eq_true]; intro h; simp [lotValid, h] at hv
        simp only [hl, Bool.false_eq_true, if_false, List.append_nil] at h2
        refine ⟨A', ?_⟩
        simp [lastOnTimeout, hv, h1, h2]
    · have hl : s.loaded = true := by
        rw [← Bool.not_eq_false]; intro h; simp [lotValid, h] at hv
      simp only [hl, if_true] at h2
      have h3 := h3 hl
      cases r
      · refine ⟨A', ?_⟩
        cases v <;> simp [lastOnTimeout, hv, hl, -List.getLastD_eq_getLast?] <;>
          exact ⟨h1, h2, h3⟩
      · cases v
        · refine ⟨A, ?_⟩
          simp [lastOnTimeout, hv, hl]
          rw [h2]; simp [h1, h3.1]
        · refine ⟨A, ?_⟩
          simp [lastOnTimeout, hv, hl]
          conv_lhs => rw [h2]
          simp [h1, h3.1]

/-- C13: data is delivered in order, without loss or duplication, with at most one beat pending; and
the pending beat is offered exactly when it carried `last`, when another beat is arriving, or when
the input has been idle for `timeout` cycles; it then carries `last` exactly when it carried it
itself or the input has been idle for `timeout` cycles. -/
theorem C13_lastontimeout_behaviour (t : Nat) (i : Nat → SIn α) (n : Nat) :
    let c := lastOnTimeout t
    let A := accepted c i n
    let D := delivered c i n
    ∃ A' pend, A = A' ++ pend ∧ A'.map (·.payload) = D.map (·.payload) ∧ pend.length ≤ 1 ∧
      ((c.wave i n).valid = true ↔ ∃ b, pend = [b] ∧
        (b.last = true ∨ (i n).valid = true ∨ Idle t i n)) ∧
      ∀ b, pend = [b] → (c.wave i n).beat.payload = b.payload ∧
        ((c.wave i n).beat.last = true ↔ b.last = true ∨ Idle t i n) := by
  intro c A D
  obtain ⟨A', h1, h2, h3⟩ := lot_inv t i n
  have hidle := lot_idle t i n
  refine ⟨A', _, h2, h1, ?_, ?_, ?_⟩
  · split <;> simp
  · simp only [Circuit.wave, c]
    generalize hs : (lastOnTimeout t).st i n = s at *
    cases hl : s.loaded
    · simp [lastOnTimeout, lotValid, hl]
    · have h3 := h3 hl
      simp only [if_true, List.cons.injEq, and_true, exists_eq_left', ← hidle, ← h3.2]
      simp [lastOnTimeout, lotValid, hl, or_assoc]
  · intro b hb
    simp only [Circuit.wave, c]
    generalize hs : (lastOnTimeout t).st i n = s at *
    cases hl : s.loaded
    · rw [hl] at hb; simp at hb
    · have h3 := h3 hl
      rw [hl] at hb
      simp only [if_true, List.cons.injEq, and_true] at hb
      rw [hb] at h3
      rw [← hidle, ← h3.1, ← h3.2]
      simp [lastOnTimeout]

/-- C13: a new beat is accepted whenever nothing is offered or the offered beat is being taken. -/
theorem C13_lastontimeout_ready (t : Nat) (i : Nat → SIn α) (n : Nat) :
    ((lastOnTimeout t).wave i n).ready = true ↔
      ((lastOnTimeout t).wave i n).valid = false ∨ (i n).ready = true := by
  simp only [Circuit.wave]
  generalize (lastOnTimeout t).st i n = s
  simp [lastOnTimeout]

/-- C13: for a sender that holds its beats, an offered beat is not withdrawn and its data does not
change under back-pressure. -/
theorem C13_lastontimeout_data_stable (t : Nat) (i : Nat → SIn α)
    (hs : SinkStable (lastOnTimeout t) i) :
    Stable (fun k => ((lastOnTimeout t).wave i k).valid) (fun k => (i k).ready)
      (fun k => ((lastOnTimeout t).wave i k).beat.payload) := by
  intro n hv hr
  have hst := hs n
  simp only [Circuit.wave, Circuit.st_succ] at *
  generalize (lastOnTimeout t).st i n = s at *
  have hv' : lotValid s (i n) = true := hv
  have hnr : ((lastOnTimeout t).out s (i n)).ready = false := by
    simp [lastOnTimeout, hv', hr]
  have hl : s.loaded = true ∧ (s.lastR = true ∨ (i n).valid = true ∨ s.timer = 0) := by
    simp only [lotValid, Bool.if_false_right, Bool.and_true, Bool.and_eq_true,
      Bool.or_eq_true, beq_iff_eq, decide_eq_true_eq] at hv'
    exact ⟨hv'.1, by rcases hv'.2 with (h | h) | h <;> simp [h]⟩
  have hnext : (lastOnTimeout t).next s (i n)
      = { s with timer := (waitTimer t).next s.timer (!(i n).valid) } := by
    simp [lastOnTimeout, hv', hr]
  rw [hnext]
  refine ⟨?_, rfl⟩
  change lotValid _ (i (n + 1)) = true
  cases hvn : (i n).valid
  · rcases hl.2 with h | h | h
    · simp [lotValid, hl.1, h]
    · rw [hvn] at h; cases h
    · simp [lotValid, hl.1, h, waitTimer]
  · have := (hst hvn hnr).1
    simp [lotValid, hl.1, this]

/-- Offered beat (payload and `last`) of LastOnTimeout under the stream rule: the full claim of C61. -/
def LastStable (t : Nat) (i : Nat → SIn α) : Prop :=
  SinkStable (lastOnTimeout t) i → SourceStable (lastOnTimeout t) i

/-- Timeout 2: one beat, then idle, then a second beat arriving while the receiver stalls. -/
def lotSample : Nat → SIn Nat := fun n =>
  ⟨n == 0 || 4 ≤ n, ⟨false, false, if n == 0 then 5 else 6⟩, false⟩

/-- C61 (full claim, refuted): with `timeout = 2`, an inserted `last` is withdrawn while the beat is
stalled, when new data arrives. -/
theorem C61_lastontimeout_last_refuted : ¬ ∀ (t : Nat) (i : Nat → SIn Nat), LastStable t i := by
  intro h
  have hs : SinkStable (lastOnTimeout 2) lotSample := by
    intro n hv hr
    match n with
    | 0 => revert hr; decide
    | 1 => revert hv; decide
    | 2 => revert hv; decide
    | 3 => revert hv; decide
    | n + 4 => exact ⟨by simp [lotSample], by simp [lotSample]⟩
  have := (h 2 lotSample hs) 4 (by decide) (by decide)
  revert this; decide

theorem lot_timer_zero (i : Nat → SIn α) (n : Nat) : ((lastOnTimeout 0).st i n).timer = 0 := by
  refine Circuit.st_invariant (lastOnTimeout (α := α) 0) (fun s => s.timer = 0) rfl (fun s x h => ?_) i n
  have : (waitTimer 0).next s.timer (!x.valid) = 0 := by
    rw [h]; cases x.valid <;> rfl
  simp only [lastOnTimeout]
  split
  · exact this
  · split <;> exact this

/-- C61 (partial): an offered beat stays on offer with its payload, and without mark if it had none; its mark stays exactly if
the beat carried `last` itself, or no new beat has arrived (or the timeout is zero). Missing: the case of an inserted `last`
followed by new data, where the claim is false. -/
theorem C61_lastontimeout_last_partial (t : Nat) (i : Nat → SIn α) (hst : SinkStable (lastOnTimeout t) i) (n : Nat)
    (hv : ((lastOnTimeout t).wave i n).valid = true) (hr : (i n).ready = false) :
    ((lastOnTimeout t).wave i (n + 1)).valid = true ∧
    ((lastOnTimeout t).wave i (n + 1)).beat.payload = ((lastOnTimeout t).wave i n).beat.payload ∧
    (((lastOnTimeout t).wave i (n + 1)).beat.last = true ↔ ((lastOnTimeout t).wave i n).beat.last = true ∧
      ((i n).valid = false ∨ ((accepted (lastOnTimeout t) i n).getLastD zeroBeat).last = true ∨ t = 0)) := by
  have hs := hst n
  have htz : t = 0 → ((lastOnTimeout t).st i n).timer = 0 := by
    intro h; subst h; exact lot_timer_zero i n
  obtain ⟨A', h1, h2, h3⟩ := lot_inv t i n
  simp only [Circuit.wave, Circuit.st_succ] at *
  generalize (lastOnTimeout t).st i n = s at *
  generalize accepted (lastOnTimeout t) i n = A at *
  have hv' : lotValid s (i n) = true := hv
  have hl : s.loaded = true := by
    rw [← Bool.not_eq_false]; intro h; simp [lotValid, h] at hv'
  have hnext : (lastOnTimeout t).next s (i n)
      = { s with timer := (waitTimer t).next s.timer (!(i n).valid) } := by
    simp [lastOnTimeout, hv', hr]
  rw [hnext]
  have hrdy : ((lastOnTimeout t).out s (i n)).ready = false := by simp [lastOnTimeout, hv', hr]
  have hor : s.lastR = true ∨ (i n).valid = true ∨ s.timer = 0 := by
    simp [lotValid, hl] at hv'
    rcases hv' with (h | h) | h
    · exact .inl h
    · exact .inr (.inl h)
    · exact .inr (.inr h)
  rw [← (h3 hl).2]
  change lotValid { s with timer := (waitTimer t).next s.timer (!(i n).valid) } (i (n + 1)) = true ∧ s.data = s.data ∧
    ((s.lastR || (waitTimer t).next s.timer (!(i n).valid) == 0) = true ↔ (s.lastR || s.timer == 0) = true ∧ _)
  refine ⟨?_, rfl, ?_⟩
  · cases hiv : (i n).valid with
    | true =>
      have := (hs hiv hrdy).1
      simp [lotValid, hl, this]
    | false =>
      rcases hor with h | h | h
      · simp [lotValid, hl, h]
      · rw [hiv] at h; cases h
      · simp [lotValid, hl, waitTimer, h]
  · cases hiv : (i n).valid with
    | true => cases hlr : s.lastR <;> simp [waitTimer]; exact htz
    | false =>
      rcases hor with h | h | h
      · simp [h]
      · rw [hiv] at h; cases h
      · simp [waitTimer, h]

example : SinkStable (lastOnTimeout 2) (fun n => (⟨n == 0, ⟨true, false, 5⟩, 5 ≤ n⟩ : SIn Nat)) := by
  intro n hv hr
  match n with
  | 0 => revert hr; decide
  | n + 1 => simp at hv
example : delivered (lastOnTimeout 2) (fun n => (⟨n == 0, ⟨true, false, 5⟩, 5 ≤ n⟩ : SIn Nat)) 6 =
    [⟨false, true, 5⟩] := by decide

end LastOnTimeout

end Lambdalib
