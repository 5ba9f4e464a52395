import Verif.Lemmas.Commands

/-!
Generation of samples from a network file.
-/

namespace FastPGM

open Spec

section store

theorem numbered_key {values : List Str} (k : Nat) (hk : k < values.length) :
    (numbered values).find? (fun p => p.2 = (k : Int)) = some (values[k], (k : Int)) := by
  have gen : ∀ (l : List Str) (b k : Nat) (hk : k < l.length),
      ((l.zipIdx b).map (fun x : Str × Nat => (x.1, (x.2 : Int)))).find? (fun p => p.2 = ((b + k : Nat) : Int)) = some (l[k], ((b + k : Nat) : Int)) := by
    intro l
    induction l with
    | nil => intro b k hk; simp at hk
    | cons x l ih =>
      intro b k hk
      rw [List.zipIdx_cons, List.map_cons, List.find?_cons]
      cases k with
      | zero => simp
      | succ k =>
        have : decide ((b : Int) = ((b + (k + 1) : Nat) : Int)) = false := by
          rw [decide_eq_false_iff_not]
          omega
        simp only [this]
        have := ih (b + 1) k (by simpa using hk)
        rw [show b + 1 + k = b + (k + 1) by omega] at this
        rw [this]
        rfl
  have := gen values 0 k hk
  simpa [numbered] using this

/-- The CSV text of samples, written with the names of the values. -/
theorem storeCSV_samples {vs : List VarDecl} (h0 : vs ≠ []) (hlab : ∀ v ∈ vs, ∀ s ∈ v.values, s ≠ []) {samples : List (List Nat)}
    (hs : ∀ s ∈ samples, ∀ j < vs.length, s.getD j 0 < declCard vs j) (D : Dataset) (hids : D.valueIds = vs.map (fun v => numbered v.values))
    (hnum : D.numVars = vs.length) (hnames : D.varNames = vs.map VarDecl.name) (hinst : D.numInstance = samples.length)
    (hrows : D.rows = samples.map (fun s => (List.range vs.length).map (fun i : Nat => ((i : Int), ((s.getD i 0 : Nat) : Int))))) :
    D.storeCSV true = .ok (textOf (csvLine (vs.map VarDecl.name) ::
      samples.map (fun s => csvLine ((List.range vs.length).map (fun j => (labels vs j).getD (s.getD j 0) []))))) := by
  have hpos := List.length_pos_iff.2 h0
  have hn : vs.map VarDecl.name ≠ [] := by simpa using h0
  unfold Dataset.storeCSV
  rw [if_neg (by simp [hnames, hids, h0]), if_neg (by simp [hnum, hnames]), hnames, popBack_join hn, ok_bind, hinst]
  have h := foldlM_range_rd D.rows (storeStep D) (csvLine (vs.map VarDecl.name) ++ [10])
  rw [hrows, List.length_map, ← hrows] at h
  refine Eq.trans h ?_
  rw [hrows]
  have row : ∀ s ∈ samples, ∀ out, storeStep D out ((List.range vs.length).map (fun i : Nat => ((i : Int), ((s.getD i 0 : Nat) : Int)))) =
      .ok (out ++ csvLine ((List.range vs.length).map (fun j => (labels vs j).getD (s.getD j 0) [])) ++ [10]) := by
    intro s hsm out
    unfold storeStep
    rw [List.foldlM_map, hnum, replicate_eq_tab]
    rw [foldlM_pointwise (g := fun j => (labels vs j).getD (s.getD j 0) []) (by
      intro i hi f _
      have hv := hs s hsm i hi
      rw [declCard_labels] at hv
      have hkey : (labels vs i)[s.getD i 0] ≠ [] := by
        refine hlab vs[i] (List.getElem_mem hi) _ ?_
        rw [← labels_eq hi]
        exact List.getElem_mem hv
      unfold storeCell
      rw [if_pos rfl]
      have e1 : rdI D.valueIds (i : Int) = .ok (numbered (labels vs i)) := by
        rw [rdI, if_neg (by omega), Int.toNat_natCast, hids, labels_eq hi]
        exact rd_ok (by rw [List.getElem?_map, List.getElem?_eq_getElem hi]; rfl)
      rw [e1, ok_bind, numbered_key _ hv]
      simp only
      rw [if_neg hkey, wrI, if_neg (by omega), Int.toNat_natCast, wr_ok (by simpa using hi), set_tab]
      rw [List.getD_eq_getElem?_getD (l := labels vs i), List.getElem?_eq_getElem hv]
      rfl), ok_bind]
    rw [show tab vs.length (fun j => (labels vs j).getD (s.getD j 0) []) =
      (List.range vs.length).map (fun j => (labels vs j).getD (s.getD j 0) []) from rfl, popBack_join, ok_bind]
    · rfl
    · simpa using h0
  have all : ∀ (l : List (List Nat)), (∀ s ∈ l, s ∈ samples) → ∀ out,
      (l.map (fun s => (List.range vs.length).map (fun i : Nat => ((i : Int), ((s.getD i 0 : Nat) : Int))))).foldlM (storeStep D) out =
      .ok (out ++ textOf (l.map (fun s => csvLine ((List.range vs.length).map (fun j => (labels vs j).getD (s.getD j 0) []))))) := by
    intro l
    induction l with
    | nil => intro _ out; simp [textOf]
    | cons s l ih =>
      intro h out
      rw [List.map_cons, List.foldlM_cons, row s (h s (by simp)), ok_bind, ih (fun x hx => h x (by simp [hx])), List.map_cons, textOf_cons]
      simp
  rw [all samples (fun _ h => h), textOf_cons]
  simp

theorem svmTesting_keeps {D D' : Dataset} {file : Str} {cls : Int} (h : D.loadLIBSVMTesting file cls = .ok D') :
    D'.valueIds = D.valueIds ∧ D'.numVars = D.numVars := by
  unfold Dataset.loadLIBSVMTesting at h
  obtain ⟨rows, _, h⟩ := bind_eq_ok h
  cases h
  exact ⟨rfl, rfl⟩

end store

section generate

variable {K ω : Type}

theorem getTopoOrd_edges (N : Net) (es : List Edge) :
    ({ N with edges := es } : Net).getTopoOrd = N.getTopoOrd.map (fun p => (p.1, { p.2 with edges := es })) := by
  unfold Net.getTopoOrd
  show (if N.topo = [] then _ else _) = _
  split
  · show (N.genTopoOrd >>= _) = _
    cases N.genTopoOrd <;> rfl
  · rfl

/-- Sampling does not look at the edge list. -/
theorem generateSamples_edges [Zero K] (draw : List K → ω → Except Fault Nat) (N : Net) (es : List Edge)
    (prob : Nat → Nat → Config → Except Fault K) (m : Nat) (rnd : Nat → Nat → ω) :
    generateSamples draw ({ N with edges := es } : Net) prob m rnd =
      (generateSamples draw N prob m rnd).map (fun p => (p.1, { p.2 with edges := es })) := by
  unfold generateSamples
  show (sampleTables N prob >>= _) = _
  cases sampleTables N prob with
  | error f => rfl
  | ok cpts =>
    simp only [ok_bind]
    have gen : ∀ (l : List Nat) (S : List (List Nat)) (M : Net),
        l.foldlM (fun (st : List (List Nat) × Net) i => (do
          let (ord, N) ← st.2.getTopoOrd
          let s ← sampleOne draw cpts ord (rnd i) (← rd st.1 i)
          return (← wr st.1 i s, N) : Except Fault _)) (S, ({ M with edges := es } : Net)) =
        (l.foldlM (fun (st : List (List Nat) × Net) i => (do
          let (ord, N) ← st.2.getTopoOrd
          let s ← sampleOne draw cpts ord (rnd i) (← rd st.1 i)
          return (← wr st.1 i s, N) : Except Fault _)) (S, M)).map (fun p => (p.1, { p.2 with edges := es })) := by
      intro l
      induction l with
      | nil => intro S M; rfl
      | cons i l ih =>
        intro S M
        rw [List.foldlM_cons, List.foldlM_cons]
        simp only [getTopoOrd_edges]
        cases hg : M.getTopoOrd with
        | error f => rfl
        | ok p =>
          obtain ⟨ord, M'⟩ := p
          simp only [Except.map, ok_bind]
          cases hr : rd S i with
          | error f => rfl
          | ok s0 =>
            simp only [ok_bind]
            cases h1 : sampleOne draw cpts ord (rnd i) s0 with
            | error f => rfl
            | ok s =>
              simp only [ok_bind]
              cases h2 : wr S i s with
              | error f => rfl
              | ok S' =>
                simp only [ok_bind, pure_eq_ok]
                exact ih S' M'
    exact gen _ _ _

theorem getTopoOrd_nodes {N M : Net} {ord : List Nat} (h : N.getTopoOrd = .ok (ord, M)) : M.nodes = N.nodes := by
  unfold Net.getTopoOrd at h
  split at h
  · obtain ⟨o, _, h⟩ := bind_eq_ok h
    cases h
    rfl
  · cases h
    rfl

theorem generateSamples_nodes [Zero K] {draw : List K → ω → Except Fault Nat} {N M : Net} {prob : Nat → Nat → Config → Except Fault K}
    {m : Nat} {rnd : Nat → Nat → ω} {samples : List (List Nat)} (h : generateSamples draw N prob m rnd = .ok (samples, M)) :
    M.nodes = N.nodes := by
  unfold generateSamples at h
  obtain ⟨cpts, _, h⟩ := bind_eq_ok h
  have gen : ∀ (l : List Nat) (st st' : List (List Nat) × Net), l.foldlM (fun (st : List (List Nat) × Net) i => (do
          let (ord, N) ← st.2.getTopoOrd
          let s ← sampleOne draw cpts ord (rnd i) (← rd st.1 i)
          return (← wr st.1 i s, N) : Except Fault _)) st = .ok st' → st'.2.nodes = st.2.nodes := by
    intro l
    induction l with
    | nil => intro st st' h; cases h; rfl
    | cons i l ih =>
      intro st st' h
      rw [List.foldlM_cons] at h
      obtain ⟨st1, h1, h2⟩ := bind_eq_ok h
      rw [ih _ _ h2]
      obtain ⟨⟨ord, M1⟩, h3, h1⟩ := bind_eq_ok h1
      obtain ⟨s0, _, h1⟩ := bind_eq_ok h1
      obtain ⟨s, _, h1⟩ := bind_eq_ok h1
      obtain ⟨S, _, h1⟩ := bind_eq_ok h1
      cases h1
      exact getTopoOrd_nodes h3
  exact gen _ _ _ h

end generate

end FastPGM
