import Verif.Lemmas.JTParallel5
import Verif.Lemmas.ThreadsRace
import Verif.Props.ZeroEvidence

/-!
Property C85: the parallel loops of the junction tree.
-/

namespace FastPGM

open Spec

variable {K : Type} [Field K] [LinearOrder K] [IsStrictOrderedRing K]

variable {dims : List Nat} {ops : List EdgeOp} {N : Net} {order : List (Nat × Nat) → List (Nat × Nat)} {cord : Nat → List Nat} {card : Nat → Nat}
  {pts : List (Table K)}

/-- C85.  Whatever the number of threads, the distribution of the iterations and the order of the accesses to memory, a query has one outcome:
that of the sequential query.  So there are no data races, and no deadlock or endless run. -/
theorem C85_one_outcome (hops : ∀ op ∈ ops, OpInRange dims.length op) (hN : (Net.empty dims).run ops = .ok N) (h0 : dims ≠ [])
    (hw : WeaklyConnected N) (horder : ∀ l, (order l).Perm l) (hcord : ∀ m, (cord m).Perm (List.range m)) (hpts : NodeTables card N pts)
    (hnn : ∀ T ∈ pts, ∀ x ∈ T.pot, 0 ≤ x) :
    ∃ J, buildJunctionTree N card pts order cord = .ok J ∧
      ∀ p, 0 < p → ∀ E : List (Nat × Nat), (∀ e ∈ E, e.1 < dims.length → e.2 < card e.1) →
        (∀ o, J.probabilitiesP p E o ↔ o = J.probabilities E) ∧
        ∀ q, (∀ o, J.marginalP p E q o ↔ o = J.marginal E q) ∧ ∀ o, J.predictP p E q o ↔ o = J.predict E q := by
  obtain ⟨hinv, hlen⟩ := netInv_of_run hops hN
  obtain ⟨J, T, L, r, lev, par, ch, F, h1, hb⟩ := built_of_run (K := K) hops hN h0 hw horder hcord hpts
  refine ⟨J, h1, fun p hp E hE => ?_⟩
  rw [← hlen] at hE
  have e := hb.propagateP_all hp (nodeTables_facts hpts).1 hnn hE
  have e1 : J.probabilitiesP p E = Par.lift (J.probabilities E) := by
    unfold JTree.probabilitiesP JTree.probabilities
    rw [e]
    simp only [Par.pure_eq, Par.lift_lift]
    rfl
  have e2 : ∀ q, J.marginalP p E q = Par.lift (J.marginal E q) := by
    intro q
    unfold JTree.marginalP JTree.marginal
    rw [e]
    simp only [Par.pure_eq, Par.lift_lift]
    rfl
  have e3 : ∀ q, J.predictP p E q = Par.lift (J.predict E q) := by
    intro q
    unfold JTree.predictP JTree.predict
    rw [e]
    simp only [Par.pure_eq, Par.lift_lift]
    rfl
  refine ⟨fun o => ?_, fun q => ⟨fun o => ?_, fun o => ?_⟩⟩
  · rw [e1]
    rfl
  · rw [e2]
    rfl
  · rw [e3]
    rfl

/-- C85.  Every run with any number of threads answers with the exact posterior and leaves the tree as it was. -/
theorem C85_posterior (hops : ∀ op ∈ ops, OpInRange dims.length op) (hN : (Net.empty dims).run ops = .ok N) (h0 : dims ≠ [])
    (hw : WeaklyConnected N) (horder : ∀ l, (order l).Perm l) (hcord : ∀ m, (cord m).Perm (List.range m)) (hpts : NodeTables card N pts)
    (hnn : ∀ T ∈ pts, ∀ x ∈ T.pot, 0 ≤ x) {E : List (Nat × Nat)} (hEn : (E.map Prod.fst).Nodup) (hE : ∀ e ∈ E, e.1 < dims.length ∧ e.2 < card e.1)
    (hpos : weight card dims.length (joint pts) (Agrees E) ≠ 0) {q : Nat} (hq : q < dims.length) (hqE : q ∉ E.map Prod.fst) :
    ∃ J T, buildJunctionTree N card pts order cord = .ok J ∧ (∀ p, 0 < p → ∀ o, J.marginalP p E q o ↔ o = .ok (T, J)) ∧
      T.vars = [q] ∧ T.pot.length = card q ∧ ∀ x < card q, T.pot[x]? = some (posterior card dims.length (joint pts) E q x) := by
  obtain ⟨J, T, h1, h2, h3⟩ := C42_posterior hops hN h0 hw horder hcord hpts hnn hEn (fun e he => (hE e he).1) hpos hq hqE
  obtain ⟨J', h4, h5⟩ := C85_one_outcome hops hN h0 hw horder hcord hpts hnn
  rw [h1] at h4
  cases h4
  refine ⟨J, T, h1, fun p hp o => ?_, h3⟩
  rw [((h5 p hp E (fun e he _ => (hE e he).2)).2 q).1, h2]

/-- C85.  Every run with any number of threads predicts the first most probable value. -/
theorem C85_predict (hops : ∀ op ∈ ops, OpInRange dims.length op) (hN : (Net.empty dims).run ops = .ok N) (h0 : dims ≠ [])
    (hw : WeaklyConnected N) (horder : ∀ l, (order l).Perm l) (hcord : ∀ m, (cord m).Perm (List.range m)) (hpts : NodeTables card N pts)
    (hnn : ∀ T ∈ pts, ∀ x ∈ T.pot, 0 ≤ x) {E : List (Nat × Nat)} (hEn : (E.map Prod.fst).Nodup) (hE : ∀ e ∈ E, e.1 < dims.length ∧ e.2 < card e.1)
    (hpos : weight card dims.length (joint pts) (Agrees E) ≠ 0) {q : Nat} (hq : q < dims.length) (hqE : q ∉ E.map Prod.fst) :
    ∃ J label, buildJunctionTree N card pts order cord = .ok J ∧ (∀ p, 0 < p → ∀ o, J.predictP p E q o ↔ o = .ok (label, J)) ∧ label < card q ∧
      (∀ x < card q, posterior card dims.length (joint pts) E q x ≤ posterior card dims.length (joint pts) E q label) ∧
      ∀ x < label, posterior card dims.length (joint pts) E q x < posterior card dims.length (joint pts) E q label := by
  obtain ⟨J, T, h1, h2, h3⟩ := C42_predict hops hN h0 hw horder hcord hpts hnn hEn (fun e he => (hE e he).1) hpos hq hqE
  obtain ⟨J', h4, h5⟩ := C85_one_outcome hops hN h0 hw horder hcord hpts hnn
  rw [h1] at h4
  cases h4
  refine ⟨J, T, h1, fun p hp o => ?_, h3⟩
  rw [((h5 p hp E (fun e he _ => (hE e he).2)).2 q).2, h2]

/-- C85.  A test run over a data set has one outcome, that of the sequential test run. -/
theorem C85_predictAll (hops : ∀ op ∈ ops, OpInRange dims.length op) (hN : (Net.empty dims).run ops = .ok N) (h0 : dims ≠ [])
    (hw : WeaklyConnected N) (horder : ∀ l, (order l).Perm l) (hcord : ∀ m, (cord m).Perm (List.range m)) (hpts : NodeTables card N pts)
    (hnn : ∀ T ∈ pts, ∀ x ∈ T.pot, 0 ≤ x) :
    ∃ J, buildJunctionTree N card pts order cord = .ok J ∧
      ∀ p, 0 < p → ∀ evidences : List (List (Nat × Nat)), (∀ E ∈ evidences, ∀ e ∈ E, e.1 < dims.length → e.2 < card e.1) →
        ∀ q o, J.predictAllP p evidences q o ↔ o = J.predictAll evidences q := by
  obtain ⟨J, h1, h2⟩ := C85_one_outcome hops hN h0 hw horder hcord hpts hnn
  refine ⟨J, h1, fun p hp evidences hE q o => ?_⟩
  have key : J.predictAllP p evidences q = Par.lift (J.predictAll evidences q) := by
    unfold JTree.predictAllP JTree.predictAll
    refine (par_foldlM_all (fun st : List Nat × JTree K => st.2 = J) ?_ rfl).1
    rintro ⟨labels, J'⟩ hJ E hm
    have hJ : J' = J := hJ
    subst hJ
    have e : J'.predictP p E q = Par.lift (J'.predict E q) := by
      funext o
      exact propext (((h2 p hp E (hE E hm)).2 q).2 o)
    by_cases h20 : evidences.length / 20 = 0
    · simp only [if_pos h20]
      refine ⟨trivial, fun b' h => ?_⟩
      cases h
    · simp only [if_neg h20]
      constructor
      · rw [e]
        simp only [Par.pure_eq, Par.lift_lift]
        rfl
      · intro b' h
        obtain ⟨⟨label, J1⟩, h3, h⟩ := bind_eq_ok h
        cases h
        exact (C43_unchanged (C43_backup h1) E).1 _ _ _ h3
  rw [key]
  rfl

/-- The hypotheses hold of the diamond, and sixteen threads find what one finds. -/
example : ∃ J T, diamondTree = .ok J ∧ (∀ o, J.marginalP 16 [(3, 1)] 0 o ↔ o = .ok (T, J)) ∧ T.pot = [195 / 419, 224 / 419] := by
  obtain ⟨N, h1, h2, h3, h4, h5⟩ := diamond_hyps
  obtain ⟨J, T, h6, h7, h8, h9, h10⟩ := C85_posterior (dims := [2, 2, 2, 2]) (ops := diamondOps) (order := id) (cord := List.range)
    (E := [(3, 1)]) (q := 0) (by simp [diamondOps, OpInRange]) h1 (by decide) h2 (fun _ => .refl _) (fun _ => .refl _) h3 h4 (by decide) (by decide)
    (by rw [show [2, 2, 2, 2].length = 4 from rfl, h5]; decide +kernel) (by decide) (by decide)
  refine ⟨J, T, ?_, h7 16 (by decide), ?_⟩
  · unfold diamondTree
    rw [h1]
    exact h6
  · have h11 : (List.range 2).map (posterior (fun _ => 2) 4 (joint diamondTables) [(3, 1)] 0) = [195 / 419, 224 / 419] := by decide +kernel
    rw [← h11]
    refine List.ext_getElem? (fun x => ?_)
    by_cases hx : x < 2
    · rw [h10 x hx]
      simp [hx]
    · rw [List.getElem?_eq_none (by rw [h9]; omega), List.getElem?_eq_none (by simp; omega)]

/-- Races are outcomes: a loop whose iterations add 1 to the same counter has one as soon as there are two threads. -/
example (p n : Nat) (hp : 2 ≤ p) (hn : 2 ≤ n) :
    parFor p n (fun _ => Thread.load () >>= fun c => Thread.store () (c + 1)) (fun _ => some (some (0 : Nat))) (.error .ub) :=
  parFor_race_later (a := 0) (b := 1) hp (by omega) (by omega) (by decide) (.step id rfl (.refl _ _)) rfl rfl (Or.inl rfl)

end FastPGM
