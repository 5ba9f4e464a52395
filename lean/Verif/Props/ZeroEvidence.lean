import Verif.Lemmas.JTZero
import Verif.Props.JunctionTreeInference

/-!
Property C83: which evidence the junction tree can answer for.
-/

namespace FastPGM

open Spec

variable {K : Type} [Field K] [LinearOrder K] [IsStrictOrderedRing K]

variable {dims : List Nat} {ops : List EdgeOp} {N : Net} {order : List (Nat × Nat) → List (Nat × Nat)} {cord : Nat → List Nat} {card : Nat → Nat}
  {pts : List (Table K)}

/-- C83.  The messages can be passed without a division 0 / 0 iff the evidence has positive probability. -/
theorem C83_propagates_iff (hops : ∀ op ∈ ops, OpInRange dims.length op) (hN : (Net.empty dims).run ops = .ok N) (h0 : dims ≠ [])
    (hw : WeaklyConnected N) (horder : ∀ l, (order l).Perm l) (hcord : ∀ m, (cord m).Perm (List.range m)) (hpts : NodeTables card N pts)
    (hnn : ∀ T ∈ pts, ∀ x ∈ T.pot, 0 ≤ x) :
    ∃ J, buildJunctionTree N card pts order cord = .ok J ∧
      ∀ E : List (Nat × Nat), (E.map Prod.fst).Nodup → (∀ e ∈ E, e.1 < dims.length ∧ e.2 < card e.1) →
        ((∃ st, propagate J.levels J.n E J.state = .ok st) ↔ weight card dims.length (joint pts) (Agrees E) ≠ 0) := by
  obtain ⟨hinv, hlen⟩ := netInv_of_run hops hN
  obtain ⟨J, T, L, r, lev, par, ch, F, h1, hb⟩ := built_of_run (K := K) hops hN h0 hw horder hcord hpts
  have hcard := (nodeTables_facts hpts).1
  refine ⟨J, h1, fun E hEn hE => ?_⟩
  rw [← hlen] at hE ⊢
  constructor
  · rintro ⟨st, e⟩ hz
    rw [hb.propagate_zero hcard hnn hEn hE hz] at e
    cases e
  · intro hpos
    obtain ⟨st, e, _⟩ := hb.marginal hinv hcard hnn hEn (fun e he => (hE e he).1) hpos
    exact ⟨st, e⟩

/-- C83.  Given evidence of probability 0, every query is answered with numbers that are none. -/
theorem C83_zero_nan (hops : ∀ op ∈ ops, OpInRange dims.length op) (hN : (Net.empty dims).run ops = .ok N) (h0 : dims ≠ [])
    (hw : WeaklyConnected N) (horder : ∀ l, (order l).Perm l) (hcord : ∀ m, (cord m).Perm (List.range m)) (hpts : NodeTables card N pts)
    (hnn : ∀ T ∈ pts, ∀ x ∈ T.pot, 0 ≤ x) :
    ∃ J, buildJunctionTree N card pts order cord = .ok J ∧
      ∀ E : List (Nat × Nat), (E.map Prod.fst).Nodup → (∀ e ∈ E, e.1 < dims.length ∧ e.2 < card e.1) →
        weight card dims.length (joint pts) (Agrees E) = 0 →
        J.probabilities E = .error .nan ∧ ∀ q, J.marginal E q = .error .nan ∧ J.predict E q = .error .nan := by
  obtain ⟨hinv, hlen⟩ := netInv_of_run hops hN
  obtain ⟨J, T, L, r, lev, par, ch, F, h1, hb⟩ := built_of_run (K := K) hops hN h0 hw horder hcord hpts
  have hcard := (nodeTables_facts hpts).1
  refine ⟨J, h1, fun E hEn hE hz => ?_⟩
  rw [← hlen] at hE hz
  have e := hb.propagate_zero hcard hnn hEn hE hz
  refine ⟨?_, fun q => ⟨?_, ?_⟩⟩
  · unfold JTree.probabilities
    rw [e]
    rfl
  · unfold JTree.marginal
    rw [e]
    rfl
  · unfold JTree.predict
    rw [e]
    rfl

/-- Evidence of probability 0 in the diamond, spread over three nodes such that each pair of them is possible. -/
example : weight (fun _ => 2) 4 (joint diamondTables) (Agrees [(3, 1), (1, 0), (2, 0)]) = 0 ∧
    weight (fun _ => 2) 4 (joint diamondTables) (Agrees [(3, 1), (1, 0)]) ≠ 0 ∧
    weight (fun _ => 2) 4 (joint diamondTables) (Agrees [(3, 1), (2, 0)]) ≠ 0 ∧
    weight (fun _ => 2) 4 (joint diamondTables) (Agrees [(1, 0), (2, 0)]) ≠ 0 := by decide +kernel

end FastPGM
