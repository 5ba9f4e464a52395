import Verif.Spec.Commands
import Verif.Model.Commands
import Verif.Lemmas.Pipeline2
import Verif.Props.XmlNetwork
import Verif.Props.Evaluation
import Verif.Props.Sampler

/-!
The rows of a data file for the variables of a network file; the loaded network as a whole.
-/

namespace FastPGM

open Spec

theorem numbered_find (values : List Str) (s : Str) :
    (numbered values).find s = if s ∈ values then some ((values.idxOf s : Nat) : Int) else none := by
  have gen : ∀ (l : List Str) (k : Nat), ((l.zipIdx k).map (fun x : Str × Nat => (x.1, (x.2 : Int)))).lookup s =
      if s ∈ l then some ((k + l.idxOf s : Nat) : Int) else none := by
    intro l
    induction l with
    | nil => intro k; rfl
    | cons x l ih =>
      intro k
      rw [List.zipIdx_cons, List.map_cons, List.lookup_cons]
      by_cases h : s = x
      · subst h
        simp
      · have h' : (s == x) = false := by simpa using h
        have h'' : x ≠ s := fun e => h e.symm
        simp only [h', ih]
        by_cases hs : s ∈ l
        · rw [if_pos hs, if_pos (by simp [hs]), List.idxOf_cons_ne _ h'']
          congr 2
          omega
        · rw [if_neg hs, if_neg (by simp [h, hs])]
  have := gen values 0
  unfold ValueMap.find numbered
  rw [this]
  simp

theorem labels_eq {vs : List VarDecl} {j : Nat} (h : j < vs.length) : labels vs j = vs[j].values := by
  unfold labels
  rw [List.getD_eq_getElem?_getD, List.getElem?_map, List.getElem?_eq_getElem h]
  rfl

theorem declCard_labels (vs : List VarDecl) (j : Nat) : declCard vs j = (labels vs j).length := by
  unfold declCard labels
  rw [List.getD_eq_getElem?_getD, List.getD_eq_getElem?_getD, List.getElem?_map, List.getElem?_map]
  cases vs[j]? <;> rfl

theorem namedCells_sorted (vs : List VarDecl) (r : List Str) : (namedCells vs r).Pairwise (fun x y => x.1 < y.1) := by
  unfold namedCells
  rw [List.pairwise_map]
  exact List.Pairwise.filter _ List.pairwise_lt_range

theorem namedCells_mem {vs : List VarDecl} {r : List Str} {e : Nat × Nat} (he : e ∈ namedCells vs r) : e.1 < vs.length ∧ e.2 < declCard vs e.1 := by
  unfold namedCells at he
  obtain ⟨j, hj, rfl⟩ := List.mem_map.1 he
  rw [List.mem_filter, List.mem_range] at hj
  obtain ⟨h1, h2⟩ := hj
  simp only [decide_eq_true_eq] at h2
  refine ⟨h1, ?_⟩
  rw [declCard_labels]
  exact List.idxOf_lt_length_iff.2 h2.2

theorem namedCells_tail_nodup (vs : List VarDecl) (r : List Str) : ((namedCells vs r).tail.map Prod.fst).Nodup := by
  have h := (namedCells_sorted vs r).sublist (List.tail_sublist _)
  rw [List.Nodup, List.pairwise_map]
  exact h.imp (fun hlt => by omega)

theorem namedCells_class {vs : List VarDecl} (hn : vs ≠ []) {r : List Str} (h : Named vs r 0) :
    namedCells vs r = (0, (labels vs 0).idxOf (cellText r 0)) :: evidenceCells vs r := by
  obtain ⟨m, hm⟩ : ∃ m, vs.length = m + 1 := ⟨vs.length - 1, by have := List.length_pos_iff.2 hn; omega⟩
  unfold namedCells evidenceCells
  rw [hm, List.range_succ_eq_map, List.filter_cons, if_pos (by simpa using h), List.filter_cons, if_neg (by simp), List.map_cons, List.cons.injEq]
  refine ⟨rfl, ?_⟩
  congr 1
  apply List.filter_congr
  intro j hj
  obtain ⟨k, _, rfl⟩ := List.mem_map.1 hj
  simp

/-- The rows of the test data set. -/
theorem named_rows (vs : List VarDecl) (T : List (List Str)) :
    (T.map (fun r => (List.range vs.length).filterMap (fun j =>
      if cellText r j = [] then none
      else (((vs.map (fun v => numbered v.values)).getD j []).find (cellText r j)).map (fun v => ((j : Int), v))))).map
        (fun r => r.map (fun p => (p.1.toNat, p.2.toNat))) = T.map (namedCells vs) := by
  rw [List.map_map]
  apply List.map_congr_left
  intro r _
  simp only [Function.comp]
  unfold namedCells
  generalize hids : vs.map (fun v => numbered v.values) = ids
  rw [List.map_filterMap, ← List.filterMap_eq_map, List.filterMap_filter]
  apply List.filterMap_congr
  intro j hj
  rw [List.mem_range] at hj
  have hv : ids.getD j [] = numbered (labels vs j) := by
    rw [← hids, labels_eq hj, List.getD_eq_getElem?_getD, List.getElem?_map, List.getElem?_eq_getElem hj]
    rfl
  rw [hv, numbered_find]
  by_cases h1 : cellText r j = []
  · have : ¬ Named vs r j := fun h => h.1 h1
    simp [h1, this]
  · by_cases h2 : cellText r j ∈ labels vs j
    · have : Named vs r j := ⟨h1, h2⟩
      simp [h1, h2, this]
    · have : ¬ Named vs r j := fun h => h2 h.2
      simp [h1, h2, this]

/-- A list of length at least one is its head and tail; the evidence is the tail. -/
theorem namedCells_evidence {vs : List VarDecl} {r : List Str} (h : namedCells vs r ≠ []) :
    ∃ g, instanceEvidence 0 (namedCells vs r) = .ok ((namedCells vs r).tail, g) := by
  have hs := namedCells_sorted vs r
  cases e : namedCells vs r with
  | nil => exact absurd e h
  | cons p rest =>
    rw [e] at hs
    exact ⟨_, instanceEvidence_sorted hs⟩

section network

variable {K : Type} [Field K] [LinearOrder K] [IsStrictOrderedRing K]

omit [LinearOrder K] [IsStrictOrderedRing K] in
theorem posterior_congr {card : Nat → Nat} {n : Nat} {p p' : Assignment → K} (hc : ∀ i < n, 0 < card i)
    (h : ∀ a, InRange card (List.range n) a → p a = p' a) (E : List (Nat × Nat)) : posterior card n p E = posterior card n p' E := by
  funext q x
  unfold posterior
  rw [weight_congr hc h, weight_congr hc h]

/-- The loaded network and its tables. -/
theorem network_facts {stod : Str → Except Fault K} {toCount : K → Int} {vs : List VarDecl} {ts : List (TableDecl K)} (h : GoodDescription vs ts)
    {doc : XmlDoc} (hd : XmlDescribes stod doc vs ts) (hnn : ∀ t ∈ ts, ∀ e ∈ t.entries, 0 ≤ toCount e)
    (hconn : ∀ i j, i < vs.length → j < vs.length → Relation.ReflTransGen (fun p c => DeclEdge ts p c ∨ DeclEdge ts c p) i j) :
    ∃ (F : NetFile) (ops : List EdgeOp) (R : Net) (pts : List (Table K)), loadXMLBIF stod toCount doc = .ok F ∧ HoldsNetwork vs ts F ∧
      F.net.card = declCard vs ∧ F.net.nodes.map NodeS.dim = (List.range vs.length).map (declCard vs) ∧
      (∀ op ∈ ops, OpInRange (vs.map (fun v => v.values.length)).length op) ∧
      (Net.empty (vs.map (fun v => v.values.length))).run ops = .ok R ∧ WeaklyConnected R ∧ sampleTables F.net F.prob = .ok pts ∧
      NodeTables (declCard vs) R pts ∧ (∀ T ∈ pts, ∀ x ∈ T.pot, 0 < x) ∧ (∀ i < vs.length, 0 < declCard vs i) ∧
      (∀ a, InRange (declCard vs) (List.range vs.length) a → joint pts a = fileJoint toCount vs ts a) ∧
      (∀ (E : List (Nat × Nat)), (E.map Prod.fst).Nodup → (∀ e ∈ E, e.1 < vs.length ∧ e.2 < declCard vs e.1) →
        weight (declCard vs) vs.length (joint pts) (Agrees E) ≠ 0) ∧
      ∀ order cord, buildJunctionTree F.net (declCard vs) pts order cord = buildJunctionTree R (declCard vs) pts order cord := by
  obtain ⟨F, hF, hH, _⟩ := C64_load toCount h hd
  obtain ⟨F', G, nm, hnm, hF', hG, e⟩ := xml_load toCount h hd
  rw [hF] at hF'
  cases hF'
  obtain ⟨ops, R, pts, h1, h2, h3, h4, h5, _, h7, h8, h9, h10, h11⟩ := loaded_core h hG hnn _ _ _ e hconn
  have hdim : F.net.nodes.map NodeS.dim = (List.range vs.length).map (declCard vs) := by
    refine List.ext_getElem? (fun i => ?_)
    rw [List.getElem?_map, List.getElem?_map]
    by_cases hi : i < vs.length
    · have hs := List.getElem?_eq_getElem (show i < F.net.nodes.length by rw [hH.size]; exact hi)
      rw [hs, List.getElem?_range hi, Option.map_some, Option.map_some, hH.dim i _ hs]
    · rw [List.getElem?_eq_none (by rw [hH.size]; omega), List.getElem?_eq_none (by simpa using hi)]
      rfl
  refine ⟨F, ops, R, pts, hF, hH, ?_, hdim, h1, h2, h3, h4, h5, h7, h8, h9, h10, h11⟩
  funext i
  unfold Net.card
  rw [hdim]
  by_cases hi : i < vs.length
  · exact getD_tab hi
  · rw [List.getD_eq_getElem?_getD, List.getElem?_eq_none (by simpa using hi), declCard, List.getD_eq_getElem?_getD,
      List.getElem?_eq_none (by simpa using hi)]

end network

end FastPGM
