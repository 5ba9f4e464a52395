import Verif.Lemmas.SaveFiles2
import Verif.Props.Orientation
import Verif.Props.Learn

/-!
The files that learning writes (C73, C74).
-/

namespace FastPGM

open Spec

/-! ### C73 -/

/-- C73.  The structure file: if the learned edge list and parent sets describe one partially directed graph (C32), then saving succeeds and
the file names every arrow, from parent to child, and every undirected edge, each once, with the number of nodes and of edges in the first
line. -/
theorem C73_structure {n cap fuel : Nat} {G : Nat → Nat → Prop} {bits : Nat → Bool} {dag : Bool} {dims : List Nat} {k : Skeleton} {N : Net}
    (h : orientPhase cap bits dag fuel dims k = .ok N) (hp : PartiallyDirected n G N) (hG : ∀ x y, G x y → x < n ∧ y < n)
    (hne : N.edges ≠ []) {names : List Str} (hnames : names.length = n) :
    ∃ ls, NamesEdges G (ParentOf N) ls ∧ ls.length = N.edges.length ∧
      saveStructure names N.edges.length N = .ok (structureText names n N.edges.length ls) :=
  saveStructure_eq (orientPhase_keep h) (orientPhase_topo h) hp hG hne hnames

/-- C73.  With the verdicts of a graph `D` the file describes the equivalence class of `D`: arrows for the compelled edges, undirected lines
for the others. -/
theorem C73_equivalence_class {D : Nat → Nat → Prop} {n depth : Nat} {ind : Nat → Nat → List Nat → Bool} (h : DOracle D n ind)
    (hdepth : FewParents D depth) (hsome : ∃ x y, D x y) :
    ∃ F, ∀ (ci : CITest) (g cap : Nat) (order : List Nat) (sched : Nat → Schedule) (fuel fuel' room : Nat) (bits : Nat → Bool) (dims : List Nat)
      (names : List Str), Answers ci ind n g → 0 < g → 0 < cap → order.Perm (List.range (n * (n - 1) / 2)) → (∀ d r l, (sched d r l).Perm l) →
      F ≤ fuel → dims.length = n → n * (n - 1) / 2 ≤ room → n * (n - 1) / 2 < fuel' → names.length = n →
      ∃ k N ls, learnSkeleton ci n depth g cap order sched fuel = .ok k ∧ orientPhase room bits false fuel' dims k = .ok N ∧
        NamesEdges (Joined D) (Compelled D) ls ∧ ls.length = N.edges.length ∧
        saveStructure names N.edges.length N = .ok (structureText names n N.edges.length ls) := by
  obtain ⟨F, hF⟩ := C56_recovers h hdepth
  refine ⟨F, ?_⟩
  intro ci g cap order sched fuel fuel' room bits dims names a1 a2 a3 a4 a5 a6 a7 a8 a9 hnames
  obtain ⟨k, N, h1, h2, h3, h4, -, -, -⟩ := hF ci g cap order sched fuel fuel' room bits dims a1 a2 a3 a4 a5 a6 a7 a8 a9
  have hG : ∀ x y, Joined D x y → x < n ∧ y < n := by
    rintro x y (hxy | hxy)
    · exact h.range x y hxy
    · exact (h.range y x hxy).symm
  have hne : N.edges ≠ [] := by
    intro he
    obtain ⟨x, y, hxy⟩ := hsome
    have key : ∀ u v, u < v → Joined D u v → False := by
      intro u v huv hj
      have := (h3.pairs u v huv).1 hj
      rw [he] at this
      simp at this
    rcases Nat.lt_trichotomy x y with hlt | rfl | hlt
    · exact key x y hlt (Or.inl hxy)
    · exact h.acyclic ⟨x, Relation.TransGen.single hxy⟩
    · exact key y x hlt (Or.inr hxy)
  obtain ⟨ls, l1, l2, l3⟩ := C73_structure h2 h3 hG hne hnames
  have hP : ParentOf N = Compelled D := by
    funext x y
    exact propext (h4 x y)
  rw [hP] at l1
  exact ⟨k, N, ls, h1, h2, l1, l2, l3⟩

/-- C73, violation: saving a network without edges is undefined behaviour. -/
theorem C73_no_edges_ub (names : List Str) (numEdges : Nat) {N : Net} (h : N.edges = []) : saveStructure names numEdges N = .error .ub := by
  unfold saveStructure
  rw [h]
  rfl

/-- C73, violation: the edge list decides by its first entry whether only arrows are written.  With the contradicting v-structures of
`C32_duplicate_edge` the file announces six edges and names five; the undirected ones are lost. -/
theorem C73_lost_edges :
    (do let k ← learnSkeleton (singleTest badVerdicts) 6 2 1 128 (List.range 15) (fun _ _ l => l) 100
        let N ← orientPhase 15 (fun _ => false) true 100 [2, 2, 2, 2, 2, 2] k
        saveStructure [lit "a", lit "b", lit "c", lit "d", lit "e", lit "f"] k.edges.length N) =
      .ok (structureText [lit "a", lit "b", lit "c", lit "d", lit "e", lit "f"] 6 6
        [(3, 0, true), (4, 1, true), (5, 2, true), (2, 0, true), (0, 1, true)]) := by
  decide +kernel

/-- The file of `a → c ← b`, `c → d`. -/
example :
    (do let N ← (Net.empty [2, 2, 2, 2]).run [.addDirected 0 2, .addDirected 1 2, .addDirected 2 3]
        saveStructure [lit "a", lit "b", lit "c", lit "d"] 3 N) =
      .ok (lit "number of nodes = 4, number of edges = 3\n0: a/v0 -> c/v2\n1: b/v1 -> c/v2\n2: c/v2 -> d/v3\n") := by
  decide +kernel

/-- A skeleton phase and an orientation that meet the hypotheses: `a - b - c` with all verdicts "independent given b". -/
example :
    (do let k ← learnSkeleton (singleTest (fun x y S => decide ((x, y) = (0, 2) ∧ S = [1]))) 3 2 1 128 (List.range 3) (fun _ _ l => l) 100
        let N ← orientPhase 3 (fun _ => false) false 100 [2, 2, 2] k
        saveStructure [lit "a", lit "b", lit "c"] k.edges.length N) =
      .ok (lit "number of nodes = 3, number of edges = 2\n0: a/v0 -- b/v1\n1: b/v1 -- c/v2\n") := by
  decide +kernel

/-! ### C74 -/

section parameters

variable {K : Type}

/-- C74.  The parameter file: for tables that belong to the nodes, saving writes for every node, in order, each of its conditional
probabilities once, with names and numbers of the values. -/
theorem C74_parameters [Zero K] (fmt : K → Str) {names : List Str} {ids : List (List (Str × Int))} {values : Nat → List Str} {card : Nat → Nat}
    (hl : ∀ v < names.length, ∃ m, ids[v]? = some m ∧ NamesValues m (values v) (card v)) {pts : List (Table K)}
    (hT : ∀ (i : Nat) T, pts[i]? = some T → WellFormed card T ∧ (∃ ps, T.vars = i :: ps) ∧ ∀ v ∈ T.vars, v < names.length) :
    saveParameters fmt names ids pts.length pts = .ok (parameterText fmt names values pts) :=
  saveParameters_eq fmt hl hT

/-- C74.  After learning from data the numbers are the smoothed relative frequencies. -/
theorem C74_learned [Field K] [LinearOrder K] [IsStrictOrderedRing K] (fmt : K → Str) {names : List Str} {ids : List (List (Str × Int))}
    {values : Nat → List Str} {card : Nat → Nat} {N : Net} (hN : NetShape card N) (hnames : names.length = N.nodes.length)
    (hl : ∀ v < names.length, ∃ m, ids[v]? = some m ∧ NamesValues m (values v) (card v)) {cols : List (List Nat)} {rows : List Assignment}
    (hc : Columns card N.nodes.length cols rows) {alpha : Int} (ha : 0 < alpha) (rnd : Nat → Nat → Nat) :
    (do let pts : List (Table K) ← learnParams N cols N.nodes.length rows.length alpha rnd []
        saveParameters fmt names ids N.nodes.length pts) =
      .ok (textOf (N.nodes.mapIdx (fun i s => (configsOf ((i :: s.parents).map card)).map (fun c =>
        parameterLine names values i s.parents c (fmt (((countSame rows (i :: s.parents) (ofConfig (i :: s.parents) c) : K) + (alpha : K)) /
          ((countSame rows s.parents (ofConfig (i :: s.parents) c) : K) + (alpha : K) * (card i : K))))))).flatten) := by
  obtain ⟨new, h1, h2, h3⟩ := C22_learned (K := K) hN hc (le_of_lt ha) (fun h => absurd h (by omega)) rnd []
  rw [h1, ok_bind, List.nil_append, ← h2]
  have hT : ∀ (i : Nat) T, new[i]? = some T → ∃ s, N.nodes[i]? = some s ∧ IsFrequencyTable card rows alpha i s.parents T := by
    intro i T e
    have hi : i < N.nodes.length := by rw [← h2]; exact (List.getElem?_eq_some_iff.1 e).1
    obtain ⟨T', e', hf⟩ := h3 i _ (List.getElem?_eq_getElem hi)
    rw [e] at e'
    cases e'
    exact ⟨_, List.getElem?_eq_getElem hi, hf⟩
  rw [C74_parameters fmt hl]
  · unfold parameterText
    congr 3
    apply List.ext_getElem?
    intro i
    rw [List.getElem?_mapIdx, List.getElem?_mapIdx]
    by_cases hi : i < N.nodes.length
    · obtain ⟨T, e, hw, hv, hval⟩ := h3 i _ (List.getElem?_eq_getElem hi)
      rw [e, List.getElem?_eq_getElem hi, Option.map_some, Option.map_some]
      congr 1
      have hdims : T.dims = (i :: N.nodes[i].parents).map card := by rw [hw.dims, hv]
      rw [hdims, hv]
      refine List.map_congr_left (fun c hcm => ?_)
      rw [List.tail_cons]
      congr 2
      refine hval _ ?_
      rw [configsOf_eq] at hcm
      obtain ⟨j, hj, rfl⟩ := List.mem_map.1 hcm
      have hin := digits_in (List.mem_range.1 hj)
      intro v hvm
      have hidx := List.idxOf_lt_length_iff.2 hvm
      have hlen : (digits ((i :: N.nodes[i].parents).map card) j).length = (i :: N.nodes[i].parents).length := by
        rw [digits_length, List.length_map]
      have hk : (i :: N.nodes[i].parents).idxOf v < (digits ((i :: N.nodes[i].parents).map card) j).length := by rw [hlen]; exact hidx
      have := (List.forall₂_iff_get.1 hin).2 _ hk (by rw [List.length_map]; exact hidx)
      unfold ofConfig
      rw [List.getD_eq_getElem?_getD, List.getElem?_eq_getElem hk]
      have hcard : ((i :: N.nodes[i].parents).map card)[(i :: N.nodes[i].parents).idxOf v]'(by rw [List.length_map]; exact hidx) = card v := by
        rw [List.getElem_map, List.getElem_idxOf]
      rw [← hcard]
      exact this
    · rw [List.getElem?_eq_none (by omega), List.getElem?_eq_none (by omega)]
      rfl
  · intro i T e
    obtain ⟨s, hs, hw, hv, _⟩ := hT i T e
    refine ⟨hw, ⟨_, hv⟩, fun v hvm => ?_⟩
    rw [hnames]
    rw [hv] at hvm
    exact NetShape.lt hN hs v hvm

/-- C74, violation: data that were read without names of values (LIBSVM) leave the names empty, and the first probability is undefined
behaviour. -/
theorem C74_unnamed_ub [Zero K] (fmt : K → Str) (names : List Str) {ids : List (List (Str × Int))} (h : ids[0]? = some []) {T : Table K}
    (hv : T.vars = [0]) (hsize : 0 < T.size) (n : Nat) (pts : List (Table K)) (hn : 0 < names.length) :
    saveParameters fmt names ids (n + 1) (T :: pts) = .error .ub := by
  unfold saveParameters
  rw [List.range_succ_eq_map, List.foldlM_cons, show rd (T :: pts) 0 = .ok T from rfl, ok_bind]
  obtain ⟨m, hm⟩ : ∃ m, T.size = m + 1 := ⟨T.size - 1, by omega⟩
  rw [hm, List.range_succ_eq_map, List.foldlM_cons]
  have h0 : saveEntry fmt names ids 0 T [] 0 = .error .ub := by
    unfold saveEntry
    rw [if_pos (by rw [hv]; rfl)]
    unfold valueText
    rw [nodeText_eq hn, ok_bind, rd_ok h]
    rfl
  rw [h0]
  rfl

/-- The numbers in the example. -/
def fractionText (q : ℚ) : Str := intToStr q.num ++ lit "/" ++ intToStr q.den

/-- Two nodes, `a → b`, four rows: the parameter file. -/
example :
    (do let N ← (Net.empty [2, 2]).run [.addDirected 0 1]
        let pts : List (Table ℚ) ← learnParams N [[0, 0, 0, 1], [0, 0, 1, 1]] 2 4 1 (fun _ _ => 0) []
        saveParameters fractionText [lit "a", lit "b"] [[(lit "no", 0), (lit "yes", 1)], [(lit "yes", 1), (lit "no", 0)]] 2 pts) =
      .ok (lit "P (a/v0=no/0) = 2/3\nP (a/v0=yes/1) = 1/3\nP (b/v1=no/0 | a/v0=no/0) = 3/5\nP (b/v1=no/0 | a/v0=yes/1) = 1/3\nP (b/v1=yes/1 | a/v0=no/0) = 2/5\nP (b/v1=yes/1 | a/v0=yes/1) = 2/3\n") := by
  decide +kernel

/-- The names of the values in the example meet the hypothesis. -/
example : NamesValues [(lit "yes", 1), (lit "no", 0)] [lit "no", lit "yes"] 2 := by
  refine ⟨by decide, fun x hx s => ?_⟩
  obtain rfl | rfl : x = 0 ∨ x = 1 := by omega
  · simp [List.getD]
  · simp [List.getD]

end parameters

end FastPGM
