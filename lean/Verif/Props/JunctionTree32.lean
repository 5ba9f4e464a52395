import Verif.Lemmas.JunctionTree32c
import Verif.Props.JunctionTreeInference
import Verif.Props.Int32

/-!
Property C118: exact inference and 32-bit integers.  `buildJunctionTree32`, `JTree.marginal32` and `JTree.predict32` are the functions with
the index arithmetic and the sums of table sizes of the code, where an `int` that would exceed 2³¹ - 1 is undefined behaviour.
-/

namespace FastPGM

open Spec Relation

variable {K : Type}

theorem foldl_max_spec (l : List Nat) (b : Nat) : (∀ x ∈ l, x ≤ l.foldl max b) ∧ b ≤ l.foldl max b ∧ (l.foldl max b = b ∨ l.foldl max b ∈ l) := by
  induction l generalizing b with
  | nil => simp
  | cons y l ih =>
    obtain ⟨h1, h2, h3⟩ := ih (max b y)
    rw [List.foldl_cons]
    refine ⟨?_, by omega, ?_⟩
    · intro x hx
      rcases List.mem_cons.1 hx with rfl | hx
      · omega
      · exact h1 x hx
    · rcases h3 with h3 | h3
      · rw [h3]
        rcases Nat.le_total b y with h | h
        · exact Or.inr (by simp [Nat.max_eq_right h])
        · exact Or.inl (Nat.max_eq_left h)
      · exact Or.inr (by simp [h3])

theorem extFits_iff {card : Nat → Nat} {cs : List (List Nat)} {pt : Table K} :
    ExtFits card cs pt ↔ ∀ c, FirstCover cs pt.vars c → pt.vars.length < c.length → entries card c * c.length < 2 ^ 31 := by
  unfold ExtFits entries
  simp only [le_intMax]

theorem shape_of_build [Field K] {N : Net} {card : Nat → Nat} {pts : List (Table K)} {order : List (Nat × Nat) → List (Nat × Nat)}
    {cord : Nat → List Nat} {J : JTree K} (h : buildJunctionTree N card pts order cord = .ok J) {S : JTShape}
    (hS : N.junctionShape order cord = .ok S) : J.shape = S := by
  unfold buildJunctionTree at h
  rw [hS, ok_bind] at h
  obtain ⟨clq, h2, h⟩ := bind_eq_ok h
  obtain ⟨sep, h3, h⟩ := bind_eq_ok h
  obtain ⟨clq', h4, h⟩ := bind_eq_ok h
  obtain ⟨root, h5, h⟩ := bind_eq_ok h
  obtain ⟨levels, h6, h⟩ := bind_eq_ok h
  obtain ⟨st, h7, h⟩ := bind_eq_ok h
  cases h
  rfl

section

variable {dims : List Nat} {ops : List EdgeOp} {N : Net} {order : List (Nat × Nat) → List (Nat × Nat)} {cord : Nat → List Nat} {card : Nat → Nat}
  {pts : List (Table K)} {S : JTShape}

/-- C118, construction.  The junction tree is constructed without overflow exactly if the cliques have together fewer than 2³¹ entries and,
for every table of a node that has fewer variables than the first clique that contains them, the number of entries of that clique times its
number of variables is less than 2³¹.  Then the tree is that of C41, and the two numbers printed are the total and the maximum of the clique
sizes. -/
theorem C118_construction [Field K] (hops : ∀ op ∈ ops, OpInRange dims.length op) (hN : (Net.empty dims).run ops = .ok N) (h0 : dims ≠ [])
    (hw : WeaklyConnected N) (horder : ∀ l, (order l).Perm l) (hcord : ∀ m, (cord m).Perm (List.range m)) (hpts : NodeTables card N pts)
    (hS : N.junctionShape order cord = .ok S) :
    ((S.cliques.map (entries card)).sum < 2 ^ 31 ∧
        (∀ pt ∈ pts, ∀ c, FirstCover S.cliques pt.vars c → pt.vars.length < c.length → entries card c * c.length < 2 ^ 31) →
      ∃ J big, buildJunctionTree N card pts order cord = .ok J ∧
        buildJunctionTree32 N card pts order cord = .ok (J, (S.cliques.map (entries card)).sum, big) ∧
        (∃ c ∈ S.cliques, big = entries card c) ∧ ∀ c ∈ S.cliques, entries card c ≤ big) ∧
    (¬ ((S.cliques.map (entries card)).sum < 2 ^ 31 ∧
        ∀ pt ∈ pts, ∀ c, FirstCover S.cliques pt.vars c → pt.vars.length < c.length → entries card c * c.length < 2 ^ 31) →
      buildJunctionTree32 N card pts order cord = .error .ub) := by
  obtain ⟨J, T, L, r, lev, par, ch, F, h1, hb⟩ := built_of_run (K := K) hops hN h0 hw horder hcord hpts
  obtain ⟨hcard, hne, -⟩ := nodeTables_facts hpts
  have e : T = S := hb.shape.symm.trans (shape_of_build h1 hS)
  subst e
  have key := build32 h1 hb hcard hpts.wf hne
  simp only [extFits_iff, le_intMax] at key
  refine ⟨fun g => ⟨J, _, h1, key.1 g, ?_, ?_⟩, key.2⟩
  · rcases (foldl_max_spec (T.cliques.map (entries card)) 0).2.2 with h | h
    · have hpos := hb.shapeOK.count
      obtain ⟨c, hc⟩ := List.exists_mem_of_length_pos (show 0 < T.cliques.length by omega)
      have h2 := (foldl_max_spec (T.cliques.map (entries card)) 0).1 _ (List.mem_map_of_mem hc)
      refine ⟨c, hc, ?_⟩
      show (T.cliques.map (entries card)).foldl max 0 = _
      omega
    · obtain ⟨c, hc, h⟩ := List.mem_map.1 h
      exact ⟨c, hc, h.symm⟩
  · intro c hc
    exact (foldl_max_spec (T.cliques.map (entries card)) 0).1 _ (List.mem_map_of_mem hc)

variable [Field K] [LinearOrder K] [IsStrictOrderedRing K]

/-- What the two theorems below need: construction and propagation of a built tree. -/
theorem built32 {M : Nat} {J : JTree K} {L : Levels} {r : Nat} {lev : JNode → Nat} {par ch : Nat → Nat} {F : Nat → Assignment → K}
    (h1 : buildJunctionTree N card pts order cord = .ok J) (hb : Built N card pts J S L r lev par ch F) (hpts : NodeTables card N pts)
    (hM : ∀ c ∈ S.cliques, entries card c ≤ M ∧ entries card c * c.length < 2 ^ 31) (hm : 2 * S.cliques.length * M < 2 ^ 31) :
    (∃ total big, buildJunctionTree32 N card pts order cord = .ok (J, total, big)) ∧
      ∀ E st, propagate J.levels J.n E J.state = .ok st → propagate32 J.levels J.n E J.state = .ok st ∧
        ∀ q, marginalProbability32 J.card st q = marginalProbability J.card st q := by
  obtain ⟨hcard, hne, -⟩ := nodeTables_facts hpts
  have hsum : (S.cliques.map (entries card)).sum ≤ S.cliques.length * M := by
    have : ∀ l : List (List Nat), (∀ c ∈ l, entries card c ≤ M) → (l.map (entries card)).sum ≤ l.length * M := by
      intro l hl
      induction l with
      | nil => simp
      | cons c l ih =>
        have h2 := ih (fun c hc => hl c (by simp [hc]))
        have h3 := hl c (by simp)
        rw [List.map_cons, List.sum_cons, List.length_cons, Nat.succ_mul]
        omega
    exact this _ (fun c hc => (hM c hc).1)
  have h2m : S.cliques.length * M ≤ 2 * S.cliques.length * M := Nat.mul_le_mul_right _ (by omega)
  refine ⟨⟨_, _, (build32 h1 hb hcard hpts.wf hne).1 ⟨le_intMax.2 (by unfold entries at hsum; omega), ?_⟩⟩, ?_⟩
  · intro pt _
    rw [extFits_iff]
    rintro c ⟨b, a, hba, -⟩ -
    exact (hM c (by rw [hba]; simp)).2
  · intro E st he
    have hf := hb.fits hcard (fun c hc => (hM c hc).1) (fun c hc => le_intMax.2 (hM c hc).2)
    rw [hb.levels] at he ⊢
    obtain ⟨g1, g2⟩ := propagate32_eq hb.plan (le_intMax.2 hm) hf he
    refine ⟨g1, fun q => ?_⟩
    rw [hb.hcard]
    exact marginalProbability32_eq g2 q

/-- C118, query.  If no clique has more than `M` entries, the number of entries of every clique times its number of variables is less than
2³¹, and so is twice the number of cliques times `M`, then the tree is built and a query answered without overflow, for all evidence of
positive probability; the answer is the posterior distribution. -/
theorem C118_posterior (hops : ∀ op ∈ ops, OpInRange dims.length op) (hN : (Net.empty dims).run ops = .ok N) (h0 : dims ≠ [])
    (hw : WeaklyConnected N) (horder : ∀ l, (order l).Perm l) (hcord : ∀ m, (cord m).Perm (List.range m)) (hpts : NodeTables card N pts)
    (hS : N.junctionShape order cord = .ok S) {M : Nat} (hM : ∀ c ∈ S.cliques, entries card c ≤ M ∧ entries card c * c.length < 2 ^ 31)
    (hm : 2 * S.cliques.length * M < 2 ^ 31)
    (hnn : ∀ T ∈ pts, ∀ x ∈ T.pot, 0 ≤ x) {E : List (Nat × Nat)} (hEn : (E.map Prod.fst).Nodup) (hE : ∀ e ∈ E, e.1 < dims.length)
    (hpos : weight card dims.length (joint pts) (Agrees E) ≠ 0) {q : Nat} (hq : q < dims.length) (hqE : q ∉ E.map Prod.fst) :
    ∃ J total big T, buildJunctionTree32 N card pts order cord = .ok (J, total, big) ∧ J.marginal32 E q = .ok (T, J) ∧ T.vars = [q] ∧
      T.pot.length = card q ∧ ∀ x < card q, T.pot[x]? = some (posterior card dims.length (joint pts) E q x) := by
  obtain ⟨J, T, L, r, lev, par, ch, F, h1, hb⟩ := built_of_run (K := K) hops hN h0 hw horder hcord hpts
  have e : T = S := hb.shape.symm.trans (shape_of_build h1 hS)
  subst e
  obtain ⟨⟨total, big, h2⟩, h3⟩ := built32 h1 hb hpts hM hm
  obtain ⟨J', X, h4, h5, h6⟩ := C42_posterior hops hN h0 hw horder hcord hpts hnn hEn hE hpos hq hqE
  rw [h1] at h4
  cases h4
  refine ⟨J, total, big, X, h2, ?_, h6⟩
  unfold JTree.marginal at h5
  obtain ⟨st, g1, h5⟩ := bind_eq_ok h5
  obtain ⟨e1, e2⟩ := h3 E st g1
  unfold JTree.marginal32
  rw [e1, ok_bind, e2 q]
  exact h5

/-- C118, prediction.  Under the same limits the predicted label is the first value of largest posterior probability. -/
theorem C118_predict (hops : ∀ op ∈ ops, OpInRange dims.length op) (hN : (Net.empty dims).run ops = .ok N) (h0 : dims ≠ [])
    (hw : WeaklyConnected N) (horder : ∀ l, (order l).Perm l) (hcord : ∀ m, (cord m).Perm (List.range m)) (hpts : NodeTables card N pts)
    (hS : N.junctionShape order cord = .ok S) {M : Nat} (hM : ∀ c ∈ S.cliques, entries card c ≤ M ∧ entries card c * c.length < 2 ^ 31)
    (hm : 2 * S.cliques.length * M < 2 ^ 31)
    (hnn : ∀ T ∈ pts, ∀ x ∈ T.pot, 0 ≤ x) {E : List (Nat × Nat)} (hEn : (E.map Prod.fst).Nodup) (hE : ∀ e ∈ E, e.1 < dims.length)
    (hpos : weight card dims.length (joint pts) (Agrees E) ≠ 0) {q : Nat} (hq : q < dims.length) (hqE : q ∉ E.map Prod.fst) :
    ∃ J total big label, buildJunctionTree32 N card pts order cord = .ok (J, total, big) ∧ J.predict32 E q = .ok (label, J) ∧ label < card q ∧
      (∀ x < card q, posterior card dims.length (joint pts) E q x ≤ posterior card dims.length (joint pts) E q label) ∧
      ∀ x < label, posterior card dims.length (joint pts) E q x < posterior card dims.length (joint pts) E q label := by
  obtain ⟨J, T, L, r, lev, par, ch, F, h1, hb⟩ := built_of_run (K := K) hops hN h0 hw horder hcord hpts
  have e : T = S := hb.shape.symm.trans (shape_of_build h1 hS)
  subst e
  obtain ⟨⟨total, big, h2⟩, h3⟩ := built32 h1 hb hpts hM hm
  obtain ⟨J', label, h4, h5, h6⟩ := C42_predict hops hN h0 hw horder hcord hpts hnn hEn hE hpos hq hqE
  rw [h1] at h4
  cases h4
  refine ⟨J, total, big, label, h2, ?_, h6⟩
  unfold JTree.predict at h5
  obtain ⟨st, g1, h5⟩ := bind_eq_ok h5
  obtain ⟨e1, e2⟩ := h3 E st g1
  unfold JTree.predict32
  rw [e1, ok_bind, e2 q]
  exact h5

omit [IsStrictOrderedRing K] in
/-- C118 (finding).  Before the messages of a level of separators are sent away from the root, the sizes of the parent cliques of its
separators are added up, a clique once for each of its children.  If that sum reaches 2³¹, no query is answered, however few entries all
tables together have. -/
theorem C118_level_overflow (hops : ∀ op ∈ ops, OpInRange dims.length op) (hN : (Net.empty dims).run ops = .ok N) (h0 : dims ≠ [])
    (hw : WeaklyConnected N) (horder : ∀ l, (order l).Perm l) (hcord : ∀ m, (cord m).Perm (List.range m)) (hpts : NodeTables card N pts)
    {J : JTree K} (hJ : buildJunctionTree N card pts order cord = .ok J) {t : Nat} (ht : 2 * t + 1 < J.levels.nodes.length)
    {level : List JNode} (hl : J.levels.seps[t]? = some level) {parents : List Nat}
    (hup : level.map J.levels.marks.up = parents.map (fun c => some (.clq c))) (hin : ∀ c ∈ parents, c < J.shape.cliques.length)
    (hsum : 2 ^ 31 ≤ (parents.map (fun c => entries card (J.shape.cliques.getD c []))).sum) (q : Nat) :
    (∀ r, J.marginal32 [] q ≠ .ok r) ∧ ∀ r, J.predict32 [] q ≠ .ok r := by
  obtain ⟨J', T, L, r, lev, par, ch, F, h1, hb⟩ := built_of_run (K := K) hops hN h0 hw horder hcord hpts
  rw [hJ] at h1
  cases h1
  have e := hb.shape
  subst e
  have hst : SizesAre (J.shape.cliques.map (entries card)) J.state := by
    unfold SizesAre
    rw [hb.state]
    have e1 := eq_tab_getD (l := J.shape.cliques) []
    conv_rhs => rw [e1]
    unfold repState
    rw [tab, List.map_map, tab, List.map_map]
    refine List.map_congr_left (fun i hi => ?_)
    rw [List.mem_range] at hi
    exact (((List.perm_ext_iff_of_nodup (storedVars_nodup hb.facts) (nodup_of_sorted (getD_sorted hb.facts i))).2
      (fun v => hb.plan.mem_stored hi)).map card).prod_eq
  have key : ∀ st, propagate32 J.levels J.n [] J.state ≠ .ok st := fun st =>
    propagate32_sizes (cs := parents) ht hl hup (fun c hc => by simpa using hin c hc) (by
      rw [le_intMax]
      have : parents.map (fun c => (J.shape.cliques.map (entries card)).getD c 0) =
          parents.map (fun c => entries card (J.shape.cliques.getD c [])) := by
        refine List.map_congr_left (fun c hc => ?_)
        rw [getD_of_lt (by simpa using hin c hc), getD_of_lt (hin c hc), List.getElem_map]
      rw [this]
      omega) hst
  constructor
  · intro r h
    obtain ⟨st, g, -⟩ := bind_eq_ok h
    exact key st g
  · intro r h
    obtain ⟨st, g, -⟩ := bind_eq_ok h
    exact key st g

end

/-! The diamond stays within the limits. -/

example : ∃ N S, (Net.empty [2, 2, 2, 2]).run diamondOps = .ok N ∧ N.junctionShape id List.range = .ok S ∧
    (∀ c ∈ S.cliques, entries (fun _ => 2) c ≤ 8 ∧ entries (fun _ => 2) c * c.length < 2 ^ 31) ∧ 2 * S.cliques.length * 8 < 2 ^ 31 :=
  ⟨_, _, rfl, rfl, by decide +kernel, by decide +kernel⟩

/-! A class with 32768 values, a feature with 24576 values and three binary features: together less than 2³⁰ entries. -/

/-- The edges of the network. -/
def bigStarOps : List EdgeOp := [.addDirected 0 1, .addDirected 0 2, .addDirected 0 3, .addDirected 0 4]

/-- The numbers of values. -/
def bigStarCard : Nat → Nat
  | 0 => 32768
  | 1 => 24576
  | _ => 2

/-- Uniform distributions. -/
def bigStarTables : List (Table Rat) :=
  [fromFn bigStarCard [0] (fun _ => 1 / 32768), fromFn bigStarCard [1, 0] (fun _ => 1 / 24576), fromFn bigStarCard [2, 0] (fun _ => 1 / 2),
    fromFn bigStarCard [3, 0] (fun _ => 1 / 2), fromFn bigStarCard [4, 0] (fun _ => 1 / 2)]

theorem bigStar_hyps : ∃ N, (Net.empty [32768, 24576, 2, 2, 2]).run bigStarOps = .ok N ∧ WeaklyConnected N ∧ NodeTables bigStarCard N bigStarTables := by
  refine ⟨_, rfl, ?_, ⟨rfl, ?_, ?_⟩⟩
  · have base : ∀ i, i < 5 → ∀ N : Net, (Net.empty [32768, 24576, 2, 2, 2]).run bigStarOps = .ok N → ReflTransGen (Linked N) 0 i := by
      intro i hi N hN
      have h1 : Linked N 0 1 := Or.inl (by cases hN; exact ⟨_, rfl, by decide⟩)
      have h2 : Linked N 0 2 := Or.inl (by cases hN; exact ⟨_, rfl, by decide⟩)
      have h3 : Linked N 0 3 := Or.inl (by cases hN; exact ⟨_, rfl, by decide⟩)
      have h4 : Linked N 0 4 := Or.inl (by cases hN; exact ⟨_, rfl, by decide⟩)
      match i, hi with
      | 0, _ => exact .refl
      | 1, _ => exact .single h1
      | 2, _ => exact .single h2
      | 3, _ => exact .single h3
      | 4, _ => exact .single h4
    intro i j hi hj
    exact (conn_symm (fun _ _ h => h.symm) (base i hi _ rfl)).trans (base j hj _ rfl)
  · intro T hT
    simp only [bigStarTables, List.mem_cons, List.not_mem_nil, or_false] at hT
    rcases hT with rfl | rfl | rfl | rfl | rfl <;> exact fromFn_wf (by decide) (by decide) _
  · intro i T hT v
    have hpar : ∀ N, (Net.empty [32768, 24576, 2, 2, 2]).run bigStarOps = .ok N →
        (ParentOf N v i ↔ ∃ ps, ([[], [0], [0], [0], [0]] : List (List Nat))[i]? = some ps ∧ v ∈ ps) := by
      intro N hN
      have hp : N.nodes.map NodeS.parents = [[], [0], [0], [0], [0]] := by cases hN; decide
      rw [← hp]
      unfold ParentOf
      simp
    rw [hpar _ rfl]
    match i with
    | 0 => cases hT; simp [fromFn]
    | 1 => cases hT; simp [fromFn]
    | 2 => cases hT; simp [fromFn]
    | 3 => cases hT; simp [fromFn]
    | 4 => cases hT; simp [fromFn]
    | i + 5 => simp [bigStarTables] at hT

/-- C118 (finding), a network.  The tree of this network is constructed, with 805502976 entries in all cliques and 805306368 in the largest;
the index arrays of every clique have fewer than 2³¹ elements; and no query is answered. -/
theorem C118_level_overflow_witness : ∃ N J, (Net.empty [32768, 24576, 2, 2, 2]).run bigStarOps = .ok N ∧ NodeTables bigStarCard N bigStarTables ∧
    buildJunctionTree32 N bigStarCard bigStarTables id List.range = .ok (J, 805502976, 805306368) ∧
    (∀ T ∈ J.state.clq, T.size * T.vars.length < 2 ^ 31) ∧
    ∀ q, (∀ r, J.marginal32 [] q ≠ .ok r) ∧ ∀ r, J.predict32 [] q ≠ .ok r := by
  obtain ⟨N, hN, hw, hpts⟩ := bigStar_hyps
  have hops : ∀ op ∈ bigStarOps, OpInRange [32768, 24576, 2, 2, 2].length op := by
    intro op hop
    simp only [bigStarOps, List.mem_cons, List.not_mem_nil, or_false] at hop
    rcases hop with rfl | rfl | rfl | rfl <;> simp [OpInRange]
  have horder : ∀ l : List (Nat × Nat), (id l).Perm l := fun _ => List.Perm.refl _
  have hcord : ∀ m, (List.range m).Perm (List.range m) := fun _ => List.Perm.refl _
  obtain ⟨J, T, L, r, lev, par, ch, F, h1, hb⟩ := built_of_run (K := Rat) hops hN (by simp) hw horder hcord hpts
  have hS : ∃ S, N.junctionShape id List.range = .ok S ∧ S.cliques = [[0, 1], [0, 2], [0, 3], [0, 4]] := by
    cases hN
    exact ⟨_, rfl, by decide +kernel⟩
  obtain ⟨S, hS, hc⟩ := hS
  have e : J.shape = S := shape_of_build h1 hS
  have e' : T = S := hb.shape.symm.trans e
  subst e'
  obtain ⟨hcard, hne, -⟩ := nodeTables_facts hpts
  have hfit : ∀ c ∈ T.cliques, entries bigStarCard c ≤ 805306368 ∧ entries bigStarCard c * c.length ≤ intMax := by
    rw [hc]
    decide
  refine ⟨N, J, hN, hpts, ?_, ?_, ?_⟩
  · have := (build32 h1 hb hcard hpts.wf hne).1 ⟨?_, ?_⟩
    · rw [this, hc]
      rfl
    · rw [hc]
      decide
    · intro pt _
      rw [extFits_iff]
      rintro c ⟨b, a, hba, -⟩ -
      exact le_intMax.1 (hfit c (by rw [hba]; simp)).2
  · intro X hX
    exact le_intMax.1 ((hb.fits hcard (fun c hc => (hfit c hc).1) (fun c hc => (hfit c hc).2)).clq X hX).space
  · intro q
    have hlev : ∃ level, J.levels.seps[0]? = some level ∧ 1 < J.levels.nodes.length ∧
        level.map J.levels.marks.up = [0, 0, 0].map (fun c => some (.clq c)) := by
      unfold buildJunctionTree at h1
      rw [hS, ok_bind] at h1
      obtain ⟨clq, -, h1⟩ := bind_eq_ok h1
      obtain ⟨sep, -, h1⟩ := bind_eq_ok h1
      obtain ⟨clq', -, h1⟩ := bind_eq_ok h1
      obtain ⟨root, h5, h1⟩ := bind_eq_ok h1
      obtain ⟨levels, h6, h1⟩ := bind_eq_ok h1
      obtain ⟨st, -, h1⟩ := bind_eq_ok h1
      cases h1
      have key : (do
          let S ← N.junctionShape id List.range
          let root ← chooseRoot S
          let L ← markLevel S root
          return (L.seps[0]?.map (fun l : List JNode => l.map L.marks.up), decide (1 < L.nodes.length))) =
            .ok (some [some (.clq 0), some (.clq 0), some (.clq 0)], true) := by
        cases hN
        decide +kernel
      rw [hS, ok_bind, h5, ok_bind, h6, ok_bind] at key
      simp only [pure_eq_ok, Except.ok.injEq, Prod.mk.injEq, decide_eq_true_eq, Option.map_eq_some_iff] at key
      obtain ⟨⟨level, k1, k2⟩, k3⟩ := key
      exact ⟨level, k1, k3, k2⟩
    obtain ⟨level, k1, k2, k3⟩ := hlev
    refine C118_level_overflow hops hN (by simp) hw horder hcord hpts h1 (t := 0) k2 k1 (parents := [0, 0, 0]) k3 ?_ ?_ q
    · rw [e, hc]
      decide
    · rw [e, hc]
      decide

end FastPGM
