import Verif.Lemmas.MessagePassing5
import Verif.Props.JunctionTreeInference

/-!
Property C82: every way of passing the messages gives the same tables.

`Clique.cpp` has three ways of collecting and distributing messages, `JunctionTree.cpp` a fourth one in a parallel and a plain version;
`MessagePassingUpdateJT` calls one of them, the calls of the others are commented out.  The statements below say that it does not matter
which one is called, nor in which order the messages of a phase are passed as long as a node sends its message after it has heard the
others.
-/

namespace FastPGM

open Spec

variable {K : Type} [Field K] [LinearOrder K] [IsStrictOrderedRing K]

variable {dims : List Nat} {ops : List EdgeOp} {N : Net} {order : List (Nat × Nat) → List (Nat × Nat)} {cord : Nat → List Nat} {card : Nat → Nat}
  {pts : List (Table K)}

omit [LinearOrder K] [IsStrictOrderedRing K] in
theorem Built.clq_length {J : JTree K} {T : JTShape} {L : Levels} {r : Nat} {lev : JNode → Nat} {par ch : Nat → Nat} {F : Nat → Assignment → K}
    (hb : Built N card pts J T L r lev par ch F) : J.state.clq.length = T.cliques.length := by
  rw [hb.state]
  simp [repState, tab]

theorem Built.jtRoot {J : JTree K} {T : JTShape} {L : Levels} {r : Nat} {lev : JNode → Nat} {par ch : Nat → Nat} {F : Nat → Assignment → K}
    (hb : Built N card pts J T L r lev par ch F) (hcard : ∀ i < N.nodes.length, 0 < card i) : J.jtRoot = .clq r := by
  have h0 : 0 < L.nodes.length := by
    have := hb.plan.odd
    omega
  have hm : ∀ x, x ∈ L.nodes.getD 0 [] ↔ x = .clq r := by
    intro x
    rw [hb.plan.mem 0 h0]
    constructor
    · rintro ⟨h1, h2⟩
      by_contra hr
      obtain ⟨y, _, _, h3, _⟩ := hb.plan.up_facts (hb.repOK hcard []) h1 hr
      omega
    · rintro rfl
      exact ⟨hb.plan.root, hb.plan.lev_root⟩
  unfold JTree.jtRoot
  rw [hb.levels]
  cases e : L.nodes.getD 0 [] with
  | nil =>
    rw [e] at hm
    have := (hm (.clq r)).2 rfl
    cases this
  | cons x l =>
    rw [e] at hm
    exact (hm x).1 (by simp)

/-- C82.  Whatever the order of the messages, as long as every node but the root sends to the root only after it has heard its downstream
neighbours, and away from the root only after it has heard its upstream neighbour, the tables are those of the implementation; and the
result is not a number for one order iff it is so for all. -/
theorem C82_any_order (hops : ∀ op ∈ ops, OpInRange dims.length op) (hN : (Net.empty dims).run ops = .ok N) (h0 : dims ≠ [])
    (hw : WeaklyConnected N) (horder : ∀ l, (order l).Perm l) (hcord : ∀ m, (cord m).Perm (List.range m)) (hpts : NodeTables card N pts)
    (hnn : ∀ T ∈ pts, ∀ x ∈ T.pot, 0 ≤ x) :
    ∃ J, buildJunctionTree N card pts order cord = .ok J ∧
      ∀ lu ld, CollectMessages J.state.clq.length J.levels.marks.down lu → DistributeMessages J.state.clq.length J.levels.marks.up ld →
        ∀ E : List (Nat × Nat), (∀ e ∈ E, e.1 < dims.length → e.2 < card e.1) →
          propagateWith (passMessages lu) (passMessages ld) J.n E J.state = propagate J.levels J.n E J.state := by
  obtain ⟨hinv, hlen⟩ := netInv_of_run hops hN
  obtain ⟨J, T, L, r, lev, par, ch, F, h1, hb⟩ := built_of_run (K := K) hops hN h0 hw horder hcord hpts
  have hcard := (nodeTables_facts hpts).1
  refine ⟨J, h1, fun lu ld hlu hld E hE => ?_⟩
  rw [← hlen] at hE
  rw [hb.clq_length, hb.levels] at hlu hld
  have hrep := hb.repOK hcard E
  have hlu' := collectOrder_of hb.plan hrep hlu
  have hld' := distributeOrder_of hb.plan hrep hld
  exact hb.propagateWith_eq hcard hnn hE hlu' hld' (fun σ hσ => passMessages_eq hrep (adj_collectOrder hb.plan hrep hlu') hσ)
    (fun σ hσ => passMessages_eq hrep (adj_distributeOrder hb.plan hrep hld') hσ)

/-- C82.  `Collect3` and `Distribute3` give the tables of `Collect` and `Distribute`. -/
theorem C82_by_levels (hops : ∀ op ∈ ops, OpInRange dims.length op) (hN : (Net.empty dims).run ops = .ok N) (h0 : dims ≠ [])
    (hw : WeaklyConnected N) (horder : ∀ l, (order l).Perm l) (hcord : ∀ m, (cord m).Perm (List.range m)) (hpts : NodeTables card N pts)
    (hnn : ∀ T ∈ pts, ∀ x ∈ T.pot, 0 ≤ x) :
    ∃ J, buildJunctionTree N card pts order cord = .ok J ∧ ∀ E : List (Nat × Nat), (∀ e ∈ E, e.1 < dims.length → e.2 < card e.1) →
      propagateWith (collect3 J.levels) (distribute3 J.levels) J.n E J.state = propagate J.levels J.n E J.state := by
  obtain ⟨hinv, hlen⟩ := netInv_of_run hops hN
  obtain ⟨J, T, L, r, lev, par, ch, F, h1, hb⟩ := built_of_run (K := K) hops hN h0 hw horder hcord hpts
  have hcard := (nodeTables_facts hpts).1
  refine ⟨J, h1, fun E hE => ?_⟩
  rw [← hlen] at hE
  have hrep := hb.repOK hcard E
  have e := hb.propagateWith_eq hcard hnn hE (collect3Sched_order hb.plan hrep) (distributeSched_order hb.plan hrep)
    (collect3_passes hb.plan hrep) (distribute3_passes hb.plan hrep)
  rw [← e, hb.levels]

/-- C82.  `Collect2` and `Distribute2`, called on the root, end and give the tables of `Collect` and `Distribute`, in whatever order the
tasks of the downstream neighbours run one after the other. -/
theorem C82_recursive (hops : ∀ op ∈ ops, OpInRange dims.length op) (hN : (Net.empty dims).run ops = .ok N) (h0 : dims ≠ [])
    (hw : WeaklyConnected N) (horder : ∀ l, (order l).Perm l) (hcord : ∀ m, (cord m).Perm (List.range m)) (hpts : NodeTables card N pts)
    (hnn : ∀ T ∈ pts, ∀ x ∈ T.pot, 0 ≤ x) :
    ∃ J, buildJunctionTree N card pts order cord = .ok J ∧
      ∀ kids kids' : JNode → List JNode, (∀ x, (kids x).Perm (J.levels.marks.down x)) → (∀ x, (kids' x).Perm (J.levels.marks.down x)) →
        ∀ fuel ≥ J.levels.nodes.length, ∀ E : List (Nat × Nat), (∀ e ∈ E, e.1 < dims.length → e.2 < card e.1) →
          propagateWith (collect2 kids fuel J.jtRoot) (distribute2 kids' fuel J.jtRoot) J.n E J.state = propagate J.levels J.n E J.state := by
  obtain ⟨hinv, hlen⟩ := netInv_of_run hops hN
  obtain ⟨J, T, L, r, lev, par, ch, F, h1, hb⟩ := built_of_run (K := K) hops hN h0 hw horder hcord hpts
  have hcard := (nodeTables_facts hpts).1
  refine ⟨J, h1, fun kids kids' hk hk' fuel hf E hE => ?_⟩
  rw [← hlen] at hE
  rw [hb.levels] at hk hk' hf
  have hrep := hb.repOK hcard E
  have hroot : validNode T.cliques.length (.clq r) := hb.plan.root
  have hord : CollectOrder T L (sched2 kids fuel (.clq r)) := sched2_order hb.plan hrep (fun x _ => hk x) hf
  have hord' : DistributeOrder T L (schedD2 kids' fuel (.clq r)) := schedD2_order hb.plan hrep (fun x _ => hk' x) hf
  rw [hb.jtRoot hcard]
  exact hb.propagateWith_eq hcard hnn hE hord hord' (collect2_passes hb.plan hrep (fun x _ => hk x) hroot (by omega))
    (distribute2_passes hb.plan hrep (fun x _ => hk' x) hroot (by omega))

/-- C82.  The plain versions of `Collect` and `Distribute` give the tables of the versions with precomputed indices. -/
theorem C82_plain (hops : ∀ op ∈ ops, OpInRange dims.length op) (hN : (Net.empty dims).run ops = .ok N) (h0 : dims ≠ [])
    (hw : WeaklyConnected N) (horder : ∀ l, (order l).Perm l) (hcord : ∀ m, (cord m).Perm (List.range m)) (hpts : NodeTables card N pts)
    (hnn : ∀ T ∈ pts, ∀ x ∈ T.pot, 0 ≤ x) :
    ∃ J, buildJunctionTree N card pts order cord = .ok J ∧ ∀ E : List (Nat × Nat), (∀ e ∈ E, e.1 < dims.length → e.2 < card e.1) →
      propagateWith (collectPlain J.levels) (distributePlain J.levels) J.n E J.state = propagate J.levels J.n E J.state := by
  obtain ⟨hinv, hlen⟩ := netInv_of_run hops hN
  obtain ⟨J, T, L, r, lev, par, ch, F, h1, hb⟩ := built_of_run (K := K) hops hN h0 hw horder hcord hpts
  have hcard := (nodeTables_facts hpts).1
  refine ⟨J, h1, fun E hE => ?_⟩
  rw [← hlen] at hE
  have hrep := hb.repOK hcard E
  have e := hb.propagateWith_eq hcard hnn hE (collectSched_order hb.plan hrep) (distributeSched_order hb.plan hrep)
    (fun σ hσ => collectPlain_sched hb.plan hrep hσ) (fun σ hσ => distributePlain_sched hb.plan hrep hσ)
  rw [← e, hb.levels]

/-- C82.  So the answer to a query is the conditional distribution of the queried node given the evidence, whatever the order. -/
theorem C82_posterior (hops : ∀ op ∈ ops, OpInRange dims.length op) (hN : (Net.empty dims).run ops = .ok N) (h0 : dims ≠ [])
    (hw : WeaklyConnected N) (horder : ∀ l, (order l).Perm l) (hcord : ∀ m, (cord m).Perm (List.range m)) (hpts : NodeTables card N pts)
    (hnn : ∀ T ∈ pts, ∀ x ∈ T.pot, 0 ≤ x) :
    ∃ J, buildJunctionTree N card pts order cord = .ok J ∧
      ∀ lu ld, CollectMessages J.state.clq.length J.levels.marks.down lu → DistributeMessages J.state.clq.length J.levels.marks.up ld →
        ∀ E : List (Nat × Nat), (E.map Prod.fst).Nodup → (∀ e ∈ E, e.1 < dims.length ∧ e.2 < card e.1) →
          weight card dims.length (joint pts) (Agrees E) ≠ 0 → ∀ q < dims.length, q ∉ E.map Prod.fst →
            ∃ st T, propagateWith (passMessages lu) (passMessages ld) J.n E J.state = .ok st ∧ marginalProbability J.card st q = .ok T ∧
              T.vars = [q] ∧ ∀ x < card q, T.pot[x]? = some (posterior card dims.length (joint pts) E q x) := by
  obtain ⟨J, h1, h2⟩ := C82_any_order hops hN h0 hw horder hcord hpts hnn
  refine ⟨J, h1, fun lu ld hlu hld E hEn hE hpos q hq hqE => ?_⟩
  obtain ⟨J', T, h3, h4, h5, _, h6⟩ := C42_posterior hops hN h0 hw horder hcord hpts hnn hEn (fun e he => (hE e he).1) hpos hq hqE
  rw [h1] at h3
  cases h3
  unfold JTree.marginal at h4
  obtain ⟨st, e1, h4⟩ := bind_eq_ok h4
  obtain ⟨T', e2, h4⟩ := bind_eq_ok h4
  have e3 := congrArg Prod.fst (Except.ok.inj h4)
  simp only [] at e3
  subst e3
  exact ⟨st, T', by rw [h2 lu ld hlu hld E (fun e he _ => (hE e he).2), e1], e2, h5, h6⟩

/-! A network whose root clique has two downstream separators. -/

/-- Tables of the star 0 → 1, 0 → 2, 0 → 3. -/
def starTables : List (Table Rat) :=
  [⟨[0], [2], [1], 2, [3/5, 2/5]⟩, ⟨[1, 0], [2, 2], [2, 1], 4, [1/2, 1/5, 1/2, 4/5]⟩, ⟨[2, 0], [2, 2], [2, 1], 4, [9/10, 1/2, 1/10, 1/2]⟩,
    ⟨[3, 0], [2, 2], [2, 1], 4, [1/3, 0, 2/3, 1]⟩]

/-- The star with these tables. -/
def starTree : Except Fault (JTree Rat) := do
  let N ← (Net.empty [2, 2, 2, 2]).run [.addDirected 0 1, .addDirected 0 2, .addDirected 0 3]
  buildJunctionTree N (fun _ => 2) starTables id List.range

/-- An order of the messages that finishes with one branch before it starts with the other, the last branch first; and one away from the
root that goes to the end of a branch first. -/
example : ∃ J, starTree = .ok J ∧
    CollectMessages J.state.clq.length J.levels.marks.down [(.sep 1, .clq 2), (.clq 0, .sep 1), (.sep 0, .clq 1), (.clq 0, .sep 0)] ∧
    DistributeMessages J.state.clq.length J.levels.marks.up [(.sep 1, .clq 0), (.clq 2, .sep 1), (.sep 0, .clq 0), (.clq 1, .sep 0)] := by
  have h : (starTree.map (fun J => (J.state.clq.length, [JNode.clq 0, .clq 1, .clq 2, .sep 0, .sep 1].map J.levels.marks.down,
      [JNode.clq 0, .clq 1, .clq 2, .sep 0, .sep 1].map J.levels.marks.up))) =
      .ok (3, [[.sep 0, .sep 1], [], [], [.clq 1], [.clq 2]], [none, some (.sep 0), some (.sep 1), some (.clq 0), some (.clq 0)]) := by
    decide +kernel
  cases e : starTree with
  | error e' => rw [e] at h; cases h
  | ok J =>
    rw [e] at h
    have h' := Except.ok.inj h
    simp only [Prod.mk.injEq, List.map_cons, List.map_nil, List.cons.injEq, and_true] at h'
    obtain ⟨h1, ⟨d0, d1, d2, d3, d4⟩, u0, u1, u2, u3, u4⟩ := h'
    refine ⟨J, rfl, ⟨by decide, ?_, by unfold SpeaksLast; decide⟩, ⟨by decide, ?_, by unfold SpeaksLast; decide⟩⟩
    · intro x y
      rw [h1]
      match x with
      | .clq 0 => simp [IsNode, d0, or_comm]
      | .clq 1 => simp [IsNode, d1]
      | .clq 2 => simp [IsNode, d2]
      | .clq (k + 3) => simp [IsNode]
      | .sep 0 => simp [IsNode, d3]
      | .sep 1 => simp [IsNode, d4]
      | .sep (k + 2) => simp [IsNode]
    · intro x y
      rw [h1]
      match x with
      | .clq 0 => simp [IsNode, u0]
      | .clq 1 => simp [IsNode, u1, eq_comm]
      | .clq 2 => simp [IsNode, u2, eq_comm]
      | .clq (k + 3) => simp [IsNode]
      | .sep 0 => simp [IsNode, u3, eq_comm]
      | .sep 1 => simp [IsNode, u4, eq_comm]
      | .sep (k + 2) => simp [IsNode]

/-- The star satisfies the other hypotheses. -/
example : ∃ N, (Net.empty [2, 2, 2, 2]).run [.addDirected 0 1, .addDirected 0 2, .addDirected 0 3] = .ok N ∧ WeaklyConnected N ∧
    NodeTables (fun _ => 2) N starTables ∧ (∀ T ∈ starTables, ∀ x ∈ T.pot, 0 ≤ x) ∧
    weight (fun _ => 2) 4 (joint starTables) (Agrees [(3, 0), (1, 1)]) = 1 / 10 := by
  have h : ∃ N, (Net.empty [2, 2, 2, 2]).run [.addDirected 0 1, .addDirected 0 2, .addDirected 0 3] = .ok N := ⟨_, rfl⟩
  obtain ⟨N, h1⟩ := h
  refine ⟨N, h1, ?_, ⟨?_, ?_, ?_⟩, by decide +kernel, by decide +kernel⟩
  · have hl : N.nodes.length = 4 := by cases h1; rfl
    have base : ∀ i, i < 4 → Relation.ReflTransGen (Linked N) 0 i := by
      intro i hi
      match i, hi with
      | 0, _ => exact .refl
      | 1, _ => exact .single (Or.inl (by cases h1; exact ⟨_, rfl, by decide⟩))
      | 2, _ => exact .single (Or.inl (by cases h1; exact ⟨_, rfl, by decide⟩))
      | 3, _ => exact .single (Or.inl (by cases h1; exact ⟨_, rfl, by decide⟩))
    intro i j hi hj
    rw [hl] at hi hj
    exact (conn_symm (fun _ _ h => h.symm) (base i hi)).trans (base j hj)
  · cases h1
    rfl
  · intro T hT
    simp only [starTables, List.mem_cons, List.not_mem_nil, or_false] at hT
    rcases hT with rfl | rfl | rfl | rfl <;> exact ⟨by decide, by simp, by decide, by decide, by decide, by decide, by decide⟩
  · intro i T hT v
    have hp : N.nodes.map NodeS.parents = [[], [0], [0], [0]] := by cases h1; decide
    have hpar : ParentOf N v i ↔ ∃ ps, (N.nodes.map NodeS.parents)[i]? = some ps ∧ v ∈ ps := by
      unfold ParentOf
      simp
    rw [hpar, hp]
    match i with
    | 0 => cases hT; simp
    | 1 => cases hT; simp
    | 2 => cases hT; simp
    | 3 => cases hT; simp
    | i + 4 => simp [starTables] at hT

/-- The cliques given the nodes 3 and 2, by these orders; and the result of an order in which the root hears one
branch before that one has heard its own, which is a different one. -/
example :
    (do
      let J ← starTree
      let st ← propagateWith (passMessages [(.sep 1, .clq 2), (.clq 0, .sep 1), (.sep 0, .clq 1), (.clq 0, .sep 0)])
        (passMessages [(.sep 1, .clq 0), (.clq 2, .sep 1), (.sep 0, .clq 0), (.clq 1, .sep 0)]) J.n [(3, 1), (2, 1)] J.state
      return st.clq.map Table.pot) =
    (do
      let J ← starTree
      let st ← propagate J.levels J.n [(3, 1), (2, 1)] J.state
      return st.clq.map Table.pot) ∧
    (do
      let J ← starTree
      let st ← propagateWith (passMessages [(.sep 1, .clq 2), (.clq 0, .sep 1), (.clq 0, .sep 0), (.sep 0, .clq 1)])
        (passMessages [(.sep 1, .clq 0), (.clq 2, .sep 1), (.sep 0, .clq 0), (.clq 1, .sep 0)]) J.n [(3, 1), (2, 1)] J.state
      return st.clq.map Table.pot) ≠
    (do
      let J ← starTree
      let st ← propagate J.levels J.n [(3, 1), (2, 1)] J.state
      return st.clq.map Table.pot) := by decide +kernel

end FastPGM
