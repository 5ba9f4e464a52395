import Verif.Lemmas.Irrelevant
import Verif.Spec.DSeparation

/-!
What does not matter for an answer of the junction tree (C92, C93).
-/

namespace FastPGM

open Spec

variable {K : Type} [Field K] [LinearOrder K] [IsStrictOrderedRing K]

variable {dims : List Nat} {ops : List EdgeOp} {N : Net} {order : List (Nat × Nat) → List (Nat × Nat)} {cord : Nat → List Nat} {card : Nat → Nat}
  {pts : List (Table K)}

theorem joint_nonneg {pts : List (Table K)} (hnn : ∀ T ∈ pts, ∀ x ∈ T.pot, 0 ≤ x) (a : Assignment) : 0 ≤ joint pts a := by
  unfold joint
  refine List.prod_nonneg (fun y hy => ?_)
  obtain ⟨T, hT, rfl⟩ := List.mem_map.1 hy
  unfold value
  rw [List.getD_eq_getElem?_getD]
  cases h : T.pot[rank T.dims (T.vars.map a)]? with
  | none => exact le_refl _
  | some x => exact hnn T hT x (List.mem_of_getElem? h)

/-- Part of possible evidence is possible. -/
theorem weight_part {n : Nat} (hnn : ∀ T ∈ pts, ∀ x ∈ T.pot, 0 ≤ x) {E F : List (Nat × Nat)}
    (h : weight card n (joint pts) (Agrees (E ++ F)) ≠ 0) : weight card n (joint pts) (Agrees E) ≠ 0 := by
  intro h0
  apply h
  unfold weight at h0 ⊢
  have hz : sumOut card (List.range n) (fun _ => (0 : K)) (fun _ => 0) = 0 := by
    have := sumOut_const_mul (card := card) (us := List.range n) (f := fun _ => (0 : K)) 0 (fun _ => 0)
    simpa using this
  refine Eq.trans ?_ hz
  apply sumOut_congr
  intro b hb hb'
  have := sumOut_eq_zero (fun a => by
    by_cases h : Agrees E a
    · simp only [h, if_true]; exact joint_nonneg hnn a
    · simp [h]) h0 hb hb'
  by_cases h1 : Agrees (E ++ F) b
  · have h2 : Agrees E b := fun e he => h1 e (List.mem_append_left _ he)
    rw [if_pos h2] at this
    rw [if_pos h1, this]
  · rw [if_neg h1]

omit [Field K] [LinearOrder K] [IsStrictOrderedRing K] in
/-- The answers for two lists of evidence with the same conditional distribution are the same. -/
theorem same_answer {T T' : Table K} {m : Nat} {f f' : Nat → K} (h1 : T.pot.length = m) (h2 : T'.pot.length = m)
    (h3 : ∀ x < m, T.pot[x]? = some (f x)) (h4 : ∀ x < m, T'.pot[x]? = some (f' x)) (h : ∀ x, f x = f' x) : T.pot = T'.pot := by
  apply List.ext_getElem?
  intro x
  rcases Nat.lt_or_ge x m with hx | hx
  · rw [h3 x hx, h4 x hx, h]
  · rw [List.getElem?_eq_none (by omega), List.getElem?_eq_none (by omega)]

/-- C92.  Evidence that is irrelevant by the graph does not change the answer: if every additionally observed node is d-separated from the query
by the nodes already observed, the junction tree returns the same distribution with and without it. -/
theorem C92_irrelevant_evidence (hops : ∀ op ∈ ops, OpInRange dims.length op) (hN : (Net.empty dims).run ops = .ok N) (h0 : dims ≠ [])
    (hw : WeaklyConnected N) (horder : ∀ l, (order l).Perm l) (hcord : ∀ m, (cord m).Perm (List.range m)) (hpts : NodeTables card N pts)
    (hcond : ConditionalTables card pts) (hnn : ∀ T ∈ pts, ∀ x ∈ T.pot, 0 ≤ x) {E F : List (Nat × Nat)} (hn : ((E ++ F).map Prod.fst).Nodup)
    (hr : ∀ e ∈ E ++ F, e.1 < dims.length) (hpos : weight card dims.length (joint pts) (Agrees (E ++ F)) ≠ 0) {q : Nat} (hq : q < dims.length)
    (hqE : q ∉ (E ++ F).map Prod.fst) (hsep : ∀ w ∈ F.map Prod.fst, DSeparated (ParentOf N) (E.map Prod.fst) q w) :
    ∃ J T T', buildJunctionTree N card pts order cord = .ok J ∧ J.marginal E q = .ok (T, J) ∧ J.marginal (E ++ F) q = .ok (T', J) ∧
      T'.pot = T.pot ∧ ∀ x < card q, T.pot[x]? = some (posterior card dims.length (joint pts) E q x) := by
  have hpos' := weight_part hnn hpos
  rw [List.map_append] at hn hqE
  have hEn := (List.nodup_append.1 hn).1
  have hE : ∀ e ∈ E, e.1 < dims.length := fun e he => hr e (List.mem_append_left _ he)
  have hF : ∀ e ∈ F, e.1 < dims.length := fun e he => hr e (List.mem_append_right _ he)
  have hqE' : q ∉ E.map Prod.fst := fun h => hqE (List.mem_append_left _ h)
  have hqF : q ∉ F.map Prod.fst := fun h => hqE (List.mem_append_right _ h)
  obtain ⟨J, T, j1, j2, -, j3, j4⟩ := C42_posterior hops hN h0 hw horder hcord hpts hnn hEn hE hpos' hq hqE'
  obtain ⟨J', T', j1', j2', -, j3', j4'⟩ := C42_posterior hops hN h0 hw horder hcord hpts hnn (E := E ++ F) (by rwa [List.map_append]) hr hpos hq
    (by rwa [List.map_append])
  rw [j1] at j1'
  cases j1'
  obtain ⟨hinv, hlen⟩ := netInv_of_run hops hN
  obtain ⟨l, _, hl⟩ := C16_genTopoOrd hops hN
  rw [← hlen] at hl hpos hpos' hE hF hq
  refine ⟨J, T, T', j1, j2, j2', ?_, j4⟩
  refine same_answer j3' j3 j4' j4 (fun x => ?_)
  rw [← hlen]
  exact posterior_separated hinv hpts hcond hl hEn hE hF hq hqE' hqF hsep hpos hpos' x

/-- C92 in terms of the predicted label. -/
theorem C92_label (hops : ∀ op ∈ ops, OpInRange dims.length op) (hN : (Net.empty dims).run ops = .ok N) (h0 : dims ≠ [])
    (hw : WeaklyConnected N) (horder : ∀ l, (order l).Perm l) (hcord : ∀ m, (cord m).Perm (List.range m)) (hpts : NodeTables card N pts)
    (hcond : ConditionalTables card pts) (hnn : ∀ T ∈ pts, ∀ x ∈ T.pot, 0 ≤ x) {E F : List (Nat × Nat)} (hn : ((E ++ F).map Prod.fst).Nodup)
    (hr : ∀ e ∈ E ++ F, e.1 < dims.length) (hpos : weight card dims.length (joint pts) (Agrees (E ++ F)) ≠ 0) {q : Nat} (hq : q < dims.length)
    (hqE : q ∉ (E ++ F).map Prod.fst) (hsep : ∀ w ∈ F.map Prod.fst, DSeparated (ParentOf N) (E.map Prod.fst) q w) :
    ∃ J label, buildJunctionTree N card pts order cord = .ok J ∧ J.predict E q = .ok (label, J) ∧ J.predict (E ++ F) q = .ok (label, J) := by
  have hpos' := weight_part hnn hpos
  rw [List.map_append] at hn hqE
  have hEn := (List.nodup_append.1 hn).1
  have hE : ∀ e ∈ E, e.1 < dims.length := fun e he => hr e (List.mem_append_left _ he)
  have hF : ∀ e ∈ F, e.1 < dims.length := fun e he => hr e (List.mem_append_right _ he)
  have hqE' : q ∉ E.map Prod.fst := fun h => hqE (List.mem_append_left _ h)
  have hqF : q ∉ F.map Prod.fst := fun h => hqE (List.mem_append_right _ h)
  obtain ⟨J, x, j1, j2, j3, j4, j5⟩ := C42_predict hops hN h0 hw horder hcord hpts hnn hEn hE hpos' hq hqE'
  obtain ⟨J', x', j1', j2', j3', j4', j5'⟩ := C42_predict hops hN h0 hw horder hcord hpts hnn (E := E ++ F) (by rwa [List.map_append]) hr hpos hq
    (by rwa [List.map_append])
  rw [j1] at j1'
  cases j1'
  obtain ⟨hinv, hlen⟩ := netInv_of_run hops hN
  obtain ⟨l, _, hl⟩ := C16_genTopoOrd hops hN
  have e : ∀ y, posterior card dims.length (joint pts) (E ++ F) q y = posterior card dims.length (joint pts) E q y := by
    rw [← hlen] at hl hpos hpos' hE hF hq ⊢
    exact fun y => posterior_separated hinv hpts hcond hl hEn hE hF hq hqE' hqF hsep hpos hpos' y
  simp only [e] at j4' j5'
  have : x' = x := by
    rcases Nat.lt_trichotomy x' x with h | h | h
    · exact absurd (j4' x j3) (not_le.2 (j5 x' h))
    · exact h
    · exact absurd (j4 x' j3') (not_le.2 (j5' x h))
  subst this
  exact ⟨J, x', j1, j2, j2'⟩

/-! ### C93 -/

omit [LinearOrder K] [IsStrictOrderedRing K] in
/-- The conditional distribution depends only on the tables of a set of nodes that contains the query and the evidence and is closed under
parents. -/
theorem weight_relevant {N' : Net} {pts' : List (Table K)} (hinv : NetInv N) (hinv' : NetInv N') (hsize : N'.nodes.length = N.nodes.length)
    (hpts : NodeTables card N pts) (hpts' : NodeTables card N' pts') (hcond : ConditionalTables card pts) (hcond' : ConditionalTables card pts')
    {l l' : List Nat} (hl : IsTopologicalOrder N.nodes.length (ChildOf N) l) (hl' : IsTopologicalOrder N'.nodes.length (ChildOf N') l')
    {A : Nat → Prop} (hA : ∀ p c, ParentOf N p c → A c → A p) (hA' : ∀ p c, ParentOf N' p c → A c → A p) (hsame : ∀ i, A i → pts'[i]? = pts[i]?)
    {event : Assignment → Prop} [DecidablePred event] {vs : List Nat} (hvs : ∀ v ∈ vs, v < N.nodes.length ∧ A v)
    (hev : ∀ a b, (∀ v ∈ vs, a v = b v) → (event a ↔ event b)) :
    weight card N.nodes.length (joint pts') event = weight card N.nodes.length (joint pts) event := by
  classical
  have hmem : ∀ v, v ∈ l.filter (fun v => A v) ↔ v < N.nodes.length ∧ A v := by
    intro v
    rw [List.mem_filter, hl.2.1, decide_eq_true_iff]
  have hmem' : ∀ v, v ∈ l'.filter (fun v => A v) ↔ v < N.nodes.length ∧ A v := by
    intro v
    rw [List.mem_filter, hl'.2.1, decide_eq_true_iff, hsize]
  have hperm : (l'.filter (fun v => A v)).Perm (l.filter (fun v => A v)) :=
    (List.perm_ext_iff_of_nodup (hl'.1.filter _) (hl.1.filter _)).2 (fun v => by rw [hmem, hmem'])
  have e1 : ∀ p : List (Table K), weight card N.nodes.length (joint p) event =
      sumOut card (List.range N.nodes.length) (fun b => (if event b then 1 else 0) * joint p b) (fun _ => 0) := by
    intro p
    unfold weight
    congr 1
    funext b
    by_cases h : event b <;> simp [h]
  have hdep : ∀ ws : List Nat, (∀ v, v ∈ ws ↔ v < N.nodes.length ∧ A v) → DependsOn (fun b => if event b then (1 : K) else 0) ws := by
    intro ws hws a b hab
    have := hev a b (fun v hv => hab v ((hws v).2 (hvs v hv)))
    simp only [this]
  rw [e1, e1, sumOut_barren hinv hpts hcond hl (fun a b h => hA a b ((parentOf_iff_childOf hinv.wf).2 h)) (hdep _ hmem)]
  have := sumOut_barren hinv' hpts' hcond' hl' (fun a b h => hA' a b ((parentOf_iff_childOf hinv'.wf).2 h)) (hdep _ hmem')
  rw [hsize] at this
  rw [this, sumOut_perm_eq hperm]
  congr 1
  funext b
  rw [(hperm.map _).prod_eq]
  congr 2
  apply List.map_congr_left
  intro v hv
  unfold nodeFactor
  rw [hsame v ((hmem v).1 hv).2]

/-- C93.  Only the ancestors matter: let two networks over the same variables have the same tables on a set of nodes that contains the query and
the observed nodes and is closed under parents in both.  Then the two junction trees give the same answer, whatever the other nodes, their edges
and their tables are. -/
theorem C93_barren (hops : ∀ op ∈ ops, OpInRange dims.length op) (hN : (Net.empty dims).run ops = .ok N) (h0 : dims ≠ [])
    (hw : WeaklyConnected N) {ops' : List EdgeOp} {N' : Net} (hops' : ∀ op ∈ ops', OpInRange dims.length op) (hN' : (Net.empty dims).run ops' = .ok N')
    (hw' : WeaklyConnected N') (horder : ∀ l, (order l).Perm l) (hcord : ∀ m, (cord m).Perm (List.range m)) (hpts : NodeTables card N pts)
    {pts' : List (Table K)} (hpts' : NodeTables card N' pts') (hcond : ConditionalTables card pts) (hcond' : ConditionalTables card pts')
    (hnn : ∀ T ∈ pts, ∀ x ∈ T.pot, 0 ≤ x) (hnn' : ∀ T ∈ pts', ∀ x ∈ T.pot, 0 ≤ x) {A : Nat → Prop}
    (hA : ∀ p c, ParentOf N p c → A c → A p) (hA' : ∀ p c, ParentOf N' p c → A c → A p) (hsame : ∀ i, A i → pts'[i]? = pts[i]?)
    {E : List (Nat × Nat)} (hEn : (E.map Prod.fst).Nodup) (hE : ∀ e ∈ E, e.1 < dims.length ∧ A e.1)
    (hpos : weight card dims.length (joint pts) (Agrees E) ≠ 0) {q : Nat} (hq : q < dims.length) (hqA : A q) (hqE : q ∉ E.map Prod.fst) :
    ∃ J J' T T', buildJunctionTree N card pts order cord = .ok J ∧ buildJunctionTree N' card pts' order cord = .ok J' ∧
      J.marginal E q = .ok (T, J) ∧ J'.marginal E q = .ok (T', J') ∧ T'.pot = T.pot ∧
      ∀ x < card q, T.pot[x]? = some (posterior card dims.length (joint pts) E q x) := by
  obtain ⟨hinv, hlen⟩ := netInv_of_run hops hN
  obtain ⟨hinv', hlen'⟩ := netInv_of_run hops' hN'
  obtain ⟨l, _, hl⟩ := C16_genTopoOrd hops hN
  obtain ⟨l', _, hl'⟩ := C16_genTopoOrd hops' hN'
  have key : ∀ (event : Assignment → Prop) [DecidablePred event], (∀ a b, (∀ v ∈ q :: E.map Prod.fst, a v = b v) → (event a ↔ event b)) →
      weight card dims.length (joint pts') event = weight card dims.length (joint pts) event := by
    intro event _ hev
    have := weight_relevant (card := card) (pts := pts) (pts' := pts') hinv hinv' (hlen'.trans hlen.symm) hpts hpts' hcond hcond' (by rwa [hlen])
      (by rwa [hlen']) hA hA' hsame (event := event) (vs := q :: E.map Prod.fst) (by
        intro v hv
        rcases List.mem_cons.1 hv with rfl | hv
        · exact ⟨by rwa [hlen], hqA⟩
        · obtain ⟨e, he, rfl⟩ := List.mem_map.1 hv
          exact ⟨by rw [hlen]; exact (hE e he).1, (hE e he).2⟩) hev
    rwa [hlen] at this
  have hagree : ∀ a b : Assignment, (∀ v ∈ q :: E.map Prod.fst, a v = b v) → (Agrees E a ↔ Agrees E b) := fun a b hab =>
    forall₂_congr (fun e he => by rw [hab e.1 (List.mem_cons_of_mem _ (List.mem_map.2 ⟨e, he, rfl⟩))])
  have hpos' : weight card dims.length (joint pts') (Agrees E) ≠ 0 := by rwa [key _ hagree]
  obtain ⟨J, T, j1, j2, -, j3, j4⟩ := C42_posterior hops hN h0 hw horder hcord hpts hnn hEn (fun e he => (hE e he).1) hpos hq hqE
  obtain ⟨J', T', j1', j2', -, j3', j4'⟩ := C42_posterior hops' hN' h0 hw' horder hcord hpts' hnn' hEn (fun e he => (hE e he).1) hpos' hq hqE
  refine ⟨J, J', T, T', j1, j1', j2, j2', same_answer j3' j3 j4' j4 (fun x => ?_), j4⟩
  unfold posterior
  rw [key _ hagree, key (fun a => Agrees E a ∧ a q = x) (fun a b hab => by rw [hagree a b hab, hab q (by simp)])]

/-! ### Concrete cases -/

/-- The edges of the diamond. -/
theorem diamond_parents {N : Net} (h : (Net.empty [2, 2, 2, 2]).run diamondOps = .ok N) (p c : Nat) :
    ParentOf N p c ↔ (p, c) ∈ [(0, 1), (0, 2), (1, 3), (2, 3)] := by
  have hp : N.nodes.map NodeS.parents = [[], [0], [0], [1, 2]] := by cases h; decide
  have hpar : ParentOf N p c ↔ ∃ ps, (N.nodes.map NodeS.parents)[c]? = some ps ∧ p ∈ ps := by
    unfold ParentOf
    simp
  rw [hpar, hp]
  match c with
  | 0 => simp
  | 1 => simp
  | 2 => simp
  | 3 => simp
  | c + 4 => simp

-- in the diamond 0 → 1, 0 → 2, 1 → 3 ← 2 the nodes 1 and 2 separate 0 from 3, and the evidence on all three is possible
example {N : Net} (h : (Net.empty [2, 2, 2, 2]).run diamondOps = .ok N) : DSeparated (ParentOf N) [1, 2] 0 3 ∧
    weight (fun _ => 2) 4 (joint diamondTables) (Agrees ([(1, 1), (2, 0)] ++ [(3, 1)])) ≠ 0 := by
  have hacyc : ¬ Cyclic (ParentOf N) := by
    have hlt : ∀ a b, Relation.TransGen (ParentOf N) a b → a < b := by
      intro a b hab
      induction hab with
      | single h' => rw [diamond_parents h] at h'; simp at h'; omega
      | tail _ h' ih => rw [diamond_parents h] at h'; simp at h'; omega
    rintro ⟨i, hi⟩
    exact absurd (hlt i i hi) (lt_irrefl i)
  refine ⟨(dSeparated_iff hacyc (by omega)).2 ?_, by decide +kernel⟩
  have key : ∀ v d, Reach (ParentOf N) [1, 2] 0 v d → (v = 1 ∧ d = true) ∨ (v = 2 ∧ d = true) ∨ (v = 0 ∧ d = false) := by
    intro v d hr
    induction hr with
    | startDown h' => rw [diamond_parents h] at h'; simp at h' ⊢; omega
    | startUp h' => rw [diamond_parents h] at h'; simp at h'
    | down _ hs h' ih => rw [diamond_parents h] at h'; simp at h' hs ⊢; omega
    | up _ hs h' ih => rw [diamond_parents h] at h'; simp at h' hs ih ⊢; omega
    | bounce _ hs h' ih => rw [diamond_parents h] at h'; simp at h' hs ih ⊢; omega
  intro d hr
  have := key 3 d hr
  omega

-- the answer for node 0 with and without the irrelevant evidence on node 3; without evidence on node 2 it is relevant
example : (do
    let J ← diamondTree
    return [(← J.marginal [(1, 1), (2, 0)] 0).1.pot, (← J.marginal [(1, 1), (2, 0), (3, 1)] 0).1.pot, (← J.marginal [(1, 1)] 0).1.pot,
      (← J.marginal [(1, 1), (3, 1)] 0).1.pot]) =
    .ok [[27 / 43, 16 / 43], [27 / 43, 16 / 43], [15 / 31, 16 / 31], [183 / 391, 208 / 391]] := by decide +kernel

-- the nodes 0, 1, 2 of the diamond are closed under parents
example {N : Net} (h : (Net.empty [2, 2, 2, 2]).run diamondOps = .ok N) : ∀ p c, ParentOf N p c → c < 3 → p < 3 := by
  intro p c h'
  rw [diamond_parents h] at h'
  simp at h'
  omega

-- another table for node 3, or no edge between 2 and 3: the same answers for the nodes 0, 1, 2
example : (do
    let J ← diamondTree
    let N ← (Net.empty [2, 2, 2, 2]).run diamondOps
    let J2 ← buildJunctionTree N (fun _ => 2) (diamondTables.set 3 ⟨[3, 1, 2], [2, 2, 2], [4, 2, 1], 8, [0, 1, 0, 1, 1, 0, 1, 0]⟩) id List.range
    let N3 ← (Net.empty [2, 2, 2, 2]).run [.addDirected 0 1, .addDirected 0 2, .addDirected 1 3]
    let J3 ← buildJunctionTree N3 (fun _ => 2) (diamondTables.set 3 ⟨[3, 1], [2, 2], [2, 1], 4, [1/4, 1/2, 3/4, 1/2]⟩) id List.range
    return [(← J.marginal [(1, 1)] 0).1.pot, (← J2.marginal [(1, 1)] 0).1.pot, (← J3.marginal [(1, 1)] 0).1.pot]) =
    .ok [[15 / 31, 16 / 31], [15 / 31, 16 / 31], [15 / 31, 16 / 31]] := by decide +kernel

end FastPGM
