import Verif.Lemmas.Sampler2
import Verif.Props.Dataset

/-!
C55, C61, C62: the sample generator.
-/

namespace FastPGM

open Spec

variable {K ω : Type}

theorem configOf_set {a : Assignment} {v x : Nat} {ps : List Nat} (h : v ∉ ps) : configOf (a.set v x) ps = configOf a ps := by
  unfold configOf
  apply List.map_congr_left
  intro p hp
  unfold Assignment.set
  rw [if_neg]
  rintro rfl
  exact h hp

theorem configOf_isConfig {card : Nat → Nat} {ps : List Nat} {a : Assignment} (h : InRange card ps a) :
    IsParentConfig card ps (configOf a ps) := by
  refine ⟨by simp [configOf, Function.comp_def], ?_⟩
  intro x hx
  obtain ⟨p, hp, rfl⟩ := List.mem_map.1 hx
  exact h p hp

/-- The tables of the sample generator. -/
theorem sampleTables_ok [Zero K] [LE K] [LT K] {card : Nat → Nat} {N : Net} (hsh : NetShape card N)
    {prob : Nat → Nat → Config → Except Fault K} (hprob : ∀ (v : Nat) node, N.nodes[v]? = some node → Weights card node.parents (card v) (prob v)) :
    ∃ cpts, sampleTables N prob = .ok cpts ∧ TablesOK card N.nodes.length N.pa cpts ∧
      ∀ (v : Nat) T, cpts[v]? = some T → ∀ a, InRange card (v :: N.pa v) a → prob v (a v) (configOf a (N.pa v)) = .ok (value T a) := by
  have key : ∀ v, ∃ T, v < N.nodes.length → nodeTable N v (prob v) = .ok T ∧ WellFormed card T ∧ T.vars = v :: N.pa v ∧
      ∀ a, InRange card (v :: N.pa v) a → prob v (a v) (configOf a (N.pa v)) = .ok (value T a) := by
    intro v
    by_cases hv : v < N.nodes.length
    · have hn : N.nodes[v]? = some N.nodes[v] := List.getElem?_eq_getElem hv
      obtain ⟨T, h1, h2, h3, _, h5⟩ := C10_nodeTable (K := K) hsh hn (prob := prob v) (fun x hx u hu => by
        obtain ⟨p, hp, _⟩ := (hprob v _ hn u hu).1 x hx
        exact ⟨p, hp⟩)
      rw [pa_of_lt hv]
      exact ⟨T, fun _ => ⟨h1, h2, h3, h5⟩⟩
    · exact ⟨⟨[], [], [], 0, []⟩, fun h => absurd h hv⟩
  choose Tf hTf using key
  have hlen : ∀ v T, (tab N.nodes.length Tf)[v]? = some T → v < N.nodes.length ∧ T = Tf v := by
    intro v T h
    rw [tab_get?] at h
    by_cases hv : v < N.nodes.length
    · rw [if_pos hv] at h; exact ⟨hv, (Option.some.inj h).symm⟩
    · rw [if_neg hv] at h; cases h
  refine ⟨tab N.nodes.length Tf, ?_, ⟨?_, ?_⟩, ?_⟩
  · exact mapM_ok (fun v hv => (hTf v (List.mem_range.1 hv)).1)
  · intro v hv
    obtain ⟨h1, h2, h3, h4⟩ := hTf v hv
    have hn : N.nodes[v]? = some N.nodes[v] := List.getElem?_eq_getElem hv
    refine ⟨Tf v, by rw [tab_get?, if_pos hv], h2, h3, ?_⟩
    intro a ha
    have hvp : v ∉ N.pa v := by rw [pa_of_lt hv]; exact (hsh.parents v _ hn).2.2
    have hw := hprob v _ hn (configOf a (N.pa v)) (by rw [← pa_of_lt hv]; exact configOf_isConfig ha)
    have hval : ∀ x < card v, prob v x (configOf a (N.pa v)) = .ok (value (Tf v) (a.set v x)) := by
      intro x hx
      have := h4 (a.set v x) (by
        intro p hp
        rcases List.mem_cons.1 hp with rfl | hp
        · simpa [Assignment.set] using hx
        · have : p ≠ v := fun e => hvp (e ▸ hp)
          simpa [Assignment.set, this] using ha p hp)
      rw [configOf_set hvp] at this
      simpa [Assignment.set] using this
    constructor
    · intro p hp
      obtain ⟨x, hx, rfl⟩ := List.mem_map.1 hp
      rw [List.mem_range] at hx
      obtain ⟨q, hq, hq0⟩ := hw.1 x hx
      rw [hval x hx] at hq
      cases hq
      exact hq0
    · obtain ⟨x, hx, q, hq, hq0⟩ := hw.2
      rw [hval x hx] at hq
      cases hq
      exact ⟨_, List.mem_map.2 ⟨x, List.mem_range.2 hx, rfl⟩, hq0⟩
  · intro v hv p hp
    have hn : N.nodes[v]? = some N.nodes[v] := List.getElem?_eq_getElem hv
    rw [pa_of_lt hv] at hp
    exact (hsh.parents v _ hn).2.1 p hp
  · intro v T h
    obtain ⟨hv, rfl⟩ := hlen v T h
    exact (hTf v hv).2.2.2

/-- The samples at the level of tables, for a network built by edge operations. -/
theorem samples_of_history [Zero K] [LE K] [LT K] {dims : List Nat} (hpos : ∀ d ∈ dims, 0 < d) (hne : dims ≠ []) {ops : List EdgeOp}
    (hops : ∀ op ∈ ops, OpInRange dims.length op) {N : Net} (hN : (Net.empty dims).run ops = .ok N)
    {prob : Nat → Nat → Config → Except Fault K}
    (hprob : ∀ (v : Nat) node, N.nodes[v]? = some node → Weights (fun j => dims.getD j 0) node.parents (dims.getD v 0) (prob v))
    {draw : List K → ω → Except Fault Nat} (hdraw : DrawsPossible draw) :
    ∃ cpts ord, IsTopologicalOrder dims.length (ChildOf N) ord ∧ (∀ x y, x ∈ N.pa y → ord.idxOf x < ord.idxOf y) ∧
      TablesOK (fun j => dims.getD j 0) dims.length N.pa cpts ∧
      (∀ (v : Nat) T, cpts[v]? = some T → ∀ a, InRange (fun j => dims.getD j 0) (v :: N.pa v) a →
        prob v (a v) (configOf a (N.pa v)) = .ok (value T a)) ∧
      ∀ (m : Nat) (rnd : Nat → Nat → ω), ∃ samples N', generateSamples draw N prob m rnd = .ok (samples, N') ∧ samples.length = m ∧
      ∀ (i : Nat) s, samples[i]? = some s → Sampled draw (fun j => dims.getD j 0) dims.length N.pa cpts (rnd i) ord ord s := by
  obtain ⟨N0, h1, h2, h3, h4⟩ := run_shape hops hpos
  rw [hN] at h1
  cases h1
  obtain ⟨ord, N1, o1, o2, o3, _⟩ := C16_getTopoOrd hops hN hne
  obtain ⟨cpts, c1, c2, c3⟩ := sampleTables_ok (K := K) h3 hprob
  have tf := topoFacts h4 (T := ord) (by rw [h2]; exact o2)
  refine ⟨cpts, ord, o2, tf.before, h2 ▸ c2, c3, fun m rnd => ?_⟩
  obtain ⟨samples, N', g1, g2, g3⟩ := generateSamples_spec hdraw c1 c2 rnd tf.nodup tf.mem (fun x y h _ => tf.before x y h) o1 o3 m
  rw [h2] at g3
  exact ⟨samples, N', g1, g2, g3⟩

/-- C55.  Sampling from any network built by edge operations succeeds, whatever the random draws, if every conditional distribution has
only non-negative numbers, one of them positive.  Every sample has exactly one legal value for every variable; it was drawn from the
node's conditional distribution at the values the parents have in that same sample; and its probability given the parents is positive.
Draw number `t` of a sample serves the variable at position `t` of a topological order, the same for all samples and all random draws. -/
theorem C55_samples [Zero K] [LE K] [LT K] {dims : List Nat} (hpos : ∀ d ∈ dims, 0 < d) (hne : dims ≠ []) {ops : List EdgeOp}
    (hops : ∀ op ∈ ops, OpInRange dims.length op) {N : Net} (hN : (Net.empty dims).run ops = .ok N)
    {prob : Nat → Nat → Config → Except Fault K}
    (hprob : ∀ (v : Nat) node, N.nodes[v]? = some node → Weights (fun j => dims.getD j 0) node.parents (dims.getD v 0) (prob v))
    {draw : List K → ω → Except Fault Nat} (hdraw : DrawsPossible draw) :
    ∃ ord, IsTopologicalOrder dims.length (ChildOf N) ord ∧ ∀ (m : Nat) (rnd : Nat → Nat → ω),
      ∃ samples N', generateSamples draw N prob m rnd = .ok (samples, N') ∧ samples.length = m ∧
      ∀ (i : Nat) s, samples[i]? = some s → s.length = dims.length ∧
        ∀ (v : Nat) node, N.nodes[v]? = some node →
          asg s v < dims.getD v 0 ∧
          (∃ p, prob v (asg s v) (configOf (asg s) node.parents) = .ok p ∧ 0 < p) ∧
          ∃ w : List K, w.length = dims.getD v 0 ∧
            (∀ x < dims.getD v 0, ∃ p, prob v x (configOf (asg s) node.parents) = .ok p ∧ w[x]? = some p) ∧
            draw w (rnd i (ord.idxOf v)) = .ok (asg s v) := by
  obtain ⟨cpts, ord, o1, o2, t1, t2, hall⟩ := samples_of_history hpos hne hops hN hprob hdraw
  refine ⟨ord, o1, fun m rnd => ?_⟩
  obtain ⟨samples, N', g1, g2, g3⟩ := hall m rnd
  refine ⟨samples, N', g1, g2, ?_⟩
  intro i s hs
  have S := g3 i s hs
  refine ⟨S.length, ?_⟩
  intro v node hnode
  obtain ⟨N0, h1, h2, h3, h4⟩ := run_shape hops hpos
  rw [hN] at h1
  cases h1
  have hv : v < N.nodes.length := (List.getElem?_eq_some_iff.1 hnode).1
  have hpa : N.pa v = node.parents := by
    rw [pa_of_lt hv]
    exact congrArg NodeS.parents (List.getElem?_eq_some_iff.1 hnode).2
  have hr : ∀ w < dims.length, asg s w < dims.getD w 0 := by
    intro w hw
    obtain ⟨_, _, _, h, _⟩ := S.drawn w ((o1.2.1 w).2 hw)
    exact h
  obtain ⟨T, d1, d2, d3, d4⟩ := S.drawn v ((o1.2.1 v).2 (by omega))
  have hps : ∀ p ∈ N.pa v, p < dims.length := t1.lt v (by omega)
  have hin : InRange (fun j => dims.getD j 0) (v :: N.pa v) (asg s) := by
    intro p hp
    rcases List.mem_cons.1 hp with rfl | hp
    · exact d3
    · exact hr p (hps p hp)
  have hvp : v ∉ N.pa v := by rw [hpa]; exact (h3.parents v _ hnode).2.2
  have hval := t2 v T d1
  refine ⟨d3, ⟨value T (asg s), ?_, d4⟩, columnOf (fun j => dims.getD j 0) T v (asg s), by simp [columnOf], ?_, d2⟩
  · rw [← hpa]; exact hval _ hin
  · intro x hx
    refine ⟨value T ((asg s).set v x), ?_, ?_⟩
    · have := hval ((asg s).set v x) (by
        intro p hp
        rcases List.mem_cons.1 hp with rfl | hp
        · simpa [Assignment.set] using hx
        · have : p ≠ v := fun e => hvp (e ▸ hp)
          simpa [Assignment.set, this] using hr p (hps p hp))
      rw [configOf_set hvp, hpa] at this
      simpa [Assignment.set] using this
    · rw [columnOf, tab_get?, if_pos hx]

/-! ### C61 -/

section inversion
variable [Field K] [LinearOrder K] [IsStrictOrderedRing K]

/-- `discrete_distribution` by inversion, on random numbers in `(0, 1]`. -/
def inversion (w : List K) (u : {u : K // 0 < u ∧ u ≤ 1}) : Except Fault Nat := drawInverse w u.1

/-- C61: drawing by inversion keeps the promise of the standard. -/
theorem C61_inversion_possible : DrawsPossible (inversion (K := K)) := by
  intro w r hw he
  have hs := sum_pos_of hw he
  obtain ⟨k, hk⟩ := drawInverse_ok hw hs r.1
  obtain ⟨h1, h2, h3⟩ := (drawInverse_iff hw hs r.2.1 r.2.2).1 hk
  refine ⟨k, w[k], hk, List.getElem?_eq_getElem h1, ?_⟩
  rw [List.take_add_one, List.getElem?_eq_getElem h1, List.sum_append] at h3
  simp at h3
  linarith

omit [IsStrictOrderedRing K] in
/-- Finding on the library: the random number 0, which libstdc++ can return, draws the first value even if its probability is 0. -/
theorem C61_zero_draw {w : List K} (hw : ∀ p ∈ w, 0 ≤ p) (hs : 0 < w.sum) : drawInverse (0 :: w) 0 = .ok 0 := by
  unfold drawInverse
  rw [if_neg]
  · have : (List.range (0 :: w).length).find? (fun k => decide ((0 : K) * (0 :: w).sum ≤ ((0 :: w).take (k + 1)).sum)) = some 0 := by
      rw [List.find?_range_eq_some]
      refine ⟨by simp, by simp, by simp⟩
    rw [this]; rfl
  · rintro (⟨p, hp, hlt⟩ | h)
    · rcases List.mem_cons.1 hp with rfl | hp
      · exact absurd hlt (lt_irrefl _)
      · exact absurd (hw p hp) (not_le.2 hlt)
    · rw [List.sum_cons, zero_add] at h
      rw [h] at hs
      exact lt_irrefl _ hs

/-- Conditional distributions that add up to 1 are weights. -/
theorem weights_of_cond {dims : List Nat} (hpos : ∀ d ∈ dims, 0 < d) {ops : List EdgeOp}
    (hops : ∀ op ∈ ops, OpInRange dims.length op) {N : Net} (hN : (Net.empty dims).run ops = .ok N)
    {prob : Nat → Nat → Config → Except Fault K} (cond : Nat → Assignment → K)
    (hcond : ∀ (v : Nat) node, N.nodes[v]? = some node → ∀ a, InRange (fun j => dims.getD j 0) (v :: node.parents) a →
      prob v (a v) (configOf a node.parents) = .ok (cond v a) ∧ 0 ≤ cond v a ∧
        ∑ y ∈ Finset.range (dims.getD v 0), cond v (a.set v y) = 1) :
    ∀ (v : Nat) node, N.nodes[v]? = some node → Weights (fun j => dims.getD j 0) node.parents (dims.getD v 0) (prob v) := by
  obtain ⟨N0, h1, h2, h3, h4⟩ := run_shape hops hpos
  rw [hN] at h1
  cases h1
  -- every configuration comes from an assignment
  intro v node hnode u hu
  have hvp := (h3.parents v _ hnode).2.2
  have hnd : node.parents.Nodup := ((h3.parents v _ hnode).1).imp (fun h => Nat.ne_of_lt h)
  let a : Assignment := fun p => (u.lookup p).getD 0
  have hlook : ∀ q ∈ u, u.lookup q.1 = some q.2 := by
    have hk : (u.map Prod.fst).Nodup := by rw [hu.1]; exact hnd
    clear hu
    clear a
    induction u with
    | nil => simp
    | cons q0 u ih =>
      rw [List.map_cons, List.nodup_cons] at hk
      intro q hq
      rcases List.mem_cons.1 hq with rfl | hq
      · simp [List.lookup]
      · have hne : q.1 ≠ q0.1 := fun e => hk.1 (e ▸ List.mem_map.2 ⟨q, hq, rfl⟩)
        have : (q.1 == q0.1) = false := by simp [hne]
        rw [List.lookup, this]
        exact ih hk.2 q hq
  have ha : configOf a node.parents = u := by
    unfold configOf
    rw [← hu.1, List.map_map]
    conv => rhs; rw [← List.map_id u]
    apply List.map_congr_left
    intro q hq
    simp [a, hlook q hq]
  have har : InRange (fun j => dims.getD j 0) node.parents a := by
    intro p hp
    rw [← hu.1] at hp
    obtain ⟨q, hq, rfl⟩ := List.mem_map.1 hp
    have := hu.2 q hq
    simpa [a, hlook q hq] using this
  have hx : ∀ x < dims.getD v 0, InRange (fun j => dims.getD j 0) (v :: node.parents) (a.set v x) := by
    intro x hx p hp
    rcases List.mem_cons.1 hp with rfl | hp
    · simpa [Assignment.set] using hx
    · have : p ≠ v := fun e => hvp (e ▸ hp)
      simpa [Assignment.set, this] using har p hp
  have hc : ∀ x < dims.getD v 0, prob v x u = .ok (cond v (a.set v x)) ∧ 0 ≤ cond v (a.set v x) := by
    intro x hx'
    obtain ⟨g1, g2, _⟩ := hcond v node hnode (a.set v x) (hx x hx')
    rw [configOf_set hvp, ha] at g1
    exact ⟨by simpa [Assignment.set] using g1, g2⟩
  refine ⟨fun x hx' => ⟨_, (hc x hx').1, (hc x hx').2⟩, ?_⟩
  have hd0 : 0 < dims.getD v 0 := (h3.dim v _ hnode).2
  have hsum := (hcond v node hnode (a.set v 0) (hx 0 hd0)).2.2
  by_contra hcon
  have hz : ∀ y ∈ Finset.range (dims.getD v 0), cond v ((a.set v 0).set v y) = 0 := by
    intro y hy
    rw [Finset.mem_range] at hy
    have e : (a.set v 0).set v y = a.set v y := by
      funext w; unfold Assignment.set; split <;> rfl
    rw [e]
    rcases lt_or_eq_of_le (hc y hy).2 with h | h
    · exact absurd ⟨y, hy, _, (hc y hy).1, h⟩ hcon
    · exact h.symm
  rw [Finset.sum_eq_zero hz] at hsum
  exact zero_ne_one hsum

/-- C61.  With `discrete_distribution` working by inversion and conditional distributions that add up to 1, a sample equals a given
assignment `x` exactly when, for every variable, its random number lies in an interval whose length is P(x_v | parents' values in x).
So independent uniform numbers give each assignment the product of these lengths as its probability: its joint probability. -/
theorem C61_box {dims : List Nat} (hpos : ∀ d ∈ dims, 0 < d) (hne : dims ≠ []) {ops : List EdgeOp}
    (hops : ∀ op ∈ ops, OpInRange dims.length op) {N : Net} (hN : (Net.empty dims).run ops = .ok N)
    {prob : Nat → Nat → Config → Except Fault K} (cond : Nat → Assignment → K)
    (hcond : ∀ (v : Nat) node, N.nodes[v]? = some node → ∀ a, InRange (fun j => dims.getD j 0) (v :: node.parents) a →
      prob v (a v) (configOf a node.parents) = .ok (cond v a) ∧ 0 ≤ cond v a ∧
        ∑ y ∈ Finset.range (dims.getD v 0), cond v (a.set v y) = 1) :
    ∃ ord, IsTopologicalOrder dims.length (ChildOf N) ord ∧ ∀ (m : Nat) (rnd : Nat → Nat → {u : K // 0 < u ∧ u ≤ 1}),
      ∃ samples N', generateSamples inversion N prob m rnd = .ok (samples, N') ∧ samples.length = m ∧
      ∀ (i : Nat) s, samples[i]? = some s → ∀ x : Assignment, InRange (fun j => dims.getD j 0) (List.range dims.length) x →
        ((∀ v < dims.length, s[v]? = some (x v)) ↔
          ∀ v < dims.length, ∃ low : K, low = ∑ y ∈ Finset.range (x v), cond v (x.set v y) ∧
            low < (rnd i (ord.idxOf v)).1 ∧ (rnd i (ord.idxOf v)).1 ≤ low + cond v x) := by
  obtain ⟨N0, h1, h2, h3, h4⟩ := run_shape hops hpos
  rw [hN] at h1
  cases h1
  have hprob := weights_of_cond hpos hops hN cond hcond
  obtain ⟨cpts, ord, o1, o2, t1, t2, hall⟩ := samples_of_history hpos hne hops hN hprob C61_inversion_possible
  refine ⟨ord, o1, fun m rnd => ?_⟩
  obtain ⟨samples, N', g1, g2, g3⟩ := hall m rnd
  refine ⟨samples, N', g1, g2, ?_⟩
  intro i s hs x hx
  have S := g3 i s hs
  have hx' : ∀ v < dims.length, x v < dims.getD v 0 := fun v hv => hx v (List.mem_range.2 hv)
  have hr : ∀ w < dims.length, asg s w < dims.getD w 0 := by
    intro w hw
    obtain ⟨_, _, _, h, _⟩ := S.drawn w ((o1.2.1 w).2 hw)
    exact h
  have hget : ∀ v < dims.length, (s[v]? = some (x v) ↔ asg s v = x v) := by
    intro v hv
    have : v < s.length := by rw [S.length]; exact hv
    rw [List.getElem?_eq_getElem this, Option.some.injEq]
    unfold asg
    rw [getD_of_lt this]
  -- the column at x and the interval
  have hcol : ∀ v < dims.length, ∀ T, cpts[v]? = some T → ∀ k < dims.getD v 0,
      (drawInverse (columnOf (fun j => dims.getD j 0) T v x) (rnd i (ord.idxOf v)).1 = .ok k ↔
        ∑ y ∈ Finset.range k, cond v (x.set v y) < (rnd i (ord.idxOf v)).1 ∧
          (rnd i (ord.idxOf v)).1 ≤ ∑ y ∈ Finset.range (k + 1), cond v (x.set v y)) := by
    intro v hv T hT k hk
    have hvN : v < N.nodes.length := by omega
    have hnode : N.nodes[v]? = some N.nodes[v] := List.getElem?_eq_getElem hvN
    have hpa : N.pa v = N.nodes[v].parents := pa_of_lt hvN
    have hvp : v ∉ N.pa v := by rw [hpa]; exact (h3.parents v _ hnode).2.2
    have hset : ∀ y < dims.getD v 0, InRange (fun j => dims.getD j 0) (v :: N.pa v) (x.set v y) := by
      intro y hy p hp
      rcases List.mem_cons.1 hp with rfl | hp
      · simpa [Assignment.set] using hy
      · have : p ≠ v := fun e => hvp (e ▸ hp)
        simpa [Assignment.set, this] using hx' p (t1.lt v hv p hp)
    have hv' : ∀ y < dims.getD v 0, value T (x.set v y) = cond v (x.set v y) := by
      intro y hy
      have e1 := t2 v T hT _ (hset y hy)
      have e2 := (hcond v _ hnode (x.set v y) (by rw [← hpa]; exact hset y hy)).1
      rw [← hpa, e1] at e2
      exact Except.ok.inj e2
    have hcolEq : columnOf (fun j => dims.getD j 0) T v x = tab (dims.getD v 0) (fun y => cond v (x.set v y)) :=
      tab_congr hv'
    have hself : InRange (fun j => dims.getD j 0) (v :: N.nodes[v].parents) x := by
      intro p hp
      rw [← hpa] at hp
      rcases List.mem_cons.1 hp with rfl | hp
      · exact hx' _ hv
      · exact hx' p (t1.lt v hv p hp)
    have hsum1 := (hcond v _ hnode x hself).2.2
    have hnn : ∀ p ∈ tab (dims.getD v 0) (fun y => cond v (x.set v y)), 0 ≤ p := by
      intro p hp
      obtain ⟨y, hy, rfl⟩ := List.mem_map.1 hp
      rw [List.mem_range] at hy
      exact (hcond v _ hnode (x.set v y) (by rw [← hpa]; exact hset y hy)).2.1
    have htot : (tab (dims.getD v 0) (fun y => cond v (x.set v y))).sum = 1 := by
      have := tab_take_sum (Nat.le_refl (dims.getD v 0)) (fun y => cond v (x.set v y))
      rw [List.take_of_length_le (by simp)] at this
      rw [this, hsum1]
    rw [hcolEq, drawInverse_iff hnn (by rw [htot]; exact one_pos) (rnd i (ord.idxOf v)).2.1 (rnd i (ord.idxOf v)).2.2, htot, mul_one,
      tab_take_sum (by omega), tab_take_sum (by omega)]
    constructor
    · rintro ⟨_, h⟩; exact h
    · intro h; exact ⟨by simpa using hk, h⟩
  have hsucc : ∀ v, ∑ y ∈ Finset.range (x v + 1), cond v (x.set v y) = ∑ y ∈ Finset.range (x v), cond v (x.set v y) + cond v x := by
    intro v
    rw [Finset.sum_range_succ]
    congr 2
    funext w; unfold Assignment.set; split
    · next h => rw [h]
    · rfl
  constructor
  · intro hall v hv
    refine ⟨_, rfl, ?_⟩
    obtain ⟨T, d1, d2, d3, d4⟩ := S.drawn v ((o1.2.1 v).2 hv)
    obtain ⟨T', c1, c2, c3, _⟩ := t1.get v hv
    rw [d1] at c1
    cases c1
    rw [columnOf_congr (b := x) c3 (fun p hp => (hget p (t1.lt v hv p hp)).1 (hall p (t1.lt v hv p hp))),
      (hget v hv).1 (hall v hv)] at d2
    have := (hcol v hv T d1 (x v) (hx' v hv)).1 d2
    rw [hsucc] at this
    exact this
  · intro hall
    suffices H : ∀ t v, v < dims.length → ord.idxOf v = t → asg s v = x v by
      intro v hv
      exact (hget v hv).2 (H _ v hv rfl)
    intro t
    induction t using Nat.strongRecOn with
    | ind t ih =>
      intro v hv ht
      obtain ⟨T, d1, d2, d3, d4⟩ := S.drawn v ((o1.2.1 v).2 hv)
      obtain ⟨T', c1, c2, c3, _⟩ := t1.get v hv
      rw [d1] at c1
      cases c1
      have hpar : ∀ p ∈ N.pa v, asg s p = x p := by
        intro p hp
        exact ih _ (ht ▸ o2 p v hp) p (t1.lt v hv p hp) rfl
      rw [columnOf_congr (b := x) c3 hpar] at d2
      obtain ⟨low, rfl, l1, l2⟩ := hall v hv
      have := (hcol v hv T d1 (x v) (hx' v hv)).2 ⟨l1, by rw [hsucc]; exact l2⟩
      have d2' : drawInverse (columnOf (fun j => dims.getD j 0) T v x) (rnd i (ord.idxOf v)).1 = .ok (asg s v) := d2
      rw [d2'] at this
      exact Except.ok.inj this

end inversion

/-! ### C62 -/

/-- The samples as a data set. -/
def sampleDataset (n : Nat) (cls : Int) (samples : List (List Nat)) : Dataset :=
  { numInstance := samples.length, numVars := n, classVar := cls
    rows := samples.map (fun s => tab n (fun i : Nat => ((i : Int), ((asg s i : Nat) : Int)))) }

theorem filter_flatMap {α β : Type} (p : α → Bool) (f : α → List β) (l : List α) :
    (l.filter p).flatMap f = l.flatMap (fun a => if p a then f a else []) := by
  induction l with
  | nil => rfl
  | cons a l ih =>
    rw [List.filter_cons, List.flatMap_cons, ← ih]
    by_cases h : p a = true <;> simp [h]

theorem foldlM_append {α : Type} {l : List α} {f : Str → α → Except Fault Str} {g : α → Str} (h : ∀ a ∈ l, ∀ x, f x a = .ok (x ++ g a)) (x : Str) :
    l.foldlM f x = .ok (x ++ l.flatMap g) := by
  induction l generalizing x with
  | nil => simp
  | cons a l ih =>
    rw [List.foldlM_cons, h a (by simp), ok_bind, ih (fun b hb => h b (by simp [hb]))]
    simp

theorem sampleLine_eq {n : Nat} {cls : Int} (h0 : 0 ≤ cls) (h1 : cls < n) {s : List Nat} (hs : s.length = n) :
    sampleLine n cls s = .ok (storedLine cls (tab n (fun i : Nat => ((i : Int), ((asg s i : Nat) : Int))))).text := by
  have hget : ∀ j < n, rd s j = .ok (asg s j) := by
    intro j hj
    rw [rd_getElem (by omega)]
    unfold asg
    rw [getD_of_lt (by omega)]
  rw [sampleLine, rdI, if_neg (by omega), hget _ (by omega), ok_bind]
  rw [foldlM_append (g := fun j : Nat => if (j : Int) ≠ cls ∧ ((asg s j : Nat) : Int) ≠ 0 then svmPiece ((j : Int), ((asg s j : Nat) : Int)) ++ [32] else [])]
  · rw [SvmLine.text_flat _ rfl, storedLine]
    simp only [svmPieces, List.flatMap_cons]
    congr 2
    · rw [lastValue_tab (fun i => ((asg s i : Nat) : Int)) (show cls.toNat < n by omega)]
    · rw [List.flatMap_map, filter_flatMap, tab, List.flatMap_map]
      congr 1
      funext j
      simp
  · intro j hj x
    rw [List.mem_range] at hj
    by_cases hc : (j : Int) = cls
    · simp [hc]
    · simp only [hget j hj, ok_bind]
      by_cases hx : asg s j = 0
      · simp [hc, hx]
      · simp [hc, hx, svmPiece]

/-- C62: the file written for the samples is the LIBSVM file of the samples as a data set. -/
theorem outputLIBSVM_eq {n : Nat} {cls : Int} (h0 : 0 ≤ cls) (h1 : cls < n) {samples : List (List Nat)} (hs : ∀ s ∈ samples, s.length = n) :
    outputLIBSVM n samples.length cls samples = (sampleDataset n cls samples).storeLIBSVM := by
  have hrows : ∀ row ∈ (sampleDataset n cls samples).rows, CompleteRow n row := by
    intro row hr
    obtain ⟨s, _, rfl⟩ := List.mem_map.1 hr
    unfold CompleteRow tab
    rw [List.map_map]
    exact List.Perm.refl _
  rw [storeLIBSVM_eq (D := sampleDataset n cls samples) (by simp [sampleDataset]) h0 h1 hrows]
  unfold outputLIBSVM
  refine Eq.trans (foldlM_range_rd samples (fun out s => do
    let line ← sampleLine n cls s
    return out ++ line ++ [10]) []) ?_
  rw [foldlM_append (g := fun s => (storedLine cls (tab n (fun i : Nat => ((i : Int), ((asg s i : Nat) : Int))))).text ++ [10])]
  · simp [textOf, sampleDataset, List.flatMap_map]
  · intro s hs' x
    rw [sampleLine_eq h0 h1 (hs s hs'), ok_bind]
    simp

theorem row_of_perm {n : Nat} {f : Nat → Int} {row : List (Int × Int)} (hp : (tab n (fun i : Nat => ((i : Int), f i))).Perm row)
    (hk : row.map (fun p => p.1) = (List.range n).map (fun i : Nat => (i : Int))) : row = tab n (fun i : Nat => ((i : Int), f i)) := by
  have hl : row.length = n := by rw [← hp.length_eq]; simp
  refine tab_ext hl ?_
  intro i hi
  have hi' : i < row.length := by omega
  rw [List.getElem?_eq_getElem hi']
  have hmem := hp.mem_iff.2 (List.getElem_mem hi')
  obtain ⟨j, hj, e⟩ := List.mem_map.1 hmem
  have hfst : row[i].1 = (i : Int) := by
    have := congrArg (fun l => l[i]?) hk
    simp only [List.getElem?_map, List.getElem?_eq_getElem hi', List.getElem?_range hi, Option.map_some] at this
    exact Option.some.inj this
  rw [← e] at hfst ⊢
  simp only at hfst
  have : j = i := by omega
  rw [this]

/-- C62.  The samples written in LIBSVM format and loaded as test data are the samples: every loaded row lists all variables in order with
their values. -/
theorem C62_output_load {n : Nat} {cls : Int} (h0 : 0 ≤ cls) (h1 : cls < n) (hn : n ≤ 2147483647) {samples : List (List Nat)}
    (hs : ∀ s ∈ samples, s.length = n ∧ ∀ x ∈ s, x ≤ 2147483647) (D : Dataset) (hnum : D.numVars = n) (hempty : D.rows = []) :
    ∃ text D', outputLIBSVM n samples.length cls samples = .ok text ∧ D.loadLIBSVMTesting text cls = .ok D' ∧
      D'.numInstance = samples.length ∧ D'.classVar = cls ∧
      D'.rows = samples.map (fun s => (List.range n).map (fun i : Nat => ((i : Int), ((s.getD i 0 : Nat) : Int)))) := by
  have hrows : ∀ row ∈ (sampleDataset n cls samples).rows, CompleteRow n row := by
    intro row hr
    obtain ⟨s, _, rfl⟩ := List.mem_map.1 hr
    unfold CompleteRow tab
    rw [List.map_map]
    exact List.Perm.refl _
  have hval : ∀ row ∈ (sampleDataset n cls samples).rows, ∀ p ∈ row, IntRange p.2 := by
    intro row hr p hp
    obtain ⟨s, hs', rfl⟩ := List.mem_map.1 hr
    obtain ⟨i, hi, rfl⟩ := List.mem_map.1 hp
    rw [List.mem_range] at hi
    have hi' : i < s.length := by rw [(hs s hs').1]; exact hi
    have := (hs s hs').2 s[i] (List.getElem_mem hi')
    unfold IntRange asg
    rw [getD_of_lt hi']
    constructor <;> (simp only; omega)
  obtain ⟨text, D', e1, e2, e3, e4, e5, e6⟩ := C52_store_load (sampleDataset n cls samples) (by simp [sampleDataset]) h0 h1 hn hrows hval D hnum hempty
  refine ⟨text, D', by rw [outputLIBSVM_eq h0 h1 (fun s h => (hs s h).1)]; exact e1, e2, e3, e4, ?_⟩
  have hlen : D'.rows.length = samples.length := by rw [e5]; simp [sampleDataset]
  apply List.ext_getElem?
  intro i
  by_cases hi : i < samples.length
  · have hi' : i < (sampleDataset n cls samples).rows.length := by simpa [sampleDataset] using hi
    obtain ⟨row, r1, r2, r3⟩ := e6 i hi'
    rw [r1, List.getElem?_map, List.getElem?_eq_getElem hi, Option.map_some]
    congr 1
    refine row_of_perm ?_ r3
    simpa [sampleDataset, asg] using r2
  · rw [List.getElem?_eq_none (by omega), List.getElem?_eq_none (by simp; omega)]

/-- C62: a class variable that is not a node is read outside the sample. -/
theorem C62_bad_class_ub {n : Nat} {cls : Int} (h : cls < 0 ∨ (n : Int) ≤ cls) {samples : List (List Nat)} (hs : ∀ s ∈ samples, s.length = n)
    (hne : samples ≠ []) : outputLIBSVM n samples.length cls samples = .error .ub := by
  unfold outputLIBSVM
  refine Eq.trans (foldlM_range_rd samples (fun out s => do
    let line ← sampleLine n cls s
    return out ++ line ++ [10]) []) ?_
  cases samples with
  | nil => exact absurd rfl hne
  | cons s rest =>
    have : sampleLine n cls s = .error .ub := by
      rw [sampleLine]
      have hr : rdI s cls = .error .ub := by
        unfold rdI
        by_cases h0 : cls < 0
        · rw [if_pos h0]
        · rw [if_neg h0, rd, List.getElem?_eq_none]
          rw [hs s (by simp)]
          omega
      rw [hr]; rfl
    rw [List.foldlM_cons, this]; rfl

/-! ### The hypotheses can be met -/

/-- The conditional distributions of the examples: node 0 is uniform, node 1 copies node 0 with probability 3/4. -/
private def exProb (v x : Nat) (u : Config) : Except Fault Rat :=
  if v = 0 then .ok (1 / 2) else .ok (if u = [(0, x)] then 3 / 4 else 1 / 4)

private def exNet : Except Fault Net := (Net.empty [2, 2]).run [.addDirected 0 1]

/-- Two samples of the network `0 → 1`. -/
example : ∃ u1 u2 u3 u4 : {u : Rat // 0 < u ∧ u ≤ 1}, ((exNet >>= fun N => generateSamples inversion N exProb 2
    (fun i t => if i = 0 then (if t = 0 then u1 else u2) else (if t = 0 then u3 else u4))).toOption.map (fun r => r.1)) =
      some [[0, 1], [1, 1]] :=
  ⟨⟨1 / 2, by decide +kernel⟩, ⟨4 / 5, by decide +kernel⟩, ⟨3 / 4, by decide +kernel⟩, ⟨2 / 5, by decide +kernel⟩, by decide +kernel⟩

/-- The theorems apply to it. -/
example : ∃ N ord, exNet = .ok N ∧ IsTopologicalOrder 2 (ChildOf N) ord ∧ ∀ (m : Nat) (rnd : Nat → Nat → {u : Rat // 0 < u ∧ u ≤ 1}),
    ∃ samples N', generateSamples inversion N exProb m rnd = .ok (samples, N') ∧ samples.length = m := by
  have hops : ∀ op ∈ [EdgeOp.addDirected 0 1], OpInRange 2 op := by simp [OpInRange]
  obtain ⟨ord, h3, h⟩ := C61_box (K := Rat) (dims := [2, 2]) (by simp) (by simp) hops (N := _) rfl (prob := exProb)
    (fun v a => if v = 0 then 1 / 2 else if a 0 = a 1 then 3 / 4 else 1 / 4) (by
      intro v node hnode a ha
      match v with
      | 0 =>
        refine ⟨rfl, by norm_num, ?_⟩
        simp
      | 1 =>
        cases hnode
        refine ⟨?_, ?_, ?_⟩
        · show exProb 1 (a 1) [(0, a 0)] = _
          unfold exProb
          by_cases h : a 0 = a 1 <;> simp [h]
        · simp only [one_ne_zero, if_false]
          split <;> norm_num
        · have := ha 0 (by decide)
          have h01 : a 0 = 0 ∨ a 0 = 1 := by
            simp at this
            omega
          rcases h01 with h | h <;> (simp [Finset.sum_range_succ, Assignment.set, h]; norm_num)
      | n + 2 => cases hnode)
  refine ⟨_, ord, rfl, h3, fun m rnd => ?_⟩
  obtain ⟨samples, N', h1, h2, _⟩ := h m rnd
  exact ⟨samples, N', h1, h2⟩

/-- Three samples of two variables, the class variable being the second. -/
example : outputLIBSVM 2 3 1 [[0, 1], [2, 0], [1, 1]] = .ok ("1 \n0 0:2 \n1 0:1 \n".toList.map (fun c => (c.toNat : Int))) := by
  decide +kernel

example : ∃ text D', outputLIBSVM 2 2 1 [[0, 1], [2, 0]] = .ok text ∧ ({ numVars := 2 } : Dataset).loadLIBSVMTesting text 1 = .ok D' ∧
    D'.rows = [[(0, 0), (1, 1)], [(0, 2), (1, 0)]] := by
  obtain ⟨t, D', h1, h2, _, _, h5⟩ := C62_output_load (n := 2) (cls := 1) (by decide) (by decide) (by decide) (samples := [[0, 1], [2, 0]])
    (by decide) { numVars := 2 } rfl rfl
  exact ⟨t, D', h1, h2, h5⟩

end FastPGM
