import Verif.Lemmas.Params

/-!
Helper lemmas for parameter learning.
-/

namespace FastPGM

open Spec

variable {K : Type}

theorem countP_range_getD {α : Type} (l : List α) (d : α) (p : α → Bool) :
    (List.range l.length).countP (fun j => p (l.getD j d)) = l.countP p := by
  have h : l = (List.range l.length).map (fun j => l.getD j d) := eq_tab_getD d
  conv_rhs => rw [h]
  rw [List.countP_map]
  rfl

theorem all_beq_iff {vs : List Nat} {r a : Assignment} : (vs.all (fun v => r v == a v)) = true ↔ vs.map r = vs.map a := by
  simp [List.map_inj_left]

theorem count_rank {card : Nat → Nat} {vs : List Nat} {rows : List Assignment} {a : Assignment}
    (hr : ∀ r ∈ rows, InRange card vs r) (ha : InRange card vs a) :
    (List.range rows.length).countP
      (fun j => rank (vs.map card) (vs.map (rows.getD j (fun _ => 0))) = rank (vs.map card) (vs.map a)) =
      countSame rows vs a := by
  rw [countP_range_getD rows (fun _ => 0) (fun r => rank (vs.map card) (vs.map r) = rank (vs.map card) (vs.map a))]
  unfold countSame
  apply List.countP_congr
  intro r hr'
  rw [all_beq_iff, decide_eq_true_iff]
  exact ⟨fun h => rank_inj (cfgIn_map (hr r hr')) (cfgIn_map ha) h, fun h => by rw [h]⟩

theorem rank_cons_mod {card : Nat → Nat} {i : Nat} {ps : List Nat} {a : Assignment} (ha : InRange card ps a) :
    rank ((i :: ps).map card) ((i :: ps).map a) % (ps.map card).prod = rank (ps.map card) (ps.map a) := by
  simp only [List.map_cons, rank]
  rw [Nat.mul_comm, Nat.mul_add_mod, Nat.mod_eq_of_lt (rank_lt (cfgIn_map ha))]

theorem countLoop [Zero K] {card : Nat → Nat} {i : Nat} {ps : List Nat} (hp : ∀ v ∈ i :: ps, 0 < card v)
    {rows : List Assignment} (hr : ∀ r ∈ rows, InRange card (i :: ps) r)
    {f : List Nat × List Nat → Nat → Except Fault (List Nat × List Nat)}
    (hf : ∀ st, ∀ j < rows.length, f st j =
      countConfig (fromFn card (i :: ps) (fun _ => (0 : K))) st ((i :: ps).map (rows.getD j (fun _ => 0)))) :
    (List.range rows.length).foldlM f
        (List.replicate ((i :: ps).map card).prod 0, List.replicate (ps.map card).prod 0) =
      .ok (tab ((i :: ps).map card).prod (fun k => (List.range rows.length).countP
          (fun j => rank ((i :: ps).map card) ((i :: ps).map (rows.getD j (fun _ => 0))) = k)),
        tab (ps.map card).prod (fun k => (List.range rows.length).countP
          (fun j => rank (ps.map card) (ps.map (rows.getD j (fun _ => 0))) = k))) := by
  have hmem : ∀ j < rows.length, InRange card (i :: ps) (rows.getD j (fun _ => 0)) := by
    intro j hj
    apply hr
    simp [hj]
  apply incr2_loop
  · intro j hj
    exact rank_lt (cfgIn_map (hmem j hj))
  · intro j hj
    exact rank_lt (cfgIn_map (fun v hv => hmem j hj v (by simp [hv])))
  · intro st j hj
    rw [hf st j hj]
    unfold countConfig
    have hpp : 0 < (ps.map card).prod := prod_pos_of (map_pos (fun v hv => hp v (by simp [hv])))
    have hc : rd (fromFn card (i :: ps) (fun _ => (0 : K))).cum 0 = .ok (ps.map card).prod := by
      apply rd_ok
      simp [fromFn, cumLevels_cons]
    rw [hc, ok_bind, if_neg (by omega)]
    have : getIndex ((i :: ps).map (rows.getD j (fun _ => 0))) (fromFn card (i :: ps) (fun _ => (0 : K))).cum =
        rank ((i :: ps).map card) ((i :: ps).map (rows.getD j (fun _ => 0))) := getIndex_cumLevels _ _
    rw [this, rank_cons_mod (fun v hv => hmem j hj v (by simp [hv]))]

/-- What the instances say about a node and its parents: the values are in the columns, or (for the virtual root) drawn. -/
structure RowsFor (card : Nat → Nat) (cols : List (List Nat)) (root : Option Nat) (rnd : Nat → Nat)
    (rows : List Assignment) (i : Nat) (ps : List Nat) : Prop where
  inRange : ∀ r ∈ rows, InRange card (i :: ps) r
  node : ∃ col, cols[i]? = some col ∧ ∀ (j : Nat) r, rows[j]? = some r → col[j]? = some (r i)
  parents : (∃ r0, ps = [r0] ∧ root = some r0 ∧ ∀ (j : Nat) r, rows[j]? = some r → r r0 = rnd j) ∨
    ((∀ p ∈ ps, root ≠ some p) ∧
      ∀ p ∈ ps, ∃ col, cols[p]? = some col ∧ ∀ (j : Nat) r, rows[j]? = some r → col[j]? = some (r p))

theorem countNode_eq [Zero K] {card : Nat → Nat} {cols : List (List Nat)} {root : Option Nat} {rnd : Nat → Nat}
    {rows : List Assignment} {i : Nat} {ps : List Nat} (hp : ∀ v ∈ i :: ps, 0 < card v)
    (h : RowsFor card cols root rnd rows i ps) :
    countNode (fromFn card (i :: ps) (fun _ => (0 : K))) cols rows.length root rnd =
      .ok (tab ((i :: ps).map card).prod (fun k => (List.range rows.length).countP
          (fun j => rank ((i :: ps).map card) ((i :: ps).map (rows.getD j (fun _ => 0))) = k)),
        tab (ps.map card).prod (fun k => (List.range rows.length).countP
          (fun j => rank (ps.map card) (ps.map (rows.getD j (fun _ => 0))) = k))) := by
  have hget : ∀ j < rows.length, rows[j]? = some (rows.getD j (fun _ => 0)) := by
    intro j hj; simp [hj]
  have hv0 : rd (fromFn card (i :: ps) (fun _ => (0 : K))).vars 0 = .ok i := rfl
  have hc0 : rd (fromFn card (i :: ps) (fun _ => (0 : K))).cum 0 = .ok (ps.map card).prod := by
    apply rd_ok
    simp [fromFn, cumLevels_cons]
  have hpp : 0 < (ps.map card).prod := prod_pos_of (map_pos (fun v hv => hp v (by simp [hv])))
  obtain ⟨col, hcol, hcolj⟩ := h.node
  unfold countNode
  rw [hv0, ok_bind, hc0, ok_bind]
  by_cases h1 : ps = []
  · subst h1
    rw [if_pos (by rfl)]
    refine countLoop (K := K) hp h.inRange ?_
    intro st j hj
    rw [rd_ok hcol, ok_bind, rd_ok (hcolj j _ (hget j hj)), ok_bind]
    unfold countConfig
    rw [hc0, ok_bind, if_neg (by omega)]
    have e : getIndex ([i].map (rows.getD j (fun _ => 0))) (fromFn card [i] (fun _ => (0 : K))).cum =
        (rows.getD j (fun _ => 0)) i := by
      simp [getIndex, fromFn, cumLevels]
    rw [e]
    simp only [List.map_nil, List.prod_nil, Nat.mod_one]
  · rw [if_neg (by
      show ¬ (i :: ps).length = 1
      have := List.length_pos_iff.2 h1
      simp only [List.length_cons]; omega)]
    rcases h.parents with ⟨r0, rfl, hroot, hrnd⟩ | ⟨hne, hps⟩
    · rw [if_pos (by rw [hroot]; rfl)]
      refine countLoop (K := K) hp h.inRange ?_
      intro st j hj
      rw [rd_ok hcol, ok_bind, rd_ok (hcolj j _ (hget j hj)), ok_bind]
      rw [List.map_cons, List.map_cons, List.map_nil, hrnd j _ (hget j hj)]
    · rw [if_neg (by
        intro e
        obtain ⟨p, ps', rfl⟩ := List.exists_cons_of_ne_nil h1
        exact hne p (by simp) e.symm)]
      refine countLoop (K := K) hp h.inRange ?_
      intro st j hj
      have : (fromFn card (i :: ps) (fun _ => (0 : K))).vars.mapM (fun v => do rd (← rd cols v) j) =
          .ok ((i :: ps).map (rows.getD j (fun _ => 0))) := by
        apply mapM_ok
        intro v hv
        rcases List.mem_cons.1 (show v ∈ i :: ps from hv) with rfl | hv
        · rw [rd_ok hcol, ok_bind, rd_ok (hcolj j _ (hget j hj))]
        · obtain ⟨cp, h3, h4⟩ := hps v hv
          rw [rd_ok h3, ok_bind, rd_ok (h4 j _ (hget j hj))]
      rw [this, ok_bind]

/-- The smoothed relative frequency of the node's value given the values of the parents. -/
def frequency [Field K] (card : Nat → Nat) (rows : List Assignment) (alpha : Int) (i : Nat) (ps : List Nat) (a : Assignment) : K :=
  ((countSame rows (i :: ps) a : K) + (alpha : K)) / ((countSame rows ps a : K) + (alpha : K) * (card i : K))

theorem countSame_dependsOn (rows : List Assignment) (vs : List Nat) : DependsOn (countSame rows vs) vs := by
  intro a b h
  unfold countSame
  apply List.countP_congr
  intro r _
  rw [all_beq_iff, all_beq_iff, map_eq_of_agree h]

theorem frequency_dependsOn [Field K] (card : Nat → Nat) (rows : List Assignment) (alpha : Int) (i : Nat) (ps : List Nat) :
    DependsOn (frequency (K := K) card rows alpha i ps) (i :: ps) := by
  intro a b h
  unfold frequency
  rw [countSame_dependsOn rows (i :: ps) a b h, countSame_dependsOn rows ps a b (fun v hv => h v (by simp [hv]))]

theorem learnNode_step [Zero K] [Add K] [Div K] [NatCast K] [IntCast K] [DecidableEq K] {card : Nat → Nat} {N : Net} (hN : NetShape card N) {i : Nat} {s : NodeS}
    (hi : N.nodes[i]? = some s) {cols : List (List Nat)} {root : Option Nat} {rnd : Nat → Nat} {rows : List Assignment}
    (h : RowsFor card cols root rnd rows i s.parents) (alpha : Int) :
    learnNode (K := K) N cols rows.length alpha root rnd i = (do
      let pot ← (List.range ((i :: s.parents).map card).prod).mapM (fun k =>
        let a := asgOf (i :: s.parents) (digits ((i :: s.parents).map card) k)
        smoothed alpha (countSame rows (i :: s.parents) a) (countSame rows s.parents a) (card i))
      return { fromFn card (i :: s.parents) (fun _ => (0 : K)) with pot := pot }) := by
  unfold learnNode
  have hn := NetShape.nodup hN hi
  have hp := NetShape.pos hN hi
  have hpp : 0 < (s.parents.map card).prod := prod_pos_of (map_pos (fun v hv => hp v (by simp [hv])))
  rw [emptyTable_eq hN hi, ok_bind, countNode_eq hp h, ok_bind]
  have hc0 : rd (fromFn card (i :: s.parents) (fun _ => (0 : K))).cum 0 = .ok (s.parents.map card).prod := by
    apply rd_ok
    simp [fromFn, cumLevels_cons]
  have hd0 : rd (fromFn card (i :: s.parents) (fun _ => (0 : K))).dims 0 = .ok (card i) := rfl
  simp only [hc0, hd0, ok_bind]
  have key : ∀ k < ((i :: s.parents).map card).prod,
      (do
        let n1 ← rd (tab ((i :: s.parents).map card).prod (fun k => (List.range rows.length).countP
          (fun j => rank ((i :: s.parents).map card) ((i :: s.parents).map (rows.getD j (fun _ => 0))) = k))) k
        let n2 ← (if (fromFn card (i :: s.parents) (fun _ => (0 : K))).vars.length = 1 then
            rd (tab (s.parents.map card).prod (fun k => (List.range rows.length).countP
          (fun j => rank (s.parents.map card) (s.parents.map (rows.getD j (fun _ => 0))) = k))) 0
          else if (s.parents.map card).prod = 0 then .error .ub else
            rd (tab (s.parents.map card).prod (fun k => (List.range rows.length).countP
          (fun j => rank (s.parents.map card) (s.parents.map (rows.getD j (fun _ => 0))) = k)))
            (k % (s.parents.map card).prod))
        smoothed alpha n1 n2 (card i)) =
      smoothed (K := K) alpha (countSame rows (i :: s.parents) (asgOf (i :: s.parents) (digits ((i :: s.parents).map card) k)))
        (countSame rows s.parents (asgOf (i :: s.parents) (digits ((i :: s.parents).map card) k))) (card i) := by
    intro k hk
    have ha := asgOf_lt (card := card) hk
    have hrank : k = rank ((i :: s.parents).map card)
        ((i :: s.parents).map (asgOf (i :: s.parents) (digits ((i :: s.parents).map card) k))) := by
      rw [map_asgOf hn (by simp), rank_digits hk]
    generalize asgOf (i :: s.parents) (digits ((i :: s.parents).map card) k) = a at ha hrank ⊢
    have ha' : InRange card s.parents a := fun v hv => ha v (by simp [hv])
    have e1 : (List.range rows.length).countP
        (fun j => rank ((i :: s.parents).map card) ((i :: s.parents).map (rows.getD j (fun _ => 0))) = k) =
        countSame rows (i :: s.parents) a := by
      rw [hrank]; exact count_rank h.inRange ha
    have e2 : (List.range rows.length).countP
        (fun j => rank (s.parents.map card) (s.parents.map (rows.getD j (fun _ => 0))) =
          k % (s.parents.map card).prod) = countSame rows s.parents a := by
      rw [hrank, rank_cons_mod ha']
      exact count_rank (fun r hr v hv => h.inRange r hr v (by simp [hv])) ha'
    rw [rd_tab hk, ok_bind, e1]
    have hlt : k % (s.parents.map card).prod < (s.parents.map card).prod := Nat.mod_lt _ hpp
    by_cases h1 : s.parents = []
    · rw [if_pos (by rw [h1]; rfl)]
      have hz : k % (s.parents.map card).prod = 0 := by rw [h1]; simp [Nat.mod_one]
      rw [hz] at e2 hlt
      rw [rd_tab hlt, ok_bind, e2]
    · rw [if_neg (by
        show ¬ (i :: s.parents).length = 1
        have := List.length_pos_iff.2 h1
        simp only [List.length_cons]; omega), if_neg (by omega), rd_tab hlt, ok_bind, e2]
  have hm : ∀ {f g : Nat → Except Fault K} (l : List Nat), (∀ k ∈ l, f k = g k) → l.mapM f = l.mapM g := by
    intro f g l hl
    induction l with
    | nil => rfl
    | cons x l ih =>
      rw [List.mapM_cons, List.mapM_cons, hl x (by simp), ih (fun k hk => hl k (by simp [hk]))]
  have := hm (List.range ((i :: s.parents).map card).prod) (fun k hk => key k (List.mem_range.1 hk))
  exact congrArg (· >>= _) this

theorem learnNode_eq [Field K] [DecidableEq K] {card : Nat → Nat} {N : Net} (hN : NetShape card N) {i : Nat} {s : NodeS}
    (hi : N.nodes[i]? = some s) {cols : List (List Nat)} {root : Option Nat} {rnd : Nat → Nat} {rows : List Assignment}
    (h : RowsFor card cols root rnd rows i s.parents) (alpha : Int)
    (hden : ∀ a, InRange card (i :: s.parents) a →
      (countSame rows s.parents a : K) + (alpha : K) * (card i : K) ≠ 0) :
    learnNode (K := K) N cols rows.length alpha root rnd i =
      .ok (fromFn card (i :: s.parents) (frequency card rows alpha i s.parents)) := by
  rw [learnNode_step hN hi h]
  rw [mapM_ok (g := fun k => frequency card rows alpha i s.parents
    (asgOf (i :: s.parents) (digits ((i :: s.parents).map card) k)))]
  · rfl
  · intro k hk
    unfold smoothed
    have := hden _ (asgOf_lt (card := card) (List.mem_range.1 hk))
    simp only [Int.cast_mul, Int.cast_natCast]
    rw [if_neg this]
    rfl

theorem mapM_error {α β : Type} {f : α → Except Fault β} {l : List α} {e : Fault} (x : α) (hx : x ∈ l) (h : f x = .error e)
    (hall : ∀ y ∈ l, ∀ e', f y = .error e' → e' = e) : l.mapM f = .error e := by
  induction l with
  | nil => simp at hx
  | cons y l ih =>
    rw [List.mapM_cons]
    cases hy : f y with
    | error e' => rw [hall y (by simp) e' hy]; rfl
    | ok b =>
      rw [ok_bind]
      rcases List.mem_cons.1 hx with rfl | hx
      · rw [h] at hy; cases hy
      · rw [ih hx (fun z hz => hall z (by simp [hz]))]; rfl

end FastPGM
