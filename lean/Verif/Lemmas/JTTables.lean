import Verif.Model.JunctionTreeRun
import Verif.Lemmas.Table3
import Verif.Lemmas.Inference
import Verif.Lemmas.Marg

/-!
The operations of the message passing on tables that represent functions.
-/

namespace FastPGM

open Spec

variable {K : Type}

/-- The tables of `m` cliques with variables `VC i` and contents `F i`, and of the `m - 1` separators. -/
def repState (card : Nat → Nat) (m : Nat) (VC VS : Nat → List Nat) (F G : Nat → Assignment → K) : JState K :=
  ⟨tab m (fun i => fromFn card (VC i) (F i)), tab (m - 1) (fun s => fromFn card (VS s) (G s))⟩

theorem repState_congr {card : Nat → Nat} {m : Nat} {VC VS : Nat → List Nat} {F F' G G' : Nat → Assignment → K}
    (hF : ∀ i < m, ∀ a, InRange card (VC i) a → F i a = F' i a) (hG : ∀ s, s + 1 < m → ∀ a, InRange card (VS s) a → G s a = G' s a) :
    repState card m VC VS F G = repState card m VC VS F' G' := by
  unfold repState
  rw [tab_congr (fun i hi => fromFn_congr (hF i hi)), tab_congr (fun s hs => fromFn_congr (hG s (by omega)))]

theorem tab_update {α : Type} {n k : Nat} {g : Nat → α} {a : α} :
    tab n (fun j => if j = k then a else g j) = tab n (Function.update g k a) := by
  apply tab_congr
  intro i _
  by_cases h : i = k
  · subst h; simp
  · rw [if_neg h, Function.update_of_ne h]

theorem update_fromFn {card : Nat → Nat} {VC : Nat → List Nat} {F : Nat → Assignment → K} {k : Nat} {X : Assignment → K} :
    Function.update (fun i => fromFn card (VC i) (F i)) k (fromFn card (VC k) X) =
      fun i => fromFn card (VC i) (Function.update F k X i) := by
  funext i
  by_cases h : i = k
  · subst h; simp
  · rw [Function.update_of_ne h, Function.update_of_ne h]

theorem divideEntries_eq [Field K] [DecidableEq K] (n : Nat) (t o : Nat → K) :
    divideEntries n (tab n t) (tab n o) = .ok (tab n (fun i => if o i = 0 then 0 else t i / o i)) := by
  apply foldlM_pointwise
  intro i hi r hr
  rw [rd_tab hi, ok_bind]
  by_cases h : o i = 0
  · rw [if_pos h, wr_tab hi, if_pos h]
  · rw [if_neg h, rd_tab hi, ok_bind, wr_tab hi, if_neg h]

/-- The entries of a marginal. -/
theorem scatter_marg [AddCommMonoid K] {card : Nat → Nat} {vars vs : List Nat} (hn : vars.Nodup) (hsub : ∀ v ∈ vs, v ∈ vars) (hnv : vs.Nodup)
    {F : Assignment → K} (hF : DependsOn F vars) :
    scatterAdd (List.replicate (vs.map card).prod 0)
      (tab (vars.map card).prod (fun i => rank (vs.map card) (vs.map (asgOf vars (digits (vars.map card) i)))))
      (tab (vars.map card).prod (fun k => F (asgOf vars (digits (vars.map card) k)))) (vars.map card).prod =
    .ok (tab (vs.map card).prod (fun j => sumOut card (vars.filter (fun v => v ∉ vs)) F (asgOf vs (digits (vs.map card) j)))) := by
  rw [replicate_eq_tab, scatterAdd_eq (fun k hk => rank_lt (cfgIn_map (inRange_map_asg hsub hk)))]
  congr 1
  apply tab_congr
  intro j hj
  rw [zero_add]
  have hr := asgOf_lt (card := card) (vars := vs) hj
  rw [← sum_fibre hn hsub hF hr]
  apply Finset.sum_congr rfl
  intro k _
  rw [map_asgOf hnv (by simp), rank_digits hj]

/-- If the variables `ws` come last, the position modulo the size is the position among the configurations of `ws`. -/
theorem mod_rank {card : Nat → Nat} {us ws : List Nat} (hn : (us ++ ws).Nodup) {k : Nat} (hk : k < ((us ++ ws).map card).prod) :
    k % (ws.map card).prod = rank (ws.map card) (ws.map (asgOf (us ++ ws) (digits ((us ++ ws).map card) k))) := by
  have hmap : (us ++ ws).map (asgOf (us ++ ws) (digits ((us ++ ws).map card) k)) = digits ((us ++ ws).map card) k := map_asgOf hn (by simp)
  have hlt : InRange card (us ++ ws) (asgOf (us ++ ws) (digits ((us ++ ws).map card) k)) := asgOf_lt hk
  have hr := rank_digits hk
  rw [← hmap] at hr
  generalize asgOf (us ++ ws) (digits ((us ++ ws).map card) k) = a at hmap hlt hr
  rw [List.map_append, List.map_append, rank_append _ _ _ _ (by simp)] at hr
  rw [← hr, Nat.mul_comm, Nat.mul_add_mod]
  refine Nat.mod_eq_of_lt (rank_lt (cfgIn_map ?_))
  intro v hv
  exact hlt v (by simp [hv])

theorem filter_append_notMem {us ws : List Nat} (hn : (us ++ ws).Nodup) : (us ++ ws).filter (fun v => v ∉ ws) = us := by
  rw [List.filter_append]
  have h1 : us.filter (fun v => decide (v ∉ ws)) = us := by
    apply List.filter_eq_self.2
    intro v hv
    simp only [decide_eq_true_eq]
    intro hw
    exact (List.nodup_append.1 hn).2.2 v hv v hw rfl
  have h2 : ws.filter (fun v => decide (v ∉ ws)) = [] := by
    apply List.filter_eq_nil_iff.2
    intro v hv
    simp [hv]
  rw [h1, h2, List.append_nil]

/-- The variables of the tables along the tree. -/
structure RepOK (card : Nat → Nat) (m : Nat) (VC VS : Nat → List Nat) (par ch : Nat → Nat) : Prop where
  cnodup : ∀ i, (VC i).Nodup
  cpos : ∀ i, ∀ v ∈ VC i, 0 < card v
  suffix : ∀ s, s + 1 < m → ∃ us, VC (ch s) = us ++ VS s
  sub : ∀ s, s + 1 < m → ∀ v ∈ VS s, v ∈ VC (par s)
  par_lt : ∀ s, s + 1 < m → par s < m
  ch_lt : ∀ s, s + 1 < m → ch s < m

theorem RepOK.snodup {card : Nat → Nat} {m : Nat} {VC VS : Nat → List Nat} {par ch : Nat → Nat} (h : RepOK card m VC VS par ch) {s : Nat}
    (hs : s + 1 < m) : (VS s).Nodup := by
  obtain ⟨us, hus⟩ := h.suffix s hs
  have := h.cnodup (ch s)
  rw [hus] at this
  exact (List.nodup_append.1 this).2.1

theorem RepOK.sub_ch {card : Nat → Nat} {m : Nat} {VC VS : Nat → List Nat} {par ch : Nat → Nat} (h : RepOK card m VC VS par ch) {s : Nat}
    (hs : s + 1 < m) : ∀ v ∈ VS s, v ∈ VC (ch s) := by
  obtain ⟨us, hus⟩ := h.suffix s hs
  intro v hv
  rw [hus]; simp [hv]

theorem RepOK.size_pos {card : Nat → Nat} {m : Nat} {VC VS : Nat → List Nat} {par ch : Nat → Nat} (h : RepOK card m VC VS par ch) {s : Nat}
    (hs : s + 1 < m) : ((VS s).map card).prod ≠ 0 :=
  (prod_pos_of (map_pos (fun v hv => h.cpos _ v (h.sub s hs v hv)))).ne'

section ops

variable {card : Nat → Nat} {m : Nat} {VC VS : Nat → List Nat} {par ch : Nat → Nat} {mk : Marks}

/-- Entrywise quotient, as on the separators. -/
def quot [Field K] [DecidableEq K] (X G : Assignment → K) : Assignment → K := fun a => if G a = 0 then 0 else X a / G a

theorem separatorCollect_eq [Field K] [DecidableEq K] (h : RepOK card m VC VS par ch) {F G : Nat → Assignment → K} {s : Nat} (hs : s + 1 < m)
    (hdown : mk.down (.sep s) = [.clq (ch s)]) (hF : DependsOn (F (ch s)) (VC (ch s))) :
    separatorCollect mk (repState card m VC VS F G) (.sep s) =
      .ok (repState card m VC VS F (Function.update G s
        (quot (sumOut card ((VC (ch s)).filter (fun v => v ∉ VS s)) (F (ch s))) (G s)))) := by
  have hc := h.ch_lt s hs
  obtain ⟨us, hus⟩ := h.suffix s hs
  unfold separatorCollect repState
  simp only [JNode.sepIdx, ok_bind, hdown]
  rw [rd_ok (a := JNode.clq (ch s)) (by rfl), ok_bind]
  simp only [JNode.clqIdx, ok_bind]
  rw [rd_tab (by omega : s < m - 1), ok_bind, rd_tab hc, ok_bind]
  rw [if_neg (show (fromFn card (VS s) (G s)).size ≠ 0 from h.size_pos hs)]
  simp only [fromFn]
  have hn := h.cnodup (ch s)
  have e1 : (List.range ((VC (ch s)).map card).prod).map (fun k => k % ((VS s).map card).prod) =
      tab ((VC (ch s)).map card).prod
        (fun i => rank ((VS s).map card) ((VS s).map (asgOf (VC (ch s)) (digits ((VC (ch s)).map card) i)))) := by
    apply List.map_congr_left
    intro k hk
    rw [List.mem_range] at hk
    rw [hus] at hk hn ⊢
    exact mod_rank hn hk
  rw [e1, scatter_marg hn (h.sub_ch hs) (h.snodup hs) hF, ok_bind, divideEntries_eq, ok_bind, wr_tab (by omega : s < m - 1), ok_bind, tab_update]
  exact congrArg (fun x => Except.ok (JState.mk (tab m (fun i => fromFn card (VC i) (F i))) (tab (m - 1) x)))
    (update_fromFn (card := card) (VC := VS) (F := G) (k := s)
      (X := quot (sumOut card ((VC (ch s)).filter (fun v => v ∉ VS s)) (F (ch s))) (G s)))

theorem separatorDistribute_eq [Field K] [DecidableEq K] (h : RepOK card m VC VS par ch) {F G : Nat → Assignment → K} {s : Nat} (hs : s + 1 < m)
    (hup : mk.up (.sep s) = some (.clq (par s))) (hF : DependsOn (F (par s)) (VC (par s))) :
    separatorDistribute mk (repState card m VC VS F G) (.sep s) =
      .ok (repState card m VC VS F (Function.update G s
        (quot (sumOut card ((VC (par s)).filter (fun v => v ∉ VS s)) (F (par s))) (G s)))) := by
  have hc := h.par_lt s hs
  unfold separatorDistribute repState
  simp only [JNode.sepIdx, ok_bind, Marks.upOf, hup, JNode.clqIdx]
  rw [rd_tab (by omega : s < m - 1), ok_bind, rd_tab hc, ok_bind]
  simp only [fromFn]
  rw [transferLoop (h.cpos (par s)) (h.sub s hs), ok_bind, scatter_marg (h.cnodup _) (h.sub s hs) (h.snodup hs) hF, ok_bind, divideEntries_eq, ok_bind,
    wr_tab (by omega : s < m - 1), ok_bind, tab_update]
  exact congrArg (fun x => Except.ok (JState.mk (tab m (fun i => fromFn card (VC i) (F i))) (tab (m - 1) x)))
    (update_fromFn (card := card) (VC := VS) (F := G) (k := s)
      (X := quot (sumOut card ((VC (par s)).filter (fun v => v ∉ VS s)) (F (par s))) (G s)))

theorem cliqueCollect_eq [Mul K] (h : RepOK card m VC VS par ch) {F G : Nat → Assignment → K} {s k i : Nat} (hs : s + 1 < m)
    (hi : par s = i) (hdown : (mk.down (.clq i))[k]? = some (.sep s)) (hG : DependsOn (G s) (VS s)) :
    cliqueCollect mk k (repState card m VC VS F G) (.clq i) =
      .ok (repState card m VC VS (Function.update F i (fun a => F i a * G s a)) G) := by
  subst hi
  have hc := h.par_lt s hs
  unfold cliqueCollect repState
  simp only [JNode.clqIdx, ok_bind]
  rw [rd_ok hdown, ok_bind]
  simp only [JNode.sepIdx, ok_bind]
  rw [rd_tab hc, ok_bind, rd_tab (by omega : s < m - 1), ok_bind]
  simp only [fromFn]
  rw [transferLoop (h.cpos (par s)) (h.sub s hs), ok_bind,
    mapM_ok (g := fun x => G s (asgOf (VS s) (digits ((VS s).map card) x)))]
  · rw [ok_bind]
    have e1 : (tab ((VC (par s)).map card).prod fun i =>
        rank ((VS s).map card) ((VS s).map (asgOf (VC (par s)) (digits ((VC (par s)).map card) i)))).map
          (fun x => G s (asgOf (VS s) (digits ((VS s).map card) x))) =
        tab ((VC (par s)).map card).prod (fun i => G s (asgOf (VC (par s)) (digits ((VC (par s)).map card) i))) := by
      rw [tab, List.map_map]
      apply tab_congr (g := _ ∘ _)
      intro i hi
      simp only [Function.comp]
      apply hG
      exact asgOf_digits_rank (h.snodup hs) (inRange_map_asg (h.sub s hs) hi)
    rw [e1, mulEntries_eq, ok_bind, wr_tab hc, ok_bind, tab_update]
    exact congrArg (fun x => Except.ok (JState.mk (tab m x) (tab (m - 1) (fun s => fromFn card (VS s) (G s)))))
      (update_fromFn (card := card) (VC := VC) (F := F) (k := par s) (X := fun a => F (par s) a * G s a))
  · intro x hx
    obtain ⟨i, hi, rfl⟩ := List.mem_map.1 hx
    have hi' : i < ((VC (par s)).map card).prod := by simpa using hi
    exact rd_tab (rank_lt (cfgIn_map (inRange_map_asg (h.sub s hs) hi')))

theorem cliqueDistribute_eq [Mul K] (h : RepOK card m VC VS par ch) {F G : Nat → Assignment → K} {s : Nat} (hs : s + 1 < m)
    (hup : mk.up (.clq (ch s)) = some (.sep s)) (hG : DependsOn (G s) (VS s)) :
    cliqueDistribute mk (repState card m VC VS F G) (.clq (ch s)) =
      .ok (repState card m VC VS (Function.update F (ch s) (fun a => F (ch s) a * G s a)) G) := by
  have hc := h.ch_lt s hs
  obtain ⟨us, hus⟩ := h.suffix s hs
  have hn := h.cnodup (ch s)
  unfold cliqueDistribute repState
  simp only [JNode.clqIdx, ok_bind, Marks.upOf, hup, JNode.sepIdx]
  rw [rd_tab hc, ok_bind, rd_tab (by omega : s < m - 1), ok_bind]
  rw [if_neg (show (fromFn card (VS s) (G s)).size ≠ 0 from h.size_pos hs)]
  simp only [fromFn]
  rw [mapM_ok (g := fun k => G s (asgOf (VC (ch s)) (digits ((VC (ch s)).map card) k)))]
  · rw [ok_bind]
    have e := mulEntries_eq ((VC (ch s)).map card).prod (fun k => F (ch s) (asgOf (VC (ch s)) (digits ((VC (ch s)).map card) k)))
      (fun k => G s (asgOf (VC (ch s)) (digits ((VC (ch s)).map card) k)))
    unfold tab at e ⊢
    rw [e, ok_bind]
    have e2 := wr_tab (a := (⟨VC (ch s), (VC (ch s)).map card, cumLevels ((VC (ch s)).map card), ((VC (ch s)).map card).prod,
      tab ((VC (ch s)).map card).prod (fun k => F (ch s) (asgOf (VC (ch s)) (digits ((VC (ch s)).map card) k)) *
        G s (asgOf (VC (ch s)) (digits ((VC (ch s)).map card) k)))⟩ : Table K)) (g := fun i => fromFn card (VC i) (F i)) hc
    unfold fromFn tab at e2
    rw [e2, ok_bind]
    have e3 := tab_update (n := m) (k := ch s) (g := fun i => fromFn card (VC i) (F i))
      (a := fromFn card (VC (ch s)) (fun a => F (ch s) a * G s a))
    rw [update_fromFn] at e3
    unfold fromFn tab at e3
    simp only [pure_eq_ok]
    rw [e3]
  · intro k hk
    rw [List.mem_range] at hk
    have hk2 : k % ((VS s).map card).prod = rank ((VS s).map card) ((VS s).map (asgOf (VC (ch s)) (digits ((VC (ch s)).map card) k))) := by
      rw [hus] at hk hn ⊢
      exact mod_rank hn hk
    have hk3 := inRange_map_asg (card := card) (h.sub_ch hs) hk
    rw [hk2, rd_tab (rank_lt (cfgIn_map hk3))]
    congr 1
    exact hG _ _ (asgOf_digits_rank (h.snodup hs) hk3)

theorem normalizeClique_eq [Field K] [DecidableEq K] {F G : Nat → Assignment → K} {i : Nat} (hi : i < m) (hn : (VC i).Nodup)
    (hF : DependsOn (F i) (VC i)) (a0 : Assignment) (h0 : sumOut card (VC i) (F i) a0 ≠ 0) :
    normalizeClique (repState card m VC VS F G) (.clq i) =
      .ok (repState card m VC VS (Function.update F i (fun a => F i a / sumOut card (VC i) (F i) a0)) G) := by
  unfold normalizeClique repState
  simp only [JNode.clqIdx, ok_bind]
  rw [rd_tab hi, ok_bind, normalize_fromFn hn hF a0 h0, ok_bind, wr_tab hi, ok_bind, tab_update, update_fromFn]
  rfl

end ops

end FastPGM
