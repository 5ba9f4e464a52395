import Verif.Lemmas.MessagePassing
import Verif.Lemmas.JTCalibrate

/-!
`Collect` and `Distribute` as sequences of messages.
-/

namespace FastPGM

open Spec

variable {K : Type} [Field K] [DecidableEq K] {card : Nat → Nat} {m : Nat} {VC VS : Nat → List Nat} {par ch : Nat → Nat} {mk : Marks}

/-- The contents after every clique of `l` has been multiplied with its separator. -/
def mulAll (src : Nat → Nat) (l : List Nat) (σ : JNode → Assignment → K) : JNode → Assignment → K :=
  l.foldl (fun σ i => Function.update σ (.clq i) (fun a => σ (.clq i) a * σ (.sep (src i)) a)) σ

/-- The normalisation of one clique. -/
def normStep (card : Nat → Nat) (VC : Nat → List Nat) (σ : JNode → Assignment → K) (i : Nat) : Except Fault (JNode → Assignment → K) :=
  if sumOut card (VC i) (σ (.clq i)) (fun _ => 0) = 0 then .error .nan
  else .ok (Function.update σ (.clq i) (fun a => σ (.clq i) a / sumOut card (VC i) (σ (.clq i)) (fun _ => 0)))

omit [DecidableEq K] in
theorem mulAll_update {src : Nat → Nat} {l : List Nat} {i : Nat} (hi : i ∉ l) (σ : JNode → Assignment → K) (t : Assignment → K) :
    mulAll src l (Function.update σ (.clq i) t) = Function.update (mulAll src l σ) (.clq i) t := by
  induction l generalizing σ with
  | nil => rfl
  | cons j l ih =>
    have hij : i ≠ j := fun e => hi (by simp [e])
    unfold mulAll
    rw [List.foldl_cons, List.foldl_cons]
    have e : Function.update (Function.update σ (.clq i) t) (.clq j)
        (fun a => Function.update σ (.clq i) t (.clq j) a * Function.update σ (.clq i) t (.sep (src j)) a) =
        Function.update (Function.update σ (.clq j) (fun a => σ (.clq j) a * σ (.sep (src j)) a)) (.clq i) t := by
      rw [Function.update_of_ne (by simpa using hij.symm), Function.update_of_ne (by simp)]
      exact Function.update_comm (by simpa using hij) _ _ _
    rw [e]
    exact ih (fun h => hi (by simp [h])) _

omit [DecidableEq K] in
theorem mulAll_of_notMem {src : Nat → Nat} {l : List Nat} {i : Nat} (hi : i ∉ l) (σ : JNode → Assignment → K) :
    mulAll src l σ (.clq i) = σ (.clq i) := by
  induction l generalizing σ with
  | nil => rfl
  | cons j l ih =>
    have hij : i ≠ j := fun e => hi (by simp [e])
    unfold mulAll
    rw [List.foldl_cons]
    refine (ih (fun h => hi (by simp [h])) _).trans ?_
    rw [Function.update_of_ne (by simpa using hij)]

theorem mulAll_norm {src : Nat → Nat} {l : List Nat} (hn : l.Nodup) (σ : JNode → Assignment → K) :
    l.foldlM (normStep card VC) (mulAll src l σ) =
      runSched (msgFn card VC VS) (l.map (fun i => (.clq i, .sep (src i)))) σ := by
  induction l generalizing σ with
  | nil => rfl
  | cons i l ih =>
    obtain ⟨hi, hn'⟩ := List.nodup_cons.1 hn
    rw [List.map_cons, runSched_cons, List.foldlM_cons]
    have e1 : mulAll src (i :: l) σ = mulAll src l (Function.update σ (.clq i) (fun a => σ (.clq i) a * σ (.sep (src i)) a)) := rfl
    rw [e1]
    have e2 : schedStep (msgFn card VC VS) σ (JNode.clq i, JNode.sep (src i)) =
        (normMul card (VC i) (σ (.clq i)) (σ (.sep (src i)))).map (fun t => Function.update σ (.clq i) t) := rfl
    rw [e2]
    unfold normStep normMul
    rw [mulAll_of_notMem hi, Function.update_self]
    by_cases h0 : sumOut card (VC i) (fun a => σ (.clq i) a * σ (.sep (src i)) a) (fun _ => 0) = 0
    · rw [if_pos h0, if_pos h0]
      rfl
    · rw [if_neg h0, if_neg h0, ok_bind, ← mulAll_update hi, Function.update_idem]
      exact ih hn' _

/-- The multiplication and the normalisation of the cliques of a level. -/
theorem mulNorm_sched (h : RepOK card m VC VS par ch) {src : Nat → Nat} {l : List Nat} (hn : l.Nodup) (hlt : ∀ i ∈ l, i < m)
    (hadj : ∀ i ∈ l, Adj m par ch (.clq i) (.sep (src i))) {g : JState K → JNode → Except Fault (JState K)}
    (hg : ∀ i ∈ l, ∀ σ : JNode → Assignment → K, (∀ x, DependsOn (σ x) (nodeVars VC VS x)) → g (repOf card m VC VS σ) (.clq i) =
      .ok (repOf card m VC VS (Function.update σ (.clq i) (fun a => σ (.clq i) a * σ (.sep (src i)) a))))
    {σ : JNode → Assignment → K} (hσ : ∀ x, DependsOn (σ x) (nodeVars VC VS x)) :
    ((l.map JNode.clq).foldlM g (repOf card m VC VS σ) >>= fun st => (l.map JNode.clq).foldlM normalizeClique st) =
      (runSched (msgFn card VC VS) (l.map (fun i => (.clq i, .sep (src i)))) σ).map (repOf card m VC VS) := by
  have hstep : ∀ i ∈ l, ∀ σ : JNode → Assignment → K, (∀ x, DependsOn (σ x) (nodeVars VC VS x)) →
      ∀ x, DependsOn (Function.update σ (.clq i) (fun a => σ (.clq i) a * σ (.sep (src i)) a) x) (nodeVars VC VS x) := by
    intro i hi σ hσ x
    by_cases hx : x = .clq i
    · subst hx
      rw [Function.update_self]
      exact dep_mul (V := VC i) (W := VS (src i)) (hσ (.clq i)) (hσ (.sep (src i))) (h.adj_sub (Or.inl (hadj i hi))).2.2
    · rw [Function.update_of_ne hx]
      exact hσ x
  have h1 : ∀ l' : List Nat, (∀ i ∈ l', i ∈ l) → ∀ σ : JNode → Assignment → K, (∀ x, DependsOn (σ x) (nodeVars VC VS x)) →
      (l'.map JNode.clq).foldlM g (repOf card m VC VS σ) = .ok (repOf card m VC VS (mulAll src l' σ)) ∧
        ∀ x, DependsOn (mulAll src l' σ x) (nodeVars VC VS x) := by
    intro l'
    induction l' with
    | nil => intro _ σ hσ; exact ⟨rfl, hσ⟩
    | cons i l' ih =>
      intro hl σ hσ
      rw [List.map_cons, List.foldlM_cons, hg i (hl i (by simp)) σ hσ, ok_bind]
      exact ih (fun j hj => hl j (by simp [hj])) _ (hstep i (hl i (by simp)) σ hσ)
  have h2 : ∀ l' : List Nat, (∀ i ∈ l', i < m) → ∀ σ : JNode → Assignment → K, (∀ x, DependsOn (σ x) (nodeVars VC VS x)) →
      (l'.map JNode.clq).foldlM normalizeClique (repOf card m VC VS σ) = (l'.foldlM (normStep card VC) σ).map (repOf card m VC VS) := by
    intro l'
    induction l' with
    | nil => intro _ σ hσ; rfl
    | cons i l' ih =>
      intro hl σ hσ
      rw [List.map_cons, List.foldlM_cons, List.foldlM_cons]
      have hF : DependsOn (σ (.clq i)) (VC i) := hσ (.clq i)
      by_cases h0 : sumOut card (VC i) (σ (.clq i)) (fun _ => 0) = 0
      · have e : normalizeClique (repOf card m VC VS σ) (.clq i) = .error .nan := by
          unfold normalizeClique repOf repState
          simp only [JNode.clqIdx, ok_bind]
          rw [rd_tab (hl i (by simp)), ok_bind, normalize_zero (h.cnodup i) (h.cpos i) hF _ h0]
          rfl
        rw [e]
        unfold normStep
        rw [if_pos h0]
        rfl
      · have e : normalizeClique (repOf card m VC VS σ) (.clq i) = .ok (repOf card m VC VS
            (Function.update σ (.clq i) (fun a => σ (.clq i) a / sumOut card (VC i) (σ (.clq i)) (fun _ => 0)))) := by
          rw [repOf_clq]
          exact normalizeClique_eq (F := fun i => σ (.clq i)) (hl i (by simp)) (h.cnodup i) hF _ h0
        rw [e, ok_bind]
        have e2 : normStep card VC σ i = .ok (Function.update σ (.clq i) (fun a => σ (.clq i) a / sumOut card (VC i) (σ (.clq i)) (fun _ => 0))) := by
          unfold normStep
          rw [if_neg h0]
        rw [e2, ok_bind]
        refine ih (fun j hj => hl j (by simp [hj])) _ ?_
        intro x
        by_cases hx : x = .clq i
        · subst hx
          rw [Function.update_self]
          intro a b hab
          show σ (.clq i) a / _ = σ (.clq i) b / _
          rw [hF a b hab]
        · rw [Function.update_of_ne hx]
          exact hσ x
  obtain ⟨e1, e2⟩ := h1 l (fun _ h => h) σ hσ
  rw [e1, ok_bind, h2 l hlt _ e2, mulAll_norm hn]

/-! ### The sequences of messages -/

variable {T : JTShape} {L : Levels} {r : Nat} {lev : JNode → Nat}

/-- The number of a node. -/
def JNode.idx : JNode → Nat
  | .clq i => i
  | .sep s => s

/-- The messages of `Collect` at level `i`. -/
def collectLevelSched (L : Levels) (i : Nat) : List (JNode × JNode) :=
  if i % 2 = 1 then (L.nodes.getD i []).flatMap (fun x => (L.marks.down x).map (fun y => (x, y)))
  else (List.range ((L.nodes.getD i []).foldl (fun b x => max b (L.marks.down x).length) 0)).flatMap (fun k =>
    ((L.nodes.getD i []).filter (fun x => k < (L.marks.down x).length)).map (fun x => (x, (L.marks.down x).getD k (.clq 0))))

/-- The messages of `Collect`. -/
def collectSched (L : Levels) : List (JNode × JNode) := (List.range (L.nodes.length - 1)).reverse.flatMap (collectLevelSched L)

/-- The messages of `Distribute` at level `i`. -/
def distributeLevelSched (L : Levels) (i : Nat) : List (JNode × JNode) :=
  (L.nodes.getD i []).map (fun x => (x, (L.marks.up x).getD (.clq 0)))

/-- The messages of `Distribute`. -/
def distributeSched (L : Levels) : List (JNode × JNode) := (List.range (L.nodes.length - 1)).flatMap (fun k => distributeLevelSched L (k + 1))


section plan

variable (hp : Plan T L r lev par ch) (h : RepOK card T.cliques.length VC VS par ch)

include hp h

omit [Field K] [DecidableEq K]

theorem Plan.level_even {i : Nat} (hi : i % 2 = 0) (hil : i < L.nodes.length) {x : JNode}
    (hx : x ∈ L.nodes.getD i []) : ∃ k, x = .clq k ∧ k < T.cliques.length := by
  obtain ⟨hv, hl⟩ := (hp.mem i hil x).1 hx
  cases x with
  | clq k => exact ⟨k, rfl, hv⟩
  | sep s =>
    have h1 := hp.lev_sep s hv
    have h3 := hp.even_clq _ (h.par_lt s hv)
    omega

omit h in
theorem Plan.level_odd {i : Nat} (hi : i % 2 = 1) (hil : i < L.nodes.length) {x : JNode}
    (hx : x ∈ L.nodes.getD i []) : ∃ s, x = .sep s ∧ s + 1 < T.cliques.length := by
  obtain ⟨hv, hl⟩ := (hp.mem i hil x).1 hx
  cases x with
  | sep s => exact ⟨s, rfl, hv⟩
  | clq k =>
    have h3 := hp.even_clq k hv
    omega

/-- The downstream neighbours of a node. -/
theorem Plan.down_facts {x y : JNode} (hx : validNode T.cliques.length x) (hy : y ∈ L.marks.down x) :
    Adj T.cliques.length par ch x y ∧ lev y = lev x + 1 ∧ validNode T.cliques.length y ∧ L.marks.up y = some x := by
  cases x with
  | clq k =>
    obtain ⟨s, hs, rfl, rfl⟩ := (hp.down_clq k hx y).1 hy
    exact ⟨.upClq s hs, hp.lev_sep s hs, hs, hp.up_sep s hs⟩
  | sep s =>
    rw [hp.down_sep s hx, List.mem_singleton] at hy
    subst hy
    exact ⟨.upSep s hx, hp.lev_ch s hx, h.ch_lt s hx, hp.up_ch s hx⟩

/-- The upstream neighbour of a node other than the root. -/
theorem Plan.up_facts {x : JNode} (hx : validNode T.cliques.length x) (hr : x ≠ .clq r) :
    ∃ y, L.marks.up x = some y ∧ Adj T.cliques.length par ch x y ∧ lev x = lev y + 1 ∧ validNode T.cliques.length y ∧ x ∈ L.marks.down y := by
  cases x with
  | sep s =>
    exact ⟨.clq (par s), hp.up_sep s hx, .downSep s hx, hp.lev_sep s hx, h.par_lt s hx,
      (hp.down_clq _ (h.par_lt s hx) _).2 ⟨s, hx, rfl, rfl⟩⟩
  | clq k =>
    obtain ⟨s, hs, rfl⟩ := hp.exists_ch k hx (fun e => hr (by rw [e]))
    exact ⟨.sep s, hp.up_ch s hs, .downClq s hs, hp.lev_ch s hs, hs, by rw [hp.down_sep s hs]; simp⟩

omit h in
theorem Plan.down_nodup' {x : JNode} (hx : validNode T.cliques.length x) : (L.marks.down x).Nodup := by
  cases x with
  | clq k => exact hp.down_nodup k hx
  | sep s => rw [hp.down_sep s hx]; simp

omit hp h in
theorem rd_level {i : Nat} (hi : i < L.nodes.length) : rd L.nodes i = .ok (L.nodes.getD i []) := by
  apply rd_ok
  rw [List.getElem?_eq_getElem hi, getD_of_lt hi]

omit hp h in
theorem mem_collectLevelSched {i : Nat} {p : JNode × JNode} (hm : p ∈ collectLevelSched L i) :
    p.1 ∈ L.nodes.getD i [] ∧ p.2 ∈ L.marks.down p.1 := by
  unfold collectLevelSched at hm
  split at hm
  · simp only [List.mem_flatMap, List.mem_map] at hm
    obtain ⟨x, hx, y, hy, rfl⟩ := hm
    exact ⟨hx, hy⟩
  · simp only [List.mem_flatMap, List.mem_map, List.mem_filter, decide_eq_true_eq] at hm
    obtain ⟨k, _, x, ⟨hx, hk⟩, rfl⟩ := hm
    exact ⟨hx, by rw [getD_of_lt hk]; exact List.getElem_mem hk⟩

theorem adj_collectLevelSched {i : Nat} (hil : i < L.nodes.length) {p : JNode × JNode} (hm : p ∈ collectLevelSched L i) :
    Adj T.cliques.length par ch p.1 p.2 := by
  obtain ⟨h1, h2⟩ := mem_collectLevelSched hm
  exact (hp.down_facts h ((hp.mem i hil _).1 h1).1 h2).1

theorem adj_distributeLevelSched {i : Nat} (hi0 : 0 < i) (hil : i < L.nodes.length) {p : JNode × JNode} (hm : p ∈ distributeLevelSched L i) :
    Adj T.cliques.length par ch p.1 p.2 := by
  unfold distributeLevelSched at hm
  rw [List.mem_map] at hm
  obtain ⟨x, hx, rfl⟩ := hm
  obtain ⟨hv, hl⟩ := (hp.mem i hil x).1 hx
  obtain ⟨y, e, ha, _⟩ := hp.up_facts h hv (by rintro rfl; have := hp.lev_root; omega)
  rw [e]
  exact ha

end plan

/-! ### `Collect` -/

theorem cliqueLevelCollect_sched (hp : Plan T L r lev par ch) (h : RepOK card T.cliques.length VC VS par ch) {i : Nat} (hi : i % 2 = 0)
    (hil : i < L.nodes.length) {σ : JNode → Assignment → K} (hσ : ∀ x, DependsOn (σ x) (nodeVars VC VS x)) :
    cliqueLevelCollect L.marks (L.nodes.getD i []) (repOf card T.cliques.length VC VS σ) =
      (runSched (msgFn card VC VS) (collectLevelSched L i) σ).map (repOf card T.cliques.length VC VS) := by
  have e : collectLevelSched L i = (List.range ((L.nodes.getD i []).foldl (fun b x => max b (L.marks.down x).length) 0)).flatMap (fun k =>
    ((L.nodes.getD i []).filter (fun x => k < (L.marks.down x).length)).map (fun x => (x, (L.marks.down x).getD k (.clq 0)))) := by
    unfold collectLevelSched
    rw [if_neg (by omega)]
  rw [e]
  unfold cliqueLevelCollect
  refine foldlM_sched h ?_ ?_ hσ
  · intro k hk p hpm
    refine adj_collectLevelSched hp h hil (i := i) ?_
    rw [e]
    exact List.mem_flatMap.2 ⟨k, hk, hpm⟩
  · intro k _ σ hσ
    -- the cliques with a `k`-th child, by number
    have hhas : ∀ x ∈ (L.nodes.getD i []).filter (fun x => decide (k < (L.marks.down x).length)),
        ∃ j, x = .clq j ∧ j < T.cliques.length ∧ ∃ s, s + 1 < T.cliques.length ∧ par s = j ∧ (L.marks.down (.clq j))[k]? = some (.sep s) := by
      intro x hx
      obtain ⟨hx1, hx2⟩ := List.mem_filter.1 hx
      obtain ⟨j, rfl, hj⟩ := hp.level_even h hi hil hx1
      have hk : k < (L.marks.down (.clq j)).length := by simpa using hx2
      obtain ⟨s, hs, e, hps⟩ := (hp.down_clq j hj _).1 (List.getElem_mem hk)
      exact ⟨j, rfl, hj, s, hs, hps, by rw [List.getElem?_eq_getElem hk, e]⟩
    have hnd : ((L.nodes.getD i []).filter (fun x => decide (k < (L.marks.down x).length))).Nodup := (hp.lnodup i).filter _
    generalize (L.nodes.getD i []).filter (fun x => decide (k < (L.marks.down x).length)) = has at hhas hnd
    have hmap : has = (has.map JNode.idx).map JNode.clq := by
      rw [List.map_map]
      conv_lhs => rw [← List.map_id has]
      apply List.map_congr_left
      intro x hx
      obtain ⟨j, rfl, _⟩ := hhas x hx
      rfl
    have hsched : has.map (fun x => (x, (L.marks.down x).getD k (.clq 0))) =
        (has.map JNode.idx).map (fun j => (JNode.clq j, JNode.sep ((L.marks.down (.clq j)).getD k (.clq 0)).idx)) := by
      rw [List.map_map]
      apply List.map_congr_left
      intro x hx
      obtain ⟨j, rfl, _, s, _, _, es⟩ := hhas x hx
      simp only [Function.comp, JNode.idx, List.getD_eq_getElem?_getD, es, Option.getD_some]
    have hmem : ∀ j ∈ has.map JNode.idx, JNode.clq j ∈ has := by
      intro j hj
      obtain ⟨x, hx, rfl⟩ := List.mem_map.1 hj
      obtain ⟨j, rfl, _⟩ := hhas x hx
      exact hx
    rw [hsched]
    conv_lhs => rw [hmap]
    refine mulNorm_sched h ?_ ?_ ?_ ?_ hσ
    · rw [hmap] at hnd
      exact hnd.of_map _
    · intro j hj
      obtain ⟨j', e, hj', _⟩ := hhas _ (hmem j hj)
      cases e
      exact hj'
    · intro j hj
      obtain ⟨j', e, _, s, hs, hps, es⟩ := hhas _ (hmem j hj)
      cases e
      rw [List.getD_eq_getElem?_getD, es, ← hps]
      exact .upClq s hs
    · intro j hj σ hσ
      obtain ⟨j', e, _, s, hs, hps, es⟩ := hhas _ (hmem j hj)
      cases e
      rw [repOf_clq, List.getD_eq_getElem?_getD, es]
      exact cliqueCollect_eq h hs hps es (hσ (.sep s))

/-- `Collect` is a sequence of messages, whatever the implementation of the separator levels. -/
theorem collect_sched_of {g : JState K → JNode → Except Fault (JState K)} (hp : Plan T L r lev par ch) (h : RepOK card T.cliques.length VC VS par ch)
    (hg : ∀ s, s + 1 < T.cliques.length → ∀ σ : JNode → Assignment → K, (∀ x, DependsOn (σ x) (nodeVars VC VS x)) →
      g (repOf card T.cliques.length VC VS σ) (.sep s) =
        (runSched (msgFn card VC VS) [(.sep s, .clq (ch s))] σ).map (repOf card T.cliques.length VC VS))
    {σ : JNode → Assignment → K} (hσ : ∀ x, DependsOn (σ x) (nodeVars VC VS x)) :
    (List.range (L.nodes.length - 1)).reverse.foldlM (fun st i => do
      if i % 2 = 1 then
        let level ← rd L.seps (i / 2)
        level.foldlM g st
      else
        let level ← rd L.nodes i
        cliqueLevelCollect L.marks level st) (repOf card T.cliques.length VC VS σ) =
      (runSched (msgFn card VC VS) (collectSched L) σ).map (repOf card T.cliques.length VC VS) := by
  unfold collectSched
  have hlt : ∀ i ∈ (List.range (L.nodes.length - 1)).reverse, i < L.nodes.length := by
    intro i hi
    simp only [List.mem_reverse, List.mem_range] at hi
    omega
  refine foldlM_sched h (fun i hi p hpm => adj_collectLevelSched hp h (hlt i hi) hpm) ?_ hσ
  intro i hi σ hσ
  have hil := hlt i hi
  by_cases hodd : i % 2 = 1
  · rw [if_pos hodd, rd_ok (hp.lseps i hodd hil), ok_bind]
    unfold collectLevelSched
    rw [if_pos hodd]
    refine foldlM_sched h ?_ ?_ hσ
    · intro x hx p hpm
      obtain ⟨y, hy, rfl⟩ := List.mem_map.1 hpm
      exact (hp.down_facts h ((hp.mem i hil x).1 hx).1 hy).1
    · intro x hx σ hσ
      obtain ⟨s, rfl, hs⟩ := hp.level_odd hodd hil hx
      rw [hp.down_sep s hs]
      exact hg s hs σ hσ
  · rw [if_neg hodd, rd_level hil, ok_bind]
    exact cliqueLevelCollect_sched hp h (by omega) hil hσ

theorem collect_sched (hp : Plan T L r lev par ch) (h : RepOK card T.cliques.length VC VS par ch)
    {σ : JNode → Assignment → K} (hσ : ∀ x, DependsOn (σ x) (nodeVars VC VS x)) :
    collect L (repOf card T.cliques.length VC VS σ) =
      (runSched (msgFn card VC VS) (collectSched L) σ).map (repOf card T.cliques.length VC VS) :=
  collect_sched_of hp h (fun s hs _ hσ => separatorCollect_sched h hσ hs (hp.down_sep s hs)) hσ

theorem collectPlain_sched (hp : Plan T L r lev par ch) (h : RepOK card T.cliques.length VC VS par ch)
    {σ : JNode → Assignment → K} (hσ : ∀ x, DependsOn (σ x) (nodeVars VC VS x)) :
    collectPlain L (repOf card T.cliques.length VC VS σ) =
      (runSched (msgFn card VC VS) (collectSched L) σ).map (repOf card T.cliques.length VC VS) :=
  collect_sched_of hp h (fun s hs _ hσ => separatorCollectPlain_sched h hσ hs (hp.down_sep s hs)) hσ

/-! ### `Distribute` -/

/-- `Distribute` is a sequence of messages, whatever the implementation of the clique levels. -/
theorem distribute_sched_of {g : JState K → JNode → Except Fault (JState K)} (hp : Plan T L r lev par ch)
    (h : RepOK card T.cliques.length VC VS par ch)
    (hg : ∀ s, s + 1 < T.cliques.length → ∀ σ : JNode → Assignment → K, (∀ x, DependsOn (σ x) (nodeVars VC VS x)) →
      g (repOf card T.cliques.length VC VS σ) (.clq (ch s)) = .ok (repOf card T.cliques.length VC VS
        (Function.update σ (.clq (ch s)) (fun a => σ (.clq (ch s)) a * σ (.sep s) a))))
    {σ : JNode → Assignment → K} (hσ : ∀ x, DependsOn (σ x) (nodeVars VC VS x)) :
    (List.range (L.nodes.length - 1)).foldlM (fun st k => do
      let i := k + 1
      if i % 2 = 1 then
        let level ← rd L.seps (i / 2)
        level.foldlM (separatorDistribute L.marks) st
      else
        let level ← rd L.nodes i
        let st ← level.foldlM g st
        level.foldlM normalizeClique st) (repOf card T.cliques.length VC VS σ) =
      (runSched (msgFn card VC VS) (distributeSched L) σ).map (repOf card T.cliques.length VC VS) := by
  unfold distributeSched
  have hlt : ∀ k ∈ List.range (L.nodes.length - 1), k + 1 < L.nodes.length := by
    intro k hk
    rw [List.mem_range] at hk
    omega
  refine foldlM_sched h (fun k hk p hpm => adj_distributeLevelSched hp h (by omega) (hlt k hk) hpm) ?_ hσ
  intro k hk σ hσ
  have hil := hlt k hk
  simp only []
  by_cases hodd : (k + 1) % 2 = 1
  · rw [if_pos hodd, rd_ok (hp.lseps (k + 1) hodd hil), ok_bind]
    have e : distributeLevelSched L (k + 1) = (L.nodes.getD (k + 1) []).flatMap (fun x => [(x, (L.marks.up x).getD (.clq 0))]) := by
      unfold distributeLevelSched
      rw [List.map_eq_flatMap]
    rw [e]
    refine foldlM_sched h ?_ ?_ hσ
    · intro x hx p hpm
      refine adj_distributeLevelSched hp h (i := k + 1) (by omega) hil ?_
      rw [e]
      exact List.mem_flatMap.2 ⟨x, hx, hpm⟩
    · intro x hx σ hσ
      obtain ⟨s, rfl, hs⟩ := hp.level_odd hodd hil hx
      rw [hp.up_sep s hs]
      exact separatorDistribute_sched h hσ hs (hp.up_sep s hs)
  · rw [if_neg hodd, rd_level hil, ok_bind]
    have hall : ∀ x ∈ L.nodes.getD (k + 1) [], ∃ j, x = .clq j ∧ j < T.cliques.length ∧ ∃ s, s + 1 < T.cliques.length ∧ ch s = j := by
      intro x hx
      obtain ⟨j, rfl, hj⟩ := hp.level_even h (by omega) hil hx
      have hl := ((hp.mem _ hil _).1 hx).2
      obtain ⟨s, hs, e⟩ := hp.exists_ch j hj (by rintro rfl; have := hp.lev_root; omega)
      exact ⟨j, rfl, hj, s, hs, e⟩
    have hnd := hp.lnodup (k + 1)
    unfold distributeLevelSched
    generalize L.nodes.getD (k + 1) [] = has at hall hnd
    have hmap : has = (has.map JNode.idx).map JNode.clq := by
      rw [List.map_map]
      conv_lhs => rw [← List.map_id has]
      apply List.map_congr_left
      intro x hx
      obtain ⟨j, rfl, _⟩ := hall x hx
      rfl
    have hsched : has.map (fun x => (x, (L.marks.up x).getD (.clq 0))) =
        (has.map JNode.idx).map (fun j => (JNode.clq j, JNode.sep ((L.marks.up (.clq j)).getD (.clq 0)).idx)) := by
      rw [List.map_map]
      apply List.map_congr_left
      intro x hx
      obtain ⟨j, rfl, _, s, hs, rfl⟩ := hall x hx
      simp only [Function.comp, JNode.idx, hp.up_ch s hs, Option.getD_some]
    have hmem : ∀ j ∈ has.map JNode.idx, JNode.clq j ∈ has := by
      intro j hj
      obtain ⟨x, hx, rfl⟩ := List.mem_map.1 hj
      obtain ⟨j, rfl, _⟩ := hall x hx
      exact hx
    rw [hsched]
    conv_lhs => rw [hmap]
    refine mulNorm_sched h ?_ ?_ ?_ ?_ hσ
    · rw [hmap] at hnd
      exact hnd.of_map _
    · intro j hj
      obtain ⟨j', e, hj', _⟩ := hall _ (hmem j hj)
      cases e
      exact hj'
    · intro j hj
      obtain ⟨j', e, _, s, hs, rfl⟩ := hall _ (hmem j hj)
      cases e
      rw [hp.up_ch s hs]
      exact .downClq s hs
    · intro j hj σ hσ
      obtain ⟨j', e, _, s, hs, rfl⟩ := hall _ (hmem j hj)
      cases e
      rw [hp.up_ch s hs]
      exact hg s hs σ hσ

theorem distribute_sched (hp : Plan T L r lev par ch) (h : RepOK card T.cliques.length VC VS par ch)
    {σ : JNode → Assignment → K} (hσ : ∀ x, DependsOn (σ x) (nodeVars VC VS x)) :
    distribute L (repOf card T.cliques.length VC VS σ) =
      (runSched (msgFn card VC VS) (distributeSched L) σ).map (repOf card T.cliques.length VC VS) :=
  distribute_sched_of hp h (fun s hs _ hσ => by
    rw [repOf_clq]
    exact cliqueDistribute_eq h hs (hp.up_ch s hs) (hσ (.sep s))) hσ

theorem distributePlain_sched (hp : Plan T L r lev par ch) (h : RepOK card T.cliques.length VC VS par ch)
    {σ : JNode → Assignment → K} (hσ : ∀ x, DependsOn (σ x) (nodeVars VC VS x)) :
    distributePlain L (repOf card T.cliques.length VC VS σ) =
      (runSched (msgFn card VC VS) (distributeSched L) σ).map (repOf card T.cliques.length VC VS) :=
  distribute_sched_of hp h (fun s hs _ hσ => by
    rw [repOf_clq]
    exact cliqueDistributePlain_eq h hs (hp.up_ch s hs) (hσ (.sep s))) hσ

end FastPGM
