import Verif.Lemmas.JTCalibrate
import Verif.Lemmas.JTShape

/-!
The tables of a newly built junction tree.
-/

set_option linter.unusedSectionVars false

namespace FastPGM

open Spec

variable {K : Type}

theorem junctionShape_ok {N : Net} (h : NetInv N) (hpos : 0 < N.nodes.length) (hw : WeaklyConnected N)
    {order : List (Nat × Nat) → List (Nat × Nat)} (horder : ∀ l, (order l).Perm l) {cord : Nat → List Nat}
    (hcord : ∀ m, (cord m).Perm (List.range m)) :
    ∃ T, N.junctionShape order cord = .ok T ∧ CliqueFacts N T.cliques ∧ ShapeOK T ∧ ∀ p ∈ T.seps, p ∈ candidateSeps T.cliques := by
  obtain ⟨T, h1, h2, _, h4, h5, h6, h7, h8, h9⟩ := junctionShape_spec h hpos hw horder cord
  refine ⟨T, h1, h2, ⟨by omega, h6, h7, h8, ?_, ?_, ?_, ?_⟩, h9⟩
  · intro p hp
    have := mem_candidateSeps.1 (h9 p hp)
    exact ⟨this.1, this.2.1⟩
  · intro p hp
    rw [h4]
    exact (horder _).mem_iff.2 (h9 p hp)
  · rw [h4]
    exact (horder _).nodup_iff.2 (candidateSeps_nodup _)
  · rw [h5]
    exact hcord _

/-- The variables of a separator. -/
def sepVars (T : JTShape) (s : Nat) : List Nat := commonVars T.cliques (T.seps.getD s (0, 0)).1 (T.seps.getD s (0, 0)).2

/-- The variables of a clique, in the order after `ReorganizeTableStorage`. -/
def storedVars (T : JTShape) (m : Marks) (i : Nat) : List Nat :=
  match m.up (.clq i) with
  | some (.sep s) => (T.cliques.getD i []).filter (fun v => v ∉ sepVars T s) ++ sepVars T s
  | _ => T.cliques.getD i []

theorem initialTables_eq [One K] {card : Nat → Nat} {n : Nat} {C : Nat → List Nat} (hne : ∀ i < n, C i ≠ []) :
    initialTables card (tab n C) = .ok (tab n (fun i => fromFn card (C i) (fun _ => (1 : K)))) := by
  unfold initialTables
  rw [mapM_ok (g := fun c => fromFn card c (fun _ => (1 : K)))]
  · rw [tab, List.map_map]; rfl
  · intro c hc
    obtain ⟨i, hi, rfl⟩ := List.mem_map.1 hc
    exact constructEmptyTable_eq (hne i (List.mem_range.1 hi))

theorem value_dep [Zero K] {card : Nat → Nat} {T : Table K} (_h : WellFormed card T) : DependsOn (value T) T.vars := by
  intro a b hab
  unfold value
  rw [List.map_congr_left hab]

/-! ### Assigning the tables -/

theorem assignPotentials_eq [Field K] {card : Nat → Nat} {cs : List (List Nat)} (hnd : ∀ c ∈ cs, c.Nodup) (hpos : ∀ c ∈ cs, ∀ v ∈ c, 0 < card v)
    (hnec : ∀ c ∈ cs, c ≠ [])
    {pts : List (Table K)} (hwf : ∀ T ∈ pts, WellFormed card T) (hne : ∀ T ∈ pts, T.vars ≠ [])
    (hcov : ∀ T ∈ pts, ∃ c ∈ cs, ∀ v ∈ T.vars, v ∈ c) :
    ∃ F : Nat → Assignment → K,
      assignPotentials cs (tab cs.length (fun i => fromFn card (cs.getD i []) (fun _ => (1 : K)))) pts =
        .ok (tab cs.length (fun i => fromFn card (cs.getD i []) (F i))) ∧
      (∀ i, DependsOn (F i) (cs.getD i [])) ∧ (∀ a, ∏ i ∈ Finset.range cs.length, F i a = (pts.map (fun T => value T a)).prod) ∧
      ∀ (P : K → Prop), P 1 → (∀ x y, P x → P y → P (x * y)) → (∀ T ∈ pts, ∀ a, P (value T a)) → ∀ i a, P (F i a) := by
  have key := foldlM_prefix (ε := Fault) (f := assignTableToClique cs) (l := pts)
    (b := tab cs.length (fun i => fromFn card (cs.getD i []) (fun _ => (1 : K))))
    (P := fun done st => ∃ F : Nat → Assignment → K, st = tab cs.length (fun i => fromFn card (cs.getD i []) (F i)) ∧
      (∀ i, DependsOn (F i) (cs.getD i [])) ∧ (∀ a, ∏ i ∈ Finset.range cs.length, F i a = (done.map (fun T => value T a)).prod) ∧
      ∀ (P : K → Prop), P 1 → (∀ x y, P x → P y → P (x * y)) → (∀ T ∈ done, ∀ a, P (value T a)) → ∀ i a, P (F i a)) ?_ ?_
  · obtain ⟨st, e, F, rfl, h⟩ := key
    exact ⟨F, e, h⟩
  · exact ⟨fun _ _ => 1, rfl, fun _ _ _ _ => rfl, by simp, fun P h1 _ _ _ _ => h1⟩
  · rintro done pt rest hl st ⟨F, rfl, hdep, hprod, hP⟩
    have hpt : pt ∈ pts := by rw [hl]; simp
    have hw := hwf pt hpt
    unfold assignTableToClique
    cases hf : cs.findIdx? (fun c => decide (pt.vars = [] ∨ c = [] ∨ pt.vars.filter (fun v => v ∉ c) = [])) with
    | none =>
      rw [List.findIdx?_eq_none_iff] at hf
      obtain ⟨c, hc, hsub⟩ := hcov pt hpt
      have := hf c hc
      simp only [decide_eq_false_iff_not, not_or] at this
      refine absurd (List.filter_eq_nil_iff.2 ?_) this.2.2
      intro v hv
      simp [hsub v hv]
    | some k =>
      rw [List.findIdx?_eq_some_iff_getElem] at hf
      obtain ⟨hk, hf, -⟩ := hf
      have hmem : cs[k] ∈ cs := List.getElem_mem hk
      have hck : cs.getD k [] = cs[k] := getD_of_lt hk
      have hsub : ∀ v ∈ pt.vars, v ∈ cs.getD k [] := by
        rw [hck]
        simp only [decide_eq_true_eq] at hf
        rcases hf with h | h | h
        · exact absurd h (hne pt hpt)
        · exact absurd h (hnec _ hmem)
        · intro v hv
          have := List.filter_eq_nil_iff.1 h v hv
          simpa using this
      simp only []
      rw [if_neg (by rw [hck]; exact not_or.2 ⟨hne pt hpt, hnec _ hmem⟩), rd_tab hk, ok_bind]
      have e : tableMultiplication (fromFn card (cs.getD k []) (F k)) pt =
          .ok (fromFn card (cs.getD k []) (fun a => F k a * value pt a)) := by
        conv_lhs => rw [hw.eq_fromFn]
        exact tableMultiplication_fromFn (by rw [hck]; exact hnd _ hmem) (by rw [hck]; exact hpos _ hmem) hsub hw.nodup (value_dep hw)
      rw [e, ok_bind, wr_tab hk, tab_update, update_fromFn (VC := fun i => cs.getD i [])]
      refine ⟨_, rfl, _, rfl, ?_, ?_, ?_⟩
      · intro i
        by_cases hi : i = k
        · subst hi
          rw [Function.update_self]
          exact (hdep i).mul ((value_dep hw).mono hsub)
        · rw [Function.update_of_ne hi]; exact hdep i
      · intro a
        rw [List.map_append, List.prod_append, ← hprod a, List.map_singleton, List.prod_singleton]
        rw [← Finset.mul_prod_erase _ _ (Finset.mem_range.2 hk), ← Finset.mul_prod_erase (Finset.range cs.length) (fun i => F i a) (Finset.mem_range.2 hk),
          Function.update_self, Finset.prod_congr rfl (g := fun i => F i a)]
        · ring
        · intro i hi
          rw [Function.update_of_ne (Finset.ne_of_mem_erase hi)]
      · intro P h1 hm hv i a
        have ih := hP P h1 hm (fun T hT => hv T (by simp [hT]))
        by_cases hi : i = k
        · subst hi
          rw [Function.update_self]
          exact hm _ _ (ih i a) (hv pt (by simp) a)
        · rw [Function.update_of_ne hi]; exact ih i a

/-! ### Storage order -/

theorem sublist_of_sorted {l l' : List Nat} (h : l.Pairwise (· < ·)) (h' : l'.Pairwise (· < ·)) (hsub : ∀ v ∈ l, v ∈ l') : l.Sublist l' := by
  have e : l = l'.filter (fun v => v ∈ l) := by
    apply List.Perm.eq_of_pairwise (le := (· < ·)) (fun a b _ _ h1 h2 => absurd (Nat.lt_trans h1 h2) (Nat.lt_irrefl _)) h (h'.filter _)
    rw [List.perm_ext_iff_of_nodup (nodup_of_sorted h) ((nodup_of_sorted h').filter _)]
    intro v
    simp only [List.mem_filter, decide_eq_true_eq]
    exact ⟨fun hv => ⟨hsub v hv, hv⟩, fun hv => hv.2⟩
  rw [e]
  exact List.filter_sublist

section

variable {T : JTShape}

theorem getD_sorted {N : Net} (hc : CliqueFacts N T.cliques) (i : Nat) : (T.cliques.getD i []).Pairwise (· < ·) := by
  by_cases hi : i < T.cliques.length
  · rw [getD_of_lt hi]; exact hc.sorted _ (List.getElem_mem hi)
  · rw [List.getD_eq_getElem?_getD, List.getElem?_eq_none (by omega)]; exact List.Pairwise.nil

theorem sepVars_sorted {N : Net} (hc : CliqueFacts N T.cliques) (s : Nat) : (sepVars T s).Pairwise (· < ·) :=
  (getD_sorted hc _).filter _

theorem mem_sepVars_iff {s v : Nat} {i j : Nat} (hi : sepEnd T s i) (hj : sepEnd T s j) (hij : i ≠ j) :
    v ∈ sepVars T s ↔ v ∈ T.cliques.getD i [] ∧ v ∈ T.cliques.getD j [] := by
  obtain ⟨p, hp, hi⟩ := hi
  obtain ⟨q, hq, hj⟩ := hj
  rw [hp] at hq
  cases hq
  unfold sepVars
  rw [mem_commonVars, List.getD_eq_getElem?_getD, hp]
  unfold clqHas
  simp only [Option.getD_some]
  rcases hi with rfl | rfl <;> rcases hj with rfl | rfl
  · exact absurd rfl hij
  · rfl
  · rw [and_comm]
  · exact absurd rfl hij

theorem mem_storedVars {m : Marks} {i v : Nat} (hsub : ∀ s, m.up (.clq i) = some (.sep s) → ∀ v ∈ sepVars T s, v ∈ T.cliques.getD i []) :
    v ∈ storedVars T m i ↔ v ∈ T.cliques.getD i [] := by
  unfold storedVars
  split
  · rename_i s hs
    rw [List.mem_append, List.mem_filter, decide_eq_true_eq]
    constructor
    · rintro (h | h)
      · exact h.1
      · exact hsub s hs v h
    · intro h
      by_cases hv : v ∈ sepVars T s
      · exact Or.inr hv
      · exact Or.inl ⟨h, hv⟩
  · rfl

theorem storedVars_nodup {N : Net} (hc : CliqueFacts N T.cliques) {m : Marks} {i : Nat} : (storedVars T m i).Nodup := by
  unfold storedVars
  split
  · rename_i s hs
    rw [List.nodup_append]
    refine ⟨(nodup_of_sorted (getD_sorted hc i)).filter _, nodup_of_sorted (sepVars_sorted hc s), ?_⟩
    rintro a ha b hb rfl
    rw [List.mem_filter, decide_eq_true_eq] at ha
    exact ha.2 hb
  · exact nodup_of_sorted (getD_sorted hc i)

variable {L : Levels} {r : Nat} {lev : JNode → Nat} {par ch : Nat → Nat}

theorem Plan.up_cases (hp : Plan T L r lev par ch) {k : Nat} (hk : k < T.cliques.length) :
    (k = r ∧ L.marks.up (.clq k) = none) ∨ ∃ s, s + 1 < T.cliques.length ∧ ch s = k ∧ L.marks.up (.clq k) = some (.sep s) := by
  by_cases h : k = r
  · subst h; exact Or.inl ⟨rfl, hp.up_root⟩
  · obtain ⟨s, hs, rfl⟩ := hp.exists_ch k hk h
    exact Or.inr ⟨s, hs, rfl, hp.up_ch s hs⟩

theorem Plan.sep_sub (hp : Plan T L r lev par ch) {s : Nat} (hs : s + 1 < T.cliques.length) :
    (∀ v ∈ sepVars T s, v ∈ T.cliques.getD (ch s) []) ∧ ∀ v ∈ sepVars T s, v ∈ T.cliques.getD (par s) [] :=
  ⟨fun _ hv => ((mem_sepVars_iff (hp.par_end s hs) (hp.ch_end s hs) (hp.par_ne s hs)).1 hv).2,
    fun _ hv => ((mem_sepVars_iff (hp.par_end s hs) (hp.ch_end s hs) (hp.par_ne s hs)).1 hv).1⟩

theorem Plan.mem_stored (hp : Plan T L r lev par ch) {k v : Nat} (hk : k < T.cliques.length) :
    v ∈ storedVars T L.marks k ↔ v ∈ T.cliques.getD k [] := by
  apply mem_storedVars
  intro s hs
  rcases hp.up_cases hk with ⟨_, h⟩ | ⟨t, ht, rfl, h⟩
  · rw [h] at hs; cases hs
  · rw [h] at hs; cases hs
    exact (hp.sep_sub ht).1

theorem reorganizeStorage_eq [Field K] {N : Net} (hc : CliqueFacts N T.cliques) (hp : Plan T L r lev par ch) {card : Nat → Nat}
    (hcard : ∀ i < N.nodes.length, 0 < card i) {F G : Nat → Assignment → K} (hF : ∀ i, DependsOn (F i) (T.cliques.getD i [])) :
    reorganizeStorage L.marks (repState card T.cliques.length (fun i => T.cliques.getD i []) (sepVars T) F G) =
      .ok (repState card T.cliques.length (storedVars T L.marks) (sepVars T) F G) := by
  unfold reorganizeStorage
  have hlen : (repState card T.cliques.length (fun i => T.cliques.getD i []) (sepVars T) F G).clq.length = T.cliques.length := by
    simp [repState, tab]
  rw [hlen]
  have key := foldlM_range_eq (ε := Fault) (f := reorganizeClique L.marks) (n := T.cliques.length)
    (s := fun n => repState card T.cliques.length (fun i => if i < n then storedVars T L.marks i else T.cliques.getD i []) (sepVars T) F G) ?_
  · simp only [Nat.not_lt_zero, if_false] at key
    rw [key]
    congr 1
    unfold repState
    congr 1
    apply tab_congr
    intro i hi
    simp only []
    rw [if_pos hi]
  · intro i hi
    unfold reorganizeClique
    have hci : T.cliques.getD i [] = T.cliques[i] := getD_of_lt hi
    have hmem : T.cliques[i] ∈ T.cliques := List.getElem_mem hi
    rcases hp.up_cases hi with ⟨_, hup⟩ | ⟨s, hs, hch, hup⟩
    · rw [hup]
      simp only []
      congr 1
      unfold repState
      congr 1
      apply tab_congr
      intro j hj
      simp only []
      by_cases h1 : j < i
      · rw [if_pos h1, if_pos (by omega)]
      · rw [if_neg h1]
        by_cases h2 : j < i + 1
        · have : j = i := by omega
          subst this
          rw [if_pos h2]
          unfold storedVars
          rw [hup]
        · rw [if_neg h2]
    · rw [hup]
      simp only [JNode.sepIdx, ok_bind]
      unfold repState
      rw [rd_tab hi, ok_bind, rd_tab (by omega : s < T.cliques.length - 1), ok_bind]
      simp only [Nat.lt_irrefl, if_false]
      have hst : storedVars T L.marks i = (T.cliques.getD i []).filter (fun v => v ∉ sepVars T s) ++ sepVars T s := by
        unfold storedVars; rw [hup]
      have hsubl : (sepVars T s).Sublist (T.cliques.getD i []) :=
        sublist_of_sorted (sepVars_sorted hc s) (getD_sorted hc i) (by rw [← hch]; exact (hp.sep_sub hs).1)
      rw [if_neg (show ¬ (fromFn card (T.cliques.getD i []) (F i)).vars.length < (fromFn card (sepVars T s) (G s)).vars.length from
        Nat.not_lt.2 hsubl.length_le)]
      have hout : ∀ X : Table K, X = fromFn card (storedVars T L.marks i) (F i) →
          tab T.cliques.length (fun j => if j = i then X else fromFn card (if j < i then storedVars T L.marks j else T.cliques.getD j []) (F j)) =
          tab T.cliques.length (fun j => fromFn card (if j < i + 1 then storedVars T L.marks j else T.cliques.getD j []) (F j)) := by
        rintro X rfl
        apply tab_congr
        intro j hj
        by_cases h : j = i
        · subst h; rw [if_pos rfl, if_pos (by omega)]
        · rw [if_neg h]
          by_cases h1 : j < i
          · rw [if_pos h1, if_pos (by omega)]
          · rw [if_neg h1, if_neg (by omega)]
      by_cases hd : (fromFn card (T.cliques.getD i []) (F i)).vars.drop ((fromFn card (T.cliques.getD i []) (F i)).vars.length -
          (fromFn card (sepVars T s) (G s)).vars.length) = (fromFn card (sepVars T s) (G s)).vars
      · rw [if_pos hd]
        simp only [pure_eq_ok]
        congr 2
        rw [← hout (fromFn card (T.cliques.getD i []) (F i)) ?_]
        · apply tab_congr
          intro j hj
          by_cases h : j = i
          · subst h; rw [if_pos rfl, if_neg (Nat.lt_irrefl _)]
          · rw [if_neg h]
        · congr 1
          rw [hst]
          have hd' : (T.cliques.getD i []).drop ((T.cliques.getD i []).length - (sepVars T s).length) = sepVars T s := hd
          have e := List.take_append_drop ((T.cliques.getD i []).length - (sepVars T s).length) (T.cliques.getD i [])
          rw [hd'] at e
          have hn := nodup_of_sorted (getD_sorted hc i)
          rw [← e] at hn
          have := filter_append_notMem hn
          rw [e] at this
          rw [this]
          exact e.symm
      · rw [if_neg hd]
        have e : tableMoveToEnd (fromFn card (T.cliques.getD i []) (F i)) (fromFn card (sepVars T s) (G s)).vars =
            .ok (fromFn card (storedVars T L.marks i) (F i)) := by
          rw [hst]
          exact tableMoveToEnd_fromFn (nodup_of_sorted (getD_sorted hc i)) (by rw [hci]; exact hc.nonempty _ hmem)
            (fun v hv => hcard v (hc.lt _ hmem v (by rw [← hci]; exact hv))) hsubl (hF i)
        rw [e, ok_bind, wr_tab hi, ok_bind, hout _ rfl]
        rfl

end

/-- The tables of the nodes: `pts[i]` is on node `i` and its parents. -/
structure Built [Field K] (N : Net) (card : Nat → Nat) (pts : List (Table K)) (J : JTree K) (T : JTShape) (L : Levels) (r : Nat)
    (lev : JNode → Nat) (par ch : Nat → Nat) (F : Nat → Assignment → K) : Prop where
  shape : J.shape = T
  levels : J.levels = L
  n : J.n = N.nodes.length
  hcard : J.card = card
  state : J.state = repState card T.cliques.length (storedVars T L.marks) (sepVars T) F (fun _ _ => 1)
  backup : J.backup = J.state
  facts : CliqueFacts N T.cliques
  shapeOK : ShapeOK T
  plan : Plan T L r lev par ch
  dep : ∀ i, DependsOn (F i) (T.cliques.getD i [])
  prod : ∀ a, ∏ i ∈ Finset.range T.cliques.length, F i a = (pts.map (fun T => value T a)).prod
  closed : ∀ (P : K → Prop), P 1 → (∀ x y, P x → P y → P (x * y)) → (∀ T ∈ pts, ∀ a, P (value T a)) → ∀ i a, P (F i a)

theorem build_ok [Field K] {N : Net} (h : NetInv N) (hpos : 0 < N.nodes.length) (hw : WeaklyConnected N)
    {order : List (Nat × Nat) → List (Nat × Nat)} (horder : ∀ l, (order l).Perm l) {cord : Nat → List Nat}
    (hcord : ∀ m, (cord m).Perm (List.range m)) {card : Nat → Nat} (hcard : ∀ i < N.nodes.length, 0 < card i)
    {pts : List (Table K)} (hwf : ∀ T ∈ pts, WellFormed card T) (hne : ∀ T ∈ pts, T.vars ≠ [])
    (hfam : ∀ T ∈ pts, ∃ i < N.nodes.length, ∀ v ∈ T.vars, v = i ∨ ParentOf N v i) :
    ∃ J T L r lev par ch F, buildJunctionTree N card pts order cord = .ok J ∧ Built N card pts J T L r lev par ch F := by
  obtain ⟨T, h1, hc, hok, hcand⟩ := junctionShape_ok h hpos hw horder hcord
  have hCpos : ∀ c ∈ T.cliques, ∀ v ∈ c, 0 < card v := fun c hm v hv => hcard v (hc.lt c hm v hv)
  have e1 : initialTables card T.cliques = .ok (tab T.cliques.length (fun i => fromFn card (T.cliques.getD i []) (fun _ => (1 : K)))) := by
    have := initialTables_eq (K := K) (card := card) (n := T.cliques.length) (C := fun i => T.cliques.getD i [])
      (fun i hi => by show T.cliques.getD i [] ≠ []; rw [getD_of_lt hi]; exact hc.nonempty _ (List.getElem_mem hi))
    rwa [← eq_tab_getD] at this
  have e2 : initialTables card (T.seps.map (fun p => commonVars T.cliques p.1 p.2)) =
      .ok (tab (T.cliques.length - 1) (fun s => fromFn card (sepVars T s) (fun _ => (1 : K)))) := by
    have hl : T.cliques.length - 1 = T.seps.length := by have := hok.count; omega
    have : T.seps.map (fun p => commonVars T.cliques p.1 p.2) = tab T.seps.length (sepVars T) := by
      have e := congrArg (List.map (fun p => commonVars T.cliques p.1 p.2)) (eq_tab_getD (l := T.seps) ((0 : Nat), (0 : Nat)))
      rw [e, tab, List.map_map]
      rfl
    rw [this, hl, initialTables_eq]
    intro s hs
    unfold sepVars
    rw [getD_of_lt hs]
    obtain ⟨_, _, v, hv⟩ := mem_candidateSeps.1 (hcand _ (List.getElem_mem hs))
    exact List.ne_nil_of_mem (mem_commonVars.2 hv)
  obtain ⟨F, e3, hdep, hprod, hclosed⟩ := assignPotentials_eq (K := K) (card := card) (cs := T.cliques) (fun c hm => nodup_of_sorted (hc.sorted c hm)) hCpos hc.nonempty hwf hne
    (fun pt hpt => by
      obtain ⟨i, hi, hv⟩ := hfam pt hpt
      obtain ⟨c, hm, hic, hpc⟩ := hc.family h hi
      refine ⟨c, hm, fun v hvv => ?_⟩
      rcases hv v hvv with rfl | hp
      · exact hic
      · exact hpc v hp)
  obtain ⟨r, e4, hr⟩ := chooseRoot_ok hok
  obtain ⟨L, lev, e5, hplan⟩ := markLevel_plan hok hr
  have e6 := reorganizeStorage_eq (K := K) hc hplan hcard (G := fun _ _ => 1) hdep
  refine ⟨⟨T, L, N.nodes.length, card, _, _⟩, T, L, r, lev, _, _, F, ?_, ⟨rfl, rfl, rfl, rfl, rfl, rfl, hc, hok, hplan, hdep, hprod, hclosed⟩⟩
  unfold buildJunctionTree
  rw [h1, ok_bind, e1, ok_bind, e2, ok_bind, e3, ok_bind, e4, ok_bind, e5, ok_bind]
  have e6' : reorganizeStorage L.marks (JState.mk (tab T.cliques.length (fun i => fromFn card (T.cliques.getD i []) (F i)))
      (tab (T.cliques.length - 1) (fun s => fromFn card (sepVars T s) (fun _ => (1 : K))))) = _ := e6
  rw [e6', ok_bind]
  rfl

end FastPGM
