import Verif.Lemmas.JTBuild
import Verif.Spec.Posterior

/-!
Evidence, propagation and queries on a built junction tree.
-/

set_option linter.unusedSectionVars false

namespace FastPGM

open Spec

variable {K : Type}

/-! ### Evidence -/

/-- `a` with the observed values. -/
def withEv (E : List (Nat × Nat)) (a : Assignment) : Assignment := E.foldr (fun e b => b.set e.1 e.2) a

theorem withEv_append (E E' : List (Nat × Nat)) (a : Assignment) : withEv (E ++ E') a = withEv E (withEv E' a) := by
  unfold withEv
  rw [List.foldr_append]

theorem withEv_of_notMem {E : List (Nat × Nat)} {v : Nat} (h : v ∉ E.map Prod.fst) (a : Assignment) : withEv E a v = a v := by
  induction E with
  | nil => rfl
  | cons e E ih =>
    rw [List.map_cons, List.mem_cons, not_or] at h
    show (withEv E a).set e.1 e.2 v = a v
    unfold Assignment.set
    rw [if_neg h.1]
    exact ih h.2

theorem withEv_of_mem {E : List (Nat × Nat)} {v : Nat} (h : v ∈ E.map Prod.fst) (a b : Assignment) : withEv E a v = withEv E b v := by
  induction E with
  | nil => simp at h
  | cons e E ih =>
    show (withEv E a).set e.1 e.2 v = (withEv E b).set e.1 e.2 v
    unfold Assignment.set
    by_cases hv : v = e.1
    · rw [if_pos hv, if_pos hv]
    · rw [if_neg hv, if_neg hv]
      rw [List.map_cons, List.mem_cons] at h
      exact ih (h.resolve_left hv)

theorem withEv_agree {E : List (Nat × Nat)} {v : Nat} {a b : Assignment} (h : a v = b v) : withEv E a v = withEv E b v := by
  by_cases hv : v ∈ E.map Prod.fst
  · exact withEv_of_mem hv a b
  · rw [withEv_of_notMem hv, withEv_of_notMem hv, h]

theorem withEv_eq {E : List (Nat × Nat)} (hn : (E.map Prod.fst).Nodup) {e : Nat × Nat} (he : e ∈ E) (a : Assignment) : withEv E a e.1 = e.2 := by
  induction E with
  | nil => simp at he
  | cons d E ih =>
    rw [List.map_cons, List.nodup_cons] at hn
    show (withEv E a).set d.1 d.2 e.1 = e.2
    unfold Assignment.set
    rcases List.mem_cons.1 he with rfl | he
    · rw [if_pos rfl]
    · rw [if_neg (fun h : e.1 = d.1 => hn.1 (by rw [← h]; exact List.mem_map_of_mem he))]
      exact ih hn.2 he

/-- The unobserved ones of the variables. -/
def unobs (E : List (Nat × Nat)) (vs : List Nat) : List Nat := vs.filter (fun v => v ∉ E.map Prod.fst)

theorem mem_unobs {E : List (Nat × Nat)} {vs : List Nat} {v : Nat} : v ∈ unobs E vs ↔ v ∈ vs ∧ v ∉ E.map Prod.fst := by
  unfold unobs
  rw [List.mem_filter, decide_eq_true_eq]

theorem unobs_snoc {E : List (Nat × Nat)} {vs : List Nat} (hn : vs.Nodup) (e : Nat × Nat) : (unobs E vs).erase e.1 = unobs (E ++ [e]) vs := by
  unfold unobs
  rw [List.Nodup.erase_eq_filter (hn.filter _), List.filter_filter]
  apply List.filter_congr
  intro v _
  rw [Bool.eq_iff_iff]
  simp only [Bool.and_eq_true, decide_eq_true_eq, List.map_append, List.mem_append, List.map_cons, List.map_nil, List.mem_singleton, not_or,
    bne_iff_ne]
  tauto

theorem dep_withEv {E : List (Nat × Nat)} {vs : List Nat} {f : Assignment → K} (h : DependsOn f vs) :
    DependsOn (fun a => f (withEv E a)) (unobs E vs) := by
  intro a b hab
  apply h
  intro v hv
  by_cases hE : v ∈ E.map Prod.fst
  · exact withEv_of_mem hE a b
  · exact withEv_agree (hab v (mem_unobs.2 ⟨hv, hE⟩))

theorem mapM_tab {α β ε : Type} {f : α → Except ε β} {n : Nat} {t : Nat → α} {u : Nat → β} (h : ∀ i < n, f (t i) = .ok (u i)) :
    (tab n t).mapM f = .ok (tab n u) := by
  have key : ∀ l : List Nat, (∀ i ∈ l, i < n) → (l.map t).mapM f = .ok (l.map u) := by
    intro l
    induction l with
    | nil => intro _; rfl
    | cons i l ih =>
      intro hl
      rw [List.map_cons, List.mapM_cons, h i (hl i (by simp)), ih (fun j hj => hl j (by simp [hj]))]
      rfl
  exact key _ (fun i hi => List.mem_range.1 hi)

theorem reduceTables_eq [Field K] {card : Nat → Nat} {m : Nat} {VC : Nat → List Nat} {F : Nat → Assignment → K} {e x : Nat}
    (hn : ∀ i < m, (VC i).Nodup) (hp : ∀ i < m, ∀ v ∈ VC i, 0 < card v) (hd : ∀ i < m, DependsOn (F i) (VC i)) (hx : x < card e) :
    reduceTables e x (tab m (fun i => fromFn card (VC i) (F i))) =
      .ok (tab m (fun i => fromFn card ((VC i).erase e) (fun a => F i (a.set e x)))) := by
  apply mapM_tab
  intro i hi
  by_cases he : e ∈ VC i
  · rw [if_pos (show e ∈ (fromFn card (VC i) (F i)).vars from he), tableReduction_fromFn (hn i hi) (hp i hi) he (hd i hi)]
    simp only [hx, if_true]
  · rw [if_neg (show e ∉ (fromFn card (VC i) (F i)).vars from he), List.erase_of_not_mem he]
    congr 2
    funext a
    apply hd i hi
    intro v hv
    unfold Assignment.set
    rw [if_neg (fun h : v = e => he (by rw [← h]; exact hv))]

theorem loadEvidence_eq [Field K] {card : Nat → Nat} {n m : Nat} {VC VS : Nat → List Nat} {F G : Nat → Assignment → K}
    (hn : ∀ i < m, (VC i).Nodup) (hp : ∀ i < m, ∀ v ∈ VC i, 0 < card v) (hd : ∀ i < m, DependsOn (F i) (VC i)) (hlt : ∀ i < m, ∀ v ∈ VC i, v < n)
    (hn' : ∀ s, s + 1 < m → (VS s).Nodup) (hp' : ∀ s, s + 1 < m → ∀ v ∈ VS s, 0 < card v) (hd' : ∀ s, s + 1 < m → DependsOn (G s) (VS s))
    (hlt' : ∀ s, s + 1 < m → ∀ v ∈ VS s, v < n)
    {E : List (Nat × Nat)} (hE : ∀ e ∈ E, e.1 < n → e.2 < card e.1) :
    loadEvidence n E (repState card m VC VS F G) =
      .ok (repState card m (fun i => unobs E (VC i)) (fun s => unobs E (VS s)) (fun i a => F i (withEv E a)) (fun s a => G s (withEv E a))) := by
  unfold loadEvidence
  have key := foldlM_prefix (ε := Fault) (l := E) (b := repState card m VC VS F G) (f := fun st e => do
    if n ≤ e.1 then return st
    else
      let clq ← reduceTables e.1 e.2 st.clq
      let sep ← reduceTables e.1 e.2 st.sep
      return ⟨clq, sep⟩)
    (P := fun done st => st = repState card m (fun i => unobs done (VC i)) (fun s => unobs done (VS s)) (fun i a => F i (withEv done a))
      (fun s a => G s (withEv done a))) ?_ ?_
  · obtain ⟨st, e, rfl⟩ := key
    exact e
  · unfold unobs repState
    simp only [List.map_nil, List.not_mem_nil, not_false_eq_true, decide_true, List.filter_true]
    rfl
  · rintro done e rest hl st rfl
    have he := hE e (by rw [hl]; simp)
    have nodC : ∀ i < m, (unobs done (VC i)).Nodup := fun i hi => (hn i hi).filter _
    have nodS : ∀ s < m - 1, (unobs done (VS s)).Nodup := fun s hs => (hn' s (by omega)).filter _
    by_cases hge : n ≤ e.1
    · rw [if_pos hge]
      refine ⟨_, rfl, ?_⟩
      have key : ∀ {vs : List Nat} {f : Assignment → K}, vs.Nodup → (∀ v ∈ vs, v < n) → DependsOn f vs →
          fromFn card (unobs done vs) (fun a => f (withEv done a)) = fromFn card (unobs (done ++ [e]) vs) (fun a => f (withEv (done ++ [e]) a)) := by
        intro vs f hnd hv hf
        have h1 : e.1 ∉ vs := fun hm => by have := hv _ hm; omega
        rw [← unobs_snoc hnd, List.erase_of_not_mem (fun hm => h1 (mem_unobs.1 hm).1)]
        congr 1
        funext a
        apply hf
        intro v hm
        rw [withEv_append]
        apply withEv_agree
        show a v = a.set e.1 e.2 v
        unfold Assignment.set
        rw [if_neg (fun h : v = e.1 => h1 (by rw [← h]; exact hm))]
      unfold repState
      rw [tab_congr (fun i hi => key (hn i hi) (hlt i hi) (hd i hi)),
        tab_congr (fun s hs => key (hn' s (by omega)) (hlt' s (by omega)) (hd' s (by omega)))]
    · rw [if_neg hge]
      unfold repState
      simp only []
      rw [reduceTables_eq nodC (fun i hi v hv => hp i hi v (mem_unobs.1 hv).1) (fun i hi => dep_withEv (hd i hi)) (he (by omega)), ok_bind,
        reduceTables_eq (m := m - 1) nodS (fun s hs v hv => hp' s (by omega) v (mem_unobs.1 hv).1)
          (fun s hs => dep_withEv (hd' s (by omega))) (he (by omega)), ok_bind]
      refine ⟨_, rfl, ?_⟩
      congr 1
      · apply tab_congr
        intro i hi
        rw [unobs_snoc (hn i hi)]
        simp only [withEv_append]
        rfl
      · apply tab_congr
        intro s hs
        rw [unobs_snoc (hn' s (by omega))]
        simp only [withEv_append]
        rfl

/-! ### Propagation -/

section

variable [Field K] [LinearOrder K] [IsStrictOrderedRing K] {N : Net} {card : Nat → Nat} {pts : List (Table K)} {J : JTree K} {T : JTShape}
  {L : Levels} {r : Nat} {lev : JNode → Nat} {par ch : Nat → Nat} {F : Nat → Assignment → K}

theorem Built.stored_lt (hb : Built N card pts J T L r lev par ch F) {k v : Nat} (hv : v ∈ storedVars T L.marks k) : v < N.nodes.length := by
  have hclq : ∀ i, v ∈ T.cliques.getD i [] → v < N.nodes.length := by
    intro i hi
    by_cases h : i < T.cliques.length
    · rw [getD_of_lt h] at hi
      exact hb.facts.lt _ (List.getElem_mem h) v hi
    · rw [List.getD_eq_getElem?_getD, List.getElem?_eq_none (by omega)] at hi
      simp at hi
  unfold storedVars at hv
  split at hv
  · rw [List.mem_append, List.mem_filter] at hv
    rcases hv with hv | hv
    · exact hclq _ hv.1
    · exact hclq _ (mem_commonVars.1 hv).1
  · exact hclq _ hv

theorem Built.repOK (hb : Built N card pts J T L r lev par ch F) (hcard : ∀ i < N.nodes.length, 0 < card i) (E : List (Nat × Nat)) :
    RepOK card T.cliques.length (fun i => unobs E (storedVars T L.marks i)) (fun s => unobs E (sepVars T s)) par ch := by
  refine ⟨fun i => (storedVars_nodup hb.facts).filter _, fun i v hv => hcard v (hb.stored_lt (mem_unobs.1 hv).1), ?_, ?_, ?_, ?_⟩
  · intro s hs
    refine ⟨unobs E ((T.cliques.getD (ch s) []).filter (fun v => v ∉ sepVars T s)), ?_⟩
    show unobs E (storedVars T L.marks (ch s)) = _
    unfold storedVars
    rw [hb.plan.up_ch s hs]
    exact List.filter_append _ _
  · intro s hs v hv
    obtain ⟨h1, h2⟩ := mem_unobs.1 hv
    exact mem_unobs.2 ⟨(hb.plan.mem_stored (hb.plan.par_end s hs |>.lt hb.shapeOK)).2 ((hb.plan.sep_sub hs).2 v h1), h2⟩
  · intro s hs; exact (hb.plan.par_end s hs).lt hb.shapeOK
  · intro s hs; exact (hb.plan.ch_end s hs).lt hb.shapeOK

theorem Built.jdep (hb : Built N card pts J T L r lev par ch F) : DependsOn (joint pts) (List.range N.nodes.length) := by
  have e : joint pts = fun a => ∏ i ∈ Finset.range T.cliques.length, F i a := by
    funext a
    exact (hb.prod a).symm
  rw [e]
  apply DependsOn.finprod
  intro i hi
  refine (hb.dep i).mono (fun v hv => List.mem_range.2 (hb.stored_lt (k := i) ?_))
  exact (hb.plan.mem_stored (Finset.mem_range.1 hi)).2 hv

theorem value_nonneg {T : Table K} (h : ∀ x ∈ T.pot, 0 ≤ x) (a : Assignment) : 0 ≤ value T a := by
  unfold value
  rw [List.getD_eq_getElem?_getD]
  cases hx : T.pot[rank T.dims (T.vars.map a)]? with
  | none => exact le_rfl
  | some x => exact h x (List.mem_of_getElem? hx)

theorem Built.nonneg (hb : Built N card pts J T L r lev par ch F) (hnn : ∀ T ∈ pts, ∀ x ∈ T.pot, 0 ≤ x) (i : Nat) (a : Assignment) : 0 ≤ F i a :=
  hb.closed (fun x => 0 ≤ x) zero_le_one (fun _ _ h1 h2 => mul_nonneg h1 h2) (fun T hT a => value_nonneg (hnn T hT) a) i a

/-- The context of a propagation. -/
theorem Built.ctx (hb : Built N card pts J T L r lev par ch F) (hcard : ∀ i < N.nodes.length, 0 < card i) (hnn : ∀ T ∈ pts, ∀ x ∈ T.pot, 0 ≤ x)
    {E : List (Nat × Nat)}
    (hmass : sumOut card (unobs E (List.range N.nodes.length)) (fun a => joint pts (withEv E a)) (fun _ => 0) ≠ 0) :
    Ctx card T L r lev par ch (fun i => unobs E (storedVars T L.marks i)) (fun s => unobs E (sepVars T s))
      (unobs E (List.range N.nodes.length)) (fun a => joint pts (withEv E a)) := by
  have hJ : DependsOn (fun a => joint pts (withEv E a)) (unobs E (List.range N.nodes.length)) := dep_withEv hb.jdep
  refine ⟨hb.plan, hb.repOK hcard E, ?_, ?_⟩
  · intro s j v hs hj hlev hne h1 h2
    obtain ⟨h1, h3⟩ := mem_unobs.1 h1
    obtain ⟨h2, _⟩ := mem_unobs.1 h2
    have hch := (hb.plan.ch_end s hs).lt hb.shapeOK
    have h1' := (hb.plan.mem_stored hch).1 h1
    have h2' := (hb.plan.mem_stored hj).1 h2
    refine mem_unobs.2 ⟨(mem_sepVars_iff (hb.plan.par_end s hs) (hb.plan.ch_end s hs) (hb.plan.par_ne s hs)).2 ⟨?_, h1'⟩, h3⟩
    exact hb.plan.rip hb.shapeOK hs hj hlev hne h1' h2'
  · refine ⟨List.nodup_range.filter _, ?_, fun i => (storedVars_nodup hb.facts).filter _, ?_, hJ, ?_, ?_⟩
    · intro v hv
      exact hcard v (List.mem_range.1 (mem_unobs.1 hv).1)
    · intro i v hv
      obtain ⟨h1, h2⟩ := mem_unobs.1 hv
      exact mem_unobs.2 ⟨List.mem_range.2 (hb.stored_lt h1), h2⟩
    · intro a
      rw [joint, ← hb.prod]
      exact Finset.prod_nonneg (fun i _ => hb.nonneg hnn i _)
    · intro a
      rw [sumOut_const hJ a (fun _ => 0)]
      exact hmass

theorem Built.propagate (hb : Built N card pts J T L r lev par ch F) (hcard : ∀ i < N.nodes.length, 0 < card i)
    (hnet : NetInv N) (hnn : ∀ T ∈ pts, ∀ x ∈ T.pot, 0 ≤ x) {E : List (Nat × Nat)} (hE : ∀ e ∈ E, e.1 < N.nodes.length → e.2 < card e.1)
    (hmass : sumOut card (unobs E (List.range N.nodes.length)) (fun a => joint pts (withEv E a)) (fun _ => 0) ≠ 0) :
    ∃ F' G', FastPGM.propagate J.levels J.n E J.state =
        .ok (repState card T.cliques.length (fun i => unobs E (storedVars T L.marks i)) (fun s => unobs E (sepVars T s)) F' G') ∧
      (∀ k, DependsOn (F' k) (unobs E (storedVars T L.marks k))) ∧
      (∀ k, k < T.cliques.length → NormAt card (fun i => unobs E (storedVars T L.marks i)) F' k) ∧
      ∀ k, k < T.cliques.length → Calibrated card (unobs E (List.range N.nodes.length)) (fun i => unobs E (storedVars T L.marks i))
        (fun a => joint pts (withEv E a)) F' k := by
  have hctx := hb.ctx hcard hnn hmass
  have hdepS : ∀ i, DependsOn (F i) (T.cliques.getD i []) := hb.dep
  have hdep : ∀ i, i < T.cliques.length → DependsOn (F i) (storedVars T L.marks i) := fun i hi =>
    (hb.dep i).mono (fun v hv => (hb.plan.mem_stored hi).2 hv)
  have hsub : ∀ s, s + 1 < T.cliques.length → ∀ v ∈ sepVars T s, v ∈ storedVars T L.marks (par s) := fun s hs v hv =>
    (hb.plan.mem_stored ((hb.plan.par_end s hs).lt hb.shapeOK)).2 ((hb.plan.sep_sub hs).2 v hv)
  unfold FastPGM.propagate
  rw [hb.levels, hb.n, hb.state, loadEvidence_eq (fun i _ => storedVars_nodup hb.facts) (fun i _ v hv => hcard v (hb.stored_lt hv)) hdep
    (fun i _ v hv => hb.stored_lt hv) (fun s _ => nodup_of_sorted (sepVars_sorted hb.facts s))
    (fun s hs v hv => hcard v (hb.stored_lt (hsub s hs v hv))) (fun s _ _ _ _ => rfl) (fun s hs v hv => hb.stored_lt (hsub s hs v hv)) hE, ok_bind]
  -- outside the cliques the functions do not matter
  let F0 : Nat → Assignment → K := fun i a => if i < T.cliques.length then F i (withEv E a) else 1
  have hF0 : ∀ i, i < T.cliques.length → F0 i = fun a => F i (withEv E a) := fun i hi => by
    funext a; show (if i < _ then _ else _) = _; rw [if_pos hi]
  have hF0dep : ∀ i, DependsOn (F0 i) (unobs E (storedVars T L.marks i)) := by
    intro i
    by_cases hi : i < T.cliques.length
    · rw [hF0 i hi]; exact dep_withEv (hdep i hi)
    · intro a b _
      show (if i < _ then _ else _) = (if i < _ then _ else _)
      rw [if_neg hi, if_neg hi]
  have hF0nn : ∀ i a, 0 ≤ F0 i a := by
    intro i a
    show 0 ≤ (if i < _ then _ else _)
    split
    · exact hb.nonneg hnn i _
    · exact zero_le_one
  have hcoll : CollectInv card (unobs E (List.range N.nodes.length)) (fun i => unobs E (storedVars T L.marks i)) (fun a => joint pts (withEv E a))
      (Finset.range T.cliques.length) F0 := by
    refine ⟨hF0dep, hF0nn, 1, zero_lt_one, fun a _ => ?_⟩
    rw [one_mul]
    have hall : marg card (unobs E (List.range N.nodes.length)) (unionVars (fun i => unobs E (storedVars T L.marks i)) (Finset.range T.cliques.length))
        (fun a => joint pts (withEv E a)) a = joint pts (withEv E a) := by
      unfold marg
      rw [List.filter_eq_nil_iff.2]
      · rfl
      · intro v hv
        simp only [decide_eq_true_eq, not_not]
        obtain ⟨h1, h2⟩ := mem_unobs.1 hv
        obtain ⟨c, hc, hvc, _⟩ := hb.facts.family hnet (List.mem_range.1 h1)
        obtain ⟨i, hi, rfl⟩ := List.getElem_of_mem hc
        exact ⟨i, Finset.mem_range.2 hi, mem_unobs.2 ⟨(hb.plan.mem_stored hi).2 (by rw [getD_of_lt hi]; exact hvc), h2⟩⟩
    rw [hall]
    unfold joint
    rw [← hb.prod]
    exact Finset.prod_congr rfl (fun i hi => by rw [hF0 i (Finset.mem_range.1 hi)])
  have hz : ∀ k, k < T.cliques.length → sumOut card (unobs E (storedVars T L.marks k)) (F0 k) (fun _ => 0) ≠ 0 := fun k hk =>
    hcoll.sum_ne_zero hctx.setup (Finset.mem_range.2 hk) _
  -- normalisation
  let F1 : Nat → Assignment → K := fun k a =>
    if k < T.cliques.length then F0 k a / sumOut card (unobs E (storedVars T L.marks k)) (F0 k) (fun _ => 0) else 1
  have hF1 : ∀ i, i < T.cliques.length → F1 i = fun a => F0 i a / sumOut card (unobs E (storedVars T L.marks i)) (F0 i) (fun _ => 0) := fun i hi => by
    funext a; show (if i < _ then _ else _) = _; rw [if_pos hi]
  have hnorm : (repState card T.cliques.length (fun i => unobs E (storedVars T L.marks i)) (fun s => unobs E (sepVars T s))
      (fun i a => F i (withEv E a)) (fun s a => (1 : K))).clq.mapM normalize =
      .ok (tab T.cliques.length (fun i => fromFn card (unobs E (storedVars T L.marks i)) (F1 i))) := by
    apply mapM_tab
    intro i hi
    simp only []
    rw [← hF0 i hi, normalize_fromFn (show (unobs E (storedVars T L.marks i)).Nodup from (storedVars_nodup hb.facts).filter _) (hF0dep i) (fun _ => 0) (hz i hi), hF1 i hi]
  rw [hnorm, ok_bind]
  have hzpos : ∀ k, k < T.cliques.length → 0 < sumOut card (unobs E (storedVars T L.marks k)) (F0 k) (fun _ => 0) := fun k hk =>
    lt_of_le_of_ne (sumOut_nonneg (hF0nn k) _) (Ne.symm (hz k hk))
  have hcoll1 : CollectInv card (unobs E (List.range N.nodes.length)) (fun i => unobs E (storedVars T L.marks i)) (fun a => joint pts (withEv E a))
      (Finset.range T.cliques.length) F1 := by
    obtain ⟨c, hc, hp⟩ := hcoll.prod
    refine ⟨?_, ?_, c / ∏ k ∈ Finset.range T.cliques.length, sumOut card (unobs E (storedVars T L.marks k)) (F0 k) (fun _ => 0),
      div_pos hc (Finset.prod_pos (fun k hk => hzpos k (Finset.mem_range.1 hk))), ?_⟩
    · intro i
      by_cases hi : i < T.cliques.length
      · rw [hF1 i hi]; exact dep_div (hF0dep i) _
      · intro a b _
        show (if i < _ then _ else _) = (if i < _ then _ else _)
        rw [if_neg hi, if_neg hi]
    · intro i a
      by_cases hi : i < T.cliques.length
      · rw [hF1 i hi]; exact div_nonneg (hF0nn i a) (hzpos i hi).le
      · show 0 ≤ (if i < _ then _ else _)
        rw [if_neg hi]; exact zero_le_one
    · intro a ha
      rw [div_mul_eq_mul_div, ← hp a ha, ← Finset.prod_div_distrib]
      exact Finset.prod_congr rfl (fun i hi => by rw [hF1 i (Finset.mem_range.1 hi)])
  obtain ⟨F2, G2, e2, h2⟩ := collect_spec hctx hcoll1 (fun k hk a => by
    rw [hF1 k hk, sumOut_div_const, sumOut_const (hF0dep k) a (fun _ => 0), div_self (hz k hk)])
  obtain ⟨F3, G3, e3, h3⟩ := distribute_spec hctx (DInv.start hctx h2)
  refine ⟨F3, G3, ?_, h3⟩
  have e2' : collect L (JState.mk (tab T.cliques.length (fun i => fromFn card (unobs E (storedVars T L.marks i)) (F1 i)))
      (repState card T.cliques.length (fun i => unobs E (storedVars T L.marks i)) (fun s => unobs E (sepVars T s))
        (fun i a => F i (withEv E a)) (fun s a => (1 : K))).sep) = _ := e2
  rw [e2', ok_bind, e3]

/-! ### Queries -/

theorem selectClique_some {tables : List (Table K)} {q : Nat} {B : Table K} (h : selectClique tables q = some B) : B ∈ tables ∧ q ∈ B.vars := by
  have key : ∀ (l : List (Table K)) (best : Option (Table K)) (P : Table K → Prop), (∀ T ∈ l, q ∈ T.vars → P T) → (∀ T, best = some T → P T) →
      ∀ B, l.foldl (fun best T =>
        match best with
        | some B => if B.vars.length ≤ (sortedSet T.vars).length then best else if q ∈ T.vars then some T else best
        | none => if q ∈ T.vars then some T else best) best = some B → P B := by
    intro l
    induction l with
    | nil => intro best P _ hb B hB; exact hb B hB
    | cons T l ih =>
      intro best P hl hb B hB
      rw [List.foldl_cons] at hB
      refine ih _ P (fun T' hT' => hl T' (by simp [hT'])) ?_ B hB
      intro T' hT'
      cases best with
      | none =>
        simp only [] at hT'
        split at hT'
        · rename_i hq; cases hT'; exact hl T (by simp) hq
        · cases hT'
      | some C =>
        simp only [] at hT'
        split at hT'
        · exact hb _ hT'
        · split at hT'
          · rename_i hq; cases hT'; exact hl T (by simp) hq
          · exact hb _ hT'
  exact key tables none (fun B => B ∈ tables ∧ q ∈ B.vars) (fun T hT hq => ⟨hT, hq⟩) (by simp) B h

theorem selectClique_ne_none {tables : List (Table K)} {q : Nat} (h : ∃ T ∈ tables, q ∈ T.vars) : selectClique tables q ≠ none := by
  have key : ∀ (l : List (Table K)) (best : Option (Table K)), (best ≠ none ∨ ∃ T ∈ l, q ∈ T.vars) →
      l.foldl (fun best T =>
        match best with
        | some B => if B.vars.length ≤ (sortedSet T.vars).length then best else if q ∈ T.vars then some T else best
        | none => if q ∈ T.vars then some T else best) best ≠ none := by
    intro l
    induction l with
    | nil => rintro best (h | ⟨_, h, _⟩)
             · exact h
             · simp at h
    | cons T l ih =>
      intro best hbest
      rw [List.foldl_cons]
      apply ih
      cases best with
      | some C =>
        left
        simp only []
        split
        · simp
        · split <;> simp
      | none =>
        simp only []
        by_cases hq : q ∈ T.vars
        · left; rw [if_pos hq]; simp
        · right
          obtain ⟨T', hT', hq'⟩ := hbest.resolve_left (by simp)
          rcases List.mem_cons.1 hT' with rfl | h'
          · exact absurd hq' hq
          · exact ⟨T', h', hq'⟩
  exact key tables none (Or.inr h)

theorem sumOut_first {V : List Nat} (hn : V.Nodup) {q : Nat} (hq : q ∈ V) {f : Assignment → K} {a : Assignment} :
    sumOut card [q] (sumOut card (V.filter (fun v => v ∉ [q])) f) a = sumOut card V f a := by
  rw [← sumOut_append_eq]
  apply sumOut_perm_eq
  rw [List.perm_ext_iff_of_nodup ?_ hn]
  · intro v
    simp only [List.mem_append, List.mem_filter, decide_eq_true_eq, List.mem_singleton]
    constructor
    · rintro (rfl | h)
      · exact hq
      · exact h.1
    · intro h
      by_cases hv : v = q
      · exact Or.inl hv
      · exact Or.inr ⟨h, hv⟩
  · rw [List.nodup_append]
    refine ⟨by simp, hn.filter _, ?_⟩
    rintro a ha b hb rfl
    simp only [List.mem_filter, decide_eq_true_eq] at hb
    exact hb.2 ha

omit [Field K] in
theorem asgOf_single {q x : Nat} (_hx : x < card q) : asgOf [q] (digits [card q] x) q = x := by
  simp [digits, asgOf]

theorem marginalProbability_eq {m : Nat} {VC VS : Nat → List Nat} {V : List Nat} {Jf : Assignment → K} {F G : Nat → Assignment → K}
    (hs : MsgSetup card V VC Jf) (hdep : ∀ k, DependsOn (F k) (VC k)) (hnorm : ∀ k, k < m → NormAt card VC F k)
    (hcal : ∀ k, k < m → Calibrated card V VC Jf F k) {q : Nat} (hq : ∃ k, k < m ∧ q ∈ VC k) :
    marginalProbability card (repState card m VC VS F G) q =
      .ok (fromFn card [q] (fun a => sumOut card (V.filter (fun v => v ∉ [q])) Jf a / sumOut card V Jf (fun _ => 0))) := by
  classical
  have hpos : ∀ k, ∀ v ∈ VC k, 0 < card v := fun k v hv => hs.pos v (hs.csub k v hv)
  unfold marginalProbability
  cases hsel : selectClique (repState card m VC VS F G).clq q with
  | none =>
    obtain ⟨k, hk, hqk⟩ := hq
    refine absurd hsel (selectClique_ne_none ⟨fromFn card (VC k) (F k), ?_, hqk⟩)
    exact List.mem_map.2 ⟨k, List.mem_range.2 hk, rfl⟩
  | some B =>
    obtain ⟨hB, hqB⟩ := selectClique_some hsel
    obtain ⟨k, hk, rfl⟩ := List.mem_map.1 hB
    rw [List.mem_range] at hk
    have hqk : q ∈ VC k := hqB
    obtain ⟨c, hc, hsum, hF⟩ := (hcal k hk).sum_ne_zero hs (hdep k) (fun _ => 0)
    have hc1 : c * sumOut card V Jf (fun _ => 0) = 1 := by rw [← hsum]; exact hnorm k hk _
    have hZ : sumOut card V Jf (fun _ => 0) ≠ 0 := hs.mass _
    have hcZ : c = 1 / sumOut card V Jf (fun _ => 0) := by rw [eq_div_iff hZ]; exact hc1
    have hM : ∀ a, InRange card V a → sumOut card ((VC k).filter (fun v => v ∉ [q])) (F k) a =
        sumOut card (V.filter (fun v => v ∉ [q])) Jf a / sumOut card V Jf (fun _ => 0) := by
      intro a ha
      rw [sumOut_congr_range hF ha, sumOut_const_mul]
      have := marg_sub hs (k := k) (S := [q]) (by simpa using hqk) a
      rw [hcZ, one_div_mul_eq_div]
      congr 1
      rw [← this]
      unfold marg
      congr 1
      apply List.filter_congr
      intro v _
      simp only [decide_eq_decide]
    have hMdep : DependsOn (sumOut card ((VC k).filter (fun v => v ∉ [q])) (F k)) [q] :=
      sumOut_dep (hdep k) (fun v hv => by
        by_cases h : v ∈ [q]
        · exact Or.inr h
        · exact Or.inl (by rw [List.mem_filter, decide_eq_true_eq]; exact ⟨hv, h⟩))
    have hRdep : DependsOn (fun a => sumOut card (V.filter (fun v => v ∉ [q])) Jf a / sumOut card V Jf (fun _ => 0)) [q] := by
      apply dep_div
      exact sumOut_dep hs.jdep (fun v hv => by
        by_cases h : v ∈ [q]
        · exact Or.inr h
        · exact Or.inl (by rw [List.mem_filter, decide_eq_true_eq]; exact ⟨hv, h⟩))
    -- only the value of `q` matters
    have hM' : ∀ a, InRange card [q] a → sumOut card ((VC k).filter (fun v => v ∉ [q])) (F k) a =
        sumOut card (V.filter (fun v => v ∉ [q])) Jf a / sumOut card V Jf (fun _ => 0) := by
      intro a ha
      have hin : InRange card V (fun v => if v = q then a q else 0) := by
        intro v hv
        show (if v = q then a q else 0) < card v
        by_cases h : v = q
        · subst h; rw [if_pos rfl]; exact ha v (by simp)
        · rw [if_neg h]; exact hs.pos v hv
      have hag : ∀ v ∈ [q], a v = (fun v => if v = q then a q else 0) v := by
        intro v hv
        rw [List.mem_singleton] at hv
        subst hv
        simp
      rw [hMdep a _ hag, hM _ hin]
      exact (hRdep a _ hag).symm
    simp only []
    by_cases h1 : (fromFn card (VC k) (F k)).vars.length = 1
    · rw [if_pos h1]
      have hVC : VC k = [q] := by
        obtain ⟨x, hx⟩ := List.length_eq_one_iff.1 (show (VC k).length = 1 from h1)
        rw [hx] at hqk ⊢
        rw [List.mem_singleton.1 hqk]
      congr 1
      rw [hVC]
      apply fromFn_congr
      intro a ha
      rw [← hM' a ha, hVC]
      simp [sumOut]
    · rw [if_neg h1]
      have e := tableMarginalization_fromFn (card := card) (vs := [q]) (hs.cnodup k) (hpos k) (by simpa using hqk) (by simp) (hdep k)
      rw [show [card q] = [q].map card from rfl, e, ok_bind, fromFn_congr hM']
      have hone : sumOut card [q] (fun a => sumOut card (V.filter (fun v => v ∉ [q])) Jf a / sumOut card V Jf (fun _ => 0)) (fun _ => 0) = 1 := by
        rw [sumOut_div_const]
        have : sumOut card [q] (sumOut card (V.filter (fun v => v ∉ [q])) Jf) (fun _ => 0) = sumOut card V Jf (fun _ => 0) :=
          sumOut_first hs.nodup (hs.csub k q hqk)
        rw [this, div_self hZ]
      rw [normalize_fromFn (by simp) hRdep (fun _ => 0) (by rw [hone]; exact one_ne_zero), hone]
      simp only [div_one]

/-! ### The posterior -/

theorem exists_of_sumOut_ne_zero {us : List Nat} {f : Assignment → K} {a : Assignment} (h : sumOut card us f a ≠ 0) :
    ∃ b, InRange card us b ∧ f b ≠ 0 := by
  by_contra hcon
  push Not at hcon
  apply h
  rw [sumOut_congr (g := fun _ => 0) (fun b hb _ => hcon b hb)]
  have := sumOut_const_mul (card := card) (us := us) (f := fun _ => (0 : K)) 0 a
  simpa using this

theorem weight_agrees {n : Nat} {p : Assignment → K} (hp : DependsOn p (List.range n)) {E : List (Nat × Nat)} (hn : (E.map Prod.fst).Nodup)
    (hE : ∀ e ∈ E, e.1 < n ∧ e.2 < card e.1) (event : Assignment → Prop) [DecidablePred event] (hev : ∀ a, event a ↔ Agrees E a) (a0 : Assignment) :
    weight card n p event = sumOut card (unobs E (List.range n)) (fun a => p (withEv E a)) a0 := by
  have hwe : ∀ a, Agrees E (withEv E a) := fun a e he => withEv_eq hn he a
  have hev' : ∀ b, event b ↔ (E.map Prod.fst).map b = (E.map Prod.fst).map (withEv E a0) := by
    intro b
    rw [hev, List.map_map, List.map_map, List.map_inj_left]
    constructor
    · intro h e he
      show b e.1 = withEv E a0 e.1
      rw [h e he, withEv_eq hn he]
    · intro h e he
      have := h e he
      simp only [Function.comp] at this
      rw [this, withEv_eq hn he]
  have hdep : DependsOn (fun a => if event a then p a else 0) (List.range n) := by
    intro a b hab
    have h1 : event a ↔ event b := by
      rw [hev, hev]
      unfold Agrees
      refine forall_congr' (fun e => imp_congr_right (fun he => ?_))
      rw [hab e.1 (List.mem_range.2 (hE e he).1)]
    simp only []
    by_cases h : event a
    · rw [if_pos h, if_pos (h1.1 h), hp a b hab]
    · rw [if_neg h, if_neg (fun hb => h (h1.2 hb))]
  unfold weight
  rw [sumOut_const hdep _ (withEv E a0)]
  have e1 : sumOut card (List.range n) (fun a => if event a then p a else 0) (withEv E a0) =
      sumOut card (List.range n) (fun b => if (E.map Prod.fst).map b = (E.map Prod.fst).map (withEv E a0) then p b else 0) (withEv E a0) := by
    apply sumOut_congr
    intro b _ _
    by_cases h : event b
    · rw [if_pos h, if_pos ((hev' b).1 h)]
    · rw [if_neg h, if_neg (fun hb => h ((hev' b).2 hb))]
  rw [e1, sumOut_indicator List.nodup_range]
  · show sumOut card (unobs E (List.range n)) p (withEv E a0) = _
    rw [← sumOut_agree (F := fun a => p (withEv E a)) (a := withEv E a0) (dep_withEv hp) (fun v hv hnv => absurd hv hnv)]
    apply sumOut_congr
    intro b _ hb
    congr 1
    funext v
    by_cases hv : v ∈ E.map Prod.fst
    · rw [hb v (fun h => (mem_unobs.1 h).2 hv)]
      exact withEv_of_mem hv a0 b
    · rw [withEv_of_notMem hv]
  · intro v _ hv
    obtain ⟨e, he, rfl⟩ := List.mem_map.1 hv
    rw [withEv_eq hn he]
    exact (hE e he).2
  · intro v hv
    obtain ⟨e, he, rfl⟩ := List.mem_map.1 hv
    exact List.mem_range.2 (hE e he).1

theorem posterior_eq {n : Nat} {p : Assignment → K} (hp : DependsOn p (List.range n)) {E : List (Nat × Nat)} (hn : (E.map Prod.fst).Nodup)
    (hE : ∀ e ∈ E, e.1 < n ∧ e.2 < card e.1) {q x : Nat} (hq : q < n) (hx : x < card q) (hqE : q ∉ E.map Prod.fst) {a : Assignment} (ha : a q = x) :
    posterior card n p E q x = sumOut card ((unobs E (List.range n)).filter (fun v => v ∉ [q])) (fun a => p (withEv E a)) a /
      sumOut card (unobs E (List.range n)) (fun a => p (withEv E a)) (fun _ => 0) := by
  unfold posterior
  rw [weight_agrees hp hn hE (Agrees E) (fun _ => Iff.rfl) (fun _ => 0)]
  congr 1
  have hn' : ((E ++ [(q, x)]).map Prod.fst).Nodup := by
    rw [List.map_append, List.nodup_append]
    refine ⟨hn, by simp, ?_⟩
    rintro v hv w hw rfl
    simp only [List.map_cons, List.map_nil, List.mem_singleton] at hw
    exact hqE (hw ▸ hv)
  have hE' : ∀ e ∈ E ++ [(q, x)], e.1 < n ∧ e.2 < card e.1 := by
    intro e he
    rcases List.mem_append.1 he with he | he
    · exact hE e he
    · rw [List.mem_singleton.1 he]; exact ⟨hq, hx⟩
  rw [weight_agrees hp hn' hE' (fun a => Agrees E a ∧ a q = x) (fun b => by
    constructor
    · rintro ⟨h1, h2⟩ e he
      rcases List.mem_append.1 he with he | he
      · exact h1 e he
      · rw [List.mem_singleton.1 he]; exact h2
    · intro h
      exact ⟨fun e he => h e (by simp [he]), h (q, x) (by simp)⟩) a]
  have e1 : unobs (E ++ [(q, x)]) (List.range n) = (unobs E (List.range n)).filter (fun v => v ∉ [q]) := by
    unfold unobs
    rw [List.filter_filter]
    apply List.filter_congr
    intro v _
    rw [Bool.eq_iff_iff]
    simp only [Bool.and_eq_true, decide_eq_true_eq, List.map_append, List.mem_append, List.map_cons, List.map_nil, List.mem_singleton, not_or]
    tauto
  rw [e1]
  apply sumOut_congr
  intro b _ hb
  congr 1
  rw [withEv_append]
  congr 1
  funext v
  show b.set q x v = b v
  unfold Assignment.set
  by_cases hv : v = q
  · subst hv
    rw [if_pos rfl, hb v (by simp), ha]
  · rw [if_neg hv]

end

end FastPGM
