import Verif.Model.RoundedPipeline
import Verif.Lemmas.RoundedPipeline
import Verif.Props.RoundedLearning

/-!
C120: classification from two CSV files with every number of type `double` in machine arithmetic.
-/

namespace FastPGM

open Spec

section rooted

variable {L : Type} [Field L] [LinearOrder L]

/-- Whatever structure learning in machine arithmetic returns, with ROOT, is fit for parameter learning and the junction tree. -/
theorem structLearnR_rooted {o : DoubleOps L} {X : Execution L} {alpha : L} {g : Nat} {dag : Bool} {D : Dataset} {vals : List Nat}
    (hids : D.valueIds.length = D.numVars) (hvals : D.numValues = vals.map (fun v : Nat => (v : Int))) (hlen : vals.length = D.numVars)
    (hpos : ∀ v ∈ vals, 0 < v) {N : Net} {m : Nat} (hN : structLearnFullR o X alpha g dag true D = .ok (N, m)) :
    NetInv N ∧ N.nodes.length = D.numVars + 1 ∧ N.nodes.map NodeS.dim = vals ++ [2] ∧ NetShape N.card N ∧ WeaklyConnected N ∧
      (∀ s, N.nodes[D.numVars]? = some s → s.parents = []) ∧
      (∀ (i : Nat) s, N.nodes[i]? = some s → D.numVars ∈ s.parents → s.parents = [D.numVars]) := by
  have hd : assignNodeInformation D = .ok vals := by
    have h := mapM_ok (l := List.range D.numVars) (f := fun i => (do
      let _ ← rd D.valueIds i
      let size ← rd D.numValues i
      return size.toNat : Except Fault Nat)) (g := fun i => vals.getD i 0) (by
        intro i hi
        rw [List.mem_range] at hi
        rw [rd_getElem (by omega), ok_bind, rd_getElem (show i < D.numValues.length by rw [hvals]; simp; omega), ok_bind]
        simp only [hvals, List.getElem_map, Int.toNat_natCast, pure_eq_ok]
        rw [List.getD_eq_getElem?_getD, List.getElem?_eq_getElem (by omega)]
        rfl)
    unfold assignNodeInformation
    rw [h]
    congr 1
    rw [← hlen]
    exact (eq_tab_getD 0).symm
  unfold structLearnFullR at hN
  rw [hd, ok_bind] at hN
  obtain ⟨_, -, hN⟩ := bind_ok hN
  obtain ⟨k, _, hN⟩ := bind_ok hN
  obtain ⟨N0, h0, hN⟩ := bind_ok hN
  rw [if_pos rfl] at hN
  obtain ⟨roots, N', h1, h2, h3, h4, h5, h6, h7, h8, h9⟩ := rooted_shape (orientPhase_keep h0) (orientPhase_dims h0) hpos
  rw [h1, ok_bind, h2, ok_bind] at hN
  cases hN
  rw [hlen] at h4 h8 h9
  exact ⟨h3, h4, h5, h6, h7, h8, h9⟩

/-- The loaded files of the command, and the network learned from the first. -/
theorem files_rooted {o : DoubleOps L} {X : Execution L} {alpha : L} {g n : Nat} {names names' : List Str} {train test : List (List Str)}
    {trainFile testFile : Str} (hf : TwoFiles n names train trainFile names' test testFile) {N : Net} {m : Nat}
    (hN : (do structLearnFullR o X alpha g true true (← loadCSVTraining trainFile true 0)) = .ok (N, m)) :
    ∃ D T : Dataset, loadCSVTraining trainFile true 0 = .ok D ∧ D.numVars = n ∧ D.numInstance = train.length ∧
      D.forTesting.loadCSVTesting testFile true 0 = .ok T ∧ T.classVar.toNat = 0 ∧ T.natRows = test.map (testCells train n) ∧
      structLearnFullR o X alpha g true true D = .ok (N, m) ∧ NetInv N ∧ N.nodes.length = n + 1 ∧ N.card = valuesOf train n ∧
      NetShape N.card N ∧ WeaklyConnected N ∧ (∀ s, N.nodes[n]? = some s → s.parents = []) ∧
      (∀ (i : Nat) s, N.nodes[i]? = some s → n ∈ s.parents → s.parents = [n]) ∧
      Columns N.card n D.natColumns (train.map (rowAssignment train)) ∧ ∀ i < n, 0 < valuesOf train n i := by
  obtain ⟨hn, f1, f2, f3, f4, f5, f6, f7, f8, f9⟩ := hf
  obtain ⟨D, hD, d1, d2, d3, d4, d5, d6, d7, d8, d9, d10⟩ := C50_encode hn f1 f2 f3 f4 f5 0
  have h1' : D.forTesting.numVars = n := d1
  have hload := C51_encode (D := D.forTesting) (by rw [h1']; exact hn) (by rw [h1']; exact Nat.le_of_eq d5.symm) f6 (by rw [h1']; exact f7)
    (by rw [h1']; exact f8) f9 0
  rw [hD, ok_bind] at hN
  have hmem : ∀ j, column train j ≠ [] := by
    intro j h
    exact f4 (List.map_eq_nil_iff.1 h)
  have hpos : ∀ j, 0 < (firstSeen (column train j)).length := by
    intro j
    obtain ⟨s, hs⟩ := List.exists_mem_of_ne_nil _ (hmem j)
    exact List.length_pos_of_mem (mem_firstSeen.2 hs)
  obtain ⟨s1, s2, s3, s4, s5, s6, s7⟩ := structLearnR_rooted (vals := (List.range n).map (fun j => (firstSeen (column train j)).length))
    (by rw [d5, d1]) (by rw [d7, List.map_map]; rfl) (by simp [d1]) (by
      intro v hv
      obtain ⟨j, _, rfl⟩ := List.mem_map.1 hv
      exact hpos j) hN
  rw [d1] at s2 s6 s7
  have hcard : N.card = valuesOf train n := by
    funext i
    unfold Net.card valuesOf
    rw [s3]
    by_cases h : i < n
    · rw [if_pos h, getD_snoc_lt (by simpa using h)]
      exact getD_tab h
    · rw [if_neg h]
      by_cases h' : i = n
      · subst h'
        rw [if_pos rfl]
        rw [List.getD_eq_getElem?_getD, List.getElem?_append_right (by simp)]
        simp
      · rw [if_neg h', List.getD_eq_getElem?_getD, List.getElem?_eq_none (by simp; omega)]
        rfl
  have hcol : Columns N.card n D.natColumns (train.map (rowAssignment train)) := by
    unfold Dataset.natColumns
    rw [d8]
    exact train_columns (fun j hj => by rw [hcard]; simp [valuesOf, hj])
  refine ⟨D, _, hD, d1, d2, hload, rfl, ?_, hN, s1, s2, hcard, s4, s5, s6, s7, hcol, fun i hi => by simpa [valuesOf, hi] using hpos i⟩
  unfold Dataset.natRows
  rw [h1']
  exact test_rows d6 test

end rooted

/-- The number of positions at which two lists of images agree. -/
theorem filter_range_map {α : Type} (l : List α) (a f : α → Nat) :
    ((List.range l.length).filter (fun i => decide ((l.map a)[i]? = (l.map f)[i]?))).length = l.countP (fun r => decide (a r = f r)) := by
  induction l using List.reverseRecOn with
  | nil => rfl
  | append_singleton l x ih =>
    rw [List.length_append, List.length_singleton, List.range_succ, List.filter_append, List.length_append, List.countP_append, ← ih]
    congr 1
    · refine congrArg List.length (List.filter_congr ?_)
      intro i hi
      rw [List.mem_range] at hi
      rw [List.map_append, List.map_append, List.getElem?_append_left (by simpa using hi), List.getElem?_append_left (by simpa using hi)]
    · by_cases h : a x = f x <;> simp [h]

section classify

variable {K : Type} [Field K] [LinearOrder K] [IsStrictOrderedRing K]

omit [IsStrictOrderedRing K] in
/-- All rows are predicted by the same tree. -/
theorem predictAll_const {ar : Arithmetic K} {J : JTree (Rounded ar)} {q : Nat} {α : Type} {e : α → List (Nat × Nat)} {f : α → Nat} (l : List α)
    (h20 : 20 ≤ l.length) (h : ∀ r ∈ l, J.predict (e r) q = .ok (f r, J)) : J.predictAll (l.map e) q = .ok (l.map f, J) := by
  have hne : (l.map e).length / 20 ≠ 0 := by rw [List.length_map]; omega
  unfold JTree.predictAll
  simp only [hne, if_false]
  have gen : ∀ (l : List α) (acc : List Nat), (∀ r ∈ l, J.predict (e r) q = .ok (f r, J)) →
      (l.map e).foldlM (fun (st : List Nat × JTree (Rounded ar)) E => do
        let (label, J) ← st.2.predict E q
        return (st.1 ++ [label], J)) (acc, J) = .ok (acc ++ l.map f, J) := by
    intro l
    induction l with
    | nil => intro acc _; simp
    | cons x l ih =>
      intro acc h
      rw [List.map_cons, List.foldlM_cons]
      simp only
      rw [h x (by simp), ok_bind, pure_eq_ok, ok_bind, ih _ (fun r hr => h r (by simp [hr]))]
      simp
  exact gen l [] h

/-- The quotient of two counts. -/
theorem ratio_rounded {ρ lo hi : K} {ar : Arithmetic K} (har : Accurate ar ρ lo hi) {c t : Nat} (hc : c ≤ t) (ht : 0 < t)
    (hlo : lo ≤ 1 / (t : K)) (hhi : 1 ≤ hi) :
    ∃ v : K, (c : Rounded ar) / (t : Rounded ar) = Rounded.num v ∧ v ≤ (c : K) / (t : K) * ρ ∧ (c : K) / (t : K) ≤ v * ρ := by
  have ht0 : (0 : K) < (t : K) := by exact_mod_cast ht
  rcases Nat.eq_zero_or_pos c with rfl | hc0
  · refine ⟨0, rounded_div_zero ?_, by simp, by simp⟩
    show (some ((0 : Nat) : K) : Option K) = some 0
    rw [Nat.cast_zero]
  have hc1 : (1 : K) ≤ (c : K) := by exact_mod_cast hc0
  have hct : (c : K) ≤ (t : K) := by exact_mod_cast hc
  obtain ⟨h1, h2⟩ := har.div (c : K) (t : K) (by linarith) ht0
  obtain ⟨v, ev⟩ := Option.ne_none_iff_exists'.1 (h2 (Or.inr ⟨hlo.trans (by gcongr), ((div_le_one ht0).2 hct).trans hhi⟩))
  obtain ⟨h3, h4⟩ := h1 v ev
  refine ⟨v, (rounded_div (fun h => ?_)).trans ev, h3, h4⟩
  have : (c : K) = 0 := Option.some.inj h
  linarith

/-- C120.  Classification in machine arithmetic, on two well-formed files with at least twenty test rows of known class.  If structure learning
returns a network, there are a number `bound` and a range that do not depend on the arithmetic of the tables and the junction tree: if that
arithmetic makes errors of at most a factor `ρ` and does not overflow or underflow in the range, and in every test row some value of the class is
more probable than all others by a factor greater than `ρ ^ (2 * bound)` under the product of the exact smoothed frequencies, then the printed
accuracy is the fraction of test rows with that class, up to one rounding. -/
theorem C120_classify {L : Type} [Field L] [LinearOrder L] {o : DoubleOps L} {X : Execution L} (hrnd : ∀ i j, X.rnd i j < 2)
    (horder : ∀ l, (X.order l).Perm l) (hcord : ∀ m, (X.cord m).Perm (List.range m)) {alpha : L} {g n : Nat} {names names' : List Str}
    {train test : List (List Str)} {trainFile testFile : Str} (hf : TwoFiles n names train trainFile names' test testFile) {N : Net} {m : Nat}
    (hN : (do structLearnFullR o X alpha g true true (← loadCSVTraining trainFile true 0)) = .ok (N, m)) (h20 : 20 ≤ test.length)
    (hclass : ∀ r ∈ test, Known train r 0) :
    ∃ pts : List (Table K), pts.length = n + 1 ∧
      (∀ i < n, ∃ s T, N.nodes[i]? = some s ∧ pts[i]? = some T ∧
        IsFrequencyTable (valuesOf train n) ((train.map (rowAssignment train)).mapIdx (fun j r => r.set n (X.rnd i j))) 1 i s.parents T) ∧
      (∃ R, pts[n]? = some R ∧ R.vars = [n] ∧
        ∀ a, a n < 2 → value R a = (((train.length / 2 : Nat) : K) + 1) / ((train.length : K) + 2)) ∧
      (∀ T ∈ pts, ∀ x ∈ T.pot, 0 ≤ x) ∧
      ∃ (bound : Nat) (lo hi : K), 0 < lo ∧ ∀ ρ : K, 1 ≤ ρ → ρ ^ 3 ≤ 2 → ∀ ar : Arithmetic K, Accurate ar ρ lo hi →
        ∀ label : List Str → Nat,
          (∀ r ∈ test, label r < valuesOf train n 0 ∧ ∀ x < valuesOf train n 0, x ≠ label r →
            posterior (valuesOf train n) (n + 1) (joint pts) (knownCells train n r) 0 x * ρ ^ (2 * bound) <
              posterior (valuesOf train n) (n + 1) (joint pts) (knownCells train n r) 0 (label r)) →
          ∃ v : K, classifyR o ar X alpha g trainFile testFile = .ok (Rounded.num v) ∧
            v ≤ (test.countP (fun r => decide (codeIn train 0 (cellText r 0) = label r)) : K) / (test.length : K) * ρ ∧
            (test.countP (fun r => decide (codeIn train 0 (cellText r 0) = label r)) : K) / (test.length : K) ≤ v * ρ := by
  obtain ⟨D, T, hD, d1, d2, hT, t1, t2, hN', s1, s2, hcard, s4, s5, s6, s7, hcol, hpos⟩ := files_rooted hf hN
  have hn := hf.pos
  have hroot : N.card n = 2 := by rw [hcard]; simp [valuesOf]
  obtain ⟨pts, p1, p2, p3, ⟨R, p4, -, p5, p6⟩, hpts, hnn, hwt⟩ := learned_rooted_tables (K := K) s2 s4 hroot s6 s7 hcol hrnd (alpha := 1) (by omega)
  have hdl : (N.nodes.map NodeS.dim).length = n + 1 := by rw [List.length_map, s2]
  obtain ⟨bound, lo, hi, hlo, hmain⟩ := rounded_uniform_of_inv (K := K) (dims := N.nodes.map NodeS.dim) s1 (by rw [List.length_map])
    (by intro h; rw [h] at hdl; simp at hdl) s5 horder hcord hpts hnn
  rw [hdl] at hmain
  rw [hcard] at p3 hmain hwt
  -- a common bound for the numbers of values
  obtain ⟨B, hB⟩ : ∃ B : Nat, ∀ i < n + 1, valuesOf train n i ≤ B :=
    ⟨((List.range (n + 1)).map (valuesOf train n)).sum, fun i hi =>
      List.single_le_sum (fun _ _ => Nat.zero_le _) _ (List.mem_map.2 ⟨i, List.mem_range.2 hi, rfl⟩)⟩
  set M : K := (train.length : K) + (B : K) + 1 with hM
  have hM1 : 1 ≤ M := by
    have h4 : (0 : K) ≤ (train.length : K) := Nat.cast_nonneg _
    have h5 : (0 : K) ≤ (B : K) := Nat.cast_nonneg _
    linarith
  have hM0 : 0 < M := lt_of_lt_of_le zero_lt_one hM1
  have ht0 : 0 < test.length := by omega
  have htK : (0 : K) < (test.length : K) := by exact_mod_cast ht0
  refine ⟨pts, p2, ?_, ⟨R, p4, p5, ?_⟩, hnn, 3 * bound, min (min lo (1 / (4 * M))) (1 / (test.length : K)), max (max hi (M * 4)) 1,
    lt_min (lt_min hlo (by positivity)) (by positivity), ?_⟩
  · intro i hi
    have hs := List.getElem?_eq_getElem (show i < N.nodes.length by omega)
    obtain ⟨T, h1, h2⟩ := p3 i _ hi hs
    exact ⟨_, T, hs, h1, h2⟩
  · intro a ha
    rw [p6 a ha]
    simp
  intro ρ hρ hρ3 ar har label hlabel
  have hρ0 : 0 < ρ := lt_of_lt_of_le zero_lt_one hρ
  have hρ13 : ρ ≤ ρ ^ 3 := le_self_pow₀ hρ (by norm_num)
  have hρ2 : ρ ^ 2 ≤ 4 := (pow_le_pow_right₀ hρ (by norm_num : 2 ≤ 3)).trans (hρ3.trans (by norm_num))
  -- the tables
  have hentries : ∀ i < n + 1, EntriesStand (ρ ^ 3) ar 1 (train.map (rowAssignment train)).length (N.card i) := by
    intro i hi n1 n2 g1 g2
    rw [List.length_map] at g2
    rw [hcard]
    have hd0 : 0 < valuesOf train n i := by
      by_cases h : i < n
      · exact hpos i h
      · have : i = n := by omega
        subst this
        simp [valuesOf]
    have h8 : (train.length : K) + ((1 : Int) : K) * (valuesOf train n i : K) ≤ M := by
      have h4 : (valuesOf train n i : K) ≤ (B : K) := by exact_mod_cast hB i hi
      rw [hM]
      push_cast
      linarith
    have h9 : (0 : K) ≤ (train.length : K) + ((1 : Int) : K) * (valuesOf train n i : K) := by positivity
    refine smoothed_rounded (m := train.length) hρ (lt_min (lt_min hlo (by positivity)) (by positivity)) har (by omega) g1 g2 hd0 ?_ ?_
    · calc min (min lo (1 / (4 * M))) (1 / (test.length : K)) * ρ ^ 2 * ((train.length : K) + ((1 : Int) : K) * (valuesOf train n i : K))
          ≤ 1 / (4 * M) * 4 * M := by
            apply mul_le_mul _ h8 h9 (by positivity)
            exact mul_le_mul ((min_le_left _ _).trans (min_le_right _ _)) hρ2 (by positivity) (by positivity)
        _ = 1 := by field_simp
    · exact (mul_le_mul h8 hρ2 (by positivity) hM0.le).trans ((le_max_right _ _).trans (le_max_left _ _))
  obtain ⟨pts0, pts', h4, h5, h6⟩ := learnRooted_rounded (K := K) (ar := ar) (c := ρ ^ 3) (alpha := 1) s4 s2 hcol hroot s6 s7 hrnd hentries
  rw [p1] at h4
  cases h4
  obtain ⟨J, h8, h9⟩ := hmain (ρ ^ 3) (hρ.trans hρ13) hρ3 ar
    ((har.weaken hρ0 hρ13).mono ((min_le_left _ _).trans (min_le_left _ _)) ((le_max_left _ _).trans (le_max_left _ _))) pts' h6
  -- the predictions
  have hc : ∀ r ∈ test, testCells train n r = (0, codeIn train 0 (cellText r 0)) :: knownCells train n r :=
    fun r hr => testCells_class hf.pos (hclass r hr)
  have hpred : ∀ r ∈ test, J.predict (knownCells train n r) 0 = .ok (label r, J) := by
    intro r hr
    have hs := testCells_sorted train n r
    rw [hc r hr, List.pairwise_cons] at hs
    have hEn : ((knownCells train n r).map Prod.fst).Nodup := by
      rw [List.Nodup, List.pairwise_map]
      exact hs.2.imp (fun h => by omega)
    have hE : ∀ e ∈ knownCells train n r, e.1 < n + 1 ∧ e.2 < valuesOf train n e.1 := by
      intro e he
      have := testCells_mem (train := train) (n := n) (r := r) (e := e) (by rw [hc r hr]; simp [he])
      refine ⟨by omega, ?_⟩
      simp only [valuesOf, this.1, if_true]
      exact this.2
    have hqE : 0 ∉ (knownCells train n r).map Prod.fst := by
      intro h
      obtain ⟨e, he, e0⟩ := List.mem_map.1 h
      have := hs.1 e he
      omega
    obtain ⟨hl, hgap⟩ := hlabel r hr
    obtain ⟨T, k1, k2, k3, k4⟩ := h9 _ hEn hE (hwt _ hEn hE) 0 (by omega) hqE
    rw [← pow_mul] at k4
    refine predict_of_gap hρ0 k1 k3 k4 hl ?_ hgap
    refine lt_of_le_of_ne (posterior_nonneg hnn _ 0 _) (Ne.symm ?_)
    unfold posterior
    refine div_ne_zero ?_ (hwt _ hEn hE)
    rw [weight_iff (e' := Agrees ((0, label r) :: knownCells train n r)) (fun s => by simp [Agrees, and_comm])]
    exact hwt _ (List.nodup_cons.2 ⟨hqE, hEn⟩) (List.forall_mem_cons.2 ⟨⟨by omega, hl⟩, hE⟩)
  have hinit : inferenceInit 1 0 (test.map (testCells train n)) =
      .ok (test.map (knownCells train n), test.map (fun r => codeIn train 0 (cellText r 0))) := by
    have := C49_all_instances 1 0 (test.map (testCells train n))
      (test.map (fun r => (knownCells train n r, codeIn train 0 (cellText r 0)))) (by
        rw [List.mapM_map]
        apply mapM_ok
        intro r hr
        have hs := testCells_sorted train n r
        have hc := testCells_class hf.pos (hclass r hr)
        rw [hc] at hs
        rw [Function.comp_apply, hc, instanceEvidence_sorted hs])
    rw [this, if_pos rfl, List.map_map, List.map_map]
    rfl
  obtain ⟨v, e1, e2, e3⟩ := ratio_rounded (c := test.countP (fun r => decide (codeIn train 0 (cellText r 0) = label r))) (t := test.length) har
    List.countP_le_length ht0 (min_le_right _ _) (le_max_right _ _)
  refine ⟨v, ?_, e2, e3⟩
  rw [List.length_map] at h5
  have h8' : buildJunctionTree N N.card pts' X.order X.cord = .ok J := by rw [hcard]; exact h8
  unfold classifyR
  rw [hD, ok_bind, hT, ok_bind, hN', ok_bind, d1, d2]
  simp only
  rw [h5, ok_bind, t1, t2, hinit, ok_bind]
  simp only
  rw [h8', ok_bind, predictAll_const test h20 hpred, ok_bind]
  simp only
  rw [C48_accuracy _ _ (by intro h; rw [List.map_eq_nil_iff] at h; rw [h] at ht0; simp at ht0) (by simp), List.length_map, filter_range_map, e1]

omit [LinearOrder K] [IsStrictOrderedRing K] in
/-- Tables that are known to be the smoothed frequencies determine the distribution. -/
theorem posterior_of_tables {N : Net} {n : Nat} (hlen : N.nodes.length = n + 1) (hshape : NetShape N.card N) (hroot : N.card n = 2)
    {rows : Nat → List Assignment} {c : K} {pts pts' : List (Table K)} (h1 : pts.length = n + 1) (h1' : pts'.length = n + 1)
    (h2 : ∀ i < n, ∃ s T, N.nodes[i]? = some s ∧ pts[i]? = some T ∧ IsFrequencyTable N.card (rows i) 1 i s.parents T)
    (h2' : ∀ i < n, ∃ s T, N.nodes[i]? = some s ∧ pts'[i]? = some T ∧ IsFrequencyTable N.card (rows i) 1 i s.parents T)
    (h3 : ∃ R, pts[n]? = some R ∧ R.vars = [n] ∧ ∀ a, a n < 2 → value R a = c)
    (h3' : ∃ R, pts'[n]? = some R ∧ R.vars = [n] ∧ ∀ a, a n < 2 → value R a = c) (E : List (Nat × Nat)) (q x : Nat) :
    posterior N.card (n + 1) (joint pts) E q x = posterior N.card (n + 1) (joint pts') E q x := by
  have hj : ∀ a, InRange N.card (List.range (n + 1)) a → joint pts a = joint pts' a := by
    intro a ha
    unfold joint
    congr 1
    apply List.ext_getElem (by simp [h1, h1'])
    intro i hi hi'
    rw [List.length_map, h1] at hi
    rw [List.getElem_map, List.getElem_map]
    by_cases h : i < n
    · obtain ⟨s, T, k1, k2, k3⟩ := h2 i h
      obtain ⟨s', T', k1', k2', k3'⟩ := h2' i h
      rw [k1] at k1'
      cases k1'
      obtain ⟨_, rfl⟩ := List.getElem?_eq_some_iff.1 k2
      obtain ⟨_, rfl⟩ := List.getElem?_eq_some_iff.1 k2'
      have hin : InRange N.card (i :: s.parents) a := by
        intro v hv
        refine ha v ?_
        rw [List.mem_range, ← hlen]
        exact NetShape.lt hshape k1 v hv
      rw [k3.2.2 a hin, k3'.2.2 a hin]
    · have : i = n := by omega
      subst this
      obtain ⟨R, k1, -, k2⟩ := h3
      obtain ⟨R', k1', -, k2'⟩ := h3'
      obtain ⟨_, rfl⟩ := List.getElem?_eq_some_iff.1 k1
      obtain ⟨_, rfl⟩ := List.getElem?_eq_some_iff.1 k1'
      have h2n : a i < 2 := by
        rw [← hroot]
        exact ha i (by simp)
      rw [k2 a h2n, k2' a h2n]
  have hw : ∀ (ev : Assignment → Prop) [DecidablePred ev], Spec.weight N.card (n + 1) (joint pts) ev = Spec.weight N.card (n + 1) (joint pts') ev := by
    intro ev _
    unfold Spec.weight
    apply sumOut_congr
    intro b hb _
    rw [hj b (fun u hu => hb u hu)]
  unfold posterior
  rw [hw, hw]

/-- C120.  The same command in exact arithmetic, with single tests: under the hypotheses of C119 on the tests and with a clear prediction in every
test row, exact arithmetic prints the fraction of correct predictions, and machine arithmetic prints this number up to one rounding, whatever the
orders of the parallel loops and of the construction of the junction tree in the two runs. -/
theorem C120_exact {alpha π : ℝ} {pchisq : ℝ → Nat → Option ℝ} (htail : AccurateTail (doubleOps pchisq) chiSquare π) {n : Nat}
    {names names' : List Str} {train test : List (List Str)} {trainFile testFile : Str}
    (hf : TwoFiles n names train trainFile names' test testFile) (h20 : 20 ≤ test.length) (hclass : ∀ r ∈ test, Known train r 0)
    (hm : train.length < 2 ^ 31)
    (hclear : ∀ x y z, (∀ v ∈ z ++ [x, y], v < n) → (z ++ [x, y]).Nodup →
      ClearTest chiSquare alpha π (statisticError (2 ^ (-53 : ℤ)) train.length
        (cellBound (fun v => (firstSeen (column train v)).length) train.length x y z))
        (fun v => (firstSeen (column train v)).length) (train.map (rowAssignment train)) x y z)
    {g : Nat} (hg0 : 0 < g)
    (hg : g ≤ 1 ∨ g ≤ 8 ∧ ∀ x y z, (∀ v ∈ z ++ [x, y], v < n) → (z ++ [x, y]).Nodup → z ≠ [] →
      degrees (fun v => (firstSeen (column train v)).length) (train.map (rowAssignment train)) x y z ≠ 0) :
    ∃ F, ∀ X X' : Execution ℝ, SameMachine n X X' → X.log = Real.log → X.pchisq = (fun g df => some (chiSquare g df)) → F ≤ X.fuel →
      X'.rnd = X.rnd → (∀ i j, X.rnd i j < 2) → (∀ l, (X.order l).Perm l) → (∀ m, (X.cord m).Perm (List.range m)) →
      (∀ l, (X'.order l).Perm l) → (∀ m, (X'.cord m).Perm (List.range m)) → ∀ N : Net,
      (do structLearn X alpha 1 true true (← loadCSVTraining trainFile true 0)) = .ok N →
      ∃ pts : List (Table ℝ), pts.length = n + 1 ∧
        (∀ i < n, ∃ s T, N.nodes[i]? = some s ∧ pts[i]? = some T ∧
          IsFrequencyTable (valuesOf train n) ((train.map (rowAssignment train)).mapIdx (fun j r => r.set n (X.rnd i j))) 1 i s.parents T) ∧
        (∃ R, pts[n]? = some R ∧ R.vars = [n] ∧
          ∀ a, a n < 2 → value R a = (((train.length / 2 : Nat) : ℝ) + 1) / ((train.length : ℝ) + 2)) ∧
        ∃ (bound : Nat) (lo hi : ℝ), 0 < lo ∧ ∀ ρ : ℝ, 1 ≤ ρ → ρ ^ 3 ≤ 2 → ∀ ar : Arithmetic ℝ, Accurate ar ρ lo hi →
          (∀ r ∈ test, ∃ l < valuesOf train n 0, ∀ x < valuesOf train n 0, x ≠ l →
            posterior (valuesOf train n) (n + 1) (joint pts) (knownCells train n r) 0 x * ρ ^ (2 * bound) <
              posterior (valuesOf train n) (n + 1) (joint pts) (knownCells train n r) 0 l) →
          ∃ v v' : ℝ, classify X alpha 1 trainFile testFile = .ok v ∧
            classifyR (doubleOps pchisq) ar X' alpha g trainFile testFile = .ok (Rounded.num v') ∧ v' ≤ v * ρ ∧ v ≤ v' * ρ := by
  obtain ⟨F, hF⟩ := C119_structure (alpha := alpha) htail hm hclear hg0 hg
  refine ⟨F, ?_⟩
  intro X X' hX hlog hchi hfuel hrndE hrnd horder hcord horder' hcord' N hN
  have hsame := hF X X' names trainFile true true hX hlog hchi hfuel
    ⟨hf.pos, hf.trainCsv, hf.trainNames, hf.trainRows, hf.trainSome, hf.distinct⟩
  obtain ⟨m, hNR⟩ : ∃ m, (do structLearnFullR (doubleOps pchisq) X' alpha g true true (← loadCSVTraining trainFile true 0)) = .ok (N, m) := by
    rw [hsame]
    obtain ⟨D, h1, h2⟩ := bind_ok hN
    unfold structLearn at h2
    obtain ⟨⟨N1, m⟩, h3, h4⟩ := bind_ok h2
    cases h4
    exact ⟨m, by rw [h1, ok_bind, h3]⟩
  obtain ⟨pts, h1, h2, h3, hnn, bound, lo, hi, hlo, hmain⟩ := C120_classify (K := ℝ) (by rw [hrndE]; exact hrnd) horder' hcord' hf hNR h20 hclass
  rw [hrndE] at h2
  refine ⟨pts, h1, h2, h3, bound, lo, hi, hlo, ?_⟩
  intro ρ hρ hρ3 ar har hgap
  choose! label hl1 hl2 using hgap
  obtain ⟨v, e1, e2, e3⟩ := hmain ρ hρ hρ3 ar har label (fun r hr => ⟨hl1 r hr, hl2 r hr⟩)
  refine ⟨_, v, ?_, e1, e2, e3⟩
  obtain ⟨pts2, labels, g1, g2, g3, g4, g5, g6⟩ := C70_classify hrnd horder hcord hf hN h20 hclass
  obtain ⟨-, -, -, -, -, -, -, -, -, -, s2, hcard, s4, -⟩ := files_rooted hf hNR
  have hroot : N.card n = 2 := by rw [hcard]; simp [valuesOf]
  rw [← hcard] at h2 g2
  have hpost := posterior_of_tables s2 s4 hroot h1 g1 h2 g2 h3 g3
  rw [hcard] at hpost
  have hlab : labels = test.map label := by
    apply List.ext_getElem?
    intro i
    rw [List.getElem?_map]
    by_cases hi : i < test.length
    · obtain ⟨x, k1, k2, k3, -⟩ := g5 i _ (List.getElem?_eq_getElem hi)
      have hr := List.getElem_mem hi
      rw [k1, List.getElem?_eq_getElem hi, Option.map_some]
      by_contra hne
      have hxl : x ≠ label test[i] := fun h => hne (by rw [h])
      have k4 := hl2 _ hr x k2 hxl
      have k5 := k3 _ (hl1 _ hr)
      rw [← hpost, ← hpost] at k5
      have k6 : 0 ≤ posterior (valuesOf train n) (n + 1) (joint pts) (knownCells train n test[i]) 0 x := posterior_nonneg hnn _ _ _
      have k7 : (1 : ℝ) ≤ ρ ^ (2 * bound) := one_le_pow₀ hρ
      have k8 := le_mul_of_one_le_right k6 k7
      linarith
    · rw [List.getElem?_eq_none (by omega), List.getElem?_eq_none (by omega)]
      rfl
  rw [g6, hlab]
  simp only [← List.getElem?_map (f := fun r => codeIn train 0 (cellText r 0))]
  rw [filter_range_map]

end classify

/-! ### Examples -/

namespace RoundedCommand

/-- Tests on rational numbers, with simple functions in place of `log` and `pchisq`. -/
def ops : DoubleOps ℚ where
  zero := 0
  one := 1
  two := 2
  ofCount n := n
  add a b := a + b
  sub a b := a - b
  mul a b := a * b
  div a b := a / b
  log x := x - 1
  pchisq := fun x _ => some (if x < 1 then 0 else 1)

def run : Execution ℚ := ratExecution 3 (fun _ j => j % 2)

def trainFile : Str := textOf (csvLine threeNames :: trainRows.map csvLine)

def testFile : Str := textOf (csvLine threeNames :: testRows.map csvLine)

/-- The structure is learned: the class is a parent of the second column, and ROOT a parent of the class and of the third column. -/
example : (do
    let (N, m) ← structLearnFullR ops run (1 / 20 : ℚ) 1 true true (← loadCSVTraining trainFile true 0)
    return (N.nodes.map (fun s => s.parents), m) : Except Fault _) = .ok ([[3], [0], [3], []], 3) := by decide +kernel

/-- The predictions are clear: in every test row one value of the class is at least 1.1 times as probable as the other. -/
example : (do
    let (N, _) ← structLearnFullR ops run (1 / 20 : ℚ) 1 true true (← loadCSVTraining trainFile true 0)
    let D ← loadCSVTraining trainFile true 0
    let pts : List (Table ℚ) ← learnParams N D.natColumns 3 6 1 run.rnd []
    return testRows.all (fun r => (List.range 2).any (fun l => (List.range 2).all (fun x => decide (x = l ∨
      posterior (valuesOf trainRows 3) 4 (joint pts) (knownCells trainRows 3 r) 0 x * (11 / 10) <
        posterior (valuesOf trainRows 3) 4 (joint pts) (knownCells trainRows 3 r) 0 l)))) : Except Fault Bool) = .ok true := by decide +kernel

/-- The hypotheses on the files of C120 for a table all of whose tests are clear (see C119). -/
example : TwoFiles 2 [lit "c", lit "f"] RoundedFile.train (textOf (csvLine [lit "c", lit "f"] :: RoundedFile.train.map csvLine)) [lit "c", lit "f"]
    (List.replicate 20 [lit "a", lit "x"]) (textOf (csvLine [lit "c", lit "f"] :: (List.replicate 20 [lit "a", lit "x"]).map csvLine)) where
  pos := by omega
  trainCsv := CsvFile.newline
  trainNames := by unfold CleanRow CleanCell; decide
  trainRows := by unfold CleanRow CleanCell; decide
  trainSome := by decide
  distinct := by decide
  testCsv := CsvFile.newline
  testNames := by unfold CleanRow CleanCell; decide
  testRows := by unfold CleanRow CleanCell; decide +kernel
  testSome := by decide

/-- The command with `double`s: the accuracy 1/2 is printed. -/
example : classifyR ops (binary64 (fun x => ⌊x + 1 / 2⌋)) run (1 / 20 : ℚ) 1 trainFile testFile = .ok (Rounded.num (1 / 2)) := by decide +kernel

end RoundedCommand

end FastPGM
