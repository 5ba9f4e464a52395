import Verif.Lemmas.MessagePassing5

/-!
If all messages towards the root can be passed, some assignment has positive weight.
-/

namespace FastPGM

open Spec

variable {K : Type} [Field K] [LinearOrder K] [IsStrictOrderedRing K]

omit [LinearOrder K] [IsStrictOrderedRing K] in
theorem exists_ne_zero_of_sumOut {card : Nat → Nat} {us : List Nat} {f : Assignment → K} {a : Assignment} (h : sumOut card us f a ≠ 0) :
    ∃ b, InRange card us b ∧ (∀ v, v ∉ us → b v = a v) ∧ f b ≠ 0 := by
  by_contra hcon
  push Not at hcon
  apply h
  rw [sumOut_congr (g := fun _ => 0) (fun b hb hab => hcon b hb hab)]
  have := sumOut_const_mul (card := card) (us := us) (f := fun _ => (0 : K)) 0 a
  simpa using this

theorem foldlM_normMul {card : Nat → Nat} {V : List Nat} {τ : JNode → Assignment → K} {l : List JNode} {t t' : Assignment → K}
    (e : l.foldlM (fun t y => normMul card V t (τ y)) t = .ok t') :
    (∀ a, t' a ≠ 0 → t a ≠ 0 ∧ ∀ y ∈ l, τ y a ≠ 0) ∧
      (sumOut card V t (fun _ => 0) = 1 → sumOut card V t' (fun _ => 0) = 1) := by
  induction l generalizing t with
  | nil =>
    cases e
    exact ⟨fun a h => ⟨h, by simp⟩, fun h => h⟩
  | cons y l ih =>
    rw [List.foldlM_cons] at e
    obtain ⟨u, e1, e2⟩ := bind_eq_ok e
    obtain ⟨h1, h2⟩ := ih e2
    unfold normMul at e1
    split at e1
    · cases e1
    · rename_i hz
      have e1 := (Except.ok.inj e1).symm
      subst e1
      refine ⟨fun a ha => ?_, fun _ => ?_⟩
      · obtain ⟨h3, h4⟩ := h1 a ha
        have h5 : t a * τ y a ≠ 0 := fun h0 => h3 (by show t a * τ y a / _ = 0; rw [h0, zero_div])
        refine ⟨left_ne_zero_of_mul h5, fun z hz => ?_⟩
        rw [List.mem_cons] at hz
        rcases hz with rfl | hz
        · exact right_ne_zero_of_mul h5
        · exact h4 z hz
      · apply h2
        rw [sumOut_div_const, div_self hz]

variable {T : JTShape} {L : Levels} {r : Nat} {lev : JNode → Nat} {par ch : Nat → Nat} {card : Nat → Nat} {VC VS : Nat → List Nat}

/-- All cliques agree on an assignment of positive weight. -/
theorem support_of_collect (hp : Plan T L r lev par ch) (h : RepOK card T.cliques.length VC VS par ch)
    (hrip : ∀ s j v, s + 1 < T.cliques.length → j < T.cliques.length → lev (.clq j) ≤ lev (.clq (ch s)) → j ≠ ch s → v ∈ VC (ch s) →
      v ∈ VC j → v ∈ VS s)
    {V : List Nat} (hV : ∀ v ∈ V, 0 < card v) {F : Nat → Assignment → K} {σ σ' : JNode → Assignment → K}
    (hσ : StartOf card T.cliques.length VC F σ) (hdep : ∀ i < T.cliques.length, DependsOn (σ' (.clq i)) (VC i))
    {l : List (JNode × JNode)} (hl : CollectOrder T L l) (e : runSched (msgFn card VC VS) l σ = .ok σ') :
    ∃ a, InRange card V a ∧ ∀ i < T.cliques.length, F i a ≠ 0 := by
  rw [runSched_iff hl.final] at e
  have hsep : ∀ s, s + 1 < T.cliques.length → σ' (.sep s) = sumOut card ((VC (ch s)).filter (fun v => v ∉ VS s)) (σ' (.clq (ch s))) := by
    intro s hs
    have h1 := e (.sep s)
    have h2 : readBy l (.sep s) = [.clq (ch s)] := by
      have := hl.reads (.sep s) hs
      rw [hp.down_sep s hs] at this
      exact List.perm_singleton.1 this
    rw [h2, hσ.one] at h1
    have h3 := Except.ok.inj h1
    rw [← h3, quot_one]
  have hclq : ∀ i < T.cliques.length, (∀ a, σ' (.clq i) a ≠ 0 → F i a ≠ 0 ∧ ∀ y ∈ L.marks.down (.clq i), σ' y a ≠ 0) ∧
      sumOut card (VC i) (σ' (.clq i)) (fun _ => 0) = 1 := by
    intro i hi
    obtain ⟨h1, h2⟩ := foldlM_normMul (e (.clq i))
    refine ⟨fun a ha => ?_, h2 (hσ.norm i hi)⟩
    obtain ⟨h3, h4⟩ := h1 a ha
    obtain ⟨z, hz, hF⟩ := hσ.clq i hi
    refine ⟨fun h0 => h3 (by rw [hF, h0, zero_div]), fun y hy => h4 y ((hl.reads (.clq i) hi).mem_iff.2 hy)⟩
  -- cliques with the root, closed towards lower levels
  have key : ∀ n, ∀ S : Finset Nat, S.card = n + 1 → r ∈ S → (∀ i ∈ S, i < T.cliques.length) →
      (∀ i ∈ S, ∀ j < T.cliques.length, lev (.clq j) < lev (.clq i) → j ∈ S) →
      ∃ a, (∀ v, v ∈ V ∨ (∃ i ∈ S, v ∈ VC i) → a v < card v) ∧ ∀ i ∈ S, σ' (.clq i) a ≠ 0 := by
    intro n
    induction n with
    | zero =>
      intro S hS hr _ _
      have hS1 : S = {r} := by
        obtain ⟨x, hx⟩ := Finset.card_eq_one.1 hS
        rw [hx, Finset.mem_singleton] at hr
        rw [hx, hr]
      have h1 : sumOut card (VC r) (σ' (.clq r)) (fun _ => 0) ≠ 0 := by
        rw [(hclq r hp.root).2]
        exact one_ne_zero
      obtain ⟨b, hb1, hb2, hb3⟩ := exists_ne_zero_of_sumOut h1
      refine ⟨b, fun v hv => ?_, fun i hi => ?_⟩
      · by_cases hvr : v ∈ VC r
        · exact hb1 v hvr
        · rw [hb2 v hvr]
          rcases hv with hv | ⟨i, hi, hv⟩
          · exact hV v hv
          · rw [hS1, Finset.mem_singleton] at hi
            rw [hi] at hv
            exact absurd hv hvr
      · rw [hS1, Finset.mem_singleton] at hi
        rw [hi]
        exact hb3
    | succ n ih =>
      intro S hS hr hSm hcl
      -- a clique of the highest level
      have hne : (S.erase r).Nonempty := by
        rw [← Finset.card_pos, Finset.card_erase_of_mem hr]
        omega
      obtain ⟨c, hc, hmax⟩ := Finset.exists_max_image (S.erase r) (fun i => lev (.clq i)) hne
      obtain ⟨hcr, hcS⟩ := Finset.mem_erase.1 hc
      have hmax' : ∀ j ∈ S, lev (.clq j) ≤ lev (.clq c) := by
        intro j hj
        by_cases hjr : j = r
        · rw [hjr, hp.lev_root]
          omega
        · exact hmax j (Finset.mem_erase.2 ⟨hjr, hj⟩)
      obtain ⟨s, hs, rfl⟩ := hp.exists_ch c (hSm c hcS) hcr
      obtain ⟨a, ha1, ha2⟩ := ih (S.erase (ch s)) (by rw [Finset.card_erase_of_mem hcS]; omega) (Finset.mem_erase.2 ⟨Ne.symm hcr, hr⟩)
        (fun i hi => hSm i (Finset.mem_of_mem_erase hi)) (fun i hi j hj hlt => by
          refine Finset.mem_erase.2 ⟨?_, hcl i (Finset.mem_of_mem_erase hi) j hj hlt⟩
          rintro rfl
          have := hmax' i (Finset.mem_of_mem_erase hi)
          omega)
      have hpar : par s ∈ S.erase (ch s) := by
        have h1 := hp.lev_sep s hs
        have h2 := hp.lev_ch s hs
        exact Finset.mem_erase.2 ⟨hp.par_ne s hs, hcl _ hcS _ (h.par_lt s hs) (by omega)⟩
      have h3 := ((hclq _ (h.par_lt s hs)).1 a (ha2 _ hpar)).2 (.sep s) ((hp.down_clq _ (h.par_lt s hs) _).2 ⟨s, hs, rfl, rfl⟩)
      rw [hsep s hs] at h3
      obtain ⟨b, hb1, hb2, hb3⟩ := exists_ne_zero_of_sumOut h3
      refine ⟨b, fun v hv => ?_, fun i hi => ?_⟩
      · by_cases hvf : v ∈ (VC (ch s)).filter (fun v => v ∉ VS s)
        · exact hb1 v hvf
        · rw [hb2 v hvf]
          apply ha1
          rcases hv with hv | ⟨i, hi, hv⟩
          · exact Or.inl hv
          · by_cases hic : i = ch s
            · subst hic
              right
              refine ⟨_, hpar, h.sub s hs v ?_⟩
              by_contra hvs
              exact hvf (List.mem_filter.2 ⟨hv, by simpa using hvs⟩)
            · exact Or.inr ⟨i, Finset.mem_erase.2 ⟨hic, hi⟩, hv⟩
      · by_cases hic : i = ch s
        · subst hic
          exact hb3
        · rw [hdep i (hSm i hi) b a (fun v hv => hb2 v ?_)]
          · exact ha2 i (Finset.mem_erase.2 ⟨hic, hi⟩)
          · intro hvf
            obtain ⟨h4, h5⟩ := List.mem_filter.1 hvf
            simp only [decide_eq_true_eq] at h5
            exact h5 (hrip s i v hs (hSm i hi) (hmax' i hi) hic h4 hv)
  have hm : 0 < T.cliques.length := Nat.lt_of_le_of_lt (Nat.zero_le _) hp.root
  obtain ⟨a, h1, h2⟩ := key (T.cliques.length - 1) (Finset.range T.cliques.length) (by rw [Finset.card_range]; omega)
    (Finset.mem_range.2 hp.root) (fun i hi => Finset.mem_range.1 hi) (fun i _ j hj _ => Finset.mem_range.2 hj)
  exact ⟨a, fun v hv => h1 v (Or.inl hv), fun i hi => ((hclq i hi).1 a (h2 i (Finset.mem_range.2 hi))).1⟩

variable {N : Net} {pts : List (Table K)} {J : JTree K} {F : Nat → Assignment → K}

/-- Evidence of probability 0: not a number. -/
theorem Built.propagate_zero (hb : Built N card pts J T L r lev par ch F) (hcard : ∀ i < N.nodes.length, 0 < card i)
    (hnn : ∀ T ∈ pts, ∀ x ∈ T.pot, 0 ≤ x) {E : List (Nat × Nat)} (hEn : (E.map Prod.fst).Nodup)
    (hE : ∀ e ∈ E, e.1 < N.nodes.length ∧ e.2 < card e.1) (hzero : weight card N.nodes.length (joint pts) (Agrees E) = 0) :
    FastPGM.propagate J.levels J.n E J.state = .error .nan := by
  have hrep := hb.repOK hcard E
  have e0 : FastPGM.propagate J.levels J.n E J.state = propagateWith (collect L) (distribute L) J.n E J.state := by
    rw [hb.levels]
    rfl
  rw [e0]
  rcases hb.start hcard hnn (fun e he _ => (hE e he).2) with h | ⟨σ, hσ, hst, h⟩
  · exact h _ _
  · rw [h, collect_sched hb.plan hrep hσ.1]
    have hord := collectSched_order hb.plan hrep
    cases e : runSched (msgFn card (fun i => unobs E (storedVars T L.marks i)) (fun s => unobs E (sepVars T s))) (collectSched L) σ with
    | error e' =>
      have : e' = .nan := by
        refine runSched_error (I := fun _ _ => True) (e := .nan) ?_ ?_ (fun _ => trivial) e
        · intros; trivial
        · intro p _ t u e' _ _ e
          exact msgFn_error e
      rw [this]
      rfl
    | ok σ' =>
      exfalso
      have hdep := runSched_inv (I := fun x t => DependsOn t (nodeVars (fun i => unobs E (storedVars T L.marks i)) (fun s => unobs E (sepVars T s)) x))
        (fun p hpm t u t' h1 h2 h3 => msgFn_dep hrep (adj_collectOrder hb.plan hrep hord p hpm) h1 h2 h3) hσ.1 e
      have hrip : ∀ s j v, s + 1 < T.cliques.length → j < T.cliques.length → lev (.clq j) ≤ lev (.clq (ch s)) → j ≠ ch s →
          v ∈ unobs E (storedVars T L.marks (ch s)) → v ∈ unobs E (storedVars T L.marks j) → v ∈ unobs E (sepVars T s) := by
        intro s j v hs hj hlev hne h1 h2
        obtain ⟨h1, h3⟩ := mem_unobs.1 h1
        obtain ⟨h2, _⟩ := mem_unobs.1 h2
        have hch := (hb.plan.ch_end s hs).lt hb.shapeOK
        have h1' := (hb.plan.mem_stored hch).1 h1
        have h2' := (hb.plan.mem_stored hj).1 h2
        refine mem_unobs.2 ⟨(mem_sepVars_iff (hb.plan.par_end s hs) (hb.plan.ch_end s hs) (hb.plan.par_ne s hs)).2 ⟨?_, h1'⟩, h3⟩
        exact hb.plan.rip hb.shapeOK hs hj hlev hne h1' h2'
      obtain ⟨a, ha, hne⟩ := support_of_collect hb.plan hrep hrip (V := List.range N.nodes.length)
        (fun v hv => hcard v (List.mem_range.1 hv)) hst (fun i _ => hdep (.clq i)) hord e
      have h1 : joint pts (withEv E a) ≠ 0 := by
        unfold joint
        rw [← hb.prod]
        exact Finset.prod_ne_zero_iff.2 (fun i hi => hne i (Finset.mem_range.1 hi))
      have h2 : 0 ≤ fun a => joint pts a := by
        intro a
        show 0 ≤ joint pts a
        unfold joint
        rw [← hb.prod]
        exact Finset.prod_nonneg (fun i _ => hb.nonneg hnn i _)
      let b : Assignment := fun v => if v < N.nodes.length then withEv E a v else 0
      have hbj : joint pts b = joint pts (withEv E a) := hb.jdep _ _ (fun v hv => by
        show (if v < _ then _ else _) = _
        rw [if_pos (List.mem_range.1 hv)])
      have hagr : Agrees E b := fun e he => by
        show (if e.1 < _ then _ else _) = _
        rw [if_pos (hE e he).1, withEv_eq hEn he]
      have h3 := sumOut_eq_zero (fun a => by split; exacts [h2 a, le_refl _]) hzero (b := b) (fun v hv => by
        show (if v < _ then _ else _) < _
        rw [if_pos (List.mem_range.1 hv)]
        by_cases hvE : v ∈ E.map Prod.fst
        · obtain ⟨e, he, rfl⟩ := List.mem_map.1 hvE
          rw [withEv_eq hEn he]
          exact (hE e he).2
        · rw [withEv_of_notMem hvE]
          exact ha v hv) (fun v hv => by
        show (if v < _ then _ else _) = _
        rw [if_neg (fun h => hv (List.mem_range.2 h))])
      rw [if_pos hagr, hbj] at h3
      exact h1 h3

end FastPGM
