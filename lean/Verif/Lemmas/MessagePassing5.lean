import Verif.Lemmas.MessagePassing4
import Verif.Lemmas.JTQuery
import Verif.Spec.MessageOrder

/-!
All orders of the messages give the same tables.
-/

namespace FastPGM

open Spec

section general

variable {α T ε : Type}

theorem foldlM_perm_of {f : T → α → Except ε T} {I : T → Prop} (hI : ∀ t y t', I t → f t y = .ok t' → I t')
    (hc : ∀ t y z, I t → (f t y >>= fun u => f u z) = (f t z >>= fun u => f u y)) {l l' : List α} (hp : l.Perm l') :
    ∀ t, I t → l.foldlM f t = l'.foldlM f t := by
  induction hp with
  | nil => intro t _; rfl
  | cons x _ ih =>
    intro t ht
    rw [List.foldlM_cons, List.foldlM_cons]
    cases e : f t x with
    | error e => rfl
    | ok u => exact ih u (hI t x u ht e)
  | swap x y l =>
    intro t ht
    rw [List.foldlM_cons, List.foldlM_cons]
    have e1 : (f t y >>= fun u => (x :: l).foldlM f u) = ((f t y >>= fun u => f u x) >>= fun u => l.foldlM f u) := by
      rw [bind_assoc]
      congr 1
    have e2 : (f t x >>= fun u => (y :: l).foldlM f u) = ((f t x >>= fun u => f u y) >>= fun u => l.foldlM f u) := by
      rw [bind_assoc]
      congr 1
    rw [e1, e2, hc t y x ht]
  | trans _ _ ih1 ih2 =>
    intro t ht
    rw [ih1 t ht, ih2 t ht]

end general

variable {K : Type} [Field K] [LinearOrder K] [IsStrictOrderedRing K]

theorem normMul_nonneg {card : Nat → Nat} {V : List Nat} {F G F' : Assignment → K} (hF : ∀ a, 0 ≤ F a) (hG : ∀ a, 0 ≤ G a)
    (e : normMul card V F G = .ok F') : ∀ a, 0 ≤ F' a := by
  unfold normMul at e
  split at e
  · cases e
  · cases e
    intro a
    exact div_nonneg (mul_nonneg (hF a) (hG a)) (sumOut_nonneg (fun b => mul_nonneg (hF b) (hG b)) _)

/-- Two messages to a clique may be exchanged. -/
theorem normMul_comm {card : Nat → Nat} {V : List Nat} {F G H : Assignment → K} (hF : ∀ a, 0 ≤ F a) (hG : ∀ a, 0 ≤ G a) (hH : ∀ a, 0 ≤ H a) :
    (normMul card V F G >>= fun u => normMul card V u H) = (normMul card V F H >>= fun u => normMul card V u G) := by
  have key : ∀ {G H : Assignment → K}, (∀ a, 0 ≤ G a) → (∀ a, 0 ≤ H a) → (normMul card V F G >>= fun u => normMul card V u H) =
      if sumOut card V (fun a => F a * G a * H a) (fun _ => 0) = 0 then .error .nan
      else .ok (fun a => F a * G a * H a / sumOut card V (fun a => F a * G a * H a) (fun _ => 0)) := by
    intro G H hG hH
    by_cases h0 : sumOut card V (fun a => F a * G a) (fun _ => 0) = 0
    · have hz : sumOut card V (fun a => F a * G a * H a) (fun _ => 0) = 0 := by
        have h1 : ∀ b, sumOut card V (fun a => F a * G a) b = 0 → sumOut card V (fun a => F a * G a * H a) b = 0 := by
          clear h0
          induction V with
          | nil =>
            intro b hb
            have hb' : F b * G b = 0 := hb
            show F b * G b * H b = 0
            rw [hb', zero_mul]
          | cons v V ih =>
            intro b hb
            simp only [sumOut] at hb ⊢
            apply Finset.sum_eq_zero
            intro x hx
            exact ih _ ((Finset.sum_eq_zero_iff_of_nonneg (fun x _ => sumOut_nonneg (fun a => mul_nonneg (hF a) (hG a)) _)).1 hb x hx)
        exact h1 _ h0
      rw [if_pos hz]
      unfold normMul
      rw [if_pos h0]
      rfl
    · have e1 : normMul card V F G = .ok (fun a => F a * G a / sumOut card V (fun a => F a * G a) (fun _ => 0)) := by
        unfold normMul
        rw [if_neg h0]
      rw [e1, ok_bind]
      generalize hz : sumOut card V (fun a => F a * G a) (fun _ => 0) = z at h0
      have e2 : sumOut card V (fun a => F a * G a / z * H a) (fun _ => 0) = sumOut card V (fun a => F a * G a * H a) (fun _ => 0) / z := by
        rw [← sumOut_div_const]
        congr 1
        funext a
        rw [div_mul_eq_mul_div]
      unfold normMul
      rw [e2]
      by_cases h1 : sumOut card V (fun a => F a * G a * H a) (fun _ => 0) = 0
      · rw [if_pos h1, if_pos (by rw [h1, zero_div])]
      · rw [if_neg h1, if_neg (div_ne_zero h1 h0)]
        congr 1
        funext a
        rw [div_mul_eq_mul_div, div_div_div_cancel_right₀ h0]
  rw [key hG hH, key hH hG]
  have e : (fun a => F a * G a * H a) = fun a => F a * H a * G a := by
    funext a
    rw [mul_right_comm]
  have e' : ∀ a, F a * G a * H a = F a * H a * G a := fun a => mul_right_comm _ _ _
  simp only [e']

variable {T : JTShape} {L : Levels} {r : Nat} {lev : JNode → Nat} {par ch : Nat → Nat} {card : Nat → Nat} {VC VS : Nat → List Nat}

theorem msgFn_nonneg {x y : JNode} {t u t' : Assignment → K} (ht : ∀ a, 0 ≤ t a) (hu : ∀ a, 0 ≤ u a)
    (e : msgFn card VC VS x y t u = .ok t') : ∀ a, 0 ≤ t' a := by
  cases x with
  | clq i => exact normMul_nonneg ht hu e
  | sep s =>
    cases y with
    | sep _ => cases e
    | clq c =>
      cases e
      intro a
      unfold quot
      split
      · exact le_rfl
      · exact div_nonneg (sumOut_nonneg hu a) (ht a)

omit [IsStrictOrderedRing K] in
theorem msgFn_error {x y : JNode} {t u : Assignment → K} {e : Fault} (h : msgFn card VC VS x y t u = .error e) : e = .nan := by
  cases x with
  | clq i =>
    unfold msgFn normMul at h
    simp only [] at h
    split at h
    · cases h; rfl
    · cases h
  | sep s =>
    cases y with
    | sep _ => cases h; rfl
    | clq c => cases h

theorem readBy_invalid {l : List (JNode × JNode)} (hv : ∀ p ∈ l, validNode T.cliques.length p.1) {x : JNode}
    (hx : ¬ validNode T.cliques.length x) : readBy l x = [] := by
  apply readBy_eq_nil
  rintro p hpm rfl
  exact hx (hv p hpm)

theorem collect_order_eq (hp : Plan T L r lev par ch) {l l' : List (JNode × JNode)} (hl : CollectOrder T L l) (hl' : CollectOrder T L l')
    {σ : JNode → Assignment → K} (hσ : ∀ x a, 0 ≤ σ x a) : runSched (msgFn card VC VS) l σ = runSched (msgFn card VC VS) l' σ := by
  refine runSched_eq hl.final hl'.final (I := fun _ (t : Assignment → K) => ∀ a, 0 ≤ t a) (fun p _ t u t' ht hu e => msgFn_nonneg (x := p.1) (y := p.2) (t := t) (u := u) ht hu e) (e := .nan)
    (fun _ _ _ _ _ _ _ e => msgFn_error e) ?_ hσ
  intro x τ hτ t ht
  by_cases hx : validNode T.cliques.length x
  · have hperm := (hl.reads x hx).trans (hl'.reads x hx).symm
    cases x with
    | clq i =>
      exact foldlM_perm_of (I := fun (t : Assignment → K) => ∀ a, 0 ≤ t a) (fun t y t' ht e => normMul_nonneg (F := t) ht (hτ y) e)
        (fun t y z ht => normMul_comm (F := t) (G := τ y) (H := τ z) ht (hτ y) (hτ z)) hperm t ht
    | sep s =>
      have h1 : readBy l (.sep s) = [.clq (ch s)] := by
        have := hl.reads _ hx
        rw [hp.down_sep s hx] at this
        exact List.perm_singleton.1 this
      have h2 : readBy l' (.sep s) = [.clq (ch s)] := by
        have := hl'.reads _ hx
        rw [hp.down_sep s hx] at this
        exact List.perm_singleton.1 this
      rw [h1, h2]
  · rw [readBy_invalid hl.valid hx, readBy_invalid hl'.valid hx]

theorem distribute_order_eq {l l' : List (JNode × JNode)} (hl : DistributeOrder T L l) (hl' : DistributeOrder T L l')
    {σ : JNode → Assignment → K} (hσ : ∀ x a, 0 ≤ σ x a) : runSched (msgFn card VC VS) l σ = runSched (msgFn card VC VS) l' σ := by
  refine runSched_eq hl.final hl'.final (I := fun _ (t : Assignment → K) => ∀ a, 0 ≤ t a) (fun p _ t u t' ht hu e => msgFn_nonneg (x := p.1) (y := p.2) (t := t) (u := u) ht hu e) (e := .nan)
    (fun _ _ _ _ _ _ _ e => msgFn_error e) ?_ hσ
  intro x τ hτ t ht
  by_cases hx : validNode T.cliques.length x
  · rw [hl.reads x hx, hl'.reads x hx]
  · rw [readBy_invalid hl.valid hx, readBy_invalid hl'.valid hx]

/-- The orders of the specification. -/
theorem collectOrder_of (hp : Plan T L r lev par ch) (h : RepOK card T.cliques.length VC VS par ch) {l : List (JNode × JNode)}
    (hl : CollectMessages T.cliques.length L.marks.down l) : CollectOrder T L l := by
  have hv : ∀ x, IsNode T.cliques.length x ↔ validNode T.cliques.length x := fun x => by cases x <;> rfl
  have hm : ∀ p ∈ l, validNode T.cliques.length p.1 ∧ p.2 ∈ L.marks.down p.1 := fun p hpm => by
    obtain ⟨h1, h2⟩ := (hl.mem p.1 p.2).1 hpm
    exact ⟨(hv _).1 h1, h2⟩
  refine ⟨⟨hl.last, fun p hpm e => ?_⟩, fun x hx => ?_, fun p hpm => (hm p hpm).1⟩
  · have := (hp.down_facts h (hm p hpm).1 (hm p hpm).2).2.1
    rw [← e] at this
    omega
  · have hn : (readBy l x).Nodup := by
      unfold readBy
      refine List.Nodup.map_on ?_ (hl.nodup.filter _)
      intro p hpm q hqm e
      have h1 := (List.mem_filter.1 hpm).2
      have h2 := (List.mem_filter.1 hqm).2
      simp only [decide_eq_true_eq] at h1 h2
      exact Prod.ext (h1.trans h2.symm) e
    refine (List.perm_ext_iff_of_nodup hn (hp.down_nodup' hx)).2 ?_
    intro y
    rw [mem_readBy, hl.mem]
    exact ⟨fun h => h.2, fun h => ⟨(hv x).2 hx, h⟩⟩

theorem distributeOrder_of (hp : Plan T L r lev par ch) (h : RepOK card T.cliques.length VC VS par ch) {l : List (JNode × JNode)}
    (hl : DistributeMessages T.cliques.length L.marks.up l) : DistributeOrder T L l := by
  have hv : ∀ x, IsNode T.cliques.length x ↔ validNode T.cliques.length x := fun x => by cases x <;> rfl
  have hm : ∀ p ∈ l, validNode T.cliques.length p.1 ∧ L.marks.up p.1 = some p.2 := fun p hpm => by
    obtain ⟨h1, h2⟩ := (hl.mem p.1 p.2).1 hpm
    exact ⟨(hv _).1 h1, h2⟩
  refine ⟨⟨hl.last, fun p hpm e => ?_⟩, fun x hx => ?_, fun p hpm => (hm p hpm).1⟩
  · have := (hp.up_some h (hm p hpm).1 (hm p hpm).2).1
    rw [← e] at this
    omega
  · have hn : (readBy l x).Nodup := by
      unfold readBy
      refine List.Nodup.map_on ?_ (hl.nodup.filter _)
      intro p hpm q hqm e
      have h1 := (List.mem_filter.1 hpm).2
      have h2 := (List.mem_filter.1 hqm).2
      simp only [decide_eq_true_eq] at h1 h2
      exact Prod.ext (h1.trans h2.symm) e
    have hm' : ∀ y, y ∈ readBy l x ↔ L.marks.up x = some y := fun y => by
      rw [mem_readBy, hl.mem]
      exact ⟨fun h => h.2, fun h => ⟨(hv x).2 hx, h⟩⟩
    cases hu : L.marks.up x with
    | none =>
      rw [Option.toList_none, List.eq_nil_iff_forall_not_mem]
      intro y hy
      rw [hm', hu] at hy
      cases hy
    | some y =>
      have hp1 : (readBy l x).Perm [y] := by
        refine (List.perm_ext_iff_of_nodup hn (List.nodup_singleton y)).2 ?_
        intro z
        rw [hm', hu, List.mem_singleton, Option.some.injEq, eq_comm]
      exact List.perm_singleton.1 hp1

/-! ### Phases -/

/-- Contents of tables: functions of the variables of the node, with entries at least 0. -/
def Contents (VC VS : Nat → List Nat) (σ : JNode → Assignment → K) : Prop :=
  (∀ x, DependsOn (σ x) (nodeVars VC VS x)) ∧ ∀ x a, 0 ≤ σ x a

/-- `g` passes the messages of `l`. -/
def Passes (card : Nat → Nat) (m : Nat) (VC VS : Nat → List Nat) (l : List (JNode × JNode)) (g : JState K → Except Fault (JState K)) : Prop :=
  ∀ σ : JNode → Assignment → K, (∀ x, DependsOn (σ x) (nodeVars VC VS x)) → g (repOf card m VC VS σ) =
    (runSched (msgFn card VC VS) l σ).map (repOf card m VC VS)

theorem adj_collectOrder (hp : Plan T L r lev par ch) (h : RepOK card T.cliques.length VC VS par ch) {l : List (JNode × JNode)}
    (hl : CollectOrder T L l) : ∀ p ∈ l, Adj T.cliques.length par ch p.1 p.2 := by
  intro p hpm
  have hv := hl.valid p hpm
  exact (hp.down_facts h hv ((hl.reads _ hv).mem_iff.1 (mem_readBy.2 hpm))).1

theorem adj_distributeOrder (hp : Plan T L r lev par ch) (h : RepOK card T.cliques.length VC VS par ch) {l : List (JNode × JNode)}
    (hl : DistributeOrder T L l) : ∀ p ∈ l, Adj T.cliques.length par ch p.1 p.2 := by
  intro p hpm
  have hv := hl.valid p hpm
  have h1 : p.2 ∈ readBy l p.1 := mem_readBy.2 hpm
  rw [hl.reads _ hv, Option.mem_toList] at h1
  by_cases hr : p.1 = .clq r
  · rw [hr, hp.up_root] at h1
    cases h1
  · obtain ⟨y, e, ha, _⟩ := hp.up_facts h hv hr
    rw [e] at h1
    cases h1
    exact ha

omit [IsStrictOrderedRing K] in
theorem collect3_passes (hp : Plan T L r lev par ch) (h : RepOK card T.cliques.length VC VS par ch) :
    Passes (K := K) card T.cliques.length VC VS ((List.range (L.nodes.length - 1)).reverse.flatMap (fun i =>
      (L.nodes.getD i []).flatMap (fun x => (L.marks.down x).map (fun y => (x, y))))) (collect3 L) := by
  intro σ hσ
  have hlt : ∀ i ∈ (List.range (L.nodes.length - 1)).reverse, i < L.nodes.length := by
    intro i hi
    simp only [List.mem_reverse, List.mem_range] at hi
    omega
  have hadj : ∀ i, i < L.nodes.length → ∀ x ∈ L.nodes.getD i [], ∀ y ∈ L.marks.down x, Adj T.cliques.length par ch x y := fun i hi x hx y hy =>
    (hp.down_facts h ((hp.mem i hi _).1 hx).1 hy).1
  refine foldlM_sched h ?_ ?_ hσ
  · intro i hi p hpm
    simp only [List.mem_flatMap, List.mem_map] at hpm
    obtain ⟨x, hx, y, hy, rfl⟩ := hpm
    exact hadj i (hlt i hi) x hx y hy
  · intro i hi σ hσ
    rw [rd_level (hlt i hi), ok_bind]
    refine foldlM_sched h ?_ ?_ hσ
    · intro x hx p hpm
      simp only [List.mem_map] at hpm
      obtain ⟨y, hy, rfl⟩ := hpm
      exact hadj i (hlt i hi) x hx y hy
    · intro x hx σ hσ
      rw [List.map_eq_flatMap]
      refine foldlM_sched h ?_ ?_ hσ
      · intro y hy p hpm
        rw [List.mem_singleton] at hpm
        subst hpm
        exact hadj i (hlt i hi) x hx y hy
      · intro y hy σ hσ
        rw [runSched_single]
        exact passMessage_eq h hσ (hadj i (hlt i hi) x hx y hy)

omit [IsStrictOrderedRing K] in
theorem distribute3_passes (hp : Plan T L r lev par ch) (h : RepOK card T.cliques.length VC VS par ch) :
    Passes (K := K) card T.cliques.length VC VS (distributeSched L) (distribute3 L) := by
  intro σ hσ
  have hlt : ∀ k ∈ List.range (L.nodes.length - 1), k + 1 < L.nodes.length := by
    intro i hi
    simp only [List.mem_range] at hi
    omega
  refine foldlM_sched h ?_ ?_ hσ
  · intro k hk p hpm
    exact adj_distributeLevelSched hp h (by omega) (hlt k hk) hpm
  · intro k hk σ hσ
    rw [rd_level (hlt k hk), ok_bind]
    unfold distributeLevelSched
    rw [List.map_eq_flatMap]
    have hx' : ∀ x ∈ L.nodes.getD (k + 1) [], Adj T.cliques.length par ch x ((L.marks.up x).getD (.clq 0)) := by
      intro x hx
      exact adj_distributeLevelSched hp h (i := k + 1) (by omega) (hlt k hk) (p := (x, (L.marks.up x).getD (.clq 0)))
        (List.mem_map.2 ⟨x, hx, rfl⟩)
    refine foldlM_sched h ?_ ?_ hσ
    · intro x hx p hpm
      rw [List.mem_singleton] at hpm
      subst hpm
      exact hx' x hx
    · intro x hx σ hσ
      rw [runSched_single]
      obtain ⟨hv, hl⟩ := (hp.mem _ (hlt k hk) x).1 hx
      have hr : x ≠ .clq r := by
        rintro rfl
        rw [hp.lev_root] at hl
        omega
      obtain ⟨y, e, ha, _⟩ := hp.up_facts h hv hr
      have : L.marks.upOf x = .ok y := by
        unfold Marks.upOf
        rw [e]
      rw [this, ok_bind, e]
      exact passMessage_eq h hσ ha

omit [IsStrictOrderedRing K] in
theorem collect2_passes (hp : Plan T L r lev par ch) (h : RepOK card T.cliques.length VC VS par ch) {kids : JNode → List JNode}
    (hk : ∀ x, validNode T.cliques.length x → (kids x).Perm (L.marks.down x)) {n : Nat} {x : JNode} (hx : validNode T.cliques.length x)
    (hn : L.nodes.length ≤ n + lev x) :
    Passes (K := K) card T.cliques.length VC VS (sched2 kids n x) (collect2 kids n x) := by
  induction n generalizing x with
  | zero =>
    have := hp.lt x hx
    omega
  | succ n ih =>
    intro σ hσ
    have hfacts : ∀ y ∈ kids x, Adj T.cliques.length par ch x y ∧ lev y = lev x + 1 ∧ validNode T.cliques.length y := fun y hy => by
      obtain ⟨h1, h2, h3, _⟩ := hp.down_facts h hx ((hk x hx).mem_iff.1 hy)
      exact ⟨h1, h2, h3⟩
    have hadj : ∀ y ∈ kids x, ∀ p ∈ sched2 kids n y, Adj T.cliques.length par ch p.1 p.2 := fun y hy p hpm => by
      obtain ⟨_, h1, h2⟩ := mem_sched2 hp h hk (hfacts y hy).2.2 hpm
      exact (hp.down_facts h h1 h2).1
    refine foldlM_sched h ?_ ?_ hσ
    · intro y hy p hpm
      rw [List.mem_append, List.mem_singleton] at hpm
      rcases hpm with hpm | rfl
      · exact hadj y hy p hpm
      · exact (hfacts y hy).1
    · intro y hy σ hσ
      rw [ih (hfacts y hy).2.2 (by have := (hfacts y hy).2.1; omega) σ hσ, runSched_append]
      cases e : runSched (msgFn card VC VS) (sched2 kids n y) σ with
      | error e => rfl
      | ok σ' =>
        have hσ' := runSched_inv (I := fun x t => DependsOn t (nodeVars VC VS x))
          (fun p hpm t u t' h1 h2 h3 => msgFn_dep h (hadj y hy p hpm) h1 h2 h3) hσ e
        show passMessage (repOf card T.cliques.length VC VS σ') (x, y) = (runSched (msgFn card VC VS) [(x, y)] σ').map _
        rw [runSched_single]
        exact passMessage_eq h hσ' (hfacts y hy).1

omit [IsStrictOrderedRing K] in
theorem distribute2_passes (hp : Plan T L r lev par ch) (h : RepOK card T.cliques.length VC VS par ch) {kids : JNode → List JNode}
    (hk : ∀ x, validNode T.cliques.length x → (kids x).Perm (L.marks.down x)) {n : Nat} {x : JNode} (hx : validNode T.cliques.length x)
    (hn : L.nodes.length ≤ n + lev x) :
    Passes (K := K) card T.cliques.length VC VS (schedD2 kids n x) (distribute2 kids n x) := by
  induction n generalizing x with
  | zero =>
    have := hp.lt x hx
    omega
  | succ n ih =>
    intro σ hσ
    have hadj' : ∀ {x y : JNode}, validNode T.cliques.length x → y ∈ L.marks.down x → Adj T.cliques.length par ch y x := by
      intro x y hx hy
      obtain ⟨_, h1, h2, h3⟩ := hp.down_facts h hx hy
      have hr : y ≠ .clq r := by
        rintro rfl
        rw [hp.up_root] at h3
        cases h3
      obtain ⟨z, e, ha, _⟩ := hp.up_facts h h2 hr
      rw [h3] at e
      cases e
      exact ha
    have hfacts : ∀ y ∈ kids x, Adj T.cliques.length par ch y x ∧ lev y = lev x + 1 ∧ validNode T.cliques.length y := fun y hy => by
      obtain ⟨_, h2, h3, _⟩ := hp.down_facts h hx ((hk x hx).mem_iff.1 hy)
      exact ⟨hadj' hx ((hk x hx).mem_iff.1 hy), h2, h3⟩
    have hadj : ∀ y ∈ kids x, ∀ p ∈ schedD2 kids n y, Adj T.cliques.length par ch p.1 p.2 := fun y hy p hpm => by
      obtain ⟨_, h1, h2⟩ := mem_schedD2 hp h hk (hfacts y hy).2.2 hpm
      exact hadj' h1 h2
    refine foldlM_sched h ?_ ?_ hσ
    · intro y hy p hpm
      rw [List.mem_cons] at hpm
      rcases hpm with rfl | hpm
      · exact (hfacts y hy).1
      · exact hadj y hy p hpm
    · intro y hy σ hσ
      rw [passMessage_eq h hσ (hfacts y hy).1, runSched_cons]
      cases e : schedStep (msgFn card VC VS) σ (y, x) with
      | error e => rfl
      | ok σ' =>
        exact ih (hfacts y hy).2.2 (by have := (hfacts y hy).2.1; omega) σ' (schedStep_dep h hσ (hfacts y hy).1 e)

/-- All pairs of phases give the same result. -/
theorem phases_eq (hp : Plan T L r lev par ch) (h : RepOK card T.cliques.length VC VS par ch) {lu lu' ld ld' : List (JNode × JNode)}
    (hlu : CollectOrder T L lu) (hlu' : CollectOrder T L lu') (hld : DistributeOrder T L ld) (hld' : DistributeOrder T L ld')
    {up up' dn dn' : JState K → Except Fault (JState K)} (hu : Passes card T.cliques.length VC VS lu up)
    (hu' : Passes card T.cliques.length VC VS lu' up') (hd : Passes card T.cliques.length VC VS ld dn)
    (hd' : Passes card T.cliques.length VC VS ld' dn') {σ : JNode → Assignment → K} (hσ : Contents VC VS σ) :
    (up (repOf card T.cliques.length VC VS σ) >>= dn) = (up' (repOf card T.cliques.length VC VS σ) >>= dn') := by
  rw [hu σ hσ.1, hu' σ hσ.1, collect_order_eq hp hlu' hlu hσ.2]
  cases e : runSched (msgFn card VC VS) lu σ with
  | error e => rfl
  | ok σ' =>
    have h1 := runSched_inv (I := fun x t => DependsOn t (nodeVars VC VS x))
      (fun p hpm t u t' h1 h2 h3 => msgFn_dep h (adj_collectOrder hp h hlu p hpm) h1 h2 h3) hσ.1 e
    have h2 := runSched_inv (I := fun _ (t : Assignment → K) => ∀ a, 0 ≤ t a)
      (fun p hpm t u t' h1 h2 h3 => msgFn_nonneg (x := p.1) (y := p.2) (t := t) (u := u) h1 h2 h3) hσ.2 e
    show dn (repOf card T.cliques.length VC VS σ') = dn' (repOf card T.cliques.length VC VS σ')
    rw [hd σ' h1, hd' σ' h1, distribute_order_eq hld hld' h2]

/-! ### The whole propagation -/

theorem mapM_tab_or {α β ε : Type} {f : α → Except ε β} {n : Nat} {t : Nat → α} {u : Nat → β}
{e : ε} (h : ∀ i < n, f (t i) = .ok (u i) ∨ f (t i) = .error e) :
    (∀ i < n, f (t i) = .ok (u i)) ∨ (tab n t).mapM f = .error e := by
  have key : ∀ l : List Nat, (∀ i ∈ l, i < n) → (∀ i ∈ l, f (t i) = .ok (u i)) ∨ (l.map t).mapM f = .error e := by
    intro l
    induction l with
    | nil => intro _; exact Or.inl (fun i hi => by cases hi)
    | cons i l ih =>
      intro hl
      rw [List.map_cons, List.mapM_cons]
      rcases h i (hl i (by simp)) with e | e
      · rcases ih (fun j hj => hl j (by simp [hj])) with h1 | h1
        · left
          intro j hj
          rw [List.mem_cons] at hj
          rcases hj with rfl | hj
          · exact e
          · exact h1 j hj
        · right
          rw [e, ok_bind, h1]
          rfl
      · right
        rw [e]
        rfl
  rcases key (List.range n) (fun i hi => List.mem_range.1 hi) with h1 | h1
  · exact Or.inl (fun i hi => h1 i (List.mem_range.2 hi))
  · exact Or.inr h1

variable {N : Net} {pts : List (Table K)} {J : JTree K} {F : Nat → Assignment → K}

/-- The contents before the first message: the functions `F` divided by their sums; ones on the separators. -/
structure StartOf (card : Nat → Nat) (m : Nat) (VC : Nat → List Nat) (F : Nat → Assignment → K) (σ : JNode → Assignment → K) : Prop where
  one : ∀ s, σ (.sep s) = fun _ => 1
  clq : ∀ i < m, ∃ z, z ≠ 0 ∧ ∀ a, σ (.clq i) a = F i a / z
  norm : ∀ i < m, sumOut card (VC i) (σ (.clq i)) (fun _ => 0) = 1

/-- The state in which the messages start, or the fault of the normalisation. -/
theorem Built.start (hb : Built N card pts J T L r lev par ch F) (hcard : ∀ i < N.nodes.length, 0 < card i)
    (hnn : ∀ T ∈ pts, ∀ x ∈ T.pot, 0 ≤ x) {E : List (Nat × Nat)} (hE : ∀ e ∈ E, e.1 < N.nodes.length → e.2 < card e.1) :
    (∀ up dn : JState K → Except Fault (JState K), propagateWith up dn J.n E J.state = .error .nan) ∨
      ∃ σ : JNode → Assignment → K, Contents (fun i => unobs E (storedVars T L.marks i)) (fun s => unobs E (sepVars T s)) σ ∧
        StartOf card T.cliques.length (fun i => unobs E (storedVars T L.marks i)) (fun i a => F i (withEv E a)) σ ∧
        ∀ up dn : JState K → Except Fault (JState K), propagateWith up dn J.n E J.state =
          (up (repOf card T.cliques.length (fun i => unobs E (storedVars T L.marks i)) (fun s => unobs E (sepVars T s)) σ) >>= dn) := by
  have hdep : ∀ i, i < T.cliques.length → DependsOn (F i) (storedVars T L.marks i) := fun i hi =>
    (hb.dep i).mono (fun v hv => (hb.plan.mem_stored hi).2 hv)
  have hsub : ∀ s, s + 1 < T.cliques.length → ∀ v ∈ sepVars T s, v ∈ storedVars T L.marks (par s) := fun s hs v hv =>
    (hb.plan.mem_stored ((hb.plan.par_end s hs).lt hb.shapeOK)).2 ((hb.plan.sep_sub hs).2 v hv)
  let F0 : Nat → Assignment → K := fun i a => if i < T.cliques.length then F i (withEv E a) else 1
  have hF0 : ∀ i, i < T.cliques.length → F0 i = fun a => F i (withEv E a) := fun i hi => by
    funext a; show (if i < _ then _ else _) = _; rw [if_pos hi]
  have hF0dep : ∀ i, DependsOn (F0 i) (unobs E (storedVars T L.marks i)) := by
    intro i
    by_cases hi : i < T.cliques.length
    · rw [hF0 i hi]; exact dep_withEv (hdep i hi)
    · intro a b _
      show (if i < _ then _ else _) = (if i < _ then _ else _)
      rw [if_neg hi, if_neg hi]
  have hF0nn : ∀ i a, 0 ≤ F0 i a := by
    intro i a
    show 0 ≤ (if i < _ then _ else _)
    split
    · exact hb.nonneg hnn i _
    · exact zero_le_one
  let F1 : Nat → Assignment → K := fun k a => F0 k a / sumOut card (unobs E (storedVars T L.marks k)) (F0 k) (fun _ => 0)
  have hn1 : ∀ i < T.cliques.length, normalize (fromFn card (unobs E (storedVars T L.marks i)) (fun a => F i (withEv E a))) =
      .ok (fromFn card (unobs E (storedVars T L.marks i)) (F1 i)) ∨
      normalize (fromFn card (unobs E (storedVars T L.marks i)) (fun a => F i (withEv E a))) = .error .nan := by
    intro i hi
    have hnd : (unobs E (storedVars T L.marks i)).Nodup := (storedVars_nodup hb.facts).filter _
    rw [← hF0 i hi]
    by_cases hz : sumOut card (unobs E (storedVars T L.marks i)) (F0 i) (fun _ => 0) = 0
    · right
      exact normalize_zero hnd (fun v hv => hcard v (hb.stored_lt (mem_unobs.1 hv).1)) (hF0dep i) _ hz
    · left
      exact normalize_fromFn hnd (hF0dep i) _ hz
  have hload : loadEvidence J.n E J.state = .ok (repState card T.cliques.length (fun i => unobs E (storedVars T L.marks i))
      (fun s => unobs E (sepVars T s)) (fun i a => F i (withEv E a)) (fun s a => (1 : K))) := by
    rw [hb.n, hb.state]
    exact loadEvidence_eq (fun i _ => storedVars_nodup hb.facts) (fun i _ v hv => hcard v (hb.stored_lt hv)) hdep
      (fun i _ v hv => hb.stored_lt hv) (fun s _ => nodup_of_sorted (sepVars_sorted hb.facts s))
      (fun s hs v hv => hcard v (hb.stored_lt (hsub s hs v hv))) (fun s _ _ _ _ => rfl) (fun s hs v hv => hb.stored_lt (hsub s hs v hv)) hE
  rcases mapM_tab_or (f := normalize) (t := fun i => fromFn card (unobs E (storedVars T L.marks i)) (fun a => F i (withEv E a))) hn1 with h | h
  · right
    have hz : ∀ i < T.cliques.length, sumOut card (unobs E (storedVars T L.marks i)) (F0 i) (fun _ => 0) ≠ 0 := by
      intro i hi hz
      have h1 := h i hi
      rw [← hF0 i hi, normalize_zero (show (unobs E (storedVars T L.marks i)).Nodup from (storedVars_nodup hb.facts).filter _) (fun v hv => hcard v (hb.stored_lt (mem_unobs.1 hv).1)) (hF0dep i) _ hz] at h1
      cases h1
    refine ⟨fun x => match x with | .clq i => F1 i | .sep s => fun _ => 1, ⟨?_, ?_⟩, ⟨fun _ => rfl, ?_, ?_⟩, ?_⟩
    · intro x
      cases x with
      | clq i => exact dep_div (hF0dep i) _
      | sep s => exact fun _ _ _ => rfl
    · intro x a
      cases x with
      | clq i => exact div_nonneg (hF0nn i a) (sumOut_nonneg (hF0nn i) _)
      | sep s => exact zero_le_one
    · intro i hi
      refine ⟨_, hz i hi, fun a => ?_⟩
      show F0 i a / _ = _
      rw [hF0 i hi]
    · intro i hi
      show sumOut card _ (fun a => F0 i a / _) _ = 1
      rw [sumOut_div_const, div_self (hz i hi)]
    · intro up dn
      unfold propagateWith
      rw [hload, ok_bind]
      have e2 : (repState card T.cliques.length (fun i => unobs E (storedVars T L.marks i)) (fun s => unobs E (sepVars T s))
        (fun i a => F i (withEv E a)) (fun s a => (1 : K))).clq.mapM normalize = _ := mapM_tab h
      rw [e2, ok_bind]
      rfl
  · left
    intro up dn
    unfold propagateWith
    rw [hload, ok_bind]
    have e2 : (repState card T.cliques.length (fun i => unobs E (storedVars T L.marks i)) (fun s => unobs E (sepVars T s))
      (fun i a => F i (withEv E a)) (fun s a => (1 : K))).clq.mapM normalize = _ := h
    rw [e2]
    rfl

/-- All ways of passing the messages give the same result. -/
theorem Built.propagateWith_eq (hb : Built N card pts J T L r lev par ch F) (hcard : ∀ i < N.nodes.length, 0 < card i)
    (hnn : ∀ T ∈ pts, ∀ x ∈ T.pot, 0 ≤ x) {E : List (Nat × Nat)} (hE : ∀ e ∈ E, e.1 < N.nodes.length → e.2 < card e.1)
    {lu ld : List (JNode × JNode)} (hlu : CollectOrder T L lu) (hld : DistributeOrder T L ld) {up dn : JState K → Except Fault (JState K)}
    (hu : Passes card T.cliques.length (fun i => unobs E (storedVars T L.marks i)) (fun s => unobs E (sepVars T s)) lu up)
    (hd : Passes card T.cliques.length (fun i => unobs E (storedVars T L.marks i)) (fun s => unobs E (sepVars T s)) ld dn) :
    propagateWith up dn J.n E J.state = FastPGM.propagate J.levels J.n E J.state := by
  have hrep := hb.repOK hcard E
  have e0 : FastPGM.propagate J.levels J.n E J.state = propagateWith (collect L) (distribute L) J.n E J.state := by
    rw [hb.levels]
    rfl
  rw [e0]
  rcases hb.start hcard hnn hE with h | ⟨σ, hσ, _, h⟩
  · rw [h, h]
  · rw [h, h]
    exact phases_eq hb.plan hrep hlu (collectSched_order hb.plan hrep) hld (distributeSched_order hb.plan hrep) hu
      (fun σ hσ => collect_sched hb.plan hrep hσ) hd (fun σ hσ => distribute_sched hb.plan hrep hσ) hσ

end FastPGM
