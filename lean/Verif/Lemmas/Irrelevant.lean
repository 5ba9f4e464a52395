import Verif.Props.Joint
import Verif.Lemmas.MarkovWalk

/-!
Lemmas for C92 and C93: evidence that is d-separated from the query does not change the conditional distribution, and neither do the tables of
nodes that are no ancestors of the query or the evidence.
-/

namespace FastPGM

open Spec

/-! ### Reaching the parents of an ancestor -/

section

variable {D : Nat → Nat → Prop} {Z W : List Nat} {q : Nat}

/-- `v` is an ancestor of (or is) the query, an observed node, or a node of `W`. -/
def Ancestral (D : Nat → Nat → Prop) (q : Nat) (Z W : List Nat) (v : Nat) : Prop :=
  ∃ t, (t = q ∨ t ∈ Z ∨ t ∈ W) ∧ Relation.ReflTransGen D v t

theorem Ancestral.parent {v p : Nat} (h : Ancestral D q Z W v) (hp : D p v) : Ancestral D q Z W p := by
  obtain ⟨t, h1, h2⟩ := h
  exact ⟨t, h1, .head hp h2⟩

theorem reach_down {c w : Nat} (hcw : Relation.ReflTransGen D c w) : (∀ z ∈ Z, ¬ Relation.ReflTransGen D c z) →
    Reach D Z q c true → Reach D Z q w true := by
  induction hcw using Relation.ReflTransGen.head_induction_on with
  | refl => exact fun _ h => h
  | head h1 _ ih =>
    intro hz h
    exact ih (fun z hzZ h' => hz z hzZ (.head h1 h')) (.down h (fun hm => hz _ hm .refl) h1)

theorem reach_up {c : Nat} (hcq : Relation.ReflTransGen D c q) : ∀ {b : Nat}, (∀ z ∈ Z, ¬ Relation.ReflTransGen D c z) → D b c →
    Reach D Z q b false := by
  induction hcq using Relation.ReflTransGen.head_induction_on with
  | refl => exact fun _ h => .startUp h
  | head h1 _ ih =>
    intro b hz h
    exact .up (ih (fun z hzZ h' => hz z hzZ (.head h1 h')) h1) (fun hm => hz _ hm .refl) h

theorem reach_enter (hW : ∀ w ∈ W, ∀ d, ¬ Reach D Z q w d) {b c : Nat} (hc : Ancestral D q Z W c) (h : Reach D Z q c true) (hb : D b c) :
    Reach D Z q b false := by
  by_cases hz : ∃ z ∈ Z, Relation.ReflTransGen D c z
  · obtain ⟨z, hz, hcz⟩ := hz
    exact Reach.open_collider hz hcz h hb
  · push Not at hz
    obtain ⟨t, ht, hct⟩ := hc
    rcases ht with rfl | ht | ht
    · exact reach_up hct hz hb
    · exact absurd hct (hz t ht)
    · exact absurd (reach_down hct hz h) (hW t ht true)

/-- The ancestors, not observed, that the query can reach. -/
def Connected (D : Nat → Nat → Prop) (q : Nat) (Z W : List Nat) (v : Nat) : Prop :=
  Ancestral D q Z W v ∧ v ∉ Z ∧ (v = q ∨ ∃ d, Reach D Z q v d)

/-- A family (a node and its parents) within the ancestors lies on one side, apart from observed nodes. -/
theorem Connected.family (hW : ∀ w ∈ W, ∀ d, ¬ Reach D Z q w d) {i v b : Nat} (hi : Ancestral D q Z W i) (hv : Connected D q Z W v)
    (hvi : v = i ∨ D v i) (hbi : b = i ∨ D b i) (hb : b ∉ Z) : Connected D q Z W b := by
  obtain ⟨h1, h2, h3⟩ := hv
  have down : ∀ {c}, D v c → Reach D Z q c true := by
    intro c hc
    rcases h3 with rfl | ⟨d, h3⟩
    · exact .startDown hc
    · exact .down h3 h2 hc
  have up : ∀ {p}, D p v → Reach D Z q p false := by
    intro p hp
    rcases h3 with rfl | ⟨d, h3⟩
    · exact .startUp hp
    · cases d with
      | true => exact reach_enter hW h1 h3 hp
      | false => exact .up h3 h2 hp
  rcases hbi with rfl | hbi
  · rcases hvi with rfl | hvi
    · exact ⟨h1, h2, h3⟩
    · exact ⟨hi, hb, Or.inr ⟨_, down hvi⟩⟩
  · refine ⟨hi.parent hbi, hb, Or.inr ⟨false, ?_⟩⟩
    rcases hvi with rfl | hvi
    · exact up hbi
    · exact reach_enter hW hi (down hvi) hbi

end

/-! ### Sums -/

/-- A topological order in which a set of nodes closed under parents comes first. -/
theorem topological_first {n : Nat} {E : Nat → Nat → Prop} {l : List Nat} (h : IsTopologicalOrder n E l) {A : Nat → Prop} [DecidablePred A]
    (hA : ∀ a b, E a b → A b → A a) : IsTopologicalOrder n E (l.filter (fun v => A v) ++ l.filter (fun v => ¬ A v)) := by
  obtain ⟨h1, h2, h3⟩ := h
  refine ⟨?_, ?_, ?_⟩
  · rw [List.nodup_append]
    refine ⟨h1.filter _, h1.filter _, ?_⟩
    intro a ha b hb
    simp only [List.mem_filter, decide_eq_true_eq] at ha hb
    rintro rfl
    exact hb.2 ha.2
  · intro v
    rw [← h2 v]
    simp only [List.mem_append, List.mem_filter, decide_eq_true_eq]
    tauto
  · intro a b hab
    obtain ⟨l1, l2, l3, e⟩ := h3 a b hab
    subst e
    simp only [List.filter_append, List.filter_cons]
    by_cases hb : A b
    · have ha := hA a b hab hb
      refine ⟨l1.filter (fun v => A v), l2.filter (fun v => A v), l3.filter (fun v => A v) ++ (l1.filter (fun v => ¬ A v) ++
        (l2.filter (fun v => ¬ A v) ++ l3.filter (fun v => ¬ A v))), ?_⟩
      simp [ha, hb]
    · by_cases ha : A a
      · refine ⟨l1.filter (fun v => A v), l2.filter (fun v => A v) ++ l3.filter (fun v => A v) ++ (l1.filter (fun v => ¬ A v) ++
          l2.filter (fun v => ¬ A v)), l3.filter (fun v => ¬ A v), ?_⟩
        simp [ha, hb]
      · refine ⟨l1.filter (fun v => A v) ++ (l2.filter (fun v => A v) ++ l3.filter (fun v => A v)) ++ l1.filter (fun v => ¬ A v),
          l2.filter (fun v => ¬ A v), l3.filter (fun v => ¬ A v), ?_⟩
        simp [ha, hb]

variable {K : Type} [Field K] {card : Nat → Nat}

/-- Nodes outside a set closed under parents are summed out. -/
theorem sumOut_barren {N : Net} (hinv : NetInv N) {pts : List (Table K)} (hpts : NodeTables card N pts) (hcond : ConditionalTables card pts)
    {l : List Nat} (hl : IsTopologicalOrder N.nodes.length (ChildOf N) l) {A : Nat → Prop} [DecidablePred A] (hA : ∀ a b, ChildOf N a b → A b → A a)
    {f : Assignment → K} (hf : DependsOn f (l.filter (fun v => A v))) :
    sumOut card (List.range N.nodes.length) (fun b => f b * joint pts b) (fun _ => 0) =
      sumOut card (l.filter (fun v => A v)) (fun b => f b * ((l.filter (fun v => A v)).map (fun v => nodeFactor pts v b)).prod) (fun _ => 0) := by
  have hl' := topological_first hl hA
  have ho := jointOrder hinv hpts hcond hl'
  have hn := ho.nodup
  have hmem : ∀ v ∈ l.filter (fun v => A v) ++ l.filter (fun v => ¬ A v), v ∈ List.range N.nodes.length := by
    intro v hv
    exact List.mem_range.2 ((hl'.2.1 v).1 hv)
  have key := sumOut_order (card := card) (V := List.range N.nodes.length) (nodeFactor pts) (l.filter (fun v => ¬ A v)) (l.filter (fun v => A v)) hn hmem
    (fun q v r e _ => ho.dep q v r e) (fun v hv a ha => ho.one v (by simp only [List.mem_append]; exact Or.inr hv) a ha)
    (fun b => f b * ((l.filter (fun v => A v)).map (fun v => nodeFactor pts v b)).prod) (by
      intro a b hab
      show f a * _ = f b * _
      rw [hf a b hab]
      congr 2
      apply List.map_congr_left
      intro v hv
      obtain ⟨q, r, e⟩ := List.append_of_mem hv
      refine ho.dep q v (r ++ l.filter (fun v => ¬ A v)) (by rw [e]; simp) a b ?_
      intro x hx
      apply hab
      rw [e]
      simp only [List.mem_cons, List.mem_append] at hx ⊢
      tauto) (fun _ => 0) (fun v hv => (nodeTables_facts hpts).1 v (List.mem_range.1 hv))
  rw [← key, ← hpts.length, ← sumOut_perm_eq ho.perm]
  congr 1
  funext b
  rw [joint_eq_order ho.perm, List.map_append, List.prod_append, mul_assoc]

/-- A sum over the variables `us` and `rs` of a product of a function of `us` and the observed variables, and a function of `rs`, is a
product, if the observed values are given. -/
theorem sumOut_split {us rs zs : List Nat} {E : List (Nat × Nat)} {F G : Assignment → K} (hF : DependsOn F (us ++ zs)) (hG : DependsOn G rs)
    (hd : ∀ u ∈ us, u ∉ rs) (hz : ∀ z ∈ zs, z ∈ E.map Prod.fst) (hE : ∀ e ∈ E, e.1 ∈ rs) {c : Assignment} (hc : Agrees E c) (a : Assignment) :
    sumOut card (rs ++ us) (fun b => if Agrees E b then F b * G b else 0) a =
      sumOut card us F c * sumOut card rs (fun b => if Agrees E b then G b else 0) a := by
  have hdep : DependsOn (fun b => if Agrees E b then G b else 0) rs := by
    intro b b' h
    have : Agrees E b ↔ Agrees E b' := forall₂_congr (fun e he => by rw [h e.1 (hE e he)])
    simp only [this, hG b b' h]
  have e1 : (fun b => if Agrees E b then F b * G b else 0) = fun b => F b * (if Agrees E b then G b else 0) := by
    funext b
    by_cases h : Agrees E b <;> simp [h]
  rw [e1, sumOut_append]
  have e2 : ∀ b, sumOut card us (fun b => F b * (if Agrees E b then G b else 0)) b = sumOut card us F b * (if Agrees E b then G b else 0) :=
    fun b => sumOut_mul hdep hd b
  simp only [e2]
  rw [← sumOut_const_mul (sumOut card us F c)]
  apply sumOut_congr
  intro b _ _
  by_cases h : Agrees E b
  · rw [sumOut_agree (b := c) hF]
    intro v hv hvu
    rcases List.mem_append.1 hv with hv | hv
    · exact absurd hv hvu
    · obtain ⟨e, he, rfl⟩ := List.mem_map.1 (hz v hv)
      rw [h e he, hc e he]
  · simp [h]

theorem prod_filter (l : List Nat) (P : Nat → Prop) [DecidablePred P] (f : Nat → K) :
    (l.map f).prod = ((l.filter (fun v => P v)).map f).prod * ((l.filter (fun v => ¬ P v)).map f).prod := by
  induction l with
  | nil => simp
  | cons v l ih =>
    rw [List.map_cons, List.prod_cons, ih, List.filter_cons, List.filter_cons]
    by_cases h : P v
    · simp [h, mul_assoc]
    · simp [h, mul_left_comm]

theorem nodeFactor_dependsOn {N : Net} {pts : List (Table K)} (hpts : NodeTables card N pts) {i : Nat} {ws : List Nat}
    (h : ∀ v, v = i ∨ ParentOf N v i → v ∈ ws) : DependsOn (nodeFactor pts i) ws := by
  cases hT : pts[i]? with
  | none =>
    intro a b _
    simp [nodeFactor, hT]
  | some T =>
    rw [nodeFactor_eq hT]
    exact (value_dependsOn T).mono (fun v hv => h v ((hpts.vars i T hT v).1 hv))

theorem prod_dependsOn {l ws : List Nat} {F : Nat → Assignment → K} (h : ∀ i ∈ l, DependsOn (F i) ws) :
    DependsOn (fun b => (l.map (fun v => F v b)).prod) ws := by
  intro a b hab
  show (l.map _).prod = (l.map _).prod
  congr 1
  exact List.map_congr_left (fun v hv => h v hv a b hab)

open Classical in
/-- Sums over the assignments with the observed values: what concerns the query and what concerns nodes that are d-separated from it are two
factors. -/
theorem sumOut_separated {N : Net} (hinv : NetInv N) {pts : List (Table K)} (hpts : NodeTables card N pts) (hcond : ConditionalTables card pts)
    {l : List Nat} (hl : IsTopologicalOrder N.nodes.length (ChildOf N) l) {E : List (Nat × Nat)} {q : Nat} {W : List Nat}
    (hEn : (E.map Prod.fst).Nodup) (hE : ∀ e ∈ E, e.1 < N.nodes.length) (hq : q < N.nodes.length) (hqE : q ∉ E.map Prod.fst) (hW : ∀ w ∈ W, w < N.nodes.length)
    (hqW : q ∉ W) (hreach : ∀ w ∈ W, ∀ d, ¬ Reach (ParentOf N) (E.map Prod.fst) q w d) :
    ∃ H G : (Assignment → K) → K, ∀ f g : Assignment → K, DependsOn f [q] → DependsOn g W →
      sumOut card (List.range N.nodes.length) (fun b => (if Agrees E b then f b * g b else 0) * joint pts b) (fun _ => 0) = H f * G g := by
  set Z := E.map Prod.fst with hZ
  set D := ParentOf N with hD
  have hlt : ∀ p c, D p c → p < N.nodes.length := fun p c h => (hinv.wf.lt ((hinv.wf.sym p c).2 (parentOf_iff.1 h))).1
  have hanc : ∀ a b, ChildOf N a b → Ancestral D q Z W b → Ancestral D q Z W a :=
    fun a b h hb => hb.parent ((parentOf_iff_childOf hinv.wf).2 h)
  set As := l.filter (fun v => Ancestral D q Z W v) with hAs
  have memAs : ∀ v, v ∈ As ↔ v < N.nodes.length ∧ Ancestral D q Z W v := by
    intro v
    rw [hAs, List.mem_filter, hl.2.1, decide_eq_true_iff]
  set us := As.filter (fun v => Connected D q Z W v) with hus
  set rs := As.filter (fun v => ¬ Connected D q Z W v) with hrs
  set near : Nat → Prop := fun i => ∃ v, (v = i ∨ D v i) ∧ Connected D q Z W v with hnear
  have memus : ∀ v, v ∈ us ↔ v < N.nodes.length ∧ Connected D q Z W v := by
    intro v
    rw [hus, List.mem_filter, memAs, decide_eq_true_iff]
    exact ⟨fun h => ⟨h.1.1, h.2⟩, fun h => ⟨⟨h.1, h.2.1⟩, h.2⟩⟩
  have memrs : ∀ v, v ∈ rs ↔ (v < N.nodes.length ∧ Ancestral D q Z W v) ∧ ¬ Connected D q Z W v := by
    intro v
    rw [hrs, List.mem_filter, memAs, decide_eq_true_iff]
  have hperm : As.Perm (rs ++ us) := ((List.filter_append_perm (fun v => decide (Connected D q Z W v)) As).symm.trans List.perm_append_comm).trans
    (List.Perm.append_right _ (List.Perm.of_eq (by rw [hrs]; apply List.filter_congr; intro v _; simp)))
  have hfam : ∀ i v, i ∈ As → (v = i ∨ D v i) → v < N.nodes.length ∧ Ancestral D q Z W v := by
    rintro i v hi (rfl | h)
    · exact (memAs v).1 hi
    · exact ⟨hlt v i h, ((memAs i).1 hi).2.parent h⟩
  have hZmem : ∀ z ∈ Z, z ∈ rs := by
    intro z hz
    obtain ⟨e, he, rfl⟩ := List.mem_map.1 hz
    exact (memrs _).2 ⟨⟨hE e he, e.1, Or.inr (Or.inl hz), .refl⟩, fun h => h.2.1 hz⟩
  have hWmem : ∀ w ∈ W, w ∈ rs := by
    intro w hw
    refine (memrs _).2 ⟨⟨hW w hw, w, Or.inr (Or.inr hw), .refl⟩, fun h => ?_⟩
    rcases h.2.2 with rfl | ⟨d, h⟩
    · exact hqW hw
    · exact hreach w hw d h
  have hqmem : q ∈ us := (memus q).2 ⟨hq, ⟨q, Or.inl rfl, .refl⟩, hqE, Or.inl rfl⟩
  have hFU : DependsOn (fun b => ((As.filter (fun v => near v)).map (fun v => nodeFactor pts v b)).prod) (us ++ Z) := by
    refine prod_dependsOn (fun i hi => nodeFactor_dependsOn hpts (fun v hv => ?_))
    rw [List.mem_filter, decide_eq_true_iff] at hi
    obtain ⟨hi, u, hu, hc⟩ := hi
    by_cases hz : v ∈ Z
    · exact List.mem_append_right _ hz
    · exact List.mem_append_left _ ((memus v).2 ⟨(hfam i v hi hv).1, hc.family hreach ((memAs i).1 hi).2 hu hv hz⟩)
  have hGR : DependsOn (fun b => ((As.filter (fun v => ¬ near v)).map (fun v => nodeFactor pts v b)).prod) rs := by
    refine prod_dependsOn (fun i hi => nodeFactor_dependsOn hpts (fun v hv => ?_))
    rw [List.mem_filter, decide_eq_true_iff] at hi
    exact (memrs v).2 ⟨hfam i v hi.1 hv, fun h => hi.2 ⟨v, hv, h⟩⟩
  refine ⟨fun f => sumOut card us (fun b => f b * ((As.filter (fun v => near v)).map (fun v => nodeFactor pts v b)).prod) (withEv E (fun _ => 0)),
    fun g => sumOut card rs (fun b => if Agrees E b then g b * ((As.filter (fun v => ¬ near v)).map (fun v => nodeFactor pts v b)).prod else 0) (fun _ => 0), ?_⟩
  intro f g hf hg
  rw [sumOut_barren hinv hpts hcond hl hanc (by
    intro a b hab
    have hag : Agrees E a ↔ Agrees E b := forall₂_congr (fun e he => by
      rw [hab e.1 ((memAs _).2 ((memrs e.1).1 (hZmem e.1 (List.mem_map.2 ⟨e, he, rfl⟩))).1)])
    have h1 : f a = f b := hf a b (fun v hv => hab v (by
      simp at hv
      subst hv
      exact (List.mem_filter.1 hqmem).1))
    have h2 : g a = g b := hg a b (fun v hv => hab v (List.mem_filter.1 (hWmem v hv)).1)
    simp only [hag, h1, h2])]
  rw [sumOut_perm_eq hperm, ← sumOut_split (zs := Z) (card := card) (F := fun b => f b * ((As.filter (fun v => near v)).map (fun v => nodeFactor pts v b)).prod)
    (G := fun b => g b * ((As.filter (fun v => ¬ near v)).map (fun v => nodeFactor pts v b)).prod) ?_ ?_ ?_ (fun z hz => hz) ?_
    (fun e he => withEv_eq hEn he _)]
  · congr 1
    funext b
    rw [prod_filter As near]
    by_cases h : Agrees E b
    · simp only [h, if_true]
      ring
    · simp [h]
  · intro a b hab
    show f a * _ = f b * _
    rw [hf a b (fun v hv => hab v (by simp at hv; subst hv; exact List.mem_append_left _ hqmem))]
    exact congrArg (f b * ·) (hFU a b hab)
  · intro a b hab
    show g a * _ = g b * _
    rw [hg a b (fun v hv => hab v (hWmem v hv))]
    exact congrArg (g b * ·) (hGR a b hab)
  · intro u hu hr
    exact ((memrs u).1 hr).2 ((memus u).1 hu).2
  · intro e he
    exact hZmem e.1 (List.mem_map.2 ⟨e, he, rfl⟩)

/-- Evidence on nodes that are d-separated from the query by the other evidence does not change the conditional distribution. -/
theorem posterior_separated {N : Net} (hinv : NetInv N) {pts : List (Table K)} (hpts : NodeTables card N pts) (hcond : ConditionalTables card pts)
    {l : List Nat} (hl : IsTopologicalOrder N.nodes.length (ChildOf N) l) {E F : List (Nat × Nat)} {q : Nat}
    (hEn : (E.map Prod.fst).Nodup) (hE : ∀ e ∈ E, e.1 < N.nodes.length) (hF : ∀ e ∈ F, e.1 < N.nodes.length) (hq : q < N.nodes.length)
    (hqE : q ∉ E.map Prod.fst) (hqF : q ∉ F.map Prod.fst) (hsep : ∀ w ∈ F.map Prod.fst, DSeparated (ParentOf N) (E.map Prod.fst) q w)
    (hpos : weight card N.nodes.length (joint pts) (Agrees (E ++ F)) ≠ 0)
    (hpos' : weight card N.nodes.length (joint pts) (Agrees E) ≠ 0) (x : Nat) :
    posterior card N.nodes.length (joint pts) (E ++ F) q x = posterior card N.nodes.length (joint pts) E q x := by
  have hacyc : ¬ Cyclic (ParentOf N) := by
    have : ParentOf N = ChildOf N := by
      funext a b
      exact propext (parentOf_iff_childOf hinv.wf)
    rw [this]
    exact not_cyclic_of_order hl
  have hne : ∀ w ∈ F.map Prod.fst, q ≠ w := fun w hw e => hqF (e ▸ hw)
  obtain ⟨H, G, h⟩ := sumOut_separated (card := card) hinv hpts hcond hl (W := F.map Prod.fst) hEn hE hq hqE (by
    intro w hw
    obtain ⟨e, he, rfl⟩ := List.mem_map.1 hw
    exact hF e he) hqF (fun w hw => (dSeparated_iff hacyc (hne w hw)).1 (hsep w hw))
  have hq1 : DependsOn (fun _ : Assignment => (1 : K)) [q] := fun _ _ _ => rfl
  have hqx : DependsOn (fun b : Assignment => if b q = x then (1 : K) else 0) [q] := fun a b hab => by simp only [hab q (by simp)]
  have hg1 : DependsOn (fun _ : Assignment => (1 : K)) (F.map Prod.fst) := fun _ _ _ => rfl
  have hgF : DependsOn (fun b : Assignment => if Agrees F b then (1 : K) else 0) (F.map Prod.fst) := by
    intro a b hab
    have : Agrees F a ↔ Agrees F b := forall₂_congr (fun e he => by rw [hab e.1 (List.mem_map.2 ⟨e, he, rfl⟩)])
    simp only [this]
  have happ : ∀ b, Agrees (E ++ F) b ↔ Agrees E b ∧ Agrees F b := by
    intro b
    unfold Agrees
    simp only [List.mem_append]
    exact ⟨fun h => ⟨fun e he => h e (Or.inl he), fun e he => h e (Or.inr he)⟩, fun h e he => he.elim (h.1 e) (h.2 e)⟩
  have w1 : weight card N.nodes.length (joint pts) (fun a => Agrees (E ++ F) a ∧ a q = x) = H (fun b => if b q = x then 1 else 0) * G (fun b => if Agrees F b then 1 else 0) := by
    rw [← h _ _ hqx hgF]
    unfold weight
    congr 1
    funext b
    by_cases h1 : Agrees E b <;> by_cases h2 : Agrees F b <;> by_cases h3 : b q = x <;> simp [happ, h1, h2, h3]
  have w2 : weight card N.nodes.length (joint pts) (Agrees (E ++ F)) = H (fun _ => 1) * G (fun b => if Agrees F b then 1 else 0) := by
    rw [← h _ _ hq1 hgF]
    unfold weight
    congr 1
    funext b
    by_cases h1 : Agrees E b <;> by_cases h2 : Agrees F b <;> simp [happ, h1, h2]
  have w3 : weight card N.nodes.length (joint pts) (fun a => Agrees E a ∧ a q = x) = H (fun b => if b q = x then 1 else 0) * G (fun _ => 1) := by
    rw [← h _ _ hqx hg1]
    unfold weight
    congr 1
    funext b
    by_cases h1 : Agrees E b <;> by_cases h3 : b q = x <;> simp [h1, h3]
  have w4 : weight card N.nodes.length (joint pts) (Agrees E) = H (fun _ => 1) * G (fun _ => 1) := by
    rw [← h _ _ hq1 hg1]
    unfold weight
    congr 1
    funext b
    by_cases h1 : Agrees E b <;> simp [h1]
  unfold posterior
  rw [w1, w2, w3, w4]
  rw [w2] at hpos
  rw [w4] at hpos'
  rw [mul_div_mul_right _ _ (right_ne_zero_of_mul hpos), mul_div_mul_right _ _ (right_ne_zero_of_mul hpos')]

end FastPGM
