import Verif.Lemmas.JTPrim
import Verif.Spec.JunctionTree

/-!
The structure of the junction tree of a network.
-/

namespace FastPGM

open Spec Relation

theorem NetWF.parent_lt {N : Net} (h : NetWF N) {p c : Nat} (hp : ParentOf N p c) : p < N.nodes.length ∧ c < N.nodes.length :=
  h.lt ((h.sym p c).2 (parentOf_iff.1 hp))

theorem NetInv.not_self {N : Net} (h : NetInv N) (i : Nat) : ¬ ParentOf N i i := fun hp =>
  h.acyclic ⟨i, .single (childOf_iff.2 ((h.wf.sym i i).2 (parentOf_iff.1 hp)))⟩

theorem Spec.MoralAdj.symm {N : Net} {i j : Nat} (h : MoralAdj N i j) : MoralAdj N j i := by
  obtain ⟨h1, h2 | h2 | ⟨c, h2, h3⟩⟩ := h
  · exact ⟨h1.symm, Or.inr (Or.inl h2)⟩
  · exact ⟨h1.symm, Or.inl h2⟩
  · exact ⟨h1.symm, Or.inr (Or.inr ⟨c, h3, h2⟩)⟩

theorem Spec.MoralAdj.lt {N : Net} (h : NetWF N) {i j : Nat} (hij : MoralAdj N i j) : i < N.nodes.length := by
  obtain ⟨_, h2 | h2 | ⟨c, h2, h3⟩⟩ := hij
  · exact (h.parent_lt h2).1
  · exact (h.parent_lt h2).2
  · exact (h.parent_lt h2).1

/-- The moral graph computed by the program. -/
theorem moral_spec {N : Net} (h : NetInv N) :
    ∃ M g, N.adjacencyMatrix = .ok M ∧ moralize M N.nodes.length = .ok (matOf N.nodes.length g) ∧
      ∀ a < N.nodes.length, ∀ b < N.nodes.length, (g a b = 1 ↔ MoralAdj N a b) := by
  obtain ⟨g, h1, h2, h3⟩ := moralize_eq (n := N.nodes.length) (fun i j => if j ∈ N.ch i then (1 : Int) else 0)
  refine ⟨_, g, adjacencyMatrix_eq h.wf, h1, fun a ha b hb => ?_⟩
  have e : ∀ x y, ((if y ∈ N.ch x then (1 : Int) else 0) = 1 ↔ ParentOf N x y) := by
    intro x y
    rw [parentOf_iff, ← h.wf.sym]
    split <;> simp [*]
  by_cases hab : a = b
  · subst hab
    rw [h3 a ha, e]
    exact ⟨fun hp => absurd hp (h.not_self a), fun hm => absurd rfl hm.1⟩
  · rw [h2 a ha b hb hab, e, e]
    simp only [e]
    constructor
    · rintro (h4 | h4 | ⟨c, hc, h4, h5, _⟩)
      · exact ⟨hab, Or.inl h4⟩
      · exact ⟨hab, Or.inr (Or.inl h4)⟩
      · exact ⟨hab, Or.inr (Or.inr ⟨c, h4, h5⟩)⟩
    · rintro ⟨_, h4 | h4 | ⟨c, h4, h5⟩⟩
      · exact Or.inl h4
      · exact Or.inr (Or.inl h4)
      · refine Or.inr (Or.inr ⟨c, (h.wf.parent_lt h4).2, h4, h5, ?_, ?_⟩)
        · rintro rfl; exact h.not_self _ h4
        · rintro rfl; exact h.not_self _ h5

theorem moral_good {N : Net} (h : NetInv N) : GoodGraph (MoralAdj N) (fun a => a < N.nodes.length) :=
  ⟨fun _ _ h => h.symm, fun _ h => h.1 rfl, fun _ _ hab => hab.lt h.wf⟩

/-- The cliques of a network. -/
theorem cliques_spec {N : Net} (h : NetInv N) :
    ∃ ks, Elim (MoralAdj N) (fun a => a < N.nodes.length) ks ∧ N.cliques = .ok (keepCliques [] (ks.map Prod.snd)) := by
  obtain ⟨M, g, h1, h2, h3⟩ := moral_spec h
  have hrem : (fun a => (List.replicate N.nodes.length false)[a]? = some false) = (fun a => a < N.nodes.length) := by
    funext a
    rw [List.getElem?_replicate]
    by_cases ha : a < N.nodes.length <;> simp [ha]
  obtain ⟨ks, h4, h5⟩ := triangulate_spec (n := N.nodes.length) (N.nodes.length + 1) (g := g) (e := MoralAdj N)
    (done := List.replicate N.nodes.length false) (by simp) h3 (by rw [hrem]; exact moral_good h)
    (by have := List.countP_le_length (p := fun d => !d) (l := List.replicate N.nodes.length false); rw [List.length_replicate] at this; omega) []
  refine ⟨ks, hrem ▸ h4, ?_⟩
  unfold Net.cliques
  rw [h1, ok_bind, h2, ok_bind]
  exact h5

/-- What is known of the cliques of a network. -/
structure CliqueFacts (N : Net) (cs : List (List Nat)) : Prop where
  sorted : ∀ c ∈ cs, c.Pairwise (· < ·)
  nonempty : ∀ c ∈ cs, c ≠ []
  lt : ∀ c ∈ cs, ∀ v ∈ c, v < N.nodes.length
  cover : ∀ Q : Nat → Prop, (∃ a, Q a) → (∀ a, Q a → a < N.nodes.length) → (∀ a b, Q a → Q b → a ≠ b → MoralAdj N a b) →
    ∃ c ∈ cs, ∀ a, Q a → a ∈ c
  incomparable : cs.Pairwise (fun a b => (¬ ∀ x ∈ b, x ∈ a) ∧ ¬ ∀ x ∈ a, x ∈ b)
  conn : ∀ c ∈ cs, ∀ a ∈ c, ∀ b ∈ c, ReflTransGen (MoralAdj N) a b
  jt : ∃ T, IsJT (clqHas cs) (fun i => i < cs.length) T

theorem Elim.conn {e : Nat → Nat → Prop} {rem : Nat → Prop} {ks : List (Nat × List Nat)} (h : Elim e rem ks) (hg : GoodGraph e rem) :
    ∀ p ∈ ks, ∀ a ∈ p.2, ∀ b ∈ p.2, ReflTransGen e a b := by
  induction h with
  | nil _ => simp
  | @cons e rem v k ks h1 h2 h3 h4 ih =>
    intro p hp a ha b hb
    rcases List.mem_cons.1 hp with rfl | hp
    · have hv : ∀ x, x ∈ k → ReflTransGen e v x := by
        intro x hx
        rcases (h3 x).1 hx with rfl | hx
        · exact .refl
        · exact .single hx
      exact (conn_symm hg.symm (hv a ha)).trans (hv b hb)
    · refine conn_bind ?_ (ih (hg.elim v) p hp a ha b hb)
      rintro x y ⟨_, _, hxy | ⟨_, hx, hy⟩⟩
      · exact .single hxy
      · exact .head (hg.symm _ _ hx) (.single hy)

theorem incomparable_nodup {cs : List (List Nat)} (h : cs.Pairwise (fun a b => (¬ ∀ x ∈ b, x ∈ a) ∧ ¬ ∀ x ∈ a, x ∈ b)) : cs.Nodup :=
  h.imp (fun {a b} hab (e : a = b) => hab.1 (e ▸ fun _ hx => hx))

theorem cliques_facts {N : Net} (h : NetInv N) : ∃ cs, N.cliques = .ok cs ∧ CliqueFacts N cs := by
  obtain ⟨ks, h1, h2⟩ := cliques_spec h
  have hg := moral_good h
  have hk := h1.kept hg
  have hsub : ∀ c ∈ keepCliques [] (ks.map Prod.snd), ∃ p ∈ ks, p.2 = c := fun c hc => List.mem_map.1 (hk.sub c hc)
  refine ⟨_, h2, hk.sorted, ?_, ?_, ?_, hk.incomparable, ?_, ?_⟩
  · intro c hc
    obtain ⟨p, hp, rfl⟩ := hsub c hc
    exact List.ne_nil_of_mem (h1.self_mem p hp)
  · intro c hc v hv
    obtain ⟨p, hp, rfl⟩ := hsub c hc
    exact h1.mem_rem hg p hp v hv
  · intro Q hne hlt hadj
    obtain ⟨p, hp, hpa⟩ := h1.cover hg hne hlt hadj
    obtain ⟨c, hc, hs⟩ := hk.cover p.2 (List.mem_map_of_mem hp)
    exact ⟨c, hc, fun a ha => hs a (hpa a ha)⟩
  · intro c hc
    obtain ⟨p, hp, rfl⟩ := hsub c hc
    exact h1.conn hg p hp
  · obtain ⟨T, hT⟩ := h1.exists_jt hg
    exact (hT.congrF hk.maximal).toIndex (incomparable_nodup hk.incomparable)

/-- A node and its parents are in one clique. -/
theorem CliqueFacts.family {N : Net} (h : NetInv N) {cs : List (List Nat)} (hc : CliqueFacts N cs) {i : Nat} (hi : i < N.nodes.length) :
    ∃ c ∈ cs, i ∈ c ∧ ∀ p, ParentOf N p i → p ∈ c := by
  obtain ⟨c, h1, h2⟩ := hc.cover (fun a => a = i ∨ ParentOf N a i) ⟨i, Or.inl rfl⟩
    (by rintro a (rfl | ha)
        · exact hi
        · exact (h.wf.parent_lt ha).1)
    (by
      rintro a b (rfl | ha) (rfl | hb) hab
      · exact absurd rfl hab
      · exact ⟨hab, Or.inr (Or.inl hb)⟩
      · exact ⟨hab, Or.inl ha⟩
      · exact ⟨hab, Or.inr (Or.inr ⟨i, ha, hb⟩)⟩)
  exact ⟨c, h1, h2 i (Or.inl rfl), fun p hp => h2 p (Or.inr hp)⟩

theorem clqHas_of_mem {cs : List (List Nat)} {c : List Nat} (hc : c ∈ cs) : ∃ i < cs.length, ∀ v, clqHas cs i v ↔ v ∈ c := by
  obtain ⟨i, hi, rfl⟩ := List.getElem_of_mem hc
  exact ⟨i, hi, fun v => by unfold clqHas; rw [getD_of_lt hi]⟩

theorem mem_of_lt {cs : List (List Nat)} {i : Nat} (hi : i < cs.length) : cs.getD i [] ∈ cs := by
  rw [getD_of_lt hi]; exact List.getElem_mem _

theorem lt_of_clqHas {cs : List (List Nat)} {i v : Nat} (h : clqHas cs i v) : i < cs.length := by
  by_contra hi
  unfold clqHas at h
  rw [List.getD_eq_getElem?_getD, List.getElem?_eq_none (by omega)] at h
  simp at h

/-- In a connected network the cliques hang together. -/
theorem CliqueFacts.cross {N : Net} (h : NetInv N) (hw : WeaklyConnected N) {cs : List (List Nat)} (hc : CliqueFacts N cs)
    (A : Nat → Prop) (hA : ∃ i < cs.length, A i) (hB : ∃ j < cs.length, ¬ A j) :
    ∃ i j v, i < cs.length ∧ j < cs.length ∧ A i ∧ ¬ A j ∧ clqHas cs i v ∧ clqHas cs j v := by
  by_contra hcon
  have hno : ∀ i j v, A i → ¬ A j → clqHas cs i v → clqHas cs j v → False :=
    fun i j v h1 h2 h3 h4 => hcon ⟨i, j, v, lt_of_clqHas h3, lt_of_clqHas h4, h1, h2, h3, h4⟩
  obtain ⟨i, hi, hAi⟩ := hA
  obtain ⟨j, hj, hAj⟩ := hB
  obtain ⟨a, ha⟩ := List.exists_mem_of_ne_nil _ (hc.nonempty _ (mem_of_lt hi))
  obtain ⟨b, hb⟩ := List.exists_mem_of_ne_nil _ (hc.nonempty _ (mem_of_lt hj))
  have hp := hw a b (hc.lt _ (mem_of_lt hi) a ha) (hc.lt _ (mem_of_lt hj) b hb)
  have : ∀ x, ReflTransGen (Linked N) a x → ∃ k, A k ∧ clqHas cs k x := by
    intro x hx
    induction hx with
    | refl => exact ⟨i, hAi, ha⟩
    | tail _ hxy ih =>
      rename_i x y _
      obtain ⟨k, hk1, hk2⟩ := ih
      -- a clique with both nodes
      have hboth : ∃ c ∈ cs, x ∈ c ∧ y ∈ c := by
        rcases hxy with hxy | hxy
        · obtain ⟨c, h1, h2, h3⟩ := hc.family h (h.wf.parent_lt hxy).2
          exact ⟨c, h1, h3 x hxy, h2⟩
        · obtain ⟨c, h1, h2, h3⟩ := hc.family h (h.wf.parent_lt hxy).2
          exact ⟨c, h1, h2, h3 y hxy⟩
      obtain ⟨c, hcm, hxc, hyc⟩ := hboth
      obtain ⟨m, hm, hmv⟩ := clqHas_of_mem hcm
      by_cases hAm : A m
      · exact ⟨m, hAm, (hmv y).2 hyc⟩
      · exact absurd (hno k m x hk1 hAm hk2 ((hmv x).2 hxc)) id
  obtain ⟨k, hk1, hk2⟩ := this b hp
  exact hno k j b hk1 hAj hk2 hb

/-- The structure of the junction tree. -/
theorem junctionShape_spec {N : Net} (h : NetInv N) (h0 : 0 < N.nodes.length) (hw : WeaklyConnected N)
    {order : List (Nat × Nat) → List (Nat × Nat)} (horder : ∀ l, (order l).Perm l) (cord : Nat → List Nat) :
    ∃ S, N.junctionShape order cord = .ok S ∧ CliqueFacts N S.cliques ∧ N.cliques = .ok S.cliques ∧
      S.ord = order (candidateSeps S.cliques) ∧ S.cord = cord S.cliques.length ∧
      IsJT (clqHas S.cliques) (fun i => i < S.cliques.length) (sepEdge S.seps) ∧ S.seps.length + 1 = S.cliques.length ∧ S.seps.Nodup ∧
      ∀ p ∈ S.seps, p ∈ candidateSeps S.cliques := by
  obtain ⟨cs, h1, h2⟩ := cliques_facts h
  have hne : cs ≠ [] := by
    obtain ⟨c, hc, _⟩ := h2.family h h0
    exact List.ne_nil_of_mem hc
  obtain ⟨seps, h3, h4, h5, h6, h7⟩ := formJunctionTree_spec (cliques := cs) (ord := order (candidateSeps cs))
    (fun p => (horder _).mem_iff) hne (fun c hc => nodup_of_sorted (h2.sorted c hc)) (fun A hA hB => h2.cross h hw A hA hB) h2.jt
  refine ⟨⟨cs, seps, order (candidateSeps cs), cord cs.length⟩, ?_, h2, h1, rfl, rfl, h4, h5, h6, fun p hp => (horder _).mem_iff.1 (h7 p hp)⟩
  unfold Net.junctionShape
  rw [if_neg (by omega), h1, ok_bind]
  simp only []
  rw [h3]
  rfl

theorem Spec.MoralAdj.linked {N : Net} {i j : Nat} (h : MoralAdj N i j) : ReflTransGen (Linked N) i j := by
  obtain ⟨_, h | h | ⟨c, h1, h2⟩⟩ := h
  · exact .single (Or.inl h)
  · exact .single (Or.inr h)
  · exact .head (Or.inl h1) (.single (Or.inr h2))

/-- Without connectedness the construction fails. -/
theorem junctionShape_disconnected {N : Net} (h : NetInv N) (h0 : 0 < N.nodes.length) (hw : ¬ WeaklyConnected N)
    {order : List (Nat × Nat) → List (Nat × Nat)} (horder : ∀ l, (order l).Perm l) (cord : Nat → List Nat) :
    N.junctionShape order cord = .error .ub := by
  obtain ⟨cs, h1, h2⟩ := cliques_facts h
  have hne : cs ≠ [] := by
    obtain ⟨c, hc, _⟩ := h2.family h h0
    exact List.ne_nil_of_mem hc
  have hcand : ∀ p ∈ order (candidateSeps cs), p.1 < cs.length ∧ p.2 < cs.length := fun p hp => by
    have := mem_candidateSeps.1 ((horder _).mem_iff.1 hp)
    omega
  have hloop : formJunctionTree cs (order (candidateSeps cs)) = .error .ub := by
    unfold formJunctionTree
    rw [if_neg hne]
    rcases primLoop_sound hcand cs.length (PrimInv.start hne) with ⟨seps, h3, tree, h4, h5⟩ | h3
    · exfalso
      apply hw
      obtain ⟨hall, _⟩ := h4.all h5
      have hsym : ∀ a b, Linked N a b → Linked N b a := fun _ _ h => h.symm
      -- variables of the same clique
      have inside : ∀ i a b, clqHas cs i a → clqHas cs i b → ReflTransGen (Linked N) a b := by
        intro i a b ha hb
        refine conn_bind (fun x y hxy => hxy.linked) (h2.conn _ (mem_of_lt (lt_of_clqHas ha)) a ha b hb)
      -- variables of two cliques joined by separators
      have across : ∀ i j, ReflTransGen (sepEdge seps) i j → ∀ a b, clqHas cs i a → clqHas cs j b → ReflTransGen (Linked N) a b := by
        intro i j hij
        induction hij with
        | refl => exact fun a b ha hb => inside _ a b ha hb
        | tail _ hjk ih =>
          rename_i j k _
          intro a b ha hb
          have hv : ∃ v, clqHas cs j v ∧ clqHas cs k v := by
            rcases hjk with hjk | hjk
            · obtain ⟨_, _, v, hv⟩ := mem_candidateSeps.1 ((horder _).mem_iff.1 (h4.sub _ hjk))
              exact ⟨v, hv⟩
            · obtain ⟨_, _, v, hv⟩ := mem_candidateSeps.1 ((horder _).mem_iff.1 (h4.sub _ hjk))
              exact ⟨v, hv.symm⟩
          obtain ⟨v, hv1, hv2⟩ := hv
          exact (ih a v ha hv1).trans (inside k v b hv2 hb)
      intro a b ha hb
      obtain ⟨c, hc, hac, _⟩ := h2.family h ha
      obtain ⟨d, hd, hbd, _⟩ := h2.family h hb
      obtain ⟨i, hi, hiv⟩ := clqHas_of_mem hc
      obtain ⟨j, hj, hjv⟩ := clqHas_of_mem hd
      exact across i j (h4.conn i j (hall i hi) (hall j hj)) a b ((hiv a).2 hac) ((hjv b).2 hbd)
    · exact h3
  unfold Net.junctionShape
  rw [if_neg (by omega), h1, ok_bind]
  simp only []
  rw [hloop]
  rfl

end FastPGM
