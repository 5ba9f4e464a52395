import Verif.Lemmas.Orientation3

/-!
Propagation of orientations, completion to a DAG, soundness of the rules.
-/

namespace FastPGM

open Spec

variable {n cap : Nat} {G : Nat → Nat → Prop} {k : Skeleton} {us ds : List (Nat × Nat)} {N : Net}

/-- Arrows added one by one, each demanded by a rule. -/
inductive MeekRun (G : Nat → Nat → Prop) (ds : List (Nat × Nat)) : List (Nat × Nat) → Prop
  | refl : MeekRun G ds ds
  | step {ds' : List (Nat × Nat)} {a c : Nat} : MeekRun G ds ds' → Undirected G (arrows ds') a c → MeekApplies G (arrows ds') a c →
      MeekRun G ds (ds' ++ [(a, c)])

theorem MeekRun.trans {ds1 ds2 : List (Nat × Nat)} (h1 : MeekRun G ds ds1) (h2 : MeekRun G ds1 ds2) : MeekRun G ds ds2 := by
  induction h2 with
  | refl => exact h1
  | step _ h3 h4 ih => exact ih.step h3 h4

theorem MeekRun.subset {ds1 : List (Nat × Nat)} (h : MeekRun G ds ds1) : ∀ p ∈ ds, p ∈ ds1 := by
  induction h with
  | refl => exact fun p hp => hp
  | step _ _ _ ih => exact fun p hp => List.mem_append_left _ (ih p hp)

/-- No rule can orient the pair. -/
def ClosedPair (G : Nat → Nat → Prop) (ds : List (Nat × Nat)) (p : Nat × Nat) : Prop :=
  (MeekApplies G (arrows ds) p.1 p.2 → Cyclic (withEdge (arrows ds) p.1 p.2)) ∧
  (MeekApplies G (arrows ds) p.2 p.1 → Cyclic (withEdge (arrows ds) p.2 p.1))

theorem undEdge_node1 (x y : Nat) : (undEdge (x, y)).node1 = x := rfl
theorem undEdge_node2 (x y : Nat) : (undEdge (x, y)).node2 = y := rfl
theorem dirEdge_node1 (x y : Nat) : (dirEdge (x, y)).node1 = x := rfl
theorem dirEdge_node2 (x y : Nat) : (dirEdge (x, y)).node2 = y := rfl

/-- The edge at a position. -/
theorem Pd.edge_at (h : Pd n us ds N) (i : Nat) :
    N.edges[i]? = match us[i]? with
      | some p => some (undEdge p)
      | none => ds[i - us.length]?.map dirEdge := by
  rw [h.edges]
  rcases Nat.lt_or_ge i us.length with hi | hi
  · rw [List.getElem?_append_left (by simpa using hi), List.getElem?_map, List.getElem?_eq_getElem hi]
    rfl
  · rw [List.getElem?_append_right (by simpa using hi), List.getElem?_map, List.length_map, List.getElem?_eq_none (l := us) hi]

theorem erase_get_lt {us : List (Nat × Nat)} {p : Nat × Nat} {i : Nat} (hi : us[i]? = some p) : (us.erase p).length + 1 = us.length := by
  have hm : p ∈ us := List.mem_of_getElem? hi
  rw [List.length_erase_of_mem hm]
  have := List.length_pos_of_mem hm
  omega

theorem impliedPass_spec (hk : Represents n G k) (fuel i : Nat) (o : Bool) (h : Pd n us ds N) (hc : Cover G us ds)
    (hcap : ds ≠ [] → us.length + ds.length < cap) (hf : us.length + 1 ≤ fuel + i) (hf0 : 0 < fuel) :
    ∃ N' o' us' ds', impliedPass cap k.adj fuel i N o = .ok (N', o') ∧ Pd n us' ds' N' ∧ Cover G us' ds' ∧ MeekRun G ds ds' ∧
      us'.length + ds'.length = us.length + ds.length ∧ us'.length ≤ us.length ∧
      (o' = false → o = false ∧ us' = us ∧ ds' = ds ∧ ∀ j p, i ≤ j → us[j]? = some p → ClosedPair G ds p) ∧
      (o' = true → o = true ∨ us'.length < us.length) := by
  induction fuel generalizing i N us ds o with
  | zero => omega
  | succ fuel ih =>
    rw [impliedPass, h.edge_at i]
    cases hu : us[i]? with
    | none =>
      have hi : us.length ≤ i := by
        by_contra hi
        rw [List.getElem?_eq_getElem (by omega)] at hu
        cases hu
      have hdone : ∀ j p, i ≤ j → us[j]? = some p → ClosedPair G ds p := by
        intro j p hj hp
        rw [List.getElem?_eq_none (by omega)] at hp
        cases hp
      simp only
      cases hd : ds[i - us.length]? with
      | none =>
        exact ⟨N, o, us, ds, rfl, h, hc, .refl, rfl, Nat.le_refl _, fun ho => ⟨ho, rfl, rfl, hdone⟩, fun ho => Or.inl ho⟩
      | some p =>
        obtain ⟨a, b⟩ := p
        have hab : (a, b) ∈ ds := List.mem_of_getElem? hd
        obtain ⟨ha, hb⟩ := h.ds_lt hab
        simp only [Option.map_some, dirEdge_node1, dirEdge_node2]
        rw [isUndirected_eq hk h hc ha hb, ok_bind, if_neg (by
          rw [decide_eq_true_iff]
          exact fun hm => hc.excl a b hm hab)]
        exact ⟨N, o, us, ds, rfl, h, hc, .refl, rfl, Nat.le_refl _, fun ho => ⟨ho, rfl, rfl, hdone⟩, fun ho => Or.inl ho⟩
    | some p =>
      obtain ⟨x, y⟩ := p
      have hmem : (x, y) ∈ us := List.mem_of_getElem? hu
      obtain ⟨hxy, hy⟩ := h.us_lt _ hmem
      simp only at hxy hy
      have hi : i < us.length := by
        by_contra hi
        rw [List.getElem?_eq_none (by omega)] at hu
        cases hu
      have hm : ordPair x y ∈ us := by rw [ordPair_self hxy]; exact hmem
      simp only [undEdge_node1, undEdge_node2]
      rw [isUndirected_eq hk h hc (by omega) hy, ok_bind, if_pos (by rw [decide_eq_true_iff]; exact hm)]
      obtain ⟨N1, r, e1, f1, t1⟩ := tryRules_spec hk hc (by omega) hy hm hcap h
      rw [e1, ok_bind]
      simp only
      cases r with
      | true =>
        obtain ⟨a, c, hac, hmeek, h1⟩ := t1 rfl
        have hoac : ordPair a c = ordPair x y := by
          rcases hac with ⟨rfl, rfl⟩ | ⟨rfl, rfl⟩
          · rfl
          · exact ordPair_comm _ _
        have hc1 : Cover G (us.erase (ordPair x y)) (ds ++ [(a, c)]) := by
          have := hc.orient h.us_nodup (a := a) (b := c) (by rw [hoac]; exact hm)
          rwa [hoac] at this
        have hds : ds ≠ [] := by
          rintro rfl
          rcases hmeek with ⟨z, h1, _⟩ | ⟨z, h1, _⟩ | ⟨b, d, _, _, _, _, h1, _⟩ <;> simp [arrows] at h1
        have hlen := erase_get_lt (us := us) (p := (x, y)) hu
        rw [ordPair_self hxy] at h1 hc1
        rw [if_pos rfl]
        obtain ⟨N2, o2, us2, ds2, e2, p2, q2, m2, l2, s2, f2, t2⟩ := ih i true h1 hc1
          (fun _ => by have := hcap hds; simp; omega) (by omega) (by omega)
        refine ⟨N2, o2, us2, ds2, e2, p2, q2, (MeekRun.refl.step ((hc.undirected a c).2 (by rw [hoac]; exact hm)) hmeek).trans m2, ?_, by omega, ?_, ?_⟩
        · rw [l2]
          simp; omega
        · intro ho
          exact absurd (f2 ho).1 (by simp)
        · intro _
          exact Or.inr (by omega)
      | false =>
        obtain ⟨p1, c1, c2⟩ := f1 rfl
        rw [if_neg (by simp)]
        obtain ⟨N2, o2, us2, ds2, e2, p2, q2, m2, l2, s2, f2, t2⟩ := ih (i + 1) o p1 hc hcap (by omega) (by omega)
        refine ⟨N2, o2, us2, ds2, e2, p2, q2, m2, l2, s2, ?_, t2⟩
        intro ho
        obtain ⟨h3, h4, h5, h6⟩ := f2 ho
        refine ⟨h3, h4, h5, ?_⟩
        intro j p hj hp
        rcases Nat.lt_or_ge i j with h7 | h7
        · exact h6 j p h7 hp
        · have : j = i := by omega
          subst this
          rw [hu] at hp
          cases hp
          exact ⟨c1, c2⟩

theorem orientImplied_spec (hk : Represents n G k) (fuel' fuel : Nat) (h : Pd n us ds N) (hc : Cover G us ds)
    (hcap : ds ≠ [] → us.length + ds.length < cap) (hf' : us.length < fuel') (hf : us.length < fuel) :
    ∃ N' us' ds', orientImplied cap k.adj fuel' fuel N = .ok N' ∧ Pd n us' ds' N' ∧ Cover G us' ds' ∧ MeekRun G ds ds' ∧
      us'.length + ds'.length = us.length + ds.length ∧ ∀ p ∈ us', ClosedPair G ds' p := by
  induction fuel generalizing N us ds with
  | zero => omega
  | succ fuel ih =>
    obtain ⟨N1, o1, us1, ds1, e1, p1, q1, m1, l1, s1, f1, t1⟩ := impliedPass_spec hk fuel' 0 false h hc hcap (by omega) (by omega)
    rw [orientImplied, e1, ok_bind]
    cases o1 with
    | true =>
      simp only [if_true]
      have hlt : us1.length < us.length := by
        rcases t1 rfl with h2 | h2
        · cases h2
        · exact h2
      have hcap1 : ds1 ≠ [] → us1.length + ds1.length < cap := by
        intro _
        rw [l1]
        apply hcap
        rintro rfl
        have : ds1 = [] := by
          clear * - m1
          induction m1 with
          | refl => rfl
          | step _ h3 h4 ih =>
            exfalso
            rw [ih] at h4
            rcases h4 with ⟨z, h1, _⟩ | ⟨z, h1, _⟩ | ⟨b, d, _, _, _, _, h1, _⟩ <;> simp [arrows] at h1
        subst this
        simp at l1
        omega
      obtain ⟨N2, us2, ds2, e2, p2, q2, m2, l2, c2⟩ := ih p1 q1 hcap1 (by omega) (by omega)
      exact ⟨N2, us2, ds2, e2, p2, q2, m1.trans m2, by omega, c2⟩
    | false =>
      obtain ⟨_, rfl, rfl, hcl⟩ := f1 rfl
      refine ⟨N1, us1, ds1, rfl, p1, q1, m1, l1, ?_⟩
      intro p hp
      obtain ⟨i, hi, rfl⟩ := List.getElem_of_mem hp
      exact hcl i _ (Nat.zero_le _) (List.getElem?_eq_getElem hi)

/-- A new edge closes a cycle exactly if its head already reaches its tail. -/
theorem cyclic_withEdge {E : Nat → Nat → Prop} (hE : ¬ Cyclic E) {a b : Nat} (h : Cyclic (withEdge E a b)) : Relation.ReflTransGen E b a := by
  obtain ⟨i, hi⟩ := h
  have key : ∀ x y, Relation.TransGen (withEdge E a b) x y → Relation.TransGen E x y ∨ (Relation.ReflTransGen E x a ∧ Relation.ReflTransGen E b y) ∨
      Relation.ReflTransGen E b a := by
    intro x y hxy
    induction hxy with
    | single h1 =>
      rcases h1 with h1 | ⟨rfl, rfl⟩
      · exact Or.inl (.single h1)
      · exact Or.inr (Or.inl ⟨.refl, .refl⟩)
    | tail _ h1 ih =>
      rcases h1 with h1 | ⟨rfl, rfl⟩
      · rcases ih with h2 | h2 | h2
        · exact Or.inl (h2.tail h1)
        · exact Or.inr (Or.inl ⟨h2.1, h2.2.tail h1⟩)
        · exact Or.inr (Or.inr h2)
      · rcases ih with h2 | h2 | h2
        · exact Or.inr (Or.inl ⟨h2.to_reflTransGen, .refl⟩)
        · exact Or.inr (Or.inr h2.2)
        · exact Or.inr (Or.inr h2)
  rcases key i i hi with h1 | h1 | h1
  · exact absurd ⟨i, h1⟩ hE
  · exact h1.2.trans h1.1
  · exact h1

/-- One of the two directions of an undirected edge closes no cycle. -/
theorem one_direction {E : Nat → Nat → Prop} (hE : ¬ Cyclic E) {a b : Nat} (hab : a ≠ b) (h : Cyclic (withEdge E a b)) : ¬ Cyclic (withEdge E b a) := by
  intro h'
  have h1 := cyclic_withEdge hE h
  have h2 := cyclic_withEdge hE h'
  rcases Relation.reflTransGen_iff_eq_or_transGen.1 h1 with h3 | h3
  · exact hab h3
  · exact hE ⟨b, h3.trans_left h2⟩

theorem directLeftEdges_spec (hk : Represents n G k) (bits : Nat → Bool) (fuel j : Nat) (h : Pd n us ds N) (hc : Cover G us ds)
    (hcap : us.length + ds.length < cap ∨ us = []) (hf : us.length < fuel) :
    ∃ N' ds', directLeftEdges cap k.adj bits fuel j N = .ok N' ∧ Pd n [] ds' N' ∧ Cover G [] ds' ∧ ∀ p ∈ ds, p ∈ ds' := by
  induction fuel generalizing N us ds j with
  | zero => omega
  | succ fuel ih =>
    rw [directLeftEdges, h.edge_at 0]
    cases us with
    | nil =>
      simp only [List.getElem?_nil, List.length_nil]
      cases hd : ds[0 - 0]? with
      | none => exact ⟨N, ds, rfl, h, hc, fun p hp => hp⟩
      | some p =>
        obtain ⟨a, b⟩ := p
        have hab : (a, b) ∈ ds := List.mem_of_getElem? hd
        obtain ⟨ha, hb⟩ := h.ds_lt hab
        simp only [Option.map_some, dirEdge_node1, dirEdge_node2]
        rw [isUndirected_eq hk h hc ha hb, ok_bind, if_neg (by simp)]
        exact ⟨N, ds, rfl, h, hc, fun p hp => hp⟩
    | cons p us =>
      obtain ⟨x, y⟩ := p
      obtain ⟨hxy, hy⟩ := h.us_lt (x, y) (by simp)
      simp only at hxy hy
      have hm : ordPair x y ∈ (x, y) :: us := by rw [ordPair_self hxy]; simp
      have hcap' : ((x, y) :: us).length + ds.length < cap := by
        rcases hcap with h1 | h1
        · exact h1
        · cases h1
      simp only [List.getElem?_cons_zero, undEdge_node1, undEdge_node2]
      rw [isUndirected_eq hk h hc (by omega) hy, ok_bind, if_pos (by rw [decide_eq_true_iff]; exact hm)]
      -- the order of the attempts
      have key : ∀ u v, (u = x ∧ v = y) ∨ (u = y ∧ v = x) → ∃ N' ds', (do
          let (N, r) ← direct cap N u v
          if r then directLeftEdges cap k.adj bits fuel (j + 1) N
          else do
            let (N, r) ← direct cap N v u
            if r then directLeftEdges cap k.adj bits fuel (j + 1) N else .error .exit) = .ok N' ∧ Pd n [] ds' N' ∧ Cover G [] ds' ∧
          ∀ p ∈ ds, p ∈ ds' := by
        intro u v huv
        have hou : ordPair u v = ordPair x y := by
          rcases huv with ⟨rfl, rfl⟩ | ⟨rfl, rfl⟩
          · rfl
          · exact ordPair_comm _ _
        have hne : u ≠ v := by omega
        have hu : u < n := by omega
        have hv : v < n := by omega
        have cont : ∀ {a c : Nat} {N1 : Net}, ordPair a c = ordPair x y → Pd n (((x, y) :: us).erase (ordPair a c)) (ds ++ [(a, c)]) N1 →
            ∃ N' ds', directLeftEdges cap k.adj bits fuel (j + 1) N1 = .ok N' ∧ Pd n [] ds' N' ∧ Cover G [] ds' ∧ ∀ p ∈ ds, p ∈ ds' := by
          intro a c N1 hac h1
          have hc1 := hc.orient h.us_nodup (a := a) (b := c) (by rw [hac]; exact hm)
          have her : ((x, y) :: us).erase (ordPair a c) = us := by rw [hac, ordPair_self hxy, List.erase_cons_head]
          rw [her] at h1 hc1
          obtain ⟨N2, ds2, e2, p2, q2, s2⟩ := ih (j + 1) h1 hc1 (Or.inl (by simp at hcap' ⊢; omega)) (by simp at hf; omega)
          exact ⟨N2, ds2, e2, p2, q2, fun p hp => s2 p (List.mem_append_left _ hp)⟩
        obtain ⟨N1, r1, e1, hr1, hf1, ht1⟩ := direct_spec h hc hu hv (by rw [hou]; exact hm) hcap'
        rw [e1, ok_bind]
        simp only
        cases r1 with
        | true =>
          rw [if_pos rfl]
          exact cont hou (ht1 rfl)
        | false =>
          rw [if_neg (by simp)]
          have hou' : ordPair v u = ordPair x y := by rw [ordPair_comm]; exact hou
          obtain ⟨N2, r2, e2, hr2, hf2, ht2⟩ := direct_spec (hf1 rfl) hc hv hu (by rw [hou']; exact hm) hcap'
          have hcy : Cyclic (withEdge (arrows ds) u v) := by
            by_contra hcy
            simpa using hr1.2 hcy
          have hr2' : r2 = true := hr2.2 (one_direction h.acyclic hne hcy)
          subst hr2'
          rw [e2, ok_bind]
          simp only
          rw [if_pos trivial]
          exact cont hou' (ht2 rfl)
      cases hb : bits j with
      | false =>
        obtain ⟨N', ds', e, r⟩ := key x y (Or.inl ⟨rfl, rfl⟩)
        exact ⟨N', ds', e, r⟩
      | true =>
        obtain ⟨N', ds', e, r⟩ := key y x (Or.inr ⟨rfl, rfl⟩)
        exact ⟨N', ds', e, r⟩

/-- The rules only draw arrows that every explaining DAG has. -/
theorem meek_sound {sep : Sepset} {D P : Nat → Nat → Prop} (hD : Explains G sep D) (hP : ∀ x y, P x y → D x y)
    (hV : ∀ x y, VArrow G sep x y → P x y) {a c : Nat} (hu : Undirected G P a c) (hm : MeekApplies G P a c) : D a c := by
  have hsym : ∀ x y, G x y → G y x := fun x y h => (hD.skeleton y x).2 ((hD.skeleton x y).1 h).symm
  have coll : ∀ x y z, x ≠ z → ¬ G x z → D x y → D z y → P x y ∧ P z y := by
    intro x y z hne hg h1 h2
    rcases Nat.lt_or_gt_of_ne hne with h3 | h3
    · have := (hD.colliders x y z h3 hg).1 ⟨h1, h2⟩
      exact ⟨hV _ _ ⟨z, Or.inl this⟩, hV _ _ ⟨x, Or.inr this⟩⟩
    · have := (hD.colliders z y x h3 (fun h => hg (hsym _ _ h))).1 ⟨h2, h1⟩
      exact ⟨hV _ _ ⟨z, Or.inr this⟩, hV _ _ ⟨x, Or.inl this⟩⟩
  rcases (hD.skeleton a c).1 hu.1 with h | h
  · exact h
  exfalso
  rcases hm with ⟨z, h1, h2⟩ | ⟨b, h1, h2⟩ | ⟨b, d, hbd, hg, hb, hd, h1, h2⟩
  · have hne : z ≠ c := by rintro rfl; exact hu.2.2 h1
    exact hu.2.2 (coll z a c hne h2 (hP _ _ h1) h).2
  · exact hD.acyclic ⟨a, ((Relation.TransGen.single (hP _ _ h1)).tail (hP _ _ h2)).tail h⟩
  · have hba : D b a := by
      rcases (hD.skeleton a b).1 hb.1 with h3 | h3
      · exact absurd ⟨a, ((Relation.TransGen.single h3).tail (hP _ _ h1)).tail h⟩ hD.acyclic
      · exact h3
    have hda : D d a := by
      rcases (hD.skeleton a d).1 hd.1 with h3 | h3
      · exact absurd ⟨a, ((Relation.TransGen.single h3).tail (hP _ _ h2)).tail h⟩ hD.acyclic
      · exact h3
    exact hb.2.2 (coll b a d hbd hg hba hda).1

theorem MeekRun.sound {sep : Sepset} {D : Nat → Nat → Prop} (hD : Explains G sep D) {ds' : List (Nat × Nat)} (h : MeekRun G ds ds')
    (hds : ∀ x y, (x, y) ∈ ds ↔ VArrow G sep x y) (hVD : ∀ x y, VArrow G sep x y → D x y) : ∀ x y, (x, y) ∈ ds' → D x y := by
  induction h with
  | refl => exact fun x y h => hVD x y ((hds x y).1 h)
  | step hrun hu hm ih =>
    intro x y hxy
    rw [List.mem_append, List.mem_singleton, Prod.mk.injEq] at hxy
    rcases hxy with h1 | ⟨rfl, rfl⟩
    · exact ih x y h1
    · exact meek_sound hD ih (fun u v huv => hrun.subset _ ((hds u v).2 huv)) hu hm

theorem Explains.varrow {sep : Sepset} {D : Nat → Nat → Prop} (hD : Explains G sep D) (x y : Nat) (h : VArrow G sep x y) : D x y := by
  obtain ⟨z, hz | hz⟩ := h
  · exact ((hD.colliders x y z hz.1 hz.2.2.2.1).2 hz).1
  · exact ((hD.colliders z y x hz.1 hz.2.2.2.1).2 hz).2

end FastPGM
