import Verif.Lemmas.Skeleton4
import Verif.Props.Network

/-!
Lemmas about the skeleton phase: level 0, the sequence of levels, early stopping.
-/

namespace FastPGM

open Spec

/-- What can be observed of a skeleton: the pairs, the adjacency lists and the separating sets. -/
def Skeleton.view (k : Skeleton) : List (Nat × Nat) × List (List Nat) × Sepset := (k.edges.map (fun e => (e.x, e.y)), k.adj, k.sep)

/-- The separating sets recorded for the levels below `d`. -/
structure SepInv (ind : Nat → Nat → List Nat → Bool) (n d : Nat) (sep : Sepset) : Prop where
  none_of_adj : ∀ x y, x < y → skeletonAt ind n d x y → sep x y = none
  some_of_not : ∀ x y, x < y → y < n → ¬ skeletonAt ind n d x y → ∃ S, sep x y = some S ∧ S.Pairwise (· < ·) ∧ S.length < d ∧
    ind x y S = true ∧ skeletonAt ind n S.length x y ∧ ¬ skeletonAt ind n (S.length + 1) x y ∧
    ((∀ z ∈ S, skeletonAt ind n S.length x z ∧ z ≠ y) ∨ (∀ z ∈ S, skeletonAt ind n S.length y z ∧ z ≠ x))
  outside : ∀ x y, ¬ (x < y ∧ y < n) → sep x y = none

theorem skeletonAt_succ_le {ind : Nat → Nat → List Nat → Bool} {n d x y : Nat} (h : skeletonAt ind n (d + 1) x y) : skeletonAt ind n d x y := h.1

theorem sepInv_level {ind : Nat → Nat → List Nat → Bool} {n d : Nat} {k : Skeleton} (hk : Represents n (skeletonAt ind n d) k)
    (hs : SepInv ind n d k.sep) : SepInv ind n (d + 1) (levelSep ind d k.adj (k.edges.map (fun e => (e.x, e.y))) k.sep) := by
  have hgraph : ∀ x y, x < y → (skeletonAt ind n (d + 1) x y ↔ skeletonAt ind n d x y ∧ ¬ Separable ind (skeletonAt ind n d) d x y) := by
    intro x y hxy
    show _ ∧ _ ↔ _
    rw [Nat.min_eq_left (by omega), Nat.max_eq_right (by omega)]
  refine ⟨?_, ?_, ?_⟩
  · intro x y hxy h
    obtain ⟨h1, h2⟩ := (hgraph x y hxy).1 h
    have hx := (hk.range x y h1).1
    have hy := (hk.range y x (hk.symm _ _ h1)).1
    unfold levelSep
    rw [if_pos ((hk.edge x y).2 ⟨hxy, h1⟩)]
    rw [← (separator_spec hk hx hy).1, Bool.not_eq_true, Option.isSome_eq_false_iff, Option.isNone_iff_eq_none] at h2
    rw [h2, Option.none_or]
    exact hs.none_of_adj x y hxy h1
  · intro x y hxy hy h
    by_cases h1 : skeletonAt ind n d x y
    · have h2 : Separable ind (skeletonAt ind n d) d x y := by
        by_contra h2
        exact h ((hgraph x y hxy).2 ⟨h1, h2⟩)
      have hsp := separator_spec (ind := ind) (d := d) hk (x := x) (y := y) (by omega) hy
      obtain ⟨S, hS⟩ := Option.isSome_iff_exists.1 (hsp.1.2 h2)
      obtain ⟨a1, a2, a3, a4⟩ := hsp.2 S hS
      unfold levelSep
      rw [if_pos ((hk.edge x y).2 ⟨hxy, h1⟩), hS, Option.some_or]
      refine ⟨S, rfl, a1, by omega, a3, ?_, ?_, ?_⟩
      · rw [a2]; exact h1
      · rw [a2]; exact h
      · rw [a2]; exact a4
    · obtain ⟨S, a1, a2, a3, a4⟩ := hs.some_of_not x y hxy hy h1
      unfold levelSep
      rw [if_neg (fun hm => h1 ((hk.edge x y).1 hm).2)]
      exact ⟨S, a1, a2, by omega, a4⟩
  · intro x y h
    unfold levelSep
    rw [if_neg, hs.outside x y h]
    intro hm
    obtain ⟨b1, b2⟩ := (hk.edge x y).1 hm
    exact h ⟨b1, (hk.range y x (hk.symm _ _ b2)).1⟩

/-! ### Level 0 -/

theorem separator_zero {ind : Nat → Nat → List Nat → Bool} {adj : List (List Nat)} {n : Nat} (hg : GoodAdj n adj) {x y : Nat} (hx : x < n) (hy : y < n) :
    separator ind adj 0 x y = if ind x y [] = true then some [] else none := by
  unfold separator
  have hmem : ∀ S, S ∈ allSets adj 0 x y ↔ S = [] := by
    intro S
    unfold allSets
    rw [List.mem_append, mem_combos (others_sorted hg hx y), mem_combos (others_sorted hg hy x)]
    constructor
    · rintro (h | h) <;> exact List.length_eq_zero_iff.1 h.2.1
    · rintro rfl
      simp
  split
  · rename_i h
    cases hf : (allSets adj 0 x y).find? (ind x y) with
    | none => exact absurd h (List.find?_eq_none.1 hf [] ((hmem []).2 rfl))
    | some S => rw [(hmem S).1 (List.mem_of_find?_eq_some hf)]
  · rename_i h
    rw [List.find?_eq_none]
    intro S hS
    rw [(hmem S).1 hS]
    exact h

/-- The state of level 0 after the positions in `D`. -/
structure Level0Inv (ind : Nat → Nat → List Nat → Bool) (es0 : List WorkEdge) (D : List Nat) (st : LevelState) : Prop where
  length : st.edges.length = es0.length
  edge : ∀ (i : Nat) e, es0[i]? = some e → st.edges[i]? = some (if i ∈ D ∧ ind e.x e.y [] = true then { e with needRemove := true } else e)
  sepSome : ∀ (i : Nat) e, i ∈ D → es0[i]? = some e → ind e.x e.y [] = true → st.sep e.x e.y = some []
  sepNone : ∀ a b, (∀ (i : Nat) e, i ∈ D → es0[i]? = some e → (e.x, e.y) = (a, b) → ind a b [] ≠ true) → st.sep a b = none
  sepVal : ∀ a b, st.sep a b = none ∨ st.sep a b = some []

theorem Sepset.insert_nil {m : Sepset} (h : ∀ a b, m a b = none ∨ m a b = some []) (a b a' b' : Nat) :
    m.insert a b [] a' b' = if a' = a ∧ b' = b then some [] else m a' b' := by
  unfold Sepset.insert
  by_cases h1 : a' = a ∧ b' = b
  · obtain ⟨rfl, rfl⟩ := h1
    rcases h a' b' with h2 | h2 <;> simp [h2]
  · rw [if_neg h1, if_neg (fun h2 => h1 ⟨h2.1, h2.2.1⟩)]

theorem level0_fold {ci : CITest} {ind : Nat → Nat → List Nat → Bool} {n g : Nat} (ha : Answers ci ind n g) {es0 : List WorkEdge}
    (hr : ∀ e ∈ es0, e.x < e.y ∧ e.y < n) (order D : List Nat) (hord : ∀ i ∈ order, i < es0.length) {st : LevelState}
    (hst : Level0Inv ind es0 D st) : ∃ st', order.foldlM (level0Step ci) st = .ok st' ∧ Level0Inv ind es0 (D ++ order) st' := by
  induction order generalizing D st with
  | nil => exact ⟨st, rfl, by simpa using hst⟩
  | cons i order ih =>
    have hi : i < es0.length := hord i (by simp)
    have he0 : es0[i]? = some es0[i] := List.getElem?_eq_getElem hi
    have hee := hst.edge i _ he0
    obtain ⟨h1, h2⟩ := hr es0[i] (List.getElem_mem hi)
    obtain ⟨f, hf⟩ := ha.empty es0[i].x es0[i].y h1 h2
    have hstep : ∃ st1, level0Step ci st i = .ok st1 ∧ Level0Inv ind es0 (D ++ [i]) st1 := by
      unfold level0Step
      rw [rd_ok hee, ok_bind]
      have hxy : (if i ∈ D ∧ ind es0[i].x es0[i].y [] = true then { es0[i] with needRemove := true } else es0[i]).x = es0[i].x ∧
          (if i ∈ D ∧ ind es0[i].x es0[i].y [] = true then { es0[i] with needRemove := true } else es0[i]).y = es0[i].y := by
        split <;> exact ⟨rfl, rfl⟩
      rw [hxy.1, hxy.2, hf, ok_bind]
      simp only
      by_cases hind : ind es0[i].x es0[i].y [] = true
      · rw [if_pos hind, wr_ok (by rw [hst.length]; exact hi), ok_bind]
        refine ⟨_, rfl, ?_, ?_, ?_, ?_, ?_⟩
        · show (st.edges.set _ _).length = _
          rw [List.length_set, hst.length]
        · intro j e hj
          show (st.edges.set _ _)[j]? = _
          rw [List.getElem?_set]
          by_cases hij : i = j
          · subst hij
            rw [he0] at hj
            cases hj
            have hi' : i < st.edges.length := by rw [hst.length]; exact hi
            simp only [if_true, hi', hind, and_true, List.mem_append, List.mem_singleton, or_true]
            congr 1
            split <;> rfl
          · rw [if_neg hij, hst.edge j e hj]
            have : j ∈ D ++ [i] ↔ j ∈ D := by
              rw [List.mem_append, List.mem_singleton]
              exact ⟨fun h => h.resolve_right (fun h => hij h.symm), Or.inl⟩
            simp only [this]
        · intro j e hjD hj hje
          show Sepset.insert _ _ _ _ _ _ = _
          rw [Sepset.insert_nil hst.sepVal]
          split
          · rfl
          · rename_i hc
            rcases List.mem_append.1 hjD with h | h
            · exact hst.sepSome j e h hj hje
            · rw [List.mem_singleton] at h
              subst h
              rw [he0] at hj
              cases hj
              exact absurd ⟨rfl, rfl⟩ hc
        · intro a b hab
          show Sepset.insert _ _ _ _ _ _ = _
          rw [Sepset.insert_nil hst.sepVal]
          split
          · rename_i hc
            obtain ⟨rfl, rfl⟩ := hc
            exact absurd hind (hab i es0[i] (by simp) he0 rfl)
          · apply hst.sepNone
            intro j e hj
            exact hab j e (List.mem_append_left _ hj)
        · intro a b
          show Sepset.insert _ _ _ _ _ _ = _ ∨ Sepset.insert _ _ _ _ _ _ = _
          rw [Sepset.insert_nil hst.sepVal]
          split
          · exact Or.inr rfl
          · exact hst.sepVal a b
      · rw [if_neg hind]
        refine ⟨_, rfl, hst.length, ?_, ?_, ?_, hst.sepVal⟩
        · intro j e hj
          rw [hst.edge j e hj]
          by_cases hij : i = j
          · subst hij
            rw [he0] at hj
            cases hj
            rw [if_neg (fun h => hind h.2), if_neg (fun h => hind h.2)]
          · have : j ∈ D ++ [i] ↔ j ∈ D := by
              rw [List.mem_append, List.mem_singleton]
              exact ⟨fun h => h.resolve_right (fun h => hij h.symm), Or.inl⟩
            simp only [this]
        · intro j e hjD hj hje
          rcases List.mem_append.1 hjD with h | h
          · exact hst.sepSome j e h hj hje
          · rw [List.mem_singleton] at h
            subst h
            rw [he0] at hj
            cases hj
            exact absurd hje hind
        · intro a b hab
          apply hst.sepNone
          intro j e hj
          exact hab j e (List.mem_append_left _ hj)
    obtain ⟨st1, hs1, hi1⟩ := hstep
    rw [List.foldlM_cons, hs1, ok_bind]
    obtain ⟨st', h3, h4⟩ := ih (D ++ [i]) (fun j hj => hord j (by simp [hj])) hi1
    refine ⟨st', h3, ?_⟩
    rwa [List.append_assoc] at h4

/-- The work list at the start: all pairs. -/
theorem level0_start (n : Nat) : ∃ es0 : List WorkEdge,
    (∀ ci order, level0 ci n order = do
      let st ← order.foldlM (level0Step ci) ⟨es0, fun _ _ => none⟩
      let r ← removeMarked st.edges (fullAdjacency n)
      return ⟨r.1, r.2, st.sep⟩) ∧ es0.length = n * (n - 1) / 2 ∧
    Represents n (skeletonAt ind n 0) ⟨es0, fullAdjacency n, fun _ _ => none⟩ := by
  obtain ⟨slots, h1, h2, h3, h4, _⟩ := C19_completeGraph n
  refine ⟨slots.map (fun e => { x := e.node1, y := e.node2 }), ?_, by rw [List.length_map, h2], ?_⟩
  · intro ci order
    unfold level0
    rw [h1, ok_bind, mapM_ok (g := fun s : Option Edge => { x := (s.getD (mkUndirected 0 1)).node1, y := (s.getD (mkUndirected 0 1)).node2 : WorkEdge })]
    · rw [ok_bind, List.map_map]
      rfl
    · intro s hs
      obtain ⟨e, _, rfl⟩ := List.mem_map.1 hs
      rfl
  · have hinj : ∀ e ∈ slots, ∀ f ∈ slots, (e.node1, e.node2) = (f.node1, f.node2) → e = f := by
      intro e he f hf hef
      obtain ⟨i, j, _, _, rfl⟩ := (h4 e).1 he
      obtain ⟨i', j', _, _, rfl⟩ := (h4 f).1 hf
      simp only [Prod.mk.injEq] at hef
      rw [hef.1, hef.2]
    refine ⟨?_, ?_, ?_, ?_, ?_, ?_, ?_⟩
    · rintro x y ⟨a, b, c⟩
      exact ⟨b, a, fun h => c h.symm⟩
    · rintro x y ⟨a, b, c⟩
      exact ⟨a, c⟩
    · show (List.map _ (List.map _ slots)).Nodup
      rw [List.map_map]
      exact (List.nodup_map_iff_inj_on h3).2 (fun e he f hf hef => hinj e he f hf hef)
    · intro x y
      show _ ∈ List.map _ (List.map _ slots) ↔ _
      rw [List.map_map]
      constructor
      · intro h
        obtain ⟨e, he, hxy⟩ := List.mem_map.1 h
        obtain ⟨i, j, hij, hj, rfl⟩ := (h4 e).1 he
        simp only [Function.comp, Prod.mk.injEq] at hxy
        obtain ⟨rfl, rfl⟩ := hxy
        exact ⟨hij, by show _ ∧ _; omega⟩
      · rintro ⟨hxy, _, hy, _⟩
        exact List.mem_map.2 ⟨_, (h4 _).2 ⟨x, y, hxy, hy, rfl⟩, rfl⟩
    · intro e he
      obtain ⟨e0, _, rfl⟩ := List.mem_map.1 he
      rfl
    · show (List.map _ _).length = n
      simp
    · intro v l hl
      have hl : (tab n (fun i => (List.range n).filter (fun j => decide (i ≠ j))))[v]? = some l := hl
      rw [tab_get?] at hl
      split at hl
      · rename_i hv
        cases hl
        refine ⟨List.pairwise_lt_range.sublist List.filter_sublist, ?_⟩
        intro z
        rw [List.mem_filter, List.mem_range, decide_eq_true_iff]
        show _ ↔ _ ∧ _
        tauto
      · cases hl

theorem sepInv_zero (ind : Nat → Nat → List Nat → Bool) (n : Nat) : SepInv ind n 0 (fun _ _ => none) := by
  refine ⟨fun _ _ _ _ => rfl, ?_, fun _ _ _ => rfl⟩
  intro x y hxy hy h
  exact absurd (show _ ∧ _ from ⟨by omega, hy, by omega⟩) h

/-- Level 0 as a function of the verdicts. -/
theorem level0_eq (ind : Nat → Nat → List Nat → Bool) (n : Nat) : ∃ v, ∀ (ci : CITest) (g : Nat) (order : List Nat), Answers ci ind n g →
    order.Perm (List.range (n * (n - 1) / 2)) → ∃ k, level0 ci n order = .ok k ∧ k.view = v ∧ Represents n (skeletonAt ind n 1) k ∧
      SepInv ind n 1 k.sep := by
  obtain ⟨es0, hrun, hlen, hrep⟩ := level0_start (ind := ind) n
  refine ⟨(keptPairs ind 0 (fullAdjacency n) (es0.map (fun e => (e.x, e.y))), levelAdj ind 0 (fullAdjacency n) (es0.map (fun e => (e.x, e.y))),
    levelSep ind 0 (fullAdjacency n) (es0.map (fun e => (e.x, e.y))) (fun _ _ => none)), ?_⟩
  intro ci g order ha hord
  have hr : ∀ e ∈ es0, e.x < e.y ∧ e.y < n := by
    intro e he
    obtain ⟨h1, h2⟩ := (hrep.edge e.x e.y).1 (List.mem_map.2 ⟨e, he, rfl⟩)
    exact ⟨h1, h2.2.1⟩
  have hord' : ∀ i, i ∈ order ↔ i < es0.length := by
    intro i
    rw [hord.mem_iff, List.mem_range, hlen]
  have hinit : Level0Inv ind es0 [] ⟨es0, fun _ _ => none⟩ := by
    refine ⟨rfl, ?_, ?_, fun _ _ _ => rfl, fun _ _ => Or.inl rfl⟩
    · intro i e he
      simpa using he
    · intro i e hi
      simp at hi
  obtain ⟨st, hst, hinv⟩ := level0_fold ha hr order [] (fun i hi => (hord' i).1 hi) hinit
  rw [List.nil_append] at hinv
  have hedges : st.edges = es0.map (fun e => if ind e.x e.y [] = true then { e with needRemove := true } else e) := by
    apply List.ext_getElem?
    intro i
    rw [List.getElem?_map]
    by_cases hi : i < es0.length
    · rw [hinv.edge i _ (List.getElem?_eq_getElem hi), List.getElem?_eq_getElem hi, Option.map_some]
      simp only [(hord' i).2 hi, true_and]
    · rw [List.getElem?_eq_none (by rw [hinv.length]; omega), List.getElem?_eq_none (by omega), Option.map_none]
  have hpairs : st.edges.map (fun e => (e.x, e.y)) = es0.map (fun e => (e.x, e.y)) := by
    rw [hedges, List.map_map]
    apply List.map_congr_left
    intro e _
    simp only [Function.comp]
    split <;> rfl
  have hmark : ∀ e ∈ st.edges, e.needRemove = (separator ind (fullAdjacency n) 0 e.x e.y).isSome := by
    intro e he
    rw [hedges] at he
    obtain ⟨e0, he0, rfl⟩ := List.mem_map.1 he
    have hxy := hr e0 he0
    split
    · rename_i h
      rw [separator_zero hrep.goodAdj (by simp only; omega) hxy.2]
      simp only
      rw [if_pos h]
      rfl
    · rename_i h
      rw [separator_zero hrep.goodAdj (by omega) hxy.2, if_neg h]
      exact hrep.unmarked e0 he0
  have hrange : ∀ e ∈ st.edges, e.x < (fullAdjacency n).length ∧ e.y < (fullAdjacency n).length := by
    intro e he
    have : (e.x, e.y) ∈ es0.map (fun e => (e.x, e.y)) := by rw [← hpairs]; exact List.mem_map.2 ⟨e, he, rfl⟩
    obtain ⟨e0, he0, h⟩ := List.mem_map.1 this
    have := hr e0 he0
    simp only [Prod.mk.injEq] at h
    have hl := hrep.adjLength
    simp only at hl
    rw [hl]
    omega
  have hcut : (st.edges.filter (fun e => e.needRemove)).map (fun e => (e.x, e.y)) =
      (es0.map (fun e => (e.x, e.y))).filter (fun p => (separator ind (fullAdjacency n) 0 p.1 p.2).isSome) := by
    rw [← hpairs]
    exact filter_map_pairs hmark
  have hkept : (st.edges.filter (fun e => !e.needRemove)).map (fun e => (e.x, e.y)) =
      keptPairs ind 0 (fullAdjacency n) (es0.map (fun e => (e.x, e.y))) := by
    rw [filter_map_pairs (q := fun p => !(separator ind (fullAdjacency n) 0 p.1 p.2).isSome) (fun e he => by rw [hmark e he]), hpairs]
    rfl
  have hsep : st.sep = levelSep ind 0 (fullAdjacency n) (es0.map (fun e => (e.x, e.y))) (fun _ _ => none) := by
    funext a b
    unfold levelSep
    by_cases hab : (a, b) ∈ es0.map (fun e => (e.x, e.y))
    · rw [if_pos hab, Option.or_none]
      obtain ⟨e, he, heq⟩ := List.mem_map.1 hab
      obtain ⟨rfl, rfl⟩ := Prod.mk.injEq _ _ _ _ ▸ heq
      have hxy := hr e he
      rw [separator_zero hrep.goodAdj (by omega) hxy.2]
      split
      · rename_i h
        obtain ⟨i, hi, rfl⟩ := List.getElem_of_mem he
        exact hinv.sepSome i _ ((hord' i).2 hi) (List.getElem?_eq_getElem hi) h
      · rename_i h
        apply hinv.sepNone
        intro i f _ _ _
        exact h
    · rw [if_neg hab]
      apply hinv.sepNone
      intro i f _ hf hfe
      exact absurd (by rw [← hfe]; exact List.mem_map.2 ⟨f, List.mem_of_getElem? hf, rfl⟩) hab
  rw [hrun, hst, ok_bind, removeMarked_eq st.edges hrange
    (fun v l hl => nodup_of_sorted (hrep.goodAdj.sorted v l hl)), ok_bind, hcut]
  refine ⟨_, rfl, ?_, ?_, ?_⟩
  · unfold Skeleton.view
    simp only
    rw [hkept, hsep]
    rfl
  · exact represents_level hrep hkept (fun e he => by simpa using (List.mem_filter.1 he).2)
  · simp only
    rw [hsep]
    exact sepInv_level hrep (sepInv_zero ind n)

/-! ### Early stopping -/

theorem freeDegree_ge {adj : List (List Nat)} {l : List Nat} (h : l ∈ adj) : (l.length : Int) - 1 ≤ freeDegree adj := by
  unfold freeDegree
  have key : ∀ (ls : List (List Nat)) (m : Nat), m ≤ ls.foldl (fun m l => if l.length > m then l.length else m) m ∧
      ∀ l ∈ ls, l.length ≤ ls.foldl (fun m l => if l.length > m then l.length else m) m := by
    intro ls
    induction ls with
    | nil => intro m; simp
    | cons a ls ih =>
      intro m
      rw [List.foldl_cons]
      obtain ⟨h1, h2⟩ := ih (if a.length > m then a.length else m)
      constructor
      · refine le_trans ?_ h1
        split <;> omega
      · intro l hl
        rcases List.mem_cons.1 hl with rfl | hl
        · refine le_trans ?_ h1
          split <;> omega
        · exact h2 l hl
  have := (key adj 0).2 l h
  omega

theorem not_separable_of_degree {ind : Nat → Nat → List Nat → Bool} {n d d' : Nat} {G : Nat → Nat → Prop} {k : Skeleton} (hk : Represents n G k)
    (hf : ¬ freeDegree k.adj > d) (hd : d < d') {x y : Nat} (hxy : G x y) : ¬ Separable ind G d' x y := by
  have hx := (hk.range x y hxy).1
  have hy := (hk.range y x (hk.symm _ _ hxy)).1
  have key : ∀ a b, a < n → G a b → ∀ S : List Nat, S.Pairwise (· < ·) → (∀ z ∈ S, G a z ∧ z ≠ b) → S.length ≤ d := by
    intro a b ha hab S hs hS
    have ha' : a < k.adj.length := by rw [hk.adjLength]; exact ha
    have hsub : (b :: S).Subperm k.adj[a] := by
      apply List.subperm_of_subset
      · rw [List.nodup_cons]
        exact ⟨fun h => (hS b h).2 rfl, nodup_of_sorted hs⟩
      · intro z hz
        rw [(hk.adj a _ (List.getElem?_eq_getElem ha')).2 z]
        rcases List.mem_cons.1 hz with rfl | hz
        · exact hab
        · exact (hS z hz).1
    have h1 := hsub.length_le
    have h2 := freeDegree_ge (List.getElem_mem ha')
    rw [List.length_cons] at h1
    omega
  rintro ⟨S, h1, h2, _, h3 | h3⟩
  · have := key x y hx hxy S h1 h3
    omega
  · have := key y x hy (hk.symm _ _ hxy) S h1 h3
    omega

theorem skeletonAt_stable {ind : Nat → Nat → List Nat → Bool} {n d : Nat} {k : Skeleton} (hk : Represents n (skeletonAt ind n (d + 1)) k)
    (hf : ¬ freeDegree k.adj > d) (j : Nat) : skeletonAt ind n (d + 1 + j) = skeletonAt ind n (d + 1) := by
  induction j with
  | zero => rfl
  | succ j ih =>
    show levelGraph ind (d + 1 + j) (skeletonAt ind n (d + 1 + j)) = _
    rw [ih]
    funext x y
    apply propext
    show _ ∧ _ ↔ _
    constructor
    · exact fun h => h.1
    · intro h
      refine ⟨h, ?_⟩
      rcases Nat.le_total x y with hxy | hxy
      · rw [Nat.min_eq_left hxy, Nat.max_eq_right hxy]
        exact not_separable_of_degree hk hf (by omega) h
      · rw [Nat.min_eq_right hxy, Nat.max_eq_left hxy]
        exact not_separable_of_degree hk hf (by omega) (hk.symm _ _ h)

theorem SepInv.mono {ind : Nat → Nat → List Nat → Bool} {n d d' : Nat} {sep : Sepset} (h : SepInv ind n d sep) (hd : d ≤ d')
    (he : skeletonAt ind n d' = skeletonAt ind n d) : SepInv ind n d' sep := by
  refine ⟨?_, ?_, h.outside⟩
  · rw [he]; exact h.none_of_adj
  · intro x y hxy hy hn
    rw [he] at hn
    obtain ⟨S, a1, a2, a3, a4⟩ := h.some_of_not x y hxy hy hn
    exact ⟨S, a1, a2, by omega, a4⟩

/-! ### The levels -/

theorem levels_eq (ind : Nat → Nat → List Nat → Bool) (n : Nat) (count : Nat) : ∀ (d : Nat) (v : List (Nat × Nat) × List (List Nat) × Sepset), 0 < d →
    ∃ F v', ∀ (ci : CITest) (g cap : Nat) (sched : Nat → Schedule) (fuel : Nat) (k : Skeleton), Answers ci ind n g → 0 < g → 0 < cap →
      (∀ d r l, (sched d r l).Perm l) → F ≤ fuel → k.view = v → Represents n (skeletonAt ind n d) k → SepInv ind n d k.sep →
      ∃ k', levels ci g cap sched fuel d count k = .ok k' ∧ k'.view = v' ∧ Represents n (skeletonAt ind n (d + count)) k' ∧
        SepInv ind n (d + count) k'.sep := by
  induction count with
  | zero =>
    intro d v _
    refine ⟨0, v, ?_⟩
    intro ci g cap sched fuel k _ _ _ _ _ hv hk hs
    exact ⟨k, by unfold levels; rfl, hv, hk, hs⟩
  | succ count ih =>
    rintro d ⟨ps, adj, sep⟩ hd
    obtain ⟨F, v', hv'⟩ := ih (d + 1) (keptPairs ind d adj ps, levelAdj ind d adj ps, levelSep ind d adj ps sep) (by omega)
    by_cases hmore : freeDegree (levelAdj ind d adj ps) > d
    · refine ⟨max (levelFuel d adj ps) F, v', ?_⟩
      intro ci g cap sched fuel k ha hg hcap hsched hfuel hv hk hs
      unfold Skeleton.view at hv
      simp only [Prod.mk.injEq] at hv
      obtain ⟨hv1, hv2, hv3⟩ := hv
      obtain ⟨es, he, hes, hun⟩ := searchAtDepth_eq hk ha hg hd hcap (fun x y => hs.none_of_adj x y) (hsched d)
        (fuel := fuel) (by rw [hv1, hv2]; omega)
      have hrep := represents_level (sep := levelSep ind d k.adj (k.edges.map (fun e => (e.x, e.y))) k.sep) hk hes hun
      have hsep := sepInv_level hk hs
      unfold levels
      rw [he, ok_bind]
      simp only [hv1, hv2, hv3, hmore] at hrep hsep hes ⊢
      rw [if_pos (by simp)]
      obtain ⟨k', h1, h2, h3, h4⟩ := hv' ci g cap sched fuel ⟨es, levelAdj ind d adj ps, levelSep ind d adj ps sep⟩ ha hg hcap hsched (by omega)
        (by unfold Skeleton.view; simp only; rw [hes]) hrep hsep
      refine ⟨k', h1, h2, ?_, ?_⟩
      · rw [show d + (count + 1) = d + 1 + count by omega]; exact h3
      · rw [show d + (count + 1) = d + 1 + count by omega]; exact h4
    · refine ⟨levelFuel d adj ps, (keptPairs ind d adj ps, levelAdj ind d adj ps, levelSep ind d adj ps sep), ?_⟩
      intro ci g cap sched fuel k ha hg hcap hsched hfuel hv hk hs
      unfold Skeleton.view at hv
      simp only [Prod.mk.injEq] at hv
      obtain ⟨hv1, hv2, hv3⟩ := hv
      obtain ⟨es, he, hes, hun⟩ := searchAtDepth_eq hk ha hg hd hcap (fun x y => hs.none_of_adj x y) (hsched d)
        (fuel := fuel) (by rw [hv1, hv2]; omega)
      have hrep := represents_level (sep := levelSep ind d k.adj (k.edges.map (fun e => (e.x, e.y))) k.sep) hk hes hun
      have hsep := sepInv_level hk hs
      unfold levels
      rw [he, ok_bind]
      simp only [hv1, hv2, hv3, hmore] at hrep hsep hes ⊢
      rw [if_neg (by simp)]
      have hst := skeletonAt_stable hrep hmore count
      refine ⟨_, rfl, ?_, ?_, ?_⟩
      · unfold Skeleton.view
        simp only
        rw [hes]
      · rw [show d + (count + 1) = d + 1 + count by omega, hst]
        exact hrep
      · rw [show d + (count + 1) = d + 1 + count by omega]
        exact hsep.mono (by omega) hst

/-- The skeleton phase as a function of the verdicts. -/
theorem learnSkeleton_eq (ind : Nat → Nat → List Nat → Bool) (n depth : Nat) : ∃ F v, ∀ (ci : CITest) (g cap : Nat) (order : List Nat)
    (sched : Nat → Schedule) (fuel : Nat), Answers ci ind n g → 0 < g → 0 < cap → order.Perm (List.range (n * (n - 1) / 2)) →
      (∀ d r l, (sched d r l).Perm l) → F ≤ fuel →
      ∃ k, learnSkeleton ci n depth g cap order sched fuel = .ok k ∧ k.view = v ∧ Represents n (skeletonAt ind n (max depth 1)) k ∧
        SepInv ind n (max depth 1) k.sep := by
  obtain ⟨v0, h0⟩ := level0_eq ind n
  obtain ⟨F, v, h⟩ := levels_eq ind n (depth - 1) 1 v0 (by omega)
  refine ⟨F, v, ?_⟩
  intro ci g cap order sched fuel ha hg hcap hord hsched hfuel
  obtain ⟨k0, hk0, hv0, hr0, hs0⟩ := h0 ci g order ha hord
  obtain ⟨k, hk, hv, hr, hs⟩ := h ci g cap sched fuel k0 ha hg hcap hsched hfuel hv0 hr0 hs0
  refine ⟨k, ?_, hv, ?_, ?_⟩
  · unfold learnSkeleton
    rw [hk0, ok_bind, hk]
  · rw [show max depth 1 = 1 + (depth - 1) by omega]; exact hr
  · rw [show max depth 1 = 1 + (depth - 1) by omega]; exact hs

end FastPGM
