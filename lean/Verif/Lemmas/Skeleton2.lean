import Verif.Lemmas.Skeleton

/-!
Lemmas about the skeleton phase: the life of one edge during a level.
-/

namespace FastPGM

open Spec

/-- The neighbours of `x` other than `y` at the start of the level. -/
def others (adj : List (List Nat)) (x y : Nat) : List Nat := (adj.getD x []).erase y

/-- All conditioning sets of size `d` for the pair, in the order in which they are tested. -/
def allSets (adj : List (List Nat)) (d x y : Nat) : List (List Nat) := combos (others adj x y) d ++ combos (others adj y x) d

/-- The edge still has the conditioning sets `rem` to go through; `m` bounds the number of remaining rounds. -/
def Pending (adj : List (List Nat)) (d : Nat) (e : WorkEdge) (rem : List (List Nat)) (m : Nat) : Prop :=
  (e.process = .no ∧ rem = allSets adj d e.x e.y ∧ m = (combos (others adj e.x e.y) d).length + (combos (others adj e.y e.x) d).length + 4) ∨
  (∃ gen k, e.process = .node1 ∧ e.vecAdj = others adj e.x e.y ∧ e.cg = some gen ∧ GenAt (choicesOf e.vecAdj d) gen k ∧
    k ≤ (combos (others adj e.x e.y) d).length ∧
    rem = (combos (others adj e.x e.y) d).drop k ++ combos (others adj e.y e.x) d ∧
    m = ((combos (others adj e.x e.y) d).length - k) + (combos (others adj e.y e.x) d).length + 3) ∨
  (e.process = .enode1 ∧ rem = combos (others adj e.y e.x) d ∧ m = (combos (others adj e.y e.x) d).length + 2) ∨
  (∃ gen k, e.process = .node2 ∧ e.vecAdj = others adj e.y e.x ∧ e.cg = some gen ∧ GenAt (choicesOf e.vecAdj d) gen k ∧
    k ≤ (combos (others adj e.y e.x) d).length ∧
    rem = (combos (others adj e.y e.x) d).drop k ∧ m = ((combos (others adj e.y e.x) d).length - k) + 1)

/-- What one round does to an edge that has the sets `rem` to go through. -/
def RoundResult (ind : Nat → Nat → List Nat → Bool) (adj : List (List Nat)) (d : Nat) (e : WorkEdge) (rem : List (List Nat)) (m : Nat)
    (r : WorkEdge × Bool × Option (List Nat)) : Prop :=
  r.1.x = e.x ∧ r.1.y = e.y ∧
  ((r.2.1 = true ∧ r.2.2 = none ∧ ∃ rem' m', Pending adj d r.1 rem' m' ∧ m' < m ∧ rem'.find? (ind e.x e.y) = rem.find? (ind e.x e.y)) ∨
   (r.2.1 = false ∧ r.2.2 = rem.find? (ind e.x e.y) ∧ r.1.needRemove = (rem.find? (ind e.x e.y)).isSome))

/-- What is known about the adjacency lists at the start of a level. -/
structure GoodAdj (n : Nat) (adj : List (List Nat)) : Prop where
  length : adj.length = n
  sorted : ∀ (v : Nat) l, adj[v]? = some l → l.Pairwise (· < ·)
  range : ∀ (v : Nat) l, adj[v]? = some l → ∀ z ∈ l, z < n ∧ z ≠ v

theorem others_sorted {n : Nat} {adj : List (List Nat)} (h : GoodAdj n adj) {x : Nat} (hx : x < n) (y : Nat) :
    (others adj x y).Pairwise (· < ·) := by
  have hx' : x < adj.length := by rw [h.length]; exact hx
  unfold others
  rw [List.getD_eq_getElem?_getD, List.getElem?_eq_getElem hx', Option.getD_some]
  exact (h.sorted x _ (List.getElem?_eq_getElem hx')).sublist List.erase_sublist

theorem mem_others {n : Nat} {adj : List (List Nat)} (h : GoodAdj n adj) {x : Nat} (hx : x < n) {y z : Nat} :
    z ∈ others adj x y ↔ z ∈ adj.getD x [] ∧ z ≠ y := by
  have hx' : x < adj.length := by rw [h.length]; exact hx
  unfold others
  rw [List.getD_eq_getElem?_getD, List.getElem?_eq_getElem hx', Option.getD_some,
    (nodup_of_sorted (h.sorted x _ (List.getElem?_eq_getElem hx'))).mem_erase_iff]
  tauto

theorem others_range {n : Nat} {adj : List (List Nat)} (h : GoodAdj n adj) {x : Nat} (hx : x < n) {y z : Nat} (hz : z ∈ others adj x y) :
    z < n ∧ z ≠ x ∧ z ≠ y := by
  obtain ⟨h1, h2⟩ := (mem_others h hx).1 hz
  have hx' : x < adj.length := by rw [h.length]; exact hx
  rw [List.getD_eq_getElem?_getD, List.getElem?_eq_getElem hx', Option.getD_some] at h1
  have := h.range x _ (List.getElem?_eq_getElem hx') z h1
  exact ⟨this.1, this.2, h2⟩

theorem findAdjacencies_eq {n : Nat} {adj : List (List Nat)} (h : GoodAdj n adj) {x : Nat} (hx : x < n) (y : Nat) :
    findAdjacencies adj x y = .ok (others adj x y) := by
  have hx' : x < adj.length := by rw [h.length]; exact hx
  unfold findAdjacencies rdAt others
  rw [List.getD_eq_getElem?_getD, List.getElem?_eq_getElem hx', Option.getD_some]
  show Except.ok _ = Except.ok _
  rw [sortedSet_eq (h.sorted x _ (List.getElem?_eq_getElem hx'))]

theorem find?_drop_take {p : List Nat → Bool} {l : List (List Nat)} {k g : Nat} (h : ((l.drop k).take g).any p = false) :
    (l.drop k).find? p = (l.drop (k + g)).find? p := by
  conv_lhs => rw [← List.take_append_drop g (l.drop k)]
  rw [List.find?_append, List.drop_drop]
  have : ((l.drop k).take g).find? p = none := by
    rw [List.find?_eq_none]
    intro x hx
    have := List.any_eq_false.1 h x hx
    simpa using this
  rw [this, Option.none_or]

theorem find?_of_any {p : List Nat → Bool} {l l' : List (List Nat)} {g : Nat} (h : (l.take g).any p = true) :
    (l ++ l').find? p = (l.take g).find? p ∧ ((l.take g).find? p).isSome = true := by
  have hs : ((l.take g).find? p).isSome = true := by
    rw [List.find?_isSome]
    obtain ⟨x, hx, hp⟩ := List.any_eq_true.1 h
    exact ⟨x, hx, hp⟩
  refine ⟨?_, hs⟩
  conv_lhs => rw [← List.take_append_drop g l, List.append_assoc]
  rw [List.find?_append]
  cases hc : (l.take g).find? p with
  | none => rw [hc] at hs; cases hs
  | some a => rfl

section
variable {ci : CITest} {ind : Nat → Nat → List Nat → Bool} {n g d : Nat} {adj : List (List Nat)}

/-- One group of tests on the neighbours of the first node. -/
theorem checkTests_node1 (ha : Answers ci ind n g) (hg : 0 < g) (hd : 0 < d) (hadj : GoodAdj n adj)
    {e : WorkEdge} (hxy : e.x < e.y) (hy : e.y < n) {gen : ChoiceGen} {k : Nat} (hp : e.process = .node1) (hv : e.vecAdj = others adj e.x e.y)
    (hcg : e.cg = some gen) (hgen : GenAt (choicesOf e.vecAdj d) gen k) (hk : k ≤ (combos (others adj e.x e.y) d).length) :
    ∃ r, checkTests ci d g e = .ok r ∧ RoundResult ind adj d e ((combos (others adj e.x e.y) d).drop k ++ combos (others adj e.y e.x) d)
      (((combos (others adj e.x e.y) d).length - k) + (combos (others adj e.y e.x) d).length + 3) r := by
  have hx : e.x < n := by omega
  obtain ⟨gen', hgen', ht⟩ := testing_eq ha hg hd hxy hy (by rw [hv]; exact others_sorted hadj hx _)
    (by rw [hv]; exact fun z hz => others_range hadj hx hz) hcg hgen
  unfold checkTests
  rw [ht, ok_bind]
  rw [hv]
  rw [hv] at hgen'
  by_cases hany : (((combos (others adj e.x e.y) d).drop k).take g).any (ind e.x e.y) = true
  · rw [if_pos hany]
    simp only
    have hf := find?_of_any (l' := combos (others adj e.y e.x) d) hany
    refine ⟨_, rfl, rfl, rfl, Or.inr ⟨rfl, hf.1.symm, ?_⟩⟩
    simp only
    rw [hf.1, hf.2]
  · have hany' : (((combos (others adj e.x e.y) d).drop k).take g).any (ind e.x e.y) = false := by simpa using hany
    rw [if_neg hany]
    simp only [if_neg (Bool.false_ne_true)]
    have hfind : ((combos (others adj e.x e.y) d).drop k ++ combos (others adj e.y e.x) d).find? (ind e.x e.y) =
        ((combos (others adj e.x e.y) d).drop (k + g) ++ combos (others adj e.y e.x) d).find? (ind e.x e.y) := by
      rw [List.find?_append, List.find?_append, find?_drop_take hany']
    by_cases hlen : (((combos (others adj e.x e.y) d).drop k).take g).length = g
    · rw [show decide ((((combos (others adj e.x e.y) d).drop k).take g).length ≠ g) = false by simpa using hlen, if_pos rfl]
      have hkg : k + g ≤ (combos (others adj e.x e.y) d).length := by
        rw [List.length_take, List.length_drop] at hlen
        omega
      refine ⟨_, rfl, rfl, rfl, Or.inl ⟨rfl, rfl, _, _, Or.inr (Or.inl ⟨gen', k + g, hp, rfl, rfl, ?_, hkg, rfl, rfl⟩), ?_, hfind.symm⟩⟩
      · exact hgen'
      · show _ - (k + g) + _ + 3 < _
        simp only
        omega
    · rw [show decide ((((combos (others adj e.x e.y) d).drop k).take g).length ≠ g) = true by simpa using hlen,
        if_neg (by simp), if_pos hp]
      have hkg : (combos (others adj e.x e.y) d).length ≤ k + g := by
        rw [List.length_take, List.length_drop] at hlen
        omega
      refine ⟨_, rfl, rfl, rfl, Or.inl ⟨rfl, rfl, _, _, Or.inr (Or.inr (Or.inl ⟨rfl, rfl, rfl⟩)), ?_, ?_⟩⟩
      · simp only
        omega
      · rw [hfind, List.drop_eq_nil_of_le hkg, List.nil_append]

/-- One group of tests on the neighbours of the second node. -/
theorem checkTests_node2 (ha : Answers ci ind n g) (hg : 0 < g) (hd : 0 < d) (hadj : GoodAdj n adj)
    {e : WorkEdge} (hxy : e.x < e.y) (hy : e.y < n) {gen : ChoiceGen} {k : Nat} (hp : e.process = .node2) (hv : e.vecAdj = others adj e.y e.x)
    (hcg : e.cg = some gen) (hgen : GenAt (choicesOf e.vecAdj d) gen k) (hk : k ≤ (combos (others adj e.y e.x) d).length) :
    ∃ r, checkTests ci d g e = .ok r ∧ RoundResult ind adj d e ((combos (others adj e.y e.x) d).drop k)
      (((combos (others adj e.y e.x) d).length - k) + 1) r := by
  have hx : e.x < n := by omega
  obtain ⟨gen', hgen', ht⟩ := testing_eq ha hg hd hxy hy (by rw [hv]; exact others_sorted hadj hy _)
    (by rw [hv]; exact fun z hz => have h := others_range hadj hy hz; ⟨h.1, h.2.2, h.2.1⟩) hcg hgen
  unfold checkTests
  rw [ht, ok_bind]
  rw [hv]
  rw [hv] at hgen'
  by_cases hany : (((combos (others adj e.y e.x) d).drop k).take g).any (ind e.x e.y) = true
  · rw [if_pos hany]
    simp only
    have hf := find?_of_any (l' := []) hany
    rw [List.append_nil] at hf
    refine ⟨_, rfl, rfl, rfl, Or.inr ⟨rfl, hf.1.symm, ?_⟩⟩
    simp only
    rw [hf.1, hf.2]
  · have hany' : (((combos (others adj e.y e.x) d).drop k).take g).any (ind e.x e.y) = false := by simpa using hany
    rw [if_neg hany]
    simp only [if_neg (Bool.false_ne_true)]
    have hfind := find?_drop_take hany'
    by_cases hlen : (((combos (others adj e.y e.x) d).drop k).take g).length = g
    · rw [show decide ((((combos (others adj e.y e.x) d).drop k).take g).length ≠ g) = false by simpa using hlen, if_pos rfl]
      have hkg : k + g ≤ (combos (others adj e.y e.x) d).length := by
        rw [List.length_take, List.length_drop] at hlen
        omega
      refine ⟨_, rfl, rfl, rfl, Or.inl ⟨rfl, rfl, _, _, Or.inr (Or.inr (Or.inr ⟨gen', k + g, hp, rfl, rfl, ?_, hkg, rfl, rfl⟩)), ?_, hfind.symm⟩⟩
      · exact hgen'
      · simp only
        omega
    · rw [show decide ((((combos (others adj e.y e.x) d).drop k).take g).length ≠ g) = true by simpa using hlen,
        if_neg (by simp), if_neg (by rw [hp]; simp)]
      have hkg : (combos (others adj e.y e.x) d).length ≤ k + g := by
        rw [List.length_take, List.length_drop] at hlen
        omega
      have hnone : ((combos (others adj e.y e.x) d).drop k).find? (ind e.x e.y) = none := by
        rw [hfind, List.drop_eq_nil_of_le hkg]; rfl
      refine ⟨_, rfl, rfl, rfl, Or.inr ⟨rfl, hnone.symm, ?_⟩⟩
      rw [hnone]
      rfl

/-- A round that starts on the neighbours of the second node. -/
theorem check_second (ha : Answers ci ind n g) (hg : 0 < g) (hd : 0 < d) (hadj : GoodAdj n adj)
    {e : WorkEdge} (hxy : e.x < e.y) (hy : e.y < n) {m : Nat} (hm : (combos (others adj e.y e.x) d).length + 2 ≤ m) :
    ∃ r, (do
      let a ← findAdjacencies adj e.y e.x
      if d ≤ a.length then do
        let gen ← choiceGenerator a.length d
        checkTests ci d g { e with vecAdj := a, cg := some gen, process := .node2 }
      else return ({ e with vecAdj := a, needRemove := false }, false, none)) = .ok r ∧
      RoundResult ind adj d e (combos (others adj e.y e.x) d) m r := by
  rw [findAdjacencies_eq hadj hy, ok_bind]
  split
  · rename_i hlen
    obtain ⟨gen, hgen, hat⟩ := genAt_init (a := ((others adj e.y e.x).length : Int)) (b := (d : Int)) (by omega) (by omega)
    rw [hgen, ok_bind]
    obtain ⟨r, hr, hres⟩ := checkTests_node2 (e := { e with vecAdj := others adj e.y e.x, cg := some gen, process := .node2 }) ha hg hd hadj
      hxy hy rfl rfl rfl (by simpa [choicesOf] using hat) (Nat.zero_le _)
    refine ⟨r, hr, ?_⟩
    obtain ⟨h1, h2, h3⟩ := hres
    refine ⟨h1, h2, ?_⟩
    rcases h3 with ⟨p1, p2, rem', m', p3, p4, p5⟩ | h3
    · exact Or.inl ⟨p1, p2, rem', m', p3, by simp only at p4; omega, p5⟩
    · exact Or.inr h3
  · rename_i hlen
    have hnil := combos_short (others_sorted hadj hy e.x) (d := d) (by omega)
    rw [hnil]
    exact ⟨_, rfl, rfl, rfl, Or.inr ⟨rfl, rfl, rfl⟩⟩

/-- One round of an edge. -/
theorem checkEdge_round (ha : Answers ci ind n g) (hg : 0 < g) (hd : 0 < d) (hadj : GoodAdj n adj)
    {e : WorkEdge} (hxy : e.x < e.y) (hy : e.y < n) {rem : List (List Nat)} {m : Nat} (hp : Pending adj d e rem m) :
    ∃ r, checkEdge ci adj d g e = .ok r ∧ RoundResult ind adj d e rem m r := by
  have hx : e.x < n := by omega
  unfold checkEdge
  rcases hp with ⟨hproc, rfl, rfl⟩ | ⟨gen, k, hproc, hv, hcg, hgen, hk, rfl, rfl⟩ | ⟨hproc, rfl, rfl⟩ | ⟨gen, k, hproc, hv, hcg, hgen, hk, rfl, rfl⟩
  · rw [hproc]
    simp only
    rw [findAdjacencies_eq hadj hx, ok_bind]
    split
    · rename_i hlen
      obtain ⟨gen, hgen, hat⟩ := genAt_init (a := ((others adj e.x e.y).length : Int)) (b := (d : Int)) (by omega) (by omega)
      rw [hgen, ok_bind]
      obtain ⟨r, hr, hres⟩ := checkTests_node1 (e := { e with vecAdj := others adj e.x e.y, cg := some gen, process := .node1 }) ha hg hd hadj
        hxy hy rfl rfl rfl (by simpa [choicesOf] using hat) (Nat.zero_le _)
      refine ⟨r, hr, ?_⟩
      obtain ⟨h1, h2, h3⟩ := hres
      refine ⟨h1, h2, ?_⟩
      rcases h3 with ⟨p1, p2, rem', m', p3, p4, p5⟩ | h3
      · exact Or.inl ⟨p1, p2, rem', m', p3, by simp only at p4; omega, p5⟩
      · exact Or.inr h3
    · rename_i hlen
      have hnil := combos_short (others_sorted hadj hx e.y) (d := d) (by omega)
      unfold allSets
      rw [hnil, List.nil_append]
      have := check_second ha hg hd hadj hxy hy (m := ([] : List (List Nat)).length + (combos (others adj e.y e.x) d).length + 4)
        (by simp only [List.length_nil]; omega)
      rw [hproc] at this
      exact this
  · rw [hproc]
    simp only
    exact checkTests_node1 ha hg hd hadj hxy hy hproc hv hcg hgen hk
  · rw [hproc]
    simp only
    have := check_second ha hg hd hadj hxy hy (le_refl _)
    rw [hproc] at this
    exact this
  · rw [hproc]
    simp only
    exact checkTests_node2 ha hg hd hadj hxy hy hproc hv hcg hgen hk

end

end FastPGM
