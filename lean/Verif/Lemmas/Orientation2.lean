import Verif.Lemmas.Orientation

/-!
V-structures when their arrows form no cycle.
-/

namespace FastPGM

open Spec

/-- Orienting a v-structure when both arrows can be added. -/
theorem orientTriple_clean {n : Nat} {G V : Nat → Nat → Prop} {us ds : List (Nat × Nat)} {N : Net} (h : Pd n us ds N) (hc : Cover G us ds)
    (hV : ¬ Cyclic V) (hds : ∀ x y, (x, y) ∈ ds → V x y) {a b c : Nat} (ha : a < n) (hb : b < n) (hcn : c < n) (hac : a ≠ c)
    (hGa : G b a) (hGc : G b c) (hVa : V a b) (hVc : V c b) :
    ∃ N' us' ds', orientTriple N a b c = .ok N' ∧ Pd n us' ds' N' ∧ Cover G us' ds' ∧ (a, b) ∈ ds' ∧ (c, b) ∈ ds' ∧
      (∀ p ∈ ds, p ∈ ds') ∧ ∀ x y, (x, y) ∈ ds' → (x, y) ∈ ds ∨ (x, y) = (a, b) ∨ (x, y) = (c, b) := by
  have hasym : ∀ x y, V x y → (y, x) ∉ ds := fun x y h1 h2 => hV ⟨x, (Relation.TransGen.single h1).tail (hds _ _ h2)⟩
  have hirr : ∀ x, ¬ V x x := fun x h1 => hV ⟨x, Relation.TransGen.single h1⟩
  unfold orientTriple
  rw [h.deleteDirected hb ha (hasym a b hVa), ok_bind]
  simp only [Bool.false_eq_true, if_false]
  obtain ⟨N1, e1, h1⟩ := h.deleteUndirected ha hb
  rw [e1, ok_bind]
  simp only
  rw [h1.deleteDirected hb hcn (hasym c b hVc), ok_bind]
  simp only [Bool.false_eq_true, if_false]
  obtain ⟨N2, e2, h2⟩ := h1.deleteUndirected hcn hb
  rw [e2, ok_bind]
  simp only [Bool.false_or]
  have hne : ordPair a b ≠ ordPair c b := by
    intro he
    unfold ordPair at he
    split at he <;> split at he <;> simp only [Prod.mk.injEq] at he <;> omega
  have hm2 : ordPair c b ∈ us.erase (ordPair a b) ↔ ordPair c b ∈ us := by
    rw [List.Nodup.mem_erase_iff h.us_nodup]
    exact ⟨fun h => h.2, fun h => ⟨Ne.symm hne, h⟩⟩
  simp only [hm2]
  have hga := (hc.iff b a).1 hGa
  have hgc := (hc.iff b c).1 hGc
  rw [ordPair_comm] at hga hgc
  have hacyc : ∀ (l : List (Nat × Nat)) x y, (∀ u v, (u, v) ∈ l → V u v) → V x y → ¬ Cyclic (withEdge (fun u v => (u, v) ∈ l) x y) := by
    intro l x y hl hxy hcy
    refine hV (cyclic_mono ?_ hcy)
    rintro u v (h3 | ⟨rfl, rfl⟩)
    · exact hl u v h3
    · exact hxy
  -- the first arrow
  have step1 : ∃ N3 ds3, (if decide (ordPair a b ∈ us) = true then N2.addDirectedEdge a b else Except.ok (N2, false)) =
      Except.ok (N3, decide (ordPair a b ∈ us)) ∧ Pd n ((us.erase (ordPair a b)).erase (ordPair c b)) ds3 N3 ∧
      Cover G (us.erase (ordPair a b)) ds3 ∧ (a, b) ∈ ds3 ∧ (∀ p ∈ ds, p ∈ ds3) ∧
      ∀ x y, (x, y) ∈ ds3 → (x, y) ∈ ds ∨ (x, y) = (a, b) := by
    by_cases hm : ordPair a b ∈ us
    · obtain ⟨N3, r, e3, hr, h3, _⟩ := h2.addDirected ha hb (hc.excl a b hm)
      have hr' : r = true := hr.2 (hacyc ds a b hds hVa)
      subst hr'
      refine ⟨N3, ds ++ [(a, b)], by simp only [hm, decide_true, if_true]; exact e3, by simpa using h3, hc.orient h.us_nodup hm, by simp,
        fun p hp => by simp [hp], fun x y hxy => by simpa using hxy⟩
    · have hab : (a, b) ∈ ds := by
        rcases hga with h3 | h3 | h3
        · exact absurd h3 hm
        · exact absurd h3 (hasym a b hVa)
        · exact h3
      refine ⟨N2, ds, by simp [hm], h2, ?_, hab, fun p hp => hp, fun x y hxy => Or.inl hxy⟩
      rw [List.erase_of_not_mem hm]
      exact hc
  obtain ⟨N3, ds3, e3, h3, hc3, hab3, hsub3, hsup3⟩ := step1
  have hd3 : ∀ x y, (x, y) ∈ ds3 → V x y := by
    intro x y hxy
    rcases hsup3 x y hxy with h4 | h4
    · exact hds x y h4
    · simp only [Prod.mk.injEq] at h4
      rw [h4.1, h4.2]
      exact hVa
  have step2 : ∃ N4 ds4, (if decide (ordPair c b ∈ us) = true then N3.addDirectedEdge c b else Except.ok (N3, false)) =
      Except.ok (N4, decide (ordPair c b ∈ us)) ∧ Pd n ((us.erase (ordPair a b)).erase (ordPair c b)) ds4 N4 ∧
      Cover G ((us.erase (ordPair a b)).erase (ordPair c b)) ds4 ∧ (c, b) ∈ ds4 ∧ (∀ p ∈ ds3, p ∈ ds4) ∧
      ∀ x y, (x, y) ∈ ds4 → (x, y) ∈ ds3 ∨ (x, y) = (c, b) := by
    by_cases hm : ordPair c b ∈ us
    · have hm' := hm2.2 hm
      obtain ⟨N4, r, e4, hr, h4, _⟩ := h3.addDirected hcn hb (hc3.excl c b hm')
      have hr' : r = true := hr.2 (hacyc ds3 c b hd3 hVc)
      subst hr'
      exact ⟨N4, ds3 ++ [(c, b)], by simp only [hm, decide_true, if_true]; exact e4, by simpa using h4,
        hc3.orient (h.us_nodup.erase _) hm', by simp, fun p hp => by simp [hp], fun x y hxy => by simpa using hxy⟩
    · have hcb : (c, b) ∈ ds := by
        rcases hgc with h3 | h3 | h3
        · exact absurd h3 hm
        · exact absurd h3 (hasym c b hVc)
        · exact h3
      refine ⟨N3, ds3, by simp [hm], h3, ?_, hsub3 _ hcb, fun p hp => hp, fun x y hxy => Or.inl hxy⟩
      rw [List.erase_of_not_mem (fun h => hm (hm2.1 h))]
      exact hc3
  obtain ⟨N4, ds4, e4, h4, hc4, hcb4, hsub4, hsup4⟩ := step2
  refine ⟨N4, _, ds4, ?_, h4, hc4, hsub4 _ hab3, hcb4, fun p hp => hsub4 p (hsub3 p hp), ?_⟩
  · rw [e3, ok_bind]
    simp only
    rw [e4, ok_bind]
    simp
  · intro x y hxy
    rcases hsup4 x y hxy with h5 | h5
    · rcases hsup3 x y h5 with h6 | h6
      · exact Or.inl h6
      · exact Or.inr (Or.inl h6)
    · exact Or.inr (Or.inr h5)

/-- `drain` in terms of `nextN`. -/
theorem drain_eq {gen g' : ChoiceGen} {L : List (List Int)} (h : gen.nextN (L.length + 1) = .ok (L ++ [[]], g')) (hL : ∀ c ∈ L, c ≠ []) {fuel : Nat}
    (hf : L.length < fuel) : drain fuel gen = .ok L := by
  induction L generalizing gen fuel with
  | nil =>
    obtain ⟨fuel, rfl⟩ : ∃ f, fuel = f + 1 := ⟨fuel - 1, by simp at hf; omega⟩
    unfold drain
    simp only [List.length_nil, ChoiceGen.nextN] at h
    cases hn : gen.next with
    | error e => rw [hn] at h; cases h
    | ok r =>
      rw [hn] at h
      simp only [ok_bind, pure_eq_ok, Except.ok.injEq, Prod.mk.injEq, List.nil_append, List.cons.injEq, and_true] at h
      rw [ok_bind]
      simp only [h.1, if_true]
      rfl
  | cons c L ih =>
    obtain ⟨fuel, rfl⟩ : ∃ f, fuel = f + 1 := ⟨fuel - 1, by simp at hf; omega⟩
    rw [List.length_cons] at h hf
    unfold drain
    rw [ChoiceGen.nextN] at h
    cases hn : gen.next with
    | error e => rw [hn] at h; cases h
    | ok r =>
      rw [hn, ok_bind] at h
      simp only at h
      cases hn2 : r.2.nextN (L.length + 1) with
      | error e => rw [hn2] at h; cases h
      | ok r2 =>
        rw [hn2] at h
        simp only [ok_bind, pure_eq_ok, Except.ok.injEq, Prod.mk.injEq, List.cons_append, List.cons.injEq] at h
        rw [ok_bind]
        have hc : r.1 ≠ [] := by rw [h.1.1]; exact hL c (by simp)
        simp only [if_neg hc]
        rw [ih (gen := r.2) (by rw [hn2]; exact congrArg Except.ok (Prod.ext h.1.2 h.2)) (fun c' hc' => hL c' (by simp [hc'])) (by omega), ok_bind, h.1.1]
        rfl

/-- All pairs of positions. -/
theorem drain_pairs {m : Nat} (hm : 2 ≤ m) : ∃ gen L, choiceGenerator m 2 = .ok gen ∧ drain (m * m + 1) gen = .ok L ∧
    ∀ c : List Int, c ∈ L ↔ ∃ i j : Nat, i < j ∧ j < m ∧ c = [(i : Int), (j : Int)] := by
  obtain ⟨gen, hg, L, hsorted, hmem, hnext⟩ := C11_choices m 2 (by omega) (by omega)
  have hmem' : ∀ c : List Int, c ∈ L ↔ ∃ i j : Nat, i < j ∧ j < m ∧ c = [(i : Int), (j : Int)] := by
    intro c
    rw [hmem]
    constructor
    · rintro ⟨h1, h2, h3⟩
      obtain ⟨a, b, rfl⟩ := List.length_eq_two.1 (show c.length = 2 by omega)
      have ha := h3 a (by simp)
      have hb := h3 b (by simp)
      have hab : a < b := by simpa using h2
      exact ⟨a.toNat, b.toNat, by omega, by omega, by rw [Int.toNat_of_nonneg ha.1, Int.toNat_of_nonneg hb.1]⟩
    · rintro ⟨i, j, h1, h2, rfl⟩
      refine ⟨rfl, by simpa using h1, ?_⟩
      intro x hx
      simp at hx
      omega
  have hnd : L.Nodup := hsorted.imp (fun h => ne_of_lt h)
  have hlen : L.length ≤ m * m := by
    have hsub : L ⊆ (List.range m).flatMap (fun i : Nat => (List.range m).map (fun j : Nat => [(i : Int), (j : Int)])) := by
      intro c hc
      obtain ⟨i, j, h1, h2, rfl⟩ := (hmem' c).1 hc
      rw [List.mem_flatMap]
      exact ⟨i, by rw [List.mem_range]; omega, List.mem_map.2 ⟨j, by rw [List.mem_range]; omega, rfl⟩⟩
    have := (List.subperm_of_subset hnd hsub).length_le
    simpa using this
  refine ⟨gen, L, hg, ?_, hmem'⟩
  obtain ⟨g', hn⟩ := hnext (L.length + 1)
  rw [List.take_of_length_le (by omega), show L.length + 1 - L.length = 1 by omega] at hn
  refine drain_eq hn ?_ (by omega)
  rintro c hc rfl
  obtain ⟨i, j, _, _, h⟩ := (hmem' []).1 hc
  cases h

theorem pickSet_pair {l : List Nat} {i j : Nat} (hi : i < l.length) (hj : j < l.length) :
    pickSet l [(i : Int), (j : Int)] 2 = .ok [l[i], l[j]] := by
  unfold pickSet
  have h := mapM_ok (f := fun k => do
      let c ← rd [(i : Int), (j : Int)] k
      if c < 0 then .error .ub else rd l c.toNat) (g := fun k => if k = 0 then l[i] else l[j]) (l := List.range 2) ?_
  · exact h
  · intro k hk
    rw [List.mem_range] at hk
    rcases Nat.lt_or_ge k 1 with h0 | h0
    · have : k = 0 := by omega
      subst this
      rw [rd_ok (a := (i : Int)) rfl, ok_bind, if_neg (by omega), Int.toNat_natCast, rd_getElem hi]
      rfl
    · have : k = 1 := by omega
      subst this
      rw [rd_ok (a := (j : Int)) rfl, ok_bind, if_neg (by omega), Int.toNat_natCast, rd_getElem hj]
      rfl

theorem isAdjacentTo_eq {n : Nat} {G : Nat → Nat → Prop} {k : Skeleton} (hk : Represents n G k) {a : Nat} (ha : a < n) (c : Nat) :
    ∃ r, isAdjacentTo k.adj a c = .ok r ∧ (r = true ↔ G a c) := by
  have ha' : a < k.adj.length := by rw [hk.adjLength]; exact ha
  refine ⟨decide (c ∈ k.adj[a]), ?_, ?_⟩
  · unfold isAdjacentTo rdAt
    rw [List.getElem?_eq_getElem ha']
    rfl
  · rw [decide_eq_true_iff]
    exact (hk.adj a _ (List.getElem?_eq_getElem ha')).2 c

/-- The loop over the pairs of neighbours of `b`. -/
theorem orientPairs_clean {n : Nat} {G : Nat → Nat → Prop} {k : Skeleton} (hk : Represents n G k) (hV : ¬ Cyclic (VArrow G k.sep)) {b : Nat}
    (hb : b < n) {l : List Nat} (hl : k.adj[b]? = some l) (L : List (List Int))
    (hL : ∀ c : List Int, c ∈ L → ∃ i j : Nat, i < j ∧ j < l.length ∧ c = [(i : Int), (j : Int)]) {us ds : List (Nat × Nat)} {N : Net}
    (h : Pd n us ds N) (hc : Cover G us ds) (hds : ∀ x y, (x, y) ∈ ds → VArrow G k.sep x y) :
    ∃ N' us' ds', L.foldlM (orientPair k.adj k.sep b l) N = .ok N' ∧ Pd n us' ds' N' ∧ Cover G us' ds' ∧
      (∀ x y, (x, y) ∈ ds' → VArrow G k.sep x y) ∧ (∀ p ∈ ds, p ∈ ds') ∧
      ∀ i j : Nat, [(i : Int), (j : Int)] ∈ L → ∀ a c, l[i]? = some a → l[j]? = some c → Selected G k.sep a b c → (a, b) ∈ ds' ∧ (c, b) ∈ ds' := by
  induction L generalizing N us ds with
  | nil => exact ⟨N, us, ds, rfl, h, hc, hds, fun p hp => hp, fun i j hm => by simp at hm⟩
  | cons ch L ih =>
    obtain ⟨i, j, hij, hj, rfl⟩ := hL ch (by simp)
    have hi : i < l.length := by omega
    obtain ⟨hsorted, hmem⟩ := hk.adj b l hl
    have hac : l[i] < l[j] := List.pairwise_iff_getElem.1 hsorted i j hi hj hij
    have hGa : G b l[i] := (hmem _).1 (List.getElem_mem hi)
    have hGc : G b l[j] := (hmem _).1 (List.getElem_mem hj)
    have ha : l[i] < n := (hk.range _ _ (hk.symm _ _ hGa)).1
    have hcn : l[j] < n := (hk.range _ _ (hk.symm _ _ hGc)).1
    obtain ⟨r, hr, hrG⟩ := isAdjacentTo_eq hk ha l[j]
    -- one step
    have step : ∃ N' us' ds', orientPair k.adj k.sep b l N [(i : Int), (j : Int)] = .ok N' ∧ Pd n us' ds' N' ∧ Cover G us' ds' ∧
        (∀ x y, (x, y) ∈ ds' → VArrow G k.sep x y) ∧ (∀ p ∈ ds, p ∈ ds') ∧
        (Selected G k.sep l[i] b l[j] → (l[i], b) ∈ ds' ∧ (l[j], b) ∈ ds') := by
      unfold orientPair
      rw [pickSet_pair hi hj, ok_bind, rd_ok (a := l[i]) rfl, ok_bind, rd_ok (a := l[j]) rfl, ok_bind, hr, ok_bind]
      cases r with
      | true =>
        exact ⟨N, us, ds, rfl, h, hc, hds, fun p hp => hp, fun hs => absurd (hrG.1 rfl) hs.2.2.2.1⟩
      | false =>
        simp only [Bool.false_eq_true, if_false]
        split
        · rename_i hin
          exact ⟨N, us, ds, rfl, h, hc, hds, fun p hp => hp, fun hs => absurd hin hs.2.2.2.2⟩
        · rename_i hin
          have hsel : Selected G k.sep l[i] b l[j] := ⟨hac, hGa, hGc, fun hg => by simpa using hrG.2 hg, hin⟩
          obtain ⟨N', us', ds', e1, e2, e3, e4, e5, e6, e7⟩ := orientTriple_clean h hc hV hds ha hb hcn (Nat.ne_of_lt hac) hGa hGc
            ⟨_, Or.inl hsel⟩ ⟨_, Or.inr hsel⟩
          refine ⟨N', us', ds', e1, e2, e3, ?_, e6, fun _ => ⟨e4, e5⟩⟩
          intro x y hxy
          rcases e7 x y hxy with h1 | h1 | h1
          · exact hds x y h1
          · cases h1; exact ⟨_, Or.inl hsel⟩
          · cases h1; exact ⟨_, Or.inr hsel⟩
    obtain ⟨N1, us1, ds1, e1, h1, hc1, hds1, hsub1, hsel1⟩ := step
    obtain ⟨N2, us2, ds2, e2, h2, hc2, hds2, hsub2, hsel2⟩ := ih (fun c hcm => hL c (by simp [hcm])) h1 hc1 hds1
    refine ⟨N2, us2, ds2, by rw [List.foldlM_cons, e1, ok_bind, e2], h2, hc2, hds2, fun p hp => hsub2 p (hsub1 p hp), ?_⟩
    intro i' j' hm a c hla hlc hsel
    rcases List.mem_cons.1 hm with h3 | h3
    · simp only [List.cons.injEq, and_true, Int.natCast_inj] at h3
      obtain ⟨rfl, rfl⟩ := h3
      rw [List.getElem?_eq_getElem hi, Option.some.injEq] at hla
      rw [List.getElem?_eq_getElem hj, Option.some.injEq] at hlc
      subst hla hlc
      obtain ⟨h4, h5⟩ := hsel1 hsel
      exact ⟨hsub2 _ h4, hsub2 _ h5⟩
    · exact hsel2 i' j' h3 a c hla hlc hsel

/-- The state before the orientation. -/
theorem pd_skeletonNet {n : Nat} {G : Nat → Nat → Prop} {k : Skeleton} (hk : Represents n G k) {dims : List Nat} (hd : dims.length = n) :
    Pd n (k.edges.map (fun e => (e.x, e.y))) [] (skeletonNet dims k) ∧ Cover G (k.edges.map (fun e => (e.x, e.y))) [] := by
  have hlt : ∀ p ∈ k.edges.map (fun e => (e.x, e.y)), p.1 < p.2 ∧ p.2 < n := by
    rintro ⟨x, y⟩ hp
    obtain ⟨h1, h2⟩ := (hk.edge x y).1 hp
    exact ⟨h1, (hk.range y x (hk.symm _ _ h2)).1⟩
  constructor
  · refine ⟨by simp [skeletonNet, Net.empty, hd], (empty_inv dims).withEdges _, ?_, hlt, hk.nodup, List.nodup_nil, ?_⟩
    · show k.edges.map (fun e => mkUndirected e.x e.y) = _
      rw [List.map_nil, List.append_nil, List.map_map]
      apply List.map_congr_left
      intro e he
      have := (hlt (e.x, e.y) (List.mem_map.2 ⟨e, he, rfl⟩)).1
      rw [mkUndirected_eq, ordPair_self this]
      rfl
    · intro a b
      have : (skeletonNet dims k).ch a = [] := by
        unfold Net.ch skeletonNet Net.empty
        simp only [List.getElem?_map]
        cases dims[a]? <;> rfl
      rw [this]
      simp
  · refine ⟨hk.symm, fun a h => (hk.range a a h).2 rfl, ?_, fun a b _ => by simp⟩
    intro a b
    simp only [List.not_mem_nil, or_false]
    rcases Nat.lt_trichotomy a b with h | h | h
    · rw [ordPair_self h, hk.edge]
      exact ⟨fun h1 => ⟨h, h1⟩, fun h1 => h1.2⟩
    · subst h
      constructor
      · intro h1; exact absurd rfl (hk.range a a h1).2
      · intro h1
        unfold ordPair at h1
        rw [if_neg (by omega), hk.edge] at h1
        omega
    · rw [ordPair_comm, ordPair_self h, hk.edge]
      exact ⟨fun h1 => ⟨h, hk.symm _ _ h1⟩, fun h1 => hk.symm _ _ h1.2⟩

/-- All v-structures, when their arrows form no cycle. -/
theorem orientV_clean {n : Nat} {G : Nat → Nat → Prop} {k : Skeleton} (hk : Represents n G k) {dims : List Nat} (hd : dims.length = n)
    (hV : ¬ Cyclic (VArrow G k.sep)) :
    ∃ N us ds, orientVStructure k.adj k.sep (skeletonNet dims k) = .ok N ∧ Pd n us ds N ∧ Cover G us ds ∧
      ∀ x y, (x, y) ∈ ds ↔ VArrow G k.sep x y := by
  obtain ⟨h0, hc0⟩ := pd_skeletonNet hk hd
  unfold orientVStructure
  rw [h0.len]
  obtain ⟨N, e, us, ds, h1, h2, h3, h4⟩ := foldlM_range (n := n) (b := skeletonNet dims k)
    (f := fun N b => do
      let l ← rdAt k.adj b
      if l.length < 2 then return N
      else do
        let gen ← choiceGenerator l.length 2
        let choices ← drain (l.length * l.length + 1) gen
        choices.foldlM (orientPair k.adj k.sep b l) N)
    (fun m N => ∃ us ds, Pd n us ds N ∧ Cover G us ds ∧ (∀ x y, (x, y) ∈ ds → VArrow G k.sep x y) ∧
      ∀ x b y, b < m → Selected G k.sep x b y → (x, b) ∈ ds ∧ (y, b) ∈ ds)
    ⟨_, [], h0, hc0, by simp, fun x b y hb => by omega⟩ (by
      rintro b hb N ⟨us, ds, h1, h2, h3, h4⟩
      have hb' : b < k.adj.length := by rw [hk.adjLength]; exact hb
      have hl := List.getElem?_eq_getElem hb'
      have hrd : rdAt k.adj b = .ok k.adj[b] := by
        unfold rdAt
        rw [hl]
      rw [hrd, ok_bind]
      generalize hlq : k.adj[b] = l at hl
      obtain ⟨hsorted, hmem⟩ := hk.adj b l hl
      split
      · rename_i hlen
        refine ⟨N, rfl, us, ds, h1, h2, h3, ?_⟩
        intro x b' y hb1 hsel
        rcases Nat.lt_succ_iff_lt_or_eq.1 hb1 with h5 | h5
        · exact h4 x b' y h5 hsel
        · subst h5
          exfalso
          have hx := (hmem x).2 hsel.2.1
          have hy := (hmem y).2 hsel.2.2.1
          obtain ⟨i, hi, rfl⟩ := List.getElem_of_mem hx
          obtain ⟨j, hj, rfl⟩ := List.getElem_of_mem hy
          have : i = j := by omega
          subst this
          exact Nat.lt_irrefl _ hsel.1
      · rename_i hlen
        obtain ⟨gen, L, g1, g2, g3⟩ := drain_pairs (m := l.length) (by omega)
        rw [show ((l.length : Nat) : Int) = (l.length : Int) from rfl, g1, ok_bind, g2, ok_bind]
        obtain ⟨N', us', ds', e1, e2, e3, e4, e5, e6⟩ := orientPairs_clean hk hV hb hl L (fun c hcm => (g3 c).1 hcm) h1 h2 h3
        refine ⟨N', e1, us', ds', e2, e3, e4, ?_⟩
        intro x b' y hb1 hsel
        rcases Nat.lt_succ_iff_lt_or_eq.1 hb1 with h5 | h5
        · obtain ⟨h6, h7⟩ := h4 x b' y h5 hsel
          exact ⟨e5 _ h6, e5 _ h7⟩
        · subst h5
          obtain ⟨i, hi, rfl⟩ := List.getElem_of_mem ((hmem x).2 hsel.2.1)
          obtain ⟨j, hj, rfl⟩ := List.getElem_of_mem ((hmem y).2 hsel.2.2.1)
          have hij : i < j := by
            by_contra hij
            rcases Nat.lt_or_ge j i with h6 | h6
            · have := List.pairwise_iff_getElem.1 hsorted j i hj hi h6
              exact absurd hsel.1 (by omega)
            · have : i = j := by omega
              subst this
              exact Nat.lt_irrefl _ hsel.1
          exact e6 i j ((g3 _).2 ⟨i, j, hij, hj, rfl⟩) _ _ (List.getElem?_eq_getElem hi) (List.getElem?_eq_getElem hj) hsel)
  refine ⟨N, us, ds, e, h1, h2, fun x y => ⟨h3 x y, ?_⟩⟩
  rintro ⟨z, hz | hz⟩
  · exact (h4 x y z (hk.range _ _ hz.2.1).1 hz).1
  · exact (h4 z y x (hk.range _ _ hz.2.1).1 hz).2

end FastPGM
