import Verif.Model.CellTable
import Verif.Lemmas.Learn

/-!
Helper lemmas for `Verif.Model.CellTable`.
-/

namespace FastPGM

open Spec

/-- Exact rule for a descending loop. -/
theorem foldlM_range_rev {ε β : Type} {f : β → Nat → Except ε β} (s : Nat → β) {n : Nat}
    (step : ∀ i < n, f (s (i + 1)) i = .ok (s i)) :
    (List.range n).reverse.foldlM f (s n) = .ok (s 0) := by
  induction n with
  | zero => rfl
  | succ n ih =>
    rw [List.range_succ, List.reverse_append, List.reverse_singleton, List.singleton_append, List.foldlM_cons,
      step n (by omega), ok_bind]
    exact ih (fun i hi => step i (by omega))

theorem addAt_tab {n : Nat} {g : Nat → Nat} {i x : Nat} (h : i < n) :
    addAt (tab n g) i x = .ok (tab n (fun k => g k + if i = k then x else 0)) := by
  unfold addAt
  rw [rd_tab h, ok_bind, wr_tab h]
  congr 1
  apply tab_congr
  intro k _
  by_cases e : k = i
  · subst e; simp
  · have : ¬ i = k := fun h => e h.symm
    simp [e, this]

theorem drop_prod_succ (ds : List Nat) {i : Nat} (h : i < ds.length) : (ds.drop i).prod = (ds.drop (i + 1)).prod * ds[i] := by
  rw [List.drop_eq_getElem_cons h, List.prod_cons, Nat.mul_comm]

theorem cumLevels3D_eq {ds : List Nat} (h : ds ≠ []) : cumLevels3D ds = .ok ((cumLevels ds).dropLast, ds.prod) := by
  have hl := List.length_pos_iff.2 h
  unfold cumLevels3D
  by_cases h1 : ds.length > 1
  · rw [if_pos h1]
    simp only
    rw [rd_getElem (show ds.length - 1 < ds.length by omega), ok_bind, replicate_eq_tab, wr_tab (by omega), ok_bind]
    have key := foldlM_range_rev
      (f := fun c i => do
        let a ← rd c (i + 1)
        let d ← rd ds (i + 1)
        wr c i (a * d))
      (s := fun i => tab (ds.length - 1) (fun j => if i ≤ j then (ds.drop (j + 1)).prod else 0)) (n := ds.length - 2) ?_
    · rw [show (tab (ds.length - 1) (fun j => if j = ds.length - 2 then ds[ds.length - 1] else 0)) =
          tab (ds.length - 1) (fun j => if ds.length - 2 ≤ j then (ds.drop (j + 1)).prod else 0) from ?_]
      · refine (congrArg (· >>= _) key).trans ?_
        rw [ok_bind, rd_tab (by omega), ok_bind, rd_getElem (show 0 < ds.length by omega), ok_bind]
        congr 2
        · symm
          apply tab_ext
          · simp [cumLevels_length]
          · intro i hi
            rw [List.getElem?_dropLast, cumLevels_length, if_pos hi, cumLevels_get? _ _ (by omega)]
            simp
        · simp only [Nat.le_refl, if_true]
          rw [← drop_prod_succ ds (by omega)]; simp
      · apply tab_congr
        intro j hj
        by_cases e : j = ds.length - 2
        · rw [if_pos e, if_pos (by omega)]
          rw [show j + 1 = ds.length - 1 by omega, List.drop_eq_getElem_cons (by omega), List.drop_of_length_le (by omega)]
          simp
        · rw [if_neg e, if_neg (by omega)]
    · intro i hi
      rw [rd_tab (by omega), ok_bind, rd_getElem (show i + 1 < ds.length by omega), ok_bind, wr_tab (by omega)]
      congr 1
      apply tab_congr
      intro j hj
      by_cases e : j = i
      · subst e
        rw [if_pos rfl, if_pos (by omega), if_pos (by omega), ← drop_prod_succ ds (by omega)]
      · rw [if_neg e]
        by_cases e2 : i ≤ j
        · rw [if_pos e2, if_pos (by omega)]
        · rw [if_neg e2, if_neg (by omega)]
  · rw [if_neg h1]
    obtain ⟨d, rfl⟩ := List.length_eq_one_iff.1 (show ds.length = 1 by omega)
    simp [rd, cumLevels]

/-- A loop that adds up products. -/
theorem sum_loop {n : Nat} {f : Nat → Nat → Except Fault Nat} {g : Nat → Nat} {z : Nat}
    (hf : ∀ z, ∀ j < n, f z j = .ok (z + g j)) :
    (List.range n).foldlM f z = .ok (z + ((List.range n).map g).sum) := by
  have := foldlM_range_eq (f := f) (s := fun i => z + ((List.range i).map g).sum) (n := n) ?_
  · simpa using this
  · intro i hi
    rw [hf _ i hi, List.range_succ]
    simp [Nat.add_assoc]

theorem rank_eq_sum (card : Nat → Nat) (vs : List Nat) (a : Assignment) :
    rank (vs.map card) (vs.map a) =
      ((List.range vs.length).map (fun j => (a (vs.getD j 0)) * (((vs.map card).drop (j + 1)).prod))).sum := by
  induction vs with
  | nil => rfl
  | cons v vs ih =>
    rw [List.length_cons, List.range_succ_eq_map]
    simp only [List.map_cons, rank, List.map_map, List.sum_cons]
    rw [ih]
    congr 1

/-- `cell` reads the values of the rows. -/
theorem cell_eq {cols : List (List Nat)} {v k x : Nat} {col : List Nat} (h : cols[v]? = some col) (h' : col[k]? = some x) :
    cell cols v k = .ok x := by
  unfold cell
  rw [rd_ok h, ok_bind, rd_ok h']

theorem zIndex_eq {cols : List (List Nat)} {card : Nat → Nat} {cond : List Nat} {k : Nat} {r : Assignment} (hne : cond ≠ [])
    (h : ∀ v ∈ cond, cell cols v k = .ok (r v)) :
    zIndex cols cond (cumLevels (cond.map card)).dropLast k = .ok (rank (cond.map card) (cond.map r)) := by
  have hl := List.length_pos_iff.2 hne
  unfold zIndex
  by_cases h1 : cond.length = 1
  · rw [if_pos h1]
    obtain ⟨v, rfl⟩ := List.length_eq_one_iff.1 h1
    rw [show rd [v] 0 = .ok v from rfl, ok_bind, h v (by simp)]
    simp [rank]
  · rw [if_neg h1, rd_getElem (show cond.length - 1 < cond.length by omega), ok_bind, h _ (List.getElem_mem _), ok_bind]
    rw [sum_loop (g := fun j => (r (cond.getD j 0)) * (((cond.map card).drop (j + 1)).prod))]
    · congr 1
      rw [rank_eq_sum]
      conv_rhs => rw [show cond.length = (cond.length - 1) + 1 by omega, List.range_succ]
      rw [List.map_append, List.sum_append, Nat.add_comm]
      congr 1
      rw [List.map_singleton, List.sum_singleton, List.drop_of_length_le (by simp; omega)]
      simp [List.getD_eq_getElem?_getD, List.getElem?_eq_getElem (show cond.length - 1 < cond.length by omega)]
    · intro z j hj
      rw [rd_getElem (show j < cond.length by omega), ok_bind, h _ (List.getElem_mem _), ok_bind]
      rw [rd_ok (a := ((cond.map card).drop (j + 1)).prod)]
      · rw [ok_bind]
        simp [List.getD_eq_getElem?_getD, List.getElem?_eq_getElem (show j < cond.length by omega)]
      · rw [List.getElem?_dropLast, cumLevels_length, List.length_map, if_pos (by omega), cumLevels_get? _ _ (by simp; omega)]

/-- The counting loop over any list of items. -/
theorem incr_items {ι : Type} {N : Nat} {t : ι → Nat} {f : List Nat → ι → Except Fault (List Nat)} {items : List ι}
    (ht : ∀ i ∈ items, t i < N) (hf : ∀ st, ∀ i ∈ items, f st i = incr st (t i)) (g : Nat → Nat) :
    items.foldlM f (tab N g) = .ok (tab N (fun c => g c + items.countP (fun i => t i = c))) := by
  induction items generalizing g with
  | nil => simp
  | cons i items ih =>
    rw [List.foldlM_cons, hf _ i (by simp), incr_tab (ht i (by simp)), ok_bind,
      ih (fun j hj => ht j (by simp [hj])) (fun st j hj => hf st j (by simp [hj]))]
    congr 1
    apply tab_congr
    intro c _
    rw [List.countP_cons]
    simp only [decide_eq_true_eq]
    omega

/-- Nested loops are one loop over the pairs. -/
theorem foldlM_pairs {ε α β γ : Type} {f : γ → α × β → Except ε γ} {l : List α} {l' : List β} {c : γ} :
    l.foldlM (fun c a => l'.foldlM (fun c b => f c (a, b)) c) c = (l.flatMap (fun a => l'.map (fun b => (a, b)))).foldlM f c := by
  induction l generalizing c with
  | nil => rfl
  | cons a l ih =>
    rw [List.foldlM_cons, List.flatMap_cons, List.foldlM_append, List.foldlM_map]
    congr 1
    funext c'
    exact ih

/-! ### Marginals -/

section marginals

variable {ι : Type} (is : List ι) (X Y Z : ι → Nat) (dx dy D : Nat)

/-- Row-major position of an item. -/
def itemPos (r : ι) : Nat := (Z r * dx + X r) * dy + Y r

/-- The four tables of the items with position below `P` (for `n`: of all items). -/
def margState (P : Nat) : Counts :=
  ⟨tab (D * dx * dy) (fun c => is.countP (fun r => itemPos X Y Z dx dy r = c)),
   tab (D * dx) (fun c => is.countP (fun r => itemPos X Y Z dx dy r < P ∧ Z r * dx + X r = c)),
   tab (D * dy) (fun c => is.countP (fun r => itemPos X Y Z dx dy r < P ∧ Z r * dy + Y r = c)),
   tab D (fun c => is.countP (fun r => itemPos X Y Z dx dy r < P ∧ Z r = c))⟩

variable {is X Y Z dx dy D}

theorem itemPos_inj {k i j k' i' j' : Nat} (hi : i < dx) (hj : j < dy) (hi' : i' < dx) (hj' : j' < dy)
    (h : (k * dx + i) * dy + j = (k' * dx + i') * dy + j') : k = k' ∧ i = i' ∧ j = j' := by
  have h1 : k * dx + i = k' * dx + i' := by
    have := congrArg (· / dy) h
    simpa [Nat.mul_comm _ dy, Nat.mul_add_div (show 0 < dy by omega), Nat.div_eq_of_lt hj, Nat.div_eq_of_lt hj'] using this
  have h2 : j = j' := by rw [h1] at h; omega
  have h3 : k = k' := by
    have := congrArg (· / dx) h1
    simpa [Nat.mul_comm _ dx, Nat.mul_add_div (show 0 < dx by omega), Nat.div_eq_of_lt hi, Nat.div_eq_of_lt hi'] using this
  subst h3
  exact ⟨rfl, by omega, h2⟩

theorem pos_lt {k i j : Nat} (hk : k < D) (hi : i < dx) (hj : j < dy) : (k * dx + i) * dy + j < D * dx * dy := by
  have h1 : (k + 1) * dx ≤ D * dx := Nat.mul_le_mul_right _ hk
  have h2 : (k * dx + i + 1) * dy ≤ (D * dx) * dy := Nat.mul_le_mul_right _ (by rw [Nat.succ_mul] at h1; omega)
  rw [Nat.succ_mul] at h2; omega

theorem pos_lt2 {k i : Nat} (hk : k < D) (hi : i < dx) : k * dx + i < D * dx := by
  have h1 : (k + 1) * dx ≤ D * dx := Nat.mul_le_mul_right _ hk
  rw [Nat.succ_mul] at h1; omega

theorem countP_split {P : ι → Nat} {p : Nat} {A : ι → Nat} {c b : Nat} (h : ∀ r ∈ is, P r = p → A r = b) :
    is.countP (fun r => P r < p + 1 ∧ A r = c) =
      is.countP (fun r => P r < p ∧ A r = c) + if b = c then is.countP (fun r => P r = p) else 0 := by
  induction is with
  | nil => simp
  | cons r is ih =>
    rw [List.countP_cons, List.countP_cons, List.countP_cons, ih (fun r hr => h r (by simp [hr]))]
    have h0 := h r (by simp)
    by_cases e : P r = p
    · have e1 := h0 e
      by_cases e2 : b = c
      · simp [e, e1, e2]; omega
      · simp [e, e1, e2]
    · by_cases e2 : b = c
      · by_cases e3 : A r = c
        · simp only [e3, e2, e, decide_eq_true_eq, if_true, if_false, and_true]
          have : (P r < p + 1) ↔ P r < p := by omega
          simp [this]; omega
        · simp [e3, e2, e]
      · have : (P r < p + 1) ↔ P r < p := by omega
        simp [e2, this]

/-- One round of the marginal loops. -/
theorem marg_step (hX : ∀ r ∈ is, X r < dx) (hY : ∀ r ∈ is, Y r < dy) {k i j : Nat} (hk : k < D) (hi : i < dx) (hj : j < dy) :
    (do
      let t := margState is X Y Z dx dy D ((k * dx + i) * dy + j)
      let o ← rd t.n ((k * dx + i) * dy + j)
      let ni ← addAt t.ni (k * dx + i) o
      let nj ← addAt t.nj (k * dy + j) o
      let nk ← addAt t.nk k o
      return { t with ni := ni, nj := nj, nk := nk }) = .ok (margState is X Y Z dx dy D ((k * dx + i) * dy + j + 1)) := by
  have hin : ∀ r ∈ is, itemPos X Y Z dx dy r = (k * dx + i) * dy + j → Z r = k ∧ X r = i ∧ Y r = j :=
    fun r hr h => itemPos_inj (hX r hr) (hY r hr) hi hj h
  simp only [margState]
  rw [rd_tab (pos_lt hk hi hj), ok_bind, addAt_tab (pos_lt2 hk hi), ok_bind, addAt_tab (pos_lt2 hk hj), ok_bind, addAt_tab hk, ok_bind]
  show Except.ok _ = Except.ok _
  congr 2
  · apply tab_congr
    intro c _
    rw [countP_split (b := k * dx + i)]
    intro r hr h
    obtain ⟨h1, h2, _⟩ := hin r hr h
    rw [h1, h2]
  · apply tab_congr
    intro c _
    rw [countP_split (b := k * dy + j)]
    intro r hr h
    obtain ⟨h1, _, h2⟩ := hin r hr h
    rw [h1, h2]
  · apply tab_congr
    intro c _
    rw [countP_split (b := k)]
    intro r hr h
    exact (hin r hr h).1

/-- The loops over `i` and `j`. -/
theorem marg_inner (hX : ∀ r ∈ is, X r < dx) (hY : ∀ r ∈ is, Y r < dy) {k : Nat} (hk : k < D)
    {body : Counts → Nat → Nat → Except Fault Counts}
    (hb : ∀ t, ∀ i < dx, ∀ j < dy, body t i j = (do
      let o ← rd t.n ((k * dx + i) * dy + j)
      let ni ← addAt t.ni (k * dx + i) o
      let nj ← addAt t.nj (k * dy + j) o
      let nk ← addAt t.nk k o
      return { t with ni := ni, nj := nj, nk := nk })) :
    (List.range dx).foldlM (fun t i => (List.range dy).foldlM (fun t j => body t i j) t) (margState is X Y Z dx dy D (k * dx * dy)) =
      .ok (margState is X Y Z dx dy D ((k + 1) * dx * dy)) := by
  have := foldlM_range_eq (f := fun t i => (List.range dy).foldlM (fun t j => body t i j) t)
    (s := fun i => margState is X Y Z dx dy D ((k * dx + i) * dy)) (n := dx) ?_
  · simpa [Nat.succ_mul] using this
  · intro i hi
    have h2 := foldlM_range_eq (f := fun t j => body t i j)
      (s := fun j => margState is X Y Z dx dy D ((k * dx + i) * dy + j)) (n := dy) ?_
    · refine h2.trans ?_
      show Except.ok (margState is X Y Z dx dy D ((k * dx + i) * dy + dy)) = Except.ok (margState is X Y Z dx dy D ((k * dx + (i + 1)) * dy))
      congr 2
      rw [show k * dx + (i + 1) = (k * dx + i) + 1 by omega, Nat.succ_mul]
    · intro j hj
      rw [hb _ i hi j hj]
      exact marg_step hX hY hk hi hj

theorem margState_zero : margState is X Y Z dx dy D 0 =
    { Counts.zero dx dy D with n := tab (D * dx * dy) (fun c => is.countP (fun r => itemPos X Y Z dx dy r = c)) } := by
  simp [margState, Counts.zero, replicate_eq_tab]

/-- The final tables. -/
def margTables (is : List ι) (X Y Z : ι → Nat) (dx dy D : Nat) : Counts :=
  ⟨tab (D * dx * dy) (fun c => is.countP (fun r => itemPos X Y Z dx dy r = c)),
   tab (D * dx) (fun c => is.countP (fun r => Z r * dx + X r = c)),
   tab (D * dy) (fun c => is.countP (fun r => Z r * dy + Y r = c)),
   tab D (fun c => is.countP (fun r => Z r = c))⟩

theorem margState_end (hX : ∀ r ∈ is, X r < dx) (hY : ∀ r ∈ is, Y r < dy) (hZ : ∀ r ∈ is, Z r < D) :
    margState is X Y Z dx dy D (D * dx * dy) = margTables is X Y Z dx dy D := by
  have hlt : ∀ r ∈ is, itemPos X Y Z dx dy r < D * dx * dy := fun r hr => pos_lt (hZ r hr) (hX r hr) (hY r hr)
  unfold margState margTables
  congr 1 <;>
  · apply tab_congr
    intro c _
    apply List.countP_congr
    intro r hr
    simp [hlt r hr]

theorem fillMarginals_eq (hX : ∀ r ∈ is, X r < dx) (hY : ∀ r ∈ is, Y r < dy) (hZ : ∀ r ∈ is, Z r < D) :
    fillMarginals dx dy D (margState is X Y Z dx dy D 0) = .ok (margTables is X Y Z dx dy D) := by
  unfold fillMarginals
  rw [← margState_end hX hY hZ]
  have := foldlM_range_eq (s := fun k => margState is X Y Z dx dy D (k * dx * dy)) (n := D)
    (f := fun t k =>
    (List.range dx).foldlM (fun t i =>
      (List.range dy).foldlM (fun t j => do
        let o ← rd t.n (k * dx * dy + i * dy + j)
        let ni ← addAt t.ni (k * dx + i) o
        let nj ← addAt t.nj (k * dy + j) o
        let nk ← addAt t.nk k o
        return { t with ni := ni, nj := nj, nk := nk }) t) t) ?_
  · simpa using this
  · intro k hk
    apply marg_inner hX hY hk
    intro t i _ j _
    rw [Nat.add_mul]

end marginals

end FastPGM
