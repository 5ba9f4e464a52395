import Verif.Props.LearnRounding
import Verif.Props.Pipeline

/-!
Parameter learning with ROOT in rounded arithmetic, and the loaded files of the classification command.
-/

namespace FastPGM

open Spec

variable {K : Type} [Field K] [LinearOrder K]

/-- The rows completed by the drawn values of ROOT are the rows that the counts of a node are taken from. -/
theorem rootRows {card : Nat → Nat} {N : Net} (hN : NetShape card N) {cols : List (List Nat)} {rows : List Assignment}
    {n : Nat} (hn : N.nodes.length = n + 1) (hc : Columns card n cols rows) (hroot : card n = 2)
    (hpar : ∀ (i : Nat) s, N.nodes[i]? = some s → n ∈ s.parents → s.parents = [n])
    {rnd : Nat → Nat → Nat} (hrnd : ∀ i j, rnd i j < 2) {i : Nat} {s : NodeS} (hi' : i < n) (hs : N.nodes[i]? = some s) :
    RowsFor card cols (some n) (rnd i) (rows.mapIdx (fun j r => Assignment.set r n (rnd i j))) i s.parents := by
  set rows' := rows.mapIdx (fun j r => Assignment.set r n (rnd i j)) with hrows'
  have hget : ∀ (j : Nat) r, rows'[j]? = some r → ∃ r0, rows[j]? = some r0 ∧ r = Assignment.set r0 n (rnd i j) := by
    intro j r hr
    rw [hrows', List.getElem?_mapIdx] at hr
    cases hj : rows[j]? with
    | none => rw [hj] at hr; simp at hr
    | some r0 => rw [hj] at hr; simp at hr; exact ⟨r0, rfl, hr.symm⟩
  have hlt : ∀ v ∈ i :: s.parents, v ≠ n → v < n := by
    intro v hv hvn
    have := NetShape.lt hN hs v hv
    omega
  have hval : ∀ {v : Nat}, v < n → ∃ col, cols[v]? = some col ∧ ∀ (j : Nat) r, rows'[j]? = some r → col[j]? = some (r v) := by
    intro v hv
    obtain ⟨col, h1, h2⟩ := hc.get v hv
    refine ⟨col, h1, fun j r hr => ?_⟩
    obtain ⟨r0, h3, rfl⟩ := hget j r hr
    rw [h2 j r0 h3]
    simp [Assignment.set, show ¬ v = n by omega]
  have hin : ∀ r ∈ rows', InRange card (i :: s.parents) r := by
    intro r hr v hv
    obtain ⟨j, hj⟩ := List.mem_iff_getElem?.1 hr
    obtain ⟨r0, h3, rfl⟩ := hget j r hj
    by_cases e : v = n
    · subst e
      simp only [Assignment.set, if_pos]
      rw [hroot]; exact hrnd i j
    · simp only [Assignment.set, if_neg e]
      exact hc.lt r0 (List.mem_iff_getElem?.2 ⟨j, h3⟩) v (hlt v hv e)
  refine ⟨hin, hval hi', ?_⟩
  by_cases hmem : n ∈ s.parents
  · refine Or.inl ⟨n, hpar i _ hs hmem, rfl, fun j r hr => ?_⟩
    obtain ⟨r0, _, rfl⟩ := hget j r hr
    simp [Assignment.set]
  · refine Or.inr ⟨fun p hp e => ?_, fun p hp => ?_⟩
    · cases e; exact hmem hp
    · exact hval (hlt p (by simp [hp]) (fun e => hmem (e ▸ hp)))

/-- The table of ROOT. -/
theorem learnRoot_rounded {c : K} {ar : Arithmetic K} {alpha : Int} {card : Nat → Nat} {N : Net} (hN : NetShape card N) {n m : Nat}
    {s : NodeS} (hs : N.nodes[n]? = some s) (hp : s.parents = []) (hroot : card n = 2) (he : EntriesStand c ar alpha m 2) :
    ∃ (T : Table K) (T' : Table (Rounded ar)), learnRoot N m alpha n = .ok T ∧ learnRoot N m alpha n = .ok T' ∧
      T.vars = T'.vars ∧ T.dims = T'.dims ∧ T.cum = T'.cum ∧ T.size = T'.size ∧ List.Forall₂ (StandsFor c) T.pot T'.pot := by
  obtain ⟨x, y, h1, h2, h3⟩ := he (m / 2) m (Nat.div_le_self _ _) le_rfl
  refine ⟨{ fromFn card [n] (fun _ => (0 : K)) with pot := [x, x] }, { fromFn card [n] (fun _ => (0 : Rounded ar)) with pot := [y, y] },
    ?_, ?_, rfl, rfl, rfl, rfl, .cons h3 (.cons h3 .nil)⟩
  · unfold learnRoot
    rw [emptyTable_eq hN hs, hp, ok_bind]
    have hd0 : rd (fromFn card [n] (fun _ => (0 : K))).dims 0 = .ok (card n) := rfl
    have hpot : (fromFn card [n] (fun _ => (0 : K))).pot = [0, 0] := by simp [fromFn, hroot, tab, List.range_succ]
    rw [hd0, ok_bind, hroot, h1, ok_bind, hpot]
    rfl
  · unfold learnRoot
    rw [emptyTable_eq hN hs, hp, ok_bind]
    have hd0 : rd (fromFn card [n] (fun _ => (0 : Rounded ar))).dims 0 = .ok (card n) := rfl
    have hpot : (fromFn card [n] (fun _ => (0 : Rounded ar))).pot = [0, 0] := by simp [fromFn, hroot, tab, List.range_succ]
    rw [hd0, ok_bind, hroot, h2, ok_bind, hpot]
    rfl

/-- The tables of all variables and of ROOT. -/
theorem learnRooted_rounded {c : K} {ar : Arithmetic K} {alpha : Int} {card : Nat → Nat} {N : Net} (hN : NetShape card N)
    {cols : List (List Nat)} {rows : List Assignment} {n : Nat} (hn : N.nodes.length = n + 1) (hc : Columns card n cols rows)
    (hroot : card n = 2) (hrp : ∀ s, N.nodes[n]? = some s → s.parents = [])
    (hpar : ∀ (i : Nat) s, N.nodes[i]? = some s → n ∈ s.parents → s.parents = [n])
    {rnd : Nat → Nat → Nat} (hrnd : ∀ i j, rnd i j < 2) (he : ∀ i < n + 1, EntriesStand c ar alpha rows.length (card i)) :
    ∃ (pts : List (Table K)) (pts' : List (Table (Rounded ar))), learnParams N cols n rows.length alpha rnd [] = .ok pts ∧
      learnParams N cols n rows.length alpha rnd [] = .ok pts' ∧ StandForTables c pts pts' := by
  obtain ⟨pts, pts', h1, h2, h3⟩ := mapM_stand (l := List.range n)
    (f := fun i => learnNode (K := K) N cols rows.length alpha (some n) (rnd i) i)
    (g := fun i => learnNode (K := Rounded ar) N cols rows.length alpha (some n) (rnd i) i)
    (R := fun T T' => T.vars = T'.vars ∧ T.dims = T'.dims ∧ T.cum = T'.cum ∧ T.size = T'.size ∧ List.Forall₂ (StandsFor c) T.pot T'.pot)
    (by
      intro i hi
      have hi' : i < n := List.mem_range.1 hi
      have hs := List.getElem?_eq_getElem (show i < N.nodes.length by omega)
      have h := learnNode_rounded (c := c) (ar := ar) (alpha := alpha) hN hs (rootRows hN hn hc hroot hpar hrnd hi' hs)
        (by rw [List.length_mapIdx]; exact he i (by omega))
      rw [List.length_mapIdx] at h
      exact h)
  have hs := List.getElem?_eq_getElem (show n < N.nodes.length by omega)
  obtain ⟨T, T', h4, h5, h6⟩ := learnRoot_rounded (c := c) (ar := ar) (alpha := alpha) (m := rows.length) hN hs (hrp _ hs) hroot
    (by have := he n (by omega); rwa [hroot] at this)
  refine ⟨pts ++ [T], pts' ++ [T'], ?_, ?_, List.rel_append h3 (.cons h6 .nil)⟩
  · unfold learnParams
    rw [if_neg (by omega)]
    simp only
    rw [h1, ok_bind, h4]
    rfl
  · unfold learnParams
    rw [if_neg (by omega)]
    simp only
    rw [h2, ok_bind, h5]
    rfl

end FastPGM
