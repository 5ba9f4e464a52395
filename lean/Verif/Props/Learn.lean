import Verif.Props.Params

/-!
Properties C21, C22: parameters learned from data; C24: numbers of a network file.
-/

namespace FastPGM

open Spec

variable {K : Type}

theorem countSame_sum {card : Nat → Nat} {rows : List Assignment} {i : Nat} {ps : List Nat} (hi : i ∉ ps)
    (hr : ∀ r ∈ rows, r i < card i) (a : Assignment) :
    ∑ x ∈ Finset.range (card i), countSame rows (i :: ps) (a.set i x) = countSame rows ps a := by
  unfold countSame
  induction rows with
  | nil => simp
  | cons r rows ih =>
    have h1 := ih (fun r' h' => hr r' (by simp [h']))
    simp only [List.countP_cons]
    rw [Finset.sum_add_distrib, h1]
    congr 1
    have h2 : ∀ x, ((i :: ps).all (fun v => r v == (a.set i x) v)) = (r i == x && ps.all (fun v => r v == a v)) := by
      intro x
      rw [List.all_cons]
      congr 1
      · simp [Assignment.set]
      · rw [Bool.eq_iff_iff, all_beq_iff, all_beq_iff, map_set_of_notMem hi]
    simp only [h2]
    by_cases e : (ps.all (fun v => r v == a v)) = true
    · simp [e, hr r (by simp)]
    · simp [e]

theorem countSame_le {rows : List Assignment} (i : Nat) (ps : List Nat) (a : Assignment) :
    countSame rows (i :: ps) a ≤ countSame rows ps a := by
  apply List.countP_mono_left
  intro r _ h
  rw [List.all_cons, Bool.and_eq_true] at h
  exact h.2

section ordered

variable [Field K] [LinearOrder K] [IsStrictOrderedRing K]

theorem den_pos {card : Nat → Nat} {rows : List Assignment} {alpha : Int} {i : Nat} {ps : List Nat} {a : Assignment}
    (hc : 0 < card i) (ha : 0 ≤ alpha) (h0 : alpha = 0 → 0 < countSame rows ps a) :
    (0 : K) < (countSame rows ps a : K) + (alpha : K) * (card i : K) := by
  have h1 : (0 : K) ≤ (countSame rows ps a : K) := by exact_mod_cast Nat.zero_le _
  have h2 : (0 : K) < (card i : K) := by exact_mod_cast hc
  rcases lt_or_eq_of_le ha with h | h
  · have : (0 : K) < (alpha : K) := by exact_mod_cast h
    have := mul_pos this h2
    linarith
  · have h3 : (0 : K) < (countSame rows ps a : K) := by exact_mod_cast h0 h.symm
    rw [← h]
    simpa using h3

theorem learnNode_spec {card : Nat → Nat} {N : Net} (hN : NetShape card N) {i : Nat} {s : NodeS}
    (hi : N.nodes[i]? = some s) {cols : List (List Nat)} {root : Option Nat} {rnd : Nat → Nat} {rows : List Assignment}
    (h : RowsFor card cols root rnd rows i s.parents) {alpha : Int} (ha : 0 ≤ alpha)
    (h0 : alpha = 0 → ∀ a, InRange card s.parents a → 0 < countSame rows s.parents a) :
    ∃ T : Table K, learnNode N cols rows.length alpha root rnd i = .ok T ∧
      IsFrequencyTable card rows alpha i s.parents T := by
  refine ⟨_, learnNode_eq hN hi h alpha ?_, fromFn_wf (NetShape.nodup hN hi) (NetShape.pos hN hi) _, rfl, ?_⟩
  · intro a hr
    exact (den_pos (hN.dim i s hi).2 ha (fun e => h0 e a (fun v hv => hr v (by simp [hv])))).ne'
  · intro a hr
    rw [value_fromFn (NetShape.nodup hN hi) (frequency_dependsOn card rows alpha i s.parents) hr]
    rfl

theorem mapM_index {α β : Type} {f : α → Except Fault β} {P : α → β → Prop} {l : List α} (h : ∀ x ∈ l, ∃ b, f x = .ok b ∧ P x b) :
    ∃ bs, l.mapM f = .ok bs ∧ bs.length = l.length ∧ ∀ (k : Nat) x, l[k]? = some x → ∃ b, bs[k]? = some b ∧ P x b := by
  induction l with
  | nil => exact ⟨[], rfl, rfl, by simp⟩
  | cons x l ih =>
    obtain ⟨b, h1, h2⟩ := h x (by simp)
    obtain ⟨bs, h3, h4, h5⟩ := ih (fun y hy => h y (by simp [hy]))
    refine ⟨b :: bs, ?_, by simp [h4], ?_⟩
    · rw [List.mapM_cons, h1, ok_bind, h3]; rfl
    · intro k y hk
      cases k with
      | zero => simp at hk; subst hk; exact ⟨b, by simp, h2⟩
      | succ k => simpa using h5 k y (by simpa using hk)

/-- C22.  Learning on a network whose nodes are the variables of the dataset appends one table per variable; the table of a
variable has the variable first and its parents after it, and its entry for value `x` under the parent values `u` is
`(N(x,u) + alpha) / (N(u) + alpha·r)`.  With `alpha = 0` this needs every parent configuration to occur. -/
theorem C22_learned {card : Nat → Nat} {N : Net} (hN : NetShape card N) {cols : List (List Nat)} {rows : List Assignment}
    (hc : Columns card N.nodes.length cols rows) {alpha : Int} (ha : 0 ≤ alpha)
    (h0 : alpha = 0 → ∀ (i : Nat) s, N.nodes[i]? = some s → ∀ a, InRange card s.parents a → 0 < countSame rows s.parents a)
    (rnd : Nat → Nat → Nat) (pts : List (Table K)) :
    ∃ new, learnParams N cols N.nodes.length rows.length alpha rnd pts = .ok (pts ++ new) ∧ new.length = N.nodes.length ∧
      ∀ (i : Nat) s, N.nodes[i]? = some s → ∃ T, new[i]? = some T ∧ IsFrequencyTable card rows alpha i s.parents T := by
  unfold learnParams
  rw [if_pos rfl]
  have hex : ∀ i ∈ List.range N.nodes.length, ∃ T : Table K,
      learnNode N cols rows.length alpha none (rnd i) i = .ok T ∧
        ∀ s, N.nodes[i]? = some s → IsFrequencyTable card rows alpha i s.parents T := by
    intro i hi
    have hi' : i < N.nodes.length := List.mem_range.1 hi
    have hs := List.getElem?_eq_getElem hi'
    have hrows : RowsFor card cols none (rnd i) rows i N.nodes[i].parents := by
      refine ⟨fun r hr v hv => hc.lt r hr v (NetShape.lt hN hs v hv), hc.get i hi', Or.inr ⟨by simp, fun p hp => ?_⟩⟩
      exact hc.get p (NetShape.lt hN hs p (by simp [hp]))
    obtain ⟨T, h1, h2⟩ := learnNode_spec (K := K) hN hs hrows ha (fun e => h0 e i _ hs)
    refine ⟨T, h1, fun s hs' => ?_⟩
    rw [hs] at hs'
    cases hs'
    exact h2
  obtain ⟨new, h1, h2, h3⟩ := mapM_index hex
  refine ⟨new, ?_, by simpa using h2, ?_⟩
  · simp only
    rw [h1]; rfl
  · intro i s hs
    have hi' : i < N.nodes.length := (List.getElem?_eq_some_iff.1 hs).1
    obtain ⟨T, h4, h5⟩ := h3 i i (by simp [hi'])
    exact ⟨T, h4, h5 s hs⟩

/-- C22 with a virtual `ROOT` (the last node, not in the dataset): the tables of the variables are the smoothed frequencies of the
instances completed, for the children of `ROOT`, with the drawn values. -/
theorem C22_learned_root {card : Nat → Nat} {N : Net} (hN : NetShape card N) {cols : List (List Nat)} {rows : List Assignment}
    {n : Nat} (hn : N.nodes.length = n + 1) (hc : Columns card n cols rows) (hroot : card n = 2)
    (hrp : ∀ s, N.nodes[n]? = some s → s.parents = [])
    (hpar : ∀ (i : Nat) s, N.nodes[i]? = some s → n ∈ s.parents → s.parents = [n])
    {rnd : Nat → Nat → Nat} (hrnd : ∀ i j, rnd i j < 2) {alpha : Int} (ha : 0 < alpha) (pts : List (Table K)) :
    ∃ new R, learnParams N cols n rows.length alpha rnd pts = .ok (pts ++ new ++ [R]) ∧ new.length = n ∧
      (∀ (i : Nat) s, i < n → N.nodes[i]? = some s → ∃ T, new[i]? = some T ∧
        IsFrequencyTable card (rows.mapIdx (fun j r => r.set n (rnd i j))) alpha i s.parents T) ∧
      WellFormed card R ∧ R.vars = [n] ∧
      ∀ a, a n < 2 → value R a = (((rows.length / 2 : Nat) : K) + (alpha : K)) / ((rows.length : K) + (alpha : K) * 2) := by
  have hex : ∀ i ∈ List.range n, ∃ T : Table K,
      learnNode N cols rows.length alpha (some n) (rnd i) i = .ok T ∧
        ∀ s, N.nodes[i]? = some s →
          IsFrequencyTable card (rows.mapIdx (fun j r => r.set n (rnd i j))) alpha i s.parents T := by
    intro i hi
    have hi' : i < n := List.mem_range.1 hi
    have hs := List.getElem?_eq_getElem (show i < N.nodes.length by omega)
    set rows' := rows.mapIdx (fun j r => Assignment.set r n (rnd i j)) with hrows'
    have hget : ∀ (j : Nat) r, rows'[j]? = some r → ∃ r0, rows[j]? = some r0 ∧ r = Assignment.set r0 n (rnd i j) := by
      intro j r hr
      rw [hrows', List.getElem?_mapIdx] at hr
      cases hj : rows[j]? with
      | none => rw [hj] at hr; simp at hr
      | some r0 => rw [hj] at hr; simp at hr; exact ⟨r0, rfl, hr.symm⟩
    have hlt : ∀ v ∈ i :: N.nodes[i].parents, v ≠ n → v < n := by
      intro v hv hvn
      have := NetShape.lt hN hs v hv
      omega
    have hval : ∀ {v : Nat}, v < n → ∃ col, cols[v]? = some col ∧ ∀ (j : Nat) r, rows'[j]? = some r → col[j]? = some (r v) := by
      intro v hv
      obtain ⟨col, h1, h2⟩ := hc.get v hv
      refine ⟨col, h1, fun j r hr => ?_⟩
      obtain ⟨r0, h3, rfl⟩ := hget j r hr
      rw [h2 j r0 h3]
      simp [Assignment.set, show ¬ v = n by omega]
    have hin : ∀ r ∈ rows', InRange card (i :: N.nodes[i].parents) r := by
      intro r hr v hv
      obtain ⟨j, hj⟩ := List.mem_iff_getElem?.1 hr
      obtain ⟨r0, h3, rfl⟩ := hget j r hj
      by_cases e : v = n
      · subst e
        simp only [Assignment.set, if_pos]
        rw [hroot]; exact hrnd i j
      · simp only [Assignment.set, if_neg e]
        exact hc.lt r0 (List.mem_iff_getElem?.2 ⟨j, h3⟩) v (hlt v hv e)
    have hrows : RowsFor card cols (some n) (rnd i) rows' i N.nodes[i].parents := by
      refine ⟨hin, hval hi', ?_⟩
      by_cases hmem : n ∈ N.nodes[i].parents
      · refine Or.inl ⟨n, hpar i _ hs hmem, rfl, fun j r hr => ?_⟩
        obtain ⟨r0, _, rfl⟩ := hget j r hr
        simp [Assignment.set]
      · refine Or.inr ⟨fun p hp e => ?_, fun p hp => ?_⟩
        · cases e; exact hmem hp
        · exact hval (hlt p (by simp [hp]) (fun e => hmem (e ▸ hp)))
    obtain ⟨T, h1, h2⟩ := learnNode_spec (K := K) hN hs hrows ha.le (fun e => absurd e ha.ne')
    rw [show rows'.length = rows.length by simp [hrows']] at h1
    refine ⟨T, h1, fun s hs' => ?_⟩
    rw [hs] at hs'
    cases hs'
    exact h2
  obtain ⟨new, h1, h2, h3⟩ := mapM_index hex
  have hsn := List.getElem?_eq_getElem (show n < N.nodes.length by omega)
  have hpn := hrp _ hsn
  have hden : (0 : K) < (rows.length : K) + (alpha : K) * 2 := by
    have h5 : (0 : K) ≤ (rows.length : K) := by exact_mod_cast Nat.zero_le _
    have h6 : (0 : K) < (alpha : K) := by exact_mod_cast ha
    linarith
  set p : K := (((rows.length / 2 : Nat) : K) + (alpha : K)) / ((rows.length : K) + (alpha : K) * 2) with hp
  have hr : learnRoot (K := K) N rows.length alpha n = .ok (fromFn card [n] (fun _ => p)) := by
    unfold learnRoot
    rw [emptyTable_eq hN hsn, hpn, ok_bind]
    have hd0 : rd (fromFn card [n] (fun _ => (0 : K))).dims 0 = .ok (card n) := rfl
    rw [hd0, ok_bind, hroot]
    unfold smoothed
    simp only [Int.cast_mul, Nat.cast_ofNat, Int.cast_ofNat]
    rw [if_neg hden.ne', ok_bind]
    have hpot : (fromFn card [n] (fun _ => (0 : K))).pot = tab 2 (fun _ => 0) := by
      simp [fromFn, hroot]
    rw [hpot, wr_tab (by omega), ok_bind, wr_tab (by omega), ok_bind]
    have hpp : (fromFn card [n] (fun _ => p)) = { fromFn card [n] (fun _ => (0 : K)) with pot := tab 2 (fun _ => p) } := by
      simp [fromFn, hroot]
    rw [hpp]
    have hpt : tab 2 (fun j => if j = 1 then p else if j = 0 then p else 0) = tab 2 (fun _ => p) := by
      apply tab_congr
      intro j hj
      have : j = 0 ∨ j = 1 := by omega
      rcases this with rfl | rfl <;> simp
    simp only [← hp]
    rw [hpt]
    rfl
  refine ⟨new, fromFn card [n] (fun _ => p), ?_, by simpa using h2, ?_, ?_, rfl, ?_⟩
  · unfold learnParams
    rw [if_neg (by omega)]
    simp only
    rw [h1, ok_bind, hr]
    rfl
  · intro i s hi hs
    obtain ⟨T, h4, h5⟩ := h3 i i (by simp [hi])
    exact ⟨T, h4, h5 s hs⟩
  · exact fromFn_wf (by simp) (by simp [hroot]) _
  · intro a han
    exact value_fromFn (by simp) (fun _ _ _ => rfl) (fun v hv => by rw [List.mem_singleton.1 hv, hroot]; exact han)

omit [IsStrictOrderedRing K] in
/-- C22.  Without smoothing, a parent configuration that never occurs in the data makes learning divide by zero. -/
theorem C22_unseen_configuration {card : Nat → Nat} {N : Net} (hN : NetShape card N) {i : Nat} {s : NodeS}
    (hi : N.nodes[i]? = some s) {cols : List (List Nat)} {rows : List Assignment}
    (hc : Columns card N.nodes.length cols rows) {a : Assignment} (ha : InRange card (i :: s.parents) a)
    (hz : countSame rows s.parents a = 0) (rnd : Nat → Nat) :
    learnNode (K := K) N cols rows.length 0 none rnd i = .error .nan := by
  have hrows : RowsFor card cols none rnd rows i s.parents := by
    refine ⟨fun r hr v hv => hc.lt r hr v (NetShape.lt hN hi v hv), hc.get i (List.getElem?_eq_some_iff.1 hi).1,
      Or.inr ⟨by simp, fun p hp => ?_⟩⟩
    exact hc.get p (NetShape.lt hN hi p (by simp [hp]))
  rw [learnNode_step hN hi hrows]
  rw [mapM_error (e := .nan) (rank ((i :: s.parents).map card) ((i :: s.parents).map a))]
  · rfl
  · exact List.mem_range.2 (rank_lt (cfgIn_map ha))
  · have e := asgOf_digits_rank (NetShape.nodup hN hi) ha
    unfold smoothed
    simp only
    rw [countSame_dependsOn rows s.parents _ a (fun v hv => e v (by simp [hv])), hz]
    simp
  · intro k _ e' he
    unfold smoothed at he
    simp only at he
    split at he
    · cases he; rfl
    · cases he

/-- C21, consequence of C22: a frequency table with `alpha > 0` is positive and normalised. -/
theorem frequencyTable_normalised {card : Nat → Nat} {rows : List Assignment} {alpha : Int} (ha : 0 < alpha) {i : Nat}
    {ps : List Nat} (hr : ∀ r ∈ rows, r i < card i) {T : Table K} (h : IsFrequencyTable card rows alpha i ps T) :
    (∀ a, InRange card (i :: ps) a → 0 < value T a ∧ value T a ≤ 1 ∧ (2 ≤ card i → value T a < 1)) ∧
      ∀ a, InRange card ps a → sumOut card [i] (value T) a = 1 := by
  obtain ⟨hw, hv, hval⟩ := h
  have hci : 0 < card i := hw.pos i (by simp [hv])
  have hn : i ∉ ps := by
    have := hw.nodup
    rw [hv, List.nodup_cons] at this
    exact this.1
  have ha' : (0 : K) < (alpha : K) := by exact_mod_cast ha
  have hden : ∀ a, (0 : K) < (countSame rows ps a : K) + (alpha : K) * (card i : K) :=
    fun a => den_pos hci ha.le (fun e => absurd e ha.ne')
  refine ⟨fun a hra => ?_, fun a hra => ?_⟩
  · rw [hval a hra]
    have h1 : (0 : K) ≤ (countSame rows (i :: ps) a : K) := by exact_mod_cast Nat.zero_le _
    have h2 : (countSame rows (i :: ps) a : K) ≤ (countSame rows ps a : K) := by exact_mod_cast countSame_le i ps a
    refine ⟨div_pos (by linarith) (hden a), (div_le_one (hden a)).2 ?_, fun h2c => (div_lt_one (hden a)).2 ?_⟩
    · have h3 : (1 : K) ≤ (card i : K) := by exact_mod_cast hci
      have : (alpha : K) ≤ (alpha : K) * (card i : K) := le_mul_of_one_le_right ha'.le h3
      linarith
    · have h3 : (2 : K) ≤ (card i : K) := by exact_mod_cast h2c
      have : (alpha : K) * 2 ≤ (alpha : K) * (card i : K) := mul_le_mul_of_nonneg_left h3 ha'.le
      linarith
  · show ∑ x ∈ Finset.range (card i), value T (a.set i x) = 1
    have h1 : ∀ x ∈ Finset.range (card i), value T (a.set i x) =
        ((countSame rows (i :: ps) (a.set i x) : K) + (alpha : K)) / ((countSame rows ps a : K) + (alpha : K) * (card i : K)) := by
      intro x hx
      rw [hval]
      · rw [countSame_dependsOn rows ps (a.set i x) a]
        intro v hvp
        simp only [Assignment.set]
        rw [if_neg (fun e : v = i => hn (e ▸ hvp))]
      · intro v hvm
        simp only [Assignment.set]
        split
        · rename_i e; rw [e]; exact Finset.mem_range.1 hx
        · rename_i e
          rcases List.mem_cons.1 hvm with e' | e'
          · exact absurd e' e
          · exact hra v e'
    rw [Finset.sum_congr rfl h1, ← Finset.sum_div, Finset.sum_add_distrib, Finset.sum_const, Finset.card_range, nsmul_eq_mul,
      ← Nat.cast_sum, countSame_sum hn hr, mul_comm, div_self (hden a).ne']

/-- C21.  With smoothing `alpha > 0`, in every learned table of a network over the variables of the dataset each entry lies in
`(0,1]` (below 1 for at least two values) and the entries for one parent configuration sum to 1. -/
theorem C21_learned {card : Nat → Nat} {N : Net} (hN : NetShape card N) {cols : List (List Nat)} {rows : List Assignment}
    (hc : Columns card N.nodes.length cols rows) {alpha : Int} (ha : 0 < alpha) (rnd : Nat → Nat → Nat) :
    ∃ pts : List (Table K), learnParams N cols N.nodes.length rows.length alpha rnd [] = .ok pts ∧
      pts.length = N.nodes.length ∧
      ∀ (i : Nat) s, N.nodes[i]? = some s → ∃ T, pts[i]? = some T ∧
        (∀ a, InRange card (i :: s.parents) a → 0 < value T a ∧ value T a ≤ 1 ∧ (2 ≤ card i → value T a < 1)) ∧
        ∀ a, InRange card s.parents a → sumOut card [i] (value T) a = 1 := by
  obtain ⟨new, h1, h2, h3⟩ := C22_learned (K := K) hN hc ha.le (fun e => absurd e ha.ne') rnd []
  refine ⟨new, by simpa using h1, h2, fun i s hs => ?_⟩
  obtain ⟨T, h4, h5⟩ := h3 i s hs
  have hi : i < N.nodes.length := (List.getElem?_eq_some_iff.1 hs).1
  exact ⟨T, h4, frequencyTable_normalised ha (fun r hr => hc.lt r hr i hi) h5⟩

/-- C21 with a virtual `ROOT`: the tables of all variables are normalised and positive, and so is the table of `ROOT` when the number
of instances is even.  Missing: `ROOT` for an odd number of instances, where the property is false (`C21_root_odd`). -/
theorem C21_learned_root_partial {card : Nat → Nat} {N : Net} (hN : NetShape card N) {cols : List (List Nat)}
    {rows : List Assignment} {n : Nat} (hn : N.nodes.length = n + 1) (hc : Columns card n cols rows) (hroot : card n = 2)
    (hrp : ∀ s, N.nodes[n]? = some s → s.parents = [])
    (hpar : ∀ (i : Nat) s, N.nodes[i]? = some s → n ∈ s.parents → s.parents = [n])
    {rnd : Nat → Nat → Nat} (hrnd : ∀ i j, rnd i j < 2) {alpha : Int} (ha : 0 < alpha) :
    ∃ pts : List (Table K), learnParams N cols n rows.length alpha rnd [] = .ok pts ∧ pts.length = n + 1 ∧
      (∀ (i : Nat) s, i < n → N.nodes[i]? = some s → ∃ T, pts[i]? = some T ∧
        (∀ a, InRange card (i :: s.parents) a → 0 < value T a ∧ value T a ≤ 1 ∧ (2 ≤ card i → value T a < 1)) ∧
        ∀ a, InRange card s.parents a → sumOut card [i] (value T) a = 1) ∧
      ∃ R, pts[n]? = some R ∧ ∀ a, sumOut card [n] (value R) a =
        (2 * ((rows.length / 2 : Nat) : K) + 2 * (alpha : K)) / ((rows.length : K) + 2 * (alpha : K)) ∧
        (2 ∣ rows.length → sumOut card [n] (value R) a = 1) := by
  obtain ⟨new, R, h1, h2, h3, h4, h5, h6⟩ := C22_learned_root (K := K) hN hn hc hroot hrp hpar hrnd ha []
  refine ⟨new ++ [R], by simpa using h1, by simp [h2], fun i s hi hs => ?_, R, by simp [← h2], fun a => ?_⟩
  · obtain ⟨T, h7, h8⟩ := h3 i s hi hs
    refine ⟨T, by rw [List.getElem?_append_left (by omega)]; exact h7, frequencyTable_normalised ha ?_ h8⟩
    intro r hr
    obtain ⟨j, hj⟩ := List.mem_iff_getElem?.1 hr
    rw [List.getElem?_mapIdx] at hj
    cases hrj : rows[j]? with
    | none => rw [hrj] at hj; simp at hj
    | some r0 =>
      rw [hrj] at hj
      simp at hj
      subst hj
      simp only [Assignment.set, if_neg (show ¬ i = n by omega)]
      exact hc.lt r0 (List.mem_iff_getElem?.2 ⟨j, hrj⟩) i hi
  · have hsum : sumOut card [n] (value R) a =
        (2 * ((rows.length / 2 : Nat) : K) + 2 * (alpha : K)) / ((rows.length : K) + 2 * (alpha : K)) := by
      show ∑ x ∈ Finset.range (card n), value R (a.set n x) = _
      rw [hroot]
      rw [Finset.sum_congr rfl (fun x hx => h6 (a.set n x) (by simpa [Assignment.set] using Finset.mem_range.1 hx))]
      rw [Finset.sum_const, Finset.card_range, nsmul_eq_mul, ← mul_div_assoc, mul_comm (alpha : K) 2]
      congr 1
      push_cast
      ring
    refine ⟨hsum, fun he => ?_⟩
    rw [hsum]
    obtain ⟨q, hq⟩ := he
    have : rows.length / 2 = q := by omega
    rw [this, hq]
    have h7 : (0 : K) ≤ ((2 * q : Nat) : K) := by exact_mod_cast Nat.zero_le _
    have h8 : (0 : K) < (alpha : K) := by exact_mod_cast ha
    push_cast at h7 ⊢
    exact div_self (by linarith)

/-- C21 is false for the virtual `ROOT` when the number of instances is odd: its two entries do not sum to 1. -/
theorem C21_root_odd {card : Nat → Nat} {N : Net} (hN : NetShape card N) {cols : List (List Nat)}
    {rows : List Assignment} {n : Nat} (hn : N.nodes.length = n + 1) (hc : Columns card n cols rows) (hroot : card n = 2)
    (hrp : ∀ s, N.nodes[n]? = some s → s.parents = [])
    (hpar : ∀ (i : Nat) s, N.nodes[i]? = some s → n ∈ s.parents → s.parents = [n])
    {rnd : Nat → Nat → Nat} (hrnd : ∀ i j, rnd i j < 2) {alpha : Int} (ha : 0 < alpha) (hodd : ¬ 2 ∣ rows.length) :
    ∃ pts : List (Table K), learnParams N cols n rows.length alpha rnd [] = .ok pts ∧
      ∃ R, pts[n]? = some R ∧ ∀ a, sumOut card [n] (value R) a < 1 := by
  obtain ⟨pts, h1, _, _, R, h4, h5⟩ := C21_learned_root_partial (K := K) hN hn hc hroot hrp hpar hrnd ha
  refine ⟨pts, h1, R, h4, fun a => ?_⟩
  rw [(h5 a).1]
  have h7 : (0 : K) ≤ (rows.length : K) := by exact_mod_cast Nat.zero_le _
  have h8 : (0 : K) < (alpha : K) := by exact_mod_cast ha
  rw [div_lt_one (by linarith)]
  have : 2 * (rows.length / 2) + 1 = rows.length := by omega
  have h9 : (2 * ((rows.length / 2 : Nat) : K) + 1) = (rows.length : K) := by exact_mod_cast this
  linarith

end ordered

/-- Two binary variables `0 → 1` and three instances (0,0), (0,1), (1,1): learned tables for `alpha = 1`. -/
example : ((Net.empty [2, 2]).run [.addDirected 0 1] >>= fun N =>
    learnParams (K := ℚ) N [[0, 0, 1], [0, 1, 1]] 2 3 1 (fun _ _ => 0) []) =
    .ok [⟨[0], [2], [1], 2, [3 / 5, 2 / 5]⟩, ⟨[1, 0], [2, 2], [2, 1], 4, [1 / 2, 1 / 3, 1 / 2, 2 / 3]⟩] := by
  decide +kernel

/-- The data of that example are columns of three instances with legal values. -/
example : Columns (fun _ => 2) 2 [[0, 0, 1], [0, 1, 1]]
    [fun _ => 0, fun v => v, fun _ => 1] := by
  refine ⟨fun v hv => ?_, ?_⟩
  · have : v = 0 ∨ v = 1 := by omega
    rcases this with rfl | rfl
    · refine ⟨[0, 0, 1], rfl, ?_⟩
      intro j r
      match j with
      | 0 | 1 | 2 => simp; rintro rfl; rfl
      | j + 3 => simp
    · refine ⟨[0, 1, 1], rfl, ?_⟩
      intro j r
      match j with
      | 0 | 1 | 2 => simp; rintro rfl; rfl
      | j + 3 => simp
  · intro r hr v hv
    simp at hr
    rcases hr with rfl | rfl | rfl <;> (simp; try omega)

/-- Every history of edge operations gives a network of the required shape, e.g. this one. -/
example : ∃ N, (Net.empty [2, 2]).run [.addDirected 0 1] = .ok N ∧ NetShape (fun i => [2, 2].getD i 0) N := by
  obtain ⟨N, h1, _, h2, _⟩ := run_shape (dims := [2, 2]) (ops := [.addDirected 0 1])
    (by intro op h; simp at h; subst h; exact ⟨by decide, by decide⟩) (by decide)
  exact ⟨N, h1, h2⟩

/-- `ROOT` (node 2) as parent of two unrelated variables, three instances: `ROOT` gets 2/5 and 2/5. -/
example : ((Net.empty [2, 2, 2]).run [.addDirected 2 0, .addDirected 2 1] >>= fun N =>
    learnParams (K := ℚ) N [[0, 0, 1], [0, 1, 1]] 2 3 1 (fun _ j => j % 2) []) =
    .ok [⟨[0, 2], [2, 2], [2, 1], 4, [1 / 2, 2 / 3, 1 / 2, 1 / 3]⟩, ⟨[1, 2], [2, 2], [2, 1], 4, [1 / 2, 1 / 3, 1 / 2, 2 / 3]⟩,
      ⟨[2], [2], [1], 2, [2 / 5, 2 / 5]⟩] := by decide +kernel

end FastPGM
