import Verif.Model.Params32
import Verif.Lemmas.Learn
import Verif.Lemmas.Int32

/-!
Parameter learning in 32-bit arithmetic against unbounded arithmetic.
-/

namespace FastPGM

open Spec

variable {K : Type}

theorem emptyTable32_eq [Zero K] {card : Nat → Nat} {N : Net} (h : NetShape card N) {i : Nat} {s : NodeS} (hi : N.nodes[i]? = some s)
    (hc : card i ≤ intMax) :
    emptyTable32 (K := K) N i = if ((i :: s.parents).map card).prod ≤ intMax then .ok (fromFn card (i :: s.parents) (fun _ => 0)) else .error .ub := by
  unfold emptyTable32 Net.find
  rw [hi]
  simp only [ok_bind]
  have hd := h.dim i s hi
  by_cases hp : s.parents = []
  · rw [if_pos hp, hp, hd.1, if_pos (by simpa using hc)]
    simp [fromFn, cumLevels, replicate_eq_tab]
  · rw [if_neg hp]
    rw [mapM_ok (g := card)]
    · rw [ok_bind, construct_first32 (map_pos (NetShape.pos h hi)) (by simp)]
      by_cases h1 : ((i :: s.parents).map card).prod ≤ intMax
      · rw [if_pos h1, if_pos h1]
        simp [fromFn, replicate_eq_tab]
      · rw [if_neg h1, if_neg h1]
    · intro v hv
      rcases List.mem_cons.1 hv with rfl | hv
      · rw [hi]; simp [hd.1]
      · have := (h.parents i s hi).2.1 v hv
        rw [List.getElem?_eq_getElem this]
        simp [(h.dim v _ (List.getElem?_eq_getElem this)).1]

/-- A loop whose rounds agree under an invariant. -/
theorem foldlM_range_congr {σ : Type} {f g : σ → Nat → Except Fault σ} {Inv : Nat → σ → Prop} {s : σ} (h0 : Inv 0 s) (m : Nat)
    (h : ∀ j < m, ∀ st, Inv j st → f st j = g st j) (hstep : ∀ j < m, ∀ st st', Inv j st → g st j = .ok st' → Inv (j + 1) st') :
    (List.range m).foldlM f s = (List.range m).foldlM g s ∧ ∀ st', (List.range m).foldlM g s = .ok st' → Inv m st' := by
  induction m with
  | zero =>
    refine ⟨rfl, fun st' e => ?_⟩
    cases e
    exact h0
  | succ m ih =>
    obtain ⟨h1, h2⟩ := ih (fun j hj => h j (by omega)) (fun j hj => hstep j (by omega))
    rw [List.range_succ, List.foldlM_append, List.foldlM_append, h1]
    cases hg : (List.range m).foldlM g s with
    | error e => exact ⟨rfl, fun st' e => by cases e⟩
    | ok st =>
      have hi := h2 st hg
      rw [ok_bind, ok_bind, List.foldlM_cons, List.foldlM_cons, h m (by omega) st hi]
      refine ⟨rfl, fun st' e => ?_⟩
      cases hg' : g st m with
      | error e' => rw [hg'] at e; cases e
      | ok st1 =>
        rw [hg'] at e
        cases e
        exact hstep m (by omega) st _ hi hg'

theorem incr32_eq {l : List Nat} {j i : Nat} (h : ∀ x ∈ l, x ≤ j) (hj : j < intMax) : incr32 l i = incr l i := by
  unfold incr32 incr
  cases hx : rd l i with
  | error e => rfl
  | ok x =>
    rw [ok_bind, ok_bind, add32_ok, ok_bind]
    have : x ∈ l := by
      unfold rd at hx
      split at hx
      · cases hx
        exact List.mem_of_getElem? (by assumption)
      · cases hx
    have := h x this
    omega

theorem incr_le {l l' : List Nat} {j i : Nat} (h : ∀ x ∈ l, x ≤ j) (e : incr l i = .ok l') : ∀ x ∈ l', x ≤ j + 1 := by
  unfold incr at e
  cases hx : rd l i with
  | error e' => rw [hx] at e; cases e
  | ok x =>
    rw [hx, ok_bind] at e
    have hxl : x ∈ l := by
      unfold rd at hx
      split at hx
      · cases hx
        exact List.mem_of_getElem? (by assumption)
      · cases hx
    unfold wr at e
    split at e
    · cases e
      intro y hy
      rcases List.mem_or_eq_of_mem_set hy with hy | rfl
      · exact (h y hy).trans (Nat.le_succ _)
      · exact Nat.succ_le_succ (h x hxl)
    · cases e

/-- The loop over the instances. -/
theorem countLoop32 [Zero K] {card : Nat → Nat} {i : Nat} {ps : List Nat} (hp : ∀ v ∈ i :: ps, 0 < card v)
    {rows : List Assignment} (hr : ∀ r ∈ rows, InRange card (i :: ps) r) (hm : rows.length ≤ intMax)
    (hsize : ((i :: ps).map card).prod ≤ intMax)
    {f : List Nat × List Nat → Nat → Except Fault (List Nat × List Nat)}
    (hf : ∀ st, ∀ j < rows.length, f st j =
      countConfig32 (fromFn card (i :: ps) (fun _ => (0 : K))) st ((i :: ps).map (rows.getD j (fun _ => 0)))) :
    (List.range rows.length).foldlM f
        (List.replicate ((i :: ps).map card).prod 0, List.replicate (ps.map card).prod 0) =
      .ok (tab ((i :: ps).map card).prod (fun k => (List.range rows.length).countP
          (fun j => rank ((i :: ps).map card) ((i :: ps).map (rows.getD j (fun _ => 0))) = k)),
        tab (ps.map card).prod (fun k => (List.range rows.length).countP
          (fun j => rank (ps.map card) (ps.map (rows.getD j (fun _ => 0))) = k))) := by
  rw [← countLoop (K := K) hp hr (f := fun st j =>
    countConfig (fromFn card (i :: ps) (fun _ => (0 : K))) st ((i :: ps).map (rows.getD j (fun _ => 0)))) (fun _ _ _ => rfl)]
  refine (foldlM_range_congr (Inv := fun j st => (∀ x ∈ st.1, x ≤ j) ∧ ∀ x ∈ st.2, x ≤ j)
    ⟨fun x hx => (List.eq_of_mem_replicate hx).le, fun x hx => (List.eq_of_mem_replicate hx).le⟩ rows.length ?_ ?_).1
  · rintro j hj st ⟨h1, h2⟩
    rw [hf st j hj]
    have hin : InRange card (i :: ps) (rows.getD j (fun _ => 0)) := by
      apply hr
      simp [hj]
    have hidx : getIndex ((i :: ps).map (rows.getD j (fun _ => 0))) (fromFn card (i :: ps) (fun _ => (0 : K))).cum ≤ intMax := by
      have e : getIndex ((i :: ps).map (rows.getD j (fun _ => 0))) (fromFn card (i :: ps) (fun _ => (0 : K))).cum =
          rank ((i :: ps).map card) ((i :: ps).map (rows.getD j (fun _ => 0))) := getIndex_cumLevels _ _
      rw [e]
      exact (rank_lt (cfgIn_map hin)).le.trans hsize
    unfold countConfig32 countConfig
    rw [getIndex32_eq hidx, ok_bind]
    cases hc : rd (fromFn card (i :: ps) (fun _ => (0 : K))).cum 0 with
    | error e => rfl
    | ok c0 =>
      rw [ok_bind, ok_bind]
      rw [incr32_eq h1 (by omega), incr32_eq h2 (by omega)]
  · rintro j hj st st' ⟨h1, h2⟩ e
    unfold countConfig at e
    cases hc : rd (fromFn card (i :: ps) (fun _ => (0 : K))).cum 0 with
    | error e' => rw [hc] at e; cases e
    | ok c0 =>
      simp only [hc, ok_bind] at e
      split at e
      · cases e
      · cases ha : incr st.1 (getIndex ((i :: ps).map (rows.getD j (fun _ => 0))) (fromFn card (i :: ps) (fun _ => (0 : K))).cum) with
        | error e' => rw [ha] at e; cases e
        | ok a =>
          rw [ha, ok_bind] at e
          cases hb : incr st.2 (getIndex ((i :: ps).map (rows.getD j (fun _ => 0))) (fromFn card (i :: ps) (fun _ => (0 : K))).cum % c0) with
          | error e' => rw [hb] at e; cases e
          | ok b =>
            rw [hb, ok_bind] at e
            cases e
            exact ⟨incr_le h1 ha, incr_le h2 hb⟩

/-- The counts do not overflow. -/
theorem countNode32_eq [Zero K] {card : Nat → Nat} {cols : List (List Nat)} {root : Option Nat} {rnd : Nat → Nat}
    {rows : List Assignment} {i : Nat} {ps : List Nat} (hp : ∀ v ∈ i :: ps, 0 < card v) (hm : rows.length ≤ intMax)
    (hsize : ((i :: ps).map card).prod ≤ intMax) (h : RowsFor card cols root rnd rows i ps) :
    countNode32 (fromFn card (i :: ps) (fun _ => (0 : K))) cols rows.length root rnd =
      countNode (fromFn card (i :: ps) (fun _ => (0 : K))) cols rows.length root rnd := by
  rw [countNode_eq hp h]
  have hget : ∀ j < rows.length, rows[j]? = some (rows.getD j (fun _ => 0)) := by
    intro j hj; simp [hj]
  have hv0 : rd (fromFn card (i :: ps) (fun _ => (0 : K))).vars 0 = .ok i := rfl
  have hc0 : rd (fromFn card (i :: ps) (fun _ => (0 : K))).cum 0 = .ok (ps.map card).prod := by
    apply rd_ok
    simp [fromFn, cumLevels_cons]
  have hpp : 0 < (ps.map card).prod := prod_pos_of (map_pos (fun v hv => hp v (by simp [hv])))
  obtain ⟨col, hcol, hcolj⟩ := h.node
  unfold countNode32
  rw [hv0, ok_bind, hc0, ok_bind]
  by_cases h1 : ps = []
  · subst h1
    rw [if_pos (by rfl)]
    refine countLoop32 (K := K) hp h.inRange hm hsize ?_
    intro st j hj
    rw [rd_ok hcol, ok_bind, rd_ok (hcolj j _ (hget j hj)), ok_bind]
    unfold countConfig32
    have e : getIndex ([i].map (rows.getD j (fun _ => 0))) (fromFn card [i] (fun _ => (0 : K))).cum =
        (rows.getD j (fun _ => 0)) i := by
      simp [getIndex, fromFn, cumLevels]
    have hlt : (rows.getD j (fun _ => 0)) i < card i := h.inRange _ (List.mem_of_getElem? (hget j hj)) i (by simp)
    rw [getIndex32_eq (by
      rw [e]
      simp only [List.map_cons, List.map_nil, List.prod_cons, List.prod_nil, Nat.mul_one] at hsize
      omega), ok_bind, hc0, ok_bind, if_neg (by omega), e]
    simp only [List.map_nil, List.prod_nil, Nat.mod_one]
  · rw [if_neg (by
      show ¬ (i :: ps).length = 1
      have := List.length_pos_iff.2 h1
      simp only [List.length_cons]; omega)]
    rcases h.parents with ⟨r0, rfl, hroot, hrnd⟩ | ⟨hne, hps⟩
    · rw [if_pos (by rw [hroot]; rfl)]
      refine countLoop32 (K := K) hp h.inRange hm hsize ?_
      intro st j hj
      rw [rd_ok hcol, ok_bind, rd_ok (hcolj j _ (hget j hj)), ok_bind]
      rw [List.map_cons, List.map_cons, List.map_nil, hrnd j _ (hget j hj)]
    · rw [if_neg (by
        intro e
        obtain ⟨p, ps', rfl⟩ := List.exists_cons_of_ne_nil h1
        exact hne p (by simp) e.symm)]
      refine countLoop32 (K := K) hp h.inRange hm hsize ?_
      intro st j hj
      have : (fromFn card (i :: ps) (fun _ => (0 : K))).vars.mapM (fun v => do rd (← rd cols v) j) =
          .ok ((i :: ps).map (rows.getD j (fun _ => 0))) := by
        apply mapM_ok
        intro v hv
        rcases List.mem_cons.1 (show v ∈ i :: ps from hv) with rfl | hv
        · rw [rd_ok hcol, ok_bind, rd_ok (hcolj j _ (hget j hj))]
        · obtain ⟨cp, h3, h4⟩ := hps v hv
          rw [rd_ok h3, ok_bind, rd_ok (h4 j _ (hget j hj))]
      rw [this, ok_bind]

theorem smoothed32_eq [Zero K] [Add K] [Div K] [NatCast K] [IntCast K] [DecidableEq K] (alpha : Int) (n1 n2 d : Nat) :
    smoothed32 (K := K) alpha n1 n2 d =
      if -2147483648 ≤ alpha * (d : Int) ∧ alpha * (d : Int) ≤ 2147483647 then smoothed alpha n1 n2 d else .error .ub := by
  unfold smoothed32 mulInt32
  split
  · rw [ok_bind]
    rfl
  · rfl

/-- One table. -/
theorem learnNode32_eq [Zero K] [Add K] [Div K] [NatCast K] [IntCast K] [DecidableEq K] {card : Nat → Nat} {N : Net} (hN : NetShape card N) {i : Nat}
    {s : NodeS} (hi : N.nodes[i]? = some s) (hci : card i ≤ intMax) {cols : List (List Nat)} {root : Option Nat} {rnd : Nat → Nat}
    {rows : List Assignment} (hm : rows.length ≤ intMax) (h : RowsFor card cols root rnd rows i s.parents) (alpha : Int) :
    learnNode32 (K := K) N cols rows.length alpha root rnd i =
      if ((i :: s.parents).map card).prod ≤ intMax ∧ -2147483648 ≤ alpha * (card i : Int) ∧ alpha * (card i : Int) ≤ 2147483647
      then learnNode N cols rows.length alpha root rnd i else .error .ub := by
  unfold learnNode32 learnNode
  rw [emptyTable32_eq hN hi hci, emptyTable_eq hN hi]
  by_cases h1 : ((i :: s.parents).map card).prod ≤ intMax
  swap
  · rw [if_neg h1, if_neg (fun e => h1 e.1)]
    rfl
  have hp := NetShape.pos hN hi
  have hpp : 0 < (s.parents.map card).prod := prod_pos_of (map_pos (fun v hv => hp v (by simp [hv])))
  have hpos : 0 < ((i :: s.parents).map card).prod := prod_pos_of (map_pos hp)
  rw [if_pos h1, ok_bind, ok_bind, countNode32_eq hp hm h1 h, countNode_eq hp h, ok_bind, ok_bind]
  have hc0 : rd (fromFn card (i :: s.parents) (fun _ => (0 : K))).cum 0 = .ok (s.parents.map card).prod := by
    apply rd_ok
    simp [fromFn, cumLevels_cons]
  have hd0 : rd (fromFn card (i :: s.parents) (fun _ => (0 : K))).dims 0 = .ok (card i) := rfl
  simp only [hc0, hd0, ok_bind, smoothed32_eq]
  by_cases h2 : -2147483648 ≤ alpha * (card i : Int) ∧ alpha * (card i : Int) ≤ 2147483647
  · rw [if_pos ⟨h1, h2⟩]
    simp only [if_pos h2]
  · rw [if_neg (fun e => h2 e.2)]
    simp only [if_neg h2]
    have hsz : (fromFn card (i :: s.parents) (fun _ => (0 : K))).size = ((i :: s.parents).map card).prod := rfl
    rw [hsz]
    obtain ⟨k, hk⟩ : ∃ k, ((i :: s.parents).map card).prod = k + 1 := ⟨_, (Nat.succ_pred_eq_of_pos hpos).symm⟩
    rw [hk, List.range_succ_eq_map, List.mapM_cons]
    rw [rd_ok (a := (List.range rows.length).countP
          (fun j => rank ((i :: s.parents).map card) ((i :: s.parents).map (rows.getD j (fun _ => 0))) = 0)) (by simp [tab]), ok_bind]
    have h3 : ∀ t : List Nat, t.length = (s.parents.map card).prod → ∃ x,
        (if (fromFn card (i :: s.parents) (fun _ => (0 : K))).vars.length = 1 then rd t 0
          else if (s.parents.map card).prod = 0 then .error .ub else rd t (0 % (s.parents.map card).prod)) = .ok x := by
      intro t ht
      have h0 : 0 < t.length := by omega
      rw [Nat.zero_mod]
      refine ⟨t[0], ?_⟩
      split
      · exact rd_getElem h0
      · rw [if_neg (by omega)]
        exact rd_getElem h0
    obtain ⟨x, hx⟩ := h3 (tab (s.parents.map card).prod (fun k => (List.range rows.length).countP
          (fun j => rank (s.parents.map card) (s.parents.map (rows.getD j (fun _ => 0))) = k))) (by simp [tab])
    rw [hx]
    rfl

/-- The table of ROOT. -/
theorem learnRoot32_eq [Zero K] [Add K] [Div K] [NatCast K] [IntCast K] [DecidableEq K] {card : Nat → Nat} {N : Net} (hN : NetShape card N) {n m : Nat}
    {s : NodeS} (hs : N.nodes[n]? = some s) (hp : s.parents = []) (hc : card n ≤ intMax) (alpha : Int) :
    learnRoot32 (K := K) N m alpha n =
      if -2147483648 ≤ alpha * (card n : Int) ∧ alpha * (card n : Int) ≤ 2147483647 then learnRoot N m alpha n else .error .ub := by
  unfold learnRoot32 learnRoot
  rw [emptyTable32_eq hN hs hc, emptyTable_eq hN hs, hp, if_pos (by simpa using hc), ok_bind, ok_bind]
  have hd0 : rd (fromFn card [n] (fun _ => (0 : K))).dims 0 = .ok (card n) := rfl
  rw [hd0, ok_bind, ok_bind, smoothed32_eq]
  split <;> rfl

end FastPGM
