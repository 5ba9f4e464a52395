import Verif.Model.SamplingTable
import Verif.Props.Table
import Verif.Lemmas.Sampler

/-!
The tables of importance sampling and the look-up functions of `PotentialTableBase` (C96).
-/

namespace FastPGM

open Spec

variable {K : Type}

/-- C96.  `UniformDistribution` gives every entry the value 1 / (number of values of the first variable): every column sums to 1. -/
theorem C96_uniform [Field K] [CharZero K] {card : Nat → Nat} {T : STable K} (hT : WellFormed card T.icptTable) {v : Nat} {vs : List Nat}
    (hv : T.base.vars = v :: vs) :
    ∃ T', T.uniformDistribution = .ok T' ∧ T'.base = T.base ∧ T'.scores = T.scores ∧ WellFormed card T'.icptTable ∧
      ∀ a, InRange card T.base.vars a → value T'.icptTable a = 1 / (card v : K) ∧
        ∑ x ∈ Finset.range (card v), value T'.icptTable (a.set v x) = 1 := by
  have hpos : 0 < card v := hT.pos v (by show v ∈ T.base.vars; rw [hv]; simp)
  have hd : T.base.dims = card v :: vs.map card := by
    have := hT.dims
    rw [show T.icptTable.vars = v :: vs from hv] at this
    exact this
  have hlen : T.icpt.length = T.base.size := hT.length
  have hfold : (List.range T.base.size).foldlM (fun p i => wr p i (1 / (card v : K))) T.icpt =
      .ok (tab T.base.size (fun _ => 1 / (card v : K))) := by
    rw [← hlen, eq_tab_getD (l := T.icpt) (0 : K), tab_length]
    refine foldlM_pointwise ?_
    intro x hx r _
    rw [wr_tab hx]
  refine ⟨{ T with icpt := tab T.base.size (fun _ => 1 / (card v : K)) }, ?_, rfl, rfl, ?_, ?_⟩
  · unfold STable.uniformDistribution
    rw [hd, rd_ok (a := card v) rfl, ok_bind, if_neg hpos.ne', hfold]
    rfl
  · exact ⟨hT.nodup, hT.pos, hT.dims, hT.cum, hT.cum_length, hT.size, by simp [STable.icptTable]⟩
  · have hval : ∀ a, InRange card T.base.vars a →
        value (STable.icptTable { T with icpt := tab T.base.size (fun _ => 1 / (card v : K)) }) a = 1 / (card v : K) := by
      intro a ha
      have hr : rank T.base.dims (T.base.vars.map a) < T.base.size := by
        have h2 : T.base.dims = T.base.vars.map card := hT.dims
        have h3 : T.base.size = T.base.dims.prod := hT.size
        rw [h3, h2]
        exact rank_lt (cfgIn_map ha)
      show (tab T.base.size (fun _ => 1 / (card v : K))).getD (rank T.base.dims (T.base.vars.map a)) 0 = _
      exact getD_tab hr
    intro a ha
    refine ⟨hval a ha, ?_⟩
    rw [Finset.sum_congr rfl (g := fun _ => 1 / (card v : K)) (fun x hx => hval _ (by
      intro w hw
      unfold Assignment.set
      split
      · rename_i e; subst e; simpa using hx
      · exact ha w hw))]
    rw [Finset.sum_const, Finset.card_range, nsmul_eq_mul, mul_one_div, div_self (by exact_mod_cast hpos.ne')]

/-- C96.  `NormalizeICPT` divides every column with positive total by it and leaves the other columns; potentials and scores stay. -/
theorem C96_normalizeICPT [Field K] [LinearOrder K] {card : Nat → Nat} {T : STable K} (hT : WellFormed card T.icptTable) {v : Nat}
    {vs : List Nat} (hv : T.base.vars = v :: vs) :
    ∃ T', T.normalizeICPT = .ok T' ∧ T'.base = T.base ∧ T'.scores = T.scores ∧
      ∀ a, InRange card T.base.vars a →
        (0 < ∑ x ∈ Finset.range (card v), value T.icptTable (a.set v x) →
          value T'.icptTable a = value T.icptTable a / (∑ x ∈ Finset.range (card v), value T.icptTable (a.set v x)) ∧
          ∑ x ∈ Finset.range (card v), value T'.icptTable (a.set v x) = 1) ∧
        (¬ 0 < ∑ x ∈ Finset.range (card v), value T.icptTable (a.set v x) → value T'.icptTable a = value T.icptTable a) := by
  obtain ⟨S, e, hw, hs, h⟩ := C09_normalizeCPT hT (v := v) (vs := vs) hv
  have hval : ∀ a, value (STable.icptTable { T with icpt := S.pot }) a = value S a := by
    intro a
    have h1 : S.dims = T.base.dims := by rw [hw.dims, hs, ← hT.dims]; rfl
    show S.pot.getD (rank T.base.dims (T.base.vars.map a)) 0 = S.pot.getD (rank S.dims (S.vars.map a)) 0
    rw [h1, hs]
    rfl
  refine ⟨{ T with icpt := S.pot }, by unfold STable.normalizeICPT; rw [e]; rfl, rfl, rfl, fun a ha => ?_⟩
  simp only [hval]
  exact h a ha

/-- C96.  `NormalizePtScore` does the same to the scores. -/
theorem C96_normalizePtScore [Field K] [LinearOrder K] {card : Nat → Nat} {T : STable K} (hT : WellFormed card T.scoreTable) {v : Nat}
    {vs : List Nat} (hv : T.base.vars = v :: vs) :
    ∃ T', T.normalizePtScore = .ok T' ∧ T'.base = T.base ∧ T'.icpt = T.icpt ∧
      ∀ a, InRange card T.base.vars a →
        (0 < ∑ x ∈ Finset.range (card v), value T.scoreTable (a.set v x) →
          value T'.scoreTable a = value T.scoreTable a / (∑ x ∈ Finset.range (card v), value T.scoreTable (a.set v x)) ∧
          ∑ x ∈ Finset.range (card v), value T'.scoreTable (a.set v x) = 1) ∧
        (¬ 0 < ∑ x ∈ Finset.range (card v), value T.scoreTable (a.set v x) → value T'.scoreTable a = value T.scoreTable a) := by
  obtain ⟨S, e, hw, hs, h⟩ := C09_normalizeCPT hT (v := v) (vs := vs) hv
  have hval : ∀ a, value (STable.scoreTable { T with scores := S.pot }) a = value S a := by
    intro a
    have h1 : S.dims = T.base.dims := by rw [hw.dims, hs, ← hT.dims]; rfl
    show S.pot.getD (rank T.base.dims (T.base.vars.map a)) 0 = S.pot.getD (rank S.dims (S.vars.map a)) 0
    rw [h1, hs]
    rfl
  refine ⟨{ T with scores := S.pot }, by unfold STable.normalizePtScore; rw [e]; rfl, rfl, rfl, fun a ha => ?_⟩
  simp only [hval]
  exact h a ha

/-- C96.  `GetReducedICPTPotentials` into a vector with one entry for each value of the node gives the column selected by the parents' values in
`evidence`; `GetReducedPotentials` gives that of the potentials. -/
theorem C96_reduced [Zero K] {card : Nat → Nat} {T : STable K} (hT : WellFormed card T.icptTable) {v : Nat} {ps : List Nat}
    (hv : T.base.vars = v :: ps) {s : List Nat} (hs : ∀ p ∈ ps, p < s.length) (hr : InRange card ps (asg s)) (b : K) :
    ∃ r, T.getReducedICPTPotentials (List.replicate (card v) b) s = .ok r ∧ r.length = card v ∧
      ∀ x < card v, r[x]? = some (value T.icptTable ((asg s).set v x)) := by
  refine ⟨_, getReducedPotentials_eq hT (show T.icptTable.vars = v :: ps from hv) hs hr b, by simp [columnOf], fun x hx => ?_⟩
  rw [columnOf, tab_get?, if_pos hx]

/-- C96.  `GetReducedPotential` and `GetReducedIndexAndPotential` return the entry of the assignment `evidence`, and the latter its index. -/
theorem C96_lookup [Zero K] {card : Nat → Nat} {T : Table K} (hT : WellFormed card T) {s : List Nat}
    (hs : ∀ p ∈ T.vars, p < s.length) (hr : InRange card T.vars (asg s)) :
    getReducedPotential T s = .ok (value T (asg s)) ∧
    ∃ i, getReducedIndexAndPotential T s = .ok (i, value T (asg s)) ∧ i < T.size ∧ T.pot[i]? = some (value T (asg s)) ∧
      getConfig T.cum i = .ok (T.vars.map (asg s)) := by
  have hdim : T.dims = T.vars.map card := hT.dims
  have hlt : rank T.dims (T.vars.map (asg s)) < T.pot.length := by
    rw [hT.length, hT.size, hdim]
    exact rank_lt (cfgIn_map hr)
  have hrd : rd T.pot (rank T.dims (T.vars.map (asg s))) = .ok (value T (asg s)) := by
    rw [rd_getElem hlt, value, getD_of_lt hlt]
  have hget : ∀ p ∈ T.vars, rd s p = .ok (asg s p) := by
    intro p hp
    rw [rd_getElem (hs p hp)]
    unfold asg
    rw [getD_of_lt (hs p hp)]
  have hidx : getIndex (T.vars.map (asg s)) T.cum = rank T.dims (T.vars.map (asg s)) := by
    rw [hT.cumEq, getIndex_cumLevels]
  have hone : T.vars.length = 1 → ∃ v, T.vars = [v] ∧ rank T.dims (T.vars.map (asg s)) = asg s v := by
    intro h1
    obtain ⟨v, hv⟩ := List.length_eq_one_iff.1 h1
    exact ⟨v, hv, by rw [hdim, hv]; simp [rank]⟩
  have hcfg : getConfig T.cum (rank T.dims (T.vars.map (asg s))) = .ok (T.vars.map (asg s)) := by
    rw [hT.cumEq, getConfig_cumLevels (by rw [hdim]; exact map_pos hT.pos), hdim, digits_rank (cfgIn_map hr)]
  constructor
  · unfold getReducedPotential
    by_cases h1 : T.vars.length = 1
    · obtain ⟨v, hv, hrk⟩ := hone h1
      rw [if_pos h1, show rd T.vars 0 = .ok v from by rw [hv]; rfl, ok_bind, hget v (by rw [hv]; simp), ok_bind, ← hrk, hrd]
    · rw [if_neg h1, mapM_ok hget, ok_bind, hidx, hrd]
  · refine ⟨rank T.dims (T.vars.map (asg s)), ?_, by rw [← hT.length]; exact hlt, ?_, hcfg⟩
    · unfold getReducedIndexAndPotential
      by_cases h1 : T.vars.length = 1
      · obtain ⟨v, hv, hrk⟩ := hone h1
        rw [if_pos h1, show rd T.vars 0 = .ok v from by rw [hv]; rfl, ok_bind, hget v (by rw [hv]; simp), ok_bind, ← hrk, hrd]
        rfl
      · rw [if_neg h1, mapM_ok hget, ok_bind, hidx]
        dsimp only
        rw [hrd]
        rfl
    · rw [value, List.getElem?_eq_getElem hlt, getD_of_lt hlt]

/-- C96.  `GetMarginalizedProbabilities` of a node with parents adds to `result` the sums over the parents' values; of a node without parents it
replaces `result` by the node's table. -/
theorem C96_marginalized [AddCommMonoid K] {card : Nat → Nat} {T : STable K} (hT : WellFormed card T.icptTable) {v : Nat} {vs : List Nat}
    (hv : T.base.vars = v :: vs) {result : List K} (hl : result.length = card v) (a : Assignment) :
    ∃ r, T.getMarginalizedProbabilities result = .ok r ∧ r.length = card v ∧
      ∀ x (hx : x < card v), r[x]? = some ((if vs = [] then 0 else result[x]) + sumOut card vs (value T.icptTable) (a.set v x)) := by
  have hn := hT.nodup
  have hp := hT.pos
  have hd := value_dependsOn T.icptTable
  have he := hT.eq_fromFn
  rw [show T.icptTable.vars = v :: vs from hv] at hn hp hd he
  obtain ⟨hv1, hvs⟩ := List.nodup_cons.1 hn
  have hcard := hp v (by simp)
  have hm : 0 < (vs.map card).prod := prod_pos_of (map_pos (fun w hw => hp w (by simp [hw])))
  set F := value T.icptTable with hF
  have hicpt : T.icpt = tab (card v * (vs.map card).prod) (fun k => F (asgOf (v :: vs) (digits (card v :: vs.map card) k))) := by
    have := congrArg Table.pot he
    simpa [STable.icptTable, fromFn] using this
  have hsize : T.base.size = card v * (vs.map card).prod := by
    have := congrArg Table.size he
    simpa [STable.icptTable, fromFn] using this
  have hcum : T.base.cum = (vs.map card).prod :: cumLevels (vs.map card) := by
    have := congrArg Table.cum he
    simpa [STable.icptTable, fromFn, cumLevels_cons] using this
  have hsum : ∀ j < card v, (∑ k ∈ Finset.range (card v * (vs.map card).prod), if k / (vs.map card).prod = j then
      F (asgOf (v :: vs) (digits (card v :: vs.map card) k)) else 0) = sumOut card vs F (a.set v j) := by
    intro j hj
    rw [sum_range_mul, Finset.sum_eq_single j]
    · rw [sumOut_set hv1]
      rw [← sum_entries hvs (F := fun b => F (b.set v j))]
      · apply Finset.sum_congr rfl
        intro k hk
        have hk' : k < (vs.map card).prod := by simpa using hk
        rw [digits_cons_add hk', asgOf_cons, if_pos]
        rw [mul_comm, Nat.mul_add_div hm, Nat.div_eq_of_lt hk', Nat.add_zero]
      · intro b c hbc
        apply hd
        intro w hw
        unfold Assignment.set
        split
        · rfl
        · rename_i e
          exact hbc w (by simpa [e] using hw)
    · intro x _ hx
      apply Finset.sum_eq_zero
      intro k hk
      have hk' : k < (vs.map card).prod := by simpa using hk
      rw [if_neg]
      rw [mul_comm, Nat.mul_add_div hm, Nat.div_eq_of_lt hk', Nat.add_zero]
      exact hx
    · intro h
      exact absurd (Finset.mem_range.2 hj) h
  unfold STable.getMarginalizedProbabilities
  by_cases h1 : T.base.vars.length = 1
  · have hnil : vs = [] := by
      rw [hv, List.length_cons] at h1
      exact List.length_eq_zero_iff.1 (by omega)
    subst hnil
    rw [if_pos h1]
    refine ⟨_, rfl, by rw [hicpt]; simp, fun x hx => ?_⟩
    rw [hicpt, tab_get?, if_pos (by simpa using hx), if_pos rfl, zero_add]
    simp only [List.map_nil, sumOut]
    congr 1
    apply hd
    intro w hw
    rw [List.mem_singleton.1 hw]
    simp [Assignment.set, asgOf_cons, digits]
  · have hnil : vs ≠ [] := by
      rintro rfl
      exact h1 (by rw [hv]; rfl)
    have hq := scatterAdd_eq (n := card v * (vs.map card).prod) (m := card v)
      (t := fun i => i / (vs.map card).prod)
      (q := fun k => F (asgOf (v :: vs) (digits (card v :: vs.map card) k)))
      (fun k hk => Nat.div_lt_of_lt_mul (by rwa [mul_comm] at hk)) (fun j => result.getD j 0)
    unfold scatterAdd at hq
    have hres : result = tab (card v) (fun j => result.getD j 0) := by
      have := eq_tab_getD (l := result) (0 : K)
      rwa [hl] at this
    refine ⟨tab (card v) (fun j => result.getD j 0 + ∑ k ∈ Finset.range (card v * (vs.map card).prod), if k / (vs.map card).prod = j then
      F (asgOf (v :: vs) (digits (card v :: vs.map card) k)) else 0), ?_, by simp, fun x hx => ?_⟩
    · rw [if_neg h1, hsize]
      conv_lhs => rw [hres]
      rw [← hq]
      refine foldlM_congr (fun p i hi => ?_)
      rw [hcum, rd_ok (a := (vs.map card).prod) rfl, ok_bind, if_neg hm.ne', hicpt,
        rd_tab (g := fun i => i / (vs.map card).prod) (by simpa using hi), ok_bind]
    · rw [tab_get?, if_pos hx, hsum x hx, if_neg hnil, getD_of_lt (by omega)]

/-- C96.  In particular, with a zero vector it gives the sums in both cases. -/
theorem C96_marginalized_zero [AddCommMonoid K] {card : Nat → Nat} {T : STable K} (hT : WellFormed card T.icptTable) {v : Nat} {vs : List Nat}
    (hv : T.base.vars = v :: vs) (a : Assignment) :
    ∃ r, T.getMarginalizedProbabilities (List.replicate (card v) 0) = .ok r ∧ r.length = card v ∧
      ∀ x < card v, r[x]? = some (sumOut card vs (value T.icptTable) (a.set v x)) := by
  obtain ⟨r, h1, h2, h3⟩ := C96_marginalized hT hv (result := List.replicate (card v) 0) (by simp) a
  exact ⟨r, h1, h2, fun x hx => by rw [h3 x hx]; simp⟩

/-- C96, finding: two calls with the same vector double the sums for a node with parents, and do not for one without. -/
theorem C96_not_cleared :
    (do
      let r ← (STable.mk (Table.mk [0, 1] [2, 2] [2, 1] 4 [1, 2, 3, 4]) [1, 2, 3, 4] ([] : List Rat)).getMarginalizedProbabilities [0, 0]
      STable.getMarginalizedProbabilities (STable.mk (Table.mk [0, 1] [2, 2] [2, 1] 4 [1, 2, 3, 4]) [1, 2, 3, 4] ([] : List Rat)) r) = .ok [6, 14] ∧
    (do
      let r ← (STable.mk (Table.mk [0] [2] [1] 2 [1, 2]) [1, 2] ([] : List Rat)).getMarginalizedProbabilities [0, 0]
      STable.getMarginalizedProbabilities (STable.mk (Table.mk [0] [2] [1] 2 [1, 2]) [1, 2] ([] : List Rat)) r) = .ok [1, 2] := by
  constructor <;> decide +kernel

/-- An example: node 0 with parent 1. -/
def exST : STable Rat := ⟨⟨[0, 1], [2, 3], [3, 1], 6, [1, 2, 3, 4, 5, 6]⟩, [1, 0, 3, 3, 0, 1], [0, 1, 1, 1, 1, 0]⟩

theorem exST_wf (pot : List Rat) (hl : pot.length = 6) : WellFormed (fun v => v + 2) { exST.base with pot := pot } := by
  refine ⟨show [0, 1].Nodup by decide, show ∀ v ∈ [0, 1], 0 < v + 2 by decide, rfl, ?_, rfl, rfl, hl⟩
  intro i hi
  have : i = 0 ∨ i = 1 := by
    have : i < 2 := hi
    omega
  rcases this with rfl | rfl <;> rfl

example : WellFormed (fun v => v + 2) exST.icptTable ∧ WellFormed (fun v => v + 2) exST.scoreTable ∧ exST.base.vars = 0 :: [1] :=
  ⟨exST_wf _ rfl, exST_wf _ rfl, rfl⟩

-- the columns 0 and 2 are normalised, the column 1 has no mass
example : (do let T ← exST.normalizeICPT; return T.icpt) = .ok [1 / 4, 0, 3 / 4, 3 / 4, 0, 1 / 4] := by decide +kernel

example : exST.getReducedICPTPotentials [0, 0] [0, 2] = .ok [3, 1] ∧ getReducedIndexAndPotential exST.base [1, 2] = .ok (5, 6) ∧
    exST.getMarginalizedProbabilities [0, 0] = .ok [4, 4] := by decide +kernel

end FastPGM
