import Verif.Lemmas.JunctionTree32
import Verif.Spec.CliqueSize

/-!
Construction of the junction tree in 32-bit arithmetic.
-/

namespace FastPGM

open Spec

variable {K : Type} {card : Nat → Nat}

theorem constructEmptyTable32_eq [One K] {c : List Nat} (hp : ∀ v ∈ c, 0 < card v) (hne : c ≠ []) :
    constructEmptyTable32 (K := K) card c = if (c.map card).prod ≤ intMax then constructEmptyTable card c else .error .ub := by
  have hd : c.map card ≠ [] := by simpa using hne
  unfold constructEmptyTable32 constructEmptyTable
  rw [construct_first _ hd]
  exact construct_first32 (map_pos hp) hd _

theorem initialTables32_ok [One K] {cs : List (List Nat)} (hp : ∀ c ∈ cs, ∀ v ∈ c, 0 < card v) (hne : ∀ c ∈ cs, c ≠ [])
    (h : ∀ c ∈ cs, (c.map card).prod ≤ intMax) : initialTables32 (K := K) card cs = initialTables card cs :=
  mapM_congr (fun c hc => by rw [constructEmptyTable32_eq (hp c hc) (hne c hc), if_pos (h c hc)])

theorem initialTables32_ub [One K] {cs : List (List Nat)} (hp : ∀ c ∈ cs, ∀ v ∈ c, 0 < card v) (hne : ∀ c ∈ cs, c ≠ [])
    (h : ¬ ∀ c ∈ cs, (c.map card).prod ≤ intMax) : initialTables32 (K := K) card cs = .error .ub := by
  induction cs with
  | nil => exact absurd (by simp) h
  | cons c cs ih =>
    unfold initialTables32 at ih ⊢
    rw [List.mapM_cons, constructEmptyTable32_eq (hp c (by simp)) (hne c (by simp))]
    by_cases h1 : (c.map card).prod ≤ intMax
    · rw [if_pos h1]
      unfold constructEmptyTable
      rw [construct_first _ (by simpa using hne c (by simp)), pure_eq_ok, ok_bind, ih (fun c hc => hp c (by simp [hc])) (fun c hc => hne c (by simp [hc]))]
      · rfl
      · intro h2
        apply h
        intro c' hc'
        rcases List.mem_cons.1 hc' with rfl | hc'
        · exact h1
        · exact h2 c' hc'
    · rw [if_neg h1]
      rfl

theorem reorgIndex32_eq {cf loc ct : List Nat} {i x : Nat} (h : transferIndex cf loc ct i = .ok x) (hx : x ≤ intMax) :
    reorgIndex32 cf loc ct i = .ok x := by
  obtain ⟨full, part, h1, h2, rfl⟩ := transferIndex_inv h
  unfold reorgIndex32
  rw [h1, ok_bind, h2, ok_bind, getIndex32_eq hx]

theorem tableReorganization32_eq {S T : Table K} (hS : WellFormed card S) (hT : WellFormed card T) (hsub : ∀ v ∈ T.vars, v ∈ S.vars)
    (hsz : T.size ≤ intMax) : tableReorganization32 S T = tableReorganization S T := by
  unfold tableReorganization32 tableReorganization
  split
  · rfl
  · rename_i hc
    simp only
    rw [mapM_congr (g := transferIndex S.cum (T.vars.map (getVariableIndex S.vars)) T.cum)]
    intro i hi
    have hi := List.mem_range.1 hi
    have ht := transferIndex_eq (dims := S.dims) (vs := T.vars) (dims' := T.dims) (vars := S.vars)
      (by rw [hS.dims]; exact map_pos hS.pos) (by rw [hS.dims]; simp) hsub i
    rw [← hS.cumEq, ← hT.cumEq] at ht
    rw [ht]
    refine reorgIndex32_eq ht (Nat.le_trans (Nat.le_of_lt ?_) hsz)
    rw [hT.size, hT.dims]
    refine rank_lt (cfgIn_map ?_)
    intro v hv
    rw [hS.dims]
    refine asgOf_lt ?_ v (hsub v hv)
    rw [← hS.dims, ← hS.size]
    omega

theorem tableMultiplication32_eq [Mul K] {S T : Table K} (hT : WellFormed card T) (hS : WellFormed card S) (hsub : ∀ v ∈ S.vars, v ∈ T.vars)
    (hne : T.vars ≠ []) (hsz : T.size ≤ intMax) :
    tableMultiplication32 T S =
      if S.vars.length < T.vars.length → (T.vars.map card).prod * T.vars.length ≤ intMax then tableMultiplication T S else .error .ub := by
  unfold tableMultiplication32 tableMultiplication
  by_cases hl : S.vars.length < T.vars.length
  · have e := tableExtension32_eq hS hne hsub hT.pos
    rw [if_pos hl, if_pos hl, hT.dims, e]
    by_cases h : (T.vars.map card).prod * T.vars.length ≤ intMax
    · rw [if_pos h, if_pos (fun _ => h)]
      cases hx : tableExtension S T.vars (T.vars.map card) with
      | error f => rfl
      | ok X =>
        have hv : X.vars = T.vars := by
          unfold tableExtension at hx
          obtain ⟨_, -, hx⟩ := bind_eq_ok hx
          obtain ⟨_, -, hx⟩ := bind_eq_ok hx
          obtain ⟨_, -, hx⟩ := bind_eq_ok hx
          obtain ⟨_, -, hx⟩ := bind_eq_ok hx
          cases hx
          rfl
        rw [ok_bind, ok_bind, hv, if_neg (by simp), if_neg (by simp)]
    · rw [if_neg h, if_neg (fun g => h (g hl))]
      rfl
  · rw [if_neg hl, if_neg hl, if_pos (fun g => absurd g hl), ok_bind, ok_bind]
    have hsub' : ∀ v ∈ T.vars, v ∈ S.vars := by
      have : S.vars.Perm T.vars := (List.subperm_of_subset hS.nodup hsub).perm_of_length_le (by omega)
      exact fun v hv => this.mem_iff.2 hv
    rw [tableReorganization32_eq hS hT hsub' hsz]

/-- The table of a node fits into the clique it is multiplied into. -/
def ExtFits (card : Nat → Nat) (cs : List (List Nat)) (pt : Table K) : Prop :=
  ∀ c, FirstCover cs pt.vars c → pt.vars.length < c.length → (c.map card).prod * c.length ≤ intMax

/-- The tables of the cliques during construction. -/
structure CTables (card : Nat → Nat) (cs : List (List Nat)) (tables : List (Table K)) : Prop where
  vars : tables.map (·.vars) = cs
  wf : ∀ T ∈ tables, WellFormed card T

theorem CTables.get {cs : List (List Nat)} {tables : List (Table K)} (h : CTables card cs tables) {i : Nat} {T : Table K}
    (hi : tables[i]? = some T) : cs[i]? = some T.vars := by
  rw [← h.vars, List.getElem?_map, hi]
  rfl

theorem firstCover_iff {cs : List (List Nat)} {vs : List Nat} (hvs : vs ≠ []) (hne : ∀ c ∈ cs, c ≠ []) {i : Nat}
    (h : cs.findIdx? (fun c => vs = [] ∨ c = [] ∨ (vs.filter (fun v => v ∉ c)) = []) = some i) {c : List Nat} (hi : cs[i]? = some c) :
    (∀ v ∈ vs, v ∈ c) ∧ ∀ c', FirstCover cs vs c' ↔ c' = c := by
  have hcov : ∀ c ∈ cs, (vs = [] ∨ c = [] ∨ vs.filter (fun v => v ∉ c) = []) ↔ ∀ v ∈ vs, v ∈ c := by
    intro c hc
    simp only [hvs, hne c hc, false_or, List.filter_eq_nil_iff, decide_not, Bool.not_eq_eq_eq_not, Bool.not_true, decide_eq_false_iff_not,
      not_not]
  obtain ⟨hlt, hp, hbefore⟩ := List.findIdx?_eq_some_iff_getElem.1 h
  obtain ⟨-, rfl⟩ := List.getElem?_eq_some_iff.1 hi
  have h1 : ∀ v ∈ vs, v ∈ cs[i] := (hcov _ (List.getElem_mem hlt)).1 (by simpa using hp)
  have h2 : ∀ j, ∀ hj : j < i, ¬ ∀ v ∈ vs, v ∈ cs[j] := by
    intro j hj hc
    have := hbefore j hj
    apply this
    simpa using (hcov _ (List.getElem_mem (by omega))).2 hc
  refine ⟨h1, fun c' => ⟨?_, ?_⟩⟩
  · rintro ⟨b, a, rfl, h3, h4⟩
    have hb : b.length = i := by
      rcases Nat.lt_trichotomy b.length i with hh | hh | hh
      · exact absurd (by simpa using h3) (h2 _ hh)
      · exact hh
      · obtain ⟨v, hv, hn⟩ := h4 _ (List.getElem_mem hh)
        have := h1 v hv
        rw [List.getElem_append_left hh] at this
        exact absurd this hn
    subst hb
    simp
  · rintro rfl
    refine ⟨cs.take i, cs.drop (i + 1), by simp, h1, ?_⟩
    intro b hb
    obtain ⟨j, hj, rfl⟩ := List.getElem_of_mem hb
    rw [List.length_take] at hj
    have := h2 j (by omega)
    rw [List.getElem_take]
    simpa using this

theorem assignTable32 [Mul K] {cs : List (List Nat)} (hne : ∀ c ∈ cs, c ≠ []) (hsz : ∀ c ∈ cs, (c.map card).prod ≤ intMax)
    {tables tables' : List (Table K)} (hI : CTables card cs tables) {pt : Table K} (hpt : WellFormed card pt) (hpv : pt.vars ≠ [])
    (h : assignTableToClique cs tables pt = .ok tables') :
    CTables card cs tables' ∧ (ExtFits card cs pt → assignTableToClique32 cs tables pt = .ok tables') ∧
      (¬ ExtFits card cs pt → assignTableToClique32 cs tables pt = .error .ub) := by
  unfold assignTableToClique at h
  unfold assignTableToClique32
  cases hi : cs.findIdx? (fun c => pt.vars = [] ∨ c = [] ∨ (pt.vars.filter (fun v => v ∉ c)) = []) with
  | none =>
    simp only [hi] at h ⊢
    cases h
    refine ⟨hI, fun _ => rfl, fun hn => absurd ?_ hn⟩
    rintro c ⟨b, a, rfl, h1, -⟩ _
    have := List.findIdx?_eq_none_iff.1 hi c (by simp)
    simp only [decide_not, decide_eq_false_iff_not, not_or] at this
    refine absurd ?_ this.2.2
    rw [List.filter_eq_nil_iff]
    intro v hv
    simp [h1 v hv]
  | some i =>
    simp only [hi] at h ⊢
    obtain ⟨hlt, -⟩ := List.findIdx?_eq_some_iff_getElem.1 hi
    have hci : cs.getD i [] = cs[i] := getD_of_lt hlt
    have hc0 : ¬ (pt.vars = [] ∨ cs.getD i [] = []) := by
      rw [hci]
      rintro (h0 | h0)
      · exact hpv h0
      · exact hne _ (List.getElem_mem hlt) h0
    rw [if_neg hc0] at h ⊢
    obtain ⟨T, h1, h⟩ := bind_eq_ok h
    obtain ⟨T', h2, h⟩ := bind_eq_ok h
    have hTm := List.mem_of_getElem? (rd_eq_ok.mp h1)
    have hTi := hI.get (rd_eq_ok.mp h1)
    have hTc : T.vars ∈ cs := List.mem_of_getElem? hTi
    have hT := hI.wf T hTm
    obtain ⟨g1, g2⟩ := firstCover_iff hpv hne hi hTi
    have hTs : T.size ≤ intMax := by
      rw [hT.size, hT.dims]
      exact hsz _ hTc
    have e := tableMultiplication32_eq hT hpt g1 (hne _ hTc) hTs
    have hiff : ExtFits card cs pt ↔ (pt.vars.length < T.vars.length → (T.vars.map card).prod * T.vars.length ≤ intMax) := by
      constructor
      · exact fun g => g _ ((g2 _).2 rfl)
      · intro g c hc
        rw [(g2 c).1 hc]
        exact g
    rw [h1, ok_bind, e]
    refine ⟨?_, fun g => ?_, fun g => ?_⟩
    · obtain ⟨hw, rfl⟩ := wr_inv h
      unfold tableMultiplication at h2
      obtain ⟨tmp, -, h2⟩ := bind_eq_ok h2
      obtain ⟨tmp2, -, h2⟩ := bind_eq_ok h2
      obtain ⟨pot, h3, h2⟩ := bind_eq_ok h2
      cases h2
      constructor
      · rw [List.map_set]
        show (tables.map (·.vars)).set i T.vars = cs
        rw [hI.vars]
        obtain ⟨h4, h5⟩ := List.getElem?_eq_some_iff.1 hTi
        rw [← h5, List.set_getElem_self]
      · intro X hX
        rcases mem_set_or hX with hX | rfl
        · exact hI.wf X hX
        · exact wellFormed_pot hT (mulEntries_inv h3).1
    · rw [if_pos (hiff.1 g), h2, ok_bind]
      exact h
    · rw [if_neg (fun g' => g (hiff.2 g'))]
      rfl

theorem assignPotentials32_eq [Mul K] {cs : List (List Nat)} (hne : ∀ c ∈ cs, c ≠ []) (hsz : ∀ c ∈ cs, (c.map card).prod ≤ intMax)
    {tables tables' : List (Table K)} (hI : CTables card cs tables) {pts : List (Table K)} (hpt : ∀ pt ∈ pts, WellFormed card pt)
    (hpv : ∀ pt ∈ pts, pt.vars ≠ []) (h : assignPotentials cs tables pts = .ok tables') :
    CTables card cs tables' ∧ ((∀ pt ∈ pts, ExtFits card cs pt) → assignPotentials32 cs tables pts = .ok tables') ∧
      (¬ (∀ pt ∈ pts, ExtFits card cs pt) → assignPotentials32 cs tables pts = .error .ub) := by
  unfold assignPotentials at h
  unfold assignPotentials32
  induction pts generalizing tables with
  | nil => cases h; exact ⟨hI, fun _ => rfl, fun g => absurd (by simp) g⟩
  | cons pt pts ih =>
    rw [List.foldlM_cons] at h
    obtain ⟨t1, h1, h⟩ := bind_eq_ok h
    obtain ⟨g1, g2, g3⟩ := assignTable32 hne hsz hI (hpt pt (by simp)) (hpv pt (by simp)) h1
    obtain ⟨f1, f2, f3⟩ := ih g1 (fun p hp => hpt p (by simp [hp])) (fun p hp => hpv p (by simp [hp])) h
    refine ⟨f1, fun g => ?_, fun g => ?_⟩
    · rw [List.foldlM_cons, g2 (g pt (by simp)), ok_bind]
      exact f2 (fun p hp => g p (by simp [hp]))
    · rw [List.foldlM_cons]
      by_cases hp : ExtFits card cs pt
      · rw [g2 hp, ok_bind]
        refine f3 (fun g' => g ?_)
        intro p hp'
        rcases List.mem_cons.1 hp' with rfl | hp'
        · exact hp
        · exact g' p hp'
      · rw [g3 hp]
        rfl

theorem cliqueSizes32_from (tables : List (Table K)) (t b : Nat) (ht : t ≤ intMax) :
    tables.foldlM (fun (st : Nat × Nat) T => do
      let total ← add32 st.1 T.size
      return (total, if T.size > st.2 then T.size else st.2)) (t, b) =
      if t + (tables.map (·.size)).sum ≤ intMax then .ok (t + (tables.map (·.size)).sum, (tables.map (·.size)).foldl max b)
      else .error .ub := by
  induction tables generalizing t b with
  | nil => rw [if_pos (by simpa using ht)]; simp
  | cons T tables ih =>
    rw [List.foldlM_cons, List.map_cons, List.sum_cons, List.foldl_cons]
    by_cases h : t + T.size ≤ intMax
    · simp only [add32_ok h, ok_bind]
      have e := ih (t + T.size) (if T.size > b then T.size else b) h
      have hm : (if T.size > b then T.size else b) = max b T.size := by
        split <;> omega
      rw [hm] at e
      rw [← Nat.add_assoc]
      show List.foldlM _ (t + T.size, if T.size > b then T.size else b) tables = _
      rw [hm]
      exact e
    · simp only [add32_ub h]
      rw [if_neg (show ¬ t + (T.size + (tables.map (·.size)).sum) ≤ intMax by omega)]
      rfl

theorem cliqueSizes32_eq (tables : List (Table K)) :
    cliqueSizes32 tables = if (tables.map (·.size)).sum ≤ intMax then .ok ((tables.map (·.size)).sum, (tables.map (·.size)).foldl max 0)
      else .error .ub := by
  have := cliqueSizes32_from tables 0 0 (by decide)
  rw [Nat.zero_add] at this
  exact this

/-! Reordering. -/

theorem reorgScan_perm {i : Nat} {vs cs k c : List Nat} (h : reorgScan i vs cs = .ok (k, c)) :
    (k ++ c).Perm (List.range' i vs.length) ∧ c.length = cs.length := by
  induction vs generalizing i cs k c with
  | nil =>
    cases cs with
    | nil => cases h; simp
    | cons c cs => cases h
  | cons v vs ih =>
    cases cs with
    | nil =>
      unfold reorgScan at h
      obtain ⟨⟨k', c'⟩, h1, h⟩ := bind_eq_ok h
      cases h
      obtain ⟨g1, g2⟩ := ih h1
      exact ⟨by rw [List.length_cons, List.range'_succ]; exact g1.cons _, g2⟩
    | cons d cs =>
      unfold reorgScan at h
      split at h
      · obtain ⟨⟨k', c'⟩, h1, h⟩ := bind_eq_ok h
        cases h
        obtain ⟨g1, g2⟩ := ih h1
        refine ⟨?_, by simp [g2]⟩
        rw [List.length_cons, List.range'_succ]
        exact List.perm_middle.trans (g1.cons _)
      · obtain ⟨⟨k', c'⟩, h1, h⟩ := bind_eq_ok h
        cases h
        obtain ⟨g1, g2⟩ := ih h1
        refine ⟨?_, by simpa using g2⟩
        rw [List.length_cons, List.range'_succ]
        exact g1.cons _

theorem mapM_rd_perm {l loc r : List Nat} (hp : loc.Perm (List.range' 0 l.length)) (h : loc.mapM (rd l) = .ok r) : r.Perm l := by
  have e : loc.mapM (rd l) = .ok (loc.map (fun j => l.getD j 0)) := by
    refine mapM_ok (fun j hj => ?_)
    have : j < l.length := by
      have := hp.mem_iff.1 hj
      rw [List.mem_range'_1] at this
      omega
    rw [rd_getElem this, getD_of_lt this]
  rw [e] at h
  cases h
  refine (hp.map _).trans ?_
  have : (List.range' 0 l.length).map (fun j => l.getD j 0) = l := by
    refine List.ext_getElem (by simp) (fun i h1 h2 => ?_)
    rw [List.getElem_map, List.getElem_range', getD_of_lt (by simpa using h2)]
    simp
  rw [this]

theorem scatterSet_lt {acc src r : List K} {ti : List Nat} {n : Nat} (h : scatterSet acc ti src n = .ok r) :
    ∀ k < n, ∀ t, ti[k]? = some t → t < acc.length := by
  refine (foldlM_range_inv (fun k (r : List K) => r.length = acc.length ∧ ∀ j < k, ∀ t, ti[j]? = some t → t < acc.length) h
    ⟨rfl, by simp⟩ ?_).2
  rintro i - b b' ⟨h1, h2⟩ hf
  obtain ⟨t, e1, hf⟩ := bind_eq_ok hf
  obtain ⟨x, -, hf⟩ := bind_eq_ok hf
  obtain ⟨hw, rfl⟩ := wr_inv hf
  refine ⟨by simpa using h1, ?_⟩
  intro j hj t' ht'
  rcases Nat.lt_succ_iff_lt_or_eq.1 hj with hj | rfl
  · exact h2 j hj t' ht'
  · rw [rd_eq_ok.mp e1] at ht'
    cases ht'
    omega

/-- What reordering needs of a table. -/
structure Small (T : Table K) : Prop where
  len : T.dims.length = T.vars.length
  pos : ∀ d ∈ T.dims, 0 < d
  prod : T.dims.prod ≤ intMax
  size : T.size ≤ intMax

theorem tableMoveToEnd32_eq [Zero K] {T T' : Table K} (hT : Small T) {common : List Nat} (h : tableMoveToEnd T common = .ok T') :
    tableMoveToEnd32 T common = .ok T' ∧ Small T' := by
  unfold tableMoveToEnd tableReorganizationPre at h
  unfold tableMoveToEnd32 tableReorganizationPre32
  obtain ⟨⟨new, loc⟩, h1, h⟩ := bind_eq_ok h
  obtain ⟨⟨kept, tmp⟩, h2, h1⟩ := bind_eq_ok h1
  obtain ⟨keptVars, h3, h1⟩ := bind_eq_ok h1
  obtain ⟨dims, h4, h1⟩ := bind_eq_ok h1
  obtain ⟨cum, h5, h1⟩ := bind_eq_ok h1
  cases h1
  obtain ⟨ti, h6, h⟩ := bind_eq_ok h
  obtain ⟨pot, h7, h⟩ := bind_eq_ok h
  cases h
  obtain ⟨hp, hl⟩ := reorgScan_perm h2
  have hd : dims.Perm T.dims := mapM_rd_perm (by rw [hT.len]; exact hp) h4
  have hpos : ∀ d ∈ dims, 0 < d := fun d hm => hT.pos d (hd.mem_iff.1 hm)
  have hprod : dims.prod ≤ intMax := by rw [hd.prod_eq]; exact hT.prod
  have e5 : constructCumLevels32 dims = .ok cum := by rw [constructCumLevels32_eq hpos hprod, h5]
  have hti : (List.range T.size).mapM (reorgIndex32 T.cum (kept ++ tmp) cum) = .ok ti := by
    rw [← h6]
    refine mapM_congr (fun k hk => ?_)
    have hk := List.mem_range.1 hk
    obtain ⟨t, ht, e⟩ := (mapM_get h6).2 k k (List.getElem?_range hk)
    have hlt := scatterSet_lt h7 k hk t ht
    rw [List.length_replicate] at hlt
    rw [e]
    exact reorgIndex32_eq e (Nat.le_trans (Nat.le_of_lt hlt) hT.size)
  constructor
  · rw [h2, ok_bind]
    simp only
    rw [h3, ok_bind, h4, ok_bind, e5, ok_bind]
    simp only [pure_eq_ok, ok_bind]
    rw [hti, ok_bind, h7]
    rfl
  · refine ⟨?_, hpos, hprod, hT.size⟩
    have h8 : keptVars.length = kept.length := (mapM_get h3).1
    have h9 := hp.length_eq
    rw [hd.length_eq, hT.len, List.length_append, h8, ← hl, ← List.length_append, h9]
    simp

theorem reorganizeStorage32_eq [Zero K] {mk : Marks} {st st' : JState K} (hst : ∀ T ∈ st.clq, Small T) (h : reorganizeStorage mk st = .ok st') :
    reorganizeStorage32 mk st = .ok st' := by
  refine (foldlM_agree (fun s : JState K => ∀ T ∈ s.clq, Small T) ?_ hst h).1
  intro b hb i _ b' hf
  unfold reorganizeClique at hf
  unfold reorganizeClique32
  cases hu : mk.up (.clq i) with
  | none =>
    simp only [hu] at hf ⊢
    cases hf
    exact ⟨rfl, hb⟩
  | some y =>
    simp only [hu] at hf ⊢
    obtain ⟨s, h1, hf⟩ := bind_eq_ok hf
    obtain ⟨T, h2, hf⟩ := bind_eq_ok hf
    obtain ⟨S, h3, hf⟩ := bind_eq_ok hf
    rw [h1, ok_bind, h2, ok_bind, h3, ok_bind]
    split at hf
    · cases hf
    · rename_i hn
      rw [if_neg hn]
      split at hf
      · rename_i he
        rw [if_pos he]
        cases hf
        exact ⟨rfl, hb⟩
      · rename_i he
        rw [if_neg he]
        obtain ⟨T', h4, hf⟩ := bind_eq_ok hf
        obtain ⟨clq, h5, hf⟩ := bind_eq_ok hf
        cases hf
        obtain ⟨g1, g2⟩ := tableMoveToEnd32_eq (hb T (List.mem_of_getElem? (rd_eq_ok.mp h2))) h4
        rw [g1, ok_bind, h5, ok_bind]
        refine ⟨rfl, ?_⟩
        obtain ⟨-, rfl⟩ := wr_inv h5
        intro X hX
        rcases mem_set_or hX with hX | rfl
        · exact hb X hX
        · exact g2

/-! The tree. -/

theorem sum_map_le {α : Type} {f : α → Nat} {l : List α} {x : α} (hx : x ∈ l) : f x ≤ (l.map f).sum := by
  induction l with
  | nil => cases hx
  | cons y l ih =>
    rw [List.map_cons, List.sum_cons]
    rcases List.mem_cons.1 hx with rfl | hx
    · omega
    · have := ih hx
      omega

theorem CTables.sizes {cs : List (List Nat)} {tables : List (Table K)} (h : CTables card cs tables) :
    tables.map (·.size) = cs.map (fun c => (c.map card).prod) := by
  rw [← h.vars, List.map_map]
  refine List.map_congr_left (fun T hT => ?_)
  show T.size = (T.vars.map card).prod
  rw [(h.wf T hT).size, (h.wf T hT).dims]

theorem commonVars_sub (cs : List (List Nat)) (i j : Nat) : commonVars cs i j = [] ∨ ∃ c ∈ cs, ∀ v ∈ commonVars cs i j, v ∈ c := by
  by_cases hi : i < cs.length
  · refine Or.inr ⟨cs[i], List.getElem_mem hi, fun v hv => ?_⟩
    have := (mem_commonVars.1 hv).1
    unfold clqHas at this
    rwa [getD_of_lt hi] at this
  · left
    rw [List.eq_nil_iff_forall_not_mem]
    intro v hv
    have := (mem_commonVars.1 hv).1
    unfold clqHas at this
    rw [List.getD_eq_getElem?_getD, List.getElem?_eq_none (by omega)] at this
    simp at this

theorem build32 [Field K] {N : Net} {pts : List (Table K)} {order : List (Nat × Nat) → List (Nat × Nat)} {cord : Nat → List Nat}
    {J : JTree K} {T : JTShape} {L : Levels} {r : Nat} {lev : JNode → Nat} {par ch : Nat → Nat} {F : Nat → Assignment → K}
    (h : buildJunctionTree N card pts order cord = .ok J) (hb : Built N card pts J T L r lev par ch F)
    (hcard : ∀ i < N.nodes.length, 0 < card i) (hwf : ∀ T ∈ pts, WellFormed card T) (hne : ∀ T ∈ pts, T.vars ≠ []) :
    ((T.cliques.map (fun c => (c.map card).prod)).sum ≤ intMax ∧ (∀ pt ∈ pts, ExtFits card T.cliques pt) →
      buildJunctionTree32 N card pts order cord = .ok (J, (T.cliques.map (fun c => (c.map card).prod)).sum,
        (T.cliques.map (fun c => (c.map card).prod)).foldl max 0)) ∧
    (¬ ((T.cliques.map (fun c => (c.map card).prod)).sum ≤ intMax ∧ ∀ pt ∈ pts, ExtFits card T.cliques pt) →
      buildJunctionTree32 N card pts order cord = .error .ub) := by
  unfold buildJunctionTree at h
  obtain ⟨shape, h1, h⟩ := bind_eq_ok h
  obtain ⟨clq, h2, h⟩ := bind_eq_ok h
  obtain ⟨sep, h3, h⟩ := bind_eq_ok h
  obtain ⟨clq', h4, h⟩ := bind_eq_ok h
  obtain ⟨root, h5, h⟩ := bind_eq_ok h
  obtain ⟨levels, h6, h⟩ := bind_eq_ok h
  obtain ⟨st, h7, h⟩ := bind_eq_ok h
  cases h
  have hs : shape = T := hb.shape
  subst hs
  have hc := hb.facts
  have hp : ∀ c ∈ shape.cliques, ∀ v ∈ c, 0 < card v := fun c hm v hv => hcard v (hc.lt c hm v hv)
  have hI : CTables card shape.cliques clq := by
    have := initialTables_eq (K := K) (card := card) (n := shape.cliques.length) (C := fun i => shape.cliques.getD i [])
      (fun i hi => by show shape.cliques.getD i [] ≠ []; rw [getD_of_lt hi]; exact hc.nonempty _ (List.getElem_mem hi))
    rw [← eq_tab_getD, h2] at this
    cases this
    constructor
    · have e := eq_tab_getD (l := shape.cliques) []
      conv_rhs => rw [e]
      rw [tab, tab, List.map_map]
      rfl
    · intro X hX
      obtain ⟨i, hi, rfl⟩ := List.mem_map.1 hX
      rw [List.mem_range] at hi
      rw [getD_of_lt hi]
      exact fromFn_wf (nodup_of_sorted (hc.sorted _ (List.getElem_mem hi))) (hp _ (List.getElem_mem hi)) _
  unfold buildJunctionTree32
  rw [h1, ok_bind]
  by_cases hsz : ∀ c ∈ shape.cliques, (c.map card).prod ≤ intMax
  · have e3 : initialTables32 (K := K) card (shape.seps.map (fun p => commonVars shape.cliques p.1 p.2)) = .ok sep := by
      rw [← h3]
      refine mapM_congr (fun c hm => ?_)
      obtain ⟨p, -, rfl⟩ := List.mem_map.1 hm
      by_cases h0 : commonVars shape.cliques p.1 p.2 = []
      · rw [h0]
        rfl
      · rcases commonVars_sub shape.cliques p.1 p.2 with h' | ⟨c, hc1, hc2⟩
        · exact absurd h' h0
        · rw [constructEmptyTable32_eq (fun v hv => hp c hc1 v (hc2 v hv)) h0, if_pos]
          refine Nat.le_trans (prod_subset ?_ hc2 (hp c hc1)) (hsz c hc1)
          exact nodup_of_sorted ((getD_sorted hc _).filter _)
    obtain ⟨g1, g2, g3⟩ := assignPotentials32_eq hc.nonempty hsz hI hwf hne h4
    rw [initialTables32_ok hp hc.nonempty hsz, h2, ok_bind, e3, ok_bind]
    by_cases hx : ∀ pt ∈ pts, ExtFits card shape.cliques pt
    · rw [g2 hx, ok_bind, cliqueSizes32_eq, g1.sizes]
      by_cases ht : (shape.cliques.map (fun c => (c.map card).prod)).sum ≤ intMax
      · refine ⟨fun _ => ?_, fun g => absurd ⟨ht, hx⟩ g⟩
        have e7 := reorganizeStorage32_eq (fun X hX => by
          have w := g1.wf X hX
          have hm : X.vars ∈ shape.cliques := by rw [← g1.vars]; exact List.mem_map_of_mem hX
          refine ⟨by rw [w.dims]; simp, by rw [w.dims]; exact map_pos w.pos, ?_, ?_⟩
          · rw [w.dims]
            exact hsz _ hm
          · rw [w.size, w.dims]
            exact hsz _ hm) h7
        rw [if_pos ht, ok_bind, h5, ok_bind, h6, ok_bind, e7]
        rfl
      · refine ⟨fun g => absurd g.1 ht, fun _ => ?_⟩
        rw [if_neg ht]
        rfl
    · refine ⟨fun g => absurd g.2 hx, fun _ => ?_⟩
      rw [g3 hx]
      rfl
  · refine ⟨fun g => absurd (fun c hm => Nat.le_trans (sum_map_le (f := fun c : List Nat => (c.map card).prod) hm) g.1) hsz, fun _ => ?_⟩
    rw [initialTables32_ub hp hc.nonempty hsz]
    rfl

/-- The tables of the built tree. -/
theorem Built.fits [Field K] {N : Net} {pts : List (Table K)} {J : JTree K} {T : JTShape} {L : Levels} {r M : Nat}
    {lev : JNode → Nat} {par ch : Nat → Nat} {F : Nat → Assignment → K} (hb : Built N card pts J T L r lev par ch F)
    (hcard : ∀ i < N.nodes.length, 0 < card i) (hM : ∀ c ∈ T.cliques, (c.map card).prod ≤ M)
    (hs : ∀ c ∈ T.cliques, (c.map card).prod * c.length ≤ intMax) : JFits card M T.cliques.length J.state := by
  have hst : ∀ i < T.cliques.length, (storedVars T L.marks i).Perm (T.cliques.getD i []) := fun i hi =>
    (List.perm_ext_iff_of_nodup (storedVars_nodup hb.facts) (nodup_of_sorted (getD_sorted hb.facts i))).2 (fun v => hb.plan.mem_stored hi)
  have hp : ∀ c ∈ T.cliques, ∀ v ∈ c, 0 < card v := fun c hm v hv => hcard v (hb.facts.lt c hm v hv)
  rw [hb.state]
  refine ⟨?_, ?_, by simp [repState, tab], by simp [repState, tab]⟩
  · intro X hX
    obtain ⟨i, hi, rfl⟩ := List.mem_map.1 hX
    rw [List.mem_range] at hi
    have hm : T.cliques.getD i [] ∈ T.cliques := by rw [getD_of_lt hi]; exact List.getElem_mem hi
    have e1 := ((hst i hi).map card).prod_eq
    have e2 := (hst i hi).length_eq
    refine ⟨fromFn_wf (storedVars_nodup hb.facts) (fun v hv => hp _ hm v ((hst i hi).mem_iff.1 hv)) _, ?_, ?_⟩
    · show ((storedVars T L.marks i).map card).prod ≤ M
      rw [e1]
      exact hM _ hm
    · show ((storedVars T L.marks i).map card).prod * (storedVars T L.marks i).length ≤ intMax
      rw [e1, e2]
      exact hs _ hm
  · intro X hX
    obtain ⟨s, hs', rfl⟩ := List.mem_map.1 hX
    rw [List.mem_range] at hs'
    have hlt := (hb.plan.ch_end s (by omega)).lt hb.shapeOK
    have hm : T.cliques.getD (ch s) [] ∈ T.cliques := by rw [getD_of_lt hlt]; exact List.getElem_mem hlt
    have hsub := (hb.plan.sep_sub (show s + 1 < T.cliques.length by omega)).1
    have hn := nodup_of_sorted (sepVars_sorted hb.facts s)
    have h1 := prod_subset hn hsub (hp _ hm)
    refine ⟨fromFn_wf hn (fun v hv => hp _ hm v (hsub v hv)) _, Nat.le_trans h1 (hM _ hm), ?_⟩
    exact Nat.le_trans (Nat.mul_le_mul h1 (List.subperm_of_subset hn hsub).length_le) (hs _ hm)

end FastPGM
