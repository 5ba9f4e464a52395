import Verif.Lemmas.JTParallel3

/-!
Loading evidence with parallel loops.
-/

namespace FastPGM

open Spec Thread

variable {K : Type}

theorem mem_reducedNodes {index : Nat} {st : JState K} {x : JNode} :
    x ∈ reducedNodes index st ↔ ∃ T, st.tableOf x = some T ∧ index ∈ T.vars := by
  cases x with
  | clq i =>
    simp only [reducedNodes, List.mem_append, List.mem_map, List.mem_filter, List.mem_range, JState.tableOf]
    constructor
    · rintro (⟨j, ⟨hj, hm⟩, e⟩ | ⟨j, -, e⟩)
      · cases e
        rw [List.getElem?_eq_getElem hj] at hm ⊢
        exact ⟨_, rfl, by simpa using hm⟩
      · cases e
    · rintro ⟨T, hT, hm⟩
      exact .inl ⟨i, ⟨(List.getElem?_eq_some_iff.mp hT).1, by simpa [hT] using hm⟩, rfl⟩
  | sep i =>
    simp only [reducedNodes, List.mem_append, List.mem_map, List.mem_filter, List.mem_range, JState.tableOf]
    constructor
    · rintro (⟨j, -, e⟩ | ⟨j, ⟨hj, hm⟩, e⟩)
      · cases e
      · cases e
        rw [List.getElem?_eq_getElem hj] at hm ⊢
        exact ⟨_, rfl, by simpa using hm⟩
    · rintro ⟨T, hT, hm⟩
      exact .inr ⟨i, ⟨(List.getElem?_eq_some_iff.mp hT).1, by simpa [hT] using hm⟩, rfl⟩

theorem reducedNodes_nodup (index : Nat) (st : JState K) : (reducedNodes index st).Nodup := by
  refine List.nodup_append.mpr ⟨?_, ?_, ?_⟩
  · exact (List.nodup_range.filter _).map (fun _ _ e => JNode.clq.inj e)
  · exact (List.nodup_range.filter _).map (fun _ _ e => JNode.sep.inj e)
  · intro x hx y hy e
    obtain ⟨i, -, rfl⟩ := List.mem_map.mp hx
    obtain ⟨j, -, rfl⟩ := List.mem_map.mp hy
    cases e

/-- The table of the `k`-th node. -/
theorem reducedNodes_get {index : Nat} {st : JState K} {k : Nat} (hk : k < (reducedNodes index st).length) :
    ∃ x T, (reducedNodes index st)[k]? = some x ∧ st.tableOf x = some T ∧ index ∈ T.vars := by
  obtain ⟨T, h1, h2⟩ := mem_reducedNodes.mp (List.getElem_mem hk)
  exact ⟨_, T, List.getElem?_eq_getElem hk, h1, h2⟩

/-- The first loop. -/
theorem evidencePre_par {p : Nat} (hp : 0 < p) (index : Nat) (st : JState K) :
    ∃ m', parFor p (reducedNodes index st).length (evidencePre index (reducedNodes index st)) (evidenceMem (reducedNodes index st).length st) =
        Par.lift (.ok m') ∧
      (∀ (k : Nat) x T, (reducedNodes index st)[k]? = some x → st.tableOf x = some T → m' (.fullPtr k) = some (some (.int (T.size * T.vars.length))) ∧
        m' (.indexPtr k) = some (some (.int T.size)) ∧ m' (.eLoc k) = some (some (.int (getVariableIndex T.vars index)))) ∧
      ∀ x, m' (.table x) = (st.tableOf x).map (fun T => some (.tab T)) := by
  obtain ⟨m', h1, h2, h3⟩ := parFor_post (p := p) (n := (reducedNodes index st).length) hp (R := fun _ l => ∃ x, l = .table x)
    (W := fun k l => l = .fullPtr k ∨ l = .indexPtr k ∨ l = .eLoc k) (body := evidencePre index (reducedNodes index st))
    (m := evidenceMem (reducedNodes index st).length st)
    (Q := fun k m' => ∀ x T, (reducedNodes index st)[k]? = some x → st.tableOf x = some T → m' (.fullPtr k) = some (some (.int (T.size * T.vars.length))) ∧
        m' (.indexPtr k) = some (some (.int T.size)) ∧ m' (.eLoc k) = some (some (.int (getVariableIndex T.vars index))))
    (by
      intro k hk
      obtain ⟨x, T, hx, hT, hm⟩ := reducedNodes_get hk
      rw [evidencePre, rd_ok hx, lift_ok_bind]
      refine Safe.bind' (fun a y => T = a ∧ y = evidenceMem (reducedNodes index st).length st) (safe_readTab (.inl ⟨x, rfl⟩) ?_ ⟨rfl, rfl⟩) ?_
      · simp [evidenceMem, hT]
      rintro _ _ ⟨rfl, rfl⟩
      refine Safe.bind' _ (safe_store (Q := fun _ y => y = (evidenceMem (reducedNodes index st).length st).put (.fullPtr k) (.int (T.size * T.vars.length)))
        (.inl rfl) (by simp [evidenceMem, hk]) rfl) ?_
      rintro _ _ rfl
      refine Safe.bind' _ (safe_store (Q := fun _ y => y = ((evidenceMem (reducedNodes index st).length st).put (.fullPtr k)
        (.int (T.size * T.vars.length))).put (.indexPtr k) (.int T.size)) (.inr (.inl rfl)) (by simp [Mem.put, evidenceMem, hk]) rfl) ?_
      rintro _ _ rfl
      refine safe_store (.inr (.inr rfl)) (by simp [Mem.put, evidenceMem, hk]) ?_
      intro x' T' hx' hT'
      rw [hx] at hx'
      cases hx'
      rw [hT] at hT'
      cases hT'
      simp [Mem.put])
    (by
      rintro i - j - hij l (rfl | rfl | rfl) <;> simp [hij])
    (by
      intro k _ x y e hq x' T' hx' hT'
      rw [← e (.fullPtr k) (.inr (.inl rfl)), ← e (.indexPtr k) (.inr (.inr (.inl rfl))), ← e (.eLoc k) (.inr (.inr (.inr rfl)))]
      exact hq x' T' hx' hT')
  refine ⟨m', h1, ?_, ?_⟩
  · intro k x T hx hT
    exact h2 k (List.getElem?_eq_some_iff.mp hx).1 x T hx hT
  · intro x
    rw [h3 (.table x) (by simp)]
    rfl

/-- The second loop. -/
theorem evidenceMain_par {p : Nat} (hp : 0 < p) {card : Nat → Nat} {index : Nat} {st : JState K} (hst : StateWF card st) {m : JMem K}
    (hptr : ∀ (k : Nat) x T, (reducedNodes index st)[k]? = some x → st.tableOf x = some T → m (.fullPtr k) = some (some (.int (T.size * T.vars.length))) ∧
        m (.indexPtr k) = some (some (.int T.size)) ∧ m (.eLoc k) = some (some (.int (getVariableIndex T.vars index))))
    (htab : ∀ x, m (.table x) = (st.tableOf x).map (fun T => some (.tab T)))
    (hok : ∀ (k : Nat) x T, (reducedNodes index st)[k]? = some x → st.tableOf x = some T → ∀ i < T.size, ∃ v,
      tableReductionMain T.cum (getVariableIndex T.vars index) i = .ok v) :
    ∃ m', parFor p (prefixSums ((reducedNodes index st).map (fun x => ((st.tableOf x).map (·.size)).getD 0))).2
        (flatBody ((reducedNodes index st).map (fun x => ((st.tableOf x).map (·.size)).getD 0)) (evidenceMain (reducedNodes index st))) (allocated m) =
        Par.lift (.ok m') ∧
      (∀ (k : Nat) x T, (reducedNodes index st)[k]? = some x → st.tableOf x = some T → ∀ i < T.size, ∃ v,
        tableReductionMain T.cum (getVariableIndex T.vars index) i = .ok v ∧ m' (.index k i) = some (some (.int v))) ∧
      (∀ k, m' (.eLoc k) = m (.eLoc k)) ∧ (∀ k, m' (.fullPtr k) = m (.fullPtr k)) ∧ (∀ k, m' (.indexPtr k) = m (.indexPtr k)) ∧
      ∀ x, m' (.table x) = m (.table x) := by
  have hsz : ∀ (j n : Nat), ((reducedNodes index st).map (fun x => ((st.tableOf x).map (·.size)).getD 0))[j]? = some n →
      ∃ x T, (reducedNodes index st)[j]? = some x ∧ st.tableOf x = some T ∧ index ∈ T.vars ∧ T.size = n := by
    intro j n hn
    rw [List.getElem?_map, Option.map_eq_some_iff] at hn
    obtain ⟨x, hx, rfl⟩ := hn
    obtain ⟨T, hT, hm⟩ := mem_reducedNodes.mp (List.mem_of_getElem? hx)
    exact ⟨x, T, hx, hT, hm, by simp [hT]⟩
  have hwf : ∀ x T, st.tableOf x = some T → WellFormed card T := by
    intro x T hT
    cases x with
    | clq i => exact hst.1 T (List.mem_of_getElem? hT)
    | sep i => exact hst.2 T (List.mem_of_getElem? hT)
  obtain ⟨m', h1, h2, h3⟩ := parFor_flat (K := K) hp (sizes := (reducedNodes index st).map (fun x => ((st.tableOf x).map (·.size)).getD 0))
    (R := fun j _ l => l = .eLoc j ∨ ∃ x, l = .table x)
    (W := fun j i l => l = .index j i ∨ ∃ x T, (reducedNodes index st)[j]? = some x ∧ st.tableOf x = some T ∧ ∃ o < T.vars.length, l = .full j (i * T.vars.length + o))
    (body := evidenceMain (reducedNodes index st)) (m := allocated m)
    (Q := fun j i m' => ∀ x T, (reducedNodes index st)[j]? = some x → st.tableOf x = some T → ∃ v,
        tableReductionMain T.cum (getVariableIndex T.vars index) i = .ok v ∧ m' (.index j i) = some (some (.int v)))
    (by
      intro j i n hn hi
      obtain ⟨x, T, hx, hT, hm, rfl⟩ := hsz j n hn
      obtain ⟨p1, p2, p3⟩ := hptr j x T hx hT
      obtain ⟨v, hv⟩ := hok j x T hx hT i hi
      obtain ⟨cfg, hcfg, hrd⟩ := bind_eq_ok hv
      have hloc : getVariableIndex T.vars index < T.vars.length := List.idxOf_lt_length_of_mem hm
      rw [evidenceMain, rd_ok hx, lift_ok_bind]
      refine Safe.bind' (fun a y => T = a ∧ y = allocated m) (safe_readTab (.inl (.inr ⟨x, rfl⟩)) ?_ ⟨rfl, rfl⟩) ?_
      · show m (.table x) = _
        rw [htab, hT]; rfl
      rintro _ _ ⟨rfl, rfl⟩
      refine Safe.bind' (fun a y => a = getVariableIndex T.vars index ∧ y = allocated m) (safe_readInt (.inl (.inl rfl)) ?_ ⟨rfl, rfl⟩) ?_
      · exact p3
      rintro _ _ ⟨rfl, rfl⟩
      refine Safe.bind' _ (writeConfig_safe hcfg (hwf x T hT).cum_length ?_ ?_ ?_) ?_
      · intro o ho
        have : o < T.vars.length := ho
        simp [allocated, p1, block_lt hi this]
      · intro o _ o' _ e
        simpa using e
      · intro o ho
        exact .inr ⟨x, T, hx, hT, o, ho, rfl⟩
      rintro _ y ⟨y1, y2⟩
      obtain ⟨v', hv', hy⟩ := y1 _ hloc
      have e : v' = v := Option.some.inj (hv'.symm.trans (rd_eq_ok.mp hrd))
      subst e
      refine Safe.bind' (fun a z => a = v' ∧ z = y) (safe_readInt (.inr (.inr ⟨x, T, hx, hT, _, hloc, rfl⟩)) hy ⟨rfl, rfl⟩) ?_
      rintro _ _ ⟨rfl, rfl⟩
      refine safe_store (.inl rfl) ?_ ?_
      · rw [y2 _ (by simp)]
        simp [allocated, p2, hi]
      · intro x' T' hx' hT'
        rw [hx] at hx'
        cases hx'
        rw [hT] at hT'
        cases hT'
        exact ⟨_, hv, put_self _ _ _⟩)
    (by
      rintro j i n j' i' n' hn hi hn' hi' hne l (rfl | ⟨x, T, hx, hT, o, ho, rfl⟩)
      · refine ⟨by simp, ?_⟩
        rintro (e | ⟨x, T, hx, hT, o, ho, e⟩)
        · cases e
          exact hne rfl
        · cases e
      · refine ⟨by simp, ?_⟩
        rintro (e | ⟨x', T', hx', hT', o', ho', e⟩)
        · cases e
        · simp only [Place.full.injEq] at e
          obtain ⟨rfl, e⟩ := e
          rw [hx] at hx'
          cases hx'
          rw [hT] at hT'
          cases hT'
          exact hne (by rw [block_ne ho ho' e]))
    (by
      intro j i n hn hi x y e hq x' T' hx' hT'
      obtain ⟨v, h1, h2⟩ := hq x' T' hx' hT'
      exact ⟨v, h1, (e (.index j i) (.inr (.inl rfl))).symm.trans h2⟩)
  refine ⟨m', h1, ?_, ?_, ?_, ?_, ?_⟩
  · intro k x T hx hT i hi
    exact h2 k i T.size (by simp [hx, hT]) hi x T hx hT
  all_goals
    intro k
    rw [h3 _ (by simp)]
    rfl

/-- The third loop. -/
theorem evidencePost_par [Zero K] {p : Nat} (hp : 0 < p) {index value : Nat} {st : JState K} {m : JMem K}
    (hptr : ∀ k < (reducedNodes index st).length, m (.fullPtr k) ≠ none ∧ m (.indexPtr k) ≠ none)
    (hloc : ∀ (k : Nat) x T, (reducedNodes index st)[k]? = some x → st.tableOf x = some T →
      m (.eLoc k) = some (some (.int (getVariableIndex T.vars index))))
    (hidx : ∀ (k : Nat) x T, (reducedNodes index st)[k]? = some x → st.tableOf x = some T → ∀ i < T.size, ∃ v,
        tableReductionMain T.cum (getVariableIndex T.vars index) i = .ok v ∧ m (.index k i) = some (some (.int v)))
    (htab : ∀ x, m (.table x) = (st.tableOf x).map (fun T => some (.tab T)))
    (hok : ∀ x T, st.tableOf x = some T → index ∈ T.vars → ∃ T', tableReduction T index value = .ok T') :
    ∃ m', parFor p (reducedNodes index st).length (evidencePost value (reducedNodes index st)) m = Par.lift (.ok m') ∧
      ∀ x T, st.tableOf x = some T → ∃ T', (if index ∈ T.vars then tableReduction T index value else .ok T) = .ok T' ∧
        m' (.table x) = some (some (.tab T')) := by
  obtain ⟨m', h1, h2, h3⟩ := parFor_post (p := p) (n := (reducedNodes index st).length) hp
    (R := fun k l => l = .eLoc k ∨ ∃ i, l = .index k i)
    (W := fun k l => l = .fullPtr k ∨ l = .indexPtr k ∨ ∃ x, (reducedNodes index st)[k]? = some x ∧ l = .table x)
    (body := evidencePost value (reducedNodes index st)) (m := m)
    (Q := fun k m' => ∀ x T, (reducedNodes index st)[k]? = some x → st.tableOf x = some T → ∃ T', tableReduction T index value = .ok T' ∧
      m' (.table x) = some (some (.tab T')))
    (by
      intro k hk
      obtain ⟨x, T, hx, hT, hm⟩ := reducedNodes_get hk
      obtain ⟨T', hT'⟩ := hok x T hT hm
      obtain ⟨vi, hvi, hpost⟩ := bind_eq_ok hT'
      have hpost : reductionPost T value (getVariableIndex T.vars index) vi = .ok T' := hpost
      obtain ⟨hl, hg⟩ := mapM_get hvi
      rw [evidencePost, rd_ok hx, lift_ok_bind]
      refine Safe.bind' (fun a y => T = a ∧ m = y) (safe_readTab (.inr (.inr (.inr ⟨x, hx, rfl⟩))) (by rw [htab, hT]; rfl) ⟨rfl, rfl⟩) ?_
      rintro _ _ ⟨rfl, rfl⟩
      refine Safe.bind' (fun a y => a = getVariableIndex T.vars index ∧ m = y) (safe_readInt (.inl (.inl rfl)) (hloc k x T hx hT) ⟨rfl, rfl⟩) ?_
      rintro _ _ ⟨rfl, rfl⟩
      refine Safe.bind' (fun a y => a = vi ∧ m = y) ?_ ?_
      · refine (Safe.foldlM_range (I := fun i (vs : List Nat) (y : JMem K) => vs = vi.take i ∧ m = y) ⟨by simp, rfl⟩ ?_).mono
          (fun _ h => .inl h) (fun _ h => h) ?_
        · rintro i hi vs y ⟨rfl, rfl⟩
          obtain ⟨v, e1, e2⟩ := hidx k x T hx hT i hi
          obtain ⟨v', e3, e4⟩ := hg i i (List.getElem?_range hi)
          rw [e1] at e4
          cases e4
          refine Safe.bind' (fun a z => a = v ∧ m = z) (safe_readInt (.inl (.inr ⟨i, rfl⟩)) e2 ⟨rfl, rfl⟩) ?_
          rintro _ _ ⟨rfl, rfl⟩
          obtain ⟨hlt, e5⟩ := List.getElem?_eq_some_iff.mp e3
          refine ⟨?_, rfl⟩
          rw [List.take_succ_eq_append_getElem hlt, e5]
        · rintro vs y ⟨rfl, rfl⟩
          exact ⟨List.take_of_length_le (by rw [hl]; simp), rfl⟩
      rintro _ _ ⟨rfl, rfl⟩
      rw [hpost, lift_ok_bind]
      refine Safe.bind' _ (safe_store (Q := fun _ y => y = m.put (.table x) (.tab T')) (.inr (.inr ⟨x, hx, rfl⟩)) (by rw [htab, hT]; simp) rfl) ?_
      rintro _ _ rfl
      refine Safe.bind' _ (safe_store (Q := fun _ y => y = (m.put (.table x) (.tab T')).put (.fullPtr k) (.int 0)) (.inl rfl)
        (by rw [put_ne _ _ (by simp)]; exact (hptr k hk).1) rfl) ?_
      rintro _ _ rfl
      refine safe_store (.inr (.inl rfl)) (by rw [put_ne _ _ (by simp), put_ne _ _ (by simp)]; exact (hptr k hk).2) ?_
      intro x' T1 hx' hT1
      rw [hx] at hx'
      cases hx'
      rw [hT] at hT1
      cases hT1
      refine ⟨T', hT', ?_⟩
      rw [put_ne _ _ (by simp), put_ne _ _ (by simp), put_self])
    (by
      rintro i hi j hj hij l (rfl | rfl | ⟨x, hx, rfl⟩)
      · simp [hij]
      · simp [hij]
      · refine ⟨by simp, ?_⟩
        rintro (e | e | ⟨x', hx', e⟩)
        · cases e
        · cases e
        · cases e
          obtain ⟨hi', e1⟩ := List.getElem?_eq_some_iff.mp hx
          obtain ⟨hj', e2⟩ := List.getElem?_eq_some_iff.mp hx'
          exact hij ((List.Nodup.getElem_inj_iff (reducedNodes_nodup index st)).mp (e1.trans e2.symm)))
    (by
      intro k _ a b e hq x T hx hT
      obtain ⟨T', e1, e2⟩ := hq x T hx hT
      exact ⟨T', e1, (e (.table x) (.inr (.inr (.inr ⟨x, hx, rfl⟩)))).symm.trans e2⟩)
  refine ⟨m', h1, ?_⟩
  intro x T hT
  by_cases hm : index ∈ T.vars
  · obtain ⟨k, hk⟩ := List.mem_iff_getElem?.mp (mem_reducedNodes.mpr ⟨T, hT, hm⟩)
    rw [if_pos hm]
    exact h2 k (List.getElem?_eq_some_iff.mp hk).1 x T hk hT
  · rw [if_neg hm]
    refine ⟨T, rfl, ?_⟩
    rw [h3 (.table x), htab, hT]
    · rfl
    · rintro k hk (e | e | ⟨x', hx', e⟩)
      · cases e
      · cases e
      · cases e
        obtain ⟨T', hT', hm'⟩ := mem_reducedNodes.mp (List.mem_of_getElem? hx')
        rw [hT] at hT'
        cases hT'
        exact hm hm'

theorem loadVariableP_eq [Zero K] {p : Nat} (hp : 0 < p) {card : Nat → Nat} {index value : Nat} {st : JState K} (hst : StateWF card st)
    {clq sep : List (Table K)} (hc : reduceTables index value st.clq = .ok clq) (hs : reduceTables index value st.sep = .ok sep) :
    loadVariableP p index value st = Par.lift (.ok ⟨clq, sep⟩) := by
  have hok : ∀ x T, st.tableOf x = some T → index ∈ T.vars → ∃ T', tableReduction T index value = .ok T' := by
    intro x T hT hm
    cases x with
    | clq i =>
      obtain ⟨y, -, hy⟩ := (mapM_get hc).2 i T hT
      rw [if_pos hm] at hy
      exact ⟨y, hy⟩
    | sep i =>
      obtain ⟨y, -, hy⟩ := (mapM_get hs).2 i T hT
      rw [if_pos hm] at hy
      exact ⟨y, hy⟩
  obtain ⟨m1, a1, a2, a3⟩ := evidencePre_par (K := K) hp index st
  obtain ⟨m2, b1, b2, b3, b4, b5, b6⟩ := evidenceMain_par (K := K) hp hst a2 a3 (by
    intro k x T hx hT i hi
    obtain ⟨T0, hT0, hm⟩ := mem_reducedNodes.mp (List.mem_of_getElem? hx)
    rw [hT] at hT0
    cases hT0
    obtain ⟨T', hT'⟩ := hok x T hT hm
    obtain ⟨vi, hvi, -⟩ := bind_eq_ok hT'
    obtain ⟨v, -, hv⟩ := (mapM_get hvi).2 i i (List.getElem?_range hi)
    exact ⟨v, hv⟩)
  obtain ⟨m3, c1, c2⟩ := evidencePost_par (K := K) (value := value) hp (index := index) (st := st) (m := m2)
    (by
      intro k hk
      obtain ⟨x, T, hx, hT, hm⟩ := reducedNodes_get hk
      rw [b4, b5, (a2 k x T hx hT).1, (a2 k x T hx hT).2.1]
      simp)
    (by intro k x T hx hT; rw [b3]; exact (a2 k x T hx hT).2.2)
    b2 (by intro x; rw [b6]; exact a3 x) hok
  have d1 : (List.range st.clq.length).mapM (fun i => JMem.tab m3 (.table (.clq i))) = .ok clq := by
    refine mapM_of_get (by simpa using (mapM_get hc).1) ?_
    intro i x hx
    obtain ⟨hi, rfl⟩ := List.getElem?_eq_some_iff.mp hx
    simp only [List.length_range] at hi
    simp only [List.getElem_range]
    obtain ⟨T', e1, e2⟩ := c2 (.clq i) st.clq[i] (List.getElem?_eq_getElem hi)
    obtain ⟨y, hy, e3⟩ := (mapM_get hc).2 i st.clq[i] (List.getElem?_eq_getElem hi)
    rw [e1] at e3
    cases e3
    refine ⟨T', hy, ?_⟩
    simp only [JMem.tab, Mem.get, e2]
    rfl
  have d2 : (List.range st.sep.length).mapM (fun i => JMem.tab m3 (.table (.sep i))) = .ok sep := by
    refine mapM_of_get (by simpa using (mapM_get hs).1) ?_
    intro i x hx
    obtain ⟨hi, rfl⟩ := List.getElem?_eq_some_iff.mp hx
    simp only [List.length_range] at hi
    simp only [List.getElem_range]
    obtain ⟨T', e1, e2⟩ := c2 (.sep i) st.sep[i] (List.getElem?_eq_getElem hi)
    obtain ⟨y, hy, e3⟩ := (mapM_get hs).2 i st.sep[i] (List.getElem?_eq_getElem hi)
    rw [e1] at e3
    cases e3
    refine ⟨T', hy, ?_⟩
    simp only [JMem.tab, Mem.get, e2]
    rfl
  simp only [loadVariableP]
  rw [a1, Par.lift_bind, b1, Par.lift_bind, c1, Par.lift_bind, d1, Par.lift_bind, d2, Par.lift_bind]
  rfl

/-- Loading evidence never fails on a tree with well-formed tables, and the parallel version does the same. -/
theorem loadEvidenceP_eq [Zero K] {p : Nat} (hp : 0 < p) {card : Nat → Nat} {n : Nat} {E : List (Nat × Nat)} {st st' : JState K}
    (hst : StateWF card st) (h : loadEvidence n E st = .ok st') : loadEvidenceP p n E st = Par.lift (.ok st') ∧ StateWF card st' := by
  refine par_foldlM (StateWF card) ?_ hst h
  intro b hb e _ b' hf
  by_cases hn : n ≤ e.1
  · simp only [if_pos hn] at hf ⊢
    cases hf
    exact ⟨rfl, hb⟩
  · simp only [if_neg hn] at hf ⊢
    have hred := loadEvidence_redS (n := n) [e] hb
    simp only [loadEvidence, List.foldlM_cons, List.foldlM_nil, if_neg hn, List.foldl_cons, List.foldl_nil] at hred
    have hb' : StateWF card b' := by
      rw [hf] at hred
      rw [Except.ok.inj hred]
      exact redS_wf hb
    refine ⟨?_, hb'⟩
    obtain ⟨clq, h1, hf⟩ := bind_eq_ok hf
    obtain ⟨sep, h2, hf⟩ := bind_eq_ok hf
    cases hf
    exact loadVariableP_eq hp hb h1 h2

theorem propagateP_eq [Zero K] [Add K] [Mul K] [Div K] [DecidableEq K] {p : Nat} (hp : 0 < p) {card : Nat → Nat} {st st' : JState K}
    {T : JTShape} {L : Levels} {r : Nat} {lev : JNode → Nat} {par ch : Nat → Nat} (hL : Plan T L r lev par ch) {n : Nat} {E : List (Nat × Nat)}
    (hst : StateWF card st) (h : propagate L n E st = .ok st') : propagateP p L n E st = Par.lift (.ok st') := by
  obtain ⟨st1, h1, h⟩ := bind_eq_ok h
  obtain ⟨clq, h2, h⟩ := bind_eq_ok h
  obtain ⟨st2, h3, h⟩ := bind_eq_ok h
  obtain ⟨e1, w1⟩ := loadEvidenceP_eq hp hst h1
  have w2 : StateWF card ⟨clq, st1.sep⟩ := by
    refine ⟨fun X hX => ?_, w1.2⟩
    obtain ⟨i, hi⟩ := List.mem_iff_getElem?.mp hX
    obtain ⟨hl, hg⟩ := mapM_get h2
    have hlt : i < st1.clq.length := by rw [← hl]; exact (List.getElem?_eq_some_iff.mp hi).1
    obtain ⟨y, hy, hn⟩ := hg i _ (List.getElem?_eq_getElem hlt)
    rw [hi] at hy
    cases hy
    exact normalize_wf (w1.1 _ (List.getElem_mem hlt)) hn
  obtain ⟨e3, w3⟩ := collectP_eq hp hL w2 h3
  obtain ⟨e4, w4⟩ := distributeP_eq hp hL w3 h
  rw [propagateP, e1, Par.lift_bind, h2, Par.lift_bind, e3, Par.lift_bind, e4]

end FastPGM
