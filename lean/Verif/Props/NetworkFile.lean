import Verif.Props.Params

/-!
Property C24: the numbers of a TABLE element of a network file.
-/

namespace FastPGM

open Spec

variable {K : Type}

theorem rank_snoc {ds cs : List Nat} (h : cs.length = ds.length) (d c : Nat) :
    rank (ds ++ [d]) (cs ++ [c]) = rank ds cs * d + c := by
  induction ds generalizing cs with
  | nil =>
    match cs, h with
    | [], _ => simp [rank]
  | cons e ds ih =>
    match cs, h with
    | b :: cs, h =>
      simp only [List.cons_append, rank]
      rw [ih (by simpa using h), List.prod_append]
      simp only [List.prod_cons, List.prod_nil, Nat.mul_one]
      ring

theorem counterVal_eq {c0 : Nat} {rs cs : List Nat} (h : cs.length = rs.length) :
    counterVal c0 rs cs = c0 * rs.prod + rank rs.reverse cs.reverse := by
  induction rs generalizing cs with
  | nil =>
    match cs, h with
    | [], _ => simp [counterVal, rank]
  | cons r rs ih =>
    match cs, h with
    | c :: cs, h =>
      rw [counterVal, ih (by simpa using h), List.reverse_cons, List.reverse_cons,
        rank_snoc (by simpa using h), List.prod_cons]
      ring

theorem sum_single {l : List (Nat × Config × Int)} {x : Nat} {u : Config} {k : Nat} {n : Int} (hk : l[k]? = some (x, u, n))
    (huniq : ∀ (j : Nat) c, l[j]? = some c → c.1 = x → c.2.1 = u → j = k) : countedFor l x u = n := by
  induction l generalizing k with
  | nil => simp at hk
  | cons c l ih =>
    have hF : countedFor (c :: l) x u = (if c.1 = x ∧ c.2.1 = u then c.2.2 else 0) + countedFor l x u := by
      unfold countedFor
      rw [List.filter_cons]
      by_cases e : c.1 = x ∧ c.2.1 = u <;> simp [e]
    rw [hF]
    cases k with
    | zero =>
      simp at hk
      subst hk
      have : countedFor l x u = 0 := by
        unfold countedFor
        rw [List.filter_eq_nil_iff.2]
        · rfl
        · intro d hd e
          simp only [decide_eq_true_eq] at e
          obtain ⟨j, hj⟩ := List.mem_iff_getElem?.1 hd
          have := huniq (j + 1) d (by simpa using hj) e.1 e.2
          omega
      simp [this]
    | succ k =>
      have hne : ¬ (c.1 = x ∧ c.2.1 = u) := by
        intro e
        have := huniq 0 c (by simp) e.1 e.2
        omega
      rw [if_neg hne, Int.zero_add]
      apply ih (k := k) (by simpa using hk)
      intro j d hj e1 e2
      have := huniq (j + 1) d (by simpa using hj) e1 e2
      omega

theorem assignTable_run {s : NodeS} {toCount : K → Int} {given : List Nat} (t : NodeStats)
    (l : List (List Nat × K)) (hl : ∀ ce ∈ l, ce.1 ≠ []) :
    l.foldlM (fun t ce => do
      let query ← rd ce.1 0
      return t.addCount s query (parentConfigOf given ce.1.tail) (toCount ce.2)) t =
    .ok (t.run s (l.map (fun ce => (ce.1.headD 0, parentConfigOf given ce.1.tail, toCount ce.2)))) := by
  induction l generalizing t with
  | nil => rfl
  | cons ce l ih =>
    obtain ⟨c, cs, hce⟩ := List.exists_cons_of_ne_nil (hl ce (by simp))
    rw [List.foldlM_cons]
    have : rd ce.1 0 = .ok (ce.1.headD 0) := by rw [hce]; rfl
    rw [this]
    simp only [ok_bind, pure_eq_ok]
    have := ih (t.addCount s (ce.1.headD 0) (parentConfigOf given ce.1.tail) (toCount ce.2)) (fun d hd => hl d (by simp [hd]))
    simp only [pure_eq_ok] at this
    rw [this]
    rfl

theorem configOf_inj {a b : Assignment} {l : List Nat} (h : configOf a l = configOf b l) : ∀ v ∈ l, a v = b v := by
  intro v hv
  have := List.map_inj_left.1 h v hv
  simpa using this

/-- A TABLE of the right length is accepted, and afterwards the count recorded for every value of the node and every values of
its parents is that of the number at `tablePosition`; the total of a parent configuration is the sum over the node's values. -/
theorem assignTable_spec {card : Nat → Nat} {N : Net} (hN : NetShape card N) {node : Nat} {s : NodeS}
    (hs : N.nodes[node]? = some s) {given : List Nat} (hg : ∀ p ∈ given, p < N.nodes.length) (hnd : given.Nodup)
    (hng : node ∉ given) (toCount : K → Int) {entries : List K}
    (hlen : entries.length = card node * (given.map card).prod) :
    ∃ t, assignTable N toCount node given entries NodeStats.new = .ok t ∧
      (∀ a, InRange card (node :: given) a → ∃ e, entries[tablePosition card node given a]? = some e ∧
        t.stat (a node) (configOf a (sortedSet given)) = toCount e) ∧
      (∀ u, t.total u = ∑ x ∈ Finset.range (card node), t.stat x u) ∧
      ∀ x u, (∀ a, InRange card (node :: given) a → ¬ (x = a node ∧ u = configOf a (sortedSet given))) → t.stat x u = 0 := by
  have hgd : given.mapM (fun v => do return (← N.find v).dim) = .ok (given.map card) := by
    apply mapM_ok
    intro v hv
    have := hg v hv
    unfold Net.find
    rw [List.getElem?_eq_getElem this]
    simp [(hN.dim v _ (List.getElem?_eq_getElem this)).1]
  have hgpos : ∀ r ∈ given.map card, 0 < r := by
    intro r hr
    obtain ⟨v, hv, rfl⟩ := List.mem_map.1 hr
    exact (hN.dim v _ (List.getElem?_eq_getElem (hg v hv))).2
  have hfind : N.find node = .ok s := by unfold Net.find; rw [hs]
  set rs := given.map card with hrs
  set counts := (List.range (card node * rs.prod)).map (fun k => (counterAt rs k).1 :: (counterAt rs k).2) with hcounts
  have hclen : counts.length = entries.length := by simp [hcounts, hlen]
  set calls := (List.zip counts entries).map (fun ce => (ce.1.headD 0, parentConfigOf given ce.1.tail, toCount ce.2)) with hcalls
  have hrun : assignTable N toCount node given entries NodeStats.new = .ok (NodeStats.new.run s calls) := by
    unfold assignTable
    rw [hfind, ok_bind, hgd, ok_bind, (hN.dim node s hs).1, naryCount_eq, ok_bind, if_neg (by simp [hlen])]
    apply assignTable_run
    intro ce hce
    have := (List.of_mem_zip hce).1
    obtain ⟨k, _, hk⟩ := List.mem_map.1 this
    rw [← hk]; simp
  -- the k-th call
  have hcall : ∀ (k : Nat) c, calls[k]? = some c → ∃ e, entries[k]? = some e ∧ k < card node * rs.prod ∧
      c = ((counterAt rs k).1, configOf (asgOf given (counterAt rs k).2) (sortedSet given), toCount e) := by
    intro k c hk
    rw [hcalls, List.getElem?_map, List.zip, List.getElem?_zipWith] at hk
    by_cases hkl : k < card node * rs.prod
    · have h1 : counts[k]? = some ((counterAt rs k).1 :: (counterAt rs k).2) := by
        simp [hcounts, hkl]
      have h2 : entries[k]? = some entries[k] := List.getElem?_eq_getElem (by omega)
      rw [h1, h2] at hk
      simp at hk
      refine ⟨entries[k], h2, hkl, ?_⟩
      rw [← hk]
      have h3 : (counterAt rs k).2 = given.map (asgOf given (counterAt rs k).2) :=
        (map_asgOf hnd (by rw [(counterAt_spec hgpos k).2.length_eq, hrs]; simp)).symm
      congr 2
      conv_lhs => rw [h3]
      exact parentConfigOf_map given _
    · have h1 : counts[k]? = none := by
        apply List.getElem?_eq_none
        simp [hcounts]; omega
      rw [h1] at hk
      simp at hk
  have hcount := fun x u => C23_counts s calls x u
  have hq : ∀ c ∈ calls, c.1 < card node := by
    intro c hc
    obtain ⟨k, hk⟩ := List.mem_iff_getElem?.1 hc
    obtain ⟨e, _, h2, rfl⟩ := hcall k c hk
    obtain ⟨h3, h4⟩ := counterAt_spec hgpos k
    exact (counterVal_lt h4).1 (by rw [h3]; exact h2)
  refine ⟨_, hrun, ?_, ?_, ?_⟩
  · intro a ha
    have hag : InRange card given a := fun v hv => ha v (by simp [hv])
    have hF : List.Forall₂ (· < ·) (given.map a) rs := cfgIn_map hag
    have hpos : tablePosition card node given a = counterVal (a node) rs (given.map a) := by
      rw [counterVal_eq (by simp [hrs])]
      unfold tablePosition
      rw [List.map_reverse, List.map_reverse]
    set k := tablePosition card node given a with hk
    have hklt : k < card node * rs.prod := by
      rw [hpos]; exact (counterVal_lt hF).2 (ha node (by simp))
    obtain ⟨e1, e2⟩ := counterAt_spec hgpos k
    obtain ⟨e3, e4⟩ := counterVal_inj e2 hF (by rw [e1, hpos])
    have hke : entries[k]? = some entries[k] := List.getElem?_eq_getElem (by omega)
    refine ⟨entries[k], hke, ?_⟩
    rw [(hcount _ _).1]
    have hex : ∃ c, calls[k]? = some c := by
      refine ⟨calls[k]'(by simp [hcalls, hclen]; omega), List.getElem?_eq_getElem _⟩
    obtain ⟨c, hc⟩ := hex
    obtain ⟨e, h5, _, h7⟩ := hcall k c hc
    rw [hke] at h5
    cases h5
    have hconf : configOf (asgOf given (counterAt rs k).2) (sortedSet given) = configOf a (sortedSet given) := by
      apply List.map_congr_left
      intro v hv
      have hv' := mem_sortedSet.1 hv
      rw [e4]
      have := List.map_inj_left.1 (map_asgOf hnd (config := given.map a) (by simp)) v hv'
      rw [this]
    rw [e3, hconf] at h7
    subst h7
    apply sum_single hc
    intro j d hj hd1 hd2
    obtain ⟨e', _, _, rfl⟩ := hcall j d hj
    simp only at hd1 hd2
    obtain ⟨f1, f2⟩ := counterAt_spec hgpos j
    have h8 : (counterAt rs j).2 = given.map a := by
      rw [← map_asgOf hnd (config := (counterAt rs j).2) (by rw [f2.length_eq, hrs]; simp)]
      apply List.map_congr_left
      intro v hv
      exact configOf_inj hd2 v (mem_sortedSet.2 hv)
    rw [← f1, hd1, h8, ← hpos]
  · intro u
    rw [(hcount 0 u).2, countedTotal_eq hq]
    exact Finset.sum_congr rfl (fun x _ => (hcount x u).1.symm)
  · intro x u hne
    rw [(hcount x u).1]
    unfold countedFor
    rw [List.filter_eq_nil_iff.2]
    · rfl
    · intro c hc e
      simp only [decide_eq_true_eq] at e
      obtain ⟨k, hk⟩ := List.mem_iff_getElem?.1 hc
      obtain ⟨e', _, h2, rfl⟩ := hcall k c hk
      simp only at e
      obtain ⟨f1, f2⟩ := counterAt_spec hgpos k
      have hl : (counterAt rs k).2.length = given.length := by rw [f2.length_eq, hrs]; simp
      apply hne ((asgOf given (counterAt rs k).2).set node (counterAt rs k).1)
      · intro v hv
        rcases List.mem_cons.1 hv with rfl | hv
        · simp only [Assignment.set, if_pos]
          exact (counterVal_lt f2).1 (by rw [f1]; exact h2)
        · have hvn : v ≠ node := fun e => hng (e ▸ hv)
          simp only [Assignment.set, if_neg hvn]
          have h9 : given.map (asgOf given (counterAt rs k).2) = (counterAt rs k).2 := map_asgOf hnd hl
          have hF : List.Forall₂ (· < ·) (given.map (asgOf given (counterAt rs k).2)) (given.map card) := by
            rw [h9]; exact f2
          rw [List.forall₂_map_left_iff, List.forall₂_map_right_iff, List.forall₂_same] at hF
          exact hF v hv
      · refine ⟨by simp [Assignment.set, e.1], ?_⟩
        rw [← e.2]
        apply List.map_congr_left
        intro v hv
        have hvn : v ≠ node := fun e => hng (e ▸ mem_sortedSet.1 hv)
        simp only [Assignment.set, if_neg hvn]

/-- C24.  A TABLE of the right length is accepted, and afterwards the count recorded for every value of the node and every values of
its parents (`ps`, in increasing order) is that of the number at `tablePosition`; the total of a parent configuration is the sum over the node's values. -/
theorem C24_assign {card : Nat → Nat} {N : Net} (hN : NetShape card N) {node : Nat} {s : NodeS}
    (hs : N.nodes[node]? = some s) {given : List Nat} (hg : ∀ p ∈ given, p < N.nodes.length) (hnd : given.Nodup)
    (hng : node ∉ given) {ps : List Nat} (hps : ps.Pairwise (· < ·)) (hmem : ∀ v, v ∈ ps ↔ v ∈ given) (toCount : K → Int) {entries : List K}
    (hlen : entries.length = card node * (given.map card).prod) :
    ∃ t, assignTable N toCount node given entries NodeStats.new = .ok t ∧
      (∀ a, InRange card (node :: given) a → ∃ e, entries[tablePosition card node given a]? = some e ∧
        t.stat (a node) (configOf a ps) = toCount e) ∧
      (∀ u, t.total u = ∑ x ∈ Finset.range (card node), t.stat x u) ∧
      ∀ x u, (∀ a, InRange card (node :: given) a → ¬ (x = a node ∧ u = configOf a ps)) → t.stat x u = 0 := by
  obtain rfl : ps = sortedSet given :=
    sorted_unique hps (sortedSet_sorted given) (fun v => (hmem v).trans mem_sortedSet.symm)
  exact assignTable_spec hN hs hg hnd hng toCount hlen


/-- C24.  Positions are a one-to-one correspondence between the numbers of the TABLE and the legal values of node and parents. -/
theorem C24_positions {card : Nat → Nat} {node : Nat} {given : List Nat} (hnd : given.Nodup) (hng : node ∉ given) :
    (∀ a, InRange card (node :: given) a → tablePosition card node given a < card node * (given.map card).prod) ∧
    (∀ a b, InRange card (node :: given) a → InRange card (node :: given) b →
      tablePosition card node given a = tablePosition card node given b → ∀ v ∈ node :: given, a v = b v) ∧
    ∀ k < card node * (given.map card).prod, ∃ a, InRange card (node :: given) a ∧ tablePosition card node given a = k := by
  have hprod : (given.reverse.map card).prod = (given.map card).prod := ((List.reverse_perm given).map card).prod_eq
  have key : ∀ a, tablePosition card node given a = rank ((node :: given.reverse).map card) ((node :: given.reverse).map a) := by
    intro a
    simp only [tablePosition, List.map_cons, rank, hprod]
  have hin : ∀ a, InRange card (node :: given) a → InRange card (node :: given.reverse) a := by
    intro a ha v hv
    apply ha
    rcases List.mem_cons.1 hv with h | h
    · simp [h]
    · simp [List.mem_reverse.1 h]
  refine ⟨fun a ha => ?_, fun a b ha hb e => ?_, fun k hk => ?_⟩
  · rw [key]
    have := rank_lt (cfgIn_map (hin a ha))
    simpa [hprod] using this
  · rw [key, key] at e
    have h1 := rank_inj (cfgIn_map (hin a ha)) (cfgIn_map (hin b hb)) e
    intro v hv
    refine List.map_inj_left.1 h1 v ?_
    rcases List.mem_cons.1 hv with h | h
    · simp [h]
    · simp [h]
  · have hk' : k < ((node :: given.reverse).map card).prod := by simpa [hprod] using hk
    refine ⟨asgOf (node :: given.reverse) (digits ((node :: given.reverse).map card) k), ?_, ?_⟩
    · intro v hv
      apply asgOf_lt hk'
      rcases List.mem_cons.1 hv with h | h
      · simp [h]
      · simp [h]
    · rw [key, map_asgOf (by simp [hnd, hng]) (by simp), rank_digits hk']

/-- C24.  A TABLE of any other length makes the loader exit. -/
theorem C24_wrong_length {card : Nat → Nat} {N : Net} (hN : NetShape card N) {node : Nat} {s : NodeS}
    (hs : N.nodes[node]? = some s) {given : List Nat} (hg : ∀ p ∈ given, p < N.nodes.length)
    (toCount : K → Int) {entries : List K} (hlen : entries.length ≠ card node * (given.map card).prod) (t : NodeStats) :
    assignTable N toCount node given entries t = .error .exit := by
  have hgd : given.mapM (fun v => do return (← N.find v).dim) = .ok (given.map card) := by
    apply mapM_ok
    intro v hv
    have := hg v hv
    unfold Net.find
    rw [List.getElem?_eq_getElem this]
    simp [(hN.dim v _ (List.getElem?_eq_getElem this)).1]
  have hfind : N.find node = .ok s := by unfold Net.find; rw [hs]
  unfold assignTable
  rw [hfind, ok_bind, hgd, ok_bind, (hN.dim node s hs).1, naryCount_eq, ok_bind, if_pos (by simpa using hlen.symm)]

/-- Node 2 (two values) given 1 (three values) and 0 (two values), in this order: the twelve numbers reach twelve cells. -/
example : ((Net.empty [2, 3, 2]).run [.addDirected 1 2, .addDirected 0 2] >>= fun N =>
    (assignTable N (fun n : Nat => (n : Int)) 2 [1, 0] [10, 11, 12, 13, 14, 15, 16, 17, 18, 19, 20, 21] NodeStats.new).map
      (fun t => ((t.stat 0 [(0, 0), (1, 0)], t.stat 0 [(0, 0), (1, 1)], t.stat 0 [(0, 1), (1, 0)]),
        t.stat 1 [(0, 0), (1, 0)], t.stat 1 [(0, 1), (1, 2)], t.total [(0, 0), (1, 1)]))) =
    .ok ((10, 11, 13), 16, 21, 11 + 17) := by decide

example : InRange (fun v => [2, 3, 2].getD v 0) (2 :: [1, 0]) (fun v => v % 2) ∧
    tablePosition (fun v => [2, 3, 2].getD v 0) 2 [1, 0] (fun v => [1, 2, 0].getD v 0) = 0 * 6 + (1 * 3 + 2) := by
  refine ⟨?_, by decide⟩
  unfold InRange
  decide

end FastPGM
