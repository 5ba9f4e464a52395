import Verif.Props.Irrelevant
import Verif.Props.Joint
import Mathlib.Tactic.FieldSimp
import Mathlib.Tactic.Ring

/-!
The answers to different queries belong to one distribution (C98).
-/

namespace FastPGM

open Spec

variable {K : Type}

theorem sumOut_finset [AddCommMonoid K] {card : Nat → Nat} (s : Finset Nat) (us : List Nat) (f : Nat → Assignment → K) (a : Assignment) :
    sumOut card us (fun b => ∑ x ∈ s, f x b) a = ∑ x ∈ s, sumOut card us (f x) a := by
  induction us generalizing a with
  | nil => rfl
  | cons u us ih =>
    simp only [sumOut]
    rw [Finset.sum_comm]
    exact Finset.sum_congr rfl (fun y _ => ih _)

section Field
variable [Field K] {card : Nat → Nat} {n : Nat}

/-- Only the meaning of an event matters. -/
theorem weight_iff {p : Assignment → K} {e e' : Assignment → Prop} [DecidablePred e] [DecidablePred e'] (h : ∀ a, e a ↔ e' a) :
    weight card n p e = weight card n p e' := by
  unfold weight
  congr 1
  funext a
  by_cases he : e a
  · rw [if_pos he, if_pos ((h a).1 he)]
  · rw [if_neg he, if_neg (fun h' => he ((h a).2 h'))]

/-- An event is divided by the values of a variable. -/
theorem weight_cases {p : Assignment → K} {e : Assignment → Prop} [DecidablePred e] {v : Nat} (hv : v < n) :
    ∑ x ∈ Finset.range (card v), weight card n p (fun a => e a ∧ a v = x) = weight card n p e := by
  unfold weight
  rw [← sumOut_finset]
  apply sumOut_congr
  intro b hb _
  have hlt : b v < card v := hb v (List.mem_range.2 hv)
  by_cases he : e b
  · rw [if_pos he, Finset.sum_eq_single (b v)]
    · rw [if_pos ⟨he, rfl⟩]
    · intro x _ hx
      rw [if_neg (fun h => hx h.2.symm)]
    · intro h
      exact absurd (Finset.mem_range.2 hlt) h
  · rw [if_neg he]
    exact Finset.sum_eq_zero (fun x _ => if_neg (fun h => he h.1))

/-- Conditional probabilities of two values are divided by the same number. -/
theorem posterior_chain {p : Assignment → K} {E : List (Nat × Nat)} {a b x y : Nat} (h : weight card n p (Agrees ((a, x) :: E)) ≠ 0) :
    posterior card n p E a x * posterior card n p ((a, x) :: E) b y =
      weight card n p (fun s => Agrees E s ∧ s a = x ∧ s b = y) / weight card n p (Agrees E) := by
  unfold posterior
  have h1 : weight card n p (fun s => Agrees E s ∧ s a = x) = weight card n p (Agrees ((a, x) :: E)) :=
    weight_iff (fun s => by simp [Agrees, and_comm])
  have h2 : weight card n p (fun s => Agrees ((a, x) :: E) s ∧ s b = y) = weight card n p (fun s => Agrees E s ∧ s a = x ∧ s b = y) :=
    weight_iff (fun s => by simp only [Agrees, List.forall_mem_cons]; tauto)
  rw [h1, h2]
  field_simp

end Field

variable [Field K] [LinearOrder K] [IsStrictOrderedRing K] {dims : List Nat} {ops : List EdgeOp} {N : Net}
  {order : List (Nat × Nat) → List (Nat × Nat)} {cord : Nat → List Nat} {card : Nat → Nat} {pts : List (Table K)}

/-- What a tree answers. -/
theorem answer_eq (hops : ∀ op ∈ ops, OpInRange dims.length op) (hN : (Net.empty dims).run ops = .ok N) (h0 : dims ≠ [])
    (hw : WeaklyConnected N) (horder : ∀ l, (order l).Perm l) (hcord : ∀ m, (cord m).Perm (List.range m)) (hpts : NodeTables card N pts)
    (hnn : ∀ T ∈ pts, ∀ x ∈ T.pot, 0 ≤ x) {J : JTree K} (hJ : buildJunctionTree N card pts order cord = .ok J) {E : List (Nat × Nat)}
    (hEn : (E.map Prod.fst).Nodup) (hE : ∀ e ∈ E, e.1 < dims.length)
    (hpos : weight card dims.length (joint pts) (Agrees E) ≠ 0) {q : Nat} (hq : q < dims.length) (hqE : q ∉ E.map Prod.fst) :
    ∃ T, J.marginal E q = .ok (T, J) ∧ T.pot.length = card q ∧
      ∀ x < card q, T.pot[x]? = some (posterior card dims.length (joint pts) E q x) := by
  obtain ⟨J', T, h1, h2, _, h3, h4⟩ := C42_posterior hops hN h0 hw horder hcord hpts hnn hEn hE hpos hq hqE
  rw [hJ] at h1
  cases h1
  exact ⟨T, h2, h3, h4⟩

/-- C98, Bayes' rule.  The answers for `a`, for `b`, for `b` after observing `a = x` and for `a` after observing `b = y` fit together. -/
theorem C98_bayes (hops : ∀ op ∈ ops, OpInRange dims.length op) (hN : (Net.empty dims).run ops = .ok N) (h0 : dims ≠ [])
    (hw : WeaklyConnected N) (horder : ∀ l, (order l).Perm l) (hcord : ∀ m, (cord m).Perm (List.range m)) (hpts : NodeTables card N pts)
    (hnn : ∀ T ∈ pts, ∀ x ∈ T.pot, 0 ≤ x) {J : JTree K} (hJ : buildJunctionTree N card pts order cord = .ok J) {E : List (Nat × Nat)}
    {a b x y : Nat} (hEn : ((a :: b :: E.map Prod.fst)).Nodup) (hE : ∀ e ∈ E, e.1 < dims.length) (ha : a < dims.length) (hb : b < dims.length)
    (hx : x < card a) (hy : y < card b) (hpa : weight card dims.length (joint pts) (Agrees ((a, x) :: E)) ≠ 0)
    (hpb : weight card dims.length (joint pts) (Agrees ((b, y) :: E)) ≠ 0) :
    ∃ Ta Tb Tba Tab pa pb pba pab, J.marginal E a = .ok (Ta, J) ∧ J.marginal E b = .ok (Tb, J) ∧ J.marginal ((a, x) :: E) b = .ok (Tba, J) ∧
      J.marginal ((b, y) :: E) a = .ok (Tab, J) ∧ Ta.pot[x]? = some pa ∧ Tb.pot[y]? = some pb ∧ Tba.pot[y]? = some pba ∧ Tab.pot[x]? = some pab ∧
      pa * pba = pb * pab := by
  have hp : weight card dims.length (joint pts) (Agrees E) ≠ 0 := by
    refine weight_part (F := [(a, x)]) hnn ?_
    rw [weight_iff (e' := Agrees ((a, x) :: E)) (fun s => by simp [Agrees, or_imp, forall_and, and_comm])]
    exact hpa
  simp only [List.nodup_cons, List.mem_cons, not_or] at hEn
  obtain ⟨⟨hab, haE⟩, hbE, hEn⟩ := hEn
  obtain ⟨Ta, q1, _, v1⟩ := answer_eq hops hN h0 hw horder hcord hpts hnn hJ hEn hE hp ha haE
  obtain ⟨Tb, q2, _, v2⟩ := answer_eq hops hN h0 hw horder hcord hpts hnn hJ hEn hE hp hb hbE
  obtain ⟨Tba, q3, _, v3⟩ := answer_eq hops hN h0 hw horder hcord hpts hnn hJ (E := (a, x) :: E) (List.nodup_cons.2 ⟨haE, hEn⟩)
    (List.forall_mem_cons.2 ⟨ha, hE⟩) hpa hb (by simpa [hbE] using fun h => hab h.symm)
  obtain ⟨Tab, q4, _, v4⟩ := answer_eq hops hN h0 hw horder hcord hpts hnn hJ (E := (b, y) :: E) (List.nodup_cons.2 ⟨hbE, hEn⟩)
    (List.forall_mem_cons.2 ⟨hb, hE⟩) hpb ha (by simpa [haE] using hab)
  refine ⟨Ta, Tb, Tba, Tab, _, _, _, _, q1, q2, q3, q4, v1 x hx, v2 y hy, v3 y hy, v4 x hx, ?_⟩
  rw [posterior_chain hpa, posterior_chain hpb]
  congr 1
  exact weight_iff (fun s => by tauto)

/-- C98, total probability.  The answer for `b` is the mean of its answers after observing the values of `a`, weighted with the answer for `a`. -/
theorem C98_total (hops : ∀ op ∈ ops, OpInRange dims.length op) (hN : (Net.empty dims).run ops = .ok N) (h0 : dims ≠ [])
    (hw : WeaklyConnected N) (horder : ∀ l, (order l).Perm l) (hcord : ∀ m, (cord m).Perm (List.range m)) (hpts : NodeTables card N pts)
    (hnn : ∀ T ∈ pts, ∀ x ∈ T.pot, 0 ≤ x) {J : JTree K} (hJ : buildJunctionTree N card pts order cord = .ok J) {E : List (Nat × Nat)}
    {a b : Nat} (hEn : ((a :: b :: E.map Prod.fst)).Nodup) (hE : ∀ e ∈ E, e.1 < dims.length) (ha : a < dims.length) (hb : b < dims.length)
    (hp : weight card dims.length (joint pts) (Agrees E) ≠ 0) :
    ∃ (Ta Tb : Table K) (Tx : Nat → Table K), J.marginal E a = .ok (Ta, J) ∧ J.marginal E b = .ok (Tb, J) ∧
      (∀ x < card a, Ta.pot[x]? ≠ some 0 → J.marginal ((a, x) :: E) b = .ok (Tx x, J)) ∧
      ∀ y < card b, Tb.pot[y]? = some (∑ x ∈ Finset.range (card a), Ta.pot.getD x 0 * (Tx x).pot.getD y 0) := by
  simp only [List.nodup_cons, List.mem_cons, not_or] at hEn
  obtain ⟨⟨hab, haE⟩, hbE, hEn⟩ := hEn
  obtain ⟨Ta, q1, _, v1⟩ := answer_eq hops hN h0 hw horder hcord hpts hnn hJ hEn hE hp ha haE
  obtain ⟨Tb, q2, _, v2⟩ := answer_eq hops hN h0 hw horder hcord hpts hnn hJ hEn hE hp hb hbE
  have h3 : ∀ x, ∃ T : Table K, weight card dims.length (joint pts) (Agrees ((a, x) :: E)) ≠ 0 → J.marginal ((a, x) :: E) b = .ok (T, J) ∧
      ∀ y < card b, T.pot[y]? = some (posterior card dims.length (joint pts) ((a, x) :: E) b y) := by
    intro x
    by_cases hpx : weight card dims.length (joint pts) (Agrees ((a, x) :: E)) = 0
    · exact ⟨Ta, fun h => absurd hpx h⟩
    · obtain ⟨T, q3, _, v3⟩ := answer_eq hops hN h0 hw horder hcord hpts hnn hJ (E := (a, x) :: E) (List.nodup_cons.2 ⟨haE, hEn⟩)
        (List.forall_mem_cons.2 ⟨ha, hE⟩) hpx hb (by simpa [hbE] using fun h => hab h.symm)
      exact ⟨T, fun _ => ⟨q3, v3⟩⟩
  choose Tx hTx using h3
  have hzero : ∀ x, weight card dims.length (joint pts) (Agrees ((a, x) :: E)) = 0 → posterior card dims.length (joint pts) E a x = 0 := by
    intro x h
    unfold posterior
    rw [weight_iff (e' := Agrees ((a, x) :: E)) (fun s => by simp [Agrees, and_comm]), h, zero_div]
  refine ⟨Ta, Tb, Tx, q1, q2, fun x hx hne => (hTx x (fun h => hne ?_)).1, fun y hy => ?_⟩
  · rw [v1 x hx, hzero x h]
  · rw [v2 y hy]
    congr 1
    have hterm : ∀ x ∈ Finset.range (card a), Ta.pot.getD x 0 * (Tx x).pot.getD y 0 =
        weight card dims.length (joint pts) (fun s => (Agrees E s ∧ s b = y) ∧ s a = x) / weight card dims.length (joint pts) (Agrees E) := by
      intro x hx
      rw [List.getD_eq_getElem?_getD, v1 x (Finset.mem_range.1 hx), Option.getD_some]
      by_cases hpx : weight card dims.length (joint pts) (Agrees ((a, x) :: E)) = 0
      · rw [hzero x hpx, zero_mul]
        have hle : weight card dims.length (joint pts) (fun s => (Agrees E s ∧ s b = y) ∧ s a = x) = 0 := by
          by_contra hne
          refine weight_part (E := (a, x) :: E) (F := [(b, y)]) hnn ?_ hpx
          rw [weight_iff (e' := fun s => (Agrees E s ∧ s b = y) ∧ s a = x) (fun s => by
            simp only [Agrees, List.cons_append, List.forall_mem_cons, List.forall_mem_append]; tauto)]
          exact hne
        rw [hle, zero_div]
      · rw [List.getD_eq_getElem?_getD, (hTx x hpx).2 y hy, Option.getD_some, posterior_chain hpx]
        congr 1
        exact weight_iff (fun s => by tauto)
    rw [Finset.sum_congr rfl hterm, ← Finset.sum_div, weight_cases ha]
    rfl

/-- C98, chain rule.  For an assignment of positive probability, asking for one node after the other, each time with the nodes before it
observed, gives numbers whose product is the product of the entries of the network's tables. -/
theorem C98_chain (hops : ∀ op ∈ ops, OpInRange dims.length op) (hN : (Net.empty dims).run ops = .ok N) (h0 : dims ≠ [])
    (hw : WeaklyConnected N) (horder : ∀ l, (order l).Perm l) (hcord : ∀ m, (cord m).Perm (List.range m)) (hpts : NodeTables card N pts)
    (hnn : ∀ T ∈ pts, ∀ x ∈ T.pot, 0 ≤ x) (hcond : ConditionalTables card pts) {J : JTree K}
    (hJ : buildJunctionTree N card pts order cord = .ok J) {s : Assignment} (hs : InRange card (List.range dims.length) s)
    (hp : joint pts s ≠ 0) :
    ∃ T : Nat → Table K, (∀ k < dims.length, J.marginal (observed s (List.range k).reverse) k = .ok (T k, J)) ∧
      ∏ k ∈ Finset.range dims.length, (T k).pot.getD (s k) 0 = joint pts s := by
  have hlen := (netInv_of_run hops hN).2
  have hdep : DependsOn (joint pts) (List.range dims.length) := by
    obtain ⟨_, _, _, _, _, _, _, _, _, hb⟩ := built_of_run (K := K) hops hN h0 hw horder hcord hpts
    rw [← hlen]
    exact hb.jdep
  have hfull : ∀ m, m = dims.length → weight card dims.length (joint pts) (Agrees (observed s (List.range m).reverse)) = joint pts s := by
    rintro m rfl
    rw [weight_agrees hdep (by simp [observed, Function.comp_def, List.nodup_range])
      (fun e he => by
        obtain ⟨v, hv, rfl⟩ := List.mem_map.1 he
        exact ⟨by simpa using hv, hs v (by simpa using hv)⟩) _ (fun _ => Iff.rfl) s]
    have he : unobs (observed s (List.range dims.length).reverse) (List.range dims.length) = [] := by
      unfold unobs
      rw [List.filter_eq_nil_iff]
      intro v hv
      simpa [observed] using hv
    rw [he]
    show joint pts (withEv _ s) = joint pts s
    congr 1
    funext v
    by_cases hv : v ∈ (observed s (List.range dims.length).reverse).map Prod.fst
    · obtain ⟨e, he, rfl⟩ := List.mem_map.1 hv
      rw [withEv_eq (by simp [observed, Function.comp_def, List.nodup_range]) he]
      obtain ⟨u, _, rfl⟩ := List.mem_map.1 he
      rfl
    · exact withEv_of_notMem hv s
  have hsplit : ∀ k ≤ dims.length, weight card dims.length (joint pts) (Agrees (observed s (List.range k).reverse)) ≠ 0 := by
    intro k hk
    refine weight_part (F := observed s (List.range dims.length)) hnn ?_
    rw [weight_iff (e' := Agrees (observed s (List.range dims.length).reverse)) (fun a => ?_), hfull _ rfl]
    · exact hp
    · simp only [Agrees, observed, List.forall_mem_append, List.forall_mem_map, List.mem_reverse, List.mem_range]
      exact ⟨fun h => h.2, fun h => ⟨fun v hv => h v (by omega), h⟩⟩
  have hans : ∀ k, ∃ T : Table K, k < dims.length → J.marginal (observed s (List.range k).reverse) k = .ok (T, J) ∧
      T.pot.getD (s k) 0 = posterior card dims.length (joint pts) (observed s (List.range k).reverse) k (s k) := by
    intro k
    by_cases hk : k < dims.length
    · obtain ⟨T, q, _, v⟩ := answer_eq hops hN h0 hw horder hcord hpts hnn hJ (E := observed s (List.range k).reverse)
        (by simp [observed, Function.comp_def, List.nodup_range])
        (fun e he => by obtain ⟨v, hv, rfl⟩ := List.mem_map.1 he; have : v < k := by simpa using hv
                        exact this.trans hk) (hsplit k hk.le) hk (by simp [observed])
      exact ⟨T, fun _ => ⟨q, by rw [List.getD_eq_getElem?_getD, v _ (hs k (List.mem_range.2 hk)), Option.getD_some]⟩⟩
    · exact ⟨⟨[], [], [], 0, []⟩, fun h => absurd h hk⟩
  choose T hT using hans
  refine ⟨T, fun k hk => (hT k hk).1, ?_⟩
  have hprod : ∀ m ≤ dims.length, ∏ k ∈ Finset.range m, (T k).pot.getD (s k) 0 =
      weight card dims.length (joint pts) (Agrees (observed s (List.range m).reverse)) / weight card dims.length (joint pts) (fun _ => True) := by
    intro m
    induction m with
    | zero =>
      intro _
      rw [Finset.prod_range_zero, weight_iff (e := Agrees (observed s (List.range 0).reverse)) (e' := fun _ => True) (fun a => by simp [Agrees, observed])]
      rw [C63_total hops hN hpts hcond, div_one]
    | succ m ih =>
      intro hm
      rw [Finset.prod_range_succ, ih (by omega), (hT m (by omega)).2]
      have h1 := hsplit m (by omega)
      unfold posterior
      rw [weight_iff (e := fun a => Agrees (observed s (List.range m).reverse) a ∧ a m = s m)
        (e' := Agrees (observed s (List.range (m + 1)).reverse)) (fun a => by
          simp only [Agrees, observed, List.forall_mem_map, List.mem_reverse, List.mem_range]
          refine ⟨fun h v hv => ?_, fun h => ⟨fun v hv => h v (by omega), h m (by omega)⟩⟩
          rcases Nat.lt_succ_iff_lt_or_eq.1 hv with hv | rfl
          · exact h.1 v hv
          · exact h.2)]
      field_simp
  rw [hprod _ le_rfl, hfull _ rfl, C63_total hops hN hpts hcond, div_one]

-- the evidence of the three theorems is possible in the diamond, and the assignment too
example : weight (fun _ => 2) 4 (joint diamondTables) (Agrees [(0, 1), (3, 1)]) ≠ 0 ∧ weight (fun _ => 2) 4 (joint diamondTables) (Agrees [(2, 1), (3, 1)]) ≠ 0 ∧
    joint diamondTables (fun v => if v = 2 then 0 else 1) ≠ 0 := by decide +kernel

-- Bayes' rule there: 0 = 1 and 2 = 1, given 3 = 1
example : (do
    let J ← diamondTree
    let pa := (← J.marginal [(3, 1)] 0).1.pot.getD 1 0
    let pb := (← J.marginal [(3, 1)] 2).1.pot.getD 1 0
    let pba := (← J.marginal [(0, 1), (3, 1)] 2).1.pot.getD 1 0
    let pab := (← J.marginal [(2, 1), (3, 1)] 0).1.pot.getD 1 0
    return (decide (pa * pba = pb * pab), decide (pa * pba ≠ 0), decide (pa ≠ pab))) = .ok (true, true, true) := by decide +kernel

end FastPGM
