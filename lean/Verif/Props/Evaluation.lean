import Verif.Spec.Evaluation
import Verif.Props.JunctionTreeInference
import Verif.Props.Joint
import Verif.Lemmas.Dataset4
import Verif.Model.Parameter
import Mathlib.Analysis.Real.Sqrt
import Mathlib.Algebra.Order.Floor.Ring
import Mathlib.Data.Rat.Floor

/-!
C66: the probabilities of all nodes given the evidence.  C67: the error measures.  C68: the file of reference distributions.  C69: the
evaluation against a file of reference distributions.
-/

namespace FastPGM

open Spec

variable {K : Type}

/-! ### C66 -/

/-- Writing one after the other. -/
theorem writeAll {A ps : List K} : ∀ (m : Nat) {R : List K}, ps.length = m → m ≤ R.length →
    (List.range m).foldlM (fun (pl : List K × Nat) j => do
      let p ← rd ps j
      let probs ← wr pl.1 pl.2 p
      return (probs, pl.2 + 1)) (A ++ R, A.length) = .ok (A ++ ps ++ R.drop m, A.length + m) := by
  intro m R hm hR
  have key : ∀ k ≤ m, (List.range k).foldlM (fun (pl : List K × Nat) j => do
      let p ← rd ps j
      let probs ← wr pl.1 pl.2 p
      return (probs, pl.2 + 1)) (A ++ R, A.length) = .ok (A ++ ps.take k ++ R.drop k, A.length + k) := by
    intro k
    induction k with
    | zero => intro _; simp [pure_eq_ok]
    | succ k ih =>
      intro hk
      rw [List.range_succ, List.foldlM_append, ih (by omega)]
      have hget : ps[k]? = some ps[k] := List.getElem?_eq_getElem (by omega)
      simp only [List.foldlM_cons, List.foldlM_nil, ok_bind, rd_ok hget, pure_eq_ok]
      rw [wr_ok (by simp; omega)]
      simp only [ok_bind]
      congr 2
      · have h1 : (A ++ ps.take k).length = A.length + k := by simp; omega
        rw [List.set_append_right _ _ (by omega), h1, Nat.sub_self]
        have h2 : R.drop k = R[k] :: R.drop (k + 1) := by simp
        rw [h2, List.set_cons_zero]
        have h3 : ps.take (k + 1) = ps.take k ++ [ps[k]] := by simp
        rw [h3]
        simp only [List.append_assoc, List.singleton_append]
  have := key m le_rfl
  rwa [List.take_of_length_le (by omega)] at this

section posterior

variable [Field K] [LinearOrder K] [IsStrictOrderedRing K]

/-- The part of the loop for a node without evidence. -/
theorem nodePart {card : Nat → Nat} {st : JState K} {q : Nat} {f : Nat → K}
    (h : marginalProbability card st q = .ok (fromFn card [q] (fun a => f (a q)))) (hsum : ∑ x ∈ Finset.range (card q), f x = 1) :
    ∃ T, selectClique st.clq q = some T ∧
      (do let T ← (if 1 < T.vars.length then tableMarginalization T [q] [card q] else .ok T); normalize T) =
        .ok (fromFn card [q] (fun a => f (a q))) := by
  unfold marginalProbability at h
  cases hs : selectClique st.clq q with
  | none => rw [hs] at h; cases h
  | some T =>
    rw [hs] at h
    refine ⟨T, rfl, ?_⟩
    simp only at h
    obtain ⟨_, hq⟩ := selectClique_some hs
    have hpos : 0 < T.vars.length := List.length_pos_iff.2 (List.ne_nil_of_mem hq)
    by_cases h1 : T.vars.length = 1
    · rw [if_pos h1] at h
      cases h
      rw [if_neg (by omega), ok_bind]
      have hs1 : sumOut card [q] (fun a => f (a q)) (fun _ => 0) = 1 := by
        rw [← hsum]
        simp [sumOut, Assignment.set]
      rw [normalize_fromFn (by simp) (by intro a b hab; simp [hab q (by simp)]) (fun _ => 0) (by rw [hs1]; exact one_ne_zero), hs1]
      simp
    · rw [if_neg h1] at h
      rw [if_pos (by omega)]
      exact h

variable {dims : List Nat} {ops : List EdgeOp} {N : Net} {order : List (Nat × Nat) → List (Nat × Nat)} {cord : Nat → List Nat} {card : Nat → Nat}
  {pts : List (Table K)}

/-- C66: for evidence of positive probability, the list of `GetProbabilitiesAllNodes` holds, node after node, the conditional distribution of
the node given the evidence, and for an observed node one number -1; the rest is filled with -1. -/
theorem C66_probabilities (hops : ∀ op ∈ ops, OpInRange dims.length op) (hN : (Net.empty dims).run ops = .ok N) (h0 : dims ≠ [])
    (hw : WeaklyConnected N) (horder : ∀ l, (order l).Perm l) (hcord : ∀ m, (cord m).Perm (List.range m)) (hpts : NodeTables card N pts)
    (hnn : ∀ T ∈ pts, ∀ x ∈ T.pot, 0 ≤ x) {E : List (Nat × Nat)} (hEn : (E.map Prod.fst).Nodup) (hE : ∀ e ∈ E, e.1 < dims.length)
    (hpos : weight card dims.length (joint pts) (Agrees E) ≠ 0) :
    ∃ J k, buildJunctionTree N card pts order cord = .ok J ∧
      J.probabilities E = .ok (packed dims.length card (E.map Prod.fst) (posterior card dims.length (joint pts) E) ++ List.replicate k (-1), J) ∧
      (packed dims.length card (E.map Prod.fst) (posterior card dims.length (joint pts) E)).length + k = ((List.range dims.length).map card).sum := by
  obtain ⟨hinv, hlen⟩ := netInv_of_run hops hN
  obtain ⟨J, T, L, r, lev, par, ch, F, h1, hb⟩ := built_of_run (K := K) hops hN h0 hw horder hcord hpts
  rw [← hlen] at hE hpos ⊢
  have hcard := (nodeTables_facts hpts).1
  obtain ⟨st, e1, h2, _⟩ := hb.marginal hinv hcard hnn hEn hE hpos
  generalize hpost : posterior card N.nodes.length (joint pts) E = post at h2 ⊢
  generalize hn : N.nodes.length = n at *
  have hJn : J.n = n := by rw [← hn]; exact hb.n
  have hlenp : ∀ k ≤ n, (packed k card (E.map Prod.fst) post).length ≤ ((List.range k).map card).sum := by
    intro k
    induction k with
    | zero => intro _; simp [packed]
    | succ k ih =>
      intro hk
      have := ih (by omega)
      unfold packed at this ⊢
      rw [List.range_succ, List.flatMap_append, List.length_append, List.map_append, List.sum_append]
      simp only [List.flatMap_cons, List.flatMap_nil, List.append_nil, List.map_cons, List.map_nil, List.sum_cons, List.sum_nil, add_zero]
      have hc : 1 ≤ card k := hcard k (by omega)
      split
      · simp only [List.length_singleton]; omega
      · simp only [List.length_map, List.length_range]; omega
  have key : ∀ k ≤ n, (List.range k).foldlM (fun (pl : List K × Nat) i => (do
      if E.any (fun e => e.1 = i) then return (pl.1, pl.2 + 1)
      else
        match selectClique st.clq i with
        | none => .error .exit
        | some T => do
          let T ← (if 1 < T.vars.length then tableMarginalization T [i] [card i] else .ok T)
          let T ← normalize T
          (List.range T.size).foldlM (fun (pl : List K × Nat) j => do
            let p ← rd T.pot j
            let probs ← wr pl.1 pl.2 p
            return (probs, pl.2 + 1)) pl : Except Fault (List K × Nat))) (List.replicate (((List.range n).map card).sum) (-1), 0) =
      .ok (packed k card (E.map Prod.fst) post ++
        List.replicate (((List.range n).map card).sum - (packed k card (E.map Prod.fst) post).length) (-1), (packed k card (E.map Prod.fst) post).length) := by
    intro k
    induction k with
    | zero => intro _; simp [packed, pure_eq_ok]
    | succ k ih =>
      intro hk
      have hroom : (packed (k + 1) card (E.map Prod.fst) post).length ≤ ((List.range n).map card).sum := by
        refine (hlenp (k + 1) hk).trans ?_
        have : List.range n = List.range (k + 1) ++ (List.range (n - (k + 1))).map (k + 1 + ·) := by
          rw [← List.range_add]; congr 1; omega
        rw [this, List.map_append, List.sum_append]
        omega
      have hp : packed (k + 1) card (E.map Prod.fst) post = packed k card (E.map Prod.fst) post ++
          if k ∈ E.map Prod.fst then [-1] else (List.range (card k)).map (post k) := by
        unfold packed
        rw [List.range_succ, List.flatMap_append]
        simp
      rw [hp, List.length_append] at hroom
      rw [List.range_succ, List.foldlM_append, ih (by omega), hp]
      simp only [List.foldlM_cons, List.foldlM_nil, ok_bind]
      by_cases hkE : k ∈ E.map Prod.fst
      · have hany : E.any (fun e => e.1 = k) = true := by
          rw [List.any_eq_true]
          obtain ⟨e, he, rfl⟩ := List.mem_map.1 hkE
          exact ⟨e, he, by simp⟩
        rw [if_pos hkE] at hroom ⊢
        rw [if_pos hany]
        simp only [ok_bind, pure_eq_ok, List.length_append, List.length_singleton, List.append_assoc, List.singleton_append] at hroom ⊢
        congr 3
        rw [← List.replicate_succ]
        congr 1
        omega
      · have hany : ¬ E.any (fun e => e.1 = k) = true := by
          rw [List.any_eq_true]
          rintro ⟨e, he, h⟩
          exact hkE (List.mem_map.2 ⟨e, he, by simpa using h⟩)
        rw [if_neg hkE] at hroom ⊢
        rw [if_neg hany]
        obtain ⟨T', hT1, hT2⟩ := nodePart (card := card) (st := st) (f := post k) (by have := (h2 k (by omega) hkE).1; rwa [hb.hcard] at this) (h2 k (by omega) hkE).2
        rw [hT1]
        obtain ⟨M, hM1, hM2⟩ := bind_eq_ok hT2
        simp only
        rw [hM1, ok_bind, hM2, ok_bind]
        have hpot : (fromFn card [k] (fun a => post k (a k))).pot = (List.range (card k)).map (post k) := by
          simp only [fromFn]
          apply List.ext_getElem?
          intro j
          rw [tab_get?]
          by_cases hj : j < card k
          · rw [if_pos (by simpa using hj)]
            simp [hj, asgOf_single hj]
          · rw [if_neg (by simpa using hj)]
            simp [hj]
        have hsize : (fromFn card [k] (fun a => post k (a k))).size = card k := by simp [fromFn]
        rw [hpot, hsize]
        simp only [List.length_map, List.length_range] at hroom
        rw [writeAll (card k) (by simp) (by simp; omega)]
        simp only [ok_bind, pure_eq_ok, List.drop_replicate, List.length_append, List.length_map, List.length_range]
        congr 3
        congr 1
        omega
  refine ⟨J, _, h1, ?_, Nat.add_sub_cancel' (hlenp n le_rfl)⟩
  unfold JTree.probabilities
  rw [e1, ok_bind]
  have e2 : probabilitiesAllNodes n card E st = .ok (packed n card (E.map Prod.fst) post ++
      List.replicate (((List.range n).map card).sum - (packed n card (E.map Prod.fst) post).length) (-1)) := by
    unfold probabilitiesAllNodes
    exact congrArg (fun z : Except Fault (List K × Nat) => z >>= fun x => pure x.1) (key n le_rfl)
  rw [hJn, hb.hcard, e2, ok_bind]
  have := hb.reset st
  rw [hJn, hb.hcard] at this
  rw [this]
  rfl

end posterior

/-! ### C67: the error measures -/

section measures

variable [Field K] [LinearOrder K]

omit [LinearOrder K] in
theorem foldl_mul10 (bits : Nat) (x : K) : (List.range bits).foldl (fun x _ => x * 10) x = x * 10 ^ bits := by
  induction bits with
  | zero => simp
  | succ n ih => rw [List.range_succ, List.foldl_append, ih]; simp [pow_succ, mul_assoc]

omit [LinearOrder K] in
theorem foldl_div10 (bits : Nat) (x : K) : (List.range bits).foldl (fun x _ => x / 10) x = x / 10 ^ bits := by
  induction bits with
  | zero => simp
  | succ n ih => rw [List.range_succ, List.foldl_append, ih]; simp [pow_succ, div_div]

variable [IsStrictOrderedRing K]

/-- The number of the digits kept. -/
theorem roundTo_eq {trunc : K → Int} (ht : CutsOff trunc) {x : K} (hx : 0 ≤ x) (bits : Nat) :
    ∃ k : Int, roundTo trunc x bits = (k : K) / 10 ^ bits ∧ 0 ≤ k ∧ (k : K) ≤ x * 10 ^ bits + 1 / 2 ∧ x * 10 ^ bits + 1 / 2 < (k : K) + 1 := by
  obtain ⟨h1, h2, h3⟩ := ht x hx
  have hp : (0 : K) < 10 ^ bits := by positivity
  have hf : (0 : K) ≤ (x - (trunc x : K)) * 10 ^ bits + 1 / 2 := by
    have : 0 ≤ (x - (trunc x : K)) * 10 ^ bits := mul_nonneg (by linarith) hp.le
    linarith
  obtain ⟨g1, g2, g3⟩ := ht _ hf
  refine ⟨trunc x * 10 ^ bits + trunc ((x - (trunc x : K)) * 10 ^ bits + 1 / 2), ?_, ?_, ?_, ?_⟩
  · unfold roundTo
    simp only [foldl_mul10, foldl_div10]
    push_cast
    rw [add_div, mul_div_assoc, div_self hp.ne', mul_one]
  · positivity
  · push_cast
    have : (x - (trunc x : K)) * 10 ^ bits = x * 10 ^ bits - (trunc x : K) * 10 ^ bits := sub_mul _ _ _
    linarith
  · push_cast
    have : (x - (trunc x : K)) * 10 ^ bits = x * 10 ^ bits - (trunc x : K) * 10 ^ bits := sub_mul _ _ _
    linarith

/-- C67: `Round` of a number that is not negative is the nearest multiple of `10 ^ -bits` (a half is rounded up). -/
theorem C67_round {trunc : K → Int} (ht : CutsOff trunc) {x : K} (hx : 0 ≤ x) (bits : Nat) :
    0 ≤ roundTo trunc x bits ∧ (∃ k : Int, roundTo trunc x bits = (k : K) / 10 ^ bits) ∧
      x - 1 / (2 * 10 ^ bits) < roundTo trunc x bits ∧ roundTo trunc x bits ≤ x + 1 / (2 * 10 ^ bits) := by
  obtain ⟨k, h1, h2, h3, h4⟩ := roundTo_eq ht hx bits
  have hp : (0 : K) < 10 ^ bits := by positivity
  have hk : (0 : K) ≤ (k : K) := by exact_mod_cast h2
  have e : (1 : K) / (2 * 10 ^ bits) = (1 / 2) / 10 ^ bits := by rw [div_div]
  have ex : x = (x * 10 ^ bits) / 10 ^ bits := by rw [mul_div_assoc, div_self hp.ne', mul_one]
  refine ⟨by rw [h1]; positivity, ⟨k, h1⟩, ?_, ?_⟩
  · rw [h1, e]
    have : x - 1 / 2 / 10 ^ bits = (x * 10 ^ bits - 1 / 2) / 10 ^ bits := by rw [sub_div, ← ex]
    rw [this]
    apply div_lt_div_of_pos_right _ hp
    linarith
  · rw [h1, e]
    have : x + 1 / 2 / 10 ^ bits = (x * 10 ^ bits + 1 / 2) / 10 ^ bits := by rw [add_div, ← ex]
    rw [this]
    exact div_le_div_of_nonneg_right h3 hp.le

/-- C67: a number with so many digits is not changed. -/
theorem C67_round_fixed {trunc : K → Int} (ht : CutsOff trunc) {k : Int} (hk : 0 ≤ k) (bits : Nat) :
    roundTo trunc ((k : K) / 10 ^ bits) bits = (k : K) / 10 ^ bits := by
  have hp : (0 : K) < 10 ^ bits := by positivity
  have hk' : (0 : K) ≤ (k : K) := by exact_mod_cast hk
  obtain ⟨j, h1, h2, h3, h4⟩ := roundTo_eq ht (x := (k : K) / 10 ^ bits) (by positivity) bits
  rw [h1]
  rw [div_mul_cancel₀ _ hp.ne'] at h3 h4
  have a1 : (j : K) < ((k + 1 : Int) : K) := by push_cast; linarith
  have a2 : ((k - 1 : Int) : K) < (j : K) := by push_cast; linarith
  have b1 : j < k + 1 := by exact_mod_cast a1
  have b2 : k - 1 < j := by exact_mod_cast a2
  have : j = k := by omega
  rw [this]

omit [IsStrictOrderedRing K] in
theorem errorLoop (F : K → K → K) (ok : K → Prop) [DecidablePred ok] (exact approx : List K) (hlen : exact.length ≤ approx.length)
    (hok : ∀ p ∈ approx.zip exact, 0 < p.2 → ok p.1) :
    (List.range exact.length).foldlM (fun (acc : Nat × K) i => do
      let e ← rd exact i
      if 0 < e then do
        let a ← rd approx i
        if ok a then return (acc.1 + 1, acc.2 + F a e) else .error .nan
      else return acc) ((0, 0) : Nat × K) =
      .ok (((approx.zip exact).filter (fun p => 0 < p.2)).length, (((approx.zip exact).filter (fun p => 0 < p.2)).map (fun p => F p.1 p.2)).sum) := by
  have key : ∀ k ≤ exact.length, (List.range k).foldlM (fun (acc : Nat × K) i => do
      let e ← rd exact i
      if 0 < e then do
        let a ← rd approx i
        if ok a then return (acc.1 + 1, acc.2 + F a e) else .error .nan
      else return acc) ((0, 0) : Nat × K) =
      .ok ((((approx.zip exact).take k).filter (fun p => 0 < p.2)).length,
        ((((approx.zip exact).take k).filter (fun p => 0 < p.2)).map (fun p => F p.1 p.2)).sum) := by
    intro k
    induction k with
    | zero => intro _; rfl
    | succ k ih =>
      intro hk
      have he : exact[k]? = some exact[k] := List.getElem?_eq_getElem (by omega)
      have ha : approx[k]? = some approx[k] := List.getElem?_eq_getElem (by omega)
      have hz : (approx.zip exact)[k]? = some (approx[k], exact[k]) := List.getElem?_zip_eq_some (z := (approx[k], exact[k])) |>.2 ⟨ha, he⟩
      rw [List.range_succ, List.foldlM_append, ih (by omega), List.take_add_one, hz]
      simp only [List.foldlM_cons, List.foldlM_nil, ok_bind, rd_ok he, rd_ok ha, pure_eq_ok, Option.toList_some, List.filter_append]
      by_cases hp : 0 < exact[k]
      · have := hok _ (List.mem_of_getElem? hz) hp
        simp only at this
        simp [hp, this, ok_bind]
      · simp [hp, ok_bind]
  have := key exact.length le_rfl
  rwa [List.take_of_length_le (by simp)] at this

omit [IsStrictOrderedRing K] in
theorem counted_empty (exact approx : List K) (hlen : exact.length ≤ approx.length) :
    ((approx.zip exact).filter (fun p => 0 < p.2)).length = 0 ↔ ¬ ∃ e ∈ exact, 0 < e := by
  rw [List.length_eq_zero_iff, List.filter_eq_nil_iff]
  constructor
  · rintro h ⟨e, he, hp⟩
    obtain ⟨k, hk⟩ := List.getElem?_of_mem he
    have hk2 := (List.getElem?_eq_some_iff.1 hk).1
    have hz : (approx.zip exact)[k]? = some (approx[k], e) := List.getElem?_zip_eq_some (z := (approx[k], e)) |>.2 ⟨List.getElem?_eq_getElem (by omega), hk⟩
    exact h _ (List.mem_of_getElem? hz) (by simpa using hp)
  · intro h p hp hp2
    exact h ⟨p.2, (List.of_mem_zip hp).2, by simpa using hp2⟩

omit [IsStrictOrderedRing K] in
/-- C67: the mean square error is the root of the mean of the squared differences to the approximate probabilities, rounded to seven digits,
over the places with an exact probability greater than 0; with no such place it is not a number. -/
theorem C67_mse (trunc : K → Int) (sqrt : K → K) {exact approx : List K} (hlen : exact.length ≤ approx.length) :
    calculateMSE trunc sqrt exact approx =
      (if ∃ e ∈ exact, 0 < e then
        .ok (rms sqrt (((approx.zip exact).filter (fun p => 0 < p.2)).map (fun p => roundTo trunc p.1 7 - p.2)))
      else .error .nan) := by
  have h := errorLoop (fun a e => (roundTo trunc a 7 - e) * (roundTo trunc a 7 - e)) (fun _ => True) exact approx hlen (fun _ _ _ => trivial)
  unfold calculateMSE
  simp only [if_true] at h
  rw [h, ok_bind]
  simp only
  by_cases hex : ∃ e ∈ exact, 0 < e
  · rw [if_pos hex, if_neg (fun h => (counted_empty _ _ hlen).1 h hex)]
    simp [rms, pure_eq_ok, Function.comp_def]
  · rw [if_neg hex, if_pos ((counted_empty _ _ hlen).2 hex)]

/-- C67: the Hellinger measure is the root of the mean of the squared differences of the roots, over the same places. -/
theorem C67_hellinger {trunc : K → Int} (ht : CutsOff trunc) (sqrt : K → K) {exact approx : List K} (hlen : exact.length ≤ approx.length)
    (hnn : ∀ p ∈ approx.zip exact, 0 < p.2 → 0 ≤ p.1) :
    calculateHellinger trunc sqrt exact approx =
      (if ∃ e ∈ exact, 0 < e then
        .ok (rms sqrt (((approx.zip exact).filter (fun p => 0 < p.2)).map (fun p => sqrt (roundTo trunc p.1 7) - sqrt p.2)))
      else .error .nan) := by
  have h := errorLoop (fun a e => (sqrt (roundTo trunc a 7) - sqrt e) * (sqrt (roundTo trunc a 7) - sqrt e)) (fun a => ¬ roundTo trunc a 7 < 0)
    exact approx hlen (fun p hp h0 => not_lt.2 (C67_round ht (hnn p hp h0) 7).1)
  unfold calculateHellinger
  simp only [ite_not] at h
  rw [h, ok_bind]
  simp only
  by_cases hex : ∃ e ∈ exact, 0 < e
  · rw [if_pos hex, if_neg (fun h => (counted_empty _ _ hlen).1 h hex)]
    simp [rms, pure_eq_ok, Function.comp_def]
  · rw [if_neg hex, if_pos ((counted_empty _ _ hlen).2 hex)]

theorem sum_nonneg_zero : ∀ {l : List K}, (∀ d ∈ l, 0 ≤ d) → (0 ≤ l.sum ∧ (l.sum = 0 ↔ ∀ d ∈ l, d = 0))
  | [], _ => by simp
  | a :: l, h => by
    obtain ⟨h1, h2⟩ := sum_nonneg_zero (l := l) (fun d hd => h d (by simp [hd]))
    have ha := h a (by simp)
    rw [List.sum_cons]
    refine ⟨by linarith, ?_⟩
    simp only [List.mem_cons, forall_eq_or_imp, ← h2]
    constructor
    · intro e; constructor <;> linarith
    · rintro ⟨rfl, e⟩; rw [e, add_zero]

/-- The root of the mean square of a list that is not empty is 0 exactly if all its numbers are. -/
theorem rms_zero {sqrt : K → K} (hs : IsSqrt sqrt) {l : List K} : 0 ≤ rms sqrt l ∧ (rms sqrt l = 0 ↔ ∀ d ∈ l, d = 0) := by
  obtain ⟨h1, h2⟩ := sum_nonneg_zero (l := l.map (fun d => d * d)) (by
    intro d hd
    obtain ⟨x, _, rfl⟩ := List.mem_map.1 hd
    exact mul_self_nonneg x)
  have hq : 0 ≤ (l.map (fun d => d * d)).sum / (l.length : K) := div_nonneg h1 (Nat.cast_nonneg _)
  obtain ⟨g1, g2⟩ := hs _ hq
  refine ⟨g1, ?_⟩
  unfold rms
  constructor
  · intro e d hd
    rw [e, mul_zero] at g2
    have hne : (l.length : K) ≠ 0 := Nat.cast_ne_zero.2 (List.length_pos_iff.2 (List.ne_nil_of_mem hd)).ne'
    have := (div_eq_zero_iff.1 g2.symm).resolve_right hne
    exact mul_self_eq_zero.1 (h2.1 this _ (List.mem_map.2 ⟨d, hd, rfl⟩))
  · intro h
    rw [h2.2 (by
      intro d hd
      obtain ⟨x, hx, rfl⟩ := List.mem_map.1 hd
      rw [h x hx, mul_zero]), zero_div] at g2 ⊢
    exact mul_self_eq_zero.1 g2

/-- C67: an error measure is 0 exactly if, at every place with exact probability greater than 0, the approximate probability rounded to seven
digits is the exact probability. -/
theorem C67_zero {trunc : K → Int} (ht : CutsOff trunc) {sqrt : K → K} (hs : IsSqrt sqrt) {exact approx : List K}
    (hlen : exact.length ≤ approx.length) (hnn : ∀ p ∈ approx.zip exact, 0 < p.2 → 0 ≤ p.1) (hex : ∃ e ∈ exact, 0 < e) :
    (calculateMSE trunc sqrt exact approx = .ok 0 ↔ ∀ p ∈ approx.zip exact, 0 < p.2 → roundTo trunc p.1 7 = p.2) ∧
    (calculateHellinger trunc sqrt exact approx = .ok 0 ↔ ∀ p ∈ approx.zip exact, 0 < p.2 → roundTo trunc p.1 7 = p.2) := by
  rw [C67_mse trunc sqrt hlen, C67_hellinger ht sqrt hlen hnn, if_pos hex, if_pos hex]
  simp only [Except.ok.injEq, (rms_zero hs).2, List.forall_mem_map, List.mem_filter, decide_eq_true_eq, and_imp, sub_eq_zero]
  refine ⟨trivial, ⟨fun h p hp h0 => ?_, fun h p hp h0 => by rw [h p hp h0]⟩⟩
  have e := h p hp h0
  have a := (hs _ (C67_round ht (hnn p hp h0) 7).1).2
  have b := (hs _ h0.le).2
  rw [← a, e, b]

end measures

/-! ### C68: the file of reference distributions -/

section truth

variable [Field K]

theorem packed_length_le {card : Nat → Nat} {obs : List Nat} {f : Nat → Nat → K} {n : Nat} (hc : ∀ i < n, 1 ≤ card i) :
    (packed n card obs f).length ≤ ((List.range n).map card).sum := by
  induction n with
  | zero => simp [packed]
  | succ n ih =>
    have := ih (fun i hi => hc i (by omega))
    unfold packed at this ⊢
    rw [List.range_succ, List.flatMap_append, List.length_append, List.map_append, List.sum_append]
    simp only [List.flatMap_cons, List.flatMap_nil, List.append_nil, List.map_cons, List.map_nil, List.sum_cons, List.sum_nil, add_zero]
    have hc : 1 ≤ card n := hc n (by omega)
    split
    · simp only [List.length_singleton]; omega
    · simp only [List.length_map, List.length_range]; omega

omit [Field K] in
theorem readNumbers {stod : Str → Except Fault K} {tokens : List Str} {numbers : List K}
    (h : List.Forall₂ (fun t e => stod t = .ok e) tokens numbers) {A R : List K} (hR : numbers.length ≤ R.length) :
    (List.range numbers.length).foldlM (fun (acc : List K × Nat) k => do
      let p ← stod (← rd tokens k)
      let t ← wr acc.1 acc.2 p
      return (t, acc.2 + 1)) (A ++ R, A.length) = .ok (A ++ numbers ++ R.drop numbers.length, A.length + numbers.length) := by
  have key : ∀ k ≤ numbers.length, (List.range k).foldlM (fun (acc : List K × Nat) k => do
      let p ← stod (← rd tokens k)
      let t ← wr acc.1 acc.2 p
      return (t, acc.2 + 1)) (A ++ R, A.length) = .ok (A ++ numbers.take k ++ R.drop k, A.length + k) := by
    intro k
    induction k with
    | zero => intro _; simp [pure_eq_ok]
    | succ k ih =>
      intro hk
      rw [List.range_succ, List.foldlM_append, ih (by omega)]
      have hl := h.length_eq
      have hget : tokens[k]? = some tokens[k] := List.getElem?_eq_getElem (by omega)
      have hst : stod tokens[k] = .ok numbers[k] := h.get (by omega) (by omega)
      simp only [List.foldlM_cons, List.foldlM_nil, ok_bind, rd_ok hget, hst, pure_eq_ok]
      rw [wr_ok (by simp; omega)]
      simp only [ok_bind]
      congr 2
      have h1 : (A ++ numbers.take k).length = A.length + k := by simp; omega
      rw [List.set_append_right _ _ (by omega), h1, Nat.sub_self]
      have h2 : R.drop k = R[k] :: R.drop (k + 1) := by simp
      rw [h2, List.set_cons_zero]
      have h3 : numbers.take (k + 1) = numbers.take k ++ [numbers[k]] := by simp
      rw [h3]
      simp only [List.append_assoc, List.singleton_append]
  have := key _ le_rfl
  rwa [List.take_length] at this

theorem dropWhile_all {α : Type} {p : α → Bool} {l : List α} : l.dropWhile p = [] ↔ ∀ x ∈ l, p x = true := by
  induction l with
  | nil => simp
  | cons a l ih =>
    rw [List.dropWhile_cons]
    cases h : p a <;> simp [h, ih]

/-- One line. -/
theorem truthLine_ok {stod : Str → Except Fault K} {observed : Bool} {numbers : List K} {line : Str} (h : TruthLine stod observed numbers line)
    {A R : List K} (hR : (if observed then 1 else numbers.length) ≤ R.length) :
    truthLine stod numbers.length (A ++ R, A.length) (trimRight line) =
      .ok (A ++ (if observed then [-1] else numbers) ++ R.drop (if observed then 1 else numbers.length),
        A.length + (if observed then 1 else numbers.length)) := by
  obtain ⟨_, h⟩ := h
  cases observed with
  | true =>
    simp only [if_true] at h hR ⊢
    have ht : trimRight line = [] := by
      rw [trimRight_eq]
      unfold dropBlanks
      rw [List.reverse_eq_nil_iff, dropWhile_all]
      intro c hc
      simpa using h c (by simpa using hc)
    unfold truthLine
    rw [ht, if_pos rfl]
    simp only
    rw [wr_ok (by simp; omega)]
    simp only [ok_bind, pure_eq_ok]
    congr 2
    obtain ⟨x, R, rfl⟩ : ∃ x R', R = x :: R' := by cases R with | nil => simp at hR | cons x R => exact ⟨x, R, rfl⟩
    simp
  | false =>
    simp only [Bool.false_eq_true, if_false] at h hR ⊢
    obtain ⟨tokens, post, rfl, h1, h2, h3, h4⟩ := h
    obtain ⟨g1, g2⟩ := intercalate_last h3 h2
    have hpost : dropBlanks post = [] := by
      unfold dropBlanks
      rw [List.reverse_eq_nil_iff, dropWhile_all]
      intro c hc
      simpa using h1 c (by simpa using hc)
    have ht : trimRight (List.intercalate [32] tokens ++ post) = List.intercalate [32] tokens := by
      rw [trimRight_eq, dropBlanks_append _ _ g2 g1, hpost, List.append_nil]
    unfold truthLine
    rw [ht, if_neg g1, split_intercalate 32 (fun t ht hc => by have := (h3 t ht).2 32 hc; omega) h2, ok_bind]
    exact readNumbers h4 hR

/-- One instance. -/
theorem truthInstance {stod : Str → Except Fault K} {card : Nat → Nat} {obs : List Nat} {f : Nat → Nat → K} {more : Str} :
    ∀ {is : List Nat} {lines : List Str}, (∀ i ∈ is, 1 ≤ card i) →
    List.Forall₂ (fun i line => TruthLine stod (decide (i ∈ obs)) ((List.range (card i)).map (f i)) line) is lines →
    ∀ {A R : List K} (line0 : Str), (is.map card).sum ≤ R.length → ∃ line,
    (is.map card).foldlM (fun (st : List K × Nat × Str × InFile) dim => (do
      let (table, l, line, f) := st
      let (line, f) := getline f line
      let line := trimRight line
      let (table, l) ← truthLine stod dim (table, l) line
      return (table, l, line, f) : Except Fault (List K × Nat × Str × InFile))) (A ++ R, A.length, line0, { rest := textOf lines ++ more }) =
      .ok (A ++ is.flatMap (fun i => if i ∈ obs then [-1] else (List.range (card i)).map (f i)) ++
          R.drop (is.flatMap (fun i => if i ∈ obs then [-1] else (List.range (card i)).map (f i))).length,
        (A ++ is.flatMap (fun i => if i ∈ obs then [-1] else (List.range (card i)).map (f i))).length, line, { rest := more }) := by
  intro is lines hc h
  induction h with
  | nil => intro A R line0 _; exact ⟨line0, by simp [textOf, pure_eq_ok]⟩
  | @cons i line is lines hl _ ih =>
    intro A R line0 hR
    have hci := hc i (by simp)
    rw [List.map_cons, List.sum_cons] at hR
    have hlen : (if decide (i ∈ obs) then 1 else ((List.range (card i)).map (f i)).length) ≤ R.length := by
      split
      · omega
      · simp; omega
    have e := truthLine_ok hl (A := A) (R := R) hlen
    rw [List.length_map, List.length_range] at e
    have hblock : (if decide (i ∈ obs) = true then [-1] else (List.range (card i)).map (f i)).length = (if decide (i ∈ obs) = true then 1 else card i) := by
      split <;> simp
    obtain ⟨line', ih⟩ := ih (fun j hj => hc j (by simp [hj])) (A := A ++ if decide (i ∈ obs) then [-1] else (List.range (card i)).map (f i))
      (R := R.drop (if decide (i ∈ obs) then 1 else card i)) (trimRight line) (by
        rw [List.length_drop]
        split <;> omega)
    refine ⟨line', ?_⟩
    rw [List.map_cons, List.foldlM_cons, textOf_cons, List.append_assoc, List.cons_append]
    simp only [getline_line hl.1, e, ok_bind, pure_eq_ok]
    rw [List.length_append, hblock] at ih
    refine ih.trans ?_
    simp only [decide_eq_true_eq] at hblock
    simp only [decide_eq_true_eq, List.flatMap_cons, List.drop_drop, List.append_assoc, List.length_append, hblock]

/-- C68: reading the file of reference distributions.  `insts` are the instances: the observed nodes, the distributions, and the lines of
the file.  For each instance the table has the distributions, packed as `GetProbabilitiesAllNodes` packs them, followed by zeros. -/
theorem C68_load {stod : Str → Except Fault K} {n : Nat} {card : Nat → Nat} (hc : ∀ i < n, 1 ≤ card i)
    {insts : List (List Nat × (Nat → Nat → K) × List Str)} (h : ∀ t ∈ insts, TruthLines stod n card t.1 t.2.1 t.2.2) (more : Str) :
    loadGroundTruth stod ((List.range n).map card) insts.length (textOf (insts.flatMap (fun t => t.2.2)) ++ more) =
      .ok (insts.map (fun t => packed n card t.1 t.2.1 ++
        List.replicate (((List.range n).map card).sum - (packed n card t.1 t.2.1).length) 0)) := by
  have key : ∀ (insts : List (List Nat × (Nat → Nat → K) × List Str)) (idx : List Nat), idx.length = insts.length →
      (∀ t ∈ insts, TruthLines stod n card t.1 t.2.1 t.2.2) → ∀ (acc : List (List K)) (line0 : Str), ∃ line,
      idx.foldlM (fun (st : List (List K) × Str × InFile) _ => (do
        let (table, _, line, f) ← ((List.range n).map card).foldlM (fun (st : List K × Nat × Str × InFile) dim => do
          let (table, l, line, f) := st
          let (line, f) := getline f line
          let line := trimRight line
          let (table, l) ← truthLine stod dim (table, l) line
          return (table, l, line, f)) (List.replicate ((List.range n).map card).sum 0, 0, st.2.1, st.2.2)
        return (st.1 ++ [table], line, f) : Except Fault (List (List K) × Str × InFile)))
        (acc, line0, { rest := textOf (insts.flatMap (fun t => t.2.2)) ++ more }) =
        .ok (acc ++ insts.map (fun t => packed n card t.1 t.2.1 ++
          List.replicate (((List.range n).map card).sum - (packed n card t.1 t.2.1).length) 0), line, { rest := more }) := by
    intro insts
    induction insts with
    | nil =>
      intro idx hl _ acc line0
      obtain rfl := List.length_eq_zero_iff.1 hl
      exact ⟨line0, by simp [textOf, pure_eq_ok]⟩
    | cons t insts ih =>
      intro idx hl h acc line0
      obtain ⟨i, idx, rfl⟩ : ∃ i idx', idx = i :: idx' := by cases idx with | nil => simp at hl | cons i idx => exact ⟨i, idx, rfl⟩
      obtain ⟨line1, e1⟩ := truthInstance (stod := stod) (card := card) (obs := t.1) (f := t.2.1)
        (more := textOf (insts.flatMap (fun t => t.2.2)) ++ more) (fun j hj => hc j (List.mem_range.1 hj)) (h t (by simp))
        (A := []) (R := List.replicate ((List.range n).map card).sum 0) line0 (by simp)
      obtain ⟨line2, e2⟩ := ih idx (by simpa using hl) (fun t ht => h t (by simp [ht]))
        (acc ++ [packed n card t.1 t.2.1 ++ List.replicate (((List.range n).map card).sum - (packed n card t.1 t.2.1).length) 0]) line1
      refine ⟨line2, ?_⟩
      rw [List.foldlM_cons, List.flatMap_cons, textOf_append, List.append_assoc]
      simp only [List.nil_append, List.length_nil, List.drop_replicate] at e1
      refine Eq.trans (congrArg (fun z : Except Fault (List K × Nat × Str × InFile) => (z >>= fun x => pure (acc ++ [x.1], x.2.2.1, x.2.2.2)) >>= _) e1) ?_
      refine Eq.trans e2 ?_
      simp
  obtain ⟨line, e⟩ := key insts (List.range insts.length) (by simp) h [] []
  unfold loadGroundTruth
  simp only [pure_eq_ok] at e ⊢
  rw [e]
  rfl

end truth

/-! ### C69: the evaluation -/

section evaluation

variable [Field K] [LinearOrder K] [IsStrictOrderedRing K]

/-- The places that count. -/
theorem zip_packed (n : Nat) (card : Nat → Nat) (obs : List Nat) (f g : Nat → Nat → K) (k : Nat) :
    ((packed n card obs f ++ List.replicate k (-1)).zip (packed n card obs g ++ List.replicate k 0)).filter (fun p => 0 < p.2) =
      counted n card obs f g := by
  have hlen : ∀ m, (packed m card obs f).length = (packed m card obs g).length := by
    intro m
    induction m with
    | zero => rfl
    | succ m ih =>
      unfold packed at ih ⊢
      rw [List.range_succ, List.flatMap_append, List.flatMap_append, List.length_append, List.length_append, ih]
      congr 1
      simp only [List.flatMap_cons, List.flatMap_nil, List.append_nil]
      split <;> simp
  rw [List.zip_append (hlen n), List.filter_append]
  have h2 : ((List.replicate k (-1 : K)).zip (List.replicate k (0 : K))).filter (fun p => 0 < p.2) = [] := by
    rw [List.filter_eq_nil_iff]
    intro p hp
    have := (List.mem_replicate.1 (List.of_mem_zip hp).2).2
    simp [this]
  rw [h2, List.append_nil]
  unfold counted
  clear h2
  induction n with
  | zero => rfl
  | succ n ih =>
    have hl := hlen n
    unfold packed at ih hl ⊢
    rw [List.range_succ, List.flatMap_append, List.flatMap_append, List.flatMap_append, List.zip_append hl, List.filter_append, List.filter_append, ih]
    congr 1
    simp only [List.flatMap_cons, List.flatMap_nil, List.append_nil]
    split
    · have : ¬ (0 : K) < -1 := by linarith
      simp [this]
    · rw [List.zip_map']

variable {dims : List Nat} {ops : List EdgeOp} {N : Net} {order : List (Nat × Nat) → List (Nat × Nat)} {cord : Nat → List Nat} {card : Nat → Nat}
  {pts : List (Table K)}

omit [IsStrictOrderedRing K] in
theorem posterior_nonneg [IsStrictOrderedRing K] (hnn : ∀ T ∈ pts, ∀ x ∈ T.pot, 0 ≤ x) {n : Nat} (E : List (Nat × Nat)) (q x : Nat) :
    0 ≤ posterior card n (joint pts) E q x := by
  have hj : ∀ a, 0 ≤ joint pts a := fun a => List.prod_nonneg (fun x hx => by
    obtain ⟨T, hT, rfl⟩ := List.mem_map.1 hx
    exact value_nonneg (hnn T hT) a)
  exact div_nonneg (sumOut_nonneg (fun a => by split; exacts [hj a, le_refl _]) _) (sumOut_nonneg (fun a => by split; exacts [hj a, le_refl _]) _)

/-- C69: the printed averages.  `insts` are the instances: the evidence, the reference distributions, and the lines of the file with
them.  There are at least 20 instances, the evidence of each has positive probability, and some reference probability of a node that
is not observed is positive. -/
theorem C69_evaluate (hops : ∀ op ∈ ops, OpInRange dims.length op) (hN : (Net.empty dims).run ops = .ok N) (h0 : dims ≠ [])
    (hw : WeaklyConnected N) (horder : ∀ l, (order l).Perm l) (hcord : ∀ m, (cord m).Perm (List.range m)) (hpts : NodeTables card N pts)
    (hnn : ∀ T ∈ pts, ∀ x ∈ T.pot, 0 ≤ x) {trunc : K → Int} (ht : CutsOff trunc) (sqrt : K → K) (stod : Str → Except Fault K)
    {insts : List (List (Nat × Nat) × (Nat → Nat → K) × List Str)} (h20 : 20 ≤ insts.length)
    (hE : ∀ t ∈ insts, (t.1.map Prod.fst).Nodup ∧ (∀ e ∈ t.1, e.1 < dims.length) ∧ weight card dims.length (joint pts) (Agrees t.1) ≠ 0)
    (hlines : ∀ t ∈ insts, TruthLines stod dims.length card (t.1.map Prod.fst) t.2.1 t.2.2)
    (hpos : ∀ t ∈ insts, ∃ i < dims.length, i ∉ t.1.map Prod.fst ∧ ∃ x < card i, 0 < t.2.1 i x) (more : Str) :
    ∃ J tables, buildJunctionTree N card pts order cord = .ok J ∧
      loadGroundTruth stod ((List.range dims.length).map card) insts.length (textOf (insts.flatMap (fun t => t.2.2)) ++ more) = .ok tables ∧
      J.evaluate trunc sqrt (insts.map Prod.fst) tables = .ok
        ((insts.map (fun t => rms sqrt ((counted dims.length card (t.1.map Prod.fst) (posterior card dims.length (joint pts) t.1) t.2.1).map
            (fun p => roundTo trunc p.1 7 - p.2)))).sum / (insts.length : K),
         (insts.map (fun t => rms sqrt ((counted dims.length card (t.1.map Prod.fst) (posterior card dims.length (joint pts) t.1) t.2.1).map
            (fun p => sqrt (roundTo trunc p.1 7) - sqrt p.2)))).sum / (insts.length : K)) := by
  obtain ⟨hinv, hlen⟩ := netInv_of_run hops hN
  have hcard : ∀ i < dims.length, 1 ≤ card i := fun i hi => (nodeTables_facts hpts).1 i (by rw [hlen]; exact hi)
  obtain ⟨J, _, _, _, _, _, _, _, hJ, hb⟩ := built_of_run (K := K) hops hN h0 hw horder hcord hpts
  have hload := C68_load (stod := stod) (n := dims.length) (card := card) hcard
    (insts := insts.map (fun t => (t.1.map Prod.fst, t.2.1, t.2.2))) (by
      intro t' ht'
      obtain ⟨t, htm, rfl⟩ := List.mem_map.1 ht'
      exact hlines t htm) more
  rw [List.length_map, List.flatMap_map, List.map_map] at hload
  refine ⟨J, _, hJ, hload, ?_⟩
  -- one instance
  have hone : ∀ t ∈ insts, ∃ probs, J.probabilities t.1 = .ok (probs, J) ∧
      calculateMSE trunc sqrt (packed dims.length card (t.1.map Prod.fst) t.2.1 ++
        List.replicate (((List.range dims.length).map card).sum - (packed dims.length card (t.1.map Prod.fst) t.2.1).length) 0) probs =
        .ok (rms sqrt ((counted dims.length card (t.1.map Prod.fst) (posterior card dims.length (joint pts) t.1) t.2.1).map
            (fun p => roundTo trunc p.1 7 - p.2))) ∧
      calculateHellinger trunc sqrt (packed dims.length card (t.1.map Prod.fst) t.2.1 ++
        List.replicate (((List.range dims.length).map card).sum - (packed dims.length card (t.1.map Prod.fst) t.2.1).length) 0) probs =
        .ok (rms sqrt ((counted dims.length card (t.1.map Prod.fst) (posterior card dims.length (joint pts) t.1) t.2.1).map
            (fun p => sqrt (roundTo trunc p.1 7) - sqrt p.2))) := by
    intro t htm
    obtain ⟨e1, e2, e3⟩ := hE t htm
    obtain ⟨J', k, hJ', hp, hk⟩ := C66_probabilities hops hN h0 hw horder hcord hpts hnn e1 e2 e3
    rw [hJ] at hJ'
    cases hJ'
    generalize hf : posterior card dims.length (joint pts) t.1 = post at hp hk ⊢
    have hpl : (packed dims.length card (t.1.map Prod.fst) post).length = (packed dims.length card (t.1.map Prod.fst) t.2.1).length := by
      unfold packed
      simp only [List.length_flatMap]
      congr 1
      apply List.map_congr_left
      intro i _
      split <;> simp
    have hk' : ((List.range dims.length).map card).sum - (packed dims.length card (t.1.map Prod.fst) t.2.1).length = k := by omega
    rw [hk']
    have hmem : ∃ e ∈ packed dims.length card (t.1.map Prod.fst) t.2.1 ++ List.replicate k 0, 0 < e := by
      obtain ⟨i, hi, hio, x, hx, h0⟩ := hpos t htm
      refine ⟨_, List.mem_append_left _ (List.mem_flatMap.2 ⟨i, List.mem_range.2 hi, ?_⟩), h0⟩
      rw [if_neg hio]
      exact List.mem_map.2 ⟨x, List.mem_range.2 hx, rfl⟩
    have hpn : ∀ i x, 0 ≤ post i x := by
      intro i x
      rw [← hf]
      exact posterior_nonneg hnn _ _ _
    refine ⟨_, hp, ?_, ?_⟩
    · rw [C67_mse trunc sqrt (by simp [hpl]), if_pos hmem, zip_packed]
    · rw [C67_hellinger ht sqrt (by simp [hpl]) ?_, if_pos hmem, zip_packed]
      intro p hp h0
      have hm : p ∈ counted dims.length card (t.1.map Prod.fst) post t.2.1 := by
        rw [← zip_packed _ _ _ _ _ k]
        exact List.mem_filter.2 ⟨hp, by simpa using h0⟩
      unfold counted at hm
      obtain ⟨i, _, hi⟩ := List.mem_flatMap.1 (List.mem_filter.1 hm).1
      split at hi
      · cases hi
      · obtain ⟨x, _, rfl⟩ := List.mem_map.1 hi
        exact hpn i x
  -- the loop
  have key : ∀ k ≤ insts.length, (((insts.map Prod.fst).zipIdx).take k).foldlM (fun (st : K × K × JTree K) E => (do
      if (insts.map Prod.fst).length / 20 = 0 then .error .ub
      else do
        let (probs, J) ← st.2.2.probabilities E.1
        let exact ← rd (insts.map ((fun t : List Nat × (Nat → Nat → K) × List Str => packed dims.length card t.1 t.2.1 ++
          List.replicate (((List.range dims.length).map card).sum - (packed dims.length card t.1 t.2.1).length) 0) ∘
            fun t => (t.1.map Prod.fst, t.2.1, t.2.2))) E.2
        let m ← calculateMSE trunc sqrt exact probs
        let h ← calculateHellinger trunc sqrt exact probs
        return (st.1 + m, st.2.1 + h, J) : Except Fault (K × K × JTree K))) (0, 0, J) =
      .ok (((insts.take k).map (fun t => rms sqrt ((counted dims.length card (t.1.map Prod.fst) (posterior card dims.length (joint pts) t.1) t.2.1).map
            (fun p => roundTo trunc p.1 7 - p.2)))).sum,
         ((insts.take k).map (fun t => rms sqrt ((counted dims.length card (t.1.map Prod.fst) (posterior card dims.length (joint pts) t.1) t.2.1).map
            (fun p => sqrt (roundTo trunc p.1 7) - sqrt p.2)))).sum, J) := by
    intro k
    induction k with
    | zero => intro _; simp [pure_eq_ok]
    | succ k ih =>
      intro hk
      have hi : insts[k]? = some insts[k] := List.getElem?_eq_getElem (by omega)
      obtain ⟨probs, g1, g2, g3⟩ := hone insts[k] (List.getElem_mem _)
      have hz : (insts.map Prod.fst).zipIdx[k]? = some (insts[k].1, k) := by simp [hi]
      rw [List.take_add_one, hz, List.foldlM_append, ih (by omega)]
      have hr := rd_ok (l := insts.map ((fun t : List Nat × (Nat → Nat → K) × List Str => packed dims.length card t.1 t.2.1 ++
          List.replicate (((List.range dims.length).map card).sum - (packed dims.length card t.1 t.2.1).length) 0) ∘
            fun t => (t.1.map Prod.fst, t.2.1, t.2.2))) (i := k) (by rw [List.getElem?_map, hi]; rfl)
      have h20' : ¬ (insts.map Prod.fst).length / 20 = 0 := by rw [List.length_map]; omega
      simp only [Option.toList_some, List.foldlM_cons, List.foldlM_nil, ok_bind, if_neg h20', g1, hr, Function.comp_apply, g2, g3, pure_eq_ok]
      rw [List.take_add_one, hi]
      simp only [Option.toList_some, List.map_append, List.map_cons, List.map_nil, List.sum_append, List.sum_cons, List.sum_nil, add_zero]
  have := key insts.length le_rfl
  rw [List.take_of_length_le (by simp), List.take_of_length_le le_rfl] at this
  unfold JTree.evaluate
  rw [this, ok_bind]
  simp only [List.length_map]
  rw [if_neg (by omega)]
  rfl

/-- C69: against a file with the exact distributions, rounded to seven digits, both averages are 0. -/
theorem C69_exact (hops : ∀ op ∈ ops, OpInRange dims.length op) (hN : (Net.empty dims).run ops = .ok N) (h0 : dims ≠ [])
    (hw : WeaklyConnected N) (horder : ∀ l, (order l).Perm l) (hcord : ∀ m, (cord m).Perm (List.range m)) (hpts : NodeTables card N pts)
    (hnn : ∀ T ∈ pts, ∀ x ∈ T.pot, 0 ≤ x) {trunc : K → Int} (ht : CutsOff trunc) {sqrt : K → K} (hs : IsSqrt sqrt) (stod : Str → Except Fault K)
    {insts : List (List (Nat × Nat) × (Nat → Nat → K) × List Str)} (h20 : 20 ≤ insts.length)
    (hE : ∀ t ∈ insts, (t.1.map Prod.fst).Nodup ∧ (∀ e ∈ t.1, e.1 < dims.length) ∧ weight card dims.length (joint pts) (Agrees t.1) ≠ 0)
    (hlines : ∀ t ∈ insts, TruthLines stod dims.length card (t.1.map Prod.fst) t.2.1 t.2.2)
    (hexact : ∀ t ∈ insts, ∀ i x, t.2.1 i x = roundTo trunc (posterior card dims.length (joint pts) t.1 i x) 7)
    (hpos : ∀ t ∈ insts, ∃ i < dims.length, i ∉ t.1.map Prod.fst ∧ ∃ x < card i, 0 < t.2.1 i x) (more : Str) :
    ∃ J tables, buildJunctionTree N card pts order cord = .ok J ∧
      loadGroundTruth stod ((List.range dims.length).map card) insts.length (textOf (insts.flatMap (fun t => t.2.2)) ++ more) = .ok tables ∧
      J.evaluate trunc sqrt (insts.map Prod.fst) tables = .ok (0, 0) := by
  obtain ⟨J, tables, h1, h2, h3⟩ := C69_evaluate hops hN h0 hw horder hcord hpts hnn ht sqrt stod h20 hE hlines hpos more
  refine ⟨J, tables, h1, h2, ?_⟩
  rw [h3]
  have hc : ∀ t ∈ insts, ∀ p ∈ counted dims.length card (t.1.map Prod.fst) (posterior card dims.length (joint pts) t.1) t.2.1,
      roundTo trunc p.1 7 = p.2 := by
    intro t ht p hp
    obtain ⟨i, _, hi⟩ := List.mem_flatMap.1 (List.mem_filter.1 hp).1
    split at hi
    · cases hi
    · obtain ⟨x, _, rfl⟩ := List.mem_map.1 hi
      exact (hexact t ht i x).symm
  have hz : ∀ g : List (Nat × Nat) × (Nat → Nat → K) × List Str → K, (∀ t ∈ insts, g t = 0) → (insts.map g).sum / (insts.length : K) = 0 := by
    intro g hg
    have : (insts.map g).sum = 0 := List.sum_eq_zero (fun x hx => by
      obtain ⟨t, ht, rfl⟩ := List.mem_map.1 hx
      exact hg t ht)
    rw [this, zero_div]
  rw [hz _ (fun t htm => (rms_zero hs).2.2 ?_), hz _ (fun t htm => (rms_zero hs).2.2 ?_)]
  · intro d hd
    obtain ⟨p, hp, rfl⟩ := List.mem_map.1 hd
    rw [hc t htm p hp, sub_self]
  · intro d hd
    obtain ⟨p, hp, rfl⟩ := List.mem_map.1 hd
    rw [hc t htm p hp, sub_self]

omit [IsStrictOrderedRing K] in
/-- C69: with fewer than 20 instances (but at least one) the evaluation divides by 0. -/
theorem C69_few_ub (trunc : K → Int) (sqrt : K → K) (J : JTree K) {evidences : List (List (Nat × Nat))} (h0 : evidences ≠ [])
    (h : evidences.length < 20) (truths : List (List K)) : J.evaluate trunc sqrt evidences truths = .error .ub := by
  obtain ⟨e, es, rfl⟩ := List.exists_cons_of_ne_nil h0
  unfold JTree.evaluate
  rw [List.zipIdx_cons, List.foldlM_cons, if_pos (by omega)]
  rfl

end evaluation

/-! ### Cases -/

/-- The conversion of a rational number to an integer, as for doubles: towards 0. -/
def ratTrunc (x : Rat) : Int := if 0 ≤ x then x.floor else -(-x).floor

theorem ratTrunc_cutsOff : CutsOff ratTrunc := by
  intro x hx
  unfold ratTrunc
  rw [if_pos hx]
  exact ⟨Int.floor_nonneg.2 hx, Int.floor_le x, Int.lt_floor_add_one x⟩

/-- The hypotheses on `trunc` and `sqrt` hold for the real numbers. -/
example : CutsOff (fun x : ℝ => ⌊x⌋) ∧ IsSqrt Real.sqrt :=
  ⟨fun x hx => ⟨Int.floor_nonneg.2 hx, Int.floor_le x, Int.lt_floor_add_one x⟩, fun x hx => ⟨Real.sqrt_nonneg x, Real.mul_self_sqrt hx⟩⟩

/-- C66 on the diamond: the node 3 is observed. -/
example : (do
    let J ← diamondTree
    return (← J.probabilities [(3, 1)]).1) = .ok [195 / 419, 224 / 419, 28 / 419, 391 / 419, 258 / 419, 161 / 419, -1, -1] := by decide +kernel

example : roundTo ratTrunc (1 / 3) 7 = 3333333 / 10000000 ∧ roundTo ratTrunc (2 / 3) 7 = 6666667 / 10000000 ∧ roundTo ratTrunc (1 / 4) 1 = 3 / 10 := by
  decide +kernel

/-- C67: `Round` is not the nearest number for negative numbers: -0.7 becomes 0. -/
theorem C67_round_negative : roundTo ratTrunc (-7 / 10) 0 = 0 := by decide +kernel

/-- C67: a probability given to a value whose exact probability is 0 does not count. -/
theorem C67_impossible_ignored : calculateMSE ratTrunc id [1 / 2, 1 / 2, 0] [1 / 2, 1 / 2, 1 / 3] = .ok 0 ∧
    calculateHellinger ratTrunc id [1 / 2, 1 / 2, 0] [1 / 2, 1 / 2, 1 / 3] = .ok 0 := by decide +kernel

/-- C67: with no exact probability greater than 0 (all nodes observed) the measures are not numbers. -/
theorem C67_all_observed : calculateMSE ratTrunc id [-1, -1, 0, 0] [-1, -1, -1, -1] = .error .nan := by decide +kernel

/-- Some numbers. -/
def someStod (s : Str) : Except Fault Rat :=
  if s = lit "0.5" then .ok (1 / 2) else if s = lit "0.25" then .ok (1 / 4) else if s = lit "0.75" then .ok (3 / 4) else .error .throw

/-- C68: two instances with two nodes; the node 1 is observed in the second. -/
example : loadGroundTruth someStod [2, 2] 2 (textOf [lit "0.25 0.75", lit "0.5 0.5 ", lit "0.75 0.25", []]) =
    .ok [[1 / 4, 3 / 4, 1 / 2, 1 / 2], [3 / 4, 1 / 4, -1, 0]] := by decide +kernel

/-- C68: a file that is too short is not noticed: missing lines count as those of observed nodes, or, if the file does not end with a newline,
the last line is used again. -/
theorem C68_short_file : loadGroundTruth someStod [2, 2] 2 (textOf [lit "0.25 0.75", lit "0.5 0.5"]) = .ok [[1 / 4, 3 / 4, 1 / 2, 1 / 2], [-1, -1, 0, 0]] ∧
    loadGroundTruth someStod [2, 2] 2 (textOf [lit "0.25 0.75"] ++ lit "0.5 0.5") = .ok [[1 / 4, 3 / 4, 1 / 2, 1 / 2], [1 / 2, 1 / 2, 1 / 2, 1 / 2]] := by
  decide +kernel

/-- C69 on the diamond: 20 instances, against the exact distributions and against the uniform ones. -/
example : (do
    let J ← diamondTree
    J.evaluate ratTrunc id (List.replicate 20 [(3, 1)]) (List.replicate 20 (([195 / 419, 224 / 419, 28 / 419, 391 / 419, 258 / 419, 161 / 419].map
      (fun x => roundTo ratTrunc x 7)) ++ [-1, 0]))) = .ok (0, 0) ∧
    (do
    let J ← diamondTree
    J.evaluate ratTrunc id (List.replicate 20 [(3, 1)]) (List.replicate 20 [1 / 2, 1 / 2, 1 / 2, 1 / 2, 1 / 2, 1 / 2, -1, 0])) =
      .ok (5055898895683 / 75000000000000, 5055898895683 / 75000000000000) := by decide +kernel

/-- C68: a line with too few numbers reads past the end. -/
theorem C68_short_line_ub : loadGroundTruth someStod [3] 1 (textOf [lit "0.25 0.75"]) = .error .ub := by decide +kernel

end FastPGM
