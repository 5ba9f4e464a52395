import Verif.Lemmas.Except
import Verif.Spec.Factor
import Mathlib.Algebra.BigOperators.Ring.Finset
import Mathlib.Algebra.BigOperators.Group.List.Basic
import Mathlib.Tactic.Ring
import Mathlib.Tactic.Linarith

/-!
Mixed-radix arithmetic behind table indices, and sums over tables as sums over assignments.
-/

namespace FastPGM

open Spec

/-- Digits of `i` in the mixed radix given by `dims`. -/
def digits : List Nat → Nat → List Nat
  | [], _ => []
  | _ :: ds, i => i / ds.prod :: digits ds (i % ds.prod)

@[simp] theorem digits_length (ds : List Nat) (i : Nat) : (digits ds i).length = ds.length := by
  induction ds generalizing i with
  | nil => rfl
  | cons d ds ih => simp [digits, ih]

theorem prod_pos_of {ds : List Nat} (h : ∀ d ∈ ds, 0 < d) : 0 < ds.prod := by
  induction ds with
  | nil => simp
  | cons d ds ih =>
    rw [List.prod_cons]
    exact Nat.mul_pos (h d (by simp)) (ih (fun x hx => h x (by simp [hx])))

theorem cumLevels_cons (d : Nat) (ds : List Nat) : cumLevels (d :: ds) = ds.prod :: cumLevels ds := by
  induction ds generalizing d with
  | nil => simp [cumLevels]
  | cons e es ih =>
    rw [cumLevels, ih e]
    simp [mul_comm]

theorem cumLevels_length (ds : List Nat) : (cumLevels ds).length = ds.length := by
  induction ds with
  | nil => rfl
  | cons d ds ih => rw [cumLevels_cons]; simp [ih]

theorem cumLevels_get? (ds : List Nat) (i : Nat) (h : i < ds.length) :
    (cumLevels ds)[i]? = some (ds.drop (i + 1)).prod := by
  induction ds generalizing i with
  | nil => simp at h
  | cons d ds ih =>
    rw [cumLevels_cons]
    cases i with
    | zero => simp
    | succ i =>
      simp only [List.getElem?_cons_succ]
      rw [ih i (by simpa using h)]
      simp

theorem eq_cumLevels {cum ds : List Nat} (hl : cum.length = ds.length)
    (h : ∀ i < ds.length, cum[i]? = some (ds.drop (i + 1)).prod) : cum = cumLevels ds := by
  apply List.ext_getElem?
  intro i
  by_cases hi : i < ds.length
  · rw [h i hi, cumLevels_get? ds i hi]
  · rw [List.getElem?_eq_none (by omega), List.getElem?_eq_none (by rw [cumLevels_length]; omega)]

theorem getConfig_cumLevels {ds : List Nat} (h : ∀ d ∈ ds, 0 < d) (i : Nat) :
    getConfig (cumLevels ds) i = .ok (digits ds i) := by
  induction ds generalizing i with
  | nil => rfl
  | cons d ds ih =>
    have hp : ds.prod ≠ 0 := (prod_pos_of (fun x hx => h x (by simp [hx]))).ne'
    rw [cumLevels_cons, getConfig, if_neg hp, ih (fun x hx => h x (by simp [hx]))]
    rfl

theorem getIndex_cumLevels (ds config : List Nat) :
    getIndex config (cumLevels ds) = rank ds config := by
  induction ds generalizing config with
  | nil => cases config <;> simp [getIndex, cumLevels, rank]
  | cons d ds ih =>
    cases config with
    | nil => simp [getIndex, rank]
    | cons c cs =>
      have := ih cs
      rw [cumLevels_cons, rank, ← this]
      simp [getIndex]

/-- Every value below its dimension. -/
def CfgIn (ds config : List Nat) : Prop := List.Forall₂ (fun c d => c < d) config ds

theorem rank_lt {ds config : List Nat} (h : CfgIn ds config) : rank ds config < ds.prod := by
  induction h with
  | nil => simp [rank]
  | @cons c d cs ds hcd _ ih =>
    rw [rank, List.prod_cons]
    calc c * ds.prod + rank ds cs < c * ds.prod + ds.prod := by omega
      _ = (c + 1) * ds.prod := by ring
      _ ≤ d * ds.prod := Nat.mul_le_mul_right _ hcd

theorem digits_in {ds : List Nat} {i : Nat} (h : i < ds.prod) : CfgIn ds (digits ds i) := by
  induction ds generalizing i with
  | nil => exact List.Forall₂.nil
  | cons d ds ih =>
    rw [List.prod_cons] at h
    have hp : 0 < ds.prod := by
      rcases Nat.eq_zero_or_pos ds.prod with h0 | h0
      · simp [h0] at h
      · exact h0
    refine List.Forall₂.cons ?_ (ih (Nat.mod_lt _ hp))
    exact Nat.div_lt_of_lt_mul (by rwa [mul_comm] at h)

theorem rank_digits {ds : List Nat} {i : Nat} (h : i < ds.prod) : rank ds (digits ds i) = i := by
  induction ds generalizing i with
  | nil => simp [rank] at *; omega
  | cons d ds ih =>
    rw [List.prod_cons] at h
    have hp : 0 < ds.prod := by
      rcases Nat.eq_zero_or_pos ds.prod with h0 | h0
      · simp [h0] at h
      · exact h0
    rw [digits, rank, ih (Nat.mod_lt _ hp)]
    exact Nat.div_add_mod' i ds.prod

theorem digits_rank {ds config : List Nat} (h : CfgIn ds config) : digits ds (rank ds config) = config := by
  induction h with
  | nil => rfl
  | @cons c d cs ds hcd hr ih =>
    have hlt := rank_lt hr
    rw [rank, digits]
    have hp : 0 < ds.prod := by omega
    rw [show (c * ds.prod + rank ds cs) / ds.prod = c by
      rw [mul_comm, Nat.mul_add_div hp, Nat.div_eq_of_lt hlt, Nat.add_zero],
      show (c * ds.prod + rank ds cs) % ds.prod = rank ds cs by
      rw [mul_comm, Nat.mul_add_mod, Nat.mod_eq_of_lt hlt], ih]

theorem rank_inj {ds c c' : List Nat} (h : CfgIn ds c) (h' : CfgIn ds c') (e : rank ds c = rank ds c') : c = c' := by
  rw [← digits_rank h, e, digits_rank h']

theorem cfgIn_map {card : Nat → Nat} {vs : List Nat} {a : Assignment} (h : InRange card vs a) :
    CfgIn (vs.map card) (vs.map a) := by
  induction vs with
  | nil => exact List.Forall₂.nil
  | cons v vs ih =>
    exact List.Forall₂.cons (h v (by simp)) (ih (fun w hw => h w (by simp [hw])))

/-- The assignment read off a configuration (0 for other variables). -/
def asgOf (vars config : List Nat) : Assignment := fun v => config.getD (vars.idxOf v) 0

theorem asgOf_cons (v : Nat) (vs : List Nat) (c : Nat) (cs : List Nat) :
    asgOf (v :: vs) (c :: cs) = (asgOf vs cs).set v c := by
  funext w
  unfold asgOf Assignment.set
  by_cases h : w = v
  · subst h; simp
  · rw [if_neg h, List.idxOf_cons_ne vs (fun e => h e.symm)]
    simp

theorem map_set_of_notMem {vs : List Nat} {v : Nat} (h : v ∉ vs) (a : Assignment) (x : Nat) :
    vs.map (a.set v x) = vs.map a := by
  apply List.map_congr_left
  intro w hw
  unfold Assignment.set
  rw [if_neg]
  rintro rfl
  exact h hw

theorem map_asgOf {vars config : List Nat} (hn : vars.Nodup) (hl : config.length = vars.length) :
    vars.map (asgOf vars config) = config := by
  induction vars generalizing config with
  | nil => simp at hl; simp [hl]
  | cons v vs ih =>
    match config, hl with
    | c :: cs, hl =>
      rw [asgOf_cons, List.map_cons, map_set_of_notMem (List.nodup_cons.1 hn).1,
        ih (List.nodup_cons.1 hn).2 (by simpa using hl)]
      simp [Assignment.set]

theorem mapM_rd_loc {vars vs full : List Nat} (hsub : ∀ v ∈ vs, v ∈ vars) (hl : full.length = vars.length) :
    (vs.map (getVariableIndex vars)).mapM (rd full) = .ok (vs.map (asgOf vars full)) := by
  have : ∀ x ∈ vs.map (getVariableIndex vars), rd full x = .ok (full.getD x 0) := by
    intro x hx
    obtain ⟨v, hv, rfl⟩ := List.mem_map.1 hx
    have hlt : getVariableIndex vars v < full.length := by
      rw [hl]; exact List.idxOf_lt_length_of_mem (hsub v hv)
    rw [rd_getElem hlt]
    simp [hlt]
  rw [mapM_ok this, List.map_map]
  rfl

theorem asgOf_lt {card : Nat → Nat} {vars : List Nat} {i : Nat}
    (hi : i < (vars.map card).prod) : InRange card vars (asgOf vars (digits (vars.map card) i)) := by
  have key : ∀ (vars : List Nat) (config : List Nat), CfgIn (vars.map card) config →
      InRange card vars (asgOf vars config) := by
    intro vars
    induction vars with
    | nil => intro _ _ v hv; simp at hv
    | cons v vs ih =>
      intro config h
      cases config with
      | nil => cases h
      | cons c cs =>
        rw [List.map_cons] at h
        cases h with
        | cons h1 h2 =>
          intro w hw
          rw [asgOf_cons]
          unfold Assignment.set
          split
          · rename_i e; rw [e]; exact h1
          · rename_i e
            exact ih cs h2 w (by simpa [e] using hw)
  exact key vars _ (digits_in hi)

/-- `transferIndex` between tables with consistent dimensions. -/
theorem transferIndex_eq {vars dims vs dims' : List Nat} (hd : ∀ d ∈ dims, 0 < d) (hdl : dims.length = vars.length)
    (hsub : ∀ v ∈ vs, v ∈ vars) (i : Nat) :
    transferIndex (cumLevels dims) (vs.map (getVariableIndex vars)) (cumLevels dims') i =
      .ok (rank dims' (vs.map (asgOf vars (digits dims i)))) := by
  unfold transferIndex
  rw [getConfig_cumLevels hd]
  show (do let part ← (vs.map (getVariableIndex vars)).mapM (rd (digits dims i)); _) = _
  rw [mapM_rd_loc hsub (by simp [hdl])]
  show Except.ok (getIndex _ _) = _
  rw [getIndex_cumLevels]

/-! ### Sums -/

section sums

variable {K : Type} [AddCommMonoid K]

theorem set_set_comm {v w : Nat} (h : v ≠ w) (a : Assignment) (x y : Nat) :
    (a.set v x).set w y = (a.set w y).set v x := by
  funext u
  unfold Assignment.set
  split <;> split <;> simp_all

theorem set_set_same (v : Nat) (a : Assignment) (x y : Nat) :
    (a.set v x).set v y = a.set v y := by
  funext u
  unfold Assignment.set
  split <;> rfl

theorem set_self (v : Nat) (a : Assignment) : a.set v (a v) = a := by
  funext u
  unfold Assignment.set
  split <;> simp_all

theorem sumOut_set {card : Nat → Nat} {vs : List Nat} {v : Nat} (h : v ∉ vs) (f : Assignment → K) (a : Assignment)
    (x : Nat) : sumOut card vs f (a.set v x) = sumOut card vs (fun b => f (b.set v x)) a := by
  induction vs generalizing a with
  | nil => rfl
  | cons w ws ih =>
    have hw : v ≠ w := fun e => h (by simp [e])
    have hws : v ∉ ws := fun e => h (by simp [e])
    simp only [sumOut]
    apply Finset.sum_congr rfl
    intro y _
    rw [set_set_comm hw, ih hws]

/-- `f` looks only at the variables in `vs`. -/
def DependsOn {β : Type} (f : Assignment → β) (vs : List Nat) : Prop :=
  ∀ a b : Assignment, (∀ v ∈ vs, a v = b v) → f a = f b

theorem map_eq_of_agree {vs : List Nat} {a b : Assignment} (h : ∀ v ∈ vs, a v = b v) : vs.map a = vs.map b :=
  List.map_congr_left h

theorem sum_range_mul (d m : Nat) (g : Nat → K) :
    ∑ k ∈ Finset.range (d * m), g k = ∑ x ∈ Finset.range d, ∑ j ∈ Finset.range m, g (x * m + j) := by
  induction d with
  | zero => simp
  | succ d ih =>
    rw [Finset.sum_range_succ, ← ih, Nat.succ_mul, Finset.sum_range_add]

/-- A loop over all table entries is a sum over all assignments of the table's variables. -/
theorem sum_entries {card : Nat → Nat} {vars : List Nat} (hn : vars.Nodup) {F : Assignment → K}
    (hF : DependsOn F vars) (a : Assignment) :
    ∑ k ∈ Finset.range (vars.map card).prod, F (asgOf vars (digits (vars.map card) k)) = sumOut card vars F a := by
  induction vars generalizing F with
  | nil =>
    simp only [List.map_nil, List.prod_nil, Finset.range_one, Finset.sum_singleton, sumOut]
    exact hF _ _ (by simp)
  | cons v vs ih =>
    obtain ⟨hv, hvs⟩ := List.nodup_cons.1 hn
    rw [List.map_cons, List.prod_cons, sum_range_mul]
    simp only [sumOut]
    apply Finset.sum_congr rfl
    intro x _
    rw [sumOut_set hv]
    rw [← ih hvs (F := fun b => F (b.set v x))]
    · apply Finset.sum_congr rfl
      intro j hj
      have hj' : j < (vs.map card).prod := by simpa using hj
      have hp : 0 < (vs.map card).prod := by omega
      congr 1
      rw [digits, asgOf_cons]
      rw [show (x * (vs.map card).prod + j) / (vs.map card).prod = x by
        rw [mul_comm, Nat.mul_add_div hp, Nat.div_eq_of_lt hj', Nat.add_zero],
        show (x * (vs.map card).prod + j) % (vs.map card).prod = j by
        rw [mul_comm, Nat.mul_add_mod, Nat.mod_eq_of_lt hj']]
    · intro b c hbc
      apply hF
      intro w hw
      unfold Assignment.set
      split
      · rfl
      · rename_i e
        exact hbc w (by simpa [e] using hw)

theorem sumOut_congr {card : Nat → Nat} {vs : List Nat} {f g : Assignment → K} {a : Assignment}
    (h : ∀ b : Assignment, (∀ v ∈ vs, b v < card v) → (∀ v, v ∉ vs → b v = a v) → f b = g b) :
    sumOut card vs f a = sumOut card vs g a := by
  induction vs generalizing a f g with
  | nil => exact h a (by simp) (by simp)
  | cons v vs ih =>
    simp only [sumOut]
    apply Finset.sum_congr rfl
    intro x hx
    have hx' : x < card v := by simpa using hx
    by_cases hv : v ∈ vs
    · apply ih
      intro b hb hb'
      apply h
      · intro w hw
        rcases List.mem_cons.1 hw with rfl | hw
        · exact hb _ hv
        · exact hb w hw
      · intro w hw
        have hwv : w ≠ v := fun e => hw (by simp [e])
        rw [hb' w (fun e => hw (by simp [e]))]
        simp [Assignment.set, hwv]
    · apply ih
      intro b hb hb'
      apply h
      · intro w hw
        rcases List.mem_cons.1 hw with rfl | hw
        · rw [hb' _ hv]; simp [Assignment.set, hx']
        · exact hb w hw
      · intro w hw
        have hwv : w ≠ v := fun e => hw (by simp [e])
        rw [hb' w (fun e => hw (by simp [e]))]
        simp [Assignment.set, hwv]

theorem sumOut_zero {card : Nat → Nat} (vs : List Nat) (a : Assignment) :
    sumOut card vs (fun _ => (0 : K)) a = 0 := by
  induction vs generalizing a with
  | nil => rfl
  | cons v vs ih => simp [sumOut, ih]

/-- Summing over all variables with the constraint that `ws` have the values given by `a` is summing out the other variables. -/
theorem sumOut_indicator {card : Nat → Nat} {vs ws : List Nat} (hn : vs.Nodup) {f : Assignment → K} {a : Assignment}
    (ha : ∀ v ∈ vs, v ∈ ws → a v < card v) (hws : ∀ w ∈ ws, w ∈ vs) :
    sumOut card vs (fun b => if ws.map b = ws.map a then f b else 0) a =
      sumOut card (vs.filter (fun v => v ∉ ws)) f a := by
  have key : ∀ (vs : List Nat), vs.Nodup → ∀ (f : Assignment → K) (c : Assignment),
      (∀ v ∈ vs, v ∈ ws → a v < card v) → (∀ w ∈ ws, w ∉ vs → c w = a w) → (∀ w ∈ vs, c w = a w) →
      sumOut card vs (fun b => if ws.map b = ws.map a then f b else 0) c =
      sumOut card (vs.filter (fun v => v ∉ ws)) f c := by
    intro vs
    induction vs with
    | nil =>
      intro _ f c _ hc _
      simp only [sumOut, List.filter_nil]
      rw [if_pos]
      exact List.map_congr_left (fun w hw => hc w hw (by simp))
    | cons v vs ih =>
      intro hn f c ha hc hc'
      obtain ⟨hv, hvs⟩ := List.nodup_cons.1 hn
      by_cases hvw : v ∈ ws
      · rw [List.filter_cons_of_neg (by simpa using hvw)]
        simp only [sumOut]
        rw [Finset.sum_eq_single (a v)]
        · have e : c.set v (a v) = c := by
            rw [← hc' v (by simp)]; exact set_self v c
          rw [e]
          exact ih hvs f c (fun u hu => ha u (by simp [hu]))
            (fun w hw hw' => by
              by_cases e : w = v
              · exact e ▸ hc' v (by simp)
              · exact hc w hw (by simp [e, hw']))
            (fun w hw => hc' w (by simp [hw]))
        · intro x _ hx
          rw [sumOut_set hv]
          rw [show (fun b : Assignment => if ws.map (b.set v x) = ws.map a then f (b.set v x) else 0) =
            fun _ => (0 : K) from ?_, sumOut_zero]
          funext b
          rw [if_neg]
          intro e
          have := List.map_inj_left.1 e v hvw
          simp [Assignment.set] at this
          exact hx this
        · intro h
          exact absurd (Finset.mem_range.2 (ha v (by simp) hvw)) h
      · rw [List.filter_cons_of_pos (by simpa using hvw)]
        simp only [sumOut]
        apply Finset.sum_congr rfl
        intro x _
        have hvf : v ∉ vs.filter (fun v => v ∉ ws) := fun h => hv (List.mem_filter.1 h).1
        rw [sumOut_set hv, sumOut_set hvf]
        have : (fun b : Assignment => if ws.map (b.set v x) = ws.map a then f (b.set v x) else 0) =
            fun b => if ws.map b = ws.map a then (fun b : Assignment => f (b.set v x)) b else 0 := by
          funext b
          rw [map_set_of_notMem hvw]
        rw [this]
        exact ih hvs _ c (fun u hu => ha u (by simp [hu]))
          (fun w hw hw' => by
              by_cases e : w = v
              · exact e ▸ hc' v (by simp)
              · exact hc w hw (by simp [e, hw']))
          (fun w hw => hc' w (by simp [hw]))
  exact key vs hn f a ha (fun w hw hw' => absurd (hws w hw) hw') (fun _ _ => rfl)

end sums

end FastPGM
