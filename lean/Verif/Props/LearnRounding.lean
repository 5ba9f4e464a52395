import Verif.Props.Rounding
import Verif.Props.Learn
import Verif.Props.Coherence

/-!
Parameter learning with rounded arithmetic (C107).
-/

namespace FastPGM

open Spec

variable {K : Type} [Field K] [LinearOrder K] [IsStrictOrderedRing K]

/-- A number that differs by a factor of at most `ρ` differs by a factor of at most a greater `ρ'`. -/
theorem Spec.RoundsTo.weaken {ρ ρ' lo hi : K} (h1 : 0 < ρ) (h : ρ ≤ ρ') {o : Option K} {x : K} (hx : 0 ≤ x) (hr : RoundsTo ρ lo hi o x) :
    RoundsTo ρ' lo hi o x := by
  refine ⟨fun y hy => ?_, hr.2⟩
  obtain ⟨h2, h3⟩ := hr.1 y hy
  have hy0 : 0 ≤ y := nonneg_of_mul_nonneg_left (hx.trans h3) h1
  exact ⟨h2.trans (mul_le_mul_of_nonneg_left h hx), h3.trans (mul_le_mul_of_nonneg_left h hy0)⟩

theorem Spec.Accurate.weaken {ρ ρ' lo hi : K} (h1 : 0 < ρ) (h : ρ ≤ ρ') {ar : Arithmetic K} (har : Accurate ar ρ lo hi) : Accurate ar ρ' lo hi :=
  ⟨fun a b ha hb => RoundsTo.weaken h1 h (add_nonneg ha hb) (har.add a b ha hb),
    fun a b ha hb => RoundsTo.weaken h1 h (mul_nonneg ha hb) (har.mul a b ha hb),
    fun a b ha hb => RoundsTo.weaken h1 h (div_nonneg ha hb.le) (har.div a b ha hb)⟩

/-- One entry: two sums and a quotient. -/
theorem smoothed_rounded {ρ lo hi : K} (hρ : 1 ≤ ρ) (hlo : 0 < lo) {ar : Arithmetic K} (har : Accurate ar ρ lo hi) {alpha : Int} (ha : 0 < alpha)
    {n1 n2 d m : Nat} (h1 : n1 ≤ n2) (h2 : n2 ≤ m) (hd : 0 < d) (hl : lo * ρ ^ 2 * ((m : K) + (alpha : K) * (d : K)) ≤ 1)
    (hh : ((m : K) + (alpha : K) * (d : K)) * ρ ^ 2 ≤ hi) :
    ∃ (x : K) (y : Rounded ar), smoothed alpha n1 n2 d = .ok x ∧ smoothed alpha n1 n2 d = .ok y ∧ StandsFor (ρ ^ 3) x y := by
  have hρ0 : 0 < ρ := lt_of_lt_of_le zero_lt_one hρ
  have ha1 : (1 : K) ≤ (alpha : K) := by exact_mod_cast ha
  have hd1 : (1 : K) ≤ (d : K) := by exact_mod_cast hd
  have hn1 : (0 : K) ≤ (n1 : K) := Nat.cast_nonneg _
  have h12 : (n1 : K) ≤ (n2 : K) := by exact_mod_cast h1
  have h2m : (n2 : K) ≤ (m : K) := by exact_mod_cast h2
  have had : (alpha : K) ≤ (alpha : K) * (d : K) := le_mul_of_one_le_right (zero_le_one.trans ha1) hd1
  set M : K := (m : K) + (alpha : K) * (d : K) with hM
  set a : K := (n1 : K) + (alpha : K) with hadef
  set b : K := (n2 : K) + (alpha : K) * (d : K) with hbdef
  have haM : a ≤ M := by rw [hadef, hM]; linarith
  have hbM : b ≤ M := by rw [hbdef, hM]; linarith
  have ha1' : 1 ≤ a := by rw [hadef]; linarith
  have hb1' : 1 ≤ b := by rw [hbdef]; linarith
  have hab : a ≤ b := by rw [hadef, hbdef]; linarith
  have ha0 : 0 < a := lt_of_lt_of_le zero_lt_one ha1'
  have hb0 : 0 < b := lt_of_lt_of_le zero_lt_one hb1'
  have hM1 : 1 ≤ M := ha1'.trans haM
  have hρ2 : 1 ≤ ρ ^ 2 := one_le_pow₀ hρ
  have hlo1 : lo ≤ 1 := by
    have h3 : lo ≤ lo * ρ ^ 2 := le_mul_of_one_le_right hlo.le hρ2
    have h4 : lo * ρ ^ 2 ≤ lo * ρ ^ 2 * M := le_mul_of_one_le_right (hlo.le.trans h3) hM1
    linarith
  have hMhi : M ≤ hi := (le_mul_of_one_le_right (zero_le_one.trans hM1) hρ2).trans hh
  have had0 : (0 : K) ≤ (alpha : K) * (d : K) := by linarith
  obtain ⟨p1, p2⟩ := har.add (n1 : K) (alpha : K) hn1 (by linarith)
  obtain ⟨q1, q2⟩ := har.add (n2 : K) ((alpha : K) * (d : K)) (hn1.trans h12) had0
  obtain ⟨a', ea⟩ := Option.ne_none_iff_exists'.1 (p2 (Or.inr ⟨hlo1.trans ha1', haM.trans hMhi⟩))
  obtain ⟨b', eb⟩ := Option.ne_none_iff_exists'.1 (q2 (Or.inr ⟨hlo1.trans hb1', hbM.trans hMhi⟩))
  obtain ⟨a1, a2⟩ := p1 a' ea
  obtain ⟨b1, b2⟩ := q1 b' eb
  have ha'0 : 0 < a' := by
    by_contra h
    have := mul_nonpos_of_nonpos_of_nonneg (not_lt.1 h) hρ0.le
    linarith
  have hb'0 : 0 < b' := by
    by_contra h
    have := mul_nonpos_of_nonpos_of_nonneg (not_lt.1 h) hρ0.le
    linarith
  obtain ⟨c1, c2⟩ := har.div a' b' ha'0.le hb'0
  -- the quotient is in range
  have r1 : lo ≤ a' / b' := by
    rw [le_div_iff₀ hb'0]
    have h3 : lo * b' ≤ lo * (M * ρ) := mul_le_mul_of_nonneg_left (b1.trans (mul_le_mul_of_nonneg_right hbM hρ0.le)) hlo.le
    have h4 : lo * b' * ρ ≤ a' * ρ := by
      calc lo * b' * ρ ≤ lo * (M * ρ) * ρ := mul_le_mul_of_nonneg_right h3 hρ0.le
        _ = lo * ρ ^ 2 * M := by ring
        _ ≤ 1 := hl
        _ ≤ a := ha1'
        _ ≤ a' * ρ := a2
    exact le_of_mul_le_mul_right h4 hρ0
  have r2 : a' / b' ≤ hi := by
    rw [div_le_iff₀ hb'0]
    have h3 : a' ≤ M * ρ := a1.trans (mul_le_mul_of_nonneg_right haM hρ0.le)
    have h4 : 1 ≤ b' * ρ := hb1'.trans b2
    calc a' ≤ M * ρ := h3
      _ ≤ M * ρ * (b' * ρ) := le_mul_of_one_le_right (mul_nonneg (zero_le_one.trans hM1) hρ0.le) h4
      _ = M * ρ ^ 2 * b' := by ring
      _ ≤ hi * b' := mul_le_mul_of_nonneg_right hh hb'0.le
  obtain ⟨v, ev⟩ := Option.ne_none_iff_exists'.1 (c2 (Or.inr ⟨r1, r2⟩))
  obtain ⟨v1, v2⟩ := c1 v ev
  refine ⟨a / b, (some v : Option K), ?_, ?_, v, rfl, ?_, ?_⟩
  · unfold smoothed
    simp only [Int.cast_mul, Int.cast_natCast]
    rw [if_neg hb0.ne']
  · have e1 : ((n2 : Rounded ar) + ((alpha * (d : Int) : Int) : Rounded ar)) = Rounded.num b' := by
      show ar.add (n2 : K) ((alpha * (d : Int) : Int) : K) = some b'
      simp only [Int.cast_mul, Int.cast_natCast]
      exact eb
    have e2 : ((n1 : Rounded ar) + (alpha : Rounded ar)) = Rounded.num a' := ea
    have e3 : (Rounded.num a' : Rounded ar) / Rounded.num b' = Rounded.num v :=
      (rounded_div (fun h => ha'0.ne' (Option.some.inj h))).trans ev
    unfold smoothed
    simp only
    rw [e1, e2, e3, if_neg]
    · rfl
    · intro h
      exact hb'0.ne' (Option.some.inj h)
  · -- v ≤ (a'/b') ρ ≤ (a ρ)/(b/ρ) ρ
    have h3 : a' / b' ≤ a / b * ρ ^ 2 := by
      rw [div_le_iff₀ hb'0]
      have h5 : a / b * ρ ^ 2 * b' = a * ρ * (b' * ρ / b) := by field_simp
      rw [h5]
      have h6 : 1 ≤ b' * ρ / b := by rw [le_div_iff₀ hb0]; linarith
      exact a1.trans (le_mul_of_one_le_right (mul_nonneg ha0.le hρ0.le) h6)
    calc v ≤ a' / b' * ρ := v1
      _ ≤ a / b * ρ ^ 2 * ρ := mul_le_mul_of_nonneg_right h3 hρ0.le
      _ = a / b * ρ ^ 3 := by ring
  · have h3 : a / b ≤ a' / b' * ρ ^ 2 := by
      rw [div_le_iff₀ hb0]
      have h5 : a' / b' * ρ ^ 2 * b = a' * ρ * (b * ρ / b') := by field_simp
      rw [h5]
      have h6 : 1 ≤ b * ρ / b' := by rw [le_div_iff₀ hb'0]; linarith
      exact a2.trans (le_mul_of_one_le_right (mul_nonneg ha'0.le hρ0.le) h6)
    calc a / b ≤ a' / b' * ρ ^ 2 := h3
      _ ≤ v * ρ * ρ ^ 2 := mul_le_mul_of_nonneg_right v2 (by positivity)
      _ = v * ρ ^ 3 := by ring

theorem mapM_stand {α β β' : Type} {R : β → β' → Prop} {f : α → Except Fault β} {g : α → Except Fault β'} {l : List α}
    (h : ∀ x ∈ l, ∃ b b', f x = .ok b ∧ g x = .ok b' ∧ R b b') : ∃ bs bs', l.mapM f = .ok bs ∧ l.mapM g = .ok bs' ∧ List.Forall₂ R bs bs' := by
  induction l with
  | nil => exact ⟨[], [], rfl, rfl, .nil⟩
  | cons x l ih =>
    obtain ⟨b, b', h1, h2, h3⟩ := h x (by simp)
    obtain ⟨bs, bs', h4, h5, h6⟩ := ih (fun y hy => h y (by simp [hy]))
    exact ⟨b :: bs, b' :: bs', by rw [List.mapM_cons, h1, ok_bind, h4]; rfl, by rw [List.mapM_cons, h2, ok_bind, h5]; rfl, .cons h3 h6⟩

theorem countSame_cons_le (rows : List Assignment) (i : Nat) (ps : List Nat) (a : Assignment) : countSame rows (i :: ps) a ≤ countSame rows ps a := by
  unfold countSame
  apply List.countP_mono_left
  intro r _ h
  simp only [List.all_cons, Bool.and_eq_true] at h
  exact h.2

/-- Every entry that can be learned from `m` instances for a variable with `d` values is represented up to a factor `c`. -/
def EntriesStand (c : K) (ar : Arithmetic K) (alpha : Int) (m d : Nat) : Prop :=
  ∀ n1 n2 : Nat, n1 ≤ n2 → n2 ≤ m →
    ∃ (x : K) (y : Rounded ar), smoothed alpha n1 n2 d = .ok x ∧ smoothed alpha n1 n2 d = .ok y ∧ StandsFor c x y

omit [IsStrictOrderedRing K] in
/-- The table of one variable. -/
theorem learnNode_rounded {c : K} {ar : Arithmetic K} {alpha : Int} {card : Nat → Nat} {N : Net} (hN : NetShape card N) {i : Nat} {s : NodeS}
    (hi' : N.nodes[i]? = some s) {cols : List (List Nat)} {root : Option Nat} {rnd : Nat → Nat} {rows : List Assignment}
    (h : RowsFor card cols root rnd rows i s.parents) (he : EntriesStand c ar alpha rows.length (card i)) :
    ∃ (T : Table K) (T' : Table (Rounded ar)), learnNode N cols rows.length alpha root rnd i = .ok T ∧
      learnNode N cols rows.length alpha root rnd i = .ok T' ∧ T.vars = T'.vars ∧ T.dims = T'.dims ∧ T.cum = T'.cum ∧ T.size = T'.size ∧
        List.Forall₂ (StandsFor c) T.pot T'.pot := by
  rw [learnNode_step hN hi' h, learnNode_step hN hi' h]
  obtain ⟨p, p', h1, h2, h3⟩ := mapM_stand (R := StandsFor (ar := ar) c) (l := List.range ((i :: s.parents).map card).prod)
    (f := fun k => smoothed (K := K) alpha (countSame rows (i :: s.parents) (asgOf (i :: s.parents) (digits ((i :: s.parents).map card) k)))
      (countSame rows s.parents (asgOf (i :: s.parents) (digits ((i :: s.parents).map card) k))) (card i))
    (g := fun k => smoothed (K := Rounded ar) alpha (countSame rows (i :: s.parents) (asgOf (i :: s.parents) (digits ((i :: s.parents).map card) k)))
      (countSame rows s.parents (asgOf (i :: s.parents) (digits ((i :: s.parents).map card) k))) (card i))
    (fun k _ => he _ _ (countSame_cons_le _ _ _ _) List.countP_le_length)
  refine ⟨{ fromFn card (i :: s.parents) (fun _ => (0 : K)) with pot := p },
    { fromFn card (i :: s.parents) (fun _ => (0 : Rounded ar)) with pot := p' }, ?_, ?_, rfl, rfl, rfl, rfl, h3⟩
  · simp only [h1, ok_bind]
    rfl
  · simp only [h2, ok_bind]
    rfl

omit [IsStrictOrderedRing K] in
/-- The tables of all variables. -/
theorem learnParams_rounded {c : K} {ar : Arithmetic K} {alpha : Int} {card : Nat → Nat} {N : Net} (hN : NetShape card N)
    {cols : List (List Nat)} {rows : List Assignment} (hc : Columns card N.nodes.length cols rows) (rnd : Nat → Nat → Nat)
    (he : ∀ i < N.nodes.length, EntriesStand c ar alpha rows.length (card i)) :
    ∃ (pts : List (Table K)) (pts' : List (Table (Rounded ar))), learnParams N cols N.nodes.length rows.length alpha rnd [] = .ok pts ∧
      learnParams N cols N.nodes.length rows.length alpha rnd [] = .ok pts' ∧ StandForTables c pts pts' := by
  obtain ⟨pts, pts', h1, h2, h3⟩ := mapM_stand (l := List.range N.nodes.length)
    (f := fun i => learnNode (K := K) N cols rows.length alpha none (rnd i) i)
    (g := fun i => learnNode (K := Rounded ar) N cols rows.length alpha none (rnd i) i)
    (R := fun T T' => T.vars = T'.vars ∧ T.dims = T'.dims ∧ T.cum = T'.cum ∧ T.size = T'.size ∧ List.Forall₂ (StandsFor c) T.pot T'.pot)
    (by
      intro i hi
      have hi' : i < N.nodes.length := List.mem_range.1 hi
      have hs := List.getElem?_eq_getElem hi'
      have hrows : RowsFor card cols none (rnd i) rows i N.nodes[i].parents := by
        refine ⟨fun r hr v hv => hc.lt r hr v (NetShape.lt hN hs v hv), hc.get i hi', Or.inr ⟨by simp, fun p hp => ?_⟩⟩
        exact hc.get p (NetShape.lt hN hs p (by simp [hp]))
      exact learnNode_rounded hN hs hrows (he i hi'))
  refine ⟨pts, pts', ?_, ?_, h3⟩
  · unfold learnParams
    rw [if_pos rfl]
    simp only
    rw [h1]
    rfl
  · unfold learnParams
    rw [if_pos rfl]
    simp only
    rw [h2]
    rfl

section network

variable {dims : List Nat} {ops : List EdgeOp} {N : Net} {order : List (Nat × Nat) → List (Nat × Nat)} {cord : Nat → List Nat}

/-- C107.  Parameter learning with rounded arithmetic succeeds, and every learned probability differs from the smoothed relative frequency by a
factor of at most `ρ ^ 3`, when the counts are in the range of the arithmetic. -/
theorem C107_tables (hpos : ∀ d ∈ dims, 0 < d) (hops : ∀ op ∈ ops, OpInRange dims.length op) (hN : (Net.empty dims).run ops = .ok N)
    {cols : List (List Nat)} {rows : List Assignment} (hc : Columns (fun i => dims.getD i 0) dims.length cols rows) {alpha : Int}
    (ha : 0 < alpha) (rnd : Nat → Nat → Nat) {ρ lo hi : K} (hρ : 1 ≤ ρ) (hlo : 0 < lo) {ar : Arithmetic K} (har : Accurate ar ρ lo hi)
    (hrange : ∀ d ∈ dims, lo * ρ ^ 2 * ((rows.length : K) + (alpha : K) * (d : K)) ≤ 1 ∧
      ((rows.length : K) + (alpha : K) * (d : K)) * ρ ^ 2 ≤ hi) :
    ∃ (pts : List (Table K)) (pts' : List (Table (Rounded ar))), learnParams N cols dims.length rows.length alpha rnd [] = .ok pts ∧
      (∀ (i : Nat) s, N.nodes[i]? = some s → ∃ T, pts[i]? = some T ∧ IsFrequencyTable (fun i => dims.getD i 0) rows alpha i s.parents T) ∧
      learnParams N cols dims.length rows.length alpha rnd [] = .ok pts' ∧ StandForTables (ρ ^ 3) pts pts' := by
  obtain ⟨N', hN', hlen, hshape, hinv⟩ := run_shape hops hpos
  rw [hN] at hN'
  cases hN'
  rw [← hlen] at hc ⊢
  obtain ⟨pts0, h1, -, h3⟩ := C22_learned (K := K) hshape hc ha.le (fun e => absurd e ha.ne') rnd []
  rw [List.nil_append] at h1
  obtain ⟨pts, pts', h4, h5, h6⟩ := learnParams_rounded (K := K) (ar := ar) (c := ρ ^ 3) (alpha := alpha) hshape hc rnd (by
    intro i hi n1 n2 g1 g2
    rw [hlen] at hi
    have hm : dims.getD i 0 ∈ dims := by
      rw [List.getD_eq_getElem?_getD, List.getElem?_eq_getElem hi]
      exact List.getElem_mem hi
    obtain ⟨k1, k2⟩ := hrange _ hm
    exact smoothed_rounded hρ hlo har ha g1 g2 (hpos _ hm) k1 k2)
  rw [h1] at h4
  cases h4
  exact ⟨pts0, pts', h1, h3, h5, h6⟩

/-- C107.  Learning and inference, both with rounded arithmetic: there are a number `bound` and a range that do not depend on the arithmetic
such that all answers of the junction tree differ from the conditional distributions of the smoothed relative frequencies by at most a factor
`ρ ^ bound`. -/
theorem C107_answers (hpos : ∀ d ∈ dims, 0 < d) (hops : ∀ op ∈ ops, OpInRange dims.length op) (hN : (Net.empty dims).run ops = .ok N)
    (h0 : dims ≠ []) (hw : WeaklyConnected N) (horder : ∀ l, (order l).Perm l) (hcord : ∀ m, (cord m).Perm (List.range m))
    {cols : List (List Nat)} {rows : List Assignment} (hc : Columns (fun i => dims.getD i 0) dims.length cols rows) {alpha : Int}
    (ha : 0 < alpha) (rnd : Nat → Nat → Nat) :
    ∃ pts : List (Table K), learnParams N cols dims.length rows.length alpha rnd [] = .ok pts ∧
      (∀ (i : Nat) s, N.nodes[i]? = some s → ∃ T, pts[i]? = some T ∧ IsFrequencyTable (fun i => dims.getD i 0) rows alpha i s.parents T) ∧
      ∃ (bound : Nat) (lo hi : K), 0 < lo ∧ ∀ ρ : K, 1 ≤ ρ → ρ ^ 3 ≤ 2 → ∀ ar : Arithmetic K, Accurate ar ρ lo hi →
        ∃ (pts' : List (Table (Rounded ar))) (J : JTree (Rounded ar)), learnParams N cols dims.length rows.length alpha rnd [] = .ok pts' ∧
          buildJunctionTree N (fun i => dims.getD i 0) pts' order cord = .ok J ∧
          ∀ E : List (Nat × Nat), (E.map Prod.fst).Nodup → (∀ e ∈ E, e.1 < dims.length ∧ e.2 < dims.getD e.1 0) →
            ∀ q < dims.length, q ∉ E.map Prod.fst → ∃ T, J.marginal E q = .ok (T, J) ∧ T.vars = [q] ∧ T.pot.length = dims.getD q 0 ∧
              ∀ x < dims.getD q 0, ∃ v : K, T.pot[x]? = some (Rounded.num v) ∧
                v ≤ posterior (fun i => dims.getD i 0) dims.length (joint pts) E q x * ρ ^ bound ∧
                posterior (fun i => dims.getD i 0) dims.length (joint pts) E q x ≤ v * ρ ^ bound := by
  obtain ⟨pts, h1, h3, hpts, hnn, hwt⟩ := learned_tables (K := K) hpos hops hN hc ha rnd
  obtain ⟨bound, lo, hi, hlo, hmain⟩ := C84_uniform hops hN h0 hw horder hcord hpts hnn
  -- a common bound for the numbers of values
  obtain ⟨D, hD⟩ : ∃ D : Nat, ∀ d ∈ dims, d ≤ D := ⟨dims.sum, fun d hd => List.single_le_sum (fun _ _ => Nat.zero_le _) _ hd⟩
  set M : K := (rows.length : K) + (alpha : K) * (D : K) + 1 with hM
  have ha1 : (1 : K) ≤ (alpha : K) := by exact_mod_cast ha
  have hM1 : 1 ≤ M := by
    have h4 : (0 : K) ≤ (rows.length : K) := Nat.cast_nonneg _
    have h5 : (0 : K) ≤ (alpha : K) * (D : K) := mul_nonneg (zero_le_one.trans ha1) (Nat.cast_nonneg _)
    linarith
  have hM0 : 0 < M := lt_of_lt_of_le zero_lt_one hM1
  refine ⟨pts, h1, h3, 3 * bound, min lo (1 / (4 * M)), max hi (M * 4), lt_min hlo (by positivity), ?_⟩
  intro ρ hρ hρ3 ar har
  have hρ0 : 0 < ρ := lt_of_lt_of_le zero_lt_one hρ
  have hρ13 : ρ ≤ ρ ^ 3 := le_self_pow₀ hρ (by norm_num)
  have hρ2 : ρ ^ 2 ≤ 4 := (pow_le_pow_right₀ hρ (by norm_num : 2 ≤ 3)).trans (hρ3.trans (by norm_num))
  have hdM : ∀ d ∈ dims, (rows.length : K) + (alpha : K) * (d : K) ≤ M := by
    intro d hd
    have h4 : (d : K) ≤ (D : K) := by exact_mod_cast hD d hd
    have := mul_le_mul_of_nonneg_left h4 (zero_le_one.trans ha1)
    linarith
  obtain ⟨pts0, pts', h4, -, h6, h7⟩ := C107_tables (K := K) hpos hops hN hc ha rnd hρ (lt_min hlo (by positivity)) har (by
    intro d hd
    have h8 := hdM d hd
    have h9 : (0 : K) ≤ (rows.length : K) + (alpha : K) * (d : K) :=
      add_nonneg (Nat.cast_nonneg _) (mul_nonneg (zero_le_one.trans ha1) (Nat.cast_nonneg _))
    constructor
    · calc min lo (1 / (4 * M)) * ρ ^ 2 * ((rows.length : K) + (alpha : K) * (d : K)) ≤ 1 / (4 * M) * 4 * M := by
            apply mul_le_mul _ h8 h9 (by positivity)
            exact mul_le_mul (min_le_right _ _) hρ2 (by positivity) (by positivity)
        _ = 1 := by field_simp
    · exact (mul_le_mul h8 hρ2 (by positivity) hM0.le).trans (le_max_right _ _))
  rw [h1] at h4
  cases h4
  obtain ⟨J, h8, h9⟩ := hmain (ρ ^ 3) (hρ.trans hρ13) hρ3 ar
    ((har.weaken hρ0 hρ13).mono (min_le_left _ _) (le_max_left _ _)) pts' h7
  refine ⟨pts', J, h6, h8, ?_⟩
  intro E hEn hE q hq hqE
  obtain ⟨T, k1, k2, k3, k4⟩ := h9 E hEn hE (hwt E hEn hE) q hq hqE
  refine ⟨T, k1, k2, k3, ?_⟩
  rw [pow_mul]
  exact k4

/-- C107.  Labels: if under the smoothed relative frequencies one value of the query node is more probable than the others by a factor greater
than `ρ ^ (2 * bound)`, it is predicted, whatever is rounded in learning and inference. -/
theorem C107_predict (hpos : ∀ d ∈ dims, 0 < d) (hops : ∀ op ∈ ops, OpInRange dims.length op) (hN : (Net.empty dims).run ops = .ok N)
    (h0 : dims ≠ []) (hw : WeaklyConnected N) (horder : ∀ l, (order l).Perm l) (hcord : ∀ m, (cord m).Perm (List.range m))
    {cols : List (List Nat)} {rows : List Assignment} (hc : Columns (fun i => dims.getD i 0) dims.length cols rows) {alpha : Int}
    (ha : 0 < alpha) (rnd : Nat → Nat → Nat) :
    ∃ pts : List (Table K), learnParams N cols dims.length rows.length alpha rnd [] = .ok pts ∧
      ∃ (bound : Nat) (lo hi : K), 0 < lo ∧ ∀ ρ : K, 1 ≤ ρ → ρ ^ 3 ≤ 2 → ∀ ar : Arithmetic K, Accurate ar ρ lo hi →
        ∃ (pts' : List (Table (Rounded ar))) (J : JTree (Rounded ar)), learnParams N cols dims.length rows.length alpha rnd [] = .ok pts' ∧
          buildJunctionTree N (fun i => dims.getD i 0) pts' order cord = .ok J ∧
          ∀ E : List (Nat × Nat), (E.map Prod.fst).Nodup → (∀ e ∈ E, e.1 < dims.length ∧ e.2 < dims.getD e.1 0) →
            ∀ q < dims.length, q ∉ E.map Prod.fst → ∀ l < dims.getD q 0,
              (∀ x < dims.getD q 0, x ≠ l → posterior (fun i => dims.getD i 0) dims.length (joint pts) E q x * ρ ^ (2 * bound) <
                posterior (fun i => dims.getD i 0) dims.length (joint pts) E q l) → J.predict E q = .ok (l, J) := by
  obtain ⟨pts, h1, -, bound, lo, hi, hlo, hmain⟩ := C107_answers (K := K) hpos hops hN h0 hw horder hcord hc ha rnd
  refine ⟨pts, h1, bound, lo, hi, hlo, ?_⟩
  intro ρ hρ hρ3 ar har
  obtain ⟨pts', J, h2, h3, h4⟩ := hmain ρ hρ hρ3 ar har
  refine ⟨pts', J, h2, h3, ?_⟩
  intro E hEn hE q hq hqE l hl hgap
  obtain ⟨T, k1, k2, k3, k4⟩ := h4 E hEn hE q hq hqE
  refine predict_of_gap (lt_of_lt_of_le zero_lt_one hρ) k1 k3 k4 hl ?_ hgap
  -- all answers are positive
  obtain ⟨pts0, g1, -, -, hnn, hwt⟩ := learned_tables (K := K) hpos hops hN hc ha rnd
  rw [h1] at g1
  cases g1
  refine lt_of_le_of_ne (posterior_nonneg hnn E q l) (Ne.symm ?_)
  unfold posterior
  refine div_ne_zero ?_ (hwt E hEn hE)
  rw [weight_iff (e' := Agrees ((q, l) :: E)) (fun s => by simp [Agrees, and_comm])]
  exact hwt _ (List.nodup_cons.2 ⟨hqE, hEn⟩) (List.forall_mem_cons.2 ⟨⟨hq, hl⟩, hE⟩)

end network

/-! ### Doubles -/

/-- Integers of at most 53 bits are `double`s. -/
theorem double_natCast {r : ℚ → ℤ} (hr : Nearest r) {n : Nat} (hn : n < 2 ^ 53) : double r (n : ℚ) = some (n : ℚ) := by
  rcases Nat.eq_zero_or_pos n with rfl | hn0
  · simp [double]
  have hx : (n : ℚ) ≠ 0 := by exact_mod_cast hn0.ne'
  have h1 : (1 : ℚ) ≤ n := by exact_mod_cast hn0
  have hlog : Int.log 2 (n : ℚ) = (Nat.log 2 n : ℤ) := Int.log_natCast 2 n
  have hL : Nat.log 2 n ≤ 52 := by
    have := Nat.log_lt_of_lt_pow hn0.ne' hn
    omega
  have hk : (2 : ℚ) ^ (52 - Int.log 2 (n : ℚ)) = ((2 ^ (52 - Nat.log 2 n) : ℕ) : ℚ) := by
    rw [hlog, show (52 : ℤ) - (Nat.log 2 n : ℤ) = ((52 - Nat.log 2 n : ℕ) : ℤ) by omega, zpow_natCast]
    push_cast
    rfl
  have hrj : r (((n * 2 ^ (52 - Nat.log 2 n) : ℕ) : ℤ) : ℚ) = ((n * 2 ^ (52 - Nat.log 2 n) : ℕ) : ℤ) := by
    have h2 := hr (((n * 2 ^ (52 - Nat.log 2 n) : ℕ) : ℤ) : ℚ)
    rw [← Int.cast_sub, ← Int.cast_abs] at h2
    have h3 : ((|r (((n * 2 ^ (52 - Nat.log 2 n) : ℕ) : ℤ) : ℚ) - ((n * 2 ^ (52 - Nat.log 2 n) : ℕ) : ℤ)| : ℤ) : ℚ) < ((1 : ℤ) : ℚ) :=
      lt_of_le_of_lt h2 (by norm_num)
    have h4 := Int.cast_lt.1 h3
    have h5 := Int.abs_lt_one_iff.1 h4
    omega
  have hy : (r ((n : ℚ) * 2 ^ (52 - Int.log 2 (n : ℚ))) : ℚ) / 2 ^ (52 - Int.log 2 (n : ℚ)) = n := by
    rw [hk]
    have h2 : (n : ℚ) * ((2 ^ (52 - Nat.log 2 n) : ℕ) : ℚ) = (((n * 2 ^ (52 - Nat.log 2 n) : ℕ) : ℤ) : ℚ) := by push_cast; rfl
    rw [h2, hrj, ← h2]
    exact mul_div_cancel_right₀ _ (by positivity)
  unfold double
  simp only [if_neg hx, hy]
  rw [if_pos]
  constructor
  · refine le_trans ?_ h1
    exact zpow_le_one_of_nonpos₀ (by norm_num) (by norm_num)
  · have h2 : (n : ℚ) < ((2 ^ 53 : ℕ) : ℚ) := by exact_mod_cast hn
    refine h2.trans_le ?_
    calc ((2 ^ 53 : ℕ) : ℚ) = (2 : ℚ) ^ (53 : ℤ) := by norm_cast
      _ ≤ 2 ^ (1024 : ℤ) := zpow_le_zpow_right₀ (by norm_num) (by norm_num)

/-- One entry computed with `double`s: the sums are exact, and the quotient is rounded. -/
theorem smoothed_double {r : ℚ → ℤ} (hr : Nearest r) {alpha : Int} (ha : 0 < alpha) {m d : Nat} (hd : 0 < d)
    (hm : (m : ℤ) + alpha * d < 2 ^ 53) : EntriesStand (1 + 2 ^ (-52 : ℤ)) (binary64 r) alpha m d := by
  intro n1 n2 h1 h2
  obtain ⟨k, rfl⟩ : ∃ k : Nat, alpha = k := ⟨alpha.toNat, by omega⟩
  have hk : 0 < k := by omega
  have hkd : k ≤ k * d := Nat.le_mul_of_pos_right _ hd
  have hm' : m + k * d < 2 ^ 53 := by exact_mod_cast hm
  have e1 : double r ((n1 : ℚ) + (k : ℚ)) = some (((n1 + k : ℕ)) : ℚ) := by
    rw [← Nat.cast_add]
    exact double_natCast hr (by omega)
  have e2 : double r ((n2 : ℚ) + ((k * d : ℕ) : ℚ)) = some (((n2 + k * d : ℕ)) : ℚ) := by
    rw [← Nat.cast_add]
    exact double_natCast hr (by omega)
  have ha0 : (1 : ℚ) ≤ ((n1 + k : ℕ) : ℚ) := by exact_mod_cast (by omega : 1 ≤ n1 + k)
  have hb0 : (1 : ℚ) ≤ ((n2 + k * d : ℕ) : ℚ) := by exact_mod_cast (by omega : 1 ≤ n2 + k * d)
  have hab : ((n1 + k : ℕ) : ℚ) ≤ ((n2 + k * d : ℕ) : ℚ) := by exact_mod_cast (by omega : n1 + k ≤ n2 + k * d)
  have hb53 : ((n2 + k * d : ℕ) : ℚ) ≤ ((2 ^ 53 : ℕ) : ℚ) := by exact_mod_cast (by omega : n2 + k * d ≤ 2 ^ 53)
  generalize hA : ((n1 + k : ℕ) : ℚ) = a at *
  generalize hB : ((n2 + k * d : ℕ) : ℚ) = b at *
  have hbp : 0 < b := lt_of_lt_of_le zero_lt_one hb0
  obtain ⟨c1, c2⟩ := double_roundsTo hr (x := a / b) (div_nonneg (zero_le_one.trans ha0) hbp.le)
  obtain ⟨v, ev⟩ := Option.ne_none_iff_exists'.1 (c2 (Or.inr ⟨by
    rw [le_div_iff₀ hbp]
    have h53 : (2 : ℚ) ^ (-1022 : ℤ) * ((2 ^ 53 : ℕ) : ℚ) ≤ 1 := by
      have : ((2 ^ 53 : ℕ) : ℚ) = (2 : ℚ) ^ (53 : ℤ) := by norm_cast
      rw [this, ← zpow_add₀ (by norm_num : (2 : ℚ) ≠ 0)]
      exact zpow_le_one_of_nonpos₀ (by norm_num) (by norm_num)
    have := mul_le_mul_of_nonneg_left hb53 (zpow_pos (by norm_num : (0 : ℚ) < 2) (-1022)).le
    linarith, by
    rw [div_le_iff₀ hbp]
    have h1 : (1 : ℚ) ≤ 2 ^ (1023 : ℤ) := one_le_zpow₀ (by norm_num) (by norm_num)
    exact hab.trans (le_mul_of_one_le_left hbp.le h1)⟩))
  refine ⟨a / b, Rounded.num v, ?_, ?_, v, rfl, c1 v ev⟩
  · unfold smoothed
    simp only [Int.cast_mul, Int.cast_natCast]
    have e3 : ((n2 : ℚ) + (k : ℚ) * (d : ℚ)) = b := by rw [← hB]; push_cast; rfl
    have e4 : ((n1 : ℚ) + (k : ℚ)) = a := by rw [← hA]; push_cast; rfl
    rw [e3, e4, if_neg hbp.ne']
  · have e3 : ((n2 : Rounded (binary64 r)) + (((k : Int) * (d : Int) : Int) : Rounded (binary64 r))) = Rounded.num b := by
      show double r ((n2 : ℚ) + (((k : Int) * (d : Int) : Int) : ℚ)) = some b
      rw [← e2]
      push_cast
      rfl
    have e4 : ((n1 : Rounded (binary64 r)) + ((k : Int) : Rounded (binary64 r))) = Rounded.num a := by
      show double r ((n1 : ℚ) + ((k : Int) : ℚ)) = some a
      rw [← e1]
      push_cast
      rfl
    have e5 : (Rounded.num a : Rounded (binary64 r)) / Rounded.num b = Rounded.num v :=
      (rounded_div (fun h => (lt_of_lt_of_le zero_lt_one ha0).ne' (Option.some.inj h))).trans ev
    unfold smoothed
    simp only
    rw [e3, e4, e5, if_neg]
    intro h
    exact hbp.ne' (Option.some.inj h)

/-- C107.  With `double`s, learning rounds once per probability: every learned number differs from the smoothed relative frequency by a factor
of at most `1 + 2^-52`.  The sizes are within `2^53`, which all `int`s are. -/
theorem C107_doubles {r : ℚ → ℤ} (hr : Nearest r) {dims : List Nat} {ops : List EdgeOp} {N : Net} (hpos : ∀ d ∈ dims, 0 < d)
    (hops : ∀ op ∈ ops, OpInRange dims.length op) (hN : (Net.empty dims).run ops = .ok N)
    {cols : List (List Nat)} {rows : List Assignment} (hc : Columns (fun i => dims.getD i 0) dims.length cols rows) {alpha : Int}
    (ha : 0 < alpha) (rnd : Nat → Nat → Nat) (hsize : ∀ d ∈ dims, (rows.length : ℤ) + alpha * d < 2 ^ 53) :
    ∃ (pts : List (Table ℚ)) (pts' : List (Table (Rounded (binary64 r)))), learnParams N cols dims.length rows.length alpha rnd [] = .ok pts ∧
      (∀ (i : Nat) s, N.nodes[i]? = some s → ∃ T, pts[i]? = some T ∧ IsFrequencyTable (fun i => dims.getD i 0) rows alpha i s.parents T) ∧
      learnParams N cols dims.length rows.length alpha rnd [] = .ok pts' ∧ StandForTables (1 + 2 ^ (-52 : ℤ)) pts pts' := by
  obtain ⟨N', hN', hlen, hshape, hinv⟩ := run_shape hops hpos
  rw [hN] at hN'
  cases hN'
  rw [← hlen] at hc ⊢
  obtain ⟨pts0, h1, -, h3⟩ := C22_learned (K := ℚ) hshape hc ha.le (fun e => absurd e ha.ne') rnd []
  rw [List.nil_append] at h1
  obtain ⟨pts, pts', h4, h5, h6⟩ := learnParams_rounded (K := ℚ) (ar := binary64 r) (c := 1 + 2 ^ (-52 : ℤ)) (alpha := alpha) hshape hc rnd (by
    intro i hi
    rw [hlen] at hi
    have hm : dims.getD i 0 ∈ dims := by
      rw [List.getD_eq_getElem?_getD, List.getElem?_eq_getElem hi]
      exact List.getElem_mem hi
    exact smoothed_double hr ha (hpos _ hm) (hsize _ hm))
  rw [h1] at h4
  cases h4
  exact ⟨pts0, pts', h1, h3, h5, h6⟩

/-- Three instances of two variables. -/
theorem three_columns : Columns (fun i => [2, 2].getD i 0) 2 [[0, 0, 1], [0, 1, 1]] [fun _ => 0, fun v => v, fun _ => 1] := by
  refine ⟨fun v hv => ?_, ?_⟩
  · have : v = 0 ∨ v = 1 := by omega
    rcases this with rfl | rfl
    · refine ⟨[0, 0, 1], rfl, ?_⟩
      intro j r
      match j with
      | 0 | 1 | 2 => simp; rintro rfl; rfl
      | j + 3 => simp
    · refine ⟨[0, 1, 1], rfl, ?_⟩
      intro j r
      match j with
      | 0 | 1 | 2 => simp; rintro rfl; rfl
      | j + 3 => simp
  · intro r hr v hv
    have : v = 0 ∨ v = 1 := by omega
    simp at hr
    rcases hr with rfl | rfl | rfl <;> rcases this with rfl | rfl <;> decide

/-- The network 0 → 1 learned from them with `double`s: the numbers are those of exact learning up to a factor `1 + 2^-52`. -/
example {r : ℚ → ℤ} (hr : Nearest r) : ∃ N, (Net.empty [2, 2]).run [.addDirected 0 1] = .ok N ∧
    ∃ pts' : List (Table (Rounded (binary64 r))), learnParams N [[0, 0, 1], [0, 1, 1]] 2 3 1 (fun _ _ => 0) [] = .ok pts' ∧
      StandForTables (1 + 2 ^ (-52 : ℤ))
        [⟨[0], [2], [1], 2, [3 / 5, 2 / 5]⟩, ⟨[1, 0], [2, 2], [2, 1], 4, [1 / 2, 1 / 3, 1 / 2, 2 / 3]⟩] pts' := by
  have hops : ∀ op ∈ [EdgeOp.addDirected 0 1], OpInRange [2, 2].length op := by
    intro op h; simp at h; subst h; exact ⟨by decide, by decide⟩
  obtain ⟨N, hN, _⟩ := run_shape (dims := [2, 2]) hops (by decide)
  refine ⟨N, hN, ?_⟩
  obtain ⟨pts, pts', h1, _, h2, h3⟩ := C107_doubles hr (dims := [2, 2]) (by decide) hops hN three_columns (alpha := 1) (by decide) (fun _ _ => 0)
    (by decide)
  have h4 : ((Net.empty [2, 2]).run [.addDirected 0 1] >>= fun N =>
      learnParams (K := ℚ) N [[0, 0, 1], [0, 1, 1]] 2 3 1 (fun _ _ => 0) []) =
      .ok [⟨[0], [2], [1], 2, [3 / 5, 2 / 5]⟩, ⟨[1, 0], [2, 2], [2, 1], 4, [1 / 2, 1 / 3, 1 / 2, 2 / 3]⟩] := by decide +kernel
  rw [hN, ok_bind] at h4
  have h5 := h1.symm.trans h4
  cases h5
  exact ⟨pts', h2, h3⟩

/-- The hypotheses of `C107_answers` and `C107_predict` hold for it: the answers about node 1 given node 0 are those of exact arithmetic up to
rounding, in every accurate arithmetic. -/
example : ∃ N, (Net.empty [2, 2]).run [.addDirected 0 1] = .ok N ∧ ∃ (bound : Nat) (lo hi : ℚ), 0 < lo ∧
    ∀ ρ : ℚ, 1 ≤ ρ → ρ ^ 3 ≤ 2 → ∀ ar : Arithmetic ℚ, Accurate ar ρ lo hi →
      ∃ (pts' : List (Table (Rounded ar))) (J : JTree (Rounded ar)), learnParams N [[0, 0, 1], [0, 1, 1]] 2 3 1 (fun _ _ => 0) [] = .ok pts' ∧
        buildJunctionTree N (fun i => [2, 2].getD i 0) pts' id List.range = .ok J ∧
        ∃ T, J.marginal [(0, 1)] 1 = .ok (T, J) ∧ ∃ v w : ℚ, T.pot = [Rounded.num v, Rounded.num w] ∧
          v ≤ 1 / 3 * ρ ^ bound ∧ 1 / 3 ≤ v * ρ ^ bound ∧ w ≤ 2 / 3 * ρ ^ bound ∧ 2 / 3 ≤ w * ρ ^ bound := by
  have hops : ∀ op ∈ [EdgeOp.addDirected 0 1], OpInRange [2, 2].length op := by
    intro op h; simp at h; subst h; exact ⟨by decide, by decide⟩
  obtain ⟨N, hN, _⟩ := run_shape (dims := [2, 2]) hops (by decide)
  refine ⟨N, hN, ?_⟩
  have hw : WeaklyConnected N := by
    have h01 : Linked N 0 1 := Or.inl (by cases hN; exact ⟨_, rfl, by decide⟩)
    have hlen : N.nodes.length = 2 := by cases hN; rfl
    intro i j hi hj
    rw [hlen] at hi hj
    have hi' : i = 0 ∨ i = 1 := by omega
    have hj' : j = 0 ∨ j = 1 := by omega
    rcases hi' with rfl | rfl <;> rcases hj' with rfl | rfl
    · exact .refl
    · exact .single h01
    · exact .single h01.symm
    · exact .refl
  obtain ⟨pts, h1, _, bound, lo, hi, hlo, hmain⟩ := C107_answers (K := ℚ) (dims := [2, 2]) (order := id) (cord := List.range) (by decide) hops hN
    (by simp) hw (fun _ => List.Perm.refl _) (fun _ => List.Perm.refl _) three_columns (alpha := 1) (by decide) (fun _ _ => 0)
  have h4 : ((Net.empty [2, 2]).run [.addDirected 0 1] >>= fun N =>
      learnParams (K := ℚ) N [[0, 0, 1], [0, 1, 1]] 2 3 1 (fun _ _ => 0) []) =
      .ok [⟨[0], [2], [1], 2, [3 / 5, 2 / 5]⟩, ⟨[1, 0], [2, 2], [2, 1], 4, [1 / 2, 1 / 3, 1 / 2, 2 / 3]⟩] := by decide +kernel
  rw [hN, ok_bind] at h4
  have h5 := h1.symm.trans h4
  cases h5
  refine ⟨bound, lo, hi, hlo, ?_⟩
  intro ρ hρ hρ3 ar har
  obtain ⟨pts', J, k1, k2, k3⟩ := hmain ρ hρ hρ3 ar har
  refine ⟨pts', J, k1, k2, ?_⟩
  obtain ⟨T, m1, _, m2, m3⟩ := k3 [(0, 1)] (by decide) (by decide) 1 (by decide) (by decide)
  obtain ⟨v, v1, v2, v3⟩ := m3 0 (by decide)
  obtain ⟨w, w1, w2, w3⟩ := m3 1 (by decide)
  have e0 : posterior (fun i => [2, 2].getD i 0) 2 (joint ([⟨[0], [2], [1], 2, [3 / 5, 2 / 5]⟩,
    ⟨[1, 0], [2, 2], [2, 1], 4, [1 / 2, 1 / 3, 1 / 2, 2 / 3]⟩] : List (Table ℚ))) [(0, 1)] 1 0 = 1 / 3 := by decide +kernel
  have e1 : posterior (fun i => [2, 2].getD i 0) 2 (joint ([⟨[0], [2], [1], 2, [3 / 5, 2 / 5]⟩,
    ⟨[1, 0], [2, 2], [2, 1], 4, [1 / 2, 1 / 3, 1 / 2, 2 / 3]⟩] : List (Table ℚ))) [(0, 1)] 1 1 = 2 / 3 := by decide +kernel
  refine ⟨T, m1, v, w, ?_, ?_⟩
  · match hT : T.pot, m2 with
    | [a, b], _ =>
      rw [hT] at v1 w1
      simp only [List.getElem?_cons_zero, List.getElem?_cons_succ, Option.some.injEq] at v1 w1
      rw [v1, w1]
  · exact ⟨e0 ▸ v2, e0 ▸ v3, e1 ▸ w2, e1 ▸ w3⟩

end FastPGM
