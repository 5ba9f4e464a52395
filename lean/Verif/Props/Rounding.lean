import Verif.Props.JunctionTreeInference
import Verif.Props.Evaluation
import Verif.Lemmas.Rounding
import Mathlib.Data.Set.Finite.Lattice
import Mathlib.Tactic.Positivity
import Mathlib.Tactic.NormNum
import Mathlib.Tactic.Linarith

/-!
The answers of the junction tree computed with rounded arithmetic (C84).
-/

namespace FastPGM

open Spec

variable {K : Type}

/-- A tree just built is in the state it is reset to. -/
theorem build_backup [Zero K] [One K] [Mul K] {N : Net} {card : Nat → Nat} {pts : List (Table K)}
    {order : List (Nat × Nat) → List (Nat × Nat)} {cord : Nat → List Nat} {J : JTree K}
    (h : buildJunctionTree N card pts order cord = .ok J) : J.backup = J.state := by
  unfold buildJunctionTree at h
  obtain ⟨_, _, h⟩ := bind_eq_ok h
  obtain ⟨_, _, h⟩ := bind_eq_ok h
  obtain ⟨_, _, h⟩ := bind_eq_ok h
  obtain ⟨_, _, h⟩ := bind_eq_ok h
  obtain ⟨_, _, h⟩ := bind_eq_ok h
  obtain ⟨_, _, h⟩ := bind_eq_ok h
  obtain ⟨_, _, h⟩ := bind_eq_ok h
  cases h
  rfl

theorem marginal_reset [Zero K] [Add K] [Mul K] [Div K] [DecidableEq K] {J J' : JTree K} (hJ : J.backup = J.state) {E : List (Nat × Nat)}
    {q : Nat} {T : Table K} (h : J.marginal E q = .ok (T, J')) : J' = J := by
  unfold JTree.marginal at h
  obtain ⟨_, _, h⟩ := bind_eq_ok h
  obtain ⟨_, _, h⟩ := bind_eq_ok h
  cases h
  obtain ⟨_, _, _, _, _, _⟩ := J
  cases hJ
  rfl

/-- The answer from which a label is predicted. -/
theorem predict_of_marginal [Zero K] [Add K] [Mul K] [Div K] [LT K] [DecidableLT K] [DecidableEq K] {J J' : JTree K} {E : List (Nat × Nat)}
    {q : Nat} {T : Table K} (h : J.marginal E q = .ok (T, J')) {l : Nat} (hl : argMax T.pot = .ok l) : J.predict E q = .ok (l, J') := by
  unfold JTree.marginal at h
  obtain ⟨st, h1, h⟩ := bind_eq_ok h
  obtain ⟨T', h2, h⟩ := bind_eq_ok h
  cases h
  unfold JTree.predict
  rw [h1, ok_bind, h2, ok_bind, hl]
  rfl

/-- On numbers within the range `ArgMax` does the same for both kinds of numbers. -/
theorem argMax_num [Field K] [LinearOrder K] {ar : Arithmetic K} (l : List K) : argMax (l.map (Rounded.num (ar := ar))) = argMax l := by
  have key : ExRel (fun (x : Rounded ar × Option Nat) (y : K × Option Nat) => x = (Rounded.num y.1, y.2))
      ((List.range (l.map (Rounded.num (ar := ar))).length).foldlM (fun (st : Rounded ar × Option Nat) i => do
        let a ← rd (l.map Rounded.num) i
        if st.1 < a then return (a, some i) else (return st : Except Fault _)) (0, none))
      ((List.range l.length).foldlM (fun (st : K × Option Nat) i => do
        let a ← rd l i
        if st.1 < a then return (a, some i) else (return st : Except Fault _)) (0, none)) := by
    rw [List.length_map]
    refine ExRel.foldlM (fun i x y h => ?_) _ rfl
    subst h
    refine ExRel.bind (S := fun (a : Rounded ar) (b : K) => a = Rounded.num b) ?_ (fun a b hab => ?_)
    · refine ExRel.rd ?_ i
      rw [List.forall₂_map_left_iff, List.forall₂_same]
      exact fun _ _ => rfl
    · subst hab
      refine ExRel.ite ?_ (fun _ _ => rfl) (fun _ _ => rfl)
      constructor
      · rintro ⟨c, d, h1, h2, h3⟩
        cases h1
        cases h2
        exact h3
      · exact fun h => ⟨_, _, rfl, rfl, h⟩
  unfold argMax
  generalize (List.range l.length).foldlM (fun (st : K × Option Nat) i => do
        let a ← rd l i
        if st.1 < a then return (a, some i) else (return st : Except Fault _)) (0, none) = y at key ⊢
  generalize (List.range (l.map (Rounded.num (ar := ar))).length).foldlM (fun (st : Rounded ar × Option Nat) i => do
        let a ← rd (l.map Rounded.num) i
        if st.1 < a then return (a, some i) else (return st : Except Fault _)) (0, none) = x at key ⊢
  cases x with
  | error e => cases y with
    | error e' => cases key; rfl
    | ok b => exact key.elim
  | ok a => cases y with
    | error e' => exact key.elim
    | ok b => cases key; rfl

variable [Field K] [LinearOrder K] [IsStrictOrderedRing K] {dims : List Nat} {ops : List EdgeOp} {N : Net}
  {order : List (Nat × Nat) → List (Nat × Nat)} {cord : Nat → List Nat} {card : Nat → Nat} {pts : List (Table K)}

theorem tracked_rel (hnn : ∀ T ∈ pts, ∀ x ∈ T.pot, 0 ≤ x) {J0 J1 : JTree (Tracked K)} {T0 : Table (Tracked K)}
    (hb : buildJunctionTree N card (pts.map Table.track) order cord = .ok J0) {E : List (Nat × Nat)} {q : Nat}
    (hm : J0.marginal E q = .ok (T0, J1)) {ρ lo hi : K} (hρ : 1 ≤ ρ) (hlo : 0 ≤ lo) {ar : Arithmetic K} (har : Accurate ar ρ lo hi)
    {pts' : List (Table (Rounded ar))} (hp : StandForTables ρ pts pts') :
    ∃ J T, buildJunctionTree N card pts' order cord = .ok J ∧ J.marginal E q = .ok (T, J) ∧ TableRel (RoundRel ρ lo hi) T0 T := by
  have hR := roundRel_ops hρ hlo har
  have h1 := buildJunctionTree_rel hR N card (roundRel_tables hnn hρ hp) order cord
  rw [hb] at h1
  cases hJ : buildJunctionTree N card pts' order cord with
  | error e => rw [hJ] at h1; exact h1.elim
  | ok J =>
    rw [hJ] at h1
    have h2 := marginal_rel hR E q h1
    rw [hm] at h2
    cases hT : J.marginal E q with
    | error e => rw [hT] at h2; exact h2.elim
    | ok TJ =>
      obtain ⟨T, J'⟩ := TJ
      rw [hT] at h2
      have h3 := marginal_reset (build_backup hJ) hT
      subst h3
      exact ⟨J', T, rfl, hT, h2.1⟩

/-- C84.  What a run on tracked numbers says about every run on machine numbers: the answer of the machine is as close to the exact answer as
the tracked numbers say. -/
theorem C84_tracked (hnn : ∀ T ∈ pts, ∀ x ∈ T.pot, 0 ≤ x) {J0 J1 : JTree (Tracked K)} {T0 : Table (Tracked K)}
    (hb : buildJunctionTree N card (pts.map Table.track) order cord = .ok J0) {E : List (Nat × Nat)} {q : Nat}
    (hm : J0.marginal E q = .ok (T0, J1)) {ρ lo hi : K} (hρ : 1 ≤ ρ) (hlo : 0 ≤ lo) {ar : Arithmetic K} (har : Accurate ar ρ lo hi)
    {pts' : List (Table (Rounded ar))} (hp : StandForTables ρ pts pts') :
    ∃ J T, buildJunctionTree N card pts' order cord = .ok J ∧ J.marginal E q = .ok (T, J) ∧ T.vars = T0.vars ∧
      T.pot.length = T0.pot.length ∧ ∀ (x : Nat) (t : Tracked K), T0.pot[x]? = some t →
        lo * ρ ^ t.err ≤ t.lo → t.hi * ρ ^ t.err ≤ hi →
        ∃ v : K, T.pot[x]? = some (Rounded.num v) ∧ v ≤ t.val * ρ ^ t.err ∧ t.val ≤ v * ρ ^ t.err := by
  obtain ⟨J, T, hJ, hT, h4⟩ := tracked_rel hnn hb hm hρ hlo har hp
  refine ⟨J, T, hJ, hT, h4.vars.symm, h4.pot.length_eq.symm, ?_⟩
  intro x t hx g1 g2
  have hlt : x < T0.pot.length := (List.getElem?_eq_some_iff.1 hx).1
  have hlt' : x < T.pot.length := by rw [← h4.pot.length_eq]; exact hlt
  have h5 : RoundRel ρ lo hi t (T.pot[x]) := by
    have := h4.pot.get hlt hlt'
    have e := (List.getElem?_eq_some_iff.1 hx).2
    simp only [List.get_eq_getElem] at this
    rw [e] at this
    exact this
  have h6 := h5.isSome g1 g2
  cases hv : (show Option K from T.pot[x]) with
  | none => exact absurd hv h6
  | some v =>
    refine ⟨v, ?_, h5.close v hv⟩
    rw [List.getElem?_eq_getElem hlt']
    exact congrArg some hv

/-- Arithmetic without rounding. -/
def exactArithmetic : Arithmetic K := ⟨fun a b => some (a + b), fun a b => some (a * b), fun a b => some (a / b)⟩

omit [IsStrictOrderedRing K] in
theorem exactArithmetic_accurate (lo hi : K) : Accurate (exactArithmetic (K := K)) 1 lo hi := by
  have key : ∀ x : K, RoundsTo 1 lo hi (some x) x := by
    intro x
    refine ⟨fun y h => ?_, fun _ h => by cases h⟩
    cases h
    rw [mul_one]
    exact ⟨le_rfl, le_rfl⟩
  exact ⟨fun _ _ _ _ => key _, fun _ _ _ _ => key _, fun _ _ _ _ => key _⟩

omit [IsStrictOrderedRing K] in
theorem exists_tables (pts : List (Table K)) : ∃ pts' : List (Table (Rounded (exactArithmetic (K := K)))), StandForTables 1 pts pts' := by
  refine ⟨pts.map (fun T => ⟨T.vars, T.dims, T.cum, T.size, T.pot.map Rounded.num⟩), ?_⟩
  unfold StandForTables
  rw [List.forall₂_map_right_iff, List.forall₂_same]
  intro T _
  refine ⟨rfl, rfl, rfl, rfl, ?_⟩
  show List.Forall₂ _ T.pot (T.pot.map _)
  rw [List.forall₂_map_right_iff, List.forall₂_same]
  intro x _
  exact ⟨x, rfl, by rw [mul_one], by rw [mul_one]⟩

omit [Field K] [IsStrictOrderedRing K] in
theorem exists_bounds [Field K] [IsStrictOrderedRing K] (l : List (Tracked K)) (h : ∀ t ∈ l, 0 < t.lo) :
    ∃ (b : Nat) (lo hi : K), 0 < lo ∧ ∀ t ∈ l, t.err ≤ b ∧ lo ≤ t.lo ∧ t.hi ≤ hi := by
  induction l with
  | nil => exact ⟨0, 1, 1, zero_lt_one, fun _ h => absurd h List.not_mem_nil⟩
  | cons t l ih =>
    obtain ⟨b, lo, hi, h1, h2⟩ := ih (fun t ht => h t (List.mem_cons_of_mem _ ht))
    refine ⟨max b t.err, min lo t.lo, max hi t.hi, lt_min h1 (h t List.mem_cons_self), ?_⟩
    intro s hs
    rcases List.mem_cons.1 hs with rfl | hs
    · exact ⟨le_max_right _ _, min_le_right _ _, le_max_right _ _⟩
    · obtain ⟨h3, h4, h5⟩ := h2 s hs
      exact ⟨h3.trans (le_max_left _ _), (min_le_left _ _).trans h4, h5.trans (le_max_left _ _)⟩

theorem rounded_posterior_of_inv (hinv : NetInv N) (hlen : N.nodes.length = dims.length) (h0 : dims ≠ [])
    (hw : WeaklyConnected N) (horder : ∀ l, (order l).Perm l) (hcord : ∀ m, (cord m).Perm (List.range m)) (hpts : NodeTables card N pts)
    (hnn : ∀ T ∈ pts, ∀ x ∈ T.pot, 0 ≤ x) {E : List (Nat × Nat)} (hEn : (E.map Prod.fst).Nodup) (hE : ∀ e ∈ E, e.1 < dims.length)
    (hpos : weight card dims.length (joint pts) (Agrees E) ≠ 0) {q : Nat} (hq : q < dims.length) (hqE : q ∉ E.map Prod.fst) :
    ∃ (bound : Nat) (lo hi : K), 0 < lo ∧ ∀ (ρ : K), 1 ≤ ρ → ρ ≤ 2 → ∀ ar : Arithmetic K, Accurate ar ρ lo hi →
      ∀ pts' : List (Table (Rounded ar)), StandForTables ρ pts pts' →
        ∃ J T, buildJunctionTree N card pts' order cord = .ok J ∧ J.marginal E q = .ok (T, J) ∧ T.vars = [q] ∧ T.pot.length = card q ∧
          ∀ x < card q, ∃ v : K, T.pot[x]? = some (Rounded.num v) ∧
            v ≤ posterior card dims.length (joint pts) E q x * ρ ^ bound ∧
            posterior card dims.length (joint pts) E q x ≤ v * ρ ^ bound := by
  obtain ⟨J, T, h1, h2, h3, h4, h5⟩ := posterior_of_inv hinv hlen h0 hw horder hcord hpts hnn hEn hE hpos hq hqE
  have hr := buildJunctionTree_rel (exactRel_ops (K := K)) N card (pts := pts.map Table.track) (pts' := pts)
    (by rw [List.forall₂_map_left_iff, List.forall₂_same]; exact fun T _ => exactRel_track T) order cord
  rw [h1] at hr
  cases hJ : buildJunctionTree N card (pts.map Table.track) order cord with
  | error e => rw [hJ] at hr; exact hr.elim
  | ok J0 =>
    rw [hJ] at hr
    have hr2 := marginal_rel exactRel_ops E q hr
    rw [h2] at hr2
    cases hT : J0.marginal E q with
    | error e => rw [hT] at hr2; exact hr2.elim
    | ok TJ =>
      obtain ⟨T0, J1⟩ := TJ
      rw [hT] at hr2
      obtain ⟨hTT, _⟩ := hr2
      have hlop : ∀ t ∈ T0.pot, 0 < t.lo := by
        obtain ⟨pts', hp⟩ := exists_tables pts
        obtain ⟨_, T', _, _, hrel⟩ := tracked_rel hnn hJ hT le_rfl (le_refl 0) (exactArithmetic_accurate 0 0) hp
        intro t ht
        obtain ⟨x, hx, rfl⟩ := List.getElem_of_mem ht
        have := hrel.pot.get hx (by rw [← hrel.pot.length_eq]; exact hx)
        exact this.lo_pos
      obtain ⟨bound, lo, hi, hlo, hbd⟩ := exists_bounds T0.pot hlop
      refine ⟨bound, lo / 2 ^ bound, max hi 0 * 2 ^ bound, by positivity, ?_⟩
      intro ρ hρ hρ2 ar har pts' hp
      have hρ0 : 0 < ρ := lt_of_lt_of_le zero_lt_one hρ
      obtain ⟨J', T', e1, e2, e3, e4, e5⟩ := C84_tracked hnn hJ hT hρ (by positivity) har hp
      refine ⟨J', T', e1, e2, by rw [e3, hTT.vars, h3], by rw [e4, hTT.pot.length_eq, h4], ?_⟩
      intro x hx
      have hx0 : x < T0.pot.length := by rw [hTT.pot.length_eq, h4]; exact hx
      have hx1 : x < T.pot.length := by rw [h4]; exact hx
      have hval : T0.pot[x].val = posterior card dims.length (joint pts) E q x := by
        have h6 := (hTT.pot.get hx0 hx1).1
        simp only [List.get_eq_getElem] at h6
        have h7 := h5 x hx
        rw [List.getElem?_eq_getElem hx1, Option.some.injEq] at h7
        rw [h6, h7]
      have hnonneg : 0 ≤ T0.pot[x].val := by
        obtain ⟨pts', hp⟩ := exists_tables pts
        obtain ⟨_, T', _, _, hrel⟩ := tracked_rel hnn hJ hT le_rfl (le_refl 0) (exactArithmetic_accurate 0 0) hp
        exact (hrel.pot.get hx0 (by rw [← hrel.pot.length_eq]; exact hx0)).nonneg
      obtain ⟨b1, b2, b3⟩ := hbd _ (List.getElem_mem hx0)
      have hpw : ρ ^ T0.pot[x].err ≤ 2 ^ bound :=
        (pow_le_pow_left₀ hρ0.le hρ2 _).trans (pow_le_pow_right₀ one_le_two b1)
      have hpb : ρ ^ T0.pot[x].err ≤ ρ ^ bound := pow_le_pow_right₀ hρ b1
      have g1 : lo / 2 ^ bound * ρ ^ T0.pot[x].err ≤ T0.pot[x].lo := by
        refine le_trans ?_ b2
        rw [div_mul_eq_mul_div, div_le_iff₀ (by positivity)]
        exact mul_le_mul_of_nonneg_left hpw hlo.le
      have g2 : T0.pot[x].hi * ρ ^ T0.pot[x].err ≤ max hi 0 * 2 ^ bound :=
        mul_le_mul (b3.trans (le_max_left _ _)) hpw (pow_pos hρ0 _).le (le_max_right _ _)
      obtain ⟨v, e6, e7, e8⟩ := e5 x _ (List.getElem?_eq_getElem hx0) g1 g2
      rw [hval] at e7 e8 hnonneg
      refine ⟨v, e6, e7.trans (mul_le_mul_of_nonneg_left hpb hnonneg), e8.trans (mul_le_mul_of_nonneg_left hpb ?_)⟩
      exact nonneg_of_mul_nonneg_left (hnonneg.trans e8) (pow_pos hρ0 _)

/-- C84.  For evidence of positive probability there are a number `bound` and a range that do not depend on the machine arithmetic: if the
arithmetic makes errors of at most a factor `ρ ≤ 2` and does not overflow or underflow in that range, then the answer computed with it, from
tables that are rounded themselves, differs from the conditional distribution given the evidence by at most a factor `ρ ^ bound`. -/
theorem C84_posterior (hops : ∀ op ∈ ops, OpInRange dims.length op) (hN : (Net.empty dims).run ops = .ok N) (h0 : dims ≠ [])
    (hw : WeaklyConnected N) (horder : ∀ l, (order l).Perm l) (hcord : ∀ m, (cord m).Perm (List.range m)) (hpts : NodeTables card N pts)
    (hnn : ∀ T ∈ pts, ∀ x ∈ T.pot, 0 ≤ x) {E : List (Nat × Nat)} (hEn : (E.map Prod.fst).Nodup) (hE : ∀ e ∈ E, e.1 < dims.length)
    (hpos : weight card dims.length (joint pts) (Agrees E) ≠ 0) {q : Nat} (hq : q < dims.length) (hqE : q ∉ E.map Prod.fst) :
    ∃ (bound : Nat) (lo hi : K), 0 < lo ∧ ∀ (ρ : K), 1 ≤ ρ → ρ ≤ 2 → ∀ ar : Arithmetic K, Accurate ar ρ lo hi →
      ∀ pts' : List (Table (Rounded ar)), StandForTables ρ pts pts' →
        ∃ J T, buildJunctionTree N card pts' order cord = .ok J ∧ J.marginal E q = .ok (T, J) ∧ T.vars = [q] ∧ T.pot.length = card q ∧
          ∀ x < card q, ∃ v : K, T.pot[x]? = some (Rounded.num v) ∧
            v ≤ posterior card dims.length (joint pts) E q x * ρ ^ bound ∧
            posterior card dims.length (joint pts) E q x ≤ v * ρ ^ bound := by
  obtain ⟨hinv, hlen⟩ := netInv_of_run hops hN
  exact rounded_posterior_of_inv hinv hlen h0 hw horder hcord hpts hnn hEn hE hpos hq hqE

theorem build_rounded (hinv : NetInv N) (hlen : N.nodes.length = dims.length) (h0 : dims ≠ [])
    (hw : WeaklyConnected N) (horder : ∀ l, (order l).Perm l) (hcord : ∀ m, (cord m).Perm (List.range m)) (hpts : NodeTables card N pts)
    (hnn : ∀ T ∈ pts, ∀ x ∈ T.pot, 0 ≤ x) {ρ lo hi : K} (hρ : 1 ≤ ρ) (hlo : 0 ≤ lo) {ar : Arithmetic K} (har : Accurate ar ρ lo hi)
    {pts' : List (Table (Rounded ar))} (hp : StandForTables ρ pts pts') : ∃ J, buildJunctionTree N card pts' order cord = .ok J := by
  obtain ⟨J, _, _, _, _, _, _, _, h1, _⟩ := built_of_inv (K := K) hinv (by rw [hlen]; exact List.length_pos_iff.2 h0) hw horder hcord hpts
  have hr := buildJunctionTree_rel (exactRel_ops (K := K)) N card (pts := pts.map Table.track) (pts' := pts)
    (by rw [List.forall₂_map_left_iff, List.forall₂_same]; exact fun T _ => exactRel_track T) order cord
  have hr' := buildJunctionTree_rel (roundRel_ops hρ hlo har) N card (roundRel_tables hnn hρ hp) order cord
  rw [h1] at hr
  cases hJ : buildJunctionTree N card (pts.map Table.track) order cord with
  | error e => rw [hJ] at hr; exact hr.elim
  | ok J0 =>
    rw [hJ] at hr'
    cases hJ' : buildJunctionTree N card pts' order cord with
    | error e => rw [hJ'] at hr'; exact hr'.elim
    | ok J => exact ⟨J, rfl⟩

omit [IsStrictOrderedRing K] in
theorem Spec.Accurate.mono {ar : Arithmetic K} {ρ lo hi lo' hi' : K} (h : Accurate ar ρ lo hi) (h1 : lo ≤ lo') (h2 : hi' ≤ hi) :
    Accurate ar ρ lo' hi' := by
  have key : ∀ {o : Option K} {x : K}, RoundsTo ρ lo hi o x → RoundsTo ρ lo' hi' o x := by
    intro o x hx
    refine ⟨hx.1, fun h => hx.2 (h.imp id (fun h => ⟨h1.trans h.1, h.2.trans h2⟩))⟩
  exact ⟨fun a b ha hb => key (h.add a b ha hb), fun a b ha hb => key (h.mul a b ha hb), fun a b ha hb => key (h.div a b ha hb)⟩

/-- Finitely many claims that stay true for larger bounds and smaller ranges have common bounds. -/
theorem exists_common {ι : Type} {s : Set ι} (hs : s.Finite) {P : ι → Nat → K → K → Prop}
    (mono : ∀ i b lo hi b' lo' hi', P i b lo hi → b ≤ b' → lo' ≤ lo → hi ≤ hi' → P i b' lo' hi')
    (h : ∀ i ∈ s, ∃ b lo hi, 0 < lo ∧ P i b lo hi) : ∃ b lo hi, 0 < lo ∧ ∀ i ∈ s, P i b lo hi := by
  induction s, hs using Set.Finite.induction_on with
  | empty => exact ⟨0, 1, 1, zero_lt_one, fun i hi => absurd hi (Set.notMem_empty i)⟩
  | insert _ _ ih =>
    obtain ⟨b, lo, hi, h1, h2⟩ := ih (fun i hi => h i (Set.mem_insert_of_mem _ hi))
    obtain ⟨b', lo', hi', h3, h4⟩ := h _ (Set.mem_insert _ _)
    refine ⟨max b b', min lo lo', max hi hi', lt_min h1 h3, ?_⟩
    intro i hi
    rcases Set.mem_insert_iff.1 hi with rfl | hi
    · exact mono _ _ _ _ _ _ _ h4 (le_max_right _ _) (min_le_right _ _) (le_max_right _ _)
    · exact mono _ _ _ _ _ _ _ (h2 i hi) (le_max_left _ _) (min_le_left _ _) (le_max_left _ _)

theorem finite_lists {α : Type} {s : Set α} (hs : s.Finite) (n : Nat) : {l : List α | l.length ≤ n ∧ ∀ x ∈ l, x ∈ s}.Finite := by
  induction n with
  | zero =>
    refine (Set.finite_singleton ([] : List α)).subset ?_
    rintro l ⟨h, _⟩
    exact List.length_eq_zero_iff.1 (by omega)
  | succ n ih =>
    refine ((Set.finite_singleton ([] : List α)).union (Set.Finite.image2 List.cons hs ih)).subset ?_
    rintro l ⟨h1, h2⟩
    cases l with
    | nil => exact Or.inl rfl
    | cons a l =>
      refine Or.inr ⟨a, h2 a List.mem_cons_self, l, ⟨?_, fun x hx => h2 x (List.mem_cons_of_mem _ hx)⟩, rfl⟩
      rw [List.length_cons] at h1
      omega

/-- There are finitely many questions to a network. -/
theorem finite_questions (n : Nat) (card : Nat → Nat) :
    {Eq : List (Nat × Nat) × Nat | ((Eq.1.map Prod.fst).Nodup ∧ ∀ e ∈ Eq.1, e.1 < n ∧ e.2 < card e.1) ∧ Eq.2 < n}.Finite := by
  have h1 : {e : Nat × Nat | e.1 < n ∧ e.2 < card e.1}.Finite := by
    refine (((Finset.range n).product (Finset.range (((List.range n).map card).sum))).finite_toSet).subset ?_
    rintro ⟨i, x⟩ ⟨h1, h2⟩
    simp only [Finset.product_eq_sprod, Finset.coe_product, Set.mem_prod, Finset.mem_coe, Finset.mem_range]
    refine ⟨h1, lt_of_lt_of_le h2 ?_⟩
    exact List.single_le_sum (fun _ _ => Nat.zero_le _) _ (List.mem_map.2 ⟨i, List.mem_range.2 h1, rfl⟩)
  refine ((finite_lists h1 n).prod (Set.finite_lt_nat n)).subset ?_
  rintro ⟨E, q⟩ ⟨⟨h2, h3⟩, h4⟩
  refine ⟨⟨?_, h3⟩, h4⟩
  have : (E.map Prod.fst).length ≤ (List.range n).length := by
    apply (List.subperm_of_subset h2 _).length_le
    intro x hx
    obtain ⟨e, he, rfl⟩ := List.mem_map.1 hx
    exact List.mem_range.2 (h3 e he).1
  simpa using this

theorem rounded_uniform_of_inv (hinv : NetInv N) (hlen : N.nodes.length = dims.length) (h0 : dims ≠ [])
    (hw : WeaklyConnected N) (horder : ∀ l, (order l).Perm l) (hcord : ∀ m, (cord m).Perm (List.range m)) (hpts : NodeTables card N pts)
    (hnn : ∀ T ∈ pts, ∀ x ∈ T.pot, 0 ≤ x) :
    ∃ (bound : Nat) (lo hi : K), 0 < lo ∧ ∀ (ρ : K), 1 ≤ ρ → ρ ≤ 2 → ∀ ar : Arithmetic K, Accurate ar ρ lo hi →
      ∀ pts' : List (Table (Rounded ar)), StandForTables ρ pts pts' →
        ∃ J, buildJunctionTree N card pts' order cord = .ok J ∧
          ∀ E : List (Nat × Nat), (E.map Prod.fst).Nodup → (∀ e ∈ E, e.1 < dims.length ∧ e.2 < card e.1) →
            weight card dims.length (joint pts) (Agrees E) ≠ 0 → ∀ q < dims.length, q ∉ E.map Prod.fst →
            ∃ T, J.marginal E q = .ok (T, J) ∧ T.vars = [q] ∧ T.pot.length = card q ∧
              ∀ x < card q, ∃ v : K, T.pot[x]? = some (Rounded.num v) ∧
                v ≤ posterior card dims.length (joint pts) E q x * ρ ^ bound ∧
                posterior card dims.length (joint pts) E q x ≤ v * ρ ^ bound := by
  have hc := exists_common (K := K) (finite_questions dims.length card)
    (P := fun Eq bound lo hi => ∀ (ρ : K), 1 ≤ ρ → ρ ≤ 2 → ∀ ar : Arithmetic K, Accurate ar ρ lo hi →
      ∀ pts' : List (Table (Rounded ar)), StandForTables ρ pts pts' → weight card dims.length (joint pts) (Agrees Eq.1) ≠ 0 →
        Eq.2 ∉ Eq.1.map Prod.fst → ∃ J T, buildJunctionTree N card pts' order cord = .ok J ∧
          J.marginal Eq.1 Eq.2 = .ok (T, J) ∧ T.vars = [Eq.2] ∧ T.pot.length = card Eq.2 ∧
          ∀ x < card Eq.2, ∃ v : K, T.pot[x]? = some (Rounded.num v) ∧
            v ≤ posterior card dims.length (joint pts) Eq.1 Eq.2 x * ρ ^ bound ∧
            posterior card dims.length (joint pts) Eq.1 Eq.2 x ≤ v * ρ ^ bound)
  obtain ⟨bound, lo, hi, hlo, hall⟩ := hc (by
    rintro ⟨E, q⟩ b lo hi b' lo' hi' h hb hl hh ρ hρ hρ2 ar har pts' hp hpos hqE
    have hρ0 : 0 < ρ := lt_of_lt_of_le zero_lt_one hρ
    have hpb : ρ ^ b ≤ ρ ^ b' := pow_le_pow_right₀ hρ hb
    obtain ⟨J, T, h1, h2, h3, h4, h5⟩ := h ρ hρ hρ2 ar (har.mono hl hh) pts' hp hpos hqE
    refine ⟨J, T, h1, h2, h3, h4, ?_⟩
    intro x hx
    obtain ⟨v, h6, h7, h8⟩ := h5 x hx
    have hn := posterior_nonneg (card := card) hnn (n := dims.length) E q x
    have hv := nonneg_of_mul_nonneg_left (hn.trans h8) (pow_pos hρ0 b)
    exact ⟨v, h6, h7.trans (mul_le_mul_of_nonneg_left hpb hn), h8.trans (mul_le_mul_of_nonneg_left hpb hv)⟩) (by
    rintro ⟨E, q⟩ ⟨⟨hEn, hE⟩, hq⟩
    by_cases hpos : weight card dims.length (joint pts) (Agrees E) ≠ 0 ∧ q ∉ E.map Prod.fst
    · obtain ⟨b, lo, hi, hlo, h⟩ := rounded_posterior_of_inv hinv hlen h0 hw horder hcord hpts hnn hEn (fun e he => (hE e he).1) hpos.1 hq hpos.2
      exact ⟨b, lo, hi, hlo, fun ρ hρ hρ2 ar har pts' hp _ _ => h ρ hρ hρ2 ar har pts' hp⟩
    · exact ⟨0, 1, 1, zero_lt_one, fun ρ hρ hρ2 ar har pts' hp h1 h2 => absurd ⟨h1, h2⟩ hpos⟩)
  refine ⟨bound, lo, hi, hlo, ?_⟩
  intro ρ hρ hρ2 ar har pts' hp
  obtain ⟨J, hJ⟩ := build_rounded hinv hlen h0 hw horder hcord hpts hnn hρ hlo.le har hp
  refine ⟨J, hJ, ?_⟩
  intro E hEn hE hpos q hq hqE
  obtain ⟨J', T, h1, h2⟩ := hall (E, q) ⟨⟨hEn, hE⟩, hq⟩ ρ hρ hρ2 ar har pts' hp hpos hqE
  rw [hJ] at h1
  cases h1
  exact ⟨T, h2⟩

/-- C84.  One number and one range serve all questions to a network: all evidence of positive probability and all other nodes. -/
theorem C84_uniform (hops : ∀ op ∈ ops, OpInRange dims.length op) (hN : (Net.empty dims).run ops = .ok N) (h0 : dims ≠ [])
    (hw : WeaklyConnected N) (horder : ∀ l, (order l).Perm l) (hcord : ∀ m, (cord m).Perm (List.range m)) (hpts : NodeTables card N pts)
    (hnn : ∀ T ∈ pts, ∀ x ∈ T.pot, 0 ≤ x) :
    ∃ (bound : Nat) (lo hi : K), 0 < lo ∧ ∀ (ρ : K), 1 ≤ ρ → ρ ≤ 2 → ∀ ar : Arithmetic K, Accurate ar ρ lo hi →
      ∀ pts' : List (Table (Rounded ar)), StandForTables ρ pts pts' →
        ∃ J, buildJunctionTree N card pts' order cord = .ok J ∧
          ∀ E : List (Nat × Nat), (E.map Prod.fst).Nodup → (∀ e ∈ E, e.1 < dims.length ∧ e.2 < card e.1) →
            weight card dims.length (joint pts) (Agrees E) ≠ 0 → ∀ q < dims.length, q ∉ E.map Prod.fst →
            ∃ T, J.marginal E q = .ok (T, J) ∧ T.vars = [q] ∧ T.pot.length = card q ∧
              ∀ x < card q, ∃ v : K, T.pot[x]? = some (Rounded.num v) ∧
                v ≤ posterior card dims.length (joint pts) E q x * ρ ^ bound ∧
                posterior card dims.length (joint pts) E q x ≤ v * ρ ^ bound := by
  obtain ⟨hinv, hlen⟩ := netInv_of_run hops hN
  exact rounded_uniform_of_inv hinv hlen h0 hw horder hcord hpts hnn

/-- A value that is more probable than the others by more than the rounding is predicted. -/
theorem predict_of_gap {ar : Arithmetic K} {J : JTree (Rounded ar)} {E : List (Nat × Nat)} {q : Nat} {T : Table (Rounded ar)} {ρ : K} (hρ0 : 0 < ρ)
    (e2 : J.marginal E q = .ok (T, J)) {k : Nat} (e4 : T.pot.length = k) {p : Nat → K} {bound : Nat}
    (e5 : ∀ x < k, ∃ v : K, T.pot[x]? = some (Rounded.num v) ∧ v ≤ p x * ρ ^ bound ∧ p x ≤ v * ρ ^ bound) {l : Nat} (hl : l < k) (hlpos : 0 < p l)
    (hgap : ∀ x < k, x ≠ l → p x * ρ ^ (2 * bound) < p l) : J.predict E q = .ok (l, J) := by
  have hb0 : 0 < ρ ^ bound := pow_pos hρ0 _
  choose! v hv using e5
  have hpot : T.pot = ((List.range (k)).map v).map Rounded.num := by
    apply List.ext_getElem?
    intro x
    by_cases hx : x < k
    · rw [(hv x hx).1]
      simp [hx]
    · rw [List.getElem?_eq_none (by omega)]
      simp [hx]
  apply predict_of_marginal e2
  rw [hpot, argMax_num]
  have hvl : 0 < v l := by
    have := (hv l hl).2.2
    exact pos_of_mul_pos_left (lt_of_lt_of_le hlpos this) hb0.le
  obtain ⟨i, hi, hlt, hmax, _⟩ := C47_argMax ((List.range (k)).map v) ⟨v l, List.mem_map.2 ⟨l, List.mem_range.2 hl, rfl⟩, hvl⟩
  rw [hi]
  congr 1
  by_contra hne
  have hic : i < k := by simpa using hlt
  have h1 := hmax (v l) (List.mem_map.2 ⟨l, List.mem_range.2 hl, rfl⟩)
  simp only [List.getElem_map, List.getElem_range] at h1
  have h2 := hgap i hic hne
  rw [two_mul, pow_add, ← mul_assoc] at h2
  have h3 : v i * ρ ^ bound < v l * ρ ^ bound :=
    lt_of_le_of_lt (mul_le_mul_of_nonneg_right (hv i hic).2.1 hb0.le) (lt_of_lt_of_le h2 (hv l hl).2.2)
  exact absurd h1 (not_le.2 (lt_of_mul_lt_mul_right h3 hb0.le))

/-- C84.  If the most probable value of the query node is more probable than the others by a factor greater than `ρ ^ (2 * bound)`, then
rounding does not change the predicted label. -/
theorem C84_predict (hops : ∀ op ∈ ops, OpInRange dims.length op) (hN : (Net.empty dims).run ops = .ok N) (h0 : dims ≠ [])
    (hw : WeaklyConnected N) (horder : ∀ l, (order l).Perm l) (hcord : ∀ m, (cord m).Perm (List.range m)) (hpts : NodeTables card N pts)
    (hnn : ∀ T ∈ pts, ∀ x ∈ T.pot, 0 ≤ x) {E : List (Nat × Nat)} (hEn : (E.map Prod.fst).Nodup) (hE : ∀ e ∈ E, e.1 < dims.length)
    (hpos : weight card dims.length (joint pts) (Agrees E) ≠ 0) {q : Nat} (hq : q < dims.length) (hqE : q ∉ E.map Prod.fst) :
    ∃ (bound : Nat) (lo hi : K), 0 < lo ∧ ∀ (ρ : K), 1 ≤ ρ → ρ ≤ 2 → ∀ ar : Arithmetic K, Accurate ar ρ lo hi →
      ∀ pts' : List (Table (Rounded ar)), StandForTables ρ pts pts' →
        ∃ J, buildJunctionTree N card pts' order cord = .ok J ∧
          ∀ l < card q, (∀ x < card q, x ≠ l → posterior card dims.length (joint pts) E q x * ρ ^ (2 * bound) <
            posterior card dims.length (joint pts) E q l) → J.predict E q = .ok (l, J) := by
  obtain ⟨bound, lo, hi, hlo, hmain⟩ := C84_posterior hops hN h0 hw horder hcord hpts hnn hEn hE hpos hq hqE
  refine ⟨bound, lo, hi, hlo, ?_⟩
  intro ρ hρ hρ2 ar har pts' hp
  have hρ0 : 0 < ρ := lt_of_lt_of_le zero_lt_one hρ
  have hb0 : 0 < ρ ^ bound := pow_pos hρ0 _
  obtain ⟨J, T, e1, e2, _, e4, e5⟩ := hmain ρ hρ hρ2 ar har pts' hp
  refine ⟨J, e1, ?_⟩
  intro l hl hgap
  obtain ⟨J1, T1, a1, a2, _, a4, a5⟩ := C42_posterior hops hN h0 hw horder hcord hpts hnn hEn hE hpos hq hqE
  obtain ⟨J2, l2, b1, b2, b3, b4, _⟩ := C42_predict hops hN h0 hw horder hcord hpts hnn hEn hE hpos hq hqE
  rw [a1] at b1
  cases b1
  have hlpos : 0 < posterior card dims.length (joint pts) E q l := by
    have hsome : ∃ x < card q, 0 < posterior card dims.length (joint pts) E q x := by
      by_contra hcon
      push Not at hcon
      have harg : argMax T1.pot = .error .ub := by
        apply C47_indeterminate
        intro y hy
        obtain ⟨x, hx, rfl⟩ := List.getElem_of_mem hy
        have h1 := a5 x (by rw [← a4]; exact hx)
        rw [List.getElem?_eq_getElem hx, Option.some.injEq] at h1
        rw [h1]
        exact hcon x (by rw [← a4]; exact hx)
      unfold JTree.marginal at a2
      obtain ⟨st, c1, a2⟩ := bind_eq_ok a2
      obtain ⟨T', c2, a2⟩ := bind_eq_ok a2
      have a3 : T' = T1 := congrArg Prod.fst (Except.ok.inj a2)
      subst a3
      unfold JTree.predict at b2
      rw [c1, ok_bind, c2, ok_bind, harg] at b2
      cases b2
    obtain ⟨x, hx, hxp⟩ := hsome
    by_cases hxl : x = l
    · exact hxl ▸ hxp
    · exact lt_of_le_of_lt (mul_nonneg hxp.le (pow_pos hρ0 _).le) (hgap x hx hxl)
  exact predict_of_gap hρ0 e2 e4 e5 hl hlpos hgap

theorem double_roundsTo {r : ℚ → ℤ} (hr : Nearest r) {x : ℚ} (hx : 0 ≤ x) :
    RoundsTo (1 + 2 ^ (-52 : ℤ)) (2 ^ (-1022 : ℤ)) (2 ^ (1023 : ℤ)) (double r x) x := by
  by_cases hx0 : x = 0
  · subst hx0
    refine ⟨fun y h => ?_, fun _ h => ?_⟩
    · simp only [double, if_true, Option.some.injEq] at h
      subst h
      simp
    · simp [double] at h
  have hpos : 0 < x := lt_of_le_of_ne hx (Ne.symm hx0)
  have hk : (0 : ℚ) < 2 ^ (52 - Int.log 2 x) := zpow_pos (by norm_num) _
  have hz1 : (2 : ℚ) ^ (52 : ℤ) ≤ x * 2 ^ (52 - Int.log 2 x) := by
    have h := Int.zpow_log_le_self (b := 2) (by norm_num) hpos
    have := mul_le_mul_of_nonneg_right h hk.le
    rw [Nat.cast_ofNat, ← zpow_add₀ (by norm_num : (2 : ℚ) ≠ 0), show Int.log 2 x + (52 - Int.log 2 x) = 52 by omega] at this
    exact this
  obtain ⟨hn1, hn2⟩ := abs_le.1 (hr (x * 2 ^ (52 - Int.log 2 x)))
  set z := x * 2 ^ (52 - Int.log 2 x) with hz
  have hint : (2 : ℚ) ^ (52 : ℤ) ≤ (r z : ℚ) := by
    have h1 : ((2 ^ 52 - 1 : ℤ) : ℚ) < (r z : ℚ) := by
      push_cast
      have : (2 : ℚ) ^ (52 : ℤ) = 2 ^ 52 := by norm_cast
      linarith
    have h2 : (2 ^ 52 - 1 : ℤ) < r z := by exact_mod_cast h1
    have h3 : (2 ^ 52 : ℤ) ≤ r z := by omega
    have : (2 : ℚ) ^ (52 : ℤ) = ((2 ^ 52 : ℤ) : ℚ) := by norm_cast
    rw [this]
    exact_mod_cast h3
  have hfac : (2 : ℚ) ^ (-52 : ℤ) * 2 ^ (52 : ℤ) = 1 := by
    rw [← zpow_add₀ (by norm_num : (2 : ℚ) ≠ 0)]; norm_num
  have he : (0 : ℚ) < 2 ^ (-52 : ℤ) := by positivity
  have h1024 : (2 : ℚ) ^ (1023 : ℤ) * 2 = 2 ^ (1024 : ℤ) := (zpow_add_one₀ (by norm_num : (2 : ℚ) ≠ 0) 1023).symm
  have h52 : (1 : ℚ) + 2 ^ (-52 : ℤ) < 2 := by norm_num
  have hup : ∀ M : ℚ, 0 < M → x ≤ M → x * (1 + 2 ^ (-52 : ℤ)) < M * 2 := fun M hM hxM =>
    lt_of_le_of_lt (mul_le_mul_of_nonneg_right hxM (add_nonneg zero_le_one he.le)) (mul_lt_mul_of_pos_left h52 hM)
  have c1 : (r z : ℚ) / 2 ^ (52 - Int.log 2 x) ≤ x * (1 + 2 ^ (-52 : ℤ)) := by
    rw [div_le_iff₀ hk]
    have : x * (1 + 2 ^ (-52 : ℤ)) * 2 ^ (52 - Int.log 2 x) = z + 2 ^ (-52 : ℤ) * z := by rw [hz]; ring
    rw [this]
    have := mul_le_mul_of_nonneg_left hz1 he.le
    linarith
  have c2 : x ≤ (r z : ℚ) / 2 ^ (52 - Int.log 2 x) * (1 + 2 ^ (-52 : ℤ)) := by
    rw [div_mul_eq_mul_div, le_div_iff₀ hk, ← hz, mul_add, mul_one]
    have := mul_le_mul_of_nonneg_left hint he.le
    linarith
  refine ⟨fun y h => ?_, fun h => ?_⟩
  · unfold double at h
    simp only [if_neg hx0] at h
    split at h
    · cases h
      exact ⟨c1, c2⟩
    · cases h
  · obtain ⟨h1, h2⟩ := h.resolve_left hx0
    unfold double
    simp only [if_neg hx0]
    rw [if_pos]
    · simp
    · constructor
      · have hlog : (-1022 : ℤ) ≤ Int.log 2 x := by
          rw [← Int.zpow_le_iff_le_log (by norm_num) hpos]
          exact_mod_cast h1
        calc (2 : ℚ) ^ (-1022 : ℤ) ≤ 2 ^ (Int.log 2 x) := zpow_le_zpow_right₀ (by norm_num) hlog
          _ = 2 ^ (52 : ℤ) / 2 ^ (52 - Int.log 2 x) := by
            rw [← zpow_sub₀ (by norm_num : (2 : ℚ) ≠ 0), show (52 : ℤ) - (52 - Int.log 2 x) = Int.log 2 x by omega]
          _ ≤ _ := div_le_div_of_nonneg_right hint hk.le
      · exact lt_of_le_of_lt c1 (lt_of_lt_of_eq (hup _ (zpow_pos (by norm_num) _) h2) h1024)

/-- C84.  The operations on `double`s are such an arithmetic, whichever nearest number is taken: errors of at most a factor `1 + 2^-52`, and
no overflow or underflow between `2^-1022` and `2^1023`. -/
theorem C84_binary64 {r : ℚ → ℤ} (hr : Nearest r) : Accurate (binary64 r) (1 + 2 ^ (-52 : ℤ)) (2 ^ (-1022 : ℤ)) (2 ^ (1023 : ℤ)) :=
  ⟨fun _ _ ha hb => double_roundsTo hr (add_nonneg ha hb), fun _ _ ha hb => double_roundsTo hr (mul_nonneg ha hb),
    fun _ _ ha hb => double_roundsTo hr (div_nonneg ha hb.le)⟩

/-- C84.  Tables of numbers that are 0 or in the range of `double`s are represented by tables of `double`s. -/
theorem C84_double_tables {r : ℚ → ℤ} (hr : Nearest r) (pts : List (Table ℚ))
    (h : ∀ T ∈ pts, ∀ x ∈ T.pot, x = 0 ∨ (2 : ℚ) ^ (-1022 : ℤ) ≤ x ∧ x ≤ 2 ^ (1023 : ℤ)) :
    ∃ pts' : List (Table (Rounded (binary64 r))), StandForTables (1 + 2 ^ (-52 : ℤ)) pts pts' := by
  refine ⟨pts.map (fun T => ⟨T.vars, T.dims, T.cum, T.size, T.pot.map (readDouble r)⟩), ?_⟩
  unfold StandForTables
  rw [List.forall₂_map_right_iff, List.forall₂_same]
  intro T hT
  refine ⟨rfl, rfl, rfl, rfl, ?_⟩
  show List.Forall₂ _ T.pot (T.pot.map (readDouble r))
  rw [List.forall₂_map_right_iff, List.forall₂_same]
  intro x hx
  have h1 := h T hT x hx
  have h0 : 0 ≤ x := by
    rcases h1 with rfl | h1
    · exact le_rfl
    · exact (zpow_pos (by norm_num) _).le.trans h1.1
  obtain ⟨h2, h3⟩ := double_roundsTo hr h0
  cases hv : double r x with
  | none => exact absurd hv (h3 h1)
  | some v => exact ⟨v, hv, h2 v hv⟩

/-- The diamond with `double`s: the computed posterior of node 0, given that node 3 has value 1, differs from 195/419 and 224/419 by a factor of
at most `(1 + 2^-52) ^ 153`. -/
example {r : ℚ → ℤ} (hr : Nearest r) : ∃ N, (Net.empty [2, 2, 2, 2]).run diamondOps = .ok N ∧
    ∀ pts' : List (Table (Rounded (binary64 r))), StandForTables (1 + 2 ^ (-52 : ℤ)) diamondTables pts' →
      ∃ J T, buildJunctionTree N (fun _ => 2) pts' id List.range = .ok J ∧ J.marginal [(3, 1)] 0 = .ok (T, J) ∧
        ∃ v w : ℚ, T.pot = [Rounded.num v, Rounded.num w] ∧
          v ≤ 195 / 419 * (1 + 2 ^ (-52 : ℤ)) ^ 153 ∧ 195 / 419 ≤ v * (1 + 2 ^ (-52 : ℤ)) ^ 153 ∧
          w ≤ 224 / 419 * (1 + 2 ^ (-52 : ℤ)) ^ 153 ∧ 224 / 419 ≤ w * (1 + 2 ^ (-52 : ℤ)) ^ 153 := by
  have hrun : (do
      let N ← (Net.empty [2, 2, 2, 2]).run diamondOps
      let J ← buildJunctionTree N (fun _ => 2) (diamondTables.map Table.track) id List.range
      return (← J.marginal [(3, 1)] 0).1.pot) = .ok [⟨195 / 419, 153, 3 / 425, 17 / 8⟩, ⟨224 / 419, 153, 3 / 425, 17 / 8⟩] := by
    decide +kernel
  obtain ⟨N, h1, hrun⟩ := bind_eq_ok hrun
  obtain ⟨J0, h2, hrun⟩ := bind_eq_ok hrun
  obtain ⟨⟨T0, J1⟩, h3, hrun⟩ := bind_eq_ok hrun
  have h4 := Except.ok.inj hrun
  simp only at h4
  refine ⟨N, h1, ?_⟩
  intro pts' hp
  have hρ : (1 : ℚ) ≤ 1 + 2 ^ (-52 : ℤ) := le_add_of_nonneg_right (zpow_pos (by norm_num) _).le
  have hρ2 : (1 : ℚ) + 2 ^ (-52 : ℤ) ≤ 2 := by norm_num
  have hpow : ((1 : ℚ) + 2 ^ (-52 : ℤ)) ^ 153 ≤ 2 ^ 153 := pow_le_pow_left₀ (zero_le_one.trans hρ) hρ2 _
  obtain ⟨J, T, e1, e2, _, e4, e5⟩ := C84_tracked (pts := diamondTables) (by decide +kernel) h2 h3 hρ (zpow_pos (by norm_num) _).le
    (C84_binary64 hr) hp
  rw [h4] at e4 e5
  have hlo : (2 : ℚ) ^ (-1022 : ℤ) * (1 + 2 ^ (-52 : ℤ)) ^ 153 ≤ 3 / 425 := by
    calc (2 : ℚ) ^ (-1022 : ℤ) * (1 + 2 ^ (-52 : ℤ)) ^ 153 ≤ 2 ^ (-200 : ℤ) * 2 ^ 153 :=
          mul_le_mul (zpow_le_zpow_right₀ (by norm_num) (by norm_num)) hpow (pow_pos (lt_of_lt_of_le zero_lt_one hρ) _).le
            (zpow_pos (by norm_num) _).le
      _ ≤ 3 / 425 := by norm_num
  have hhi : (17 : ℚ) / 8 * (1 + 2 ^ (-52 : ℤ)) ^ 153 ≤ 2 ^ (1023 : ℤ) := by
    calc (17 : ℚ) / 8 * (1 + 2 ^ (-52 : ℤ)) ^ 153 ≤ 17 / 8 * 2 ^ 153 := mul_le_mul_of_nonneg_left hpow (by norm_num)
      _ ≤ 2 ^ (200 : ℤ) := by norm_num
      _ ≤ 2 ^ (1023 : ℤ) := zpow_le_zpow_right₀ (by norm_num) (by norm_num)
  obtain ⟨v, v1, v2, v3⟩ := e5 0 _ rfl hlo hhi
  obtain ⟨w, w1, w2, w3⟩ := e5 1 _ rfl hlo hhi
  refine ⟨J, T, e1, e2, v, w, ?_, v2, v3, w2, w3⟩
  obtain ⟨vars, dims, cum, size, pot⟩ := T
  match pot, e4 with
  | [a, b], _ =>
    simp only [List.getElem?_cons_zero, List.getElem?_cons_succ, Option.some.injEq] at v1 w1
    rw [v1, w1]

end FastPGM
