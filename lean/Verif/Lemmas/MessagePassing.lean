import Verif.Model.MessagePassing
import Verif.Lemmas.Schedule
import Verif.Lemmas.JTTables
import Verif.Lemmas.Message

/-!
All implementations of the message passing are sequences of the same local updates of functions on assignments.
-/

namespace FastPGM

open Spec

variable {K : Type}

/-- The product of two functions, divided by its sum over `V`; the sum 0 gives NaN. -/
def normMul [Field K] [DecidableEq K] (card : Nat → Nat) (V : List Nat) (F G : Assignment → K) : Except Fault (Assignment → K) :=
  if sumOut card V (fun a => F a * G a) (fun _ => 0) = 0 then .error .nan
  else .ok (fun a => F a * G a / sumOut card V (fun a => F a * G a) (fun _ => 0))

/-- The contents of the table of `x` after a message from `y`. -/
def msgFn [Field K] [DecidableEq K] (card : Nat → Nat) (VC VS : Nat → List Nat) (x y : JNode) (t u : Assignment → K) :
    Except Fault (Assignment → K) :=
  match x, y with
  | .clq i, _ => normMul card (VC i) t u
  | .sep s, .clq c => .ok (quot (sumOut card ((VC c).filter (fun v => v ∉ VS s)) u) t)
  | .sep _, .sep _ => .error .nan

/-- The variables of a node of the tree. -/
def nodeVars (VC VS : Nat → List Nat) : JNode → List Nat
  | .clq i => VC i
  | .sep s => VS s

/-- The state with contents `σ`. -/
def repOf (card : Nat → Nat) (m : Nat) (VC VS : Nat → List Nat) (σ : JNode → Assignment → K) : JState K :=
  repState card m VC VS (fun i => σ (.clq i)) (fun s => σ (.sep s))

/-- The pairs of neighbours. -/
inductive Adj (m : Nat) (par ch : Nat → Nat) : JNode → JNode → Prop
  | upClq (s : Nat) (hs : s + 1 < m) : Adj m par ch (.clq (par s)) (.sep s)
  | upSep (s : Nat) (hs : s + 1 < m) : Adj m par ch (.sep s) (.clq (ch s))
  | downSep (s : Nat) (hs : s + 1 < m) : Adj m par ch (.sep s) (.clq (par s))
  | downClq (s : Nat) (hs : s + 1 < m) : Adj m par ch (.clq (ch s)) (.sep s)

theorem update_clq (σ : JNode → Assignment → K) (i : Nat) (t : Assignment → K) :
    (fun j => Function.update σ (.clq i) t (.clq j)) = Function.update (fun j => σ (.clq j)) i t := by
  funext j
  by_cases h : j = i
  · subst h; simp
  · rw [Function.update_of_ne h, Function.update_of_ne (by simpa using h)]

theorem update_sep (σ : JNode → Assignment → K) (s : Nat) (t : Assignment → K) :
    (fun j => Function.update σ (.sep s) t (.sep j)) = Function.update (fun j => σ (.sep j)) s t := by
  funext j
  by_cases h : j = s
  · subst h; simp
  · rw [Function.update_of_ne h, Function.update_of_ne (by simpa using h)]

section

variable {card : Nat → Nat} {m : Nat} {VC VS : Nat → List Nat} {par ch : Nat → Nat}

theorem repOf_clq (σ : JNode → Assignment → K) (i : Nat) (t : Assignment → K) :
    repOf card m VC VS (Function.update σ (.clq i) t) =
      repState card m VC VS (Function.update (fun j => σ (.clq j)) i t) (fun s => σ (.sep s)) := by
  unfold repOf
  rw [update_clq]
  simp

theorem repOf_sep (σ : JNode → Assignment → K) (s : Nat) (t : Assignment → K) :
    repOf card m VC VS (Function.update σ (.sep s) t) =
      repState card m VC VS (fun j => σ (.clq j)) (Function.update (fun s => σ (.sep s)) s t) := by
  unfold repOf
  rw [update_sep]
  simp

theorem dep_mul [Mul K] {F G : Assignment → K} {V W : List Nat} (hF : DependsOn F V) (hG : DependsOn G W) (hsub : ∀ v ∈ W, v ∈ V) :
    DependsOn (fun a => F a * G a) V := by
  intro a b h
  show F a * G a = F b * G b
  rw [hF a b h, hG a b (fun v hv => h v (hsub v hv))]

theorem quotSum_dep [Field K] [DecidableEq K] {V W : List Nat} {X G : Assignment → K} (hX : DependsOn X V) (hG : DependsOn G W) :
    DependsOn (quot (sumOut card (V.filter (fun v => v ∉ W)) X) G) W := by
  have h1 : DependsOn (sumOut card (V.filter (fun v => v ∉ W)) X) W := by
    refine (sumOut_dependsOn hX).mono ?_
    intro v hv
    obtain ⟨h1, h2⟩ := List.mem_filter.1 hv
    by_contra h
    simp only [List.mem_filter, decide_eq_true_eq, not_and, not_not] at h2
    exact h (h2 h1)
  intro a b h
  unfold quot
  rw [h1 a b h, hG a b h]

section field

variable [Field K] [DecidableEq K]

theorem cliqueMessage_fromFn {V W : List Nat} (hn : V.Nodup) (hp : ∀ v ∈ V, 0 < card v) (hsub : ∀ v ∈ W, v ∈ V) (hnw : W.Nodup)
    {F G : Assignment → K} (hF : DependsOn F V) (hG : DependsOn G W) :
    cliqueMessage (fromFn card V F) (fromFn card W G) = (normMul card V F G).map (fromFn card V) := by
  unfold cliqueMessage normMul
  rw [tableMultiplication_fromFn hn hp hsub hnw hG, ok_bind]
  by_cases h0 : sumOut card V (fun a => F a * G a) (fun _ => 0) = 0
  · rw [if_pos h0, normalize_zero hn hp (dep_mul hF hG hsub) _ h0]
    rfl
  · rw [if_neg h0, normalize_fromFn hn (dep_mul hF hG hsub) _ h0]
    rfl

theorem separatorMessage_fromFn {V W : List Nat} (hn : V.Nodup) (hp : ∀ v ∈ V, 0 < card v) (hsub : ∀ v ∈ W, v ∈ V) (hnw : W.Nodup)
    {X G : Assignment → K} (hX : DependsOn X V) :
    separatorMessage (fromFn card W G) (fromFn card V X) =
      .ok (fromFn card W (quot (sumOut card (V.filter (fun v => v ∉ W)) X) G)) := by
  unfold separatorMessage
  have hlen : W.length ≤ V.length := (hnw.subperm hsub).length_le
  have hS : DependsOn (sumOut card (V.filter (fun v => v ∉ W)) X) W := by
    refine (sumOut_dependsOn hX).mono ?_
    intro v hv
    obtain ⟨h1, h2⟩ := List.mem_filter.1 hv
    by_contra h
    simp only [List.mem_filter, decide_eq_true_eq, not_and, not_not] at h2
    exact h (h2 h1)
  have hdiv : ∀ Y : Assignment → K, tableDivision (fromFn card W Y) (fromFn card W G) = .ok (fromFn card W (quot Y G)) := fun Y =>
    tableDivision_fromFn
  by_cases h1 : V.length = W.length
  · rw [if_neg (show ¬ (fromFn card V X).vars.length ≠ (fromFn card W G).vars.length from not_not.2 h1), ok_bind]
    have hperm : W.Perm V := (hnw.subperm hsub).perm_of_length_le (by omega)
    have hnil : V.filter (fun v => decide (v ∉ W)) = [] := by
      rw [List.filter_eq_nil_iff]
      intro v hv
      simp [hperm.mem_iff.2 hv]
    rw [hnil]
    by_cases h2 : W = V
    · subst h2
      rw [if_neg (show ¬ (fromFn card W G).vars ≠ (fromFn card W X).vars from not_not.2 rfl), ok_bind]
      exact hdiv X
    · rw [if_pos (show (fromFn card W G).vars ≠ (fromFn card V X).vars from h2),
        tableReorganization_fromFn hn hp hperm.symm hX, ok_bind]
      exact hdiv X
  · rw [if_pos (show (fromFn card V X).vars.length ≠ (fromFn card W G).vars.length from h1),
      show tableMarginalization (fromFn card V X) (fromFn card W G).vars (fromFn card W G).dims = _ from
        tableMarginalization_fromFn hn hp hsub hnw hX, ok_bind,
      if_pos (show (fromFn card W G).vars ≠ (fromFn card V X).vars from fun e => h1 (congrArg List.length e).symm),
      tableReorganization_fromFn hnw (fun v hv => hp v (hsub v hv)) (List.Perm.refl _) hS, ok_bind]
    exact hdiv _

theorem RepOK.adj_sub (h : RepOK card m VC VS par ch) {i s : Nat} (ha : Adj m par ch (.clq i) (.sep s) ∨ Adj m par ch (.sep s) (.clq i)) :
    s + 1 < m ∧ i < m ∧ ∀ v ∈ VS s, v ∈ VC i := by
  rcases ha with ha | ha
  · cases ha with
    | upClq _ hs => exact ⟨hs, h.par_lt _ hs, h.sub _ hs⟩
    | downClq _ hs => exact ⟨hs, h.ch_lt _ hs, h.sub_ch hs⟩
  · cases ha with
    | upSep _ hs => exact ⟨hs, h.ch_lt _ hs, h.sub_ch hs⟩
    | downSep _ hs => exact ⟨hs, h.par_lt _ hs, h.sub _ hs⟩

/-- A message between neighbours. -/
theorem passMessage_eq (h : RepOK card m VC VS par ch) {σ : JNode → Assignment → K} (hσ : ∀ x, DependsOn (σ x) (nodeVars VC VS x))
    {p : JNode × JNode} (ha : Adj m par ch p.1 p.2) :
    passMessage (repOf card m VC VS σ) p = (schedStep (msgFn card VC VS) σ p).map (repOf card m VC VS) := by
  obtain ⟨x, y⟩ := p
  cases x with
  | clq i =>
    cases y with
    | clq j => cases ha
    | sep s =>
      obtain ⟨hs, hi, hsub⟩ := h.adj_sub (Or.inl ha)
      have hF : DependsOn (σ (.clq i)) (VC i) := hσ (.clq i)
      have hG : DependsOn (σ (.sep s)) (VS s) := hσ (.sep s)
      unfold passMessage updateMessage schedStep
      simp only [JState.table, repOf, repState, msgFn]
      rw [rd_tab (by omega : s < m - 1), ok_bind, rd_tab hi, ok_bind,
        cliqueMessage_fromFn (h.cnodup i) (h.cpos i) hsub (h.snodup hs) hF hG]
      cases hm : normMul card (VC i) (σ (.clq i)) (σ (.sep s)) with
      | error e => rfl
      | ok t =>
        have e := repOf_clq (card := card) (m := m) (VC := VC) (VS := VS) σ i t
        show JState.setTable _ (.clq i) (fromFn card (VC i) t) = _
        refine Eq.trans ?_ (congrArg Except.ok e.symm)
        unfold JState.setTable
        simp only []
        rw [wr_tab hi, ok_bind, tab_update, update_fromFn]
        rfl
  | sep s =>
    cases y with
    | sep j => cases ha
    | clq i =>
      obtain ⟨hs, hi, hsub⟩ := h.adj_sub (Or.inr ha)
      have hX : DependsOn (σ (.clq i)) (VC i) := hσ (.clq i)
      unfold passMessage updateMessage schedStep
      simp only [JState.table, repOf, repState, msgFn]
      rw [rd_tab hi, ok_bind, rd_tab (by omega : s < m - 1), ok_bind,
        separatorMessage_fromFn (h.cnodup i) (h.cpos i) hsub (h.snodup hs) hX, ok_bind]
      have e := repOf_sep (card := card) (m := m) (VC := VC) (VS := VS) σ s
        (quot (sumOut card ((VC i).filter (fun v => v ∉ VS s)) (σ (.clq i))) (σ (.sep s)))
      refine Eq.trans ?_ (congrArg Except.ok e.symm)
      unfold JState.setTable
      simp only []
      rw [wr_tab (by omega : s < m - 1), ok_bind, tab_update, update_fromFn]
      rfl

theorem msgFn_dep (h : RepOK card m VC VS par ch) {x y : JNode} (ha : Adj m par ch x y) {t u t' : Assignment → K}
    (ht : DependsOn t (nodeVars VC VS x)) (hu : DependsOn u (nodeVars VC VS y)) (e : msgFn card VC VS x y t u = .ok t') :
    DependsOn t' (nodeVars VC VS x) := by
  cases x with
  | clq i =>
    cases y with
    | clq j => cases ha
    | sep s =>
      obtain ⟨_, _, hsub⟩ := h.adj_sub (Or.inl ha)
      simp only [msgFn, normMul] at e
      split at e
      · cases e
      · cases e
        intro a b hab
        have := dep_mul (V := VC i) (W := VS s) ht hu hsub a b hab
        simp only [] at this ⊢
        rw [this]
  | sep s =>
    cases y with
    | sep j => cases ha
    | clq i =>
      cases e
      exact quotSum_dep hu ht

theorem schedStep_dep (h : RepOK card m VC VS par ch) {σ σ' : JNode → Assignment → K} (hσ : ∀ x, DependsOn (σ x) (nodeVars VC VS x))
    {p : JNode × JNode} (ha : Adj m par ch p.1 p.2) (e : schedStep (msgFn card VC VS) σ p = .ok σ') :
    ∀ x, DependsOn (σ' x) (nodeVars VC VS x) := by
  refine runSched_inv (f := msgFn card VC VS) (l := [p]) (I := fun x t => DependsOn t (nodeVars VC VS x)) ?_ hσ ?_
  · intro q hq t u t' h1 h2 h3
    rw [List.mem_singleton] at hq
    subst hq
    exact msgFn_dep h ha h1 h2 h3
  · rw [runSched_cons, e]
    rfl

/-- A fold whose steps are sequences of messages is a sequence of messages. -/
theorem foldlM_sched (h : RepOK card m VC VS par ch) {β : Type} {g : JState K → β → Except Fault (JState K)} {B : List β}
    {S : β → List (JNode × JNode)} (hadj : ∀ b ∈ B, ∀ p ∈ S b, Adj m par ch p.1 p.2)
    (hg : ∀ b ∈ B, ∀ σ, (∀ x, DependsOn (σ x) (nodeVars VC VS x)) →
      g (repOf card m VC VS σ) b = (runSched (msgFn card VC VS) (S b) σ).map (repOf card m VC VS))
    {σ : JNode → Assignment → K} (hσ : ∀ x, DependsOn (σ x) (nodeVars VC VS x)) :
    B.foldlM g (repOf card m VC VS σ) = (runSched (msgFn card VC VS) (B.flatMap S) σ).map (repOf card m VC VS) := by
  induction B generalizing σ with
  | nil => rfl
  | cons b B ih =>
    rw [List.foldlM_cons, List.flatMap_cons, runSched_append, hg b (by simp) σ hσ]
    cases e : runSched (msgFn card VC VS) (S b) σ with
    | error e => rfl
    | ok σ' =>
      refine ih (fun b hb => hadj b (by simp [hb])) (fun b hb => hg b (by simp [hb])) ?_
      exact runSched_inv (I := fun x t => DependsOn t (nodeVars VC VS x))
        (fun p hp t u t' h1 h2 h3 => msgFn_dep h (hadj b (by simp) p hp) h1 h2 h3) hσ e

omit [Field K] [DecidableEq K] in
theorem runSched_single (f : JNode → JNode → (Assignment → K) → (Assignment → K) → Except Fault (Assignment → K)) (p : JNode × JNode)
    (σ : JNode → Assignment → K) : runSched f [p] σ = schedStep f σ p := by
  rw [runSched_cons]
  cases schedStep f σ p <;> rfl

theorem passMessages_eq (h : RepOK card m VC VS par ch) {l : List (JNode × JNode)} (hadj : ∀ p ∈ l, Adj m par ch p.1 p.2)
    {σ : JNode → Assignment → K} (hσ : ∀ x, DependsOn (σ x) (nodeVars VC VS x)) :
    passMessages l (repOf card m VC VS σ) = (runSched (msgFn card VC VS) l σ).map (repOf card m VC VS) := by
  have e := foldlM_sched h (g := passMessage) (B := l) (S := fun p => [p]) (fun b hb p hp => by
    rw [List.mem_singleton] at hp; subst hp; exact hadj _ hb) (fun b hb σ hσ => by
    rw [runSched_single]; exact passMessage_eq h hσ (hadj b hb)) hσ
  rw [List.flatMap_singleton'] at e
  exact e

/-! ### The level operations -/

variable {mk : Marks}

theorem separatorCollect_sched (h : RepOK card m VC VS par ch) {σ : JNode → Assignment → K} (hσ : ∀ x, DependsOn (σ x) (nodeVars VC VS x))
    {s : Nat} (hs : s + 1 < m) (hdown : mk.down (.sep s) = [.clq (ch s)]) :
    separatorCollect mk (repOf card m VC VS σ) (.sep s) =
      (runSched (msgFn card VC VS) [(.sep s, .clq (ch s))] σ).map (repOf card m VC VS) := by
  rw [runSched_single]
  unfold repOf
  rw [separatorCollect_eq h hs hdown (hσ (.clq (ch s)))]
  have e := repOf_sep (card := card) (m := m) (VC := VC) (VS := VS) σ s
        (quot (sumOut card ((VC (ch s)).filter (fun v => v ∉ VS s)) (σ (.clq (ch s)))) (σ (.sep s)))
  exact congrArg Except.ok e.symm

theorem separatorCollectPlain_eq (h : RepOK card m VC VS par ch) {F G : Nat → Assignment → K} {s : Nat} (hs : s + 1 < m)
    (hdown : mk.down (.sep s) = [.clq (ch s)]) (hF : DependsOn (F (ch s)) (VC (ch s))) :
    separatorCollectPlain mk (repState card m VC VS F G) (.sep s) =
      .ok (repState card m VC VS F (Function.update G s
        (quot (sumOut card ((VC (ch s)).filter (fun v => v ∉ VS s)) (F (ch s))) (G s)))) := by
  have hc := h.ch_lt s hs
  unfold separatorCollectPlain repState
  simp only [JNode.sepIdx, ok_bind, hdown]
  rw [rd_ok (a := JNode.clq (ch s)) (by rfl), ok_bind]
  simp only [JNode.clqIdx, ok_bind]
  rw [rd_tab (by omega : s < m - 1), ok_bind, rd_tab hc, ok_bind]
  simp only [fromFn]
  rw [transferLoop (h.cpos (ch s)) (h.sub_ch hs), ok_bind, scatter_marg (h.cnodup _) (h.sub_ch hs) (h.snodup hs) hF, ok_bind, divideEntries_eq,
    ok_bind, wr_tab (by omega : s < m - 1), ok_bind, tab_update]
  exact congrArg (fun x => Except.ok (JState.mk (tab m (fun i => fromFn card (VC i) (F i))) (tab (m - 1) x)))
    (update_fromFn (card := card) (VC := VS) (F := G) (k := s)
      (X := quot (sumOut card ((VC (ch s)).filter (fun v => v ∉ VS s)) (F (ch s))) (G s)))

theorem separatorCollectPlain_sched (h : RepOK card m VC VS par ch) {σ : JNode → Assignment → K}
    (hσ : ∀ x, DependsOn (σ x) (nodeVars VC VS x)) {s : Nat} (hs : s + 1 < m) (hdown : mk.down (.sep s) = [.clq (ch s)]) :
    separatorCollectPlain mk (repOf card m VC VS σ) (.sep s) =
      (runSched (msgFn card VC VS) [(.sep s, .clq (ch s))] σ).map (repOf card m VC VS) := by
  rw [← separatorCollect_sched h hσ hs hdown]
  unfold repOf
  rw [separatorCollect_eq h hs hdown (hσ (.clq (ch s))), separatorCollectPlain_eq h hs hdown (hσ (.clq (ch s)))]

theorem separatorDistribute_sched (h : RepOK card m VC VS par ch) {σ : JNode → Assignment → K}
    (hσ : ∀ x, DependsOn (σ x) (nodeVars VC VS x)) {s : Nat} (hs : s + 1 < m) (hup : mk.up (.sep s) = some (.clq (par s))) :
    separatorDistribute mk (repOf card m VC VS σ) (.sep s) =
      (runSched (msgFn card VC VS) [(.sep s, .clq (par s))] σ).map (repOf card m VC VS) := by
  rw [runSched_single]
  unfold repOf
  rw [separatorDistribute_eq h hs hup (hσ (.clq (par s)))]
  have e := repOf_sep (card := card) (m := m) (VC := VC) (VS := VS) σ s
        (quot (sumOut card ((VC (par s)).filter (fun v => v ∉ VS s)) (σ (.clq (par s)))) (σ (.sep s)))
  exact congrArg Except.ok e.symm

omit [DecidableEq K] in
theorem cliqueDistributePlain_eq (h : RepOK card m VC VS par ch) {F G : Nat → Assignment → K} {s : Nat} (hs : s + 1 < m)
    (hup : mk.up (.clq (ch s)) = some (.sep s)) (hG : DependsOn (G s) (VS s)) :
    cliqueDistributePlain mk (repState card m VC VS F G) (.clq (ch s)) =
      .ok (repState card m VC VS (Function.update F (ch s) (fun a => F (ch s) a * G s a)) G) := by
  have hc := h.ch_lt s hs
  unfold cliqueDistributePlain repState
  simp only [JNode.clqIdx, ok_bind, Marks.upOf, hup, JNode.sepIdx]
  rw [rd_tab hc, ok_bind, rd_tab (by omega : s < m - 1), ok_bind]
  simp only [fromFn]
  rw [transferLoop (h.cpos (ch s)) (h.sub_ch hs), ok_bind,
    mapM_ok (g := fun x => G s (asgOf (VS s) (digits ((VS s).map card) x)))]
  · rw [ok_bind]
    have e1 : (tab ((VC (ch s)).map card).prod fun i =>
        rank ((VS s).map card) ((VS s).map (asgOf (VC (ch s)) (digits ((VC (ch s)).map card) i)))).map
          (fun x => G s (asgOf (VS s) (digits ((VS s).map card) x))) =
        tab ((VC (ch s)).map card).prod (fun i => G s (asgOf (VC (ch s)) (digits ((VC (ch s)).map card) i))) := by
      rw [tab, List.map_map]
      apply tab_congr (g := _ ∘ _)
      intro i hi
      simp only [Function.comp]
      apply hG
      exact asgOf_digits_rank (h.snodup hs) (inRange_map_asg (h.sub_ch hs) hi)
    rw [e1, mulEntries_eq, ok_bind, wr_tab hc, ok_bind, tab_update]
    exact congrArg (fun x => Except.ok (JState.mk (tab m x) (tab (m - 1) (fun s => fromFn card (VS s) (G s)))))
      (update_fromFn (card := card) (VC := VC) (F := F) (k := ch s) (X := fun a => F (ch s) a * G s a))
  · intro x hx
    obtain ⟨i, hi, rfl⟩ := List.mem_map.1 hx
    have hi' : i < ((VC (ch s)).map card).prod := by simpa using hi
    exact rd_tab (rank_lt (cfgIn_map (inRange_map_asg (h.sub_ch hs) hi')))

end field

end

end FastPGM
