import Verif.Lemmas.JTParallel4
import Verif.Lemmas.MessagePassing5

/-!
Message passing with parallel loops on a constructed tree has the outcome of the sequential message passing as its only outcome, also
when that outcome is a fault.
-/

namespace FastPGM

open Spec

variable {K : Type}

theorem par_foldlM_all {α β : Type} {f : β → α → Except Fault β} {fP : β → α → Par β} (I : β → Prop) {l : List α}
    (hs : ∀ b, I b → ∀ x ∈ l, fP b x = Par.lift (f b x) ∧ ∀ b', f b x = .ok b' → I b') {b : β} (h0 : I b) :
    l.foldlM fP b = Par.lift (l.foldlM f b) ∧ ∀ r, l.foldlM f b = .ok r → I r := by
  induction l generalizing b with
  | nil => exact ⟨rfl, fun r h => by cases h; exact h0⟩
  | cons x xs ih =>
    rw [List.foldlM_cons, List.foldlM_cons]
    obtain ⟨e, hI⟩ := hs b h0 x (by simp)
    rw [e]
    cases hf : f b x with
    | error e' => exact ⟨Par.lift_error_bind _ _, fun r h => by cases h⟩
    | ok b1 =>
      rw [Par.lift_bind, ok_bind]
      exact ih (fun b hb x hx => hs b hb x (by simp [hx])) (hI b1 hf)

theorem foldlM_total {α β : Type} {f : β → α → Except Fault β} (I : β → Prop) {l : List α}
    (hs : ∀ b, I b → ∀ x ∈ l, ∃ b', f b x = .ok b' ∧ I b') {b : β} (h0 : I b) : ∃ r, l.foldlM f b = .ok r ∧ I r := by
  induction l generalizing b with
  | nil => exact ⟨b, rfl, h0⟩
  | cons x xs ih =>
    obtain ⟨b1, e, hI⟩ := hs b h0 x (by simp)
    rw [List.foldlM_cons, e, ok_bind]
    exact ih (fun b hb x hx => hs b hb x (by simp [hx])) hI

/-- The tables of the state represent functions of their variables. -/
def Rep (card : Nat → Nat) (m : Nat) (VC VS : Nat → List Nat) (st : JState K) : Prop :=
  ∃ F G : Nat → Assignment → K, (∀ i, DependsOn (F i) (VC i)) ∧ (∀ s, DependsOn (G s) (VS s)) ∧ st = repState card m VC VS F G

variable {card : Nat → Nat} {VC VS : Nat → List Nat} {m : Nat} {par ch : Nat → Nat}

theorem dep_update {F : Nat → Assignment → K} {V : Nat → List Nat} (hF : ∀ i, DependsOn (F i) (V i)) {j : Nat} {X : Assignment → K}
    (hX : DependsOn X (V j)) : ∀ i, DependsOn (Function.update F j X i) (V i) := by
  intro i
  by_cases h : i = j
  · subst h
    rw [Function.update_self]
    exact hX
  · rw [Function.update_of_ne h]
    exact hF i

theorem RepOK.wf (h : RepOK card m VC VS par ch) {st : JState K} (hst : Rep card m VC VS st) : StateWF card st := by
  obtain ⟨F, G, -, -, rfl⟩ := hst
  constructor
  · intro T hT
    simp only [repState, tab, List.mem_map, List.mem_range] at hT
    obtain ⟨i, -, rfl⟩ := hT
    exact fromFn_wf (h.cnodup i) (h.cpos i) _
  · intro T hT
    simp only [repState, tab, List.mem_map, List.mem_range] at hT
    obtain ⟨s, hs, rfl⟩ := hT
    have hs : s + 1 < m := by omega
    exact fromFn_wf (h.snodup hs) (fun v hv => h.cpos _ v (h.sub s hs v hv)) _

variable {T : JTShape} {L : Levels} {r : Nat} {lev : JNode → Nat}

theorem Plan.clq_of_even (hp : Plan T L r lev par ch) (h : RepOK card T.cliques.length VC VS par ch) {i : Nat} (hi : i % 2 = 0) {x : JNode}
    (hv : validNode T.cliques.length x) (hl : lev x = i) : ∃ k, x = .clq k ∧ k < T.cliques.length := by
  cases x with
  | clq k => exact ⟨k, rfl, hv⟩
  | sep s =>
    exfalso
    have h1 := hp.lev_sep s hv
    have h2 := hp.even_clq _ (h.par_lt s hv)
    omega

theorem Plan.sep_of_odd (hp : Plan T L r lev par ch) {i : Nat} (hi : i % 2 = 1) {x : JNode} (hv : validNode T.cliques.length x)
    (hl : lev x = i) : ∃ s, x = .sep s ∧ s + 1 < T.cliques.length := by
  cases x with
  | sep s => exact ⟨s, rfl, hv⟩
  | clq k =>
    have := hp.even_clq k hv
    omega

section field

variable [Field K] [DecidableEq K]

theorem normalizeClique_rep {i : Nat} (hi : i < m) (h : RepOK card m VC VS par ch) {st st' : JState K}
    (hst : Rep card m VC VS st) (he : normalizeClique st (.clq i) = .ok st') : Rep card m VC VS st' := by
  obtain ⟨F, G, hF, hG, rfl⟩ := hst
  by_cases h0 : sumOut card (VC i) (F i) (fun _ => 0) = 0
  · exfalso
    unfold normalizeClique repState at he
    simp only [JNode.clqIdx, ok_bind] at he
    rw [rd_tab hi, ok_bind, normalize_zero (h.cnodup i) (h.cpos i) (hF i) _ h0] at he
    cases he
  · rw [normalizeClique_eq hi (h.cnodup i) (hF i) _ h0] at he
    cases he
    refine ⟨_, _, dep_update hF ?_, hG, rfl⟩
    intro a b hab
    show _ / _ = _ / _
    rw [hF i a b hab]

section levels
variable {p : Nat}

theorem normalizeCliques_rep (h : RepOK card m VC VS par ch) {level : List JNode} (hl : ∀ x ∈ level, ∃ k, x = .clq k ∧ k < m)
    {st st' : JState K} (hst : Rep card m VC VS st) (he : level.foldlM normalizeClique st = .ok st') : Rep card m VC VS st' := by
  refine (par_foldlM_all (fP := fun b x => Par.lift (normalizeClique b x)) (Rep card m VC VS) (l := level) ?_ hst).2 _ he
  intro b hb x hx
  refine ⟨rfl, fun b' e => ?_⟩
  obtain ⟨k, rfl, hk⟩ := hl x hx
  exact normalizeClique_rep hk h hb e

theorem collectP_all (hp : 0 < p) (hL : Plan T L r lev par ch) (h : RepOK card T.cliques.length VC VS par ch) {st : JState K}
    (hst : Rep card T.cliques.length VC VS st) :
    collectP p L st = Par.lift (collect L st) ∧ ∀ st', collect L st = .ok st' → Rep card T.cliques.length VC VS st' := by
  refine par_foldlM_all (Rep card T.cliques.length VC VS) ?_ hst
  intro b hb i hi
  have hi : i < L.nodes.length - 1 := by simpa using hi
  by_cases ho : i % 2 = 1
  · simp only [if_pos ho]
    have hl : rd L.seps (i / 2) = .ok (L.nodes.getD i []) := rd_eq_ok.mpr (hL.lseps i ho (by omega))
    obtain ⟨b1, e1, hb1⟩ := foldlM_total (f := separatorCollect L.marks) (l := L.nodes.getD i []) (Rep card T.cliques.length VC VS) (by
      intro b hb x hx
      obtain ⟨hv, hlv⟩ := (hL.mem i (by omega) x).1 hx
      obtain ⟨s, rfl, hs⟩ := hL.sep_of_odd ho hv hlv
      obtain ⟨F, G, hF, hG, rfl⟩ := hb
      exact ⟨_, separatorCollect_eq h hs (hL.down_sep s hs) (hF _), _, _, hF, dep_update hG (quotSum_dep (hF _) (hG s)), rfl⟩) hb
    rw [hl, Par.lift_bind, ok_bind, e1]
    exact ⟨(separatorLevelCollectP_eq hp (hL.seps_nodup ho (by omega) hl) (h.wf hb) e1).1, fun b' e => by cases e; exact hb1⟩
  · simp only [if_neg ho]
    obtain ⟨level, hl⟩ : ∃ level, rd L.nodes i = .ok level := ⟨_, rd_getElem (by omega : i < L.nodes.length)⟩
    have hlev : L.nodes.getD i [] = level := by rw [List.getD_eq_getElem?_getD, rd_eq_ok.mp hl]; rfl
    have hclq : ∀ x ∈ level, ∃ k, x = .clq k ∧ k < T.cliques.length := by
      intro x hx
      rw [← hlev] at hx
      obtain ⟨hv, hlv⟩ := (hL.mem i (by omega) x).1 hx
      exact hL.clq_of_even h (by omega) hv hlv
    rw [hl, Par.lift_bind, ok_bind]
    refine par_foldlM_all (Rep card T.cliques.length VC VS) ?_ hb
    intro b hb k _
    have hcl' : ∀ x ∈ level.filter (fun x => decide (k < (L.marks.down x).length)), ∃ k, x = .clq k ∧ k < T.cliques.length :=
      fun x hx => hclq x (List.mem_filter.1 hx).1
    obtain ⟨b1, e1, hb1⟩ := foldlM_total (f := cliqueCollect L.marks k) (l := level.filter (fun x => decide (k < (L.marks.down x).length)))
      (Rep card T.cliques.length VC VS) (by
        intro b hb x hx
        have hk : k < (L.marks.down x).length := by simpa using (List.mem_filter.1 hx).2
        obtain ⟨c, rfl, hc⟩ := hcl' x hx
        obtain ⟨s, hs, e2, e3⟩ := (hL.down_clq c hc _).1 (List.getElem_mem hk)
        obtain ⟨F, G, hF, hG, rfl⟩ := hb
        refine ⟨_, cliqueCollect_eq h hs e3 (by rw [List.getElem?_eq_getElem hk, e2]) (hG s), _, _,
          dep_update hF (dep_mul (hF c) (hG s) ?_), hG, rfl⟩
        intro v hv
        rw [← e3]
        exact h.sub s hs v hv) hb
    have e2 := (cliqueRoundCollectP_eq hp ((hL.nodes_nodup hl).filter _) (h.wf hb) e1).1
    simp only [e2, Par.lift_bind, e1, ok_bind]
    exact ⟨trivial, fun b' e => normalizeCliques_rep h hcl' hb1 e⟩

theorem distributeP_all (hp : 0 < p) (hL : Plan T L r lev par ch) (h : RepOK card T.cliques.length VC VS par ch) {st : JState K}
    (hst : Rep card T.cliques.length VC VS st) :
    distributeP p L st = Par.lift (distribute L st) := by
  refine (par_foldlM_all (Rep card T.cliques.length VC VS) ?_ hst).1
  intro b hb i hi
  have hi : i < L.nodes.length - 1 := by simpa using hi
  by_cases ho : (i + 1) % 2 = 1
  · simp only [if_pos ho]
    have hl : rd L.seps ((i + 1) / 2) = .ok (L.nodes.getD (i + 1) []) := rd_eq_ok.mpr (hL.lseps (i + 1) ho (by omega))
    obtain ⟨b1, e1, hb1⟩ := foldlM_total (f := separatorDistribute L.marks) (l := L.nodes.getD (i + 1) []) (Rep card T.cliques.length VC VS) (by
      intro b hb x hx
      obtain ⟨hv, hlv⟩ := (hL.mem (i + 1) (by omega) x).1 hx
      obtain ⟨s, rfl, hs⟩ := hL.sep_of_odd ho hv hlv
      obtain ⟨F, G, hF, hG, rfl⟩ := hb
      exact ⟨_, separatorDistribute_eq h hs (hL.up_sep s hs) (hF _), _, _, hF, dep_update hG (quotSum_dep (hF _) (hG s)), rfl⟩) hb
    rw [hl, Par.lift_bind, ok_bind, e1]
    exact ⟨(separatorLevelDistributeP_eq hp (hL.seps_nodup ho (by omega) hl) (h.wf hb) e1).1, fun b' e => by cases e; exact hb1⟩
  · simp only [if_neg ho]
    obtain ⟨level, hl⟩ : ∃ level, rd L.nodes (i + 1) = .ok level := ⟨_, rd_getElem (by omega : i + 1 < L.nodes.length)⟩
    have hlev : L.nodes.getD (i + 1) [] = level := by rw [List.getD_eq_getElem?_getD, rd_eq_ok.mp hl]; rfl
    have hmem : ∀ x ∈ level, validNode T.cliques.length x ∧ lev x = i + 1 := by
      intro x hx
      rw [← hlev] at hx
      exact (hL.mem (i + 1) (by omega) x).1 hx
    have hclq : ∀ x ∈ level, ∃ k, x = .clq k ∧ k < T.cliques.length := fun x hx =>
      hL.clq_of_even h (by omega) (hmem x hx).1 (hmem x hx).2
    obtain ⟨b1, e1, hb1⟩ := foldlM_total (f := cliqueDistribute L.marks) (l := level) (Rep card T.cliques.length VC VS) (by
        intro b hb x hx
        obtain ⟨c, rfl, hc⟩ := hclq x hx
        obtain ⟨s, hs, rfl⟩ := hL.exists_ch c hc (by
          rintro rfl
          have := (hmem _ hx).2
          rw [hL.lev_root] at this
          omega)
        obtain ⟨F, G, hF, hG, rfl⟩ := hb
        refine ⟨_, cliqueDistribute_eq h hs (hL.up_ch s hs) (hG s), _, _, dep_update hF (dep_mul (hF _) (hG s) ?_), hG, rfl⟩
        intro v hv
        obtain ⟨us, hus⟩ := h.suffix s hs
        rw [hus]
        simp [hv]) hb
    have e2 := (cliqueLevelDistributeP_eq hp (hL.nodes_nodup hl) (h.wf hb) e1).1
    rw [hl]
    simp only [Par.lift_bind, e2, ok_bind, e1]
    exact ⟨trivial, fun b' e => normalizeCliques_rep h hclq hb1 e⟩

end levels

end field

variable [Field K] [LinearOrder K] [IsStrictOrderedRing K] {N : Net} {pts : List (Table K)} {J : JTree K} {F : Nat → Assignment → K}

theorem Built.propagateP_all {p : Nat} (hp : 0 < p) (hb : Built N card pts J T L r lev par ch F) (hcard : ∀ i < N.nodes.length, 0 < card i)
    (hnn : ∀ T ∈ pts, ∀ x ∈ T.pot, 0 ≤ x) {E : List (Nat × Nat)} (hE : ∀ e ∈ E, e.1 < N.nodes.length → e.2 < card e.1) :
    propagateP p J.levels J.n E J.state = Par.lift (FastPGM.propagate J.levels J.n E J.state) := by
  have hrep := hb.repOK hcard E
  have hwf : StateWF card J.state := by
    refine (hb.repOK hcard []).wf ?_
    rw [hb.state]
    refine ⟨fun i => if i < T.cliques.length then F i else fun _ => 1, fun _ _ => 1, fun i => ?_, fun s _ _ _ => rfl, ?_⟩
    · by_cases hi : i < T.cliques.length
      · simp only [if_pos hi]
        exact (hb.dep i).mono (fun v hv => mem_unobs.2 ⟨(hb.plan.mem_stored hi).2 hv, by simp⟩)
      · simp only [if_neg hi]
        exact fun _ _ _ => rfl
    · have e : ∀ vs : List Nat, unobs [] vs = vs := fun vs => by simp [unobs]
      simp only [e]
      refine repState_congr (fun i hi a _ => by rw [if_pos hi]) (fun _ _ _ _ => rfl)
  unfold propagateP FastPGM.propagate
  have hl := loadEvidence_redS (n := J.n) E hwf
  have hs := hb.start hcard hnn hE
  unfold propagateWith at hs
  rw [(loadEvidenceP_eq hp hwf hl).1, Par.lift_bind, hl, ok_bind]
  rw [hl] at hs
  simp only [ok_bind] at hs
  rw [hb.levels]
  cases h2 : (E.foldl (fun st e => redS card J.n e st) J.state).clq.mapM normalize with
  | error e => exact Par.lift_error_bind _ _
  | ok clq =>
    rw [Par.lift_bind, ok_bind]
    rw [h2] at hs
    simp only [ok_bind] at hs
    rcases hs with hs | ⟨σ, hσ, -, hs⟩
    · cases hs .ok .ok
    · have hs : Except.ok _ = Except.ok _ := hs .ok .ok
      have hst : Rep card T.cliques.length (fun i => unobs E (storedVars T L.marks i)) (fun s => unobs E (sepVars T s))
          (⟨clq, (E.foldl (fun st e => redS card J.n e st) J.state).sep⟩ : JState K) := by
        rw [Except.ok.inj hs]
        exact ⟨_, _, fun i => hσ.1 (.clq i), fun s => hσ.1 (.sep s), rfl⟩
      obtain ⟨e1, h3⟩ := collectP_all hp hb.plan hrep hst
      rw [e1]
      cases h4 : collect L ⟨clq, (E.foldl (fun st e => redS card J.n e st) J.state).sep⟩ with
      | error e => exact Par.lift_error_bind _ _
      | ok st2 =>
        rw [Par.lift_bind, ok_bind]
        exact distributeP_all hp hb.plan hrep (h3 _ h4)

end FastPGM
