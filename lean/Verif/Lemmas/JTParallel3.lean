import Verif.Lemmas.JTParallel2

/-!
Message passing with parallel loops computes what the sequential message passing computes.
-/

namespace FastPGM

open Spec

variable {K : Type}

/-! The concrete levels. -/

def rowTransfer (S T : Table K) : Except Fault (List Nat) :=
  (List.range T.size).mapM (transferIndex T.cum (S.vars.map (getVariableIndex T.vars)) S.cum)

def rowMod (S T : Table K) : Except Fault (List Nat) :=
  if S.size = 0 then .error .ub else .ok ((List.range T.size).map (fun k => k % S.size))

theorem bindCongr {α β : Type} {x : Except Fault α} {f g : α → Except Fault β} (h : ∀ a, f a = g a) : (x >>= f) = (x >>= g) := by
  rw [funext h]

theorem separatorDistribute_op [Zero K] [Add K] [Div K] [DecidableEq K] (m : Marks) :
    separatorDistribute (K := K) m = separatorOp m.upOf rowTransfer := rfl

theorem separatorCollect_op [Zero K] [Add K] [Div K] [DecidableEq K] (m : Marks) :
    separatorCollect (K := K) m = separatorOp (fun x => rd (m.down x) 0) rowMod := by
  funext st x
  unfold separatorCollect separatorOp
  refine bindCongr (fun s => bindCongr (fun y => bindCongr (fun i => bindCongr (fun S => bindCongr (fun T => ?_)))))
  unfold rowMod
  split <;> rfl

theorem cliqueCollect_op [Mul K] (m : Marks) (k : Nat) : cliqueCollect (K := K) m k = cliqueOp (fun x => rd (m.down x) k) rowTransfer := rfl

theorem cliqueDistribute_op [Mul K] (m : Marks) : cliqueDistribute (K := K) m = cliqueOp m.upOf rowMod := by
  funext st x
  unfold cliqueDistribute cliqueOp
  refine bindCongr (fun s => bindCongr (fun y => bindCongr (fun i => bindCongr (fun S => bindCongr (fun T => ?_)))))
  unfold rowMod
  split
  · rfl
  · rw [ok_bind, List.mapM_map]
    rfl

theorem par_transfer {p : Nat} (hp : 0 < p) {card : Nat → Nat} (items : List (Nat × Table K × Table K)) (rows : List (List Nat))
    (hwf : ∀ it ∈ items, WellFormed card it.2.1 ∧ WellFormed card it.2.2) (h : items.mapM (fun it => rowTransfer it.2.1 it.2.2) = .ok rows) :
    parTransfer K p (items.map (fun it => ⟨it.2.2.vars.length, it.2.2.cum, it.2.1.vars.map (getVariableIndex it.2.2.vars),
      it.2.1.vars.length, it.2.1.cum, it.2.2.size⟩)) = Par.lift (.ok rows) := by
  refine parTransfer_eq hp ?_ ?_
  · intro t ht
    obtain ⟨it, hit, rfl⟩ := List.mem_map.mp ht
    exact ⟨(hwf it hit).2.cum_length, by simp, (hwf it hit).1.cum_length⟩
  · rw [List.mapM_map]
    exact h

theorem par_mod {p : Nat} (hp : 0 < p) (items : List (Nat × Table K × Table K)) (rows : List (List Nat))
    (h : items.mapM (fun it => rowMod it.2.1 it.2.2) = .ok rows) :
    parMod K p (items.map (fun it => it.2.2.size)) (items.map (fun it => it.2.1.size)) = Par.lift (.ok rows) := by
  have hne : ∀ it ∈ items, it.2.1.size ≠ 0 := by
    intro it hit e
    obtain ⟨i, hi⟩ := List.mem_iff_getElem?.mp hit
    obtain ⟨y, -, hy⟩ := (mapM_get h).2 i it hi
    rw [rowMod, if_pos e] at hy
    cases hy
  have e : rows = items.map (fun it => (List.range it.2.2.size).map (fun k => k % it.2.1.size)) := by
    rw [mapM_ok (g := fun it : Nat × Table K × Table K => (List.range it.2.2.size).map (fun k => k % it.2.1.size))] at h
    · exact (Except.ok.inj h).symm
    · intro it hit
      rw [rowMod, if_neg (hne it hit)]
  have := parMod_eq (K := K) hp (nd := items.map (fun it => (it.2.2.size, it.2.1.size))) (by
    intro x hx
    obtain ⟨it, hit, rfl⟩ := List.mem_map.mp hx
    exact hne it hit)
  rw [List.map_map, List.map_map, List.map_map] at this
  rw [e]
  exact this

section
variable [Zero K] [Add K] [Div K] [DecidableEq K] {p : Nat} {card : Nat → Nat} {m : Marks} {level : List JNode} {st st' : JState K}

theorem separatorLevelDistributeP_eq (hp : 0 < p) (hnd : level.Nodup) (hst : StateWF card st)
    (h : level.foldlM (separatorDistribute m) st = .ok st') :
    separatorLevelDistributeP p m level st = Par.lift (.ok st') ∧ StateWF card st' := by
  rw [separatorDistribute_op] at h
  exact ⟨separatorLevelP_eq hnd hst (fun items rows hwf hr => par_transfer hp items rows hwf hr) h,
    foldlM_inv (StateWF card) h hst (fun _ _ _ hb hf => separatorOp_wf hb hf)⟩

theorem separatorLevelCollectP_eq (hp : 0 < p) (hnd : level.Nodup) (hst : StateWF card st)
    (h : level.foldlM (separatorCollect m) st = .ok st') :
    separatorLevelCollectP p m level st = Par.lift (.ok st') ∧ StateWF card st' := by
  rw [separatorCollect_op] at h
  exact ⟨separatorLevelP_eq hnd hst (fun items rows _ hr => par_mod hp items rows hr) h,
    foldlM_inv (StateWF card) h hst (fun _ _ _ hb hf => separatorOp_wf hb hf)⟩

omit [Zero K] [Add K] [Div K] [DecidableEq K] in
theorem cliqueRoundCollectP_eq [Mul K] {k : Nat} (hp : 0 < p) (hnd : level.Nodup) (hst : StateWF card st)
    (h : level.foldlM (cliqueCollect m k) st = .ok st') :
    cliqueRoundCollectP p m k level st = Par.lift (.ok st') ∧ StateWF card st' := by
  rw [cliqueCollect_op] at h
  exact ⟨cliqueLevelP_eq hp hnd hst (fun _ h => h.length) (fun items rows hwf hr => par_transfer hp items rows hwf hr) h,
    foldlM_inv (StateWF card) h hst (fun _ _ _ hb hf => cliqueOp_wf hb hf)⟩

omit [Zero K] [Add K] [Div K] [DecidableEq K] in
theorem cliqueLevelDistributeP_eq [Mul K] (hp : 0 < p) (hnd : level.Nodup) (hst : StateWF card st)
    (h : level.foldlM (cliqueDistribute m) st = .ok st') :
    cliqueLevelDistributeP p m level st = Par.lift (.ok st') ∧ StateWF card st' := by
  rw [cliqueDistribute_op] at h
  exact ⟨cliqueLevelP_eq hp hnd hst (fun _ h => h.length) (fun items rows _ hr => par_mod hp items rows hr) h,
    foldlM_inv (StateWF card) h hst (fun _ _ _ hb hf => cliqueOp_wf hb hf)⟩

theorem normalize_wf {T T' : Table K} (hT : WellFormed card T) (h : normalize T = .ok T') : WellFormed card T' := by
  obtain ⟨den, -, h⟩ := bind_eq_ok h
  obtain ⟨pot, h1, h⟩ := bind_eq_ok h
  cases h
  refine wellFormed_pot hT ?_
  refine foldlM_range_inv (fun _ (r : List K) => r.length = T.pot.length) h1 rfl ?_
  intro i _ b b' hb hf
  split at hf
  · cases hf
  · obtain ⟨a, -, hf⟩ := bind_eq_ok hf
    obtain ⟨-, rfl⟩ := wr_inv hf
    simpa using hb

theorem normalizeClique_wf {x : JNode} (hst : StateWF card st) (h : normalizeClique st x = .ok st') : StateWF card st' := by
  obtain ⟨i, -, h⟩ := bind_eq_ok h
  obtain ⟨T, hT, h⟩ := bind_eq_ok h
  obtain ⟨T', hn, h⟩ := bind_eq_ok h
  obtain ⟨clq, hw, h⟩ := bind_eq_ok h
  cases h
  obtain ⟨-, rfl⟩ := wr_inv hw
  refine ⟨fun X hX => ?_, hst.2⟩
  rcases mem_set_or hX with hX | rfl
  · exact hst.1 X hX
  · exact normalize_wf (hst.1 _ (List.mem_of_getElem? (rd_eq_ok.mp hT))) hn

end

/-- Loops whose bodies contain parallel regions. -/
theorem par_foldlM {α β : Type} {f : β → α → Except Fault β} {fP : β → α → Par β} (I : β → Prop) {l : List α}
    (hs : ∀ b, I b → ∀ x ∈ l, ∀ b', f b x = .ok b' → fP b x = Par.lift (.ok b') ∧ I b') {b r : β} (h0 : I b) (h : l.foldlM f b = .ok r) :
    l.foldlM fP b = Par.lift (.ok r) ∧ I r := by
  induction l generalizing b with
  | nil => cases h; exact ⟨rfl, h0⟩
  | cons x xs ih =>
    rw [List.foldlM_cons] at h
    obtain ⟨b1, h1, h⟩ := bind_eq_ok h
    obtain ⟨e, hI⟩ := hs b h0 x (by simp) b1 h1
    rw [List.foldlM_cons, e, Par.lift_bind]
    exact ih (fun b hb x hx => hs b hb x (by simp [hx])) hI h

section
variable [Zero K] [Add K] [Mul K] [Div K] [DecidableEq K] {p : Nat} {card : Nat → Nat} {st st' : JState K}

theorem cliqueLevelCollectP_eq {m : Marks} {level : List JNode} (hp : 0 < p) (hnd : level.Nodup) (hst : StateWF card st)
    (h : cliqueLevelCollect m level st = .ok st') :
    cliqueLevelCollectP p m level st = Par.lift (.ok st') ∧ StateWF card st' := by
  refine par_foldlM (StateWF card) ?_ hst h
  intro b hb k _ b' hf
  obtain ⟨b1, h1, hf⟩ := bind_eq_ok hf
  obtain ⟨e, hb1⟩ := cliqueRoundCollectP_eq hp (hnd.filter _) hb h1
  refine ⟨?_, foldlM_inv (StateWF card) hf hb1 (fun _ _ _ hb hf => normalizeClique_wf hb hf)⟩
  show (cliqueRoundCollectP p m k _ b >>= _) = _
  rw [e, Par.lift_bind, hf]

variable {T : JTShape} {L : Levels} {r : Nat} {lev : JNode → Nat} {par ch : Nat → Nat}

theorem Plan.seps_nodup (hL : Plan T L r lev par ch) {i : Nat} (hi : i % 2 = 1) (hlt : i < L.nodes.length) {level : List JNode}
    (h : rd L.seps (i / 2) = .ok level) : level.Nodup := by
  have := hL.lseps i hi hlt
  rw [rd_eq_ok.mp h] at this
  rw [Option.some.inj this]
  exact hL.lnodup i

theorem Plan.nodes_nodup (hL : Plan T L r lev par ch) {i : Nat} {level : List JNode} (h : rd L.nodes i = .ok level) : level.Nodup := by
  have := hL.lnodup i
  rw [List.getD_eq_getElem?_getD, rd_eq_ok.mp h] at this
  exact this

theorem collectP_eq (hp : 0 < p) (hL : Plan T L r lev par ch) (hst : StateWF card st) (h : collect L st = .ok st') :
    collectP p L st = Par.lift (.ok st') ∧ StateWF card st' := by
  refine par_foldlM (StateWF card) ?_ hst h
  intro b hb i hi b' hf
  have hi : i < L.nodes.length - 1 := by simpa using hi
  by_cases ho : i % 2 = 1
  · simp only [if_pos ho] at hf ⊢
    obtain ⟨level, hl, hf⟩ := bind_eq_ok hf
    rw [hl, Par.lift_bind]
    exact separatorLevelCollectP_eq hp (hL.seps_nodup ho (by omega) hl) hb hf
  · simp only [if_neg ho] at hf ⊢
    obtain ⟨level, hl, hf⟩ := bind_eq_ok hf
    rw [hl, Par.lift_bind]
    exact cliqueLevelCollectP_eq hp (hL.nodes_nodup hl) hb hf

theorem distributeP_eq (hp : 0 < p) (hL : Plan T L r lev par ch) (hst : StateWF card st) (h : distribute L st = .ok st') :
    distributeP p L st = Par.lift (.ok st') ∧ StateWF card st' := by
  refine par_foldlM (StateWF card) ?_ hst h
  intro b hb i hi b' hf
  have hi : i < L.nodes.length - 1 := by simpa using hi
  by_cases ho : (i + 1) % 2 = 1
  · simp only [if_pos ho] at hf ⊢
    obtain ⟨level, hl, hf⟩ := bind_eq_ok hf
    rw [hl, Par.lift_bind]
    exact separatorLevelDistributeP_eq hp (hL.seps_nodup ho (by omega) hl) hb hf
  · simp only [if_neg ho] at hf ⊢
    obtain ⟨level, hl, hf⟩ := bind_eq_ok hf
    obtain ⟨b1, h1, hf⟩ := bind_eq_ok hf
    obtain ⟨e, hb1⟩ := cliqueLevelDistributeP_eq hp (hL.nodes_nodup hl) hb h1
    rw [hl, Par.lift_bind, e, Par.lift_bind, hf]
    exact ⟨rfl, foldlM_inv (StateWF card) hf hb1 (fun _ _ _ hb hf => normalizeClique_wf hb hf)⟩

end

end FastPGM
