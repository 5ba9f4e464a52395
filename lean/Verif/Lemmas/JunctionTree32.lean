import Verif.Model.JunctionTree32
import Verif.Lemmas.Int32
import Verif.Lemmas.JTParallel5

/-!
Queries in 32-bit arithmetic agree with the unbounded ones as long as the tables are small enough.
-/

namespace FastPGM

open Spec

variable {K : Type}

/-- A table with at most `M` entries whose index arrays have at most `INT_MAX` elements. -/
structure TFits (card : Nat → Nat) (M : Nat) (T : Table K) : Prop where
  wf : WellFormed card T
  size : T.size ≤ M
  space : T.size * T.vars.length ≤ intMax

/-- All tables of the tree, of at most `m` cliques and `m` separators. -/
structure JFits (card : Nat → Nat) (M m : Nat) (st : JState K) : Prop where
  clq : ∀ T ∈ st.clq, TFits card M T
  sep : ∀ T ∈ st.sep, TFits card M T
  nclq : st.clq.length ≤ m
  nsep : st.sep.length ≤ m

variable {card : Nat → Nat} {M m : Nat} {st st' : JState K}

theorem JFits.wf (h : JFits card M m st) : StateWF card st := ⟨fun T hT => (h.clq T hT).wf, fun T hT => (h.sep T hT).wf⟩

theorem TFits.pot {T : Table K} (h : TFits card M T) {pot : List K} (hl : pot.length = T.pot.length) : TFits card M { T with pot := pot } :=
  ⟨wellFormed_pot h.wf hl, h.size, h.space⟩

theorem foldlM_agree {α β : Type} {f g : β → α → Except Fault β} (I : β → Prop) {l : List α}
    (hs : ∀ b, I b → ∀ x ∈ l, ∀ b', f b x = .ok b' → g b x = .ok b' ∧ I b') {b r : β} (h0 : I b) (h : l.foldlM f b = .ok r) :
    l.foldlM g b = .ok r ∧ I r := by
  induction l generalizing b with
  | nil => cases h; exact ⟨rfl, h0⟩
  | cons x xs ih =>
    rw [List.foldlM_cons] at h
    obtain ⟨b1, h1, h⟩ := bind_eq_ok h
    obtain ⟨e, hI⟩ := hs b h0 x (by simp) b1 h1
    rw [List.foldlM_cons, e, ok_bind]
    exact ih (fun b hb x hx => hs b hb x (by simp [hx])) hI h

/-- Sums over a level. -/
theorem sums_ok {α : Type} {f : α → Except Fault Nat} {l : List α} (hf : ∀ x ∈ l, ∃ n, f x = .ok n ∧ n ≤ M) (hl : l.length * M ≤ intMax) :
    ∃ sizes r, l.mapM f = .ok sizes ∧ levelSums32 sizes = .ok r := by
  have key : ∃ sizes, l.mapM f = .ok sizes ∧ sizes.sum ≤ l.length * M := by
    clear hl
    induction l with
    | nil => exact ⟨[], rfl, by simp⟩
    | cons x xs ih =>
      obtain ⟨n, h1, h2⟩ := hf x (by simp)
      obtain ⟨ns, h3, h4⟩ := ih (fun y hy => hf y (by simp [hy]))
      refine ⟨n :: ns, by rw [List.mapM_cons, h1, ok_bind, h3]; rfl, ?_⟩
      rw [List.sum_cons, List.length_cons, Nat.succ_mul]
      omega
  obtain ⟨sizes, h1, h2⟩ := key
  exact ⟨sizes, _, h1, by rw [levelSums32_eq, if_pos (Nat.le_trans h2 hl)]⟩

theorem sums_ub {α β : Type} {f : α → Except Fault Nat} {l : List α} {sizes : List Nat} (hf : l.mapM f = .ok sizes) (hs : ¬ sizes.sum ≤ intMax)
    (k : List Nat × Nat → Except Fault β) : (do let sizes ← l.mapM f; let r ← levelSums32 sizes; k r) = .error .ub := by
  rw [hf, ok_bind, levelSums32_eq, if_neg hs]
  rfl

theorem length_le_of_nodup {l : List JNode} (hn : l.Nodup) {n : Nat} {c : Nat → JNode} (h : ∀ x ∈ l, ∃ k, x = c k ∧ k < n) : l.length ≤ n := by
  have : l.Subperm ((List.range n).map c) := List.subperm_of_subset hn (fun x hx => by
    obtain ⟨k, rfl, hk⟩ := h x hx
    exact List.mem_map.2 ⟨k, List.mem_range.2 hk, rfl⟩)
  simpa using this.length_le

theorem forall₂_left {α β : Type} {R : α → β → Prop} {l : List α} {r : List β} (h : List.Forall₂ R l r) : ∀ x ∈ l, ∃ y, R x y := by
  induction h with
  | nil => simp
  | cons hxy _ ih =>
    intro x hx
    rcases List.mem_cons.1 hx with rfl | hx
    · exact ⟨_, hxy⟩
    · exact ih x hx

/-- The indices of one table. -/
theorem rowTransfer32 {S T : Table K} {r : List Nat} (hT : TFits card M T) (hS : WellFormed card S) (h : rowTransfer S T = .ok r) :
    T.size * S.vars.length ≤ intMax ∧
    (List.range T.size).mapM (transferIndex32 T.vars.length S.vars.length T.cum (S.vars.map (getVariableIndex T.vars)) S.cum) = .ok r := by
  have hpos : 0 < T.size := by
    rw [hT.wf.size]
    exact Nat.pos_of_ne_zero (by
      intro e
      have := List.prod_eq_zero_iff.1 e
      rw [hT.wf.dims] at this
      obtain ⟨v, hv, h0⟩ := List.mem_map.1 this
      have := hT.wf.pos v hv
      omega)
  have hsub : ∀ v ∈ S.vars, v ∈ T.vars := by
    unfold rowTransfer at h
    obtain ⟨y, -, hy⟩ := (mapM_get h).2 0 0 (by rw [List.getElem?_range hpos])
    obtain ⟨full, part, h1, h2, -⟩ := transferIndex_inv hy
    rw [hT.wf.cumEq, getConfig_cumLevels (by rw [hT.wf.dims]; exact map_pos hT.wf.pos)] at h1
    cases h1
    intro v hv
    obtain ⟨k, hk⟩ := List.mem_iff_getElem?.1 (List.mem_map_of_mem (f := getVariableIndex T.vars) hv)
    obtain ⟨z, -, hz⟩ := (mapM_get h2).2 k _ hk
    have := (List.getElem?_eq_some_iff.1 (rd_eq_ok.1 hz)).1
    rw [digits_length, hT.wf.dims, List.length_map] at this
    exact List.idxOf_lt_length_iff.1 this
  have hlen : S.vars.length ≤ T.vars.length := (List.subperm_of_subset hS.nodup hsub).length_le
  have h2 : T.size * S.vars.length ≤ intMax := Nat.le_trans (Nat.mul_le_mul_left _ hlen) hT.space
  refine ⟨h2, ?_⟩
  have hsz : T.size ≤ intMax := size_le_of_space hT.space (fun e => by
    have : T.vars = [] := List.length_eq_zero_iff.1 e
    rw [hT.wf.size, hT.wf.dims, this]; rfl)
  have hle : S.size ≤ T.size := by
    rw [hT.wf.size, hT.wf.dims, hS.size, hS.dims]
    exact prod_subset hS.nodup hsub hT.wf.pos
  rw [← h]
  unfold rowTransfer
  refine mapM_congr ?_
  intro i hi
  have hi := List.mem_range.1 hi
  have ht := transferIndex_eq (dims := T.dims) (vs := S.vars) (dims' := S.dims) (vars := T.vars)
    (by rw [hT.wf.dims]; exact map_pos hT.wf.pos) (by rw [hT.wf.dims]; simp) hsub i
  rw [← hT.wf.cumEq, ← hS.cumEq] at ht
  refine transferIndex32_eq hi hT.space h2 ?_ (by simp) ht ?_
  · intro l hl
    obtain ⟨v, hv, rfl⟩ := List.mem_map.1 hl
    exact List.idxOf_lt_length_of_mem (hsub v hv)
  · refine Nat.le_trans (Nat.le_of_lt ?_) (Nat.le_trans hle hsz)
    rw [hS.size, hS.dims]
    refine rank_lt (cfgIn_map ?_)
    intro v hv
    rw [hT.wf.dims]
    exact asgOf_lt (by rw [← hT.wf.dims, ← hT.wf.size]; exact hi) v (hsub v hv)

section ops

variable {sel : JNode → Except Fault JNode} {row : Table K → Table K → Except Fault (List Nat)} {x : JNode}

theorem separatorOp_fits [Zero K] [Add K] [Div K] [DecidableEq K] (hst : JFits card M m st) (h : separatorOp sel row st x = .ok st') :
    JFits card M m st' := by
  obtain ⟨q, hq, rfl⟩ := separatorOp_inv h
  refine ⟨hst.clq, fun T hT => ?_, hst.nclq, by simpa using hst.nsep⟩
  rcases mem_set_or hT with hT | rfl
  · exact hst.sep T hT
  · exact (hst.sep _ (List.mem_of_getElem? hq.sep)).pot (divideEntries_length hq.pot)

theorem cliqueOp_fits [Mul K] (hst : JFits card M m st) (h : cliqueOp sel row st x = .ok st') : JFits card M m st' := by
  obtain ⟨q, hq, rfl⟩ := cliqueOp_inv h
  refine ⟨fun T hT => ?_, hst.sep, by simpa using hst.nclq, hst.nsep⟩
  rcases mem_set_or hT with hT | rfl
  · exact hst.clq T hT
  · exact (hst.clq _ (List.mem_of_getElem? hq.clq)).pot (mulEntries_inv hq.pot).1

theorem normalize_fits [Zero K] [Add K] [Div K] [DecidableEq K] {T T' : Table K} (hT : TFits card M T) (h : normalize T = .ok T') :
    TFits card M T' := by
  have hw := normalize_wf hT.wf h
  obtain ⟨den, -, h⟩ := bind_eq_ok h
  obtain ⟨pot, -, h⟩ := bind_eq_ok h
  cases h
  exact ⟨hw, hT.size, hT.space⟩

theorem normalizeClique_fits [Zero K] [Add K] [Div K] [DecidableEq K] (hst : JFits card M m st) (h : normalizeClique st x = .ok st') :
    JFits card M m st' := by
  obtain ⟨i, -, h⟩ := bind_eq_ok h
  obtain ⟨T, hT, h⟩ := bind_eq_ok h
  obtain ⟨T', hn, h⟩ := bind_eq_ok h
  obtain ⟨clq, hw, h⟩ := bind_eq_ok h
  cases h
  obtain ⟨-, rfl⟩ := wr_inv hw
  refine ⟨fun X hX => ?_, hst.sep, by simpa using hst.nclq, hst.nsep⟩
  rcases mem_set_or hX with hX | rfl
  · exact hst.clq X hX
  · exact normalize_fits (hst.clq _ (List.mem_of_getElem? (rd_eq_ok.mp hT))) hn

theorem separatorDistribute32_eq [Zero K] [Add K] [Div K] [DecidableEq K] {mk : Marks} (hst : JFits card M m st)
    (h : separatorDistribute mk st x = .ok st') : separatorDistribute32 mk st x = .ok st' := by
  unfold separatorDistribute at h
  unfold separatorDistribute32
  obtain ⟨s, h1, h⟩ := bind_eq_ok h
  obtain ⟨y, h2, h⟩ := bind_eq_ok h
  obtain ⟨i, h3, h⟩ := bind_eq_ok h
  obtain ⟨S, h4, h⟩ := bind_eq_ok h
  obtain ⟨T, h5, h⟩ := bind_eq_ok h
  obtain ⟨r, h6, h⟩ := bind_eq_ok h
  have hT := hst.clq T (List.mem_of_getElem? (rd_eq_ok.mp h5))
  obtain ⟨e1, e2⟩ := rowTransfer32 hT (hst.sep S (List.mem_of_getElem? (rd_eq_ok.mp h4))).wf h6
  rw [h1, ok_bind, h2, ok_bind, h3, ok_bind, h4, ok_bind, h5, ok_bind]
  simp only
  rw [mul32_ok hT.space, ok_bind, mul32_ok e1, ok_bind, e2, ok_bind]
  exact h

theorem cliqueCollect32_eq [Mul K] {mk : Marks} {k : Nat} (hst : JFits card M m st)
    (h : cliqueCollect mk k st x = .ok st') : cliqueCollect32 mk k st x = .ok st' := by
  unfold cliqueCollect at h
  unfold cliqueCollect32
  obtain ⟨i, h1, h⟩ := bind_eq_ok h
  obtain ⟨y, h2, h⟩ := bind_eq_ok h
  obtain ⟨s, h3, h⟩ := bind_eq_ok h
  obtain ⟨T, h4, h⟩ := bind_eq_ok h
  obtain ⟨S, h5, h⟩ := bind_eq_ok h
  obtain ⟨r, h6, h⟩ := bind_eq_ok h
  have hT := hst.clq T (List.mem_of_getElem? (rd_eq_ok.mp h4))
  obtain ⟨e1, e2⟩ := rowTransfer32 hT (hst.sep S (List.mem_of_getElem? (rd_eq_ok.mp h5))).wf h6
  rw [h1, ok_bind, h2, ok_bind, h3, ok_bind, h4, ok_bind, h5, ok_bind]
  simp only
  rw [mul32_ok hT.space, ok_bind, mul32_ok e1, ok_bind, e2, ok_bind]
  exact h

end ops

theorem clqSize_ok (hst : JFits card M m st) {i : Nat} (hi : i < st.clq.length) : ∃ n, clqSize st (.clq i) = .ok n ∧ n ≤ M := by
  refine ⟨st.clq[i].size, ?_, (hst.clq _ (List.getElem_mem hi)).size⟩
  simp only [clqSize, JNode.clqIdx, ok_bind, rd_getElem hi]
  rfl

theorem sepSize_ok (hst : JFits card M m st) {s : Nat} (hs : s < st.sep.length) : ∃ n, sepSize st (.sep s) = .ok n ∧ n ≤ M := by
  refine ⟨st.sep[s].size, ?_, (hst.sep _ (List.getElem_mem hs)).size⟩
  simp only [sepSize, JNode.sepIdx, ok_bind, rd_getElem hs]
  rfl

section levels

variable {mk : Marks} {level : List JNode}

section sep

variable [Zero K] [Add K] [Div K] [DecidableEq K] {sel : JNode → Except Fault JNode} {row : Table K → Table K → Except Fault (List Nat)}

/-- What a level of separators needs. -/
theorem sepLevel_sums (hM : m * M ≤ intMax) (hnd : level.Nodup) (hst : JFits card M m st)
    (h : level.foldlM (separatorOp sel row) st = .ok st') :
    JFits card M m st' ∧ (∃ sizes r, level.mapM (fun x => do let y ← sel x; clqSize st y) = .ok sizes ∧ levelSums32 sizes = .ok r) ∧
      ∃ sizes r, level.mapM (sepSize st') = .ok sizes ∧ levelSums32 sizes = .ok r := by
  have hst' : JFits card M m st' := foldlM_inv (JFits card M m) h hst (fun _ _ _ hb hf => separatorOp_fits hb hf)
  have hlen : st'.sep.length = st.sep.length := foldlM_inv (fun s => s.sep.length = st.sep.length) h rfl (fun b x b' hb hf => by
    obtain ⟨q, -, rfl⟩ := separatorOp_inv hf
    simpa using hb)
  obtain ⟨qs, hqs, -⟩ := separatorLevel_inv hnd h
  have hx := forall₂_left hqs
  have hl : level.length * M ≤ intMax := by
    refine Nat.le_trans (Nat.mul_le_mul_right _ ?_) hM
    refine Nat.le_trans (length_le_of_nodup hnd (c := JNode.sep) (n := st.sep.length) ?_) hst.nsep
    intro x hm
    obtain ⟨q, hq⟩ := hx x hm
    exact ⟨q.1, hq.node, (List.getElem?_eq_some_iff.1 hq.sep).1⟩
  refine ⟨hst', sums_ok ?_ hl, sums_ok ?_ hl⟩
  · intro x hm
    obtain ⟨q, hq⟩ := hx x hm
    obtain ⟨i, h1, h2⟩ := hq.clq
    rw [h1, ok_bind]
    exact clqSize_ok hst (List.getElem?_eq_some_iff.1 h2).1
  · intro x hm
    obtain ⟨q, hq⟩ := hx x hm
    rw [hq.node]
    exact sepSize_ok hst' (by rw [hlen]; exact (List.getElem?_eq_some_iff.1 hq.sep).1)

theorem separatorLevelCollect32_eq (hM : m * M ≤ intMax) (hnd : level.Nodup) (hst : JFits card M m st)
    (h : level.foldlM (separatorCollect mk) st = .ok st') : separatorLevelCollect32 mk level st = .ok st' ∧ JFits card M m st' := by
  have h' := h
  rw [separatorCollect_op] at h'
  obtain ⟨h1, ⟨s1, r1, e1, e2⟩, s2, r2, e3, e4⟩ := sepLevel_sums hM hnd hst h'
  refine ⟨?_, h1⟩
  unfold separatorLevelCollect32
  rw [e1, ok_bind, e2, ok_bind, h, ok_bind, e3, ok_bind, e4, ok_bind]
  rfl

theorem separatorLevelDistribute32_eq (hM : m * M ≤ intMax) (hnd : level.Nodup) (hst : JFits card M m st)
    (h : level.foldlM (separatorDistribute mk) st = .ok st') : separatorLevelDistribute32 mk level st = .ok st' ∧ JFits card M m st' := by
  have h' := h
  rw [separatorDistribute_op] at h'
  obtain ⟨h1, ⟨s1, r1, e1, e2⟩, s2, r2, e3, e4⟩ := sepLevel_sums hM hnd hst h'
  refine ⟨?_, h1⟩
  unfold separatorLevelDistribute32
  have h32 := (foldlM_agree (g := separatorDistribute32 mk) (JFits card M m) (fun b hb x _ b' hf =>
    ⟨separatorDistribute32_eq hb hf, separatorOp_fits (by exact hb) (by rw [separatorDistribute_op] at hf; exact hf)⟩) hst h).1
  rw [e1, ok_bind, e2, ok_bind, h32, ok_bind, e3, ok_bind, e4, ok_bind]
  rfl

end sep

section clq

variable [Mul K] {sel : JNode → Except Fault JNode} {row : Table K → Table K → Except Fault (List Nat)}

theorem clqLevel_sums (hM : m * M ≤ intMax) (hnd : level.Nodup) (hst : JFits card M m st)
    (h : level.foldlM (cliqueOp sel row) st = .ok st') :
    JFits card M m st' ∧ (∃ sizes r, level.mapM (clqSize st) = .ok sizes ∧ levelSums32 sizes = .ok r) ∧
      ∃ sizes r, level.mapM (clqSize st') = .ok sizes ∧ levelSums32 sizes = .ok r := by
  have hst' : JFits card M m st' := foldlM_inv (JFits card M m) h hst (fun _ _ _ hb hf => cliqueOp_fits hb hf)
  have hlen : st'.clq.length = st.clq.length := foldlM_inv (fun s => s.clq.length = st.clq.length) h rfl (fun b x b' hb hf => by
    obtain ⟨q, -, rfl⟩ := cliqueOp_inv hf
    simpa using hb)
  obtain ⟨qs, hqs, -⟩ := cliqueLevel_inv hnd h
  have hx : ∀ x ∈ level, ∃ k, x = .clq k ∧ k < st.clq.length := by
    intro x hm
    obtain ⟨q, hq⟩ := forall₂_left hqs x hm
    exact ⟨q.1, hq.node, (List.getElem?_eq_some_iff.1 hq.clq).1⟩
  have hl : level.length * M ≤ intMax :=
    Nat.le_trans (Nat.mul_le_mul_right _ (Nat.le_trans (length_le_of_nodup hnd hx) hst.nclq)) hM
  refine ⟨hst', sums_ok ?_ hl, sums_ok ?_ hl⟩
  · intro x hm
    obtain ⟨k, rfl, hk⟩ := hx x hm
    exact clqSize_ok hst hk
  · intro x hm
    obtain ⟨k, rfl, hk⟩ := hx x hm
    exact clqSize_ok hst' (by rw [hlen]; exact hk)

end clq

variable [Zero K] [Add K] [Mul K] [Div K] [DecidableEq K]

theorem cliqueLevelDistribute32_eq (hM : m * M ≤ intMax) (hnd : level.Nodup) (hst : JFits card M m st) {st1 : JState K}
    (h : level.foldlM (cliqueDistribute mk) st = .ok st1) (hn : level.foldlM normalizeClique st1 = .ok st') :
    cliqueLevelDistribute32 mk level st = .ok st' ∧ JFits card M m st' := by
  have h' := h
  rw [cliqueDistribute_op] at h'
  obtain ⟨h1, ⟨s1, r1, e1, e2⟩, s2, r2, e3, e4⟩ := clqLevel_sums hM hnd hst h'
  refine ⟨?_, foldlM_inv (JFits card M m) hn h1 (fun _ _ _ hb hf => normalizeClique_fits hb hf)⟩
  unfold cliqueLevelDistribute32
  rw [e1, ok_bind, e2, ok_bind, h, ok_bind, e3, ok_bind, e4, ok_bind]
  exact hn

theorem cliqueLevelCollect32_eq (hM : m * M ≤ intMax) (hnd : level.Nodup) (hst : JFits card M m st)
    (h : cliqueLevelCollect mk level st = .ok st') :
    cliqueLevelCollect32 mk level st = .ok st' ∧ JFits card M m st' := by
  refine foldlM_agree (JFits card M m) ?_ hst h
  intro b hb k _ b' hf
  obtain ⟨b1, h1, hf⟩ := bind_eq_ok hf
  have h' := h1
  rw [cliqueCollect_op] at h'
  obtain ⟨g1, ⟨s1, r1, e1, e2⟩, s2, r2, e3, e4⟩ := clqLevel_sums hM (hnd.filter _) hb h'
  refine ⟨?_, foldlM_inv (JFits card M m) hf g1 (fun _ _ _ hb hf => normalizeClique_fits hb hf)⟩
  have h32 := (foldlM_agree (g := cliqueCollect32 mk k) (JFits card M m) (fun b hb x _ b' hf =>
    ⟨cliqueCollect32_eq hb hf, cliqueOp_fits (by exact hb) (by rw [cliqueCollect_op] at hf; exact hf)⟩) hb h1).1
  simp only
  rw [e1, ok_bind, e2, ok_bind, h32, ok_bind, e3, ok_bind, e4, ok_bind]
  exact hf

end levels

section run

variable {T : JTShape} {L : Levels} {r : Nat} {lev : JNode → Nat} {par ch : Nat → Nat}

section

variable [Zero K] [Add K] [Mul K] [Div K] [DecidableEq K]

theorem collect32_eq (hL : Plan T L r lev par ch) (hM : m * M ≤ intMax) (hst : JFits card M m st) (h : collect L st = .ok st') :
    collect32 L st = .ok st' ∧ JFits card M m st' := by
  refine foldlM_agree (JFits card M m) ?_ hst h
  intro b hb i hi b' hf
  have hi : i < L.nodes.length - 1 := by simpa using hi
  by_cases ho : i % 2 = 1
  · simp only [if_pos ho] at hf ⊢
    obtain ⟨level, hl, hf⟩ := bind_eq_ok hf
    rw [hl, ok_bind]
    exact separatorLevelCollect32_eq hM (hL.seps_nodup ho (by omega) hl) hb hf
  · simp only [if_neg ho] at hf ⊢
    obtain ⟨level, hl, hf⟩ := bind_eq_ok hf
    rw [hl, ok_bind]
    exact cliqueLevelCollect32_eq hM (hL.nodes_nodup hl) hb hf

theorem distribute32_eq (hL : Plan T L r lev par ch) (hM : m * M ≤ intMax) (hst : JFits card M m st) (h : distribute L st = .ok st') :
    distribute32 L st = .ok st' ∧ JFits card M m st' := by
  refine foldlM_agree (JFits card M m) ?_ hst h
  intro b hb i hi b' hf
  have hi : i < L.nodes.length - 1 := by simpa using hi
  by_cases ho : (i + 1) % 2 = 1
  · simp only [if_pos ho] at hf ⊢
    obtain ⟨level, hl, hf⟩ := bind_eq_ok hf
    rw [hl, ok_bind]
    exact separatorLevelDistribute32_eq hM (hL.seps_nodup ho (by omega) hl) hb hf
  · simp only [if_neg ho] at hf ⊢
    obtain ⟨level, hl, hf⟩ := bind_eq_ok hf
    rw [hl, ok_bind]
    obtain ⟨b1, h1, hf⟩ := bind_eq_ok hf
    exact cliqueLevelDistribute32_eq hM (hL.nodes_nodup hl) hb h1 hf

omit [Mul K] in
theorem mapM_normalize_fits {l l' : List (Table K)} (hl : ∀ T ∈ l, TFits card M T) (h : l.mapM normalize = .ok l') :
    (∀ T ∈ l', TFits card M T) ∧ l'.length = l.length := by
  induction l generalizing l' with
  | nil => cases h; simp
  | cons T l ih =>
    rw [List.mapM_cons] at h
    obtain ⟨T', h1, h⟩ := bind_eq_ok h
    obtain ⟨l1, h2, h⟩ := bind_eq_ok h
    cases h
    obtain ⟨g1, g2⟩ := ih (fun X hX => hl X (by simp [hX])) h2
    refine ⟨?_, by simp [g2]⟩
    intro X hX
    rcases List.mem_cons.1 hX with rfl | hX
    · exact normalize_fits (hl T (by simp)) h1
    · exact g1 X hX

end

/-! Evidence. -/

theorem redT_fits [Zero K] {e : Nat × Nat} {X : Table K} (h : TFits card M X) : TFits card M (redT card e X) := by
  have hw := redT_wf (e := e) h.wf
  have hsub : (redT card e X).vars.Sublist X.vars := by
    unfold redT
    split
    · exact List.erase_sublist
    · exact List.Sublist.refl _
  have hs : (redT card e X).size ≤ X.size := by
    rw [hw.size, hw.dims, h.wf.size, h.wf.dims]
    exact prod_sublist hsub h.wf.pos
  exact ⟨hw, Nat.le_trans hs h.size, Nat.le_trans (Nat.mul_le_mul hs hsub.length_le) h.space⟩

theorem reduceTables32_eq [Zero K] {l : List (Table K)} {v x : Nat} (h : ∀ T ∈ l, TFits card M T) :
    reduceTables32 v x l = reduceTables v x l := by
  refine mapM_congr ?_
  intro T hT
  by_cases hv : v ∈ T.vars
  · rw [if_pos hv, if_pos hv, tableReduction32_eq (h T hT).wf hv, if_pos (h T hT).space]
  · rw [if_neg hv, if_neg hv]

theorem sum_filter_le {l : List (Table K)} {p : Table K → Bool} (h : ∀ T ∈ l, T.size ≤ M) : ((l.filter p).map (·.size)).sum ≤ l.length * M := by
  induction l with
  | nil => simp
  | cons T l ih =>
    have h1 := ih (fun X hX => h X (by simp [hX]))
    have h2 := h T (by simp)
    rw [List.length_cons, Nat.succ_mul, List.filter_cons]
    split
    · rw [List.map_cons, List.sum_cons]; omega
    · omega

theorem loadEvidence32_eq [Zero K] {n : Nat} {E : List (Nat × Nat)} (hM : 2 * m * M ≤ intMax) (hst : JFits card M m st)
    (h : loadEvidence n E st = .ok st') : loadEvidence32 n E st = .ok st' ∧ JFits card M m st' := by
  refine foldlM_agree (JFits card M m) ?_ hst h
  intro b hb e _ b' hf
  have hf1 : loadEvidence n [e] b = .ok b' := by
    unfold loadEvidence
    rw [List.foldlM_cons, hf]
    rfl
  rw [loadEvidence_redS [e] hb.wf] at hf1
  have hb' : redS card n e b = b' := Except.ok.inj hf1
  have hfit : JFits card M m b' := by
    rw [← hb']
    unfold redS
    split
    · exact hb
    · refine ⟨?_, ?_, by simpa using hb.nclq, by simpa using hb.nsep⟩
      · intro T hT
        obtain ⟨X, hX, rfl⟩ := List.mem_map.1 hT
        exact redT_fits (hb.clq X hX)
      · intro T hT
        obtain ⟨X, hX, rfl⟩ := List.mem_map.1 hT
        exact redT_fits (hb.sep X hX)
  refine ⟨?_, hfit⟩
  by_cases hn : n ≤ e.1
  · simp only [if_pos hn] at hf ⊢
    exact hf
  · simp only [if_neg hn] at hf ⊢
    rw [levelSums32_eq, if_pos, ok_bind, reduceTables32_eq hb.clq, reduceTables32_eq hb.sep]
    · exact hf
    · refine Nat.le_trans (sum_filter_le (M := M) ?_) (Nat.le_trans (Nat.mul_le_mul_right _ ?_) hM)
      · intro T hT
        rcases List.mem_append.1 hT with hT | hT
        · exact (hb.clq T hT).size
        · exact (hb.sep T hT).size
      · have := hb.nclq
        have := hb.nsep
        rw [List.length_append]
        omega

variable [Zero K] [Add K] [Mul K] [Div K] [DecidableEq K]

theorem propagate32_eq (hL : Plan T L r lev par ch) {n : Nat} {E : List (Nat × Nat)} (hM : 2 * m * M ≤ intMax) (hst : JFits card M m st)
    (h : propagate L n E st = .ok st') : propagate32 L n E st = .ok st' ∧ JFits card M m st' := by
  have hM' : m * M ≤ intMax := Nat.le_trans (Nat.mul_le_mul_right _ (by omega)) hM
  unfold propagate at h
  obtain ⟨s1, h1, h⟩ := bind_eq_ok h
  obtain ⟨clq, h2, h⟩ := bind_eq_ok h
  obtain ⟨s3, h3, h⟩ := bind_eq_ok h
  obtain ⟨e1, f1⟩ := loadEvidence32_eq hM hst h1
  obtain ⟨g1, g2⟩ := mapM_normalize_fits f1.clq h2
  obtain ⟨e2, f2⟩ := collect32_eq (card := card) (M := M) (m := m) (st := ⟨clq, s1.sep⟩) hL hM' ⟨g1, f1.sep, by rw [g2]; exact f1.nclq, f1.nsep⟩ h3
  obtain ⟨e3, f3⟩ := distribute32_eq hL hM' f2 h
  refine ⟨?_, f3⟩
  unfold propagate32
  rw [e1, ok_bind, h2, ok_bind, e2, ok_bind]
  exact e3

end run

theorem marginalProbability32_eq [Field K] [LinearOrder K] [IsStrictOrderedRing K] (hst : JFits card M m st) (q : Nat) : marginalProbability32 card st q = marginalProbability card st q := by
  unfold marginalProbability32 marginalProbability
  cases hs : selectClique st.clq q with
  | none => rfl
  | some X =>
    obtain ⟨h1, h2⟩ := selectClique_some hs
    have hX := hst.clq X h1
    have e := tableMarginalization32_eq hX.wf (vs := [q]) (by simp) (by simpa using h2)
    rw [if_pos hX.space] at e
    simp only [List.map_cons, List.map_nil] at e
    simp only [e]

end FastPGM
