import Verif.Lemmas.TestMemory5

/-!
The test of a group on the memory: nothing is left.
-/

namespace FastPGM

variable {K : Type}

/-- The pointers of the tables of a new group, and the address of `cum_dims`. -/
def ptrsGroup (b : Nat) (many : Bool) : TablePtr × Nat :=
  if many then (⟨b, some (b + 1), b + 3, b + 4, b + 5, b + 6⟩, b + 2) else (⟨b, none, b + 2, b + 3, b + 4, b + 5⟩, b + 1)

/-- The memory of the tables of a new group without the four arrays. -/
def baseGroup (M : IntMem) (many : Bool) (cum : List (Option Nat)) (ofs : List Nat) : IntMem :=
  if many then ⟨M.next + 7, fun a => if a = M.next + 2 then some (ofs.map some) else if a = M.next + 1 then some cum else
    if a = M.next then some [] else M.arr a⟩
  else ⟨M.next + 6, fun a => if a = M.next + 1 then some (ofs.map some) else if a = M.next then some [] else M.arr a⟩

theorem newCounts3DGroup_run (dimx dimy : Nat) (condDims : List Nat) {size : Nat} (hs : 0 < size) (M : IntMem) :
    newCounts3DGroup dimx dimy condDims size M = (cumLevelsGroup condDims (condDims.length / size) size >>= fun r =>
      cumDims r.2 size >>= fun s =>
      .ok (((ptrsGroup M.next (decide (condDims.length / size ≠ 1))).1, (ptrsGroup M.next (decide (condDims.length / size ≠ 1))).2, r.2),
        (baseGroup M (decide (condDims.length / size ≠ 1)) (maskArr (fun i => decide (i < size * (condDims.length / size))) r.1) s.1).tab
          (ptrsGroup M.next (decide (condDims.length / size ≠ 1))).1 (Counts.zero dimx dimy s.2))) := by
  unfold newCounts3DGroup
  rw [if_neg (by omega), memBind, newArr_run, exc_ok, memBind]
  by_cases hd : condDims.length / size = 1
  · have h1 : cumLevelsGroupMem condDims (condDims.length / size) size (M.alloc (List.replicate 0 none)) =
        .ok ((none, condDims), M.alloc (List.replicate 0 none)) := by
      unfold cumLevelsGroupMem; rw [if_pos hd, memPure]
    have h2 : cumLevelsGroup condDims (condDims.length / size) size = .ok ([], condDims) := by
      unfold cumLevelsGroup; rw [if_pos hd]
    rw [h1, h2, exc_ok, exc_ok]
    dsimp only
    rw [memBind, cumDimsMem_run hs, exc_assoc]
    refine exc_bind_congr (fun s _ => ?_)
    simp only [exc_ok, memBind, newCleared_run, memPure, hd, ne_eq, not_true, decide_false, ptrsGroup, baseGroup, Bool.false_eq_true, if_false]
    congr 2
  · rw [cumLevelsGroupMem_run hd, exc_assoc]
    refine exc_bind_congr (fun r _ => ?_)
    rw [exc_ok]
    dsimp only
    rw [memBind, cumDimsMem_run hs, exc_assoc]
    refine exc_bind_congr (fun s _ => ?_)
    simp only [exc_ok, memBind, newCleared_run, memPure, hd, ne_eq, not_false_eq_true, decide_true, ptrsGroup, baseGroup, if_true]
    congr 2

theorem ptrsGroup_apart (b : Nat) (many : Bool) : Apart (ptrsGroup b many).1 := by
  unfold ptrsGroup; cases many <;> constructor <;> simp

theorem baseGroup_mem {M : IntMem} (hM : M.Fresh) {depth size : Nat} (cum ofs : List Nat) (hl : ofs.length = size) :
    GroupMem (baseGroup M (decide (depth ≠ 1)) (maskArr (fun i => decide (i < size * depth)) cum) ofs) (ptrsGroup M.next (decide (depth ≠ 1))).1
      (ptrsGroup M.next (decide (depth ≠ 1))).2 cum ofs depth size := by
  by_cases hd : depth = 1
  · simp only [hd, ne_eq, not_true, decide_false, ptrsGroup, baseGroup, Bool.false_eq_true, if_false]
    refine ⟨by constructor <;> simp, fun a ha => ?_, fun a ha => ?_, ?_, ?_, hl, fun h => absurd rfl h⟩
    · simp only at ha
      refine ⟨⟨?_, ?_, ?_, ?_⟩, ?_, ?_⟩ <;> simp <;> omega
    · simp only at ha ⊢
      rw [if_neg (by omega), if_neg (by omega)]; exact hM a (by omega)
    · constructor <;> simp
    · simp
  · simp only [hd, ne_eq, not_false_eq_true, decide_true, ptrsGroup, baseGroup, if_true]
    refine ⟨by constructor <;> simp, fun a ha => ?_, fun a ha => ?_, ?_, ?_, hl, fun h => ⟨M.next + 1, rfl, ?_, ?_⟩⟩
    · simp only at ha
      refine ⟨⟨?_, ?_, ?_, ?_⟩, ?_, ?_⟩ <;> simp <;> omega
    · simp only at ha ⊢
      rw [if_neg (by omega), if_neg (by omega), if_neg (by omega)]; exact hM a (by omega)
    · constructor <;> simp
    · simp
    · constructor <;> simp
    · simp

theorem deleteCounts3DGroup_run {M : IntMem} (hM : M.Fresh) {depth : Nat} (hd : depth ≠ 0) (cum : List (Option Nat)) (ofs : List Nat) (t : Counts)
    (k : Nat) :
    ∃ M', deleteCounts3DGroup depth (ptrsGroup M.next (decide (depth ≠ 1))).1 (ptrsGroup M.next (decide (depth ≠ 1))).2
      (((baseGroup M (decide (depth ≠ 1)) cum ofs).bump k).tab (ptrsGroup M.next (decide (depth ≠ 1))).1 t) = .ok ((), M') ∧
      Leaves M M' 0 := by
  unfold deleteCounts3DGroup
  by_cases h1 : depth = 1
  · simp only [h1, ne_eq, not_true, decide_false, ptrsGroup, baseGroup, Bool.false_eq_true, if_false, gt_iff_lt, Nat.lt_irrefl, IntMem.tab, IntMem.bump]
    rw [memBind, deleteArr_run (b := ofs.map some) (by simp [IntMem.put]), exc_ok, memBind, deleteArr_run (b := t.n.map some) (by simp [IntMem.put]),
      exc_ok, memBind, deleteArr_run (b := t.ni.map some) (by simp [IntMem.put]), exc_ok, memBind,
      deleteArr_run (b := t.nj.map some) (by simp [IntMem.put]), exc_ok, memBind,
      deleteArr_run (b := t.nk.map some) (by simp [IntMem.put]), exc_ok, deleteArr_run (b := []) (by simp [IntMem.put])]
    refine ⟨_, rfl, ⟨by simp [IntMem.put]; omega, fun a ha => ?_, fun a ha => ?_⟩⟩
    · simp [IntMem.put, show a ≠ M.next by omega, show a ≠ M.next + 1 by omega, show a ≠ M.next + 2 by omega, show a ≠ M.next + 3 by omega,
        show a ≠ M.next + 4 by omega, show a ≠ M.next + 5 by omega]
    · have := hM a ha
      simp only [IntMem.put]
      split_ifs <;> simp_all
  · have h2 : 1 < depth := by omega
    simp only [h1, h2, ne_eq, not_false_eq_true, decide_true, ptrsGroup, baseGroup, if_true, IntMem.tab, IntMem.bump]
    rw [memBind, deleteArr_run (b := cum) (by simp [IntMem.put]), exc_ok, memBind, deleteArr_run (b := ofs.map some) (by simp [IntMem.put]),
      exc_ok, memBind, deleteArr_run (b := t.n.map some) (by simp [IntMem.put]),
      exc_ok, memBind, deleteArr_run (b := t.ni.map some) (by simp [IntMem.put]), exc_ok, memBind,
      deleteArr_run (b := t.nj.map some) (by simp [IntMem.put]), exc_ok, memBind,
      deleteArr_run (b := t.nk.map some) (by simp [IntMem.put]), exc_ok, deleteArr_run (b := []) (by simp [IntMem.put])]
    refine ⟨_, rfl, ⟨by simp [IntMem.put]; omega, fun a ha => ?_, fun a ha => ?_⟩⟩
    · simp [IntMem.put, show a ≠ M.next by omega, show a ≠ M.next + 1 by omega, show a ≠ M.next + 2 by omega, show a ≠ M.next + 3 by omega,
        show a ≠ M.next + 4 by omega, show a ≠ M.next + 5 by omega, show a ≠ M.next + 6 by omega]
    · have := hM a ha
      simp only [IntMem.put]
      split_ifs <;> simp_all

theorem cumLevelsGroup_depth {condDims : List Nat} {depth size : Nat} (hs : 0 < size) {r : List Nat × List Nat}
    (h : cumLevelsGroup condDims depth size = .ok r) : depth ≠ 0 := by
  rintro rfl
  unfold cumLevelsGroup at h
  rw [if_neg (by omega)] at h
  obtain ⟨n, rfl⟩ : ∃ n, size = n + 1 := ⟨size - 1, by omega⟩
  rw [List.range_succ_eq_map, List.foldlM_cons] at h
  simp only [Nat.mul_zero, if_true] at h
  cases h

theorem gSquareXYZGroupMem_run [Field K] [LinearOrder K] (log : K → K) (pchisq : K → Nat → Option K) (alpha : K) (dims : List Nat)
    (cols : List (List Nat)) (m x y : Nat) (z : List Nat) {size : Nat} (hs : 0 < size) {M : IntMem} (hM : M.Fresh) :
    (∃ e, gSquareXYZGroup log pchisq alpha dims cols m x y z size = .error e ∧
      gSquareXYZGroupMem log pchisq alpha dims cols m x y z size M = .error e) ∨
    ∃ r M', gSquareXYZGroup log pchisq alpha dims cols m x y z size = .ok r ∧
      gSquareXYZGroupMem log pchisq alpha dims cols m x y z size M = .ok (r, M') ∧ Leaves M M' 0 := by
  unfold gSquareXYZGroupMem gSquareXYZGroup
  simp only [memBind, noMem_run, exc_assoc, exc_ok, counts3DGroup, if_neg (show ¬ size = 0 by omega)]
  cases hx : rd dims x with
  | error e => exact Or.inl ⟨e, rfl, rfl⟩
  | ok dimx =>
  cases hy : rd dims y with
  | error e => exact Or.inl ⟨e, rfl, rfl⟩
  | ok dimy =>
  cases hz : z.mapM (rd dims) with
  | error e => exact Or.inl ⟨e, rfl, rfl⟩
  | ok condDims =>
  simp only [exc_ok, newCounts3DGroup_run dimx dimy condDims hs, exc_assoc]
  cases hc : cumLevelsGroup condDims (condDims.length / size) size with
  | error e => exact Or.inl ⟨e, rfl, rfl⟩
  | ok c =>
  simp only [exc_ok]
  cases hcd : cumDims c.2 size with
  | error e => exact Or.inl ⟨e, rfl, rfl⟩
  | ok s =>
  simp only [exc_ok]
  have hdep := cumLevelsGroup_depth hs hc
  have hG := baseGroup_mem hM (depth := condDims.length / size) c.1 s.1 (cumDims_length hcd)
  have hdel := deleteCounts3DGroup_run hM hdep (maskArr (fun i => decide (i < size * (condDims.length / size))) c.1) s.1
  generalize hp : ptrsGroup M.next (decide (condDims.length / size ≠ 1)) = pp at hG hdel ⊢
  generalize hB : baseGroup M (decide (condDims.length / size ≠ 1)) (maskArr (fun i => decide (i < size * (condDims.length / size))) c.1) s.1 = B
    at hG hdel ⊢
  rw [countLevelGroupMem_run hG, exc_assoc]
  cases hn : countLevelGroup cols m dimx dimy x y z c.1 (condDims.length / size) size s.1 (Counts.zero dimx dimy s.2).n with
  | error e => exact Or.inl ⟨e, rfl, rfl⟩
  | ok n =>
  simp only [exc_ok]
  rw [fillMarginalsGroupMem_run (hG.bump 1), exc_assoc]
  cases ht : fillMarginalsGroup dimx dimy size c.2 s.1 { Counts.zero dimx dimy s.2 with n := n } with
  | error e => exact Or.inl ⟨e, rfl, rfl⟩
  | ok t =>
  simp only [exc_ok, exc_pure, bump_bump]
  have hf := fold_sim (α := List Bool) (β := List Bool) (f := groupTestMem log pchisq alpha pp.1 pp.2 dimx dimy size c.2)
    (g := fun (results : List Bool) e => do
      let d ← rd c.2 e
      let o ← rd s.1 e
      let (g2, df) ← (List.range d).foldlM (gSquareStratum log t dimx dimy o) ((0 : K), 0)
      let results ← (if df = 0 then wr results e true else .ok results)
      wr results e (exceeds (pValue pchisq g2 df) alpha))
    (S := fun r _ => (B.bump (1 + 3 + 3 * (size - r.length))).tab pp.1 t) (v := id) (l := List.range size)
    (by
      intro e l' res hsuf
      obtain ⟨h1, h2⟩ := suffix_range hsuf
      simp only [id]
      rw [groupTestMem_run log pchisq alpha (hG.bump _) t res (by omega), bump_bump]
      refine exc_bind_congr (fun r _ => ?_)
      have : 1 + 3 + 3 * (size - (e :: l').length) + 3 = 1 + 3 + 3 * (size - l'.length) := by simp only [List.length_cons]; omega
      rw [this]) (List.replicate 8 false)
  simp only [id, List.length_range, Nat.sub_self, Nat.mul_zero, Nat.add_zero, List.length_nil, Nat.sub_zero] at hf
  rw [hf, exc_assoc]
  cases hr : (List.range size).foldlM (fun (results : List Bool) e => do
      let d ← rd c.2 e
      let o ← rd s.1 e
      let (g2, df) ← (List.range d).foldlM (gSquareStratum log t dimx dimy o) ((0 : K), 0)
      let results ← (if df = 0 then wr results e true else .ok results)
      wr results e (exceeds (pValue pchisq g2 df) alpha)) (List.replicate 8 false) with
  | error e => exact Or.inl ⟨e, rfl, rfl⟩
  | ok res =>
  obtain ⟨M', hM', hlv⟩ := hdel t (1 + 3 + 3 * size)
  simp only [exc_ok]
  rw [hM', exc_ok]
  cases hfd : (List.range size).find? (fun e => res.getD e false) with
  | some e => exact Or.inr ⟨_, M', rfl, rfl, hlv⟩
  | none => exact Or.inr ⟨_, M', rfl, rfl, hlv⟩

end FastPGM
