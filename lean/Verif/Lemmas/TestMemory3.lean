import Verif.Lemmas.TestMemory2

/-!
The single tests on the memory.
-/

namespace FastPGM

variable {K : Type}

theorem exc_pure {α β : Type} (a : α) (f : α → Except Fault β) : ((pure a : Except Fault α) >>= f) = f a := rfl

/-- No block is at `next` or above. -/
def IntMem.Fresh (M : IntMem) : Prop := ∀ a, M.next ≤ a → M.arr a = none

/-- The pointers of a new single table. -/
def ptrs3D (b : Nat) (many : Bool) : TablePtr :=
  if many then ⟨b, some (b + 1), b + 2, b + 3, b + 4, b + 5⟩ else ⟨b, none, b + 1, b + 2, b + 3, b + 4⟩

/-- The memory of a new single table without its four arrays. -/
def base3D (M : IntMem) (many : Bool) (cum : List Nat) : IntMem :=
  if many then ⟨M.next + 6, fun a => if a = M.next + 1 then some (cum.map some) else if a = M.next then some [] else M.arr a⟩
  else ⟨M.next + 5, fun a => if a = M.next then some [] else M.arr a⟩

theorem ptrs3D_apart (b : Nat) (many : Bool) : Apart (ptrs3D b many) := by
  unfold ptrs3D; cases many <;> constructor <;> simp

theorem newCounts3D_run (dimx dimy : Nat) (condDims : List Nat) (M : IntMem) :
    newCounts3D dimx dimy condDims M = (cumLevels3D condDims >>= fun r =>
      .ok ((ptrs3D M.next (decide (condDims.length > 1)), r.2),
        (base3D M (decide (condDims.length > 1)) r.1).tab (ptrs3D M.next (decide (condDims.length > 1))) (Counts.zero dimx dimy r.2))) := by
  unfold newCounts3D
  rw [memBind, newArr_run, exc_ok, memBind]
  by_cases hl : condDims.length > 1
  · rw [cumLevels3DMem_run hl, exc_assoc]
    refine exc_bind_congr (fun r _ => ?_)
    simp only [exc_ok, memBind, newCleared_run, memPure, hl, decide_true, ptrs3D, base3D, if_true]
    congr 2
  · rw [cumLevels3DMem_one hl, exc_assoc]
    refine exc_bind_congr (fun r _ => ?_)
    simp only [exc_ok, memBind, newCleared_run, memPure, hl, decide_false, ptrs3D, base3D, Bool.false_eq_true, if_false]
    congr 2

/-- What a test leaves: the old blocks are unchanged, and of the new ones those at the first `k` addresses from `M.next` on are alive. -/
structure Leaves (M M' : IntMem) (k : Nat) : Prop where
  next : M.next + k ≤ M'.next
  old : ∀ a, a < M.next → M'.arr a = M.arr a
  alive : ∀ a, M.next ≤ a → (M'.arr a ≠ none ↔ a < M.next + k)

theorem deleteCounts3D_run {M : IntMem} (hM : M.Fresh) (condDims cum : List Nat) (t : Counts) :
    ∃ M', deleteCounts3D condDims (ptrs3D M.next (decide (condDims.length > 1)))
      ((base3D M (decide (condDims.length > 1)) cum).tab (ptrs3D M.next (decide (condDims.length > 1))) t) = .ok ((), M') ∧
      Leaves M M' 0 := by
  unfold deleteCounts3D
  by_cases hl : condDims.length > 1
  · simp only [hl, decide_true, ptrs3D, if_true, IntMem.tab, base3D]
    rw [memBind, deleteArr_run (b := cum.map some) (by simp [IntMem.put]), exc_ok, memBind, deleteArr_run (b := t.n.map some) (by simp [IntMem.put]),
      exc_ok, memBind, deleteArr_run (b := t.ni.map some) (by simp [IntMem.put]), exc_ok, memBind,
      deleteArr_run (b := t.nj.map some) (by simp [IntMem.put]), exc_ok, memBind,
      deleteArr_run (b := t.nk.map some) (by simp [IntMem.put]), exc_ok, deleteArr_run (b := []) (by simp [IntMem.put])]
    refine ⟨_, rfl, ⟨by simp [IntMem.put], fun a ha => ?_, fun a ha => ?_⟩⟩
    · simp [IntMem.put, show a ≠ M.next by omega, show a ≠ M.next + 1 by omega, show a ≠ M.next + 2 by omega, show a ≠ M.next + 3 by omega,
        show a ≠ M.next + 4 by omega, show a ≠ M.next + 5 by omega]
    · have := hM a ha
      simp only [IntMem.put]
      split_ifs <;> simp_all
  · simp only [hl, decide_false, ptrs3D, if_false, IntMem.tab, base3D, Bool.false_eq_true]
    rw [memBind, deleteArr_run (b := t.n.map some) (by simp [IntMem.put]),
      exc_ok, memBind, deleteArr_run (b := t.ni.map some) (by simp [IntMem.put]), exc_ok, memBind,
      deleteArr_run (b := t.nj.map some) (by simp [IntMem.put]), exc_ok, memBind,
      deleteArr_run (b := t.nk.map some) (by simp [IntMem.put]), exc_ok, deleteArr_run (b := []) (by simp [IntMem.put])]
    refine ⟨_, rfl, ⟨by simp [IntMem.put], fun a ha => ?_, fun a ha => ?_⟩⟩
    · simp [IntMem.put, show a ≠ M.next by omega, show a ≠ M.next + 1 by omega, show a ≠ M.next + 2 by omega, show a ≠ M.next + 3 by omega,
        show a ≠ M.next + 4 by omega]
    · have := hM a ha
      simp only [IntMem.put]
      split_ifs <;> simp_all

theorem leaves_tab3D {M : IntMem} (hM : M.Fresh) (many : Bool) (cum : List Nat) (t : Counts) :
    Leaves M ((base3D M many cum).tab (ptrs3D M.next many) t) (if many then 6 else 5) := by
  cases many
  · refine ⟨by simp [base3D, IntMem.tab, IntMem.put], fun a ha => ?_, fun a ha => ?_⟩
    · simp [base3D, ptrs3D, IntMem.tab, IntMem.put, show a ≠ M.next by omega, show a ≠ M.next + 1 by omega, show a ≠ M.next + 2 by omega,
        show a ≠ M.next + 3 by omega, show a ≠ M.next + 4 by omega]
    · have := hM a ha
      simp only [base3D, ptrs3D, IntMem.tab, IntMem.put, Bool.false_eq_true, if_false]
      split_ifs <;> simp_all
      omega
  · refine ⟨by simp [base3D, IntMem.tab, IntMem.put], fun a ha => ?_, fun a ha => ?_⟩
    · simp [base3D, ptrs3D, IntMem.tab, IntMem.put, show a ≠ M.next by omega, show a ≠ M.next + 1 by omega, show a ≠ M.next + 2 by omega,
        show a ≠ M.next + 3 by omega, show a ≠ M.next + 4 by omega, show a ≠ M.next + 5 by omega]
    · have := hM a ha
      simp only [base3D, ptrs3D, IntMem.tab, IntMem.put, if_true]
      split_ifs <;> simp_all
      omega

theorem Leaves.fresh {M M' : IntMem} {k : Nat} (h : Leaves M M' k) : M'.Fresh := by
  intro a ha
  by_contra hne
  have := (h.alive a (by have := h.next; omega)).mp hne
  have := h.next
  omega

/-- The statistic and the degrees of freedom of a single test. -/
def statXYZ [Field K] (log : K → K) (dims : List Nat) (cols : List (List Nat)) (m x y : Nat) (z : List Nat) : Except Fault (K × Nat) := do
  let dimx ← rd dims x
  let dimy ← rd dims y
  let condDims ← z.mapM (rd dims)
  let (t, dimz) ← counts3D cols m dimx dimy x y condDims z
  (List.range dimz).foldlM (gSquareStratum log t dimx dimy 0) ((0 : K), 0)

theorem gSquareXYZ_stat [Field K] [LinearOrder K] (log : K → K) (pchisq : K → Nat → Option K) (alpha : K) (dims : List Nat)
    (cols : List (List Nat)) (m x y : Nat) (z : List Nat) :
    gSquareXYZ log pchisq alpha dims cols m x y z = (statXYZ log dims cols m x y z >>= fun r =>
      if r.2 = 0 then .ok ⟨some 1, true, some 0⟩ else .ok ⟨pValue pchisq r.1 r.2, exceeds (pValue pchisq r.1 r.2) alpha, some 0⟩) := by
  unfold gSquareXYZ statXYZ
  simp only [exc_assoc]
  rfl

theorem length_mapM_rd {dims z l : List Nat} (h : z.mapM (rd dims) = .ok l) : l.length = z.length := by
  induction z generalizing l with
  | nil => cases h; rfl
  | cons a z ih =>
    rw [List.mapM_cons] at h
    cases h1 : rd dims a with
    | error e => rw [h1] at h; cases h
    | ok v =>
      rw [h1] at h
      cases h2 : z.mapM (rd dims) with
      | error e => rw [h2] at h; cases h
      | ok w => rw [h2] at h; cases h; simp [ih h2]

theorem gSquareXYZMem_run [Field K] [LinearOrder K] (log : K → K) (pchisq : K → Nat → Option K) (alpha : K) (dims : List Nat)
    (cols : List (List Nat)) (m x y : Nat) (z : List Nat) {M : IntMem} (hM : M.Fresh) :
    (∃ e, statXYZ log dims cols m x y z = .error e ∧ gSquareXYZMem log pchisq alpha dims cols m x y z M = .error e) ∨
    ∃ r M', statXYZ log dims cols m x y z = .ok r ∧
      gSquareXYZMem log pchisq alpha dims cols m x y z M = .ok (if r.2 = 0 then ⟨some 1, true, some 0⟩ else
        ⟨pValue pchisq r.1 r.2, exceeds (pValue pchisq r.1 r.2) alpha, some 0⟩, M') ∧
      Leaves M M' (if r.2 = 0 then (if z.length > 1 then 6 else 5) else 0) := by
  have key : ∃ F : K × Nat → IntMem, gSquareXYZMem log pchisq alpha dims cols m x y z M = (statXYZ log dims cols m x y z >>= fun r =>
      .ok (if r.2 = 0 then ⟨some 1, true, some 0⟩ else
        ⟨pValue pchisq r.1 r.2, exceeds (pValue pchisq r.1 r.2) alpha, some 0⟩, F r)) ∧
      ∀ r, statXYZ log dims cols m x y z = .ok r → Leaves M (F r) (if r.2 = 0 then (if z.length > 1 then 6 else 5) else 0) := by
    unfold gSquareXYZMem statXYZ
    simp only [memBind, noMem_run, exc_assoc, exc_ok]
    cases hx : rd dims x with
    | error e => exact ⟨fun _ => M, rfl, fun r h => by cases h⟩
    | ok dimx =>
    cases hy : rd dims y with
    | error e => exact ⟨fun _ => M, rfl, fun r h => by cases h⟩
    | ok dimy =>
    cases hz : z.mapM (rd dims) with
    | error e => exact ⟨fun _ => M, rfl, fun r h => by cases h⟩
    | ok condDims =>
    have hlen := length_mapM_rd hz
    simp only [exc_ok, newCounts3D_run, exc_assoc, counts3D]
    cases hcum : cumLevels3D condDims with
    | error e => exact ⟨fun _ => M, rfl, fun r h => by cases h⟩
    | ok c =>
    obtain ⟨cum, dimz⟩ := c
    simp only [exc_ok]
    generalize hmany : decide (condDims.length > 1) = many
    have hap := ptrs3D_apart M.next many
    have hC : ∀ t, CumAt ((base3D M many cum).tab (ptrs3D M.next many) t) (ptrs3D M.next many).cum cum := by
      intro t j
      cases many
      · have : cum = [] := by
          unfold cumLevels3D at hcum
          rw [if_neg (by simpa using hmany)] at hcum
          cases h1 : rd condDims 0 with
          | error e => rw [h1] at hcum; cases hcum
          | ok v => rw [h1] at hcum; cases hcum; rfl
        subst this
        simp [ptrs3D, loadPtr, noMem_run, rd_def]
      · simp only [ptrs3D, loadPtr, if_true]
        refine load_all ?_
        simp [base3D, IntMem.tab, IntMem.put]
    rw [countLevelMem_run hap hC, exc_assoc]
    cases hn : countLevel cols m dimx dimy x y z cum (Counts.zero dimx dimy dimz).n with
    | error e => exact ⟨fun _ => M, rfl, fun r h => by cases h⟩
    | ok n =>
    simp only [exc_ok]
    rw [fillMarginalsMem_run hap, exc_assoc]
    cases ht : fillMarginals dimx dimy dimz { Counts.zero dimx dimy dimz with n := n } with
    | error e => exact ⟨fun _ => M, rfl, fun r h => by cases h⟩
    | ok t =>
    simp only [exc_ok, exc_pure]
    have hfold := fold_sim' (α := K × Nat) (β := K × Nat)
      (f := gSquareStratumMem log (ptrs3D M.next many) dimx dimy (pure 0) (pure 0) (pure 0) (load (ptrs3D M.next many).nk))
      (g := gSquareStratum log t dimx dimy 0) (fun _ => (base3D M many cum).tab (ptrs3D M.next many) t) id (l := List.range dimz)
      (by
        intro k _ st
        simp only [id]
        refine gSquareStratumMem_run (t := t) (o := 0) log (tab_n hap) (tab_ni hap) (tab_nj hap) (by rw [Nat.zero_mul]; rfl) (by rw [Nat.zero_mul]; rfl)
          (by rw [Nat.zero_mul, Nat.zero_mul]; rfl) k (by exact load_all tab_nk) st) ((0 : K), 0)
    simp only [id] at hfold
    rw [hfold, exc_assoc]
    cases hr : (List.range dimz).foldlM (gSquareStratum log t dimx dimy 0) ((0 : K), 0) with
    | error e => exact ⟨fun _ => M, rfl, fun r h => by cases h⟩
    | ok r =>
    simp only [exc_ok]
    by_cases hdf : r.2 = 0
    · refine ⟨fun _ => (base3D M many cum).tab (ptrs3D M.next many) t, ?_, ?_⟩
      · rw [if_pos hdf, if_pos hdf, memPure]
      · intro r' hr'
        cases hr'
        rw [if_pos hdf]
        have := leaves_tab3D hM many cum t
        rw [← hlen]
        subst hmany
        simpa using this
    · obtain ⟨M', hM', hlv⟩ := deleteCounts3D_run hM condDims cum t
      rw [hmany] at hM'
      refine ⟨fun _ => M', ?_, ?_⟩
      · rw [if_neg hdf, if_neg hdf, memBind, hM', exc_ok, memPure]
      · intro r' hr'
        cases hr'
        rw [if_neg hdf]
        exact hlv
  obtain ⟨F, h1, h2⟩ := key
  cases hs : statXYZ log dims cols m x y z with
  | error e => exact Or.inl ⟨e, rfl, by rw [h1, hs]; rfl⟩
  | ok r => exact Or.inr ⟨r, F r, rfl, by rw [h1, hs]; rfl, h2 r hs⟩

/-- The pointers of a new table of two variables; there is no `nk`, the object itself has no entries. -/
def ptrs2D (b : Nat) : TablePtr := ⟨b, none, b + 1, b + 2, b + 3, b⟩

theorem ptrs2D_apart (b : Nat) : Apart (ptrs2D b) := by
  unfold ptrs2D; constructor <;> simp

theorem newCounts2D_run (dimx dimy : Nat) (M : IntMem) :
    newCounts2D dimx dimy M = .ok (ptrs2D M.next, ({ M with next := M.next + 4 } : IntMem).tab (ptrs2D M.next)
      ⟨List.replicate (dimx * dimy) 0, List.replicate dimx 0, List.replicate dimy 0, []⟩) := by
  unfold newCounts2D
  simp only [exc_ok, memBind, newArr_run, newCleared_run, memPure, ptrs2D]
  congr 2
  simp only [IntMem.tab, IntMem.alloc, IntMem.put, IntMem.mk.injEq, List.replicate_zero, Nat.add_assoc, true_and]
  funext a
  by_cases h1 : a < M.next
  · simp [show a ≠ M.next by omega, show a ≠ M.next + 1 by omega, show a ≠ M.next + 2 by omega, show a ≠ M.next + 3 by omega]
  · obtain ⟨c, rfl⟩ : ∃ c, a = M.next + c := ⟨a - M.next, by omega⟩
    by_cases hc : c = 0
    · subst hc; simp
    · simp [hc]

theorem deleteCounts2D_run {M : IntMem} (hM : M.Fresh) (t : Counts) :
    ∃ M', deleteCounts2D (ptrs2D M.next) (({ M with next := M.next + 4 } : IntMem).tab (ptrs2D M.next) t) = .ok ((), M') ∧
      Leaves M M' 0 := by
  unfold deleteCounts2D
  simp only [ptrs2D, IntMem.tab]
  rw [memBind, deleteArr_run (b := t.n.map some) (by simp [IntMem.put]),
    exc_ok, memBind, deleteArr_run (b := t.ni.map some) (by simp [IntMem.put]), exc_ok, memBind,
    deleteArr_run (b := t.nj.map some) (by simp [IntMem.put]), exc_ok, deleteArr_run (b := t.nk.map some) (by simp [IntMem.put])]
  refine ⟨_, rfl, ⟨by simp [IntMem.put], fun a ha => ?_, fun a ha => ?_⟩⟩
  · simp [IntMem.put, show a ≠ M.next by omega, show a ≠ M.next + 1 by omega, show a ≠ M.next + 2 by omega, show a ≠ M.next + 3 by omega]
  · have := hM a ha
    simp only [IntMem.put]
    split_ifs <;> simp_all

theorem leaves_tab2D {M : IntMem} (hM : M.Fresh) (t : Counts) :
    Leaves M (({ M with next := M.next + 4 } : IntMem).tab (ptrs2D M.next) t) 4 := by
  refine ⟨by simp [IntMem.tab, IntMem.put], fun a ha => ?_, fun a ha => ?_⟩
  · simp [ptrs2D, IntMem.tab, IntMem.put, show a ≠ M.next by omega, show a ≠ M.next + 1 by omega, show a ≠ M.next + 2 by omega,
      show a ≠ M.next + 3 by omega]
  · have := hM a ha
    by_cases h : a < M.next + 4
    · rcases (show a = M.next ∨ a = M.next + 1 ∨ a = M.next + 2 ∨ a = M.next + 3 by omega) with rfl | rfl | rfl | rfl <;>
        simp [ptrs2D, IntMem.tab, IntMem.put]
    · simp [ptrs2D, IntMem.tab, IntMem.put, show a ≠ M.next by omega, show a ≠ M.next + 1 by omega, show a ≠ M.next + 2 by omega,
        show a ≠ M.next + 3 by omega, this, h]

theorem fillTable2DMem_run {cols : List (List Nat)} {m dimx dimy x y : Nat} {p : TablePtr} {M : IntMem} (hp : Apart p) :
    fillTable2DMem cols m dimx dimy x y p
      (M.tab p ⟨List.replicate (dimx * dimy) 0, List.replicate dimx 0, List.replicate dimy 0, []⟩) =
      (counts2D cols m dimx dimy x y >>= fun t => .ok ((), M.tab p t)) := by
  unfold fillTable2DMem counts2D
  rw [memBind]
  have h := fold_sim' (α := List Nat) (f := fun (_ : Unit) k => do
      let xv ← noMem (cell cols x k)
      let yv ← noMem (cell cols y k)
      incrMem p.n (xv * dimy + yv))
    (g := fun n k => do
      let xv ← cell cols x k
      let yv ← cell cols y k
      incr n (xv * dimy + yv))
    (fun n => M.tab p ⟨n, List.replicate dimx 0, List.replicate dimy 0, []⟩) (fun _ => ()) (l := List.range m) (by
      intro k _ n
      rw [memBind, noMem_run, exc_assoc, exc_assoc]
      refine exc_bind_congr (fun xv _ => ?_)
      rw [exc_ok, memBind, noMem_run, exc_assoc, exc_assoc]
      refine exc_bind_congr (fun yv _ => ?_)
      rw [exc_ok, incrMem_all (tab_n hp)]
      simp only [tab_put_n hp]) (List.replicate (dimx * dimy) 0)
  rw [h, exc_assoc, exc_assoc]
  refine exc_bind_congr (fun n _ => ?_)
  rw [exc_ok]
  refine fold_sim' (fun t => M.tab p t) (fun _ => ()) (fun i _ t => ?_) _
  refine fold_sim' (fun t => M.tab p t) (fun _ => ()) (fun j _ t => ?_) t
  rw [memBind, load_all (tab_n hp), exc_assoc, exc_assoc]
  refine exc_bind_congr (fun o ho => ?_)
  rw [exc_ok, memBind, addMem_all (tab_ni hp), exc_assoc, exc_assoc]
  refine exc_bind_congr (fun ni _ => ?_)
  rw [exc_ok, tab_put_ni hp, memBind, load_all (tab_n hp), ho, exc_ok, exc_ok, addMem_all (tab_nj hp), exc_assoc]
  refine exc_bind_congr (fun nj _ => ?_)
  rw [tab_put_nj hp]
  rfl

/-- The statistic and the degrees of freedom of a test without conditioning variables. -/
def statXY [Field K] (log : K → K) (dims : List Nat) (cols : List (List Nat)) (m x y : Nat) : Except Fault (K × Nat) := do
  let dimx ← rd dims x
  let dimy ← rd dims y
  let t ← counts2D cols m dimx dimy x y
  gSquareStratum log { t with nk := [m] } dimx dimy 0 ((0 : K), 0) 0

theorem gSquareXY_stat [Field K] [LinearOrder K] (log : K → K) (pchisq : K → Nat → Option K) (alpha : K) (dims : List Nat)
    (cols : List (List Nat)) (m x y : Nat) :
    gSquareXY log pchisq alpha dims cols m x y = (statXY log dims cols m x y >>= fun r =>
      if r.2 = 0 then .ok ⟨some 1, true, none⟩ else .ok ⟨pValue pchisq r.1 r.2, exceeds (pValue pchisq r.1 r.2) alpha, none⟩) := by
  unfold gSquareXY statXY
  simp only [exc_assoc]
  rfl

theorem gSquareXYMem_run [Field K] [LinearOrder K] (log : K → K) (pchisq : K → Nat → Option K) (alpha : K) (dims : List Nat)
    (cols : List (List Nat)) (m x y : Nat) {M : IntMem} (hM : M.Fresh) :
    (∃ e, statXY log dims cols m x y = .error e ∧ gSquareXYMem log pchisq alpha dims cols m x y M = .error e) ∨
    ∃ r M', statXY log dims cols m x y = .ok r ∧
      gSquareXYMem log pchisq alpha dims cols m x y M = .ok (if r.2 = 0 then ⟨some 1, true, none⟩ else
        ⟨pValue pchisq r.1 r.2, exceeds (pValue pchisq r.1 r.2) alpha, none⟩, M') ∧
      Leaves M M' (if r.2 = 0 then 4 else 0) := by
  unfold gSquareXYMem statXY
  simp only [memBind, noMem_run, exc_assoc, exc_ok]
  cases hx : rd dims x with
  | error e => exact Or.inl ⟨e, rfl, rfl⟩
  | ok dimx =>
  cases hy : rd dims y with
  | error e => exact Or.inl ⟨e, rfl, rfl⟩
  | ok dimy =>
  have hap := ptrs2D_apart M.next
  simp only [exc_ok, newCounts2D_run, fillTable2DMem_run hap, exc_assoc]
  cases ht : counts2D cols m dimx dimy x y with
  | error e => exact Or.inl ⟨e, rfl, rfl⟩
  | ok t =>
  simp only [exc_ok]
  rw [gSquareStratumMem_run (M := ({ M with next := M.next + 4 } : IntMem).tab (ptrs2D M.next) t) (p := ptrs2D M.next) (t := { t with nk := [m] })
    (o := 0) (ox := pure 0) (oy := pure 0) (oxy := pure 0) (total := fun _ => pure m) log (tab_n hap) (tab_ni hap) (tab_nj hap)
    (by rw [Nat.zero_mul]; rfl) (by rw [Nat.zero_mul]; rfl) (by rw [Nat.zero_mul, Nat.zero_mul]; rfl) 0 (by exact rfl)]
  cases hr : gSquareStratum log { t with nk := [m] } dimx dimy 0 ((0 : K), 0) 0 with
  | error e => exact Or.inl ⟨e, rfl, rfl⟩
  | ok r =>
  simp only [exc_ok]
  by_cases hdf : r.2 = 0
  · refine Or.inr ⟨r, ({ M with next := M.next + 4 } : IntMem).tab (ptrs2D M.next) t, rfl, ?_, ?_⟩
    · rw [if_pos hdf, if_pos hdf, memPure]
    · rw [if_pos hdf]; exact leaves_tab2D hM t
  · obtain ⟨M', hM', hlv⟩ := deleteCounts2D_run hM t
    refine Or.inr ⟨r, M', rfl, ?_, ?_⟩
    · rw [if_neg hdf, if_neg hdf, memBind, hM', exc_ok, memPure]
    · rw [if_neg hdf]; exact hlv

end FastPGM
