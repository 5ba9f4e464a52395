import Verif.Lemmas.TestMemory4

/-!
The test of a group on the memory: filling the tables and testing.
-/

namespace FastPGM

variable {K : Type}

/-- `a` is not one of the four arrays of the table. -/
structure Off (p : TablePtr) (a : Nat) : Prop where
  n : a ≠ p.n
  ni : a ≠ p.ni
  nj : a ≠ p.nj
  nk : a ≠ p.nk

theorem Off.tab {p : TablePtr} {a : Nat} (h : Off p a) {M : IntMem} {t : Counts} : (M.tab p t).arr a = M.arr a :=
  tab_other h.n h.ni h.nj h.nk

/-- The memory (apart from the four arrays) while the tables of a group are in use: `cum_levels` and `cum_dims` are alive and hold `cum`
and `ofs`. -/
structure GroupMem (M : IntMem) (p : TablePtr) (off : Nat) (cum ofs : List Nat) (depth size : Nat) : Prop where
  apart : Apart p
  below : ∀ a, M.next ≤ a → Off p a ∧ a ≠ off ∧ p.cum ≠ some a
  fresh : M.Fresh
  offp : Off p off
  hofs : M.arr off = some (ofs.map some)
  len : ofs.length = size
  hcum : depth ≠ 1 → ∃ c, p.cum = some c ∧ Off p c ∧ M.arr c = some (maskArr (fun i => decide (i < size * depth)) cum)

/-- The memory with `k` more addresses used up. -/
def IntMem.bump (M : IntMem) (k : Nat) : IntMem := { M with next := M.next + k }

theorem bump_bump (M : IntMem) (k l : Nat) : (M.bump k).bump l = M.bump (k + l) := by
  simp [IntMem.bump, Nat.add_assoc]

variable {M : IntMem} {p : TablePtr} {off depth size : Nat} {cum ofs : List Nat}

theorem GroupMem.bump (h : GroupMem M p off cum ofs depth size) (k : Nat) : GroupMem (M.bump k) p off cum ofs depth size :=
  ⟨h.apart, fun a ha => h.below a (by simp only [IntMem.bump] at ha; omega),
    fun a ha => h.fresh a (by simp only [IntMem.bump] at ha; omega), h.offp, h.hofs, h.len, h.hcum⟩

theorem GroupMem.alloc (h : GroupMem M p off cum ofs depth size) (b : List (Option Nat)) : GroupMem (M.alloc b) p off cum ofs depth size := by
  have hb := h.below M.next (Nat.le_refl _)
  refine ⟨h.apart, fun a ha => h.below a (by rw [alloc_next] at ha; omega), fun a ha => ?_, h.offp, ?_, h.len, fun hd => ?_⟩
  · rw [alloc_next] at ha
    rw [alloc_get_ne _ _ (by omega)]; exact h.fresh a (by omega)
  · rw [alloc_get_ne _ _ hb.2.1.symm]; exact h.hofs
  · obtain ⟨c, hc, h1, h2⟩ := h.hcum hd
    refine ⟨c, hc, h1, ?_⟩
    rw [alloc_get_ne _ _ (by intro e; apply hb.2.2; rw [hc, e])]; exact h2

theorem alloc_tab (h : Off p M.next) (t : Counts) (b : List (Option Nat)) : (M.tab p t).alloc b = (M.alloc b).tab p t := by
  simp only [IntMem.tab, IntMem.alloc, put_next]
  rw [put_comm _ h.n, put_comm _ h.ni, put_comm _ h.nj, put_comm _ h.nk]
  rfl

theorem tab_put_other {a : Nat} (h : Off p a) (t : Counts) (b : Option (List (Option Nat))) : (M.tab p t).put a b = (M.put a b).tab p t := by
  simp only [IntMem.tab]
  rw [put_comm _ h.nk.symm, put_comm _ h.nj.symm, put_comm _ h.ni.symm, put_comm _ h.n.symm]

theorem alloc_delete (h : M.arr M.next = none) (b : List (Option Nat)) : (M.alloc b).put M.next none = M.bump 1 := by
  simp only [IntMem.alloc, imPut_put]
  simp only [IntMem.put, IntMem.bump, IntMem.mk.injEq, true_and]
  funext a
  split
  · rename_i e; rw [e, h]
  · rfl

theorem zIndexGroupMem_run {cols : List (List Nat)} {cond : List Nat} {N : IntMem} {i : Nat} (hi : i < size)
    (hc : depth ≠ 1 → ∃ c, p.cum = some c ∧ N.arr c = some (maskArr (fun i => decide (i < size * depth)) cum)) (k : Nat) :
    zIndexGroupMem cols cond p.cum depth i k N = (zIndexGroup cols cond cum depth i k >>= fun v => .ok (v, N)) := by
  unfold zIndexGroupMem zIndexGroup
  by_cases hd : depth = 1
  · rw [if_pos hd, if_pos hd, memBind, noMem_run, exc_assoc, exc_assoc]
    refine exc_bind_congr (fun v _ => ?_)
    rfl
  · rw [if_neg hd, if_neg hd]
    obtain ⟨c, hpc, hcm⟩ := hc hd
    refine fold_sim' (fun _ => N) id (fun j hj z => ?_) 0
    rw [List.mem_range] at hj
    have hlt : i * depth + j < size * depth := by
      calc i * depth + j < i * depth + depth := by omega
        _ = (i + 1) * depth := (Nat.succ_mul i depth).symm
        _ ≤ size * depth := Nat.mul_le_mul_right _ hi
    simp only [id]
    rw [memBind, noMem_run, exc_assoc, exc_assoc]
    refine exc_bind_congr (fun v _ => ?_)
    rw [exc_ok, memBind, noMem_run, exc_assoc, exc_assoc]
    refine exc_bind_congr (fun x _ => ?_)
    rw [exc_ok, memBind, hpc]
    simp only [loadPtr]
    rw [load_mask hcm (by intro _; simpa using hlt), exc_assoc, exc_assoc]
    refine exc_bind_congr (fun c _ => ?_)
    rfl

theorem load_map {N : IntMem} {a i f : Nat} {ofs : List Nat} (h : N.arr a = some ((ofs.map (· * f)).map some)) {o : Nat} (ho : rd ofs i = .ok o) :
    load a i N = .ok (o * f, N) := by
  rw [load_all h]
  have hi : i < ofs.length := by
    by_contra hn
    rw [rd_def, List.getElem?_eq_none (by omega)] at ho; cases ho
  rw [rd_getElem hi] at ho
  injection ho with ho
  rw [rd_getElem (by simpa using hi), exc_ok]
  simp [ho]

theorem countLevelGroupMem_run {cols : List (List Nat)} {m dimx dimy x y : Nat} {cond : List Nat} (h : GroupMem M p off cum ofs depth size)
    (t : Counts) :
    countLevelGroupMem cols m dimx dimy x y cond depth size p off (M.tab p t) =
      (countLevelGroup cols m dimx dimy x y cond cum depth size ofs t.n >>= fun n => .ok ((), (M.bump 1).tab p { t with n := n })) := by
  unfold countLevelGroupMem countLevelGroup
  have hb := h.below M.next (Nat.le_refl _)
  rw [memBind, newOffsets_run (M := M.tab p t) (ofs := ofs) (by rw [h.offp.tab]; exact h.hofs) h.len hb.2.1.symm, exc_ok, alloc_tab hb.1, memBind]
  simp only [show (M.tab p t).next = M.next from rfl]
  have hal := h.alloc ((ofs.map (· * (dimx * dimy))).map some)
  have hf := fold_sim' (α := List Nat) (f := fun (_ : Unit) k => do
      let xv ← noMem (cell cols x k)
      let yv ← noMem (cell cols y k)
      (List.range size).foldlM (fun _ i => do
        let z ← zIndexGroupMem cols cond p.cum depth i k
        let o ← load M.next i
        incrMem p.n (z * dimx * dimy + xv * dimy + yv + o)) ())
    (g := fun n k => do
      let xv ← cell cols x k
      let yv ← cell cols y k
      (List.range size).foldlM (fun n i => do
        let z ← zIndexGroup cols cond cum depth i k
        let o ← rd ofs i
        incr n (z * dimx * dimy + xv * dimy + yv + o * dimx * dimy)) n)
    (fun n => (M.alloc ((ofs.map (· * (dimx * dimy))).map some)).tab p { t with n := n }) (fun _ => ()) (l := List.range m) (by
      intro k _ n
      rw [memBind, noMem_run, exc_assoc, exc_assoc]
      refine exc_bind_congr (fun xv _ => ?_)
      rw [exc_ok, memBind, noMem_run, exc_assoc, exc_assoc]
      refine exc_bind_congr (fun yv _ => ?_)
      rw [exc_ok]
      refine fold_sim' (fun n => (M.alloc ((ofs.map (· * (dimx * dimy))).map some)).tab p { t with n := n }) (fun _ => ()) (fun i hi n => ?_) n
      rw [List.mem_range] at hi
      rw [memBind, zIndexGroupMem_run hi (fun hd => by
        obtain ⟨c, h1, h2, h3⟩ := hal.hcum hd
        exact ⟨c, h1, by rw [h2.tab]; exact h3⟩), exc_assoc, exc_assoc]
      refine exc_bind_congr (fun z _ => ?_)
      have ho : rd ofs i = .ok (ofs[i]'(by rw [h.len]; exact hi)) := rd_getElem _
      rw [exc_ok, memBind, load_map (f := dimx * dimy) (by rw [hb.1.tab, alloc_get]) ho, exc_ok, ho, exc_ok, incrMem_all (tab_n h.apart),
        ← Nat.mul_assoc]
      simp only [tab_put_n h.apart]) t.n
  rw [hf, exc_assoc]
  refine exc_bind_congr (fun n _ => ?_)
  rw [exc_ok, deleteArr_run (b := (ofs.map (· * (dimx * dimy))).map some) (by rw [hb.1.tab, alloc_get]), tab_put_other hb.1,
    alloc_delete (h.fresh _ (Nat.le_refl _))]

/-- The memory with the three arrays of offsets. -/
def IntMem.offs (M : IntMem) (ofs : List Nat) (dimx dimy : Nat) : IntMem :=
  ((M.alloc ((ofs.map (· * (dimx * dimy))).map some)).alloc ((ofs.map (· * dimx)).map some)).alloc ((ofs.map (· * dimy)).map some)

variable {dimx dimy : Nat}

theorem offs_xy : (M.offs ofs dimx dimy).arr M.next = some ((ofs.map (· * (dimx * dimy))).map some) := by
  rw [IntMem.offs, alloc_get_ne _ _ (by simp only [alloc_next]; omega), alloc_get_ne _ _ (by simp only [alloc_next]; omega), alloc_get]

theorem offs_x : (M.offs ofs dimx dimy).arr (M.next + 1) = some ((ofs.map (· * dimx)).map some) := by
  rw [IntMem.offs, alloc_get_ne _ _ (by simp only [alloc_next]; omega)]
  exact alloc_get _ _

theorem offs_y : (M.offs ofs dimx dimy).arr (M.next + 2) = some ((ofs.map (· * dimy)).map some) := by
  exact alloc_get _ _

theorem newOffs_run (h : GroupMem M p off cum ofs depth size) (t : Counts) {α : Type} (F : Nat → Nat → Nat → MemM α) :
    (do
      let oxy ← newOffsets off size (dimx * dimy)
      let ox ← newOffsets off size dimx
      let oy ← newOffsets off size dimy
      F oxy ox oy : MemM α) (M.tab p t) = F M.next (M.next + 1) (M.next + 2) ((M.offs ofs dimx dimy).tab p t) := by
  have hb := h.below M.next (Nat.le_refl _)
  have hb1 := h.below (M.next + 1) (by omega)
  have hb2 := h.below (M.next + 2) (by omega)
  have h1 := h.alloc ((ofs.map (· * (dimx * dimy))).map some)
  have h2 := h1.alloc ((ofs.map (· * dimx)).map some)
  rw [memBind, newOffsets_run (M := M.tab p t) (ofs := ofs) (by rw [h.offp.tab]; exact h.hofs) h.len hb.2.1.symm, exc_ok, alloc_tab hb.1, memBind,
    newOffsets_run (M := IntMem.tab (M.alloc _) p t) (ofs := ofs) (by rw [h.offp.tab]; exact h1.hofs) h.len (by exact hb1.2.1.symm), exc_ok, alloc_tab (by exact hb1.1), memBind,
    newOffsets_run (M := IntMem.tab ((M.alloc _).alloc _) p t) (ofs := ofs) (by rw [h.offp.tab]; exact h2.hofs) h.len (by exact hb2.2.1.symm), exc_ok, alloc_tab (by exact hb2.1)]
  rfl

theorem deleteOffs_run (h : GroupMem M p off cum ofs depth size) (t : Counts) {α : Type} (F : MemM α) :
    (do
      deleteArr M.next
      deleteArr (M.next + 1)
      deleteArr (M.next + 2)
      F : MemM α) ((M.offs ofs dimx dimy).tab p t) = F ((M.bump 3).tab p t) := by
  have hb := (h.below M.next (Nat.le_refl _)).1
  have hb1 := (h.below (M.next + 1) (by omega)).1
  have hb2 := (h.below (M.next + 2) (by omega)).1
  rw [memBind, deleteArr_run (b := (ofs.map (· * (dimx * dimy))).map some) (by rw [hb.tab, offs_xy]), exc_ok, tab_put_other hb, memBind,
    deleteArr_run (b := (ofs.map (· * dimx)).map some) (by rw [hb1.tab, put_get_ne _ (by omega), offs_x]), exc_ok, tab_put_other hb1, memBind,
    deleteArr_run (b := (ofs.map (· * dimy)).map some) (by rw [hb2.tab, put_get_ne _ (by omega), put_get_ne _ (by omega), offs_y]), exc_ok,
    tab_put_other hb2]
  have key : (((M.offs ofs dimx dimy).put M.next none).put (M.next + 1) none).put (M.next + 2) none = M.bump 3 := by
    simp only [IntMem.offs, IntMem.alloc, IntMem.put, IntMem.bump, IntMem.mk.injEq]
    refine ⟨trivial, ?_⟩
    funext a
    have f0 := h.fresh M.next (Nat.le_refl _)
    have f1 := h.fresh (M.next + 1) (by omega)
    have f2 := h.fresh (M.next + 2) (by omega)
    by_cases e0 : a = M.next
    · subst e0; simp [f0]
    · by_cases e1 : a = M.next + 1
      · subst e1; simp [f1]
      · by_cases e2 : a = M.next + 2
        · subst e2; simp [f2]
        · simp [e0, e1, e2, Nat.add_assoc]
  rw [key]

theorem fillMarginalsGroupMem_run {dimz : List Nat} (h : GroupMem M p off cum ofs depth size) (t : Counts) :
    fillMarginalsGroupMem dimx dimy size dimz p off (M.tab p t) =
      (fillMarginalsGroup dimx dimy size dimz ofs t >>= fun t => .ok ((), (M.bump 3).tab p t)) := by
  unfold fillMarginalsGroupMem fillMarginalsGroup
  have hb := (h.below M.next (Nat.le_refl _)).1
  have hb1 := (h.below (M.next + 1) (by omega)).1
  have hb2 := (h.below (M.next + 2) (by omega)).1
  have hal := ((h.alloc ((ofs.map (· * (dimx * dimy))).map some)).alloc ((ofs.map (· * dimx)).map some)).alloc ((ofs.map (· * dimy)).map some)
  have hap := h.apart
  rw [newOffs_run h, memBind]
  rw [fold_sim' (α := Counts) (g := fun t m => do
    let d ← rd dimz m
    let o ← rd ofs m
    (List.range d).foldlM (fun t k =>
      (List.range dimx).foldlM (fun t i =>
        (List.range dimy).foldlM (fun t j => do
          let c ← rd t.n (k * dimx * dimy + i * dimy + j + o * dimx * dimy)
          let ni ← addAt t.ni (k * dimx + i + o * dimx) c
          let nj ← addAt t.nj (k * dimy + j + o * dimy) c
          let nk ← addAt t.nk (k + o) c
          return { t with ni := ni, nj := nj, nk := nk }) t) t) t)
    (fun t => (M.offs ofs dimx dimy).tab p t) (fun _ => ()) (fun m hm t => ?_) t, exc_assoc]
  · refine exc_bind_congr (fun t' _ => ?_)
    have := deleteOffs_run (dimx := dimx) (dimy := dimy) h t' (pure ())
    rw [exc_ok]
    simp only [bind_pure_unit] at this
    exact this
  · rw [List.mem_range] at hm
    have ho : rd ofs m = .ok (ofs[m]'(by rw [h.len]; exact hm)) := rd_getElem _
    generalize ofs[m]'(by rw [h.len]; exact hm) = o at ho
    rw [memBind, noMem_run, exc_assoc, exc_assoc]
    refine exc_bind_congr (fun d _ => ?_)
    rw [exc_ok, ho, exc_ok]
    refine fold_sim' (fun t => (M.offs ofs dimx dimy).tab p t) (fun _ => ()) (fun k _ t => ?_) t
    refine fold_sim' (fun t => (M.offs ofs dimx dimy).tab p t) (fun _ => ()) (fun i _ t => ?_) t
    refine fold_sim' (fun t => (M.offs ofs dimx dimy).tab p t) (fun _ => ()) (fun j _ t => ?_) t
    have r0 : ∀ t, load M.next m ((M.offs ofs dimx dimy).tab p t) = .ok (o * dimx * dimy, (M.offs ofs dimx dimy).tab p t) := by
      intro t; rw [Nat.mul_assoc]; exact load_map (by rw [hb.tab, offs_xy]) ho
    have r1 : ∀ t, load (M.next + 1) m ((M.offs ofs dimx dimy).tab p t) = .ok (o * dimx, (M.offs ofs dimx dimy).tab p t) := by
      intro t; exact load_map (by rw [hb1.tab, offs_x]) ho
    have r2 : ∀ t, load (M.next + 2) m ((M.offs ofs dimx dimy).tab p t) = .ok (o * dimy, (M.offs ofs dimx dimy).tab p t) := by
      intro t; exact load_map (by rw [hb2.tab, offs_y]) ho
    have r3 : ∀ t, load off m ((M.offs ofs dimx dimy).tab p t) = .ok (o, (M.offs ofs dimx dimy).tab p t) := by
      intro t; rw [load_all (l := ofs) (by rw [h.offp.tab]; exact hal.hofs), ho]; rfl
    rw [memBind, r0, exc_ok, memBind, load_all (tab_n hap), exc_assoc, exc_assoc]
    refine exc_bind_congr (fun c hc => ?_)
    rw [exc_ok, memBind, r1, exc_ok, memBind, addMem_all (tab_ni hap), exc_assoc, exc_assoc]
    refine exc_bind_congr (fun ni _ => ?_)
    rw [exc_ok, tab_put_ni hap, memBind, r0, exc_ok, memBind, load_all (tab_n hap), hc, exc_ok, exc_ok, memBind, r2, exc_ok, memBind,
      addMem_all (tab_nj hap), exc_assoc, exc_assoc]
    refine exc_bind_congr (fun nj _ => ?_)
    rw [exc_ok, tab_put_nj hap, memBind, r0, exc_ok, memBind, load_all (tab_n hap), hc, exc_ok, exc_ok, memBind, r3, exc_ok,
      addMem_all tab_nk, exc_assoc]
    refine exc_bind_congr (fun nk _ => ?_)
    rw [tab_put_nk]
    rfl

theorem groupTestMem_run [Field K] [LinearOrder K] (log : K → K) (pchisq : K → Nat → Option K) (alpha : K) {dimz : List Nat}
    (h : GroupMem M p off cum ofs depth size) (t : Counts) (results : List Bool) {e : Nat} (he : e < size) :
    groupTestMem log pchisq alpha p off dimx dimy size dimz results e (M.tab p t) = ((do
      let d ← rd dimz e
      let o ← rd ofs e
      let (g2, df) ← (List.range d).foldlM (gSquareStratum log t dimx dimy o) ((0 : K), 0)
      let results ← (if df = 0 then wr results e true else .ok results)
      wr results e (exceeds (pValue pchisq g2 df) alpha)) >>= fun r => .ok (r, (M.bump 3).tab p t)) := by
  unfold groupTestMem
  have hb := (h.below M.next (Nat.le_refl _)).1
  have hb1 := (h.below (M.next + 1) (by omega)).1
  have hb2 := (h.below (M.next + 2) (by omega)).1
  have hal := ((h.alloc ((ofs.map (· * (dimx * dimy))).map some)).alloc ((ofs.map (· * dimx)).map some)).alloc ((ofs.map (· * dimy)).map some)
  have hap := h.apart
  have ho : rd ofs e = .ok (ofs[e]'(by rw [h.len]; exact he)) := rd_getElem _
  generalize ofs[e]'(by rw [h.len]; exact he) = o at ho
  rw [newOffs_run h, memBind, noMem_run, exc_assoc, exc_assoc]
  refine exc_bind_congr (fun d _ => ?_)
  rw [exc_ok, ho, exc_ok, memBind]
  have hf := fold_sim' (α := K × Nat) (β := K × Nat)
      (f := gSquareStratumMem log p dimx dimy (load (M.next + 1) e) (load (M.next + 2) e) (load M.next e)
        (fun k => do let o ← load off e; load p.nk (k + o)))
      (g := gSquareStratum log t dimx dimy o) (fun _ => (M.offs ofs dimx dimy).tab p t) id (l := List.range d)
      (by
        intro k _ st
        simp only [id]
        refine gSquareStratumMem_run (t := t) (o := o) log (tab_n hap) (tab_ni hap) (tab_nj hap) ?_ ?_ ?_ k ?_ st
        · exact load_map (by rw [hb1.tab, offs_x]) ho
        · exact load_map (by rw [hb2.tab, offs_y]) ho
        · rw [Nat.mul_assoc]; exact load_map (by rw [hb.tab, offs_xy]) ho
        · unfold Reads
          rw [memBind, load_all (l := ofs) (by rw [h.offp.tab]; exact hal.hofs), ho, exc_ok, exc_ok]
          exact load_all tab_nk) ((0 : K), 0)
  simp only [id] at hf
  rw [hf, exc_assoc, exc_assoc]
  refine exc_bind_congr (fun r _ => ?_)
  rw [exc_ok]
  dsimp only
  rw [deleteOffs_run h, memBind, noMem_run, exc_assoc, exc_assoc]
  refine exc_bind_congr (fun res _ => ?_)
  rfl

end FastPGM
