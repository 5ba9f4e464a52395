import Verif.Lemmas.TestMemory

/-!
The functions on the memory that fill a single table and read it simulate the functions on lists.
-/

namespace FastPGM

variable {K : Type}

theorem cumLevels3DMem_run {condDims : List Nat} (hl : condDims.length > 1) (M : IntMem) :
    cumLevels3DMem condDims M = (cumLevels3D condDims >>= fun r => .ok ((some M.next, r.2), M.alloc (r.1.map some))) := by
  unfold cumLevels3DMem cumLevels3D
  rw [if_pos hl, if_pos hl]
  obtain ⟨len, hlen⟩ : ∃ n, condDims.length = n + 2 := ⟨condDims.length - 2, by omega⟩
  simp only [hlen]
  have e1 : len + 2 - 1 = len + 1 := by omega
  have e2 : len + 2 - 2 = len := by omega
  rw [e1, e2, memBind, newArr_run, exc_ok, memBind, noMem_run, exc_assoc, exc_assoc]
  refine exc_bind_congr (fun last _ => ?_)
  rw [exc_ok, memBind]
  rw [store_mask (l := List.replicate (len + 1) 0) (p := fun _ => false) (q := fun i => decide (i = len))
    (by rw [alloc_get, maskArr_false]) (by intro j; simp), exc_assoc, exc_assoc]
  refine exc_bind_congr (fun c hc => ?_)
  have hcl : c.length = len + 1 := by
    unfold wr at hc; split at hc
    · injection hc with hc; rw [← hc]; simp
    · cases hc
  rw [exc_ok, alloc_put, memBind]
  have h := fold_sim (α := List Nat) (f := fun (_ : Unit) i => do
      let a ← load M.next (i + 1)
      let d ← noMem (rd condDims (i + 1))
      store M.next i (a * d))
    (g := fun c i => do
      let a ← rd c (i + 1)
      let d ← rd condDims (i + 1)
      wr c i (a * d))
    (S := fun r c => M.alloc (maskArr (fun i => decide (r.length ≤ i)) c)) (v := fun _ => ()) (l := (List.range len).reverse)
    (by
      intro a l' s hs
      obtain ⟨h1, h2⟩ := suffix_range_rev hs
      subst h1
      rw [memBind, load_mask (alloc_get M _) (by intro _; simp), exc_assoc, exc_assoc]
      refine exc_bind_congr (fun x _ => ?_)
      rw [exc_ok, memBind, noMem_run, exc_assoc, exc_assoc]
      refine exc_bind_congr (fun d _ => ?_)
      rw [exc_ok, store_mask (alloc_get M _) (q := fun i => decide (l'.length ≤ i))
        (by intro j; simp only [List.length_cons]; rw [Bool.eq_iff_iff]; simp; omega)]
      refine exc_bind_congr (fun x _ => ?_)
      rw [alloc_put]) c
  have hS : M.alloc (maskArr (fun i => decide (i = len)) c) =
      M.alloc (maskArr (fun i => decide ((List.range len).reverse.length ≤ i)) c) := by
    congr 1
    exact maskArr_congr (by intro i hi; simp; omega)
  rw [hS, h, exc_assoc, exc_assoc]
  refine exc_bind_congr (fun c' _ => ?_)
  have hm : maskArr (fun i => decide (([] : List Nat).length ≤ i)) c' = c'.map some := by
    rw [← maskArr_true]; exact maskArr_congr (by intro i hi; simp)
  rw [exc_ok, memBind, hm, load_all (alloc_get M _), exc_assoc, exc_assoc]
  refine exc_bind_congr (fun a _ => ?_)
  rw [exc_ok, memBind, noMem_run, exc_assoc, exc_assoc]
  refine exc_bind_congr (fun d _ => ?_)
  rfl

theorem cumLevels3DMem_one {condDims : List Nat} (hl : ¬ condDims.length > 1) (M : IntMem) :
    cumLevels3DMem condDims M = (cumLevels3D condDims >>= fun r => .ok ((none, r.2), M)) := by
  unfold cumLevels3DMem cumLevels3D
  rw [if_neg hl, if_neg hl, memBind, noMem_run, exc_assoc, exc_assoc]
  refine exc_bind_congr (fun d _ => ?_)
  rfl

/-- The memory in which the four arrays of a table have the given contents. -/
def IntMem.tab (M : IntMem) (p : TablePtr) (t : Counts) : IntMem :=
  (((M.put p.n (some (t.n.map some))).put p.ni (some (t.ni.map some))).put p.nj (some (t.nj.map some))).put p.nk (some (t.nk.map some))

/-- The four arrays are at different addresses. -/
structure Apart (p : TablePtr) : Prop where
  n_ni : p.n ≠ p.ni
  n_nj : p.n ≠ p.nj
  n_nk : p.n ≠ p.nk
  ni_nj : p.ni ≠ p.nj
  ni_nk : p.ni ≠ p.nk
  nj_nk : p.nj ≠ p.nk

variable {p : TablePtr} {M : IntMem} {t : Counts}

theorem tab_n (hp : Apart p) : (M.tab p t).arr p.n = some (t.n.map some) := by
  simp [IntMem.tab, IntMem.put, hp.n_ni, hp.n_nj, hp.n_nk]

theorem tab_ni (hp : Apart p) : (M.tab p t).arr p.ni = some (t.ni.map some) := by
  simp [IntMem.tab, IntMem.put, hp.ni_nj, hp.ni_nk]

theorem tab_nj (hp : Apart p) : (M.tab p t).arr p.nj = some (t.nj.map some) := by
  simp [IntMem.tab, IntMem.put, hp.nj_nk]

theorem tab_nk : (M.tab p t).arr p.nk = some (t.nk.map some) := by
  simp [IntMem.tab, IntMem.put]

theorem tab_other {a : Nat} (h1 : a ≠ p.n) (h2 : a ≠ p.ni) (h3 : a ≠ p.nj) (h4 : a ≠ p.nk) : (M.tab p t).arr a = M.arr a := by
  simp [IntMem.tab, IntMem.put, h1, h2, h3, h4]

theorem tab_put_n (hp : Apart p) (l : List Nat) : (M.tab p t).put p.n (some (l.map some)) = M.tab p { t with n := l } := by
  simp only [IntMem.tab]
  rw [put_comm _ hp.n_nk.symm, put_comm _ hp.n_nj.symm, put_comm _ hp.n_ni.symm, imPut_put]

theorem tab_put_ni (hp : Apart p) (l : List Nat) : (M.tab p t).put p.ni (some (l.map some)) = M.tab p { t with ni := l } := by
  simp only [IntMem.tab]
  rw [put_comm _ hp.ni_nk.symm, put_comm _ hp.ni_nj.symm, imPut_put]

theorem tab_put_nj (hp : Apart p) (l : List Nat) : (M.tab p t).put p.nj (some (l.map some)) = M.tab p { t with nj := l } := by
  simp only [IntMem.tab]
  rw [put_comm _ hp.nj_nk.symm, imPut_put]

theorem tab_put_nk (l : List Nat) : (M.tab p t).put p.nk (some (l.map some)) = M.tab p { t with nk := l } := by
  simp only [IntMem.tab, imPut_put]

/-- Reading `cum_levels` gives the entries of `cum`. -/
def CumAt (M : IntMem) (a : Option Nat) (cum : List Nat) : Prop :=
  ∀ j, loadPtr a j M = (rd cum j >>= fun v => .ok (v, M))

theorem zIndexMem_run {cols : List (List Nat)} {cond cum : List Nat} {a : Option Nat} (hc : CumAt M a cum) (k : Nat) :
    zIndexMem cols cond a k M = (zIndex cols cond cum k >>= fun v => .ok (v, M)) := by
  unfold zIndexMem zIndex
  split
  · rw [memBind, noMem_run, exc_assoc, exc_assoc]
    refine exc_bind_congr (fun v _ => ?_)
    rfl
  · rw [memBind, noMem_run, exc_assoc, exc_assoc]
    refine exc_bind_congr (fun v _ => ?_)
    rw [exc_ok, memBind, noMem_run, exc_assoc, exc_assoc]
    refine exc_bind_congr (fun z _ => ?_)
    rw [exc_ok]
    refine fold_sim' (fun _ => M) id ?_ z
    intro j _ z
    simp only [id]
    rw [memBind, noMem_run, exc_assoc, exc_assoc]
    refine exc_bind_congr (fun v _ => ?_)
    rw [exc_ok, memBind, noMem_run, exc_assoc, exc_assoc]
    refine exc_bind_congr (fun x _ => ?_)
    rw [exc_ok, memBind, hc j, exc_assoc, exc_assoc]
    refine exc_bind_congr (fun c _ => ?_)
    rfl

theorem countLevelMem_run {cols : List (List Nat)} {m dimx dimy x y : Nat} {cond cum : List Nat} (hp : Apart p)
    (hc : ∀ t, CumAt (M.tab p t) p.cum cum) (t : Counts) :
    countLevelMem cols m dimx dimy x y cond p (M.tab p t) =
      (countLevel cols m dimx dimy x y cond cum t.n >>= fun n => .ok ((), M.tab p { t with n := n })) := by
  unfold countLevelMem countLevel
  refine fold_sim' (fun n => M.tab p { t with n := n }) (fun _ => ()) ?_ t.n
  intro k _ n
  rw [memBind, noMem_run, exc_assoc, exc_assoc]
  refine exc_bind_congr (fun xv _ => ?_)
  rw [exc_ok, memBind, noMem_run, exc_assoc, exc_assoc]
  refine exc_bind_congr (fun yv _ => ?_)
  rw [exc_ok, memBind, zIndexMem_run (hc _), exc_assoc, exc_assoc]
  refine exc_bind_congr (fun z _ => ?_)
  rw [exc_ok, incrMem_all (tab_n hp)]
  simp only [tab_put_n hp]

theorem fillMarginalsMem_run {dimx dimy dimz : Nat} (hp : Apart p) (t : Counts) :
    fillMarginalsMem dimx dimy dimz p (M.tab p t) = (fillMarginals dimx dimy dimz t >>= fun t => .ok ((), M.tab p t)) := by
  unfold fillMarginalsMem fillMarginals
  refine fold_sim' (fun t => M.tab p t) (fun _ => ()) (fun k _ t => ?_) t
  refine fold_sim' (fun t => M.tab p t) (fun _ => ()) (fun i _ t => ?_) t
  refine fold_sim' (fun t => M.tab p t) (fun _ => ()) (fun j _ t => ?_) t
  rw [memBind, load_all (tab_n hp), exc_assoc, exc_assoc]
  refine exc_bind_congr (fun o ho => ?_)
  rw [exc_ok, memBind, addMem_all (tab_ni hp), exc_assoc, exc_assoc]
  refine exc_bind_congr (fun ni _ => ?_)
  rw [exc_ok, tab_put_ni hp, memBind, load_all (tab_n hp), ho, exc_ok, exc_ok, memBind, addMem_all (tab_nj hp), exc_assoc, exc_assoc]
  refine exc_bind_congr (fun nj _ => ?_)
  rw [exc_ok, tab_put_nj hp, memBind, load_all (tab_n hp), ho, exc_ok, exc_ok, addMem_all tab_nk, exc_assoc]
  refine exc_bind_congr (fun nk _ => ?_)
  rw [tab_put_nk]
  rfl

/-- A computation that only reads. -/
def Reads {α : Type} (M : IntMem) (f : MemM α) (x : Except Fault α) : Prop := f M = (x >>= fun v => .ok (v, M))

theorem reads_pure {α : Type} (a : α) : Reads M (pure a) (.ok a) := rfl

theorem positivesMem_run {a start dim o : Nat} {off : MemM Nat} {l : List Nat} (h : M.arr a = some (l.map some)) (ho : Reads M off (.ok o)) :
    positivesMem a start off dim M = (positives l (start + o) dim >>= fun v => .ok (v, M)) := by
  unfold positivesMem positives
  refine fold_sim' (fun _ => M) id (fun i _ c => ?_) 0
  simp only [id]
  rw [memBind, show off M = _ from ho, exc_ok, exc_ok, memBind, load_all h, exc_assoc, exc_assoc]
  refine exc_bind_congr (fun v _ => ?_)
  rfl

theorem gSquareStratumMem_run [Field K] (log : K → K) {dimx dimy o : Nat} {ox oy oxy : MemM Nat} {total : Nat → MemM Nat}
    (hn : M.arr p.n = some (t.n.map some)) (hni : M.arr p.ni = some (t.ni.map some)) (hnj : M.arr p.nj = some (t.nj.map some))
    (hx : Reads M ox (.ok (o * dimx))) (hy : Reads M oy (.ok (o * dimy))) (hxy : Reads M oxy (.ok (o * dimx * dimy))) (k : Nat)
    (htot : Reads M (total k) (rd t.nk (k + o))) (st : K × Nat) :
    gSquareStratumMem log p dimx dimy ox oy oxy total st k M = (gSquareStratum log t dimx dimy o st k >>= fun v => .ok (v, M)) := by
  unfold gSquareStratumMem gSquareStratum
  rw [memBind, positivesMem_run hni hx, exc_assoc, exc_assoc]
  refine exc_bind_congr (fun alx _ => ?_)
  rw [exc_ok, memBind, positivesMem_run hnj hy, exc_assoc, exc_assoc]
  refine exc_bind_congr (fun aly _ => ?_)
  rw [exc_ok]
  dsimp only
  rw [memBind, show total k M = _ from htot, exc_assoc, exc_assoc]
  refine exc_bind_congr (fun tot _ => ?_)
  rw [exc_ok]
  split
  · rfl
  · rw [memBind]
    have h := fold_sim' (α := K) (β := K)
      (f := fun (g2 : K) i => do
        let o ← ox
        let row ← load p.ni (k * dimx + i + o)
        if row = 0 then return g2
        else
          (List.range dimy).foldlM (fun g2 j => do
            let o ← oy
            let col ← load p.nj (k * dimy + j + o)
            let o ← oxy
            let observed ← load p.n (k * dimx * dimy + i * dimy + j + o)
            if col = 0 ∨ observed = 0 then return g2
            else do
              let expected : K := (col : K) * (row : K) / (tot : K)
              return g2 + 2 * (observed : K) * log ((observed : K) / expected)) g2)
      (g := fun (g2 : K) i => do
        let row ← rd t.ni (k * dimx + i + o * dimx)
        if row = 0 then return g2
        else
          (List.range dimy).foldlM (fun g2 j => do
            let col ← rd t.nj (k * dimy + j + o * dimy)
            let observed ← rd t.n (k * dimx * dimy + i * dimy + j + o * dimx * dimy)
            if col = 0 ∨ observed = 0 then return g2
            else do
              let expected : K := (col : K) * (row : K) / (tot : K)
              return g2 + 2 * (observed : K) * log ((observed : K) / expected)) g2)
      (fun _ => M) id (l := List.range dimx) (by
        intro i _ g2
        simp only [id]
        rw [memBind, show ox M = _ from hx, exc_ok, exc_ok, memBind, load_all hni, exc_assoc, exc_assoc]
        refine exc_bind_congr (fun row _ => ?_)
        rw [exc_ok]
        split
        · rfl
        · refine fold_sim' (fun _ => M) id (fun j _ g2 => ?_) g2
          simp only [id]
          rw [memBind, show oy M = _ from hy, exc_ok, exc_ok, memBind, load_all hnj, exc_assoc, exc_assoc]
          refine exc_bind_congr (fun col _ => ?_)
          rw [exc_ok, memBind, show oxy M = _ from hxy, exc_ok, exc_ok, memBind, load_all hn, exc_assoc, exc_assoc]
          refine exc_bind_congr (fun ob _ => ?_)
          rw [exc_ok]
          split <;> rfl) st.1
    simp only [id] at h
    rw [h, exc_assoc, exc_assoc]
    refine exc_bind_congr (fun g2 _ => ?_)
    rfl

end FastPGM
