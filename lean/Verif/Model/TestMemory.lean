import Verif.Model.IndependenceTest

/-!
The memory used by a test of conditional independence (src/fastpgm/structure_learning/CellTable.cpp and IndependenceTest.cpp): the
arrays obtained with `new int[]` live at addresses, start with indeterminate entries, and are released with `delete[]`.

Reading an entry that was never written, an entry outside the array, or an array that is not alive is undefined behaviour, and so are
writing outside an array and releasing an array that is not alive.  The table objects themselves (`new Counts3D` etc.) are blocks
without `int` entries.  Storage of `std::vector`s and of the caller's objects is not part of this memory.  `int` is `Nat` as in
Verif/Model/CellTable.lean (for 32 bits see Verif/Model/Int32.lean).
-/

namespace FastPGM

variable {K : Type}

/-- Memory: the contents of the blocks that are alive (`none` as entry: indeterminate); no block was ever placed at `next` or above. -/
structure IntMem where
  next : Nat
  arr : Nat → Option (List (Option Nat))

/-- A computation on the memory. -/
abbrev MemM (α : Type) := StateT IntMem (Except Fault) α

/-- The memory with the block at `a` replaced. -/
def IntMem.put (M : IntMem) (a : Nat) (b : Option (List (Option Nat))) : IntMem :=
  { M with arr := fun c => if c = a then b else M.arr c }

/-- `new int[len]`; `new T` for an object without `int` entries is `newArr 0`. -/
def newArr (len : Nat) : MemM Nat := fun M =>
  .ok (M.next, IntMem.put { M with next := M.next + 1 } M.next (some (List.replicate len none)))

/-- Reading `a[i]`. -/
def load (a i : Nat) : MemM Nat := fun M =>
  match M.arr a with
  | none => .error .ub
  | some l =>
    match l[i]? with
    | some (some v) => .ok (v, M)
    | _ => .error .ub

/-- `a[i] = v` -/
def store (a i v : Nat) : MemM Unit := fun M =>
  match M.arr a with
  | none => .error .ub
  | some l => if i < l.length then .ok ((), M.put a (some (l.set i (some v)))) else .error .ub

/-- `delete[] a` -/
def deleteArr (a : Nat) : MemM Unit := fun M =>
  match M.arr a with
  | none => .error .ub
  | some _ => .ok ((), M.put a none)

/-- A computation that does not touch the memory. -/
def noMem {α : Type} (x : Except Fault α) : MemM α := fun M => x >>= fun v => .ok (v, M)

/-- Reading `a[i]` through a pointer member that may not have been set. -/
def loadPtr (a : Option Nat) (i : Nat) : MemM Nat :=
  match a with
  | some a => load a i
  | none => noMem (.error .ub)

/-- `a[i]++` -/
def incrMem (a i : Nat) : MemM Unit := do
  let v ← load a i
  store a i (v + 1)

/-- `a[i] += x` -/
def addMem (a i x : Nat) : MemM Unit := do
  let v ← load a i
  store a i (v + x)

/-- `new int[len]` followed by the loop that clears it, as in CellTable.cpp 53-56. -/
def newCleared (len : Nat) : MemM Nat := do
  let a ← newArr len
  (List.range len).foldlM (fun _ i => store a i 0) ()
  return a

/-- CellTable.h: the pointers of a table; `obj` is the table object itself. -/
structure TablePtr where
  obj : Nat
  /-- `cum_levels`, which is not set for one conditioning variable -/
  cum : Option Nat
  n : Nat
  ni : Nat
  nj : Nat
  nk : Nat

/-- CellTable.cpp 39-51. -/
def cumLevels3DMem (condDims : List Nat) : MemM (Option Nat × Nat) :=
  if condDims.length > 1 then do
    let len := condDims.length
    let cum ← newArr (len - 1)
    let last ← noMem (rd condDims (len - 1))
    store cum (len - 2) last
    (List.range (len - 2)).reverse.foldlM (fun _ i => do
      let a ← load cum (i + 1)
      let d ← noMem (rd condDims (i + 1))
      store cum i (a * d)) ()
    let a ← load cum 0
    let d ← noMem (rd condDims 0)
    return (some cum, a * d)
  else do
    let d ← noMem (rd condDims 0)
    return (none, d)

/-- CellTable.cpp 23-72 `Counts3D`: the table and `dimz`. -/
def newCounts3D (dimx dimy : Nat) (condDims : List Nat) : MemM (TablePtr × Nat) := do
  let obj ← newArr 0
  let (cum, dimz) ← cumLevels3DMem condDims
  let n ← newCleared (dimz * dimx * dimy)
  let ni ← newCleared (dimz * dimx)
  let nj ← newCleared (dimz * dimy)
  let nk ← newCleared dimz
  return (⟨obj, cum, n, ni, nj, nk⟩, dimz)

/-- CellTable.cpp 74-91 `~Counts3D`, and the release of the object itself (`delete` in `SAFE_DELETE`). -/
def deleteCounts3D (condDims : List Nat) (p : TablePtr) : MemM Unit := do
  if condDims.length > 1 then
    match p.cum with
    | some c => deleteArr c
    | none => noMem (.error .ub)
  deleteArr p.n
  deleteArr p.ni
  deleteArr p.nj
  deleteArr p.nk
  deleteArr p.obj

/-- CellTable.cpp 263 and 275-281. -/
def zIndexMem (cols : List (List Nat)) (cond : List Nat) (cum : Option Nat) (k : Nat) : MemM Nat :=
  if cond.length = 1 then do
    let v ← noMem (rd cond 0)
    noMem (cell cols v k)
  else do
    let v ← noMem (rd cond (cond.length - 1))
    let z ← noMem (cell cols v k)
    (List.range (cond.length - 1)).foldlM (fun z j => do
      let v ← noMem (rd cond j)
      let x ← noMem (cell cols v k)
      let c ← loadPtr cum j
      return z + x * c) z

/-- CellTable.cpp 254-291 `CountLevel1`, `CountLevelN`. -/
def countLevelMem (cols : List (List Nat)) (m dimx dimy x y : Nat) (cond : List Nat) (p : TablePtr) : MemM Unit :=
  (List.range m).foldlM (fun _ k => do
    let xv ← noMem (cell cols x k)
    let yv ← noMem (cell cols y k)
    let z ← zIndexMem cols cond p.cum k
    incrMem p.n (z * dimx * dimy + xv * dimy + yv)) ()

/-- CellTable.cpp 241-249. -/
def fillMarginalsMem (dimx dimy dimz : Nat) (p : TablePtr) : MemM Unit :=
  (List.range dimz).foldlM (fun _ k =>
    (List.range dimx).foldlM (fun _ i =>
      (List.range dimy).foldlM (fun _ j => do
        let o ← load p.n (k * dimx * dimy + i * dimy + j)
        addMem p.ni (k * dimx + i) o
        let o ← load p.n (k * dimx * dimy + i * dimy + j)
        addMem p.nj (k * dimy + j) o
        let o ← load p.n (k * dimx * dimy + i * dimy + j)
        addMem p.nk k o) ()) ()) ()

/-- IndependenceTest.cpp 100-105. -/
def positivesMem (a start : Nat) (off : MemM Nat) (dim : Nat) : MemM Nat :=
  (List.range dim).foldlM (fun c i => do
    let o ← off
    let v ← load a (start + o + i)
    return c + if v > 0 then 1 else 0) 0

/-- IndependenceTest.cpp 97-137 (with `ox`, `oy`, `oxy` giving 0 and `ok` giving `nk[k]`) and 214-255: one configuration `k` of the
conditioning variables.  `ox`, `oy`, `oxy` read `offset_x[m]`, `offset_y[m]`, `offset_xy[m]`, and `total` reads the number of instances
with the configuration. -/
def gSquareStratumMem [Field K] (log : K → K) (p : TablePtr) (dimx dimy : Nat) (ox oy oxy : MemM Nat) (total : Nat → MemM Nat)
    (st : K × Nat) (k : Nat) : MemM (K × Nat) := do
  let alx ← positivesMem p.ni (k * dimx) ox dimx
  let aly ← positivesMem p.nj (k * dimy) oy dimy
  let alx := if alx ≥ 1 then alx else 1
  let aly := if aly ≥ 1 then aly else 1
  let df := st.2 + (alx - 1) * (aly - 1)
  let total ← total k
  if total = 0 then return (st.1, df)
  else do
    let g2 ← (List.range dimx).foldlM (fun g2 i => do
      let o ← ox
      let row ← load p.ni (k * dimx + i + o)
      if row = 0 then return g2
      else
        (List.range dimy).foldlM (fun g2 j => do
          let o ← oy
          let col ← load p.nj (k * dimy + j + o)
          let o ← oxy
          let observed ← load p.n (k * dimx * dimy + i * dimy + j + o)
          if col = 0 ∨ observed = 0 then return g2
          else do
            let expected : K := (col : K) * (row : K) / (total : K)
            return g2 + 2 * (observed : K) * log ((observed : K) / expected)) g2) st.1
    return (g2, df)

/-- IndependenceTest.cpp 65-155 `ComputeGSquareXYZ`: the return of 140-142 comes before the release of 150. -/
def gSquareXYZMem [Field K] [LinearOrder K] (log : K → K) (pchisq : K → Nat → Option K) (alpha : K) (dims : List Nat)
    (cols : List (List Nat)) (m x y : Nat) (z : List Nat) : MemM (CIResult K) := do
  let dimx ← noMem (rd dims x)
  let dimy ← noMem (rd dims y)
  let condDims ← noMem (z.mapM (rd dims))
  let (p, dimz) ← newCounts3D dimx dimy condDims
  countLevelMem cols m dimx dimy x y z p
  fillMarginalsMem dimx dimy dimz p
  let (g2, df) ← (List.range dimz).foldlM (gSquareStratumMem log p dimx dimy (pure 0) (pure 0) (pure 0) (load p.nk)) ((0 : K), 0)
  if df = 0 then return ⟨some 1, true, some 0⟩
  else do
    let r := pValue pchisq g2 df
    deleteCounts3D condDims p
    return ⟨r, exceeds r alpha, some 0⟩

/-- CellTable.cpp 174-194 `Counts2D`. -/
def newCounts2D (dimx dimy : Nat) : MemM TablePtr := do
  let obj ← newArr 0
  let n ← newCleared (dimx * dimy)
  let ni ← newCleared dimx
  let nj ← newCleared dimy
  return ⟨obj, none, n, ni, nj, obj⟩

/-- CellTable.cpp 196-205 `~Counts2D`, and the release of the object itself. -/
def deleteCounts2D (p : TablePtr) : MemM Unit := do
  deleteArr p.n
  deleteArr p.ni
  deleteArr p.nj
  deleteArr p.obj

/-- CellTable.cpp 430-455 `FillTable` of `Counts2D`. -/
def fillTable2DMem (cols : List (List Nat)) (m dimx dimy x y : Nat) (p : TablePtr) : MemM Unit := do
  (List.range m).foldlM (fun _ k => do
    let xv ← noMem (cell cols x k)
    let yv ← noMem (cell cols y k)
    incrMem p.n (xv * dimy + yv)) ()
  (List.range dimx).foldlM (fun _ i =>
    (List.range dimy).foldlM (fun _ j => do
      let o ← load p.n (i * dimy + j)
      addMem p.ni i o
      let o ← load p.n (i * dimy + j)
      addMem p.nj j o) ()) ()

/-- IndependenceTest.cpp 295-364 `ComputeGSquareXY`: the return of 349-351 comes before the release of 359.  (For an empty data set the
loop 327-347 is skipped here; it adds nothing, all counts being 0.) -/
def gSquareXYMem [Field K] [LinearOrder K] (log : K → K) (pchisq : K → Nat → Option K) (alpha : K) (dims : List Nat)
    (cols : List (List Nat)) (m x y : Nat) : MemM (CIResult K) := do
  let dimx ← noMem (rd dims x)
  let dimy ← noMem (rd dims y)
  let p ← newCounts2D dimx dimy
  fillTable2DMem cols m dimx dimy x y p
  let (g2, df) ← gSquareStratumMem log p dimx dimy (pure 0) (pure 0) (pure 0) (fun _ => pure m) ((0 : K), 0) 0
  if df = 0 then return ⟨some 1, true, none⟩
  else do
    let r := pValue pchisq g2 df
    deleteCounts2D p
    return ⟨r, exceeds r alpha, none⟩

/-- CellTable.cpp 103-119: `cum_levels` (not allocated for one variable per set) and `dimz`. -/
def cumLevelsGroupMem (condDims : List Nat) (depth size : Nat) : MemM (Option Nat × List Nat) :=
  if depth = 1 then pure (none, condDims)
  else do
    let cum ← newArr condDims.length
    let dimz ← (List.range size).foldlM (fun (dimz : List Nat) j => do
      if (j + 1) * depth = 0 then noMem (.error .ub) else store cum ((j + 1) * depth - 1) 1
      (List.range (depth - 1)).reverse.foldlM (fun _ i => do
        let a ← load cum (j * depth + i + 1)
        let d ← noMem (rd condDims (j * depth + i + 1))
        store cum (j * depth + i) (a * d)) ()
      let a ← load cum (j * depth)
      let d ← noMem (rd condDims (j * depth))
      return dimz ++ [a * d]) []
    return (some cum, dimz)

/-- CellTable.cpp 121-126: `cum_dims` and `dimz_total`. -/
def cumDimsMem (dimz : List Nat) (size : Nat) : MemM (Nat × Nat) := do
  let c ← newArr size
  store c 0 0
  (List.range (size - 1)).foldlM (fun _ i => do
    let a ← load c i
    let d ← noMem (rd dimz i)
    store c (i + 1) (a + d)) ()
  let a ← load c (size - 1)
  let d ← noMem (rd dimz (size - 1))
  return (c, a + d)

/-- CellTable.cpp 93-150 `Counts3DGroup`: the table, `cum_dims` and `dimz`. -/
def newCounts3DGroup (dimx dimy : Nat) (condDims : List Nat) (size : Nat) : MemM (TablePtr × Nat × List Nat) :=
  if size = 0 then noMem (.error .ub)
  else do
    let obj ← newArr 0
    let (cum, dimz) ← cumLevelsGroupMem condDims (condDims.length / size) size
    let (off, total) ← cumDimsMem dimz size
    let n ← newCleared (total * dimx * dimy)
    let ni ← newCleared (total * dimx)
    let nj ← newCleared (total * dimy)
    let nk ← newCleared total
    return (⟨obj, cum, n, ni, nj, nk⟩, off, dimz)

/-- CellTable.cpp 152-172 `~Counts3DGroup`, and the release of the object itself. -/
def deleteCounts3DGroup (depth : Nat) (p : TablePtr) (off : Nat) : MemM Unit := do
  if depth > 1 then
    match p.cum with
    | some c => deleteArr c
    | none => noMem (.error .ub)
  deleteArr off
  deleteArr p.n
  deleteArr p.ni
  deleteArr p.nj
  deleteArr p.nk
  deleteArr p.obj

/-- CellTable.cpp 340-343: an array of offsets, `cum_dims[i] * f`. -/
def newOffsets (off size f : Nat) : MemM Nat := do
  let a ← newArr size
  (List.range size).foldlM (fun _ i => do
    let d ← load off i
    store a i (d * f)) ()
  return a

/-- CellTable.cpp 371 and 416-420. -/
def zIndexGroupMem (cols : List (List Nat)) (cond : List Nat) (cum : Option Nat) (depth i k : Nat) : MemM Nat :=
  if depth = 1 then do
    let v ← noMem (rd cond i)
    noMem (cell cols v k)
  else
    (List.range depth).foldlM (fun z j => do
      let v ← noMem (rd cond (i * depth + j))
      let x ← noMem (cell cols v k)
      let c ← loadPtr cum (i * depth + j)
      return z + x * c) 0

/-- CellTable.cpp 339-427 `CountLevel1`, `CountLevelN` of a group. -/
def countLevelGroupMem (cols : List (List Nat)) (m dimx dimy x y : Nat) (cond : List Nat) (depth size : Nat) (p : TablePtr) (off : Nat) :
    MemM Unit := do
  let oxy ← newOffsets off size (dimx * dimy)
  (List.range m).foldlM (fun _ k => do
    let xv ← noMem (cell cols x k)
    let yv ← noMem (cell cols y k)
    (List.range size).foldlM (fun _ i => do
      let z ← zIndexGroupMem cols cond p.cum depth i k
      let o ← load oxy i
      incrMem p.n (z * dimx * dimy + xv * dimy + yv + o)) ()) ()
  deleteArr oxy

/-- CellTable.cpp 306-334: the marginals of all tables of a group.  (The three arrays of offsets are filled in one loop there, and in
three loops here.) -/
def fillMarginalsGroupMem (dimx dimy size : Nat) (dimz : List Nat) (p : TablePtr) (off : Nat) : MemM Unit := do
  let oxy ← newOffsets off size (dimx * dimy)
  let ox ← newOffsets off size dimx
  let oy ← newOffsets off size dimy
  (List.range size).foldlM (fun _ m => do
    let d ← noMem (rd dimz m)
    (List.range d).foldlM (fun _ k =>
      (List.range dimx).foldlM (fun _ i =>
        (List.range dimy).foldlM (fun _ j => do
          let b ← load oxy m
          let c ← load p.n (k * dimx * dimy + i * dimy + j + b)
          let b ← load ox m
          addMem p.ni (k * dimx + i + b) c
          let b ← load oxy m
          let c ← load p.n (k * dimx * dimy + i * dimy + j + b)
          let b ← load oy m
          addMem p.nj (k * dimy + j + b) c
          let b ← load oxy m
          let c ← load p.n (k * dimx * dimy + i * dimy + j + b)
          let b ← load off m
          addMem p.nk (k + b) c) ()) ()) ()) ()
  deleteArr oxy
  deleteArr ox
  deleteArr oy

/-- IndependenceTest.cpp 189-274: the test of number `e` of the group. -/
def groupTestMem [Field K] [LinearOrder K] (log : K → K) (pchisq : K → Nat → Option K) (alpha : K) (p : TablePtr) (off : Nat)
    (dimx dimy size : Nat) (dimz : List Nat) (results : List Bool) (e : Nat) : MemM (List Bool) := do
  let oxy ← newOffsets off size (dimx * dimy)
  let ox ← newOffsets off size dimx
  let oy ← newOffsets off size dimy
  let d ← noMem (rd dimz e)
  let (g2, df) ← (List.range d).foldlM (gSquareStratumMem log p dimx dimy (load ox e) (load oy e) (load oxy e)
    (fun k => do let o ← load off e; load p.nk (k + o))) ((0 : K), 0)
  deleteArr oxy
  deleteArr ox
  deleteArr oy
  let results ← noMem (if df = 0 then wr results e true else .ok results)
  noMem (wr results e (exceeds (pValue pchisq g2 df) alpha))

/-- IndependenceTest.cpp 163-287 `ComputeGSquareXYZGroup`. -/
def gSquareXYZGroupMem [Field K] [LinearOrder K] (log : K → K) (pchisq : K → Nat → Option K) (alpha : K) (dims : List Nat)
    (cols : List (List Nat)) (m x y : Nat) (z : List Nat) (size : Nat) : MemM (CIResult K) := do
  let dimx ← noMem (rd dims x)
  let dimy ← noMem (rd dims y)
  let condDims ← noMem (z.mapM (rd dims))
  let (p, off, dimz) ← newCounts3DGroup dimx dimy condDims size
  countLevelGroupMem cols m dimx dimy x y z (condDims.length / size) size p off
  fillMarginalsGroupMem dimx dimy size dimz p off
  let results ← (List.range size).foldlM (groupTestMem log pchisq alpha p off dimx dimy size dimz) (List.replicate 8 false)
  deleteCounts3DGroup (condDims.length / size) p off
  match (List.range size).find? (fun e => results.getD e false) with
  | some e => return ⟨some (-1), true, some e⟩
  | none => return ⟨some 0, false, none⟩

/-- IndependenceTest.cpp 35-58 `IndependenceResult` for the metric "g square". -/
def independenceResultMem [Field K] [LinearOrder K] (log : K → K) (pchisq : K → Nat → Option K) (alpha : K) (dims : List Nat)
    (cols : List (List Nat)) (m x y : Nat) (z : List Nat) (size : Nat) : MemM (CIResult K) :=
  if z = [] then gSquareXYMem log pchisq alpha dims cols m x y
  else if size > 1 then gSquareXYZGroupMem log pchisq alpha dims cols m x y z size
  else gSquareXYZMem log pchisq alpha dims cols m x y z

end FastPGM
