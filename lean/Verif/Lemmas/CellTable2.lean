import Verif.Lemmas.CellTable
import Verif.Spec.CellTable

/-!
Helper lemmas for `Verif.Model.CellTable`: the filled tables in closed form.
-/

namespace FastPGM

open Spec

/-- A loop over the instance numbers is a loop over the rows. -/
theorem foldlM_rows {ε α β : Type} {rows : List α} {f : β → Nat → Except ε β} {g : β → α → Except ε β} {c : β}
    (h : ∀ c, ∀ (k : Nat) r, rows[k]? = some r → f c k = g c r) : (List.range rows.length).foldlM f c = rows.foldlM g c := by
  have key : ∀ (l : List α) (n : Nat) (c : β), (∀ c, ∀ (k : Nat) r, l[k]? = some r → f c (n + k) = g c r) →
      (List.range' n l.length).foldlM f c = l.foldlM g c := by
    intro l
    induction l with
    | nil => intro n c _; rfl
    | cons r l ih =>
      intro n c h
      rw [List.length_cons, List.range'_succ, List.foldlM_cons, List.foldlM_cons, ← h c 0 r rfl]
      congr 1
      funext c'
      exact ih (n + 1) c' (fun c k r hr => by
        rw [← h c (k + 1) r (by simpa using hr)]; congr 1; omega)
  rw [List.range_eq_range']
  exact key rows 0 c (fun c k r hr => by simpa using h c k r hr)

/-- The variables `vs` of the rows are stored in the columns, with legal values. -/
structure ColsFor (card : Nat → Nat) (cols : List (List Nat)) (rows : List Assignment) (vs : List Nat) : Prop where
  get : ∀ v ∈ vs, ∀ (k : Nat) r, rows[k]? = some r → cell cols v k = .ok (r v)
  lt : ∀ r ∈ rows, InRange card vs r

theorem Columns.for {card : Nat → Nat} {numVars : Nat} {cols : List (List Nat)} {rows : List Assignment}
    (h : Columns card numVars cols rows) {vs : List Nat} (hv : ∀ v ∈ vs, v < numVars) : ColsFor card cols rows vs := by
  constructor
  · intro v hvv k r hr
    obtain ⟨col, h1, h2⟩ := h.get v (hv v hvv)
    exact cell_eq h1 (h2 k r hr)
  · intro r hr v hvv
    exact h.lt r hr v (hv v hvv)

theorem ColsFor.mono {card : Nat → Nat} {cols : List (List Nat)} {rows : List Assignment} {vs ws : List Nat}
    (h : ColsFor card cols rows vs) (hw : ∀ v ∈ ws, v ∈ vs) : ColsFor card cols rows ws :=
  ⟨fun v hv => h.get v (hw v hv), fun r hr v hv => h.lt r hr v (hw v hv)⟩

/-- Number of the configuration of `z` in a row. -/
def zOf (card : Nat → Nat) (z : List Nat) (r : Assignment) : Nat := rank (z.map card) (z.map r)

theorem zOf_lt {card : Nat → Nat} {z : List Nat} {r : Assignment} (h : InRange card z r) : zOf card z r < (z.map card).prod :=
  rank_lt (cfgIn_map h)

theorem counts3D_eq {card : Nat → Nat} {cols : List (List Nat)} {rows : List Assignment} {x y : Nat} {z : List Nat} (hz : z ≠ [])
    (h : ColsFor card cols rows (z ++ [x, y])) :
    counts3D cols rows.length (card x) (card y) x y (z.map card) z =
      .ok (margTables rows (fun r => r x) (fun r => r y) (zOf card z) (card x) (card y) (z.map card).prod, (z.map card).prod) := by
  have hX : ∀ r ∈ rows, r x < card x := fun r hr => h.lt r hr x (by simp)
  have hY : ∀ r ∈ rows, r y < card y := fun r hr => h.lt r hr y (by simp)
  have hZ : ∀ r ∈ rows, zOf card z r < (z.map card).prod := fun r hr => zOf_lt (fun v hv => h.lt r hr v (by simp [hv]))
  unfold counts3D
  rw [cumLevels3D_eq (by simpa using hz), ok_bind]
  simp only
  have hc : countLevel cols rows.length (card x) (card y) x y z (cumLevels (z.map card)).dropLast
      (Counts.zero (card x) (card y) (z.map card).prod).n =
      .ok (tab ((z.map card).prod * card x * card y)
        (fun c => rows.countP (fun r => itemPos (fun r : Assignment => r x) (fun r => r y) (zOf card z) (card x) (card y) r = c))) := by
    unfold countLevel
    rw [foldlM_rows (g := fun n r => incr n (itemPos (fun r : Assignment => r x) (fun r => r y) (zOf card z) (card x) (card y) r))]
    · simp only [Counts.zero]
      rw [replicate_eq_tab, incr_items (t := itemPos (fun r : Assignment => r x) (fun r => r y) (zOf card z) (card x) (card y)) (fun r hr => pos_lt (hZ r hr) (hX r hr) (hY r hr)) (fun _ _ _ => rfl)]
      simp
    · intro n k r hr
      rw [h.get x (by simp) k r hr, ok_bind, h.get y (by simp) k r hr, ok_bind,
        zIndex_eq hz (fun v hv => h.get v (by simp [hv]) k r hr), ok_bind]
      simp only [itemPos, zOf, Nat.add_mul]
  rw [hc, ok_bind]
  have := fillMarginals_eq hX hY hZ
  rw [margState_zero] at this
  rw [this, ok_bind]
  rfl

theorem counts2D_eq {card : Nat → Nat} {cols : List (List Nat)} {rows : List Assignment} {x y : Nat}
    (h : ColsFor card cols rows [x, y]) :
    counts2D cols rows.length (card x) (card y) x y =
      .ok { margTables rows (fun r => r x) (fun r => r y) (fun _ => 0) (card x) (card y) 1 with nk := [] } := by
  have hX : ∀ r ∈ rows, r x < card x := fun r hr => h.lt r hr x (by simp)
  have hY : ∀ r ∈ rows, r y < card y := fun r hr => h.lt r hr y (by simp)
  have hin : ∀ i < card x, ∀ j < card y, ∀ r ∈ rows, r x * card y + r y = i * card y + j → r x = i ∧ r y = j := by
    intro i hi j hj r hr e
    have := itemPos_inj (k := 0) (k' := 0) (hX r hr) (hY r hr) hi hj (by simpa using e)
    exact this.2
  unfold counts2D
  rw [foldlM_rows (g := fun n r => incr n (r x * card y + r y))]
  · rw [replicate_eq_tab, incr_items (t := fun r : Assignment => r x * card y + r y)
      (fun r hr => pos_lt2 (hX r hr) (hY r hr)) (fun _ _ _ => rfl), ok_bind]
    let s : Nat → Counts := fun P =>
      ⟨tab (card x * card y) (fun c => 0 + rows.countP (fun r => r x * card y + r y = c)),
       tab (card x) (fun c => rows.countP (fun r => r x * card y + r y < P ∧ r x = c)),
       tab (card y) (fun c => rows.countP (fun r => r x * card y + r y < P ∧ r y = c)), []⟩
    have key := foldlM_range_eq (n := card x) (s := fun i => s (i * card y))
      (f := fun t i => (List.range (card y)).foldlM (fun t j => do
        let o ← rd t.n (i * card y + j)
        let ni ← addAt t.ni i o
        let nj ← addAt t.nj j o
        return { t with ni := ni, nj := nj }) t) ?_
    · rw [show (⟨tab (card x * card y) (fun c => 0 + rows.countP (fun r => r x * card y + r y = c)), List.replicate (card x) 0,
          List.replicate (card y) 0, []⟩ : Counts) = s (0 * card y) by simp [s, replicate_eq_tab]]
      refine key.trans ?_
      have hlt : ∀ r ∈ rows, r x * card y + r y < card x * card y := fun r hr => pos_lt2 (hX r hr) (hY r hr)
      simp only [s, margTables, itemPos, Nat.zero_mul, Nat.zero_add, Nat.one_mul]
      congr 2
      · apply tab_congr
        intro c _
        apply List.countP_congr
        intro r hr
        simp [hlt r hr]
      · apply tab_congr
        intro c _
        apply List.countP_congr
        intro r hr
        simp [hlt r hr]
    · intro i hi
      have h2 := foldlM_range_eq (n := card y) (s := fun j => s (i * card y + j))
        (f := fun t j => do
          let o ← rd t.n (i * card y + j)
          let ni ← addAt t.ni i o
          let nj ← addAt t.nj j o
          return { t with ni := ni, nj := nj }) ?_
      · refine h2.trans ?_
        simp only [Nat.succ_mul]
      · intro j hj
        simp only [s]
        rw [rd_tab (pos_lt2 hi hj), ok_bind, addAt_tab hi, ok_bind, addAt_tab hj, ok_bind]
        show Except.ok _ = Except.ok _
        congr 2
        · apply tab_congr
          intro c _
          rw [Nat.zero_add, show i * card y + (j + 1) = i * card y + j + 1 by omega,
            countP_split (P := fun r : Assignment => r x * card y + r y) (A := fun r => r x) (b := i)]
          intro r hr e
          exact (hin i hi j hj r hr e).1
        · apply tab_congr
          intro c _
          rw [Nat.zero_add, show i * card y + (j + 1) = i * card y + j + 1 by omega,
            countP_split (P := fun r : Assignment => r x * card y + r y) (A := fun r => r y) (b := j)]
          intro r hr e
          exact (hin i hi j hj r hr e).2
  · intro n k r hr
    rw [h.get x (by simp) k r hr, ok_bind, h.get y (by simp) k r hr, ok_bind]

end FastPGM
