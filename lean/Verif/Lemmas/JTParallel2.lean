import Verif.Lemmas.JTParallel
import Verif.Lemmas.JTEvidence
import Verif.Lemmas.NetDims

/-!
The levels of message passing with parallel loops.
-/

namespace FastPGM

open Spec

variable {K : Type}

/-- One separator of a level: `sel` gives the clique whose table is marginalised, `row` the index of each entry. -/
def separatorOp [Zero K] [Add K] [Div K] [DecidableEq K] (sel : JNode → Except Fault JNode) (row : Table K → Table K → Except Fault (List Nat))
    (st : JState K) (x : JNode) : Except Fault (JState K) := do
  let s ← x.sepIdx
  let y ← sel x
  let i ← y.clqIdx
  let S ← rd st.sep s
  let T ← rd st.clq i
  let r ← row S T
  let tmp ← scatterAdd (List.replicate S.size 0) r T.pot T.size
  let pot ← divideEntries S.size tmp S.pot
  let sep ← wr st.sep s { S with pot := pot }
  return { st with sep := sep }

/-- The same for a level with parallel loop `par`. -/
def separatorLevelP [Zero K] [Add K] [Div K] [DecidableEq K] (sel : JNode → Except Fault JNode)
    (par : List (Nat × Table K × Table K) → Par (List (List Nat))) (level : List JNode) (st : JState K) : Par (JState K) := do
  let items ← Par.lift (level.mapM (fun x => do
    let s ← x.sepIdx
    let y ← sel x
    let i ← y.clqIdx
    let S ← rd st.sep s
    let T ← rd st.clq i
    return (s, S, T)))
  let rows ← par items
  let tmps ← Par.lift ((List.zip items rows).mapM (fun ir =>
    scatterAdd (List.replicate ir.1.2.1.size 0) ir.2 ir.1.2.2.pot ir.1.2.2.size))
  let new ← Par.lift ((List.zip items tmps).mapM (fun it => do
    let pot ← divideEntries it.1.2.1.size it.2 it.1.2.1.pot
    return (it.1.1, { it.1.2.1 with pot := pot })))
  let sep ← Par.lift (storeTables st.sep new)
  return { st with sep := sep }

/-- One clique of a level. -/
def cliqueOp [Mul K] (sel : JNode → Except Fault JNode) (row : Table K → Table K → Except Fault (List Nat)) (st : JState K) (x : JNode) :
    Except Fault (JState K) := do
  let i ← x.clqIdx
  let y ← sel x
  let s ← y.sepIdx
  let T ← rd st.clq i
  let S ← rd st.sep s
  let r ← row S T
  let ext ← r.mapM (rd S.pot)
  let pot ← mulEntries T.size T.pot ext
  let clq ← wr st.clq i { T with pot := pot }
  return { st with clq := clq }

/-- The same for a level. -/
def cliqueLevelP [Mul K] (p : Nat) (sel : JNode → Except Fault JNode) (par : List (Nat × Table K × Table K) → Par (List (List Nat)))
    (level : List JNode) (st : JState K) : Par (JState K) := do
  let items ← Par.lift (level.mapM (fun x => do
    let i ← x.clqIdx
    let y ← sel x
    let s ← y.sepIdx
    let T ← rd st.clq i
    let S ← rd st.sep s
    return (i, S, T)))
  let rows ← par items
  let exts ← Par.lift ((List.zip items rows).mapM (fun ir => ir.2.mapM (rd ir.1.2.1.pot)))
  let clq ← parMul p (items.map (·.1)) (items.map (fun it => it.2.2.size)) exts st.clq
  return { st with clq := clq }

/-- What the operation on one separator computes. -/
structure SepStep [Zero K] [Add K] [Div K] [DecidableEq K] (sel : JNode → Except Fault JNode) (row : Table K → Table K → Except Fault (List Nat))
    (st : JState K) (x : JNode) (q : Nat × Table K × Table K × List Nat × List K × List K) : Prop where
  node : x = .sep q.1
  clq : ∃ i, sel x = .ok (.clq i) ∧ st.clq[i]? = some q.2.2.1
  sep : st.sep[q.1]? = some q.2.1
  row : row q.2.1 q.2.2.1 = .ok q.2.2.2.1
  tmp : scatterAdd (List.replicate q.2.1.size 0) q.2.2.2.1 q.2.2.1.pot q.2.2.1.size = .ok q.2.2.2.2.1
  pot : divideEntries q.2.1.size q.2.2.2.2.1 q.2.1.pot = .ok q.2.2.2.2.2

theorem sepIdx_inv {x : JNode} {s : Nat} (h : x.sepIdx = .ok s) : x = .sep s := by
  cases x with
  | sep s' => cases h; rfl
  | clq i => cases h

theorem clqIdx_inv {x : JNode} {s : Nat} (h : x.clqIdx = .ok s) : x = .clq s := by
  cases x with
  | clq s' => cases h; rfl
  | sep i => cases h

theorem forall₂_mem {α β : Type} {R : α → β → Prop} {l : List α} {r : List β} (h : List.Forall₂ R l r) :
    List.Forall₂ (fun x y => R x y ∧ x ∈ l) l r := by
  induction h with
  | nil => exact .nil
  | cons hxy _ ih => exact .cons ⟨hxy, by simp⟩ (ih.imp (fun _ _ h => ⟨h.1, by simp [h.2]⟩))

theorem separatorOp_inv [Zero K] [Add K] [Div K] [DecidableEq K] {sel : JNode → Except Fault JNode}
    {row : Table K → Table K → Except Fault (List Nat)} {st st' : JState K} {x : JNode} (h : separatorOp sel row st x = .ok st') :
    ∃ q, SepStep sel row st x q ∧ st' = { st with sep := st.sep.set q.1 { q.2.1 with pot := q.2.2.2.2.2 } } := by
  unfold separatorOp at h
  obtain ⟨s, h1, h⟩ := bind_eq_ok h
  obtain ⟨y, h2, h⟩ := bind_eq_ok h
  obtain ⟨i, h3, h⟩ := bind_eq_ok h
  obtain ⟨S, h4, h⟩ := bind_eq_ok h
  obtain ⟨T, h5, h⟩ := bind_eq_ok h
  obtain ⟨r, h6, h⟩ := bind_eq_ok h
  obtain ⟨tmp, h7, h⟩ := bind_eq_ok h
  obtain ⟨pot, h8, h⟩ := bind_eq_ok h
  obtain ⟨sep, h9, h⟩ := bind_eq_ok h
  obtain ⟨-, rfl⟩ := wr_inv h9
  cases h
  exact ⟨(s, S, T, r, tmp, pot), ⟨sepIdx_inv h1, ⟨i, by rw [h2, clqIdx_inv h3], rd_eq_ok.mp h5⟩, rd_eq_ok.mp h4, h6, h7, h8⟩, rfl⟩

theorem separatorLevel_inv [Zero K] [Add K] [Div K] [DecidableEq K] {sel : JNode → Except Fault JNode}
    {row : Table K → Table K → Except Fault (List Nat)} {level : List JNode} (hnd : level.Nodup) {st st' : JState K}
    (h : level.foldlM (separatorOp sel row) st = .ok st') :
    ∃ qs, List.Forall₂ (SepStep sel row st) level qs ∧
      ∃ sep, storeTables st.sep (qs.map (fun q => (q.1, { q.2.1 with pot := q.2.2.2.2.2 }))) = .ok sep ∧ st' = { st with sep := sep } := by
  induction level generalizing st with
  | nil => cases h; exact ⟨[], .nil, _, rfl, rfl⟩
  | cons x xs ih =>
    rw [List.foldlM_cons] at h
    obtain ⟨st1, h1, h⟩ := bind_eq_ok h
    obtain ⟨q, hq, rfl⟩ := separatorOp_inv h1
    rw [List.nodup_cons] at hnd
    obtain ⟨qs, hqs, sep, hs, rfl⟩ := ih hnd.2 h
    have hlt := (List.getElem?_eq_some_iff.mp hq.sep).1
    refine ⟨q :: qs, .cons hq ?_, sep, ?_, rfl⟩
    · refine (forall₂_mem hqs).imp ?_
      rintro y q' ⟨hq', hy⟩
      have hne : q.1 ≠ q'.1 := by
        intro e
        apply hnd.1
        rw [hq.node, e, ← hq'.node]
        exact hy
      exact ⟨hq'.node, hq'.clq, by have := hq'.sep; rwa [List.getElem?_set_ne hne] at this, hq'.row, hq'.tmp, hq'.pot⟩
    · rw [List.map_cons, storeTables, List.foldlM_cons, wr_ok hlt, ok_bind]
      exact hs

theorem forall₂_get {α β : Type} {R : α → β → Prop} {l : List α} {r : List β} (h : List.Forall₂ R l r) {i : Nat} {y : β} (hy : r[i]? = some y) :
    ∃ x, l[i]? = some x ∧ R x y := by
  obtain ⟨hi, rfl⟩ := List.getElem?_eq_some_iff.mp hy
  have hi' : i < l.length := by rw [h.length_eq]; exact hi
  exact ⟨l[i], List.getElem?_eq_getElem hi', h.get hi' hi⟩

theorem mapM_of_forall₂ {α β γ : Type} {f : α → Except Fault γ} {g : β → γ} {R : α → β → Prop} {l : List α} {r : List β} (h : List.Forall₂ R l r)
    (hf : ∀ x y, R x y → f x = .ok (g y)) : l.mapM f = .ok (r.map g) := by
  induction h with
  | nil => rfl
  | cons hxy _ ih => rw [List.mapM_cons, hf _ _ hxy, ok_bind, ih]; rfl

theorem separatorLevelP_eq [Zero K] [Add K] [Div K] [DecidableEq K] {sel : JNode → Except Fault JNode}
    {row : Table K → Table K → Except Fault (List Nat)} {par : List (Nat × Table K × Table K) → Par (List (List Nat))} {level : List JNode}
    (hnd : level.Nodup) {st st' : JState K} {P : Table K → Prop} (hP : (∀ T ∈ st.clq, P T) ∧ ∀ T ∈ st.sep, P T)
    (hpar : ∀ items rows, (∀ it ∈ items, P it.2.1 ∧ P it.2.2) → items.mapM (fun it => row it.2.1 it.2.2) = .ok rows → par items = Par.lift (.ok rows))
    (h : level.foldlM (separatorOp sel row) st = .ok st') : separatorLevelP sel par level st = Par.lift (.ok st') := by
  obtain ⟨qs, hqs, sep, hs, rfl⟩ := separatorLevel_inv hnd h
  have e1 : level.mapM (fun x => do
      let s ← x.sepIdx
      let y ← sel x
      let i ← y.clqIdx
      let S ← rd st.sep s
      let T ← rd st.clq i
      return (s, S, T)) = .ok (qs.map (fun q => (q.1, q.2.1, q.2.2.1))) := by
    refine mapM_of_forall₂ hqs ?_
    intro x q hq
    obtain ⟨i, hi, hT⟩ := hq.clq
    rw [hi, hq.node]
    simp only [JNode.sepIdx, JNode.clqIdx, ok_bind, rd_ok hq.sep, rd_ok hT]
    rfl
  have hq : ∀ q ∈ qs, ∃ x, SepStep sel row st x q := by
    intro q hq
    obtain ⟨i, hi⟩ := List.mem_iff_getElem?.mp hq
    obtain ⟨x, -, hx⟩ := forall₂_get hqs hi
    exact ⟨x, hx⟩
  have e2 : par (qs.map (fun q => (q.1, q.2.1, q.2.2.1))) = Par.lift (.ok (qs.map (fun q => q.2.2.2.1))) := by
    refine hpar _ _ ?_ ?_
    · intro it hit
      obtain ⟨q, hm, rfl⟩ := List.mem_map.mp hit
      obtain ⟨x, hx⟩ := hq q hm
      obtain ⟨i, -, hT⟩ := hx.clq
      exact ⟨hP.2 _ (List.mem_of_getElem? hx.sep), hP.1 _ (List.mem_of_getElem? hT)⟩
    · rw [List.mapM_map]
      refine mapM_ok (fun q hm => ?_)
      obtain ⟨x, hx⟩ := hq q hm
      exact hx.row
  have e3 : (List.zip (qs.map (fun q => (q.1, q.2.1, q.2.2.1))) (qs.map (fun q => q.2.2.2.1))).mapM (fun ir =>
      scatterAdd (List.replicate ir.1.2.1.size (0 : K)) ir.2 ir.1.2.2.pot ir.1.2.2.size) = .ok (qs.map (fun q => q.2.2.2.2.1)) := by
    rw [List.zip_map', List.mapM_map]
    refine mapM_ok (fun q hm => ?_)
    obtain ⟨x, hx⟩ := hq q hm
    exact hx.tmp
  have e4 : (List.zip (qs.map (fun q => (q.1, q.2.1, q.2.2.1))) (qs.map (fun q => q.2.2.2.2.1))).mapM (fun it => do
      let pot ← divideEntries it.1.2.1.size it.2 it.1.2.1.pot
      return (it.1.1, { it.1.2.1 with pot := pot })) =
      Except.ok (ε := Fault) (qs.map (fun q => (q.1, { q.2.1 with pot := q.2.2.2.2.2 }))) := by
    rw [List.zip_map', List.mapM_map]
    refine mapM_ok (fun q hm => ?_)
    obtain ⟨x, hx⟩ := hq q hm
    show (divideEntries q.2.1.size q.2.2.2.2.1 q.2.1.pot >>= _) = _
    rw [hx.pot]
    rfl
  rw [separatorLevelP, e1, Par.lift_bind, e2, Par.lift_bind, e3, Par.lift_bind, e4, Par.lift_bind, hs, Par.lift_bind]
  rfl

/-- What the operation on one clique computes. -/
structure ClqStep [Mul K] (sel : JNode → Except Fault JNode) (row : Table K → Table K → Except Fault (List Nat))
    (st : JState K) (x : JNode) (q : Nat × Table K × Table K × List Nat × List K × List K) : Prop where
  node : x = .clq q.1
  sep : ∃ s, sel x = .ok (.sep s) ∧ st.sep[s]? = some q.2.1
  clq : st.clq[q.1]? = some q.2.2.1
  row : row q.2.1 q.2.2.1 = .ok q.2.2.2.1
  ext : q.2.2.2.1.mapM (rd q.2.1.pot) = .ok q.2.2.2.2.1
  pot : mulEntries q.2.2.1.size q.2.2.1.pot q.2.2.2.2.1 = .ok q.2.2.2.2.2

theorem cliqueOp_inv [Mul K] {sel : JNode → Except Fault JNode} {row : Table K → Table K → Except Fault (List Nat)} {st st' : JState K} {x : JNode}
    (h : cliqueOp sel row st x = .ok st') :
    ∃ q, ClqStep sel row st x q ∧ st' = { st with clq := st.clq.set q.1 { q.2.2.1 with pot := q.2.2.2.2.2 } } := by
  unfold cliqueOp at h
  obtain ⟨i, h1, h⟩ := bind_eq_ok h
  obtain ⟨y, h2, h⟩ := bind_eq_ok h
  obtain ⟨s, h3, h⟩ := bind_eq_ok h
  obtain ⟨T, h4, h⟩ := bind_eq_ok h
  obtain ⟨S, h5, h⟩ := bind_eq_ok h
  obtain ⟨r, h6, h⟩ := bind_eq_ok h
  obtain ⟨ext, h7, h⟩ := bind_eq_ok h
  obtain ⟨pot, h8, h⟩ := bind_eq_ok h
  obtain ⟨clq, h9, h⟩ := bind_eq_ok h
  obtain ⟨-, rfl⟩ := wr_inv h9
  cases h
  exact ⟨(i, S, T, r, ext, pot), ⟨clqIdx_inv h1, ⟨s, by rw [h2, sepIdx_inv h3], rd_eq_ok.mp h5⟩, rd_eq_ok.mp h4, h6, h7, h8⟩, rfl⟩

theorem cliqueLevel_inv [Mul K] {sel : JNode → Except Fault JNode} {row : Table K → Table K → Except Fault (List Nat)} {level : List JNode}
    (hnd : level.Nodup) {st st' : JState K} (h : level.foldlM (cliqueOp sel row) st = .ok st') :
    ∃ qs, List.Forall₂ (ClqStep sel row st) level qs ∧
      ∃ clq, storeTables st.clq (qs.map (fun q => (q.1, { q.2.2.1 with pot := q.2.2.2.2.2 }))) = .ok clq ∧ st' = { st with clq := clq } := by
  induction level generalizing st with
  | nil => cases h; exact ⟨[], .nil, _, rfl, rfl⟩
  | cons x xs ih =>
    rw [List.foldlM_cons] at h
    obtain ⟨st1, h1, h⟩ := bind_eq_ok h
    obtain ⟨q, hq, rfl⟩ := cliqueOp_inv h1
    rw [List.nodup_cons] at hnd
    obtain ⟨qs, hqs, clq, hs, rfl⟩ := ih hnd.2 h
    have hlt := (List.getElem?_eq_some_iff.mp hq.clq).1
    refine ⟨q :: qs, .cons hq ?_, clq, ?_, rfl⟩
    · refine (forall₂_mem hqs).imp ?_
      rintro y q' ⟨hq', hy⟩
      have hne : q.1 ≠ q'.1 := by
        intro e
        apply hnd.1
        rw [hq.node, e, ← hq'.node]
        exact hy
      exact ⟨hq'.node, hq'.sep, by have := hq'.clq; rwa [List.getElem?_set_ne hne] at this, hq'.row, hq'.ext, hq'.pot⟩
    · rw [List.map_cons, storeTables, List.foldlM_cons, wr_ok hlt, ok_bind]
      exact hs

theorem forall₂_nodup {level : List JNode} {β : Type} {R : JNode → Nat × β → Prop} {qs : List (Nat × β)} (h : List.Forall₂ R level qs)
    (hR : ∀ x q, R x q → x = .clq q.1) (hnd : level.Nodup) : (qs.map (·.1)).Nodup := by
  have e : level = qs.map (fun q => JNode.clq q.1) := by
    induction h with
    | nil => rfl
    | cons hxy _ ih => rw [List.map_cons, ← hR _ _ hxy, ← ih (List.nodup_cons.mp hnd).2]
  rw [e] at hnd
  have : qs.map (fun q => JNode.clq q.1) = (qs.map (·.1)).map JNode.clq := by rw [List.map_map]; rfl
  rw [this] at hnd
  exact hnd.of_map _

theorem cliqueLevelP_eq [Mul K] {p : Nat} (hp : 0 < p) {sel : JNode → Except Fault JNode} {row : Table K → Table K → Except Fault (List Nat)}
    {par : List (Nat × Table K × Table K) → Par (List (List Nat))} {level : List JNode} (hnd : level.Nodup) {st st' : JState K} {P : Table K → Prop}
    (hP : (∀ T ∈ st.clq, P T) ∧ ∀ T ∈ st.sep, P T) (hlen : ∀ T, P T → T.pot.length = T.size)
    (hpar : ∀ items rows, (∀ it ∈ items, P it.2.1 ∧ P it.2.2) → items.mapM (fun it => row it.2.1 it.2.2) = .ok rows → par items = Par.lift (.ok rows))
    (h : level.foldlM (cliqueOp sel row) st = .ok st') : cliqueLevelP p sel par level st = Par.lift (.ok st') := by
  obtain ⟨qs, hqs, clq, hs, rfl⟩ := cliqueLevel_inv hnd h
  have e1 : level.mapM (fun x => do
      let i ← x.clqIdx
      let y ← sel x
      let s ← y.sepIdx
      let T ← rd st.clq i
      let S ← rd st.sep s
      return (i, S, T)) = .ok (qs.map (fun q => (q.1, q.2.1, q.2.2.1))) := by
    refine mapM_of_forall₂ hqs ?_
    intro x q hq
    obtain ⟨i, hi, hT⟩ := hq.sep
    rw [hi, hq.node]
    simp only [JNode.sepIdx, JNode.clqIdx, ok_bind, rd_ok hq.clq, rd_ok hT]
    rfl
  have hq : ∀ q ∈ qs, ∃ x, ClqStep sel row st x q := by
    intro q hq
    obtain ⟨i, hi⟩ := List.mem_iff_getElem?.mp hq
    obtain ⟨x, -, hx⟩ := forall₂_get hqs hi
    exact ⟨x, hx⟩
  have e2 : par (qs.map (fun q => (q.1, q.2.1, q.2.2.1))) = Par.lift (.ok (qs.map (fun q => q.2.2.2.1))) := by
    refine hpar _ _ ?_ ?_
    · intro it hit
      obtain ⟨q, hm, rfl⟩ := List.mem_map.mp hit
      obtain ⟨x, hx⟩ := hq q hm
      obtain ⟨i, -, hT⟩ := hx.sep
      exact ⟨hP.2 _ (List.mem_of_getElem? hT), hP.1 _ (List.mem_of_getElem? hx.clq)⟩
    · rw [List.mapM_map]
      refine mapM_ok (fun q hm => ?_)
      obtain ⟨x, hx⟩ := hq q hm
      exact hx.row
  have e3 : (List.zip (qs.map (fun q => (q.1, q.2.1, q.2.2.1))) (qs.map (fun q => q.2.2.2.1))).mapM (fun ir =>
      ir.2.mapM (rd ir.1.2.1.pot)) = .ok (qs.map (fun q => q.2.2.2.2.1)) := by
    rw [List.zip_map', List.mapM_map]
    refine mapM_ok (fun q hm => ?_)
    obtain ⟨x, hx⟩ := hq q hm
    exact hx.ext
  have e4 : parMul p ((qs.map (fun q => (q.1, q.2.1, q.2.2.1))).map (·.1)) ((qs.map (fun q => (q.1, q.2.1, q.2.2.1))).map (fun it => it.2.2.size))
      (qs.map (fun q => q.2.2.2.2.1)) st.clq = Par.lift (.ok clq) := by
    rw [← hs]
    refine parMul_eq hp ?_ (by simp) ?_ ?_
    · rw [List.map_map]
      exact forall₂_nodup hqs (fun x q h => h.node) hnd
    · rw [List.map_map, List.map_map]; rfl
    · intro j c hc
      simp only [List.map_map, List.getElem?_map, Option.map_eq_some_iff, Function.comp] at hc
      obtain ⟨q, hj, rfl⟩ := hc
      obtain ⟨x, hx⟩ := hq q (List.mem_of_getElem? hj)
      exact ⟨q.2.2.1, q.2.2.2.2.1, q.2.2.2.2.2, hx.clq, by simp [hj], hlen _ (hP.1 _ (List.mem_of_getElem? hx.clq)), by simp [hj], hx.pot, by simp [hj]⟩
  rw [cliqueLevelP, e1, Par.lift_bind, e2, Par.lift_bind, e3, Par.lift_bind, e4, Par.lift_bind]
  rfl

/-! Message passing keeps the tables well-formed. -/

theorem divideEntries_length [Div K] [Zero K] [DecidableEq K] {n : Nat} {tmp old r : List K} (h : divideEntries n tmp old = .ok r) : r.length = old.length := by
  refine foldlM_range_inv (fun _ (r : List K) => r.length = old.length) h rfl ?_
  intro i _ b b' hb hf
  obtain ⟨o, -, hf⟩ := bind_eq_ok hf
  split at hf
  · obtain ⟨-, rfl⟩ := wr_inv hf; simpa using hb
  · obtain ⟨t, -, hf⟩ := bind_eq_ok hf
    obtain ⟨-, rfl⟩ := wr_inv hf; simpa using hb

theorem wellFormed_pot {card : Nat → Nat} {T : Table K} (h : WellFormed card T) {pot : List K} (hl : pot.length = T.pot.length) :
    WellFormed card { T with pot := pot } :=
  ⟨h.nodup, h.pos, h.dims, h.cum, h.cum_length, h.size, hl.trans h.length⟩

theorem foldlM_inv {α β : Type} {f : β → α → Except Fault β} (P : β → Prop) {l : List α} {b r : β} (h : l.foldlM f b = .ok r) (h0 : P b)
    (hs : ∀ b x b', P b → f b x = .ok b' → P b') : P r := by
  induction l generalizing b with
  | nil => cases h; exact h0
  | cons x xs ih =>
    rw [List.foldlM_cons] at h
    obtain ⟨b1, h1, h⟩ := bind_eq_ok h
    exact ih h (hs _ _ _ h0 h1)

theorem mem_set_or {α : Type} {l : List α} {i : Nat} {a x : α} (h : x ∈ l.set i a) : x ∈ l ∨ x = a := List.mem_or_eq_of_mem_set h

theorem separatorOp_wf [Zero K] [Add K] [Div K] [DecidableEq K] {sel : JNode → Except Fault JNode}
    {row : Table K → Table K → Except Fault (List Nat)} {card : Nat → Nat} {st st' : JState K} {x : JNode} (hst : StateWF card st)
    (h : separatorOp sel row st x = .ok st') : StateWF card st' := by
  obtain ⟨q, hq, rfl⟩ := separatorOp_inv h
  refine ⟨hst.1, fun T hT => ?_⟩
  rcases mem_set_or hT with hT | rfl
  · exact hst.2 T hT
  · exact wellFormed_pot (hst.2 _ (List.mem_of_getElem? hq.sep)) (divideEntries_length hq.pot)

theorem cliqueOp_wf [Mul K] {sel : JNode → Except Fault JNode}
    {row : Table K → Table K → Except Fault (List Nat)} {card : Nat → Nat} {st st' : JState K} {x : JNode} (hst : StateWF card st)
    (h : cliqueOp sel row st x = .ok st') : StateWF card st' := by
  obtain ⟨q, hq, rfl⟩ := cliqueOp_inv h
  refine ⟨fun T hT => ?_, hst.2⟩
  rcases mem_set_or hT with hT | rfl
  · exact hst.1 T hT
  · exact wellFormed_pot (hst.1 _ (List.mem_of_getElem? hq.clq)) (mulEntries_inv hq.pot).1

end FastPGM
