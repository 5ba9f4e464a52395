import Verif.Model.SaveFiles
import Verif.Spec.SaveFiles
import Verif.Lemmas.Compare2
import Verif.Lemmas.Dataset
import Verif.Lemmas.Table

/-!
The texts of the files that learning writes.
-/

namespace FastPGM

open Spec

theorem nodeText_eq {names : List Str} {i : Nat} (h : i < names.length) : nodeText names i = .ok (nodeLabel names i) := by
  unfold nodeText nodeLabel
  rw [rd_getElem h, ok_bind, List.getD_eq_getElem?_getD, List.getElem?_eq_getElem h]
  rfl

section structureFile

variable {names : List Str}

/-- The text of edges whose numbers start at `k`. -/
def edgesText (names : List Str) (k : Nat) (es : List (Nat × Nat × Bool)) : Str := textOf (es.mapIdx (fun j e => edgeLine names e (k + j)))

theorem edgesText_nil (k : Nat) : edgesText names k [] = [] := rfl

theorem edgesText_append (k : Nat) (es fs : List (Nat × Nat × Bool)) :
    edgesText names k (es ++ fs) = edgesText names k es ++ edgesText names (k + es.length) fs := by
  unfold edgesText
  rw [List.mapIdx_append, textOf_append]
  congr 3
  funext j e
  congr 1
  omega

theorem edgesText_single (k : Nat) (e : Nat × Nat × Bool) : edgesText names k [e] = edgeLine names e k ++ [10] := by
  unfold edgesText
  simp [textOf]

theorem saveChild_eq {x c : Nat} (hx : x < names.length) (hc : c < names.length) (out : Str) (k : Nat) :
    saveChild names x (out, k) c = .ok (out ++ edgesText names k [(x, c, true)], k + 1) := by
  unfold saveChild
  simp only [nodeText_eq hx, nodeText_eq hc, ok_bind, pure_eq_ok, edgesText_single]
  unfold edgeLine
  simp [List.append_assoc]

theorem saveChildren_eq {x : Nat} (hx : x < names.length) : ∀ (cs : List Nat), (∀ c ∈ cs, c < names.length) → ∀ (out : Str) (k : Nat),
    cs.foldlM (saveChild names x) (out, k) = .ok (out ++ edgesText names k (cs.map (fun c => (x, c, true))), k + cs.length) := by
  intro cs
  induction cs with
  | nil => intro _ out k; simp [edgesText_nil, pure_eq_ok]
  | cons c cs ih =>
    intro h out k
    rw [List.foldlM_cons, saveChild_eq hx (h c (by simp)), ok_bind, ih (fun d hd => h d (by simp [hd]))]
    rw [List.map_cons, show (x, c, true) :: cs.map (fun c => (x, c, true)) = [(x, c, true)] ++ cs.map (fun c => (x, c, true)) from rfl,
      edgesText_append, List.append_assoc, List.length_cons]
    rw [show k + 1 + cs.length = k + (cs.length + 1) by omega]
    rfl

/-- The arrows in the order of the file. -/
def arrowsOf (N : Net) (T : List Nat) : List (Nat × Nat × Bool) := T.flatMap (fun x => (N.ch x).map (fun c => (x, c, true)))

theorem saveNodes_eq {N : Net} (hlen : names.length = N.nodes.length) (hch : ∀ x, ∀ c ∈ N.ch x, c < N.nodes.length) : ∀ (T : List Nat),
    (∀ x ∈ T, x < N.nodes.length) → ∀ (out : Str) (k : Nat), T.foldlM (fun st x => (do
      let s ← N.find x
      s.children.foldlM (saveChild names x) st : Except Fault (Str × Nat))) (out, k) =
        .ok (out ++ edgesText names k (arrowsOf N T), k + (arrowsOf N T).length) := by
  intro T
  induction T with
  | nil => intro _ out k; simp [arrowsOf, edgesText_nil, pure_eq_ok]
  | cons x T ih =>
    intro h out k
    have hx := h x (by simp)
    have hs : N.find x = .ok N.nodes[x] := by
      unfold Net.find
      rw [List.getElem?_eq_getElem hx]
    have hc : N.ch x = (N.nodes[x]).children := by
      unfold Net.ch
      rw [List.getElem?_eq_getElem hx]
      rfl
    rw [List.foldlM_cons, hs, ok_bind, saveChildren_eq (by omega) _ (fun c hcm => by rw [hlen]; exact hch x c (hc ▸ hcm)), ok_bind,
      ih (fun y hy => h y (by simp [hy]))]
    unfold arrowsOf
    rw [List.flatMap_cons, edgesText_append, hc]
    simp only [List.append_assoc, List.length_append, List.length_map]
    congr 2
    omega

/-- What a line says about an edge. -/
def edgeTriple (e : Edge) : Nat × Nat × Bool :=
  if ¬ e.isDirected then (e.node1, e.node2, false) else if e.end1 = .tail then (e.node1, e.node2, true) else (e.node2, e.node1, true)

theorem saveEdge_eq {edges : List Edge} {i : Nat} (hi : i < edges.length) (h1 : edges[i].node1 < names.length) (h2 : edges[i].node2 < names.length)
    (out : Str) : saveEdge names edges out i = .ok (out ++ edgesText names i [edgeTriple edges[i]]) := by
  unfold saveEdge
  rw [show rdAt edges i = .ok edges[i] by unfold rdAt; rw [List.getElem?_eq_getElem hi], ok_bind, edgesText_single]
  unfold edgeTriple edgeLine
  split
  · simp [nodeText_eq h1, nodeText_eq h2, pure_eq_ok, ok_bind, List.append_assoc]
  · split
    · simp [nodeText_eq h1, nodeText_eq h2, pure_eq_ok, ok_bind, List.append_assoc]
    · simp [nodeText_eq h1, nodeText_eq h2, pure_eq_ok, ok_bind, List.append_assoc]

theorem saveEdges_eq {edges : List Edge} (h : ∀ e ∈ edges, e.node1 < names.length ∧ e.node2 < names.length) (out : Str) : ∀ m ≤ edges.length,
    (List.range m).foldlM (saveEdge names edges) out = .ok (out ++ edgesText names 0 ((edges.take m).map edgeTriple)) := by
  intro m
  induction m with
  | zero => intro _; simp [edgesText_nil, pure_eq_ok]
  | succ m ih =>
    intro hm
    rw [List.range_succ, List.foldlM_append, ih (by omega), ok_bind, List.foldlM_cons,
      saveEdge_eq (by omega) (h _ (List.getElem_mem _)).1 (h _ (List.getElem_mem _)).2, ok_bind, List.foldlM_nil]
    rw [List.take_add_one, List.getElem?_eq_getElem (by omega), Option.toList_some, List.map_append, edgesText_append]
    simp only [pure_eq_ok, List.append_assoc, List.length_map, List.length_take, List.map_cons, List.map_nil]
    rw [show 0 + min m edges.length = m by omega]

theorem structureText_eq (nodes numEdges : Nat) (es : List (Nat × Nat × Bool)) :
    structureText names nodes numEdges es = structureHead nodes numEdges ++ [10] ++ edgesText names 0 es := by
  unfold structureText edgesText
  rw [textOf_cons]
  simp

end structureFile

section parameterFile

theorem configsOf_eq (ds : List Nat) : configsOf ds = (List.range ds.prod).map (digits ds) := by
  induction ds with
  | nil => rfl
  | cons d ds ih =>
    unfold configsOf
    rw [ih, List.prod_cons]
    induction d with
    | zero => simp
    | succ d ihd =>
      rw [List.range_succ, List.flatMap_append, ihd, Nat.succ_mul, List.range_add, List.map_append]
      congr 1
      rw [List.flatMap_cons, List.flatMap_nil, List.append_nil, List.map_map, List.map_map]
      refine List.map_congr_left (fun j hj => ?_)
      have hj := List.mem_range.1 hj
      have hp : 0 < ds.prod := by omega
      simp only [Function.comp, digits]
      rw [Nat.mul_comm d, Nat.mul_add_div hp, Nat.mul_add_mod, Nat.div_eq_of_lt hj, Nat.mod_eq_of_lt hj, Nat.add_zero]

theorem valueName_eq {m : List (Str × Int)} {values : List Str} {d x : Nat} (h : NamesValues m values d) (hx : x < d) :
    valueName m x = .ok (values.getD x []) := by
  unfold valueName
  have hmem := (h.2 x hx _).2 rfl
  cases e : m.find? (fun p => p.2 = (x : Int)) with
  | none => exact absurd (List.find?_eq_none.1 e _ hmem) (by simp)
  | some p =>
    have h2 : p.2 = (x : Int) := by simpa using List.find?_some e
    have h3 := (h.2 x hx p.1).1 (by rw [← h2]; exact List.mem_of_find?_eq_some e)
    simp only [h3]

variable {K : Type} [Zero K] {names : List Str} {ids : List (List (Str × Int))} {values : Nat → List Str} {card : Nat → Nat}

theorem valueText_eq (hl : ∀ v < names.length, ∃ m, ids[v]? = some m ∧ NamesValues m (values v) (card v)) {v x : Nat} (hv : v < names.length)
    (hx : x < card v) : valueText names ids v x = .ok (valueLabel names values v x) := by
  obtain ⟨m, h1, h2⟩ := hl v hv
  unfold valueText valueLabel
  rw [nodeText_eq hv, ok_bind, rd_ok h1, ok_bind, valueName_eq h2 hx]
  rfl

theorem intercalate_pop {cells : List Str} (h : cells ≠ []) (pre : Str) :
    (popBack (pre ++ cells.flatMap (fun v => v ++ lit ", ")) >>= popBack) = .ok (pre ++ List.intercalate (lit ", ") cells) := by
  have e : cells.flatMap (fun v => v ++ lit ", ") = List.intercalate (lit ", ") cells ++ [44, 32] := by
    induction cells with
    | nil => exact absurd rfl h
    | cons c cells ih =>
      by_cases hc : cells = []
      · subst hc
        simp [List.intercalate, show lit ", " = [44, 32] by decide]
      · rw [List.flatMap_cons, ih hc]
        obtain ⟨c', cs, rfl⟩ := List.exists_cons_of_ne_nil hc
        simp [List.intercalate]
  rw [e]
  have e2 : pre ++ (List.intercalate (lit ", ") cells ++ [44, 32]) = (pre ++ List.intercalate (lit ", ") cells ++ [44]) ++ [32] := by simp
  rw [e2]
  generalize pre ++ List.intercalate (lit ", ") cells = t
  unfold popBack
  rw [if_neg (by simp), List.dropLast_concat, ok_bind, if_neg (by simp), List.dropLast_concat]

theorem foldlM_texts {α : Type} (f : α → Except Fault Str) (g : α → Str) : ∀ (l : List α), (∀ a ∈ l, f a = .ok (g a)) → ∀ out : Str,
    l.foldlM (fun s a => (do return s ++ (← f a) ++ lit ", " : Except Fault Str)) out = .ok (out ++ (l.map g).flatMap (fun v => v ++ lit ", ")) := by
  intro l
  induction l with
  | nil => intro _ out; simp [pure_eq_ok]
  | cons a l ih =>
    intro h out
    rw [List.foldlM_cons, h a (by simp), ok_bind, pure_eq_ok, ok_bind, ih (fun b hb => h b (by simp [hb]))]
    simp

theorem saveEntry_eq (fmt : K → Str) (hl : ∀ v < names.length, ∃ m, ids[v]? = some m ∧ NamesValues m (values v) (card v)) {i : Nat} {T : Table K}
    (hT : WellFormed card T) {ps : List Nat} (hvars : T.vars = i :: ps) (hin : ∀ v ∈ T.vars, v < names.length) (out : Str) {j : Nat} (hj : j < T.size) :
    saveEntry fmt names ids i T out j = .ok (out ++
      parameterLine names values i T.vars.tail (digits T.dims j) (fmt (value T (ofConfig T.vars (digits T.dims j)))) ++ [10]) := by
  have hpos : ∀ d ∈ T.dims, 0 < d := by
    rw [hT.dims]
    intro d hd
    obtain ⟨v, hv, rfl⟩ := List.mem_map.1 hd
    exact hT.pos v hv
  have hj' : j < T.dims.prod := by rw [← hT.size]; exact hj
  have hlen : T.dims.length = T.vars.length := by rw [hT.dims, List.length_map]
  have hcfg := digits_in hj'
  have hdl : (digits T.dims j).length = T.vars.length := by rw [digits_length, hlen]
  have hpot : rd T.pot j = .ok (value T (ofConfig T.vars (digits T.dims j))) := by
    have hasg : T.vars.map (ofConfig T.vars (digits T.dims j)) = digits T.dims j := by
      apply List.ext_getElem (by simp [hlen])
      intro k h1 h2
      rw [List.length_map] at h1
      rw [List.getElem_map]
      unfold ofConfig
      rw [hT.nodup.idxOf_getElem k h1, List.getD_eq_getElem?_getD, List.getElem?_eq_getElem h2]
      rfl
    unfold value
    rw [hasg, rank_digits hj']
    have : j < T.pot.length := by rw [hT.length]; exact hj
    rw [rd_getElem this, List.getD_eq_getElem?_getD, List.getElem?_eq_getElem this]
    rfl
  have hcv : ∀ k (hk : k < T.vars.length), (digits T.dims j).getD k 0 < card (T.vars[k]) := by
    intro k hk
    have h2 : k < (digits T.dims j).length := by omega
    have := (List.forall₂_iff_get.1 hcfg).2 k h2 (by omega)
    rw [List.getD_eq_getElem?_getD, List.getElem?_eq_getElem h2]
    simpa [hT.dims] using this
  have hcum : T.cum = cumLevels T.dims := eq_cumLevels (by rw [hT.cum_length, hlen]) (by rw [hlen]; exact hT.cum)
  unfold saveEntry parameterLine
  by_cases h1 : T.vars.length = 1
  · have hps : ps = [] := by
      rw [hvars] at h1
      simpa using h1
    subst hps
    have hd : digits T.dims j = [j] := by
      rw [hT.dims, hvars]
      simp [digits]
    rw [if_pos h1, valueText_eq hl (hin i (by rw [hvars]; simp)) (x := j), ok_bind, hpot, ok_bind, hvars]
    · rw [hd]
      simp [pure_eq_ok]
    · have := hcv 0 (by omega)
      simpa [hd, hvars] using this
  · have hps : ps ≠ [] := by
      rintro rfl
      rw [hvars] at h1
      exact h1 rfl
    have hv0 : valueText names ids i ((digits T.dims j).getD 0 0) = .ok (valueLabel names values i ((digits T.dims j).getD 0 0)) := by
      refine valueText_eq hl (hin i (by rw [hvars]; simp)) ?_
      have := hcv 0 (by rw [hvars]; simp)
      simpa [hvars] using this
    have h0 : rd (digits T.dims j) 0 = .ok ((digits T.dims j).getD 0 0) := by
      have : 0 < (digits T.dims j).length := by rw [hdl, hvars]; simp
      rw [rd_getElem this, List.getD_eq_getElem?_getD, List.getElem?_eq_getElem this]
      rfl
    have hfold : ((List.range T.vars.length).drop 1).foldlM (fun s k => (do
        return s ++ (← valueText names ids (← rd T.vars k) (← rd (digits T.dims j) k)) ++ lit ", " : Except Fault Str)) ([] : Str) =
        .ok (((List.range ps.length).map (fun k => valueLabel names values (ps.getD k 0) ((digits T.dims j).getD (k + 1) 0))).flatMap
          (fun v => v ++ lit ", ")) := by
      have hr : (List.range T.vars.length).drop 1 = (List.range ps.length).map (· + 1) := by
        rw [hvars, List.length_cons, List.range_succ_eq_map]
        rfl
      rw [hr, List.foldlM_map]
      have := foldlM_texts (fun k : Nat => (do valueText names ids (← rd T.vars (k + 1)) (← rd (digits T.dims j) (k + 1)) : Except Fault Str))
        (fun k => valueLabel names values (ps.getD k 0) ((digits T.dims j).getD (k + 1) 0)) (List.range ps.length) (by
          intro k hk
          have hk := List.mem_range.1 hk
          have hk1 : k + 1 < T.vars.length := by rw [hvars]; simpa using hk
          have hk2 : k + 1 < (digits T.dims j).length := by omega
          have hc := hcv (k + 1) hk1
          have e1 : T.vars[k + 1] = ps.getD k 0 := by
            rw [List.getD_eq_getElem?_getD, List.getElem?_eq_getElem hk]
            simp [hvars]
          have e2 : rd (digits T.dims j) (k + 1) = .ok ((digits T.dims j).getD (k + 1) 0) := by
            rw [rd_getElem hk2, List.getD_eq_getElem?_getD, List.getElem?_eq_getElem hk2]
            rfl
          rw [rd_getElem hk1, ok_bind, e2, ok_bind, e1]
          rw [e1] at hc
          exact valueText_eq hl (e1 ▸ hin _ (List.getElem_mem hk1)) hc) []
      rw [List.nil_append] at this
      rw [← this]
      congr 1
      funext s k
      simp only [bind_assoc]
    rw [if_neg h1, hcum, getConfig_cumLevels hpos, ok_bind, h0, ok_bind, hv0, ok_bind, hfold, ok_bind]
    have hpop := intercalate_pop (cells := (List.range ps.length).map (fun k => valueLabel names values (ps.getD k 0) ((digits T.dims j).getD (k + 1) 0)))
      (by simpa using hps) (lit "P (" ++ valueLabel names values i ((digits T.dims j).getD 0 0) ++ lit " | ")
    rw [← bind_assoc, hpop, ok_bind, hpot, ok_bind, hvars, List.tail_cons, if_neg hps, pure_eq_ok]
    simp [List.append_assoc]

theorem saveParameters_eq (fmt : K → Str) (hl : ∀ v < names.length, ∃ m, ids[v]? = some m ∧ NamesValues m (values v) (card v)) {pts : List (Table K)}
    (hT : ∀ (i : Nat) T, pts[i]? = some T → WellFormed card T ∧ (∃ ps, T.vars = i :: ps) ∧ ∀ v ∈ T.vars, v < names.length) :
    saveParameters fmt names ids pts.length pts = .ok (parameterText fmt names values pts) := by
  unfold saveParameters parameterText
  have gen : ∀ m ≤ pts.length, (List.range m).foldlM (fun out i => (do
      let T ← rd pts i
      (List.range T.size).foldlM (saveEntry fmt names ids i T) out : Except Fault Str)) [] = .ok (textOf ((pts.take m).mapIdx (fun i T =>
        (configsOf T.dims).map (fun c => parameterLine names values i T.vars.tail c (fmt (value T (ofConfig T.vars c)))))).flatten) := by
    intro m
    induction m with
    | zero => intro _; simp [pure_eq_ok, textOf]
    | succ m ih =>
      intro hm
      rw [List.range_succ, List.foldlM_append, ih (by omega), ok_bind, List.foldlM_cons, rd_getElem (show m < pts.length by omega), ok_bind]
      obtain ⟨w, ⟨ps, hps⟩, hin⟩ := hT m _ (List.getElem?_eq_getElem (show m < pts.length by omega))
      have inner : ∀ k ≤ pts[m].size, ∀ out : Str, (List.range k).foldlM (saveEntry fmt names ids m pts[m]) out =
          .ok (out ++ textOf ((List.range k).map (fun j => parameterLine names values m pts[m].vars.tail (digits pts[m].dims j)
            (fmt (value pts[m] (ofConfig pts[m].vars (digits pts[m].dims j))))))) := by
        intro k
        induction k with
        | zero => intro _ out; simp [pure_eq_ok, textOf]
        | succ k ihk =>
          intro hk out
          rw [List.range_succ, List.foldlM_append, ihk (by omega), ok_bind, List.foldlM_cons, saveEntry_eq fmt hl w hps hin _ (by omega), ok_bind,
            List.foldlM_nil, List.map_append, textOf_append]
          simp [pure_eq_ok, textOf]
      rw [inner _ (Nat.le_refl _), ok_bind, List.foldlM_nil, List.take_add_one, List.getElem?_eq_getElem (show m < pts.length by omega), Option.toList_some,
        List.mapIdx_append, List.flatten_append, textOf_append]
      have : min m pts.length = m := by omega
      simp [pure_eq_ok, configsOf_eq, w.size, Function.comp_def, this]
  have := gen pts.length (Nat.le_refl _)
  rw [List.take_length] at this
  exact this

end parameterFile

end FastPGM
