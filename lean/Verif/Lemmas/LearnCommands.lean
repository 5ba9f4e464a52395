import Verif.Spec.LearnCommands
import Verif.Model.LearnCommands
import Verif.Props.Compare
import Verif.Props.BifNetwork
import Verif.Props.SaveFiles
import Verif.Props.Pipeline

/-!
The commands that learn a network.
-/

namespace FastPGM

open Spec

variable {K : Type}

/-! ### The training file -/

theorem codesFrom_mem (V : List Str) (hV : V.Nodup) (k : Int) (s : Str) (x : Nat) :
    (s, k + (x : Int)) ∈ codesFrom k V ↔ V[x]? = some s := by
  induction V generalizing k x with
  | nil => simp [codesFrom]
  | cons v V ih =>
    rw [List.nodup_cons] at hV
    simp only [codesFrom, List.mem_cons, Prod.mk.injEq]
    cases x with
    | zero =>
      simp only [Nat.cast_zero, Int.add_zero, and_true, List.getElem?_cons_zero, Option.some.injEq]
      constructor
      · rintro (h | h)
        · exact h.symm
        · exfalso
          have hge : ∀ (V : List Str) (k : Int) (p : Str × Int), p ∈ codesFrom k V → k ≤ p.2 := by
            intro V
            induction V with
            | nil => intro k p hp; simp [codesFrom] at hp
            | cons w V ih =>
              intro k p hp
              simp only [codesFrom, List.mem_cons] at hp
              rcases hp with rfl | hp
              · exact le_refl _
              · have := ih _ _ hp
                omega
          have := hge _ _ _ h
          simp at this
      · intro h
        exact Or.inl h.symm
    | succ x =>
      rw [List.getElem?_cons_succ, ← ih hV.2 (k + 1) x]
      have e : k + ((x + 1 : Nat) : Int) = k + 1 + (x : Int) := by push_cast; omega
      rw [e]
      constructor
      · rintro (⟨_, h⟩ | h)
        · omega
        · exact h
      · exact Or.inr

/-- What is read from the training file. -/
structure ReadsTrain (n : Nat) (names : List Str) (train : List (List Str)) (D : Dataset) : Prop where
  vars : D.numVars = n
  rows : D.numInstance = train.length
  dims : assignNodeInformation D = .ok (trainDims train n)
  names : assignNames D = columnNames names n
  columns : D.natColumns = trainColumns train n
  ids : ∀ v < n, ∃ m, D.valueIds[v]? = some m ∧ NamesValues m (firstSeen (column train v)) (firstSeen (column train v)).length
  idsLength : D.valueIds.length = n

theorem assignNodeInformation_eq {D : Dataset} {vals : List Nat} (hids : D.valueIds.length = D.numVars)
    (hvals : D.numValues = vals.map (fun v : Nat => (v : Int))) (hlen : vals.length = D.numVars) : assignNodeInformation D = .ok vals := by
  have h := mapM_ok (l := List.range D.numVars) (f := fun i => (do
    let _ ← rd D.valueIds i
    let size ← rd D.numValues i
    return size.toNat : Except Fault Nat)) (g := fun i => vals.getD i 0) (by
      intro i hi
      rw [List.mem_range] at hi
      rw [rd_getElem (by omega), ok_bind, rd_getElem (show i < D.numValues.length by rw [hvals]; simp; omega), ok_bind]
      simp only [hvals, List.getElem_map, Int.toNat_natCast, pure_eq_ok]
      rw [List.getD_eq_getElem?_getD, List.getElem?_eq_getElem (by omega)]
      rfl)
  unfold assignNodeInformation
  rw [h]
  congr 1
  rw [← hlen]
  exact (eq_tab_getD 0).symm

theorem readsTrain {n : Nat} {names : List Str} {train : List (List Str)} {file : Str} (hf : TrainFile n names train file) :
    ∃ D, loadCSVTraining file true 0 = .ok D ∧ ReadsTrain n names train D := by
  obtain ⟨hn, f1, f2, f3, f4, f5⟩ := hf
  have e : cellTexts names = (List.range n).map (cellText names) := by rw [cellTexts, f2.1]; rfl
  refine ⟨_, loadCSVTraining_eq hn f1 f2 f3 f4 (e ▸ f5) 0, rfl, rfl, ?_, ?_, ?_, ?_, by simp [tableData]⟩
  · refine assignNodeInformation_eq (by simp [tableData]) ?_ (by simp [tableData, trainDims])
    simp only [tableData, trainDims, List.map_map]
    rfl
  · unfold assignNames
    simp only [tableData, e, columnNames]
    rw [if_pos (by simp)]
  · unfold Dataset.natColumns trainColumns
    simp only [tableData, column, tab, List.map_map]
    refine List.map_congr_left (fun j _ => ?_)
    simp [code, codeIn, Function.comp_def, column]
  · intro v hv
    refine ⟨codesFrom 0 (firstSeen (column train v)), ?_, le_refl _, fun x hx s => ?_⟩
    · simp only [tableData]
      rw [tab_get?, if_pos hv]
    · have := codesFrom_mem (firstSeen (column train v)) (C50_codes_injective _).1 0 s x
      rw [Int.zero_add] at this
      rw [this, List.getElem?_eq_getElem hx, List.getD_eq_getElem?_getD, List.getElem?_eq_getElem hx]
      simp only [Option.some.injEq, Option.getD_some]
      exact eq_comm

/-! ### Partially directed graphs as edge lists -/

variable {n : Nat} {G : Nat → Nat → Prop} {N : Net}

theorem partially_status (hp : PartiallyDirected n G N) {i j : Nat} (hij : i < j) :
    pairStatus N.edges i j = graphStatus G (ParentOf N) i j := by
  obtain ⟨us, ds, he, hnd, hds, hus⟩ := PartiallyDirected.lists hp
  have h1 : ∀ a b, (N.edges.any (fun e => e.node1 = a && e.node2 = b && e.end2 = .arrow) = true) ↔ ParentOf N a b := by
    intro a b
    rw [← hds, he, List.any_eq_true]
    constructor
    · rintro ⟨e, hm, h⟩
      rcases List.mem_append.1 hm with hm | hm
      · obtain ⟨q, hq, rfl⟩ := List.mem_map.1 hm
        simp at h
      · obtain ⟨q, hq, rfl⟩ := List.mem_map.1 hm
        simp at h
        rw [← h.1, ← h.2]
        exact hq
    · intro h
      exact ⟨_, List.mem_append_right _ (List.mem_map.2 ⟨_, h, rfl⟩), by simp⟩
  have h2 : (N.edges.any (fun e => e.node1 = i && e.node2 = j) = true) ↔ ParentOf N i j ∨ Undirected G (ParentOf N) i j := by
    have hu : Undirected G (ParentOf N) i j ↔ (i, j) ∈ us := by rw [hus]; exact ⟨fun h => ⟨hij, h⟩, fun h => h.2⟩
    rw [hu, ← hds, he, List.any_eq_true]
    constructor
    · rintro ⟨e, hm, h⟩
      rcases List.mem_append.1 hm with hm | hm
      · obtain ⟨q, hq, rfl⟩ := List.mem_map.1 hm
        simp at h
        right
        rw [← h.1, ← h.2]
        exact hq
      · obtain ⟨q, hq, rfl⟩ := List.mem_map.1 hm
        simp at h
        left
        rw [← h.1, ← h.2]
        exact hq
    · rintro (h | h)
      · exact ⟨_, List.mem_append_right _ (List.mem_map.2 ⟨_, h, rfl⟩), by simp⟩
      · exact ⟨_, List.mem_append_left _ (List.mem_map.2 ⟨_, h, rfl⟩), by simp⟩
  unfold pairStatus graphStatus
  by_cases c1 : ParentOf N i j
  · rw [if_pos ((h1 i j).2 c1), if_pos c1]
  · rw [if_neg (fun h => c1 ((h1 i j).1 h)), if_neg c1]
    by_cases c2 : ParentOf N j i
    · rw [if_pos ((h1 j i).2 c2), if_pos c2]
    · rw [if_neg (fun h => c2 ((h1 j i).1 h)), if_neg c2]
      by_cases c3 : G i j
      · rw [if_pos (h2.2 (Or.inr ⟨c3, c1, c2⟩)), if_pos c3]
      · rw [if_neg (fun h => ?_), if_neg c3]
        rcases h2.1 h with h | h
        · exact c1 h
        · exact c3 h.1

theorem partially_simple (hp : PartiallyDirected n G N) : SimpleEdges N.edges := by
  obtain ⟨us, ds, he, hnd, hds, hus⟩ := PartiallyDirected.lists hp
  have hirr : ∀ e ∈ N.edges, e.node1 ≠ e.node2 := by
    intro e hm hx
    rw [he] at hm
    rcases List.mem_append.1 hm with hm | hm
    · obtain ⟨q, hq, rfl⟩ := List.mem_map.1 hm
      have := ((hus q.1 q.2).1 hq).1
      exact absurd hx (Nat.ne_of_lt this)
    · obtain ⟨q, hq, rfl⟩ := List.mem_map.1 hm
      have h := (hds q.1 q.2).1 hq
      have hx : q.1 = q.2 := hx
      rw [← hx] at h
      exact hp.acyclic ⟨q.1, Relation.TransGen.single h⟩
  have htail : ∀ e ∈ N.edges, e.end1 = .tail ∧ (e.end2 = .tail → e.node1 < e.node2) := by
    intro e hm
    rw [he] at hm
    rcases List.mem_append.1 hm with hm | hm
    · obtain ⟨q, hq, rfl⟩ := List.mem_map.1 hm
      exact ⟨rfl, fun _ => ((hus q.1 q.2).1 hq).1⟩
    · obtain ⟨q, hq, rfl⟩ := List.mem_map.1 hm
      exact ⟨rfl, fun h => by cases h⟩
  refine ⟨hirr, fun e hm => (htail e hm).1, fun e hm => (htail e hm).2, ?_⟩
  intro e hm f hm' h
  have hkey : (min e.node1 e.node2, max e.node1 e.node2) = (min f.node1 f.node2, max f.node1 f.node2) := by
    simp only [Prod.mk.injEq]
    omega
  have hef : e = f := List.inj_on_of_nodup_map hp.once hm hm' hkey
  rw [hef]
  exact ⟨rfl, rfl, rfl⟩

theorem partially_first (hp : PartiallyDirected n G N) (hG : ∀ x y, G x y → G y x) (hr : ∀ x y, G x y → x ≠ y) {e : Edge} {es : List Edge}
    (hes : N.edges = e :: es) : e.isDirected = false ↔ ∃ x y, Undirected G (ParentOf N) x y := by
  obtain ⟨us, ds, he, hnd, hds, hus⟩ := PartiallyDirected.lists hp
  cases us with
  | nil =>
    have hd : e ∈ ds.map (fun p => { node1 := p.1, node2 := p.2, end1 := .tail, end2 := .arrow : Edge }) := by
      rw [List.map_nil, List.nil_append] at he
      rw [← he, hes]
      exact List.mem_cons_self
    obtain ⟨q, _, rfl⟩ := List.mem_map.1 hd
    constructor
    · intro h
      simp [Edge.isDirected] at h
    · rintro ⟨x, y, hx, h1, h2⟩
      rcases Nat.lt_trichotomy x y with h | h | h
      · exact absurd ((hus x y).2 ⟨h, hx, h1, h2⟩) (by simp)
      · exact absurd h (hr x y hx)
      · exact absurd ((hus y x).2 ⟨h, hG _ _ hx, h2, h1⟩) (by simp)
  | cons u us =>
    rw [hes, List.map_cons, List.cons_append] at he
    obtain ⟨rfl, -⟩ := List.cons.inj he
    refine ⟨fun _ => ⟨u.1, u.2, ((hus u.1 u.2).1 (by simp)).2⟩, fun _ => by simp [Edge.isDirected]⟩

theorem partially_count (hp : PartiallyDirected n G N) {k : Skeleton} (hk : Represents n G k) : N.edges.length = k.edges.length := by
  have hl : (N.edges.map (fun e => (min e.node1 e.node2, max e.node1 e.node2))).Perm (k.edges.map (fun e => (e.x, e.y))) := by
    rw [List.perm_ext_iff_of_nodup hp.once hk.nodup]
    rintro ⟨x, y⟩
    rw [hk.edge]
    constructor
    · intro h
      have hxy : x < y := by
        obtain ⟨e, hm, he⟩ := List.mem_map.1 h
        have := (partially_simple hp).irrefl e hm
        simp only [Prod.mk.injEq] at he
        omega
      exact ⟨hxy, (hp.pairs x y hxy).2 h⟩
    · rintro ⟨hxy, h⟩
      exact (hp.pairs x y hxy).1 h
  have := hl.length_eq
  rw [List.length_map, List.length_map] at this
  exact this


theorem partially_arrow (hp : PartiallyDirected n G N) (hG : ∀ x y, G x y → G y x) {x y : Nat} (h : ParentOf N x y) : G x y := by
  obtain ⟨e, hm, rfl, rfl, -, -⟩ := (hp.parents x y).1 h
  have hne := (partially_simple hp).irrefl e hm
  rcases Nat.lt_or_gt_of_ne hne with hlt | hlt
  · refine (hp.pairs _ _ hlt).2 (List.mem_map.2 ⟨e, hm, ?_⟩)
    simp only [Prod.mk.injEq]
    omega
  · refine hG _ _ ((hp.pairs _ _ hlt).2 (List.mem_map.2 ⟨e, hm, ?_⟩))
    simp only [Prod.mk.injEq]
    omega

/-! ### The reference network -/

/-- The network of a good BIF file, as the comparison needs it. -/
theorem reference_net {stod : Str → Except Fault K} (toCount : K → Int) {vs : List VarDecl} {ts : List (TableDecl K)} (h : GoodDescription vs ts)
    {file : Str} (hd : BifDescribes stod file vs ts) :
    ∃ F, (∀ rounds last, 3 * vs.length < rounds → 10 ∉ last → loadBIF stod toCount rounds (file ++ last) = .ok (some F)) ∧
      NetInv F.net ∧ F.net.topo = [] ∧ F.net.nodes.length = vs.length ∧ F.numEdges = F.net.edges.length ∧
      (∀ x y, ParentOf F.net x y ↔ DeclEdge ts x y) ∧ (∀ x y, ChildOf F.net x y ↔ DeclEdge ts x y) ∧
      ∃ keys : List (Nat × Nat), keys.Nodup ∧ (∀ k, k ∈ keys ↔ k.1 ∈ F.net.pa k.2) ∧
        F.net.edges = edgesOf keys (fun _ => false) (fun _ => .unset) := by
  obtain ⟨F, hF, hG⟩ := bif_load toCount h hd
  obtain ⟨R, hR0, hR, hlen, hshape, hinv, hch, htopo⟩ := xml_net h hG.xml
  rw [hG.net] at hR0
  cases hR0
  have hpa : ∀ x y, x ∈ F.net.pa y ↔ DeclEdge ts x y := fun x y => by rw [← hinv.wf.sym, hch]
  refine ⟨F, hF, hinv, htopo, hlen, hG.count, fun x y => by rw [parentOf_iff, hpa], fun x y => by rw [childOf_iff, hch],
    ts.flatMap (fun t => t.given.map (fun g => (g, t.node))), ?_, ?_, ?_⟩
  · have hnd := flatMap_edges_nodup (h.nodes.nodup_iff.2 List.nodup_range) (fun t ht => (h.given t ht).1)
    have e : ts.flatMap (fun t => t.given.map (fun g => mkDirected g t.node)) =
        (ts.flatMap (fun t => t.given.map (fun g => (g, t.node)))).map (fun p => mkDirected p.1 p.2) := by
      rw [List.map_flatMap]
      simp only [List.map_map]
      rfl
    rw [e] at hnd
    exact List.Nodup.of_map _ hnd
  · rintro ⟨x, y⟩
    rw [hpa, List.mem_flatMap]
    constructor
    · rintro ⟨t, ht, hm⟩
      obtain ⟨g, hg, e⟩ := List.mem_map.1 hm
      cases e
      exact ⟨t, ht, rfl, hg⟩
    · rintro ⟨t, ht, rfl, hg⟩
      exact ⟨t, ht, List.mem_map.2 ⟨_, hg, rfl⟩⟩
  · rw [hG.edges]
    unfold edgesOf
    rw [List.map_flatMap]
    simp only [List.map_map]
    rfl

theorem hamming_congr {m : Nat} {s s' t t' : Nat → Nat → PairStatus} (h : ∀ i j, i < j → j < m → s i j = s' i j ∧ t i j = t' i j) :
    hamming m s t = hamming m s' t' := by
  unfold hamming
  congr 1
  apply Finset.filter_congr
  rintro ⟨i, j⟩ hm
  rw [Finset.mem_product, Finset.mem_range, Finset.mem_range] at hm
  constructor
  · rintro ⟨h1, h2⟩
    obtain ⟨e1, e2⟩ := h i j h1 hm.2
    exact ⟨h1, by rw [← e1, ← e2]; exact h2⟩
  · rintro ⟨h1, h2⟩
    obtain ⟨e1, e2⟩ := h i j h1 hm.2
    exact ⟨h1, by rw [e1, e2]; exact h2⟩

theorem edgesOf_status {D : Nat → Nat → Prop} {keys : List (Nat × Nat)} (hkeys : ∀ k, k ∈ keys ↔ D k.1 k.2)
    (ord : Nat × Nat → Bool) (lab : Nat × Nat → Label) (i j : Nat) :
    pairStatus (edgesOf keys ord lab) i j = graphStatus (Joined D) D i j := by
  have hany : ∀ a b, ((edgesOf keys ord lab).any (fun e => e.node1 = a && e.node2 = b && e.end2 = .arrow) = true) ↔ D a b := by
    intro a b
    rw [List.any_eq_true, ← hkeys (a, b)]
    constructor
    · rintro ⟨e, he, h⟩
      obtain ⟨k, hk, rfl⟩ := List.mem_map.1 he
      simp [keyEdge] at h
      rw [← of_decide_eq_true h.1, ← of_decide_eq_true h.2]
      exact hk
    · intro h
      exact ⟨_, List.mem_map.2 ⟨_, h, rfl⟩, by simp [keyEdge]⟩
  have hany' : ((edgesOf keys ord lab).any (fun e => e.node1 = i && e.node2 = j) = true) → D i j := by
    rw [List.any_eq_true, ← hkeys (i, j)]
    rintro ⟨e, he, h⟩
    obtain ⟨k, hk, rfl⟩ := List.mem_map.1 he
    simp [keyEdge] at h
    rw [← of_decide_eq_true h.1, ← of_decide_eq_true h.2]
    exact hk
  unfold pairStatus graphStatus
  by_cases h1 : D i j
  · rw [if_pos ((hany i j).2 h1), if_pos h1]
  · rw [if_neg (fun h => h1 ((hany i j).1 h)), if_neg h1]
    by_cases h2 : D j i
    · rw [if_pos ((hany j i).2 h2), if_pos h2]
    · rw [if_neg (fun h => h2 ((hany j i).1 h)), if_neg h2, if_neg (fun h => h1 (hany' h)), if_neg]
      rintro (h | h)
      · exact h1 h
      · exact h2 h

/-- The reported distance. -/
theorem reportSHD_eq {nums : Numbers K} {vs : List VarDecl} {ts : List (TableDecl K)} (h : GoodDescription vs ts) {file : Str}
    (hd : BifDescribes nums.stod file vs ts) (hrounds : 3 * vs.length < nums.rounds) {last : Str} (hlast : 10 ∉ last) (hn : vs.length = n)
    (hp : PartiallyDirected n G N) (hG : ∀ x y, G x y → G y x) (hr : ∀ x y, G x y → x ≠ y) (hne : N.edges ≠ [])
    (hone : (∃ x y, Undirected G (ParentOf N) x y) → NoTwoOutsiders n (DeclEdge ts)) :
    reportSHD nums (some (file ++ last)) N =
      .ok (some (some (hamming n (referenceStatus G (ParentOf N) (DeclEdge ts)) (graphStatus G (ParentOf N))))) := by
  obtain ⟨F, hF, hinv, htopo, hlen, hcount, hP, hC, keys, hnd, hkeys, hedges⟩ := reference_net nums.toCount h hd
  have hP' : ParentOf F.net = DeclEdge ts := by funext x y; exact propext (hP x y)
  have hC' : ChildOf F.net = DeclEdge ts := by funext x y; exact propext (hC x y)
  obtain ⟨e, es, hes⟩ := List.exists_cons_of_ne_nil hne
  have hkeysD : ∀ k, k ∈ keys ↔ DeclEdge ts k.1 k.2 := fun k => by rw [hkeys, ← parentOf_iff, hP]
  have hasym : ∀ x y, DeclEdge ts x y → ¬ DeclEdge ts y x := fun x y h1 h2 =>
    h.acyclic ⟨x, Relation.TransGen.trans (Relation.TransGen.single h1) (Relation.TransGen.single h2)⟩
  have hnodes : F.net.nodes.length = N.nodes.length := by rw [hlen, hn, hp.nodes]
  unfold reportSHD
  simp only
  rw [hF nums.rounds last hrounds hlast, ok_bind]
  simp only
  rw [hcount]
  cases hd : e.isDirected with
  | true =>
    rw [C36_distance (by rw [hedges]; exact directed_simple hkeysD hasym _ _) (partially_simple hp) hnodes hes hd, ok_bind]
    simp only [pure_eq_ok]
    congr 3
    rw [hp.nodes]
    have hno : ¬ ∃ x y, Undirected G (ParentOf N) x y := by
      rw [← partially_first hp hG hr hes, hd]
      simp
    unfold referenceStatus
    rw [if_neg hno]
    refine hamming_congr (fun i j hij _ => ⟨?_, partially_status hp hij⟩)
    rw [hedges]
    exact edgesOf_status hkeysD _ _ i j
  | false =>
    have hyes := (partially_first hp hG hr hes).1 hd
    have hone' := hone hyes
    obtain ⟨N', hN', -⟩ := class_distance hinv htopo hnd hkeys hedges (by
      rw [hlen, hn, hC', hP']
      exact hone') (partially_simple hp) hnodes hes hd
    rw [hN', ok_bind]
    simp only [pure_eq_ok]
    congr 3
    rw [hP', hlen, hn]
    unfold referenceStatus
    rw [if_pos hyes]
    exact hamming_congr (fun i j hij _ => ⟨rfl, partially_status hp hij⟩)

theorem reportSHD_none (nums : Numbers K) : reportSHD nums none N = .ok (some none) := rfl

/-! ### The learned network -/

theorem shape_of_inv {dims : List Nat} (hinv : NetInv N) (hd : N.nodes.map NodeS.dim = dims) (hpos : ∀ d ∈ dims, 0 < d) :
    NetShape (fun i => dims.getD i 0) N := by
  refine ⟨fun i s hs => ?_, fun i s hs => ?_⟩
  · have h4 : (N.nodes.map NodeS.dim)[i]? = some s.dim := by rw [List.getElem?_map, hs]; rfl
    rw [hd] at h4
    have h5 : dims.getD i 0 = s.dim := by rw [List.getD_eq_getElem?_getD, h4]; rfl
    exact ⟨h5.symm, by rw [h5]; exact hpos _ (List.mem_of_getElem? h4)⟩
  · have hpa : N.pa i = s.parents := by simp [Net.pa, hs]
    refine ⟨hpa ▸ hinv.wf.pa_sorted i, fun p hp => ?_, fun hmem => ?_⟩
    · exact (hinv.wf.lt ((hinv.wf.sym p i).2 (hpa ▸ hp))).1
    · have : i ∈ N.ch i := (hinv.wf.sym i i).2 (hpa ▸ hmem)
      refine hinv.acyclic ⟨i, Relation.TransGen.single ?_⟩
      refine ⟨s, hs, ?_⟩
      simpa [Net.ch, hs] using this

theorem trainDims_pos {train : List (List Str)} (h : train ≠ []) {d : Nat} (hd : d ∈ trainDims train n) : 0 < d := by
  obtain ⟨j, _, rfl⟩ := List.mem_map.1 hd
  obtain ⟨s, hs⟩ := List.exists_mem_of_ne_nil (column train j) (fun h' => h (List.map_eq_nil_iff.1 h'))
  exact List.length_pos_of_mem (mem_firstSeen.2 hs)

theorem checkAlpha_ok [Field K] [LinearOrder K] {alpha : K} (h : 0 ≤ alpha ∧ alpha ≤ 1) (n : Nat) : checkAlpha alpha n = .ok () := by
  unfold checkAlpha
  rw [if_neg]
  rintro ⟨-, h' | h'⟩
  · exact not_lt.2 h.1 h'
  · exact not_lt.2 h.2 h'

theorem checkAlpha_exit [Field K] [LinearOrder K] {alpha : K} (h : alpha < 0 ∨ 1 < alpha) {n : Nat} (hn : 2 ≤ n) :
    checkAlpha alpha n = .error .exit := by
  unfold checkAlpha
  rw [if_pos ⟨hn, h⟩]

/-- What structure learning for the two learning commands delivers. -/
theorem learned_struct [Field K] [LinearOrder K] {X : Execution K} {alpha : K} {g : Nat} {names : List Str} {train : List (List Str)} {D : Dataset}
    (ha : 0 ≤ alpha ∧ alpha ≤ 1) (hD : ReadsTrain n names train D) {k : Skeleton}
    (hk : learnSkeleton (ciTest X.log X.pchisq alpha (trainDims train n) (trainColumns train n) train.length) n 1000 g 128 X.order0 X.sched X.fuel = .ok k)
    (hrep : Represents n G k) (hV : ¬ Cyclic (VArrow G k.sep)) (hfuel : k.edges.length < X.fuel) :
    ∃ N, structLearnFull X alpha g false false D = .ok (N, N.edges.length) ∧ PartiallyDirected n G N ∧
      LearnedGraph G k.sep (ParentOf N) ∧ NetInv N ∧ N.topo = [] ∧ N.nodes.map NodeS.dim = trainDims train n := by
  obtain ⟨N, us, ds, ds1, h1, p1, c1, v1, -, m1⟩ := orientPhase_clean hrep (dims := trainDims train n) (by simp [trainDims]) hV (le_refl _) X.bits false
    (by simp) hfuel
  obtain ⟨m2, m3, m4⟩ := m1 rfl
  have h2 := p1.partiallyDirected c1
  have hpar : ∀ x y, ParentOf N x y ↔ (x, y) ∈ ds := fun x y => by rw [← h2.children, p1.childOf]
  have hP : ParentOf N = arrows ds := by
    funext a b
    exact propext (hpar a b)
  have hsound : ∀ D, Explains G k.sep D → ∀ x y, (x, y) ∈ ds → D x y := fun D hD => m2.sound hD m3 (Explains.varrow hD)
  refine ⟨N, ?_, h2, ⟨h2.acyclic, fun x y => partially_arrow h2 hrep.symm, fun x y h => (hpar x y).2 (v1 x y h), ?_, ?_, ?_⟩, orientPhase_keep h1,
    orientPhase_topo h1, orientPhase_dims h1⟩
  · unfold structLearnFull
    rw [hD.dims, ok_bind, checkAlpha_ok ha, ok_bind, hD.vars, hD.columns, hD.rows, hk, ok_bind, h1, ok_bind, if_neg (by simp), partially_count h2 hrep]
    rfl
  · intro D hD x y h
    exact hsound D hD x y ((hpar x y).1 h)
  · rintro ⟨D, hD⟩ x y hu hm
    rw [hP] at hu hm
    have hxy := meek_sound hD (P := arrows ds) (hsound D hD) v1 hu hm
    have hcyc : ¬ Cyclic (withEdge (arrows ds) x y) := by
      rintro ⟨z, hz⟩
      refine hD.acyclic ⟨z, Relation.TransGen.mono ?_ _ _ hz⟩
      rintro a b (hab | ⟨rfl, rfl⟩)
      · exact hsound D hD a b hab
      · exact hxy
    have hus : ordPair x y ∈ us := by
      rcases (c1.iff x y).1 hu.1 with q | q | q
      · exact q
      · exact absurd q hu.2.1
      · exact absurd q hu.2.2
    have hcl := m4 _ hus
    unfold ordPair at hcl
    split at hcl
    · exact hcyc (hcl.1 hm)
    · exact hcyc (hcl.2 hm)
  · intro hno x y h
    have hds1 : ds1 = [] := by
      rw [List.eq_nil_iff_forall_not_mem]
      rintro ⟨a, b⟩ hm
      exact hno a b ((m3 a b).1 hm)
    have hrun : ∀ ds, MeekRun G [] ds → ds = [] := by
      intro ds h7
      induction h7 with
      | refl => rfl
      | step _ _ hm ih =>
        subst ih
        rcases hm with ⟨z, h, _⟩ | ⟨b, h, _⟩ | ⟨b, _, _, _, _, _, h, _⟩ <;> simp [arrows] at h
    have hds : ds = [] := hrun ds (hds1 ▸ m2)
    rw [hpar, hds] at h
    simp at h

end FastPGM
