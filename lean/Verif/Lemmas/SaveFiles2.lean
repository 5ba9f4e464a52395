import Verif.Lemmas.SaveFiles
import Verif.Lemmas.OrientDims
import Verif.Lemmas.Compare2
import Verif.Lemmas.Dataset3

/-!
The structure file of a partially directed graph.
-/

namespace FastPGM

open Spec

variable {names : List Str} {n : Nat} {G : Nat → Nat → Prop} {N : Net}

/-- The pairs of a partially directed graph are undirected or directed, in the edge list as in the graph. -/
theorem PartiallyDirected.lists (hp : PartiallyDirected n G N) : ∃ us ds : List (Nat × Nat),
    N.edges = us.map (fun p => { node1 := p.1, node2 := p.2, end1 := .tail, end2 := .tail : Edge }) ++
      ds.map (fun p => { node1 := p.1, node2 := p.2, end1 := .tail, end2 := .arrow : Edge }) ∧
    (us ++ ds).Nodup ∧ (∀ x y, (x, y) ∈ ds ↔ ParentOf N x y) ∧ ∀ x y, (x, y) ∈ us ↔ x < y ∧ Undirected G (ParentOf N) x y := by
  obtain ⟨us, ds, he, hu⟩ := hp.kinds
  have hkeys : N.edges.map (fun e => (min e.node1 e.node2, max e.node1 e.node2)) =
      (us ++ ds).map (fun p => (min p.1 p.2, max p.1 p.2)) := by
    rw [he, List.map_append, List.map_append, List.map_map, List.map_map]
    rfl
  have honce := hp.once
  rw [hkeys] at honce
  have hds : ∀ x y, (x, y) ∈ ds ↔ ParentOf N x y := by
    intro x y
    rw [hp.parents]
    unfold Listed
    rw [he]
    constructor
    · intro h
      exact ⟨_, List.mem_append_right _ (List.mem_map.2 ⟨_, h, rfl⟩), rfl, rfl, rfl, rfl⟩
    · rintro ⟨e, hm, rfl, rfl, h3, h4⟩
      rcases List.mem_append.1 hm with hm | hm
      · obtain ⟨q, _, rfl⟩ := List.mem_map.1 hm
        cases h4
      · obtain ⟨q, hq, rfl⟩ := List.mem_map.1 hm
        exact hq
  refine ⟨us, ds, he, List.Nodup.of_map _ honce, hds, fun x y => ⟨fun h => ?_, fun ⟨hxy, hG, h1, h2⟩ => ?_⟩⟩
  · have hxy : x < y := hu _ h
    have hdis : ∀ q ∈ ds, (min q.1 q.2, max q.1 q.2) ≠ (x, y) := by
      intro q hq e
      rw [List.map_append] at honce
      refine (List.nodup_append.1 honce).2.2 (x, y) (List.mem_map.2 ⟨_, h, ?_⟩) _ (List.mem_map.2 ⟨_, hq, rfl⟩) e.symm
      simp only [Prod.mk.injEq]
      omega
    refine ⟨hxy, (hp.pairs x y hxy).2 ?_, fun hP => ?_, fun hP => ?_⟩
    · rw [hkeys]
      refine List.mem_map.2 ⟨_, List.mem_append_left _ h, ?_⟩
      simp only [Prod.mk.injEq]
      omega
    · refine hdis _ ((hds x y).2 hP) ?_
      simp only [Prod.mk.injEq]
      omega
    · refine hdis _ ((hds y x).2 hP) ?_
      simp only [Prod.mk.injEq]
      omega
  · have hm := (hp.pairs x y hxy).1 hG
    rw [hkeys] at hm
    obtain ⟨⟨a, b⟩, hq, e⟩ := List.mem_map.1 hm
    simp only [Prod.mk.injEq] at e
    rcases List.mem_append.1 hq with hq | hq
    · have hab : a < b := hu _ hq
      obtain ⟨rfl, rfl⟩ : a = x ∧ b = y := by omega
      exact hq
    · have hP := (hds a b).1 hq
      obtain ⟨rfl, rfl⟩ | ⟨rfl, rfl⟩ : (a = x ∧ b = y) ∨ (a = y ∧ b = x) := by omega
      · exact absurd hP h1
      · exact absurd hP h2

theorem arrowsOf_names (hinv : NetInv N) {T : List Nat} (hT : TopoFacts N T) : (arrowsOf N T).Nodup ∧
    (∀ x y, (x, y, true) ∈ arrowsOf N T ↔ ParentOf N x y) ∧ ∀ x y, (x, y, false) ∉ arrowsOf N T := by
  refine ⟨?_, fun x y => ?_, fun x y h => ?_⟩
  · unfold arrowsOf
    rw [List.nodup_flatMap]
    refine ⟨fun x _ => ?_, ?_⟩
    · refine List.Nodup.map (fun a b e => by simpa using e) ?_
      exact (hinv.wf.ch_sorted x).imp (fun h => Nat.ne_of_lt h)
    · refine hT.nodup.imp (fun {a b} hab => ?_)
      intro p hp hq
      obtain ⟨c, _, rfl⟩ := List.mem_map.1 hp
      obtain ⟨d, _, e⟩ := List.mem_map.1 hq
      simp only [Prod.mk.injEq] at e
      exact hab e.1.symm
  · unfold arrowsOf
    rw [parentOf_iff, ← hinv.wf.sym]
    simp only [List.mem_flatMap, List.mem_map, Prod.mk.injEq, and_true]
    constructor
    · rintro ⟨a, _, c, hc, rfl, rfl⟩
      exact hc
    · intro h
      exact ⟨x, (hT.mem x).2 (hinv.wf.lt h).1, y, h, rfl, rfl⟩
  · unfold arrowsOf at h
    simp at h

theorem saveStructure_eq (hinv : NetInv N) (htopo : N.topo = []) (hp : PartiallyDirected n G N) (hG : ∀ x y, G x y → x < n ∧ y < n)
    (hne : N.edges ≠ []) (hnames : names.length = n) :
    ∃ ls, NamesEdges G (ParentOf N) ls ∧ ls.length = N.edges.length ∧
      saveStructure names N.edges.length N = .ok (structureText names n N.edges.length ls) := by
  obtain ⟨us, ds, he, hnd, hds, hus⟩ := PartiallyDirected.lists hp
  have hlen : names.length = N.nodes.length := by rw [hnames, hp.nodes]
  have hheadtext : lit "number of nodes = " ++ intToStr N.nodes.length ++ lit ", number of edges = " ++ intToStr N.edges.length ++ [10] =
      structureHead n N.edges.length ++ [10] := by
    unfold structureHead
    rw [hp.nodes]
  unfold saveStructure
  simp only [hheadtext]
  cases us with
  | nil =>
    have hds0 : ds ≠ [] := by
      rintro rfl
      exact hne (by rw [he]; rfl)
    obtain ⟨T, hg, hT⟩ := genTopoOrd_eq hinv.wf hinv.acyclic
    have hTf := topoFacts hinv hT
    obtain ⟨a1, a2, a3⟩ := arrowsOf_names hinv hTf
    have hTlen : T.length = N.nodes.length := by
      have := (List.perm_ext_iff_of_nodup hTf.nodup List.nodup_range).2 (fun v => by rw [hTf.mem v, List.mem_range])
      rw [this.length_eq, List.length_range]
    obtain ⟨p, ds', rfl⟩ := List.exists_cons_of_ne_nil hds0
    have hfirst : rd N.edges 0 = .ok { node1 := p.1, node2 := p.2, end1 := .tail, end2 := .arrow } := by
      rw [he]
      rfl
    have hgt : N.getTopoOrd = .ok (T, { N with topo := T }) := by
      unfold Net.getTopoOrd
      rw [if_pos htopo, hg, ok_bind, pure_eq_ok]
    refine ⟨arrowsOf N T, ⟨a1, a2, fun x y => ⟨fun h => absurd h (a3 x y), fun h => absurd ((hus x y).2 h) (by simp)⟩⟩, ?_, ?_⟩
    · have hperm : (arrowsOf N T).Perm ((p :: ds').map (fun q => (q.1, q.2, true))) := by
        refine (List.perm_ext_iff_of_nodup a1 ?_).2 (fun q => ?_)
        · refine List.Nodup.map (fun a b e => ?_) (by simpa using hnd)
          simp only [Prod.mk.injEq, and_true] at e
          exact Prod.ext e.1 e.2
        · obtain ⟨x, y, b⟩ := q
          rw [List.mem_map]
          cases b with
          | true =>
            rw [a2, ← hds]
            constructor
            · intro h
              exact ⟨(x, y), h, rfl⟩
            · rintro ⟨q, hq, e⟩
              simp only [Prod.mk.injEq, and_true] at e
              rw [← e.1, ← e.2]
              exact hq
          | false =>
            constructor
            · intro h
              exact absurd h (a3 x y)
            · rintro ⟨q, hq, e⟩
              simp at e
      rw [hperm.length_eq, he]
      simp
    · rw [hfirst, ok_bind, if_pos (by simp [Edge.isDirected]), hgt, ok_bind]
      simp only
      have hfold := saveNodes_eq hlen hinv.wf.ch_lt T (fun x hx => (hTf.mem x).1 hx) (structureHead n N.edges.length ++ [10]) 0
      have hrange := foldlM_range_rd T (fun (st : Str × Nat) x => (do
        let s ← N.find x
        s.children.foldlM (saveChild names x) st : Except Fault (Str × Nat))) (structureHead n N.edges.length ++ [10], 0)
      rw [hTlen] at hrange
      rw [hrange, hfold, ok_bind, structureText_eq]
      rfl
  | cons p us =>
    have hfirst : rd N.edges 0 = .ok { node1 := p.1, node2 := p.2, end1 := .tail, end2 := .tail } := by
      rw [he]
      rfl
    have htr : N.edges.map edgeTriple = (p :: us).map (fun q => (q.1, q.2, false)) ++ ds.map (fun q => (q.1, q.2, true)) := by
      rw [he, List.map_append, List.map_map, List.map_map]
      rfl
    refine ⟨N.edges.map edgeTriple, ⟨?_, fun x y => ?_, fun x y => ?_⟩, List.length_map _, ?_⟩
    · rw [htr]
      refine List.Nodup.of_map (fun q : Nat × Nat × Bool => (q.1, q.2.1)) ?_
      rw [List.map_append, List.map_map, List.map_map]
      rw [show (fun q : Nat × Nat × Bool => (q.1, q.2.1)) ∘ (fun q : Nat × Nat => (q.1, q.2, false)) = id from rfl,
        show (fun q : Nat × Nat × Bool => (q.1, q.2.1)) ∘ (fun q : Nat × Nat => (q.1, q.2, true)) = id from rfl, List.map_id, List.map_id]
      exact hnd
    · rw [htr, ← hds, List.mem_append, List.mem_map, List.mem_map]
      constructor
      · rintro (⟨q, hq, e⟩ | ⟨q, hq, e⟩)
        · simp at e
        · simp only [Prod.mk.injEq, and_true] at e
          rw [← e.1, ← e.2]
          exact hq
      · intro h
        exact Or.inr ⟨_, h, rfl⟩
    · rw [htr, ← hus, List.mem_append, List.mem_map, List.mem_map]
      constructor
      · rintro (⟨q, hq, e⟩ | ⟨q, hq, e⟩)
        · simp only [Prod.mk.injEq, and_true] at e
          rw [← e.1, ← e.2]
          exact hq
        · simp at e
      · intro h
        exact Or.inl ⟨_, h, rfl⟩
    · have hrng : ∀ e ∈ N.edges, e.node1 < names.length ∧ e.node2 < names.length := by
        intro e hm
        rw [he] at hm
        rcases List.mem_append.1 hm with hm | hm
        · obtain ⟨⟨x, y⟩, hq, rfl⟩ := List.mem_map.1 hm
          have := hG _ _ ((hus x y).1 hq).2.1
          rw [hnames]
          exact this
        · obtain ⟨⟨x, y⟩, hq, rfl⟩ := List.mem_map.1 hm
          have := (hds x y).1 hq
          rw [parentOf_iff, ← hinv.wf.sym] at this
          rw [hlen]
          exact hinv.wf.lt this
      rw [hfirst, ok_bind, if_neg (by simp [Edge.isDirected]), saveEdges_eq hrng _ _ (Nat.le_refl _), List.take_length, structureText_eq]

end FastPGM
