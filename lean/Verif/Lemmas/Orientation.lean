import Verif.Spec.Orientation
import Verif.Lemmas.Skeleton6
import Verif.Props.Network
import Verif.Props.ChoiceGenerator

/-!
Lemmas for the orientation phase: the edge list as undirected pairs followed by directed pairs.
-/

namespace FastPGM

open Spec

/-- An undirected pair as an edge. -/
def undEdge (p : Nat × Nat) : Edge := { node1 := p.1, node2 := p.2, end1 := .tail, end2 := .tail }

/-- A directed pair as an edge. -/
def dirEdge (p : Nat × Nat) : Edge := { node1 := p.1, node2 := p.2, end1 := .tail, end2 := .arrow }

/-- The pair with the smaller node first. -/
def ordPair (a b : Nat) : Nat × Nat := if a < b then (a, b) else (b, a)

theorem mkUndirected_eq (a b : Nat) : mkUndirected a b = undEdge (ordPair a b) := by
  unfold mkUndirected undEdge ordPair
  split <;> rfl

theorem mkDirected_eq (a b : Nat) : mkDirected a b = dirEdge (a, b) := rfl

theorem ordPair_comm (a b : Nat) : ordPair a b = ordPair b a := by
  unfold ordPair
  rcases Nat.lt_trichotomy a b with h | h | h
  · rw [if_pos h, if_neg (by omega)]
  · subst h; rfl
  · rw [if_neg (by omega), if_pos h]

theorem ordPair_lt {a b : Nat} (h : a ≠ b) : (ordPair a b).1 < (ordPair a b).2 := by
  unfold ordPair
  split
  · assumption
  · show b < a; omega

theorem ordPair_eq {a b x y : Nat} (h : ordPair a b = (x, y)) : (a = x ∧ b = y) ∨ (a = y ∧ b = x) := by
  unfold ordPair at h
  split at h
  · simp only [Prod.mk.injEq] at h; exact Or.inl h
  · simp only [Prod.mk.injEq] at h; exact Or.inr ⟨h.2, h.1⟩

theorem ordPair_self {x y : Nat} (h : x < y) : ordPair x y = (x, y) := if_pos h

/-- The network holds the undirected edges `us` and after them the directed edges `ds`. -/
structure Pd (n : Nat) (us ds : List (Nat × Nat)) (N : Net) : Prop where
  len : N.nodes.length = n
  inv : NetInv N
  edges : N.edges = us.map undEdge ++ ds.map dirEdge
  us_lt : ∀ p ∈ us, p.1 < p.2 ∧ p.2 < n
  us_nodup : us.Nodup
  ds_nodup : ds.Nodup
  dir : ∀ a b, (a, b) ∈ ds ↔ b ∈ N.ch a

theorem Pd.ds_lt {n : Nat} {us ds : List (Nat × Nat)} {N : Net} (h : Pd n us ds N) {a b : Nat} (hab : (a, b) ∈ ds) : a < n ∧ b < n := by
  have := h.inv.wf.lt ((h.dir a b).1 hab)
  rw [h.len] at this
  exact this

theorem Pd.childOf {n : Nat} {us ds : List (Nat × Nat)} {N : Net} (h : Pd n us ds N) (a b : Nat) : ChildOf N a b ↔ (a, b) ∈ ds := by
  rw [childOf_iff, h.dir]

theorem Pd.acyclic {n : Nat} {us ds : List (Nat × Nat)} {N : Net} (h : Pd n us ds N) : ¬ Cyclic (fun a b => (a, b) ∈ ds) := by
  intro hc
  exact h.inv.acyclic ((cyclic_congr h.childOf).2 hc)

theorem Pd.asymm {n : Nat} {us ds : List (Nat × Nat)} {N : Net} (h : Pd n us ds N) {a b : Nat} (h1 : (a, b) ∈ ds) (h2 : (b, a) ∈ ds) : False :=
  h.acyclic ⟨a, (Relation.TransGen.single h1).tail h2⟩

theorem Pd.irrefl {n : Nat} {us ds : List (Nat × Nat)} {N : Net} (h : Pd n us ds N) {a : Nat} (h1 : (a, a) ∈ ds) : False :=
  h.acyclic ⟨a, Relation.TransGen.single h1⟩

theorem find_und_none {us ds : List (Nat × Nat)} {p : Nat × Nat} (hp : p ∉ us) :
    findEdge (us.map undEdge ++ ds.map dirEdge) (undEdge p) = none := by
  unfold findEdge
  rw [List.findIdx?_eq_none_iff]
  intro e he
  rw [List.mem_append, List.mem_map, List.mem_map] at he
  rw [Bool.eq_false_iff, Ne, same_iff]
  rcases he with ⟨q, hq, rfl⟩ | ⟨q, hq, rfl⟩
  · rintro ⟨h1, h2, _⟩
    exact hp ((Prod.ext h1 h2 : q = p) ▸ hq)
  · rintro ⟨_, _, _, h4⟩
    cases h4

theorem find_und_some {us : List (Nat × Nat)} {rest : List Edge} {p : Nat × Nat} (hp : p ∈ us) :
    ∃ pos, findEdge (us.map undEdge ++ rest) (undEdge p) = some pos ∧
      (us.map undEdge ++ rest).eraseIdx pos = (us.erase p).map undEdge ++ rest := by
  induction us with
  | nil => simp at hp
  | cons q us ih =>
    by_cases hq : q = p
    · subst hq
      refine ⟨0, ?_, ?_⟩
      · unfold findEdge
        rw [List.map_cons, List.cons_append, List.findIdx?_cons, if_pos]
        exact same_iff.2 ⟨rfl, rfl, rfl, rfl⟩
      · rw [List.map_cons, List.cons_append, List.eraseIdx_cons_zero, List.erase_cons_head]
    · have hp' : p ∈ us := by
        rcases List.mem_cons.1 hp with rfl | h
        · exact absurd rfl hq
        · exact h
      obtain ⟨pos, h1, h2⟩ := ih hp'
      refine ⟨pos + 1, ?_, ?_⟩
      · unfold findEdge at h1 ⊢
        rw [List.map_cons, List.cons_append, List.findIdx?_cons, if_neg, h1]
        · rfl
        · rw [same_iff]
          rintro ⟨h3, h4, _⟩
          exact hq (Prod.ext h3 h4)
      · rw [List.map_cons, List.cons_append, List.eraseIdx_cons_succ, h2, List.erase_cons_tail (by simpa using hq), List.map_cons,
          List.cons_append]

theorem find_dir_none {us ds : List (Nat × Nat)} {p : Nat × Nat} (hp : p ∉ ds) :
    findEdge (us.map undEdge ++ ds.map dirEdge) (dirEdge p) = none := by
  unfold findEdge
  rw [List.findIdx?_eq_none_iff]
  intro e he
  rw [List.mem_append, List.mem_map, List.mem_map] at he
  rw [Bool.eq_false_iff, Ne, same_iff]
  rcases he with ⟨q, hq, rfl⟩ | ⟨q, hq, rfl⟩
  · rintro ⟨_, _, _, h4⟩
    cases h4
  · rintro ⟨h1, h2, _⟩
    exact hp ((Prod.ext h1 h2 : q = p) ▸ hq)

/-- Deleting a directed edge that is not there. -/
theorem Pd.deleteDirected {n : Nat} {us ds : List (Nat × Nat)} {N : Net} (h : Pd n us ds N) {a b : Nat} (ha : a < n) (hb : b < n)
    (hab : (a, b) ∉ ds) : N.deleteDirectedEdge a b = .ok (N, false) := by
  have hf : findEdge N.edges (mkDirected a b) = none := by rw [h.edges, mkDirected_eq, find_dir_none hab]
  obtain ⟨N', r, h1, _, _, _, h5⟩ := deleteDirectedEdge_spec h.inv (p := a) (c := b) (by rw [h.len]; exact ha) (by rw [h.len]; exact hb)
  rcases h5 with ⟨_, rfl, rfl⟩ | ⟨pos, hp, _⟩
  · exact h1
  · rw [hf] at hp; cases hp

/-- Deleting an undirected edge. -/
theorem Pd.deleteUndirected {n : Nat} {us ds : List (Nat × Nat)} {N : Net} (h : Pd n us ds N) {a b : Nat} (ha : a < n) (hb : b < n) :
    ∃ N', N.deleteUndirectedEdge a b = .ok (N', decide (ordPair a b ∈ us)) ∧ Pd n (us.erase (ordPair a b)) ds N' := by
  obtain ⟨N', r, h1, h2⟩ := deleteUndirectedEdge_spec (N := N) (p := a) (c := b) (by rw [h.len]; exact ha) (by rw [h.len]; exact hb)
  by_cases hm : ordPair a b ∈ us
  · obtain ⟨pos, hp, her⟩ := find_und_some (rest := ds.map dirEdge) hm
    rw [← h.edges, ← mkUndirected_eq] at hp
    rw [← h.edges] at her
    rcases h2 with ⟨hf, _, _⟩ | ⟨pos', hp', rfl, rfl⟩
    · rw [hp] at hf; cases hf
    · rw [hp] at hp'
      cases hp'
      refine ⟨{ N with edges := N.edges.eraseIdx pos }, by rw [h1, decide_eq_true hm], ⟨h.len, h.inv.withEdges _, her, fun p hp => h.us_lt p (List.mem_of_mem_erase hp),
        h.us_nodup.erase _, h.ds_nodup, h.dir⟩⟩
  · have hf : findEdge N.edges (mkUndirected a b) = none := by rw [h.edges, mkUndirected_eq, find_und_none hm]
    rcases h2 with ⟨_, rfl, rfl⟩ | ⟨pos', hp', _⟩
    · refine ⟨_, by rw [h1, decide_eq_false hm], ?_⟩
      rw [List.erase_of_not_mem hm]
      exact h
    · rw [hf] at hp'; cases hp'

/-- Adding a directed edge that is not there. -/
theorem Pd.addDirected {n : Nat} {us ds : List (Nat × Nat)} {N : Net} (h : Pd n us ds N) {a b : Nat} (ha : a < n) (hb : b < n)
    (hab : (a, b) ∉ ds) :
    ∃ N' r, N.addDirectedEdge a b = .ok (N', r) ∧ (r = true ↔ ¬ Cyclic (withEdge (fun x y => (x, y) ∈ ds) a b)) ∧
      Pd n us (if r then ds ++ [(a, b)] else ds) N' ∧ N'.edges = N.edges ++ (if r then [mkDirected a b] else []) := by
  obtain ⟨N', r, h1, h2, h3, _, h5, h6, h7⟩ :=
    addDirectedEdge_spec h.inv (p := a) (c := b) (by rw [h.len]; exact ha) (by rw [h.len]; exact hb)
  refine ⟨N', r, h1, ?_, ?_⟩
  · rw [h5, cyclic_congr]
    intro x y
    unfold withEdge
    rw [h.childOf]
  · cases r with
    | false =>
      obtain ⟨hm, he⟩ := h6 rfl
      exact ⟨⟨by rw [h3, h.len], h2, by rw [he, h.edges]; rfl, h.us_lt, h.us_nodup, h.ds_nodup, fun x y => by rw [hm]; exact h.dir x y⟩,
        by rw [he]; simp⟩
    | true =>
      obtain ⟨hm, he⟩ := h7 rfl
      refine ⟨⟨by rw [h3, h.len], h2, ?_, h.us_lt, h.us_nodup, ?_, ?_⟩, he⟩
      · rw [he, h.edges, if_pos rfl, List.map_append, List.append_assoc]
        rfl
      · rw [if_pos rfl, List.nodup_append]
        refine ⟨h.ds_nodup, by simp, ?_⟩
        intro x hx y hy
        rw [List.mem_singleton] at hy
        subst hy
        rintro rfl
        exact hab hx
      · intro x y
        rw [if_pos rfl, List.mem_append, h.dir, hm, List.mem_singleton, Prod.mk.injEq]

/-- The pairs of `G` are those of `us` and `ds`, each in one of the two lists. -/
structure Cover (G : Nat → Nat → Prop) (us ds : List (Nat × Nat)) : Prop where
  symm : ∀ a b, G a b → G b a
  irrefl : ∀ a, ¬ G a a
  iff : ∀ a b, G a b ↔ ordPair a b ∈ us ∨ (a, b) ∈ ds ∨ (b, a) ∈ ds
  excl : ∀ a b, ordPair a b ∈ us → (a, b) ∉ ds

theorem Cover.undirected {G : Nat → Nat → Prop} {us ds : List (Nat × Nat)} (h : Cover G us ds) (a b : Nat) :
    Undirected G (fun x y => (x, y) ∈ ds) a b ↔ ordPair a b ∈ us := by
  unfold Undirected
  rw [h.iff]
  constructor
  · tauto
  · intro hm
    exact ⟨Or.inl hm, h.excl a b hm, h.excl b a (by rw [ordPair_comm]; exact hm)⟩

/-- Orienting an undirected pair. -/
theorem Cover.orient {G : Nat → Nat → Prop} {us ds : List (Nat × Nat)} (h : Cover G us ds) (hn : us.Nodup) {a b : Nat} (hm : ordPair a b ∈ us) :
    Cover G (us.erase (ordPair a b)) (ds ++ [(a, b)]) := by
  have hab : a ≠ b := by
    rintro rfl
    exact h.irrefl a ((h.iff a a).2 (Or.inl hm))
  have heq : ∀ x y, ordPair x y = ordPair a b ↔ (x = a ∧ y = b) ∨ (x = b ∧ y = a) := by
    intro x y
    constructor
    · intro he
      unfold ordPair at he
      split at he <;> split at he <;> simp only [Prod.mk.injEq] at he <;> omega
    · rintro (⟨rfl, rfl⟩ | ⟨rfl, rfl⟩)
      · rfl
      · exact ordPair_comm _ _
  refine ⟨h.symm, h.irrefl, ?_, ?_⟩
  · intro x y
    rw [h.iff, List.Nodup.mem_erase_iff hn, List.mem_append, List.mem_append, List.mem_singleton, List.mem_singleton, Prod.mk.injEq,
      Prod.mk.injEq, Ne, heq]
    constructor
    · rintro (h1 | h1 | h1)
      · by_cases h2 : (x = a ∧ y = b) ∨ (x = b ∧ y = a)
        · tauto
        · exact Or.inl ⟨h2, h1⟩
      · exact Or.inr (Or.inl (Or.inl h1))
      · exact Or.inr (Or.inr (Or.inl h1))
    · rintro (h1 | (h1 | ⟨rfl, rfl⟩) | (h1 | ⟨rfl, rfl⟩))
      · exact Or.inl h1.2
      · exact Or.inr (Or.inl h1)
      · exact Or.inl hm
      · exact Or.inr (Or.inr h1)
      · exact Or.inl (by rw [ordPair_comm]; exact hm)
  · intro x y hxy hmem
    rw [List.Nodup.mem_erase_iff hn, Ne, heq] at hxy
    rw [List.mem_append, List.mem_singleton, Prod.mk.injEq] at hmem
    rcases hmem with h1 | h1
    · exact h.excl x y hxy.2 h1
    · exact hxy.1 (Or.inl h1)

/-- The invariant says what the specification says. -/
theorem Pd.partiallyDirected {n : Nat} {G : Nat → Nat → Prop} {us ds : List (Nat × Nat)} {N : Net} (h : Pd n us ds N) (hc : Cover G us ds) :
    PartiallyDirected n G N := by
  have hmap : N.edges.map (fun e => (min e.node1 e.node2, max e.node1 e.node2)) = us ++ ds.map (fun p => ordPair p.1 p.2) := by
    rw [h.edges, List.map_append, List.map_map, List.map_map]
    congr 1
    · refine (List.map_congr_left ?_).trans (List.map_id us)
      rintro ⟨x, y⟩ hp
      have := (h.us_lt _ hp).1
      simp only [Function.comp, undEdge, id] at this ⊢
      rw [Nat.min_eq_left (by omega), Nat.max_eq_right (by omega)]
    · apply List.map_congr_left
      rintro ⟨x, y⟩ hp
      simp only [Function.comp, dirEdge, ordPair]
      split
      · rw [Nat.min_eq_left (by omega), Nat.max_eq_right (by omega)]
      · rw [Nat.min_eq_right (by omega), Nat.max_eq_left (by omega)]
  have hpar : ∀ x y, ParentOf N x y ↔ (x, y) ∈ ds := fun x y => by rw [parentOf_iff_childOf h.inv.wf, h.childOf]
  refine ⟨h.len, ?_, ?_, ⟨us, ds, h.edges, fun p hp => (h.us_lt p hp).1⟩, ?_, ?_, ?_⟩
  · rw [hmap, List.nodup_append]
    refine ⟨h.us_nodup, ?_, ?_⟩
    · refine (List.nodup_map_iff_inj_on h.ds_nodup).2 ?_
      rintro ⟨x, y⟩ h1 ⟨x', y'⟩ h2 he
      simp only at he
      have h3 : (x = x' ∧ y = y') ∨ (x = y' ∧ y = x') := by
        unfold ordPair at he
        split at he <;> split at he <;> simp only [Prod.mk.injEq] at he <;> omega
      rcases h3 with ⟨rfl, rfl⟩ | ⟨rfl, rfl⟩
      · rfl
      · exact (h.asymm h1 h2).elim
    · intro p hp q hq
      obtain ⟨⟨x, y⟩, hm, rfl⟩ := List.mem_map.1 hq
      rintro rfl
      exact hc.excl x y hp hm
  · intro x y hxy
    rw [hmap, List.mem_append, List.mem_map, hc.iff, ordPair_self hxy]
    constructor
    · rintro (h1 | h1 | h1)
      · exact Or.inl h1
      · exact Or.inr ⟨_, h1, ordPair_self hxy⟩
      · exact Or.inr ⟨_, h1, by rw [ordPair_comm]; exact ordPair_self hxy⟩
    · rintro (h1 | ⟨⟨a, b⟩, h1, h2⟩)
      · exact Or.inl h1
      · rcases ordPair_eq h2 with ⟨rfl, rfl⟩ | ⟨rfl, rfl⟩
        · exact Or.inr (Or.inl h1)
        · exact Or.inr (Or.inr h1)
  · intro x y
    rw [hpar, listed_iff, h.edges, dirPairs_append]
    have h1 : dirPairs (us.map undEdge) = [] := by
      unfold dirPairs
      rw [List.filterMap_eq_nil_iff]
      intro e he
      obtain ⟨p, _, rfl⟩ := List.mem_map.1 he
      rfl
    have h2 : dirPairs (ds.map dirEdge) = ds := by
      unfold dirPairs
      rw [List.filterMap_map]
      have : ((fun e : Edge => if e.end1 = .tail ∧ e.end2 = .arrow then some (e.node1, e.node2) else none) ∘ dirEdge) = some := by
        funext p
        rfl
      rw [this, List.filterMap_some]
    rw [h1, h2, List.nil_append]
  · intro x y
    rw [parentOf_iff_childOf h.inv.wf]
  · intro hcy
    exact h.acyclic ((cyclic_congr hpar).1 hcy)

end FastPGM
