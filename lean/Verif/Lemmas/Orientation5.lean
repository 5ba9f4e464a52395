import Verif.Lemmas.DSeparation

/-!
The orientation phase as a whole; acyclicity in every execution.
-/

namespace FastPGM

open Spec

theorem bind_ok {ε α β : Type} {x : Except ε α} {f : α → Except ε β} {b : β} (h : (x >>= f) = .ok b) : ∃ a, x = .ok a ∧ f a = .ok b := by
  cases x with
  | error e => cases h
  | ok a => exact ⟨a, rfl, h⟩

/-! ### Every execution keeps the directed part acyclic -/

theorem addDirected_keep {N N' : Net} {r : Bool} (h : NetInv N) {p c : Nat} (e : N.addDirectedEdge p c = .ok (N', r)) : NetInv N' := by
  by_cases hr : p < N.nodes.length ∧ c < N.nodes.length
  · obtain ⟨N1, r1, e1, h1, _⟩ := addDirectedEdge_spec h hr.1 hr.2
    rw [e1] at e
    cases e
    exact h1
  · rw [(C17_bad_index (by omega)).1] at e
    cases e

theorem deleteDirected_keep {N N' : Net} {r : Bool} (h : NetInv N) {p c : Nat} (e : N.deleteDirectedEdge p c = .ok (N', r)) : NetInv N' := by
  by_cases hr : p < N.nodes.length ∧ c < N.nodes.length
  · obtain ⟨N1, r1, e1, h1, _⟩ := deleteDirectedEdge_spec h hr.1 hr.2
    rw [e1] at e
    cases e
    exact h1
  · rw [(C17_bad_index (by omega)).2.1] at e
    cases e

theorem deleteUndirected_keep {N N' : Net} {r : Bool} (h : NetInv N) {p c : Nat} (e : N.deleteUndirectedEdge p c = .ok (N', r)) : NetInv N' := by
  by_cases hr : p < N.nodes.length ∧ c < N.nodes.length
  · obtain ⟨N1, r1, e1, h1⟩ := deleteUndirectedEdge_spec (N := N) hr.1 hr.2
    rw [e1] at e
    cases e
    rcases h1 with ⟨_, _, rfl⟩ | ⟨_, _, _, rfl⟩
    · exact h
    · exact h.withEdges _
  · rw [(C17_bad_index (by omega)).2.2.2] at e
    cases e

theorem addUndirected_keep {N N' : Net} (h : NetInv N) {p c : Nat} (e : N.addUndirectedEdge p c = .ok N') : NetInv N' := by
  by_cases hr : p < N.nodes.length ∧ c < N.nodes.length
  · unfold Net.addUndirectedEdge at e
    rw [find_ok hr.1, ok_bind, find_ok hr.2, ok_bind] at e
    cases e
    exact h.withEdges _
  · rw [(C17_bad_index (by omega)).2.2.1] at e
    cases e

theorem orientTriple_keep {N N' : Net} (h : NetInv N) {a b c : Nat} (e : orientTriple N a b c = .ok N') : NetInv N' := by
  unfold orientTriple at e
  obtain ⟨⟨N1, d1⟩, e1, e⟩ := bind_ok e
  have h1 := deleteDirected_keep h e1
  obtain ⟨⟨N2, u1⟩, e2, e⟩ := bind_ok e
  have h2 : NetInv N2 := by
    cases d1 with
    | true => cases e2; exact h1
    | false => exact deleteUndirected_keep h1 e2
  obtain ⟨⟨N3, d2⟩, e3, e⟩ := bind_ok e
  have h3 := deleteDirected_keep h2 e3
  obtain ⟨⟨N4, u2⟩, e4, e⟩ := bind_ok e
  have h4 : NetInv N4 := by
    cases d2 with
    | true => cases e4; exact h3
    | false => exact deleteUndirected_keep h3 e4
  simp only at e
  obtain ⟨⟨N5, b1⟩, e5, e⟩ := bind_ok e
  have h5 : NetInv N5 := by
    split at e5
    · exact addDirected_keep h4 e5
    · cases e5; exact h4
  obtain ⟨⟨N6, b2⟩, e6, e⟩ := bind_ok e
  have h6 : NetInv N6 := by
    split at e6
    · exact addDirected_keep h5 e6
    · cases e6; exact h5
  simp only at e
  split at e
  · obtain ⟨N7, e7, e⟩ := bind_ok e
    have h7 : NetInv N7 := by
      split at e7
      · split at e7
        · obtain ⟨⟨M, r⟩, f, g⟩ := bind_ok e7
          cases g
          exact addDirected_keep h6 f
        · exact addUndirected_keep h6 e7
      · cases e7; exact h6
    split at e
    · split at e
      · obtain ⟨⟨M, r⟩, f, g⟩ := bind_ok e
        cases g
        exact addDirected_keep h7 f
      · exact addUndirected_keep h7 e
    · cases e; exact h7
  · cases e
    exact h6

theorem foldlM_keep {α : Type} {f : Net → α → Except Fault Net} (hf : ∀ N x N', NetInv N → f N x = .ok N' → NetInv N') (l : List α) {N N' : Net}
    (h : NetInv N) (e : l.foldlM f N = .ok N') : NetInv N' := by
  induction l generalizing N with
  | nil => cases e; exact h
  | cons x l ih =>
    rw [List.foldlM_cons] at e
    obtain ⟨N1, e1, e⟩ := bind_ok e
    exact ih (hf _ _ _ h e1) e

theorem orientV_keep {adj : List (List Nat)} {sep : Sepset} {N N' : Net} (h : NetInv N) (e : orientVStructure adj sep N = .ok N') : NetInv N' := by
  unfold orientVStructure at e
  refine foldlM_keep ?_ _ h e
  intro N b N' h e
  obtain ⟨l, _, e⟩ := bind_ok e
  split at e
  · cases e; exact h
  · obtain ⟨gen, _, e⟩ := bind_ok e
    obtain ⟨L, _, e⟩ := bind_ok e
    refine foldlM_keep ?_ _ h e
    intro N ch N' h e
    unfold orientPair at e
    obtain ⟨s, _, e⟩ := bind_ok e
    obtain ⟨a, _, e⟩ := bind_ok e
    obtain ⟨c, _, e⟩ := bind_ok e
    obtain ⟨r, _, e⟩ := bind_ok e
    split at e
    · cases e; exact h
    · split at e
      · cases e; exact h
      · exact orientTriple_keep h e

theorem direct_keep {cap : Nat} {N N' : Net} {r : Bool} (h : NetInv N) {a c : Nat} (e : direct cap N a c = .ok (N', r)) : NetInv N' := by
  unfold direct at e
  simp only at e
  obtain ⟨⟨N1, b⟩, e1, e⟩ := bind_ok e
  have h1 := addDirected_keep h e1
  cases b with
  | false => cases e; exact h1
  | true =>
    simp only [if_true] at e
    split at e
    · cases e
    · obtain ⟨⟨N2, b2⟩, e2, e⟩ := bind_ok e
      cases e
      exact deleteUndirected_keep h1 e2

theorem rule1_keep {cap : Nat} {adj : List (List Nat)} {b c : Nat} (as : List Nat) {N : Net} {out : Net × Bool} (h : NetInv N)
    (e : rule1Loop cap adj b c as N = .ok out) : NetInv out.1 := by
  induction as generalizing N with
  | nil => cases e; exact h
  | cons a as ih =>
    rw [rule1Loop] at e
    obtain ⟨r, _, e⟩ := bind_ok e
    split at e
    · exact ih h e
    · obtain ⟨⟨N1, r1⟩, e1, e⟩ := bind_ok e
      have h1 := direct_keep h e1
      cases r1 with
      | true => cases e; exact h1
      | false => exact ih h1 e

theorem rule2_keep {cap a c : Nat} (bs : List Nat) {N : Net} {out : Net × Bool} (h : NetInv N)
    (e : rule2Loop cap a c bs N = .ok out) : NetInv out.1 := by
  induction bs generalizing N with
  | nil => cases e; exact h
  | cons b bs ih =>
    rw [rule2Loop] at e
    obtain ⟨r, _, e⟩ := bind_ok e
    obtain ⟨r', _, e⟩ := bind_ok e
    split at e
    · obtain ⟨⟨N1, r1⟩, e1, e⟩ := bind_ok e
      have h1 := direct_keep h e1
      cases r1 with
      | true => cases e; exact h1
      | false => exact ih h1 e
    · exact ih h e

theorem rule3_keep {cap a d : Nat} {adj : List (List Nat)} (ps : List (Nat × Nat)) {N : Net} {out : Net × Bool} (h : NetInv N)
    (e : rule3Loop cap adj a d ps N = .ok out) : NetInv out.1 := by
  induction ps generalizing N with
  | nil => cases e; exact h
  | cons p ps ih =>
    obtain ⟨b, c⟩ := p
    rw [rule3Loop] at e
    obtain ⟨r, _, e⟩ := bind_ok e
    split at e
    · exact ih h e
    · obtain ⟨⟨N1, r1⟩, e1, e⟩ := bind_ok e
      have h1 : NetInv N1 := by
        unfold r3Helper at e1
        obtain ⟨_, _, e1⟩ := bind_ok e1
        obtain ⟨_, _, e1⟩ := bind_ok e1
        obtain ⟨_, _, e1⟩ := bind_ok e1
        obtain ⟨_, _, e1⟩ := bind_ok e1
        split at e1
        · exact direct_keep h e1
        · cases e1; exact h
      cases r1 with
      | true => cases e; exact h1
      | false => exact ih h1 e

theorem tryRules_keep {cap x y : Nat} {adj : List (List Nat)} {N : Net} {out : Net × Bool} (h : NetInv N)
    (e : tryRules cap adj N x y = .ok out) : NetInv out.1 := by
  have k1 : ∀ {N : Net} {out : Net × Bool} {x y : Nat}, NetInv N → rule1 cap adj N x y = .ok out → NetInv out.1 := by
    intro N out x y h e
    unfold rule1 at e
    obtain ⟨s, _, e⟩ := bind_ok e
    exact rule1_keep _ h e
  have k2 : ∀ {N : Net} {out : Net × Bool} {x y : Nat}, NetInv N → rule2 cap adj N x y = .ok out → NetInv out.1 := by
    intro N out x y h e
    unfold rule2 at e
    obtain ⟨s, _, e⟩ := bind_ok e
    exact rule2_keep _ h e
  have k3 : ∀ {N : Net} {out : Net × Bool} {x y : Nat}, NetInv N → rule3 cap adj N x y = .ok out → NetInv out.1 := by
    intro N out x y h e
    unfold rule3 at e
    obtain ⟨s, _, e⟩ := bind_ok e
    exact rule3_keep _ h e
  unfold tryRules at e
  obtain ⟨⟨N1, r1⟩, e1, e⟩ := bind_ok e
  have h1 := k1 h e1
  cases r1 with
  | true => cases e; exact h1
  | false =>
  simp only [Bool.false_eq_true, if_false] at e
  obtain ⟨⟨N2, r2⟩, e2, e⟩ := bind_ok e
  have h2 := k1 h1 e2
  cases r2 with
  | true => cases e; exact h2
  | false =>
  simp only [Bool.false_eq_true, if_false] at e
  obtain ⟨⟨N3, r3⟩, e3, e⟩ := bind_ok e
  have h3 := k2 h2 e3
  cases r3 with
  | true => cases e; exact h3
  | false =>
  simp only [Bool.false_eq_true, if_false] at e
  obtain ⟨⟨N4, r4⟩, e4, e⟩ := bind_ok e
  have h4 := k2 h3 e4
  cases r4 with
  | true => cases e; exact h4
  | false =>
  simp only [Bool.false_eq_true, if_false] at e
  obtain ⟨⟨N5, r5⟩, e5, e⟩ := bind_ok e
  have h5 := k3 h4 e5
  cases r5 with
  | true => cases e; exact h5
  | false =>
  simp only [Bool.false_eq_true, if_false] at e
  exact k3 h5 e

theorem impliedPass_keep {cap : Nat} {adj : List (List Nat)} (fuel i : Nat) {N : Net} {o : Bool} {out : Net × Bool} (h : NetInv N)
    (e : impliedPass cap adj fuel i N o = .ok out) : NetInv out.1 := by
  induction fuel generalizing i N o with
  | zero => cases e
  | succ fuel ih =>
    rw [impliedPass] at e
    split at e
    · cases e; exact h
    · obtain ⟨u, _, e⟩ := bind_ok e
      split at e
      · obtain ⟨⟨N1, r1⟩, e1, e⟩ := bind_ok e
        have h1 := tryRules_keep h e1
        simp only at e
        split at e
        · exact ih _ h1 e
        · exact ih _ h1 e
      · cases e; exact h

theorem orientImplied_keep {cap fuel' : Nat} {adj : List (List Nat)} (fuel : Nat) {N N' : Net} (h : NetInv N)
    (e : orientImplied cap adj fuel' fuel N = .ok N') : NetInv N' := by
  induction fuel generalizing N with
  | zero => cases e
  | succ fuel ih =>
    rw [orientImplied] at e
    obtain ⟨⟨N1, r1⟩, e1, e⟩ := bind_ok e
    have h1 := impliedPass_keep _ _ h e1
    simp only at e
    split at e
    · exact ih h1 e
    · cases e; exact h1

theorem directLeft_keep {cap : Nat} {adj : List (List Nat)} {bits : Nat → Bool} (fuel j : Nat) {N N' : Net} (h : NetInv N)
    (e : directLeftEdges cap adj bits fuel j N = .ok N') : NetInv N' := by
  induction fuel generalizing j N with
  | zero => cases e
  | succ fuel ih =>
    rw [directLeftEdges] at e
    split at e
    · cases e; exact h
    · obtain ⟨u, _, e⟩ := bind_ok e
      split at e
      · simp only at e
        obtain ⟨⟨N1, r1⟩, e1, e⟩ := bind_ok e
        have h1 := direct_keep h e1
        simp only at e
        split at e
        · exact ih _ h1 e
        · obtain ⟨⟨N2, r2⟩, e2, e⟩ := bind_ok e
          have h2 := direct_keep h1 e2
          simp only at e
          split at e
          · exact ih _ h2 e
          · cases e
      · cases e; exact h

theorem orientPhase_keep {cap fuel : Nat} {bits : Nat → Bool} {dag : Bool} {dims : List Nat} {k : Skeleton} {N : Net}
    (e : orientPhase cap bits dag fuel dims k = .ok N) : NetInv N := by
  unfold orientPhase at e
  obtain ⟨N1, e1, e⟩ := bind_ok e
  have h1 := orientV_keep ((empty_inv dims).withEdges _) e1
  obtain ⟨N2, e2, e⟩ := bind_ok e
  have h2 := orientImplied_keep _ h1 e2
  split at e
  · exact directLeft_keep _ _ h2 e
  · cases e; exact h2

/-! ### Number of edges -/

theorem pairs_length {n : Nat} {l : List (Nat × Nat)} (hn : l.Nodup) (hl : ∀ p ∈ l, p.1 < p.2 ∧ p.2 < n) : l.length ≤ n * (n - 1) / 2 := by
  obtain ⟨slots, _, hlen, _, hmem, _⟩ := C19_completeGraph n
  have hsub : l ⊆ slots.map (fun e => (e.node1, e.node2)) := by
    rintro ⟨x, y⟩ hp
    obtain ⟨h1, h2⟩ := hl _ hp
    rw [List.mem_map]
    exact ⟨_, (hmem _).2 ⟨x, y, h1, h2, rfl⟩, rfl⟩
  have := (List.subperm_of_subset hn hsub).length_le
  rw [List.length_map, hlen] at this
  exact this

/-- A pair that is not adjacent leaves room for one more edge. -/
theorem edges_room {n : Nat} {G : Nat → Nat → Prop} {k : Skeleton} (hk : Represents n G k) {x y : Nat} (hxy : x < y) (hy : y < n) (hG : ¬ G x y) :
    k.edges.length < n * (n - 1) / 2 := by
  have := pairs_length (n := n) (l := (x, y) :: k.edges.map (fun e => (e.x, e.y))) (by
    rw [List.nodup_cons]
    exact ⟨fun h => hG ((hk.edge x y).1 h).2, hk.nodup⟩) (by
    intro p hp
    rcases List.mem_cons.1 hp with rfl | hp
    · exact ⟨hxy, hy⟩
    · obtain ⟨a, b⟩ := p
      obtain ⟨h1, h2⟩ := (hk.edge a b).1 hp
      exact ⟨h1, (hk.range _ _ (hk.symm _ _ h2)).1⟩)
  rw [List.length_cons, List.length_map] at this
  omega

/-! ### The whole phase when the v-structures are compatible -/

/-- Every pair of the graph is listed once. -/
theorem Pd.cover_length {n : Nat} {G : Nat → Nat → Prop} {k : Skeleton} (hk : Represents n G k) {us1 ds1 : List (Nat × Nat)} {N1 : Net}
    (p1 : Pd n us1 ds1 N1) (c1 : Cover G us1 ds1) : us1.length + ds1.length = k.edges.length := by
  -- both lists hold the pairs of `G` once
  have q1 := p1.partiallyDirected c1
  have hl : (N1.edges.map (fun e => (min e.node1 e.node2, max e.node1 e.node2))).Perm (k.edges.map (fun e => (e.x, e.y))) := by
    rw [List.perm_ext_iff_of_nodup q1.once hk.nodup]
    rintro ⟨x, y⟩
    rw [hk.edge]
    constructor
    · intro hm
      have hlt : x < y := by
        obtain ⟨e, he, heq⟩ := List.mem_map.1 hm
        simp only [Prod.mk.injEq] at heq
        have hne : e.node1 ≠ e.node2 := by
          rw [p1.edges, List.mem_append, List.mem_map, List.mem_map] at he
          rcases he with ⟨p, hp, rfl⟩ | ⟨p, hp, rfl⟩
          · have := (p1.us_lt p hp).1
            simp only [undEdge]
            omega
          · obtain ⟨a, b⟩ := p
            simp only [dirEdge]
            rintro rfl
            exact p1.irrefl hp
        omega
      exact ⟨hlt, (q1.pairs x y hlt).2 hm⟩
    · rintro ⟨h1, h2⟩
      exact (q1.pairs x y h1).1 h2
  have := hl.length_eq
  rw [List.length_map, List.length_map, p1.edges_length] at this
  exact this

theorem orientPhase_clean {n cap : Nat} {G : Nat → Nat → Prop} {k : Skeleton} (hk : Represents n G k) {dims : List Nat} (hd : dims.length = n)
    (hV : ¬ Cyclic (VArrow G k.sep)) (hcap : n * (n - 1) / 2 ≤ cap) (bits : Nat → Bool) (dag : Bool)
    (hdag : dag = true → k.edges = [] ∨ k.edges.length < cap) {fuel : Nat} (hf : k.edges.length < fuel) :
    ∃ N us ds ds1, orientPhase cap bits dag fuel dims k = .ok N ∧ Pd n us ds N ∧ Cover G us ds ∧
      (∀ x y, VArrow G k.sep x y → (x, y) ∈ ds) ∧ (dag = true → us = []) ∧
      (dag = false → MeekRun G ds1 ds ∧ (∀ x y, (x, y) ∈ ds1 ↔ VArrow G k.sep x y) ∧ ∀ p ∈ us, ClosedPair G ds p) := by
  obtain ⟨N1, us1, ds1, e1, p1, c1, v1⟩ := orientV_clean hk hd hV
  have hlen1 := p1.cover_length hk c1
  have hcap1 : ds1 ≠ [] → us1.length + ds1.length < cap := by
    intro hne
    obtain ⟨⟨x, y⟩, l, rfl⟩ := List.exists_cons_of_ne_nil hne
    obtain ⟨z, hz⟩ := (v1 x y).1 (by simp)
    have : k.edges.length < n * (n - 1) / 2 := by
      rcases hz with hz | hz
      · exact edges_room hk hz.1 (hk.range _ _ (hk.symm _ _ hz.2.2.1)).1 hz.2.2.2.1
      · exact edges_room hk hz.1 (hk.range _ _ (hk.symm _ _ hz.2.2.1)).1 hz.2.2.2.1
    omega
  obtain ⟨N2, us2, ds2, e2, p2, c2, m2, l2, cl2⟩ := orientImplied_spec hk fuel fuel p1 c1 hcap1 (by omega) (by omega)
  unfold orientPhase
  rw [e1, ok_bind, e2, ok_bind]
  cases dag with
  | false =>
    exact ⟨N2, us2, ds2, ds1, rfl, p2, c2, fun x y h => m2.subset _ ((v1 x y).2 h), fun h => (by cases h), fun _ => ⟨m2, v1, cl2⟩⟩
  | true =>
    simp only [if_true]
    obtain ⟨N3, ds3, e3, p3, c3, s3⟩ := directLeftEdges_spec (cap := cap) hk bits fuel 0 p2 c2 (by
      rcases hdag rfl with h | h
      · right
        rw [h] at hlen1
        simp at hlen1
        rw [hlen1.1, hlen1.2] at l2
        simp at l2
        exact l2.1
      · left; omega) (by omega)
    exact ⟨N3, [], ds3, ds1, e3, p3, c3, fun x y h => s3 _ (m2.subset _ ((v1 x y).2 h)), fun _ => rfl, fun h => (by cases h)⟩

/-- Directing the remaining edges keeps the arrows. -/
theorem orientPhase_extends {n cap : Nat} {G : Nat → Nat → Prop} {k : Skeleton} (hk : Represents n G k) {dims : List Nat} (hd : dims.length = n)
    (hV : ¬ Cyclic (VArrow G k.sep)) (hcap : n * (n - 1) / 2 ≤ cap) (bits : Nat → Bool) (hdag : k.edges = [] ∨ k.edges.length < cap)
    {fuel : Nat} (hf : k.edges.length < fuel) {N0 N : Net} (e0 : orientPhase cap bits false fuel dims k = .ok N0)
    (e : orientPhase cap bits true fuel dims k = .ok N) {x y : Nat} (h : ParentOf N0 x y) : ParentOf N x y := by
  obtain ⟨N1, us, ds, ds1, q1, p1, c1, -⟩ := orientPhase_clean hk hd hV hcap bits false (fun h => (by cases h)) hf
  rw [e0] at q1
  cases q1
  have hlen := p1.cover_length hk c1
  have hsplit : orientPhase cap bits true fuel dims k = orientPhase cap bits false fuel dims k >>= directLeftEdges cap k.adj bits fuel 0 := by
    unfold orientPhase
    simp only [if_true, Bool.false_eq_true, if_false, bind_assoc]
    rfl
  obtain ⟨N', ds', e', p', c', s'⟩ := directLeftEdges_spec (cap := cap) hk bits fuel 0 p1 c1 (by
    rcases hdag with h | h
    · right
      rw [h] at hlen
      simp at hlen
      exact hlen.1
    · left; omega) (by omega)
  rw [hsplit, e0, ok_bind, e'] at e
  cases e
  rw [← (p1.partiallyDirected c1).children, p1.childOf] at h
  rw [← (p'.partiallyDirected c').children, p'.childOf]
  exact s' _ h

/-! ### Networks built by arbitrary edge operations -/

theorem pd_of {n : Nat} {G : Nat → Nat → Prop} {N : Net} (hi : NetInv N) (h : PartiallyDirected n G N) (hsym : ∀ x y, G x y → G y x)
    (hrange : ∀ x y, G x y → x < n ∧ x ≠ y) : ∃ us ds, Pd n us ds N ∧ Cover G us ds := by
  obtain ⟨us, ds, he, hlt⟩ := h.kinds
  have hedges : N.edges = us.map undEdge ++ ds.map dirEdge := he
  have honce := h.once
  rw [hedges, List.map_append, List.map_map, List.map_map, List.nodup_append] at honce
  obtain ⟨hu, hd, hud⟩ := honce
  have hdir : ∀ a b, (a, b) ∈ ds ↔ ParentOf N a b := by
    intro a b
    rw [h.parents]
    unfold Listed
    rw [hedges]
    constructor
    · intro hm
      exact ⟨dirEdge (a, b), List.mem_append_right _ (List.mem_map_of_mem hm), rfl, rfl, rfl, rfl⟩
    · rintro ⟨e, hm, h1, h2, _, h4⟩
      rw [List.mem_append, List.mem_map, List.mem_map] at hm
      rcases hm with ⟨p, hp, rfl⟩ | ⟨p, hp, rfl⟩
      · cases h4
      · have : p = (a, b) := Prod.ext h1 h2
        exact this ▸ hp
  have hirr : ∀ a, (a, a) ∉ ds := fun a ha => h.acyclic ⟨a, .single ((hdir a a).1 ha)⟩
  have hordus : ∀ p ∈ us, (min p.1 p.2, max p.1 p.2) = p := by
    intro p hp
    have := hlt p hp
    exact Prod.ext (by simp only; omega) (by simp only; omega)
  have hpairs : ∀ x y, x < y → (G x y ↔ (x, y) ∈ us ∨ (x, y) ∈ ds ∨ (y, x) ∈ ds) := by
    intro x y hxy
    rw [h.pairs x y hxy, hedges, List.map_append, List.map_map, List.map_map, List.mem_append]
    constructor
    · rintro (hm | hm)
      · obtain ⟨p, hp, heq⟩ := List.mem_map.1 hm
        have h1 := hordus p hp
        have : p = (x, y) := h1.symm.trans heq
        exact Or.inl (this ▸ hp)
      · obtain ⟨⟨a, b⟩, hp, heq⟩ := List.mem_map.1 hm
        simp only [Function.comp, dirEdge, Prod.mk.injEq] at heq
        right
        rcases Nat.le_total a b with hab | hab
        · left
          rw [Nat.min_eq_left hab, Nat.max_eq_right hab] at heq
          rw [← heq.1, ← heq.2]; exact hp
        · right
          rw [Nat.min_eq_right hab, Nat.max_eq_left hab] at heq
          rw [← heq.1, ← heq.2]; exact hp
    · rintro (hm | hm | hm)
      · exact Or.inl (List.mem_map.2 ⟨_, hm, hordus _ hm⟩)
      · refine Or.inr (List.mem_map.2 ⟨_, hm, ?_⟩)
        simp only [Function.comp, dirEdge, Prod.mk.injEq]
        omega
      · refine Or.inr (List.mem_map.2 ⟨_, hm, ?_⟩)
        simp only [Function.comp, dirEdge, Prod.mk.injEq]
        omega
  refine ⟨us, ds, ⟨h.nodes, hi, hedges, ?_, hu.of_map, hd.of_map, ?_⟩, hsym, fun a ha => (hrange a a ha).2 rfl, ?_, ?_⟩
  · rintro ⟨x, y⟩ hp
    have hxy : x < y := hlt _ hp
    exact ⟨hxy, (hrange _ _ (hsym _ _ ((hpairs x y hxy).2 (Or.inl hp)))).1⟩
  · intro a b
    rw [hdir, ← h.children, childOf_iff]
  · intro a b
    rcases Nat.lt_trichotomy a b with hab | rfl | hab
    · rw [ordPair_self hab]; exact hpairs a b hab
    · constructor
      · intro hg; exact absurd rfl (hrange _ _ hg).2
      · rintro (hm | hm | hm)
        · have : ordPair a a = (a, a) := by unfold ordPair; simp
          rw [this] at hm
          exact absurd (hlt _ hm) (Nat.lt_irrefl _)
        · exact absurd hm (hirr a)
        · exact absurd hm (hirr a)
    · rw [ordPair_comm, ordPair_self hab]
      constructor
      · intro hg
        rcases (hpairs b a hab).1 (hsym _ _ hg) with h1 | h1 | h1
        · exact Or.inl h1
        · exact Or.inr (Or.inr h1)
        · exact Or.inr (Or.inl h1)
      · intro hg
        refine hsym _ _ ((hpairs b a hab).2 ?_)
        rcases hg with h1 | h1 | h1
        · exact Or.inl h1
        · exact Or.inr (Or.inr h1)
        · exact Or.inr (Or.inl h1)
  · intro a b hm hd'
    refine hud _ (List.mem_map_of_mem hm) _ (List.mem_map_of_mem hd') ?_
    have hab : a ≠ b := by rintro rfl; exact hirr _ hd'
    have h1 := ordPair_lt hab
    have h2 : (min (ordPair a b).1 (ordPair a b).2, max (ordPair a b).1 (ordPair a b).2) = ordPair a b := hordus _ hm
    show (min (ordPair a b).1 (ordPair a b).2, max (ordPair a b).1 (ordPair a b).2) = (min a b, max a b)
    rw [h2]
    unfold ordPair
    split
    · exact Prod.ext (by simp only; omega) (by simp only; omega)
    · exact Prod.ext (by simp only; omega) (by simp only; omega)

theorem complete_no_varrow {n : Nat} {G : Nat → Nat → Prop} {k : Skeleton} (hk : Represents n G k)
    (hG : ∀ x y, x < n → y < n → x ≠ y → G x y) (x y : Nat) : ¬ VArrow G k.sep x y := by
  rintro ⟨z, hz | hz⟩
  · exact hz.2.2.2.1 (hG _ _ (hk.range _ _ (hk.symm _ _ hz.2.1)).1 (hk.range _ _ (hk.symm _ _ hz.2.2.1)).1 (by have := hz.1; omega))
  · exact hz.2.2.2.1 (hG _ _ (hk.range _ _ (hk.symm _ _ hz.2.1)).1 (hk.range _ _ (hk.symm _ _ hz.2.2.1)).1 (by have := hz.1; omega))

/-- Adding an arrow to a full edge vector while the iterator is held. -/
theorem direct_full {n cap : Nat} {us : List (Nat × Nat)} {N : Net} (h : Pd n us [] N) (hcap : cap ≤ us.length) {a b : Nat} (ha : a < n) (hb : b < n)
    (hab : a ≠ b) : direct cap N a b = .error .ub := by
  obtain ⟨N', r, h1, h2, _⟩ := h.addDirected ha hb (by simp)
  have hr : r = true := by
    rw [h2]
    intro hc
    have hE : ¬ Cyclic (fun x y => (x, y) ∈ ([] : List (Nat × Nat))) := h.acyclic
    have h3 := cyclic_withEdge hE hc
    rcases Relation.reflTransGen_iff_eq_or_transGen.1 h3 with h4 | h4
    · exact hab h4
    · cases h4 with
      | single h5 => simp at h5
      | tail _ h5 => simp at h5
  unfold direct
  simp only
  rw [h1, ok_bind, hr]
  simp only [if_true]
  rw [if_pos (by rw [h.edges_length]; simpa using hcap)]

end FastPGM
