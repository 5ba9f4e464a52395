import Verif.Lemmas.JTLevels
import Verif.Lemmas.JTPrim
import Verif.Lemmas.Index

/-!
The levels of a junction tree: what the message passing needs to know about `MarkLevel`.
-/

namespace FastPGM

open Relation

/-- What `junctionShape_spec` provides. -/
structure ShapeOK (T : JTShape) : Prop where
  pos : 0 < T.cliques.length
  jt : IsJT (clqHas T.cliques) (fun i => i < T.cliques.length) (sepEdge T.seps)
  count : T.seps.length + 1 = T.cliques.length
  nodup : T.seps.Nodup
  lt : ∀ p ∈ T.seps, p.1 < p.2 ∧ p.2 < T.cliques.length
  ord_mem : ∀ p ∈ T.seps, p ∈ T.ord
  ord_nodup : T.ord.Nodup
  cord : T.cord.Perm (List.range T.cliques.length)

theorem candidateSeps_nodup (cliques : List (List Nat)) : (candidateSeps cliques).Nodup := by
  unfold candidateSeps
  rw [List.nodup_flatMap]
  constructor
  · intro i _
    refine (List.nodup_range.filter _).map ?_
    intro a b hab
    simpa using hab
  · refine (List.nodup_range (n := cliques.length)).imp ?_
    intro a b hab p hp hq
    obtain ⟨j, _, rfl⟩ := List.mem_map.1 hp
    obtain ⟨j', _, h⟩ := List.mem_map.1 hq
    simp only [Prod.mk.injEq] at h
    exact hab h.1.symm

section

variable {T : JTShape} (h : ShapeOK T)

/-- Separator `s` is an end of clique `i`. -/
def sepEnd (T : JTShape) (s i : Nat) : Prop := ∃ p, T.seps[s]? = some p ∧ (p.1 = i ∨ p.2 = i)

theorem nbRel_clq {T : JTShape} (h : ShapeOK T) {i : Nat} {y : JNode} : nbRel T (.clq i) y ↔ ∃ s, y = .sep s ∧ sepEnd T s i := by
  unfold nbRel JTShape.neighbours
  rw [List.mem_map]
  constructor
  · rintro ⟨p, hp, rfl⟩
    rw [List.mem_filter, decide_eq_true_eq] at hp
    exact ⟨_, rfl, p, by rw [List.getElem?_eq_getElem (List.idxOf_lt_length_iff.2 hp.2.1), List.getElem_idxOf], hp.2.2⟩
  · rintro ⟨s, rfl, p, hp, hi⟩
    obtain ⟨hs, rfl⟩ := List.getElem?_eq_some_iff.1 hp
    have hm : T.seps[s] ∈ T.seps := List.getElem_mem hs
    refine ⟨T.seps[s], List.mem_filter.2 ⟨h.ord_mem _ hm, by simp only [decide_eq_true_eq]; exact ⟨hm, hi⟩⟩, ?_⟩
    rw [h.nodup.idxOf_getElem]

theorem neighbours_sep {T : JTShape} {s : Nat} {p : Nat × Nat} (hp : T.seps[s]? = some p) :
    T.neighbours (.sep s) = (T.cord.filter (fun c => c = p.1 ∨ c = p.2)).map JNode.clq := by
  simp only [JTShape.neighbours, hp]

theorem neighbours_sep_none {T : JTShape} {s : Nat} (hp : T.seps[s]? = none) : T.neighbours (.sep s) = [] := by
  simp only [JTShape.neighbours, hp]

theorem nbRel_sep {T : JTShape} (h : ShapeOK T) {s : Nat} {y : JNode} : nbRel T (.sep s) y ↔ ∃ i, y = .clq i ∧ sepEnd T s i := by
  unfold nbRel sepEnd
  cases hp : T.seps[s]? with
  | none => rw [neighbours_sep_none hp]; simp
  | some p =>
    have hm : p ∈ T.seps := List.mem_of_getElem? hp
    obtain ⟨h1, h2⟩ := h.lt p hm
    rw [neighbours_sep hp]
    simp only [List.mem_map, List.mem_filter, decide_eq_true_eq, h.cord.mem_iff, List.mem_range, Option.some.injEq, exists_eq_left']
    constructor
    · rintro ⟨c, ⟨_, hc⟩, rfl⟩
      exact ⟨c, rfl, by rcases hc with rfl | rfl <;> simp⟩
    · rintro ⟨i, rfl, hi⟩
      refine ⟨i, ⟨?_, ?_⟩, rfl⟩
      · omega
      · rcases hi with rfl | rfl <;> simp

theorem sepEnd.lt {T : JTShape} (h : ShapeOK T) {s i : Nat} (hs : sepEnd T s i) : i < T.cliques.length := by
  obtain ⟨p, hp, hi⟩ := hs
  obtain ⟨h1, h2⟩ := h.lt p (List.mem_of_getElem? hp)
  omega

theorem sepEnd.slt {T : JTShape} {s i : Nat} (hs : sepEnd T s i) : s < T.seps.length := by
  obtain ⟨p, hp, hi⟩ := hs
  exact (List.getElem?_eq_some_iff.1 hp).1

theorem sepEnd.edge {T : JTShape} {s i j : Nat} (hi : sepEnd T s i) (hj : sepEnd T s j) (hij : i ≠ j) : sepEdge T.seps i j := by
  obtain ⟨p, hp, hi⟩ := hi
  obtain ⟨q, hq, hj⟩ := hj
  rw [hp] at hq
  cases hq
  have hm := List.mem_of_getElem? hp
  obtain ⟨a, b⟩ := p
  unfold sepEdge
  rcases hi with rfl | rfl <;> rcases hj with rfl | rfl
  · exact absurd rfl hij
  · exact Or.inl hm
  · exact Or.inr hm
  · exact absurd rfl hij

/-- Two separators with the same ends are the same. -/
theorem sepEnd.unique {T : JTShape} (h : ShapeOK T) {s t i j : Nat} (hij : i ≠ j) (h1 : sepEnd T s i) (h2 : sepEnd T s j) (h3 : sepEnd T t i) (h4 : sepEnd T t j) :
    s = t := by
  obtain ⟨p, hp, hi⟩ := h1
  obtain ⟨p', hp', hj⟩ := h2
  obtain ⟨q, hq, hi'⟩ := h3
  obtain ⟨q', hq', hj'⟩ := h4
  rw [hp] at hp'; cases hp'
  rw [hq] at hq'; cases hq'
  have hpl := h.lt p (List.mem_of_getElem? hp)
  have hql := h.lt q (List.mem_of_getElem? hq)
  have hpq : p = q := by
    obtain ⟨a, b⟩ := p
    obtain ⟨c, d⟩ := q
    simp only at *
    rw [Prod.mk.injEq]
    omega
  subst hpq
  obtain ⟨hs, e1⟩ := List.getElem?_eq_some_iff.1 hp
  obtain ⟨ht, e2⟩ := List.getElem?_eq_some_iff.1 hq
  exact (h.nodup.getElem_inj_iff).1 (e1.trans e2.symm)

theorem sepEnd.exists_of_edge {T : JTShape} {i j : Nat} (hij : sepEdge T.seps i j) : ∃ s, sepEnd T s i ∧ sepEnd T s j := by
  rcases hij with hm | hm
  all_goals
    obtain ⟨s, hs, e⟩ := List.getElem_of_mem hm
    have : T.seps[s]? = some T.seps[s] := List.getElem?_eq_getElem hs
    exact ⟨s, ⟨_, this, by rw [e]; simp⟩, ⟨_, this, by rw [e]; simp⟩⟩

theorem TreeNb.of_shape {T : JTShape} (h : ShapeOK T) : TreeNb T := by
  have symm : ∀ x y, nbRel T x y → nbRel T y x := by
    intro x y hxy
    cases x with
    | clq i =>
      obtain ⟨s, rfl, hs⟩ := (nbRel_clq h).1 hxy
      exact (nbRel_sep h).2 ⟨i, rfl, hs⟩
    | sep s =>
      obtain ⟨i, rfl, hs⟩ := (nbRel_sep h).1 hxy
      exact (nbRel_clq h).2 ⟨s, rfl, hs⟩
  -- a path that avoids the edge between clique `i` and separator `s` does not reach the separator
  have key : ∀ i s, sepEnd T s i → ¬ ReflTransGen (cutEdge (nbRel T) (.clq i) (.sep s)) (.clq i) (.sep s) := by
    intro i s his hpath
    obtain ⟨p, hp, hpi⟩ := his
    have hlt := h.lt p (List.mem_of_getElem? hp)
    have hj : ∃ j, sepEnd T s j ∧ j ≠ i ∧ ∀ k, sepEnd T s k → k ≠ i → k = j := by
      rcases hpi with rfl | rfl
      · refine ⟨p.2, ⟨p, hp, Or.inr rfl⟩, by omega, ?_⟩
        rintro k ⟨q, hq, hk⟩ hne
        rw [hp] at hq; cases hq
        exact (hk.resolve_left (fun e => hne e.symm)).symm
      · refine ⟨p.1, ⟨p, hp, Or.inl rfl⟩, by omega, ?_⟩
        rintro k ⟨q, hq, hk⟩ hne
        rw [hp] at hq; cases hq
        exact (hk.resolve_right (fun e => hne e.symm)).symm
    obtain ⟨j, hjs, hji, huniq⟩ := hj
    have hi : sepEnd T s i := ⟨p, hp, hpi⟩
    have hedge : sepEdge T.seps i j := hi.edge hjs (Ne.symm hji)
    have inv : ∀ z, ReflTransGen (cutEdge (nbRel T) (.clq i) (.sep s)) (.clq i) z →
        match z with
        | .clq k => ReflTransGen (cutEdge (sepEdge T.seps) i j) i k
        | .sep t => t ≠ s ∧ ∀ k, sepEnd T t k → ReflTransGen (cutEdge (sepEdge T.seps) i j) i k := by
      intro z hz
      induction hz with
      | refl => exact .refl
      | @tail b c _ hbc ih =>
        cases b with
        | clq k =>
          obtain ⟨t, rfl, ht⟩ := (nbRel_clq h).1 hbc.1
          have hts : t ≠ s := by
            rintro rfl
            have hki : k ≠ i := by
              rintro rfl
              exact hbc.2 (Or.inl ⟨rfl, rfl⟩)
            rw [huniq k ht hki] at ih
            exact h.jt.bridge hedge ih
          refine ⟨hts, fun k' hk' => ?_⟩
          by_cases hkk : k = k'
          · exact hkk ▸ ih
          · refine ReflTransGen.tail ih ⟨ht.edge hk' hkk, ?_⟩
            rintro (⟨rfl, rfl⟩ | ⟨rfl, rfl⟩)
            · exact hts (sepEnd.unique h hkk ht hk' hi hjs)
            · exact hts (sepEnd.unique h hkk ht hk' hjs hi)
        | sep t =>
          obtain ⟨k, rfl, hk⟩ := (nbRel_sep h).1 hbc.1
          exact ih.2 k hk
    exact (inv _ hpath).1 rfl
  refine ⟨symm, ?_, ?_, ?_⟩
  · intro x
    cases x with
    | clq i =>
      unfold JTShape.neighbours
      refine List.Nodup.map_on ?_ (h.ord_nodup.filter _)
      intro p hp q hq e
      rw [List.mem_filter, decide_eq_true_eq] at hp hq
      simp only [JNode.sep.injEq] at e
      exact (List.idxOf_inj hp.2.1).1 e
    | sep s =>
      cases hp : T.seps[s]? with
      | none => rw [neighbours_sep_none hp]; exact List.nodup_nil
      | some p =>
        rw [neighbours_sep hp]
        refine List.Nodup.map ?_ ((h.cord.nodup_iff.2 List.nodup_range).filter _)
        intro a b hab
        simpa using hab
  · intro x hx
    cases x with
    | clq i => obtain ⟨s, hs, _⟩ := (nbRel_clq h).1 hx; cases hs
    | sep s => obtain ⟨i, hi, _⟩ := (nbRel_sep h).1 hx; cases hi
  · intro x y hxy hpath
    cases x with
    | clq i =>
      obtain ⟨s, rfl, hs⟩ := (nbRel_clq h).1 hxy
      exact key i s hs hpath
    | sep s =>
      obtain ⟨i, rfl, hs⟩ := (nbRel_sep h).1 hxy
      refine key i s hs (conn_symm (cutEdge_symm symm) (conn_mono ?_ hpath))
      intro a b hab
      exact cutEdge_comm.1 hab

/-- The nodes of the tree. -/
def validNode (m : Nat) : JNode → Prop
  | .clq k => k < m
  | .sep s => s + 1 < m

/-- What the message passing needs to know about the levels. -/
structure Plan (T : JTShape) (L : Levels) (r : Nat) (lev : JNode → Nat) (par ch : Nat → Nat) : Prop where
  root : r < T.cliques.length
  odd : L.nodes.length % 2 = 1
  mem : ∀ i (_ : i < L.nodes.length) x, x ∈ L.nodes.getD i [] ↔ validNode T.cliques.length x ∧ lev x = i
  lt : ∀ x, validNode T.cliques.length x → lev x < L.nodes.length
  lnodup : ∀ i, (L.nodes.getD i []).Nodup
  lseps : ∀ i, i % 2 = 1 → i < L.nodes.length → L.seps[i / 2]? = some (L.nodes.getD i [])
  even_clq : ∀ k, k < T.cliques.length → lev (.clq k) % 2 = 0
  lev_root : lev (.clq r) = 0
  up_root : L.marks.up (.clq r) = none
  up_sep : ∀ s, s + 1 < T.cliques.length → L.marks.up (.sep s) = some (.clq (par s))
  down_sep : ∀ s, s + 1 < T.cliques.length → L.marks.down (.sep s) = [.clq (ch s)]
  par_end : ∀ s, s + 1 < T.cliques.length → sepEnd T s (par s)
  ch_end : ∀ s, s + 1 < T.cliques.length → sepEnd T s (ch s)
  par_ne : ∀ s, s + 1 < T.cliques.length → par s ≠ ch s
  lev_sep : ∀ s, s + 1 < T.cliques.length → lev (.sep s) = lev (.clq (par s)) + 1
  lev_ch : ∀ s, s + 1 < T.cliques.length → lev (.clq (ch s)) = lev (.sep s) + 1
  up_ch : ∀ s, s + 1 < T.cliques.length → L.marks.up (.clq (ch s)) = some (.sep s)
  exists_ch : ∀ k, k < T.cliques.length → k ≠ r → ∃ s, s + 1 < T.cliques.length ∧ ch s = k
  down_nodup : ∀ k, k < T.cliques.length → (L.marks.down (.clq k)).Nodup
  down_clq : ∀ k, k < T.cliques.length → ∀ y, y ∈ L.marks.down (.clq k) ↔ ∃ s, s + 1 < T.cliques.length ∧ y = .sep s ∧ par s = k

theorem levelChain_get {m : Marks} {rest : List (List JNode)} {vec : List JNode} (h : LevelChain m vec rest) :
    (∀ i, (vec :: rest).getD (i + 1) [] = ((vec :: rest).getD i []).flatMap m.down) ∧
      (∀ i, i < rest.length → (vec :: rest).getD i [] ≠ []) ∧ ∀ i, rest.length ≤ i → (vec :: rest).getD i [] = [] := by
  induction rest generalizing vec with
  | nil =>
    have hv : vec = [] := h
    subst hv
    refine ⟨fun i => ?_, by simp, fun i _ => ?_⟩ <;> cases i <;> simp
  | cons v rest ih =>
    obtain ⟨h1, h2, h3⟩ := h
    obtain ⟨i1, i2, i3⟩ := ih h3
    refine ⟨fun i => ?_, fun i hi => ?_, fun i hi => ?_⟩
    · cases i with
      | zero => simpa using h2
      | succ i => simpa using i1 i
    · cases i with
      | zero => simpa using h1
      | succ i => simpa using i2 i (by simpa using hi)
    · cases i with
      | zero => simp at hi
      | succ i => simpa using i3 i (by simpa using hi)

theorem oddLevels_get {α : Type} (l : List α) (j : Nat) : (oddLevels l)[j]? = l[2 * j + 1]? := by
  induction l using oddLevels.induct generalizing j with
  | case1 x y rest ih =>
    cases j with
    | zero => simp [oddLevels]
    | succ j =>
      rw [oddLevels, List.getElem?_cons_succ, ih j, show 2 * (j + 1) + 1 = (2 * j + 1) + 1 + 1 by ring, List.getElem?_cons_succ,
        List.getElem?_cons_succ]
  | case2 l hl =>
    match l, hl with
    | [], _ => simp [oddLevels]
    | [x], _ => simp [oddLevels]
    | x :: y :: rest, hl => exact absurd rfl (hl x y rest)

theorem oddLevels_length {α : Type} (l : List α) : (oddLevels l).length = l.length / 2 := by
  induction l using oddLevels.induct with
  | case1 x y rest ih => rw [oddLevels, List.length_cons, ih]; simp only [List.length_cons]; omega
  | case2 l hl =>
    match l, hl with
    | [], _ => simp [oddLevels]
    | [x], _ => simp [oddLevels]
    | x :: y :: rest, hl => exact absurd rfl (hl x y rest)

/-- The parent clique of a separator. -/
def parOf (m : Marks) (s : Nat) : Nat :=
  match m.up (.sep s) with
  | some (.clq p) => p
  | _ => 0

/-- The child clique of a separator. -/
def chOf (m : Marks) (s : Nat) : Nat :=
  match m.down (.sep s) with
  | .clq k :: _ => k
  | _ => 0

theorem nbRel_valid {T : JTShape} (h : ShapeOK T) {x y : JNode} (hxy : nbRel T x y) : validNode T.cliques.length y := by
  have := h.count
  cases x with
  | clq i =>
    obtain ⟨s, rfl, hs⟩ := (nbRel_clq h).1 hxy
    have := hs.slt
    show s + 1 < _
    omega
  | sep s =>
    obtain ⟨i, rfl, hs⟩ := (nbRel_sep h).1 hxy
    exact hs.lt h

theorem markLevel_plan {T : JTShape} (h : ShapeOK T) {r : Nat} (hr : r < T.cliques.length) :
    ∃ L lev, markLevel T r = .ok L ∧ Plan T L r lev (parOf L.marks) (chOf L.marks) := by
  classical
  have hT := TreeNb.of_shape h
  have hcount := h.count
  have hnodes : ∀ x y, nbRel T x y → y ∈ (List.range T.cliques.length).map JNode.clq ++ (List.range (T.cliques.length - 1)).map JNode.sep := by
    intro x y hxy
    have := nbRel_valid h hxy
    cases y with
    | clq k => simpa [validNode] using this
    | sep s =>
      have : s + 1 < T.cliques.length := this
      simp
      omega
  obtain ⟨m, rest, e1, hI, hch, -, -⟩ := markLoop_spec hT hnodes (root := JNode.clq r) (by simp [hr]) (2 * T.cliques.length + 2)
    (TravInv.start T (.clq r)) (by simp; omega) (Or.inl (by simp))
  obtain ⟨c1, c2, c3⟩ := levelChain_get hch
  have hP : [] ++ [JNode.clq r] ++ rest.flatten = ([JNode.clq r] :: rest).flatten := by simp
  rw [hP] at hI
  generalize hLs : ([JNode.clq r] :: rest) = Ls at hI c1 c2 c3
  have hlen : Ls.length = rest.length + 1 := by rw [← hLs]; rfl
  have hlv0 : Ls.getD 0 [] = [JNode.clq r] := by rw [← hLs]; rfl
  have hmemP : ∀ x, x ∈ Ls.flatten ↔ ∃ i, x ∈ Ls.getD i [] := by
    intro x
    rw [List.mem_flatten]
    constructor
    · rintro ⟨l, hl, hx⟩
      obtain ⟨i, hi, rfl⟩ := List.getElem_of_mem hl
      exact ⟨i, by rw [getD_of_lt hi]; exact hx⟩
    · rintro ⟨i, hx⟩
      by_cases hi : i < Ls.length
      · rw [getD_of_lt hi] at hx
        exact ⟨_, List.getElem_mem hi, hx⟩
      · rw [List.getD_eq_getElem?_getD, List.getElem?_eq_none (by omega)] at hx
        simp at hx
  have hnd : Ls.flatten.Nodup := by simpa using hI.nodup
  obtain ⟨hnd1, hnd2⟩ := List.nodup_flatten.1 hnd
  have huniq : ∀ x i j, x ∈ Ls.getD i [] → x ∈ Ls.getD j [] → i = j := by
    have aux : ∀ x i j, i < j → x ∈ Ls.getD i [] → x ∈ Ls.getD j [] → False := by
      intro x i j hij hi hj
      by_cases hjl : j < Ls.length
      · rw [getD_of_lt hjl] at hj
        rw [getD_of_lt (by omega : i < Ls.length)] at hi
        exact List.pairwise_iff_getElem.1 hnd2 i j (by omega) hjl hij hi hj
      · rw [List.getD_eq_getElem?_getD, List.getElem?_eq_none (by omega)] at hj
        simp at hj
    intro x i j hi hj
    rcases Nat.lt_trichotomy i j with hij | hij | hij
    · exact (aux x i j hij hi hj).elim
    · exact hij
    · exact (aux x j i hij hj hi).elim
  have hIP : ∀ x, x ∈ Ls.flatten ++ [] ↔ x ∈ Ls.flatten := by simp
  -- every node of the tree is met
  have hvalid : ∀ x, x ∈ Ls.flatten ↔ validNode T.cliques.length x := by
    intro x
    constructor
    · intro hx
      by_cases hxr : x = .clq r
      · subst hxr; exact hr
      · obtain ⟨p, hp⟩ := hI.has_up x ((hIP x).2 hx) hxr
        exact nbRel_valid h (hI.up_some x p hp).2
    · have hclq : ∀ k, k < T.cliques.length → JNode.clq k ∈ Ls.flatten := by
        intro k hk
        have hpath := h.jt.path hr hk
        have aux : ∀ j, ReflTransGen (within (clqHas T.cliques) (sepEdge T.seps) r k) r j → JNode.clq j ∈ Ls.flatten := by
          intro j hj
          induction hj with
          | refl => exact (hIP _).1 hI.root_mem
          | @tail b c _ hbc ih =>
            obtain ⟨s, hs1, hs2⟩ := sepEnd.exists_of_edge hbc.1
            have h1 := (hIP _).1 (hI.closed _ _ ih ((nbRel_clq h).2 ⟨s, rfl, hs1⟩))
            exact (hIP _).1 (hI.closed _ _ h1 ((nbRel_sep h).2 ⟨c, rfl, hs2⟩))
        exact aux k hpath
      intro hx
      cases x with
      | clq k => exact hclq k hx
      | sep s =>
        have hs : s < T.seps.length := by
          have : s + 1 < T.cliques.length := hx
          omega
        have he : sepEnd T s T.seps[s].1 := ⟨_, List.getElem?_eq_getElem hs, Or.inl rfl⟩
        exact (hIP _).1 (hI.closed _ _ (hclq _ (he.lt h)) ((nbRel_clq h).2 ⟨s, rfl, he⟩))
  -- levels
  have hex : ∀ x, validNode T.cliques.length x → ∃ i, x ∈ Ls.getD i [] := fun x hx => (hmemP x).1 ((hvalid x).2 hx)
  let lev : JNode → Nat := fun x => if hx : ∃ i, x ∈ Ls.getD i [] then hx.choose else 0
  have hlev : ∀ i x, x ∈ Ls.getD i [] → lev x = i := by
    intro i x hx
    have hx' : ∃ i, x ∈ Ls.getD i [] := ⟨i, hx⟩
    have : lev x = hx'.choose := dif_pos hx'
    rw [this]
    exact huniq x _ i hx'.choose_spec hx
  have hlevmem : ∀ x, validNode T.cliques.length x → x ∈ Ls.getD (lev x) [] := by
    intro x hx
    obtain ⟨i, hi⟩ := hex x hx
    rw [hlev i x hi]; exact hi
  have hstep : ∀ x y, m.up y = some x → lev y = lev x + 1 := by
    intro x y hxy
    have hy := (hI.link x y).1 hxy
    have hx := (hI.up_some y x hxy).1
    have hx := hlevmem x ((hvalid x).1 hx)
    apply hlev
    rw [c1]
    exact List.mem_flatMap.2 ⟨x, hx, hy⟩
  have hdown : ∀ x, validNode T.cliques.length x → m.down x = newNodes T m x := fun x hx => hI.down_done x ((hvalid x).2 hx)
  have hlevlt : ∀ x, validNode T.cliques.length x → lev x < rest.length := by
    intro x hx
    by_contra hn
    have := hlevmem x hx
    rw [c3 _ (by omega)] at this
    simp at this
  have hpar : ∀ i x, x ∈ Ls.getD i [] → ((∃ k, x = JNode.clq k) ↔ i % 2 = 0) := by
    intro i
    induction i with
    | zero =>
      intro x hx
      rw [hlv0, List.mem_singleton] at hx
      subst hx
      simp
    | succ i ih =>
      intro y hy
      rw [c1, List.mem_flatMap] at hy
      obtain ⟨x, hx, hxy⟩ := hy
      have hnb := (hI.up_some y x ((hI.link x y).2 hxy)).2
      have := ih x hx
      cases x with
      | clq k =>
        obtain ⟨s, rfl, _⟩ := (nbRel_clq h).1 hnb
        have : i % 2 = 0 := this.1 ⟨k, rfl⟩
        simp
        omega
      | sep s =>
        obtain ⟨k, rfl, _⟩ := (nbRel_sep h).1 hnb
        have : ¬ i % 2 = 0 := fun e => by obtain ⟨k, hk⟩ := this.2 e; cases hk
        simp
        omega
  -- separators
  have hsep : ∀ s, s + 1 < T.cliques.length → m.up (.sep s) = some (.clq (parOf m s)) ∧ m.down (.sep s) = [.clq (chOf m s)] ∧
      sepEnd T s (parOf m s) ∧ sepEnd T s (chOf m s) ∧ parOf m s ≠ chOf m s := by
    intro s hs
    have hv : validNode T.cliques.length (.sep s) := hs
    obtain ⟨y, hy⟩ := hI.has_up (.sep s) ((hIP _).2 ((hvalid _).2 hv)) (by simp)
    obtain ⟨_, hnb⟩ := hI.up_some _ y hy
    obtain ⟨p, rfl, hp⟩ := (nbRel_sep h).1 (hT.symm _ _ hnb)
    have hp1 : parOf m s = p := by unfold parOf; rw [hy]
    have hsl : s < T.seps.length := by omega
    have hother : ∃ k, sepEnd T s k ∧ k ≠ p ∧ ∀ j, sepEnd T s j → j ≠ p → j = k := by
      obtain ⟨q, hq, hqp⟩ := hp
      have hlt := h.lt q (List.mem_of_getElem? hq)
      rcases hqp with rfl | rfl
      · refine ⟨q.2, ⟨q, hq, Or.inr rfl⟩, by omega, ?_⟩
        rintro j ⟨q', hq', hj⟩ hne
        rw [hq] at hq'; cases hq'
        exact (hj.resolve_left (fun e => hne e.symm)).symm
      · refine ⟨q.1, ⟨q, hq, Or.inl rfl⟩, by omega, ?_⟩
        rintro j ⟨q', hq', hj⟩ hne
        rw [hq] at hq'; cases hq'
        exact (hj.resolve_right (fun e => hne e.symm)).symm
    obtain ⟨k, hk, hkp, hku⟩ := hother
    have hd : m.down (.sep s) = [.clq k] := by
      rw [hdown _ hv]
      have hnd' : (newNodes T m (.sep s)).Nodup := (hT.nodup _).filter _
      have hperm : (newNodes T m (.sep s)).Perm [JNode.clq k] := by
        rw [List.perm_ext_iff_of_nodup hnd' (by simp)]
        intro y
        unfold newNodes
        rw [List.mem_filter, List.mem_singleton]
        have e : y ∈ T.neighbours (.sep s) ↔ _ := nbRel_sep h (y := y)
        rw [e, hy]
        constructor
        · rintro ⟨⟨i, rfl, hi⟩, hne⟩
          rw [hku i hi (fun e => by simp [e] at hne)]
        · rintro rfl
          exact ⟨⟨k, rfl, hk⟩, by simpa using hkp⟩
      exact List.perm_singleton.1 hperm
    have hc1 : chOf m s = k := by unfold chOf; rw [hd]
    rw [hp1, hc1]
    exact ⟨hy, hd, hp, hk, fun e => hkp e.symm⟩
  have hupch : ∀ s, s + 1 < T.cliques.length → m.up (.clq (chOf m s)) = some (.sep s) := by
    intro s hs
    rw [hI.link, (hsep s hs).2.1]
    simp
  -- the deepest level consists of cliques
  have hD : rest.length % 2 = 1 := by
    by_contra hne
    have hpos : 0 < rest.length := by
      by_contra h0
      have := c3 0 (by omega)
      rw [hlv0] at this
      cases this
    have hlast := c2 (rest.length - 1) (by omega)
    obtain ⟨x, hx⟩ := List.exists_mem_of_ne_nil _ hlast
    have := hpar _ x hx
    cases x with
    | clq k =>
      have := this.1 ⟨k, rfl⟩
      omega
    | sep s =>
      have hv : validNode T.cliques.length (.sep s) := (hvalid _).1 ((hmemP _).2 ⟨_, hx⟩)
      have hs := hlev _ _ hx
      have h2 := hstep _ _ (hupch s hv)
      have h3 := hlevlt (.clq (chOf m s)) ((hsep s hv).2.2.2.1.lt h)
      omega
  have hget : ∀ i, Ls.dropLast.getD i [] = Ls.getD i [] := by
    intro i
    by_cases hi : i < rest.length
    · rw [getD_of_lt (by rw [List.length_dropLast]; omega), List.getElem_dropLast, getD_of_lt (by omega : i < Ls.length)]
    · rw [c3 i (by omega), List.getD_eq_getElem?_getD, List.getElem?_eq_none (by rw [List.length_dropLast]; omega)]
      rfl
  refine ⟨⟨m, Ls.dropLast, (oddLevels Ls).dropLast⟩, lev, ?_, ?_⟩
  · unfold markLevel
    rw [e1, ok_bind]
    simp only [hLs]
    rfl
  · have hnl : Ls.dropLast.length = rest.length := by rw [List.length_dropLast]; omega
    refine ⟨hr, ?_, ?_, ?_, ?_, ?_, ?_, ?_, hI.up_root, fun s hs => (hsep s hs).1, fun s hs => (hsep s hs).2.1,
      fun s hs => (hsep s hs).2.2.1, fun s hs => (hsep s hs).2.2.2.1, fun s hs => (hsep s hs).2.2.2.2,
      fun s hs => hstep _ _ (hsep s hs).1, fun s hs => hstep _ _ (hupch s hs), hupch, ?_, ?_, ?_⟩
    · show Ls.dropLast.length % 2 = 1
      rw [hnl]; exact hD
    · intro i _ x
      show x ∈ Ls.dropLast.getD i [] ↔ _
      rw [hget]
      constructor
      · intro hx
        exact ⟨(hvalid x).1 ((hmemP x).2 ⟨i, hx⟩), hlev i x hx⟩
      · rintro ⟨hv, rfl⟩
        exact hlevmem x hv
    · intro x hx
      show lev x < Ls.dropLast.length
      rw [hnl]; exact hlevlt x hx
    · intro i
      show (Ls.dropLast.getD i []).Nodup
      rw [hget]
      by_cases hi : i < Ls.length
      · rw [getD_of_lt hi]; exact hnd1 _ (List.getElem_mem hi)
      · rw [List.getD_eq_getElem?_getD, List.getElem?_eq_none (by omega)]
        exact List.nodup_nil
    · intro i hi hil
      show (oddLevels Ls).dropLast[i / 2]? = some (Ls.dropLast.getD i [])
      have hil : i < Ls.dropLast.length := hil
      rw [hnl] at hil
      rw [hget, List.getElem?_dropLast, if_pos (by rw [oddLevels_length, hlen]; omega), oddLevels_get, show 2 * (i / 2) + 1 = i by omega,
        getD_of_lt (by omega : i < Ls.length), List.getElem?_eq_getElem (by omega : i < Ls.length)]
    · intro k hk
      exact (hpar _ _ (hlevmem (.clq k) hk)).1 ⟨k, rfl⟩
    · exact hlev 0 _ (by rw [hlv0]; simp)
    · intro k hk hkr
      obtain ⟨y, hy⟩ := hI.has_up (.clq k) ((hIP _).2 ((hvalid _).2 hk)) (by simpa using hkr)
      obtain ⟨hyP, hnb⟩ := hI.up_some _ y hy
      obtain ⟨s, rfl, hs⟩ := (nbRel_clq h).1 (hT.symm _ _ hnb)
      have hv : s + 1 < T.cliques.length := (hvalid _).1 hyP
      refine ⟨s, hv, ?_⟩
      have := (hI.link _ _).1 hy
      rw [(hsep s hv).2.1] at this
      rw [List.mem_singleton, JNode.clq.injEq] at this
      exact this.symm
    · intro k hk
      show (m.down (.clq k)).Nodup
      rw [hdown (.clq k) hk]
      exact (hT.nodup _).filter _
    · intro k hk y
      show y ∈ m.down (.clq k) ↔ _
      rw [← hI.link]
      constructor
      · intro hy
        obtain ⟨_, hnb⟩ := hI.up_some y _ hy
        obtain ⟨s, rfl, hs⟩ := (nbRel_clq h).1 hnb
        refine ⟨s, by have := hs.slt; omega, rfl, ?_⟩
        show parOf m s = k
        unfold parOf; rw [hy]
      · rintro ⟨s, hs, rfl, hp⟩
        have hp : parOf m s = k := hp
        rw [(hsep s hs).1, hp]

theorem Plan.ch_inj {T : JTShape} {L : Levels} {r : Nat} {lev : JNode → Nat} {par ch : Nat → Nat} (hp : Plan T L r lev par ch) {s t : Nat}
    (hs : s + 1 < T.cliques.length) (ht : t + 1 < T.cliques.length) (e : ch s = ch t) : s = t := by
  have h1 := hp.up_ch s hs
  rw [e, hp.up_ch t ht] at h1
  simpa using h1.symm

/-- Running intersection: what the child clique of a separator shares with a clique that is not deeper is in the parent clique. -/
theorem Plan.rip {T : JTShape} (h : ShapeOK T) {L : Levels} {r : Nat} {lev : JNode → Nat} {par ch : Nat → Nat} (hp : Plan T L r lev par ch)
    {s j v : Nat} (hs : s + 1 < T.cliques.length) (hj : j < T.cliques.length) (hlev : lev (.clq j) ≤ lev (.clq (ch s))) (hne : j ≠ ch s)
    (h1 : clqHas T.cliques (ch s) v) (h2 : clqHas T.cliques j v) : clqHas T.cliques (par s) v := by
  let D : Nat → Prop := fun x => ReflTransGen (fun a b => ∃ t, t + 1 < T.cliques.length ∧ ch t = a ∧ par t = b) x (ch s)
  have hD : ∀ x, D x → x = ch s ∨ lev (.clq (ch s)) < lev (.clq x) := by
    intro x hx
    change ReflTransGen _ x (ch s) at hx
    induction hx using ReflTransGen.head_induction_on with
    | refl => exact Or.inl rfl
    | @head a c hac _ ih =>
      right
      obtain ⟨t, ht, rfl, rfl⟩ := hac
      have e1 := hp.lev_ch t ht
      have e2 := hp.lev_sep t ht
      rcases ih with ih | ih
      · rw [← ih]; omega
      · omega
  have hDj : ¬ D j := by
    intro hx
    rcases hD j hx with e | e
    · exact hne e
    · omega
  have hk : ch s < T.cliques.length := (hp.ch_end s hs).lt h
  rcases last_crossing (A := D) (h.jt.path hk hj) hDj with ⟨hn, _⟩ | ⟨x, y, _, hx, hxy, hy, _⟩
  · exact absurd .refl hn
  · obtain ⟨t, ht1, ht2⟩ := sepEnd.exists_of_edge hxy.1
    have ht : t + 1 < T.cliques.length := by have := ht1.slt; have := h.count; omega
    have hxy' : x ≠ y := fun e => hy (e ▸ hx)
    have hends : ∀ i, sepEnd T t i → i = par t ∨ i = ch t := by
      rintro i ⟨q, hq, hi⟩
      obtain ⟨q1, hq1, hp1⟩ := hp.par_end t ht
      obtain ⟨q2, hq2, hp2⟩ := hp.ch_end t ht
      rw [hq] at hq1 hq2
      cases hq1; cases hq2
      have := hp.par_ne t ht
      omega
    rcases hends x ht1 with ex | ex
    · rcases hends y ht2 with ey | ey
      · exact absurd (ex.trans ey.symm) hxy'
      · exact absurd (ReflTransGen.head ⟨t, ht, ey.symm, ex.symm⟩ hx) hy
    · rcases hends y ht2 with ey | ey
      · rcases ReflTransGen.cases_head hx with e | ⟨c, ⟨t', ht', e1, e2⟩, hc⟩
        · have : t = s := hp.ch_inj ht hs (ex.symm.trans e)
          subst this
          rw [← ey]
          exact (hxy.2 v h1 h2).2
        · have : t' = t := hp.ch_inj ht' ht (e1.trans ex)
          subst this
          exact absurd ((ey.trans e2).symm ▸ hc) hy
      · exact absurd (ex.trans ey.symm) hxy'

theorem getMaxLevel_ok {T : JTShape} (h : ShapeOK T) {r : Nat} (hr : r < T.cliques.length) : ∃ n, getMaxLevel T r = .ok n := by
  obtain ⟨L, lev, e, -⟩ := markLevel_plan h hr
  unfold markLevel at e
  unfold getMaxLevel
  cases hm : markLoop T (2 * T.cliques.length + 2) {} [JNode.clq r] with
  | error f => rw [hm] at e; cases e
  | ok v => exact ⟨v.2.length, rfl⟩

theorem chooseRoot_ok {T : JTShape} (h : ShapeOK T) : ∃ r, chooseRoot T = .ok r ∧ r < T.cliques.length := by
  obtain ⟨n, hn⟩ := getMaxLevel_ok h h.pos
  have key : ∀ (l : List Nat), (∀ k ∈ l, k + 1 < T.cliques.length) → ∀ st : Nat × Nat, st.2 < T.cliques.length →
      ∃ st', l.foldlM (fun (st : Nat × Nat) k => do
        let m ← getMaxLevel T (k + 1)
        if m < st.1 then return (m, k + 1) else return st) st = Except.ok (ε := Fault) st' ∧ st'.2 < T.cliques.length := by
    intro l
    induction l with
    | nil => intro _ st hst; exact ⟨st, rfl, hst⟩
    | cons k l ih =>
      intro hl st hst
      obtain ⟨n', hn'⟩ := getMaxLevel_ok h (hl k (by simp))
      rw [List.foldlM_cons, hn', ok_bind]
      by_cases hlt : n' < st.1
      · rw [if_pos hlt]
        exact ih (fun k hk => hl k (by simp [hk])) _ (hl k (by simp))
      · rw [if_neg hlt]
        exact ih (fun k hk => hl k (by simp [hk])) _ hst
  obtain ⟨st, h1, h2⟩ := key (List.range (T.cliques.length - 1)) (fun k hk => by rw [List.mem_range] at hk; omega) (n, 0) h.pos
  refine ⟨st.2, ?_, h2⟩
  unfold chooseRoot
  rw [hn, ok_bind, h1, ok_bind]
  rfl

end

end FastPGM
