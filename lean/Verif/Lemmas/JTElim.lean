import Verif.Lemmas.JTMoral
import Verif.Lemmas.JTTree

/-!
Lemmas about the elimination order chosen by `Triangulate` and the cliques it forms.
-/

namespace FastPGM

open Spec

/-- The graph after the elimination of `v`: its neighbours are connected and `v` is removed. -/
def elimGraph (e : Nat → Nat → Prop) (v : Nat) (a b : Nat) : Prop := a ≠ v ∧ b ≠ v ∧ (e a b ∨ (a ≠ b ∧ e v a ∧ e v b))

/-- An elimination of all nodes in `rem` from the graph `e`, with the clique formed for each node. -/
inductive Elim : (Nat → Nat → Prop) → (Nat → Prop) → List (Nat × List Nat) → Prop
  | nil {e : Nat → Nat → Prop} {rem : Nat → Prop} : (∀ a, ¬ rem a) → Elim e rem []
  | cons {e : Nat → Nat → Prop} {rem : Nat → Prop} {v : Nat} {k : List Nat} {ks : List (Nat × List Nat)} : rem v →
      k.Pairwise (· < ·) → (∀ a, a ∈ k ↔ a = v ∨ e v a) → Elim (elimGraph e v) (fun a => rem a ∧ a ≠ v) ks → Elim e rem ((v, k) :: ks)

/-- An undirected graph on `rem`. -/
structure GoodGraph (e : Nat → Nat → Prop) (rem : Nat → Prop) : Prop where
  symm : ∀ a b, e a b → e b a
  irrefl : ∀ a, ¬ e a a
  mem : ∀ a b, e a b → rem a

theorem GoodGraph.mem' {e : Nat → Nat → Prop} {rem : Nat → Prop} (h : GoodGraph e rem) {a b : Nat} (hab : e a b) : rem b :=
  h.mem b a (h.symm a b hab)

theorem GoodGraph.elim {e : Nat → Nat → Prop} {rem : Nat → Prop} (h : GoodGraph e rem) (v : Nat) :
    GoodGraph (elimGraph e v) (fun a => rem a ∧ a ≠ v) := by
  refine ⟨?_, ?_, ?_⟩
  · rintro a b ⟨h1, h2, h3 | ⟨h3, h4, h5⟩⟩
    · exact ⟨h2, h1, Or.inl (h.symm _ _ h3)⟩
    · exact ⟨h2, h1, Or.inr ⟨h3.symm, h5, h4⟩⟩
  · rintro a ⟨_, _, h3 | ⟨h3, _⟩⟩
    · exact h.irrefl a h3
    · exact h3 rfl
  · rintro a b ⟨h1, h2, h3 | ⟨h3, h4, h5⟩⟩
    · exact ⟨h.mem _ _ h3, h1⟩
    · exact ⟨h.mem' h4, h1⟩

/-- The list of cliques kept: a clique contained in a clique kept before is dropped. -/
def keepCliques (acc : List (List Nat)) : List (List Nat) → List (List Nat)
  | [] => acc
  | k :: ks => keepCliques (if acc.any (containedIn k) then acc else acc ++ [k]) ks

theorem containedIn_iff {a b : List Nat} : containedIn a b = true ↔ ∀ v ∈ a, v ∈ b := by
  unfold containedIn
  rw [decide_eq_true_eq, List.filter_eq_self]
  simp

/-! ### The program -/

theorem connectAll_matOf {n : Nat} (l : List Nat) (hn : l.Nodup) (hl : ∀ c ∈ l, c < n) (g : Nat → Nat → Int) :
    connectAll (matOf n g) l = .ok (matOf n (fun a b => if a ≠ b ∧ a ∈ l ∧ b ∈ l then 1 else g a b)) := by
  induction l generalizing g with
  | nil => simp [connectAll]
  | cons x xs ih =>
    unfold connectAll
    have hset := setPairs_matOf (n := n) (x := 1) (xs.map (fun y => (x, y))) (by
      intro p hp
      obtain ⟨y, hy, rfl⟩ := List.mem_map.1 hp
      exact ⟨hl x (by simp), hl y (by simp [hy])⟩) g
    rw [List.foldlM_map] at hset
    rw [hset, ok_bind, ih (List.nodup_cons.1 hn).2 (fun c hc => hl c (by simp [hc]))]
    congr 1
    apply matOf_congr
    intro a _ b _
    have hx := (List.nodup_cons.1 hn).1
    have e1 : ((a, b) ∈ xs.map (fun y => (x, y)) ∨ (b, a) ∈ xs.map (fun y => (x, y))) ↔ (a = x ∧ b ∈ xs) ∨ (b = x ∧ a ∈ xs) := by
      simp only [List.mem_map, Prod.mk.injEq]
      constructor
      · rintro (⟨y, h1, rfl, rfl⟩ | ⟨y, h1, rfl, rfl⟩)
        · exact Or.inl ⟨rfl, h1⟩
        · exact Or.inr ⟨rfl, h1⟩
      · rintro (⟨rfl, h1⟩ | ⟨rfl, h1⟩)
        · exact Or.inl ⟨b, h1, rfl, rfl⟩
        · exact Or.inr ⟨a, h1, rfl, rfl⟩
    simp only [e1]
    by_cases h1 : a ≠ b ∧ a ∈ xs ∧ b ∈ xs
    · rw [if_pos h1, if_pos ⟨h1.1, by simp [h1.2.1], by simp [h1.2.2]⟩]
    · rw [if_neg h1]
      by_cases h2 : (a = x ∧ b ∈ xs) ∨ (b = x ∧ a ∈ xs)
      · rw [if_pos h2, if_pos]
        rcases h2 with ⟨rfl, h3⟩ | ⟨rfl, h3⟩
        · exact ⟨fun e => hx (e ▸ h3), by simp, by simp [h3]⟩
        · exact ⟨fun e => hx (e ▸ h3), by simp [h3], by simp⟩
      · rw [if_neg h2, if_neg]
        rintro ⟨h3, h4, h5⟩
        rcases List.mem_cons.1 h4 with h4 | h4
        · rcases List.mem_cons.1 h5 with h5 | h5
          · exact h3 (h4.trans h5.symm)
          · exact h2 (Or.inl ⟨h4, h5⟩)
        · rcases List.mem_cons.1 h5 with h5 | h5
          · exact h2 (Or.inr ⟨h5, h4⟩)
          · exact h1 ⟨h3, h4, h5⟩

theorem disconnect_matOf {n v : Nat} (hv : v < n) (l : List Nat) (hl : ∀ c ∈ l, c < n) (g : Nat → Nat → Int) :
    disconnect (matOf n g) v l = .ok (matOf n (fun a b => if (a = v ∧ b ∈ l) ∨ (b = v ∧ a ∈ l) then 0 else g a b)) := by
  unfold disconnect
  have hset := setPairs_matOf (n := n) (x := 0) (l.map (fun y => (v, y))) (by
    intro p hp
    obtain ⟨y, hy, rfl⟩ := List.mem_map.1 hp
    exact ⟨hv, hl y hy⟩) g
  rw [List.foldlM_map] at hset
  rw [hset]
  congr 1
  apply matOf_congr
  intro a _ b _
  have e1 : ((a, b) ∈ l.map (fun y => (v, y)) ∨ (b, a) ∈ l.map (fun y => (v, y))) ↔ (a = v ∧ b ∈ l) ∨ (b = v ∧ a ∈ l) := by
    simp only [List.mem_map, Prod.mk.injEq]
    constructor
    · rintro (⟨y, h1, rfl, rfl⟩ | ⟨y, h1, rfl, rfl⟩)
      · exact Or.inl ⟨rfl, h1⟩
      · exact Or.inr ⟨rfl, h1⟩
    · rintro (⟨rfl, h1⟩ | ⟨rfl, h1⟩)
      · exact Or.inl ⟨b, h1, rfl, rfl⟩
      · exact Or.inr ⟨a, h1, rfl, rfl⟩
  simp only [e1]

theorem minNeighbourNode_spec {n : Nat} {g : Nat → Nat → Int} {done : List Bool} (hl : done.length = n)
    (hex : ∃ i : Nat, done[i]? = some false) :
    ∃ b, minNeighbourNode (matOf n g) n done = .ok b ∧ done[b]? = some false := by
  obtain ⟨best, hb, h1, h2⟩ := foldlM_range (f := fun (best : Option (Nat × Nat)) i => do
      let d ← rd done i
      if d then return best
      else
        let l ← matrixNeighbours (matOf n g) n i
        match best with
        | none => return some (i, l.length)
        | some (b, m) => if l.length < m then return some (i, l.length) else (return some (b, m) : Except Fault _))
    (P := fun k best => (∀ b m, best = some (b, m) → done[b]? = some false) ∧ (best = none → ∀ i < k, done[i]? ≠ some false))
    (n := n) (b := none) ⟨by simp, by simp⟩ (by
      intro i hi best ⟨h1, h2⟩
      rw [rd_getElem (by omega), ok_bind]
      have hgi : done[i]? = some done[i] := List.getElem?_eq_getElem (by omega)
      by_cases hd : done[i] = true
      · refine ⟨best, by simp [hd, pure_eq_ok], h1, fun hn k hk => ?_⟩
        rcases Nat.lt_succ_iff_lt_or_eq.1 hk with hk | rfl
        · exact h2 hn k hk
        · rw [hgi, hd]; simp
      · rw [if_neg hd, matrixNeighbours_eq hi, ok_bind]
        have hdi : done[i]? = some false := by rw [hgi]; simpa using hd
        match best, h1, h2 with
        | none, h1, h2 =>
          refine ⟨some (i, _), rfl, ?_, by simp⟩
          rintro b m h
          simp only [Option.some.injEq, Prod.mk.injEq] at h
          rw [← h.1]; exact hdi
        | some (b, m), h1, h2 =>
          simp only
          split
          · refine ⟨some (i, _), rfl, ?_, by simp⟩
            rintro b m h
            simp only [Option.some.injEq, Prod.mk.injEq] at h
            rw [← h.1]; exact hdi
          · exact ⟨some (b, m), rfl, h1, by simp⟩)
  unfold minNeighbourNode
  erw [hb]
  rw [ok_bind]
  match best, h1, h2 with
  | none, _, h2 =>
    obtain ⟨i, hi⟩ := hex
    have : i < n := by
      rw [← hl]
      exact (List.getElem?_eq_some_iff.1 hi).1
    exact absurd hi (h2 rfl i this)
  | some (b, m), h1, _ => exact ⟨b, rfl, h1 b m rfl⟩

/-- `Triangulate` is an elimination of all nodes. -/
theorem triangulate_spec {n : Nat} (fuel : Nat) {g : Nat → Nat → Int} {e : Nat → Nat → Prop} {done : List Bool} (hl : done.length = n)
    (hg : ∀ a < n, ∀ b < n, (g a b = 1 ↔ e a b)) (hgood : GoodGraph e (fun a => done[a]? = some false))
    (hf : done.countP (fun d => !d) < fuel) (acc : List (List Nat)) :
    ∃ ks, Elim e (fun a => done[a]? = some false) ks ∧
      triangulate n fuel (matOf n g) done acc = .ok (keepCliques acc (ks.map Prod.snd)) := by
  induction fuel generalizing g e done acc with
  | zero => omega
  | succ fuel ih =>
    unfold triangulate
    by_cases hall : done.all id = true
    · refine ⟨[], .nil (fun a ha => ?_), by rw [if_pos hall]; rfl⟩
      have hm := List.mem_of_getElem? ha
      have := List.all_eq_true.1 hall _ hm
      simp at this
    · rw [if_neg hall]
      have hex : ∃ i : Nat, done[i]? = some false := by
        simp only [List.all_eq_true, id] at hall
        push Not at hall
        obtain ⟨x, hx, hx2⟩ := hall
        obtain ⟨i, hi, rfl⟩ := List.getElem_of_mem hx
        exact ⟨i, by rw [List.getElem?_eq_getElem hi]; simpa using hx2⟩
      obtain ⟨v, hv, hvd⟩ := minNeighbourNode_spec (g := g) hl hex
      have hvl : v < done.length := (List.getElem?_eq_some_iff.1 hvd).1
      have hvn : v < n := by omega
      have rem_lt : ∀ a, done[a]? = some false → a < n := fun a ha => by
        have := (List.getElem?_eq_some_iff.1 ha).1; omega
      rw [hv, ok_bind, matrixNeighbours_eq hvn, ok_bind]
      have hnbs : ∀ a, a ∈ (List.range n).filter (fun j => decide (g v j = 1)) ↔ e v a := by
        intro a
        simp only [List.mem_filter, List.mem_range, decide_eq_true_eq]
        constructor
        · rintro ⟨h1, h2⟩; exact (hg v hvn a h1).1 h2
        · intro h1
          have ha := rem_lt a (hgood.mem' h1)
          exact ⟨ha, (hg v hvn a ha).2 h1⟩
      have hnodup : ((List.range n).filter (fun j => decide (g v j = 1))).Nodup := List.nodup_range.filter _
      have hlt : ∀ c ∈ (List.range n).filter (fun j => decide (g v j = 1)), c < n := fun c hc => by
        have := (List.mem_filter.1 hc).1
        simpa using this
      generalize (List.range n).filter (fun j => decide (g v j = 1)) = nbs at hnbs hnodup hlt
      rw [connectAll_matOf nbs hnodup hlt, ok_bind]
      simp only []
      rw [wr_ok hvl, ok_bind, disconnect_matOf hvn nbs hlt, ok_bind]
      have hrem : ∀ a, (done.set v true)[a]? = some false ↔ done[a]? = some false ∧ a ≠ v := by
        intro a
        rw [List.getElem?_set]
        by_cases h : v = a
        · subst h; simp [hvl]
        · simp [h, Ne.symm h]
      have hrem' : (fun a => (done.set v true)[a]? = some false) = (fun a => done[a]? = some false ∧ a ≠ v) :=
        funext fun a => propext (hrem a)
      obtain ⟨ks, h1, h2⟩ := ih (e := elimGraph e v)
        (g := fun a b => if (a = v ∧ b ∈ nbs) ∨ (b = v ∧ a ∈ nbs) then 0 else if a ≠ b ∧ a ∈ nbs ∧ b ∈ nbs then 1 else g a b)
        (done := done.set v true) (by simpa using hl) (by
          intro a ha b hb
          unfold elimGraph
          by_cases h1 : (a = v ∧ b ∈ nbs) ∨ (b = v ∧ a ∈ nbs)
          · simp only [if_pos h1]
            constructor
            · intro h; exact absurd h (by decide)
            · rintro ⟨h2, h3, _⟩
              rcases h1 with ⟨h1, _⟩ | ⟨h1, _⟩
              · exact absurd h1 h2
              · exact absurd h1 h3
          · simp only [if_neg h1]
            simp only [hnbs] at h1
            by_cases h2 : a ≠ b ∧ a ∈ nbs ∧ b ∈ nbs
            · simp only [if_pos h2, true_iff]
              simp only [hnbs] at h2
              refine ⟨fun h => hgood.irrefl v (h ▸ h2.2.1), fun h => hgood.irrefl v (h ▸ h2.2.2), Or.inr h2⟩
            · rw [if_neg h2, hg a ha b hb]
              simp only [hnbs] at h2
              constructor
              · intro h3
                refine ⟨fun h => h1 (Or.inl ⟨h, h ▸ h3⟩), fun h => h1 (Or.inr ⟨h, ?_⟩), Or.inl h3⟩
                exact hgood.symm _ _ (h ▸ h3)
              · rintro ⟨_, _, h3 | h3⟩
                · exact h3
                · exact absurd h3 h2)
        (by rw [hrem']; exact hgood.elim v)
        (by
          have : (done.set v true).countP (fun d => !d) + 1 = done.countP (fun d => !d) := by
            rw [List.countP_set (h := hvl)]
            have h3 : done[v] = false := by
              rw [List.getElem?_eq_getElem hvl] at hvd; simpa using hvd
            have h4 : 0 < done.countP (fun d => !d) := by
              rw [List.countP_pos_iff]
              exact ⟨done[v], List.getElem_mem _, by rw [h3]; rfl⟩
            simp [h3]
            omega
          omega)
        (if acc.any (containedIn (sortedSet (v :: nbs))) then acc else acc ++ [sortedSet (v :: nbs)])
      refine ⟨(v, sortedSet (v :: nbs)) :: ks, .cons hvd (sortedSet_sorted _) (fun a => ?_) (hrem' ▸ h1), ?_⟩
      · rw [mem_sortedSet, List.mem_cons, hnbs]
      · exact h2

end FastPGM
