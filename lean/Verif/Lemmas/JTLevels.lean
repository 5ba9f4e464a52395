import Verif.Lemmas.JTTree
import Verif.Model.JunctionTree
import Verif.Lemmas.Except
import Mathlib.Data.List.Perm.Subperm

/-!
The traversal `MarkLevel` of a tree: every node is met exactly once, its children are its neighbours except its parent.
-/

namespace FastPGM

open Relation

/-- `y` is a neighbour of `x`. -/
def nbRel (T : JTShape) (x y : JNode) : Prop := y ∈ T.neighbours x

/-- The neighbour lists describe a forest. -/
structure TreeNb (T : JTShape) : Prop where
  symm : ∀ x y, nbRel T x y → nbRel T y x
  nodup : ∀ x, (T.neighbours x).Nodup
  irrefl : ∀ x, ¬ nbRel T x x
  bridge : ∀ x y, nbRel T x y → ¬ ReflTransGen (cutEdge (nbRel T) x y) x y

/-- The nodes that become children of `x`. -/
def newNodes (T : JTShape) (m : Marks) (x : JNode) : List JNode := (T.neighbours x).filter (fun y => some y ≠ m.up x)

theorem visitNode_eq {T : JTShape} (hirr : ∀ x, ¬ nbRel T x x) (m : Marks) (acc : List JNode) (x : JNode) :
    visitNode T (m, acc) x =
      ({ up := fun z => if z ∈ newNodes T m x then some x else m.up z
         down := fun z => if z = x then m.down x ++ newNodes T m x else m.down z }, acc ++ newNodes T m x) := by
  have key : ∀ (l : List JNode), x ∉ l → ∀ (m' : Marks) (acc : List JNode), m'.up x = m.up x →
      l.foldl (fun (st : Marks × List JNode) y =>
        if some y = st.1.up x then st
        else
          ({ up := fun z => if z = y then some x else st.1.up z
             down := fun z => if z = x then st.1.down x ++ [y] else st.1.down z }, st.2 ++ [y])) (m', acc) =
      ({ up := fun z => if z ∈ l.filter (fun y => some y ≠ m.up x) then some x else m'.up z
         down := fun z => if z = x then m'.down x ++ l.filter (fun y => some y ≠ m.up x) else m'.down z },
        acc ++ l.filter (fun y => some y ≠ m.up x)) := by
    intro l
    induction l with
    | nil =>
      intro _ m' acc _
      simp only [List.foldl_nil, List.filter_nil, List.not_mem_nil, if_false, List.append_nil]
      congr 1
      obtain ⟨u, d⟩ := m'
      congr 1
      funext z
      split
      · rename_i h; rw [h]
      · rfl
    | cons y ys ih =>
      intro hx m' acc hup
      have hxy : x ≠ y := fun e => hx (by simp [e])
      have hxs : x ∉ ys := fun e => hx (by simp [e])
      rw [List.foldl_cons]
      by_cases hy : some y = m'.up x
      · rw [if_pos hy, ih hxs m' acc hup, List.filter_cons_of_neg (by simpa [hup] using hy)]
      · rw [if_neg hy, ih hxs _ _ (by simp [hxy, hup]), List.filter_cons_of_pos (by simpa [hup] using hy)]
        simp only [List.append_assoc, List.singleton_append, if_true]
        congr 1
        congr 1
        · funext z
          by_cases h1 : z ∈ ys.filter (fun y => some y ≠ m.up x)
          · rw [if_pos h1, if_pos (List.mem_cons_of_mem _ h1)]
          · rw [if_neg h1]
            by_cases h2 : z = y
            · rw [if_pos h2, if_pos (by simp [h2])]
            · rw [if_neg h2, if_neg (by rw [List.mem_cons]; tauto)]
        · funext z
          by_cases h1 : z = x
          · rw [if_pos h1, if_pos h1]
          · rw [if_neg h1, if_neg h1, if_neg h1]
  unfold visitNode newNodes
  exact key _ (hirr x) m acc rfl

/-- The state of the traversal: `P` are the nodes already expanded, `Q` the nodes met but not expanded. -/
structure TravInv (T : JTShape) (root : JNode) (P Q : List JNode) (m : Marks) : Prop where
  nodup : (P ++ Q).Nodup
  root_mem : root ∈ P ++ Q
  up_root : m.up root = none
  up_none : ∀ x, x ∉ P ++ Q → m.up x = none
  up_some : ∀ x p, m.up x = some p → p ∈ P ∧ nbRel T p x
  has_up : ∀ x, x ∈ P ++ Q → x ≠ root → ∃ p, m.up x = some p
  down_done : ∀ x, x ∈ P → m.down x = newNodes T m x
  down_none : ∀ x, x ∉ P → m.down x = []
  closed : ∀ x y, x ∈ P → nbRel T x y → y ∈ P ++ Q
  link : ∀ x y, m.up y = some x ↔ y ∈ m.down x
  chain : ∀ x, x ∈ P ++ Q → ReflTransGen (fun a b => m.up a = some b) x root

theorem TravInv.start (T : JTShape) (root : JNode) : TravInv T root [] [root] {} := by
  refine ⟨by simp, by simp, rfl, fun _ _ => rfl, fun x p h => by simp at h, ?_, by simp, fun _ _ => rfl, by simp, by simp, ?_⟩
  · intro x hx hne
    exact absurd (by simpa using hx) hne
  · intro x hx
    rw [List.nil_append, List.mem_singleton] at hx
    subst hx
    exact .refl

theorem TravInv.fresh {T : JTShape} (hT : TreeNb T) {root : JNode} {P Q : List JNode} {m : Marks} {x : JNode} (h : TravInv T root P (x :: Q) m)
    {y : JNode} (hy : y ∈ newNodes T m x) : y ∉ P ++ x :: Q := by
  intro hmem
  have hxy : nbRel T x y := (List.mem_filter.1 hy).1
  have hup : m.up x ≠ some y := fun e => by
    have := (List.mem_filter.1 hy).2
    simp [e] at this
  have hxP : x ∉ P := by
    intro hx
    have := List.nodup_append.1 h.nodup
    exact this.2.2 x hx x (by simp) rfl
  have hsub : ∀ a b, m.up a = some b → cutEdge (nbRel T) x y a b := by
    intro a b hab
    obtain ⟨hb, hba⟩ := h.up_some a b hab
    refine ⟨hT.symm _ _ hba, ?_⟩
    rintro (⟨rfl, rfl⟩ | ⟨rfl, rfl⟩)
    · exact hup hab
    · exact hxP hb
  have hx : x ∈ P ++ x :: Q := by simp
  exact hT.bridge x y hxy ((conn_mono hsub (h.chain x hx)).trans
    (conn_symm (cutEdge_symm hT.symm) (conn_mono hsub (h.chain y hmem))))

theorem TravInv.visit {T : JTShape} (hT : TreeNb T) {root : JNode} {P Q : List JNode} {m : Marks} {x : JNode} (h : TravInv T root P (x :: Q) m)
    (acc : List JNode) :
    ∃ m', visitNode T (m, acc) x = (m', acc ++ newNodes T m x) ∧ TravInv T root (P ++ [x]) (Q ++ newNodes T m x) m' ∧
      (∀ z ∈ P ++ x :: Q, m'.up z = m.up z) ∧ (∀ z, z ≠ x → m'.down z = m.down z) ∧ m'.down x = newNodes T m x := by
  refine ⟨_, visitNode_eq hT.irrefl m acc x, ?_⟩
  have hfresh : ∀ y, y ∈ newNodes T m x → y ∉ P ++ x :: Q := fun y hy => h.fresh hT hy
  have hxP : x ∉ P := by
    intro hx
    have := List.nodup_append.1 h.nodup
    exact this.2.2 x hx x (by simp) rfl
  have hup : ∀ z ∈ P ++ x :: Q, (if z ∈ newNodes T m x then some x else m.up z) = m.up z :=
    fun z hz => if_neg (fun hn => hfresh z hn hz)
  have hmem : ∀ z, z ∈ (P ++ [x]) ++ (Q ++ newNodes T m x) ↔ z ∈ P ++ x :: Q ∨ z ∈ newNodes T m x := by
    intro z; simp only [List.mem_append, List.mem_cons, List.not_mem_nil, or_false]; tauto
  have hnn : ∀ z ∈ P ++ x :: Q, newNodes T { up := fun z => if z ∈ newNodes T m x then some x else m.up z
                                             down := fun z => if z = x then m.down x ++ newNodes T m x else m.down z } z = newNodes T m z := by
    intro z hz
    show (T.neighbours z).filter _ = (T.neighbours z).filter _
    apply List.filter_congr
    intro y _
    simp only [hup z hz]
  refine ⟨⟨?_, ?_, ?_, ?_, ?_, ?_, ?_, ?_, ?_, ?_, ?_⟩, hup, fun z hz => if_neg hz, ?_⟩
  · have : (P ++ [x]) ++ (Q ++ newNodes T m x) = (P ++ x :: Q) ++ newNodes T m x := by simp
    rw [this, List.nodup_append]
    refine ⟨h.nodup, (hT.nodup x).filter _, ?_⟩
    rintro a ha b hb rfl
    exact hfresh a hb ha
  · exact (hmem _).2 (Or.inl h.root_mem)
  · exact (hup root h.root_mem).trans h.up_root
  · intro z hz
    rw [hmem] at hz
    push Not at hz
    show (if z ∈ newNodes T m x then some x else m.up z) = none
    rw [if_neg hz.2]
    exact h.up_none z hz.1
  · intro z p hzp
    change (if z ∈ newNodes T m x then some x else m.up z) = some p at hzp
    by_cases hz : z ∈ newNodes T m x
    · rw [if_pos hz] at hzp
      cases hzp
      exact ⟨by simp, (List.mem_filter.1 hz).1⟩
    · rw [if_neg hz] at hzp
      obtain ⟨h1, h2⟩ := h.up_some z p hzp
      exact ⟨by simp [h1], h2⟩
  · intro z hz hne
    show ∃ p, (if z ∈ newNodes T m x then some x else m.up z) = some p
    by_cases hzn : z ∈ newNodes T m x
    · exact ⟨x, if_pos hzn⟩
    · rw [if_neg hzn]
      exact h.has_up z (((hmem z).1 hz).resolve_right hzn) hne
  · intro z hz
    show (if z = x then m.down x ++ newNodes T m x else m.down z) = _
    by_cases hzx : z = x
    · subst hzx
      rw [hnn z (by simp), if_pos rfl, h.down_none z hxP, List.nil_append]
    · have hzP : z ∈ P := by
        rcases List.mem_append.1 hz with hz | hz
        · exact hz
        · exact absurd (by simpa using hz) hzx
      rw [if_neg hzx, h.down_done z hzP, hnn z (by simp [hzP])]
  · intro z hz
    have hzx : z ≠ x := fun e => hz (by simp [e])
    show (if z = x then m.down x ++ newNodes T m x else m.down z) = []
    rw [if_neg hzx]
    exact h.down_none z (fun hzP => hz (by simp [hzP]))
  · intro z y hz hzy
    rw [hmem]
    rcases List.mem_append.1 hz with hz | hz
    · exact Or.inl (h.closed z y hz hzy)
    · rw [List.mem_singleton] at hz
      subst hz
      by_cases hy : m.up z = some y
      · have := (h.up_some z y hy).1
        exact Or.inl (by simp [this])
      · right
        unfold newNodes
        rw [List.mem_filter]
        exact ⟨hzy, by simpa using fun e => hy e.symm⟩
  · intro z y
    show (if y ∈ newNodes T m x then some x else m.up y) = some z ↔ y ∈ if z = x then m.down x ++ newNodes T m x else m.down z
    by_cases hy : y ∈ newNodes T m x
    · rw [if_pos hy]
      have hnone : m.up y = none := h.up_none y (hfresh y hy)
      by_cases hz : z = x
      · subst hz; simp [hy]
      · rw [if_neg hz, ← h.link, hnone]
        simp [Ne.symm hz]
    · rw [if_neg hy, h.link]
      by_cases hz : z = x
      · subst hz; simp [hy]
      · rw [if_neg hz]
  · have old : ∀ z ∈ P ++ x :: Q, ReflTransGen (fun a b => (if a ∈ newNodes T m x then some x else m.up a) = some b) z root := by
      intro z hz
      refine conn_mono ?_ (h.chain z hz)
      intro a b hab
      have ha : a ∈ P ++ x :: Q := by
        by_contra hn
        rw [h.up_none a hn] at hab
        cases hab
      rw [hup a ha]
      exact hab
    intro z hz
    rcases (hmem z).1 hz with hz | hz
    · exact old z hz
    · exact .head (if_pos hz) (old x (by simp))
  · show (if x = x then m.down x ++ newNodes T m x else m.down x) = _
    rw [if_pos rfl, h.down_none x hxP, List.nil_append]

theorem TravInv.level {T : JTShape} (hT : TreeNb T) {root : JNode} (vec : List JNode) {P acc : List JNode} {m : Marks}
    (h : TravInv T root P (vec ++ acc) m) :
    ∃ m' new, vec.foldl (visitNode T) (m, acc) = (m', acc ++ new) ∧ TravInv T root (P ++ vec) (acc ++ new) m' ∧
      new = vec.flatMap m'.down ∧ (∀ z ∈ P, m'.down z = m.down z) ∧ (∀ z ∈ P ++ (vec ++ acc), m'.up z = m.up z) := by
  induction vec generalizing P acc m with
  | nil => exact ⟨m, [], by simp, by simpa using h, by simp, fun _ _ => rfl, fun _ _ => rfl⟩
  | cons x vec ih =>
    obtain ⟨m1, h1, h2, h3, h4, h5⟩ := TravInv.visit hT (x := x) (Q := vec ++ acc) h acc
    rw [List.append_assoc] at h2
    obtain ⟨m2, new, e1, e2, e3, e4, e5⟩ := ih h2
    have hxP : x ∉ P := by
      intro hx
      have := List.nodup_append.1 h.nodup
      exact this.2.2 x hx x (by simp) rfl
    have hd : m2.down x = newNodes T m x := by rw [e4 x (by simp), h5]
    refine ⟨m2, newNodes T m x ++ new, ?_, ?_, ?_, ?_, ?_⟩
    · rw [List.foldl_cons, h1, e1, List.append_assoc]
    · rw [List.append_assoc, List.append_assoc] at e2
      exact e2
    · rw [List.flatMap_cons, hd, e3]
    · intro z hz
      rw [e4 z (by simp [hz]), h4 z (fun e => hxP (e ▸ hz))]
    · intro z hz
      rw [e5 z (by simp only [List.mem_append, List.mem_cons] at hz ⊢; tauto), h3 z hz]

/-- The levels after `vec`: each level lists the children of the previous one, the last one is empty. -/
def LevelChain (m : Marks) : List JNode → List (List JNode) → Prop
  | vec, [] => vec = []
  | vec, v :: rest => vec ≠ [] ∧ v = vec.flatMap m.down ∧ LevelChain m v rest

theorem markLoop_spec {T : JTShape} (hT : TreeNb T) {root : JNode} {nodes : List JNode} (hnodes : ∀ x y, nbRel T x y → y ∈ nodes)
    (hroot : root ∈ nodes) (fuel : Nat) {P vec : List JNode} {m : Marks} (h : TravInv T root P vec m)
    (hf : nodes.length + 1 < fuel + P.length) (hv : vec ≠ [] ∨ 1 ≤ fuel) :
    ∃ m' rest, markLoop T fuel m vec = .ok (m', rest) ∧ TravInv T root (P ++ vec ++ rest.flatten) [] m' ∧ LevelChain m' vec rest ∧
      (∀ z ∈ P, m'.down z = m.down z) ∧ (∀ z ∈ P ++ vec, m'.up z = m.up z) := by
  induction fuel generalizing P vec m with
  | zero =>
    have hsub : ∀ z ∈ P ++ vec, z ∈ nodes := by
      intro z hz
      by_cases hzr : z = root
      · exact hzr ▸ hroot
      · obtain ⟨p, hp⟩ := h.has_up z hz hzr
        exact hnodes p z (h.up_some z p hp).2
    have := (List.subperm_of_subset h.nodup hsub).length_le
    rw [List.length_append] at this
    omega
  | succ fuel ih =>
    unfold markLoop
    by_cases hvec : vec = []
    · subst hvec
      refine ⟨m, [], by simp, by simpa using h, rfl, fun _ _ => rfl, fun _ _ => rfl⟩
    · rw [if_neg hvec]
      have h' : TravInv T root P (vec ++ []) m := by simpa using h
      obtain ⟨m1, new, e1, e2, e3, e4, e5⟩ := TravInv.level hT vec h'
      rw [List.nil_append] at e1 e2
      have hsub : ∀ z ∈ (P ++ vec) ++ new, z ∈ nodes := by
        intro z hz
        by_cases hzr : z = root
        · exact hzr ▸ hroot
        · obtain ⟨p, hp⟩ := e2.has_up z hz hzr
          exact hnodes p z (e2.up_some z p hp).2
      have hlen := (List.subperm_of_subset e2.nodup hsub).length_le
      have hvl : 0 < vec.length := List.length_pos_iff.2 hvec
      rw [List.length_append, List.length_append] at hlen
      obtain ⟨m2, rest, f1, f2, f3, f4, f5⟩ := ih e2 (by rw [List.length_append]; omega) (by
        by_cases hn : new = []
        · right; omega
        · exact Or.inl hn)
      refine ⟨m2, new :: rest, ?_, ?_, ?_, ?_, ?_⟩
      · simp only [e1]
        rw [f1]
        rfl
      · simpa using f2
      · refine ⟨hvec, ?_, f3⟩
        rw [e3]
        apply List.flatMap_congr
        intro z hz
        exact (f4 z (by simp [hz])).symm
      · intro z hz
        rw [f4 z (by simp [hz]), e4 z hz]
      · intro z hz
        rw [f5 z (by simp only [List.mem_append] at hz ⊢; tauto), e5 z (by simpa using hz)]

end FastPGM
