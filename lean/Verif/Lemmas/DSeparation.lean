import Verif.Spec.DSeparation
import Verif.Lemmas.Orientation4

/-!
d-separation verdicts: the skeleton and the v-structures.
-/

namespace FastPGM

open Spec

variable {D : Nat → Nat → Prop} {S : List Nat}

theorem activePath_reverse {l : List Nat} (h : ActivePath D S l) : ActivePath D S l.reverse := by
  obtain ⟨h1, h2, h3⟩ := h
  refine ⟨List.nodup_reverse.2 h1, ?_, ?_⟩
  · intro u v hi
    have := h2 v u (by
      rw [← List.reverse_infix]
      exact hi)
    exact this.symm
  · intro u v w hi
    have := h3 w v u (by
      rw [← List.reverse_infix]
      exact hi)
    unfold Passes at this ⊢
    rw [and_comm (a := D u v)]
    exact this

theorem dSeparated_symm {x y : Nat} (h : DSeparated D S x y) : DSeparated D S y x := by
  intro l h1 h2 ha
  refine h l.reverse ?_ ?_ (activePath_reverse ha)
  · rw [List.head?_reverse]; exact h2
  · rw [List.getLast?_reverse]; exact h1

theorem infix_pair_cases {x y u v : Nat} (h : [u, v].IsInfix [x, y]) : u = x ∧ v = y := by
  have := h.eq_of_length rfl
  simpa using this

theorem not_dSeparated_of_joined {x y : Nat} (hne : x ≠ y) (h : Joined D x y) : ¬ DSeparated D S x y := by
  intro hs
  refine hs [x, y] rfl rfl ⟨by simpa using hne, ?_, ?_⟩
  · intro u v hi
    obtain ⟨rfl, rfl⟩ := infix_pair_cases hi
    exact h
  · intro u v w hi
    have := hi.length_le
    simp at this

/-- A path of length two that is not blocked. -/
theorem not_dSeparated_of_passes {a b c : Nat} (hn : [a, b, c].Nodup) (h1 : Joined D a b) (h2 : Joined D b c) (h3 : Passes D S a b c) :
    ¬ DSeparated D S a c := by
  intro hs
  refine hs [a, b, c] rfl rfl ⟨hn, ?_, ?_⟩
  · intro u v hi
    rw [List.infix_cons_iff] at hi
    rcases hi with hi | hi
    · rw [List.cons_prefix_cons, List.cons_prefix_cons] at hi
      rw [hi.1, hi.2.1]
      exact h1
    · obtain ⟨rfl, rfl⟩ := infix_pair_cases hi
      exact h2
  · intro u v w hi
    have := hi.eq_of_length rfl
    simp only [List.cons.injEq, and_true] at this
    obtain ⟨rfl, rfl, rfl⟩ := this
    exact h3

/-- An active path that leaves `x` along an arrow and does not end in a descendant of `x` has an opened collider below `x`. -/
theorem opened_collider {x : Nat} (u v : Nat) (rest : List Nat) (hact : ActivePath D S (u :: v :: rest)) (huv : D u v)
    (hv : Relation.TransGen D x v) {y : Nat} (hy : (u :: v :: rest).getLast? = some y) (hny : ¬ Relation.TransGen D x y) :
    ∃ c z, Relation.TransGen D x c ∧ z ∈ S ∧ Relation.ReflTransGen D c z := by
  induction rest generalizing u v with
  | nil =>
    simp at hy
    subst hy
    exact absurd hv hny
  | cons w rest ih =>
    have htail : ActivePath D S (v :: w :: rest) := by
      obtain ⟨h1, h2, h3⟩ := hact
      exact ⟨(List.nodup_cons.1 h1).2, fun a b hi => h2 a b (List.infix_cons hi), fun a b c hi => h3 a b c (List.infix_cons hi)⟩
    have hj := hact.2.1 v w (List.infix_cons (List.IsPrefix.isInfix ⟨rest, rfl⟩))
    rcases hj with hvw | hwv
    · refine ih v w htail hvw (hv.tail hvw) ?_
      rw [List.getLast?_cons_cons] at hy
      exact hy
    · have hp := hact.2.2 u v w (List.IsPrefix.isInfix ⟨rest, rfl⟩)
      rcases hp with ⟨_, z, hz, hvz⟩ | ⟨hn, _⟩
      · exact ⟨v, z, hv, hz, hvz⟩
      · exact absurd ⟨huv, hwv⟩ hn

/-- The parents of a node separate it from every node that is neither joined to it nor a descendant. -/
theorem parents_separate (hD : ¬ Cyclic D) {x y : Nat} (hne : x ≠ y) (hxy : ¬ Joined D x y) (hdesc : ¬ Relation.TransGen D x y)
    (hS : ∀ z, z ∈ S ↔ D z x) : DSeparated D S x y := by
  intro l hh hl hact
  match l with
  | [] => cases hh
  | [a] =>
    simp at hh hl
    omega
  | [a, b] =>
    simp at hh hl
    subst hh hl
    exact hxy (hact.2.1 a b (List.infix_refl _))
  | a :: b :: c :: rest =>
    simp at hh
    subst hh
    rcases hact.2.1 a b (List.IsPrefix.isInfix ⟨c :: rest, rfl⟩) with h1 | h1
    · obtain ⟨v, z, h2, h3, h4⟩ := opened_collider a b (c :: rest) hact h1 (.single h1) hl hdesc
      exact hD ⟨a, (h2.trans_left h4).tail ((hS z).1 h3)⟩
    · rcases hact.2.2 a b c (List.IsPrefix.isInfix ⟨rest, rfl⟩) with ⟨⟨h2, _⟩, _⟩ | ⟨_, h2⟩
      · exact hD ⟨a, (Relation.TransGen.single h2).tail h1⟩
      · exact h2 ((hS b).2 h1)

open Classical in
/-- The parents of a node in increasing order. -/
noncomputable def parentList (D : Nat → Nat → Prop) (n x : Nat) : List Nat := (List.range n).filter (fun z => D z x)

variable {n : Nat} {ind : Nat → Nat → List Nat → Bool}

open Classical in
theorem mem_parentList (h : DOracle D n ind) {x z : Nat} : z ∈ parentList D n x ↔ D z x := by
  unfold parentList
  rw [List.mem_filter, List.mem_range, decide_eq_true_iff]
  exact ⟨fun h1 => h1.2, fun h1 => ⟨(h.range _ _ h1).1, h1⟩⟩

theorem parentList_sorted (x : Nat) : (parentList D n x).Pairwise (· < ·) := List.pairwise_lt_range.filter _

theorem Spec.DOracle.irrefl (h : DOracle D n ind) {x : Nat} : ¬ D x x := fun h1 => h.acyclic ⟨x, .single h1⟩

theorem skeletonAt_antitone {d e : Nat} (hde : d ≤ e) {x y : Nat} (h : skeletonAt ind n e x y) : skeletonAt ind n d x y := by
  induction e with
  | zero =>
    have : d = 0 := by omega
    subst this
    exact h
  | succ e ih =>
    rcases Nat.lt_or_ge d (e + 1) with h1 | h1
    · exact ih (by omega) h.1
    · have : d = e + 1 := by omega
      subst this
      exact h

theorem skeletonAt_symm (d : Nat) {x y : Nat} (h : skeletonAt ind n d x y) : skeletonAt ind n d y x := by
  induction d with
  | zero => exact ⟨h.2.1, h.1, Ne.symm h.2.2⟩
  | succ d ih =>
    refine ⟨ih h.1, ?_⟩
    rw [Nat.min_comm, Nat.max_comm]
    exact h.2

/-- Joined nodes are never separable. -/
theorem joined_stays (h : DOracle D n ind) (d : Nat) {x y : Nat} (hxy : Joined D x y) : skeletonAt ind n d x y := by
  have hne : x ≠ y := by
    rintro rfl
    rcases hxy with h1 | h1 <;> exact h.irrefl h1
  have hlt : x < n ∧ y < n := by
    rcases hxy with h1 | h1
    · exact h.range _ _ h1
    · exact (h.range _ _ h1).symm
  induction d with
  | zero => exact ⟨hlt.1, hlt.2, hne⟩
  | succ d ih =>
    refine ⟨ih, ?_⟩
    rintro ⟨S, hs, _, hi, hz⟩
    have hmm : min x y < max x y := by omega
    have hrange : ∀ z ∈ S, z < n ∧ z ≠ min x y ∧ z ≠ max x y := by
      have hsk : ∀ a b, skeletonAt ind n d a b → b < n ∧ a ≠ b := fun a b hab => (skeletonAt_antitone (Nat.zero_le d) hab).2
      intro z hzS
      rcases hz with h1 | h1
      · obtain ⟨h2, h3⟩ := h1 z hzS
        obtain ⟨h4, h5⟩ := hsk _ _ h2
        exact ⟨h4, Ne.symm h5, h3⟩
      · obtain ⟨h2, h3⟩ := h1 z hzS
        obtain ⟨h4, h5⟩ := hsk _ _ h2
        exact ⟨h4, h3, Ne.symm h5⟩
    have hsep := (h.verdict _ _ S hmm (by omega) hs hrange).1 hi
    refine not_dSeparated_of_joined (by omega) ?_ hsep
    rcases Nat.lt_or_gt_of_ne hne with h1 | h1
    · rw [Nat.min_eq_left (by omega), Nat.max_eq_right (by omega)]
      exact hxy
    · rw [Nat.min_eq_right (by omega), Nat.max_eq_left (by omega)]
      exact hxy.symm

/-- After all levels up to the largest number of parents exactly the joined pairs remain. -/
theorem skeleton_joined (h : DOracle D n ind) {depth : Nat} (hdepth : FewParents D depth) {x y : Nat} :
    skeletonAt ind n depth x y ↔ Joined D x y := by
  refine ⟨fun hxy => ?_, joined_stays h depth⟩
  by_contra hj
  obtain ⟨hx, hy, hne⟩ : x < n ∧ y < n ∧ x ≠ y := skeletonAt_antitone (Nat.zero_le depth) hxy
  have hne' : ∀ u v, ¬ (Relation.TransGen D u v ∧ Relation.TransGen D v u) := fun u v h1 => h.acyclic ⟨u, h1.1.trans h1.2⟩
  -- the parents of `u` separate `u` from `v`
  have key : ∀ u v, u < n → v < n → u ≠ v → ¬ Joined D u v → ¬ Relation.TransGen D u v → skeletonAt ind n depth u v → False := by
    intro u v hu hv huv hnj hdesc hsk
    have hS : ∀ z, z ∈ parentList D n u ↔ D z u := fun z => mem_parentList h
    have hlen : (parentList D n u).length < depth := hdepth u _ (nodup_of_sorted (parentList_sorted u)) (fun z hz => (hS z).1 hz)
    have hsep : DSeparated D (parentList D n u) u v := parents_separate h.acyclic huv hnj hdesc hS
    have hlevel := (skeletonAt_antitone (show (parentList D n u).length + 1 ≤ depth by omega) hsk).2
    have hz : ∀ z ∈ parentList D n u, skeletonAt ind n (parentList D n u).length u z ∧ z ≠ v := by
      intro z hz
      have h1 := (hS z).1 hz
      refine ⟨joined_stays h _ (Or.inr h1), ?_⟩
      rintro rfl
      exact hnj (Or.inr h1)
    have hr : ∀ z ∈ parentList D n u, z < n ∧ z ≠ u ∧ z ≠ v := by
      intro z hz'
      have h1 := (hS z).1 hz'
      refine ⟨(h.range _ _ h1).1, ?_, (hz z hz').2⟩
      rintro rfl
      exact h.irrefl h1
    apply hlevel
    rcases Nat.lt_or_gt_of_ne huv with h1 | h1
    · rw [Nat.min_eq_left (by omega), Nat.max_eq_right (by omega)]
      exact ⟨_, parentList_sorted u, rfl, (h.verdict u v _ h1 hv (parentList_sorted u) hr).2 hsep, Or.inl hz⟩
    · rw [Nat.min_eq_right (by omega), Nat.max_eq_left (by omega)]
      exact ⟨_, parentList_sorted u, rfl, (h.verdict v u _ h1 hu (parentList_sorted u) (fun z hz => ⟨(hr z hz).1, (hr z hz).2.2, (hr z hz).2.1⟩)).2
        (dSeparated_symm hsep), Or.inr hz⟩
  by_cases hd : Relation.TransGen D x y
  · have hsk : skeletonAt ind n depth y x := skeletonAt_symm depth hxy
    exact key y x hy hx (Ne.symm hne) (fun h1 => hj h1.symm) (fun h1 => hne' x y ⟨hd, h1⟩) hsk
  · exact key x y hx hy hne hj hd hxy

end FastPGM
