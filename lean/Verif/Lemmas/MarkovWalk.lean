import Verif.Lemmas.DSeparation

/-!
d-connection by walks: a step-by-step formulation of active paths, in which a walk may visit nodes again and every collider is in `S`.
-/

namespace FastPGM

open Spec

variable {D : Nat → Nat → Prop} {S : List Nat}

/-- `Reach D S a v head`: a walk from `a` arrives at `v`, through an arrow into `v` (`head = true`) or out of `v`; the inner colliders of
the walk are in `S`, the other inner nodes are not. -/
inductive Reach (D : Nat → Nat → Prop) (S : List Nat) (a : Nat) : Nat → Bool → Prop
  | startDown {c : Nat} : D a c → Reach D S a c true
  | startUp {p : Nat} : D p a → Reach D S a p false
  | down {v c : Nat} {d : Bool} : Reach D S a v d → v ∉ S → D v c → Reach D S a c true
  | up {v p : Nat} : Reach D S a v false → v ∉ S → D p v → Reach D S a p false
  | bounce {v p : Nat} : Reach D S a v true → v ∈ S → D p v → Reach D S a p false

/-! ### From active paths to walks -/

theorem Reach.open_collider {a v z : Nat} (hz : z ∈ S) (hvz : Relation.ReflTransGen D v z) :
    ∀ {w : Nat}, Reach D S a v true → D w v → Reach D S a w false := by
  induction hvz using Relation.ReflTransGen.head_induction_on with
  | refl => intro w h hw; exact .bounce h hz hw
  | head h1 _ ih =>
    intro w h hw
    rename_i v v' _
    by_cases hv : v ∈ S
    · exact .bounce h hv hw
    · exact .up (ih (.down h hv h1) h1) hv hw

/-- The nodes after `u`, `v` on an active path are reached. -/
theorem Reach.along (hD : ¬ Cyclic D) {a b : Nat} : ∀ (rest : List Nat) (u v : Nat), (∀ u' v', [u', v'].IsInfix (u :: v :: rest) → Joined D u' v') →
    (∀ u' v' w', [u', v', w'].IsInfix (u :: v :: rest) → Passes D S u' v' w') → (v :: rest).getLast? = some b →
    (D u v ∧ Reach D S a v true ∨ ¬ D u v ∧ Reach D S a v false) → ∃ d, Reach D S a b d := by
  intro rest
  induction rest with
  | nil =>
    intro u v _ _ hb h
    simp at hb
    subst hb
    rcases h with h | h
    · exact ⟨_, h.2⟩
    · exact ⟨_, h.2⟩
  | cons w rest ih =>
    intro u v hj hp hb h
    have hjw : Joined D v w := hj v w ⟨[u], rest, rfl⟩
    have hpv : Passes D S u v w := hp u v w ⟨[], rest, rfl⟩
    refine ih v w (fun u' v' h' => hj u' v' (h'.trans ⟨[u], [], by simp⟩)) (fun u' v' w' h' => hp u' v' w' (h'.trans ⟨[u], [], by simp⟩))
      (by simpa using hb) ?_
    rcases hpv with ⟨⟨h1, h2⟩, z, hz, hvz⟩ | ⟨h1, h2⟩
    · rcases h with h | h
      · by_cases hvw : D v w
        · exact absurd ⟨v, .tail (.single hvw) h2⟩ hD
        · exact Or.inr ⟨hvw, Reach.open_collider hz hvz h.2 h2⟩
      · exact absurd h1 h.1
    · by_cases hvw : D v w
      · refine Or.inl ⟨hvw, ?_⟩
        rcases h with h | h
        · exact .down h.2 h2 hvw
        · exact .down h.2 h2 hvw
      · refine Or.inr ⟨hvw, ?_⟩
        have hwv : D w v := hjw.resolve_left hvw
        rcases h with h | h
        · exact absurd ⟨h.1, hwv⟩ h1
        · exact .up h.2 h2 hwv

theorem reach_of_path (hD : ¬ Cyclic D) {a b : Nat} (hab : a ≠ b) {path : List Nat} (h1 : path.head? = some a)
    (h2 : path.getLast? = some b) (h : ActivePath D S path) : ∃ d, Reach D S a b d := by
  match path with
  | [] => simp at h1
  | [c] => simp at h1 h2; exact absurd (h1.symm.trans h2) hab
  | c :: v :: rest =>
    simp at h1
    subst h1
    refine Reach.along hD rest c v h.2.1 h.2.2 (by simpa using h2) ?_
    have hj : Joined D c v := h.2.1 c v ⟨[], rest, rfl⟩
    by_cases hc : D c v
    · exact Or.inl ⟨hc, .startDown hc⟩
    · exact Or.inr ⟨hc, .startUp (hj.resolve_left hc)⟩

/-! ### From walks to active paths -/

/-- The node list is a walk all of whose inner nodes let it pass. -/
def WalkOK (D : Nat → Nat → Prop) (S : List Nat) : List Nat → Prop
  | u :: v :: w :: l => Joined D u v ∧ Passes D S u v w ∧ WalkOK D S (v :: w :: l)
  | [u, v] => Joined D u v
  | _ => True

theorem walkOK_infix {l : List Nat} (h : WalkOK D S l) :
    (∀ u v, [u, v].IsInfix l → Joined D u v) ∧ ∀ u v w, [u, v, w].IsInfix l → Passes D S u v w := by
  induction l with
  | nil => exact ⟨fun u v h => by simp at h, fun u v w h => by simp at h⟩
  | cons x l ih =>
    match l, ih, h with
    | [], _, _ =>
      exact ⟨fun u v h => absurd h.length_le (by simp), fun u v w h => absurd h.length_le (by simp)⟩
    | [y], _, h =>
      refine ⟨fun u v h' => ?_, fun u v w h => absurd h.length_le (by simp)⟩
      obtain ⟨rfl, rfl⟩ := infix_pair_cases h'
      exact h
    | y :: z :: l, ih, h =>
      have ih := ih h.2.2
      constructor
      · intro u v h'
        rcases List.infix_cons_iff.1 h' with h' | h'
        · simp only [List.cons_prefix_cons, List.nil_prefix, and_true] at h'
          rw [h'.1, h'.2]; exact h.1
        · exact ih.1 u v h'
      · intro u v w h'
        rcases List.infix_cons_iff.1 h' with h' | h'
        · simp only [List.cons_prefix_cons, List.nil_prefix, and_true] at h'
          rw [h'.1, h'.2.1, h'.2.2]; exact h.2.1
        · exact ih.2 u v w h'

theorem walkOK_tail {u : Nat} {l : List Nat} (h : WalkOK D S (u :: l)) : WalkOK D S l := by
  match l, h with
  | [], _ => trivial
  | [_], _ => trivial
  | _ :: _ :: _, h => exact h.2.2

theorem walkOK_right {l r : List Nat} (h : WalkOK D S (l ++ r)) : WalkOK D S r := by
  induction l with
  | nil => exact h
  | cons u l ih => exact ih (walkOK_tail h)

theorem walkOK_left {l r : List Nat} (h : WalkOK D S (l ++ r)) : WalkOK D S l := by
  induction l with
  | nil => trivial
  | cons u l ih =>
    have ih := ih (walkOK_tail h)
    match l, h, ih with
    | [], _, _ => trivial
    | [v], h, _ =>
      match r, h with
      | [], h => exact h
      | _ :: _, h => exact h.1
    | v :: w :: l, h, ih => exact ⟨h.1, h.2.1, ih⟩

theorem walkOK_join {l r : List Nat} {v : Nat} (h1 : WalkOK D S (l ++ [v])) (h2 : WalkOK D S (v :: r))
    (h : ∀ u w, l.getLast? = some u → r.head? = some w → Passes D S u v w) : WalkOK D S (l ++ v :: r) := by
  induction l with
  | nil => exact h2
  | cons u l ih =>
    match l, h1, ih, h with
    | [], h1, _, h =>
      match r, h2, h with
      | [], _, _ => exact h1
      | w :: r, h2, h => exact ⟨h1, h u w (by simp) (by simp), h2⟩
    | [x], h1, ih, h => exact ⟨h1.1, h1.2.1, ih h1.2.2 (fun u' w' a b => h u' w' (by simpa using a) b)⟩
    | x :: y :: l, h1, ih, h =>
      exact ⟨h1.1, h1.2.1, ih h1.2.2 (fun u' w' a b => h u' w' (by simpa using a) b)⟩

/-- A walk that leaves `v` downwards meets a collider, or all its edges point forward. -/
theorem walk_down (l : List Nat) (v p q w : Nat) (hl : ∃ m, v :: p :: l = m ++ [q, w]) (h : WalkOK D S (v :: p :: l)) (hvp : D v p) :
    (∃ z ∈ S, Relation.ReflTransGen D v z) ∨ D q w := by
  induction l generalizing v p with
  | nil =>
    obtain ⟨m, hm⟩ := hl
    match m, hm with
    | [], hm => simp at hm; rw [← hm.1, ← hm.2]; exact Or.inr hvp
    | [_], hm => simp at hm
    | _ :: _ :: m, hm => simp at hm
  | cons x l ih =>
    obtain ⟨_, h2, h3⟩ := h
    rcases h2 with ⟨_, z, hz, hpz⟩ | ⟨h2, _⟩
    · exact Or.inl ⟨z, hz, .head hvp hpz⟩
    · have hj : Joined D p x := by
        match l, h3 with
        | [], h3 => exact h3
        | _ :: _, h3 => exact h3.1
      have hpx : D p x := hj.resolve_right (fun h => h2 ⟨hvp, h⟩)
      have hl' : ∃ m, p :: x :: l = m ++ [q, w] := by
        obtain ⟨m, hm⟩ := hl
        match m, hm with
        | [], hm => simp at hm
        | _ :: m, hm => exact ⟨m, by simpa using (List.cons.inj hm).2⟩
      rcases ih p x hl' h3 hpx with ⟨z, hz, h⟩ | h
      · exact Or.inl ⟨z, hz, .head hvp h⟩
      · exact Or.inr h

/-- Cutting out a loop leaves a walk. -/
theorem walk_cut (hD : ¬ Cyclic D) {l m r : List Nat} {v : Nat} (h : WalkOK D S (l ++ v :: (m ++ v :: r))) :
    WalkOK D S (l ++ v :: r) := by
  have hl : WalkOK D S (l ++ [v]) := by
    have : l ++ v :: (m ++ v :: r) = (l ++ [v]) ++ (m ++ v :: r) := by simp
    rw [this] at h; exact walkOK_left h
  have hloop : WalkOK D S (v :: (m ++ [v])) := by
    have : l ++ v :: (m ++ v :: r) = l ++ ((v :: (m ++ [v])) ++ r) := by simp
    rw [this] at h; exact walkOK_left (walkOK_right h)
  have hr : WalkOK D S (v :: r) := by
    have : l ++ v :: (m ++ v :: r) = (l ++ v :: m) ++ v :: r := by simp
    rw [this] at h; exact walkOK_right h
  have hirr : ∀ x, ¬ D x x := fun x h => hD ⟨x, .single h⟩
  refine walkOK_join hl hr (fun u w hu hw => ?_)
  have hm : m ≠ [] := by
    rintro rfl
    rcases hloop with h | h <;> exact hirr v h
  obtain ⟨l', rfl⟩ : ∃ l', l = l' ++ [u] := ⟨l.dropLast, (List.dropLast_append_getLast? u hu).symm⟩
  obtain ⟨r', rfl⟩ : ∃ r', r = w :: r' := by
    match r, hw with
    | x :: r', hw => simp at hw; exact ⟨r', by rw [hw]⟩
  have hq := List.dropLast_append_getLast hm
  generalize m.getLast hm = q at hq
  obtain ⟨p, m', hp⟩ : ∃ p m', m = p :: m' := by
    match m, hm with
    | p :: m', _ => exact ⟨p, m', rfl⟩
  obtain ⟨_, hin⟩ := walkOK_infix h
  have h1 : Passes D S u v p := hin u v p ⟨l', m' ++ v :: w :: r', by rw [hp]; simp⟩
  have h2 : Passes D S q v w := hin q v w ⟨l' ++ u :: v :: m.dropLast, r', by
    conv_rhs => rw [← hq]
    simp⟩
  have hnot : ¬ D p v → ¬ D q v → ∃ z ∈ S, Relation.ReflTransGen D v z := by
    intro h3 h4
    rw [hp] at hloop
    have hj : Joined D v p := (walkOK_infix hloop).1 v p ⟨[], m' ++ [v], by simp⟩
    refine (walk_down (m' ++ [v]) v p q v ⟨v :: m.dropLast, ?_⟩ hloop (hj.resolve_right h3)).resolve_right h4
    have : v :: p :: (m' ++ [v]) = v :: (m ++ [v]) := by rw [hp]; simp
    rw [this]
    conv_lhs => rw [← hq]
    simp
  rcases h1 with ⟨⟨h3, h4⟩, h5⟩ | ⟨h3, h4⟩
  · by_cases hwv : D w v
    · exact Or.inl ⟨⟨h3, hwv⟩, h5⟩
    · refine Or.inr ⟨fun h => hwv h.2, ?_⟩
      rcases h2 with ⟨⟨_, h6⟩, _⟩ | ⟨_, h6⟩
      · exact absurd h6 hwv
      · exact h6
  · by_cases hc : D u v ∧ D w v
    · refine Or.inl ⟨hc, ?_⟩
      rcases h2 with ⟨_, h6⟩ | ⟨h6, _⟩
      · exact h6
      · exact hnot (fun h => h3 ⟨hc.1, h⟩) (fun h => h6 ⟨h, hc.2⟩)
    · exact Or.inr ⟨hc, h4⟩

theorem exists_repeat {l : List Nat} (h : ¬ l.Nodup) : ∃ v a b c, l = a ++ v :: (b ++ v :: c) := by
  induction l with
  | nil => simp at h
  | cons x l ih =>
    rw [List.nodup_cons] at h
    by_cases hx : x ∈ l
    · obtain ⟨b, c, rfl⟩ := List.append_of_mem hx
      exact ⟨x, [], b, c, rfl⟩
    · obtain ⟨v, a, b, c, rfl⟩ := ih (fun h' => h ⟨hx, h'⟩)
      exact ⟨v, x :: a, b, c, rfl⟩

theorem path_of_walk (hD : ¬ Cyclic D) {a b : Nat} : ∀ (k : Nat) (l : List Nat), l.length ≤ k → l.head? = some a → l.getLast? = some b →
    WalkOK D S l → ∃ path, path.head? = some a ∧ path.getLast? = some b ∧ ActivePath D S path := by
  intro k
  induction k with
  | zero =>
    intro l hk ha
    rw [List.length_eq_zero_iff.1 (Nat.le_zero.1 hk)] at ha
    simp at ha
  | succ k ih =>
    intro l hk ha hb h
    by_cases hn : l.Nodup
    · exact ⟨l, ha, hb, hn, walkOK_infix h⟩
    · obtain ⟨v, x, y, z, rfl⟩ := exists_repeat hn
      refine ih (x ++ v :: z) ?_ ?_ ?_ (walk_cut hD h)
      · simp at hk ⊢; omega
      · cases x <;> simpa using ha
      · rw [show x ++ v :: (y ++ v :: z) = (x ++ v :: y) ++ v :: z by simp, List.getLast?_append_of_ne_nil _ (by simp)] at hb
        rw [List.getLast?_append_of_ne_nil _ (by simp)]
        exact hb

theorem walk_of_reach (hD : ¬ Cyclic D) {a v : Nat} {d : Bool} (h : Reach D S a v d) :
    ∃ u l, WalkOK D S (v :: u :: l) ∧ (u :: l).getLast? = some a ∧ if d then D u v else D v u := by
  have hasym : ∀ x y, D x y → ¬ D y x := fun x y h1 h2 => hD ⟨x, .tail (.single h1) h2⟩
  induction h with
  | startDown h => exact ⟨a, [], Or.inr h, rfl, by simpa using h⟩
  | startUp h => exact ⟨a, [], Or.inl h, rfl, by simpa using h⟩
  | @down v c d _ hv hc ih =>
    obtain ⟨u, l, h1, h2, h3⟩ := ih
    exact ⟨v, u :: l, ⟨Or.inr hc, Or.inr ⟨fun h => hasym _ _ hc h.1, hv⟩, h1⟩, by simpa using h2, by simpa using hc⟩
  | @up v p _ hv hp ih =>
    obtain ⟨u, l, h1, h2, h3⟩ := ih
    exact ⟨v, u :: l, ⟨Or.inl hp, Or.inr ⟨fun h => hasym _ _ (by simpa using h3) h.2, hv⟩, h1⟩, by simpa using h2, by simpa using hp⟩
  | @bounce v p _ hv hp ih =>
    obtain ⟨u, l, h1, h2, h3⟩ := ih
    exact ⟨v, u :: l, ⟨Or.inl hp, Or.inl ⟨⟨hp, by simpa using h3⟩, v, hv, .refl⟩, h1⟩, by simpa using h2, by simpa using hp⟩

/-- Two different nodes are d-separated if and only if no walk arrives. -/
theorem dSeparated_iff (hD : ¬ Cyclic D) {a b : Nat} (hab : a ≠ b) : DSeparated D S a b ↔ ∀ d, ¬ Reach D S a b d := by
  constructor
  · intro h d hr
    obtain ⟨u, l, h1, h2, _⟩ := walk_of_reach hD hr
    obtain ⟨path, h3, h4, h5⟩ := path_of_walk hD _ (b :: u :: l) le_rfl (a := b) (b := a) rfl (by simpa using h2) h1
    exact dSeparated_symm h path h3 h4 h5
  · intro h path h1 h2 h3
    obtain ⟨d, hd⟩ := reach_of_path hD hab h1 h2 h3
    exact h d hd

end FastPGM
