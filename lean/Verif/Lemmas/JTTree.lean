import Mathlib.Logic.Relation
import Mathlib.Tactic.Tauto
import Mathlib.Tactic.ByContra

/-!
Junction trees as relations: the exchange argument behind Prim's algorithm.

Vertices have a type `α`; `vs x v` says that vertex `x` contains the variable `v`.
-/

namespace FastPGM

open Relation

variable {α β : Type}

/-- `T` without the edge between `a` and `b`. -/
def cutEdge (T : α → α → Prop) (a b : α) (u v : α) : Prop := T u v ∧ ¬ ((u = a ∧ v = b) ∨ (u = b ∧ v = a))

/-- The edges of `T` between vertices that contain all common variables of `a` and `b`. -/
def within (vs : α → Nat → Prop) (T : α → α → Prop) (a b : α) (u v : α) : Prop :=
  T u v ∧ ∀ w, vs a w → vs b w → vs u w ∧ vs v w

/-- `T` is a tree on the vertices `F` in which any two vertices are joined by a path through vertices that contain all their common
variables. -/
structure IsJT (vs : α → Nat → Prop) (F : α → Prop) (T : α → α → Prop) : Prop where
  symm : ∀ a b, T a b → T b a
  mem : ∀ {a b}, T a b → F a
  bridge : ∀ {a b}, T a b → ¬ ReflTransGen (cutEdge T a b) a b
  path : ∀ {a b}, F a → F b → ReflTransGen (within vs T a b) a b

theorem cutEdge_symm {T : α → α → Prop} (hT : ∀ a b, T a b → T b a) {a b : α} : ∀ u v, cutEdge T a b u v → cutEdge T a b v u :=
  fun _ _ h => ⟨hT _ _ h.1, fun h2 => h.2 (by tauto)⟩

theorem cutEdge_comm {T : α → α → Prop} {a b u v : α} : cutEdge T a b u v ↔ cutEdge T b a u v := by
  unfold cutEdge; tauto

theorem within_symm {vs : α → Nat → Prop} {T : α → α → Prop} (hT : ∀ a b, T a b → T b a) {a b : α} :
    ∀ u v, within vs T a b u v → within vs T a b v u :=
  fun _ _ h => ⟨hT _ _ h.1, fun w h1 h2 => (h.2 w h1 h2).symm⟩

theorem conn_symm {R : α → α → Prop} (hR : ∀ a b, R a b → R b a) {a b : α} (h : ReflTransGen R a b) : ReflTransGen R b a := by
  induction h with
  | refl => exact .refl
  | tail _ h2 ih => exact (ReflTransGen.single (hR _ _ h2)).trans ih

theorem conn_mono {R R' : α → α → Prop} (h : ∀ a b, R a b → R' a b) {a b : α} (hc : ReflTransGen R a b) : ReflTransGen R' a b :=
  ReflTransGen.mono h _ _ hc

/-- A path can be refined step by step. -/
theorem conn_bind {R R' : α → α → Prop} (h : ∀ a b, R a b → ReflTransGen R' a b) {a b : α} (hc : ReflTransGen R a b) :
    ReflTransGen R' a b := by
  induction hc with
  | refl => exact .refl
  | tail _ h2 ih => exact ih.trans (h _ _ h2)

/-- The last edge of a path that leaves a set. -/
theorem last_crossing {R : α → α → Prop} {A : α → Prop} {p j : α} (h : ReflTransGen R p j) (hj : ¬ A j) :
    (¬ A p ∧ ReflTransGen (fun u v => R u v ∧ ¬ A u ∧ ¬ A v) p j) ∨
    ∃ x y, ReflTransGen R p x ∧ A x ∧ R x y ∧ ¬ A y ∧ ReflTransGen (fun u v => R u v ∧ ¬ A u ∧ ¬ A v) y j := by
  induction h using ReflTransGen.head_induction_on with
  | refl => exact Or.inl ⟨hj, .refl⟩
  | head h1 _ ih =>
    rename_i p k _
    rcases ih with ⟨hk, hp⟩ | ⟨x, y, hx, h2⟩
    · by_cases hA : A p
      · exact Or.inr ⟨p, k, .refl, hA, h1, hk, hp⟩
      · exact Or.inl ⟨hA, .head ⟨h1, hA, hk⟩ hp⟩
    · exact Or.inr ⟨x, y, .head h1 hx, h2⟩

/-- A path to an end of an edge reaches one of its ends without using it. -/
theorem reach_end {R : α → α → Prop} {x y p : α} (h : ReflTransGen R p x) :
    ReflTransGen (cutEdge R x y) p x ∨ ReflTransGen (cutEdge R x y) p y := by
  induction h using ReflTransGen.head_induction_on with
  | refl => exact Or.inl .refl
  | head h1 _ ih =>
    rename_i p k _
    by_cases hc : (p = x ∧ k = y) ∨ (p = y ∧ k = x)
    · rcases hc with ⟨rfl, rfl⟩ | ⟨rfl, rfl⟩
      · exact Or.inl .refl
      · exact Or.inr .refl
    · exact ih.imp (fun h => .head ⟨h1, hc⟩ h) (fun h => .head ⟨h1, hc⟩ h)

/-- A path with an additional edge. -/
theorem reach_added {R R' : α → α → Prop} {i j a b : α} (hR : ∀ u v, R' u v → R u v ∨ (u = i ∧ v = j) ∨ (u = j ∧ v = i))
    (h : ReflTransGen R' a b) :
    ReflTransGen R a b ∨ (ReflTransGen R a i ∧ ReflTransGen R j b) ∨ (ReflTransGen R a j ∧ ReflTransGen R i b) := by
  induction h with
  | refl => exact Or.inl .refl
  | tail _ h2 ih =>
    rcases hR _ _ h2 with h2 | ⟨rfl, rfl⟩ | ⟨rfl, rfl⟩
    · exact ih.imp (fun h => h.tail h2) (fun h => h.imp (fun h => ⟨h.1, h.2.tail h2⟩) (fun h => ⟨h.1, h.2.tail h2⟩))
    · rcases ih with h | ⟨h, _⟩ | ⟨h, _⟩
      · exact Or.inr (Or.inl ⟨h, .refl⟩)
      · exact Or.inr (Or.inl ⟨h, .refl⟩)
      · exact Or.inl h
    · rcases ih with h | ⟨h, _⟩ | ⟨h, _⟩
      · exact Or.inr (Or.inr ⟨h, .refl⟩)
      · exact Or.inl h
      · exact Or.inr (Or.inr ⟨h, .refl⟩)

theorem IsJT.mem' {vs : α → Nat → Prop} {F : α → Prop} {T : α → α → Prop} (h : IsJT vs F T) {a b : α} (hab : T a b) : F b :=
  h.mem (h.symm _ _ hab)

/-- The exchange step.  A partial tree `E` on the vertices `A` is part of a junction tree; the pair `i`, `j` crosses the boundary of `A`
and no crossing pair has strictly more common variables.  Then `E` with the new edge is part of a junction tree. -/
theorem IsJT.exchange {vs : α → Nat → Prop} {F : α → Prop} {T : α → α → Prop} (h : IsJT vs F T) {A : α → Prop} {E : α → α → Prop}
    (hE : ∀ {x y}, E x y → T x y ∧ A x ∧ A y) (hconn : ∀ {x y}, A x → A y → ReflTransGen E x y)
    {i j : α} (hAi : A i) (hFi : F i) (hAj : ¬ A j) (hFj : F j)
    (hmax : ∀ x y, A x → F x → ¬ A y → F y → (∀ v, vs i v → vs j v → vs x v ∧ vs y v) → ∀ v, vs x v → vs y v → vs i v ∧ vs j v) :
    ∃ T', IsJT vs F T' ∧ T' i j ∧ ∀ x y, E x y → T' x y := by
  by_cases hij : T i j
  · exact ⟨T, h, hij, fun x y hxy => (hE hxy).1⟩
  rcases last_crossing (A := A) (h.path hFi hFj) hAj with ⟨hn, _⟩ | ⟨x, y, hix, hAx, hxy, hAy, hyj⟩
  · exact absurd hAi hn
  have hS := hmax x y hAx (h.mem hxy.1) hAy (h.mem' hxy.1) hxy.2
  -- the two parts of the path avoid the edge `x`, `y`
  have c1 : ReflTransGen (cutEdge (within vs T i j) x y) y j := by
    refine conn_mono ?_ hyj
    rintro u v ⟨h1, h2, h3⟩
    refine ⟨h1, ?_⟩
    rintro (⟨rfl, _⟩ | ⟨_, rfl⟩)
    · exact h2 hAx
    · exact h3 hAx
  have cutSub : ∀ u v, cutEdge (within vs T i j) x y u v → cutEdge T x y u v := fun u v h => ⟨h.1.1, h.2⟩
  have Esub : ∀ u v, E u v → cutEdge T x y u v := by
    intro u v huv
    refine ⟨(hE huv).1, ?_⟩
    rintro (⟨_, rfl⟩ | ⟨rfl, _⟩)
    · exact hAy (hE huv).2.2
    · exact hAy (hE huv).2.1
  have c2 : ReflTransGen (cutEdge (within vs T i j) x y) i x := by
    rcases reach_end (y := y) hix with h1 | h1
    · exact h1
    · exfalso
      apply h.bridge hxy.1
      have h2 : ReflTransGen (cutEdge T x y) i x := conn_mono Esub (hconn hAi hAx)
      exact (conn_symm (cutEdge_symm h.symm) h2).trans (conn_mono cutSub h1)
  have d1 : ReflTransGen (cutEdge T x y) y j := conn_mono cutSub c1
  have d2 : ReflTransGen (cutEdge T x y) i x := conn_mono cutSub c2
  have hnij : ¬ ReflTransGen (cutEdge T x y) i j := by
    intro hc
    apply h.bridge hxy.1
    exact ((conn_symm (cutEdge_symm h.symm) d2).trans hc).trans (conn_symm (cutEdge_symm h.symm) d1)
  refine ⟨fun u v => cutEdge T x y u v ∨ (u = i ∧ v = j) ∨ (u = j ∧ v = i), ⟨?_, ?_, ?_, ?_⟩, Or.inr (Or.inl ⟨rfl, rfl⟩),
    fun u v huv => Or.inl (Esub u v huv)⟩
  · rintro a b (h1 | h1 | h1)
    · exact Or.inl (cutEdge_symm h.symm _ _ h1)
    · exact Or.inr (Or.inr ⟨h1.2, h1.1⟩)
    · exact Or.inr (Or.inl ⟨h1.2, h1.1⟩)
  · rintro a b (h1 | ⟨rfl, _⟩ | ⟨rfl, _⟩)
    · exact h.mem h1.1
    · exact hFi
    · exact hFj
  · intro a b hab hc
    rcases hab with hab | hab
    · -- an old edge
      have hc' : ReflTransGen (fun u v => cutEdge (cutEdge T x y) a b u v ∨ (u = i ∧ v = j) ∨ (u = j ∧ v = i)) a b := by
        refine conn_mono ?_ hc
        rintro u v ⟨h1, h2⟩
        exact h1.imp (fun h1 => ⟨h1, h2⟩) id
      have hsub : ∀ u v, cutEdge (cutEdge T x y) a b u v → cutEdge T x y u v := fun u v h => h.1
      have hsub2 : ∀ u v, cutEdge (cutEdge T x y) a b u v → cutEdge T a b u v := fun u v h => ⟨h.1.1, h.2⟩
      rcases reach_added (R := cutEdge (cutEdge T x y) a b) (fun u v h => h) hc' with h1 | ⟨h1, h2⟩ | ⟨h1, h2⟩
      · exact h.bridge hab.1 (conn_mono hsub2 h1)
      · apply hnij
        exact ((conn_symm (cutEdge_symm h.symm) (conn_mono hsub h1)).tail hab).trans
          (conn_symm (cutEdge_symm h.symm) (conn_mono hsub h2))
      · apply hnij
        exact ((conn_mono hsub h2).tail (cutEdge_symm h.symm _ _ hab)).trans (conn_mono hsub h1)
    · -- the new edge
      have hc' : ReflTransGen (cutEdge T x y) a b := by
        refine conn_mono ?_ hc
        rintro u v ⟨h1, h2⟩
        rcases h1 with h1 | h1
        · exact h1
        · exfalso; apply h2
          rcases hab with ⟨rfl, rfl⟩ | ⟨rfl, rfl⟩ <;> tauto
      rcases hab with ⟨rfl, rfl⟩ | ⟨rfl, rfl⟩
      · exact hnij hc'
      · exact hnij (conn_symm (cutEdge_symm h.symm) hc')
  · intro a b ha hb
    refine conn_bind ?_ (h.path ha hb)
    rintro u v ⟨huv, hw⟩
    by_cases hcut : (u = x ∧ v = y) ∨ (u = y ∧ v = x)
    · -- replace the removed edge by the detour
      have hsub : ∀ w, vs a w → vs b w → vs i w ∧ vs j w := by
        intro w h1 h2
        have := hw w h1 h2
        rcases hcut with ⟨rfl, rfl⟩ | ⟨rfl, rfl⟩
        · exact hS w this.1 this.2
        · exact hS w this.2 this.1
      have lift : ∀ p q, cutEdge (within vs T i j) x y p q →
          within vs (fun u v => cutEdge T x y u v ∨ (u = i ∧ v = j) ∨ (u = j ∧ v = i)) a b p q := by
        intro p q hpq
        exact ⟨Or.inl (cutSub p q hpq), fun w h1 h2 => hpq.1.2 w (hsub w h1 h2).1 (hsub w h1 h2).2⟩
      have step : within vs (fun u v => cutEdge T x y u v ∨ (u = i ∧ v = j) ∨ (u = j ∧ v = i)) a b i j :=
        ⟨Or.inr (Or.inl ⟨rfl, rfl⟩), hsub⟩
      have step' : within vs (fun u v => cutEdge T x y u v ∨ (u = i ∧ v = j) ∨ (u = j ∧ v = i)) a b j i :=
        ⟨Or.inr (Or.inr ⟨rfl, rfl⟩), fun w h1 h2 => (hsub w h1 h2).symm⟩
      have sy : ∀ p q, cutEdge (within vs T i j) x y p q → cutEdge (within vs T i j) x y q p :=
        cutEdge_symm (within_symm h.symm)
      rcases hcut with ⟨rfl, rfl⟩ | ⟨rfl, rfl⟩
      · exact ((conn_mono lift (conn_symm sy c2)).tail step).trans (conn_mono lift (conn_symm sy c1))
      · exact ((conn_mono lift c1).tail step').trans (conn_mono lift c2)
    · exact .single ⟨Or.inl ⟨huv, hcut⟩, hw⟩

/-- A connected part of a junction tree that spans all vertices is the whole tree. -/
theorem IsJT.of_spanning {vs : α → Nat → Prop} {F : α → Prop} {T E : α → α → Prop} (h : IsJT vs F T) (hE : ∀ {x y}, E x y → T x y)
    (hsymm : ∀ x y, E x y → E y x) (hconn : ∀ {x y}, F x → F y → ReflTransGen E x y) : IsJT vs F E := by
  have heq : ∀ x y, T x y → E x y := by
    intro x y hxy
    by_contra hn
    apply h.bridge hxy
    refine conn_mono ?_ (hconn (h.mem hxy) (h.mem' hxy))
    intro u v huv
    refine ⟨hE huv, ?_⟩
    rintro (⟨rfl, rfl⟩ | ⟨rfl, rfl⟩)
    · exact hn huv
    · exact hn (hsymm _ _ huv)
  refine ⟨hsymm, fun hab => h.mem (hE hab), fun hab hc => h.bridge (hE hab) (conn_mono (fun u v huv => ⟨hE huv.1, huv.2⟩) hc),
    fun ha hb => conn_mono (fun u v huv => ⟨heq _ _ huv.1, huv.2⟩) (h.path ha hb)⟩

/-- Renaming the vertices; a vertex may get additional variables as long as no two vertices get a new common variable. -/
theorem IsJT.rename {vs : α → Nat → Prop} {F : α → Prop} {T : α → α → Prop} (h : IsJT vs F T) {vs' : β → Nat → Prop} {F' : β → Prop}
    (f : α → β) (g : β → α) (hgf : ∀ a, F a → g (f a) = a) (hF : ∀ b, F' b ↔ ∃ a, F a ∧ f a = b)
    (hle : ∀ a v, F a → vs a v → vs' (f a) v)
    (hcap : ∀ a b v, F a → F b → a ≠ b → vs' (f a) v → vs' (f b) v → vs a v ∧ vs b v) :
    IsJT vs' F' (fun x y => ∃ a b, T a b ∧ f a = x ∧ f b = y) := by
  refine ⟨?_, ?_, ?_, ?_⟩
  · rintro x y ⟨a, b, hab, h1, h2⟩
    exact ⟨b, a, h.symm _ _ hab, h2, h1⟩
  · rintro x y ⟨a, b, hab, h1, h2⟩
    exact (hF x).2 ⟨a, h.mem hab, h1⟩
  · rintro x y ⟨a, b, hab, rfl, rfl⟩ hc
    apply h.bridge hab
    have := ReflTransGen.lift (p := cutEdge T a b) g (fun u v huv => ?_) _ _ hc
    · change ReflTransGen (cutEdge T a b) (g (f a)) (g (f b)) at this
      rwa [hgf a (h.mem hab), hgf b (h.mem' hab)] at this
    · obtain ⟨⟨c, d, hcd, rfl, rfl⟩, h2⟩ := huv
      show cutEdge T a b (g (f c)) (g (f d))
      rw [hgf c (h.mem hcd), hgf d (h.mem' hcd)]
      refine ⟨hcd, ?_⟩
      rintro (⟨rfl, rfl⟩ | ⟨rfl, rfl⟩)
      · exact h2 (Or.inl ⟨rfl, rfl⟩)
      · exact h2 (Or.inr ⟨rfl, rfl⟩)
  · intro x y hx hy
    obtain ⟨a, ha, rfl⟩ := (hF x).1 hx
    obtain ⟨b, hb, rfl⟩ := (hF y).1 hy
    by_cases hab : a = b
    · subst hab; exact .refl
    · refine ReflTransGen.lift f (fun u v huv => ?_) _ _ (h.path ha hb)
      refine ⟨⟨u, v, huv.1, rfl, rfl⟩, fun w h1 h2 => ?_⟩
      have := hcap a b w ha hb hab h1 h2
      have := huv.2 w this.1 this.2
      exact ⟨hle u w (h.mem huv.1) this.1, hle v w (h.mem' huv.1) this.2⟩

/-- Attaching a new leaf `k` to the vertex `m`, which contains all common variables of `k` and the other vertices. -/
theorem IsJT.addLeaf {vs : α → Nat → Prop} {F : α → Prop} {T : α → α → Prop} (h : IsJT vs F T) {k m : α} (hk : ¬ F k) (hm : F m)
    (hsub : ∀ b v, F b → vs k v → vs b v → vs m v) :
    IsJT vs (fun x => F x ∨ x = k) (fun x y => T x y ∨ (x = k ∧ y = m) ∨ (x = m ∧ y = k)) := by
  have hkm : k ≠ m := fun e => hk (e ▸ hm)
  refine ⟨?_, ?_, ?_, ?_⟩
  · rintro a b (h1 | h1 | h1)
    · exact Or.inl (h.symm _ _ h1)
    · exact Or.inr (Or.inr ⟨h1.2, h1.1⟩)
    · exact Or.inr (Or.inl ⟨h1.2, h1.1⟩)
  · rintro a b (h1 | h1 | h1)
    · exact Or.inl (h.mem h1)
    · exact Or.inr h1.1
    · exact Or.inl (h1.1 ▸ hm)
  · -- the new vertex is isolated once its only edge is removed
    have iso : ∀ {p}, ReflTransGen (cutEdge (fun x y => T x y ∨ (x = k ∧ y = m) ∨ (x = m ∧ y = k)) k m) k p → p = k := by
      intro p hp
      induction hp with
      | refl => rfl
      | tail _ h2 ih =>
        subst ih
        rcases h2.1 with h3 | h3 | h3
        · exact absurd (h.mem h3) hk
        · exact absurd (Or.inl h3) h2.2
        · exact h3.2
    intro a b hab hc
    rcases hab with hab | ⟨rfl, rfl⟩ | ⟨rfl, rfl⟩
    · have ha := h.mem hab
      have hb := h.mem' hab
      -- a path between old vertices can avoid the leaf
      have : ∀ p, ReflTransGen (cutEdge (fun x y => T x y ∨ (x = k ∧ y = m) ∨ (x = m ∧ y = k)) a b) a p →
          (p ≠ k → ReflTransGen (cutEdge T a b) a p) ∧ (p = k → ReflTransGen (cutEdge T a b) a m) := by
        intro p hp
        induction hp with
        | refl => exact ⟨fun _ => .refl, fun e => absurd (e ▸ ha) hk⟩
        | tail _ h2 ih =>
          rename_i u v _
          obtain ⟨h3, h4⟩ := h2
          rcases h3 with h3 | ⟨h3, h5⟩ | ⟨h3, h5⟩
          · have hu : u ≠ k := fun e => hk (e ▸ h.mem h3)
            have hv : v ≠ k := fun e => hk (e ▸ h.mem' h3)
            exact ⟨fun _ => (ih.1 hu).tail ⟨h3, h4⟩, fun e => absurd e hv⟩
          · have h6 := ih.2 h3
            rw [h5]
            exact ⟨fun _ => h6, fun _ => h6⟩
          · refine ⟨fun e => absurd h5 e, fun _ => ?_⟩
            have := ih.1 (h3 ▸ hkm.symm)
            rwa [h3] at this
      exact h.bridge hab ((this b hc).1 (fun e => hk (e ▸ hb)))
    · exact hkm (iso hc).symm
    · have hc' := conn_mono (fun u v (huv : cutEdge (fun x y => T x y ∨ (x = b ∧ y = a) ∨ (x = a ∧ y = b)) a b u v) =>
        cutEdge_comm.1 huv) hc
      have hs : ∀ u v : α, (T u v ∨ (u = b ∧ v = a) ∨ (u = a ∧ v = b)) → (T v u ∨ (v = b ∧ u = a) ∨ (v = a ∧ u = b)) := by
        rintro u v (h1 | h1 | h1)
        · exact Or.inl (h.symm _ _ h1)
        · exact Or.inr (Or.inr ⟨h1.2, h1.1⟩)
        · exact Or.inr (Or.inl ⟨h1.2, h1.1⟩)
      exact hkm (iso (conn_symm (cutEdge_symm hs) hc')).symm
  · have old : ∀ {a b}, F a → F b → ∀ {c d}, (∀ w, vs c w → vs d w → vs a w ∧ vs b w) →
        ReflTransGen (within vs (fun x y => T x y ∨ (x = k ∧ y = m) ∨ (x = m ∧ y = k)) c d) a b := by
      intro a b ha hb c d hcd
      refine conn_mono ?_ (h.path ha hb)
      rintro u v ⟨h1, h2⟩
      exact ⟨Or.inl h1, fun w h3 h4 => h2 w (hcd w h3 h4).1 (hcd w h3 h4).2⟩
    rintro a b (ha | rfl) (hb | rfl)
    · exact old ha hb (fun w h1 h2 => ⟨h1, h2⟩)
    · exact (old ha hm (fun w h1 h2 => ⟨h1, hsub a w ha h2 h1⟩)).tail
        ⟨Or.inr (Or.inr ⟨rfl, rfl⟩), fun w h1 h2 => ⟨hsub a w ha h2 h1, h2⟩⟩
    · exact .head ⟨Or.inr (Or.inl ⟨rfl, rfl⟩), fun w h1 h2 => ⟨h1, hsub b w hb h1 h2⟩⟩
        (old hm hb (fun w h1 h2 => ⟨hsub b w hb h1 h2, h2⟩))
    · exact .refl

end FastPGM
