import Verif.Lemmas.MarkovWalk

/-!
Reversing a covered edge does not change the d-separations.
-/

namespace FastPGM

open Spec

variable {D : Nat → Nat → Prop} {S : List Nat}

/-- `x → y`, and the other parents of `y` are the parents of `x`. -/
def Covered (D : Nat → Nat → Prop) (x y : Nat) : Prop := D x y ∧ ∀ p, p ≠ x → (D p y ↔ D p x)

/-- The graph with the edge `x → y` reversed. -/
def flip (D : Nat → Nat → Prop) (x y : Nat) : Nat → Nat → Prop := fun u v => (D u v ∧ ¬ (u = x ∧ v = y)) ∨ (u = y ∧ v = x)

/-- What an arrival at `v` by a walk in `D` means for walks in the graph with `x → y` reversed. -/
structure Mirrors (D : Nat → Nat → Prop) (S : List Nat) (a x y v : Nat) (d : Bool) : Prop where
  other : v ≠ x → v ≠ y → Reach (flip D x y) S a v d
  visited : v = a ∨ ∃ d', Reach (flip D x y) S a v d'
  xUp : v = x → (d = true → x ∈ S) → (d = false → x ∉ S) → ∀ p, D p x → Reach (flip D x y) S a p false
  xDown : v = x → x ∉ S → ∀ c, c ≠ y → D x c → Reach (flip D x y) S a c true
  xy : v = x → x ∉ S → y = a ∨ ∃ d', Reach (flip D x y) S a y d'
  xyUp : v = x → x ∉ S → y ∈ S → ∀ p, D p x → Reach (flip D x y) S a p false
  xyDown : v = x → x ∉ S → y ∉ S → ∀ c, D y c → Reach (flip D x y) S a c true
  yUp : v = y → (d = true → y ∈ S) → (d = false → y ∉ S) → ∀ p, D p x → Reach (flip D x y) S a p false
  yDown : v = y → y ∉ S → ∀ c, D y c → Reach (flip D x y) S a c true
  yx : v = y → (d = true → y ∈ S) → (d = false → y ∉ S) → x = a ∨ ∃ d', Reach (flip D x y) S a x d'
  yxDown : v = y → (d = true → y ∈ S) → (d = false → y ∉ S) → x ∉ S → ∀ c, c ≠ y → D x c → Reach (flip D x y) S a c true

section

variable {a x y : Nat}

theorem flip_of {u v : Nat} (h : D u v) (h' : ¬ (u = x ∧ v = y)) : flip D x y u v := Or.inl ⟨h, h'⟩

theorem flip_new : flip D x y y x := Or.inr ⟨rfl, rfl⟩

/-- Arriving at both `x` and `y` from a common parent. -/
theorem mirrors_both (hxy : x ≠ y) (hx : Reach (flip D x y) S a x true) (hy : Reach (flip D x y) S a y true) (hc : Covered D x y)
    (hirr : ∀ u, ¬ D u u) {v : Nat} (hv : v = x ∨ v = y) : Mirrors D S a x y v true := by
  have px : ∀ p, D p x → flip D x y p x := fun p h => flip_of h (fun e => hxy e.2)
  have py : ∀ p, D p x → flip D x y p y := fun p h => flip_of ((hc.2 p (fun e => hirr x (e ▸ h))).2 h) (fun e => hirr x (e.1 ▸ h))
  have cx : ∀ c, c ≠ y → D x c → flip D x y x c := fun c h1 h2 => flip_of h2 (fun e => h1 e.2)
  have cy : ∀ c, D y c → flip D x y y c := fun c h => flip_of h (fun e => hxy e.1.symm)
  constructor
  · intro h1 h2; rcases hv with e | e
    · exact absurd e h1
    · exact absurd e h2
  · rcases hv with e | e
    · exact Or.inr ⟨true, by rw [e]; exact hx⟩
    · exact Or.inr ⟨true, by rw [e]; exact hy⟩
  · intro _ h _ p hp; exact .bounce hx (h rfl) (px p hp)
  · intro _ h c h1 h2; exact .down hx h (cx c h1 h2)
  · intro _ _; exact Or.inr ⟨_, hy⟩
  · intro _ _ h p hp; exact .bounce hy h (py p hp)
  · intro _ _ h c h2; exact .down hy h (cy c h2)
  · intro _ h _ p hp; exact .bounce hy (h rfl) (py p hp)
  · intro _ h c h2; exact .down hy h (cy c h2)
  · intro _ _ _; exact Or.inr ⟨_, hx⟩
  · intro _ _ _ h c h1 h2; exact .down hx h (cx c h1 h2)

theorem reach_mirrors (hD : ¬ Cyclic D) (hc : Covered D x y) {v : Nat} {d : Bool} (h : Reach D S a v d) : Mirrors D S a x y v d := by
  have hirr : ∀ u, ¬ D u u := fun u h => hD ⟨u, .single h⟩
  have hxy : x ≠ y := fun e => hirr x (by have := hc.1; rwa [← e] at this)
  have hyx : ¬ D y x := fun h => hD ⟨y, .tail (.single h) hc.1⟩
  have px : ∀ p, D p x → flip D x y p x := fun p h => flip_of h (fun e => hxy e.2)
  have pne : ∀ p, D p x → p ≠ x ∧ p ≠ y := fun p h => ⟨fun e => hirr x (e ▸ h), fun e => hyx (e ▸ h)⟩
  have ppy : ∀ p, p ≠ x → D p y → D p x := fun p h1 h2 => (hc.2 p h1).1 h2
  have py : ∀ p, D p x → flip D x y p y := fun p h => flip_of ((hc.2 p (fun e => hirr x (e ▸ h))).2 h) (fun e => hirr x (e.1 ▸ h))
  have cx : ∀ c, c ≠ y → D x c → flip D x y x c := fun c h1 h2 => flip_of h2 (fun e => h1 e.2)
  have cy : ∀ c, D y c → flip D x y y c := fun c h => flip_of h (fun e => hxy e.1.symm)
  have other : ∀ {v : Nat} {d : Bool}, v ≠ x → v ≠ y → Reach (flip D x y) S a v d → Mirrors D S a x y v d := by
    intro v d h1 h2 h
    exact ⟨fun _ _ => h, Or.inr ⟨_, h⟩, fun e => absurd e h1, fun e => absurd e h1, fun e => absurd e h1, fun e => absurd e h1,
      fun e => absurd e h1, fun e => absurd e h2, fun e => absurd e h2, fun e => absurd e h2, fun e => absurd e h2⟩
  -- arriving from a child of `x` other than `y`
  have xTail : Reach (flip D x y) S a x false → Mirrors D S a x y x false := by
    intro h
    refine ⟨fun e => absurd rfl e, Or.inr ⟨_, h⟩, ?_, ?_, ?_, ?_, ?_, fun e => absurd e hxy, fun e => absurd e hxy,
      fun e => absurd e hxy, fun e => absurd e hxy⟩
    · intro _ _ h1 p hp; exact .up h (h1 rfl) (px p hp)
    · intro _ h1 c h2 h3; exact .down h h1 (cx c h2 h3)
    · intro _ h1; exact Or.inr ⟨_, .up h h1 flip_new⟩
    · intro _ h1 _ p hp; exact .up h h1 (px p hp)
    · intro _ h1 h2 c h3; exact .down (.up h h1 flip_new) h2 (cy c h3)
  have yTail : Reach (flip D x y) S a y false → Mirrors D S a x y y false := by
    intro h
    refine ⟨fun _ e => absurd rfl e, Or.inr ⟨_, h⟩, fun e => absurd e.symm hxy, fun e => absurd e.symm hxy, fun e => absurd e.symm hxy,
      fun e => absurd e.symm hxy, fun e => absurd e.symm hxy, ?_, ?_, ?_, ?_⟩
    · intro _ _ h1 p hp; exact .up h (h1 rfl) (py p hp)
    · intro _ h1 c h2; exact .down h h1 (cy c h2)
    · intro _ _ h1; exact Or.inr ⟨_, .down h (h1 rfl) flip_new⟩
    · intro _ _ h1 h2 c h3 h4; exact .down (.down h (h1 rfl) flip_new) h2 (cx c h3 h4)
  induction h with
  | @startDown c h =>
    by_cases hax : a = x
    · subst hax
      by_cases hcy : c = y
      · subst hcy
        have hy : Reach (flip D a c) S a c false := .startUp flip_new
        refine ⟨fun _ e => absurd rfl e, Or.inr ⟨_, hy⟩, fun e => absurd e.symm hxy, fun e => absurd e.symm hxy,
          fun e => absurd e.symm hxy, fun e => absurd e.symm hxy, fun e => absurd e.symm hxy, ?_, ?_, ?_, ?_⟩
        · intro _ _ _ p hp; exact .startUp (px p hp)
        · intro _ h1 e h2; exact .down hy h1 (cy e h2)
        · intro _ _ _; exact Or.inl rfl
        · intro _ _ _ _ e h3 h4; exact .startDown (cx e h3 h4)
      · exact other (fun e => hirr a (e ▸ h)) hcy (.startDown (cx c hcy h))
    · by_cases hay : a = y
      · subst hay
        refine other (fun e => hyx (e ▸ h)) (fun e => hirr a (e ▸ h)) (.startDown (cy c h))
      · by_cases hcx : c = x
        · subst hcx
          exact mirrors_both hxy (.startDown (px a h)) (.startDown (py a h)) hc hirr (Or.inl rfl)
        · by_cases hcy : c = y
          · subst hcy
            have h' := ppy a hax h
            exact mirrors_both hxy (.startDown (px a h')) (.startDown (py a h')) hc hirr (Or.inr rfl)
          · exact other hcx hcy (.startDown (flip_of h (fun e => hax e.1)))
  | @startUp p h =>
    by_cases hax : a = x
    · subst hax
      exact other (pne p h).1 (pne p h).2 (.startUp (px p h))
    · by_cases hay : a = y
      · subst hay
        by_cases hpx : p = x
        · subst hpx
          have hx : Reach (flip D p a) S a p true := .startDown flip_new
          refine ⟨fun e => absurd rfl e, Or.inr ⟨_, hx⟩, ?_, ?_, ?_, ?_, ?_, fun e => absurd e hxy, fun e => absurd e hxy,
            fun e => absurd e hxy, fun e => absurd e hxy⟩
          · intro _ _ _ q hq; exact .startUp (py q hq)
          · intro _ h1 c h2 h3; exact .down hx h1 (cx c h2 h3)
          · intro _ _; exact Or.inl rfl
          · intro _ _ _ q hq; exact .startUp (py q hq)
          · intro _ _ _ c h3; exact .startDown (cy c h3)
        · have h' := ppy p hpx h
          exact other hpx (pne p h').2 (.startUp (py p h'))
      · by_cases hpx : p = x
        · subst hpx
          exact xTail (.startUp (cx a hay h))
        · by_cases hpy : p = y
          · subst hpy
            exact yTail (.startUp (cy a h))
          · exact other hpx hpy (.startUp (flip_of h (fun e => hpx e.1)))
  | @down v c d _ hv h ih =>
    by_cases hvx : v = x
    · subst hvx
      by_cases hcy : c = y
      · subst hcy
        refine ⟨fun _ e => absurd rfl e, ih.xy rfl hv, fun e => absurd e.symm hxy, fun e => absurd e.symm hxy,
          fun e => absurd e.symm hxy, fun e => absurd e.symm hxy, fun e => absurd e.symm hxy, ?_, ?_, ?_, ?_⟩
        · intro _ h1 _ p hp; exact ih.xyUp rfl hv (h1 rfl) p hp
        · intro _ h1 e h2; exact ih.xyDown rfl hv h1 e h2
        · intro _ _ _; exact ih.visited
        · intro _ _ _ h1 e h3 h4; exact ih.xDown rfl h1 e h3 h4
      · exact other (fun e => hirr v (e ▸ h)) hcy (ih.xDown rfl hv c hcy h)
    · by_cases hvy : v = y
      · subst hvy
        exact other (fun e => hyx (e ▸ h)) (fun e => hirr v (e ▸ h)) (ih.yDown rfl hv c h)
      · have hr := ih.other hvx hvy
        by_cases hcx : c = x
        · subst hcx
          exact mirrors_both hxy (.down hr hv (px v h)) (.down hr hv (py v h)) hc hirr (Or.inl rfl)
        · by_cases hcy : c = y
          · subst hcy
            have h' := ppy v hvx h
            exact mirrors_both hxy (.down hr hv (px v h')) (.down hr hv (py v h')) hc hirr (Or.inr rfl)
          · exact other hcx hcy (.down hr hv (flip_of h (fun e => hvx e.1)))
  | @up v p _ hv h ih =>
    by_cases hvx : v = x
    · subst hvx
      exact other (pne p h).1 (pne p h).2 (ih.xUp rfl (by simp) (fun _ => hv) p h)
    · by_cases hvy : v = y
      · subst hvy
        by_cases hpx : p = x
        · subst hpx
          refine ⟨fun e => absurd rfl e, ih.yx rfl (by simp) (fun _ => hv), ?_, ?_, ?_, ?_, ?_, fun e => absurd e hxy, fun e => absurd e hxy,
            fun e => absurd e hxy, fun e => absurd e hxy⟩
          · intro _ _ _ q hq; exact ih.yUp rfl (by simp) (fun _ => hv) q hq
          · intro _ h1 c h2 h3; exact ih.yxDown rfl (by simp) (fun _ => hv) h1 c h2 h3
          · intro _ _; exact ih.visited
          · intro _ _ _ q hq; exact ih.yUp rfl (by simp) (fun _ => hv) q hq
          · intro _ _ _ c h3; exact ih.yDown rfl hv c h3
        · have h' := ppy p hpx h
          exact other hpx (pne p h').2 (ih.yUp rfl (by simp) (fun _ => hv) p h')
      · have hr := ih.other hvx hvy
        by_cases hpx : p = x
        · subst hpx
          exact xTail (.up hr hv (cx v hvy h))
        · by_cases hpy : p = y
          · subst hpy
            exact yTail (.up hr hv (cy v h))
          · exact other hpx hpy (.up hr hv (flip_of h (fun e => hpx e.1)))
  | @bounce v p _ hv h ih =>
    by_cases hvx : v = x
    · subst hvx
      exact other (pne p h).1 (pne p h).2 (ih.xUp rfl (fun _ => hv) (by simp) p h)
    · by_cases hvy : v = y
      · subst hvy
        by_cases hpx : p = x
        · subst hpx
          refine ⟨fun e => absurd rfl e, ih.yx rfl (fun _ => hv) (by simp), ?_, ?_, ?_, ?_, ?_, fun e => absurd e hxy, fun e => absurd e hxy,
            fun e => absurd e hxy, fun e => absurd e hxy⟩
          · intro _ _ _ q hq; exact ih.yUp rfl (fun _ => hv) (by simp) q hq
          · intro _ h1 c h2 h3; exact ih.yxDown rfl (fun _ => hv) (by simp) h1 c h2 h3
          · intro _ _; exact ih.visited
          · intro _ _ _ q hq; exact ih.yUp rfl (fun _ => hv) (by simp) q hq
          · intro _ _ h1; exact absurd hv h1
        · have h' := ppy p hpx h
          exact other hpx (pne p h').2 (ih.yUp rfl (fun _ => hv) (by simp) p h')
      · have hr := ih.other hvx hvy
        by_cases hpx : p = x
        · subst hpx
          exact xTail (.bounce hr hv (cx v hvy h))
        · by_cases hpy : p = y
          · subst hpy
            exact yTail (.bounce hr hv (cy v h))
          · exact other hpx hpy (.bounce hr hv (flip_of h (fun e => hpx e.1)))

theorem flip_flip (hxy : x ≠ y) (hc : D x y) (hyx : ¬ D y x) : flip (flip D x y) y x = D := by
  funext u v
  apply propext
  unfold flip
  constructor
  · rintro (⟨(⟨h, _⟩ | h), h2⟩ | ⟨rfl, rfl⟩)
    · exact h
    · exact absurd h h2
    · exact hc
  · intro h
    by_cases e : u = x ∧ v = y
    · exact Or.inr e
    · exact Or.inl ⟨Or.inl ⟨h, e⟩, fun e' => hyx (e'.1 ▸ e'.2 ▸ h)⟩

theorem flip_covered (hD : ¬ Cyclic D) (hc : Covered D x y) : Covered (flip D x y) y x := by
  have hirr : ∀ u, ¬ D u u := fun u h => hD ⟨u, .single h⟩
  have hyx : ¬ D y x := fun h => hD ⟨y, .tail (.single h) hc.1⟩
  refine ⟨flip_new, fun p hp => ?_⟩
  unfold flip
  constructor
  · rintro (⟨h, h2⟩ | ⟨rfl, _⟩)
    · have hpx : p ≠ x := fun e => hirr x (e ▸ h)
      exact Or.inl ⟨(hc.2 p hpx).2 h, fun e => hpx e.1⟩
    · exact absurd rfl hp
  · rintro (⟨h, h2⟩ | ⟨rfl, _⟩)
    · have hpx : p ≠ x := fun e => h2 ⟨e, rfl⟩
      exact Or.inl ⟨(hc.2 p hpx).1 h, fun e => hpx e.1⟩
    · exact absurd rfl hp

/-- A covered edge can be reversed without a cycle. -/
theorem flip_acyclic (hD : ¬ Cyclic D) (hc : Covered D x y) : ¬ Cyclic (flip D x y) := by
  have hirr : ∀ u, ¬ D u u := fun u h => hD ⟨u, .single h⟩
  have hxy : x ≠ y := fun e => hirr x (by have := hc.1; rwa [← e] at this)
  have key : ∀ u v, Relation.TransGen (flip D x y) u v →
      Relation.TransGen (fun u v => D u v ∧ ¬ (u = x ∧ v = y)) u v ∨
        Relation.ReflTransGen (fun u v => D u v ∧ ¬ (u = x ∧ v = y)) u y ∧ Relation.ReflTransGen (fun u v => D u v ∧ ¬ (u = x ∧ v = y)) x v := by
    intro u v h
    induction h with
    | single h =>
      rcases h with h | ⟨rfl, rfl⟩
      · exact Or.inl (.single h)
      · exact Or.inr ⟨.refl, .refl⟩
    | tail _ h ih =>
      rcases h with h | ⟨rfl, rfl⟩
      · rcases ih with ih | ih
        · exact Or.inl (ih.tail h)
        · exact Or.inr ⟨ih.1, ih.2.tail h⟩
      · rcases ih with ih | ih
        · exact Or.inr ⟨ih.to_reflTransGen, .refl⟩
        · exact Or.inr ⟨ih.1, .refl⟩
  rintro ⟨u, hu⟩
  rcases key u u hu with h | ⟨h1, h2⟩
  · exact hD ⟨u, Relation.TransGen.mono (fun _ _ h => h.1) _ _ h⟩
  · have h3 := h2.trans h1
    rcases Relation.ReflTransGen.cases_tail h3 with e | ⟨p, h4, h5⟩
    · exact hxy e.symm
    · have hpx : p ≠ x := fun e => h5.2 ⟨e, rfl⟩
      have h6 := (hc.2 p hpx).1 h5.1
      exact hD ⟨x, Relation.TransGen.tail' (Relation.ReflTransGen.mono (fun _ _ h => h.1) _ _ h4) h6⟩

/-- Reversing a covered edge keeps all d-separations of two different nodes. -/
theorem dSeparated_flip (hD : ¬ Cyclic D) (hc : Covered D x y) {b : Nat} (hab : a ≠ b) :
    DSeparated D S a b ↔ DSeparated (flip D x y) S a b := by
  have hirr : ∀ u, ¬ D u u := fun u h => hD ⟨u, .single h⟩
  have hxy : x ≠ y := fun e => hirr x (by have := hc.1; rwa [← e] at this)
  have hyx : ¬ D y x := fun h => hD ⟨y, .tail (.single h) hc.1⟩
  have hD' := flip_acyclic hD hc
  rw [dSeparated_iff hD hab, dSeparated_iff hD' hab]
  constructor
  · intro h d hr
    have := (reach_mirrors hD' (flip_covered hD hc) hr).visited
    rw [flip_flip hxy hc.1 hyx] at this
    rcases this with e | ⟨d', h'⟩
    · exact hab e.symm
    · exact h d' h'
  · intro h d hr
    rcases (reach_mirrors hD hc hr).visited with e | ⟨d', h'⟩
    · exact hab e.symm
    · exact h d' h'

end

end FastPGM
