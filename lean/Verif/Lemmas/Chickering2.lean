import Verif.Lemmas.Chickering

/-!
Unlabelled edges can be reversed: an equivalent graph in which a given node comes first among those reachable by unlabelled edges.
-/

namespace FastPGM

open Spec Relation

/-- `r` orders the ends of the edges `U` so that the earlier neighbours of every node are pairwise adjacent. -/
structure Perfect (U : Nat → Nat → Prop) (r : Nat → Nat) : Prop where
  ne : ∀ a b, U a b → r a ≠ r b
  clique : ∀ v a b, U a v → U b v → r a < r v → r b < r v → a ≠ b → U a b

theorem exists_bound (r : Nat → Nat) (n : Nat) : ∃ M, ∀ v < n, r v < M := by
  induction n with
  | zero => exact ⟨0, by omega⟩
  | succ n ih =>
    obtain ⟨M, hM⟩ := ih
    refine ⟨M + r n + 1, fun v hv => ?_⟩
    by_cases h : v = n
    · subst h; omega
    · have := hM v (by omega)
      omega

/-- Any clique can be moved to the front without changing the order around later nodes. -/
theorem Perfect.front {U : Nat → Nat → Prop} {pos : Nat → Nat} {n : Nat} (hsymm : ∀ a b, U a b → U b a) (hlt : ∀ a b, U a b → a < n)
    (hp : Perfect U pos) : ∀ (m : Nat) (Q : Nat → Prop), (∀ q, Q q → q < n ∧ pos q < m) → (∀ a b, Q a → Q b → a ≠ b → U a b) →
    (∀ a b, Q a → Q b → pos a = pos b → a = b) →
    ∃ r, Perfect U r ∧ (∀ q a, Q q → U a q → r a < r q → Q a) ∧ ∀ v a, m ≤ pos v → U a v → (r a < r v ↔ pos a < pos v) := by
  classical
  intro m
  induction m with
  | zero =>
    intro Q hQ _ _
    exact ⟨pos, hp, fun q _ hq => absurd (hQ q hq).2 (by omega), fun v a _ _ => Iff.rfl⟩
  | succ m ih =>
    intro Q hQ hclq hinj
    by_cases hy : ∃ y, Q y ∧ pos y = m
    · obtain ⟨y, hyQ, hym⟩ := hy
      obtain ⟨r1, h1, h2, h3⟩ := ih (fun p => U p y ∧ pos p < pos y) (fun p hp' => ⟨hlt _ _ hp'.1, by omega⟩)
        (fun a b ha hb hab => hp.clique y a b ha.1 hb.1 ha.2 hb.2 hab)
        (fun a b ha hb hab => by
          by_contra hne
          exact hp.ne a b (hp.clique y a b ha.1 hb.1 ha.2 hb.2 hne) hab)
      obtain ⟨M, hM⟩ := exists_bound r1 n
      have hQP : ∀ q, Q q → q ≠ y → U q y ∧ pos q < pos y := by
        intro q hq hqy
        refine ⟨hclq q y hq hyQ hqy, ?_⟩
        have h' := (hQ q hq).2
        have : pos q ≠ pos y := fun he => hqy (hinj q y hq hyQ he)
        omega
      have hUy : ∀ v, U y v → ¬ (U v y ∧ pos v < pos y) → pos y < pos v := by
        intro v hv hn
        have h' := hp.ne _ _ hv
        have := hsymm _ _ hv
        by_contra hcon
        exact hn ⟨this, by omega⟩
      -- the new order
      let r : Nat → Nat := fun v => if v = y then M else if Q v then r1 v else M + 1 + r1 v
      have ry : r y = M := if_pos rfl
      have rQ : ∀ v, v ≠ y → Q v → r v = r1 v := fun v hv hq => by simp only [r]; rw [if_neg hv, if_pos hq]
      have rO : ∀ v, v ≠ y → ¬ Q v → r v = M + 1 + r1 v := fun v hv hq => by simp only [r]; rw [if_neg hv, if_neg hq]
      -- the earlier neighbours of a node outside the clique are among the old ones
      have hout : ∀ v a, ¬ Q v → v ≠ y → ¬ (U v y ∧ pos v < pos y) → U a v → (r a < r v ↔ r1 a < r1 v) := by
        intro v a hqv hvy hvP hav
        rw [rO v hvy hqv]
        by_cases hay : a = y
        · subst hay
          rw [ry]
          have hlt' := hUy v hav hvP
          have := (h3 v a (by omega) hav).2 hlt'
          omega
        · by_cases hqa : Q a
          · rw [rQ a hay hqa]
            have hbd := hM a (hlt _ _ hav)
            have hne := h1.ne _ _ hav
            have : ¬ r1 v < r1 a := fun hcon => hvP (h2 a v (hQP a hqa hay) (hsymm _ _ hav) hcon)
            omega
          · rw [rO a hay hqa]
            omega
      have hfront : ∀ q a, Q q → U a q → r a < r q → Q a := by
        intro q a hq haq hlt'
        by_cases hay : a = y
        · rw [hay]; exact hyQ
        by_contra hqa
        rw [rO a hay hqa] at hlt'
        by_cases hqy : q = y
        · rw [hqy, ry] at hlt'
          omega
        · rw [rQ q hqy hq] at hlt'
          have := hM q (hQ q hq).1
          omega
      refine ⟨r, ⟨?_, ?_⟩, hfront, ?_⟩
      · intro a b hab
        have h' := h1.ne _ _ hab
        have ba := hM a (hlt _ _ hab)
        have bb := hM b (hlt _ _ (hsymm _ _ hab))
        have hab' : a ≠ b := by
          rintro rfl
          exact h' rfl
        simp only [r]
        split_ifs with c1 c2 c3 c4 c5 c6
        · exact absurd (c1.trans c2.symm) hab'
        all_goals omega
      · intro v a b ha hb hra hrb hab
        by_cases hqv : Q v
        · exact hclq a b (hfront v a hqv ha hra) (hfront v b hqv hb hrb) hab
        have hvy : v ≠ y := fun he => hqv (he ▸ hyQ)
        by_cases hvP : U v y ∧ pos v < pos y
        · -- the earlier neighbours of `v` are the node `y` and earlier neighbours of `y`
          have key : ∀ c, U c v → r c < r v → c = y ∨ (U c y ∧ pos c < pos y) := by
            intro c hcv hrc
            by_cases hcy : c = y
            · exact Or.inl hcy
            · refine Or.inr ?_
              by_cases hqc : Q c
              · exact hQP c hqc hcy
              · rw [rO c hcy hqc, rO v hvy hqv] at hrc
                exact h2 v c hvP hcv (by omega)
          rcases key a ha hra with rfl | ha'
          · rcases key b hb hrb with rfl | hb'
            · exact absurd rfl hab
            · exact hsymm _ _ hb'.1
          · rcases key b hb hrb with rfl | hb'
            · exact ha'.1
            · exact hp.clique y a b ha'.1 hb'.1 ha'.2 hb'.2 hab
        · exact h1.clique v a b ha hb ((hout v a hqv hvy hvP ha).1 hra) ((hout v b hqv hvy hvP hb).1 hrb) hab
      · intro v a hv hav
        have hvy : v ≠ y := by
          rintro rfl
          omega
        have hqv : ¬ Q v := fun hq => by
          have := (hQ v hq).2
          omega
        rw [hout v a hqv hvy (fun hc => by omega) hav]
        exact h3 v a (by omega) hav
    · obtain ⟨r, h1, h2, h3⟩ := ih Q (fun q hq => ⟨(hQ q hq).1, by
        have := (hQ q hq).2
        have : pos q ≠ m := fun he => hy ⟨q, hq, he⟩
        omega⟩) hclq hinj
      exact ⟨r, h1, h2, fun v a hv => h3 v a (by omega)⟩

namespace LabelRules

variable {D L : Nat → Nat → Prop} {pos : Nat → Nat}

theorem free_perfect (h : LabelRules D pos L) : Perfect (Free D L) pos := by
  constructor
  · rintro a b (⟨h1, _⟩ | ⟨h1, _⟩) <;> have := h.mono _ _ h1 <;> omega
  · intro v a b ha hb hra hrb hab
    have ha' : D a v ∧ ¬ L a v := by
      rcases ha with ha | ha
      · exact ha
      · have := h.mono _ _ ha.1
        omega
    have hb' : D b v ∧ ¬ L b v := by
      rcases hb with hb | hb
      · exact hb
      · have := h.mono _ _ hb.1
        omega
    have hj : Joined D a b := by
      by_contra hn
      exact ha'.2 (h.vstructure_labelled (pos v + 1) (by omega) ⟨hab, ha'.1, hb'.1, hn⟩)
    rcases hj with hj | hj
    · refine Or.inl ⟨hj, fun hl => ha'.2 (h.spread' hl (Or.inl hb'))⟩
    · refine Or.inr ⟨hj, fun hl => hb'.2 (h.spread' hl (Or.inl ha'))⟩

/-- The smallest position in the component of free edges. -/
theorem exists_least (x : Nat) : ∃ k, (∃ z, ReflTransGen (Free D L) x z ∧ pos z = k) ∧
    ∀ z, ReflTransGen (Free D L) x z → k ≤ pos z := by
  classical
  have hex : ∃ k, ∃ z, ReflTransGen (Free D L) x z ∧ pos z = k := ⟨pos x, x, .refl, rfl⟩
  exact ⟨Nat.find hex, Nat.find_spec hex, fun z hz => Nat.find_min' hex ⟨z, hz, rfl⟩⟩

theorem free_symm_conn {x y : Nat} (h : ReflTransGen (Free D L) x y) : ReflTransGen (Free D L) y x := by
  induction h with
  | refl => exact .refl
  | tail _ h2 ih => exact ReflTransGen.head h2.symm ih

/-- Every perfect order of the free edges gives an equivalent graph. -/
theorem equivalent_of_perfect (h : LabelRules D pos L) {r : Nat → Nat} (hr : Perfect (Free D L) r) :
    Equivalent D (fun x y => L x y ∨ (Free D L x y ∧ r x < r y)) := by
  have hsk : ∀ x y, Joined (fun x y => L x y ∨ (Free D L x y ∧ r x < r y)) x y ↔ Joined D x y := by
    intro x y
    constructor
    · rintro ((h1 | ⟨h1, _⟩) | (h1 | ⟨h1, _⟩))
      · exact Or.inl (h.sub _ _ h1)
      · exact h1.imp (fun h => h.1) (fun h => h.1)
      · exact Or.inr (h.sub _ _ h1)
      · exact (h1.imp (fun h => h.1) (fun h => h.1)).symm
    · have key : ∀ x y, D x y → Joined (fun x y => L x y ∨ (Free D L x y ∧ r x < r y)) x y := by
        intro x y hxy
        by_cases hl : L x y
        · exact Or.inl (Or.inl hl)
        · have hf : Free D L x y := Or.inl ⟨hxy, hl⟩
          rcases Nat.lt_or_gt_of_ne (hr.ne x y hf) with h' | h'
          · exact Or.inl (Or.inr ⟨hf, h'⟩)
          · exact Or.inr (Or.inr ⟨hf.symm, h'⟩)
      rintro (h1 | h1)
      · exact key x y h1
      · exact (key y x h1).symm
  refine ⟨?_, hsk, ?_⟩
  · rintro ⟨i, hi⟩
    choose c hc hmin using fun x => exists_least (D := D) (L := L) (pos := pos) x
    have hfree : ∀ x y, Free D L x y → c x = c y := by
      intro x y hxy
      obtain ⟨z, hz, hzc⟩ := hc x
      obtain ⟨z', hz', hzc'⟩ := hc y
      have h1 := hmin x z' (ReflTransGen.head hxy hz')
      have h2 := hmin y z (ReflTransGen.head hxy.symm hz)
      omega
    have hlab : ∀ x y, L x y → c x < c y := by
      intro x y hxy
      obtain ⟨z, hz, hzc⟩ := hc y
      have h1 : L x z := (h.spread_conn hz x).1 hxy
      have h2 := h.mono _ _ (h.sub _ _ h1)
      have h3 := hmin x x .refl
      omega
    have key : ∀ a b, TransGen (fun x y => L x y ∨ (Free D L x y ∧ r x < r y)) a b → c a < c b ∨ (c a = c b ∧ r a < r b) := by
      intro a b hab
      have step : ∀ a b, (L a b ∨ (Free D L a b ∧ r a < r b)) → c a < c b ∨ (c a = c b ∧ r a < r b) := by
        rintro a b (h' | ⟨h', h''⟩)
        · exact Or.inl (hlab a b h')
        · exact Or.inr ⟨hfree a b h', h''⟩
      induction hab with
      | single h' => exact step _ _ h'
      | tail _ h' ih =>
        have := step _ _ h'
        omega
    have := key i i hi
    omega
  · intro a b d
    have hne : ∀ {a d : Nat}, ¬ Joined (fun x y => L x y ∨ (Free D L x y ∧ r x < r y)) a d ↔ ¬ Joined D a d := fun {a d} => not_congr (hsk a d)
    constructor
    · rintro ⟨had, h1, h2, h3⟩
      rw [hne] at h3
      have mixed : ∀ {a d : Nat}, L a b → Free D L d b → Joined D a d := fun {a d} ha hd => Or.inl (h.sub _ _ (h.spread' ha hd.symm))
      rcases h1 with h1 | ⟨h1, h1r⟩
      · rcases h2 with h2 | ⟨h2, _⟩
        · exact ⟨had, h.sub _ _ h1, h.sub _ _ h2, h3⟩
        · exact absurd (mixed h1 h2) h3
      · rcases h2 with h2 | ⟨h2, h2r⟩
        · exact absurd (mixed h2 h1).symm h3
        · exact absurd ((hr.clique b a d h1 h2 h1r h2r had).imp (fun h => h.1) (fun h => h.1)) h3
    · rintro ⟨had, h1, h2, h3⟩
      refine ⟨had, Or.inl (h.vstructure_labelled (pos b + 1) (by omega) ⟨had, h1, h2, h3⟩),
        Or.inl (h.vstructure_labelled (pos b + 1) (by omega) ⟨had.symm, h2, h1, fun hj => h3 hj.symm⟩), hne.2 h3⟩

/-- An unlabelled edge is reversed in some equivalent graph. -/
theorem complete (h : LabelRules D pos L) {n : Nat} (hn : ∀ x y, D x y → x < n ∧ y < n) {x y : Nat} (hxy : D x y) (hl : ¬ L x y) :
    ∃ D', Equivalent D D' ∧ D' y x ∧ ¬ D' x y := by
  obtain ⟨r, h1, h2, _⟩ := h.free_perfect.front (n := n) (fun a b hab => Free.symm hab)
    (fun a b hab => by
      rcases hab with hab | hab
      · exact (hn _ _ hab.1).1
      · exact (hn _ _ hab.1).2) (pos y + 1) (fun q => q = y)
    (fun q hq => ⟨hq ▸ (hn _ _ hxy).2, by rw [hq]; omega⟩) (fun a b ha hb hab => absurd (ha.trans hb.symm) hab)
    (fun a b ha hb _ => ha.trans hb.symm)
  have hf : Free D L x y := Or.inl ⟨hxy, hl⟩
  have hlt : r y < r x := by
    have := h1.ne _ _ hf
    by_contra hcon
    have hx : x = y := h2 y x rfl hf (by omega)
    exact h.irrefl x (by rw [hx] at hxy ⊢; exact hxy)
  refine ⟨_, h.equivalent_of_perfect h1, Or.inr ⟨hf.symm, hlt⟩, ?_⟩
  rintro (h' | ⟨_, h'⟩)
  · exact hl h'
  · omega

/-- Labels that obey the rules are exactly the compelled edges. -/
theorem compelled_iff (h : LabelRules D pos L) {n : Nat} (hn : ∀ x y, D x y → x < n ∧ y < n) {x y : Nat} (hxy : D x y) :
    L x y ↔ Compelled D x y := by
  constructor
  · intro hl D' he
    exact h.sound he (pos y + 1) (by omega) hl
  · intro hc
    by_contra hl
    obtain ⟨D', he, _, hn'⟩ := h.complete hn hxy hl
    exact hn' (hc D' he)

end LabelRules

end FastPGM
