import Verif.Lemmas.Chickering2
import Verif.Lemmas.Compare2
import Verif.Spec.Orientation
import Mathlib.Data.Finset.Max
import Mathlib.Data.Finset.Lattice.Fold

/-!
Meek's theorem, without reference to the code: orienting the v-structures and applying the first three rules orients exactly the compelled
edges.
-/

namespace FastPGM

open Spec Relation

/-- The arrows that the v-structures and Meek's first three rules produce. -/
inductive MeekArrow (D : Nat → Nat → Prop) : Nat → Nat → Prop
  | collider {a b c : Nat} : VStructure D a b c → MeekArrow D a b
  | away {z a b : Nat} : MeekArrow D z a → Joined D a b → z ≠ b → ¬ Joined D z b → ¬ VStructure D z a b → MeekArrow D a b
  | cycle {a d b : Nat} : MeekArrow D a d → MeekArrow D d b → Joined D a b → MeekArrow D a b
  | double {a d e b : Nat} : Joined D a d → Joined D a e → Joined D a b → MeekArrow D d b → MeekArrow D e b → d ≠ e → ¬ Joined D d e →
      ¬ VStructure D d a e → MeekArrow D a b

theorem Spec.VStructure.symm {D : Nat → Nat → Prop} {a b c : Nat} (h : VStructure D a b c) : VStructure D c b a :=
  ⟨h.1.symm, h.2.2.1, h.2.1, fun hj => h.2.2.2 hj.symm⟩

theorem Spec.Equivalent.refl {D : Nat → Nat → Prop} (h : ¬ Cyclic D) : Equivalent D D := ⟨h, fun _ _ => Iff.rfl, fun _ _ _ => Iff.rfl⟩

namespace MeekArrow

variable {D : Nat → Nat → Prop}

/-- Every such arrow is an arrow of every equivalent graph. -/
theorem sound {D' : Nat → Nat → Prop} (he : Equivalent D D') {a b : Nat} (h : MeekArrow D a b) : D' a b := by
  induction h with
  | collider hv => exact ((he.colliders _ _ _).2 hv).2.1
  | @away z a b _ hj hne hnj hnv ih =>
    rcases (he.skeleton a b).2 hj with h' | h'
    · exact h'
    · exact absurd ((he.colliders z a b).1 ⟨hne, ih, h', fun hj' => hnj ((he.skeleton _ _).1 hj')⟩) hnv
  | cycle _ _ hj ih1 ih2 =>
    rcases (he.skeleton _ _).2 hj with h' | h'
    · exact h'
    · exact (he.acyclic ⟨_, .tail (.tail (.single ih1) ih2) h'⟩).elim
  | @double a d e b hd hee hb _ _ hne hnj hnv ih1 ih2 =>
    rcases (he.skeleton _ _).2 hb with h' | h'
    · exact h'
    · exact absurd ((he.colliders d a e).1 ⟨hne, LabelRules.eq_close he ih1 h' hd.symm, LabelRules.eq_close he ih2 h' hee.symm,
        fun hj' => hnj ((he.skeleton _ _).1 hj')⟩) hnv

/-- Meek's first lemma: an arrow `a → b` into an edge `b - c` without an arrow comes with `a → c`. -/
theorem spread (hac : ¬ Cyclic D) {pos : Nat → Nat} (hmono : ∀ x y, D x y → pos x < pos y) : ∀ (m : Nat) {a b c : Nat}, pos b < m →
    MeekArrow D a b → Joined D b c → ¬ MeekArrow D b c → ¬ MeekArrow D c b → MeekArrow D a c := by
  have hD : ∀ {a b}, MeekArrow D a b → D a b := fun h => h.sound (.refl hac)
  intro m
  induction m with
  | zero => intro a b c h; omega
  | succ m ih =>
    intro a b c hb hab hbc h1 h2
    by_contra hnac
    -- what holds for every arrow into `b`
    have fact : ∀ {d}, MeekArrow D d b → Joined D d c ∧ ¬ MeekArrow D c d := by
      intro d hd
      have hj : Joined D d c := by
        by_contra hj
        refine h1 (away hd hbc ?_ hj (fun hv => h2 (collider hv.symm)))
        rintro rfl
        exact h2 hd
      exact ⟨hj, fun hcd => h2 (cycle hcd hd hbc.symm)⟩
    obtain ⟨f1, f2⟩ := fact hab
    cases hab with
    | @collider _ _ d hv =>
      obtain ⟨g1, g2⟩ := fact (collider hv.symm)
      by_cases hdc : MeekArrow D d c
      · exact f2 (away hdc f1.symm hv.1.symm (fun hj => hv.2.2.2 hj.symm) (fun hv' => hnac (collider hv'.symm)))
      · exact h2 (double f1.symm g1.symm hbc.symm (collider hv) (collider hv.symm) hv.1 hv.2.2.2 (fun hv' => hnac (collider hv')))
    | @away d _ _ hda hj hne hnj hnv =>
      have hpos := hmono _ _ (hD (away hda hj hne hnj hnv))
      have hdc := ih (by omega) hda f1 hnac f2
      exact h2 (away hdc hbc.symm hne hnj (fun hv => h1 (collider hv.symm)))
    | @cycle _ d _ had hdb hj =>
      obtain ⟨g1, g2⟩ := fact hdb
      have hpos := hmono _ _ (hD hdb)
      by_cases hdc : MeekArrow D d c
      · exact hnac (cycle had hdc f1)
      · exact hnac (ih (by omega) had g1 hdc g2)
    | @double _ d e _ hjd hje hj hdb heb hne hnj hnv =>
      obtain ⟨g1, g2⟩ := fact hdb
      obtain ⟨k1, k2⟩ := fact heb
      by_cases hdc : MeekArrow D d c
      · by_cases hec : MeekArrow D e c
        · exact hnac (double hjd hje f1 hdc hec hne hnj hnv)
        · exact k2 (away hdc k1.symm hne hnj (fun hv => hec (collider hv.symm)))
      · by_cases hec : MeekArrow D e c
        · exact g2 (away hec g1.symm hne.symm (fun hj => hnj hj.symm) (fun hv => hdc (collider hv.symm)))
        · exact h2 (double g1.symm k1.symm hbc.symm hdb heb hne hnj (fun hv => hdc (collider hv)))

/-- Chickering's labels are produced by the rules. -/
theorem of_label (hac : ¬ Cyclic D) {pos : Nat → Nat} {L : Nat → Nat → Prop} (h : LabelRules D pos L) : ∀ (m : Nat) {p y : Nat}, pos y < m →
    L p y → MeekArrow D p y := by
  have hD : ∀ {a b}, MeekArrow D a b → D a b := fun h => h.sound (.refl hac)
  have hsp : ∀ {a b c}, MeekArrow D a b → Joined D b c → ¬ MeekArrow D b c → ¬ MeekArrow D c b → MeekArrow D a c :=
    fun {a b c} h1 => spread hac h.mono (pos b + 1) (by omega) h1
  intro m
  induction m with
  | zero => intro p y h; omega
  | succ m ih =>
    intro p y hy hpy
    obtain ⟨x, hx⟩ := h.last y p (h.sub _ _ hpy)
    have hxy := h.mono _ _ hx.par
    -- once the last parent has an arrow into `y`, all parents do
    have all : MeekArrow D x y → ∀ q, D q y → MeekArrow D q y := by
      intro hxa q hq
      by_contra hn
      have hne : q ≠ x := by rintro rfl; exact hn hxa
      have hxq := hsp hxa (Or.inr hq) (fun h' => h.asymm hq (hD h')) hn
      have h1 := h.mono _ _ (hD hxq)
      have h2 := hx.last q hq hne
      omega
    by_cases hA : ∃ w, L w x ∧ ¬ D w y
    · obtain ⟨w, hw, hwy⟩ := hA
      have hwx := ih (by omega) hw
      refine all (away hwx (Or.inl hx.par) ?_ ?_ ?_) p (h.sub _ _ hpy)
      · rintro rfl
        have := h.mono _ _ (hD hwx)
        omega
      · rintro (hj | hj)
        · exact hwy hj
        · have := h.mono _ _ (hD hwx)
          have := h.mono _ _ hj
          omega
      · intro hv
        exact h.asymm hx.par hv.2.2.1
    · push Not at hA
      by_cases hB : ∃ z, D z y ∧ z ≠ x ∧ ¬ D z x
      · obtain ⟨z, hz, hzx, hnz⟩ := hB
        refine all (collider (c := z) ⟨hzx.symm, hx.par, hz, ?_⟩) p (h.sub _ _ hpy)
        rintro (hj | hj)
        · have := h.mono _ _ hj
          have := hx.last z hz hzx
          omega
        · exact hnz hj
      · push Not at hB
        have hpx := ih (by omega) ((h.ruleC x y hx hA hB p (h.sub _ _ hpy)).1 hpy)
        by_cases hxa : MeekArrow D x y
        · exact all hxa p (h.sub _ _ hpy)
        · exact hsp hpx (Or.inl hx.par) hxa (fun h' => h.asymm hx.par (hD h'))

end MeekArrow

/-! ### Orders of finite acyclic graphs -/

/-- A finite acyclic graph has an order of its nodes. -/
theorem exists_pos {D : Nat → Nat → Prop} {n : Nat} (hac : ¬ Cyclic D) (hn : ∀ x y, D x y → x < n ∧ y < n) :
    ∃ pos : Nat → Nat, (∀ x y, D x y → pos x < pos y) ∧ ∀ y p, D p y → ∃ x, LastParent D pos x y := by
  classical
  let anc : Nat → Finset Nat := fun v => (Finset.range n).filter (fun u => TransGen D u v)
  have hanc : ∀ x y, D x y → (anc x).card < (anc y).card := by
    intro x y hxy
    refine Finset.card_lt_card (Finset.ssubset_iff_subset_ne.2 ⟨?_, ?_⟩)
    · intro u hu
      simp only [anc, Finset.mem_filter] at hu ⊢
      exact ⟨hu.1, hu.2.tail hxy⟩
    · intro he
      have hx : x ∈ anc y := by
        simp only [anc, Finset.mem_filter, Finset.mem_range]
        exact ⟨(hn _ _ hxy).1, .single hxy⟩
      rw [← he] at hx
      simp only [anc, Finset.mem_filter] at hx
      exact hac ⟨x, hx.2⟩
  let pos : Nat → Nat := fun v => (anc v).card * n + v
  have hmono : ∀ x y, D x y → pos x < pos y := by
    intro x y hxy
    have h1 := hanc x y hxy
    have h2 := (hn _ _ hxy).1
    have h3 : ((anc x).card + 1) * n ≤ (anc y).card * n := Nat.mul_le_mul_right _ h1
    rw [Nat.add_mul] at h3
    show (anc x).card * n + x < (anc y).card * n + y
    omega
  have hinj : ∀ x y, x < n → y < n → pos x = pos y → x = y := by
    intro x y hx hy he
    have h1 : ((anc x).card * n + x) % n = ((anc y).card * n + y) % n := congrArg (· % n) he
    rw [Nat.mul_add_mod', Nat.mul_add_mod', Nat.mod_eq_of_lt hx, Nat.mod_eq_of_lt hy] at h1
    exact h1
  refine ⟨pos, hmono, fun y p hp => ?_⟩
  obtain ⟨x, hx, hmax⟩ := ((Finset.range n).filter (fun u => D u y)).exists_max_image pos
    ⟨p, by rw [Finset.mem_filter, Finset.mem_range]; exact ⟨(hn _ _ hp).1, hp⟩⟩
  rw [Finset.mem_filter, Finset.mem_range] at hx
  refine ⟨x, hx.2, fun q hq hqx => ?_⟩
  have h1 := hmax q (by rw [Finset.mem_filter, Finset.mem_range]; exact ⟨(hn _ _ hq).1, hq⟩)
  rcases Nat.lt_or_ge (pos q) (pos x) with h | h
  · exact h
  · exact absurd (hinj q x (hn _ _ hq).1 hx.1 (le_antisymm h1 h)) hqx

/-- Meek's theorem: the v-structures and the first three rules orient exactly the compelled edges. -/
theorem meekArrow_iff_compelled {D : Nat → Nat → Prop} {n : Nat} (hac : ¬ Cyclic D) (hn : ∀ x y, D x y → x < n ∧ y < n) {x y : Nat} :
    MeekArrow D x y ↔ Compelled D x y := by
  refine ⟨fun h D' he => h.sound he, fun h => ?_⟩
  obtain ⟨pos, hmono, hlast⟩ := exists_pos hac hn
  obtain ⟨L, hL⟩ := exists_labels hmono hlast
  exact MeekArrow.of_label hac hL (pos y + 1) (by omega) ((hL.compelled_iff hn (h D (.refl hac))).2 h)

/-- A set of arrows of `D` that contains the v-structures and to which no rule applies contains all the arrows of the rules. -/
theorem meekArrow_of_closed {D P : Nat → Nat → Prop} (hac : ¬ Cyclic D) (hsub : ∀ x y, P x y → D x y)
    (hv : ∀ a b c, VStructure D a b c → P a b) (hcl : ∀ x y, Undirected (Joined D) P x y → ¬ MeekApplies (Joined D) P x y) {x y : Nat}
    (h : MeekArrow D x y) : P x y := by
  have hcl' : ∀ {a b}, Joined D a b → D a b → MeekApplies (Joined D) P a b → P a b := by
    intro a b hj hab hm
    by_contra hn
    exact hcl a b ⟨hj, hn, fun h' => hac ⟨a, .tail (.single hab) (hsub _ _ h')⟩⟩ hm
  have hD : ∀ {a b}, MeekArrow D a b → D a b := fun h => h.sound (.refl hac)
  induction h with
  | collider h' => exact hv _ _ _ h'
  | away h' hj hne hnj hnv ih => exact hcl' hj (hD (.away h' hj hne hnj hnv)) (Or.inl ⟨_, ih, hnj⟩)
  | cycle h' h'' hj ih1 ih2 => exact hcl' hj (hD (.cycle h' h'' hj)) (Or.inr (Or.inl ⟨_, ih1, ih2⟩))
  | @double a d e b hjd hje hj h1 h2 hne hnj hnv ih1 ih2 =>
    have hab := hD (.double hjd hje hj h1 h2 hne hnj hnv)
    have two : ∀ {c}, P a c → P c b → P a b := fun h3 h4 => hcl' hj hab (Or.inr (Or.inl ⟨_, h3, h4⟩))
    by_cases had : P a d
    · exact two had ih1
    by_cases hae : P a e
    · exact two hae ih2
    -- an arrow `d → a` spreads to `a → e` by the first rule
    have step : ∀ {d e}, Joined D a e → ¬ Joined D d e → ¬ VStructure D d a e → d ≠ e → P d a → P a e := by
      intro d e hje hnj hnv hne hda
      rcases hje with h' | h'
      · exact hcl' (Or.inl h') h' (Or.inl ⟨d, hda, hnj⟩)
      · exact absurd ⟨hne, hsub _ _ hda, h', hnj⟩ hnv
    by_cases hda : P d a
    · exact absurd (step hje hnj hnv hne hda) hae
    by_cases hea : P e a
    · exact absurd (step hjd (fun h => hnj h.symm) (fun h => hnv h.symm) hne.symm hea) had
    exact hcl' hj hab (Or.inr (Or.inr ⟨d, e, hne, hnj, ⟨hjd, had, hda⟩, ⟨hje, hae, hea⟩, ih1, ih2⟩))

end FastPGM
