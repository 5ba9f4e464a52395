import Verif.Spec.Compelled
import Verif.Lemmas.Graph
import Mathlib.Tactic.ByContra

/-!
Chickering's labelling of the edges of a DAG, without reference to the code: labels that obey the three rules below are exactly the
compelled edges.
-/

namespace FastPGM

open Spec Relation

/-- `x` is the last parent of `y` in the order `pos`. -/
structure LastParent (D : Nat → Nat → Prop) (pos : Nat → Nat) (x y : Nat) : Prop where
  par : D x y
  last : ∀ p, D p y → p ≠ x → pos p < pos x

/-- What the labelling loop establishes: `L` are the edges labelled compelled. -/
structure LabelRules (D : Nat → Nat → Prop) (pos : Nat → Nat) (L : Nat → Nat → Prop) : Prop where
  mono : ∀ x y, D x y → pos x < pos y
  sub : ∀ x y, L x y → D x y
  last : ∀ y p, D p y → ∃ x, LastParent D pos x y
  ruleA : ∀ x y, LastParent D pos x y → (∃ w, L w x ∧ ¬ D w y) → ∀ p, D p y → L p y
  ruleB : ∀ x y, LastParent D pos x y → (∃ z, D z y ∧ z ≠ x ∧ ¬ D z x) → ∀ p, D p y → L p y
  ruleC : ∀ x y, LastParent D pos x y → (∀ w, L w x → D w y) → (∀ z, D z y → z ≠ x → D z x) → ∀ p, D p y → (L p y ↔ L p x)

namespace LabelRules

variable {D L : Nat → Nat → Prop} {pos : Nat → Nat}

theorem irrefl (h : LabelRules D pos L) (x : Nat) : ¬ D x x := fun hx => lt_irrefl _ (h.mono x x hx)

theorem asymm (h : LabelRules D pos L) {x y : Nat} (hx : D x y) : ¬ D y x := fun hy => by
  have := h.mono x y hx
  have := h.mono y x hy
  omega

/-- An edge into `y` that is not labelled: the third rule was used. -/
theorem caseC (h : LabelRules D pos L) {c y : Nat} (hc : D c y) (hnc : ¬ L c y) :
    ∃ x, LastParent D pos x y ∧ (∀ w, L w x → D w y) ∧ (∀ z, D z y → z ≠ x → D z x) ∧ ∀ p, D p y → (L p y ↔ L p x) := by
  obtain ⟨x, hx⟩ := h.last y c hc
  have hA : ∀ w, L w x → D w y := by
    intro w hw
    by_contra hn
    exact hnc (h.ruleA x y hx ⟨w, hw, hn⟩ c hc)
  have hB : ∀ z, D z y → z ≠ x → D z x := by
    intro z hz hzx
    by_contra hn
    exact hnc (h.ruleB x y hx ⟨z, hz, hzx, hn⟩ c hc)
  exact ⟨x, hx, hA, hB, h.ruleC x y hx hA hB⟩

/-- Two nodes joined by an unlabelled edge have the same labelled parents. -/
theorem spread (h : LabelRules D pos L) : ∀ (m : Nat) {a b c : Nat}, pos b < m → pos c < m → L a b →
    (D b c ∧ ¬ L b c) ∨ (D c b ∧ ¬ L c b) → L a c := by
  intro m
  induction m with
  | zero => intro a b c hb; omega
  | succ m ih =>
    intro a b c hb hc hab hbc
    rcases hbc with ⟨h1, h2⟩ | ⟨h1, h2⟩
    · obtain ⟨x, hx, hA, hB, hC⟩ := h.caseC h1 h2
      by_cases hbx : b = x
      · subst hbx
        exact (hC a (hA a hab)).2 hab
      · have hbx' : D b x := hB b h1 hbx
        have hnl : ¬ L b x := fun hl => h2 ((hC b h1).2 hl)
        have p1 := h.mono _ _ h1
        have p2 := h.mono _ _ hx.par
        have hax : L a x := ih (by omega) (by omega) hab (Or.inl ⟨hbx', hnl⟩)
        exact (hC a (hA a hax)).2 hax
    · obtain ⟨x, hx, hA, hB, hC⟩ := h.caseC h1 h2
      have hax : L a x := (hC a (h.sub _ _ hab)).1 hab
      by_cases hcx : c = x
      · rw [hcx]; exact hax
      · have hcx' : D c x := hB c h1 hcx
        have hnl : ¬ L c x := fun hl => h2 ((hC c h1).2 hl)
        have p1 := h.mono _ _ h1
        have p2 := h.mono _ _ hx.par
        exact ih (by omega) (by omega) hax (Or.inr ⟨hcx', hnl⟩)

/-- The edge between `b` and `c` is not labelled. -/
def Free (D L : Nat → Nat → Prop) (b c : Nat) : Prop := (D b c ∧ ¬ L b c) ∨ (D c b ∧ ¬ L c b)

theorem Free.symm {b c : Nat} (h : Free D L b c) : Free D L c b := Or.symm h

theorem spread' (h : LabelRules D pos L) {a b c : Nat} (hab : L a b) (hbc : Free D L b c) : L a c :=
  h.spread (pos b + pos c + 1) (by omega) (by omega) hab hbc

theorem spread_iff (h : LabelRules D pos L) {b c : Nat} (hbc : Free D L b c) (a : Nat) : L a b ↔ L a c :=
  ⟨fun hl => h.spread' hl hbc, fun hl => h.spread' hl hbc.symm⟩

/-- Free edges are not labelled in either direction. -/
theorem Free.not_left (h : LabelRules D pos L) {b c : Nat} (hbc : Free D L b c) : ¬ L b c := by
  intro hl
  rcases hbc with ⟨_, h2⟩ | ⟨h1, _⟩
  · exact h2 hl
  · exact h.asymm (h.sub _ _ hl) h1

theorem vstructure_labelled (h : LabelRules D pos L) : ∀ (m : Nat) {u y v : Nat}, pos y < m → VStructure D u y v → L u y := by
  intro m
  induction m with
  | zero => intro u y v hy; omega
  | succ m ih =>
    rintro u y v hy ⟨huv, hu, hv, hnj⟩
    by_contra hnl
    obtain ⟨x, hx, hA, hB, hC⟩ := h.caseC hu hnl
    by_cases hux : u = x
    · subst hux
      exact hnj (Or.inr (hB v hv huv.symm))
    · by_cases hvx : v = x
      · subst hvx
        exact hnj (Or.inl (hB u hu huv))
      · have p2 := h.mono _ _ hx.par
        exact hnl ((hC u hu).2 (ih (by omega) ⟨huv, hB u hu hux, hB v hv hvx, hnj⟩))

/-! ### Labelled edges are compelled -/

section
variable {D' : Nat → Nat → Prop}

theorem eq_acyclic3 (he : Equivalent D D') {a b c : Nat} (h1 : D' a b) (h2 : D' b c) (h3 : D' c a) : False :=
  he.acyclic ⟨a, .tail (.tail (.single h1) h2) h3⟩

theorem eq_acyclic2 (he : Equivalent D D') {a b : Nat} (h1 : D' a b) (h2 : D' b a) : False :=
  he.acyclic ⟨a, .tail (.single h1) h2⟩

theorem eq_close (he : Equivalent D D') {a b c : Nat} (h1 : D' a b) (h2 : D' b c) (hj : Joined D a c) : D' a c := by
  rcases (he.skeleton a c).2 hj with h' | h'
  · exact h'
  · exact (eq_acyclic3 he h1 h2 h').elim

/-- In an equivalent graph `a → b`, and `a`, `c` are not adjacent: an edge `b - c` that is `b → c` in `D` stays so. -/
theorem eq_rule1 (h : LabelRules D pos L) (he : Equivalent D D') {a b c : Nat} (h1 : D' a b) (hbc : D b c) (hac : a ≠ c)
    (hj : ¬ Joined D a c) : D' b c := by
  rcases (he.skeleton b c).2 (Or.inl hbc) with h' | h'
  · exact h'
  · exact absurd ((he.colliders a b c).1 ⟨hac, h1, h', fun hj' => hj ((he.skeleton a c).1 hj')⟩).2.2.1 (h.asymm hbc)

theorem eq_vstruct (he : Equivalent D D') {a b c : Nat} (hv : VStructure D a b c) : D' a b ∧ D' c b :=
  ⟨((he.colliders a b c).2 hv).2.1, ((he.colliders a b c).2 hv).2.2.1⟩

theorem eq_or (he : Equivalent D D') {a b : Nat} (hab : D a b) : D' a b ∨ D' b a := (he.skeleton a b).2 (Or.inl hab)

/-- The core of rule A: `u → q` and `q → y` are compelled, `u` and `y` are not adjacent; then every other parent `w` of `y` (with
`w → q` if the two are adjacent) is compelled too. -/
theorem core (he : Equivalent D D') (h : LabelRules D pos L) {u q y w : Nat} (huq : D' u q) (huq' : D u q) (hqy : D' q y) (hqy' : D q y)
    (hwy : D w y) (hwq : D w q ∨ ¬ Joined D w q) (hne : w ≠ q) (huy : ¬ Joined D u y) : D' w y := by
  rcases eq_or he hwy with h' | h'
  · exact h'
  exfalso
  rcases hwq with hwq | hwq
  · have hqw : D' q w := eq_close he hqy h' (Or.inr hwq)
    by_cases huw : Joined D u w
    · have huw' : D' u w := eq_close he huq hqw huw
      have huy' : u ≠ y := by
        rintro rfl
        exact h.asymm huq' hqy'
      have := (he.colliders u w y).1 ⟨huy', huw', h', fun hj => huy ((he.skeleton u y).1 hj)⟩
      exact h.asymm hwy this.2.2.1
    · have huw' : u ≠ w := by
        rintro rfl
        exact huy (Or.inl hwy)
      exact eq_acyclic2 he hqw (eq_vstruct he ⟨huw', huq', hwq, huw⟩).2
  · exact eq_acyclic2 he h' (eq_vstruct he ⟨hne, hwy, hqy', hwq⟩).1

/-- The core of rule B: `q` and `z` are parents of `y` that are not adjacent; every other parent of `y` that is not a child of `q` is
compelled. -/
theorem core2 (he : Equivalent D D') (_h : LabelRules D pos L) {q z y w : Nat} (hq : D q y) (hz : D z y) (hqz : q ≠ z) (hnj : ¬ Joined D q z)
    (hw : D w y) (hqw : ¬ D q w) : D' w y := by
  obtain ⟨v1, v2⟩ := eq_vstruct he ⟨hqz, hq, hz, hnj⟩
  by_cases hwq : w = q
  · rw [hwq]; exact v1
  by_cases hwz : w = z
  · rw [hwz]; exact v2
  rcases eq_or he hw with h' | h'
  · exact h'
  exfalso
  have jq : Joined D q w := by
    by_contra hn
    exact eq_acyclic2 he h' (eq_vstruct he ⟨hwq, hw, hq, fun hj => hn hj.symm⟩).1
  have jz : Joined D z w := by
    by_contra hn
    exact eq_acyclic2 he h' (eq_vstruct he ⟨hwz, hw, hz, fun hj => hn hj.symm⟩).1
  have := (he.colliders q w z).1 ⟨hqz, eq_close he v1 h' jq, eq_close he v2 h' jz, fun hj => hnj ((he.skeleton q z).1 hj)⟩
  exact hqw this.2.1

end

/-- Nodes joined by free edges have the same labelled parents. -/
theorem spread_conn (h : LabelRules D pos L) {b c : Nat} (hbc : ReflTransGen (Free D L) b c) (a : Nat) : L a b ↔ L a c := by
  induction hbc with
  | refl => exact Iff.rfl
  | tail _ h2 ih => exact ih.trans (h.spread_iff h2 a)

/-- Why an edge `w → x` is labelled: follow last parents by free edges to a node `k` at which rule A or B was used. -/
theorem reason (h : LabelRules D pos L) : ∀ (m : Nat) {w x : Nat}, pos x < m → L w x →
    ∃ k q, ReflTransGen (Free D L) k x ∧ pos k ≤ pos x ∧ LastParent D pos q k ∧ L w k ∧ L q k ∧
      ((∃ u, L u q ∧ ¬ D u k) ∨ ∃ z, D z k ∧ z ≠ q ∧ ¬ D z q ∧ L z k) := by
  intro m
  induction m with
  | zero => intro w x hx; omega
  | succ m ih =>
    intro w x hx hwx
    obtain ⟨q, hq⟩ := h.last x w (h.sub _ _ hwx)
    by_cases hA : ∃ u, L u q ∧ ¬ D u x
    · exact ⟨x, q, .refl, le_refl _, hq, hwx, h.ruleA q x hq hA q hq.par, Or.inl hA⟩
    by_cases hB : ∃ z, D z x ∧ z ≠ q ∧ ¬ D z q
    · obtain ⟨z, hz⟩ := hB
      exact ⟨x, q, .refl, le_refl _, hq, hwx, h.ruleB q x hq ⟨z, hz⟩ q hq.par,
        Or.inr ⟨z, hz.1, hz.2.1, hz.2.2, h.ruleB q x hq ⟨z, hz⟩ z hz.1⟩⟩
    have hA' : ∀ w, L w q → D w x := fun w hw => by
      by_contra hn
      exact hA ⟨w, hw, hn⟩
    have hB' : ∀ z, D z x → z ≠ q → D z q := fun z hz hzq => by
      by_contra hn
      exact hB ⟨z, hz, hzq, hn⟩
    have hC := h.ruleC q x hq hA' hB'
    have hqx : ¬ L q x := fun hl => h.irrefl q (h.sub _ _ ((hC q hq.par).1 hl))
    have p1 := h.mono _ _ hq.par
    obtain ⟨k, q', h1, h2, h3⟩ := ih (by omega) ((hC w (h.sub _ _ hwx)).1 hwx)
    exact ⟨k, q', h1.tail (Or.inl ⟨hq.par, hqx⟩), by omega, h3⟩

theorem sound (h : LabelRules D pos L) {D' : Nat → Nat → Prop} (he : Equivalent D D') : ∀ (m : Nat) {p y : Nat}, pos y < m → L p y →
    D' p y := by
  intro m
  induction m with
  | zero => intro p y hy; omega
  | succ m ih =>
    intro p y hy hpy
    have hD := h.sub _ _ hpy
    obtain ⟨x, hx⟩ := h.last y p hD
    have px := h.mono _ _ hx.par
    have nonchild : ∀ w, D w y → ¬ D x w := by
      intro w hw hxw
      by_cases hwx : w = x
      · subst hwx
        exact h.irrefl _ hxw
      · have := h.mono _ _ hxw
        have := hx.last w hw hwx
        omega
    by_cases hA : ∃ w, L w x ∧ ¬ D w y
    · obtain ⟨w, hw, hwy⟩ := hA
      have hwx' : D' w x := ih (by omega) hw
      have pw := h.mono _ _ (h.sub _ _ hw)
      have hnj : ¬ Joined D w y := by
        rintro (hj | hj)
        · exact hwy hj
        · have := h.mono _ _ hj
          omega
      have hwney : w ≠ y := by
        rintro rfl
        omega
      have hxy : D' x y := eq_rule1 h he hwx' hx.par hwney hnj
      by_cases hpx : p = x
      · rw [hpx]; exact hxy
      · refine core he h hwx' (h.sub _ _ hw) hxy hx.par hD ?_ hpx hnj
        by_cases hj : Joined D p x
        · rcases hj with hj | hj
          · exact Or.inl hj
          · exact absurd hj (nonchild p hD)
        · exact Or.inr hj
    by_cases hB : ∃ z, D z y ∧ z ≠ x ∧ ¬ D z x
    · obtain ⟨z, hz, hzx, hnz⟩ := hB
      refine core2 he h hx.par hz (Ne.symm hzx) ?_ hD (nonchild p hD)
      rintro (hj | hj)
      · exact nonchild z hz hj
      · exact hnz hj
    have hA' : ∀ w, L w x → D w y := fun w hw => by
      by_contra hn
      exact hA ⟨w, hw, hn⟩
    have hB' : ∀ z, D z y → z ≠ x → D z x := fun z hz hzq => by
      by_contra hn
      exact hB ⟨z, hz, hzq, hn⟩
    have hpx : L p x := (h.ruleC x y hx hA' hB' p hD).1 hpy
    obtain ⟨k, q, hk, hpk, hq, h1, h2, h3⟩ := h.reason (pos x + 1) (by omega) hpx
    have hqx : L q x := (h.spread_conn hk q).1 h2
    have hqy : D q y := hA' q hqx
    have pq := h.mono _ _ hq.par
    have pnonchild : ¬ D q p := by
      intro hqp
      by_cases hpq : p = q
      · subst hpq
        exact h.irrefl _ hqp
      · have := h.mono _ _ hqp
        have := hq.last p (h.sub _ _ h1) hpq
        omega
    rcases h3 with ⟨u, hu, hnu⟩ | ⟨z, hz, hzq, hnz, hLz⟩
    · have pu := h.mono _ _ (h.sub _ _ hu)
      have huq' : D' u q := ih (by omega) hu
      by_cases huy : D u y
      · -- `u → y ← x` is a v-structure
        have hux : ¬ Joined D u x := by
          rintro (hj | hj)
          · have hfree : Free D L u x := by
              refine Or.inl ⟨hj, fun hl => ?_⟩
              exact hnu (h.sub _ _ ((h.spread_conn hk u).2 hl))
            have := h.sub _ _ (h.spread' hqx hfree.symm)
            exact h.asymm (h.sub _ _ hu) this
          · have := h.mono _ _ hj
            omega
        have hune : u ≠ x := by
          rintro rfl
          omega
        have hxy := (eq_vstruct he ⟨hune, huy, hx.par, hux⟩).2
        exact eq_close he (ih (by omega) hpx) hxy (Or.inl hD)
      · have huy' : ¬ Joined D u y := by
          rintro (hj | hj)
          · exact huy hj
          · have := h.mono _ _ hj
            omega
        have huney : u ≠ y := by
          rintro rfl
          omega
        have hqy' : D' q y := eq_rule1 h he huq' hqy huney huy'
        by_cases hpq : p = q
        · rw [hpq]; exact hqy'
        · refine core he h huq' (h.sub _ _ hu) hqy' hqy hD ?_ hpq huy'
          by_cases hj : Joined D p q
          · rcases hj with hj | hj
            · exact Or.inl hj
            · exact absurd hj pnonchild
          · exact Or.inr hj
    · have hzx : L z x := (h.spread_conn hk z).1 hLz
      have hzy : D z y := hA' z hzx
      refine core2 he h hqy hzy (Ne.symm hzq) ?_ hD pnonchild
      rintro (hj | hj)
      · have := h.mono _ _ hj
        have := hq.last z hz hzq
        omega
      · exact hnz hj

end LabelRules

end FastPGM
