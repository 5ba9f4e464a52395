import Verif.Lemmas.MessagePassing3

/-!
The messages of the recursive algorithms.
-/

namespace FastPGM

open Spec

variable {T : JTShape} {L : Levels} {r : Nat} {lev : JNode → Nat} {par ch : Nat → Nat} {card : Nat → Nat} {VC VS : Nat → List Nat}

/-- The messages of `Collect2`. -/
def sched2 (kids : JNode → List JNode) : Nat → JNode → List (JNode × JNode)
  | 0, _ => []
  | n + 1, x => (kids x).flatMap (fun y => sched2 kids n y ++ [(x, y)])

/-- The messages of `Distribute2`. -/
def schedD2 (kids : JNode → List JNode) : Nat → JNode → List (JNode × JNode)
  | 0, _ => []
  | n + 1, x => (kids x).flatMap (fun y => (y, x) :: schedD2 kids n y)

/-- `z` lies in the subtree of `x`. -/
def Below (T : JTShape) (L : Levels) : JNode → JNode → Prop :=
  Relation.ReflTransGen (fun y z => validNode T.cliques.length z ∧ L.marks.up z = some y)

section plan

variable (hp : Plan T L r lev par ch) (h : RepOK card T.cliques.length VC VS par ch)

include hp h

theorem Plan.up_some {z w : JNode} (hz : validNode T.cliques.length z) (e : L.marks.up z = some w) :
    lev z = lev w + 1 ∧ validNode T.cliques.length w ∧ z ∈ L.marks.down w := by
  by_cases hr : z = .clq r
  · subst hr
    rw [hp.up_root] at e
    cases e
  · obtain ⟨y, e', _, h1, h2, h3⟩ := hp.up_facts h hz hr
    rw [e] at e'
    cases e'
    exact ⟨h1, h2, h3⟩

theorem Below.lev_le {x z : JNode} (hb : Below T L x z) : lev x ≤ lev z := by
  induction hb with
  | refl => exact le_rfl
  | tail _ hs ih =>
    have := (hp.up_some h hs.1 hs.2).1
    omega

/-- A node is in the subtree of one node of a level. -/
theorem Below.unique {y y' z : JNode} (hb : Below T L y z) (hb' : Below T L y' z) (hl : lev y = lev y') : y = y' := by
  induction hb with
  | refl =>
    rcases Relation.ReflTransGen.cases_tail hb' with e | ⟨w, hw, hs⟩
    · exact e
    · have h1 := Below.lev_le hp h hw
      have h2 := (hp.up_some h hs.1 hs.2).1
      omega
  | @tail w z hw hs ih =>
    rcases Relation.ReflTransGen.cases_tail hb' with e | ⟨w', hw', hs'⟩
    · subst e
      have h1 := Below.lev_le hp h hw
      have h2 := (hp.up_some h hs.1 hs.2).1
      omega
    · have e : w = w' := by
        have := hs.2
        rw [hs'.2] at this
        cases this
        rfl
      subst e
      exact ih hw'

theorem Below.head {x z : JNode} (hb : Below T L x z) (hne : z ≠ x) : ∃ y ∈ L.marks.down x, Below T L y z := by
  rcases Relation.ReflTransGen.cases_head hb with e | ⟨y, hs, hy⟩
  · exact absurd e.symm hne
  · exact ⟨y, (hp.up_some h hs.1 hs.2).2.2, hy⟩

theorem Below.of_down {x y z : JNode} (hx : validNode T.cliques.length x) (hy : y ∈ L.marks.down x) (hb : Below T L y z) : Below T L x z := by
  obtain ⟨_, _, h1, h2⟩ := hp.down_facts h hx hy
  exact Relation.ReflTransGen.head ⟨h1, h2⟩ hb

theorem below_root {z : JNode} (hz : validNode T.cliques.length z) : Below T L (.clq r) z := by
  induction hn : lev z using Nat.strong_induction_on generalizing z with
  | _ n ih =>
    by_cases hr : z = .clq r
    · subst hr
      exact Relation.ReflTransGen.refl
    · obtain ⟨y, e, _, h1, h2, _⟩ := hp.up_facts h hz hr
      exact Relation.ReflTransGen.tail (ih (lev y) (by omega) h2 rfl) ⟨hz, e⟩

/-! #### `Collect2` -/

variable {kids : JNode → List JNode} (hk : ∀ x, validNode T.cliques.length x → (kids x).Perm (L.marks.down x))

include hk

theorem mem_sched2 {n : Nat} {x : JNode} (hx : validNode T.cliques.length x) {p : JNode × JNode} (hpm : p ∈ sched2 kids n x) :
    Below T L x p.1 ∧ validNode T.cliques.length p.1 ∧ p.2 ∈ L.marks.down p.1 := by
  induction n generalizing x with
  | zero => simp [sched2] at hpm
  | succ n ih =>
    rw [sched2, List.mem_flatMap] at hpm
    obtain ⟨y, hy, hpm⟩ := hpm
    have hy' := (hk x hx).mem_iff.1 hy
    rw [List.mem_append, List.mem_singleton] at hpm
    rcases hpm with hpm | rfl
    · obtain ⟨h1, h2, h3⟩ := ih (hp.down_facts h hx hy').2.2.1 hpm
      exact ⟨h1.of_down hp h hx hy', h2, h3⟩
    · exact ⟨Relation.ReflTransGen.refl, hx, hy'⟩

theorem mem_sched2_snd {n : Nat} {x : JNode} (hx : validNode T.cliques.length x) {p : JNode × JNode} (hpm : p ∈ sched2 kids n x) :
    Below T L x p.2 ∧ lev p.2 = lev p.1 + 1 := by
  obtain ⟨h1, h2, h3⟩ := mem_sched2 hp h hk hx hpm
  obtain ⟨_, h4, h5, h6⟩ := hp.down_facts h h2 h3
  exact ⟨Relation.ReflTransGen.tail h1 ⟨h5, h6⟩, h4⟩

theorem readBy_sched2 {n : Nat} {x : JNode} (hx : validNode T.cliques.length x) (hn : L.nodes.length ≤ n + lev x) {z : JNode}
    (hz : validNode T.cliques.length z) : (Below T L x z → readBy (sched2 kids n x) z = kids z) ∧ (¬ Below T L x z → readBy (sched2 kids n x) z = []) := by
  refine ⟨?_, ?_⟩
  swap
  · intro hb
    apply readBy_eq_nil
    rintro p hpm rfl
    exact hb (mem_sched2 hp h hk hx hpm).1
  induction n generalizing x with
  | zero =>
    have := hp.lt x hx
    omega
  | succ n ih =>
    intro hb
    have hkn : (kids x).Nodup := (hk x hx).nodup_iff.2 (hp.down_nodup' hx)
    have hchild : ∀ y ∈ kids x, validNode T.cliques.length y ∧ lev y = lev x + 1 := fun y hy => by
      obtain ⟨_, h1, h2, _⟩ := hp.down_facts h hx ((hk x hx).mem_iff.1 hy)
      exact ⟨h2, h1⟩
    rw [sched2, readBy_flatMap]
    by_cases hzx : z = x
    · subst hzx
      have e : (kids z).flatMap (fun y => readBy (sched2 kids n y ++ [(z, y)]) z) = (kids z).flatMap (fun y => [y]) := by
        apply List.flatMap_congr
        intro y hy
        rw [readBy_append, readBy_cons, if_pos rfl, readBy_nil, readBy_eq_nil, List.nil_append]
        rintro p hpm rfl
        have h1 := Below.lev_le hp h (mem_sched2 hp h hk (hchild y hy).1 hpm).1
        have h2 := (hchild y hy).2
        omega
      rw [e]
      simp
    · obtain ⟨y, hy, hbz⟩ := hb.head hp h hzx
      have hyk := (hk x hx).mem_iff.2 hy
      rw [flatMap_single hkn hyk]
      · rw [readBy_append, readBy_cons, if_neg (Ne.symm hzx), readBy_nil, List.append_nil]
        exact ih (hchild y hyk).1 (by have := (hchild y hyk).2; omega) hbz
      · intro y' hy' hne
        rw [readBy_append, readBy_cons, if_neg (Ne.symm hzx), readBy_nil, List.append_nil]
        apply readBy_eq_nil
        rintro p hpm rfl
        refine hne (Below.unique hp h (mem_sched2 hp h hk (hchild y' hy').1 hpm).1 hbz ?_)
        rw [(hchild y' hy').2, (hchild y hyk).2]

theorem readFinal_sched2 {n : Nat} {x : JNode} (hx : validNode T.cliques.length x) : ReadFinal (sched2 kids n x) := by
  refine ⟨?_, ?_⟩
  · induction n generalizing x with
    | zero => exact List.Pairwise.nil
    | succ n ih =>
      have hkn : (kids x).Nodup := (hk x hx).nodup_iff.2 (hp.down_nodup' hx)
      have hchild : ∀ y ∈ kids x, validNode T.cliques.length y ∧ lev y = lev x + 1 := fun y hy => by
        obtain ⟨_, h1, h2, _⟩ := hp.down_facts h hx ((hk x hx).mem_iff.1 hy)
        exact ⟨h2, h1⟩
      have hblock : ∀ y ∈ kids x, ∀ p ∈ sched2 kids n y ++ [(x, y)], Below T L y p.2 ∧ (p.1 = x ∨ Below T L y p.1) := by
        intro y hy p hpm
        rw [List.mem_append, List.mem_singleton] at hpm
        rcases hpm with hpm | rfl
        · exact ⟨(mem_sched2_snd hp h hk (hchild y hy).1 hpm).1, Or.inr (mem_sched2 hp h hk (hchild y hy).1 hpm).1⟩
        · exact ⟨Relation.ReflTransGen.refl, Or.inl rfl⟩
      rw [sched2]
      refine pairwise_flatMap_of ?_ ?_
      · intro y hy
        rw [List.pairwise_append]
        refine ⟨ih (hchild y hy).1, List.pairwise_singleton _ _, ?_⟩
        intro p hpm q hqm e
        rw [List.mem_singleton] at hqm
        subst hqm
        have h1 := Below.lev_le hp h (mem_sched2_snd hp h hk (hchild y hy).1 hpm).1
        have h2 := (hchild y hy).2
        have e' : x = p.2 := e
        rw [← e'] at h1
        omega
      · refine List.Pairwise.imp_of_mem ?_ hkn
        intro y y' hy hy' hne p hpm q hqm e
        have h1 := (hblock y hy p hpm).1
        rcases (hblock y' hy' q hqm).2 with h2 | h2
        · have h3 := Below.lev_le hp h h1
          have h4 := (hchild y hy).2
          rw [← e, h2] at h3
          omega
        · rw [e] at h2
          exact hne (Below.unique hp h h1 h2 (by rw [(hchild y hy).2, (hchild y' hy').2]))
  · intro p hpm e
    have := (mem_sched2_snd hp h hk hx hpm).2
    rw [← e] at this
    omega

theorem sched2_order {n : Nat} (hn : L.nodes.length ≤ n) : CollectOrder T L (sched2 kids n (.clq r)) := by
  have hr : validNode T.cliques.length (.clq r) := hp.root
  refine ⟨readFinal_sched2 hp h hk hr, ?_, fun p hpm => (mem_sched2 hp h hk hr hpm).2.1⟩
  intro x hx
  rw [(readBy_sched2 hp h hk hr (by omega) hx).1 (below_root hp h hx)]
  exact hk x hx

/-! #### `Distribute2` -/

theorem mem_schedD2 {n : Nat} {x : JNode} (hx : validNode T.cliques.length x) {p : JNode × JNode} (hpm : p ∈ schedD2 kids n x) :
    Below T L x p.2 ∧ validNode T.cliques.length p.2 ∧ p.1 ∈ L.marks.down p.2 := by
  induction n generalizing x with
  | zero => simp [schedD2] at hpm
  | succ n ih =>
    rw [schedD2, List.mem_flatMap] at hpm
    obtain ⟨y, hy, hpm⟩ := hpm
    have hy' := (hk x hx).mem_iff.1 hy
    rw [List.mem_cons] at hpm
    rcases hpm with rfl | hpm
    · exact ⟨Relation.ReflTransGen.refl, hx, hy'⟩
    · obtain ⟨h1, h2, h3⟩ := ih (hp.down_facts h hx hy').2.2.1 hpm
      exact ⟨h1.of_down hp h hx hy', h2, h3⟩

theorem mem_schedD2_fst {n : Nat} {x : JNode} (hx : validNode T.cliques.length x) {p : JNode × JNode} (hpm : p ∈ schedD2 kids n x) :
    Below T L x p.1 ∧ lev p.1 = lev p.2 + 1 ∧ lev x < lev p.1 ∧ validNode T.cliques.length p.1 := by
  obtain ⟨h1, h2, h3⟩ := mem_schedD2 hp h hk hx hpm
  obtain ⟨_, h4, h5, h6⟩ := hp.down_facts h h2 h3
  have h7 := Below.lev_le hp h h1
  exact ⟨Relation.ReflTransGen.tail h1 ⟨h5, h6⟩, h4, by omega, h5⟩

theorem readBy_schedD2 {n : Nat} {x : JNode} (hx : validNode T.cliques.length x) (hn : L.nodes.length ≤ n + lev x) {z : JNode}
    (hb : Below T L x z) (hzx : z ≠ x) : readBy (schedD2 kids n x) z = (L.marks.up z).toList := by
  induction n generalizing x with
  | zero =>
    have := hp.lt x hx
    omega
  | succ n ih =>
    have hkn : (kids x).Nodup := (hk x hx).nodup_iff.2 (hp.down_nodup' hx)
    have hchild : ∀ y ∈ kids x, validNode T.cliques.length y ∧ lev y = lev x + 1 ∧ L.marks.up y = some x := fun y hy => by
      obtain ⟨_, h1, h2, h3⟩ := hp.down_facts h hx ((hk x hx).mem_iff.1 hy)
      exact ⟨h2, h1, h3⟩
    rw [schedD2, readBy_flatMap]
    obtain ⟨y, hy, hbz⟩ := hb.head hp h hzx
    have hyk := (hk x hx).mem_iff.2 hy
    rw [flatMap_single hkn hyk]
    · rw [readBy_cons]
      by_cases hyz : y = z
      · subst hyz
        rw [if_pos rfl, (hchild y hyk).2.2, readBy_eq_nil]
        · rfl
        · rintro p hpm rfl
          have := (mem_schedD2_fst hp h hk (hchild p.1 hyk).1 hpm).2.2.1
          omega
      · rw [if_neg hyz]
        exact ih (hchild y hyk).1 (by have := (hchild y hyk).2; omega) hbz (Ne.symm hyz)
    · intro y' hy' hne
      have hlev : lev y' = lev y := by rw [(hchild y' hy').2.1, (hchild y hyk).2.1]
      apply readBy_eq_nil
      rintro p hpm rfl
      rcases List.mem_cons.1 hpm with rfl | hpm
      · exact hne (Below.unique hp h Relation.ReflTransGen.refl hbz hlev)
      · exact hne (Below.unique hp h (mem_schedD2_fst hp h hk (hchild y' hy').1 hpm).1 hbz hlev)

theorem readFinal_schedD2 {n : Nat} {x : JNode} (hx : validNode T.cliques.length x) : ReadFinal (schedD2 kids n x) := by
  refine ⟨?_, ?_⟩
  · induction n generalizing x with
    | zero => exact List.Pairwise.nil
    | succ n ih =>
      have hkn : (kids x).Nodup := (hk x hx).nodup_iff.2 (hp.down_nodup' hx)
      have hchild : ∀ y ∈ kids x, validNode T.cliques.length y ∧ lev y = lev x + 1 := fun y hy => by
        obtain ⟨_, h1, h2, _⟩ := hp.down_facts h hx ((hk x hx).mem_iff.1 hy)
        exact ⟨h2, h1⟩
      have hblock : ∀ y ∈ kids x, ∀ p ∈ (y, x) :: schedD2 kids n y, Below T L y p.1 ∧ (p.2 = x ∨ Below T L y p.2) := by
        intro y hy p hpm
        rcases List.mem_cons.1 hpm with rfl | hpm
        · exact ⟨Relation.ReflTransGen.refl, Or.inl rfl⟩
        · exact ⟨(mem_schedD2_fst hp h hk (hchild y hy).1 hpm).1, Or.inr (mem_schedD2 hp h hk (hchild y hy).1 hpm).1⟩
      rw [schedD2]
      refine pairwise_flatMap_of ?_ ?_
      · intro y hy
        rw [List.pairwise_cons]
        refine ⟨?_, ih (hchild y hy).1⟩
        intro q hqm e
        have h1 := (mem_schedD2_fst hp h hk (hchild y hy).1 hqm).2.2.1
        have h2 := (hchild y hy).2
        have e' : q.1 = x := e
        rw [e'] at h1
        omega
      · refine List.Pairwise.imp_of_mem ?_ hkn
        intro y y' hy hy' hne p hpm q hqm e
        have h1 := (hblock y' hy' q hqm).1
        rcases (hblock y hy p hpm).2 with h2 | h2
        · have h3 := Below.lev_le hp h h1
          have h4 := (hchild y' hy').2
          rw [e, h2] at h3
          omega
        · rw [e] at h1
          exact hne (Below.unique hp h h2 h1 (by rw [(hchild y hy).2, (hchild y' hy').2]))
  · intro p hpm e
    have := (mem_schedD2_fst hp h hk hx hpm).2.1
    rw [← e] at this
    omega

theorem schedD2_order {n : Nat} (hn : L.nodes.length ≤ n) : DistributeOrder T L (schedD2 kids n (.clq r)) := by
  have hr : validNode T.cliques.length (.clq r) := hp.root
  refine ⟨readFinal_schedD2 hp h hk hr, ?_, fun p hpm => (mem_schedD2_fst hp h hk hr hpm).2.2.2⟩
  intro x hx
  by_cases hxr : x = .clq r
  · subst hxr
    rw [hp.up_root]
    apply readBy_eq_nil
    intro p hpm e
    have := (mem_schedD2_fst hp h hk hr hpm).2.2.1
    rw [e] at this
    omega
  · exact readBy_schedD2 hp h hk hr (by omega) (below_root hp h hx) hxr

end plan

end FastPGM
