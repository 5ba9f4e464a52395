import Verif.Lemmas.Skeleton2
import Mathlib.Data.List.Nodup
import Mathlib.Data.List.Perm.Basic

/-!
Lemmas about the skeleton phase: a whole level under an arbitrary schedule.
-/

namespace FastPGM

open Spec

/-- The set recorded for a pair that has to be removed at this level: the first one that separates it. -/
def separator (ind : Nat → Nat → List Nat → Bool) (adj : List (List Nat)) (d x y : Nat) : Option (List Nat) :=
  (allSets adj d x y).find? (ind x y)

/-- The state of a level in which the edges in `P` still have work to do. -/
structure LevelInv (ind : Nat → Nat → List Nat → Bool) (adj : List (List Nat)) (d : Nat) (ps : List (Nat × Nat)) (sep0 : Sepset)
    (st : LevelState) (P : Nat → Prop) (μ : Nat → Nat) : Prop where
  pairs : st.edges.map (fun e => (e.x, e.y)) = ps
  pend : ∀ (i : Nat) e, P i → st.edges[i]? = some e → ∃ rem, Pending adj d e rem (μ i) ∧ rem.find? (ind e.x e.y) = separator ind adj d e.x e.y
  done : ∀ (i : Nat) e, ¬ P i → st.edges[i]? = some e → e.needRemove = (separator ind adj d e.x e.y).isSome
  sepDone : ∀ (i : Nat) e S, ¬ P i → st.edges[i]? = some e → separator ind adj d e.x e.y = some S → st.sep e.x e.y = some S
  sepOther : ∀ a b, (∀ (i : Nat) e, ¬ P i → st.edges[i]? = some e → (e.x, e.y) = (a, b) → separator ind adj d a b = none) → st.sep a b = sep0 a b

section
variable {ci : CITest} {ind : Nat → Nat → List Nat → Bool} {n g d : Nat} {adj : List (List Nat)} {ps : List (Nat × Nat)} {sep0 : Sepset}

theorem LevelInv.congr {st : LevelState} {P Q : Nat → Prop} {μ : Nat → Nat} (h : LevelInv ind adj d ps sep0 st P μ) (hpq : ∀ i, P i ↔ Q i) :
    LevelInv ind adj d ps sep0 st Q μ := by
  have : P = Q := funext (fun i => propext (hpq i))
  rw [← this]; exact h

theorem pair_unique {st : LevelState} (hn : ps.Nodup) (hp : st.edges.map (fun e => (e.x, e.y)) = ps) {i j : Nat} {e f : WorkEdge}
    (hi : st.edges[i]? = some e) (hj : st.edges[j]? = some f) (h : (e.x, e.y) = (f.x, f.y)) : i = j := by
  have h1 : ps[i]? = some (e.x, e.y) := by rw [← hp, List.getElem?_map, hi]; rfl
  have h2 : ps[j]? = some (f.x, f.y) := by rw [← hp, List.getElem?_map, hj]; rfl
  have hlt : i < ps.length := (List.getElem?_eq_some_iff.1 h1).1
  exact (List.getElem?_inj hlt hn).1 (by rw [h1, h2, h])

theorem levelStep_inv (ha : Answers ci ind n g) (hg : 0 < g) (hd : 0 < d) (hadj : GoodAdj n adj) (hn : ps.Nodup)
    (hps : ∀ p ∈ ps, p.1 < p.2 ∧ p.2 < n) (hs0 : ∀ p ∈ ps, sep0 p.1 p.2 = none)
    {st : LevelState} {P : Nat → Prop} {μ : Nat → Nat} (h : LevelInv ind adj d ps sep0 st P μ) {i : Nat} (hi : i < ps.length) (hPi : P i) :
    ∃ st' push, levelStep ci adj d g st i = .ok (st', push) ∧
      ((push = true ∧ ∃ μ' : Nat → Nat, LevelInv ind adj d ps sep0 st' P μ' ∧ μ' i < μ i ∧ ∀ j, j ≠ i → μ' j = μ j) ∨
       (push = false ∧ LevelInv ind adj d ps sep0 st' (fun j => P j ∧ j ≠ i) μ)) := by
  have hil : i < st.edges.length := by rw [← h.pairs] at hi; simpa using hi
  have hget : st.edges[i]? = some st.edges[i] := List.getElem?_eq_getElem hil
  generalize st.edges[i] = e at hget
  have hmem : (e.x, e.y) ∈ ps := by
    rw [← h.pairs]
    exact List.mem_map.2 ⟨e, List.mem_of_getElem? hget, rfl⟩
  obtain ⟨hxy, hy⟩ := hps _ hmem
  simp only at hxy hy
  obtain ⟨rem, hpend, hrem⟩ := h.pend i e hPi hget
  obtain ⟨⟨e', push, s⟩, hr, hx', hy', hres⟩ := checkEdge_round ha hg hd hadj hxy hy hpend
  simp only at hx' hy' hres
  have hpairs' : (st.edges.set i e').map (fun e => (e.x, e.y)) = ps := by
    rw [List.map_set, hx', hy']
    rw [h.pairs]
    apply List.ext_getElem?
    intro j
    rw [List.getElem?_set]
    split
    · rename_i hij
      subst hij
      rw [← h.pairs, List.getElem?_map, hget]; rfl
    · rfl
  have hget' : ∀ (j : Nat) f, (st.edges.set i e')[j]? = some f → (j = i ∧ f = e') ∨ (j ≠ i ∧ st.edges[j]? = some f) := by
    intro j f hf
    rw [List.getElem?_set] at hf
    split at hf
    · rename_i hij
      exact Or.inl ⟨hij.symm, (Option.some.inj hf).symm⟩
    · rename_i hij
      exact Or.inr ⟨fun h => hij h.symm, hf⟩
  have hseti : (st.edges.set i e')[i]? = some e' := by rw [List.getElem?_set, if_pos rfl, if_pos hil]
  unfold levelStep
  rw [rd_ok hget, ok_bind, hr, ok_bind]
  simp only
  rw [wr_ok hil, ok_bind]
  rcases hres with ⟨rfl, rfl, rem', m', hpend', hm', hrem'⟩ | ⟨rfl, rfl, hnr⟩
  · refine ⟨_, _, rfl, Or.inl ⟨rfl, fun j => if j = i then m' else μ j, ⟨hpairs', ?_, ?_, ?_, ?_⟩, by simpa using hm', ?_⟩⟩
    · intro j f hPj hf
      rcases hget' j f hf with ⟨rfl, rfl⟩ | ⟨hji, hf'⟩
      · refine ⟨rem', by simpa using hpend', ?_⟩
        rw [hx', hy', hrem', hrem]
      · rw [if_neg hji]
        exact h.pend j f hPj hf'
    · intro j f hPj hf
      rcases hget' j f hf with ⟨rfl, rfl⟩ | ⟨_, hf'⟩
      · exact absurd hPi hPj
      · exact h.done j f hPj hf'
    · intro j f S hPj hf
      rcases hget' j f hf with ⟨rfl, rfl⟩ | ⟨_, hf'⟩
      · exact absurd hPi hPj
      · exact h.sepDone j f S hPj hf'
    · intro a b hab
      apply h.sepOther a b
      intro j f hPj hf
      have hji : j ≠ i := by rintro rfl; exact hPj hPi
      refine hab j f hPj ?_
      simp only
      rw [List.getElem?_set, if_neg (fun h => hji h.symm)]
      exact hf
    · intro j hj
      simp [hj]
  · rw [hrem] at hnr ⊢
    -- the new map
    have hsep : ∃ m : Sepset, (match separator ind adj d e.x e.y with
        | none => (pure (⟨st.edges.set i e', st.sep⟩, false) : Except Fault (LevelState × Bool))
        | some s => pure (⟨st.edges.set i e', if e.x > e.y then st.sep.insert e.y e.x s else st.sep.insert e.x e.y s⟩, false)) =
          .ok (⟨st.edges.set i e', m⟩, false) ∧
        (∀ S, separator ind adj d e.x e.y = some S → m e.x e.y = some S) ∧
        (∀ a b, ((e.x, e.y) = (a, b) → separator ind adj d a b = none) → m a b = st.sep a b) := by
      cases hsp : separator ind adj d e.x e.y with
      | none =>
        refine ⟨st.sep, rfl, by simp, fun _ _ _ => rfl⟩
      | some S =>
        have hnone : st.sep e.x e.y = none := by
          rw [h.sepOther e.x e.y, hs0 _ hmem]
          intro j f hPj hf hfe
          have := pair_unique hn h.pairs hf hget hfe
          subst this
          exact absurd hPi hPj
        refine ⟨st.sep.insert e.x e.y S, ?_, ?_, ?_⟩
        · simp only
          rw [if_neg (by omega)]
          rfl
        · intro S' hS'
          cases hS'
          unfold Sepset.insert
          rw [hnone]
          simp
        · intro a b hab
          unfold Sepset.insert
          by_cases heq : a = e.x ∧ b = e.y
          · obtain ⟨rfl, rfl⟩ := heq
            rw [hab rfl] at hsp
            cases hsp
          · rw [if_neg (by rintro ⟨h1, h2, _⟩; exact heq ⟨h1, h2⟩)]
    obtain ⟨m, hm, hm1, hm2⟩ := hsep
    refine ⟨_, _, hm, Or.inr ⟨rfl, ⟨hpairs', ?_, ?_, ?_, ?_⟩⟩⟩
    · rintro j f ⟨hPj, hji⟩ hf
      rcases hget' j f hf with ⟨rfl, rfl⟩ | ⟨_, hf'⟩
      · exact absurd rfl hji
      · exact h.pend j f hPj hf'
    · intro j f hPj hf
      rcases hget' j f hf with ⟨rfl, rfl⟩ | ⟨hji, hf'⟩
      · rw [hx', hy']; exact hnr
      · exact h.done j f (fun hp => hPj ⟨hp, hji⟩) hf'
    · intro j f S hPj hf hS
      rcases hget' j f hf with ⟨rfl, rfl⟩ | ⟨hji, hf'⟩
      · rw [hx', hy'] at hS ⊢
        exact hm1 S hS
      · show m f.x f.y = some S
        rw [hm2]
        · exact h.sepDone j f S (fun hp => hPj ⟨hp, hji⟩) hf' hS
        · intro heq
          exact absurd (pair_unique hn h.pairs hget hf' heq).symm hji
    · intro a b hab
      show m a b = _
      rw [hm2, h.sepOther]
      · intro j f hPj hf
        have hji : j ≠ i := by rintro rfl; exact hPj hPi
        refine hab j f (fun hp => hPj hp.1) ?_
        simp only
        rw [List.getElem?_set, if_neg (fun h => hji h.symm)]
        exact hf
      · intro heq
        refine hab i e' (fun hp => hp.2 rfl) hseti ?_
        rw [hx', hy', heq]

theorem levelBatch_inv (ha : Answers ci ind n g) (hg : 0 < g) (hd : 0 < d) (hadj : GoodAdj n adj) (hn : ps.Nodup)
    (hps : ∀ p ∈ ps, p.1 < p.2 ∧ p.2 < n) (hs0 : ∀ p ∈ ps, sep0 p.1 p.2 = none)
    (order : List Nat) {st : LevelState} {P : Nat → Prop} {μ : Nat → Nat} (h : LevelInv ind adj d ps sep0 st P μ)
    (hnd : order.Nodup) (ho : ∀ i ∈ order, i < ps.length ∧ P i) (acc : List Nat) :
    ∃ st' B μ', order.foldlM (fun (acc : LevelState × List Nat) id => do
        let (st, push) ← levelStep ci adj d g acc.1 id
        return (st, if push then id :: acc.2 else acc.2)) (st, acc) = .ok (st', B ++ acc) ∧
      (∀ j ∈ B, j ∈ order) ∧ LevelInv ind adj d ps sep0 st' (fun j => P j ∧ (j ∈ order → j ∈ B)) μ' ∧
      (∀ j, μ' j ≤ μ j) ∧ ∀ j ∈ B, μ' j < μ j := by
  induction order generalizing st P μ acc with
  | nil => exact ⟨st, [], μ, rfl, by simp, h.congr (by simp), fun _ => le_refl _, by simp⟩
  | cons i order ih =>
    obtain ⟨hi, hnd'⟩ := List.nodup_cons.1 hnd
    obtain ⟨st1, push, hstep, hcase⟩ := levelStep_inv ha hg hd hadj hn hps hs0 h (ho i (by simp)).1 (ho i (by simp)).2
    rw [List.foldlM_cons, hstep, ok_bind]
    simp only
    rcases hcase with ⟨rfl, μ1, hinv, hlt, hsame⟩ | ⟨rfl, hinv⟩
    · obtain ⟨st', B, μ', hf, hB, hinv', hle, hlt'⟩ := ih hinv hnd' (fun j hj => ho j (by simp [hj])) (i :: acc)
      refine ⟨st', B ++ [i], μ', ?_, ?_, ?_, ?_, ?_⟩
      · refine (?_ : _ = _).trans (hf.trans (by simp))
        rfl
      · intro j hj
        rcases List.mem_append.1 hj with hj | hj
        · exact List.mem_cons_of_mem _ (hB j hj)
        · simp at hj; subst hj; simp
      · refine hinv'.congr ?_
        intro j
        simp only [List.mem_cons, List.mem_append, List.not_mem_nil, or_false]
        constructor
        · rintro ⟨h1, h2⟩
          refine ⟨h1, ?_⟩
          rintro (rfl | h3)
          · exact Or.inr rfl
          · exact Or.inl (h2 h3)
        · rintro ⟨h1, h2⟩
          refine ⟨h1, fun h3 => ?_⟩
          rcases h2 (Or.inr h3) with h4 | rfl
          · exact h4
          · exact absurd h3 hi
      · intro j
        by_cases hj : j = i
        · subst hj; exact le_trans (hle j) (le_of_lt hlt)
        · exact le_trans (hle j) (le_of_eq (hsame j hj))
      · intro j hj
        rcases List.mem_append.1 hj with hj' | hj
        · have hji : j ≠ i := fun h => hi (h ▸ hB j hj')
          have := hlt' j hj'
          rwa [hsame j hji] at this
        · simp at hj; subst hj
          exact lt_of_le_of_lt (hle j) hlt
    · obtain ⟨st', B, μ', hf, hB, hinv', hle, hlt'⟩ := ih hinv hnd' (fun j hj => ⟨(ho j (by simp [hj])).1, (ho j (by simp [hj])).2,
        by rintro rfl; exact hi hj⟩) acc
      refine ⟨st', B, μ', ?_, fun j hj => List.mem_cons_of_mem _ (hB j hj), ?_, hle, hlt'⟩
      · refine (?_ : _ = _).trans hf
        rfl
      · refine hinv'.congr ?_
        intro j
        simp only [List.mem_cons]
        constructor
        · rintro ⟨⟨h1, h2⟩, h3⟩
          refine ⟨h1, ?_⟩
          rintro (rfl | h4)
          · exact absurd rfl h2
          · exact h3 h4
        · rintro ⟨h1, h2⟩
          refine ⟨⟨h1, ?_⟩, fun h3 => h2 (Or.inr h3)⟩
          rintro rfl
          exact hi (hB j (h2 (Or.inl rfl)))

theorem sum_filter_lt {l : List Nat} {p : Nat → Bool} {μ μ' : Nat → Nat} (h : ∀ j ∈ l, p j = true → μ' j < μ j) :
    ((l.filter p).map (fun j => μ' j + 1)).sum + l.length ≤ (l.map (fun j => μ j + 1)).sum := by
  induction l with
  | nil => simp
  | cons a l ih =>
    have ih := ih (fun j hj => h j (by simp [hj]))
    rw [List.filter_cons]
    split
    · rename_i hp
      have := h a (by simp) hp
      simp only [List.map_cons, List.sum_cons, List.length_cons]
      omega
    · simp only [List.map_cons, List.sum_cons, List.length_cons]
      omega

theorem sum_le_of_le {l : List Nat} {μ μ' : Nat → Nat} (h : ∀ j, μ' j ≤ μ j) :
    (l.map (fun j => μ' j + 1)).sum ≤ (l.map (fun j => μ j + 1)).sum := by
  induction l with
  | nil => simp
  | cons a l ih =>
    have := h a
    simp only [List.map_cons, List.sum_cons]
    omega

theorem levelLoop_inv (ha : Answers ci ind n g) (hg : 0 < g) (hd : 0 < d) (hadj : GoodAdj n adj) (hn : ps.Nodup)
    (hps : ∀ p ∈ ps, p.1 < p.2 ∧ p.2 < n) (hs0 : ∀ p ∈ ps, sep0 p.1 p.2 = none) {cap : Nat} (hcap : 0 < cap)
    {sched : Schedule} (hsched : ∀ r l, (sched r l).Perm l) (fuel : Nat) {st : LevelState} {stack : List Nat} {μ : Nat → Nat}
    (h : LevelInv ind adj d ps sep0 st (fun j => j ∈ stack) μ) (hnd : stack.Nodup) (hst : ∀ i ∈ stack, i < ps.length)
    (hfuel : (stack.map (fun j => μ j + 1)).sum ≤ fuel) :
    ∃ st' μ', levelLoop ci adj d g cap sched fuel st stack = .ok st' ∧ LevelInv ind adj d ps sep0 st' (fun _ => False) μ' := by
  induction fuel generalizing st stack μ with
  | zero =>
    cases stack with
    | nil => exact ⟨st, μ, rfl, h.congr (by simp)⟩
    | cons i stack => simp at hfuel
  | succ fuel ih =>
    cases stack with
    | nil => exact ⟨st, μ, rfl, h.congr (by simp)⟩
    | cons i stack =>
      unfold levelLoop
      have hperm := hsched fuel ((i :: stack).take cap)
      obtain ⟨st', B, μ', hf, hB, hinv, hle, hlt⟩ := levelBatch_inv ha hg hd hadj hn hps hs0 (sched fuel ((i :: stack).take cap)) h
        (hperm.nodup_iff.2 (hnd.sublist (List.take_sublist _ _)))
        (fun j hj => have hj' := List.mem_of_mem_take (hperm.mem_iff.1 hj); ⟨hst j hj', hj'⟩) []
      rw [List.append_nil] at hf
      simp only
      unfold levelBatch
      rw [hf, ok_bind]
      simp only
      have hdisj : ∀ j ∈ (i :: stack).take cap, j ∉ (i :: stack).drop cap := by
        intro j h1 h2
        have := hnd
        rw [← List.take_append_drop cap (i :: stack), List.nodup_append] at this
        exact this.2.2 j h1 j h2 rfl
      apply ih (μ := μ')
      · refine hinv.congr ?_
        intro j
        rw [hperm.mem_iff, List.mem_append, List.mem_filter, decide_eq_true_iff]
        constructor
        · rintro ⟨h1, h2⟩
          rw [← List.take_append_drop cap (i :: stack), List.mem_append] at h1
          rcases h1 with h1 | h1
          · exact Or.inl ⟨h1, h2 h1⟩
          · exact Or.inr h1
        · rintro (⟨h1, h2⟩ | h1)
          · exact ⟨List.mem_of_mem_take h1, fun _ => h2⟩
          · exact ⟨List.mem_of_mem_drop h1, fun h2 => absurd h1 (hdisj j h2)⟩
      · rw [List.nodup_append]
        refine ⟨(hnd.sublist (List.take_sublist _ _)).filter _, hnd.sublist (List.drop_sublist _ _), ?_⟩
        rintro a h1 b h2 rfl
        exact hdisj a (List.mem_of_mem_filter h1) h2
      · intro j hj
        rcases List.mem_append.1 hj with hj | hj
        · exact hst j (List.mem_of_mem_take (List.mem_of_mem_filter hj))
        · exact hst j (List.mem_of_mem_drop hj)
      · have h1 := sum_filter_lt (l := (i :: stack).take cap) (p := fun j => decide (j ∈ B)) (μ := μ) (μ' := μ')
          (fun j _ hp => hlt j (by simpa using hp))
        have h2 := sum_le_of_le (l := (i :: stack).drop cap) hle
        have h3 : (((i :: stack).take cap ++ (i :: stack).drop cap).map (fun j => μ j + 1)).sum ≤ fuel + 1 := by
          rw [List.take_append_drop]; exact hfuel
        rw [List.map_append, List.sum_append] at h3 ⊢
        have h4 : 0 < ((i :: stack).take cap).length := by simp; exact hcap
        omega

end

end FastPGM
