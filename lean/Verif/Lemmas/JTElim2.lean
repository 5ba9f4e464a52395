import Verif.Lemmas.JTElim

/-!
The cliques of an elimination: they cover all cliques of the graph, the kept ones are the maximal ones, and there is a junction tree of
them.
-/

namespace FastPGM

open Spec

theorem Elim.sorted {e : Nat → Nat → Prop} {rem : Nat → Prop} {ks : List (Nat × List Nat)} (h : Elim e rem ks) :
    ∀ p ∈ ks, p.2.Pairwise (· < ·) := by
  induction h with
  | nil _ => simp
  | cons _ h2 _ _ ih =>
    intro p hp
    rcases List.mem_cons.1 hp with rfl | hp
    · exact h2
    · exact ih p hp

theorem Elim.self_mem {e : Nat → Nat → Prop} {rem : Nat → Prop} {ks : List (Nat × List Nat)} (h : Elim e rem ks) :
    ∀ p ∈ ks, p.1 ∈ p.2 := by
  induction h with
  | nil _ => simp
  | cons _ _ h3 _ ih =>
    intro p hp
    rcases List.mem_cons.1 hp with rfl | hp
    · exact (h3 _).2 (Or.inl rfl)
    · exact ih p hp

theorem Elim.mem_rem {e : Nat → Nat → Prop} {rem : Nat → Prop} {ks : List (Nat × List Nat)} (h : Elim e rem ks) (hg : GoodGraph e rem) :
    ∀ p ∈ ks, ∀ a ∈ p.2, rem a := by
  induction h with
  | nil _ => simp
  | cons h1 _ h3 _ ih =>
    intro p hp a ha
    rcases List.mem_cons.1 hp with rfl | hp
    · rcases (h3 a).1 ha with rfl | ha
      · exact h1
      · exact hg.mem' ha
    · exact (ih (hg.elim _) p hp a ha).1

/-- A node does not occur in the cliques formed after its elimination. -/
theorem Elim.later {e : Nat → Nat → Prop} {rem : Nat → Prop} {ks : List (Nat × List Nat)} (h : Elim e rem ks) (hg : GoodGraph e rem) :
    ks.Pairwise (fun p q => p.1 ∉ q.2) := by
  induction h with
  | nil _ => simp
  | cons h1 _ h3 h4 ih =>
    refine List.pairwise_cons.2 ⟨fun q hq hv => ?_, ih (hg.elim _)⟩
    exact (h4.mem_rem (hg.elim _) q hq _ hv).2 rfl

/-- A set of pairwise adjacent nodes is part of one of the cliques. -/
theorem Elim.cover {e : Nat → Nat → Prop} {rem : Nat → Prop} {ks : List (Nat × List Nat)} (h : Elim e rem ks) (hg : GoodGraph e rem)
    {Q : Nat → Prop} (hne : ∃ a, Q a) (hQ : ∀ a, Q a → rem a) (hadj : ∀ a b, Q a → Q b → a ≠ b → e a b) :
    ∃ p ∈ ks, ∀ a, Q a → a ∈ p.2 := by
  induction h with
  | nil h1 =>
    obtain ⟨a, ha⟩ := hne
    exact absurd (hQ a ha) (h1 a)
  | @cons e rem v k ks h1 _ h3 h4 ih =>
    by_cases hv : Q v
    · refine ⟨(v, k), by simp, fun a ha => (h3 a).2 ?_⟩
      by_cases hav : a = v
      · exact Or.inl hav
      · exact Or.inr (hadj v a hv ha (Ne.symm hav))
    · have hne' : ∀ a, Q a → a ≠ v := fun a ha e => hv (e ▸ ha)
      obtain ⟨p, hp, hpa⟩ := ih (hg.elim v) (fun a ha => ⟨hQ a ha, hne' a ha⟩)
        (fun a b ha hb hab => ⟨hne' a ha, hne' b hb, Or.inl (hadj a b ha hb hab)⟩)
      exact ⟨p, by simp [hp], hpa⟩

/-- `k` is in the list and no other member contains it. -/
def MaximalIn (l : List (List Nat)) (k : List Nat) : Prop := k ∈ l ∧ ∀ k' ∈ l, (∀ a ∈ k, a ∈ k') → k = k'

theorem sorted_eq {l l' : List Nat} (h : l.Pairwise (· < ·)) (h' : l'.Pairwise (· < ·)) (h1 : ∀ a ∈ l, a ∈ l') (h2 : ∀ a ∈ l', a ∈ l) :
    l = l' :=
  List.Perm.eq_of_pairwise (fun a b _ _ h3 h4 => absurd h3 (by omega)) h h'
    ((List.perm_ext_iff_of_nodup (nodup_of_sorted h) (nodup_of_sorted h')).2 (fun a => ⟨h1 a, h2 a⟩))

theorem length_le_sum {l : List (List Nat)} {k : List Nat} (hk : k ∈ l) : k.length ≤ (l.map List.length).sum := by
  induction l with
  | nil => simp at hk
  | cons x xs ih =>
    rw [List.map_cons, List.sum_cons]
    rcases List.mem_cons.1 hk with rfl | hk
    · omega
    · have := ih hk; omega

/-- Every member of a list of sorted lists is contained in a maximal one. -/
theorem exists_maximal {l : List (List Nat)} (hs : ∀ k ∈ l, k.Pairwise (· < ·)) :
    ∀ m k, k ∈ l → (l.map List.length).sum < m + k.length → ∃ k', MaximalIn l k' ∧ ∀ a ∈ k, a ∈ k' := by
  intro m
  induction m with
  | zero =>
    intro k hk hlt
    have : k.length ≤ (l.map List.length).sum := by
      exact length_le_sum hk
    omega
  | succ m ih =>
    intro k hk hlt
    by_cases hmax : MaximalIn l k
    · exact ⟨k, hmax, fun a ha => ha⟩
    · unfold MaximalIn at hmax
      push Not at hmax
      obtain ⟨k', hk', hsub, hne⟩ := hmax hk
      have hlen : k.length < k'.length := by
        have hsp := List.subperm_of_subset (nodup_of_sorted (hs k hk)) hsub
        rcases Nat.lt_or_ge k.length k'.length with h | h
        · exact h
        · have hp := hsp.perm_of_length_le h
          exact absurd (sorted_eq (hs k hk) (hs k' hk') (fun a ha => hp.subset ha) (fun a ha => hp.symm.subset ha)) hne
      obtain ⟨k'', h1, h2⟩ := ih k' hk' (by omega)
      exact ⟨k'', h1, fun a ha => h2 a (hsub a ha)⟩

theorem exists_maximal' {l : List (List Nat)} (hs : ∀ k ∈ l, k.Pairwise (· < ·)) {k : List Nat} (hk : k ∈ l) :
    ∃ k', MaximalIn l k' ∧ ∀ a ∈ k, a ∈ k' :=
  exists_maximal hs ((l.map List.length).sum + 1) k hk (by omega)

theorem IsJT.congrF {α : Type} {vs : α → Nat → Prop} {F F' : α → Prop} {T : α → α → Prop} (h : IsJT vs F T) (hF : ∀ a, F a ↔ F' a) :
    IsJT vs F' T := by
  have : F = F' := funext fun a => propext (hF a)
  exact this ▸ h

/-- There is a junction tree of the maximal cliques of an elimination. -/
theorem Elim.exists_jt {e : Nat → Nat → Prop} {rem : Nat → Prop} {ks : List (Nat × List Nat)} (h : Elim e rem ks) (hg : GoodGraph e rem) :
    ∃ T, IsJT (fun (k : List Nat) v => v ∈ k) (MaximalIn (ks.map Prod.snd)) T := by
  induction h with
  | nil _ =>
    refine ⟨fun _ _ => False, ⟨fun _ _ h => h, fun h => h.elim, fun h => h.elim, fun ha => ?_⟩⟩
    exact absurd ha.1 (by simp)
  | @cons e rem v k ks h1 h2 h3 h4 ih =>
    have hg' := hg.elim v
    obtain ⟨T, hT⟩ := ih hg'
    have hvk : v ∈ k := (h3 v).2 (Or.inl rfl)
    have hvr : ∀ k' ∈ ks.map Prod.snd, v ∉ k' := by
      intro k' hk' hv
      obtain ⟨p, hp, rfl⟩ := List.mem_map.1 hk'
      exact (h4.mem_rem hg' p hp v hv).2 rfl
    have hsort : ∀ k' ∈ ks.map Prod.snd, k'.Pairwise (· < ·) := by
      intro k' hk'
      obtain ⟨p, hp, rfl⟩ := List.mem_map.1 hk'
      exact h4.sorted p hp
    -- the maximal members of the longer list
    have hmaxk : MaximalIn (k :: ks.map Prod.snd) k := by
      refine ⟨by simp, fun k' hk' hsub => ?_⟩
      rcases List.mem_cons.1 hk' with rfl | hk'
      · rfl
      · exact absurd (hsub v hvk) (hvr k' hk')
    have hmaxr : ∀ k', k' ≠ k → (MaximalIn (k :: ks.map Prod.snd) k' ↔ MaximalIn (ks.map Prod.snd) k' ∧ ¬ ∀ a ∈ k', a ∈ k) := by
      intro k' hne
      constructor
      · rintro ⟨h5, h6⟩
        have h5' : k' ∈ ks.map Prod.snd := (List.mem_cons.1 h5).resolve_left hne
        exact ⟨⟨h5', fun k'' hk'' => h6 k'' (by simp [hk''])⟩, fun hsub => hne (h6 k (by simp) hsub)⟩
      · rintro ⟨⟨h5, h6⟩, h7⟩
        refine ⟨by simp [h5], fun k'' hk'' hsub => ?_⟩
        rcases List.mem_cons.1 hk'' with rfl | hk''
        · exact absurd hsub h7
        · exact h6 k'' hk'' hsub
    rw [List.map_cons]
    by_cases hemp : ∃ m, MaximalIn (ks.map Prod.snd) m
    · -- a maximal clique that contains the neighbours of `v`
      have hm : ∃ m, MaximalIn (ks.map Prod.snd) m ∧ ∀ a, e v a → a ∈ m := by
        by_cases hnb : ∃ a, e v a
        · obtain ⟨p, hp, hpa⟩ := h4.cover hg' (Q := fun a => e v a) hnb
            (fun a ha => ⟨hg.mem' ha, fun h => hg.irrefl v (h ▸ ha)⟩)
            (fun a b ha hb hab => ⟨fun h => hg.irrefl v (h ▸ ha), fun h => hg.irrefl v (h ▸ hb), Or.inr ⟨hab, ha, hb⟩⟩)
          obtain ⟨m, hm1, hm2⟩ := exists_maximal' hsort (List.mem_map_of_mem (f := Prod.snd) hp)
          exact ⟨m, hm1, fun a ha => hm2 a (hpa a ha)⟩
        · obtain ⟨m, hm⟩ := hemp
          exact ⟨m, hm, fun a ha => absurd ⟨a, ha⟩ hnb⟩
      obtain ⟨m, hm1, hm2⟩ := hm
      have hkm : ∀ a ∈ k, a ≠ v → a ∈ m := fun a ha hav => hm2 a (((h3 a).1 ha).resolve_left hav)
      have hmne : m ≠ k := fun h => hvr m hm1.1 (h ▸ hvk)
      by_cases hsub : ∀ a ∈ m, a ∈ k
      · -- `m` is replaced by `k`
        have := hT.rename (vs' := fun (k : List Nat) v => v ∈ k) (F' := MaximalIn (k :: ks.map Prod.snd))
          (fun x => if x = m then k else x) (fun y => if y = k then m else y)
          (by
            intro a ha
            by_cases ham : a = m
            · simp [ham]
            · have : a ≠ k := fun h => hvr a ha.1 (h ▸ hvk)
              simp [ham, this])
          (by
            intro b
            by_cases hbk : b = k
            · subst hbk
              exact ⟨fun _ => ⟨m, hm1, by simp⟩, fun _ => hmaxk⟩
            · rw [hmaxr b hbk]
              constructor
              · rintro ⟨h5, h6⟩
                have : b ≠ m := fun h => h6 (h ▸ hsub)
                exact ⟨b, h5, by simp [this]⟩
              · rintro ⟨a, ha, hab⟩
                by_cases ham : a = m
                · rw [if_pos ham] at hab; exact absurd hab.symm hbk
                · rw [if_neg ham] at hab
                  subst hab
                  refine ⟨ha, fun hak => ham ?_⟩
                  exact ha.2 m hm1.1 (fun x hx => hkm x (hak x hx) (fun h => hvr a ha.1 (h ▸ hx))))
          (by
            intro a x ha hx
            by_cases ham : a = m
            · simp only [if_pos ham]; exact hsub x (ham ▸ hx)
            · simp only [if_neg ham]; exact hx)
          (by
            intro a b x ha hb hab hxa hxb
            by_cases ham : a = m
            · have hbm : b ≠ m := fun h => hab (ham.trans h.symm)
              simp only [if_pos ham] at hxa
              simp only [if_neg hbm] at hxb
              have hxv : x ≠ v := fun h => hvr b hb.1 (h ▸ hxb)
              exact ⟨ham ▸ hkm x hxa hxv, hxb⟩
            · simp only [if_neg ham] at hxa
              have hxv : x ≠ v := fun h => hvr a ha.1 (h ▸ hxa)
              refine ⟨hxa, ?_⟩
              by_cases hbm : b = m
              · simp only [if_pos hbm] at hxb
                exact hbm ▸ hkm x hxb hxv
              · simpa only [if_neg hbm] using hxb)
        exact ⟨_, this⟩
      · -- `k` is a new leaf
        have := hT.addLeaf (k := k) (m := m) (fun h => hvr k h.1 hvk) hm1 (by
          intro b x hb hxk hxb
          exact hkm x hxk (fun h => hvr b hb.1 (h ▸ hxb)))
        refine ⟨_, this.congrF (fun x => ?_)⟩
        by_cases hxk : x = k
        · subst hxk; exact ⟨fun _ => hmaxk, fun _ => Or.inr rfl⟩
        · rw [hmaxr x hxk]
          constructor
          · rintro (hx | hx)
            · refine ⟨hx, fun hsub' => hsub ?_⟩
              have hxm : x = m := hx.2 m hm1.1 (fun a ha => hkm a (hsub' a ha) (fun h => hvr x hx.1 (h ▸ ha)))
              exact hxm ▸ hsub'
            · exact absurd hx hxk
          · exact fun hx => Or.inl hx.1
    · -- the only clique
      refine ⟨fun _ _ => False, ⟨fun _ _ h => h, fun h => h.elim, fun h => h.elim, fun {a b} ha hb => ?_⟩⟩
      have only : ∀ x, MaximalIn (k :: ks.map Prod.snd) x → x = k := by
        intro x hx
        by_contra hne
        exact hemp ⟨x, ((hmaxr x hne).1 hx).1⟩
      rw [only a ha, only b hb]

/-! ### The kept cliques -/

theorem keepCliques_sublist (acc ks : List (List Nat)) : (keepCliques acc ks).Sublist (acc ++ ks) := by
  induction ks generalizing acc with
  | nil => simp [keepCliques]
  | cons k ks ih =>
    unfold keepCliques
    split
    · exact (ih acc).trans (List.Sublist.append (List.Sublist.refl _) (List.sublist_cons_self _ _))
    · have := ih (acc ++ [k])
      simpa using this

theorem keepCliques_acc (acc ks : List (List Nat)) : ∀ k ∈ acc, k ∈ keepCliques acc ks := by
  induction ks generalizing acc with
  | nil => exact fun k hk => hk
  | cons k ks ih =>
    intro k' hk'
    unfold keepCliques
    split
    · exact ih acc k' hk'
    · exact ih _ k' (by simp [hk'])

theorem keepCliques_cover (acc ks : List (List Nat)) : ∀ k ∈ ks, ∃ k' ∈ keepCliques acc ks, ∀ a ∈ k, a ∈ k' := by
  induction ks generalizing acc with
  | nil => simp
  | cons k ks ih =>
    intro k' hk'
    unfold keepCliques
    rcases List.mem_cons.1 hk' with rfl | hk'
    · split
      · rename_i h
        obtain ⟨x, hx, hsub⟩ := List.any_eq_true.1 h
        exact ⟨x, keepCliques_acc _ _ x hx, containedIn_iff.1 hsub⟩
      · exact ⟨k', keepCliques_acc _ _ k' (by simp), fun a ha => ha⟩
    · exact ih _ k' hk'

theorem keepCliques_earlier (acc ks : List (List Nat)) (h : acc.Pairwise (fun a b => ¬ ∀ x ∈ b, x ∈ a)) :
    (keepCliques acc ks).Pairwise (fun a b => ¬ ∀ x ∈ b, x ∈ a) := by
  induction ks generalizing acc with
  | nil => exact h
  | cons k ks ih =>
    unfold keepCliques
    split
    · exact ih acc h
    · rename_i hn
      apply ih
      rw [List.pairwise_append]
      refine ⟨h, by simp, fun a ha b hb => ?_⟩
      rw [List.mem_singleton] at hb
      subst hb
      intro hsub
      exact hn (List.any_eq_true.2 ⟨a, ha, containedIn_iff.2 hsub⟩)

/-- The kept cliques of an elimination. -/
structure KeptFacts (ks kept : List (List Nat)) : Prop where
  sorted : ∀ k ∈ kept, k.Pairwise (· < ·)
  sub : ∀ k ∈ kept, k ∈ ks
  cover : ∀ k ∈ ks, ∃ k' ∈ kept, ∀ a ∈ k, a ∈ k'
  incomparable : kept.Pairwise (fun a b => (¬ ∀ x ∈ b, x ∈ a) ∧ ¬ ∀ x ∈ a, x ∈ b)
  maximal : ∀ k, MaximalIn ks k ↔ k ∈ kept

theorem Elim.kept {e : Nat → Nat → Prop} {rem : Nat → Prop} {ks : List (Nat × List Nat)} (h : Elim e rem ks) (hg : GoodGraph e rem) :
    KeptFacts (ks.map Prod.snd) (keepCliques [] (ks.map Prod.snd)) := by
  have hsub := keepCliques_sublist [] (ks.map Prod.snd)
  rw [List.nil_append] at hsub
  have hsort : ∀ k ∈ ks.map Prod.snd, k.Pairwise (· < ·) := by
    intro k hk
    obtain ⟨p, hp, rfl⟩ := List.mem_map.1 hk
    exact h.sorted p hp
  have hlater : (ks.map Prod.snd).Pairwise (fun a b => ¬ ∀ x ∈ a, x ∈ b) := by
    rw [List.pairwise_map]
    refine List.Pairwise.imp_of_mem ?_ (h.later hg)
    intro p q hp _ hpq hsub
    exact hpq (hsub _ (h.self_mem p hp))
  have hinc : (keepCliques [] (ks.map Prod.snd)).Pairwise (fun a b => (¬ ∀ x ∈ b, x ∈ a) ∧ ¬ ∀ x ∈ a, x ∈ b) :=
    (keepCliques_earlier [] _ (by simp)).and (hlater.sublist hsub)
  have hcov := keepCliques_cover [] (ks.map Prod.snd)
  have huniq : ∀ a ∈ keepCliques [] (ks.map Prod.snd), ∀ b ∈ keepCliques [] (ks.map Prod.snd), (∀ x ∈ a, x ∈ b) → a = b := by
    intro a ha b hb hs
    obtain ⟨i, hi, rfl⟩ := List.getElem_of_mem ha
    obtain ⟨j, hj, rfl⟩ := List.getElem_of_mem hb
    rcases Nat.lt_trichotomy i j with hij | rfl | hij
    · exact absurd hs (List.pairwise_iff_getElem.1 hinc i j hi hj hij).2
    · rfl
    · exact absurd hs (List.pairwise_iff_getElem.1 hinc j i hj hi hij).1
  refine ⟨fun k hk => hsort k (hsub.subset hk), fun k hk => hsub.subset hk, hcov, hinc, fun k => ⟨?_, ?_⟩⟩
  · rintro ⟨h1, h2⟩
    obtain ⟨k', hk', hs⟩ := hcov k h1
    rw [h2 k' (hsub.subset hk') hs]; exact hk'
  · intro hk
    refine ⟨hsub.subset hk, fun k' hk' hs => ?_⟩
    obtain ⟨k'', hk'', hs'⟩ := hcov k' hk'
    have := huniq k hk k'' hk'' (fun a ha => hs' a (hs a ha))
    subst this
    exact sorted_eq (hsort k (hsub.subset hk)) (hsort k' hk') hs hs'

end FastPGM
