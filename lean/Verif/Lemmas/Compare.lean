import Verif.Model.Compare
import Verif.Lemmas.Network
import Verif.Lemmas.JTCalibrate
import Verif.Lemmas.Chickering2

/-!
`OrderEdge` and `FindCompelled` on lists of directed edges, represented by the list of their pairs of nodes and functions for the flags.
-/

namespace FastPGM

open Spec Relation

/-- The directed edge of a pair. -/
def keyEdge (k : Nat × Nat) (o : Bool) (l : Label) : Edge := { node1 := k.1, node2 := k.2, end1 := .tail, end2 := .arrow, ordered := o, label := l }

/-- An edge list. -/
def edgesOf (keys : List (Nat × Nat)) (ord : Nat × Nat → Bool) (lab : Nat × Nat → Label) : List Edge :=
  keys.map (fun k => keyEdge k (ord k) (lab k))

theorem findEdge_edgesOf (keys : List (Nat × Nat)) (ord : Nat × Nat → Bool) (lab : Nat × Nat → Label) (a b : Nat) :
    findEdge (edgesOf keys ord lab) (mkDirected a b) = if (a, b) ∈ keys then some (keys.idxOf (a, b)) else none := by
  induction keys with
  | nil => rfl
  | cons k keys ih =>
    unfold findEdge edgesOf at *
    rw [List.map_cons, List.findIdx?_cons, ih]
    by_cases hk : k = (a, b)
    · subst hk
      simp [keyEdge, Edge.same, mkDirected]
    · have hs : (keyEdge k (ord k) (lab k)).same (mkDirected a b) = false := by
        rw [Bool.eq_false_iff]
        intro h
        apply hk
        simp only [Edge.same, keyEdge, mkDirected, Bool.and_eq_true, decide_eq_true_eq] at h
        exact Prod.ext (of_decide_eq_true h.1.1.1) (of_decide_eq_true h.1.1.2)
      rw [hs]
      simp only [List.mem_cons, Bool.false_eq_true, if_false]
      by_cases hm : (a, b) ∈ keys
      · rw [if_pos hm, if_pos (Or.inr hm), List.idxOf_cons_ne _ hk]
        rfl
      · rw [if_neg hm, if_neg (by rintro (h | h); exact hk h.symm; exact hm h)]
        rfl

theorem edgeAt_edgesOf {keys : List (Nat × Nat)} {a b : Nat} (h : (a, b) ∈ keys) (ord : Nat × Nat → Bool) (lab : Nat × Nat → Label) :
    edgeAt (edgesOf keys ord lab) a b = .ok (keys.idxOf (a, b)) := by
  unfold edgeAt
  rw [findEdge_edgesOf, if_pos h]

theorem rdAt_edgesOf {keys : List (Nat × Nat)} {k : Nat × Nat} (h : k ∈ keys) (ord : Nat × Nat → Bool) (lab : Nat × Nat → Label) :
    rdAt (edgesOf keys ord lab) (keys.idxOf k) = .ok (keyEdge k (ord k) (lab k)) := by
  unfold rdAt edgesOf
  have hlt := List.idxOf_lt_length_iff.2 h
  rw [List.getElem?_map, List.getElem?_eq_getElem hlt, List.getElem_idxOf hlt]
  rfl

theorem set_map_idxOf {β : Type} {keys : List (Nat × Nat)} {k : Nat × Nat} (hn : keys.Nodup) (h : k ∈ keys) (f : Nat × Nat → β) (b : β) :
    (keys.map f).set (keys.idxOf k) b = keys.map (fun x => if x = k then b else f x) := by
  have hlt := List.idxOf_lt_length_iff.2 h
  apply List.ext_getElem
  · simp
  · intro i h1 h2
    have hi : i < keys.length := by simpa using h2
    rw [List.getElem_set, List.getElem_map, List.getElem_map]
    by_cases hik : keys.idxOf k = i
    · subst hik
      rw [if_pos rfl, if_pos (List.getElem_idxOf hlt)]
    · rw [if_neg hik, if_neg]
      intro he
      apply hik
      rw [← he]
      exact hn.idxOf_getElem i hi

theorem setLabel_edgesOf {keys : List (Nat × Nat)} (hn : keys.Nodup) {a b : Nat} (h : (a, b) ∈ keys) (ord : Nat × Nat → Bool)
    (lab : Nat × Nat → Label) (l : Label) :
    setLabel (edgesOf keys ord lab) a b l = .ok (edgesOf keys ord (fun k => if k = (a, b) then l else lab k)) := by
  unfold setLabel
  rw [edgeAt_edgesOf h, ok_bind, rdAt_edgesOf h, ok_bind]
  show Except.ok ((edgesOf keys ord lab).set _ _) = _
  unfold edgesOf
  rw [set_map_idxOf hn h]
  congr 1
  apply List.map_congr_left
  intro k _
  by_cases hk : k = (a, b)
  · subst hk
    simp [keyEdge]
  · simp [hk]

theorem isCompelled_edgesOf {keys : List (Nat × Nat)} {a b : Nat} (h : (a, b) ∈ keys) (ord : Nat × Nat → Bool)
    {lab : Nat × Nat → Label} (hl : lab (a, b) ≠ .unset) :
    isCompelled (edgesOf keys ord lab) a b = .ok (decide (lab (a, b) = .compelled)) := by
  unfold isCompelled
  rw [edgeAt_edgesOf h, ok_bind, rdAt_edgesOf h, ok_bind]
  simp only [keyEdge]
  cases hh : lab (a, b) with
  | compelled => rfl
  | reversible => rfl
  | unset => exact absurd hh hl

/-- The edges still to be labelled. -/
def pending (O : List (Nat × Nat)) : List Edge := edgesOf O (fun _ => true) (fun _ => .unset)

theorem eraseIdx_pending {O : List (Nat × Nat)} {k : Nat × Nat} (_ : k ∈ O) : (pending O).eraseIdx (O.idxOf k) = pending (O.erase k) := by
  unfold pending edgesOf
  rw [List.eraseIdx_map]
  congr 1
  rw [List.erase_eq_eraseIdx_of_idxOf rfl]

section loops

variable {keys : List (Nat × Nat)} {ord : Nat × Nat → Bool}

theorem labelPending_eq (hn : keys.Nodup) {p y : Nat} (h : (p, y) ∈ keys) (lab : Nat × Nat → Label) (O : List (Nat × Nat)) (l : Label) :
    labelPending l y (edgesOf keys ord lab, pending O) p =
      .ok (edgesOf keys ord (fun k => if k = (p, y) ∧ k ∈ O then l else lab k), pending (O.erase (p, y))) := by
  unfold labelPending
  simp only []
  have hf : findEdge (pending O) (mkDirected p y) = _ := findEdge_edgesOf O _ _ p y
  rw [hf]
  by_cases hm : (p, y) ∈ O
  · rw [if_pos hm]
    simp only []
    rw [setLabel_edgesOf hn h, ok_bind, eraseIdx_pending hm]
    show Except.ok _ = _
    congr 3
    funext k
    by_cases hk : k = (p, y)
    · subst hk; simp [hm]
    · simp [hk]
  · rw [if_neg hm, List.erase_of_not_mem hm]
    simp only []
    congr 3
    funext k
    by_cases hk : k = (p, y)
    · subst hk; simp [hm]
    · simp [hk]

theorem labelAll_eq (hn : keys.Nodup) {p y : Nat} (h : (p, y) ∈ keys) (lab : Nat × Nat → Label) (O : List (Nat × Nat)) :
    labelAll y (edgesOf keys ord lab, pending O) p =
      .ok (edgesOf keys ord (fun k => if k = (p, y) then .compelled else lab k), pending (O.erase (p, y))) := by
  unfold labelAll
  simp only []
  have hf : findEdge (pending O) (mkDirected p y) = _ := findEdge_edgesOf O _ _ p y
  rw [hf]
  by_cases hm : (p, y) ∈ O
  · rw [if_pos hm]
    simp only []
    rw [setLabel_edgesOf hn h, ok_bind, eraseIdx_pending hm]
    rfl
  · rw [if_neg hm, List.erase_of_not_mem hm]
    simp only []
    rw [setLabel_edgesOf hn h, ok_bind]
    rfl

theorem erase_filter {O : List (Nat × Nat)} (hO : O.Nodup) (k : Nat × Nat) (q : Nat × Nat → Bool) :
    (O.erase k).filter q = O.filter (fun x => q x && decide (x ≠ k)) := by
  rw [hO.erase_eq_filter, List.filter_filter]
  apply List.filter_congr
  intro x _
  by_cases h : x = k <;> simp [h]

theorem labelPending_fold (hn : keys.Nodup) (l : Label) (y : Nat) : ∀ (ps : List Nat), (∀ p ∈ ps, (p, y) ∈ keys) →
    ∀ (lab : Nat × Nat → Label) (O : List (Nat × Nat)), O.Nodup →
    ps.foldlM (labelPending l y) (edgesOf keys ord lab, pending O) =
      .ok (edgesOf keys ord (fun k => if k.2 = y ∧ k.1 ∈ ps ∧ k ∈ O then l else lab k),
        pending (O.filter (fun k => !(decide (k.2 = y) && decide (k.1 ∈ ps))))) := by
  intro ps
  induction ps with
  | nil =>
    intro _ lab O _
    simp [pure_eq_ok]
  | cons p ps ih =>
    intro hk lab O hO
    rw [List.foldlM_cons, labelPending_eq hn (hk p (by simp)), ok_bind, ih (fun q hq => hk q (by simp [hq])) _ _ (hO.erase _)]
    rw [erase_filter hO]
    congr 2
    · congr 1
      funext k
      simp only [hO.mem_erase_iff]
      by_cases h1 : k = (p, y)
      · subst h1
        simp
      · have : k.2 = y → ¬ k.1 = p := fun h2 h3 => h1 (Prod.ext h3 h2)
        by_cases h2 : k.2 = y
        · simp [h1, h2, this h2]
        · simp [h1, h2]
    · congr 1
      apply List.filter_congr
      intro k _
      by_cases h1 : k = (p, y)
      · subst h1
        simp
      · have : k.2 = y → ¬ k.1 = p := fun h2 h3 => h1 (Prod.ext h3 h2)
        by_cases h2 : k.2 = y
        · simp [h1, h2, this h2]
        · simp [h1, h2]

theorem labelAll_fold (hn : keys.Nodup) (y : Nat) : ∀ (ps : List Nat), (∀ p ∈ ps, (p, y) ∈ keys) →
    ∀ (lab : Nat × Nat → Label) (O : List (Nat × Nat)), O.Nodup →
    ps.foldlM (labelAll y) (edgesOf keys ord lab, pending O) =
      .ok (edgesOf keys ord (fun k => if k.2 = y ∧ k.1 ∈ ps then .compelled else lab k),
        pending (O.filter (fun k => !(decide (k.2 = y) && decide (k.1 ∈ ps))))) := by
  intro ps
  induction ps with
  | nil =>
    intro _ lab O _
    simp [pure_eq_ok]
  | cons p ps ih =>
    intro hk lab O hO
    rw [List.foldlM_cons, labelAll_eq hn (hk p (by simp)), ok_bind, ih (fun q hq => hk q (by simp [hq])) _ _ (hO.erase _)]
    rw [erase_filter hO]
    congr 2
    · congr 1
      funext k
      by_cases h1 : k = (p, y)
      · subst h1
        simp
      · have : k.2 = y → ¬ k.1 = p := fun h2 h3 => h1 (Prod.ext h3 h2)
        by_cases h2 : k.2 = y
        · simp [h1, h2, this h2]
        · simp [h1, h2]
    · congr 1
      apply List.filter_congr
      intro k _
      by_cases h1 : k = (p, y)
      · subst h1
        simp
      · have : k.2 = y → ¬ k.1 = p := fun h2 h3 => h1 (Prod.ext h3 h2)
        by_cases h2 : k.2 = y
        · simp [h1, h2, this h2]
        · simp [h1, h2]

/-- Labels after one round: every edge into `y` gets `f` of its tail. -/
def relabel (lab : Nat × Nat → Label) (ps : List Nat) (y : Nat) (f : Nat → Label) : Nat × Nat → Label :=
  fun k => if k.2 = y ∧ k.1 ∈ ps then f k.1 else lab k

/-- The edges not going from `ps` to `y`. -/
def without (O : List (Nat × Nat)) (ps : List Nat) (y : Nat) : List (Nat × Nat) :=
  O.filter (fun k => !(decide (k.2 = y) && decide (k.1 ∈ ps)))

theorem loop1_true (hn : keys.Nodup) {ps : List Nat} {x y : Nat} (hxy : x ≠ y) (hps : ∀ p ∈ ps, (p, y) ∈ keys) (hx : x ∈ ps) :
    ∀ (ws : List Nat) (lab : Nat × Nat → Label) (O : List (Nat × Nat)), (∀ w ∈ ws, (w, x) ∈ keys ∧ lab (w, x) ≠ .unset) → x ∉ ws →
      ((x, y) :: O).Nodup → (∃ w ∈ ws, lab (w, x) = .compelled ∧ w ∉ ps) →
      compelLoop1 ps x y ws (edgesOf keys ord lab, pending ((x, y) :: O)) =
        .ok ((edgesOf keys ord (relabel lab ps y (fun _ => .compelled)), pending (without O ps y)), true) := by
  intro ws
  induction ws with
  | nil => intro lab O _ _ _ ⟨w, hw, _⟩; simp at hw
  | cons w ws ih =>
    intro lab O hk hxw hO hex
    unfold compelLoop1
    simp only []
    rw [isCompelled_edgesOf (hk w (by simp)).1 ord (hk w (by simp)).2, ok_bind]
    by_cases hc : lab (w, x) = .compelled
    · rw [if_pos (by simpa using hc)]
      by_cases hwp : w ∉ ps
      · rw [if_pos hwp, setLabel_edgesOf hn (hps x hx), ok_bind]
        show (ps.foldlM (labelAll y) (_, pending O) >>= _) = _
        rw [labelAll_fold hn y ps hps _ _ (List.nodup_cons.1 hO).2, ok_bind]
        show Except.ok _ = _
        congr 4
        funext k
        unfold relabel
        by_cases h1 : k.2 = y ∧ k.1 ∈ ps
        · rw [if_pos h1, if_pos h1]
        · rw [if_neg h1, if_neg h1, if_neg]
          rintro rfl
          exact h1 ⟨rfl, hx⟩
      · rw [if_neg hwp]
        have hwps : w ∈ ps := by simpa using hwp
        have hwx : (w, y) ≠ (x, y) := fun h => hxw (by rw [show x = w from (Prod.ext_iff.1 h).1.symm]; simp)
        rw [labelPending_eq hn (hps w hwps), ok_bind, List.erase_cons_tail (by simpa using hwx.symm)]
        have hnx : ∀ v, (v, x) ≠ (w, y) := fun v h => hxy (Prod.ext_iff.1 h).2
        rw [ih _ (O.erase (w, y))]
        · congr 3
          · congr 1
            funext k
            unfold relabel
            by_cases h1 : k.2 = y ∧ k.1 ∈ ps
            · rw [if_pos h1, if_pos h1]
            · rw [if_neg h1, if_neg h1]
              exact if_neg (by
                rintro ⟨rfl, _⟩
                exact h1 ⟨rfl, hwps⟩)
          · congr 1
            unfold without
            rw [erase_filter (List.nodup_cons.1 hO).2]
            apply List.filter_congr
            intro k _
            by_cases hk' : k = (w, y)
            · subst hk'
              simp [hwps]
            · simp [hk']
        · intro v hv
          refine ⟨(hk v (by simp [hv])).1, ?_⟩
          rw [if_neg (fun h => hnx v h.1)]
          exact (hk v (by simp [hv])).2
        · exact fun h => hxw (by simp [h])
        · refine List.nodup_cons.2 ⟨fun h => (List.nodup_cons.1 hO).1 (List.mem_of_mem_erase h), (List.nodup_cons.1 hO).2.erase _⟩
        · obtain ⟨v, hv, h1, h2⟩ := hex
          rcases List.mem_cons.1 hv with rfl | hv
          · exact absurd h2 hwp
          · exact ⟨v, hv, by rw [if_neg (fun h => hnx v h.1)]; exact h1, h2⟩
    · rw [if_neg (by simpa using hc)]
      refine ih lab O (fun v hv => hk v (by simp [hv])) (fun h => hxw (by simp [h])) hO ?_
      obtain ⟨v, hv, h1, h2⟩ := hex
      rcases List.mem_cons.1 hv with rfl | hv
      · exact absurd h1 hc
      · exact ⟨v, hv, h1, h2⟩

theorem loop1_false (hn : keys.Nodup) {ps : List Nat} {x y : Nat} (hxy : x ≠ y) (hps : ∀ p ∈ ps, (p, y) ∈ keys) :
    ∀ (ws : List Nat) (lab : Nat × Nat → Label) (O : List (Nat × Nat)), (∀ w ∈ ws, (w, x) ∈ keys ∧ lab (w, x) ≠ .unset) → x ∉ ws →
      ((x, y) :: O).Nodup → (∀ w ∈ ws, lab (w, x) = .compelled → w ∈ ps) →
      compelLoop1 ps x y ws (edgesOf keys ord lab, pending ((x, y) :: O)) =
        .ok ((edgesOf keys ord (fun k => if k.2 = y ∧ (k.1 ∈ ws ∧ lab (k.1, x) = .compelled) ∧ k ∈ O then .compelled else lab k),
          pending ((x, y) :: O.filter (fun k => !(decide (k.2 = y) && decide (k.1 ∈ ws ∧ lab (k.1, x) = .compelled))))), false) := by
  intro ws
  induction ws with
  | nil =>
    intro lab O _ _ _ _
    unfold compelLoop1
    simp
  | cons w ws ih =>
    intro lab O hk hxw hO hall
    unfold compelLoop1
    simp only []
    rw [isCompelled_edgesOf (hk w (by simp)).1 ord (hk w (by simp)).2, ok_bind]
    by_cases hc : lab (w, x) = .compelled
    · rw [if_pos (by simpa using hc)]
      have hwps : w ∈ ps := hall w (by simp) hc
      rw [if_neg (by simpa using hwps)]
      have hwx : (w, y) ≠ (x, y) := fun h => hxw (by rw [show x = w from (Prod.ext_iff.1 h).1.symm]; simp)
      rw [labelPending_eq hn (hps w hwps), ok_bind, List.erase_cons_tail (by simpa using hwx.symm)]
      have hnx : ∀ v, (v, x) ≠ (w, y) := fun v h => hxy (Prod.ext_iff.1 h).2
      rw [ih _ (O.erase (w, y))]
      · congr 3
        · congr 1
          funext k
          simp only [hnx, false_and, if_false, List.Nodup.mem_erase_iff (List.nodup_cons.1 hO).2]
          by_cases hk' : k = (w, y)
          · subst hk'
            simp [hc, hwx]
          · have : k.2 = y → ¬ k.1 = w := fun h2 h3 => hk' (Prod.ext h3 h2)
            by_cases h2 : k.2 = y
            · simp [hk', h2, this h2]
            · simp [hk', h2]
        · congr 2
          rw [erase_filter (List.nodup_cons.1 hO).2]
          apply List.filter_congr
          intro k _
          simp only [hnx, false_and, if_false]
          by_cases hk' : k = (w, y)
          · subst hk'
            simp [hc]
          · have : k.2 = y → ¬ k.1 = w := fun h2 h3 => hk' (Prod.ext h3 h2)
            by_cases h2 : k.2 = y
            · simp [hk', h2, this h2]
            · simp [hk', h2]
      · intro v hv
        refine ⟨(hk v (by simp [hv])).1, ?_⟩
        rw [if_neg (fun h => hnx v h.1)]
        exact (hk v (by simp [hv])).2
      · exact fun h => hxw (by simp [h])
      · refine List.nodup_cons.2 ⟨fun h => (List.nodup_cons.1 hO).1 (List.mem_of_mem_erase h), (List.nodup_cons.1 hO).2.erase _⟩
      · intro v hv h1
        rw [if_neg (fun h => hnx v h.1)] at h1
        exact hall v (by simp [hv]) h1
    · rw [if_neg (by simpa using hc)]
      rw [ih lab O (fun v hv => hk v (by simp [hv])) (fun h => hxw (by simp [h])) hO (fun v hv => hall v (by simp [hv]))]
      have : ∀ v, (v ∈ w :: ws ∧ lab (v, x) = .compelled) ↔ (v ∈ ws ∧ lab (v, x) = .compelled) := by
        intro v
        constructor
        · rintro ⟨h1, h2⟩
          rcases List.mem_cons.1 h1 with rfl | h1
          · exact absurd h2 hc
          · exact ⟨h1, h2⟩
        · rintro ⟨h1, h2⟩
          exact ⟨by simp [h1], h2⟩
      simp only [this]

theorem loop2_none {ps xps : List Nat} {x y : Nat} (st : (List Edge × List Edge) × Bool) : ∀ (zs : List Nat),
    (∀ z ∈ zs, z ≠ x → z ∈ xps) → zs.foldlM (compelLoop2 ps xps x y) st = .ok st := by
  intro zs
  induction zs with
  | nil => intro _; rfl
  | cons z zs ih =>
    intro h
    rw [List.foldlM_cons]
    unfold compelLoop2
    rw [if_neg (fun hc => hc.2 (h z (by simp) hc.1)), ok_bind]
    exact ih (fun z' hz' => h z' (by simp [hz']))

theorem loop2_one (hn : keys.Nodup) {ps xps : List Nat} {x y : Nat} (hps : ∀ p ∈ ps, (p, y) ∈ keys) (hx : x ∈ ps)
    {lab : Nat × Nat → Label} {O : List (Nat × Nat)} (hO : ((x, y) :: O).Nodup) : ∀ (zs : List Nat), zs.Nodup →
    (∃ z ∈ zs, z ≠ x ∧ z ∉ xps) → (∀ z ∈ zs, ∀ z' ∈ zs, z ≠ x → z ∉ xps → z' ≠ x → z' ∉ xps → z = z') →
    zs.foldlM (compelLoop2 ps xps x y) ((edgesOf keys ord lab, pending ((x, y) :: O)), false) =
      .ok ((edgesOf keys ord (fun k => if k.2 = y ∧ k.1 ∈ ps ∧ k ∈ (x, y) :: O then .compelled else lab k), pending (without O ps y)), true) := by
  intro zs
  induction zs with
  | nil => rintro _ ⟨z, hz, _⟩; simp at hz
  | cons z zs ih =>
    intro hzn hex huniq
    rw [List.foldlM_cons]
    unfold compelLoop2
    by_cases hz : z ≠ x ∧ z ∉ xps
    · rw [if_pos hz, setLabel_edgesOf hn (hps x hx), ok_bind]
      show ((ps.foldlM (labelPending .compelled y) (_, pending O) >>= _) >>= _) = _
      rw [labelPending_fold hn _ y ps hps _ _ (List.nodup_cons.1 hO).2, ok_bind]
      show zs.foldlM (compelLoop2 ps xps x y) _ = _
      rw [loop2_none]
      · congr 4
        funext k
        by_cases h1 : k = (x, y)
        · subst h1
          simp [hx, (List.nodup_cons.1 hO).1]
        · simp [h1]
      · intro z' hz' hz'x
        by_contra hn'
        have := huniq z (by simp) z' (by simp [hz']) hz.1 hz.2 hz'x hn'
        exact (List.nodup_cons.1 hzn).1 (this ▸ hz')
    · rw [if_neg hz, ok_bind]
      refine ih (List.nodup_cons.1 hzn).2 ?_ (fun a ha b hb => huniq a (by simp [ha]) b (by simp [hb]))
      obtain ⟨z', hz', h1⟩ := hex
      rcases List.mem_cons.1 hz' with rfl | hz'
      · exact absurd h1 hz
      · exact ⟨z', hz', h1⟩

/-- One round of `FindCompelled`: all edges into `y` are labelled and leave the list, provided the loop without `break` has at most one
hit. -/
theorem compelRound_eq {N : Net} (hn : keys.Nodup) {x y : Nat} (hxl : x < N.nodes.length) (hyl : y < N.nodes.length) (hxy : x ≠ y)
    (hps : ∀ p ∈ N.pa y, (p, y) ∈ keys) (hx : x ∈ N.pa y) (hpn : (N.pa y).Nodup) {lab : Nat × Nat → Label} {O : List (Nat × Nat)}
    (hO : ((x, y) :: O).Nodup) (hall : ∀ p ∈ N.pa y, (p, y) ∈ (x, y) :: O) (hxx : x ∉ N.pa x)
    (hw : ∀ w ∈ N.pa x, (w, x) ∈ keys ∧ lab (w, x) ≠ .unset)
    (hbug : (∃ w ∈ N.pa x, lab (w, x) = .compelled ∧ w ∉ N.pa y) ∨
      ∀ z ∈ N.pa y, ∀ z' ∈ N.pa y, z ≠ x → z ∉ N.pa x → z' ≠ x → z' ∉ N.pa x → z = z') :
    ∃ f : Nat → Label, N.compelRound x y (edgesOf keys ord lab, pending ((x, y) :: O)) =
        .ok (edgesOf keys ord (relabel lab (N.pa y) y f), pending (without O (N.pa y) y)) ∧
      ((∃ w ∈ N.pa x, lab (w, x) = .compelled ∧ w ∉ N.pa y) → ∀ p, f p = .compelled) ∧
      ((∃ z ∈ N.pa y, z ≠ x ∧ z ∉ N.pa x) → ∀ p, f p = .compelled) ∧
      ((∀ w ∈ N.pa x, lab (w, x) = .compelled → w ∈ N.pa y) → (∀ z ∈ N.pa y, z ≠ x → z ∈ N.pa x) →
        ∀ p, f p = if p ∈ N.pa x ∧ lab (p, x) = .compelled then .compelled else .reversible) := by
  unfold Net.compelRound
  rw [find_ok hxl, ok_bind, find_ok hyl, ok_bind, ← pa_of_lt hxl, ← pa_of_lt hyl]
  by_cases hA : ∃ w ∈ N.pa x, lab (w, x) = .compelled ∧ w ∉ N.pa y
  · rw [loop1_true hn hxy hps hx _ _ _ hw hxx hO hA, ok_bind]
    refine ⟨fun _ => .compelled, rfl, fun _ _ => rfl, fun _ _ => rfl, fun h1 => ?_⟩
    obtain ⟨w, h2, h3, h4⟩ := hA
    exact absurd (h1 w h2 h3) h4
  · have hA' : ∀ w ∈ N.pa x, lab (w, x) = .compelled → w ∈ N.pa y := by
      intro w h1 h2
      by_contra h3
      exact hA ⟨w, h1, h2, h3⟩
    rw [loop1_false hn hxy hps _ _ _ hw hxx hO hA', ok_bind]
    simp only [Bool.false_eq_true, if_false]
    set lab1 : Nat × Nat → Label := fun k => if k.2 = y ∧ (k.1 ∈ N.pa x ∧ lab (k.1, x) = .compelled) ∧ k ∈ O then .compelled else lab k with hlab1
    set O1 := O.filter (fun k => !(decide (k.2 = y) && decide (k.1 ∈ N.pa x ∧ lab (k.1, x) = .compelled))) with hO1
    have hO1n : ((x, y) :: O1).Nodup :=
      List.nodup_cons.2 ⟨fun h => (List.nodup_cons.1 hO).1 (List.mem_of_mem_filter h), (List.nodup_cons.1 hO).2.filter _⟩
    have hwo : without O1 (N.pa y) y = without O (N.pa y) y := by
      unfold without
      rw [hO1, List.filter_filter]
      apply List.filter_congr
      intro k _
      by_cases h2 : k.2 = y
      · by_cases h3 : k.1 ∈ N.pa x ∧ lab (k.1, x) = .compelled
        · simp [h2, hA' _ h3.1 h3.2]
        · simp only [h2, h3]
          simp
      · simp [h2]
    have hmem : ∀ k : Nat × Nat, k.2 = y → k.1 ∈ N.pa y → (k ∈ (x, y) :: O1 ↔ ¬ (k.1 ∈ N.pa x ∧ lab (k.1, x) = .compelled)) := by
      rintro ⟨a, b⟩ h2 h1
      simp only at h2 h1
      subst h2
      have := hall a h1
      constructor
      · rintro h3 h4
        rcases List.mem_cons.1 h3 with h3 | h3
        · rw [(Prod.ext_iff.1 h3).1] at h4
          exact hxx h4.1
        · rw [hO1, List.mem_filter] at h3
          simp [h4] at h3
      · intro h3
        rcases List.mem_cons.1 this with h4 | h4
        · rw [h4]; simp
        · refine List.mem_cons_of_mem _ ?_
          rw [hO1, List.mem_filter]
          refine ⟨h4, ?_⟩
          simp only [h3]
          simp
    by_cases hB : ∃ z ∈ N.pa y, z ≠ x ∧ z ∉ N.pa x
    · rw [loop2_one hn hps hx hO1n _ hpn hB (hbug.resolve_left hA), ok_bind]
      simp only [if_true]
      refine ⟨fun _ => .compelled, ?_, fun _ _ => rfl, fun _ _ => rfl, fun _ h2 => ?_⟩
      · rw [hwo]
        show Except.ok _ = _
        congr 3
        funext k
        unfold relabel
        by_cases h1 : k.2 = y ∧ k.1 ∈ N.pa y
        · rw [if_pos h1]
          by_cases h2 : k ∈ (x, y) :: O1
          · rw [if_pos ⟨h1.1, h1.2, h2⟩]
          · rw [if_neg (fun h => h2 h.2.2), hlab1]
            rw [hmem k h1.1 h1.2, not_not] at h2
            simp only
            have hkO : k ∈ O := by
              have h4 := hall k.1 h1.2
              rw [show ((k.1, y) : Nat × Nat) = k from by rw [← h1.1]] at h4
              rcases List.mem_cons.1 h4 with h4 | h4
              · rw [h4] at h2
                exact absurd h2.1 hxx
              · exact h4
            rw [if_pos ⟨h1.1, h2, hkO⟩]
        · rw [if_neg h1, if_neg (fun h => h1 ⟨h.1, h.2.1⟩), hlab1]
          simp only
          rw [if_neg]
          rintro ⟨h2, h3, _⟩
          exact h1 ⟨h2, hA' _ h3.1 h3.2⟩
      · obtain ⟨z, h3, h4, h5⟩ := hB
        exact absurd (h2 z h3 h4) h5
    · have hB' : ∀ z ∈ N.pa y, z ≠ x → z ∈ N.pa x := by
        intro z h1 h2
        by_contra h3
        exact hB ⟨z, h1, h2, h3⟩
      rw [loop2_none _ _ hB', ok_bind]
      simp only [Bool.false_eq_true, if_false]
      rw [setLabel_edgesOf hn (hps x hx), ok_bind]
      show ∃ f, ((N.pa y).foldlM (labelPending .reversible y) (_, pending O1)) = _ ∧ _
      rw [labelPending_fold hn _ y _ hps _ _ (List.nodup_cons.1 hO1n).2]
      refine ⟨fun p => if p ∈ N.pa x ∧ lab (p, x) = .compelled then .compelled else .reversible, ?_, fun h => absurd h hA, fun h => absurd h hB,
        fun _ _ _ => rfl⟩
      congr 2
      · congr 1
        funext k
        unfold relabel
        by_cases h1 : k.2 = y ∧ k.1 ∈ N.pa y
        · rw [if_pos h1]
          beta_reduce
          have h3 := hmem k h1.1 h1.2
          have hkO : k ≠ (x, y) → k ∈ O := by
            intro hne
            have h4 := hall k.1 h1.2
            rw [show ((k.1, y) : Nat × Nat) = k from by rw [← h1.1]] at h4
            exact (List.mem_cons.1 h4).resolve_left hne
          by_cases h2 : k.1 ∈ N.pa x ∧ lab (k.1, x) = .compelled
          · have hne : k ≠ (x, y) := by
              rintro rfl
              exact hxx h2.1
            rw [if_pos h2, if_neg, if_neg hne, hlab1]
            · simp only
              rw [if_pos ⟨h1.1, h2, hkO hne⟩]
            · rintro ⟨_, _, h5⟩
              exact (h3.1 (List.mem_cons_of_mem _ h5)) h2
          · rw [if_neg h2]
            rcases List.mem_cons.1 (h3.2 h2) with h4 | h4
            · rw [if_pos h4]
              split <;> rfl
            · rw [if_pos ⟨h1.1, h1.2, h4⟩]
        · rw [if_neg h1, if_neg (fun h => h1 ⟨h.1, h.2.1⟩), if_neg, hlab1]
          · simp only
            rw [if_neg]
            rintro ⟨h2, h3, _⟩
            exact h1 ⟨h2, hA' _ h3.1 h3.2⟩
          · rintro rfl
            exact h1 ⟨rfl, hx⟩
      · exact congrArg pending hwo

end loops

end FastPGM
