import Verif.Spec.MixedDataset
import Verif.Lemmas.Dataset2

/-!
Loading data with continuous variables, compared with loading the same file as purely discrete.
-/

namespace FastPGM

open Spec

/-! ### Runs in lockstep -/

section
variable {σ τ α σ' τ' : Type}

/-- The second run follows the first: it ends in a related state, or it fails for a reason that can be seen in the first one's state; if the first
fails, so does the second. -/
def Sim (R : σ → τ → Prop) (E : Fault → σ → Prop) (a : Except Fault σ) (b : Except Fault τ) : Prop :=
  match a with
  | .ok s => (∃ t, b = .ok t ∧ R s t) ∨ ∃ f, b = .error f ∧ E f s
  | .error _ => ∃ g, b = .error g

theorem Sim.bind {R : σ → τ → Prop} {E : Fault → σ → Prop} {R' : σ' → τ' → Prop} {E' : Fault → σ' → Prop} {a : Except Fault σ} {b : Except Fault τ}
    {k : σ → Except Fault σ'} {k' : τ → Except Fault τ'} (h : Sim R E a b) (hk : ∀ s t, R s t → Sim R' E' (k s) (k' t))
    (hE : ∀ f s s', E f s → k s = .ok s' → E' f s') : Sim R' E' (a >>= k) (b >>= k') := by
  cases a with
  | error e =>
    obtain ⟨g, rfl⟩ := h
    exact ⟨g, rfl⟩
  | ok s =>
    rcases h with ⟨t, rfl, hR⟩ | ⟨f, rfl, he⟩
    · exact hk s t hR
    · show Sim R' E' (k s) (.error f)
      cases hs : k s with
      | error e => exact ⟨f, rfl⟩
      | ok s' => exact Or.inr ⟨f, rfl, hE f s s' he hs⟩

theorem Sim.foldlM {R : σ → τ → Prop} {E : Fault → σ → Prop} {b1 : σ → α → Except Fault σ} {b2 : τ → α → Except Fault τ} :
    ∀ {l : List α}, (∀ x ∈ l, ∀ s t, R s t → Sim R E (b1 s x) (b2 t x)) → (∀ x ∈ l, ∀ f s s', E f s → b1 s x = .ok s' → E f s') →
      ∀ {s : σ} {t : τ}, R s t → Sim R E (l.foldlM b1 s) (l.foldlM b2 t) := by
  intro l
  induction l with
  | nil => exact fun _ _ s t h => Or.inl ⟨t, rfl, h⟩
  | cons x l ih =>
    intro hs hE s t h
    rw [List.foldlM_cons, List.foldlM_cons]
    refine (hs x (by simp) s t h).bind (fun s t h => ih (fun y hy => hs y (by simp [hy])) (fun y hy => hE y (by simp [hy])) h) ?_
    intro f s1 s2 he hk
    clear h hs ih
    induction l generalizing s1 with
    | nil => cases hk; exact he
    | cons y l ih =>
      rw [List.foldlM_cons] at hk
      obtain ⟨s3, h1, h2⟩ := ok_of_bind hk
      refine ih ?_ s3 (hE y (by simp) f s1 s3 he h1) h2
      intro z hz
      rcases List.mem_cons.1 hz with rfl | hz
      · exact hE z (by simp)
      · exact hE z (by simp [hz])

theorem Sim.doWhile {R : σ → τ → Prop} {E : Fault → σ → Prop} {b1 : σ → Str → Except Fault σ} {b2 : τ → Str → Except Fault τ}
    (hs : ∀ x s t, R s t → Sim R E (b1 s x) (b2 t x)) (hE : ∀ x f s s', E f s → b1 s x = .ok s' → E f s') :
    ∀ (fuel : Nat) (s : σ) (t : τ) (x : Str) (f : InFile), R s t → Sim R E (doWhileGetline b1 fuel s x f) (doWhileGetline b2 fuel t x f) := by
  have hmono : ∀ (fuel : Nat) (s s' : σ) (x : Str) (f : InFile) (g : Fault), E g s → doWhileGetline b1 fuel s x f = .ok s' → E g s' := by
    intro fuel
    induction fuel with
    | zero => intro s s' x f g _ h; cases h
    | succ fuel ih =>
      intro s s' x f g he h
      unfold doWhileGetline at h
      obtain ⟨s1, h1, h2⟩ := ok_of_bind h
      have he1 := hE x g s s1 he h1
      generalize getline f x = r at h2
      obtain ⟨x', f'⟩ := r
      dsimp only at h2
      split at h2
      · cases h2; exact he1
      · exact ih s1 s' x' f' g he1 h2
  intro fuel
  induction fuel with
  | zero => exact fun s t x f _ => ⟨.ub, rfl⟩
  | succ fuel ih =>
    intro s t x f h
    unfold doWhileGetline
    generalize getline f x = r
    obtain ⟨x', f'⟩ := r
    dsimp only
    refine (hs x s t h).bind (fun s t h => ?_) (fun g s1 s2 he hk => ?_)
    · split
      · exact Or.inl ⟨t, rfl, h⟩
      · exact ih s t x' f' h
    · split at hk
      · cases hk; exact he
      · exact hmono fuel s1 s2 x' f' g he hk

end

/-! ### Training -/

variable {F : Type} {stof : Str → Except Fault F} {cont : List Int}

/-- More codes. -/
def IdsGrow (ids ids' : List ValueMap) : Prop :=
  ∀ (i : Nat) (m : ValueMap), ids[i]? = some m → ∃ m' : ValueMap, ids'[i]? = some m' ∧ ∀ s v, m.find s = some v → m'.find s = some v

theorem IdsGrow.refl (ids : List ValueMap) : IdsGrow ids ids := fun _ m h => ⟨m, h, fun _ _ h => h⟩

theorem SameCell.grow {ids ids' : List ValueMap} (h : IdsGrow ids ids') {a : Int × Int} {b : Int × MVal F} (hc : SameCell stof cont ids a b) :
    SameCell stof cont ids' a b := by
  refine ⟨hc.1, hc.2.1, fun ha => ?_⟩
  obtain ⟨m, s, f, h1, h2, h3, h4⟩ := hc.2.2 ha
  obtain ⟨m', e1, e2⟩ := h _ m h1
  exact ⟨m', s, f, e1, e2 s _ h2, h3, h4⟩

/-- The states of the two training loops. -/
structure TrainRel (stof : Str → Except Fault F) (cont : List Int) (n : Nat) (st : CsvState) (st' : CsvStateM F) : Prop where
  len : st.counter.length = n ∧ st.ids.length = n ∧ st'.counter.length = n ∧ st'.ids.length = n
  disc : ∀ i < n, (i : Int) ∉ cont → st'.counter[i]? = st.counter[i]? ∧ st'.ids[i]? = st.ids[i]?
  contin : ∀ i < n, (i : Int) ∈ cont → st'.ids[i]? = some [] ∧ ∀ m, st.ids[i]? = some m → ∀ s v, m.find s = some v → ∃ f, stof s = .ok f
  rowsIn : ∀ row ∈ st.rows, RowIn n row
  rows : List.Forall₂ (List.Forall₂ (SameCell stof cont st.ids)) st.rows st'.rows

/-- The reason for a failure: a text of a continuous column that is no number. -/
def BadText (stof : Str → Except Fault F) (cont : List Int) (n : Nat) (f : Fault) (ids : List ValueMap) : Prop :=
  ∃ i < n, (i : Int) ∈ cont ∧ ∃ (m : ValueMap) (s : Str) (v : Int), ids[i]? = some m ∧ m.find s = some v ∧ stof s = .error f

theorem BadText.grow {n : Nat} {f : Fault} {ids ids' : List ValueMap} (h : IdsGrow ids ids') (hb : BadText stof cont n f ids) :
    BadText stof cont n f ids' := by
  obtain ⟨i, hi, hc, m, s, v, h1, h2, h3⟩ := hb
  obtain ⟨m', e1, e2⟩ := h i m h1
  exact ⟨i, hi, hc, m', s, v, e1, e2 s v h2, h3⟩

/-- States inside a line. -/
def CellRel (stof : Str → Except Fault F) (cont : List Int) (n : Nat) (p : CsvState × List (Int × Int)) (q : CsvStateM F × List (Int × MVal F)) :
    Prop :=
  TrainRel stof cont n p.1 q.1 ∧ RowIn n p.2 ∧ List.Forall₂ (SameCell stof cont p.1.ids) p.2 q.2

theorem find_snoc_old {m : ValueMap} {c s : Str} {v w : Int} (h : m.find s = some v) : ValueMap.find (m ++ [(c, w)]) s = some v := by
  unfold ValueMap.find at *
  rw [List.lookup_append, h]
  rfl

theorem find_snoc_new {m : ValueMap} {c : Str} {w : Int} (h : m.find c = none) : ValueMap.find (m ++ [(c, w)]) c = some w := by
  unfold ValueMap.find at *
  rw [List.lookup_append, h]
  simp

theorem find_snoc_cases {m : ValueMap} {c s : Str} {v w : Int} (h : ValueMap.find (m ++ [(c, w)]) s = some v) : m.find s = some v ∨ s = c := by
  unfold ValueMap.find at *
  rw [List.lookup_append] at h
  cases hm : m.lookup s with
  | some u => rw [hm] at h; exact Or.inl h
  | none =>
    rw [hm] at h
    right
    by_contra hne
    have : (s == c) = false := by simpa using hne
    simp [List.lookup, this] at h

theorem idsGrow_set {ids : List ValueMap} {i : Nat} {m : ValueMap} {c : Str} {w : Int} (hm : ids[i]? = some m) :
    IdsGrow ids (ids.set i (m ++ [(c, w)])) := by
  have hi := (List.getElem?_eq_some_iff.1 hm).1
  intro j m0 hj
  by_cases hij : i = j
  · subst hij
    rw [hm] at hj
    cases hj
    exact ⟨m ++ [(c, w)], by simp [hi], fun s v h => find_snoc_old h⟩
  · exact ⟨m0, by rw [List.getElem?_set_ne hij]; exact hj, fun s v h => h⟩

/-- A cell read as discrete: the codes grow, and the code of the text is put into the row. -/
theorem trainCell_true {n : Nat} {parsed : List Str} {st : CsvState} {row : List (Int × Int)} {i : Nat} (hl : st.counter.length = n ∧ st.ids.length = n)
    (hi : i < n) {cell : Str} (hcell : parsed[i]? = some cell) :
    ∃ st1 v, trainCell true parsed (st, row) i = .ok (st1, row ++ [((i : Int), v)]) ∧ IdsGrow st.ids st1.ids ∧ st1.rows = st.rows ∧
      st1.counter.length = n ∧ st1.ids.length = n ∧ (∀ j, j ≠ i → st1.counter[j]? = st.counter[j]? ∧ st1.ids[j]? = st.ids[j]?) ∧
      ∃ m, st1.ids[i]? = some m ∧ m.find cell = some v ∧
        ∀ m0, st.ids[i]? = some m0 → ∀ s w, m.find s = some w → m0.find s = some w ∨ s = cell := by
  have hi1 : i < st.ids.length := by omega
  have hi2 : i < st.counter.length := by omega
  have h1 : st.ids[i]? = some st.ids[i] := List.getElem?_eq_getElem hi1
  unfold trainCell
  rw [rd_ok hcell, ok_bind, if_pos rfl, rd_ok h1, ok_bind]
  cases hf : st.ids[i].find cell with
  | some v =>
    refine ⟨st, v, rfl, IdsGrow.refl _, rfl, hl.1, hl.2, fun j _ => ⟨rfl, rfl⟩, st.ids[i], h1, hf, ?_⟩
    intro m0 hm0 s w hw
    rw [h1] at hm0
    cases hm0
    exact Or.inl hw
  | none =>
    dsimp only
    rw [rd_getElem hi2, ok_bind]
    refine ⟨_, _, rfl, idsGrow_set h1, rfl, by simpa using hl.1, by simpa using hl.2, ?_, st.ids[i] ++ [(cell, st.counter[i] + 1)], ?_,
      find_snoc_new hf, ?_⟩
    · intro j hj
      exact ⟨List.getElem?_set_ne (Ne.symm hj), List.getElem?_set_ne (Ne.symm hj)⟩
    · simp [hi1]
    · intro m0 hm0 s w hw
      rw [h1] at hm0
      cases hm0
      exact find_snoc_cases hw

theorem forall₂_imp {α β : Type} {R S : α → β → Prop} (hRS : ∀ a b, R a b → S a b) {l : List α} {m : List β} (h : List.Forall₂ R l m) :
    List.Forall₂ S l m := by
  induction h with
  | nil => exact .nil
  | cons h1 _ ih => exact .cons (hRS _ _ h1) ih

theorem forall₂_snoc {α β : Type} {R : α → β → Prop} {l : List α} {m : List β} {a : α} {b : β} (h : List.Forall₂ R l m) (hab : R a b) :
    List.Forall₂ R (l ++ [a]) (m ++ [b]) := by
  induction h with
  | nil => exact .cons hab .nil
  | cons h1 _ ih => exact .cons h1 ih

theorem trainCell_sim {n : Nat} {parsed : List Str} {i : Nat} (hi : i < n) {p : CsvState × List (Int × Int)} {q : CsvStateM F × List (Int × MVal F)}
    (h : CellRel stof cont n p q) :
    Sim (CellRel stof cont n) (fun f p => BadText stof cont n f p.1.ids) (trainCell true parsed p i) (trainCellM stof cont true parsed q i) := by
  obtain ⟨st, row⟩ := p
  obtain ⟨st', row'⟩ := q
  obtain ⟨hR, hin, hrow⟩ := h
  cases hcell : parsed[i]? with
  | none =>
    have : rd parsed i = .error .ub := by unfold rd; rw [hcell]
    unfold trainCell trainCellM
    rw [this]
    exact ⟨.ub, rfl⟩
  | some cell =>
    obtain ⟨st1, v, e1, hg, hrows, l1, l2, hoth, m, hm, hfind, hnew⟩ := trainCell_true (row := row) ⟨hR.len.1, hR.len.2.1⟩ hi hcell
    rw [e1]
    have hrowsR : List.Forall₂ (List.Forall₂ (SameCell stof cont st1.ids)) st1.rows st'.rows := by
      rw [hrows]
      exact forall₂_imp (fun a b hab => forall₂_imp (fun c d => SameCell.grow hg) hab) hR.rows
    have hrow1 : List.Forall₂ (SameCell stof cont st1.ids) row row' := forall₂_imp (fun c d => SameCell.grow hg) hrow
    have hin1 : RowIn n (row ++ [((i : Int), v)]) := by
      intro x hx
      rcases List.mem_append.1 hx with hx | hx
      · exact hin x hx
      · rw [List.mem_singleton.1 hx]
        exact ⟨by simp, by simpa using hi⟩
    unfold trainCellM
    rw [rd_ok hcell, ok_bind]
    by_cases hc : (i : Int) ∈ cont
    · rw [if_pos hc]
      cases hst : stof cell with
      | error f => exact Or.inr ⟨f, rfl, i, hi, hc, m, cell, v, hm, hfind, hst⟩
      | ok f =>
        refine Or.inl ⟨_, rfl, ⟨⟨l1, l2, hR.len.2.2.1, hR.len.2.2.2⟩, ?_, ?_, by rw [hrows]; exact hR.rowsIn, hrowsR⟩, hin1, ?_⟩
        · intro j hj hjc
          have hji : j ≠ i := fun e => hjc (e ▸ hc)
          rw [(hoth j hji).1, (hoth j hji).2]
          exact hR.disc j hj hjc
        · intro j hj hjc
          refine ⟨(hR.contin j hj hjc).1, fun m1 hm1 s w hw => ?_⟩
          by_cases hji : j = i
          · subst hji
            rw [hm] at hm1
            cases hm1
            have hi0 : j < st.ids.length := by rw [hR.len.2.1]; exact hi
            rcases hnew _ (List.getElem?_eq_getElem hi0) s w hw with h0 | rfl
            · exact (hR.contin j hj hjc).2 _ (List.getElem?_eq_getElem hi0) s w h0
            · exact ⟨f, hst⟩
          · rw [(hoth j hji).2] at hm1
            exact (hR.contin j hj hjc).2 m1 hm1 s w hw
        · exact forall₂_snoc hrow1 ⟨rfl, fun hn => absurd hc hn, fun _ => ⟨m, cell, f, by simpa using hm, hfind, hst, rfl⟩⟩
    · rw [if_neg hc, if_pos rfl]
      obtain ⟨d1, d2⟩ := hR.disc i hi hc
      have hi1 : i < st.ids.length := by rw [hR.len.2.1]; exact hi
      have hi2 : i < st.counter.length := by rw [hR.len.1]; exact hi
      have hi1' : i < st'.ids.length := by rw [hR.len.2.2.2]; exact hi
      have hi2' : i < st'.counter.length := by rw [hR.len.2.2.1]; exact hi
      have g1 : st'.ids[i]? = some st.ids[i] := by rw [d2]; exact List.getElem?_eq_getElem hi1
      have g2 : st'.counter[i]? = some st.counter[i] := by rw [d1]; exact List.getElem?_eq_getElem hi2
      -- the discrete step again, explicitly
      unfold trainCell at e1
      rw [rd_ok hcell, ok_bind, if_pos rfl, rd_getElem hi1, ok_bind] at e1
      rw [rd_ok g1, ok_bind]
      have hsame : SameCell stof cont st1.ids ((i : Int), v) ((i : Int), MVal.int v) := ⟨rfl, fun _ => rfl, fun h => absurd h hc⟩
      cases hf : st.ids[i].find cell with
      | some w =>
        rw [hf] at e1
        simp only [pure_eq_ok, Except.ok.injEq, Prod.mk.injEq, List.append_cancel_left_eq, List.cons.injEq, and_true, true_and] at e1
        obtain ⟨rfl, rfl⟩ := e1
        exact Or.inl ⟨_, rfl, ⟨hR.len, hR.disc, hR.contin, hR.rowsIn, hR.rows⟩, hin1, forall₂_snoc hrow hsame⟩
      | none =>
        rw [hf] at e1
        dsimp only at e1 ⊢
        rw [rd_getElem hi2, ok_bind] at e1
        simp only [pure_eq_ok, Except.ok.injEq, Prod.mk.injEq, List.append_cancel_left_eq, List.cons.injEq, and_true, true_and] at e1
        obtain ⟨rfl, rfl⟩ := e1
        rw [rd_ok g2, ok_bind]
        refine Or.inl ⟨_, rfl, ⟨⟨l1, l2, by simpa using hR.len.2.2.1, by simpa using hR.len.2.2.2⟩, ?_, ?_, hR.rowsIn, hrowsR⟩, hin1,
          forall₂_snoc hrow1 hsame⟩
        · intro j hj hjc
          obtain ⟨k1, k2⟩ := hR.disc j hj hjc
          by_cases hji : i = j
          · subst hji
            simp [hi1, hi2, hi1', hi2']
          · exact ⟨by rw [List.getElem?_set_ne hji, List.getElem?_set_ne hji]; exact k1,
              by rw [List.getElem?_set_ne hji, List.getElem?_set_ne hji]; exact k2⟩
        · intro j hj hjc
          have hji : i ≠ j := fun e => hc (e ▸ hjc)
          rw [List.getElem?_set_ne hji]
          refine ⟨(hR.contin j hj hjc).1, fun m1 hm1 => ?_⟩
          rw [List.getElem?_set_ne hji] at hm1
          exact (hR.contin j hj hjc).2 m1 hm1

/-- The codes only grow. -/
theorem trainCell_grow {strVal : Bool} {parsed : List Str} {p p' : CsvState × List (Int × Int)} {i : Nat} (h : trainCell strVal parsed p i = .ok p') :
    IdsGrow p.1.ids p'.1.ids := by
  unfold trainCell at h
  obtain ⟨cell, _, h⟩ := ok_of_bind h
  cases strVal with
  | false =>
    rw [if_neg (by simp)] at h
    obtain ⟨v, _, h⟩ := ok_of_bind h
    cases h
    exact IdsGrow.refl _
  | true =>
    rw [if_pos rfl] at h
    obtain ⟨m, hm, h⟩ := ok_of_bind h
    cases hf : m.find cell with
    | some v =>
      rw [hf] at h
      cases h
      exact IdsGrow.refl _
    | none =>
      rw [hf] at h
      obtain ⟨c, _, h⟩ := ok_of_bind h
      cases h
      exact idsGrow_set (rd_eq_ok.1 hm)

theorem trainLine_sim {n : Nat} (sample : Str) {st : CsvState} {st' : CsvStateM F} (h : TrainRel stof cont n st st') :
    Sim (TrainRel stof cont n) (fun f st => BadText stof cont n f st.ids) (trainLine n true st sample) (trainLineM stof cont n true st' sample) := by
  unfold trainLine trainLineM
  cases split (trimRight sample) [44] with
  | error e => exact ⟨e, rfl⟩
  | ok parsed =>
    rw [ok_bind, ok_bind]
    have h0 : CellRel stof cont n (st, []) (st', []) := ⟨h, fun x hx => by simp at hx, .nil⟩
    refine (Sim.foldlM (R := CellRel stof cont n) (E := fun f p => BadText stof cont n f p.1.ids)
      (fun i hi p q hpq => trainCell_sim (List.mem_range.1 hi) hpq)
      (fun i _ f p p' hb hp => hb.grow (trainCell_grow hp)) h0).bind ?_ ?_
    · rintro ⟨s, r⟩ ⟨s', r'⟩ ⟨k1, k2, k3⟩
      refine Or.inl ⟨_, rfl, ⟨k1.len, k1.disc, k1.contin, ?_, forall₂_snoc k1.rows k3⟩⟩
      intro row hrow
      rcases List.mem_append.1 hrow with hrow | hrow
      · exact k1.rowsIn row hrow
      · rw [List.mem_singleton.1 hrow]; exact k2
    · rintro f ⟨s, r⟩ s' hb hk
      cases hk
      exact hb

theorem trainLine_grow {n : Nat} {strVal : Bool} {sample : Str} {st st1 : CsvState} (h : trainLine n strVal st sample = .ok st1) :
    IdsGrow st.ids st1.ids := by
  unfold trainLine at h
  obtain ⟨parsed, _, h⟩ := ok_of_bind h
  obtain ⟨⟨s, r⟩, h1, h2⟩ := ok_of_bind h
  cases h2
  have : ∀ (l : List Nat) (p p' : CsvState × List (Int × Int)), l.foldlM (trainCell strVal parsed) p = .ok p' → IdsGrow p.1.ids p'.1.ids := by
    intro l
    induction l with
    | nil => intro p p' h; cases h; exact IdsGrow.refl _
    | cons i l ih =>
      intro p p' h
      rw [List.foldlM_cons] at h
      obtain ⟨p1, e1, e2⟩ := ok_of_bind h
      intro j m hj
      obtain ⟨m1, a1, a2⟩ := trainCell_grow e1 j m hj
      obtain ⟨m2, b1, b2⟩ := ih p1 p' e2 j m1 a1
      exact ⟨m2, b1, fun s v hs => b2 s v (a2 s v hs)⟩
  exact this _ _ _ h1

theorem trainLoop_sim {n : Nat} (fuel : Nat) (sample : Str) (f : InFile) {st : CsvState} {st' : CsvStateM F} (h : TrainRel stof cont n st st') :
    Sim (TrainRel stof cont n) (fun f st => BadText stof cont n f st.ids) (doWhileGetline (trainLine n true) fuel st sample f)
      (doWhileGetline (trainLineM stof cont n true) fuel st' sample f) :=
  Sim.doWhile (fun x _ _ h => trainLine_sim x h) (fun _ _ _ _ hb hs => hb.grow (trainLine_grow hs)) fuel st st' sample f h

theorem trainRel_init {n : Nat} : TrainRel stof cont n ⟨List.replicate n (-1), List.replicate n [], []⟩ ⟨List.replicate n (-1), List.replicate n [], []⟩ := by
  refine ⟨by simp, fun i _ _ => ⟨rfl, rfl⟩, fun i hi _ => ⟨by simp [hi], fun m hm s v hv => ?_⟩, fun row hr => by simp at hr, .nil⟩
  rw [List.getElem?_replicate, if_pos hi] at hm
  cases hm
  simp [ValueMap.find] at hv

/-! ### No continuous variable -/

section
variable {σ τ α : Type}

theorem foldlM_emb (e : σ → τ) {b1 : σ → α → Except Fault σ} {b2 : τ → α → Except Fault τ} (h : ∀ s x, b2 (e s) x = (b1 s x).map e) :
    ∀ (l : List α) (s : σ), l.foldlM b2 (e s) = (l.foldlM b1 s).map e := by
  intro l
  induction l with
  | nil => exact fun _ => rfl
  | cons x l ih =>
    intro s
    rw [List.foldlM_cons, List.foldlM_cons, h]
    cases b1 s x with
    | error f => rfl
    | ok s' => exact ih s'

theorem doWhile_emb (e : σ → τ) {b1 : σ → Str → Except Fault σ} {b2 : τ → Str → Except Fault τ} (h : ∀ s x, b2 (e s) x = (b1 s x).map e) :
    ∀ (fuel : Nat) (s : σ) (x : Str) (f : InFile), doWhileGetline b2 fuel (e s) x f = (doWhileGetline b1 fuel s x f).map e := by
  intro fuel
  induction fuel with
  | zero => exact fun _ _ _ => rfl
  | succ fuel ih =>
    intro s x f
    unfold doWhileGetline
    rw [h]
    cases b1 s x with
    | error f => rfl
    | ok s' =>
      generalize getline f x = r
      obtain ⟨x', f'⟩ := r
      show (if f'.fail then _ else _) = Except.map e (if f'.fail then _ else _)
      split
      · rfl
      · exact ih s' x' f'

theorem whileGetline_emb (e : σ → τ) {b1 : σ → Str → Except Fault σ} {b2 : τ → Str → Except Fault τ} (h : ∀ s x, b2 (e s) x = (b1 s x).map e) :
    ∀ (fuel : Nat) (s : σ) (x : Str) (f : InFile), whileGetline b2 fuel (e s) x f = (whileGetline b1 fuel s x f).map e := by
  intro fuel
  induction fuel with
  | zero => exact fun _ _ _ => rfl
  | succ fuel ih =>
    intro s x f
    unfold whileGetline
    generalize getline f x = r
    obtain ⟨x', f'⟩ := r
    dsimp only
    split
    · rfl
    · rw [h]
      cases b1 s x' with
      | error f => rfl
      | ok s' => exact ih s' x' f'

theorem whileNotEof_emb (e : σ → τ) {b1 : σ → Str → Except Fault σ} {b2 : τ → Str → Except Fault τ} (h : ∀ s x, b2 (e s) x = (b1 s x).map e) :
    ∀ (fuel : Nat) (s : σ) (x : Str) (f : InFile), whileNotEof b2 fuel (e s) x f = (whileNotEof b1 fuel s x f).map e := by
  intro fuel
  induction fuel with
  | zero => exact fun _ _ _ => rfl
  | succ fuel ih =>
    intro s x f
    unfold whileNotEof
    split
    · rfl
    · rw [h]
      cases b1 s x with
      | error f => rfl
      | ok s' =>
        generalize getline f x = r
        obtain ⟨x', f'⟩ := r
        exact ih s' x' f'

end

/-- A row of integers. -/
def embRow (row : List (Int × Int)) : List (Int × MVal F) := row.map (fun p => (p.1, .int p.2))

/-- A purely discrete data set. -/
def embData (D : Dataset) (all cols : Option (List (List Int))) : MDataset F :=
  { numInstance := D.numInstance, numVars := D.numVars, classVar := D.classVar, varNames := D.varNames, valueIds := D.valueIds,
    numValues := D.numValues, allVars := all, columns := cols, rows := D.rows.map embRow }

theorem embRow_snoc (row : List (Int × Int)) (i v : Int) : (embRow (row ++ [(i, v)]) : List (Int × MVal F)) = embRow row ++ [(i, .int v)] := by
  simp [embRow]

theorem intRowM_emb (n : Nat) (row : List (Int × Int)) : intRowM n (embRow row : List (Int × MVal F)) = intRow n row := by
  unfold intRowM intRow embRow
  rw [List.foldlM_map]
  rfl

theorem arrays_emb {D : Dataset} :
    ((embData D none none).arrays [] : Except Fault (MDataset F)) =
      (do let D ← D.vector2IntArray; D.rowMajor2ColumnMajor).map (fun D' => embData D' (some D'.allVars) (some D'.columns)) := by
  have hv : ((embData D none none).vector2IntArray : Except Fault (MDataset F)) =
      D.vector2IntArray.map (fun D' => embData D' (some D'.allVars) none) := by
    unfold MDataset.vector2IntArray Dataset.vector2IntArray
    have : (List.range D.numInstance).mapM (fun s => do intRowM D.numVars (← rd (D.rows.map (embRow (F := F))) s)) =
        (List.range D.numInstance).mapM (fun s => do intRow D.numVars (← rd D.rows s)) := by
      congr 1
      funext s
      unfold rd
      rw [List.getElem?_map]
      cases D.rows[s]? with
      | none => rfl
      | some row => exact intRowM_emb _ _
    show (do let all ← (List.range D.numInstance).mapM (fun s => do intRowM D.numVars (← rd (D.rows.map (embRow (F := F))) s)); _) = _
    rw [this]
    cases (List.range D.numInstance).mapM (fun s => do intRow D.numVars (← rd D.rows s)) <;> rfl
  have hc : ∀ D : Dataset, ((embData D (some D.allVars) none).rowMajor2ColumnMajor : Except Fault (MDataset F)) =
      D.rowMajor2ColumnMajor.map (fun D' => embData D' (some D'.allVars) (some D'.columns)) := by
    intro D
    unfold MDataset.rowMajor2ColumnMajor Dataset.rowMajor2ColumnMajor
    show (do let cols ← (List.range D.numVars).mapM (fun i => (List.range D.numInstance).mapM (fun j => do rd (← rd D.allVars j) i)); _) = _
    cases (List.range D.numVars).mapM (fun i => (List.range D.numInstance).mapM (fun j => do rd (← rd D.allVars j) i)) <;> rfl
  unfold MDataset.arrays
  rw [if_pos rfl, hv]
  cases D.vector2IntArray with
  | error f => rfl
  | ok D1 =>
    show ((embData D1 (some D1.allVars) none).rowMajor2ColumnMajor : Except Fault (MDataset F)) = _
    rw [hc]
    rfl

end FastPGM
