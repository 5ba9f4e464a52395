import Verif.Model.GeneratorOwnership
import Verif.Lemmas.Except

/-!
The skeleton phase with generators on the heap does what the one with generators stored in the edges does.
-/

namespace FastPGM

/-- Two outcomes agree: the same fault, or results in relation. -/
def GenRelE {α β : Type} (R : α → β → Prop) : Except Fault α → Except Fault β → Prop
  | .ok a, .ok b => R a b
  | .error e, .error f => e = f
  | _, _ => False

theorem GenRelE.bind {α β γ δ : Type} {R : α → β → Prop} {S : γ → δ → Prop} {x : Except Fault α} {y : Except Fault β} (h : GenRelE R x y)
    {f : α → Except Fault γ} {g : β → Except Fault δ} (hfg : ∀ a b, R a b → GenRelE S (f a) (g b)) : GenRelE S (x >>= f) (y >>= g) := by
  match x, y, h with
  | .ok a, .ok b, h => exact hfg a b h
  | .error _, .error _, h => exact h

theorem GenRelE.same {α : Type} (x : Except Fault α) : GenRelE (fun a b => a = b) x x := by
  cases x <;> exact rfl

theorem GenRelE.bindSame {α γ δ : Type} {S : γ → δ → Prop} (x : Except Fault α) {f : α → Except Fault γ} {g : α → Except Fault δ}
    (hfg : ∀ a, x = .ok a → GenRelE S (f a) (g a)) : GenRelE S (x >>= f) (x >>= g) := by
  cases x with
  | error e => exact rfl
  | ok a => exact hfg a rfl

theorem GenRelE.mono {α β : Type} {R S : α → β → Prop} (hRS : ∀ a b, R a b → S a b) {x : Except Fault α} {y : Except Fault β} (h : GenRelE R x y) :
    GenRelE S x y := by
  match x, y, h with
  | .ok a, .ok b, h => exact hRS a b h
  | .error _, .error _, h => exact h

/-- The edge of the value model: the pointer replaced by the generator. -/
def PtrEdge.abs (p : PtrEdge) (c : Option ChoiceGen) : WorkEdge := ⟨p.x, p.y, p.needRemove, p.process, c, p.vecAdj, p.finish⟩

/-- An edge with its generator on the heap represents an edge of the value model; an edge holds a generator only while it is being processed. -/
def EdgeRep (h : GenHeap) (e : WorkEdge) (p : PtrEdge) : Prop :=
  (∃ g a, e = p.abs (some g) ∧ p.cg = .to a ∧ h.gen a = some g ∧ a < h.next ∧ (p.process = .node1 ∨ p.process = .node2)) ∨
  (e = p.abs none ∧ ∀ a, p.cg ≠ .to a)

theorem testing_rel (ci : CITest) (d g : Nat) (p : PtrEdge) (h : GenHeap) (gen : ChoiceGen) {a : Nat} (hp : p.cg = .to a)
    (hg : h.gen a = some gen) :
    GenRelE (fun r q => ∃ gen' f, r.1 = q.1 ∧ r.2.1 = PtrEdge.abs { p with finish := f } (some gen') ∧ q.2.1 = { p with finish := f } ∧
      q.2.2.1 = h.write p.cg gen' ∧ r.2.2 = q.2.2.2) (testing ci d g (p.abs (some gen))) (testingH ci d g p h) := by
  unfold testing testingH
  have hr : h.read p.cg = .ok gen := by rw [hp]; simp [GenHeap.read, hg]
  rw [hr, ok_bind]
  simp only [PtrEdge.abs]
  refine GenRelE.bindSame _ fun r _ => ?_
  refine GenRelE.bindSame _ fun c0 _ => ?_
  split
  · refine GenRelE.bindSame _ fun sets _ => ?_
    refine GenRelE.bindSame _ fun v _ => ?_
    obtain ⟨ind, first⟩ := v
    simp only
    split
    · cases first with
      | none => exact rfl
      | some k =>
        refine GenRelE.bindSame _ fun c _ => ?_
        refine GenRelE.bindSame _ fun s _ => ?_
        exact ⟨r.2, p.finish, rfl, rfl, rfl, rfl, rfl⟩
    · exact ⟨r.2, _, rfl, rfl, rfl, rfl, rfl⟩
  · exact ⟨r.2, true, rfl, rfl, rfl, rfl, rfl⟩

/-- What one call of `CheckEdge` does to the heap: it touches its own generator only. -/
structure HeapStep (p p' : PtrEdge) (h h' : GenHeap) : Prop where
  next : h.next ≤ h'.next
  frame : ∀ a, a < h.next → p.cg ≠ .to a → h'.gen a = h.gen a
  fresh : ∀ a, h'.next ≤ a → h'.gen a = none
  ptr : ∀ a, p'.cg = .to a → p.cg = .to a ∨ h.next ≤ a
  held : ∀ a, h'.gen a ≠ none → (p.cg = .to a ∨ h.next ≤ a) → p'.cg = .to a

/-- The result of `CheckEdge` in both models. -/
def CheckRel (p : PtrEdge) (h : GenHeap) (r : WorkEdge × Bool × Option (List Nat)) (q : PtrEdge × GenHeap × Bool × Option (List Nat)) : Prop :=
  r.2 = q.2.2 ∧ EdgeRep q.2.1 r.1 q.1 ∧ HeapStep p q.1 h q.2.1 ∧ (q.2.2.1 = false → r.1.cg = none)

theorem write_next (h : GenHeap) (p : PtrVal) (g : ChoiceGen) : (h.write p g).next = h.next := by
  cases p <;> rfl

theorem write_gen (h : GenHeap) (a : Nat) (g : ChoiceGen) (b : Nat) : (h.write (.to a) g).gen b = if b = a then some g else h.gen b := rfl

theorem checkTests_rel (ci : CITest) (d g : Nat) (p : PtrEdge) (h : GenHeap) (gen : ChoiceGen) {a : Nat} (hp : p.cg = .to a)
    (hg : h.gen a = some gen) (ha : a < h.next) (hpr : p.process = .node1 ∨ p.process = .node2) (hf : ∀ b, h.next ≤ b → h.gen b = none) :
    GenRelE (CheckRel p h) (checkTests ci d g (p.abs (some gen))) (checkTestsH ci d g p h) := by
  unfold checkTests checkTestsH
  refine (testing_rel ci d g p h gen hp hg).bind ?_
  rintro ⟨b, e, s⟩ ⟨b', e', h', s'⟩ ⟨gen', f, h1, h2, h3, h4, h5⟩
  simp only at h1 h2 h3 h4 h5
  subst h1 h2 h3 h4 h5
  have hdel : (h.write p.cg gen').safeDelete p.cg =
      .ok (.null, ⟨h.next, fun c => if c = a then none else (h.write p.cg gen').gen c⟩) := by
    rw [hp]
    simp [GenHeap.safeDelete, GenHeap.write]
  -- the generator has been released
  have released : ∀ q : PtrEdge, q.cg = .null →
      HeapStep p q h ⟨h.next, fun c => if c = a then none else (h.write p.cg gen').gen c⟩ := by
    intro q hq
    refine ⟨Nat.le_refl _, ?_, ?_, ?_, ?_⟩
    · intro c hc hne
      rw [hp] at hne
      have hca : c ≠ a := fun h => hne (by rw [h])
      simp only [hp, write_gen, if_neg hca]
    · intro c hc
      have hca : c ≠ a := fun h => by simp only at hc; omega
      simp only [hp, write_gen, if_neg hca]
      exact hf c hc
    · intro c hc
      rw [hq] at hc
      cases hc
    · intro c hc hor
      exfalso
      by_cases hca : c = a
      · simp [hca] at hc
      · simp only [hp, write_gen, if_neg hca] at hc
        rcases hor with hor | hor
        · rw [hp] at hor
          cases hor
          exact hca rfl
        · exact hc (hf c hor)
  simp only
  split
  · rw [hdel, ok_bind]
    exact ⟨rfl, Or.inr ⟨rfl, by simp⟩, released _ rfl, fun _ => rfl⟩
  · split
    · rename_i hfin
      have hfin' : f = false := hfin
      rw [if_pos hfin']
      refine ⟨rfl, Or.inl ⟨gen', a, rfl, hp, ?_, ?_, hpr⟩, ⟨?_, ?_, ?_, ?_, ?_⟩, by simp⟩
      · show (h.write p.cg gen').gen a = some gen'
        rw [hp, write_gen, if_pos rfl]
      · show a < (h.write p.cg gen').next
        rw [write_next]
        exact ha
      · show h.next ≤ (h.write p.cg gen').next
        rw [write_next]
      · intro c hc hne
        rw [hp] at hne
        have hca : c ≠ a := fun h => hne (by rw [h])
        show (h.write p.cg gen').gen c = _
        rw [hp, write_gen, if_neg hca]
      · intro c hc
        have hc : (h.write p.cg gen').next ≤ c := hc
        rw [write_next] at hc
        show (h.write p.cg gen').gen c = _
        rw [hp, write_gen, if_neg (by omega)]
        exact hf c hc
      · exact fun c hc => Or.inl hc
      · intro c hc hor
        rcases hor with hor | hor
        · exact hor
        · exfalso
          have hc : (h.write p.cg gen').gen c ≠ none := hc
          rw [hp, write_gen, if_neg (by omega)] at hc
          exact hc (hf c hor)
    · rename_i hfin
      have hfin' : f ≠ false := hfin
      rw [if_neg hfin']
      by_cases hn : p.process = .node1
      · rw [if_pos (show (PtrEdge.abs { p with finish := f } (some gen')).process = .node1 from hn),
          if_pos (show ({ p with finish := f } : PtrEdge).process = .node1 from hn), hdel, ok_bind]
        exact ⟨rfl, Or.inr ⟨rfl, by simp⟩, released _ rfl, by simp⟩
      · rw [if_neg (show (PtrEdge.abs { p with finish := f } (some gen')).process ≠ .node1 from hn),
          if_neg (show ({ p with finish := f } : PtrEdge).process ≠ .node1 from hn), hdel, ok_bind]
        exact ⟨rfl, Or.inr ⟨rfl, by simp⟩, released _ rfl, fun _ => rfl⟩

theorem checkTestsP_no_ptr (ci : CITest) (d g : Nat) (p : PtrEdge) (h : GenHeap) (hp : ∀ a, p.cg ≠ .to a) :
    checkTestsH ci d g p h = .error .ub := by
  unfold checkTestsH testingH
  have hr : h.read p.cg = .error .ub := by
    match hc : p.cg with
    | .indeterminate => rfl
    | .null => rfl
    | .to a => exact absurd hc (hp a)
  rw [hr]
  rfl

/-- A generator is allocated for an edge that holds none. -/
theorem checkTests_new (ci : CITest) (d g : Nat) (p : PtrEdge) (h : GenHeap) (hf : ∀ b, h.next ≤ b → h.gen b = none) (gen : ChoiceGen)
    (hp : ∀ a, p.cg ≠ .to a) (adj : List Nat) (pr : Process) (hpr : pr = .node1 ∨ pr = .node2) :
    GenRelE (CheckRel p h) (checkTests ci d g (PtrEdge.abs { p with vecAdj := adj, process := pr } (some gen)))
      (checkTestsH ci d g { p with vecAdj := adj, cg := (h.new gen).1, process := pr } (h.new gen).2) := by
  have hrel := checkTests_rel ci d g { p with vecAdj := adj, cg := (h.new gen).1, process := pr } (h.new gen).2 gen (a := h.next) rfl
    (by simp [GenHeap.new]) (by simp [GenHeap.new]) hpr (by
      intro b hb
      have hb : h.next + 1 ≤ b := hb
      show (if b = h.next then some gen else h.gen b) = none
      rw [if_neg (by omega)]
      exact hf b (by omega))
  refine GenRelE.mono ?_ hrel
  rintro r q ⟨h1, h2, h3, h4⟩
  refine ⟨h1, h2, ⟨?_, ?_, h3.fresh, ?_, ?_⟩, h4⟩
  · exact Nat.le_trans (Nat.le_succ _) h3.next
  · intro a ha hne
    have hno : PtrVal.to h.next ≠ .to a := fun h' => by cases h'; omega
    rw [h3.frame a (Nat.lt_succ_of_lt ha) hno]
    show (if a = h.next then some gen else h.gen a) = h.gen a
    rw [if_neg (by omega)]
  · intro a ha
    rcases h3.ptr a ha with h' | h'
    · right
      have h' : PtrVal.to h.next = .to a := h'
      cases h'
      exact Nat.le_refl _
    · right
      exact Nat.le_trans (Nat.le_succ _) h'
  · intro a ha hor
    rcases hor with hor | hor
    · exact absurd hor (hp a)
    · refine h3.held a ha ?_
      by_cases he : a = h.next
      · left
        rw [he]
        rfl
      · right
        show h.next + 1 ≤ a
        omega

theorem checkEdge_rel (ci : CITest) (adj : List (List Nat)) (d g : Nat) (e : WorkEdge) (p : PtrEdge) (h : GenHeap)
    (hr : EdgeRep h e p) (hf : ∀ b, h.next ≤ b → h.gen b = none) :
    GenRelE (CheckRel p h) (checkEdge ci adj d g e) (checkEdgeH ci adj d g p h) := by
  -- an edge that is left alone
  have idle : ∀ (a : List Nat), (∀ b, p.cg ≠ .to b) →
      CheckRel p h (PtrEdge.abs { p with vecAdj := a, needRemove := false } none, false, none)
        ({ p with vecAdj := a, needRemove := false }, h, false, none) := by
    intro a hno
    exact ⟨rfl, Or.inr ⟨rfl, hno⟩, ⟨Nat.le_refl _, fun _ _ _ => rfl, hf, fun _ h => Or.inl h,
      fun b hb hor => hor.elim id fun hn => absurd (hf b hn) hb⟩, fun _ => rfl⟩
  rcases hr with ⟨gen, a, rfl, hp, hg, ha, hpr⟩ | ⟨rfl, hno⟩
  · have hrel := checkTests_rel ci d g p h gen hp hg ha hpr hf
    unfold checkEdge checkEdgeH
    simp only [PtrEdge.abs] at hrel ⊢
    rcases hpr with hpr | hpr <;> simp only [hpr] at hrel ⊢ <;> exact hrel
  · unfold checkEdge checkEdgeH
    simp only [PtrEdge.abs]
    match hpr : p.process with
    | .no =>
      simp only
      refine GenRelE.bindSame _ fun a _ => ?_
      split
      · refine GenRelE.bindSame _ fun gen _ => ?_
        exact checkTests_new ci d g p h hf gen hno a .node1 (Or.inl rfl)
      · refine GenRelE.bindSame _ fun a' _ => ?_
        split
        · refine GenRelE.bindSame _ fun gen _ => ?_
          exact checkTests_new ci d g p h hf gen hno a' .node2 (Or.inr rfl)
        · have := idle a' hno
          simp only [PtrEdge.abs, hpr] at this
          exact this
    | .enode1 =>
      simp only
      refine GenRelE.bindSame _ fun a _ => ?_
      split
      · refine GenRelE.bindSame _ fun gen _ => ?_
        exact checkTests_new ci d g p h hf gen hno a .node2 (Or.inr rfl)
      · have := idle a hno
        simp only [PtrEdge.abs, hpr] at this
        exact this
    | .node1 =>
      simp only
      rw [checkTestsP_no_ptr ci d g p h hno]
      exact rfl
    | .node2 =>
      simp only
      rw [checkTestsP_no_ptr ci d g p h hno]
      exact rfl

/-- The edges and the heap represent the edges of the value model: every live generator is held by exactly one edge. -/
structure StRep (es : List WorkEdge) (ps : List PtrEdge) (h : GenHeap) : Prop where
  len : es.length = ps.length
  rep : ∀ (i : Nat) e p, es[i]? = some e → ps[i]? = some p → EdgeRep h e p
  inj : ∀ (i j : Nat) p q a, ps[i]? = some p → ps[j]? = some q → p.cg = .to a → q.cg = .to a → i = j
  held : ∀ a, h.gen a ≠ none → ∃ (i : Nat) (p : PtrEdge), ps[i]? = some p ∧ p.cg = .to a
  fresh : ∀ a, h.next ≤ a → h.gen a = none

/-- The states of one level in both models. -/
def GenStateRel (st : LevelState) (pst : PtrLevelState) : Prop := StRep st.edges pst.edges pst.heap ∧ st.sep = pst.sep

theorem StRep.step {es : List WorkEdge} {ps : List PtrEdge} {h h' : GenHeap} (hs : StRep es ps h) {id : Nat} {p p' : PtrEdge} {e' : WorkEdge}
    (hp : ps[id]? = some p) (hr : EdgeRep h' e' p') (hh : HeapStep p p' h h') : StRep (es.set id e') (ps.set id p') h' := by
  have hlt : id < ps.length := (List.getElem?_eq_some_iff.1 hp).1
  have hlt' : id < es.length := by rw [hs.len]; exact hlt
  have other : ∀ (j : Nat) q, j ≠ id → (ps.set id p')[j]? = some q → ps[j]? = some q := by
    intro j q hj hq
    rwa [List.getElem?_set_ne (Ne.symm hj)] at hq
  have own : ∀ q, (ps.set id p')[id]? = some q → q = p' := by
    intro q hq
    rw [List.getElem?_set_self hlt] at hq
    exact (Option.some.inj hq).symm
  -- pointers are to used addresses
  have small : ∀ (j : Nat) q a, ps[j]? = some q → q.cg = .to a → a < h.next := by
    intro j q a hq ha
    have hj : j < es.length := by rw [hs.len]; exact (List.getElem?_eq_some_iff.1 hq).1
    rcases hs.rep j es[j] q (List.getElem?_eq_getElem hj) hq with ⟨g, b, _, hb, _, hlt, _⟩ | ⟨_, hno⟩
    · rw [ha] at hb
      cases hb
      exact hlt
    · exact absurd ha (hno a)
  have mixed : ∀ (j : Nat) q a, j ≠ id → ps[j]? = some q → q.cg = .to a → p'.cg ≠ .to a := by
    intro j q a hj hq ha hp'
    rcases hh.ptr a hp' with hb | hb
    · exact hj (hs.inj j id q p a hq hp ha hb)
    · have := small j q a hq ha
      omega
  refine ⟨by rw [List.length_set, List.length_set, hs.len], ?_, ?_, ?_, hh.fresh⟩
  · intro j e q he hq
    by_cases hj : j = id
    · subst hj
      rw [own q hq]
      rw [List.getElem?_set_self hlt'] at he
      rw [← Option.some.inj he]
      exact hr
    · have hq' := other j q hj hq
      rw [List.getElem?_set_ne (Ne.symm hj)] at he
      rcases hs.rep j e q he hq' with ⟨g, a, h1, h2, h3, h4, h5⟩ | h1
      · refine Or.inl ⟨g, a, h1, h2, ?_, Nat.lt_of_lt_of_le h4 hh.next, h5⟩
        rw [hh.frame a h4 (fun hpa => hj (hs.inj j id q p a hq' hp h2 hpa))]
        exact h3
      · exact Or.inr h1
  · intro i j q r a hq hr' hqa hra
    by_cases hi : i = id <;> by_cases hj : j = id
    · rw [hi, hj]
    · subst hi
      rw [own q hq] at hqa
      exact absurd hqa (mixed j r a hj (other j r hj hr') hra)
    · subst hj
      rw [own r hr'] at hra
      exact absurd hra (mixed i q a hi (other i q hi hq) hqa)
    · exact hs.inj i j q r a (other i q hi hq) (other j r hj hr') hqa hra
  · intro a ha
    by_cases hpa : p.cg = .to a ∨ h.next ≤ a
    · exact ⟨id, p', List.getElem?_set_self hlt, hh.held a ha hpa⟩
    · have hpa' : p.cg ≠ .to a ∧ ¬ h.next ≤ a := not_or.1 hpa
      rw [hh.frame a (by omega) hpa'.1] at ha
      obtain ⟨j, q, hq, hqa⟩ := hs.held a ha
      have hj : j ≠ id := fun hj => by
        subst hj
        rw [hp] at hq
        cases hq
        exact hpa'.1 hqa
      exact ⟨j, q, by rw [List.getElem?_set_ne (Ne.symm hj)]; exact hq, hqa⟩

theorem rd_out {α : Type} {l : List α} {i : Nat} (h : l.length ≤ i) : rd l i = .error .ub := by
  simp [rd, List.getElem?_eq_none h]

theorem levelStep_rel (ci : CITest) (adj : List (List Nat)) (d g : Nat) (st : LevelState) (pst : PtrLevelState) (hs : GenStateRel st pst)
    (id : Nat) :
    GenRelE (fun r q => GenStateRel r.1 q.1 ∧ r.2 = q.2 ∧ (∀ j, j ≠ id → r.1.edges[j]? = st.edges[j]?) ∧
      (r.2 = false → ∀ e, r.1.edges[id]? = some e → e.cg = none)) (levelStep ci adj d g st id) (levelStepH ci adj d g pst id) := by
  unfold levelStep levelStepH
  by_cases hlt : id < st.edges.length
  · have hlt' : id < pst.edges.length := by rw [← hs.1.len]; exact hlt
    rw [rd_getElem hlt, rd_getElem hlt', ok_bind, ok_bind]
    have hrep := hs.1.rep id _ _ (List.getElem?_eq_getElem hlt) (List.getElem?_eq_getElem hlt')
    refine (checkEdge_rel ci adj d g _ _ _ hrep hs.1.fresh).bind ?_
    rintro ⟨e', push, s⟩ ⟨p', h', push', s'⟩ ⟨h1, h2, h3, h4⟩
    simp only [Prod.mk.injEq] at h1
    obtain ⟨rfl, rfl⟩ := h1
    simp only at h2 h3 h4 ⊢
    rw [wr_ok hlt, wr_ok hlt', ok_bind, ok_bind]
    have hrep' := hs.1.step (List.getElem?_eq_getElem hlt') h2 h3
    have hxy : st.edges[id].x = pst.edges[id].x ∧ st.edges[id].y = pst.edges[id].y := by
      rcases hrep with ⟨_, _, he, _⟩ | ⟨he, _⟩ <;> rw [he] <;> exact ⟨rfl, rfl⟩
    have hown : push = false → ∀ e, (st.edges.set id e')[id]? = some e → e.cg = none := by
      intro hpush e he
      rw [List.getElem?_set_self hlt] at he
      rw [← Option.some.inj he]
      exact h4 hpush
    cases s with
    | none => exact ⟨⟨hrep', hs.2⟩, rfl, fun j hj => List.getElem?_set_ne (Ne.symm hj), hown⟩
    | some s =>
      refine ⟨⟨hrep', ?_⟩, rfl, fun j hj => List.getElem?_set_ne (Ne.symm hj), hown⟩
      simp only
      rw [hxy.1, hxy.2, hs.2]
  · rw [rd_out (by omega), rd_out (by rw [← hs.1.len]; omega)]
    exact rfl

/-- The iterations of a parallel loop over different edges; an edge that is not pushed back holds no generator. -/
theorem levelBatch_rel (ci : CITest) (adj : List (List Nat)) (d g : Nat) (order : List Nat) (hn : order.Nodup) (st : LevelState)
    (pst : PtrLevelState) (hs : GenStateRel st pst) (l : List Nat) (hl : ∀ j ∈ order, j ∉ l) :
    GenRelE (fun r q => GenStateRel r.1 q.1 ∧ r.2 = q.2 ∧ (∀ j, j ∉ order → r.1.edges[j]? = st.edges[j]?) ∧ (∀ j, j ∈ l → j ∈ r.2) ∧
      (∀ j, j ∈ r.2 → j ∈ l ∨ j ∈ order) ∧ (∀ j ∈ order, j ∉ r.2 → ∀ e, r.1.edges[j]? = some e → e.cg = none))
      (order.foldlM (fun (acc : LevelState × List Nat) id => do
        let (st, push) ← levelStep ci adj d g acc.1 id
        return (st, if push then id :: acc.2 else acc.2)) (st, l))
      (order.foldlM (fun (acc : PtrLevelState × List Nat) id => do
        let (st, push) ← levelStepH ci adj d g acc.1 id
        return (st, if push then id :: acc.2 else acc.2)) (pst, l)) := by
  induction order generalizing st pst l with
  | nil =>
    rw [List.foldlM_nil, List.foldlM_nil]
    exact ⟨hs, rfl, fun _ _ => rfl, fun _ h => h, fun _ h => Or.inl h, by simp⟩
  | cons id order ih =>
    rw [List.nodup_cons] at hn
    rw [List.foldlM_cons, List.foldlM_cons]
    refine GenRelE.bind (R := fun r q => GenStateRel r.1 q.1 ∧ r.2 = q.2 ∧ (∀ j, j ≠ id → r.1.edges[j]? = st.edges[j]?) ∧
      (r.2 = l ∨ r.2 = id :: l) ∧ (r.2 = l → ∀ e, r.1.edges[id]? = some e → e.cg = none)) ?_ ?_
    · refine (levelStep_rel ci adj d g st pst hs id).bind ?_
      rintro ⟨r, push⟩ ⟨q, push'⟩ ⟨h1, h2, h3, h4⟩
      simp only at h1 h2 h3 h4
      subst h2
      refine ⟨h1, rfl, h3, ?_, ?_⟩
      · cases push
        · exact Or.inl rfl
        · exact Or.inr rfl
      · cases push
        · exact fun _ => h4 rfl
        · intro he
          have := congrArg List.length he
          simp at this
    · rintro ⟨r, l1⟩ ⟨q, l2⟩ ⟨h1, h2, h3, h4, h5⟩
      simp only at h1 h2 h3 h4 h5
      subst h2
      have hidl : id ∉ l := hl id (by simp)
      have hl1 : ∀ j ∈ order, j ∉ l1 := by
        intro j hj hjl
        rcases h4 with rfl | rfl
        · exact hl j (by simp [hj]) hjl
        · rcases List.mem_cons.1 hjl with rfl | hjl
          · exact hn.1 hj
          · exact hl j (by simp [hj]) hjl
      refine GenRelE.mono ?_ (ih hn.2 r q h1 l1 hl1)
      rintro ⟨r', m⟩ ⟨q', m'⟩ ⟨k1, k2, k3, k4, k5, k6⟩
      simp only at k1 k2 k3 k4 k5 k6
      refine ⟨k1, k2, ?_, ?_, ?_, ?_⟩
      · intro j hj
        rw [List.mem_cons, not_or] at hj
        rw [k3 j hj.2, h3 j hj.1]
      · intro j hj
        refine k4 j ?_
        rcases h4 with rfl | rfl
        · exact hj
        · exact List.mem_cons_of_mem _ hj
      · intro j hj
        rcases k5 j hj with hj | hj
        · rcases h4 with rfl | rfl
          · exact Or.inl hj
          · rcases List.mem_cons.1 hj with rfl | hj
            · exact Or.inr (by simp)
            · exact Or.inl hj
        · exact Or.inr (by simp [hj])
      · intro j hj hjm e he
        rcases List.mem_cons.1 hj with rfl | hj
        · rw [k3 j hn.1] at he
          refine h5 ?_ e he
          rcases h4 with h | h
          · exact h
          · exact absurd (k4 j (by rw [h]; simp)) hjm
        · exact k6 j hj hjm e he

/-- At the end of a level no edge holds a generator. -/
theorem levelLoop_rel (ci : CITest) (adj : List (List Nat)) (d g cap : Nat) (sched : Schedule) (hsched : ∀ r l, (sched r l).Perm l)
    (fuel : Nat) (st : LevelState) (pst : PtrLevelState) (hs : GenStateRel st pst) (stack : List Nat) (hn : stack.Nodup)
    (hidle : ∀ (j : Nat) e, j ∉ stack → st.edges[j]? = some e → e.cg = none) :
    GenRelE (fun r q => GenStateRel r q ∧ ∀ (j : Nat) e, r.edges[j]? = some e → e.cg = none)
      (levelLoop ci adj d g cap sched fuel st stack) (levelLoopH ci adj d g cap sched fuel pst stack) := by
  induction fuel generalizing st pst stack with
  | zero =>
    cases stack with
    | nil => exact ⟨hs, fun j e => hidle j e (by simp)⟩
    | cons _ _ => exact rfl
  | succ fuel ih =>
    cases stack with
    | nil => exact ⟨hs, fun j e => hidle j e (by simp)⟩
    | cons id stack =>
      unfold levelLoop levelLoopH
      generalize hst : id :: stack = stk at hn hidle ⊢
      simp only
      have hbn : (stk.take cap).Nodup := hn.sublist (List.take_sublist _ _)
      have hp := hsched fuel (stk.take cap)
      refine (levelBatch_rel ci adj d g _ (hp.nodup_iff.2 hbn) st pst hs [] (by simp)).bind ?_
      rintro ⟨r, l⟩ ⟨q, l'⟩ ⟨h1, h2, h3, _, _, h6⟩
      simp only at h1 h2 h3 h6
      subst h2
      refine ih r q h1 _ ?_ ?_
      · have hsub : ((stk.take cap).filter (fun i => decide (i ∈ l)) ++ stk.drop cap).Sublist stk := by
          conv => rhs; rw [← List.take_append_drop cap stk]
          exact List.Sublist.append (List.filter_sublist) (List.Sublist.refl _)
        exact hn.sublist hsub
      · intro j e hj he
        rw [List.mem_append, not_or] at hj
        by_cases hjb : j ∈ stk.take cap
        · refine h6 j (hp.mem_iff.2 hjb) (fun hjl => hj.1 ?_) e he
          rw [List.mem_filter]
          exact ⟨hjb, by simpa using hjl⟩
        · rw [h3 j (fun h => hjb (hp.mem_iff.1 h))] at he
          refine hidle j e (fun hjs => ?_) he
          rw [← List.take_append_drop cap stk, List.mem_append] at hjs
          exact hjs.elim hjb hj.2

/-- Between the levels: no generator is live and no edge has a pointer to one. -/
structure Clean (es : List WorkEdge) (ps : List PtrEdge) (h : GenHeap) : Prop where
  edges : es = ps.map (fun p => p.abs none)
  ptr : ∀ p ∈ ps, ∀ a, p.cg ≠ .to a
  heap : ∀ a, h.gen a = none

theorem Clean.rep {es : List WorkEdge} {ps : List PtrEdge} {h : GenHeap} (hc : Clean es ps h) : StRep es ps h := by
  refine ⟨by rw [hc.edges, List.length_map], ?_, ?_, fun a ha => absurd (hc.heap a) ha, fun a _ => hc.heap a⟩
  · intro i e p he hp
    rw [hc.edges, List.getElem?_map, hp] at he
    exact Or.inr ⟨(Option.some.inj he).symm, hc.ptr p (List.mem_of_getElem? hp)⟩
  · intro i j p q a hp _ ha
    exact absurd ha (hc.ptr p (List.mem_of_getElem? hp) a)

theorem StRep.clean {es : List WorkEdge} {ps : List PtrEdge} {h : GenHeap} (hs : StRep es ps h)
    (hi : ∀ (j : Nat) e, es[j]? = some e → e.cg = none) : Clean es ps h := by
  have key : ∀ (j : Nat) p, ps[j]? = some p → ∃ e, es[j]? = some e ∧ e = p.abs none ∧ ∀ a, p.cg ≠ .to a := by
    intro j p hp
    have hj : j < es.length := by rw [hs.len]; exact (List.getElem?_eq_some_iff.1 hp).1
    refine ⟨es[j], List.getElem?_eq_getElem hj, ?_⟩
    rcases hs.rep j _ p (List.getElem?_eq_getElem hj) hp with ⟨g, a, he, _⟩ | h
    · have := hi j _ (List.getElem?_eq_getElem hj)
      rw [he] at this
      cases this
    · exact h
  refine ⟨?_, ?_, ?_⟩
  · refine List.ext_getElem (by rw [List.length_map, hs.len]) fun j h1 h2 => ?_
    rw [List.length_map] at h2
    obtain ⟨e, he, hep, _⟩ := key j _ (List.getElem?_eq_getElem h2)
    rw [List.getElem?_eq_getElem h1] at he
    rw [List.getElem_map, ← hep]
    exact Option.some.inj he
  · intro p hp a
    obtain ⟨j, hj, rfl⟩ := List.mem_iff_getElem.1 hp
    obtain ⟨_, _, _, h⟩ := key j _ (List.getElem?_eq_getElem hj)
    exact h a
  · intro a
    by_contra ha
    obtain ⟨j, p, hp, hpa⟩ := hs.held a ha
    obtain ⟨_, _, _, h⟩ := key j p hp
    exact h a hpa

theorem removeMarked_rel (ps : List PtrEdge) (adj : List (List Nat)) :
    GenRelE (fun r q => r.1 = q.1.map (fun p => p.abs none) ∧ r.2 = q.2 ∧ ∀ p ∈ q.1, p ∈ ps)
      (removeMarked (ps.map (fun p => p.abs none)) adj) (removeMarkedH ps adj) := by
  induction ps generalizing adj with
  | nil => exact ⟨rfl, rfl, fun _ h => h⟩
  | cons p ps ih =>
    rw [List.map_cons]
    unfold removeMarked removeMarkedH
    by_cases hrm : p.needRemove = true
    · rw [if_pos (show (p.abs none).needRemove = true from hrm), if_pos hrm]
      refine GenRelE.bindSame _ fun adj1 _ => ?_
      refine GenRelE.bindSame _ fun adj2 _ => ?_
      exact GenRelE.mono (fun r q h => ⟨h.1, h.2.1, fun p hp => List.mem_cons_of_mem _ (h.2.2 p hp)⟩) (ih adj2)
    · rw [if_neg (show ¬ (p.abs none).needRemove = true from hrm), if_neg hrm]
      refine (ih adj).bind ?_
      rintro ⟨es, a⟩ ⟨qs, b⟩ ⟨h1, h2, h3⟩
      simp only at h1 h2 h3
      subst h1 h2
      refine ⟨rfl, rfl, fun q hq => ?_⟩
      rcases List.mem_cons.1 hq with rfl | hq
      · simp
      · exact List.mem_cons_of_mem _ (h3 q hq)

/-- The skeletons of both models between the levels. -/
def SkelRel (k : Skeleton) (q : PtrSkeleton) : Prop := Clean k.edges q.edges q.heap ∧ k.adj = q.adj ∧ k.sep = q.sep

theorem searchAtDepth_rel (ci : CITest) (d g cap : Nat) (sched : Schedule) (hsched : ∀ r l, (sched r l).Perm l) (fuel : Nat) (k : Skeleton)
    (q : PtrSkeleton) (hk : SkelRel k q) :
    GenRelE (fun r s => SkelRel r.1 s.1 ∧ r.2 = s.2) (searchAtDepth ci d g cap sched fuel k) (searchAtDepthH ci d g cap sched fuel q) := by
  obtain ⟨hc, ha, hs⟩ := hk
  unfold searchAtDepth searchAtDepthH
  simp only
  have hc' : Clean (k.edges.map (fun e => { e with process := .no })) (q.edges.map (fun e => { e with process := .no })) q.heap := by
    refine ⟨?_, ?_, hc.heap⟩
    · rw [hc.edges, List.map_map, List.map_map]
      rfl
    · intro p hp a
      obtain ⟨p', hp', rfl⟩ := List.mem_map.1 hp
      exact hc.ptr p' hp' a
  have hlen : (k.edges.map (fun e => { e with process := Process.no })).length = (q.edges.map (fun e => { e with process := Process.no })).length :=
    hc'.rep.len
  rw [hlen, ha]
  refine (levelLoop_rel ci q.adj d g cap sched hsched fuel ⟨k.edges.map (fun e => { e with process := .no }), k.sep⟩ ⟨q.edges.map (fun e => { e with process := .no }), q.sep, q.heap⟩
    ⟨hc'.rep, hs⟩ _ List.nodup_range ?_).bind ?_
  · intro j e _ he
    rw [hc'.edges] at he
    rw [List.getElem?_map, Option.map_eq_some_iff] at he
    obtain ⟨p, _, rfl⟩ := he
    rfl
  · rintro r s ⟨⟨h1, h2⟩, h3⟩
    have hcl := h1.clean h3
    rw [hcl.edges]
    refine (removeMarked_rel s.edges q.adj).bind ?_
    rintro ⟨es, a⟩ ⟨qs, b⟩ ⟨k1, k2, k3⟩
    simp only at k1 k2 k3
    subst k2
    exact ⟨⟨⟨k1, fun p hp => hcl.ptr p (k3 p hp), hcl.heap⟩, rfl, h2⟩, rfl⟩

theorem levels_rel (ci : CITest) (g cap : Nat) (sched : Nat → Schedule) (hsched : ∀ d r l, (sched d r l).Perm l) (fuel d count : Nat)
    (k : Skeleton) (q : PtrSkeleton) (hk : SkelRel k q) :
    GenRelE SkelRel (levels ci g cap sched fuel d count k) (levelsH ci g cap sched fuel d count q) := by
  induction count generalizing d k q with
  | zero => exact hk
  | succ count ih =>
    unfold levels levelsH
    refine (searchAtDepth_rel ci d g cap (sched d) (hsched d) fuel k q hk).bind ?_
    rintro ⟨k', m⟩ ⟨q', m'⟩ ⟨h1, h2⟩
    simp only at h1 h2
    subst h2
    simp only
    split
    · exact ih (d + 1) k' q' h1
    · exact h1

theorem level0_rel (ci : CITest) (n : Nat) (order : List Nat) : GenRelE SkelRel (level0 ci n order) (level0H ci n order) := by
  unfold level0 level0H
  refine GenRelE.bindSame _ fun slots _ => ?_
  have hm : GenRelE (fun (es : List WorkEdge) (ps : List PtrEdge) => Clean es ps {})
      (slots.mapM (fun s => match s with
        | some e => .ok { x := e.node1, y := e.node2 : WorkEdge }
        | none => .error .ub))
      (slots.mapM (fun s => match s with
        | some e => .ok { x := e.node1, y := e.node2 : PtrEdge }
        | none => .error .ub)) := by
    clear * -
    induction slots with
    | nil => exact ⟨rfl, by simp, fun _ => rfl⟩
    | cons s slots ih =>
      rw [List.mapM_cons, List.mapM_cons]
      cases s with
      | none => exact rfl
      | some e =>
        rw [ok_bind, ok_bind]
        refine ih.bind ?_
        rintro es ps h
        refine ⟨by rw [h.edges]; rfl, ?_, h.heap⟩
        intro p hp a
        rcases List.mem_cons.1 hp with rfl | hp
        · simp
        · exact h.ptr p hp a
  refine hm.bind ?_
  intro es ps hc
  have hfold : ∀ (order : List Nat) (st : LevelState) (pst : PtrLevelState), Clean st.edges pst.edges pst.heap ∧ st.sep = pst.sep →
      GenRelE (fun st pst => Clean st.edges pst.edges pst.heap ∧ st.sep = pst.sep) (order.foldlM (level0Step ci) st)
        (order.foldlM (level0StepH ci) pst) := by
    intro order
    induction order with
    | nil => exact fun st pst h => h
    | cons i order ih =>
      intro st pst h
      rw [List.foldlM_cons, List.foldlM_cons]
      refine GenRelE.bind (R := fun st pst => Clean st.edges pst.edges pst.heap ∧ st.sep = pst.sep) ?_ ih
      unfold level0Step level0StepH
      have hlen := h.1.rep.len
      by_cases hlt : i < st.edges.length
      · have hlt' : i < pst.edges.length := by rw [← hlen]; exact hlt
        rw [rd_getElem hlt, rd_getElem hlt', ok_bind, ok_bind]
        have he : st.edges[i] = pst.edges[i].abs none := by
          have : st.edges[i]? = (pst.edges.map (fun p => p.abs none))[i]? := by rw [← h.1.edges]
          rw [List.getElem?_eq_getElem hlt, List.getElem?_map, List.getElem?_eq_getElem hlt'] at this
          exact Option.some.inj this
        rw [he]
        simp only [PtrEdge.abs]
        refine GenRelE.bindSame _ fun v _ => ?_
        split
        · rw [wr_ok hlt, wr_ok hlt', ok_bind, ok_bind]
          refine ⟨⟨?_, ?_, h.1.heap⟩, by rw [h.2]⟩
          · rw [List.map_set, ← h.1.edges]
            rfl
          · intro p hp a
            rcases List.mem_or_eq_of_mem_set hp with hp | rfl
            · exact h.1.ptr p hp a
            · exact h.1.ptr _ (List.getElem_mem hlt') a
        · exact h
      · rw [rd_out (by omega), rd_out (by omega)]
        exact rfl
  refine (hfold order ⟨es, fun _ _ => none⟩ ⟨ps, fun _ _ => none, {}⟩ ⟨hc, rfl⟩).bind ?_
  intro st pst h
  rw [h.1.edges]
  refine (removeMarked_rel pst.edges (fullAdjacency n)).bind ?_
  rintro ⟨es', a⟩ ⟨qs, b⟩ ⟨k1, k2, k3⟩
  simp only at k1 k2 k3
  subst k2
  exact ⟨⟨k1, fun p hp => h.1.ptr p (k3 p hp), h.1.heap⟩, rfl, h.2⟩

end FastPGM
