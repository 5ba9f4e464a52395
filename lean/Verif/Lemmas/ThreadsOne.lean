import Verif.Lemmas.ThreadsRace

/-!
Teams of one thread, and the places that threads can access.
-/

namespace FastPGM

variable {L V : Type}

namespace Thread

variable {α β : Type} [DecidableEq L]

/-- The thread runs alone. -/
def run : Thread L V α → Mem L V → Except Fault (α × Mem L V)
  | .ret a, m => .ok (a, m)
  | .fault f, _ => .error f
  | .read l k, m =>
    match m l with
    | some (some v) => (k v).run m
    | _ => .error .ub
  | .write l v k, m =>
    match m l with
    | some _ => k.run (m.put l v)
    | none => .error .ub

theorem run_bind (p : Thread L V α) (f : α → Thread L V β) (m : Mem L V) :
    (p >>= f).run m = (p.run m >>= fun x => (f x.1).run x.2) := by
  show (p.bind f).run m = _
  induction p generalizing m with
  | ret a => rfl
  | fault e => rfl
  | read l k ih =>
    simp only [Thread.bind, run]
    split
    · exact ih _ _
    · rfl
  | write l v k ih =>
    simp only [Thread.bind, run]
    split
    · exact ih _
    · rfl

theorem run_step {p q : Thread L V α} {m m' : Mem L V} (h : p.step m = .ok (q, m')) : q.run m' = p.run m := by
  cases p with
  | ret a => cases h; rfl
  | fault e => cases h
  | read l k =>
    simp only [Thread.step] at h
    simp only [run]
    split at h
    · cases h
      rename_i e
      rw [e]
    · cases h
  | write l v k =>
    simp only [Thread.step] at h
    simp only [run]
    split at h
    · cases h
      rename_i e
      rw [e]
    · cases h

theorem run_step_error {p : Thread L V α} {m : Mem L V} {f : Fault} (h : p.step m = .error f) : p.run m = .error f := by
  cases p with
  | ret a => cases h
  | fault e => cases h; rfl
  | read l k =>
    simp only [Thread.step] at h
    simp only [run]
    split at h
    · cases h
    · cases h
      split
      · rename_i hn _ v e
        exact absurd e (hn v)
      · rfl
  | write l v k =>
    simp only [Thread.step] at h
    simp only [run]
    split at h
    · cases h
    · cases h
      rename_i e
      rw [e]

end Thread

namespace Team

variable [DecidableEq L]

theorem one_step {m : Mem L V} {p : Thread L V Unit} {t : Team L V} (h : Step ⟨m, [p]⟩ t) :
    ∃ q m', t = ⟨m', [q]⟩ ∧ p.step m = .ok (q, m') ∧ ¬ p.done := by
  obtain ⟨i, p1, q, m', hi, hd, hs⟩ := h
  cases i with
  | zero =>
    cases hi
    exact ⟨q, m', rfl, hs, hd⟩
  | succ i => simp at hi

theorem one_reaches {m : Mem L V} {p : Thread L V Unit} {t : Team L V} (h : Reaches ⟨m, [p]⟩ t) :
    ∃ q m', t = ⟨m', [q]⟩ ∧ q.run m' = p.run m := by
  induction h with
  | refl => exact ⟨p, m, rfl, rfl⟩
  | tail _ h ih =>
    obtain ⟨q, m', rfl, e⟩ := ih
    obtain ⟨q1, m1, rfl, hs, -⟩ := one_step h
    exact ⟨q1, m1, rfl, (Thread.run_step hs).trans e⟩

theorem one_ends (p : Thread L V Unit) : ∀ (m : Mem L V) (u : Nat → Team L V), u 0 = ⟨m, [p]⟩ → ¬ ∀ n, Step (u n) (u (n + 1)) := by
  induction p with
  | ret a =>
    intro m u h0 hs
    have := hs 0
    rw [h0] at this
    obtain ⟨q, m', -, -, hd⟩ := one_step this
    exact hd trivial
  | fault e =>
    intro m u h0 hs
    have := hs 0
    rw [h0] at this
    obtain ⟨q, m', -, h, -⟩ := one_step this
    cases h
  | read l k ih =>
    intro m u h0 hs
    have := hs 0
    rw [h0] at this
    obtain ⟨q, m', h1, h, -⟩ := one_step this
    simp only [Thread.step] at h
    split at h
    · cases h
      exact ih _ _ (fun n => u (n + 1)) h1 (fun n => hs (n + 1))
    · cases h
  | write l v k ih =>
    intro m u h0 hs
    have := hs 0
    rw [h0] at this
    obtain ⟨q, m', h1, h, -⟩ := one_step this
    simp only [Thread.step] at h
    split at h
    · cases h
      exact ih _ (fun n => u (n + 1)) h1 (fun n => hs (n + 1))
    · cases h

theorem one_outcome (p : Thread L V Unit) (m : Mem L V) (o : Except Fault (Mem L V)) :
    Outcome ⟨m, [p]⟩ o ↔ o = (p.run m).map Prod.snd := by
  constructor
  · intro h
    cases h with
    | finish t' h hf =>
      obtain ⟨q, m', rfl, e⟩ := one_reaches h
      have hd := hf q (by simp)
      cases q with
      | ret a => rw [← e]; rfl
      | fault e => exact hd.elim
      | read l k => exact hd.elim
      | write l v k => exact hd.elim
    | fault t' h f hf =>
      obtain ⟨q, m', rfl, e⟩ := one_reaches h
      obtain ⟨q', hq, hs⟩ := hf
      simp only [List.mem_singleton] at hq
      subst hq
      rw [← e, Thread.run_step_error hs]
      rfl
    | race t' h hr =>
      obtain ⟨q, m', rfl, e⟩ := one_reaches h
      obtain ⟨i, j, p1, q1, l, w, w', hij, h1, h2, -⟩ := hr
      have hi := (List.getElem?_eq_some_iff.mp h1).1
      have hj := (List.getElem?_eq_some_iff.mp h2).1
      simp only [List.length_singleton] at hi hj
      omega
    | diverge u h0 hs => exact absurd hs (one_ends p m u h0)
  · intro h
    subst h
    have key : ∀ (p : Thread L V Unit) (m : Mem L V), (∃ m', p.run m = .ok ((), m') ∧ Reaches ⟨m, [p]⟩ ⟨m', [.ret ()]⟩) ∨
        ∃ f q m', p.run m = .error f ∧ Reaches ⟨m, [p]⟩ ⟨m', [q]⟩ ∧ q.step m' = .error f := by
      intro p
      induction p with
      | ret a => intro m; exact Or.inl ⟨m, rfl, Relation.ReflTransGen.refl⟩
      | fault e => intro m; exact Or.inr ⟨e, _, m, rfl, Relation.ReflTransGen.refl, rfl⟩
      | read l k ih =>
        intro m
        cases e : m l with
        | none => exact Or.inr ⟨.ub, _, m, by simp only [Thread.run, e], Relation.ReflTransGen.refl, by simp only [Thread.step, e]⟩
        | some x =>
          cases x with
          | none => exact Or.inr ⟨.ub, _, m, by simp only [Thread.run, e], Relation.ReflTransGen.refl, by simp only [Thread.step, e]⟩
          | some v =>
            have hs : Step ⟨m, [Thread.read l k]⟩ ⟨m, [k v]⟩ :=
              Step.mk (t := ⟨m, [Thread.read l k]⟩) 0 _ (k v) m rfl id (by simp only [Thread.step, e])
            rcases ih v m with ⟨m', h1, h2⟩ | ⟨f, q, m', h1, h2, h3⟩
            · exact Or.inl ⟨m', by simp only [Thread.run, e, h1], Relation.ReflTransGen.head hs h2⟩
            · exact Or.inr ⟨f, q, m', by simp only [Thread.run, e, h1], Relation.ReflTransGen.head hs h2, h3⟩
      | write l v k ih =>
        intro m
        cases e : m l with
        | none => exact Or.inr ⟨.ub, _, m, by simp only [Thread.run, e], Relation.ReflTransGen.refl, by simp only [Thread.step, e]⟩
        | some x =>
          have hs : Step ⟨m, [Thread.write l v k]⟩ ⟨m.put l v, [k]⟩ :=
            Step.mk (t := ⟨m, [Thread.write l v k]⟩) 0 _ k (m.put l v) rfl id (by simp only [Thread.step, e])
          rcases ih (m.put l v) with ⟨m', h1, h2⟩ | ⟨f, q, m', h1, h2, h3⟩
          · exact Or.inl ⟨m', by simp only [Thread.run, e, h1], Relation.ReflTransGen.head hs h2⟩
          · exact Or.inr ⟨f, q, m', by simp only [Thread.run, e, h1], Relation.ReflTransGen.head hs h2, h3⟩
    rcases key p m with ⟨m', h1, h2⟩ | ⟨f, q, m', h1, h2, h3⟩
    · rw [h1]
      refine .finish _ h2 ?_
      intro q hq
      simp only [List.mem_singleton] at hq
      subst hq
      trivial
    · rw [h1]
      exact .fault _ h2 f ⟨q, by simp, h3⟩

end Team

/-- A loop with one thread runs its iterations in some order. -/
theorem parFor_one [DecidableEq L] {n : Nat} {body : Nat → Thread L V Unit} {m : Mem L V} {o : Except Fault (Mem L V)} :
    parFor 1 n body m o ↔ ∃ is : List Nat, is.Perm (List.range n) ∧ o = is.foldlM (fun m i => ((body i).run m).map Prod.snd) m := by
  have hseq : ∀ (is : List Nat) (m : Mem L V), ((Thread.seq (is.map body)).run m).map Prod.snd =
      is.foldlM (fun m i => ((body i).run m).map Prod.snd) m := by
    intro is
    induction is with
    | nil => intro m; rfl
    | cons i is ih =>
      intro m
      rw [List.foldlM_cons]
      show (((body i) >>= fun _ => Thread.seq (is.map body)).run m).map Prod.snd = _
      rw [Thread.run_bind]
      cases h : (body i).run m with
      | error e => rfl
      | ok x => exact ih x.2
  constructor
  · rintro ⟨sched, h1, h2, h3⟩
    obtain ⟨is, rfl⟩ := List.length_eq_one_iff.1 h1
    refine ⟨is, by simpa using h2, ?_⟩
    rw [← hseq]
    exact (Team.one_outcome _ _ _).1 h3
  · rintro ⟨is, h1, h2⟩
    refine ⟨[is], rfl, by simpa using h1, ?_⟩
    rw [← hseq] at h2
    exact (Team.one_outcome _ _ _).2 h2

/-! Which places a thread can access. -/

/-- All accesses are to places in `A`. -/
def Thread.Within {α : Type} (A : L → Prop) : Thread L V α → Prop
  | .ret _ => True
  | .fault _ => True
  | .read l k => A l ∧ ∀ v, (k v).Within A
  | .write l _ k => A l ∧ k.Within A

namespace Thread.Within

variable {α β : Type} {A B : L → Prop}

theorem bind {p : Thread L V α} {f : α → Thread L V β} (hp : p.Within A) (hf : ∀ a, (f a).Within A) : (p >>= f).Within A := by
  show (p.bind f).Within A
  induction p with
  | ret a => exact hf a
  | fault e => trivial
  | read l k ih => exact ⟨hp.1, fun v => ih v (hp.2 v)⟩
  | write l v k ih => exact ⟨hp.1, ih hp.2⟩

theorem mono {p : Thread L V α} (hp : p.Within A) (h : ∀ l, A l → B l) : p.Within B := by
  induction p with
  | ret a => trivial
  | fault e => trivial
  | read l k ih => exact ⟨h l hp.1, fun v => ih v (hp.2 v)⟩
  | write l v k ih => exact ⟨h l hp.1, ih hp.2⟩

theorem lift (x : Except Fault α) : (Thread.lift x : Thread L V α).Within A := by
  cases x <;> trivial

theorem store {l : L} {v : V} (h : A l) : (Thread.store l v).Within A := ⟨h, trivial⟩

theorem step [DecidableEq L] {p q : Thread L V α} {m m' : Mem L V} (hp : p.Within A) (h : p.step m = .ok (q, m')) : q.Within A := by
  cases p with
  | ret a => cases h; exact hp
  | fault e => cases h
  | read l k =>
    simp only [Thread.step] at h
    split at h
    · cases h
      exact hp.2 _
    · cases h
  | write l v k =>
    simp only [Thread.step] at h
    split at h
    · cases h
      exact hp.2
    · cases h

theorem next {p : Thread L V α} {l : L} {w : Bool} (hp : p.Within A) (h : p.next = some (l, w)) : A l := by
  cases p with
  | ret a => cases h
  | fault e => cases h
  | read l' k => cases h; exact hp.1
  | write l' v k => cases h; exact hp.1

theorem seq {ps : List (Thread L V Unit)} (h : ∀ p ∈ ps, p.Within A) : (Thread.seq ps).Within A := by
  induction ps with
  | nil => trivial
  | cons p ps ih => exact bind (h p (by simp)) (fun _ => ih (fun q hq => h q (by simp [hq])))

end Thread.Within

/-- A state of a parallel loop that can be reached under some schedule. -/
def LoopState [DecidableEq L] (p n : Nat) (body : Nat → Thread L V Unit) (m : Mem L V) (t : Team L V) : Prop :=
  ∃ sched : List (List Nat), sched.length = p ∧ sched.flatten.Perm (List.range n) ∧
    Team.Reaches ⟨m, sched.map (fun is => Thread.seq (is.map body))⟩ t

/-- Two threads are about to access `l` and one of them writes. -/
def Team.RaceAt (t : Team L V) (l : L) : Prop :=
  ∃ (i j : Nat) (p q : Thread L V Unit) (w w' : Bool), i ≠ j ∧ t.threads[i]? = some p ∧ t.threads[j]? = some q ∧ p.next = some (l, w) ∧
    q.next = some (l, w') ∧ (w = true ∨ w' = true)

theorem within_reaches [DecidableEq L] {A : Nat → L → Prop} {t t' : Team L V} (h : t.Reaches t')
    (h0 : ∀ (i : Nat) (p : Thread L V Unit), t.threads[i]? = some p → p.Within (A i)) :
    ∀ (i : Nat) (p : Thread L V Unit), t'.threads[i]? = some p → p.Within (A i) := by
  induction h with
  | refl => exact h0
  | tail _ h ih =>
    obtain ⟨i, p, q, m', hi, hd, hs⟩ := h
    intro j r hj
    by_cases hij : i = j
    · subst hij
      rw [List.getElem?_set_self (List.getElem?_eq_some_iff.mp hi).1] at hj
      cases hj
      exact (ih i p hi).step hs
    · rw [List.getElem?_set_ne hij] at hj
      exact ih j r hj

/-- Races can only be at places that two iterations access. -/
theorem race_shared [DecidableEq L] {p n : Nat} {body : Nat → Thread L V Unit} {m : Mem L V} {A : Nat → L → Prop}
    (h : ∀ i < n, (body i).Within (A i)) {t : Team L V} (ht : LoopState p n body m t) {l : L} (hr : t.RaceAt l) :
    ∃ i < n, ∃ j < n, i ≠ j ∧ A i l ∧ A j l := by
  obtain ⟨sched, -, hperm, hreach⟩ := ht
  have hmem : ∀ is ∈ sched, ∀ i ∈ is, i < n := fun is his i hi =>
    List.mem_range.1 (hperm.mem_iff.1 (List.mem_flatten.2 ⟨is, his, hi⟩))
  have hnd : sched.flatten.Nodup := hperm.nodup_iff.2 List.nodup_range
  have hw := within_reaches (A := fun k l => ∃ i ∈ sched.getD k [], A i l) hreach (by
    intro k q hk
    simp only [List.getElem?_map, Option.map_eq_some_iff] at hk
    obtain ⟨is, his, rfl⟩ := hk
    refine Thread.Within.seq (fun q hq => ?_)
    obtain ⟨i, hi, rfl⟩ := List.mem_map.1 hq
    refine (h i (hmem is (List.mem_of_getElem? his) i hi)).mono (fun l hl => ⟨i, ?_, hl⟩)
    rw [List.getD_eq_getElem?_getD, his]
    exact hi)
  obtain ⟨a, b, q, r, w, w', hab, ha, hb, hq, hr, -⟩ := hr
  obtain ⟨i, hi, hAi⟩ := (hw a q ha).next hq
  obtain ⟨j, hj, hAj⟩ := (hw b r hb).next hr
  have get : ∀ {k x : Nat}, x ∈ sched.getD k [] → ∃ is, sched[k]? = some is ∧ x ∈ is := by
    intro k x hx
    rw [List.getD_eq_getElem?_getD] at hx
    cases e : sched[k]? with
    | none => rw [e] at hx; cases hx
    | some is => rw [e] at hx; exact ⟨is, rfl, hx⟩
  obtain ⟨is, his, hi⟩ := get hi
  obtain ⟨js, hjs, hj⟩ := get hj
  refine ⟨i, hmem is (List.mem_of_getElem? his) i hi, j, hmem js (List.mem_of_getElem? hjs) j hj, ?_, hAi, hAj⟩
  rintro rfl
  exact nodup_disjoint_of_flatten hnd hab his hjs hi hj

end FastPGM
