import Verif.Lemmas.SkeletonThreads2

/-!
The skeleton phase with one thread has an outcome, with two or more it has a data race; where the races are.
-/

namespace FastPGM

variable {ci : CITest} {adj : List (List Nat)} {d g cap : Nat}

theorem Par.lift_some {α : Type} (x : Except Fault α) : ∃ o, Par.lift x o := ⟨x, rfl⟩

theorem Par.bind_some {α β : Type} {s : Par α} {f : α → Par β} (hs : ∃ o, s o) (hf : ∀ a, ∃ o, f a o) : ∃ o, (s >>= f) o := by
  obtain ⟨o, ho⟩ := hs
  cases o with
  | error e => exact ⟨.error e, Or.inl ⟨e, ho, rfl⟩⟩
  | ok a =>
    obtain ⟨o, ho'⟩ := hf a
    exact ⟨o, Or.inr ⟨a, ho, ho'⟩⟩

theorem parFor_one_some {L V : Type} [DecidableEq L] (n : Nat) (body : Nat → Thread L V Unit) (m : Mem L V) : ∃ o, parFor 1 n body m o :=
  ⟨_, parFor_one.2 ⟨_, .refl _, rfl⟩⟩

theorem levelBatchP_some (st : LevelState) (c : Nat) (batch : List Nat) : ∃ o, levelBatchP 1 ci adj d g cap st c batch o := by
  unfold levelBatchP
  refine Par.bind_some (parFor_one_some _ _ _) fun m => Par.bind_some (Par.lift_some _) fun r => ?_
  obtain ⟨st, c⟩ := r
  exact Par.bind_some (Par.lift_some _) fun _ => Par.lift_some _

theorem levelLoopP_some (hcap : 0 < cap) : ∀ (fuel : Nat) (st : LevelState) (c : Nat) (stack : List Nat),
    ∃ o, levelLoopP 1 ci adj d g cap fuel st c stack o := by
  intro fuel
  induction fuel with
  | zero => intro st c stack; cases stack <;> exact Par.lift_some _
  | succ fuel ih =>
    intro st c stack
    cases stack with
    | nil => exact Par.lift_some _
    | cons id stack =>
      unfold levelLoopP
      have hthr : (if cap ≤ (id :: stack).length then 1 else min 1 ((id :: stack).take cap).length) = 1 := by
        have : 1 ≤ ((id :: stack).take cap).length := by rw [List.length_take, List.length_cons]; omega
        split <;> omega
      simp only [hthr]
      refine Par.bind_some (levelBatchP_some _ _ _) fun r => ?_
      obtain ⟨st, c, pushed⟩ := r
      exact ih _ _ _

theorem searchAtDepthP_some (hcap : 0 < cap) (fuel : Nat) (k : Skeleton) (c : Nat) : ∃ o, searchAtDepthP 1 ci d g cap fuel k c o := by
  unfold searchAtDepthP
  refine Par.bind_some (levelLoopP_some hcap _ _ _ _) fun r => ?_
  obtain ⟨st, c⟩ := r
  exact Par.bind_some (Par.lift_some _) fun _ => Par.lift_some _

theorem levelsP_some (hcap : 0 < cap) (fuel : Nat) : ∀ (count d : Nat) (k : Skeleton) (c : Nat), ∃ o, levelsP 1 ci g cap fuel d count k c o := by
  intro count
  induction count with
  | zero => intro d k c; exact Par.lift_some _
  | succ count ih =>
    intro d k c
    unfold levelsP
    refine Par.bind_some (searchAtDepthP_some hcap _ _ _) fun r => ?_
    obtain ⟨k, c, more⟩ := r
    cases more with
    | false => exact Par.lift_some _
    | true => exact ih _ _ _

theorem learnSkeletonP_some (hcap : 0 < cap) (n depth fuel : Nat) : ∃ o, learnSkeletonP 1 ci n depth g cap fuel o := by
  unfold learnSkeletonP
  refine Par.bind_some ⟨_, level0P_one.2 ⟨_, .refl _, rfl⟩⟩ fun r => ?_
  obtain ⟨k, c⟩ := r
  exact levelsP_some hcap _ _ _ _ _

theorem Thread.step_read {L V α : Type} [DecidableEq L] {l : L} {k : V → Thread L V α} {m : Mem L V} {v : V} (h : m l = some (some v)) :
    (Thread.read l k).step m = .ok (k v, m) := by
  simp only [Thread.step, h]

/-- An iteration of level 0 after it has read its edge. -/
def level0Rest (ci : CITest) (i : Nat) (e : WorkEdge) : SProg Unit := do
  addTests 1
  let (ind, _) ← Thread.lift (ci e.x e.y [] 1)
  if ind then do
    Thread.store (.edge i) (.edge { e with needRemove := true })
    insertSepset e.x e.y []
  else return ()

theorem level0Body_runs1 {st : LevelState} {c : Nat} {fl : Nat → Option Bool} {i : Nat} (hi : i < st.edges.length) :
    (level0Body ci i).Runs (skeletonMem st c cap fl) (level0Rest ci i st.edges[i]) (skeletonMem st c cap fl) := by
  have h1 : skeletonMem st c cap fl (.edge i) = some (some (.edge st.edges[i])) := by
    simp only [skeletonMem, List.getElem?_eq_getElem hi]; rfl
  refine .step (q := level0Rest ci i st.edges[i]) (fun h => h) ?_ (.refl _ _)
  exact Thread.step_read h1

/-- An iteration of level 0 reads its edge and the counter, and is then about to write the counter. -/
theorem level0Body_runs2 {st : LevelState} {c : Nat} {fl : Nat → Option Bool} {i : Nat} (hi : i < st.edges.length) :
    ∃ q, (level0Body ci i).Runs (skeletonMem st c cap fl) q (skeletonMem st c cap fl) ∧ q.next = some (.counter, true) := by
  have h1 : skeletonMem st c cap fl (.edge i) = some (some (.edge st.edges[i])) := by
    simp only [skeletonMem, List.getElem?_eq_getElem hi]; rfl
  refine ⟨_, .step (q := level0Rest ci i st.edges[i]) (m' := skeletonMem st c cap fl) (fun h => h) ?_
    (.step (fun h => h) (show (level0Rest ci i st.edges[i]).step _ = .ok (_, _) from rfl) (.refl _ _)), rfl⟩
  exact Thread.step_read h1

/-- Level 0 with two threads and two edges. -/
theorem level0P_race {p n : Nat} (hp : 2 ≤ p) (hn : 3 ≤ n) : level0P p ci n (.error .ub) := by
  obtain ⟨slots, h1, hlen', -⟩ := C19_completeGraph n
  have h2 : 2 ≤ n * (n - 1) / 2 := by
    have : 3 * 2 ≤ n * (n - 1) := Nat.mul_le_mul hn (by omega)
    omega
  have hlen : 2 ≤ (slots.map (fun e => { x := e.node1, y := e.node2 : WorkEdge })).length := by rw [List.length_map, hlen']; exact h2
  unfold level0P
  rw [h1, Par.lift_bind, mapM_ok (g := fun s : Option Edge => { x := (s.getD (mkUndirected 0 1)).node1, y := (s.getD (mkUndirected 0 1)).node2 : WorkEdge })]
  · rw [Par.lift_bind, List.map_map]
    refine Or.inl ⟨.ub, ?_, rfl⟩
    obtain ⟨q, hq, hq'⟩ := level0Body_runs2 (ci := ci) (cap := 0) (st := ⟨slots.map (fun e => { x := e.node1, y := e.node2 : WorkEdge }), fun _ _ => none⟩) (c := 0)
      (fl := fun _ => none) (i := 0) (lt_of_lt_of_le (by decide) hlen)
    exact parFor_race_both hp (a := 0) (b := 1) (show 0 < List.length (slots.map (fun e => { x := e.node1, y := e.node2 : WorkEdge })) by omega)
      (show 1 < List.length (slots.map (fun e => { x := e.node1, y := e.node2 : WorkEdge })) by omega) (by decide) hq
      (level0Body_runs1 (lt_of_lt_of_le (by decide) hlen)) hq' rfl (Or.inl rfl)
  · intro s hs
    obtain ⟨e, _, rfl⟩ := List.mem_map.1 hs
    rfl

/-- The places that an iteration for the edge `id` at position `i` may access. -/
def SPlace.ofIteration (id i : Nat) (l : SPlace) : Prop := l = .counter ∨ l = .sepset ∨ l = .edge id ∨ l = .push i

theorem within_readEdge {A : SPlace → Prop} {i : Nat} (h : A (.edge i)) : (readEdge i).Within A := by
  refine ⟨h, fun v => ?_⟩
  cases v <;> trivial

theorem within_addTests {A : SPlace → Prop} {k : Nat} (h : A .counter) : (addTests k).Within A := by
  refine ⟨h, fun v => ?_⟩
  cases v with
  | count n => exact ⟨h, trivial⟩
  | _ => trivial

theorem within_insertSepset {A : SPlace → Prop} {a b : Nat} {s : List Nat} (h : A .sepset) : (insertSepset a b s).Within A := by
  refine ⟨h, fun v => ?_⟩
  cases v with
  | sep n => exact ⟨h, trivial⟩
  | _ => trivial

theorem within_level0Body (i : Nat) : (level0Body ci i).Within (SPlace.ofIteration i i) := by
  unfold level0Body
  refine Thread.Within.bind (within_readEdge (by simp [SPlace.ofIteration])) fun e => ?_
  refine Thread.Within.bind (within_addTests (by simp [SPlace.ofIteration])) fun _ => ?_
  refine Thread.Within.bind (Thread.Within.lift _) fun r => ?_
  obtain ⟨ind, first⟩ := r
  cases ind with
  | false => trivial
  | true =>
    exact Thread.Within.bind (Thread.Within.store (by simp [SPlace.ofIteration])) fun _ => within_insertSepset (by simp [SPlace.ofIteration])

theorem within_levelBody (id i : Nat) : (levelBody ci adj d g id i).Within (SPlace.ofIteration id i) := by
  unfold levelBody
  refine Thread.Within.bind (within_readEdge (by simp [SPlace.ofIteration])) fun e => ?_
  refine Thread.Within.bind (Thread.Within.lift _) fun r => ?_
  obtain ⟨e1, test⟩ := r
  cases test with
  | false =>
    exact Thread.Within.bind (Thread.Within.store (by simp [SPlace.ofIteration])) fun _ => Thread.Within.store (by simp [SPlace.ofIteration])
  | true =>
    refine Thread.Within.bind (Thread.Within.lift _) fun k => ?_
    refine Thread.Within.bind ?_ fun _ => ?_
    · unfold countTests
      split
      · trivial
      · exact within_addTests (by simp [SPlace.ofIteration])
    refine Thread.Within.bind (Thread.Within.lift _) fun r => ?_
    obtain ⟨e2, push, s⟩ := r
    refine Thread.Within.bind ?_ fun _ => ?_
    · cases s with
      | none => trivial
      | some s =>
        unfold recordSet
        dsimp only
        split
        · exact within_insertSepset (by simp [SPlace.ofIteration])
        · exact within_insertSepset (by simp [SPlace.ofIteration])
    · exact Thread.Within.bind (Thread.Within.store (by simp [SPlace.ofIteration])) fun _ => Thread.Within.store (by simp [SPlace.ofIteration])

theorem within_batchBody {batch : List Nat} {i : Nat} (hi : i < batch.length) :
    (batchBody ci adj d g batch i).Within (SPlace.ofIteration batch[i] i) := by
  unfold batchBody
  rw [rd_getElem hi]
  exact within_levelBody _ _

end FastPGM
