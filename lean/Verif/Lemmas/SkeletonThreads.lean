import Verif.Lemmas.ThreadsOne
import Verif.Lemmas.JTParallel
import Verif.Lemmas.Skeleton5
import Verif.Lemmas.NetDims
import Verif.Model.SkeletonThreads

/-!
The skeleton phase with one thread is a run of `learnSkeleton` under some schedule.
-/

namespace FastPGM

theorem except_map_bind {α β γ : Type} (x : Except Fault α) (f : α → β) (g : β → Except Fault γ) :
    (x.map f >>= g) = (x >>= fun a => g (f a)) := by
  cases x <;> rfl

theorem run_lift {L V α : Type} [DecidableEq L] (x : Except Fault α) (m : Mem L V) : (Thread.lift x).run m = x.map (fun a => (a, m)) := by
  cases x <;> rfl

section run
variable {st : LevelState} {c cap : Nat} {fl : Nat → Option Bool}

theorem run_readEdge (i : Nat) : (readEdge i).run (skeletonMem st c cap fl) = (rd st.edges i).map (fun e => (e, skeletonMem st c cap fl)) := by
  simp only [readEdge, Thread.run]
  cases h : st.edges[i]? with
  | none =>
    have e1 : rd st.edges i = .error .ub := by unfold rd; rw [h]
    have e2 : skeletonMem st c cap fl (.edge i) = none := by simp only [skeletonMem, h]; rfl
    rw [e1, e2]
    rfl
  | some e =>
    have e2 : skeletonMem st c cap fl (.edge i) = some (some (.edge e)) := by simp only [skeletonMem, h]; rfl
    rw [rd_ok h, e2]
    rfl

theorem run_addTests (k : Nat) : (addTests k).run (skeletonMem st c cap fl) = .ok ((), skeletonMem st (c + k) cap fl) := by
  show Except.ok ((), _) = Except.ok ((), _)
  congr 2
  funext l
  cases l <;> simp [Mem.put, skeletonMem]

theorem run_insertSepset (a b : Nat) (s : List Nat) :
    (insertSepset a b s).run (skeletonMem st c cap fl) = .ok ((), skeletonMem ⟨st.edges, st.sep.insert a b s⟩ c cap fl) := by
  show Except.ok ((), _) = Except.ok ((), _)
  congr 2
  funext l
  cases l <;> simp [Mem.put, skeletonMem]

theorem run_storeEdge {i : Nat} (hi : i < st.edges.length) (e : WorkEdge) :
    (Thread.store (.edge i) (.edge e)).run (skeletonMem st c cap fl) = .ok ((), skeletonMem ⟨st.edges.set i e, st.sep⟩ c cap fl) := by
  simp only [Thread.store, Thread.run]
  have e2 : skeletonMem st c cap fl (.edge i) = some (some (.edge st.edges[i])) := by
    simp only [skeletonMem, List.getElem?_eq_getElem hi]; rfl
  rw [e2]
  show Except.ok ((), _) = Except.ok ((), _)
  congr 2
  funext l
  cases l with
  | edge j =>
    by_cases h : j = i
    · subst h
      simp [Mem.put, skeletonMem, hi]
    · simp [Mem.put, skeletonMem, h, List.getElem?_set_ne (Ne.symm h)]
  | _ => simp [Mem.put, skeletonMem]

theorem run_storePush {i : Nat} (hi : i < cap) (b : Bool) :
    (Thread.store (.push i) (.flag b)).run (skeletonMem st c cap fl) = .ok ((), skeletonMem st c cap (Function.update fl i (some b))) := by
  simp only [Thread.store, Thread.run]
  have e2 : skeletonMem st c cap fl (.push i) = some ((fl i).map SCell.flag) := by
    simp only [skeletonMem, if_pos hi]
  rw [e2]
  show Except.ok ((), _) = Except.ok ((), _)
  congr 2
  funext l
  cases l with
  | push j =>
    by_cases h : j = i
    · subst h
      simp [Mem.put, skeletonMem, hi]
    · simp [Mem.put, skeletonMem, h]
  | _ => simp [Mem.put, skeletonMem]

theorem run_level0Body (ci : CITest) (i : Nat) :
    (level0Body ci i).run (skeletonMem st c cap fl) = (level0Step ci st i).map (fun st' => ((), skeletonMem st' (c + 1) cap fl)) := by
  unfold level0Body level0Step
  rw [Thread.run_bind, run_readEdge]
  cases he : rd st.edges i with
  | error f => rfl
  | ok e =>
    have hi : i < st.edges.length := (List.getElem?_eq_some_iff.mp (rd_eq_ok.mp he)).1
    simp only [Except.map, ok_bind]
    rw [Thread.run_bind, run_addTests, ok_bind]
    simp only
    rw [Thread.run_bind, run_lift]
    cases ci e.x e.y [] 1 with
    | error f => rfl
    | ok r =>
      obtain ⟨ind, first⟩ := r
      simp only [Except.map, ok_bind]
      cases ind with
      | false => rfl
      | true =>
        simp only [if_true]
        rw [Thread.run_bind, run_storeEdge hi, ok_bind, run_insertSepset, wr_ok hi, ok_bind]
        rfl

/-- The number of tests that one iteration reports. -/
def edgeTests (adj : List (List Nat)) (d g : Nat) (e : WorkEdge) : Nat :=
  match prepareEdge adj d e with
  | .ok (e1, true) =>
    match groupTests d g e1 with
    | .ok k => k
    | .error _ => 0
  | _ => 0

theorem checkEdge_prepare (ci : CITest) (adj : List (List Nat)) (d g : Nat) (e : WorkEdge) :
    checkEdge ci adj d g e = (prepareEdge adj d e >>= fun r => if r.2 then checkTests ci d g r.1 else .ok (r.1, false, none)) := by
  unfold checkEdge prepareEdge
  cases e.process with
  | no =>
    simp only
    cases findAdjacencies adj e.x e.y with
    | error f => rfl
    | ok a =>
      rw [ok_bind, ok_bind]
      by_cases h : d ≤ a.length
      · rw [if_pos h, if_pos h]
        cases choiceGenerator a.length d <;> rfl
      · rw [if_neg h, if_neg h]
        cases findAdjacencies adj e.y e.x with
        | error f => rfl
        | ok a =>
          rw [ok_bind, ok_bind]
          by_cases h : d ≤ a.length
          · rw [if_pos h, if_pos h]
            cases choiceGenerator a.length d <;> rfl
          · rw [if_neg h, if_neg h]
            rfl
  | enode1 =>
    simp only
    cases findAdjacencies adj e.y e.x with
    | error f => rfl
    | ok a =>
      rw [ok_bind, ok_bind]
      by_cases h : d ≤ a.length
      · rw [if_pos h, if_pos h]
        cases choiceGenerator a.length d <;> rfl
      · rw [if_neg h, if_neg h]
        rfl
  | node1 => rfl
  | node2 => rfl

theorem groupTests_error {ci : CITest} {d g : Nat} {e : WorkEdge} {f : Fault} (h : groupTests d g e = .error f) :
    checkTests ci d g e = .error f := by
  have key : testing ci d g e = .error f := by
    unfold groupTests at h
    unfold testing
    cases hc : e.cg with
    | none => rw [hc] at h; cases h; rfl
    | some gen =>
      rw [hc] at h
      simp only at h ⊢
      cases hn : gen.nextN g with
      | error f' => rw [hn] at h; cases h; rfl
      | ok r =>
        obtain ⟨choices, gen'⟩ := r
        rw [hn, ok_bind] at h
        rw [ok_bind]
        simp only at h ⊢
        cases h0 : rd choices 0 with
        | error f' => rw [h0] at h; cases h; rfl
        | ok c0 =>
          rw [h0, ok_bind] at h
          rw [ok_bind]
          by_cases hne : c0 ≠ []
          · rw [if_pos hne] at h ⊢
            cases hm : (choices.takeWhile (fun c => decide (c ≠ []))).mapM (fun c => pickSet e.vecAdj c d) with
            | error f' => rw [hm] at h; cases h; rfl
            | ok sets => rw [hm] at h; cases h
          · rw [if_neg hne] at h
            cases h
  unfold checkTests
  rw [key]
  rfl

theorem run_countTests (k : Nat) : (countTests k).run (skeletonMem st c cap fl) = .ok ((), skeletonMem st (c + k) cap fl) := by
  unfold countTests
  by_cases h : k = 0
  · subst h
    rfl
  · rw [if_neg h]
    exact run_addTests k

/-- The map after recording a set. -/
def recorded (e : WorkEdge) (s : Option (List Nat)) (sep : Sepset) : Sepset :=
  match s with
  | none => sep
  | some s => if e.x > e.y then sep.insert e.y e.x s else sep.insert e.x e.y s

theorem run_recordSet (e : WorkEdge) (s : Option (List Nat)) :
    (recordSet e s).run (skeletonMem st c cap fl) = .ok ((), skeletonMem ⟨st.edges, recorded e s st.sep⟩ c cap fl) := by
  cases s with
  | none => rfl
  | some s =>
    unfold recordSet recorded
    simp only
    by_cases h : e.x > e.y
    · rw [if_pos h, if_pos h, run_insertSepset]
    · rw [if_neg h, if_neg h, run_insertSepset]

theorem levelStep_recorded (ci : CITest) (adj : List (List Nat)) (d g : Nat) (st : LevelState) (id : Nat) :
    levelStep ci adj d g st id = (rd st.edges id >>= fun e => checkEdge ci adj d g e >>= fun r =>
      wr st.edges id r.1 >>= fun edges => .ok (⟨edges, recorded e r.2.2 st.sep⟩, r.2.1)) := by
  unfold levelStep
  refine congrArg _ (funext fun e => congrArg _ (funext fun r => ?_))
  obtain ⟨e', push, s⟩ := r
  cases s <;> rfl

theorem run_levelBody (ci : CITest) (adj : List (List Nat)) (d g id : Nat) {i : Nat} (hi : i < cap) :
    (levelBody ci adj d g id i).run (skeletonMem st c cap fl) = (rd st.edges id >>= fun e =>
      (levelStep ci adj d g st id).map (fun r => ((), skeletonMem r.1 (c + edgeTests adj d g e) cap (Function.update fl i (some r.2))))) := by
  rw [levelStep_recorded]
  unfold levelBody
  rw [Thread.run_bind, run_readEdge]
  cases he : rd st.edges id with
  | error f => rfl
  | ok e =>
    have hid : id < st.edges.length := (List.getElem?_eq_some_iff.mp (rd_eq_ok.mp he)).1
    simp only [Except.map, ok_bind]
    rw [checkEdge_prepare, Thread.run_bind, run_lift]
    unfold edgeTests
    cases hp : prepareEdge adj d e with
    | error f => rfl
    | ok r =>
      obtain ⟨e1, t⟩ := r
      simp only [Except.map, ok_bind]
      cases t with
      | false =>
        simp only [Bool.false_eq_true, if_false, ok_bind]
        rw [Thread.run_bind, run_storeEdge hid, ok_bind, run_storePush hi, wr_ok hid]
        rfl
      | true =>
        simp only [if_true]
        rw [Thread.run_bind, run_lift]
        cases hg : groupTests d g e1 with
        | error f =>
          rw [groupTests_error hg]
          rfl
        | ok k =>
          simp only [Except.map, ok_bind]
          rw [Thread.run_bind, run_countTests, ok_bind]
          simp only
          rw [Thread.run_bind, run_lift]
          cases hc : checkTests ci d g e1 with
          | error f => rfl
          | ok r =>
            obtain ⟨e2, push, s⟩ := r
            simp only [Except.map, ok_bind]
            rw [Thread.run_bind, run_recordSet, ok_bind]
            simp only
            rw [Thread.run_bind, run_storeEdge (st := ⟨st.edges, recorded e s st.sep⟩) hid, ok_bind, run_storePush hi, wr_ok hid]
            rfl

end run

theorem level_skeletonMem (st : LevelState) (c cap : Nat) (fl : Nat → Option Bool) :
    SMem.level (skeletonMem st c cap fl) st.edges.length = .ok (st, c) := by
  unfold SMem.level
  rw [mapM_of_get (r := st.edges)]
  · rfl
  · simp
  · intro i j hj
    obtain ⟨hlt, rfl⟩ := List.getElem?_eq_some_iff.mp hj
    have hi : i < st.edges.length := by simpa using hlt
    refine ⟨st.edges[i], List.getElem?_eq_getElem hi, ?_⟩
    have e2 : skeletonMem st c cap fl (.edge i) = some (some (.edge st.edges[i])) := by
      simp only [skeletonMem, List.getElem?_eq_getElem hi]; rfl
    simp only [List.getElem_range, SMem.edge, Mem.get, e2]
    rfl

theorem fold_level0 (ci : CITest) (cap : Nat) (fl : Nat → Option Bool) : ∀ (is : List Nat) (st : LevelState) (c : Nat),
    is.foldlM (fun m i => ((level0Body ci i).run m).map Prod.snd) (skeletonMem st c cap fl) =
      (is.foldlM (level0Step ci) st).map (fun st' => skeletonMem st' (c + is.length) cap fl) := by
  intro is
  induction is with
  | nil => intro st c; rfl
  | cons i is ih =>
    intro st c
    rw [List.foldlM_cons, List.foldlM_cons, run_level0Body]
    cases level0Step ci st i with
    | error f => rfl
    | ok st1 =>
      refine (ih st1 (c + 1)).trans ?_
      rw [List.length_cons, show c + 1 + is.length = c + (is.length + 1) by omega]
      rfl

theorem level0Step_length {ci : CITest} {st st' : LevelState} {i : Nat} (h : level0Step ci st i = .ok st') :
    st'.edges.length = st.edges.length := by
  obtain ⟨e, -, h⟩ := bind_eq_ok h
  obtain ⟨r, -, h⟩ := bind_eq_ok h
  obtain ⟨ind, first⟩ := r
  cases ind with
  | false => cases h; rfl
  | true =>
    obtain ⟨es, hw, h⟩ := bind_eq_ok h
    cases h
    obtain ⟨-, rfl⟩ := wr_inv hw
    simp

theorem level0Fold_length {ci : CITest} {is : List Nat} : ∀ {st st' : LevelState}, is.foldlM (level0Step ci) st = .ok st' →
    st'.edges.length = st.edges.length := by
  induction is with
  | nil => intro st st' h; cases h; rfl
  | cons i is ih =>
    intro st st' h
    rw [List.foldlM_cons] at h
    obtain ⟨st1, h1, h⟩ := bind_eq_ok h
    rw [ih h, level0Step_length h1]

/-- Level 0 with one thread. -/
theorem level0P_one {ci : CITest} {n : Nat} {o : Except Fault (Skeleton × Nat)} :
    level0P 1 ci n o ↔ ∃ order : List Nat, order.Perm (List.range (n * (n - 1) / 2)) ∧ o = (level0 ci n order).map (fun k => (k, n * (n - 1) / 2)) := by
  obtain ⟨slots, h1, hlen', -⟩ := C19_completeGraph n
  have hlen : (slots.map (fun e => { x := e.node1, y := e.node2 : WorkEdge })).length = n * (n - 1) / 2 := by rw [List.length_map, hlen']
  let es0 : List WorkEdge := slots.map (fun e => { x := e.node1, y := e.node2 })
  have hlen : es0.length = n * (n - 1) / 2 := hlen
  have e1 : ∀ order : List Nat, level0 ci n order = (order.foldlM (level0Step ci) ⟨es0, fun _ _ => none⟩ >>= fun st =>
      removeMarked st.edges (fullAdjacency n) >>= fun r => .ok ⟨r.1, r.2, st.sep⟩) := by
    intro order
    unfold level0
    rw [h1, ok_bind, mapM_ok (g := fun s : Option Edge => { x := (s.getD (mkUndirected 0 1)).node1, y := (s.getD (mkUndirected 0 1)).node2 : WorkEdge })]
    · rw [ok_bind, List.map_map]
      rfl
    · intro s hs
      obtain ⟨e, _, rfl⟩ := List.mem_map.1 hs
      rfl
  have e2 : level0P 1 ci n = (parFor 1 es0.length (level0Body ci) (skeletonMem ⟨es0, fun _ _ => none⟩ 0 0 (fun _ => none)) >>= fun m =>
      Par.lift (SMem.level m es0.length) >>= fun r => Par.lift (removeMarked r.1.edges (fullAdjacency n)) >>= fun q =>
        Par.lift (.ok (⟨q.1, q.2, r.1.sep⟩, r.2))) := by
    unfold level0P
    rw [h1, Par.lift_bind, mapM_ok (g := fun s : Option Edge => { x := (s.getD (mkUndirected 0 1)).node1, y := (s.getD (mkUndirected 0 1)).node2 : WorkEdge })]
    · rw [Par.lift_bind, List.map_map]
      rfl
    · intro s hs
      obtain ⟨e, _, rfl⟩ := List.mem_map.1 hs
      rfl
  clear_value es0
  have e3 : ∀ order : List Nat, order.Perm (List.range es0.length) → ∀ o : Except Fault (Skeleton × Nat),
      ((Par.lift (order.foldlM (fun m i => ((level0Body ci i).run m).map Prod.snd) (skeletonMem ⟨es0, fun _ _ => none⟩ 0 0 (fun _ => none))) >>= fun m =>
      Par.lift (SMem.level m es0.length) >>= fun r => Par.lift (removeMarked r.1.edges (fullAdjacency n)) >>= fun q =>
        Par.lift (.ok (⟨q.1, q.2, r.1.sep⟩, r.2))) o ↔ o = (level0 ci n order).map (fun k => (k, n * (n - 1) / 2))) := by
    intro order hord o
    rw [fold_level0, e1]
    cases hf : order.foldlM (level0Step ci) ⟨es0, fun _ _ => none⟩ with
    | error f =>
      simp only [Except.map]
      rw [Par.lift_error_bind]
      rfl
    | ok st =>
      simp only [Except.map]
      rw [Par.lift_bind, ← show st.edges.length = es0.length from level0Fold_length hf, level_skeletonMem, Par.lift_bind, Par.lift_lift,
        ok_bind, hord.length_eq, List.length_range, Nat.zero_add, hlen]
      cases removeMarked st.edges (fullAdjacency n) <;> rfl
  rw [e2, ← hlen]
  constructor
  · rintro (⟨e, h, rfl⟩ | ⟨m, h, ho⟩)
    · obtain ⟨order, ho, he⟩ := parFor_one.1 h
      exact ⟨order, ho, by rw [hlen]; exact (e3 order ho _).1 (Or.inl ⟨e, he, rfl⟩)⟩
    · obtain ⟨order, hp, he⟩ := parFor_one.1 h
      exact ⟨order, hp, by rw [hlen]; exact (e3 order hp _).1 (Or.inr ⟨m, he, ho⟩)⟩
  · rintro ⟨order, hp, ho⟩
    rw [hlen] at ho
    rcases (e3 order hp o).2 ho with ⟨e, h, rfl⟩ | ⟨m, h, ho⟩
    · exact Or.inl ⟨e, parFor_one.2 ⟨order, hp, h⟩, rfl⟩
    · exact Or.inr ⟨m, parFor_one.2 ⟨order, hp, h⟩, ho⟩

end FastPGM
