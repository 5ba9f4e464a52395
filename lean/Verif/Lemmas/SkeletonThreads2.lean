import Verif.Lemmas.SkeletonThreads

/-!
The parallel loops of the later levels and the whole skeleton phase with one thread: every outcome is an outcome of the sequential model for
some order of the iterations.
-/

namespace FastPGM

variable {ci : CITest} {adj : List (List Nat)} {d g cap : Nat}

/-- The number of tests of the groups that are fetched for the edges at the given positions. -/
def batchTests (adj : List (List Nat)) (d g : Nat) (st : LevelState) (batch : List Nat) : Nat :=
  (batch.map (fun id => match st.edges[id]? with | some e => edgeTests adj d g e | none => 0)).sum

theorem levelStep_edges {st st' : LevelState} {id : Nat} {b : Bool} (h : levelStep ci adj d g st id = .ok (st', b)) :
    ∃ e, id < st.edges.length ∧ st'.edges = st.edges.set id e := by
  rw [levelStep_recorded] at h
  obtain ⟨e, -, h⟩ := bind_eq_ok h
  obtain ⟨r, -, h⟩ := bind_eq_ok h
  obtain ⟨es, hw, h⟩ := bind_eq_ok h
  obtain ⟨hi, rfl⟩ := wr_inv hw
  cases h
  exact ⟨_, hi, rfl⟩

theorem batchTests_step {st st' : LevelState} {id : Nat} {b : Bool} (h : levelStep ci adj d g st id = .ok (st', b)) {ids : List Nat}
    (hn : id ∉ ids) : batchTests adj d g st' ids = batchTests adj d g st ids := by
  obtain ⟨e, -, he⟩ := levelStep_edges h
  unfold batchTests
  congr 1
  refine List.map_congr_left fun j hj => ?_
  have hne : id ≠ j := by rintro rfl; exact hn hj
  rw [he, List.getElem?_set_ne hne]

/-- One step of `levelBatch`. -/
def batchStep (ci : CITest) (adj : List (List Nat)) (d g : Nat) (acc : LevelState × List Nat) (id : Nat) : Except Fault (LevelState × List Nat) := do
  let (st, push) ← levelStep ci adj d g acc.1 id
  return (st, if push then id :: acc.2 else acc.2)

theorem levelBatch_eq (st : LevelState) (order : List Nat) : levelBatch ci adj d g st order = order.foldlM (batchStep ci adj d g) (st, []) := rfl

theorem batchStep_ok {st st' : LevelState} {id : Nat} {b : Bool} (pushed : List Nat) (h : levelStep ci adj d g st id = .ok (st', b)) :
    batchStep ci adj d g (st, pushed) id = .ok (st', if b then id :: pushed else pushed) := by
  unfold batchStep
  rw [h]
  rfl

theorem batchStep_error {st : LevelState} {id : Nat} {f : Fault} (pushed : List Nat) (h : levelStep ci adj d g st id = .error f) :
    batchStep ci adj d g (st, pushed) id = .error f := by
  unfold batchStep
  rw [h]
  rfl

/-- An iteration of the loop over a batch. -/
def batchBody (ci : CITest) (adj : List (List Nat)) (d g : Nat) (batch : List Nat) (i : Nat) : SProg Unit := do
  let id ← Thread.lift (rd batch i)
  levelBody ci adj d g id i

theorem run_batchBody {batch : List Nat} {i : Nat} (hi : i < batch.length) (hc : batch.length ≤ cap) {st : LevelState} {c : Nat}
    {fl : Nat → Option Bool} : ((batchBody ci adj d g batch i).run (skeletonMem st c cap fl)).map Prod.snd =
      (levelStep ci adj d g st batch[i]).map (fun r => skeletonMem r.1 (c + batchTests adj d g st [batch[i]]) cap (Function.update fl i (some r.2))) := by
  unfold batchBody
  rw [Thread.run_bind, run_lift, rd_getElem hi]
  show ((levelBody ci adj d g batch[i] i).run _).map _ = _
  rw [run_levelBody (hi := lt_of_lt_of_le hi hc)]
  have ht : ∀ e, rd st.edges batch[i] = .ok e → batchTests adj d g st [batch[i]] = edgeTests adj d g e := by
    intro e he
    unfold batchTests
    rw [rd_eq_ok] at he
    simp [he]
  have hl : ∀ f, rd st.edges batch[i] = .error f → levelStep ci adj d g st batch[i] = .error f := by
    intro f hf
    rw [levelStep_recorded, hf]
    rfl
  cases hr : rd st.edges batch[i] with
  | error f =>
    rw [hl f hr]
    rfl
  | ok e =>
    rw [ht e hr, ok_bind]
    cases levelStep ci adj d g st batch[i] <;> rfl

/-- The iterations of a batch one after the other. -/
theorem fold_batch {batch : List Nat} (hb : batch.Nodup) (hc : batch.length ≤ cap) : ∀ (is : List Nat), is.Nodup → (his : ∀ i ∈ is, i < batch.length) →
    ∀ (st : LevelState) (c : Nat) (fl : Nat → Option Bool) (pushed : List Nat), ∃ fl' : Nat → Option Bool,
      is.foldlM (fun m i => ((batchBody ci adj d g batch i).run m).map Prod.snd) (skeletonMem st c cap fl) =
        ((is.pmap (fun i h => batch[i]'h) his).foldlM (batchStep ci adj d g) (st, pushed)).map
          (fun r => skeletonMem r.1 (c + batchTests adj d g st (is.pmap (fun i h => batch[i]'h) his)) cap fl') ∧
      ∀ r, (is.pmap (fun i h => batch[i]'h) his).foldlM (batchStep ci adj d g) (st, pushed) = .ok r →
        r.1.edges.length = st.edges.length ∧ (∀ i, i ∉ is → fl' i = fl i) ∧ (∀ i ∈ is, ∃ b, fl' i = some b) ∧
          ∀ id, id ∈ r.2 ↔ id ∈ pushed ∨ ∃ i ∈ is, batch[i]? = some id ∧ fl' i = some true := by
  intro is
  induction is with
  | nil =>
    intro _ his st c fl pushed
    refine ⟨fl, rfl, ?_⟩
    intro r h
    cases h
    refine ⟨rfl, fun i _ => rfl, fun i h => absurd h (by simp), fun id => by simp⟩
  | cons i is ih =>
    intro hn his st c fl pushed
    have hi : i < batch.length := his i (by simp)
    have his' : ∀ j ∈ is, j < batch.length := fun j hj => his j (by simp [hj])
    have hni : i ∉ is := (List.nodup_cons.1 hn).1
    have hnb : batch[i] ∉ is.pmap (fun i h => batch[i]'h) his' := by
      intro h
      obtain ⟨j, hj, he⟩ := List.mem_pmap.1 h
      have := (List.Nodup.getElem_inj_iff hb).1 he
      exact hni (this ▸ hj)
    rw [List.foldlM_cons, run_batchBody hi hc]
    simp only [List.pmap_cons, List.foldlM_cons]
    cases hs : levelStep ci adj d g st batch[i] with
    | error f =>
      rw [batchStep_error _ hs]
      refine ⟨fl, rfl, ?_⟩
      intro r h
      cases h
    | ok r1 =>
      obtain ⟨st1, b⟩ := r1
      rw [batchStep_ok _ hs]
      obtain ⟨fl', e1, e2⟩ := ih (List.nodup_cons.1 hn).2 his' st1 (c + batchTests adj d g st [batch[i]]) (Function.update fl i (some b))
        (if b then batch[i] :: pushed else pushed)
      refine ⟨fl', ?_, ?_⟩
      · refine e1.trans ?_
        rw [batchTests_step hs hnb]
        rw [show c + batchTests adj d g st [batch[i]] + batchTests adj d g st (is.pmap (fun i h => batch[i]'h) his') =
          c + batchTests adj d g st (batch[i] :: is.pmap (fun i h => batch[i]'h) his') by
            simp [batchTests, Nat.add_assoc]]
        rfl
      · intro r hr
        obtain ⟨h1, h2, h3, h4⟩ := e2 r hr
        have hfi : fl' i = some b := by rw [h2 i hni, Function.update_self]
        obtain ⟨e, -, hse⟩ := levelStep_edges hs
        refine ⟨by rw [h1, hse, List.length_set], ?_, ?_, ?_⟩
        · intro j hj
          rw [List.mem_cons, not_or] at hj
          rw [h2 j hj.2, Function.update_of_ne hj.1]
        · intro j hj
          rcases List.mem_cons.1 hj with rfl | hj
          · exact ⟨b, hfi⟩
          · exact h3 j hj
        · intro id
          rw [h4 id]
          constructor
          · rintro (h | ⟨j, hj, h⟩)
            · cases b with
              | false => exact Or.inl h
              | true =>
                rcases List.mem_cons.1 h with rfl | h
                · exact Or.inr ⟨i, by simp, by simp [hi], hfi⟩
                · exact Or.inl h
            · exact Or.inr ⟨j, by simp [hj], h⟩
          · rintro (h | ⟨j, hj, h, h'⟩)
            · cases b with
              | false => exact Or.inl h
              | true => exact Or.inl (List.mem_cons_of_mem _ h)
            · rcases List.mem_cons.1 hj with rfl | hj
              · rw [hfi] at h'
                have hbt : b = true := by simpa using h'
                subst hbt
                rw [List.getElem?_eq_getElem hi] at h
                refine Or.inl ?_
                have : batch[j] = id := by simpa using h
                simp [this]
              · exact Or.inr ⟨j, hj, h, h'⟩

theorem filterMap_flags (q : Nat → Bool) : ∀ batch : List Nat,
    (batch.zip (batch.map q)).filterMap (fun x => if x.2 then some x.1 else none) = batch.filter q := by
  intro batch
  induction batch with
  | nil => rfl
  | cons a l ih =>
    rw [List.map_cons, List.zip_cons_cons, List.filterMap_cons, List.filter_cons]
    cases q a <;> simp [ih]

theorem flags_skeletonMem {st : LevelState} {c : Nat} {fl : Nat → Option Bool} {batch pushed : List Nat} (hb : batch.Nodup) (hc : batch.length ≤ cap)
    (h3 : ∀ i, i < batch.length → ∃ b, fl i = some b)
    (h4 : ∀ id, id ∈ pushed ↔ ∃ i, i < batch.length ∧ batch[i]? = some id ∧ fl i = some true) :
    (List.range batch.length).mapM (SMem.flag (skeletonMem st c cap fl)) = .ok (batch.map (fun id => decide (id ∈ pushed))) := by
  refine mapM_of_get ?_ ?_
  · simp
  · intro i j hj
    obtain ⟨hlt, rfl⟩ := List.getElem?_eq_some_iff.mp hj
    have hi : i < batch.length := by simpa using hlt
    obtain ⟨b, hfb⟩ := h3 i hi
    have hd : decide (batch[i] ∈ pushed) = b := by
      cases b with
      | true => exact decide_eq_true ((h4 _).2 ⟨i, hi, by simp [hi], hfb⟩)
      | false =>
        refine decide_eq_false fun h => ?_
        obtain ⟨j, hj, hje, hjf⟩ := (h4 _).1 h
        rw [List.getElem?_eq_getElem hj] at hje
        have := (List.Nodup.getElem_inj_iff hb).1 (Option.some.inj hje)
        subst this
        rw [hfb] at hjf
        simp at hjf
    refine ⟨b, by simp [hi, hd], ?_⟩
    have e2 : skeletonMem st c cap fl (.push i) = some (some (.flag b)) := by
      simp only [skeletonMem, if_pos (show i < cap by omega), hfb]
      rfl
    simp only [List.getElem_range, SMem.flag, Mem.get, e2]
    rfl

/-- A loop over a batch with one thread. -/
theorem levelBatchP_one {batch : List Nat} (hb : batch.Nodup) (hc : batch.length ≤ cap) {st : LevelState} {c : Nat}
    {o : Except Fault (LevelState × Nat × List Nat)} (h : levelBatchP 1 ci adj d g cap st c batch o) :
    ∃ order : List Nat, order.Perm batch ∧ o = (levelBatch ci adj d g st order).map
      (fun r => (r.1, c + batchTests adj d g st batch, batch.filter (fun i => i ∈ r.2))) := by
  have key : ∀ is : List Nat, is.Perm (List.range batch.length) → ∃ order : List Nat, order.Perm batch ∧
      (Par.lift (is.foldlM (fun m i => ((batchBody ci adj d g batch i).run m).map Prod.snd) (skeletonMem st c cap (fun _ => none))) >>= fun m =>
        Par.lift (SMem.level m st.edges.length) >>= fun r => Par.lift ((List.range batch.length).mapM (SMem.flag m)) >>= fun flags =>
          Par.lift (.ok (r.1, r.2, (batch.zip flags).filterMap (fun x => if x.2 then some x.1 else none)))) =
      Par.lift ((levelBatch ci adj d g st order).map (fun r => (r.1, c + batchTests adj d g st batch, batch.filter (fun i => i ∈ r.2)))) := by
    intro is hp
    have his : ∀ i ∈ is, i < batch.length := fun i hi => by simpa using hp.mem_iff.1 hi
    have hmem : ∀ i, i ∈ is ↔ i < batch.length := fun i => by rw [hp.mem_iff, List.mem_range]
    have hperm : (is.pmap (fun i h => batch[i]'h) his).Perm batch := by
      have : batch = (List.range batch.length).pmap (fun i h => batch[i]'h) (fun i hi => by simpa using hi) := by
        refine List.ext_getElem (by simp) fun i h1 h2 => by simp
      conv => rhs; rw [this]
      exact List.Perm.pmap _ hp
    obtain ⟨fl', e1, e2⟩ := fold_batch (ci := ci) (adj := adj) (d := d) (g := g) hb hc is (hp.nodup_iff.2 List.nodup_range) his st c (fun _ => none) []
    refine ⟨_, hperm, ?_⟩
    rw [e1, levelBatch_eq]
    have ht : batchTests adj d g st (is.pmap (fun i h => batch[i]'h) his) = batchTests adj d g st batch := (hperm.map _).sum_eq
    rw [ht]
    cases hf : (is.pmap (fun i h => batch[i]'h) his).foldlM (batchStep ci adj d g) (st, []) with
    | error f =>
      simp only [Except.map]
      rw [Par.lift_error_bind]
    | ok r =>
      obtain ⟨h1, -, h3, h4⟩ := e2 r hf
      simp only [Except.map]
      rw [Par.lift_bind, ← h1, level_skeletonMem, Par.lift_bind, flags_skeletonMem (pushed := r.2) hb hc
        (fun i hi => h3 i ((hmem i).2 hi)) (fun id => by rw [h4 id]; simp [hmem]), Par.lift_bind, filterMap_flags]
  rcases h with ⟨e, h, rfl⟩ | ⟨m, h, ho⟩
  · obtain ⟨is, hp, he⟩ := parFor_one.1 h
    obtain ⟨order, h1, h2⟩ := key is hp
    refine ⟨order, h1, ?_⟩
    have : Par.lift ((levelBatch ci adj d g st order).map (fun r => (r.1, c + batchTests adj d g st batch, batch.filter (fun i => i ∈ r.2)))) (.error e) := by
      rw [← h2]
      exact Or.inl ⟨e, he, rfl⟩
    exact this
  · obtain ⟨is, hp, he⟩ := parFor_one.1 h
    obtain ⟨order, h1, h2⟩ := key is hp
    refine ⟨order, h1, ?_⟩
    have : Par.lift ((levelBatch ci adj d g st order).map (fun r => (r.1, c + batchTests adj d g st batch, batch.filter (fun i => i ∈ r.2)))) o := by
      rw [← h2]
      exact Or.inr ⟨m, he, ho⟩
    exact this

theorem levelLoop_congr {s s' : Schedule} : ∀ (fuel : Nat), (∀ q, q < fuel → ∀ l, s q l = s' q l) → ∀ (st : LevelState) (stack : List Nat),
    levelLoop ci adj d g cap s fuel st stack = levelLoop ci adj d g cap s' fuel st stack := by
  intro fuel
  induction fuel with
  | zero => intro _ st stack; cases stack <;> rfl
  | succ fuel ih =>
    intro h st stack
    cases stack with
    | nil => rfl
    | cons id stack =>
      unfold levelLoop
      dsimp only
      rw [h fuel (by omega)]
      exact congrArg _ (funext fun r => ih (fun q hq => h q (by omega)) _ _)

/-- The loops over the stack with one thread. -/
theorem levelLoopP_one : ∀ (fuel : Nat) (st : LevelState) (c : Nat) (stack : List Nat) (o : Except Fault (LevelState × Nat)), stack.Nodup → 0 < cap →
    levelLoopP 1 ci adj d g cap fuel st c stack o → ∃ (sched : Schedule) (c' : Nat), (∀ r l, (sched r l).Perm l) ∧
      o = (levelLoop ci adj d g cap sched fuel st stack).map (fun st => (st, c')) := by
  intro fuel
  induction fuel with
  | zero =>
    intro st c stack o _ _ h
    refine ⟨fun _ l => l, c, fun _ l => .refl _, ?_⟩
    cases stack <;> exact h
  | succ fuel ih =>
    intro st c stack o hn hcap h
    cases stack with
    | nil => exact ⟨fun _ l => l, c, fun _ l => .refl _, h⟩
    | cons id stack =>
      have hb : ((id :: stack).take cap).Nodup := hn.sublist (List.take_sublist _ _)
      have hlen : ((id :: stack).take cap).length ≤ cap := by rw [List.length_take]; omega
      have hthr : (if cap ≤ (id :: stack).length then 1 else min 1 ((id :: stack).take cap).length) = 1 := by
        have : 1 ≤ ((id :: stack).take cap).length := by rw [List.length_take, List.length_cons]; omega
        split <;> omega
      unfold levelLoopP at h
      simp only [hthr] at h
      rcases h with ⟨e, h, rfl⟩ | ⟨⟨st1, c1, pushed⟩, h, ho⟩
      · obtain ⟨order, hp, he⟩ := levelBatchP_one hb hlen h
        refine ⟨fun r l => if l = (id :: stack).take cap then order else l, c, ?_, ?_⟩
        · intro r l
          dsimp only
          split
          · next h => rw [h]; exact hp
          · exact .refl _
        · unfold levelLoop
          simp only [if_true]
          cases hl : levelBatch ci adj d g st order with
          | error f =>
            rw [hl] at he
            simp only [Except.map, Except.error.injEq] at he
            subst he
            rfl
          | ok r =>
            rw [hl] at he
            simp [Except.map] at he
      · obtain ⟨order, hp, he⟩ := levelBatchP_one hb hlen h
        cases hl : levelBatch ci adj d g st order with
        | error f =>
          rw [hl] at he
          simp [Except.map] at he
        | ok r =>
          rw [hl] at he
          simp only [Except.map, Except.ok.injEq, Prod.mk.injEq] at he
          obtain ⟨rfl, -, rfl⟩ := he
          have hn' : (((id :: stack).take cap).filter (fun i => i ∈ r.2) ++ (id :: stack).drop cap).Nodup := by
            have : ((id :: stack).take cap ++ (id :: stack).drop cap).Nodup := by rw [List.take_append_drop]; exact hn
            exact this.sublist (List.Sublist.append List.filter_sublist (.refl _))
          obtain ⟨sched, c', hs, ho'⟩ := ih r.1 c1 _ o hn' hcap ho
          refine ⟨fun q l => if q = fuel then (if l = (id :: stack).take cap then order else l) else sched q l, c', ?_, ?_⟩
          · intro q l
            dsimp only
            split
            · split
              · next h => rw [h]; exact hp
              · exact .refl _
            · exact hs q l
          · rw [ho']
            conv => rhs; unfold levelLoop
            simp only [if_true, hl, ok_bind]
            congr 1
            refine levelLoop_congr fuel (fun q hq l => ?_) _ _
            rw [if_neg (by omega)]

theorem searchAtDepthP_one {fuel : Nat} {k : Skeleton} {c : Nat} {o : Except Fault (Skeleton × Nat × Bool)} (hcap : 0 < cap)
    (h : searchAtDepthP 1 ci d g cap fuel k c o) : ∃ (sched : Schedule) (c' : Nat), (∀ r l, (sched r l).Perm l) ∧
      o = (searchAtDepth ci d g cap sched fuel k).map (fun r => (r.1, c', r.2)) := by
  unfold searchAtDepthP at h
  rcases h with ⟨e, h, rfl⟩ | ⟨⟨st, c1⟩, h, ho⟩
  · obtain ⟨sched, c', hs, he⟩ := levelLoopP_one _ _ _ _ _ List.nodup_range hcap h
    refine ⟨sched, c', hs, ?_⟩
    unfold searchAtDepth
    cases hl : levelLoop ci k.adj d g cap sched fuel ⟨k.edges.map (fun e => { e with process := .no }), k.sep⟩
      (List.range (k.edges.map (fun e => { e with process := .no })).length) with
    | error f =>
      rw [hl] at he
      simp only [Except.map, Except.error.injEq] at he
      subst he
      simp only [hl]
      rfl
    | ok r =>
      rw [hl] at he
      simp [Except.map] at he
  · obtain ⟨sched, c', hs, he⟩ := levelLoopP_one _ _ _ _ _ List.nodup_range hcap h
    refine ⟨sched, c', hs, ?_⟩
    unfold searchAtDepth
    cases hl : levelLoop ci k.adj d g cap sched fuel ⟨k.edges.map (fun e => { e with process := .no }), k.sep⟩
      (List.range (k.edges.map (fun e => { e with process := .no })).length) with
    | error f =>
      rw [hl] at he
      simp [Except.map] at he
    | ok r =>
      rw [hl] at he
      simp only [Except.map, Except.ok.injEq, Prod.mk.injEq] at he
      obtain ⟨rfl, rfl⟩ := he
      simp only [hl, ok_bind]
      have ho' : (Par.lift (removeMarked st.edges k.adj) >>= fun q => Par.lift
        (.ok ((⟨q.1, q.2, st.sep⟩ : Skeleton), c1, decide (freeDegree q.2 > d)))) o := ho
      rw [Par.lift_lift] at ho'
      refine Eq.trans (show o = _ from ho') ?_
      cases removeMarked st.edges k.adj <;> rfl

theorem levels_congr {fuel : Nat} {s s' : Nat → Schedule} : ∀ (count d : Nat), (∀ e, d ≤ e → s e = s' e) → ∀ k : Skeleton,
    levels ci g cap s fuel d count k = levels ci g cap s' fuel d count k := by
  intro count
  induction count with
  | zero => intro d _ k; rfl
  | succ count ih =>
    intro d h k
    unfold levels
    rw [h d (le_refl d)]
    refine congrArg _ (funext fun r => ?_)
    obtain ⟨k1, more⟩ := r
    cases more with
    | false => rfl
    | true => exact ih (d + 1) (fun e he => h e (by omega)) k1

theorem levelsP_one {fuel : Nat} (hcap : 0 < cap) : ∀ (count d : Nat) (k : Skeleton) (c : Nat) (o : Except Fault (Skeleton × Nat)),
    levelsP 1 ci g cap fuel d count k c o → ∃ (sched : Nat → Schedule) (c' : Nat), (∀ d r l, (sched d r l).Perm l) ∧
      o = (levels ci g cap sched fuel d count k).map (fun k => (k, c')) := by
  intro count
  induction count with
  | zero => intro d k c o h; exact ⟨fun _ _ l => l, c, fun _ _ l => .refl _, h⟩
  | succ count ih =>
    intro d k c o h
    unfold levelsP at h
    rcases h with ⟨e, h, rfl⟩ | ⟨⟨k1, c1, more⟩, h, ho⟩
    · obtain ⟨sched, c', hs, he⟩ := searchAtDepthP_one hcap h
      refine ⟨fun _ => sched, c', fun _ => hs, ?_⟩
      unfold levels
      cases hl : searchAtDepth ci d g cap sched fuel k with
      | error f =>
        rw [hl] at he
        simp only [Except.map, Except.error.injEq] at he
        subst he
        rfl
      | ok r =>
        rw [hl] at he
        simp [Except.map] at he
    · obtain ⟨sched, c', hs, he⟩ := searchAtDepthP_one hcap h
      cases hl : searchAtDepth ci d g cap sched fuel k with
      | error f =>
        rw [hl] at he
        simp [Except.map] at he
      | ok r =>
        rw [hl] at he
        simp only [Except.map, Except.ok.injEq, Prod.mk.injEq] at he
        obtain ⟨rfl, rfl, rfl⟩ := he
        obtain ⟨k1, more⟩ := r
        cases more with
        | false =>
          refine ⟨fun _ => sched, c1, fun _ => hs, ?_⟩
          unfold levels
          simp only [hl, ok_bind]
          exact ho
        | true =>
          obtain ⟨sched', c', hs', ho'⟩ := ih (d + 1) k1 c1 o ho
          refine ⟨fun e => if e = d then sched else sched' e, c', ?_, ?_⟩
          · intro e r l
            dsimp only
            split
            · exact hs r l
            · exact hs' e r l
          · rw [ho']
            conv => rhs; unfold levels
            simp only [if_true, hl, ok_bind]
            congr 1
            refine levels_congr count (d + 1) (fun e he => ?_) k1
            rw [if_neg (by omega)]

/-- With one thread every outcome of the skeleton phase is an outcome of the sequential model. -/
theorem learnSkeletonP_one {n depth fuel : Nat} (hcap : 0 < cap) {o : Except Fault (Skeleton × Nat)} (h : learnSkeletonP 1 ci n depth g cap fuel o) :
    ∃ (order : List Nat) (sched : Nat → Schedule) (c : Nat), order.Perm (List.range (n * (n - 1) / 2)) ∧ (∀ d r l, (sched d r l).Perm l) ∧
      o = (learnSkeleton ci n depth g cap order sched fuel).map (fun k => (k, c)) := by
  unfold learnSkeletonP at h
  rcases h with ⟨e, h, rfl⟩ | ⟨⟨k, c⟩, h, ho⟩
  · obtain ⟨order, hp, he⟩ := level0P_one.1 h
    refine ⟨order, fun _ _ l => l, 0, hp, fun _ _ l => .refl _, ?_⟩
    unfold learnSkeleton
    cases hl : level0 ci n order with
    | error f =>
      rw [hl] at he
      simp only [Except.map, Except.error.injEq] at he
      subst he
      rfl
    | ok r =>
      rw [hl] at he
      simp [Except.map] at he
  · obtain ⟨order, hp, he⟩ := level0P_one.1 h
    cases hl : level0 ci n order with
    | error f =>
      rw [hl] at he
      simp [Except.map] at he
    | ok r =>
      rw [hl] at he
      simp only [Except.map, Except.ok.injEq, Prod.mk.injEq] at he
      obtain ⟨rfl, rfl⟩ := he
      obtain ⟨sched, c', hs, ho'⟩ := levelsP_one hcap _ _ _ _ _ ho
      refine ⟨order, sched, c', hp, hs, ?_⟩
      unfold learnSkeleton
      rw [hl, ok_bind]
      exact ho'

end FastPGM
