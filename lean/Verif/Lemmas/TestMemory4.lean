import Verif.Lemmas.TestMemory3

/-!
The test of a group on the memory.
-/

namespace FastPGM

variable {K : Type}

theorem exc_bind_ok {α β : Type} {x : Except Fault α} {f : α → Except Fault β} {b : β} (h : (x >>= f) = .ok b) : ∃ a, x = .ok a ∧ f a = .ok b := by
  cases x with
  | error e => cases h
  | ok a => exact ⟨a, rfl, h⟩

theorem wr_length {α : Type} {l l' : List α} {i : Nat} {v : α} (h : wr l i v = .ok l') : l'.length = l.length := by
  unfold wr at h; split at h
  · injection h with h; rw [← h]; simp
  · cases h

theorem fold_length {ι : Type} {g : List Nat → ι → Except Fault (List Nat)} (hg : ∀ c i c', g c i = .ok c' → c'.length = c.length) :
    ∀ (l : List ι) (c c' : List Nat), l.foldlM g c = .ok c' → c'.length = c.length := by
  intro l
  induction l with
  | nil => intro c c' h; cases h; rfl
  | cons i l ih =>
    intro c c' h
    rw [List.foldlM_cons] at h
    cases h1 : g c i with
    | error e => rw [h1] at h; cases h
    | ok d => rw [h1, exc_ok] at h; rw [ih d c' h, hg c i d h1]

theorem cumLevelsGroupMem_run {condDims : List Nat} {depth size : Nat} (hd : depth ≠ 1) (M : IntMem) :
    cumLevelsGroupMem condDims depth size M = (cumLevelsGroup condDims depth size >>= fun r =>
      .ok ((some M.next, r.2), M.alloc (maskArr (fun i => decide (i < size * depth)) r.1))) := by
  unfold cumLevelsGroupMem cumLevelsGroup
  rw [if_neg hd, if_neg hd, memBind, newArr_run, exc_ok, memBind]
  have h := fold_sim (α := List Nat × List Nat) (β := List Nat) (f := fun (dimz : List Nat) j => do
      if (j + 1) * depth = 0 then noMem (.error .ub) else store M.next ((j + 1) * depth - 1) 1
      (List.range (depth - 1)).reverse.foldlM (fun _ i => do
        let a ← load M.next (j * depth + i + 1)
        let d ← noMem (rd condDims (j * depth + i + 1))
        store M.next (j * depth + i) (a * d)) ()
      let a ← load M.next (j * depth)
      let d ← noMem (rd condDims (j * depth))
      return dimz ++ [a * d])
    (g := fun (st : List Nat × List Nat) j => do
      let cum ← (if (j + 1) * depth = 0 then .error .ub else wr st.1 ((j + 1) * depth - 1) 1)
      let cum ← (List.range (depth - 1)).reverse.foldlM (fun c i => do
        let a ← rd c (j * depth + i + 1)
        let d ← rd condDims (j * depth + i + 1)
        wr c (j * depth + i) (a * d)) cum
      let a ← rd cum (j * depth)
      let d ← rd condDims (j * depth)
      return (cum, st.2 ++ [a * d]))
    (S := fun r st => M.alloc (maskArr (fun i => decide (i < (size - r.length) * depth)) st.1)) (v := Prod.snd) (l := List.range size)
    (by
      intro j l' st hs
      obtain ⟨h1, h2⟩ := suffix_range hs
      have e1 : size - (j :: l').length = j := by simp only [List.length_cons]; omega
      have e2 : size - l'.length = j + 1 := by omega
      rw [e1, e2]
      dsimp only
      have hmul : (j + 1) * depth = j * depth + depth := Nat.succ_mul j depth
      by_cases h0 : (j + 1) * depth = 0
      · rw [if_pos h0, if_pos h0]; rfl
      · have hdp : 0 < depth := Nat.pos_of_ne_zero (fun h => h0 (by rw [h, Nat.mul_zero]))
        rw [if_neg h0, if_neg h0, memBind, store_mask (alloc_get M _)
          (q := fun i => decide (i < j * depth ∨ (j * depth + (depth - 1) ≤ i ∧ i < (j + 1) * depth)))
          (by intro i; rw [Bool.eq_iff_iff]; simp; omega), exc_assoc, exc_assoc]
        refine exc_bind_congr (fun c _ => ?_)
        rw [exc_ok, alloc_put, memBind]
        have hin := fold_sim (α := List Nat) (f := fun (_ : Unit) i => do
            let a ← load M.next (j * depth + i + 1)
            let d ← noMem (rd condDims (j * depth + i + 1))
            store M.next (j * depth + i) (a * d))
          (g := fun c i => do
            let a ← rd c (j * depth + i + 1)
            let d ← rd condDims (j * depth + i + 1)
            wr c (j * depth + i) (a * d))
          (S := fun r c => M.alloc (maskArr (fun i => decide (i < j * depth ∨ (j * depth + r.length ≤ i ∧ i < (j + 1) * depth))) c))
          (v := fun _ => ()) (l := (List.range (depth - 1)).reverse)
          (by
            intro a l'' s hs
            obtain ⟨h3, h4⟩ := suffix_range_rev hs
            subst h3
            rw [memBind, load_mask (alloc_get M _) (by intro _; simp only [List.length_cons, decide_eq_true_eq]; omega), exc_assoc, exc_assoc]
            refine exc_bind_congr (fun x _ => ?_)
            rw [exc_ok, memBind, noMem_run, exc_assoc, exc_assoc]
            refine exc_bind_congr (fun d _ => ?_)
            rw [exc_ok, store_mask (alloc_get M _)
              (q := fun i => decide (i < j * depth ∨ (j * depth + l''.length ≤ i ∧ i < (j + 1) * depth)))
              (by intro j'; simp only [List.length_cons]; rw [Bool.eq_iff_iff]; simp; omega)]
            refine exc_bind_congr (fun x _ => ?_)
            rw [alloc_put]) c
        simp only [List.length_reverse, List.length_range] at hin
        rw [hin, exc_assoc, exc_assoc]
        refine exc_bind_congr (fun c' _ => ?_)
        have hm : maskArr (fun i => decide (i < j * depth ∨ (j * depth + ([] : List Nat).length ≤ i ∧ i < (j + 1) * depth))) c' =
            maskArr (fun i => decide (i < (j + 1) * depth)) c' :=
          maskArr_congr (by intro i hi; rw [Bool.eq_iff_iff]; simp; omega)
        rw [exc_ok, hm, memBind, load_mask (alloc_get M _) (by intro _; simp only [decide_eq_true_eq]; omega), exc_assoc, exc_assoc]
        refine exc_bind_congr (fun a _ => ?_)
        rw [exc_ok, memBind, noMem_run, exc_assoc, exc_assoc]
        refine exc_bind_congr (fun d _ => ?_)
        rfl) (List.replicate condDims.length 0, [])
  simp only [List.length_range, Nat.sub_self, Nat.zero_mul, Nat.not_lt_zero, decide_false, maskArr_false, List.length_nil, Nat.sub_zero] at h
  rw [h, exc_assoc]
  refine exc_bind_congr (fun r _ => ?_)
  rfl

theorem cumDimsMem_run {dimz : List Nat} {size : Nat} (hs : 0 < size) (M : IntMem) :
    cumDimsMem dimz size M = (cumDims dimz size >>= fun r => .ok ((M.next, r.2), M.alloc (r.1.map some))) := by
  unfold cumDimsMem cumDims
  rw [memBind, newArr_run, exc_ok, memBind, store_mask (l := List.replicate size 0) (p := fun _ => false) (q := fun i => decide (i = 0))
    (by rw [alloc_get, maskArr_false]) (by intro j; simp), exc_assoc, exc_assoc]
  refine exc_bind_congr (fun c _ => ?_)
  rw [exc_ok, alloc_put, memBind]
  have h := fold_sim (α := List Nat) (f := fun (_ : Unit) i => do
      let a ← load M.next i
      let d ← noMem (rd dimz i)
      store M.next (i + 1) (a + d))
    (g := fun c i => do
      let a ← rd c i
      let d ← rd dimz i
      wr c (i + 1) (a + d))
    (S := fun r c => M.alloc (maskArr (fun i => decide (i < size - r.length)) c)) (v := fun _ => ()) (l := List.range (size - 1))
    (by
      intro a l' s hs
      obtain ⟨h1, h2⟩ := suffix_range hs
      rw [memBind, load_mask (alloc_get M _) (by intro _; simp only [List.length_cons, decide_eq_true_eq]; omega), exc_assoc, exc_assoc]
      refine exc_bind_congr (fun x _ => ?_)
      rw [exc_ok, memBind, noMem_run, exc_assoc, exc_assoc]
      refine exc_bind_congr (fun d _ => ?_)
      rw [exc_ok, store_mask (alloc_get M _) (q := fun i => decide (i < size - l'.length))
        (by intro j; simp only [List.length_cons]; rw [Bool.eq_iff_iff]; simp; omega)]
      refine exc_bind_congr (fun x _ => ?_)
      rw [alloc_put]) c
  have hS : maskArr (fun i => decide (i = 0)) c = maskArr (fun i => decide (i < size - (List.range (size - 1)).length)) c :=
    maskArr_congr (by intro i _; rw [Bool.eq_iff_iff]; simp; omega)
  rw [hS, h, exc_assoc, exc_assoc]
  refine exc_bind_congr (fun c' hc' => ?_)
  have hlen : c'.length = size := by
    rw [fold_length (fun c i c' h => ?_) _ _ _ hc', ‹wr _ _ _ = _› |> wr_length]
    · simp
    · obtain ⟨_, _, h⟩ := exc_bind_ok h
      obtain ⟨_, _, h⟩ := exc_bind_ok h
      exact wr_length h
  have hm : maskArr (fun i => decide (i < size - ([] : List Nat).length)) c' = c'.map some := by
    rw [← maskArr_true]; exact maskArr_congr (by intro i hi; simp; omega)
  rw [exc_ok, memBind, hm, load_all (alloc_get M _), exc_assoc, exc_assoc]
  refine exc_bind_congr (fun a _ => ?_)
  rw [exc_ok, memBind, noMem_run, exc_assoc, exc_assoc]
  refine exc_bind_congr (fun d _ => ?_)
  rfl

theorem cumDims_length {dimz : List Nat} {size : Nat} {r : List Nat × Nat} (h : cumDims dimz size = .ok r) : r.1.length = size := by
  unfold cumDims at h
  obtain ⟨c, hc, h⟩ := exc_bind_ok h
  obtain ⟨c', hc', h⟩ := exc_bind_ok h
  obtain ⟨a, _, h⟩ := exc_bind_ok h
  obtain ⟨d, _, h⟩ := exc_bind_ok h
  cases h
  show c'.length = size
  rw [fold_length (fun c i c' h => ?_) _ _ _ hc', wr_length hc]
  · simp
  · obtain ⟨_, _, h⟩ := exc_bind_ok h
    obtain ⟨_, _, h⟩ := exc_bind_ok h
    exact wr_length h

theorem newOffsets_run {M : IntMem} {off size f : Nat} {ofs : List Nat} (h : M.arr off = some (ofs.map some)) (hl : ofs.length = size)
    (hne : off ≠ M.next) : newOffsets off size f M = .ok (M.next, M.alloc ((ofs.map (· * f)).map some)) := by
  unfold newOffsets
  rw [memBind, newArr_run, exc_ok, memBind]
  have hs := fold_sim (α := Unit) (f := fun (_ : Unit) i => do
      let d ← load off i
      store M.next i (d * f)) (g := fun _ _ => .ok ())
    (S := fun r _ => M.alloc (maskArr (fun i => decide (i < size - r.length)) (ofs.map (· * f)))) (v := fun _ => ()) (l := List.range size)
    (by
      intro a l' s hs
      obtain ⟨h1, h2⟩ := suffix_range hs
      have ha : a < ofs.length := by omega
      rw [memBind, load_all (l := ofs) (by rw [alloc_get_ne _ _ hne]; exact h), rd_ok (List.getElem?_eq_getElem ha), exc_ok, exc_ok,
        store_mask (alloc_get M _) (q := fun i => decide (i < size - l'.length))
        (by intro j; simp only [List.length_cons]; rw [Bool.eq_iff_iff]; simp; omega), wr_ok (by simpa using ha), exc_ok, exc_ok, alloc_put]
      congr 4
      apply List.ext_getElem?
      intro i
      rw [List.getElem?_set]
      split
      · rename_i hi; subst hi; simp [ha]
      · rfl) ()
  have hS : List.replicate size none = maskArr (fun i => decide (i < size - (List.range size).length)) (ofs.map (· * f)) := by
    apply List.ext_getElem?
    intro i
    rw [maskArr_get]
    by_cases hi : i < size
    · simp [hi, hl]
    · rw [List.getElem?_eq_none (by simp; omega), List.getElem?_eq_none (by simp; omega)]; rfl
  have hg : ∀ l : List Nat, l.foldlM (fun (_ : Unit) _ => (.ok () : Except Fault Unit)) () = .ok () := by
    intro l
    induction l with
    | nil => rfl
    | cons a l ih => rw [List.foldlM_cons, exc_ok]; exact ih
  have hm : maskArr (fun i => decide (i < size - ([] : List Nat).length)) (ofs.map (· * f)) = (ofs.map (· * f)).map some := by
    rw [← maskArr_true]
    refine maskArr_congr (fun i hi => ?_)
    simp at hi
    simp
    omega
  rw [hS, hs, hg, exc_ok, exc_ok, memPure, hm]

end FastPGM
