import Verif.Model.Threads
import Verif.Lemmas.Except
import Mathlib.Data.List.Perm.Basic
import Mathlib.Data.List.Nodup
import Mathlib.Algebra.BigOperators.Group.List.Basic

/-!
Parallel loops whose iterations do not touch what another one writes: every execution ends, none has a data race, and all give the same
memory.
-/

namespace FastPGM

variable {L V α β : Type} [DecidableEq L]

/-- Run alone from memory `m`, the program accesses only places of `R` and `W`, writes only places of `W`, never faults, and ends with
`Q`. -/
def Thread.Safe (R W : L → Prop) : Thread L V α → Mem L V → (α → Mem L V → Prop) → Prop
  | .ret a, m, Q => Q a m
  | .fault _, _, _ => False
  | .read l k, m, Q => (R l ∨ W l) ∧ ∃ v, m l = some (some v) ∧ (k v).Safe R W m Q
  | .write l v k, m, Q => W l ∧ m l ≠ none ∧ k.Safe R W (m.put l v) Q

namespace Thread

variable {R W R' W' : L → Prop}

omit [DecidableEq L] in
theorem bind_eq (p : Thread L V α) (f : α → Thread L V β) : (p >>= f) = p.bind f := rfl

theorem Safe.bind {p : Thread L V α} {f : α → Thread L V β} {Q : β → Mem L V → Prop} : ∀ {m : Mem L V},
    p.Safe R W m (fun a m' => (f a).Safe R W m' Q) → (p.bind f).Safe R W m Q := by
  induction p with
  | ret a => intro m h; exact h
  | fault e => intro m h; exact h.elim
  | read l k ih => intro m ⟨h1, v, h2, h3⟩; exact ⟨h1, v, h2, ih v h3⟩
  | write l v k ih => intro m ⟨h1, h2, h3⟩; exact ⟨h1, h2, ih h3⟩

theorem Safe.mono {p : Thread L V α} {Q Q' : α → Mem L V → Prop} (hR : ∀ l, R l → R' l ∨ W' l) (hW : ∀ l, W l → W' l) (hQ : ∀ a m, Q a m → Q' a m) :
    ∀ {m : Mem L V}, p.Safe R W m Q → p.Safe R' W' m Q' := by
  induction p with
  | ret a => intro m h; exact hQ _ _ h
  | fault e => intro m h; exact h.elim
  | read l k ih =>
    intro m ⟨h1, v, h2, h3⟩
    exact ⟨h1.elim (hR l) (fun h => .inr (hW l h)), v, h2, ih v h3⟩
  | write l v k ih => intro m ⟨h1, h2, h3⟩; exact ⟨hW l h1, h2, ih h3⟩

theorem Safe.frame {p : Thread L V α} {Q : α → Mem L V → Prop} : ∀ {m : Mem L V}, p.Safe R W m Q →
    p.Safe R W m (fun a m' => Q a m' ∧ ∀ l, ¬ W l → m' l = m l) := by
  induction p with
  | ret a => intro m h; exact ⟨h, fun _ _ => rfl⟩
  | fault e => intro m h; exact h.elim
  | read l k ih => intro m ⟨h1, v, h2, h3⟩; exact ⟨h1, v, h2, ih v h3⟩
  | write l v k ih =>
    intro m ⟨h1, h2, h3⟩
    refine ⟨h1, h2, (ih h3).mono (fun _ h => .inl h) (fun _ h => h) ?_⟩
    rintro a m' ⟨hq, hf⟩
    refine ⟨hq, fun x hx => ?_⟩
    rw [hf x hx, Mem.put, if_neg (fun e : x = l => hx (e ▸ h1))]

/-- Memory outside the footprint does not matter. -/
theorem Safe.congr {p : Thread L V α} {Q : α → Mem L V → Prop}
    (hQ : ∀ a x y, (∀ l, R l ∨ W l → x l = y l) → Q a x → Q a y) : ∀ {m m' : Mem L V}, (∀ l, R l ∨ W l → m l = m' l) →
    p.Safe R W m Q → p.Safe R W m' Q := by
  induction p with
  | ret a => intro m m' e h; exact hQ _ _ _ e h
  | fault e => intro m m' e h; exact h.elim
  | read l k ih =>
    intro m m' e ⟨h1, v, h2, h3⟩
    exact ⟨h1, v, (e l h1).symm.trans h2, ih v e h3⟩
  | write l v k ih =>
    intro m m' e ⟨h1, h2, h3⟩
    refine ⟨h1, e l (.inr h1) ▸ h2, ih (fun x hx => ?_) h3⟩
    simp only [Mem.put]
    split
    · rfl
    · exact e x hx

/-- The number of accesses of the program run alone. -/
def cost : Thread L V α → Mem L V → Nat
  | .ret _, _ => 0
  | .fault _, _ => 0
  | .read l k, m =>
    match m l with
    | some (some v) => (k v).cost m + 1
    | _ => 0
  | .write l v k, m => k.cost (m.put l v) + 1

theorem Safe.cost_congr {p : Thread L V α} {Q : α → Mem L V → Prop} : ∀ {m m' : Mem L V}, (∀ l, R l ∨ W l → m l = m' l) →
    p.Safe R W m Q → p.cost m' = p.cost m := by
  induction p with
  | ret a => intro m m' e h; rfl
  | fault e => intro m m' e h; exact h.elim
  | read l k ih =>
    intro m m' e ⟨h1, v, h2, h3⟩
    have h2' := (e l h1).symm.trans h2
    simp only [cost, h2, h2', ih v e h3]
  | write l v k ih =>
    intro m m' e ⟨h1, h2, h3⟩
    simp only [cost]
    rw [ih (fun x hx => ?_) h3]
    simp only [Mem.put]
    split
    · rfl
    · exact e x hx

/-- One access of a safe program. -/
theorem Safe.step {p : Thread L V α} {Q : α → Mem L V → Prop} {m : Mem L V} (h : p.Safe R W m Q) (hd : ¬ p.done) :
    ∃ p' m', p.step m = .ok (p', m') ∧ p'.Safe R W m' Q ∧ (∀ l, ¬ W l → m' l = m l) ∧ p.cost m = p'.cost m' + 1 := by
  cases p with
  | ret a => exact absurd trivial hd
  | fault e => exact h.elim
  | read l k =>
    obtain ⟨h1, v, h2, h3⟩ := h
    refine ⟨k v, m, ?_, h3, fun _ _ => rfl, ?_⟩
    · simp only [Thread.step, h2]
    · simp only [cost, h2]
  | write l v k =>
    obtain ⟨h1, h2, h3⟩ := h
    refine ⟨k, m.put l v, ?_, h3, fun x hx => ?_, rfl⟩
    · simp only [Thread.step]
      cases e : m l with
      | none => exact absurd e h2
      | some o => rfl
    · rw [Mem.put, if_neg (fun e : x = l => hx (e ▸ h1))]

theorem Safe.next {p : Thread L V α} {Q : α → Mem L V → Prop} {m : Mem L V} (h : p.Safe R W m Q) {l : L} {w : Bool} (hn : p.next = some (l, w)) :
    (R l ∨ W l) ∧ (w = true → W l) := by
  cases p with
  | ret a => simp [Thread.next] at hn
  | fault e => exact h.elim
  | read l' k =>
    simp only [Thread.next, Option.some.injEq, Prod.mk.injEq] at hn
    obtain ⟨rfl, rfl⟩ := hn
    exact ⟨h.1, by simp⟩
  | write l' v k =>
    simp only [Thread.next, Option.some.injEq, Prod.mk.injEq] at hn
    obtain ⟨rfl, rfl⟩ := hn
    exact ⟨.inr h.1, fun _ => h.1⟩

theorem Safe.done {p : Thread L V Unit} {Q : Unit → Mem L V → Prop} {m : Mem L V} (h : p.Safe R W m Q) (hd : p.done) : Q () m := by
  cases p with
  | ret a => exact h
  | fault e => exact h.elim
  | read l k => exact hd.elim
  | write l v k => exact hd.elim

/-- Iterations one after the other. -/
theorem Safe.seq {R W : Nat → L → Prop} {body : Nat → Thread L V Unit} {m0 m' : Mem L V} {n : Nat}
    (hsafe : ∀ i < n, (body i).Safe (R i) (W i) m0 (fun _ x => ∀ l, W i l → x l = m' l))
    (hdisj : ∀ i < n, ∀ j < n, i ≠ j → ∀ l, W i l → ¬ R j l ∧ ¬ W j l) :
    ∀ (is : List Nat), is.Nodup → (∀ i ∈ is, i < n) → ∀ m : Mem L V, (∀ i ∈ is, ∀ l, R i l ∨ W i l → m l = m0 l) →
      (Thread.seq (is.map body)).Safe (fun l => ∃ i ∈ is, R i l) (fun l => ∃ i ∈ is, W i l) m (fun _ x => ∀ i ∈ is, ∀ l, W i l → x l = m' l) := by
  intro is
  induction is with
  | nil => intro _ _ m _; exact fun i hi => by simp at hi
  | cons i is ih =>
    intro hnd hlt m hm
    obtain ⟨hni, hnd'⟩ := List.nodup_cons.mp hnd
    have hi : i < n := hlt i (by simp)
    have h1 : (body i).Safe (R i) (W i) m (fun _ x => ∀ l, W i l → x l = m' l) :=
      Safe.congr (fun a x y e hq l hl => (e l (.inr hl)).symm.trans (hq l hl)) (fun l hl => (hm i (by simp) l hl).symm) (hsafe i hi)
    refine Safe.bind ((h1.frame).mono (fun l h => .inl ⟨i, by simp, h⟩) (fun l h => ⟨i, by simp, h⟩) ?_)
    rintro _ x ⟨hq, hf⟩
    have hx : ∀ j ∈ is, ∀ l, R j l ∨ W j l → x l = m0 l := by
      intro j hj l hl
      have hne : i ≠ j := fun e => hni (e ▸ hj)
      rw [hf l (fun hw => ?_), hm j (by simp [hj]) l hl]
      exact hl.elim (hdisj i hi j (hlt j (by simp [hj])) hne l hw).1 (hdisj i hi j (hlt j (by simp [hj])) hne l hw).2
    refine ((ih hnd' (fun j hj => hlt j (by simp [hj])) x hx).frame).mono (fun l ⟨j, hj, h⟩ => .inl ⟨j, by simp [hj], h⟩)
      (fun l ⟨j, hj, h⟩ => ⟨j, by simp [hj], h⟩) ?_
    rintro _ y ⟨hy, hfy⟩ j hj l hl
    rcases List.mem_cons.mp hj with rfl | hj
    · rw [hfy l, hq l hl]
      rintro ⟨j', hj', hw⟩
      exact (hdisj j hi j' (hlt j' (by simp [hj'])) (fun e => hni (e ▸ hj')) l hl).2 hw
    · exact hy j hj l hl

end Thread

/-- What holds of a team at any time of the loop. -/
structure Team.Inv (A : Nat → L → Prop) (B : Nat → L → Prop) (Q : Nat → Mem L V → Prop) (m0 : Mem L V) (n : Nat) (t : Team L V) : Prop where
  len : t.threads.length = n
  safe : ∀ i (p : Thread L V Unit), t.threads[i]? = some p → p.Safe (A i) (B i) t.mem (fun _ => Q i)
  same : ∀ l, (∀ i < n, ¬ B i l) → t.mem l = m0 l

/-- The remaining accesses of all threads. -/
def Team.work (t : Team L V) : Nat := (t.threads.map (fun p => p.cost t.mem)).sum

namespace Team

variable {A B : Nat → L → Prop} {Q : Nat → Mem L V → Prop} {m0 : Mem L V} {n : Nat}

theorem sum_map_set {γ : Type} (f g : γ → Nat) (l : List γ) (i : Nat) (x y : γ) (h : l[i]? = some x)
    (he : ∀ j q, j ≠ i → l[j]? = some q → g q = f q) : ((l.set i y).map g).sum + f x = (l.map f).sum + g y := by
  induction l generalizing i with
  | nil => simp at h
  | cons a as ih =>
    cases i with
    | zero =>
      have e : as.map g = as.map f := by
        apply List.map_congr_left
        intro q hq
        obtain ⟨j, hj⟩ := List.mem_iff_getElem?.mp hq
        exact he (j + 1) q (by omega) (by simpa using hj)
      simp only [List.getElem?_cons_zero, Option.some.injEq] at h
      subst h
      rw [List.set_cons_zero, List.map_cons, List.map_cons, List.sum_cons, List.sum_cons, e]
      omega
    | succ i =>
      simp only [List.getElem?_cons_succ] at h
      have := ih i h (fun j q hj hq => he (j + 1) q (by omega) (by simpa using hq))
      have h0 := he 0 a (by omega) (by simp)
      rw [List.set_cons_succ, List.map_cons, List.map_cons, List.sum_cons, List.sum_cons, h0]
      omega

theorem Inv.step (hdisj : ∀ i < n, ∀ j < n, i ≠ j → ∀ l, B i l → ¬ A j l ∧ ¬ B j l)
    (hQ : ∀ i < n, ∀ x y, (∀ l, A i l ∨ B i l → x l = y l) → Q i x → Q i y) {t t' : Team L V} (h : t.Inv A B Q m0 n) (hs : Step t t') :
    t'.Inv A B Q m0 n ∧ t.work = t'.work + 1 := by
  obtain ⟨i, p, p', m, hi, hd, hs⟩ := hs
  have hin : i < n := by rw [← h.len]; exact (List.getElem?_eq_some_iff.mp hi).1
  obtain ⟨p1, m1, e1, hsafe, hframe, hcost⟩ := (h.safe i p hi).step hd
  rw [e1] at hs
  obtain ⟨rfl, rfl⟩ := Prod.mk.inj (Except.ok.inj hs)
  have hother : ∀ j q, j ≠ i → t.threads[j]? = some q → ∀ l, A j l ∨ B j l → t.mem l = m1 l := by
    intro j q hji hj l hl
    have hjn : j < n := by rw [← h.len]; exact (List.getElem?_eq_some_iff.mp hj).1
    exact (hframe l (fun hw => hl.elim (hdisj i hin j hjn (Ne.symm hji) l hw).1 (hdisj i hin j hjn (Ne.symm hji) l hw).2)).symm
  refine ⟨⟨by simp [h.len], ?_, ?_⟩, ?_⟩
  · intro j q hj
    by_cases hji : j = i
    · subst hji
      have : (t.threads.set j p1)[j]? = some p1 := by
        rw [List.getElem?_set_self (by rw [h.len]; exact hin)]
      rw [this] at hj
      exact Option.some.inj hj ▸ hsafe
    · rw [List.getElem?_set_ne (Ne.symm hji)] at hj
      have hjn : j < n := by rw [← h.len]; exact (List.getElem?_eq_some_iff.mp hj).1
      exact Thread.Safe.congr (fun _ => hQ j hjn) (hother j q hji hj) (h.safe j q hj)
  · intro l hl
    show m1 l = m0 l
    rw [hframe l (hl i hin), h.same l hl]
  · have hc := sum_map_set (fun q : Thread L V Unit => q.cost t.mem) (fun q => q.cost m1) t.threads i p p1 hi
      (fun j q hji hj => (h.safe j q hj).cost_congr (hother j q hji hj))
    simp only [work] at hc ⊢
    omega

theorem Inv.reaches (hdisj : ∀ i < n, ∀ j < n, i ≠ j → ∀ l, B i l → ¬ A j l ∧ ¬ B j l)
    (hQ : ∀ i < n, ∀ x y, (∀ l, A i l ∨ B i l → x l = y l) → Q i x → Q i y) {t t' : Team L V} (h : t.Inv A B Q m0 n) (hs : t.Reaches t') :
    t'.Inv A B Q m0 n := by
  induction hs with
  | refl => exact h
  | tail _ hs ih => exact (ih.step hdisj hQ hs).1

theorem Inv.no_race (hdisj : ∀ i < n, ∀ j < n, i ≠ j → ∀ l, B i l → ¬ A j l ∧ ¬ B j l) {t : Team L V} (h : t.Inv A B Q m0 n) : ¬ t.Race := by
  rintro ⟨i, j, p, q, l, w, w', hij, hp, hq, hn, hn', hw⟩
  have hin : i < n := by rw [← h.len]; exact (List.getElem?_eq_some_iff.mp hp).1
  have hjn : j < n := by rw [← h.len]; exact (List.getElem?_eq_some_iff.mp hq).1
  obtain ⟨h1, h2⟩ := (h.safe i p hp).next hn
  obtain ⟨h3, h4⟩ := (h.safe j q hq).next hn'
  rcases hw with hw | hw
  · exact h3.elim (hdisj i hin j hjn hij l (h2 hw)).1 (hdisj i hin j hjn hij l (h2 hw)).2
  · exact h1.elim (hdisj j hjn i hin (Ne.symm hij) l (h4 hw)).1 (hdisj j hjn i hin (Ne.symm hij) l (h4 hw)).2

theorem Inv.no_fault {t : Team L V} (h : t.Inv A B Q m0 n) (f : Fault) : ¬ t.FaultsWith f := by
  rintro ⟨p, hp, he⟩
  obtain ⟨i, hi⟩ := List.mem_iff_getElem?.mp hp
  have hs := h.safe i p hi
  by_cases hd : p.done
  · cases p with
    | ret a => cases he
    | fault e => exact hs.elim
    | read l k => exact hd.elim
    | write l v k => exact hd.elim
  · obtain ⟨p', m', e, -⟩ := hs.step hd
    rw [e] at he
    cases he

theorem Inv.progress {t : Team L V} (h : t.Inv A B Q m0 n) (hf : ¬ t.finished) : ∃ t', Step t t' := by
  simp only [finished] at hf
  push Not at hf
  obtain ⟨p, hp, hd⟩ := hf
  obtain ⟨i, hi⟩ := List.mem_iff_getElem?.mp hp
  obtain ⟨p', m', e, -⟩ := (h.safe i p hi).step hd
  exact ⟨_, .mk i p p' m' hi hd e⟩

theorem Inv.finishes (hdisj : ∀ i < n, ∀ j < n, i ≠ j → ∀ l, B i l → ¬ A j l ∧ ¬ B j l)
    (hQ : ∀ i < n, ∀ x y, (∀ l, A i l ∨ B i l → x l = y l) → Q i x → Q i y) : ∀ (k : Nat) {t : Team L V}, t.Inv A B Q m0 n → t.work = k →
    ∃ t', t.Reaches t' ∧ t'.finished := by
  intro k
  induction k with
  | zero =>
    intro t h hk
    by_cases hf : t.finished
    · exact ⟨t, .refl, hf⟩
    · obtain ⟨t', hs⟩ := h.progress hf
      have := (h.step hdisj hQ hs).2
      omega
  | succ k ih =>
    intro t h hk
    by_cases hf : t.finished
    · exact ⟨t, .refl, hf⟩
    · obtain ⟨t', hs⟩ := h.progress hf
      obtain ⟨h', hw⟩ := h.step hdisj hQ hs
      obtain ⟨t'', hr, hf'⟩ := ih h' (by omega)
      exact ⟨t'', .head hs hr, hf'⟩

theorem Inv.no_diverge (hdisj : ∀ i < n, ∀ j < n, i ≠ j → ∀ l, B i l → ¬ A j l ∧ ¬ B j l)
    (hQ : ∀ i < n, ∀ x y, (∀ l, A i l ∨ B i l → x l = y l) → Q i x → Q i y) {u : Nat → Team L V} (h : (u 0).Inv A B Q m0 n) :
    ¬ ∀ k, Step (u k) (u (k + 1)) := by
  intro hs
  have key : ∀ k, (u k).Inv A B Q m0 n ∧ (u k).work + k = (u 0).work := by
    intro k
    induction k with
    | zero => exact ⟨h, rfl⟩
    | succ k ih =>
      obtain ⟨h1, h2⟩ := ih.1.step hdisj hQ (hs k)
      exact ⟨h1, by have := ih.2; omega⟩
  have := (key ((u 0).work + 1)).2
  omega

end Team

theorem nodup_disjoint_of_flatten {sched : List (List Nat)} (h : sched.flatten.Nodup) {i j : Nat} {a b : List Nat} (hij : i ≠ j)
    (ha : sched[i]? = some a) (hb : sched[j]? = some b) {x : Nat} (hx : x ∈ a) (hy : x ∈ b) : False := by
  rw [List.nodup_flatten] at h
  have h2 := h.2
  rw [List.pairwise_iff_getElem] at h2
  obtain ⟨hi, rfl⟩ := List.getElem?_eq_some_iff.mp ha
  obtain ⟨hj, rfl⟩ := List.getElem?_eq_some_iff.mp hb
  rcases Nat.lt_or_gt_of_ne hij with hlt | hlt
  · exact h2 i j hi hj hlt hx hy
  · exact h2 j i hj hi hlt hy hx

/-- The rule for parallel loops: if every iteration, run alone from the initial memory, stays within its footprint and leaves the values of
`m'` in what it writes, and no iteration touches what another one writes, then every execution ends with memory `m'`. -/
theorem parFor_eq {p n : Nat} (hp : 0 < p) {R W : Nat → L → Prop} {body : Nat → Thread L V Unit} {m m' : Mem L V}
    (hsafe : ∀ i < n, (body i).Safe (R i) (W i) m (fun _ x => ∀ l, W i l → x l = m' l))
    (hdisj : ∀ i < n, ∀ j < n, i ≠ j → ∀ l, W i l → ¬ R j l ∧ ¬ W j l)
    (hsame : ∀ l, (∀ i < n, ¬ W i l) → m' l = m l) : parFor p n body m = Par.lift (.ok m') := by
  have main : ∀ sched : List (List Nat), sched.flatten.Perm (List.range n) →
      let t : Team L V := ⟨m, sched.map (fun is => Thread.seq (is.map body))⟩
      ∃ A B Q, t.Inv A B Q m sched.length ∧ (∀ i < sched.length, ∀ j < sched.length, i ≠ j → ∀ l, B i l → ¬ A j l ∧ ¬ B j l) ∧
        (∀ i < sched.length, ∀ x y, (∀ l, A i l ∨ B i l → x l = y l) → Q i x → Q i y) ∧
        ∀ t' : Team L V, t'.Inv A B Q m sched.length → t'.finished → t'.mem = m' := by
    intro sched hperm t
    have hnd : sched.flatten.Nodup := hperm.nodup_iff.mpr List.nodup_range
    have hmem : ∀ i, i < n ↔ ∃ (k : Nat) (a : List Nat), sched[k]? = some a ∧ i ∈ a := by
      intro i
      rw [← List.mem_range, ← hperm.mem_iff, List.mem_flatten]
      constructor
      · rintro ⟨a, ha, hi⟩
        obtain ⟨k, hk⟩ := List.mem_iff_getElem?.mp ha
        exact ⟨k, a, hk, hi⟩
      · rintro ⟨k, a, hk, hi⟩
        exact ⟨a, List.mem_of_getElem? hk, hi⟩
    have hget : ∀ k, ∀ hk : k < sched.length, ∀ i ∈ sched.getD k [], ∃ a : List Nat, sched[k]? = some a ∧ i ∈ a := by
      intro k hk i hi
      rw [List.getD_eq_getElem?_getD, List.getElem?_eq_getElem hk, Option.getD_some] at hi
      exact ⟨_, List.getElem?_eq_getElem hk, hi⟩
    refine ⟨fun k l => ∃ i ∈ sched.getD k [], R i l, fun k l => ∃ i ∈ sched.getD k [], W i l,
      fun k x => ∀ i ∈ sched.getD k [], ∀ l, W i l → x l = m' l, ⟨by simp [t], ?_, fun _ _ => rfl⟩, ?_, ?_, ?_⟩
    · intro k q hq
      simp only [t, List.getElem?_map, Option.map_eq_some_iff] at hq
      obtain ⟨a, ha, rfl⟩ := hq
      have e : sched.getD k [] = a := by rw [List.getD_eq_getElem?_getD, ha]; rfl
      simp only [e]
      have hna : a.Nodup := (List.nodup_flatten.mp hnd).1 a (List.mem_of_getElem? ha)
      exact Thread.Safe.seq hsafe hdisj a hna (fun i hi => (hmem i).mpr ⟨k, a, ha, hi⟩) m (fun _ _ _ _ => rfl)
    · rintro k hk k' hk' hne l ⟨i, hi, hw⟩
      obtain ⟨a, ha, hia⟩ := hget k hk i hi
      have hin := (hmem i).mpr ⟨k, a, ha, hia⟩
      constructor <;>
      · rintro ⟨j, hj, hr⟩
        obtain ⟨b, hb, hjb⟩ := hget k' hk' j hj
        have hjn := (hmem j).mpr ⟨k', b, hb, hjb⟩
        have hij : i ≠ j := fun e => nodup_disjoint_of_flatten hnd hne ha hb hia (e ▸ hjb)
        first
          | exact (hdisj i hin j hjn hij l hw).1 hr
          | exact (hdisj i hin j hjn hij l hw).2 hr
    · intro k _ x y e hq i hi l hl
      exact (e l (.inr ⟨i, hi, hl⟩)).symm.trans (hq i hi l hl)
    · intro t' hinv hfin
      funext l
      by_cases hw : ∃ i < n, W i l
      · obtain ⟨i, hin, hw⟩ := hw
        obtain ⟨k, a, ha, hi⟩ := (hmem i).mp hin
        have hk : k < t'.threads.length := by rw [hinv.len]; exact (List.getElem?_eq_some_iff.mp ha).1
        have hq := (hinv.safe k t'.threads[k] (List.getElem?_eq_getElem hk)).done (hfin _ (List.getElem_mem hk))
        refine hq i ?_ l hw
        rw [List.getD_eq_getElem?_getD, ha]
        exact hi
      · push Not at hw
        rw [hsame l hw]
        refine hinv.same l ?_
        rintro k hk ⟨i, hi, hw'⟩
        obtain ⟨a, ha, hia⟩ := hget k hk i hi
        exact hw i ((hmem i).mpr ⟨k, a, ha, hia⟩) hw'
  funext o
  apply propext
  constructor
  · rintro ⟨sched, -, hperm, ho⟩
    obtain ⟨A, B, Q, hinv, hd, hQ, hfin⟩ := main sched hperm
    cases ho with
    | finish t' h hf => exact congrArg Except.ok (hfin t' (hinv.reaches hd hQ h) hf)
    | fault t' h f hf => exact absurd hf ((hinv.reaches hd hQ h).no_fault f)
    | race t' h hr => exact absurd hr ((hinv.reaches hd hQ h).no_race hd)
    | diverge u h0 hs => exact absurd hs (Team.Inv.no_diverge hd hQ (h0 ▸ hinv))
  · intro ho
    have ho : o = .ok m' := ho
    have hs : ((List.range n) :: List.replicate (p - 1) []).flatten.Perm (List.range n) := by simp
    obtain ⟨A, B, Q, hinv, hd, hQ, hfin⟩ := main _ hs
    obtain ⟨t', hr, hf⟩ := hinv.finishes hd hQ _ rfl
    refine ⟨_, by simp; omega, hs, ?_⟩
    rw [ho, ← hfin t' (hinv.reaches hd hQ hr) hf]
    exact .finish t' hr hf

/-! The set of outcomes as a monad. -/

theorem Par.lift_bind {α β : Type} (a : α) (f : α → Par β) : (Par.lift (.ok a) >>= f) = f a := by
  funext o
  apply propext
  constructor
  · rintro (⟨e, h, -⟩ | ⟨b, h, ho⟩)
    · cases h
    · cases h; exact ho
  · intro h; exact .inr ⟨a, rfl, h⟩

theorem Par.lift_error_bind {α β : Type} (e : Fault) (f : α → Par β) : (Par.lift (.error e) >>= f) = Par.lift (.error e) := by
  funext o
  apply propext
  constructor
  · rintro (⟨e', h, ho⟩ | ⟨b, h, ho⟩)
    · cases h; exact ho
    · cases h
  · intro h; exact .inl ⟨e, rfl, h⟩

theorem Par.lift_lift {α β : Type} (x : Except Fault α) (f : α → Except Fault β) : (Par.lift x >>= fun a => Par.lift (f a)) = Par.lift (x >>= f) := by
  cases x with
  | ok a => exact Par.lift_bind a _
  | error e => exact Par.lift_error_bind e _

theorem Par.pure_eq {α : Type} (a : α) : (pure a : Par α) = Par.lift (.ok a) := rfl

end FastPGM
