import Verif.Model.Fault
import Mathlib.Data.List.Basic
import Mathlib.Tactic.Common

/-!
Helper lemmas about loops in `Except Fault`.
-/

namespace FastPGM

variable {α β γ : Type} {ε : Type}

@[simp] theorem ok_bind (a : α) (f : α → Except ε β) : (Except.ok a >>= f) = f a := rfl

@[simp] theorem error_bind (e : ε) (f : α → Except ε β) : (Except.error e >>= f) = .error e := rfl

@[simp] theorem pure_eq_ok (a : α) : (pure a : Except ε α) = .ok a := rfl

theorem rd_ok {l : List α} {i : Nat} {a : α} (h : l[i]? = some a) : rd l i = .ok a := by
  simp [rd, h]

theorem rd_getElem {l : List α} {i : Nat} (h : i < l.length) : rd l i = .ok l[i] := by
  simp [rd, h]

theorem rd_eq_ok {l : List α} {i : Nat} {a : α} : rd l i = .ok a ↔ l[i]? = some a := by
  unfold rd; split <;> simp_all

theorem wr_ok {l : List α} {i : Nat} {a : α} (h : i < l.length) : wr l i a = .ok (l.set i a) := by
  simp [wr, h]

theorem mapM_ok {f : α → Except ε β} {g : α → β} {l : List α} (h : ∀ x ∈ l, f x = .ok (g x)) :
    l.mapM f = .ok (l.map g) := by
  induction l with
  | nil => rfl
  | cons x xs ih =>
    rw [List.mapM_cons, h x (by simp), ih (fun y hy => h y (by simp [hy]))]
    rfl

theorem foldlM_ok {f : β → α → Except ε β} {g : β → α → β} {l : List α} {b : β}
    (h : ∀ b, ∀ x ∈ l, f b x = .ok (g b x)) :
    l.foldlM f b = .ok (l.foldl g b) := by
  induction l generalizing b with
  | nil => rfl
  | cons x xs ih =>
    rw [List.foldlM_cons, h b x (by simp)]
    exact ih (fun b y hy => h b y (by simp [hy]))

/-- Loop rule for `for (i = 0; i < n; ++i)`. -/
theorem foldlM_range {f : β → Nat → Except ε β} (P : Nat → β → Prop) {n : Nat} {b : β} (h0 : P 0 b)
    (step : ∀ i < n, ∀ b, P i b → ∃ b', f b i = .ok b' ∧ P (i + 1) b') :
    ∃ b', (List.range n).foldlM f b = .ok b' ∧ P n b' := by
  induction n with
  | zero => exact ⟨b, rfl, h0⟩
  | succ n ih =>
    obtain ⟨b1, h1, p1⟩ := ih (fun i hi => step i (by omega))
    obtain ⟨b2, h2, p2⟩ := step n (by omega) b1 p1
    refine ⟨b2, ?_, p2⟩
    rw [List.range_succ, List.foldlM_append, h1]
    show (List.foldlM f b1 [n]) = _
    rw [List.foldlM_cons, h2]
    rfl

/-- Exact loop rule: the state after `i` rounds is `s i`. -/
theorem foldlM_range_eq {f : β → Nat → Except ε β} (s : Nat → β) {n : Nat}
    (step : ∀ i < n, f (s i) i = .ok (s (i + 1))) :
    (List.range n).foldlM f (s 0) = .ok (s n) := by
  obtain ⟨b, hb, rfl⟩ := foldlM_range (f := f) (P := fun i b => b = s i) (n := n) rfl
    (fun i hi b hb => ⟨s (i + 1), by rw [hb]; exact step i hi, rfl⟩)
  exact hb

/-- The list `[g 0, ..., g (n-1)]`. -/
def tab (n : Nat) (g : Nat → α) : List α := (List.range n).map g

@[simp] theorem tab_length (n : Nat) (g : Nat → α) : (tab n g).length = n := by simp [tab]

theorem tab_get? (n : Nat) (g : Nat → α) (i : Nat) : (tab n g)[i]? = if i < n then some (g i) else none := by
  simp only [tab, List.getElem?_map]
  split
  · rename_i h; rw [List.getElem?_range h]; rfl
  · rename_i h; rw [List.getElem?_eq_none (by simpa using h)]; rfl

theorem rd_tab {n : Nat} {g : Nat → α} {i : Nat} (h : i < n) : rd (tab n g) i = .ok (g i) :=
  rd_ok (by rw [tab_get?, if_pos h])

theorem tab_ext {l : List α} {n : Nat} {g : Nat → α} (hl : l.length = n)
    (h : ∀ i < n, l[i]? = some (g i)) : l = tab n g := by
  apply List.ext_getElem?
  intro i
  rw [tab_get?]
  split
  · rename_i hi; exact h i hi
  · rename_i hi; exact List.getElem?_eq_none (by omega)

theorem tab_congr {n : Nat} {g g' : Nat → α} (h : ∀ i < n, g i = g' i) : tab n g = tab n g' := by
  apply List.map_congr_left
  intro i hi
  exact h i (by simpa using hi)

theorem set_tab {n : Nat} {g : Nat → α} {i : Nat} {a : α} :
    (tab n g).set i a = tab n (fun j => if j = i then a else g j) := by
  apply tab_ext (by simp)
  intro j hj
  rw [List.getElem?_set, tab_get?]
  by_cases h : i = j
  · subst h; simp [hj]
  · have : ¬ j = i := fun e => h e.symm
    simp [h, this, hj]

theorem wr_tab {n : Nat} {g : Nat → α} {i : Nat} {a : α} (h : i < n) :
    wr (tab n g) i a = .ok (tab n (fun j => if j = i then a else g j)) := by
  rw [wr_ok (by simpa using h), set_tab]

theorem replicate_eq_tab (n : Nat) (a : α) : List.replicate n a = tab n (fun _ => a) := by
  apply tab_ext (by simp)
  intro i hi
  simp [hi]

theorem eq_tab_getD {l : List α} (d : α) : l = tab l.length (fun i => l.getD i d) := by
  apply tab_ext rfl
  intro i hi
  simp [hi]

theorem getD_tab {n : Nat} {g : Nat → α} {i : Nat} {d : α} (h : i < n) : (tab n g).getD i d = g i := by
  rw [List.getD_eq_getElem?_getD, tab_get?, if_pos h]; rfl

/-- A loop that rewrites entry `i` from its old value in round `i`. -/
theorem foldlM_pointwise {n : Nat} {p g : Nat → α} {f : List α → Nat → Except ε (List α)}
    (h : ∀ i < n, ∀ r : Nat → α, r i = p i → f (tab n r) i = .ok (tab n (fun j => if j = i then g i else r j))) :
    (List.range n).foldlM f (tab n p) = .ok (tab n g) := by
  have := foldlM_range_eq (f := f) (s := fun i => tab n (fun j => if j < i then g j else p j)) (n := n) ?_
  · rw [show tab n g = tab n (fun j => if j < n then g j else p j) from tab_congr (fun i hi => by simp [hi]), ← this]
    simp
  · intro i hi
    rw [h i hi _ (by simp)]
    congr 1
    apply tab_congr
    intro j _
    by_cases h1 : j = i
    · subst h1; simp
    · by_cases h2 : j < i
      · simp only [if_neg h1, if_pos h2, if_pos (show j < i + 1 by omega)]
      · simp only [if_neg h1, if_neg h2, if_neg (show ¬ j < i + 1 by omega)]

end FastPGM
