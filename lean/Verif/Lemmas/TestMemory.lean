import Verif.Model.TestMemory
import Verif.Lemmas.CellTable

/-!
Lemmas on the memory used by a test: loops on the memory simulate loops on lists.
-/

namespace FastPGM

variable {K : Type}

theorem memBind {α β : Type} (x : MemM α) (f : α → MemM β) (M : IntMem) : (x >>= f) M = (x M >>= fun r => f r.1 r.2) := rfl

theorem memPure {α : Type} (a : α) (M : IntMem) : (pure a : MemM α) M = .ok (a, M) := rfl

theorem noMem_run {α : Type} (x : Except Fault α) (M : IntMem) : noMem x M = (x >>= fun v => .ok (v, M)) := rfl

theorem exc_assoc {α β γ : Type} (x : Except Fault α) (f : α → Except Fault β) (g : β → Except Fault γ) :
    (x >>= f >>= g) = (x >>= fun a => f a >>= g) := by cases x <;> rfl

theorem exc_ok {α β : Type} (a : α) (f : α → Except Fault β) : ((.ok a : Except Fault α) >>= f) = f a := rfl

theorem exc_err {α β : Type} (e : Fault) (f : α → Except Fault β) : ((.error e : Except Fault α) >>= f) = .error e := rfl

theorem exc_bind_congr {α β : Type} {x : Except Fault α} {f g : α → Except Fault β} (h : ∀ a, x = .ok a → f a = g a) :
    (x >>= f) = (x >>= g) := by
  cases x with
  | error e => rfl
  | ok a => exact h a rfl

/-- A loop on the memory simulates a loop on an abstract state: `S` gives the memory and `v` the value, both depending on the items still
to come. -/
theorem fold_sim {α β ι : Type} {f : β → ι → MemM β} {g : α → ι → Except Fault α} (S : List ι → α → IntMem) (v : α → β)
    {l : List ι} (h : ∀ a l' s, (a :: l') <:+ l → f (v s) a (S (a :: l') s) = (g s a >>= fun s' => .ok (v s', S l' s'))) (s : α) :
    (l.foldlM f (v s)) (S l s) = (l.foldlM g s >>= fun s' => .ok (v s', S [] s')) := by
  induction l generalizing s with
  | nil => rfl
  | cons a l ih =>
    rw [List.foldlM_cons, List.foldlM_cons, memBind, h a l s (List.suffix_refl _), exc_assoc, exc_assoc]
    refine exc_bind_congr (fun s' _ => ?_)
    rw [exc_ok]
    exact ih (fun a l' s hs => h a l' s (hs.trans (List.suffix_cons _ _))) s'

/-- The same with a memory that does not depend on the items. -/
theorem fold_sim' {α β ι : Type} {f : β → ι → MemM β} {g : α → ι → Except Fault α} (S : α → IntMem) (v : α → β)
    {l : List ι} (h : ∀ a ∈ l, ∀ s, f (v s) a (S s) = (g s a >>= fun s' => .ok (v s', S s'))) (s : α) :
    (l.foldlM f (v s)) (S s) = (l.foldlM g s >>= fun s' => .ok (v s', S s')) :=
  fold_sim (fun _ s => S s) v (fun a _ s hs => h a (hs.subset (List.mem_cons_self ..)) s) s

/-- The entries `l` of an array of which those in `p` have been written. -/
def maskArr (p : Nat → Bool) (l : List Nat) : List (Option Nat) := l.mapIdx (fun i v => if p i then some v else none)

theorem maskArr_get (p : Nat → Bool) (l : List Nat) (i : Nat) :
    (maskArr p l)[i]? = l[i]?.map (fun v => if p i then some v else none) := by
  simp [maskArr, List.getElem?_mapIdx]

theorem maskArr_length (p : Nat → Bool) (l : List Nat) : (maskArr p l).length = l.length := by simp [maskArr]

theorem maskArr_true (l : List Nat) : maskArr (fun _ => true) l = l.map some := by
  apply List.ext_getElem?; intro i; rw [maskArr_get]; simp

theorem maskArr_false (n : Nat) : maskArr (fun _ => false) (List.replicate n 0) = List.replicate n none := by
  apply List.ext_getElem?; intro i; rw [maskArr_get]; simp [List.getElem?_replicate]

theorem maskArr_congr {p q : Nat → Bool} {l : List Nat} (h : ∀ i < l.length, p i = q i) : maskArr p l = maskArr q l := by
  apply List.ext_getElem?; intro i; rw [maskArr_get, maskArr_get]
  by_cases hi : i < l.length
  · rw [h i hi]
  · rw [List.getElem?_eq_none (by omega)]; rfl

theorem maskArr_set {p q : Nat → Bool} {l : List Nat} {i v : Nat} (h : ∀ j, q j = (p j || decide (j = i))) :
    (maskArr p l).set i (some v) = maskArr q (l.set i v) := by
  apply List.ext_getElem?; intro j
  rw [maskArr_get, List.getElem?_set, List.getElem?_set, maskArr_get, maskArr_length, h]
  by_cases hij : i = j
  · subst hij; by_cases hl : i < l.length <;> simp [hl]
  · have : ¬ (j = i) := fun e => hij e.symm
    simp [hij, this]

theorem rd_def (l : List Nat) (i : Nat) : rd l i = match l[i]? with | some v => .ok v | none => .error .ub := by
  unfold rd; cases l[i]? <;> rfl

theorem load_mask {M : IntMem} {a i : Nat} {p : Nat → Bool} {l : List Nat} (h : M.arr a = some (maskArr p l)) (hp : i < l.length → p i = true) :
    load a i M = (rd l i >>= fun v => .ok (v, M)) := by
  unfold load
  rw [h, rd_def]
  simp only [maskArr_get]
  cases hl : l[i]? with
  | none => rfl
  | some v =>
    have := hp (by rw [List.getElem?_eq_some_iff] at hl; exact hl.1)
    rw [Option.map_some, if_pos this]; rfl

theorem load_all {M : IntMem} {a i : Nat} {l : List Nat} (h : M.arr a = some (l.map some)) :
    load a i M = (rd l i >>= fun v => .ok (v, M)) :=
  load_mask (p := fun _ => true) (by rw [maskArr_true]; exact h) (fun _ => rfl)

theorem imPut_put (M : IntMem) (a : Nat) (b c : Option (List (Option Nat))) : (M.put a b).put a c = M.put a c := by
  simp only [IntMem.put, IntMem.mk.injEq, true_and]
  funext d; split <;> rfl

theorem put_comm (M : IntMem) {a a' : Nat} (h : a ≠ a') (b c : Option (List (Option Nat))) :
    (M.put a b).put a' c = (M.put a' c).put a b := by
  simp only [IntMem.put, IntMem.mk.injEq, true_and]
  funext d; by_cases h1 : d = a
  · subst h1; simp [h]
  · simp [h1]

theorem put_get (M : IntMem) (a : Nat) (b : Option (List (Option Nat))) : (M.put a b).arr a = b := by simp [IntMem.put]

theorem put_get_ne (M : IntMem) {a c : Nat} (h : c ≠ a) (b : Option (List (Option Nat))) : (M.put a b).arr c = M.arr c := by
  simp [IntMem.put, h]

theorem put_next (M : IntMem) (a : Nat) (b : Option (List (Option Nat))) : (M.put a b).next = M.next := rfl

theorem store_mask {M : IntMem} {a i v : Nat} {p q : Nat → Bool} {l : List Nat} (h : M.arr a = some (maskArr p l))
    (hq : ∀ j, q j = (p j || decide (j = i))) :
    store a i v M = (wr l i v >>= fun l' => .ok ((), M.put a (some (maskArr q l')))) := by
  unfold store wr
  rw [h]
  simp only [maskArr_length]
  split
  · rw [exc_ok, maskArr_set hq]
  · rfl

theorem store_all {M : IntMem} {a i v : Nat} {l : List Nat} (h : M.arr a = some (l.map some)) :
    store a i v M = (wr l i v >>= fun l' => .ok ((), M.put a (some (l'.map some)))) := by
  have := store_mask (M := M) (a := a) (i := i) (v := v) (p := fun _ => true) (q := fun _ => true) (l := l)
    (by rw [maskArr_true]; exact h) (by simp)
  simpa only [maskArr_true] using this

theorem incrMem_all {M : IntMem} {a i : Nat} {l : List Nat} (h : M.arr a = some (l.map some)) :
    incrMem a i M = (incr l i >>= fun l' => .ok ((), M.put a (some (l'.map some)))) := by
  unfold incrMem incr
  rw [memBind, load_all h, exc_assoc, exc_assoc]
  refine exc_bind_congr (fun v _ => ?_)
  rw [exc_ok]; exact store_all h

theorem addMem_all {M : IntMem} {a i x : Nat} {l : List Nat} (h : M.arr a = some (l.map some)) :
    addMem a i x M = (addAt l i x >>= fun l' => .ok ((), M.put a (some (l'.map some)))) := by
  unfold addMem addAt
  rw [memBind, load_all h, exc_assoc, exc_assoc]
  refine exc_bind_congr (fun v _ => ?_)
  rw [exc_ok]; exact store_all h

/-- The memory after allocating a block. -/
def IntMem.alloc (M : IntMem) (b : List (Option Nat)) : IntMem := IntMem.put { M with next := M.next + 1 } M.next (some b)

theorem newArr_run (len : Nat) (M : IntMem) : newArr len M = .ok (M.next, M.alloc (List.replicate len none)) := rfl

theorem alloc_next (M : IntMem) (b : List (Option Nat)) : (M.alloc b).next = M.next + 1 := rfl

theorem alloc_get (M : IntMem) (b : List (Option Nat)) : (M.alloc b).arr M.next = some b := by simp [IntMem.alloc, IntMem.put]

theorem alloc_get_ne (M : IntMem) (b : List (Option Nat)) {c : Nat} (h : c ≠ M.next) : (M.alloc b).arr c = M.arr c := by
  simp [IntMem.alloc, IntMem.put, h]

theorem alloc_put (M : IntMem) (b c : List (Option Nat)) : (M.alloc b).put M.next (some c) = M.alloc c := by
  simp only [IntMem.alloc, imPut_put]

theorem deleteArr_run {M : IntMem} {a : Nat} {b : List (Option Nat)} (h : M.arr a = some b) : deleteArr a M = .ok ((), M.put a none) := by
  unfold deleteArr; rw [h]

/-- The remaining items of a loop over `0, …, n-1`. -/
theorem suffix_range {n a : Nat} {l : List Nat} (h : (a :: l) <:+ List.range n) : a = n - 1 - l.length ∧ l.length < n := by
  obtain ⟨t, ht⟩ := h
  have hlen := congrArg List.length ht
  simp at hlen
  have := congrArg (·[t.length]?) ht
  simp [List.getElem?_range (show t.length < n by omega)] at this
  omega

theorem suffix_range_rev {n a : Nat} {l : List Nat} (h : (a :: l) <:+ (List.range n).reverse) : a = l.length ∧ l.length < n := by
  obtain ⟨t, ht⟩ := h
  have hlen := congrArg List.length ht
  simp at hlen
  have h2 := congrArg (·[t.length]?) ht
  have hlt : t.length < (List.range n).reverse.length := by simp; omega
  simp only [List.getElem?_append_right (Nat.le_refl _), Nat.sub_self, List.getElem?_cons_zero] at h2
  rw [List.getElem?_eq_getElem hlt, List.getElem_reverse] at h2
  simp at h2
  omega

theorem newCleared_run (len : Nat) (M : IntMem) : newCleared len M = .ok (M.next, M.alloc ((List.replicate len 0).map some)) := by
  unfold newCleared
  rw [memBind, newArr_run, exc_ok, memBind]
  have h := fold_sim (α := List Nat) (f := fun (_ : Unit) i => store M.next i 0) (g := fun l i => wr l i 0)
    (S := fun r l => M.alloc (maskArr (fun i => decide (i < len - r.length)) l)) (v := fun _ => ()) (l := List.range len)
    (by
      intro a l' s hs
      obtain ⟨h1, h2⟩ := suffix_range hs
      rw [store_mask (alloc_get M _) (q := fun i => decide (i < len - l'.length))
        (by intro j; simp only [List.length_cons]; rw [Bool.eq_iff_iff]; simp; omega)]
      refine exc_bind_congr (fun x _ => ?_)
      rw [alloc_put]) (List.replicate len 0)
  simp only [List.length_range, Nat.sub_self, Nat.not_lt_zero, decide_false, maskArr_false, List.length_nil] at h
  rw [h]
  have hw : ∀ l : List Nat, (∀ i ∈ l, i < len) →
      l.foldlM (fun l i => wr l i 0) (List.replicate len 0) = (.ok (List.replicate len 0) : Except Fault (List Nat)) := by
    intro l
    induction l with
    | nil => intro _; rfl
    | cons i l ih =>
      intro hl
      have hi := hl i (List.mem_cons_self ..)
      rw [List.foldlM_cons, wr_ok (by simpa using hi), exc_ok, List.set_replicate_self]
      exact ih (fun j hj => hl j (List.mem_cons_of_mem _ hj))
  rw [hw _ (fun i hi => List.mem_range.mp hi), exc_ok, exc_ok, memPure]
  have : maskArr (fun i => decide (i < len - 0)) (List.replicate len 0) = (List.replicate len 0).map some := by
    rw [← maskArr_true]
    exact maskArr_congr (fun i hi => by simpa using hi)
  rw [this]

end FastPGM
