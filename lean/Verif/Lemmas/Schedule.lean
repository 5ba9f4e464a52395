import Verif.Lemmas.NetDims
import Mathlib.Data.List.Perm.Basic
import Mathlib.Data.List.Pairwise

/-!
Sequences of local updates: every update `(x, y)` replaces the value of `x` by a function of the values of `x` and `y`.  If no value
changes after it has been read, the result is determined by the updates of every single `x`.
-/

namespace FastPGM

variable {α T ε : Type} [DecidableEq α]

/-- One update. -/
def schedStep (f : α → α → T → T → Except ε T) (σ : α → T) (p : α × α) : Except ε (α → T) :=
  (f p.1 p.2 (σ p.1) (σ p.2)).map (fun t => Function.update σ p.1 t)

/-- The updates of `l`, one after the other. -/
def runSched (f : α → α → T → T → Except ε T) (l : List (α × α)) (σ : α → T) : Except ε (α → T) :=
  l.foldlM (schedStep f) σ

omit [DecidableEq α] in
/-- No value changes after it has been read. -/
def ReadFinal (l : List (α × α)) : Prop := l.Pairwise (fun p q => q.1 ≠ p.2) ∧ ∀ p ∈ l, p.1 ≠ p.2

/-- The values read by the updates of `x`, in order. -/
def readBy (l : List (α × α)) (x : α) : List α := (l.filter (fun p => p.1 = x)).map Prod.snd

theorem readBy_nil (x : α) : readBy ([] : List (α × α)) x = [] := rfl

theorem readBy_append (l l' : List (α × α)) (x : α) : readBy (l ++ l') x = readBy l x ++ readBy l' x := by
  simp [readBy]

theorem readBy_cons (p : α × α) (l : List (α × α)) (x : α) : readBy (p :: l) x = if p.1 = x then p.2 :: readBy l x else readBy l x := by
  unfold readBy
  rw [List.filter_cons]
  by_cases h : p.1 = x <;> simp [h]

theorem readBy_eq_nil {l : List (α × α)} {x : α} (h : ∀ p ∈ l, p.1 ≠ x) : readBy l x = [] := by
  unfold readBy
  rw [List.map_eq_nil_iff, List.filter_eq_nil_iff]
  intro p hp
  simpa using h p hp

theorem mem_readBy {l : List (α × α)} {x y : α} : y ∈ readBy l x ↔ (x, y) ∈ l := by
  unfold readBy
  simp only [List.mem_map, List.mem_filter, decide_eq_true_eq]
  constructor
  · rintro ⟨p, ⟨h1, rfl⟩, rfl⟩; exact h1
  · intro h; exact ⟨(x, y), ⟨h, rfl⟩, rfl⟩

theorem runSched_nil (f : α → α → T → T → Except ε T) (σ : α → T) : runSched f [] σ = .ok σ := rfl

theorem runSched_cons (f : α → α → T → T → Except ε T) (p : α × α) (l : List (α × α)) (σ : α → T) :
    runSched f (p :: l) σ = schedStep f σ p >>= runSched f l := by
  unfold runSched
  rw [List.foldlM_cons]

theorem runSched_append (f : α → α → T → T → Except ε T) (l l' : List (α × α)) (σ : α → T) :
    runSched f (l ++ l') σ = runSched f l σ >>= runSched f l' := by
  unfold runSched
  rw [List.foldlM_append]

/-- The result of a sequence in which no value changes after it has been read. -/
theorem runSched_iff {f : α → α → T → T → Except ε T} {l : List (α × α)} (hl : ReadFinal l) {σ σ' : α → T} :
    runSched f l σ = .ok σ' ↔ ∀ x, (readBy l x).foldlM (fun t y => f x y t (σ' y)) (σ x) = .ok (σ' x) := by
  induction l generalizing σ with
  | nil =>
    constructor
    · intro h x
      cases h
      rfl
    · intro h
      rw [runSched_nil]
      congr 1
      funext x
      have := h x
      rw [readBy_nil, List.foldlM_nil] at this
      exact Except.ok.inj this
  | cons p l ih =>
    obtain ⟨x, y⟩ := p
    have hl' : ReadFinal l := ⟨(List.pairwise_cons.1 hl.1).2, fun p hp => hl.2 p (by simp [hp])⟩
    have hxy : x ≠ y := hl.2 (x, y) (by simp)
    have hy : readBy l y = [] := readBy_eq_nil (fun p hp => (List.pairwise_cons.1 hl.1).1 p hp)
    rw [runSched_cons]
    have hstep : schedStep f σ (x, y) = (f x y (σ x) (σ y)).map (fun t => Function.update σ x t) := rfl
    rw [hstep]
    constructor
    · intro h
      cases ht : f x y (σ x) (σ y) with
      | error e => rw [ht] at h; cases h
      | ok t =>
        rw [ht] at h
        have h' : runSched f l (Function.update σ x t) = .ok σ' := h
        rw [ih hl'] at h'
        have hy' : σ' y = σ y := by
          have := h' y
          rw [hy, List.foldlM_nil, Function.update_of_ne hxy.symm] at this
          exact (Except.ok.inj this).symm
        intro z
        rw [readBy_cons]
        by_cases hz : x = z
        · subst hz
          rw [if_pos rfl, List.foldlM_cons]
          show (f x y (σ x) (σ' y) >>= _) = _
          rw [hy', ht]
          have := h' x
          rw [Function.update_self] at this
          exact this
        · rw [if_neg (by simpa using hz)]
          have := h' z
          rw [Function.update_of_ne (Ne.symm hz)] at this
          exact this
    · intro h
      have hy' : σ' y = σ y := by
        have := h y
        rw [readBy_cons, if_neg (by simpa using hxy), hy, List.foldlM_nil] at this
        exact (Except.ok.inj this).symm
      have hx := h x
      rw [readBy_cons, if_pos rfl, List.foldlM_cons] at hx
      have hx' : (f x y (σ x) (σ' y) >>= fun t => (readBy l x).foldlM (fun t y => f x y t (σ' y)) t) = .ok (σ' x) := hx
      rw [hy'] at hx'
      cases ht : f x y (σ x) (σ y) with
      | error e => rw [ht] at hx'; cases hx'
      | ok t =>
        rw [ht] at hx'
        show runSched f l (Function.update σ x t) = .ok σ'
        rw [ih hl']
        intro z
        by_cases hz : z = x
        · subst hz
          rw [Function.update_self]
          exact hx'
        · rw [Function.update_of_ne hz]
          have := h z
          rw [readBy_cons, if_neg (by simpa using Ne.symm hz)] at this
          exact this

/-- An invariant of the values holds for the result. -/
theorem runSched_inv {f : α → α → T → T → Except ε T} {l : List (α × α)} {I : α → T → Prop}
    (hf : ∀ p ∈ l, ∀ t u t', I p.1 t → I p.2 u → f p.1 p.2 t u = .ok t' → I p.1 t') {σ σ' : α → T} (h0 : ∀ x, I x (σ x))
    (h : runSched f l σ = .ok σ') : ∀ x, I x (σ' x) := by
  induction l generalizing σ with
  | nil => cases h; exact h0
  | cons p l ih =>
    rw [runSched_cons] at h
    unfold schedStep at h
    cases ht : f p.1 p.2 (σ p.1) (σ p.2) with
    | error e => rw [ht] at h; cases h
    | ok t =>
      rw [ht] at h
      refine ih (fun q hq => hf q (by simp [hq])) ?_ h
      intro x
      show I x (Function.update σ p.1 t x)
      by_cases hx : x = p.1
      · subst hx
        rw [Function.update_self]
        exact hf p (by simp) _ _ _ (h0 _) (h0 _) ht
      · rw [Function.update_of_ne hx]
        exact h0 x

/-- The error of a failed sequence. -/
theorem runSched_error {f : α → α → T → T → Except ε T} {l : List (α × α)} {I : α → T → Prop}
    (hf : ∀ p ∈ l, ∀ t u t', I p.1 t → I p.2 u → f p.1 p.2 t u = .ok t' → I p.1 t') {e : ε}
    (he : ∀ p ∈ l, ∀ t u e', I p.1 t → I p.2 u → f p.1 p.2 t u = .error e' → e' = e) {σ : α → T} (h0 : ∀ x, I x (σ x)) {e' : ε}
    (h : runSched f l σ = .error e') : e' = e := by
  induction l generalizing σ with
  | nil => cases h
  | cons p l ih =>
    rw [runSched_cons] at h
    unfold schedStep at h
    cases ht : f p.1 p.2 (σ p.1) (σ p.2) with
    | error e2 =>
      rw [ht] at h
      have h2 : Except.error e2 = Except.error e' := h
      cases h2
      exact he p (by simp) _ _ _ (h0 _) (h0 _) ht
    | ok t =>
      rw [ht] at h
      refine ih (fun q hq => hf q (by simp [hq])) (fun q hq => he q (by simp [hq])) ?_ h
      intro x
      show I x (Function.update σ p.1 t x)
      by_cases hx : x = p.1
      · subst hx
        rw [Function.update_self]
        exact hf p (by simp) _ _ _ (h0 _) (h0 _) ht
      · rw [Function.update_of_ne hx]
        exact h0 x

/-- Two sequences with the same reads, up to the order of the reads of one `x` where that does not matter, have the same result. -/
theorem runSched_eq {f : α → α → T → T → Except ε T} {l l' : List (α × α)} (hl : ReadFinal l) (hl' : ReadFinal l') {I : α → T → Prop}
    (hf : ∀ p, p ∈ l ∨ p ∈ l' → ∀ t u t', I p.1 t → I p.2 u → f p.1 p.2 t u = .ok t' → I p.1 t') {e : ε}
    (he : ∀ p, p ∈ l ∨ p ∈ l' → ∀ t u e', I p.1 t → I p.2 u → f p.1 p.2 t u = .error e' → e' = e)
    (hperm : ∀ x (τ : α → T), (∀ x, I x (τ x)) → ∀ t, I x t →
      (readBy l x).foldlM (fun t y => f x y t (τ y)) t = (readBy l' x).foldlM (fun t y => f x y t (τ y)) t)
    {σ : α → T} (h0 : ∀ x, I x (σ x)) : runSched f l σ = runSched f l' σ := by
  have h1 : ∀ σ', runSched f l σ = .ok σ' ↔ runSched f l' σ = .ok σ' := by
    intro σ'
    constructor
    · intro h
      have hi := runSched_inv (fun p hp => hf p (Or.inl hp)) h0 h
      rw [runSched_iff hl] at h
      rw [runSched_iff hl']
      intro x
      rw [← hperm x σ' hi _ (h0 x)]
      exact h x
    · intro h
      have hi := runSched_inv (fun p hp => hf p (Or.inr hp)) h0 h
      rw [runSched_iff hl'] at h
      rw [runSched_iff hl]
      intro x
      rw [hperm x σ' hi _ (h0 x)]
      exact h x
  cases h2 : runSched f l σ with
  | ok σ' => exact ((h1 σ').1 h2).symm
  | error e1 =>
    cases h3 : runSched f l' σ with
    | ok σ' => rw [(h1 σ').2 h3] at h2; cases h2
    | error e2 =>
      rw [runSched_error (fun p hp => hf p (Or.inl hp)) (fun p hp => he p (Or.inl hp)) h0 h2,
        runSched_error (fun p hp => hf p (Or.inr hp)) (fun p hp => he p (Or.inr hp)) h0 h3]

end FastPGM
