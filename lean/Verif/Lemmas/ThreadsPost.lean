import Verif.Lemmas.Threads
import Verif.Lemmas.Inference
import Verif.Model.JTParallel

/-!
Parallel loops with postconditions of the iterations, and rules for the programs of the threads.
-/

namespace FastPGM

variable {L V α β : Type} [DecidableEq L]

namespace Thread

variable {R W : L → Prop}

/-- The memory after the program is run alone. -/
def exec : Thread L V α → Mem L V → Mem L V
  | .ret _, m => m
  | .fault _, m => m
  | .read l k, m =>
    match m l with
    | some (some v) => (k v).exec m
    | _ => m
  | .write l v k, m => k.exec (m.put l v)

theorem Safe.exec {p : Thread L V α} {Q : α → Mem L V → Prop} : ∀ {m : Mem L V}, p.Safe R W m Q →
    p.Safe R W m (fun a x => Q a x ∧ x = p.exec m) := by
  induction p with
  | ret a => intro m h; exact ⟨h, rfl⟩
  | fault e => intro m h; exact h.elim
  | read l k ih =>
    intro m ⟨h1, v, h2, h3⟩
    refine ⟨h1, v, h2, ?_⟩
    simp only [Thread.exec, h2]
    exact ih v h3
  | write l v k ih => intro m ⟨h1, h2, h3⟩; exact ⟨h1, h2, ih h3⟩

/-- A safe program run alone ends with its postcondition. -/
theorem Safe.final {p : Thread L V α} {Q : α → Mem L V → Prop} : ∀ {m : Mem L V}, p.Safe R W m Q → ∃ a, Q a (p.exec m) := by
  induction p with
  | ret a => intro m h; exact ⟨a, h⟩
  | fault e => intro m h; exact h.elim
  | read l k ih =>
    intro m ⟨h1, v, h2, h3⟩
    simp only [Thread.exec, h2]
    exact ih v h3
  | write l v k ih => intro m ⟨h1, h2, h3⟩; exact ih h3

theorem Safe.ret {a : α} {Q : α → Mem L V → Prop} {m : Mem L V} (h : Q a m) : (Thread.ret a : Thread L V α).Safe R W m Q := h

theorem Safe.bind' {p : Thread L V α} {f : α → Thread L V β} {Q : β → Mem L V → Prop} {m : Mem L V} (P : α → Mem L V → Prop)
    (h : p.Safe R W m P) (hf : ∀ a x, P a x → (f a).Safe R W x Q) : (p >>= f).Safe R W m Q :=
  Safe.bind (h.mono (fun _ h => .inl h) (fun _ h => h) hf)

/-- The rule for loops. -/
theorem Safe.foldlM_range {f : β → Nat → Thread L V β} (I : Nat → β → Mem L V → Prop) {n : Nat} {b : β} {m : Mem L V} (h0 : I 0 b m)
    (hs : ∀ i < n, ∀ b x, I i b x → (f b i).Safe R W x (I (i + 1))) : ((List.range n).foldlM f b).Safe R W m (I n) := by
  have key : ∀ k s b x, s + k = n → I s b x → ((List.range' s k).foldlM f b).Safe R W x (I n) := by
    intro k
    induction k with
    | zero =>
      intro s b x e h
      have : s = n := by omega
      subst this
      exact h
    | succ k ih =>
      intro s b x e h
      exact Safe.bind' _ (hs s (by omega) b x h) (fun b' x' h' => ih (s + 1) b' x' (by omega) h')
  rw [List.range_eq_range']
  exact key n 0 b m (by omega) h0

end Thread

/-- The rule for parallel loops with postconditions: if no iteration touches what another one writes and each, run alone, ends with its
postcondition, then all executions end with the same memory, in which all postconditions hold. -/
theorem parFor_post {p n : Nat} (hp : 0 < p) {R W : Nat → L → Prop} {body : Nat → Thread L V Unit} {m : Mem L V} {Q : Nat → Mem L V → Prop}
    (hsafe : ∀ i < n, (body i).Safe (R i) (W i) m (fun _ => Q i))
    (hdisj : ∀ i < n, ∀ j < n, i ≠ j → ∀ l, W i l → ¬ R j l ∧ ¬ W j l)
    (hQ : ∀ i < n, ∀ x y, (∀ l, R i l ∨ W i l → x l = y l) → Q i x → Q i y) :
    ∃ m', parFor p n body m = Par.lift (.ok m') ∧ (∀ i < n, Q i m') ∧ ∀ l, (∀ i < n, ¬ W i l) → m' l = m l := by
  classical
  let m' : Mem L V := fun l => if h : ∃ i, i < n ∧ W i l then (body h.choose).exec m l else m l
  have hm' : ∀ i < n, ∀ l, W i l → m' l = (body i).exec m l := by
    intro i hi l hl
    have h : ∃ i, i < n ∧ W i l := ⟨i, hi, hl⟩
    have e : h.choose = i := by
      by_contra hne
      exact (hdisj _ h.choose_spec.1 i hi hne l h.choose_spec.2).2 hl
    simp only [m', dif_pos h, e]
  have hsame : ∀ l, (∀ i < n, ¬ W i l) → m' l = m l := by
    intro l hl
    simp only [m']
    rw [dif_neg]
    rintro ⟨i, hi, hw⟩
    exact hl i hi hw
  refine ⟨m', parFor_eq hp (fun i hi => ((hsafe i hi).exec).mono (fun _ h => .inl h) (fun _ h => h) ?_) hdisj hsame, ?_, hsame⟩
  · rintro _ x ⟨-, rfl⟩ l hl
    exact (hm' i hi l hl).symm
  · intro i hi
    obtain ⟨-, hq, hf⟩ := ((hsafe i hi).frame).final
    refine hQ i hi _ _ (fun l hl => ?_) hq
    by_cases hw : W i l
    · exact (hm' i hi l hw).symm
    · rw [hf l hw]
      have hr := hl.resolve_right hw
      refine (hsame l (fun j hj hwj => ?_)).symm
      by_cases e : j = i
      · exact hw (e ▸ hwj)
      · exact (hdisj j hj i hi e l hwj).1 hr

/-- The rule for flattened loops. -/
theorem parFor_flat {K : Type} {p : Nat} (hp : 0 < p) {sizes : List Nat} {R W : Nat → Nat → Place → Prop} {body : Nat → Nat → JProg K Unit}
    {m : JMem K} {Q : Nat → Nat → JMem K → Prop}
    (hsafe : ∀ j k n, sizes[j]? = some n → k < n → (body j k).Safe (R j k) (W j k) m (fun _ => Q j k))
    (hdisj : ∀ j k n j' k' n', sizes[j]? = some n → k < n → sizes[j']? = some n' → k' < n' → (j, k) ≠ (j', k') →
      ∀ l, W j k l → ¬ R j' k' l ∧ ¬ W j' k' l)
    (hQ : ∀ j k n, sizes[j]? = some n → k < n → ∀ x y, (∀ l, R j k l ∨ W j k l → x l = y l) → Q j k x → Q j k y) :
    ∃ m', parFor p (prefixSums sizes).2 (flatBody sizes body) m = Par.lift (.ok m') ∧
      (∀ j k n, sizes[j]? = some n → k < n → Q j k m') ∧
      ∀ l, (∀ j k n, sizes[j]? = some n → k < n → ¬ W j k l) → m' l = m l := by
  let c : Nat → Nat × Nat := fun s => match compute2DIndex s sizes.length (prefixSums sizes).1 with | .ok jk => jk | .error _ => (0, 0)
  have htot : (prefixSums sizes).2 = sizes.sum := by rw [prefixSums_eq]
  have hc : ∀ s < sizes.sum, ∃ n, compute2DIndex s sizes.length (prefixSums sizes).1 = .ok (c s) ∧ sizes[(c s).1]? = some n ∧ (c s).2 < n ∧
      s = (sizes.take (c s).1).sum + (c s).2 := by
    intro s hs
    obtain ⟨j, k, hj, hk, e⟩ := exists_cell hs
    have h := compute2DIndex_eq hj hk
    rw [← e] at h
    have e2 : c s = (j, k) := by simp only [c, h]
    rw [e2]
    exact ⟨sizes[j], h, List.getElem?_eq_getElem hj, hk, e⟩
  have hc' : ∀ j k n, sizes[j]? = some n → k < n → ∃ s < sizes.sum, c s = (j, k) := by
    intro j k n hn hk
    obtain ⟨hj, rfl⟩ := List.getElem?_eq_some_iff.mp hn
    refine ⟨_, flat_lt hj hk, ?_⟩
    simp only [c, compute2DIndex_eq hj hk]
  have hinj : ∀ s < sizes.sum, ∀ s' < sizes.sum, s ≠ s' → c s ≠ c s' := by
    intro s hs s' hs' hne e
    obtain ⟨n, -, -, -, h1⟩ := hc s hs
    obtain ⟨n', -, -, -, h2⟩ := hc s' hs'
    rw [e] at h1
    exact hne (h1.trans h2.symm)
  obtain ⟨m', h1, h2, h3⟩ := parFor_post (p := p) (n := sizes.sum) hp (R := fun s => R (c s).1 (c s).2) (W := fun s => W (c s).1 (c s).2)
    (body := flatBody sizes body) (m := m) (Q := fun s => Q (c s).1 (c s).2)
    (by
      intro s hs
      obtain ⟨n, e, hn, hk, -⟩ := hc s hs
      have := hsafe _ _ n hn hk
      simp only [flatBody, e, Thread.lift]
      exact this)
    (by
      intro s hs s' hs' hne
      obtain ⟨n, -, hn, hk, -⟩ := hc s hs
      obtain ⟨n', -, hn', hk', -⟩ := hc s' hs'
      exact hdisj _ _ n _ _ n' hn hk hn' hk' (hinj s hs s' hs' hne))
    (by
      intro s hs
      obtain ⟨n, -, hn, hk, -⟩ := hc s hs
      exact hQ _ _ n hn hk)
  refine ⟨m', by rw [htot]; exact h1, ?_, ?_⟩
  · intro j k n hn hk
    obtain ⟨s, hs, e⟩ := hc' j k n hn hk
    have := h2 s hs
    rw [e] at this
    exact this
  · intro l hl
    refine h3 l (fun s hs => ?_)
    obtain ⟨n, -, hn, hk, -⟩ := hc s hs
    exact hl _ _ n hn hk

end FastPGM
