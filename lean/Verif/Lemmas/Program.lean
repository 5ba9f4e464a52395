import Verif.Model.Program
import Verif.Spec.Program
import Verif.Lemmas.Except
import Mathlib.Tactic.Common

/-!
Lemmas on programs that read and write files.
-/

namespace FastPGM

open Spec

variable {K ω α β : Type}

theorem prog_bind (m : Prog α) (k : α → Prog β) (w : World) :
    (m >>= k) w = match m w with
      | (.ok a, w') => k a w'
      | (.error e, w') => (.error e, w') := by
  show (ExceptT.bind m k : Prog β) w = _
  unfold ExceptT.bind
  show (StateT.bind (m : StateT World Id _) (ExceptT.bindCont k) w) = _
  unfold StateT.bind
  rcases h : m w with ⟨_ | a, w'⟩ <;> simp only [] <;> rfl

theorem prog_return (a : α) (w : World) : (pure a : Prog α) w = (.ok a, w) := rfl

theorem pure_ok (a : α) (w : World) : (Prog.pure (.ok a) : Prog α) w = (.ok a, w) := rfl

theorem pure_error (f : Fault) (w : World) : (Prog.pure (.error f) : Prog α) w = (.error (.fault f), w) := rfl

theorem readFile_some {w : World} {q t : Str} (h : w.files q = some t) : readFile q w = (.ok t, w) := by
  unfold readFile; rw [h]

theorem readFile_none {w : World} {q : Str} (h : w.files q = none) : readFile q w = (.error (.fault .exit), w) := by
  unfold readFile; rw [h]

theorem saveFile_ok {w : World} {q t : Str} (h : w.writable q = true) : saveFile q (.ok t) w = (.ok (), w.put q t) := by
  unfold saveFile; rw [if_pos h]

theorem saveFile_error {w : World} {q : Str} {f : Fault} (h : w.writable q = true) :
    saveFile q (.error f) w = (.error (.fault f), w.put q []) := by
  unfold saveFile; rw [if_pos h]

theorem put_other {w : World} {q t q' : Str} (h : q' ≠ q) : (w.put q t).files q' = w.files q' := by
  show (if q' = q then _ else _) = _
  rw [if_neg h]

theorem put_same {w : World} {q t : Str} : (w.put q t).files q = some t := by
  show (if q = q then _ else _) = _
  rw [if_pos rfl]

theorem put_put {w : World} {q t u : Str} : (w.put q t).put q u = w.put q u := by
  unfold World.put
  congr 1
  funext x
  by_cases h : x = q <;> simp [h]

/-! ### Which files change -/

/-- The program changes only files in `P`, and only those it may write. -/
def Touches (P : Str → Prop) (m : Prog α) : Prop :=
  ∀ w, (m w).2.writable = w.writable ∧ ∀ q, (m w).2.files q ≠ w.files q → w.writable q = true ∧ P q

theorem Touches.bind {P : Str → Prop} {m : Prog α} {k : α → Prog β} (hm : Touches P m) (hk : ∀ a, Touches P (k a)) : Touches P (m >>= k) := by
  intro w
  rw [prog_bind]
  have h1 := hm w
  rcases h : m w with ⟨e | a, w'⟩
  · rw [h] at h1; exact h1
  · rw [h] at h1
    obtain ⟨w1, f1⟩ := h1
    obtain ⟨w2, f2⟩ := hk a w'
    refine ⟨w2.trans w1, fun q hq => ?_⟩
    by_cases c : w'.files q = w.files q
    · have := f2 q (by rw [c]; exact hq)
      rw [w1] at this
      exact this
    · exact f1 q c

theorem touches_return (P : Str → Prop) (a : α) : Touches P (pure a : Prog α) := fun _ => ⟨rfl, fun _ h => absurd rfl h⟩

theorem touches_pure (P : Str → Prop) (r : Except Fault α) : Touches P (Prog.pure r) := by
  intro w
  cases r <;> exact ⟨rfl, fun _ h => absurd rfl h⟩

theorem touches_endless (P : Str → Prop) : Touches P (Prog.endless : Prog α) := fun _ => ⟨rfl, fun _ h => absurd rfl h⟩

theorem touches_read (P : Str → Prop) (q : Str) : Touches P (readFile q) := by
  intro w
  unfold readFile
  split <;> exact ⟨rfl, fun _ h => absurd rfl h⟩

theorem touches_save {P : Str → Prop} {q : Str} (h : P q) (t : Except Fault Str) : Touches P (saveFile q t) := by
  intro w
  unfold saveFile
  by_cases c : w.writable q = true
  · rw [if_pos c]
    have key : ∀ t q', (w.put q t).files q' ≠ w.files q' → w.writable q' = true ∧ P q' := by
      intro t q' hq
      by_cases e : q' = q
      · subst e; exact ⟨c, h⟩
      · exact absurd (put_other e) hq
    cases t
    · exact ⟨rfl, key _⟩
    · exact ⟨rfl, key _⟩
  · rw [if_neg c]
    exact ⟨rfl, fun _ h => absurd rfl h⟩

theorem touches_ite {P : Str → Prop} {c : Prop} [Decidable c] {m k : Prog α} (h1 : c → Touches P m) (h2 : ¬ c → Touches P k) :
    Touches P (if c then m else k) := by
  by_cases h : c
  · rw [if_pos h]; exact h1 h
  · rw [if_neg h]; exact h2 h

theorem touches_ref (P : Str → Prop) (nums : Numbers K) (ref : Str) (N : Net) : Touches P (compareRef nums ref N) := by
  unfold compareRef
  refine touches_ite (fun _ => touches_return _ _) (fun _ => ?_)
  refine (touches_read _ _).bind (fun t => (touches_pure _ _).bind (fun F => ?_))
  cases F
  · exact touches_endless _
  · exact (touches_pure _ _).bind (fun _ => touches_return _ _)

variable [Field K] [LinearOrder K]

theorem touches_bnsl {P : Str → Prop} (X : Execution K) (nums : Numbers K) (alpha : K) (g : Nat) (ref train : Str) (save : Bool)
    (h : save = true → P (train ++ lit "_struct")) : Touches P (runBNSL X nums alpha g ref train save) := by
  unfold runBNSL
  refine (touches_read _ _).bind (fun t => (touches_pure _ _).bind (fun D => (touches_pure _ _).bind (fun N => ?_)))
  refine touches_ite (fun hs => (touches_save (h hs) _).bind (fun _ => touches_ref _ _ _ _)) (fun _ => touches_ref _ _ _ _)

theorem touches_bnl {P : Str → Prop} (X : Execution K) (nums : Numbers K) (alpha : K) (g : Nat) (ref train : Str) (s1 s2 : Bool)
    (h1 : s1 = true → P (train ++ lit "_struct")) (h2 : s2 = true → P (train ++ lit "_param")) :
    Touches P (runBNL X nums alpha g ref train s1 s2) := by
  unfold runBNL
  have rest : ∀ (D : Dataset) (N : Net), Touches P (do
      let shd ← compareRef nums ref N
      let pts : List (Table K) ← Prog.pure (learnParams N D.natColumns D.numVars D.numInstance 1 X.rnd [])
      if s2 then
        saveFile (train ++ lit "_param") (saveParameters nums.fmt (assignNames D) D.valueIds N.nodes.length pts)
      return shd) := by
    intro D N
    refine (touches_ref _ _ _ _).bind (fun t => (touches_pure _ _).bind (fun pts => ?_))
    exact touches_ite (fun hs => (touches_save (h2 hs) _).bind (fun _ => touches_return _ _)) (fun _ => touches_return _ _)
  refine (touches_read _ _).bind (fun t => (touches_pure _ _).bind (fun D => (touches_pure _ _).bind (fun N => ?_)))
  exact touches_ite (fun hs => (touches_save (h1 hs) _).bind (fun _ => rest _ _)) (fun _ => rest _ _)

theorem touches_classify {P : Str → Prop} (X : Execution K) (nums : Numbers K) (alpha : K) (g : Nat) (ref train test : Str) (s1 s2 : Bool)
    (h1 : s1 = true → P (train ++ lit "_struct")) (h2 : s2 = true → P (train ++ lit "_param")) :
    Touches P (runClassify X nums alpha g ref train test s1 s2) := by
  unfold runClassify
  refine (touches_read _ _).bind (fun t => (touches_pure _ _).bind (fun D => (touches_read _ _).bind (fun t => (touches_pure _ _).bind (fun T =>
    (touches_pure _ _).bind (fun N => ?_)))))
  refine touches_ite (fun hs => (touches_save (h1 hs) _).bind (fun _ => ?_)) (fun _ => ?_) <;>
  · refine (touches_ref _ _ _ _).bind (fun t => (touches_pure _ _).bind (fun pts => ?_))
    exact touches_ite (fun hs => (touches_save (h2 hs) _).bind (fun _ => (touches_pure _ _).bind (fun _ => touches_return _ _)))
      (fun _ => (touches_pure _ _).bind (fun _ => touches_return _ _))

theorem touches_inference (P : Str → Prop) (R : Runtime K ω) (net test pt : Str) : Touches P (runInference R net test pt) := by
  unfold runInference
  refine (touches_read _ _).bind (fun t => (touches_pure _ _).bind (fun D => (touches_pure _ _).bind (fun F => (touches_read _ _).bind (fun t =>
    (touches_pure _ _).bind (fun T => (touches_pure _ _).bind (fun E => (touches_pure _ _).bind (fun pts => (touches_pure _ _).bind (fun J => ?_))))))))
  refine touches_ite (fun _ => (touches_pure _ _).bind (fun _ => touches_return _ _)) (fun _ => ?_)
  exact (touches_read _ _).bind (fun t => (touches_pure _ _).bind (fun D => (touches_pure _ _).bind (fun F => touches_return _ _)))

theorem touches_samples {P : Str → Prop} (R : Runtime K ω) (net : Str) (libsvm : Bool) (n cls : Int)
    (h1 : 0 ≤ n → P (getLastPath net ++ lit "/sample_" ++ intToStr n ++ lit "_libsvm"))
    (h2 : 0 ≤ n → libsvm = false → P (getLastPath net ++ lit "/sample_" ++ intToStr n ++ lit "_csv")) :
    Touches P (runSamples R net libsvm n cls) := by
  unfold runSamples
  refine (touches_read _ _).bind (fun t => (touches_pure _ _).bind (fun D => (touches_pure _ _).bind (fun F => ?_)))
  refine touches_ite (fun _ => touches_pure _ _) (fun hn => (touches_pure _ _).bind (fun S => ?_))
  refine (touches_save (h1 (by omega)) _).bind (fun _ => ?_)
  refine touches_ite (fun _ => touches_return _ _) (fun hl => ?_)
  refine (touches_read _ _).bind (fun t => (touches_pure _ _).bind (fun D => (touches_pure _ _).bind (fun F => ?_)))
  exact touches_save (h2 (by omega) (by simpa using hl)) _

omit [Field K] [LinearOrder K]

/-! ### Paths -/

theorem getLastPath_eq {path dir : Str} (h : SplitsPath path dir) : getLastPath path = dir := by
  obtain ⟨name, hn, rfl⟩ := h
  unfold getLastPath
  rw [List.reverse_append, List.reverse_cons, List.append_assoc]
  have : ∀ (l r : Str), (47 : Int) ∉ l → (l ++ [47] ++ r).dropWhile (fun c => decide (c ≠ 47)) = 47 :: r := by
    intro l r hl
    induction l with
    | nil => simp
    | cons c l ih =>
      simp only [List.mem_cons, not_or] at hl
      have hc : c ≠ 47 := fun e => hl.1 e.symm
      simp only [List.cons_append, List.dropWhile_cons, decide_eq_true_eq, hc, ne_eq, not_false_eq_true, if_true]
      exact ih hl.2
  rw [← List.append_assoc, this _ _ (by simpa using hn)]
  simp

theorem exists_split {path : Str} (h : (47 : Int) ∈ path) : ∃ dir, SplitsPath path dir := by
  induction path with
  | nil => simp at h
  | cons c path ih =>
    by_cases hp : (47 : Int) ∈ path
    · obtain ⟨dir, name, h1, h2⟩ := ih hp
      exact ⟨c :: dir, name, h1, by rw [h2]; rfl⟩
    · have hc : c = 47 := by
        rcases List.mem_cons.1 h with e | e
        · exact e.symm
        · exact absurd e hp
      exact ⟨[], path, hp, by rw [hc]; rfl⟩

theorem slash_dataPath (s : Str) : (47 : Int) ∈ dataPath s := by
  have : (47 : Int) ∈ lit "dataset/" := by decide
  unfold dataPath
  split <;> exact List.mem_append_right _ this

theorem findString_some {b : Str} (hb : b ≠ []) {s : Str} {k : Nat} : findString b s = some k ↔ FirstAt s b k := by
  induction s generalizing k with
  | nil =>
    unfold findString
    rw [if_neg hb]
    constructor
    · intro h; cases h
    · rintro ⟨⟨r, hr⟩, -⟩
      simp at hr
      exact absurd hr.1 hb
  | cons c s ih =>
    unfold findString
    by_cases hp : b.isPrefixOf (c :: s) = true
    · rw [if_pos hp]
      rw [List.isPrefixOf_iff_prefix] at hp
      obtain ⟨r, hr⟩ := hp
      constructor
      · intro h
        cases h
        exact ⟨⟨r, hr.symm⟩, fun j hj => absurd hj (by omega)⟩
      · rintro ⟨-, h2⟩
        rcases Nat.eq_zero_or_pos k with rfl | hk
        · rfl
        · exact absurd ⟨r, hr.symm⟩ (h2 0 hk)
    · rw [if_neg hp]
      have hp' : ¬ ∃ r, (c :: s).drop 0 = b ++ r := by
        rintro ⟨r, hr⟩
        exact hp (List.isPrefixOf_iff_prefix.2 ⟨r, hr.symm⟩)
      cases k with
      | zero =>
        constructor
        · intro h
          cases hf : findString b s <;> rw [hf] at h <;> simp at h
        · rintro ⟨h1, -⟩
          exact absurd h1 hp'
      | succ k =>
        have : (findString b s).map (· + 1) = some (k + 1) ↔ findString b s = some k := by
          cases findString b s <;> simp
        rw [this, ih]
        constructor
        · rintro ⟨h1, h2⟩
          refine ⟨by simpa using h1, fun j hj => ?_⟩
          cases j with
          | zero => exact hp'
          | succ j => simpa using h2 j (by omega)
        · rintro ⟨h1, h2⟩
          refine ⟨by simpa using h1, fun j hj => ?_⟩
          simpa using h2 (j + 1) (by omega)

end FastPGM
