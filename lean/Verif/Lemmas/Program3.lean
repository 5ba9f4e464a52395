import Verif.Lemmas.Program2

/-!
On which files a run depends.
-/

namespace FastPGM

open Spec

variable {K ω α β : Type}

/-- The run depends only on the files in `P`: on two file systems that agree on them it has the same result, and every file either ends with
the same text or is left alone in both. -/
def Determined (P : Str → Prop) (m : Prog α) : Prop :=
  ∀ w w₂ : World, w.writable = w₂.writable → (∀ q, P q → w.files q = w₂.files q) →
    (m w).1 = (m w₂).1 ∧ (m w).2.writable = (m w₂).2.writable ∧
      ∀ q, (m w).2.files q = (m w₂).2.files q ∨ ((m w).2.files q = w.files q ∧ (m w₂).2.files q = w₂.files q)

theorem Determined.bind {P : Str → Prop} {m : Prog α} {k : α → Prog β} (hm : Determined P m) (hk : ∀ a, Determined P (k a)) :
    Determined P (m >>= k) := by
  intro w w₂ hw hP
  rw [prog_bind, prog_bind]
  obtain ⟨a1, a2, a3⟩ := hm w w₂ hw hP
  rcases h : m w with ⟨r, w'⟩
  rcases h₂ : m w₂ with ⟨r₂, w₂'⟩
  rw [h, h₂] at a1 a2 a3
  dsimp only at a1 a2 a3
  subst a1
  cases r with
  | error e => exact ⟨rfl, a2, a3⟩
  | ok a =>
    obtain ⟨b1, b2, b3⟩ := hk a w' w₂' a2 (fun q hq => by
      rcases a3 q with e | ⟨e, e₂⟩
      · exact e
      · rw [e, e₂]; exact hP q hq)
    refine ⟨b1, b2, fun q => ?_⟩
    rcases b3 q with e | ⟨e, e₂⟩
    · exact Or.inl e
    · rcases a3 q with f | ⟨f, f₂⟩
      · exact Or.inl (by show (k a w').2.files q = (k a w₂').2.files q; rw [e, e₂, f])
      · exact Or.inr ⟨by show (k a w').2.files q = _; rw [e, f], by show (k a w₂').2.files q = _; rw [e₂, f₂]⟩

theorem determined_return (P : Str → Prop) (a : α) : Determined P (pure a : Prog α) := fun _ _ hw _ => ⟨rfl, hw, fun _ => Or.inr ⟨rfl, rfl⟩⟩

theorem determined_pure (P : Str → Prop) (r : Except Fault α) : Determined P (Prog.pure r) := by
  intro w w₂ hw _
  cases r <;> exact ⟨rfl, hw, fun _ => Or.inr ⟨rfl, rfl⟩⟩

theorem determined_endless (P : Str → Prop) : Determined P (Prog.endless : Prog α) := fun _ _ hw _ => ⟨rfl, hw, fun _ => Or.inr ⟨rfl, rfl⟩⟩

theorem determined_read {P : Str → Prop} {q : Str} (h : P q) : Determined P (readFile q) := by
  intro w w₂ hw hP
  have := hP q h
  rcases e : w.files q with _ | t
  · rw [readFile_none e, readFile_none (this ▸ e)]
    exact ⟨rfl, hw, fun _ => Or.inr ⟨rfl, rfl⟩⟩
  · rw [readFile_some e, readFile_some (this ▸ e)]
    exact ⟨rfl, hw, fun _ => Or.inr ⟨rfl, rfl⟩⟩

/-- What has been written may be read. -/
theorem determined_save_then {P : Str → Prop} (q : Str) (t : Except Fault Str) {k : Unit → Prog β}
    (hk : ∀ u, Determined (fun x => P x ∨ x = q) (k u)) : Determined P (saveFile q t >>= k) := by
  intro w w₂ hw hP
  rw [prog_bind, prog_bind]
  by_cases c : w.writable q = true
  · have c₂ : w₂.writable q = true := by rw [← hw]; exact c
    have put : ∀ u x, (w.put q u).files x = (w₂.put q u).files x ∨ ((w.put q u).files x = w.files x ∧ (w₂.put q u).files x = w₂.files x) := by
      intro u x
      by_cases e : x = q
      · subst e; exact Or.inl (by rw [put_same, put_same])
      · exact Or.inr ⟨put_other e, put_other e⟩
    cases t with
    | error f =>
      rw [saveFile_error c, saveFile_error c₂]
      exact ⟨rfl, hw, put []⟩
    | ok t =>
      rw [saveFile_ok c, saveFile_ok c₂]
      obtain ⟨b1, b2, b3⟩ := hk () (w.put q t) (w₂.put q t) hw (fun x hx => by
        by_cases e : x = q
        · subst e; rw [put_same, put_same]
        · rw [put_other e, put_other e]
          exact hP x (hx.resolve_right e))
      refine ⟨b1, b2, fun x => ?_⟩
      dsimp only
      rcases b3 x with e | ⟨e, e₂⟩
      · exact Or.inl e
      · rcases put t x with f | ⟨f, f₂⟩
        · exact Or.inl (by rw [e, e₂, f])
        · exact Or.inr ⟨by rw [e, f], by rw [e₂, f₂]⟩
  · have c₂ : ¬ w₂.writable q = true := by rw [← hw]; exact c
    have : ∀ w : World, ¬ w.writable q = true → saveFile q t w = (.error (.fault .exit), w) := by
      intro w h; unfold saveFile; rw [if_neg h]
    rw [this w c, this w₂ c₂]
    exact ⟨rfl, hw, fun _ => Or.inr ⟨rfl, rfl⟩⟩

theorem Determined.mono {P Q : Str → Prop} {m : Prog α} (h : Determined P m) (hPQ : ∀ q, P q → Q q) : Determined Q m :=
  fun w w₂ hw hQ => h w w₂ hw (fun q hq => hQ q (hPQ q hq))

theorem determined_save (P : Str → Prop) (q : Str) (t : Except Fault Str) : Determined P (saveFile q t) := by
  have := determined_save_then (P := P) q t (k := fun u => (pure u : Prog Unit)) (fun u => determined_return _ u)
  rwa [bind_pure] at this

theorem determined_ite {P : Str → Prop} {c : Prop} [Decidable c] {m k : Prog α} (h1 : c → Determined P m) (h2 : ¬ c → Determined P k) :
    Determined P (if c then m else k) := by
  by_cases h : c
  · rw [if_pos h]; exact h1 h
  · rw [if_neg h]; exact h2 h

theorem determined_ref {P : Str → Prop} (nums : Numbers K) {ref : Str} (N : Net) (h : ref ≠ [] → P ref) : Determined P (compareRef nums ref N) := by
  unfold compareRef
  refine determined_ite (fun _ => determined_return _ _) (fun hr => ?_)
  refine (determined_read (h hr)).bind (fun t => (determined_pure _ _).bind (fun F => ?_))
  cases F
  · exact determined_endless _
  · exact (determined_pure _ _).bind (fun _ => determined_return _ _)

variable [Field K] [LinearOrder K]

theorem determined_bnsl {P : Str → Prop} (X : Execution K) (nums : Numbers K) (alpha : K) (g : Nat) {ref train : Str} (save : Bool)
    (ht : P train) (hr : ref ≠ [] → P ref ∨ save = true ∧ ref = train ++ lit "_struct") :
    Determined P (runBNSL X nums alpha g ref train save) := by
  unfold runBNSL
  refine (determined_read ht).bind (fun t => (determined_pure _ _).bind (fun D => (determined_pure _ _).bind (fun N => ?_)))
  refine determined_ite (fun hs => determined_save_then _ _ (fun _ => determined_ref _ _ (fun h => (hr h).imp id And.right)))
    (fun hs => determined_ref _ _ (fun h => (hr h).resolve_right (fun h => hs h.1)))

theorem determined_bnl {P : Str → Prop} (X : Execution K) (nums : Numbers K) (alpha : K) (g : Nat) {ref train : Str} (s1 s2 : Bool)
    (ht : P train) (hr : ref ≠ [] → P ref ∨ s1 = true ∧ ref = train ++ lit "_struct") :
    Determined P (runBNL X nums alpha g ref train s1 s2) := by
  unfold runBNL
  refine (determined_read ht).bind (fun t => (determined_pure _ _).bind (fun D => (determined_pure _ _).bind (fun N => ?_)))
  refine determined_ite (fun hs => determined_save_then _ _ (fun _ => ?_)) (fun hs => ?_)
  · refine (determined_ref _ _ (fun h => (hr h).imp id And.right)).bind (fun _ => (determined_pure _ _).bind (fun _ => ?_))
    exact determined_ite (fun _ => (determined_save _ _ _).bind (fun _ => determined_return _ _)) (fun _ => determined_return _ _)
  · refine (determined_ref _ _ (fun h => (hr h).resolve_right (fun h => hs h.1))).bind (fun _ => (determined_pure _ _).bind (fun _ => ?_))
    exact determined_ite (fun _ => (determined_save _ _ _).bind (fun _ => determined_return _ _)) (fun _ => determined_return _ _)

theorem determined_classify {P : Str → Prop} (X : Execution K) (nums : Numbers K) (alpha : K) (g : Nat) {ref train test : Str} (s1 s2 : Bool)
    (ht : P train) (htt : P test) (hr : ref ≠ [] → P ref ∨ s1 = true ∧ ref = train ++ lit "_struct") :
    Determined P (runClassify X nums alpha g ref train test s1 s2) := by
  unfold runClassify
  refine (determined_read ht).bind (fun t => (determined_pure _ _).bind (fun D => (determined_read htt).bind (fun t =>
    (determined_pure _ _).bind (fun T => (determined_pure _ _).bind (fun N => ?_)))))
  refine determined_ite (fun hs => determined_save_then _ _ (fun _ => ?_)) (fun hs => ?_)
  · refine (determined_ref _ _ (fun h => (hr h).imp id And.right)).bind (fun _ => (determined_pure _ _).bind (fun _ => ?_))
    exact determined_ite (fun _ => (determined_save _ _ _).bind (fun _ => (determined_pure _ _).bind (fun _ => determined_return _ _)))
      (fun _ => (determined_pure _ _).bind (fun _ => determined_return _ _))
  · refine (determined_ref _ _ (fun h => (hr h).resolve_right (fun h => hs h.1))).bind (fun _ => (determined_pure _ _).bind (fun _ => ?_))
    exact determined_ite (fun _ => (determined_save _ _ _).bind (fun _ => (determined_pure _ _).bind (fun _ => determined_return _ _)))
      (fun _ => (determined_pure _ _).bind (fun _ => determined_return _ _))

theorem determined_inference {P : Str → Prop} (R : Runtime K ω) {net test pt : Str} (hn : P net) (ht : P test) (hp : pt ≠ [] → P pt) :
    Determined P (runInference R net test pt) := by
  unfold runInference
  refine (determined_read hn).bind (fun t => (determined_pure _ _).bind (fun D => (determined_pure _ _).bind (fun F => (determined_read ht).bind (fun t =>
    (determined_pure _ _).bind (fun T => (determined_pure _ _).bind (fun E => (determined_pure _ _).bind (fun pts =>
      (determined_pure _ _).bind (fun J => ?_))))))))
  refine determined_ite (fun _ => (determined_pure _ _).bind (fun _ => determined_return _ _)) (fun h => ?_)
  exact (determined_read (hp h)).bind (fun t => (determined_pure _ _).bind (fun D => (determined_pure _ _).bind (fun F => determined_return _ _)))

theorem determined_samples {P : Str → Prop} (R : Runtime K ω) {net : Str} (libsvm : Bool) (n cls : Int) (hn : P net) :
    Determined P (runSamples R net libsvm n cls) := by
  unfold runSamples
  refine (determined_read hn).bind (fun t => (determined_pure _ _).bind (fun D => (determined_pure _ _).bind (fun F => ?_)))
  refine determined_ite (fun _ => determined_pure _ _) (fun _ => (determined_pure _ _).bind (fun S => ?_))
  refine determined_save_then _ _ (fun _ => ?_)
  refine determined_ite (fun _ => determined_return _ _) (fun _ => ?_)
  exact (determined_read (Or.inr rfl)).bind (fun t => (determined_pure _ _).bind (fun D => (determined_pure _ _).bind (fun F => determined_save _ _ _)))

theorem determined_dispatch {P : Str → Prop} (R : Runtime K ω) (p : Settings K)
    (h : ∀ q, ReadsFile (dataPath R.source) p q → P q ∨ ((p.job = 0 ∨ p.job = 1 ∨ p.job = 4) ∧ q = dataPath R.source ++ p.refNetFile ∧
      p.saveStruct = true ∧ p.refNetFile = p.trainSetFile ++ lit "_struct" ∧ p.testSetFile ≠ p.refNetFile)) :
    Determined P (dispatch R p) := by
  have htrain : (p.job = 0 ∨ p.job = 1 ∨ p.job = 4) → P (dataPath R.source ++ p.trainSetFile) := by
    intro hj
    rcases h _ (.train hj) with h | ⟨-, h, -, h2, -⟩
    · exact h
    · rw [h2] at h
      have := congrArg List.length h
      simp [lit] at this
  have htest : (p.job = 2 ∨ p.job = 4) → P (dataPath R.source ++ p.testSetFile) := by
    intro hj
    rcases h _ (.test hj) with h | ⟨-, h, -, -, h2⟩
    · exact h
    · exact absurd (List.append_cancel_left h) h2
  have hnet : (p.job = 2 ∨ p.job = 5) → P (dataPath R.source ++ p.netFile) := by
    intro hj
    rcases h _ (.network hj) with h | ⟨h, -⟩
    · exact h
    · omega
  have hpt : p.job = 2 → (if p.ptFile = [] then [] else dataPath R.source ++ p.ptFile) ≠ [] →
      P (if p.ptFile = [] then [] else dataPath R.source ++ p.ptFile) := by
    intro hj hne
    by_cases c : p.ptFile = []
    · rw [if_pos c] at hne; exact absurd rfl hne
    · rw [if_neg c]
      rcases h _ (.distributions hj c) with h | ⟨h, -⟩
      · exact h
      · omega
  have href : (p.job = 0 ∨ p.job = 1 ∨ p.job = 4) → (if p.refNetFile = [] then [] else dataPath R.source ++ p.refNetFile) ≠ [] →
      P (if p.refNetFile = [] then [] else dataPath R.source ++ p.refNetFile) ∨ p.saveStruct = true ∧
        (if p.refNetFile = [] then [] else dataPath R.source ++ p.refNetFile) = dataPath R.source ++ p.trainSetFile ++ lit "_struct" := by
    intro hj hne
    by_cases c : p.refNetFile = []
    · rw [if_pos c] at hne; exact absurd rfl hne
    · rw [if_neg c]
      rcases h _ (.reference hj c) with h | ⟨-, -, h1, h2, -⟩
      · exact Or.inl h
      · exact Or.inr ⟨h1, by rw [h2, List.append_assoc]⟩
  unfold dispatch
  dsimp only
  refine determined_ite (fun hj => determined_ite (fun _ => determined_pure _ _) (fun hm => ?_)) (fun h0 => ?_)
  · exact (determined_bnsl _ _ _ _ _ (htrain (Or.inl hj)) (href (Or.inl hj))).bind (fun _ => determined_return _ _)
  refine determined_ite (fun hj => determined_ite (fun _ => determined_pure _ _) (fun hm => ?_)) (fun h1 => ?_)
  · exact (determined_bnl _ _ _ _ _ _ (htrain (Or.inr (Or.inl hj))) (href (Or.inr (Or.inl hj)))).bind (fun _ => determined_return _ _)
  refine determined_ite (fun hj => determined_ite (fun _ => ?_) (fun hm => determined_pure _ _)) (fun h2 => ?_)
  · exact (determined_inference _ (hnet (Or.inl hj)) (htest (Or.inl hj)) (hpt hj)).bind (fun _ => determined_return _ _)
  refine determined_ite (fun hj => determined_ite (fun _ => determined_pure _ _) (fun hm => determined_return _ _)) (fun h3 => ?_)
  refine determined_ite (fun hj => determined_ite (fun hm => ?_) (fun hm => determined_return _ _)) (fun h4 => ?_)
  · exact (determined_classify _ _ _ _ _ _ (htrain (Or.inr (Or.inr hj))) (htest (Or.inr hj)) (href (Or.inr (Or.inr hj)))).bind
      (fun _ => determined_return _ _)
  refine determined_ite (fun hj => determined_ite (fun hm => ?_) (fun hm => determined_return _ _)) (fun h5 => determined_return _ _)
  exact (determined_samples _ _ _ _ (hnet (Or.inr hj))).bind (fun _ => determined_return _ _)

end FastPGM
