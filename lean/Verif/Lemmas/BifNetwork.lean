import Verif.Spec.BifFile
import Verif.Model.BifNetwork
import Verif.Lemmas.XmlNetwork

/-!
Lemmas about the loader of BIF files.
-/

namespace FastPGM

open Spec

variable {K : Type}

/-! ### Words and lines -/

theorem Spec.IsWord.solid {w : Str} (h : IsWord w) : w ≠ [] ∧ ∀ c ∈ w, 33 ≤ c := ⟨h.1, h.2.1⟩

theorem trimLeft_spaces {pre m : Str} (hp : ∀ c ∈ pre, c < 33) (hm : ∀ c, m.head? = some c → 33 ≤ c) : trimLeft (pre ++ m) = m := by
  induction pre with
  | nil =>
    cases m with
    | nil => rfl
    | cons c m =>
      have := hm c rfl
      have h2 : blank c = false := by simp [blank]; omega
      simp [trimLeft, h2]
  | cons c pre ih =>
    have h2 : blank c = true := by simpa [blank] using hp c (by simp)
    rw [List.cons_append, trimLeft, if_pos h2]
    exact ih (fun d hd => hp d (by simp [hd]))

theorem Spec.IsLine.trim {words : List Str} {line : Str} (h : IsLine words line) (hs : Solid words) :
    trimLeft line = List.intercalate [32] words := by
  obtain ⟨pre, h1, rfl⟩ := h
  exact trimLeft_spaces (fun c hc => (h1 c hc).1) (head_intercalate hs)

theorem tokens_words {words : List Str} (hs : Solid words) (hne : words ≠ []) : split (List.intercalate [32] words) [32] = .ok words :=
  split_intercalate 32 (fun t ht hc => by have := (hs t ht).2 32 hc; omega) hne

theorem Spec.IsLine.tokens {words : List Str} {line : Str} (h : IsLine words line) (hs : Solid words) (hne : words ≠ []) :
    bifTokens line = .ok words := by
  rw [bifTokens, h.trim hs]
  exact tokens_words hs hne

theorem Spec.IsLine.tokens_trim {words : List Str} {line : Str} (h : IsLine words line) (hs : Solid words) (hne : words ≠ []) :
    bifTokens (trimLeft line) = .ok words := by
  rw [bifTokens, h.trim hs]
  have := trimLeft_spaces (pre := []) (by simp) (head_intercalate hs)
  rw [List.nil_append] at this
  rw [this]
  exact tokens_words hs hne

theorem mem_intercalate {l : List Str} {c : Int} (h : c ∈ List.intercalate [32] l) : c = 32 ∨ ∃ t ∈ l, c ∈ t := by
  induction l with
  | nil => simp at h
  | cons t l ih =>
    cases l with
    | nil => simp [List.intercalate] at h; exact Or.inr ⟨t, by simp, h⟩
    | cons b l =>
      rw [intercalate_cons _ _ (by simp)] at h
      simp only [List.mem_append, List.mem_cons] at h
      rcases h with h | rfl | h
      · exact Or.inr ⟨t, by simp, h⟩
      · exact Or.inl rfl
      · rcases ih h with e | ⟨t', ht', h'⟩
        · exact Or.inl e
        · exact Or.inr ⟨t', by simp [List.mem_cons.1 ht'], h'⟩

theorem Spec.IsLine.noNewline {words : List Str} {line : Str} (h : IsLine words line) (hs : Solid words) : 10 ∉ line := by
  obtain ⟨pre, h1, rfl⟩ := h
  intro hc
  rcases List.mem_append.1 hc with hc | hc
  · exact (h1 10 hc).2 rfl
  · rcases mem_intercalate hc with e | ⟨t, ht, hc⟩
    · omega
    · have := (hs t ht).2 10 hc
      omega

/-! ### Commas -/

theorem commas_length (last : Str) (l : List Str) : (commas last l).length = l.length := by
  induction l with
  | nil => rfl
  | cons x l ih => cases l with
    | nil => rfl
    | cons y r => simpa [commas] using ih

theorem trimRightOne_snoc {cs : List Int} {c : Int} (h : c ∈ cs) (x : Str) : trimRightOne cs (x ++ [c]) = .ok x := by
  simp [trimRightOne, h]

theorem trimRightOne_word {cs : List Int} {x : Str} (hne : x ≠ []) (h : ∀ c ∈ cs, x.getLast? ≠ some c) : trimRightOne cs x = .ok x := by
  unfold trimRightOne
  obtain ⟨c, hc⟩ := Option.ne_none_iff_exists'.1 (mt List.getLast?_eq_none_iff.1 hne)
  rw [hc]
  simp only
  rw [if_neg (fun hm => h c hm hc)]

/-- Trimming gives the words back. -/
theorem commas_get {cs : List Int} (h44 : 44 ∈ cs) {last : Str} : ∀ {l : List Str}, (∀ x ∈ l, trimRightOne cs (x ++ last) = .ok x) →
    ∀ {j : Nat} {x : Str}, l[j]? = some x → ∃ y, (commas last l)[j]? = some y ∧ trimRightOne cs y = .ok x := by
  intro l
  induction l with
  | nil => intro _ j x h; simp at h
  | cons z l ih =>
    intro hl j x h
    cases l with
    | nil =>
      cases j with
      | zero => cases h; exact ⟨_, rfl, hl z (by simp)⟩
      | succ j => simp at h
    | cons y r =>
      cases j with
      | zero => cases h; exact ⟨_, rfl, trimRightOne_snoc h44 z⟩
      | succ j =>
        exact ih (fun x hx => hl x (by simp [hx])) (j := j) h

theorem commas_solid {last : Str} (hlast : ∀ c ∈ last, 33 ≤ c) : ∀ {l : List Str}, Solid l → Solid (commas last l) := by
  intro l
  induction l with
  | nil => intro h; simpa [commas] using h
  | cons x l ih =>
    intro h
    have hx := h x (by simp)
    cases l with
    | nil =>
      intro s hs
      simp only [commas, List.mem_singleton] at hs
      subst hs
      refine ⟨by simp [hx.1], fun c hc => ?_⟩
      rcases List.mem_append.1 hc with hc | hc
      · exact hx.2 c hc
      · exact hlast c hc
    | cons y r =>
      intro s hs
      rw [commas, List.mem_cons] at hs
      rcases hs with rfl | hs
      · refine ⟨by simp [hx.1], fun c hc => ?_⟩
        rcases List.mem_append.1 hc with hc | hc
        · exact hx.2 c hc
        · have : c = 44 := List.mem_singleton.1 (show c ∈ [(44 : Int)] from hc)
          omega
      · exact ih (fun t ht => h t (by simp [ht])) s hs

theorem Solid.append {l m : List Str} (h : Solid l) (h' : Solid m) : Solid (l ++ m) := by
  intro s hs
  rcases List.mem_append.1 hs with hs | hs
  · exact h s hs
  · exact h' s hs

/-! ### Variables -/

theorem words_solid {l : List Str} (h : ∀ w ∈ l, IsWord w) : Solid l := fun w hw => (h w hw).solid

theorem word_trim {cs : List Int} (hcs : ∀ c ∈ cs, c ∈ [(44 : Int), 41, 59]) {w : Str} (h : IsWord w) : trimRightOne cs (w ++ []) = .ok w := by
  rw [List.append_nil]
  exact trimRightOne_word h.1 (fun c hc => h.2.2.2 c (hcs c hc))

theorem varLines_solid {v : VarDecl} (h1 : IsWord v.name) (h2 : ∀ w ∈ v.values, IsWord w) :
    ∀ words ∈ varLines v, Solid words ∧ words ≠ [] ∧ words[0]? ≠ some (lit "probability") := by
  intro words hw
  simp only [varLines, List.mem_cons, List.not_mem_nil, or_false] at hw
  rcases hw with rfl | rfl | rfl
  · refine ⟨?_, by simp, by simp; decide⟩
    intro s hs
    simp only [List.mem_cons, List.not_mem_nil, or_false] at hs
    rcases hs with rfl | rfl | rfl
    · decide
    · exact h1.solid
    · decide
  · refine ⟨?_, by simp, by simp; decide⟩
    refine Solid.append (Solid.append ?_ (commas_solid (by simp) (words_solid h2))) (by unfold Solid; decide)
    intro s hs
    simp only [List.mem_cons, List.not_mem_nil, or_false] at hs
    rcases hs with rfl | rfl | rfl | rfl | rfl | rfl
    · decide
    · decide
    · decide
    · obtain ⟨h1, h2⟩ := intToStr_chars v.values.length
      exact ⟨h1, fun c hc => by have := (h2 c hc).1; omega⟩
    · decide
    · decide
  · exact ⟨by unfold Solid; decide, by simp, by decide⟩

/-- The state after some variables. -/
def bifDeclared (vs : List VarDecl) : NetFile :=
  { net := Net.empty (vs.map (fun v => v.values.length)), names := vs.map VarDecl.name,
    valueIds := vs.map (fun v => numbered v.values), stats := vs.map (fun _ => NodeStats.new) }

theorem numbered_assign {done : List Str} {x : Str} (h : x ∉ done) : (numbered done).assign x (done.length : Int) = numbered (done ++ [x]) := by
  unfold ValueMap.assign
  rw [if_neg]
  · simp [numbered, List.zipIdx_append]
  · rw [List.any_eq_true]
    rintro ⟨y, hy, e⟩
    unfold numbered at hy
    obtain ⟨⟨z, k⟩, hz, rfl⟩ := List.mem_map.1 hy
    simp only [decide_eq_true_eq] at e
    subst e
    exact h (List.fst_mem_of_mem_zipIdx hz)

theorem declare_var {v : VarDecl} (h2 : ∀ w ∈ v.values, IsWord w) (hnd : v.values.Nodup)
    (hlen : v.values.length ≤ 2147483647) (done : List VarDecl) :
    (varLines v).foldlM bifDeclare (bifDeclared done) = .ok (bifDeclared (done ++ [v])) := by
  have hfold : (List.range v.values.length).foldlM (fun (m : ValueMap) i => (do
      let value ← trimRightComma (← rdAt ([lit "type", lit "discrete", lit "[", intToStr v.values.length, lit "]", lit "{"] ++ commas [] v.values ++ [lit "};"]) (6 + i))
      return m.assign value (i : Int) : Except Fault ValueMap)) [] = .ok (numbered v.values) := by
    have := foldlM_range_eq (f := fun (m : ValueMap) i => (do
      let value ← trimRightComma (← rdAt ([lit "type", lit "discrete", lit "[", intToStr v.values.length, lit "]", lit "{"] ++ commas [] v.values ++ [lit "};"]) (6 + i))
      return m.assign value (i : Int) : Except Fault ValueMap)) (s := fun i => numbered (v.values.take i)) (n := v.values.length) ?_
    · simpa [numbered] using this
    · intro i hi
      obtain ⟨y, hy, hy2⟩ := commas_get (cs := [44]) (by simp) (last := []) (l := v.values)
        (fun x hx => word_trim (by simp) (h2 x hx)) (List.getElem?_eq_getElem hi)
      have hget : ([lit "type", lit "discrete", lit "[", intToStr v.values.length, lit "]", lit "{"] ++ commas [] v.values ++ [lit "};"])[6 + i]? = some y := by
        rw [List.append_assoc, List.getElem?_append_right (by simp), List.getElem?_append_left (by rw [commas_length]; simp; omega)]
        simpa using hy
      have e1 : rdAt ([lit "type", lit "discrete", lit "[", intToStr v.values.length, lit "]", lit "{"] ++ commas [] v.values ++ [lit "};"]) (6 + i) = .ok y := by
        rw [rdAt, hget]
      simp only [e1, ok_bind, trimRightComma, hy2, pure_eq_ok]
      rw [List.take_succ_eq_append_getElem hi]
      congr 1
      rw [← numbered_assign]
      · rw [List.length_take, Nat.min_eq_left hi.le]
      · intro hm
        obtain ⟨j, hj, e⟩ := List.mem_iff_getElem.1 hm
        rw [List.getElem_take] at e
        rw [List.length_take] at hj
        have := (List.Nodup.getElem_inj_iff hnd).1 e
        omega
  have hstoi : stoi (intToStr v.values.length) = .ok (v.values.length : Int) := stoi_intToStr (by simp [inInt]; omega)
  unfold varLines
  simp only [List.foldlM_cons, List.foldlM_nil]
  have e1 : bifDeclare (bifDeclared done) [lit "variable", v.name, lit "{"] = .ok { bifDeclared done with
      net := { (bifDeclared done).net with nodes := (bifDeclared done).net.nodes ++ [{ dim := 0 }] }
      names := (bifDeclared done).names ++ [v.name]
      valueIds := (bifDeclared done).valueIds ++ [[]]
      stats := (bifDeclared done).stats ++ [NodeStats.new] } := by
    simp [bifDeclare, rdAt, ok_bind, pure_eq_ok]
  rw [e1, ok_bind]
  generalize hG : ({ bifDeclared done with
      net := { (bifDeclared done).net with nodes := (bifDeclared done).net.nodes ++ [{ dim := 0 }] }
      names := (bifDeclared done).names ++ [v.name]
      valueIds := (bifDeclared done).valueIds ++ [[]]
      stats := (bifDeclared done).stats ++ [NodeStats.new] } : NetFile) = G
  have g1 : G.names.length = done.length + 1 := by subst hG; simp [bifDeclared]
  have g2 : rd G.net.nodes done.length = .ok { dim := 0 } := by subst hG; simp [bifDeclared, rd, Net.empty]
  have g3 : rd G.valueIds done.length = .ok [] := by subst hG; simp [bifDeclared, rd]
  have e2 : bifDeclare G ([lit "type", lit "discrete", lit "[", intToStr v.values.length, lit "]", lit "{"] ++ commas [] v.values ++ [lit "};"]) =
      .ok { G with
        net := { G.net with nodes := G.net.nodes.set done.length { dim := v.values.length } }
        valueIds := G.valueIds.set done.length (numbered v.values) } := by
    have k0 : rdAt ([lit "type", lit "discrete", lit "[", intToStr v.values.length, lit "]", lit "{"] ++ commas [] v.values ++ [lit "};"]) 0 = .ok (lit "type") := rfl
    have k1 : rdAt ([lit "type", lit "discrete", lit "[", intToStr v.values.length, lit "]", lit "{"] ++ commas [] v.values ++ [lit "};"]) 1 = .ok (lit "discrete") := rfl
    have k3 : rdAt ([lit "type", lit "discrete", lit "[", intToStr v.values.length, lit "]", lit "{"] ++ commas [] v.values ++ [lit "};"]) 3 = .ok (intToStr v.values.length) := rfl
    unfold bifDeclare bifType
    simp only [pure_eq_ok] at hfold
    simp only [k0, k1, k3, ok_bind, hstoi, g1, g2, g3, Int.toNat_natCast, Nat.add_sub_cancel, pure_eq_ok]
    rw [if_neg (by decide), if_pos trivial, if_neg (by simp), if_neg (by omega)]
    simp only [ok_bind, g2, g3, hfold]
  rw [e2, ok_bind]
  have e3 : ∀ G : NetFile, bifDeclare G [lit "}"] = .ok G := by
    intro G
    unfold bifDeclare
    have : rdAt [lit "}"] 0 = .ok (lit "}") := rfl
    rw [this, ok_bind, if_neg (by decide), if_neg (by decide)]
    rfl
  rw [e3, ok_bind]
  subst hG
  simp [bifDeclared, Net.empty, pure_eq_ok]

/-- The loop over the lines of the variables. -/
theorem variables_loop {lp : Str} {pw : List Str} (hp : IsLine pw lp) (hps : Solid pw) (hp0 : pw[0]? = some (lit "probability")) (rest : Str) :
    ∀ (wl : List (List Str)) (lines : List Str), List.Forall₂ IsLine wl lines →
      (∀ words ∈ wl, Solid words ∧ words ≠ [] ∧ words[0]? ≠ some (lit "probability")) → ∀ (F F' : NetFile) (old : Str) (rounds : Nat),
      wl.length < rounds → wl.foldlM bifDeclare F = .ok F' →
      bifVariables rounds F (getline { rest := textOf lines ++ (lp ++ 10 :: rest) } old).1 (getline { rest := textOf lines ++ (lp ++ 10 :: rest) } old).2 =
        .ok (some (F', trimLeft lp, { rest := rest })) := by
  intro wl lines h
  induction h with
  | nil =>
    intro _ F F' old rounds hr hF
    cases hF
    obtain ⟨r, rfl⟩ : ∃ r, rounds = r + 1 := ⟨rounds - 1, by simp at hr; omega⟩
    have hne : pw ≠ [] := by rintro rfl; simp at hp0
    rw [textOf, List.flatMap_nil, List.nil_append, getline_line (hp.noNewline hps)]
    unfold bifVariables
    rw [hp.tokens hps hne, ok_bind, rdAt, hp0]
    simp [ok_bind, pure_eq_ok]
  | @cons words line wl lines hw _ ih =>
    intro hall F F' old rounds hr hF
    obtain ⟨hs, hne, h0⟩ := hall words (by simp)
    obtain ⟨r, rfl⟩ : ∃ r, rounds = r + 1 := ⟨rounds - 1, by simp at hr; omega⟩
    rw [List.foldlM_cons] at hF
    obtain ⟨F1, hF1, hF2⟩ := bind_eq_ok hF
    have e : textOf (line :: lines) ++ (lp ++ 10 :: rest) = line ++ 10 :: (textOf lines ++ (lp ++ 10 :: rest)) := by simp [textOf]
    rw [e, getline_line (hw.noNewline hs)]
    unfold bifVariables
    obtain ⟨k, hk⟩ : ∃ k, words[0]? = some k := by
      cases words with
      | nil => exact absurd rfl hne
      | cons k _ => exact ⟨k, rfl⟩
    have hk' : k ≠ lit "probability" := fun e => h0 (by rw [hk, e])
    rw [hw.tokens hs hne, ok_bind, rdAt, hk]
    simp only [ok_bind, if_neg hk', hF1]
    exact ih (fun w hw => hall w (by simp [hw])) F1 F' _ r (by simp at hr; omega) hF2

end FastPGM
