import Verif.Spec.Strings
import Verif.Lemmas.Except

/-!
Properties C13 and C14: splitting and trimming.
-/

namespace FastPGM

open Spec

/-! ### C13 -/

theorem splitFrom_spec (s delims : Str) (n : Nat) : ∀ b, b ≤ s.length → s.length - b = n →
    ∃ ps, splitFrom s delims b = .ok ps ∧ ps ≠ [] ∧ (∀ p ∈ ps, ∀ c ∈ p, c ∉ delims) ∧
      ps.length = ((s.drop b).filter (fun c => c ∈ delims)).length + 1 ∧
      weave ps ((s.drop b).filter (fun c => c ∈ delims)) = s.drop b := by
  induction n using Nat.strongRecOn with
  | ind n ih =>
    intro b hb hn
    rw [splitFrom]
    split
    · rename_i e he
      obtain ⟨h1, h2⟩ := findFirstOf_bounds he
      have he' := he
      unfold findFirstOf at he'
      rw [Option.map_eq_some_iff] at he'
      obtain ⟨k, hk, hke⟩ := he'
      obtain ⟨hlt, hin, hbefore⟩ := List.findIdx?_eq_some_iff_getElem.1 hk
      obtain ⟨ps, hps, hne, hno, hlen, hw⟩ := ih (s.length - (e + 1)) (by omega) (e + 1) (by omega) rfl
      rw [substr, if_neg (by omega), ok_bind, hps, ok_bind]
      have hk' : e - b = k := by omega
      have hsplit : s.drop b = (s.drop b).take k ++ (s.drop b)[k] :: s.drop (e + 1) := by
        conv_lhs => rw [← List.take_append_drop k (s.drop b)]
        rw [List.drop_eq_getElem_cons hlt, List.drop_drop]
        congr 3
        omega
      have hpre : ∀ c ∈ (s.drop b).take k, c ∉ delims := by
        intro c hc
        obtain ⟨j, hj, rfl⟩ := List.getElem_of_mem hc
        have hjk : j < k := by
          rw [List.length_take] at hj; omega
        have := hbefore j hjk
        simpa using this
      have hfil : (s.drop b).filter (fun c => c ∈ delims) =
          (s.drop b)[k] :: (s.drop (e + 1)).filter (fun c => c ∈ delims) := by
        conv_lhs => rw [hsplit]
        rw [List.filter_append, List.filter_eq_nil_iff.2 (by simpa using hpre), List.nil_append,
          List.filter_cons_of_pos (by simpa using hin)]
      refine ⟨_, rfl, by simp, ?_, ?_, ?_⟩
      · intro p hp c hc
        rcases List.mem_cons.1 hp with rfl | hp
        · rw [hk'] at hc; exact hpre c hc
        · exact hno p hp c hc
      · rw [hfil, List.length_cons, List.length_cons, hlen]
      · rw [hfil, hk']
        cases ps with
        | nil => exact absurd rfl hne
        | cons q qs =>
          rw [weave, hw, ← hsplit]
    · rename_i hnone
      rw [substr, if_neg (by omega), ok_bind]
      unfold findFirstOf at hnone
      rw [Option.map_eq_none_iff, List.findIdx?_eq_none_iff] at hnone
      have hno : ∀ c ∈ s.drop b, c ∉ delims := fun c hc => by simpa using hnone c hc
      have htake : (s.drop b).take (s.length - b) = s.drop b := List.take_of_length_le (by simp)
      refine ⟨_, rfl, by simp, ?_, ?_, ?_⟩
      · intro p hp c hc
        rw [List.mem_singleton.1 hp, htake] at hc
        exact hno c hc
      · rw [List.filter_eq_nil_iff.2 (by simpa using hno)]; rfl
      · rw [htake]; cases (s.drop b).filter (fun c => c ∈ delims) <;> rfl

/-- C13.  No piece contains a delimiter character; there is one piece more than there are delimiter characters in the input; and
putting the delimiter characters of the input, in order, between the pieces gives back the input. -/
theorem C13_split (s delims : Str) :
    ∃ ps, split s delims = .ok ps ∧ (∀ p ∈ ps, ∀ c ∈ p, c ∉ delims) ∧
      ps.length = (s.filter (fun c => c ∈ delims)).length + 1 ∧ weave ps (s.filter (fun c => c ∈ delims)) = s := by
  obtain ⟨ps, h, _, h1, h2, h3⟩ := splitFrom_spec s delims _ 0 (Nat.zero_le _) rfl
  exact ⟨ps, h, h1, h2, h3⟩

theorem weave_single (d : Int) : ∀ (ps : List Str) (n : Nat), ps.length = n + 1 →
    weave ps (List.replicate n d) = List.intercalate [d] ps := by
  intro ps
  induction ps with
  | nil => intro n h; simp at h
  | cons p ps ih =>
    intro n h
    cases ps with
    | nil => simp [weave, List.intercalate]
    | cons q qs =>
      cases n with
      | zero => simp at h
      | succ n =>
        rw [List.replicate_succ, weave, ih n (by simpa using h)]
        simp [List.intercalate, List.intersperse]

/-- C13, one delimiter character: joining the pieces with it gives back the input. -/
theorem C13_split_single (s : Str) (d : Int) :
    ∃ ps, split s [d] = .ok ps ∧ (∀ p ∈ ps, d ∉ p) ∧ List.intercalate [d] ps = s := by
  obtain ⟨ps, h, h1, h2, h3⟩ := C13_split s [d]
  refine ⟨ps, h, fun p hp hc => h1 p hp d hc (by simp), ?_⟩
  have hrep : s.filter (fun c => c ∈ [d]) = List.replicate (s.filter (fun c => c ∈ [d])).length d := by
    apply List.eq_replicate_of_mem
    intro c hc
    simpa using (List.mem_filter.1 hc).2
  rw [hrep] at h3
  rw [← weave_single d ps _ h2, h3]

/-- The pieces are determined: any list of delimiter-free pieces that weaves to the input is the result. -/
theorem C13_split_unique (delims : Str) : ∀ (ps qs : List Str) (ds : Str), ps.length = ds.length + 1 → qs.length = ds.length + 1 →
    (∀ p ∈ ps, ∀ c ∈ p, c ∉ delims) → (∀ q ∈ qs, ∀ c ∈ q, c ∉ delims) → (∀ d ∈ ds, d ∈ delims) →
    weave ps ds = weave qs ds → ps = qs := by
  intro ps
  induction ps with
  | nil => intro qs ds h; simp at h
  | cons p ps ih =>
    intro qs ds hp hq hnp hnq hd hw
    cases qs with
    | nil => simp at hq
    | cons q qs =>
      cases ds with
      | nil =>
        have e1 : ps = [] := List.length_eq_zero_iff.1 (by simpa using hp)
        have e2 : qs = [] := List.length_eq_zero_iff.1 (by simpa using hq)
        subst e1 e2
        simpa [weave] using hw
      | cons d ds =>
        cases ps with
        | nil => simp at hp
        | cons p' ps =>
          cases qs with
          | nil => simp at hq
          | cons q' qs =>
            rw [weave, weave] at hw
            have key : ∀ (x y u v : Str), (∀ c ∈ x, c ∉ delims) → (∀ c ∈ y, c ∉ delims) →
                x ++ d :: u = y ++ d :: v → x = y ∧ u = v := by
              intro x
              induction x with
              | nil =>
                intro y u v _ hy he
                cases y with
                | nil => simpa using he
                | cons c y =>
                  simp only [List.nil_append, List.cons_append, List.cons.injEq] at he
                  exact absurd (hd d (by simp)) (he.1 ▸ hy c (by simp))
              | cons c x ihx =>
                intro y u v hx hy he
                cases y with
                | nil =>
                  simp only [List.nil_append, List.cons_append, List.cons.injEq] at he
                  exact absurd (hd d (by simp)) (he.1 ▸ hx c (by simp))
                | cons c' y =>
                  simp only [List.cons_append, List.cons.injEq] at he
                  obtain ⟨rfl, he⟩ := he
                  obtain ⟨rfl, hu⟩ := ihx y u v (fun c hc => hx c (by simp [hc])) (fun c hc => hy c (by simp [hc])) he
                  exact ⟨rfl, hu⟩
            obtain ⟨rfl, hu⟩ := key p q _ _ (hnp p (by simp)) (hnq q (by simp)) hw
            rw [ih (q' :: qs) ds (by simpa using hp) (by simpa using hq) (fun a ha => hnp a (by simp [ha]))
              (fun a ha => hnq a (by simp [ha])) (fun a ha => hd a (by simp [ha])) hu]

-- "a,,b " split by ", " (97 44 44 98 32)
example : ∃ ps, split [97, 44, 44, 98, 32] [44, 32] = .ok ps ∧ ps.length = 4 := by
  obtain ⟨ps, h, _, h2, _⟩ := C13_split [97, 44, 44, 98, 32] [44, 32]
  exact ⟨ps, h, by rw [h2]; decide⟩

/-! ### C14 -/

theorem trimLeft_spec (s : Str) : ∃ pre, s = pre ++ trimLeft s ∧ (∀ c ∈ pre, c < 33) ∧
    ∀ c, (trimLeft s).head? = some c → 33 ≤ c := by
  induction s with
  | nil => exact ⟨[], rfl, by simp, by simp [trimLeft]⟩
  | cons c cs ih =>
    rw [trimLeft]
    split
    · rename_i hb
      obtain ⟨pre, h1, h2, h3⟩ := ih
      refine ⟨c :: pre, by rw [List.cons_append, ← h1], ?_, h3⟩
      intro d hd
      rcases List.mem_cons.1 hd with rfl | hd
      · simpa [blank] using hb
      · exact h2 d hd
    · rename_i hb
      exact ⟨[], rfl, by simp, by simpa [blank] using hb⟩

theorem trimRight_spec (n : Nat) : ∀ s : Str, s.length = n → ∃ post, s = trimRight s ++ post ∧ (∀ c ∈ post, c < 33) ∧
    ∀ c, (trimRight s).getLast? = some c → 33 ≤ c := by
  induction n with
  | zero =>
    intro s hs
    have : s = [] := List.length_eq_zero_iff.1 hs
    subst this
    exact ⟨[], by rw [trimRight]; simp, by simp, by rw [trimRight]; simp⟩
  | succ n ih =>
    intro s hs
    have hne : s ≠ [] := by rintro rfl; simp at hs
    rw [trimRight, dif_neg hne]
    split
    · rename_i hb
      obtain ⟨post, h1, h2, h3⟩ := ih s.dropLast (by simp [hs])
      refine ⟨post ++ [s.getLast hne], ?_, ?_, h3⟩
      · rw [← List.append_assoc, ← h1, List.dropLast_concat_getLast]
      · intro c hc
        rcases List.mem_append.1 hc with hc | hc
        · exact h2 c hc
        · rw [List.mem_singleton.1 hc]; simpa [blank] using hb
    · rename_i hb
      refine ⟨[], by simp, by simp, ?_⟩
      intro c hc
      rw [List.getLast?_eq_some_getLast hne] at hc
      simp only [Option.some.injEq] at hc
      subst hc
      simpa [blank] using hb

theorem trimLeft_getLast (s : Str) (c : Int) (h : (trimLeft s).getLast? = some c) : s.getLast? = some c := by
  obtain ⟨pre, h1, _, _⟩ := trimLeft_spec s
  rw [h1]
  rw [List.getLast?_append, h]
  rfl

/-- C14.  `Trim` returns the input without its outer blank characters (char value below 33) ... -/
theorem C14_trim (s : Str) : IsTrimmed s (trim s) := by
  obtain ⟨post, h1, h2, h3⟩ := trimRight_spec _ s rfl
  obtain ⟨pre, h4, h5, h6⟩ := trimLeft_spec (trimRight s)
  refine ⟨pre, post, ?_, h5, h2, h6, ?_⟩
  · conv_lhs => rw [h1, h4]
    rfl
  · intro c hc
    exact h3 c (trimLeft_getLast _ _ hc)

/-- C14.  ... which is unique. -/
theorem C14_trim_unique (s m m' : Str) (h : IsTrimmed s m) (h' : IsTrimmed s m') : m = m' := by
  -- peel equal fronts, then equal backs
  have front : ∀ (pre pre' x x' : Str), (∀ c ∈ pre, c < 33) → (∀ c ∈ pre', c < 33) →
      (∀ c, x.head? = some c → 33 ≤ c) → (∀ c, x'.head? = some c → 33 ≤ c) →
      x ≠ [] → x' ≠ [] → pre ++ x = pre' ++ x' → x = x' := by
    intro pre
    induction pre with
    | nil =>
      intro pre' x x' _ hp' hx _ hne _ he
      cases pre' with
      | nil => simpa using he
      | cons c pre' =>
        rw [List.nil_append, List.cons_append] at he
        have := hx c (by rw [he]; rfl)
        have := hp' c (by simp)
        omega
    | cons c pre ih =>
      intro pre' x x' hp hp' hx hx' hne hne' he
      cases pre' with
      | nil =>
        rw [List.nil_append, List.cons_append] at he
        have := hx' c (by rw [← he]; rfl)
        have := hp c (by simp)
        omega
      | cons c' pre' =>
        simp only [List.cons_append, List.cons.injEq] at he
        exact ih pre' x x' (fun d hd => hp d (by simp [hd])) (fun d hd => hp' d (by simp [hd])) hx hx' hne hne' he.2
  have notall : ∀ (t : Str), IsTrimmed s t → t ≠ [] → ∃ c ∈ s, 33 ≤ c := by
    rintro t ⟨pre, post, e, _, _, h4, _⟩ hne
    obtain ⟨c, t', rfl⟩ := List.exists_cons_of_ne_nil hne
    exact ⟨c, by rw [e]; simp, h4 c rfl⟩
  have hall : IsTrimmed s [] → ∀ c ∈ s, c < 33 := by
    rintro ⟨pre, post, e, h2, h3, _, _⟩ c hc
    rw [e] at hc
    simp only [List.append_nil, List.mem_append] at hc
    exact hc.elim (h2 c) (h3 c)
  by_cases hm : m = []
  · by_cases hm' : m' = []
    · rw [hm, hm']
    · subst hm
      obtain ⟨c, hc, hb⟩ := notall m' h' hm'
      have := hall h c hc
      omega
  · by_cases hm' : m' = []
    · subst hm'
      obtain ⟨c, hc, hb⟩ := notall m h hm
      have := hall h' c hc
      omega
    · obtain ⟨pre, post, e, h2, h3, h4, h5⟩ := h
      obtain ⟨pre', post', e', h2', h3', h4', h5'⟩ := h'
      have hh : ∀ (a b : Str), a ≠ [] → (a ++ b).head? = a.head? := by
        intro a b ha
        obtain ⟨c, t, rfl⟩ := List.exists_cons_of_ne_nil ha
        rfl
      have e1 : m ++ post = m' ++ post' := by
        refine front pre pre' _ _ h2 h2' ?_ ?_ (by simp [hm]) (by simp [hm']) ?_
        · rw [hh _ _ hm]; exact h4
        · rw [hh _ _ hm']; exact h4'
        · rw [← List.append_assoc, ← List.append_assoc, ← e, e']
      have e2 : post.reverse ++ m.reverse = post'.reverse ++ m'.reverse := by
        rw [← List.reverse_append, ← List.reverse_append, e1]
      have := front post.reverse post'.reverse m.reverse m'.reverse (by simpa using h3) (by simpa using h3')
        (by simpa using h5) (by simpa using h5') (by simpa using hm) (by simpa using hm') e2
      simpa using this

/-- C14.  Trimming twice changes nothing. -/
theorem C14_trim_idempotent (s : Str) : trim (trim s) = trim s := by
  refine C14_trim_unique (trim s) _ _ (C14_trim (trim s)) ?_
  obtain ⟨_, _, _, _, _, h4, h5⟩ := C14_trim s
  exact ⟨[], [], by simp, by simp, by simp, h4, h5⟩

/-- C14.  The one-character trimmers on a non-empty string: the last character goes iff it is one of the listed ones. -/
theorem C14_trimRightOne (s : Str) (c : Int) :
    (trimRightComma (s ++ [c]) = .ok (if c = 44 then s else s ++ [c])) ∧
    (trimRightCommaAndParenthesis (s ++ [c]) = .ok (if c = 44 ∨ c = 41 then s else s ++ [c])) ∧
    (trimRightCommaAndSemicolon (s ++ [c]) = .ok (if c = 44 ∨ c = 59 then s else s ++ [c])) ∧
    trimLeftParenthesis (c :: s) = if c = 40 then s else c :: s := by
  refine ⟨?_, ?_, ?_, rfl⟩ <;>
  · simp only [trimRightComma, trimRightCommaAndParenthesis, trimRightCommaAndSemicolon, trimRightOne, List.getLast?_append,
      List.getLast?_singleton, Option.some_or, List.dropLast_concat, List.mem_cons, List.not_mem_nil, or_false]
    split <;> rfl

/-- C14, boundary: three of the one-character trimmers read outside the empty string. -/
theorem C14_empty_undefined : trimRightComma [] = .error .ub ∧ trimRightCommaAndParenthesis [] = .error .ub ∧
    trimRightCommaAndSemicolon [] = .error .ub ∧ trimLeftParenthesis [] = [] := by decide

/-- C14, consequence of the signed comparison: a byte above 127 (here the UTF-8 encoding of "é", 0xC3 0xA9) is trimmed as well. -/
theorem C14_high_bytes_trimmed : trimLeft [-61, -87, 97] = [97] := by decide

-- " a " keeps its middle
example : IsTrimmed [32, 97, 10] [97] :=
  ⟨[32], [10], rfl, by decide, by decide, by simp, by simp⟩

end FastPGM
