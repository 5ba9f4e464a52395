import Verif.Model.Dataset
import Verif.Spec.Dataset
import Verif.Props.Strings

/-!
Reading text files line by line, splitting lines into cells.
-/

namespace FastPGM

open Spec

theorem ok_of_bind {α β : Type} {x : Except Fault α} {f : α → Except Fault β} {b : β} (h : (x >>= f) = .ok b) : ∃ a, x = .ok a ∧ f a = .ok b := by
  cases x with
  | error e => exact absurd h (by simp)
  | ok a => exact ⟨a, rfl, h⟩

/-! ### Lines -/

theorem linesOf_append {l : Str} (h : 10 ∉ l) (rest : Str) : linesOf (l ++ 10 :: rest) = l :: linesOf rest := by
  induction l with
  | nil => simp [linesOf]
  | cons c l ih =>
    simp only [List.mem_cons, not_or] at h
    rw [List.cons_append, linesOf, if_neg (fun e => h.1 e.symm), ih h.2]

theorem linesOf_single {l : Str} (h : 10 ∉ l) (hne : l ≠ []) : linesOf l = [l] := by
  induction l with
  | nil => exact absurd rfl hne
  | cons c l ih =>
    simp only [List.mem_cons, not_or] at h
    rw [linesOf, if_neg (fun e => h.1 e.symm)]
    cases l with
    | nil => rfl
    | cons d l => rw [ih h.2 (by simp)]

theorem completeLines_append {l : Str} (h : 10 ∉ l) (rest : Str) : completeLines (l ++ 10 :: rest) = l :: completeLines rest := by
  induction l with
  | nil => simp [completeLines]
  | cons c l ih =>
    simp only [List.mem_cons, not_or] at h
    rw [List.cons_append, completeLines, if_neg (fun e => h.1 e.symm), ih h.2]

theorem completeLines_single {l : Str} (h : 10 ∉ l) : completeLines l = [] := by
  induction l with
  | nil => rfl
  | cons c l ih =>
    simp only [List.mem_cons, not_or] at h
    rw [completeLines, if_neg (fun e => h.1 e.symm), ih h.2]

theorem textOf_cons (l : Str) (ls : List Str) : textOf (l :: ls) = l ++ 10 :: textOf ls := by simp [textOf]

theorem textOf_append (ls ms : List Str) : textOf (ls ++ ms) = textOf ls ++ textOf ms := by simp [textOf]

/-- A text made of lines has these lines; a non-empty rest without newline is one more. -/
theorem linesOf_textOf {ls : List Str} (h : ∀ l ∈ ls, 10 ∉ l) (last : Str) (hl : 10 ∉ last) :
    linesOf (textOf ls ++ last) = ls ++ if last = [] then [] else [last] := by
  induction ls with
  | nil =>
    by_cases e : last = []
    · subst e; rfl
    · rw [if_neg e]; exact linesOf_single hl e
  | cons l ls ih =>
    rw [textOf_cons, List.append_assoc, List.cons_append, linesOf_append (h l (by simp)), ih (fun m hm => h m (by simp [hm]))]
    rfl

theorem completeLines_textOf {ls : List Str} (h : ∀ l ∈ ls, 10 ∉ l) (last : Str) (hl : 10 ∉ last) :
    completeLines (textOf ls ++ last) = ls := by
  induction ls with
  | nil => exact completeLines_single hl
  | cons l ls ih =>
    rw [textOf_cons, List.append_assoc, List.cons_append, completeLines_append (h l (by simp)), ih (fun m hm => h m (by simp [hm]))]

/-- A text either has no newline or has a first line. -/
theorem text_cases (s : Str) : 10 ∉ s ∨ ∃ l rest, 10 ∉ l ∧ s = l ++ 10 :: rest := by
  induction s with
  | nil => exact .inl (by simp)
  | cons c s ih =>
    by_cases hc : c = 10
    · exact .inr ⟨[], s, by simp, by simp [hc]⟩
    · rcases ih with h | ⟨l, rest, hl, rfl⟩
      · exact .inl (by simp [h, Ne.symm hc])
      · exact .inr ⟨c :: l, rest, by simp [hl, Ne.symm hc], rfl⟩

theorem linesOf_length (s : Str) : (linesOf s).length ≤ s.length := by
  induction s with
  | nil => simp [linesOf]
  | cons c s ih =>
    rw [linesOf]
    split
    · simpa using ih
    · split
      · simp
      · rename_i e; rw [e] at ih; simp at ih ⊢; omega

/-! ### `getline` -/

theorem getline_line {l : Str} (h : 10 ∉ l) (rest old : Str) :
    getline { rest := l ++ 10 :: rest } old = (l, { rest := rest }) := by
  have hl : ∀ c ∈ l, c ≠ 10 := fun c hc e => h (e ▸ hc)
  have h1 : (l ++ 10 :: rest).takeWhile (fun c => c ≠ 10) = l := by
    rw [List.takeWhile_append_of_pos (by simpa using hl)]; simp
  have h2 : (l ++ 10 :: rest).dropWhile (fun c => c ≠ 10) = 10 :: rest := by
    rw [List.dropWhile_append_of_pos (by simpa using hl)]; simp
  simp only [getline, Bool.or_self, Bool.false_eq_true, if_false, h1, h2]

theorem getline_last {l : Str} (h : 10 ∉ l) (old : Str) :
    getline { rest := l } old = (l, { rest := [], eof := true, fail := decide (l = []) }) := by
  have hl : ∀ c ∈ l, c ≠ 10 := fun c hc e => h (e ▸ hc)
  have h1 : l.takeWhile (fun c => c ≠ 10) = l := by
    have := List.takeWhile_append_of_pos (p := fun c => c ≠ 10) (l₁ := l) (l₂ := []) (by simpa using hl)
    simpa using this
  have h2 : l.dropWhile (fun c => c ≠ 10) = [] := by
    have := List.dropWhile_append_of_pos (p := fun c => c ≠ 10) (l₁ := l) (l₂ := []) (by simpa using hl)
    simpa using this
  simp only [getline, Bool.or_self, Bool.false_eq_true, if_false, h1, h2]

theorem getline_eof (old rest : Str) (b : Bool) :
    getline { rest := rest, eof := true, fail := b } old = (old, { rest := rest, eof := true, fail := true }) := by
  simp [getline]

/-! ### Loops over lines -/

variable {σ : Type}

/-- After the end of the file the loop runs once more. -/
theorem doWhile_eof (body : σ → Str → Except Fault σ) {fuel : Nat} (hf : 0 < fuel) (st : σ) (sample rest : Str) (b : Bool) :
    doWhileGetline body fuel st sample { rest := rest, eof := true, fail := b } = body st sample := by
  obtain ⟨k, rfl⟩ := Nat.exists_eq_succ_of_ne_zero (Nat.pos_iff_ne_zero.1 hf)
  rw [doWhileGetline, getline_eof]
  cases body st sample <;> rfl

/-- The `do`-`while` loop visits the line it is given and then all lines of the rest. -/
theorem doWhile_lines (body : σ → Str → Except Fault σ) : ∀ (fuel : Nat) (rest : Str), rest.length < fuel → ∀ (st : σ) (sample : Str),
    doWhileGetline body fuel st sample { rest := rest } = (sample :: linesOf rest).foldlM body st := by
  intro fuel
  induction fuel with
  | zero => intro rest h; omega
  | succ fuel ih =>
    intro rest hf st sample
    rw [doWhileGetline, List.foldlM_cons]
    congr 1
    funext st'
    rcases text_cases rest with h | ⟨l, rest', hl, rfl⟩
    · rw [getline_last h]
      by_cases e : rest = []
      · subst e; rfl
      · have : 0 < rest.length := List.length_pos_iff.2 e
        rw [linesOf_single h e]
        simp only [e, decide_false, Bool.false_eq_true, if_false]
        rw [doWhile_eof _ (by omega), List.foldlM_cons]
        cases body st' rest <;> rfl
    · rw [getline_line hl, linesOf_append hl]
      simp only [Bool.false_eq_true, if_false]
      exact ih rest' (by simp at hf; omega) _ _

/-- The `while (getline)` loop visits all lines. -/
theorem whileGetline_lines (body : σ → Str → Except Fault σ) : ∀ (fuel : Nat) (rest : Str), rest.length + 1 < fuel → ∀ (st : σ) (sample : Str),
    whileGetline body fuel st sample { rest := rest } = (linesOf rest).foldlM body st := by
  intro fuel
  induction fuel with
  | zero => intro rest h; omega
  | succ fuel ih =>
    intro rest hf st sample
    rw [whileGetline]
    rcases text_cases rest with h | ⟨l, rest', hl, rfl⟩
    · rw [getline_last h]
      by_cases e : rest = []
      · subst e; rfl
      · rw [linesOf_single h e]
        simp only [e, decide_false, Bool.false_eq_true, if_false, List.foldlM_cons]
        congr 1
        funext st'
        have : 0 < rest.length := List.length_pos_iff.2 e
        obtain ⟨k, rfl⟩ : ∃ k, fuel = k + 1 := ⟨fuel - 1, by omega⟩
        rw [whileGetline, getline_eof]
        rfl
    · rw [getline_line hl, linesOf_append hl]
      simp only [Bool.false_eq_true, if_false, List.foldlM_cons]
      congr 1
      funext st'
      exact ih rest' (by simp at hf; omega) _ _

/-- The `while (!eof)` loop visits the lines that end with a newline. -/
theorem whileNotEof_lines (body : σ → Str → Except Fault σ) : ∀ (fuel : Nat) (rest : Str), rest.length < fuel → ∀ (st : σ) (old : Str),
    whileNotEof body fuel st (getline { rest := rest } old).1 (getline { rest := rest } old).2 = (completeLines rest).foldlM body st := by
  intro fuel
  induction fuel with
  | zero => intro rest h; omega
  | succ fuel ih =>
    intro rest hf st old
    rcases text_cases rest with h | ⟨l, rest', hl, rfl⟩
    · rw [getline_last h, completeLines_single h, whileNotEof]
      rfl
    · rw [getline_line hl, completeLines_append hl, whileNotEof]
      simp only [Bool.false_eq_true, if_false, List.foldlM_cons]
      congr 1
      funext st'
      exact ih rest' (by simp at hf; omega) _ _

/-! ### Cells -/

theorem csvLine_newline {cells : List Str} (h : ∀ c ∈ cells, 10 ∉ c) : 10 ∉ csvLine cells := by
  unfold csvLine
  induction cells with
  | nil => simp [List.intercalate]
  | cons c cells ih =>
    cases cells with
    | nil => simpa [List.intercalate] using h c (by simp)
    | cons d cells =>
      have := ih (fun x hx => h x (by simp [hx]))
      simp only [List.intercalate, List.intersperse, List.flatten_cons, List.mem_append] at this ⊢
      have h1 := h c (by simp)
      simp_all

theorem intercalate_cons (d : Int) (c : Str) {cells : List Str} (h : cells ≠ []) :
    List.intercalate [d] (c :: cells) = c ++ d :: List.intercalate [d] cells := by
  cases cells with
  | nil => exact absurd rfl h
  | cons x xs => simp [List.intercalate, List.intersperse]

theorem intercalate_count (d : Int) {cells : List Str} (h : ∀ c ∈ cells, d ∉ c) (hne : cells ≠ []) :
    (List.intercalate [d] cells).filter (fun c => c ∈ [d]) = List.replicate (cells.length - 1) d := by
  have hz : ∀ c ∈ cells, c.filter (fun c => c ∈ [d]) = [] := by
    intro c hc
    rw [List.filter_eq_nil_iff]
    intro x hx
    have := h c hc
    simp only [List.mem_singleton, decide_eq_true_eq]
    rintro rfl
    exact this hx
  induction cells with
  | nil => exact absurd rfl hne
  | cons c cells ih =>
    by_cases e : cells = []
    · subst e
      simpa [List.intercalate] using hz c (by simp)
    · rw [intercalate_cons d c e, List.filter_append, hz c (by simp), List.nil_append, List.filter_cons_of_pos (by simp),
        ih (fun x hx => h x (by simp [hx])) e (fun x hx => hz x (by simp [hx]))]
      obtain ⟨k, hk⟩ : ∃ k, cells.length = k + 1 := ⟨cells.length - 1, by have := List.length_pos_iff.2 e; omega⟩
      simp [hk, List.replicate_succ]

/-- Splitting a joined list of delimiter-free pieces gives back the pieces. -/
theorem split_intercalate (d : Int) {cells : List Str} (h : ∀ c ∈ cells, d ∉ c) (hne : cells ≠ []) :
    split (List.intercalate [d] cells) [d] = .ok cells := by
  obtain ⟨ps, h1, h2, h3, h4⟩ := C13_split (List.intercalate [d] cells) [d]
  have hpos := List.length_pos_iff.2 hne
  rw [intercalate_count d h hne] at h3 h4
  rw [List.length_replicate] at h3
  rw [h1]
  congr 1
  refine C13_split_unique [d] ps cells (List.replicate (cells.length - 1) d) (by simp [h3]) (by simp; omega) h2 ?_ ?_ ?_
  · intro q hq c hc
    have := h q hq
    simp only [List.mem_singleton]
    rintro rfl
    exact this hc
  · intro x hx
    simp [List.eq_of_mem_replicate hx]
  · rw [h4, weave_single d cells _ (by omega)]

theorem trimRight_eq (s : Str) : trimRight s = dropBlanks s := by
  obtain ⟨post, h1, h2, h3⟩ := trimRight_spec _ s rfl
  generalize ht : trimRight s = t at h1 h3
  subst h1
  unfold dropBlanks
  rw [List.reverse_append, List.dropWhile_append_of_pos (by simpa using h2)]
  rcases List.eq_nil_or_concat t with rfl | ⟨t', c, rfl⟩
  · rfl
  · have := h3 c (by simp)
    simp
    rw [List.dropWhile_cons_of_neg (by simp; omega)]
    simp

theorem dropBlanks_append (a b : Str) (h : ∀ c, a.getLast? = some c → 33 ≤ c) (ha : a ≠ []) :
    dropBlanks (a ++ b) = a ++ dropBlanks b := by
  unfold dropBlanks
  rw [List.reverse_append]
  rcases List.eq_nil_or_concat a with rfl | ⟨a', c, rfl⟩
  · exact absurd rfl ha
  · have hc := h c (by simp)
    rw [List.dropWhile_append]
    split
    · rename_i e
      rw [List.isEmpty_iff.1 e]
      simp
      rw [List.dropWhile_cons_of_neg (by simp; omega)]
    · simp

/-- Trimming a line trims its last cell. -/
theorem trim_csvLine (cells : List Str) (last : Str) :
    trimRight (csvLine (cells ++ [last])) = csvLine (cells ++ [dropBlanks last]) := by
  rw [trimRight_eq]
  unfold csvLine
  induction cells with
  | nil => simp [List.intercalate]
  | cons c cells ih =>
    rw [List.cons_append, List.cons_append, intercalate_cons _ _ (by simp), intercalate_cons _ _ (by simp), ← ih]
    have := dropBlanks_append (c ++ [44]) (List.intercalate [44] (cells ++ [last])) (by simp) (by simp)
    simpa using this

theorem mem_dropBlanks {s : Str} {c : Int} (h : c ∈ dropBlanks s) : c ∈ s := by
  unfold dropBlanks at h
  rw [List.mem_reverse] at h
  exact List.mem_reverse.1 ((List.dropWhile_sublist _).subset h)

/-- The texts of the cells of a row. -/
def cellTexts (r : List Str) : List Str := tab r.length (cellText r)

theorem cellTexts_append (cells : List Str) (last : Str) : cellTexts (cells ++ [last]) = cells ++ [dropBlanks last] := by
  symm
  apply tab_ext (by simp)
  intro i hi
  simp only [List.length_append, List.length_singleton] at hi
  unfold cellText
  by_cases h : i = cells.length
  · subst h; simp
  · have : i < cells.length := by omega
    simp only [List.length_append, List.length_singleton, List.getD_eq_getElem?_getD]
    rw [if_neg (by omega), List.getElem?_append_left this, List.getElem?_append_left this]
    simp [this]

/-- Splitting a trimmed line gives the texts of its cells. -/
theorem split_line {n : Nat} (hn : 0 < n) {r : List Str} (h : CleanRow n r) :
    split (trimRight (csvLine r)) [44] = .ok (cellTexts r) := by
  rcases List.eq_nil_or_concat r with rfl | ⟨cells, last, rfl⟩
  · simp [CleanRow] at h; omega
  · rw [List.concat_eq_append] at *
    rw [trim_csvLine, cellTexts_append]
    refine split_intercalate 44 ?_ (by simp)
    intro c hc
    rw [List.mem_append, List.mem_singleton] at hc
    rcases hc with hc | rfl
    · exact (h.2 c (by simp [hc])).1
    · exact fun hx => (h.2 last (by simp)).1 (mem_dropBlanks hx)

/-! ### First appearances -/

theorem mem_firstSeen {xs : List Str} {x : Str} : x ∈ firstSeen xs ↔ x ∈ xs := by
  induction xs with
  | nil => simp [firstSeen]
  | cons y xs ih =>
    rw [firstSeen, List.mem_cons, List.mem_filter, ih, List.mem_cons]
    by_cases h : x = y <;> simp [h]

theorem firstSeen_nodup (xs : List Str) : (firstSeen xs).Nodup := by
  induction xs with
  | nil => simp [firstSeen]
  | cons y xs ih =>
    rw [firstSeen, List.nodup_cons]
    exact ⟨by simp, ih.filter _⟩

theorem firstSeen_snoc (xs : List Str) (y : Str) :
    firstSeen (xs ++ [y]) = if y ∈ xs then firstSeen xs else firstSeen xs ++ [y] := by
  induction xs with
  | nil => simp [firstSeen]
  | cons x xs ih =>
    rw [List.cons_append, firstSeen, ih, firstSeen]
    by_cases h : y ∈ xs
    · rw [if_pos h, if_pos (by simp [h])]
    · rw [if_neg h, List.filter_append]
      by_cases e : y = x
      · subst e; simp
      · rw [if_neg (by simp [h, e])]
        simp [e]

theorem idxOf_firstSeen_snoc {xs : List Str} {y x : Str} (h : x ∈ xs) :
    (firstSeen (xs ++ [y])).idxOf x = (firstSeen xs).idxOf x := by
  rw [firstSeen_snoc]
  split
  · rfl
  · exact List.idxOf_append_of_mem (mem_firstSeen.2 h)

theorem idxOf_firstSeen_append {xs : List Str} {x : Str} (h : x ∈ xs) (ys : List Str) :
    (firstSeen (xs ++ ys)).idxOf x = (firstSeen xs).idxOf x := by
  induction ys generalizing xs with
  | nil => simp
  | cons y ys ih =>
    rw [show xs ++ y :: ys = (xs ++ [y]) ++ ys by simp, ih (by simp [h]), idxOf_firstSeen_snoc h]

end FastPGM
