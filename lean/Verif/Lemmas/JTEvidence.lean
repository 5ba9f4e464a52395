import Verif.Lemmas.JTQuery

/-!
Loading evidence in another order.
-/

namespace FastPGM

open Spec

variable {K : Type}

/-- What one piece of evidence makes of one table. -/
def redT [Zero K] (card : Nat → Nat) (e : Nat × Nat) (T : Table K) : Table K :=
  if e.1 ∈ T.vars then fromFn card (T.vars.erase e.1) (fun a => if e.2 < card e.1 then value T (a.set e.1 e.2) else 0) else T

theorem redT_wf [Zero K] {card : Nat → Nat} {e : Nat × Nat} {T : Table K} (h : WellFormed card T) : WellFormed card (redT card e T) := by
  unfold redT
  split
  · exact fromFn_wf (h.nodup.erase _) (fun v hv => h.pos v (List.mem_of_mem_erase hv)) _
  · exact h

theorem reduce_eq [Zero K] {card : Nat → Nat} {e : Nat × Nat} {T : Table K} (h : WellFormed card T) :
    (if e.1 ∈ T.vars then tableReduction T e.1 e.2 else .ok T) = .ok (redT card e T) := by
  unfold redT
  split
  · rename_i he
    conv_lhs => rw [h.eq_fromFn]
    exact tableReduction_fromFn h.nodup h.pos he (value_dep h)
  · rfl

theorem mapM_map {α β ε : Type} {f : α → Except ε β} {g : α → β} {l : List α} (h : ∀ x ∈ l, f x = .ok (g x)) : l.mapM f = .ok (l.map g) := by
  induction l with
  | nil => rfl
  | cons x l ih =>
    rw [List.mapM_cons, h x (by simp), ok_bind, ih (fun y hy => h y (by simp [hy]))]
    rfl

theorem set_comm {a : Assignment} {u v x y : Nat} (h : u ≠ v) : (a.set u x).set v y = (a.set v y).set u x := by
  funext w
  simp only [Assignment.set]
  by_cases h1 : w = u <;> by_cases h2 : w = v <;> simp [h1, h2] <;> omega

theorem redT_comm [Zero K] {card : Nat → Nat} {e e' : Nat × Nat} (hne : e.1 ≠ e'.1) {T : Table K} (h : WellFormed card T) :
    redT card e (redT card e' T) = redT card e' (redT card e T) := by
  by_cases h1 : e.1 ∈ T.vars <;> by_cases h2 : e'.1 ∈ T.vars
  · have m1 : e.1 ∈ T.vars.erase e'.1 := (List.mem_erase_of_ne hne).2 h1
    have m2 : e'.1 ∈ T.vars.erase e.1 := (List.mem_erase_of_ne (Ne.symm hne)).2 h2
    have key : ∀ e e' : Nat × Nat, e.1 ≠ e'.1 → e.1 ∈ T.vars → e'.1 ∈ T.vars → redT card e (redT card e' T) =
        fromFn card ((T.vars.erase e'.1).erase e.1) (fun a => if e.2 < card e.1 then (if e'.2 < card e'.1 then
          value T ((a.set e.1 e.2).set e'.1 e'.2) else 0) else 0) := by
      intro e e' hne h1 h2
      have m1 : e.1 ∈ T.vars.erase e'.1 := (List.mem_erase_of_ne hne).2 h1
      have e1 : redT card e' T = fromFn card (T.vars.erase e'.1) (fun a => if e'.2 < card e'.1 then value T (a.set e'.1 e'.2) else 0) := by
        unfold redT
        rw [if_pos h2]
      rw [e1]
      unfold redT
      rw [if_pos (show e.1 ∈ (fromFn card (T.vars.erase e'.1) _).vars from m1)]
      show fromFn card ((T.vars.erase e'.1).erase e.1) _ = _
      apply fromFn_congr
      intro a ha
      by_cases hx : e.2 < card e.1
      · rw [if_pos hx, if_pos hx, value_fromFn (h.nodup.erase _)]
        · intro a b hab
          have : value T (a.set e'.1 e'.2) = value T (b.set e'.1 e'.2) := by
            apply value_dep h
            intro v hv
            unfold Assignment.set
            by_cases hv' : v = e'.1
            · simp [hv']
            · rw [if_neg hv', if_neg hv']
              exact hab v ((List.mem_erase_of_ne hv').2 hv)
          simp only [this]
        · intro v hv
          unfold Assignment.set
          by_cases hv' : v = e.1
          · rw [if_pos hv', hv']
            exact hx
          · rw [if_neg hv']
            exact ha v ((List.mem_erase_of_ne hv').2 hv)
      · rw [if_neg hx, if_neg hx]
    rw [key e e' hne h1 h2, key e' e (Ne.symm hne) h2 h1, List.erase_comm]
    apply fromFn_congr
    intro a _
    rw [set_comm hne]
    by_cases hx : e.2 < card e.1 <;> by_cases hy : e'.2 < card e'.1 <;> simp [hx, hy]
  · have e1 : redT card e' T = T := by unfold redT; rw [if_neg h2]
    have e2 : redT card e' (redT card e T) = redT card e T := by
      have : e'.1 ∉ (redT card e T).vars := by
        unfold redT
        rw [if_pos h1]
        exact fun hh => h2 (List.mem_of_mem_erase (show e'.1 ∈ T.vars.erase e.1 from hh))
      conv_lhs => rw [redT]
      rw [if_neg this]
    rw [e1, e2]
  · have e1 : redT card e T = T := by unfold redT; rw [if_neg h1]
    have e2 : redT card e (redT card e' T) = redT card e' T := by
      have : e.1 ∉ (redT card e' T).vars := by
        unfold redT
        rw [if_pos h2]
        exact fun hh => h1 (List.mem_of_mem_erase (show e.1 ∈ T.vars.erase e'.1 from hh))
      conv_lhs => rw [redT]
      rw [if_neg this]
    rw [e1, e2]
  · have e1 : redT card e T = T := by unfold redT; rw [if_neg h1]
    have e2 : redT card e' T = T := by unfold redT; rw [if_neg h2]
    rw [e1, e2, e1]

/-- All tables of the tree are well-formed. -/
def StateWF (card : Nat → Nat) (st : JState K) : Prop := (∀ T ∈ st.clq, WellFormed card T) ∧ ∀ T ∈ st.sep, WellFormed card T

def redS [Zero K] (card : Nat → Nat) (n : Nat) (e : Nat × Nat) (st : JState K) : JState K :=
  if n ≤ e.1 then st else ⟨st.clq.map (redT card e), st.sep.map (redT card e)⟩

theorem redS_wf [Zero K] {card : Nat → Nat} {n : Nat} {e : Nat × Nat} {st : JState K} (h : StateWF card st) : StateWF card (redS card n e st) := by
  unfold redS
  split
  · exact h
  · constructor
    · intro T hT
      obtain ⟨X, hX, rfl⟩ := List.mem_map.1 hT
      exact redT_wf (h.1 X hX)
    · intro T hT
      obtain ⟨X, hX, rfl⟩ := List.mem_map.1 hT
      exact redT_wf (h.2 X hX)

theorem redS_comm [Zero K] {card : Nat → Nat} {n : Nat} {e e' : Nat × Nat} (hne : e.1 ≠ e'.1) {st : JState K} (h : StateWF card st) :
    redS card n e (redS card n e' st) = redS card n e' (redS card n e st) := by
  unfold redS
  by_cases h1 : n ≤ e.1 <;> by_cases h2 : n ≤ e'.1 <;> simp only [h1, h2, if_true, if_false, List.map_map, JState.mk.injEq]
  constructor
  · exact List.map_congr_left (fun T hT => redT_comm hne (h.1 T hT))
  · exact List.map_congr_left (fun T hT => redT_comm hne (h.2 T hT))

theorem loadEvidence_redS [Zero K] {card : Nat → Nat} {n : Nat} (E : List (Nat × Nat)) : ∀ {st : JState K}, StateWF card st →
    loadEvidence n E st = .ok (E.foldl (fun st e => redS card n e st) st) := by
  induction E with
  | nil => exact fun _ => rfl
  | cons e E ih =>
    intro st h
    have h1 := ih (redS_wf (n := n) (e := e) h)
    unfold loadEvidence at h1 ⊢
    rw [List.foldlM_cons, List.foldl_cons]
    have e1 : (if n ≤ e.1 then pure st else do
        let clq ← reduceTables e.1 e.2 st.clq
        let sep ← reduceTables e.1 e.2 st.sep
        return ⟨clq, sep⟩ : Except Fault (JState K)) = .ok (redS card n e st) := by
      unfold redS
      split
      · rfl
      · unfold reduceTables
        rw [mapM_map (fun T hT => reduce_eq (h.1 T hT)), ok_bind, mapM_map (fun T hT => reduce_eq (h.2 T hT)), ok_bind]
        rfl
    rw [e1, ok_bind]
    exact h1

theorem foldl_redS_perm [Zero K] {card : Nat → Nat} {n : Nat} {E E' : List (Nat × Nat)} (hp : E.Perm E') : (E.map Prod.fst).Nodup →
    ∀ {st : JState K}, StateWF card st → E.foldl (fun st e => redS card n e st) st = E'.foldl (fun st e => redS card n e st) st := by
  induction hp with
  | nil => exact fun _ _ _ => rfl
  | cons e _ ih =>
    intro hn st h
    rw [List.map_cons, List.nodup_cons] at hn
    exact ih hn.2 (redS_wf h)
  | swap e e' l =>
    intro hn st h
    simp only [List.map_cons, List.nodup_cons, List.mem_cons, not_or] at hn
    simp only [List.foldl_cons]
    rw [redS_comm (Ne.symm hn.1.1) h]
  | trans h1 _ ih1 ih2 =>
    intro hn st h
    rw [ih1 hn h]
    exact ih2 ((h1.map Prod.fst).nodup_iff.1 hn) h

end FastPGM
