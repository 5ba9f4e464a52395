import Verif.Props.XmlValues
import Verif.Props.BifNetwork

/-!
The value names of a variable in a BIF file (C126), repeated names included.
-/

namespace FastPGM

open Spec

theorem rdAt_some {α : Type} {l : List α} {i : Nat} {x : α} (h : rdAt l i = .ok x) : l[i]? = some x := by
  unfold rdAt at h
  cases e : l[i]? with
  | none => rw [e] at h; cases h
  | some y => rw [e] at h; cases h; rfl

theorem bifValues_read (tokens : List Str) : ∀ (n : Nat) (m : ValueMap),
    (List.range n).foldlM (fun (m : ValueMap) i => (do
      let value ← trimRightComma (← rdAt tokens (6 + i))
      return m.assign value (i : Int) : Except Fault ValueMap)) [] = .ok m →
    ∃ texts : List Str, texts.length = n ∧ (∀ (i : Nat) (s : Str), texts[i]? = some s → ∃ t, tokens[6 + i]? = some t ∧ trimRightComma t = .ok s) ∧
      ValuesRead texts m := by
  intro n
  induction n with
  | zero =>
    intro m h
    cases h
    exact ⟨[], rfl, fun i s hs => by simp at hs, rfl, fun s k => by simp [ValueMap.find, LastPosition]⟩
  | succ n ih =>
    intro m h
    rw [List.range_succ, List.foldlM_append] at h
    obtain ⟨m0, h0, h⟩ := bind_eq_ok h
    obtain ⟨texts, hl, ht, hr⟩ := ih m0 h0
    rw [List.foldlM_cons] at h
    obtain ⟨m1, h1, h⟩ := bind_eq_ok h
    cases h
    obtain ⟨t, ht1, h1⟩ := bind_eq_ok h1
    obtain ⟨s, hs1, h1⟩ := bind_eq_ok h1
    cases h1
    refine ⟨texts ++ [s], by simp [hl], fun i u hu => ?_, by rw [← hl]; exact valuesRead_snoc hr s⟩
    by_cases hi : i < texts.length
    · rw [List.getElem?_append_left hi] at hu
      exact ht i u hu
    · obtain ⟨hb, _⟩ := List.getElem?_eq_some_iff.1 hu
      rw [List.length_append, List.length_singleton] at hb
      have hi : i = texts.length := by omega
      subst hi
      simp only [List.getElem?_append_right (Nat.le_refl _), Nat.sub_self, List.getElem?_cons_zero, Option.some.injEq] at hu
      subst hu
      rw [hl]
      exact ⟨t, rdAt_some ht1, hs1⟩

/-- C126.  A `type` line of a BIF file that is read without failure, after a new `variable` line: the number of values is the number the line declares,
so many names are read, a repeated name is counted each time, and the code of a name is its last position; all codes are below the number of values. -/
theorem C126_bif {F F' : NetFile} {tokens : List Str} (h : bifDeclare F tokens = .ok F') (ht : tokens[0]? = some (lit "type"))
    (hids : F.valueIds.length = F.names.length) (hnew : F.valueIds[F.names.length - 1]? = some []) :
    ∃ (number : Str) (size : Int) (texts : List Str) (s : NodeS) (m : ValueMap), tokens[3]? = some number ∧ stoi number = .ok size ∧
      texts.length = size.toNat ∧
      (∀ (i : Nat) (s : Str), texts[i]? = some s → ∃ t, tokens[6 + i]? = some t ∧ trimRightComma t = .ok s) ∧
      F'.net.nodes[F.names.length - 1]? = some s ∧ F'.valueIds[F.names.length - 1]? = some m ∧ s.dim = texts.length ∧
      (∀ t k, m.find t = some k ↔ ∃ p : Nat, k = p ∧ LastPosition texts t p) ∧ ∀ t k, m.find t = some k → k < s.dim := by
  unfold bifDeclare at h
  obtain ⟨key, hk, h⟩ := bind_eq_ok h
  have hk := rdAt_some hk
  rw [ht] at hk
  cases hk
  rw [if_neg (by decide), if_pos rfl] at h
  unfold bifType at h
  obtain ⟨kind, _, h⟩ := bind_eq_ok h
  split at h
  · cases h
  obtain ⟨number, hnum, h⟩ := bind_eq_ok h
  obtain ⟨size, hsize, h⟩ := bind_eq_ok h
  dsimp only at h
  by_cases hz : F.names.length = 0
  · rw [if_pos hz] at h; cases h
  rw [if_neg hz, ok_bind] at h
  obtain ⟨s, hs, h⟩ := bind_eq_ok h
  obtain ⟨m0, hm0, h⟩ := bind_eq_ok h
  obtain ⟨m, hm, h⟩ := bind_eq_ok h
  cases h
  have hm0' : m0 = [] := by
    unfold rd at hm0
    rw [hnew] at hm0
    cases hm0
    rfl
  subst hm0'
  obtain ⟨texts, hl, htx, hr⟩ := bifValues_read tokens _ _ hm
  have hlt : F.names.length - 1 < F.net.nodes.length := by
    unfold rd at hs
    cases e : F.net.nodes[F.names.length - 1]? with
    | none => rw [e] at hs; cases hs
    | some y => exact (List.getElem?_eq_some_iff.1 e).1
  refine ⟨number, size, texts, { s with dim := size.toNat }, m, rdAt_some hnum, hsize, hl, htx, ?_, ?_, hl.symm, hr.find, fun t k hk => ?_⟩
  · show (F.net.nodes.set _ _)[_]? = _
    rw [List.getElem?_set_self hlt]
  · show (F.valueIds.set _ _)[_]? = _
    rw [List.getElem?_set_self (by omega)]
  · obtain ⟨p, rfl, hp, _⟩ := (hr.find t k).1 hk
    obtain ⟨hb, _⟩ := List.getElem?_eq_some_iff.1 hp
    show (p : Int) < (size.toNat : Int)
    omega

/-- A BIF file that names `yes` twice: three values, where the XMLBIF loader has two (`C126_accepted`). -/
example : (do
    let F ← bifDeclare { net := { nodes := [] } } [lit "variable", lit "Rain", lit "{"]
    let F ← bifDeclare F [lit "type", lit "discrete", lit "[", lit "3", lit "]", lit "{", lit "yes,", lit "no,", lit "yes", lit "};"]
    return (F.net.nodes.map NodeS.dim, F.valueIds.map (fun m => m.find (lit "yes"))) : Except Fault _) = .ok ([3], [some 2]) := by
  decide +kernel

/-- C126 (finding).  Without the assumption of a new `variable` line the codes may be out of range: a second `type` line for the same variable is
accepted, keeps the names of the first and sets the number of values anew. -/
theorem C126_bif_second_type : (do
    let F ← bifDeclare { net := { nodes := [] } } [lit "variable", lit "Rain", lit "{"]
    let F ← bifDeclare F [lit "type", lit "discrete", lit "[", lit "2", lit "]", lit "{", lit "yes,", lit "no", lit "};"]
    let F ← bifDeclare F [lit "type", lit "discrete", lit "[", lit "1", lit "]", lit "{", lit "on", lit "};"]
    return (F.net.nodes.map NodeS.dim, F.valueIds.map (fun m => (m.find (lit "no"), m.find (lit "on")))) : Except Fault _) =
    .ok ([1], [(some 1, some 0)]) := by
  decide +kernel

/-- The hypotheses of `C126_bif` are met by the state after a `variable` line. -/
example : ∃ F F' : NetFile, bifDeclare F [lit "type", lit "discrete", lit "[", lit "2", lit "]", lit "{", lit "yes,", lit "no", lit "};"] = .ok F' ∧
    F.valueIds.length = F.names.length ∧ F.valueIds[F.names.length - 1]? = some [] :=
  ⟨{ net := { nodes := [{ dim := 0 }] }, names := [lit "Rain"], valueIds := [[]], stats := [NodeStats.new] }, _, rfl, rfl, rfl⟩

end FastPGM
