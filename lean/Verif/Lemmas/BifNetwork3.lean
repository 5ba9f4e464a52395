import Verif.Lemmas.BifNetwork2
import Verif.Props.Params

/-!
Lemmas about the loader of BIF files: the statistics, and the loop over the tables.
-/

namespace FastPGM

open Spec

variable {K : Type}

/-- The count that a number of the file stands for. -/
def wordCount (stod : Str → Except Fault K) (toCount : K → Int) (w : Str) : Int :=
  match stod w with
  | .ok e => toCount e
  | .error _ => 0

/-- The `AddCount` calls of a row. -/
def rowCalls (stod : Str → Except Fault K) (toCount : K → Int) (given : List Nat) (r : List Nat × List Str) : List (Nat × Config × Int) :=
  (List.range r.2.length).map (fun i => (i, parentConfigOf given r.1, wordCount stod toCount (r.2.getD i [])))

theorem countedFor_append (l m : List (Nat × Config × Int)) (x : Nat) (u : Config) :
    countedFor (l ++ m) x u = countedFor l x u + countedFor m x u := by
  simp [countedFor, List.filter_append]

theorem countedFor_rowCalls (stod : Str → Except Fault K) (toCount : K → Int) (given : List Nat) (r : List Nat × List Str) {x : Nat}
    (hx : x < r.2.length) (u : Config) :
    countedFor (rowCalls stod toCount given r) x u = if parentConfigOf given r.1 = u then wordCount stod toCount (r.2.getD x []) else 0 := by
  unfold rowCalls countedFor
  generalize r.2.length = n at hx ⊢
  have key : ∀ m, (((List.range m).map (fun i => (i, parentConfigOf given r.1, wordCount stod toCount (r.2.getD i [])))).filter
      (fun c => c.1 = x ∧ c.2.1 = u)).map (fun c => c.2.2) = if x < m ∧ parentConfigOf given r.1 = u then [wordCount stod toCount (r.2.getD x [])] else [] := by
    intro m
    induction m with
    | zero => simp
    | succ m ih =>
      rw [List.range_succ, List.map_append, List.filter_append, List.map_append, ih]
      by_cases hu : parentConfigOf given r.1 = u
      · by_cases hm : m = x
        · subst hm; simp [hu]
        · by_cases hlt : x < m
          · have : x < m + 1 := by omega
            simp [hu, hm, hlt, this]
          · have : ¬ x < m + 1 := by omega
            simp [hu, hm, hlt, this]
      · simp [hu]
  rw [key]
  by_cases hu : parentConfigOf given r.1 = u <;> simp [hu, hx]

theorem sum_one_row {α : Type} {rows : List (List Nat × α)} (hnd : (rows.map Prod.fst).Nodup) {f : List Nat × α → Int} {r0 : List Nat × α} (h0 : r0 ∈ rows)
    (hz : ∀ r ∈ rows, r.1 ≠ r0.1 → f r = 0) : (rows.map f).sum = f r0 := by
  induction rows with
  | nil => cases h0
  | cons r rows ih =>
    rw [List.map_cons, List.nodup_cons] at hnd
    rw [List.map_cons, List.sum_cons]
    rcases List.mem_cons.1 h0 with rfl | h0'
    · have : (rows.map f).sum = 0 := by
        apply List.sum_eq_zero
        intro y hy
        obtain ⟨r, hr, rfl⟩ := List.mem_map.1 hy
        exact hz r (by simp [hr]) (fun e => hnd.1 (e ▸ List.mem_map_of_mem hr))
      rw [this, add_zero]
    · rw [ih hnd.2 h0' (fun r hr => hz r (by simp [hr])), hz r (by simp) (fun e => hnd.1 (e ▸ List.mem_map_of_mem h0')), zero_add]

/-- The statistics of a table. -/
theorem statsFor_rows {stod : Str → Except Fault K} {toCount : K → Int} {card : Nat → Nat} {t : TableDecl K} (hnd : t.given.Nodup)
    (_hng : t.node ∉ t.given) {rows : List (List Nat × List Str)} (h : BifRows stod card t rows) (s : NodeS) :
    StatsFor card toCount t (NodeStats.new.run s (rows.flatMap (rowCalls stod toCount t.given))) := by
  constructor
  · intro ps hps hm a ha
    obtain rfl : ps = sortedSet t.given := sorted_unique hps (sortedSet_sorted _) (fun v => (hm v).trans mem_sortedSet.symm)
    have hin : t.given.map a ∈ rows.map Prod.fst := by
      rw [h.all, List.forall₂_map_left_iff, List.forall₂_same]
      exact fun g hg => ha g (by simp [hg])
    obtain ⟨r0, hr0, e0⟩ := List.mem_map.1 hin
    obtain ⟨w, e, h1, h2, h3⟩ := h.numbers r0 hr0 a ha e0.symm
    refine ⟨e, h2, ?_⟩
    rw [(C23_counts s _ _ _).1]
    have hflat : ∀ l : List (List Nat × List Str), countedFor (l.flatMap (rowCalls stod toCount t.given)) (a t.node) (configOf a (sortedSet t.given)) =
        (l.map (fun r => countedFor (rowCalls stod toCount t.given r) (a t.node) (configOf a (sortedSet t.given)))).sum := by
      intro l
      induction l with
      | nil => rfl
      | cons r l ih => rw [List.flatMap_cons, countedFor_append, ih]; simp
    have hlt : ∀ r ∈ rows, a t.node < r.2.length := by
      intro r hr
      rw [(h.words r hr).1]
      exact ha _ (by simp)
    rw [hflat, sum_one_row h.once hr0]
    · rw [countedFor_rowCalls _ _ _ _ (hlt r0 hr0), e0, parentConfigOf_map, if_pos rfl, wordCount, List.getD_eq_getElem?_getD, h1]
      simp [h3]
    · intro r hr hne
      rw [countedFor_rowCalls _ _ _ _ (hlt r hr), if_neg]
      intro e
      apply hne
      rw [e0]
      have hru := (h.all r.1).1 (List.mem_map_of_mem hr)
      have hlen : r.1.length = t.given.length := hru.length_eq
      rw [← map_asgOf hnd hlen, parentConfigOf_map] at e
      rw [← map_asgOf hnd hlen]
      apply List.map_congr_left
      intro v hv
      have hv' : v ∈ sortedSet t.given := mem_sortedSet.2 hv
      unfold configOf at e
      have := List.map_inj_left.1 e v hv'
      exact congrArg Prod.snd this
  · intro u
    rw [(C23_counts s _ 0 u).2, countedTotal_eq (n := card t.node)]
    · exact Finset.sum_congr rfl (fun x _ => (C23_counts s _ x u).1.symm)
    · intro c hc
      obtain ⟨r, hr, hc⟩ := List.mem_flatMap.1 hc
      obtain ⟨i, hi, rfl⟩ := List.mem_map.1 hc
      rw [List.mem_range, (h.words r hr).1] at hi
      exact hi

/-- The words of a line with the values of the parents. -/
def rowLine (vs : List VarDecl) (given : List Nat) (r : List Nat × List Str) : List Str :=
  rowWords ((given.zip r.1).map (fun x => valueOf vs x.1 x.2)) r.2

theorem valueOf_word {vs : List VarDecl} (hw : ∀ v ∈ vs, ∀ w ∈ v.values, IsWord w) {g x : Nat} (h : x < declCard vs g) :
    ((vs.map VarDecl.values).getD g [])[x]? = some (valueOf vs g x) ∧ IsWord (valueOf vs g x) := by
  unfold declCard at h
  by_cases hg : g < vs.length
  · simp only [List.getD_eq_getElem?_getD, List.getElem?_map, List.getElem?_eq_getElem hg, Option.map_some, Option.getD_some] at h
    have e : (vs.map VarDecl.values).getD g [] = vs[g].values := by simp [hg]
    have e2 : valueOf vs g x = vs[g].values[x] := by
      unfold valueOf
      rw [e]
      simp [h]
    rw [e, e2]
    exact ⟨List.getElem?_eq_getElem h, hw _ (List.getElem_mem hg) _ (List.getElem_mem h)⟩
  · rw [List.getD_eq_getElem?_getD, List.getElem?_eq_none (by simpa using hg)] at h
    simp at h

theorem rowValues_words {vs : List VarDecl} (hw : ∀ v ∈ vs, ∀ w ∈ v.values, IsWord w) {u given : List Nat}
    (hu : List.Forall₂ (fun x g => x < declCard vs g) u given) :
    ∀ w ∈ (given.zip u).map (fun x => valueOf vs x.1 x.2), IsWord w := by
  intro w hw'
  obtain ⟨⟨g, x⟩, hx, rfl⟩ := List.mem_map.1 hw'
  obtain ⟨j, hj⟩ := List.getElem?_of_mem hx
  rw [List.getElem?_zip_eq_some] at hj
  have := (List.forall₂_iff_get.1 hu).2
  obtain ⟨h1, e1⟩ := List.getElem?_eq_some_iff.1 hj.1
  obtain ⟨h2, e2⟩ := List.getElem?_eq_some_iff.1 hj.2
  have h3 := this j h2 h1
  simp only [List.get_eq_getElem, e1, e2] at h3
  exact (valueOf_word hw h3).2

theorem bifRow_ok {stod : Str → Except Fault K} (toCount : K → Int) {vs : List VarDecl} (hv : ∀ v ∈ vs, v.values.Nodup)
    (hw : ∀ v ∈ vs, ∀ w ∈ v.values, IsWord w) {st : BifState} {node : Nat} {given : List Nat} (hthis : st.this = some node)
    (hpar : st.parents = given.map some) (hids : st.file.valueIds = vs.map (fun v => numbered v.values)) {s : NodeS}
    (hs : st.file.net.nodes[node]? = some s) {t : NodeStats} (ht : st.file.stats[node]? = some t) {r : List Nat × List Str}
    (hu : List.Forall₂ (fun x g => x < declCard vs g) r.1 given) (hn : node < vs.length) (hlen : r.2.length = declCard vs node)
    (hnum : ∀ w ∈ r.2, IsWord w ∧ ∃ e, stod w = .ok e) :
    bifRow stod toCount st (rowLine vs given r) =
      .ok { st with file := { st.file with stats := st.file.stats.set node (t.run s (rowCalls stod toCount given r)) } } := by
  have hvals := rowValues_words hw hu
  have hl : given.length = r.1.length := hu.length_eq.symm
  have hcfg : bifConfig (vs.map (fun v => numbered v.values)) (given.map some) (rowLine vs given r) =
      .ok (vs.map (fun v => numbered v.values), parentConfigOf given r.1) := by
    refine bifConfig_ok hv hu ?_
    intro j g x hg hx
    have hz : ((given.zip r.1).map (fun x => valueOf vs x.1 x.2))[j]? = some (valueOf vs g x) := by
      rw [List.getElem?_map, List.getElem?_zip_eq_some (z := (g, x)) |>.2 ⟨hg, hx⟩]
      rfl
    obtain ⟨y, h1, h2⟩ := opened_get hvals hz
    refine ⟨y, ?_, h2⟩
    have hne : (given.zip r.1).map (fun x => valueOf vs x.1 x.2) ≠ [] := by
      intro e
      rw [e] at hz
      simp at hz
    unfold rowLine rowWords
    rw [if_neg hne, List.getElem?_append_left (List.getElem?_eq_some_iff.1 h1).1, h1]
  have htok : ∀ i : Nat, ∀ w, r.2[i]? = some w → ∃ y, (rowLine vs given r)[(if given.length > 0 then given.length else 1) + i]? = some y ∧
      trimRightCommaAndSemicolon y = .ok w := by
    intro i w hi
    obtain ⟨y, h1, h2⟩ := commas_get (cs := [44, 59]) (by simp) (last := lit ";") (l := r.2) (fun x _ => by
      rw [show lit ";" = [59] from by decide]; exact trimRightOne_snoc (by simp) x) hi
    refine ⟨y, ?_, h2⟩
    unfold rowLine rowWords
    by_cases he : given = []
    · subst he
      simpa [Nat.add_comm 1 i] using h1
    · have hpos : given.length > 0 := List.length_pos_iff.2 he
      have hne : (given.zip r.1).map (fun x => valueOf vs x.1 x.2) ≠ [] := by
        intro e
        have := congrArg List.length e
        simp only [List.length_map, List.length_zip, List.length_nil] at this
        omega
      have hlen' : (opened (commas (lit ")") ((given.zip r.1).map (fun x => valueOf vs x.1 x.2)))).length = given.length := by
        rw [opened_length, commas_length, List.length_map, List.length_zip]
        omega
      rw [if_neg hne, if_pos hpos, List.getElem?_append_right (by omega), hlen', Nat.add_sub_cancel_left, h1]
  have hfind : st.file.net.find node = .ok s := by
    unfold Net.find
    rw [hs]
  have hid : rd st.file.valueIds node = .ok (numbered vs[node].values) := by
    rw [hids]
    exact rd_ok (by simp [hn])
  have hnl : (numbered vs[node].values).length = r.2.length := by
    rw [hlen]
    simp [numbered, declCard, hn]
  have hloop : ∀ m ≤ r.2.length, (List.range m).foldlM (fun (t : NodeStats) i => do
      let v ← trimRightCommaAndSemicolon (← rdAt (rowLine vs given r) ((if given.length > 0 then given.length else 1) + i))
      let prob ← stod v
      return t.addCount s i (parentConfigOf given r.1) (toCount prob)) t = .ok (t.run s ((List.range m).map (fun i => (i, parentConfigOf given r.1, wordCount stod toCount (r.2.getD i []))))) := by
    intro m
    induction m with
    | zero => intro _; rfl
    | succ m ih =>
      intro hm
      rw [List.range_succ, List.foldlM_append, ih (by omega), List.map_append]
      have hi : r.2[m]? = some r.2[m] := List.getElem?_eq_getElem (by omega)
      obtain ⟨y, h1, h2⟩ := htok m _ hi
      obtain ⟨e, he⟩ := (hnum _ (List.getElem_mem (show m < r.2.length by omega))).2
      simp only [List.foldlM_cons, List.foldlM_nil, ok_bind, rdAt_ok h1, h2, he, pure_eq_ok, NodeStats.run, List.foldl_append,
        List.map_cons, List.map_nil, List.foldl_cons, List.foldl_nil, wordCount, List.getD_eq_getElem?_getD, hi, Option.getD_some]
  unfold bifRow
  simp only [hthis, deref, ok_bind, hfind, hid, hnl, hpar, List.length_map]
  rw [hids, hcfg]
  simp only [ok_bind]
  rw [rd_ok ht, ok_bind, hloop _ le_rfl]
  simp only [ok_bind, pure_eq_ok, rowCalls]

end FastPGM
