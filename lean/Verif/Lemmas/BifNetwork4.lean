import Verif.Lemmas.BifNetwork3

/-!
Lemmas about the loader of BIF files: the loop over the tables, and the whole file.
-/

namespace FastPGM

open Spec

variable {K : Type}

theorem forall₂_split {α β : Type} {R : α → β → Prop} : ∀ {l₁ l₂ : List α} {m : List β}, List.Forall₂ R (l₁ ++ l₂) m →
    ∃ m₁ m₂, List.Forall₂ R l₁ m₁ ∧ List.Forall₂ R l₂ m₂ ∧ m = m₁ ++ m₂ := by
  intro l₁
  induction l₁ with
  | nil => intro l₂ m h; exact ⟨[], m, .nil, h, rfl⟩
  | cons x l₁ ih =>
    intro l₂ m h
    cases h with
    | cons hx h =>
      obtain ⟨m₁, m₂, h1, h2, rfl⟩ := ih h
      exact ⟨_ :: m₁, m₂, .cons hx h1, h2, rfl⟩

theorem headerWords_solid {name : Str} {parents : List Str} (h1 : IsWord name) (h2 : ∀ w ∈ parents, IsWord w) :
    Solid (headerWords name parents) ∧ headerWords name parents ≠ [] ∧ (headerWords name parents)[0]? = some (lit "probability") := by
  have hn : Solid [name] := words_solid (by simpa using h1)
  unfold headerWords
  split
  · refine ⟨?_, by simp, by simp⟩
    exact Solid.append (l := [lit "probability", lit "("]) (by unfold Solid; decide) (Solid.append (l := [name]) hn (by unfold Solid; decide))
  · refine ⟨?_, by simp, by simp⟩
    refine Solid.append (Solid.append (l := [lit "probability", lit "("] ++ ([name] ++ [lit "|"])) ?_ (commas_solid (by simp) (words_solid h2)))
      (by unfold Solid; decide)
    exact Solid.append (by unfold Solid; decide) (Solid.append hn (by unfold Solid; decide))

theorem opened_solid {l : List Str} (h : Solid l) : Solid (opened l) := by
  cases l with
  | nil => exact h
  | cons x r =>
    intro w hw
    rcases List.mem_cons.1 hw with rfl | hw
    · refine ⟨by rw [show lit "(" = [40] from by decide]; simp, ?_⟩
      intro c hc
      rcases List.mem_append.1 hc with hc | hc
      · clear * - hc; revert c; decide
      · exact (h x (by simp)).2 c hc
    · exact h w (by simp [hw])

theorem rowWords_solid {values numbers : List Str} (h1 : ∀ w ∈ values, IsWord w) (h2 : ∀ w ∈ numbers, IsWord w) :
    Solid (rowWords values numbers) ∧ ∃ key, (rowWords values numbers)[0]? = some key ∧ key ≠ lit "probability" ∧ key ≠ lit "}" := by
  have hn : Solid (commas (lit ";") numbers) := commas_solid (by decide) (words_solid h2)
  unfold rowWords
  split
  · exact ⟨Solid.append (by unfold Solid; decide) hn, lit "table", by simp, by decide, by decide⟩
  · rename_i hne
    refine ⟨Solid.append (opened_solid (commas_solid (by decide) (words_solid h1))) hn, ?_⟩
    cases hc : commas (lit ")") values with
    | nil =>
      have := commas_length (lit ")") values
      rw [hc] at this
      exact absurd (List.length_eq_zero_iff.1 this.symm) hne
    | cons x r =>
      refine ⟨lit "(" ++ x, by simp [opened], ?_, ?_⟩
      · intro e
        have := congrArg List.head? e
        revert this
        rw [show lit "(" = [40] from by decide]
        simp only [List.cons_append, List.head?_cons]
        decide
      · intro e
        have := congrArg List.head? e
        revert this
        rw [show lit "(" = [40] from by decide]
        simp only [List.cons_append, List.head?_cons]
        decide

/-- What holds after some of the tables. -/
structure BifInv (vs : List VarDecl) (toCount : K → Int) (done : List (TableDecl K)) (F : NetFile) : Prop where
  names : F.names = vs.map VarDecl.name
  values : F.valueIds = vs.map (fun v => numbered v.values)
  net : (Net.empty (vs.map (fun v => v.values.length))).run (declOps done) = .ok F.net
  ch : ∀ a b, b ∈ F.net.ch a ↔ DeclEdge done a b
  edges : F.net.edges = done.flatMap (fun t => t.given.map (fun g => mkDirected g t.node))
  count : F.numEdges = F.net.edges.length
  len : F.stats.length = vs.length
  new : ∀ i < vs.length, i ∉ done.map TableDecl.node → F.stats[i]? = some NodeStats.new
  stats : ∀ t ∈ done, ∃ st, F.stats[t.node]? = some st ∧ StatsFor (declCard vs) toCount t st

theorem run_append (t : NodeStats) (s : NodeS) (l m : List (Nat × Config × Int)) : (t.run s l).run s m = t.run s (l ++ m) := by
  simp [NodeStats.run]

/-- The lines of one table without the closing one. -/
theorem rows_loop {stod : Str → Except Fault K} (toCount : K → Int) {vs : List VarDecl} (hv : ∀ v ∈ vs, v.values.Nodup)
    (hw : ∀ v ∈ vs, ∀ w ∈ v.values, IsWord w) {node : Nat} {given : List Nat} {s : NodeS} (hn : node < vs.length) :
    ∀ (rows : List (List Nat × List Str)) (lines : List Str), List.Forall₂ IsLine (rows.map (rowLine vs given)) lines →
      (∀ r ∈ rows, List.Forall₂ (fun x g => x < declCard vs g) r.1 given ∧ r.2.length = declCard vs node ∧ ∀ w ∈ r.2, IsWord w ∧ ∃ e, stod w = .ok e) →
      ∀ (st : BifState), st.this = some node → st.parents = given.map some → st.file.valueIds = vs.map (fun v => numbered v.values) →
        st.file.net.nodes[node]? = some s → ∀ t, st.file.stats[node]? = some t →
        lines.foldlM (bifLine stod toCount) st =
          .ok { st with file := { st.file with stats := st.file.stats.set node (t.run s (rows.flatMap (rowCalls stod toCount given))) } } := by
  intro rows
  induction rows with
  | nil =>
    intro lines hl _ st h1 h2 h3 h4 t h5
    cases hl
    have : st.file.stats.set node t = st.file.stats := by
      obtain ⟨h, e⟩ := List.getElem?_eq_some_iff.1 h5
      rw [← e]
      exact List.set_getElem_self h
    simp [NodeStats.run, this, pure_eq_ok]
  | cons r rows ih =>
    intro lines hl hr st h1 h2 h3 h4 t h5
    rw [List.map_cons] at hl
    cases hl with
    | @cons _ line _ lines hline hl =>
    obtain ⟨a1, a2, a3⟩ := hr r (by simp)
    obtain ⟨b1, key, b2, b3, b4⟩ := rowWords_solid (rowValues_words hw a1) (fun w hw => (a3 w hw).1)
    have hstep : bifLine stod toCount st line = .ok { st with file := { st.file with stats := st.file.stats.set node (t.run s (rowCalls stod toCount given r)) } } := by
      unfold bifLine
      rw [hline.tokens b1 (by intro e; unfold rowLine at e; rw [e] at b2; simp at b2), ok_bind, rdAt_ok (l := rowLine vs given r) (x := key) b2, ok_bind, if_neg b3, if_neg b4]
      exact bifRow_ok toCount hv hw h1 h2 h3 h4 h5 a1 hn a2 a3
    rw [List.foldlM_cons, hstep, ok_bind]
    refine Eq.trans (ih lines hl (fun r hr' => hr r (by simp [hr'])) { st with file := { st.file with stats := st.file.stats.set node (t.run s (rowCalls stod toCount given r)) } } h1 h2 h3 h4 (t.run s (rowCalls stod toCount given r)) ?_) ?_
    · show (st.file.stats.set node _)[node]? = _
      rw [List.getElem?_set, if_pos rfl, if_pos (List.getElem?_eq_some_iff.1 h5).1]
    · simp only [run_append, List.flatMap_cons, List.set_set]

/-- One table. -/
theorem table_loop {stod : Str → Except Fault K} {toCount : K → Int} {vs : List VarDecl} {ts : List (TableDecl K)}
    (h : GoodDescription vs ts) (hw : ∀ v ∈ vs, IsWord v.name ∧ ∀ w ∈ v.values, IsWord w) {done rest : List (TableDecl K)} {t : TableDecl K}
    (e : ts = done ++ t :: rest) {rows : List (List Nat × List Str)} (hrows : BifRows stod (declCard vs) t rows) {lines : List Str}
    (hl : List.Forall₂ IsLine (tableLines vs t.node t.given rows) lines) {st : BifState} (hF : BifInv vs toCount done st.file) :
    ∃ st', lines.foldlM (bifLine stod toCount) st = .ok st' ∧ BifInv vs toCount (done ++ [t]) st'.file := by
  have htm : t ∈ ts := by rw [e]; simp
  have htn : t.node < vs.length := List.mem_range.1 (h.nodes.mem_iff.1 (List.mem_map_of_mem htm))
  obtain ⟨hgn, hgl⟩ := h.given t htm
  have hnot : t.node ∉ done.map TableDecl.node := by
    have := h.nodes.nodup_iff.2 List.nodup_range
    rw [e, List.map_append, List.map_cons] at this
    exact fun hm => (List.nodup_append.1 this).2.2 _ hm _ (by simp) rfl
  have hng : t.node ∉ t.given := fun hm => h.acyclic ⟨t.node, Relation.TransGen.single ⟨t, htm, rfl, hm⟩⟩
  have hpos : ∀ d ∈ vs.map (fun v => v.values.length), 0 < d := by
    intro d hd
    obtain ⟨v, hv, rfl⟩ := List.mem_map.1 hd
    exact List.length_pos_iff.2 (h.values v hv).2
  obtain ⟨R0, hR0, hlen0, _, hinv0⟩ := run_shape (declOps_range h e) hpos
  rw [hF.net] at hR0
  cases hR0
  rw [List.length_map] at hlen0
  obtain ⟨R', g1, g2, g3, g4, g5, g6⟩ := addParentEdges h.acyclic (node := t.node) t.given st.file.net st.file.numEdges hinv0 (by rw [hlen0]; exact htn)
    (fun g hg => ⟨by rw [hlen0]; exact hgl g hg, ⟨t, htm, rfl, hg⟩⟩) (fun a b hab => by
      obtain ⟨t', ht', h'⟩ := (hF.ch a b).1 hab
      exact ⟨t', by rw [e]; simp [ht'], h'⟩)
  have hrun : (Net.empty (vs.map (fun v => v.values.length))).run (declOps (done ++ [t])) = .ok R' := by
    have hR1 := hF.net
    have : declOps (done ++ [t]) = declOps done ++ t.given.map (fun g => .addDirected g t.node) := by simp [declOps]
    unfold Net.run at hR1 g1 ⊢
    rw [this, List.foldlM_append, hR1, ok_bind, g1]
  have hname : ∀ i < vs.length, IsWord (nameOf vs i) := by
    intro i hi
    have : nameOf vs i = vs[i].name := by simp [nameOf, hi]
    rw [this]
    exact (hw _ (List.getElem_mem hi)).1
  have hnode : t.node < R'.nodes.length := by rw [g4, hlen0]; exact htn
  unfold tableLines at hl
  cases hl with
  | @cons _ head _ lines hhead hl =>
  obtain ⟨l1, l2, hl1, hl2, rfl⟩ : ∃ l1 l2, List.Forall₂ IsLine (rows.map (rowLine vs t.given)) l1 ∧ List.Forall₂ IsLine [[lit "}"]] l2 ∧ lines = l1 ++ l2 := by
    exact forall₂_split hl
  cases hl2 with
  | @cons _ close _ l2 hclose hnil =>
  cases hnil
  have hp : ∀ w ∈ t.given.map (nameOf vs), IsWord w := by
    intro w hw'
    obtain ⟨g, hg, rfl⟩ := List.mem_map.1 hw'
    exact hname g (hgl g hg)
  obtain ⟨c1, c2, c3⟩ := headerWords_solid (hname t.node htn) hp
  have hstep : bifLine stod toCount st head =
      .ok { file := { st.file with net := R', numEdges := st.file.numEdges + t.given.length }, this := some t.node, parents := t.given.map some } := by
    unfold bifLine
    rw [hhead.tokens c1 c2, ok_bind, rdAt_ok c3, ok_bind, if_pos rfl]
    exact bifHeader_ok h.names (fun v hv => (hw v hv).1) hF.names htn hgl g2
  have hrest := rows_loop toCount (fun v hv => (h.values v hv).1) (fun v hv => (hw v hv).2) (given := t.given) (s := R'.nodes[t.node]) htn rows l1 hl1
    (by
      intro r hr
      have hu := (hrows.all r.1).1 (List.mem_map_of_mem hr)
      refine ⟨hu, (hrows.words r hr).1, fun w hw' => ⟨(hrows.words r hr).2 w hw', ?_⟩⟩
      obtain ⟨i, hi⟩ := List.getElem?_of_mem hw'
      have hi' : i < declCard vs t.node := by rw [← (hrows.words r hr).1]; exact (List.getElem?_eq_some_iff.1 hi).1
      have hmap : t.given.map ((asgOf t.given r.1).set t.node i) = r.1 := by
        refine Eq.trans ?_ (map_asgOf hgn hu.length_eq)
        refine List.map_congr_left (fun v hv => ?_)
        have : v ≠ t.node := by rintro rfl; exact hng hv
        simp [Assignment.set, this]
      obtain ⟨w', q, d1, _, d2⟩ := hrows.numbers r hr ((asgOf t.given r.1).set t.node i) (by
        intro v hv
        rcases List.mem_cons.1 hv with rfl | hv
        · simpa [Assignment.set] using hi'
        · rw [← hmap, List.forall₂_map_left_iff, List.forall₂_same] at hu
          exact hu v hv) hmap
      have : ((asgOf t.given r.1).set t.node i) t.node = i := by simp [Assignment.set]
      rw [this, hi] at d1
      cases d1
      exact ⟨q, d2⟩)
    { file := { st.file with net := R', numEdges := st.file.numEdges + t.given.length }, this := some t.node, parents := t.given.map some }
    rfl rfl hF.values (List.getElem?_eq_getElem hnode) NodeStats.new (hF.new t.node htn hnot)
  have hlast : ∀ st' : BifState, bifLine stod toCount st' close = .ok st' := by
    intro st'
    unfold bifLine
    rw [hclose.tokens (by unfold Solid; decide) (by simp), ok_bind, rdAt_ok (x := lit "}") rfl, ok_bind, if_neg (by decide), if_pos rfl]
    rfl
  have hall : (head :: (l1 ++ [close])).foldlM (bifLine stod toCount) st = .ok
      { file := { st.file with
          net := R'
          numEdges := st.file.numEdges + t.given.length
          stats := st.file.stats.set t.node (NodeStats.new.run R'.nodes[t.node] (rows.flatMap (rowCalls stod toCount t.given))) }
        this := some t.node, parents := t.given.map some } := by
    rw [List.foldlM_cons, hstep, ok_bind, List.foldlM_append, hrest, ok_bind, List.foldlM_cons, hlast, ok_bind, List.foldlM_nil]
    rfl
  refine ⟨_, hall, ?_⟩
  · have hst := statsFor_rows (toCount := toCount) hgn hng hrows R'.nodes[t.node]
    refine ⟨hF.names, hF.values, hrun, ?_, ?_, ?_, by simpa using hF.len, ?_, ?_⟩
    · intro a b
      show b ∈ R'.ch a ↔ _
      rw [g6, hF.ch]
      unfold DeclEdge
      simp only [List.mem_append, List.mem_singleton]
      constructor
      · rintro (⟨t', h5, h6⟩ | ⟨h5, rfl⟩)
        · exact ⟨t', Or.inl h5, h6⟩
        · exact ⟨t, Or.inr rfl, rfl, h5⟩
      · rintro ⟨t', h5 | rfl, h6, h7⟩
        · exact Or.inl ⟨t', h5, h6, h7⟩
        · exact Or.inr ⟨h7, h6.symm⟩
    · show R'.edges = _
      rw [g5, hF.edges]
      simp
    · show st.file.numEdges + t.given.length = R'.edges.length
      rw [g5, hF.count]
      simp
    · intro i hi hn
      rw [List.map_append, List.mem_append] at hn
      push Not at hn
      show (st.file.stats.set t.node _)[i]? = _
      rw [List.getElem?_set, if_neg (by rintro rfl; exact hn.2 (by simp))]
      exact hF.new i hi hn.1
    · intro t' ht'
      show ∃ st', (st.file.stats.set t.node _)[t'.node]? = some st' ∧ _
      rcases List.mem_append.1 ht' with h5 | h5
      · rw [List.getElem?_set, if_neg (by rintro h; exact hnot (h ▸ List.mem_map_of_mem h5))]
        exact hF.stats t' h5
      · rw [List.mem_singleton.1 h5]
        refine ⟨_, ?_, hst⟩
        rw [List.getElem?_set, if_pos rfl, if_pos (by rw [hF.len]; exact htn)]

/-- The words of a table are without blanks. -/
theorem tableLines_solid {stod : Str → Except Fault K} {vs : List VarDecl} {ts : List (TableDecl K)} (h : GoodDescription vs ts)
    (hw : ∀ v ∈ vs, IsWord v.name ∧ ∀ w ∈ v.values, IsWord w) {t : TableDecl K} (ht : t ∈ ts) {rows : List (List Nat × List Str)}
    (hrows : BifRows stod (declCard vs) t rows) : ∀ words ∈ tableLines vs t.node t.given rows, Solid words := by
  have htn : t.node < vs.length := List.mem_range.1 (h.nodes.mem_iff.1 (List.mem_map_of_mem ht))
  have hname : ∀ i < vs.length, IsWord (nameOf vs i) := by
    intro i hi
    have : nameOf vs i = vs[i].name := by simp [nameOf, hi]
    rw [this]
    exact (hw _ (List.getElem_mem hi)).1
  intro words hwd
  unfold tableLines at hwd
  rcases List.mem_cons.1 hwd with rfl | hwd
  · refine (headerWords_solid (hname _ htn) ?_).1
    intro w hw'
    obtain ⟨g, hg, rfl⟩ := List.mem_map.1 hw'
    exact hname g ((h.given t ht).2 g hg)
  · rcases List.mem_append.1 hwd with hwd | hwd
    · obtain ⟨r, hr, rfl⟩ := List.mem_map.1 hwd
      exact (rowWords_solid (rowValues_words (fun v hv => (hw v hv).2) ((hrows.all r.1).1 (List.mem_map_of_mem hr))) (hrows.words r hr).2).1
    · rw [List.mem_singleton.1 hwd]
      unfold Solid
      decide

/-- All tables. -/
theorem tables_loop {stod : Str → Except Fault K} {toCount : K → Int} {vs : List VarDecl} {ts : List (TableDecl K)}
    (h : GoodDescription vs ts) (hw : ∀ v ∈ vs, IsWord v.name ∧ ∀ w ∈ v.values, IsWord w) :
    ∀ (rest : List (TableDecl K)) (blocks : List (List (List Nat × List Str))) (done : List (TableDecl K)) (lines : List Str) (st : BifState),
      ts = done ++ rest → List.Forall₂ (BifRows stod (declCard vs)) rest blocks →
      List.Forall₂ IsLine ((rest.zip blocks).flatMap (fun x => tableLines vs x.1.node x.1.given x.2)) lines → BifInv vs toCount done st.file →
      ∃ st', lines.foldlM (bifLine stod toCount) st = .ok st' ∧ BifInv vs toCount ts st'.file := by
  intro rest
  induction rest with
  | nil =>
    intro blocks done lines st e hb hl hF
    cases hb
    cases hl
    rw [List.append_nil] at e
    subst e
    exact ⟨st, rfl, hF⟩
  | cons t rest ih =>
    intro blocks done lines st e hb hl hF
    cases hb with
    | @cons _ rows _ blocks hrows hb =>
    rw [List.zip_cons_cons, List.flatMap_cons] at hl
    obtain ⟨l1, l2, h1, h2, rfl⟩ := forall₂_split hl
    obtain ⟨st1, h3, h4⟩ := table_loop h hw e hrows h1 hF
    obtain ⟨st2, h5, h6⟩ := ih blocks (done ++ [t]) l2 st1 (by simpa using e) hb h2 h4
    exact ⟨st2, by rw [List.foldlM_append, h3, ok_bind, h5], h6⟩

theorem declare_all {vs : List VarDecl} (hw : ∀ v ∈ vs, (∀ w ∈ v.values, IsWord w) ∧ v.values.Nodup ∧ v.values.length ≤ 2147483647) :
    ∀ done : List VarDecl, (vs.flatMap varLines).foldlM bifDeclare (bifDeclared done) = .ok (bifDeclared (done ++ vs)) := by
  induction vs with
  | nil => intro done; simp [pure_eq_ok]
  | cons v vs ih =>
    intro done
    obtain ⟨h1, h2, h3⟩ := hw v (by simp)
    rw [List.flatMap_cons, List.foldlM_append, declare_var h1 h2 h3, ok_bind, ih (fun v hv => hw v (by simp [hv]))]
    simp

theorem bifDeclared_inv (vs : List VarDecl) (toCount : K → Int) : BifInv vs toCount [] (bifDeclared vs) := by
  refine ⟨rfl, rfl, rfl, ?_, rfl, rfl, by simp [bifDeclared], ?_, by simp⟩
  · intro a b
    have : b ∉ (bifDeclared vs).net.ch a := by
      intro hb
      simp only [bifDeclared, Net.empty, Net.ch, List.getElem?_map] at hb
      cases hv : vs[a]? <;> rw [hv] at hb <;> simp at hb
    simp [this, DeclEdge]
  · intro i hi _
    simp [bifDeclared, hi]

/-- The whole file, and possibly a last line that is not ended. -/
theorem bif_load {stod : Str → Except Fault K} (toCount : K → Int) {vs : List VarDecl} {ts : List (TableDecl K)} (h : GoodDescription vs ts)
    {file : Str} (hd : BifDescribes stod file vs ts) :
    ∃ F, (∀ rounds last, 3 * vs.length < rounds → 10 ∉ last → loadBIF stod toCount rounds (file ++ last) = .ok (some F)) ∧ BifInv vs toCount ts F := by
  obtain ⟨first, second, lines, blocks, hf, hs, rfl, hl, hb, hw⟩ := hd
  have hw' : ∀ v ∈ vs, IsWord v.name ∧ ∀ w ∈ v.values, IsWord w := fun v hv => ⟨(hw v hv).1, (hw v hv).2.1⟩
  obtain ⟨l1, l2, h1, h2, rfl⟩ := forall₂_split hl
  have hmem : ∀ x ∈ ts.zip blocks, x.1 ∈ ts ∧ BifRows stod (declCard vs) x.1 x.2 := by
    intro x hx
    obtain ⟨j, hj⟩ := List.getElem?_of_mem hx
    rw [List.getElem?_zip_eq_some] at hj
    obtain ⟨i1, e1⟩ := List.getElem?_eq_some_iff.1 hj.1
    obtain ⟨i2, e2⟩ := List.getElem?_eq_some_iff.1 hj.2
    have := (List.forall₂_iff_get.1 hb).2 j i1 i2
    simp only [List.get_eq_getElem, e1, e2] at this
    exact ⟨e1 ▸ List.getElem_mem i1, this⟩
  have hnl : ∀ (wl : List (List Str)) (ls : List Str), List.Forall₂ IsLine wl ls → (∀ w ∈ wl, Solid w) → ∀ l ∈ ls, 10 ∉ l := by
    intro wl ls hwl
    induction hwl with
    | nil => simp
    | cons hx _ ih =>
      intro hsol l hl
      rcases List.mem_cons.1 hl with rfl | hl
      · exact hx.noNewline (hsol _ (by simp))
      · exact ih (fun w hw => hsol w (by simp [hw])) l hl
  have hsol2 : ∀ w ∈ (ts.zip blocks).flatMap (fun x => tableLines vs x.1.node x.1.given x.2), Solid w := by
    intro w hw2
    obtain ⟨x, hx, hw2⟩ := List.mem_flatMap.1 hw2
    exact tableLines_solid h hw' (hmem x hx).1 (hmem x hx).2 w hw2
  obtain ⟨st', h3, h4⟩ := tables_loop (toCount := toCount) h hw' ts blocks [] l2 { file := bifDeclared vs } rfl hb h2 (bifDeclared_inv vs toCount)
  have hno2 := hnl _ _ h2 hsol2
  -- the first table
  obtain ⟨t, ts', ets⟩ : ∃ t ts', ts = t :: ts' := by
    cases ts with
    | nil =>
      have := h.nodes.length_eq
      simp only [List.map_nil, List.length_nil, List.length_range] at this
      exact absurd (List.length_eq_zero_iff.1 this.symm) h.nonempty
    | cons t ts' => exact ⟨t, ts', rfl⟩
  subst ets
  cases hb with
  | @cons _ rows _ blocks hrows hb =>
  rw [List.zip_cons_cons, List.flatMap_cons, tableLines, List.cons_append] at h2
  cases h2 with
  | @cons _ lp _ l2 hlp h2 =>
  have htn : t.node < vs.length := List.mem_range.1 (h.nodes.mem_iff.1 (List.mem_map_of_mem (by simp)))
  have hname : ∀ i < vs.length, IsWord (nameOf vs i) := by
    intro i hi
    have : nameOf vs i = vs[i].name := by simp [nameOf, hi]
    rw [this]
    exact (hw' _ (List.getElem_mem hi)).1
  obtain ⟨c1, c2, c3⟩ := headerWords_solid (hname t.node htn) (parents := t.given.map (nameOf vs)) (by
    intro w hw'
    obtain ⟨g, hg, rfl⟩ := List.mem_map.1 hw'
    exact hname g ((h.given t (by simp)).2 g hg))
  refine ⟨st'.file, ?_, h4⟩
  intro rounds last hr hlast
  have e1 : textOf (first :: second :: (l1 ++ lp :: l2)) ++ last =
      first ++ 10 :: (second ++ 10 :: (textOf l1 ++ (lp ++ 10 :: (textOf l2 ++ last)))) := by
    simp [textOf]
  have hvars := variables_loop hlp c1 c3 (textOf l2 ++ last) (vs.flatMap varLines) l1 h1 (by
    intro words hwd
    obtain ⟨v, hv, hwd⟩ := List.mem_flatMap.1 hwd
    exact varLines_solid (hw' v hv).1 (hw' v hv).2 words hwd) (bifDeclared []) (bifDeclared vs) second rounds (by
      have : (vs.flatMap varLines).length = 3 * vs.length := by
        clear * -
        induction vs with
        | nil => rfl
        | cons v vs ih => rw [List.flatMap_cons, List.length_append, ih, List.length_cons]; simp [varLines]; omega
      omega) (by simpa using declare_all (fun v hv => ⟨(hw v hv).2.1, (h.values v hv).1, (hw v hv).2.2⟩) [])
  unfold loadBIF
  rw [e1, getline_line hf]
  simp only
  rw [getline_line hs]
  simp only
  have e2 : ({ net := { nodes := [] } } : NetFile) = bifDeclared [] := rfl
  rw [e2, hvars, ok_bind]
  simp only
  have hfirst : ∀ st : BifState, bifLine stod toCount st (trimLeft lp) = bifLine stod toCount st lp := by
    intro st
    unfold bifLine
    rw [hlp.tokens c1 c2, hlp.tokens_trim c1 c2]
  have hwhile : whileNotEof (bifLine stod toCount) ((first ++ 10 :: (second ++ 10 :: (textOf l1 ++ (lp ++ 10 :: (textOf l2 ++ last))))).length + 1)
      { file := bifDeclared vs } (trimLeft lp) { rest := textOf l2 ++ last } = .ok st' := by
    unfold whileNotEof
    rw [if_neg (by simp), hfirst]
    rw [List.foldlM_cons] at h3
    obtain ⟨st1, h5, h6⟩ := bind_eq_ok h3
    rw [h5, ok_bind]
    simp only
    rw [whileNotEof_lines _ _ _ (by simp; omega)]
    rw [completeLines_textOf (ls := l2) (fun l hl => hno2 l (by simp [hl])) last hlast, h6]
  rw [hwhile]
  rfl

end FastPGM
