import Verif.Lemmas.BifNetwork

/-!
Lemmas about the loader of BIF files: the tables.
-/

namespace FastPGM

open Spec

variable {K : Type}

/-! ### The edges of a header -/

theorem addDirected_raw {R : Net} (h : NetInv R) {p c : Nat} (hp : p < R.nodes.length) (hc : c < R.nodes.length)
    (hac : ¬ Cyclic (withEdge (ChildOf R) p c)) :
    ∃ N1, R.setParentChild p c = .ok N1 ∧ R.apply (.addDirected p c) = .ok { N1 with edges := N1.edges ++ [mkDirected p c] } ∧
      NetInv { N1 with edges := N1.edges ++ [mkDirected p c] } ∧ N1.nodes.length = R.nodes.length ∧
      (∀ a b, b ∈ N1.ch a ↔ b ∈ R.ch a ∨ (a = p ∧ b = c)) := by
  obtain ⟨N1, h1, hwf, _, _, hlen, hch⟩ := setParentChild_spec h.wf hp hc
  obtain ⟨R', b, h2, h3, h4, _, h5, h6, h7⟩ := addDirectedEdge_spec h hp hc
  have hb : b = true := h5.2 hac
  subst hb
  have hR' : R' = { N1 with edges := N1.edges ++ [mkDirected p c] } := by
    unfold Net.addDirectedEdge at h2
    rw [find_ok hp, find_ok hc, ok_bind, ok_bind, h1, ok_bind] at h2
    obtain ⟨b', hb', hcyc⟩ := containCircle_eq hwf
    rw [hb', ok_bind] at h2
    cases b' with
    | true =>
      rw [if_pos rfl] at h2
      cases h8 : N1.removeParentChild p c with
      | error e => rw [h8] at h2; cases h2
      | ok N2 => rw [h8, ok_bind] at h2; cases h2
    | false =>
      rw [if_neg (by simp)] at h2
      cases h2
      rfl
  subst hR'
  exact ⟨N1, h1, by simp [Net.apply, h2, ok_bind, pure_eq_ok], h3, h4, (h7 rfl).1⟩

theorem addParentEdges {G : Nat → Nat → Prop} (hG : ¬ Cyclic G) {node : Nat} : ∀ (gs : List Nat) (R : Net) (k : Nat), NetInv R → node < R.nodes.length →
    (∀ g ∈ gs, g < R.nodes.length ∧ G g node) → (∀ a b, b ∈ R.ch a → G a b) →
    ∃ R', R.run (gs.map (fun g => .addDirected g node)) = .ok R' ∧
      (gs.map some).foldlM (fun (acc : Net × Nat) p => do
        let p ← deref p
        let c ← deref (some node)
        let N ← acc.1.setParentChild p c
        return ({ N with edges := N.edges ++ [mkDirected p c] }, acc.2 + 1)) (R, k) = .ok (R', k + gs.length) ∧
      NetInv R' ∧ R'.nodes.length = R.nodes.length ∧ R'.edges = R.edges ++ gs.map (fun g => mkDirected g node) ∧
      (∀ a b, b ∈ R'.ch a ↔ b ∈ R.ch a ∨ (a ∈ gs ∧ b = node)) := by
  intro gs
  induction gs with
  | nil =>
    intro R k h _ _ _
    exact ⟨R, rfl, rfl, h, rfl, by simp, by simp⟩
  | cons g gs ih =>
    intro R k h hn hg hch
    obtain ⟨g1, g2⟩ := hg g (by simp)
    have hac : ¬ Cyclic (withEdge (ChildOf R) g node) := by
      refine fun hc => hG (cyclic_mono ?_ hc)
      rintro a b (hab | ⟨rfl, rfl⟩)
      · exact hch a b (childOf_iff.1 hab)
      · exact g2
    obtain ⟨N1, s1, s2, s3, s4, s5⟩ := addDirected_raw h g1 hn hac
    have he : N1.edges = R.edges := by
      obtain ⟨N1', e1, _, e2, _⟩ := setParentChild_spec h.wf g1 hn
      rw [s1] at e1
      cases e1
      exact e2
    obtain ⟨R', r1, r2, r3, r4, r5, r6⟩ := ih { N1 with edges := N1.edges ++ [mkDirected g node] } (k + 1) s3 (by rw [← s4] at hn; exact hn)
      (fun g' hg' => by
        obtain ⟨a1, a2⟩ := hg g' (by simp [hg'])
        rw [← s4] at a1
        exact ⟨a1, a2⟩) (fun a b hab => by
        rcases (s5 a b).1 hab with h' | ⟨rfl, rfl⟩
        · exact hch a b h'
        · exact g2)
    refine ⟨R', ?_, ?_, r3, by rw [r4]; exact s4, ?_, ?_⟩
    · unfold Net.run at r1 ⊢
      rw [List.map_cons, List.foldlM_cons, s2, ok_bind]
      exact r1
    · rw [List.map_cons, List.foldlM_cons]
      simp only [deref, ok_bind, s1, pure_eq_ok] at r2 ⊢
      rw [r2, List.length_cons]
      congr 2
      omega
    · rw [r5, he]
      simp
    · intro a b
      rw [r6]
      show b ∈ N1.ch a ∨ _ ↔ _
      rw [s5]
      simp only [List.mem_cons]
      constructor
      · rintro ((h | ⟨rfl, rfl⟩) | ⟨h, rfl⟩)
        · exact Or.inl h
        · exact Or.inr ⟨Or.inl rfl, rfl⟩
        · exact Or.inr ⟨Or.inr h, rfl⟩
      · rintro (h | ⟨rfl | h, rfl⟩)
        · exact Or.inl (Or.inl h)
        · exact Or.inl (Or.inr ⟨rfl, rfl⟩)
        · exact Or.inr ⟨h, rfl⟩

/-! ### Header -/

theorem word_ne_paren {w : Str} (h : IsWord w) : w ≠ lit ")" := by
  rintro rfl
  exact h.2.2.2 41 (by simp) (by decide)

theorem bifParentNames_commas (r : List Str) : ∀ {l : List Str}, (∀ w ∈ l, IsWord w) →
    bifParentNames (commas [] l ++ lit ")" :: r) = .ok l := by
  intro l
  induction l with
  | nil => intro _; simp [commas, bifParentNames]
  | cons x l ih =>
    intro h
    have hx := h x (by simp)
    cases l with
    | nil =>
      rw [commas, List.append_nil, List.singleton_append, bifParentNames, if_neg (word_ne_paren hx)]
      have := word_trim (cs := [44]) (by simp) hx
      rw [List.append_nil] at this
      rw [trimRightComma, this, ok_bind, bifParentNames, if_pos rfl]
      rfl
    | cons y l =>
      rw [commas, List.cons_append, bifParentNames, if_neg, trimRightComma, show lit "," = [44] from by decide, trimRightOne_snoc (by simp), ok_bind,
        ih (fun w hw => h w (by simp [hw]))]
      · rfl
      · intro e
        have := congrArg List.getLast? e
        simp [lit] at this

theorem findByName_ok {vs : List VarDecl} (h : (vs.map VarDecl.name).Nodup) {i : Nat} (hi : i < vs.length) :
    findByName (vs.map VarDecl.name) (nameOf vs i) = some i := by
  have h2 := nodeByName_ok h hi
  have e : nameOf vs i = vs[i].name := by simp [nameOf, hi]
  rw [e]
  unfold nodeByName at h2
  unfold findByName
  cases hf : (vs.map VarDecl.name).findIdx? (fun n => n = vs[i].name) with
  | none => rw [hf] at h2; cases h2
  | some j => rw [hf] at h2; cases h2; rfl

theorem rdAt_ok {α : Type} {l : List α} {i : Nat} {x : α} (h : l[i]? = some x) : rdAt l i = .ok x := by rw [rdAt, h]

theorem bifHeader_ok {vs : List VarDecl} (hnames : (vs.map VarDecl.name).Nodup) (hwords : ∀ v ∈ vs, IsWord v.name) {st : BifState}
    (hst : st.file.names = vs.map VarDecl.name) {node : Nat} (hn : node < vs.length) {given : List Nat} (hg : ∀ g ∈ given, g < vs.length)
    {R' : Net} {k : Nat} (hfold : (given.map some).foldlM (fun (acc : Net × Nat) p => do
        let p ← deref p
        let c ← deref (some node)
        let N ← acc.1.setParentChild p c
        return ({ N with edges := N.edges ++ [mkDirected p c] }, acc.2 + 1)) (st.file.net, st.file.numEdges) = .ok (R', k)) :
    bifHeader st (headerWords (nameOf vs node) (given.map (nameOf vs))) =
      .ok { file := { st.file with net := R', numEdges := k }, this := some node, parents := given.map some } := by
  have hthis := findByName_ok hnames hn
  rw [← hst] at hthis
  unfold headerWords bifHeader
  by_cases h0 : given = []
  · subst h0
    cases hfold
    simp only [List.map_nil, if_true]
    simp only [rdAt, List.getElem?_cons_zero, List.getElem?_cons_succ, ok_bind, hthis]
    rw [if_neg (by simp)]
    rfl
  · have h0' : given.map (nameOf vs) ≠ [] := by simpa using h0
    rw [if_neg h0']
    have hw : ∀ w ∈ given.map (nameOf vs), IsWord w := by
      intro w hw
      obtain ⟨g, hgm, rfl⟩ := List.mem_map.1 hw
      have hgl := hg g hgm
      have : nameOf vs g = vs[g].name := by simp [nameOf, hgl]
      rw [this]
      exact hwords _ (List.getElem_mem hgl)
    have e1 : ([lit "probability", lit "(", nameOf vs node, lit "|"] ++ commas [] (given.map (nameOf vs)) ++ [lit ")", lit "{"]).drop 4 =
        commas [] (given.map (nameOf vs)) ++ lit ")" :: [lit "{"] := by simp
    have e2 : (given.map (nameOf vs)).map (findByName st.file.names) = given.map some := by
      rw [List.map_map]
      refine List.map_congr_left (fun g hgm => ?_)
      rw [Function.comp_apply, hst, findByName_ok hnames (hg g hgm)]
    have k1 : rdAt ([lit "probability", lit "(", nameOf vs node, lit "|"] ++ commas [] (given.map (nameOf vs)) ++ [lit ")", lit "{"]) 1 = .ok (lit "(") := rfl
    have k2 : rdAt ([lit "probability", lit "(", nameOf vs node, lit "|"] ++ commas [] (given.map (nameOf vs)) ++ [lit ")", lit "{"]) 2 = .ok (nameOf vs node) := rfl
    have k3 : rdAt ([lit "probability", lit "(", nameOf vs node, lit "|"] ++ commas [] (given.map (nameOf vs)) ++ [lit ")", lit "{"]) 3 = .ok (lit "|") := rfl
    rw [k1, ok_bind, if_neg (by simp), k2, ok_bind, k3, ok_bind, if_neg (by decide), e1, bifParentNames_commas _ hw, ok_bind]
    simp only [e2, hthis]
    rw [hfold]
    rfl

/-! ### Rows -/

theorem numbered_lookup {values : List Str} (hnd : values.Nodup) {x : Nat} {w : Str} (h : values[x]? = some w) :
    (numbered values).at w = ((x : Int), numbered values) := by
  have : (numbered values).find w = some (x : Int) := by
    unfold ValueMap.find numbered
    have key : ∀ (l : List Str) (k x : Nat), l.Nodup → l[x]? = some w → ((l.zipIdx k).map (fun x => (x.1, (x.2 : Int)))).lookup w = some ((k + x : Nat) : Int) := by
      intro l
      induction l with
      | nil => intro k x _ h; simp at h
      | cons y l ih =>
        intro k x hl h
        rw [List.zipIdx_cons, List.map_cons, List.lookup]
        cases x with
        | zero => cases h; simp
        | succ x =>
          rw [List.getElem?_cons_succ] at h
          have hne : (w == y) = false := by
            rw [beq_eq_false_iff_ne]
            rintro rfl
            exact (List.nodup_cons.1 hl).1 (List.mem_of_getElem? h)
          simp only [hne]
          rw [ih (k + 1) x (List.nodup_cons.1 hl).2 h]
          congr 2
          omega
    simpa using key values 0 x hnd h
  rw [ValueMap.at, this]

/-- The words before the numbers of a row, read back. -/
theorem opened_get {l : List Str} (hl : ∀ w ∈ l, IsWord w) {j : Nat} {w : Str} (h : l[j]? = some w) :
    ∃ y, (opened (commas (lit ")") l))[j]? = some y ∧ trimRightCommaAndParenthesis (trimLeftParenthesis y) = .ok w := by
  obtain ⟨y, h1, h2⟩ := commas_get (cs := [44, 41]) (by simp) (last := lit ")") (l := l) (fun x _ => by
    rw [show lit ")" = [41] from by decide]; exact trimRightOne_snoc (by simp) x) h
  have hw := hl w (List.mem_of_getElem? h)
  cases hc : commas (lit ")") l with
  | nil => rw [hc] at h1; simp at h1
  | cons z r =>
    rw [hc] at h1
    cases j with
    | zero =>
      cases h1
      refine ⟨lit "(" ++ y, rfl, ?_⟩
      rw [show lit "(" = [40] from by decide]
      simpa [trimLeftParenthesis, trimRightCommaAndParenthesis] using h2
    | succ j =>
      refine ⟨y, h1, ?_⟩
      have : trimLeftParenthesis y = y := by
        cases y with
        | nil => rfl
        | cons c y =>
          rw [trimLeftParenthesis, if_neg]
          rintro rfl
          unfold trimRightOne at h2
          obtain ⟨d, hd⟩ : ∃ d, ((40 : Int) :: y).getLast? = some d := Option.ne_none_iff_exists'.1 (by simp)
          rw [hd] at h2
          simp only at h2
          split at h2
          · cases h2
            cases y with
            | nil => exact hw.1 (by simp)
            | cons c y => exact hw.2.2.1 (by simp [List.dropLast])
          · cases h2
            exact hw.2.2.1 rfl
      rw [this]
      exact h2

theorem opened_length (l : List Str) : (opened l).length = l.length := by cases l <;> rfl

theorem bifConfig_ok {vs : List VarDecl} (hv : ∀ v ∈ vs, v.values.Nodup) {given u : List Nat}
    (hu : List.Forall₂ (fun x g => x < declCard vs g) u given) {tokens : List Str}
    (ht : ∀ j : Nat, ∀ g x, given[j]? = some g → u[j]? = some x → ∃ y, tokens[j]? = some y ∧ trimRightCommaAndParenthesis (trimLeftParenthesis y) = .ok (valueOf vs g x)) :
    bifConfig (vs.map (fun v => numbered v.values)) (given.map some) tokens =
      .ok (vs.map (fun v => numbered v.values), parentConfigOf given u) := by
  unfold bifConfig parentConfigOf
  have key : ∀ (gs us : List Nat) (k : Nat) (c : Config), List.Forall₂ (fun x g => x < declCard vs g) us gs →
      (∀ j : Nat, ∀ g x, gs[j]? = some g → us[j]? = some x → ∃ y, tokens[k + j]? = some y ∧ trimRightCommaAndParenthesis (trimLeftParenthesis y) = .ok (valueOf vs g x)) →
      ((gs.map some).zipIdx k).foldlM (fun (acc : List ValueMap × Config) x => (do
        let v ← trimRightCommaAndParenthesis (trimLeftParenthesis (← rdAt tokens x.2))
        let p ← deref x.1
        let (num, m) := (← rd acc.1 p).at v
        return (acc.1.set p m, configInsert (p, num.toNat) acc.2) : Except Fault _)) (vs.map (fun v => numbered v.values), c) =
        .ok (vs.map (fun v => numbered v.values), (List.zip gs us).foldl (fun c x => configInsert x c) c) := by
    intro gs us k c h
    induction h generalizing k c with
    | nil => intro _; rfl
    | @cons x g us gs hx _ ih =>
      intro ht
      obtain ⟨y, hy, hy2⟩ := ht 0 g x rfl rfl
      have hg : g < vs.length := by
        by_contra hg
        simp [declCard, Nat.le_of_not_lt hg] at hx
      have hxv : x < vs[g].values.length := by simpa [declCard, hg] using hx
      have hval : vs[g].values[x]? = some (valueOf vs g x) := by simp [valueOf, hg, hxv]
      rw [List.map_cons, List.zipIdx_cons, List.foldlM_cons]
      have hrd : rd (vs.map (fun v => numbered v.values)) g = .ok (numbered vs[g].values) := rd_ok (by simp [hg])
      simp only [rdAt_ok (show tokens[k]? = some y from hy), ok_bind, hy2, deref, hrd, numbered_lookup (hv _ (List.getElem_mem hg)) hval, pure_eq_ok]
      have hset : (vs.map (fun v => numbered v.values)).set g (numbered vs[g].values) = vs.map (fun v => numbered v.values) := by
        apply List.ext_getElem?
        intro i
        rw [List.getElem?_set]
        split
        · rename_i e
          subst e
          simp [hg]
        · rfl
      rw [hset, Int.toNat_natCast, List.zip_cons_cons, List.foldl_cons]
      refine ih (k + 1) _ (fun j g' x' h1 h2 => ?_)
      have := ht (j + 1) g' x' h1 h2
      rwa [show k + (j + 1) = k + 1 + j by omega] at this
  exact key given u 0 [] hu (fun j => by simpa using ht j)

end FastPGM
