import Verif.Spec.NetFile
import Verif.Lemmas.NetDims
import Verif.Lemmas.Dataset4
import Verif.Lemmas.JTCalibrate
import Verif.Props.NetworkFile

/-!
Lemmas about the loader of XMLBIF files.
-/

namespace FastPGM

open Spec

variable {K : Type}

/-! ### Strings -/

theorem trim_of_solid {m pre post : Str} (hp : ∀ c ∈ pre ++ post, c < 33) (hm : ∀ c, m.head? = some c → 33 ≤ c)
    (hm' : ∀ c, m.getLast? = some c → 33 ≤ c) : trim (pre ++ m ++ post) = m :=
  C14_trim_unique _ _ _ (C14_trim _) ⟨pre, post, rfl, fun c hc => hp c (by simp [hc]), fun c hc => hp c (by simp [hc]), hm, hm'⟩

theorem head_intercalate {l : List Str} (h : ∀ t ∈ l, t ≠ [] ∧ ∀ c ∈ t, 33 ≤ c) :
    ∀ c, (List.intercalate [32] l).head? = some c → 33 ≤ c := by
  intro c hc
  cases l with
  | nil => simp at hc
  | cons t l =>
    obtain ⟨h1, h2⟩ := h t (by simp)
    obtain ⟨a, t', rfl⟩ := List.exists_cons_of_ne_nil h1
    have : (List.intercalate [32] ((a :: t') :: l)).head? = some a := by
      cases l with
      | nil => simp [List.intercalate]
      | cons b l => rw [intercalate_cons _ _ (by simp)]; simp
    rw [this] at hc
    cases hc
    exact h2 c (by simp)

theorem split_numbers {stod : Str → Except Fault K} {text : Str} {entries : List K} (h : ListsNumbers stod text entries) :
    ∃ tokens, split (trim text) [32] = .ok tokens ∧ tokens.mapM stod = .ok entries := by
  obtain ⟨pre, post, tokens, rfl, h1, h2, h3, h4⟩ := h
  refine ⟨tokens, ?_, ?_⟩
  · have hs : Solid tokens := fun t ht => ⟨(h3 t ht).1, fun c hc => (h3 t ht).2 c hc⟩
    rw [trim_of_solid h1 (head_intercalate h3)]
    · exact split_intercalate 32 (fun t ht hc => by have := (h3 t ht).2 32 hc; omega) h2
    · exact (intercalate_last hs h2).2
  · clear h2 h3 h1
    induction h4 with
    | nil => rfl
    | cons e _ ih => rw [List.mapM_cons, e, ok_bind, ih, ok_bind]; rfl

theorem nodeByName_ok {vs : List VarDecl} (h : (vs.map VarDecl.name).Nodup) {i : Nat} (hi : i < vs.length) :
    nodeByName (vs.map VarDecl.name) vs[i].name = .ok i := by
  unfold nodeByName
  have : (vs.map VarDecl.name).findIdx? (fun n => decide (n = vs[i].name)) = some i := by
    rw [List.findIdx?_eq_some_iff_getElem]
    refine ⟨by simpa using hi, by simp, ?_⟩
    intro j hj
    simp only [List.getElem_map, decide_eq_true_eq]
    intro e
    have hjl : j < (vs.map VarDecl.name).length := by rw [List.length_map]; omega
    have := (List.Nodup.getElem_inj_iff h (hi := hjl) (hj := by simpa using hi)).1 (by simpa using e)
    omega
  rw [this]

/-! ### Variables -/

theorem xmlValues_ok {values : List Str} (h : values.Nodup) :
    xmlValues (values.map some) = .ok (numbered values, (values.length : Int)) := by
  have key : ∀ rest done : List Str, (done ++ rest).Nodup →
      (rest.map some).foldlM (fun (st : ValueMap × Int) v => do
        let s ← xmlText v
        return (st.1.assign s st.2, st.2 + 1)) (numbered done, (done.length : Int)) = .ok (numbered (done ++ rest), ((done ++ rest).length : Int)) := by
    intro rest
    induction rest with
    | nil => intro done _; simp
    | cons x rest ih =>
      intro done hd
      rw [List.map_cons, List.foldlM_cons]
      have hx : x ∉ done := fun hx => (List.nodup_append.1 hd).2.2 x hx x (by simp) rfl
      have e1 : (numbered done).assign x (done.length : Int) = numbered (done ++ [x]) := by
        unfold ValueMap.assign
        rw [if_neg]
        · simp [numbered, List.zipIdx_append]
        · rw [List.any_eq_true]
          rintro ⟨y, hy, e⟩
          unfold numbered at hy
          obtain ⟨⟨z, k⟩, hz, rfl⟩ := List.mem_map.1 hy
          simp only [decide_eq_true_eq] at e
          subst e
          exact hx (List.fst_mem_of_mem_zipIdx hz)
      simp only [xmlText, ok_bind, pure_eq_ok, e1]
      have := ih (done ++ [x]) (by simpa using hd)
      simp only [List.length_append, List.length_singleton, Nat.cast_add, Nat.cast_one, List.append_assoc, List.singleton_append] at this ⊢
      exact this
  exact key values [] (by simpa using h)

theorem unconnectedNodes_ok {vs : List VarDecl} (hv : ∀ v ∈ vs, v.values.Nodup ∧ v.values ≠ []) (hne : vs ≠ []) {doc : XmlDoc}
    (hd : doc.vars = vs.map (fun v => ⟨some v.name, some (lit "discrete"), v.values.map some⟩)) :
    unconnectedNodes doc = .ok { net := Net.empty (vs.map (fun v => v.values.length)), names := vs.map VarDecl.name,
                                 valueIds := vs.map (fun v => numbered v.values), stats := vs.map (fun _ => NodeStats.new) } := by
  unfold unconnectedNodes
  rw [hd, if_neg (by simpa using hne)]
  have key : ∀ rest done : List VarDecl, (∀ v ∈ rest, v.values.Nodup) →
      (rest.map (fun v => (⟨some v.name, some (lit "discrete"), v.values.map some⟩ : XmlVar))).foldlM xmlVariable
        { net := Net.empty (done.map (fun v => v.values.length)), names := done.map VarDecl.name,
          valueIds := done.map (fun v => numbered v.values), stats := done.map (fun _ => NodeStats.new) } =
      .ok { net := Net.empty ((done ++ rest).map (fun v => v.values.length)), names := (done ++ rest).map VarDecl.name,
            valueIds := (done ++ rest).map (fun v => numbered v.values), stats := (done ++ rest).map (fun _ => NodeStats.new) } := by
    intro rest
    induction rest with
    | nil => intro done _; simp
    | cons x rest ih =>
      intro done hr
      rw [List.map_cons, List.foldlM_cons]
      have e : xmlVariable
          { net := Net.empty (done.map (fun v => v.values.length)), names := done.map VarDecl.name,
            valueIds := done.map (fun v => numbered v.values), stats := done.map (fun _ => NodeStats.new) }
          ⟨some x.name, some (lit "discrete"), x.values.map some⟩ =
          .ok { net := Net.empty ((done ++ [x]).map (fun v => v.values.length)), names := (done ++ [x]).map VarDecl.name,
                valueIds := (done ++ [x]).map (fun v => numbered v.values), stats := (done ++ [x]).map (fun _ => NodeStats.new) } := by
        unfold xmlVariable
        simp only [xmlText, ok_bind, if_true, xmlValues_ok (hr x (by simp)), pure_eq_ok]
        simp [Net.empty, numbered]
      rw [e, ok_bind, ih (done ++ [x]) (fun v hv => hr v (by simp [hv]))]
      simp
  have := key vs [] (fun v h => (hv v h).1)
  simpa [Net.empty] using this

/-! ### Edges -/

theorem setParentChild_withEdges (N : Net) (es : List Edge) (p c : Nat) :
    ({ N with edges := es } : Net).setParentChild p c = (N.setParentChild p c).map (fun N1 => { N1 with edges := es }) := by
  unfold Net.setParentChild Net.find
  simp only
  cases N.nodes[p]? with
  | none => rfl
  | some s =>
    simp only [ok_bind]
    cases (N.nodes.set p (s.addChild c))[c]? <;> rfl

theorem addDirected_step {R : Net} (h : NetInv R) {p c : Nat} (hp : p < R.nodes.length) (hc : c < R.nodes.length)
    (hac : ¬ Cyclic (withEdge (ChildOf R) p c)) :
    ∃ R', R.apply (.addDirected p c) = .ok R' ∧ ({ R with edges := [] } : Net).setParentChild p c = .ok { R' with edges := [] } ∧
      NetInv R' ∧ R'.nodes.length = R.nodes.length ∧ (∀ a b, b ∈ R'.ch a ↔ b ∈ R.ch a ∨ (a = p ∧ b = c)) := by
  obtain ⟨N1, h1, hwf, _, _, hlen, hch⟩ := setParentChild_spec h.wf hp hc
  obtain ⟨R', b, h2, h3, h4, _, h5, h6, h7⟩ := addDirectedEdge_spec h hp hc
  have hb : b = true := h5.2 hac
  subst hb
  have hR' : R' = { N1 with edges := N1.edges ++ [mkDirected p c] } := by
    unfold Net.addDirectedEdge at h2
    rw [find_ok hp, find_ok hc, ok_bind, ok_bind, h1, ok_bind] at h2
    obtain ⟨b', hb', hcyc⟩ := containCircle_eq hwf
    rw [hb', ok_bind] at h2
    cases b' with
    | true =>
      rw [if_pos rfl] at h2
      cases h8 : N1.removeParentChild p c with
      | error e => rw [h8] at h2; cases h2
      | ok N2 => rw [h8, ok_bind] at h2; cases h2
    | false =>
      rw [if_neg (by simp)] at h2
      cases h2
      rfl
  refine ⟨R', by simp [Net.apply, h2, ok_bind, pure_eq_ok], ?_, h3, h4, (h7 rfl).1⟩
  rw [setParentChild_withEdges, h1, hR']
  rfl

theorem addParents {G : Nat → Nat → Prop} (hG : ¬ Cyclic G) {node : Nat} : ∀ (gs : List Nat) (R : Net), NetInv R → node < R.nodes.length →
    (∀ g ∈ gs, g < R.nodes.length ∧ G g node) → (∀ a b, b ∈ R.ch a → G a b) →
    ∃ R', R.run (gs.map (fun g => .addDirected g node)) = .ok R' ∧
      gs.foldlM (fun N g => N.setParentChild g node) ({ R with edges := [] } : Net) = .ok { R' with edges := [] } ∧
      NetInv R' ∧ R'.nodes.length = R.nodes.length ∧ (∀ a b, b ∈ R'.ch a ↔ b ∈ R.ch a ∨ (a ∈ gs ∧ b = node)) := by
  intro gs
  induction gs with
  | nil =>
    intro R h _ _ _
    exact ⟨R, rfl, rfl, h, rfl, by simp⟩
  | cons g gs ih =>
    intro R h hn hg hR
    obtain ⟨hg1, hg2⟩ := hg g (by simp)
    obtain ⟨R1, h1, h2, h3, h4, h5⟩ := addDirected_step h hg1 hn (fun hc => hG (cyclic_mono (fun a b hab => by
      rcases hab with hab | ⟨rfl, rfl⟩
      · exact hR a b (childOf_iff.1 hab)
      · exact hg2) hc))
    obtain ⟨R2, h6, h7, h8, h9, h10⟩ := ih R1 h3 (by rw [h4]; exact hn) (fun x hx => by
      rw [h4]
      exact hg x (by simp [hx])) (fun a b hab => by
      rcases (h5 a b).1 hab with hab | ⟨rfl, rfl⟩
      · exact hR a b hab
      · exact hg2)
    refine ⟨R2, ?_, ?_, h8, h9.trans h4, ?_⟩
    · unfold Net.run
      rw [List.map_cons, List.foldlM_cons, h1, ok_bind]
      exact h6
    · rw [List.foldlM_cons, h2, ok_bind]
      exact h7
    · intro a b
      rw [h10, h5, List.mem_cons]
      constructor
      · rintro ((h | ⟨rfl, rfl⟩) | ⟨h, rfl⟩)
        · exact Or.inl h
        · exact Or.inr ⟨Or.inl rfl, rfl⟩
        · exact Or.inr ⟨Or.inr h, rfl⟩
      · rintro (h | ⟨rfl | h, rfl⟩)
        · exact Or.inl (Or.inl h)
        · exact Or.inl (Or.inr ⟨rfl, rfl⟩)
        · exact Or.inr ⟨h, rfl⟩

/-! ### Tables -/

/-- What `C24_assign` says about the statistics of a node. -/
structure StatsFor (card : Nat → Nat) (toCount : K → Int) (t : TableDecl K) (st : NodeStats) : Prop where
  stat : ∀ ps : List Nat, ps.Pairwise (· < ·) → (∀ v, v ∈ ps ↔ v ∈ t.given) → ∀ a, InRange card (t.node :: t.given) a →
    ∃ e, t.entries[tablePosition card t.node t.given a]? = some e ∧ st.stat (a t.node) (configOf a ps) = toCount e
  total : ∀ u, st.total u = ∑ x ∈ Finset.range (card t.node), st.stat x u

/-- The calls made for the tables read so far. -/
def declOps (ts : List (TableDecl K)) : List EdgeOp := ts.flatMap (fun t => t.given.map (fun g => .addDirected g t.node))

/-- The state after reading some of the tables. -/
structure XmlInv (vs : List VarDecl) (toCount : K → Int) (done : List (TableDecl K)) (F : NetFile) : Prop where
  names : F.names = vs.map VarDecl.name
  values : F.valueIds = vs.map (fun v => numbered v.values)
  net : ∃ R, (Net.empty (vs.map (fun v => v.values.length))).run (declOps done) = .ok R ∧ F.net = { R with edges := [] } ∧
    (∀ a b, b ∈ R.ch a ↔ DeclEdge done a b)
  len : F.stats.length = vs.length
  new : ∀ i < vs.length, i ∉ done.map TableDecl.node → F.stats[i]? = some NodeStats.new
  stats : ∀ t ∈ done, ∃ st, F.stats[t.node]? = some st ∧ StatsFor (declCard vs) toCount t st

theorem declOps_range {vs : List VarDecl} {ts : List (TableDecl K)} (h : GoodDescription vs ts) {done rest : List (TableDecl K)} (e : ts = done ++ rest) :
    ∀ op ∈ declOps done, OpInRange (vs.map (fun v => v.values.length)).length op := by
  intro op hop
  unfold declOps at hop
  obtain ⟨t, ht, hop⟩ := List.mem_flatMap.1 hop
  obtain ⟨g, hg, rfl⟩ := List.mem_map.1 hop
  have htm : t ∈ ts := by rw [e]; simp [ht]
  rw [List.length_map]
  refine ⟨(h.given t htm).2 g hg, List.mem_range.1 (h.nodes.mem_iff.1 (List.mem_map_of_mem htm))⟩

theorem xmlProbability_step {stod : Str → Except Fault K} {toCount : K → Int} {vs : List VarDecl} {ts : List (TableDecl K)}
    (h : GoodDescription vs ts) {done rest : List (TableDecl K)} {t : TableDecl K} (e : ts = done ++ t :: rest) {F : NetFile}
    (hF : XmlInv vs toCount done F) {p : XmlProb} (h1 : p.node = (vs[t.node]?).map VarDecl.name)
    (h2 : p.givens = t.given.map (fun g => (vs[g]?).map VarDecl.name)) {text : Str} (h3 : p.table = some text)
    (h4 : ListsNumbers stod text t.entries) :
    ∃ F', xmlProbability stod toCount F p = .ok F' ∧ XmlInv vs toCount (done ++ [t]) F' := by
  have htm : t ∈ ts := by rw [e]; simp
  have htn : t.node < vs.length := List.mem_range.1 (h.nodes.mem_iff.1 (List.mem_map_of_mem htm))
  obtain ⟨hgn, hgl⟩ := h.given t htm
  have hnot : t.node ∉ done.map TableDecl.node := by
    have := h.nodes.nodup_iff.2 List.nodup_range
    rw [e, List.map_append, List.map_cons] at this
    exact fun hm => (List.nodup_append.1 this).2.2 _ hm _ (by simp) rfl
  have hng : t.node ∉ t.given := fun hm => h.acyclic ⟨t.node, Relation.TransGen.single ⟨t, htm, rfl, hm⟩⟩
  have hpos : ∀ d ∈ vs.map (fun v => v.values.length), 0 < d := by
    intro d hd
    obtain ⟨v, hv, rfl⟩ := List.mem_map.1 hd
    exact List.length_pos_iff.2 (h.values v hv).2
  obtain ⟨R, hR1, hR2, hR3⟩ := hF.net
  obtain ⟨R0, hR0, hlen0, hshape0, hinv0⟩ := run_shape (declOps_range h e) hpos
  rw [hR1] at hR0
  cases hR0
  rw [List.length_map] at hlen0
  obtain ⟨R', g1, g2, g3, g4, g5⟩ := addParents h.acyclic (node := t.node) t.given R hinv0 (by rw [hlen0]; exact htn)
    (fun g hg => ⟨by rw [hlen0]; exact hgl g hg, ⟨t, htm, rfl, hg⟩⟩) (fun a b hab => by
      obtain ⟨t', ht', h'⟩ := (hR3 a b).1 hab
      exact ⟨t', by rw [e]; simp [ht'], h'⟩)
  have hrun : (Net.empty (vs.map (fun v => v.values.length))).run (declOps (done ++ [t])) = .ok R' := by
    have : declOps (done ++ [t]) = declOps done ++ t.given.map (fun g => .addDirected g t.node) := by simp [declOps]
    unfold Net.run at hR1 g1 ⊢
    rw [this, List.foldlM_append, hR1, ok_bind, g1]
  obtain ⟨R0, hR0, hlen', hshape', hinv'⟩ := run_shape (declOps_range h (done := done ++ [t]) (rest := rest) (by simpa using e)) hpos
  rw [hrun] at hR0
  cases hR0
  obtain ⟨tokens, s1, s2⟩ := split_numbers h4
  have hshape : NetShape (declCard vs) ({ R' with edges := [] } : Net) := ⟨hshape'.dim, hshape'.parents⟩
  have hnode : t.node < R'.nodes.length := by rw [g4, hlen0]; exact htn
  have hasg : ∃ st, assignTable ({ R' with edges := [] } : Net) toCount t.node t.given t.entries NodeStats.new = .ok st ∧
      StatsFor (declCard vs) toCount t st := by
    obtain ⟨st, a1, a2, a3, _⟩ := C24_assign hshape (node := t.node) (List.getElem?_eq_getElem hnode) (fun p hp => by
      show p < R'.nodes.length
      rw [g4, hlen0]
      exact hgl p hp) hgn hng (sortedSet_sorted t.given) (fun v => mem_sortedSet) toCount (h.size t htm)
    refine ⟨st, a1, ?_, a3⟩
    intro ps hps hm a ha
    obtain rfl : ps = sortedSet t.given := sorted_unique hps (sortedSet_sorted _) (fun v => (hm v).trans mem_sortedSet.symm)
    exact a2 a ha
  obtain ⟨st, a1, a2⟩ := hasg
  refine ⟨{ F with net := { R' with edges := [] }, stats := F.stats.set t.node st }, ?_, ?_⟩
  · unfold xmlProbability
    rw [h1, h2, h3, List.getElem?_eq_getElem htn]
    simp only [Option.map_some, xmlText, ok_bind]
    rw [hF.names, nodeByName_ok h.names htn, ok_bind]
    have hgm : (t.given.map (fun g => (vs[g]?).map VarDecl.name)).mapM (fun g => do nodeByName (vs.map VarDecl.name) (← xmlText g)) = .ok t.given := by
      rw [List.mapM_map]
      have : t.given.mapM ((fun g => do nodeByName (vs.map VarDecl.name) (← xmlText g)) ∘ fun g => (vs[g]?).map VarDecl.name) = .ok (t.given.map id) := by
        apply mapM_ok
        intro g hg
        have := hgl g hg
        simp only [Function.comp, List.getElem?_eq_getElem this, Option.map_some, xmlText, ok_bind, id]
        exact nodeByName_ok h.names this
      simpa using this
    have hgm' : (t.given.map (fun g => (vs[g]?).map VarDecl.name)).mapM (fun g => do nodeByName F.names (← xmlText g)) = .ok t.given := by
      rw [hF.names]
      exact hgm
    simp only [xmlText] at hgm
    rw [hgm, ok_bind, hR2, g2, ok_bind, s1, ok_bind, s2, ok_bind, rd_ok (hF.new t.node htn hnot), ok_bind, a1]
    rfl
  · refine ⟨hF.names, hF.values, ⟨R', hrun, rfl, ?_⟩, by simpa using hF.len, ?_, ?_⟩
    · intro a b
      rw [g5, hR3]
      unfold DeclEdge
      simp only [List.mem_append, List.mem_singleton]
      constructor
      · rintro (⟨t', h5, h6⟩ | ⟨h5, rfl⟩)
        · exact ⟨t', Or.inl h5, h6⟩
        · exact ⟨t, Or.inr rfl, rfl, h5⟩
      · rintro ⟨t', h5 | rfl, h6, h7⟩
        · exact Or.inl ⟨t', h5, h6, h7⟩
        · exact Or.inr ⟨h7, h6.symm⟩
    · intro i hi hn
      rw [List.map_append, List.mem_append] at hn
      push Not at hn
      show (F.stats.set t.node st)[i]? = _
      rw [List.getElem?_set, if_neg (by rintro rfl; exact hn.2 (by simp))]
      exact hF.new i hi hn.1
    · intro t' ht'
      show ∃ st', (F.stats.set t.node st)[t'.node]? = some st' ∧ _
      rcases List.mem_append.1 ht' with h5 | h5
      · rw [List.getElem?_set, if_neg (by rintro h; exact hnot (h ▸ List.mem_map_of_mem h5))]
        exact hF.stats t' h5
      · rw [List.mem_singleton.1 h5]
        refine ⟨st, ?_, a2⟩
        rw [List.getElem?_set, if_pos rfl, if_pos (by rw [hF.len]; exact htn)]

theorem xmlLoop {stod : Str → Except Fault K} {toCount : K → Int} {vs : List VarDecl} {ts : List (TableDecl K)} (h : GoodDescription vs ts)
    {doc : XmlDoc} (hd : XmlDescribes stod doc vs ts) {F : NetFile} (hF : XmlInv vs toCount [] F) :
    ∃ F', doc.probs.foldlM (xmlProbability stod toCount) F = .ok F' ∧ XmlInv vs toCount ts F' := by
  have key : ∀ (rest : List (TableDecl K)) (probs : List XmlProb) (done : List (TableDecl K)) (F : NetFile), ts = done ++ rest →
      List.Forall₂ (fun (t : TableDecl K) (p : XmlProb) => p.node = (vs[t.node]?).map VarDecl.name ∧
        p.givens = t.given.map (fun g => (vs[g]?).map VarDecl.name) ∧ ∃ text, p.table = some text ∧ ListsNumbers stod text t.entries) rest probs →
      XmlInv vs toCount done F → ∃ F', probs.foldlM (xmlProbability stod toCount) F = .ok F' ∧ XmlInv vs toCount ts F' := by
    intro rest
    induction rest with
    | nil =>
      intro probs done F e h2 hF
      cases h2
      exact ⟨F, rfl, by rw [e, List.append_nil]; exact hF⟩
    | cons t rest ih =>
      intro probs done F e h2 hF
      cases h2 with
      | cons hp hps =>
        obtain ⟨a1, a2, text, a3, a4⟩ := hp
        obtain ⟨F1, b1, b2⟩ := xmlProbability_step h e hF a1 a2 a3 a4
        obtain ⟨F2, c1, c2⟩ := ih _ (done ++ [t]) F1 (by simpa using e) hps b2
        exact ⟨F2, by rw [List.foldlM_cons, b1, ok_bind]; exact c1, c2⟩
  exact key ts doc.probs [] F rfl hd.probs hF

end FastPGM
