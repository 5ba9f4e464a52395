import Verif.Lemmas.XmlNetwork
import Verif.Props.Joint
import Verif.Props.Sampler

/-!
C64: loading a network from an XMLBIF file.

For every description of a Bayesian network (variables with their values, tables) and every document that says it, the loader delivers
the network with exactly these edges, the value codes in the order of the file, and the conditional tables of the file up to the
smoothing constant; the answers of the junction tree on it are the posteriors of these tables.
-/

namespace FastPGM

open Spec

variable {K : Type}

/-! ### The loaded network -/

theorem mem_childEdges {N : Net} {e : Edge} : e ∈ childEdges N ↔ ∃ p c, c ∈ N.ch p ∧ e = mkDirected p c := by
  unfold childEdges Net.ch
  simp only [List.mem_flatMap, List.mem_map, Prod.exists, List.mem_zipIdx_iff_getElem?]
  constructor
  · rintro ⟨s, i, hs, c, hc, rfl⟩
    exact ⟨i, c, by simpa [hs] using hc, rfl⟩
  · rintro ⟨p, c, hc, rfl⟩
    cases hs : N.nodes[p]? with
    | none => simp [hs] at hc
    | some s => exact ⟨s, p, hs, c, by simpa [hs] using hc, rfl⟩

theorem childEdges_nodup {N : Net} (h : NetWF N) : (childEdges N).Nodup := by
  unfold childEdges
  rw [List.nodup_flatMap]
  constructor
  · rintro ⟨s, i⟩ hx
    rw [List.mem_zipIdx_iff_getElem?] at hx
    have hs : N.nodes[i]? = some s := hx
    have h2 : s.children.Pairwise (· < ·) := by
      have := h.ch_sorted i
      simpa [Net.ch, hs] using this
    refine List.Nodup.map (fun a b hab => ?_) (h2.imp (fun hab => Nat.ne_of_lt hab))
    exact congrArg Edge.node2 hab
  · refine List.Pairwise.imp_of_mem (R := fun x y => x.2 ≠ y.2) ?_ ?_
    · rintro ⟨s, i⟩ ⟨s', j⟩ _ _ hij
      show List.Disjoint (s.children.map _) (s'.children.map _)
      intro e he he'
      obtain ⟨c, _, rfl⟩ := List.mem_map.1 he
      obtain ⟨c', _, h'⟩ := List.mem_map.1 he'
      exact hij (congrArg Edge.node1 h').symm
    · have : (N.nodes.zipIdx.map Prod.snd).Nodup := by
        rw [List.zipIdx_map_snd]
        exact List.nodup_range'
      exact List.pairwise_map.1 this

theorem emptyXmlInv {vs : List VarDecl} (toCount : K → Int) :
    XmlInv vs toCount [] { net := Net.empty (vs.map (fun v => v.values.length)), names := vs.map VarDecl.name,
                           valueIds := vs.map (fun v => numbered v.values), stats := vs.map (fun _ => NodeStats.new) } := by
  refine ⟨rfl, rfl, ⟨Net.empty (vs.map (fun v => v.values.length)), rfl, rfl, ?_⟩, by simp, ?_, by simp⟩
  · intro a b
    constructor
    · intro h
      exfalso
      unfold Net.ch Net.empty at h
      simp only [List.getElem?_map] at h
      cases h2 : vs[a]? <;> simp [h2] at h
    · rintro ⟨t, ht, _⟩
      cases ht
  · intro i hi _
    simp [hi]

/-- What the loader leaves behind. -/
theorem xml_load {stod : Str → Except Fault K} (toCount : K → Int) {vs : List VarDecl} {ts : List (TableDecl K)} (h : GoodDescription vs ts)
    {doc : XmlDoc} (hd : XmlDescribes stod doc vs ts) :
    ∃ F G nm, doc.name = some nm ∧ loadXMLBIF stod toCount doc = .ok F ∧ XmlInv vs toCount ts G ∧
      F = { G with net := { G.net with edges := childEdges G.net }, numEdges := (childEdges G.net).length, netName := nm } := by
  obtain ⟨G, hG, hI⟩ := xmlLoop h hd (emptyXmlInv toCount)
  obtain ⟨nm, hnm⟩ := Option.ne_none_iff_exists'.1 hd.name
  refine ⟨_, G, nm, hnm, ?_, hI, rfl⟩
  unfold loadXMLBIF
  have hlen : doc.vars.length = doc.probs.length := by
    rw [hd.vars, List.length_map, ← hd.probs.length_eq]
    have := h.nodes.length_eq
    simpa using this.symm
  rw [if_neg (by simpa using hlen), unconnectedNodes_ok h.values h.nonempty hd.vars, ok_bind, hG, ok_bind, hnm]
  rfl

theorem runAdd_topo {l : List (Nat × Nat)} {N : Net} (h : NetInv N) (hl : ∀ x ∈ l, x.1 < N.nodes.length ∧ x.2 < N.nodes.length) {N' : Net}
    (hr : N.run (l.map (fun x => .addDirected x.1 x.2)) = .ok N') : N'.topo = N.topo := by
  induction l generalizing N with
  | nil => cases hr; rfl
  | cons x l ih =>
    obtain ⟨N1, b, h1, h2, h3, h4, _⟩ := addDirectedEdge_spec h (hl x (by simp)).1 (hl x (by simp)).2
    have : N.apply (.addDirected x.1 x.2) = .ok N1 := by simp [Net.apply, h1, ok_bind, pure_eq_ok]
    unfold Net.run at hr
    rw [List.map_cons, List.foldlM_cons, this, ok_bind] at hr
    rw [← h4]
    exact ih h2 (fun y hy => by rw [h3]; exact hl y (by simp [hy])) hr

theorem decl_dims (vs : List VarDecl) : (fun i => (vs.map (fun v => v.values.length)).getD i 0) = declCard vs := rfl

/-- The network behind the loaded one. -/
theorem xml_net {toCount : K → Int} {vs : List VarDecl} {ts : List (TableDecl K)} (h : GoodDescription vs ts) {G : NetFile}
    (hG : XmlInv vs toCount ts G) :
    ∃ R, (Net.empty (vs.map (fun v => v.values.length))).run (declOps ts) = .ok R ∧ G.net = { R with edges := [] } ∧
      R.nodes.length = vs.length ∧ NetShape (declCard vs) R ∧ NetInv R ∧ (∀ a b, b ∈ R.ch a ↔ DeclEdge ts a b) ∧ R.topo = [] := by
  obtain ⟨R, hR1, hR2, hR3⟩ := hG.net
  have hpos : ∀ d ∈ vs.map (fun v => v.values.length), 0 < d := by
    intro d hd
    obtain ⟨v, hv, rfl⟩ := List.mem_map.1 hd
    exact List.length_pos_iff.2 (h.values v hv).2
  obtain ⟨R0, hR0, hlen, hshape, hinv⟩ := run_shape (declOps_range h (done := ts) (rest := []) (by simp)) hpos
  rw [hR1] at hR0
  cases hR0
  rw [List.length_map] at hlen
  refine ⟨R, hR1, hR2, hlen, hshape, hinv, hR3, ?_⟩
  have e : declOps ts = (ts.flatMap (fun t => t.given.map (fun g => (g, t.node)))).map (fun x => EdgeOp.addDirected x.1 x.2) := by
    simp [declOps, List.map_flatMap, Function.comp_def]
  rw [e] at hR1
  refine runAdd_topo (empty_inv _) ?_ hR1
  intro x hx
  obtain ⟨t, ht, hx⟩ := List.mem_flatMap.1 hx
  obtain ⟨g, hg, rfl⟩ := List.mem_map.1 hx
  simp only [Net.empty, List.length_map]
  exact ⟨(h.given t ht).2 g hg, List.mem_range.1 (h.nodes.mem_iff.1 (List.mem_map_of_mem ht))⟩

/-- C64: the loaded network is the one described. -/
theorem C64_load {stod : Str → Except Fault K} (toCount : K → Int) {vs : List VarDecl} {ts : List (TableDecl K)} (h : GoodDescription vs ts)
    {doc : XmlDoc} (hd : XmlDescribes stod doc vs ts) :
    ∃ F, loadXMLBIF stod toCount doc = .ok F ∧ HoldsNetwork vs ts F ∧ doc.name = some F.netName := by
  obtain ⟨F, G, nm, hnm, hF, hG, rfl⟩ := xml_load toCount h hd
  refine ⟨_, hF, ?_, hnm⟩
  obtain ⟨R, _, hR, hlen, hshape, hinv, hch, htopo⟩ := xml_net h hG
  rw [hR]
  refine ⟨hG.names, hG.values, hlen, fun i s hs => (hshape.dim i s hs).1, ?_, ?_, ⟨childEdges_nodup ⟨hinv.wf.ch_sorted, hinv.wf.pa_sorted, hinv.wf.ch_lt, hinv.wf.sym⟩, ?_⟩, rfl, htopo⟩
  · intro p c
    rw [parentOf_iff, ← hch, hinv.wf.sym]
    rfl
  · intro p c
    rw [childOf_iff, ← hch]
    rfl
  · intro e
    rw [mem_childEdges]
    simp only [← hch]
    rfl

/-! ### The tables -/

theorem mapM_length {α β : Type} {f : α → Except Fault β} {l : List α} {r : List β} (h : l.mapM f = .ok r) : r.length = l.length := by
  induction l generalizing r with
  | nil => cases h; rfl
  | cons x l ih =>
    rw [List.mapM_cons] at h
    obtain ⟨y, _, h⟩ := bind_eq_ok h
    obtain ⟨ys, h1, h⟩ := bind_eq_ok h
    cases h
    simp [ih h1]

theorem lookup_of_mem {u : Config} (hnd : (u.map Prod.fst).Nodup) {v x : Nat} (h : (v, x) ∈ u) : u.lookup v = some x := by
  induction u with
  | nil => cases h
  | cons y u ih =>
    obtain ⟨w, z⟩ := y
    rw [List.map_cons, List.nodup_cons] at hnd
    rcases List.mem_cons.1 h with e | h'
    · cases e
      simp [List.lookup]
    · have : v ≠ w := by
        intro e
        subst e
        exact hnd.1 (List.mem_map.2 ⟨_, h', rfl⟩)
      rw [List.lookup, beq_eq_false_iff_ne.2 this]
      exact ih hnd.2 h'

theorem configOf_lookup {u : Config} (hnd : (u.map Prod.fst).Nodup) : configOf (fun v => (u.lookup v).getD 0) (u.map Prod.fst) = u := by
  unfold configOf
  rw [List.map_map]
  refine (List.map_congr_left (g := id) ?_).trans (List.map_id _)
  rintro ⟨v, x⟩ hx
  simp [lookup_of_mem hnd hx]

/-- The counts of the loaded statistics are the numbers of the file. -/
theorem StatsFor.count {card : Nat → Nat} {toCount : K → Int} {t : TableDecl K} {st : NodeStats} (h : StatsFor card toCount t st) {ps : List Nat}
    (hps : ps.Pairwise (· < ·)) (hm : ∀ v, v ∈ ps ↔ v ∈ t.given) {a : Assignment} (ha : InRange card (t.node :: t.given) a) :
    st.stat (a t.node) (configOf a ps) = declCount toCount card t a := by
  obtain ⟨e, h1, h2⟩ := h.stat ps hps hm a ha
  rw [declCount, h1, h2]
  rfl

theorem declCount_nonneg {toCount : K → Int} {t : TableDecl K} (h : ∀ e ∈ t.entries, 0 ≤ toCount e) (card : Nat → Nat) (a : Assignment) :
    0 ≤ declCount toCount card t a := by
  unfold declCount
  cases he : t.entries[tablePosition card t.node t.given a]? with
  | none => simp
  | some e => simpa using h e (List.mem_of_getElem? he)

theorem inRange_set {card : Nat → Nat} {v : Nat} {ps : List Nat} {a : Assignment} (h : InRange card (v :: ps) a) {x : Nat} (hx : x < card v) :
    InRange card (v :: ps) (a.set v x) := by
  intro p hp
  by_cases e : p = v
  · subst e; simpa [Assignment.set] using hx
  · simpa [Assignment.set, e] using h p hp

section

variable [Field K] [LinearOrder K] [IsStrictOrderedRing K]

theorem fileEntry_pos {toCount : K → Int} {t : TableDecl K} (h : ∀ e ∈ t.entries, 0 ≤ toCount e) {card : Nat → Nat} (hc : 0 < card t.node)
    (a : Assignment) : 0 < fileEntry toCount card t a := by
  have h1 : ∀ a, (0 : K) ≤ (declCount toCount card t a : K) := fun a => by exact_mod_cast declCount_nonneg h card a
  have h2 : (0 : K) < (card t.node : K) := by exact_mod_cast hc
  refine div_pos (by linarith [h1 a]) ?_
  have := Finset.sum_nonneg (s := Finset.range (card t.node)) (fun x _ => h1 (a.set t.node x))
  linarith

theorem fileEntry_sum {toCount : K → Int} {t : TableDecl K} (h : ∀ e ∈ t.entries, 0 ≤ toCount e) {card : Nat → Nat} (hc : 0 < card t.node)
    (a : Assignment) : ∑ x ∈ Finset.range (card t.node), fileEntry toCount card t (a.set t.node x) = 1 := by
  have h1 : ∀ a, (0 : K) ≤ (declCount toCount card t a : K) := fun a => by exact_mod_cast declCount_nonneg h card a
  have h2 : (0 : K) < (card t.node : K) := by exact_mod_cast hc
  have h3 := Finset.sum_nonneg (s := Finset.range (card t.node)) (fun x _ => h1 (a.set t.node x))
  have e : ∀ x y, (a.set t.node x).set t.node y = a.set t.node y := by
    intro x y
    funext v
    by_cases hv : v = t.node <;> simp [Assignment.set, hv]
  unfold fileEntry
  simp only [e]
  rw [← Finset.sum_div, Finset.sum_add_distrib, Finset.sum_const, Finset.card_range, nsmul_eq_mul, mul_one, div_self (by linarith)]

theorem xml_prob {toCount : K → Int} {vs : List VarDecl} {ts : List (TableDecl K)} (h : GoodDescription vs ts) {G : NetFile}
    (hG : XmlInv vs toCount ts G) (hnn : ∀ t ∈ ts, ∀ e ∈ t.entries, 0 ≤ toCount e) {t : TableDecl K} (ht : t ∈ ts) {a : Assignment}
    (ha : InRange (declCard vs) (t.node :: t.given) a) :
    G.prob t.node (a t.node) (configOf a (G.net.pa t.node)) = .ok (fileEntry toCount (declCard vs) t a) := by
  obtain ⟨R, _, hR, hlen, hshape, hinv, hch, _⟩ := xml_net h hG
  obtain ⟨st, hst, hs⟩ := hG.stats t ht
  have htn : t.node < R.nodes.length := by rw [hlen]; exact List.mem_range.1 (h.nodes.mem_iff.1 (List.mem_map_of_mem ht))
  have hps : (R.pa t.node).Pairwise (· < ·) := hinv.wf.pa_sorted _
  have hm : ∀ v, v ∈ R.pa t.node ↔ v ∈ t.given := by
    intro v
    rw [← hinv.wf.sym, hch]
    constructor
    · rintro ⟨t', ht', e, hv⟩
      have : t' = t := List.inj_on_of_nodup_map (h.nodes.nodup_iff.2 List.nodup_range) ht' ht e
      exact this ▸ hv
    · intro hv
      exact ⟨t, ht, rfl, hv⟩
  have hng : t.node ∉ R.pa t.node := fun hm' => h.acyclic ⟨t.node, Relation.TransGen.single ⟨t, ht, rfl, (hm _).1 hm'⟩⟩
  have hc := (hshape.dim t.node _ (List.getElem?_eq_getElem htn))
  unfold NetFile.prob
  rw [hR]
  show (do let s ← (({ R with edges := [] } : Net)).find t.node; let t' ← rd G.stats t.node; t'.getProbability s (1 : K) (a t.node) (configOf a (R.pa t.node))) = _
  rw [find_ok (N := ({ R with edges := [] } : Net)) htn, ok_bind, rd_ok hst, ok_bind]
  have htot : ((st.total (configOf a (R.pa t.node)) : Int) : K) =
      ∑ x ∈ Finset.range (declCard vs t.node), (declCount toCount (declCard vs) t (a.set t.node x) : K) := by
    rw [hs.total, Int.cast_sum]
    refine Finset.sum_congr rfl (fun x hx => ?_)
    rw [Finset.mem_range] at hx
    have := hs.count hps hm (inRange_set ha hx)
    rw [configOf_set hng] at this
    rw [← this]
    simp [Assignment.set]
  have h1 : ∀ a, (0 : K) ≤ (declCount toCount (declCard vs) t a : K) := fun a => by exact_mod_cast declCount_nonneg (hnn t ht) _ a
  have h2 : (0 : K) < (declCard vs t.node : K) := by exact_mod_cast hc.2
  have h3 := Finset.sum_nonneg (s := Finset.range (declCard vs t.node)) (fun x _ => h1 (a.set t.node x))
  unfold NodeStats.getProbability
  simp only [htot, hs.count hps hm ha, hc.1, one_mul]
  rw [if_neg (by linarith)]
  rfl

theorem xml_tables {toCount : K → Int} {vs : List VarDecl} {ts : List (TableDecl K)} (h : GoodDescription vs ts) {G : NetFile}
    (hG : XmlInv vs toCount ts G) (hnn : ∀ t ∈ ts, ∀ e ∈ t.entries, 0 ≤ toCount e) :
    ∃ pts : List (Table K), sampleTables G.net G.prob = .ok pts ∧ pts.length = vs.length ∧
      ∀ t ∈ ts, ∃ T, pts[t.node]? = some T ∧ WellFormed (declCard vs) T ∧ T.vars = t.node :: G.net.pa t.node ∧
        ∀ a, InRange (declCard vs) (t.node :: t.given) a → value T a = fileEntry toCount (declCard vs) t a := by
  obtain ⟨R, _, hR, hlen, hshape, hinv, hch, _⟩ := xml_net h hG
  have hsh : NetShape (declCard vs) G.net := by rw [hR]; exact ⟨hshape.dim, hshape.parents⟩
  have hl : G.net.nodes.length = vs.length := by rw [hR]; exact hlen
  have hpa : ∀ t ∈ ts, ∀ v, v ∈ G.net.pa t.node ↔ v ∈ t.given := by
    intro t ht v
    rw [hR]
    show v ∈ R.pa t.node ↔ _
    rw [← hinv.wf.sym, hch]
    constructor
    · rintro ⟨t', ht', e, hv⟩
      have : t' = t := List.inj_on_of_nodup_map (h.nodes.nodup_iff.2 List.nodup_range) ht' ht e
      exact this ▸ hv
    · intro hv
      exact ⟨t, ht, rfl, hv⟩
  have hin : ∀ t ∈ ts, ∀ a, InRange (declCard vs) (t.node :: G.net.pa t.node) a ↔ InRange (declCard vs) (t.node :: t.given) a := by
    intro t ht a
    simp only [InRange, List.mem_cons, hpa t ht]
  obtain ⟨pts, h1, h2, h3⟩ := sampleTables_ok (K := K) hsh (prob := G.prob) (by
    intro v node hv u hu
    have hvl : v < vs.length := by rw [← hl]; exact (List.getElem?_eq_some_iff.1 hv).1
    obtain ⟨t, ht, rfl⟩ := List.mem_map.1 (h.nodes.mem_iff.2 (List.mem_range.2 hvl))
    have hpn : G.net.pa t.node = node.parents := by simp [Net.pa, hv]
    have hnp := (hsh.parents _ _ hv)
    obtain ⟨hu1, hu2⟩ := hu
    have hund : (u.map Prod.fst).Nodup := by rw [hu1]; exact hnp.1.imp (fun hab => Nat.ne_of_lt hab)
    have key : ∀ x < declCard vs t.node, ∃ p : K, G.prob t.node x u = .ok p ∧ 0 < p := by
      intro x hx
      have hr : InRange (declCard vs) (t.node :: t.given) (Assignment.set (fun v => (u.lookup v).getD 0) t.node x) := by
        rw [← hin t ht]
        intro p hp
        by_cases e : p = t.node
        · subst e; simpa [Assignment.set] using hx
        · simp only [Assignment.set, e, if_false]
          rcases List.mem_cons.1 hp with e' | hp
          · exact absurd e' e
          · rw [hpn, ← hu1] at hp
            obtain ⟨⟨w, y⟩, hy, rfl⟩ := List.mem_map.1 hp
            rw [lookup_of_mem hund hy]
            exact hu2 _ hy
      have := xml_prob h hG hnn ht hr
      rw [configOf_set (by rw [hpn]; exact hnp.2.2), hpn, ← hu1, configOf_lookup hund] at this
      refine ⟨_, ?_, fileEntry_pos (hnn t ht) (hsh.dim _ _ hv).2 (Assignment.set (fun v => (u.lookup v).getD 0) t.node x)⟩
      simpa [Assignment.set] using this
    refine ⟨fun x hx => ?_, 0, (hsh.dim _ _ hv).2, key 0 (hsh.dim _ _ hv).2⟩
    obtain ⟨p, hp, hp0⟩ := key x hx
    exact ⟨p, hp, hp0.le⟩)
  have hplen : pts.length = vs.length := by
    rw [← hl]
    simpa using mapM_length h1
  refine ⟨pts, h1, hplen, ?_⟩
  intro t ht
  have htn : t.node < G.net.nodes.length := by rw [hl]; exact List.mem_range.1 (h.nodes.mem_iff.1 (List.mem_map_of_mem ht))
  obtain ⟨T, hT, hwf, hvars, _⟩ := h2.get t.node htn
  refine ⟨T, hT, hwf, hvars, ?_⟩
  intro a ha
  have e1 := h3 t.node T hT a ((hin t ht a).2 ha)
  rw [xml_prob h hG hnn ht ha] at e1
  exact (Except.ok.inj e1).symm

/-- The tables of a network that differs from `G` in the edge list only. -/
theorem loaded_tables {toCount : K → Int} {vs : List VarDecl} {ts : List (TableDecl K)} (h : GoodDescription vs ts) {G : NetFile}
    (hG : XmlInv vs toCount ts G) (hnn : ∀ t ∈ ts, ∀ e ∈ t.entries, 0 ≤ toCount e) (es : List Edge) (k : Nat) (nm : Str) {F : NetFile}
    (hF : F = { G with net := { G.net with edges := es }, numEdges := k, netName := nm }) :
    ∃ pts : List (Table K), sampleTables F.net F.prob = .ok pts ∧ NodeTables (declCard vs) F.net pts ∧ ConditionalTables (declCard vs) pts ∧
      (∀ T ∈ pts, ∀ x ∈ T.pot, 0 < x) ∧
      ∀ t ∈ ts, ∃ T, pts[t.node]? = some T ∧ T.vars = t.node :: F.net.pa t.node ∧
        ∀ a, InRange (declCard vs) (t.node :: t.given) a → value T a = fileEntry toCount (declCard vs) t a := by
  subst hF
  obtain ⟨R, _, hR, hlen, hshape, hinv, hch, _⟩ := xml_net h hG
  obtain ⟨pts, h1, h2, h3⟩ := xml_tables h hG hnn
  have hex : ∀ (i : Nat) T, pts[i]? = some T → ∃ t ∈ ts, t.node = i ∧ WellFormed (declCard vs) T ∧ T.vars = t.node :: G.net.pa t.node ∧
        ∀ a, InRange (declCard vs) (t.node :: t.given) a → value T a = fileEntry toCount (declCard vs) t a := by
    intro i T hT
    have hi : i < vs.length := by rw [← h2]; exact (List.getElem?_eq_some_iff.1 hT).1
    obtain ⟨t, ht, rfl⟩ := List.mem_map.1 (h.nodes.mem_iff.2 (List.mem_range.2 hi))
    obtain ⟨T', hT', h'⟩ := h3 t ht
    rw [hT] at hT'
    cases hT'
    exact ⟨t, ht, rfl, h'⟩
  have hpa : ∀ i v, v ∈ G.net.pa i ↔ DeclEdge ts v i := by
    intro i v
    rw [hR]
    show v ∈ R.pa i ↔ _
    rw [← hinv.wf.sym, hch]
  have hgiven : ∀ t ∈ ts, ∀ v, v ∈ G.net.pa t.node ↔ v ∈ t.given := by
    intro t ht v
    rw [hpa]
    constructor
    · rintro ⟨t', ht', e, hv⟩
      have : t' = t := List.inj_on_of_nodup_map (h.nodes.nodup_iff.2 List.nodup_range) ht' ht e
      exact this ▸ hv
    · intro hv
      exact ⟨t, ht, rfl, hv⟩
  have hcard : ∀ t ∈ ts, 0 < declCard vs t.node := by
    intro t ht
    have : t.node < R.nodes.length := by rw [hlen]; exact List.mem_range.1 (h.nodes.mem_iff.1 (List.mem_map_of_mem ht))
    exact (hshape.dim _ _ (List.getElem?_eq_getElem this)).2
  refine ⟨pts, h1, ⟨?_, ?_, ?_⟩, ?_, ?_, ?_⟩
  · rw [h2]
    show vs.length = G.net.nodes.length
    rw [hR, ← hlen]
  · intro T hT
    obtain ⟨i, hi⟩ := List.getElem?_of_mem hT
    obtain ⟨t, _, _, hw, _⟩ := hex i T hi
    exact hw
  · intro i T hT v
    obtain ⟨t, ht, rfl, _, hv, _⟩ := hex i T hT
    rw [hv, List.mem_cons, parentOf_iff]
    rfl
  · intro i T hT a ha
    obtain ⟨t, ht, rfl, _, hv, he⟩ := hex i T hT
    rw [← fileEntry_sum (K := K) (hnn t ht) (hcard t ht) a]
    refine Finset.sum_congr rfl (fun x hx => he _ (inRange_set ?_ (Finset.mem_range.1 hx)))
    rw [hv] at ha
    intro p hp
    refine ha p ?_
    rw [List.mem_cons, hgiven t ht]
    exact List.mem_cons.1 hp
  · intro T hT x hx
    obtain ⟨i, hi⟩ := List.getElem?_of_mem hT
    obtain ⟨t, ht, rfl, hw, hv, he⟩ := hex i T hi
    refine entries_of_values (P := fun x => 0 < x) hw (fun a ha => ?_) x hx
    rw [he a]
    · exact fileEntry_pos (hnn t ht) (hcard t ht) a
    · rw [hv] at ha
      intro p hp
      refine ha p ?_
      rw [List.mem_cons, hgiven t ht]
      exact List.mem_cons.1 hp
  · intro t ht
    obtain ⟨T, hT, _, hv, he⟩ := h3 t ht
    exact ⟨T, hT, hv, he⟩

/-- C64: the conditional tables of the loaded network.  Every table is over the node and its parents, has the numbers of the file (as
counts, smoothed by the constant 1), all positive, and is a conditional distribution. -/
theorem C64_tables {stod : Str → Except Fault K} {toCount : K → Int} {vs : List VarDecl} {ts : List (TableDecl K)} (h : GoodDescription vs ts)
    {doc : XmlDoc} (hd : XmlDescribes stod doc vs ts) (hnn : ∀ t ∈ ts, ∀ e ∈ t.entries, 0 ≤ toCount e) {F : NetFile}
    (hF : loadXMLBIF stod toCount doc = .ok F) :
    ∃ pts : List (Table K), sampleTables F.net F.prob = .ok pts ∧ NodeTables (declCard vs) F.net pts ∧ ConditionalTables (declCard vs) pts ∧
      (∀ T ∈ pts, ∀ x ∈ T.pot, 0 < x) ∧
      ∀ t ∈ ts, ∃ T, pts[t.node]? = some T ∧ T.vars = t.node :: F.net.pa t.node ∧
        ∀ a, InRange (declCard vs) (t.node :: t.given) a → value T a = fileEntry toCount (declCard vs) t a := by
  obtain ⟨F', G, nm, hnm, hF', hG, e⟩ := xml_load toCount h hd
  rw [hF] at hF'
  cases hF'
  exact loaded_tables h hG hnn _ _ _ e

omit [LinearOrder K] [IsStrictOrderedRing K] in
theorem weight_congr {card : Nat → Nat} {n : Nat} {p p' : Assignment → K} (hc : ∀ i < n, 0 < card i)
    (h : ∀ a, InRange card (List.range n) a → p a = p' a) (event : Assignment → Prop) [DecidablePred event] :
    weight card n p event = weight card n p' event := by
  unfold weight
  refine sumOut_congr_range (V := List.range n) ?_ (fun v hv => hc v (List.mem_range.1 hv))
  intro a ha
  rw [h a ha]

/-- What is common to all uses of a loaded network: it is built by edge operations, has tables, and their product is that of the file. -/
theorem loaded_core {toCount : K → Int} {vs : List VarDecl} {ts : List (TableDecl K)} (h : GoodDescription vs ts) {G : NetFile}
    (hG : XmlInv vs toCount ts G) (hnn : ∀ t ∈ ts, ∀ e ∈ t.entries, 0 ≤ toCount e) (es : List Edge) (k : Nat) (nm : Str) {F : NetFile}
    (hF : F = { G with net := { G.net with edges := es }, numEdges := k, netName := nm })
    (hconn : ∀ i j, i < vs.length → j < vs.length → Relation.ReflTransGen (fun p c => DeclEdge ts p c ∨ DeclEdge ts c p) i j) :
    ∃ (ops : List EdgeOp) (R : Net) (pts : List (Table K)), (∀ op ∈ ops, OpInRange (vs.map (fun v => v.values.length)).length op) ∧
      (Net.empty (vs.map (fun v => v.values.length))).run ops = .ok R ∧ WeaklyConnected R ∧ sampleTables F.net F.prob = .ok pts ∧
      NodeTables (declCard vs) R pts ∧ ConditionalTables (declCard vs) pts ∧ (∀ T ∈ pts, ∀ x ∈ T.pot, 0 < x) ∧ (∀ i < vs.length, 0 < declCard vs i) ∧
      (∀ a, InRange (declCard vs) (List.range vs.length) a → joint pts a = (ts.map (fun t => fileEntry toCount (declCard vs) t a)).prod) ∧
      (∀ (E : List (Nat × Nat)), (E.map Prod.fst).Nodup → (∀ e ∈ E, e.1 < vs.length ∧ e.2 < declCard vs e.1) →
        weight (declCard vs) vs.length (joint pts) (Agrees E) ≠ 0) ∧
      ∀ order cord, buildJunctionTree F.net (declCard vs) pts order cord = buildJunctionTree R (declCard vs) pts order cord := by
  obtain ⟨pts, h1, h2, h3, h4, h5⟩ := loaded_tables h hG hnn es k nm hF
  subst hF
  obtain ⟨R, hrun, hR, hlen, hshape, hinv, hch, _⟩ := xml_net h hG
  have hnodes : G.net.nodes = R.nodes := by rw [hR]
  have hpar : ∀ p c, ParentOf R p c ↔ DeclEdge ts p c := by
    intro p c
    rw [parentOf_iff, ← hinv.wf.sym, hch]
  have hpts : NodeTables (declCard vs) R pts := by
    refine ⟨by rw [h2.length]; exact congrArg List.length hnodes, h2.wf, ?_⟩
    intro i T hT v
    rw [h2.vars i T hT v]
    show _ ∨ (∃ s, G.net.nodes[i]? = some s ∧ _) ↔ _
    rw [hnodes]
    rfl
  have hcard : ∀ i < vs.length, 0 < declCard vs i := by
    intro i hi
    rw [← hlen] at hi
    exact (hshape.dim _ _ (List.getElem?_eq_getElem hi)).2
  have hjoint : ∀ a, InRange (declCard vs) (List.range vs.length) a →
      joint pts a = (ts.map (fun t => fileEntry toCount (declCard vs) t a)).prod := by
    intro a ha
    have hsub : ∀ t ∈ ts, InRange (declCard vs) (t.node :: t.given) a := by
      intro t ht v hv
      refine ha v (List.mem_range.2 ?_)
      rcases List.mem_cons.1 hv with rfl | hv
      · exact List.mem_range.1 (h.nodes.mem_iff.1 (List.mem_map_of_mem ht))
      · exact (h.given t ht).2 v hv
    have e1 : (ts.map (fun t => fileEntry toCount (declCard vs) t a)) =
        ((ts.map TableDecl.node).map (fun i => ((pts[i]?).map (fun T => value T a)).getD 0)) := by
      rw [List.map_map]
      refine List.map_congr_left (fun t ht => ?_)
      obtain ⟨T, hT, _, he⟩ := h5 t ht
      simp [hT, he a (hsub t ht)]
    rw [e1, (h.nodes.map _).prod_eq]
    have hl : pts.length = vs.length := by rw [hpts.length, hlen]
    unfold joint
    congr 1
    refine List.ext_getElem? (fun i => ?_)
    rw [List.getElem?_map, List.getElem?_map]
    by_cases hi : i < vs.length
    · rw [List.getElem?_eq_getElem (by rw [hl]; exact hi), List.getElem?_range hi]
      simp [hl, hi]
    · rw [List.getElem?_eq_none (by omega), List.getElem?_eq_none (by simpa using hi)]
      rfl
  have hw : WeaklyConnected R := by
    intro i j hi hj
    rw [hlen] at hi hj
    refine Relation.ReflTransGen.mono (fun p c hpc => ?_) _ _ (hconn i j hi hj)
    simpa only [Linked, hpar] using hpc
  have hops := declOps_range h (done := ts) (rest := []) (by simp)
  refine ⟨declOps ts, R, pts, hops, hrun, hw, h1, hpts, h3, h4, hcard, hjoint, fun E hEn hE => ?_, fun order cord => ?_⟩
  · refine weight_ne_zero (fun a => ?_) (fun a ha => ?_) hcard hEn hE
    · refine List.prod_nonneg (fun x hx => ?_)
      obtain ⟨T, hT, rfl⟩ := List.mem_map.1 hx
      exact value_nonneg (fun y hy => (h4 T hT y hy).le) a
    · rw [hjoint a ha]
      refine List.prod_pos ?_
      intro x hx
      obtain ⟨t, ht, rfl⟩ := List.mem_map.1 hx
      exact fileEntry_pos (hnn t ht) (hcard _ (List.mem_range.1 (h.nodes.mem_iff.1 (List.mem_map_of_mem ht)))) a
  · have : ({ G.net with edges := es } : Net) = { R with edges := es } := by rw [hR]
    show buildJunctionTree ({ G.net with edges := es } : Net) _ _ _ _ = _
    rw [this]
    rfl

theorem loaded_inference {toCount : K → Int} {vs : List VarDecl} {ts : List (TableDecl K)} (h : GoodDescription vs ts) {G : NetFile}
    (hG : XmlInv vs toCount ts G) (hnn : ∀ t ∈ ts, ∀ e ∈ t.entries, 0 ≤ toCount e) (es : List Edge) (k : Nat) (nm : Str) {F : NetFile}
    (hF : F = { G with net := { G.net with edges := es }, numEdges := k, netName := nm })
    (hconn : ∀ i j, i < vs.length → j < vs.length → Relation.ReflTransGen (fun p c => DeclEdge ts p c ∨ DeclEdge ts c p) i j)
    {order : List (Nat × Nat) → List (Nat × Nat)} {cord : Nat → List Nat} (horder : ∀ l, (order l).Perm l)
    (hcord : ∀ m, (cord m).Perm (List.range m)) {E : List (Nat × Nat)} (hEn : (E.map Prod.fst).Nodup)
    (hE : ∀ e ∈ E, e.1 < vs.length ∧ e.2 < declCard vs e.1) {q : Nat} (hq : q < vs.length) (hqE : q ∉ E.map Prod.fst) :
    ∃ pts J T, sampleTables F.net F.prob = .ok pts ∧ buildJunctionTree F.net (declCard vs) pts order cord = .ok J ∧
      J.marginal E q = .ok (T, J) ∧ T.pot.length = declCard vs q ∧
      (∀ x < declCard vs q, T.pot[x]? = some (posterior (declCard vs) vs.length
        (fun a => (ts.map (fun t => fileEntry toCount (declCard vs) t a)).prod) E q x)) ∧
      weight (declCard vs) vs.length (fun a => (ts.map (fun t => fileEntry toCount (declCard vs) t a)).prod) (fun _ => True) = 1 := by
  obtain ⟨ops, R, pts, hops, hrun, hw, h1, hpts, h3, h4, hcard, hjoint, hpos, hbuild⟩ := loaded_core h hG hnn es k nm hF hconn
  have hl : (vs.map (fun v => v.values.length)).length = vs.length := List.length_map _
  obtain ⟨J, T, b1, b2, _, b3, b4⟩ := C42_posterior (card := declCard vs) hops hrun (by simpa using h.nonempty) hw horder hcord hpts
    (fun T hT x hx => (h4 T hT x hx).le) hEn (by rw [hl]; exact fun e he => (hE e he).1) (by rw [hl]; exact hpos E hEn hE) (q := q) (by rw [hl]; exact hq) hqE
  refine ⟨pts, J, T, h1, ?_, b2, b3, ?_, ?_⟩
  · rw [hbuild, b1]
  · intro x hx
    rw [b4 x hx, hl]
    unfold posterior
    rw [weight_congr hcard hjoint, weight_congr hcard hjoint]
  · rw [← weight_congr hcard hjoint, ← hl]
    exact C63_total hops hrun hpts h3

/-- C64: inference on a loaded network.  If the described graph is connected, the junction tree built from the loaded network answers every
query, for every evidence of the description's variables, with the posterior of the joint distribution that the tables of the file
define; this joint distribution sums to 1. -/
theorem C64_inference {stod : Str → Except Fault K} {toCount : K → Int} {vs : List VarDecl} {ts : List (TableDecl K)} (h : GoodDescription vs ts)
    {doc : XmlDoc} (hd : XmlDescribes stod doc vs ts) (hnn : ∀ t ∈ ts, ∀ e ∈ t.entries, 0 ≤ toCount e) {F : NetFile}
    (hF : loadXMLBIF stod toCount doc = .ok F)
    (hconn : ∀ i j, i < vs.length → j < vs.length → Relation.ReflTransGen (fun p c => DeclEdge ts p c ∨ DeclEdge ts c p) i j)
    {order : List (Nat × Nat) → List (Nat × Nat)} {cord : Nat → List Nat} (horder : ∀ l, (order l).Perm l)
    (hcord : ∀ m, (cord m).Perm (List.range m)) {E : List (Nat × Nat)} (hEn : (E.map Prod.fst).Nodup)
    (hE : ∀ e ∈ E, e.1 < vs.length ∧ e.2 < declCard vs e.1) {q : Nat} (hq : q < vs.length) (hqE : q ∉ E.map Prod.fst) :
    ∃ pts J T, sampleTables F.net F.prob = .ok pts ∧ buildJunctionTree F.net (declCard vs) pts order cord = .ok J ∧
      J.marginal E q = .ok (T, J) ∧ T.pot.length = declCard vs q ∧
      (∀ x < declCard vs q, T.pot[x]? = some (posterior (declCard vs) vs.length
        (fun a => (ts.map (fun t => fileEntry toCount (declCard vs) t a)).prod) E q x)) ∧
      weight (declCard vs) vs.length (fun a => (ts.map (fun t => fileEntry toCount (declCard vs) t a)).prod) (fun _ => True) = 1 := by
  obtain ⟨F', G, nm, hnm, hF', hG, e⟩ := xml_load toCount h hd
  rw [hF] at hF'
  cases hF'
  exact loaded_inference h hG hnn _ _ _ e hconn horder hcord hEn hE hq hqE

/-- C64: if the file has four digits and the numbers of every column sum to 1, every table entry is (10000 e + 1) / (10000 + number of
values), where e is the number of the file.  In particular a probability 0 of the file is not 0 in the network. -/
theorem C64_four_digits {stod : Str → Except Fault K} {toCount : K → Int} {vs : List VarDecl} {ts : List (TableDecl K)} (h : GoodDescription vs ts)
    {doc : XmlDoc} (hd : XmlDescribes stod doc vs ts) (hexact : ∀ t ∈ ts, ∀ e ∈ t.entries, 0 ≤ e ∧ (toCount e : K) = 10000 * e)
    (hsum : ∀ t ∈ ts, ∀ a, InRange (declCard vs) (t.node :: t.given) a → ∑ x ∈ Finset.range (declCard vs t.node),
      (t.entries.getD (tablePosition (declCard vs) t.node t.given (a.set t.node x)) 0) = 1) {F : NetFile}
    (hF : loadXMLBIF stod toCount doc = .ok F) :
    ∃ pts : List (Table K), sampleTables F.net F.prob = .ok pts ∧
      ∀ t ∈ ts, ∃ T, pts[t.node]? = some T ∧ ∀ a, InRange (declCard vs) (t.node :: t.given) a →
        value T a = (10000 * t.entries.getD (tablePosition (declCard vs) t.node t.given a) 0 + 1) / (10000 + (declCard vs t.node : K)) := by
  have hnn : ∀ t ∈ ts, ∀ e ∈ t.entries, 0 ≤ toCount e := by
    intro t ht e he
    obtain ⟨h1, h2⟩ := hexact t ht e he
    have : (0 : K) ≤ (toCount e : K) := by rw [h2]; linarith
    exact_mod_cast this
  obtain ⟨pts, h1, _, _, _, h5⟩ := C64_tables h hd hnn hF
  refine ⟨pts, h1, fun t ht => ?_⟩
  obtain ⟨T, hT, _, hv⟩ := h5 t ht
  have hcount : ∀ a, (declCount toCount (declCard vs) t a : K) = 10000 * t.entries.getD (tablePosition (declCard vs) t.node t.given a) 0 := by
    intro a
    rw [declCount, List.getD_eq_getElem?_getD]
    cases he : t.entries[tablePosition (declCard vs) t.node t.given a]? with
    | none => simp
    | some e => simpa using (hexact t ht e (List.mem_of_getElem? he)).2
  refine ⟨T, hT, fun a ha => ?_⟩
  rw [hv a ha, fileEntry]
  simp only [hcount]
  rw [← Finset.mul_sum, hsum t ht a ha, mul_one]

end

/-! ### What the loader checks -/

theorem nodeByName_mem {names : List Str} {s : Str} {i : Nat} (h : nodeByName names s = .ok i) : s ∈ names := by
  unfold nodeByName at h
  cases hf : names.findIdx? (fun n => n = s) with
  | none => rw [hf] at h; cases h
  | some j =>
    obtain ⟨hj, h1, _⟩ := List.findIdx?_eq_some_iff_getElem.1 hf
    exact List.mem_iff_getElem.2 ⟨j, hj, by simpa using h1⟩

theorem xmlText_some {t : Option Str} {s : Str} (h : xmlText t = .ok s) : t = some s := by
  cases t <;> cases h
  rfl

theorem mapM_mem {α β : Type} {f : α → Except Fault β} {l : List α} {r : List β} (h : l.mapM f = .ok r) : ∀ x ∈ l, ∃ y, f x = .ok y := by
  induction l generalizing r with
  | nil => simp
  | cons x l ih =>
    rw [List.mapM_cons] at h
    obtain ⟨y, hy, h⟩ := bind_eq_ok h
    obtain ⟨ys, h1, h⟩ := bind_eq_ok h
    intro z hz
    rcases List.mem_cons.1 hz with rfl | hz
    · exact ⟨y, hy⟩
    · exact ih h1 z hz

/-- A `PROBABILITY` element all whose names are names of variables, with a table. -/
def Spec.NamesKnown (names : List Str) (p : XmlProb) : Prop :=
  (∃ s ∈ names, p.node = some s) ∧ (∀ g ∈ p.givens, ∃ s ∈ names, g = some s) ∧ p.table ≠ none

theorem xmlProbability_known {stod : Str → Except Fault K} {toCount : K → Int} {F F' : NetFile} {p : XmlProb}
    (h : xmlProbability stod toCount F p = .ok F') : F'.names = F.names ∧ NamesKnown F.names p := by
  unfold xmlProbability at h
  obtain ⟨s, h1, h⟩ := bind_eq_ok h
  obtain ⟨i, h2, h⟩ := bind_eq_ok h
  obtain ⟨given, h3, h⟩ := bind_eq_ok h
  obtain ⟨net, _, h⟩ := bind_eq_ok h
  obtain ⟨text, h4, h⟩ := bind_eq_ok h
  obtain ⟨tokens, _, h⟩ := bind_eq_ok h
  obtain ⟨entries, _, h⟩ := bind_eq_ok h
  obtain ⟨st, _, h⟩ := bind_eq_ok h
  obtain ⟨t, _, h⟩ := bind_eq_ok h
  cases h
  refine ⟨rfl, ⟨s, nodeByName_mem h2, xmlText_some h1⟩, ?_, by rw [xmlText_some h4]; simp⟩
  intro g hg
  obtain ⟨y, hy⟩ := mapM_mem h3 g hg
  obtain ⟨s', hs', hy⟩ := bind_eq_ok hy
  exact ⟨s', nodeByName_mem hy, xmlText_some hs'⟩

/-- C64: whatever the document says, a load that ends normally has found as many tables as variables, and every name that a table mentions
is the name of a variable. -/
theorem C64_checked {stod : Str → Except Fault K} {toCount : K → Int} {doc : XmlDoc} {F : NetFile}
    (h : loadXMLBIF stod toCount doc = .ok F) :
    doc.vars ≠ [] ∧ doc.vars.length = doc.probs.length ∧ ∀ p ∈ doc.probs, NamesKnown F.names p := by
  unfold loadXMLBIF at h
  by_cases hl : doc.vars.length = doc.probs.length
  · rw [if_neg (by simpa using hl)] at h
    obtain ⟨F0, h1, h⟩ := bind_eq_ok h
    obtain ⟨F1, h2, h⟩ := bind_eq_ok h
    obtain ⟨nm, _, h⟩ := bind_eq_ok h
    cases h
    refine ⟨?_, hl, ?_⟩
    · intro e
      simp [unconnectedNodes, e] at h1
    · have key : ∀ (l : List XmlProb) (F0 F1 : NetFile), l.foldlM (xmlProbability stod toCount) F0 = .ok F1 →
          F1.names = F0.names ∧ ∀ p ∈ l, NamesKnown F0.names p := by
        intro l
        induction l with
        | nil => intro F0 F1 h; cases h; simp
        | cons p l ih =>
          intro F0 F1 h
          rw [List.foldlM_cons] at h
          obtain ⟨F2, h1, h2⟩ := bind_eq_ok h
          obtain ⟨e1, e2⟩ := xmlProbability_known h1
          obtain ⟨e3, e4⟩ := ih F2 F1 h2
          rw [e1] at e3 e4
          refine ⟨e3, fun q hq => ?_⟩
          rcases List.mem_cons.1 hq with rfl | hq
          · exact e2
          · exact e4 q hq
      obtain ⟨e1, e2⟩ := key _ _ _ h2
      show ∀ p ∈ doc.probs, NamesKnown F1.names p
      rw [e1]
      exact e2
  · rw [if_pos (by simpa using hl)] at h
    cases h

/-- C64: a document with different numbers of `VARIABLE` and `PROBABILITY` elements ends the program. -/
theorem C64_count_mismatch_exit (stod : Str → Except Fault K) (toCount : K → Int) {doc : XmlDoc} (h : doc.vars.length ≠ doc.probs.length) :
    loadXMLBIF stod toCount doc = .error .exit := by
  unfold loadXMLBIF
  rw [if_pos h]

/-! ### Concrete cases -/

/-- Digits with one point, as `std::stod` reads them (only used in the examples). -/
def exampleStod (s : Str) : Except Fault ℚ :=
  if s = lit "0.2" then .ok (1 / 5) else if s = lit "0.8" then .ok (4 / 5) else if s = lit "0" then .ok 0 else if s = lit "1" then .ok 1
  else if s = lit "0.5" then .ok (1 / 2) else .error .throw

def exampleVars : List XmlVar :=
  [⟨some (lit "Rain"), some (lit "discrete"), [some (lit "yes"), some (lit "no")]⟩,
   ⟨some (lit "Wet"), some (lit "discrete"), [some (lit "dry"), some (lit "damp"), some (lit "wet")]⟩]

/-- P(Rain) = 0.2, 0.8; P(Wet | Rain): in the table, the parent varies fastest. -/
def exampleDoc : XmlDoc :=
  ⟨some (lit "net"), exampleVars,
   [⟨some (lit "Wet"), [some (lit "Rain")], some (lit " 0 0.8 0.2 0.2 0.8 0 ")⟩, ⟨some (lit "Rain"), [], some (lit "0.2 0.8")⟩]⟩

def exampleDecls : List VarDecl := [⟨lit "Rain", [lit "yes", lit "no"]⟩, ⟨lit "Wet", [lit "dry", lit "damp", lit "wet"]⟩]

def exampleTables : List (TableDecl ℚ) := [⟨1, [0], [0, 4 / 5, 1 / 5, 1 / 5, 4 / 5, 0]⟩, ⟨0, [], [1 / 5, 4 / 5]⟩]

theorem exampleGood : GoodDescription exampleDecls exampleTables := by
  refine ⟨by decide, by decide, by decide, by decide, by decide, by decide, ?_⟩
  have hlt : ∀ p c, DeclEdge exampleTables p c → p < c := by
    rintro p c ⟨t, ht, rfl, hp⟩
    simp only [exampleTables, List.mem_cons, List.not_mem_nil, or_false] at ht
    rcases ht with rfl | rfl
    · have : p = 0 := by simpa using hp
      subst this
      decide
    · cases hp
  rintro ⟨i, hi⟩
  have : ∀ a b, Relation.TransGen (DeclEdge exampleTables) a b → a < b := by
    intro a b hab
    induction hab with
    | single h => exact hlt _ _ h
    | tail _ h ih => exact lt_trans ih (hlt _ _ h)
  exact lt_irrefl _ (this _ _ hi)

theorem exampleDescribes : XmlDescribes exampleStod exampleDoc exampleDecls exampleTables := by
  refine ⟨by decide, by decide, ?_⟩
  refine .cons ⟨by decide, by decide, lit " 0 0.8 0.2 0.2 0.8 0 ", rfl, [32], [32],
    [lit "0", lit "0.8", lit "0.2", lit "0.2", lit "0.8", lit "0"], by decide, by decide, by decide, by decide, ?_⟩
    (.cons ⟨by decide, by decide, lit "0.2 0.8", rfl, [], [], [lit "0.2", lit "0.8"], by decide, by decide, by decide, by decide, ?_⟩ .nil)
  · exact .cons rfl (.cons rfl (.cons rfl (.cons rfl (.cons rfl (.cons rfl .nil)))))
  · exact .cons rfl (.cons rfl .nil)

def exampleCount (q : ℚ) : Int := (q * 10000).floor

/-- The hypotheses of C64 are met, and the loaded network, computed, is the expected one. -/
example : ∃ F, loadXMLBIF exampleStod exampleCount exampleDoc = .ok F ∧ HoldsNetwork exampleDecls exampleTables F ∧
    exampleDoc.name = some F.netName := C64_load exampleCount exampleGood exampleDescribes

example : (do
    let F ← loadXMLBIF exampleStod exampleCount exampleDoc
    let a ← F.prob (K := ℚ) 1 0 [(0, 0)]
    let b ← F.prob (K := ℚ) 1 0 [(0, 1)]
    let c ← F.prob (K := ℚ) 1 2 [(0, 0)]
    let d ← F.prob (K := ℚ) 0 1 []
    return (F.net.edges, F.numEdges, [a, b, c, d])) =
    .ok ([mkDirected 0 1], 1, [1 / 10003, 8001 / 10003, 8001 / 10003, 8001 / 10002]) := by
  decide +kernel

/-- C64: the loader accepts a file whose tables form a directed cycle; the network it returns is not a Bayesian network. -/
theorem C64_cycle_accepted : ∃ (doc : XmlDoc) (F : NetFile), loadXMLBIF exampleStod exampleCount doc = .ok F ∧ Cyclic (ParentOf F.net) := by
  have h : (loadXMLBIF exampleStod exampleCount ⟨some (lit "net"), exampleVars,
      [⟨some (lit "Wet"), [some (lit "Rain")], some (lit "0 0.8 0.2 0.2 0.8 0")⟩,
       ⟨some (lit "Rain"), [some (lit "Wet")], some (lit "0.2 0.8 0.5 0.8 0.2 0.5")⟩]⟩).map (fun F => F.net.nodes.map NodeS.parents) =
      .ok [[1], [0]] := by
    decide +kernel
  cases hF : loadXMLBIF exampleStod exampleCount ⟨some (lit "net"), exampleVars,
      [⟨some (lit "Wet"), [some (lit "Rain")], some (lit "0 0.8 0.2 0.2 0.8 0")⟩,
       ⟨some (lit "Rain"), [some (lit "Wet")], some (lit "0.2 0.8 0.5 0.8 0.2 0.5")⟩]⟩ with
  | error e => rw [hF] at h; cases h
  | ok F =>
    rw [hF] at h
    have h2 : F.net.nodes.map NodeS.parents = [[1], [0]] := Except.ok.inj h
    have key : ∀ c, ((F.net.nodes.map NodeS.parents)[c]?).map (fun ps => decide (1 - c ∈ ps)) = some true → ParentOf F.net (1 - c) c := by
      intro c hc
      rw [List.getElem?_map] at hc
      cases hs : F.net.nodes[c]? with
      | none => rw [hs] at hc; cases hc
      | some s => exact ⟨s, hs, by simpa [hs] using hc⟩
    exact ⟨_, F, hF, 0, .tail (b := 1) (.single (key 1 (by rw [h2]; rfl))) (key 0 (by rw [h2]; rfl))⟩

end FastPGM
