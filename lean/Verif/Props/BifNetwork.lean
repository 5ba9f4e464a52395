import Verif.Lemmas.BifNetwork4
import Verif.Props.XmlNetwork

/-!
C65: loading a network from a BIF file.

For every description of a Bayesian network and every BIF text that says it, the loader delivers the network with exactly these edges, the
value codes in the order of the file and the conditional tables of the file up to the smoothing constant: the same network that the XMLBIF
loader delivers for the same description.
-/

namespace FastPGM

open Spec

variable {K : Type}

theorem BifInv.xml {toCount : K → Int} {vs : List VarDecl} {ts : List (TableDecl K)} {F : NetFile} (h : BifInv vs toCount ts F) :
    XmlInv vs toCount ts { F with net := { F.net with edges := [] } } :=
  ⟨h.names, h.values, ⟨F.net, h.net, rfl, h.ch⟩, h.len, h.new, h.stats⟩

theorem flatMap_edges_nodup : ∀ {ts : List (TableDecl K)}, (ts.map TableDecl.node).Nodup → (∀ t ∈ ts, t.given.Nodup) →
    (ts.flatMap (fun t => t.given.map (fun g => mkDirected g t.node))).Nodup := by
  intro ts
  induction ts with
  | nil => simp
  | cons t ts ih =>
    intro h1 h2
    rw [List.map_cons, List.nodup_cons] at h1
    rw [List.flatMap_cons, List.nodup_append]
    refine ⟨(h2 t (by simp)).map (fun a b e => ?_), ih h1.2 (fun t ht => h2 t (by simp [ht])), ?_⟩
    · simpa [mkDirected] using e
    · rintro a ha b hb rfl
      obtain ⟨g, _, rfl⟩ := List.mem_map.1 ha
      obtain ⟨t', ht', hb⟩ := List.mem_flatMap.1 hb
      obtain ⟨g', _, e⟩ := List.mem_map.1 hb
      have : t'.node = t.node := by simpa [mkDirected] using (congrArg Edge.node2 e)
      exact h1.1 (this ▸ List.mem_map_of_mem ht')

/-- C65: for every description of a Bayesian network and every BIF text that says it, the loader ends and the network it delivers holds
what the description says.  `rounds` bounds the loop over the variables: from some number on, the result is always this one.  A last line
that is not ended by a newline is not read. -/
theorem C65_load {stod : Str → Except Fault K} (toCount : K → Int) {vs : List VarDecl} {ts : List (TableDecl K)} (h : GoodDescription vs ts)
    {file : Str} (hd : BifDescribes stod file vs ts) :
    ∃ F, (∀ rounds last, 3 * vs.length < rounds → 10 ∉ last → loadBIF stod toCount rounds (file ++ last) = .ok (some F)) ∧
      HoldsNetwork vs ts F := by
  obtain ⟨F, hF, hG⟩ := bif_load toCount h hd
  refine ⟨F, hF, ?_⟩
  obtain ⟨R, _, hR, hlen, hshape, hinv, hch, htopo⟩ := xml_net h hG.xml
  have hnodes : F.net.nodes = R.nodes := by
    have := congrArg Net.nodes hR
    exact this
  refine ⟨hG.names, hG.values, by rw [hnodes]; exact hlen, fun i s hs => (hshape.dim i s (by rw [← hnodes]; exact hs)).1, ?_, ?_, ⟨?_, ?_⟩, hG.count,
    by
      have := congrArg Net.topo hR
      exact Eq.trans this htopo⟩
  · intro p c
    rw [parentOf_iff, ← hch, hinv.wf.sym]
    unfold Net.pa
    rw [hnodes]
  · intro p c
    rw [childOf_iff, ← hch]
    unfold Net.ch
    rw [hnodes]
  · rw [hG.edges]
    exact flatMap_edges_nodup (h.nodes.nodup_iff.2 List.nodup_range) (fun t ht => (h.given t ht).1)
  · intro e
    rw [hG.edges, List.mem_flatMap]
    constructor
    · rintro ⟨t, ht, he⟩
      obtain ⟨g, hg, rfl⟩ := List.mem_map.1 he
      exact ⟨g, t.node, ⟨t, ht, rfl, hg⟩, rfl⟩
    · rintro ⟨p, c, ⟨t, ht, rfl, hp⟩, rfl⟩
      exact ⟨t, ht, List.mem_map.2 ⟨p, hp, rfl⟩⟩

section

variable [Field K] [LinearOrder K] [IsStrictOrderedRing K]

/-- C65: the conditional tables of the loaded network are those of the file: conditional distributions, with the smoothed entries. -/
theorem C65_tables {stod : Str → Except Fault K} {toCount : K → Int} {vs : List VarDecl} {ts : List (TableDecl K)} (h : GoodDescription vs ts)
    {file : Str} (hd : BifDescribes stod file vs ts) (hnn : ∀ t ∈ ts, ∀ e ∈ t.entries, 0 ≤ toCount e) {rounds : Nat}
    (hr : 3 * vs.length < rounds) {F : NetFile} (hF : loadBIF stod toCount rounds file = .ok (some F)) :
    ∃ pts : List (Table K), sampleTables F.net F.prob = .ok pts ∧ NodeTables (declCard vs) F.net pts ∧ ConditionalTables (declCard vs) pts ∧
      (∀ T ∈ pts, ∀ x ∈ T.pot, 0 < x) ∧
      ∀ t ∈ ts, ∃ T, pts[t.node]? = some T ∧ T.vars = t.node :: F.net.pa t.node ∧
        ∀ a, InRange (declCard vs) (t.node :: t.given) a → value T a = fileEntry toCount (declCard vs) t a := by
  obtain ⟨F', hF', hG⟩ := bif_load toCount h hd
  have := hF' rounds [] hr (by simp)
  rw [List.append_nil, hF] at this
  cases this
  exact loaded_tables h hG.xml hnn F.net.edges F.numEdges F.netName rfl

/-- C65: the answers of the junction tree on the loaded network are the posteriors of the tables of the file. -/
theorem C65_inference {stod : Str → Except Fault K} {toCount : K → Int} {vs : List VarDecl} {ts : List (TableDecl K)} (h : GoodDescription vs ts)
    {file : Str} (hd : BifDescribes stod file vs ts) (hnn : ∀ t ∈ ts, ∀ e ∈ t.entries, 0 ≤ toCount e) {rounds : Nat}
    (hr : 3 * vs.length < rounds) {F : NetFile} (hF : loadBIF stod toCount rounds file = .ok (some F))
    (hconn : ∀ i j, i < vs.length → j < vs.length → Relation.ReflTransGen (fun p c => DeclEdge ts p c ∨ DeclEdge ts c p) i j)
    {order : List (Nat × Nat) → List (Nat × Nat)} {cord : Nat → List Nat} (horder : ∀ l, (order l).Perm l)
    (hcord : ∀ m, (cord m).Perm (List.range m)) {E : List (Nat × Nat)} (hEn : (E.map Prod.fst).Nodup)
    (hE : ∀ e ∈ E, e.1 < vs.length ∧ e.2 < declCard vs e.1) {q : Nat} (hq : q < vs.length) (hqE : q ∉ E.map Prod.fst) :
    ∃ pts J T, sampleTables F.net F.prob = .ok pts ∧ buildJunctionTree F.net (declCard vs) pts order cord = .ok J ∧
      J.marginal E q = .ok (T, J) ∧ T.pot.length = declCard vs q ∧
      (∀ x < declCard vs q, T.pot[x]? = some (posterior (declCard vs) vs.length
        (fun a => (ts.map (fun t => fileEntry toCount (declCard vs) t a)).prod) E q x)) ∧
      weight (declCard vs) vs.length (fun a => (ts.map (fun t => fileEntry toCount (declCard vs) t a)).prod) (fun _ => True) = 1 := by
  obtain ⟨F', hF', hG⟩ := bif_load toCount h hd
  have := hF' rounds [] hr (by simp)
  rw [List.append_nil, hF] at this
  cases this
  exact loaded_inference h hG.xml hnn F.net.edges F.numEdges F.netName rfl hconn horder hcord hEn hE hq hqE

end

/-- C65: the BIF loader and the XMLBIF loader deliver the same network for the same description: the same names, value codes, nodes (domain
sizes, parent sets, child sets) and the same edges, in some order. -/
theorem C65_same_as_xml {stod : Str → Except Fault K} (toCount : K → Int) {vs : List VarDecl} {ts : List (TableDecl K)} (h : GoodDescription vs ts)
    {file : Str} (hd : BifDescribes stod file vs ts) {doc : XmlDoc} (hx : XmlDescribes stod doc vs ts) {rounds : Nat}
    (hr : 3 * vs.length < rounds) :
    ∃ F G, loadBIF stod toCount rounds file = .ok (some F) ∧ loadXMLBIF stod toCount doc = .ok G ∧ F.names = G.names ∧
      F.valueIds = G.valueIds ∧ F.net.nodes = G.net.nodes ∧ F.net.edges.Perm G.net.edges ∧ F.numEdges = G.numEdges := by
  obtain ⟨F, hF, hFh⟩ := C65_load toCount h hd
  obtain ⟨F', hF', hFi⟩ := bif_load toCount h hd
  have e1 := hF rounds [] hr (by simp)
  have e2 := hF' rounds [] hr (by simp)
  rw [e1] at e2
  cases e2
  rw [List.append_nil] at e1
  obtain ⟨G, hG, hGh, _⟩ := C64_load toCount h hx
  obtain ⟨G', G0, nm, _, hG', hGi, eG⟩ := xml_load toCount h hx
  rw [hG] at hG'
  cases hG'
  have hperm : F.net.edges.Perm G.net.edges :=
    (List.perm_ext_iff_of_nodup hFh.edges.1 hGh.edges.1).2 (fun e => (hFh.edges.2 e).trans (hGh.edges.2 e).symm)
  refine ⟨F, G, e1, hG, hFh.names.trans hGh.names.symm, hFh.values.trans hGh.values.symm, ?_, hperm, ?_⟩
  · obtain ⟨R, hR1, hR2, _⟩ := hGi.net
    have hnet := hFi.net
    rw [hR1] at hnet
    have e3 : R = F.net := Except.ok.inj hnet
    rw [eG, ← e3]
    show R.nodes = G0.net.nodes
    rw [hR2]
  · rw [hFh.count, hGh.count]
    exact hperm.length_eq

/-! ### Files that are not well-formed -/

theorem bifVariables_stuck (F : NetFile) (rest : Str) (b : Bool) : ∀ rounds, bifVariables rounds F [] { rest := rest, eof := true, fail := b } = .ok none := by
  intro rounds
  induction rounds generalizing b with
  | zero => rfl
  | succ rounds ih =>
    unfold bifVariables
    have h1 : bifTokens [] = .ok [[]] := by decide +kernel
    have h2 : rdAt [([] : Str)] 0 = .ok [] := rfl
    rw [h1, ok_bind, h2, ok_bind, if_neg (by decide)]
    unfold bifDeclare
    rw [h2, ok_bind, if_neg (by decide), if_neg (by decide), pure_eq_ok, ok_bind, show trimLeft [] = [] from by decide, getline_eof]
    exact ih true

/-- C65: a file with variables and no table is read for ever: the loop over the variables does not test for the end of the file, and
however many rounds it makes, it has not ended. -/
theorem C65_endless (stod : Str → Except Fault K) (toCount : K → Int) {vs : List VarDecl}
    (hv : ∀ v ∈ vs, v.values.Nodup ∧ IsWord v.name ∧ (∀ w ∈ v.values, IsWord w) ∧ v.values.length ≤ 2147483647) {first second : Str} {lines : List Str}
    (hf : 10 ∉ first) (hs : 10 ∉ second) (hl : List.Forall₂ IsLine (vs.flatMap varLines) lines) (rounds : Nat) :
    loadBIF stod toCount rounds (textOf (first :: second :: lines)) = .ok none := by
  have key : ∀ (wl : List (List Str)) (lines : List Str), List.Forall₂ IsLine wl lines →
      (∀ words ∈ wl, Solid words ∧ words ≠ [] ∧ words[0]? ≠ some (lit "probability")) → ∀ (F F' : NetFile) (old : Str) (rounds : Nat),
      wl.foldlM bifDeclare F = .ok F' →
      bifVariables rounds F (getline { rest := textOf lines } old).1 (getline { rest := textOf lines } old).2 = .ok none := by
    intro wl lines h
    induction h with
    | nil =>
      intro _ F F' old rounds _
      have : textOf [] = [] := rfl
      rw [this, getline_last (by simp)]
      exact bifVariables_stuck F [] _ rounds
    | @cons words line wl lines hx _ ih =>
      intro hw F F' old rounds hF
      obtain ⟨w1, w2, w3⟩ := hw words (by simp)
      rw [textOf_cons, getline_line (hx.noNewline w1)]
      cases rounds with
      | zero => rfl
      | succ rounds =>
        obtain ⟨key, hk⟩ : ∃ key, words[0]? = some key := ⟨_, List.getElem?_eq_getElem (List.length_pos_iff.2 w2)⟩
        rw [List.foldlM_cons] at hF
        obtain ⟨F1, hF1, hF2⟩ := bind_eq_ok hF
        unfold bifVariables
        simp only
        rw [hx.tokens w1 w2, ok_bind, rdAt_ok hk, ok_bind, if_neg (by rintro rfl; exact w3 hk), hF1, ok_bind]
        exact ih (fun w hw' => hw w (by simp [hw'])) F1 F' _ rounds hF2
  unfold loadBIF
  rw [textOf_cons, getline_line hf]
  simp only
  rw [textOf_cons, getline_line hs]
  simp only
  have e2 : ({ net := { nodes := [] } } : NetFile) = bifDeclared [] := rfl
  rw [e2, key _ _ hl (by
    intro words hwd
    obtain ⟨v, hv', hwd⟩ := List.mem_flatMap.1 hwd
    exact varLines_solid (hv v hv').2.1 (hv v hv').2.2.1 words hwd) (bifDeclared []) (bifDeclared vs) second rounds
      (by simpa using declare_all (fun v hv' => ⟨(hv v hv').2.2.1, (hv v hv').1, (hv v hv').2.2.2⟩) [])]
  rfl

/-! ### Concrete cases -/

/-- Lines, each ended by a newline. -/
def bifText (l : List String) : Str := textOf (l.map lit)

def bifHead : List String :=
  ["network unknown {", "}", "variable Rain {", "  type discrete [ 2 ] { yes, no };", "}", "variable Wet {",
   "  type discrete [ 3 ] { dry, damp, wet };", "}"]

def bifWet : List String := ["probability ( Wet | Rain ) {", "  (no) 0.8, 0.2, 0;", "  (yes) 0, 0.2, 0.8;", "}"]

def bifRain : List String := ["probability ( Rain ) {", "  table 0.2, 0.8;", "}"]

def wetRows : List (List Nat × List Str) := [([1], [lit "0.8", lit "0.2", lit "0"]), ([0], [lit "0", lit "0.2", lit "0.8"])]

def rainRows : List (List Nat × List Str) := [([], [lit "0.2", lit "0.8"])]

instance (w : Str) : Decidable (IsWord w) := by unfold IsWord; infer_instance

theorem wetRows_ok : BifRows exampleStod (declCard exampleDecls) ⟨1, [0], [0, 4 / 5, 1 / 5, 1 / 5, 4 / 5, 0]⟩ wetRows := by
  have c0 : declCard exampleDecls 0 = 2 := rfl
  have c1 : declCard exampleDecls 1 = 3 := rfl
  refine ⟨by decide, ?_, by decide, ?_⟩
  · intro u
    constructor
    · intro hu
      simp only [wetRows, List.map_cons, List.map_nil, List.mem_cons, List.not_mem_nil, or_false] at hu
      rcases hu with rfl | rfl
      · exact .cons (by decide) .nil
      · exact .cons (by decide) .nil
    · intro hu
      cases hu with
      | @cons x _ _ _ hx hn =>
        cases hn
        rw [c0] at hx
        obtain rfl | rfl : x = 0 ∨ x = 1 := by omega
        · decide
        · decide
  · intro r hr a ha he
    have h1 : a 1 < 3 := ha 1 (by simp)
    simp only [wetRows, List.mem_cons, List.not_mem_nil, or_false] at hr
    have pos : ∀ x y, a 0 = x → a 1 = y → tablePosition (declCard exampleDecls) 1 [0] a = y * 2 + (0 * 2 + x) := by
      rintro x y rfl rfl
      rfl
    rcases hr with rfl | rfl
    all_goals
      simp only [List.map_cons, List.map_nil, List.cons.injEq, and_true] at he
      obtain h2 | h2 | h2 : a 1 = 0 ∨ a 1 = 1 ∨ a 1 = 2 := by omega
      all_goals
        simp only [pos _ _ he h2, h2]
        exact ⟨_, _, rfl, rfl, rfl⟩

theorem rainRows_ok : BifRows exampleStod (declCard exampleDecls) ⟨0, [], [1 / 5, 4 / 5]⟩ rainRows := by
  refine ⟨by decide, ?_, by decide, ?_⟩
  · intro u
    constructor
    · intro hu
      simp only [rainRows, List.map_cons, List.map_nil, List.mem_singleton] at hu
      subst hu
      exact .nil
    · intro hu
      cases hu
      decide
  · intro r hr a ha he
    have h1 : a 0 < 2 := ha 0 (by simp)
    simp only [rainRows, List.mem_cons, List.not_mem_nil, or_false] at hr
    subst hr
    have pos : ∀ x, a 0 = x → tablePosition (declCard exampleDecls) 0 [] a = x * 1 + 0 := by
      rintro x rfl
      rfl
    obtain h2 | h2 : a 0 = 0 ∨ a 0 = 1 := by omega
    all_goals
      simp only [pos _ h2, h2]
      exact ⟨_, _, rfl, rfl, rfl⟩

theorem exampleBif : BifDescribes exampleStod (bifText (bifHead ++ bifWet ++ bifRain)) exampleDecls exampleTables := by
  refine ⟨lit "network unknown {", lit "}", ((bifHead.drop 2) ++ bifWet ++ bifRain).map lit, [wetRows, rainRows], by decide, by decide, rfl, ?_,
    .cons wetRows_ok (.cons rainRows_ok .nil), by decide⟩
  have zero : ∀ c ∈ ([] : Str), c < 33 ∧ c ≠ 10 := by simp
  have two : ∀ c ∈ ([32, 32] : Str), c < 33 ∧ c ≠ 10 := by decide
  refine .cons ⟨[], zero, by decide⟩ <| .cons ⟨[32, 32], two, by decide +kernel⟩ <| .cons ⟨[], zero, by decide⟩ <| .cons ⟨[], zero, by decide⟩ <|
    .cons ⟨[32, 32], two, by decide +kernel⟩ <| .cons ⟨[], zero, by decide⟩ <| .cons ⟨[], zero, by decide⟩ <| .cons ⟨[32, 32], two, by decide⟩ <|
    .cons ⟨[32, 32], two, by decide⟩ <| .cons ⟨[], zero, by decide⟩ <| .cons ⟨[], zero, by decide⟩ <| .cons ⟨[32, 32], two, by decide⟩ <|
    .cons ⟨[], zero, by decide⟩ .nil

/-- The hypotheses of C65 are met, and the loaded network, computed, is the expected one. -/
example : ∃ F, (∀ rounds last, 3 * 2 < rounds → 10 ∉ last →
    loadBIF exampleStod exampleCount rounds (bifText (bifHead ++ bifWet ++ bifRain) ++ last) = .ok (some F)) ∧
    HoldsNetwork exampleDecls exampleTables F := C65_load exampleCount exampleGood exampleBif

/-- What the examples look at: the edges, the numbers of values, and four conditional probabilities. -/
def bifSummary (file : Str) : Except Fault (Option (List Edge × List Nat × List ℚ)) := do
  match ← loadBIF exampleStod exampleCount 20 file with
  | none => return none
  | some F => do
    let a ← F.prob (K := ℚ) 1 0 [(0, 0)]
    let b ← F.prob (K := ℚ) 1 0 [(0, 1)]
    let c ← F.prob (K := ℚ) 1 2 [(0, 0)]
    let d ← F.prob (K := ℚ) 0 1 []
    return some (F.net.edges, F.valueIds.map List.length, [a, b, c, d])

example : bifSummary (bifText (bifHead ++ bifWet ++ bifRain)) =
    .ok (some ([mkDirected 0 1], [2, 3], [1 / 10003, 8001 / 10003, 8001 / 10003, 8001 / 10002])) := by
  decide +kernel

example : ∀ rounds, loadBIF exampleStod exampleCount rounds (bifText bifHead) = .ok none := by
  intro rounds
  have zero : ∀ c ∈ ([] : Str), c < 33 ∧ c ≠ 10 := by simp
  have two : ∀ c ∈ ([32, 32] : Str), c < 33 ∧ c ≠ 10 := by decide
  exact C65_endless exampleStod exampleCount (vs := exampleDecls) (by decide) (first := lit "network unknown {") (second := lit "}") (by decide) (by decide)
    (.cons ⟨[], zero, by decide⟩ <| .cons ⟨[32, 32], two, by decide +kernel⟩ <| .cons ⟨[], zero, by decide⟩ <| .cons ⟨[], zero, by decide⟩ <|
      .cons ⟨[32, 32], two, by decide +kernel⟩ <| .cons ⟨[], zero, by decide⟩ .nil) rounds

/-- C65: a blank line between two tables is undefined behaviour (it is read as a line of numbers). -/
theorem C65_blank_line_ub : bifSummary (bifText (bifHead ++ bifWet ++ [""] ++ bifRain)) = .error .ub := by decide +kernel

/-- C65: a parent that is not declared is undefined behaviour (a null pointer). -/
theorem C65_unknown_parent_ub : bifSummary (bifText (bifHead ++ ["probability ( Wet | Sun ) {", "  (no) 0.8, 0.2, 0;", "}"] ++ bifRain)) = .error .ub := by
  decide +kernel

/-- C65: a value of a parent that is not declared is accepted without notice: it counts as the first value, whose distribution is now the
mean of the two lines, and the parent has one value more than its domain size. -/
theorem C65_unknown_value_accepted : bifSummary (bifText (bifHead ++ bifRain ++
      ["probability ( Wet | Rain ) {", "  (no) 0.8, 0.2, 0;", "  (yes) 0, 0.2, 0.8;", "  (maybe) 0.8, 0.2, 0;", "}"])) =
    .ok (some ([mkDirected 0 1], [3, 3], [8001 / 20003, 8001 / 10003, 8001 / 20003, 8001 / 10002])) := by
  decide +kernel

/-- C65: the numbers of a last line that is not ended by a newline are lost; the node then has the uniform distribution. -/
theorem C65_last_line_lost : bifSummary (bifText (bifHead ++ bifWet ++ ["probability ( Rain ) {"]) ++ lit "  table 0.2, 0.8;") =
    .ok (some ([mkDirected 0 1], [2, 3], [1 / 10003, 8001 / 10003, 8001 / 10003, 1 / 2])) := by
  decide +kernel

/-- C65: the loader accepts a file whose tables form a directed cycle. -/
theorem C65_cycle_accepted : (do
    match ← loadBIF exampleStod exampleCount 20 (bifText (bifHead ++ bifWet ++
      ["probability ( Rain | Wet ) {", "  (dry) 0.2, 0.8;", "  (damp) 0.2, 0.8;", "  (wet) 0.2, 0.8;", "}"])) with
    | none => return []
    | some F => return F.net.nodes.map NodeS.parents) = .ok [[1], [0]] := by
  decide +kernel

/-- C65: a header without blanks around the bar is undefined behaviour; without a blank after the parenthesis the process exits. -/
theorem C65_spacing : bifSummary (bifText (bifHead ++ ["probability ( Wet|Rain ) {", "  (no) 0.8, 0.2, 0;", "}"])) = .error .ub ∧
    bifSummary (bifText (bifHead ++ ["probability (Wet | Rain) {", "  (no) 0.8, 0.2, 0;", "}"])) = .error .exit := by
  constructor <;> decide +kernel

end FastPGM
