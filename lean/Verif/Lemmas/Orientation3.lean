import Verif.Lemmas.Orientation2

/-!
`Direct` and the three orientation rules.
-/

namespace FastPGM

open Spec

theorem Pd.edges_length {n : Nat} {us ds : List (Nat × Nat)} {N : Net} (h : Pd n us ds N) : N.edges.length = us.length + ds.length := by
  rw [h.edges, List.length_append, List.length_map, List.length_map]

/-- The directed pairs as a relation. -/
abbrev arrows (ds : List (Nat × Nat)) : Nat → Nat → Prop := fun x y => (x, y) ∈ ds

theorem direct_spec {n cap : Nat} {G : Nat → Nat → Prop} {us ds : List (Nat × Nat)} {N : Net} (h : Pd n us ds N) (hc : Cover G us ds) {a c : Nat}
    (ha : a < n) (hcn : c < n) (hm : ordPair a c ∈ us) (hcap : us.length + ds.length < cap) :
    ∃ N' r, direct cap N a c = .ok (N', r) ∧ (r = true ↔ ¬ Cyclic (withEdge (arrows ds) a c)) ∧
      (r = false → Pd n us ds N') ∧ (r = true → Pd n (us.erase (ordPair a c)) (ds ++ [(a, c)]) N') := by
  obtain ⟨N1, r, e1, hr, h1, _⟩ := h.addDirected ha hcn (hc.excl a c hm)
  unfold direct
  rw [e1, ok_bind]
  cases r with
  | false => exact ⟨N1, false, rfl, hr, fun _ => by simpa using h1, fun hh => by cases hh⟩
  | true =>
    simp only [if_true]
    rw [if_neg (by rw [h.edges_length]; omega)]
    rw [if_pos rfl] at h1
    obtain ⟨N2, e2, h2⟩ := h1.deleteUndirected ha hcn
    rw [e2, ok_bind]
    exact ⟨N2, true, rfl, hr, fun hh => (by cases hh), fun _ => h2⟩

/-- Outcome of a rule for `x → y`: `MA` is the condition of the rule. -/
def RuleRes (n : Nat) (us ds : List (Nat × Nat)) (x y : Nat) (MA : Prop) (out : Net × Bool) : Prop :=
  (out.2 = false → Pd n us ds out.1 ∧ (MA → Cyclic (withEdge (arrows ds) x y))) ∧
  (out.2 = true → MA ∧ Pd n (us.erase (ordPair x y)) (ds ++ [(x, y)]) out.1)

theorem isDirectedFromTo_eq {n : Nat} {us ds : List (Nat × Nat)} {N : Net} (h : Pd n us ds N) {a c : Nat} (ha : a < n) (hc : c < n) :
    N.isDirectedFromTo a c = .ok (decide ((a, c) ∈ ds)) := by
  unfold Net.isDirectedFromTo
  rw [find_ok (by rw [h.len]; exact ha), ok_bind, find_ok (by rw [h.len]; exact hc), ok_bind]
  show Except.ok _ = Except.ok _
  congr 1
  rw [← pa_of_lt (by rw [h.len]; exact hc), decide_eq_decide, ← h.inv.wf.sym, h.dir]

theorem isUndirected_eq {n : Nat} {G : Nat → Nat → Prop} {k : Skeleton} (hk : Represents n G k) {us ds : List (Nat × Nat)} {N : Net}
    (h : Pd n us ds N) (hc : Cover G us ds) {a c : Nat} (ha : a < n) (hcn : c < n) :
    N.isUndirected k.adj a c = .ok (decide (ordPair a c ∈ us)) := by
  obtain ⟨r, hr, hrG⟩ := isAdjacentTo_eq hk ha c
  have hu := hc.undirected a c
  unfold Undirected at hu
  unfold Net.isUndirected
  rw [hr, ok_bind]
  cases r with
  | false =>
    have hn : ordPair a c ∉ us := fun hm => by simpa using hrG.2 ((hu.2 hm).1)
    simp only [Bool.false_eq_true, if_false]
    show Except.ok _ = Except.ok _
    rw [decide_eq_false hn]
  | true =>
    have hG := hrG.1 rfl
    simp only [if_true]
    rw [isDirectedFromTo_eq h ha hcn, ok_bind]
    by_cases h1 : (a, c) ∈ ds
    · simp only [h1, decide_true, if_true]
      show Except.ok _ = Except.ok _
      rw [decide_eq_false (fun hm => (hu.2 hm).2.1 h1)]
    · simp only [h1, decide_false, Bool.false_eq_true, if_false]
      rw [isDirectedFromTo_eq h hcn ha, ok_bind]
      show Except.ok _ = Except.ok _
      congr 1
      rw [Bool.eq_iff_iff]
      simp only [Bool.not_eq_true', decide_eq_false_iff_not, decide_eq_true_eq]
      rw [← hu]
      exact ⟨fun h2 => ⟨hG, h1, h2⟩, fun h2 => h2.2.2⟩

variable {n cap : Nat} {G : Nat → Nat → Prop} {k : Skeleton} {us ds : List (Nat × Nat)} {N : Net}

theorem rule1Loop_spec (hk : Represents n G k) (hc : Cover G us ds) {b c : Nat} (hb : b < n) (hcn : c < n) (hm : ordPair b c ∈ us)
    (hcap : ds ≠ [] → us.length + ds.length < cap) (as : List Nat) (has : ∀ a ∈ as, (a, b) ∈ ds) (h : Pd n us ds N) :
    ∃ out, rule1Loop cap k.adj b c as N = .ok out ∧ RuleRes n us ds b c (∃ z ∈ as, ¬ G z c) out := by
  induction as generalizing N with
  | nil => exact ⟨(N, false), rfl, fun _ => ⟨h, fun ⟨z, hz, _⟩ => by simp at hz⟩, fun hh => by cases hh⟩
  | cons a as ih =>
    obtain ⟨r, hr, hrG⟩ := isAdjacentTo_eq hk hcn a
    rw [rule1Loop, hr, ok_bind]
    have hads := has a (by simp)
    have has' : ∀ a ∈ as, (a, b) ∈ ds := fun z hz => has z (by simp [hz])
    cases r with
    | true =>
      simp only [if_true]
      obtain ⟨out, e, h1, h2⟩ := ih has' h
      refine ⟨out, e, fun hf => ⟨(h1 hf).1, ?_⟩, fun ht => ⟨?_, (h2 ht).2⟩⟩
      · rintro ⟨z, hz, hzc⟩
        rcases List.mem_cons.1 hz with rfl | hz
        · exact absurd (hc.symm _ _ (hrG.1 rfl)) hzc
        · exact (h1 hf).2 ⟨z, hz, hzc⟩
      · obtain ⟨z, hz, hzc⟩ := (h2 ht).1
        exact ⟨z, by simp [hz], hzc⟩
    | false =>
      have hnG : ¬ G a c := fun hg => by simpa using hrG.2 (hc.symm _ _ hg)
      simp only [Bool.false_eq_true, if_false]
      obtain ⟨N1, r1, e1, hr1, hf1, ht1⟩ := direct_spec h hc hb hcn hm (hcap (List.ne_nil_of_mem hads))
      rw [e1, ok_bind]
      cases r1 with
      | true =>
        exact ⟨(N1, true), rfl, fun hh => (by cases hh), fun _ => ⟨⟨a, by simp, hnG⟩, ht1 rfl⟩⟩
      | false =>
        simp only [Bool.false_eq_true, if_false]
        obtain ⟨out, e, h1, h2⟩ := ih has' (hf1 rfl)
        refine ⟨out, e, fun hf => ⟨(h1 hf).1, ?_⟩, fun ht => ⟨?_, (h2 ht).2⟩⟩
        · intro _
          by_contra hcy
          simpa using hr1.2 hcy
        · obtain ⟨z, hz, hzc⟩ := (h2 ht).1
          exact ⟨z, by simp [hz], hzc⟩

theorem rule1_spec (hk : Represents n G k) (hc : Cover G us ds) {b c : Nat} (hb : b < n) (hcn : c < n) (hm : ordPair b c ∈ us)
    (hcap : ds ≠ [] → us.length + ds.length < cap) (h : Pd n us ds N) :
    ∃ out, rule1 cap k.adj N b c = .ok out ∧ RuleRes n us ds b c (∃ z, (z, b) ∈ ds ∧ ¬ G z c) out := by
  unfold rule1
  have hb' : b < N.nodes.length := by rw [h.len]; exact hb
  rw [find_ok hb', ok_bind]
  have hmem : ∀ a, a ∈ N.nodes[b].parents ↔ (a, b) ∈ ds := by
    intro a
    rw [← pa_of_lt hb', ← h.inv.wf.sym, h.dir]
  obtain ⟨out, e, h1⟩ := rule1Loop_spec hk hc hb hcn hm hcap N.nodes[b].parents (fun a ha => (hmem a).1 ha) h
  refine ⟨out, e, ?_⟩
  have : (∃ z, (z, b) ∈ ds ∧ ¬ G z c) ↔ ∃ z ∈ N.nodes[b].parents, ¬ G z c := by simp only [hmem]
  unfold RuleRes
  rw [this]
  exact h1

theorem rule2Loop_spec (hc : Cover G us ds) {a c : Nat} (ha : a < n) (hcn : c < n) (hm : ordPair a c ∈ us)
    (hcap : ds ≠ [] → us.length + ds.length < cap) (bs : List Nat) (hbs : ∀ b ∈ bs, b < n) (h : Pd n us ds N) :
    ∃ out, rule2Loop cap a c bs N = .ok out ∧ RuleRes n us ds a c (∃ b ∈ bs, (a, b) ∈ ds ∧ (b, c) ∈ ds) out := by
  induction bs generalizing N with
  | nil => exact ⟨(N, false), rfl, fun _ => ⟨h, fun ⟨z, hz, _⟩ => by simp at hz⟩, fun hh => by cases hh⟩
  | cons b bs ih =>
    have hb := hbs b (by simp)
    have hbs' : ∀ b ∈ bs, b < n := fun z hz => hbs z (by simp [hz])
    rw [rule2Loop, isDirectedFromTo_eq h ha hb, ok_bind]
    have e2 : (if decide ((a, b) ∈ ds) = true then N.isDirectedFromTo b c else Except.ok false) =
        .ok (decide ((a, b) ∈ ds ∧ (b, c) ∈ ds)) := by
      by_cases h1 : (a, b) ∈ ds
      · simp only [h1, decide_true, if_true, true_and]
        exact isDirectedFromTo_eq h hb hcn
      · simp [h1]
    rw [e2, ok_bind]
    by_cases hboth : (a, b) ∈ ds ∧ (b, c) ∈ ds
    · rw [if_pos (decide_eq_true hboth)]
      obtain ⟨N1, r1, e1, hr1, hf1, ht1⟩ := direct_spec h hc ha hcn hm (hcap (List.ne_nil_of_mem hboth.1))
      rw [e1, ok_bind]
      cases r1 with
      | true => exact ⟨(N1, true), rfl, fun hh => (by cases hh), fun _ => ⟨⟨b, by simp, hboth⟩, ht1 rfl⟩⟩
      | false =>
        simp only [Bool.false_eq_true, if_false]
        obtain ⟨out, e, h1, h2⟩ := ih hbs' (hf1 rfl)
        refine ⟨out, e, fun hf => ⟨(h1 hf).1, ?_⟩, fun ht => ⟨?_, (h2 ht).2⟩⟩
        · intro _
          by_contra hcy
          simpa using hr1.2 hcy
        · obtain ⟨z, hz, hzc⟩ := (h2 ht).1
          exact ⟨z, by simp [hz], hzc⟩
    · rw [if_neg (by simpa using hboth)]
      obtain ⟨out, e, h1, h2⟩ := ih hbs' h
      refine ⟨out, e, fun hf => ⟨(h1 hf).1, ?_⟩, fun ht => ⟨?_, (h2 ht).2⟩⟩
      · rintro ⟨z, hz, hzc⟩
        rcases List.mem_cons.1 hz with rfl | hz
        · exact absurd hzc hboth
        · exact (h1 hf).2 ⟨z, hz, hzc⟩
      · obtain ⟨z, hz, hzc⟩ := (h2 ht).1
        exact ⟨z, by simp [hz], hzc⟩

theorem commonAdjacents_eq (hk : Represents n G k) {x y : Nat} (hx : x < n) (hy : y < n) :
    ∃ l, commonAdjacents k.adj x y = .ok l ∧ l.Pairwise (· < ·) ∧ (∀ z, z ∈ l ↔ G x z ∧ G y z) ∧ ∀ z ∈ l, z < n := by
  have hx' : x < k.adj.length := by rw [hk.adjLength]; exact hx
  have hy' : y < k.adj.length := by rw [hk.adjLength]; exact hy
  have e1 : rdAt k.adj x = .ok k.adj[x] := by unfold rdAt; rw [List.getElem?_eq_getElem hx']
  have e2 : rdAt k.adj y = .ok k.adj[y] := by unfold rdAt; rw [List.getElem?_eq_getElem hy']
  obtain ⟨s1, m1⟩ := hk.adj x _ (List.getElem?_eq_getElem hx')
  obtain ⟨s2, m2⟩ := hk.adj y _ (List.getElem?_eq_getElem hy')
  refine ⟨k.adj[x].filter (fun z => z ∈ k.adj[y]), ?_, s1.filter _, ?_, ?_⟩
  · unfold commonAdjacents
    rw [e1, ok_bind, e2, ok_bind]
    rfl
  · intro z
    rw [List.mem_filter, m1, decide_eq_true_iff, m2]
  · intro z hz
    exact (hk.range _ _ (hk.symm _ _ ((m1 z).1 (List.mem_of_mem_filter hz)))).1

theorem rule2_spec (hk : Represents n G k) (hc : Cover G us ds) {a c : Nat} (ha : a < n) (hcn : c < n) (hm : ordPair a c ∈ us)
    (hcap : ds ≠ [] → us.length + ds.length < cap) (h : Pd n us ds N) :
    ∃ out, rule2 cap k.adj N a c = .ok out ∧ RuleRes n us ds a c (∃ b, (a, b) ∈ ds ∧ (b, c) ∈ ds) out := by
  obtain ⟨l, e, _, hl, hln⟩ := commonAdjacents_eq hk ha hcn
  unfold rule2
  rw [e, ok_bind]
  obtain ⟨out, e1, h1⟩ := rule2Loop_spec hc ha hcn hm hcap l hln h
  refine ⟨out, e1, ?_⟩
  have : (∃ b, (a, b) ∈ ds ∧ (b, c) ∈ ds) ↔ ∃ b ∈ l, (a, b) ∈ ds ∧ (b, c) ∈ ds := by
    constructor
    · rintro ⟨b, h2, h3⟩
      exact ⟨b, (hl b).2 ⟨(hc.iff a b).2 (Or.inr (Or.inl h2)), (hc.iff c b).2 (Or.inr (Or.inr h3))⟩, h2, h3⟩
    · rintro ⟨b, _, h2⟩
      exact ⟨b, h2⟩
  unfold RuleRes
  rw [this]
  exact h1

/-- The condition of rule 3 for the pair `p`. -/
def R3Cond (G : Nat → Nat → Prop) (us ds : List (Nat × Nat)) (d a : Nat) (p : Nat × Nat) : Prop :=
  ¬ G p.1 p.2 ∧ ordPair d p.1 ∈ us ∧ ordPair d p.2 ∈ us ∧ (p.1, a) ∈ ds ∧ (p.2, a) ∈ ds

theorem rule3Loop_spec (hk : Represents n G k) (hc : Cover G us ds) {d a : Nat} (hd : d < n) (ha : a < n) (hm : ordPair d a ∈ us)
    (hcap : ds ≠ [] → us.length + ds.length < cap) (ps : List (Nat × Nat)) (hps : ∀ p ∈ ps, p.1 < n ∧ p.2 < n) (h : Pd n us ds N) :
    ∃ out, rule3Loop cap k.adj a d ps N = .ok out ∧ RuleRes n us ds d a (∃ p ∈ ps, R3Cond G us ds d a p) out := by
  induction ps generalizing N with
  | nil => exact ⟨(N, false), rfl, fun _ => ⟨h, fun ⟨z, hz, _⟩ => by simp at hz⟩, fun hh => by cases hh⟩
  | cons p ps ih =>
    obtain ⟨b, c⟩ := p
    obtain ⟨hb, hcn⟩ := hps (b, c) (by simp)
    have hps' : ∀ p ∈ ps, p.1 < n ∧ p.2 < n := fun z hz => hps z (by simp [hz])
    obtain ⟨r, hr, hrG⟩ := isAdjacentTo_eq hk hb c
    rw [rule3Loop, hr, ok_bind]
    have skip : ∀ {N : Net}, Pd n us ds N → (R3Cond G us ds d a (b, c) → Cyclic (withEdge (arrows ds) d a)) →
        ∃ out, rule3Loop cap k.adj a d ps N = .ok out ∧ RuleRes n us ds d a (∃ p ∈ (b, c) :: ps, R3Cond G us ds d a p) out := by
      intro N h hbc
      obtain ⟨out, e, h1, h2⟩ := ih hps' h
      refine ⟨out, e, fun hf => ⟨(h1 hf).1, ?_⟩, fun ht => ⟨?_, (h2 ht).2⟩⟩
      · rintro ⟨z, hz, hzc⟩
        rcases List.mem_cons.1 hz with rfl | hz
        · exact hbc hzc
        · exact (h1 hf).2 ⟨z, hz, hzc⟩
      · obtain ⟨z, hz, hzc⟩ := (h2 ht).1
        exact ⟨z, by simp [hz], hzc⟩
    cases r with
    | true =>
      simp only [if_true]
      exact skip h (fun hcond => absurd (hrG.1 rfl) hcond.1)
    | false =>
      have hnG : ¬ G b c := fun hg => by simpa using hrG.2 hg
      simp only [Bool.false_eq_true, if_false]
      unfold r3Helper
      rw [isUndirected_eq hk h hc hd hb, ok_bind, isUndirected_eq hk h hc hd hcn, ok_bind, isDirectedFromTo_eq h hb ha, ok_bind,
        isDirectedFromTo_eq h hcn ha, ok_bind]
      by_cases hcond : ordPair d b ∈ us ∧ ordPair d c ∈ us ∧ (b, a) ∈ ds ∧ (c, a) ∈ ds
      · rw [if_pos (by simp [hcond])]
        obtain ⟨N1, r1, e1, hr1, hf1, ht1⟩ := direct_spec h hc hd ha hm (hcap (List.ne_nil_of_mem hcond.2.2.1))
        rw [e1, ok_bind]
        cases r1 with
        | true => exact ⟨(N1, true), rfl, fun hh => (by cases hh), fun _ => ⟨⟨(b, c), by simp, hnG, hcond⟩, ht1 rfl⟩⟩
        | false =>
          simp only [Bool.false_eq_true, if_false]
          refine skip (hf1 rfl) (fun _ => ?_)
          by_contra hcy
          simpa using hr1.2 hcy
      · rw [if_neg (by simp only [Bool.and_eq_true, decide_eq_true_eq]; tauto)]
        show ∃ out, rule3Loop cap k.adj a d ps N = .ok out ∧ _
        exact skip h (fun h1 => absurd h1.2 hcond)

theorem mem_pairsOf {l : List Nat} {p : Nat × Nat} (h : p ∈ pairsOf l) : p.1 ∈ l ∧ p.2 ∈ l := by
  induction l with
  | nil => simp [pairsOf] at h
  | cons b l ih =>
    rw [pairsOf, List.mem_append, List.mem_map] at h
    rcases h with ⟨c, hc, rfl⟩ | h
    · exact ⟨by simp, by simp [hc]⟩
    · exact ⟨by simp [(ih h).1], by simp [(ih h).2]⟩

theorem pairsOf_mem {l : List Nat} {b c : Nat} (hb : b ∈ l) (hc : c ∈ l) (hne : b ≠ c) : (b, c) ∈ pairsOf l ∨ (c, b) ∈ pairsOf l := by
  induction l with
  | nil => simp at hb
  | cons x l ih =>
    rw [pairsOf, List.mem_append, List.mem_append, List.mem_map, List.mem_map]
    rcases List.mem_cons.1 hb with rfl | hb'
    · rcases List.mem_cons.1 hc with rfl | hc'
      · exact absurd rfl hne
      · exact Or.inl (Or.inl ⟨c, hc', rfl⟩)
    · rcases List.mem_cons.1 hc with rfl | hc'
      · exact Or.inr (Or.inl ⟨b, hb', rfl⟩)
      · rcases ih hb' hc' with h | h
        · exact Or.inl (Or.inr h)
        · exact Or.inr (Or.inr h)

theorem rule3_spec (hk : Represents n G k) (hc : Cover G us ds) {d a : Nat} (hd : d < n) (ha : a < n) (hm : ordPair d a ∈ us)
    (hcap : ds ≠ [] → us.length + ds.length < cap) (h : Pd n us ds N) :
    ∃ out, rule3 cap k.adj N d a = .ok out ∧ RuleRes n us ds d a
      (∃ b c, b ≠ c ∧ ¬ G b c ∧ Undirected G (arrows ds) d b ∧ Undirected G (arrows ds) d c ∧ (b, a) ∈ ds ∧ (c, a) ∈ ds) out := by
  obtain ⟨l, e, hsorted, hl, hln⟩ := commonAdjacents_eq hk ha hd
  unfold rule3
  rw [e, ok_bind]
  obtain ⟨out, e1, h1⟩ := rule3Loop_spec hk hc hd ha hm hcap (pairsOf l)
    (fun p hp => ⟨hln _ (mem_pairsOf hp).1, hln _ (mem_pairsOf hp).2⟩) h
  refine ⟨out, e1, ?_⟩
  have hne : ∀ b c, (b, c) ∈ pairsOf l → b ≠ c := by
    have : ∀ l : List Nat, l.Pairwise (· < ·) → ∀ b c, (b, c) ∈ pairsOf l → b ≠ c := by
      intro l
      induction l with
      | nil => intro _ b c h; simp [pairsOf] at h
      | cons x l ih =>
        intro hs b c h
        rw [pairsOf, List.mem_append, List.mem_map] at h
        rw [List.pairwise_cons] at hs
        rcases h with ⟨y, hy, he⟩ | h
        · simp only [Prod.mk.injEq] at he
          obtain ⟨rfl, rfl⟩ := he
          exact Nat.ne_of_lt (hs.1 _ hy)
        · exact ih hs.2 b c h
    exact this l hsorted
  have hiff : (∃ b c, b ≠ c ∧ ¬ G b c ∧ Undirected G (arrows ds) d b ∧ Undirected G (arrows ds) d c ∧ (b, a) ∈ ds ∧ (c, a) ∈ ds) ↔
      ∃ p ∈ pairsOf l, R3Cond G us ds d a p := by
    simp only [hc.undirected]
    constructor
    · rintro ⟨b, c, hbc, h2, h3, h4, h5, h6⟩
      have hb : b ∈ l := (hl b).2 ⟨(hc.iff a b).2 (Or.inr (Or.inr h5)), (hc.iff d b).2 (Or.inl h3)⟩
      have hc' : c ∈ l := (hl c).2 ⟨(hc.iff a c).2 (Or.inr (Or.inr h6)), (hc.iff d c).2 (Or.inl h4)⟩
      rcases pairsOf_mem hb hc' hbc with hp | hp
      · exact ⟨_, hp, h2, h3, h4, h5, h6⟩
      · exact ⟨_, hp, fun hg => h2 (hc.symm _ _ hg), h4, h3, h6, h5⟩
    · rintro ⟨⟨b, c⟩, hp, h2, h3, h4, h5, h6⟩
      exact ⟨b, c, hne b c hp, h2, h3, h4, h5, h6⟩
  unfold RuleRes
  rw [hiff]
  exact h1

/-- Trying all rules on an undirected edge. -/
theorem tryRules_spec (hk : Represents n G k) (hc : Cover G us ds) {x y : Nat} (hx : x < n) (hy : y < n) (hm : ordPair x y ∈ us)
    (hcap : ds ≠ [] → us.length + ds.length < cap) (h : Pd n us ds N) :
    ∃ N' r, tryRules cap k.adj N x y = .ok (N', r) ∧
      (r = false → Pd n us ds N' ∧ (MeekApplies G (arrows ds) x y → Cyclic (withEdge (arrows ds) x y)) ∧
        (MeekApplies G (arrows ds) y x → Cyclic (withEdge (arrows ds) y x))) ∧
      (r = true → ∃ a c, ((a = x ∧ c = y) ∨ (a = y ∧ c = x)) ∧ MeekApplies G (arrows ds) a c ∧
        Pd n (us.erase (ordPair x y)) (ds ++ [(a, c)]) N') := by
  have hm' : ordPair y x ∈ us := by rw [ordPair_comm]; exact hm
  unfold tryRules
  obtain ⟨⟨N1, r1⟩, e1, f1, t1⟩ := rule1_spec hk hc hx hy hm hcap h
  rw [e1, ok_bind]
  cases r1 with
  | true => exact ⟨N1, true, rfl, fun hh => (by cases hh), fun _ => ⟨x, y, Or.inl ⟨rfl, rfl⟩, Or.inl (t1 rfl).1, (t1 rfl).2⟩⟩
  | false =>
  obtain ⟨p1, c1⟩ := f1 rfl
  simp only [Bool.false_eq_true, if_false]
  obtain ⟨⟨N2, r2⟩, e2, f2, t2⟩ := rule1_spec hk hc hy hx hm' hcap p1
  rw [e2, ok_bind]
  cases r2 with
  | true =>
    exact ⟨N2, true, rfl, fun hh => (by cases hh), fun _ => ⟨y, x, Or.inr ⟨rfl, rfl⟩, Or.inl (t2 rfl).1, by rw [ordPair_comm]; exact (t2 rfl).2⟩⟩
  | false =>
  obtain ⟨p2, c2⟩ := f2 rfl
  simp only [Bool.false_eq_true, if_false]
  obtain ⟨⟨N3, r3⟩, e3, f3, t3⟩ := rule2_spec hk hc hx hy hm hcap p2
  rw [e3, ok_bind]
  cases r3 with
  | true => exact ⟨N3, true, rfl, fun hh => (by cases hh), fun _ => ⟨x, y, Or.inl ⟨rfl, rfl⟩, Or.inr (Or.inl (t3 rfl).1), (t3 rfl).2⟩⟩
  | false =>
  obtain ⟨p3, c3⟩ := f3 rfl
  simp only [Bool.false_eq_true, if_false]
  obtain ⟨⟨N4, r4⟩, e4, f4, t4⟩ := rule2_spec hk hc hy hx hm' hcap p3
  rw [e4, ok_bind]
  cases r4 with
  | true =>
    exact ⟨N4, true, rfl, fun hh => (by cases hh),
      fun _ => ⟨y, x, Or.inr ⟨rfl, rfl⟩, Or.inr (Or.inl (t4 rfl).1), by rw [ordPair_comm]; exact (t4 rfl).2⟩⟩
  | false =>
  obtain ⟨p4, c4⟩ := f4 rfl
  simp only [Bool.false_eq_true, if_false]
  obtain ⟨⟨N5, r5⟩, e5, f5, t5⟩ := rule3_spec hk hc hx hy hm hcap p4
  rw [e5, ok_bind]
  cases r5 with
  | true => exact ⟨N5, true, rfl, fun hh => (by cases hh), fun _ => ⟨x, y, Or.inl ⟨rfl, rfl⟩, Or.inr (Or.inr (t5 rfl).1), (t5 rfl).2⟩⟩
  | false =>
  obtain ⟨p5, c5⟩ := f5 rfl
  simp only [Bool.false_eq_true, if_false]
  obtain ⟨⟨N6, r6⟩, e6, f6, t6⟩ := rule3_spec hk hc hy hx hm' hcap p5
  refine ⟨N6, r6, e6, ?_, ?_⟩
  · intro hr
    obtain ⟨p6, c6⟩ := f6 hr
    refine ⟨p6, ?_, ?_⟩
    · rintro (h1 | h1 | h1)
      · exact c1 h1
      · exact c3 h1
      · exact c5 h1
    · rintro (h1 | h1 | h1)
      · exact c2 h1
      · exact c4 h1
      · exact c6 h1
  · intro hr
    exact ⟨y, x, Or.inr ⟨rfl, rfl⟩, Or.inr (Or.inr (t6 hr).1), by rw [ordPair_comm]; exact (t6 hr).2⟩

end FastPGM
