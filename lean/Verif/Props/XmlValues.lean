import Verif.Props.XmlNetwork
import Verif.Spec.XmlValues

/-!
The value names of a variable in an XMLBIF file (C126), repeated names included.
-/

namespace FastPGM

open Spec

variable {K : Type}

theorem assign_find (m : ValueMap) (key s : Str) (i : Int) : (m.assign key i).find s = if s = key then some i else m.find s := by
  unfold ValueMap.assign ValueMap.find
  split
  · rename_i h
    induction m with
    | nil => simp at h
    | cons x m ih =>
      rw [List.map_cons]
      by_cases hx : x.1 = key
      · rw [if_pos hx, List.lookup_cons]
        by_cases hs : s = key
        · simp [hs]
        · have hs' : (s == key) = false := by simpa using hs
          have hs2 : (s == x.1) = false := by rw [hx]; exact hs'
          obtain ⟨a, b⟩ := x
          rw [List.lookup_cons, hs']
          simp only at hs2
          rw [hs2, if_neg hs]
          clear ih h hx hs2
          induction m with
          | nil => rfl
          | cons y m ih =>
            obtain ⟨c, d⟩ := y
            rw [List.map_cons, List.lookup_cons]
            by_cases hy : c = key
            · simp only [hy, if_true, List.lookup_cons, hs']
              simpa using ih
            · simp only [hy, if_false, List.lookup_cons]
              cases h : (s == c)
              · simpa using ih
              · rfl
      · rw [if_neg hx]
        have h' : (List.any m fun x => decide (x.1 = key)) = true := by simpa [hx] using h
        have ih := ih h'
        obtain ⟨a, b⟩ := x
        rw [List.lookup_cons, List.lookup_cons, ih]
        by_cases hs : s = key
        · have : (s == a) = false := by
            rw [hs]
            simp only at hx
            simpa using fun e => hx e.symm
          rw [this]
        · simp [hs]
  · rename_i h
    rw [List.lookup_append]
    by_cases hs : s = key
    · subst hs
      have : m.lookup s = none := by
        rw [List.lookup_eq_none_iff]
        intro p hp
        have h := h
        simp only [List.any_eq_true, decide_eq_true_eq, not_exists, not_and] at h
        simpa using fun e => h p hp e.symm
      simp [this]
    · have : (s == key) = false := by simpa using hs
      simp [List.lookup, this, hs]

theorem assign_keys (m : ValueMap) (key : Str) (i : Int) :
    (m.assign key i).map Prod.fst = if key ∈ m.map Prod.fst then m.map Prod.fst else m.map Prod.fst ++ [key] := by
  unfold ValueMap.assign
  have e : (m.any (fun x => decide (x.1 = key)) = true) ↔ key ∈ m.map Prod.fst := by
    simp only [List.any_eq_true, decide_eq_true_eq, List.mem_map]
  by_cases h : key ∈ m.map Prod.fst
  · rw [if_pos (e.2 h), if_pos h, List.map_map]
    apply List.map_congr_left
    intro x _
    simp only [Function.comp]
    split
    · rename_i hx; exact hx.symm
    · rfl
  · rw [if_neg (fun h' => h (e.1 h')), if_neg h]
    simp

/-- What the loader holds after the values `texts`. -/
structure ValuesRead (texts : List Str) (m : ValueMap) : Prop where
  keys : m.map Prod.fst = firstSeen texts
  find : ∀ s k, m.find s = some k ↔ ∃ p : Nat, k = p ∧ LastPosition texts s p

theorem valuesRead_snoc {texts : List Str} {m : ValueMap} (h : ValuesRead texts m) (x : Str) :
    ValuesRead (texts ++ [x]) (m.assign x texts.length) := by
  refine ⟨by rw [assign_keys, h.keys, firstSeen_snoc]; simp only [mem_firstSeen], fun s k => ?_⟩
  rw [assign_find]
  by_cases hs : s = x
  · subst hs
    rw [if_pos rfl]
    constructor
    · intro e
      cases e
      refine ⟨_, rfl, by simp, fun q hq => ?_⟩
      rw [List.getElem?_eq_none (by simp; omega)]
      simp
    · rintro ⟨p, rfl, h1, h2⟩
      have h3 := h2 texts.length
      obtain ⟨h4, _⟩ := List.getElem?_eq_some_iff.1 h1
      rw [List.length_append, List.length_singleton] at h4
      by_cases hp : p < texts.length
      · exact absurd (by simp) (h3 hp)
      · rw [show p = texts.length by omega]
  · rw [if_neg hs, h.find]
    refine exists_congr fun p => and_congr_right fun _ => ?_
    constructor
    · rintro ⟨h1, h2⟩
      obtain ⟨h4, _⟩ := List.getElem?_eq_some_iff.1 h1
      refine ⟨by rw [List.getElem?_append_left h4]; exact h1, fun q hq => ?_⟩
      by_cases hq' : q < texts.length
      · rw [List.getElem?_append_left hq']; exact h2 q hq
      · rw [List.getElem?_append_right (by omega)]
        intro e
        obtain ⟨h5, h6⟩ := List.getElem?_eq_some_iff.1 e
        simp at h6
        exact hs h6.symm
    · rintro ⟨h1, h2⟩
      have hp : p < texts.length := by
        by_contra hp
        rw [List.getElem?_append_right (by omega)] at h1
        obtain ⟨h5, h6⟩ := List.getElem?_eq_some_iff.1 h1
        simp at h6
        exact hs h6.symm
      rw [List.getElem?_append_left hp] at h1
      refine ⟨h1, fun q hq e => h2 q hq ?_⟩
      obtain ⟨h5, _⟩ := List.getElem?_eq_some_iff.1 e
      rw [List.getElem?_append_left h5]
      exact e

theorem xmlValues_read {values : List (Option Str)} {m : ValueMap} {k : Int} (h : xmlValues values = .ok (m, k)) :
    ∃ texts, values = texts.map some ∧ ValuesRead texts m := by
  have key : ∀ (values : List (Option Str)) (done : List Str) (m0 : ValueMap), ValuesRead done m0 → ∀ m k,
      values.foldlM (fun (st : ValueMap × Int) v => (do
        let s ← xmlText v
        return (st.1.assign s st.2, st.2 + 1) : Except Fault (ValueMap × Int))) (m0, (done.length : Int)) = .ok (m, k) →
      ∃ texts, values = texts.map some ∧ ValuesRead (done ++ texts) m := by
    intro values
    induction values with
    | nil =>
      intro done m0 h0 m k h
      cases h
      exact ⟨[], rfl, by simpa using h0⟩
    | cons v values ih =>
      intro done m0 h0 m k h
      rw [List.foldlM_cons] at h
      cases v with
      | none => cases h
      | some s =>
        have h' := ih (done ++ [s]) _ (valuesRead_snoc h0 s) m k (by
          rw [List.length_append, List.length_singleton]
          push_cast
          exact h)
        obtain ⟨texts, e, hr⟩ := h'
        exact ⟨s :: texts, by rw [e]; rfl, by rw [List.append_cons]; exact hr⟩
  obtain ⟨texts, e, h⟩ := key values [] [] ⟨rfl, fun s k => by
    simp [ValueMap.find, LastPosition]⟩ m k h
  exact ⟨texts, e, by simpa using h⟩

theorem firstSeen_card (texts : List Str) : (firstSeen texts).length = texts.toFinset.card := by
  rw [← List.toFinset_card_of_nodup (C50_codes_injective texts).1]
  congr 1
  ext s
  simp [mem_firstSeen]

/-- What the loader holds of the discrete variables. -/
def ValuesHeld (v : XmlVar) (dim : Nat) (m : ValueMap) : Prop :=
  ∃ texts : List Str, v.values = texts.map some ∧ dim = texts.toFinset.card ∧
    ∀ s k, m.find s = some k ↔ ∃ p : Nat, k = p ∧ LastPosition texts s p

theorem xmlVariable_values {F F' : NetFile} {v : XmlVar} (h : xmlVariable F v = .ok F') {done : List XmlVar}
    (hd : F.net.nodes.length = done.length ∧ F.valueIds.length = done.length ∧ ∀ (i : Nat) (v : XmlVar), done[i]? = some v →
      ∃ s m, F.net.nodes[i]? = some s ∧ F.valueIds[i]? = some m ∧ ValuesHeld v s.dim m) :
    F'.net.nodes.length = (done ++ [v].filter (fun v => v.type = some (lit "discrete"))).length ∧
    F'.valueIds.length = (done ++ [v].filter (fun v => v.type = some (lit "discrete"))).length ∧
    ∀ (i : Nat) (w : XmlVar), (done ++ [v].filter (fun v => v.type = some (lit "discrete")))[i]? = some w →
      ∃ s m, F'.net.nodes[i]? = some s ∧ F'.valueIds[i]? = some m ∧ ValuesHeld w s.dim m := by
  obtain ⟨h1, h2, h3⟩ := hd
  unfold xmlVariable at h
  obtain ⟨type, ht, h⟩ := bind_eq_ok h
  have ht := xmlText_some ht
  by_cases hty : type = lit "discrete"
  · rw [if_pos hty] at h
    obtain ⟨name, _, h⟩ := bind_eq_ok h
    obtain ⟨⟨m, k⟩, hm, h⟩ := bind_eq_ok h
    cases h
    rw [List.filter_cons_of_pos (by simp [ht, hty]), List.filter_nil]
    refine ⟨by simp [h1], by simp [h2], fun i w hw => ?_⟩
    by_cases hi : i < done.length
    · rw [List.getElem?_append_left hi] at hw
      obtain ⟨s, m', a, b, c⟩ := h3 i w hw
      refine ⟨s, m', ?_, ?_, c⟩
      · simp only
        rw [List.getElem?_append_left (by omega)]; exact a
      · simp only
        rw [List.getElem?_append_left (by omega)]; exact b
    · obtain ⟨hlt, _⟩ := List.getElem?_eq_some_iff.1 hw
      rw [List.length_append, List.length_singleton] at hlt
      have hi : i = done.length := by omega
      subst hi
      simp only [List.getElem?_append_right (Nat.le_refl _), Nat.sub_self, List.getElem?_cons_zero, Option.some.injEq] at hw
      subst hw
      obtain ⟨texts, e, hr⟩ := xmlValues_read hm
      refine ⟨{ dim := m.length }, m, ?_, ?_, texts, e, ?_, hr.find⟩
      · simp only
        rw [← h1, List.getElem?_append_right (Nat.le_refl _)]; simp
      · simp only
        rw [← h2, List.getElem?_append_right (Nat.le_refl _)]; simp
      · show m.length = _
        rw [← firstSeen_card, ← hr.keys, List.length_map]
  · rw [if_neg hty] at h
    cases h
    rw [List.filter_cons_of_neg (by simp [ht, hty]), List.filter_nil, List.append_nil]
    exact ⟨h1, h2, h3⟩

theorem unconnected_values {doc : XmlDoc} {F : NetFile} (h : unconnectedNodes doc = .ok F) {i : Nat} {v : XmlVar}
    (hv : (doc.vars.filter (fun v => v.type = some (lit "discrete")))[i]? = some v) :
    ∃ s m, F.net.nodes[i]? = some s ∧ F.valueIds[i]? = some m ∧ ValuesHeld v s.dim m := by
  unfold unconnectedNodes at h
  split at h
  · cases h
  have key : ∀ (vars done : List XmlVar) (F0 F1 : NetFile), vars.foldlM xmlVariable F0 = .ok F1 →
      (F0.net.nodes.length = done.length ∧ F0.valueIds.length = done.length ∧ ∀ (i : Nat) (v : XmlVar), done[i]? = some v →
        ∃ s m, F0.net.nodes[i]? = some s ∧ F0.valueIds[i]? = some m ∧ ValuesHeld v s.dim m) →
      ∀ (i : Nat) (v : XmlVar), (done ++ vars.filter (fun v => v.type = some (lit "discrete")))[i]? = some v →
        ∃ s m, F1.net.nodes[i]? = some s ∧ F1.valueIds[i]? = some m ∧ ValuesHeld v s.dim m := by
    intro vars
    induction vars with
    | nil =>
      intro done F0 F1 h hd i v hv
      cases h
      exact hd.2.2 i v (by simpa using hv)
    | cons x vars ih =>
      intro done F0 F1 h hd i v hv
      rw [List.foldlM_cons] at h
      obtain ⟨F2, h2, h⟩ := bind_eq_ok h
      refine ih _ F2 F1 h (xmlVariable_values h2 hd) i v ?_
      rw [List.append_assoc, ← List.filter_append]
      exact hv
  exact key doc.vars [] _ F h ⟨rfl, rfl, fun i v hv => by simp at hv⟩ i v (by simpa using hv)

theorem xmlProbability_values {stod : Str → Except Fault K} {toCount : K → Int} {F F' : NetFile} {p : XmlProb}
    (h : xmlProbability stod toCount F p = .ok F') : F'.valueIds = F.valueIds ∧ F'.net.nodes.map NodeS.dim = F.net.nodes.map NodeS.dim := by
  unfold xmlProbability at h
  obtain ⟨s, h1, h⟩ := bind_eq_ok h
  obtain ⟨i, h2, h⟩ := bind_eq_ok h
  obtain ⟨given, h3, h⟩ := bind_eq_ok h
  obtain ⟨net, h4, h⟩ := bind_eq_ok h
  obtain ⟨text, _, h⟩ := bind_eq_ok h
  obtain ⟨tokens, _, h⟩ := bind_eq_ok h
  obtain ⟨entries, _, h⟩ := bind_eq_ok h
  obtain ⟨st, _, h⟩ := bind_eq_ok h
  obtain ⟨t, _, h⟩ := bind_eq_ok h
  cases h
  refine ⟨rfl, ?_⟩
  have key : ∀ (l : List Nat) (N N' : Net), l.foldlM (fun N g => N.setParentChild g i) N = .ok N' →
      N'.nodes.map NodeS.dim = N.nodes.map NodeS.dim := by
    intro l
    induction l with
    | nil => intro N N' h; cases h; rfl
    | cons g l ih =>
      intro N N' h
      rw [List.foldlM_cons] at h
      obtain ⟨N1, h1, h⟩ := bind_eq_ok h
      rw [ih N1 N' h, setParentChild_dims h1]
  exact key _ _ _ h4

/-- C126.  Whatever the document says: after a load that ends normally, the code of a value name is its last position among the `VALUE` elements of
the variable, and the number of values is the number of different names. -/
theorem C126_values {stod : Str → Except Fault K} {toCount : K → Int} {doc : XmlDoc} {F : NetFile} (h : loadXMLBIF stod toCount doc = .ok F)
    {i : Nat} {v : XmlVar} (hv : (doc.vars.filter (fun v => v.type = some (lit "discrete")))[i]? = some v) :
    ∃ (texts : List Str) (s : NodeS) (m : ValueMap), v.values = texts.map some ∧ F.net.nodes[i]? = some s ∧ F.valueIds[i]? = some m ∧
      s.dim = texts.toFinset.card ∧ ∀ t k, m.find t = some k ↔ ∃ p : Nat, k = p ∧ LastPosition texts t p := by
  unfold loadXMLBIF at h
  split at h
  · cases h
  obtain ⟨F0, h1, h⟩ := bind_eq_ok h
  obtain ⟨F1, h2, h⟩ := bind_eq_ok h
  obtain ⟨nm, _, h⟩ := bind_eq_ok h
  cases h
  obtain ⟨s, m, hs, hm, texts, e, hdim, hfind⟩ := unconnected_values h1 hv
  have key : ∀ (l : List XmlProb) (F0 F1 : NetFile), l.foldlM (xmlProbability stod toCount) F0 = .ok F1 →
      F1.valueIds = F0.valueIds ∧ F1.net.nodes.map NodeS.dim = F0.net.nodes.map NodeS.dim := by
    intro l
    induction l with
    | nil => intro F0 F1 h; cases h; exact ⟨rfl, rfl⟩
    | cons p l ih =>
      intro F0 F1 h
      rw [List.foldlM_cons] at h
      obtain ⟨F2, h1, h⟩ := bind_eq_ok h
      obtain ⟨a, b⟩ := ih F2 F1 h
      obtain ⟨c, d⟩ := xmlProbability_values h1
      exact ⟨a.trans c, b.trans d⟩
  obtain ⟨a, b⟩ := key _ _ _ h2
  have hd : (F1.net.nodes.map NodeS.dim)[i]? = some s.dim := by rw [b, List.getElem?_map, hs]; rfl
  rw [List.getElem?_map, Option.map_eq_some_iff] at hd
  obtain ⟨s', hs', hd⟩ := hd
  exact ⟨texts, s', m, e, hs', by rw [← hm, ← a], hd.trans hdim, hfind⟩

/-- C126.  The codes of all value names of a variable are below its number of values exactly if no name is repeated. -/
theorem C126_out_of_range {stod : Str → Except Fault K} {toCount : K → Int} {doc : XmlDoc} {F : NetFile} (h : loadXMLBIF stod toCount doc = .ok F)
    {i : Nat} {v : XmlVar} (hv : (doc.vars.filter (fun v => v.type = some (lit "discrete")))[i]? = some v) :
    ∃ (s : NodeS) (m : ValueMap), F.net.nodes[i]? = some s ∧ F.valueIds[i]? = some m ∧
      ((∀ t k, m.find t = some k → k < s.dim) ↔ v.values.Nodup) := by
  obtain ⟨texts, s, m, hvs, hs, hm, hdim, hfind⟩ := C126_values h hv
  refine ⟨s, m, hs, hm, ?_⟩
  rw [hvs, List.nodup_map_iff (Option.some_injective _), hdim]
  constructor
  · intro hall
    by_contra hnd
    have hlt : texts.toFinset.card < texts.length := by
      refine lt_of_le_of_ne (List.toFinset_card_le texts) fun e => hnd ?_
      exact Multiset.coe_nodup.1 (Multiset.toFinset_card_eq_card_iff_nodup.1 e)
    have hpos : texts.length - 1 < texts.length := by omega
    have := hall texts[texts.length - 1] ((texts.length - 1 : Nat) : Int) ((hfind _ _).2 ⟨_, rfl, List.getElem?_eq_getElem hpos, fun q hq => by
      rw [List.getElem?_eq_none (by omega)]
      simp⟩)
    omega
  · intro hnd t k hk
    obtain ⟨p, rfl, hp, _⟩ := (hfind t k).1 hk
    obtain ⟨hlt, _⟩ := List.getElem?_eq_some_iff.1 hp
    rw [List.toFinset_card_of_nodup hnd]
    exact_mod_cast hlt

/-- A variable with the values `yes`, `no`, `yes`. -/
def exampleRepeated : XmlDoc :=
  ⟨some (lit "net"), [⟨some (lit "Rain"), some (lit "discrete"), [some (lit "yes"), some (lit "no"), some (lit "yes")]⟩],
   [⟨some (lit "Rain"), [], some (lit "0.2 0.8")⟩]⟩

/-- C126 (finding).  A file that names a value twice is accepted; here the variable has two values and the code of `yes` is 2, for which no table has an
entry. -/
theorem C126_accepted : ∃ F s m, loadXMLBIF exampleStod exampleCount exampleRepeated = .ok F ∧ F.net.nodes[0]? = some s ∧ s.dim = 2 ∧
    F.valueIds[0]? = some m ∧ m.find (lit "yes") = some 2 := by
  have h : ((loadXMLBIF exampleStod exampleCount exampleRepeated).map (fun F => (F.net.nodes[0]?.map NodeS.dim,
      F.valueIds[0]?.bind (fun m => m.find (lit "yes"))))) = .ok (some 2, some 2) := by decide +kernel
  cases hF : loadXMLBIF exampleStod exampleCount exampleRepeated with
  | error e => rw [hF] at h; cases h
  | ok F =>
    rw [hF] at h
    simp only [Except.map, Except.ok.injEq, Prod.mk.injEq, Option.map_eq_some_iff, Option.bind_eq_some_iff] at h
    obtain ⟨⟨s, hs, hd⟩, m, hm, hf⟩ := h
    exact ⟨F, s, m, rfl, hs, hd, hm, hf⟩

-- the hypotheses of C126 are met: the variable `Wet` of the example document
example : ∃ F s m, loadXMLBIF exampleStod exampleCount exampleDoc = .ok F ∧ F.net.nodes[1]? = some s ∧ F.valueIds[1]? = some m ∧ s.dim = 3 ∧
    m.find (lit "wet") = some 2 := by
  obtain ⟨F, hF, _⟩ := C64_load exampleCount exampleGood exampleDescribes
  obtain ⟨texts, s, m, e, hs, hm, hd, hf⟩ := C126_values hF (i := 1) (v := exampleVars[1]) (by decide)
  have e' : texts = [lit "dry", lit "damp", lit "wet"] := by
    apply List.map_injective_iff.2 (Option.some_injective Str)
    rw [← e]
    decide
  subst e'
  refine ⟨F, s, m, hF, hs, hm, hd.trans (by decide), (hf _ _).2 ⟨2, rfl, by decide, fun q hq => ?_⟩⟩
  rw [List.getElem?_eq_none (by simp; omega)]
  simp

end FastPGM
