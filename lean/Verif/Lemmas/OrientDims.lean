import Verif.Lemmas.Orientation5
import Verif.Lemmas.NetDims

/-!
The orientation phase keeps the numbers of values of the nodes.
-/

namespace FastPGM

open Spec

/-- The numbers of values of the nodes. -/
def HasDims (dims : List Nat) (N : Net) : Prop := N.nodes.map NodeS.dim = dims

/-- The numbers of values of the nodes, and no topological order has been stored. -/
def HasShape (dims : List Nat) (N : Net) : Prop := N.nodes.map NodeS.dim = dims ∧ N.topo = []

theorem setParentChild_topo {N N' : Net} {p c : Nat} (h : N.setParentChild p c = .ok N') : N'.topo = N.topo := by
  unfold Net.setParentChild at h
  obtain ⟨pn, h1, h⟩ := bind_eq_ok h
  obtain ⟨cn, h2, h⟩ := bind_eq_ok h
  cases h
  rfl

theorem removeParentChild_topo {N N' : Net} {p c : Nat} (h : N.removeParentChild p c = .ok N') : N'.topo = N.topo := by
  unfold Net.removeParentChild at h
  obtain ⟨pn, h1, h⟩ := bind_eq_ok h
  obtain ⟨cn, h2, h⟩ := bind_eq_ok h
  cases h
  rfl

theorem apply_topo {N N' : Net} {op : EdgeOp} (h : N.apply op = .ok N') : N'.topo = N.topo := by
  cases op with
  | addDirected p c =>
    unfold Net.apply Net.addDirectedEdge at h
    obtain ⟨⟨N1, b⟩, h1, h⟩ := bind_eq_ok h
    cases h
    obtain ⟨_, _, h1⟩ := bind_eq_ok h1
    obtain ⟨_, _, h1⟩ := bind_eq_ok h1
    obtain ⟨N2, h2, h1⟩ := bind_eq_ok h1
    obtain ⟨b', _, h1⟩ := bind_eq_ok h1
    cases b' with
    | true =>
      rw [if_pos rfl] at h1
      obtain ⟨N3, h3, h1⟩ := bind_eq_ok h1
      cases h1
      rw [removeParentChild_topo h3, setParentChild_topo h2]
    | false =>
      rw [if_neg (by simp)] at h1
      cases h1
      show N2.topo = _
      exact setParentChild_topo h2
  | deleteDirected p c =>
    unfold Net.apply Net.deleteDirectedEdge at h
    obtain ⟨⟨N1, b⟩, h1, h⟩ := bind_eq_ok h
    cases h
    obtain ⟨_, _, h1⟩ := bind_eq_ok h1
    obtain ⟨_, _, h1⟩ := bind_eq_ok h1
    split at h1
    · cases h1; rfl
    · obtain ⟨N3, h3, h1⟩ := bind_eq_ok h1
      cases h1
      show N3.topo = _
      exact removeParentChild_topo h3
  | addUndirected p c =>
    unfold Net.apply Net.addUndirectedEdge at h
    obtain ⟨_, _, h1⟩ := bind_eq_ok h
    obtain ⟨_, _, h1⟩ := bind_eq_ok h1
    cases h1; rfl
  | deleteUndirected p c =>
    unfold Net.apply Net.deleteUndirectedEdge at h
    obtain ⟨⟨N1, b⟩, h1, h⟩ := bind_eq_ok h
    cases h
    simp only at h1
    split at h1
    all_goals
      obtain ⟨_, _, h1⟩ := bind_eq_ok h1
      obtain ⟨_, _, h1⟩ := bind_eq_ok h1
      split at h1
      · cases h1; rfl
      · cases h1; rfl

theorem skeletonNet_dims (dims : List Nat) (k : Skeleton) : HasShape dims (skeletonNet dims k) := by
  simp [HasShape, skeletonNet, Net.empty, Function.comp_def]

variable {dims : List Nat}

theorem addDirected_dims {N N' : Net} {r : Bool} (h : HasShape dims N) {p c : Nat} (e : N.addDirectedEdge p c = .ok (N', r)) : HasShape dims N' := by
  have : N.apply (.addDirected p c) = .ok N' := by rw [Net.apply, e]; rfl
  exact ⟨(apply_dims this).trans h.1, (apply_topo this).trans h.2⟩

theorem deleteDirected_dims {N N' : Net} {r : Bool} (h : HasShape dims N) {p c : Nat} (e : N.deleteDirectedEdge p c = .ok (N', r)) :
    HasShape dims N' := by
  have : N.apply (.deleteDirected p c) = .ok N' := by rw [Net.apply, e]; rfl
  exact ⟨(apply_dims this).trans h.1, (apply_topo this).trans h.2⟩

theorem deleteUndirected_dims {N N' : Net} {r : Bool} (h : HasShape dims N) {p c : Nat} (e : N.deleteUndirectedEdge p c = .ok (N', r)) :
    HasShape dims N' := by
  have : N.apply (.deleteUndirected p c) = .ok N' := by rw [Net.apply, e]; rfl
  exact ⟨(apply_dims this).trans h.1, (apply_topo this).trans h.2⟩

theorem addUndirected_dims {N N' : Net} (h : HasShape dims N) {p c : Nat} (e : N.addUndirectedEdge p c = .ok N') : HasShape dims N' := by
  have : N.apply (.addUndirected p c) = .ok N' := by rw [Net.apply, e]
  exact ⟨(apply_dims this).trans h.1, (apply_topo this).trans h.2⟩

theorem orientTriple_dims {N N' : Net} (h : HasShape dims N) {a b c : Nat} (e : orientTriple N a b c = .ok N') : HasShape dims N' := by
  unfold orientTriple at e
  obtain ⟨⟨N1, d1⟩, e1, e⟩ := bind_ok e
  have h1 := deleteDirected_dims h e1
  obtain ⟨⟨N2, u1⟩, e2, e⟩ := bind_ok e
  have h2 : HasShape dims N2 := by
    cases d1 with
    | true => cases e2; exact h1
    | false => exact deleteUndirected_dims h1 e2
  obtain ⟨⟨N3, d2⟩, e3, e⟩ := bind_ok e
  have h3 := deleteDirected_dims h2 e3
  obtain ⟨⟨N4, u2⟩, e4, e⟩ := bind_ok e
  have h4 : HasShape dims N4 := by
    cases d2 with
    | true => cases e4; exact h3
    | false => exact deleteUndirected_dims h3 e4
  simp only at e
  obtain ⟨⟨N5, b1⟩, e5, e⟩ := bind_ok e
  have h5 : HasShape dims N5 := by
    split at e5
    · exact addDirected_dims h4 e5
    · cases e5; exact h4
  obtain ⟨⟨N6, b2⟩, e6, e⟩ := bind_ok e
  have h6 : HasShape dims N6 := by
    split at e6
    · exact addDirected_dims h5 e6
    · cases e6; exact h5
  simp only at e
  split at e
  · obtain ⟨N7, e7, e⟩ := bind_ok e
    have h7 : HasShape dims N7 := by
      split at e7
      · split at e7
        · obtain ⟨⟨M, r⟩, f, g⟩ := bind_ok e7
          cases g
          exact addDirected_dims h6 f
        · exact addUndirected_dims h6 e7
      · cases e7; exact h6
    split at e
    · split at e
      · obtain ⟨⟨M, r⟩, f, g⟩ := bind_ok e
        cases g
        exact addDirected_dims h7 f
      · exact addUndirected_dims h7 e
    · cases e; exact h7
  · cases e
    exact h6

theorem foldlM_dims {α : Type} {f : Net → α → Except Fault Net} (hf : ∀ N x N', HasShape dims N → f N x = .ok N' → HasShape dims N') (l : List α) {N N' : Net}
    (h : HasShape dims N) (e : l.foldlM f N = .ok N') : HasShape dims N' := by
  induction l generalizing N with
  | nil => cases e; exact h
  | cons x l ih =>
    rw [List.foldlM_cons] at e
    obtain ⟨N1, e1, e⟩ := bind_ok e
    exact ih (hf _ _ _ h e1) e

theorem orientV_dims {adj : List (List Nat)} {sep : Sepset} {N N' : Net} (h : HasShape dims N) (e : orientVStructure adj sep N = .ok N') : HasShape dims N' := by
  unfold orientVStructure at e
  refine foldlM_dims ?_ _ h e
  intro N b N' h e
  obtain ⟨l, _, e⟩ := bind_ok e
  split at e
  · cases e; exact h
  · obtain ⟨gen, _, e⟩ := bind_ok e
    obtain ⟨L, _, e⟩ := bind_ok e
    refine foldlM_dims ?_ _ h e
    intro N ch N' h e
    unfold orientPair at e
    obtain ⟨s, _, e⟩ := bind_ok e
    obtain ⟨a, _, e⟩ := bind_ok e
    obtain ⟨c, _, e⟩ := bind_ok e
    obtain ⟨r, _, e⟩ := bind_ok e
    split at e
    · cases e; exact h
    · split at e
      · cases e; exact h
      · exact orientTriple_dims h e

theorem direct_dims {cap : Nat} {N N' : Net} {r : Bool} (h : HasShape dims N) {a c : Nat} (e : direct cap N a c = .ok (N', r)) : HasShape dims N' := by
  unfold direct at e
  simp only at e
  obtain ⟨⟨N1, b⟩, e1, e⟩ := bind_ok e
  have h1 := addDirected_dims h e1
  cases b with
  | false => cases e; exact h1
  | true =>
    simp only [if_true] at e
    split at e
    · cases e
    · obtain ⟨⟨N2, b2⟩, e2, e⟩ := bind_ok e
      cases e
      exact deleteUndirected_dims h1 e2

theorem rule1_dims {cap : Nat} {adj : List (List Nat)} {b c : Nat} (as : List Nat) {N : Net} {out : Net × Bool} (h : HasShape dims N)
    (e : rule1Loop cap adj b c as N = .ok out) : HasShape dims out.1 := by
  induction as generalizing N with
  | nil => cases e; exact h
  | cons a as ih =>
    rw [rule1Loop] at e
    obtain ⟨r, _, e⟩ := bind_ok e
    split at e
    · exact ih h e
    · obtain ⟨⟨N1, r1⟩, e1, e⟩ := bind_ok e
      have h1 := direct_dims h e1
      cases r1 with
      | true => cases e; exact h1
      | false => exact ih h1 e

theorem rule2_dims {cap a c : Nat} (bs : List Nat) {N : Net} {out : Net × Bool} (h : HasShape dims N)
    (e : rule2Loop cap a c bs N = .ok out) : HasShape dims out.1 := by
  induction bs generalizing N with
  | nil => cases e; exact h
  | cons b bs ih =>
    rw [rule2Loop] at e
    obtain ⟨r, _, e⟩ := bind_ok e
    obtain ⟨r', _, e⟩ := bind_ok e
    split at e
    · obtain ⟨⟨N1, r1⟩, e1, e⟩ := bind_ok e
      have h1 := direct_dims h e1
      cases r1 with
      | true => cases e; exact h1
      | false => exact ih h1 e
    · exact ih h e

theorem rule3_dims {cap a d : Nat} {adj : List (List Nat)} (ps : List (Nat × Nat)) {N : Net} {out : Net × Bool} (h : HasShape dims N)
    (e : rule3Loop cap adj a d ps N = .ok out) : HasShape dims out.1 := by
  induction ps generalizing N with
  | nil => cases e; exact h
  | cons p ps ih =>
    obtain ⟨b, c⟩ := p
    rw [rule3Loop] at e
    obtain ⟨r, _, e⟩ := bind_ok e
    split at e
    · exact ih h e
    · obtain ⟨⟨N1, r1⟩, e1, e⟩ := bind_ok e
      have h1 : HasShape dims N1 := by
        unfold r3Helper at e1
        obtain ⟨_, _, e1⟩ := bind_ok e1
        obtain ⟨_, _, e1⟩ := bind_ok e1
        obtain ⟨_, _, e1⟩ := bind_ok e1
        obtain ⟨_, _, e1⟩ := bind_ok e1
        split at e1
        · exact direct_dims h e1
        · cases e1; exact h
      cases r1 with
      | true => cases e; exact h1
      | false => exact ih h1 e

theorem tryRules_dims {cap x y : Nat} {adj : List (List Nat)} {N : Net} {out : Net × Bool} (h : HasShape dims N)
    (e : tryRules cap adj N x y = .ok out) : HasShape dims out.1 := by
  have k1 : ∀ {N : Net} {out : Net × Bool} {x y : Nat}, HasShape dims N → rule1 cap adj N x y = .ok out → HasShape dims out.1 := by
    intro N out x y h e
    unfold rule1 at e
    obtain ⟨s, _, e⟩ := bind_ok e
    exact rule1_dims _ h e
  have k2 : ∀ {N : Net} {out : Net × Bool} {x y : Nat}, HasShape dims N → rule2 cap adj N x y = .ok out → HasShape dims out.1 := by
    intro N out x y h e
    unfold rule2 at e
    obtain ⟨s, _, e⟩ := bind_ok e
    exact rule2_dims _ h e
  have k3 : ∀ {N : Net} {out : Net × Bool} {x y : Nat}, HasShape dims N → rule3 cap adj N x y = .ok out → HasShape dims out.1 := by
    intro N out x y h e
    unfold rule3 at e
    obtain ⟨s, _, e⟩ := bind_ok e
    exact rule3_dims _ h e
  unfold tryRules at e
  obtain ⟨⟨N1, r1⟩, e1, e⟩ := bind_ok e
  have h1 := k1 h e1
  cases r1 with
  | true => cases e; exact h1
  | false =>
  simp only [Bool.false_eq_true, if_false] at e
  obtain ⟨⟨N2, r2⟩, e2, e⟩ := bind_ok e
  have h2 := k1 h1 e2
  cases r2 with
  | true => cases e; exact h2
  | false =>
  simp only [Bool.false_eq_true, if_false] at e
  obtain ⟨⟨N3, r3⟩, e3, e⟩ := bind_ok e
  have h3 := k2 h2 e3
  cases r3 with
  | true => cases e; exact h3
  | false =>
  simp only [Bool.false_eq_true, if_false] at e
  obtain ⟨⟨N4, r4⟩, e4, e⟩ := bind_ok e
  have h4 := k2 h3 e4
  cases r4 with
  | true => cases e; exact h4
  | false =>
  simp only [Bool.false_eq_true, if_false] at e
  obtain ⟨⟨N5, r5⟩, e5, e⟩ := bind_ok e
  have h5 := k3 h4 e5
  cases r5 with
  | true => cases e; exact h5
  | false =>
  simp only [Bool.false_eq_true, if_false] at e
  exact k3 h5 e

theorem impliedPass_dims {cap : Nat} {adj : List (List Nat)} (fuel i : Nat) {N : Net} {o : Bool} {out : Net × Bool} (h : HasShape dims N)
    (e : impliedPass cap adj fuel i N o = .ok out) : HasShape dims out.1 := by
  induction fuel generalizing i N o with
  | zero => cases e
  | succ fuel ih =>
    rw [impliedPass] at e
    split at e
    · cases e; exact h
    · obtain ⟨u, _, e⟩ := bind_ok e
      split at e
      · obtain ⟨⟨N1, r1⟩, e1, e⟩ := bind_ok e
        have h1 := tryRules_dims h e1
        simp only at e
        split at e
        · exact ih _ h1 e
        · exact ih _ h1 e
      · cases e; exact h

theorem orientImplied_dims {cap fuel' : Nat} {adj : List (List Nat)} (fuel : Nat) {N N' : Net} (h : HasShape dims N)
    (e : orientImplied cap adj fuel' fuel N = .ok N') : HasShape dims N' := by
  induction fuel generalizing N with
  | zero => cases e
  | succ fuel ih =>
    rw [orientImplied] at e
    obtain ⟨⟨N1, r1⟩, e1, e⟩ := bind_ok e
    have h1 := impliedPass_dims _ _ h e1
    simp only at e
    split at e
    · exact ih h1 e
    · cases e; exact h1

theorem directLeft_dims {cap : Nat} {adj : List (List Nat)} {bits : Nat → Bool} (fuel j : Nat) {N N' : Net} (h : HasShape dims N)
    (e : directLeftEdges cap adj bits fuel j N = .ok N') : HasShape dims N' := by
  induction fuel generalizing j N with
  | zero => cases e
  | succ fuel ih =>
    rw [directLeftEdges] at e
    split at e
    · cases e; exact h
    · obtain ⟨u, _, e⟩ := bind_ok e
      split at e
      · simp only at e
        obtain ⟨⟨N1, r1⟩, e1, e⟩ := bind_ok e
        have h1 := direct_dims h e1
        simp only at e
        split at e
        · exact ih _ h1 e
        · obtain ⟨⟨N2, r2⟩, e2, e⟩ := bind_ok e
          have h2 := direct_dims h1 e2
          simp only at e
          split at e
          · exact ih _ h2 e
          · cases e
      · cases e; exact h

theorem orientPhase_shape {cap fuel : Nat} {bits : Nat → Bool} {dag : Bool} {k : Skeleton} {N : Net}
    (e : orientPhase cap bits dag fuel dims k = .ok N) : HasShape dims N := by
  unfold orientPhase at e
  obtain ⟨N1, e1, e⟩ := bind_ok e
  have h1 := orientV_dims (skeletonNet_dims dims k) e1
  obtain ⟨N2, e2, e⟩ := bind_ok e
  have h2 := orientImplied_dims _ h1 e2
  split at e
  · exact directLeft_dims _ _ h2 e
  · cases e; exact h2

theorem orientPhase_dims {cap fuel : Nat} {bits : Nat → Bool} {dag : Bool} {k : Skeleton} {N : Net}
    (e : orientPhase cap bits dag fuel dims k = .ok N) : HasDims dims N := (orientPhase_shape e).1

theorem orientPhase_topo {cap fuel : Nat} {bits : Nat → Bool} {dag : Bool} {k : Skeleton} {N : Net}
    (e : orientPhase cap bits dag fuel dims k = .ok N) : N.topo = [] := (orientPhase_shape e).2

end FastPGM
