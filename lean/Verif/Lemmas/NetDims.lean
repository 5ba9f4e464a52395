import Verif.Lemmas.Network
import Verif.Spec.Params

/-!
Edge operations never change the domain sizes; the shape of a network after any history.
-/

namespace FastPGM

open Spec

theorem map_set_dim {l : List NodeS} {i : Nat} {s t : NodeS} (hs : l[i]? = some s) (h : t.dim = s.dim) :
    (l.set i t).map NodeS.dim = l.map NodeS.dim := by
  apply List.ext_getElem?
  intro j
  simp only [List.getElem?_map, List.getElem?_set]
  by_cases e : i = j
  · subst e
    have := (List.getElem?_eq_some_iff.1 hs).1
    simp [this, h]
    rw [← (List.getElem?_eq_some_iff.1 hs).2]
  · simp [e]

theorem find_eq_ok {N : Net} {i : Nat} {s : NodeS} (h : N.find i = .ok s) : N.nodes[i]? = some s := by
  unfold Net.find at h
  split at h
  · cases h; assumption
  · cases h

theorem bind_eq_ok {α β : Type} {x : Except Fault α} {f : α → Except Fault β} {b : β} (h : (x >>= f) = .ok b) :
    ∃ a, x = .ok a ∧ f a = .ok b := by
  cases x with
  | error e => cases h
  | ok a => exact ⟨a, rfl, h⟩

theorem setParentChild_dims {N N' : Net} {p c : Nat} (h : N.setParentChild p c = .ok N') :
    N'.nodes.map NodeS.dim = N.nodes.map NodeS.dim := by
  unfold Net.setParentChild at h
  obtain ⟨pn, h1, h⟩ := bind_eq_ok h
  obtain ⟨cn, h2, h⟩ := bind_eq_ok h
  cases h
  rw [map_set_dim (find_eq_ok h2) (by unfold NodeS.addParent; split <;> rfl)]
  exact map_set_dim (find_eq_ok h1) rfl

theorem removeParentChild_dims {N N' : Net} {p c : Nat} (h : N.removeParentChild p c = .ok N') :
    N'.nodes.map NodeS.dim = N.nodes.map NodeS.dim := by
  unfold Net.removeParentChild at h
  obtain ⟨pn, h1, h⟩ := bind_eq_ok h
  obtain ⟨cn, h2, h⟩ := bind_eq_ok h
  cases h
  rw [map_set_dim (find_eq_ok h2) (by unfold NodeS.removeParent; split <;> rfl)]
  exact map_set_dim (find_eq_ok h1) rfl

theorem apply_dims {N N' : Net} {op : EdgeOp} (h : N.apply op = .ok N') :
    N'.nodes.map NodeS.dim = N.nodes.map NodeS.dim := by
  cases op with
  | addDirected p c =>
    unfold Net.apply Net.addDirectedEdge at h
    obtain ⟨⟨N1, b⟩, h1, h⟩ := bind_eq_ok h
    cases h
    obtain ⟨_, _, h1⟩ := bind_eq_ok h1
    obtain ⟨_, _, h1⟩ := bind_eq_ok h1
    obtain ⟨N2, h2, h1⟩ := bind_eq_ok h1
    obtain ⟨b', _, h1⟩ := bind_eq_ok h1
    cases b' with
    | true =>
      rw [if_pos rfl] at h1
      obtain ⟨N3, h3, h1⟩ := bind_eq_ok h1
      cases h1
      rw [removeParentChild_dims h3, setParentChild_dims h2]
    | false =>
      rw [if_neg (by simp)] at h1
      cases h1
      show N2.nodes.map NodeS.dim = _
      exact setParentChild_dims h2
  | deleteDirected p c =>
    unfold Net.apply Net.deleteDirectedEdge at h
    obtain ⟨⟨N1, b⟩, h1, h⟩ := bind_eq_ok h
    cases h
    obtain ⟨_, _, h1⟩ := bind_eq_ok h1
    obtain ⟨_, _, h1⟩ := bind_eq_ok h1
    split at h1
    · cases h1; rfl
    · obtain ⟨N3, h3, h1⟩ := bind_eq_ok h1
      cases h1
      show N3.nodes.map NodeS.dim = _
      exact removeParentChild_dims h3
  | addUndirected p c =>
    unfold Net.apply Net.addUndirectedEdge at h
    obtain ⟨_, _, h1⟩ := bind_eq_ok h
    obtain ⟨_, _, h1⟩ := bind_eq_ok h1
    cases h1; rfl
  | deleteUndirected p c =>
    unfold Net.apply Net.deleteUndirectedEdge at h
    obtain ⟨⟨N1, b⟩, h1, h⟩ := bind_eq_ok h
    cases h
    simp only at h1
    split at h1
    all_goals
      obtain ⟨_, _, h1⟩ := bind_eq_ok h1
      obtain ⟨_, _, h1⟩ := bind_eq_ok h1
      split at h1
      · cases h1; rfl
      · cases h1; rfl

theorem run_dims {N N' : Net} {ops : List EdgeOp} (h : N.run ops = .ok N') :
    N'.nodes.map NodeS.dim = N.nodes.map NodeS.dim := by
  unfold Net.run at h
  induction ops generalizing N with
  | nil => cases h; rfl
  | cons op ops ih =>
    rw [List.foldlM_cons] at h
    obtain ⟨N1, h1, h2⟩ := bind_eq_ok h
    rw [ih h2, apply_dims h1]

/-- The shape of the network after any history of edge operations. -/
theorem run_shape {dims : List Nat} {ops : List EdgeOp} (hops : ∀ op ∈ ops, OpInRange dims.length op)
    (hpos : ∀ d ∈ dims, 0 < d) :
    ∃ N, (Net.empty dims).run ops = .ok N ∧ N.nodes.length = dims.length ∧
      NetShape (fun i => dims.getD i 0) N ∧ NetInv N := by
  obtain ⟨N, h1, h2, h3⟩ := run_inv (empty_inv dims) (ops := ops) (by simpa [Net.empty] using hops)
  have hlen : N.nodes.length = dims.length := by rw [h3]; simp [Net.empty]
  refine ⟨N, h1, hlen, ?_, h2⟩
  have hd : N.nodes.map NodeS.dim = dims := by
    rw [run_dims h1]
    simp [Net.empty, Function.comp_def]
  refine ⟨fun i s hs => ?_, fun i s hs => ?_⟩
  · have h4 : (N.nodes.map NodeS.dim)[i]? = some s.dim := by rw [List.getElem?_map, hs]; rfl
    rw [hd] at h4
    have h5 : dims.getD i 0 = s.dim := by rw [List.getD_eq_getElem?_getD, h4]; rfl
    exact ⟨h5.symm, by rw [h5]; exact hpos _ (List.mem_of_getElem? h4)⟩
  · have hpa : N.pa i = s.parents := by simp [Net.pa, hs]
    refine ⟨hpa ▸ h2.wf.pa_sorted i, fun p hp => ?_, fun hmem => ?_⟩
    · exact (h2.wf.lt ((h2.wf.sym p i).2 (hpa ▸ hp))).1
    · have : i ∈ N.ch i := (h2.wf.sym i i).2 (hpa ▸ hmem)
      refine h2.acyclic ⟨i, Relation.TransGen.single ?_⟩
      refine ⟨s, hs, ?_⟩
      simpa [Net.ch, hs] using this

end FastPGM
