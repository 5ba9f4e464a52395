import Verif.Spec.ClassifyCommand
import Verif.Lemmas.LearnCommands

/-!
The network that the classification command learns, and its comparison with a reference network.
-/

namespace FastPGM

open Spec

variable {K : Type} {n : Nat} {G : Nat → Nat → Prop}

/-! ### The learned network -/

/-- What structure learning for the classification command delivers. -/
theorem rooted_struct [Field K] [LinearOrder K] {X : Execution K} {alpha : K} {g : Nat} {names : List Str} {train : List (List Str)} {D : Dataset}
    (ha : 0 ≤ alpha ∧ alpha ≤ 1) (hD : ReadsTrain n names train D) {k : Skeleton}
    (hk : learnSkeleton (ciTest X.log X.pchisq alpha (trainDims train n) (trainColumns train n) train.length) n 1000 g 128 X.order0 X.sched X.fuel = .ok k)
    (hrep : Represents n G k) (hV : ¬ Cyclic (VArrow G k.sep)) (hroom : k.edges = [] ∨ k.edges.length < n * (n - 1) / 2)
    (hfuel : k.edges.length < X.fuel) :
    ∃ N, structLearnFull X alpha g true true D = .ok (N, N.edges.length) ∧ PartiallyDirected (n + 1) (Joined (ParentOf N)) N ∧
      RootedGraph n G k.sep (ParentOf N) ∧ NetInv N ∧ N.topo = [] ∧ N.nodes.map NodeS.dim = trainDims train n ++ [2] := by
  obtain ⟨N, us, ds, ds1, h1, p1, c1, v1, hus, -⟩ := orientPhase_clean hrep (dims := trainDims train n) (by simp [trainDims]) hV (le_refl _) X.bits true
    (fun _ => hroom) hfuel
  have hus := hus rfl
  subst hus
  have h2 := p1.partiallyDirected c1
  have hinv := orientPhase_keep h1
  have hdims : N.nodes.map NodeS.dim = trainDims train n := orientPhase_dims h1
  have hlen : N.nodes.length = n := p1.len
  have hpar0 : ∀ x y, ParentOf N x y ↔ (x, y) ∈ ds := fun x y => by rw [← h2.children, p1.childOf]
  have hG : ∀ x y, G x y ↔ ParentOf N x y ∨ ParentOf N y x := by
    intro x y
    rw [c1.iff, hpar0, hpar0]
    simp
  have hlink : Linked N = G := by
    funext x y
    exact propext (hG x y).symm
  obtain ⟨roots, r1, r2, r3, r4, r5, -⟩ := findRoots_spec hinv
  have hlt : ∀ r ∈ roots, r < N.nodes.length := fun r hr => (r3 r hr).1
  obtain ⟨N', root, e, a1, a2, a3, a4, a5, -, -, a8, a9, a10, a11⟩ := addRootNode_spec r2 hlt
  obtain ⟨b1, b2, b3⟩ := rooted_inv hinv hlt a1 a2 a3 a5 a8 a9
  have hdim : N'.nodes.map NodeS.dim = trainDims train n ++ [2] := by
    rw [← hdims]
    apply List.ext_getElem?
    intro i
    rw [List.getElem?_map]
    rcases Nat.lt_trichotomy i N.nodes.length with hi | hi | hi
    · rw [a2 i _ (List.getElem?_eq_getElem hi), List.getElem?_append_left (by simpa using hi), List.getElem?_map, List.getElem?_eq_getElem hi]
      simp only [Option.map_some, Option.some.injEq]
      split
      · unfold NodeS.addParent
        split <;> rfl
      · rfl
    · subst hi
      rw [a3, List.getElem?_append_right (by simp)]
      simp [a4]
    · rw [List.getElem?_eq_none (by omega), List.getElem?_eq_none (by simp; omega)]
      rfl
  rw [hlen] at b2 b3 a10 a1 hlt
  have hpar : ∀ x y, ParentOf N' x y ↔ (x, y) ∈ ds ∨ (x = n ∧ y ∈ roots) := by
    intro x y
    rw [parentOf_iff, b2, ← parentOf_iff, hpar0]
  have hmem : ∀ x y, (x, y) ∈ ds ++ roots.map (fun r => (n, r)) ↔ (x, y) ∈ ds ∨ (x = n ∧ y ∈ roots) := by
    intro x y
    rw [List.mem_append, List.mem_map]
    constructor
    · rintro (h | ⟨r, hr, h⟩)
      · exact .inl h
      · cases h
        exact .inr ⟨rfl, hr⟩
    · rintro (h | ⟨rfl, h⟩)
      · exact .inl h
      · exact .inr ⟨y, h, rfl⟩
  have pd : Pd (n + 1) [] (ds ++ roots.map (fun r => (n, r))) N' := by
    refine ⟨a1, b1, ?_, by simp, by simp, ?_, ?_⟩
    · rw [a10, p1.edges, List.map_append, List.map_map]
      rfl
    · rw [List.nodup_append]
      refine ⟨p1.ds_nodup, ?_, ?_⟩
      · exact r2.map (fun a b h => by cases h; rfl)
      · rintro ⟨a, b⟩ ha q hq rfl
        obtain ⟨r, _, h⟩ := List.mem_map.1 hq
        cases h
        have := (p1.ds_lt ha).1
        omega
    · intro a b
      rw [hmem, b3, p1.dir]
  have hacyc : ¬ Cyclic (ParentOf N') := by
    have hch : ChildOf N' = ParentOf N' := by
      funext x y
      rw [pd.childOf, hmem, hpar]
    rw [← hch]
    exact b1.acyclic
  have cov : Cover (Joined (ParentOf N')) [] (ds ++ roots.map (fun r => (n, r))) := by
    refine ⟨fun a b h => h.symm, ?_, ?_, by simp⟩
    · rintro a (h | h) <;> exact hacyc ⟨a, Relation.TransGen.single h⟩
    · intro a b
      unfold Joined
      rw [hpar, hpar, hmem, hmem]
      simp
  have hq := pd.partiallyDirected cov
  have hNroot : ∀ y, ParentOf N' n y ↔ y ∈ roots := by
    intro y
    rw [hpar]
    constructor
    · rintro (h | h)
      · exact absurd (p1.ds_lt h).1 (by omega)
      · exact h.2
    · exact fun h => .inr ⟨rfl, h⟩
  refine ⟨N', ?_, hq, ⟨hacyc, ?_, ?_, ?_, ?_, ?_⟩, b1, by rw [a11]; exact orientPhase_topo h1, hdim⟩
  · unfold structLearnFull
    rw [hD.dims, ok_bind, checkAlpha_ok ha, ok_bind, hD.vars, hD.columns, hD.rows, hk, ok_bind, h1, ok_bind, if_pos rfl, r1, ok_bind, e, ok_bind, ← partially_count h2 hrep, a10]
    simp [pure_eq_ok]
  · intro x y h
    rcases (hpar x y).1 h with h | ⟨rfl, h⟩
    · have := p1.ds_lt h
      omega
    · exact ⟨le_refl _, hlt y h⟩
  · intro x y hx hy
    rw [hG, hpar0, hpar0, hpar, hpar]
    constructor
    · rintro (h | h)
      · exact .inl (.inl h)
      · exact .inr (.inl h)
    · rintro ((h | h) | (h | h))
      · exact .inl h
      · omega
      · exact .inr h
      · omega
  · intro x y h
    exact (hpar x y).2 (.inl (v1 x y h))
  · intro x y h h'
    rcases (hpar x y).1 h' with h' | ⟨rfl, -⟩
    · have hy := (r3 y ((hNroot y).1 h)).2
      have := (hpar0 x y).2 h'
      rw [parentOf_iff, hy] at this
      simp at this
    · rfl
  · intro i hi
    rw [← hlink]
    obtain ⟨r, hr, hri⟩ := r4 i (by omega)
    refine ⟨r, ⟨(hNroot r).2 hr, hri⟩, ?_⟩
    rintro r' ⟨hr', hri'⟩
    refine r5 r' ((hNroot r').1 hr') r hr (hri'.trans ?_)
    have hsym : ∀ a b, Relation.ReflTransGen (Linked N) a b → Relation.ReflTransGen (Linked N) b a := by
      intro a b hab
      induction hab with
      | refl => exact .refl
      | tail _ h ih => exact .head (Or.symm h) ih
    exact hsym _ _ hri

/-! ### The comparison -/

theorem foldlM_exit {α β : Type} {f : β → α → Except Fault β} {l : List α} (hstep : ∀ a, ∀ x ∈ l, (∃ b, f a x = .ok b) ∨ f a x = .error .exit)
    (hbad : ∃ x ∈ l, ∀ a, f a x = .error .exit) (a : β) : l.foldlM f a = .error .exit := by
  induction l generalizing a with
  | nil => obtain ⟨x, hx, -⟩ := hbad; simp at hx
  | cons y l ih =>
    rw [List.foldlM_cons]
    rcases hstep a y List.mem_cons_self with ⟨b, hb⟩ | hb
    · rw [hb, ok_bind]
      refine ih (fun a x hx => hstep a x (List.mem_cons_of_mem _ hx)) ?_ b
      obtain ⟨x, hx, hx'⟩ := hbad
      rcases List.mem_cons.1 hx with rfl | hx
      · rw [hx' a] at hb; cases hb
      · exact ⟨x, hx, hx'⟩
    · rw [hb]
      rfl

theorem foldlM_ok_or_exit {α β : Type} {f : β → α → Except Fault β} {l : List α} (hstep : ∀ a, ∀ x ∈ l, (∃ b, f a x = .ok b) ∨ f a x = .error .exit)
    (a : β) : (∃ b, l.foldlM f a = .ok b) ∨ l.foldlM f a = .error .exit := by
  induction l generalizing a with
  | nil => exact .inl ⟨a, rfl⟩
  | cons y l ih =>
    rw [List.foldlM_cons]
    rcases hstep a y List.mem_cons_self with ⟨b, hb⟩ | hb
    · rw [hb, ok_bind]
      exact ih (fun a x hx => hstep a x (List.mem_cons_of_mem _ hx)) b
    · rw [hb]
      exact .inr rfl

theorem find_ok_or_exit (N : Net) (i : Nat) : (∃ s, N.find i = .ok s) ∨ N.find i = .error .exit := by
  unfold Net.find
  split
  · exact .inl ⟨_, rfl⟩
  · exact .inr rfl

theorem getEdge_in_range {N : Net} {i j p : Nat} (h : N.getEdge i j = some p) : ∃ e, rdAt N.edges p = .ok e := by
  unfold Net.getEdge at h
  obtain ⟨hlt, -⟩ := List.findIdx?_eq_some_iff_getElem.1 h
  exact ⟨_, rdAt_ok (List.getElem?_eq_getElem hlt)⟩

theorem shdOneEdge_ok_or_exit (T L : Net) (i j : Nat) : (∃ d, shdOneEdge T L i j = .ok d) ∨ shdOneEdge T L i j = .error .exit := by
  unfold shdOneEdge
  rcases find_ok_or_exit T i with ⟨s1, h1⟩ | h1
  on_goal 2 => right; rw [h1]; rfl
  rcases find_ok_or_exit T j with ⟨s2, h2⟩ | h2
  on_goal 2 => right; rw [h1, h2]; rfl
  rcases find_ok_or_exit L i with ⟨s3, h3⟩ | h3
  on_goal 2 => right; rw [h1, h2, h3]; rfl
  rcases find_ok_or_exit L j with ⟨s4, h4⟩ | h4
  on_goal 2 => right; rw [h1, h2, h3, h4]; rfl
  left
  rw [h1, h2, h3, h4]
  simp only [ok_bind]
  cases hT : T.getEdge i j with
  | none => cases hL : L.getEdge i j <;> exact ⟨_, rfl⟩
  | some p =>
    cases hL : L.getEdge i j with
    | none => exact ⟨_, rfl⟩
    | some q =>
      obtain ⟨e, he⟩ := getEdge_in_range hT
      obtain ⟨e', he'⟩ := getEdge_in_range hL
      simp only [he, he', ok_bind]
      split <;> exact ⟨_, rfl⟩

theorem shdOneEdge_exit {T L : Net} {i j : Nat} (h : T.nodes.length ≤ j) : shdOneEdge T L i j = .error .exit := by
  unfold shdOneEdge
  have h2 : T.find j = .error .exit := by
    unfold Net.find
    rw [List.getElem?_eq_none h]
  rcases find_ok_or_exit T i with ⟨s1, h1⟩ | h1
  · rw [h1, h2]
    rfl
  · rw [h1]
    rfl

/-- A learned network with more nodes than the true one: the comparison ends the program. -/
theorem shdLoop_exit {T L : Net} (h : T.nodes.length < L.nodes.length) (h2 : 2 ≤ L.nodes.length) : shdLoop T L = .error .exit := by
  have hstep : ∀ i1 (a : Nat), ∀ x ∈ (List.range L.nodes.length).filter (fun i2 => i1 < i2),
      (∃ b, (do return a + (← shdOneEdge T L i1 x) : Except Fault Nat) = .ok b) ∨ (do return a + (← shdOneEdge T L i1 x) : Except Fault Nat) = .error .exit := by
    intro i1 a x _
    rcases shdOneEdge_ok_or_exit T L i1 x with ⟨d, hd⟩ | hd
    · exact .inl ⟨_, by rw [hd]; rfl⟩
    · exact .inr (by rw [hd]; rfl)
  unfold shdLoop
  refine foldlM_exit (fun a i1 _ => foldlM_ok_or_exit (hstep i1) a) ⟨0, List.mem_range.2 (by omega), fun a => ?_⟩ 0
  refine foldlM_exit (hstep 0) ⟨L.nodes.length - 1, ?_, fun a => ?_⟩ a
  · rw [List.mem_filter, List.mem_range]
    refine ⟨by omega, ?_⟩
    simp
    omega
  · rw [shdOneEdge_exit (by omega)]
    rfl

theorem orderEdge_nodes {T T' : Net} {o : List Edge} (h : T.orderEdge = .ok (o, T')) : T'.nodes.length = T.nodes.length := by
  unfold Net.orderEdge at h
  obtain ⟨⟨topo, T1⟩, h1, h⟩ := bind_ok h
  have e1 : T1.nodes = T.nodes := by
    unfold Net.getTopoOrd at h1
    split at h1
    · obtain ⟨o, _, h1⟩ := bind_ok h1
      cases h1
      rfl
    · cases h1
      rfl
  obtain ⟨st, _, h⟩ := bind_ok h
  split at h
  · cases h
  · cases h
    show T1.nodes.length = _
    rw [e1]

/-- The same for the whole comparison. -/
theorem getSHD_fails {T L : Net} {m : Nat} (h : T.nodes.length < L.nodes.length) (h2 : 2 ≤ L.nodes.length) :
    (∀ r, getSHD T L m ≠ .ok r) ∧ (∀ e es, L.edges = e :: es → e.isDirected = true → getSHD T L m = .error .exit) := by
  constructor
  · intro r hr
    unfold getSHD at hr
    obtain ⟨T', h1, hr⟩ := bind_ok hr
    have hT : T'.nodes.length = T.nodes.length := by
      obtain ⟨b, _, h1⟩ := bind_ok h1
      split at h1
      · cases h1
        rfl
      · obtain ⟨⟨o, T1⟩, e1, h1⟩ := bind_ok h1
        obtain ⟨T2, e2, h1⟩ := bind_ok h1
        obtain ⟨es, _, h1⟩ := bind_ok h1
        cases h1
        unfold Net.findCompelled at e2
        obtain ⟨es', _, e2⟩ := bind_ok e2
        cases e2
        have := orderEdge_nodes e1
        exact this
    rw [shdLoop_exit (by omega) h2] at hr
    cases hr
  · intro e es he hd
    unfold getSHD Net.isDAG
    rw [he, rdAt_ok (x := e) (by simp), ok_bind]
    simp only [hd, pure_eq_ok, ok_bind, if_true]
    rw [shdLoop_exit h h2]
    rfl

end FastPGM
