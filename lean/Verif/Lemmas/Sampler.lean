import Verif.Model.Sampler
import Verif.Spec.Sampler
import Verif.Props.Params
import Verif.Props.Graph
import Verif.Lemmas.JTMoral
import Verif.Lemmas.Compare2

/-!
Forward sampling: the reduced table of a node, one sample, all samples.
-/

namespace FastPGM

open Spec

variable {K ω : Type}

/-- The column of a table on `v` and other variables, as `v` varies. -/
def columnOf [Zero K] (card : Nat → Nat) (T : Table K) (v : Nat) (a : Assignment) : List K :=
  tab (card v) (fun x => value T (a.set v x))

theorem asg_set {s : List Nat} {v k : Nat} (h : v < s.length) : asg (s.set v k) = (asg s).set v k := by
  funext w
  unfold asg Assignment.set
  simp only [List.getD_eq_getElem?_getD, List.getElem?_set]
  by_cases hw : w = v
  · subst hw; simp [h]
  · rw [if_neg (fun e => hw e.symm), if_neg hw]

theorem set_map_other {ps : List Nat} {a : Assignment} {v x : Nat} (h : v ∉ ps) : ps.map (a.set v x) = ps.map a :=
  List.map_congr_left (fun p hp => by
    unfold Assignment.set
    rw [if_neg]
    rintro rfl
    exact h hp)

/-- `GetReducedPotentials` returns the column selected by the parents' values. -/
theorem getReducedPotentials_eq [Zero K] {card : Nat → Nat} {T : Table K} (h : WellFormed card T) {v : Nat} {ps : List Nat}
    (hv : T.vars = v :: ps) {s : List Nat} (hs : ∀ p ∈ ps, p < s.length) (hr : InRange card ps (asg s)) (b : K) :
    getReducedPotentials T (List.replicate (card v) b) s = .ok (columnOf card T v (asg s)) := by
  have hd : T.dims = card v :: ps.map card := by rw [h.dims, hv]; rfl
  have hn := h.nodup
  rw [hv, List.nodup_cons] at hn
  have hcol : ∀ x, value T ((asg s).set v x) = T.pot.getD (x * (ps.map card).prod + rank (ps.map card) (ps.map (asg s))) 0 := by
    intro x
    rw [value, hd, hv, List.map_cons, set_map_other hn.1, rank]
    simp [Assignment.set]
  unfold getReducedPotentials
  by_cases h1 : T.vars.length = 1
  · rw [if_pos h1]
    have hps : ps = [] := by
      rw [hv, List.length_cons] at h1
      exact List.length_eq_zero_iff.1 (by omega)
    congr 1
    have hlen : T.pot.length = card v := by rw [h.length, h.size, hd, hps]; simp
    refine tab_ext hlen ?_
    intro x hx
    rw [hcol, hps]
    simp [rank, List.getElem?_eq_getElem (show x < T.pot.length by omega)]
  · rw [if_neg h1]
    have hc := h.cumEq
    rw [hd, cumLevels_cons] at hc
    rw [hc, rd_ok (a := (ps.map card).prod) rfl, ok_bind, hv, List.tail_cons]
    rw [mapM_ok (f := rd s) (g := asg s) (fun p hp => by
      rw [rd_getElem (hs p hp)]
      unfold asg
      rw [getD_of_lt (hs p hp)]), ok_bind, hd, rd_ok (a := card v) rfl, ok_bind]
    have hpos : 0 < card v := h.pos v (by rw [hv]; simp)
    rw [show max (card v) 1 = card v by omega, replicate_eq_tab]
    refine foldlM_pointwise ?_
    intro x hx r _
    have hlt : rank (ps.map card) (ps.map (asg s)) + x * (ps.map card).prod < T.pot.length := by
      have hin : InRange card (v :: ps) ((asg s).set v x) := by
        intro p hp
        rcases List.mem_cons.1 hp with rfl | hp
        · simpa [Assignment.set] using hx
        · have : p ≠ v := fun e => hn.1 (e ▸ hp)
          simpa [Assignment.set, this] using hr p hp
      have := rank_lt (cfgIn_map hin)
      rw [List.map_cons, List.map_cons, rank, set_map_other hn.1] at this
      rw [h.length, h.size, hd]
      simp [Assignment.set] at this ⊢
      omega
    rw [getRelativeIndex, List.tail_cons, getIndex_cumLevels, rd_getElem hlt, ok_bind, wr_tab hx]
    congr 1
    apply tab_congr
    intro j _
    by_cases hj : j = x
    · subst hj
      rw [if_pos rfl, if_pos rfl, hcol, getD_of_lt (by omega)]
      congr 1
      omega
    · rw [if_neg hj, if_neg hj]

/-- Everything sampling needs to know about the tables. -/
structure TablesOK [Zero K] [LE K] [LT K] (card : Nat → Nat) (n : Nat) (pa : Nat → List Nat) (cpts : List (Table K)) : Prop where
  get : ∀ v < n, ∃ T, cpts[v]? = some T ∧ WellFormed card T ∧ T.vars = v :: pa v ∧
    ∀ a, InRange card (pa v) a → (∀ p ∈ columnOf card T v a, 0 ≤ p) ∧ ∃ p ∈ columnOf card T v a, 0 < p
  lt : ∀ v < n, ∀ p ∈ pa v, p < n

/-- Variable `v` of the sample was drawn, with randomness `r`, from its column at the sample's values. -/
def DrawnAt [Zero K] [LT K] (draw : List K → ω → Except Fault Nat) (card : Nat → Nat) (cpts : List (Table K)) (s : List Nat) (v : Nat) (r : ω) : Prop :=
  ∃ T, cpts[v]? = some T ∧ draw (columnOf card T v (asg s)) r = .ok (asg s v) ∧ asg s v < card v ∧ 0 < value T (asg s)

theorem columnOf_congr [Zero K] {card : Nat → Nat} {T : Table K} {v : Nat} {ps : List Nat} (hv : T.vars = v :: ps) {a b : Assignment}
    (h : ∀ p ∈ ps, a p = b p) : columnOf card T v a = columnOf card T v b := by
  unfold columnOf
  apply tab_congr
  intro x _
  apply value_dependsOn
  intro w hw
  rw [hv] at hw
  unfold Assignment.set
  rcases List.mem_cons.1 hw with rfl | hw
  · simp
  · rw [h w hw]

/-- The state of a sample in which the variables `done` have been drawn. -/
structure Sampled [Zero K] [LE K] [LT K] (draw : List K → ω → Except Fault Nat) (card : Nat → Nat) (n : Nat) (pa : Nat → List Nat)
    (cpts : List (Table K)) (rnd : Nat → ω) (ord done : List Nat) (s : List Nat) : Prop where
  length : s.length = n
  drawn : ∀ v ∈ done, DrawnAt draw card cpts s v (rnd (ord.idxOf v))

theorem sampleOne_spec [Zero K] [LE K] [LT K] {draw : List K → ω → Except Fault Nat} (hdraw : DrawsPossible draw) {card : Nat → Nat} {n : Nat}
    {pa : Nat → List Nat} {cpts : List (Table K)} (hT : TablesOK card n pa cpts) (rnd : Nat → ω) {ord : List Nat} (hnd : ord.Nodup)
    (hmem : ∀ v, v ∈ ord ↔ v < n) (hbef : ∀ x y, x ∈ pa y → y < n → ord.idxOf x < ord.idxOf y) {s0 : List Nat} (hs0 : s0.length = n) :
    ∃ s, sampleOne draw cpts ord rnd s0 = .ok s ∧ Sampled draw card n pa cpts rnd ord ord s := by
  suffices H : ∀ (rest done : List Nat) (s : List Nat), ord = done ++ rest → Sampled draw card n pa cpts rnd ord done s →
      ∃ s', (rest.zipIdx done.length).foldlM (fun s x => sampleNode draw cpts s x.1 (rnd x.2)) s = .ok s' ∧
        Sampled draw card n pa cpts rnd ord ord s' by
    exact H ord [] s0 rfl ⟨hs0, by simp⟩
  intro rest
  induction rest with
  | nil =>
    intro done s e h
    rw [List.append_nil] at e
    subst e
    exact ⟨s, rfl, h⟩
  | cons v rest ih =>
    intro done s e h
    have hvn : v < n := (hmem v).1 (by rw [e]; simp)
    have hnd' := hnd
    rw [e] at hnd'
    have hvd : v ∉ done := fun hv => (List.nodup_append.1 hnd').2.2 v hv v (by simp) rfl
    have hidx : ord.idxOf v = done.length := by
      rw [e, List.idxOf_append_of_notMem hvd]; simp
    have hpa : ∀ w, w = v ∨ w ∈ done → ∀ p ∈ pa w, p ∈ done := by
      intro w hw p hp
      have hwn : w < n := by
        rcases hw with rfl | hw
        · exact hvn
        · exact (hmem w).1 (by rw [e]; simp [hw])
      have h1 := hbef p w hp hwn
      have h2 : ord.idxOf w ≤ done.length := by
        rcases hw with rfl | hw
        · omega
        · rw [e, List.idxOf_append_of_mem hw]
          exact Nat.le_of_lt (List.idxOf_lt_length_iff.2 hw)
      by_cases hpd : p ∈ done
      · exact hpd
      · rw [e, List.idxOf_append_of_notMem hpd, ← e] at h1
        omega
    obtain ⟨T, hTv, hwf, hvars, hcol⟩ := hT.get v hvn
    have hr : InRange card (pa v) (asg s) := by
      intro p hp
      obtain ⟨_, _, _, h3, _⟩ := h.drawn p (hpa v (Or.inl rfl) p hp)
      exact h3
    have hlen := h.length
    have hd : rd T.dims 0 = .ok (card v) := rd_ok (by rw [hwf.dims, hvars]; rfl)
    obtain ⟨hc1, hc2⟩ := hcol _ hr
    obtain ⟨k, p, hk1, hk2, hk3⟩ := hdraw (columnOf card T v (asg s)) (rnd done.length) hc1 hc2
    have hkc : k < card v := by
      have := (List.getElem?_eq_some_iff.1 hk2).1
      simpa [columnOf] using this
    have hpk : p = value T ((asg s).set v k) := by
      rw [columnOf, tab_get?, if_pos hkc] at hk2
      exact (Option.some.inj hk2).symm
    have hstep : sampleNode draw cpts s v (rnd done.length) = .ok (s.set v k) := by
      rw [sampleNode, rd_ok hTv, ok_bind, hd, ok_bind,
        getReducedPotentials_eq hwf hvars (fun p hp => by rw [hlen]; exact hT.lt v hvn p hp) hr, ok_bind, hk1, ok_bind,
        wr_ok (by omega)]
    have hset : asg (s.set v k) = (asg s).set v k := asg_set (by omega)
    have hnext : Sampled draw card n pa cpts rnd ord (done ++ [v]) (s.set v k) := by
      refine ⟨by simp [hlen], ?_⟩
      intro w hw
      rcases List.mem_append.1 hw with hw' | hw
      · clear hw
        have hw := hw'
        have hwv : w ≠ v := fun e => hvd (e ▸ hw)
        obtain ⟨Tw, g1, g2, g3, g4⟩ := h.drawn w hw
        have hwn : w < n := (hmem w).1 (by rw [e]; simp [hw])
        obtain ⟨T', g1', gwf, gvars, _⟩ := hT.get w hwn
        rw [g1] at g1'
        cases g1'
        have agree : ∀ q, q = w ∨ q ∈ pa w → asg (s.set v k) q = asg s q := by
          intro q hq
          rw [hset]
          unfold Assignment.set
          rw [if_neg]
          rintro rfl
          rcases hq with hq | hq
          · exact hwv hq.symm
          · exact hvd (hpa w (Or.inr hw) _ hq)
        refine ⟨Tw, g1, ?_, ?_, ?_⟩
        · rw [columnOf_congr gvars (fun q hq => agree q (Or.inr hq)), agree w (Or.inl rfl)]
          exact g2
        · rw [agree w (Or.inl rfl)]; exact g3
        · rw [value_dependsOn Tw _ (asg s) (fun q hq => by
            rw [gvars] at hq
            exact agree q (List.mem_cons.1 hq))]
          exact g4
      · rw [List.mem_singleton] at hw
        subst hw
        have hwk : asg (s.set w k) w = k := by rw [hset]; simp [Assignment.set]
        have hself : w ∉ pa w := fun hp => hvd (hpa w (Or.inl rfl) w hp)
        refine ⟨T, hTv, ?_, ?_, ?_⟩
        · rw [hwk, hidx, columnOf_congr (b := asg s) hvars]
          · exact hk1
          · intro q hq
            rw [hset]
            unfold Assignment.set
            rw [if_neg]
            rintro rfl
            exact hself hq
        · rw [hwk]; exact hkc
        · rw [hset, ← hpk]; exact hk3
    rw [List.zipIdx_cons, List.foldlM_cons]
    simp only []
    rw [hstep, ok_bind]
    have := ih (done ++ [v]) (s.set v k) (by rw [e]; simp) hnext
    rw [List.length_append, List.length_singleton] at this
    exact this

end FastPGM
