import Verif.Lemmas.JTPlan
import Verif.Lemmas.JTTables
import Verif.Lemmas.Message

/-!
`Collect` and `Distribute` leave every clique with the normalised marginal of the product of the initial tables.
-/

set_option linter.unusedSectionVars false

namespace FastPGM

open Spec

section loops

variable {α β ε : Type}

theorem foldlM_prefix {f : β → α → Except ε β} (P : List α → β → Prop) {l : List α} {b : β} (h0 : P [] b)
    (step : ∀ done x rest, l = done ++ x :: rest → ∀ b, P done b → ∃ b', f b x = .ok b' ∧ P (done ++ [x]) b') :
    ∃ b', l.foldlM f b = .ok b' ∧ P l b' := by
  have key : ∀ (rest done : List α) (b : β), l = done ++ rest → P done b → ∃ b', rest.foldlM f b = .ok b' ∧ P l b' := by
    intro rest
    induction rest with
    | nil => intro done b hl hb; exact ⟨b, rfl, by rw [hl, List.append_nil]; exact hb⟩
    | cons x rest ih =>
      intro done b hl hb
      obtain ⟨b1, h1, h2⟩ := step done x rest hl b hb
      rw [List.foldlM_cons, h1]
      exact ih (done ++ [x]) b1 (by rw [hl]; simp) h2
  exact key l [] b rfl h0

theorem foldlM_down {f : β → Nat → Except ε β} (P : Nat → β → Prop) {n : Nat} {b : β} (h0 : P n b)
    (step : ∀ i < n, ∀ b, P (i + 1) b → ∃ b', f b i = .ok b' ∧ P i b') :
    ∃ b', (List.range n).reverse.foldlM f b = .ok b' ∧ P 0 b' := by
  induction n generalizing b with
  | zero => exact ⟨b, rfl, h0⟩
  | succ n ih =>
    obtain ⟨b1, h1, h2⟩ := step n (by omega) b h0
    rw [List.range_succ, List.reverse_append, List.reverse_singleton, List.singleton_append, List.foldlM_cons, h1]
    exact ih h2 (fun i hi => step i (by omega))

end loops

variable {K : Type} [Field K] [LinearOrder K] [IsStrictOrderedRing K]

/-- The data of one propagation. -/
structure Ctx (card : Nat → Nat) (T : JTShape) (L : Levels) (r : Nat) (lev : JNode → Nat) (par ch : Nat → Nat) (VC VS : Nat → List Nat)
    (V : List Nat) (J : Assignment → K) : Prop where
  plan : Plan T L r lev par ch
  rep : RepOK card T.cliques.length VC VS par ch
  rip : ∀ s j v, s + 1 < T.cliques.length → j < T.cliques.length → lev (.clq j) ≤ lev (.clq (ch s)) → j ≠ ch s → v ∈ VC (ch s) → v ∈ VC j →
    v ∈ VS s
  setup : MsgSetup card V VC J

section

variable {card : Nat → Nat} {T : JTShape} {L : Levels} {r : Nat} {lev : JNode → Nat} {par ch : Nat → Nat} {VC VS : Nat → List Nat}
  {V : List Nat} {J : Assignment → K}

theorem Recorded.congr {F F' : Nat → Assignment → K} {k : Nat} {S : List Nat} (h : Recorded card V VC J F k S) (e : F' k = F k) :
    Recorded card V VC J F' k S := by
  unfold Recorded at h ⊢
  rw [e]; exact h

theorem Calibrated.congr {F F' : Nat → Assignment → K} {k : Nat} (h : Calibrated card V VC J F k) (e : F' k = F k) :
    Calibrated card V VC J F' k := by
  unfold Calibrated at h ⊢
  rw [e]; exact h

theorem message_congr {F F' : Nat → Assignment → K} {k : Nat} {S : List Nat} (e : F' k = F k) : message card VC F' k S = message card VC F k S := by
  unfold message
  rw [e]

theorem quot_one (X : Assignment → K) : quot X (fun _ => 1) = X := by
  funext a
  simp [quot]

/-- Normalised. -/
def NormAt (card : Nat → Nat) (VC : Nat → List Nat) (F : Nat → Assignment → K) (k : Nat) : Prop := ∀ a, sumOut card (VC k) (F k) a = 1

theorem NormAt.congr {F F' : Nat → Assignment → K} {k : Nat} (h : NormAt card VC F k) (e : F' k = F k) : NormAt card VC F' k := by
  unfold NormAt at h ⊢
  rw [e]; exact h

theorem sumOut_div_const {us : List Nat} {f : Assignment → K} (z : K) (a : Assignment) : sumOut card us (fun b => f b / z) a = sumOut card us f a / z := by
  have : (fun b => f b / z) = (fun b => z⁻¹ * f b) := by funext b; rw [div_eq_inv_mul]
  rw [this, sumOut_const_mul, div_eq_inv_mul]

theorem normAt_div {F : Nat → Assignment → K} {k : Nat} (hdep : DependsOn (F k) (VC k)) (a0 : Assignment) (h0 : sumOut card (VC k) (F k) a0 ≠ 0) :
    NormAt card VC (Function.update F k (fun a => F k a / sumOut card (VC k) (F k) a0)) k := by
  intro a
  rw [Function.update_self, sumOut_div_const, sumOut_const hdep a a0, div_self h0]

theorem dep_div {f : Assignment → K} {vs : List Nat} (h : DependsOn f vs) (z : K) : DependsOn (fun a => f a / z) vs := fun a b hab => by
  show f a / z = f b / z
  rw [h a b hab]

/-! ### Collection -/

/-- While a clique level `i` is processed. -/
structure LInv (card : Nat → Nat) (T : JTShape) (lev : JNode → Nat) (ch : Nat → Nat) (VC VS : Nat → List Nat) (V : List Nat)
    (J : Assignment → K) (i : Nat) (R : Finset Nat) (pend : List JNode) (F G : Nat → Assignment → K) : Prop where
  coll : CollectInv card V VC J R F
  recd : ∀ s, s + 1 < T.cliques.length → ch s ∉ R → Recorded card V VC J F (ch s) (VS s)
  sent : ∀ s, s + 1 < T.cliques.length → i ≤ lev (.sep s) → G s = message card VC F (ch s) (VS s)
  unsent : ∀ s, s + 1 < T.cliques.length → lev (.sep s) < i → G s = fun _ => 1
  norm : ∀ k, k < T.cliques.length → JNode.clq k ∉ pend → NormAt card VC F k

/-- The cliques not absorbed when the levels from `i` on have been processed. -/
def remaining (T : JTShape) (lev : JNode → Nat) (i : Nat) : Finset Nat := (Finset.range T.cliques.length).filter (fun k => lev (.clq k) ≤ i + 1)

theorem mem_remaining {i k : Nat} : k ∈ remaining T lev i ↔ k < T.cliques.length ∧ lev (.clq k) ≤ i + 1 := by
  unfold remaining; simp

theorem LInv.absorb (hc : Ctx card T L r lev par ch VC VS V J) {i : Nat} {R : Finset Nat} {pend : List JNode} {F G : Nat → Assignment → K}
    (h : LInv card T lev ch VC VS V J i R pend F G) (hR : ∀ j ∈ R, j < T.cliques.length ∧ lev (.clq j) ≤ i + 2)
    (hlow : ∀ j, j < T.cliques.length → lev (.clq j) ≤ i → j ∈ R) {s p : Nat} (hs : s + 1 < T.cliques.length) (hp : par s = p)
    (hpl : lev (.clq p) = i) (hsR : ch s ∈ R) :
    LInv card T lev ch VC VS V J i (R.erase (ch s)) (.clq p :: pend) (Function.update F p (fun a => F p a * G s a)) G := by
  subst hp
  have hls := hc.plan.lev_sep s hs
  have hlc := hc.plan.lev_ch s hs
  have hpm := hc.rep.par_lt s hs
  have hpR : par s ∈ R := hlow _ hpm hpl.le
  have hrip : ∀ j ∈ R, j ≠ ch s → ∀ v ∈ VC (ch s), v ∈ VC j → v ∈ VS s := by
    intro j hj hne v hv hvj
    exact hc.rip s j v hs (hR j hj).1 (by have := (hR j hj).2; omega) hne hv hvj
  have hne := hc.plan.par_ne s hs
  have hGs : G s = message card VC F (ch s) (VS s) := h.sent s hs (by omega)
  refine ⟨?_, ?_, ?_, h.unsent, ?_⟩
  · rw [hGs]
    exact h.coll.absorb hc.setup hsR hpR hne (hc.rep.sub_ch hs) (hc.rep.sub s hs) hrip
  · intro t ht htR
    by_cases hts : ch t = ch s
    · have e : t = s := hc.plan.ch_inj ht hs hts
      subst e
      exact (h.coll.recorded hc.setup hsR hrip).congr (Function.update_of_ne (Ne.symm hne) _ _)
    · have htR' : ch t ∉ R := fun hm => htR (Finset.mem_erase.2 ⟨hts, hm⟩)
      exact (h.recd t ht htR').congr (Function.update_of_ne (fun e : ch t = par s => htR' (by rw [e]; exact hpR)) _ _)
  · intro t ht hti
    have := hc.plan.lev_ch t ht
    rw [h.sent t ht hti]
    refine (message_congr (Function.update_of_ne ?_ _ _)).symm
    intro e
    rw [e] at this
    omega
  · intro k hk hkp
    rw [List.mem_cons, not_or] at hkp
    exact (h.norm k hk hkp.2).congr (Function.update_of_ne (fun e => hkp.1 (by rw [e])) _ _)

theorem LInv.normalise (hc : Ctx card T L r lev par ch VC VS V J) {i : Nat} {R : Finset Nat} {pend : List JNode} {F G : Nat → Assignment → K}
    (h : LInv card T lev ch VC VS V J i R pend F G) {p : Nat} (hpR : p ∈ R) (hpl : lev (.clq p) = i) (a0 : Assignment) :
    LInv card T lev ch VC VS V J i R (pend.filter (· ≠ .clq p)) (Function.update F p (fun a => F p a / sumOut card (VC p) (F p) a0)) G := by
  have hz := h.coll.sum_ne_zero hc.setup hpR a0
  have hzpos : 0 < sumOut card (VC p) (F p) a0 := lt_of_le_of_ne (sumOut_nonneg (h.coll.nonneg p) a0) (Ne.symm hz)
  refine ⟨h.coll.scale hpR hzpos, ?_, ?_, h.unsent, ?_⟩
  · intro t ht htR
    exact (h.recd t ht htR).congr (Function.update_of_ne (fun e : ch t = p => htR (by rw [e]; exact hpR)) _ _)
  · intro t ht hti
    have := hc.plan.lev_ch t ht
    rw [h.sent t ht hti]
    refine (message_congr (Function.update_of_ne ?_ _ _)).symm
    intro e
    rw [e] at this
    omega
  · intro k hk hkp
    by_cases hkk : k = p
    · subst hkk
      exact normAt_div (h.coll.dep k) a0 hz
    · refine (h.norm k hk ?_).congr (Function.update_of_ne hkk _ _)
      intro hm
      exact hkp (List.mem_filter.2 ⟨hm, by simpa using hkk⟩)

theorem foldl_max_ge {α : Type} (f : α → Nat) (l : List α) : ∀ b, (∀ x ∈ l, f x ≤ l.foldl (fun b x => max b (f x)) b) ∧ b ≤ l.foldl (fun b x => max b (f x)) b := by
  induction l with
  | nil => intro b; simp
  | cons y l ih =>
    intro b
    rw [List.foldl_cons]
    obtain ⟨h1, h2⟩ := ih (max b (f y))
    refine ⟨?_, by omega⟩
    intro x hx
    rcases List.mem_cons.1 hx with rfl | hx
    · omega
    · exact h1 x hx

/-- The position of a separator among the children of its parent. -/
def childIdx (L : Levels) (par : Nat → Nat) (s : Nat) : Nat := (L.marks.down (.clq (par s))).idxOf (.sep s)

/-- The cliques not absorbed during the processing of level `i`: in round `k`, the parents in `done` have been handled. -/
def inRound (T : JTShape) (L : Levels) (lev : JNode → Nat) (par ch : Nat → Nat) (i k : Nat) (done : List JNode) (j : Nat) : Prop :=
  j < T.cliques.length ∧ (lev (.clq j) ≤ i ∨ lev (.clq j) = i + 2 ∧
    ∀ s, s + 1 < T.cliques.length → ch s = j → ¬ (childIdx L par s < k ∨ (childIdx L par s = k ∧ JNode.clq (par s) ∈ done)))

theorem cliqueLevelCollect_spec (hc : Ctx card T L r lev par ch VC VS V J) {i : Nat} (hi : i % 2 = 0) (hil : i < L.nodes.length)
    {F G : Nat → Assignment → K} (h : LInv card T lev ch VC VS V J i (remaining T lev (i + 1)) [] F G) :
    ∃ F', cliqueLevelCollect L.marks (L.nodes.getD i []) (repState card T.cliques.length VC VS F G) =
        .ok (repState card T.cliques.length VC VS F' G) ∧ LInv card T lev ch VC VS V J i (remaining T lev i) [] F' G := by
  classical
  unfold cliqueLevelCollect
  have hlevel : ∀ x ∈ L.nodes.getD i [], ∃ p, x = .clq p ∧ p < T.cliques.length ∧ lev (.clq p) = i := by
    intro x hx
    obtain ⟨hv, hl⟩ := (hc.plan.mem i hil x).1 hx
    cases x with
    | clq p => exact ⟨p, rfl, hv, hl⟩
    | sep s =>
      have h1 := hc.plan.lev_sep s hv
      have h2 := hc.plan.even_clq (par s) (hc.rep.par_lt s hv)
      omega
  set n := (L.nodes.getD i []).foldl (fun b x => max b (L.marks.down x).length) 0 with hn
  have key := foldlM_range (ε := Fault) (f := fun (st : JState K) k => do
      let has := (L.nodes.getD i []).filter (fun x => k < (L.marks.down x).length)
      let st ← has.foldlM (cliqueCollect L.marks k) st
      has.foldlM normalizeClique st)
    (P := fun k st => ∃ F' R, st = repState card T.cliques.length VC VS F' G ∧ (∀ j, j ∈ R ↔ inRound T L lev par ch i k [] j) ∧
      LInv card T lev ch VC VS V J i R [] F' G) (n := n) (b := repState card T.cliques.length VC VS F G) ?_ ?_
  · obtain ⟨st, h1, F', R, rfl, hR, hL⟩ := key
    refine ⟨F', h1, ?_⟩
    have : R = remaining T lev i := by
      ext j
      rw [hR, mem_remaining]
      unfold inRound
      constructor
      · rintro ⟨hj, hjl | ⟨hjl, hs⟩⟩
        · exact ⟨hj, by omega⟩
        · refine ⟨hj, ?_⟩
          by_contra hgt
          have hev := hc.plan.even_clq j hj
          have hjr : j ≠ r := by
            rintro rfl
            have := hc.plan.lev_root
            omega
          obtain ⟨s, hs1, rfl⟩ := hc.plan.exists_ch j hj hjr
          apply hs s hs1 rfl
          left
          have e1 := hc.plan.lev_ch s hs1
          have e2 := hc.plan.lev_sep s hs1
          have hpl : lev (.clq (par s)) = i := by omega
          have hpm : JNode.clq (par s) ∈ L.nodes.getD i [] := (hc.plan.mem i hil _).2 ⟨hc.rep.par_lt s hs1, hpl⟩
          have hmem : JNode.sep s ∈ L.marks.down (.clq (par s)) := (hc.plan.down_clq _ (hc.rep.par_lt s hs1) _).2 ⟨s, hs1, rfl, rfl⟩
          have h3 := (foldl_max_ge (fun x => (L.marks.down x).length) (L.nodes.getD i []) 0).1 _ hpm
          exact lt_of_lt_of_le (List.idxOf_lt_length_iff.2 hmem) h3
      · rintro ⟨hj, hjl⟩
        have := hc.plan.even_clq j hj
        exact ⟨hj, Or.inl (by omega)⟩
    rw [← this]
    exact hL
  · refine ⟨F, remaining T lev (i + 1), rfl, ?_, h⟩
    intro j
    rw [mem_remaining]
    unfold inRound
    constructor
    · rintro ⟨hj, hjl⟩
      have hev := hc.plan.even_clq j hj
      by_cases hle : lev (.clq j) ≤ i
      · exact ⟨hj, Or.inl hle⟩
      · refine ⟨hj, Or.inr ⟨by omega, ?_⟩⟩
        rintro s _ _ (h1 | ⟨_, h1⟩)
        · omega
        · simp at h1
    · rintro ⟨hj, h1 | ⟨h1, _⟩⟩
      · exact ⟨hj, by omega⟩
      · exact ⟨hj, by omega⟩
  · rintro k hk st ⟨F1, R1, rfl, hR1, hL1⟩
    set has := (L.nodes.getD i []).filter (fun x => k < (L.marks.down x).length) with hhas
    have hhm : ∀ x ∈ has, ∃ p s, x = .clq p ∧ p < T.cliques.length ∧ lev (.clq p) = i ∧ s + 1 < T.cliques.length ∧ par s = p ∧
        (L.marks.down (.clq p))[k]? = some (.sep s) ∧ childIdx L par s = k := by
      intro x hx
      rw [hhas, List.mem_filter, decide_eq_true_eq] at hx
      obtain ⟨p, rfl, hp1, hp2⟩ := hlevel x hx.1
      have hget : (L.marks.down (.clq p))[k]? = some (L.marks.down (.clq p))[k] := List.getElem?_eq_getElem hx.2
      obtain ⟨s, hs, e, hsp⟩ := (hc.plan.down_clq p hp1 _).1 (List.getElem_mem hx.2)
      refine ⟨p, s, rfl, hp1, hp2, hs, hsp, by rw [hget, e], ?_⟩
      unfold childIdx
      rw [hsp, ← e]
      exact (hc.plan.down_nodup p hp1).idxOf_getElem k hx.2
    have hndh : has.Nodup := (hc.plan.lnodup i).filter _
    -- multiply
    have s1 := foldlM_prefix (ε := Fault) (f := cliqueCollect L.marks k) (l := has) (b := repState card T.cliques.length VC VS F1 G)
      (P := fun done st => ∃ F' R, st = repState card T.cliques.length VC VS F' G ∧ (∀ j, j ∈ R ↔ inRound T L lev par ch i k done j) ∧
        ∃ pend, (∀ x ∈ pend, x ∈ has) ∧ LInv card T lev ch VC VS V J i R pend F' G) ⟨F1, R1, rfl, hR1, [], by simp, hL1⟩ ?_
    · obtain ⟨st2, e2, F2, R2, rfl, hR2, pend2, hpend2, hL2⟩ := s1
      -- normalise
      have s2 := foldlM_prefix (ε := Fault) (f := normalizeClique) (l := has) (b := repState card T.cliques.length VC VS F2 G)
        (P := fun done st => ∃ F', st = repState card T.cliques.length VC VS F' G ∧
          ∃ pend, (∀ x ∈ pend, x ∈ has ∧ x ∉ done) ∧ LInv card T lev ch VC VS V J i R2 pend F' G)
        ⟨F2, rfl, pend2, fun x hx => ⟨hpend2 x hx, by simp⟩, hL2⟩ ?_
      · obtain ⟨st3, e3, F3, rfl, pend3, hpend3, hL3⟩ := s2
        refine ⟨_, ?_, F3, R2, rfl, ?_, ?_⟩
        · show (has.foldlM (cliqueCollect L.marks k) _ >>= fun st => has.foldlM normalizeClique st) = _
          rw [e2, ok_bind]; exact e3
        · intro j
          rw [hR2]
          unfold inRound
          refine and_congr_right (fun hj => or_congr Iff.rfl (and_congr_right (fun hjl => ?_)))
          refine forall_congr' (fun s => forall_congr' (fun hs => forall_congr' (fun hsj => not_congr ?_)))
          have e1 := hc.plan.lev_ch s hs
          have e2 := hc.plan.lev_sep s hs
          constructor
          · rintro (h1 | ⟨h1, _⟩)
            · exact Or.inl (by omega)
            · exact Or.inl (by omega)
          · rintro (h1 | ⟨h1, h2⟩)
            · by_cases hk' : childIdx L par s < k
              · exact Or.inl hk'
              · right
                refine ⟨by omega, ?_⟩
                have hpm := hc.rep.par_lt s hs
                have hmem : JNode.sep s ∈ L.marks.down (.clq (par s)) := (hc.plan.down_clq _ hpm _).2 ⟨s, hs, rfl, rfl⟩
                have hpl : lev (.clq (par s)) = i := by rw [← hsj] at hjl; omega
                rw [hhas, List.mem_filter, decide_eq_true_eq]
                refine ⟨(hc.plan.mem i hil _).2 ⟨hpm, hpl⟩, ?_⟩
                have := List.idxOf_lt_length_iff.2 hmem
                unfold childIdx at h1 hk'
                omega
            · simp at h2
        · have : pend3 = [] := by
            apply List.eq_nil_iff_forall_not_mem.2
            intro x hx
            exact (hpend3 x hx).2 (hpend3 x hx).1
          rw [this] at hL3
          exact hL3
      · rintro done x rest hl st ⟨F', rfl, pend, hpend, hL⟩
        have hx : x ∈ has := by rw [hl]; simp
        obtain ⟨p, s, rfl, hp1, hp2, -⟩ := hhm x hx
        have hpR : p ∈ R2 := (hR2 p).2 ⟨hp1, Or.inl hp2.le⟩
        have hz := hL.coll.sum_ne_zero hc.setup hpR (fun _ => 0)
        refine ⟨_, normalizeClique_eq hp1 (hc.rep.cnodup p) (hL.coll.dep p) (fun _ => 0) hz, _, rfl, _, ?_, hL.normalise hc hpR hp2 (fun _ => 0)⟩
        intro y hy
        rw [List.mem_filter, decide_eq_true_eq] at hy
        refine ⟨(hpend y hy.1).1, ?_⟩
        rw [List.mem_append, List.mem_singleton, not_or]
        exact ⟨(hpend y hy.1).2, hy.2⟩
    · rintro done x rest hl st ⟨F', R, rfl, hR, pend, hpend, hL⟩
      have hx : x ∈ has := by rw [hl]; simp
      obtain ⟨p, s, rfl, hp1, hp2, hs, hsp, hget, hidx⟩ := hhm x hx
      have e1 := hc.plan.lev_ch s hs
      have e2 := hc.plan.lev_sep s hs
      rw [hsp] at e2
      have hxd : JNode.clq p ∉ done := by
        intro hd
        rw [hl] at hndh
        exact (List.nodup_append.1 hndh).2.2 _ hd _ (by simp) rfl
      have hsR : ch s ∈ R := by
        rw [hR]
        refine ⟨hc.rep.ch_lt s hs, Or.inr ⟨by omega, ?_⟩⟩
        intro t ht hts
        have : t = s := hc.plan.ch_inj ht hs hts
        subst this
        rintro (h1 | ⟨_, h1⟩)
        · omega
        · rw [hsp] at h1; exact hxd h1
      have hlow : ∀ j, j < T.cliques.length → lev (.clq j) ≤ i → j ∈ R := fun j hj hjl => (hR j).2 ⟨hj, Or.inl hjl⟩
      have hRb : ∀ j ∈ R, j < T.cliques.length ∧ lev (.clq j) ≤ i + 2 := by
        intro j hj
        obtain ⟨h1, h2 | ⟨h2, _⟩⟩ := (hR j).1 hj
        · exact ⟨h1, by omega⟩
        · exact ⟨h1, h2.le⟩
      have hdep : DependsOn (G s) (VS s) := by
        rw [hL.sent s hs (by omega)]
        exact message_dep (hL.coll.dep _)
      refine ⟨_, cliqueCollect_eq hc.rep hs hsp hget hdep, _, R.erase (ch s), rfl, ?_, _, ?_,
        hL.absorb hc hRb hlow hs hsp hp2 hsR⟩
      · intro j
        rw [Finset.mem_erase, hR]
        unfold inRound
        constructor
        · rintro ⟨hne, hj, h1 | ⟨h1, h2⟩⟩
          · exact ⟨hj, Or.inl h1⟩
          · refine ⟨hj, Or.inr ⟨h1, ?_⟩⟩
            intro t ht htj hcase
            rcases hcase with h3 | ⟨h3, h4⟩
            · exact h2 t ht htj (Or.inl h3)
            · rw [List.mem_append, List.mem_singleton] at h4
              rcases h4 with h4 | h4
              · exact h2 t ht htj (Or.inr ⟨h3, h4⟩)
              · have hpt : par t = p := by simpa using h4
                apply hne
                rw [← htj]
                congr 1
                -- equal position among the children of the same parent
                unfold childIdx at h3 hidx
                rw [hpt] at h3
                rw [hsp] at hidx
                have hm1 : JNode.sep t ∈ L.marks.down (.clq p) := (hc.plan.down_clq p hp1 _).2 ⟨t, ht, rfl, hpt⟩
                have := (List.idxOf_inj hm1).1 (h3.trans hidx.symm)
                simpa using this
        · rintro ⟨hj, h1 | ⟨h1, h2⟩⟩
          · exact ⟨fun e => by rw [e] at h1; omega, hj, Or.inl h1⟩
          · refine ⟨?_, hj, Or.inr ⟨h1, ?_⟩⟩
            · rintro rfl
              exact h2 s hs rfl (Or.inr ⟨hidx, by rw [hsp]; simp⟩)
            · intro t ht htj hcase
              apply h2 t ht htj
              rcases hcase with h3 | ⟨h3, h4⟩
              · exact Or.inl h3
              · exact Or.inr ⟨h3, by simp [h4]⟩
      · intro y hy
        rcases List.mem_cons.1 hy with rfl | hy
        · exact hx
        · exact hpend y hy

theorem sepLevelCollect_spec (hc : Ctx card T L r lev par ch VC VS V J) {i : Nat} (hi : i % 2 = 1) (hil : i < L.nodes.length)
    {F G : Nat → Assignment → K} (h : LInv card T lev ch VC VS V J (i + 1) (remaining T lev (i + 1)) [] F G) :
    ∃ G', (L.nodes.getD i []).foldlM (separatorCollect L.marks) (repState card T.cliques.length VC VS F G) =
        .ok (repState card T.cliques.length VC VS F G') ∧ LInv card T lev ch VC VS V J i (remaining T lev i) [] F G' := by
  have hlevel : ∀ x ∈ L.nodes.getD i [], ∃ s, x = .sep s ∧ s + 1 < T.cliques.length ∧ lev (.sep s) = i := by
    intro x hx
    obtain ⟨hv, hl⟩ := (hc.plan.mem i hil x).1 hx
    cases x with
    | clq p =>
      have := hc.plan.even_clq p hv
      omega
    | sep s => exact ⟨s, rfl, hv, hl⟩
  have key := foldlM_prefix (ε := Fault) (f := separatorCollect L.marks) (l := L.nodes.getD i []) (b := repState card T.cliques.length VC VS F G)
    (P := fun done st => ∃ G', st = repState card T.cliques.length VC VS F G' ∧
      ∀ s, s + 1 < T.cliques.length → (i < lev (.sep s) ∨ .sep s ∈ done → G' s = message card VC F (ch s) (VS s)) ∧
        (lev (.sep s) < i ∨ (lev (.sep s) = i ∧ .sep s ∉ done) → G' s = fun _ => 1)) ?_ ?_
  · obtain ⟨st, e, G', rfl, hG⟩ := key
    refine ⟨G', e, ?_⟩
    have hR : remaining T lev i = remaining T lev (i + 1) := by
      ext j
      rw [mem_remaining, mem_remaining]
      refine and_congr_right (fun hj => ?_)
      have := hc.plan.even_clq j hj
      omega
    rw [hR]
    refine ⟨h.coll, h.recd, ?_, ?_, h.norm⟩
    · intro s hs hsi
      apply (hG s hs).1
      rcases Nat.lt_or_ge i (lev (.sep s)) with hlt | hge
      · exact Or.inl hlt
      · exact Or.inr ((hc.plan.mem i hil _).2 ⟨hs, by omega⟩)
    · intro s hs hsi
      exact (hG s hs).2 (Or.inl hsi)
  · refine ⟨G, rfl, fun s hs => ⟨?_, ?_⟩⟩
    · rintro (h1 | h1)
      · exact h.sent s hs h1
      · simp at h1
    · rintro (h1 | ⟨h1, _⟩)
      · exact h.unsent s hs (by omega)
      · exact h.unsent s hs (by omega)
  · rintro done x rest hl st ⟨G', rfl, hG⟩
    obtain ⟨s, rfl, hs, hsl⟩ := hlevel x (by rw [hl]; simp)
    have hnd := hc.plan.lnodup i
    rw [hl] at hnd
    have hxd : JNode.sep s ∉ done := fun hd => (List.nodup_append.1 hnd).2.2 _ hd _ (by simp) rfl
    have hone := (hG s hs).2 (Or.inr ⟨hsl, hxd⟩)
    refine ⟨_, separatorCollect_eq hc.rep hs (hc.plan.down_sep s hs) (h.coll.dep _), _, rfl, ?_⟩
    intro t ht
    by_cases hts : t = s
    · subst hts
      rw [Function.update_self, hone, quot_one]
      refine ⟨fun _ => rfl, ?_⟩
      rintro (h1 | ⟨_, h1⟩)
      · omega
      · simp at h1
    · rw [Function.update_of_ne hts]
      have hm : JNode.sep t ∈ done ++ [JNode.sep s] ↔ JNode.sep t ∈ done := by
        rw [List.mem_append, List.mem_singleton, JNode.sep.injEq]
        exact or_iff_left hts
      rw [hm]
      exact hG t ht

theorem collect_spec (hc : Ctx card T L r lev par ch VC VS V J) {F : Nat → Assignment → K}
    (hcoll : CollectInv card V VC J (Finset.range T.cliques.length) F) (hnorm : ∀ k, k < T.cliques.length → NormAt card VC F k) :
    ∃ F' G', collect L (repState card T.cliques.length VC VS F (fun _ _ => 1)) = .ok (repState card T.cliques.length VC VS F' G') ∧
      LInv card T lev ch VC VS V J 0 (remaining T lev 0) [] F' G' := by
  have hodd := hc.plan.odd
  have hall : remaining T lev (L.nodes.length - 1) = Finset.range T.cliques.length := by
    ext j
    rw [mem_remaining, Finset.mem_range]
    refine and_iff_left_of_imp (fun hj => ?_)
    have := hc.plan.lt (.clq j) hj
    omega
  unfold collect
  have key := foldlM_down (ε := Fault) (f := fun (st : JState K) i => do
      if i % 2 = 1 then
        let level ← rd L.seps (i / 2)
        level.foldlM (separatorCollect L.marks) st
      else
        let level ← rd L.nodes i
        cliqueLevelCollect L.marks level st)
    (P := fun i st => ∃ F' G', st = repState card T.cliques.length VC VS F' G' ∧ LInv card T lev ch VC VS V J i (remaining T lev i) [] F' G')
    (n := L.nodes.length - 1) (b := repState card T.cliques.length VC VS F (fun _ _ => 1)) ?_ ?_
  · obtain ⟨st, e, F', G', rfl, h⟩ := key
    exact ⟨F', G', e, h⟩
  · refine ⟨F, _, rfl, ?_⟩
    rw [hall]
    refine ⟨hcoll, ?_, ?_, fun _ _ _ => rfl, fun k hk _ => hnorm k hk⟩
    · intro s hs hn
      exact absurd (Finset.mem_range.2 (hc.rep.ch_lt s hs)) hn
    · intro s hs hn
      have h1 := hc.plan.lev_ch s hs
      have h2 := hc.plan.lt (.clq (ch s)) (hc.rep.ch_lt s hs)
      omega
  · rintro i hi st ⟨F', G', rfl, h⟩
    have hil : i < L.nodes.length := by omega
    by_cases h2 : i % 2 = 1
    · rw [if_pos h2, rd_ok (hc.plan.lseps i h2 hil), ok_bind]
      obtain ⟨G2, e, h'⟩ := sepLevelCollect_spec hc h2 hil h
      exact ⟨_, e, F', G2, rfl, h'⟩
    · rw [if_neg h2, rd_ok (a := L.nodes.getD i []) (by rw [getD_of_lt hil, List.getElem?_eq_getElem hil]), ok_bind]
      -- no separator is on an even level
      have h' : LInv card T lev ch VC VS V J i (remaining T lev (i + 1)) [] F' G' := by
        refine ⟨h.coll, h.recd, ?_, ?_, h.norm⟩
        · intro s hs hsi
          apply h.sent s hs
          have h3 := hc.plan.lev_sep s hs
          have h4 := hc.plan.even_clq (par s) (hc.rep.par_lt s hs)
          omega
        · intro s hs hsi
          exact h.unsent s hs (by omega)
      obtain ⟨F2, e, h''⟩ := cliqueLevelCollect_spec hc (by omega) hil h'
      exact ⟨_, e, F2, G', rfl, h''⟩

/-! ### Distribution -/

/-- While the messages are distributed: the levels up to `i` are done, of level `i + 1` those in `done`. -/
structure DInv (card : Nat → Nat) (T : JTShape) (lev : JNode → Nat) (par ch : Nat → Nat) (VC VS : Nat → List Nat) (V : List Nat)
    (J : Assignment → K) (i : Nat) (F G : Nat → Assignment → K) : Prop where
  dep : ∀ k, DependsOn (F k) (VC k)
  nonneg : ∀ k a, 0 ≤ F k a
  calib : ∀ k, k < T.cliques.length → lev (.clq k) ≤ i → Calibrated card V VC J F k
  recd : ∀ s, s + 1 < T.cliques.length → i < lev (.clq (ch s)) → Recorded card V VC J F (ch s) (VS s)
  norm : ∀ k, k < T.cliques.length → NormAt card VC F k
  sent : ∀ s, s + 1 < T.cliques.length → i < lev (.sep s) → G s = message card VC F (ch s) (VS s)
  ratio : ∀ s, s + 1 < T.cliques.length → lev (.sep s) = i → G s = quot (message card VC F (par s) (VS s)) (message card VC F (ch s) (VS s))

theorem DInv.start (hc : Ctx card T L r lev par ch VC VS V J) {F G : Nat → Assignment → K}
    (h : LInv card T lev ch VC VS V J 0 (remaining T lev 0) [] F G) : DInv card T lev par ch VC VS V J 0 F G := by
  have hroot : ∀ k, k < T.cliques.length → lev (.clq k) ≤ 1 → k = r := by
    intro k hk hl
    by_contra hne
    obtain ⟨s, hs, rfl⟩ := hc.plan.exists_ch k hk hne
    have h1 := hc.plan.lev_ch s hs
    have h2 := hc.plan.lev_sep s hs
    omega
  have hR : remaining T lev 0 = {r} := by
    ext j
    rw [mem_remaining, Finset.mem_singleton]
    constructor
    · rintro ⟨h1, h2⟩; exact hroot j h1 h2
    · rintro rfl
      exact ⟨hc.plan.root, by rw [hc.plan.lev_root]; omega⟩
  refine ⟨h.coll.dep, h.coll.nonneg, ?_, ?_, fun k hk => h.norm k hk (by simp), fun s hs _ => h.sent s hs (by omega), ?_⟩
  · intro k hk hl
    have := hroot k hk (by omega)
    subst this
    have hcl := h.coll
    rw [hR] at hcl
    exact hcl.root
  · intro s hs hl
    refine h.recd s hs ?_
    rw [mem_remaining]
    have h1 := hc.plan.lev_ch s hs
    have h2 := hc.plan.lev_sep s hs
    omega
  · intro s hs hl
    have h2 := hc.plan.lev_sep s hs
    omega

theorem sepLevelDistribute_spec (hc : Ctx card T L r lev par ch VC VS V J) {i : Nat} (hi : (i + 1) % 2 = 1) (hil : i + 1 < L.nodes.length)
    {F G : Nat → Assignment → K} (h : DInv card T lev par ch VC VS V J i F G) :
    ∃ G', (L.nodes.getD (i + 1) []).foldlM (separatorDistribute L.marks) (repState card T.cliques.length VC VS F G) =
        .ok (repState card T.cliques.length VC VS F G') ∧ DInv card T lev par ch VC VS V J (i + 1) F G' := by
  have hlevel : ∀ x ∈ L.nodes.getD (i + 1) [], ∃ s, x = .sep s ∧ s + 1 < T.cliques.length ∧ lev (.sep s) = i + 1 := by
    intro x hx
    obtain ⟨hv, hl⟩ := (hc.plan.mem (i + 1) hil x).1 hx
    cases x with
    | clq p =>
      have := hc.plan.even_clq p hv
      omega
    | sep s => exact ⟨s, rfl, hv, hl⟩
  have key := foldlM_prefix (ε := Fault) (f := separatorDistribute L.marks) (l := L.nodes.getD (i + 1) [])
    (b := repState card T.cliques.length VC VS F G)
    (P := fun done st => ∃ G', st = repState card T.cliques.length VC VS F G' ∧
      ∀ s, s + 1 < T.cliques.length →
        (.sep s ∈ done → G' s = quot (message card VC F (par s) (VS s)) (message card VC F (ch s) (VS s))) ∧ (.sep s ∉ done → G' s = G s)) ?_ ?_
  · obtain ⟨st, e, G', rfl, hG⟩ := key
    refine ⟨G', e, h.dep, h.nonneg, ?_, ?_, h.norm, ?_, ?_⟩
    · intro k hk hl
      have := hc.plan.even_clq k hk
      exact h.calib k hk (by omega)
    · intro s hs hl
      exact h.recd s hs (by omega)
    · intro s hs hl
      rw [(hG s hs).2 (fun hm => by have := ((hc.plan.mem (i + 1) hil _).1 hm).2; omega)]
      exact h.sent s hs (by omega)
    · intro s hs hl
      exact (hG s hs).1 ((hc.plan.mem (i + 1) hil _).2 ⟨hs, hl⟩)
  · exact ⟨G, rfl, fun s hs => ⟨by simp, fun _ => rfl⟩⟩
  · rintro done x rest hl st ⟨G', rfl, hG⟩
    obtain ⟨s, rfl, hs, hsl⟩ := hlevel x (by rw [hl]; simp)
    have hnd := hc.plan.lnodup (i + 1)
    rw [hl] at hnd
    have hxd : JNode.sep s ∉ done := fun hd => (List.nodup_append.1 hnd).2.2 _ hd _ (by simp) rfl
    refine ⟨_, separatorDistribute_eq hc.rep hs (hc.plan.up_sep s hs) (h.dep _), _, rfl, ?_⟩
    intro t ht
    by_cases hts : t = s
    · subst hts
      rw [Function.update_self, (hG t ht).2 hxd, h.sent t ht (by omega)]
      exact ⟨fun _ => rfl, fun hn => absurd (by simp) hn⟩
    · rw [Function.update_of_ne hts]
      have hm : JNode.sep t ∈ done ++ [JNode.sep s] ↔ JNode.sep t ∈ done := by
        rw [List.mem_append, List.mem_singleton, JNode.sep.injEq]
        exact or_iff_left hts
      rw [hm]
      exact hG t ht

theorem quot_dep {X G : Assignment → K} {S : List Nat} (h1 : DependsOn X S) (h2 : DependsOn G S) : DependsOn (quot X G) S := fun a b hab => by
  unfold quot
  rw [h1 a b hab, h2 a b hab]

theorem quot_nonneg {X G : Assignment → K} (h1 : ∀ a, 0 ≤ X a) (h2 : ∀ a, 0 ≤ G a) (a : Assignment) : 0 ≤ quot X G a := by
  unfold quot
  split
  · exact le_rfl
  · exact div_nonneg (h1 a) (h2 a)

theorem cliqueLevelDistribute_spec (hc : Ctx card T L r lev par ch VC VS V J) {i : Nat} (hi : (i + 1) % 2 = 0) (hil : i + 1 < L.nodes.length)
    {F G : Nat → Assignment → K} (h : DInv card T lev par ch VC VS V J i F G) :
    ∃ F', ((L.nodes.getD (i + 1) []).foldlM (cliqueDistribute L.marks) (repState card T.cliques.length VC VS F G) >>= fun st =>
        (L.nodes.getD (i + 1) []).foldlM normalizeClique st) =
        .ok (repState card T.cliques.length VC VS F' G) ∧ DInv card T lev par ch VC VS V J (i + 1) F' G := by
  have hlevel : ∀ x ∈ L.nodes.getD (i + 1) [], ∃ s, x = .clq (ch s) ∧ s + 1 < T.cliques.length ∧ lev (.sep s) = i ∧ lev (.clq (ch s)) = i + 1 := by
    intro x hx
    obtain ⟨hv, hl⟩ := (hc.plan.mem (i + 1) hil x).1 hx
    cases x with
    | clq p =>
      have hpr : p ≠ r := by
        rintro rfl
        have := hc.plan.lev_root
        omega
      obtain ⟨s, hs, rfl⟩ := hc.plan.exists_ch p hv hpr
      have := hc.plan.lev_ch s hs
      exact ⟨s, rfl, hs, by omega, hl⟩
    | sep s =>
      have h1 := hc.plan.lev_sep s hv
      have h2 := hc.plan.even_clq (par s) (hc.rep.par_lt s hv)
      omega
  have hG : ∀ s, s + 1 < T.cliques.length → lev (.sep s) = i → DependsOn (G s) (VS s) ∧ ∀ a, 0 ≤ G s a := by
    intro s hs hl
    rw [h.ratio s hs hl]
    exact ⟨quot_dep (message_dep (h.dep _)) (message_dep (h.dep _)),
      quot_nonneg (fun a => sumOut_nonneg (h.nonneg _) a) (fun a => sumOut_nonneg (h.nonneg _) a)⟩
  -- multiply
  have s1 := foldlM_prefix (ε := Fault) (f := cliqueDistribute L.marks) (l := L.nodes.getD (i + 1) [])
    (b := repState card T.cliques.length VC VS F G)
    (P := fun done st => ∃ F', st = repState card T.cliques.length VC VS F' G ∧ (∀ k, DependsOn (F' k) (VC k)) ∧ (∀ k a, 0 ≤ F' k a) ∧
      (∀ k, .clq k ∉ done → F' k = F k) ∧ ∀ k, .clq k ∈ done → Calibrated card V VC J F' k) ?_ ?_
  · obtain ⟨st1, e1, F1, rfl, hd1, hn1, ho1, hcal1⟩ := s1
    have s2 := foldlM_prefix (ε := Fault) (f := normalizeClique) (l := L.nodes.getD (i + 1) [])
      (b := repState card T.cliques.length VC VS F1 G)
      (P := fun done st => ∃ F', st = repState card T.cliques.length VC VS F' G ∧ (∀ k, DependsOn (F' k) (VC k)) ∧ (∀ k a, 0 ≤ F' k a) ∧
        (∀ k, .clq k ∉ L.nodes.getD (i + 1) [] → F' k = F k) ∧ (∀ k, .clq k ∈ L.nodes.getD (i + 1) [] → Calibrated card V VC J F' k) ∧
        ∀ k, .clq k ∈ done → NormAt card VC F' k) ⟨F1, rfl, hd1, hn1, ho1, hcal1, by simp⟩ ?_
    · obtain ⟨st2, e2, F2, rfl, hd2, hn2, ho2, hcal2, hnorm2⟩ := s2
      have hF : ∀ k, k < T.cliques.length → lev (.clq k) ≠ i + 1 → F2 k = F k := fun k hk hl =>
        ho2 k (fun hm => hl ((hc.plan.mem (i + 1) hil _).1 hm).2)
      refine ⟨F2, by rw [e1, ok_bind]; exact e2, hd2, hn2, ?_, ?_, ?_, ?_, ?_⟩
      · intro k hk hl
        by_cases hk1 : lev (.clq k) = i + 1
        · exact hcal2 k ((hc.plan.mem (i + 1) hil _).2 ⟨hk, hk1⟩)
        · exact (h.calib k hk (by omega)).congr (hF k hk hk1)
      · intro s hs hl
        exact (h.recd s hs (by omega)).congr (hF _ (hc.rep.ch_lt s hs) (by omega))
      · intro k hk
        by_cases hk1 : lev (.clq k) = i + 1
        · exact hnorm2 k ((hc.plan.mem (i + 1) hil _).2 ⟨hk, hk1⟩)
        · exact (h.norm k hk).congr (hF k hk hk1)
      · intro s hs hl
        have := hc.plan.lev_ch s hs
        rw [h.sent s hs (by omega)]
        exact (message_congr (hF _ (hc.rep.ch_lt s hs) (by omega))).symm
      · intro s hs hl
        have h1 := hc.plan.lev_sep s hs
        have h2 := hc.plan.even_clq (par s) (hc.rep.par_lt s hs)
        omega
    · rintro done x rest hl st ⟨F', rfl, hd, hn, ho, hcal, hnorm⟩
      have hx : x ∈ L.nodes.getD (i + 1) [] := by rw [hl]; simp
      obtain ⟨s, rfl, hs, -, -⟩ := hlevel x hx
      obtain ⟨c, hcpos, hsum, hcF⟩ := (hcal _ hx).sum_ne_zero hc.setup (hd _) (fun _ => 0)
      have hz : sumOut card (VC (ch s)) (F' (ch s)) (fun _ => 0) ≠ 0 := by
        rw [hsum]
        exact mul_ne_zero hcpos.ne' (hc.setup.mass _)
      have hzpos : 0 < sumOut card (VC (ch s)) (F' (ch s)) (fun _ => 0) := lt_of_le_of_ne (sumOut_nonneg (hn _) _) (Ne.symm hz)
      refine ⟨_, normalizeClique_eq (hc.rep.ch_lt s hs) (hc.rep.cnodup _) (hd _) (fun _ => 0) hz, _, rfl, ?_, ?_, ?_, ?_, ?_⟩
      · intro k
        by_cases hk : k = ch s
        · subst hk; rw [Function.update_self]; exact dep_div (hd _) _
        · rw [Function.update_of_ne hk]; exact hd k
      · intro k a
        by_cases hk : k = ch s
        · subst hk; rw [Function.update_self]; exact div_nonneg (hn _ a) hzpos.le
        · rw [Function.update_of_ne hk]; exact hn k a
      · intro k hk
        rw [Function.update_of_ne (fun e => hk (by rw [e]; exact hx))]
        exact ho k hk
      · intro k hk
        by_cases hkk : k = ch s
        · subst hkk
          refine ⟨c / sumOut card (VC (ch s)) (F' (ch s)) (fun _ => 0), div_pos hcpos hzpos, fun a ha => ?_⟩
          rw [Function.update_self, hcF a ha, mul_div_right_comm]
        · exact (hcal k hk).congr (Function.update_of_ne hkk _ _)
      · intro k hk
        by_cases hkk : k = ch s
        · subst hkk; exact normAt_div (hd _) _ hz
        · rw [List.mem_append, List.mem_singleton] at hk
          exact (hnorm k (hk.resolve_right (fun e => hkk (by simpa using e)))).congr (Function.update_of_ne hkk _ _)
  · exact ⟨F, rfl, h.dep, h.nonneg, fun _ _ => rfl, by simp⟩
  · rintro done x rest hl st ⟨F', rfl, hd, hn, ho, hcal⟩
    have hx : x ∈ L.nodes.getD (i + 1) [] := by rw [hl]; simp
    obtain ⟨s, rfl, hs, hsl, hcl⟩ := hlevel x hx
    have hnd := hc.plan.lnodup (i + 1)
    have hsubd : ∀ y ∈ done, y ∈ L.nodes.getD (i + 1) [] := fun y hy => by rw [hl]; simp [hy]
    rw [hl] at hnd
    have hxd : JNode.clq (ch s) ∉ done := fun hd => (List.nodup_append.1 hnd).2.2 _ hd _ (by simp) rfl
    have hls := hc.plan.lev_sep s hs
    have hpd : JNode.clq (par s) ∉ done := by
      intro hm
      have := ((hc.plan.mem (i + 1) hil _).1 (hsubd _ hm)).2
      omega
    obtain ⟨hGd, hGn⟩ := hG s hs hsl
    refine ⟨_, cliqueDistribute_eq hc.rep hs (hc.plan.up_ch s hs) hGd, _, rfl, ?_, ?_, ?_, ?_⟩
    · intro k
      by_cases hk : k = ch s
      · subst hk; rw [Function.update_self]; exact (hd _).mul (hGd.mono (hc.rep.sub_ch hs))
      · rw [Function.update_of_ne hk]; exact hd k
    · intro k a
      by_cases hk : k = ch s
      · subst hk; rw [Function.update_self]; exact mul_nonneg (hn _ a) (hGn a)
      · rw [Function.update_of_ne hk]; exact hn k a
    · intro k hk
      rw [List.mem_append, not_or, List.mem_singleton] at hk
      rw [Function.update_of_ne (fun e => hk.2 (by rw [e]))]
      exact ho k hk.1
    · intro k hk
      by_cases hkk : k = ch s
      · subst hkk
        have hpF := ho _ hpd
        have hcF := ho _ hxd
        have hcalp : Calibrated card V VC J F' (par s) := (h.calib (par s) (hc.rep.par_lt s hs) (by omega)).congr hpF
        have hrec : Recorded card V VC J F' (ch s) (VS s) := (h.recd s hs (by omega)).congr hcF
        have := Calibrated.distribute hc.setup (hn (ch s)) hcalp hrec (hc.rep.sub_ch hs) (hc.rep.sub s hs)
        rw [h.ratio s hs hsl, ← message_congr (VC := VC) (S := VS s) hpF, ← message_congr (VC := VC) (S := VS s) hcF]
        exact this
      · rw [List.mem_append, List.mem_singleton] at hk
        exact (hcal k (hk.resolve_right (fun e => hkk (by simpa using e)))).congr (Function.update_of_ne hkk _ _)

theorem distribute_spec (hc : Ctx card T L r lev par ch VC VS V J) {F G : Nat → Assignment → K}
    (h : DInv card T lev par ch VC VS V J 0 F G) :
    ∃ F' G', distribute L (repState card T.cliques.length VC VS F G) = .ok (repState card T.cliques.length VC VS F' G') ∧
      (∀ k, DependsOn (F' k) (VC k)) ∧ (∀ k, k < T.cliques.length → NormAt card VC F' k) ∧
      ∀ k, k < T.cliques.length → Calibrated card V VC J F' k := by
  have hodd := hc.plan.odd
  unfold distribute
  have key := foldlM_range (ε := Fault) (f := fun (st : JState K) k => do
      let i := k + 1
      if i % 2 = 1 then
        let level ← rd L.seps (i / 2)
        level.foldlM (separatorDistribute L.marks) st
      else
        let level ← rd L.nodes i
        let st ← level.foldlM (cliqueDistribute L.marks) st
        level.foldlM normalizeClique st)
    (P := fun i st => ∃ F' G', st = repState card T.cliques.length VC VS F' G' ∧ DInv card T lev par ch VC VS V J i F' G')
    (n := L.nodes.length - 1) (b := repState card T.cliques.length VC VS F G) ⟨F, G, rfl, h⟩ ?_
  · obtain ⟨st, e, F', G', rfl, h'⟩ := key
    refine ⟨F', G', e, h'.dep, h'.norm, fun k hk => h'.calib k hk ?_⟩
    have := hc.plan.lt (.clq k) hk
    omega
  · rintro i hi st ⟨F', G', rfl, h⟩
    have hil : i + 1 < L.nodes.length := by omega
    show ∃ b', (if (i + 1) % 2 = 1 then _ else _) = _ ∧ _
    by_cases h2 : (i + 1) % 2 = 1
    · rw [if_pos h2, rd_ok (hc.plan.lseps (i + 1) h2 hil), ok_bind]
      obtain ⟨G2, e, h'⟩ := sepLevelDistribute_spec hc h2 hil h
      exact ⟨_, e, F', G2, rfl, h'⟩
    · rw [if_neg h2, rd_ok (a := L.nodes.getD (i + 1) []) (by rw [getD_of_lt hil, List.getElem?_eq_getElem hil]), ok_bind]
      obtain ⟨F2, e, h'⟩ := cliqueLevelDistribute_spec hc (by omega) hil h
      exact ⟨_, e, F2, G', rfl, h'⟩

end

end FastPGM
