import Verif.Lemmas.JunctionTree32b

/-!
A level of separators whose upstream cliques together have too many entries.
-/

namespace FastPGM

variable {K : Type} {σ : List Nat} {st st' : JState K}

/-- The sizes of the clique tables. -/
def SizesAre (σ : List Nat) (st : JState K) : Prop := st.clq.map (·.size) = σ

theorem SizesAre.set (h : SizesAre σ st) {i : Nat} {T T' : Table K} (hi : rd st.clq i = .ok T) (hs : T'.size = T.size) {clq : List (Table K)}
    (hw : wr st.clq i T' = .ok clq) : clq.map (·.size) = σ := by
  obtain ⟨-, rfl⟩ := wr_inv hw
  rw [List.map_set, h]
  have : σ[i]? = some T.size := by
    rw [← h, List.getElem?_map, rd_eq_ok.mp hi]
    rfl
  obtain ⟨h1, h2⟩ := List.getElem?_eq_some_iff.1 this
  rw [hs, ← h2, List.set_getElem_self]

theorem normalize_size [Zero K] [Add K] [Div K] [DecidableEq K] {T T' : Table K} (h : normalize T = .ok T') : T'.size = T.size := by
  obtain ⟨den, -, h⟩ := bind_eq_ok h
  obtain ⟨pot, -, h⟩ := bind_eq_ok h
  cases h
  rfl

theorem mapM_normalize_sizes [Zero K] [Add K] [Div K] [DecidableEq K] {l l' : List (Table K)} (h : l.mapM normalize = .ok l') :
    l'.map (·.size) = l.map (·.size) := by
  induction l generalizing l' with
  | nil => cases h; rfl
  | cons T l ih =>
    rw [List.mapM_cons] at h
    obtain ⟨T', g1, h⟩ := bind_eq_ok h
    obtain ⟨l1, g2, h⟩ := bind_eq_ok h
    cases h
    rw [List.map_cons, List.map_cons, normalize_size g1, ih g2]

theorem normalizeClique_sizes [Zero K] [Add K] [Div K] [DecidableEq K] {x : JNode} (hst : SizesAre σ st) (h : normalizeClique st x = .ok st') :
    SizesAre σ st' := by
  obtain ⟨i, -, h⟩ := bind_eq_ok h
  obtain ⟨T, hT, h⟩ := bind_eq_ok h
  obtain ⟨T', hn, h⟩ := bind_eq_ok h
  obtain ⟨clq, hw, h⟩ := bind_eq_ok h
  cases h
  exact hst.set hT (normalize_size hn) hw

theorem separatorCollect_sizes [Zero K] [Add K] [Div K] [DecidableEq K] {m : Marks} {x : JNode} (hst : SizesAre σ st)
    (h : separatorCollect m st x = .ok st') : SizesAre σ st' := by
  obtain ⟨s, -, h⟩ := bind_eq_ok h
  obtain ⟨c, -, h⟩ := bind_eq_ok h
  obtain ⟨i, -, h⟩ := bind_eq_ok h
  obtain ⟨S, -, h⟩ := bind_eq_ok h
  obtain ⟨T, -, h⟩ := bind_eq_ok h
  split at h
  · cases h
  · obtain ⟨tmp, -, h⟩ := bind_eq_ok h
    obtain ⟨pot, -, h⟩ := bind_eq_ok h
    obtain ⟨sep, -, h⟩ := bind_eq_ok h
    cases h
    exact hst

theorem separatorDistribute32_sizes [Zero K] [Add K] [Div K] [DecidableEq K] {m : Marks} {x : JNode} (hst : SizesAre σ st)
    (h : separatorDistribute32 m st x = .ok st') : SizesAre σ st' := by
  obtain ⟨s, -, h⟩ := bind_eq_ok h
  obtain ⟨c, -, h⟩ := bind_eq_ok h
  obtain ⟨i, -, h⟩ := bind_eq_ok h
  obtain ⟨S, -, h⟩ := bind_eq_ok h
  obtain ⟨T, -, h⟩ := bind_eq_ok h
  obtain ⟨_, -, h⟩ := bind_eq_ok h
  obtain ⟨_, -, h⟩ := bind_eq_ok h
  obtain ⟨ti, -, h⟩ := bind_eq_ok h
  obtain ⟨tmp, -, h⟩ := bind_eq_ok h
  obtain ⟨pot, -, h⟩ := bind_eq_ok h
  obtain ⟨sep, -, h⟩ := bind_eq_ok h
  cases h
  exact hst

theorem cliqueCollect32_sizes [Mul K] {m : Marks} {k : Nat} {x : JNode} (hst : SizesAre σ st) (h : cliqueCollect32 m k st x = .ok st') :
    SizesAre σ st' := by
  obtain ⟨i, -, h⟩ := bind_eq_ok h
  obtain ⟨y, -, h⟩ := bind_eq_ok h
  obtain ⟨s, -, h⟩ := bind_eq_ok h
  obtain ⟨T, hT, h⟩ := bind_eq_ok h
  obtain ⟨S, -, h⟩ := bind_eq_ok h
  obtain ⟨_, -, h⟩ := bind_eq_ok h
  obtain ⟨_, -, h⟩ := bind_eq_ok h
  obtain ⟨ti, -, h⟩ := bind_eq_ok h
  obtain ⟨ext, -, h⟩ := bind_eq_ok h
  obtain ⟨pot, -, h⟩ := bind_eq_ok h
  obtain ⟨clq, hw, h⟩ := bind_eq_ok h
  cases h
  exact hst.set (T' := { T with pot := pot }) hT rfl hw

theorem cliqueDistribute_sizes [Mul K] {m : Marks} {x : JNode} (hst : SizesAre σ st) (h : cliqueDistribute m st x = .ok st') :
    SizesAre σ st' := by
  obtain ⟨i, -, h⟩ := bind_eq_ok h
  obtain ⟨y, -, h⟩ := bind_eq_ok h
  obtain ⟨s, -, h⟩ := bind_eq_ok h
  obtain ⟨T, hT, h⟩ := bind_eq_ok h
  obtain ⟨S, -, h⟩ := bind_eq_ok h
  split at h
  · cases h
  · obtain ⟨ext, -, h⟩ := bind_eq_ok h
    obtain ⟨pot, -, h⟩ := bind_eq_ok h
    obtain ⟨clq, hw, h⟩ := bind_eq_ok h
    cases h
    exact hst.set (T' := { T with pot := pot }) hT rfl hw

variable [Zero K] [Add K] [Mul K] [Div K] [DecidableEq K]

theorem collect32_sizes {L : Levels} (hst : SizesAre σ st) (h : collect32 L st = .ok st') : SizesAre σ st' := by
  refine foldlM_inv (SizesAre σ) h hst ?_
  intro b i b' hb hf
  split at hf
  · obtain ⟨level, -, hf⟩ := bind_eq_ok hf
    obtain ⟨_, -, hf⟩ := bind_eq_ok hf
    obtain ⟨_, -, hf⟩ := bind_eq_ok hf
    obtain ⟨b1, h1, hf⟩ := bind_eq_ok hf
    obtain ⟨_, -, hf⟩ := bind_eq_ok hf
    obtain ⟨_, -, hf⟩ := bind_eq_ok hf
    cases hf
    exact foldlM_inv (SizesAre σ) h1 hb (fun _ _ _ => separatorCollect_sizes)
  · obtain ⟨level, -, hf⟩ := bind_eq_ok hf
    refine foldlM_inv (SizesAre σ) hf hb ?_
    intro c k c' hc hg
    obtain ⟨_, -, hg⟩ := bind_eq_ok hg
    obtain ⟨_, -, hg⟩ := bind_eq_ok hg
    obtain ⟨b1, h1, hg⟩ := bind_eq_ok hg
    obtain ⟨_, -, hg⟩ := bind_eq_ok hg
    obtain ⟨_, -, hg⟩ := bind_eq_ok hg
    exact foldlM_inv (SizesAre σ) hg (foldlM_inv (SizesAre σ) h1 hc (fun _ _ _ => cliqueCollect32_sizes)) (fun _ _ _ => normalizeClique_sizes)

omit [Mul K] in
theorem separatorLevelDistribute32_ub {m : Marks} {level : List JNode} {cs : List Nat}
    (hup : level.map m.up = cs.map (fun c => some (.clq c))) (hcs : ∀ c ∈ cs, c < σ.length) (hst : SizesAre σ st)
    (hs : ¬ (cs.map (fun c => σ.getD c 0)).sum ≤ intMax) : separatorLevelDistribute32 m level st = .error .ub := by
  refine sums_ub (sizes := cs.map (fun c => σ.getD c 0)) ?_ hs _
  clear hs
  induction level generalizing cs with
  | nil =>
    cases cs with
    | nil => rfl
    | cons c cs => simp at hup
  | cons x level ih =>
    cases cs with
    | nil => simp at hup
    | cons c cs =>
      simp only [List.map_cons, List.cons.injEq] at hup
      have hc := hcs c (by simp)
      have hc' : c < st.clq.length := by rw [← hst] at hc; simpa using hc
      have e : rd st.clq c = .ok st.clq[c] := rd_getElem hc'
      rw [List.mapM_cons, ih hup.2 (fun c hc => hcs c (by simp [hc]))]
      unfold Marks.upOf
      rw [hup.1]
      simp only [ok_bind, clqSize, JNode.clqIdx, e, List.map_cons]
      rw [getD_of_lt hc]
      simp only [← show st.clq.map (·.size) = σ from hst, List.getElem_map]
      rfl

theorem distribute32_sizes {L : Levels} {t : Nat} {level : List JNode} {cs : List Nat} (ht : 2 * t + 1 < L.nodes.length)
    (hl : L.seps[t]? = some level) (hup : level.map L.marks.up = cs.map (fun c => some (.clq c))) (hcs : ∀ c ∈ cs, c < σ.length)
    (hs : ¬ (cs.map (fun c => σ.getD c 0)).sum ≤ intMax) (hst : SizesAre σ st) : distribute32 L st ≠ .ok st' := by
  intro h
  have key : SizesAre σ st' ∧ (2 * t < L.nodes.length - 1 → False) := by
    refine foldlM_range_inv (fun k s => SizesAre σ s ∧ (2 * t < k → False)) h ⟨hst, by omega⟩ ?_
    rintro i - b b' ⟨hb, hn⟩ hf
    simp only at hf
    split at hf
    · obtain ⟨lv, hlv, hf⟩ := bind_eq_ok hf
      by_cases he : i = 2 * t
      · subst he
        rw [show (2 * t + 1) / 2 = t by omega] at hlv
        rw [rd_eq_ok.mp hlv] at hl
        cases hl
        rw [separatorLevelDistribute32_ub hup hcs hb hs] at hf
        cases hf
      · obtain ⟨_, -, hf⟩ := bind_eq_ok hf
        obtain ⟨_, -, hf⟩ := bind_eq_ok hf
        obtain ⟨b1, h1, hf⟩ := bind_eq_ok hf
        obtain ⟨_, -, hf⟩ := bind_eq_ok hf
        obtain ⟨_, -, hf⟩ := bind_eq_ok hf
        cases hf
        exact ⟨foldlM_inv (SizesAre σ) h1 hb (fun _ _ _ => separatorDistribute32_sizes), fun g => hn (by omega)⟩
    · obtain ⟨lv, hlv, hf⟩ := bind_eq_ok hf
      obtain ⟨_, -, hf⟩ := bind_eq_ok hf
      obtain ⟨_, -, hf⟩ := bind_eq_ok hf
      obtain ⟨b1, h1, hf⟩ := bind_eq_ok hf
      obtain ⟨_, -, hf⟩ := bind_eq_ok hf
      obtain ⟨_, -, hf⟩ := bind_eq_ok hf
      exact ⟨foldlM_inv (SizesAre σ) hf (foldlM_inv (SizesAre σ) h1 hb (fun _ _ _ => cliqueDistribute_sizes)) (fun _ _ _ => normalizeClique_sizes),
        fun g => hn (by omega)⟩
  exact key.2 (by omega)

theorem propagate32_sizes {L : Levels} {t n : Nat} {level : List JNode} {cs : List Nat} (ht : 2 * t + 1 < L.nodes.length)
    (hl : L.seps[t]? = some level) (hup : level.map L.marks.up = cs.map (fun c => some (.clq c))) (hcs : ∀ c ∈ cs, c < σ.length)
    (hs : ¬ (cs.map (fun c => σ.getD c 0)).sum ≤ intMax) (hst : SizesAre σ st) : propagate32 L n [] st ≠ .ok st' := by
  intro h
  obtain ⟨s1, h1, h⟩ := bind_eq_ok h
  cases h1
  obtain ⟨clq, h2, h⟩ := bind_eq_ok h
  obtain ⟨s3, h3, h⟩ := bind_eq_ok h
  refine distribute32_sizes ht hl hup hcs hs (collect32_sizes ?_ h3) h
  show clq.map (·.size) = σ
  rw [← show st.clq.map (·.size) = σ from hst]
  exact mapM_normalize_sizes h2

end FastPGM
