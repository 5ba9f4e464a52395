import Verif.Lemmas.ThreadsPost

/-!
The parallel loops of the junction tree: every execution computes what the sequential loops over the tables compute.
-/

namespace FastPGM

variable {K : Type}

open Thread

theorem safe_store {R W : Place → Prop} {l : Place} {v : Cell K} {m : JMem K} {Q : Unit → JMem K → Prop} (hw : W l) (ha : m l ≠ none)
    (hq : Q () (m.put l v)) : (Thread.store l v : JProg K Unit).Safe R W m Q := ⟨hw, ha, hq⟩

theorem safe_readInt {R W : Place → Prop} {l : Place} {n : Nat} {m : JMem K} {Q : Nat → JMem K → Prop} (hr : R l ∨ W l)
    (h : m l = some (some (.int n))) (hq : Q n m) : (readInt l : JProg K Nat).Safe R W m Q := ⟨hr, _, h, hq⟩

theorem safe_readNum {R W : Place → Prop} {l : Place} {n : K} {m : JMem K} {Q : K → JMem K → Prop} (hr : R l ∨ W l)
    (h : m l = some (some (.num n))) (hq : Q n m) : (readNum l : JProg K K).Safe R W m Q := ⟨hr, _, h, hq⟩

theorem safe_readTab {R W : Place → Prop} {l : Place} {n : Table K} {m : JMem K} {Q : Table K → JMem K → Prop} (hr : R l ∨ W l)
    (h : m l = some (some (.tab n))) (hq : Q n m) : (readTab l : JProg K (Table K)).Safe R W m Q := ⟨hr, _, h, hq⟩

theorem lift_ok_bind {α β : Type} (a : α) (f : α → JProg K β) : (Thread.lift (.ok a) >>= f) = f a := rfl

theorem put_self (m : JMem K) (l : Place) (v : Cell K) : m.put l v l = some (some v) := by simp [Mem.put]

theorem put_ne (m : JMem K) {l x : Place} (v : Cell K) (h : x ≠ l) : m.put l v x = m x := by simp [Mem.put, h]

theorem getConfig_length {cum : List Nat} {a : Nat} {cfg : List Nat} (h : getConfig cum a = .ok cfg) : cfg.length = cum.length := by
  induction cum generalizing a cfg with
  | nil => simp only [getConfig, Except.ok.injEq] at h; subst h; rfl
  | cons c cs ih =>
    rw [getConfig] at h
    split at h
    · cases h
    · cases hr : getConfig cs (a % c) with
      | error e => rw [hr] at h; cases h
      | ok r =>
        rw [hr] at h
        cases h
        simp [ih hr]

theorem getConfig_drop {cum : List Nat} {a : Nat} {cfg : List Nat} {i : Nat} (hi : i < cum.length)
    (h : getConfig (cum.drop i) a = .ok (cfg.drop i)) (hl : cfg.length = cum.length) :
    ∃ c, cum[i]? = some c ∧ c ≠ 0 ∧ cfg[i]? = some (a / c) ∧ getConfig (cum.drop (i + 1)) (a % c) = .ok (cfg.drop (i + 1)) := by
  rw [List.drop_eq_getElem_cons hi, List.drop_eq_getElem_cons (by omega : i < cfg.length), getConfig] at h
  split at h
  · cases h
  · rename_i hc
    refine ⟨cum[i], List.getElem?_eq_getElem hi, hc, ?_, ?_⟩ <;>
    · cases hr : getConfig (cum.drop (i + 1)) (a % cum[i]) with
      | error e => rw [hr] at h; cases h
      | ok r =>
        rw [hr] at h
        have h' := Except.ok.inj h
        obtain ⟨h1, h2⟩ := List.cons.inj h'
        first
          | rw [h1]; exact List.getElem?_eq_getElem _
          | rw [h2]

/-- `GetConfigValueByTableIndex` writes the configuration into its cells and nothing else. -/
theorem writeConfig_safe {R W : Place → Prop} {cell : Nat → Place} {nv : Nat} {cum cfg : List Nat} {a : Nat} {m : JMem K}
    (h : getConfig cum a = .ok cfg) (hn : cum.length = nv) (hm : ∀ i < nv, m (cell i) ≠ none) (hc : ∀ i < nv, ∀ j < nv, cell i = cell j → i = j)
    (hW : ∀ i < nv, W (cell i)) :
    (writeConfig cell nv cum a : JProg K Nat).Safe R W m (fun _ x =>
      (∀ i < nv, ∃ v, cfg[i]? = some v ∧ x (cell i) = some (some (.int v))) ∧ ∀ l, (∀ i < nv, l ≠ cell i) → x l = m l) := by
  have hl := getConfig_length h
  refine (Safe.foldlM_range (I := fun i (b : Nat) (x : JMem K) => getConfig (cum.drop i) b = .ok (cfg.drop i) ∧
    (∀ i' < i, ∃ v, cfg[i']? = some v ∧ x (cell i') = some (some (.int v))) ∧ (∀ i' < nv, x (cell i') ≠ none) ∧
    ∀ l, (∀ i < nv, l ≠ cell i) → x l = m l) ⟨by simpa using h, by simp, hm, fun _ _ => rfl⟩ ?_).mono
    (fun _ h => .inl h) (fun _ h => h) (fun _ x h => ⟨h.2.1, h.2.2.2⟩)
  rintro i hi b x ⟨h1, h2, h3, h4⟩
  obtain ⟨c, e1, e2, e3, e4⟩ := getConfig_drop (by omega) h1 hl
  rw [rd_ok e1, lift_ok_bind, if_neg e2]
  refine Safe.bind' (fun _ y => y = x.put (cell i) (.int (b / c))) (safe_store (hW i hi) (h3 i hi) rfl) ?_
  rintro _ _ rfl
  refine ⟨e4, ?_, ?_, ?_⟩
  · intro i' hi'
    by_cases e : i' = i
    · subst e
      exact ⟨_, e3, put_self _ _ _⟩
    · rw [put_ne _ _ (fun h => e (hc i' (by omega) i hi h))]
      exact h2 i' (by omega)
  · intro i' hi'
    by_cases e : cell i' = cell i
    · rw [e, put_self]; simp
    · rw [put_ne _ _ e]; exact h3 i' hi'
  · intro l hl'
    rw [put_ne _ _ (hl' i hi)]
    exact h4 l hl'

theorem zipWith_take_succ {l r : List Nat} {i a b : Nat} (hl : l[i]? = some a) (hr : r[i]? = some b) :
    getIndex (l.take (i + 1)) (r.take (i + 1)) = getIndex (l.take i) (r.take i) + a * b := by
  obtain ⟨h1, rfl⟩ := List.getElem?_eq_some_iff.mp hl
  obtain ⟨h2, rfl⟩ := List.getElem?_eq_some_iff.mp hr
  rw [getIndex, getIndex, List.take_succ_eq_append_getElem h1, List.take_succ_eq_append_getElem h2,
    List.zipWith_append (by simp; omega)]
  simp

/-- `GetTableIndexByConfigValue` only reads its cells. -/
theorem readIndex_safe {R W : Place → Prop} {cell : Nat → Place} {nv : Nat} {cum cfg : List Nat} {m : JMem K} (hn : cum.length = nv)
    (hl : cfg.length = nv) (hm : ∀ i < nv, ∃ v, cfg[i]? = some v ∧ m (cell i) = some (some (.int v))) (hR : ∀ i < nv, R (cell i) ∨ W (cell i)) :
    (readIndex cell nv cum : JProg K Nat).Safe R W m (fun t x => t = getIndex cfg cum ∧ x = m) := by
  refine (Safe.foldlM_range (I := fun i (t : Nat) (x : JMem K) => t = getIndex (cfg.take i) (cum.take i) ∧ x = m) ⟨by simp [getIndex], rfl⟩ ?_).mono
    (fun _ h => .inl h) (fun _ h => h) ?_
  · rintro i hi t x ⟨rfl, rfl⟩
    obtain ⟨v, hv, hx⟩ := hm i hi
    have hc : cum[i]? = some cum[i] := List.getElem?_eq_getElem (by omega)
    refine Safe.bind' (fun a y => a = v ∧ y = x) (safe_readInt (hR i hi) hx ⟨rfl, rfl⟩) ?_
    rintro _ _ ⟨rfl, rfl⟩
    rw [rd_ok hc, lift_ok_bind]
    exact ⟨(zipWith_take_succ hv hc).symm, rfl⟩
  · rintro t x ⟨rfl, rfl⟩
    rw [List.take_of_length_le (by omega), List.take_of_length_le (by omega)]
    exact ⟨rfl, rfl⟩

theorem mapM_get {α β : Type} {f : α → Except Fault β} {l : List α} {r : List β} (h : l.mapM f = .ok r) :
    r.length = l.length ∧ ∀ (i : Nat) x, l[i]? = some x → ∃ y, r[i]? = some y ∧ f x = .ok y := by
  induction l generalizing r with
  | nil =>
    simp only [List.mapM_nil, pure_eq_ok, Except.ok.injEq] at h
    subst h
    simp
  | cons a as ih =>
    rw [List.mapM_cons] at h
    cases ha : f a with
    | error e => rw [ha] at h; cases h
    | ok b =>
      rw [ha, ok_bind] at h
      cases hr : as.mapM f with
      | error e => rw [hr] at h; cases h
      | ok bs =>
        rw [hr] at h
        cases h
        obtain ⟨h1, h2⟩ := ih hr
        refine ⟨by simp [h1], ?_⟩
        intro i x hx
        cases i with
        | zero =>
          simp only [List.getElem?_cons_zero, Option.some.injEq] at hx
          subst hx
          exact ⟨b, by simp, ha⟩
        | succ i => simpa using h2 i x (by simpa using hx)

theorem mapM_of_get {α β : Type} {f : α → Except Fault β} {l : List α} {r : List β} (hl : r.length = l.length)
    (h : ∀ (i : Nat) x, l[i]? = some x → ∃ y, r[i]? = some y ∧ f x = .ok y) : l.mapM f = .ok r := by
  induction l generalizing r with
  | nil => cases r with
    | nil => rfl
    | cons b bs => simp at hl
  | cons a as ih =>
    cases r with
    | nil => simp at hl
    | cons b bs =>
      obtain ⟨y, hy, hf⟩ := h 0 a (by simp)
      simp only [List.getElem?_cons_zero, Option.some.injEq] at hy
      subst hy
      rw [List.mapM_cons, hf, ok_bind, ih (by simpa using hl) (fun i x hx => by simpa using h (i + 1) x (by simpa using hx))]
      rfl

/-- The places an iteration of the index loops uses. -/
def Transfer.uses (t : Transfer) (j k : Nat) : Place → Prop
  | .full j' o => j' = j ∧ ∃ i < t.nvFrom, o = k * t.nvFrom + i
  | .part j' o => j' = j ∧ ∃ i < t.nvTo, o = k * t.nvTo + i
  | .index j' k' => j' = j ∧ k' = k
  | _ => False

/-- Lengths of the arrays. -/
structure Transfer.WF (t : Transfer) : Prop where
  from_ : t.cumFrom.length = t.nvFrom
  loc : t.loc.length = t.nvTo
  to_ : t.cumTo.length = t.nvTo

theorem block_lt {k n nv i : Nat} (hk : k < n) (hi : i < nv) : k * nv + i < n * nv := by
  have : (k + 1) * nv ≤ n * nv := Nat.mul_le_mul_right _ hk
  rw [Nat.add_mul] at this
  omega

theorem block_ne {k k' nv i i' : Nat} (hi : i < nv) (hi' : i' < nv) (h : k * nv + i = k' * nv + i') : k = k' := by
  have h1 : (k * nv + i) / nv = k := by
    rw [Nat.add_comm, Nat.add_mul_div_right _ _ (by omega), Nat.div_eq_of_lt hi, Nat.zero_add]
  have h2 : (k' * nv + i') / nv = k' := by
    rw [Nat.add_comm, Nat.add_mul_div_right _ _ (by omega), Nat.div_eq_of_lt hi', Nat.zero_add]
  rw [← h1, h, h2]

theorem transferIndex_inv {cf loc ct : List Nat} {i r : Nat} (h : transferIndex cf loc ct i = .ok r) :
    ∃ full part, getConfig cf i = .ok full ∧ loc.mapM (rd full) = .ok part ∧ r = getIndex part ct := by
  rw [transferIndex] at h
  cases hf : getConfig cf i with
  | error e => rw [hf] at h; cases h
  | ok full =>
    rw [hf, ok_bind] at h
    cases hp : loc.mapM (rd full) with
    | error e => rw [hp] at h; cases h
    | ok part =>
      rw [hp] at h
      cases h
      exact ⟨full, part, rfl, hp, rfl⟩

theorem transferMain_safe {R : Place → Prop} {t : Transfer} {j k r : Nat} {m : JMem K} (ht : t.WF) (hr : transferIndex t.cumFrom t.loc t.cumTo k = .ok r)
    (hm : ∀ l, t.uses j k l → m l ≠ none) :
    (transferMain t j k : JProg K Unit).Safe R (t.uses j k) m (fun _ x => x (.index j k) = some (some (.int r))) := by
  obtain ⟨full, part, h1, h2, rfl⟩ := transferIndex_inv hr
  have hfl := getConfig_length h1
  obtain ⟨hpl, hpg⟩ := mapM_get h2
  refine Safe.bind' _ (writeConfig_safe h1 ht.from_ (fun i hi => hm _ ⟨rfl, i, hi, rfl⟩)
    (fun i _ i' _ e => by simpa using e) (fun i hi => ⟨rfl, i, hi, rfl⟩)) ?_
  rintro _ x ⟨hx, hxf⟩
  refine Safe.bind' (fun _ (y : JMem K) => (∀ l < t.nvTo, ∃ v, part[l]? = some v ∧ y (.part j (k * t.nvTo + l)) = some (some (.int v))) ∧
    y (.index j k) ≠ none) ?_ ?_
  · refine (Safe.foldlM_range (I := fun l (_ : Unit) (y : JMem K) =>
      (∀ l' < l, ∃ v, part[l']? = some v ∧ y (.part j (k * t.nvTo + l')) = some (some (.int v))) ∧
      (∀ o, y (.full j o) = x (.full j o)) ∧ y (.index j k) ≠ none ∧ ∀ l' < t.nvTo, y (.part j (k * t.nvTo + l')) ≠ none) ?_ ?_).mono
      (fun _ h => .inl h) (fun _ h => h) (fun _ y h => ⟨h.1, h.2.2.1⟩)
    · refine ⟨by simp, fun _ => rfl, ?_, ?_⟩
      · rw [hxf _ (by simp)]; exact hm _ ⟨rfl, rfl⟩
      · intro l' hl'
        rw [hxf _ (by simp)]; exact hm _ ⟨rfl, l', hl', rfl⟩
    · rintro l hl _ y ⟨y1, y2, y3, y4⟩
      have hll : l < t.loc.length := by rw [ht.loc]; exact hl
      have hlo : t.loc[l]? = some t.loc[l] := List.getElem?_eq_getElem hll
      rw [rd_ok hlo, lift_ok_bind]
      obtain ⟨v, hv, hrd⟩ := hpg l _ hlo
      have hrd := rd_eq_ok.mp hrd
      have hlt : t.loc[l] < t.nvFrom := by
        have := (List.getElem?_eq_some_iff.mp hrd).1
        rw [hfl, ht.from_] at this
        exact this
      obtain ⟨v', hv', hxv⟩ := hx _ hlt
      have e : v' = v := Option.some.inj (hv'.symm.trans hrd)
      subst e
      refine Safe.bind' (fun a z => a = v' ∧ z = y) (safe_readInt (.inr ⟨rfl, _, hlt, rfl⟩) (by rw [y2]; exact hxv) ⟨rfl, rfl⟩) ?_
      rintro _ _ ⟨rfl, rfl⟩
      refine safe_store ⟨rfl, l, hl, rfl⟩ (y4 l hl) ⟨?_, ?_, ?_, ?_⟩
      · intro l' hl'
        by_cases e : l' = l
        · subst e; exact ⟨_, hv, put_self _ _ _⟩
        · rw [put_ne _ _ (by simpa using e)]; exact y1 l' (by omega)
      · intro o; rw [put_ne _ _ (by simp)]; exact y2 o
      · rw [put_ne _ _ (by simp)]; exact y3
      · intro l' hl'
        by_cases e : l' = l
        · subst e; rw [put_self]; simp
        · rw [put_ne _ _ (by simpa using e)]; exact y4 l' hl'
  · rintro _ y ⟨y1, y2⟩
    refine Safe.bind' _ (readIndex_safe ht.to_ (by rw [hpl, ht.loc]) y1 (fun i hi => .inr ⟨rfl, i, hi, rfl⟩)) ?_
    rintro _ _ ⟨rfl, rfl⟩
    exact safe_store ⟨rfl, rfl⟩ y2 (put_self _ _ _)

/-- `table_index` read from memory. -/
theorem rows_eq {m : JMem K} {sizes : List Nat} {rows : List (List Nat)} (hl : rows.length = sizes.length)
    (h : ∀ (j n : Nat), sizes[j]? = some n → ∃ row : List Nat, rows[j]? = some row ∧ row.length = n ∧
      ∀ k < n, ∃ v, row[k]? = some v ∧ m (.index j k) = some (some (.int v))) : JMem.rows m sizes = .ok rows := by
  refine mapM_of_get (by simpa using hl) ?_
  intro j x hx
  obtain ⟨hj, rfl⟩ := List.getElem?_eq_some_iff.mp hx
  simp only [List.length_range] at hj
  obtain ⟨row, h1, h2, h3⟩ := h j _ (List.getElem?_eq_getElem hj)
  refine ⟨row, h1, ?_⟩
  simp only [List.getElem_range]
  rw [rd_getElem hj, ok_bind]
  refine mapM_of_get (by simpa using h2) ?_
  intro k x hx
  obtain ⟨hk, rfl⟩ := List.getElem?_eq_some_iff.mp hx
  simp only [List.length_range] at hk
  obtain ⟨v, h4, h5⟩ := h3 k hk
  refine ⟨v, h4, ?_⟩
  simp only [List.getElem_range, JMem.int, Mem.get, h5]
  rfl

/-- The parallel loop of `SeparatorLevelDistribution` and `CliqueLevelCollection`. -/
theorem parTransfer_eq {p : Nat} (hp : 0 < p) {ts : List Transfer} {rows : List (List Nat)} (hwf : ∀ t ∈ ts, t.WF)
    (h : ts.mapM (fun t => (List.range t.size).mapM (transferIndex t.cumFrom t.loc t.cumTo)) = .ok rows) :
    parTransfer K p ts = Par.lift (.ok rows) := by
  obtain ⟨hl, hg⟩ := mapM_get h
  have hsz : ∀ (j n : Nat), (ts.map (·.size))[j]? = some n → ∃ t ∈ ts, ts[j]? = some t ∧ t.size = n := by
    intro j n hn
    rw [List.getElem?_map, Option.map_eq_some_iff] at hn
    obtain ⟨t, ht, rfl⟩ := hn
    exact ⟨t, List.mem_of_getElem? ht, ht, rfl⟩
  have hrow : ∀ (j n k : Nat) (t : Transfer), ts[j]? = some t → k < t.size → ∃ (row : List Nat) (r : Nat), rows[j]? = some row ∧ row[k]? = some r ∧
      transferIndex t.cumFrom t.loc t.cumTo k = .ok r := by
    intro j n k t ht hk
    obtain ⟨row, h1, h2⟩ := hg j t ht
    obtain ⟨h3, h4⟩ := mapM_get h2
    obtain ⟨r, h5, h6⟩ := h4 k k (by rw [List.getElem?_range hk])
    exact ⟨row, r, h1, h5, h6⟩
  obtain ⟨m', h1, h2, -⟩ := parFor_flat (K := K) hp (sizes := ts.map (·.size)) (R := fun _ _ _ => False)
    (W := fun j k l => ∃ t, ts[j]? = some t ∧ t.uses j k l)
    (body := fun j k => do
      let t ← Thread.lift (rd ts j)
      transferMain t j k) (m := transferMem ts)
    (Q := fun j k x => ∃ (row : List Nat) (r : Nat), rows[j]? = some row ∧ row[k]? = some r ∧ x (.index j k) = some (some (.int r)))
    (by
      intro j k n hn hk
      obtain ⟨t, htm, ht, rfl⟩ := hsz j n hn
      obtain ⟨row, r, e1, e2, e3⟩ := hrow j t.size k t ht hk
      rw [rd_ok ht, lift_ok_bind]
      refine (transferMain_safe (R := fun _ => False) (hwf t htm) e3 ?_).mono (fun _ h => .inl h) (fun l hl => ⟨t, ht, hl⟩)
        (fun _ x hx => ⟨row, r, e1, e2, hx⟩)
      intro l hl
      cases l with
      | full j' o =>
        obtain ⟨rfl, i, hi, rfl⟩ := hl
        simp [transferMem, ht, block_lt hk hi]
      | part j' o =>
        obtain ⟨rfl, i, hi, rfl⟩ := hl
        simp [transferMem, ht, block_lt hk hi]
      | index j' k' =>
        obtain ⟨rfl, rfl⟩ := hl
        simp [transferMem, ht, hk]
      | _ => exact hl.elim)
    (by
      rintro j k n j' k' n' hn hk hn' hk' hne l ⟨t, ht, hl⟩
      refine ⟨not_false, ?_⟩
      rintro ⟨t', ht', hl'⟩
      cases l with
      | full j1 o =>
        obtain ⟨rfl, i, hi, rfl⟩ := hl
        obtain ⟨rfl, i', hi', e⟩ := hl'
        rw [ht] at ht'
        cases ht'
        exact hne (by rw [block_ne hi hi' e])
      | part j1 o =>
        obtain ⟨rfl, i, hi, rfl⟩ := hl
        obtain ⟨rfl, i', hi', e⟩ := hl'
        rw [ht] at ht'
        cases ht'
        exact hne (by rw [block_ne hi hi' e])
      | index j1 k1 =>
        obtain ⟨rfl, rfl⟩ := hl
        obtain ⟨rfl, rfl⟩ := hl'
        exact hne rfl
      | _ => exact hl.elim)
    (by
      rintro j k n hn hk x y e ⟨row, r, e1, e2, e3⟩
      obtain ⟨t, htm, ht, rfl⟩ := hsz j n hn
      exact ⟨row, r, e1, e2, (e (.index j k) (.inr ⟨t, ht, rfl, rfl⟩)).symm.trans e3⟩)
  rw [parTransfer]
  rw [h1, Par.lift_bind, rows_eq (rows := rows) (by simpa using hl)]
  intro j n hn
  obtain ⟨t, htm, ht, rfl⟩ := hsz j n hn
  obtain ⟨row, e1, e2⟩ := hg j t ht
  refine ⟨row, e1, by rw [(mapM_get e2).1, List.length_range], ?_⟩
  intro k hk
  obtain ⟨row', r, e3, e4, e5⟩ := h2 j k _ hn hk
  rw [e1] at e3
  cases e3
  exact ⟨r, e4, e5⟩

/-- The parallel loop of `SeparatorLevelCollectionOptimized` and `CliqueLevelDistributionOptimized`. -/
theorem parMod_eq {p : Nat} (hp : 0 < p) {nd : List (Nat × Nat)} (hd : ∀ x ∈ nd, x.2 ≠ 0) :
    parMod K p (nd.map (·.1)) (nd.map (·.2)) = Par.lift (.ok (nd.map (fun x => (List.range x.1).map (· % x.2)))) := by
  have hsz : ∀ (j n : Nat), (nd.map (·.1))[j]? = some n → ∃ d, nd[j]? = some (n, d) ∧ d ≠ 0 := by
    intro j n hn
    rw [List.getElem?_map, Option.map_eq_some_iff] at hn
    obtain ⟨⟨n', d⟩, ht, rfl⟩ := hn
    exact ⟨d, ht, hd _ (List.mem_of_getElem? ht)⟩
  obtain ⟨m', h1, h2, -⟩ := parFor_flat (K := K) hp (sizes := nd.map (·.1)) (R := fun _ _ _ => False)
    (W := fun j k l => l = .index j k)
    (body := fun j k => do
      let d ← Thread.lift (rd (nd.map (·.2)) j)
      if d = 0 then Thread.fault .ub else Thread.store (.index j k) (.int (k % d)))
    (m := indexMem (nd.map (·.1)))
    (Q := fun j k x => ∃ n d, nd[j]? = some (n, d) ∧ x (.index j k) = some (some (.int (k % d))))
    (by
      intro j k n hn hk
      obtain ⟨d, e, hd⟩ := hsz j n hn
      rw [rd_ok (a := d) (by simp [e]), lift_ok_bind, if_neg hd]
      exact safe_store rfl (by simp [indexMem, e, hk]) ⟨n, d, e, put_self _ _ _⟩)
    (by
      rintro j k n j' k' n' hn hk hn' hk' hne l rfl
      refine ⟨not_false, fun e => ?_⟩
      cases e
      exact hne rfl)
    (by
      rintro j k n hn hk x y e ⟨n, d, e1, e2⟩
      exact ⟨n, d, e1, (e (.index j k) (.inr rfl)).symm.trans e2⟩)
  rw [parMod, h1, Par.lift_bind, rows_eq (rows := nd.map (fun x => (List.range x.1).map (· % x.2))) (by simp)]
  intro j n hn
  obtain ⟨d, e, hd⟩ := hsz j n hn
  refine ⟨(List.range n).map (· % d), by simp [e], by simp, ?_⟩
  intro k hk
  obtain ⟨n', d', e1, e2⟩ := h2 j k _ hn hk
  rw [e] at e1
  cases e1
  exact ⟨k % d, by simp [hk], e2⟩

theorem foldlM_range_inv {β : Type} {f : β → Nat → Except Fault β} (P : Nat → β → Prop) {n : Nat} {b r : β} (h : (List.range n).foldlM f b = .ok r)
    (h0 : P 0 b) (hs : ∀ i < n, ∀ b b', P i b → f b i = .ok b' → P (i + 1) b') : P n r := by
  induction n generalizing r with
  | zero => simp only [List.range_zero, List.foldlM_nil, pure_eq_ok, Except.ok.injEq] at h; exact h ▸ h0
  | succ n ih =>
    rw [List.range_succ, List.foldlM_append] at h
    cases hr : (List.range n).foldlM f b with
    | error e => rw [hr] at h; cases h
    | ok b1 =>
      rw [hr, ok_bind] at h
      simp only [List.foldlM_cons, List.foldlM_nil] at h
      cases h2 : f b1 n with
      | error e => rw [h2] at h; cases h
      | ok b2 =>
        rw [h2] at h
        cases h
        exact hs n (by omega) b1 _ (ih hr (fun i hi => hs i (by omega))) h2

theorem wr_inv {α : Type} {l r : List α} {i : Nat} {a : α} (h : wr l i a = .ok r) : i < l.length ∧ r = l.set i a := by
  unfold wr at h
  split at h
  · rename_i hi
    exact ⟨hi, (Except.ok.inj h).symm⟩
  · cases h

theorem mulEntries_inv [Mul K] {n : Nat} {p q r : List K} (h : mulEntries n p q = .ok r) :
    r.length = p.length ∧ (∀ k < n, ∃ a b, p[k]? = some a ∧ q[k]? = some b ∧ r[k]? = some (a * b)) ∧ ∀ k, n ≤ k → r[k]? = p[k]? := by
  refine foldlM_range_inv (fun n (r : List K) => r.length = p.length ∧
    (∀ k < n, ∃ a b, p[k]? = some a ∧ q[k]? = some b ∧ r[k]? = some (a * b)) ∧ ∀ k, n ≤ k → r[k]? = p[k]?) h ⟨rfl, by simp, fun _ _ => rfl⟩ ?_
  rintro i - b b' ⟨h1, h2, h3⟩ hf
  cases ha : rd b i with
  | error e => simp only [ha] at hf; cases hf
  | ok a =>
    cases hb : rd q i with
    | error e => simp only [ha, hb] at hf; cases hf
    | ok c =>
      simp only [ha, hb, ok_bind] at hf
      obtain ⟨hi, rfl⟩ := wr_inv hf
      refine ⟨by simp [h1], ?_, ?_⟩
      · intro k hk
        by_cases e : k = i
        · subst e
          refine ⟨a, c, by rw [← h3 k le_rfl]; exact rd_eq_ok.mp ha, rd_eq_ok.mp hb, ?_⟩
          rw [List.getElem?_set_self hi]
        · rw [List.getElem?_set_ne (Ne.symm e)]
          exact h2 k (by omega)
      · intro k hk
        rw [List.getElem?_set_ne (by omega)]
        exact h3 k (by omega)

theorem storeTables_spec {tables : List (Table K)} {new : List (Nat × Table K)} (hlt : ∀ x ∈ new, x.1 < tables.length) (hnd : (new.map (·.1)).Nodup) :
    ∃ r, storeTables tables new = .ok r ∧ r.length = tables.length ∧ (∀ x ∈ new, r[x.1]? = some x.2) ∧
      ∀ c, c ∉ new.map (·.1) → r[c]? = tables[c]? := by
  induction new generalizing tables with
  | nil => exact ⟨tables, rfl, rfl, by simp, fun _ _ => rfl⟩
  | cons x xs ih =>
    have hx := hlt x (by simp)
    rw [List.map_cons, List.nodup_cons] at hnd
    obtain ⟨r, h1, h2, h3, h4⟩ := ih (tables := tables.set x.1 x.2) (fun y hy => by simpa using hlt y (by simp [hy])) hnd.2
    refine ⟨r, ?_, by simpa using h2, ?_, ?_⟩
    · rw [storeTables, List.foldlM_cons, wr_ok hx, ok_bind]
      exact h1
    · intro y hy
      rcases List.mem_cons.mp hy with rfl | hy
      · rw [h4 _ hnd.1, List.getElem?_set_self hx]
      · exact h3 y hy
    · intro c hc
      simp only [List.map_cons, List.mem_cons, not_or] at hc
      rw [h4 c hc.2, List.getElem?_set_ne (Ne.symm hc.1)]

/-- The parallel multiplication. -/
theorem parMul_eq [Mul K] {p : Nat} (hp : 0 < p) {cs sizes : List Nat} {exts : List (List K)} {clq : List (Table K)} {new : List (Nat × Table K)}
    (hnd : cs.Nodup) (hsl : sizes.length = cs.length) (hnew : new.map (·.1) = cs)
    (h : ∀ (j c : Nat), cs[j]? = some c → ∃ T ext pot, clq[c]? = some T ∧ sizes[j]? = some T.size ∧ T.pot.length = T.size ∧ exts[j]? = some ext ∧
      mulEntries T.size T.pot ext = .ok pot ∧ new[j]? = some (c, { T with pot := pot })) :
    parMul p cs sizes exts clq = Par.lift (storeTables clq new) := by
  have hlt : ∀ x ∈ new, x.1 < clq.length := by
    intro x hx
    have : x.1 ∈ cs := by rw [← hnew]; exact List.mem_map_of_mem hx
    obtain ⟨j, hj⟩ := List.mem_iff_getElem?.mp this
    obtain ⟨T, ext, pot, e, -⟩ := h j _ hj
    exact (List.getElem?_eq_some_iff.mp e).1
  obtain ⟨r, hr1, hr2, hr3, hr4⟩ := storeTables_spec hlt (by rw [hnew]; exact hnd)
  rw [hr1]
  have hinj : ∀ (j j' c : Nat), cs[j]? = some c → cs[j']? = some c → j = j' := by
    intro j j' c h1 h2
    obtain ⟨hj, e⟩ := List.getElem?_eq_some_iff.mp h1
    obtain ⟨hj', e'⟩ := List.getElem?_eq_some_iff.mp h2
    exact (List.Nodup.getElem_inj_iff hnd).mp (e.trans e'.symm)
  have hsz : ∀ (j n : Nat), sizes[j]? = some n → ∃ c, cs[j]? = some c := by
    intro j n hn
    have := (List.getElem?_eq_some_iff.mp hn).1
    exact ⟨cs[j]'(by omega), List.getElem?_eq_getElem _⟩
  obtain ⟨m', h1, h2, h3⟩ := parFor_flat (K := K) hp (sizes := sizes) (R := fun j k l => l = .tmp j k)
    (W := fun j k l => ∃ c, cs[j]? = some c ∧ l = .pot c k)
    (body := fun j k => do
      let c ← Thread.lift (rd cs j)
      let a ← readNum (.pot c k)
      let b ← readNum (.tmp j k)
      Thread.store (.pot c k) (.num (a * b)))
    (m := mulMem clq exts)
    (Q := fun j k x => ∃ c T y, cs[j]? = some c ∧ r[c]? = some T ∧ T.pot[k]? = some y ∧ x (.pot c k) = some (some (.num y)))
    (by
      intro j k n hn hk
      obtain ⟨c, hc⟩ := hsz j n hn
      obtain ⟨T, ext, pot, e1, e2, e3, e4, e5, e6⟩ := h j c hc
      rw [hn] at e2
      cases e2
      obtain ⟨i1, i2, -⟩ := mulEntries_inv e5
      obtain ⟨a, b, i3, i4, i5⟩ := i2 k hk
      rw [rd_ok hc, lift_ok_bind]
      refine Safe.bind' (fun v y => v = a ∧ y = mulMem clq exts) (safe_readNum (.inr ⟨c, hc, rfl⟩) ?_ ⟨rfl, rfl⟩) ?_
      · simp [mulMem, e1, i3]
      rintro _ _ ⟨rfl, rfl⟩
      refine Safe.bind' (fun v y => v = b ∧ y = mulMem clq exts) (safe_readNum (.inl rfl) ?_ ⟨rfl, rfl⟩) ?_
      · simp [mulMem, e4, i4]
      rintro _ _ ⟨rfl, rfl⟩
      refine safe_store ⟨c, hc, rfl⟩ ?_ ⟨c, _, _, hc, hr3 _ (List.mem_of_getElem? e6), i5, put_self _ _ _⟩
      simp [mulMem, e1, i3])
    (by
      rintro j k n j' k' n' hn hk hn' hk' hne l ⟨c, hc, rfl⟩
      refine ⟨by simp, ?_⟩
      rintro ⟨c', hc', e⟩
      cases e
      exact hne (by rw [hinj j j' c hc hc']))
    (by
      rintro j k n hn hk x y e ⟨c, T, v, e1, e2, e3, e4⟩
      exact ⟨c, T, v, e1, e2, e3, (e (.pot c k) (.inr ⟨c, e1, rfl⟩)).symm.trans e4⟩)
  rw [parMul, h1, Par.lift_bind]
  congr 1
  refine mapM_of_get (by simpa using hr2) ?_
  intro c x hx
  obtain ⟨hc, rfl⟩ := List.getElem?_eq_some_iff.mp hx
  simp only [List.length_range] at hc
  simp only [List.getElem_range]
  rw [rd_getElem hc, ok_bind]
  by_cases hm : c ∈ cs
  · obtain ⟨j, hj⟩ := List.mem_iff_getElem?.mp hm
    obtain ⟨T, ext, pot, e1, e2, e3, e4, e5, e6⟩ := h j c hj
    have hT : clq[c] = T := Option.some.inj ((List.getElem?_eq_getElem hc).symm.trans e1)
    rw [hT]
    obtain ⟨i1, -, -⟩ := mulEntries_inv e5
    have hrc := hr3 _ (List.mem_of_getElem? e6)
    refine ⟨_, hrc, ?_⟩
    have hmap : (List.range T.pot.length).mapM (fun k => JMem.num m' (.pot c k)) = .ok pot := by
      refine mapM_of_get (by simpa using i1) ?_
      intro k x hx
      obtain ⟨hk, rfl⟩ := List.getElem?_eq_some_iff.mp hx
      simp only [List.length_range] at hk
      simp only [List.getElem_range]
      obtain ⟨c', T', y, q1, q2, q3, q4⟩ := h2 j k _ e2 (by omega)
      rw [hj] at q1
      cases q1
      rw [hrc] at q2
      cases q2
      refine ⟨y, q3, ?_⟩
      simp only [JMem.num, Mem.get, q4]
      rfl
    rw [hmap]
    rfl
  · refine ⟨clq[c], by rw [hr4 c (by rw [hnew]; exact hm)]; exact List.getElem?_eq_getElem hc, ?_⟩
    have hmap : (List.range clq[c].pot.length).mapM (fun k => JMem.num m' (.pot c k)) = .ok clq[c].pot := by
      refine mapM_of_get (by simp) ?_
      intro k x hx
      obtain ⟨hk, rfl⟩ := List.getElem?_eq_some_iff.mp hx
      simp only [List.length_range] at hk
      simp only [List.getElem_range]
      refine ⟨clq[c].pot[k], List.getElem?_eq_getElem hk, ?_⟩
      have := h3 (.pot c k) (by
        rintro j k' n hn hk' ⟨c', hc', e⟩
        cases e
        exact hm (List.mem_of_getElem? hc'))
      simp only [JMem.num, Mem.get, this, mulMem, List.getElem?_eq_getElem hc, Option.bind_some, List.getElem?_eq_getElem hk, Option.map_some]
      rfl
    rw [hmap]
    rfl

end FastPGM
