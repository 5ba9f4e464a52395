import Verif.Model.JunctionTreeRun
import Verif.Lemmas.Except
import Mathlib.Data.List.Forall2

/-!
The functions of the model treat the entries of the tables uniformly: run on two kinds of numbers whose operations are related, they give
related results.
-/

set_option linter.unusedSectionVars false
set_option linter.unusedVariables false

namespace FastPGM

variable {α β γ δ : Type}

/-- Both computations fail in the same way, or both succeed with related results. -/
def ExRel (S : α → β → Prop) : Except Fault α → Except Fault β → Prop
  | .ok a, .ok b => S a b
  | .error e, .error e' => e = e'
  | _, _ => False

theorem ExRel.refl (x : Except Fault α) : ExRel Eq x x := by
  cases x <;> rfl

theorem ExRel.bind {S : α → β → Prop} {S' : γ → δ → Prop} {x : Except Fault α} {y : Except Fault β} {f : α → Except Fault γ}
    {g : β → Except Fault δ} (h : ExRel S x y) (h' : ∀ a b, S a b → ExRel S' (f a) (g b)) : ExRel S' (x >>= f) (y >>= g) := by
  cases x with
  | error e => cases y with
    | error e' => exact h
    | ok b => exact h.elim
  | ok a => cases y with
    | error e' => exact h.elim
    | ok b => exact h' a b h

/-- A first step that does not depend on the kind of numbers. -/
theorem ExRel.bind_same {S' : γ → δ → Prop} {x : Except Fault α} {f : α → Except Fault γ} {g : α → Except Fault δ}
    (h' : ∀ a, ExRel S' (f a) (g a)) : ExRel S' (x >>= f) (x >>= g) :=
  (ExRel.refl x).bind (fun a b e => e ▸ h' a)

theorem ExRel.mono {S S' : α → β → Prop} {x : Except Fault α} {y : Except Fault β} (h : ExRel S x y) (h' : ∀ a b, S a b → S' a b) :
    ExRel S' x y := by
  cases x with
  | error e => cases y with
    | error e' => exact h
    | ok b => exact h.elim
  | ok a => cases y with
    | error e' => exact h.elim
    | ok b => exact h' a b h

theorem ExRel.ite {S : α → β → Prop} {c c' : Prop} [Decidable c] [Decidable c'] {x x' : Except Fault α} {y y' : Except Fault β} (hc : c ↔ c')
    (h : c → c' → ExRel S x y) (h' : ¬ c → ¬ c' → ExRel S x' y') : ExRel S (if c then x else x') (if c' then y else y') := by
  by_cases e : c
  · rw [if_pos e, if_pos (hc.1 e)]
    exact h e (hc.1 e)
  · rw [if_neg e, if_neg (fun f => e (hc.2 f))]
    exact h' e (fun f => e (hc.2 f))

theorem ExRel.foldlM {S : α → β → Prop} {f : α → γ → Except Fault α} {g : β → γ → Except Fault β}
    (h : ∀ k a b, S a b → ExRel S (f a k) (g b k)) (l : List γ) {a : α} {b : β} (hab : S a b) : ExRel S (l.foldlM f a) (l.foldlM g b) := by
  induction l generalizing a b with
  | nil => exact hab
  | cons k l ih =>
    rw [List.foldlM_cons, List.foldlM_cons]
    exact (h k a b hab).bind (fun a b hab => ih hab)

theorem ExRel.foldlM₂ {S : α → β → Prop} {Q : γ → δ → Prop} {f : α → γ → Except Fault α} {g : β → δ → Except Fault β}
    (h : ∀ k k' a b, Q k k' → S a b → ExRel S (f a k) (g b k')) {l : List γ} {l' : List δ} (hl : List.Forall₂ Q l l') {a : α} {b : β}
    (hab : S a b) : ExRel S (l.foldlM f a) (l'.foldlM g b) := by
  induction hl generalizing a b with
  | nil => exact hab
  | cons hq _ ih =>
    rw [List.foldlM_cons, List.foldlM_cons]
    exact (h _ _ a b hq hab).bind (fun a b hab => ih hab)

theorem ExRel.mapM₂ {S : α → β → Prop} {Q : γ → δ → Prop} {f : γ → Except Fault α} {g : δ → Except Fault β}
    (h : ∀ k k', Q k k' → ExRel S (f k) (g k')) {l : List γ} {l' : List δ} (hl : List.Forall₂ Q l l') :
    ExRel (List.Forall₂ S) (l.mapM f) (l'.mapM g) := by
  induction hl with
  | nil => exact List.Forall₂.nil
  | cons hq _ ih =>
    rw [List.mapM_cons, List.mapM_cons]
    refine (h _ _ hq).bind (fun a b hab => ih.bind (fun as bs habs => ?_))
    exact List.Forall₂.cons hab habs

theorem ExRel.mapM {S : α → β → Prop} {f : γ → Except Fault α} {g : γ → Except Fault β} (h : ∀ k, ExRel S (f k) (g k)) (l : List γ) :
    ExRel (List.Forall₂ S) (l.mapM f) (l.mapM g) :=
  ExRel.mapM₂ (Q := Eq) (fun k _ e => e ▸ h k) (List.forall₂_same.2 (fun _ _ => rfl))

variable {S : α → β → Prop}

theorem ExRel.rd {l : List α} {l' : List β} (h : List.Forall₂ S l l') (i : Nat) : ExRel S (rd l i) (rd l' i) := by
  induction h generalizing i with
  | nil => rfl
  | cons hq _ ih =>
    cases i with
    | zero => exact hq
    | succ i => exact ih i

theorem forall₂_set {l : List α} {l' : List β} (h : List.Forall₂ S l l') (i : Nat) {a : α} {b : β} (hab : S a b) :
    List.Forall₂ S (l.set i a) (l'.set i b) := by
  induction h generalizing i with
  | nil => exact List.Forall₂.nil
  | cons hq ht ih =>
    cases i with
    | zero => exact List.Forall₂.cons hab ht
    | succ i => exact List.Forall₂.cons hq (ih i)

theorem ExRel.wr {l : List α} {l' : List β} (h : List.Forall₂ S l l') (i : Nat) {a : α} {b : β} (hab : S a b) :
    ExRel (List.Forall₂ S) (wr l i a) (wr l' i b) := by
  unfold FastPGM.wr
  refine ExRel.ite (by rw [h.length_eq]) (fun _ _ => ?_) (fun _ _ => rfl)
  exact forall₂_set h i hab

theorem forall₂_replicate (n : Nat) {a : α} {b : β} (hab : S a b) : List.Forall₂ S (List.replicate n a) (List.replicate n b) := by
  induction n with
  | zero => exact List.Forall₂.nil
  | succ n ih => exact List.Forall₂.cons hab ih

/-! ### Tables -/

variable {K K' : Type} [Zero K] [One K] [Add K] [Mul K] [Div K] [DecidableEq K] [Zero K'] [One K'] [Add K'] [Mul K'] [Div K'] [DecidableEq K']

/-- A relation between two kinds of numbers that the operations of the code respect. -/
structure OpsRel (R : K → K' → Prop) : Prop where
  zero : R 0 0
  one : R 1 1
  add : ∀ {a a' b b'}, R a a' → R b b' → R (a + b) (a' + b')
  mul : ∀ {a a' b b'}, R a a' → R b b' → R (a * b) (a' * b')
  div : ∀ {a a' b b'}, R a a' → R b b' → b ≠ 0 → R (a / b) (a' / b')
  eq_zero : ∀ {a a'}, R a a' → (a = 0 ↔ a' = 0)

/-- Tables of the same shape with related entries. -/
structure TableRel (R : K → K' → Prop) (T : Table K) (T' : Table K') : Prop where
  vars : T.vars = T'.vars
  dims : T.dims = T'.dims
  cum : T.cum = T'.cum
  size : T.size = T'.size
  pot : List.Forall₂ R T.pot T'.pot

variable {R : K → K' → Prop} (hR : OpsRel R)

omit [Zero K] [One K] [Add K] [Mul K] [Div K] [DecidableEq K] [Zero K'] [One K'] [Add K'] [Mul K'] [Div K'] [DecidableEq K'] in
theorem TableRel.withPot {T : Table K} {T' : Table K'} (h : TableRel R T T') {p : List K} {p' : List K'} (hp : List.Forall₂ R p p') :
    TableRel R { T with pot := p } { T' with pot := p' } :=
  ⟨h.vars, h.dims, h.cum, h.size, hp⟩

include hR

theorem scatterAdd_rel {acc : List K} {acc' : List K'} (h : List.Forall₂ R acc acc') (ti : List Nat) {src : List K} {src' : List K'}
    (hs : List.Forall₂ R src src') (n : Nat) : ExRel (List.Forall₂ R) (scatterAdd acc ti src n) (scatterAdd acc' ti src' n) := by
  unfold scatterAdd
  refine ExRel.foldlM (fun k p p' hp => ?_) _ h
  refine ExRel.bind_same (fun t => ?_)
  refine (ExRel.rd hs k).bind (fun q q' hq => ?_)
  refine (ExRel.rd hp t).bind (fun o o' ho => ?_)
  exact ExRel.wr hp t (hR.add ho hq)

omit hR in
theorem scatterSet_rel {α β : Type} {S : α → β → Prop} {acc : List α} {acc' : List β} (h : List.Forall₂ S acc acc') (ti : List Nat)
    {src : List α} {src' : List β} (hs : List.Forall₂ S src src') (n : Nat) :
    ExRel (List.Forall₂ S) (scatterSet acc ti src n) (scatterSet acc' ti src' n) := by
  unfold scatterSet
  refine ExRel.foldlM (fun k p p' hp => ?_) _ h
  refine ExRel.bind_same (fun t => ?_)
  refine (ExRel.rd hs k).bind (fun q q' hq => ?_)
  exact ExRel.wr hp t hq

theorem tableMarginalization_rel {T : Table K} {T' : Table K'} (h : TableRel R T T') (vs dims : List Nat) :
    ExRel (TableRel R) (tableMarginalization T vs dims) (tableMarginalization T' vs dims) := by
  unfold tableMarginalization
  rw [h.vars, h.size, h.cum]
  refine ExRel.bind_same (fun cs => ?_)
  refine ExRel.bind_same (fun ti => ?_)
  refine (scatterAdd_rel hR (forall₂_replicate cs.2 hR.zero) ti h.pot T'.size).bind (fun p p' hp => ?_)
  exact ⟨rfl, rfl, rfl, rfl, hp⟩

omit hR in
theorem reductionCopy_rel {α β : Type} {S : α → β → Prop} (vi : List Nat) (value : Nat) {src : List α} {src' : List β}
    (hs : List.Forall₂ S src src') (n : Nat) {acc : List α} {acc' : List β} (h : List.Forall₂ S acc acc') :
    ExRel (fun x y => List.Forall₂ S x.1 y.1 ∧ x.2 = y.2) (reductionCopy vi value src n acc) (reductionCopy vi value src' n acc') := by
  unfold reductionCopy
  refine ExRel.foldlM (fun k p p' hp => ?_) _ ⟨h, rfl⟩
  refine ExRel.bind_same (fun v => ?_)
  refine ExRel.ite Iff.rfl (fun _ _ => ?_) (fun _ _ => hp)
  refine (ExRel.rd hs k).bind (fun q q' hq => ?_)
  rw [hp.2]
  refine (ExRel.wr hp.1 p'.2 hq).bind (fun l l' hl => ?_)
  exact ⟨hl, rfl⟩

theorem tableReduction_rel {T : Table K} {T' : Table K'} (h : TableRel R T T') (eIndex eValue : Nat) :
    ExRel (TableRel R) (tableReduction T eIndex eValue) (tableReduction T' eIndex eValue) := by
  unfold tableReduction
  rw [h.vars, h.size, h.cum, h.dims]
  refine ExRel.bind_same (fun vi => ?_)
  refine ExRel.bind_same (fun dim => ?_)
  refine ExRel.ite Iff.rfl (fun _ _ => rfl) (fun _ _ => ?_)
  refine (reductionCopy_rel vi eValue h.pot T'.size (forall₂_replicate _ hR.zero)).bind (fun p p' hp => ?_)
  refine ExRel.ite Iff.rfl (fun _ _ => ?_) (fun _ _ => ?_)
  · refine ExRel.bind_same (fun cum => ?_)
    exact ⟨rfl, rfl, rfl, rfl, hp.1⟩
  · exact ⟨rfl, rfl, rfl, rfl, hp.1⟩

omit hR in
theorem rdAll_rel {α β : Type} {S : α → β → Prop} {l : List α} {l' : List β} (h : List.Forall₂ S l l') (is : List Nat) :
    ExRel (List.Forall₂ S) (is.mapM (rd l)) (is.mapM (rd l')) :=
  ExRel.mapM (fun i => ExRel.rd h i) is

omit hR [Zero K] [One K] [Add K] [Mul K] [Div K] [DecidableEq K] [Zero K'] [One K'] [Add K'] [Mul K'] [Div K'] [DecidableEq K'] in
theorem tableExtension_rel {T : Table K} {T' : Table K'} (h : TableRel R T T') (vs dims : List Nat) :
    ExRel (TableRel R) (tableExtension T vs dims) (tableExtension T' vs dims) := by
  unfold tableExtension
  rw [h.vars, h.cum]
  refine ExRel.bind_same (fun cum => ?_)
  refine ExRel.bind_same (fun size => ?_)
  refine ExRel.bind_same (fun ti => ?_)
  refine (rdAll_rel h.pot ti).bind (fun p p' hp => ?_)
  exact ⟨rfl, rfl, rfl, rfl, hp⟩

omit hR [Zero K] [One K] [Add K] [Mul K] [Div K] [DecidableEq K] [Zero K'] [One K'] [Add K'] [Mul K'] [Div K'] [DecidableEq K'] in
theorem tableReorganization_rel {T U : Table K} {T' U' : Table K'} (h : TableRel R T T') (hu : TableRel R U U') :
    ExRel (TableRel R) (tableReorganization T U) (tableReorganization T' U') := by
  unfold tableReorganization
  rw [h.vars, h.cum, h.size, hu.vars, hu.cum, hu.size]
  refine ExRel.ite Iff.rfl (fun _ _ => rfl) (fun _ _ => ?_)
  refine ExRel.bind_same (fun ti => ?_)
  refine (scatterSet_rel hu.pot ti h.pot U'.size).bind (fun p p' hp => ?_)
  exact ⟨rfl, hu.dims, rfl, rfl, hp⟩

theorem mulEntries_rel (n : Nat) {p q : List K} {p' q' : List K'} (hp : List.Forall₂ R p p') (hq : List.Forall₂ R q q') :
    ExRel (List.Forall₂ R) (mulEntries n p q) (mulEntries n p' q') := by
  unfold mulEntries
  refine ExRel.foldlM (fun i p p' hp => ?_) _ hp
  refine (ExRel.rd hp i).bind (fun a a' ha => ?_)
  refine (ExRel.rd hq i).bind (fun b b' hb => ?_)
  exact ExRel.wr hp i (hR.mul ha hb)

theorem tableMultiplication_rel {T U : Table K} {T' U' : Table K'} (h : TableRel R T T') (hu : TableRel R U U') :
    ExRel (TableRel R) (tableMultiplication T U) (tableMultiplication T' U') := by
  unfold tableMultiplication
  rw [h.size]
  refine ExRel.bind (S := TableRel R) (ExRel.ite (by rw [h.vars, hu.vars]) (fun _ _ => ?_) (fun _ _ => hu)) (fun V V' hv => ?_)
  · rw [h.vars, h.dims]
    exact tableExtension_rel hu _ _
  refine ExRel.bind (S := TableRel R) (ExRel.ite (by rw [h.vars, hv.vars]) (fun _ _ => tableReorganization_rel hv h) (fun _ _ => hv))
    (fun W W' hw => ?_)
  refine (mulEntries_rel hR T'.size h.pot hw.pot).bind (fun p p' hp => ?_)
  exact ⟨h.vars, h.dims, h.cum, rfl, hp⟩

theorem tableMoveToEnd_rel {T : Table K} {T' : Table K'} (h : TableRel R T T') (common : List Nat) :
    ExRel (TableRel R) (tableMoveToEnd T common) (tableMoveToEnd T' common) := by
  unfold tableMoveToEnd
  refine ExRel.bind (S := fun x y => TableRel R x.1 y.1 ∧ x.2 = y.2) ?_ (fun x y hxy => ?_)
  · unfold tableReorganizationPre
    rw [h.vars, h.dims, h.size]
    refine ExRel.bind_same (fun km => ?_)
    refine ExRel.bind_same (fun kv => ?_)
    refine ExRel.bind_same (fun dims => ?_)
    refine ExRel.bind_same (fun cum => ?_)
    exact ⟨⟨rfl, rfl, rfl, rfl, forall₂_replicate _ hR.zero⟩, rfl⟩
  · obtain ⟨hxy, e⟩ := hxy
    show ExRel _ (do
      let ti ← (List.range x.1.size).mapM (transferIndex T.cum x.2 x.1.cum)
      let pot ← scatterSet x.1.pot ti T.pot x.1.size
      return { x.1 with pot := pot }) (do
      let ti ← (List.range y.1.size).mapM (transferIndex T'.cum y.2 y.1.cum)
      let pot ← scatterSet y.1.pot ti T'.pot y.1.size
      return { y.1 with pot := pot })
    rw [e, hxy.size, hxy.cum, h.cum]
    refine ExRel.bind_same (fun ti => ?_)
    refine (scatterSet_rel hxy.pot ti h.pot y.1.size).bind (fun p p' hp => ?_)
    have := hxy.withPot hp
    exact ⟨this.vars, this.dims, this.cum, this.size, this.pot⟩

theorem normalize_rel {T : Table K} {T' : Table K'} (h : TableRel R T T') : ExRel (TableRel R) (normalize T) (normalize T') := by
  unfold normalize
  rw [h.size]
  refine ExRel.bind (S := R) ?_ (fun den den' hd => ?_)
  · unfold sumEntries
    refine ExRel.foldlM (fun i s s' hs => ?_) _ hR.zero
    refine (ExRel.rd h.pot i).bind (fun a a' ha => ?_)
    exact hR.add hs ha
  · refine ExRel.bind (S := List.Forall₂ R) ?_ (fun p p' hp => ?_)
    · refine ExRel.foldlM (fun i p p' hp => ?_) _ h.pot
      refine ExRel.ite (hR.eq_zero hd) (fun _ _ => rfl) (fun hz _ => ?_)
      refine (ExRel.rd hp i).bind (fun a a' ha => ?_)
      exact ExRel.wr hp i (hR.div ha hd hz)
    · exact ⟨h.vars, h.dims, h.cum, rfl, hp⟩

theorem constructEmptyTable_rel (card : Nat → Nat) (nodes : List Nat) :
    ExRel (TableRel R) (constructEmptyTable card nodes) (constructEmptyTable card nodes) := by
  unfold constructEmptyTable
  refine ExRel.bind_same (fun cum => ?_)
  refine ExRel.bind_same (fun size => ?_)
  exact ⟨rfl, rfl, rfl, rfl, forall₂_replicate _ hR.one⟩

theorem divideEntries_rel (n : Nat) {p q : List K} {p' q' : List K'} (hp : List.Forall₂ R p p') (hq : List.Forall₂ R q q') :
    ExRel (List.Forall₂ R) (divideEntries n p q) (divideEntries n p' q') := by
  unfold divideEntries
  refine ExRel.foldlM (fun i r r' hr => ?_) _ hq
  refine (ExRel.rd hq i).bind (fun b b' hb => ?_)
  refine ExRel.ite (hR.eq_zero hb) (fun _ _ => ExRel.wr hr i hR.zero) (fun hz _ => ?_)
  refine (ExRel.rd hp i).bind (fun a a' ha => ?_)
  exact ExRel.wr hr i (hR.div ha hb hz)

/-! ### The junction tree -/

/-- States with related tables. -/
structure StateRel (R : K → K' → Prop) (st : JState K) (st' : JState K') : Prop where
  clq : List.Forall₂ (TableRel R) st.clq st'.clq
  sep : List.Forall₂ (TableRel R) st.sep st'.sep

/-- Trees of the same structure with related tables. -/
structure TreeRel (R : K → K' → Prop) (J : JTree K) (J' : JTree K') : Prop where
  shape : J.shape = J'.shape
  levels : J.levels = J'.levels
  n : J.n = J'.n
  card : J.card = J'.card
  state : StateRel R J.state J'.state
  backup : StateRel R J.backup J'.backup

theorem reorganizeStorage_rel (m : Marks) {st : JState K} {st' : JState K'} (h : StateRel R st st') :
    ExRel (StateRel R) (reorganizeStorage m st) (reorganizeStorage m st') := by
  unfold reorganizeStorage
  rw [h.clq.length_eq]
  refine ExRel.foldlM (fun i st st' h => ?_) _ h
  unfold reorganizeClique
  split
  · exact h
  · rename_i y _
    refine ExRel.bind_same (fun s => ?_)
    refine (ExRel.rd h.clq i).bind (fun T T' hT => ?_)
    refine (ExRel.rd h.sep s).bind (fun U U' hU => ?_)
    rw [hT.vars, hU.vars]
    refine ExRel.ite Iff.rfl (fun _ _ => rfl) (fun _ _ => ?_)
    refine ExRel.ite Iff.rfl (fun _ _ => h) (fun _ _ => ?_)
    refine (tableMoveToEnd_rel hR hT _).bind (fun V V' hV => ?_)
    refine (ExRel.wr h.clq i hV).bind (fun c c' hc => ?_)
    exact ⟨hc, h.sep⟩

theorem reduceTables_rel (index value : Nat) {l : List (Table K)} {l' : List (Table K')} (h : List.Forall₂ (TableRel R) l l') :
    ExRel (List.Forall₂ (TableRel R)) (reduceTables index value l) (reduceTables index value l') := by
  unfold reduceTables
  refine ExRel.mapM₂ (fun T T' hT => ?_) h
  exact ExRel.ite (by rw [hT.vars]) (fun _ _ => tableReduction_rel hR hT _ _) (fun _ _ => hT)

theorem loadEvidence_rel (n : Nat) (E : List (Nat × Nat)) {st : JState K} {st' : JState K'} (h : StateRel R st st') :
    ExRel (StateRel R) (loadEvidence n E st) (loadEvidence n E st') := by
  unfold loadEvidence
  refine ExRel.foldlM (fun e st st' h => ?_) _ h
  refine ExRel.ite Iff.rfl (fun _ _ => h) (fun _ _ => ?_)
  refine (reduceTables_rel hR _ _ h.clq).bind (fun c c' hc => ?_)
  refine (reduceTables_rel hR _ _ h.sep).bind (fun s s' hs => ?_)
  exact ⟨hc, hs⟩

theorem separatorCollect_rel (m : Marks) (x : JNode) {st : JState K} {st' : JState K'} (h : StateRel R st st') :
    ExRel (StateRel R) (separatorCollect m st x) (separatorCollect m st' x) := by
  unfold separatorCollect
  refine ExRel.bind_same (fun s => ?_)
  refine ExRel.bind_same (fun child => ?_)
  refine ExRel.bind_same (fun c => ?_)
  refine (ExRel.rd h.sep s).bind (fun U U' hU => ?_)
  refine (ExRel.rd h.clq c).bind (fun T T' hT => ?_)
  refine ExRel.ite (by rw [hU.size]) (fun _ _ => rfl) (fun _ _ => ?_)
  rw [hU.size, hT.size]
  refine (scatterAdd_rel hR (forall₂_replicate _ hR.zero) _ hT.pot _).bind (fun t t' ht => ?_)
  refine (divideEntries_rel hR _ ht hU.pot).bind (fun p p' hp => ?_)
  refine ExRel.bind (S := List.Forall₂ (TableRel R)) (ExRel.wr h.sep s ?_) (fun q q' hq => ?_)
  · constructor <;> first | rfl | exact hU.vars | exact hU.dims | exact hU.cum | exact hU.size | exact hp
  exact ⟨h.clq, hq⟩

theorem cliqueCollect_rel (m : Marks) (k : Nat) (x : JNode) {st : JState K} {st' : JState K'} (h : StateRel R st st') :
    ExRel (StateRel R) (cliqueCollect m k st x) (cliqueCollect m k st' x) := by
  unfold cliqueCollect
  refine ExRel.bind_same (fun i => ?_)
  refine ExRel.bind_same (fun y => ?_)
  refine ExRel.bind_same (fun s => ?_)
  refine (ExRel.rd h.clq i).bind (fun T T' hT => ?_)
  refine (ExRel.rd h.sep s).bind (fun U U' hU => ?_)
  rw [hU.vars, hT.vars, hT.size, hT.cum, hU.cum]
  refine ExRel.bind_same (fun ti => ?_)
  refine (rdAll_rel hU.pot ti).bind (fun e e' he => ?_)
  refine (mulEntries_rel hR _ hT.pot he).bind (fun p p' hp => ?_)
  refine ExRel.bind (S := List.Forall₂ (TableRel R)) (ExRel.wr h.clq i ?_) (fun q q' hq => ?_)
  · constructor <;> first | rfl | exact hT.vars | exact hT.dims | exact hT.cum | exact hT.size | exact hp
  exact ⟨hq, h.sep⟩

theorem normalizeClique_rel (x : JNode) {st : JState K} {st' : JState K'} (h : StateRel R st st') :
    ExRel (StateRel R) (normalizeClique st x) (normalizeClique st' x) := by
  unfold normalizeClique
  refine ExRel.bind_same (fun i => ?_)
  refine (ExRel.rd h.clq i).bind (fun T T' hT => ?_)
  refine (normalize_rel hR hT).bind (fun U U' hU => ?_)
  refine (ExRel.wr h.clq i hU).bind (fun q q' hq => ?_)
  exact ⟨hq, h.sep⟩

theorem separatorDistribute_rel (m : Marks) (x : JNode) {st : JState K} {st' : JState K'} (h : StateRel R st st') :
    ExRel (StateRel R) (separatorDistribute m st x) (separatorDistribute m st' x) := by
  unfold separatorDistribute
  refine ExRel.bind_same (fun s => ?_)
  refine ExRel.bind_same (fun y => ?_)
  refine ExRel.bind_same (fun i => ?_)
  refine (ExRel.rd h.sep s).bind (fun U U' hU => ?_)
  refine (ExRel.rd h.clq i).bind (fun T T' hT => ?_)
  rw [hU.vars, hT.vars, hT.size, hT.cum, hU.cum, hU.size]
  refine ExRel.bind_same (fun ti => ?_)
  refine (scatterAdd_rel hR (forall₂_replicate _ hR.zero) _ hT.pot _).bind (fun t t' ht => ?_)
  refine (divideEntries_rel hR _ ht hU.pot).bind (fun p p' hp => ?_)
  refine ExRel.bind (S := List.Forall₂ (TableRel R)) (ExRel.wr h.sep s ?_) (fun q q' hq => ?_)
  · constructor <;> first | rfl | exact hU.vars | exact hU.dims | exact hU.cum | exact hU.size | exact hp
  exact ⟨h.clq, hq⟩

theorem cliqueDistribute_rel (m : Marks) (x : JNode) {st : JState K} {st' : JState K'} (h : StateRel R st st') :
    ExRel (StateRel R) (cliqueDistribute m st x) (cliqueDistribute m st' x) := by
  unfold cliqueDistribute
  refine ExRel.bind_same (fun i => ?_)
  refine ExRel.bind_same (fun y => ?_)
  refine ExRel.bind_same (fun s => ?_)
  refine (ExRel.rd h.clq i).bind (fun T T' hT => ?_)
  refine (ExRel.rd h.sep s).bind (fun U U' hU => ?_)
  refine ExRel.ite (by rw [hU.size]) (fun _ _ => rfl) (fun _ _ => ?_)
  rw [hT.size, hU.size]
  refine (ExRel.mapM (S := R) (fun k => ExRel.rd hU.pot _) _).bind (fun e e' he => ?_)
  refine (mulEntries_rel hR _ hT.pot he).bind (fun p p' hp => ?_)
  refine ExRel.bind (S := List.Forall₂ (TableRel R)) (ExRel.wr h.clq i ?_) (fun q q' hq => ?_)
  · constructor <;> first | rfl | exact hT.vars | exact hT.dims | exact hT.cum | exact hT.size | exact hp
  exact ⟨hq, h.sep⟩

theorem cliqueLevelCollect_rel (m : Marks) (level : List JNode) {st : JState K} {st' : JState K'} (h : StateRel R st st') :
    ExRel (StateRel R) (cliqueLevelCollect m level st) (cliqueLevelCollect m level st') := by
  unfold cliqueLevelCollect
  refine ExRel.foldlM (fun k st st' h => ?_) _ h
  refine ExRel.bind (S := StateRel R) (ExRel.foldlM (fun x st st' h => cliqueCollect_rel hR m k x h) _ h) (fun st st' h => ?_)
  exact ExRel.foldlM (fun x st st' h => normalizeClique_rel hR x h) _ h

theorem collect_rel (L : Levels) {st : JState K} {st' : JState K'} (h : StateRel R st st') :
    ExRel (StateRel R) (collect L st) (collect L st') := by
  unfold collect
  refine ExRel.foldlM (fun i st st' h => ?_) _ h
  refine ExRel.ite Iff.rfl (fun _ _ => ?_) (fun _ _ => ?_)
  · exact ExRel.bind_same (fun level => ExRel.foldlM (fun x st st' h => separatorCollect_rel hR _ x h) _ h)
  · exact ExRel.bind_same (fun level => cliqueLevelCollect_rel hR _ _ h)

theorem distribute_rel (L : Levels) {st : JState K} {st' : JState K'} (h : StateRel R st st') :
    ExRel (StateRel R) (distribute L st) (distribute L st') := by
  unfold distribute
  refine ExRel.foldlM (fun i st st' h => ?_) _ h
  refine ExRel.ite Iff.rfl (fun _ _ => ?_) (fun _ _ => ?_)
  · exact ExRel.bind_same (fun level => ExRel.foldlM (fun x st st' h => separatorDistribute_rel hR _ x h) _ h)
  · refine ExRel.bind_same (fun level => ?_)
    refine ExRel.bind (S := StateRel R) (ExRel.foldlM (fun x st st' h => cliqueDistribute_rel hR _ x h) _ h) (fun st st' h => ?_)
    exact ExRel.foldlM (fun x st st' h => normalizeClique_rel hR x h) _ h

theorem propagate_rel (L : Levels) (n : Nat) (E : List (Nat × Nat)) {st : JState K} {st' : JState K'} (h : StateRel R st st') :
    ExRel (StateRel R) (propagate L n E st) (propagate L n E st') := by
  unfold propagate
  refine (loadEvidence_rel hR n E h).bind (fun st st' h => ?_)
  refine (ExRel.mapM₂ (fun T T' hT => normalize_rel hR hT) h.clq).bind (fun c c' hc => ?_)
  refine ExRel.bind (S := StateRel R) (collect_rel hR L ?_) (fun st st' h => ?_)
  · exact ⟨hc, h.sep⟩
  exact distribute_rel hR L h

omit hR [Zero K] [One K] [Add K] [Mul K] [Div K] [DecidableEq K] [Zero K'] [One K'] [Add K'] [Mul K'] [Div K'] [DecidableEq K'] in
theorem selectClique_rel (q : Nat) {l : List (Table K)} {l' : List (Table K')} (h : List.Forall₂ (TableRel R) l l') :
    Option.Rel (TableRel R) (selectClique l q) (selectClique l' q) := by
  unfold selectClique
  suffices ∀ (b : Option (Table K)) (b' : Option (Table K')), Option.Rel (TableRel R) b b' →
      Option.Rel (TableRel R) (l.foldl (fun best T =>
        match best with
        | some B => if B.vars.length ≤ (sortedSet T.vars).length then best else if q ∈ T.vars then some T else best
        | none => if q ∈ T.vars then some T else best) b) (l'.foldl (fun best T =>
        match best with
        | some B => if B.vars.length ≤ (sortedSet T.vars).length then best else if q ∈ T.vars then some T else best
        | none => if q ∈ T.vars then some T else best) b') from this _ _ Option.Rel.none
  induction h with
  | nil => exact fun b b' hb => hb
  | cons hq _ ih =>
    intro b b' hb
    rw [List.foldl_cons, List.foldl_cons]
    apply ih
    cases hb with
    | none =>
      dsimp only
      rw [hq.vars]
      split
      · exact Option.Rel.some hq
      · exact Option.Rel.none
    | some hB =>
      dsimp only
      rw [hq.vars, hB.vars]
      split
      · exact Option.Rel.some hB
      · split
        · exact Option.Rel.some hq
        · exact Option.Rel.some hB

theorem marginalProbability_rel (card : Nat → Nat) (q : Nat) {st : JState K} {st' : JState K'} (h : StateRel R st st') :
    ExRel (TableRel R) (marginalProbability card st q) (marginalProbability card st' q) := by
  unfold marginalProbability
  have hs := selectClique_rel q h.clq
  generalize selectClique st.clq q = x at hs
  generalize selectClique st'.clq q = y at hs
  cases hs with
  | none => rfl
  | some hT =>
    refine ExRel.ite (by rw [hT.vars]) (fun _ _ => hT) (fun _ _ => ?_)
    refine (tableMarginalization_rel hR hT _ _).bind (fun U U' hU => ?_)
    exact normalize_rel hR hU

theorem marginal_rel (E : List (Nat × Nat)) (q : Nat) {J : JTree K} {J' : JTree K'} (h : TreeRel R J J') :
    ExRel (fun x y => TableRel R x.1 y.1 ∧ TreeRel R x.2 y.2) (J.marginal E q) (J'.marginal E q) := by
  unfold JTree.marginal
  rw [h.levels, h.n, h.card]
  refine (propagate_rel hR _ _ E h.state).bind (fun st st' hst => ?_)
  refine (marginalProbability_rel hR _ q hst).bind (fun T T' hT => ?_)
  exact ⟨hT, ⟨h.shape, rfl, rfl, rfl, h.backup, h.backup⟩⟩

theorem buildJunctionTree_rel (N : Net) (card : Nat → Nat) {pts : List (Table K)} {pts' : List (Table K')}
    (hp : List.Forall₂ (TableRel R) pts pts') (order : List (Nat × Nat) → List (Nat × Nat)) (cord : Nat → List Nat) :
    ExRel (TreeRel R) (buildJunctionTree N card pts order cord) (buildJunctionTree N card pts' order cord) := by
  unfold buildJunctionTree initialTables
  refine ExRel.bind_same (fun shape => ?_)
  refine (ExRel.mapM (S := TableRel R) (fun c => constructEmptyTable_rel hR card c) _).bind (fun c c' hc => ?_)
  refine (ExRel.mapM (S := TableRel R) (fun c => constructEmptyTable_rel hR card c) _).bind (fun s s' hs => ?_)
  refine ExRel.bind (S := List.Forall₂ (TableRel R)) ?_ (fun d d' hd => ?_)
  · unfold assignPotentials
    refine ExRel.foldlM₂ (fun T T' l l' hT hl => ?_) hp hc
    unfold assignTableToClique
    rw [hT.vars]
    split
    · exact hl
    · rename_i i _
      refine ExRel.ite Iff.rfl (fun _ _ => hl) (fun _ _ => ?_)
      refine (ExRel.rd hl i).bind (fun U U' hU => ?_)
      refine (tableMultiplication_rel hR hU hT).bind (fun V V' hV => ?_)
      exact ExRel.wr hl i hV
  · refine ExRel.bind_same (fun root => ?_)
    refine ExRel.bind_same (fun levels => ?_)
    refine (reorganizeStorage_rel hR levels.marks ⟨hd, hs⟩).bind (fun st st' hst => ?_)
    exact ⟨rfl, rfl, rfl, rfl, hst, hst⟩

end FastPGM
