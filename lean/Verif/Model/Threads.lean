import Verif.Model.Fault
import Mathlib.Data.Set.Defs
import Mathlib.Logic.Relation

/-!
Threads with shared memory, for `#pragma omp parallel for`.

A loop body is a program whose accesses to shared memory are single steps; the threads of a team take turns in any order, one access at a
time.  Two accesses of different threads to the same place, one of them a write, that can happen next to each other are a data race; a data
race is undefined behaviour (C++17 [intro.races] 21), as are reading what was never written and accessing what is not allocated.
-/

namespace FastPGM

/-- Shared memory: `none` is a place that is not allocated, `some none` one that has not been written. -/
abbrev Mem (L V : Type) := L → Option (Option V)

/-- Store a value. -/
def Mem.put {L V : Type} [DecidableEq L] (m : Mem L V) (l : L) (v : V) : Mem L V := fun x => if x = l then some (some v) else m x

/-- Read a value. -/
def Mem.get {L V : Type} (m : Mem L V) (l : L) : Except Fault V :=
  match m l with
  | some (some v) => .ok v
  | _ => .error .ub

/-- What one thread does: accesses to shared memory in between local computations. -/
inductive Thread (L V α : Type) : Type where
  | ret (a : α)
  | fault (f : Fault)
  | read (l : L) (k : V → Thread L V α)
  | write (l : L) (v : V) (k : Thread L V α)

namespace Thread

variable {L V : Type} {α β : Type}

/-- One program after the other. -/
def bind : Thread L V α → (α → Thread L V β) → Thread L V β
  | .ret a, f => f a
  | .fault e, _ => .fault e
  | .read l k, f => .read l (fun v => (k v).bind f)
  | .write l v k, f => .write l v (k.bind f)

instance : Monad (Thread L V) where
  pure := .ret
  bind := Thread.bind

/-- A local computation. -/
def lift : Except Fault α → Thread L V α
  | .ok a => .ret a
  | .error f => .fault f

/-- `*l = v`. -/
def store (l : L) (v : V) : Thread L V Unit := .write l v (.ret ())

/-- The value of `*l`. -/
def load (l : L) : Thread L V V := .read l .ret

/-- Has the thread finished? -/
def done : Thread L V α → Prop
  | .ret _ => True
  | _ => False

/-- The next access: the place, and whether it is a write. -/
def next : Thread L V α → Option (L × Bool)
  | .read l _ => some (l, false)
  | .write l _ _ => some (l, true)
  | _ => none

/-- Perform the next access. -/
def step [DecidableEq L] : Thread L V α → Mem L V → Except Fault (Thread L V α × Mem L V)
  | .ret a, m => .ok (.ret a, m)
  | .fault f, _ => .error f
  | .read l k, m =>
    match m l with
    | some (some v) => .ok (k v, m)
    | _ => .error .ub
  | .write l v k, m =>
    match m l with
    | some _ => .ok (k, m.put l v)
    | none => .error .ub

/-- The iterations given to one thread, in order. -/
def seq : List (Thread L V Unit) → Thread L V Unit
  | [] => .ret ()
  | p :: ps => p.bind (fun _ => seq ps)

end Thread

/-- The threads of a parallel region and the memory. -/
structure Team (L V : Type) where
  mem : Mem L V
  threads : List (Thread L V Unit)

namespace Team

variable {L V : Type}

/-- One access of one thread. -/
inductive Step [DecidableEq L] (t : Team L V) : Team L V → Prop where
  | mk (i : Nat) (p p' : Thread L V Unit) (m : Mem L V) (hi : t.threads[i]? = some p) (hd : ¬ p.done) (hs : p.step t.mem = .ok (p', m)) :
      Step t ⟨m, t.threads.set i p'⟩

/-- Any number of accesses. -/
def Reaches [DecidableEq L] (t t' : Team L V) : Prop := Relation.ReflTransGen Step t t'

/-- All threads have arrived at the barrier at the end of the region. -/
def finished (t : Team L V) : Prop := ∀ p ∈ t.threads, p.done

/-- Two threads are about to access the same place and one of them writes. -/
def Race (t : Team L V) : Prop :=
  ∃ (i j : Nat) (p q : Thread L V Unit) (l : L) (w w' : Bool), i ≠ j ∧ t.threads[i]? = some p ∧ t.threads[j]? = some q ∧ p.next = some (l, w) ∧ q.next = some (l, w') ∧
    (w = true ∨ w' = true)

/-- A thread runs into a fault. -/
def FaultsWith [DecidableEq L] (t : Team L V) (f : Fault) : Prop := ∃ p ∈ t.threads, p.step t.mem = .error f

/-- What can come out of a parallel region: the memory when all threads have finished, a fault of a thread, undefined behaviour by a data
race, or no end (an infinite execution, counted as undefined). -/
inductive Outcome [DecidableEq L] (t : Team L V) : Except Fault (Mem L V) → Prop where
  | finish (t' : Team L V) (h : t.Reaches t') (hf : t'.finished) : Outcome t (.ok t'.mem)
  | fault (t' : Team L V) (h : t.Reaches t') (f : Fault) (hf : t'.FaultsWith f) : Outcome t (.error f)
  | race (t' : Team L V) (h : t.Reaches t') (hr : t'.Race) : Outcome t (.error .ub)
  | diverge (u : Nat → Team L V) (h0 : u 0 = t) (hs : ∀ n, Step (u n) (u (n + 1))) : Outcome t (.error .ub)

end Team

/-- The set of possible outcomes of a computation with parallel regions. -/
def Par (α : Type) : Type := Set (Except Fault α)

/-- A sequential computation has one outcome. -/
def Par.lift {α : Type} (x : Except Fault α) : Par α := fun o => o = x

instance : Monad Par where
  pure a := Par.lift (.ok a)
  bind s f := fun o => (∃ e, s (.error e) ∧ o = .error e) ∨ ∃ a, s (.ok a) ∧ f a o

/-- `#pragma omp parallel for num_threads(p)` over `i = 0, …, n - 1`: the iterations are distributed over `p` threads in any way, and each
thread performs its iterations in any order (every OpenMP schedule is an instance); the implicit barrier follows. -/
def parFor {L V : Type} [DecidableEq L] (p n : Nat) (body : Nat → Thread L V Unit) (m : Mem L V) : Par (Mem L V) := fun o =>
  ∃ sched : List (List Nat), sched.length = p ∧ sched.flatten.Perm (List.range n) ∧
    Team.Outcome ⟨m, sched.map (fun is => Thread.seq (is.map body))⟩ o

end FastPGM
