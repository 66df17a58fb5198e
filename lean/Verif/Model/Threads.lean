import Mathlib.Algebra.BigOperators.Group.Finset.Basic
import Mathlib.Data.Multiset.AddSub
import Mathlib.Order.Lattice
/-!
Reference counting by several threads: `rc_retain`, `rc_release` (tg.c:557-585, the build with
atomics) and the frees that use them.

Each atomic operation is one step, and the steps of the threads are interleaved in any way. What
happens before what is tracked by views (vector clocks): `view u` is the number of actions of
thread `u` that happen before the current one. In C11 terms:
* a counter is only changed by read-modify-write operations, so each reads the value that the last
  one wrote; a relaxed one passes on the view of the release sequence that it continues;
* a release operation adds the view of its thread to the view of the counter;
* a relaxed operation that reads a counter only makes its view available (`acq`); the acquire
  fence adds what is available to the view of the thread.

Simplified: an object is a counter and the objects that it owns references to. `make` is a
constructor once it has retained its parts; freeing the blocks of an object is one step, after the
references it has are dropped in the order of its fields. A counter is an unbounded integer.
-/
namespace Tg.Thr

/-- The number of actions of each thread that happen before. -/
abbrev View (T : Type) := T → Nat

/-- A reference counted object, `struct head` (tg.c:587-593) at its start. `view` is the view of
the counter, `acc` the last access of each thread, `frees` how often it was released. -/
structure Obj (T : Type) where
  kids : List Nat
  rc : Int
  view : View T
  acc : View T
  frees : Nat

/-- The steps of a free, in the order of the code. -/
inductive Act where
  /-- `atomic_fetch_sub_explicit(rc, 1, __ATOMIC_RELEASE) == 1`, tg.c:578 -/
  | sub (o : Nat)
  /-- `atomic_thread_fence(__ATOMIC_ACQUIRE)`, tg.c:579 -/
  | fence
  /-- reading the fields of an object whose counter was 1, e.g. tg.c:3802-3806 -/
  | read (o : Nat)
  /-- `tg_free`, e.g. tg.c:3809 -/
  | release (o : Nat)
deriving DecidableEq

/-- A thread: its references, what is left of the free it is in, its view, and the view that the
next acquire fence adds. -/
structure Thread (T : Type) where
  own : Multiset Nat
  todo : List Act
  view : View T
  acq : View T

/-- `fault`: released memory was accessed, or memory was released a second time, or while an access
to it did not happen before. -/
structure State (T : Type) where
  objs : Nat → Obj T
  next : Nat
  thr : T → Thread T
  fault : Prop

variable {T : Type} [DecidableEq T]

/-- No objects; no thread has done anything. -/
def State.init : State T :=
  ⟨fun _ => ⟨[], 0, fun _ => 0, fun _ => 0, 0⟩, 0, fun _ => ⟨0, [], fun _ => 0, fun _ => 0⟩, False⟩

/-- The next action of thread `v`. -/
def tick (v : T) (t : Thread T) : Thread T :=
  { t with view := Function.update t.view v (t.view v + 1) }

/-- Thread `v` accesses an object. -/
def Obj.touch (b : Obj T) (v : T) (k : Nat) : Obj T := { b with acc := Function.update b.acc v k }

/-- Thread `v` is changed. -/
def State.setThr (s : State T) (v : T) (t : Thread T) : State T :=
  { s with thr := Function.update s.thr v t }

/-- The access is at fault. -/
def State.lost (s : State T) (o : Nat) : Prop := s.next ≤ o ∨ 0 < (s.objs o).frees

/-- Thread `v` accesses object `o`; `f` is what it does with the object, `g` with the thread. -/
def State.access (s : State T) (v : T) (o : Nat) (f : Obj T → Obj T) (g : Thread T → Thread T) :
    State T :=
  { s with
    objs := Function.update s.objs o (f ((s.objs o).touch v ((s.thr v).view v + 1)))
    thr := Function.update s.thr v (g (tick v (s.thr v)))
    fault := s.fault ∨ s.lost o }

/-- `rc_retain`, tg.c:572-574, and the caller has a reference more. -/
def State.retain (s : State T) (v : T) (o : Nat) : State T :=
  s.access v o (fun b => { b with rc := b.rc + 1 })
    (fun t => { t with own := o ::ₘ t.own, acq := t.acq ⊔ (s.objs o).view })

/-- What is left to do after `fetch_sub` has returned `old`, tg.c:578-582. -/
def after (o : Nat) (old : Int) (rest : List Act) : List Act :=
  if old = 1 then .fence :: .read o :: rest else rest

/-- An action of thread `v`, with what comes then. -/
def State.act (s : State T) (v : T) (rest : List Act) : Act → State T
  | .sub o => s.access v o
      (fun b => { b with rc := b.rc - 1, view := b.view ⊔ (tick v (s.thr v)).view })
      (fun t => { t with todo := after o (s.objs o).rc rest, acq := t.acq ⊔ (s.objs o).view })
  | .fence => s.setThr v { s.thr v with todo := rest, view := (s.thr v).view ⊔ (s.thr v).acq }
  | .read o => s.access v o id
      (fun t => { t with todo := (s.objs o).kids.map .sub ++ .release o :: rest })
  | .release o => { s with
      objs := Function.update s.objs o { s.objs o with frees := (s.objs o).frees + 1 }
      thr := Function.update s.thr v { s.thr v with todo := rest }
      fault := s.fault ∨ s.lost o ∨ ∃ u, ¬ (s.objs o).acc u ≤ (s.thr v).view u }

/-- A constructor: a new object with counter 1 takes over references of the thread. -/
def State.make (s : State T) (v : T) (ks : List Nat) : State T :=
  { s with
    objs := Function.update s.objs s.next
      ⟨ks, 1, fun _ => 0, Function.update (fun _ => 0) v ((s.thr v).view v + 1), 0⟩
    next := s.next + 1
    thr := Function.update s.thr v
      { tick v (s.thr v) with own := s.next ::ₘ ((s.thr v).own - ↑ks) } }

/-- `tg_geom_free` and the like are called. -/
def State.free (s : State T) (v : T) (o : Nat) : State T :=
  s.setThr v { s.thr v with own := (s.thr v).own.erase o, todo := [.sub o] }

/-- Something that thread `v` did happens before what `w` does next. -/
def State.sync (s : State T) (v w : T) : State T :=
  s.setThr w { s.thr w with view := (s.thr w).view ⊔ (s.thr v).view }

/-- `v` gives up a reference. -/
def State.drop (s : State T) (v : T) (o : Nat) : State T :=
  s.setThr v { s.thr v with own := (s.thr v).own.erase o }

/-- `w` gets a reference. -/
def State.take (s : State T) (w : T) (o : Nat) : State T :=
  s.setThr w { s.thr w with own := o ::ₘ (s.thr w).own }

/-- The objects that can be reached from references. -/
inductive Reach (s : State T) (own : Multiset Nat) : Nat → Prop where
  | root {o : Nat} : o ∈ own → Reach s own o
  | step {p o : Nat} : Reach s own p → o ∈ (s.objs p).kids → Reach s own o

/-- One step of one thread. A thread uses and clones what it can reach from references it owns, and
frees, builds from and gives away what it owns. Giving a reference to another thread is
synchronised by the caller, in whatever way. -/
inductive Step (s : State T) : State T → Prop where
  | make {v : T} {ks : List Nat} : (s.thr v).todo = [] → ↑ks ≤ (s.thr v).own → Step s (s.make v ks)
  | use {v : T} {o : Nat} : (s.thr v).todo = [] → Reach s (s.thr v).own o →
      Step s (s.access v o id id)
  | clone {v : T} {o : Nat} : (s.thr v).todo = [] → Reach s (s.thr v).own o → Step s (s.retain v o)
  | free {v : T} {o : Nat} : (s.thr v).todo = [] → o ∈ (s.thr v).own → Step s (s.free v o)
  | give {v w : T} {o : Nat} : (s.thr v).todo = [] → o ∈ (s.thr v).own →
      Step s (((s.sync v w).drop v o).take w o)
  | sync {v w : T} : Step s (s.sync v w)
  | act {v : T} {a : Act} {rest : List Act} : (s.thr v).todo = a :: rest → Step s (s.act v rest a)

/-- The states that any threads can bring about. -/
inductive Runs : State T → Prop where
  | init : Runs State.init
  | step {s s' : State T} : Runs s → Step s s' → Runs s'

end Tg.Thr
