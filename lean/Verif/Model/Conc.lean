/-!
# Tasks over a shared buffer

The code runs the two halves of a transform with `rayon::join` on two halves of one mutable buffer. The
buffer is a map from addresses to values. A task is a tree of single reads and writes, of sequences, and
of `join`s of two tasks. The step relation lets any enabled read or write of any running task happen
next, so its executions are all interleavings of the single memory operations, at every nesting of
`join`.

Reads of data that nobody writes (the input list and the table of roots, shared by `&` references) are
not memory operations; an index that is out of bounds is `panic`, a task that cannot go on.
-/

namespace Kzg.Conc

variable {V : Type}

/-- A task. -/
inductive Task (V : Type) where
  /-- The task has finished. -/
  | done
  /-- The task has panicked; it cannot continue. -/
  | panic
  /-- Read one cell and continue with the value. -/
  | read (addr : Nat) (k : V → Task V)
  /-- Write one cell and continue. -/
  | write (addr : Nat) (v : V) (k : Task V)
  /-- One task after the other. -/
  | seq (p q : Task V)
  /-- `rayon::join(p, q)`: both may run at the same time; finishes when both have. -/
  | join (p q : Task V)

/-- The shared buffer. -/
abbrev Mem (V : Type) := Nat → V

/-- One cell replaced. -/
def Mem.set (m : Mem V) (a : Nat) (v : V) : Mem V := fun b => if b = a then v else m b

/-- One memory operation, or the bookkeeping at the end of a `seq` or `join`. -/
inductive Step : Task V × Mem V → Task V × Mem V → Prop where
  | read (a k m) : Step (.read a k, m) (k (m a), m)
  | write (a v k m) : Step (.write a v k, m) (k, m.set a v)
  | seq {p m p' m'} (q) : Step (p, m) (p', m') → Step (.seq p q, m) (.seq p' q, m')
  | seqDone (q m) : Step (.seq .done q, m) (q, m)
  | joinL {p m p' m'} (q) : Step (p, m) (p', m') → Step (.join p q, m) (.join p' q, m')
  | joinR {q m q' m'} (p) : Step (q, m) (q', m') → Step (.join p q, m) (.join p q', m')
  | joinDone (m) : Step (.join .done .done, m) (.done, m)

/-- Any number of steps. -/
inductive Steps : Task V × Mem V → Task V × Mem V → Prop where
  | refl (c) : Steps c c
  | tail {a b c} : Steps a b → Step b c → Steps a c

/-- `for i in lo..lo+n { body(i) }` of tasks. -/
def loopT (body : Nat → Task V) : (n lo : Nat) → Task V
  | 0, _ => .done
  | n + 1, lo => .seq (body lo) (loopT body n (lo + 1))

/-- The `n` cells from `b` on, as a list: the content of a slice. -/
def region (m : Mem V) (b n : Nat) : List V := (List.range n).map fun i => m (b + i)

end Kzg.Conc
