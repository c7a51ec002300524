import Verif.Model.Scale
/-!
# The lazily initialised scale tables (blst-from-scratch/src/recovery.rs)

`INVERSE_FACTORS` and `UNSCALE_FACTOR_POWERS` are process-wide cells filled by whichever call comes first.
The state of the process is the two cells and all calls of `scale_poly` and `unscale_poly` made so far, each
with its own position in the code. A step lets any one call do its next operation: look at the cell, push
one table entry, publish the table, multiply one coefficient. Calls of one thread follow each other, so the
executions of any number of threads are among these executions.

`OnceCell::get_or_init` itself is modelled by its contract: a full cell hands out its content; of the calls
that find it empty one runs the closure; the others wait; a panic of the closure empties the cell again.
-/

namespace Kzg.Once
open Kzg

variable {F : Type} [Field F]

/-- The two functions, each with its own cell. -/
inductive Which where
  | scale
  | unscale
deriving DecidableEq

/-- The factor the table is made of: `inv_factor`, blst-from-scratch/src/recovery.rs:16-17, and
`scale_factor`, blst-from-scratch/src/recovery.rs:33. -/
def Which.factor (F : Type) [Field F] : Which → F
  | .scale => (5 : F)⁻¹
  | .unscale => 5

/-- A `OnceCell`. -/
inductive Cell (F : Type) where
  | empty
  /-- The closure is being run by the call with this number. -/
  | running (owner : Nat)
  | full (table : List F)

/-- Where a call is. -/
inductive Pc (F : Type) where
  /-- Before `get_or_init`, blst-from-scratch/src/recovery.rs:15, 32. -/
  | enter
  /-- In the loop of the closure, blst-from-scratch/src/recovery.rs:19-21, 35-37. -/
  | init (i : Nat) (temp : List F)
  /-- In the loop over the coefficients, blst-from-scratch/src/recovery.rs:25-27, 41-43. -/
  | loop (i : Nat) (p factors : List F)
  /-- Finished, with the changed list or a panic. -/
  | done (r : Res (List F))

/-- A call with its arguments. -/
structure Call (F : Type) where
  which : Which
  p : List F
  lenP : Nat
  pc : Pc F

/-- The process. -/
structure State (F : Type) where
  cell : Which → Cell F
  calls : List (Call F)

/-- At the start of the process: both cells are empty, blst-from-scratch/src/recovery.rs:10-11. -/
def State.start : State F := ⟨fun _ => .empty, []⟩

/-- A new call. -/
def State.call (s : State F) (w : Which) (p : List F) (lenP : Nat) : State F :=
  { s with calls := s.calls ++ [⟨w, p, lenP, .enter⟩] }

/-- Call number `k` moves to `pc`. -/
def State.goto (s : State F) (k : Nat) (c : Call F) (pc : Pc F) : State F :=
  { s with calls := s.calls.set k { c with pc := pc } }

/-- The cell of `w` changes. -/
def State.setCell (s : State F) (w : Which) (x : Cell F) : State F :=
  { s with cell := fun v => if v = w then x else s.cell v }

/-- The next operation of call number `k`; nothing if there is no such call, it has finished, or it has to
wait. -/
def State.tick (s : State F) (k : Nat) : Option (State F) :=
  match s.calls[k]? with
  | none => none
  | some c =>
    match c.pc with
    | .enter =>
      match s.cell c.which with
      | .full t => some (s.goto k c (.loop 1 c.p t))
      | .empty => some ((s.setCell c.which (.running k)).goto k c (.init 1 [1]))
      | .running _ => none
    | .init i temp =>
      if i < 65536 then
        match (do let j ← subU i 1; rd temp j) with
        | .ok x => some (s.goto k c (.init (i + 1) (temp ++ [x * c.which.factor F])))
        | _ => some ((s.setCell c.which .empty).goto k c (.done .panic))
      else some ((s.setCell c.which (.full temp)).goto k c (.loop 1 c.p temp))
    | .loop i p factors =>
      if i < c.lenP then
        match (do let x ← rd p i; let f ← rd factors i; wr p i (x * f)) with
        | .ok p' => some (s.goto k c (.loop (i + 1) p' factors))
        | _ => some (s.goto k c (.done .panic))
      else some (s.goto k c (.done (.ok p)))
    | .done _ => none

/-- The states the process can get into. -/
inductive Reachable : State F → Prop where
  | start : Reachable .start
  | call {s} (w p lenP) : Reachable s → Reachable (s.call w p lenP)
  | tick {s s'} (k) : Reachable s → s.tick k = some s' → Reachable s'

end Kzg.Once
