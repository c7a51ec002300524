import Mathlib.Data.List.Basic
import Mathlib.Data.List.Nodup
/-!
# Ownership of the C memory behind the values of the ckzg wrapper

The structs of ckzg hold raw pointers to memory that the C library allocates; `derive(Clone)` copies the pointers and
`Drop` hands them back to the library. One allocation stands for all that belong to a value (the library allocates and
frees them together). A program is a sequence of commands on variables, as the borrow checker accepts them: a variable
is used or dropped only while it has a value. What the library does on failure is part of the command.
-/

namespace Kzg.Ckzg

/-- A raw pointer: into a dead stack frame (what `&mut Fr::default()` leaves behind), null, or to an allocation. -/
inductive Ptr where
  | dangling | null | heap (id : Nat)
deriving DecidableEq, Repr

/-- The structs that hold pointers: `KzgPoly` (ckzg/src/poly.rs:20-25), `KzgFFTSettings` (fftsettings.rs:9-16),
`KzgKZGSettings` (kzgsettings.rs:27-34), `KzgFK20SingleSettings` and `KzgFK20MultiSettings` (fk20settings.rs:23-38);
all of them derive `Clone`. -/
inductive Kind where
  | poly | fft | kzg | single | multi
deriving DecidableEq, Repr

/-- A value: its pointer, whether its length field is nonzero, and the variable its `fs` or `ks` pointer refers to. -/
structure Obj where
  kind : Kind
  ptr : Ptr
  sized : Bool
  ref : Option Nat
deriving DecidableEq, Repr

/-- `default()`: ckzg/src/poly.rs:28-33, fftsettings.rs:36-43, kzgsettings.rs:37-44, fk20settings.rs:41-47 and 91-98
(only the last stores a null pointer). -/
def Obj.default (k : Kind) : Obj := ⟨k, if k = .multi then .null else .dangling, false, none⟩

/-- Whether `drop` calls the library: always for polynomials (ckzg/src/poly.rs:135-139), otherwise if the length field
is nonzero (fftsettings.rs:85-91, kzgsettings.rs:114-120, fk20settings.rs:81-87 and 132-138; the widths the library
makes are below `2^32`). -/
def Obj.frees (o : Obj) : Bool := o.kind == .poly || o.sized

/-- The live allocations, the next fresh one, and the variables. -/
structure State where
  live : List Nat
  next : Nat
  vars : List (Option Obj)
deriving DecidableEq, Repr

/-- `free`: a live allocation is given back, null is accepted, everything else is undefined behaviour. -/
def free (s : State) : Ptr → Option State
  | .heap id => if id ∈ s.live then some { s with live := s.live.erase id } else none
  | .null => some s
  | .dangling => none

/-- `Drop::drop` of a value. -/
def dropObj (s : State) (o : Obj) : Option State := if o.frees then free s o.ptr else some s

/-- What a constructor of the library did: allocated memory; succeeded without memory (length 0); failed and set the
pointer to null; failed before writing to the value. -/
inductive Ret where
  | made | empty | failedNull | failedKept
deriving DecidableEq, Repr

/-- The commands: `new` (also `div`, `inverse` and all other functions that return a fresh value: ckzg/src/poly.rs:35-43,
83-131, fftsettings.rs:45-53, kzgsettings.rs:46-54, fk20settings.rs:49-57 and 100-108), `default()`, `clone()`, the end
of the life of a variable, and any other call, which reads the memory of the variable and of the one it refers to. -/
inductive Cmd where
  | new (k : Kind) (ref : Option Nat) (r : Ret)
  | default (k : Kind)
  | clone (i : Nat)
  | drop (i : Nat)
  | use (i : Nat)
deriving DecidableEq, Repr

/-- A pointer that may be read: to a live allocation, or of a value of length 0, whose memory nothing reads. -/
def readable (s : State) (o : Obj) : Bool :=
  match o.ptr with
  | .heap id => id ∈ s.live
  | _ => !o.sized

/-- One command; `none` is undefined behaviour. Commands on variables without a value do not compile and are skipped.
The constructors start from `default()`, whose value they drop when the library fails. -/
def exec (s : State) : Cmd → Option State
  | .new k ref .made => some
      { live := s.next :: s.live, next := s.next + 1, vars := s.vars ++ [some ⟨k, .heap s.next, true, ref⟩] }
  | .new k ref .empty => some { s with vars := s.vars ++ [some ⟨k, .null, false, ref⟩] }
  | .new k _ .failedNull => (dropObj s ⟨k, .null, false, none⟩).map fun s => { s with vars := s.vars ++ [none] }
  | .new k _ .failedKept => (dropObj s (Obj.default k)).map fun s => { s with vars := s.vars ++ [none] }
  | .default k => some { s with vars := s.vars ++ [some (Obj.default k)] }
  | .clone i =>
    match s.vars.getD i none with
    | some o => some { s with vars := s.vars ++ [some o] }
    | none => some s
  | .drop i =>
    match s.vars.getD i none with
    | some o => (dropObj s o).map fun s => { s with vars := s.vars.set i none }
    | none => some s
  | .use i =>
    match s.vars.getD i none with
    | some o =>
      if readable s o then
        match o.ref with
        | none => some s
        | some j =>
          match s.vars.getD j none with
          | some o' => if readable s o' then some s else none
          | none => none
      else none
    | none => some s

/-- A program. -/
def run (s : State) : List Cmd → Option State
  | [] => some s
  | c :: cs => (exec s c).bind fun s => run s cs

end Kzg.Ckzg
