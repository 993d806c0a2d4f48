/-!
# Capture of compiled objects

`ScopedObjCapture`, `obj_capture_transform` (crates/revmc-llvm/src/lib.rs:169-200) and their use in `jit_function`
(lib.rs:1049-1066): a pointer per thread tells where the object layer leaves a copy of what it compiles.
-/

namespace Verif.ObjCapture

abbrev Obj := List UInt8

/-- What a thread does: `begin` is `ScopedObjCapture::install` on a fresh slot (lib.rs:1058-1059), `object` a call of
`obj_capture_transform` (lib.rs:192-200), and `finish` the drop of the innermost guard, at lib.rs:1061 or on the way
out with an error. Guards are local variables, so they are dropped innermost first. -/
inductive Act
  | begin
  | object (o : Obj)
  | finish
deriving DecidableEq, Repr

/-- The process. `cell` is `OBJ_CAPTURE` of each thread (lib.rs:171-173), `guards` the live guards of each thread,
innermost first, with the slot they installed and their `prev`; `slot` is the memory that pointers point to;
`captured` what the finished lookups found in their slots, latest first. Simplification: slots are never reused. -/
structure Proc where
  cell : Nat → Option Nat
  guards : Nat → List (Nat × Option Nat)
  slot : Nat → Option Obj
  next : Nat
  captured : List (Nat × Option Obj)

/-- Nothing is installed (lib.rs:172). -/
def init : Proc := ⟨fun _ => none, fun _ => [], fun _ => none, 0, []⟩

/-- A function changed at one place. -/
def upd {α : Type} (f : Nat → α) (i : Nat) (v : α) : Nat → α := fun j => if j = i then v else f j

/-- One action of thread `t` (lib.rs:180-200, 1058-1061). -/
def step (s : Proc) (e : Nat × Act) : Proc :=
  match e with
  | (t, .begin) =>
    { s with
      cell := upd s.cell t (some s.next)
      guards := upd s.guards t ((s.next, s.cell t) :: s.guards t)
      slot := upd s.slot s.next none
      next := s.next + 1 }
  | (t, .object o) =>
    match s.cell t with
    | some n => { s with slot := upd s.slot n (some o) }
    | none => s
  | (t, .finish) =>
    match s.guards t with
    | (n, prev) :: r =>
      { s with
        cell := upd s.cell t prev
        guards := upd s.guards t r
        captured := (t, s.slot n) :: s.captured }
    | [] => s

/-- A history of all threads. -/
def run (evs : List (Nat × Act)) : Proc := evs.foldl step init

end Verif.ObjCapture
