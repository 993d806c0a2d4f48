import Verif.Model.Session
/-!
# Specification: what a user of a compiler session can rely on

Everything is stated in terms of the calls made and what they returned (newest first).
-/

namespace Verif.Session

/-- Calls made and their results, newest first. -/
abbrev History := List (Op × Res)

/-- How many times the compiler was cleared. -/
def gen : History → Nat
  | [] => 0
  | (.clear, _) :: h => gen h + 1
  | (.clearIr, _) :: h => gen h + 1
  | _ :: h => gen h

/-- `id` was returned for translating `code` under the name `n`, after `g` clears. -/
def Made : History → Nat → Name → Code → Nat → Prop
  | [], _, _, _, _ => False
  | e :: h, id, n, code, g =>
    Made h id n code g ∨ (∃ p u, e = (.translate n code p u, .id id) ∧ g = gen h)

/-- `jit_function id` returned address `a`. -/
def Given (h : History) (id a : Nat) : Prop := ∃ o l, (Op.jitFunction id o l, Res.addr a) ∈ h

/-- A `jit_function` failed since the last clear. -/
def failed : History → Bool
  | [] => false
  | (.clear, _) :: _ => false
  | (.clearIr, _) :: _ => false
  | (.jitFunction _ _ _, .err) :: _ => true
  | _ :: h => failed h

/-- After a failed `jit_function` the compiler is cleared before functions are compiled or freed. -/
def Careful : History → Prop
  | [] => True
  | (.jitFunction _ _ _, _) :: h => failed h = false ∧ Careful h
  | (.freeFunction _, _) :: h => failed h = false ∧ Careful h
  | _ :: h => Careful h

/-- The names translated since everything was last freed. -/
def used : History → List Name
  | [] => []
  | (.clear, _) :: _ => []
  | (.translate n _ _ _, .id _) :: h => n :: used h
  | _ :: h => used h

/-- No name is used twice before everything is freed. -/
def Distinct : History → Prop
  | [] => True
  | (.translate n _ _ _, .id _) :: h => n ∉ used h ∧ Distinct h
  | _ :: h => Distinct h

/-- `id` was translated since the last clear and nothing was freed since. -/
def Alive : History → Nat → Name → Code → Prop
  | [], _, _, _ => False
  | (.clear, _) :: _, _, _, _ => False
  | (.clearIr, _) :: _, _, _, _ => False
  | (.freeFunction _, _) :: _, _, _, _ => False
  | (.translate n code _ _, .id i) :: h, id, n', code' => (id = i ∧ n' = n ∧ code' = code) ∨ Alive h id n' code'
  | _ :: h, id, n, code => Alive h id n code

/-- A loaded process: nothing has a number not handed out yet, no two symbols share an address. -/
structure Jit.Ok (j : Jit) : Prop where
  dylib : ∀ s ∈ j.syms, s.dylib < j.nextDylib
  tracker : ∀ s ∈ j.syms, s.tracker < j.nextTracker
  addr : ∀ s ∈ j.syms, s.addr < j.nextAddr
  addrs : (j.syms.map (·.addr)).Nodup

/-- `Reach aot j0 h j c`: a new compiler in process `j0` gets to `j`, `c` by the calls `h`. -/
inductive Reach (aot : Bool) (j0 : Jit) : History → Jit → Comp → Prop
  | new : Reach aot j0 [] j0 (Comp.new aot)
  | call {h j c op j' c' r} : Reach aot j0 h j c → exec j c op = (j', c', r) →
      Reach aot j0 ((op, r) :: h) j' c'

end Verif.Session
