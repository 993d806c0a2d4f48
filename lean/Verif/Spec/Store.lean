import Verif.Model.Store
/-!
# Specification: a map from keys to artifacts
-/

namespace Verif.Store.Spec

open Verif.Store

/-- The ideal store. -/
abbrev Map := Key → Option (Manifest × Bytes)

/-- What one complete call does to the ideal store. A `store` that reports an error does nothing. -/
def apply (m : Map) : Op → Map
  | .store k mf b .ok => fun q => if q = k then some (mf, b) else m q
  | .store _ _ _ (.failed _) => m
  | .delete k _ => fun q => if q = k then none else m q
  | .clear _ => fun _ => none

def runOps (ops : List Op) : Map := ops.foldl apply (fun _ => none)

/-- What a caller can observe for key `k` is what the ideal store holds: `load` finds an artifact iff
the map has one, with the same manifest, and the file it names has the stored bytes. -/
def AgreesAt (index : Index) (fs : Fs) (m : Map) (k : Key) : Prop :=
  match index.get k, m k with
  | none, none => True
  | some st, some (mf, b) => st.manifest = mf ∧ fs st.path = some b
  | _, _ => False

/-- Failing writes do not destroy the file of an artifact that is in the store. -/
def CleanFailures : State → Map → List Op → Prop
  | _, _, [] => True
  | s, m, o :: r =>
    (∀ k mf b left, o = .store k mf b (.failed left) → m k = none ∨ left = s.fs (artifactPath k)) ∧
      CleanFailures (Store.apply s o) (apply m o) r

/-! Overlapping calls. -/

/-- The moment at which a call takes effect. -/
def effect (s : CState) (m : Map) : Ev → Map
  | .startDelete t k => if s.thread t = none then fun q => if q = k then none else m q else m
  | .cont t =>
    match s.thread t with
    | some (.insert k mf b) => fun q => if q = k then some (mf, b) else m q
    | some (.clearIndex _) => fun _ => none
    | _ => m
  | _ => m

/-- Run the store and the ideal store side by side. -/
def runBoth (evs : List Ev) : CState × Map :=
  evs.foldl (fun sm e => (step sm.1 e, effect sm.1 sm.2 e)) (CState.init, fun _ => none)

/-- A call in progress concerns key `k`. -/
def Concerns (k : Key) : Pending → Prop
  | .insert k' _ _ => k' = k
  | .clearIndex _ => True
  | .rm ps => artifactPath k ∈ ps

/-- The event does not start a call while another one on the same key is in progress; `clear` starts
only when nothing is in progress. -/
def Exclusive (s : CState) : Ev → Prop
  | .startStore _ k _ _ => ∀ u p, s.thread u = some p → ¬ Concerns k p
  | .startDelete _ k => ∀ u p, s.thread u = some p → ¬ Concerns k p
  | .startClear _ => ∀ u, s.thread u = none
  | .cont _ => True

/-- Every event of the history is `Exclusive`. -/
def NoOverlap (evs : List Ev) : Prop :=
  ∀ pre e post, evs = pre ++ e :: post → Exclusive (run CState.init pre) e

end Verif.Store.Spec
