import Verif.Model.Backend
/-!
# The statistics snapshot taken while the backend works

`RuntimeStats::snapshot` (crates/revmc-runtime/src/runtime/stats.rs:128-141) reads three counters one after
the other, on the caller's thread, while the backend thread goes on.
-/

namespace Verif.Backend

/-- `pending_jobs` of `RuntimeStats::snapshot` (stats.rs:138-141), the three loads seeing the backend in the
states `s0`, `s1` and `s2`. Simplifications: the counters are numbers without the bound of a `u64`, and the
loads, relaxed in the code, take effect in program order. -/
def snapshotPending (s0 s1 s2 : State) : Nat :=
  let dispatched := s0.stats.dispatched
  let succeeded := s1.stats.succeeded
  let failed := s2.stats.failed
  dispatched - (succeeded + failed)

end Verif.Backend
