import Verif.Lemmas.SteadyOf
import Verif.Props.DedupPass
/-!
# C17 and C18 for all bytecode

The theorems of `Props/DedupPass.lean` start from a program whose live jumps go to live blocks (`Steady`). Here they
are about the deduplication of what the control-flow analysis computes from any bytecode.
-/

namespace Verif
open Spec

section bytes
variable (g : UInt8 → BitVec 16) (spec : SpecId) (limit : Nat) {bytes : List UInt8} (hlen : bytes.length ≤ 2 ^ 31)

/-- The state in which deduplication starts (`Bytecode::analyze`, bytecode/mod.rs:421-460). -/
def dedupStart (bytes : List UInt8) : DState :=
  { prog := (analyzeBytes g spec limit bytes).1, ai := (analyzeBytes g spec limit bytes).2 }

include hlen

/-- C17 for all bytecode: the pass completes. -/
theorem C17_bytes_completes (loc : AIState) :
    ∃ s', DState.dedup loc ((analyzeBytes g spec limit bytes).1.insts.length + 1) (dedupStart g spec limit bytes) = some s' := by
  have H := steady_analyze g spec limit hlen
  exact C17_completes (loc := loc) (dedupStart g spec limit bytes) rfl fun i d hd hl hm => (H.multi i d hd hl hm).2.2.1

/-- C17 for all bytecode: after the pass every live jump to one target leads straight to the start of a block, and
every target of a live jump to several leads there by the single lookup made when generating code. No live
instruction is redirected. -/
theorem C17_bytes {loc : AIState} {fuel : Nat} {s' : DState}
    (h : DState.dedup loc fuel (dedupStart g spec limit bytes) = some s') :
    (∀ (i : Nat) d, s'.prog.insts[i]? = some d → d.flags.deadCode = false → d.isStaticJump = true →
      d.flags.invalidJump = false → ∀ t,
        t ∈ (if d.flags.multiJump then (s'.prog.multi.lookup i).getD [] else [d.staticJumpTarget]) →
        (d.flags.multiJump = false → s'.redirects.get t = none) ∧
          ∃ b ∈ s'.prog.blocks, b.1 = effective s'.redirects t) ∧
    ∀ k v, s'.redirects.get k = some v → ¬ LiveAt s'.prog.insts k :=
  C17_targets fuel (steady_analyze g spec limit hlen) h

/-- C18 for all bytecode whose live immediates can be told apart in the fingerprint (`Plain`): as `C18_pass_partial`,
for `code` and `p` the parsed and the analysed bytecode. Missing: blocks whose immediates are not plain
(`C18_merge_fails`). -/
theorem C18_bytes_partial {loc : AIState} {fuel : Nat} {s' : DState}
    (h : DState.dedup loc fuel (dedupStart g spec limit bytes) = some s') {code : Code} {p : Prog}
    (hcode : code = (parse g spec bytes).toCode) (hp : p = (analyzeBytes g spec limit bytes).1)
    (hplain : ∀ (i : Nat) d, p.insts[i]? = some d → d.flags.deadCode = false → Plain d)
    {b : Nat × Nat} (hb : b ∈ p.blocks) :
    ∃ b' ∈ s'.prog.blocks, b'.1 = effective s'.redirects b.1 ∧
      SameCode code (p.blockInsts b) (s'.prog.blockInsts b') ∧
      (∀ c c', Exec code (p.blockInsts b) c c' ↔ Exec code (s'.prog.blockInsts b') c c') ∧
      ∃ td td', p.insts[b.2 - 1]? = some td ∧ s'.prog.insts[b'.2 - 1]? = some td' ∧
        td'.opcode = td.opcode ∧ td'.canFallThrough = td.canFallThrough ∧ (td.canFallThrough = true → b' = b) ∧
        (td.isJump = true → ∀ c,
          (∀ t, p.compiledNext code (b.2 - 1) td c = some t →
            ∃ t', s'.prog.compiledNext code (b'.2 - 1) td' c = some t' ∧
              effective s'.redirects t' = effective s'.redirects t) ∧
          (p.compiledNext code (b.2 - 1) td c = none →
            td.flags.multiJump = false ∨ code.target (c.headD 0) = none →
            s'.prog.compiledNext code (b'.2 - 1) td' c = none)) := by
  have hst := steady_analyze g spec limit hlen
  have hdec := decoded_analyze g spec limit bytes hlen
  unfold dedupStart at h
  revert h hst hdec hcode hp
  generalize (parse g spec bytes).toCode = c
  generalize analyzeBytes g spec limit bytes = r
  rintro h rfl rfl hst hdec
  exact C18_pass_partial fuel hst h hdec hplain hb

/-- C18, constants, for all bytecode: in every block that a redirect leads to, each recorded operand and result is
the one of the block-local pass `loc`. -/
theorem C18_bytes_constants {loc : AIState} {fuel : Nat} {s' : DState}
    (h : DState.dedup loc fuel (dedupStart g spec limit bytes) = some s') {k v : Nat}
    (hk : s'.redirects.get k = some v) :
    ∃ b ∈ s'.prog.blocks, b.1 = v ∧
      ∀ i, b.1 ≤ i → i < b.2 → s'.ai.inputs i = loc.inputs i ∧ s'.ai.outputs i = loc.outputs i :=
  C18_constants_pass fuel (steady_analyze g spec limit hlen) rfl h hk

end bytes

/-- `redirectBytes`: two rounds, after which the block at 17 is replaced by the one at 13, which is a block. -/
example : ∃ s', DState.dedup redirectState.ai 28 (dedupStart (fun _ => 1) SpecId.CANCUN 1000 redirectBytes) = some s' ∧
    s'.redirects.get 17 = some 13 ∧ ¬ LiveAt s'.prog.insts 17 ∧ ∃ b ∈ s'.prog.blocks, b.1 = 13 := by
  have ho : ((DState.dedup redirectState.ai 28 (dedupStart (fun _ => 1) SpecId.CANCUN 1000 redirectBytes)).map
      fun r => r.redirects.get 17) = some (some 13) := by decide +kernel
  obtain ⟨s', h1, h2⟩ := Option.map_eq_some_iff.1 ho
  refine ⟨s', h1, h2, (C17_bytes _ _ _ (by decide) h1).2 17 13 h2, ?_⟩
  obtain ⟨b, hb, he, _⟩ := C18_bytes_constants _ _ _ (by decide) h1 h2
  exact ⟨b, hb, he⟩

end Verif
