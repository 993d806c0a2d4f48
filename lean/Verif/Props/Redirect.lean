import Verif.Lemmas.DedupTotal
import Verif.Model.Program
/-!
# C17: redirects of merged blocks
-/

namespace Verif

/-- Any number of deduplication rounds, each followed by the refresh of the control-flow graph
(dedup.rs:55-67). -/
inductive Rounds (loc : AIState) (s : DState) : DState → Prop
  | start : Rounds loc s s
  | round {a b c : DState} {n : Nat} : Rounds loc s a → a.once loc = some (b, n) → b.refresh = some c →
      Rounds loc s c

/-- Following redirects ends whenever every redirect leads to an earlier instruction, and the loop in
the code finds that end. -/
theorem C17_follow (m : Redirects) (hm : Earlier m.get) (t : Nat) :
    ∃ e, follow m t = some e ∧ Ends m.get t e ∧ m.get e = none := by
  obtain ⟨e, h1, h2⟩ := follow_ends hm t
  exact ⟨e, h1, h2, h2.unredirected⟩

/-- Compression, handling the redirected instructions in any order: it completes, redirects the same
instructions, changes no chain's end, and leaves every redirect pointing directly at the end of its
chain. -/
theorem C17_compress (m : Redirects) (hm : Earlier m.get) (ks : List Nat)
    (hks : ∀ k, k ∈ ks ↔ (m.get k).isSome = true) :
    ∃ m', compressLoop ks m = some m' ∧ Earlier m'.get ∧
      (∀ k, (m'.get k).isSome = (m.get k).isSome) ∧
      (∀ t e, Ends m'.get t e ↔ Ends m.get t e) ∧
      ∀ k v, m'.get k = some v → m'.get v = none ∧ Ends m.get k v := by
  obtain ⟨m', h1, h2, _⟩ := compressLoop_ok ks m hm (fun k hk => (hks k).1 hk)
  refine ⟨m', h1, h2.earlier, h2.keys, h2.ends, fun k v hv => ?_⟩
  have hv0 := h2.direct k ((hks k).2 (by rw [← h2.keys, hv]; rfl)) v hv
  exact ⟨hv0, (h2.ends k v).1 (.hop hv (.stop hv0))⟩

example : Earlier (AMap.get [(30, 20), (25, 20), (20, 10), (10, 3)]) ∧
    compressLoop [20, 30, 10, 25] [(30, 20), (25, 20), (20, 10), (10, 3)] =
      some [(25, 3), (30, 3), (20, 3), (10, 3)] := by
  refine ⟨fun k v h => ?_, by decide⟩
  simp only [AMap.get] at h
  grind

/-- A round only adds redirects to earlier instructions. -/
theorem C17_round_earlier {loc : AIState} {s s' : DState} {n : Nat} (h : s.once loc = some (s', n))
    (hm : Earlier s.redirects.get) : Earlier s'.redirects.get :=
  once_earlier h hm

theorem rounds_inv {loc : AIState} {s s' : DState} (hs : s.redirects = []) (h : Rounds loc s s') :
    Earlier s'.redirects.get ∧ ∀ k v, s'.redirects.get k = some v → s'.redirects.get v = none := by
  induction h with
  | start =>
    rw [hs]
    exact ⟨fun k v h => by simp [AMap.get] at h, fun k v h => by simp [AMap.get] at h⟩
  | round _ h1 h2 ih =>
    have he := once_earlier h1 ih.1
    obtain ⟨m', c1, c2⟩ := compress_ok he
    rw [refresh_compress h2] at c1
    cases c1
    refine ⟨c2.earlier, fun k v hv => c2.direct k ?_ v hv⟩
    rw [AMap.mem_keys_iff]
    have := c2.keys k
    rw [hv] at this
    exact Option.isSome_iff_exists.1 this.symm

/-- After any number of rounds, following redirects from any instruction ends after at most one step,
at an instruction that is not redirected: the single lookup made when generating code finds the end. -/
theorem C17_rounds {loc : AIState} {s s' : DState} (hs : s.redirects = []) (h : Rounds loc s s') (i : Nat) :
    Ends s'.redirects.get i (effective s'.redirects i) ∧
      s'.redirects.get (effective s'.redirects i) = none := by
  obtain ⟨_, h2⟩ := rounds_inv hs h
  unfold effective
  cases hg : s'.redirects.get i with
  | none => exact ⟨.stop hg, hg⟩
  | some v => exact ⟨.hop hg (.stop (h2 i v hg)), h2 i v hg⟩

/-- The same for the pass as a whole. -/
theorem C17_dedup {loc : AIState} (fuel : Nat) {s s' : DState} (hs : s.redirects = [])
    (h : DState.dedup loc fuel s = some s') (i : Nat) :
    Ends s'.redirects.get i (effective s'.redirects i) ∧
      s'.redirects.get (effective s'.redirects i) = none := by
  suffices hgen : ∀ (fuel : Nat) (a : DState), Rounds loc s a → DState.dedup loc fuel a = some s' →
      ∃ b, Rounds loc s b ∧ s'.redirects = b.redirects by
    obtain ⟨b, h1, h2⟩ := hgen fuel s .start h
    rw [h2]
    exact C17_rounds hs h1 i
  intro fuel
  induction fuel with
  | zero => intro a _ h; simp [DState.dedup] at h
  | succ n ih =>
    intro a ha h
    rw [DState.dedup] at h
    cases ho : a.once loc with
    | none => rw [ho] at h; simp at h
    | some r =>
      obtain ⟨b, k⟩ := r
      rw [ho] at h
      cases k with
      | zero =>
        dsimp only at h
        cases h
        exact ⟨a, ha, once_zero ho⟩
      | succ k =>
        dsimp only at h
        obtain ⟨c, h1, h2⟩ := Option.bind_eq_some_iff.1 h
        exact ih c (.round ha ho h1) h2

/-- The pass completes: no loop runs forever and no `unwrap` fails, provided every live jump flagged as
having several targets has them recorded. -/
theorem C17_completes {loc : AIState} (s : DState) (hs : s.redirects = []) (hm : MultiLive s.prog) :
    ∃ s', DState.dedup loc (s.prog.insts.length + 1) s = some s' :=
  dedup_some _ s (by rw [hs]; intro k v h; simp [AMap.get] at h) hm
    (Nat.lt_succ_of_le (liveCount_le _))

/-- Two equal reverting blocks, and three blocks `JUMPDEST JUMP` that reach them: the first round merges
the reverting blocks and the last two jumping blocks, which makes the jumping blocks all equal; the
second round merges those, so that a redirect of the first round leads to a redirected block. -/
def redirectBytes : List UInt8 :=
  [0x60, 25, 0x36, 0x60, 19, 0x57, 0x50, 0x60, 29, 0x36, 0x60, 21, 0x57, 0x50, 0x60, 29, 0x60, 23, 0x56,
   0x5b, 0x56, 0x5b, 0x56, 0x5b, 0x56, 0x5b, 0x5f, 0x5f, 0xfd, 0x5b, 0x5f, 0x5f, 0xfd]

/-- The state before deduplication. -/
def redirectState : DState :=
  let r := analyzeBytes (fun _ => 1) SpecId.CANCUN 1000 redirectBytes
  { prog := r.1, ai := r.2 }

example : (redirectState.once redirectState.ai).map (fun r => (r.1.redirects, r.2)) =
    some ([(23, 19), (17, 15)], 2) := by decide +kernel

example : (DState.dedup redirectState.ai 28 redirectState).map (·.redirects) =
    some [(17, 13), (15, 13), (23, 19)] := by decide +kernel

/-- The recorded targets of live multi-jumps, as a check. -/
def multiLiveCheck (p : Prog) : Bool :=
  (List.range p.insts.length).all fun i => (p.insts[i]?).all fun d =>
    d.flags.deadCode || !d.flags.multiJump || (p.multi.lookup i).isSome

theorem multiLive_of_check {p : Prog} (h : multiLiveCheck p = true) : MultiLive p := by
  intro i d h1 h2 h3
  have hi := (List.getElem?_eq_some_iff.1 h1).1
  have := List.all_eq_true.1 h i (List.mem_range.2 hi)
  rw [h1, Option.all_some, h2, h3] at this
  simpa using this

example : redirectState.redirects = [] ∧ MultiLive redirectState.prog :=
  ⟨rfl, multiLive_of_check (by decide +kernel)⟩

end Verif
