import Verif.Model.JitEvm
import Verif.Lemmas.AMap
import Verif.Props.Backend
/-!
# Properties: engine of a call frame (C38), forks of cached decisions (C47)
-/

namespace Verif.JitEvm
open Verif.Backend (Key Program)

/-- Every run of a frame uses the engine of its other runs. -/
def SameEngine (log : List Ran) : Prop :=
  ∀ a ∈ log, ∀ b ∈ log, a.frame = b.frame → a.engine = b.engine

/-- Bookkeeping: frames are numbered; runs of a live frame agree with the cache, and the cache with what
was answered for the current fork (`P key engine`). -/
structure Inv (P : Key → Engine → Prop) (s : State) : Prop where
  spec : s.cacheSpec = s.spec
  fresh : ∀ f ∈ s.frames, f.id < s.nextFrame
  nodup : (s.frames.map (·.id)).Nodup
  past : ∀ r ∈ s.log, r.frame < s.nextFrame
  live : ∀ r ∈ s.log, ∀ f ∈ s.frames, r.frame = f.id → s.cache.get f.hash = some r.engine
  same : SameEngine s.log
  cached : ∀ h e, s.cache.get h = some e → P ⟨h, s.spec⟩ e
  logged : ∀ r ∈ s.log, P ⟨r.hash, r.spec⟩ r.engine

/-- All answers the backend gives during an operation. -/
def AnswersOk (P : Key → Engine → Prop) : FrameEv → Prop
  | .run answer => ∀ k, P k (answer k)
  | _ => True

theorem frameStep_inv {P : Key → Engine → Prop} {s : State} (h : Inv P s) (e : FrameEv) (hP : AnswersOk P e) :
    Inv P (frameStep s e) := by
  obtain ⟨h1, h2, h3, h4, h5, h6, h7, h8⟩ := h
  cases e with
  | init hash =>
    refine ⟨h1, ?_, ?_, fun r hr => Nat.lt_succ_of_lt (h4 r hr), ?_, h6, h7, h8⟩
    · intro f hf
      rcases List.mem_cons.mp hf with rfl | hf
      · exact Nat.lt_succ_self _
      · exact Nat.lt_succ_of_lt (h2 f hf)
    · simp only [frameStep, List.map_cons, List.nodup_cons]
      refine ⟨?_, h3⟩
      intro hm
      obtain ⟨f, hf, he⟩ := List.mem_map.mp hm
      have := h2 f hf
      omega
    · intro r hr f hf he
      rcases List.mem_cons.mp hf with rfl | hf
      · have := h4 r hr
        simp only at he
        omega
      · exact h5 r hr f hf he
  | ret =>
    have hsub : ∀ f ∈ s.frames.tail, f ∈ s.frames := fun f hf => List.mem_of_mem_tail hf
    exact ⟨h1, fun f hf => h2 f (hsub f hf), List.Nodup.sublist ((List.tail_sublist _).map _) h3, h4,
      fun r hr f hf => h5 r hr f (hsub f hf), h6, h7, h8⟩
  | run answer =>
    unfold frameStep
    simp only
    split
    · exact ⟨h1, h2, h3, h4, h5, h6, h7, h8⟩
    · rename_i f rest hf
      have hfm : f ∈ s.frames := by rw [hf]; exact List.mem_cons_self
      have hcache : (frameRun s answer f).cache.get f.hash = some (decide s answer f.hash) := by
        simp only [frameRun, decide]
        cases hc : s.cache.get f.hash with
        | some e => simp only [hc]
        | none => simp [AMap.get_insert]
      have hmono : ∀ q e, s.cache.get q = some e → (frameRun s answer f).cache.get q = some e := by
        intro q e hq
        simp only [frameRun]
        cases hc : s.cache.get f.hash with
        | some e' => exact hq
        | none =>
          simp only
          rw [AMap.get_insert]
          split
          · rename_i heq; rw [heq, hc] at hq; cases hq
          · exact hq
      have hdec : P ⟨f.hash, s.spec⟩ (decide s answer f.hash) := by
        unfold decide
        cases hc : s.cache.get f.hash with
        | some e => exact h7 _ e hc
        | none => exact hP _
      have hagree : ∀ r ∈ s.log, r.frame = f.id → r.engine = decide s answer f.hash := by
        intro r hr he
        have := h5 r hr f hfm he
        unfold decide
        rw [this]
      refine ⟨h1, h2, h3, ?_, ?_, ?_, ?_, ?_⟩
      · intro r hr
        rcases List.mem_cons.mp hr with rfl | hr
        · exact h2 f hfm
        · exact h4 r hr
      · intro r hr g hg he
        rcases List.mem_cons.mp hr with rfl | hr
        · have : g = f := by
            have hnd := h3
            rw [hf, List.map_cons, List.nodup_cons] at hnd
            change g ∈ s.frames at hg
            rw [hf] at hg
            rcases List.mem_cons.mp hg with rfl | hg
            · rfl
            · exact absurd (List.mem_map.mpr ⟨g, hg, he.symm⟩) hnd.1
          rw [this]; exact hcache
        · exact hmono _ _ (h5 r hr g hg he)
      · intro a ha b hb he
        rcases List.mem_cons.mp ha with rfl | ha <;> rcases List.mem_cons.mp hb with rfl | hb
        · rfl
        · exact (hagree b hb he.symm).symm
        · exact hagree a ha he
        · exact h6 a ha b hb he
      · intro q e hq
        simp only [frameRun] at hq
        cases hc : s.cache.get f.hash with
        | some e' => rw [hc] at hq; exact h7 q e hq
        | none =>
          rw [hc] at hq
          simp only at hq
          rw [AMap.get_insert] at hq
          split at hq
          · rename_i heq
            simp only [Option.some.injEq] at hq
            rw [heq, ← hq]; exact hdec
          · exact h7 q e hq
      · intro r hr
        rcases List.mem_cons.mp hr with rfl | hr
        · exact hdec
        · exact h8 r hr

/-- What is kept between transactions. -/
structure Between (P : Key → Engine → Prop) (s : State) : Prop where
  empty : s.frames = []
  past : ∀ r ∈ s.log, r.frame < s.nextFrame
  same : SameEngine s.log
  cached : ∀ h e, s.cache.get h = some e → P ⟨h, s.cacheSpec⟩ e
  logged : ∀ r ∈ s.log, P ⟨r.hash, r.spec⟩ r.engine

/-- All answers the backend gives during an operation. -/
def OpAnswersOk (P : Key → Engine → Prop) : Op → Prop
  | .transact evs => ∀ e ∈ evs, AnswersOk P e
  | _ => True

theorem foldl_inv {P : Key → Engine → Prop} (evs : List FrameEv) : ∀ s, Inv P s → (∀ e ∈ evs, AnswersOk P e) →
    Inv P (evs.foldl frameStep s) := by
  induction evs with
  | nil => intro s h _; exact h
  | cons e r ih =>
    intro s h hP
    exact ih _ (frameStep_inv h e (hP e List.mem_cons_self)) (fun e he => hP e (List.mem_cons_of_mem _ he))

theorem opStep_between {P : Key → Engine → Prop} {s : State} (h : Between P s) (o : Op) (hP : OpAnswersOk P o) :
    Between P (opStep s o) := by
  obtain ⟨h1, h2, h3, h4, h5⟩ := h
  cases o with
  | setSpec spec => exact ⟨h1, h2, h3, h4, h5⟩
  | setBackend => exact ⟨h1, h2, h3, fun h e he => by simp [opStep, AMap.get] at he, h5⟩
  | transact evs =>
    have h0 : Inv P { invalidateCache s with frames := [] } := by
      unfold invalidateCache
      split
      · exact ⟨rfl, fun f hf => by simp at hf, List.nodup_nil, h2, fun r _ f hf => by simp at hf, h3,
          fun h e he => by simp [AMap.get] at he, h5⟩
      · rename_i hsp
        have hsp : s.spec = s.cacheSpec := by simpa using hsp
        refine ⟨hsp.symm, fun f hf => by simp at hf, List.nodup_nil, h2, fun r _ f hf => by simp at hf, h3, ?_, h5⟩
        intro h e he
        have := h4 h e he
        rw [← hsp] at this
        exact this
    obtain ⟨g1, _, _, g4, _, g6, g7, g8⟩ := foldl_inv evs _ h0 hP
    refine ⟨rfl, g4, g6, ?_, g8⟩
    intro h e he
    have := g7 h e he
    rw [← g1] at this
    exact this

theorem session_between {P : Key → Engine → Prop} (spec : SpecId) (ops : List Op) (hP : ∀ o ∈ ops, OpAnswersOk P o) :
    Between P (session (new spec) ops) := by
  have h0 : Between P (new spec) :=
    ⟨rfl, fun r hr => by simp [new] at hr, fun a ha => by simp [new] at ha,
      fun h e he => by simp [new, AMap.get] at he, fun r hr => by simp [new] at hr⟩
  unfold session
  revert h0
  generalize new spec = s
  induction ops generalizing s with
  | nil => exact id
  | cons o r ih =>
    intro h0
    exact ih (fun o ho => hP o (List.mem_cons_of_mem _ ho)) _ (opStep_between h0 o (hP o List.mem_cons_self))

/-- C38: in every session, over every nesting of calls and whatever the backend answers when, all runs of a
call frame use one and the same engine. -/
theorem C38_same_engine (spec : SpecId) (ops : List Op) : SameEngine (session (new spec) ops).log :=
  (session_between (P := fun _ _ => True) spec ops fun o _ => by
    cases o with
    | transact evs => intro e _; cases e <;> simp [AnswersOk]
    | _ => trivial).same

/-- C38 also after each prefix of a running transaction. -/
theorem C38_same_engine_during (spec : SpecId) (ops : List Op) (evs : List FrameEv) :
    SameEngine (evs.foldl frameStep { invalidateCache (session (new spec) ops) with frames := [] }).log := by
  have := C38_same_engine spec (ops ++ [.transact evs])
  unfold session at this
  rw [List.foldl_append] at this
  exact this

/-- C47: a frame only ever runs compiled code that the backend returned for the frame's code hash and the
fork in force; in particular decisions cached under one fork are never used under another. -/
theorem C47_fork (spec : SpecId) (ops : List Op)
    (hback : ∀ o ∈ ops, OpAnswersOk (fun k e => ∀ p, e = .compiled p → p.key = k) o) :
    ∀ r ∈ (session (new spec) ops).log, ∀ p, r.engine = .compiled p → p.key = ⟨r.hash, r.spec⟩ :=
  (session_between spec ops hback).logged

/-- The engine a lookup decision stands for. -/
def ofDecision : Backend.Decision → Engine
  | .compiled p => .compiled p
  | _ => .interpret

/-- The hypothesis of `C47_fork` holds of the modelled backend, in every state of its history: `code` is
the code of the frame with that hash. -/
theorem C47_backend_answers {cfg : Backend.Config} {pre per : AMap Key Program} (hs : Backend.GoodStart pre per)
    (evs : List Backend.Ev) (en locked : Bool) (code : BitVec 256 → List UInt8) (k : Key) (p : Program)
    (h : ofDecision (Backend.lookup cfg en locked (Backend.run cfg (Backend.init pre per) evs) k (code k.codeHash)) =
      .compiled p) : p.key = k := by
  refine (Backend.C26_own_program (cfg := cfg) hs evs en locked k (code k.codeHash) p ?_).1
  unfold ofDecision at h
  split at h
  · rename_i q hq
    simp only [Engine.compiled.injEq] at h
    rw [hq, h]
  · cases h

/-- A program for hash 5 under fork 3. -/
def exProg : Program := ⟨⟨5, 3⟩, .jit, [1], .job 0⟩

/-- A session: under fork 3 the outer frame (hash 5) starts interpreted; while it waits for an inner call
the compilation finishes; the frame still resumes in the interpreter. After changing the fork, hash 5 is
looked up again. -/
def exOps : List Op :=
  [.transact [.init 5, .run fun _ => .interpret, .init 6, .run fun _ => .compiled exProg, .ret,
     .run fun _ => .compiled exProg, .ret],
   .setSpec 4, .transact [.init 5, .run fun _ => .interpret], .setSpec 3,
   .transact [.init 5, .run fun k => if k = ⟨5, 3⟩ then .compiled exProg else .interpret]]

example : (session (new 3) exOps).log =
    [⟨3, 5, 3, .compiled exProg⟩, ⟨2, 5, 4, .interpret⟩, ⟨0, 5, 3, .interpret⟩, ⟨1, 6, 3, .compiled exProg⟩,
     ⟨0, 5, 3, .interpret⟩] := by decide

/-- C38 for the context crate's wrapper, what holds: one engine per frame if the callback's answer for a hash
never changes, or the hash is in the fixed map. Missing from the full claim: callbacks that change their
mind. -/
theorem C38_callback_partial (functions : AMap (BitVec 256) Program) (hash : BitVec 256)
    (answers : List (BitVec 256 → Option Program))
    (h : (∃ p, functions.get hash = some p) ∨ ∀ a ∈ answers, ∀ b ∈ answers, a hash = b hash) :
    ∀ x ∈ mapRuns functions hash answers, ∀ y ∈ mapRuns functions hash answers, x = y := by
  intro x hx y hy
  obtain ⟨a, ha, rfl⟩ := List.mem_map.mp hx
  obtain ⟨b, hb, rfl⟩ := List.mem_map.mp hy
  unfold mapDecide
  rcases h with ⟨p, hp⟩ | h
  · simp only [hp]
  · rw [h a ha b hb]

/-- C38 does not hold of the context crate's wrapper: a callback that compiles between two runs of a frame
moves the suspended frame from the interpreter to compiled code. -/
theorem C38_callback_fails :
    ¬ ∀ (functions : AMap (BitVec 256) Program) (hash : BitVec 256) (answers : List (BitVec 256 → Option Program)),
      ∀ x ∈ mapRuns functions hash answers, ∀ y ∈ mapRuns functions hash answers, x = y := by
  intro h
  have := h [] 5 [fun _ => none, fun _ => some exProg] .interpret (by decide) (.compiled exProg) (by decide)
  cases this

example : mapRuns [(5, exProg)] 5 [fun _ => none, fun _ => some exProg] = [.compiled exProg, .compiled exProg] := by
  decide

end Verif.JitEvm
