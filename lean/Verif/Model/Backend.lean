import Verif.Model.AMap
import Verif.Model.Opcode
/-!
# The JIT backend thread

Models `BackendState` and its handlers (`crates/revmc-runtime/src/runtime/backend.rs`), the worker
queue counters (`worker.rs:199-266`), and the lookup entry points (`mod.rs:208-315`).

Each event is one atomic action: a caller's lookup, the backend thread handling one command, one
lookup event or one worker result, one eviction sweep, or a worker taking / finishing a job. A history
is a list of events, so every interleaving is covered. The real loop (backend.rs:843-869) drains
events and sweeps after each command; the model allows this and every other order.

Simplifications: instants are natural numbers; counters do not wrap (`generation: u64`, statistics);
`jit_max_pending_jobs * 10` is taken not to overflow; an AOT batch is a series of single requests;
file-system and `dlopen` outcomes and memory-usage readings are chosen freely by the events; the
artifact store is a map (see `Verif.Model.Store`) used by this backend only, and holds the artifacts for the one
(backend, optimisation level) pair this backend asks for; callbacks and logging are left out. The
fields `trace`, `nextJob`, `Job.id`, `Entry.byLookup`, `Program.origin`, `released` and `abandoned`
are bookkeeping for the specification: they never influence the other fields.
-/

namespace Verif.Backend

/-- `RuntimeCacheKey` (storage.rs:10-16). -/
structure Key where
  codeHash : BitVec 256
  spec : SpecId
deriving DecidableEq, Repr

/-- `CompilationKind`; also `ProgramKind` of a resident program. -/
inductive Kind
  | jit | aot
deriving DecidableEq, Repr

/-- `AdmitMode` (backend.rs:187-194). -/
inductive Mode
  | observed | explicit
deriving DecidableEq, Repr

/-- Bytecode. -/
abbrev Code := List UInt8

/-- Where a program comes from: found in the store at start-up, or compiled by a job. -/
inductive Origin
  | preloaded
  | job (id : Nat)
deriving DecidableEq, Repr

/-- `CompiledProgram`: the key it is published for, its kind, and the code it was compiled from. -/
structure Program where
  key : Key
  kind : Kind
  code : Code
  origin : Origin
deriving DecidableEq, Repr

/-- `RuntimeTuning` and the parts of `RuntimeConfig` used by the backend. -/
structure Config where
  aot : Bool
  hasStore : Bool
  hotThreshold : Nat
  maxPending : Nat
  maxCodeLen : Nat
  /-- `worker_count > 0` (worker.rs:206). -/
  hasWorkers : Bool
  /-- `worker_count * jit_worker_queue_capacity` (worker.rs:205). -/
  queueCapacity : Nat
  /-- `channel_capacity`, the size of the lookup-event queue (mod.rs:173). -/
  eventCapacity : Nat
  idle : Option Nat
  budget : Nat
  sweepInterval : Nat
deriving Repr

/-- `EntryPhase` (backend.rs:178-185). -/
inductive Phase
  | cold | working
deriving DecidableEq, Repr

/-- A `SyncNotifier` (worker.rs:45-66): `none`, or the blocked caller's number. -/
abbrev Notifier := Option Nat

/-- `EntryState` (backend.rs:163-175). -/
structure Entry where
  hotness : Nat
  phase : Phase
  code : Code
  lastObserved : Nat
  waiters : List Notifier
  byLookup : Bool
deriving DecidableEq, Repr

/-- `CompileJob` (worker.rs:68-86) until its result has been processed. `queued`: not yet taken by a
worker. -/
structure Job where
  id : Nat
  kind : Kind
  key : Key
  code : Code
  notifier : Notifier
  generation : Nat
  queued : Bool
deriving DecidableEq, Repr

/-- What a specification may observe of a run. -/
inductive Act
  /-- A miss on the tracked, not resident key `k` seen by a lookup was processed. -/
  | miss (k : Key)
  /-- An entry for `k` was created. -/
  | track (k : Key)
  /-- Job `id` for `k` was handed to the workers. -/
  | dispatch (id : Nat) (k : Key) (mode : Mode)
  /-- The result of job `id` was processed / discarded as stale. -/
  | finished (id : Nat) (k : Key)
  | stale (id : Nat) (k : Key)
  /-- The resident map was cleared. -/
  | cleared
  /-- `k` was evicted for being idle. -/
  | idleEvict (k : Key)
deriving DecidableEq, Repr

/-- `RuntimeStats` (the counters used here). -/
structure Stats where
  hits : Nat
  misses : Nat
  eventsDropped : Nat
  dispatched : Nat
  succeeded : Nat
  failed : Nat
  evictions : Nat
deriving DecidableEq, Repr

/-- `BackendShared` and `BackendState` (mod.rs:77-92, backend.rs:196-219). -/
structure State where
  resident : AMap Key Program
  /-- `resident_meta`: `last_hit_at`. -/
  residentMeta : AMap Key Nat
  entries : AMap Key Entry
  /-- Jobs accepted by the pool whose result has not been processed yet. -/
  jobs : List Job
  /-- `BackendState::pending_jobs`. -/
  pendingJobs : Nat
  generation : Nat
  lastSweep : Nat
  now : Nat
  /-- The artifact store. -/
  persisted : AMap Key Program
  /-- The lookup-event queue, oldest first; a hit has empty code (mod.rs:228, backend.rs:259). -/
  events : List (Key × Code)
  /-- The backend thread has stopped. -/
  closed : Bool
  stats : Stats
  /-- Callers whose notifier was fired / dropped without firing. -/
  released : List Nat
  abandoned : List Nat
  nextJob : Nat
  /-- Newest first. -/
  trace : List Act

/-- State when the backend thread starts (backend.rs:821-841), with `preloaded` in the resident map
(mod.rs:465-471) and `persisted` in the store. -/
def init (preloaded persisted : AMap Key Program) : State where
  resident := preloaded
  residentMeta := preloaded.map fun p => (p.1, 0)
  entries := []
  jobs := []
  pendingJobs := 0
  generation := 0
  lastSweep := 0
  now := 0
  persisted := persisted
  events := []
  closed := false
  stats := ⟨0, 0, 0, 0, 0, 0, 0⟩
  released := []
  abandoned := []
  nextJob := 0
  trace := []

/-- `RuntimeTuning::should_compile` (config.rs:338-347). -/
def shouldCompile (cfg : Config) (code : Code) : Bool :=
  if code.isEmpty then false
  else if cfg.maxCodeLen > 0 && code.length > cfg.maxCodeLen then false
  else true

/-! ## Lookups -/

/-- `LookupDecision` (mod.rs:208-285). -/
inductive Decision
  | compiled (p : Program)
  | disabled
  | ineligible
  | notReady
  | jitFailed
deriving DecidableEq, Repr

/-- The decision part of `lookup` in normal mode (mod.rs:212-234). `locked`: `try_get` found the
shard locked. -/
def lookup (cfg : Config) (enabled locked : Bool) (s : State) (k : Key) (code : Code) : Decision :=
  if !enabled then .disabled
  else if !shouldCompile cfg code then .ineligible
  else
    match (if locked then none else s.resident.get k) with
    | some p => .compiled p
    | none => .notReady

/-- `lookup` followed by `lookup_blocking` in blocking mode (mod.rs:212-218, 269-285). `s1` is the state
at the first probe; the synchronous compile request ends with `answer` (`none`: an error), and `s2` is
the state at the second probe. -/
def lookupBlocking (cfg : Config) (enabled : Bool) (s1 s2 : State) (answer : Option Unit) (k : Key)
    (code : Code) : Decision :=
  if !enabled then .disabled
  else if !shouldCompile cfg code then .ineligible
  else
    match s1.resident.get k with
    | some p => .compiled p
    | none =>
      match answer with
      | none => .jitFailed
      | some () =>
        match s2.resident.get k with
        | some p => .compiled p
        | none => .jitFailed

/-- The event push of `lookup` (mod.rs:236-239): a hit's code is cleared first. -/
def pushEvent (cfg : Config) (s : State) (k : Key) (code : Code) (d : Decision) : State :=
  match d with
  | .compiled _ => push s (k, [])
  | .notReady => push s (k, code)
  | _ => s
where
  push (s : State) (e : Key × Code) : State :=
    if s.events.length < cfg.eventCapacity then { s with events := s.events ++ [e] }
    else { s with stats := { s.stats with eventsDropped := s.stats.eventsDropped + 1 } }

/-- `stats().pending_jobs` (stats.rs:138-141). -/
def pendingStat (s : State) : Nat := s.stats.dispatched - (s.stats.succeeded + s.stats.failed)

/-! ## Backend thread -/

/-- `SyncNotifier::notify` (worker.rs:61-65). -/
def release (s : State) (n : Notifier) : State :=
  match n with
  | none => s
  | some c => { s with released := c :: s.released }

def releaseAll (s : State) (ns : List Notifier) : State := ns.foldl release s

/-- A notifier dropped without firing: the blocked caller sees the channel closed. -/
def abandonAll (s : State) (ns : List Notifier) : State :=
  { s with abandoned := ns.filterMap id ++ s.abandoned }

/-- `insert_resident` (backend.rs:484-487). -/
def insertResident (s : State) (k : Key) (p : Program) : State :=
  { s with resident := s.resident.insert k p, residentMeta := s.residentMeta.insert k s.now }

/-- `remove_resident` (backend.rs:489-492). -/
def removeResident (s : State) (k : Key) : State :=
  { s with resident := s.resident.erase k, residentMeta := s.residentMeta.erase k }

/-- `self.entries.remove(&key)` where the removed entry may still hold notifiers: they are dropped. -/
def removeEntry (s : State) (k : Key) : State :=
  match s.entries.get k with
  | none => s
  | some e => { abandonAll s e.waiters with entries := s.entries.erase k }

/-- `try_load_persisted_aot` (backend.rs:391-449): the program to publish, if any. `loads`: opening the
library succeeds. -/
def persistedProgram (cfg : Config) (s : State) (k : Key) (loads : Bool) : Option Program :=
  if !cfg.hasStore then none
  else
    match s.persisted.get k with
    | none => none
    | some p => if loads then some { p with key := k, kind := .aot } else none

/-- `WorkerPool::try_send` accepts (worker.rs:234-266). -/
def poolAccepts (cfg : Config) (s : State) : Bool :=
  cfg.hasWorkers && (s.jobs.filter (·.queued)).length < cfg.queueCapacity

/-- The last part of `try_admit` (backend.rs:344-388): saturation check and dispatch. -/
def dispatch (cfg : Config) (s : State) (kind : Kind) (k : Key) (e : Entry) (n : Notifier) (mode : Mode) :
    State :=
  if s.pendingJobs ≥ cfg.maxPending then release s n
  else if poolAccepts cfg s then
    { s with
      entries := s.entries.update k fun e => { e with phase := .working }
      jobs := s.jobs ++ [{ id := s.nextJob, kind, key := k, code := e.code, notifier := n,
                           generation := s.generation, queued := true }]
      pendingJobs := s.pendingJobs + 1
      stats := { s.stats with dispatched := s.stats.dispatched + 1 }
      nextJob := s.nextJob + 1
      trace := .dispatch s.nextJob k mode :: s.trace }
  else release s n

/-- `self.entries.entry(key).or_insert_with(...)` (backend.rs:324-331). -/
def ensureEntry (s : State) (k : Key) (code : Code) (mode : Mode) : State :=
  match s.entries.get k with
  | some _ => s
  | none =>
    { s with
      entries := s.entries.insert k
        { hotness := 0, phase := .cold, code, lastObserved := s.now, waiters := [],
          byLookup := mode == .observed }
      trace := .track k :: s.trace }

/-- `u32::MAX` (`saturating_add`, backend.rs:338). -/
def U32_MAX : Nat := 4294967295

/-- `try_admit` from the entry on (backend.rs:323-388). -/
def admitEntry (cfg : Config) (s : State) (kind : Kind) (k : Key) (n : Notifier) (mode : Mode) : State :=
  match s.entries.get k with
  | none => s
  | some e =>
    match e.phase with
    | .working =>
      { s with
        entries := s.entries.update k fun e =>
          { e with lastObserved := s.now, waiters := e.waiters ++ [n] }
        trace := if mode = .observed then .miss k :: s.trace else s.trace }
    | .cold =>
      match mode with
      | .observed =>
        let s' := { s with
          entries := s.entries.update k fun e =>
            { e with lastObserved := s.now, hotness := min (e.hotness + 1) U32_MAX }
          trace := .miss k :: s.trace }
        if min (e.hotness + 1) U32_MAX < cfg.hotThreshold then s' else dispatch cfg s' kind k e n mode
      | .explicit =>
        dispatch cfg { s with entries := s.entries.update k fun e => { e with lastObserved := s.now } }
          kind k e n mode

/-- `try_admit` (backend.rs:294-389). -/
def tryAdmit (cfg : Config) (s : State) (kind : Kind) (k : Key) (code : Code) (n : Notifier)
    (mode : Mode) (loads : Bool) : State :=
  if s.resident.has k then release s n
  else if !shouldCompile cfg code then release s n
  else if mode == .observed && !s.entries.has k && s.entries.length ≥ cfg.maxPending * 10 then s
  else
    match (if kind = .aot then persistedProgram cfg s k loads else none) with
    | some p => release (insertResident s k p) n
    | none => admitEntry cfg (ensureEntry s k code mode) kind k n mode

/-- Observed misses and explicit requests compile AOT artifacts in AOT mode (backend.rs:267, 273). -/
def defaultKind (cfg : Config) : Kind := if cfg.aot then .aot else .jit

/-- `handle_lookup_observed` (backend.rs:258-270). -/
def handleObserved (cfg : Config) (s : State) (k : Key) (code : Code) (loads : Bool) : State :=
  if code.isEmpty then
    { s with
      stats := { s.stats with hits := s.stats.hits + 1 }
      residentMeta := s.residentMeta.update k fun _ => s.now }
  else
    tryAdmit cfg
      { s with stats := { s.stats with misses := s.stats.misses + 1 } }
      (defaultKind cfg) k code none .observed loads

/-- `handle_clear_resident` (backend.rs:451-467). -/
def clearResident (s : State) : State :=
  let s' := releaseAll s (s.entries.flatMap (·.2.waiters))
  { s' with
    resident := []
    residentMeta := []
    entries := []
    events := []
    generation := s.generation + 1
    trace := .cleared :: s.trace }

/-- `handle_clear_persisted` (backend.rs:469-477); `ok`: the store reports no error. -/
def clearPersisted (cfg : Config) (s : State) (ok : Bool) : State :=
  if cfg.hasStore && ok then { s with persisted := [] } else s

/-- What a worker produced for a job, and how publishing it goes (backend.rs:530-570). -/
inductive Outcome
  | failed
  | jit
  | jitObject (linked : Bool)
  | aot (stored loaded : Bool)
deriving DecidableEq, Repr

def publishJit (s : State) (j : Job) : State :=
  let s1 := insertResident s j.key { key := j.key, kind := .jit, code := j.code, origin := .job j.id }
  { s1 with
    entries := s1.entries.erase j.key
    stats := { s1.stats with succeeded := s1.stats.succeeded + 1 } }

def recordFailure (s : State) (j : Job) : State :=
  { s with
    entries := s.entries.erase j.key
    stats := { s.stats with failed := s.stats.failed + 1 } }

/-- `handle_aot_success` (backend.rs:610-717). -/
def publishAot (cfg : Config) (s : State) (j : Job) (stored loaded : Bool) : State :=
  if !cfg.hasStore then recordFailure s j
  else if !stored then recordFailure s j
  else
    let p : Program := { key := j.key, kind := .aot, code := j.code, origin := .job j.id }
    let s1 := { s with persisted := s.persisted.insert j.key p }
    if !loaded then recordFailure s1 j
    else
      let s2 := insertResident s1 j.key p
      { s2 with
        entries := s2.entries.erase j.key
        stats := { s2.stats with succeeded := s2.stats.succeeded + 1 } }

/-- The non-stale part of `handle_worker_result` (backend.rs:523-571). -/
def publish (cfg : Config) (s : State) (j : Job) : Outcome → State
  | .failed => recordFailure s j
  | .jit => publishJit s j
  | .jitObject linked => if linked then publishJit s j else recordFailure s j
  | .aot stored loaded => publishAot cfg s j stored loaded

/-- `mem::take` of the entry's notifiers (backend.rs:498-502). -/
def takeWaiters (s : State) (k : Key) : List Notifier :=
  match s.entries.get k with
  | none => []
  | some e => e.waiters

/-- `handle_worker_result` (backend.rs:494-573) for job `j`. -/
def handleResult (cfg : Config) (s : State) (j : Job) (o : Outcome) : State :=
  let ws := takeWaiters s j.key
  let s0 := { s with
    jobs := s.jobs.filter (·.id ≠ j.id)
    pendingJobs := s.pendingJobs - 1
    entries := s.entries.update j.key fun e => { e with waiters := [] } }
  if j.generation ≠ s.generation then
    releaseAll { s0 with entries := s0.entries.erase j.key, trace := .stale j.id j.key :: s0.trace }
      (j.notifier :: ws)
  else
    releaseAll { publish cfg s0 j o with trace := .finished j.id j.key :: s0.trace } (j.notifier :: ws)

/-! ## Eviction -/

/-- `should_sweep` (backend.rs:794-802); `usage` is the reading of `jit_total_bytes()`. -/
def shouldSweep (cfg : Config) (s : State) (usage : Nat) : Bool :=
  if cfg.budget > 0 && usage > cfg.budget then true
  else cfg.idle.isSome && s.now - s.lastSweep ≥ cfg.sweepInterval

/-- Remove one program for being idle (backend.rs:740-748). -/
def evictIdle (s : State) (k : Key) : State :=
  let s1 := removeEntry (removeResident s k) k
  { s1 with stats := { s1.stats with evictions := s1.stats.evictions + 1 },
            trace := .idleEvict k :: s1.trace }

/-- Remove one program for the budget (backend.rs:781-788). -/
def evictLru (s : State) (k : Key) : State :=
  let s1 := removeEntry (removeResident s k) k
  { s1 with stats := { s1.stats with evictions := s1.stats.evictions + 1 } }

/-- Phase 1 (backend.rs:732-749). -/
def sweepIdle (s : State) (idle : Nat) : State :=
  ((s.residentMeta.filter fun p => s.now - p.2 > idle).map (·.1)).foldl evictIdle s

/-- Phase 2 (backend.rs:751-760). Cold entries hold no notifiers (`Inv.coldWaiters`), so none is dropped
here. -/
def sweepCold (s : State) (idle : Nat) : State :=
  { s with entries := s.entries.filter fun p =>
      !(p.2.phase == .cold && decide (s.now - p.2.lastObserved > idle) && !s.resident.has p.1) }

/-- The candidates of phase 3 (backend.rs:765-773): JIT programs with their last hit, in the map's
iteration order. `iter` stands for the unspecified iteration order of the hash map: the keys in it come
first, in that order. -/
def lruCandidates (s : State) (iter : List Key) : List (Key × Nat) :=
  let jit := s.residentMeta.filter fun p =>
    match s.resident.get p.1 with
    | some q => q.kind == .jit
    | none => false
  let ks := iter.eraseDups
  ks.filterMap (fun k => (AMap.get jit k).map fun t => (k, t)) ++ jit.filter (fun p => !ks.contains p.1)

/-- Insertion step of a stable sort by last hit. -/
def insertByTime (p : Key × Nat) : List (Key × Nat) → List (Key × Nat)
  | [] => [p]
  | q :: r => if p.2 ≤ q.2 then p :: q :: r else q :: insertByTime p r

/-- `sort_by_key(|(_, t)| *t)` (backend.rs:774), a stable sort. -/
def sortByTime : List (Key × Nat) → List (Key × Nat)
  | [] => []
  | p :: r => insertByTime p (sortByTime r)

/-- The eviction loop (backend.rs:776-789); `readings` are the successive values of
`jit_total_bytes()`. -/
def lruLoop (budget : Nat) (readings : Nat → Nat) : Nat → State → List (Key × Nat) → State
  | _, s, [] => s
  | i, s, (k, _) :: r =>
    if readings i ≤ budget then s else lruLoop budget readings (i + 1) (evictLru s k) r

/-- Phase 3 (backend.rs:762-790). -/
def sweepBudget (cfg : Config) (s : State) (iter : List Key) (readings : Nat → Nat) : State :=
  if cfg.budget > 0 && readings 1 > cfg.budget then
    lruLoop cfg.budget readings 2 s (sortByTime (lruCandidates s iter))
  else s

/-- `run_eviction_sweep` (backend.rs:720-791). -/
def sweep (cfg : Config) (s : State) (iter : List Key) (readings : Nat → Nat) : State :=
  if shouldSweep cfg s (readings 0) then
    let s0 := { s with lastSweep := s.now }
    let s1 := match cfg.idle with
      | some idle => sweepCold (sweepIdle s0 idle) idle
      | none => s0
    sweepBudget cfg s1 iter readings
  else s

/-! ## Histories -/

inductive Ev
  /-- A caller's lookup. -/
  | lookup (enabled locked : Bool) (k : Key) (code : Code)
  /-- `drain_events` takes one event (backend.rs:243-256). -/
  | drain (loads : Bool)
  /-- `Command::CompileJit` (backend.rs:272-275). -/
  | compileJit (k : Key) (code : Code) (n : Notifier) (loads : Bool)
  /-- One request of `Command::PrepareAot` (backend.rs:277-287). -/
  | prepareAot (k : Key) (code : Code) (loads : Bool)
  | clearResident
  | clearPersisted (ok : Bool)
  | clearAll (ok : Bool)
  /-- A worker takes job `id` (worker.rs:261). -/
  | start (id : Nat)
  /-- The backend processes the result of job `id`. -/
  | result (id : Nat) (o : Outcome)
  | sweep (iter : List Key) (readings : Nat → Nat)
  | tick (d : Nat)
  /-- `Command::Shutdown` and the end of `run` (backend.rs:871-875). -/
  | shutdown

/-- `run`'s exit (backend.rs:871-875): every notifier still held is dropped. Jobs in flight are not
answered any more. -/
def shutdown (s : State) : State :=
  { abandonAll s (s.entries.flatMap (·.2.waiters) ++ s.jobs.map (·.notifier)) with
    entries := [], closed := true }

def step (cfg : Config) (s : State) : Ev → State
  | .lookup enabled locked k code =>
    pushEvent cfg s k code (lookup cfg enabled locked s k code)
  | .tick d => { s with now := s.now + d }
  | .drain loads =>
    if s.closed then s
    else
      match s.events with
      | [] => s
      | (k, code) :: r => handleObserved cfg { s with events := r } k code loads
  | .compileJit k code n loads =>
    if s.closed then abandonAll s [n]
    else tryAdmit cfg s (defaultKind cfg) k code n .explicit loads
  | .prepareAot k code loads =>
    if s.closed then s else tryAdmit cfg s .aot k code none .explicit loads
  | .clearResident => if s.closed then s else clearResident s
  | .clearPersisted ok => if s.closed then s else clearPersisted cfg s ok
  | .clearAll ok => if s.closed then s else clearPersisted cfg (clearResident s) ok
  | .start id =>
    { s with jobs := s.jobs.map fun j => if j.id = id then { j with queued := false } else j }
  | .result id o =>
    if s.closed then s
    else
      match s.jobs.find? (fun j => j.id = id && !j.queued) with
      | none => s
      | some j => handleResult cfg s j o
  | .sweep iter readings => if s.closed then s else sweep cfg s iter readings
  | .shutdown => if s.closed then s else shutdown s

def run (cfg : Config) (s : State) (evs : List Ev) : State := evs.foldl (step cfg) s

end Verif.Backend
