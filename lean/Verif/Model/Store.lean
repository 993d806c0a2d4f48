import Verif.Model.Helper
/-!
# The runtime artifact store

Models `RuntimeArtifactStore` (`crates/revmc-runtime/src/runtime/storage.rs`). The file system is a
map from file names (inside the store's private temporary directory) to contents. The index
(`DashMap`) is an association list; every index operation is atomic.
-/

namespace Verif.Store

open Verif.Helper (OptLevel)

/-- `BackendSelection` (storage.rs:58-65). -/
inductive BackendSel
  | auto | llvm
deriving DecidableEq, Repr

/-- `ArtifactKey` with its `RuntimeCacheKey` (storage.rs:10-30). `spec` is one of the fifteen forks. -/
structure Key where
  codeHash : BitVec 256
  spec : Fin 15
  backend : BackendSel
  optLevel : OptLevel
deriving DecidableEq, Repr

/-- The part of `ArtifactManifest` (storage.rs:42-55) that identifies a build; opaque here. -/
abbrev Manifest := Nat

/-- File contents. -/
abbrev Bytes := List UInt8

/-- File name. -/
abbrev Path := List Char

/-- `StoredArtifact` (storage.rs:33-39). -/
structure Stored where
  manifest : Manifest
  path : Path
deriving DecidableEq, Repr

/-- A lower-case hexadecimal digit. -/
def hexDigit (n : Nat) : Char := "0123456789abcdef".toList.getD n '?'

/-- `{:x}` of a fixed-size byte array (alloy `FixedBytes`, external): `w` digits, most significant
first. -/
def hex : Nat → Nat → List Char
  | 0, _ => []
  | w + 1, v => hex w (v / 16) ++ [hexDigit (v % 16)]

/-- `{:?}` of `SpecId` (revm, external derive): the variant name. -/
def specName (s : Fin 15) : List Char :=
  (["FRONTIER", "HOMESTEAD", "TANGERINE", "SPURIOUS_DRAGON", "BYZANTIUM", "PETERSBURG", "ISTANBUL",
    "BERLIN", "LONDON", "MERGE", "SHANGHAI", "CANCUN", "PRAGUE", "OSAKA", "AMSTERDAM"].getD s.val "").toList

/-- `{:?}` of `BackendSelection`. -/
def backendName : BackendSel → List Char
  | .auto => "Auto".toList
  | .llvm => "Llvm".toList

/-- `{:?}` of `OptimizationLevel`. -/
def optName : OptLevel → List Char
  | .none => "None".toList
  | .less => "Less".toList
  | .default => "Default".toList
  | .aggressive => "Aggressive".toList

/-- The part of the file name after the hash. -/
def pathSuffix (s : Fin 15) (b : BackendSel) (o : OptLevel) : Path :=
  '_' :: specName s ++ '_' :: backendName b ++ '_' :: optName o ++ ".so".toList

/-- `artifact_path` (storage.rs:118-123). -/
def artifactPath (k : Key) : Path := hex 64 k.codeHash.toNat ++ pathSuffix k.spec k.backend k.optLevel

/-- The index: `DashMap::insert` replaces. -/
abbrev Index := List (Key × Stored)

def Index.get (ix : Index) (k : Key) : Option Stored := ix.lookup k
def Index.remove (ix : Index) (k : Key) : Index := ix.filter (fun p => p.1 ≠ k)
def Index.insert (ix : Index) (k : Key) (st : Stored) : Index := (k, st) :: ix.remove k

abbrev Fs := Path → Option Bytes

/-- Result of `fs::write`: done, or failed leaving the file with the given contents. -/
inductive WriteResult
  | ok
  | failed (left : Option Bytes)
deriving DecidableEq, Repr

structure State where
  index : Index
  fs : Fs

/-- `RuntimeArtifactStore::new` (storage.rs:103-105): an empty temporary directory. -/
def State.init : State := ⟨[], fun _ => none⟩

/-- `fs::write`. -/
def Fs.write (fs : Fs) (p : Path) (c : Option Bytes) : Fs := fun q => if q = p then c else fs q

/-- `store` (storage.rs:138-149). -/
def store (s : State) (k : Key) (m : Manifest) (b : Bytes) (w : WriteResult) : State :=
  match w with
  | .ok => ⟨s.index.insert k ⟨m, artifactPath k⟩, s.fs.write (artifactPath k) (some b)⟩
  | .failed left => ⟨s.index, s.fs.write (artifactPath k) left⟩

/-- `load` (storage.rs:134-136). -/
def load (s : State) (k : Key) : Option Stored := s.index.get k

/-- `delete` (storage.rs:151-156); the error of `remove_file` is ignored: `removed = false`. -/
def delete (s : State) (k : Key) (removed : Bool) : State :=
  match s.index.get k with
  | none => s
  | some st => ⟨s.index.remove k, if removed then s.fs.write st.path none else s.fs⟩

/-- The removal loop of `clear` (storage.rs:161-163). -/
def removeAll (fs : Fs) : List (Path × Bool) → Fs
  | [] => fs
  | (p, true) :: r => removeAll (fs.write p none) r
  | (_, false) :: r => removeAll fs r

/-- `clear` (storage.rs:158-165). `removed` says which removals succeed. -/
def clear (s : State) (removed : Path → Bool) : State :=
  ⟨[], removeAll s.fs (s.index.map fun p => (p.2.path, removed p.2.path))⟩

/-- A call on the store. -/
inductive Op
  | store (k : Key) (m : Manifest) (b : Bytes) (w : WriteResult)
  | delete (k : Key) (removed : Bool)
  | clear (removed : Path → Bool)

/-- Calls one after the other (the backend thread is the only caller in this crate). -/
def apply (s : State) : Op → State
  | .store k m b w => store s k m b w
  | .delete k r => delete s k r
  | .clear r => clear s r

def runOps (s : State) (ops : List Op) : State := ops.foldl apply s

/-! ## Overlapping calls

Each call is split into its atomic actions; between two actions any other thread may run. -/

/-- What a thread inside a call still has to do. -/
inductive Pending
  /-- `store`: the file is written, the index insertion is next (storage.rs:145-147). -/
  | insert (k : Key) (m : Manifest) (b : Bytes)
  /-- `clear`: the paths are collected, clearing the index is next (storage.rs:159-160). -/
  | clearIndex (paths : List Path)
  /-- `delete` / `clear`: files to remove (storage.rs:153, 161-163). -/
  | rm (paths : List Path)
deriving DecidableEq, Repr

structure CState where
  index : Index
  fs : Fs
  thread : Nat → Option Pending

def CState.init : CState := ⟨[], fun _ => none, fun _ => none⟩

def setThread (th : Nat → Option Pending) (t : Nat) (p : Option Pending) : Nat → Option Pending :=
  fun u => if u = t then p else th u

inductive Ev
  /-- Thread `t` begins `store`: `fs::write` (storage.rs:144-145). -/
  | startStore (t : Nat) (k : Key) (m : Manifest) (b : Bytes)
  /-- Thread `t` begins `delete`: `artifacts.remove` (storage.rs:152). -/
  | startDelete (t : Nat) (k : Key)
  /-- Thread `t` begins `clear`: collects the paths (storage.rs:159). -/
  | startClear (t : Nat)
  /-- Thread `t` performs its next action. -/
  | cont (t : Nat)
deriving DecidableEq, Repr

def step (s : CState) : Ev → CState
  | .startStore t k m b =>
    match s.thread t with
    | some _ => s
    | none => { s with fs := s.fs.write (artifactPath k) (some b),
                       thread := setThread s.thread t (some (.insert k m b)) }
  | .startDelete t k =>
    match s.thread t with
    | some _ => s
    | none =>
      match s.index.get k with
      | none => s
      | some st => { s with index := s.index.remove k,
                            thread := setThread s.thread t (some (.rm [st.path])) }
  | .startClear t =>
    match s.thread t with
    | some _ => s
    | none => { s with thread := setThread s.thread t (some (.clearIndex (s.index.map (·.2.path)))) }
  | .cont t =>
    match s.thread t with
    | none => s
    | some (.insert k m _) =>
      { s with index := s.index.insert k ⟨m, artifactPath k⟩, thread := setThread s.thread t none }
    | some (.clearIndex ps) => { s with index := [], thread := setThread s.thread t (some (.rm ps)) }
    | some (.rm []) => { s with thread := setThread s.thread t none }
    | some (.rm (p :: ps)) =>
      { s with fs := s.fs.write p none, thread := setThread s.thread t (some (.rm ps)) }

def run (s : CState) (evs : List Ev) : CState := evs.foldl step s

end Verif.Store
