import Verif.Spec.Workers
import Verif.Lemmas.SessionFresh
/-!
# Lemmas: workers and handles
-/

namespace Verif.Workers
open Verif.Session

/-- A compiler between jobs. -/
structure Idle (c : Comp) : Prop where
  aot : c.aot = false
  fin : c.finalized = false
  funcs : c.funcs = []
  builtins : c.builtins = none
  names : c.names = []
  staged : ∀ o, c.orc = some o → o.staged = []

theorem idle_new : Idle (Comp.new false) := ⟨rfl, rfl, rfl, rfl, rfl, fun _ h => by cases h⟩

theorem idle_clearIr {c : Comp} (h : c.aot = false) : Idle (clearIr c) :=
  ⟨h, rfl, rfl, rfl, rfl, fun o ho => by
    cases hc : c.orc with
    | none => simp [clearIr, hc] at ho
    | some o2 => simp [clearIr, hc] at ho; rw [← ho]⟩

/-- The symbol a job loads. -/
def newSym (j : Jit) (c : Comp) (d : Nat) (n : Name) (code : Code) : Sym :=
  ⟨d, n, j.nextTracker, j.nextAddr, code, c.clears⟩

theorem lookup_last {j : Jit} {d : Nat} {n : Name} (h : j.defined d n = false) {s : Sym} (h1 : s.dylib = d)
    (h2 : s.name = n) (a t d' : Nat) : Jit.lookup ⟨d', t, a, j.syms ++ [s]⟩ d n = some s.addr := by
  rw [Jit.lookup]
  rw [Jit.defined, List.any_eq_false] at h
  have hf : j.syms.find? (fun s => s.dylib == d && s.name == n) = none := by
    rw [List.find?_eq_none]
    exact fun x hx => h x hx
  simp [List.find?_append, hf, h1, h2]

/-- The compiler after translating one function. -/
def loadedComp (m ctr cl d : Nat) (cm : AMap Nat Nat) (tr : List Nat) (n : Name) (code : Code) (b : Option Nat) : Comp :=
  { aot := false, finalized := false, module := m, funcs := [(n, code)], builtins := b, counter := ctr + 1,
    names := [(ctr, n)], orc := some ⟨d, [(ctr, ⟨m, n⟩)], cm, tr⟩, clears := cl }

/-- And after adding its module. -/
def addedComp (m ctr cl d : Nat) (cm : AMap Nat Nat) (tr : List Nat) (n : Name) (b : Option Nat) : Comp :=
  { aot := false, finalized := true, module := m + 1, funcs := [], builtins := b, counter := ctr + 1,
    names := [(ctr, n)], orc := some ⟨d, [], cm, tr⟩, clears := cl }

theorem jit_loaded_opt (j : Jit) (m ctr cl d : Nat) (cm : AMap Nat Nat) (tr : List Nat) (n : Name) (code : Code)
    (b : Option Nat) (link : Bool) : jitFunction j (loadedComp m ctr cl d cm tr n code b) ctr false link =
      (j, loadedComp m ctr cl d cm tr n code b, .err) := rfl

theorem jit_loaded_clash {j : Jit} {d : Nat} {n : Name} (hd : j.defined d n = true) (m ctr cl : Nat)
    (cm : AMap Nat Nat) (tr : List Nat) (code : Code) (b : Option Nat) (link : Bool) :
    ∃ c', jitFunction j (loadedComp m ctr cl d cm tr n code b) ctr true link =
      ({ j with nextTracker := j.nextTracker + 1 }, c', .err) ∧ c'.aot = false ∧
      ∃ o', c'.orc = some o' ∧ o'.dylib = d ∧ o'.trackers = tr := by
  have hd2 : Jit.defined { j with nextTracker := j.nextTracker + 1 } d n = true := hd
  refine ⟨{ loadedComp m ctr cl d cm tr n code b with finalized := true, module := m + 1, funcs := [] }, ?_, rfl,
    _, rfl, rfl, rfl⟩
  simp [jitFunction, loadedComp, finalize, ensureOrc, Session.commit, Jit.add, hd2]

theorem jit_loaded_ok {j : Jit} {d : Nat} {n : Name} (hd : j.defined d n = false) (m ctr cl : Nat)
    (cm : AMap Nat Nat) (tr : List Nat) (code : Code) (b : Option Nat) (link : Bool) :
    jitFunction j (loadedComp m ctr cl d cm tr n code b) ctr true link =
      ({ j with nextTracker := j.nextTracker + 1, nextAddr := j.nextAddr + 1,
                syms := j.syms ++ [⟨d, n, j.nextTracker, j.nextAddr, code, cl⟩] },
       addedComp m ctr cl d (cm.insert ctr tr.length) (tr ++ [j.nextTracker]) n b,
       if link then .addr j.nextAddr else .err) := by
  have hd2 : Jit.defined { j with nextTracker := j.nextTracker + 1 } d n = false := hd
  have hl := lookup_last hd (s := ⟨d, n, j.nextTracker, j.nextAddr, code, cl⟩) rfl rfl
    (j.nextAddr + 1) (j.nextTracker + 1) j.nextDylib
  cases link <;>
  simp [jitFunction, loadedComp, addedComp, finalize, ensureOrc, Session.commit, Jit.add, hd2, AMap.keys, AMap.get,
    Jit.place, hl]

/-- What a job does to an idle compiler. -/
theorem compile_cases {c : Comp} (i : Idle c) (j : Jit) (n : Name) (code : Code) (parsed uses opt link : Bool) :
    (parsed = false ∧ compile j c n code parsed uses opt link = (j, c, .failed)) ∨
    ∃ o j1 j' c' out, parsed = true ∧
      ((c.orc = some o ∧ j1 = j) ∨
        (c.orc = none ∧ o = ⟨j.nextDylib, [], [], []⟩ ∧ j1 = { j with nextDylib := j.nextDylib + 1 })) ∧
      compile j c n code parsed uses opt link = (j', c', out) ∧ c'.aot = false ∧
      ∃ o', c'.orc = some o' ∧ o'.dylib = o.dylib ∧
        ((opt = false ∧ j' = j1 ∧ o'.trackers = o.trackers ∧ out = .failed) ∨
         (opt = true ∧ j1.defined o.dylib n = true ∧ j' = { j1 with nextTracker := j1.nextTracker + 1 } ∧
            o'.trackers = o.trackers ∧ out = .failed) ∨
         (opt = true ∧ j1.defined o.dylib n = false ∧
            j' = { j1 with nextTracker := j1.nextTracker + 1, nextAddr := j1.nextAddr + 1,
                           syms := j1.syms ++ [newSym j1 c o.dylib n code] } ∧
            ((link = false ∧ o'.trackers = o.trackers ++ [j1.nextTracker] ∧ out = .failed) ∨
             (link = true ∧ o'.trackers = o.trackers ∧
                out = .ok ⟨j1.nextAddr, j1.nextTracker, o.dylib⟩)))) := by
  obtain ⟨aot, fin, m, funcs, bi, ctr, names, orc, cl⟩ := c
  obtain ⟨h1, h2, h3, h4, h5, h6⟩ := i
  simp only at h1 h2 h3 h4 h5 h6
  subst h1 h2 h3 h4 h5
  cases parsed with
  | false => left; exact ⟨rfl, rfl⟩
  | true =>
    right
    have ht : ∃ d cm tr j1 b, ((orc = some ⟨d, [], cm, tr⟩ ∧ j1 = j) ∨
        (orc = none ∧ (⟨d, [], cm, tr⟩ : Orc) = ⟨j.nextDylib, [], [], []⟩ ∧
          j1 = { j with nextDylib := j.nextDylib + 1 })) ∧
        translate j ⟨false, false, m, [], none, ctr, [], orc, cl⟩ n code true uses =
          (j1, loadedComp m ctr cl d cm tr n code b, .id ctr) := by
      cases orc with
      | none =>
        refine ⟨_, _, _, _, if uses then some m else none, .inr ⟨rfl, rfl, rfl⟩, ?_⟩
        cases uses <;> rfl
      | some o =>
        have h6 := h6 o rfl
        obtain ⟨d, st, cm, tr⟩ := o
        simp only at h6
        subst h6
        refine ⟨_, _, _, _, if uses then some m else none, .inl ⟨rfl, rfl⟩, ?_⟩
        cases uses <;> rfl
    obtain ⟨d, cm, tr, j1, b, ho, ht⟩ := ht
    cases opt with
    | false =>
      refine ⟨⟨d, [], cm, tr⟩, j1, j1, loadedComp m ctr cl d cm tr n code b, .failed, rfl, ho, ?_, rfl, _, rfl, rfl,
        .inl ⟨rfl, rfl, rfl, rfl⟩⟩
      simp only [compile, ht, jit_loaded_opt]
    | true =>
      cases hd : j1.defined d n with
      | true =>
        obtain ⟨c', h7, h8, o', h9, h10, h11⟩ := jit_loaded_clash hd m ctr cl cm tr code b link
        refine ⟨⟨d, [], cm, tr⟩, j1, _, c', .failed, rfl, ho, ?_, h8, o', h9, h10, .inr (.inl ⟨rfl, hd, rfl, h11, rfl⟩)⟩
        simp only [compile, ht, h7]
      | false =>
        have h7 := jit_loaded_ok hd m ctr cl cm tr code b link
        cases link with
        | false =>
          simp only [Bool.false_eq_true, if_false] at h7
          refine ⟨⟨d, [], cm, tr⟩, j1, _, addedComp m ctr cl d (cm.insert ctr tr.length) (tr ++ [j1.nextTracker]) n b,
            .failed, rfl, ho, ?_, rfl, _, rfl, rfl, .inr (.inr ⟨rfl, hd, rfl, .inl ⟨rfl, rfl, rfl⟩⟩)⟩
          simp only [compile, ht, h7]
          rfl
        | true =>
          simp only [if_true] at h7
          have h8 : takeTracker (addedComp m ctr cl d (cm.insert ctr tr.length) (tr ++ [j1.nextTracker]) n b) =
              (addedComp m ctr cl d ((cm.insert ctr tr.length).filter fun p => p.2 != tr.length) tr n b,
                some j1.nextTracker) := by
            simp [takeTracker, addedComp]
          refine ⟨⟨d, [], cm, tr⟩, j1, _,
            addedComp m ctr cl d ((cm.insert ctr tr.length).filter fun p => p.2 != tr.length) tr n b,
            .ok ⟨j1.nextAddr, j1.nextTracker, d⟩, rfl, ho, ?_, rfl, _, rfl, rfl,
            .inr (.inr ⟨rfl, hd, rfl, .inr ⟨rfl, rfl, rfl⟩⟩)⟩
          simp only [compile, ht, h7, h8]
          rfl

end Verif.Workers
