import Verif.Spec.Session
import Verif.Lemmas.AMap
import Verif.Lemmas.ListExtra
/-!
# Lemmas: compiler sessions
-/

namespace Verif.Session

/-! ## Histories -/

/-- An event that neither makes an id nor clears. -/
structure Quiet (e : Op × Res) : Prop where
  made : ∀ n code p u id, e ≠ (.translate n code p u, .id id)
  clear : e.1 ≠ .clear
  ir : e.1 ≠ .clearIr

theorem Quiet.gen {e : Op × Res} (q : Quiet e) (h : History) : gen (e :: h) = gen h := by
  obtain ⟨op, r⟩ := e
  have h1 := q.clear
  have h2 := q.ir
  cases op <;> first | rfl | simp_all

theorem Quiet.made_iff {e : Op × Res} (q : Quiet e) (h : History) (id n code g) :
    Made (e :: h) id n code g ↔ Made h id n code g := by
  constructor
  · rintro (hm | ⟨p, u, he, _⟩)
    · exact hm
    · exact absurd he (q.made _ _ _ _ _)
  · exact Or.inl

theorem Given.mono {h : History} {id a : Nat} (hg : Given h id a) (e : Op × Res) : Given (e :: h) id a := by
  obtain ⟨o, l, hm⟩ := hg
  exact ⟨o, l, List.mem_cons_of_mem _ hm⟩

/-! ## Symbols -/

theorem mem_place {d t g : Nat} {s : Sym} : ∀ {fs : List (Name × Code)} {a : Nat},
    s ∈ Jit.place d t g a fs →
    s.dylib = d ∧ s.tracker = t ∧ s.gen = g ∧ a ≤ s.addr ∧ s.addr < a + fs.length ∧ (s.name, s.code) ∈ fs := by
  intro fs
  induction fs with
  | nil => intro a h; cases h
  | cons f r ih =>
    intro a h
    rcases List.mem_cons.mp h with rfl | h
    · exact ⟨rfl, rfl, rfl, Nat.le_refl _, by simp, List.mem_cons_self⟩
    · obtain ⟨h1, h2, h3, h4, h5, h6⟩ := ih h
      refine ⟨h1, h2, h3, by omega, ?_, List.mem_cons_of_mem _ h6⟩
      rw [List.length_cons]; omega

theorem place_addrs (d t g : Nat) : ∀ (fs : List (Name × Code)) (a : Nat),
    ((Jit.place d t g a fs).map (·.addr)).Nodup := by
  intro fs
  induction fs with
  | nil => intro a; exact List.nodup_nil
  | cons f r ih =>
    intro a
    rw [Jit.place, List.map_cons, List.nodup_cons]
    refine ⟨?_, ih _⟩
    intro hm
    obtain ⟨s, hs, he⟩ := List.mem_map.mp hm
    have := (mem_place hs).2.2.2.1
    simp only at he
    omega

theorem exists_place (d t g : Nat) : ∀ (fs : List (Name × Code)) (a : Nat) (f : Name × Code), f ∈ fs →
    ∃ s ∈ Jit.place d t g a fs, s.name = f.1 := by
  intro fs
  induction fs with
  | nil => intro a f h; cases h
  | cons x r ih =>
    intro a f h
    rcases List.mem_cons.mp h with rfl | h
    · exact ⟨_, List.mem_cons_self, rfl⟩
    · obtain ⟨s, hs, he⟩ := ih (a + 1) f h
      exact ⟨s, List.mem_cons_of_mem _ hs, he⟩

theorem not_defined {j : Jit} {d : Nat} {n : Name} (h : j.defined d n = false) {s : Sym} (hs : s ∈ j.syms)
    (hd : s.dylib = d) : s.name ≠ n := by
  intro hn
  rw [Jit.defined, List.any_eq_false] at h
  exact h s hs (by simp [hd, hn])

theorem of_defined {j : Jit} {d : Nat} {n : Name} (h : j.defined d n = true) :
    ∃ s ∈ j.syms, s.dylib = d ∧ s.name = n := by
  rw [Jit.defined, List.any_eq_true] at h
  obtain ⟨s, hs, he⟩ := h
  simp at he
  exact ⟨s, hs, he⟩

theorem add_some {j j' : Jit} {d t g : Nat} {fs : List (Name × Code)} (h : j.add d t g fs = some j') :
    (∀ f ∈ fs, j.defined d f.1 = false) ∧
    j' = { j with nextAddr := j.nextAddr + fs.length, syms := j.syms ++ Jit.place d t g j.nextAddr fs } := by
  rw [Jit.add] at h
  cases hc : fs.any fun f => j.defined d f.1 with
  | true => simp [hc] at h
  | false =>
    simp [hc] at h
    rw [List.any_eq_false] at hc
    exact ⟨fun f hf => by simpa using hc f hf, h.symm⟩

theorem lookup_some {j : Jit} {d a : Nat} {n : Name} (h : j.lookup d n = some a) :
    ∃ s ∈ j.syms, s.dylib = d ∧ s.name = n ∧ s.addr = a := by
  rw [Jit.lookup] at h
  cases hf : j.syms.find? fun s => s.dylib == d && s.name == n with
  | none => rw [hf] at h; cases h
  | some s =>
    rw [hf] at h
    cases h
    have h1 := List.find?_some hf
    simp at h1
    exact ⟨s, List.mem_of_find?_eq_some hf, h1.1, h1.2, rfl⟩

theorem eq_of_addr {j : Jit} (ok : j.Ok) {s s' : Sym} (hs : s ∈ j.syms) (hs' : s' ∈ j.syms)
    (h : s.addr = s'.addr) : s = s' := by
  obtain ⟨i, hi, rfl⟩ := List.mem_iff_getElem.mp hs
  obtain ⟨k, hk, rfl⟩ := List.mem_iff_getElem.mp hs'
  have h2 : i = k := by
    have h3 := List.getElem_inj (h₀ := by simpa using hi) (h₁ := by simpa using hk) ok.addrs
    rw [List.getElem_map, List.getElem_map] at h3
    exact h3.mp h
  subst h2
  rfl

theorem codeAt_some {j : Jit} {a : Nat} {code : Code} (h : j.codeAt a = some code) :
    ∃ s ∈ j.syms, s.addr = a ∧ s.code = code := by
  rw [Jit.codeAt] at h
  cases hf : j.syms.find? fun s => s.addr == a with
  | none => rw [hf] at h; cases h
  | some s =>
    rw [hf] at h
    cases h
    have h1 := List.find?_some hf
    simp at h1
    exact ⟨s, List.mem_of_find?_eq_some hf, h1, rfl⟩

theorem codeAt_of {j : Jit} (ok : j.Ok) {s : Sym} (hs : s ∈ j.syms) : j.codeAt s.addr = some s.code := by
  rw [Jit.codeAt]
  cases hf : j.syms.find? fun s' => s'.addr == s.addr with
  | none =>
    rw [List.find?_eq_none] at hf
    exact absurd (by simp) (hf s hs)
  | some s' =>
    have h1 := List.find?_some hf
    simp at h1
    rw [eq_of_addr ok (List.mem_of_find?_eq_some hf) hs h1]
    rfl

theorem Jit.Ok.filter {j : Jit} (ok : j.Ok) (p : Sym → Bool) : Jit.Ok { j with syms := j.syms.filter p } where
  dylib s hs := ok.dylib s (List.mem_filter.mp hs).1
  tracker s hs := ok.tracker s (List.mem_filter.mp hs).1
  addr s hs := ok.addr s (List.mem_filter.mp hs).1
  addrs := ok.addrs.sublist (List.filter_sublist.map _)

theorem Jit.Ok.add {j j' : Jit} (ok : j.Ok) {d t g : Nat} {fs : List (Name × Code)} (hd : d < j.nextDylib)
    (ht : t < j.nextTracker) (h : j.add d t g fs = some j') : j'.Ok := by
  obtain ⟨_, rfl⟩ := add_some h
  refine ⟨?_, ?_, ?_, ?_⟩
  · intro s hs
    rcases List.mem_append.mp hs with hs | hs
    · exact ok.dylib s hs
    · have := (mem_place hs).1; simp only; omega
  · intro s hs
    rcases List.mem_append.mp hs with hs | hs
    · exact ok.tracker s hs
    · have := (mem_place hs).2.1; simp only; omega
  · intro s hs
    rcases List.mem_append.mp hs with hs | hs
    · have := ok.addr s hs; simp only; omega
    · have := (mem_place hs).2.2.2.2.1; simp only; omega
  · show (List.map _ (_ ++ _)).Nodup
    rw [List.map_append, List.nodup_append]
    refine ⟨ok.addrs, place_addrs _ _ _ _ _, ?_⟩
    intro a ha b hb hab
    obtain ⟨s, hs, rfl⟩ := List.mem_map.mp ha
    obtain ⟨s', hs', rfl⟩ := List.mem_map.mp hb
    have h1 := ok.addr s hs
    have h2 := (mem_place hs').2.2.2.1
    omega

/-! ## Maps -/

theorem get_foldl_insert {i : Nat} (id : Nat) : ∀ (ks : List Nat) (m : AMap Nat Nat),
    (ks.foldl (fun m k => m.insert k i) m).get id = if id ∈ ks then some i else m.get id := by
  intro ks
  induction ks with
  | nil => intro m; rfl
  | cons k r ih =>
    intro m
    rw [List.foldl_cons, ih, AMap.get_insert]
    by_cases h1 : id ∈ r
    · simp [h1]
    · by_cases h2 : id = k <;> simp [h1, h2]

theorem nodup_foldl_insert {i : Nat} : ∀ (ks : List Nat) (m : AMap Nat Nat), m.Nodup →
    AMap.Nodup (ks.foldl (fun m k => m.insert k i) m) := by
  intro ks
  induction ks with
  | nil => intro m h; exact h
  | cons k r ih => intro m h; exact ih _ (AMap.nodup_insert h _ _)

theorem get_of_filter {α : Type} {m : AMap Nat α} (hn : m.Nodup) {p : Nat × α → Bool} {k : Nat} {v : α}
    (h : AMap.get (m.filter p) k = some v) : m.get k = some v ∧ p (k, v) = true := by
  have := AMap.mem_of_get h
  rw [List.mem_filter] at this
  exact ⟨AMap.get_of_mem hn this.1, this.2⟩

end Verif.Session
