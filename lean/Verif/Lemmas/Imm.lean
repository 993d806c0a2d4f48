import Verif.Model.Parse
import Mathlib.Data.List.Nodup

namespace Verif

/-- No duplicates and every interned value is at least 2^31 (small values are inlined). -/
structure Interner.Ok (it : Interner) : Prop where
  nodup : it.Nodup
  big : ∀ v ∈ it, U256Imm.TAG ≤ v.toNat

theorem Interner.ok_nil : Interner.Ok [] := ⟨List.nodup_nil, by simp⟩

theorem idxOf?_some_get {l : List Word} {v : Word} {i : Nat} (h : l.idxOf? v = some i) :
    l[i]? = some v := by
  rw [List.idxOf?] at h
  rw [List.findIdx?_eq_some_iff_getElem] at h
  obtain ⟨hi, h1, _⟩ := h
  rw [List.getElem?_eq_getElem hi]
  simpa using h1

theorem Interner.intern_prefix (it : Interner) (v : Word) : it <+: (it.intern v).2 := by
  unfold Interner.intern
  split
  · exact List.prefix_refl _
  · exact List.prefix_append _ _

theorem Interner.intern_get (it : Interner) (v : Word) :
    (it.intern v).2[(it.intern v).1]? = some v := by
  unfold Interner.intern
  split
  · rename_i i h; exact idxOf?_some_get h
  · simp

theorem Interner.intern_ok {it : Interner} (h : it.Ok) {v : Word} (hv : U256Imm.TAG ≤ v.toNat) :
    (it.intern v).2.Ok := by
  unfold Interner.intern
  split
  · exact h
  · rename_i hn
    have hnm : v ∉ it := by
      have hn' : ∀ x ∈ it, ¬ x = v := by
        simpa [List.idxOf?, List.findIdx?_eq_none_iff] using hn
      exact fun hm => hn' v hm rfl
    refine ⟨?_, ?_⟩
    · rw [List.nodup_append]
      refine ⟨h.nodup, List.nodup_singleton v, ?_⟩
      intro a ha b hb
      simp only [List.mem_singleton] at hb
      rintro rfl; exact hnm (hb ▸ ha)
    · intro w hw
      rcases List.mem_append.1 hw with hw | hw
      · exact h.big w hw
      · simp only [List.mem_singleton] at hw; exact hw ▸ hv

theorem prefix_getElem? {l l' : List Word} (h : l <+: l') {i : Nat} {v : Word} (hi : l[i]? = some v) :
    l'[i]? = some v := by
  obtain ⟨t, rfl⟩ := h
  rw [List.getElem?_append_left]
  · exact hi
  · exact (List.getElem?_eq_some_iff.1 hi).1

theorem U256Imm.get_mono {h : U256Imm} {it it' : Interner} (hp : it <+: it') {v : Word}
    (hg : h.get it = some v) : h.get it' = some v := by
  unfold U256Imm.get at *
  split
  · rename_i hc; rwa [if_pos hc] at hg
  · rename_i hc; rw [if_neg hc] at hg; exact prefix_getElem? hp hg

theorem U256Imm.new_prefix (v : Word) (it : Interner) : it <+: (U256Imm.new v it).2 := by
  unfold U256Imm.new
  split
  · exact List.prefix_refl _
  · exact Interner.intern_prefix it v

theorem U256Imm.new_ok {it : Interner} (h : it.Ok) (v : Word) : (U256Imm.new v it).2.Ok := by
  unfold U256Imm.new
  split
  · exact h
  · exact Interner.intern_ok h (by omega)

theorem U256Imm.new_get (v : Word) (it : Interner)
    (hlen : (U256Imm.new v it).2.length ≤ U256Imm.TAG) :
    (U256Imm.new v it).1.get (U256Imm.new v it).2 = some v := by
  unfold U256Imm.new at *
  split
  · unfold U256Imm.get
    simp
  · rename_i hc
    simp only [if_neg hc] at hlen
    have hg := Interner.intern_get it v
    have hi := (List.getElem?_eq_some_iff.1 hg).1
    unfold U256Imm.get
    dsimp only
    rw [if_neg (by omega)]
    exact hg

/-- A handle is determined by the value it reads. -/
theorem U256Imm.get_inj {it : Interner} (hok : it.Ok) {a b : U256Imm} {v : Word}
    (ha : a.get it = some v) (hb : b.get it = some v)
    (hla : a.raw < 2 ^ 32) (hlb : b.raw < 2 ^ 32) : a = b := by
  obtain ⟨a⟩ := a; obtain ⟨b⟩ := b
  have T : U256Imm.TAG = 2 ^ 31 := rfl
  simp only [U256Imm.get] at *
  have small : ∀ x : Nat, x < 2 ^ 32 → (BitVec.ofNat 256 (x - U256Imm.TAG)).toNat = x - U256Imm.TAG := by
    intro x hx
    rw [BitVec.toNat_ofNat, Nat.mod_eq_of_lt]
    have : (2:Nat) ^ 32 ≤ 2 ^ 256 := by decide
    omega
  have mem_big : ∀ i, it.get i = some v → U256Imm.TAG ≤ v.toNat := by
    intro i hi; exact hok.big v (List.mem_of_getElem? hi)
  split at ha <;> split at hb
  · have h1 := congrArg BitVec.toNat (Option.some.inj ha)
    have h2 := congrArg BitVec.toNat (Option.some.inj hb)
    rw [small _ hla] at h1; rw [small _ hlb] at h2
    have e : a = b := by omega
    rw [e]
  · have h1 := congrArg BitVec.toNat (Option.some.inj ha)
    have h2 := mem_big _ hb
    rw [small _ hla] at h1; omega
  · have h1 := congrArg BitVec.toNat (Option.some.inj hb)
    have h2 := mem_big _ ha
    rw [small _ hlb] at h1; omega
  · congr 1
    have ea := List.getElem?_eq_some_iff.1 ha
    have eb := List.getElem?_eq_some_iff.1 hb
    obtain ⟨h1, e1⟩ := ea
    obtain ⟨h2, e2⟩ := eb
    exact (List.Nodup.getElem_inj_iff hok.nodup).1 (e1.trans e2.symm)

end Verif
