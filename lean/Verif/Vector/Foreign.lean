import Verif.Vector.Proofs

/-!
# C++ reading a vector that Rust wrote

`Vector` has the fields of EASTL's `VectorBase` (src/vector/mod.rs:18-31): `mpBegin`, `mpEnd`,
`mpCapacity`.  This is the loop of C++ code over a vector; it is not part of /repo.
-/

set_option autoImplicit false

namespace Verif

variable {α : Type}

/-- C++ `for (; p != mpEnd; ++p)`: the elements visited.  The first argument bounds the number of
rounds. -/
def Vec.cxxWalk (v : Vec) (m : Mem α) : Nat → Ptr → Exec (List α)
  | 0, _ => .error .ub
  | fuel + 1, p =>
    if p = v.endPtr then .ok []
    else do
      let x ← m.read p
      let p ← m.ptrAdd p 1
      let xs ← Vec.cxxWalk v m fuel p
      .ok (x :: xs)

/-- A whole C++ loop. -/
def Vec.cxxLoop (v : Vec) (fuel : Nat) (m : Mem α) : Exec (List α) := v.cxxWalk m fuel v.beginPtr

theorem VRep.cxxLoop {fits : Nat → Nat → Region → Nat → Prop} {w : World α} {m : Mem α} {v : Vec}
    {xs : List α} {cap fuel : Nat} (h : VRep fits w m v xs cap) (hf : xs.length < fuel) :
    v.cxxLoop fuel m = .ok xs := by
  rcases h with h | ⟨b, blk, h⟩
  · obtain ⟨f, rfl⟩ : ∃ f, fuel = f + 1 := ⟨fuel - 1, by omega⟩
    simp [Vec.cxxLoop, Vec.cxxWalk, h.ptrs, h.nil]
  · have hcl := h.cap_le
    have hll := h.len_le
    have key : ∀ (n i fuel : Nat), i + n = xs.length → n < fuel →
        v.cxxWalk m fuel (.loc b i) = .ok (xs.drop i) := by
      intro n
      induction n with
      | zero =>
        intro i fuel hi hf
        obtain ⟨f, rfl⟩ : ∃ f, fuel = f + 1 := ⟨fuel - 1, by omega⟩
        rw [Vec.cxxWalk, if_pos (by rw [h.ptrs]; simp; omega),
          List.drop_eq_nil_of_le (by omega)]
      | succ n ih =>
        intro i fuel hi hf
        obtain ⟨f, rfl⟩ : ∃ f, fuel = f + 1 := ⟨fuel - 1, by omega⟩
        have hlt : i < xs.length := by omega
        have hc := h.cells i hlt
        rw [List.getElem?_eq_getElem hlt] at hc
        rw [Vec.cxxWalk, if_neg (by rw [h.ptrs]; simp; omega),
          Mem.read_loc h.live_b (by omega) hc, Mem.ptrAdd_loc h.live_b (by omega)]
        simp only [Exec.ok_bind, ih (i + 1) f (by omega) (by omega)]
        rw [← List.drop_eq_getElem_cons hlt]
    have := key xs.length 0 fuel (by omega) hf
    simpa [Vec.cxxLoop, h.ptrs] using this

theorem VInv.cxxLoop {keeps : Nat → Prop} {fits : Nat → Nat → Region → Nat → Prop} {w : World α}
    {m : Mem α} {v : Vec} {xs : List α} {cap fuel : Nat} (h : VInv keeps fits w m v xs cap)
    (hf : xs.length < fuel) : v.cxxLoop fuel m = .ok xs :=
  h.exists_rep.choose_spec.cxxLoop hf

end Verif
