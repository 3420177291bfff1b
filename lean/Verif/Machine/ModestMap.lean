import Verif.Machine.Modest
import Verif.Machine.VectorMap

/-! A vector map either does what the model does or panics, in release builds too. -/

set_option autoImplicit false

namespace Verif
open Spec

variable {K V : Type}

theorem setVal_length (eq : K → K → Bool) (k : K) (x : V) (s : List (K × V)) :
    (setVal eq k x s).length = s.length := by
  simp [setVal]

theorem eraseKey_length_le (eq : K → K → Bool) (k : K) (s : List (K × V)) :
    (eraseKey eq k s).length ≤ s.length := by
  unfold eraseKey
  exact List.length_filter_le _ _

section
variable {size align : Nat} (B : Build) (h : TypeLayout size align) (R : RawAlloc (K × V))
  {lt eq : K → K → Bool} {w : World (K × V)}
include h

theorem insertM_refuses {v : Vec} {m : Mem (K × V)} {xs : List (K × V)} {cap : Nat}
    (hi : VInv (fun _ => False) defaultFits w m v xs cap) (hcap : Representable size align cap)
    {i : Nat} (hix : i ≤ xs.length) (p : K × V)
    (hn : ¬ Representable size align
      (if xs.length < cap then cap else if cap = 0 then 1 else 2 * cap)) :
    v.insertM B (byteAllocator B size align R.total) i p m = .error .panic := by
  have h1 := stepM_refuses B h (fun _ hn hb m => byteAllocator_refuses B h R.total hn hb m) false
    (.insert i p) hi hcap (o := .unit) (ys := xs.take i ++ p :: xs.drop i)
    (by simp [SeqOp.step, hix]) hn (fun _ => by simp [SeqOp.wanted])
  simp only [Vec.stepM] at h1
  cases h2 : v.insertM B (byteAllocator B size align R.total) i p m with
  | error e => rw [h2] at h1; cases h1; rfl
  | ok r => rw [h2] at h1; cases h1

/-- One call panics, or does what the model does and the capacity stays representable. -/
theorem mapStepM_either (hw : StrictWeak lt) (hc : Consistent lt eq) (nd : Bool) (op : MapOp K V)
    {v : Vec} {m : Mem (K × V)} {xs : List (K × V)} {cap : Nat}
    (hi : VInv (fun _ => False) defaultFits w m v xs cap) (hs : WSorted lt xs)
    (hdis : Distinct eq xs) (hcap : Representable size align cap) :
    VMap.stepM B (byteAllocator B size align R.total) lt eq nd op v m = .error .panic ∨
    (VMap.stepM B (byteAllocator B size align R.total) lt eq nd op v m =
        VMap.step (defaultAllocator R) lt eq nd op v m ∧
      ∃ v' m' c', VMap.step (defaultAllocator R) lt eq nd op v m =
        .ok ((op.step eq xs).1, v', m') ∧ v'.capacity = .ok c' ∧ Representable size align c') := by
  obtain ⟨N, hN⟩ : ∃ N, N = (2 ^ 63 - align) / size := ⟨_, rfl⟩
  have hrep : ∀ c, Representable size align c ↔ c ≤ N := fun c => by
    rw [hN, Nat.le_div_iff_mul_le h.pos]; rfl
  have agree := fun hlen => mapStepM_agree B (N := N) (h.rep_lt ((hrep N).2 (Nat.le_refl _)))
    (fun c h0 hcN m => byteAllocator_alloc B h R h0 ((hrep c).2 hcN) m)
    (fun c hcN p m => byteAllocator_dealloc B h R.total R ((hrep c).2 hcN) p m)
    hw hc nd op hi hs hdis ((hrep cap).1 hcap) hlen
  simp only [hrep] at hcap ⊢
  by_cases hg : (if xs.length < cap then cap else if cap = 0 then 1 else 2 * cap) ≤ N
  · exact .inr (agree fun _ => hg)
  have hfind := fun k => MInv.find (eq := eq) hw ⟨cap, hi⟩ hs k
  have hlk := fun {k : K} {r : Nat} (hsp : Split lt xs k r) => lookup_split hw hc hs hdis hsp
  have hfail : ∀ {i : Nat}, i ≤ xs.length → ∀ p : K × V,
      v.insertM B (byteAllocator B size align R.total) i p m = .error .panic :=
    fun hix p => insertM_refuses B h R hi ((hrep cap).2 hcap) hix p (fun hr => hg ((hrep _).1 hr))
  cases op with
  | insert k x =>
    cases hlu : lookup eq xs k with
    | none =>
      obtain ⟨r, hsp, hf⟩ := hfind k
      rw [← (hlk hsp).2] at hf
      left
      simp only [VMap.stepM, VMap.insertM, hf, hlu, Exec.ok_bind, hfail hsp.le, Exec.error_bind]
    | some p => exact .inr (agree fun hl => by simp [MapOp.step, hlu, setVal_length] at hl)
  | entry k f x =>
    cases hlu : lookup eq xs k with
    | none =>
      obtain ⟨r, hsp, hf⟩ := hfind k
      rw [← (hlk hsp).2] at hf
      left
      simp only [VMap.stepM, VMap.entryM, hf, hlu, Exec.ok_bind, hfail hsp.le, Exec.error_bind]
    | some p => exact .inr (agree fun hl => by simp [MapOp.step, hlu, setVal_length] at hl)
  | remove k =>
    exact .inr (agree fun hl => by
      have := eraseKey_length_le eq k xs
      simp only [MapOp.step] at hl
      omega)
  | removeEntry k =>
    exact .inr (agree fun hl => by
      have := eraseKey_length_le eq k xs
      simp only [MapOp.step] at hl
      omega)
  | modify k f =>
    cases hlu : lookup eq xs k with
    | none => exact .inr (agree fun hl => by simp [MapOp.step, hlu] at hl)
    | some p => exact .inr (agree fun hl => by simp [MapOp.step, hlu, setVal_length] at hl)
  | entryKey k =>
    cases hlu : lookup eq xs k with
    | none => exact .inr (agree fun hl => by simp [MapOp.step, hlu] at hl)
    | some p => exact .inr (agree fun hl => by simp [MapOp.step, hlu] at hl)
  | get k => exact .inr (agree fun hl => by simp [MapOp.step] at hl)
  | contains k => exact .inr (agree fun hl => by simp [MapOp.step] at hl)
  | len => exact .inr (agree fun hl => by simp [MapOp.step] at hl)
  | isEmpty => exact .inr (agree fun hl => by simp [MapOp.step] at hl)
  | clear => exact .inr (agree fun hl => by simp [MapOp.step] at hl)

/-- A history panics, or does what the model does and the capacity stays representable. -/
theorem mapRunM_either (hw : StrictWeak lt) (hc : Consistent lt eq) (nd : Bool)
    (ops : List (MapOp K V)) : ∀ {v : Vec} {m : Mem (K × V)} {xs : List (K × V)} {cap : Nat},
    VInv (fun _ => False) defaultFits w m v xs cap → WSorted lt xs → Distinct eq xs →
    Representable size align cap →
    VMap.runM B (byteAllocator B size align R.total) lt eq nd ops v m = .error .panic ∨
    (VMap.runM B (byteAllocator B size align R.total) lt eq nd ops v m =
        VMap.run (defaultAllocator R) lt eq nd ops v m ∧
      ∀ outs v' m', VMap.run (defaultAllocator R) lt eq nd ops v m = .ok (outs, v', m') →
        ∃ ys c, VInv (fun _ => False) defaultFits w m' v' ys c ∧ Representable size align c) := by
  have he := hc.equiv hw
  induction ops with
  | nil =>
    intro v m xs cap hi _ _ hcap
    refine .inr ⟨rfl, fun outs v' m' h => ?_⟩
    cases h
    exact ⟨xs, cap, hi, hcap⟩
  | cons op ops ih =>
    intro v m xs cap hi hs hdis hcap
    simp only [VMap.runM, VMap.run]
    rcases mapStepM_either B h R hw hc nd op hi hs hdis hcap with h2 | ⟨h2, v1, m1, c1, h3, h4, h5⟩
    · exact .inl (by rw [h2]; rfl)
    · obtain ⟨v2, m2, ys, h6, ⟨c2, hi2⟩, hs2, hp2⟩ :=
        MInv.step (R := R) hw hc nd op ⟨cap, hi⟩ hs hdis
      rw [h3] at h6
      cases h6
      have h7 := hi2.capacity.symm.trans h4
      cases h7
      simp only [h2, h3, Exec.ok_bind]
      rcases ih hi2 hs2 ((hdis.step he op).perm he hp2.symm) h5 with h8 | ⟨h8, h9⟩
      · exact .inl (by rw [h8]; rfl)
      · rw [h8]
        refine .inr ⟨rfl, fun outs v' m' h => ?_⟩
        cases hrun : VMap.run (defaultAllocator R) lt eq nd ops v1 m1 with
        | error e => simp [hrun, bind, Except.bind] at h
        | ok r =>
          obtain ⟨os, v3, m3⟩ := r
          simp only [hrun, Exec.ok_bind, pure, Except.pure] at h
          cases h
          exact h9 _ _ _ hrun

end

end Verif
