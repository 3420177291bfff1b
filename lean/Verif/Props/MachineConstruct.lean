import Verif.Machine.Construct
import Verif.Props.Machine
import Verif.Props.MachineText
import Verif.Props.Text
import Verif.Props.Vector

/-!
# Property C165: vectors and strings made from what already exists, on a 64-bit machine

`B` is the build mode; the system allocator never runs out of memory (`R.total`).
-/

set_option autoImplicit false

namespace Verif
open Spec

variable {α : Type}

/-- C165 for slices (`From<&[T]>`, `From<&mut [T]>`, `From<&[T; N]>`, `from_in`). Rust's slices have
fewer than 2^63 bytes; each of them is copied without a panic, in either build, into a vector with
exactly that capacity, which gives all its memory back when it is dropped. The elements have no
destructor; for the others see C07. -/
theorem C165_from_slice (B : Build) {size align : Nat} (hT : TypeLayout size align)
    (R : RawAlloc α) (m0 : Mem α) (buf : List α) (hbuf : buf.length * size < 2 ^ 63) :
    ∃ v m m', Vec.fromSliceM B (byteAllocator B size align R.total) false buf m0 = .ok (v, m) ∧
      v.asSlice m = .ok buf ∧ v.capacity = .ok buf.length ∧
      v.clear (byteAllocator B size align R.total) false m = .ok (Vec.new, m') ∧
      m'.live = m0.live := by
  have hr := hT.rep_of_bytes hbuf
  have hdl : ∀ c, Representable size align c → ∀ (p : Ptr) (m : Mem α),
      (byteAllocator B size align R.total).dealloc p c m = (defaultAllocator R).dealloc p c m :=
    fun c hc p m => byteAllocator_dealloc B hT R.total R hc p m
  have heq := fromSliceM_agree B (P := Representable size align) (fun c hc => hT.rep_lt hc)
    (fun c h0 hc m => byteAllocator_alloc B hT R h0 hc m) hdl (by simp [Representable]) false buf hr m0
  obtain ⟨v, m, he, hi, _⟩ :=
    (VInv.new defaultFits m0).assign (defaultAllocator_lawful R) false buf (by simp)
  obtain ⟨m', h1, h2, _⟩ := hi.freed R false
  have hcap : max 0 buf.length = buf.length := by omega
  rw [hcap] at hi
  exact ⟨v, m, m', heq.trans he, hi.slice, hi.capacity, (clear_agree hdl false hi hr).trans h1, h2⟩

/-- C165 for arrays (`From<[T; N]>`), whose elements are moved: dropping the vector also drops each of
them once. -/
theorem C165_from_array (B : Build) {size align : Nat} (hT : TypeLayout size align)
    (R : RawAlloc α) (nd : Bool) (m0 : Mem α) (buf : List α) (hbuf : buf.length * size < 2 ^ 63) :
    ∃ v m m', Vec.fromArrayM B (byteAllocator B size align R.total) buf m0 = .ok (v, m) ∧
      v.asSlice m = .ok buf ∧ v.capacity = .ok buf.length ∧
      v.clear (byteAllocator B size align R.total) nd m = .ok (Vec.new, m') ∧
      m'.live = m0.live ∧ m'.dropped = m0.dropped ++ if nd then buf else [] := by
  have hr := hT.rep_of_bytes hbuf
  have hdl : ∀ c, Representable size align c → ∀ (p : Ptr) (m : Mem α),
      (byteAllocator B size align R.total).dealloc p c m = (defaultAllocator R).dealloc p c m :=
    fun c hc p m => byteAllocator_dealloc B hT R.total R hc p m
  have h1 : Vec.withCapacityM B (byteAllocator B size align R.total) buf.length m0 =
      Vec.new.reserve (defaultAllocator R) buf.length m0 :=
    reserveM_agree B (P := Representable size align) (fun c hc => hT.rep_lt hc)
      (fun c h0 hc m => byteAllocator_alloc B hT R h0 hc m) hdl (len := 0) (cap := 0) rfl
      rfl (by simp [Representable]) (by rwa [Nat.zero_add])
  obtain ⟨v1, m1, he, hi, hef⟩ :=
    (VInv.new defaultFits m0).reserve_any (defaultAllocator_lawful R) buf.length
  rw [Nat.zero_add] at hi
  obtain ⟨v, m, cap, he2, hi2, hd, _, hc⟩ := hi.pushAll (defaultAllocator_lawful R) buf
  have hcap : cap = buf.length := hc (by simp)
  subst hcap
  rw [List.nil_append] at hi2
  obtain ⟨m', g1, g2, g3⟩ := hi2.freed R nd
  refine ⟨v, m, m', ?_, hi2.slice, hi2.capacity, (clear_agree hdl nd hi2 hr).trans g1, g2, ?_⟩
  · simp only [Vec.fromArrayM, h1, he, Exec.ok_bind]
    exact (pushAllM_room B (defaultAllocator_lawful R) buf hi (by simp)).trans he2
  · simp [g3, hd, hef.dropped]

/-- C165 for clones: every vector that was reached without asking for a capacity that cannot exist can
be cloned, without a panic and without further conditions. The clone has the same contents in storage
of exactly that size, and the original keeps its own. -/
theorem C165_clone (B : Build) {size align : Nat} (hT : TypeLayout size align) (R : RawAlloc α)
    (m0 : Mem α) (ops : List (SeqOp α))
    (hfit : ∀ c ∈ SeqOp.caps ops [] 0, Representable size align c)
    {outs : List (Out α)} {v : Vec} {m : Mem α} {xs : List α}
    (hrun : Vec.runM B (byteAllocator B size align R.total) false ops Vec.new m0 = .ok (outs, v, m))
    (hx : v.asSlice m = .ok xs) :
    ∃ c m', v.cloneM B (byteAllocator B size align R.total) false m = .ok (c, m') ∧
      c.asSlice m' = .ok xs ∧ v.asSlice m' = .ok xs ∧ c.capacity = .ok xs.length := by
  have hdl : ∀ c, Representable size align c → ∀ (p : Ptr) (m : Mem α),
      (byteAllocator B size align R.total).dealloc p c m = (defaultAllocator R).dealloc p c m :=
    fun c hc p m => byteAllocator_dealloc B hT R.total R hc p m
  have hal : ∀ c, 0 < c → Representable size align c → ∀ m : Mem α,
      (byteAllocator B size align R.total).alloc c m = (defaultAllocator R).alloc c m :=
    fun c h0 hc m => byteAllocator_alloc B hT R h0 hc m
  have hz : Representable size align 0 := by simp [Representable]
  obtain ⟨heq, hend⟩ := runM_agree B (P := Representable size align) (fun c hc => hT.rep_lt hc) hal hdl
    (defaultAllocator_lawful R) false ops (by simp) (VInv.new defaultFits m0) hz hfit
  rw [heq] at hrun
  obtain ⟨ys, cap, hi, hrep⟩ := hend _ _ _ hrun
  have h1 := hi.slice.symm.trans hx
  cases h1
  have hr : Representable size align xs.length :=
    Nat.le_trans (Nat.mul_le_mul_right _ hi.len_le) hrep
  obtain ⟨c, m', g1, g2⟩ := C09_clone R m0 ops hrun hx
  refine ⟨c, m', ?_, g2⟩
  rw [← g1]
  simp only [Vec.cloneM, Vec.clone, hx, Exec.ok_bind]
  exact fromSliceM_agree B (P := Representable size align) (fun c hc => hT.rep_lt hc) hal hdl hz false
    xs hr m

/-- C165 for texts (`From<&str>`, `FromStr`, `from_in`): a text of at most 2^63 - 3 bytes is copied and
terminated, in either build, and the string gives all memory back when it is dropped; a longer one (Rust's texts have fewer than 2^63 bytes, so there are two
such lengths) makes it panic. -/
theorem C165_from_str (B : Build) (R : RawAlloc UInt8) (m0 : Mem UInt8) (s : List Char)
    (hs : (utf8 s).length < 2 ^ 63) :
    ((utf8 s).length + 2 < 2 ^ 63 → ∃ v m m',
      Str.fromStrM B (strAllocM B R.total) (utf8 s) m0 = .ok (v, m) ∧ v.asSlice m = .ok (utf8 s) ∧
        m.read v.endPtr = .ok 0 ∧ v.capacity = .ok ((utf8 s).length + 1) ∧
        v.clear (strAllocM B R.total) false m = .ok (Vec.new, m') ∧ m'.live = m0.live) ∧
    (2 ^ 63 ≤ (utf8 s).length + 2 →
      Str.fromStrM B (strAllocM B R.total) (utf8 s) m0 = .error .panic) := by
  have hz : TextFits 0 := by unfold TextFits; omega
  constructor
  · intro hfit
    obtain ⟨v, m, h1, h2⟩ := C18_from_str_partial R m0 s
    have h := SInv.stepM_eq (R := R) B (.assign s) (VInv.new nullFits m0) hz
      (fun _ => by
        simp only [StrOp.capAfter, TextFits]
        omega)
    obtain ⟨o, v1, m1, bs, g1, hi, _⟩ :=
      SInv.step_caps (R := R) (.assign s) (VInv.new nullFits m0) rfl
    have h3 : Str.assign (nullTermAllocator (defaultAllocator R)) (utf8 s) Vec.new m0 = .ok (v, m) := h1
    simp only [Str.stepM, Str.step] at h g1
    rw [h3] at h g1
    cases g1
    simp only [StrOp.capAfter, Nat.zero_add] at hi
    have hrep : TextFits ((utf8 s).length + 1) := by unfold TextFits; omega
    obtain ⟨m', g2, _, hw, _⟩ := hi.clear (nullTerm_lawful R) false
    refine ⟨v, m, m', ?_, h2.1, h2.2, hi.capacity, (clear_agree (P := TextFits)
      (fun c hc p m => strAllocM_dealloc B R.total R hc p m) false hi hrep).trans g2,
      funext fun p => hw p id⟩
    unfold Str.fromStrM
    cases hf : Str.assignM B (strAllocM B R.total) (utf8 s) Vec.new m0 with
    | error e => rw [hf] at h; cases h
    | ok r => rw [hf] at h; cases h; rfl
  · intro hno
    have h := strRunM_refuses (R := R) (B := B) [.assign s] (VInv.new nullFits m0) hz
      (fun _ op ho => by
        simp only [List.mem_singleton] at ho
        subst ho
        exact hs)
      ⟨(utf8 s).length + 1, by simp [StrOp.caps, StrOp.panics, StrOp.capAfter], by
        unfold TextFits
        omega⟩
    unfold Str.fromStrM
    simp only [Str.runM, Str.stepM] at h
    cases hf : Str.assignM B (strAllocM B R.total) (utf8 s) Vec.new m0 with
    | error e => rw [hf] at h; cases h; rfl
    | ok r => rw [hf] at h; cases h

/-- C165 for clones of strings: every string that was reached without asking for a capacity that cannot
exist can be cloned without a panic; the clone has the same bytes in storage of its own for just these,
is terminated, and gives its memory back when it is dropped; the original stays as it was. -/
theorem C165_string_clone (B : Build) (R : RawAlloc UInt8) (m0 : Mem UInt8) (ops : List StrOp)
    (hfit : ∀ c ∈ StrOp.caps ops 0 0, TextFits c) {outs : List StrOut} {v : Vec} {m : Mem UInt8}
    (hrun : Str.runM B (strAllocM B R.total) ops Vec.new m0 = .ok (outs, v, m)) :
    ∃ bs c m' m'', v.asSlice m = .ok bs ∧ Str.cloneM B (strAllocM B R.total) v m = .ok (c, m') ∧
      c.asSlice m' = .ok bs ∧ (c.beginPtr = .null ∨ m'.read c.endPtr = .ok 0) ∧
      c.capacity = .ok bs.length ∧ v.asSlice m' = .ok bs ∧
      c.clear (strAllocM B R.total) false m' = .ok (Vec.new, m'') ∧ m''.live = m.live := by
  have hz : TextFits 0 := by unfold TextFits; omega
  obtain ⟨heq, hend⟩ := strRunM_ends (R := R) (B := B) ops (VInv.new nullFits m0) hz hfit
  rw [heq] at hrun
  obtain ⟨bs, cap, hi, hrep⟩ := hend _ _ _ hrun
  obtain ⟨bs', c, m', h1, h2, h3⟩ := C17_clone_terminated R m0 ops hrun
  have h4 := hi.slice.symm.trans h1
  cases h4
  have hle := hi.len_le
  have hlen : TextFits bs.length := by unfold TextFits at hrep ⊢; omega
  have h5 : Str.clone (strAlloc R) v m = Vec.new.assign (strAlloc R) false bs m := by
    simp [Str.clone, Vec.clone, h1, Vec.fromSlice]
  obtain ⟨c2, m2, g1, hi2, _⟩ := (VInv.new nullFits m).assign (nullTerm_lawful R) false bs (by simp)
  rw [h5] at h2
  have g3 := h2.symm.trans g1
  cases g3
  rw [Nat.zero_max] at hi2
  obtain ⟨m'', g4, _, hw, _⟩ := hi2.clear (nullTerm_lawful R) false
  have hold : v.asSlice m' = .ok bs := by
    obtain ⟨_, w1, _, hn | ⟨b, blk, ho⟩⟩ := hi
    · rw [hn.nil, hn.ptrs]; rfl
    · have hb := ho.live_b
      have hb' : m'.live b = some blk := by
        obtain ⟨_, w2, hw2, hn2 | ⟨b2, blk2, ho2⟩⟩ := hi2
        · rw [hn2.live, hw2 b id, hb]
        · have hne : b ≠ b2 := by
            rintro rfl
            have := ho2.fresh
            rw [hw2 b id, hb] at this
            cases this
          rw [ho2.live, Function.update_of_ne hne, hw2 b id, hb]
      have hr := Mem.readRange_loc hb' bs 0 (by have := ho.cap_le; have := ho.len_le; omega)
        (by intro i hi'; rw [Nat.zero_add]; exact ho.cells i hi')
      rw [ho.ptrs]
      simpa [Vec.asSlice, Vec.len, Ptr.offsetFrom] using hr
  refine ⟨bs, c, m', m'', h1, ?_, h3.1, h3.2, hi2.capacity, hold, (clear_agree (P := TextFits)
    (fun c hc p m => strAllocM_dealloc B R.total R hc p m) false hi2 hlen).trans g4,
    funext fun p => hw p id⟩
  rw [← h2, ← h5]
  simp only [Str.cloneM, Str.clone, Vec.cloneM, Vec.clone, h1, Exec.ok_bind]
  exact fromSliceM_agree B (P := TextFits) (fun c hc => by unfold TextFits at hc; omega)
    (fun c _ hc m => strAllocM_alloc B R hc m) (fun c hc p m => strAllocM_dealloc B R.total R hc p m)
    hz false bs hlen m

/-- Instance: three elements copied, moved and cloned in a release build, with the capacities. -/
example : (do
    let (v, m) ← Vec.fromSliceM .release (byteAllocator .release 8 8 RawAlloc.bump.total) false
      [1, 2, 3] (Mem.empty (α := Nat))
    let (a, m) ← Vec.fromArrayM .release (byteAllocator .release 8 8 RawAlloc.bump.total) [4, 5] m
    let (c, m) ← v.cloneM .release (byteAllocator .release 8 8 RawAlloc.bump.total) false m
    let xs ← c.asSlice m
    let ys ← a.asSlice m
    let k ← c.capacity
    .ok (xs, ys, k)) = (.ok ([1, 2, 3], [4, 5], 3) : Exec _) := by decide +kernel

example : TypeLayout 8 8 ∧ [1, 2, 3].length * 8 < 2 ^ 63 ∧
    ∀ c ∈ SeqOp.caps [.push 1, .push 2, .push 3] [] 0, Representable 8 8 c :=
  ⟨⟨by decide, ⟨3, by decide, by decide⟩, by decide, by decide⟩, by decide, by
    unfold Representable; decide⟩

/-- Instance: a text and its clone, in a debug build. -/
example : (do
    let (v, m) ← Str.fromStrM .debug (strAllocM .debug RawAlloc.bump.total) [104, 105] Mem.empty
    let (c, m) ← Str.cloneM .debug (strAllocM .debug RawAlloc.bump.total) v m
    let xs ← c.asSlice m
    let t ← m.read c.endPtr
    let k ← v.capacity
    .ok (xs, t, k)) = (.ok ([104, 105], 0, 3) : Exec _) := by decide +kernel

/-- Instance: the hypotheses of `C165_string_clone`, and both lengths that are refused. -/
example : (∀ c ∈ StrOp.caps [.assign ['h', 'i'], .push '!'] 0 0, TextFits c) ∧
    ∀ n : Nat, (n = 2 ^ 63 - 2 ∨ n = 2 ^ 63 - 1) ↔ n < 2 ^ 63 ∧ 2 ^ 63 ≤ n + 2 := by
  constructor
  · unfold TextFits; decide
  · intro n; omega

end Verif
