import Verif.Machine.CollectExact
import Verif.Machine.Construct
import Verif.Props.Machine
import Verif.Props.MachineCollect
import Verif.Props.MachineModest

/-! What capacity a machine vector has, and when exactly collecting into one panics. -/

set_option autoImplicit false

namespace Verif
open Spec

variable {α : Type}

/-- C83, the capacity: after every history whose capacities can exist, in either build, the capacity of
the vector is the last one of the history. -/
theorem C83_machine_capacity (B : Build) {size align : Nat} (hT : TypeLayout size align)
    (R : RawAlloc α) (nd : Bool) (m0 : Mem α) (ops : List (SeqOp α))
    (hops : nd = true → ∀ op ∈ ops, op.isSlice = false)
    (hfit : ∀ c ∈ SeqOp.caps ops [] 0, Representable size align c) {outs : List (Out α)} {v : Vec}
    {m : Mem α} (hrun : Vec.runM B (byteAllocator B size align R.total) nd ops Vec.new m0 =
      .ok (outs, v, m)) :
    v.capacity = .ok ((SeqOp.caps ops [] 0).getLastD 0) := by
  obtain ⟨heq, _⟩ := runM_agree B (P := Representable size align) (fun c hc => hT.rep_lt hc)
    (fun c h0 hc m => byteAllocator_alloc B hT R h0 hc m)
    (fun c hc p m => byteAllocator_dealloc B hT R.total R hc p m) (defaultAllocator_lawful R) nd ops
    hops (VInv.new defaultFits m0) (by simp [Representable]) hfit
  rw [heq] at hrun
  exact run_capacity (defaultAllocator_lawful R) nd ops hops (VInv.new defaultFits m0) hrun

/-- C149, exactly. Let `hint` elements be announced (in a release build fewer than 2^64 bytes of them)
and let `items` come. The announced room, or room for one element if none was announced, is doubled `k`
times, where `k` is the least number for which the elements fit. If a vector with so much room can
exist, collecting succeeds, gives the elements in order and has that capacity; if it cannot, collecting
panics. Missing: larger announcements in release builds, for which it is false
(`C149_release_collect_ub`). -/
theorem C149_exact_collect_partial (B : Build) {size align : Nat} (hT : TypeLayout size align)
    (R : RawAlloc α) (m0 : Mem α) (hint : Nat) (items : List α) (k : Nat)
    (hne : 0 < hint + items.length) (hk : items.length ≤ max 1 hint * 2 ^ k)
    (hleast : ∀ j < k, max 1 hint * 2 ^ j < items.length)
    (hhint : B = .release → hint * size < 2 ^ 64) :
    (Representable size align (max 1 hint * 2 ^ k) → ∃ v m,
      Vec.fromIterM B (byteAllocator B size align R.total) hint items m0 = .ok (v, m) ∧
        v.asSlice m = .ok items ∧ v.capacity = .ok (max 1 hint * 2 ^ k)) ∧
    (¬ Representable size align (max 1 hint * 2 ^ k) →
      Vec.fromIterM B (byteAllocator B size align R.total) hint items m0 = .error .panic) := by
  obtain ⟨h1, h2⟩ := collect_caps_exact hint items k hne hk hleast
  constructor
  · intro hr
    have hfit : ∀ c ∈ SeqOp.caps (collectOps hint items) [] 0, Representable size align c :=
      fun c hc => Nat.le_trans (Nat.mul_le_mul_right _ (h1 c hc)) hr
    have h := C83_machine_vector B hT R false m0 (collectOps hint items) (by simp) hfit
    rw [collect_spec] at h
    obtain ⟨v, m, hrun, hs, _⟩ := h
    have hc := C83_machine_capacity B hT R false m0 _ (by simp) hfit hrun
    rw [h2] at hc
    rw [fromIterM_run] at hrun
    cases hf : Vec.fromIterM B (byteAllocator B size align R.total) hint items m0 with
    | error e => rw [hf] at hrun; cases hrun
    | ok r =>
      rw [hf] at hrun
      cases hrun
      exact ⟨_, _, rfl, hs, hc⟩
  · intro hn
    by_cases hr : Representable size align hint
    case neg =>
      simp only [Vec.fromIterM, withCapacityM_refuses B hT
        (fun _ hn hb m => byteAllocator_refuses B hT R.total hn hb m) hr hhint, Exec.error_bind]
    have hmem : max 1 hint * 2 ^ k ∈ SeqOp.caps (collectOps hint items) [] 0 := by
      rw [← h2]
      rcases List.eq_nil_or_concat (SeqOp.caps (collectOps hint items) [] 0) with h | ⟨ds, d, h⟩
      · simp [collectOps, SeqOp.caps, SeqOp.step] at h
      · rw [h]; simp
    have h := C84_modest_requests_partial B hT R false m0 (collectOps hint items) (by simp)
      (fun e op ho => by
        simp only [collectOps, List.mem_cons, List.mem_map] at ho
        rcases ho with rfl | ⟨x, _, rfl⟩
        · have ha := hT.align_pos
          unfold Representable at hr
          simp only [SeqOp.wanted]
          omega
        · simp [SeqOp.wanted]) ⟨_, hmem, hn⟩
    rw [fromIterM_run] at h
    cases hf : Vec.fromIterM B (byteAllocator B size align R.total) hint items m0 with
    | error e => rw [hf] at h; cases h; rfl
    | ok r => rw [hf] at h; cases h

/-- C149 for iterators that announce at least as many elements as come, such as those over slices and
vectors: as long as the announced elements have fewer than 2^63 bytes, which is so for every number of
elements that already exist somewhere, collecting never panics and reserves what was announced. -/
theorem C149_announced_collect_partial (B : Build) {size align : Nat} (hT : TypeLayout size align)
    (R : RawAlloc α) (m0 : Mem α) (hint : Nat) (items : List α) (hle : items.length ≤ hint)
    (hbytes : hint * size < 2 ^ 63) :
    ∃ v m, Vec.fromIterM B (byteAllocator B size align R.total) hint items m0 = .ok (v, m) ∧
      v.asSlice m = .ok items ∧ v.capacity = .ok hint := by
  by_cases h0 : hint = 0
  · subst h0
    obtain rfl : items = [] := List.length_eq_zero_iff.1 (by omega)
    exact ⟨Vec.new, m0, rfl, rfl, rfl⟩
  · have h1 : max 1 hint * 2 ^ 0 = hint := by simp; omega
    obtain ⟨h, _⟩ := C149_exact_collect_partial B hT R m0 hint items 0 (by omega) (by omega)
      (fun j hj => by omega) (fun _ => by omega)
    rw [h1] at h
    exact h (hT.rep_of_bytes hbytes)

/-- C84 for pushes. Pushing elements one after the other into a new vector, in either build, succeeds as
long as the least power of two that is at least their number is a capacity that can exist, and this is
then the capacity; otherwise it panics. -/
theorem C84_pushes (B : Build) {size align : Nat} (hT : TypeLayout size align) (R : RawAlloc α)
    (nd : Bool) (m0 : Mem α) (items : List α) (hne : items ≠ []) :
    (Representable size align (2 ^ Nat.clog 2 items.length) → ∃ outs v m,
      Vec.runM B (byteAllocator B size align R.total) nd (items.map .push) Vec.new m0 =
          .ok (outs, v, m) ∧
        v.asSlice m = .ok items ∧ v.capacity = .ok (2 ^ Nat.clog 2 items.length)) ∧
    (¬ Representable size align (2 ^ Nat.clog 2 items.length) →
      Vec.runM B (byteAllocator B size align R.total) nd (items.map .push) Vec.new m0 =
        .error .panic) := by
  have hpos := List.length_pos_of_ne_nil hne
  have hk : items.length ≤ 2 ^ Nat.clog 2 items.length := Nat.le_pow_clog (by decide) _
  have hj : ∀ j < Nat.clog 2 items.length, 2 ^ j < items.length := fun j h =>
    (Nat.lt_clog_iff_pow_lt (by decide)).1 h
  obtain ⟨h1, h2⟩ := C149_exact_collect_partial B hT R m0 0 items (Nat.clog 2 items.length) (by omega)
    (by simpa using hk) (by simpa using hj) (by simp)
  have h0 : Vec.fromIterM B (byteAllocator B size align R.total) 0 items m0 =
      Vec.pushAllM B (byteAllocator B size align R.total) Vec.new m0 items := by
    simp [Vec.fromIterM, Vec.withCapacityM, Vec.reserveM]
  rw [h0, show max 1 0 = 1 from rfl, Nat.one_mul] at h1 h2
  rw [pushAllM_run]
  constructor
  · intro hr
    obtain ⟨v, m, e, hs, hc⟩ := h1 hr
    exact ⟨_, v, m, by rw [e]; rfl, hs, hc⟩
  · intro hr
    rw [h2 hr]
    rfl

/-- Instance: 2^59 elements of eight bytes can be pushed, and not one more. -/
example (items : List Nat) (x : Nat) (h : items.length = 2 ^ 59) :
    (∃ outs v m, Vec.runM .release (byteAllocator .release 8 8 RawAlloc.bump.total) true
      (items.map .push) Vec.new Mem.empty = .ok (outs, v, m) ∧ v.asSlice m = .ok items) ∧
    Vec.runM .release (byteAllocator .release 8 8 RawAlloc.bump.total) true
      ((items ++ [x]).map .push) Vec.new Mem.empty = .error .panic := by
  have hT : TypeLayout 8 8 := ⟨by decide, ⟨3, by decide, by decide⟩, by decide, by decide⟩
  constructor
  · obtain ⟨outs, v, m, e, hs, _⟩ := (C84_pushes .release hT RawAlloc.bump true Mem.empty items
      (by rintro rfl; simp at h)).1 (by
        rw [h, Nat.clog_pow 2 59 (by decide)]
        unfold Representable
        decide)
    exact ⟨outs, v, m, e, hs⟩
  · refine (C84_pushes .release hT RawAlloc.bump true Mem.empty (items ++ [x]) (by simp)).2 ?_
    have h60 : 60 ≤ Nat.clog 2 (items ++ [x]).length := by
      have : 59 < Nat.clog 2 (items ++ [x]).length :=
        (Nat.lt_clog_iff_pow_lt (by decide)).2 (by simp [h])
      omega
    have := Nat.pow_le_pow_right (n := 2) (by decide) h60
    unfold Representable
    omega

/-- Instance: five elements, announced as none, two and three: capacities 8, 8 and 6. -/
example : ∀ p ∈ [(0, 8), (2, 8), (3, 6)], (do
    let (v, m) ← Vec.fromIterM .release (byteAllocator .release 8 8 RawAlloc.bump.total) p.1
      [1, 2, 3, 4, 5] (Mem.empty (α := Nat))
    let xs ← v.asSlice m
    let c ← v.capacity
    .ok (xs, c)) = (.ok ([1, 2, 3, 4, 5], p.2) : Exec _) := by decide +kernel

example : TypeLayout 8 8 ∧ 0 < 3 + [1, 2, 3, 4, 5].length ∧
    [1, 2, 3, 4, 5].length ≤ max 1 3 * 2 ^ 1 ∧ (∀ j < 1, max 1 3 * 2 ^ j < [1, 2, 3, 4, 5].length) ∧
    3 * 8 < 2 ^ 64 ∧ Representable 8 8 (max 1 3 * 2 ^ 1) :=
  ⟨⟨by decide, ⟨3, by decide, by decide⟩, by decide, by decide⟩, by decide, by decide, by decide,
    by decide, by unfold Representable; decide⟩

/-- Instance: announcing 2^59 elements of eight bytes and yielding one more is refused. -/
example (items : List Nat) (h : items.length = 2 ^ 59 + 1) :
    Vec.fromIterM .release (byteAllocator .release 8 8 RawAlloc.bump.total) (2 ^ 59) items
      (Mem.empty (α := Nat)) = .error .panic :=
  (C149_exact_collect_partial .release ⟨by decide, ⟨3, by decide, by decide⟩, by decide, by decide⟩
    RawAlloc.bump Mem.empty (2 ^ 59) items 1 (by omega) (by rw [h]; decide)
    (fun j hj => by
      obtain rfl : j = 0 := by omega
      rw [h]; decide) (fun _ => by decide)).2 (by unfold Representable; decide)

end Verif
