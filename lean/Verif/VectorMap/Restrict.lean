import Verif.VectorMap.Any

/-! A vector map whose comparator is an order only on some keys (such as floating-point numbers,
NaN excluded). -/

set_option autoImplicit false

namespace Verif
open Spec

variable {K V : Type}

/-- The order made total: keys outside `P` come last and are all equal. -/
noncomputable def extLt (P : K → Prop) (lt : K → K → Bool) (a b : K) : Bool :=
  open Classical in if P a then (if P b then lt a b else true) else false

/-- The equality that goes with `extLt`. -/
noncomputable def extEq (P : K → Prop) (eq : K → K → Bool) (a b : K) : Bool :=
  open Classical in if P a then (if P b then eq a b else false) else decide (¬ P b)

section
variable {P : K → Prop} {lt eq : K → K → Bool}

theorem extLt_strictWeak (hw : StrictWeakOn P lt) : StrictWeak (extLt P lt) := by
  refine ⟨fun a => ?_, fun a b c => ?_, fun a b c => ?_⟩
  · by_cases ha : P a
    · simp [extLt, ha, hw.irrefl a ha]
    · simp [extLt, ha]
  · by_cases ha : P a <;> by_cases hb : P b <;> by_cases hc : P c <;> simp [extLt, ha, hb, hc]
    exact hw.trans a b c ha hb hc
  · by_cases ha : P a <;> by_cases hb : P b <;> by_cases hc : P c <;> simp [extLt, ha, hb, hc]
    exact hw.incomp a b c ha hb hc

theorem extEq_consistent (hc : ConsistentOn P lt eq) : Consistent (extLt P lt) (extEq P eq) := by
  intro a b
  by_cases ha : P a <;> by_cases hb : P b <;> simp [extLt, extEq, ha, hb]
  simpa using hc a b ha hb

theorem lowerLoop_congr {α : Type} {xs : List α} {f g : α → Bool} (h : ∀ x ∈ xs, f x = g x) :
    ∀ (fuel size base : Nat), lowerLoop xs f fuel size base = lowerLoop xs g fuel size base := by
  intro fuel
  induction fuel with
  | zero => intros; rfl
  | succ fuel ih =>
    intro size base
    unfold lowerLoop
    split
    · cases hx : xs[base + size / 2]? with
      | none => simp [sliceAt, hx]
      | some x => simp [sliceAt, hx, ih, h x (List.mem_of_getElem? hx)]
    · rfl

theorem lowerBoundBy_congr {α : Type} {xs : List α} {f g : α → Bool} (h : ∀ x ∈ xs, f x = g x) :
    lowerBoundBy xs f = lowerBoundBy xs g := by
  unfold lowerBoundBy
  rw [lowerLoop_congr h]
  split
  · rfl
  · cases lowerLoop xs g xs.length xs.length 0 with
    | error => rfl
    | ok b =>
      cases hx : xs[b]? with
      | none => simp [sliceAt, hx]
      | some x => simp [sliceAt, hx, h x (List.mem_of_getElem? hx)]

variable {w : World (K × V)} {m : Mem (K × V)} {v : Vec} {xs : List (K × V)} {R : RawAlloc (K × V)}

theorem MInv.find_congr {lt' eq' : K → K → Bool} (h : MInv w m v xs) {k : K}
    (hl : ∀ p ∈ xs, lt p.1 k = lt' p.1 k) (he : ∀ p ∈ xs, eq p.1 k = eq' p.1 k) :
    VMap.find lt eq k v m = VMap.find lt' eq' k v m := by
  obtain ⟨cap, h⟩ := h
  simp only [VMap.find, VMap.lowerBound, h.slice, Exec.ok_bind, h.len]
  rw [lowerBoundBy_congr (f := fun p : K × V => lt p.1 k) (g := fun p : K × V => lt' p.1 k) hl]
  cases lowerBoundBy xs (fun p : K × V => lt' p.1 k) with
  | error => rfl
  | ok i =>
    simp only [Exec.ok_bind]
    split
    · cases hx : xs[i]? with
      | none => simp [VMap.index, h.slice, hx]
      | some x => simp [VMap.index, h.slice, hx, he x (List.mem_of_getElem? hx)]
    · rfl

theorem MInv.find_none (h : MInv w m v xs) {k : K} (he : ∀ p ∈ xs, eq p.1 k = false) :
    ∃ i, VMap.find lt eq k v m = .ok (none, i) := by
  obtain ⟨r, _, h1 | ⟨p, h1, h2, _⟩⟩ := h.find_any lt eq k
  · exact ⟨r, h1⟩
  · rw [he p (List.mem_of_getElem? h1)] at h2
    cases h2


theorem MInv.step_congr (h : MInv w m v xs) (hP : ∀ p ∈ xs, P p.1)
    (hno : ∀ a b, P a → ¬ P b → eq a b = false) (nd : Bool) (op : MapOp K V)
    (hop : ∀ k, op.stores = some k → P k) :
    VMap.step (defaultAllocator R) lt eq nd op v m =
      VMap.step (defaultAllocator R) (extLt P lt) (extEq P eq) nd op v m := by
  have hin : ∀ k, P k → VMap.find lt eq k v m = VMap.find (extLt P lt) (extEq P eq) k v m := by
    intro k hk
    exact h.find_congr (fun p hp => by simp [extLt, hP p hp, hk])
      (fun p hp => by simp [extEq, hP p hp, hk])
  have hout : ∀ k, ¬ P k → ∃ i j, VMap.find lt eq k v m = .ok (none, i) ∧
      VMap.find (extLt P lt) (extEq P eq) k v m = .ok (none, j) := by
    intro k hk
    obtain ⟨i, h1⟩ := h.find_none (lt := lt) (eq := eq) (k := k)
      (fun p hp => hno _ _ (hP p hp) hk)
    obtain ⟨j, h2⟩ := h.find_none (lt := extLt P lt) (eq := extEq P eq) (k := k)
      (fun p hp => by simp [extEq, hP p hp, hk])
    exact ⟨i, j, h1, h2⟩
  cases op with
  | insert k x => simp only [VMap.step, VMap.insert, hin k (hop k rfl)]
  | entry k f x => simp only [VMap.step, VMap.entry, hin k (hop k rfl)]
  | remove k | removeEntry k | get k | modify k | contains k | entryKey k =>
    by_cases hk : P k
    · simp only [VMap.step, VMap.remove, VMap.removeEntry, VMap.get, VMap.modify, VMap.containsKey,
        VMap.entryKey, hin k hk]
    · obtain ⟨i, j, h1, h2⟩ := hout k hk
      simp [VMap.step, VMap.remove, VMap.removeEntry, VMap.get, VMap.modify, VMap.containsKey,
        VMap.entryKey, h1, h2]
  | len | isEmpty | clear => rfl

theorem find?_congr_mem {α : Type} {f g : α → Bool} : ∀ {xs : List α}, (∀ x ∈ xs, f x = g x) →
    xs.find? f = xs.find? g := by
  intro xs
  induction xs with
  | nil => intro _; rfl
  | cons x xs ih =>
    intro h
    simp only [List.find?_cons, h x (by simp), ih fun y hy => h y (by simp [hy])]

theorem step_ext (hP : ∀ p ∈ xs, P p.1) (hno : ∀ a b, P a → ¬ P b → eq a b = false)
    (op : MapOp K V) (hop : ∀ k, op.stores = some k → P k) :
    op.step eq xs = op.step (extEq P eq) xs ∧ ∀ p ∈ (op.step eq xs).2, P p.1 := by
  have hk : ∀ k, ∀ p ∈ xs, eq p.1 k = extEq P eq p.1 k := by
    intro k p hp
    by_cases h : P k
    · simp [extEq, hP p hp, h]
    · simp [extEq, hP p hp, h, hno _ _ (hP p hp) h]
  have hl : ∀ k, lookup eq xs k = lookup (extEq P eq) xs k := fun k => by
    unfold lookup
    exact find?_congr_mem (hk k)
  have hs : ∀ k x, setVal eq k x xs = setVal (extEq P eq) k x xs := fun k x => by
    unfold setVal
    exact List.map_congr_left fun p hp => by rw [hk k p hp]
  have hr : ∀ k, eraseKey eq k xs = eraseKey (extEq P eq) k xs := fun k => by
    unfold eraseKey
    exact List.filter_congr fun p hp => by rw [hk k p hp]
  have hsP : ∀ k x, ∀ p ∈ setVal eq k x xs, P p.1 := by
    intro k x p hp
    obtain ⟨q, hq, rfl⟩ := List.mem_map.1 hp
    split
    · exact hP q hq
    · exact hP q hq
  have hrP : ∀ k, ∀ p ∈ eraseKey eq k xs, P p.1 := fun k p hp => hP p (List.mem_filter.1 hp).1
  have hcons : ∀ k x, P k → ∀ p ∈ (k, x) :: xs, P p.1 := by
    intro k x h p hp
    rcases List.mem_cons.1 hp with rfl | hp
    · exact h
    · exact hP p hp
  cases op with
  | insert k x =>
    simp only [MapOp.step, hl, hs]
    cases lookup (extEq P eq) xs k with
    | none => exact ⟨trivial, hcons k x (hop k rfl)⟩
    | some p => exact ⟨trivial, by simpa only [hs] using hsP k x⟩
  | entry k f x =>
    simp only [MapOp.step, hl, hs]
    cases lookup (extEq P eq) xs k with
    | none => exact ⟨trivial, hcons k x (hop k rfl)⟩
    | some p => exact ⟨trivial, by simpa only [hs] using hsP k (f p.2)⟩
  | modify k f =>
    simp only [MapOp.step, hl, hs]
    cases lookup (extEq P eq) xs k with
    | none => exact ⟨trivial, hP⟩
    | some p => exact ⟨trivial, by simpa only [hs] using hsP k (f p.2)⟩
  | remove k | removeEntry k =>
    simp only [MapOp.step, hl, hr]
    exact ⟨trivial, by simpa only [hr] using hrP k⟩
  | get k | contains k =>
    simp only [MapOp.step, hl]
    exact ⟨trivial, hP⟩
  | entryKey k =>
    simp only [MapOp.step, hl]
    cases lookup (extEq P eq) xs k with
    | none => exact ⟨trivial, hP⟩
    | some p => exact ⟨trivial, hP⟩
  | len | isEmpty => exact ⟨rfl, hP⟩
  | clear => exact ⟨rfl, by simp [MapOp.step]⟩

theorem run_ext (hno : ∀ a b, P a → ¬ P b → eq a b = false) (ops : List (MapOp K V))
    (hop : ∀ op ∈ ops, ∀ k, op.stores = some k → P k) :
    ∀ {xs : List (K × V)}, (∀ p ∈ xs, P p.1) →
      MapOp.run eq ops xs = MapOp.run (extEq P eq) ops xs ∧
        ∀ p ∈ (MapOp.run eq ops xs).2, P p.1 := by
  induction ops with
  | nil => intro xs h; exact ⟨rfl, h⟩
  | cons op ops ih =>
    intro xs h
    obtain ⟨h1, h2⟩ := step_ext h hno op (hop op (by simp))
    obtain ⟨h3, h4⟩ := ih (fun o ho => hop o (by simp [ho])) h2
    simp only [MapOp.run]
    rw [← h1]
    exact ⟨by rw [h3], h4⟩

theorem MInv.run_on (hw : StrictWeakOn P lt) (hc : ConsistentOn P lt eq)
    (hno : ∀ a b, P a → ¬ P b → eq a b = false) (nd : Bool) (ops : List (MapOp K V))
    (hop : ∀ op ∈ ops, ∀ k, op.stores = some k → P k) :
    ∀ {m : Mem (K × V)} {v : Vec} {xs : List (K × V)}, MInv w m v xs →
    WSorted (extLt P lt) xs → Distinct (extEq P eq) xs → (∀ p ∈ xs, P p.1) →
      VMap.run (defaultAllocator R) lt eq nd ops v m =
        VMap.run (defaultAllocator R) (extLt P lt) (extEq P eq) nd ops v m := by
  have hw' := extLt_strictWeak hw
  have hc' := extEq_consistent hc
  have he := hc'.equiv hw'
  induction ops with
  | nil => intros; rfl
  | cons op ops ih =>
    intro m v xs h hs hd hP
    have hop1 := hop op (by simp)
    obtain ⟨v1, m1, ys, he1, hi1, hs1, hp1⟩ := h.step (R := R) hw' hc' nd op hs hd
    have hd1 : Distinct (extEq P eq) ys := (hd.step he op).perm he hp1.symm
    obtain ⟨h1, h2⟩ := step_ext hP hno op hop1
    rw [← h1] at hp1
    have := ih (fun o ho => hop o (by simp [ho])) hi1 hs1 hd1 (fun p hp => h2 p (hp1.subset hp))
    simp only [VMap.run, h.step_congr (R := R) hP hno nd op hop1, he1, Exec.ok_bind, this]

end

end Verif
