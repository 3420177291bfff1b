import Verif.Machine.ModestMap
import Verif.Spec.MapLimits

/-! The capacity of a vector map, and exactly which histories cannot be had for lack of it. -/

set_option autoImplicit false

namespace Verif
open Spec

variable {K V : Type} {lt eq : K → K → Bool} {w : World (K × V)}

theorem capAfter_same {op : MapOp K V} {s : List (K × V)} {cap : Nat} (h : op ≠ .clear)
    (hl : (op.step eq s).2.length ≤ s.length) : op.capAfter eq s cap = cap := by
  unfold MapOp.capAfter
  cases op <;> first | exact absurd rfl h | exact if_neg (Nat.not_lt.2 hl)

theorem capAfter_adds {op : MapOp K V} {s : List (K × V)} {cap : Nat}
    (hl : (op.step eq s).2.length = s.length + 1) :
    op.capAfter eq s cap = if s.length < cap then cap else if cap = 0 then 1 else 2 * cap := by
  unfold MapOp.capAfter
  cases op with
  | clear => simp [MapOp.step] at hl
  | _ => exact if_pos (by omega)

/-- The capacity law of vector maps. -/
theorem mapStep_capacity (R : RawAlloc (K × V)) (hw : StrictWeak lt) (hc : Consistent lt eq)
    (nd : Bool) (op : MapOp K V) {v v' : Vec} {m m' : Mem (K × V)} {xs : List (K × V)} {cap : Nat}
    {o : MapOut K V} (hi : VInv (fun _ => False) defaultFits w m v xs cap) (hs : WSorted lt xs)
    (hdis : Distinct eq xs)
    (hstep : VMap.step (defaultAllocator R) lt eq nd op v m = .ok (o, v', m')) :
    v'.capacity = .ok (op.capAfter eq xs cap) := by
  have h : MInv w m v xs := ⟨cap, hi⟩
  have hfind := fun k => MInv.find (eq := eq) hw h hs k
  have hlk := fun {k : K} {r : Nat} (hsp : Split lt xs k r) => lookup_split hw hc hs hdis hsp
  have hset : ∀ {r : Nat} {p q : K × V} {k : K}, lookup eq xs k = some q →
      lookup eq xs k = (match xs[r]? with
        | some p => if eq p.1 k then some p else none
        | none => none) → r < xs.length := by
    intro r p q k h1 h2
    rw [h1] at h2
    split at h2
    · next hp => exact (List.getElem?_eq_some_iff.1 hp).1
    · cases h2
  have hsame : v' = v → op ≠ .clear → (op.step eq xs).2.length ≤ xs.length →
      v'.capacity = .ok (op.capAfter eq xs cap) := by
    rintro rfl h1 h2
    rw [capAfter_same h1 h2]
    exact hi.capacity
  have hins : ∀ {r : Nat} (p : K × V), r ≤ xs.length → ∃ v1 m1,
      v.insert (defaultAllocator R) r p m = .ok (v1, m1) ∧ v1.capacity =
        .ok (if xs.length < cap then cap else if cap = 0 then 1 else 2 * cap) := by
    intro r p hr
    obtain ⟨v1, m1, b', blk', he, hB, _⟩ := hi.insert (defaultAllocator_lawful R) p hr
    refine ⟨v1, m1, he, ?_⟩
    rw [hB.inv.capacity]
    refine congrArg Except.ok ?_
    have := hi.len_le
    unfold growCap Vec.calculateGrowCapacity
    split_ifs <;> omega
  cases op with
  | insert k x =>
    obtain ⟨r, hsp, hf⟩ := hfind k
    obtain ⟨hu, hl⟩ := hlk hsp
    rw [← hl] at hf
    cases hlu : lookup eq xs k with
    | none =>
      obtain ⟨v1, m1, h2, h3⟩ := hins (k, x) hsp.le
      simp only [VMap.step, VMap.insert, hf, hlu, Exec.ok_bind, h2] at hstep
      cases hstep
      rw [capAfter_adds (by simp [MapOp.step, hlu])]
      exact h3
    | some p =>
      obtain ⟨m2, he, _⟩ := h.setAt (hset (p := p) hlu hl) (p.1, x)
      simp only [VMap.step, VMap.insert, hf, hlu, Exec.ok_bind, he] at hstep
      cases hstep
      exact hsame rfl (by simp) (by simp [MapOp.step, hlu, setVal_length])
  | entry k f x =>
    obtain ⟨r, hsp, hf⟩ := hfind k
    obtain ⟨hu, hl⟩ := hlk hsp
    rw [← hl] at hf
    cases hlu : lookup eq xs k with
    | none =>
      obtain ⟨v1, m1, h2, h3⟩ := hins (k, x) hsp.le
      simp only [VMap.step, VMap.entry, hf, hlu, Exec.ok_bind, h2] at hstep
      rw [capAfter_adds (by simp [MapOp.step, hlu])]
      cases hq : VMap.index r v1 m1 with
      | error e => rw [hq] at hstep; cases hstep
      | ok q => rw [hq] at hstep; cases hstep; exact h3
    | some p =>
      obtain ⟨m2, he, _⟩ := h.setAt (hset (p := p) hlu hl) (p.1, f p.2)
      simp only [VMap.step, VMap.entry, hf, hlu, Exec.ok_bind, he] at hstep
      cases hq : VMap.index r v m2 with
      | error e => rw [hq] at hstep; cases hstep
      | ok q =>
        rw [hq] at hstep; cases hstep
        exact hsame rfl (by simp) (by simp [MapOp.step, hlu, setVal_length])
  | remove k =>
    have hle : ((MapOp.remove k : MapOp K V).step eq xs).2.length ≤ xs.length :=
      eraseKey_length_le eq k xs
    obtain ⟨r, hsp, hf⟩ := hfind k
    obtain ⟨hu, hl⟩ := hlk hsp
    rw [← hl] at hf
    cases hlu : lookup eq xs k with
    | none =>
      simp only [VMap.step, VMap.remove, VMap.removeEntry, hf, hlu, Exec.ok_bind] at hstep
      cases hstep
      exact hsame rfl (by simp) hle
    | some p =>
      have hlt := hset (p := p) hlu hl
      obtain ⟨b, blk, hB⟩ := hi.own (by intro e; simp [e] at hlt)
      obtain ⟨v1, m1, blk1, he, hB1, _⟩ := hB.remove hlt
      simp only [VMap.step, VMap.remove, VMap.removeEntry, hf, hlu, Exec.ok_bind, he] at hstep
      cases hstep
      rw [capAfter_same (by simp) hle]
      exact hB1.inv.capacity
  | removeEntry k =>
    have hle : ((MapOp.removeEntry k : MapOp K V).step eq xs).2.length ≤ xs.length :=
      eraseKey_length_le eq k xs
    obtain ⟨r, hsp, hf⟩ := hfind k
    obtain ⟨hu, hl⟩ := hlk hsp
    rw [← hl] at hf
    cases hlu : lookup eq xs k with
    | none =>
      simp only [VMap.step, VMap.removeEntry, hf, hlu, Exec.ok_bind] at hstep
      cases hstep
      exact hsame rfl (by simp) hle
    | some p =>
      have hlt := hset (p := p) hlu hl
      obtain ⟨b, blk, hB⟩ := hi.own (by intro e; simp [e] at hlt)
      obtain ⟨v1, m1, blk1, he, hB1, _⟩ := hB.remove hlt
      simp only [VMap.step, VMap.removeEntry, hf, hlu, Exec.ok_bind, he] at hstep
      cases hstep
      rw [capAfter_same (by simp) hle]
      exact hB1.inv.capacity
  | get k =>
    obtain ⟨r, hsp, hf⟩ := hfind k
    simp only [VMap.step, VMap.get, hf, Exec.ok_bind] at hstep
    cases hstep
    exact hsame rfl (by simp) (by simp [MapOp.step])
  | modify k f =>
    have hle : ((MapOp.modify k f : MapOp K V).step eq xs).2.length ≤ xs.length := by
      cases hlu : lookup eq xs k <;> simp [MapOp.step, hlu, setVal_length]
    simp only [VMap.step] at hstep
    cases hq : VMap.modify lt eq k f v m with
    | error e => rw [hq] at hstep; cases hstep
    | ok q => rw [hq] at hstep; cases hstep; exact hsame rfl (by simp) hle
  | contains k =>
    simp only [VMap.step] at hstep
    cases hq : VMap.containsKey lt eq k v m with
    | error e => rw [hq] at hstep; cases hstep
    | ok q => rw [hq] at hstep; cases hstep; exact hsame rfl (by simp) (by simp [MapOp.step])
  | entryKey k =>
    have hle : ((MapOp.entryKey k : MapOp K V).step eq xs).2.length ≤ xs.length := by
      cases hlu : lookup eq xs k <;> simp [MapOp.step, hlu]
    simp only [VMap.step] at hstep
    cases hq : VMap.entryKey lt eq k v m with
    | error e => rw [hq] at hstep; cases hstep
    | ok q => rw [hq] at hstep; cases hstep; exact hsame rfl (by simp) hle
  | len =>
    simp only [VMap.step, hi.len, Exec.ok_bind] at hstep
    cases hstep
    exact hsame rfl (by simp) (by simp [MapOp.step])
  | isEmpty =>
    simp only [VMap.step, hi.isEmpty, Exec.ok_bind] at hstep
    cases hstep
    exact hsame rfl (by simp) (by simp [MapOp.step])
  | clear =>
    obtain ⟨m2, he, _, _, _, hi2, _⟩ := hi.clear (defaultAllocator_lawful R) nd
    simp only [VMap.step, he, Exec.ok_bind] at hstep
    cases hstep
    exact hi2.capacity

/-- The capacities do not depend on the order of the entries. -/
theorem caps_perm (he : PartialEquiv eq) (ops : List (MapOp K V)) : ∀ {s t : List (K × V)} (cap : Nat),
    s.Perm t → Distinct eq s → MapOp.caps eq ops s cap = MapOp.caps eq ops t cap := by
  induction ops with
  | nil => intros; rfl
  | cons op ops ih =>
    intro s t cap hp hd
    obtain ⟨_, hp1⟩ := step_perm he hp hd op
    have hcap : op.capAfter eq s cap = op.capAfter eq t cap := by
      unfold MapOp.capAfter
      cases op <;> simp only [hp.length_eq, hp1.length_eq]
    simp only [MapOp.caps, hcap]
    rw [ih _ hp1 (hd.step he op)]

/-- The capacity after a history. -/
theorem mapRun_capacity (R : RawAlloc (K × V)) (hw : StrictWeak lt) (hc : Consistent lt eq)
    (nd : Bool) (ops : List (MapOp K V)) : ∀ {v v' : Vec} {m m' : Mem (K × V)} {xs : List (K × V)}
    {cap : Nat} {os : List (MapOut K V)}, VInv (fun _ => False) defaultFits w m v xs cap →
    WSorted lt xs → Distinct eq xs →
    VMap.run (defaultAllocator R) lt eq nd ops v m = .ok (os, v', m') →
    v'.capacity = .ok ((MapOp.caps eq ops xs cap).getLastD cap) := by
  have he := hc.equiv hw
  induction ops with
  | nil => intro v v' m m' xs cap os hi _ _ hr; cases hr; exact hi.capacity
  | cons op ops ih =>
    intro v v' m m' xs cap os hi hs hdis hr
    obtain ⟨v1, m1, ys, h6, ⟨c2, hi2⟩, hs2, hp2⟩ :=
      MInv.step (R := R) hw hc nd op ⟨cap, hi⟩ hs hdis
    have h7 := hi2.capacity.symm.trans (mapStep_capacity R hw hc nd op hi hs hdis h6)
    cases h7
    have hd2 := (hdis.step he op).perm he hp2.symm
    simp only [VMap.run, h6, Exec.ok_bind] at hr
    cases hx : VMap.run (defaultAllocator R) lt eq nd ops v1 m1 with
    | error e => rw [hx] at hr; cases hr
    | ok r =>
      rw [hx] at hr
      cases hr
      rw [ih hi2 hs2 hd2 hx, caps_perm he ops _ hp2 hd2, MapOp.caps, List.getLastD_cons]

section
variable {size align : Nat} (B : Build) (h : TypeLayout size align) (R : RawAlloc (K × V))
include h

/-- A history is had if its capacities exist, and otherwise panics. -/
theorem mapRunM_exact (hw : StrictWeak lt) (hc : Consistent lt eq) (nd : Bool)
    (ops : List (MapOp K V)) : ∀ {v : Vec} {m : Mem (K × V)} {xs : List (K × V)} {cap : Nat},
    VInv (fun _ => False) defaultFits w m v xs cap → WSorted lt xs → Distinct eq xs →
    Representable size align cap →
    ((∀ c ∈ MapOp.caps eq ops xs cap, Representable size align c) →
      VMap.runM B (byteAllocator B size align R.total) lt eq nd ops v m =
        VMap.run (defaultAllocator R) lt eq nd ops v m) ∧
    ((∃ c ∈ MapOp.caps eq ops xs cap, ¬ Representable size align c) →
      VMap.runM B (byteAllocator B size align R.total) lt eq nd ops v m = .error .panic) := by
  have he := hc.equiv hw
  obtain ⟨N, hN⟩ : ∃ N, N = (2 ^ 63 - align) / size := ⟨_, rfl⟩
  have hrep : ∀ c, Representable size align c ↔ c ≤ N := fun c => by
    rw [hN, Nat.le_div_iff_mul_le h.pos]; rfl
  induction ops with
  | nil => intros; exact ⟨fun _ => rfl, fun ⟨_, hm, _⟩ => by simp [MapOp.caps] at hm⟩
  | cons op ops ih =>
    intro v m xs cap hi hs hdis hcap
    obtain ⟨v1, m1, ys, h6, ⟨c2, hi2⟩, hs2, hp2⟩ :=
      MInv.step (R := R) hw hc nd op ⟨cap, hi⟩ hs hdis
    have h7 := hi2.capacity.symm.trans (mapStep_capacity R hw hc nd op hi hs hdis h6)
    cases h7
    have hd2 := (hdis.step he op).perm he hp2.symm
    simp only [VMap.runM, VMap.run, MapOp.caps]
    have hrest := caps_perm he ops (op.capAfter eq xs cap) hp2 hd2
    constructor
    · intro hall
      have hcap1 := hall _ (List.mem_cons_self ..)
      have agree := mapStepM_agree B (N := N) (h.rep_lt ((hrep N).2 (Nat.le_refl _)))
        (fun c h0 hcN m => byteAllocator_alloc B h R h0 ((hrep c).2 hcN) m)
        (fun c hcN p m => byteAllocator_dealloc B h R.total R ((hrep c).2 hcN) p m)
        hw hc nd op hi hs hdis ((hrep cap).1 hcap)
        (fun hl => by rw [← capAfter_adds (eq := eq) (op := op) hl]; exact (hrep _).1 hcap1)
      simp only [agree.1, h6, Exec.ok_bind]
      rw [(ih hi2 hs2 hd2 hcap1).1 (fun c hc => hall c (by rw [hrest] at hc; exact List.mem_cons_of_mem _ hc))]
    · rintro ⟨c, hm, hn⟩
      rcases mapStepM_either B h R hw hc nd op hi hs hdis hcap with h2 | ⟨h2, v3, m3, c3, h3, h4, h5⟩
      · rw [h2]; rfl
      · rw [h6] at h3
        cases h3
        have h7 := hi2.capacity.symm.trans h4
        cases h7
        rcases List.mem_cons.1 hm with rfl | hm
        · exact absurd h5 hn
        · simp only [h2, h6, Exec.ok_bind]
          rw [(ih hi2 hs2 hd2 h5).2 ⟨c, by rw [hrest]; exact hm, hn⟩]
          rfl

end

end Verif
