import Mathlib.Data.Nat.Log
import Verif.Machine.MapExact

/-! Bulk construction of vector maps with machine integers. -/

set_option autoImplicit false

namespace Verif
open Spec

variable {K V : Type}

namespace VMap

/-- The loop of inserts in `From<&[..]>`, `From<[..; N]>`, `FromIterator`
(src/vector_map/mod.rs:242-244, 262-264, 283-285). -/
def insertAllM (B : Build) (A : Allocator (K × V)) (lt eq : K → K → Bool) : List (K × V) → Vec →
    Mem (K × V) → Exec (Vec × Mem (K × V))
  | [], v, m => .ok (v, m)
  | p :: ps, v, m => do
    let (_, v, m) ← insertM B A lt eq p.1 p.2 v m
    insertAllM B A lt eq ps v m

/-- `From<&[(K, V)]>`, `From<[(K, V); N]>` and their variants (src/vector_map/mod.rs:237-275). -/
def fromPairsM (B : Build) (A : Allocator (K × V)) (lt eq : K → K → Bool) (ps : List (K × V))
    (m : Mem (K × V)) : Exec (Vec × Mem (K × V)) := do
  let (v, m) ← Vec.withCapacityM B A ps.length m
  insertAllM B A lt eq ps v m

/-- `FromIterator` (src/vector_map/mod.rs:277-289). -/
def fromIterM (B : Build) (A : Allocator (K × V)) (lt eq : K → K → Bool) (ps : List (K × V))
    (m : Mem (K × V)) : Exec (Vec × Mem (K × V)) :=
  insertAllM B A lt eq ps Vec.new m

end VMap

/-- The calls that a bulk construction makes. -/
def insertOps (ps : List (K × V)) : List (MapOp K V) := ps.map fun p => .insert p.1 p.2

theorem insertAllM_run (B : Build) (A : Allocator (K × V)) (lt eq : K → K → Bool) (nd : Bool)
    (ps : List (K × V)) : ∀ (v : Vec) (m : Mem (K × V)),
    (VMap.runM B A lt eq nd (insertOps ps) v m).map (fun r => r.2) =
      VMap.insertAllM B A lt eq ps v m := by
  induction ps with
  | nil => intros; rfl
  | cons p ps ih =>
    intro v m
    simp only [insertOps, List.map_cons, VMap.runM, VMap.stepM, VMap.insertAllM]
    cases hx : VMap.insertM B A lt eq p.1 p.2 v m with
    | error e => rfl
    | ok r =>
      simp only [Exec.ok_bind]
      rw [← ih r.2.1 r.2.2]
      simp only [insertOps]
      cases VMap.runM B A lt eq nd (ps.map fun p => .insert p.1 p.2) r.2.1 r.2.2 <;> rfl

theorem insertAll_run (A : Allocator (K × V)) (lt eq : K → K → Bool) (nd : Bool)
    (ps : List (K × V)) : ∀ (v : Vec) (m : Mem (K × V)),
    (VMap.run A lt eq nd (insertOps ps) v m).map (fun r => r.2) =
      VMap.insertAll A lt eq ps v m := by
  induction ps with
  | nil => intros; rfl
  | cons p ps ih =>
    intro v m
    simp only [insertOps, List.map_cons, VMap.run, VMap.step, VMap.insertAll]
    cases hx : VMap.insert A lt eq p.1 p.2 v m with
    | error e => rfl
    | ok r =>
      simp only [Exec.ok_bind]
      rw [← ih r.2.1 r.2.2]
      simp only [insertOps]
      cases VMap.run A lt eq nd (ps.map fun p => .insert p.1 p.2) r.2.1 r.2.2 <;> rfl

/-! ## Counting keys -/

/-- The keys of `ps` that are not in `s`, counted. -/
def newKeys (eq : K → K → Bool) (s : List (K × V)) : List (K × V) → Nat
  | [] => 0
  | p :: ps => newKeys eq s ps +
      if (ps.any fun q => eq q.1 p.1) || s.any fun q => eq q.1 p.1 then 0 else 1

theorem newKeys_nil (eq : K → K → Bool) (ps : List (K × V)) :
    newKeys eq [] ps = keyCount eq ps := by
  induction ps with
  | nil => rfl
  | cons p ps ih => simp only [newKeys, keyCount, ih, List.any_nil, Bool.or_false]

theorem newKeys_congr {eq : K → K → Bool} {s t : List (K × V)}
    (h : ∀ k, (s.any fun q => eq q.1 k) = t.any fun q => eq q.1 k) (ps : List (K × V)) :
    newKeys eq s ps = newKeys eq t ps := by
  induction ps with
  | nil => rfl
  | cons p ps ih => simp only [newKeys, ih, h]

theorem any_equiv {eq : K → K → Bool} (he : PartialEquiv eq) {a b : K} (h : eq a b = true)
    (s : List (K × V)) : (s.any fun q => eq q.1 a) = s.any fun q => eq q.1 b := by
  induction s with
  | nil => rfl
  | cons q s ih =>
    simp only [List.any_cons, ih]
    congr 1
    cases h1 : eq q.1 a <;> cases h2 : eq q.1 b <;> try rfl
    · rw [he.trans _ _ _ h2 (he.symm _ _ h)] at h1; cases h1
    · rw [he.trans _ _ _ h1 h] at h2; cases h2

theorem newKeys_cons {eq : K → K → Bool} (he : PartialEquiv eq) {s : List (K × V)} {p : K × V}
    (hp : (s.any fun q => eq q.1 p.1) = false) (ps : List (K × V)) :
    newKeys eq (p :: s) ps + (if ps.any fun q => eq q.1 p.1 then 1 else 0) = newKeys eq s ps := by
  induction ps with
  | nil => rfl
  | cons q qs ih =>
    cases hpq : eq p.1 q.1 with
    | true =>
      have h1 := any_equiv he hpq qs
      have h2 : (s.any fun r => eq r.1 q.1) = false := (any_equiv he hpq s).symm.trans hp
      simp only [newKeys, List.any_cons, hpq, he.symm _ _ hpq, ← h1, h2, Bool.or_true, Bool.or_false, Bool.true_or, if_true]
      cases hq : qs.any fun r => eq r.1 p.1 <;> simp [hq] at ih ⊢ <;> omega
    | false =>
      have : eq q.1 p.1 = false := by
        cases h : eq q.1 p.1 with
        | false => rfl
        | true => rw [he.symm _ _ h] at hpq; cases hpq
      simp only [newKeys, List.any_cons, hpq, this, Bool.false_or]
      omega

/-- The keys of a map are those it had and those that were new. -/
theorem insertOps_length {eq : K → K → Bool} (he : PartialEquiv eq) (ps : List (K × V)) :
    ∀ s : List (K × V),
    (MapOp.run eq (insertOps ps) s).2.length = s.length + newKeys eq s ps := by
  induction ps with
  | nil => intro s; rfl
  | cons p ps ih =>
    intro s
    have hr : (MapOp.run eq (insertOps (p :: ps)) s).2 =
      (MapOp.run eq (insertOps ps) ((MapOp.insert p.1 p.2 : MapOp K V).step eq s).2).2 := rfl
    rw [hr, ih]
    cases hl : lookup eq s p.1 with
    | none =>
      have hn : (s.any fun q => eq q.1 p.1) = false := by
        rw [List.any_eq_false]
        intro q hq
        rw [lookup_none.1 hl q hq]
        simp
      have h1 := newKeys_cons he (p := (p.1, p.2)) hn ps
      have h2 : ((MapOp.insert p.1 p.2 : MapOp K V).step eq s).2 = (p.1, p.2) :: s := by
        simp [MapOp.step, hl]
      rw [h2]
      simp only [List.length_cons, newKeys, hn, Bool.or_false]
      cases hq : ps.any fun q => eq q.1 p.1 <;>
        simp only [hq, if_true, Bool.false_eq_true, if_false] at h1 ⊢ <;> omega
    | some q =>
      have hn : (s.any fun q => eq q.1 p.1) = true := by
        have h2 := List.find?_some hl
        exact List.any_eq_true.2 ⟨q, List.mem_of_find?_eq_some hl, h2⟩
      have h3 : ∀ k, ((setVal eq p.1 p.2 s).any fun q => eq q.1 k) = s.any fun q => eq q.1 k := by
        intro k
        simp only [setVal, List.any_map]
        congr 1
        funext r
        simp only [Function.comp]
        split <;> rfl
      simp only [MapOp.step, hl, setVal_length, newKeys, hn, Bool.or_true, if_true,
        newKeys_congr h3, Nat.add_zero]

/-! ## Capacities -/

/-- Nothing is refused as long as the pairs fit into the room. -/
theorem insertOps_caps_room (eq : K → K → Bool) (cap : Nat) (ps : List (K × V)) :
    ∀ s : List (K × V), s.length + ps.length ≤ cap →
    ∀ c ∈ MapOp.caps eq (insertOps ps) s cap, c = cap := by
  induction ps with
  | nil => intro s _ c hc; simp [insertOps, MapOp.caps] at hc
  | cons p ps ih =>
    intro s hs c hc
    rw [List.length_cons] at hs
    have hlen : ((MapOp.insert p.1 p.2 : MapOp K V).step eq s).2.length ≤ s.length + 1 := by
      cases hl : lookup eq s p.1 <;> simp [MapOp.step, hl, setVal_length]
    have hcap : (MapOp.insert p.1 p.2 : MapOp K V).capAfter eq s cap = cap := by
      simp only [MapOp.capAfter]
      split_ifs <;> first | rfl | omega
    simp only [insertOps, List.map_cons, MapOp.caps, hcap] at hc
    rcases List.mem_cons.1 hc with rfl | hc
    · rfl
    · exact ih _ (by omega) c hc

/-- The least power of two that is at least `n`, but 0 for 0. -/
def roomFor (n : Nat) : Nat := if n = 0 then 0 else 2 ^ Nat.clog 2 n

theorem roomFor_succ (n : Nat) :
    (if n < roomFor n then roomFor n else if roomFor n = 0 then 1 else 2 * roomFor n) =
      roomFor (n + 1) := by
  unfold roomFor
  rcases Nat.eq_zero_or_pos n with rfl | h0
  · rfl
  have hle : n ≤ 2 ^ Nat.clog 2 n := Nat.le_pow_clog (by omega) n
  have hpos : 0 < 2 ^ Nat.clog 2 n := Nat.pow_pos (by omega)
  rw [if_neg (by omega : ¬ n = 0), if_neg (by omega : ¬ n + 1 = 0)]
  have hmono : Nat.clog 2 n ≤ Nat.clog 2 (n + 1) := Nat.clog_mono_right 2 (by omega)
  split_ifs with h1 h2
  · have : Nat.clog 2 (n + 1) ≤ Nat.clog 2 n := Nat.clog_le_of_le_pow h1
    rw [Nat.le_antisymm hmono this]
  · omega
  · have h3 : Nat.clog 2 (n + 1) ≤ Nat.clog 2 n + 1 := Nat.clog_le_of_le_pow (by
      rw [Nat.pow_succ]; omega)
    have h4 : ¬ Nat.clog 2 (n + 1) ≤ Nat.clog 2 n := fun h => by
      have := Nat.le_pow_clog (b := 2) (by omega) (n + 1)
      have := Nat.pow_le_pow_right (n := 2) (by omega) h
      omega
    rw [show Nat.clog 2 (n + 1) = Nat.clog 2 n + 1 by omega, Nat.pow_succ]
    omega

theorem roomFor_mono {a b : Nat} (h : a ≤ b) : roomFor a ≤ roomFor b := by
  unfold roomFor
  split_ifs
  · omega
  · exact Nat.zero_le _
  · omega
  · exact Nat.pow_le_pow_right (by omega) (Nat.clog_mono_right 2 h)

/-- Without room the largest capacity needed is that for all keys. -/
theorem insertOps_caps (eq : K → K → Bool) (ps : List (K × V)) :
    ∀ s : List (K × V),
    (∀ c ∈ MapOp.caps eq (insertOps ps) s (roomFor s.length),
      c ≤ roomFor (MapOp.run eq (insertOps ps) s).2.length) ∧
    (ps ≠ [] → roomFor (MapOp.run eq (insertOps ps) s).2.length ∈
      MapOp.caps eq (insertOps ps) s (roomFor s.length)) := by
  induction ps with
  | nil => intro s; simp [insertOps, MapOp.caps]
  | cons p ps ih =>
    intro s
    have hr : (MapOp.run eq (insertOps (p :: ps)) s).2 =
      (MapOp.run eq (insertOps ps) ((MapOp.insert p.1 p.2 : MapOp K V).step eq s).2).2 := rfl
    have hcap : (MapOp.insert p.1 p.2 : MapOp K V).capAfter eq s (roomFor s.length) =
        roomFor ((MapOp.insert p.1 p.2 : MapOp K V).step eq s).2.length := by
      cases hl : lookup eq s p.1 with
      | none =>
        rw [capAfter_adds (by simp [MapOp.step, hl]), roomFor_succ]
        simp [MapOp.step, hl]
      | some q =>
        rw [capAfter_same (by simp) (by simp [MapOp.step, hl, setVal_length])]
        simp [MapOp.step, hl, setVal_length]
    have hcs : MapOp.caps eq (insertOps (p :: ps)) s (roomFor s.length) =
        roomFor ((MapOp.insert p.1 p.2 : MapOp K V).step eq s).2.length ::
          MapOp.caps eq (insertOps ps) ((MapOp.insert p.1 p.2 : MapOp K V).step eq s).2
            (roomFor ((MapOp.insert p.1 p.2 : MapOp K V).step eq s).2.length) := by
      rw [← hcap]; rfl
    rw [hcs, hr]
    obtain ⟨h1, h2⟩ := ih ((MapOp.insert p.1 p.2 : MapOp K V).step eq s).2
    have hgrow : ∀ (qs t : List (K × V)), t.length ≤ (MapOp.run eq (insertOps qs) t).2.length := by
      intro qs
      induction qs with
      | nil => intro t; exact Nat.le_refl _
      | cons q qs ih2 =>
        intro t
        refine Nat.le_trans ?_ (ih2 ((MapOp.insert q.1 q.2 : MapOp K V).step eq t).2)
        cases hl : lookup eq t q.1 <;> simp [MapOp.step, hl, setVal_length]
    refine ⟨fun c hc => ?_, fun _ => ?_⟩
    · rcases List.mem_cons.1 hc with rfl | hc
      · exact roomFor_mono (hgrow ps _)
      · exact h1 c hc
    · cases ps with
      | nil => exact List.mem_cons_self ..
      | cons q qs => exact List.mem_cons_of_mem _ (h2 (by simp))

end Verif
