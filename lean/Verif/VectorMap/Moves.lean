import Verif.VectorMap.Proofs
import Verif.Spec.MapMoves
import Mathlib.Tactic.Ring

/-! What the calls on a `VectorMap` move. -/

set_option autoImplicit false

namespace Verif
open Spec

variable {K V : Type} {lt eq : K → K → Bool} {R : RawAlloc (K × V)} {w : World (K × V)}
  {m : Mem (K × V)} {v : Vec} {xs : List (K × V)} {cap : Nat}

theorem bound_eq_lookup (k : K) (s : List (K × V)) : bound eq k s = (lookup eq s k).isSome := by
  cases h : lookup eq s k with
  | none =>
    have := lookup_none.1 h
    simp only [bound, Option.isSome_none, List.any_eq_false]
    intro p hp
    simp [this p hp]
  | some p =>
    cases hb : bound eq k s with
    | true => rfl
    | false =>
      simp only [bound, List.any_eq_false] at hb
      have : lookup eq s k = none := lookup_none.2 fun q hq => by simpa using hb q hq
      rw [this] at h; cases h

theorem bound_perm {s s' : List (K × V)} (h : s.Perm s') (k : K) : bound eq k s = bound eq k s' := by
  unfold bound
  rw [Bool.eq_iff_iff, List.any_eq_true, List.any_eq_true]
  exact ⟨fun ⟨p, h1, h2⟩ => ⟨p, h.mem_iff.1 h1, h2⟩, fun ⟨p, h1, h2⟩ => ⟨p, h.mem_iff.2 h1, h2⟩⟩

theorem greater_perm {s s' : List (K × V)} (h : s.Perm s') (k : K) :
    greater lt k s = greater lt k s' := (h.filter _).length_eq

theorem split_greater {xs : List (K × V)} {k : K} {c : Nat} (hc : c ≤ xs.length)
    (hlo : ∀ i p, i < c → xs[i]? = some p → lt k p.1 = false)
    (hhi : ∀ i p, c ≤ i → xs[i]? = some p → lt k p.1 = true) : greater lt k xs = xs.length - c := by
  have h1 := filter_length_of_split (xs := xs) (less := fun p => !lt k p.1) hc
    (fun i p hi hp => by simp [hlo i p hi hp]) (fun i p hi hp => by simp [hhi i p hi hp])
  have h2 := List.length_eq_length_filter_add (l := xs) (fun p => lt k p.1)
  unfold greater
  omega

theorem Split.greater_new (hw : StrictWeak lt) (hc : Consistent lt eq) {k : K} {r : Nat}
    (hs : Split lt xs k r) (hl : lookup eq xs k = none) : greater lt k xs = xs.length - r := by
  refine split_greater hs.le ?_ ?_
  · intro i p hi hp
    exact hw.asymm (hs.lo i p hi hp)
  · intro i p hi hp
    have h1 := hs.hi i p hi hp
    have h2 := lookup_none.1 hl p (List.mem_of_getElem? hp)
    cases h3 : lt k p.1 with
    | true => rfl
    | false => rw [(hc _ _).2 ⟨h1, h3⟩] at h2; cases h2

theorem Split.greater_old (hw : StrictWeak lt) (hc : Consistent lt eq) {k : K} {r : Nat} {q : K × V}
    (hs : Split lt xs k r) (huniq : ∀ i p, xs[i]? = some p → eq p.1 k = true → i = r)
    (hq : xs[r]? = some q) (hk : eq q.1 k = true) : greater lt k xs = xs.length - 1 - r := by
  have hr := (List.getElem?_eq_some_iff.1 hq).1
  rw [split_greater (c := r + 1) (by omega) ?_ ?_]
  · omega
  · intro i p hi hp
    rcases Nat.lt_or_eq_of_le (Nat.le_of_lt_succ hi) with h | rfl
    · exact hw.asymm (hs.lo i p h hp)
    · rw [hq] at hp; cases hp; exact ((hc _ _).1 hk).2
  · intro i p hi hp
    have h1 := hs.hi i p (by omega) hp
    cases h3 : lt k p.1 with
    | true => rfl
    | false =>
      have := huniq i p hp ((hc _ _).2 ⟨h1, h3⟩)
      omega

/-- The search, on a map with a known capacity. -/
theorem VInv.mapFind (hw : StrictWeak lt) (hc : Consistent lt eq)
    (h : VInv (fun _ => False) defaultFits w m v xs cap) (hs : WSorted lt xs) (hd : Distinct eq xs)
    (k : K) :
    ∃ r, Split lt xs k r ∧ (∀ i p, xs[i]? = some p → eq p.1 k = true → i = r) ∧
      VMap.find lt eq k v m = .ok (lookup eq xs k, r) ∧
      (∀ p, lookup eq xs k = some p → xs[r]? = some p ∧ eq p.1 k = true) := by
  obtain ⟨r, hsp, hf⟩ := MInv.find (eq := eq) hw ⟨cap, h⟩ hs k
  obtain ⟨hu, hl⟩ := lookup_split hw hc hs hd hsp
  rw [← hl] at hf
  refine ⟨r, hsp, hu, hf, ?_⟩
  intro p hp
  rw [hp] at hl
  split at hl
  · split at hl
    · cases hl; exact ⟨by assumption, by assumption⟩
    · cases hl
  · cases hl

/-- `insert`, with everything it does. -/
theorem VInv.mapInsert (hw : StrictWeak lt) (hc : Consistent lt eq)
    (h : VInv (fun _ => False) defaultFits w m v xs cap) (hs : WSorted lt xs) (hd : Distinct eq xs)
    (k : K) (x : V) :
    ∃ o v' m' ys, VMap.insert (defaultAllocator R) lt eq k x v m = .ok (o, v', m') ∧
      VInv (fun _ => False) defaultFits w m' v' ys
        (if bound eq k xs then cap else growCap xs.length cap) ∧
      WSorted lt ys ∧ Distinct eq ys ∧
      (if bound eq k xs then ys.map Prod.fst = xs.map Prod.fst else ys.Perm ((k, x) :: xs)) ∧
      m'.copied = m.copied + (MapOp.insert k x).moves lt eq xs cap ∧
      m'.allocs = m.allocs + (MapOp.insert k x).asks eq xs cap := by
  obtain ⟨r, hsp, hu, hf, hl⟩ := h.mapFind hw hc hs hd k
  have hb := bound_eq_lookup (eq := eq) k xs
  cases hlu : lookup eq xs k with
  | none =>
    rw [hlu] at hb hf
    simp only [Option.isSome_none] at hb
    obtain ⟨v1, m1, b1, blk1, he, hB, ef⟩ := h.insert (defaultAllocator_lawful R) (k, x) hsp.le
    rw [insertIdx_eq_take_drop _ _ _ hsp.le] at hB
    have hp := take_cons_drop_perm xs r (k, x)
    refine ⟨none, v1, m1, _, by simp [VMap.insert, hf, he], by simpa [hb] using hB.inv,
      hs.insertAt hw hsp x, ?_, by simpa [hb] using hp, ?_, ?_⟩
    · have := hd.step (hc.equiv hw) (.insert k x)
      simp only [MapOp.step, hlu] at this
      exact this.perm (hc.equiv hw) hp.symm
    · rw [ef.copied]
      simp [MapOp.moves, hb, hsp.greater_new hw hc hlu]
    · rw [ef.allocs]
      simp [MapOp.asks, hb]
  | some p =>
    rw [hlu] at hb hf
    simp only [Option.isSome_some] at hb
    obtain ⟨hp, hk⟩ := hl p hlu
    have hr := (List.getElem?_eq_some_iff.1 hp).1
    obtain ⟨b, blk, hB⟩ := h.own (by intro e; simp [e] at hr)
    obtain ⟨m', he, hB', ef⟩ := hB.setAt false (p.1, x) hr
    refine ⟨some p.2, v, m', _, by simp [VMap.insert, hf, he], by simpa [hb] using hB'.inv,
      hs.setAt hp x, ?_, ?_, ?_, ?_⟩
    · have := hd.step (hc.equiv hw) (.insert k x)
      simp only [MapOp.step, hlu] at this
      rwa [setVal_eq_set x hu hp hk] at this
    · simp only [hb, if_true]
      rw [List.map_set]
      apply List.ext_getElem?
      intro i
      rw [List.getElem?_set]
      by_cases hi : r = i
      · subst hi
        simp [hr, (List.getElem?_eq_some_iff.1 hp).2]
      · simp [hi]
    · rw [ef.copied]
      simp [MapOp.moves, hb]
    · rw [ef.allocs]
      simp [MapOp.asks, hb]

/-- What every call moves. -/
theorem VInv.mapStep_moves (hw : StrictWeak lt) (hc : Consistent lt eq) (nd : Bool) (op : MapOp K V)
    (h : VInv (fun _ => False) defaultFits w m v xs cap) (hs : WSorted lt xs) (hd : Distinct eq xs)
    {o : MapOut K V} {v' : Vec} {m' : Mem (K × V)}
    (he : VMap.step (defaultAllocator R) lt eq nd op v m = .ok (o, v', m')) :
    m'.copied = m.copied + op.moves lt eq xs cap ∧ m'.allocs = m.allocs + op.asks eq xs cap := by
  have hfind := fun k => h.mapFind hw hc hs hd k
  have hb := fun k => bound_eq_lookup (eq := eq) k xs
  cases op with
  | insert k x =>
    obtain ⟨o1, v1, m1, ys, e, _, _, _, _, hcp, hal⟩ := h.mapInsert (R := R) hw hc hs hd k x
    simp only [VMap.step, e, Exec.ok_bind, Except.ok.injEq, Prod.mk.injEq] at he
    obtain ⟨_, _, rfl⟩ := he
    exact ⟨hcp, hal⟩
  | remove k =>
    obtain ⟨r, hsp, hu, hf, hl⟩ := hfind k
    have hb := hb k
    cases hlu : lookup eq xs k with
    | none =>
      rw [hlu] at hf hb
      simp only [VMap.step, VMap.remove, VMap.removeEntry, hf, Exec.ok_bind, Except.ok.injEq,
        Prod.mk.injEq] at he
      obtain ⟨_, _, rfl⟩ := he
      simp only [Option.isSome_none] at hb
      simp [MapOp.moves, MapOp.asks, hb]
    | some p =>
      rw [hlu] at hf hb
      obtain ⟨hp, hk⟩ := hl p hlu
      have hr := (List.getElem?_eq_some_iff.1 hp).1
      obtain ⟨b, blk, hB⟩ := h.own (by intro e; simp [e] at hr)
      obtain ⟨v1, m1, blk', e, _, _, ef⟩ := hB.remove hr
      simp only [VMap.step, VMap.remove, VMap.removeEntry, hf, e, Exec.ok_bind, Except.ok.injEq,
        Prod.mk.injEq] at he
      obtain ⟨_, _, rfl⟩ := he
      simp only [Option.isSome_some] at hb
      rw [ef.copied, ef.allocs]
      simp [MapOp.moves, MapOp.asks, hb, hsp.greater_old hw hc hu hp hk]
  | removeEntry k =>
    obtain ⟨r, hsp, hu, hf, hl⟩ := hfind k
    have hb := hb k
    cases hlu : lookup eq xs k with
    | none =>
      rw [hlu] at hf hb
      simp only [VMap.step, VMap.removeEntry, hf, Exec.ok_bind, Except.ok.injEq,
        Prod.mk.injEq] at he
      obtain ⟨_, _, rfl⟩ := he
      simp only [Option.isSome_none] at hb
      simp [MapOp.moves, MapOp.asks, hb]
    | some p =>
      rw [hlu] at hf hb
      obtain ⟨hp, hk⟩ := hl p hlu
      have hr := (List.getElem?_eq_some_iff.1 hp).1
      obtain ⟨b, blk, hB⟩ := h.own (by intro e; simp [e] at hr)
      obtain ⟨v1, m1, blk', e, _, _, ef⟩ := hB.remove hr
      simp only [VMap.step, VMap.removeEntry, hf, e, Exec.ok_bind, Except.ok.injEq,
        Prod.mk.injEq] at he
      obtain ⟨_, _, rfl⟩ := he
      simp only [Option.isSome_some] at hb
      rw [ef.copied, ef.allocs]
      simp [MapOp.moves, MapOp.asks, hb, hsp.greater_old hw hc hu hp hk]
  | get k =>
    obtain ⟨r, _, _, hf, _⟩ := hfind k
    simp only [VMap.step, VMap.get, hf, Exec.ok_bind, Except.ok.injEq, Prod.mk.injEq] at he
    obtain ⟨_, _, rfl⟩ := he
    exact ⟨rfl, rfl⟩
  | contains k =>
    obtain ⟨r, _, _, hf, _⟩ := hfind k
    simp only [VMap.step, VMap.containsKey, VMap.get, hf, Exec.ok_bind, Except.ok.injEq,
      Prod.mk.injEq] at he
    obtain ⟨_, _, rfl⟩ := he
    exact ⟨rfl, rfl⟩
  | modify k f =>
    obtain ⟨r, hsp, hu, hf, hl⟩ := hfind k
    cases hlu : lookup eq xs k with
    | none =>
      rw [hlu] at hf
      simp only [VMap.step, VMap.modify, hf, Exec.ok_bind, Except.ok.injEq, Prod.mk.injEq] at he
      obtain ⟨_, _, rfl⟩ := he
      exact ⟨rfl, rfl⟩
    | some p =>
      rw [hlu] at hf
      obtain ⟨hp, hk⟩ := hl p hlu
      have hr := (List.getElem?_eq_some_iff.1 hp).1
      obtain ⟨b, blk, hB⟩ := h.own (by intro e; simp [e] at hr)
      obtain ⟨m1, e, _, ef⟩ := hB.setAt false (p.1, f p.2) hr
      simp only [VMap.step, VMap.modify, hf, e, Exec.ok_bind, Except.ok.injEq, Prod.mk.injEq] at he
      obtain ⟨_, _, rfl⟩ := he
      exact ⟨ef.copied, ef.allocs⟩
  | entry k f x =>
    obtain ⟨r, hsp, hu, hf, hl⟩ := hfind k
    have hb := hb k
    cases hlu : lookup eq xs k with
    | none =>
      rw [hlu] at hf hb
      simp only [Option.isSome_none] at hb
      obtain ⟨v1, m1, b1, blk1, e, hB, ef⟩ := h.insert (defaultAllocator_lawful R) (k, x) hsp.le
      simp only [VMap.step, VMap.entry, hf, e, Exec.ok_bind] at he
      cases hx : VMap.index r v1 m1 with
      | error e => rw [hx] at he; simp at he
      | ok q =>
        rw [hx] at he
        simp only [Exec.ok_bind, Except.ok.injEq, Prod.mk.injEq] at he
        obtain ⟨_, _, rfl⟩ := he
        rw [ef.copied, ef.allocs]
        simp [MapOp.moves, MapOp.asks, hb, hsp.greater_new hw hc hlu]
    | some p =>
      rw [hlu] at hf hb
      simp only [Option.isSome_some] at hb
      obtain ⟨hp, hk⟩ := hl p hlu
      have hr := (List.getElem?_eq_some_iff.1 hp).1
      obtain ⟨b, blk, hB⟩ := h.own (by intro e; simp [e] at hr)
      obtain ⟨m1, e, _, ef⟩ := hB.setAt false (p.1, f p.2) hr
      simp only [VMap.step, VMap.entry, hf, e, Exec.ok_bind] at he
      cases hx : VMap.index r v m1 with
      | error e => rw [hx] at he; simp at he
      | ok q =>
        rw [hx] at he
        simp only [Exec.ok_bind, Except.ok.injEq, Prod.mk.injEq] at he
        obtain ⟨_, _, rfl⟩ := he
        rw [ef.copied, ef.allocs]
        simp [MapOp.moves, MapOp.asks, hb]
  | entryKey k =>
    obtain ⟨r, _, _, hf, _⟩ := hfind k
    simp only [VMap.step, VMap.entryKey, hf, Exec.ok_bind] at he
    cases hlu : lookup eq xs k with
    | none =>
      simp only [hlu, Exec.ok_bind, Except.ok.injEq, Prod.mk.injEq] at he
      obtain ⟨_, _, rfl⟩ := he
      exact ⟨rfl, rfl⟩
    | some p =>
      simp only [hlu, Exec.ok_bind, Except.ok.injEq, Prod.mk.injEq] at he
      obtain ⟨_, _, rfl⟩ := he
      exact ⟨rfl, rfl⟩
  | len =>
    simp only [VMap.step, h.len, Exec.ok_bind, Except.ok.injEq, Prod.mk.injEq] at he
    obtain ⟨_, _, rfl⟩ := he
    exact ⟨rfl, rfl⟩
  | isEmpty =>
    simp only [VMap.step, h.isEmpty, Exec.ok_bind, Except.ok.injEq, Prod.mk.injEq] at he
    obtain ⟨_, _, rfl⟩ := he
    exact ⟨rfl, rfl⟩
  | clear =>
    obtain ⟨m1, e, _, _, _, _, ef⟩ := h.clear (defaultAllocator_lawful R) nd
    simp only [VMap.step, e, Exec.ok_bind, Except.ok.injEq, Prod.mk.injEq] at he
    obtain ⟨_, _, rfl⟩ := he
    exact ⟨ef.copied, ef.allocs⟩

theorem bound_keys {s s' : List (K × V)} (h : (s.map Prod.fst).Perm (s'.map Prod.fst)) (k : K) :
    bound eq k s = bound eq k s' := by
  have e : ∀ t : List (K × V), bound eq k t = (t.map Prod.fst).any fun a => eq a k := by
    intro t; simp [bound, Function.comp_def]
  rw [e, e, Bool.eq_iff_iff, List.any_eq_true, List.any_eq_true]
  exact ⟨fun ⟨p, h1, h2⟩ => ⟨p, h.mem_iff.1 h1, h2⟩, fun ⟨p, h1, h2⟩ => ⟨p, h.mem_iff.2 h1, h2⟩⟩

theorem greater_keys {s s' : List (K × V)} (h : (s.map Prod.fst).Perm (s'.map Prod.fst)) (k : K) :
    greater lt k s = greater lt k s' := by
  have e : ∀ t : List (K × V), greater lt k t = ((t.map Prod.fst).filter fun a => lt k a).length := by
    intro t; simp [greater, List.filter_map, Function.comp_def]
  rw [e, e]
  exact (h.filter _).length_eq

/-- Inserting when there is room for everything. -/
theorem insertAll_room (hw : StrictWeak lt) (hc : Consistent lt eq) (ps : List (K × V)) :
    ∀ {m : Mem (K × V)} {v : Vec} {xs seen : List (K × V)},
    VInv (fun _ => False) defaultFits w m v xs cap → WSorted lt xs → Distinct eq xs →
    (seen.map Prod.fst).Perm (xs.map Prod.fst) → xs.length + ps.length ≤ cap →
    ∃ v' m', VMap.insertAll (defaultAllocator R) lt eq ps v m = .ok (v', m') ∧
      m'.copied = m.copied + displaced lt eq seen ps ∧ m'.allocs = m.allocs := by
  induction ps with
  | nil => intro m v xs seen _ _ _ _ _; exact ⟨v, m, rfl, rfl, rfl⟩
  | cons p ps ih =>
    intro m v xs seen h hs hd hk hroom
    obtain ⟨o, v1, m1, ys, e, h1, hs1, hd1, hk1, hc1, ha1⟩ := h.mapInsert (R := R) hw hc hs hd p.1 p.2
    rw [List.length_cons] at hroom
    have hne : xs.length ≠ cap := by omega
    have hb := bound_keys (eq := eq) hk p.1
    have hg := greater_keys (lt := lt) hk p.1
    cases hbx : bound eq p.1 xs with
    | true =>
      simp only [hbx, if_true] at h1 hk1
      have hl : ys.length = xs.length := by simpa using congrArg List.length hk1
      obtain ⟨v2, m2, e2, c2, a2⟩ := ih h1 hs1 hd1 (seen := seen) (by rw [hk1]; exact hk) (by omega)
      refine ⟨v2, m2, by simp [VMap.insertAll, e, e2], ?_, ?_⟩
      · rw [c2, hc1]; simp [MapOp.moves, hbx, displaced, hb]
      · rw [a2, ha1]; simp [MapOp.asks, hbx]
    | false =>
      simp only [hbx, Bool.false_eq_true, if_false, growCap, hne] at h1 hk1
      have hl : ys.length = xs.length + 1 := by simpa using hk1.length_eq
      obtain ⟨v2, m2, e2, c2, a2⟩ := ih h1 hs1 hd1 (seen := p :: seen)
        (((hk.cons p.1)).trans (hk1.map Prod.fst).symm) (by omega)
      refine ⟨v2, m2, by simp [VMap.insertAll, e, e2], ?_, ?_⟩
      · rw [c2, hc1]; simp [MapOp.moves, hbx, displaced, hb, hne, hg]; omega
      · rw [a2, ha1]; simp [MapOp.asks, hbx, hne]

/-- What an array grown by doubling has cost: `g` moves and `a` blocks. -/
def Grown (len cap g a : Nat) : Prop :=
  (len = 0 ∧ cap = 0 ∧ g = 0 ∧ a = 0) ∨ (0 < a ∧ cap = 2 ^ (a - 1) ∧ g < cap ∧ cap < 2 * len)

theorem Grown.add {len cap g a : Nat} (h : Grown len cap g a) (hle : len ≤ cap) :
    Grown (len + 1) (growCap len cap) (g + if len = cap then len else 0)
      (a + if len = cap then 1 else 0) := by
  rcases h with ⟨rfl, rfl, rfl, rfl⟩ | ⟨ha, hc, hg, hl⟩
  · exact .inr (by simp [growCap, Vec.calculateGrowCapacity])
  · by_cases hf : len = cap
    · subst hf
      have h0 : len ≠ 0 := by omega
      refine .inr ⟨by omega, ?_, ?_, ?_⟩
      · simp only [growCap, if_true, Vec.calculateGrowCapacity, h0, if_false]
        obtain ⟨b, rfl⟩ : ∃ b, a = b + 1 := ⟨a - 1, by omega⟩
        simp only [Nat.add_sub_cancel] at hc ⊢
        rw [Nat.pow_succ, ← hc]
      · simp only [growCap, if_true, Vec.calculateGrowCapacity, h0, if_false]; omega
      · simp only [growCap, if_true, Vec.calculateGrowCapacity, h0, if_false]; omega
    · exact .inr ⟨by omega, by simp only [growCap, hf, if_false]; exact hc,
        by simp [growCap, hf]; omega,
        by simp [growCap, hf]; omega⟩

/-- Inserting into an array that grows. -/
theorem insertAll_grown (hw : StrictWeak lt) (hc : Consistent lt eq) (ps : List (K × V)) :
    ∀ {m : Mem (K × V)} {v : Vec} {xs seen : List (K × V)} {cap g a : Nat},
    VInv (fun _ => False) defaultFits w m v xs cap → WSorted lt xs → Distinct eq xs →
    (seen.map Prod.fst).Perm (xs.map Prod.fst) → Grown xs.length cap g a →
    ∃ v' m' ys cap' g' a', VMap.insertAll (defaultAllocator R) lt eq ps v m = .ok (v', m') ∧
      VInv (fun _ => False) defaultFits w m' v' ys cap' ∧ Grown ys.length cap' g' a' ∧
      m'.copied + g = m.copied + displaced lt eq seen ps + g' ∧ m'.allocs + a = m.allocs + a' := by
  induction ps with
  | nil => intro m v xs seen cap g a h _ _ _ hg; exact ⟨v, m, xs, cap, g, a, rfl, h, hg, rfl, rfl⟩
  | cons p ps ih =>
    intro m v xs seen cap g a h hs hd hk hG
    obtain ⟨o, v1, m1, ys, e, h1, hs1, hd1, hk1, hc1, ha1⟩ := h.mapInsert (R := R) hw hc hs hd p.1 p.2
    have hb := bound_keys (eq := eq) hk p.1
    have hg := greater_keys (lt := lt) hk p.1
    cases hbx : bound eq p.1 xs with
    | true =>
      simp only [hbx, if_true] at h1 hk1
      have hl : ys.length = xs.length := by simpa using congrArg List.length hk1
      obtain ⟨v2, m2, zs, cap2, g2, a2, e2, h2, G2, c2, l2⟩ :=
        ih h1 hs1 hd1 (seen := seen) (by rw [hk1]; exact hk) (by rw [hl]; exact hG)
      refine ⟨v2, m2, zs, cap2, g2, a2, by simp [VMap.insertAll, e, e2], h2, G2, ?_, ?_⟩
      · rw [c2, hc1]; simp [MapOp.moves, hbx, displaced, hb]
      · rw [l2, ha1]; simp [MapOp.asks, hbx]
    | false =>
      simp only [hbx, Bool.false_eq_true, if_false] at h1 hk1
      have hl : ys.length = xs.length + 1 := by simpa using hk1.length_eq
      obtain ⟨v2, m2, zs, cap2, g2, a2, e2, h2, G2, c2, l2⟩ := ih h1 hs1 hd1 (seen := p :: seen)
        (((hk.cons p.1)).trans (hk1.map Prod.fst).symm) (by rw [hl]; exact hG.add h.len_le)
      refine ⟨v2, m2, zs, cap2, g2, a2, by simp [VMap.insertAll, e, e2], h2, G2, ?_, ?_⟩
      · simp only [MapOp.moves, hbx, Bool.false_eq_true, if_false] at hc1
        simp only [displaced, hb, hbx, Bool.false_eq_true, if_false, hg]
        omega
      · simp only [MapOp.asks, hbx, true_and] at ha1
        omega

/-- Keys given in increasing order displace nothing. -/
theorem displaced_increasing (hw : StrictWeak lt) (ps : List (K × V)) :
    ∀ {seen : List (K × V)}, Increasing lt ps → (∀ p ∈ seen, ∀ q ∈ ps, lt p.1 q.1 = true) →
    displaced lt eq seen ps = 0 := by
  induction ps with
  | nil => intro seen _ _; rfl
  | cons p ps ih =>
    intro seen h hseen
    obtain ⟨h1, h2⟩ := List.pairwise_cons.1 h
    have hg : greater lt p.1 seen = 0 := by
      simp only [greater, List.length_eq_zero_iff, List.filter_eq_nil_iff]
      intro q hq
      simp [hw.asymm (hseen q hq p (by simp))]
    have hr1 := ih (seen := seen) h2 fun q hq r hr => hseen q hq r (by simp [hr])
    have hr2 := ih (seen := p :: seen) h2 fun q hq r hr => by
      rcases List.mem_cons.1 hq with rfl | hq
      · exact h1 r hr
      · exact hseen q hq r (by simp [hr])
    simp only [displaced, hr1, hr2, hg]
    split <;> rfl

/-- Keys given in decreasing order displace all before them. -/
theorem displaced_decreasing (hw : StrictWeak lt) (hc : Consistent lt eq) (ps : List (K × V)) :
    ∀ {seen : List (K × V)}, (ps.Pairwise fun p q => lt q.1 p.1 = true) →
    (∀ p ∈ seen, ∀ q ∈ ps, lt q.1 p.1 = true) →
    2 * displaced lt eq seen ps = ps.length * (2 * seen.length + ps.length - 1) := by
  induction ps with
  | nil => intro seen _ _; simp [displaced]
  | cons p ps ih =>
    intro seen h hseen
    obtain ⟨h1, h2⟩ := List.pairwise_cons.1 h
    have hg : greater lt p.1 seen = seen.length := by
      simp only [greater]
      rw [List.filter_eq_self.2]
      intro q hq
      exact hseen q hq p (by simp)
    have hb : bound eq p.1 seen = false := by
      simp only [bound, List.any_eq_false]
      intro q hq he
      have := ((hc _ _).1 he).2
      rw [hseen q hq p (by simp)] at this
      cases this
    have hr := ih (seen := p :: seen) h2 fun q hq r hr => by
      rcases List.mem_cons.1 hq with rfl | hq
      · exact h1 r hr
      · exact hseen q hq r (by simp [hr])
    simp only [displaced, hb, Bool.false_eq_true, if_false, hg, Nat.mul_add, hr, List.length_cons]
    have e1 : 2 * seen.length + 2 * 1 + ps.length - 1 = 2 * seen.length + ps.length + 1 := by omega
    have e2 : 2 * seen.length + (ps.length + 1) - 1 = 2 * seen.length + ps.length := by omega
    rw [e1, e2]
    ring

end Verif
