import Verif.Nested.TextModel
import Verif.Nested.Proofs
import Verif.Props.TextBytes

/-! Programs that use containers of strings. -/

set_option autoImplicit false

namespace Verif
open Spec

theorem byteRun_onBytes : ∀ (ops : List StrOp) (bs : List UInt8), byteRun ops bs = StrOp.onBytes ops bs
  | [], _ => rfl
  | op :: ops, bs => by
    rcases byteStep_spec op bs with ⟨⟨o, bs1⟩, h1, h2⟩ | ⟨h1, h2⟩
    · simp only [byteRun, StrOp.onBytes, h1, h2, byteRun_onBytes ops bs1]
      cases StrOp.onBytes ops bs1 <;> rfl
    · simp only [byteRun, StrOp.onBytes, h1, h2]

variable {R : RawAlloc UInt8} {w : World UInt8}

/-- Calls on one of the strings. -/
theorem Pile.runStr (R : RawAlloc UInt8) (ops : List StrOp) {m : Mem UInt8} {v : Vec} {vs : List Vec}
    (h : Pile nullFits w m (v :: vs)) :
    match StrOp.onBytes ops (contents m v) with
    | .error e => Str.run (strAlloc R) ops v m = .error e
    | .ok (os, bs) => ∃ v' m', Str.run (strAlloc R) ops v m = .ok (os, v', m') ∧
        Pile nullFits w m' (v' :: vs) ∧ contents m' v' = bs ∧
        (∀ u ∈ vs, contents m' u = contents m u) := by
  obtain ⟨cap, hv⟩ := h.inv
  have hr := SInv.run (R := R) ops hv
  rw [byteRun_onBytes] at hr
  cases hs : StrOp.onBytes ops (contents m v) with
  | error e => rw [hs] at hr; exact hr
  | ok r =>
    obtain ⟨os, bs⟩ := r
    rw [hs] at hr
    obtain ⟨v', m', cap', e1, e2⟩ := hr
    obtain ⟨f1, f2, f3⟩ := h.update e2
    exact ⟨v', m', e1, f1, f2, f3⟩

section
variable {k : Kind} {ok : {α : Type} → k.Op α → Bool} {C : Outer k Vec}
  {Inv : Nat → C.σ → k.St Vec → Prop} {Done : C.σ → Prop}

theorem Outer.itemT_ok (K : KindLaw k ok) (L : OuterCalls C ok Inv) (R : RawAlloc UInt8)
    (i : TextItem k) (hi : i.Ok ok) {n : Nat} {s : C.σ} {st : k.St Vec} {m : Mem UInt8}
    (h : Inv (n + 1) s st) (hp : Pile nullFits w m (k.elems st)) :
    match i.step (k.mapSt (contents m) st) with
    | .error e => C.itemT (strAlloc R) i s m = .error e
    | .ok (o, bss) => ∃ s' st' m', C.itemT (strAlloc R) i s m = .ok (o, s', m') ∧ Inv n s' st' ∧
        Pile nullFits w m' (k.elems st') ∧ bss = k.mapSt (contents m') st' := by
  cases i with
  | call op =>
    have hb := Pile.runStr R ((k.arg op).getD []) hp.new
    have hc0 : contents m Vec.new = [] := rfl
    rw [hc0] at hb
    simp only [TextItem.step, Outer.itemT]
    cases hs : StrOp.onBytes ((k.arg op).getD []) [] with
    | error e => rw [hs] at hb; simp only at hb; simp [hb]
    | ok q =>
      obtain ⟨os, ys⟩ := q
      rw [hs] at hb
      obtain ⟨v, m1, e1, e2, e3, e4⟩ := hb
      simp only [e1, Exec.ok_bind]
      have hst : k.mapSt (contents m) st = k.mapSt (contents m1) st :=
        K.st_congr _ _ _ fun x hx => (e4 x hx).symm
      have hop : k.mapOp (fun _ => ys) op =
          k.mapOp (contents m1) (k.mapOp (fun _ => v) op) := by
        rw [K.map_map, e3]
      have hok : ok (k.mapOp (fun _ => v) op) = true := by rw [K.ok_map]; exact hi
      have hstep := L.step (k.mapOp (fun _ => v) op) hok h
      rw [hst, hop, K.step_map]
      generalize hop' : k.mapOp (fun _ => v) op = op' at *
      cases hk : k.step op' st with
      | error e =>
        rw [hk] at hstep
        simp only [Except.map]
        simp only at hstep
        simp [hstep]
      | ok q =>
        obtain ⟨r, st'⟩ := q
        rw [hk] at hstep
        obtain ⟨s', ds, f1, f2, f3, f4⟩ := hstep
        simp only [Except.map, f1, Exec.ok_bind, f3, List.drop_left]
        have harg : ((k.arg op').toList ++ k.elems st).Perm
            (if k.arg op = none then k.elems st else v :: k.elems st) := by
          rw [← hop', K.arg_map]
          cases k.arg op <;> simp
        have hpile : Pile nullFits w m1 (ds ++ (k.owned op' r ++ k.elems st')) := by
          have h1 : Pile nullFits w m1 ((k.arg op').toList ++ k.elems st) := by
            refine Pile.perm ?_ harg.symm
            by_cases ha : k.arg op = none
            · rw [if_pos ha]
              have hv : v = Vec.new := by
                rw [ha] at e1
                simp [Str.run] at e1
                exact e1.2.1.symm
              rw [hv] at e2
              exact e2.of_new
            · rw [if_neg ha]; exact e2
          refine h1.perm (f4.trans ?_)
          rw [List.append_assoc]
          rw [← List.append_assoc, ← List.append_assoc]
          exact List.perm_append_comm.append_right _
        obtain ⟨m2, g1, g2, g3, _⟩ := Pile.dropAll (nullTerm_lawful R) false ds hpile
        have hshown := K.shown op' st r st' hk
        have hread := g2.readAll (k.shows r) hshown
        obtain ⟨m3, g5, g6, g7, _⟩ := Pile.dropAll (nullTerm_lawful R) false (k.owned op' r) g2
        have hres : k.mapRes (contents m2) r = k.mapRes (contents m1) r :=
          K.res_congr _ _ _ fun x hx => g3 x (hshown x hx)
        have hst' : k.mapSt (contents m1) st' = k.mapSt (contents m3) st' :=
          K.st_congr _ _ _ fun x hx => by rw [g7 x hx, g3 x (by simp [hx])]
        have g1' : Verif.dropAll (strAlloc R) false ds m1 = .ok m2 := g1
        have g5' : Verif.dropAll (strAlloc R) false (k.owned op' r) m2 = .ok m3 := g5
        simp only [g1', hread, g5', Exec.ok_bind, hres]
        exact ⟨s', st', m3, rfl, f2, g6, hst'⟩
  | inside p ops =>
    have hg := L.get p h
    simp only [TextItem.step, K.get_map, Outer.itemT, hg, Exec.ok_bind]
    cases hv : k.get p st with
    | none =>
      simp only [Option.map_none]
      exact ⟨s, st, m, rfl, L.mono h, hp, rfl⟩
    | some v =>
      simp only [Option.map_some]
      obtain ⟨zs, z1, z2⟩ := K.set_perm p v v st hv
      have hr := Pile.runStr R ops (hp.perm z1)
      cases hs : StrOp.onBytes ops (contents m v) with
      | error e => rw [hs] at hr; simp only at hr; simp [hr]
      | ok q =>
        obtain ⟨os, ys⟩ := q
        rw [hs] at hr
        obtain ⟨v', m', e1, e2, e3, e4⟩ := hr
        obtain ⟨s', f1, f2, f3⟩ := L.put p v' v h hv
        obtain ⟨zs', y1, y2⟩ := K.set_perm p v' v st hv
        have hz : zs.Perm zs' := List.Perm.cons_inv (z1.symm.trans y1)
        simp only [e1, f1, Exec.ok_bind]
        have hst : k.set p ys (k.mapSt (contents m) st) =
            k.mapSt (contents m') (k.set p v' st) := by
          rw [K.set_map, ← e3]
          exact (K.set_congr _ _ p v' v st zs hv z1 e4).symm
        exact ⟨s', k.set p v' st, m', rfl, L.mono f2, e2.perm ((hz.cons v').trans y2.symm), hst⟩

theorem Outer.runT_ok (K : KindLaw k ok) (L : OuterCalls C ok Inv) (R : RawAlloc UInt8) :
    ∀ (is : List (TextItem k)), (∀ i ∈ is, i.Ok ok) →
    ∀ {n : Nat} {s : C.σ} {st : k.St Vec} {m : Mem UInt8}, is.length ≤ n → Inv n s st →
    Pile nullFits w m (k.elems st) →
    match TextItem.run is (k.mapSt (contents m) st) with
    | .error e => C.runT (strAlloc R) is s m = .error e
    | .ok (os, bss) => ∃ s' st' m', C.runT (strAlloc R) is s m = .ok (os, s', m') ∧
        (∃ n', Inv n' s' st') ∧ Pile nullFits w m' (k.elems st') ∧ bss = k.mapSt (contents m') st' := by
  intro is
  induction is with
  | nil =>
    intro _ n s st m _ h hp
    exact ⟨s, st, m, rfl, ⟨n, h⟩, hp, rfl⟩
  | cons i is ih =>
    intro hok n s st m hn h hp
    obtain ⟨n, rfl⟩ : ∃ j, n = j + 1 := ⟨n - 1, by simp at hn; omega⟩
    replace hn : is.length ≤ n := by simpa using hn
    have h1 := Outer.itemT_ok K L R i (hok i (by simp)) h hp
    simp only [TextItem.run, Outer.runT]
    cases hs : i.step (k.mapSt (contents m) st) with
    | error e => rw [hs] at h1; simp only at h1; simp [h1]
    | ok q =>
      obtain ⟨o, bss⟩ := q
      rw [hs] at h1
      obtain ⟨s1, st1, m1, e1, e2, e3, e4⟩ := h1
      have h2 := ih (fun j hj => hok j (by simp [hj])) hn e2 e3
      simp only [e1, Exec.ok_bind, e4]
      cases hs2 : TextItem.run is (k.mapSt (contents m1) st1) with
      | error e => rw [hs2] at h2; simp only at h2; simp [h2]
      | ok q =>
        obtain ⟨os, bss2⟩ := q
        rw [hs2] at h2
        obtain ⟨s2, st2, m2, f1, f2, f3, f4⟩ := h2
        simp only [f1, Exec.ok_bind]
        exact ⟨s2, st2, m2, rfl, f2, f3, f4⟩

/-- A program from the empty container to its end. -/
theorem Outer.wholeT_ok (K : KindLaw k ok) (L : OuterLaw C ok Inv Done)
    (hnil : ∀ {α β : Type} (f : α → β), k.mapSt f k.nil = k.nil)
    (helems : ∀ {α : Type}, k.elems (k.nil (α := α)) = []) (R : RawAlloc UInt8) (is : List (TextItem k))
    (hok : ∀ i ∈ is, i.Ok ok) {n : Nat} (hn : is.length ≤ n) {s : C.σ} (m : Mem UInt8)
    (h : Inv n s k.nil) :
    match TextItem.run is (k.nil : k.St (List UInt8)) with
    | .error e => C.runT (strAlloc R) is s m = .error e
    | .ok (os, _) => ∃ s' m' s'' m'', C.runT (strAlloc R) is s m = .ok (os, s', m') ∧
        C.finish (strAlloc R) false s' m' = .ok (s'', m'') ∧ Done s'' ∧ m''.live = m.live := by
  have hp : Pile nullFits m.live m (k.elems (k.nil : k.St Vec)) := by
    rw [helems]; exact Pile.nil nullFits m
  have hr := Outer.runT_ok K L.toOuterCalls R is hok hn h hp
  rw [hnil] at hr
  cases hs : TextItem.run is (k.nil : k.St (List UInt8)) with
  | error e => rw [hs] at hr; exact hr
  | ok q =>
    obtain ⟨os, bss⟩ := q
    rw [hs] at hr
    obtain ⟨s', st', m', e1, ⟨n', e2⟩, e3, e4⟩ := hr
    obtain ⟨s'', m'', ds', f1, f2, f3, _⟩ := Outer.finish_ok L (nullTerm_lawful R) false e2 e3
    exact ⟨s', m', s'', m'', e1, f1, f2, f3⟩

end

end Verif
