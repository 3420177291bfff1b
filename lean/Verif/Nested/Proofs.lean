import Verif.Nested.Pile

/-! Programs that use containers of vectors. -/

set_option autoImplicit false

namespace Verif
open Spec

variable {α : Type}

/-- What a kind of container must satisfy; `ok` are the calls considered. -/
structure KindLaw (k : Kind) (ok : {α : Type} → k.Op α → Bool) : Prop where
  ok_map : ∀ {α β : Type} (f : α → β) (op : k.Op α), ok (k.mapOp f op) = ok op
  map_map : ∀ {α β γ : Type} (f : α → β) (g : β → γ) (op : k.Op α),
    k.mapOp g (k.mapOp f op) = k.mapOp (fun x => g (f x)) op
  arg_map : ∀ {α β : Type} (f : α → β) (op : k.Op α), k.arg (k.mapOp f op) = (k.arg op).map f
  res_congr : ∀ {α β : Type} (f g : α → β) (r : k.Res α), (∀ x ∈ k.shows r, f x = g x) →
    k.mapRes f r = k.mapRes g r
  st_congr : ∀ {α β : Type} (f g : α → β) (st : k.St α), (∀ x ∈ k.elems st, f x = g x) →
    k.mapSt f st = k.mapSt g st
  step_map : ∀ {α β : Type} (f : α → β) (op : k.Op α) (st : k.St α),
    k.step (k.mapOp f op) (k.mapSt f st) =
      (k.step op st).map fun p => (k.mapRes f p.1, k.mapSt f p.2)
  shown : ∀ {α : Type} (op : k.Op α) (st : k.St α) (r : k.Res α) (st' : k.St α),
    k.step op st = .ok (r, st') → ∀ x ∈ k.shows r, x ∈ k.owned op r ++ k.elems st'
  get_map : ∀ {α β : Type} (f : α → β) (p : k.Pos) (st : k.St α),
    k.get p (k.mapSt f st) = (k.get p st).map f
  set_map : ∀ {α β : Type} (f : α → β) (p : k.Pos) (x : α) (st : k.St α),
    k.mapSt f (k.set p x st) = k.set p (f x) (k.mapSt f st)
  /-- replacing an element -/
  set_perm : ∀ {α : Type} (p : k.Pos) (x y : α) (st : k.St α), k.get p st = some y →
    ∃ zs, (k.elems st).Perm (y :: zs) ∧ (k.elems (k.set p x st)).Perm (x :: zs)
  /-- contents of what is not the element replaced -/
  set_congr : ∀ {α β : Type} (f g : α → β) (p : k.Pos) (x y : α) (st : k.St α) (zs : List α),
    k.get p st = some y → (k.elems st).Perm (y :: zs) → (∀ z ∈ zs, f z = g z) →
    k.set p (f x) (k.mapSt f st) = k.set p (f x) (k.mapSt g st)

/-- What the calls of a model of a container must satisfy.  `Inv n`: the invariant, with room for `n`
more calls. -/
structure OuterCalls {k : Kind} {H : Type} (C : Outer k H) (ok : {α : Type} → k.Op α → Bool)
    (Inv : Nat → C.σ → k.St H → Prop) : Prop where
  mono : ∀ {n : Nat} {s : C.σ} {st : k.St H}, Inv (n + 1) s st → Inv n s st
  step : ∀ {n : Nat} {s : C.σ} {st : k.St H} (op : k.Op H), ok op = true → Inv (n + 1) s st →
    match k.step op st with
    | .error e => C.step op s = .error e
    | .ok (r, st') => ∃ s' ds, C.step op s = .ok (r, s') ∧ Inv n s' st' ∧
        C.dropped s' = C.dropped s ++ ds ∧
        ((k.arg op).toList ++ k.elems st).Perm (k.owned op r ++ ds ++ k.elems st')
  get : ∀ {n : Nat} {s : C.σ} {st : k.St H} (p : k.Pos), Inv n s st → C.get p s = .ok (k.get p st)
  put : ∀ {n : Nat} {s : C.σ} {st : k.St H} (p : k.Pos) (x y : H), Inv n s st →
    k.get p st = some y → ∃ s', C.put p x s = .ok s' ∧ Inv n s' (k.set p x st) ∧ C.dropped s' = C.dropped s

/-- What a model of a container must satisfy, its end included. -/
structure OuterLaw {k : Kind} {H : Type} (C : Outer k H) (ok : {α : Type} → k.Op α → Bool)
    (Inv : Nat → C.σ → k.St H → Prop) (Done : C.σ → Prop) : Prop extends OuterCalls C ok Inv where
  drop : ∀ {n : Nat} {s : C.σ} {st : k.St H}, Inv n s st →
    ∃ s' ds, C.drop s = .ok s' ∧ C.dropped s' = C.dropped s ++ ds ∧ ds.Perm (k.elems st) ∧ Done s'

section
variable {k : Kind} {ok : {α : Type} → k.Op α → Bool} {C : Outer k Vec}
  {Inv : Nat → C.σ → k.St Vec → Prop} {Done : C.σ → Prop}
  {fits : Nat → Nat → Region → Nat → Prop} {init : Block α → Nat → Prop} {A : Allocator α}
  {w : World α}

theorem flatMap_contents_congr {m m' : Mem α} : ∀ {vs : List Vec},
    (∀ u ∈ vs, contents m' u = contents m u) → vs.flatMap (contents m') = vs.flatMap (contents m)
  | [], _ => rfl
  | v :: vs, h => by
    rw [List.flatMap_cons, List.flatMap_cons, h v (by simp),
      flatMap_contents_congr fun u hu => h u (by simp [hu])]

theorem Outer.item_ok (K : KindLaw k ok) (L : OuterCalls C ok Inv)
    (hA : Lawful A fits (fun _ => False) init) (nd : Bool) (i : NestItem k α) (hi : i.Ok ok)
    (hin : nd = true → ∀ op ∈ i.scripts, op.isSlice = false) {n : Nat} {s : C.σ} {st : k.St Vec}
    {m : Mem α} (h : Inv (n + 1) s st) (hp : Pile fits w m (k.elems st)) :
    match i.step (k.mapSt (contents m) st) with
    | .error e => C.item A nd i s m = .error e
    | .ok (o, xss) => ∃ s' st' m' ds, C.item A nd i s m = .ok (o, s', m') ∧ Inv n s' st' ∧
        Pile fits w m' (k.elems st') ∧ xss = k.mapSt (contents m') st' ∧
        m'.dropped = m.dropped ++ ds ∧
        (nd = true → ((i.inner o).flatMap SeqOp.movedIn ++ (k.elems st).flatMap (contents m)).Perm
          (o.handed ++ ds ++ (k.elems st').flatMap (contents m'))) := by
  cases i with
  | call op =>
    have hb := Pile.run hA nd ((k.arg op).getD []) hin hp.new
    have hc0 : contents m Vec.new = [] := rfl
    rw [hc0] at hb
    simp only [NestItem.step, SeqOp.build, Outer.item]
    cases hs : SeqOp.run ((k.arg op).getD []) [] with
    | error e => rw [hs] at hb; simp only at hb; simp [hb]
    | ok q =>
      obtain ⟨os, ys⟩ := q
      rw [hs] at hb
      obtain ⟨v, m1, d1, e1, e2, e3, e4, e5, e6⟩ := hb
      simp only [e1, Exec.ok_bind]
      have hst : k.mapSt (contents m) st = k.mapSt (contents m1) st :=
        K.st_congr _ _ _ fun x hx => (e4 x hx).symm
      have hop : k.mapOp (fun _ => ys) op =
          k.mapOp (contents m1) (k.mapOp (fun _ => v) op) := by
        rw [K.map_map, e3]
      have hok : ok (k.mapOp (fun _ => v) op) = true := by rw [K.ok_map]; exact hi
      have hstep := L.step (k.mapOp (fun _ => v) op) hok h
      rw [hst, hop, K.step_map]
      generalize hop' : k.mapOp (fun _ => v) op = op' at *
      cases hk : k.step op' st with
      | error e =>
        rw [hk] at hstep
        simp only [Except.map]
        simp only at hstep
        simp [hstep]
      | ok q =>
        obtain ⟨r, st'⟩ := q
        rw [hk] at hstep
        obtain ⟨s', ds, f1, f2, f3, f4⟩ := hstep
        simp only [Except.map, f1, Exec.ok_bind, f3, List.drop_left]
        -- the vectors that there are now
        have harg : ((k.arg op').toList ++ k.elems st).Perm
            (if k.arg op = none then k.elems st else v :: k.elems st) := by
          rw [← hop', K.arg_map]
          cases k.arg op <;> simp
        have hpile : Pile fits w m1 (ds ++ (k.owned op' r ++ k.elems st')) := by
          have h1 : Pile fits w m1 ((k.arg op').toList ++ k.elems st) := by
            refine Pile.perm ?_ harg.symm
            by_cases ha : k.arg op = none
            · rw [if_pos ha]
              have hv : v = Vec.new := by
                rw [ha] at e1
                simp [Vec.run] at e1
                exact e1.2.1.symm
              rw [hv] at e2
              exact e2.of_new
            · rw [if_neg ha]; exact e2
          refine h1.perm (f4.trans ?_)
          rw [List.append_assoc]
          rw [← List.append_assoc, ← List.append_assoc]
          exact List.perm_append_comm.append_right _
        obtain ⟨m2, g1, g2, g3, g4⟩ := Pile.dropAll hA nd ds hpile
        have hshown := K.shown op' st r st' hk
        have hread := g2.readAll (k.shows r) hshown
        obtain ⟨m3, g5, g6, g7, g8⟩ := Pile.dropAll hA nd (k.owned op' r) g2
        have hres : k.mapRes (contents m2) r = k.mapRes (contents m1) r :=
          K.res_congr _ _ _ fun x hx => g3 x (hshown x hx)
        have hst' : k.mapSt (contents m1) st' = k.mapSt (contents m3) st' :=
          K.st_congr _ _ _ fun x hx => by rw [g7 x hx, g3 x (by simp [hx])]
        simp only [g1, hread, g5, Exec.ok_bind, hres]
        refine ⟨s', st', m3, d1 ++ ((if nd = true then ds.flatMap (contents m1) else []) ++
          (if nd = true then (k.owned op' r).flatMap (contents m2) else [])), rfl, f2, g6, hst', ?_, ?_⟩
        · rw [g8, g4, e5, List.append_assoc, List.append_assoc]
        · intro hn
          subst hn
          have p1 := e6 rfl
          simp only [List.append_nil] at p1
          have p2 : ((if k.arg op = none then k.elems st else v :: k.elems st).flatMap
              (contents m1)).Perm ((k.owned op' r ++ ds ++ k.elems st').flatMap (contents m1)) :=
            (harg.symm.trans f4).flatMap_right _
          have p3 : (if k.arg op = none then k.elems st else v :: k.elems st).flatMap (contents m1) =
              ys ++ (k.elems st).flatMap (contents m) := by
            have q1 := flatMap_contents_congr (vs := k.elems st) e4
            by_cases ha : k.arg op = none
            · rw [if_pos ha]
              have : ys = [] := by
                rw [ha] at hs
                simp [SeqOp.run] at hs
                exact hs.2
              rw [this, q1]; rfl
            · rw [if_neg ha, List.flatMap_cons, e3, q1]
          rw [p3] at p2
          have q2 := flatMap_contents_congr (vs := k.owned op' r) (m := m1) (m' := m2)
            fun u hu => g3 u (by simp [hu])
          have q3 := flatMap_contents_congr (vs := k.elems st') (m := m1) (m' := m3)
            fun u hu => by rw [g7 u hu, g3 u (by simp [hu])]
          simp only [if_true, q2, q3, NestItem.inner, NestOut.handed]
          simp only [List.flatMap_append] at p2
          classical
          rw [List.perm_iff_count] at p1 p2 ⊢
          intro a
          have := p1 a
          have := p2 a
          simp only [List.count_append] at *
          omega
  | inside p ops =>
    have hg := L.get p h
    simp only [NestItem.step, K.get_map, Outer.item, hg, Exec.ok_bind]
    cases hv : k.get p st with
    | none =>
      simp only [Option.map_none]
      exact ⟨s, st, m, [], rfl, L.mono h, hp, rfl, by simp, fun _ => by
        simp [NestItem.inner, NestOut.handed]⟩
    | some v =>
      simp only [Option.map_some]
      obtain ⟨zs, z1, z2⟩ := K.set_perm p v v st hv
      have hr := Pile.run hA nd ops hin (hp.perm z1)
      cases hs : SeqOp.run ops (contents m v) with
      | error e => rw [hs] at hr; simp only at hr; simp [hr]
      | ok q =>
        obtain ⟨os, ys⟩ := q
        rw [hs] at hr
        obtain ⟨v', m', ds, e1, e2, e3, e4, e5, e6⟩ := hr
        obtain ⟨s', f1, f2, f3⟩ := L.put p v' v h hv
        obtain ⟨zs', y1, y2⟩ := K.set_perm p v' v st hv
        have hz : zs.Perm zs' := List.Perm.cons_inv (z1.symm.trans y1)
        simp only [e1, f1, Exec.ok_bind]
        have hst : k.set p ys (k.mapSt (contents m) st) =
            k.mapSt (contents m') (k.set p v' st) := by
          rw [K.set_map, ← e3]
          exact (K.set_congr _ _ p v' v st zs hv z1 e4).symm
        refine ⟨s', k.set p v' st, m', ds, rfl, L.mono f2, ?_, hst, e5, ?_⟩
        · exact e2.perm ((hz.cons v').trans y2.symm)
        · intro hn
          have p1 := e6 hn
          have p2 := z1.flatMap_right (contents m)
          have p3 := (y2.trans (hz.symm.cons v')).flatMap_right (contents m')
          have q1 := flatMap_contents_congr (vs := zs) e4
          simp only [List.flatMap_cons, q1, e3] at p2 p3
          simp only [NestItem.inner, NestOut.handed, Option.getD_some]
          classical
          rw [List.perm_iff_count] at p1 p2 p3 ⊢
          intro a
          have := p1 a
          have := p2 a
          have := p3 a
          simp only [List.count_append] at *
          omega

theorem Outer.run_ok (K : KindLaw k ok) (L : OuterCalls C ok Inv)
    (hA : Lawful A fits (fun _ => False) init) (nd : Bool) : ∀ (is : List (NestItem k α)),
    (∀ i ∈ is, i.Ok ok) → (nd = true → ∀ i ∈ is, ∀ op ∈ i.scripts, op.isSlice = false) →
    ∀ {n : Nat} {s : C.σ} {st : k.St Vec} {m : Mem α}, is.length ≤ n → Inv n s st →
    Pile fits w m (k.elems st) →
    match NestItem.run is (k.mapSt (contents m) st) with
    | .error e => C.run A nd is s m = .error e
    | .ok (os, xss) => ∃ s' st' m' ds, C.run A nd is s m = .ok (os, s', m') ∧ (∃ n', Inv n' s' st') ∧
        Pile fits w m' (k.elems st') ∧ xss = k.mapSt (contents m') st' ∧
        m'.dropped = m.dropped ++ ds ∧
        (nd = true → (NestItem.movedIn is os ++ (k.elems st).flatMap (contents m)).Perm
          (NestOut.movedOut os ++ ds ++ (k.elems st').flatMap (contents m'))) := by
  intro is
  induction is with
  | nil =>
    intro _ _ n s st m _ h hp
    exact ⟨s, st, m, [], rfl, ⟨n, h⟩, hp, rfl, by simp, fun _ => by
      simp [NestItem.movedIn, NestOut.movedOut]⟩
  | cons i is ih =>
    intro hok hin n s st m hn h hp
    obtain ⟨n, rfl⟩ : ∃ j, n = j + 1 := ⟨n - 1, by simp at hn; omega⟩
    replace hn : is.length ≤ n := by simpa using hn
    have h1 := Outer.item_ok K L hA nd i (hok i (by simp)) (fun hn => hin hn i (by simp)) h hp
    simp only [NestItem.run, Outer.run]
    cases hs : i.step (k.mapSt (contents m) st) with
    | error e => rw [hs] at h1; simp only at h1; simp [h1]
    | ok q =>
      obtain ⟨o, xss⟩ := q
      rw [hs] at h1
      obtain ⟨s1, st1, m1, d1, e1, e2, e3, e4, e5, e6⟩ := h1
      have h2 := ih (fun j hj => hok j (by simp [hj])) (fun hn j hj => hin hn j (by simp [hj])) hn e2 e3
      simp only [e1, Exec.ok_bind, e4]
      cases hs2 : NestItem.run is (k.mapSt (contents m1) st1) with
      | error e => rw [hs2] at h2; simp only at h2; simp [h2]
      | ok q =>
        obtain ⟨os, xss2⟩ := q
        rw [hs2] at h2
        obtain ⟨s2, st2, m2, d2, f1, f2, f3, f4, f5, f6⟩ := h2
        simp only [f1, Exec.ok_bind]
        refine ⟨s2, st2, m2, d1 ++ d2, rfl, f2, f3, f4, by rw [f5, e5, List.append_assoc], ?_⟩
        intro hn
        have p1 := e6 hn
        have p2 := f6 hn
        simp only [NestItem.movedIn, NestOut.movedOut, List.zip_cons_cons, List.flatMap_cons] at *
        classical
        rw [List.perm_iff_count] at p1 p2 ⊢
        intro a
        have := p1 a
        have := p2 a
        simp only [List.count_append] at *
        omega

/-- The end of the container. -/
theorem Outer.finish_ok (L : OuterLaw C ok Inv Done) (hA : Lawful A fits (fun _ => False) init)
    (nd : Bool) {n : Nat} {s : C.σ} {st : k.St Vec} {m : Mem α} (h : Inv n s st)
    (hp : Pile fits w m (k.elems st)) :
    ∃ s' m' ds, C.finish A nd s m = .ok (s', m') ∧ Done s' ∧ m'.live = w ∧
      m'.dropped = m.dropped ++ (if nd then ds else []) ∧
      ds.Perm ((k.elems st).flatMap (contents m)) := by
  obtain ⟨s', vs, e1, e2, e3, e4⟩ := L.drop h
  obtain ⟨m', f1, f2, _, f4⟩ := Pile.dropAll (vs := []) hA nd vs (by simpa using hp.perm e3.symm)
  exact ⟨s', m', vs.flatMap (contents m), by simp [Outer.finish, e1, e2, f1], e4, f2.live, f4,
    e3.flatMap_right _⟩

/-- A program from the empty container to its end. -/
theorem Outer.whole_ok (K : KindLaw k ok) (L : OuterLaw C ok Inv Done)
    (hA : Lawful A fits (fun _ => False) init) (hnil : ∀ {α β : Type} (f : α → β), k.mapSt f k.nil = k.nil)
    (helems : ∀ {α : Type}, k.elems (k.nil (α := α)) = []) (nd : Bool) (is : List (NestItem k α))
    (hok : ∀ i ∈ is, i.Ok ok) (hin : nd = true → ∀ i ∈ is, ∀ op ∈ i.scripts, op.isSlice = false)
    {n : Nat} (hn : is.length ≤ n) {s : C.σ} (m : Mem α) (h : Inv n s k.nil) :
    match NestItem.run is (k.nil : k.St (List α)) with
    | .error e => C.run A nd is s m = .error e
    | .ok (os, _) => ∃ s' m' s'' m'' drops, C.run A nd is s m = .ok (os, s', m') ∧
        C.finish A nd s' m' = .ok (s'', m'') ∧ Done s'' ∧ m''.live = m.live ∧
        m''.dropped = m.dropped ++ drops ∧
        (nd = true → (NestItem.movedIn is os).Perm (NestOut.movedOut os ++ drops)) := by
  have hp : Pile fits m.live m (k.elems (k.nil : k.St Vec)) := by
    rw [helems]; exact Pile.nil fits m
  have hr := Outer.run_ok K L.toOuterCalls hA nd is hok hin hn h hp
  rw [hnil] at hr
  cases hs : NestItem.run is (k.nil : k.St (List α)) with
  | error e => rw [hs] at hr; exact hr
  | ok q =>
    obtain ⟨os, xss⟩ := q
    rw [hs] at hr
    obtain ⟨s', st', m', ds, e1, ⟨n', e2⟩, e3, e4, e5, e6⟩ := hr
    obtain ⟨s'', m'', ds', f1, f2, f3, f4, f5⟩ := Outer.finish_ok L hA nd e2 e3
    refine ⟨s', m', s'', m'', ds ++ (if nd then ds' else []), e1, f1, f2, f3,
      by rw [f4, e5, List.append_assoc], ?_⟩
    intro hn
    have p1 := e6 hn
    subst hn
    rw [helems] at p1
    simp only [List.flatMap_nil, List.append_nil] at p1
    simp only [if_true]
    classical
    rw [List.perm_iff_count] at p1 f5 ⊢
    intro a
    have := p1 a
    have := f5 a
    simp only [List.count_append] at *
    omega

end

end Verif
