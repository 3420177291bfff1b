import Verif.Vector.Grants
import Verif.Props.Vector
import Verif.Text.Grants
import Verif.Props.Text

/-!
# Vectors, fixed vectors and strings whose allocator panics (C123)

Each call comes with whether its request for memory is granted; a call makes at most one.  A request
that is not granted panics, and the program catches the panic and goes on using the container.
-/

set_option autoImplicit false

namespace Verif
open Spec

variable {α : Type}

theorem VInv.refusedCall {fits : Nat → Nat → Region → Nat → Prop} {keeps : Nat → Prop}
    {init : Block α → Nat → Prop} {A : Allocator α} {w : World α} {m1 : Mem α} {v1 : Vec}
    {ys : List α} {cap : Nat} (hA : Lawful A fits keeps init)
    (h5 : VInv keeps fits w m1 v1 ys cap) (nd : Bool) (op : SeqOp α)
    (hop : nd = true → op.isSlice = false) :
    ∃ o v' m', v1.asSlice m1 = .ok ys ∧ v1.capacity = .ok cap ∧
      v1.stepG A nd false op m1 = .ok (o, v', m') ∧
      (o = none ↔ (∃ e, op.step ys = .error e) ∨ cap < op.capAfter ys.length cap) ∧
      (o = none → v' = v1 ∧ m'.live = m1.live ∧
        m'.dropped = m1.dropped ++ if nd then op.movedIn else []) := by
  have hlive : ∀ (l : List α) (m : Mem α), (l.foldl (fun m x => m.unwound nd x) m).live = m.live := by
    intro l
    induction l with
    | nil => intro m; rfl
    | cons x l ih => intro m; rw [List.foldl_cons, ih]; rfl
  rcases h5.stepG (A := A) nd false op with hc | ⟨_, hlt, hc⟩
  · cases hs : op.step ys with
    | error e =>
      obtain ⟨x, hx, he⟩ := h5.stepC_refused (A := A) nd hs
      exact ⟨none, v1, _, h5.slice, h5.capacity, hc.trans he,
        iff_of_true rfl (.inl ⟨e, rfl⟩), fun _ => ⟨rfl, rfl, by rw [hx]; rfl⟩⟩
    | ok r =>
      obtain ⟨o, zs⟩ := r
      have hst := h5.step hA nd op hop
      rw [hs] at hst
      obtain ⟨v2, m2, d1, a1, c1, he1, hi2, hef, _⟩ := hst
      have he := hc.trans (h5.stepC_accepted hs he1)
      refine ⟨some o, v2, m2, h5.slice, h5.capacity, he, iff_of_false (by simp) ?_, by simp⟩
      rintro (⟨e, h⟩ | hlt)
      · cases h
      · -- it asked for memory, which it did not get
        have := h5.stepG_needs (A := A) nd hlt
        rw [he] at this
        simp [Except.toOption] at this
  · obtain ⟨u1, u2⟩ := VInv.unwoundAll nd op.movedIn h5
    exact ⟨none, v1, _, h5.slice, h5.capacity, hc, iff_of_true rfl (.inr hlt),
      fun _ => ⟨rfl, hlive _ _, u2⟩⟩

/-- C123 for vectors.  The calls that returned are a history a mathematical sequence allows, with the
same results, and the vector holds that sequence; the other calls were refused memory, or have an
index out of range.  Clearing the vector (which is what dropping it does) frees all its memory, and
every value moved in, those of the calls that panicked included, was handed out or dropped exactly
once. -/
theorem C123_vector_refusals (R : RawAlloc α) (nd : Bool) (m0 : Mem α)
    (calls : List (Bool × SeqOp α)) (hops : nd = true → ∀ c ∈ calls, c.2.isSlice = false) :
    ∃ outs v m m' drops ys, Vec.runG (defaultAllocator R) nd calls Vec.new m0 = .ok (outs, v, m) ∧
      outs.length = calls.length ∧
      (∀ p ∈ calls.zip outs, p.2 = none → p.1.1 = false ∨
        ∃ i x, p.1.2 = .insert i x ∨ p.1.2 = .set i x) ∧
      SeqOp.run (answered (calls.map Prod.snd) outs) [] = .ok (outs.filterMap id, ys) ∧
      v.asSlice m = .ok ys ∧
      v.clear (defaultAllocator R) nd m = .ok (Vec.new, m') ∧ m'.live = m0.live ∧
      m'.dropped = m0.dropped ++ drops ∧
      (nd = true → ((calls.map Prod.snd).flatMap SeqOp.movedIn).Perm
        ((outs.filterMap id).flatMap Out.movedOut ++ drops)) := by
  obtain ⟨outs, v, m, ds, cap, ys, h1, h2, h3, h4, h5, h6, h7⟩ :=
    VInv.runG (defaultAllocator_lawful R) nd calls hops (VInv.new defaultFits m0)
  obtain ⟨m', he, _, hw, _, _, hef⟩ := h5.clear (defaultAllocator_lawful R) nd
  refine ⟨outs, v, m, m', ds ++ (if nd then ys else []), ys, h1, h2, h3, h4, h5.slice, he,
    funext fun p => hw p not_false, ?_, ?_⟩
  · rw [hef.dropped, h6, List.append_assoc]
  · intro hn
    simpa [hn] using h7 hn

/-- C123 for vectors, call by call.  A call that is refused memory panics exactly if it would have
enlarged the capacity, or its index is out of range; the vector and its memory are then as before. -/
theorem C123_vector_refused_call (R : RawAlloc α) (nd : Bool) (m0 : Mem α)
    (calls : List (Bool × SeqOp α)) (hops : nd = true → ∀ c ∈ calls, c.2.isSlice = false)
    {outs : List (Option (Out α))} {v : Vec} {m : Mem α}
    (hrun : Vec.runG (defaultAllocator R) nd calls Vec.new m0 = .ok (outs, v, m))
    (op : SeqOp α) (hop : nd = true → op.isSlice = false) :
    ∃ xs cap o v' m', v.asSlice m = .ok xs ∧ v.capacity = .ok cap ∧
      v.stepG (defaultAllocator R) nd false op m = .ok (o, v', m') ∧
      (o = none ↔ (∃ e, op.step xs = .error e) ∨ cap < op.capAfter xs.length cap) ∧
      (o = none → v' = v ∧ m'.live = m.live ∧
        m'.dropped = m.dropped ++ if nd then op.movedIn else []) := by
  obtain ⟨outs', v1, m1, ds, cap, ys, h1, _, _, _, h5, _⟩ :=
    VInv.runG (defaultAllocator_lawful R) nd calls hops (VInv.new defaultFits m0)
  rw [h1] at hrun
  simp only [Except.ok.injEq, Prod.mk.injEq] at hrun
  obtain ⟨_, rfl, rfl⟩ := hrun
  exact ⟨ys, cap, h5.refusedCall (defaultAllocator_lawful R) nd op hop⟩

/-- A vector that grows twice and is refused twice. -/
example : (do
    let (o, v, m) ← Vec.runG (defaultAllocator RawAlloc.bump) true
      [(false, .push 1), (true, .push 2), (false, .push 3), (true, .insert 0 4), (false, .set 1 5),
       (false, .reserve 0), (false, .reserve 7), (false, .insert 9 6), (false, .pop)]
      Vec.new (Mem.empty : Mem Nat)
    let s ← v.asSlice m
    let (_, m) ← v.clear (defaultAllocator RawAlloc.bump) true m
    .ok (o.map Option.isSome, s, m.dropped)) =
      (.ok ([false, true, false, true, true, true, false, false, true], [4], [1, 3, 2, 6, 4]) :
        Exec _) := rfl

/-! ## Fixed vectors -/

/-- C123 for fixed vectors, the requests being those to the overflow allocator. -/
theorem C123_fixed_vector_refusals (R : RawAlloc α) (nd : Bool) (n d : Nat) (hn : 0 < n)
    (m0 : Mem α) (hd : m0.live d = none) (calls : List (Bool × SeqOp α))
    (hops : nd = true → ∀ c ∈ calls, c.2.isSlice = false) :
    ∃ f1 m1 outs f m m' drops ys, FVec.newIn n d m0 = .ok (f1, m1) ∧
      f1.runG R nd calls m1 = .ok (outs, f, m) ∧
      outs.length = calls.length ∧
      (∀ p ∈ calls.zip outs, p.2 = none → p.1.1 = false ∨
        ∃ i x, p.1.2 = .insert i x ∨ p.1.2 = .set i x) ∧
      SeqOp.run (answered (calls.map Prod.snd) outs) [] = .ok (outs.filterMap id, ys) ∧
      f.vec.asSlice m = .ok ys ∧
      f.destroy R nd m = .ok m' ∧ m'.live = m0.live ∧ m'.dropped = m0.dropped ++ drops ∧
      (nd = true → ((calls.map Prod.snd).flatMap SeqOp.movedIn).Perm
        ((outs.filterMap id).flatMap Out.movedOut ++ drops)) := by
  obtain ⟨f1, m1, he1, hi1, hb1, _, _, hdr1, _⟩ := FInvA.new hn m0 hd
  have hA := fixedAllocator_lawful R f1.buf
  rw [← hi1.pool] at hA
  obtain ⟨outs, v, m, ds, cap, ys, h1, h2, h3, h4, h5, h6, h7⟩ := VInv.runG hA nd calls hops hi1.inv
  obtain ⟨m2, hc, _, hw, _, _, hef⟩ := h5.clear hA nd
  refine ⟨f1, m1, outs, { f1 with vec := v }, m, m2.setBlock f1.buf none,
    ds ++ (if nd then ys else []), ys, he1, by simp [FVec.runG, h1], h2, h3, h4, h5.slice,
    by simp [FVec.destroy, hc], ?_, ?_, ?_⟩
  · funext p
    by_cases hpb : p = f1.buf
    · subst hpb; simp [hi1.out]
    · simpa [hpb] using hw p hpb
  · simp [hef.dropped, h6, hdr1]
  · intro hnd
    simpa [hnd] using h7 hnd

/-- C123 for fixed vectors, call by call, as for vectors. -/
theorem C123_fixed_vector_refused_call (R : RawAlloc α) (nd : Bool) (n d : Nat) (hn : 0 < n)
    (m0 : Mem α) (hd : m0.live d = none) (calls : List (Bool × SeqOp α))
    (hops : nd = true → ∀ c ∈ calls, c.2.isSlice = false) {f1 f : FVec} {m1 m : Mem α}
    {outs : List (Option (Out α))} (hnew : FVec.newIn n d m0 = .ok (f1, m1))
    (hrun : f1.runG R nd calls m1 = .ok (outs, f, m)) (op : SeqOp α)
    (hop : nd = true → op.isSlice = false) :
    ∃ xs cap o v' m', f.vec.asSlice m = .ok xs ∧ f.vec.capacity = .ok cap ∧
      f.vec.stepG (fixedAllocator R f.pool) nd false op m = .ok (o, v', m') ∧
      (o = none ↔ (∃ e, op.step xs = .error e) ∨ cap < op.capAfter xs.length cap) ∧
      (o = none → v' = f.vec ∧ m'.live = m.live ∧
        m'.dropped = m.dropped ++ if nd then op.movedIn else []) := by
  obtain ⟨f1', m1', he1, hi1, _⟩ := FInvA.new hn m0 hd
  rw [he1] at hnew
  simp only [Except.ok.injEq, Prod.mk.injEq] at hnew
  obtain ⟨rfl, rfl⟩ := hnew
  have hA := fixedAllocator_lawful R f1'.buf
  rw [← hi1.pool] at hA
  obtain ⟨outs, v, m, ds, cap, ys, h1, _, _, _, h5, _⟩ := VInv.runG hA nd calls hops hi1.inv
  simp only [FVec.runG, h1, Exec.ok_bind, Except.ok.injEq, Prod.mk.injEq] at hrun
  obtain ⟨_, rfl, rfl⟩ := hrun
  exact ⟨ys, cap, h5.refusedCall hA nd op hop⟩

/-- A fixed vector with two inline elements, whose spilling is refused once. -/
example : (do
    let (f, m) ← FVec.newIn 2 7 (Mem.empty : Mem Nat)
    let (o, f, m) ← f.runG RawAlloc.bump true
      [(false, .push 1), (false, .push 2), (false, .push 3), (false, .pop), (false, .push 4),
       (true, .push 5), (false, .insert 0 6)] m
    let s ← f.vec.asSlice m
    let m ← f.destroy RawAlloc.bump true m
    .ok (o.map Option.isSome, s, m.dropped)) =
      (.ok ([true, true, false, true, true, true, true], [6, 1, 4, 5], [3, 6, 1, 4, 5]) :
        Exec _) := rfl

/-! ## Strings -/

/-- C123 for strings, with the restriction of C16 to ASCII text and without `assign`. -/
theorem C123_string_refusals (R : RawAlloc UInt8) (m0 : Mem UInt8) (calls : List (Bool × StrOp))
    (hops : ∀ c ∈ calls, c.2.Ascii ∧ c.2.isAssign = false) :
    ∃ outs v m m' cs, Str.runG (strAlloc R) calls Vec.new m0 = .ok (outs, v, m) ∧
      outs.length = calls.length ∧
      (∀ p ∈ calls.zip outs, p.2 = none → p.1.1 = false ∨ ∃ i c, p.1.2 = .insert i c) ∧
      StrOp.run (answered (calls.map Prod.snd) outs) [] = .ok (outs.filterMap id, cs) ∧
      v.asSlice m = .ok (utf8 cs) ∧ v.len = .ok cs.length ∧
      Str.drop (strAlloc R) v m = .ok m' ∧ m'.live = m0.live := by
  obtain ⟨outs, v, m, bs, cap, h1, h2, h3, h4, h5⟩ := SInv.runG (R := R) calls (VInv.new nullFits m0)
  have hans : ∀ op ∈ answered (calls.map Prod.snd) outs, op.Ascii ∧ op.isAssign = false := by
    have : ∀ (ops : List StrOp) (os : List (Option StrOut)), ∀ op ∈ answered ops os, op ∈ ops := by
      intro ops
      induction ops with
      | nil => intro os op h; simp [answered] at h
      | cons a ops ih =>
        intro os op h
        cases os with
        | nil => simp [answered] at h
        | cons o os =>
          cases o with
          | none => exact List.mem_cons_of_mem _ (ih os op h)
          | some o =>
            simp only [answered, List.mem_cons] at h
            rcases h with rfl | h
            · simp
            · exact List.mem_cons_of_mem _ (ih os op h)
    intro op h
    obtain ⟨c, hc, rfl⟩ := List.mem_map.1 (this _ _ _ h)
    exact hops c hc
  have hb := byteRun_ascii (answered (calls.map Prod.snd) outs) (cs := []) hans (by simp)
  obtain ⟨m', he, _, hw, _⟩ := h5.clear (nullTerm_lawful R) false
  cases hr : StrOp.run (answered (calls.map Prod.snd) outs) [] with
  | error e =>
    rw [hr] at hb
    simp only [List.map_nil] at hb
    rw [hb] at h4
    cases h4
  | ok r =>
    obtain ⟨os, cs⟩ := r
    rw [hr] at hb
    simp only [List.map_nil] at hb
    obtain ⟨hb1, hb2⟩ := hb
    rw [hb1] at h4
    simp only [Except.ok.injEq, Prod.mk.injEq] at h4
    obtain ⟨rfl, rfl⟩ := h4
    exact ⟨outs, v, m, m', cs, h1, h2, h3, hr, by rw [utf8_ascii hb2]; exact h5.slice,
      by simpa using h5.len, by simp [Str.drop, strAlloc, he], funext fun p => hw p not_false⟩

/-- C123 for strings, call by call, for any history.  A call that is refused memory panics exactly if
it needs some, or its index is out of range; the string and all memory are then as before. -/
theorem C123_string_refused_call (R : RawAlloc UInt8) (m0 : Mem UInt8)
    (calls : List (Bool × StrOp)) {outs : List (Option StrOut)} {v : Vec} {m : Mem UInt8}
    (hrun : Str.runG (strAlloc R) calls Vec.new m0 = .ok (outs, v, m)) (op : StrOp) :
    ∃ n cap o v' m', v.len = .ok n ∧ v.capacity = .ok cap ∧
      Str.stepG (strAlloc R) false op v m = .ok (o, v', m') ∧
      (o = none ↔ (∃ i c, op = .insert i c ∧ n < i) ∨ op.needsMemory n cap) ∧
      (o = none → v' = v ∧ m' = m) := by
  obtain ⟨outs', v', m', bs, cap, h1, _, _, _, h5⟩ :=
    SInv.runG (R := R) calls (VInv.new nullFits m0)
  rw [show Str.runG (strAlloc R) calls Vec.new m0 = .ok (outs', v', m') from h1] at hrun
  simp only [Except.ok.injEq, Prod.mk.injEq] at hrun
  obtain ⟨_, rfl, rfl⟩ := hrun
  rcases h5.stepG (R := R) false op with ⟨hw, he⟩ | ⟨hw, o, bs1, v1, m1, cap1, hb, he, _⟩
  · refine ⟨bs.length, cap, none, v', m', h5.len, h5.capacity, he, iff_of_true rfl ?_,
      fun _ => ⟨rfl, rfl⟩⟩
    rcases hw with ⟨e, hw⟩ | hw
    · left
      cases op with
      | insert i c =>
        refine ⟨i, c, rfl, ?_⟩
        by_contra hlt
        simp [byteStep, show i ≤ bs.length by omega] at hw
      | _ => simp [byteStep] at hw
    · exact .inr hw.2
  · refine ⟨bs.length, cap, some o, v1, m1, h5.len, h5.capacity, he, iff_of_false (by simp) ?_,
      by simp⟩
    rintro (⟨i, c, rfl, hlt⟩ | hn)
    · simp [byteStep, show ¬ i ≤ bs.length by omega] at hb
    · exact hw ⟨rfl, hn⟩

/-- A string that is refused memory three times. -/
example : (do
    let (o, v, m) ← Str.runG (strAlloc RawAlloc.bump)
      [(false, .push 'x'), (true, .push 'a'), (false, .push 'y'), (true, .push 'b'),
       (false, .reserve 0), (false, .insert 5 'z'), (false, .pop), (false, .push 'c')]
      Vec.new (Mem.empty : Mem UInt8)
    let s ← v.asSlice m
    .ok (o.map Option.isSome, s)) =
      (.ok ([false, true, false, true, false, false, true, true], [97, 99]) : Exec _) := rfl

end Verif
