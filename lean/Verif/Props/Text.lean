import Verif.Text.Utf8
import Verif.Hash.Proofs
import Mathlib.Data.List.Induction

/-!
# Properties C16-C21 of `String`

`R` is the global allocator, `m0` the memory before; `strAlloc R` is the allocator inside a
`String` with the default allocator.
-/

set_option autoImplicit false

namespace Verif
open Spec

abbrev strAlloc (R : RawAlloc UInt8) : Allocator UInt8 := nullTermAllocator (defaultAllocator R)

theorem SInv.rep {w : World UInt8} {m : Mem UInt8} {v : Vec} {bs : List UInt8} {cap : Nat}
    (h : SInv w m v bs cap) : VRep nullFits w m v bs cap := by
  obtain ⟨_, w', hw, hr⟩ := h
  have : w' = w := by funext b; exact hw b not_false
  rw [this] at hr
  exact hr

/-! ## C16 -/

/-- C16.  For any history of push, pop, insert, remove, reserve, len and is_empty with ASCII
characters on an empty `String`: the calls return (or panic) as on the sequence of characters,
and `as_bytes` is the UTF-8 encoding of that sequence, one byte per character. -/
theorem C16_string_refines_text (R : RawAlloc UInt8) (m0 : Mem UInt8) (ops : List StrOp)
    (hops : ∀ op ∈ ops, op.Ascii ∧ op.isAssign = false) :
    match StrOp.run ops [] with
    | .error e => Str.run (strAlloc R) ops Vec.new m0 = .error e
    | .ok (outs, cs) => ∃ v m, Str.run (strAlloc R) ops Vec.new m0 = .ok (outs, v, m) ∧
        v.asSlice m = .ok (utf8 cs) ∧ (utf8 cs).length = cs.length ∧ v.len = .ok cs.length := by
  have h1 := byteRun_ascii ops (cs := []) hops (by simp)
  have h2 := SInv.run (R := R) ops (VInv.new nullFits m0)
  cases hr : StrOp.run ops [] with
  | error e =>
    rw [hr] at h1; simp only [List.map_nil] at h1
    rw [h1] at h2; exact h2
  | ok r =>
    obtain ⟨outs, cs⟩ := r
    rw [hr] at h1; simp only [List.map_nil] at h1
    rw [h1.1] at h2
    obtain ⟨v, m, cap, he, hi⟩ := h2
    have hu := utf8_ascii h1.2
    refine ⟨v, m, he, by rw [hu]; exact hi.slice, by rw [hu]; simp, by simpa using hi.len⟩

/-- A concrete case. -/
example : (do
    let (o, v, m) ← Str.run (strAlloc RawAlloc.bump)
      [.push 'a', .push 'c', .insert 1 'b', .reserve 3, .remove 0, .pop, .push 'd', .len]
      Vec.new Mem.empty
    let s ← v.asSlice m
    .ok (o, s)) = (.ok ([.unit, .unit, .unit, .unit, .char (some 'a'), .char (some 'c'), .unit,
      .nat 2], [98, 100]) : Exec _) := rfl

/-! ## C17 -/

/-- C17 is false: `remove` does not move the terminator.  Whatever character is removed from
whatever string, the byte after the text is then the last byte the text had before. -/
theorem C17_remove_unterminated (R : RawAlloc UInt8) (m0 : Mem UInt8) (ops : List StrOp)
    {outs : List StrOut} {v : Vec} {m : Mem UInt8} {bs : List UInt8}
    (hrun : Str.run (strAlloc R) ops Vec.new m0 = .ok (outs, v, m)) (hb : v.asSlice m = .ok bs)
    (i : Nat) (hi : i < bs.length) :
    ∃ c v' m' z, Str.remove i v m = .ok (c, v', m') ∧
      v'.asSlice m' = .ok (bs.take i ++ bs.drop (i + 1)) ∧
      m'.read v'.endPtr = .ok z ∧ bs.getLast? = some z ∧ v'.beginPtr ≠ .null := by
  obtain ⟨bs', cap, _, h⟩ := reachable_str hrun
  have : bs' = bs := by
    have hs := h.slice
    rw [hb] at hs
    cases hs; rfl
  subst this
  obtain ⟨b, blk, hB⟩ := h.own (by intro e; simp [e] at hi)
  obtain ⟨v', m', blk', he, hinv, hc, _⟩ := hB.remove hi
  have hn : ¬ bs'.length ≤ i := by omega
  refine ⟨_, v', m', bs'[bs'.length - 1], by simp [Str.remove, h.len, hn, he]; rfl, ?_, ?_, ?_, by
    rw [hinv.ptrs]; simp⟩
  · rw [← eraseIdx_eq_take_drop]; exact hinv.inv.slice
  · have hp := hinv.ptrs
    rw [hp]
    have hl : (bs'.eraseIdx i).length = bs'.length - 1 := List.length_eraseIdx_of_lt hi
    have h1 := hinv.cap_le
    have h2 := h.len_le
    refine Mem.read_loc hinv.live_b (by simp only [hl]; omega) ?_
    rw [hl, hc _ (Nat.le_refl _), hB.cells _ (by omega)]
    simp
  · rw [List.getLast?_eq_getElem?]; simp

/-- For instance, after pushing "ab" and removing the first character the text is "b" and the byte
after it is still `b'b'`. -/
example : (do
    let (_, v, m) ← Str.run (strAlloc RawAlloc.bump) [.push 'a', .push 'b', .remove 0]
      Vec.new Mem.empty
    let s ← v.asSlice m
    let t ← m.read v.endPtr
    .ok (s, t)) = (.ok ([98], 98) : Exec _) := rfl

/-- C17 is false: after `reserve`, on any string, the byte after the text is uninitialised (reading
it is undefined). -/
theorem C17_reserve_unterminated (R : RawAlloc UInt8) (m0 : Mem UInt8) (ops : List StrOp)
    {outs : List StrOut} {v : Vec} {m : Mem UInt8}
    (hrun : Str.run (strAlloc R) ops Vec.new m0 = .ok (outs, v, m)) (n : Nat) :
    ∃ v' m' bs, Str.reserve (strAlloc R) n v m = .ok (v', m') ∧ v.asSlice m = .ok bs ∧
      v'.asSlice m' = .ok bs ∧ v'.beginPtr ≠ .null ∧ m'.read v'.endPtr = .error .ub := by
  obtain ⟨bs, cap, _, h⟩ := reachable_str hrun
  obtain ⟨v', m', b', blk', fr, he, hB, _, hin, hce, hsz, _⟩ :=
    h.reserve (nullTerm_lawful_blank R) (add := n + 1) (by omega)
  refine ⟨v', m', bs, he, h.slice, hB.inv.slice, by rw [hB.ptrs]; simp, ?_⟩
  have h1 := hB.cap_le
  have h2 := h.len_le
  rw [hB.ptrs]
  have hcell : blk'.cells bs.length = none := by
    rw [hce _ (Nat.le_refl _)]; exact hin _ (by omega)
  simp only [Mem.read, Mem.cell_loc hB.live_b (show bs.length < blk'.size by omega), hcell]

/-- C17 is false: a string made `with_capacity` is not terminated. -/
theorem C17_with_capacity_unterminated (R : RawAlloc UInt8) (m0 : Mem UInt8) (n : Nat)
    (hn : 0 < n) :
    ∃ v m, Str.withCapacity (strAlloc R) n m0 = .ok (v, m) ∧ v.asSlice m = .ok [] ∧
      v.capacity = .ok n ∧ m.read v.endPtr = .error .ub := by
  obtain ⟨v', m', b', blk', fr, he, hB, _, hin, hce, hsz, _⟩ :=
    (VInv.new nullFits m0).reserve (nullTerm_lawful_blank R) (add := n) hn
  refine ⟨v', m', he, hB.inv.slice, by simpa using hB.inv.capacity, ?_⟩
  have h1 := hB.cap_le
  rw [hB.ptrs]
  have hcell : blk'.cells 0 = none := by
    rw [hce 0 (Nat.zero_le _)]; exact hin 0 (by omega)
  simp only [List.length_nil, Mem.read, Mem.cell_loc hB.live_b (show 0 < blk'.size by omega), hcell]

example : (do
    let (_, v, m) ← Str.run (strAlloc RawAlloc.bump) [.push 'a', .reserve 4] Vec.new Mem.empty
    let s ← v.asSlice m
    .ok (s, m.read v.endPtr)) = (.ok ([97], .error .ub) : Exec _) := rfl

/-- The calls that write the terminator. -/
def Spec.StrOp.writes : StrOp → Bool
  | .push _ | .pop | .insert _ _ | .assign _ => true
  | _ => false

theorem Str.run_append {A : Allocator UInt8} {op : StrOp} : ∀ (ops : List StrOp) {v : Vec}
    {m : Mem UInt8} {outs : List StrOut} {v' : Vec} {m' : Mem UInt8},
    Str.run A (ops ++ [op]) v m = .ok (outs, v', m') →
    ∃ os v1 m1 o, Str.run A ops v m = .ok (os, v1, m1) ∧ Str.step A op v1 m1 = .ok (o, v', m') := by
  intro ops
  induction ops with
  | nil =>
    intro v m outs v' m' h
    simp only [List.nil_append, Str.run] at h
    obtain ⟨⟨o, v1, m1⟩, h1, h2⟩ := Exec.bind_ok h
    cases h2
    exact ⟨[], v, m, o, rfl, h1⟩
  | cons a ops ih =>
    intro v m outs v' m' h
    simp only [List.cons_append, Str.run] at h
    obtain ⟨⟨o1, v1, m1⟩, h1, h2⟩ := Exec.bind_ok h
    obtain ⟨⟨os2, v2, m2⟩, h3, h4⟩ := Exec.bind_ok h2
    cases h4
    obtain ⟨os, v3, m3, o, h5, h6⟩ := ih h3
    exact ⟨o1 :: os, v3, m3, o, by simp [Str.run, h1, h5], h6⟩

theorem Str.run_last {A : Allocator UInt8} {op : StrOp} : ∀ (ops : List StrOp) {v : Vec}
    {m : Mem UInt8} {outs : List StrOut} {v1 : Vec} {m1 : Mem UInt8} {o : StrOut} {v' : Vec}
    {m' : Mem UInt8}, Str.run A ops v m = .ok (outs, v1, m1) →
    Str.step A op v1 m1 = .ok (o, v', m') →
    Str.run A (ops ++ [op]) v m = .ok (outs ++ [o], v', m') := by
  intro ops
  induction ops with
  | nil =>
    intro v m outs v1 m1 o v' m' h h1
    cases h
    simp [Str.run, h1]
  | cons a ops ih =>
    intro v m outs v1 m1 o v' m' h h1
    simp only [Str.run] at h
    obtain ⟨⟨o2, v2, m2⟩, h2, h3⟩ := Exec.bind_ok h
    obtain ⟨⟨os, v3, m3⟩, h4, h5⟩ := Exec.bind_ok h3
    cases h5
    simp [Str.run, h2, ih h4 h1]

/-- What remains of C17, for any characters: after any history whose last call is push, pop,
insert or assign, a string that owns storage has the byte 0 just past its last character.
Missing: remove, reserve and with_capacity, for which it is false. -/
theorem C17_terminated_after_write_partial (R : RawAlloc UInt8) (m0 : Mem UInt8)
    (ops : List StrOp) (op : StrOp) (hop : op.writes = true) {outs : List StrOut} {v : Vec}
    {m : Mem UInt8} (hrun : Str.run (strAlloc R) (ops ++ [op]) Vec.new m0 = .ok (outs, v, m)) :
    v.beginPtr = .null ∨ m.read v.endPtr = .ok 0 := by
  obtain ⟨os, v1, m1, o, h1, h2⟩ := Str.run_append ops hrun
  obtain ⟨bs, cap, _, hi⟩ := reachable_str h1
  have h := hi.step (R := R) op
  cases hs : byteStep op bs with
  | error e => rw [hs] at h; simp only at h; rw [h] at h2; cases h2
  | ok r =>
    obtain ⟨o', bs'⟩ := r
    rw [hs] at h
    obtain ⟨v', m', cap', he, _, _, ht⟩ := h
    rw [he] at h2
    cases h2
    apply ht
    cases op <;> simp_all [StrOp.writes]

/-- Also: a string that never saw remove or reserve is terminated at every point of its
history. -/
theorem C17_terminated_always_partial (R : RawAlloc UInt8) (m0 : Mem UInt8)
    (ops : List StrOp) (hops : ∀ op ∈ ops, (∀ i, op ≠ .remove i) ∧ ∀ n, op ≠ .reserve n)
    {outs : List StrOut} {v : Vec}
    {m : Mem UInt8} (hrun : Str.run (strAlloc R) ops Vec.new m0 = .ok (outs, v, m)) :
    v.beginPtr = .null ∨ m.read v.endPtr = .ok 0 := by
  induction ops using List.reverseRecOn generalizing outs v m with
  | nil => cases hrun; exact .inl rfl
  | append_singleton ops op ih =>
    by_cases hw : op.writes = true
    · exact C17_terminated_after_write_partial R m0 ops op hw hrun
    · obtain ⟨os, v1, m1, o, h1, h2⟩ := Str.run_append ops hrun
      have h := ih (fun op' ho => hops op' (by simp [ho])) h1
      obtain ⟨hr1, hr2⟩ := hops op (by simp)
      cases op with
      | push c => simp [StrOp.writes] at hw
      | pop => simp [StrOp.writes] at hw
      | insert i c => simp [StrOp.writes] at hw
      | assign s => simp [StrOp.writes] at hw
      | remove i => exact absurd rfl (hr1 i)
      | reserve n => exact absurd rfl (hr2 n)
      | len =>
        simp only [Str.step] at h2
        obtain ⟨n, _, h4⟩ := Exec.bind_ok h2
        cases h4; exact h
      | isEmpty =>
        simp only [Str.step] at h2
        obtain ⟨n, _, h4⟩ := Exec.bind_ok h2
        cases h4; exact h

/-- A string that owns storage has the byte 0 just past its last character. -/
def EndsInNul (v : Vec) (m : Mem UInt8) : Prop := v.beginPtr = .null ∨ m.read v.endPtr = .ok 0

/-- C17, exactly when it holds: a new string is terminated, and after any history the next call leaves
a string that is terminated or not as follows. -/
theorem C17_terminated_iff (R : RawAlloc UInt8) (m0 : Mem UInt8) (ops : List StrOp)
    {outs : List StrOut} {v : Vec} {m : Mem UInt8} {bs : List UInt8}
    (hrun : Str.run (strAlloc R) ops Vec.new m0 = .ok (outs, v, m)) (hb : v.asSlice m = .ok bs)
    (op : StrOp) {o : StrOut} {v' : Vec} {m' : Mem UInt8}
    (hstep : Str.step (strAlloc R) op v m = .ok (o, v', m')) :
    EndsInNul Vec.new m0 ∧
    (EndsInNul v' m' ↔
      match op with
      | .push _ | .pop | .insert _ _ | .assign _ => True
      | .remove i => if i < bs.length then bs.getLast? = some 0 else EndsInNul v m
      | .reserve _ => False
      | .len | .isEmpty => EndsInNul v m) := by
  refine ⟨.inl rfl, ?_⟩
  have hw : op.writes = true → EndsInNul v' m' := by
    intro hw
    refine C17_terminated_after_write_partial R m0 ops op hw (outs := outs ++ [o]) ?_
    exact Str.run_last ops hrun hstep
  cases op with
  | push c => exact iff_true_intro (hw rfl)
  | pop => exact iff_true_intro (hw rfl)
  | insert i c => exact iff_true_intro (hw rfl)
  | assign s => exact iff_true_intro (hw rfl)
  | remove i =>
    simp only [Str.step] at hstep
    obtain ⟨⟨c, v1, m1⟩, h3, h4⟩ := Exec.bind_ok hstep
    cases h4
    by_cases hi : i < bs.length
    · obtain ⟨c', v2, m2, z, h5, _, h7, h8, h9⟩ := C17_remove_unterminated R m0 ops hrun hb i hi
      rw [h5] at h3
      cases h3
      simp [hi, h8, EndsInNul, h7, h9]
    · obtain ⟨bs0, cap, _, h⟩ := reachable_str hrun
      have hs := h.slice
      rw [hb] at hs
      cases hs
      simp only [Str.remove, h.len, Exec.ok_bind, if_pos (Nat.le_of_not_lt hi)] at h3
      cases h3
      simp only [hi, if_false]
  | reserve n =>
    obtain ⟨v1, m1, _, h1, _, _, h2, h3⟩ := C17_reserve_unterminated R m0 ops hrun n
    simp only [Str.step, h1, Exec.ok_bind] at hstep
    cases hstep
    simp [EndsInNul, h2, h3]
  | len =>
    simp only [Str.step] at hstep
    obtain ⟨n, _, h4⟩ := Exec.bind_ok hstep
    cases h4; exact Iff.rfl
  | isEmpty =>
    simp only [Str.step] at hstep
    obtain ⟨n, _, h4⟩ := Exec.bind_ok hstep
    cases h4; exact Iff.rfl

/-- Removing the second of two characters leaves the string unterminated, removing one of "a\0" does
not, and nothing happens if there is no such character. -/
example : [[.push 'a', .push 'b', .remove 1], [.push 'a', .push (Char.ofNat 0), .remove 0],
      [.push 'a', .remove 1]].map (fun ops => do
    let (_, v, m) ← Str.run (strAlloc RawAlloc.bump) ops Vec.new Mem.empty
    m.read v.endPtr) = [.ok 98, .ok 0, .ok 0] := rfl

/-- A clone of any reachable string has the same bytes and is terminated. -/
theorem C17_clone_terminated (R : RawAlloc UInt8) (m0 : Mem UInt8) (ops : List StrOp)
    {outs : List StrOut} {v : Vec} {m : Mem UInt8}
    (hrun : Str.run (strAlloc R) ops Vec.new m0 = .ok (outs, v, m)) :
    ∃ bs c m', v.asSlice m = .ok bs ∧ Str.clone (strAlloc R) v m = .ok (c, m') ∧
      c.asSlice m' = .ok bs ∧ (c.beginPtr = .null ∨ m'.read c.endPtr = .ok 0) := by
  obtain ⟨bs, cap, _, hi⟩ := reachable_str hrun
  have hcl : Str.clone (strAlloc R) v m = Vec.new.assign (strAlloc R) false bs m := by
    simp [Str.clone, Vec.clone, hi.slice, Vec.fromSlice]
  by_cases hb : bs = []
  · subst hb
    exact ⟨[], Vec.new, m, hi.slice, by rw [hcl]; rfl, rfl, .inl rfl⟩
  · have hpos : 0 < bs.length := List.length_pos_of_ne_nil hb
    obtain ⟨v1, m1, b, blk, fr, he, hB, _, hin, hce, _, _⟩ :=
      (VInv.new nullFits m).reserve (nullTerm_lawful R) (add := bs.length) hpos
    obtain ⟨c, m2, he2, hi2, _⟩ :=
      (VInv.new nullFits m).assign (nullTerm_lawful R) false bs (by simp)
    refine ⟨bs, c, m2, hi.slice, by rw [hcl]; exact he2, hi2.slice, .inr ?_⟩
    -- recompute the run to see the block
    obtain ⟨hk, w', hw, ho⟩ := hB
    have hpt := ho.ptrs
    have hcap : Vec.new.capacity = .ok 0 := rfl
    simp only [Vec.assign, hcap, Exec.ok_bind, if_pos hpos, Nat.sub_zero, he] at he2
    have hcap' : 0 + bs.length ≤ blk.size := by have := ho.cap_le; simpa using this
    rw [hpt] at he2
    rw [Mem.ptrAdd_loc ho.live_b hcap'] at he2
    simp only [Exec.ok_bind, reduceCtorEq, if_false] at he2
    have hsz := ho.fit.2
    obtain ⟨m3, hc, hl, _⟩ := Mem.cloneFrom_false bs 0 m1 blk ho.live_b (by omega)
    rw [hc] at he2
    simp only [Exec.ok_bind] at he2
    cases he2
    refine Mem.read_loc (by rw [hl, Function.update_self]) (by simp; omega) ?_
    have h0 : blk.cells bs.length = some 0 := by
      have h1 := hce bs.length (by simp)
      rw [h1]; simpa using hin
    simp [h0]

/-- The hypotheses are met, and the storage is owned. -/
example : (do
    let (_, v, m) ← Str.run (strAlloc RawAlloc.bump) [.push 'a', .remove 0, .assign ['é'], .pop]
      Vec.new Mem.empty
    let t ← m.read v.endPtr
    .ok (t, v.beginPtr == .null)) = (.ok (0, false) : Exec _) := rfl

/-! ## C18 -/

/-- What `assign` does, for every reachable string and every `s`: it appends `s`.  Hence C18
holds exactly for strings that were empty (which is how `From<&str>` uses it).  Missing: all
other strings, for which the property is false. -/
theorem C18_assign_partial (R : RawAlloc UInt8) (m0 : Mem UInt8) (ops : List StrOp)
    {outs : List StrOut} {v : Vec} {m : Mem UInt8}
    (hrun : Str.run (strAlloc R) ops Vec.new m0 = .ok (outs, v, m)) (s : List Char) :
    ∃ bs v' m', v.asSlice m = .ok bs ∧ Str.assign (strAlloc R) (utf8 s) v m = .ok (v', m') ∧
      v'.asSlice m' = .ok (bs ++ utf8 s) ∧
      (v'.asSlice m' = .ok (utf8 s) ↔ v.len = .ok 0) := by
  obtain ⟨bs, cap, _, hi⟩ := reachable_str hrun
  obtain ⟨v', m', cap', he, hi', _⟩ := hi.step (R := R) (.assign s)
  have he' : Str.assign (strAlloc R) (utf8 s) v m = .ok (v', m') := by
    simp only [Str.step] at he
    obtain ⟨⟨a, b⟩, h1, h2⟩ := Exec.bind_ok he
    cases h2; exact h1
  refine ⟨bs, v', m', hi.slice, he', hi'.slice, ?_⟩
  rw [hi'.slice, hi.len]
  simp

/-- C18 is false: `assign` of any text to any string that is not empty leaves another text. -/
theorem C18_assign_appends (R : RawAlloc UInt8) (m0 : Mem UInt8) (ops : List StrOp)
    {outs : List StrOut} {v : Vec} {m : Mem UInt8}
    (hrun : Str.run (strAlloc R) ops Vec.new m0 = .ok (outs, v, m)) (hne : v.len ≠ .ok 0)
    (s : List Char) :
    ∃ bs v' m', Str.assign (strAlloc R) (utf8 s) v m = .ok (v', m') ∧
      v'.asSlice m' = .ok bs ∧ bs ≠ utf8 s := by
  obtain ⟨bs, v', m', _, h2, h3, h4⟩ := C18_assign_partial R m0 ops hrun s
  refine ⟨_, v', m', h2, h3, fun e => hne (h4.1 (by rw [h3, e]))⟩

example : (do
    let (_, v, m) ← Str.run (strAlloc RawAlloc.bump) [.assign ['a', 'b'], .assign ['c']]
      Vec.new Mem.empty
    v.asSlice m) = (.ok [97, 98, 99] : Exec _) := rfl

/-- `From<&str>`, `FromStr` and `from_in`: the string has exactly the given text, at every
allocation. -/
theorem C18_from_str_partial (R : RawAlloc UInt8) (m0 : Mem UInt8) (s : List Char) :
    ∃ v m, Str.fromStr (strAlloc R) (utf8 s) m0 = .ok (v, m) ∧ v.asSlice m = .ok (utf8 s) ∧
      m.read v.endPtr = .ok 0 := by
  obtain ⟨v', m', cap', he, hi', _, ht⟩ := SInv.step (R := R) (.assign s) (VInv.new nullFits m0)
  have he' : Str.fromStr (strAlloc R) (utf8 s) m0 = .ok (v', m') := by
    simp only [Str.step] at he
    obtain ⟨⟨a, b⟩, h1, h2⟩ := Exec.bind_ok he
    cases h2; exact h1
  refine ⟨v', m', he', by simpa using hi'.slice, ?_⟩
  rcases ht (by simp) with hn | h
  · -- `reserve(len)` asks for at least one byte, so storage is owned
    exfalso
    obtain ⟨v1, m1, he1, hi1, _⟩ :=
      (VInv.new nullFits m0).reserve_any (nullTerm_lawful R) ((utf8 s).length + 1)
    obtain ⟨v2, m2, he2, hi2, _⟩ := hi1.append (nullTerm_lawful R) (utf8 s)
    obtain ⟨m3, hn3, h3, _⟩ := SInv.nullTerminate hi2
    have : Str.fromStr (strAlloc R) (utf8 s) m0 = .ok (v2, m3) := by
      simp [Str.fromStr, Str.assign, Str.reserve, he1, he2, hn3]
    rw [he'] at this
    cases this
    rcases h3.rep with h4 | ⟨b, blk, h4⟩
    · have := h4.cap0; omega
    · rw [h4.ptrs] at hn; cases hn
  · exact h

example : (do
    let (v, m) ← Str.fromStr (strAlloc RawAlloc.bump) (utf8 ['é', 'a']) Mem.empty
    let bs ← v.asSlice m
    let z ← m.read v.endPtr
    .ok (bs, z)) = (.ok ([0xC3, 0xA9, 97], 0) : Exec _) := rfl

/-! ## C19 -/

/-- C19 is false: `push` keeps only the low 8 bits of the character.  On a string with well-formed
contents the result is well-formed exactly if these are below 128; so it never is for the characters
from U+0080 to U+00FF. -/
theorem C19_push_breaks_utf8 (R : RawAlloc UInt8) (m0 : Mem UInt8) (ops : List StrOp)
    {outs : List StrOut} {v : Vec} {m : Mem UInt8} {bs : List UInt8}
    (hrun : Str.run (strAlloc R) ops Vec.new m0 = .ok (outs, v, m)) (hb : v.asSlice m = .ok bs)
    (hw : WellFormed bs) (c : Char) :
    ∃ v' m' bs', Str.push (strAlloc R) c v m = .ok (v', m') ∧ v'.asSlice m' = .ok bs' ∧
      (WellFormed bs' ↔ c.toNat % 256 < 128) := by
  obtain ⟨bs0, cap, _, h⟩ := reachable_str hrun
  have : bs0 = bs := by
    have hs := h.slice
    rw [hb] at hs
    cases hs; rfl
  subst this
  obtain ⟨v', m', cap', he, hi', _⟩ := h.step (R := R) (.push c)
  have he' : Str.push (strAlloc R) c v m = .ok (v', m') := by
    simp only [Str.step] at he
    obtain ⟨⟨a, b⟩, h1, h2⟩ := Exec.bind_ok he
    cases h2; exact h1
  have hc : (charToByte c).toNat = c.toNat % 256 := by
    show (UInt32.toUInt8 c.val).toNat = _
    rw [UInt32.toNat_toUInt8]; rfl
  refine ⟨v', m', _, he', hi'.slice, fun h1 => ?_, fun h1 => ?_⟩
  · have h2 := h1.weight
    rw [bytesWeight_append, hw.weight] at h2
    rw [← hc]
    exact byteWeight_eq_zero.1 (by simpa [bytesWeight] using h2)
  · exact hw.join (wellFormed_ascii (by rw [hc]; exact h1))

/-- C19 is false: `remove` and `pop` take out single bytes.  The contents stay well-formed exactly
if the byte was an ASCII character; so they never are after a byte of a longer character was
removed. -/
theorem C19_remove_breaks_utf8 (R : RawAlloc UInt8) (m0 : Mem UInt8) (ops : List StrOp)
    {outs : List StrOut} {v : Vec} {m : Mem UInt8} {bs : List UInt8}
    (hrun : Str.run (strAlloc R) ops Vec.new m0 = .ok (outs, v, m)) (hb : v.asSlice m = .ok bs)
    (hw : WellFormed bs) :
    (∀ i b, bs[i]? = some b → ∃ c v' m' bs', Str.remove i v m = .ok (c, v', m') ∧
      v'.asSlice m' = .ok bs' ∧ (WellFormed bs' ↔ b.toNat < 128)) ∧
    (∀ b, bs.getLast? = some b → ∃ c v' m' bs', Str.pop v m = .ok (c, v', m') ∧
      v'.asSlice m' = .ok bs' ∧ (WellFormed bs' ↔ b.toNat < 128)) := by
  obtain ⟨bs0, cap, _, h⟩ := reachable_str hrun
  have : bs0 = bs := by
    have hs := h.slice
    rw [hb] at hs
    cases hs; rfl
  subst this
  have key : ∀ i b, bs0[i]? = some b →
      (WellFormed (bs0.take i ++ bs0.drop (i + 1)) ↔ b.toNat < 128) := by
    intro i b hi
    constructor
    · intro h1
      have h2 := h1.weight
      have h3 := hw.weight
      have h4 : bs0 = bs0.take i ++ b :: bs0.drop (i + 1) := by
        obtain ⟨hlt, rfl⟩ := List.getElem?_eq_some_iff.1 hi
        simp
      rw [h4, bytesWeight_append] at h3
      rw [bytesWeight_append] at h2
      have h5 : bytesWeight (b :: bs0.drop (i + 1)) =
          byteWeight b + bytesWeight (bs0.drop (i + 1)) := by simp [bytesWeight]
      exact byteWeight_eq_zero.1 (by omega)
    · intro h1
      obtain ⟨g1, g2⟩ := hw.split hi h1
      exact g1.join g2
  constructor
  · intro i b hi
    obtain ⟨v', m', cap', he, hi', _⟩ := h.step (R := R) (.remove i)
    simp only [Str.step] at he
    obtain ⟨⟨c, v1, m1⟩, h1, h2⟩ := Exec.bind_ok he
    cases h2
    exact ⟨_, _, _, _, h1, hi'.slice, key i b hi⟩
  · intro b hl
    obtain ⟨v', m', cap', he, hi', _⟩ := h.step (R := R) .pop
    simp only [Str.step] at he
    obtain ⟨⟨c, v1, m1⟩, h1, h2⟩ := Exec.bind_ok he
    cases h2
    refine ⟨_, _, _, _, h1, hi'.slice, ?_⟩
    rw [List.getLast?_eq_getElem?] at hl
    have := key _ b hl
    have hlt : bs0.length - 1 < bs0.length := (List.getElem?_eq_some_iff.1 hl).1
    rw [List.drop_eq_nil_of_le (by omega), List.append_nil] at this
    rw [List.dropLast_eq_take]
    exact this

/-- C19 is false: `insert` puts the low 8 bits of the character at a byte offset.  On a string with
well-formed contents the result is well-formed exactly if these are below 128 and the offset is
between two characters. -/
theorem C19_insert_breaks_utf8 (R : RawAlloc UInt8) (m0 : Mem UInt8) (ops : List StrOp)
    {outs : List StrOut} {v : Vec} {m : Mem UInt8} {bs : List UInt8}
    (hrun : Str.run (strAlloc R) ops Vec.new m0 = .ok (outs, v, m)) (hb : v.asSlice m = .ok bs)
    (hw : WellFormed bs) (i : Nat) (hi : i ≤ bs.length) (c : Char) :
    ∃ v' m' bs', Str.insert (strAlloc R) i c v m = .ok (v', m') ∧ v'.asSlice m' = .ok bs' ∧
      (WellFormed bs' ↔
        c.toNat % 256 < 128 ∧ WellFormed (bs.take i) ∧ WellFormed (bs.drop i)) := by
  obtain ⟨bs0, cap, _, h⟩ := reachable_str hrun
  have : bs0 = bs := by
    have hs := h.slice
    rw [hb] at hs
    cases hs; rfl
  subst this
  have hst := h.step (R := R) (.insert i c)
  simp only [byteStep, if_pos hi] at hst
  obtain ⟨v', m', cap', he, hi', _⟩ := hst
  have he' : Str.insert (strAlloc R) i c v m = .ok (v', m') := by
    simp only [Str.step] at he
    obtain ⟨⟨a, b⟩, h1, h2⟩ := Exec.bind_ok he
    cases h2; exact h1
  have hc : (charToByte c).toNat = c.toNat % 256 := by
    show (UInt32.toUInt8 c.val).toNat = _
    rw [UInt32.toNat_toUInt8]; rfl
  refine ⟨v', m', _, he', hi'.slice, fun h1 => ?_, fun h1 => ?_⟩
  · have h2 := h1.weight
    have h3 := hw.weight
    rw [← List.take_append_drop i bs0, bytesWeight_append] at h3
    rw [bytesWeight_append] at h2
    have h5 : bytesWeight (charToByte c :: bs0.drop i) =
        byteWeight (charToByte c) + bytesWeight (bs0.drop i) := by simp [bytesWeight]
    have h6 : (charToByte c).toNat < 128 := byteWeight_eq_zero.1 (by omega)
    have hlen : (bs0.take i).length = i := by simp [hi]
    obtain ⟨g1, g2⟩ := h1.split (i := i) (b := charToByte c)
      (by rw [List.getElem?_append_right (by omega), hlen]; simp) h6
    refine ⟨hc ▸ h6, ?_, ?_⟩
    · rwa [List.take_append_of_le_length (by omega), List.take_of_length_le (by omega)] at g1
    · have e : (bs0.take i ++ charToByte c :: bs0.drop i).drop (i + 1) = bs0.drop i := by
        rw [List.drop_append, hlen, List.drop_eq_nil_of_le (by omega)]
        simp
      rwa [e] at g2
  · have h2 := h1.2.1.join ((wellFormed_ascii (b := charToByte c) (by rw [hc]; exact h1.1)).join
      h1.2.2)
    simpa using h2

/-- Inserting a letter before, inside and after a two-byte character. -/
example : ([0, 1, 2].map fun i => (do
    let (v, m) ← Str.fromStr (strAlloc RawAlloc.bump) (utf8 ['é']) Mem.empty
    let (v, m) ← Str.insert (strAlloc RawAlloc.bump) i 'a' v m
    v.asSlice m)) = ([.ok [97, 0xC3, 0xA9], .ok [0xC3, 97, 0xA9], .ok [0xC3, 0xA9, 97]] :
      List (Exec _)) := rfl

/-- For instance, after `push('é')` the bytes are `[0xE9]`; after `assign("é")` and `pop` they are
`[0xC3]`. -/
example : ((do
    let (_, v, m) ← Str.run (strAlloc RawAlloc.bump) [.push 'é'] Vec.new Mem.empty
    v.asSlice m) = (.ok [0xE9] : Exec _)) ∧ ((do
    let (_, v, m) ← Str.run (strAlloc RawAlloc.bump) [.assign ['é'], .pop] Vec.new Mem.empty
    v.asSlice m) = (.ok [0xC3] : Exec _)) := ⟨rfl, rfl⟩

/-- What remains of C19, first part: any history of push, pop, insert, remove, reserve with
ASCII characters. -/
theorem C19_ascii_partial (R : RawAlloc UInt8) (m0 : Mem UInt8) (ops : List StrOp)
    (hops : ∀ op ∈ ops, op.Ascii) {outs : List StrOut} {v : Vec} {m : Mem UInt8}
    (hrun : Str.run (strAlloc R) ops Vec.new m0 = .ok (outs, v, m)) :
    ∃ bs, v.asSlice m = .ok bs ∧ WellFormed bs := by
  obtain ⟨bs, cap, hb, hi⟩ := reachable_str hrun
  refine ⟨bs, hi.slice, ?_⟩
  have key : ∀ (ops : List StrOp), (∀ op ∈ ops, op.Ascii) → ∀ (cs : List Char) (outs : List StrOut)
      (bs : List UInt8), (∀ c ∈ cs, IsAscii c) → byteRun ops (cs.map charToByte) = .ok (outs, bs) →
      WellFormed bs := by
    intro ops
    induction ops with
    | nil =>
      intro _ cs outs bs hcs h
      cases h
      exact ⟨cs, (utf8_ascii hcs).symm⟩
    | cons op ops ih =>
      intro hops cs outs bs hcs h
      have ha := hops op (by simp)
      have h1 : ∃ (o : StrOut) (cs' : List Char),
          (byteStep op (cs.map charToByte) = .ok (o, cs'.map charToByte) ∧ ∀ c ∈ cs', IsAscii c) ∨
          ∃ e, byteStep op (cs.map charToByte) = .error e := by
        by_cases hass : op.isAssign = false
        · have h2 := byteStep_ascii ha hass hcs
          cases hs : op.step cs with
          | error e => rw [hs] at h2; exact ⟨.unit, [], .inr ⟨e, h2⟩⟩
          | ok r => rw [hs] at h2; exact ⟨r.1, r.2, .inl h2⟩
        · cases op with
          | assign s =>
            refine ⟨.unit, cs ++ s, .inl ⟨by simp [byteStep, utf8_ascii ha], ?_⟩⟩
            intro c hc
            rcases List.mem_append.1 hc with h | h
            · exact hcs c h
            · exact ha c h
          | _ => simp [StrOp.isAssign] at hass
      obtain ⟨o, cs', ⟨h1, h2⟩ | ⟨e, h1⟩⟩ := h1
      · simp only [byteRun, h1] at h
        cases hr : byteRun ops (cs'.map charToByte) with
        | error e => rw [hr] at h; cases h
        | ok r =>
          rw [hr] at h
          cases h
          exact ih (fun op' ho => hops op' (by simp [ho])) cs' r.1 r.2 h2 hr
      · simp only [byteRun, h1] at h
        cases h
  exact key ops hops [] outs bs (by simp) hb

/-- The calls that only add to the end: pushing ASCII, assigning any text, reserving, reading. -/
def Spec.StrOp.Adds : StrOp → Prop
  | .push c => IsAscii c
  | .assign _ | .reserve _ | .len | .isEmpty => True
  | _ => False

/-- What remains of C19, second part: any text added by `assign` (or `From<&str>`) and any ASCII
character pushed.  Missing: non-ASCII characters given to push or insert, and pop, insert,
remove on non-ASCII text, for which it is false. -/
theorem C19_adding_partial (R : RawAlloc UInt8) (m0 : Mem UInt8) (ops : List StrOp)
    (hops : ∀ op ∈ ops, op.Adds) {outs : List StrOut} {v : Vec} {m : Mem UInt8}
    (hrun : Str.run (strAlloc R) ops Vec.new m0 = .ok (outs, v, m)) :
    ∃ bs, v.asSlice m = .ok bs ∧ WellFormed bs := by
  obtain ⟨bs, cap, hb, hi⟩ := reachable_str hrun
  refine ⟨bs, hi.slice, ?_⟩
  have key : ∀ (ops : List StrOp), (∀ op ∈ ops, op.Adds) → ∀ (outs : List StrOut)
      (bs0 bs : List UInt8), WellFormed bs0 → byteRun ops bs0 = .ok (outs, bs) →
      WellFormed bs := by
    intro ops
    induction ops with
    | nil => intro _ outs bs0 bs hw h; cases h; exact hw
    | cons op ops ih =>
      intro hops outs bs0 bs hw h
      have ha := hops op (by simp)
      have h1 : ∃ o bs1, byteStep op bs0 = .ok (o, bs1) ∧ WellFormed bs1 := by
        cases op with
        | push c =>
          refine ⟨_, _, rfl, hw.join ⟨[c], ?_⟩⟩
          simp [utf8, utf8EncodeChar_ascii ha]
        | assign s => exact ⟨_, _, rfl, hw.join ⟨s, rfl⟩⟩
        | reserve n => exact ⟨_, _, rfl, hw⟩
        | len => exact ⟨_, _, rfl, hw⟩
        | isEmpty => exact ⟨_, _, rfl, hw⟩
        | pop => exact ha.elim
        | insert i c => exact ha.elim
        | remove i => exact ha.elim
      obtain ⟨o, bs1, h1, hw1⟩ := h1
      simp only [byteRun, h1] at h
      cases hr : byteRun ops bs1 with
      | error e => rw [hr] at h; cases h
      | ok r =>
        rw [hr] at h
        cases h
        exact ih (fun op' ho => hops op' (by simp [ho])) r.1 bs1 r.2 hw1 hr
  exact key ops hops outs [] bs ⟨[], rfl⟩ hb

example : (do
    let (_, v, m) ← Str.run (strAlloc RawAlloc.bump) [.assign ['é'], .push 'a'] Vec.new Mem.empty
    v.asSlice m) = (.ok [0xC3, 0xA9, 97] : Exec _) := rfl

/-! ## C20 -/

/-- C20.  For every history, with any characters: no call reads or writes memory the string
does not own (the only failure is a panic of `insert`); afterwards the string owns nothing
(capacity 0) or exactly one block of capacity + 1 bytes, everything else is as before; and
dropping it succeeds and leaves memory as it was. -/
theorem C20_string_memory (R : RawAlloc UInt8) (m0 : Mem UInt8) (ops : List StrOp) :
    (∀ e, Str.run (strAlloc R) ops Vec.new m0 = .error e → e = .panic) ∧
    ∀ {outs : List StrOut} {v : Vec} {m : Mem UInt8},
      Str.run (strAlloc R) ops Vec.new m0 = .ok (outs, v, m) →
      (∃ cap, v.capacity = .ok cap ∧
        ((cap = 0 ∧ m.live = m0.live) ∨
         ∃ b blk, m0.live b = none ∧ m.live = Function.update m0.live b (some blk) ∧
           v.beginPtr = .loc b 0 ∧ blk.region = .heap ∧ blk.size = cap + 1)) ∧
      ∃ m', Str.drop (strAlloc R) v m = .ok m' ∧ m'.live = m0.live := by
  constructor
  · intro e he
    have h := SInv.run (R := R) ops (VInv.new nullFits m0)
    have hb : ∀ (ops : List StrOp) (bs : List UInt8) (e : Fault), byteRun ops bs = .error e →
        e = .panic := by
      intro ops
      induction ops with
      | nil => intro bs e h; cases h
      | cons op ops ih =>
        intro bs e h
        simp only [byteRun] at h
        cases hs : byteStep op bs with
        | error e' =>
          rw [hs] at h
          cases h
          cases op <;> simp only [byteStep] at hs <;> try cases hs
          split at hs <;> cases hs
          rfl
        | ok r =>
          rw [hs] at h
          simp only at h
          cases hr : byteRun ops r.2 with
          | error e' => rw [hr] at h; cases h; exact ih _ _ hr
          | ok r' => rw [hr] at h; cases h
    cases hr : byteRun ops [] with
    | error e' =>
      rw [hr] at h
      simp only at h
      rw [he] at h
      cases h
      exact hb _ _ _ hr
    | ok r =>
      rw [hr] at h
      obtain ⟨v, m, cap, h1, _⟩ := h
      rw [he] at h1
      cases h1
  · intro outs v m hrun
    obtain ⟨bs, cap, _, hi⟩ := reachable_str hrun
    constructor
    · refine ⟨cap, hi.capacity, ?_⟩
      rcases hi.rep with h | ⟨b, blk, h⟩
      · exact .inl ⟨h.cap0, h.live⟩
      · exact .inr ⟨b, blk, h.fresh, h.live, by rw [h.ptrs], h.fit.1, h.fit.2⟩
    · obtain ⟨m', he, _, hw, _, _, _⟩ := hi.clear (nullTerm_lawful R) false
      exact ⟨m', by simp [Str.drop, he], funext fun p => hw p not_false⟩

/-- Characters of two and three bytes, in a block of seven. -/
example : (do
    let (_, v, m) ← Str.run (strAlloc RawAlloc.bump) [.assign ['é'], .push 'a', .push '€', .pop]
      Vec.new Mem.empty
    let m' ← Str.drop (strAlloc RawAlloc.bump) v m
    .ok (v.capacity, (List.range 4).map fun b => ((m.live b).map Block.size, (m'.live b).isSome))) =
  (.ok (.ok 6, [(none, false), (some 7, false), (none, false), (none, false)]) : Exec _) := rfl

/-! ## C21 -/

theorem VRep.frame {α : Type} {fits : Nat → Nat → Region → Nat → Prop} {w : World α}
    {m1 m2 : Mem α} {v1 v2 : Vec} {xs ys : List α} {c1 c2 : Nat}
    (h1 : VRep fits w m1 v1 xs c1) (h2 : VRep fits m1.live m2 v2 ys c2) :
    v1.asSlice m2 = .ok xs := by
  rcases h1 with h1 | ⟨b, blk, h1⟩
  · rw [h1.ptrs, h1.nil]; rfl
  · have hl : m2.live b = some blk := by
      rcases h2 with h2 | ⟨b2, blk2, h2⟩
      · rw [h2.live]; exact h1.live_b
      · have : b ≠ b2 := by
          rintro rfl
          have := h2.fresh
          rw [h1.live_b] at this
          cases this
        rw [h2.live]; simp [this, h1.live_b]
    have h3 : VOwn fits (Function.update m2.live b none) m2 v1 b blk xs c1 :=
      { h1 with
        fresh := by simp
        live := by rw [Function.update_idem, ← hl, Function.update_eq_self] }
    exact h3.rep.slice

/-- C21.  Two strings built one after the other by arbitrary histories (hence with arbitrary
capacities and addresses): they compare equal exactly if their bytes are equal, and each
hashes to the FNV-1 hash of its bytes; so equal strings hash equally. -/
theorem C21_string_eq_hash (R : RawAlloc UInt8) (m0 m1 m2 : Mem UInt8) (ops1 ops2 : List StrOp)
    {o1 o2 : List StrOut} {a b : Vec}
    (h1 : Str.run (strAlloc R) ops1 Vec.new m0 = .ok (o1, a, m1))
    (h2 : Str.run (strAlloc R) ops2 Vec.new m1 = .ok (o2, b, m2)) :
    ∃ xs ys, a.asSlice m1 = .ok xs ∧ a.asSlice m2 = .ok xs ∧ b.asSlice m2 = .ok ys ∧
      Str.eq a b m2 = .ok (decide (xs = ys)) ∧ Str.eq a a m2 = .ok true ∧
      (∃ h, Str.hash a m2 = .ok h ∧ h.toNat = fnv1_32 (xs.map UInt8.toNat)) ∧
      (∃ h, Str.hash b m2 = .ok h ∧ h.toNat = fnv1_32 (ys.map UInt8.toNat)) ∧
      (Str.eq a b m2 = .ok true → Str.hash a m2 = Str.hash b m2) := by
  obtain ⟨xs, c1, _, hi1⟩ := reachable_str h1
  obtain ⟨ys, c2, _, hi2⟩ := reachable_str h2
  have ha := VRep.frame hi1.rep hi2.rep
  have he : Str.eq a b m2 = .ok (decide (xs = ys)) := by
    simp only [Str.eq, ha, hi2.slice, Exec.ok_bind, Except.ok.injEq]
    by_cases h : xs = ys <;> simp [h]
  refine ⟨xs, ys, hi1.slice, ha, hi2.slice, he, by simp [Str.eq, ha],
    ⟨_, by simp only [Str.hash, ha, Exec.ok_bind], fnv1_spec xs⟩,
    ⟨_, by simp only [Str.hash, hi2.slice, Exec.ok_bind], fnv1_spec ys⟩, ?_⟩
  intro h
  rw [he] at h
  simp only [Except.ok.injEq, decide_eq_true_eq] at h
  simp [Str.hash, ha, hi2.slice, h]

/-- The crate's own test vector, and two equal strings with different histories and
capacities. -/
example : (fnv1 (utf8 ['T', 'e', 's', 't'])).toNat = 556965705 := by decide +kernel
example : (do
    let (_, a, m) ← Str.run (strAlloc RawAlloc.bump) [.push 'a', .push 'b', .pop] Vec.new Mem.empty
    let (_, b, m) ← Str.run (strAlloc RawAlloc.bump) [.reserve 9, .push 'a'] Vec.new m
    let e ← Str.eq a b m
    .ok (e, a.capacity, b.capacity)) = (.ok (true, .ok 2, .ok 10) : Exec _) := rfl

end Verif
