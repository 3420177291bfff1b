import Verif.Machine.TextProofs
import Verif.Props.Text
import Verif.Props.Machine

/-!
# Properties C147, C148: `String` on a 64-bit machine

`B` is the build mode: with overflow checks (debug) or without (release).  The system allocator
never runs out of memory in C147 and C148 (`R.total`).
-/

set_option autoImplicit false

namespace Verif
open Spec

/-! ## C147 -/

/-- C147.  As long as every capacity asked for, with the terminator, fits in the address space:
every history of push, pop, insert, remove, reserve, len and is_empty with ASCII characters on an
empty `String`, compiled with or without overflow checks, returns (or panics) as on the sequence of
characters, whose UTF-8 encoding is then the contents. -/
theorem C147_machine_string (B : Build) (R : RawAlloc UInt8) (m0 : Mem UInt8) (ops : List StrOp)
    (hops : ∀ op ∈ ops, op.Ascii ∧ op.isAssign = false)
    (hfit : ∀ c ∈ StrOp.caps ops 0 0, TextFits c) :
    match StrOp.run ops [] with
    | .error e => Str.runM B (strAllocM B R.total) ops Vec.new m0 = .error e
    | .ok (outs, cs) => ∃ v m,
        Str.runM B (strAllocM B R.total) ops Vec.new m0 = .ok (outs, v, m) ∧
        v.asSlice m = .ok (utf8 cs) ∧ v.len = .ok cs.length := by
  have h := C16_string_refines_text R m0 ops hops
  rw [strRunM_eq (R := R) B ops (VInv.new nullFits m0) (by unfold TextFits; omega) hfit]
  cases hr : StrOp.run ops [] with
  | error e => rw [hr] at h; exact h
  | ok r =>
    obtain ⟨outs, cs⟩ := r
    rw [hr] at h
    obtain ⟨v, m, h1, h2, _, h3⟩ := h
    exact ⟨v, m, h1, h2, h3⟩

/-- C147, all histories: with `assign`, and whatever the characters, a machine string whose
capacities fit returns, contains and writes exactly what the string of C16 to C21 does. -/
theorem C147_machine_string_same (B : Build) (R : RawAlloc UInt8) (m0 : Mem UInt8)
    (ops : List StrOp) (hfit : ∀ c ∈ StrOp.caps ops 0 0, TextFits c) :
    Str.runM B (strAllocM B R.total) ops Vec.new m0 = Str.run (strAlloc R) ops Vec.new m0 :=
  strRunM_eq B ops (VInv.new nullFits m0) (by unfold TextFits; omega) hfit

/-- C147, the capacities.  They are those of `StrOp.caps`. -/
theorem C147_machine_string_capacity (B : Build) (R : RawAlloc UInt8) (m0 : Mem UInt8)
    (ops : List StrOp) (hfit : ∀ c ∈ StrOp.caps ops 0 0, TextFits c) {outs : List StrOut} {v : Vec}
    {m : Mem UInt8} (hrun : Str.runM B (strAllocM B R.total) ops Vec.new m0 = .ok (outs, v, m)) :
    v.capacity = .ok ((StrOp.caps ops 0 0).getLast?.getD 0) := by
  rw [C147_machine_string_same B R m0 ops hfit] at hrun
  have key : ∀ (ops : List StrOp) (v0 : Vec) (m1 : Mem UInt8) (bs : List UInt8) (cap : Nat)
      (outs : List StrOut), SInv m0.live m1 v0 bs cap →
      Str.run (strAlloc R) ops v0 m1 = .ok (outs, v, m) →
      v.capacity = .ok ((StrOp.caps ops bs.length cap).getLast?.getD cap) := by
    intro ops
    induction ops with
    | nil =>
      intro v0 m1 bs cap outs hi hr
      cases hr
      exact hi.capacity
    | cons op ops ih =>
      intro v0 m1 bs cap outs hi hr
      cases hp : op.panics bs.length with
      | true =>
        cases op with
        | insert i c =>
          have : ¬ i ≤ bs.length := by simpa [StrOp.panics] using hp
          simp [Str.run, Str.step, Str.insert, hi.insert_panic _ this] at hr
        | _ => simp [StrOp.panics] at hp
      | false =>
        obtain ⟨o, v', m', bs', he, hi', hlen⟩ := hi.step_caps (R := R) op hp
        simp only [Str.run, he, Exec.ok_bind] at hr
        cases hr2 : Str.run (strAlloc R) ops v' m' with
        | error e => rw [hr2] at hr; cases hr
        | ok r =>
          obtain ⟨os, v2, m2⟩ := r
          rw [hr2] at hr
          cases hr
          have := ih v' m' bs' _ os hi' hr2
          rw [this]
          simp only [StrOp.caps, hp, Bool.false_eq_true, if_false, List.getLast?_cons, ← hlen,
            Option.getD_some]
  exact key ops Vec.new m0 [] 0 outs (VInv.new nullFits m0) hrun

/-- C147 without the limit, in a debug build: every history does what the string of C16 to C21 does
or panics. -/
theorem C147_debug_string (R : RawAlloc UInt8) (m0 : Mem UInt8) (ops : List StrOp) :
    Str.runM .debug (strAllocM .debug R.total) ops Vec.new m0 = .error .panic ∨
    ∃ outs v m bs, Str.runM .debug (strAllocM .debug R.total) ops Vec.new m0 = .ok (outs, v, m) ∧
      Str.run (strAlloc R) ops Vec.new m0 = .ok (outs, v, m) ∧ v.asSlice m = .ok bs := by
  rcases strRun_orPanic R ops Vec.new m0 with h | h
  · have h2 := SInv.run (R := R) ops (VInv.new nullFits m0)
    cases hr : byteRun ops [] with
    | error e =>
      rw [hr] at h2
      simp only [] at h2
      have : ∀ (ops : List StrOp) (bs : List UInt8), byteRun ops bs = .error e → e = .panic := by
        intro ops
        induction ops with
        | nil => intro bs hx; cases hx
        | cons op ops ih =>
          intro bs hx
          unfold byteRun at hx
          cases hs : byteStep op bs with
          | error e' =>
            rw [hs] at hx
            cases hx
            cases op <;> simp only [byteStep] at hs <;> try cases hs
            split at hs <;> cases hs
            rfl
          | ok r =>
            obtain ⟨o, bs'⟩ := r
            rw [hs] at hx
            simp only [] at hx
            cases hr2 : byteRun ops bs' with
            | error e' => rw [hr2] at hx; cases hx; exact ih bs' hr2
            | ok r2 => rw [hr2] at hx; cases hx
      rw [this ops [] hr] at h2
      exact .inl (h.trans h2)
    | ok r =>
      obtain ⟨os, bs⟩ := r
      rw [hr] at h2
      obtain ⟨v, m, cap, he, hi⟩ := h2
      exact .inr ⟨os, v, m, bs, h.trans he, he, hi.slice⟩
  · exact .inl h

/-- A history that fits, in a release build. -/
example : StrOp.caps [.push 'a', .push 'b', .insert 0 'c', .reserve 3, .remove 1, .assign ['é']]
    0 0 = [1, 2, 4, 8, 8, 11] := by decide +kernel
example : ∀ c ∈ [1, 2, 4, 8, 8, 11], TextFits c := by unfold TextFits; decide
example : (do
    let (_, v, m) ← Str.runM .release (strAllocM .release RawAlloc.bump.total)
      [.push 'a', .push 'b', .insert 0 'c', .reserve 3, .remove 1, .assign ['é']] Vec.new Mem.empty
    let bs ← v.asSlice m
    .ok (bs, ← v.capacity)) = .ok ([99, 98, 195, 169], 11) := by decide +kernel

/-- A request too large for the address space panics in a debug build. -/
example : (Str.runM .debug (strAllocM .debug RawAlloc.bump.total)
    [.push 'a', .reserve (2 ^ 64 - 1)] Vec.new Mem.empty).map (fun _ => ()) = .error .panic := by
  decide +kernel

/-! ## C148 -/

/-- The state of a release-build string after a history that fits. -/
theorem release_reachable {R : RawAlloc UInt8} {m0 : Mem UInt8} {ops : List StrOp}
    (hfit : ∀ c ∈ StrOp.caps ops 0 0, TextFits c) {outs : List StrOut} {v : Vec} {m : Mem UInt8}
    {bs : List UInt8} {cap : Nat}
    (hrun : Str.runM .release (strAllocM .release R.total) ops Vec.new m0 = .ok (outs, v, m))
    (hb : v.asSlice m = .ok bs) (hc : v.capacity = .ok cap) :
    SInv m0.live m v bs cap ∧ TextFits cap := by
  have hc' := C147_machine_string_capacity .release R m0 ops hfit hrun
  rw [C147_machine_string_same .release R m0 ops hfit] at hrun
  obtain ⟨bs', cap', _, hi⟩ := reachable_str hrun
  have h1 := hi.slice.symm.trans hb
  have h2 := hi.capacity.symm.trans hc
  have h3 := hc'.symm.trans hc
  cases h1; cases h2
  refine ⟨hi, ?_⟩
  simp only [Except.ok.injEq] at h3
  rw [← h3]
  cases hl : (StrOp.caps ops 0 0).getLast? with
  | none => unfold TextFits; simp
  | some c => exact hfit c (List.mem_of_getLast? hl)

/-- The vector of a string asked for more capacity than fits, in a release build: the new capacity
wraps around to `cap - k`. -/
theorem reserveM_wraps {R : RawAlloc UInt8} {v : Vec} {m : Mem UInt8} {len cap k : Nat}
    (hl : v.len = .ok len) (hc : v.capacity = .ok cap) (hf : TextFits cap) (hk : 0 < k)
    (hk' : k ≤ cap) :
    Str.reserveM .release (strAllocM .release R.total) (2 ^ 64 - 1 - k) v m = (do
      let (nb, m) ← (strAlloc R).alloc (cap - k) m
      let m ← (if v.beginPtr = .null then .ok m else do
        let m ← m.copy v.beginPtr nb len
        (strAlloc R).dealloc v.beginPtr cap m)
      let e ← m.ptrAdd nb len
      let c ← m.ptrAdd nb (cap - k)
      .ok (⟨nb, e, c⟩, m)) := by
  have hf' := hf
  unfold TextFits at hf'
  have h1 : 2 ^ 64 - 1 - k + 1 = 2 ^ 64 - k := by omega
  have h0 : 2 ^ 64 - k ≠ 0 := by omega
  have h2 : Build.release.usize (2 ^ 64 - k) = .ok (2 ^ 64 - k) :=
    Build.usize_ok _ (by omega)
  have hus : Build.release.usize (cap + (2 ^ 64 - k)) = .ok (cap - k) := by
    have h1 : ¬ cap + (2 ^ 64 - k) < 2 ^ 64 := by omega
    simp only [Build.usize, h1, if_false]
    rw [show cap + (2 ^ 64 - k) = (cap - k) + 2 ^ 64 by omega, Nat.add_mod_right,
      Nat.mod_eq_of_lt (by omega)]
  simp only [Str.reserveM, h1, h2, Exec.ok_bind, Vec.reserveM, h0, if_false, hl, hc, hus,
    strAllocM_alloc .release R (show TextFits (cap - k) by unfold TextFits; omega),
    strAllocM_dealloc .release R.total R hf]

theorem strAlloc_block (R : RawAlloc UInt8) (n : Nat) (m : Mem UInt8) :
    ∃ b blk m', (strAlloc R).alloc n m = .ok (.loc b 0, m') ∧ m.live b = none ∧
      m'.live = Function.update m.live b (some blk) ∧ blk.size = n + 1 := by
  let blk0 : Block UInt8 := ⟨n + 1, .heap, fun _ => none⟩
  let blk : Block UInt8 := { blk0 with cells := Function.update blk0.cells n (some 0) }
  have hb : (R.alloc (n + 1) m).2.live (R.pick m (n + 1)) = some blk0 := by
    show Function.update m.live (R.pick m (n + 1)) (some blk0) (R.pick m (n + 1)) = some blk0
    simp
  refine ⟨R.pick m (n + 1), blk,
    (R.alloc (n + 1) m).2.setBlock (R.pick m (n + 1)) (some blk), ?_, R.fresh m (n + 1), ?_, rfl⟩
  · show (do let q ← (R.alloc (n + 1) m).2.ptrAdd (.loc (R.pick m (n + 1)) 0) n
             let m' ← (R.alloc (n + 1) m).2.write q 0
             Except.ok (Ptr.loc (R.pick m (n + 1)) 0, m') : Exec _) = _
    have hw := Mem.write_loc (m := (R.alloc (n + 1) m).2) (o := 0 + n) (0 : UInt8) hb
      (by show 0 + n < n + 1; omega)
    have hp := Mem.ptrAdd_loc (m := (R.alloc (n + 1) m).2) (o := 0) (n := n) hb
      (by show 0 + n ≤ n + 1; omega)
    rw [hp, Exec.ok_bind, hw]
    simp [blk]
  · show Function.update (Function.update m.live _ (some blk0)) _ (some blk) = _
    rw [Function.update_idem]

/-- C148 is false in release builds: `reserve(usize::MAX)` returns, having reserved nothing. -/
theorem C148_release_reserve_lost (R : RawAlloc UInt8) (v : Vec) (m : Mem UInt8) :
    Str.reserveM .release (strAllocM .release R.total) (2 ^ 64 - 1) v m = .ok (v, m) := by
  simp [Str.reserveM, Build.usize, Vec.reserveM]

/-- C148 is false in release builds: let a reachable string have capacity `cap` and at least two
bytes.  For every `k` with `cap - len + 1 < k ≤ cap` the call `reserve(usize::MAX - k)` computes the
new capacity `cap - k`, asks for one byte more, and copies the text, which is longer, into it:
undefined behaviour. -/
theorem C148_release_reserve_ub (R : RawAlloc UInt8) (m0 : Mem UInt8) (ops : List StrOp)
    (hfit : ∀ c ∈ StrOp.caps ops 0 0, TextFits c) {outs : List StrOut} {v : Vec} {m : Mem UInt8}
    {bs : List UInt8} {cap k : Nat}
    (hrun : Str.runM .release (strAllocM .release R.total) ops Vec.new m0 = .ok (outs, v, m))
    (hb : v.asSlice m = .ok bs) (hc : v.capacity = .ok cap) (hk : cap - bs.length + 1 < k)
    (hk' : k ≤ cap) :
    Str.reserveM .release (strAllocM .release R.total) (2 ^ 64 - 1 - k) v m = .error .ub := by
  obtain ⟨hi, hf⟩ := release_reachable hfit hrun hb hc
  have hlen := hi.len_le
  rw [reserveM_wraps hi.len hc hf (by omega) hk']
  obtain ⟨b0, blk0, ho⟩ := hi.own (by rintro rfl; simp only [List.length_nil] at hk; omega)
  obtain ⟨b, blk, m', he, hfree, hlive, hsz⟩ := strAlloc_block R (cap - k) m
  have hp := ho.ptrs
  have h1 : ¬ bs.length ≤ blk.size := by omega
  have hcopy : m'.copy v.beginPtr (.loc b 0) bs.length = .error .ub := by
    rw [hp]
    unfold Mem.copy
    have hbb : m'.live b = some blk := by rw [hlive]; simp
    cases hs : m'.live b0 with
    | none => simp only [hs]
    | some s => simp only [hs, hbb, Nat.zero_add, h1, and_false, if_false]
  simp only [he, Exec.ok_bind, hcopy]
  rw [hp]
  rfl

/-- C148 is false in release builds: `reserve(usize::MAX - (cap - len + 1))` on a reachable string
with at least one byte returns with the same text, but a capacity one less than its length.  The
string then believes that it has room, and pushing any character writes out of bounds. -/
theorem C148_release_longer_than_capacity (R : RawAlloc UInt8) (m0 : Mem UInt8) (ops : List StrOp)
    (hfit : ∀ c ∈ StrOp.caps ops 0 0, TextFits c) {outs : List StrOut} {v : Vec} {m : Mem UInt8}
    {bs : List UInt8} {cap : Nat}
    (hrun : Str.runM .release (strAllocM .release R.total) ops Vec.new m0 = .ok (outs, v, m))
    (hb : v.asSlice m = .ok bs) (hc : v.capacity = .ok cap) (hne : bs ≠ []) :
    ∃ v' m', Str.reserveM .release (strAllocM .release R.total)
        (2 ^ 64 - 1 - (cap - bs.length + 1)) v m = .ok (v', m') ∧
      v'.asSlice m' = .ok bs ∧ v'.capacity = .ok (bs.length - 1) ∧ v'.isFull = .ok false ∧
      ∀ c : Char, Str.pushM .release (strAllocM .release R.total) c v' m' = .error .ub := by
  obtain ⟨hi, hf⟩ := release_reachable hfit hrun hb hc
  have hlen := hi.len_le
  have hpos := List.length_pos_of_ne_nil hne
  have hk : cap - (cap - bs.length + 1) = bs.length - 1 := by omega
  rw [reserveM_wraps hi.len hc hf (by omega) (by omega), hk]
  obtain ⟨b0, blk0, ho⟩ := hi.own hne
  obtain ⟨b, blk, m1, he, hfree, hlive, hsz⟩ := strAlloc_block R (bs.length - 1) m
  have hp := ho.ptrs
  have h0 := ho.live_b
  have hbne : b0 ≠ b := by rintro rfl; rw [h0] at hfree; cases hfree
  have hl0 : m1.live b0 = some blk0 := by rw [hlive, Function.update_of_ne hbne]; exact h0
  have hlb : m1.live b = some blk := by rw [hlive]; simp
  have hsz' : blk.size = bs.length := by omega
  have hle0 := ho.cap_le
  obtain ⟨m2, hcopy, hl2, -⟩ :=
    Mem.copy_loc (so := 0) (d := 0) (n := bs.length) hl0 hlb (by omega) (by omega)
  have hfit0 := ho.2.choose_spec.2.fit
  have h02 : m2.live b0 = some blk0 := by rw [hl2, Function.update_of_ne hbne]; exact hl0
  obtain ⟨m3, hd, hl3, -⟩ := (nullTerm_lawful R).dealloc_free b0 cap m2 blk0 h02 hfit0 id
  let blk' : Block UInt8 := { blk with
    cells := fun j => if 0 ≤ j ∧ j < 0 + bs.length then blk0.cells (0 + (j - 0)) else blk.cells j }
  have hb3 : m3.live b = some blk' := by
    rw [hl3, Function.update_of_ne (Ne.symm hbne), hl2]; simp [blk']
  have hs3 : blk'.size = bs.length := hsz'
  have he3 := Mem.ptrAdd_loc (o := 0) (n := bs.length) hb3 (by omega)
  have hc3 := Mem.ptrAdd_loc (o := 0) (n := bs.length - 1) hb3 (by omega)
  have hd' : (strAlloc R).dealloc (.loc b0 0) cap m2 = .ok m3 := hd
  have hcells := ho.cells
  refine ⟨⟨.loc b 0, .loc b bs.length, .loc b (bs.length - 1)⟩, m3, ?_, ?_, ?_, ?_, ?_⟩
  · rw [hp]
    simp only [he, Exec.ok_bind, reduceCtorEq, if_false, hcopy, hd', he3, hc3, Nat.zero_add]
  · have hr := Mem.readRange_loc hb3 bs 0 (by omega) (by
      intro i hi'
      simp only [blk', Nat.zero_le, true_and, Nat.zero_add, Nat.sub_zero, hi', if_true]
      exact hcells i hi')
    simpa [Vec.asSlice, Vec.len, Ptr.offsetFrom] using hr
  · simp [Vec.capacity, Ptr.offsetFrom]
  · have : bs.length ≠ bs.length - 1 := by omega
    simp [Vec.isFull, Vec.len, Vec.capacity, Ptr.offsetFrom, this]
  · intro c
    have h1 : bs.length ≠ bs.length - 1 := by omega
    have h2 : m3.ptrAdd (.loc b 0) (bs.length + 1) = .error .ub := by
      simp [Mem.ptrAdd, hb3, hs3]
    have h3 : m3.ptrAdd (.loc b 0) bs.length = .ok (.loc b bs.length) := by
      rw [he3, Nat.zero_add]
    simp [Str.pushM, Str.insertM, Vec.insertM, Vec.isFull, Vec.len, Vec.capacity, Ptr.offsetFrom,
      h1, h2, h3]

/-- The allocator inside the strings of the instances below. -/
abbrev releaseBytes : Allocator UInt8 := strAllocM .release RawAlloc.bump.total
/-- The same in a debug build. -/
abbrev debugBytes : Allocator UInt8 := strAllocM .debug RawAlloc.bump.total

/-- Instance: the string "abc", of capacity 4, in a release build.  Asking for `usize::MAX` more
bytes does nothing; asking for `usize::MAX - 3` is undefined behaviour. -/
example : (do
    let (_, v, m) ← Str.runM .release releaseBytes [.push 'a', .push 'b', .push 'c'] Vec.new Mem.empty
    let (v1, m1) ← Str.reserveM .release releaseBytes (2 ^ 64 - 1) v m
    .ok (v1.asSlice m1, v1.capacity,
      (Str.reserveM .release releaseBytes (2 ^ 64 - 1 - 3) v m).map fun _ => ())) =
    .ok (.ok [97, 98, 99], .ok 4, .error .ub) := by
  decide +kernel

/-- Instance: after asking for `usize::MAX - 2` more bytes the length is 3, the capacity 2, and a
push is undefined behaviour. -/
example : (do
    let (_, v, m) ← Str.runM .release releaseBytes [.push 'a', .push 'b', .push 'c'] Vec.new Mem.empty
    let (v2, m2) ← Str.reserveM .release releaseBytes (2 ^ 64 - 1 - 2) v m
    let bs ← v2.asSlice m2
    .ok (bs, v2.capacity, (Str.pushM .release releaseBytes 'd' v2 m2).map fun _ => ())) =
    .ok ([97, 98, 99], .ok 2, .error .ub) := by
  decide +kernel

/-- C148, what is true: in a debug build, on a reachable string, `reserve(n)` panics or yields the
same text with room for exactly `n + 1` more bytes. -/
theorem C148_debug_reserve_partial (R : RawAlloc UInt8) (m0 : Mem UInt8) (ops : List StrOp)
    {outs : List StrOut} {v : Vec} {m : Mem UInt8} {bs : List UInt8} {cap : Nat}
    (hrun : Str.runM .debug (strAllocM .debug R.total) ops Vec.new m0 = .ok (outs, v, m))
    (hb : v.asSlice m = .ok bs) (hc : v.capacity = .ok cap) (n : Nat) :
    Str.reserveM .debug (strAllocM .debug R.total) n v m = .error .panic ∨
    ∃ v' m', Str.reserveM .debug (strAllocM .debug R.total) n v m = .ok (v', m') ∧
      v'.asSlice m' = .ok bs ∧ v'.capacity = .ok (cap + (n + 1)) ∧
      ∀ i ≤ cap + (n + 1), ∃ p, m'.ptrAdd v'.beginPtr i = .ok p ∧
        ∀ y : UInt8, ∃ m'', m'.write p y = .ok m'' := by
  have hr : Str.run (strAlloc R) ops Vec.new m0 = .ok (outs, v, m) := by
    rcases strRun_orPanic R ops Vec.new m0 with h1 | h1
    · rw [← h1]; exact hrun
    · rw [h1] at hrun; cases hrun
  obtain ⟨bs', cap', _, hi⟩ := reachable_str hr
  have h1 := hi.slice.symm.trans hb
  have h2 := hi.capacity.symm.trans hc
  cases h1; cases h2
  rcases strReserve_orPanic R n v m with h1 | h1
  · right
    obtain ⟨v', m', he, hi', _⟩ := VInv.reserve_any (nullTerm_lawful R) (n + 1) hi
    refine ⟨v', m', h1.trans he, hi'.slice, hi'.capacity, ?_⟩
    intro i hlt
    obtain ⟨w', hrep⟩ := hi'.exists_rep
    rcases hrep with hn | ⟨b, blk, ho⟩
    · have := hn.cap0
      omega
    · have h2 := ho.fit.2
      refine ⟨.loc b i, ?_, fun y => ?_⟩
      · simp [Mem.ptrAdd, ho.ptrs, ho.live_b]
        omega
      · have : i < blk.size := by omega
        exact ⟨_, by simp only [Mem.write, ho.live_b, this, if_true]; rfl⟩
  · exact .inl h1

/-- Instance: both outcomes. -/
example : (do
    let (_, v, m) ← Str.runM .debug debugBytes [.push 'a', .push 'b', .push 'c'] Vec.new Mem.empty
    let (v1, m1) ← Str.reserveM .debug debugBytes 2 v m
    .ok (v1.asSlice m1, v1.capacity,
      (Str.reserveM .debug debugBytes (2 ^ 64 - 1 - 2) v m).map fun _ => ())) =
    .ok (.ok [97, 98, 99], .ok 7, .error .panic) := by
  decide +kernel

/-- C148, what is true: in either build `with_capacity` panics rather than give a string less room
than was asked for. -/
theorem C148_with_capacity_partial (B : Build) (R : RawAlloc UInt8) (m : Mem UInt8) (n : Nat)
    (hn : n < 2 ^ 64) :
    (TextFits n → ∃ v m', Str.withCapacityM B (strAllocM B R.total) n m = .ok (v, m') ∧
      v.asSlice m' = .ok [] ∧ v.capacity = .ok n) ∧
    (¬ TextFits n → Str.withCapacityM B (strAllocM B R.total) n m = .error .panic) := by
  constructor
  · intro hf
    have he : Str.withCapacityM B (strAllocM B R.total) n m = Str.withCapacity (strAlloc R) n m :=
      reserveM_same B (VInv.new nullFits m).len
        (VInv.new nullFits m).capacity
        (fun p m => strAllocM_dealloc B R.total R (by unfold TextFits; omega) p m) (by omega)
        (fun m => strAllocM_alloc B R (by simpa using hf) m) m
    obtain ⟨v', m', hr, hi', _⟩ := VInv.reserve_any (nullTerm_lawful R) n
      (VInv.new nullFits m)
    exact ⟨v', m', he.trans hr, hi'.slice, by simpa using hi'.capacity⟩
  · intro hf
    unfold TextFits at hf
    have h0 : n ≠ 0 := by rintro rfl; omega
    have hl : Vec.new.len = .ok 0 := rfl
    have hc : Vec.new.capacity = .ok 0 := rfl
    simp only [Str.withCapacityM, Vec.withCapacityM, Vec.reserveM, h0, if_false, hl, hc,
      Exec.ok_bind, Nat.zero_add, B.usize_ok hn, nullTermAllocatorM, byteAllocator,
      Build.allocLayout, Nat.mul_one]
    by_cases h1 : n + 1 < 2 ^ 64
    · simp only [B.usize_ok h1, Exec.ok_bind, Nat.succ_ne_zero, if_false, Layout.bytes, hf,
        Exec.error_bind]
    · have h2 : n + 1 = 2 ^ 64 := by omega
      rw [h2]
      cases B <;> simp [Build.usize]

/-- Instance: the longest text that fits, one byte more, and `usize::MAX`. -/
example : TextFits (2 ^ 63 - 2) ∧ ¬ TextFits (2 ^ 63 - 1) ∧
    (Str.withCapacityM .release releaseBytes (2 ^ 63 - 1) Mem.empty).map (fun _ => ()) =
      .error .panic ∧
    (Str.withCapacityM .release releaseBytes (2 ^ 64 - 1) Mem.empty).map (fun _ => ()) =
      .error .panic := by
  unfold TextFits
  decide +kernel

/-! ## C85 for strings -/

/-- C85 fails for strings too: when the system returns null, `reserve` on a reachable string goes on
with the null pointer, in both build modes. -/
theorem C85_string_out_of_memory_ub (B : Build) (R : RawAlloc UInt8) (m0 : Mem UInt8)
    (ops : List StrOp) (hfit : ∀ c ∈ StrOp.caps ops 0 0, TextFits c) {outs : List StrOut} {v : Vec}
    {m : Mem UInt8} {cap n : Nat}
    (hrun : Str.runM B (strAllocM B R.total) ops Vec.new m0 = .ok (outs, v, m))
    (hc : v.capacity = .ok cap) (hrep : TextFits (cap + (n + 1))) (S : SysAlloc UInt8)
    (hfail : S.fails m ⟨cap + (n + 1) + 1, 1⟩ = true) :
    Str.reserveM B (strAllocM B S) n v m = .error .ub := by
  rw [C147_machine_string_same B R m0 ops hfit] at hrun
  obtain ⟨bs, cap', _, hi⟩ := reachable_str hrun
  have h2 := hi.capacity.symm.trans hc
  cases h2
  have hlt := hrep
  unfold TextFits at hlt
  have hrep' : Representable 1 1 (cap + (n + 1) + 1) := by
    unfold Representable; omega
  have ha : (byteAllocator B 1 1 S).alloc (cap + (n + 1) + 1) m = .ok (.null, m) := by
    simp only [byteAllocator, B.allocLayout_ok byte_layout
      (show 0 < cap + (n + 1) + 1 by omega) hrep', Exec.ok_bind, Nat.mul_one, hfail, if_true]
  have h1 : cap + (n + 1) ≠ 0 := by omega
  simp only [Str.reserveM, B.usize_ok (show n + 1 < 2 ^ 64 by omega), Exec.ok_bind, Vec.reserveM,
    hi.len, hc, B.usize_ok (show cap + (n + 1) < 2 ^ 64 by omega), nullTermAllocatorM,
    B.usize_ok (show cap + (n + 1) + 1 < 2 ^ 64 by omega), ha, Mem.ptrAdd, h1, if_false,
    Exec.error_bind, Nat.succ_ne_zero]

/-- Instance: the string "abc" and no memory to reserve five more bytes. -/
example : (do
    let (_, v, m) ← Str.runM .release (strAllocM .release RawAlloc.bump.total)
      [.push 'a', .push 'b', .push 'c'] Vec.new Mem.empty
    Str.reserveM .release (strAllocM .release (SysAlloc.exhausted RawAlloc.bump)) 5 v m).map
      (fun _ => ()) = .error .ub := by decide +kernel

end Verif
