import Verif.Text.Model
import Verif.FixedVector.Proofs

/-! Lemmas about `String`. -/

set_option autoImplicit false

namespace Verif
open Spec

/-- Layout rule: one byte more than the capacity. -/
def nullFits : Nat → Nat → Region → Nat → Prop :=
  fun _ size region n => region = .heap ∧ size = n + 1

theorem nullTerm_lawful (R : RawAlloc UInt8) :
    Lawful (nullTermAllocator (defaultAllocator R)) nullFits (fun _ => False)
      (fun blk n => blk.cells n = some 0) where
  alloc_ok := by
    intro n m hn _
    let blk0 : Block UInt8 := ⟨n + 1, .heap, fun _ => none⟩
    let blk : Block UInt8 := { blk0 with cells := Function.update blk0.cells n (some 0) }
    have hb : (R.alloc (n + 1) m).2.live (R.pick m (n + 1)) = some blk0 := by
      show Function.update m.live (R.pick m (n + 1)) (some blk0) (R.pick m (n + 1)) = some blk0
      simp
    refine ⟨R.pick m (n + 1), blk,
      (R.alloc (n + 1) m).2.setBlock (R.pick m (n + 1)) (some blk), ?_, R.fresh m (n + 1), ?_,
      ⟨rfl, rfl⟩, Nat.le_succ n, not_false, by simp [blk], rfl, rfl, rfl⟩
    · show (do let (p, m) ← Except.ok (R.alloc (n + 1) m)
               let q ← m.ptrAdd p n
               let m ← m.write q 0
               Except.ok (p, m) : Exec _) = _
      have hw := Mem.write_loc (m := (R.alloc (n + 1) m).2) (o := 0 + n) (0 : UInt8) hb
        (by show 0 + n < n + 1; omega)
      have hp := Mem.ptrAdd_loc (m := (R.alloc (n + 1) m).2) (o := 0) (n := n) hb
        (by show 0 + n ≤ n + 1; omega)
      show (do let q ← (R.alloc (n + 1) m).2.ptrAdd (.loc (R.pick m (n + 1)) 0) n
               let m' ← (R.alloc (n + 1) m).2.write q 0
               Except.ok (Ptr.loc (R.pick m (n + 1)) 0, m') : Exec _) = _
      rw [hp, Exec.ok_bind, hw]
      simp [blk]
    · show Function.update (Function.update m.live _ (some blk0)) _ (some blk) = _
      rw [Function.update_idem]
  dealloc_free := by
    intro b n m blk h hf _
    refine ⟨m.setBlock b none, ?_, rfl, rfl, rfl, rfl⟩
    simp [nullTermAllocator, defaultAllocator, rawDealloc, h, hf.1, hf.2]
  dealloc_keep := by
    intro b n m blk _ _ h
    exact h.elim

/-- The same allocator; the bytes before the terminator are uninitialised. -/
theorem nullTerm_lawful_blank (R : RawAlloc UInt8) :
    Lawful (nullTermAllocator (defaultAllocator R)) nullFits (fun _ => False)
      (fun blk n => ∀ j, j < n → blk.cells j = none) where
  alloc_ok := by
    intro n m hn hk
    obtain ⟨b, blk, m', h1, h2, h3, h4, h5, h6, _, h8⟩ := (nullTerm_lawful R).alloc_ok n m hn hk
    refine ⟨b, blk, m', h1, h2, h3, h4, h5, h6, ?_, h8⟩
    let blk0 : Block UInt8 := ⟨n + 1, .heap, fun _ => none⟩
    have hb : (R.alloc (n + 1) m).2.live (R.pick m (n + 1)) = some blk0 := by
      show Function.update m.live (R.pick m (n + 1)) (some blk0) (R.pick m (n + 1)) = some blk0
      simp
    have hw := Mem.write_loc (m := (R.alloc (n + 1) m).2) (o := 0 + n) (0 : UInt8) hb
      (by show 0 + n < n + 1; omega)
    have hp := Mem.ptrAdd_loc (m := (R.alloc (n + 1) m).2) (o := 0) (n := n) hb
      (by show 0 + n ≤ n + 1; omega)
    have h9 : (do let q ← (R.alloc (n + 1) m).2.ptrAdd (.loc (R.pick m (n + 1)) 0) n
                  let m' ← (R.alloc (n + 1) m).2.write q 0
                  Except.ok (Ptr.loc (R.pick m (n + 1)) 0, m') : Exec _) = .ok (.loc b 0, m') := h1
    rw [hp, Exec.ok_bind, hw, Exec.ok_bind, Except.ok.injEq, Prod.mk.injEq] at h9
    obtain ⟨e1, e2⟩ := h9
    injection e1 with e1 _
    have h10 : m'.live b = some blk := by rw [h3]; simp
    rw [← e2, ← e1] at h10
    simp only [Mem.setBlock_live, Function.update_self, Option.some.injEq] at h10
    intro j hj
    rw [← h10]
    have : j ≠ n := by omega
    simp [blk0, this]
  dealloc_free := (nullTerm_lawful R).dealloc_free
  dealloc_keep := (nullTerm_lawful R).dealloc_keep

/-- Byte-level effect of a call.  `assign` appends. -/
def byteStep : StrOp → List UInt8 → Except Fault (StrOut × List UInt8)
  | .push c, bs => .ok (.unit, bs ++ [charToByte c])
  | .pop, bs => .ok (.char (bs.getLast?.map byteToChar), bs.dropLast)
  | .insert i c, bs =>
    if i ≤ bs.length then .ok (.unit, bs.take i ++ charToByte c :: bs.drop i) else .error .panic
  | .remove i, bs => .ok (.char (bs[i]?.map byteToChar), bs.take i ++ bs.drop (i + 1))
  | .reserve _, bs => .ok (.unit, bs)
  | .assign s, bs => .ok (.unit, bs ++ utf8 s)
  | .len, bs => .ok (.nat bs.length, bs)
  | .isEmpty, bs => .ok (.bool (decide (bs = [])), bs)

def byteRun : List StrOp → List UInt8 → Except Fault (List StrOut × List UInt8)
  | [], bs => .ok ([], bs)
  | op :: ops, bs =>
    match byteStep op bs with
    | .error e => .error e
    | .ok (o, bs) =>
      match byteRun ops bs with
      | .error e => .error e
      | .ok (os, bs) => .ok (o :: os, bs)

/-- The byte after the last character can be read and is 0, unless there is no storage. -/
def Str.Terminated (v : Vec) (m : Mem UInt8) : Prop :=
  v.beginPtr = .null ∨ m.read v.endPtr = .ok 0

/-- Representation of a string. -/
abbrev SInv (w : World UInt8) (m : Mem UInt8) (v : Vec) (bs : List UInt8) (cap : Nat) : Prop :=
  VInv (fun _ => False) nullFits w m v bs cap

variable {R : RawAlloc UInt8} {w : World UInt8} {m : Mem UInt8} {v : Vec} {bs : List UInt8}
  {cap : Nat}

theorem SInv.nullTerminate (h : SInv w m v bs cap) :
    ∃ m', Str.nullTerminate v m = .ok m' ∧ SInv w m' v bs cap ∧ Str.Terminated v m' := by
  obtain ⟨hk, w', hw, hn | ⟨b, blk, ho⟩⟩ := h
  · refine ⟨m, by simp [Str.nullTerminate, hn.ptrs], ⟨hk, w', hw, .inl hn⟩, .inl ?_⟩
    rw [hn.ptrs]
  · have hB : VInvB (fun _ => False) nullFits w m v b blk bs cap := ⟨hk, w', hw, ho⟩
    have hsz := ho.fit.2
    have hlt : bs.length < blk.size := by have := ho.len_le; omega
    have hpt := ho.ptrs
    have hw0 := Mem.write_loc (0 : UInt8) ho.live_b hlt
    refine ⟨_, ?_, (hB.update (v' := v) (m' := m.setBlock b (some { blk with
        cells := Function.update blk.cells bs.length (some 0) })) rfl rfl rfl ho.len_le ?_
        hpt).inv, .inr ?_⟩
    · unfold Str.nullTerminate
      rw [hpt]
      simp [hw0]
    · intro i hi
      have : i ≠ bs.length := by omega
      simp [Function.update, this, ho.cells i hi]
    · rw [hpt]
      exact Mem.read_loc (blk := { blk with
        cells := Function.update blk.cells bs.length (some 0) }) (by simp) hlt (by simp)

/-- One call at byte level; all calls that write text leave the string terminated. -/
theorem SInv.step (op : StrOp) (h : SInv w m v bs cap) :
    match byteStep op bs with
    | .error e => Str.step (nullTermAllocator (defaultAllocator R)) op v m = .error e
    | .ok (o, bs') => ∃ v' m' cap',
        Str.step (nullTermAllocator (defaultAllocator R)) op v m = .ok (o, v', m') ∧
        SInv w m' v' bs' cap' ∧ cap ≤ cap' ∧
        ((∃ c, op = .push c) ∨ op = .pop ∨ (∃ i c, op = .insert i c) ∨ (∃ s, op = .assign s) →
          Str.Terminated v' m') := by
  have hA := nullTerm_lawful R
  have hins : ∀ (i : Nat) (c : Char), i ≤ bs.length → ∃ v' m' cap',
      Str.insert (nullTermAllocator (defaultAllocator R)) i c v m = .ok (v', m') ∧
      SInv w m' v' (bs.take i ++ charToByte c :: bs.drop i) cap' ∧ cap ≤ cap' ∧
      Str.Terminated v' m' := by
    intro i c hi
    obtain ⟨v1, m1, b1, blk1, he, hB, _⟩ := h.insert hA (charToByte c) hi
    rw [insertIdx_eq_take_drop _ _ _ hi] at hB
    obtain ⟨m2, hn, h2, ht⟩ := SInv.nullTerminate hB.inv
    refine ⟨v1, m2, _, by simp [Str.insert, he, hn], h2, ?_, ht⟩
    unfold growCap; split
    · exact Nat.le_of_lt (calc_grow cap).2
    · exact Nat.le_refl _
  cases op with
  | push c =>
    obtain ⟨v', m', cap', he, hi, hc, ht⟩ := hins bs.length c (Nat.le_refl _)
    refine ⟨v', m', cap', by simp [Str.step, Str.push, h.len, he], ?_, hc, fun _ => ht⟩
    simpa using hi
  | pop =>
    rcases List.eq_nil_or_concat bs with hx | ⟨ys, x, hx⟩
    · subst hx
      obtain ⟨m2, hn, h2, ht⟩ := SInv.nullTerminate h
      exact ⟨v, m2, cap, by simp [Str.step, Str.pop, h.pop_nil, hn], by simpa using h2,
        Nat.le_refl _, fun _ => ht⟩
    · rw [List.concat_eq_append] at hx
      subst hx
      obtain ⟨b, blk, hB⟩ := h.own (by simp)
      obtain ⟨v', he, hi⟩ := hB.pop
      obtain ⟨m2, hn, h2, ht⟩ := SInv.nullTerminate hi.inv
      exact ⟨v', m2, cap, by simp [Str.step, Str.pop, he, hn], by simpa using h2,
        Nat.le_refl _, fun _ => ht⟩
  | insert i c =>
    simp only [byteStep]
    by_cases hi : i ≤ bs.length
    · rw [if_pos hi]
      obtain ⟨v', m', cap', he, hinv, hc, ht⟩ := hins i c hi
      exact ⟨v', m', cap', by simp [Str.step, he], hinv, hc, fun _ => ht⟩
    · rw [if_neg hi]
      simp [Str.step, Str.insert, h.insert_panic _ hi]
  | remove i =>
    by_cases hi : i < bs.length
    · obtain ⟨b, blk, hB⟩ := h.own (by intro e; simp [e] at hi)
      obtain ⟨v', m', blk', he, hinv, _⟩ := hB.remove hi
      rw [eraseIdx_eq_take_drop] at hinv
      have hn : ¬ bs.length ≤ i := by omega
      exact ⟨v', m', cap, by simp [Str.step, Str.remove, h.len, hn, he], hinv.inv,
        Nat.le_refl _, by simp⟩
    · have hle : bs.length ≤ i := by omega
      have hn : bs[i]? = none := by simp [hle]
      have ht : bs.take i ++ bs.drop (i + 1) = bs := by
        rw [List.take_of_length_le hle, List.drop_eq_nil_of_le (by omega)]; simp
      refine ⟨v, m, cap, by simp [Str.step, Str.remove, h.len, hle], ?_, Nat.le_refl _, by simp⟩
      rw [ht]; exact h
  | reserve n =>
    obtain ⟨v', m', he, hi, _⟩ := h.reserve_any hA (n + 1)
    exact ⟨v', m', _, by simp [Str.step, Str.reserve, he], hi, by omega, by simp⟩
  | assign s =>
    obtain ⟨v1, m1, he1, hi1, _⟩ := h.reserve_any hA ((utf8 s).length + 1)
    obtain ⟨v2, m2, he2, hi2, _⟩ := hi1.append hA (utf8 s)
    obtain ⟨m3, hn, h3, ht⟩ := SInv.nullTerminate hi2
    exact ⟨v2, m3, _, by simp [Str.step, Str.assign, Str.reserve, he1, he2, hn], h3, by omega,
      fun _ => ht⟩
  | len => exact ⟨v, m, cap, by simp [Str.step, h.len], h, Nat.le_refl _, by simp⟩
  | isEmpty =>
    refine ⟨v, m, cap, ?_, h, Nat.le_refl _, by simp⟩
    simp only [Str.step, h.isEmpty, Exec.ok_bind]
    cases bs <;> simp

theorem SInv.run (ops : List StrOp) :
    ∀ {m : Mem UInt8} {v : Vec} {bs : List UInt8} {cap : Nat}, SInv w m v bs cap →
    match byteRun ops bs with
    | .error e => Str.run (nullTermAllocator (defaultAllocator R)) ops v m = .error e
    | .ok (os, bs') => ∃ v' m' cap',
        Str.run (nullTermAllocator (defaultAllocator R)) ops v m = .ok (os, v', m') ∧
        SInv w m' v' bs' cap' := by
  induction ops with
  | nil => intro m v bs cap h; exact ⟨v, m, cap, rfl, h⟩
  | cons op ops ih =>
    intro m v bs cap h
    have h1 := h.step (R := R) op
    cases hs : byteStep op bs with
    | error e =>
      rw [hs] at h1; simp only at h1
      simp [byteRun, hs, Str.run, h1]
    | ok r =>
      obtain ⟨o, bs1⟩ := r
      rw [hs] at h1
      obtain ⟨v1, m1, cap1, he1, hi1, _⟩ := h1
      have h2 := ih hi1
      cases hr : byteRun ops bs1 with
      | error e =>
        rw [hr] at h2; simp only at h2
        simp [byteRun, hs, hr, Str.run, he1, h2]
      | ok r =>
        obtain ⟨os, bs2⟩ := r
        rw [hr] at h2
        obtain ⟨v2, m2, cap2, he2, hi2⟩ := h2
        simp only [byteRun, hs, hr]
        exact ⟨v2, m2, cap2, by simp [Str.run, he1, he2], hi2⟩

/-- A history that succeeds. -/
theorem reachable_str {m0 m : Mem UInt8} {ops : List StrOp} {outs : List StrOut} {v : Vec}
    (hrun : Str.run (nullTermAllocator (defaultAllocator R)) ops Vec.new m0 = .ok (outs, v, m)) :
    ∃ bs cap, byteRun ops [] = .ok (outs, bs) ∧ SInv m0.live m v bs cap := by
  have h := SInv.run (R := R) ops (VInv.new nullFits m0)
  cases hr : byteRun ops [] with
  | error e => rw [hr] at h; simp only at h; rw [h] at hrun; cases hrun
  | ok r =>
    obtain ⟨os, bs⟩ := r
    rw [hr] at h
    obtain ⟨v', m', cap, he, hi⟩ := h
    rw [he] at hrun
    cases hrun
    exact ⟨bs, cap, rfl, hi⟩

/-! ASCII -/

theorem charToByte_toNat {c : Char} (h : IsAscii c) : (charToByte c).toNat = c.toNat := by
  unfold IsAscii at h
  show (UInt32.toUInt8 c.val).toNat = c.toNat
  rw [UInt32.toNat_toUInt8]
  have : c.val.toNat = c.toNat := rfl
  rw [this]
  omega

theorem byteToChar_charToByte {c : Char} (h : IsAscii c) : byteToChar (charToByte c) = c := by
  rw [byteToChar, charToByte_toNat h]
  exact Char.ofNat_toNat c

theorem utf8EncodeChar_ascii {c : Char} (h : IsAscii c) :
    String.utf8EncodeChar c = [charToByte c] := by
  unfold IsAscii at h
  unfold String.utf8EncodeChar
  have h' : c.val.toNat ≤ 127 := by have : c.val.toNat = c.toNat := rfl; omega
  simp only [h', if_true]
  congr 1

theorem utf8_ascii {cs : List Char} (h : ∀ c ∈ cs, IsAscii c) : utf8 cs = cs.map charToByte := by
  induction cs with
  | nil => rfl
  | cons c cs ih =>
    have := ih (fun c hc => h c (by simp [hc]))
    simp only [utf8, List.flatMap_cons, List.map_cons] at this ⊢
    rw [utf8EncodeChar_ascii (h c (by simp)), this]
    rfl

theorem byteStep_ascii {op : StrOp} {cs : List Char} (hop : op.Ascii) (ha : op.isAssign = false)
    (hcs : ∀ c ∈ cs, IsAscii c) :
    match op.step cs with
    | .error e => byteStep op (cs.map charToByte) = .error e
    | .ok (o, cs') => byteStep op (cs.map charToByte) = .ok (o, cs'.map charToByte) ∧
        ∀ c ∈ cs', IsAscii c := by
  cases op with
  | push c =>
    refine ⟨by simp [byteStep], ?_⟩
    intro x hx
    simp only [List.mem_append, List.mem_singleton] at hx
    rcases hx with hx | rfl
    · exact hcs x hx
    · exact hop
  | pop =>
    refine ⟨?_, fun c hc => hcs c (List.dropLast_subset _ hc)⟩
    simp only [byteStep]
    rcases List.eq_nil_or_concat cs with hx | ⟨ys, x, hx⟩
    · subst hx; simp
    · rw [List.concat_eq_append] at hx
      subst hx
      have := byteToChar_charToByte (hcs x (by simp))
      simp [this]
  | insert i c =>
    simp only [StrOp.step, byteStep, List.length_map]
    by_cases hi : i ≤ cs.length
    · simp only [hi, if_true]
      refine ⟨by simp [List.map_take, List.map_drop], ?_⟩
      intro x hx
      simp only [List.mem_append, List.mem_cons] at hx
      rcases hx with hx | rfl | hx
      · exact hcs x (List.mem_of_mem_take hx)
      · exact hop
      · exact hcs x (List.mem_of_mem_drop hx)
    · simp [hi]
  | remove i =>
    refine ⟨?_, ?_⟩
    · simp only [byteStep, List.getElem?_map, Option.map_map]
      have : cs[i]?.map (byteToChar ∘ charToByte) = cs[i]? := by
        cases h : cs[i]? with
        | none => rfl
        | some c => simp [byteToChar_charToByte (hcs c (List.mem_of_getElem? h))]
      rw [this]
      simp [List.map_take, List.map_drop]
    · intro x hx
      simp only [List.mem_append] at hx
      rcases hx with hx | hx
      · exact hcs x (List.mem_of_mem_take hx)
      · exact hcs x (List.mem_of_mem_drop hx)
  | reserve n => exact ⟨by simp [byteStep], hcs⟩
  | assign s => simp [StrOp.isAssign] at ha
  | len => exact ⟨by simp [byteStep], hcs⟩
  | isEmpty => exact ⟨by simp [byteStep], hcs⟩

theorem byteRun_ascii (ops : List StrOp) : ∀ {cs : List Char},
    (∀ op ∈ ops, op.Ascii ∧ op.isAssign = false) → (∀ c ∈ cs, IsAscii c) →
    match StrOp.run ops cs with
    | .error e => byteRun ops (cs.map charToByte) = .error e
    | .ok (os, cs') => byteRun ops (cs.map charToByte) = .ok (os, cs'.map charToByte) ∧
        ∀ c ∈ cs', IsAscii c := by
  induction ops with
  | nil => intro cs _ h; exact ⟨rfl, h⟩
  | cons op ops ih =>
    intro cs hops hcs
    obtain ⟨ha, hb⟩ := hops op (by simp)
    have h1 := byteStep_ascii ha hb hcs
    cases hs : op.step cs with
    | error e => rw [hs] at h1; simp only at h1; simp [StrOp.run, hs, byteRun, h1]
    | ok r =>
      obtain ⟨o, cs1⟩ := r
      rw [hs] at h1
      obtain ⟨h1, h1'⟩ := h1
      have h2 := ih (fun op hop => hops op (by simp [hop])) h1'
      cases hr : StrOp.run ops cs1 with
      | error e =>
        rw [hr] at h2; simp only at h2; simp [StrOp.run, hs, hr, byteRun, h1, h2]
      | ok r =>
        obtain ⟨os, cs2⟩ := r
        rw [hr] at h2
        simp only [StrOp.run, hs, hr]
        exact ⟨by simp [byteRun, h1, h2.1], h2.2⟩

end Verif
