import Verif.Props.Hash

/-!
# Properties of the hash of foreign strings that need not be UTF-8 (C120, C121)
-/

set_option autoImplicit false

namespace Verif
open Spec

/-! ## C121 -/

/-- C121.  The text hashed for a foreign string is the one Unicode recommends to read from its
bytes; so there is exactly one. -/
theorem C121_reads_as_unicode (bs : List UInt8) (cs : List Char) :
    toStringLossy bs = utf8 cs ↔ Reads bs cs := by
  refine ⟨fun h => ?_, Spec.Reads.lossy⟩
  obtain ⟨cs', h1, h2⟩ := reads_total bs
  rwa [utf8_inj (h.symm.trans h2)]

/-- C121.  A foreign string whose bytes before the first NUL are `bs`, anywhere in memory, hashes
as the text read from `bs`, which exists; this is below 2^32. -/
theorem C121_foreign_hash {m : Mem UInt8} {b o f : Nat} {bs : List UInt8}
    (hr : m.readRange (.loc b o) bs.length = .ok bs)
    (hz : m.read (.loc b (o + bs.length)) = .ok 0) (hn : 0 ∉ bs) (hf : bs.length < f) :
    ∃ cs : List Char, Reads bs cs ∧ hashCStr f (.loc b o) m = .ok (fnv1 (utf8 cs)) ∧
      (fnv1 (utf8 cs)).toNat = fnv1_32 ((utf8 cs).map UInt8.toNat) ∧
      (fnv1 (utf8 cs)).toNat < 2 ^ 32 := by
  obtain ⟨cs, h1, h2⟩ := reads_total bs
  refine ⟨cs, h1, ?_, fnv1_spec _, fnv1_lt _⟩
  simp [hashCStr, cstrBytes_ok _ o f hr hz hn hf, h2]

/-- C121.  The bytes are hashed as they are exactly if they are UTF-8. -/
theorem C121_unchanged_iff (bs : List UInt8) : toStringLossy bs = bs ↔ WellFormed bs := by
  refine ⟨fun h => ?_, lossy_wellFormed⟩
  obtain ⟨cs, _, h2⟩ := reads_total bs
  exact ⟨cs, by rw [← h2, h]⟩

/-- The bytes that no UTF-8 text contains: C0, C1, F5 to FF. -/
def neverByte (b : UInt8) : Prop := b.toNat = 0xC0 ∨ b.toNat = 0xC1 ∨ 0xF5 ≤ b.toNat

theorem chunkStep_never {b : UInt8} (h : neverByte b) (rest : List UInt8) :
    chunkStep b rest = (0, false) := by
  unfold neverByte at h
  rw [chunkStep_eq, if_neg (by omega)]
  split_ifs <;> first | rfl | omega

theorem not_isCont_never {b : UInt8} (h : neverByte b) : isCont b = false := by
  unfold neverByte at h
  rw [← Bool.not_eq_true, isCont_iff]; omega

theorem not_second3_never {a b : UInt8} (h : neverByte b) : second3 a b = false := by
  unfold neverByte at h
  rw [← Bool.not_eq_true, second3_iff]; omega

theorem not_second4_never {a b : UInt8} (h : neverByte b) : second4 a b = false := by
  unfold neverByte at h
  rw [← Bool.not_eq_true, second4_iff]; omega

theorem not_never_encode {c : Char} {b : UInt8} (h : b ∈ String.utf8EncodeChar c) :
    ¬ neverByte b := by
  have hv : c.val.toNat < 0xD800 ∨ (0xDFFF < c.val.toNat ∧ c.val.toNat < 0x110000) := c.valid
  unfold String.utf8EncodeChar at h
  simp only at h
  generalize c.val.toNat = v at hv h
  unfold neverByte
  split_ifs at h with g1 g2 g3 <;>
    simp only [List.mem_cons, List.not_mem_nil, or_false] at h
  · subst h; rw [UInt8.toNat_ofNat']; omega
  · rcases h with h | h <;> (subst h; rw [UInt8.toNat_ofNat']; omega)
  · rcases h with h | h | h <;> (subst h; rw [UInt8.toNat_ofNat']; omega)
  · rcases h with h | h | h | h <;> (subst h; rw [UInt8.toNat_ofNat']; omega)

/-- C121.  Foreign strings that differ only in bytes that no UTF-8 text contains are hashed alike:
`f` may exchange such bytes at will. -/
theorem C121_never_bytes_collide (f : UInt8 → UInt8) (h1 : ∀ b : UInt8, neverByte b → neverByte (f b))
    (h2 : ∀ b : UInt8, ¬ neverByte b → f b = b) (bs : List UInt8) :
    toStringLossy (bs.map f) = toStringLossy bs := by
  have hg : ∀ (r : List UInt8) (i : Nat), safeGet (r.map f) i = safeGet r i ∨
      (neverByte (safeGet (r.map f) i) ∧ neverByte (safeGet r i)) := by
    intro r i
    unfold safeGet
    rw [List.getD_eq_getElem?_getD, List.getD_eq_getElem?_getD, List.getElem?_map]
    cases r[i]? with
    | none => exact .inl rfl
    | some x =>
      by_cases hx : neverByte x
      · exact .inr ⟨h1 x hx, hx⟩
      · exact .inl (h2 x hx)
  have hc : ∀ (r : List UInt8) (i : Nat), isCont (safeGet (r.map f) i) = isCont (safeGet r i) := by
    intro r i
    rcases hg r i with h | ⟨ha, hb⟩
    · rw [h]
    · rw [not_isCont_never ha, not_isCont_never hb]
  have h3 : ∀ (a : UInt8) (r : List UInt8) (i : Nat),
      second3 a (safeGet (r.map f) i) = second3 a (safeGet r i) := by
    intro a r i
    rcases hg r i with h | ⟨ha, hb⟩
    · rw [h]
    · rw [not_second3_never ha, not_second3_never hb]
  have h4 : ∀ (a : UInt8) (r : List UInt8) (i : Nat),
      second4 a (safeGet (r.map f) i) = second4 a (safeGet r i) := by
    intro a r i
    rcases hg r i with h | ⟨ha, hb⟩
    · rw [h]
    · rw [not_second4_never ha, not_second4_never hb]
  have hs : ∀ (b : UInt8) (r : List UInt8), chunkStep (f b) (r.map f) = chunkStep b r := by
    intro b r
    by_cases hb : neverByte b
    · rw [chunkStep_never hb, chunkStep_never (h1 b hb)]
    · rw [h2 b hb, chunkStep_eq, chunkStep_eq, hc, hc, hc, h3, h4]
  have key : ∀ (k : Nat) (bs : List UInt8), bs.length ≤ k →
      toStringLossy (bs.map f) = toStringLossy bs := by
    intro k
    induction k with
    | zero =>
      intro bs hk
      rw [List.length_eq_zero_iff.1 (Nat.le_zero.1 hk)]; rfl
    | succ k ih =>
      intro bs hk
      match bs, hk with
      | [], _ => rfl
      | b :: rest, hk =>
        rw [List.map_cons, toStringLossy, toStringLossy, hs, ← List.map_drop, ← List.map_take,
          ih (rest.drop (chunkStep b rest).1) (by
            rw [List.length_cons] at hk
            rw [List.length_drop]; omega)]
        cases ok : (chunkStep b rest).2 with
        | false => rfl
        | true =>
          obtain ⟨_, c, e⟩ := chunkStep_char (n := (chunkStep b rest).1) (by rw [← ok])
          rw [← List.map_cons, e]
          congr 2
          refine (List.map_congr_left (g := id) fun x hx => ?_).trans (List.map_id _)
          exact h2 x (not_never_encode hx)
  exact key bs.length bs (Nat.le_refl _)

/-- Concrete cases: a lone byte, a truncated character followed by another one, a surrogate, and
two different byte strings that are read alike. -/
example : toStringLossy [0xFF] = utf8 ['�'] ∧
    toStringLossy [0x61, 0xE2, 0x82, 0xC3, 0xA9] = utf8 ['a', '�', 'é'] ∧
    toStringLossy [0xED, 0xA0, 0x80] = utf8 ['�', '�', '�'] ∧
    toStringLossy [0x61, 0xFE] = toStringLossy [0x61, 0xC0] := by decide +kernel

/-! ## C120 -/

theorem cstrBytes_slice {m : Mem UInt8} {b : Nat} : ∀ (bs : List UInt8) (o fuel : Nat),
    m.readRange (.loc b o) bs.length = .ok bs → m.read (.loc b (o + bs.length)) = .ok 0 →
    bs.length < fuel → cstrBytes fuel (.loc b o) m = .ok (bs.takeWhile (· ≠ 0))
  | [], o, fuel, h, hz, hf => cstrBytes_ok [] o fuel h hz (by simp) hf
  | x :: bs, o, fuel, hr, hz, hf => by
    simp only [List.length_cons] at hf hr hz
    obtain ⟨f, rfl⟩ : ∃ k, fuel = k + 1 := ⟨fuel - 1, by omega⟩
    obtain ⟨y, h1, hr⟩ := Exec.bind_ok hr
    obtain ⟨ys, h2, hr⟩ := Exec.bind_ok hr
    simp only [Except.ok.injEq, List.cons.injEq] at hr
    obtain ⟨rfl, rfl⟩ := hr
    have hz' : m.read (.loc b (o + 1 + ys.length)) = .ok 0 := by
      rw [show o + 1 + ys.length = o + (ys.length + 1) by omega]; exact hz
    have hadd : m.ptrAdd (.loc b o) 1 = .ok (.loc b (o + 1)) := by
      unfold Mem.read at h1
      unfold Mem.cell at h1
      unfold Mem.ptrAdd
      cases hl : m.live b with
      | none => simp [hl] at h1
      | some blk =>
        simp only [hl] at h1
        by_cases ho : o < blk.size
        · simp only [hl]; rw [if_pos (by omega)]
        · simp [ho] at h1
    by_cases hy : y = 0
    · simp [cstrBytes, h1, hy]
    · have := cstrBytes_slice ys (o + 1) f h2 hz' (by omega)
      simp [cstrBytes, h1, hy, hadd, this]

theorem readRange_size {m : Mem UInt8} {b : Nat} : ∀ {n o : Nat} {bs : List UInt8},
    m.readRange (.loc b o) n = .ok bs → bs.length = n
  | 0, _, _, h => by cases h; rfl
  | n + 1, _, _, h => by
    obtain ⟨x, _, h⟩ := Exec.bind_ok h
    obtain ⟨xs, h3, h⟩ := Exec.bind_ok h
    cases h
    simp [readRange_size h3]

theorem own_pointer_bytes {m : Mem UInt8} {s : Vec} {bs : List UInt8} (h0 : s.beginPtr ≠ .null)
    (hs : s.asSlice m = .ok bs) (hz : m.read s.endPtr = .ok 0) {f : Nat} (hf : bs.length < f) :
    cstrBytes f s.beginPtr m = .ok (bs.takeWhile (· ≠ 0)) := by
  have hs' := hs
  simp only [Vec.asSlice, h0, if_false] at hs'
  obtain ⟨n, h1, h2⟩ := Exec.bind_ok hs'
  obtain ⟨p, q, c⟩ := s
  cases p with
  | null => exact absurd rfl h0
  | loc b o =>
    cases q with
    | null => simp [Mem.read, Mem.cell] at hz
    | loc b' o' =>
      simp only [Vec.len, Ptr.offsetFrom] at h1
      split_ifs at h1 with hc
      obtain ⟨hbb, hoo⟩ := hc
      subst hbb
      simp only [Except.ok.injEq] at h1
      subst h1
      have hl' := readRange_size h2
      exact cstrBytes_slice bs o f (by rw [hl']; exact h2)
        (by rw [hl', show o + (o' - o) = o' by omega]; exact hz) hf

/-- What remains of C120.  After any history that ends with push, pop, insert or assign (so that
the text is terminated, C17), of a string with storage: the string hashes as its bytes, the pointer to
its text as what is read from the bytes before the first NUL.  These are the same if the bytes
are UTF-8 without NUL.  Missing: other bytes, for which it is false. -/
theorem C120_hash_and_pointer_partial (R : RawAlloc UInt8) (m0 : Mem UInt8)
    (ops : List StrOp) (op : StrOp) (hop : op.writes = true) {outs : List StrOut} {v : Vec}
    {m : Mem UInt8} (hrun : Str.run (strAlloc R) (ops ++ [op]) Vec.new m0 = .ok (outs, v, m))
    (h0 : v.beginPtr ≠ .null) :
    ∃ (bs : List UInt8) (cs : List Char), v.asSlice m = .ok bs ∧
      Reads (bs.takeWhile (· ≠ 0)) cs ∧ Str.hash v m = .ok (fnv1 bs) ∧
      (∀ f : Nat, bs.length < f → hashCStr f v.beginPtr m = .ok (fnv1 (utf8 cs))) ∧
      (WellFormed bs → 0 ∉ bs → bs = utf8 cs) := by
  obtain ⟨bs, cap, _, hi⟩ := reachable_str hrun
  have hz := (C17_terminated_after_write_partial R m0 ops op hop hrun).resolve_left h0
  obtain ⟨cs, h1, h2⟩ := reads_total (bs.takeWhile (· ≠ 0))
  refine ⟨bs, cs, hi.slice, h1, by simp [Str.hash, hi.slice], fun f hf => ?_, fun hw hn => ?_⟩
  · rw [hashCStr, own_pointer_bytes h0 hi.slice hz hf, ← h2]; rfl
  · have ht : bs.takeWhile (· ≠ 0) = bs := by
      have : ∀ x ∈ bs, decide (x ≠ 0) = true := fun x hx =>
        decide_eq_true (fun e => hn (e ▸ hx))
      simpa using (List.takeWhile_append_of_pos (l₂ := []) this)
    rw [ht, lossy_wellFormed hw] at h2
    exact h2

theorem fnv1_lone_byte (b : UInt8) :
    fnv1 [b] = fnv1 (toStringLossy ([b].takeWhile (· ≠ 0))) ↔ 0 < b.toNat ∧ b.toNat < 128 := by
  have h : ∀ n : Fin 256, (fnv1 [UInt8.ofFin n] =
      fnv1 (toStringLossy ([UInt8.ofFin n].takeWhile (· ≠ 0))) ↔ 0 < n.val ∧ n.val < 128) := by
    decide +kernel
  exact h b.toFin

/-- C120 is false: of a string of one pushed character, the string and the pointer to its text hash
alike exactly if the low 8 bits of the character are from 1 to 127; so they differ for all characters from
U+0080 to U+00FF, and for NUL. -/
theorem C120_pushed_char_differs (R : RawAlloc UInt8) (m0 : Mem UInt8) (c : Char) {f : Nat}
    (hf : 1 < f) : ∃ (v : Vec) (m : Mem UInt8) (h h' : UInt64),
      Str.push (strAlloc R) c Vec.new m0 = .ok (v, m) ∧ Str.hash v m = .ok h ∧
      hashCStr f v.beginPtr m = .ok h' ∧ (h = h' ↔ 0 < c.toNat % 256 ∧ c.toNat % 256 < 128) := by
  obtain ⟨v, m, cap', he, hi, _, ht⟩ := SInv.step (R := R) (.push c) (VInv.new nullFits m0)
  have he' : Str.push (strAlloc R) c Vec.new m0 = .ok (v, m) := by
    simp only [Str.step] at he
    obtain ⟨⟨a, b⟩, h1, h2⟩ := Exec.bind_ok he
    cases h2; exact h1
  have hc : (charToByte c).toNat = c.toNat % 256 := by
    show (UInt32.toUInt8 c.val).toNat = _
    rw [UInt32.toNat_toUInt8]; rfl
  have h0 : v.beginPtr ≠ .null := by
    intro e
    have := hi.slice
    simp [Vec.asSlice, e] at this
  have hz : m.read v.endPtr = .ok 0 := (ht (by simp)).resolve_left h0
  have hs : v.asSlice m = .ok [charToByte c] := hi.slice
  refine ⟨v, m, _, fnv1 (toStringLossy ([charToByte c].takeWhile (· ≠ 0))), he', by rw [Str.hash, hs]; rfl, ?_, ?_⟩
  · rw [hashCStr, own_pointer_bytes h0 hs hz (by simpa using hf)]; rfl
  · rw [fnv1_lone_byte, hc]

/-- A concrete case: `push('é')`. -/
example : (do
    let (v, m) ← Str.push (strAlloc RawAlloc.bump) 'é' Vec.new Mem.empty
    let h ← Str.hash v m
    let h' ← hashCStr 9 v.beginPtr m
    .ok (decide (h = h'))) = (.ok false : Exec _) := by decide +kernel

end Verif
