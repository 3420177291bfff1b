import Verif.Hash.Proofs
import Verif.Hash.LossyProofs
import Verif.Props.Text

/-!
# Properties of the default hash functions (C66, C67, C77)
-/

set_option autoImplicit false

namespace Verif
open Spec

/-! ## C66 -/

/-- C66.  For every unsigned type of at most 64 bits the hash is the value; so two values have
the same hash exactly if they are equal. -/
theorem C66_unsigned_hash {w : Nat} (hw : w ≤ 64) (x y : BitVec w) :
    (hashUnsigned x).toNat = x.toNat ∧ (hashUnsigned x = hashUnsigned y ↔ x = y) := by
  have h : ∀ z : BitVec w, (hashUnsigned z).toNat = z.toNat := by
    intro z
    unfold hashUnsigned
    rw [BitVec.toNat_setWidth]
    exact Nat.mod_eq_of_lt (Nat.lt_of_lt_of_le z.isLt (Nat.pow_le_pow_right (by omega) hw))
  refine ⟨h x, fun e => ?_, fun e => by rw [e]⟩
  apply BitVec.eq_of_toNat_eq
  rw [← h x, ← h y, e]

/-- C66.  For every signed type of at most 64 bits the hash is the value sign-extended: it reads
as the same number.  So two values have the same hash exactly if they are equal. -/
theorem C66_signed_hash {w : Nat} (hw : w ≤ 64) (x y : BitVec w) :
    (hashSigned x).toInt = x.toInt ∧ (hashSigned x = hashSigned y ↔ x = y) := by
  have h : ∀ z : BitVec w, (hashSigned z).toInt = z.toInt := fun z =>
    BitVec.toInt_signExtend_of_le hw
  refine ⟨h x, fun e => ?_, fun e => by rw [e]⟩
  apply BitVec.eq_of_toInt_eq
  rw [← h x, ← h y, e]

/-- C66 for `bool`. -/
theorem C66_bool_hash (a b : Bool) : hashBool a = hashBool b ↔ a = b := by
  cases a <;> cases b <;> simp [hashBool]

example : hashSigned (BitVec.ofInt 8 (-1)) = BitVec.ofInt 64 (-1) ∧
    hashUnsigned (255 : BitVec 8) = (255 : BitVec 64) := by decide

/-! ## C67 -/

theorem cstrBytes_ok {m : Mem UInt8} {b : Nat} : ∀ (bs : List UInt8) (o fuel : Nat),
    m.readRange (.loc b o) bs.length = .ok bs → m.read (.loc b (o + bs.length)) = .ok 0 →
    0 ∉ bs → bs.length < fuel → cstrBytes fuel (.loc b o) m = .ok bs
  | [], o, fuel, _, hz, _, hf => by
    obtain ⟨f, rfl⟩ : ∃ k, fuel = k + 1 := ⟨fuel - 1, by simp at hf; omega⟩
    have hz' : m.read (.loc b o) = .ok 0 := hz
    simp [cstrBytes, hz']
  | x :: bs, o, fuel, hr, hz, hn, hf => by
    simp only [List.length_cons] at hf hr hz
    obtain ⟨f, rfl⟩ : ∃ k, fuel = k + 1 := ⟨fuel - 1, by omega⟩
    obtain ⟨y, h1, hr⟩ := Exec.bind_ok hr
    obtain ⟨ys, h2, hr⟩ := Exec.bind_ok hr
    simp only [Except.ok.injEq, List.cons.injEq] at hr
    obtain ⟨rfl, rfl⟩ := hr
    have hy : y ≠ 0 := fun e => hn (by simp [e])
    have hz' : m.read (.loc b (o + 1 + ys.length)) = .ok 0 := by
      rw [show o + 1 + ys.length = o + (ys.length + 1) by omega]; exact hz
    have hadd : m.ptrAdd (.loc b o) 1 = .ok (.loc b (o + 1)) := by
      unfold Mem.read at h1
      unfold Mem.cell at h1
      unfold Mem.ptrAdd
      cases hl : m.live b with
      | none => simp [hl] at h1
      | some blk =>
        simp only [hl] at h1
        by_cases ho : o < blk.size
        · simp only [hl]; rw [if_pos (by omega)]
        · simp [ho] at h1
    have := cstrBytes_ok ys (o + 1) f h2 hz' (fun h => hn (List.mem_cons_of_mem _ h)) (by omega)
    simp [cstrBytes, h1, hy, hadd, this]

/-- C67.  A `str` with the text `cs`, an EASTL `String` `s` anywhere in memory with the same text,
and a NUL-terminated foreign string at `p` with the same text (which then has no NUL) all have the
FNV-1 hash of its UTF-8 bytes, which is below 2^32; `f` bounds the steps. -/
theorem C67_string_hashes_agree (cs : List Char) {m : Mem UInt8} {s : Vec}
    (hs : s.asSlice m = .ok (utf8 cs)) {b o f : Nat}
    (hr : m.readRange (.loc b o) (utf8 cs).length = .ok (utf8 cs))
    (hz : m.read (.loc b (o + (utf8 cs).length)) = .ok 0) (hn : 0 ∉ utf8 cs)
    (hf : (utf8 cs).length < f) :
    Str.hash s m = .ok (fnv1 (utf8 cs)) ∧ hashCStr f (.loc b o) m = .ok (fnv1 (utf8 cs)) ∧
      (fnv1 (utf8 cs)).toNat = fnv1_32 ((utf8 cs).map UInt8.toNat) ∧
      (fnv1 (utf8 cs)).toNat < 2 ^ 32 := by
  refine ⟨by simp [Str.hash, hs], ?_, fnv1_spec _, fnv1_lt _⟩
  simp [hashCStr, cstrBytes_ok _ o f hr hz hn hf, lossy_wellFormed ⟨cs, rfl⟩]

/-- C67.  In particular the pointer to the text of a `String`, given to foreign code, hashes as
the string itself if the string is terminated. -/
theorem C67_own_pointer (cs : List Char) {m : Mem UInt8} {s : Vec}
    (h0 : s.beginPtr ≠ .null) (hs : s.asSlice m = .ok (utf8 cs)) (hz : m.read s.endPtr = .ok 0)
    (hn : 0 ∉ utf8 cs) {f : Nat} (hf : (utf8 cs).length < f) :
    hashCStr f s.beginPtr m = Str.hash s m := by
  have hs' := hs
  simp only [Vec.asSlice, h0, if_false] at hs'
  obtain ⟨n, h1, h2⟩ := Exec.bind_ok hs'
  obtain ⟨p, q, c⟩ := s
  cases p with
  | null => exact absurd rfl h0
  | loc b o =>
    cases q with
    | null => simp [Mem.read, Mem.cell] at hz
    | loc b' o' =>
      simp only [Vec.len, Ptr.offsetFrom] at h1
      split_ifs at h1 with hc
      obtain ⟨hbb, hoo⟩ := hc
      subst hbb
      simp only [Except.ok.injEq] at h1
      subst h1
      have hlen : ∀ (n o : Nat) (bs : List UInt8), m.readRange (.loc b' o) n = .ok bs →
          bs.length = n := by
        intro n
        induction n with
        | zero => intro o bs h; cases h; rfl
        | succ n ih =>
          intro o bs h
          obtain ⟨x, _, h⟩ := Exec.bind_ok h
          obtain ⟨xs, h3, h⟩ := Exec.bind_ok h
          cases h
          simp [ih _ _ h3]
      have hl' := hlen _ _ _ h2
      have := C67_string_hashes_agree cs (b := b') (o := o) hs (by rw [hl']; exact h2)
        (by rw [hl', show o + (o' - o) = o' by omega]; exact hz) hn hf
      rw [this.1]; exact this.2.1

/-- A concrete case: a pushed string and its own pointer. -/
example : (do
    let (_, v, m) ← Str.run (strAlloc RawAlloc.bump) [.push 'T', .push 'e', .push 's', .push 't']
      Vec.new Mem.empty
    let h ← Str.hash v m
    let h' ← hashCStr 9 v.beginPtr m
    .ok (h, h')) = (.ok (556965705, 556965705) : Exec _) := by decide +kernel

/-! ## C77 -/

/-- C77.  Floating-point numbers that compare equal hash equally; this covers the two zeroes. -/
theorem C77_float_hash_respects_eq (e m : Nat) (a b : BitVec (1 + e + m))
    (h : (FVal.decode e m a).eq (FVal.decode e m b) = true) :
    hashFloat e m a = hashFloat e m b := by
  unfold hashFloat
  cases ha : FVal.decode e m a <;> cases hb : FVal.decode e m b <;> rw [ha, hb] at h <;>
    simp only [FVal.eq, beq_iff_eq, Bool.false_eq_true] at h <;> subst h <;> rfl

/-- C77.  The hash of a number is its integer part if that fits 64 bits, else the largest hash;
numbers below one, which includes all negative ones, and not-a-number hash to zero. -/
theorem C77_float_hash_value (e m : Nat) (a : BitVec (1 + e + m)) :
    (∀ v, FVal.decode e m a = .fin v → v < 2 ^ fracBits e m → hashFloat e m a = 0) ∧
    (∀ v n, FVal.decode e m a = .fin v → (n : Int) * 2 ^ fracBits e m ≤ v →
      v < ((n : Int) + 1) * 2 ^ fracBits e m → 0 ≤ n → hashFloat e m a = min (2 ^ 64 - 1) n.toNat) ∧
    (FVal.decode e m a = .nan → hashFloat e m a = 0) := by
  have hpos : (0 : Int) < 2 ^ fracBits e m := Int.pow_pos (by omega)
  have hpn : 0 < 2 ^ fracBits e m := Nat.pow_pos (by omega)
  have hcast : ((2 ^ fracBits e m : Nat) : Int) = 2 ^ fracBits e m := by simp
  refine ⟨?_, ?_, ?_⟩
  · intro v hv hlt
    unfold hashFloat
    rw [hv]
    have : v.toNat / 2 ^ fracBits e m = 0 := Nat.div_eq_of_lt (by omega)
    simp [this]
  · intro v n hv h1 h2 hn
    unfold hashFloat
    rw [hv]
    have hv0 : 0 ≤ v := Int.le_trans (Int.mul_nonneg hn (Int.le_of_lt hpos)) h1
    have : v.toNat / 2 ^ fracBits e m = n.toNat := by
      obtain ⟨k, rfl⟩ := Int.eq_ofNat_of_zero_le hn
      obtain ⟨j, rfl⟩ := Int.eq_ofNat_of_zero_le hv0
      simp only [Int.toNat_natCast]
      rw [← hcast] at h1 h2
      norm_cast at h1 h2
      exact Nat.div_eq_of_lt_le h1 h2
    simp [this]
  · intro h
    unfold hashFloat
    rw [h]

/-- So the default hash of floating-point keys does not spread values: the whole unit interval
is one hash value.  Two different `f32` values, 0.25 and 0.75, and −3. -/
example : [0x3E800000, 0x3F400000, 0xC0400000].map (fun x => hashFloat 8 23 x) = [0, 0, 0] ∧
    FVal.decode 8 23 0x3E800000 = .fin (2 ^ 147) ∧ fracBits 8 23 = 149 ∧
    hashFloat 11 52 0x4037000000000000 = 23 ∧
    (FVal.decode 8 23 0x80000000).eq (FVal.decode 8 23 0) = true := by decide +kernel

end Verif
