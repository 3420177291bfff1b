import Verif.Hash.Lossy
import Verif.Spec.Lossy
import Verif.Text.Utf8

/-! Lemmas about reading foreign bytes as text. -/

set_option autoImplicit false

namespace Verif
open Spec

theorem isCont_iff (b : UInt8) : isCont b = true ↔ 128 ≤ b.toNat ∧ b.toNat < 192 := by
  have h : ∀ n : Fin 256, (isCont (UInt8.ofFin n) = true ↔ 128 ≤ n.val ∧ n.val < 192) := by
    decide +kernel
  exact h b.toFin

theorem second3_iff (b x : UInt8) : second3 b x = true ↔
    (b.toNat = 224 ∧ 160 ≤ x.toNat ∧ x.toNat ≤ 191) ∨
    (225 ≤ b.toNat ∧ b.toNat ≤ 236 ∧ 128 ≤ x.toNat ∧ x.toNat ≤ 191) ∨
    (b.toNat = 237 ∧ 128 ≤ x.toNat ∧ x.toNat ≤ 159) ∨
    (238 ≤ b.toNat ∧ b.toNat ≤ 239 ∧ 128 ≤ x.toNat ∧ x.toNat ≤ 191) := by
  simp only [second3, Bool.or_eq_true, Bool.and_eq_true, beq_iff_eq, decide_eq_true_eq,
    UInt8.le_iff_toNat_le, ← UInt8.toNat_inj]
  simp only [UInt8.reduceToNat]
  omega

theorem second4_iff (b x : UInt8) : second4 b x = true ↔
    (b.toNat = 240 ∧ 144 ≤ x.toNat ∧ x.toNat ≤ 191) ∨
    (241 ≤ b.toNat ∧ b.toNat ≤ 243 ∧ 128 ≤ x.toNat ∧ x.toNat ≤ 191) ∨
    (b.toNat = 244 ∧ 128 ≤ x.toNat ∧ x.toNat ≤ 143) := by
  simp only [second4, Bool.or_eq_true, Bool.and_eq_true, beq_iff_eq, decide_eq_true_eq,
    UInt8.le_iff_toNat_le, ← UInt8.toNat_inj]
  simp only [UInt8.reduceToNat]
  omega

/-- A turn of the loop, by the numbers. -/
theorem chunkStep_eq (b : UInt8) (rest : List UInt8) : chunkStep b rest =
    if b.toNat < 128 then (0, true) else if b.toNat < 194 then (0, false)
    else if b.toNat < 224 then (if isCont (safeGet rest 0) then (1, true) else (0, false))
    else if b.toNat < 240 then
      (if second3 b (safeGet rest 0) then
        if isCont (safeGet rest 1) then (2, true) else (1, false)
      else (0, false))
    else if b.toNat < 245 then
      (if second4 b (safeGet rest 0) then
        if isCont (safeGet rest 1) then
          if isCont (safeGet rest 2) then (3, true) else (2, false)
        else (1, false)
      else (0, false))
    else (0, false) := by
  unfold chunkStep utf8CharWidth
  simp only [UInt8.lt_iff_toNat_lt, UInt8.reduceToNat]
  by_cases h1 : b.toNat < 128
  · simp only [h1, if_true]
  by_cases h2 : b.toNat < 194
  · simp only [h1, h2, if_true, if_false]
  by_cases h3 : b.toNat < 224
  · simp only [h1, h2, h3, if_true, if_false]
  by_cases h4 : b.toNat < 240
  · simp only [h1, h2, h3, h4, if_true, if_false]
  by_cases h5 : b.toNat < 245
  · simp only [h1, h2, h3, h4, h5, if_true, if_false]
  · simp only [h1, h2, h3, h4, h5, if_false]

theorem char_of_nat {v : Nat} (h : v < 0xD800 ∨ (0xDFFF < v ∧ v < 0x110000)) :
    ∃ c : Char, c.val.toNat = v := by
  refine ⟨Char.ofNat v, ?_⟩
  unfold Char.ofNat
  rw [dif_pos h]
  rfl

theorem safeGet_pos {rest : List UInt8} {i : Nat} (h : safeGet rest i ≠ 0) : i < rest.length := by
  by_contra hc
  apply h
  simp [safeGet, List.getElem?_eq_none (Nat.le_of_not_lt hc)]

theorem safeGet_eq {rest : List UInt8} {i : Nat} (h : i < rest.length) :
    safeGet rest i = rest[i] := by simp [safeGet, h]

theorem byte_eq {b : UInt8} {n : Nat} (h : b.toNat = n) : b = UInt8.ofNat n := by
  subst h; simp

theorem char_one {b : UInt8} (h : b.toNat < 128) : ∃ c : Char, [b] = String.utf8EncodeChar c := by
  obtain ⟨c, hc⟩ := char_of_nat (v := b.toNat) (.inl (by omega))
  refine ⟨c, ?_⟩
  unfold String.utf8EncodeChar
  simp only [hc]
  rw [if_pos (by omega), ← byte_eq (b := b) rfl]

theorem char_two {b x : UInt8} (h : 194 ≤ b.toNat ∧ b.toNat < 224)
    (hx : 128 ≤ x.toNat ∧ x.toNat < 192) : ∃ c : Char, [b, x] = String.utf8EncodeChar c := by
  obtain ⟨c, hc⟩ := char_of_nat (v := (b.toNat - 192) * 64 + (x.toNat - 128)) (.inl (by omega))
  refine ⟨c, ?_⟩
  unfold String.utf8EncodeChar
  simp only [hc]
  rw [if_neg (by omega), if_pos (by omega), ← byte_eq (b := b) (by omega),
    ← byte_eq (b := x) (by omega)]

theorem char_three {b x y : UInt8} (h : second3 b x = true)
    (hy : 128 ≤ y.toNat ∧ y.toNat < 192) : ∃ c : Char, [b, x, y] = String.utf8EncodeChar c := by
  rw [second3_iff] at h
  obtain ⟨c, hc⟩ := char_of_nat
    (v := (b.toNat - 224) * 4096 + (x.toNat - 128) * 64 + (y.toNat - 128)) (by omega)
  refine ⟨c, ?_⟩
  unfold String.utf8EncodeChar
  simp only [hc]
  rw [if_neg (by omega), if_neg (by omega), if_pos (by omega), ← byte_eq (b := b) (by omega),
    ← byte_eq (b := x) (by omega), ← byte_eq (b := y) (by omega)]

theorem char_four {b x y z : UInt8} (h : second4 b x = true)
    (hy : 128 ≤ y.toNat ∧ y.toNat < 192) (hz : 128 ≤ z.toNat ∧ z.toNat < 192) :
    ∃ c : Char, [b, x, y, z] = String.utf8EncodeChar c := by
  rw [second4_iff] at h
  obtain ⟨c, hc⟩ := char_of_nat
    (v := (b.toNat - 240) * 262144 + (x.toNat - 128) * 4096 + (y.toNat - 128) * 64 +
      (z.toNat - 128)) (by omega)
  refine ⟨c, ?_⟩
  unfold String.utf8EncodeChar
  simp only [hc]
  rw [if_neg (by omega), if_neg (by omega), if_neg (by omega), ← byte_eq (b := b) (by omega),
    ← byte_eq (b := x) (by omega), ← byte_eq (b := y) (by omega), ← byte_eq (b := z) (by omega)]

theorem isCont_zero : isCont 0 = false := by decide
theorem second3_zero (b : UInt8) : second3 b 0 = false := by
  rw [← Bool.not_eq_true, second3_iff]; simp
theorem second4_zero (b : UInt8) : second4 b 0 = false := by
  rw [← Bool.not_eq_true, second4_iff]; simp

theorem cont_pos {rest : List UInt8} {i : Nat} (h : isCont (safeGet rest i) = true) :
    i < rest.length := by
  refine safeGet_pos (fun e => ?_)
  rw [e, isCont_zero] at h; cases h

theorem second3_pos {b : UInt8} {rest : List UInt8} {i : Nat}
    (h : second3 b (safeGet rest i) = true) : i < rest.length := by
  refine safeGet_pos (fun e => ?_)
  rw [e, second3_zero] at h; cases h

theorem second4_pos {b : UInt8} {rest : List UInt8} {i : Nat}
    (h : second4 b (safeGet rest i) = true) : i < rest.length := by
  refine safeGet_pos (fun e => ?_)
  rw [e, second4_zero] at h; cases h

/-- Bytes that pass a turn of the loop are an encoded character. -/
theorem chunkStep_char {b : UInt8} {rest : List UInt8} {n : Nat}
    (h : chunkStep b rest = (n, true)) :
    n ≤ rest.length ∧ ∃ c : Char, b :: rest.take n = String.utf8EncodeChar c := by
  rw [chunkStep_eq] at h
  split_ifs at h with h1 h2 h3 h4 h5 h6 h7 h8 h9 h10 h11 <;> simp only [Prod.mk.injEq, Bool.false_eq_true, and_false, and_true] at h <;> subst h
  · exact ⟨Nat.zero_le _, by simpa using char_one h1⟩
  · have hl := cont_pos h4
    match rest, hl, h4 with
    | x :: r, _, h4 =>
      exact ⟨by simp, by simpa using char_two ⟨by omega, h3⟩ ((isCont_iff x).1 h4)⟩
  · have hl := cont_pos h7
    match rest, hl, h6, h7 with
    | x :: y :: r, _, h6, h7 =>
      exact ⟨by simp, char_three (x := x) h6 ((isCont_iff y).1 h7)⟩
  · have hl := cont_pos h11
    match rest, hl, h9, h10, h11 with
    | x :: y :: z :: r, _, h9, h10, h11 =>
      exact ⟨by simp, char_four (x := x) h9 ((isCont_iff y).1 h10)
        ((isCont_iff z).1 h11)⟩

/-- An encoded character passes the turn of the loop, whatever follows. -/
theorem chunkStep_encode (c : Char) (r : List UInt8) : ∃ (b : UInt8) (t : List UInt8),
    String.utf8EncodeChar c = b :: t ∧ chunkStep b (t ++ r) = (t.length, true) := by
  have hv : c.val.toNat < 0xD800 ∨ (0xDFFF < c.val.toNat ∧ c.val.toNat < 0x110000) := c.valid
  unfold String.utf8EncodeChar
  simp only
  generalize c.val.toNat = v at hv
  split_ifs with h1 h2 h3
  · refine ⟨_, _, rfl, ?_⟩
    rw [chunkStep_eq, if_pos (by rw [UInt8.toNat_ofNat']; omega)]
    rfl
  · refine ⟨_, _, rfl, ?_⟩
    have e : (UInt8.ofNat (v / 64 % 32 + 192)).toNat = v / 64 + 192 := by
      rw [UInt8.toNat_ofNat']; omega
    have hx : isCont (UInt8.ofNat (v % 64 + 128)) = true := by
      rw [isCont_iff, UInt8.toNat_ofNat']; omega
    rw [chunkStep_eq, if_neg (by omega), if_neg (by omega), if_pos (by omega)]
    generalize UInt8.ofNat (v % 64 + 128) = x at hx
    simp [safeGet, hx]
  · refine ⟨_, _, rfl, ?_⟩
    have e : (UInt8.ofNat (v / 4096 % 16 + 224)).toNat = v / 4096 + 224 := by
      rw [UInt8.toNat_ofNat']; omega
    have ex : (UInt8.ofNat (v / 64 % 64 + 128)).toNat = v / 64 % 64 + 128 := by
      rw [UInt8.toNat_ofNat']; omega
    have hx : second3 (UInt8.ofNat (v / 4096 % 16 + 224)) (UInt8.ofNat (v / 64 % 64 + 128)) = true := by
      rw [second3_iff, e, ex]; omega
    have hy : isCont (UInt8.ofNat (v % 64 + 128)) = true := by
      rw [isCont_iff, UInt8.toNat_ofNat']; omega
    rw [chunkStep_eq, if_neg (by omega), if_neg (by omega), if_neg (by omega), if_pos (by omega)]
    generalize UInt8.ofNat (v / 4096 % 16 + 224) = b at hx
    generalize UInt8.ofNat (v / 64 % 64 + 128) = x at hx
    generalize UInt8.ofNat (v % 64 + 128) = y at hy
    simp [safeGet, hx, hy]
  · refine ⟨_, _, rfl, ?_⟩
    have e : (UInt8.ofNat (v / 262144 % 8 + 240)).toNat = v / 262144 + 240 := by
      rw [UInt8.toNat_ofNat']; omega
    have ex : (UInt8.ofNat (v / 4096 % 64 + 128)).toNat = v / 4096 % 64 + 128 := by
      rw [UInt8.toNat_ofNat']; omega
    have hx : second4 (UInt8.ofNat (v / 262144 % 8 + 240)) (UInt8.ofNat (v / 4096 % 64 + 128)) = true := by
      rw [second4_iff, e, ex]; omega
    have hy : isCont (UInt8.ofNat (v / 64 % 64 + 128)) = true := by
      rw [isCont_iff, UInt8.toNat_ofNat']; omega
    have hz : isCont (UInt8.ofNat (v % 64 + 128)) = true := by
      rw [isCont_iff, UInt8.toNat_ofNat']; omega
    rw [chunkStep_eq, if_neg (by omega), if_neg (by omega), if_neg (by omega), if_neg (by omega),
      if_pos (by omega)]
    generalize UInt8.ofNat (v / 262144 % 8 + 240) = b at hx
    generalize UInt8.ofNat (v / 4096 % 64 + 128) = x at hx
    generalize UInt8.ofNat (v / 64 % 64 + 128) = y at hy
    generalize UInt8.ofNat (v % 64 + 128) = z at hz
    simp [safeGet, hx, hy, hz]

/-- Where a turn breaks depends only on the bytes up to there and the next one. -/
theorem chunkStep_local {b : UInt8} {p q q' : List UInt8} {x : UInt8}
    (h : chunkStep b (p ++ x :: q) = (p.length, false)) :
    chunkStep b (p ++ x :: q') = (p.length, false) := by
  have hs : ∀ i : Nat, i ≤ p.length → safeGet (p ++ x :: q') i = safeGet (p ++ x :: q) i := by
    intro i hi
    unfold safeGet
    rcases Nat.lt_or_eq_of_le hi with hi | rfl
    · simp [List.getElem?_append_left hi]
    · simp [List.getD_eq_getElem?_getD]
  rw [chunkStep_eq] at h ⊢
  rw [hs 0 (Nat.zero_le _)]
  generalize e0 : safeGet (p ++ x :: q) 0 = y0 at h
  generalize e1 : safeGet (p ++ x :: q) 1 = y1 at h hs
  generalize e2 : safeGet (p ++ x :: q) 2 = y2 at h hs
  split_ifs at h with h1 h2 h3 h4 h5 h6 h7 h8 h9 h10 h11 <;>
    simp only [Prod.mk.injEq, Bool.true_eq_false, and_false, and_true] at h
  all_goals
    have hs1 := hs 1
    have hs2 := hs 2
    rw [e1] at hs1
    rw [e2] at hs2
    generalize safeGet (p ++ x :: q') 1 = z1 at hs1 ⊢
    generalize safeGet (p ++ x :: q') 2 = z2 at hs2 ⊢
    clear hs
    first
    | (have a1 := hs1 (by omega); have a2 := hs2 (by omega); subst a1 a2; simp only [*, if_true, if_false, Bool.false_eq_true])
    | (have a1 := hs1 (by omega); subst a1; simp only [*, if_true, if_false, Bool.false_eq_true])
    | (simp only [*, if_true, if_false, Bool.false_eq_true])

/-- What a broken turn inspected begins a character, if it is more than one byte. -/
theorem chunkStep_begins {b : UInt8} {rest : List UInt8} {n : Nat}
    (h : chunkStep b rest = (n, false)) :
    n ≤ rest.length ∧ (n ≠ 0 → Begins (b :: rest.take n)) := by
  have h80 : 128 ≤ (0x80 : UInt8).toNat ∧ (0x80 : UInt8).toNat < 192 := by decide
  rw [chunkStep_eq] at h
  split_ifs at h with h1 h2 h3 h4 h5 h6 h7 h8 h9 h10 h11 <;>
    simp only [Prod.mk.injEq, Bool.true_eq_false, and_false, and_true] at h <;> subst h <;>
    first | exact ⟨Nat.zero_le _, fun h => absurd rfl h⟩ | skip
  · have hl := second3_pos h6
    match rest, hl, h6 with
    | x :: r, _, h6 =>
      obtain ⟨c, hc⟩ := char_three (x := x) h6 h80
      exact ⟨by simp, fun _ => ⟨c, by rw [← hc]; exact ⟨[0x80], by simp⟩⟩⟩
  · have hl := cont_pos h10
    match rest, hl, h9, h10 with
    | x :: y :: r, _, h9, h10 =>
      obtain ⟨c, hc⟩ := char_four (x := x) h9 ((isCont_iff y).1 h10) h80
      exact ⟨by simp, fun _ => ⟨c, by rw [← hc]; exact ⟨[0x80], by simp⟩⟩⟩
  · have hl := second4_pos h9
    match rest, hl, h9 with
    | x :: r, _, h9 =>
      obtain ⟨c, hc⟩ := char_four (x := x) h9 h80 h80
      exact ⟨by simp, fun _ => ⟨c, by rw [← hc]; exact ⟨[0x80, 0x80], by simp⟩⟩⟩

/-- Nothing longer than what a broken turn inspected begins a character. -/
theorem chunkStep_maximal {b : UInt8} {rest : List UInt8} {n : Nat}
    (h : chunkStep b rest = (n, false)) (x : UInt8) (q : List UInt8) (hq : rest.drop n = x :: q) :
    ¬ Begins (b :: (rest.take n ++ [x])) := by
  rintro ⟨c, s, hc⟩
  have hn := (chunkStep_begins h).1
  have hlen : (rest.take n).length = n := List.length_take_of_le hn
  have hr : rest = rest.take n ++ x :: q := by rw [← hq, List.take_append_drop]
  have h' : chunkStep b (rest.take n ++ x :: q) = ((rest.take n).length, false) := by
    rw [← hr, hlen]; exact h
  have := chunkStep_local (q' := s) h'
  obtain ⟨b', t, e, hs⟩ := chunkStep_encode c []
  rw [← hc] at e
  simp only [List.cons_append, List.append_assoc, List.cons.injEq, List.nil_append] at e
  obtain ⟨rfl, rfl⟩ := e
  rw [List.append_nil, this] at hs
  simp at hs

/-- A broken turn means that no character is at the front. -/
theorem chunkStep_none {b : UInt8} {rest : List UInt8} {n : Nat}
    (h : chunkStep b rest = (n, false)) (c : Char) : ¬ String.utf8EncodeChar c <+: b :: rest := by
  rintro ⟨s, hc⟩
  obtain ⟨b', t, e, hs⟩ := chunkStep_encode c s
  rw [e, List.cons_append, List.cons.injEq] at hc
  obtain ⟨rfl, rfl⟩ := hc
  rw [h] at hs
  simp at hs

theorem utf8_cons (c : Char) (cs : List Char) :
    utf8 (c :: cs) = String.utf8EncodeChar c ++ utf8 cs := by simp [utf8]

theorem utf8_fffd : String.utf8EncodeChar '�' = [0xEF, 0xBF, 0xBD] := by decide

/-- The code reads every byte string as some text. -/
theorem reads_total (bs : List UInt8) :
    ∃ cs : List Char, Reads bs cs ∧ toStringLossy bs = utf8 cs := by
  match bs with
  | [] => exact ⟨[], .done, by rw [toStringLossy]; rfl⟩
  | b :: rest =>
    have hd : (rest.drop (chunkStep b rest).1).length < (b :: rest).length := by
      rw [List.length_drop, List.length_cons]; omega
    obtain ⟨cs, h1, h2⟩ := reads_total (rest.drop (chunkStep b rest).1)
    have hsplit : b :: rest =
        b :: (rest.take (chunkStep b rest).1 ++ rest.drop (chunkStep b rest).1) := by
      rw [List.take_append_drop]
    cases ok : (chunkStep b rest).2 with
    | true =>
      have hs : chunkStep b rest = ((chunkStep b rest).1, true) := by rw [← ok]
      obtain ⟨hn, c, hc⟩ := chunkStep_char hs
      refine ⟨c :: cs, ?_, ?_⟩
      · rw [hsplit, ← List.cons_append, hc]
        exact .char c _ _ h1
      · rw [toStringLossy, ok, utf8_cons, h2, ← hc]
        simp
    | false =>
      have hs : chunkStep b rest = ((chunkStep b rest).1, false) := by rw [← ok]
      obtain ⟨hn, hb⟩ := chunkStep_begins hs
      refine ⟨'�' :: cs, ?_, ?_⟩
      · rw [hsplit]
        refine .bad b _ _ _ ?_ ?_ ?_ h1
        · rw [List.take_append_drop]; exact chunkStep_none hs
        · intro hp; exact hb (fun e => hp (by rw [e]; rfl))
        · exact fun x q => chunkStep_maximal hs x q
      · rw [toStringLossy, ok, utf8_cons, h2, utf8_fffd]
        simp
termination_by bs.length

theorem encode_prefix_inj {c c' : Char} {r r' : List UInt8}
    (h : String.utf8EncodeChar c ++ r = String.utf8EncodeChar c' ++ r') : c = c' ∧ r = r' := by
  have key : ∀ (c : Char) (r : List UInt8),
      ByteArray.utf8DecodeChar? (String.utf8EncodeChar c ++ r).toByteArray 0 = some c := by
    intro c r
    rw [List.toByteArray_append]
    exact ByteArray.utf8DecodeChar?_utf8EncodeChar_append
  have h1 := key c r
  rw [h, key c' r', Option.some.injEq] at h1
  subst h1
  exact ⟨rfl, List.append_cancel_left h⟩

theorem utf8_inj {cs cs' : List Char} (h : utf8 cs = utf8 cs') : cs = cs' := by
  induction cs generalizing cs' with
  | nil =>
    cases cs' with
    | nil => rfl
    | cons c t =>
      obtain ⟨b, t', e, _⟩ := chunkStep_encode c []
      rw [utf8_cons, e] at h; simp [utf8] at h
  | cons c cs ih =>
    cases cs' with
    | nil =>
      obtain ⟨b, t', e, _⟩ := chunkStep_encode c []
      rw [utf8_cons, e] at h; simp [utf8] at h
    | cons c' t =>
      rw [utf8_cons, utf8_cons] at h
      obtain ⟨rfl, h2⟩ := encode_prefix_inj h
      rw [ih h2]

theorem begins_prefix {p q : List UInt8} (h : Begins q) (hp : p <+: q) : Begins p := by
  obtain ⟨c, hc⟩ := h
  exact ⟨c, hp.trans hc⟩

/-- What is read from a byte string is what the code makes of it. -/
theorem Spec.Reads.lossy {bs : List UInt8} {cs : List Char} (h : Reads bs cs) :
    toStringLossy bs = utf8 cs := by
  induction h with
  | done => rw [toStringLossy]; rfl
  | char c bs cs _ ih =>
    obtain ⟨b, t, e, hs⟩ := chunkStep_encode c bs
    rw [utf8_cons, e, List.cons_append, toStringLossy, hs]
    simp [ih]
  | bad b p bs cs h1 h2 h3 _ ih =>
    obtain ⟨n, hs⟩ : ∃ n : Nat, chunkStep b (p ++ bs) = (n, false) := by
      cases ok : (chunkStep b (p ++ bs)).2 with
      | false => exact ⟨_, by rw [← ok]⟩
      | true =>
        obtain ⟨_, c, hc⟩ := chunkStep_char (n := (chunkStep b (p ++ bs)).1)
          (by rw [← ok])
        exfalso
        apply h1 c
        rw [← hc]
        exact List.prefix_cons_inj b |>.2 (List.take_prefix _ _)
    have hn : n = p.length := by
      obtain ⟨g1, g2⟩ := chunkStep_begins hs
      rcases Nat.lt_trichotomy n p.length with hlt | he | hgt
      · exfalso
        have hp : p ≠ [] := by rintro rfl; simp at hlt
        have hd : (p ++ bs).drop n = p[n] :: (p.drop (n + 1) ++ bs) := by
          rw [List.drop_append_of_le_length (by omega), List.drop_eq_getElem_cons hlt,
            List.cons_append]
        refine chunkStep_maximal hs _ _ hd (begins_prefix (h2 hp) ?_)
        rw [List.take_append_of_le_length (by omega), List.take_append_getElem]
        exact List.prefix_cons_inj b |>.2 (List.take_prefix _ _)
      · exact he
      · exfalso
        cases bs with
        | nil => simp at g1; omega
        | cons x q =>
          refine h3 x q rfl (begins_prefix (g2 (by omega)) ?_)
          refine List.prefix_cons_inj b |>.2 ?_
          rw [List.take_append, List.take_of_length_le (by omega)]
          obtain ⟨k, hk⟩ : ∃ k : Nat, n - p.length = k + 1 := ⟨n - p.length - 1, by omega⟩
          rw [hk, List.take_succ_cons]
          exact ⟨q.take k, by simp⟩
    subst hn
    rw [toStringLossy, hs, utf8_cons, utf8_fffd]
    simp [ih]

theorem reads_utf8 (cs : List Char) : Reads (utf8 cs) cs := by
  induction cs with
  | nil => exact .done
  | cons c cs ih => rw [utf8_cons]; exact .char c _ _ ih

theorem lossy_wellFormed {bs : List UInt8} (h : WellFormed bs) : toStringLossy bs = bs := by
  obtain ⟨cs, rfl⟩ := h
  exact (reads_utf8 cs).lossy

end Verif
