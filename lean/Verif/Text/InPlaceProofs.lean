import Verif.Text.InPlace
import Verif.Text.Utf8
import Verif.Vector.SlicesProofs

/-! Lemmas about what is done through the `&mut str` of a `String`. -/

set_option autoImplicit false

namespace Verif
open Spec

/-! ## Case of bytes and of characters -/

/-- A change of bytes that changes ASCII as `g` changes characters, and nothing else. -/
structure Follows (f : UInt8 → UInt8) (g : Char → Char) : Prop where
  ascii : ∀ c, IsAscii c → charToByte (g c) = f (charToByte c) ∧ IsAscii (g c)
  high : ∀ b : UInt8, 128 ≤ b.toNat → f b = b
  other : ∀ c, ¬ IsAscii c → g c = c

theorem charToByte_inj {c : Char} {n : Nat} (h : IsAscii c) (e : c.toNat = n) :
    charToByte c = UInt8.ofNat n := by
  rw [← UInt8.toNat_inj, charToByte_toNat h, e, UInt8.toNat_ofNat']
  unfold IsAscii at h
  omega

theorem upper_toNat (c : Char) : c.toUpper.toNat =
    if 97 ≤ c.toNat ∧ c.toNat ≤ 122 then c.toNat - 32 else c.toNat := by
  have hle : ('a'.val ≤ c.val ∧ c.val ≤ 'z'.val) ↔ (97 ≤ c.toNat ∧ c.toNat ≤ 122) := by
    rw [UInt32.le_iff_toNat_le, UInt32.le_iff_toNat_le]
    exact Iff.rfl
  unfold Char.toUpper
  by_cases h : 97 ≤ c.toNat ∧ c.toNat ≤ 122
  · rw [dif_pos (hle.2 h), if_pos h]
    show (c.val + ('A'.val - 'a'.val)).toNat = _
    rw [UInt32.toNat_add]
    have : ('A'.val - 'a'.val).toNat = 4294967264 := by decide
    rw [this]
    have : c.val.toNat = c.toNat := rfl
    omega
  · rw [dif_neg (fun e => h (hle.1 e)), if_neg h]

theorem lower_toNat (c : Char) : c.toLower.toNat =
    if 65 ≤ c.toNat ∧ c.toNat ≤ 90 then c.toNat + 32 else c.toNat := by
  have hle : (c.val ≥ 'A'.val ∧ c.val ≤ 'Z'.val) ↔ (65 ≤ c.toNat ∧ c.toNat ≤ 90) := by
    rw [ge_iff_le, UInt32.le_iff_toNat_le, UInt32.le_iff_toNat_le]
    exact Iff.rfl
  unfold Char.toLower
  by_cases h : 65 ≤ c.toNat ∧ c.toNat ≤ 90
  · rw [dif_pos (hle.2 h), if_pos h]
    show (c.val + ('a'.val - 'A'.val)).toNat = _
    rw [UInt32.toNat_add]
    have : ('a'.val - 'A'.val).toNat = 32 := by decide
    rw [this]
    have : c.val.toNat = c.toNat := rfl
    omega
  · rw [dif_neg (fun e => h (hle.1 e)), if_neg h]

theorem upperByte_toNat (b : UInt8) : (upperByte b).toNat =
    if 97 ≤ b.toNat ∧ b.toNat ≤ 122 then b.toNat - 32 else b.toNat := by
  unfold upperByte
  have hle : (97 ≤ b ∧ b ≤ 122) ↔ (97 ≤ b.toNat ∧ b.toNat ≤ 122) := by
    rw [UInt8.le_iff_toNat_le, UInt8.le_iff_toNat_le]; exact Iff.rfl
  by_cases h : 97 ≤ b.toNat ∧ b.toNat ≤ 122
  · rw [if_pos (hle.2 h), if_pos h, UInt8.toNat_sub_of_le _ _ (by
      rw [UInt8.le_iff_toNat_le]; have : (32 : UInt8).toNat = 32 := rfl; omega)]
    rfl
  · rw [if_neg (fun e => h (hle.1 e)), if_neg h]

theorem lowerByte_toNat (b : UInt8) : (lowerByte b).toNat =
    if 65 ≤ b.toNat ∧ b.toNat ≤ 90 then b.toNat + 32 else b.toNat := by
  unfold lowerByte
  have hle : (65 ≤ b ∧ b ≤ 90) ↔ (65 ≤ b.toNat ∧ b.toNat ≤ 90) := by
    rw [UInt8.le_iff_toNat_le, UInt8.le_iff_toNat_le]; exact Iff.rfl
  by_cases h : 65 ≤ b.toNat ∧ b.toNat ≤ 90
  · rw [if_pos (hle.2 h), if_pos h, UInt8.toNat_add]
    have : (32 : UInt8).toNat = 32 := rfl
    omega
  · rw [if_neg (fun e => h (hle.1 e)), if_neg h]

theorem upper_follows : Follows upperByte Char.toUpper where
  ascii := by
    intro c h
    have ha : IsAscii c.toUpper := by
      unfold IsAscii at *; rw [upper_toNat]; split_ifs <;> omega
    refine ⟨?_, ha⟩
    rw [← UInt8.toNat_inj, charToByte_toNat ha, upper_toNat, upperByte_toNat, charToByte_toNat h]
  high := by
    intro b h
    rw [← UInt8.toNat_inj, upperByte_toNat, if_neg (by omega)]
  other := by
    intro c h
    have : c.toUpper.toNat = c.toNat := by
      unfold IsAscii at h; rw [upper_toNat, if_neg (by omega)]
    exact Char.toNat_inj.1 this

theorem lower_follows : Follows lowerByte Char.toLower where
  ascii := by
    intro c h
    have ha : IsAscii c.toLower := by
      unfold IsAscii at *; rw [lower_toNat]; split_ifs <;> omega
    refine ⟨?_, ha⟩
    rw [← UInt8.toNat_inj, charToByte_toNat ha, lower_toNat, lowerByte_toNat, charToByte_toNat h]
  high := by
    intro b h
    rw [← UInt8.toNat_inj, lowerByte_toNat, if_neg (by omega)]
  other := by
    intro c h
    have : c.toLower.toNat = c.toNat := by
      unfold IsAscii at h; rw [lower_toNat, if_neg (by omega)]
    exact Char.toNat_inj.1 this

theorem encode_high {c : Char} (h : ¬ IsAscii c) : ∀ b ∈ String.utf8EncodeChar c, 128 ≤ b.toNat := by
  rcases encode_shape c with ⟨b, e, hb⟩ | ⟨h1, _⟩
  · exfalso
    apply h
    unfold IsAscii
    by_contra hc
    have hv : ¬ c.val.toNat ≤ 127 := by have : c.val.toNat = c.toNat := rfl; omega
    have := congrArg List.length e
    unfold String.utf8EncodeChar at this
    simp only [hv, if_false] at this
    split_ifs at this <;> simp at this
  · exact h1

theorem Follows.utf8 {f : UInt8 → UInt8} {g : Char → Char} (h : Follows f g) (cs : List Char) :
    (utf8 cs).map f = utf8 (cs.map g) := by
  induction cs with
  | nil => rfl
  | cons c cs ih =>
    simp only [Spec.utf8, List.flatMap_cons, List.map_append, List.map_cons] at ih ⊢
    rw [ih]
    congr 1
    by_cases hc : IsAscii c
    · rw [utf8EncodeChar_ascii hc, utf8EncodeChar_ascii (h.ascii c hc).2, List.map_singleton,
        (h.ascii c hc).1]
    · rw [h.other c hc]
      conv_rhs => rw [← List.map_id (String.utf8EncodeChar c)]
      exact List.map_congr_left fun b hb => h.high b (encode_high hc b hb)

/-! ## The loop -/

variable {R : RawAlloc UInt8} {w : World UInt8} {m : Mem UInt8} {v : Vec} {bs : List UInt8}
  {cap : Nat}

theorem SInv.writeAt (h : SInv w m v bs cap) {i : Nat} (hi : i < bs.length) (x : UInt8) :
    ∃ m', v.setAt false i x m = .ok m' ∧ SInv w m' v (bs.set i x) cap ∧ Eff m m' [] 0 0 ∧
      m'.read v.endPtr = m.read v.endPtr := by
  obtain ⟨b, blk, hB⟩ := h.own (by intro e; simp [e] at hi)
  obtain ⟨m', he, hinv, hef⟩ := hB.setAt false x hi
  refine ⟨m', he, hinv.inv, hef, ?_⟩
  have hpt := hB.ptrs
  have h1 := hB.live_b
  have h2 := hinv.live_b
  have hne : bs.length ≠ i := by omega
  subst hpt
  simp [Mem.read, Mem.cell, h1, h2, Function.update_of_ne hne]

theorem SInv.mapFrom (f : UInt8 → UInt8) : ∀ (post : List UInt8) {pre : List UInt8} {m : Mem UInt8},
    SInv w m v (pre ++ post) cap →
    ∃ m', Str.mapFrom f v pre.length post.length m = .ok m' ∧
      SInv w m' v (pre ++ post.map f) cap ∧ Eff m m' [] 0 0 ∧
      m'.read v.endPtr = m.read v.endPtr := by
  intro post
  induction post with
  | nil => intro pre m h; exact ⟨m, rfl, h, Eff.refl m, rfl⟩
  | cons b post ih =>
    intro pre m h
    have hi : pre.length < (pre ++ b :: post).length := by simp
    obtain ⟨m1, e1, h1, f1, r1⟩ := h.writeAt hi (f b)
    have ht := VInv.takeAt h hi
    simp only [List.getElem_append_right (Nat.le_refl _), Nat.sub_self, List.getElem_cons_zero] at ht
    have hs : (pre ++ b :: post).set pre.length (f b) = (pre ++ [f b]) ++ post := by simp
    rw [hs] at h1
    obtain ⟨m2, e2, h2, f2, r2⟩ := ih h1
    refine ⟨m2, ?_, by simpa using h2, by simpa using f1.trans f2, r2.trans r1⟩
    simp only [List.length_append, List.length_cons, List.length_nil] at e2
    simp [Str.mapFrom, ht, e1, e2]

theorem SInv.mapBytes (f : UInt8 → UInt8) (h : SInv w m v bs cap) :
    ∃ m', Str.mapBytes f v m = .ok m' ∧ SInv w m' v (bs.map f) cap ∧ Eff m m' [] 0 0 ∧
      m'.read v.endPtr = m.read v.endPtr := by
  obtain ⟨m', e, h', r⟩ := SInv.mapFrom f bs (pre := []) (by simpa using h)
  exact ⟨m', by simpa [Str.mapBytes, h.len] using e, by simpa using h', r⟩

/-- A history, over bytes. -/
def byteEdit : List TextEdit → List UInt8 → Except Fault (List StrOut × List UInt8)
  | [], bs => .ok ([], bs)
  | .upper :: ops, bs => (byteEdit ops (bs.map upperByte)).map fun r => (.unit :: r.1, r.2)
  | .lower :: ops, bs => (byteEdit ops (bs.map lowerByte)).map fun r => (.unit :: r.1, r.2)
  | .call op :: ops, bs =>
    match byteStep op bs with
    | .error e => .error e
    | .ok (o, bs) => (byteEdit ops bs).map fun r => (o :: r.1, r.2)

theorem SInv.edit (ops : List TextEdit) :
    ∀ {m : Mem UInt8} {v : Vec} {bs : List UInt8} {cap : Nat}, SInv w m v bs cap →
    match byteEdit ops bs with
    | .error e => Str.edit (nullTermAllocator (defaultAllocator R)) ops v m = .error e
    | .ok (os, bs') => ∃ v' m' cap',
        Str.edit (nullTermAllocator (defaultAllocator R)) ops v m = .ok (os, v', m') ∧
        SInv w m' v' bs' cap' := by
  induction ops with
  | nil => intro m v bs cap h; exact ⟨v, m, cap, rfl, h⟩
  | cons op ops ih =>
    intro m v bs cap h
    have key : ∀ f, (op = .upper ∧ f = upperByte ∨ op = .lower ∧ f = lowerByte) →
        match (byteEdit ops (bs.map f)).map (fun r => (StrOut.unit :: r.1, r.2)) with
        | .error e => Str.edit (nullTermAllocator (defaultAllocator R)) (op :: ops) v m = .error e
        | .ok (os, bs') => ∃ v' m' cap',
            Str.edit (nullTermAllocator (defaultAllocator R)) (op :: ops) v m = .ok (os, v', m') ∧
            SInv w m' v' bs' cap' := by
      intro f hf
      obtain ⟨m1, e1, h1, _, _⟩ := h.mapBytes f
      have h2 := ih h1
      have hs : Str.editStep (nullTermAllocator (defaultAllocator R)) op v m = .ok (.unit, v, m1) := by
        rcases hf with ⟨rfl, rfl⟩ | ⟨rfl, rfl⟩ <;> simp [Str.editStep, e1]
      cases hr : byteEdit ops (bs.map f) with
      | error e => rw [hr] at h2; simp only at h2; simp [Except.map, Str.edit, hs, h2]
      | ok r =>
        obtain ⟨os, bs'⟩ := r
        rw [hr] at h2
        obtain ⟨v', m', cap', e2, h2⟩ := h2
        exact ⟨v', m', cap', by simp [Str.edit, hs, e2], h2⟩
    cases op with
    | upper => exact key upperByte (.inl ⟨rfl, rfl⟩)
    | lower => exact key lowerByte (.inr ⟨rfl, rfl⟩)
    | call op =>
      have h1 := h.step (R := R) op
      simp only [byteEdit]
      cases hs : byteStep op bs with
      | error e => rw [hs] at h1; simp only at h1; simp [Str.edit, Str.editStep, h1]
      | ok r =>
        obtain ⟨o, bs1⟩ := r
        rw [hs] at h1
        obtain ⟨v1, m1, c1, e1, h1, _, _⟩ := h1
        have h2 := ih h1
        simp only
        cases hr : byteEdit ops bs1 with
        | error e => rw [hr] at h2; simp only at h2; simp [Except.map, Str.edit, Str.editStep, e1, h2]
        | ok r =>
          obtain ⟨os, bs'⟩ := r
          rw [hr] at h2
          obtain ⟨v', m', cap', e2, h2⟩ := h2
          exact ⟨v', m', cap', by simp [Str.edit, Str.editStep, e1, e2], h2⟩

theorem byteEdit_plain (ops : List TextEdit) : ∀ {cs : List Char}, (∀ op ∈ ops, op.Plain) →
    (∀ c ∈ cs, IsAscii c) →
    match TextEdit.run ops cs with
    | .error e => byteEdit ops (cs.map charToByte) = .error e
    | .ok (os, cs') => byteEdit ops (cs.map charToByte) = .ok (os, cs'.map charToByte) ∧
        ∀ c ∈ cs', IsAscii c := by
  induction ops with
  | nil => intro cs _ h; exact ⟨rfl, h⟩
  | cons op ops ih =>
    intro cs hops hcs
    have hrest : ∀ op ∈ ops, op.Plain := fun op ho => hops op (by simp [ho])
    have key : ∀ {f : UInt8 → UInt8} {g : Char → Char}, Follows f g →
        (cs.map charToByte).map f = (cs.map g).map charToByte ∧ ∀ c ∈ cs.map g, IsAscii c := by
      intro f g hfg
      refine ⟨?_, ?_⟩
      · rw [List.map_map, List.map_map]
        exact List.map_congr_left fun c hc => ((hfg.ascii c (hcs c hc)).1).symm
      · intro c hc
        obtain ⟨d, hd, rfl⟩ := List.mem_map.1 hc
        exact (hfg.ascii d (hcs d hd)).2
    cases op with
    | upper =>
      obtain ⟨k1, k2⟩ := key upper_follows
      have h2 := ih hrest k2
      simp only [TextEdit.run, TextEdit.step, byteEdit, k1]
      cases hr : TextEdit.run ops (cs.map Char.toUpper) with
      | error e => rw [hr] at h2; simp only at h2; simp only [h2]; rfl
      | ok r =>
        rw [hr] at h2
        exact ⟨by rw [h2.1]; rfl, h2.2⟩
    | lower =>
      obtain ⟨k1, k2⟩ := key lower_follows
      have h2 := ih hrest k2
      simp only [TextEdit.run, TextEdit.step, byteEdit, k1]
      cases hr : TextEdit.run ops (cs.map Char.toLower) with
      | error e => rw [hr] at h2; simp only at h2; simp only [h2]; rfl
      | ok r =>
        rw [hr] at h2
        exact ⟨by rw [h2.1]; rfl, h2.2⟩
    | call op =>
      have hp := hops (.call op) (by simp)
      have h1 := byteStep_ascii hp.1 hp.2 hcs
      simp only [TextEdit.run, TextEdit.step, byteEdit]
      cases hs : op.step cs with
      | error e => rw [hs] at h1; simp only at h1; simp [h1]
      | ok r =>
        obtain ⟨o, cs1⟩ := r
        rw [hs] at h1
        have h2 := ih hrest h1.2
        simp only [h1.1]
        cases hr : TextEdit.run ops cs1 with
        | error e => rw [hr] at h2; simp only at h2; simp [h2, Except.map]
        | ok r =>
          rw [hr] at h2
          exact ⟨by rw [h2.1]; rfl, h2.2⟩

end Verif
