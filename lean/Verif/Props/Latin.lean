import Verif.Spec.Latin
import Verif.Props.Text

/-!
# C138: characters put into a string come back
-/

set_option autoImplicit false

namespace Verif
open Spec

theorem lowChar_toNat (c : Char) : (lowChar c).toNat = c.toNat % 256 := by
  have h : (c.toNat % 256).isValidChar := Or.inl (by omega)
  rw [lowChar, Char.ofNat, dif_pos h]
  show (Char.ofNatAux _ h).val.toNat = _
  simp [Char.ofNatAux]

theorem lowChar_latin (c : Char) : IsLatin (lowChar c) := by
  rw [IsLatin, lowChar_toNat]; omega

theorem lowChar_eq {c : Char} : lowChar c = c ↔ IsLatin c := by
  constructor
  · intro h; rw [← h]; exact lowChar_latin c
  · intro h
    rw [lowChar, Nat.mod_eq_of_lt h]
    exact Char.ofNat_toNat c

theorem charToByte_low (c : Char) : charToByte c = UInt8.ofNat (lowChar c).toNat := by
  apply UInt8.toNat.inj
  rw [lowChar_toNat]
  show (UInt32.toUInt8 c.val).toNat = _
  rw [UInt32.toNat_toUInt8]
  simp

theorem byteToChar_latin {c : Char} (h : IsLatin c) : byteToChar (UInt8.ofNat c.toNat) = c := by
  have : c.toNat % 256 = c.toNat := Nat.mod_eq_of_lt h
  simp [byteToChar, this]

theorem byteToChar_charToByte_low (c : Char) : byteToChar (charToByte c) = lowChar c := by
  rw [charToByte_low, byteToChar_latin (lowChar_latin c)]

theorem byteStep_latin {op : StrOp} {cs : List Char} (ha : op.isAssign = false)
    (hcs : ∀ c ∈ cs, IsLatin c) :
    match op.narrow.step cs with
    | .error e => byteStep op (latin1 cs) = .error e
    | .ok (o, cs') => byteStep op (latin1 cs) = .ok (o, latin1 cs') ∧ ∀ c ∈ cs', IsLatin c := by
  cases op with
  | push c =>
    refine ⟨by simp [byteStep, latin1, charToByte_low], ?_⟩
    intro x hx
    simp only [List.mem_append, List.mem_singleton] at hx
    rcases hx with hx | rfl
    · exact hcs x hx
    · exact lowChar_latin c
  | pop =>
    refine ⟨?_, fun c hc => hcs c (List.dropLast_subset _ hc)⟩
    simp only [byteStep, latin1]
    rcases List.eq_nil_or_concat cs with hx | ⟨ys, x, hx⟩
    · subst hx; simp
    · rw [List.concat_eq_append] at hx
      subst hx
      have := byteToChar_latin (hcs x (by simp))
      simp [this]
  | insert i c =>
    simp only [StrOp.narrow, StrOp.step, byteStep, latin1, List.length_map]
    by_cases hi : i ≤ cs.length
    · simp only [hi, if_true]
      refine ⟨by simp [List.map_take, List.map_drop, charToByte_low], ?_⟩
      intro x hx
      simp only [List.mem_append, List.mem_cons] at hx
      rcases hx with hx | rfl | hx
      · exact hcs x (List.mem_of_mem_take hx)
      · exact lowChar_latin c
      · exact hcs x (List.mem_of_mem_drop hx)
    · simp [hi]
  | remove i =>
    refine ⟨?_, ?_⟩
    · simp only [byteStep, latin1, List.getElem?_map, Option.map_map]
      have : cs[i]?.map (byteToChar ∘ fun c => UInt8.ofNat c.toNat) = cs[i]? := by
        cases h : cs[i]? with
        | none => rfl
        | some c => simpa using byteToChar_latin (hcs c (List.mem_of_getElem? h))
      rw [this]
      simp [List.map_take, List.map_drop]
    · intro x hx
      simp only [List.mem_append] at hx
      rcases hx with hx | hx
      · exact hcs x (List.mem_of_mem_take hx)
      · exact hcs x (List.mem_of_mem_drop hx)
  | reserve n => exact ⟨by simp [byteStep], hcs⟩
  | assign s => simp [StrOp.isAssign] at ha
  | len => exact ⟨by simp [byteStep, latin1], hcs⟩
  | isEmpty => exact ⟨by simp [byteStep, latin1], hcs⟩

theorem byteRun_latin (ops : List StrOp) : ∀ {cs : List Char},
    (∀ op ∈ ops, op.isAssign = false) → (∀ c ∈ cs, IsLatin c) →
    match StrOp.run (ops.map StrOp.narrow) cs with
    | .error e => byteRun ops (latin1 cs) = .error e
    | .ok (os, cs') => byteRun ops (latin1 cs) = .ok (os, latin1 cs') := by
  induction ops with
  | nil => intro cs _ _; rfl
  | cons op ops ih =>
    intro cs hops hcs
    have h1 := byteStep_latin (hops op (by simp)) hcs
    cases hs : op.narrow.step cs with
    | error e => rw [hs] at h1; simp only at h1; simp [StrOp.run, hs, byteRun, h1]
    | ok r =>
      obtain ⟨o, cs1⟩ := r
      rw [hs] at h1
      obtain ⟨h1, h1'⟩ := h1
      have h2 := ih (fun op hop => hops op (by simp [hop])) h1'
      cases hr : StrOp.run (ops.map StrOp.narrow) cs1 with
      | error e =>
        rw [hr] at h2; simp only at h2; simp [StrOp.run, hs, hr, byteRun, h1, h2]
      | ok r =>
        obtain ⟨os, cs2⟩ := r
        rw [hr] at h2
        simp only [List.map_cons, StrOp.run, hs, hr]
        simp [byteRun, h1, h2]

/-- What a string does with any characters, exactly (without assign): every character is replaced by
the one its low byte is the number of; apart from this the calls return, or panic, as on a text, and
the bytes are that text in Latin-1. -/
theorem C138_string_narrows (R : RawAlloc UInt8) (m0 : Mem UInt8) (ops : List StrOp)
    (hops : ∀ op ∈ ops, op.isAssign = false) :
    match StrOp.run (ops.map StrOp.narrow) [] with
    | .error e => Str.run (strAlloc R) ops Vec.new m0 = .error e
    | .ok (outs, cs) => ∃ v m, Str.run (strAlloc R) ops Vec.new m0 = .ok (outs, v, m) ∧
        v.asSlice m = .ok (latin1 cs) ∧ v.len = .ok cs.length := by
  have h1 := byteRun_latin ops (cs := []) hops (by simp)
  have h2 := SInv.run (R := R) ops (VInv.new nullFits m0)
  cases hr : StrOp.run (ops.map StrOp.narrow) [] with
  | error e =>
    rw [hr] at h1; simp only [latin1, List.map_nil] at h1
    rw [h1] at h2; exact h2
  | ok r =>
    obtain ⟨outs, cs⟩ := r
    rw [hr] at h1; simp only [latin1, List.map_nil] at h1
    rw [h1] at h2
    obtain ⟨v, m, cap, he, hi⟩ := h2
    exact ⟨v, m, he, hi.slice, by simpa [latin1] using hi.len⟩

/-- What is true of C138: characters up to U+00FF come back from every history of calls as from a
text.  Missing: all other characters; see `C138_char_comes_back_iff`. -/
theorem C138_latin_history_partial (R : RawAlloc UInt8) (m0 : Mem UInt8) (ops : List StrOp)
    (hops : ∀ op ∈ ops, op.isAssign = false ∧ op.Latin) :
    match StrOp.run ops [] with
    | .error e => Str.run (strAlloc R) ops Vec.new m0 = .error e
    | .ok (outs, cs) => ∃ v m, Str.run (strAlloc R) ops Vec.new m0 = .ok (outs, v, m) ∧
        v.asSlice m = .ok (latin1 cs) ∧ v.len = .ok cs.length := by
  have h : ops.map StrOp.narrow = ops := by
    refine (List.map_congr_left fun op hop => ?_).trans (List.map_id ops)
    have := (hops op hop).2
    cases op with
    | push c => simp only [StrOp.narrow, lowChar_eq.2 this, id]
    | insert i c => simp only [StrOp.narrow, lowChar_eq.2 this, id]
    | _ => rfl
  have h1 := C138_string_narrows R m0 ops fun op hop => (hops op hop).1
  rwa [h] at h1

/-- C138 is false of all characters above U+00FF.  After any history whatever, to pop after a push, or
to remove where one has inserted, leaves the string as it was, but it returns the character exactly if
that is at most U+00FF. -/
theorem C138_char_comes_back_iff (R : RawAlloc UInt8) (m0 : Mem UInt8) (ops : List StrOp)
    {outs : List StrOut} {v : Vec} {m : Mem UInt8} {bs : List UInt8}
    (hrun : Str.run (strAlloc R) ops Vec.new m0 = .ok (outs, v, m)) (hb : v.asSlice m = .ok bs)
    (c : Char) (i : Nat) (hi : i ≤ bs.length) :
    (∃ d v' m', Str.run (strAlloc R) [.push c, .pop] v m = .ok ([.unit, .char (some d)], v', m') ∧
      v'.asSlice m' = .ok bs ∧ (d = c ↔ IsLatin c)) ∧
    ∃ d v' m', Str.run (strAlloc R) [.insert i c, .remove i] v m =
        .ok ([.unit, .char (some d)], v', m') ∧
      v'.asSlice m' = .ok bs ∧ (d = c ↔ IsLatin c) := by
  obtain ⟨bs0, cap, _, h⟩ := reachable_str hrun
  have : bs0 = bs := by
    have hs := h.slice
    rw [hb] at hs
    cases hs; rfl
  subst this
  constructor
  · have h1 := SInv.run (R := R) [.push c, .pop] h
    simp only [byteRun, byteStep, List.getLast?_append, List.getLast?_singleton, Option.some_or,
      Option.map_some, List.dropLast_concat] at h1
    obtain ⟨v', m', _, e, h1⟩ := h1
    exact ⟨_, v', m', e, h1.slice, by rw [byteToChar_charToByte_low]; exact lowChar_eq⟩
  · have h1 := SInv.run (R := R) [.insert i c, .remove i] h
    have hl : (bs0.take i).length = i := by simp [hi]
    have e1 : (bs0.take i ++ charToByte c :: bs0.drop i)[i]? = some (charToByte c) := by
      rw [List.getElem?_append_right (by omega), hl]; simp
    have e2 : (bs0.take i ++ charToByte c :: bs0.drop i).take i ++
        (bs0.take i ++ charToByte c :: bs0.drop i).drop (i + 1) = bs0 := by
      rw [List.take_append_of_le_length (by omega), List.drop_append, hl]
      simp [List.take_take, List.drop_eq_nil_of_le (show (bs0.take i).length ≤ i + 1 by omega)]
    simp only [byteRun, byteStep, if_pos hi, e1, e2, Option.map_some] at h1
    obtain ⟨v', m', _, e, h1⟩ := h1
    exact ⟨_, v', m', e, h1.slice, by rw [byteToChar_charToByte_low]; exact lowChar_eq⟩

/-- Latin-1 comes back although the bytes are not UTF-8, the euro sign (U+20AC) does not. -/
example : IsLatin 'é' ∧ ¬ IsLatin '€' ∧ (do
    let (o, v, m) ← Str.run (strAlloc RawAlloc.bump)
      [.push 'é', .insert 0 'ü', .push '€', .pop, .pop] Vec.new Mem.empty
    let s ← v.asSlice m
    .ok (o, s)) = (.ok ([.unit, .unit, .unit, .char (some (Char.ofNat 0xAC)), .char (some 'é')],
      [0xFC]) : Exec _) := 
  ⟨by unfold IsLatin; decide, by unfold IsLatin; decide, rfl⟩

end Verif
