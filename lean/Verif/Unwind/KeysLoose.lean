import Verif.Unwind.KeysMove
import Verif.Spec.Panic
import Verif.VectorMap.Proofs

/-! Rehashing when a hash panics, and the invariant that survives it. -/

set_option autoImplicit false

namespace Verif
open Spec

variable {K V σ : Type} {ok : Prop} {E : HEnv K V σ} {Inv : σ → HNMem K V → List Nat → Prop}
  {w : World Nat} {wn : Nat → Option (Option (HCell K V))} {m : HMem K V} {t : HTable σ}
  {bl : List Nat} {cs : List (List (Nat × K × V))}

/-- A sublist, up to order, leaves a rest. -/
theorem subperm_rest {α : Type} {a b : List α} (h : a.Subperm b) : ∃ r, b.Perm (a ++ r) := by
  obtain ⟨l, h1, h2⟩ := h
  obtain ⟨r, hr⟩ := h2.exists_perm_append
  exact ⟨r, hr.trans (h1.append_right r)⟩

/-- Rehashing without a panic. -/
theorem HCore.rehashU_returns (h : HCore ok E Inv w wn m t bl cs) {bc : Nat} (hbc : 0 < bc)
    {t' : HTable σ} {m' : HMem K V} (hr : t.rehash E bc m = .ok (t', m')) {n : Nat}
    (hn : cs.flatten.length ≤ n) :
    t.rehashU E bc n m = .ok (some (n - cs.flatten.length), t', m') := by
  have hstat : m.b.live E.stat ≠ none := by
    rw [h.out E.stat (fun hm => h.stat (h.blNew _ hm).1)]; exact h.stat
  obtain ⟨nb, mb, m1, m2, p, e1, e2, e3, e4, e5, e6, e7, e8, e9⟩ := newArray_ok hstat bc
  have hcur : curArr E bl ≠ nb := by
    intro hc
    obtain ⟨blk, h1, _⟩ := h.arr
    rw [hc, e3] at h1
    cases h1
  have hflat : (List.replicate bc ([] : List (Nat × K × V))).flatten = [] := by simp
  have hheads : heads (List.replicate bc ([] : List (Nat × K × V))) =
      List.replicate bc 0 ++ [sentinel] := by simp [heads]
  rcases moveChainsU_all (E := E) (nb := nb)
    (bc := bc) (ob := curArr E bl) (fuel := t.count + 1) e2 hbc hcur (ds := cs)
    (cs := List.replicate bc []) (pre := []) (post := [sentinel]) (n := n) (m := m2) (by
      intro hs
      by_cases hb : bl = []
      · rw [h.empty hb]; rfl
      · exact absurd hs (curArr_ne h hb))
    (by simp) (by rw [e7]; exact h.chains) (by
      intro c hc
      rw [List.eq_of_mem_replicate hc]
      trivial)
    (by rw [hflat, List.append_nil]; exact h.nodup)
    (by
      have := h.arr.congr (e9 (curArr E bl) hcur)
      simpa [heads] using this)
    (by rw [hheads]; exact e8) (by
      intro i c hc
      have hmem := List.mem_of_getElem? hc
      rw [List.eq_of_mem_replicate hmem]
      simp)
    (by have := h.fits; omega) with ⟨_, m3, f1⟩ | ⟨A, d, B, j, m3, cs3, f1, f2, f3, _⟩
  · have f2 := moveChainsU_returns f1
    simp only [List.length_nil, h.len] at f1 f2
    simp only [HTable.rehash, e1, Exec.ok_bind, e4, e5, e6, h.start, f2] at hr
    obtain ⟨⟨t1, m4⟩, g1, g2⟩ := Exec.of_bind_ok hr
    simp only [Except.ok.injEq, Prod.mk.injEq] at g2
    obtain ⟨rfl, rfl⟩ := g2
    simp only [HTable.rehashU, e1, Exec.ok_bind, e4, e5, e6, h.start, f1, g1]
  · rw [f1] at hn
    simp only [List.flatten_append, List.flatten_cons, List.length_append] at hn
    omega

/-- What is left when a panic ends rehashing: the buckets before are empty, the bucket of the entry
whose hash panicked is as it was or now leads to entries moved before. -/
theorem HCore.rehashStop (L : HLaw E Inv) (h : HCore ok E Inv w wn m t bl cs) {nb : Nat}
    {m2 m3 : HMem K V} {A : List (List (Nat × K × V))} {d : List (Nat × K × V)}
    {B cs3 : List (List (Nat × K × V))} {j : Nat} (hnbl : nb ∉ bl) (hbl : bl ≠ [])
    (e3 : m.b.live nb = none) (e7 : m2.n = m.n) (e9 : ∀ b, b ≠ nb → m2.b.live b = m.b.live b)
    (f1 : cs = A ++ d :: B) (f2 : j < d.length)
    (f5 : ∀ c ∈ cs3, HSeg m3.n c 0) (f6 : cs3.flatten.Perm (A.flatten ++ d.take j))
    (f7 : ArrIs m3.b (curArr E bl) ([] ++ List.replicate A.length 0 ++
      (d :: B).map (fun c => nextOf c 0) ++ [sentinel]))
    (f8 : m3.b.live nb ≠ none) (f9 : NSame m2.n m3.n)
    (f10 : ∀ q, q ∉ (A.flatten ++ d.take j).map Prod.fst → m3.n.node q = m2.n.node q)
    (f11 : ∀ b, b ≠ nb → b ≠ curArr E bl → m3.b.live b = m2.b.live b) :
    ∃ (b0 : Nat) (bs : List Nat) (mid lost : List (Nat × K × V)), bl = b0 :: bs ∧
      (j = 0 → mid = d) ∧ (0 < j → ∀ x ∈ mid, x ∈ A.flatten ++ d.take j) ∧ mid ≠ [] ∧
      (A.flatten ++ d).Perm (mid ++ lost) ∧
      HCore False E (fun a m ps => Inv a m (ps ++ lost.map Prod.fst)) w wn m3 t (b0 :: nb :: bs)
        (List.replicate A.length [] ++ mid :: B) ∧
      m3.n.dropped = m.n.dropped ∧ (∀ q, m3.n.node q = none ↔ m.n.node q = none) := by
  have hnd := h.nodup
  subst f1
  simp only [addrs, List.flatten_append, List.flatten_cons] at hnd
  -- the chain the bucket now leads to
  have hmid : ∃ mid : List (Nat × K × V), (j = 0 → mid = d) ∧
      (0 < j → ∀ x ∈ mid, x ∈ A.flatten ++ d.take j) ∧ mid.Subperm (A.flatten ++ d) ∧
      HSeg m3.n mid 0 ∧ nextOf mid 0 = nextOf d 0 := by
    by_cases hj : j = 0
    · subst hj
      refine ⟨d, fun _ => rfl, fun h0 => absurd h0 (Nat.lt_irrefl _),
        (List.sublist_append_right _ _).subperm, ?_, rfl⟩
      refine (h.chains d (by simp)).frame fun x hx => ?_
      rw [f10, e7]
      simp only [List.take_zero, List.append_nil]
      intro hm
      rw [List.map_append, List.nodup_append] at hnd
      exact hnd.2.2 x.1 hm x.1 (List.mem_map_of_mem (List.mem_append.2 (.inl hx))) rfl
    · cases d with
      | nil => simp at f2
      | cons y d =>
        obtain ⟨i, rfl⟩ : ∃ i, j = i + 1 := ⟨j - 1, by omega⟩
        have hy : y ∈ cs3.flatten := f6.mem_iff.2 (by simp)
        obtain ⟨c, hc, hyc⟩ := List.mem_flatten.1 hy
        obtain ⟨l, r, rfl⟩ := List.append_of_mem hyc
        have hsub : (y :: r).Sublist cs3.flatten :=
          (List.sublist_append_right l _).trans (List.sublist_flatten_of_mem hc)
        have hsp : (y :: r).Subperm (A.flatten ++ (y :: d).take (i + 1)) :=
          (f6.subperm_left).1 hsub.subperm
        refine ⟨y :: r, fun h0 => absurd h0 hj, fun _ x hx => hsp.subset hx, hsp.trans ?_,
          (HSeg.append.1 (f5 _ hc)).2, rfl⟩
        exact (List.Sublist.append (List.Sublist.refl _) (List.take_sublist _ _)).subperm
  obtain ⟨mid, g1, g2, g3, g4, g5⟩ := hmid
  obtain ⟨lost, g6⟩ := subperm_rest g3
  have hmid0 : mid ≠ [] := by
    rintro rfl
    have hd0 : d ≠ [] := by rintro rfl; simp at f2
    exact hd0 ((h.chains d (by simp)).nextOf_ne.1 g5.symm)
  obtain ⟨b0, bs, rfl⟩ := List.exists_cons_of_ne_nil hbl
  have hcur0 : curArr E (b0 :: bs) = b0 := rfl
  have hcur1 : curArr E (b0 :: nb :: bs) = b0 := rfl
  have hnone : ∀ q, m3.n.node q = none ↔ m.n.node q = none := fun q => by
    rw [f9.node q, e7]
  have hfl : (List.replicate A.length [] ++ mid :: B).flatten = mid ++ B.flatten := by simp
  have hpm : (A ++ d :: B).flatten.Perm ((mid ++ B.flatten) ++ lost) := by
    simp only [List.flatten_append, List.flatten_cons]
    rw [← List.append_assoc]
    refine (g6.append_right B.flatten).trans ?_
    rw [List.append_assoc, List.append_assoc]
    exact List.Perm.append_left _ List.perm_append_comm
  have hnd2 : (((mid ++ B.flatten) ++ lost).map Prod.fst).Nodup :=
    (hpm.map Prod.fst).nodup_iff.1 h.nodup
  have hmoved : ∀ x ∈ B.flatten, m3.n.node x.1 = m.n.node x.1 := by
    intro x hx
    rw [f10, e7]
    intro hm
    rw [← List.append_assoc, List.map_append, List.nodup_append] at hnd
    refine hnd.2.2 x.1 ?_ x.1 (List.mem_map_of_mem hx) rfl
    simp only [List.map_append, List.mem_append] at hm ⊢
    rcases hm with hm | hm
    · exact .inl hm
    · exact .inr (((List.take_sublist _ _).map _).subset hm)
  refine ⟨b0, bs, mid, lost, rfl, g1, g2, hmid0, g6, ?_, by rw [f9.dropped, e7], hnone⟩
  · exact
    { len := by rw [← h.len]; simp
      pos := h.pos
      chains := by
        intro c hc
        simp only [List.mem_append, List.mem_cons] at hc
        rcases hc with hc | rfl | hc
        · rw [List.eq_of_mem_replicate hc]; trivial
        · exact g4
        · refine (h.chains c (by simp [hc])).frame fun x hx => ?_
          exact hmoved x (List.mem_flatten.2 ⟨c, hc, hx⟩)
      nodup := by
        rw [addrs, hfl]
        rw [List.map_append] at hnd2
        exact (List.nodup_append.1 hnd2).1
      homes := False.elim
      dist := False.elim
      fits := by
        have h1 := h.fits
        have h2 := hpm.length_eq
        rw [hfl]
        rw [List.length_append] at h2
        omega
      inv := by
        have hi : Inv t.al m3.n (addrs (A ++ d :: B)) := by
          have hi := h.inv
          rw [← e7] at hi
          exact L.frame hi f9.node f9.link f9.reg
        refine L.perm hi ?_
        rw [addrs, addrs, hfl, ← List.map_append]
        exact hpm.map _
      start := by rw [hcur1]; exact h.start
      arr := by
        rw [hcur1]
        rw [hcur0] at f7
        simpa [heads, g5] using f7
      blNodup := by
        have h1 := h.blNodup
        rw [List.nodup_cons] at h1
        rw [List.mem_cons, not_or] at hnbl
        rw [List.nodup_cons, List.nodup_cons, List.mem_cons, not_or]
        exact ⟨⟨fun e => hnbl.1 e.symm, h1.1⟩, hnbl.2, h1.2⟩
      blNew := by
        intro b hb
        by_cases hb1 : b = nb
        · subst hb1
          exact ⟨by rw [← h.out b hnbl]; exact e3, f8⟩
        · have hb2 : b ∈ b0 :: bs := by
            simp only [List.mem_cons] at hb ⊢
            tauto
          refine ⟨(h.blNew b hb2).1, ?_⟩
          by_cases hb3 : b = b0
          · obtain ⟨blk, h1, _⟩ := f7
            rw [hcur0] at h1
            rw [hb3, h1]; simp
          · rw [f11 b hb1 hb3, e9 b hb1]
            exact (h.blNew b hb2).2
      out := by
        intro b hb
        simp only [List.mem_cons, not_or] at hb
        rw [f11 b hb.2.1 hb.1, e9 b hb.2.1]
        exact h.out b (by simp [hb.1, hb.2.2])
      stat := h.stat
      empty := by simp
      keep := by
        intro q hq
        obtain ⟨h1, h2⟩ := h.keep q hq
        rw [addrs, (hpm.map Prod.fst).mem_iff, List.map_append, List.mem_append, not_or] at h1
        refine ⟨by rw [addrs, hfl]; exact h1.1, ?_⟩
        rw [f10 q, e7]
        · exact h2
        · intro hm
          have hq' : q ∈ addrs (A ++ d :: B) := by
            simp only [addrs, List.flatten_append, List.flatten_cons, List.map_append,
              List.mem_append] at hm ⊢
            rcases hm with hm | hm
            · exact .inl hm
            · exact .inr (.inl (((List.take_sublist _ _).map _).subset hm))
          exact (h.keep q hq).1 hq' }

/-- Rehashing when the hash of an entry panics after `n` entries were moved: the buckets before are
empty, the bucket of the entry is as it was or now leads to entries moved before. -/
theorem HCore.rehashU_panics (L : HLaw E Inv) (h : HCore ok E Inv w wn m t bl cs) {bc : Nat}
    (hbc : 0 < bc) {n : Nat} (hn : n < cs.flatten.length) :
    ∃ (m' : HMem K V) (nb b0 : Nat) (bs : List Nat) (A : List (List (Nat × K × V)))
      (d : List (Nat × K × V)) (B : List (List (Nat × K × V))) (j : Nat)
      (mid lost : List (Nat × K × V)),
      t.rehashU E bc n m = .ok (none, t, m') ∧ bl = b0 :: bs ∧ cs = A ++ d :: B ∧
      j < d.length ∧ A.flatten.length + j = n ∧ (j = 0 → mid = d) ∧
      (0 < j → ∀ x ∈ mid, x ∈ A.flatten ++ d.take j) ∧ mid ≠ [] ∧
      (A.flatten ++ d).Perm (mid ++ lost) ∧
      HCore False E (fun a m ps => Inv a m (ps ++ lost.map Prod.fst)) w wn m' t (b0 :: nb :: bs)
        (List.replicate A.length [] ++ mid :: B) ∧
      m'.n.dropped = m.n.dropped ∧ (∀ q, m'.n.node q = none ↔ m.n.node q = none) := by
  have hstat : m.b.live E.stat ≠ none := by
    rw [h.out E.stat (fun hm => h.stat (h.blNew _ hm).1)]; exact h.stat
  obtain ⟨nb, mb, m1, m2, p, e1, e2, e3, e4, e5, e6, e7, e8, e9⟩ := newArray_ok hstat bc
  have hnbl : nb ∉ bl := fun hm => (h.blNew nb hm).2 e3
  have hcur : curArr E bl ≠ nb := by
    intro hc
    obtain ⟨blk, h1, _⟩ := h.arr
    rw [hc, e3] at h1
    cases h1
  have hbl : bl ≠ [] := by
    intro hb
    rw [h.empty hb] at hn
    simp at hn
  have hflat : (List.replicate bc ([] : List (Nat × K × V))).flatten = [] := by simp
  have hheads : heads (List.replicate bc ([] : List (Nat × K × V))) =
      List.replicate bc 0 ++ [sentinel] := by simp [heads]
  rcases moveChainsU_all (E := E) (nb := nb)
    (bc := bc) (ob := curArr E bl) (fuel := t.count + 1) e2 hbc hcur (ds := cs)
    (cs := List.replicate bc []) (pre := []) (post := [sentinel]) (n := n) (m := m2)
    (fun hs => absurd hs (curArr_ne h hbl))
    (by simp) (by rw [e7]; exact h.chains) (by
      intro c hc
      rw [List.eq_of_mem_replicate hc]
      trivial)
    (by rw [hflat, List.append_nil]; exact h.nodup)
    (by
      have := h.arr.congr (e9 (curArr E bl) hcur)
      simpa [heads] using this)
    (by rw [hheads]; exact e8) (by
      intro i c hc
      have hmem := List.mem_of_getElem? hc
      rw [List.eq_of_mem_replicate hmem]
      simp)
    (by have := h.fits; omega) with ⟨f0, _⟩ |
      ⟨A, d, B, j, m3, cs3, f1, f2, f3, f4, f5, f6, f7, f8, f9, f10, f11⟩
  · omega
  rw [hflat, List.append_nil] at f6 f10
  simp only [List.length_nil, h.len] at f4
  obtain ⟨b0, bs, mid, lost, rfl, g2, g3, g4, g5, g6, g7, g8⟩ := h.rehashStop L hnbl hbl e3 e7 e9 f1 f2
    f5 f6 f7 f8 f9 f10 f11
  refine ⟨m3, nb, b0, bs, A, d, B, j, mid, lost, ?_, rfl, f1, f2, f3, g2, g3, g4, g5, g6, g7, g8⟩
  simp only [HTable.rehashU, e1, Exec.ok_bind, e4, e5, e6, h.start, f4]

/-! ## The growth policy -/

theorem f32OfU32_le (n : Nat) : f32OfU32 n ≤ 2 * n := by
  unfold f32OfU32
  split
  · omega
  · rename_i h
    have h0 : n ≠ 0 := by omega
    have hu : 2 ^ (Nat.log2 n - 23) ≤ n :=
      Nat.le_trans (Nat.pow_le_pow_right (by decide) (Nat.sub_le _ _)) (Nat.log2_self_le h0)
    generalize 2 ^ (Nat.log2 n - 23) = u at hu
    have hd : n / u * u ≤ n := Nat.div_mul_le_self n u
    simp only
    split
    · rw [Nat.add_mul]; omega
    · omega

theorem f32OfU32_at {n k : Nat} (h24 : 2 ^ 24 ≤ n) (h1 : 2 ^ (k + 23) ≤ n) (h2 : n < 2 ^ (k + 24)) :
    f32OfU32 n = (if 2 ^ k < 2 * (n % 2 ^ k) ∨ 2 ^ k = 2 * (n % 2 ^ k) ∧ n / 2 ^ k % 2 = 1 then
      n / 2 ^ k + 1 else n / 2 ^ k) * 2 ^ k := by
  have hl : Nat.log2 n = k + 23 := (Nat.log2_eq_iff (by omega)).2 ⟨h1, h2⟩
  unfold f32OfU32
  rw [if_neg (by omega), hl, Nat.add_sub_cancel]

/-- Numbers up to 2147483776 are rounded to at most 2^31. -/
theorem f32OfU32_half {n : Nat} (h : n ≤ 2147483776) : f32OfU32 n ≤ 2147483648 := by
  rcases Nat.lt_or_ge n (2 ^ 30) with h1 | h1
  · have := f32OfU32_le n; omega
  rcases Nat.lt_or_ge n (2 ^ 31) with h2 | h2
  · rw [f32OfU32_at (k := 7) (by omega) (by omega) (by omega)]
    split <;> omega
  · rw [f32OfU32_at (k := 8) (by omega) (by omega) (by omega)]
    split <;> omega

/-- The largest `f32` below 2^31. -/
theorem f32OfU32_below {n : Nat} (h : f32OfU32 n < 2147483648) : f32OfU32 n ≤ 2147483520 := by
  rcases Nat.lt_or_ge n (2 ^ 29) with h1 | h1
  · have := f32OfU32_le n; omega
  rcases Nat.lt_or_ge n (2 ^ 30) with h2 | h2
  · rw [f32OfU32_at (k := 6) (by omega) (by omega) (by omega)] at h ⊢
    split <;> omega
  rcases Nat.lt_or_ge n (2 ^ 31) with h3 | h3
  · rw [f32OfU32_at (k := 7) (by omega) (by omega) (by omega)] at h ⊢
    generalize hq : (if 2 ^ 7 < 2 * (n % 2 ^ 7) ∨ 2 ^ 7 = 2 * (n % 2 ^ 7) ∧ n / 2 ^ 7 % 2 = 1 then
      n / 2 ^ 7 + 1 else n / 2 ^ 7) = q at h ⊢
    omega
  · exfalso
    have h0 : n ≠ 0 := by omega
    have hl : 31 ≤ Nat.log2 n := (Nat.le_log2 h0).2 h3
    have h24 : ¬ n < 2 ^ 24 := by omega
    unfold f32OfU32 at h
    rw [if_neg h24] at h
    obtain ⟨k, hk⟩ : ∃ k, Nat.log2 n = k + 23 := ⟨Nat.log2 n - 23, by omega⟩
    have hn := Nat.log2_self_le h0
    rw [hk] at h hn
    rw [Nat.add_sub_cancel] at h
    have hp : 2 ^ (k + 23) = 2 ^ 23 * 2 ^ k := by rw [Nat.pow_add, Nat.mul_comm]
    have h8 : 2 ^ 8 ≤ 2 ^ k := Nat.pow_le_pow_right (by decide) (by omega)
    have hu : 2 ^ 23 ≤ n / 2 ^ k := (Nat.le_div_iff_mul_le (Nat.pow_pos (by decide))).2 (by omega)
    have : 2 ^ 23 * 2 ^ 8 ≤ n / 2 ^ k * 2 ^ k := Nat.mul_le_mul hu h8
    simp only at h
    split at h
    · rw [Nat.add_mul] at h; omega
    · omega

/-- If the policy grows a table of any number of buckets for its 2147483776th entry or an earlier
one, then a prime is large enough. -/
theorem grow_room {c b : Nat} (hc : c ≤ 2147483776) (h : f32OfU32 b < f32OfU32 c) :
    u32OfF32 (max (f32OfU32 c) (2 * f32OfU32 b)) ≤ 4294967291 := by
  have h1 := f32OfU32_half hc
  have h2 := f32OfU32_below (n := b) (by omega)
  unfold u32OfF32
  omega

/-- For the next entry, a table of 2147483648 buckets that is to grow is left by a panic. -/
theorem grow_no_room : getRehashRequired 0 2147483648 2147483776 1 = .error .panic := by
  decide +kernel

theorem primeTable_sorted : primeTable.Pairwise (· ≤ ·) := by decide +kernel

theorem primeTable_gt : ∀ p ∈ primeTable, 1 < p := by decide +kernel

theorem primeAtLeast_any (x : Nat) : (∃ p, primeAtLeast x = .ok p ∧ 1 < p) ∨
    (4294967291 < x ∧ primeAtLeast x = .error .panic) := by
  have hpart : Partitioned primeTable (fun p => decide (p < x)) := by
    intro i j a b hij ha hb hlt
    simp only [decide_eq_true_eq] at hlt ⊢
    obtain ⟨hi, rfl⟩ := List.getElem?_eq_some_iff.1 ha
    obtain ⟨hj, rfl⟩ := List.getElem?_eq_some_iff.1 hb
    rcases Nat.eq_or_lt_of_le hij with rfl | hij
    · exact hlt
    · have := List.pairwise_iff_getElem.1 primeTable_sorted i j hi hj hij
      omega
  obtain ⟨r, e1, e2, e3, e4⟩ := lowerBoundBy_ok hpart
  have hlen : primeTable.length = 257 := by decide +kernel
  rcases Nat.lt_or_ge r primeTable.length with hr | hr
  · refine .inl ⟨primeTable[r], ?_, primeTable_gt _ (List.getElem_mem hr)⟩
    simp only [primeAtLeast, e1, Exec.ok_bind, List.getElem?_eq_getElem hr]
  · have := e3 256 4294967291 (by omega) (by decide +kernel)
    simp only [decide_eq_true_eq] at this
    refine .inr ⟨this, ?_⟩
    simp only [primeAtLeast, e1, Exec.ok_bind, List.getElem?_eq_none hr]

/-- Whatever state the policy is in, it answers, or panics because there are too many entries. -/
theorem policy_any (resize buckets c : Nat) :
    (∃ r nr, getRehashRequired resize buckets c 1 = .ok (r, nr) ∧ ∀ b, r = some b → 1 < b) ∨
    (2147483776 ≤ c ∧ getRehashRequired resize buckets c 1 = .error .panic) := by
  simp only [getRehashRequired]
  by_cases h0 : 2 ^ 32 ≤ c + 1
  · rw [if_pos h0]
    exact .inr ⟨by omega, rfl⟩
  rw [if_neg h0]
  generalize (if buckets = 1 then 0 else buckets) = bc
  by_cases h1 : resize < c + 1
  · rw [if_pos h1]
    by_cases h2 : f32OfU32 bc < f32OfU32 (c + 1)
    · rw [if_pos h2]
      rcases primeAtLeast_any (u32OfF32 (max (f32OfU32 (c + 1)) (2 * f32OfU32 bc))) with
        ⟨p, e1, e2⟩ | ⟨e1, e2⟩
      · refine .inl ⟨some p, _, by rw [e1]; rfl, ?_⟩
        rintro b ⟨⟩
        exact e2
      · refine .inr ⟨?_, by rw [e2]; rfl⟩
        rcases Nat.lt_or_ge c 2147483776 with hc | hc
        · have := grow_room (show c + 1 ≤ 2147483776 from hc) h2
          omega
        · exact hc
    · rw [if_neg h2]
      exact .inl ⟨none, _, rfl, by simp⟩
  · rw [if_neg h1]
    exact .inl ⟨none, _, rfl, by simp⟩

/-! ## The invariant -/

theorem HCore.mono {Inv' : σ → HNMem K V → List Nat → Prop} (h : HCore ok E Inv w wn m t bl cs)
    (hi : Inv' t.al m.n (addrs cs)) : HCore ok E Inv' w wn m t bl cs :=
  ⟨h.len, h.pos, h.chains, h.nodup, h.homes, h.dist, h.fits, hi, h.start, h.arr, h.blNodup, h.blNew,
    h.out, h.stat, h.empty, h.keep⟩

theorem HCore.forget (h : HCore ok E Inv w wn m t bl cs) : HCore False E Inv w wn m t bl cs :=
  ⟨h.len, h.pos, h.chains, h.nodup, False.elim, False.elim, h.fits, h.inv, h.start, h.arr, h.blNodup,
    h.blNew, h.out, h.stat, h.empty, h.keep⟩

theorem HCore.resize (h : HCore ok E Inv w wn m t bl cs) (nr : Nat) :
    HCore ok E Inv w wn m { t with nextResize := nr } bl cs :=
  ⟨h.len, h.pos, h.chains, h.nodup, h.homes, h.dist, h.fits, h.inv, h.start, h.arr, h.blNodup,
    h.blNew, h.out, h.stat, h.empty, h.keep⟩

/-- A table some of whose calls were left by panics.  `ex` are the nodes leaked, `lost` the number
of entries counted but not reachable. -/
structure HLoose (E : HEnv K V σ) (Inv : σ → HNMem K V → List Nat → Prop) (w : World Nat)
    (wn : Nat → Option (Option (HCell K V))) (m : HMem K V) (t : HTable σ) (bl : List Nat)
    (cs : List (List (Nat × K × V))) (ex : List Nat) (lost : Nat) : Prop where
  core : HCore False E (fun a m ps => Inv a m (ps ++ ex)) w wn m t bl cs
  count : t.count = cs.flatten.length + lost
  arrs : t.bucketCount = 1 → bl = []
  first : bl = [] → t.nextResize = 0 ∧ t.count = 0

variable {ex : List Nat} {lost : Nat} {m' : HMem K V} {cs' : List (List (Nat × K × V))}

theorem HLoose.setCore (h : HLoose E Inv w wn m t bl cs ex lost)
    (hc : HCore False E (fun a m ps => Inv a m (ps ++ ex)) w wn m' t bl cs')
    (hl : cs'.flatten.length = cs.flatten.length) : HLoose E Inv w wn m' t bl cs' ex lost :=
  ⟨hc, by rw [hl]; exact h.count, h.arrs, h.first⟩

theorem HLoose.insertImplU (L : HLaw E Inv) (h : HLoose E Inv w wn m t bl cs ex lost) {k : K} {v : V}
    {target : Ptr} (htgt : t.bucketForKey E k m = .ok target) (n : Nat) :
    (2147483776 ≤ t.count ∧ t.insertImplU E target k v n m = .error .panic) ∨
    ∃ (o : Option Nat) (t' : HTable σ) (m' : HMem K V) (bl' : List Nat)
      (cs' : List (List (Nat × K × V))) (g : List (Nat × K × V)),
      t.insertImplU E target k v n m = .ok (o, t', m') ∧
      HLoose E Inv w wn m' t' bl' cs' (g.map Prod.fst ++ ex) (lost + g.length) ∧
      t'.count ≤ t.count + 1 ∧
      ((o = none ∧ (ents cs).Perm (ents cs' ++ g.map Prod.snd) ∧
        m'.n.dropped = m.n.dropped ++ [Sum.inl k, Sum.inr v].filter E.needs) ∨
      (∃ p, o = some p ∧ g = [] ∧ (ents cs').Perm ((k, v) :: ents cs) ∧
        m'.n.dropped = m.n.dropped ∧ ∃ x, m'.node p = .ok ⟨k, v, x⟩)) := by
  rcases policy_any t.nextResize t.bucketCount t.count with ⟨r, nr, p1, p2⟩ | ⟨p1, p2⟩
  swap
  · exact .inl ⟨p1, by simp only [HTable.insertImplU, p2, Exec.error_bind]⟩
  right
  have La : NLaw E.A none E.size E.align E.size E.align (fun a m ps => Inv a m (ps ++ ex)) :=
    NLaw.aside L ex
  have hc0 := h.core.resize nr
  -- dropping key and value
  have hdrops : ∀ m1 : HMem K V, m1.n.dropped = m.n.dropped →
      ((m1.dropKey E k).dropVal E v).n.dropped =
        m.n.dropped ++ [Sum.inl k, Sum.inr v].filter E.needs := by
    intro m1 hm1
    rw [dropVal_dropped, dropKey_dropped, hm1, List.append_assoc, ← List.filter_append]
    rfl
  -- adding the node
  have hpush : ∀ {t1 : HTable σ} {m1 : HMem K V} {bl1 : List Nat} {cs1 : List (List (Nat × K × V))}
      {tgt : Ptr}, HCore False E (fun a m ps => Inv a m (ps ++ ex)) w wn m1 t1 bl1 cs1 →
      t1.bucketForKey E k m1 = .ok tgt → bl1 ≠ [] → t1.bucketCount ≠ 1 → t1.count = t.count →
      m1.n.dropped = m.n.dropped → cs1.flatten.Perm cs.flatten →
      ∃ (p : Nat) (t' : HTable σ) (m' : HMem K V) (cs' : List (List (Nat × K × V))), (do
        let (p, a, n) ← E.A.alloc E.size E.align t1.al m1.n
        let m : HMem K V := { m1 with n := n }
        let h ← m.b.read tgt
        let n ← m.n.modify p fun _ => some ⟨k, v, h⟩
        let m : HMem K V := { m with n := n }
        let m ← m.writeBucket E tgt p
        (.ok (some p, { t1 with al := a, count := t1.count + 1 }, m) :
          Exec (Option Nat × HTable σ × HMem K V))) = .ok (some p, t', m') ∧
      HLoose E Inv w wn m' t' bl1 cs' ex lost ∧ t'.count ≤ t.count + 1 ∧
      (ents cs').Perm ((k, v) :: ents cs) ∧
      m'.n.dropped = m.n.dropped ∧ ∃ x, m'.node p = .ok ⟨k, v, x⟩ := by
    intro t1 m1 bl1 cs1 tgt hc ht hb1 hbc hcnt hd hp
    obtain ⟨l1, c, l2, rfl, g1, g2, g3, _⟩ := hc.search k
    rw [ht] at g2
    obtain rfl : tgt = _ := by simpa using g2
    obtain ⟨p, a, n, n', m2, f1, f2, f3, f4, f5, f6, f7, f8⟩ :=
      hc.push La False.elim (v := v) g1 False.elim hb1
    refine ⟨p, _, m2, _, by simp only [f1, Exec.ok_bind, f2, f3, f4],
      ⟨f5, ?_, fun hb => absurd hb hbc, fun hb => absurd hb hb1⟩, by simp [hcnt], ?_,
      by rw [f7, hd], _, f8⟩
    · have h1 := hp.length_eq
      have h2 := h.count
      simp only [List.flatten_append, List.flatten_cons, List.length_append, List.length_cons]
        at h1 ⊢
      omega
    · refine List.Perm.trans ?_ ((hp.map Prod.snd).cons _)
      simp only [ents, List.flatten_append, List.flatten_cons, List.cons_append, List.map_append,
        List.map_cons]
      exact List.perm_middle
  cases r with
  | none =>
    have hbl : bl ≠ [] := by
      intro hb
      obtain ⟨h1, h2⟩ := h.first hb
      have hl := h.core.len
      rw [h.core.empty hb] at hl
      simp only [List.length_cons, List.length_nil, Nat.zero_add] at hl
      rw [h1, h2, ← hl, policy_first] at p1
      cases p1
    obtain ⟨p, t', m', cs', e1, e2, e3, e4, e5, e6⟩ := hpush hc0 htgt hbl
      (fun hb => hbl (h.arrs hb)) rfl rfl (.refl _)
    refine ⟨some p, t', m', bl, cs', [], ?_, e2, e3, .inr ⟨p, rfl, rfl, e4, e5, e6⟩⟩
    simp only [HTable.insertImplU, p1, Exec.ok_bind]
    exact e1
  | some b =>
    have hb1 := p2 b rfl
    by_cases hn : n < cs.flatten.length
    · obtain ⟨m1, nb, b0, bs, A, d, B, j, mid, g, e1, rfl, rfl, e4, e5, e6, e7, e8, e9, e10, e11, _⟩ :=
        hc0.rehashU_panics La (bc := b) (by omega) hn
      have hpm : (A ++ d :: B).flatten.Perm
          ((List.replicate A.length [] ++ mid :: B).flatten ++ g) := by
        simp only [List.flatten_append, List.flatten_cons, List.flatten_replicate_nil,
          List.nil_append]
        rw [← List.append_assoc]
        refine (e9.append_right B.flatten).trans ?_
        rw [List.append_assoc, List.append_assoc]
        exact List.Perm.append_left _ List.perm_append_comm
      have hL2 := (La.aside (g.map Prod.fst))
      refine ⟨none, _, (m1.dropKey E k).dropVal E v, b0 :: nb :: bs, _, g, ?_,
        ⟨((e10.dropKey hL2 k).dropVal hL2 v).mono ?_, ?_, ?_, by simp⟩, by simp, .inl ⟨rfl, ?_,
        hdrops m1 e11⟩⟩
      · simp only [HTable.insertImplU, p1, Exec.ok_bind, e1]
      · have := ((e10.dropKey hL2 k).dropVal hL2 v).inv
        simpa only [List.append_assoc] using this
      · have h1 := h.count
        have h2 := hpm.length_eq
        rw [List.length_append] at h2
        simp only
        omega
      · intro hb
        have := h.arrs hb
        cases this
      · have := hpm.map Prod.snd
        rw [List.map_append] at this
        exact this
    · obtain ⟨t1, m1, nb, cs1, e1, e2, e3, e4, e5, e6, e7, e8⟩ :=
        hc0.rehash La False.elim (bc := b) (by omega)
      have hret := hc0.rehashU_returns (bc := b) (by omega) e1 (n := n) (by omega)
      obtain ⟨l1, c, l2, hcs1, _, g2, _⟩ := e2.search k
      rcases Nat.eq_zero_or_pos (n - cs.flatten.length) with hz | hz
      · refine ⟨none, t1, (m1.dropKey E k).dropVal E v, nb :: bl, cs1, [], ?_,
          ⟨(e2.dropKey La k).dropVal La v, ?_, fun hb => by omega, by simp⟩, (show t1.count ≤ t.count + 1 from by
            have h3 : t1.count = t.count := e5
            omega),
          .inl ⟨rfl, ?_, hdrops m1 e7⟩⟩
        · rw [hz] at hret
          simp only [HTable.insertImplU, p1, Exec.ok_bind, hret]
        · have h1 := h.count
          have h2 := e3.length_eq
          have h3 : t1.count = t.count := e5
          simp only [List.length_nil]
          omega
        · rw [List.map_nil, List.append_nil]
          exact (e3.map Prod.snd).symm
      · obtain ⟨n', hn'⟩ : ∃ n', n - cs.flatten.length = n' + 1 := ⟨_, (Nat.sub_add_cancel hz).symm⟩
        obtain ⟨p, t', m', cs', f1, f2, f3, f4, f5, f6⟩ := hpush e2 g2 (by simp)
          (fun hb => by omega) e5 e7 e3
        refine ⟨some p, t', m', nb :: bl, cs', [], ?_, f2, f3, .inr ⟨p, rfl, rfl, f4, f5, f6⟩⟩
        rw [hn'] at hret
        simp only [HTable.insertImplU, p1, Exec.ok_bind, hret, g2]
        exact f1

end Verif
