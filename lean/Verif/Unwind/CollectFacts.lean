import Verif.Unwind.Collect
import Verif.HashTable.Facts
import Verif.Deque.Inv
import Mathlib.Data.List.Perm.Basic

set_option autoImplicit false

namespace Verif
open Spec

theorem perm_shuffle {β : Type} {A T B g d B' S C D : List β} (h1 : (A ++ T).Perm (B ++ (g ++ d)))
    (h2 : B'.Perm B) (h3 : (B' ++ S).Perm (C ++ D)) : (A ++ (T ++ S)).Perm (C ++ (d ++ g ++ D)) := by
  classical
  rw [List.perm_iff_count] at h1 h2 h3 ⊢
  intro a
  have h1 := h1 a; have h2 := h2 a; have h3 := h3 a
  simp only [List.count_append] at h1 h2 h3 ⊢
  omega

section
variable {K V σ : Type} {E : HEnv K V σ} {Inv : σ → HNMem K V → List Nat → Prop} {w : World Nat}
  {wn : Nat → Option (Option (HCell K V))}

/-- Collecting pairs into a table loses and duplicates nothing: what was stored and what was given
is what is stored then and what was dropped meanwhile. -/
theorem HRep.insertAll_drops (L : HLaw E Inv) (he : PartialEquiv E.eq) (hh : HashOk E) :
    ∀ (kvs : List (K × V)) {m : HMem K V} {t : HTable σ} {peak : Nat} {bl : List Nat}
      {cs : List (List (Nat × K × V))}, HRep True E Inv w wn m t peak bl cs →
    (ents cs).length + kvs.length ≤ maxEntries →
    ∃ t' m' peak' bl' cs' D, HTable.insertAll E kvs t m = .ok (t', m') ∧
      HRep True E Inv w wn m' t' peak' bl' cs' ∧
      m'.n.dropped.Perm (m.n.dropped ++ D.filter E.needs) ∧
      (contents (ents cs) ++ contents kvs).Perm (contents (ents cs') ++ D) := by
  intro kvs
  induction kvs with
  | nil =>
    intro m t peak bl cs h _
    exact ⟨t, m, peak, bl, cs, [], rfl, h, by simp, .refl _⟩
  | cons p kvs ih =>
    intro m t peak bl cs h hmax
    have hlen : (MapOp.step E.eq (.insert p.1 p.2) (ents cs)).2.length ≤ (ents cs).length + 1 := by
      simp only [MapOp.step]
      cases lookup E.eq (ents cs) p.1 <;> simp [setVal]
    simp only [List.length_cons] at hmax
    obtain ⟨t1, m1, bl1, cs1, e1, e2⟩ := h.step L he hh (.insert p.1 p.2) (by omega)
    obtain ⟨o, e3, e4⟩ : ∃ o, t.insert E p.1 p.2 m = .ok (o, t1, m1) ∧
        MapOut.val o = (MapOp.step E.eq (.insert p.1 p.2) (ents cs)).1 := by
      simp only [HTable.step] at e1
      obtain ⟨⟨o, t2, m2⟩, h1, h2⟩ := Exec.bind_ok e1
      simp only [Except.ok.injEq, Prod.mk.injEq] at h2
      obtain ⟨h3, rfl, rfl⟩ := h2
      exact ⟨o, h1, h3⟩
    have hgiven : MapOp.given E.eq (.insert p.1 p.2) (ents cs) = o.toList.map Sum.inr := by
      simp only [MapOp.step] at e4
      simp only [MapOp.given]
      cases hl : lookup E.eq (ents cs) p.1 <;> rw [hl] at e4 <;>
        simp_all
    have hrep : HRep True E Inv w wn (match o with | none => m1 | some v => m1.dropVal E v) t1
        (max peak (MapOp.step E.eq (.insert p.1 p.2) (ents cs)).2.length) bl1 cs1 := by
      cases o with
      | none => exact e2.rep
      | some v => exact e2.rep.setCore (e2.rep.core.dropVal L v) rfl rfl e2.rep.peak rfl e2.rep.count
    have hlen1 : (ents cs1).length = (MapOp.step E.eq (.insert p.1 p.2) (ents cs)).2.length :=
      e2.perm.length_eq
    obtain ⟨t', m', pk', bl', cs', D, f1, f2, f3, f4⟩ := ih hrep (by omega)
    refine ⟨t', m', pk', bl', cs', MapOp.drops E.eq (.insert p.1 p.2) (ents cs) ++
      o.toList.map Sum.inr ++ D, ?_, f2, ?_, ?_⟩
    · simp only [HTable.insertAll, e3, Exec.ok_bind]
      cases o <;> exact f1
    · refine f3.trans ?_
      rw [List.filter_append, List.filter_append, ← List.append_assoc, ← List.append_assoc]
      refine List.Perm.append_right _ ?_
      cases o with
      | none => simpa using e2.drops
      | some v =>
        have : (m1.dropVal E v).n.dropped = m1.n.dropped ++ [Sum.inr v].filter E.needs := by
          simp only [HMem.dropVal, NMem.logDrop, List.filter_cons, List.filter_nil]
          change _ = _ ++ if E.ndV = true then _ else _
          split_ifs <;> simp
        show (m1.dropVal E v).n.dropped.Perm _
        rw [this]
        exact e2.drops.append_right _
    · have h1 := conserve_step he h.core.distinct (.insert p.1 p.2)
      rw [hgiven] at h1
      have h2 := contents_perm e2.perm
      have h5 : contents (p :: kvs) = MapOp.taken E.eq (.insert p.1 p.2) (ents cs) ++ contents kvs :=
        rfl
      rw [h5]
      exact perm_shuffle h1 h2 f4

end
end Verif
