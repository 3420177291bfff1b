import Verif.LinkedList.CounterProofs
import Verif.Props.LinkedList

/-!
# `List` with the 32-bit element count it has (C109)

The theorems of `Verif.Props.LinkedList` are about a list that counts its elements with unbounded
numbers.  Here the count is the `u32` of the code, in debug and in release builds.  `fuel` bounds
the iterations of the loop of `clear`; any bound larger than the list ever was does.
-/

set_option autoImplicit false

namespace Verif
open Spec

variable {α : Type}

/-- A list created with its sentinel at `s` and put through the calls `ops`, counting as the code
does. -/
def LList.historyW {σ : Type} (B : Build) (E : LEnv α σ) (fuel : Nat) (ops : List (ListOp α)) (a : σ)
    (s : Nat) (m0 : LMem α) : Exec (List (Out α) × LList σ × LMem α) := do
  let (l, m) ← LList.newIn a s m0
  l.runW B E fuel ops m

theorem LRep.historyW {σ : Type} {E : LEnv α σ} {Inv : σ → LMem α → List Nat → Prop}
    (L : LLaw E Inv) {a : σ} {s : Nat} {m0 : LMem α} (hs : m0.node s ≠ none) (hi : Inv a m0 [])
    (B : Build) (fuel : Nat) (ops : List (ListOp α)) (hf : ListOp.peak ops [] < fuel)
    (hB : B = .release ∨ ListOp.peak ops [] < 2 ^ 32) :
    ∃ l m ps, LList.historyW B E fuel ops a s m0 = .ok (ListOp.outsU32 ops [],
        l.withSize ((ListOp.run ops []).2.length % 2 ^ 32), m) ∧ l.head = s ∧
      m.dropped = m0.dropped ++ (if E.nd then ListOp.allDropped ops [] else []) ∧
      LRep Inv m l ps (ListOp.run ops []).2 ∧ LKeep s [] m0 ps m := by
  obtain ⟨l0, m1, e1, e2, e3, e4, e5⟩ := LRep.newIn hs L hi
  obtain ⟨l, m, ps, f1, f2, f3, f4, f5⟩ := LRep.runW L (B := B) (fuel := fuel) ops e4 hf hB
  rw [e2] at f5
  have e0 : l0.withSize (([] : List α).length % 2 ^ 32) = l0 := by
    have := e4.size
    cases l0; simp only [LList.withSize] at this ⊢; simp [this]
  rw [e0] at f1
  exact ⟨l, m, ps, by simp only [LList.historyW, e1, Exec.ok_bind, f1], f2.trans e2, by rw [f3, e3],
    f4, e5.trans f5⟩

variable (P : Placer (LNode α) α) {size : Nat} (hsz : 0 < size) (align : Nat) (nd : Bool)
include hsz

/-- C109, the part that holds in every build.  As long as the list never has 2^32 elements, every
history returns what it returns on a mathematical sequence, and the count is exact. -/
theorem C109_count_exact_partial (B : Build) (ops : List (ListOp α)) (m0 : LMem α) (hwf : m0.WF)
    (s : Nat) (hs : m0.node s ≠ none) (fuel : Nat) (hf : ListOp.peak ops [] < fuel)
    (hp : ListOp.peak ops [] < 2 ^ 32) :
    ∃ l m, LList.historyW B (listEnv P size align nd false) fuel ops () s m0 =
        .ok ((ListOp.run ops []).1, l, m) ∧ l.size = (ListOp.run ops []).2.length ∧
      ∀ z, z ≠ s → m0.node z ≠ none → m.node z = m0.node z := by
  obtain ⟨l, m, ps, h1, _, _, _, h5⟩ := LRep.historyW (listEnv_law P align nd hsz m0) hs
    (DefInv.init hwf size align) B fuel ops hf (.inr hp)
  rw [outsU32_small ops [] hp] at h1
  have hle : ∀ (ops : List (ListOp α)) (xs : List α),
      (ListOp.run ops xs).2.length ≤ ListOp.peak ops xs := by
    intro ops
    induction ops with
    | nil => intro xs; exact Nat.le_refl _
    | cons op ops ih => intro xs; exact Nat.le_trans (ih _) (Nat.le_max_right _ _)
  exact ⟨_, m, h1, Nat.mod_eq_of_lt (Nat.lt_of_le_of_lt (hle ops []) hp),
    fun z hz hn => (h5 z hn (by simpa using hz)).2⟩

/-- C109, the part that holds of lists of any length, in release builds.  No call panics or follows
a dangling pointer; all results but those of `len` and `is_empty` are right and these are right
modulo 2^32; iteration yields every element; dropping the list gives back all memory and drops every
value left exactly once. -/
theorem C109_release_any_size_partial (ops : List (ListOp α)) (m0 : LMem α) (hwf : m0.WF)
    (s : Nat) (hs : m0.node s ≠ none) (fuel : Nat) (hf : ListOp.peak ops [] < fuel) (n : Nat) :
    ∃ l m it l' m' drops,
      LList.historyW .release (listEnv P size align nd false) fuel ops () s m0 =
        .ok (ListOp.outsU32 ops [], l, m) ∧
      LIter.runW .release n l.iter m =
        .ok ((List.range n).map (fun j => (ListOp.run ops []).2[j]?), it) ∧
      l.clearW (listEnv P size align nd false) fuel m = .ok (l', m') ∧
      m'.reg = m0.reg ∧ (∀ z, z ≠ s → m'.node z = m0.node z) ∧
      m'.dropped = m0.dropped ++ (if nd then drops else []) ∧
      (ListOp.allIn ops []).Perm (ListOp.allOut ops [] ++ drops) := by
  have L := listEnv_law P align nd hsz m0
  obtain ⟨l, m, ps, h1, h2, h3, h4, h5⟩ := LRep.historyW L hs (DefInv.init hwf size align)
    .release fuel ops hf (.inl rfl)
  obtain ⟨it, hit⟩ := h4.iterRunW n 0 ((ListOp.run ops []).2.length % 2 ^ 32) (Nat.zero_le _)
  obtain ⟨l', m', e1, e2, e3, e4, e5⟩ := h4.clear L
  have hd : DefInv m0 size align () m' [] := e4.inv
  have hle : ∀ (ops : List (ListOp α)) (xs : List α),
      (ListOp.run ops xs).2.length ≤ ListOp.peak ops xs := by
    intro ops
    induction ops with
    | nil => intro xs; exact Nat.le_refl _
    | cons op ops ih => intro xs; exact Nat.le_trans (ih _) (Nat.le_max_right _ _)
  refine ⟨_, m, it, _, m', ListOp.allDropped ops [] ++ (ListOp.run ops []).2, h1, ?_,
    clearW_of (n := (ListOp.run ops []).2.length % 2 ^ 32) e1
      (by rw [h4.size]; have := hle ops []; omega), hd.done, ?_, ?_, ?_⟩
  · simpa [LList.iter, literAt, LList.withSize] using hit
  · intro z hz
    by_cases hn : m0.node z = none
    · rw [hn, (hd.node z (by simp)).2 hn]
    · rw [h2] at e5
      exact ((h5.trans e5) z hn (by simpa using hz)).2
  · rw [e3, h3, show (listEnv P size align nd false).nd = nd from rfl]
    cases nd <;> simp
  · simpa using ListOp.run_accounts ops []

/-- C109 fails in release builds.  On every list whose length is a positive multiple of 2^32,
whatever its history, `len` says 0 and `is_empty` says yes, while `front` yields an element. -/
theorem C109_count_wraps (ops : List (ListOp α)) (m0 : LMem α) (hwf : m0.WF) (s : Nat)
    (hs : m0.node s ≠ none) (fuel : Nat) (hf : ListOp.peak ops [] < fuel)
    (hne : (ListOp.run ops []).2 ≠ []) (hm : 2 ^ 32 ∣ (ListOp.run ops []).2.length) :
    ∃ outs l m x, LList.historyW .release (listEnv P size align nd false) fuel ops () s m0 =
        .ok (outs, l, m) ∧
      l.stepW .release (listEnv P size align nd false) fuel .len m = .ok (.nat 0, l, m) ∧
      l.stepW .release (listEnv P size align nd false) fuel .isEmpty m = .ok (.bool true, l, m) ∧
      l.stepW .release (listEnv P size align nd false) fuel .front m = .ok (.elem (some x), l, m) := by
  obtain ⟨l, m, ps, h1, h2, h3, h4, h5⟩ := LRep.historyW (listEnv_law P align nd hsz m0) hs
    (DefInv.init hwf size align) .release fuel ops hf (.inl rfl)
  have hz : (ListOp.run ops []).2.length % 2 ^ 32 = 0 := Nat.mod_eq_zero_of_dvd hm
  rw [hz] at h1
  obtain ⟨x, hx⟩ : ∃ x, (ListOp.run ops []).2.head? = some x := by
    cases h : (ListOp.run ops []).2 with
    | nil => exact absurd h hne
    | cons x xs => exact ⟨x, rfl⟩
  refine ⟨_, _, m, x, h1, rfl, rfl, ?_⟩
  have : l.front m = .ok (some x) := by rw [h4.front, hx]
  show (l.front m >>= _) = _
  rw [this]
  rfl

/-- C109 fails in debug builds.  On every list of 2^32 − 1 elements, whatever its history, pushing
one more at either end panics, although there is memory for it. -/
theorem C109_debug_push_panics (ops : List (ListOp α)) (m0 : LMem α) (hwf : m0.WF) (s : Nat)
    (hs : m0.node s ≠ none) (fuel : Nat) (hf : ListOp.peak ops [] < fuel)
    (hp : ListOp.peak ops [] < 2 ^ 32) (hl : (ListOp.run ops []).2.length = 2 ^ 32 - 1) (x : α) :
    ∃ outs l m, LList.historyW .debug (listEnv P size align nd false) fuel ops () s m0 =
        .ok (outs, l, m) ∧
      l.pushBackW .debug (listEnv P size align nd false) x m = .error .panic ∧
      l.pushFrontW .debug (listEnv P size align nd false) x m = .error .panic := by
  have L := listEnv_law P align nd hsz m0
  obtain ⟨l, m, ps, h1, h2, h3, h4, h5⟩ := LRep.historyW L hs
    (DefInv.init hwf size align) .debug fuel ops hf (.inr hp)
  have hw : Build.debug.wrapTo (2 ^ 32)
      (((ListOp.run ops []).2.length % 2 ^ 32 : Nat) + 1 : Int) = .error .panic := by
    rw [hl]; rfl
  refine ⟨_, _, m, h1, ?_, ?_⟩
  · obtain ⟨l1, m1, ps1, e1, _⟩ := h4.step L (.pushBack x)
    simp only [LList.step] at e1
    obtain ⟨⟨l2, m2⟩, e1, _⟩ := Exec.bind_ok e1
    exact pushBackW_panics e1 hw
  · obtain ⟨l1, m1, ps1, e1, _⟩ := h4.step L (.pushFront x)
    simp only [LList.step] at e1
    obtain ⟨⟨l2, m2⟩, e1, _⟩ := Exec.bind_ok e1
    exact pushFrontW_panics e1 hw

omit hsz

/-- The hypotheses of the theorems on long lists are met by the list filled from an iterator of 2^32
(or 2^32 − 1) elements. -/
example (k : Nat) (hk : k = 2 ^ 32 ∨ k = 2 ^ 32 - 1) :
    ListOp.peak [ListOp.extend (List.replicate k 0)] [] < 2 ^ 32 + 1 ∧
    (ListOp.run [ListOp.extend (List.replicate k 0)] []).2.length = k ∧
    (ListOp.run [ListOp.extend (List.replicate k 0)] []).2 ≠ [] ∧
    (k = 2 ^ 32 - 1 → ListOp.peak [ListOp.extend (List.replicate k 0)] [] < 2 ^ 32) := by
  have h : (ListOp.run [ListOp.extend (List.replicate k 0)] []).2 = List.replicate k 0 := by
    simp [ListOp.run, ListOp.step]
  rw [h]
  refine ⟨?_, by simp, ?_, ?_⟩
  · simp only [ListOp.peak, ListOp.step, List.nil_append, List.length_nil, List.length_replicate]
    omega
  · intro e
    have := congrArg List.length e
    simp only [List.length_replicate, List.length_nil] at this
    omega
  · intro e
    simp only [ListOp.peak, ListOp.step, List.nil_append, List.length_nil, List.length_replicate]
    omega

/-- A short history runs as before, in both builds. -/
example : ∀ B ∈ [Build.debug, Build.release], (do
      let (os, l, m) ← LList.historyW B (listEnv Placer.bump 24 8 true false) 9
        [.pushBack 1, .pushBack 2, .pushFront 3, .popFront, .extend [4, 5], .popBack, .len] () 64
        exampleListMem
      let (is, _) ← LIter.runW B 4 l.iter m
      let (l, m) ← l.clearW (listEnv Placer.bump 24 8 true false) 9 m
      .ok (os.filterMap fun | .elem x => x | .nat n => some n | _ => none, is, l.size, m.dropped)) =
    (.ok ([3, 5, 3], [some 1, some 2, some 4, none], 0, [1, 2, 4]) : Exec _) := by
  intro B hB
  simp only [List.mem_cons, List.not_mem_nil, or_false] at hB
  rcases hB with rfl | rfl <;> rfl

end Verif
