import Verif.HashTable.Primes
import Mathlib.Tactic.SplitIfs

/-!
# The bucket counts a table goes through

The bucket count turns out to be a function of the largest number of entries the table ever
held.
-/

set_option autoImplicit false

namespace Verif

/-- One stage of growth: the bucket count and `next_resize` of a table whose largest number of
entries so far is at least `lo` and less than `hi`. -/
structure Stage where
  lo : Nat
  buckets : Nat
  resize : Nat
  hi : Nat
  deriving DecidableEq

/-- All stages. -/
def stages : List Stage := [
  ⟨1, 2, 2, 3⟩, ⟨3, 5, 5, 6⟩, ⟨6, 11, 11, 12⟩, ⟨12, 23, 23, 24⟩, ⟨24, 47, 47, 48⟩,
  ⟨48, 97, 97, 98⟩, ⟨98, 199, 199, 200⟩, ⟨200, 409, 409, 410⟩, ⟨410, 823, 823, 824⟩,
  ⟨824, 1741, 1741, 1742⟩, ⟨1742, 3739, 3739, 3740⟩, ⟨3740, 7517, 7517, 7518⟩,
  ⟨7518, 15173, 15173, 15174⟩, ⟨15174, 30727, 30727, 30728⟩, ⟨30728, 62233, 62233, 62234⟩,
  ⟨62234, 126271, 126271, 126272⟩, ⟨126272, 256279, 256279, 256280⟩,
  ⟨256280, 520241, 520241, 520242⟩, ⟨520242, 1056323, 1056323, 1056324⟩,
  ⟨1056324, 2144977, 2144977, 2144978⟩, ⟨2144978, 4355707, 4355707, 4355708⟩,
  ⟨4355708, 8844859, 8844859, 8844860⟩, ⟨8844860, 17961079, 17961080, 17961082⟩,
  ⟨17961082, 36473443, 36473444, 36473446⟩, ⟨36473446, 74066549, 74066552, 74066556⟩,
  ⟨74066556, 150406843, 150406848, 150406857⟩, ⟨150406857, 305431229, 305431232, 305431249⟩,
  ⟨305431249, 620239453, 620239424, 620239456⟩, ⟨620239456, 1259520799, 1259520768, 1259520833⟩,
  ⟨1259520833, 2557710269, 2557710336, 2557710465⟩]

/-- The largest number of entries a table can reach. -/
def maxEntries : Nat := 2557710464

/-- `primeAtLeast x` succeeds with `p`. -/
def primeIs (x p : Nat) : Bool :=
  match primeAtLeast x with
  | .ok q => q == p
  | .error _ => false

theorem primeIs_iff {x p : Nat} : primeIs x p = true ↔ primeAtLeast x = .ok p := by
  unfold primeIs
  split <;> simp_all

/-- What has to be computed about each stage. -/
def stageOk (g : Stage) : Bool :=
  decide (1 < g.buckets) && decide (g.resize < g.hi) && decide (g.lo < g.hi) &&
  decide (u32OfF32 (f32OfU32 g.buckets) = g.resize) &&
  (List.range (g.hi - 1 - g.resize)).all (fun i =>
    decide (f32OfU32 (g.resize + 1 + i) ≤ f32OfU32 g.buckets)) &&
  decide (f32OfU32 g.buckets < f32OfU32 g.hi) && decide (g.hi < 2 ^ 32)

/-- `g'` follows `g`. -/
def stageNext (g g' : Stage) : Bool :=
  decide (g'.lo = g.hi) && decide (g.buckets < g'.buckets) &&
  primeIs (u32OfF32 (max (f32OfU32 g.hi) (2 * f32OfU32 g.buckets))) g'.buckets

theorem stages_ok : stages.all stageOk = true := by decide +kernel

theorem stages_next : stages.all (fun g => decide (g.hi = maxEntries + 1) ||
    stages.any (fun g' => stageNext g g')) = true := by decide +kernel

theorem stages_last : stages.all (fun g => decide (g.hi ≤ maxEntries) ||
    decide (g = ⟨1259520833, 2557710269, 2557710336, 2557710465⟩)) = true := by decide +kernel

theorem stage_facts {g : Stage} (hg : g ∈ stages) :
    1 < g.buckets ∧ g.resize < g.hi ∧ g.lo < g.hi ∧ u32OfF32 (f32OfU32 g.buckets) = g.resize ∧
    (∀ n, g.resize < n → n < g.hi → f32OfU32 n ≤ f32OfU32 g.buckets) ∧
    f32OfU32 g.buckets < f32OfU32 g.hi ∧ g.hi < 2 ^ 32 := by
  have := List.all_eq_true.1 stages_ok g hg
  simp only [stageOk, Bool.and_eq_true, decide_eq_true_eq, List.all_eq_true, List.mem_range] at this
  obtain ⟨⟨⟨⟨⟨⟨h1, h2⟩, h3⟩, h4⟩, h5⟩, h6⟩, h7⟩ := this
  refine ⟨h1, h2, h3, h4, ?_, h6, h7⟩
  intro n hn hn'
  have := h5 (n - 1 - g.resize) (by omega)
  rwa [show g.resize + 1 + (n - 1 - g.resize) = n by omega] at this

/-- The policy's state for a table whose largest number of entries so far is `peak`. -/
def PolicyAt (buckets resize peak : Nat) : Prop :=
  (peak = 0 ∧ buckets = 1 ∧ resize = 0) ∨
  ∃ g ∈ stages, g.buckets = buckets ∧ g.resize = resize ∧ g.lo ≤ peak ∧ peak < g.hi

theorem PolicyAt.init : PolicyAt 1 0 0 := .inl ⟨rfl, rfl, rfl⟩

theorem rehash_grow {resize buckets c p : Nat} (h32 : c + 1 < 2 ^ 32) (h1 : resize < c + 1)
    (h2 : f32OfU32 (if buckets = 1 then 0 else buckets) < f32OfU32 (c + 1))
    (hp : primeAtLeast (u32OfF32 (max (f32OfU32 (c + 1))
      (2 * f32OfU32 (if buckets = 1 then 0 else buckets)))) = .ok p) :
    getRehashRequired resize buckets c 1 = .ok (some p, u32OfF32 (f32OfU32 p)) := by
  simp only [getRehashRequired]
  rw [if_neg (by omega), if_pos h1, if_pos h2, hp]
  rfl

/-- The first insertion always rehashes, to two buckets. -/
theorem policy_first : getRehashRequired 0 1 0 1 = .ok (some 2, 2) :=
  rehash_grow (by decide) (by decide) (by decide) (primeIs_iff.1 (by decide +kernel))

theorem primeAtLeast_mem {x p : Nat} (h : primeAtLeast x = .ok p) : p ∈ primeTable := by
  unfold primeAtLeast at h
  cases hl : lowerBoundBy primeTable (fun p => decide (p < x)) with
  | error e => rw [hl] at h; cases h
  | ok i =>
    rw [hl] at h
    simp only [bind, Except.bind] at h
    split at h
    · rename_i q hq
      cases h
      exact List.mem_of_getElem? hq
    · cases h

/-- Every addition of one entry, up to `maxEntries`. -/
theorem PolicyAt.step {buckets resize peak c : Nat} (h : PolicyAt buckets resize peak)
    (hc : c ≤ peak) (hmax : c < maxEntries) :
    ∃ r resize', getRehashRequired resize buckets c 1 = .ok (r, resize') ∧
      PolicyAt (r.getD buckets) resize' (max peak (c + 1)) ∧ (r = none → 1 < buckets) ∧
      ∀ b, r = some b → buckets < b ∧ b ∈ primeTable := by
  have h32 : c + 1 < 2 ^ 32 := by unfold maxEntries at hmax; omega
  rcases h with ⟨rfl, rfl, rfl⟩ | ⟨g, hg, rfl, rfl, hlo, hhi⟩
  · obtain rfl : c = 0 := by omega
    refine ⟨some 2, 2, policy_first, .inr ⟨⟨1, 2, 2, 3⟩, by decide +kernel, rfl, rfl, by simp, by simp⟩, by simp, ?_⟩
    rintro b ⟨⟩
    exact ⟨by decide, by decide +kernel⟩
  · obtain ⟨f1, f2, f3, f4, f5, f6, f7⟩ := stage_facts hg
    have hb : (if g.buckets = 1 then 0 else g.buckets) = g.buckets := if_neg (by omega)
    by_cases hlt : c + 1 < g.hi
    · refine ⟨none, g.resize, ?_, .inr ⟨g, hg, rfl, rfl, by omega, by omega⟩, fun _ => f1, by simp⟩
      simp only [getRehashRequired, hb]
      rw [if_neg (by omega)]
      split_ifs with h1 h2
      · exact absurd (f5 _ h1 hlt) (by omega)
      · rw [f4]
      · rfl
    · have hce : c + 1 = g.hi := by omega
      have hn := List.all_eq_true.1 stages_next g hg
      simp only [Bool.or_eq_true, decide_eq_true_eq, List.any_eq_true, stageNext,
        Bool.and_eq_true, primeIs_iff] at hn
      rcases hn with hn | ⟨g', hg', ⟨hn1, hn2⟩, hn3⟩
      · omega
      · have f' := stage_facts hg'
        refine ⟨some g'.buckets, g'.resize, ?_, .inr ⟨g', hg', rfl, rfl, by omega, by omega⟩,
          by simp, ?_⟩
        · rw [← f'.2.2.2.1]
          refine rehash_grow h32 (by omega) (by rw [hb, hce]; exact f6) (by rw [hb, hce]; exact hn3)
        · rintro b ⟨⟩
          exact ⟨hn2, primeAtLeast_mem hn3⟩

/-- At `maxEntries` entries the next addition always panics. -/
theorem PolicyAt.full {buckets resize peak : Nat} (h : PolicyAt buckets resize peak)
    (hp : maxEntries ≤ peak) : peak = maxEntries ∧
    getRehashRequired resize buckets maxEntries 1 = .error .panic := by
  rcases h with ⟨rfl, _, _⟩ | ⟨g, hg, rfl, rfl, hlo, hhi⟩
  · simp [maxEntries] at hp
  · have hl := List.all_eq_true.1 stages_last g hg
    simp only [Bool.or_eq_true, decide_eq_true_eq] at hl
    rcases hl with hl | rfl
    · omega
    · refine ⟨by unfold maxEntries at *; simp only at hhi; omega, ?_⟩
      have : primeAtLeast (u32OfF32 (max (f32OfU32 (maxEntries + 1)) (2 * f32OfU32 2557710269))) =
          .error .panic := by
        have : (match primeAtLeast (u32OfF32 (max (f32OfU32 (maxEntries + 1))
            (2 * f32OfU32 2557710269))) with | .error .panic => true | _ => false) = true := by
          decide +kernel
        revert this
        split <;> simp_all
      simp only [getRehashRequired]
      rw [if_neg (by unfold maxEntries; omega), if_pos (by unfold maxEntries; omega),
        if_neg (show ¬ (2557710269 = 1) by omega), if_pos (by decide +kernel), this]
      rfl

/-- The bucket count is determined by the largest number of entries so far. -/
theorem PolicyAt.unique {b r b' r' peak : Nat} (h : PolicyAt b r peak) (h' : PolicyAt b' r' peak) :
    b = b' ∧ r = r' := by
  have hlo : ∀ g ∈ stages, 0 < g.lo := by decide +kernel
  have hdisj : stages.all (fun g => stages.all fun g' =>
      decide (g = g') || decide (g.hi ≤ g'.lo) || decide (g'.hi ≤ g.lo)) = true := by
    decide +kernel
  rcases h with ⟨rfl, rfl, rfl⟩ | ⟨g, hg, rfl, rfl, h1, h2⟩ <;>
    rcases h' with ⟨_, rfl, rfl⟩ | ⟨g', hg', rfl, rfl, h1', h2'⟩
  · exact ⟨rfl, rfl⟩
  · have := hlo g' hg'; omega
  · have := hlo g hg; omega
  · have := List.all_eq_true.1 (List.all_eq_true.1 hdisj g hg) g' hg'
    simp only [Bool.or_eq_true, decide_eq_true_eq] at this
    rcases this with (rfl | h) | h
    · exact ⟨rfl, rfl⟩
    · omega
    · omega

/-- The number of entries never exceeds the bucket count by more than 195, nor at all before
17961080 entries. -/
theorem PolicyAt.load {b r peak : Nat} (h : PolicyAt b r peak) :
    (peak ≤ b + 195) ∧ (peak < 17961080 → peak ≤ b) := by
  have hs : stages.all (fun g => decide (g.hi ≤ g.buckets + 196) &&
      (decide (g.hi ≤ g.buckets + 1) || decide (17961079 ≤ g.buckets))) = true := by decide +kernel
  rcases h with ⟨rfl, rfl, rfl⟩ | ⟨g, hg, rfl, rfl, h1, h2⟩
  · omega
  · have := List.all_eq_true.1 hs g hg
    simp only [Bool.or_eq_true, Bool.and_eq_true, decide_eq_true_eq] at this
    omega

end Verif
