import Verif.Nested.Model
import Verif.Handed.Proofs

/-! Many vectors in one memory. -/

set_option autoImplicit false

namespace Verif
open Spec

variable {α : Type}

/-- The block of a vector. -/
def Vec.blocks (v : Vec) : List Nat :=
  match v.beginPtr with
  | .loc b _ => [b]
  | _ => []

/-- A vector with some contents. -/
def Holds (fits : Nat → Nat → Region → Nat → Prop) (m : Mem α) (v : Vec) : Prop :=
  v = Vec.new ∨ ∃ (b : Nat) (blk : Block α) (cap : Nat) (xs : List α), m.live b = some blk ∧ fits b blk.size blk.region cap ∧
    cap ≤ blk.size ∧ xs.length ≤ cap ∧ (∀ i, i < xs.length → blk.cells i = xs[i]?) ∧
    v = ⟨.loc b 0, .loc b xs.length, .loc b cap⟩

/-- Memory consists of `w` and the blocks of the vectors `vs`, which are different. -/
structure Pile (fits : Nat → Nat → Region → Nat → Prop) (w : World α) (m : Mem α) (vs : List Vec) :
    Prop where
  holds : ∀ v ∈ vs, Holds fits m v
  nodup : (vs.flatMap Vec.blocks).Nodup
  rest : ∀ b, w b = if b ∈ vs.flatMap Vec.blocks then none else m.live b

variable {fits : Nat → Nat → Region → Nat → Prop} {init : Block α → Nat → Prop} {A : Allocator α}
  {w : World α} {m m' : Mem α} {v v' : Vec} {vs us : List Vec} {xs : List α} {cap : Nat}

theorem Pile.perm (h : Pile fits w m vs) (hp : vs.Perm us) : Pile fits w m us := by
  have hp' := hp.flatMap_right Vec.blocks
  refine ⟨fun v hv => h.holds v (hp.mem_iff.2 hv), hp'.nodup_iff.1 h.nodup, fun b => ?_⟩
  rw [h.rest b]
  simp only [hp'.mem_iff]

theorem Pile.nil (fits : Nat → Nat → Region → Nat → Prop) (m : Mem α) : Pile fits m.live m [] :=
  ⟨by simp, by simp, by simp⟩

theorem Pile.live (h : Pile fits w m []) : m.live = w := by
  funext b
  simpa using (h.rest b).symm

theorem Pile.new (h : Pile fits w m vs) : Pile fits w m (Vec.new :: vs) := by
  refine ⟨?_, ?_, ?_⟩
  · intro v hv
    rcases List.mem_cons.1 hv with rfl | hv
    · exact .inl rfl
    · exact h.holds v hv
  · simpa [Vec.blocks, Vec.new] using h.nodup
  · intro b
    simpa [Vec.blocks, Vec.new] using h.rest b

theorem Pile.of_new (h : Pile fits w m (Vec.new :: vs)) : Pile fits w m vs := by
  refine ⟨fun v hv => h.holds v (by simp [hv]), ?_, ?_⟩
  · simpa [Vec.blocks, Vec.new] using h.nodup
  · intro b
    simpa [Vec.blocks, Vec.new] using h.rest b

theorem Holds.inv (h : Holds fits m v) :
    ∃ cap, VInv (fun _ => False) fits (worldBut m v.blocks) m v (contents m v) cap := by
  have key : ∀ xs cap, VInv (fun _ => False) fits (worldBut m v.blocks) m v xs cap →
      ∃ cap, VInv (fun _ => False) fits (worldBut m v.blocks) m v (contents m v) cap := by
    intro xs cap h
    have : contents m v = xs := by simp [contents, h.slice]
    exact ⟨cap, by rw [this]; exact h⟩
  rcases h with rfl | ⟨b, blk, cap, xs, h1, h2, h3, h4, h5, rfl⟩
  · exact key [] 0 ⟨by simp, m.live, by simp [worldBut, Vec.blocks, Vec.new],
      .inl ⟨rfl, rfl, rfl, rfl⟩⟩
  · refine key xs cap ⟨by simp, worldBut m [b], fun _ _ => rfl, .inr ⟨b, blk, by simp [worldBut],
      ?_, h2, h3, h4, h5, rfl⟩⟩
    funext p
    by_cases hp : p = b
    · subst hp; simp [h1]
    · simp [worldBut, hp]

/-- What became of one of the vectors. -/
theorem Pile.update (h : Pile fits w m (v :: vs))
    (hv : VInv (fun _ => False) fits (worldBut m v.blocks) m' v' xs cap) :
    Pile fits w m' (v' :: vs) ∧ contents m' v' = xs ∧
      ∀ u ∈ vs, contents m' u = contents m u := by
  have hc : contents m' v' = xs := by simp [contents, hv.slice]
  have hnd := h.nodup
  simp only [List.flatMap_cons] at hnd
  have hdisj : ∀ b ∈ vs.flatMap Vec.blocks, b ∉ v.blocks := fun b hb hb' =>
    (List.nodup_append.1 hnd).2.2 b hb' b hb rfl
  have hlive : ∀ u ∈ vs, ∀ b ∈ u.blocks, m.live b ≠ none := by
    intro u hu b hb
    rcases h.holds u (by simp [hu]) with rfl | ⟨b', blk, cap, ys, h1, _, _, _, _, rfl⟩
    · simp [Vec.blocks, Vec.new] at hb
    · obtain rfl : b = b' := by simpa [Vec.blocks] using hb
      simp [h1]
  obtain ⟨_, w', hw, hr⟩ := hv
  obtain rfl : w' = worldBut m v.blocks := funext fun b => hw b not_false
  -- blocks of the others are not touched
  have hsame : ∀ b ∈ vs.flatMap Vec.blocks, b ∉ v'.blocks ∧ m'.live b = m.live b := by
    intro b hb
    have hb' := hdisj b hb
    have hwb : worldBut m v.blocks b = m.live b := by simp [worldBut, hb']
    obtain ⟨u, hu, hub⟩ := List.mem_flatMap.1 hb
    have hne := hlive u hu b hub
    rcases hr with hr | ⟨b2, blk, hr⟩
    · rw [hr.live, hr.ptrs]
      exact ⟨by simp [Vec.blocks], hwb⟩
    · have hbb : b ≠ b2 := by
        rintro rfl
        rw [← hwb] at hne
        exact hne hr.fresh
      refine ⟨by rw [hr.ptrs]; simpa [Vec.blocks] using hbb, ?_⟩
      rw [hr.live, Function.update_of_ne hbb, hwb]
  have hold : ∀ u ∈ vs, Holds fits m' u ∧ contents m' u = contents m u := by
    intro u hu
    have hi := h.holds u (by simp [hu])
    have h1 : ∀ b ∈ u.blocks, m'.live b = m.live b := fun b hb =>
      (hsame b (List.mem_flatMap.2 ⟨u, hu, hb⟩)).2
    have hH : Holds fits m' u := by
      rcases hi with rfl | ⟨b, blk, cap, ys, e1, e2, e3, e4, e5, rfl⟩
      · exact .inl rfl
      · exact .inr ⟨b, blk, cap, ys, by rw [h1 b (by simp [Vec.blocks]), e1], e2, e3, e4, e5, rfl⟩
    refine ⟨hH, ?_⟩
    rcases hi with rfl | ⟨b, blk, cap, ys, e1, e2, e3, e4, e5, rfl⟩
    · rfl
    · obtain ⟨c1, g1⟩ := hH.inv
      have e1' : m'.live b = some blk := by rw [h1 b (by simp [Vec.blocks]), e1]
      have hval : ∀ m1 : Mem α, m1.live b = some blk →
          contents m1 ⟨.loc b 0, .loc b ys.length, .loc b cap⟩ = ys := by
        intro m1 hm
        have : VInv (fun _ => False) fits (worldBut m1 [b]) m1
            ⟨.loc b 0, .loc b ys.length, .loc b cap⟩ ys cap := by
          refine ⟨by simp, worldBut m1 [b], fun _ _ => rfl, .inr ⟨b, blk, by simp [worldBut],
            ?_, e2, e3, e4, e5, rfl⟩⟩
          funext p
          by_cases hp : p = b
          · subst hp; simp [hm]
          · simp [worldBut, hp]
        simp [contents, this.slice]
      rw [hval m' e1', hval m e1]
  refine ⟨⟨?_, ?_, ?_⟩, hc, fun u hu => (hold u hu).2⟩
  · intro u hu
    rcases List.mem_cons.1 hu with rfl | hu
    · rcases hr with hr | ⟨b2, blk, hr⟩
      · exact .inl (by rw [hr.ptrs]; rfl)
      · exact .inr ⟨b2, blk, cap, xs, hr.live_b, hr.fit, hr.cap_le, hr.len_le, hr.cells, hr.ptrs⟩
    · exact (hold u hu).1
  · rw [List.flatMap_cons, List.nodup_append]
    refine ⟨?_, (List.nodup_append.1 hnd).2.1, ?_⟩
    · unfold Vec.blocks
      split <;> simp
    · intro b hb c hc e
      subst e
      exact (hsame b hc).1 hb
  · intro b
    have hrest := h.rest b
    simp only [List.flatMap_cons, List.mem_append] at hrest ⊢
    by_cases hb : b ∈ vs.flatMap Vec.blocks
    · rw [if_pos (.inr hb)] at hrest ⊢
      exact hrest
    · simp only [hb, or_false] at hrest ⊢
      rw [hrest]
      rcases hr with hr | ⟨b2, blk, hr⟩
      · rw [hr.live, hr.ptrs]
        simp [Vec.blocks, worldBut]
      · have hp : v'.blocks = [b2] := by rw [hr.ptrs]; rfl
        rw [hp, hr.live]
        by_cases hbb : b = b2
        · subst hbb
          have := hr.fresh
          simp only [worldBut] at this
          simpa using this
        · simp [hbb, Function.update_of_ne, worldBut]

theorem Pile.inv (h : Pile fits w m (v :: vs)) :
    ∃ cap, VInv (fun _ => False) fits (worldBut m v.blocks) m v (contents m v) cap :=
  (h.holds v (by simp)).inv

/-- Calls on one of the vectors. -/
theorem Pile.run (hA : Lawful A fits (fun _ => False) init) (nd : Bool) (ops : List (SeqOp α))
    (hops : nd = true → ∀ op ∈ ops, op.isSlice = false) (h : Pile fits w m (v :: vs)) :
    match SeqOp.run ops (contents m v) with
    | .error e => Vec.run A nd ops v m = .error e
    | .ok (os, ys) => ∃ v' m' ds, Vec.run A nd ops v m = .ok (os, v', m') ∧
        Pile fits w m' (v' :: vs) ∧ contents m' v' = ys ∧
        (∀ u ∈ vs, contents m' u = contents m u) ∧ m'.dropped = m.dropped ++ ds ∧
        (nd = true → (ops.flatMap SeqOp.movedIn ++ contents m v).Perm
          (os.flatMap Out.movedOut ++ ds ++ ys)) := by
  obtain ⟨cap, hv⟩ := h.inv
  have hr := VInv.run hA nd ops hops hv
  cases hs : SeqOp.run ops (contents m v) with
  | error e => rw [hs] at hr; exact hr
  | ok r =>
    obtain ⟨os, ys⟩ := r
    rw [hs] at hr
    obtain ⟨v', m', ds, cap', e1, e2, e3, e4⟩ := hr
    obtain ⟨f1, f2, f3⟩ := h.update e2
    exact ⟨v', m', ds, e1, f1, f2, f3, e3, e4⟩

/-- Dropping some of the vectors. -/
theorem Pile.dropAll (hA : Lawful A fits (fun _ => False) init) (nd : Bool) : ∀ (us : List Vec)
    {m : Mem α}, Pile fits w m (us ++ vs) →
    ∃ m', dropAll A nd us m = .ok m' ∧ Pile fits w m' vs ∧
      (∀ u ∈ vs, contents m' u = contents m u) ∧
      m'.dropped = m.dropped ++ if nd then us.flatMap (contents m) else []
  | [], m, h => ⟨m, rfl, h, fun _ _ => rfl, by simp⟩
  | u :: us, m, h => by
    obtain ⟨cap, hv⟩ := Pile.inv h
    obtain ⟨m1, e1, _, _, _, e2, e3⟩ := hv.clear hA nd
    obtain ⟨f1, _, f3⟩ := Pile.update h e2
    obtain ⟨m2, g1, g2, g3, g4⟩ := Pile.dropAll hA nd us (Pile.of_new f1)
    refine ⟨m2, by simp [Verif.dropAll, e1, g1], g2, ?_, ?_⟩
    · intro x hx
      rw [g3 x hx, f3 x (by simp [hx])]
    · rw [g4, e3.dropped]
      cases nd with
      | false => simp
      | true =>
        have : us.flatMap (contents m1) = us.flatMap (contents m) := by
          simp only [List.flatMap]
          congr 1
          exact List.map_congr_left fun x hx => f3 x (by simp [hx])
        simp [this]

/-- Reading some of the vectors. -/
theorem Pile.readAll (h : Pile fits w m vs) : ∀ (us : List Vec), (∀ u ∈ us, u ∈ vs) →
    readAll us m = .ok (us.map (contents m))
  | [], _ => rfl
  | u :: us, hu => by
    obtain ⟨cap, hv⟩ := (h.holds u (hu u (by simp))).inv
    have := h.readAll us fun x hx => hu x (by simp [hx])
    simp [Verif.readAll, hv.slice, this]

end Verif
