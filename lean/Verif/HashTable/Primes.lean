import Verif.HashTable.Policy
import Mathlib.NumberTheory.LucasPrimality

/-!
# Every number in the table of bucket counts is prime

By Pratt certificates: `p` is prime if some `a` has order `p - 1` modulo `p`.  The certificates
are data; the theorem `prattCheck_sound` is what makes them proofs.
-/

set_option autoImplicit false

namespace Verif

/-- `a ^ e % p` for `e < 2 ^ fuel`, by repeated squaring. -/
def powMod (a : Nat) : Nat → Nat → Nat → Nat
  | 0, _, p => 1 % p
  | f + 1, e, p => powMod a f (e / 2) p ^ 2 * a ^ (e % 2) % p

theorem powMod_eq (a p : Nat) : ∀ (f e : Nat), e < 2 ^ f → powMod a f e p = a ^ e % p := by
  intro f
  induction f with
  | zero => intro e h; simp at h; subst h; simp [powMod]
  | succ f ih =>
    intro e h
    rw [powMod, ih _ (by rw [Nat.pow_succ] at h; omega), Nat.mul_mod, ← Nat.pow_mod, ← Nat.mul_mod,
      ← Nat.pow_mul, ← Nat.pow_add]
    congr 2
    omega

/-- Check certificates `(p, a, prime factors of p - 1)`; each factor must be certified before. -/
def prattCheck : List Nat → List (Nat × Nat × List Nat) → Bool
  | _, [] => true
  | done, (p, a, qs) :: rest =>
    (decide (2 ≤ p) && decide (p ≤ 2 ^ 32) && qs.all (fun q => done.any (fun d => d == q)) &&
      (qs.prod == p - 1) && (powMod a 32 (p - 1) p == 1) &&
      qs.all (fun q => !(powMod a 32 ((p - 1) / q) p == 1))) && prattCheck (p :: done) rest

theorem prattCheck_sound : ∀ (es : List (Nat × Nat × List Nat)) (done : List Nat),
    prattCheck done es = true → (∀ d ∈ done, d.Prime) → ∀ e ∈ es, e.1.Prime := by
  intro es
  induction es with
  | nil => simp
  | cons e es ih =>
    obtain ⟨p, a, qs⟩ := e
    intro done h hd
    simp only [prattCheck, Bool.and_eq_true, decide_eq_true_eq, List.all_eq_true, List.any_eq_true,
      beq_iff_eq, Bool.not_eq_true', beq_eq_false_iff_ne] at h
    obtain ⟨⟨⟨⟨⟨⟨h2, h32⟩, hq⟩, hprod⟩, h1⟩, hne⟩, hrest⟩ := h
    have hqp : ∀ q ∈ qs, q.Prime := by
      intro q hqs
      obtain ⟨d, hm, rfl⟩ := hq q hqs
      exact hd d hm
    have hcast : ∀ e, e < 2 ^ 32 → ((a : ZMod p) ^ e = 1 ↔ powMod a 32 e p = 1) := by
      intro e he
      rw [powMod_eq a p 32 e he]
      have := ZMod.natCast_eq_natCast_iff' (a ^ e) 1 p
      rw [Nat.mod_eq_of_lt (show 1 < p by omega)] at this
      simpa using this
    have hp : p.Prime := by
      refine lucas_primality p (a : ZMod p) ((hcast _ (by omega)).2 h1) ?_
      intro q hqprime hdvd
      rw [← hprod] at hdvd
      obtain ⟨r, hr, hqr⟩ := (Prime.dvd_prod_iff hqprime.prime).1 hdvd
      have : q = r := (Nat.prime_dvd_prime_iff_eq hqprime (hqp r hr)).1 hqr
      subst this
      rw [Ne, hcast _ (lt_of_le_of_lt (Nat.div_le_self _ _) (by omega))]
      exact hne q hr
    intro e he
    rcases List.mem_cons.1 he with rfl | he
    · exact hp
    · refine ih (p :: done) hrest ?_ e he
      intro d hdm
      rcases List.mem_cons.1 hdm with rfl | hdm
      · exact hp
      · exact hd d hdm

/-- Certificates for the odd numbers in the table and the primes they need. -/
def prattTable : List (Nat × Nat × List Nat) := [
  (3, 2, [2]), (5, 2, [2, 2]), (7, 3, [2, 3]), (11, 2, [2, 5]), (13, 2, [2, 2, 3]),
  (17, 3, [2, 2, 2, 2]), (19, 2, [2, 3, 3]), (23, 5, [2, 11]), (29, 2, [2, 2, 7]),
  (31, 3, [2, 3, 5]), (37, 2, [2, 2, 3, 3]), (41, 6, [2, 2, 2, 5]), (43, 3, [2, 3, 7]),
  (47, 5, [2, 23]), (53, 2, [2, 2, 13]), (59, 2, [2, 29]), (61, 2, [2, 2, 3, 5]),
  (67, 2, [2, 3, 11]), (71, 7, [2, 5, 7]), (73, 5, [2, 2, 2, 3, 3]), (79, 3, [2, 3, 13]),
  (83, 2, [2, 41]), (89, 3, [2, 2, 2, 11]), (97, 5, [2, 2, 2, 2, 2, 3]), (101, 2, [2, 2, 5, 5]),
  (103, 5, [2, 3, 17]), (107, 2, [2, 53]), (109, 6, [2, 2, 3, 3, 3]), (113, 3, [2, 2, 2, 2, 7]),
  (127, 3, [2, 3, 3, 7]), (131, 2, [2, 5, 13]), (137, 3, [2, 2, 2, 17]), (139, 2, [2, 3, 23]),
  (149, 2, [2, 2, 37]), (151, 6, [2, 3, 5, 5]), (157, 5, [2, 2, 3, 13]),
  (163, 2, [2, 3, 3, 3, 3]), (167, 5, [2, 83]), (173, 2, [2, 2, 43]), (179, 2, [2, 89]),
  (181, 2, [2, 2, 3, 3, 5]), (191, 19, [2, 5, 19]), (193, 5, [2, 2, 2, 2, 2, 2, 3]),
  (197, 2, [2, 2, 7, 7]), (199, 3, [2, 3, 3, 11]), (211, 2, [2, 3, 5, 7]), (223, 3, [2, 3, 37]),
  (227, 2, [2, 113]), (233, 3, [2, 2, 2, 29]), (239, 7, [2, 7, 17]),
  (241, 7, [2, 2, 2, 2, 3, 5]), (251, 6, [2, 5, 5, 5]), (257, 3, [2, 2, 2, 2, 2, 2, 2, 2]),
  (269, 2, [2, 2, 67]), (271, 6, [2, 3, 3, 3, 5]), (277, 5, [2, 2, 3, 23]),
  (281, 3, [2, 2, 2, 5, 7]), (283, 3, [2, 3, 47]), (293, 2, [2, 2, 73]), (307, 5, [2, 3, 3, 17]),
  (311, 17, [2, 5, 31]), (313, 10, [2, 2, 2, 3, 13]), (317, 2, [2, 2, 79]),
  (331, 3, [2, 3, 5, 11]), (337, 10, [2, 2, 2, 2, 3, 7]), (347, 2, [2, 173]),
  (353, 3, [2, 2, 2, 2, 2, 11]), (359, 7, [2, 179]), (373, 2, [2, 2, 3, 31]),
  (379, 2, [2, 3, 3, 3, 7]), (383, 5, [2, 191]), (397, 5, [2, 2, 3, 3, 11]),
  (401, 3, [2, 2, 2, 2, 5, 5]), (409, 21, [2, 2, 2, 3, 17]), (431, 7, [2, 5, 43]),
  (439, 15, [2, 3, 73]), (443, 2, [2, 13, 17]), (461, 2, [2, 2, 5, 23]), (463, 3, [2, 3, 7, 11]),
  (467, 2, [2, 233]), (503, 5, [2, 251]), (509, 2, [2, 2, 127]), (541, 2, [2, 2, 3, 3, 3, 5]),
  (547, 2, [2, 3, 7, 13]), (557, 2, [2, 2, 139]), (563, 2, [2, 281]), (569, 3, [2, 2, 2, 71]),
  (571, 3, [2, 3, 5, 19]), (577, 5, [2, 2, 2, 2, 2, 2, 3, 3]), (593, 3, [2, 2, 2, 2, 37]),
  (601, 7, [2, 2, 2, 3, 5, 5]), (607, 3, [2, 3, 101]), (613, 2, [2, 2, 3, 3, 17]),
  (617, 3, [2, 2, 2, 7, 11]), (619, 2, [2, 3, 103]), (647, 5, [2, 17, 19]),
  (653, 2, [2, 2, 163]), (661, 2, [2, 2, 3, 5, 11]), (673, 5, [2, 2, 2, 2, 2, 3, 7]),
  (691, 3, [2, 3, 5, 23]), (701, 2, [2, 2, 5, 5, 7]), (709, 2, [2, 2, 3, 59]),
  (739, 3, [2, 3, 3, 41]), (743, 5, [2, 7, 53]), (757, 2, [2, 2, 3, 3, 3, 7]),
  (761, 6, [2, 2, 2, 5, 19]), (787, 2, [2, 3, 131]), (811, 3, [2, 3, 3, 3, 3, 5]),
  (823, 3, [2, 3, 137]), (857, 3, [2, 2, 2, 107]), (863, 5, [2, 431]), (877, 2, [2, 2, 3, 73]),
  (881, 3, [2, 2, 2, 2, 5, 11]), (887, 5, [2, 443]), (907, 2, [2, 3, 151]),
  (919, 7, [2, 3, 3, 3, 17]), (929, 3, [2, 2, 2, 2, 2, 29]), (947, 2, [2, 11, 43]),
  (953, 3, [2, 2, 2, 7, 17]), (977, 3, [2, 2, 2, 2, 61]), (991, 6, [2, 3, 3, 5, 11]),
  (997, 7, [2, 2, 3, 83]), (1031, 14, [2, 5, 103]), (1039, 3, [2, 3, 173]),
  (1063, 3, [2, 3, 3, 59]), (1087, 3, [2, 3, 181]), (1091, 2, [2, 5, 109]),
  (1097, 3, [2, 2, 2, 137]), (1109, 2, [2, 2, 277]), (1117, 2, [2, 2, 3, 3, 31]),
  (1151, 17, [2, 5, 5, 23]), (1187, 2, [2, 593]), (1193, 3, [2, 2, 2, 149]),
  (1201, 11, [2, 2, 2, 2, 3, 5, 5]), (1237, 2, [2, 2, 3, 103]), (1289, 6, [2, 2, 2, 7, 23]),
  (1297, 10, [2, 2, 2, 2, 3, 3, 3, 3]), (1327, 3, [2, 3, 13, 17]), (1381, 2, [2, 2, 3, 5, 23]),
  (1483, 2, [2, 3, 13, 19]), (1493, 2, [2, 2, 373]), (1499, 2, [2, 7, 107]),
  (1511, 11, [2, 5, 151]), (1559, 19, [2, 19, 41]), (1567, 3, [2, 3, 3, 3, 29]),
  (1583, 5, [2, 7, 113]), (1601, 3, [2, 2, 2, 2, 2, 2, 5, 5]), (1613, 3, [2, 2, 13, 31]),
  (1709, 3, [2, 2, 7, 61]), (1741, 2, [2, 2, 3, 5, 29]), (1801, 11, [2, 2, 2, 3, 3, 5, 5]),
  (1867, 2, [2, 3, 311]), (1879, 6, [2, 3, 313]), (1889, 3, [2, 2, 2, 2, 2, 59]),
  (2003, 5, [2, 7, 11, 13]), (2029, 2, [2, 2, 3, 13, 13]), (2069, 2, [2, 2, 11, 47]),
  (2089, 7, [2, 2, 2, 3, 3, 29]), (2179, 7, [2, 3, 3, 11, 11]), (2287, 19, [2, 3, 3, 127]),
  (2351, 13, [2, 5, 5, 47]), (2357, 2, [2, 2, 19, 31]), (2417, 3, [2, 2, 2, 2, 151]),
  (2543, 5, [2, 31, 41]), (2549, 2, [2, 2, 7, 7, 13]), (2551, 6, [2, 3, 5, 5, 17]),
  (2593, 7, [2, 2, 2, 2, 2, 3, 3, 3, 3]), (2633, 3, [2, 2, 2, 7, 47]),
  (2657, 3, [2, 2, 2, 2, 2, 83]), (2677, 2, [2, 2, 3, 223]), (2713, 5, [2, 2, 2, 3, 113]),
  (2753, 3, [2, 2, 2, 2, 2, 2, 43]), (2767, 3, [2, 3, 461]), (2801, 3, [2, 2, 2, 2, 5, 5, 7]),
  (2971, 10, [2, 3, 3, 3, 5, 11]), (3061, 6, [2, 2, 3, 3, 5, 17]),
  (3079, 6, [2, 3, 3, 3, 3, 19]), (3109, 6, [2, 2, 3, 7, 37]), (3181, 7, [2, 2, 3, 5, 53]),
  (3209, 3, [2, 2, 2, 401]), (3229, 6, [2, 2, 3, 269]), (3301, 6, [2, 2, 3, 5, 5, 11]),
  (3469, 2, [2, 2, 3, 17, 17]), (3739, 7, [2, 3, 7, 89]), (3793, 5, [2, 2, 2, 2, 3, 79]),
  (3823, 3, [2, 3, 7, 7, 13]), (4027, 3, [2, 3, 11, 61]), (4157, 2, [2, 2, 1039]),
  (4273, 5, [2, 2, 2, 2, 3, 89]), (4349, 2, [2, 2, 1087]), (4391, 14, [2, 5, 439]),
  (4621, 2, [2, 2, 3, 5, 7, 11]), (4703, 5, [2, 2351]), (4831, 3, [2, 3, 5, 7, 23]),
  (5023, 3, [2, 3, 3, 3, 3, 31]), (5087, 5, [2, 2543]), (5297, 3, [2, 2, 2, 2, 331]),
  (5407, 3, [2, 3, 17, 53]), (5441, 3, [2, 2, 2, 2, 2, 2, 5, 17]), (5503, 3, [2, 3, 7, 131]),
  (5519, 13, [2, 31, 89]), (5737, 5, [2, 2, 2, 3, 239]), (5851, 2, [2, 3, 3, 5, 5, 13]),
  (5953, 7, [2, 2, 2, 2, 2, 2, 3, 31]), (5987, 2, [2, 41, 73]), (6011, 2, [2, 5, 601]),
  (6427, 3, [2, 3, 3, 3, 7, 17]), (6481, 7, [2, 2, 2, 2, 3, 3, 3, 3, 5]),
  (6491, 2, [2, 5, 11, 59]), (6689, 3, [2, 2, 2, 2, 2, 11, 19]), (6949, 2, [2, 2, 3, 3, 193]),
  (7517, 2, [2, 2, 1879]), (7649, 3, [2, 2, 2, 2, 2, 239]), (7817, 3, [2, 2, 2, 977]),
  (7883, 2, [2, 7, 563]), (8123, 2, [2, 31, 131]), (8311, 3, [2, 3, 5, 277]),
  (8317, 6, [2, 2, 3, 3, 3, 7, 11]), (8597, 2, [2, 2, 7, 307]), (8761, 23, [2, 2, 2, 3, 5, 73]),
  (8783, 5, [2, 4391]), (9041, 3, [2, 2, 2, 2, 5, 113]), (9209, 3, [2, 2, 2, 1151]),
  (9391, 3, [2, 3, 5, 313]), (9491, 2, [2, 5, 13, 73]), (9497, 3, [2, 2, 2, 1187]),
  (9719, 17, [2, 43, 113]), (10099, 2, [2, 3, 3, 3, 11, 17]),
  (10273, 10, [2, 2, 2, 2, 2, 3, 107]), (10709, 2, [2, 2, 2677]), (10853, 2, [2, 2, 2713]),
  (10957, 5, [2, 2, 3, 11, 83]), (11113, 13, [2, 2, 2, 3, 463]), (11171, 2, [2, 5, 1117]),
  (11411, 7, [2, 5, 7, 163]), (12011, 2, [2, 5, 1201]), (12329, 3, [2, 2, 2, 23, 67]),
  (12401, 3, [2, 2, 2, 2, 5, 5, 31]), (12983, 5, [2, 6491]), (13003, 5, [2, 3, 11, 197]),
  (13007, 5, [2, 7, 929]), (13183, 3, [2, 3, 13, 13, 13]), (13487, 5, [2, 11, 613]),
  (13903, 3, [2, 3, 7, 331]), (13913, 3, [2, 2, 2, 37, 47]), (14033, 3, [2, 2, 2, 2, 877]),
  (14071, 7, [2, 3, 5, 7, 67]), (14389, 2, [2, 2, 3, 11, 109]), (14411, 2, [2, 5, 11, 131]),
  (15173, 2, [2, 2, 3793]), (16411, 3, [2, 3, 5, 547]), (16553, 3, [2, 2, 2, 2069]),
  (16943, 5, [2, 43, 197]), (17749, 2, [2, 2, 3, 3, 17, 29]), (19183, 3, [2, 3, 23, 139]),
  (19801, 13, [2, 2, 2, 3, 3, 5, 5, 11]), (20173, 2, [2, 2, 3, 41, 41]),
  (20219, 2, [2, 11, 919]), (20341, 2, [2, 2, 3, 3, 5, 113]), (20753, 3, [2, 2, 2, 2, 1297]),
  (21881, 3, [2, 2, 2, 5, 547]), (22271, 7, [2, 5, 17, 131]), (22343, 5, [2, 11171]),
  (22447, 3, [2, 3, 3, 29, 43]), (22907, 5, [2, 13, 881]), (23669, 2, [2, 2, 61, 97]),
  (23719, 6, [2, 3, 59, 67]), (24281, 3, [2, 2, 2, 5, 607]), (25073, 3, [2, 2, 2, 2, 1567]),
  (25301, 3, [2, 2, 5, 5, 11, 23]), (26267, 2, [2, 23, 571]), (28411, 2, [2, 3, 5, 947]),
  (29411, 2, [2, 5, 17, 173]), (30727, 3, [2, 3, 3, 3, 569]), (33223, 10, [2, 3, 7, 7, 113]),
  (35899, 2, [2, 3, 31, 193]), (35933, 2, [2, 2, 13, 691]), (38231, 13, [2, 5, 3823]),
  (38749, 2, [2, 2, 3, 3229]), (38873, 3, [2, 2, 2, 43, 113]), (42043, 5, [2, 3, 7, 7, 11, 13]),
  (42703, 5, [2, 3, 11, 647]), (44273, 3, [2, 2, 2, 2, 2767]), (44543, 5, [2, 22271]),
  (44687, 5, [2, 22343]), (45481, 13, [2, 2, 2, 3, 5, 379]), (45959, 7, [2, 11, 2089]),
  (46099, 2, [2, 3, 3, 13, 197]), (47339, 2, [2, 23669]), (49201, 7, [2, 2, 2, 2, 3, 5, 5, 41]),
  (53201, 3, [2, 2, 2, 2, 5, 5, 7, 19]), (56773, 2, [2, 2, 3, 3, 19, 83]),
  (57557, 2, [2, 2, 14389]), (62233, 7, [2, 2, 2, 3, 2593]), (63863, 5, [2, 37, 863]),
  (67213, 2, [2, 2, 3, 3, 1867]), (67307, 2, [2, 73, 461]), (72817, 5, [2, 2, 2, 2, 3, 37, 41]),
  (78779, 2, [2, 7, 17, 331]), (85229, 3, [2, 2, 11, 13, 149]), (86599, 3, [2, 3, 3, 17, 283]),
  (86981, 2, [2, 2, 5, 4349]), (89087, 5, [2, 44543]), (92203, 2, [2, 3, 11, 11, 127]),
  (99551, 7, [2, 5, 5, 11, 181]), (99733, 2, [2, 2, 3, 8311]), (107897, 3, [2, 2, 2, 13487]),
  (113177, 3, [2, 2, 2, 7, 43, 47]), (116731, 3, [2, 3, 3, 5, 1297]),
  (126271, 3, [2, 3, 3, 5, 23, 61]), (131861, 2, [2, 2, 5, 19, 347]), (136607, 5, [2, 167, 409]),
  (141551, 7, [2, 5, 5, 19, 149]), (145433, 3, [2, 2, 2, 7, 7, 7, 53]),
  (146669, 2, [2, 2, 37, 991]), (147793, 5, [2, 2, 2, 2, 3, 3079]),
  (158449, 19, [2, 2, 2, 2, 3, 3301]), (159871, 6, [2, 3, 5, 73, 73]),
  (162091, 2, [2, 3, 3, 5, 1801]), (162251, 2, [2, 5, 5, 5, 11, 59]),
  (172933, 2, [2, 2, 3, 14411]), (176089, 17, [2, 2, 2, 3, 11, 23, 29]),
  (182099, 2, [2, 7, 13007]), (187091, 2, [2, 5, 53, 353]),
  (198977, 3, [2, 2, 2, 2, 2, 2, 3109]), (200671, 3, [2, 3, 5, 6689]),
  (201287, 5, [2, 19, 5297]), (202409, 3, [2, 2, 2, 25301]), (209221, 7, [2, 2, 3, 5, 11, 317]),
  (218971, 2, [2, 3, 3, 3, 5, 811]), (227093, 2, [2, 2, 56773]), (235289, 3, [2, 2, 2, 29411]),
  (236897, 3, [2, 2, 2, 2, 2, 11, 673]), (248141, 3, [2, 2, 5, 19, 653]),
  (256279, 7, [2, 3, 11, 11, 353]), (277261, 6, [2, 2, 3, 5, 4621]),
  (299951, 7, [2, 5, 5, 7, 857]), (307103, 5, [2, 97, 1583]), (324503, 5, [2, 162251]),
  (351061, 11, [2, 2, 3, 5, 5851]), (358667, 2, [2, 7, 11, 17, 137]),
  (379787, 2, [2, 11, 61, 283]), (395491, 13, [2, 3, 5, 13183]),
  (410857, 5, [2, 2, 2, 3, 17, 19, 53]), (444487, 3, [2, 3, 7, 19, 557]),
  (480881, 3, [2, 2, 2, 2, 5, 6011]), (520241, 3, [2, 2, 2, 2, 5, 7, 929]),
  (562841, 3, [2, 2, 2, 5, 14071]), (608903, 5, [2, 7, 23, 31, 61]),
  (658753, 5, [2, 2, 2, 2, 2, 2, 3, 47, 73]), (679229, 2, [2, 2, 11, 43, 359]),
  (712697, 3, [2, 2, 2, 89087]), (771049, 7, [2, 2, 2, 3, 3, 10709]),
  (834181, 2, [2, 2, 3, 5, 13903]), (902483, 5, [2, 7, 7, 9209]),
  (976369, 29, [2, 2, 2, 2, 3, 20341]), (991313, 3, [2, 2, 2, 2, 7, 53, 167]),
  (1027331, 2, [2, 5, 19, 5407]), (1055609, 3, [2, 2, 2, 23, 5737]), (1056323, 2, [2, 67, 7883]),
  (1086301, 2, [2, 2, 3, 3, 5, 5, 17, 71]), (1142821, 18, [2, 2, 3, 3, 5, 7, 907]),
  (1147613, 2, [2, 2, 379, 757]), (1236397, 5, [2, 2, 3, 7, 41, 359]),
  (1337629, 6, [2, 2, 3, 17, 79, 83]), (1447153, 5, [2, 2, 2, 2, 3, 7, 59, 73]),
  (1565659, 3, [2, 3, 3, 86981]), (1584491, 2, [2, 5, 158449]), (1693859, 2, [2, 23, 23, 1601]),
  (1832561, 3, [2, 2, 2, 2, 5, 22907]), (1982627, 2, [2, 991313]),
  (2144977, 5, [2, 2, 2, 2, 3, 44687]), (2184997, 2, [2, 2, 3, 11, 16553]),
  (2320627, 5, [2, 3, 7, 11, 5023]), (2333081, 12, [2, 2, 2, 5, 17, 47, 73]),
  (2510653, 2, [2, 2, 3, 209221]), (2557501, 30, [2, 2, 3, 5, 5, 5, 5, 11, 31]),
  (2605363, 2, [2, 3, 67, 6481]), (2716249, 11, [2, 2, 2, 3, 113177]),
  (2800769, 3, [2, 2, 2, 2, 2, 2, 2, 21881]), (2938679, 7, [2, 113, 13003]),
  (3179303, 5, [2, 7, 227093]), (3439651, 3, [2, 3, 5, 5, 23, 997]),
  (3721303, 6, [2, 3, 3, 3, 3, 3, 13, 19, 31]), (4026031, 11, [2, 3, 5, 67, 2003]),
  (4355707, 3, [2, 3, 17, 42703]), (4712381, 3, [2, 2, 5, 19, 12401]),
  (5098259, 2, [2, 11, 29, 61, 131]), (5515729, 11, [2, 2, 2, 2, 3, 151, 761]),
  (5967347, 2, [2, 7, 11, 38749]), (6308329, 7, [2, 2, 2, 3, 13, 20219]),
  (6456007, 3, [2, 3, 3, 358667]), (6984629, 2, [2, 2, 7, 19, 19, 691]),
  (7556579, 2, [2, 223, 16943]), (8047141, 2, [2, 2, 3, 5, 71, 1889]),
  (8175383, 5, [2, 31, 131861]), (8844859, 3, [2, 3, 3, 11, 11, 31, 131]),
  (9569143, 3, [2, 3, 3, 11, 31, 1559]), (10352717, 2, [2, 2, 11, 235289]),
  (11200489, 7, [2, 2, 2, 3, 13, 35899]), (12117689, 3, [2, 2, 2, 11, 23, 5987]),
  (13109983, 3, [2, 3, 2184997]), (14183539, 2, [2, 3, 19, 83, 1499]),
  (15345007, 3, [2, 3, 2557501]), (16601593, 5, [2, 2, 2, 3, 7, 7, 19, 743]),
  (17961079, 3, [2, 3, 17, 176089]), (19431899, 2, [2, 1109, 8761]),
  (21023161, 19, [2, 2, 2, 3, 5, 41, 4273]), (22605091, 11, [2, 3, 5, 23, 181, 181]),
  (22744717, 5, [2, 2, 3, 743, 2551]), (24607243, 5, [2, 3, 3, 11, 19, 31, 211]),
  (26622317, 2, [2, 2, 7, 23, 67, 617]), (28802401, 14, [2, 2, 2, 2, 2, 3, 5, 5, 11, 1091]),
  (31160981, 2, [2, 2, 5, 509, 3061]), (33712729, 11, [2, 2, 2, 3, 7, 200671]),
  (35830801, 7, [2, 2, 2, 2, 3, 3, 5, 5, 37, 269]), (36473443, 2, [2, 3, 307, 19801]),
  (39460231, 12, [2, 3, 3, 3, 5, 17, 8597]), (42691603, 2, [2, 3, 787, 9041]),
  (46187573, 2, [2, 2, 17, 679229]), (49969847, 5, [2, 23, 1086301]),
  (54061849, 22, [2, 2, 2, 3, 3, 607, 1237]), (58488943, 6, [2, 3, 17, 59, 9719]),
  (63278561, 3, [2, 2, 2, 2, 2, 5, 395491]), (68460391, 3, [2, 3, 3, 3, 3, 3, 3, 5, 9391]),
  (74066549, 2, [2, 2, 47, 163, 2417]), (80131819, 2, [2, 3, 13, 1027331]),
  (86693767, 3, [2, 3, 1889, 7649]), (93793069, 2, [2, 2, 3, 3, 2605363]),
  (101473717, 5, [2, 2, 3, 191, 44273]), (106429223, 5, [2, 19, 2800769]),
  (109783337, 3, [2, 2, 2, 13, 1055609]), (118773397, 2, [2, 2, 3, 3, 7, 43, 97, 113]),
  (128499677, 2, [2, 2, 3181, 10099]), (139022417, 3, [2, 2, 2, 2, 13, 61, 10957]),
  (141624913, 5, [2, 2, 2, 2, 3, 11, 13, 47, 439]), (150406843, 2, [2, 3, 97, 113, 2287]),
  (162723577, 5, [2, 2, 2, 3, 127, 197, 271]), (176048909, 3, [2, 2, 7, 19, 29, 11411]),
  (190465427, 2, [2, 31, 739, 4157]), (206062531, 2, [2, 3, 5, 149, 46099]),
  (222936881, 11, [2, 2, 2, 2, 5, 19, 146669]), (241193053, 6, [2, 2, 3, 3, 3, 3, 3, 248141]),
  (260944219, 3, [2, 3, 3, 227, 63863]), (282312799, 15, [2, 3, 41, 1147613]),
  (305431229, 2, [2, 2, 1613, 47339]), (330442829, 2, [2, 2, 269, 307103]),
  (357502601, 3, [2, 2, 2, 5, 5, 7, 13, 13, 1511]), (386778277, 11, [2, 2, 3, 3, 59, 182099]),
  (418451333, 2, [2, 2, 13, 8047141]), (452718089, 3, [2, 2, 2, 37, 61, 25073]),
  (459667493, 2, [2, 2, 1327, 86599]), (489790921, 23, [2, 2, 2, 3, 5, 41, 99551]),
  (529899637, 2, [2, 2, 3, 7, 6308329]), (573292817, 3, [2, 2, 2, 2, 35830801]),
  (620239453, 2, [2, 2, 3, 7, 7, 397, 2657]), (671030513, 3, [2, 2, 2, 2, 1097, 38231]),
  (725980837, 2, [2, 2, 3, 7, 701, 12329]), (785430967, 6, [2, 3, 5519, 23719]),
  (849749479, 3, [2, 3, 141624913]), (919334987, 2, [2, 459667493]),
  (994618837, 2, [2, 2, 3, 3, 41, 71, 9491]), (1009886753, 3, [2, 2, 2, 2, 2, 7, 31, 145433]),
  (1076067617, 3, [2, 2, 2, 2, 2, 13, 13, 198977]),
  (1164186217, 5, [2, 2, 2, 3, 3, 3, 23, 89, 2633]), (1259520799, 3, [2, 3, 1483, 141551]),
  (1362662261, 2, [2, 2, 5, 43, 1584491]), (1474249943, 5, [2, 11, 997, 67213]),
  (1594975441, 14, [2, 2, 2, 2, 3, 5, 41, 162091]), (1725587117, 2, [2, 2, 11, 29, 173, 7817]),
  (1752075863, 5, [2, 17, 67, 877, 877]), (1866894511, 3, [2, 3, 5, 13, 1709, 2801]),
  (2019773507, 2, [2, 1009886753]), (2185171673, 3, [2, 2, 2, 23, 59, 201287]),
  (2364114217, 5, [2, 2, 2, 3, 19, 257, 20173]), (2557710269, 2, [2, 2, 13913, 45959]),
  (2767159799, 29, [2, 13, 106429223]), (2993761039, 3, [2, 3, 179, 577, 4831]),
  (3238918481, 6, [2, 2, 2, 2, 5, 7, 1063, 5441]), (3504151727, 5, [2, 1752075863]),
  (3791104843, 3, [2, 3, 7, 8317, 10853]), (4101556399, 6, [2, 3, 293, 2333081]),
  (4294967291, 2, [2, 5, 19, 22605091])]

theorem prattTable_ok : prattCheck [2] prattTable = true := by decide +kernel

theorem primeTable_certified :
    primeTable.all (fun p => p == 2 || prattTable.any (fun e => e.1 == p)) = true := by
  decide +kernel

/-- All 257 entries are prime. -/
theorem primeTable_prime : ∀ p ∈ primeTable, p.Prime := by
  intro p hp
  have := List.all_eq_true.1 primeTable_certified p hp
  simp only [Bool.or_eq_true, beq_iff_eq, List.any_eq_true] at this
  rcases this with rfl | ⟨e, he, rfl⟩
  · exact Nat.prime_two
  · exact prattCheck_sound prattTable [2] prattTable_ok (by simp [Nat.prime_two]) e he

end Verif
