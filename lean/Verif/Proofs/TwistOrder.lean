import Verif.Proofs.PointOrder
import Mathlib.Tactic.NormNum.Prime

/-!
# The order of G2

The twisted curve has a point whose order is a prime of 448 bits (proved prime by Lucas' criterion, from the factors of its predecessor, and so on).  If more
than `q` points were killed by `q`, the square of `q` would divide the number of points together with that prime, which is more than there can be.
-/

namespace Abe

open WeierstrassCurve.Affine

theorem pow_mod_eq {p k a : ℕ} (hk : k < 2 ^ 512) : (a : ZMod p) ^ k = 1 ↔ powMod p 512 a k 1 % p = 1 % p := by
  have h1 := powMod_modEq p 512 a k 1 hk
  rw [Nat.one_mul] at h1
  have h2 := ZMod.natCast_eq_natCast_iff' (a ^ k) 1 p
  push_cast at h2
  rw [h2]
  have h1' : powMod p 512 a k 1 % p = a ^ k % p := h1
  rw [h1']

/-- Lucas' criterion with a list of prime factors. -/
theorem lucas_list {p a : ℕ} (fs : List ℕ) (hfs : ∀ f ∈ fs, f.Prime) (hp : p < 2 ^ 512) (hprod : fs.prod = p - 1)
    (h1 : powMod p 512 a (p - 1) 1 % p = 1 % p) (h2 : ∀ f ∈ fs, powMod p 512 a ((p - 1) / f) 1 % p ≠ 1 % p) : p.Prime := by
  apply lucas_primality p (a : ZMod p)
  · exact (pow_mod_eq (lt_of_le_of_lt (Nat.sub_le _ _) hp)).2 h1
  · intro r hr hd
    rw [← hprod] at hd
    obtain ⟨f, hf, hrf⟩ := (Prime.dvd_prod_iff hr.prime).1 hd
    rw [(Nat.prime_dvd_prime_iff_eq hr (hfs f hf)).1 hrf, Ne, pow_mod_eq (lt_of_le_of_lt (Nat.div_le_self _ _) (lt_of_le_of_lt (Nat.sub_le _ _) hp))]
    exact h2 f hf

/-- The largest prime factor of the number of points of the twisted curve. -/
def twistFactor : ℕ :=
  402096035359507321594726366720466575392706800671181159425656785868777272553337714697862511267018014931937703598282857976535744623203249

theorem prime0 : Nat.Prime 4920833 :=
  lucas_list (a := 3) [2, 2, 2, 2, 2, 2, 2, 2, 2, 7, 1373]
    (by
      simp only [List.forall_mem_cons, List.not_mem_nil, false_imp_iff, implies_true, and_true]
      exact ⟨by norm_num, by norm_num, by norm_num, by norm_num, by norm_num, by norm_num, by norm_num, by norm_num, by norm_num, by norm_num, by norm_num⟩)
    (by decide +kernel) (by decide +kernel) (by decide +kernel) (by decide +kernel)

theorem prime1 : Nat.Prime 52872661 :=
  lucas_list (a := 2) [2, 2, 3, 3, 5, 83, 3539]
    (by
      simp only [List.forall_mem_cons, List.not_mem_nil, false_imp_iff, implies_true, and_true]
      exact ⟨by norm_num, by norm_num, by norm_num, by norm_num, by norm_num, by norm_num, by norm_num⟩)
    (by decide +kernel) (by decide +kernel) (by decide +kernel) (by decide +kernel)

theorem prime2 : Nat.Prime 810774871 :=
  lucas_list (a := 11) [2, 3, 5, 89, 151, 2011]
    (by
      simp only [List.forall_mem_cons, List.not_mem_nil, false_imp_iff, implies_true, and_true]
      exact ⟨by norm_num, by norm_num, by norm_num, by norm_num, by norm_num, by norm_num⟩)
    (by decide +kernel) (by decide +kernel) (by decide +kernel) (by decide +kernel)

theorem prime3 : Nat.Prime 63240439939 :=
  lucas_list (a := 3) [2, 3, 13, 810774871]
    (by
      simp only [List.forall_mem_cons, List.not_mem_nil, false_imp_iff, implies_true, and_true]
      exact ⟨by norm_num, by norm_num, by norm_num, prime2⟩)
    (by decide +kernel) (by decide +kernel) (by decide +kernel) (by decide +kernel)

theorem prime4 : Nat.Prime 1770732318293 :=
  lucas_list (a := 2) [2, 2, 7, 63240439939]
    (by
      simp only [List.forall_mem_cons, List.not_mem_nil, false_imp_iff, implies_true, and_true]
      exact ⟨by norm_num, by norm_num, by norm_num, prime3⟩)
    (by decide +kernel) (by decide +kernel) (by decide +kernel) (by decide +kernel)

theorem prime5 : Nat.Prime 21561538103037546247 :=
  lucas_list (a := 5) [2, 3, 3, 3, 225493, 1770732318293]
    (by
      simp only [List.forall_mem_cons, List.not_mem_nil, false_imp_iff, implies_true, and_true]
      exact ⟨by norm_num, by norm_num, by norm_num, by norm_num, by norm_num, prime4⟩)
    (by decide +kernel) (by decide +kernel) (by decide +kernel) (by decide +kernel)

theorem prime6 : Nat.Prime 86246152412150184989 :=
  lucas_list (a := 2) [2, 2, 21561538103037546247]
    (by
      simp only [List.forall_mem_cons, List.not_mem_nil, false_imp_iff, implies_true, and_true]
      exact ⟨by norm_num, by norm_num, prime5⟩)
    (by decide +kernel) (by decide +kernel) (by decide +kernel) (by decide +kernel)

theorem prime7 : Nat.Prime 1367711 :=
  lucas_list (a := 7) [2, 5, 233, 587]
    (by
      simp only [List.forall_mem_cons, List.not_mem_nil, false_imp_iff, implies_true, and_true]
      exact ⟨by norm_num, by norm_num, by norm_num, by norm_num⟩)
    (by decide +kernel) (by decide +kernel) (by decide +kernel) (by decide +kernel)

theorem prime8 : Nat.Prime 12192593745179 :=
  lucas_list (a := 2) [2, 7, 11, 107, 541, 1367711]
    (by
      simp only [List.forall_mem_cons, List.not_mem_nil, false_imp_iff, implies_true, and_true]
      exact ⟨by norm_num, by norm_num, by norm_num, by norm_num, by norm_num, prime7⟩)
    (by decide +kernel) (by decide +kernel) (by decide +kernel) (by decide +kernel)

theorem prime9 : Nat.Prime 512088937297519 :=
  lucas_list (a := 6) [2, 3, 7, 12192593745179]
    (by
      simp only [List.forall_mem_cons, List.not_mem_nil, false_imp_iff, implies_true, and_true]
      exact ⟨by norm_num, by norm_num, by norm_num, prime8⟩)
    (by decide +kernel) (by decide +kernel) (by decide +kernel) (by decide +kernel)

theorem prime10 : Nat.Prime 1857858664515398933 :=
  lucas_list (a := 2) [2, 2, 907, 512088937297519]
    (by
      simp only [List.forall_mem_cons, List.not_mem_nil, false_imp_iff, implies_true, and_true]
      exact ⟨by norm_num, by norm_num, by norm_num, prime9⟩)
    (by decide +kernel) (by decide +kernel) (by decide +kernel) (by decide +kernel)

theorem prime11 : Nat.Prime 22294303974184787197 :=
  lucas_list (a := 14) [2, 2, 3, 1857858664515398933]
    (by
      simp only [List.forall_mem_cons, List.not_mem_nil, false_imp_iff, implies_true, and_true]
      exact ⟨by norm_num, by norm_num, by norm_num, prime10⟩)
    (by decide +kernel) (by decide +kernel) (by decide +kernel) (by decide +kernel)

theorem prime12 : Nat.Prime 19931107752921199754119 :=
  lucas_list (a := 3) [2, 3, 149, 22294303974184787197]
    (by
      simp only [List.forall_mem_cons, List.not_mem_nil, false_imp_iff, implies_true, and_true]
      exact ⟨by norm_num, by norm_num, by norm_num, prime11⟩)
    (by decide +kernel) (by decide +kernel) (by decide +kernel) (by decide +kernel)

theorem prime13 : Nat.Prime 6716327 :=
  lucas_list (a := 5) [2, 17, 197539]
    (by
      simp only [List.forall_mem_cons, List.not_mem_nil, false_imp_iff, implies_true, and_true]
      exact ⟨by norm_num, by norm_num, by norm_num⟩)
    (by decide +kernel) (by decide +kernel) (by decide +kernel) (by decide +kernel)

theorem prime14 : Nat.Prime 40297963 :=
  lucas_list (a := 2) [2, 3, 6716327]
    (by
      simp only [List.forall_mem_cons, List.not_mem_nil, false_imp_iff, implies_true, and_true]
      exact ⟨by norm_num, by norm_num, prime13⟩)
    (by decide +kernel) (by decide +kernel) (by decide +kernel) (by decide +kernel)

theorem prime15 : Nat.Prime 241787779 :=
  lucas_list (a := 2) [2, 3, 40297963]
    (by
      simp only [List.forall_mem_cons, List.not_mem_nil, false_imp_iff, implies_true, and_true]
      exact ⟨by norm_num, by norm_num, prime14⟩)
    (by decide +kernel) (by decide +kernel) (by decide +kernel) (by decide +kernel)

theorem prime16 : Nat.Prime 1435735831703 :=
  lucas_list (a := 5) [2, 2969, 241787779]
    (by
      simp only [List.forall_mem_cons, List.not_mem_nil, false_imp_iff, implies_true, and_true]
      exact ⟨by norm_num, by norm_num, prime15⟩)
    (by decide +kernel) (by decide +kernel) (by decide +kernel) (by decide +kernel)

theorem prime17 : Nat.Prime 81162125843606155545104998607900118769099783 :=
  lucas_list (a := 5) [2, 3, 3, 2731, 57697, 1435735831703, 19931107752921199754119]
    (by
      simp only [List.forall_mem_cons, List.not_mem_nil, false_imp_iff, implies_true, and_true]
      exact ⟨by norm_num, by norm_num, by norm_num, by norm_num, by norm_num, prime16, prime12⟩)
    (by decide +kernel) (by decide +kernel) (by decide +kernel) (by decide +kernel)

theorem prime18 : Nat.Prime 26935696298915610574513298451669528361624243820491956655650666425177 :=
  lucas_list (a := 3) [2, 2, 2, 13, 37, 86246152412150184989, 81162125843606155545104998607900118769099783]
    (by
      simp only [List.forall_mem_cons, List.not_mem_nil, false_imp_iff, implies_true, and_true]
      exact ⟨by norm_num, by norm_num, by norm_num, by norm_num, by norm_num, prime6, prime17⟩)
    (by decide +kernel) (by decide +kernel) (by decide +kernel) (by decide +kernel)

theorem prime19 : Nat.Prime 16297965815447 :=
  lucas_list (a := 5) [2, 7, 7, 7, 68059, 349079]
    (by
      simp only [List.forall_mem_cons, List.not_mem_nil, false_imp_iff, implies_true, and_true]
      exact ⟨by norm_num, by norm_num, by norm_num, by norm_num, by norm_num, by norm_num⟩)
    (by decide +kernel) (by decide +kernel) (by decide +kernel) (by decide +kernel)

theorem prime20 : Nat.Prime 1402724681 :=
  lucas_list (a := 3) [2, 2, 2, 5, 7, 1307, 3833]
    (by
      simp only [List.forall_mem_cons, List.not_mem_nil, false_imp_iff, implies_true, and_true]
      exact ⟨by norm_num, by norm_num, by norm_num, by norm_num, by norm_num, by norm_num, by norm_num⟩)
    (by decide +kernel) (by decide +kernel) (by decide +kernel) (by decide +kernel)

theorem prime21 : Nat.Prime 12211063 :=
  lucas_list (a := 5) [2, 3, 103, 19759]
    (by
      simp only [List.forall_mem_cons, List.not_mem_nil, false_imp_iff, implies_true, and_true]
      exact ⟨by norm_num, by norm_num, by norm_num, by norm_num⟩)
    (by decide +kernel) (by decide +kernel) (by decide +kernel) (by decide +kernel)

theorem prime22 : Nat.Prime 4638704574076146691498289350639807119782054683906549022985642612861209609656189848749536921852444848596916990932297 :=
  lucas_list (a := 3) [2, 2, 2, 373, 8329, 37501, 661873, 12211063, 1402724681, 16297965815447, 26935696298915610574513298451669528361624243820491956655650666425177]
    (by
      simp only [List.forall_mem_cons, List.not_mem_nil, false_imp_iff, implies_true, and_true]
      exact ⟨by norm_num, by norm_num, by norm_num, by norm_num, by norm_num, by norm_num, by norm_num, prime21, prime20, prime19, prime18⟩)
    (by decide +kernel) (by decide +kernel) (by decide +kernel) (by decide +kernel)

theorem twistFactor_prime : Nat.Prime twistFactor :=
  lucas_list (a := 13) [2, 2, 2, 2, 3, 11, 631, 4920833, 52872661, 4638704574076146691498289350639807119782054683906549022985642612861209609656189848749536921852444848596916990932297]
    (by
      simp only [List.forall_mem_cons, List.not_mem_nil, false_imp_iff, implies_true, and_true]
      exact ⟨by norm_num, by norm_num, by norm_num, by norm_num, by norm_num, by norm_num, by norm_num, prime0, prime1, prime22⟩)
    (by decide +kernel) (by decide +kernel) (by decide +kernel) (by decide +kernel)

/-- Points are told apart by the abscissa and one bit. -/
theorem curve_card {F : Type} [Field F] [Finite F] (b : F) : Finite (shortCurve b).Point ∧ Nat.card (shortCurve b).Point ≤ 2 * Nat.card F + 1 := by
  classical
  let root : F → F := fun x => if h : ∃ y : F, y * y = x * x * x + b then h.choose else 0
  have hroot : ∀ {x y : F}, y * y = x * x * x + b → root x * root x = x * x * x + b := by
    intro x y h
    have h' : ∃ y : F, y * y = x * x * x + b := ⟨y, h⟩
    simp only [root, dif_pos h']
    exact h'.choose_spec
  let f : (shortCurve b).Point → Option (F × Bool)
    | .zero => none
    | .some x y _ => some (x, decide (y = root x))
  have hf : Function.Injective f := by
    intro P Q h
    rcases P with _ | ⟨x, y, hP⟩ <;> rcases Q with _ | ⟨x', y', hQ⟩
    · rfl
    · exact absurd h (by simp [f])
    · exact absurd h (by simp [f])
    · simp only [f, Option.some.injEq, Prod.mk.injEq, decide_eq_decide] at h
      obtain ⟨rfl, h2⟩ := h
      have e1 := equation_short hP
      have e2 := equation_short hQ
      have e3 := hroot e1
      have hy : y = y' := by
        by_cases hy : y = root x
        · rw [hy, h2.1 hy]
        · have hy' : y' ≠ root x := fun h => hy (h2.2 h)
          rw [(mul_self_eq_mul_self_iff.1 (e1.trans e3.symm)).resolve_left hy, (mul_self_eq_mul_self_iff.1 (e2.trans e3.symm)).resolve_left hy']
      subst hy
      rfl
  refine ⟨Finite.of_injective f hf, (Nat.card_le_card_of_injective f hf).trans ?_⟩
  rw [Finite.card_option, Nat.card_prod, Nat.card_eq_fintype_card (α := Bool), Fintype.card_bool]
  omega

/-- What is killed by a prime `q` on a curve with a point of another prime order so large that the square of `q` does not fit any more. -/
theorem card_killed {F : Type} [Field F] [Finite F] [DecidableEq F] {b : F} {q r : ℕ} [Fact q.Prime] [Fact r.Prime] (hqr : q ≠ r)
    (hlt : 2 * Nat.card F + 1 < q ^ 2 * r) {P R : (shortCurve b).Point} (hP : q • P = 0) (hP0 : P ≠ 0) (hR : r • R = 0) (hR0 : R ≠ 0) :
    Nat.card (torsion q b) = q := by
  obtain ⟨hfin, hcard⟩ := curve_card b
  have hfin' : Finite (torsion q b) := Subtype.finite
  have hk : ∀ x : torsion q b, q • x = 0 := fun x => Subtype.ext x.2
  obtain ⟨k, hk⟩ := card_of_killed hk
  have hr : r ∣ Nat.card (shortCurve b).Point := by
    rw [← addOrderOf_eq_prime hR hR0]
    exact addOrderOf_dvd_natCard R
  have hq : q ^ k ∣ Nat.card (shortCurve b).Point := by
    rw [← hk]
    exact AddSubgroup.card_addSubgroup_dvd_card (torsion q b)
  have h1 : k < 2 := by
    by_contra hge
    have hq2 : q ^ 2 ∣ Nat.card (shortCurve b).Point := (pow_dvd_pow q (by omega)).trans hq
    have hco : Nat.Coprime (q ^ 2) r := Nat.Coprime.pow_left 2 ((Nat.coprime_primes Fact.out Fact.out).2 hqr)
    have := Nat.le_of_dvd Nat.card_pos (hco.mul_dvd_of_dvd_of_dvd hq2 hr)
    omega
  have h2 : k ≠ 0 := by
    rintro rfl
    rw [pow_zero, Nat.card_eq_one_iff_unique] at hk
    have := hk.1.elim (⟨P, hP⟩ : torsion q b) 0
    exact hP0 (congrArg Subtype.val this)
  obtain rfl : k = 1 := by omega
  rw [hk, pow_one]

namespace FieldCheck

/-- A pair on the curve whose multiple by the number with the given bits is the opposite. -/
def killCheck {F : Type} [Field F] [DecidableEq F] (inv : F → F) (b : F) (bits : List Bool) (p : F × F) : Bool :=
  p.2 * p.2 == p.1 * p.1 * p.1 + b && (p.2 + p.2) * inv (p.2 + p.2) == 1 &&
  match mul inv bits p with
  | none => false
  | some a => a.1 == p.1 && a.2 == -p.2

theorem killed_of_check {F : Type} [Field F] [DecidableEq F] {inv : F → F} {b : F} {bits : List Bool} {p : F × F} (h : killCheck inv b bits p = true) :
    ∃ P : (shortCurve b).Point, P ≠ 0 ∧ (PointCheck.number bits + 1) • P = 0 := by
  unfold killCheck at h
  simp only [Bool.and_eq_true, beq_iff_eq] at h
  obtain ⟨⟨heq, hinv⟩, h⟩ := h
  have hns : (shortCurve b).Nonsingular p.1 p.2 := by
    rw [nonsingular_iff', equation_iff]
    constructor
    · simp only [shortCurve]
      linear_combination heq
    · right
      simp only [shortCurve]
      intro h6
      have h7 : p.2 + p.2 = 0 := by linear_combination h6
      rw [h7, zero_mul] at hinv
      exact zero_ne_one hinv
  refine ⟨.some p.1 p.2 hns, Point.some_ne_zero hns, ?_⟩
  split at h
  · exact absurd h (by simp)
  rename_i a ha
  simp only [Bool.and_eq_true, beq_iff_eq] at h
  obtain ⟨hn, he⟩ := mul_rep (P := (.some p.1 p.2 hns : (shortCurve b).Point)) ⟨hns, rfl⟩ ha
  rw [succ_nsmul, he]
  apply Point.add_of_Y_eq h.1
  simp only [negY, shortCurve, h.2]
  ring

end FieldCheck

/-- The bits after the first of the predecessor of the large prime factor. -/
def twistBits : List Bool := (List.range 447).reverse.map (twistFactor - 1).testBit

/-- A point of that order. -/
def twistPoint : Fp2 blsField × Fp2 blsField :=
  (⟨0x742c321cfc416938d661ca92e2049e95cbff82f7f224a70ce7f110897519a5d9b04add2c76fff66fbd66bccb00621ac,
    0x3e2e4ca4a68ca97402f2aa09d95197cfc96d6aa1f2b915414c9b44a9440d9a06b6a83f86f01c2e3b1786800eb86c22d⟩,
   ⟨0x1231d9589ec6a2c4aaae92a89d107903f727d68f6f2ac572aabc893a1462d7aa0f5afcc5bccf3fd43bc3e57444e579a9,
    0xac675b7a5e4ca95afb5b181459f5dd8d78c91ab4c2c16a2134559f170abe2650ef25dfdc386f0fb7d1fcaa33ebcb0aa⟩)

theorem twist_number : PointCheck.number twistBits + 1 = twistFactor := by decide +kernel

theorem twist_check : FieldCheck.killCheck fp2Inv (twist blsField) twistBits twistPoint = true := by decide +kernel

/-- G2 has exactly `q` elements. -/
theorem card_g2 : Nat.card (torsion blsOrder (twist blsField)) = blsOrder := by
  obtain ⟨hns, ht⟩ := FieldCheck.order_of_check g2_check
  obtain ⟨R, hR0, hR⟩ := FieldCheck.killed_of_check twist_check
  rw [twist_number] at hR
  have : Fact twistFactor.Prime := ⟨twistFactor_prime⟩
  refine card_killed (r := twistFactor) (by decide +kernel) ?_ ht (Point.some_ne_zero hns) hR hR0
  rw [Nat.card_eq_fintype_card, fp2_card]
  decide +kernel

end Abe
