import Verif.Proofs.ScalarField
import Verif.Model.Points
import Mathlib.GroupTheory.OrderOfElement

/-!
# The base field of BLS12-381

The modulus of the coordinates is prime: a point of the prime order `blsOrder` would otherwise exist on a curve over a field that is too small for it
(the criterion of Goldwasser and Kilian, with the trivial bound for the number of points).  The multiplication of the point is done modulo `blsField` by
functions that the kernel evaluates; their correctness is proved for every prime factor of the modulus.
-/

namespace Abe

/-- The curve `y² = x³ + 4`, /repo/README.md:192. -/
abbrev g1Curve (F : Type) [CommRing F] : WeierstrassCurve.Affine F := shortCurve 4

namespace PointCheck

/-- What should be the inverse modulo `m`. -/
def inv (m a : Nat) : Nat := powMod m 384 (a % m) (m - 2) 1

/-- The sum of two points, given the slope. -/
def chord (m l : Nat) (p q : Nat × Nat) : Nat × Nat :=
  let x := (l * l + (m - p.1) + (m - q.1)) % m
  (x, (l * (p.1 + (m - x)) + (m - p.2)) % m)

/-- The double of a point; nothing if what has to be inverted has no inverse. -/
def double (m : Nat) (p : Nat × Nat) : Option (Nat × Nat) :=
  let i := inv m (2 * p.2)
  if 2 * p.2 * i % m = 1 then some (chord m (3 * p.1 * p.1 * i % m) p p) else none

/-- The sum of two points with different abscissas. -/
def add (m : Nat) (p q : Nat × Nat) : Option (Nat × Nat) :=
  let d := p.1 + (m - q.1)
  let i := inv m d
  if d * i % m = 1 then some (chord m ((p.2 + (m - q.2)) * i % m) p q) else none

/-- Multiplication by double and add, given the bits after the first. -/
def mul (m : Nat) (bits : List Bool) (p : Nat × Nat) : Option (Nat × Nat) :=
  bits.foldlM (fun r b => (double m r).bind fun r => if b then add m r p else some r) p

/-- The number with the bits given after the leading one. -/
def number (bits : List Bool) : Nat := bits.foldl (fun n b => 2 * n + b.toNat) 1

variable {l m : Nat} [Fact l.Prime]

/-- The pair, below `m`, is the point. -/
def Rep (l m : Nat) [Fact l.Prime] (p : Nat × Nat) (P : (g1Curve (ZMod l)).Point) : Prop :=
  p.1 < m ∧ p.2 < m ∧ ∃ h, P = .some (p.1 : ZMod l) (p.2 : ZMod l) h

theorem cast_mod (hl : l ∣ m) (a : Nat) : ((a % m : Nat) : ZMod l) = a := by
  rw [ZMod.natCast_eq_natCast_iff]
  exact (Nat.mod_modEq a m).of_dvd hl

theorem cast_sub (hl : l ∣ m) {a : Nat} (h : a ≤ m) : ((m - a : Nat) : ZMod l) = -(a : ZMod l) := by
  rw [Nat.cast_sub h, (ZMod.natCast_eq_zero_iff m l).2 hl, zero_sub]

theorem cast_inv (hl : l ∣ m) {a i : Nat} (h : a * i % m = 1) : (a : ZMod l) * i = 1 := by
  have := cast_mod hl (a * i)
  rw [h] at this
  push_cast at this
  exact this.symm

theorem chord_cast (hl : l ∣ m) (hm : 0 < m) {p q : Nat × Nat} (hp : p.1 < m ∧ p.2 < m) (hq : q.1 < m) {s : Nat} :
    (chord m s p q).1 < m ∧ (chord m s p q).2 < m ∧
    ((chord m s p q).1 : ZMod l) = (g1Curve (ZMod l)).addX p.1 q.1 s ∧ ((chord m s p q).2 : ZMod l) = (g1Curve (ZMod l)).addY p.1 q.1 p.2 s := by
  have hx : ((chord m s p q).1 : ZMod l) = (g1Curve (ZMod l)).addX p.1 q.1 s := by
    simp only [chord, cast_mod hl]
    push_cast
    rw [cast_sub hl hp.1.le, cast_sub hl hq.le]
    simp only [WeierstrassCurve.Affine.addX, g1Curve, shortCurve]
    ring
  have hlt : (chord m s p q).1 < m := Nat.mod_lt _ hm
  refine ⟨hlt, Nat.mod_lt _ hm, hx, ?_⟩
  simp only [chord, cast_mod hl]
  push_cast
  have hc : ((m - (s * s + (m - p.1) + (m - q.1)) % m : Nat) : ZMod l) = -((chord m s p q).1 : ZMod l) := cast_sub hl hlt.le
  rw [hc, hx, cast_sub hl hp.2.le]
  simp only [WeierstrassCurve.Affine.addY, WeierstrassCurve.Affine.negAddY, WeierstrassCurve.Affine.negY, WeierstrassCurve.Affine.addX, g1Curve, shortCurve]
  ring

theorem double_rep (hl : l ∣ m) (hm : 0 < m) {p p' : Nat × Nat} {P : (g1Curve (ZMod l)).Point} (hP : Rep l m p P) (h : double m p = some p') :
    Rep l m p' (P + P) := by
  obtain ⟨h1, h2, hns, rfl⟩ := hP
  unfold double at h
  simp only at h
  split at h
  · rename_i hi
    obtain rfl := Option.some.inj h
    obtain ⟨c1, c2, c3, c4⟩ := chord_cast hl hm (p := p) (q := p) ⟨h1, h2⟩ h1 (s := 3 * p.1 * p.1 * inv m (2 * p.2) % m)
    have hinv := cast_inv hl hi
    push_cast at hinv
    have hy : (p.2 : ZMod l) ≠ (g1Curve (ZMod l)).negY p.1 p.2 := by
      intro he
      simp only [WeierstrassCurve.Affine.negY, g1Curve, shortCurve] at he
      have : (2 : ZMod l) * p.2 = 0 := by linear_combination he
      rw [this] at hinv
      simp at hinv
    have hs : (g1Curve (ZMod l)).slope p.1 p.1 p.2 p.2 = ((3 * p.1 * p.1 * inv m (2 * p.2) % m : Nat) : ZMod l) := by
      rw [WeierstrassCurve.Affine.slope_of_Y_ne rfl hy, cast_mod hl]
      have hd : (p.2 : ZMod l) - (g1Curve (ZMod l)).negY p.1 p.2 ≠ 0 := sub_ne_zero.2 hy
      rw [div_eq_iff hd]
      simp only [WeierstrassCurve.Affine.negY, g1Curve, shortCurve]
      push_cast
      linear_combination (-3 * (p.1 : ZMod l) ^ 2) * hinv
    refine ⟨c1, c2, ?_⟩
    rw [c3, c4, ← hs]
    exact ⟨_, WeierstrassCurve.Affine.Point.add_self_of_Y_ne hy⟩
  · exact absurd h (by simp)

theorem add_rep (hl : l ∣ m) (hm : 0 < m) {p q p' : Nat × Nat} {P Q : (g1Curve (ZMod l)).Point} (hP : Rep l m p P) (hQ : Rep l m q Q)
    (h : add m p q = some p') : Rep l m p' (P + Q) := by
  obtain ⟨h1, h2, hns, rfl⟩ := hP
  obtain ⟨g1, g2, gns, rfl⟩ := hQ
  unfold add at h
  simp only at h
  split at h
  · rename_i hi
    obtain rfl := Option.some.inj h
    obtain ⟨c1, c2, c3, c4⟩ := chord_cast hl hm (p := p) (q := q) ⟨h1, h2⟩ g1 (s := (p.2 + (m - q.2)) * inv m (p.1 + (m - q.1)) % m)
    have hinv := cast_inv hl hi
    push_cast at hinv
    rw [cast_sub hl g1.le, ← sub_eq_add_neg] at hinv
    have hx : (p.1 : ZMod l) ≠ q.1 := by
      intro he
      rw [he, sub_self, zero_mul] at hinv
      exact zero_ne_one hinv
    have hs : (g1Curve (ZMod l)).slope p.1 q.1 p.2 q.2 = (((p.2 + (m - q.2)) * inv m (p.1 + (m - q.1)) % m : Nat) : ZMod l) := by
      rw [WeierstrassCurve.Affine.slope_of_X_ne hx, cast_mod hl, div_eq_iff (sub_ne_zero.2 hx)]
      push_cast
      rw [cast_sub hl g2.le]
      linear_combination (-((p.2 : ZMod l) - q.2)) * hinv
    refine ⟨c1, c2, ?_⟩
    rw [c3, c4, ← hs]
    exact ⟨_, WeierstrassCurve.Affine.Point.add_of_X_ne hx⟩
  · exact absurd h (by simp)

theorem mul_rep (hl : l ∣ m) (hm : 0 < m) {bits : List Bool} {p p' : Nat × Nat} {P : (g1Curve (ZMod l)).Point} (hP : Rep l m p P)
    (h : mul m bits p = some p') : Rep l m p' (number bits • P) := by
  have gen : ∀ (bits : List Bool) (k : Nat) (r r' : Nat × Nat), Rep l m r (k • P) →
      bits.foldlM (fun r b => (double m r).bind fun r => if b then add m r p else some r) r = some r' →
      Rep l m r' (bits.foldl (fun n b => 2 * n + b.toNat) k • P) := by
    intro bits
    induction bits with
    | nil => intro k r r' hr e; obtain rfl := Option.some.inj (show some r = some r' from e); exact hr
    | cons b bits ih =>
      intro k r r' hr e
      rw [List.foldlM_cons] at e
      obtain ⟨r1, e1, e2⟩ := Option.bind_eq_some_iff.1 e
      obtain ⟨r2, e3, e4⟩ := Option.bind_eq_some_iff.1 e1
      have hd := double_rep hl hm hr e3
      rw [← two_nsmul, ← mul_nsmul'] at hd
      refine ih _ r1 r' ?_ e2
      cases b with
      | false => obtain rfl := Option.some.inj (show some r2 = some r1 from e4); simpa using hd
      | true =>
        have := add_rep hl hm hd hP (show add m r2 p = some r1 from e4)
        rwa [← succ_nsmul] at this
  exact gen bits 1 p p' (by rwa [one_nsmul]) h

/-- The generator of G1. -/
def gen : Nat × Nat :=
  (0x17f1d3a73197d7942695638c4fa9ac0fc3688c4f9774b905a14e3a3f171bac586c55e83ff97a1aeffb3af00adb22c6bb,
    0x08b3f481e3aaa0f1a09e30ed741d8ae4fcf5e095d5d00af600db18cb2c04b3edd03cc744a2888ae40caa232946c5e7e1)

/-- The bits after the first of the parameter `0xd201000000010000` of the curve. -/
def zBits : List Bool := (List.range 63).reverse.map (0xd201000000010000 : Nat).testBit

/-- Multiplication by the square of the parameter. -/
def mulZZ (p : Nat × Nat) : Option (Nat × Nat) := (mul blsField zBits p).bind (mul blsField zBits)

/-- `z⁴ G + G = z² G`. -/
def orderCheck : Bool :=
  match mulZZ gen with
  | none => false
  | some a =>
    match (mulZZ a).bind fun b => add blsField b gen with
    | none => false
    | some c => c.1 == a.1 && c.2 == a.2

theorem orderCheck_eq : orderCheck = true := by decide +kernel

theorem number_zBits : number zBits = 0xd201000000010000 := by decide +kernel

theorem order_eq : blsOrder + 0xd201000000010000 * 0xd201000000010000 =
    0xd201000000010000 * 0xd201000000010000 * (0xd201000000010000 * 0xd201000000010000) + 1 := by decide +kernel

theorem gen_checks : gen.1 < blsField ∧ gen.2 < blsField ∧ gen.2 * gen.2 % blsField = (gen.1 * gen.1 * gen.1 + 4) % blsField ∧
    2 * gen.2 * inv blsField (2 * gen.2) % blsField = 1 := by decide +kernel

/-- The generator is a point of the curve modulo every prime factor of the modulus. -/
theorem gen_rep (hl : l ∣ blsField) : ∃ P, Rep l blsField gen P := by
  obtain ⟨h1, h2, h3, h4⟩ := gen_checks
  suffices hns : (g1Curve (ZMod l)).Nonsingular gen.1 gen.2 from ⟨.some _ _ hns, h1, h2, hns, rfl⟩
  rw [WeierstrassCurve.Affine.nonsingular_iff', WeierstrassCurve.Affine.equation_iff]
  constructor
  · have h5 := congrArg (Nat.cast (R := ZMod l)) h3
    rw [cast_mod hl, cast_mod hl] at h5
    push_cast at h5
    simp only [g1Curve, shortCurve]
    linear_combination h5
  · right
    have h5 := cast_inv hl h4
    push_cast at h5
    simp only [g1Curve, shortCurve]
    intro h6
    have h7 : (2 : ZMod l) * gen.2 = 0 := by linear_combination h6
    rw [h7, zero_mul] at h5
    exact zero_ne_one h5

theorem mulZZ_rep (hl : l ∣ blsField) {p p' : Nat × Nat} {P : (g1Curve (ZMod l)).Point} (hP : Rep l blsField p P) (h : mulZZ p = some p') :
    Rep l blsField p' ((0xd201000000010000 * 0xd201000000010000) • P) := by
  obtain ⟨r, h1, h2⟩ := Option.bind_eq_some_iff.1 h
  have hm : 0 < blsField := by decide
  have := mul_rep hl hm (mul_rep hl hm hP h1) h2
  rw [number_zBits] at this
  rwa [mul_nsmul]

/-- The generator is killed by the order. -/
theorem gen_order (hl : l ∣ blsField) {P : (g1Curve (ZMod l)).Point} (hP : Rep l blsField gen P) : blsOrder • P = 0 := by
  have h := orderCheck_eq
  unfold orderCheck at h
  split at h
  · exact absurd h (by decide)
  rename_i a ha
  split at h
  · exact absurd h (by decide)
  rename_i c hc
  obtain ⟨b, h1, h2⟩ := Option.bind_eq_some_iff.1 hc
  have hA := mulZZ_rep hl hP ha
  have hC := add_rep hl (by decide) (mulZZ_rep hl hA h1) hP h2
  simp only [Bool.and_eq_true, beq_iff_eq] at h
  obtain ⟨_, _, ⟨n1, e1⟩⟩ := hA
  obtain ⟨_, _, ⟨n2, e2⟩⟩ := hC
  have e3 : (0xd201000000010000 * 0xd201000000010000) • (0xd201000000010000 * 0xd201000000010000) • P + P =
      (0xd201000000010000 * 0xd201000000010000) • P := by
    rw [e2, e1]
    simp only [h.1, h.2]
  rw [← mul_nsmul', ← succ_nsmul, ← order_eq, add_nsmul] at e3
  simpa using e3

end PointCheck

/-- Points are told apart by the abscissa and one bit. -/
theorem points_card (l : Nat) [Fact l.Prime] : Finite (g1Curve (ZMod l)).Point ∧ Nat.card (g1Curve (ZMod l)).Point ≤ 2 * l + 1 := by
  classical
  let root : ZMod l → ZMod l := fun x => if h : ∃ y : ZMod l, y ^ 2 = x ^ 3 + 4 then h.choose else 0
  have hroot : ∀ {x y : ZMod l}, y ^ 2 = x ^ 3 + 4 → root x ^ 2 = x ^ 3 + 4 := by
    intro x y h
    have h' : ∃ y : ZMod l, y ^ 2 = x ^ 3 + 4 := ⟨y, h⟩
    simp only [root, dif_pos h']
    exact h'.choose_spec
  let f : (g1Curve (ZMod l)).Point → Option (ZMod l × Bool)
    | .zero => none
    | .some x y _ => some (x, decide (y = root x))
  have heq : ∀ {x y : ZMod l}, (g1Curve (ZMod l)).Nonsingular x y → y ^ 2 = x ^ 3 + 4 := by
    intro x y h
    have := ((WeierstrassCurve.Affine.equation_iff _ _).1 h.1)
    simp only [g1Curve, shortCurve] at this
    linear_combination this
  have hf : Function.Injective f := by
    intro P Q h
    rcases P with _ | ⟨x, y, hP⟩ <;> rcases Q with _ | ⟨x', y', hQ⟩
    · rfl
    · exact absurd h (by simp [f])
    · exact absurd h (by simp [f])
    · simp only [f, Option.some.injEq, Prod.mk.injEq, decide_eq_decide] at h
      obtain ⟨rfl, h2⟩ := h
      have e1 := heq hP
      have e2 := heq hQ
      have e3 := hroot e1
      have hy : y = y' := by
        by_cases hy : y = root x
        · rw [hy, h2.1 hy]
        · have hy' : y' ≠ root x := fun h => hy (h2.2 h)
          have k1 : y = -root x := (sq_eq_sq_iff_eq_or_eq_neg.1 (e1.trans e3.symm)).resolve_left hy
          have k2 : y' = -root x := (sq_eq_sq_iff_eq_or_eq_neg.1 (e2.trans e3.symm)).resolve_left hy'
          rw [k1, k2]
      subst hy
      rfl
  refine ⟨Finite.of_injective f hf, (Nat.card_le_card_of_injective f hf).trans ?_⟩
  rw [Finite.card_option, Nat.card_prod, Nat.card_zmod, Nat.card_eq_fintype_card, Fintype.card_bool]
  omega

/-- A prime factor of the modulus is large. -/
theorem factor_large {l : Nat} (hp : l.Prime) (hl : l ∣ blsField) : blsOrder ≤ 2 * l + 1 := by
  have : Fact l.Prime := ⟨hp⟩
  obtain ⟨P, hP⟩ := PointCheck.gen_rep hl
  have h0 : P ≠ 0 := by
    obtain ⟨_, _, h, rfl⟩ := hP
    exact WeierstrassCurve.Affine.Point.some_ne_zero h
  have hord := addOrderOf_eq_prime (p := blsOrder) (PointCheck.gen_order hl hP) h0
  obtain ⟨hfin, hcard⟩ := points_card l
  rw [← hord]
  exact (addOrderOf_le_card).trans hcard

theorem no_small_factor {n q : Nat} (hn : 1 < n) (h : ∀ l, l.Prime → l ∣ n → q ≤ 2 * l + 1) (hq : 4 * n < (q - 1) * (q - 1)) : n.Prime := by
  by_contra hnp
  have hle := h _ (Nat.minFac_prime (by omega)) (Nat.minFac_dvd n)
  have hsq := Nat.minFac_sq_le_self (by omega) hnp
  have h3 : q - 1 ≤ 2 * n.minFac := by omega
  have : (q - 1) * (q - 1) ≤ 4 * n :=
    calc (q - 1) * (q - 1) ≤ (2 * n.minFac) * (2 * n.minFac) := Nat.mul_le_mul h3 h3
      _ = 4 * n.minFac ^ 2 := by ring
      _ ≤ 4 * n := by omega
  omega

theorem blsField_prime : blsField.Prime :=
  no_small_factor (by decide +kernel) (fun _ hp hl => factor_large hp hl) (by decide +kernel)

instance : Fact blsField.Prime := ⟨blsField_prime⟩

instance : NeZero blsField := ⟨blsField_prime.ne_zero⟩

end Abe
