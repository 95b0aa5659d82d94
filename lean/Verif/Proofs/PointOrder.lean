import Verif.Proofs.Points
import Mathlib.Algebra.Module.ZMod
import Mathlib.FieldTheory.Finiteness
import Mathlib.LinearAlgebra.FreeModule.Finite.Matrix

/-!
# The orders of the generators

Multiplication of points by functions that the kernel evaluates, over any field: the generator of G2 is killed by the order of the groups.  The group G1 has
exactly that order, since the whole curve has fewer points than its square.
-/

namespace Abe

open WeierstrassCurve.Affine

namespace FieldCheck

variable {F : Type} [Field F] [DecidableEq F]

/-- The sum of two points, given the slope. -/
def chord (l : F) (p q : F × F) : F × F :=
  let x := l * l - p.1 - q.1
  (x, l * (p.1 - x) - p.2)

/-- The double of a point; nothing if `inv` does not find the inverse. -/
def double (inv : F → F) (p : F × F) : Option (F × F) :=
  let i := inv (p.2 + p.2)
  if (p.2 + p.2) * i = 1 then some (chord ((p.1 * p.1 + p.1 * p.1 + p.1 * p.1) * i) p p) else none

/-- The sum of two points with different abscissas. -/
def add (inv : F → F) (p q : F × F) : Option (F × F) :=
  let i := inv (p.1 - q.1)
  if (p.1 - q.1) * i = 1 then some (chord ((p.2 - q.2) * i) p q) else none

/-- Multiplication by double and add, given the bits after the first. -/
def mul (inv : F → F) (bits : List Bool) (p : F × F) : Option (F × F) :=
  bits.foldlM (fun r b => (double inv r).bind fun r => if b then add inv r p else some r) p

/-- Multiplication by the square of the parameter of the curve. -/
def mulZZ (inv : F → F) (p : F × F) : Option (F × F) := (mul inv PointCheck.zBits p).bind (mul inv PointCheck.zBits)

/-- `z⁴ P + P = z² P`, and the point is on the curve. -/
def orderCheck (inv : F → F) (b : F) (p : F × F) : Bool :=
  p.2 * p.2 == p.1 * p.1 * p.1 + b && (p.2 + p.2) * inv (p.2 + p.2) == 1 &&
  match mulZZ inv p with
  | none => false
  | some a =>
    match (mulZZ inv a).bind fun b => add inv b p with
    | none => false
    | some c => c.1 == a.1 && c.2 == a.2

variable {b : F} {inv : F → F}

/-- The pair is the point. -/
def Rep (b : F) (p : F × F) (P : (shortCurve b).Point) : Prop := ∃ h, P = .some p.1 p.2 h

theorem double_rep {p p' : F × F} {P : (shortCurve b).Point} (hP : Rep b p P) (h : double inv p = some p') : Rep b p' (P + P) := by
  obtain ⟨hns, rfl⟩ := hP
  unfold double at h
  simp only at h
  split at h
  · rename_i hinv
    obtain rfl := Option.some.inj h
    have hy : p.2 ≠ (shortCurve b).negY p.1 p.2 := by
      intro he
      simp only [negY, shortCurve] at he
      have : p.2 + p.2 = 0 := by linear_combination he
      rw [this, zero_mul] at hinv
      exact zero_ne_one hinv
    have hs : (shortCurve b).slope p.1 p.1 p.2 p.2 = (p.1 * p.1 + p.1 * p.1 + p.1 * p.1) * inv (p.2 + p.2) := by
      rw [slope_of_Y_ne rfl hy, div_eq_iff (sub_ne_zero.2 hy)]
      simp only [negY, shortCurve]
      linear_combination (-3 * p.1 ^ 2) * hinv
    have hadd := Point.add_self_of_Y_ne (h₁ := hns) hy
    have hX : (shortCurve b).addX p.1 p.1 ((shortCurve b).slope p.1 p.1 p.2 p.2) =
        (chord ((p.1 * p.1 + p.1 * p.1 + p.1 * p.1) * inv (p.2 + p.2)) p p).1 := by
      rw [hs]; simp only [addX, chord, shortCurve]; ring
    have hY : (shortCurve b).addY p.1 p.1 p.2 ((shortCurve b).slope p.1 p.1 p.2 p.2) =
        (chord ((p.1 * p.1 + p.1 * p.1 + p.1 * p.1) * inv (p.2 + p.2)) p p).2 := by
      rw [hs]; simp only [addY, negAddY, negY, addX, chord, shortCurve]; ring
    unfold Rep
    rw [← hX, ← hY]
    exact ⟨_, hadd⟩
  · exact absurd h (by simp)

theorem add_rep {p q p' : F × F} {P Q : (shortCurve b).Point} (hP : Rep b p P) (hQ : Rep b q Q) (h : add inv p q = some p') : Rep b p' (P + Q) := by
  obtain ⟨hns, rfl⟩ := hP
  obtain ⟨gns, rfl⟩ := hQ
  unfold add at h
  simp only at h
  split at h
  · rename_i hinv
    obtain rfl := Option.some.inj h
    have hx : p.1 ≠ q.1 := by
      intro he
      rw [he, sub_self, zero_mul] at hinv
      exact zero_ne_one hinv
    have hs : (shortCurve b).slope p.1 q.1 p.2 q.2 = (p.2 - q.2) * inv (p.1 - q.1) := by
      rw [slope_of_X_ne hx, div_eq_iff (sub_ne_zero.2 hx)]
      linear_combination (-(p.2 - q.2)) * hinv
    have hadd := Point.add_of_X_ne (h₁ := hns) (h₂ := gns) hx
    have hX : (shortCurve b).addX p.1 q.1 ((shortCurve b).slope p.1 q.1 p.2 q.2) = (chord ((p.2 - q.2) * inv (p.1 - q.1)) p q).1 := by
      rw [hs]; simp only [addX, chord, shortCurve]; ring
    have hY : (shortCurve b).addY p.1 q.1 p.2 ((shortCurve b).slope p.1 q.1 p.2 q.2) = (chord ((p.2 - q.2) * inv (p.1 - q.1)) p q).2 := by
      rw [hs]; simp only [addY, negAddY, negY, addX, chord, shortCurve]; ring
    unfold Rep
    rw [← hX, ← hY]
    exact ⟨_, hadd⟩
  · exact absurd h (by simp)

theorem mul_rep {bits : List Bool} {p p' : F × F} {P : (shortCurve b).Point} (hP : Rep b p P) (h : mul inv bits p = some p') :
    Rep b p' (PointCheck.number bits • P) := by
  have gen : ∀ (bits : List Bool) (k : Nat) (r r' : F × F), Rep b r (k • P) →
      bits.foldlM (fun r b => (double inv r).bind fun r => if b then add inv r p else some r) r = some r' →
      Rep b r' (bits.foldl (fun n b => 2 * n + b.toNat) k • P) := by
    intro bits
    induction bits with
    | nil => intro k r r' hr e; obtain rfl := Option.some.inj (show some r = some r' from e); exact hr
    | cons b bits ih =>
      intro k r r' hr e
      rw [List.foldlM_cons] at e
      obtain ⟨r1, e1, e2⟩ := Option.bind_eq_some_iff.1 e
      obtain ⟨r2, e3, e4⟩ := Option.bind_eq_some_iff.1 e1
      have hd := double_rep hr e3
      rw [← two_nsmul, ← mul_nsmul'] at hd
      refine ih _ r1 r' ?_ e2
      cases b with
      | false => obtain rfl := Option.some.inj (show some r2 = some r1 from e4); simpa using hd
      | true =>
        have := add_rep hd hP (show add inv r2 p = some r1 from e4)
        rwa [← succ_nsmul] at this
  exact gen bits 1 p p' (by rwa [one_nsmul]) h

theorem mulZZ_rep {p p' : F × F} {P : (shortCurve b).Point} (hP : Rep b p P) (h : mulZZ inv p = some p') :
    Rep b p' ((0xd201000000010000 * 0xd201000000010000) • P) := by
  obtain ⟨r, h1, h2⟩ := Option.bind_eq_some_iff.1 h
  have := mul_rep (mul_rep hP h1) h2
  rw [PointCheck.number_zBits] at this
  rwa [mul_nsmul]

/-- A pair that passes the check is a point that the order kills. -/
theorem order_of_check {p : F × F} (h : orderCheck inv b p = true) :
    ∃ h : (shortCurve b).Nonsingular p.1 p.2, (.some p.1 p.2 h : (shortCurve b).Point) ∈ torsion blsOrder b := by
  unfold orderCheck at h
  simp only [Bool.and_eq_true, beq_iff_eq] at h
  obtain ⟨⟨heq, hinv⟩, h⟩ := h
  have hns : (shortCurve b).Nonsingular p.1 p.2 := by
    rw [nonsingular_iff', equation_iff]
    constructor
    · simp only [shortCurve]
      linear_combination heq
    · right
      simp only [shortCurve]
      intro h6
      have h7 : p.2 + p.2 = 0 := by linear_combination h6
      rw [h7, zero_mul] at hinv
      exact zero_ne_one hinv
  refine ⟨hns, ?_⟩
  have hP : Rep b p (.some p.1 p.2 hns) := ⟨hns, rfl⟩
  generalize (.some p.1 p.2 hns : (shortCurve b).Point) = P at hP
  change blsOrder • P = 0
  split at h
  · exact absurd h (by simp)
  rename_i a ha
  split at h
  · exact absurd h (by simp)
  rename_i c hc
  obtain ⟨d, h1, h2⟩ := Option.bind_eq_some_iff.1 hc
  have hA := mulZZ_rep hP ha
  have hC := add_rep (mulZZ_rep hA h1) hP h2
  simp only [Bool.and_eq_true, beq_iff_eq] at h
  obtain ⟨n1, e1⟩ := hA
  obtain ⟨n2, e2⟩ := hC
  have e3 : (0xd201000000010000 * 0xd201000000010000) • (0xd201000000010000 * 0xd201000000010000) • P + P =
      (0xd201000000010000 * 0xd201000000010000) • P := by
    rw [e2, e1]
    simp only [h.1, h.2]
  rw [← mul_nsmul', ← succ_nsmul, ← PointCheck.order_eq, add_nsmul] at e3
  simpa using e3

end FieldCheck

/-- The inverse in the base field, by exponentiation. -/
def fpInv (a : ZMod blsField) : ZMod blsField := (powMod blsField 384 a.val (blsField - 2) 1 : Nat)

/-- The inverse in the extension, from the norm. -/
def fp2Inv (a : Fp2 blsField) : Fp2 blsField :=
  let i := fpInv (a.re * a.re + a.im * a.im)
  ⟨a.re * i, -(a.im * i)⟩

instance : Fact (blsField % 4 = 3) := ⟨by decide +kernel⟩

/-- The generator of G2. -/
def g2Gen : Fp2 blsField × Fp2 blsField :=
  (⟨0x024aa2b2f08f0a91260805272dc51051c6e47ad4fa403b02b4510b647ae3d1770bac0326a805bbefd48056c8c121bdb8,
    0x13e02b6052719f607dacd3a088274f65596bd0d09920b61ab5da61bbdc7f5049334cf11213945d57e5ac7d055d042b7e⟩,
   ⟨0x0ce5d527727d6e118cc9cdc6da2e351aadfd9baa8cbdd3a76d429a695160d12c923ac9cc3baca289e193548608b82801,
    0x0606c4a02ea734cc32acd2b02bc28b99cb3e287e85a763af267492ab572e99ab3f370d275cec1da1aaa9075ff05f79be⟩)

theorem g2_check : FieldCheck.orderCheck fp2Inv (twist blsField) g2Gen = true := by decide +kernel

/-- A finite group that a prime kills has an order that is a power of it. -/
theorem card_of_killed {q : Nat} [Fact q.Prime] {G : Type} [AddCommGroup G] [Finite G] (h : ∀ x : G, q • x = 0) : ∃ k, Nat.card G = q ^ k := by
  let _ : Module (ZMod q) G := AddCommGroup.zmodModule h
  exact ⟨_, by rw [Module.natCard_eq_pow_finrank (K := ZMod q) (V := G), Nat.card_zmod]⟩

theorem card_torsion {l q : Nat} [Fact l.Prime] [Fact q.Prime] (hlt : 2 * l + 1 < q ^ 2) {P : (g1Curve (ZMod l)).Point} (hP : P ∈ torsion q (4 : ZMod l))
    (h0 : P ≠ 0) : Nat.card (torsion q (4 : ZMod l)) = q := by
  obtain ⟨hfin, hcard⟩ := points_card l
  have hfin' : Finite (torsion q (4 : ZMod l)) := Subtype.finite
  have hle : Nat.card (torsion q (4 : ZMod l)) ≤ 2 * l + 1 := (Nat.card_le_card_of_injective _ Subtype.val_injective).trans hcard
  have hk : ∀ x : torsion q (4 : ZMod l), q • x = 0 := fun x => Subtype.ext x.2
  obtain ⟨k, hk⟩ := card_of_killed hk
  have hq := (Fact.out : q.Prime)
  have h1 : k < 2 := by
    by_contra hge
    have := Nat.pow_le_pow_right hq.pos (show 2 ≤ k by omega)
    omega
  have h2 : k ≠ 0 := by
    rintro rfl
    rw [pow_zero, Nat.card_eq_one_iff_unique] at hk
    have := hk.1.elim (⟨P, hP⟩ : torsion q (4 : ZMod l)) 0
    exact h0 (congrArg Subtype.val this)
  obtain rfl : k = 1 := by omega
  rw [hk, pow_one]

end Abe
