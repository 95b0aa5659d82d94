import Verif.Props.Points
import Verif.Model.Bilinear
import Mathlib.LinearAlgebra.Dual.Lemmas

/-!
# C110: what is assumed of the curve, with the groups of the README

The groups of points are vector spaces over the scalar field, and everything that `Curve` and `Codecs.Lawful` ask holds together with the published generators
and encodings: for every target group some pairing takes the generators to a given element.  That the pairing of the crate
(/repo/src/core/bilinear_map/bls12_381.rs:317-330) is such a map stays an assumption.
-/

namespace Abe

/-- Scalars multiply the points that their modulus kills, /repo/src/core/bilinear_map/bls12_381.rs:264-286 (`* x.0`). -/
noncomputable instance {F : Type} [Field F] [DecidableEq F] {q : Nat} {b : F} : Module (ZMod q) (torsion q b) :=
  AddCommGroup.zmodModule fun x => Subtype.ext x.2

theorem smul_eq_val {q : Nat} [NeZero q] {G : Type} [AddCommGroup G] [Module (ZMod q) G] (x : ZMod q) (P : G) : x • P = x.val • P := by
  rw [← Nat.cast_smul_eq_nsmul (ZMod q) x.val P, ZMod.natCast_zmod_val]

/-- C110.  A scalar multiplies a point as many times as its number says; so every point of a group is the product of exactly one scalar with a given point of
that group other than zero. -/
theorem C110_scalars (x : ZMod blsOrder) (P : G1Points) (Q : G2Points) :
    x • P = x.val • P ∧ x • Q = x.val • Q ∧ (P ≠ 0 → Function.Bijective fun x : ZMod blsOrder => x • P) ∧
    (Q ≠ 0 → Function.Bijective fun x : ZMod blsOrder => x • Q) := by
  refine ⟨smul_eq_val x P, smul_eq_val x Q, fun h => ⟨smul_left_injective _ h, fun R => ?_⟩, fun h => ⟨smul_left_injective _ h, fun R => ?_⟩⟩
  · obtain ⟨k, ⟨_, hk⟩, _⟩ := C110_generators.1 P R h
    exact ⟨k, by simp only [Nat.cast_smul_eq_nsmul, hk]⟩
  · obtain ⟨k, ⟨_, hk⟩, _⟩ := C110_generators.2 Q R h
    exact ⟨k, by simp only [Nat.cast_smul_eq_nsmul, hk]⟩

/-- C110.  Whatever the pairing is, it is not degenerate: it is zero exactly if one of the points is.  It is determined by its value at any two points other than
zero. -/
theorem C110_pairing {QP T : Type} [AddCommGroup T] [Module (ZMod blsOrder) T] (c : Curve (ZMod blsOrder) G1Points G2Points QP T) :
    (∀ P Q, c.pair P Q = 0 ↔ P = 0 ∨ Q = 0) ∧
    ∀ (c' : Curve (ZMod blsOrder) G1Points G2Points QP T) (P : G1Points) (Q : G2Points), P ≠ 0 → Q ≠ 0 → c.pair P Q = c'.pair P Q → c.pair = c'.pair := by
  constructor
  · intro P Q
    constructor
    · intro h
      by_contra hn
      rw [not_or] at hn
      obtain ⟨x, hx⟩ := ((C110_scalars 0 P Q).2.2.1 hn.1).2 c.genP
      obtain ⟨y, hy⟩ := ((C110_scalars 0 P Q).2.2.2 hn.2).2 c.genQ
      apply c.genT_ne_zero
      simp only at hx hy
      simp only [c.genT_eq, ← hx, ← hy, map_smul, LinearMap.smul_apply, h, smul_zero]
    · rintro (rfl | rfl) <;> simp
  · intro c' P Q hP hQ h
    ext P' Q'
    obtain ⟨x, rfl⟩ := ((C110_scalars 0 P Q).2.2.1 hP).2 P'
    obtain ⟨y, rfl⟩ := ((C110_scalars 0 P Q).2.2.2 hQ).2 Q'
    simp only [map_smul, LinearMap.smul_apply, h]

/-- A linear form that takes the value one. -/
theorem exists_form {K V : Type} [Field K] [AddCommGroup V] [Module K V] {v : V} (h : v ≠ 0) : ∃ f : V →ₗ[K] K, f v = 1 := by
  by_contra hn
  apply h
  rw [← Module.forall_dual_apply_eq_zero_iff K v]
  intro φ
  by_contra hφ
  exact hn ⟨(φ v)⁻¹ • φ, by simp [hφ]⟩

/-- C110.  The assumptions on the curve and on its encodings hold together, with the groups, the published generators and the encodings of points: for every
encoded target group and element `t` other than zero there is a curve with these generators whose pairing takes them to `t`. -/
theorem C110_assumptions {T : Type} [AddCommGroup T] [Module (ZMod blsOrder) T] (t : T) (ht : t ≠ 0) (toT : T → Bytes) (ofT : Bytes → Option T)
    (hl : ∀ x, (toT x).length = 288) (h : ∀ b x, b.length = 288 → (ofT b = some x ↔ toT x = b)) :
    ∃ c : Curve (ZMod blsOrder) G1Points G2Points G2Points T,
      (∃ hP, c.genP.1 = .some (PointCheck.gen.1 : ZMod blsField) (PointCheck.gen.2 : ZMod blsField) hP) ∧ (∃ hQ, c.genQ.1 = .some g2Gen.1 g2Gen.2 hQ) ∧
      c.genT = t ∧ (blsCodecs blsOrder g1Bytes g1OfBytes g2Bytes g2OfBytes toT ofT).Lawful := by
  obtain ⟨hP, hPt⟩ := FieldCheck.order_of_check g1_check
  obtain ⟨hQ, hQt⟩ := FieldCheck.order_of_check g2_check
  have hP0 : (⟨_, hPt⟩ : G1Points) ≠ 0 := fun h => WeierstrassCurve.Affine.Point.some_ne_zero hP (congrArg Subtype.val h)
  have hQ0 : (⟨_, hQt⟩ : G2Points) ≠ 0 := fun h => WeierstrassCurve.Affine.Point.some_ne_zero hQ (congrArg Subtype.val h)
  obtain ⟨f, hf⟩ := exists_form (K := ZMod blsOrder) hP0
  obtain ⟨g, hg⟩ := exists_form (K := ZMod blsOrder) hQ0
  let pair : G1Points →ₗ[ZMod blsOrder] G2Points →ₗ[ZMod blsOrder] T :=
    f.smulRight (g.smulRight t)
  have hpair : pair ⟨_, hPt⟩ ⟨_, hQt⟩ = t := by
    simp only [pair, LinearMap.smulRight_apply, hf, hg, one_smul]
  refine ⟨{ genP := ⟨_, hPt⟩, genQ := ⟨_, hQt⟩, genT := t, prepare := id, multiPairing := fun l => (l.map fun pq => pair pq.1 pq.2).sum, pair := pair,
            multiPairing_prepare := fun l => by simp, genT_eq := hpair.symm, genT_ne_zero := ht }, ⟨hP, rfl⟩, ⟨hQ, rfl⟩, rfl, C110_codecs toT ofT hl h⟩

/-- The scalars as target group, encoded like scalars and followed by zeros. -/
example : ∃ c : Curve (ZMod blsOrder) G1Points G2Points G2Points (ZMod blsOrder), c.genT = 1 := by
  obtain ⟨c, _, _, h, _⟩ := C110_assumptions (1 : ZMod blsOrder) one_ne_zero (fun x => leBytes 288 x.val)
    (fun b => if ofLe b < blsOrder then some (ofLe b : ZMod blsOrder) else none) (fun x => leBytes_length _ _) (fun b x hb => by
      have hbig : blsOrder < 256 ^ 288 := by decide +kernel
      constructor
      · intro h
        split at h
        · rename_i hk
          obtain rfl := Option.some.inj h
          rw [ZMod.val_natCast_of_lt hk, ← hb, leBytes_ofLe]
        · exact absurd h (by simp)
      · rintro rfl
        have hv : ofLe (leBytes 288 x.val) = x.val := ofLe_leBytes ((ZMod.val_lt x).trans hbig)
        rw [hv, if_pos (ZMod.val_lt x), ZMod.natCast_zmod_val])
  exact ⟨c, h⟩

end Abe
