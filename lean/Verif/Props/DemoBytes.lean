import Verif.Props.Demo
import Verif.Proofs.CodecKeys
import Verif.Proofs.ScalarField
import Mathlib.Algebra.Field.ZMod

/-!
# Concrete instances with byte encodings

A curve over the field with 11 elements, with group elements encoded on the sizes of BLS12-381.
-/

namespace Abe.Demo

open Abe

abbrev F := ZMod 11

instance : Fact (Nat.Prime 11) := ⟨by decide⟩

/-- The field with 11 elements with multiplication as pairing. -/
def curveF : Curve F F F F F where
  genP := 1
  genQ := 1
  genT := 1
  prepare := id
  multiPairing l := (l.map fun pq => pq.1 * pq.2).sum
  pair := LinearMap.mul F F
  multiPairing_prepare := by intro l; rw [List.map_map]; rfl
  genT_eq := by simp
  genT_ne_zero := by simp

/-- Elements encoded on `n` bytes. -/
def pad (name name' : String) (n : Nat) : Codec F :=
  pointCodec name name' n (fun x => leBytes n x.val) (fun b => if ofLe b < 11 then some (ofLe b : F) else none)

theorem pad_fixed {name name' : String} {n : Nat} (hn : 0 < n) : (pad name name' n).Fixed n := by
  refine pointCodec_fixed hn (fun x => leBytes_length _ _) fun b x hb => ?_
  have h11 : 11 ≤ 256 ^ n := le_trans (by decide : 11 ≤ 256 ^ 1) (Nat.pow_le_pow_right (by decide) hn)
  have hx : x.val < 11 := ZMod.val_lt x
  constructor
  · intro h
    split at h
    · rename_i hlt
      simp only [Option.some.injEq] at h
      subst h
      rw [ZMod.val_cast_of_lt hlt, ← hb, leBytes_ofLe]
    · simp at h
  · rintro rfl
    rw [ofLe_leBytes (by omega), if_pos hx, ZMod.natCast_zmod_val]

def codecs : Codecs F F F F := ⟨scalarCodec 11, pad "G1" "G1Affine" 48, pad "G2" "G2Affine" 96, pad "Gt" "Gt" 288⟩

theorem codecs_lawful : codecs.Lawful :=
  ⟨scalarCodec_fixed 11 (by decide), pad_fixed (by decide), pad_fixed (by decide), pad_fixed (by decide)⟩

/-- Random draws of the examples. -/
def drawsF (i : Nat) : F := i + 2

/-- Master key of the examples. -/
def mkF : MasterKey F F F F :=
  ⟨⟨[2, 3, 4, 5, 6, 7, 8, 9], 3⟩, ⟨[2, 3, 4, 5, 6, 7, 8, 9], 3⟩, ⟨[6, 4, 3, 9, 2, 8, 7, 5]⟩⟩

theorem mkF_eq : engineGenerateMasterKey (bls curveF) policy drawsF 3 = .ok mkF := by
  have h : (match engineGenerateMasterKey (bls curveF) policy drawsF 3 with
    | .ok m => decide (m.privKey = mkF.privKey ∧ m.pubKey = mkF.pubKey ∧ m.delKey = mkF.delKey)
    | _ => false) = true := by decide +kernel
  generalize engineGenerateMasterKey (bls curveF) policy drawsF 3 = r at h
  cases r with
  | ok m =>
    simp only [decide_eq_true_eq] at h
    obtain ⟨h1, h2, h3⟩ := h
    cases m
    simp_all [mkF]
  | err e => simp at h
  | panic => simp at h

theorem keyF_exists : ∃ key, engineGenerateUserKey (bls curveF) policy mkF.privKey ap drawsF = .ok key :=
  exists_of_isOk (by decide +kernel)

theorem encF_exists : ∃ enc, engineEncrypt (bls curveF) .debug64 policy mkF.pubKey [low, hr] 5 7 = .ok enc :=
  exists_of_isOk (by decide +kernel)

end Abe.Demo
