import Verif.Spec.Keys
import Verif.Spec.Formula
import Mathlib.Algebra.Order.Field.Rat
import Mathlib.Algebra.Algebra.Bilinear

/-!
# Concrete instances

A small curve, policy and keys used in the `example`s that follow the property theorems: they show that the hypotheses
of the theorems can be met by non-trivial data.
-/

namespace Abe.Demo

open Abe

/-- The rational numbers with multiplication as pairing. -/
def curve : Curve ℚ ℚ ℚ ℚ ℚ where
  genP := 1
  genQ := 1
  genT := 1
  prepare := id
  multiPairing l := (l.map fun pq => pq.1 * pq.2).sum
  pair := LinearMap.mul ℚ ℚ
  multiPairing_prepare := by intro l; rw [List.map_map]; rfl
  genT_eq := by simp
  genT_ne_zero := by simp

/-- The policy of the demo: a hierarchical axis and a flat one. -/
def policy : Policy :=
  ⟨5, 8, [("Dpt", (["RnD", "HR", "MKG"], false)), ("Lvl", (["Low", "High"], true))],
    [(⟨"Dpt", "MKG"⟩, [5]), (⟨"Dpt", "HR"⟩, [4]), (⟨"Dpt", "RnD"⟩, [3]), (⟨"Lvl", "High"⟩, [2]), (⟨"Lvl", "Low"⟩, [1])]⟩

def low : Attribute := ⟨"Lvl", "Low"⟩
def high : Attribute := ⟨"Lvl", "High"⟩
def hr : Attribute := ⟨"Dpt", "HR"⟩
def mkg : Attribute := ⟨"Dpt", "MKG"⟩
def rnd' : Attribute := ⟨"Dpt", "RnD"⟩

theorem policy_reachable : policy.Reachable := by
  refine .addAxis ⟨"Dpt", ["RnD", "HR", "MKG"], false⟩ (.addAxis ⟨"Lvl", ["Low", "High"], true⟩ (.new 8) (p' := ?_) ?_) ?_
  · exact ⟨2, 8, [("Lvl", (["Low", "High"], true))], [(⟨"Lvl", "High"⟩, [2]), (⟨"Lvl", "Low"⟩, [1])]⟩
  · decide +kernel
  · decide +kernel

/-- The policy after rotating `HR`. -/
def rotated : Policy :=
  ⟨6, 8, [("Dpt", (["RnD", "HR", "MKG"], false)), ("Lvl", (["Low", "High"], true))],
    [(⟨"Dpt", "MKG"⟩, [5]), (⟨"Dpt", "HR"⟩, [6, 4]), (⟨"Dpt", "RnD"⟩, [3]), (⟨"Lvl", "High"⟩, [2]), (⟨"Lvl", "Low"⟩, [1])]⟩

theorem rotations : Policy.Rotations policy [hr] rotated :=
  .cons (p1 := rotated) (by decide +kernel) (.nil _)

/-- Random draws of the examples. -/
def draws (i : Nat) : ℚ := i + 2

theorem exists_of_isOk {ε α : Type} {r : Res ε α} (h : (match r with | .ok _ => true | _ => false) = true) :
    ∃ a, r = .ok a := by
  cases r with
  | ok a => exact ⟨a, rfl⟩
  | err e => simp at h
  | panic => simp at h

/-- Master key of the examples. -/
def mk : MasterKey ℚ ℚ ℚ ℚ :=
  ⟨⟨[2, 3, 4, 5, 6, 7, 8, 9], 3⟩, ⟨[2, 3, 4, 5, 6, 7, 8, 9], 3⟩, ⟨[1/2, 1/3, 1/4, 1/5, 1/6, 1/7, 1/8, 1/9]⟩⟩

theorem mk_eq : engineGenerateMasterKey (bls curve) policy draws 3 = .ok mk := by
  have h : (match engineGenerateMasterKey (bls curve) policy draws 3 with
    | .ok m => decide (m.privKey = mk.privKey ∧ m.pubKey = mk.pubKey ∧ m.delKey = mk.delKey)
    | _ => false) = true := by decide +kernel
  generalize engineGenerateMasterKey (bls curve) policy draws 3 = r at h
  cases r with
  | ok m =>
    simp only [decide_eq_true_eq] at h
    obtain ⟨h1, h2, h3⟩ := h
    cases m
    simp_all [mk]
  | err e => simp at h
  | panic => simp at h

/-- Access policy `Lvl::High && (Dpt::HR || Dpt::MKG)`. -/
def ap : AccessPolicy := .and (.attr high) (.or (.attr hr) (.attr mkg))

theorem key_exists : ∃ key, engineGenerateUserKey (bls curve) policy mk.privKey ap draws = .ok key :=
  exists_of_isOk (by decide +kernel)

theorem enc_exists : ∃ enc, engineEncrypt (bls curve) .debug64 policy mk.pubKey [low, hr] 5 11 = .ok enc :=
  exists_of_isOk (by decide +kernel)

theorem ap_sat : ap.Sat policy (· ∈ [low, hr]) := by
  refine ⟨⟨low, ⟨["Low"], [], true, by decide +kernel, by decide +kernel, rfl, Or.inr ⟨rfl, by decide +kernel⟩⟩, by simp⟩, Or.inl ⟨hr, ?_, by simp⟩⟩
  exact ⟨["RnD"], ["MKG"], false, by decide +kernel, by decide +kernel, rfl, Or.inl rfl⟩

end Abe.Demo
