import Verif.Props.DemoHybrid
import Verif.Spec.Py
import Verif.Proofs.JsonPolicyText

/-!
# A concrete library for the examples on the language bindings

Arguments are encoded by arbitrary short byte strings instead of JSON.
-/

namespace Abe.Demo

/-- Access policy `Lvl::Low && Dpt::HR`, more restrictive than `ap`. -/
def apLow : AccessPolicy := .and (.attr low) (.attr hr)

theorem apLow_restricts : ap.Restricts policy apLow :=
  .and (.attr ⟨["Low"], [], true, by decide +kernel, by decide +kernel, rfl, Or.inr ⟨rfl, by decide +kernel⟩⟩) (.orLeft (.refl _))

theorem apLow_sat : apLow.Sat policy (· ∈ [low, hr]) :=
  ⟨⟨low, ⟨[], ["High"], true, by decide +kernel, by decide +kernel, rfl, Or.inl rfl⟩, by simp⟩,
    ⟨hr, ⟨["RnD"], ["MKG"], false, by decide +kernel, by decide +kernel, rfl, Or.inl rfl⟩, by simp⟩⟩

theorem ap_not_sat : ¬ ap.Sat policy (· ∈ [low]) := by
  rintro ⟨_, ⟨b, ⟨_, _, _, _, _, h, _⟩, hb⟩ | ⟨b, ⟨_, _, _, _, _, h, _⟩, hb⟩⟩ <;>
  · simp only [List.mem_singleton] at hb
    subst hb
    revert h; decide +kernel

def serde : Serde where
  policyDec b := if b = [1] then some policy else if b = [2] then some rotated else none
  policyEnc p := if p = policy then some [1] else if p = rotated then some [2] else none
  attributesDec b := if b = [1] then some [low, hr] else if b = [2] then some [low] else if b = [3] then some [hr] else none
  metadataDec b := if b = [1] then some metadata else none
  axesDec b := if b = [1] then some [⟨"Lvl", ["Low", "High"], true⟩, ⟨"Dpt", ["RnD", "HR", "MKG"], false⟩] else none
  accessPolicyDec b := if b = [1] then some ap else if b = [2] then some apLow else none
  accessPolicyParse s := if s = "ap" then some ap else if s = "apLow" then some apLow else if s = "*" then some .all else none
  attributesParse s := if s = "low,hr" then some [low, hr] else if s = "low" then some [low] else none

theorem serde_keeps : serde.KeepsPolicies := by
  intro p b _ _ h
  refine ⟨p, ?_, rfl, rfl, .refl _, .refl _⟩
  simp only [serde] at h ⊢
  split at h
  · simp only [Option.some.injEq] at h
    subst h; subst p; rfl
  · split at h
    · simp only [Option.some.injEq] at h
      subst h; subst p; rfl
    · simp at h

theorem policy_spelled : policy.Spelled := by
  rw [spelled_keys (reachable_wf policy_reachable)]
  have : ∀ x ∈ policy.attributeToInt, Attribute.ofChars x.1.chars = some x.1 := by decide +kernel
  exact fun x hx => ofChars_chars_iff.1 (this x hx)

theorem axes_spelled (axes : List PolicyAxis) (h : serde.axesDec [1] = some axes) :
    ∀ ax ∈ axes, ∀ n ∈ ax.attributes, Attribute.Spelled ⟨ax.name, n⟩ := by
  obtain rfl : [⟨"Lvl", ["Low", "High"], true⟩, ⟨"Dpt", ["RnD", "HR", "MKG"], false⟩] = axes := by simpa [serde] using h
  have : ∀ ax ∈ ([⟨"Lvl", ["Low", "High"], true⟩, ⟨"Dpt", ["RnD", "HR", "MKG"], false⟩] : List PolicyAxis), ∀ n ∈ ax.attributes,
      Attribute.ofChars (Attribute.chars ⟨ax.name, n⟩) = some ⟨ax.name, n⟩ := by decide +kernel
  exact fun ax ha n hn => ofChars_chars_iff.1 (this ax ha n hn)

def lib : Lib F F F F F SymKey SymNonce := ⟨bls curveF, codecs, symmetric, serde, .debug64⟩

end Abe.Demo
