import Verif.Proofs.Crafted
import Verif.Props.Json
import Verif.Props.DemoFfi
import Verif.Model.Py
import Verif.Model.Wasm

/-!
# C106: policies that were not built by the library

Every interface reads policies from texts, and nothing checks that the policy could have been built by the library.  The other properties are about
policies that were; here are those about any policy.
-/

namespace Abe

set_option linter.unusedSectionVars false

/-- **C106**, with any keys whatsoever: the generation and the delegation of keys panic when looking up the values meets a listed attribute without entry. -/
theorem C106_panics {K P Q QP T : Type} [Field K] [DecidableEq K] (bm : BilinearMap K QP P Q T) {p : Policy} {ap : AccessPolicy} (h : ap.Crashes p) (rnd : Nat → K) :
    (∀ priv, engineGenerateUserKey bm p priv ap rnd = .panic) ∧ ∀ del key, engineDelegateUserKey bm p del key ap rnd = .panic := by
  have hm : policyToMsp p ap = .panic := by
    rcases policyToMsp_any p ap with ⟨m, n, vs, h1, h2, h3, h4, h5, h6⟩ | ⟨h1, _⟩ | ⟨_, h2, _⟩
    · exact absurd h h5
    · exact h1
    · exact absurd h h2
  constructor
  · intro priv
    unfold engineGenerateUserKey
    rw [hm]
    rfl
  · intro del key
    unfold engineDelegateUserKey
    cases ap with
    | all => cases h
    | attr a => simp only [hm]; rfl
    | and l r => simp only [hm]; rfl
    | or l r => simp only [hm]; rfl

section
variable {K P Q QP T : Type} [Field K] [DecidableEq K] [AddCommGroup P] [Module K P] [AddCommGroup Q] [Module K Q]
  [AddCommGroup T] [Module K T]

/-- **C106**, key generation under any policy, with any private key without zero scalar: it panics exactly if looking up the values meets a listed attribute
without entry; it gives a key exactly if the access policy stands for distinct values within the size of the private key; otherwise it returns an error. -/
theorem C106_key_generation (c : Curve K P Q QP T) (p : Policy) {tI : List K} (hnz : ∀ t ∈ tI, t ≠ 0) (y : K) (ap : AccessPolicy) (rnd : Nat → K) :
    (engineGenerateUserKey (bls c) p ⟨tI, y⟩ ap rnd = .panic ↔ ap.Crashes p) ∧
    ((∃ key, engineGenerateUserKey (bls c) p ⟨tI, y⟩ ap rnd = .ok key) ↔
      ∃ vs, ap.Yields p vs ∧ vs.Nodup ∧ ∀ v ∈ vs, v.toNat < tI.length) := by
  unfold engineGenerateUserKey
  rcases policyToMsp_any p ap with ⟨m, n, vs, h1, h2, h3, h4, h5, h6⟩ | ⟨h1, h2, h3⟩ | ⟨⟨e, h1⟩, h2, h3⟩
  · rw [h1]
    simp only [Res.ok_bind]
    rcases keyGeneration_cases c h2 tI y rnd hnz with ⟨g1, key, g2⟩ | ⟨⟨a, ha, ha'⟩, e, g2⟩
    · rw [g2]
      exact ⟨⟨nofun, fun h => absurd h h5⟩, fun _ => ⟨vs, h3, h4, fun v hv => g1 v (h6.leaves ▸ hv)⟩, fun _ => ⟨key, rfl⟩⟩
    · rw [g2]
      refine ⟨⟨nofun, fun h => absurd h h5⟩, nofun, ?_⟩
      rintro ⟨ws, q1, _, q3⟩
      obtain rfl := h3.unique q1
      have := q3 a (h6.leaves ▸ ha)
      omega
  · rw [h1]
    exact ⟨⟨fun _ => h2, fun _ => rfl⟩, nofun, fun ⟨vs, h, _⟩ => absurd h (h3 vs)⟩
  · rw [h1]
    exact ⟨⟨nofun, fun h => absurd h h2⟩, nofun, fun ⟨vs, h, h', _⟩ => absurd h' (h3 vs h)⟩

/-- **C106**: no access policy runs into a missing entry exactly if every listed attribute has an entry; policies built by the library are such. -/
theorem C106_complete (p : Policy) : ((∀ ap : AccessPolicy, ¬ ap.Crashes p) ↔ p.Complete) ∧ (p.Reachable → p.Complete) := by
  refine ⟨⟨?_, ?_⟩, ?_⟩
  · intro h a hk hn
    obtain ⟨list, hh, h1, h2⟩ := hk
    obtain ⟨s, t, rfl, hs⟩ := List.eq_append_cons_of_mem h2
    exact h (.attr a) (.attr (pre := []) ⟨s, t, hh, h1, hs, rfl⟩ .nil hn)
  · intro h ap hc
    induction hc with
    | attr h1 _ h3 => exact h _ ((h1.covers _).1 (by simp)).known.2 h3
    | andLeft _ ih => exact ih
    | andRight _ _ ih => exact ih
    | orLeft _ ih => exact ih
    | orRight _ _ ih => exact ih
  · intro hr a hk hn
    obtain ⟨heap, hh⟩ := ((reachable_wf hr).known a).1 hk
    rw [hn] at hh
    cases hh

theorem attributesValues_any (p : Policy) (atts : List Attribute) :
    (∃ vs, p.attributesValues atts = .ok vs ∧ atts.map p.currentValue = vs.map some) ∨
    (∃ a ∈ atts, p.currentValue a = none) ∧ p.attributesValues atts = .err .policyError := by
  unfold Policy.attributesValues
  induction atts with
  | nil => exact .inl ⟨[], rfl, rfl⟩
  | cons a atts ih =>
    rw [mapRes_cons]
    cases hv : p.currentValue a with
    | none => exact .inr ⟨⟨a, by simp, hv⟩, rfl⟩
    | some v =>
      rw [show Res.ofOption FormatErr.policyError (some v) = .ok v from rfl, Res.ok_bind]
      rcases ih with ⟨vs, h2, h5⟩ | ⟨⟨b, hb, hb'⟩, h2⟩
      · exact .inl ⟨v :: vs, by rw [h2]; rfl, by simp [hv, h5]⟩
      · exact .inr ⟨⟨b, by simp [hb], hb'⟩, by rw [h2]; rfl⟩

theorem mem_values_any {p : Policy} {atts : List Attribute} {vs : List UInt32} (h : atts.map p.currentValue = vs.map some) (v : UInt32) :
    v ∈ vs ↔ ∃ a ∈ atts, p.currentValue a = some v := by
  have : some v ∈ vs.map some ↔ v ∈ vs := by simp
  rw [← this, ← h]
  simp

theorem encryption_any (c : Curve K P Q QP T) (t : Target) (p : Policy) {size : Nat} (hsize : 0 < size)
    {rnd : Nat → K} {y : K} {mk : MasterKey K P Q T} (hmk : generateMasterKey (bls c) size rnd y = .ok mk)
    (atts : List Attribute) (msg : T) (s : K) :
    ((∃ a ∈ atts, p.currentValue a = none) ∨ size ≤ atts.length →
      ∃ e, engineEncrypt (bls c) t p mk.pubKey atts msg s = .err e) ∧
    ((∀ a ∈ atts, p.currentValue a ≠ none) → atts.length < size →
      (∀ a ∈ atts, ∀ v, p.currentValue a = some v → v.toNat < size) →
      ∃ enc, engineEncrypt (bls c) t p mk.pubKey atts msg s = .ok enc ∧ enc.gamma.map some = atts.map p.currentValue) ∧
    ((∀ a ∈ atts, p.currentValue a ≠ none) → atts.length < size →
      (∃ a ∈ atts, ∃ v, p.currentValue a = some v ∧ size ≤ v.toNat) →
      engineEncrypt (bls c) t p mk.pubKey atts msg s = .panic) := by
  obtain ⟨tI, hlen, _, rfl⟩ := generateMasterKey_inv c hmk
  unfold engineEncrypt
  rcases attributesValues_any p atts with ⟨vs, h2, h5⟩ | ⟨⟨a, ha, hka⟩, h2⟩
  · have h3 : vs.length = atts.length := by simpa using (congrArg List.length h5).symm
    have h4 := mem_values_any h5
    have h1 : ∀ a ∈ atts, p.currentValue a ≠ none := by
      intro a ha hn
      have : (none : Option UInt32) ∈ vs.map some := by
        rw [← h5, ← hn]
        exact List.mem_map.2 ⟨a, ha, rfl⟩
      simp at this
    rw [h2]
    simp only [Res.ok_bind]
    rcases encrypt_cases c t tI y s msg vs with ⟨g0, _, g⟩ | g | ⟨g1, g2, g⟩ | ⟨g1, ⟨v, hv, hv'⟩, g⟩
    · refine ⟨fun _ => ⟨_, g⟩, fun _ h => ?_, fun _ h => ?_⟩ <;> omega
    · omega
    · refine ⟨?_, fun _ _ _ => ⟨_, g, h5.symm⟩, ?_⟩
      · rintro (⟨a, ha, hk⟩ | h)
        · exact absurd hk (h1 a ha)
        · omega
      · rintro _ _ ⟨a, ha, v, hv, hvs⟩
        have := g2 v ((h4 v).2 ⟨a, ha, hv⟩)
        omega
    · refine ⟨?_, fun _ _ h => ?_, fun _ _ _ => g⟩
      · rintro (⟨a, ha, hk⟩ | h)
        · exact absurd hk (h1 a ha)
        · omega
      · obtain ⟨a, ha, hc⟩ := (h4 v).1 hv
        have := h a ha v hc
        omega
  · rw [h2]
    exact ⟨fun _ => ⟨_, rfl⟩, fun h => absurd hka (h a ha), fun h => absurd hka (h a ha)⟩

/-- **C106**, encryption under any policy with a public key of `size ≥ 1` slots: an error if an attribute has no values or the attributes are too many; else a panic if one of the top
values lies beyond the public key; else a ciphertext for the top values. -/
theorem C106_encryption (c : Curve K P Q QP T) (t : Target) (p : Policy) {size : Nat} (hsize : 0 < size)
    {rnd : Nat → K} {y : K} {mk : MasterKey K P Q T} (hmk : generateMasterKey (bls c) size rnd y = .ok mk)
    (atts : List Attribute) (msg : T) (s : K) :
    ((∃ a ∈ atts, ∀ v, ¬ p.Top a v) ∨ size ≤ atts.length → ∃ e, engineEncrypt (bls c) t p mk.pubKey atts msg s = .err e) ∧
    ∀ vs, List.Forall₂ p.Top atts vs → atts.length < size →
      ((∀ v ∈ vs, v.toNat < size) → ∃ enc, engineEncrypt (bls c) t p mk.pubKey atts msg s = .ok enc ∧ enc.gamma = vs) ∧
      ((∃ v ∈ vs, size ≤ v.toNat) → engineEncrypt (bls c) t p mk.pubKey atts msg s = .panic) := by
  obtain ⟨h1, h2, h3⟩ := encryption_any c t p hsize hmk atts msg s
  refine ⟨fun h => h1 (h.imp_left fun ⟨a, ha, hv⟩ => ⟨a, ha, Option.eq_none_iff_forall_not_mem.2 fun v hv' => hv v (top_iff.2 hv')⟩), fun vs hvs hl => ?_⟩
  rw [tops_iff] at hvs
  have hm := mem_values_any hvs
  have hn : ∀ a ∈ atts, p.currentValue a ≠ none := by
    intro a ha hn
    have : (none : Option UInt32) ∈ vs.map some := by rw [← hvs, ← hn]; exact List.mem_map.2 ⟨a, ha, rfl⟩
    simp at this
  constructor
  · intro h
    obtain ⟨enc, he, hg⟩ := h2 hn hl fun a ha v hv => h v ((hm v).2 ⟨a, ha, hv⟩)
    rw [hvs] at hg
    exact ⟨enc, he, List.map_injective_iff.2 (Option.some_injective _) hg⟩
  · rintro ⟨v, hv, hs⟩
    obtain ⟨a, ha, hv'⟩ := (hm v).1 hv
    exact h3 hn hl ⟨a, ha, v, hv', hs⟩

/-- **C106**, access: a key made under any policy `p` and a ciphertext made under any policy `p'`, with the same master key.  The ciphertext opens exactly if the top values, under `p'`,
of its attributes satisfy the access policy read under `p`; otherwise decryption gives nothing or an error. -/
theorem C106_access (c : Curve K P Q QP T) {size : Nat} {rnd : Nat → K} {y : K} {mk : MasterKey K P Q T}
    (hmk : generateMasterKey (bls c) size rnd y = .ok mk)
    {p : Policy} {ap : AccessPolicy} {rnd' : Nat → K} {key : DecryptionKey K QP Q} (hkey : engineGenerateUserKey (bls c) p mk.privKey ap rnd' = .ok key)
    {t : Target} {p' : Policy} {atts : List Attribute} {msg : T} {s : K} {enc : CipherText P T}
    (henc : engineEncrypt (bls c) t p' mk.pubKey atts msg s = .ok enc) :
    (ap.SatValues p (fun v => ∃ a ∈ atts, p'.Top a v) → engineDecrypt (bls c) enc key = .ok (some msg)) ∧
    (¬ ap.SatValues p (fun v => ∃ a ∈ atts, p'.Top a v) →
      engineDecrypt (bls c) enc key = .ok none ∨ engineDecrypt (bls c) enc key = .err (.internalOperation "empty input matrix")) := by
  obtain ⟨tI, _, hnz, rfl⟩ := generateMasterKey_inv c hmk
  unfold engineEncrypt at henc
  rcases attributesValues_any p' atts with ⟨vs, h2, h5⟩ | ⟨_, h2⟩
  swap
  · rw [h2] at henc
    cases henc
  rw [h2] at henc
  simp only [Res.ok_bind] at henc
  have h4 : (fun v => ∃ a ∈ atts, p'.Top a v) = (· ∈ vs) := by
    funext v
    simp only [top_iff]
    exact propext (mem_values_any h5 v).symm
  rw [h4]
  obtain rfl : enc = ctOf c tI y s msg vs := by
    rcases encrypt_cases c t tI y s msg vs with ⟨_, _, g⟩ | g | ⟨_, _, g⟩ | ⟨_, _, g⟩
    · rw [g] at henc; cases henc
    · unfold encrypt at henc
      obtain rfl : tI = [] := List.length_eq_zero_iff.1 g
      simp [pubOf] at henc
      cases hu : t.usub 0 1 with
      | ok x => rw [hu] at henc; cases henc
      | err e => rw [hu] at henc; cases henc
      | panic => rw [hu] at henc; cases henc
    · rw [g] at henc; cases henc; rfl
    · rw [g] at henc; cases henc
  unfold engineGenerateUserKey at hkey
  rcases policyToMsp_any p ap with ⟨m, n, ws, h1, g2, _, _, _, g6⟩ | ⟨h1, _⟩ | ⟨⟨e, h1⟩, _⟩
  swap
  · rw [h1] at hkey; cases hkey
  swap
  · rw [h1] at hkey; cases hkey
  rw [h1] at hkey
  simp only [Res.ok_bind] at hkey
  rcases keyGeneration_cases c g2 tI y rnd' hnz with ⟨q1, _⟩ | ⟨_, e, q2⟩
  swap
  · rw [q2] at hkey; cases hkey
  have hcov : Covers tI n := fun a ha => ⟨q1 a ha, by rw [← tOf_eq (q1 a ha)]; exact hnz _ (List.getElem_mem _)⟩
  obtain ⟨lam, q3, q4⟩ := keyGeneration_shares c g2 tI y rnd' hcov
  rw [q3] at hkey
  simp only [Res.ok.injEq] at hkey
  subst hkey
  obtain ⟨d1, d2, d3⟩ := decrypt_keyOf c g2 tI hcov lam q4 y s msg vs
  constructor
  · intro h
    have := d3 ((g6.sat _).2 h)
    rw [add_sub_cancel_right] at this
    exact this
  · intro h
    by_cases hx : ∃ a ∈ vs, a ∈ n.leaves
    · exact .inl (d2 hx (fun h' => h ((g6.sat _).1 h')))
    · exact .inr (d1 (by simpa using hx))

/-- **C106**, shared values: under a policy that gives the top value of `b` to `a` too, the key for `a` opens messages for `b`, whatever the two attributes are. -/
theorem C106_shared_value (c : Curve K P Q QP T) {size : Nat} {rnd : Nat → K} {y : K} {mk : MasterKey K P Q T}
    (hmk : generateMasterKey (bls c) size rnd y = .ok mk) {p : Policy} {a b : Attribute} {v : UInt32} (ha : p.Known a) (hav : p.HasValue a v)
    (hbv : p.Top b v) {rnd' : Nat → K} {key : DecryptionKey K QP Q} (hkey : engineGenerateUserKey (bls c) p mk.privKey (.attr a) rnd' = .ok key)
    {t : Target} {msg : T} {s : K} {enc : CipherText P T} (henc : engineEncrypt (bls c) t p mk.pubKey [b] msg s = .ok enc) :
    engineDecrypt (bls c) enc key = .ok (some msg) := by
  refine (C106_access c hmk hkey henc).1 ⟨a, v, ?_, hav, b, by simp, hbv⟩
  obtain ⟨list, h, q1, q2⟩ := ha
  obtain ⟨s, t, rfl, hs⟩ := List.eq_append_cons_of_mem q2
  exact ⟨s, t, h, q1, hs, rfl, .inl rfl⟩

end

/-! ### Examples -/

namespace Crafted

/-- A hierarchical axis whose lower attribute has no entry, an attribute with an empty one, two attributes with the same value, a value beyond the budget. -/
def policy : Policy :=
  ⟨0, 4, [("Lvl", (["Low", "High"], true)), ("Dpt", (["HR", "MKG", "FIN", "RnD"], false))],
    [(⟨"Lvl", "High"⟩, [2]), (⟨"Dpt", "HR"⟩, [1]), (⟨"Dpt", "MKG"⟩, [1]), (⟨"Dpt", "FIN"⟩, []), (⟨"Dpt", "RnD"⟩, [9])]⟩

/-- The text of it. -/
def text : String := "{\"last_attribute_value\":0,\"max_attribute_creations\":4,\"axes\":{\"Lvl\":[[\"Low\",\"High\"],true],\"Dpt\":[[\"HR\",\"MKG\",\"FIN\",\"RnD\"],false]},\"attribute_to_int\":{\"Lvl::High\":[2],\"Dpt::HR\":[1],\"Dpt::MKG\":[1],\"Dpt::FIN\":[],\"Dpt::RnD\":[9]}}"

theorem jsonSerde_dec (parse : String → Option AccessPolicy) (b : Bytes) : (jsonSerde parse).policyDec b = (Json.ofBytes b).bind Policy.ofJson := rfl

theorem dec (parse : String → Option AccessPolicy) : (jsonSerde parse).policyDec (utf8 text) = some policy := by
  rw [jsonSerde_dec]
  decide +kernel

theorem fin : hget policy.attributeToInt ⟨"Dpt", "FIN"⟩ = some [] := by decide +kernel

theorem lookups_high : policy.Lookups Demo.high [Demo.high, Demo.low] := ⟨["Low"], [], true, by decide +kernel, by decide +kernel, rfl⟩

theorem crashes : (AccessPolicy.and (.attr Demo.hr) (.attr Demo.high)).Crashes policy :=
  .andRight (.attr ⟨[], ["MKG", "FIN", "RnD"], false, by decide +kernel, by decide +kernel, rfl⟩ (.cons (heap := [1]) (by decide +kernel) (by simp) .nil))
    (.attr (pre := [Demo.high]) (post := []) lookups_high (.cons (heap := [2]) (by decide +kernel) (by simp) .nil) (by decide +kernel))

theorem mk_exists : ∃ mk, generateMasterKey (bls Demo.curve) 4 Demo.draws 3 = .ok mk := Demo.exists_of_isOk (by decide +kernel)

end Crafted

/-- `Dpt::HR && Lvl::High` crashes the generation of keys although `Lvl::Low`, which has no entry, is not named; `Dpt::FIN || Lvl::High` is refused before. -/
example : engineGenerateUserKey (bls Demo.curve) Crafted.policy ⟨[2, 3, 4, 5], 3⟩ (.and (.attr Demo.hr) (.attr Demo.high)) Demo.draws = .panic :=
  ((C106_key_generation Demo.curve Crafted.policy (tI := [2, 3, 4, 5]) (by decide +kernel) 3 _ Demo.draws).1).2 Crafted.crashes
example : engineGenerateUserKey (bls Demo.curve) Crafted.policy ⟨[2, 3, 4, 5], 3⟩ (.or (.attr ⟨"Dpt", "FIN"⟩) (.attr Demo.high)) Demo.draws ≠ .panic := by
  rw [Ne, (C106_key_generation Demo.curve Crafted.policy (tI := [2, 3, 4, 5]) (by decide +kernel) 3 _ Demo.draws).1]
  have hnot : ∀ pre : List Attribute, ∀ b post vs, Crafted.policy.Lookups ⟨"Dpt", "FIN"⟩ (pre ++ b :: post) → Crafted.policy.ValuesOf pre vs → pre = [] ∧ b = ⟨"Dpt", "FIN"⟩ := by
    intro pre b post vs h hv
    have e := h.unique ⟨["HR", "MKG"], ["RnD"], false, by decide +kernel, by decide +kernel, rfl⟩
    cases pre with
    | nil => exact ⟨rfl, (List.cons.inj e).1⟩
    | cons x pre =>
      have := (List.cons.inj e).2
      simp at this
  intro h
  cases h with
  | orLeft h =>
    cases h with
    | attr h1 h2 h3 =>
      obtain ⟨rfl, rfl⟩ := hnot _ _ _ _ h1 h2
      rw [Crafted.fin] at h3
      cases h3
  | orRight h _ =>
    cases h with
    | attr h1 h2 =>
      rw [h1.unique ⟨["HR", "MKG"], ["RnD"], false, by decide +kernel, by decide +kernel, rfl⟩] at h2
      obtain ⟨heap, g1, g2⟩ := h2.found ⟨"Dpt", "FIN"⟩ (by simp)
      rw [Crafted.fin] at g1
      cases g1
      exact g2 rfl
/-- `Dpt::HR` gives a key, with the value 1. -/
example : ∃ key, engineGenerateUserKey (bls Demo.curve) Crafted.policy ⟨[2, 3, 4, 5], 3⟩ (.attr Demo.hr) Demo.draws = .ok key :=
  ((C106_key_generation Demo.curve Crafted.policy (tI := [2, 3, 4, 5]) (by decide +kernel) 3 _ Demo.draws).2).2
    ⟨[1], .inner (.attr ⟨[], ["MKG", "FIN", "RnD"], false, by decide +kernel, by decide +kernel, rfl⟩ (.cons (heap := [1]) (by decide +kernel) (by simp) .nil)),
      by simp, by simp⟩
/-- The policy is not complete; the policy of the demo is. -/
example : ¬ Crafted.policy.Complete ∧ Demo.policy.Complete :=
  ⟨fun h => (C106_complete Crafted.policy).1.2 h _ Crafted.crashes, (C106_complete Demo.policy).2 Demo.policy_reachable⟩
/-- The key for `Dpt::HR` opens a message for `Dpt::MKG`. -/
example : ∃ mk key enc, generateMasterKey (bls Demo.curve) 4 Demo.draws 3 = .ok mk ∧
    engineGenerateUserKey (bls Demo.curve) Crafted.policy mk.privKey (.attr Demo.hr) Demo.draws = .ok key ∧
    engineEncrypt (bls Demo.curve) .release64 Crafted.policy mk.pubKey [Demo.mkg] 5 11 = .ok enc ∧
    engineDecrypt (bls Demo.curve) enc key = .ok (some 5) := by
  obtain ⟨key, h1⟩ : ∃ key, (do
      let mk ← generateMasterKey (bls Demo.curve) 4 Demo.draws 3
      engineGenerateUserKey (bls Demo.curve) Crafted.policy mk.privKey (.attr Demo.hr) Demo.draws : Out _) = .ok key := Demo.exists_of_isOk (by decide +kernel)
  obtain ⟨enc, h2⟩ : ∃ enc, (do
      let mk ← generateMasterKey (bls Demo.curve) 4 Demo.draws 3
      engineEncrypt (bls Demo.curve) .release64 Crafted.policy mk.pubKey [Demo.mkg] 5 11 : Out _) = .ok enc := Demo.exists_of_isOk (by decide +kernel)
  obtain ⟨mk, hmk⟩ := Crafted.mk_exists
  rw [hmk, Res.ok_bind] at h1 h2
  exact ⟨mk, key, enc, hmk, h1, h2, C106_shared_value Demo.curve hmk (v := 1) ⟨["HR", "MKG", "FIN", "RnD"], false, by decide +kernel, by decide +kernel⟩ ⟨[1], by decide +kernel, by simp⟩
    (top_iff.2 (by decide +kernel)) h1 h2⟩
/-- Encryption for `Dpt::RnD`, whose value is beyond the public key, panics; for `Lvl::Low`, which has no entry, it is refused. -/
example : ∃ mk, generateMasterKey (bls Demo.curve) 4 Demo.draws 3 = .ok mk ∧
    engineEncrypt (bls Demo.curve) .release64 Crafted.policy mk.pubKey [Demo.rnd'] 5 11 = .panic ∧
    ∃ e, engineEncrypt (bls Demo.curve) .release64 Crafted.policy mk.pubKey [Demo.low] 5 11 = .err e := by
  obtain ⟨mk, hmk⟩ := Crafted.mk_exists
  refine ⟨mk, hmk, ((C106_encryption Demo.curve .release64 Crafted.policy (by omega) hmk _ 5 11).2 [9] (.cons (top_iff.2 (by decide +kernel)) .nil) (by simp)).2 ⟨9, by simp, by decide⟩,
    (C106_encryption Demo.curve .release64 Crafted.policy (by omega) hmk _ 5 11).1 (.inl ⟨Demo.low, by simp, fun v hv => ?_⟩)⟩
  have : Crafted.policy.currentValue Demo.low = none := by decide +kernel
  rw [top_iff, this] at hv
  cases hv

/-! ### Interfaces -/

section
variable {K P Q QP T Key Nonce : Type} [Field K] [DecidableEq K]

theorem py_ok_bind {α β : Type} {x : Out α} {a : α} (h : x = .ok a) (f : α → PyOut β) : (py x >>= f) = f a := by rw [h]; rfl
theorem pyArg_ok_bind {α β : Type} {x : Option α} {a : α} (h : x = some a) (f : α → PyOut β) : (pyArg x >>= f) = f a := by rw [h]; rfl
theorem js_ok_bind {α β : Type} {x : Out α} {a : α} (h : x = .ok a) (f : α → JsOut β) : (js x >>= f) = f a := by rw [h]; rfl
theorem jsArg_ok_bind {α β : Type} {x : Option α} {a : α} (h : x = some a) (f : α → JsOut β) : (jsArg x >>= f) = f a := by rw [h]; rfl

/-- **C106**, Python and JavaScript: with a private key, an access policy and a policy that can be read, the generation of a user key panics if looking up the values meets a listed
attribute without entry; so does the delegation. -/
theorem C106_python_javascript (lib : Lib K QP P Q T Key Nonce) {privB policyB : Bytes} {apS : String} {sk : MasterPrivateKey K} {p : Policy} {ap : AccessPolicy}
    (hp : lib.serde.policyDec policyB = some p) (ha : lib.serde.accessPolicyParse apS = some ap)
    (hc : ap.Crashes p) (rnd : Nat → K) :
    ((privKeyCodec lib.t lib.cs).dec privB = .ok sk → pyGenerateUserPrivateKey lib privB apS policyB rnd = .panic ∧ jsGenerateUserPrivateKey lib privB apS policyB rnd = .panic) ∧
    ∀ delB keyB (del : DelegationKey Q) (key : DecryptionKey K QP Q), (delKeyCodec lib.t lib.cs).dec delB = .ok del →
      (userKeyCodec lib.t lib.cs lib.bm).dec keyB = .ok key → pyGenerateDelegatedKey lib delB keyB apS policyB rnd = .panic := by
  refine ⟨fun hk => ⟨?_, ?_⟩, ?_⟩
  · unfold pyGenerateUserPrivateKey
    rw [py_ok_bind hk, pyArg_ok_bind hp, pyArg_ok_bind ha, (C106_panics lib.bm hc rnd).1 sk]
    rfl
  · unfold jsGenerateUserPrivateKey
    rw [js_ok_bind hk, jsArg_ok_bind hp, jsArg_ok_bind ha, (C106_panics lib.bm hc rnd).1 sk]
    rfl
  · intro delB keyB del key h1 h2
    unfold pyGenerateDelegatedKey
    rw [py_ok_bind h1, py_ok_bind h2, pyArg_ok_bind ha, pyArg_ok_bind hp, (C106_panics lib.bm hc rnd).2 del key]
    rfl

open Prog in
/-- **C106**, C: the same; the call does not return, whatever the state is, provided the output buffer is there and not announced as empty. -/
theorem C106_c {lib : FfiLib K QP P Q T Key Nonce} {priv : InBuf} {apP policyP : Option Bytes} {sk : MasterPrivateKey K} {p : Policy} {ap : AccessPolicy}
    (hk : BytesArg priv (privKeyCodec lib.t lib.cs).dec sk) (ha : StrArg apP lib.serde.accessPolicyDec ap) (hp : StrArg policyP lib.serde.policyDec p)
    (hc : ap.Crashes p) (rnd : Nat → K) {s : FState (EncryptionCache P T) (DecryptionKey K QP Q)} {m : Bytes} {n : Int32}
    (hs : s.mem.slots .out = ⟨some m, some n⟩) (hn : n ≠ 0) :
    (hGenerateUserPrivateKey lib priv apP policyP rnd).run s = (.panic, s) := by
  have hpay : userKeyPayload lib priv apP policyP rnd = panicked := by
    unfold userKeyPayload
    obtain ⟨x, hx1, _, hx3⟩ := id hk
    obtain ⟨ys, hy1, hy2, hy3⟩ := id ha
    obtain ⟨zs, hz1, hz2, hz3⟩ := id hp
    rw [checkIn_eq_pure.2 hk.not_missing, pure_bind, notNull_eq_pure.2 ha.ne_none, pure_bind, notNull_eq_pure.2 hp.ne_none, pure_bind,
      readIn_eq_pure.2 hx1, pure_bind, libUnwrap_eq_pure.2 hx3, pure_bind, readStr_eq_pure.2 ⟨hy1, hy2⟩, pure_bind, json_eq_pure.2 hy3, pure_bind,
      readStr_eq_pure.2 ⟨hz1, hz2⟩, pure_bind, json_eq_pure.2 hz3, pure_bind, (C106_panics lib.bm hc rnd).1 sk]
    rfl
  rw [hGenerateUserPrivateKey_eq, hpay]
  have := checkOut_pos "User private key pointer should point to pre-allocated memory"
    "The user private key buffer should have a size greater than zero" hs hn
  simp only [Prog.run, bind_def, Prog.bind, this, panicked, finish]

end

namespace Crafted

/-- The expressions of the examples. -/
def parse (s : String) : Option AccessPolicy := if s = "high" then some (.attr Demo.high) else none

/-- The library of the examples, with JSON texts. -/
def ffi : FfiLib Demo.F Demo.F Demo.F Demo.F Demo.F Demo.SymKey Demo.SymNonce := { Demo.ffi with serde := jsonSerde parse }

theorem ffi_serde : ffi.serde = jsonSerde parse := rfl

theorem jsonSerde_access (parse : String → Option AccessPolicy) (b : Bytes) : (jsonSerde parse).accessPolicyDec b = (Json.ofBytes b).bind AccessPolicy.ofJson := rfl

theorem jsonSerde_parse (parse : String → Option AccessPolicy) (s : String) : (jsonSerde parse).accessPolicyParse s = parse s := rfl

theorem text_arg : StrArg (some (utf8 text ++ [0])) ffi.serde.policyDec policy :=
  ⟨utf8 text, ⟨[], rfl, by decide +kernel⟩, by decide +kernel, by rw [ffi_serde]; exact dec _⟩

theorem ap_arg : StrArg (some (utf8 "{\"Attr\":\"Lvl::High\"}" ++ [0])) ffi.serde.accessPolicyDec (.attr Demo.high) := by
  refine ⟨_, ⟨[], rfl, by decide +kernel⟩, by decide +kernel, ?_⟩
  rw [ffi_serde, jsonSerde_access]
  decide +kernel

theorem priv_arg : BytesArg (Demo.input Demo.privB) (privKeyCodec ffi.t ffi.cs).dec Demo.mkF.privKey := by
  rw [show ffi.t = Demo.ffi.t from rfl, show ffi.cs = Demo.ffi.cs from rfl]
  exact Demo.priv_arg

/-- Room for the key. -/
def room : FState (EncryptionCache Demo.F Demo.F) (DecryptionKey Demo.F Demo.F Demo.F) := Demo.state fun _ => Demo.buf 1000 1000

theorem room_out : room.mem.slots .out = ⟨some (List.replicate 1000 0), some 1000⟩ := rfl

theorem crashes_high : (AccessPolicy.attr Demo.high).Crashes policy :=
  .attr (pre := [Demo.high]) (post := []) lookups_high (.cons (heap := [2]) (by decide +kernel) (by simp) .nil) (by decide +kernel)

end Crafted

/-- A text of a policy which crashes the C, Python and JavaScript functions that make user keys. -/
example : (hGenerateUserPrivateKey Crafted.ffi (Demo.input Demo.privB) (some (utf8 "{\"Attr\":\"Lvl::High\"}" ++ [0])) (some (utf8 Crafted.text ++ [0])) Demo.drawsF).run
    Crafted.room = (.panic, Crafted.room) :=
  C106_c (sk := Demo.mkF.privKey) Crafted.priv_arg Crafted.ap_arg Crafted.text_arg Crafted.crashes_high Demo.drawsF Crafted.room_out (by decide)
example : pyGenerateUserPrivateKey Crafted.ffi.toLib Demo.privB "high" (utf8 Crafted.text) Demo.drawsF = .panic ∧
    jsGenerateUserPrivateKey Crafted.ffi.toLib Demo.privB "high" (utf8 Crafted.text) Demo.drawsF = .panic :=
  (C106_python_javascript Crafted.ffi.toLib (ap := .attr Demo.high) (by rw [Crafted.ffi_serde]; exact Crafted.dec _)
    (by rw [Crafted.ffi_serde, Crafted.jsonSerde_parse]; decide +kernel) Crafted.crashes_high Demo.drawsF).1 Demo.privB_dec

end Abe
