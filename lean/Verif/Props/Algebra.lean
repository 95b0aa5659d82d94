import Verif.Proofs.Engine
import Verif.Props.Demo

/-!
# Malleability of ciphertexts, keys of another authority

Properties C62 and C63.
-/

namespace Abe

set_option linter.unusedSectionVars false

open Finset

variable {K P Q QP T : Type} [Field K] [DecidableEq K] [AddCommGroup P] [Module K P] [AddCommGroup Q] [Module K Q]
  [AddCommGroup T] [Module K T]

/-! ### C62 -/

theorem selectRows_ePrime {G1 G2 G3 Gt : Type} (key : DecryptionKey K G1 G3) (enc : CipherText G2 Gt) (x : Gt) :
    ∀ (l : List UInt32) (i : Nat), selectRows key { enc with ePrime := x } l i = selectRows key enc l i
  | [], _ => rfl
  | a :: l, i => by
    unfold selectRows
    rw [selectRows_ePrime key enc x l (i + 1)]

/-- **C62**, no integrity: adding `d` to the masked message of any ciphertext adds `d` to the result of decryption with any key (honest
or not), and nothing else changes. -/
theorem C62_shift (c : Curve K P Q QP T) (enc : CipherText P T) (key : DecryptionKey K QP Q) (d : T) :
    (∀ m, decrypt (bls c) enc key = .ok (some m) → decrypt (bls c) { enc with ePrime := enc.ePrime + d } key = .ok (some (m + d))) ∧
    ((∀ m, decrypt (bls c) enc key ≠ .ok (some m)) →
      decrypt (bls c) { enc with ePrime := enc.ePrime + d } key = decrypt (bls c) enc key) := by
  unfold decrypt
  dsimp only
  rw [selectRows_ePrime key enc (enc.ePrime + d)]
  cases selectRows key enc enc.gamma 0 with
  | err e => simp
  | panic => simp
  | ok sel =>
    simp only [Res.ok_bind]
    cases spanCoefs (sel.map fun p => p.1) with
    | err e => simp
    | panic => simp
    | ok o =>
      cases o with
      | none => simp
      | some a =>
        simp only [Res.ok_bind]
        cases keepNonZero a (sel.map fun p => p.2.1) 0 with
        | err e => simp
        | panic => simp
        | ok l1 =>
          simp only [Res.ok_bind]
          cases keepNonZero a (sel.map fun p => p.2.2) 0 with
          | err e => simp
          | panic => simp
          | ok l2 =>
            simp only [Res.ok_bind, Res.ok.injEq, Option.some.injEq, bls]
            constructor
            · rintro m rfl
              abel
            · intro h
              exact absurd rfl (h _)

/-- **C62**, homomorphism: the componentwise sum of two ciphertexts for the same values is a ciphertext of the sum of the messages, for the
sum of the randomness; with a ciphertext of 0 this gives another ciphertext of the same message to anyone. -/
theorem C62_homomorphic (c : Curve K P Q QP T) (t : Target) {size : Nat} {rnd : Nat → K} {y : K} {mk : MasterKey K P Q T}
    (hmk : generateMasterKey (bls c) size rnd y = .ok mk) {gamma : List UInt32} {msg msg' : T} {s s' : K} {ct ct' : CipherText P T}
    (h : encrypt (bls c) t msg gamma mk.pubKey s = .ok ct) (h' : encrypt (bls c) t msg' gamma mk.pubKey s' = .ok ct') :
    encrypt (bls c) t (msg + msg') gamma mk.pubKey (s + s') =
      .ok ⟨gamma, ct.ePrime + ct'.ePrime, List.zipWith (· + ·) ct.eI ct'.eI⟩ := by
  obtain ⟨tI, hl, hnz, rfl⟩ := generateMasterKey_inv c hmk
  rcases encrypt_cases c t tI y s msg gamma with ⟨_, _, g⟩ | g | ⟨g1, g2, g⟩ | ⟨_, _, g⟩
  · rw [g] at h; simp at h
  · exfalso
    unfold encrypt at h
    simp only [pubOf, List.length_map, g, Nat.zero_le, if_true] at h
    obtain ⟨_, _, h⟩ := Res.bind_eq_ok.1 h
    simp at h
  · rw [g, Res.ok.injEq] at h
    rw [encrypt_ok c t tI y s' msg' gamma g1 g2, Res.ok.injEq] at h'
    subst h h'
    rw [encrypt_ok c t tI y (s + s') (msg + msg') gamma g1 g2]
    simp only [ctOf, Res.ok.injEq, CipherText.mk.injEq, true_and]
    constructor
    · rw [add_mul, add_smul]; abel
    · rw [List.zipWith_map, List.zipWith_self]
      refine List.map_congr_left fun a _ => ?_
      rw [add_mul, add_smul]
  · rw [g] at h; simp at h

/-- **C62**, removal of attributes: anyone can remove any attribute of a ciphertext. -/
theorem C62_removal (c : Curve K P Q QP T) (t : Target) {size : Nat} {rnd : Nat → K} {y : K} {mk : MasterKey K P Q T}
    (hmk : generateMasterKey (bls c) size rnd y = .ok mk) {gamma : List UInt32} {msg : T} {s : K} {ct : CipherText P T}
    (h : encrypt (bls c) t msg gamma mk.pubKey s = .ok ct) (i : Nat) :
    encrypt (bls c) t msg (gamma.eraseIdx i) mk.pubKey s = .ok ⟨ct.gamma.eraseIdx i, ct.ePrime, ct.eI.eraseIdx i⟩ := by
  obtain ⟨tI, hl, hnz, rfl⟩ := generateMasterKey_inv c hmk
  rcases encrypt_cases c t tI y s msg gamma with ⟨_, _, g⟩ | g | ⟨g1, g2, g⟩ | ⟨_, _, g⟩
  · rw [g] at h; simp at h
  · exfalso
    unfold encrypt at h
    simp only [pubOf, List.length_map, g, Nat.zero_le, if_true] at h
    obtain ⟨_, _, h⟩ := Res.bind_eq_ok.1 h
    simp at h
  · rw [g, Res.ok.injEq] at h
    subst h
    have hle : (gamma.eraseIdx i).length ≤ gamma.length := (List.eraseIdx_sublist gamma i).length_le
    rw [encrypt_ok c t tI y s msg _ (by omega) fun a ha => g2 a ((List.eraseIdx_sublist gamma i).mem ha)]
    simp only [ctOf, Res.ok.injEq, CipherText.mk.injEq, true_and]
    rw [List.eraseIdx_map]
  · rw [g] at h; simp at h

/-- The ciphertext of 5 for `Low` and `HR` in the demo (values 1 and 4): a shift, a sum and a removal. -/
example : ∃ enc, encrypt (bls Demo.curve) .debug64 5 [1, 4] Demo.mk.pubKey 11 = .ok enc ∧
    encrypt (bls Demo.curve) .debug64 (5 + 2) [1, 4] Demo.mk.pubKey (11 + 1) =
      .ok ⟨[1, 4], enc.ePrime + 5, List.zipWith (· + ·) enc.eI [3, 6]⟩ ∧
    encrypt (bls Demo.curve) .debug64 5 [4] Demo.mk.pubKey 11 = .ok ⟨[4], enc.ePrime, enc.eI.tail⟩ := by
  obtain ⟨enc, h⟩ : ∃ enc, encrypt (bls Demo.curve) .debug64 5 [1, 4] Demo.mk.pubKey 11 = .ok enc :=
    Demo.exists_of_isOk (by decide +kernel)
  have h2 : encrypt (bls Demo.curve) .debug64 2 [1, 4] Demo.mk.pubKey 1 = .ok ⟨[1, 4], 5, [3, 6]⟩ := by decide +kernel
  have hg : enc.gamma = [1, 4] := by
    unfold encrypt at h
    split at h
    · obtain ⟨_, _, h⟩ := Res.bind_eq_ok.1 h; simp at h
    · obtain ⟨_, _, h⟩ := Res.bind_eq_ok.1 h
      rw [Res.ok.injEq] at h
      rw [← h]
  have h3 := C62_removal Demo.curve .debug64 Demo.mk_eq h 0
  rw [hg, List.eraseIdx_zero, List.eraseIdx_zero] at h3
  exact ⟨enc, h, C62_homomorphic Demo.curve .debug64 Demo.mk_eq h h2, h3⟩

/-- A key of the demo opens the shifted ciphertext to the shifted message. -/
example (key : DecryptionKey ℚ ℚ ℚ) (enc : CipherText ℚ ℚ) (h : decrypt (bls Demo.curve) enc key = .ok (some 5)) :
    decrypt (bls Demo.curve) { enc with ePrime := enc.ePrime + 7 } key = .ok (some (5 + 7)) :=
  (C62_shift Demo.curve enc key 7).1 5 h

/-! ### C63 -/

/-- Decryption with a key made with the private scalars `tI'` of a ciphertext made with the private scalars `tI`. -/
theorem decrypt_foreign (c : Curve K P Q QP T) {F : Node} {msp : Msp Int} (h : MspFor F msp) (tI tI' : List K) (lam : UInt32 → K)
    (gamma : List UInt32) :
    ∃ z : K, ∀ (y s : K) (msg : T),
      ((F.Sat (· ∈ gamma) → decrypt (bls c) (ctOf c tI y s msg gamma) (keyOf c tI' msp lam) =
        .ok (some (msg + (s * (y - z)) • c.genT))) ∧
      (¬ F.Sat (· ∈ gamma) → ∀ m, decrypt (bls c) (ctOf c tI y s msg gamma) (keyOf c tI' msp lam) ≠ .ok (some m))) := by
  set l := gamma.filter (· ∈ F.leaves) with hl
  have hlF : ∀ a ∈ l, a ∈ F.leaves := by intro a ha; simp [hl] at ha; exact ha.2
  have hsat : F.Sat (· ∈ l) ↔ F.Sat (· ∈ gamma) := by
    apply Node.sat_congr; intro a ha; simp [hl, ha]
  have hdec : ∀ (y s : K) (msg : T), decrypt (bls c) (ctOf c tI y s msg gamma) (keyOf c tI' msp lam) = (do
      let coefs ← spanCoefs (l.map fun a => (rowOf msp a).map fun n : Int => (n : K))
      match coefs with
      | none => .ok none
      | some a => do
        let d ← keepNonZero a (l.map fun a => c.prepare ((lam a * (tOf tI' a)⁻¹) • c.genQ)) 0
        let e ← keepNonZero a (l.map fun a => (s * tOf tI a) • c.genP) 0
        let a' := a.filter fun ai => ai ≠ 0
        let prod := (bls c).prodGtExp d e a'
        .ok (some (msg + (s * y) • c.genT - prod)) : Out (Option T)) := by
    intro y s msg
    have hsel := selectRows_ok c h tI' lam (ctOf c tI y s msg gamma) (fun a => (s * tOf tI a) • c.genP) gamma 0 (by
      intro j a hj; simp [ctOf, hj])
    unfold decrypt
    rw [show (ctOf c tI y s msg gamma).gamma = gamma from rfl, hsel]
    simp only [Res.ok_bind, List.map_map, Function.comp_def]
    rfl
  have hrect : Rect (l.map fun a => (rowOf msp a).map fun n : Int => (n : K)) msp.nbCol := by
    intro col hcol
    obtain ⟨a, ha, rfl⟩ := List.mem_map.1 hcol
    rw [List.length_map, h.rowOf_length (hlF a ha)]
  by_cases hne : (l.map fun a => (rowOf msp a).map fun n : Int => (n : K)) = []
  · refine ⟨0, fun y s msg => ⟨fun hS => ?_, fun _ m => ?_⟩⟩
    · obtain ⟨a, _, h2⟩ := Node.sat_leaf (hsat.2 hS)
      rw [List.map_eq_nil_iff] at hne
      rw [hne] at h2; simp at h2
    · rw [hdec, hne]
      intro h0
      obtain ⟨_, h1, _⟩ := Res.bind_eq_ok.1 h0
      simp [spanCoefs] at h1
  rcases spanCoefs_spec hne h.nbCol_pos hrect with ⟨x, h1, h2, h3⟩ | ⟨h1, h2⟩
  · rw [List.length_map] at h2
    refine ⟨((l.zip x).map fun p => p.2 * (tOf tI p.1 * (lam p.1 * (tOf tI' p.1)⁻¹))).sum, fun y s msg => ⟨fun _ => ?_, fun hn => ?_⟩⟩
    · rw [hdec, h1]
      simp only [Res.ok_bind]
      rw [keepNonZero_ok _ x l 0 (by omega), keepNonZero_ok _ x l 0 (by omega)]
      simp only [Res.ok_bind, List.drop_zero]
      rw [filter_zip_snd l x h2, prodGtExp_ok c (fun a => (lam a * (tOf tI' a)⁻¹) • c.genQ)
        (fun a => (s * tOf tI a) • c.genP), sum_filter_ne_zero (l.zip x)
        (fun a => c.pair ((s * tOf tI a) • c.genP) ((lam a * (tOf tI' a)⁻¹) • c.genQ))]
      have hfac : ((l.zip x).map fun p => p.2 • c.pair ((s * tOf tI p.1) • c.genP) ((lam p.1 * (tOf tI' p.1)⁻¹) • c.genQ)).sum =
          (s * ((l.zip x).map fun p => p.2 * (tOf tI p.1 * (lam p.1 * (tOf tI' p.1)⁻¹))).sum) • c.genT := by
        generalize l.zip x = z
        induction z with
        | nil => simp
        | cons p z ih =>
          rw [List.map_cons, List.map_cons, List.sum_cons, List.sum_cons, ih, mul_add, add_smul, map_smul, map_smul,
            LinearMap.smul_apply, ← c.genT_eq, smul_smul, smul_smul]
          congr 2
          ring
      rw [hfac, mul_sub, sub_smul]
      congr 2
      abel
    · exact absurd (hsat.1 ((h.span_iff l hlF).1 ⟨_, h3⟩)) hn
  · refine ⟨0, fun y s msg => ⟨fun hS => ?_, fun _ m => ?_⟩⟩
    · exact absurd ((h.span_iff (K := K) l hlF).2 (hsat.2 hS)) (not_exists.2 h2)
    · rw [hdec, h1]; simp

/-- **C63.** Keys of another authority. For a key made by one authority (from the master key `mk'`) and the private scalars of another one
(drawn from `rnd`), there is a single secret `z` such that the key opens the ciphertexts of the second authority: with secret `y`, an
authorised ciphertext for the values `gamma` is decrypted to the message shifted by `s * (y - z)` times the generator. An unauthorised
one is not decrypted at all. -/
theorem C63_foreign_key (c : Curve K P Q QP T) {p : Policy} (hw : p.WF) {rnd' : Nat → K} {y' : K} {mk' : MasterKey K P Q T}
    (hmk' : engineGenerateMasterKey (bls c) p rnd' y' = .ok mk') {ap : AccessPolicy} {key : DecryptionKey K QP Q}
    (hkey : UserKey c p mk' ap key) (rnd : Nat → K) (size : Nat) (gamma : List UInt32) :
    ∃ z : K, ∀ (y : K) (mk : MasterKey K P Q T), generateMasterKey (bls c) size rnd y = .ok mk →
      ∀ (t : Target) (s : K) (msg : T) (ct : CipherText P T), encrypt (bls c) t msg gamma mk.pubKey s = .ok ct →
        (ap.Sat p (fun b => ∃ v, p.HasValue b v ∧ v ∈ gamma) →
          engineDecrypt (bls c) ct key = .ok (some (msg + (s * (y - z)) • c.genT)) ∧
          (engineDecrypt (bls c) ct key = .ok (some msg) ↔ s = 0 ∨ y = z)) ∧
        (¬ ap.Sat p (fun b => ∃ v, p.HasValue b v ∧ v ∈ gamma) → ∀ m, engineDecrypt (bls c) ct key ≠ .ok (some m)) := by
  obtain ⟨tI', _, hnz', rfl⟩ := generateMasterKey_inv c hmk'
  obtain ⟨F, msp, lam, hk⟩ := userKey_ok c hw hnz' hkey
  obtain ⟨z, hz⟩ := decrypt_foreign c hk.mspFor (genScalars rnd size) tI' lam gamma
  refine ⟨z, fun y mk hmk t s msg ct hct => ?_⟩
  have htI : mk.pubKey = pubOf c (genScalars rnd size) y := by
    by_cases h0 : ∃ i < size, rnd i = 0
    · rw [generateMasterKey_panic c size rnd y h0] at hmk; simp at hmk
    · push Not at h0
      rw [generateMasterKey_ok c size rnd y h0, Res.ok.injEq] at hmk
      rw [← hmk]
  rw [htI] at hct
  have hct' : ct = ctOf c (genScalars rnd size) y s msg gamma := by
    rcases encrypt_cases c t (genScalars rnd size) y s msg gamma with ⟨_, _, g⟩ | g | ⟨_, _, g⟩ | ⟨_, _, g⟩
    · rw [g] at hct; simp at hct
    · exfalso
      unfold encrypt at hct
      simp only [pubOf, List.length_map, g, Nat.zero_le, if_true] at hct
      obtain ⟨_, _, h⟩ := Res.bind_eq_ok.1 hct
      simp at h
    · rw [g, Res.ok.injEq] at hct; exact hct.symm
    · rw [g] at hct; simp at hct
  subst hct'
  obtain ⟨h1, h2⟩ := hz y s msg
  unfold engineDecrypt
  rw [hk.key_eq]
  refine ⟨fun hs => ?_, fun hs => h2 fun h => hs ((hk.form.sat _).1 h)⟩
  have h3 := h1 ((hk.form.sat _).2 hs)
  refine ⟨h3, ?_⟩
  rw [h3, Res.ok.injEq, Option.some.injEq, add_eq_left, smul_eq_zero, mul_eq_zero, sub_eq_zero]
  simp [c.genT_ne_zero]

/-- The demo key (scalars 2, 3, ...) and an authority with scalars 1, 2, ...: the values 1 and 4 satisfy the access policy of the key. -/
example : ∃ key, UserKey Demo.curve Demo.policy Demo.mk Demo.ap key ∧
    Demo.ap.Sat Demo.policy (fun b => ∃ v, Demo.policy.HasValue b v ∧ v ∈ [(1 : UInt32), 4]) ∧
    ∃ z : ℚ, ∀ y mk, generateMasterKey (bls Demo.curve) 8 (fun i => (i : ℚ) + 1) y = .ok mk → ∀ s ct,
      encrypt (bls Demo.curve) .debug64 5 [1, 4] mk.pubKey s = .ok ct →
        (engineDecrypt (bls Demo.curve) ct key = .ok (some 5) ↔ s = 0 ∨ y = z) := by
  obtain ⟨key, hk⟩ := Demo.key_exists
  have hs : Demo.ap.Sat Demo.policy (fun b => ∃ v, Demo.policy.HasValue b v ∧ v ∈ [(1 : UInt32), 4]) := by
    refine ⟨⟨Demo.low, ⟨["Low"], [], true, by decide +kernel, by decide +kernel, rfl, Or.inr ⟨rfl, by decide +kernel⟩⟩, 1,
      ⟨[1], by decide +kernel, by decide⟩, by decide⟩, Or.inl ⟨Demo.hr, ?_, 4, ⟨[4], by decide +kernel, by decide⟩, by decide⟩⟩
    exact ⟨["RnD"], ["MKG"], false, by decide +kernel, by decide +kernel, rfl, Or.inl rfl⟩
  have hkey : UserKey Demo.curve Demo.policy Demo.mk Demo.ap key := .generate Demo.draws hk
  obtain ⟨z, hz⟩ := C63_foreign_key Demo.curve (reachable_wf Demo.policy_reachable) Demo.mk_eq hkey (fun i => (i : ℚ) + 1) 8 [1, 4]
  exact ⟨key, hkey, hs, z, fun y mk hmk s ct hct => ((hz y mk hmk .debug64 s 5 ct hct).1 hs).2⟩

end Abe
