import Verif.Props.Codec

/-!
# Decoding on different builds

Properties C68 and C69: the inputs on which decoding a key or a ciphertext panics, for every target of at least 32 bits, and
the agreement of all builds on the accepted inputs.  The requests for memory are the subject of C70.
-/

namespace Abe

set_option linter.unusedSectionVars false

section
variable {α : Type} {t t' : Target} {c : Codec α} {n : Nat}

theorem vecDec_nil : vecDec t c [] = .ok [] := rfl

/-- The length of the bytes consumed by an accepted vector. -/
theorem vecDec_consumed (h : c.Fixed n) {b : Bytes} (hne : b ≠ []) (hB : b.length + n < t.modulus) {l : List α}
    (hd : vecDec t c b = .ok l) : l ≠ [] ∧ vecLen c l = 4 + n * l.length ∧ vecLen c l ≤ b.length := by
  obtain ⟨h1, _, x, hx, ⟨h2, rest, h3, rfl⟩ | ⟨h2, _, h4, h5, rfl⟩⟩ := (vecDec_ok_iff h hne hB).1 hd
  · have hl := dec_long h (by omega) hx
    obtain ⟨g1, g2, _⟩ := readSeq_inv h hl h3
    refine ⟨by simp, by rw [vecLen_eq h (by simp), Nat.mul_comm], ?_⟩
    rw [vecLen_eq h (by simp), List.length_cons, g1, Nat.add_mul]
    omega
  · have hl := dec_long h (by omega) hx
    exact ⟨by simp, by rw [vecLen_eq h (by simp), Nat.mul_comm], by rw [vecLen_eq h (by simp)]; simpa using hl⟩

theorem vecDec_agree (h : c.Fixed n) (hn : n ≤ 2 ^ 30) {b : Bytes} (hB : InSlice t b) (hB' : InSlice t' b)
    (hz : t.checked = t'.checked ∨ 4 < n ∨ ofBe32 b ≠ 0) (l : List α) : vecDec t c b = .ok l ↔ vecDec t' c b = .ok l := by
  by_cases hne : b = []
  · subst hne; rfl
  · rw [vecDec_ok_iff h hne (hB.add_lt hn), vecDec_ok_iff h hne (hB'.add_lt hn)]
    rcases hz with hz | hz | hz
    · rw [hz]
    · have : ¬ n ≤ 4 := by omega
      simp only [this, false_and, and_false, or_false]
    · simp only [hz, false_and, or_false]

theorem mspDec_agree (h : c.Fixed n) {b : Bytes} (hB : InSlice t b) (hB' : InSlice t' b) (m : Msp α) :
    mspDec t c b = .ok m ↔ mspDec t' c b = .ok m := by
  rw [mspDec_ok_iff h (hB.add_lt (by decide)), mspDec_ok_iff h (hB'.add_lt (by decide))]

theorem bind_agree {β : Type} {x y : Out α} {f g : α → Out β} (hx : ∀ a, x = .ok a ↔ y = .ok a) (hf : ∀ a, x = .ok a → ∀ b, f a = .ok b ↔ g a = .ok b)
    (b : β) : (x >>= f) = .ok b ↔ (y >>= g) = .ok b := by
  rw [Res.bind_eq_ok, Res.bind_eq_ok]
  constructor
  · rintro ⟨a, h1, h2⟩; exact ⟨a, (hx a).1 h1, (hf a h1 b).1 h2⟩
  · rintro ⟨a, h1, h2⟩; exact ⟨a, (hx a).2 h1, (hf a ((hx a).2 h1) b).2 h2⟩

end

section
variable {K G1 G2 G3 Gt : Type} {t t' : Target} {cs : Codecs K G2 G3 Gt}

/-- **C68.** On every target, the inputs on which decoding a key or a ciphertext panics. -/
theorem C68_decode_panics (h : cs.Lawful) (bm : BilinearMap K G1 G2 G3 Gt) (b : Bytes) (hB : InSlice t b) :
    ((privKeyCodec t cs).dec b = .panic ↔ VecPanics t cs.scalar 32 b) ∧
    ((pubKeyCodec t cs).dec b = .panic ↔ VecPanics t cs.g2 48 b) ∧
    ((delKeyCodec t cs).dec b = .panic ↔ VecPanics t cs.g3 96 b) ∧
    ((userKeyCodec t cs bm).dec b = .panic ↔ UserKeyPanics t cs b) ∧
    ((cipherTextCodec t cs).dec b = .panic ↔ CipherTextPanics t cs b) := by
  have hv32 := (C23_vec_decode_panic h.scalar (by decide) b hB).1
  have hv48 := (C23_vec_decode_panic h.g2 (by decide) b hB).1
  have hv96 := (C23_vec_decode_panic h.g3 (by decide) b hB).1
  have hv4 := (C23_vec_decode_panic u32Codec_fixed (by decide) b hB).1
  refine ⟨?_, ?_, ?_, ?_, ?_⟩
  · rw [← hv32]
    simp only [privKeyCodec]
    cases hd : vecDec t cs.scalar b with
    | panic => simp
    | err e => simp
    | ok l =>
      have hle : vecLen cs.scalar l ≤ b.length := by
        by_cases hne : b = []
        · subst hne
          simp only [vecDec_nil, Res.ok.injEq] at hd
          subst hd; simp [vecLen]
        · exact (vecDec_consumed h.scalar hne (hB.add_lt (by decide)) hd).2.2
      simp only [Res.ok_bind, sliceFrom_ok hle]
      cases hy : cs.scalar.dec (b.drop (vecLen cs.scalar l)) with
      | panic => exact absurd hy (h.scalar.total _)
      | err e => simp
      | ok y => simp
  · rw [← hv48]
    simp only [pubKeyCodec]
    cases hd : vecDec t cs.g2 b with
    | panic => simp
    | err e => simp
    | ok l =>
      have hle : vecLen cs.g2 l ≤ b.length := by
        by_cases hne : b = []
        · subst hne
          simp only [vecDec_nil, Res.ok.injEq] at hd
          subst hd; simp [vecLen]
        · exact (vecDec_consumed h.g2 hne (hB.add_lt (by decide)) hd).2.2
      simp only [Res.ok_bind, sliceFrom_ok hle]
      cases hy : cs.gt.dec (b.drop (vecLen cs.g2 l)) with
      | panic => exact absurd hy (h.gt.total _)
      | err e => simp
      | ok y => simp
  · rw [← hv96]
    simp only [delKeyCodec]
    cases hd : vecDec t cs.g3 b <;> simp
  · unfold UserKeyPanics
    rw [← hv96]
    simp only [userKeyCodec]
    by_cases hne : b = []
    · subst hne
      simp [vecDec_nil]
    · rw [if_neg (by simpa using hne)]
      cases hd : vecDec t cs.g3 b with
      | panic => simp
      | err e => simp
      | ok l =>
        obtain ⟨hl, hlen, hle⟩ := vecDec_consumed h.g3 hne (hB.add_lt (by decide)) hd
        obtain ⟨_, hcnt, _⟩ := vecDec_canon h.g3 hne (hB.add_lt (by decide)) (Or.inr (by decide)) hd
        simp only [Res.ok_bind, sliceFrom_ok hle, reduceCtorEq, false_or, Res.ok.injEq, exists_eq_right', ne_eq, hl, not_false_eq_true,
          true_and]
        rw [← hcnt, ← hlen, ← (C27_matrix h.scalar (b.drop (vecLen cs.g3 l)) (hB.drop _)).2.2.2]
        cases hm : mspDec t cs.scalar (b.drop (vecLen cs.g3 l)) <;> simp
  · unfold CipherTextPanics
    rw [← hv4]
    simp only [cipherTextCodec]
    have tail : ∀ l : List UInt32, vecLen u32Codec l ≤ b.length →
        ((do let rest ← sliceFrom b (vecLen u32Codec l)
             let eI ← vecDec t cs.g2 rest
             let rest' ← sliceFrom b (vecLen u32Codec l + vecLen cs.g2 eI)
             let ePrime ← cs.gt.dec rest'
             (.ok ⟨l, ePrime, eI⟩ : Out (CipherText G2 Gt))) = .panic ↔ VecPanics t cs.g2 48 (b.drop (vecLen u32Codec l))) := by
      intro l hle
      rw [sliceFrom_ok hle, Res.ok_bind, ← (C23_vec_decode_panic h.g2 (by decide) _ (hB.drop _)).1]
      cases he : vecDec t cs.g2 (b.drop (vecLen u32Codec l)) with
      | panic => simp
      | err e => simp
      | ok eI =>
        have hle' : vecLen u32Codec l + vecLen cs.g2 eI ≤ b.length := by
          by_cases hne' : b.drop (vecLen u32Codec l) = []
          · rw [hne'] at he
            simp only [vecDec_nil, Res.ok.injEq] at he
            subst he
            simpa [vecLen] using hle
          · have := (vecDec_consumed h.g2 hne' ((hB.drop _).add_lt (by decide)) he).2.2
            rw [List.length_drop] at this
            omega
        simp only [Res.ok_bind, sliceFrom_ok hle', reduceCtorEq, iff_false]
        cases hy : cs.gt.dec (b.drop (vecLen u32Codec l + vecLen cs.g2 eI)) with
        | panic => exact absurd hy (h.gt.total _)
        | err e => simp
        | ok y => simp
    by_cases hne : b = []
    · subst hne
      have := tail [] (by simp [vecLen])
      simp only [vecDec_nil, Res.ok_bind, reduceCtorEq, false_or, Res.ok.injEq] at this ⊢
      rw [this]
      constructor
      · intro hp; exact absurd hp.2.1 (by simp)
      · rintro ⟨l, h1, h2, _⟩; exact absurd h2.symm h1
    · cases hd : vecDec t u32Codec b with
      | panic => simp
      | err e => simp
      | ok l =>
        obtain ⟨hl, hlen, hle⟩ := vecDec_consumed u32Codec_fixed hne (hB.add_lt (by decide)) hd
        simp only [Res.ok_bind, reduceCtorEq, false_or, Res.ok.injEq]
        rw [tail l hle, hlen]
        constructor
        · intro hp; exact ⟨l, hl, rfl, hp⟩
        · rintro ⟨_, _, rfl, hp⟩; exact hp

/-- **C68** without overflow checks: no input makes the decoding of a master key, a delegation key or a ciphertext panic, and on targets
of at least 64 bits none makes the decoding of a user key panic. -/
theorem C68_release (h : cs.Lawful) (bm : BilinearMap K G1 G2 G3 Gt) (hc : t.checked = false) (b : Bytes) (hB : InSlice t b) :
    (privKeyCodec t cs).dec b ≠ .panic ∧ (pubKeyCodec t cs).dec b ≠ .panic ∧ (delKeyCodec t cs).dec b ≠ .panic ∧
    (cipherTextCodec t cs).dec b ≠ .panic ∧ (64 ≤ t.bits → (userKeyCodec t cs bm).dec b ≠ .panic) := by
  obtain ⟨h1, h2, h3, h4, h5⟩ := C68_decode_panics h bm b hB
  have hno : ∀ {α : Type} (c : Codec α) n b', ¬ VecPanics t c n b' := by
    rintro α c n b' ⟨hp, _⟩
    rw [hc] at hp; simp at hp
  refine ⟨fun hp => hno _ _ _ (h1.1 hp), fun hp => hno _ _ _ (h2.1 hp), fun hp => hno _ _ _ (h3.1 hp), fun hp => ?_, fun ht hp => ?_⟩
  · rcases h5.1 hp with hp | ⟨_, _, _, hp⟩
    · exact hno _ _ _ hp
    · exact hno _ _ _ hp
  · rcases h4.1 hp with hp | ⟨_, hp⟩
    · exact hno _ _ _ hp
    · exact C27_matrix_no_panic ht h.scalar (by decide) _ (hB.drop _) (Or.inl hc) ((C27_matrix h.scalar _ (hB.drop _)).2.2.2.2 hp)

/-- **C68** on the wasm build without overflow checks, refutation: any group element followed by eight chosen bytes is a user key of 108 bytes
whose decoding panics. -/
theorem C68_wasm_refuted (h : cs.Lawful) (bm : BilinearMap K G1 G2 G3 Gt) (x : G3) :
    ∃ b : Bytes, b.length = 108 ∧ (userKeyCodec .release32 cs bm).dec b = .panic := by
  obtain ⟨bx, h1, h2⟩ := h.g3.enc x
  refine ⟨be32 1 ++ bx ++ [64, 0, 0, 0, 0, 0, 0, 1], by simp [be32_length, h2], ?_⟩
  have hv : vecEnc cs.g3 [x] = .ok (be32 1 ++ bx) := by simp [vecEnc, u32TryFrom, mapRes, h1]
  have hd := vecDec_round (t := .release32) h.g3 (by simp) (by simp) hv [64, 0, 0, 0, 0, 0, 0, 1] (by
    rw [List.length_append, be32_length, h2]; decide)
  simp only [userKeyCodec]
  rw [if_neg (by simp [be32]), hd, Res.ok_bind, vecLen_eq h.g3 (by simp), sliceFrom_ok (by simp [be32_length, h2]), Res.ok_bind,
    List.drop_left' (by simp [be32_length, h2]), C27_matrix_wasm_refuted h.scalar]
  rfl

/-- A ciphertext whose announced number of labels is zero: accepted without overflow checks, a panic with them. -/
example : (∃ x, (cipherTextCodec .release32 Demo.codecs).dec (be32 0 ++ be32 4 ++ be32 1 ++ leBytes 48 5 ++ leBytes 288 3) = .ok x) ∧
    CipherTextPanics .debug32 Demo.codecs (be32 0 ++ be32 4 ++ be32 1 ++ leBytes 48 5 ++ leBytes 288 3) :=
  ⟨Demo.exists_of_isOk (by decide +kernel),
    (C68_decode_panics (t := .debug32) Demo.codecs_lawful (bls Demo.curveF) _ ⟨by decide, by decide +kernel⟩).2.2.2.2.1 (by decide +kernel)⟩

/-- Random-looking bytes do not panic in release builds. -/
example : (cipherTextCodec .release32 Demo.codecs).dec [255, 255, 255, 254, 1, 2, 3, 4, 5] ≠ .panic ∧
    (userKeyCodec .release64 Demo.codecs (bls Demo.curveF)).dec [255, 255, 255, 254, 1, 2, 3, 4, 5] ≠ .panic :=
  ⟨(C68_release (t := .release32) Demo.codecs_lawful (bls Demo.curveF) rfl _ ⟨by decide, by decide⟩).2.2.2.1,
    (C68_release (t := .release64) Demo.codecs_lawful (bls Demo.curveF) rfl _ ⟨by decide, by decide⟩).2.2.2.2 (by decide)⟩

/-- A crafted user key for the demonstration codecs. -/
example : ∃ b : Bytes, b.length = 108 ∧ (userKeyCodec .release32 Demo.codecs (bls Demo.curveF)).dec b = .panic :=
  C68_wasm_refuted Demo.codecs_lawful (bls Demo.curveF) 7

/-- **C69.** Two builds accept the same keys, with the same result, whatever their pointer widths and overflow checks; they accept the same
ciphertexts if both or neither of them have overflow checks, or if the announced number of labels is not zero; in any case a
ciphertext accepted by a build with overflow checks is accepted by the others. -/
theorem C69_builds_agree (h : cs.Lawful) (bm : BilinearMap K G1 G2 G3 Gt) (b : Bytes) (hB : InSlice t b) (hB' : InSlice t' b) :
    (∀ k, (privKeyCodec t cs).dec b = .ok k ↔ (privKeyCodec t' cs).dec b = .ok k) ∧
    (∀ k, (pubKeyCodec t cs).dec b = .ok k ↔ (pubKeyCodec t' cs).dec b = .ok k) ∧
    (∀ k, (delKeyCodec t cs).dec b = .ok k ↔ (delKeyCodec t' cs).dec b = .ok k) ∧
    (∀ k, (userKeyCodec t cs bm).dec b = .ok k ↔ (userKeyCodec t' cs bm).dec b = .ok k) ∧
    (t.checked = t'.checked ∨ ofBe32 b ≠ 0 → ∀ x, (cipherTextCodec t cs).dec b = .ok x ↔ (cipherTextCodec t' cs).dec b = .ok x) ∧
    (t'.checked = false → ∀ x, (cipherTextCodec t cs).dec b = .ok x → (cipherTextCodec t' cs).dec b = .ok x) := by
  have ct : t.checked = t'.checked ∨ ofBe32 b ≠ 0 →
      ∀ x, (cipherTextCodec t cs).dec b = .ok x ↔ (cipherTextCodec t' cs).dec b = .ok x := by
    intro hz
    simp only [cipherTextCodec]
    refine bind_agree (vecDec_agree u32Codec_fixed (by decide) hB hB' (hz.imp_right Or.inr)) fun l _ => ?_
    refine bind_agree (fun _ => Iff.rfl) fun r hr => ?_
    obtain ⟨_, rfl⟩ := sliceFrom_inv hr
    exact bind_agree (vecDec_agree h.g2 (by decide) (hB.drop _) (hB'.drop _) (Or.inr (Or.inl (by decide)))) fun _ _ _ => Iff.rfl
  refine ⟨?_, ?_, ?_, ?_, ct, fun hc x hx => ?_⟩
  · simp only [privKeyCodec]
    exact bind_agree (vecDec_agree h.scalar (by decide) hB hB' (Or.inr (Or.inl (by decide)))) fun _ _ _ => Iff.rfl
  · simp only [pubKeyCodec]
    exact bind_agree (vecDec_agree h.g2 (by decide) hB hB' (Or.inr (Or.inl (by decide)))) fun _ _ _ => Iff.rfl
  · simp only [delKeyCodec]
    exact bind_agree (vecDec_agree h.g3 (by decide) hB hB' (Or.inr (Or.inl (by decide)))) fun _ _ _ => Iff.rfl
  · intro k
    simp only [userKeyCodec]
    split
    · rfl
    · refine bind_agree (vecDec_agree h.g3 (by decide) hB hB' (Or.inr (Or.inl (by decide)))) (fun l _ => ?_) k
      refine bind_agree (fun _ => Iff.rfl) fun r hr => ?_
      obtain ⟨_, rfl⟩ := sliceFrom_inv hr
      exact bind_agree (mspDec_agree h.scalar (hB.drop _) (hB'.drop _)) fun _ _ _ => Iff.rfl
  · cases htc : t.checked with
    | false => exact (ct (Or.inl (by rw [htc, hc])) x).1 hx
    | true =>
      by_cases hz : ofBe32 b = 0
      · exfalso
        simp only [cipherTextCodec] at hx
        obtain ⟨l, hl, hx⟩ := Res.bind_eq_ok.1 hx
        by_cases hne : b = []
        · subst hne
          rw [vecDec_nil] at hl
          simp only [Res.ok.injEq] at hl
          subst hl
          obtain ⟨r, hr, hx⟩ := Res.bind_eq_ok.1 hx
          obtain ⟨_, rfl⟩ := sliceFrom_inv hr
          obtain ⟨eI, he, hx⟩ := Res.bind_eq_ok.1 hx
          obtain ⟨r', hr', hx⟩ := Res.bind_eq_ok.1 hx
          obtain ⟨_, rfl⟩ := sliceFrom_inv hr'
          obtain ⟨y, hy, _⟩ := Res.bind_eq_ok.1 hx
          obtain ⟨e, he⟩ := h.gt.short (List.drop (vecLen u32Codec [] + vecLen cs.g2 eI) []) (by simp)
          rw [he] at hy; simp at hy
        · obtain ⟨_, _, _, _, ⟨h0, _⟩ | ⟨_, h0, _⟩⟩ := (vecDec_ok_iff u32Codec_fixed hne (hB.add_lt (by decide))).1 hl
          · exact h0 hz
          · rw [htc] at h0; simp at h0
      · exact (ct (Or.inr hz) x).1 hx

/-- A private key and a ciphertext on the wasm build and on the 64-bit build with overflow checks. -/
example : (∃ k, (privKeyCodec .release32 Demo.codecs).dec (be32 1 ++ leBytes 32 5 ++ leBytes 32 6) = .ok k ∧
      (privKeyCodec .debug64 Demo.codecs).dec (be32 1 ++ leBytes 32 5 ++ leBytes 32 6) = .ok k) ∧
    ∃ x, (cipherTextCodec .debug64 Demo.codecs).dec (be32 1 ++ be32 4 ++ be32 1 ++ leBytes 48 5 ++ leBytes 288 3) = .ok x ∧
      (cipherTextCodec .release32 Demo.codecs).dec (be32 1 ++ be32 4 ++ be32 1 ++ leBytes 48 5 ++ leBytes 288 3) = .ok x := by
  constructor
  · obtain ⟨k, hk⟩ : ∃ k, (privKeyCodec .release32 Demo.codecs).dec (be32 1 ++ leBytes 32 5 ++ leBytes 32 6) = .ok k :=
      Demo.exists_of_isOk (by decide +kernel)
    exact ⟨k, hk, ((C69_builds_agree (t := .release32) (t' := .debug64) Demo.codecs_lawful (bls Demo.curveF) _
      ⟨by decide, by decide +kernel⟩ ⟨by decide, by decide +kernel⟩).1 k).1 hk⟩
  · obtain ⟨x, hx⟩ : ∃ x, (cipherTextCodec .debug64 Demo.codecs).dec (be32 1 ++ be32 4 ++ be32 1 ++ leBytes 48 5 ++ leBytes 288 3) = .ok x :=
      Demo.exists_of_isOk (by decide +kernel)
    exact ⟨x, hx, (C69_builds_agree (t := .debug64) (t' := .release32) Demo.codecs_lawful (bls Demo.curveF) _
      ⟨by decide, by decide +kernel⟩ ⟨by decide, by decide +kernel⟩).2.2.2.2.2 rfl x hx⟩

end

end Abe
