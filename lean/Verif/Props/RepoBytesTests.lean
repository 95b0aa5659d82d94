import Verif.Model.RepoBytesTests
import Verif.Props.RepoTests
import Verif.Props.Show
import Verif.Props.Hybrid
import Verif.Proofs.Py

/-!
# More tests of the repository pass

Property C74, continued: the tests on text, bytes and headers succeed on every target, for every outcome of the random generator (except a zero scalar in
the master key).
-/

namespace Abe

set_option linter.unusedSectionVars false

/-! ### Text -/

theorem parse_all {s : List Char} (hs : s.length < 2 ^ 31) {F : Node} (h : Node.parse .release64 s = .ok F) (t : Target) : Node.parse t s = .ok F :=
  (C41_grammar t s hs F).2 ((C41_grammar .release64 s hs F).1 h)

theorem parse_all_err {s : List Char} (hs : s.length < 2 ^ 31) (h : (Node.parse .release64 s).isErr) (t : Target) : ∃ e, Node.parse t s = .err e := by
  cases ht : Node.parse t s with
  | ok n =>
    have := (C41_grammar .release64 s hs n).2 ((C41_grammar t s hs n).1 ht)
    rw [this] at h
    simp [Res.isErr] at h
  | err e => exact ⟨e, rfl⟩
  | panic => exact absurd ht (C41_total t s hs).1

theorem mspParse_all {s : List Char} (hs : s.length < 2 ^ 31) {F : Node} (h : Node.parse .release64 s = .ok F) (t : Target) : Msp.parse t s = F.toMsp := by
  unfold Msp.parse
  rw [parse_all hs h t]
  rfl

/-- **C74**, the tests of span programs: they succeed on every target, and those that should panic do. -/
theorem C74_span_programs (t : Target) :
    RepoMsp.parsing t = .ok () ∧ RepoMsp.equality t = .ok () ∧ RepoMsp.parsingMulti t = .ok () ∧ RepoMsp.parsingFail t = .ok () ∧
    RepoMsp.withFailures t = .panic ∧ RepoMsp.badFormula t = .panic ∧ RepoMsp.alreadyInserted t = .panic := by
  have p1 : Msp.parse t "1 & (4 | (2 & 3))".toList = testFormula.toMsp := mspParse_all (by decide) (by decide +kernel) t
  refine ⟨?_, ?_, ?_, ?_, ?_, ?_, ?_⟩
  · unfold RepoMsp.parsing
    rw [mspParse_all (s := "1".toList) (by decide) (F := .leaf 1) (by decide +kernel) t,
      mspParse_all (s := "1&2".toList) (by decide) (F := .and (.leaf 1) (.leaf 2)) (by decide +kernel) t,
      mspParse_all (s := " 1 | 2 ".toList) (by decide) (F := .or (.leaf 1) (.leaf 2)) (by decide +kernel) t,
      mspParse_all (s := "(1&2)".toList) (by decide) (F := .and (.leaf 1) (.leaf 2)) (by decide +kernel) t,
      mspParse_all (s := "((1&2))".toList) (by decide) (F := .and (.leaf 1) (.leaf 2)) (by decide +kernel) t,
      mspParse_all (s := "((1)&(2))".toList) (by decide) (F := .and (.leaf 1) (.leaf 2)) (by decide +kernel) t,
      mspParse_all (s := "((1))&((2))".toList) (by decide) (F := .and (.leaf 1) (.leaf 2)) (by decide +kernel) t,
      mspParse_all (s := "(((1))&((2)))".toList) (by decide) (F := .and (.leaf 1) (.leaf 2)) (by decide +kernel) t, p1]
    decide +kernel
  · unfold RepoMsp.equality
    rw [mspParse_all (s := "1 & 2".toList) (by decide) (F := .and (.leaf 1) (.leaf 2)) (by decide +kernel) t,
      mspParse_all (s := "1&2".toList) (by decide) (F := .and (.leaf 1) (.leaf 2)) (by decide +kernel) t,
      mspParse_all (s := "1|2".toList) (by decide) (F := .or (.leaf 1) (.leaf 2)) (by decide +kernel) t, p1]
    decide +kernel
  · unfold RepoMsp.parsingMulti
    rw [parse_all (s := "1 & (4 | (2 & 3))".toList) (by decide) (F := testFormula) (by decide +kernel) t,
      parse_all (s := "(1 & 2) | (2 & 3)".toList) (by decide) (F := .or (.and (.leaf 1) (.leaf 2)) (.and (.leaf 2) (.leaf 3))) (by decide +kernel) t,
      parse_all (s := "1 | 2".toList) (by decide) (F := .or (.leaf 1) (.leaf 2)) (by decide +kernel) t,
      parse_all (s := "1 | (2 & 3)".toList) (by decide) (F := .or (.leaf 1) (.and (.leaf 2) (.leaf 3))) (by decide +kernel) t,
      parse_all (s := "(1 & 2) | 3".toList) (by decide) (F := .or (.and (.leaf 1) (.leaf 2)) (.leaf 3)) (by decide +kernel) t]
    rfl
  · obtain ⟨e1, h1⟩ := parse_all_err (s := "1 & 4 | (2 & 3))".toList) (by decide) (by decide +kernel) t
    obtain ⟨e2, h2⟩ := parse_all_err (s := "(1 & 2)  (2 & 3)".toList) (by decide) (by decide +kernel) t
    obtain ⟨e3, h3⟩ := parse_all_err (s := "1 | ".toList) (by decide) (by decide +kernel) t
    obtain ⟨e4, h4⟩ := parse_all_err (s := "1 | 2 & 3)".toList) (by decide) (by decide +kernel) t
    unfold RepoMsp.parsingFail
    rw [h1, h2, h3, h4]
    rfl
  · obtain ⟨e1, h1⟩ := parse_all_err (s := "1 && (4 | (2 & 3))".toList) (by decide) (by decide +kernel) t
    unfold RepoMsp.withFailures
    rw [h1]
    rfl
  · obtain ⟨e1, h1⟩ := parse_all_err (s := "1 && ((4 | 2 & 3)))".toList) (by decide) (by decide +kernel) t
    unfold RepoMsp.badFormula
    rw [h1]
    rfl
  · unfold RepoMsp.alreadyInserted
    rw [parse_all (s := "3 & (4 | (2 & 3))".toList) (by decide) (F := .and (.leaf 3) (.or (.leaf 4) (.and (.leaf 2) (.leaf 3)))) (by decide +kernel) t]
    decide +kernel

/-! ### Matrices of `i32` -/

theorem mapRes_mono {ε α β : Type} {f g : α → Res ε β} {l : List α} {r : List β} (h : mapRes f l = .ok r) (hfg : ∀ a b, f a = .ok b → g a = .ok b) :
    mapRes g l = .ok r := by
  rw [mapRes_eq_ok] at h ⊢
  exact h.imp fun _ _ => hfg _ _

/-- The encoding of `i32` with an error instead of the panic on short input. -/
def i32Safe : Codec Int32 where
  enc := i32Codec.enc
  dec b := if b.length < 4 then .err .conversionFailed else i32Codec.dec b
  len := i32Codec.len

theorem i32Safe_fixed : i32Safe.Fixed 4 := by
  obtain ⟨h1, h2, h3, h4⟩ := C21_i32
  refine ⟨by decide, fun _ => rfl, fun x => ?_, fun x b r h => ?_, fun b h => ⟨_, if_pos h⟩, fun b x h => ?_, fun b h => ?_⟩
  · obtain ⟨b, g1, g2, _⟩ := h1 x
    exact ⟨b, g1, g2⟩
  · obtain ⟨b', g1, g2, _, g3⟩ := h1 x
    obtain rfl : b' = b := by
      have := g1.symm.trans h
      simpa using this
    have : ¬ (b' ++ r).length < 4 := by rw [List.length_append]; omega
    exact (if_neg this).trans (g3 r)
  · change (if b.length < 4 then _ else _) = _ at h
    split at h
    · simp at h
    · exact h4 b x h
  · change (if b.length < 4 then _ else _) = _ at h
    split at h
    · simp at h
    · rename_i hb
      exact hb ((h2 b).1 h)

theorem mspDec_safe {t : Target} {b : Bytes} {m : Msp Int32} (h : mspDec t i32Safe b = .ok m) : mspDec t i32Codec b = .ok m := by
  have hdec : ∀ b x, i32Safe.dec b = .ok x → i32Codec.dec b = .ok x := by
    intro b x h
    change (if b.length < 4 then _ else _) = _ at h
    split at h
    · simp at h
    · exact h
  have hent : ∀ {n s k x}, mspEntry t i32Safe b n s k = .ok x → mspEntry t i32Codec b n s k = .ok x := by
    intro n s k x h
    unfold mspEntry at h ⊢
    obtain ⟨a1, e1, h⟩ := Res.bind_eq_ok.1 h
    obtain ⟨a2, e2, h⟩ := Res.bind_eq_ok.1 h
    obtain ⟨a3, e3, h⟩ := Res.bind_eq_ok.1 h
    obtain ⟨a4, e4, h⟩ := Res.bind_eq_ok.1 h
    rw [e1, Res.ok_bind, e2, Res.ok_bind, e3, Res.ok_bind, e4, Res.ok_bind]
    exact hdec _ _ h
  unfold mspDec at h ⊢
  obtain ⟨a1, e1, h⟩ := Res.bind_eq_ok.1 h
  obtain ⟨a2, e2, h⟩ := Res.bind_eq_ok.1 h
  obtain ⟨a3, e3, h⟩ := Res.bind_eq_ok.1 h
  obtain ⟨a4, e4, h⟩ := Res.bind_eq_ok.1 h
  rw [e1, Res.ok_bind]
  dsimp only at e2 h ⊢
  rw [e2, Res.ok_bind, e3, Res.ok_bind, hdec _ _ e4, Res.ok_bind]
  obtain ⟨a5, e5, h⟩ := Res.bind_eq_ok.1 h
  obtain ⟨a6, e6, h⟩ := Res.bind_eq_ok.1 h
  obtain ⟨a7, e7, h⟩ := Res.bind_eq_ok.1 h
  rw [e5, Res.ok_bind]
  rw [show i32Codec.len a4 = i32Safe.len a4 from rfl, e6, Res.ok_bind, e7, Res.ok_bind]
  split at h
  · simp at h
  · rename_i hn
    rw [if_neg hn]
    obtain ⟨a8, e8, h⟩ := Res.bind_eq_ok.1 h
    obtain ⟨a9, e9, h⟩ := Res.bind_eq_ok.1 h
    rw [mapRes_mono e8 fun _ _ => hent, Res.ok_bind]
    rw [mapRes_mono e9 fun r l hr => mapRes_mono hr fun col x hx => by
      obtain ⟨k1, f1, hx⟩ := Res.bind_eq_ok.1 hx
      obtain ⟨k2, f2, hx⟩ := Res.bind_eq_ok.1 hx
      rw [f1, Res.ok_bind, f2, Res.ok_bind]
      exact hent hx, Res.ok_bind]
    exact h

/-- **C74**, `msp_as_bytes`, for every formula whose labels are distinct (and less than 2^15 in number). -/
theorem C74_matrix_bytes {t : Target} (ht : 32 ≤ t.bits) {F : Node} (hn : F.leaves.Nodup) (hl : F.leaves.length < 2 ^ 15) : RepoMsp.asBytes t F = .ok () := by
  rcases toMsp_spec F with ⟨_, m, hm, hF⟩ | ⟨hd, _⟩
  · obtain ⟨g1, g2, _⟩ := toMsp_regular hm Int32.ofInt
    have hrow : (m.convert Int32.ofInt).nbRow = F.leaves.length := by
      rw [← g1.labels]; exact hF.perm.length_eq
    obtain ⟨b, h1, h2, h3⟩ := C27_matrix_round_trip (t := t) i32Safe_fixed g1 (by omega) (by omega)
    have hlen : b.length < t.modulus := by
      apply fits32 ht
      rw [h2]
      have : (mspCodec t i32Safe).len (m.convert Int32.ofInt) ≤ 8 + (m.convert Int32.ofInt).nbRow * (m.convert Int32.ofInt).nbCol * 4 + (m.convert Int32.ofInt).nbRow * 4 := by
        change mspLen i32Safe _ ≤ _
        unfold mspLen
        split
        · exact le_refl _
        · omega
      have hmul : (m.convert Int32.ofInt).nbRow * (m.convert Int32.ofInt).nbCol ≤ (2 ^ 15 - 1) * (2 ^ 15 - 1) := Nat.mul_le_mul (by omega) (by omega)
      omega
    have hd : mspDec t i32Codec b = .ok (m.convert Int32.ofInt) := mspDec_safe (by
      have := h3 [] (by simpa using hlen)
      rwa [List.append_nil] at this)
    unfold RepoMsp.asBytes
    rw [hm, Res.ok_bind]
    dsimp only
    rw [show (mspCodec t i32Codec).enc (m.convert Int32.ofInt) = .ok b from h1, Res.ok_bind]
    rw [show (mspCodec t i32Codec).dec b = .ok (m.convert Int32.ofInt) from hd, Res.ok_bind]
    have hh : hashEq (m.convert Int32.ofInt).attrToRow (m.convert Int32.ofInt).attrToRow = true := by
      apply hashEq_refl
      rw [g1.index, List.map_reverse, List.nodup_reverse, List.zipIdx_map_fst]
      exact g1.nodup
    simp [assert, hh]
  · exact absurd hn hd

/-- The formula of the test. -/
example (t : Target) (ht : 32 ≤ t.bits) : RepoMsp.asBytes t testFormula = .ok () := C74_matrix_bytes ht (by decide) (by decide)

/-! ### Keys, ciphertexts and elements -/

/-- **C74**, `scalar_as_bytes`, `g1_affine_as_bytes`, `g2_affine_as_bytes` and `gt_as_bytes`. -/
theorem C74_elements {α : Type} [DecidableEq α] {c : Codec α} {n : Nat} (h : c.Fixed n) (x : α) : RepoBytes.element c x = .ok () := by
  obtain ⟨b, h1, _⟩ := h.enc x
  have h2 := h.round x b [] h1
  rw [List.append_nil] at h2
  unfold RepoBytes.element
  rw [h1, Res.ok_bind, h2]
  simp [assert]

example : RepoBytes.element (scalarCodec blsOrder) 5 = .ok () := C74_elements C21_scalar.1 5

variable {K P Q QP T : Type} [Field K] [DecidableEq K] [AddCommGroup P] [Module K P] [AddCommGroup Q] [Module K Q] [AddCommGroup T] [Module K T]
  {cs : Codecs K P Q T}

theorem keyGeneration_shape (c : Curve K P Q QP T) {F : Node} {m : Msp Int} (hm : F.toMsp = .ok m) {priv : MasterPrivateKey K} {rnd : Nat → K}
    {key : DecryptionKey K QP Q} (h : keyGeneration (bls c) m priv rnd = .ok key) : KeyShape c key ∧ key.msp.nbRow = m.nbRow := by
  obtain ⟨g1, g2, g3⟩ := toMsp_regular hm (bls c).fromI32
  unfold keyGeneration at h
  obtain ⟨u, _, h⟩ := Res.bind_eq_ok.1 h
  obtain ⟨ds, hds, h⟩ := Res.bind_eq_ok.1 h
  simp only [Res.ok.injEq] at h
  subst h
  refine ⟨⟨g1, g2, ?_, mapRes_prepared c hds ?_⟩, rfl⟩
  · have := mapRes_length hds
    simp only [List.length_map, Msp.convert]
    rw [this, List.length_zipIdx, g3]
  · rintro ⟨row, i⟩ d hd
    unfold keyGenRow at hd
    obtain ⟨attr, _, hd⟩ := Res.bind_eq_ok.1 hd
    split at hd
    · simp at hd
    · obtain ⟨t, _, hd⟩ := Res.bind_eq_ok.1 hd
      obtain ⟨x, _, hd⟩ := Res.bind_eq_ok.1 hd
      simp only [Res.ok.injEq] at hd
      subst hd; rfl

/-- An object that round-trips is the decoding of its encoding. -/
theorem again {α : Type} {c : Codec α} {B : Nat} {x : α} (h : c.RoundTrips B x) (hl : c.len x < B) : ∃ b, c.enc x = .ok b ∧ c.dec b = .ok x := by
  obtain ⟨b, h1, h2, h3⟩ := h
  have := h3 [] (by rw [List.append_nil, h2]; exact hl)
  rw [List.append_nil] at this
  exact ⟨b, h1, this⟩

/-- **C74**, `master_private_key_as_bytes`, `master_public_key_as_bytes`, `master_public_delegation_key_as_bytes`, `ciphertext_as_bytes` and
`user_key_as_bytes`. -/
theorem C74_bytes [DecidableEq P] [DecidableEq Q] [DecidableEq T] (c : Curve K P Q QP T) (hcs : cs.Lawful) {t : Target} (ht : 32 ≤ t.bits) (d : TestDraws K T) :
    ((∀ i < 10, d.setup i ≠ 0) → RepoBytes.privateKey (bls c) cs t d = .ok () ∧ RepoBytes.publicKey (bls c) cs t d = .ok () ∧
      RepoBytes.delegationKey (bls c) cs t d = .ok () ∧ RepoBytes.ciphertext (bls c) cs t d = .ok () ∧ RepoBytes.userKey (bls c) cs t d = .ok ()) ∧
    ((∃ i < 10, d.setup i = 0) → RepoBytes.privateKey (bls c) cs t d = .panic ∧ RepoBytes.publicKey (bls c) cs t d = .panic ∧
      RepoBytes.delegationKey (bls c) cs t d = .panic ∧ RepoBytes.ciphertext (bls c) cs t d = .panic ∧ RepoBytes.userKey (bls c) cs t d = .panic) := by
  have hm0 : ∃ m, testFormula.toMsp = .ok m := Demo.exists_of_isOk (by decide +kernel)
  obtain ⟨m, hm⟩ := hm0
  constructor
  · intro hnz
    obtain ⟨mk, hmk, _⟩ := (C18_master_keys_consistent c 10 d.setup d.y).2 hnz
    obtain ⟨m', e, k⟩ := textKey c .release64 (s := "1 & (4 | (2 & 3))".toList) (by decide) (F := testFormula) (by decide +kernel) (by decide) hmk (by decide)
    obtain rfl : m = m' := by
      rw [mspParse_all (F := testFormula) (by decide) (by decide +kernel), hm] at e
      simpa using e
    obtain ⟨uk, hk, _⟩ := k (d.key 0)
    obtain ⟨ct, hct⟩ := schemeEncrypt_ok c hmk (gamma := [1, 4]) (by decide) (by decide) t (d.msg 0) (d.enc 0)
    have hmk' := hmk
    obtain ⟨tI, hlen, _, rfl⟩ := generateMasterKey_inv c hmk
    obtain ⟨g1, g2, g3⟩ := C24_master_keys_round_trip (t := t) hcs
    have hne : tI ≠ [] := by rintro rfl; simp at hlen
    obtain ⟨b1, e1, f1⟩ := again (g1 ⟨tI, d.y⟩ hne (by simp only; omega)) (fits32 ht (by
      simp only [privKeyCodec]
      rw [vecLen_eq hcs.scalar hne, hcs.scalar.len]
      simp only [hlen]; decide))
    obtain ⟨b2, e2, f2⟩ := again (g2 (pubOf c tI d.y) (by simpa [pubOf] using hne) (by simp [pubOf]; omega)) (fits32 ht (by
      simp only [pubKeyCodec]
      rw [vecLen_eq hcs.g2 (by simpa [pubOf] using hne), hcs.gt.len]
      simp [pubOf, hlen]))
    obtain ⟨b3, e3, f3⟩ := again (g3 (delOf c tI) (by simpa [delOf] using hne) (by simp [delOf]; omega)) (fits32 ht (by
      simp only [delKeyCodec]
      rw [vecLen_eq hcs.g3 (by simpa [delOf] using hne)]
      simp [delOf, hlen]))
    obtain ⟨_, _, _, hcl⟩ := C30_ciphertext_len (t := t) hcs (bls c) hct (by simp) (by decide)
    obtain ⟨b4, e4, f4⟩ := again (C26_ciphertext_round_trip (t := t) hcs (bls c) hct (by simp) (by decide)) (fits32 ht (by rw [hcl]; decide))
    obtain ⟨hs, hrow⟩ := keyGeneration_shape c hm hk
    have hr4 : m.nbRow = 4 := by
      obtain ⟨m', hm', h4, _⟩ := (C05_matrix_shape testFormula).2 (by decide)
      obtain rfl : m = m' := by rw [hm] at hm'; simpa using hm'
      exact h4
    have hrt : (userKeyCodec t cs (bls c)).RoundTrips t.modulus uk :=
      (userKey_laws hcs (bls c) (le_refl _) (Nat.two_pow_pos _)).roundTrips (hs.good (by omega))
    obtain ⟨b5, e5, f5⟩ := again hrt (fits32 ht (by
      have h0 : uk.rawDI ≠ [] := by
        intro h0
        have := hs.raw
        rw [h0] at this
        simp at this
        omega
      have hc4 := hs.cols
      have hraw := hs.raw
      simp only [userKeyCodec]
      rw [vecLen_eq hcs.g3 h0]
      have : mspLen cs.scalar uk.msp ≤ 8 + uk.msp.nbRow * uk.msp.nbCol * 32 + uk.msp.nbRow * 4 := by
        unfold mspLen
        split
        · rw [hcs.scalar.len]
        · omega
      have hmul : uk.msp.nbRow * uk.msp.nbCol ≤ 4 * 4 := Nat.mul_le_mul (by omega) (by omega)
      omega))
    have hh : uk.msp.eq uk.msp = true := by
      simp only [Msp.eq, Bool.and_eq_true, beq_self_eq_true, true_and, and_true]
      apply hashEq_refl
      rw [hs.regular.index, List.map_reverse, List.nodup_reverse, List.zipIdx_map_fst]
      exact hs.regular.nodup
    refine ⟨?_, ?_, ?_, ?_, ?_⟩
    · unfold RepoBytes.privateKey
      rw [hmk', Res.ok_bind, e1, Res.ok_bind, f1]
      simp [assert]
    · unfold RepoBytes.publicKey
      rw [hm, Res.ok_bind, hmk', Res.ok_bind, e2, Res.ok_bind, f2]
      simp [assert]
    · unfold RepoBytes.delegationKey
      rw [hmk', Res.ok_bind, e3, Res.ok_bind, f3]
      simp [assert]
    · unfold RepoBytes.ciphertext
      rw [hm, Res.ok_bind, hmk', Res.ok_bind, hct, Res.ok_bind, e4, Res.ok_bind, f4]
      simp [assert]
    · unfold RepoBytes.userKey
      rw [hm, Res.ok_bind, hmk', Res.ok_bind, hk, Res.ok_bind, e5, Res.ok_bind, f5]
      simp [assert, assertSame, hh]
  · intro hz
    have hp := (C18_master_keys_consistent c 10 d.setup d.y).1.2 hz
    unfold RepoBytes.privateKey RepoBytes.publicKey RepoBytes.delegationKey RepoBytes.ciphertext RepoBytes.userKey
    rw [hm, hp]
    exact ⟨rfl, rfl, rfl, rfl, rfl⟩

/-! ### Access policies -/

namespace RepoVerify

/-- The policy of the test, in one order. -/
def levels : Policy :=
  ⟨5, 1000, [("Level", (["level 1", "level 2", "level 3", "level 4", "level 5"], true))],
    [(⟨"Level", "level 5"⟩, [5]), (⟨"Level", "level 4"⟩, [4]), (⟨"Level", "level 3"⟩, [3]), (⟨"Level", "level 2"⟩, [2]), (⟨"Level", "level 1"⟩, [1])]⟩

def policy : Policy :=
  ⟨9, 1000, [("Department", (["R&D", "HR", "MKG", "fin"], false)), ("Level", (["level 1", "level 2", "level 3", "level 4", "level 5"], true))],
    [(⟨"Department", "fin"⟩, [9]), (⟨"Department", "MKG"⟩, [8]), (⟨"Department", "HR"⟩, [7]), (⟨"Department", "R&D"⟩, [6]),
      (⟨"Level", "level 5"⟩, [5]), (⟨"Level", "level 4"⟩, [4]), (⟨"Level", "level 3"⟩, [3]), (⟨"Level", "level 2"⟩, [2]), (⟨"Level", "level 1"⟩, [1])]⟩

theorem levels_eq : (Policy.new 1000).addAxis level = some levels := by decide +kernel

theorem policy_eq : levels.addAxis department = some policy := by decide +kernel

end RepoVerify

open RepoVerify in
/-- **C74**, `verify_access_policy`, whatever the order of the hash maps. -/
theorem C74_verify_access_policy {ord : Policy → Policy} (hord : ∀ p : Policy, p.Reorders (ord p)) : RepoVerify.test ord = .ok () := by
  have hr0 : levels.Reachable := .addAxis _ (.new _) levels_eq
  have hr : policy.Reachable := .addAxis _ hr0 policy_eq
  obtain ⟨q1, hq1, hr1⟩ := addAxis_reorders (hord (Policy.new 1000)) (new_wf 1000) levels_eq
  obtain ⟨q2, hq2, hr2⟩ := addAxis_reorders (hr1.trans (hord q1)) (reachable_wf hr0) policy_eq
  have hP := hr2.trans (hord q2)
  unfold RepoVerify.test
  rw [hq1]
  simp only [Res.unwrap, Res.ok_bind]
  rw [hq2]
  simp only [Res.ok_bind]
  rw [hP.policyToMsp (reachable_wf hr) (by simp [policyWith]), hP.policyToMsp (reachable_wf hr) (by simp [policyWith]),
    hP.policyToMsp (reachable_wf hr) (by simp [policyWith])]
  decide +kernel

/-! ### Headers and blocks -/

variable {Key Nonce : Type} {e : External Key Nonce} {tag : Nat}

open RepoHybrid in
/-- **C74**, `test_aes_hybrid_encryption`: for all files containing the public key of a policy that knows the two attributes, and a user key of the same
master key whose access policy is satisfied by them. -/
theorem C74_hybrid (c : Curve K P Q QP T) (hcs : cs.Lawful) (he : e.Lawful tag) {t : Target} (ht : 32 ≤ t.bits) (h32 : e.keyLen = 32)
    {p : Policy} (hp : p.Reachable) (hlast : p.lastAttributeValue.toNat < p.maxAttributeCreations.toNat) (hmax : 2 < p.maxAttributeCreations.toNat) (hk : ∀ a ∈ attributes, p.Known a)
    {rnd : Nat → K} {y : K} {mk : MasterKey K P Q T} (hmk : engineGenerateMasterKey (bls c) p rnd y = .ok mk) {ap : AccessPolicy} {key : DecryptionKey K QP Q}
    (hkey : UserKey c p mk ap key) (hsat : ap.Sat p (· ∈ attributes)) {pb kb : Bytes} (hpb : (pubKeyCodec t cs).dec pb = .ok mk.pubKey)
    (hkb : (userKeyCodec t cs (bls c)).dec kb = .ok key) (hn : key.msp.nbRow < 2 ^ 32 - 1) (hmeta : e.Keeps metaData)
    (henc : ∃ mb, e.metaEnc metaData = .ok mb ∧ mb.length + tag < 2 ^ 32 ∧ ∀ k n, ∃ em, e.encrypt k mb n none = .ok em)
    (random : T) (s : K) (nonce nonce' : Nonce) : RepoHybrid.test e (bls c) cs t pb p kb random s nonce nonce' = .ok () := by
  obtain ⟨ct, hct⟩ := engineEncrypt_ok c hmk hp hlast hk hmax t random s
  obtain ⟨mb, m1, m2, m3⟩ := henc
  obtain ⟨h, hh⟩ := C35_header_encrypts (md := some metaData) (nonce := nonce) c hcs he (reachable_wf hp) hmk hct (by decide) (by
    rintro m hm
    obtain rfl : metaData = m := by simpa using hm
    exact ⟨mb, m1, m2, fun k => m3 k nonce⟩)
  have hd := C35_header_round_trip (t' := t) c ht hcs he (reachable_wf hp) hmk hkey (md := some metaData) (by
    rintro m hm
    obtain rfl : metaData = m := by simpa using hm
    exact hmeta) hh hsat
  obtain ⟨block, b1, b2, b3⟩ := (C38_blocks he (max := 2 ^ 30) (by decide) h.symmetricKey (uid := metaData.uid) (by decide) 0 clearText nonce').2.2 (by simp [clearText]) (by simp [clearText])
  obtain ⟨kb', hkb', _⟩ := C25_user_key_round_trip (t := t) hcs c hkey.obtained hn
  unfold RepoHybrid.test
  rw [hpb, Res.ok_bind, hh, Res.ok_bind, he.keyEnc_length, h32, b1]
  simp only [assert, beq_self_eq_true, if_true, Res.ok_bind]
  rw [hkb, Res.ok_bind, hkb', Res.ok_bind, hd]
  simp only [Res.ok_bind, b3, Option.getD_some, b2]
  simp

/-- The policy of the demonstration and a key for it, over a group of order 11: files that make the test pass. -/
example : ∃ (pb kb : Bytes), ∀ (random s : Demo.F) (nonce nonce' : Demo.SymNonce),
    RepoHybrid.test Demo.symmetric (bls Demo.curveF) Demo.codecs .debug64 pb RepoDemo.policy kb random s nonce nonce' = .ok () := by
  obtain ⟨mk, hmk, _⟩ := (C18_master_keys_consistent Demo.curveF 100 (fun _ => 3) 5).2 (fun _ _ => by decide)
  have hmk' : engineGenerateMasterKey (bls Demo.curveF) RepoDemo.policy (fun _ => 3) 5 = .ok mk := hmk
  obtain ⟨key, hkey, _⟩ := generate_ok Demo.curveF hmk RepoDemo.policy_reachable (by decide) (ap := RepoDemo.topMkgFin) (by decide +kernel) (fun _ => 2)
  have hn : key.msp.nbRow < 100 := by
    have hb : ∀ m, policyToMsp RepoDemo.policy RepoDemo.topMkgFin = .ok m → m.nbRow < 100 := by
      have : (match policyToMsp RepoDemo.policy RepoDemo.topMkgFin with | .ok m => decide (m.nbRow < 100) | _ => true) = true := by decide +kernel
      intro m hm
      rw [hm] at this
      simpa using this
    unfold engineGenerateUserKey at hkey
    obtain ⟨m, hm, h⟩ := Res.bind_eq_ok.1 hkey
    obtain ⟨n, hn⟩ := policyToMsp_toMsp hm
    rw [(keyGeneration_shape Demo.curveF hn h).2]
    exact hb m hm
  obtain ⟨_, hpub, _⟩ := C24_generated_keys_round_trip (t := .debug64) Demo.codecs_lawful Demo.curveF hmk' (by decide) (by decide)
  have hu : UserKey Demo.curveF RepoDemo.policy mk RepoDemo.topMkgFin key := .generate _ hkey
  have huk := C25_user_key_round_trip (t := .debug64) Demo.codecs_lawful Demo.curveF hu.obtained (by omega)
  have hmk0 := hmk
  obtain ⟨tI, hlen, _, rfl⟩ := generateMasterKey_inv Demo.curveF hmk0
  obtain ⟨pb, _, hpb⟩ := again hpub (by
    simp only [pubKeyCodec]
    rw [vecLen_eq Demo.codecs_lawful.g2 (by rintro h; simp [pubOf] at h; simp [h] at hlen), Demo.codecs_lawful.gt.len]
    simp [pubOf, hlen, Target.modulus, Target.debug64])
  obtain ⟨kb, _, hkb⟩ := again huk (by
    have hs := obtained_shape Demo.curveF hu.obtained
    have hr := hs.raw
    have h0 : key.rawDI ≠ [] := by
      intro h0
      have := hs.regular.row_pos
      rw [h0] at hr
      simp at hr
      omega
    have hc := hs.cols
    simp only [userKeyCodec]
    rw [vecLen_eq Demo.codecs_lawful.g3 h0]
    have : mspLen Demo.codecs.scalar key.msp ≤ 8 + key.msp.nbRow * key.msp.nbCol * 32 + key.msp.nbRow * 4 := by
      unfold mspLen
      split
      · rw [Demo.codecs_lawful.scalar.len]
      · omega
    have hmul : key.msp.nbRow * key.msp.nbCol ≤ 100 * 100 := Nat.mul_le_mul (by omega) (by omega)
    have : 2 ^ 32 ≤ Target.debug64.modulus := by decide
    omega)
  exact ⟨pb, kb, C74_hybrid Demo.curveF Demo.codecs_lawful Demo.symmetric_lawful (by decide) rfl RepoDemo.policy_reachable (by decide) (by decide)
    (by decide +kernel) hmk' hu (by decide +kernel) hpb hkb (by omega) ⟨[0, 0, 0, 9, 1, 2, 3, 4, 5, 6, 7, 8, 9, 10, 11, 12, 13, 14], by decide, by decide⟩
    ⟨[0, 0, 0, 9, 1, 2, 3, 4, 5, 6, 7, 8, 9, 10, 11, 12, 13, 14], by decide, by decide, fun _ _ => ⟨_, rfl⟩⟩⟩

end Abe
