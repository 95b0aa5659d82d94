import Verif.Model.RepoFfiTests
import Verif.Props.RepoBytesTests
import Verif.Props.FfiFlow
import Verif.Props.DemoFfi

/-!
# The tests of the C interface pass

Property C74, continued: the two tests of /repo/src/interfaces/ffi/tests.rs succeed whatever the caches and the last error are, for every outcome of the
random generator.
-/

namespace Abe

set_option linter.unusedSectionVars false

open RepoFfi Prog

theorem RepoFfi.zeros_room {n : Nat} (h0 : 0 < n) (hn : n < 2 ^ 31) {x : Bytes} (hx : x.length ≤ n) : (zeros n).Room x :=
  ⟨_, _, rfl, by rw [asCInt_toInt hn]; omega, by rw [asCInt_toInt hn]; omega, by simpa using hx⟩

theorem RepoFfi.contents_filled {t : Target} (ht : 31 ≤ t.bits) {b b' : OutBuf} {x : Bytes} (h : b.Filled x b') (hx : x.length < 2 ^ 31) :
    contents t b' = .ok x := by
  obtain ⟨m, n, _, rfl, h⟩ := h
  have hn := h hx
  have hu : asUsize t n = x.length := by
    have := asUsize_nonneg ht (n := n) (by omega)
    omega
  simp [contents, hu]

theorem RepoFfi.pointer_isIn {x : Bytes} (hx : x.length < 2 ^ 31) : IsIn (pointer x) x := ⟨[], by simp [pointer], asCInt_toInt hx⟩

theorem RepoFfi.cstring_ok {x : Bytes} (h0 : 0 ∉ x) : cstring x = .ok (some (x ++ [0])) := by simp [cstring, h0]

theorem RepoFfi.cstring_arg {α : Type} {x : Bytes} {dec : Bytes → Option α} {a : α} (h0 : 0 ∉ x) (hu : validUtf8 x = true) (hd : dec x = some a) :
    StrArg (some (x ++ [0])) dec a := ⟨x, ⟨[], rfl, h0⟩, hu, hd⟩

section
variable {K P Q QP T Key Nonce : Type} [Field K] [DecidableEq K] {lib : FfiLib K QP P Q T Key Nonce}

theorem RepoFfi.unwrap_ok {E D : Type} (d : Option FormatErr → Bytes) (s : FState E D) : unwrapFfiError d (.ret 0, s) = .ok s := by
  simp [unwrapFfiError]

theorem RepoFfi.unwrap_not_ok {E D : Type} {d : Option FormatErr → Bytes} {r : Flow Int32 × FState E D} (h : r.1 ≠ .ret 0) (s : FState E D) :
    unwrapFfiError d r ≠ .ok s := by
  obtain ⟨f, s'⟩ := r
  unfold unwrapFfiError
  cases f with
  | ret code =>
    have hc : code ≠ 0 := by rintro rfl; exact h rfl
    simp only [if_neg hc]
    repeat' split
    all_goals simp
  | _ => simp

/-- Creation of an encryption cache, when the arguments decode. -/
theorem RepoFfi.create_encryption {a : EncCacheArgs} {cache : EncryptionCache P T} (ha : a.Decodes lib cache) (st : Process K QP P Q T) :
    ∃ s1 h, (hCreateEncryptionCache lib a).run { st with mem := handleMemory } = (.ret 0, s1) ∧ s1.mem.handle = some h := by
  unfold Prog.run hCreateEncryptionCache
  rw [prepareEncryptionCache_iff.2 ha]
  exact ⟨_, _, rfl, rfl⟩

/-- Creation of a decryption cache, when the argument decodes. -/
theorem RepoFfi.create_decryption {a : InBuf} {key : DecryptionKey K QP Q} (ha : KeyDecodes lib a key) (st : Process K QP P Q T) :
    ∃ s1 h, (hCreateDecryptionCache lib a).run { st with mem := handleMemory } = (.ret 0, s1) ∧ s1.mem.handle = some h := by
  unfold Prog.run hCreateDecryptionCache
  rw [prepareDecryptionCache_iff.2 ha]
  exact ⟨_, _, rfl, rfl⟩

/-- The state after the calls of the tests that encrypt: the buffers hold the header and the key. -/
theorem RepoFfi.encrypts (ht : 31 ≤ lib.t.bits) {tag : Nat} (he : lib.e.Lawful tag) (h32 : lib.e.keyLen = 32) {c : EncCacheArgs} {cache : EncryptionCache P T}
    (hc : c.Decodes lib cache) {a : EncHeaderArgs K T Nonce} {atts : List Attribute} (hatts : StrArg a.attributes lib.serde.attributesDec atts)
    {uid ad : Bytes} (huid : UidArg a.uid uid) (had : AdditionalArg a.additional (some ad)) {h : EncryptedHeader Key}
    (hh : encryptHybridHeader lib.e lib.bm lib.cs lib.t cache.policy cache.publicKey atts (some ⟨uid, some ad⟩) a.random a.s a.nonce = .ok h)
    (hl : h.encryptedHeaderBytes.length ≤ 4096) (st : Process K QP P Q T) :
    ∃ s1, (hEncryptHeader lib c a).run { st with mem := encryptionMemory } = (.ret 0, s1) ∧ readHeader lib s1 = .ok h := by
  rcases C47_encrypt_header (lib := lib) ht c a with ⟨cache', kb, hb, hc', ha, hd⟩ | ⟨hno, _⟩
  · obtain ⟨p', k'⟩ := cache'
    obtain ⟨p0, k0⟩ := cache
    obtain rfl := hc'.1.unique hc.1
    obtain ⟨x, x1, _, x2⟩ := hc.2
    obtain rfl := x1.bytesArg hc'.2 x2
    obtain ⟨atts1, uid1, ad1, h1, e1, e2, e3, e4, rfl, rfl⟩ := ha
    obtain rfl := e1.unique hatts
    obtain rfl : uid1 = uid := by
      rcases e2 with ⟨m1, rfl⟩ | ⟨m1, e2⟩ <;> rcases huid with ⟨m2, rfl⟩ | ⟨m2, huid⟩
      · rfl
      · exact absurd m1 m2
      · exact absurd m2 m1
      · exact e2.unique huid
    obtain rfl : ad1 = some ad := by
      rcases e3 with ⟨m1, rfl⟩ | ⟨m1, x1, e3, rfl⟩ <;> rcases had with ⟨m2, h⟩ | ⟨m2, x2, had, h⟩
      · cases h
      · exact absurd m1 m2
      · cases h
      · obtain rfl := Option.some.inj h
        rw [e3.unique had]
    obtain rfl : h1 = h := by rw [hh] at e4; exact (Res.ok.inj e4).symm
    have hk : (lib.e.keyEnc h1.symmetricKey).length = 32 := by rw [he.keyEnc_length, h32]
    obtain ⟨s1, g1, _, _, g2, g3⟩ := hd.fits { st with mem := encryptionMemory } trivial (zeros_room (by decide) (by decide) (by omega))
      (zeros_room (by decide) (by decide) hl)
    refine ⟨s1, g1, ?_⟩
    unfold readHeader
    rw [contents_filled ht g2 (by omega), Res.ok_bind, he.keyDec_keyEnc, Res.ok_bind, contents_filled ht g3 (by omega), Res.ok_bind]
    rfl
  · exact absurd ⟨atts, uid, some ad, h, hatts, huid, had, hh, rfl, rfl⟩ (hno cache _ _ hc)

/-- The state after the calls of the tests that decrypt. -/
theorem RepoFfi.decrypts (ht : 31 ≤ lib.t.bits) {tag : Nat} (he : lib.e.Lawful tag) (h32 : lib.e.keyLen = 32) {k : InBuf} {key : DecryptionKey K QP Q}
    (hk : KeyDecodes lib k key) {header : InBuf} {hb : Bytes} (hhb : IsIn header hb) (h0 : hb ≠ []) {sk : Key} {uid ad : Bytes}
    (hh : decryptHybridHeader lib.e lib.bm lib.cs lib.t key hb = .ok ⟨sk, ⟨uid, some ad⟩⟩) (hu : uid.length ≤ 4096) (ha : ad.length ≤ 4096)
    (st : Process K QP P Q T) :
    ∃ s1, (hDecryptHeader lib header k).run { st with mem := decryptionMemory } = (.ret 0, s1) ∧
      readClearHeader lib s1 = .ok ⟨sk, ⟨uid, some ad⟩⟩ := by
  rcases C47_decrypt_header (lib := lib) ht header k with ⟨key', kb, uid', ad', hk', ⟨h, e1, rfl, rfl, rfl⟩, hd⟩ | ⟨hno, _⟩
  · obtain ⟨x, x1, _, x2⟩ := hk
    obtain rfl := x1.bytesArg hk' x2
    obtain rfl := hhb.bytesArg e1 hh
    have hk : (lib.e.keyEnc sk).length = 32 := by rw [he.keyEnc_length, h32]
    have hw : ∀ n, 0 < n → n < 2 ^ 31 → ¬ (zeros n).Unwanted := by
      rintro n h1 h2 (h | ⟨m, h, h'⟩)
      · simp [zeros] at h
      · obtain rfl := Option.some.inj h
        rw [asCInt_toInt h2] at h'
        omega
    obtain ⟨s1, g1, _, _, g2, g3, g4⟩ := hd.fits { st with mem := decryptionMemory } trivial (zeros_room (by decide) (by decide) (by dsimp only; omega))
      (.inr (zeros_room (by decide) (by decide) hu)) (.inr (zeros_room (by decide) (by decide) ha))
    refine ⟨s1, g1, ?_⟩
    have g3 := (g3.resolve_left fun h => hw 4096 (by decide) (by decide) h.1).2
    have g4 := (g4.resolve_left fun h => hw 4096 (by decide) (by decide) h.1).2
    dsimp only at g2 g3 g4
    unfold readClearHeader
    rw [contents_filled ht g2 (by omega), Res.ok_bind, he.keyDec_keyEnc, Res.ok_bind, contents_filled ht g3 (by omega), Res.ok_bind,
      contents_filled ht g4 (by omega), Res.ok_bind]
    rfl
  · exact absurd ⟨⟨sk, ⟨uid, some ad⟩⟩, ⟨hb, hhb, h0, hh⟩, rfl, rfl, rfl⟩ (hno key (lib.e.keyEnc sk) uid (some ad) hk)

end

section
variable {K P Q QP T Key Nonce : Type} [Field K] [DecidableEq K] [AddCommGroup P] [Module K P] [AddCommGroup Q] [Module K Q] [AddCommGroup T] [Module K T]
  {lib : FfiLib K QP P Q T Key Nonce} {tag : Nat}

/-- **C74**, `test_ffi_hybrid_header` and `test_ffi_hybrid_header_using_cache`: for all files containing the public key of a policy that knows the two
attributes and a user key of the same master key, whatever the caches and the last error are, they succeed if the attributes satisfy the access policy of
the key, and only then. -/
theorem C74_ffi (c : Curve K P Q QP T) (hbm : lib.bm = bls c) (ht : 32 ≤ lib.t.bits) (hcs : lib.cs.Lawful) (he : lib.e.Lawful tag) (h32 : lib.e.keyLen = 32)
    {p : Policy} (hp : p.Reachable) (hlast : p.lastAttributeValue.toNat < p.maxAttributeCreations.toNat) (hmax : 2 < p.maxAttributeCreations.toNat)
    (hmax' : p.maxAttributeCreations.toNat < 2 ^ 32 - 1) (hk : ∀ a ∈ RepoHybrid.attributes, p.Known a)
    {rnd : Nat → K} {y : K} {mk : MasterKey K P Q T} (hmk : engineGenerateMasterKey (bls c) p rnd y = .ok mk) {ap : AccessPolicy} {key : DecryptionKey K QP Q}
    (hkey : UserKey c p mk ap key) {pb kb : Bytes}
    (hpe : (pubKeyCodec lib.t lib.cs).enc mk.pubKey = .ok pb) (hpl : pb.length < 2 ^ 31)
    (hke : (userKeyCodec lib.t lib.cs lib.bm).enc key = .ok kb) (hkl : kb.length < 2 ^ 31) (hn : key.msp.nbRow < 2 ^ 32 - 1)
    {pj aj : Bytes} (hpj : lib.serde.policyEnc p = some pj) (hpj' : lib.serde.policyDec pj = some p) (hp0 : 0 ∉ pj) (hpu : validUtf8 pj = true)
    (haj : lib.serde.attributesDec aj = some RepoHybrid.attributes) (ha0 : 0 ∉ aj) (hau : validUtf8 aj = true)
    (hmeta : lib.e.Keeps RepoHybrid.metaData)
    (henc : ∃ mb, lib.e.metaEnc RepoHybrid.metaData = .ok mb ∧ 408 + lib.e.nonceLen + mb.length + tag ≤ 4096 ∧ ∀ k n, ∃ em, lib.e.encrypt k mb n none = .ok em)
    (random : T) (s : K) (nonce : Nonce) (st : Process K QP P Q T) :
    (RepoFfi.test lib pb p aj kb random s nonce st = .ok () ↔ ap.Sat p (· ∈ RepoHybrid.attributes)) ∧
    (RepoFfi.testUsingCache lib pb p aj kb random s nonce st = .ok () ↔ ap.Sat p (· ∈ RepoHybrid.attributes)) := by
  have hw := reachable_wf hp
  have hmod : 2 ^ 32 ≤ lib.t.modulus := Nat.pow_le_pow_right (by decide) ht
  -- the files
  obtain ⟨_, hpub, _⟩ := C24_generated_keys_round_trip (t := lib.t) hcs c hmk (by rintro h; rw [h] at hmax; simp at hmax) hmax'
  have hpd : (pubKeyCodec lib.t lib.cs).dec pb = .ok mk.pubKey := by
    obtain ⟨b, b1, _, b2⟩ := hpub
    obtain rfl : pb = b := by rw [hpe] at b1; exact Res.ok.inj b1
    have := b2 []
    rw [List.append_nil] at this
    exact this (by omega)
  have hkd : (userKeyCodec lib.t lib.cs lib.bm).dec kb = .ok key := by
    obtain ⟨b, b1, _, b2⟩ := C25_user_key_round_trip (t := lib.t) hcs c hkey.obtained hn
    rw [hbm] at hke ⊢
    obtain rfl : kb = b := by rw [hke] at b1; exact Res.ok.inj b1
    have := b2 []
    rw [List.append_nil] at this
    exact this (by omega)
  -- the header
  obtain ⟨ct, hct⟩ := engineEncrypt_ok c hmk hp hlast hk hmax lib.t random s
  obtain ⟨mb, m1, m2, m3⟩ := henc
  obtain ⟨h, hh⟩ := C35_header_encrypts (md := some RepoHybrid.metaData) (nonce := nonce) c hcs he hw hmk hct (by decide) (by
    rintro m hm
    obtain rfl : RepoHybrid.metaData = m := by simpa using hm
    exact ⟨mb, m1, by omega, fun k => m3 k nonce⟩)
  have hl : h.encryptedHeaderBytes.length = 300 + 52 * 2 + lib.e.nonceLen + 4 + mb.length + tag :=
    (C36_length c hcs he hw hmk (by decide) hh).2 RepoHybrid.metaData rfl mb m1
  have hh' := hh
  rw [← hbm] at hh'
  -- the arguments
  have hpn : pb ≠ [] := by
    rintro rfl
    obtain ⟨b, b1, b2, _⟩ := hpub
    obtain rfl : [] = b := by rw [hpe] at b1; exact Res.ok.inj b1
    simp [pubKeyCodec, hcs.gt.len] at b2
  have hkn : kb ≠ [] := by
    rintro rfl
    simp [userKeyCodec] at hkd
  have hdec : EncCacheArgs.Decodes lib ⟨some (pj ++ [0]), pointer pb⟩ ⟨p, mk.pubKey⟩ :=
    ⟨cstring_arg hp0 hpu hpj', pb, pointer_isIn hpl, hpn, hpd⟩
  have hkdec : KeyDecodes lib (pointer kb) key := ⟨kb, pointer_isIn hkl, hkn, hkd⟩
  have hatts : StrArg (some (aj ++ [0])) lib.serde.attributesDec RepoHybrid.attributes := cstring_arg ha0 hau haj
  have huid : UidArg (pointer RepoHybrid.metaData.uid) RepoHybrid.metaData.uid :=
    .inr ⟨by rintro (h | h) <;> revert h <;> decide, pointer_isIn (by decide)⟩
  have had : AdditionalArg (pointer [10, 11, 12, 13, 14]) (some [10, 11, 12, 13, 14]) :=
    .inr ⟨by rintro (h | h) <;> revert h <;> decide, _, pointer_isIn (by decide), rfl⟩
  have hpol : policyString lib p = .ok (some (pj ++ [0])) := by simp only [policyString, hpj]; exact cstring_ok hp0
  have hne : h.encryptedHeaderBytes ≠ [] := by intro h0; rw [h0] at hl; simp at hl; omega
  have hchk : check lib h ⟨h.symmetricKey, RepoHybrid.metaData⟩ = .ok () := by simp [check, assert]
  -- the encryptions
  obtain ⟨s1, g1, g2⟩ := encrypts (by omega) he h32 hdec (a := ⟨some (aj ++ [0]), pointer RepoHybrid.metaData.uid, pointer [10, 11, 12, 13, 14], random, s, nonce⟩)
    hatts huid had hh' (by omega) st
  have e1 : encryptHeader lib pb p aj RepoHybrid.metaData random s nonce st = .ok (h, s1) := by
    unfold encryptHeader
    rw [hpd, Res.ok_bind, hpol, Res.ok_bind, hpe, Res.ok_bind, cstring_ok ha0, Res.ok_bind, show additionalOf RepoHybrid.metaData = .ok [10, 11, 12, 13, 14] from rfl,
      Res.ok_bind, g1, unwrap_ok, Res.ok_bind, g2, Res.ok_bind]
    rfl
  obtain ⟨s2, hd2, g3, g4⟩ := create_encryption hdec st
  obtain ⟨s3, g5, g6⟩ := encrypts (by omega) he h32 hdec (a := ⟨some (aj ++ [0]), pointer RepoHybrid.metaData.uid, pointer [10, 11, 12, 13, 14], random, s, nonce⟩)
    hatts huid had hh' (by omega) s2
  have e2 : ∃ s4, encryptHeaderUsingCache lib pb p aj RepoHybrid.metaData random s nonce st = .ok (h, s4) := by
    refine ⟨{ s3 with enc := s3.enc.remove hd2 }, ?_⟩
    unfold encryptHeaderUsingCache
    rw [hpd, Res.ok_bind, hpol, Res.ok_bind, hpe, Res.ok_bind, g3, unwrap_ok, Res.ok_bind, show handleOf s2 = .ok hd2 by simp [handleOf, g4], Res.ok_bind,
      cstring_ok ha0, Res.ok_bind, show additionalOf RepoHybrid.metaData = .ok [10, 11, 12, 13, 14] from rfl, Res.ok_bind,
      C46_created_encryption g3 g4 (s := { s2 with mem := encryptionMemory }) rfl, g5, unwrap_ok, Res.ok_bind, g6, Res.ok_bind,
      show Prog.run (hDestroyEncryptionCache hd2) s3 = (.ret 0, { s3 with enc := s3.enc.remove hd2 }) from rfl, unwrap_ok, Res.ok_bind]
    rfl
  obtain ⟨s4, e2⟩ := e2
  unfold RepoFfi.test testUsingCache
  rw [e1, Res.ok_bind, e2, Res.ok_bind]
  by_cases hsat : ap.Sat p (· ∈ RepoHybrid.attributes)
  · have hd := C35_header_round_trip (t' := lib.t) c ht hcs he hw hmk hkey (md := some RepoHybrid.metaData) (by
      rintro m hm
      obtain rfl : RepoHybrid.metaData = m := by simpa using hm
      exact hmeta) hh hsat
    rw [← hbm] at hd
    simp only [hsat, iff_true]
    constructor
    · obtain ⟨s5, g7, g8⟩ := decrypts (by omega) he h32 hkdec (pointer_isIn (by omega)) hne hd (by decide) (by decide) s1
      unfold decryptHeader
      rw [hkd, Res.ok_bind, hke, Res.ok_bind, g7, unwrap_ok, Res.ok_bind, g8, Res.ok_bind]
      exact hchk
    · obtain ⟨s5, hd5, g9, g10⟩ := create_decryption hkdec s4
      obtain ⟨s6, g7, g8⟩ := decrypts (by omega) he h32 hkdec (pointer_isIn (by omega)) hne hd (by decide) (by decide) s5
      unfold decryptHeaderUsingCache
      rw [hkd, Res.ok_bind, hke, Res.ok_bind, g9, unwrap_ok, Res.ok_bind, show handleOf s5 = .ok hd5 by simp [handleOf, g10], Res.ok_bind,
        C46_created_decryption g9 g10 (s := { s5 with mem := decryptionMemory }) rfl, g7, unwrap_ok, Res.ok_bind, g8, Res.ok_bind,
        show Prog.run (hDestroyDecryptionCache hd5) s6 = (.ret 0, { s6 with dec := s6.dec.remove hd5 }) from rfl, unwrap_ok, Res.ok_bind]
      exact hchk
  · obtain ⟨h4, _⟩ := C39_unauthorised (t' := lib.t) c ht hcs hw hmk hkey hh hsat
    have hnever : NeverWrites (hDecryptHeader lib (pointer h.encryptedHeaderBytes) (pointer kb)) := by
      rcases C47_decrypt_header (lib := lib) (by omega) (pointer h.encryptedHeaderBytes) (pointer kb) with ⟨key', kb', uid', ad', f1, ⟨h', f2, _⟩, _⟩ | ⟨_, f1⟩
      · obtain rfl := (pointer_isIn hkl).bytesArg f1 hkd
        obtain ⟨x, f3, _, f4⟩ := f2
        obtain rfl := (pointer_isIn (x := h.encryptedHeaderBytes) (by omega)).unique f3
        rw [hbm] at f4
        exact absurd f4 (h4 h')
      · exact f1
    simp only [hsat, iff_false]
    constructor
    · intro hx
      obtain ⟨r, hr, _⟩ := Res.bind_eq_ok.1 hx
      unfold decryptHeader at hr
      rw [hkd, Res.ok_bind, hke, Res.ok_bind] at hr
      obtain ⟨s5, hs5, _⟩ := Res.bind_eq_ok.1 hr
      exact unwrap_not_ok (hnever _).1 s5 hs5
    · intro hx
      obtain ⟨r, hr, _⟩ := Res.bind_eq_ok.1 hx
      obtain ⟨s5, hd5, g9, g10⟩ := create_decryption hkdec s4
      unfold decryptHeaderUsingCache at hr
      rw [hkd, Res.ok_bind, hke, Res.ok_bind, g9, unwrap_ok, Res.ok_bind, show handleOf s5 = .ok hd5 by simp [handleOf, g10], Res.ok_bind,
        C46_created_decryption g9 g10 (s := { s5 with mem := decryptionMemory }) rfl] at hr
      obtain ⟨s6, hs6, _⟩ := Res.bind_eq_ok.1 hr
      exact unwrap_not_ok (hnever _).1 s6 hs6

end

/-! ### Concrete cases -/

namespace RepoFfi

/-- A library which knows the JSON of one policy and of the two attributes. -/
def demo : FfiLib Demo.F Demo.F Demo.F Demo.F Demo.F Demo.SymKey Demo.SymNonce :=
  { Demo.ffi with serde := { Demo.serde with policyDec := fun b => if b = [112] then some RepoDemo.policy else none, policyEnc := fun _ => some [112],
                                             attributesDec := fun b => if b = [97] then some RepoHybrid.attributes else none } }

/-- Files for an access policy. -/
theorem files {ap : AccessPolicy} (hv : ap.Valid RepoDemo.policy)
    (hrow : (match policyToMsp RepoDemo.policy ap with | .ok m => decide (m.nbRow < 100) | _ => true) = true) :
    ∃ (mk : MasterKey Demo.F Demo.F Demo.F Demo.F) (key : DecryptionKey Demo.F Demo.F Demo.F) (pb kb : Bytes),
      engineGenerateMasterKey (bls Demo.curveF) RepoDemo.policy (fun _ => 3) 5 = .ok mk ∧ UserKey Demo.curveF RepoDemo.policy mk ap key ∧
      (pubKeyCodec .debug64 Demo.codecs).enc mk.pubKey = .ok pb ∧ pb.length < 2 ^ 31 ∧
      (userKeyCodec .debug64 Demo.codecs (bls Demo.curveF)).enc key = .ok kb ∧ kb.length < 2 ^ 31 ∧ key.msp.nbRow < 2 ^ 32 - 1 := by
  obtain ⟨mk, hmk, _⟩ := (C18_master_keys_consistent Demo.curveF 100 (fun _ => 3) 5).2 (fun _ _ => by decide)
  have hmk' : engineGenerateMasterKey (bls Demo.curveF) RepoDemo.policy (fun _ => 3) 5 = .ok mk := hmk
  obtain ⟨key, hkey, _⟩ := generate_ok Demo.curveF hmk RepoDemo.policy_reachable (by decide) hv (fun _ => 2)
  have hn : key.msp.nbRow < 100 := by
    have hb : ∀ m, policyToMsp RepoDemo.policy ap = .ok m → m.nbRow < 100 := by
      intro m hm
      rw [hm] at hrow
      simpa using hrow
    unfold engineGenerateUserKey at hkey
    obtain ⟨m, hm, h⟩ := Res.bind_eq_ok.1 hkey
    obtain ⟨n, hn⟩ := policyToMsp_toMsp hm
    rw [(keyGeneration_shape Demo.curveF hn h).2]
    exact hb m hm
  obtain ⟨_, hpub, _⟩ := C24_generated_keys_round_trip (t := .debug64) Demo.codecs_lawful Demo.curveF hmk' (by decide) (by decide)
  have hu : UserKey Demo.curveF RepoDemo.policy mk ap key := .generate _ hkey
  obtain ⟨kb, k1, k2, _⟩ := C25_user_key_round_trip (t := .debug64) Demo.codecs_lawful Demo.curveF hu.obtained (by omega)
  obtain ⟨pb, p1, p2, _⟩ := hpub
  refine ⟨mk, key, pb, kb, hmk', hu, p1, ?_, k1, ?_, by omega⟩
  · obtain ⟨tI, hlen, _, rfl⟩ := generateMasterKey_inv Demo.curveF hmk
    rw [p2]
    simp only [pubKeyCodec]
    rw [vecLen_eq Demo.codecs_lawful.g2 (by rintro h; simp [pubOf] at h; simp [h] at hlen), Demo.codecs_lawful.gt.len]
    simp [pubOf, hlen]
  · have hs := obtained_shape Demo.curveF hu.obtained
    have hr := hs.raw
    have h0 : key.rawDI ≠ [] := by
      intro h0
      have := hs.regular.row_pos
      rw [h0] at hr
      simp at hr
      omega
    have hc := hs.cols
    rw [k2]
    simp only [userKeyCodec]
    rw [vecLen_eq Demo.codecs_lawful.g3 h0]
    have : mspLen Demo.codecs.scalar key.msp ≤ 8 + key.msp.nbRow * key.msp.nbCol * 32 + key.msp.nbRow * 4 := by
      unfold mspLen
      split
      · rw [Demo.codecs_lawful.scalar.len]
      · omega
    have hmul : key.msp.nbRow * key.msp.nbCol ≤ 100 * 100 := Nat.mul_le_mul (by omega) (by omega)
    omega

/-- With the key for `Top Secret && (MKG || FIN)` both tests succeed, with the key for `Medium Secret && HR` both fail; whatever the randomness and the state. -/
example : ∃ (pb kb kb' : Bytes), ∀ (random s : Demo.F) (nonce : Demo.SymNonce) (st : Process Demo.F Demo.F Demo.F Demo.F Demo.F),
    test demo pb RepoDemo.policy [97] kb random s nonce st = .ok () ∧ testUsingCache demo pb RepoDemo.policy [97] kb random s nonce st = .ok () ∧
    test demo pb RepoDemo.policy [97] kb' random s nonce st ≠ .ok () ∧ testUsingCache demo pb RepoDemo.policy [97] kb' random s nonce st ≠ .ok () := by
  obtain ⟨mk, key, pb, kb, h1, h2, h3, h4, h5, h6, h7⟩ := files (ap := RepoDemo.topMkgFin) (by decide +kernel) (by decide +kernel)
  obtain ⟨mk', key', pb', kb', h1', h2', h3', h4', h5', h6', h7'⟩ := files (ap := RepoDemo.mediumHr) (by decide +kernel) (by decide +kernel)
  obtain rfl : mk = mk' := by rw [h1] at h1'; exact Res.ok.inj h1'
  refine ⟨pb, kb, kb', fun random s nonce st => ?_⟩
  have hmeta : Demo.symmetric.Keeps RepoHybrid.metaData := ⟨[0, 0, 0, 9, 1, 2, 3, 4, 5, 6, 7, 8, 9, 10, 11, 12, 13, 14], by decide, by decide⟩
  have t1 := C74_ffi (lib := demo) Demo.curveF rfl (by decide) Demo.codecs_lawful Demo.symmetric_lawful rfl RepoDemo.policy_reachable (by decide) (by decide) (by decide)
    (by decide +kernel) h1 h2 h3 h4 h5 h6 h7 (pj := [112]) (aj := [97]) rfl rfl (by decide) (by decide +kernel) rfl (by decide) (by decide +kernel) hmeta
    ⟨[0, 0, 0, 9, 1, 2, 3, 4, 5, 6, 7, 8, 9, 10, 11, 12, 13, 14], by decide, by decide, fun _ _ => ⟨_, rfl⟩⟩ random s nonce st
  have t2 := C74_ffi (lib := demo) Demo.curveF rfl (by decide) Demo.codecs_lawful Demo.symmetric_lawful rfl RepoDemo.policy_reachable (by decide) (by decide) (by decide)
    (by decide +kernel) h1 h2' h3 h4 h5' h6' h7' (pj := [112]) (aj := [97]) rfl rfl (by decide) (by decide +kernel) rfl (by decide) (by decide +kernel) hmeta
    ⟨[0, 0, 0, 9, 1, 2, 3, 4, 5, 6, 7, 8, 9, 10, 11, 12, 13, 14], by decide, by decide, fun _ _ => ⟨_, rfl⟩⟩ random s nonce st
  have s1 : RepoDemo.topMkgFin.Sat RepoDemo.policy (· ∈ RepoHybrid.attributes) := by decide +kernel
  have s2 : ¬ RepoDemo.mediumHr.Sat RepoDemo.policy (· ∈ RepoHybrid.attributes) := by decide +kernel
  exact ⟨t1.1.2 s1, t1.2.2 s1, fun h => s2 (t2.1.1 h), fun h => s2 (t2.2.1 h)⟩

end RepoFfi

end Abe
