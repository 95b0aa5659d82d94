import Verif.Model.RepoBench
import Verif.Props.Repeat
import Verif.Props.Size

/-!
# The benchmarks run to their end

Property C74, continued: the benchmarks of /repo/benches/benches.rs, which use the same buffers and lengths for all their calls, never panic, however often `criterion` runs them.
-/

namespace Abe

set_option linter.unusedSectionVars false

open RepoFfi RepoFiles RepoBench Prog

section
variable {K P Q QP T Key Nonce : Type} [Field K] [DecidableEq K] {lib : FfiLib K QP P Q T Key Nonce}

theorem RepoBench.iter_ok {α β : Type} {f : α → Out β} : ∀ {l : List α}, (∀ a ∈ l, ∃ b, f a = .ok b) → iter f l = .ok ()
  | [], _ => rfl
  | a :: l, h => by
    obtain ⟨b, hb⟩ := h a List.mem_cons_self
    have := RepoBench.iter_ok (f := f) (l := l) fun x hx => h x (List.mem_cons_of_mem _ hx)
    unfold RepoBench.iter at this ⊢
    rw [foldRes_cons, hb]
    exact this

/-- Calls which all succeed, one after the other. -/
theorem RepoBench.iterCalls_ok : ∀ {calls : List (Prog (EncryptionCache P T) (DecryptionKey K QP Q) Int32 × List (Slot × Bytes))} {s : Process K QP P Q T},
    AllSucceed calls s → ∃ s', iterCalls lib (calls.map Prod.fst) s = .ok s'
  | [], s, _ => ⟨s, rfl⟩
  | (call, outs) :: rest, s, ⟨s', h1, _, h2⟩ => by
    obtain ⟨s'', h⟩ := RepoBench.iterCalls_ok h2
    refine ⟨s'', ?_⟩
    unfold iterCalls at h ⊢
    rw [List.map_cons, foldRes_cons, h1, unwrap_ok]
    exact h

/-- A call which fails stops the iterations. -/
theorem RepoBench.iterCalls_not_ok {call : Prog (EncryptionCache P T) (DecryptionKey K QP Q) Int32} {s : Process K QP P Q T} (h : (call.run s).1 ≠ .ret 0) {n : Nat} (hn : n ≠ 0)
    (s' : Process K QP P Q T) : iterCalls lib (List.replicate n call) s ≠ .ok s' := by
  obtain ⟨n, rfl⟩ := Nat.exists_eq_succ_of_ne_zero hn
  intro hx
  unfold iterCalls at hx
  rw [List.replicate_succ, foldRes_cons] at hx
  obtain ⟨s1, h1, _⟩ := Res.bind_eq_ok.1 hx
  cases h2 : unwrapFfiError lib.display (Prog.run call s) with
  | ok s2 => exact unwrap_not_ok h s2 h2
  | _ => rw [h2] at h1; cases h1

end

section
variable {K P Q QP T Key Nonce : Type} [Field K] [DecidableEq K] [AddCommGroup P] [Module K P] [AddCommGroup Q] [Module K Q] [AddCommGroup T] [Module K T]
  {lib : FfiLib K QP P Q T Key Nonce} {tag : Nat}

/-- **C74**, the six benchmarks: for all files containing the public key of a policy that knows the four attributes and a user key of the same master key, whatever the caches and the
last error are, for any number of iterations and all random values, those that encrypt run to their end, the sizes printed by the first being 404 and 508; those that decrypt run to their
end if they do not iterate or the attributes satisfy the access policy of the key, and only then. -/
theorem C74_bench (c : Curve K P Q QP T) (hbm : lib.bm = bls c) (ht : 32 ≤ lib.t.bits) (hcs : lib.cs.Lawful) (he : lib.e.Lawful tag) (h32 : lib.e.keyLen = 32)
    {p : Policy} (hp : p.Reachable) (hlast : p.lastAttributeValue.toNat < p.maxAttributeCreations.toNat) (hmax : 4 < p.maxAttributeCreations.toNat)
    (hmax' : p.maxAttributeCreations.toNat < 2 ^ 32 - 1) (hk : ∀ a ∈ RepoBench.attributes3, p.Known a)
    {rnd : Nat → K} {y : K} {mk : MasterKey K P Q T} (hmk : engineGenerateMasterKey (bls c) p rnd y = .ok mk) {ap : AccessPolicy} {key : DecryptionKey K QP Q}
    (hkey : UserKey c p mk ap key) {pb kb : Bytes}
    (hpe : (pubKeyCodec lib.t lib.cs).enc mk.pubKey = .ok pb) (hpl : pb.length < 2 ^ 31)
    (hke : (userKeyCodec lib.t lib.cs lib.bm).enc key = .ok kb) (hkl : kb.length < 2 ^ 31) (hn : key.msp.nbRow < 2 ^ 32 - 1)
    {pj aj : Bytes} (hpj : lib.serde.policyEnc p = some pj) (hpj' : lib.serde.policyDec pj = some p) (hp0 : 0 ∉ pj) (hpu : validUtf8 pj = true)
    (haj : lib.serde.attributesDec aj = some RepoHybrid.attributes) (ha0 : 0 ∉ aj) (hau : validUtf8 aj = true)
    (hmeta : lib.e.Keeps RepoHybrid.metaData)
    (henc : ∃ mb, lib.e.metaEnc RepoHybrid.metaData = .ok mb ∧ 408 + lib.e.nonceLen + mb.length + tag ≤ 4096 ∧ ∀ k n, ∃ em, lib.e.encrypt k mb n none = .ok em)
    (d d1 d3 : Draw K T Nonce) (l l1 l3 lm : List (Draw K T Nonce)) (n : Nat) (st : Process K QP P Q T) :
    RepoBench.headerEncryption lib pb p d1 d3 l1 l3 lm = .ok (404, 508) ∧
    (∃ st', RepoBench.ffiHeaderEncryption lib pb p aj l st = .ok st') ∧
    (∃ st', RepoBench.ffiHeaderEncryptionUsingCache lib pb p aj l st = .ok st') ∧
    (RepoBench.headerDecryption lib pb p kb d n = .ok () ↔ n = 0 ∨ ap.Sat p (· ∈ RepoHybrid.attributes)) ∧
    ((∃ st', RepoBench.ffiHeaderDecryption lib pb p kb d n st = .ok st') ↔ n = 0 ∨ ap.Sat p (· ∈ RepoHybrid.attributes)) ∧
    ((∃ st', RepoBench.ffiHeaderDecryptionUsingCache lib pb p kb d n st = .ok st') ↔ n = 0 ∨ ap.Sat p (· ∈ RepoHybrid.attributes)) := by
  have hw := reachable_wf hp
  have hmod : 2 ^ 32 ≤ lib.t.modulus := Nat.pow_le_pow_right (by decide) ht
  -- the files
  obtain ⟨_, hpub, _⟩ := C24_generated_keys_round_trip (t := lib.t) hcs c hmk (by rintro h; rw [h] at hmax; simp at hmax) hmax'
  have hpd : (pubKeyCodec lib.t lib.cs).dec pb = .ok mk.pubKey := by
    obtain ⟨b, b1, _, b2⟩ := hpub
    obtain rfl : pb = b := by rw [hpe] at b1; exact Res.ok.inj b1
    have := b2 []
    rw [List.append_nil] at this
    exact this (by omega)
  have hkd : (userKeyCodec lib.t lib.cs lib.bm).dec kb = .ok key := by
    obtain ⟨b, b1, _, b2⟩ := C25_user_key_round_trip (t := lib.t) hcs c hkey.obtained hn
    rw [hbm] at hke ⊢
    obtain rfl : kb = b := by rw [hke] at b1; exact Res.ok.inj b1
    have := b2 []
    rw [List.append_nil] at this
    exact this (by omega)
  -- the headers
  obtain ⟨mb, m1, m2, m3⟩ := henc
  have hsub : ∀ a ∈ RepoHybrid.attributes, p.Known a := fun a ha => hk a (List.mem_append_left _ ha)
  have henc1 : ∀ (md : Option Metadata), (md = none ∨ md = some RepoHybrid.metaData) → ∀ atts : List Attribute, (∀ a ∈ atts, p.Known a) → atts.length < 5 → ∀ d : Draw K T Nonce,
      ∃ h, encryptHybridHeader lib.e (bls c) lib.cs lib.t p mk.pubKey atts md d.random d.s d.nonce = .ok h := by
    intro md hmd atts hka hla d
    obtain ⟨ct, hct⟩ := engineEncrypt_ok c hmk hp hlast hka (by omega) lib.t d.random d.s
    refine C35_header_encrypts c hcs he hw hmk hct (by unfold ciphertextLen; dsimp only; omega) ?_
    rintro m hm
    rcases hmd with rfl | rfl
    · cases hm
    · obtain rfl : RepoHybrid.metaData = m := by simpa using hm
      exact ⟨mb, m1, by omega, fun k => m3 k d.nonce⟩
  have henc2 : ∀ (md : Option Metadata), (md = none ∨ md = some RepoHybrid.metaData) → ∀ atts : List Attribute, (∀ a ∈ atts, p.Known a) → atts.length < 5 → ∀ d : Draw K T Nonce,
      ∃ h, RepoBench.encrypt lib p mk.pubKey atts md d = .ok h := by
    intro md hmd atts hka hla d
    obtain ⟨h, hh⟩ := henc1 md hmd atts hka hla d
    refine ⟨h, ?_⟩
    unfold RepoBench.encrypt
    rw [hbm, hh]
    rfl
  -- the arguments
  have hpn : pb ≠ [] := by
    rintro rfl
    obtain ⟨b, b1, b2, _⟩ := hpub
    obtain rfl : [] = b := by rw [hpe] at b1; exact Res.ok.inj b1
    simp [pubKeyCodec, hcs.gt.len] at b2
  have hkn : kb ≠ [] := by
    rintro rfl
    simp [userKeyCodec] at hkd
  have hdec : EncCacheArgs.Decodes lib ⟨some (pj ++ [0]), pointer pb⟩ ⟨p, mk.pubKey⟩ :=
    ⟨cstring_arg hp0 hpu hpj', pb, pointer_isIn hpl, hpn, hpd⟩
  have hkdec : KeyDecodes lib (pointer kb) key := ⟨kb, pointer_isIn hkl, hkn, hkd⟩
  have hatts : StrArg (some (aj ++ [0])) lib.serde.attributesDec RepoHybrid.attributes := cstring_arg ha0 hau haj
  have huid : UidArg (pointer RepoHybrid.metaData.uid) RepoHybrid.metaData.uid :=
    .inr ⟨by rintro (h | h) <;> revert h <;> decide, pointer_isIn (by decide)⟩
  have had : AdditionalArg (pointer [10, 11, 12, 13, 14]) (some [10, 11, 12, 13, 14]) :=
    .inr ⟨by rintro (h | h) <;> revert h <;> decide, _, pointer_isIn (by decide), rfl⟩
  have hpol : policyString lib p = .ok (some (pj ++ [0])) := by simp only [policyString, hpj]; exact cstring_ok hp0
  -- the calls that encrypt
  choose H hH using henc1 (some RepoHybrid.metaData) (.inr rfl) RepoHybrid.attributes hsub (by decide)
  have hcalls := fun (s0 : Process K QP P Q T) (g1 : s0.mem.slots .symKey = zeros 32) (g2 : s0.mem.slots .header = zeros 4096) =>
    C102_encryptions (lib := lib) (by omega) c hbm hcs he (by omega) (by omega) hw hmk hdec hatts (by decide) huid had m1 rfl (by change 300 + 52 * 2 + _ + _ + _ + _ < _; omega)
      (l.map fun d => ((d.random, d.s, d.nonce), H d)) (by
        intro r hr
        obtain ⟨d, _, rfl⟩ := List.mem_map.1 hr
        have := hH d
        rw [← hbm] at this
        exact this) s0 (by rw [g1]; exact zeros_roomFor (by decide) (by decide) (by omega))
      (by rw [g2]; exact zeros_roomFor (by decide) (by decide) (by change 300 + 52 * 2 + _ + _ + _ + _ ≤ _; omega))
  refine ⟨?_, ?_, ?_, ?_⟩
  · obtain ⟨h1, e1⟩ := henc1 none (.inl rfl) RepoHybrid.attributes hsub (by decide) d1
    obtain ⟨h3, e3⟩ := henc1 none (.inl rfl) RepoBench.attributes3 hk (by decide) d3
    have l1 := (C86_readme_header_sizes c hcs he hp hmk e1).1 rfl
    have l3 := (C86_readme_header_sizes c hcs he hp hmk e3).2 rfl
    unfold RepoBench.headerEncryption
    rw [hpd]
    change (do
      let h1 ← RepoBench.encrypt lib p mk.pubKey RepoHybrid.attributes none d1
      _) = _
    rw [show RepoBench.encrypt lib p mk.pubKey RepoHybrid.attributes none d1 = .ok h1 by unfold RepoBench.encrypt; rw [hbm, e1]; rfl, Res.ok_bind,
      show RepoBench.encrypt lib p mk.pubKey RepoBench.attributes3 none d3 = .ok h3 by unfold RepoBench.encrypt; rw [hbm, e3]; rfl, Res.ok_bind,
      iter_ok fun d _ => henc2 none (.inl rfl) _ hsub (by decide) d, Res.ok_bind, iter_ok fun d _ => henc2 none (.inl rfl) _ hk (by decide) d, Res.ok_bind,
      iter_ok fun d _ => henc2 _ (.inr rfl) _ hsub (by decide) d, Res.ok_bind, l1, l3]
    rfl
  · obtain ⟨s', hs'⟩ := iterCalls_ok (lib := lib) (hcalls { st with mem := encryptionMemory } rfl rfl).1
    refine ⟨s', ?_⟩
    rw [List.map_map, List.map_map] at hs'
    unfold RepoBench.ffiHeaderEncryption
    rw [hpd, hpol]
    simp only [unwrapRes, Res.ok_bind]
    rw [hpe]
    simp only [Res.ok_bind]
    rw [cstring_ok ha0]
    exact hs'
  · obtain ⟨s2, hd2, g3, g4⟩ := create_encryption hdec st
    obtain ⟨cache, h1, h2, h3⟩ := createEncryptionCache_ok g3
    obtain rfl : cache = ⟨p, mk.pubKey⟩ := by
      obtain ⟨p', k'⟩ := cache
      obtain rfl : p' = p := h1.1.unique hdec.1
      obtain ⟨x, x1, _, x2⟩ := hdec.2
      obtain rfl : k' = mk.pubKey := x1.bytesArg h1.2 x2
      rfl
    rw [Option.some.inj (h2.symm.trans g4)] at h3
    obtain ⟨s', hs'⟩ := iterCalls_ok (lib := lib) ((hcalls { s2 with mem := encryptionMemory } rfl rfl).2 hd2 h3)
    rw [List.map_map, List.map_map] at hs'
    refine ⟨{ s' with enc := s'.enc.remove hd2 }, ?_⟩
    unfold RepoBench.ffiHeaderEncryptionUsingCache
    rw [hpd, hpol]
    simp only [unwrapRes, Res.ok_bind]
    rw [hpe]
    simp only [Res.ok_bind]
    rw [g3, unwrap_ok]
    simp only [Res.ok_bind]
    rw [show handleOf s2 = .ok hd2 by simp [handleOf, g4], Res.ok_bind, cstring_ok ha0]
    change (do
      let st ← iterCalls lib (l.map _) { s2 with mem := encryptionMemory }
      _) = _
    refine Eq.trans (congrArg (fun x => x >>= _) hs') ?_
    rfl
  -- the decryptions
  · have hgen : RepoBench.generateEncryptedHeader lib pb p d = .ok (H d) := by
      unfold RepoBench.generateEncryptedHeader RepoBench.encrypt
      rw [hpd, hbm]
      exact congrArg unwrapRes (hH d)
    have hl : (H d).encryptedHeaderBytes.length = 300 + 52 * 2 + lib.e.nonceLen + 4 + mb.length + tag :=
      (C36_length c hcs he hw hmk (by decide) (hH d)).2 RepoHybrid.metaData rfl mb m1
    have hne : (H d).encryptedHeaderBytes ≠ [] := by intro h0; rw [h0] at hl; simp at hl; omega
    obtain ⟨s5, hd5, g9, g10⟩ := create_decryption hkdec st
    have hget : s5.dec.get hd5 = some key := by
      obtain ⟨key', h1, h2, h3⟩ := createDecryptionCache_ok g9
      rw [g10, Option.some.injEq] at h2
      subst h2
      obtain ⟨x, x1, _, x2⟩ := hkdec
      obtain rfl := x1.bytesArg h1 x2
      exact h3
    have e1 : ∀ n, RepoBench.headerDecryption lib pb p kb d n =
        RepoBench.iter (fun _ => unwrapRes (decryptHybridHeader lib.e lib.bm lib.cs lib.t key (H d).encryptedHeaderBytes)) (List.replicate n ()) := by
      intro n
      unfold RepoBench.headerDecryption
      rw [hgen, Res.ok_bind, hkd]
      rfl
    have e2 : RepoBench.ffiHeaderDecryption lib pb p kb d n st =
        iterCalls lib (List.replicate n (hDecryptHeader lib (pointer (H d).encryptedHeaderBytes) (pointer kb))) { st with mem := decryptionMemory } := by
      unfold RepoBench.ffiHeaderDecryption
      rw [hgen, Res.ok_bind, hkd]
      simp only [unwrapRes, Res.ok_bind]
      rw [hke]
      rfl
    have e3 : RepoBench.ffiHeaderDecryptionUsingCache lib pb p kb d n st =
        (iterCalls lib (List.replicate n (hDecryptHeaderUsingCache lib (pointer (H d).encryptedHeaderBytes) hd5)) { s5 with mem := decryptionMemory } >>=
          fun s => .ok { s with dec := s.dec.remove hd5 }) := by
      unfold RepoBench.ffiHeaderDecryptionUsingCache
      rw [hgen, Res.ok_bind, hkd]
      simp only [unwrapRes, Res.ok_bind]
      rw [hke]
      simp only [Res.ok_bind]
      rw [g9, unwrap_ok]
      simp only [Res.ok_bind]
      rw [show handleOf s5 = .ok hd5 by simp [handleOf, g10], Res.ok_bind]
      rfl
    rw [e1, e2, e3]
    by_cases hn0 : n = 0
    · subst hn0
      exact ⟨iff_of_true rfl (.inl rfl), iff_of_true ⟨_, rfl⟩ (.inl rfl), iff_of_true ⟨_, rfl⟩ (.inl rfl)⟩
    by_cases hsat : ap.Sat p (· ∈ RepoHybrid.attributes)
    · have hd := C35_header_round_trip (t' := lib.t) c ht hcs he hw hmk hkey (md := some RepoHybrid.metaData) (by
        rintro m hm
        obtain rfl : RepoHybrid.metaData = m := by simpa using hm
        exact hmeta) (hH d) hsat
      rw [← hbm] at hd
      have hA : ClearHeaderAnswer lib key (pointer (H d).encryptedHeaderBytes) (lib.e.keyEnc (H d).symmetricKey) RepoHybrid.metaData.uid RepoHybrid.metaData.additionalData :=
        ⟨_, ⟨_, pointer_isIn (by omega), hne, hd⟩, rfl, rfl, rfl⟩
      have hkk : (lib.e.keyEnc (H d).symmetricKey).length = 32 := by rw [he.keyEnc_length, h32]
      have hall := fun (s0 : Process K QP P Q T) (g1 : s0.mem = decryptionMemory) =>
        C102_decryptions (lib := lib) (by omega) hkdec hA (by intro h0; rw [h0] at hkk; simp at hkk) (by omega) (by decide) (by decide) n s0
          (by rw [g1]; exact zeros_room (by decide) (by decide) (by omega)) (by rw [g1]; exact zeros_room (by decide) (by decide) (by decide))
          (by rw [g1]; exact zeros_room (by decide) (by decide) (by decide))
      obtain ⟨s', h1⟩ := iterCalls_ok (lib := lib) (hall { st with mem := decryptionMemory } rfl).1
      obtain ⟨s'', h2⟩ := iterCalls_ok (lib := lib) ((hall { s5 with mem := decryptionMemory } rfl).2 hd5 hget)
      rw [List.map_replicate] at h1 h2
      refine ⟨iff_of_true ?_ (.inr hsat), iff_of_true ⟨s', h1⟩ (.inr hsat), iff_of_true ⟨{ s'' with dec := s''.dec.remove hd5 }, ?_⟩ (.inr hsat)⟩
      · refine iter_ok fun _ _ => ?_
        rw [hd]
        exact ⟨_, rfl⟩
      · exact congrArg (fun x => x >>= _) h2
    · obtain ⟨h4, _⟩ := C39_unauthorised (t' := lib.t) c ht hcs hw hmk hkey (hH d) hsat
      have hnever : NeverWrites (hDecryptHeader lib (pointer (H d).encryptedHeaderBytes) (pointer kb)) := by
        rcases C47_decrypt_header (lib := lib) (by omega) (pointer (H d).encryptedHeaderBytes) (pointer kb) with ⟨key', kb', uid', ad', f1, ⟨h', f2, _⟩, _⟩ | ⟨_, f1⟩
        · obtain rfl := (pointer_isIn hkl).bytesArg f1 hkd
          obtain ⟨x, f3, _, f4⟩ := f2
          obtain rfl := (pointer_isIn (x := (H d).encryptedHeaderBytes) (by omega)).unique f3
          rw [hbm] at f4
          exact absurd f4 (h4 h')
        · exact f1
      have hno : ¬ (n = 0 ∨ ap.Sat p (· ∈ RepoHybrid.attributes)) := by
        rintro (h | h)
        · exact hn0 h
        · exact hsat h
      refine ⟨iff_of_false ?_ hno, iff_of_false ?_ hno, iff_of_false ?_ hno⟩
      · obtain ⟨n, rfl⟩ := Nat.exists_eq_succ_of_ne_zero hn0
        intro hx
        unfold RepoBench.iter at hx
        rw [List.replicate_succ, foldRes_cons] at hx
        obtain ⟨_, h1, _⟩ := Res.bind_eq_ok.1 hx
        obtain ⟨x, h1, _⟩ := Res.bind_eq_ok.1 h1
        rw [hbm] at h1
        cases h2 : decryptHybridHeader lib.e (bls c) lib.cs lib.t key (H d).encryptedHeaderBytes with
        | ok z => exact h4 z h2
        | _ => rw [h2] at h1; cases h1
      · rintro ⟨s', hx⟩
        exact iterCalls_not_ok (hnever _).1 hn0 s' hx
      · rintro ⟨s', hx⟩
        obtain ⟨s6, hx, _⟩ := Res.bind_eq_ok.1 hx
        refine iterCalls_not_ok ?_ hn0 s6 hx
        rw [C46_created_decryption g9 g10 (s := { s5 with mem := decryptionMemory }) rfl]
        exact (hnever _).1

end

/-! ### Concrete cases -/

namespace RepoBench

/-- With the key for `Top Secret && (MKG || FIN)` all benchmarks run to their end, with the key for `Medium Secret && HR` those that decrypt fail; whatever the randomness, the state
and the (positive) number of iterations. -/
example : ∃ (pb kb kb' : Bytes), ∀ (d d1 d3 : Draw Demo.F Demo.F Demo.SymNonce) (l l1 l3 lm : List (Draw Demo.F Demo.F Demo.SymNonce)) (n : Nat)
    (st : Process Demo.F Demo.F Demo.F Demo.F Demo.F),
    headerEncryption demo pb RepoDemo.policy d1 d3 l1 l3 lm = .ok (404, 508) ∧ (∃ st', ffiHeaderEncryption demo pb RepoDemo.policy [97] l st = .ok st') ∧
    (∃ st', ffiHeaderEncryptionUsingCache demo pb RepoDemo.policy [97] l st = .ok st') ∧
    headerDecryption demo pb RepoDemo.policy kb d n = .ok () ∧ (∃ st', ffiHeaderDecryption demo pb RepoDemo.policy kb d n st = .ok st') ∧
    (∃ st', ffiHeaderDecryptionUsingCache demo pb RepoDemo.policy kb d n st = .ok st') ∧
    headerDecryption demo pb RepoDemo.policy kb' d (n + 1) ≠ .ok () ∧ ¬ (∃ st', ffiHeaderDecryption demo pb RepoDemo.policy kb' d (n + 1) st = .ok st') ∧
    ¬ (∃ st', ffiHeaderDecryptionUsingCache demo pb RepoDemo.policy kb' d (n + 1) st = .ok st') := by
  obtain ⟨mk, key, pb, kb, h1, h2, h3, h4, h5, h6, h7⟩ := files (ap := RepoDemo.topMkgFin) (by decide +kernel) (by decide +kernel)
  obtain ⟨mk', key', pb', kb', h1', h2', h3', h4', h5', h6', h7'⟩ := files (ap := RepoDemo.mediumHr) (by decide +kernel) (by decide +kernel)
  obtain rfl : mk = mk' := by rw [h1] at h1'; exact Res.ok.inj h1'
  refine ⟨pb, kb, kb', fun d d1 d3 l l1 l3 lm n st => ?_⟩
  have hmeta : Demo.symmetric.Keeps RepoHybrid.metaData := ⟨[0, 0, 0, 9, 1, 2, 3, 4, 5, 6, 7, 8, 9, 10, 11, 12, 13, 14], by decide, by decide⟩
  obtain ⟨t1, t2, t3, t4, t5, t6⟩ := C74_bench (lib := demo) Demo.curveF rfl (by decide) Demo.codecs_lawful Demo.symmetric_lawful rfl RepoDemo.policy_reachable (by decide) (by decide)
    (by decide) (by decide +kernel) h1 h2 h3 h4 h5 h6 h7 (pj := [112]) (aj := [97]) rfl rfl (by decide) (by decide +kernel) rfl (by decide) (by decide +kernel) hmeta
    ⟨[0, 0, 0, 9, 1, 2, 3, 4, 5, 6, 7, 8, 9, 10, 11, 12, 13, 14], by decide, by decide, fun _ _ => ⟨_, rfl⟩⟩ d d1 d3 l l1 l3 lm n st
  obtain ⟨_, _, _, u4, u5, u6⟩ := C74_bench (lib := demo) Demo.curveF rfl (by decide) Demo.codecs_lawful Demo.symmetric_lawful rfl RepoDemo.policy_reachable (by decide) (by decide)
    (by decide) (by decide +kernel) h1 h2' h3 h4 h5' h6' h7' (pj := [112]) (aj := [97]) rfl rfl (by decide) (by decide +kernel) rfl (by decide) (by decide +kernel) hmeta
    ⟨[0, 0, 0, 9, 1, 2, 3, 4, 5, 6, 7, 8, 9, 10, 11, 12, 13, 14], by decide, by decide, fun _ _ => ⟨_, rfl⟩⟩ d d1 d3 l l1 l3 lm (n + 1) st
  have s1 : RepoDemo.topMkgFin.Sat RepoDemo.policy (· ∈ RepoHybrid.attributes) := by decide +kernel
  have s2 : ¬ (n + 1 = 0 ∨ RepoDemo.mediumHr.Sat RepoDemo.policy (· ∈ RepoHybrid.attributes)) := by
    rintro (h | h)
    · omega
    · exact absurd h (by decide +kernel)
  exact ⟨t1, t2, t3, t4.2 (.inr s1), t5.2 (.inr s1), t6.2 (.inr s1), fun h => s2 (u4.1 h), fun h => s2 (u5.1 h), fun h => s2 (u6.1 h)⟩

end RepoBench

end Abe
