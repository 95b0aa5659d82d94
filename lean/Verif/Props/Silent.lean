import Verif.Spec.Silent
import Verif.Spec.Codec
import Verif.Spec.Hybrid
import Verif.Props.DemoHybrid

/-!
# C97: failures tell nothing about secret values
-/

set_option linter.unusedSectionVars false

namespace Abe

section Tools
variable {ε α β α' β' : Type} {R : α → β → Prop} {S : α' → β' → Prop}

theorem SameKind.bind {x : Res ε α} {y : Res ε β} {f : α → Res ε α'} {g : β → Res ε β'} (h : SameKind R x y)
    (hf : ∀ a b, R a b → SameKind S (f a) (g b)) : SameKind S (x >>= f) (y >>= g) := by
  cases h with
  | ok h => exact hf _ _ h
  | err e => exact .err e
  | panic => exact .panic

theorem SameKind.of_eq {x : Res ε α} : SameKind (fun a b => a = b) x x := by
  cases x with
  | ok a => exact .ok rfl
  | err e => exact .err e
  | panic => exact .panic

theorem SameKind.mapRes {f : α → Res ε α'} {g : β → Res ε β'} {l : List α} {m : List β}
    (h : List.Forall₂ R l m) (hf : ∀ a b, R a b → SameKind S (f a) (g b)) : SameKind (List.Forall₂ S) (Abe.mapRes f l) (Abe.mapRes g m) := by
  induction h with
  | nil => exact .ok .nil
  | cons h _ ih =>
    exact (hf _ _ h).bind fun a b hab => ih.bind fun l m hlm => .ok (.cons hab hlm)

theorem SameKind.idx {l : List α} {m : List β} (h : l.length = m.length) (i : Nat) :
    SameKind (ε := ε) (fun a b => l[i]? = some a ∧ m[i]? = some b) (Abe.idx l i) (Abe.idx m i) := by
  unfold Abe.idx
  by_cases hi : i < l.length
  · have hm : i < m.length := h ▸ hi
    rw [List.getElem?_eq_getElem hi, List.getElem?_eq_getElem hm]
    exact .ok ⟨rfl, rfl⟩
  · rw [List.getElem?_eq_none (Nat.le_of_not_lt hi), List.getElem?_eq_none (h ▸ Nat.le_of_not_lt hi)]
    exact .panic

theorem forall₂_same {l : List α} : List.Forall₂ (fun a b => a = b) l l := by
  induction l with
  | nil => exact .nil
  | cons a l ih => exact .cons rfl ih

end Tools

variable {K G1 G2 G3 Gt G1' G2' G3' Gt' : Type} [Field K] [DecidableEq K]

/-! ### Decryption -/

theorem selectRows_same {key : DecryptionKey K G1 G3} {key' : DecryptionKey K G1' G3'} {enc : CipherText G2 Gt} {enc' : CipherText G2' Gt'}
    (hk : key.Alike key') (he : enc.eI.length = enc'.eI.length) : ∀ (attrs : List UInt32) (i : Nat),
    SameKind (fun l l' => (l.map fun p => p.1) = l'.map fun p => p.1) (selectRows key enc attrs i) (selectRows key' enc' attrs i)
  | [], _ => .ok rfl
  | a :: attrs, i => by
    simp only [selectRows, hk.msp]
    cases h : key'.msp.getRowFromAttr a with
    | none => exact selectRows_same hk he attrs (i + 1)
    | some row =>
      refine SameKind.of_eq.bind fun r r' hr => ?_
      refine (SameKind.idx hk.parts row).bind fun d d' _ => ?_
      refine (SameKind.idx he i).bind fun e e' _ => ?_
      refine (selectRows_same hk he attrs (i + 1)).bind fun l l' hl => .ok ?_
      simp only [List.map_cons, hr, hl]

theorem keepNonZero_same {α β : Type} (a : List K) : ∀ (l : List α) (m : List β) (i : Nat), l.length = m.length →
    SameKind (fun _ _ => True) (keepNonZero a l i) (keepNonZero a m i)
  | [], [], _, _ => .ok trivial
  | [], _ :: _, _, h => by simp at h
  | _ :: _, [], _, h => by simp at h
  | x :: l, y :: m, i, h => by
    refine SameKind.of_eq.bind fun r r' hr => ?_
    subst hr
    refine (keepNonZero_same a l m (i + 1) (by simpa using h)).bind fun _ _ _ => ?_
    split
    · exact .ok trivial
    · exact .ok trivial

/-- **C97**: what a decryption does is the same for all ciphertexts with the same labels and all keys with the same matrix: both return an element, both return
none, both the same error, or both panic.  Nothing is assumed of the groups, the ciphertexts or the keys. -/
theorem C97_decrypt (bm : BilinearMap K G1 G2 G3 Gt) (bm' : BilinearMap K G1' G2' G3' Gt') {enc : CipherText G2 Gt} {enc' : CipherText G2' Gt'}
    {key : DecryptionKey K G1 G3} {key' : DecryptionKey K G1' G3'} (he : enc.Alike enc') (hk : key.Alike key') :
    SameKind (fun r r' => r.isSome = r'.isSome) (decrypt bm enc key) (decrypt bm' enc' key') := by
  unfold decrypt
  rw [he.labels]
  refine (selectRows_same hk he.parts enc'.gamma 0).bind fun l l' hl => ?_
  have hlen : l.length = l'.length := by simpa using congrArg List.length hl
  rw [hl]
  refine SameKind.of_eq.bind fun c c' hc => ?_
  subst hc
  cases c with
  | none => exact .ok rfl
  | some a =>
    refine (keepNonZero_same a _ _ 0 (by simpa using hlen)).bind fun _ _ _ => ?_
    refine (keepNonZero_same a _ _ 0 (by simpa using hlen)).bind fun _ _ _ => ?_
    exact .ok rfl

/-! ### Keys and encryption -/

/-- **C97**: whether an encryption succeeds depends on the labels and the number of slots of the public key, not on the message, the scalar or the elements
of the public key; the ciphertexts have the same labels and sizes. -/
theorem C97_encrypt (bm : BilinearMap K G1 G2 G3 Gt) (bm' : BilinearMap K G1' G2' G3' Gt') (t : Target) (msg : Gt) (msg' : Gt') (gamma : List UInt32)
    {pub : MasterPublicKey G2 Gt} {pub' : MasterPublicKey G2' Gt'} (hp : pub.tI.length = pub'.tI.length) (s s' : K) :
    SameKind CipherText.Alike (encrypt bm t msg gamma pub s) (encrypt bm' t msg' gamma pub' s') := by
  unfold encrypt
  rw [hp]
  split
  · exact SameKind.of_eq.bind fun _ _ h => by subst h; exact .err _
  · refine (SameKind.mapRes (S := fun _ _ => True) forall₂_same ?_).bind fun l l' hl => .ok ⟨rfl, hl.length_eq⟩
    rintro i _ rfl
    exact (SameKind.idx hp i.toNat).bind fun _ _ _ => .ok trivial

theorem sharingVector_same (cols : Nat) (x x' : K) (rnd rnd' : Nat → K) :
    SameKind (fun _ _ => True) (sharingVector cols x rnd) (sharingVector cols x' rnd') := by
  match cols with
  | 0 => exact .err _
  | 1 => exact .ok trivial
  | n + 2 => exact .ok trivial

theorem sdiv_same {x y x' y' : K} (h : y = 0 ↔ y' = 0) : SameKind (fun _ _ => True) (sdiv x y) (sdiv x' y') := by
  unfold sdiv
  by_cases hy : y = 0
  · rw [if_pos hy, if_pos (h.mp hy)]
    exact .panic
  · rw [if_neg hy, if_neg fun h' => hy (h.mpr h')]
    exact .ok trivial

/-- **C97**: whether set-up succeeds depends on which draws for the slots are zero only. -/
theorem C97_master_key (bm : BilinearMap K G1 G2 G3 Gt) (bm' : BilinearMap K G1' G2' G3' Gt') (size : Nat) {rnd rnd' : Nat → K}
    (h : ∀ i < size, rnd i = 0 ↔ rnd' i = 0) (y y' : K) :
    SameKind (fun mk mk' => mk.privKey.Alike mk'.privKey ∧ mk.pubKey.tI.length = mk'.pubKey.tI.length ∧
        mk.delKey.invTI.length = mk'.delKey.invTI.length)
      (generateMasterKey bm size rnd y) (generateMasterKey bm' size rnd' y') := by
  have hl : List.Forall₂ (fun a b => a = 0 ↔ b = 0) (genScalars rnd size) (genScalars rnd' size) := by
    unfold genScalars
    rw [List.forall₂_map_left_iff, List.forall₂_map_right_iff, List.forall₂_same]
    exact fun i hi => h i (List.mem_range.mp hi)
  refine (SameKind.mapRes (S := fun _ _ => True) hl fun a b hab => sdiv_same hab).bind fun l l' hll => .ok ?_
  refine ⟨⟨hl.length_eq, fun i => ?_⟩, ?_, ?_⟩
  · simp only [genScalars, List.getElem?_map, Option.map_eq_some_iff]
    constructor
    · rintro ⟨j, hj, hr⟩
      obtain ⟨hi, rfl⟩ := List.getElem?_eq_some_iff.mp hj |>.imp fun h1 h2 => h2
      rw [List.length_range] at hi
      refine ⟨_, hj, (h _ ?_).mp hr⟩
      simpa using hi
    · rintro ⟨j, hj, hr⟩
      obtain ⟨hi, rfl⟩ := List.getElem?_eq_some_iff.mp hj |>.imp fun h1 h2 => h2
      rw [List.length_range] at hi
      refine ⟨_, hj, (h _ ?_).mpr hr⟩
      simpa using hi
  · simpa [BilinearMap.g2GenExpVector] using hl.length_eq
  · simpa [BilinearMap.g3GenExpVector] using hll.length_eq

/-- **C97**: whether a user key can be generated depends on the matrix and on the zero slots of the master key, not on the secrets or the draws. -/
theorem C97_key_generation (bm : BilinearMap K G1 G2 G3 Gt) (bm' : BilinearMap K G1' G2' G3' Gt') (hf : bm.fromI32 = bm'.fromI32) (msp : Msp Int)
    {priv priv' : MasterPrivateKey K} (hp : priv.Alike priv') (rnd rnd' : Nat → K) :
    SameKind DecryptionKey.Alike (keyGeneration bm msp priv rnd) (keyGeneration bm' msp priv' rnd') := by
  unfold keyGeneration
  refine (sharingVector_same msp.nbCol priv.y priv'.y rnd rnd').bind fun u u' _ => ?_
  refine (SameKind.mapRes (S := fun _ _ => True) forall₂_same ?_).bind fun l l' hl => .ok ?_
  · rintro ⟨row, i⟩ _ rfl
    refine SameKind.of_eq.bind fun a a' ha => ?_
    subst ha
    rw [hp.slots]
    split
    · exact .err _
    · refine (SameKind.idx hp.slots a.toNat).bind fun x x' hx => ?_
      refine (sdiv_same ?_).bind fun _ _ _ => .ok trivial
      have := hp.zeros a.toNat
      rw [hx.1, hx.2, Option.some.injEq, Option.some.injEq] at this
      exact this
  · exact ⟨by rw [hf], by simpa using hl.length_eq, by simpa using hl.length_eq⟩

theorem delegateRow_same {I : Type} (bm : BilinearMap K G1 G2 G3 Gt) (bm' : BilinearMap K G1' G2' G3' Gt') (conv : I → K) (msp : Msp I)
    {key : DecryptionKey K G1 G3} {key' : DecryptionKey K G1' G3'} (hk : key.Alike key') {del : DelegationKey G3} {del' : DelegationKey G3'}
    (hd : del.invTI.length = del'.invTI.length) (u u' : List K) (p : List I × Nat) :
    SameKind (fun _ _ => True) (delegateRow bm conv msp key del u p) (delegateRow bm' conv msp key' del' u' p) := by
  obtain ⟨row, i⟩ := p
  unfold delegateRow
  refine SameKind.of_eq.bind fun a a' ha => ?_
  subst ha
  refine (SameKind.idx hd a.toNat).bind fun x x' _ => ?_
  rw [hk.msp]
  cases key'.msp.getRowFromAttr a with
  | none => exact .err _
  | some j => exact (SameKind.idx hk.raw j).bind fun _ _ _ => .ok trivial

/-- **C97**: whether a user key can be delegated depends on the matrices and the number of components, not on the elements or the draws. -/
theorem C97_key_delegation (bm : BilinearMap K G1 G2 G3 Gt) (bm' : BilinearMap K G1' G2' G3' Gt') (hf : bm.fromI32 = bm'.fromI32) (msp : Msp Int)
    {key : DecryptionKey K G1 G3} {key' : DecryptionKey K G1' G3'} (hk : key.Alike key') {del : DelegationKey G3} {del' : DelegationKey G3'}
    (hd : del.invTI.length = del'.invTI.length) (rnd rnd' : Nat → K) :
    SameKind DecryptionKey.Alike (keyDelegation bm msp key del rnd) (keyDelegation bm' msp key' del' rnd') := by
  unfold keyDelegation
  refine (sharingVector_same msp.nbCol 0 0 rnd rnd').bind fun u u' _ => ?_
  refine (SameKind.mapRes (S := fun _ _ => True) forall₂_same ?_).bind fun l l' hl => .ok ?_
  · rintro p _ rfl
    rw [hf]
    exact delegateRow_same bm bm' bm'.fromI32 msp hk hd u u' p
  · exact ⟨by rw [hf], by simpa using hl.length_eq, by simpa using hl.length_eq⟩

/-- **C97**: the same of randomisation. -/
theorem C97_key_randomization (bm : BilinearMap K G1 G2 G3 Gt) (bm' : BilinearMap K G1' G2' G3' Gt')
    {key : DecryptionKey K G1 G3} {key' : DecryptionKey K G1' G3'} (hk : key.Alike key') {del : DelegationKey G3} {del' : DelegationKey G3'}
    (hd : del.invTI.length = del'.invTI.length) (rnd rnd' : Nat → K) :
    SameKind DecryptionKey.Alike (keyRandomization bm key del rnd) (keyRandomization bm' key' del' rnd') := by
  unfold keyRandomization
  rw [hk.msp]
  refine (sharingVector_same key'.msp.nbCol 0 0 rnd rnd').bind fun u u' _ => ?_
  refine (SameKind.mapRes (S := fun _ _ => True) forall₂_same ?_).bind fun l l' hl => .ok ?_
  · rintro p _ rfl
    exact delegateRow_same bm bm' id key'.msp hk hd u u' p
  · exact ⟨rfl, by simpa using hl.length_eq, by simpa using hl.length_eq⟩

/-! ### Through the engine and in bytes -/

/-- **C97**: the engine generates user keys for all master keys, secrets and draws or for none. -/
theorem C97_engine_user_key (bm : BilinearMap K G1 G2 G3 Gt) (bm' : BilinearMap K G1' G2' G3' Gt') (hf : bm.fromI32 = bm'.fromI32) (policy : Policy)
    {priv priv' : MasterPrivateKey K} (hp : priv.Alike priv') (ap : AccessPolicy) (rnd rnd' : Nat → K) :
    SameKind DecryptionKey.Alike (engineGenerateUserKey bm policy priv ap rnd) (engineGenerateUserKey bm' policy priv' ap rnd') := by
  refine SameKind.of_eq.bind fun m m' hm => ?_
  subst hm
  exact C97_key_generation bm bm' hf m hp rnd rnd'

/-- **C97**: the engine delegates all keys with the same matrix or none of them. -/
theorem C97_engine_delegation (bm : BilinearMap K G1 G2 G3 Gt) (bm' : BilinearMap K G1' G2' G3' Gt') (hf : bm.fromI32 = bm'.fromI32) (policy : Policy)
    {key : DecryptionKey K G1 G3} {key' : DecryptionKey K G1' G3'} (hk : key.Alike key') {del : DelegationKey G3} {del' : DelegationKey G3'}
    (hd : del.invTI.length = del'.invTI.length) (ap : AccessPolicy) (rnd rnd' : Nat → K) :
    SameKind DecryptionKey.Alike (engineDelegateUserKey bm policy del key ap rnd) (engineDelegateUserKey bm' policy del' key' ap rnd') := by
  refine SameKind.of_eq.bind fun m m' hm => ?_
  subst hm
  cases m with
  | none => exact C97_key_randomization bm bm' hk hd rnd rnd'
  | some m => exact C97_key_delegation bm bm' hf m hk hd rnd rnd'

/-- **C97**: the engine encrypts all messages for given attributes or none of them. -/
theorem C97_engine_encrypt (bm : BilinearMap K G1 G2 G3 Gt) (bm' : BilinearMap K G1' G2' G3' Gt') (t : Target) (policy : Policy)
    {pub : MasterPublicKey G2 Gt} {pub' : MasterPublicKey G2' Gt'} (hp : pub.tI.length = pub'.tI.length) (attrs : List Attribute) (msg : Gt) (msg' : Gt')
    (s s' : K) : SameKind CipherText.Alike (engineEncrypt bm t policy pub attrs msg s) (engineEncrypt bm' t policy pub' attrs msg' s') := by
  refine SameKind.of_eq.bind fun l l' hl => ?_
  subst hl
  exact C97_encrypt bm bm' t msg msg' l hp s s'

variable {Key Nonce : Type} {e : External Key Nonce} {tag : Nat}

/-- **C97**: recovering a symmetric key from two encapsulations with the same labels, by keys with the same matrix, succeeds for both or fails in the same way for
both, be they true encapsulations or not; the symmetric keys have the same length. -/
theorem C97_symmetric_key (bm : BilinearMap K G1 G2 G3 Gt) (bm' : BilinearMap K G1' G2' G3' Gt') {cs : Codecs K G2 G3 Gt} {cs' : Codecs K G2' G3' Gt'}
    (hcs : cs.Lawful) (hcs' : cs'.Lawful) (hw : e.Lawful tag) (t : Target) {key : DecryptionKey K G1 G3} {key' : DecryptionKey K G1' G3'}
    (hk : key.Alike key') {b b' : Bytes} {x : CipherText G2 Gt} {x' : CipherText G2' Gt'} (hx : (cipherTextCodec t cs).dec b = .ok x)
    (hx' : (cipherTextCodec t cs').dec b' = .ok x') (ha : x.Alike x') (len : Nat) :
    SameKind (fun k k' => k.length = len ∧ k'.length = len) (decryptSymmetricKey e bm cs t key b len) (decryptSymmetricKey e bm' cs' t key' b' len) := by
  unfold decryptSymmetricKey
  rw [hx, hx', Res.ok_bind, Res.ok_bind]
  refine (C97_decrypt bm bm' ha hk).bind fun r r' hr => ?_
  cases r with
  | none =>
    cases r' with
    | none => exact .err _
    | some _ => simp at hr
  | some m =>
    cases r' with
    | none => simp at hr
    | some m' =>
      obtain ⟨c, hc, -⟩ := hcs.gt.enc m
      obtain ⟨c', hc', -⟩ := hcs'.gt.enc m'
      simp only [Res.ofOption, Res.ok_bind, hc, hc']
      exact .ok ⟨hw.shake_length _ _, hw.shake_length _ _⟩

/-- **C97**: a header without metadata opens for all keys with the same matrix and all encapsulations with the same labels, or for none, with the same error:
neither the success of an opening nor its error tells a key of the authority or an encapsulation by the authority from others. -/
theorem C97_header (bm : BilinearMap K G1 G2 G3 Gt) (bm' : BilinearMap K G1' G2' G3' Gt') {cs : Codecs K G2 G3 Gt} {cs' : Codecs K G2' G3' Gt'}
    (hcs : cs.Lawful) (hcs' : cs'.Lawful) (hw : e.Lawful tag) (t : Target) {key : DecryptionKey K G1 G3} {key' : DecryptionKey K G1' G3'}
    (hk : key.Alike key') {b b' : Bytes} (hb : b.length < 2 ^ 32) (hb' : b'.length < 2 ^ 32) {x : CipherText G2 Gt} {x' : CipherText G2' Gt'}
    (hx : (cipherTextCodec t cs).dec b = .ok x) (hx' : (cipherTextCodec t cs').dec b' = .ok x') (ha : x.Alike x') :
    SameKind (fun h h' => h.metaData = h'.metaData) (decryptHybridHeader e bm cs t key (be32 b.length.toUInt32 ++ b))
      (decryptHybridHeader e bm' cs' t key' (be32 b'.length.toUInt32 ++ b')) := by
  have hn : ∀ c : Bytes, c.length < 2 ^ 32 → scanU32 (be32 c.length.toUInt32 ++ c) = .ok (c.length, c) ∧ scanNext c c.length = .ok (c, []) := by
    intro c hc
    constructor
    · simp only [scanU32, scanNext]
      rw [if_pos (by simp [be32])]
      simp only [Res.ok_bind]
      rw [List.take_left' (by simp [be32]), List.drop_left' (by simp [be32])]
      have := ofBe32_be32 c.length.toUInt32 []
      rw [List.append_nil] at this
      rw [this, toNat_toUInt32 hc]
    · simp [scanNext]
  have hl : ∀ c : Bytes, ¬ (be32 c.length.toUInt32 ++ c).length < 4 := by
    intro c
    simp [be32]
  unfold decryptHybridHeader
  rw [if_neg (hl b), if_neg (hl b'), (hn b hb).1, (hn b' hb').1]
  simp only [Res.ok_bind, (hn b hb).2, (hn b' hb').2]
  refine (C97_symmetric_key bm bm' hcs hcs' hw t hk hx hx' ha e.keyLen).bind fun k k' hkk => ?_
  obtain ⟨c, hc, -⟩ := hw.keyDec_size k hkk.1
  obtain ⟨c', hc', -⟩ := hw.keyDec_size k' hkk.2
  simp only [hc, hc', Res.ok_bind, List.isEmpty_nil, if_true]
  exact .ok rfl

/-- **C97**: users of two authorities with the same access policy under the same policy open the same headers without metadata, whoever made them: a key of the wrong
authority is not reported. -/
theorem C97_two_authorities (bm : BilinearMap K G1 G2 G3 Gt) {cs : Codecs K G2 G3 Gt} (hcs : cs.Lawful) (hw : e.Lawful tag) (t : Target)
    {policy : Policy} {ap : AccessPolicy} {priv priv' : MasterPrivateKey K} (hp : priv.Alike priv') {rnd rnd' : Nat → K} {key key' : DecryptionKey K G1 G3}
    (hk : engineGenerateUserKey bm policy priv ap rnd = .ok key) (hk' : engineGenerateUserKey bm policy priv' ap rnd' = .ok key') {b : Bytes}
    (hb : b.length < 2 ^ 32) {x : CipherText G2 Gt} (hx : (cipherTextCodec t cs).dec b = .ok x) :
    SameKind (fun h h' => h.metaData = h'.metaData) (decryptHybridHeader e bm cs t key (be32 b.length.toUInt32 ++ b))
      (decryptHybridHeader e bm cs t key' (be32 b.length.toUInt32 ++ b)) := by
  have h := C97_engine_user_key bm bm rfl policy hp ap rnd rnd'
  rw [hk, hk'] at h
  cases h with
  | ok h => exact C97_header bm bm hcs hcs hw t h hb hb hx hx ⟨rfl, rfl⟩

/-! ### Concrete cases -/

/-- Two master keys without zero slots are alike: those of two authorities with the draws 2, 3, 4, … and 1, 1, 1, …. -/
theorem Demo.masters_alike : Demo.mkF.privKey.Alike ⟨List.replicate Demo.mkF.privKey.tI.length 1, 9⟩ := by
  constructor
  · rw [List.length_replicate]
  · intro i
    constructor
    · intro h
      exact absurd (List.mem_of_getElem? h) (by decide +kernel)
    · intro h
      exact absurd (List.eq_of_mem_replicate (List.mem_of_getElem? h)) (by decide +kernel)

open Demo in
/-- A user key of one authority and the key of the other one for the same access policy: both open the header of the first authority, to different keys. -/
example : ∃ key key' h k k', engineGenerateUserKey (bls curveF) policy mkF.privKey ap drawsF = .ok key ∧
    engineGenerateUserKey (bls curveF) policy ⟨List.replicate mkF.privKey.tI.length 1, 9⟩ ap drawsF = .ok key' ∧
    encryptHybridHeader symmetric (bls curveF) codecs .debug64 policy mkF.pubKey [low, hr] none 5 7 Demo.nonce = .ok h ∧
    decryptHybridHeader symmetric (bls curveF) codecs .debug64 key h.encryptedHeaderBytes = .ok k ∧
    decryptHybridHeader symmetric (bls curveF) codecs .debug64 key' h.encryptedHeaderBytes = .ok k' ∧ k.symmetricKey = h.symmetricKey ∧
    k'.symmetricKey ≠ h.symmetricKey := by
  obtain ⟨key, hk⟩ := keyF_exists
  obtain ⟨key', hk'⟩ : ∃ key', engineGenerateUserKey (bls curveF) policy ⟨List.replicate mkF.privKey.tI.length 1, 9⟩ ap drawsF = .ok key' :=
    exists_of_isOk (by decide +kernel)
  obtain ⟨h, hh⟩ : ∃ h, encryptHybridHeader symmetric (bls curveF) codecs .debug64 policy mkF.pubKey [low, hr] none 5 7 Demo.nonce = .ok h :=
    exists_of_isOk (by decide +kernel)
  have key_ok : (match engineGenerateUserKey (bls curveF) policy mkF.privKey ap drawsF,
      engineGenerateUserKey (bls curveF) policy ⟨List.replicate mkF.privKey.tI.length 1, 9⟩ ap drawsF,
      encryptHybridHeader symmetric (bls curveF) codecs .debug64 policy mkF.pubKey [low, hr] none 5 7 Demo.nonce with
      | .ok key, .ok key', .ok h =>
        match decryptHybridHeader symmetric (bls curveF) codecs .debug64 key h.encryptedHeaderBytes,
          decryptHybridHeader symmetric (bls curveF) codecs .debug64 key' h.encryptedHeaderBytes with
        | .ok k, .ok k' => decide (k.symmetricKey = h.symmetricKey) && decide (k'.symmetricKey ≠ h.symmetricKey)
        | _, _ => false
      | _, _, _ => false) = true := by decide +kernel
  rw [hk, hk', hh] at key_ok
  simp only at key_ok
  split at key_ok
  · rename_i k k' h1 h2
    simp only [Bool.and_eq_true, decide_eq_true_eq] at key_ok
    exact ⟨key, key', h, k, k', hk, hk', hh, h1, h2, key_ok.1, key_ok.2⟩
  · cases key_ok

open Demo in
/-- The key of the example and one made by another authority are alike; the honest ciphertext of the example and one with all components replaced too. -/
example : ∃ key key' enc, engineGenerateUserKey (bls curveF) policy mkF.privKey ap drawsF = .ok key ∧
    engineGenerateUserKey (bls curveF) policy ⟨List.replicate mkF.privKey.tI.length 1, 9⟩ ap drawsF = .ok key' ∧
    engineEncrypt (bls curveF) .debug64 policy mkF.pubKey [low, hr] 5 7 = .ok enc ∧ key.Alike key' ∧ key.rawDI ≠ key'.rawDI ∧
    enc.Alike (⟨enc.gamma, 0, enc.eI.map fun _ => 4⟩ : CipherText Demo.F Demo.F) := by
  obtain ⟨key, hk⟩ := keyF_exists
  obtain ⟨key', hk'⟩ : ∃ key', engineGenerateUserKey (bls curveF) policy ⟨List.replicate mkF.privKey.tI.length 1, 9⟩ ap drawsF = .ok key' :=
    exists_of_isOk (by decide +kernel)
  obtain ⟨enc, henc⟩ := encF_exists
  have h := C97_engine_user_key (bls curveF) (bls curveF) rfl policy Demo.masters_alike ap drawsF drawsF
  have hne : (match engineGenerateUserKey (bls curveF) policy mkF.privKey ap drawsF,
      engineGenerateUserKey (bls curveF) policy ⟨List.replicate mkF.privKey.tI.length 1, 9⟩ ap drawsF with
      | .ok key, .ok key' => decide (key.rawDI ≠ key'.rawDI)
      | _, _ => false) = true := by decide +kernel
  rw [hk, hk'] at h hne
  cases h with
  | ok h => exact ⟨key, key', enc, hk, hk', henc, h, by simpa using hne, ⟨rfl, by simp⟩⟩

open Demo in
/-- Draws without zero for the eight slots, for the hypothesis of `C97_master_key`. -/
example : ∀ i < 8, drawsF i = 0 ↔ (fun _ => 1 : Nat → Demo.F) i = 0 := by decide +kernel

open Demo in
/-- Delegation keys of two authorities with the same number of slots, for the hypotheses of `C97_engine_delegation`; public keys for `C97_engine_encrypt`. -/
example : mkF.delKey.invTI.length = (⟨List.replicate 8 5⟩ : DelegationKey Demo.F).invTI.length ∧ mkF.delKey.invTI ≠ List.replicate 8 5 ∧
    mkF.pubKey.tI.length = (⟨List.replicate 8 5, 1⟩ : MasterPublicKey Demo.F Demo.F).tI.length := by decide +kernel

end Abe
