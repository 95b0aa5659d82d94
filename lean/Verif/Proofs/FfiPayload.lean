import Verif.Proofs.FfiHeader
import Verif.Proofs.Hybrid

set_option linter.unusedSectionVars false

/-!
# The answers of the C interface
-/

namespace Abe
open Prog

section
variable {E D α β : Type}

theorem readStr_bind_eq_pure {p : Option Bytes} {m : Bytes} {dec : Bytes → Option α} {f : α → Prog E D β} {b : β} {un : Option α → Prog E D α}
    (hun : ∀ x a, un x = pure a ↔ x = some a) (hc : ∀ x, Const (un x)) :
    (readStr p m >>= fun s => un (dec s) >>= f : Prog E D β) = pure b ↔ ∃ a, StrArg p dec a ∧ f a = pure b := by
  rw [(const_readStr p m).bind_eq_pure]
  constructor
  · rintro ⟨s, h1, h2⟩
    obtain ⟨h1, h3⟩ := readStr_eq_pure.1 h1
    obtain ⟨a, h4, h5⟩ := (hc _).bind_eq_pure.1 h2
    exact ⟨a, ⟨s, h1, h3, (hun _ _).1 h4⟩, h5⟩
  · rintro ⟨a, ⟨s, h1, h3, h4⟩, h5⟩
    exact ⟨s, readStr_eq_pure.2 ⟨h1, h3⟩, (hc _).bind_eq_pure.2 ⟨a, (hun _ _).2 h4, h5⟩⟩

theorem StrArg.ne_none {p : Option Bytes} {dec : Bytes → Option α} {a : α} (h : StrArg p dec a) : p ≠ none := by
  obtain ⟨s, h, _⟩ := h
  exact h.ne_none

theorem BytesArg.not_missing {p : InBuf} {dec : Bytes → Out α} {a : α} (h : BytesArg p dec a) : ¬ p.Missing := by
  obtain ⟨s, h, h0, _⟩ := h
  exact h.not_missing h0

theorem isIn_ne_nil {b : InBuf} {x : Bytes} (h : IsIn b x) (hm : ¬ b.Missing) : x ≠ [] := by
  rintro rfl
  obtain ⟨_, _, h2⟩ := h
  exact hm (.inr (int32_eq_zero.2 h2))

theorem readIn_bind_eq_pure {p : InBuf} {dec : Bytes → Out α} {f : α → Prog E D β} {b : β} {un : Out α → Prog E D α}
    (hun : ∀ x a, un x = pure a ↔ x = .ok a) (hc : ∀ x, Const (un x)) (hm : ¬ p.Missing) :
    (readIn p >>= fun s => un (dec s) >>= f : Prog E D β) = pure b ↔ ∃ a, BytesArg p dec a ∧ f a = pure b := by
  rw [(const_readIn p).bind_eq_pure]
  constructor
  · rintro ⟨s, h1, h2⟩
    have h1 := readIn_eq_pure.1 h1
    obtain ⟨a, h4, h5⟩ := (hc _).bind_eq_pure.1 h2
    exact ⟨a, ⟨s, h1, isIn_ne_nil h1 hm, (hun _ _).1 h4⟩, h5⟩
  · rintro ⟨a, ⟨s, h1, h3, h4⟩, h5⟩
    exact ⟨s, readIn_eq_pure.2 h1, (hc _).bind_eq_pure.2 ⟨a, (hun _ _).2 h4, h5⟩⟩

theorem notNull_bind_eq_pure {p : Option Bytes} {m : String} {f : Unit → Prog E D β} {b : β} :
    (notNull p m >>= f : Prog E D β) = pure b ↔ p ≠ none ∧ f () = pure b := by
  rw [(const_notNull p m).bind_eq_pure]
  exact ⟨fun ⟨_, h1, h2⟩ => ⟨notNull_eq_pure.1 h1, h2⟩, fun ⟨h1, h2⟩ => ⟨(), notNull_eq_pure.2 h1, h2⟩⟩

theorem checkIn_bind_eq_pure {p : InBuf} {m m' : String} {f : Unit → Prog E D β} {b : β} :
    (checkIn p m m' >>= f : Prog E D β) = pure b ↔ ¬ p.Missing ∧ f () = pure b := by
  rw [(const_checkIn p m m').bind_eq_pure]
  exact ⟨fun ⟨_, h1, h2⟩ => ⟨checkIn_eq_pure.1 h1, h2⟩, fun ⟨h1, h2⟩ => ⟨(), checkIn_eq_pure.2 h1, h2⟩⟩

theorem pure_eq_pure {a b : α} : (pure a : Prog E D α) = pure b ↔ a = b := ⟨pure_inj, fun h => by rw [h]⟩

end

section
variable {K G1 G2 G3 Gt Key Nonce : Type} [Field K] [DecidableEq K] {lib : FfiLib K G1 G2 G3 Gt Key Nonce}

theorem libUnwrap_bind_eq_pure {α β : Type} {x : Out α} {f : α → Foreign K G1 G2 G3 Gt β} {b : β} :
    (lib.unwrap x >>= f) = pure b ↔ ∃ a, x = .ok a ∧ f a = pure b := by
  rw [(const_libUnwrap x).bind_eq_pure]
  exact ⟨fun ⟨a, h1, h2⟩ => ⟨a, libUnwrap_eq_pure.1 h1, h2⟩, fun ⟨a, h1, h2⟩ => ⟨a, libUnwrap_eq_pure.2 h1, h2⟩⟩

theorem strArg_bind {α β : Type} {p : Option Bytes} {m : Bytes} {dec : Bytes → Option α} {f : α → Foreign K G1 G2 G3 Gt β} {b : β} :
    (readStr p m >>= fun s => lib.json (dec s) >>= f) = pure b ↔ ∃ a, StrArg p dec a ∧ f a = pure b :=
  readStr_bind_eq_pure (fun _ _ => json_eq_pure) const_json

theorem bytesArg_bind {α β : Type} {p : InBuf} {dec : Bytes → Out α} {f : α → Foreign K G1 G2 G3 Gt β} {b : β} (hm : ¬ p.Missing) :
    (readIn p >>= fun s => lib.unwrap (dec s) >>= f) = pure b ↔ ∃ a, BytesArg p dec a ∧ f a = pure b :=
  readIn_bind_eq_pure (fun _ _ => libUnwrap_eq_pure) const_libUnwrap hm

theorem masterKeysPayload_iff {policy : Option Bytes} {rnd : Nat → K} {y : K} {b : Bytes} :
    masterKeysPayload lib policy rnd y = pure b ↔ MasterKeysAnswer lib policy rnd y b := by
  have hb : ∀ l : Nat, bigEndian (be32 l.toUInt32) = l % 2 ^ 32 := by
    intro l
    rw [bigEndian_be32]
    simp [Nat.toUInt32]
  unfold masterKeysPayload
  rw [notNull_bind_eq_pure, strArg_bind]
  constructor
  · rintro ⟨_, p, hp, h⟩
    obtain ⟨mk, h1, h⟩ := libUnwrap_bind_eq_pure.1 h
    obtain ⟨priv, h2, h⟩ := libUnwrap_bind_eq_pure.1 h
    obtain ⟨pub, h3, h⟩ := libUnwrap_bind_eq_pure.1 h
    exact ⟨p, mk, be32 priv.length.toUInt32, priv, pub, hp, h1, h2, h3, be32_length _, hb _, (pure_inj h).symm⟩
  · rintro ⟨p, mk, head, priv, pub, hp, h1, h2, h3, h4, h5, rfl⟩
    refine ⟨hp.ne_none, p, hp, libUnwrap_bind_eq_pure.2 ⟨mk, h1, libUnwrap_bind_eq_pure.2 ⟨priv, h2, libUnwrap_bind_eq_pure.2
      ⟨pub, h3, ?_⟩⟩⟩⟩
    have : head = be32 priv.length.toUInt32 := by
      have h6 := be32_ofBe32 (b := head) (by omega)
      rw [List.take_of_length_le (by omega)] at h6
      rw [← h6]
      congr 1
      apply UInt32.toNat_inj.1
      rw [← bigEndian_eq h4, h5]
      simp [Nat.toUInt32]
    rw [this]; rfl

theorem userKeyPayload_iff {priv : InBuf} {accessPolicy policy : Option Bytes} {rnd : Nat → K} {b : Bytes} :
    userKeyPayload lib priv accessPolicy policy rnd = pure b ↔ UserKeyAnswer lib priv accessPolicy policy rnd b := by
  unfold userKeyPayload
  rw [checkIn_bind_eq_pure, notNull_bind_eq_pure, notNull_bind_eq_pure]
  constructor
  · rintro ⟨h1, h2, h3, h⟩
    obtain ⟨sk, h4, h⟩ := (bytesArg_bind h1).1 h
    obtain ⟨ap, h5, h⟩ := strArg_bind.1 h
    obtain ⟨p, h6, h⟩ := strArg_bind.1 h
    obtain ⟨key, h7, h⟩ := libUnwrap_bind_eq_pure.1 h
    exact ⟨p, sk, ap, key, h6, h4, h5, h7, libUnwrap_eq_pure.1 h⟩
  · rintro ⟨p, sk, ap, key, h6, h4, h5, h7, h⟩
    exact ⟨h4.not_missing, h5.ne_none, h6.ne_none, (bytesArg_bind h4.not_missing).2 ⟨sk, h4, strArg_bind.2 ⟨ap, h5, strArg_bind.2
      ⟨p, h6, libUnwrap_bind_eq_pure.2 ⟨key, h7, libUnwrap_eq_pure.2 h⟩⟩⟩⟩⟩

theorem ffiRotate_iff {p p' : Policy} {as : List Attribute} : ffiRotate lib p as = pure p' ↔ Policy.Rotations p as p' := by
  induction as generalizing p with
  | nil =>
    rw [ffiRotate, pure_eq_pure]
    exact ⟨fun h => h ▸ .nil _, fun h => by cases h; rfl⟩
  | cons a as ih =>
    rw [ffiRotate, (const_json _).bind_eq_pure]
    constructor
    · rintro ⟨p1, h1, h2⟩
      exact .cons (json_eq_pure.1 h1) (ih.1 h2)
    · intro h
      cases h with
      | cons h1 h2 => exact ⟨_, json_eq_pure.2 h1, ih.2 h2⟩

theorem rotatePayload_iff {attributes policy : Option Bytes} {b : Bytes} :
    rotatePayload lib attributes policy = pure b ↔ RotationAnswer lib attributes policy b := by
  unfold rotatePayload
  rw [notNull_bind_eq_pure, notNull_bind_eq_pure]
  constructor
  · rintro ⟨_, _, h⟩
    obtain ⟨atts, h1, h⟩ := strArg_bind.1 h
    obtain ⟨p, h2, h⟩ := strArg_bind.1 h
    obtain ⟨p', h3, h⟩ := (const_ffiRotate _ _).bind_eq_pure.1 h
    exact ⟨p, atts, p', h2, h1, ffiRotate_iff.1 h3, policyToString_eq_pure.1 h⟩
  · rintro ⟨p, atts, p', h2, h1, h3, h⟩
    exact ⟨h1.ne_none, h2.ne_none, strArg_bind.2 ⟨atts, h1, strArg_bind.2 ⟨p, h2, (const_ffiRotate _ _).bind_eq_pure.2
      ⟨p', ffiRotate_iff.2 h3, policyToString_eq_pure.2 h⟩⟩⟩⟩

theorem missing_iff {b : InBuf} : (b.mem.isNone ∨ b.len = 0) ↔ b.Missing := by simp [InBuf.Missing]

theorem headerMetadata_iff {a : EncHeaderArgs K Gt Nonce} {md : Metadata} :
    (headerMetadata a : Foreign K G1 G2 G3 Gt Metadata) = pure md ↔ UidArg a.uid md.uid ∧ AdditionalArg a.additional md.additionalData := by
  unfold headerMetadata
  have c1 : Const (if a.uid.mem.isNone ∨ a.uid.len = 0 then pure [] else readIn a.uid : Foreign K G1 G2 G3 Gt Bytes) := by
    split
    exacts [const_pure _, const_readIn _]
  have c2 : Const (if a.additional.mem.isNone ∨ a.additional.len = 0 then pure none
    else do let b ← readIn a.additional; pure (some b) : Foreign K G1 G2 G3 Gt (Option Bytes)) := by
    split
    exacts [const_pure _, (const_readIn _).bind fun _ => const_pure _]
  have e1 : ∀ uid, (if a.uid.mem.isNone ∨ a.uid.len = 0 then pure [] else readIn a.uid : Foreign K G1 G2 G3 Gt Bytes) = pure uid ↔
      UidArg a.uid uid := by
    intro uid
    unfold UidArg
    by_cases h : a.uid.Missing
    · rw [if_pos (missing_iff.2 h), pure_eq_pure]
      exact ⟨fun e => .inl ⟨h, e.symm⟩, fun e => e.elim (fun e => e.2.symm) fun e => absurd h e.1⟩
    · rw [if_neg (mt missing_iff.1 h), readIn_eq_pure]
      exact ⟨fun e => .inr ⟨h, e⟩, fun e => e.elim (fun e => absurd e.1 h) fun e => e.2⟩
  have e2 : ∀ ad, (if a.additional.mem.isNone ∨ a.additional.len = 0 then pure none
    else do let b ← readIn a.additional; pure (some b) : Foreign K G1 G2 G3 Gt (Option Bytes)) = pure ad ↔
      AdditionalArg a.additional ad := by
    intro ad
    unfold AdditionalArg
    by_cases h : a.additional.Missing
    · rw [if_pos (missing_iff.2 h), pure_eq_pure]
      exact ⟨fun e => .inl ⟨h, e.symm⟩, fun e => e.elim (fun e => e.2.symm) fun e => absurd h e.1⟩
    · rw [if_neg (mt missing_iff.1 h), (const_readIn _).bind_eq_pure]
      exact ⟨fun ⟨x, e, e'⟩ => .inr ⟨h, x, readIn_eq_pure.1 e, (pure_inj e').symm⟩, fun e => e.elim (fun e => absurd e.1 h)
        fun ⟨_, x, e, e'⟩ => ⟨x, readIn_eq_pure.2 e, by rw [e']⟩⟩
  rw [c1.bind_eq_pure]
  constructor
  · rintro ⟨uid, h1, h⟩
    obtain ⟨ad, h2, h⟩ := c2.bind_eq_pure.1 h
    obtain rfl := pure_inj h
    exact ⟨(e1 _).1 h1, (e2 _).1 h2⟩
  · rintro ⟨h1, h2⟩
    exact ⟨_, (e1 _).2 h1, c2.bind_eq_pure.2 ⟨_, (e2 _).2 h2, rfl⟩⟩

theorem encHeaderPayload_iff {c : EncryptionCache G2 Gt} {a : EncHeaderArgs K Gt Nonce} {kb hb : Bytes} :
    encHeaderPayload lib c a = pure (kb, hb) ↔ HeaderAnswer lib c a kb hb := by
  unfold encHeaderPayload
  rw [strArg_bind]
  constructor
  · rintro ⟨atts, h1, h⟩
    obtain ⟨md, h2, h⟩ := (const_headerMetadata _).bind_eq_pure.1 h
    obtain ⟨h3, h4⟩ := headerMetadata_iff.1 h2
    obtain ⟨hd, h5, h⟩ := libUnwrap_bind_eq_pure.1 h
    have := pure_inj h
    simp only [Prod.mk.injEq] at this
    exact ⟨atts, md.uid, md.additionalData, hd, h1, h3, h4, h5, this.1.symm, this.2.symm⟩
  · rintro ⟨atts, uid, ad, hd, h1, h3, h4, h5, rfl, rfl⟩
    exact ⟨atts, h1, (const_headerMetadata _).bind_eq_pure.2 ⟨⟨uid, ad⟩, headerMetadata_iff.2 ⟨h3, h4⟩, libUnwrap_bind_eq_pure.2
      ⟨hd, h5, rfl⟩⟩⟩

theorem readBlockArgs_iff {a : BlockArgs} {key : Key} {uid data : Bytes} :
    readBlockArgs lib a = pure (key, uid, data) ↔
      BytesArg a.key lib.e.keyDec key ∧ BlockUidArg a.uid uid ∧ IsIn a.data data ∧ data ≠ [] := by
  have c1 : Const (if a.uid.mem.isSome ∧ 0 < a.uid.len.toInt then readIn a.uid else pure [] : Foreign K G1 G2 G3 Gt Bytes) := by
    split
    exacts [const_readIn _, const_pure _]
  have e1 : ∀ uid, (if a.uid.mem.isSome ∧ 0 < a.uid.len.toInt then readIn a.uid else pure [] : Foreign K G1 G2 G3 Gt Bytes) = pure uid ↔
      BlockUidArg a.uid uid := by
    intro uid
    unfold BlockUidArg
    split
    · rename_i h
      obtain ⟨h, h'⟩ := h
      have h0 : a.uid.mem ≠ none := by intro e; simp [e] at h
      rw [readIn_eq_pure]
      constructor
      · intro h2; exact .inr ⟨h', h2⟩
      · rintro (⟨h3 | h3, _⟩ | ⟨_, h3⟩)
        · exact absurd h3 h0
        · omega
        · exact h3
    · rename_i h
      rw [pure_eq_pure]
      constructor
      · rintro rfl
        refine .inl ⟨?_, rfl⟩
        by_contra h2
        push Not at h2
        exact h ⟨Option.isSome_iff_ne_none.2 h2.1, h2.2⟩
      · rintro (⟨_, rfl⟩ | ⟨h3, h4⟩)
        · rfl
        · obtain ⟨rest, h5, _⟩ := h4
          exact absurd ⟨by simp [h5], h3⟩ h
  unfold readBlockArgs
  rw [checkIn_bind_eq_pure]
  constructor
  · rintro ⟨h1, h⟩
    obtain ⟨kb, h2, h⟩ := (const_readIn _).bind_eq_pure.1 h
    obtain ⟨uid', h3, h⟩ := c1.bind_eq_pure.1 h
    obtain ⟨h4, h⟩ := checkIn_bind_eq_pure.1 h
    obtain ⟨data', h5, h⟩ := (const_readIn _).bind_eq_pure.1 h
    obtain ⟨k, h6, h⟩ := libUnwrap_bind_eq_pure.1 h
    have := pure_inj h
    simp only [Prod.mk.injEq] at this
    obtain ⟨rfl, rfl, rfl⟩ := this
    have h2 := readIn_eq_pure.1 h2
    have h5 := readIn_eq_pure.1 h5
    exact ⟨⟨kb, h2, isIn_ne_nil h2 h1, h6⟩, (e1 _).1 h3, h5, isIn_ne_nil h5 h4⟩
  · rintro ⟨⟨kb, h2, h1, h6⟩, h3, h5, h4⟩
    exact ⟨h2.not_missing h1, (const_readIn _).bind_eq_pure.2 ⟨kb, readIn_eq_pure.2 h2, c1.bind_eq_pure.2 ⟨uid, (e1 _).2 h3,
      checkIn_bind_eq_pure.2 ⟨h5.not_missing h4, (const_readIn _).bind_eq_pure.2 ⟨data, readIn_eq_pure.2 h5, libUnwrap_bind_eq_pure.2
      ⟨key, h6, rfl⟩⟩⟩⟩⟩⟩

theorem encryptBlockPayload_iff {a : BlockArgs} {nonce : Nonce} {b : Bytes} :
    encryptBlockPayload lib a nonce = pure b ↔ BlockAnswer lib a nonce b := by
  unfold encryptBlockPayload
  rw [(const_readBlockArgs _).bind_eq_pure]
  constructor
  · rintro ⟨⟨key, uid, data⟩, h1, h2⟩
    obtain ⟨h3, h4, h5, h6⟩ := readBlockArgs_iff.1 h1
    exact ⟨key, uid, data, h3, h4, h5, h6, libUnwrap_eq_pure.1 h2⟩
  · rintro ⟨key, uid, data, h3, h4, h5, h6, h2⟩
    exact ⟨(key, uid, data), readBlockArgs_iff.2 ⟨h3, h4, h5, h6⟩, libUnwrap_eq_pure.2 h2⟩

theorem decryptBlockPayload_iff {a : BlockArgs} {b : Bytes} :
    decryptBlockPayload lib a = pure b ↔ ClearBlockAnswer lib a b := by
  unfold decryptBlockPayload
  rw [(const_readBlockArgs _).bind_eq_pure]
  constructor
  · rintro ⟨⟨key, uid, data⟩, h1, h2⟩
    obtain ⟨h3, h4, h5, h6⟩ := readBlockArgs_iff.1 h1
    exact ⟨key, uid, data, h3, h4, h5, h6, libUnwrap_eq_pure.1 h2⟩
  · rintro ⟨key, uid, data, h3, h4, h5, h6, h2⟩
    exact ⟨(key, uid, data), readBlockArgs_iff.2 ⟨h3, h4, h5, h6⟩, libUnwrap_eq_pure.2 h2⟩

/-- The cache made by the function creating an encryption cache. -/
theorem prepareEncryptionCache_iff {a : EncCacheArgs} {c : EncryptionCache G2 Gt} :
    prepareEncryptionCache lib a = pure c ↔ a.Decodes lib c := by
  unfold prepareEncryptionCache
  rw [notNull_bind_eq_pure, checkIn_bind_eq_pure]
  constructor
  · rintro ⟨_, h1, h⟩
    obtain ⟨p, h2, h⟩ := (readStr_bind_eq_pure (fun _ _ => unwrapOpt_eq_pure) (const_unwrapOpt _)).1 h
    obtain ⟨k, h3, h⟩ := (readIn_bind_eq_pure (fun _ _ => unwrap_eq_pure) (const_unwrap _) h1).1 h
    obtain rfl := pure_inj h
    exact ⟨h2, h3⟩
  · rintro ⟨h2, h3⟩
    exact ⟨h2.ne_none, h3.not_missing, (readStr_bind_eq_pure (fun _ _ => unwrapOpt_eq_pure) (const_unwrapOpt _)).2 ⟨_, h2,
      (readIn_bind_eq_pure (fun _ _ => unwrap_eq_pure) (const_unwrap _) h3.not_missing).2 ⟨_, h3, rfl⟩⟩⟩

theorem const_prepareEncryptionCache (a : EncCacheArgs) : Const (prepareEncryptionCache lib a) :=
  (const_notNull _ _).bind fun _ => (const_checkIn _ _ _).bind fun _ => (const_readStr _ _).bind fun _ =>
    (const_unwrapOpt _ _).bind fun _ => (const_readIn _).bind fun _ => (const_unwrap _ _).bind fun _ => const_pure _

/-- The key held by the function creating a decryption cache. -/
theorem prepareDecryptionCache_iff {a : InBuf} {c : DecryptionKey K G1 G3} :
    prepareDecryptionCache lib a = pure c ↔ KeyDecodes lib a c := by
  unfold prepareDecryptionCache
  rw [checkIn_bind_eq_pure, (const_readIn _).bind_eq_pure]
  constructor
  · rintro ⟨h1, b, h2, h⟩
    have h2 := readIn_eq_pure.1 h2
    exact ⟨b, h2, isIn_ne_nil h2 h1, unwrap_eq_pure.1 h⟩
  · rintro ⟨b, h2, h1, h⟩
    exact ⟨h2.not_missing h1, b, readIn_eq_pure.2 h2, unwrap_eq_pure.2 h⟩

theorem const_prepareDecryptionCache (a : InBuf) : Const (prepareDecryptionCache lib a) :=
  (const_checkIn _ _ _).bind fun _ => (const_readIn _).bind fun _ => const_unwrap _ _

end

end Abe
