import Verif.Proofs.Ffi

set_option linter.unusedSectionVars false

/-!
# The parts of the foreign functions between the checks of the buffers and the output
-/

namespace Abe
open Prog

section
variable {E D α β : Type}

theorem mem_takeWhile {p : α → Bool} {l : List α} {x : α} (h : x ∈ l.takeWhile p) : p x = true := by
  induction l with
  | nil => simp at h
  | cons a l ih =>
    rw [List.takeWhile_cons] at h
    split at h
    · rcases List.mem_cons.1 h with rfl | h
      · assumption
      · exact ih h
    · simp at h

/-- Some state. -/
def anyState : FState E D := ⟨none, .empty, .empty, ⟨fun _ => ⟨none, none⟩, none⟩⟩

theorem pure_inj {a b : α} (h : (pure a : Prog E D α) = pure b) : a = b := by
  have := congrFun h anyState
  simpa [pure_def] using this

theorem stop_ne_pure {e : FfiError} {a : α} (h : (fun s => (.ret 1, { s with err := some e })) = (pure a : Prog E D α)) : False := by
  have := congrFun h anyState
  simp [pure_def] at this

theorem panicked_ne_pure {a : α} (h : (panicked : Prog E D α) = pure a) : False := by
  have := congrFun h anyState
  simp [pure_def, panicked] at this

theorem undefined_ne_pure {a : α} (h : (undefined : Prog E D α) = pure a) : False := by
  have := congrFun h anyState
  simp [pure_def, undefined] at this

theorem bail_ne_pure {m : Bytes} {a : α} (h : (bail m : Prog E D α) = pure a) : False := stop_ne_pure h

/-- A constant program succeeds when its parts do. -/
theorem Prog.Const.bind_eq_pure {p : Prog E D α} {f : α → Prog E D β} (hp : Const p) {b : β} :
    (p >>= f) = pure b ↔ ∃ a, p = pure a ∧ f a = pure b := by
  constructor
  · intro h
    rcases hp with ⟨a, rfl⟩ | ⟨e, rfl⟩ | rfl | rfl
    · exact ⟨a, rfl, h⟩
    · exact (stop_ne_pure (e := e) h).elim
    · exact (panicked_ne_pure h).elim
    · exact (undefined_ne_pure h).elim
  · rintro ⟨a, rfl, h⟩
    exact h

theorem unwrap_eq_pure {m : FormatErr → Bytes} {x : Out α} {a : α} : (unwrap m x : Prog E D α) = pure a ↔ x = .ok a := by
  constructor
  · intro h
    cases x
    · exact congrArg _ (pure_inj h)
    · exact (bail_ne_pure h).elim
    · exact (panicked_ne_pure h).elim
  · rintro rfl; rfl

theorem unwrapOpt_eq_pure {m : Bytes} {x : Option α} {a : α} : (unwrapOpt m x : Prog E D α) = pure a ↔ x = some a := by
  constructor
  · intro h
    cases x
    · exact (bail_ne_pure h).elim
    · exact congrArg _ (pure_inj h)
  · rintro rfl; rfl

theorem notNull_eq_pure {p : Option Bytes} {m : String} : (notNull p m : Prog E D Unit) = pure () ↔ p ≠ none := by
  unfold notNull
  cases p with
  | none =>
    simp only [Option.isNone_none, if_true]
    constructor
    · intro h; exact (stop_ne_pure (e := .nullPointer (utf8 m)) h).elim
    · intro h; exact absurd rfl h
  | some b => simp

theorem readIn_eq_pure {b : InBuf} {x : Bytes} : (readIn b : Prog E D Bytes) = pure x ↔ IsIn b x := by
  unfold readIn IsIn
  cases hm : b.mem with
  | none =>
    simp only
    constructor
    · intro h; exact (undefined_ne_pure h).elim
    · rintro ⟨_, h, _⟩; simp at h
  | some m =>
    simp only
    split
    · rename_i hl
      constructor
      · intro h
        have := pure_inj h
        subst this
        exact ⟨m.drop b.len.toInt.toNat, by rw [List.take_append_drop], by rw [List.length_take]; omega⟩
      · rintro ⟨rest, h1, h2⟩
        simp only [Option.some.injEq] at h1
        subst h1
        rw [h2, Int.toNat_natCast, List.take_left' rfl]
    · rename_i hl
      constructor
      · intro h; exact (undefined_ne_pure h).elim
      · rintro ⟨rest, h1, h2⟩
        simp only [Option.some.injEq] at h1
        subst h1
        exact absurd ⟨by omega, by rw [List.length_append]; omega⟩ hl

theorem readCStr_eq_pure {p : Option Bytes} {x : Bytes} : (readCStr p : Prog E D Bytes) = pure x ↔ IsCStr p x := by
  unfold readCStr IsCStr
  cases p with
  | none =>
    simp only
    constructor
    · intro h; exact (undefined_ne_pure h).elim
    · rintro ⟨_, h, _⟩; simp at h
  | some m =>
    simp only
    split
    · rename_i hm
      constructor
      · intro h
        have := pure_inj h
        subst this
        have hd : m.dropWhile (· ≠ 0) ≠ [] := by
          intro h0
          have h1 := List.takeWhile_append_dropWhile (p := fun x : UInt8 => decide (x ≠ 0)) (l := m)
          rw [h0, List.append_nil] at h1
          rw [← h1] at hm
          have := mem_takeWhile hm
          simp at this
        obtain ⟨y, ys, hy⟩ := List.exists_cons_of_ne_nil hd
        have hy0 : y = 0 := by
          have := List.head_dropWhile_not (fun x : UInt8 => decide (x ≠ 0)) hd
          simp only [hy, List.head_cons] at this
          simpa using this
        subst hy0
        refine ⟨ys, ?_, ?_⟩
        · rw [← hy, List.takeWhile_append_dropWhile]
        · intro h0
          have := mem_takeWhile h0
          simp at this
      · rintro ⟨rest, h1, h2⟩
        simp only [Option.some.injEq] at h1
        subst h1
        have : ∀ a ∈ x, (decide (a ≠ 0)) = true := by
          intro a ha
          simp only [decide_eq_true_eq]
          rintro rfl
          exact h2 ha
        rw [List.takeWhile_append_of_pos this]
        simp
    · rename_i hm
      constructor
      · intro h; exact (undefined_ne_pure h).elim
      · rintro ⟨rest, h1, h2⟩
        simp only [Option.some.injEq] at h1
        subst h1
        simp at hm

theorem readStr_eq_pure {p : Option Bytes} {m x : Bytes} :
    (readStr p m : Prog E D Bytes) = pure x ↔ IsCStr p x ∧ validUtf8 x = true := by
  unfold readStr
  rw [(const_readCStr p).bind_eq_pure]
  constructor
  · rintro ⟨a, h1, h2⟩
    split at h2
    · obtain rfl := pure_inj h2
      exact ⟨readCStr_eq_pure.1 h1, by assumption⟩
    · exact (bail_ne_pure h2).elim
  · rintro ⟨h1, h2⟩
    exact ⟨x, readCStr_eq_pure.2 h1, by rw [if_pos h2]⟩

theorem checkIn_eq_pure {b : InBuf} {m m' : String} : (checkIn b m m' : Prog E D Unit) = pure () ↔ ¬ b.Missing := by
  unfold checkIn InBuf.Missing
  rw [(const_notNull _ _).bind_eq_pure]
  constructor
  · rintro ⟨_, h1, h2⟩
    split at h2
    · exact (bail_ne_pure h2).elim
    · rintro (h | h)
      · exact notNull_eq_pure.1 h1 h
      · contradiction
  · intro h
    refine ⟨(), notNull_eq_pure.2 fun h' => h (.inl h'), ?_⟩
    rw [if_neg fun h' => h (.inr h')]

theorem checkIn_missing {b : InBuf} {m m' : String} (h : b.Missing) :
    ∃ e, (checkIn b m m' : Prog E D Unit) = fun s => (.ret 1, { s with err := some e }) := by
  unfold checkIn
  cases hm : b.mem with
  | none => exact ⟨.nullPointer (utf8 m), rfl⟩
  | some x =>
    have hl : b.len = 0 := by
      rcases h with h | h
      · rw [h] at hm; simp at hm
      · exact h
    exact ⟨.generic (utf8 m'), by simp only [notNull, hl]; rfl⟩

/-- Nothing but `return 1` and an error. -/
def Prog.Stops (p : Prog E D α) : Prop := ∃ e, p = fun s => (.ret 1, { s with err := some e })

theorem Prog.Stops.bind {p : Prog E D α} (h : Stops p) (f : α → Prog E D β) : Stops (p >>= f) := by
  obtain ⟨e, rfl⟩ := h
  exact ⟨e, rfl⟩

theorem stops_notNull {m : String} : Stops (notNull none m : Prog E D Unit) := ⟨.nullPointer (utf8 m), rfl⟩

theorem IsIn.not_missing {b : InBuf} {x : Bytes} (h : IsIn b x) (hx : x ≠ []) : ¬ b.Missing := by
  obtain ⟨rest, h1, h2⟩ := h
  rintro (h | h)
  · rw [h] at h1; simp at h1
  · rw [h] at h2
    have : x.length = 0 := by simpa using h2.symm
    exact hx (List.length_eq_zero_iff.1 this)

theorem IsIn.unique {b : InBuf} {x y : Bytes} (h : IsIn b x) (h' : IsIn b y) : x = y :=
  pure_inj ((readIn_eq_pure (E := Unit) (D := Unit)).2 h ▸ (readIn_eq_pure (E := Unit) (D := Unit)).2 h')

theorem IsCStr.unique {p : Option Bytes} {x y : Bytes} (h : IsCStr p x) (h' : IsCStr p y) : x = y :=
  pure_inj ((readCStr_eq_pure (E := Unit) (D := Unit)).2 h ▸ (readCStr_eq_pure (E := Unit) (D := Unit)).2 h')

theorem IsCStr.ne_none {p : Option Bytes} {x : Bytes} (h : IsCStr p x) : p ≠ none := by
  obtain ⟨_, h, _⟩ := h
  rw [h]; simp

end

section
variable {K G1 G2 G3 Gt Key Nonce : Type} [Field K] [DecidableEq K] {lib : FfiLib K G1 G2 G3 Gt Key Nonce}

theorem const_json {α : Type} (x : Option α) : Const (lib.json x) := const_unwrapOpt _ _
theorem const_libUnwrap {α : Type} (x : Out α) : Const (lib.unwrap x) := const_unwrap _ _
theorem json_eq_pure {α : Type} {x : Option α} {a : α} : lib.json x = pure a ↔ x = some a := unwrapOpt_eq_pure
theorem libUnwrap_eq_pure {α : Type} {x : Out α} {a : α} : lib.unwrap x = pure a ↔ x = .ok a := unwrap_eq_pure

/-- The bytes returned by `h_generate_master_keys`. -/
def masterKeysPayload (lib : FfiLib K G1 G2 G3 Gt Key Nonce) (policy : Option Bytes) (rnd : Nat → K) (y : K) :
    Foreign K G1 G2 G3 Gt Bytes := do
  notNull policy "Policy pointer should not be null"
  let policy ← readStr policy (utf8 "ABE keys generation: invalid Policy")
  let policy ← lib.json (lib.serde.policyDec policy)
  let mk ← lib.unwrap (engineGenerateMasterKey lib.bm policy rnd y)
  let priv ← lib.unwrap ((privKeyCodec lib.t lib.cs).enc mk.privKey)
  let pub ← lib.unwrap ((pubKeyCodec lib.t lib.cs).enc mk.pubKey)
  return masterKeysBytes priv pub

theorem const_masterKeysPayload (policy : Option Bytes) (rnd : Nat → K) (y : K) : Const (masterKeysPayload lib policy rnd y) :=
  (const_notNull _ _).bind fun _ => (const_readStr _ _).bind fun _ => (const_json _).bind fun _ => (const_libUnwrap _).bind fun _ =>
    (const_libUnwrap _).bind fun _ => (const_libUnwrap _).bind fun _ => const_pure _

theorem hGenerateMasterKeys_eq (policy : Option Bytes) (rnd : Nat → K) (y : K) :
    hGenerateMasterKeys lib policy rnd y = (checkOut .out "Master keys pointer should point to pre-allocated memory"
      "The master keys buffer should have a size greater than zero" >>= fun _ => masterKeysPayload lib policy rnd y >>= fun b =>
      writeOut lib.t .out (tooSmall "master keys") b >>= fun _ => pure 0) := by
  simp only [hGenerateMasterKeys, masterKeysPayload, bind_assoc, pure_bind]

/-- The bytes returned by `h_generate_user_private_key`. -/
def userKeyPayload (lib : FfiLib K G1 G2 G3 Gt Key Nonce) (priv : InBuf) (accessPolicy policy : Option Bytes) (rnd : Nat → K) :
    Foreign K G1 G2 G3 Gt Bytes := do
  checkIn priv "Master private key pointer should not be null" "The master private key should not be empty"
  notNull accessPolicy "Access Policy pointer should not be null"
  notNull policy "Policy pointer should not be null"
  let priv ← readIn priv
  let priv ← lib.unwrap ((privKeyCodec lib.t lib.cs).dec priv)
  let ap ← readStr accessPolicy (utf8 "ABE keys generation: invalid Policy")
  let ap ← lib.json (lib.serde.accessPolicyDec ap)
  let policy ← readStr policy (utf8 "ABE keys generation: invalid Policy")
  let policy ← lib.json (lib.serde.policyDec policy)
  let key ← lib.unwrap (engineGenerateUserKey lib.bm policy priv ap rnd)
  lib.unwrap ((userKeyCodec lib.t lib.cs lib.bm).enc key)

theorem const_userKeyPayload (priv : InBuf) (accessPolicy policy : Option Bytes) (rnd : Nat → K) :
    Const (userKeyPayload lib priv accessPolicy policy rnd) :=
  (const_checkIn _ _ _).bind fun _ => (const_notNull _ _).bind fun _ => (const_notNull _ _).bind fun _ => (const_readIn _).bind fun _ =>
    (const_libUnwrap _).bind fun _ => (const_readStr _ _).bind fun _ => (const_json _).bind fun _ => (const_readStr _ _).bind fun _ =>
    (const_json _).bind fun _ => (const_libUnwrap _).bind fun _ => const_libUnwrap _

theorem hGenerateUserPrivateKey_eq (priv : InBuf) (accessPolicy policy : Option Bytes) (rnd : Nat → K) :
    hGenerateUserPrivateKey lib priv accessPolicy policy rnd =
      (checkOut .out "User private key pointer should point to pre-allocated memory"
      "The user private key buffer should have a size greater than zero" >>= fun _ =>
      userKeyPayload lib priv accessPolicy policy rnd >>= fun b =>
      writeOut lib.t .out (tooSmall "user private key") b >>= fun _ => pure 0) := by
  simp only [hGenerateUserPrivateKey, userKeyPayload, bind_assoc]

/-- `policy.to_string()`. -/
def policyToString (lib : FfiLib K G1 G2 G3 Gt Key Nonce) (p : Policy) : Foreign K G1 G2 G3 Gt Bytes :=
  match lib.serde.policyEnc p with
  | none => panicked
  | some b => pure b

theorem const_policyToString (p : Policy) : Const (policyToString lib p) := by
  unfold policyToString
  split
  · exact const_panicked
  · exact const_pure _

theorem policyToString_eq_pure {p : Policy} {b : Bytes} : policyToString lib p = pure b ↔ lib.serde.policyEnc p = some b := by
  unfold policyToString
  cases lib.serde.policyEnc p with
  | none => exact ⟨fun h => (panicked_ne_pure h).elim, fun h => by simp at h⟩
  | some x => exact ⟨fun h => congrArg _ (pure_inj h), fun h => by simp at h; subst h; rfl⟩

theorem const_ffiRotate (p : Policy) (as : List Attribute) : Const (ffiRotate lib p as) := by
  induction as generalizing p with
  | nil => exact const_pure _
  | cons a as ih => exact (const_json _).bind fun p' => ih p'

/-- The bytes returned by `h_rotate_attributes`. -/
def rotatePayload (lib : FfiLib K G1 G2 G3 Gt Key Nonce) (attributes policy : Option Bytes) : Foreign K G1 G2 G3 Gt Bytes := do
  notNull attributes "Attributes pointer should not be null"
  notNull policy "Policy pointer should not be null"
  let attributes ← readStr attributes (utf8 "GPSW attributes rotation: invalid Attributes: " ++ lib.display none)
  let attributes ← lib.json (lib.serde.attributesDec attributes)
  let policy ← readStr policy (utf8 "GPSW keys generation: invalid Policy: " ++ lib.display none)
  let policy ← lib.json (lib.serde.policyDec policy)
  let policy ← ffiRotate lib policy attributes
  policyToString lib policy

theorem const_rotatePayload (attributes policy : Option Bytes) : Const (rotatePayload lib attributes policy) :=
  (const_notNull _ _).bind fun _ => (const_notNull _ _).bind fun _ => (const_readStr _ _).bind fun _ => (const_json _).bind fun _ =>
    (const_readStr _ _).bind fun _ => (const_json _).bind fun _ => (const_ffiRotate _ _).bind fun _ => const_policyToString _

theorem hRotateAttributes_eq (attributes policy : Option Bytes) :
    hRotateAttributes lib attributes policy = (checkOut .out "New policy pointer should point to pre-allocated memory"
      "The new policy buffer should not be empty" >>= fun _ => rotatePayload lib attributes policy >>= fun b =>
      writeOut lib.t .out tooSmallPolicy b >>= fun _ => pure 0) := by
  simp only [hRotateAttributes, rotatePayload, bind_assoc]
  refine congrArg _ (funext fun _ => congrArg _ (funext fun _ => congrArg _ (funext fun _ => congrArg _ (funext fun _ =>
    congrArg _ (funext fun _ => congrArg _ (funext fun _ => congrArg _ (funext fun _ => congrArg _ (funext fun p => ?_))))))))
  unfold policyToString
  cases lib.serde.policyEnc p with
  | none => rfl
  | some b => simp only [pure_bind]

theorem const_readBlockArgs (a : BlockArgs) : Const (readBlockArgs lib a) := by
  unfold readBlockArgs
  refine (const_checkIn _ _ _).bind fun _ => (const_readIn _).bind fun _ => Const.bind ?_ fun _ => (const_checkIn _ _ _).bind fun _ =>
    (const_readIn _).bind fun _ => (const_libUnwrap _).bind fun _ => const_pure _
  split
  · exact const_readIn _
  · exact const_pure _

/-- The bytes returned by `h_aes_encrypt_block`. -/
def encryptBlockPayload (lib : FfiLib K G1 G2 G3 Gt Key Nonce) (a : BlockArgs) (nonce : Nonce) : Foreign K G1 G2 G3 Gt Bytes := do
  let x ← readBlockArgs lib a
  lib.unwrap (encryptHybridBlock lib.e maxClearTextSize x.1 x.2.1 (asUsize lib.t a.blockNumber) x.2.2 nonce)

theorem const_encryptBlockPayload (a : BlockArgs) (nonce : Nonce) : Const (encryptBlockPayload lib a nonce) :=
  (const_readBlockArgs _).bind fun _ => const_libUnwrap _

theorem hEncryptBlock_eq (a : BlockArgs) (nonce : Nonce) :
    hEncryptBlock lib a nonce = (checkOut .out "The encrypted bytes pointer should point to pre-allocated memory"
      "The encrypted bytes buffer should have a size greater than zero" >>= fun _ => encryptBlockPayload lib a nonce >>= fun b =>
      writeBlock lib.t (fun n => tooSmall' "encrypted bytes" n 0) b >>= fun _ => pure 0) := by
  simp only [hEncryptBlock, encryptBlockPayload, bind_assoc]

/-- The bytes returned by `h_aes_decrypt_block`. -/
def decryptBlockPayload (lib : FfiLib K G1 G2 G3 Gt Key Nonce) (a : BlockArgs) : Foreign K G1 G2 G3 Gt Bytes := do
  let x ← readBlockArgs lib a
  lib.unwrap (decryptHybridBlock lib.e maxClearTextSize x.1 x.2.1 (asUsize lib.t a.blockNumber) x.2.2)

theorem const_decryptBlockPayload (a : BlockArgs) : Const (decryptBlockPayload lib a) :=
  (const_readBlockArgs _).bind fun _ => const_libUnwrap _

theorem hDecryptBlock_eq (a : BlockArgs) :
    hDecryptBlock lib a = (checkOut .out "The clear text bytes pointer should point to pre-allocated memory"
      "The clear text bytes buffer should have a size greater than zero" >>= fun _ => decryptBlockPayload lib a >>= fun b =>
      writeBlock lib.t (fun n => tooSmall' "clear text" n 0) b >>= fun _ => pure 0) := by
  simp only [hDecryptBlock, decryptBlockPayload, bind_assoc]

end

end Abe
