import Verif.Proofs.FfiThreads

set_option linter.unusedSectionVars false

/-!
# How the functions of the C interface use the last error
-/

namespace Abe
open Prog

namespace Prog
variable {E D α β : Type}

/-- A part of a call which does not look at the last error, keeps it or fails with an error of its own, and whose results satisfy `Q`. -/
def Rep (Q : α → Prop) (p : Prog E D α) : Prop :=
  ∀ s : FState E D,
    (∃ a, ∃ s' : FState E D, Q a ∧ ∀ e, p { s with err := e } = (.next a, { s' with err := e })) ∨
    (∃ (s' : FState E D) (e' : FfiError), ∀ e, p { s with err := e } = (.ret 1, { s' with err := some e' })) ∨
    (∃ s' : FState E D, ∀ e, p { s with err := e } = (.panic, { s' with err := e })) ∨
    (∃ s' : FState E D, ∀ e, p { s with err := e } = (.ub, { s' with err := e }))

abbrev Any (_ : α) : Prop := True

theorem Const.rep {p : Prog E D α} (h : Const p) : Rep Any p := by
  intro s
  rcases h with ⟨a, rfl⟩ | ⟨e, rfl⟩ | rfl | rfl
  · exact .inl ⟨a, s, trivial, fun _ => rfl⟩
  · exact .inr (.inl ⟨s, e, fun _ => rfl⟩)
  · exact .inr (.inr (.inl ⟨s, fun _ => rfl⟩))
  · exact .inr (.inr (.inr ⟨s, fun _ => rfl⟩))

theorem Rep.bind {Q : β → Prop} {p : Prog E D α} {f : α → Prog E D β} (hp : Rep Any p) (hf : ∀ a, Rep Q (f a)) : Rep Q (p >>= f) := by
  intro s
  rcases hp s with ⟨a, s', _, h⟩ | ⟨s', e', h⟩ | ⟨s', h⟩ | ⟨s', h⟩
  · have key : ∀ e, (p >>= f) { s with err := e } = f a { s' with err := e } := fun e => bind_next (h e)
    rcases hf a s' with ⟨b, s'', hb, h'⟩ | ⟨s'', e', h'⟩ | ⟨s'', h'⟩ | ⟨s'', h'⟩
    · exact .inl ⟨b, s'', hb, fun e => (key e).trans (h' e)⟩
    · exact .inr (.inl ⟨s'', e', fun e => (key e).trans (h' e)⟩)
    · exact .inr (.inr (.inl ⟨s'', fun e => (key e).trans (h' e)⟩))
    · exact .inr (.inr (.inr ⟨s'', fun e => (key e).trans (h' e)⟩))
  · exact .inr (.inl ⟨s', e', fun e => bind_ret (h e)⟩)
  · exact .inr (.inr (.inl ⟨s', fun e => bind_panicked (h e)⟩))
  · exact .inr (.inr (.inr ⟨s', fun e => bind_ub (h e)⟩))

theorem rep_pure {Q : α → Prop} {a : α} (h : Q a) : Rep Q (pure a : Prog E D α) := fun s => .inl ⟨a, s, h, fun _ => rfl⟩

theorem rep_bail {Q : α → Prop} (m : Bytes) : Rep Q (bail m : Prog E D α) := fun s => .inr (.inl ⟨s, .generic m, fun _ => rfl⟩)

theorem rep_ite {Q : α → Prop} {c : Prop} [Decidable c] {p q : Prog E D α} (hp : Rep Q p) (hq : Rep Q q) : Rep Q (if c then p else q) := by
  split
  · exact hp
  · exact hq

theorem rep_readLen (k : Slot) : Rep Any (readLen k : Prog E D Int32) := by
  intro s
  cases h : (s.mem.slots k).len with
  | some n => exact .inl ⟨n, s, trivial, fun e => by simp only [readLen, h]⟩
  | none => exact .inr (.inr (.inr ⟨s, fun e => by simp only [readLen, h]⟩))

theorem rep_outPtr (k : Slot) : Rep Any (outPtr k : Prog E D _) := fun s => .inl ⟨(s.mem.slots k).mem, s, trivial, fun _ => rfl⟩

theorem rep_writeLen (k : Slot) (n : Int32) : Rep Any (writeLen k n : Prog E D Unit) := by
  intro s
  cases h : (s.mem.slots k).len with
  | some m => exact .inl ⟨(), s.setSlot k { s.mem.slots k with len := some n }, trivial, fun e => by simp only [writeLen, h]; rfl⟩
  | none => exact .inr (.inr (.inr ⟨s, fun e => by simp only [writeLen, h]⟩))

theorem rep_copy (k : Slot) (b : Bytes) : Rep Any (copy k b : Prog E D Unit) := by
  intro s
  cases h : (s.mem.slots k).mem with
  | some m =>
    by_cases hb : b.length ≤ m.length
    · exact .inl ⟨(), s.setSlot k { s.mem.slots k with mem := some (b ++ m.drop b.length) }, trivial,
        fun e => by simp only [copy, h, if_pos hb]; rfl⟩
    · exact .inr (.inr (.inr ⟨s, fun e => by simp only [copy, h, if_neg hb]⟩))
  | none => exact .inr (.inr (.inr ⟨s, fun e => by simp only [copy, h]⟩))

theorem rep_writeOut (t : Target) (k : Slot) (w : Nat → Int32 → Bytes) (b : Bytes) : Rep Any (writeOut t k w b : Prog E D Unit) := by
  unfold writeOut
  exact (rep_readLen k).bind fun _ => (rep_writeLen k _).bind fun _ => rep_ite (rep_bail _) (rep_copy _ _)

theorem rep_writeBlock (t : Target) (w : Nat → Bytes) (b : Bytes) : Rep Any (writeBlock t w b : Prog E D Unit) := by
  unfold writeBlock
  exact (rep_readLen _).bind fun _ => rep_ite (rep_bail _) ((rep_copy _ _).bind fun _ => rep_writeLen _ _)

theorem rep_checkOut (k : Slot) (m m' : String) : Rep Any (checkOut k m m' : Prog E D Unit) := by
  unfold checkOut
  exact (rep_outPtr k).bind fun _ => (const_notNull _ _).rep.bind fun _ => (rep_readLen k).bind fun _ =>
    rep_ite (rep_bail _) (rep_pure trivial)

theorem rep_ifExpected (k : Slot) {p : Prog E D Unit} (hp : Rep Any p) : Rep Any (ifExpected k p) := by
  unfold ifExpected
  exact (rep_outPtr k).bind fun _ => rep_ite (rep_pure trivial) ((rep_readLen k).bind fun _ => rep_ite hp (rep_pure trivial))

/-- Parts of the calls about the registries. -/
theorem rep_access (g : Registry E → Registry D → α × Registry E × Registry D) :
    Rep Any (fun s => (.next (g s.enc s.dec).1, { s with enc := (g s.enc s.dec).2.1, dec := (g s.enc s.dec).2.2 }) : Prog E D α) :=
  fun s => .inl ⟨(g s.enc s.dec).1, { s with enc := (g s.enc s.dec).2.1, dec := (g s.enc s.dec).2.2 }, trivial, fun _ => rfl⟩

theorem Rep.reportsErrors {p : Prog E D Int32} (h : Rep (· = 0) p) : ReportsErrors p := by
  intro s
  rcases h s with ⟨a, s', rfl, h⟩ | ⟨s', e', h⟩ | ⟨s', h⟩ | ⟨s', h⟩
  · exact .inl ⟨s', fun e => by unfold run; rw [h e]; rfl⟩
  · exact .inr (.inl ⟨s', e', fun e => by unfold run; rw [h e]; rfl⟩)
  · exact .inr (.inr (.inl ⟨s', fun e => by unfold run; rw [h e]; rfl⟩))
  · exact .inr (.inr (.inr ⟨s', fun e => by unfold run; rw [h e]; rfl⟩))

end Prog

section
variable {K G1 G2 G3 Gt Key Nonce : Type} [Field K] [DecidableEq K] {lib : FfiLib K G1 G2 G3 Gt Key Nonce}

theorem rep_writeHandle {E D : Type} (id : Int32) : Rep (· = 0) (writeHandle id : Prog E D Int32) := by
  intro s
  cases h : s.mem.handle with
  | some n => exact .inl ⟨0, { s with mem := { s.mem with handle := some id } }, rfl, fun e => by simp only [writeHandle, h]⟩
  | none => exact .inr (.inr (.inr ⟨s, fun e => by simp only [writeHandle, h]⟩))

theorem rep_finishEncryptHeader (c : EncryptionCache G2 Gt) (a : EncHeaderArgs K Gt Nonce) : Rep (· = 0) (finishEncryptHeader lib c a) := by
  rw [finishEncryptHeader_eq]
  exact (const_encHeaderPayload _ _).rep.bind fun _ => (rep_writeOut _ _ _ _).bind fun _ => (rep_writeOut _ _ _ _).bind fun _ => rep_pure rfl

theorem rep_finishDecryptHeader (key : DecryptionKey K G1 G3) (b : Bytes) : Rep (· = 0) (finishDecryptHeader lib key b) := by
  rw [finishDecryptHeader_eq]
  refine (const_libUnwrap _).rep.bind fun x => (rep_writeOut _ _ _ _).bind fun _ => (rep_ifExpected _ (rep_writeOut _ _ _ _)).bind fun _ =>
    (rep_ifExpected _ ?_).bind fun _ => rep_pure rfl
  cases x.metaData.additionalData with
  | some _ => exact rep_writeOut _ _ _ _
  | none => exact rep_writeLen _ _

theorem rep_checkEncryptHeaderOut : Rep Any (checkEncryptHeaderOut : Foreign K G1 G2 G3 Gt Unit) :=
  (rep_checkOut _ _ _).bind fun _ => rep_checkOut _ _ _

/-- The calls whose return code is 0 or an error code, and which are not about errors. -/
def FCall.plain : FCall K Gt Nonce → Bool
  | .setError _ | .getLastError | .getEncryptedHeaderSize _ | .symmetricEncryptionOverhead => false
  | _ => true

theorem rep_prog (c : FCall K Gt Nonce) (h : c.plain = true) : Rep (· = 0) (c.prog lib) := by
  cases c <;> simp only [FCall.plain, Bool.false_eq_true] at h <;> simp only [FCall.prog]
  case generateMasterKeys p rnd y =>
    rw [hGenerateMasterKeys_eq]
    exact (rep_checkOut _ _ _).bind fun _ => (const_masterKeysPayload _ _ _).rep.bind fun _ => (rep_writeOut _ _ _ _).bind fun _ => rep_pure rfl
  case generateUserPrivateKey priv ap p rnd =>
    rw [hGenerateUserPrivateKey_eq]
    exact (rep_checkOut _ _ _).bind fun _ => (const_userKeyPayload _ _ _ _).rep.bind fun _ => (rep_writeOut _ _ _ _).bind fun _ => rep_pure rfl
  case rotateAttributes a p =>
    rw [hRotateAttributes_eq]
    exact (rep_checkOut _ _ _).bind fun _ => (const_rotatePayload _ _).rep.bind fun _ => (rep_writeOut _ _ _ _).bind fun _ => rep_pure rfl
  case createEncryptionCache a =>
    exact (const_prepareEncryptionCache a).rep.bind fun c => (rep_access fun e d => (e.fetchAdd.1, e.fetchAdd.2, d)).bind fun id =>
      (rep_access fun e d => ((), e.insert id c, d)).bind fun _ => rep_writeHandle _
  case destroyEncryptionCache hh =>
    exact fun s => .inl ⟨0, { s with enc := s.enc.remove hh }, rfl, fun _ => rfl⟩
  case encryptHeaderUsingCache hh a =>
    refine rep_checkEncryptHeaderOut.bind fun _ => (const_notNull _ _).rep.bind fun _ =>
      (rep_access fun e d => (e.get hh, e, d)).bind fun x => ?_
    cases x with
    | none => exact rep_bail _
    | some x => exact rep_finishEncryptHeader _ _
  case encryptHeader c a =>
    exact rep_checkEncryptHeaderOut.bind fun _ => (const_notNull _ _).rep.bind fun _ => (const_checkIn _ _ _).rep.bind fun _ =>
      (const_notNull _ _).rep.bind fun _ => (const_readStr _ _).rep.bind fun _ => (const_json _).rep.bind fun _ =>
      (const_readIn _).rep.bind fun _ => (const_libUnwrap _).rep.bind fun _ => rep_finishEncryptHeader _ _
  case createDecryptionCache a =>
    exact (const_prepareDecryptionCache a).rep.bind fun c => (rep_access fun e d => (d.fetchAdd.1, e, d.fetchAdd.2)).bind fun id =>
      (rep_access fun e d => ((), e, d.insert id c)).bind fun _ => rep_writeHandle _
  case destroyDecryptionCache hh =>
    exact fun s => .inl ⟨0, { s with dec := s.dec.remove hh }, rfl, fun _ => rfl⟩
  case decryptHeaderUsingCache hd hh =>
    refine (rep_checkOut _ _ _).bind fun _ => (const_checkIn _ _ _).rep.bind fun _ => (const_readIn _).rep.bind fun _ =>
      (rep_access fun e d => (d.get hh, e, d)).bind fun x => ?_
    cases x with
    | none => exact rep_bail _
    | some x => exact rep_finishDecryptHeader _ _
  case decryptHeader hd k =>
    exact (rep_checkOut _ _ _).bind fun _ => (const_checkIn _ _ _).rep.bind fun _ => (const_checkIn _ _ _).rep.bind fun _ =>
      (const_readIn _).rep.bind fun _ => (const_readIn _).rep.bind fun _ => (const_libUnwrap _).rep.bind fun _ =>
      rep_finishDecryptHeader _ _
  case encryptBlock a n =>
    rw [hEncryptBlock_eq]
    exact (rep_checkOut _ _ _).bind fun _ => (const_encryptBlockPayload _ _).rep.bind fun _ => (rep_writeBlock _ _ _).bind fun _ => rep_pure rfl
  case decryptBlock a =>
    rw [hDecryptBlock_eq]
    exact (rep_checkOut _ _ _).bind fun _ => (const_decryptBlockPayload _).rep.bind fun _ => (rep_writeBlock _ _ _).bind fun _ => rep_pure rfl

end

end Abe
