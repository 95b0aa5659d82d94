import Verif.Proofs.FfiPayload

set_option linter.unusedSectionVars false

/-!
# Histories of the C interface: the registries seen as separate machines
-/

namespace Abe
open Prog

/-! ### A registry with the creations under way -/

section
variable {α : Type}

/-- A registry and the creations under way. -/
structure RState (α : Type) where
  reg : Registry α
  pend : Thread → Option (Pending α)

/-- What a step does to a registry. -/
inductive RAct (α : Type) where
  | skip
  | draw (τ : Thread) (c : α) (m : CMem)
  | commit (τ : Thread)
  | remove (h : Int32)

/-- Effect of an action. -/
def RState.act (r : RState α) : RAct α → RState α
  | .skip => r
  | .draw τ c m => ⟨r.reg.fetchAdd.2, Sys.upd r.pend τ (some ⟨r.reg.fetchAdd.1, c, m⟩)⟩
  | .commit τ => match r.pend τ with
    | some p => ⟨r.reg.insert p.id p.cache, Sys.upd r.pend τ none⟩
    | none => r
  | .remove h => ⟨r.reg.remove h, r.pend⟩

/-- Effect of a sequence of actions. -/
def RState.acts (r : RState α) (l : List (RAct α)) : RState α := l.foldl RState.act r

/-- The number of identifiers drawn. -/
def draws : List (RAct α) → Nat
  | [] => 0
  | .draw _ _ _ :: l => draws l + 1
  | _ :: l => draws l

theorem draws_append (l l' : List (RAct α)) : draws (l ++ l') = draws l + draws l' := by
  induction l with
  | nil => simp [draws]
  | cons a l ih => cases a <;> simp [draws, ih]; omega

/-- After `n` drawings: the identifiers of the creations under way have been drawn, and differ from each other. -/
structure RState.Inv (n : Nat) (r : RState α) : Prop where
  next : r.reg.next = Int32.ofNat n
  old : ∀ τ p, r.pend τ = some p → ∃ i, i < n ∧ p.id = Int32.ofNat i
  distinct : ∀ τ τ' p p', r.pend τ = some p → r.pend τ' = some p' → τ ≠ τ' → p.id ≠ p'.id

theorem int32_ofNat_inj {i j : Nat} (hi : i < 2 ^ 32) (hj : j < 2 ^ 32) (h : Int32.ofNat i = Int32.ofNat j) : i = j := by
  have h' : (BitVec.ofNat 32 i) = BitVec.ofNat 32 j := congrArg Int32.toBitVec h
  have := congrArg BitVec.toNat h'
  simp only [BitVec.toNat_ofNat] at this
  omega

theorem int32_ofNat_add (n k : Nat) : Int32.ofNat n + Int32.ofNat k = Int32.ofNat (n + k) := by
  apply Int32.toBitVec_inj.1
  simp

theorem RState.Inv.act {n : Nat} {r : RState α} (h : r.Inv n) (a : RAct α) (hn : n + draws [a] ≤ 2 ^ 32) :
    (r.act a).Inv (n + draws [a]) := by
  cases a with
  | skip => exact h
  | remove k => exact ⟨h.next, h.old, h.distinct⟩
  | commit τ =>
    simp only [RState.act, draws, Nat.add_zero]
    split
    · rename_i p hp
      refine ⟨h.next, fun τ' p' hp' => ?_, fun τ' τ'' p' p'' h1 h2 h3 => ?_⟩
      · simp only [Sys.upd] at hp'
        split at hp' <;> simp_all
        exact h.old τ' p' hp'
      · simp only [Sys.upd] at h1 h2
        split at h1
        · cases h1
        split at h2
        · cases h2
        exact h.distinct τ' τ'' p' p'' h1 h2 h3
    · exact h
  | draw τ c m =>
    simp only [draws] at hn ⊢
    have hfresh : ∀ τ' p', r.pend τ' = some p' → p'.id ≠ r.reg.next := by
      intro τ' p' hp' he
      obtain ⟨i, hi, hid⟩ := h.old τ' p' hp'
      rw [hid, h.next] at he
      have := int32_ofNat_inj (by omega) (by omega) he
      omega
    refine ⟨?_, fun τ' p' hp' => ?_, fun τ' τ'' p' p'' h1 h2 h3 => ?_⟩
    · simp only [RState.act, Registry.fetchAdd]
      rw [h.next]
      exact int32_ofNat_add n 1
    · simp only [RState.act, Sys.upd] at hp'
      split at hp'
      · simp only [Option.some.injEq] at hp'
        subst hp'
        exact ⟨n, by omega, h.next⟩
      · obtain ⟨i, hi, hid⟩ := h.old τ' p' hp'
        exact ⟨i, by omega, hid⟩
    · simp only [RState.act, Sys.upd] at h1 h2
      split at h1 <;> split at h2
      · rename_i e1 e2
        exact absurd (e1.trans e2.symm) h3
      · simp only [Option.some.injEq] at h1
        subst h1
        exact (hfresh τ'' p'' h2).symm
      · simp only [Option.some.injEq] at h2
        subst h2
        exact hfresh τ' p' h1
      · exact h.distinct τ' τ'' p' p'' h1 h2 h3

theorem RState.Inv.acts {n : Nat} {r : RState α} (h : r.Inv n) (l : List (RAct α)) (hn : n + draws l ≤ 2 ^ 32) :
    (r.acts l).Inv (n + draws l) := by
  induction l generalizing n r with
  | nil => exact h
  | cons a l ih =>
    have hd : draws (a :: l) = draws [a] + draws l := draws_append [a] l
    rw [hd] at hn ⊢
    have := ih (h.act a (by omega)) (by omega)
    rw [Nat.add_assoc] at this
    exact this

/-- The counter alone needs no bound. -/
theorem acts_next (r : RState α) (l : List (RAct α)) : (r.acts l).reg.next = r.reg.next + Int32.ofNat (draws l) := by
  induction l generalizing r with
  | nil => simp [RState.acts, draws]
  | cons a l ih =>
    have hd : draws (a :: l) = draws [a] + draws l := draws_append [a] l
    have h1 : (r.acts (a :: l)) = (r.act a).acts l := rfl
    rw [h1, ih, hd, ← int32_ofNat_add, ← Int32.add_assoc]
    congr 1
    cases a with
    | skip => simp [RState.act, draws]
    | remove k => simp [RState.act, draws, Registry.remove]
    | commit τ =>
      simp only [RState.act, draws]
      split <;> simp [Registry.insert]
    | draw τ c m => simp [RState.act, draws, Registry.fetchAdd]

/-- No creation under way, and none to come before `2 ^ 32` drawings, has the identifier `h`. -/
def RState.Free (r : RState α) (h : Int32) : Prop := ∀ τ p, r.pend τ = some p → p.id ≠ h

/-- A cache which is in the map stays until it is removed. -/
theorem acts_get {n i : Nat} {r : RState α} {h : Int32} {c : α} (hi : i < n) (hh : h = Int32.ofNat i) (hinv : r.Inv n)
    (hg : r.reg.get h = some c) (hf : r.Free h) (l : List (RAct α)) (hn : n + draws l ≤ 2 ^ 32) (hr : RAct.remove h ∉ l) :
    (r.acts l).reg.get h = some c := by
  induction l generalizing n r with
  | nil => exact hg
  | cons a l ih =>
    have hd : draws (a :: l) = draws [a] + draws l := draws_append [a] l
    rw [hd] at hn
    simp only [List.mem_cons, not_or] at hr
    refine ih (r := r.act a) (n := n + draws [a]) (by omega) (hinv.act a (by omega)) ?_ ?_ (by omega) hr.2
    · cases a with
      | skip => exact hg
      | draw τ c' m => exact hg
      | remove k =>
        have hk : h ≠ k := fun e => hr.1 (by rw [e])
        simp only [RState.act, Registry.get, Registry.remove, hget_hremove]
        rw [if_neg hk]
        exact hg
      | commit τ =>
        simp only [RState.act]
        split
        · rename_i p hp
          simp only [Registry.get, Registry.insert, hget_hinsert]
          rw [if_neg (hf τ p hp).symm]
          exact hg
        · exact hg
    · cases a with
      | skip => exact hf
      | remove k => exact hf
      | commit τ =>
        simp only [RState.act]
        split
        · intro τ' p' hp'
          simp only [Sys.upd] at hp'
          split at hp'
          · cases hp'
          exact hf τ' p' hp'
        · exact hf
      | draw τ c' m =>
        intro τ' p' hp'
        simp only [RState.act, Sys.upd] at hp'
        split at hp'
        · simp only [Option.some.injEq] at hp'
          subst hp'
          simp only [Registry.fetchAdd]
          rw [hinv.next, hh]
          intro he
          simp only [draws] at hn
          have := int32_ofNat_inj (by omega) (by omega) he
          omega
        · exact hf τ' p' hp'

/-- Where a cache in the map comes from. -/
theorem acts_live {r : RState α} {l : List (RAct α)} {h : Int32} {c : α} (hg : (r.acts l).reg.get h = some c) (h0 : r.reg.get h = none) :
    ∃ l1 τ l2 p, l = l1 ++ .commit τ :: l2 ∧ (r.acts l1).pend τ = some p ∧ p.id = h ∧ p.cache = c ∧ RAct.remove h ∉ l2 := by
  induction l using List.reverseRecOn with
  | nil => rw [show (r.acts []) = r from rfl, h0] at hg; cases hg
  | append_singleton l a ih =>
    have hstep : r.acts (l ++ [a]) = (r.acts l).act a := by simp [RState.acts]
    rw [hstep] at hg
    have old : (r.acts l).reg.get h = some c → a ≠ .remove h →
        ∃ l1 τ l2 p, l ++ [a] = l1 ++ .commit τ :: l2 ∧ (r.acts l1).pend τ = some p ∧ p.id = h ∧ p.cache = c ∧ RAct.remove h ∉ l2 := by
      intro h1 h2
      obtain ⟨l1, τ, l2, p, rfl, h3, h4, h5, h6⟩ := ih h1
      exact ⟨l1, τ, l2 ++ [a], p, by simp, h3, h4, h5, by simpa using ⟨h6, h2.symm⟩⟩
    cases a with
    | skip => exact old hg (by simp)
    | draw τ c' m => exact old hg (by simp)
    | remove k =>
      simp only [RState.act, Registry.get, Registry.remove, hget_hremove] at hg
      split at hg
      · cases hg
      · rename_i hk
        exact old hg (by simpa using Ne.symm hk)
    | commit τ =>
      simp only [RState.act] at hg
      split at hg
      · rename_i p hp
        simp only [Registry.get, Registry.insert, hget_hinsert] at hg
        split at hg
        · rename_i hk
          exact ⟨l, τ, [], p, rfl, hp, hk.symm, Option.some.inj hg, by simp⟩
        · exact old hg (by simp)
      · exact old hg (by simp)

/-- Where a creation under way comes from. -/
theorem acts_pend {r : RState α} {l : List (RAct α)} {τ : Thread} {p : Pending α} (hp : (r.acts l).pend τ = some p) (h0 : r.pend τ = none) :
    ∃ l1 l2, l = l1 ++ .draw τ p.cache p.mem :: l2 ∧ p.id = (r.acts l1).reg.next ∧ RAct.commit τ ∉ l2 := by
  induction l using List.reverseRecOn with
  | nil => rw [show (r.acts []) = r from rfl, h0] at hp; cases hp
  | append_singleton l a ih =>
    have hstep : r.acts (l ++ [a]) = (r.acts l).act a := by simp [RState.acts]
    rw [hstep] at hp
    have old : (r.acts l).pend τ = some p → a ≠ .commit τ →
        ∃ l1 l2, l ++ [a] = l1 ++ .draw τ p.cache p.mem :: l2 ∧ p.id = (r.acts l1).reg.next ∧ RAct.commit τ ∉ l2 := by
      intro h1 h2
      obtain ⟨l1, l2, rfl, h3, h4⟩ := ih h1
      exact ⟨l1, l2 ++ [a], by simp, h3, by simpa using ⟨h4, h2.symm⟩⟩
    cases a with
    | skip => exact old hp (by simp)
    | remove k => exact old hp (by simp)
    | draw τ' c' m =>
      simp only [RState.act, Sys.upd] at hp
      split at hp
      · rename_i ht
        subst ht
        obtain rfl := Option.some.inj hp
        exact ⟨l, [], rfl, rfl, by simp⟩
      · exact old hp (by simp)
    | commit τ' =>
      simp only [RState.act] at hp
      split at hp
      · simp only [Sys.upd] at hp
        split at hp
        · cases hp
        · rename_i hne
          exact old hp (by simpa using Ne.symm hne)
      · rename_i hn
        refine old hp ?_
        intro he
        obtain rfl := RAct.commit.inj he
        rw [hn] at hp
        cases hp

end

/-! ### All calls but creations and destructions leave the registries -/

section
variable {K G1 G2 G3 Gt Key Nonce : Type} [Field K] [DecidableEq K] {lib : FfiLib K G1 G2 G3 Gt Key Nonce}

theorem keeps_read {E D α : Type} (g : FState E D → α) : Keeps (fun s => (.next (g s), s) : Prog E D α) := fun _ => ⟨rfl, rfl⟩

theorem keeps_finishEncryptHeader (c : EncryptionCache G2 Gt) (a : EncHeaderArgs K Gt Nonce) : Keeps (finishEncryptHeader lib c a) := by
  rw [finishEncryptHeader_eq]
  exact (const_encHeaderPayload _ _).keeps.bind fun _ => (keeps_writeOut _ _ _ _).bind fun _ => (keeps_writeOut _ _ _ _).bind fun _ =>
    keeps_pure _

theorem keeps_finishDecryptHeader (key : DecryptionKey K G1 G3) (b : Bytes) : Keeps (finishDecryptHeader lib key b) := by
  rw [finishDecryptHeader_eq]
  refine (const_libUnwrap _).keeps.bind fun x => (keeps_writeOut _ _ _ _).bind fun _ => (keeps_ifExpected _ (keeps_writeOut _ _ _ _)).bind fun _ =>
    (keeps_ifExpected _ ?_).bind fun _ => keeps_pure _
  cases x.metaData.additionalData with
  | some _ => exact keeps_writeOut _ _ _ _
  | none => exact keeps_writeLen _ _

theorem keeps_checkEncryptHeaderOut : Keeps (checkEncryptHeaderOut : Foreign K G1 G2 G3 Gt Unit) :=
  (keeps_checkOut _ _ _).bind fun _ => keeps_checkOut _ _ _

/-- The calls which change a registry. -/
def FCall.changesRegistry : FCall K Gt Nonce → Bool
  | .createEncryptionCache _ | .destroyEncryptionCache _ | .createDecryptionCache _ | .destroyDecryptionCache _ => true
  | _ => false

theorem keeps_prog (c : FCall K Gt Nonce) (h : c.changesRegistry = false) : Keeps (c.prog lib) := by
  cases c <;> simp only [FCall.changesRegistry, Bool.true_eq_false] at h <;> simp only [FCall.prog]
  case setError m => exact (const_notNull _ _).keeps.bind fun _ => (const_readStr _ _).keeps.bind fun _ => (keeps_setLastError _).bind fun _ => keeps_pure _
  case getLastError =>
    refine (keeps_outPtr _).bind fun _ => keeps_ite (keeps_ret _) ?_
    refine (keeps_read _).bind fun _ => keeps_ite (keeps_ret _) ?_
    refine (keeps_readLen _).bind fun _ => keeps_ite (keeps_ret _) ?_
    refine Keeps.bind (fun _ => ⟨rfl, rfl⟩) fun _ => keeps_ite (const_bail _).keeps ?_
    exact (keeps_copy _ _).bind fun _ => (keeps_writeLen _ _).bind fun _ => keeps_pure _
  case generateMasterKeys p rnd y =>
    rw [hGenerateMasterKeys_eq]
    exact (keeps_checkOut _ _ _).bind fun _ => (const_masterKeysPayload _ _ _).keeps.bind fun _ => (keeps_writeOut _ _ _ _).bind fun _ => keeps_pure _
  case generateUserPrivateKey priv ap p rnd =>
    rw [hGenerateUserPrivateKey_eq]
    exact (keeps_checkOut _ _ _).bind fun _ => (const_userKeyPayload _ _ _ _).keeps.bind fun _ => (keeps_writeOut _ _ _ _).bind fun _ => keeps_pure _
  case rotateAttributes a p =>
    rw [hRotateAttributes_eq]
    exact (keeps_checkOut _ _ _).bind fun _ => (const_rotatePayload _ _).keeps.bind fun _ => (keeps_writeOut _ _ _ _).bind fun _ => keeps_pure _
  case encryptHeaderUsingCache hh a =>
    refine keeps_checkEncryptHeaderOut.bind fun _ => (const_notNull _ _).keeps.bind fun _ => (keeps_read _).bind fun x => ?_
    cases x with
    | none => exact (const_bail _).keeps
    | some x => exact keeps_finishEncryptHeader _ _
  case encryptHeader c a =>
    exact keeps_checkEncryptHeaderOut.bind fun _ => (const_notNull _ _).keeps.bind fun _ => (const_checkIn _ _ _).keeps.bind fun _ =>
      (const_notNull _ _).keeps.bind fun _ => (const_readStr _ _).keeps.bind fun _ => (const_json _).keeps.bind fun _ =>
      (const_readIn _).keeps.bind fun _ => (const_libUnwrap _).keeps.bind fun _ => keeps_finishEncryptHeader _ _
  case decryptHeaderUsingCache hd hh =>
    refine (keeps_checkOut _ _ _).bind fun _ => (const_checkIn _ _ _).keeps.bind fun _ => (const_readIn _).keeps.bind fun _ =>
      (keeps_read _).bind fun x => ?_
    cases x with
    | none => exact (const_bail _).keeps
    | some x => exact keeps_finishDecryptHeader _ _
  case decryptHeader hd k =>
    exact (keeps_checkOut _ _ _).bind fun _ => (const_checkIn _ _ _).keeps.bind fun _ => (const_checkIn _ _ _).keeps.bind fun _ =>
      (const_readIn _).keeps.bind fun _ => (const_readIn _).keeps.bind fun _ => (const_libUnwrap _).keeps.bind fun _ =>
      keeps_finishDecryptHeader _ _
  case getEncryptedHeaderSize e =>
    exact (const_checkIn _ _ _).keeps.bind fun _ => (const_readIn _).keeps.bind fun _ => (const_unwrap _ _).keeps.bind fun _ => keeps_pure _
  case symmetricEncryptionOverhead => exact keeps_pure _
  case encryptBlock a n =>
    rw [hEncryptBlock_eq]
    exact (keeps_checkOut _ _ _).bind fun _ => (const_encryptBlockPayload _ _).keeps.bind fun _ => (keeps_writeBlock _ _ _).bind fun _ => keeps_pure _
  case decryptBlock a =>
    rw [hDecryptBlock_eq]
    exact (keeps_checkOut _ _ _).bind fun _ => (const_decryptBlockPayload _).keeps.bind fun _ => (keeps_writeBlock _ _ _).bind fun _ => keeps_pure _

/-! ### The actions of a history -/

theorem frun_append (s : Sys (EncryptionCache G2 Gt) (DecryptionKey K G1 G3)) (L L' : List (Thread × FEvent K Gt Nonce)) :
    frun lib s (L ++ L') = frun lib (frun lib s L) L' := by
  induction L generalizing s with
  | nil => rfl
  | cons x L ih => exact ih _

theorem upd_self {α : Type} (f : Thread → α) (τ : Thread) (a : α) : Sys.upd f τ a τ = a := if_pos rfl
theorem upd_ne {α : Type} (f : Thread → α) {τ τ' : Thread} (a : α) (h : τ' ≠ τ) : Sys.upd f τ a τ' = f τ' := if_neg h

/-- The steps of the other calls. -/
theorem fstep_other (s : Sys (EncryptionCache G2 Gt) (DecryptionKey K G1 G3)) (τ : Thread) (c : FCall K Gt Nonce) (m : CMem)
    (hi : s.Idle τ) (h1 : ∀ a, c ≠ .createEncryptionCache a) (h2 : ∀ k, c ≠ .createDecryptionCache k) :
    fstep lib s τ (.call c m) = (s.back τ ((c.prog lib).run (s.view τ m)).2,
      some (((c.prog lib).run (s.view τ m)).1, ((c.prog lib).run (s.view τ m)).2.mem)) := by
  have hn : ¬ ((s.pendEnc τ).isSome ∨ (s.pendDec τ).isSome) := by rw [hi.1, hi.2]; simp
  unfold fstep
  dsimp only
  rw [if_neg hn]
  cases c <;> first | rfl | exact absurd rfl (h1 _) | exact absurd rfl (h2 _)

theorem fstep_busy (s : Sys (EncryptionCache G2 Gt) (DecryptionKey K G1 G3)) (τ : Thread) (c : FCall K Gt Nonce) (m : CMem)
    (hi : ¬ s.Idle τ) : fstep lib s τ (.call c m) = (s, none) := by
  have hn : (s.pendEnc τ).isSome ∨ (s.pendDec τ).isSome := by
    by_contra hc
    rw [not_or] at hc
    exact hi ⟨by simpa using hc.1, by simpa using hc.2⟩
  unfold fstep
  dsimp only
  rw [if_pos hn]

theorem fstep_createEnc (s : Sys (EncryptionCache G2 Gt) (DecryptionKey K G1 G3)) (τ : Thread) (a : EncCacheArgs) (m : CMem)
    (hi : s.Idle τ) :
    fstep lib s τ (.call (.createEncryptionCache a) m) = startCreation s τ m (prepareEncryptionCache lib a) fun s c =>
        { s with enc := s.enc.fetchAdd.2, pendEnc := Sys.upd s.pendEnc τ (some ⟨s.enc.fetchAdd.1, c, m⟩) } := by
  have hn : ¬ ((s.pendEnc τ).isSome ∨ (s.pendDec τ).isSome) := by rw [hi.1, hi.2]; simp
  unfold fstep
  dsimp only
  rw [if_neg hn]

theorem fstep_createDec (s : Sys (EncryptionCache G2 Gt) (DecryptionKey K G1 G3)) (τ : Thread) (a : InBuf) (m : CMem)
    (hi : s.Idle τ) :
    fstep lib s τ (.call (.createDecryptionCache a) m) = startCreation s τ m (prepareDecryptionCache lib a) fun s c =>
        { s with dec := s.dec.fetchAdd.2, pendDec := Sys.upd s.pendDec τ (some ⟨s.dec.fetchAdd.1, c, m⟩) } := by
  have hn : ¬ ((s.pendEnc τ).isSome ∨ (s.pendDec τ).isSome) := by rw [hi.1, hi.2]; simp
  unfold fstep
  dsimp only
  rw [if_neg hn]

/-- The first part of a creation, when its preparation has no effect. -/
theorem startCreation_cases {E D α : Type} (s : Sys E D) (τ : Thread) (m : CMem) {prep : Prog E D α} (hp : Const prep)
    (draw : Sys E D → α → Sys E D) :
    (∃ c, prep = pure c ∧ startCreation s τ m prep draw = (draw (s.back τ (s.view τ m)) c, none)) ∨
    ((∀ c, prep ≠ pure c) ∧ ∃ r e, startCreation s τ m prep draw = (s.back τ { s.view τ m with err := e }, some (r, m)) ∧
      r ≠ .ret 0) := by
  rcases hp with ⟨c, rfl⟩ | ⟨e, rfl⟩ | rfl | rfl
  · exact .inl ⟨c, rfl, rfl⟩
  · exact .inr ⟨fun c h => stop_ne_pure h, .ret 1, some e, rfl, by decide⟩
  · exact .inr ⟨fun c h => panicked_ne_pure h, .panic, s.err τ, rfl, by decide⟩
  · exact .inr ⟨fun c h => undefined_ne_pure h, .ub, s.err τ, rfl, by decide⟩

theorem keeps_writeHandle {E D : Type} (id : Int32) : Keeps (writeHandle id : Prog E D Int32) := by
  intro s
  unfold writeHandle
  split <;> exact ⟨rfl, rfl⟩

theorem writeHandle_err {E D : Type} (id : Int32) (s : FState E D) : ((writeHandle id : Prog E D Int32).run s).2.err = s.err := by
  rw [run_enc]
  unfold writeHandle
  split <;> rfl

/-! #### Encryption caches -/

/-- The registry of encryption caches. -/
def Sys.encView {E D : Type} (s : Sys E D) : RState E := ⟨s.enc, s.pendEnc⟩

open Classical in
/-- What an event does to the registry of encryption caches. -/
noncomputable def encAct (lib : FfiLib K G1 G2 G3 Gt Key Nonce) (s : Sys (EncryptionCache G2 Gt) (DecryptionKey K G1 G3)) (τ : Thread) :
    FEvent K Gt Nonce → RAct (EncryptionCache G2 Gt)
  | .finish => .commit τ
  | .call (.createEncryptionCache a) m =>
    if h : s.Idle τ ∧ ∃ c, a.Decodes lib c then .draw τ (Classical.choose h.2) m else .skip
  | .call (.destroyEncryptionCache h) _ => if s.Idle τ then .remove h else .skip
  | .call _ _ => .skip

theorem encAct_step (s : Sys (EncryptionCache G2 Gt) (DecryptionKey K G1 G3)) (τ : Thread) (ev : FEvent K Gt Nonce) :
    (fstep lib s τ ev).1.encView = s.encView.act (encAct lib s τ ev) := by
  cases ev with
  | finish =>
    simp only [encAct, RState.act, fstep]
    cases hp : s.pendEnc τ with
    | some p =>
      simp only [Sys.encView, hp, Sys.back]
      rw [((keeps_writeHandle p.id).run _).1]
      rfl
    | none =>
      simp only [Sys.encView, hp]
      cases hd : s.pendDec τ with
      | none => rfl
      | some p =>
        simp only [Sys.back]
        rw [((keeps_writeHandle p.id).run _).1]
        rfl
  | call c m =>
    by_cases hi : s.Idle τ
    · by_cases hc : c.changesRegistry = true
      · cases c <;> simp only [FCall.changesRegistry, Bool.false_eq_true] at hc
        case createEncryptionCache a =>
          rw [fstep_createEnc s τ a m hi]
          rcases startCreation_cases s τ m (const_prepareEncryptionCache (lib := lib) a) (fun s c =>
            { s with enc := s.enc.fetchAdd.2, pendEnc := Sys.upd s.pendEnc τ (some ⟨s.enc.fetchAdd.1, c, m⟩) }) with ⟨c, h1, h2⟩ | ⟨h1, r, e, h2, _⟩
          · have hdec : ∃ c, a.Decodes lib c := ⟨c, prepareEncryptionCache_iff.1 h1⟩
            have hcc : Classical.choose hdec = c :=
              pure_eq_pure.1 ((prepareEncryptionCache_iff.2 (Classical.choose_spec hdec)).symm.trans h1)
            rw [h2]
            simp only [encAct]
            rw [dif_pos ⟨hi, hdec⟩, hcc]
            rfl
          · rw [h2]
            simp only [encAct]
            rw [dif_neg (fun h => by obtain ⟨_, c, h⟩ := h; exact h1 c (prepareEncryptionCache_iff.2 h))]
            rfl
        case destroyEncryptionCache h =>
          rw [fstep_other s τ _ m hi (by simp) (by simp)]
          simp only [encAct, if_pos hi]
          rfl
        case createDecryptionCache k =>
          rw [fstep_createDec s τ k m hi]
          rcases startCreation_cases s τ m (const_prepareDecryptionCache (lib := lib) k) (fun s c =>
            { s with dec := s.dec.fetchAdd.2, pendDec := Sys.upd s.pendDec τ (some ⟨s.dec.fetchAdd.1, c, m⟩) }) with ⟨c, h1, h2⟩ | ⟨h1, r, e, h2, _⟩ <;>
          · rw [h2]; rfl
        case destroyDecryptionCache h =>
          rw [fstep_other s τ _ m hi (by simp) (by simp)]
          rfl
      · have hc' : c.changesRegistry = false := by simpa using hc
        rw [fstep_other s τ c m hi (by rintro a rfl; cases hc') (by rintro a rfl; cases hc')]
        have hk := ((keeps_prog (lib := lib) c hc').run (s.view τ m)).1
        have ha : encAct lib s τ (.call c m) = .skip := by cases c <;> first | rfl | cases hc'
        rw [ha]
        simp only [Sys.encView, Sys.back, RState.act, hk]
        rfl
    · rw [fstep_busy s τ c m hi]
      have ha : encAct lib s τ (.call c m) = .skip := by
        cases c <;> first | rfl | (simp only [encAct]; rw [if_neg hi]) | (simp only [encAct]; rw [dif_neg (fun h => hi h.1)])
      rw [ha]
      rfl

theorem encAct_remove {s : Sys (EncryptionCache G2 Gt) (DecryptionKey K G1 G3)} {τ : Thread} {ev : FEvent K Gt Nonce} {h : Int32}
    (ha : encAct lib s τ ev = .remove h) : s.Idle τ ∧ ∃ m, ev = .call (.destroyEncryptionCache h) m := by
  cases ev with
  | finish => simp [encAct] at ha
  | call c m =>
    cases c <;> simp only [encAct] at ha <;> try cases ha
    case createEncryptionCache a => split at ha <;> cases ha
    case destroyEncryptionCache h' =>
      split at ha
      · cases ha
        exact ⟨by assumption, m, rfl⟩
      · cases ha

theorem encAct_draw {s : Sys (EncryptionCache G2 Gt) (DecryptionKey K G1 G3)} {τ τ' : Thread} {ev : FEvent K Gt Nonce}
    {c : EncryptionCache G2 Gt} {m : CMem} (ha : encAct lib s τ ev = .draw τ' c m) :
    τ' = τ ∧ s.Idle τ ∧ ∃ a, ev = .call (.createEncryptionCache a) m ∧ a.Decodes lib c := by
  cases ev with
  | finish => simp [encAct] at ha
  | call c' m' =>
    cases c' <;> simp only [encAct] at ha <;> try cases ha
    case createEncryptionCache a =>
      split at ha
      · rename_i h
        simp only [RAct.draw.injEq] at ha
        obtain ⟨rfl, rfl, rfl⟩ := ha
        exact ⟨rfl, h.1, a, rfl, Classical.choose_spec h.2⟩
      · cases ha
    case destroyEncryptionCache h' => split at ha <;> cases ha

theorem encAct_commit {s : Sys (EncryptionCache G2 Gt) (DecryptionKey K G1 G3)} {τ τ' : Thread} {ev : FEvent K Gt Nonce}
    (ha : encAct lib s τ ev = .commit τ') : τ' = τ ∧ ev = .finish := by
  cases ev with
  | finish => simp only [encAct, RAct.commit.injEq] at ha; exact ⟨ha.symm, rfl⟩
  | call c' m' =>
    cases c' <;> simp only [encAct] at ha <;> try cases ha
    case createEncryptionCache a => split at ha <;> cases ha
    case destroyEncryptionCache h' => split at ha <;> cases ha

/-- The actions of a history on the registry of encryption caches. -/
noncomputable def encActs (lib : FfiLib K G1 G2 G3 Gt Key Nonce) (s : Sys (EncryptionCache G2 Gt) (DecryptionKey K G1 G3)) :
    List (Thread × FEvent K Gt Nonce) → List (RAct (EncryptionCache G2 Gt))
  | [] => []
  | (τ, ev) :: L => encAct lib s τ ev :: encActs lib (fstep lib s τ ev).1 L

theorem encActs_append (s : Sys (EncryptionCache G2 Gt) (DecryptionKey K G1 G3)) (L L' : List (Thread × FEvent K Gt Nonce)) :
    encActs lib s (L ++ L') = encActs lib s L ++ encActs lib (frun lib s L) L' := by
  induction L generalizing s with
  | nil => rfl
  | cons x L ih =>
    simp only [List.cons_append, encActs, ih, frun]

theorem encActs_run (s : Sys (EncryptionCache G2 Gt) (DecryptionKey K G1 G3)) (L : List (Thread × FEvent K Gt Nonce)) :
    (frun lib s L).encView = s.encView.acts (encActs lib s L) := by
  induction L generalizing s with
  | nil => rfl
  | cons x L ih =>
    obtain ⟨τ, ev⟩ := x
    simp only [frun, encActs]
    rw [ih, encAct_step]
    rfl

theorem encCreations_append (L L' : List (Thread × FEvent K Gt Nonce)) : encCreations (L ++ L') = encCreations L + encCreations L' := by
  induction L with
  | nil => simp [encCreations]
  | cons x L ih =>
    obtain ⟨τ, ev⟩ := x
    cases ev with
    | finish => simpa [encCreations] using ih
    | call c m => cases c <;> simp [encCreations, ih]; omega

theorem encActs_draws (s : Sys (EncryptionCache G2 Gt) (DecryptionKey K G1 G3)) (L : List (Thread × FEvent K Gt Nonce)) :
    draws (encActs lib s L) ≤ encCreations L := by
  induction L generalizing s with
  | nil => simp [encActs, draws, encCreations]
  | cons x L ih =>
    obtain ⟨τ, ev⟩ := x
    have h := ih (fstep lib s τ ev).1
    simp only [encActs]
    cases hA : encAct lib s τ ev with
    | draw τ' c m =>
      obtain ⟨_, _, a, rfl, _⟩ := encAct_draw hA
      simp only [draws, encCreations]
      omega
    | _ =>
      simp only [draws]
      refine h.trans ?_
      have := encCreations_append [(τ, ev)] L
      rw [List.singleton_append] at this
      omega

theorem inv_init_enc : (Sys.init : Sys (EncryptionCache G2 Gt) (DecryptionKey K G1 G3)).encView.Inv 0 :=
  ⟨rfl, fun _ _ h => (by cases h), fun _ _ _ _ h => (by cases h)⟩

/-- A creation under way stays until its thread finishes. -/
theorem pendEnc_kept {s : Sys (EncryptionCache G2 Gt) (DecryptionKey K G1 G3)} {τ : Thread} {p : Pending (EncryptionCache G2 Gt)}
    (hp : s.pendEnc τ = some p) {L : List (Thread × FEvent K Gt Nonce)} (hL : (τ, FEvent.finish) ∉ L) :
    (frun lib s L).pendEnc τ = some p := by
  induction L generalizing s with
  | nil => exact hp
  | cons x L ih =>
    obtain ⟨τ', ev⟩ := x
    simp only [List.mem_cons, not_or] at hL
    refine ih ?_ hL.2
    have hv : (fstep lib s τ' ev).1.pendEnc = (s.encView.act (encAct lib s τ' ev)).pend := by rw [← encAct_step]; rfl
    rw [hv]
    cases hA : encAct lib s τ' ev with
    | skip => exact hp
    | remove h => exact hp
    | commit τ'' =>
      obtain ⟨rfl, rfl⟩ := encAct_commit hA
      have hne : τ ≠ τ'' := fun e => hL.1 (by rw [e])
      simp only [RState.act]
      split
      · exact (upd_ne _ _ hne).trans hp
      · exact hp
    | draw τ'' c m =>
      obtain ⟨rfl, hi, _⟩ := encAct_draw hA
      have hne : τ ≠ τ'' := by
        rintro rfl
        rw [hi.1] at hp
        cases hp
      simp only [RState.act]
      exact (upd_ne _ _ hne).trans hp

/-- What the creation of an encryption cache does. -/
theorem createsEnc {L1 L2 : List (Thread × FEvent K Gt Nonce)} {τ : Thread} {a : EncCacheArgs} {m : CMem} {h : Int32}
    (hc : CreatesHandle lib L1 τ (.createEncryptionCache a) m L2 h) :
    ∃ c, a.Decodes lib c ∧ encAct lib (frun lib Sys.init L1) τ (.call (.createEncryptionCache a) m) = .draw τ c m ∧
      h = Int32.ofNat (draws (encActs lib Sys.init L1)) ∧
      (frun lib Sys.init (L1 ++ (τ, .call (.createEncryptionCache a) m) :: L2)).pendEnc τ = some ⟨h, c, m⟩ := by
  obtain ⟨hi, hn, hL2, m', hf, hm'⟩ := hc
  rw [fstep_createEnc _ τ a m hi] at hn
  have hstep := fstep_createEnc (lib := lib) _ τ a m hi
  rcases startCreation_cases (frun lib Sys.init L1) τ m (const_prepareEncryptionCache (lib := lib) a) (fun s c =>
    { s with enc := s.enc.fetchAdd.2, pendEnc := Sys.upd s.pendEnc τ (some ⟨s.enc.fetchAdd.1, c, m⟩) }) with ⟨c, h1, h2⟩ | ⟨_, r, e, h2, _⟩
  · rw [h2] at hstep
    have hdec := prepareEncryptionCache_iff.1 h1
    have hA : encAct lib (frun lib Sys.init L1) τ (.call (.createEncryptionCache a) m) = .draw τ c m := by
      have hex : ∃ c, a.Decodes lib c := ⟨c, hdec⟩
      have hcc : Classical.choose hex = c :=
        pure_eq_pure.1 ((prepareEncryptionCache_iff.2 (Classical.choose_spec hex)).symm.trans h1)
      simp only [encAct]
      rw [dif_pos ⟨hi, hex⟩, hcc]
    have hid : (frun lib Sys.init L1).enc.next = Int32.ofNat (draws (encActs lib Sys.init L1)) := by
      have h1 : (frun lib Sys.init L1).enc = (frun lib Sys.init L1).encView.reg := rfl
      rw [h1, encActs_run, acts_next]
      exact Int32.zero_add _
    have hpend : (frun lib Sys.init (L1 ++ (τ, .call (.createEncryptionCache a) m) :: L2)).pendEnc τ =
        some ⟨(frun lib Sys.init L1).enc.next, c, m⟩ := by
      rw [frun_append]
      simp only [frun]
      rw [hstep]
      exact pendEnc_kept (upd_self _ _ _) hL2
    have hh : (frun lib Sys.init L1).enc.next = h := by
      simp only [fstep, hpend] at hf
      simp only [Option.some.injEq, Prod.mk.injEq] at hf
      obtain ⟨hf1, rfl⟩ := hf
      simp only [Prog.run, writeHandle] at hf1 hm'
      split at hf1
      · rename_i x hx
        rw [hx] at hm'
        exact Option.some.inj hm'
      · simp [finish] at hf1
    rw [hh] at hpend hid
    exact ⟨c, hdec, hA, hid, hpend⟩
  · rw [h2] at hn
    cases hn

theorem encActs_split {s : Sys (EncryptionCache G2 Gt) (DecryptionKey K G1 G3)} {L : List (Thread × FEvent K Gt Nonce)}
    {l1 l2 : List (RAct (EncryptionCache G2 Gt))} {x : RAct (EncryptionCache G2 Gt)} (h : encActs lib s L = l1 ++ x :: l2) :
    ∃ L1 τ ev L2, L = L1 ++ (τ, ev) :: L2 ∧ encActs lib s L1 = l1 ∧ encAct lib (frun lib s L1) τ ev = x ∧
      encActs lib (frun lib s (L1 ++ [(τ, ev)])) L2 = l2 := by
  induction l1 generalizing s L with
  | nil =>
    cases L with
    | nil => simp [encActs] at h
    | cons y L =>
      obtain ⟨τ, ev⟩ := y
      simp only [encActs, List.nil_append, List.cons.injEq] at h
      exact ⟨[], τ, ev, L, rfl, rfl, h.1, h.2⟩
  | cons a l1 ih =>
    cases L with
    | nil => simp [encActs] at h
    | cons y L =>
      obtain ⟨τ, ev⟩ := y
      simp only [encActs, List.cons_append, List.cons.injEq] at h
      obtain ⟨L1, τ', ev', L2, rfl, h1, h2, h3⟩ := ih h.2
      exact ⟨(τ, ev) :: L1, τ', ev', L2, rfl, by simp [encActs, h1, h.1], h2, h3⟩

theorem encActs_remove_iff {L0 L : List (Thread × FEvent K Gt Nonce)} {h : Int32} :
    RAct.remove h ∉ encActs lib (frun lib Sys.init L0) L ↔ KeptEnc lib L0 h L := by
  constructor
  · rintro hr Ld τ m Le rfl hi
    apply hr
    rw [frun_append] at hi
    rw [encActs_append]
    simp only [encActs, encAct, if_pos hi]
    simp
  · intro hk hr
    obtain ⟨l1, l2, h1⟩ := List.append_of_mem hr
    obtain ⟨L1, τ, ev, L2, rfl, _, h3, _⟩ := encActs_split h1
    obtain ⟨h4, m, rfl⟩ := encAct_remove h3
    exact hk L1 τ m L2 rfl (by rw [frun_append]; exact h4)

/-! #### Decryption caches -/

/-- The registry of decryption caches. -/
def Sys.decView {E D : Type} (s : Sys E D) : RState D := ⟨s.dec, s.pendDec⟩

open Classical in
/-- What an event does to the registry of decryption caches. -/
noncomputable def decAct (lib : FfiLib K G1 G2 G3 Gt Key Nonce) (s : Sys (EncryptionCache G2 Gt) (DecryptionKey K G1 G3)) (τ : Thread) :
    FEvent K Gt Nonce → RAct (DecryptionKey K G1 G3)
  | .finish => if (s.pendEnc τ).isSome then .skip else .commit τ
  | .call (.createDecryptionCache a) m =>
    if h : s.Idle τ ∧ ∃ c, KeyDecodes lib a c then .draw τ (Classical.choose h.2) m else .skip
  | .call (.destroyDecryptionCache h) _ => if s.Idle τ then .remove h else .skip
  | .call _ _ => .skip

theorem decAct_step (s : Sys (EncryptionCache G2 Gt) (DecryptionKey K G1 G3)) (τ : Thread) (ev : FEvent K Gt Nonce) :
    (fstep lib s τ ev).1.decView = s.decView.act (decAct lib s τ ev) := by
  cases ev with
  | finish =>
    simp only [decAct, fstep]
    cases hp : s.pendEnc τ with
    | some p =>
      simp only [Sys.decView, Sys.back, Option.isSome_some, if_true, RState.act]
      rw [((keeps_writeHandle p.id).run _).2]
      rfl
    | none =>
      simp only [Sys.decView, Option.isSome_none, Bool.false_eq_true, if_false, RState.act]
      cases hd : s.pendDec τ with
      | none => rfl
      | some p =>
        simp only [Sys.back]
        rw [((keeps_writeHandle p.id).run _).2]
        rfl
  | call c m =>
    by_cases hi : s.Idle τ
    · by_cases hc : c.changesRegistry = true
      · cases c <;> simp only [FCall.changesRegistry, Bool.false_eq_true] at hc
        case createDecryptionCache a =>
          rw [fstep_createDec s τ a m hi]
          rcases startCreation_cases s τ m (const_prepareDecryptionCache (lib := lib) a) (fun s c =>
            { s with dec := s.dec.fetchAdd.2, pendDec := Sys.upd s.pendDec τ (some ⟨s.dec.fetchAdd.1, c, m⟩) }) with ⟨c, h1, h2⟩ | ⟨h1, r, e, h2, _⟩
          · have hdec : ∃ c, KeyDecodes lib a c := ⟨c, prepareDecryptionCache_iff.1 h1⟩
            have hcc : Classical.choose hdec = c :=
              pure_eq_pure.1 ((prepareDecryptionCache_iff.2 (Classical.choose_spec hdec)).symm.trans h1)
            rw [h2]
            simp only [decAct]
            rw [dif_pos ⟨hi, hdec⟩, hcc]
            rfl
          · rw [h2]
            simp only [decAct]
            rw [dif_neg (fun h => by obtain ⟨_, c, h⟩ := h; exact h1 c (prepareDecryptionCache_iff.2 h))]
            rfl
        case destroyDecryptionCache h =>
          rw [fstep_other s τ _ m hi (by simp) (by simp)]
          simp only [decAct, if_pos hi]
          rfl
        case createEncryptionCache k =>
          rw [fstep_createEnc s τ k m hi]
          rcases startCreation_cases s τ m (const_prepareEncryptionCache (lib := lib) k) (fun s c =>
            { s with enc := s.enc.fetchAdd.2, pendEnc := Sys.upd s.pendEnc τ (some ⟨s.enc.fetchAdd.1, c, m⟩) }) with ⟨c, h1, h2⟩ | ⟨h1, r, e, h2, _⟩ <;>
          · rw [h2]; rfl
        case destroyEncryptionCache h =>
          rw [fstep_other s τ _ m hi (by simp) (by simp)]
          rfl
      · have hc' : c.changesRegistry = false := by simpa using hc
        rw [fstep_other s τ c m hi (by rintro a rfl; cases hc') (by rintro a rfl; cases hc')]
        have hk := ((keeps_prog (lib := lib) c hc').run (s.view τ m)).2
        have ha : decAct lib s τ (.call c m) = .skip := by cases c <;> first | rfl | cases hc'
        rw [ha]
        simp only [Sys.decView, Sys.back, RState.act, hk]
        rfl
    · rw [fstep_busy s τ c m hi]
      have ha : decAct lib s τ (.call c m) = .skip := by
        cases c <;> first | rfl | (simp only [decAct]; rw [if_neg hi]) | (simp only [decAct]; rw [dif_neg (fun h => hi h.1)])
      rw [ha]
      rfl

theorem decAct_remove {s : Sys (EncryptionCache G2 Gt) (DecryptionKey K G1 G3)} {τ : Thread} {ev : FEvent K Gt Nonce} {h : Int32}
    (ha : decAct lib s τ ev = .remove h) : s.Idle τ ∧ ∃ m, ev = .call (.destroyDecryptionCache h) m := by
  cases ev with
  | finish => simp only [decAct] at ha; split at ha <;> cases ha
  | call c m =>
    cases c <;> simp only [decAct] at ha <;> try cases ha
    case createDecryptionCache a => split at ha <;> cases ha
    case destroyDecryptionCache h' =>
      split at ha
      · cases ha
        exact ⟨by assumption, m, rfl⟩
      · cases ha

theorem decAct_draw {s : Sys (EncryptionCache G2 Gt) (DecryptionKey K G1 G3)} {τ τ' : Thread} {ev : FEvent K Gt Nonce}
    {c : DecryptionKey K G1 G3} {m : CMem} (ha : decAct lib s τ ev = .draw τ' c m) :
    τ' = τ ∧ s.Idle τ ∧ ∃ a, ev = .call (.createDecryptionCache a) m ∧ KeyDecodes lib a c := by
  cases ev with
  | finish => simp only [decAct] at ha; split at ha <;> cases ha
  | call c' m' =>
    cases c' <;> simp only [decAct] at ha <;> try cases ha
    case createDecryptionCache a =>
      split at ha
      · rename_i h
        simp only [RAct.draw.injEq] at ha
        obtain ⟨rfl, rfl, rfl⟩ := ha
        exact ⟨rfl, h.1, a, rfl, Classical.choose_spec h.2⟩
      · cases ha
    case destroyDecryptionCache h' => split at ha <;> cases ha

theorem decAct_commit {s : Sys (EncryptionCache G2 Gt) (DecryptionKey K G1 G3)} {τ τ' : Thread} {ev : FEvent K Gt Nonce}
    (ha : decAct lib s τ ev = .commit τ') : τ' = τ ∧ ev = .finish ∧ s.pendEnc τ = none := by
  cases ev with
  | finish =>
    simp only [decAct] at ha
    split at ha
    · cases ha
    · rename_i h
      simp only [RAct.commit.injEq] at ha
      exact ⟨ha.symm, rfl, by simpa using h⟩
  | call c' m' =>
    cases c' <;> simp only [decAct] at ha <;> try cases ha
    case createDecryptionCache a => split at ha <;> cases ha
    case destroyDecryptionCache h' => split at ha <;> cases ha

/-- The actions of a history on the registry of decryption caches. -/
noncomputable def decActs (lib : FfiLib K G1 G2 G3 Gt Key Nonce) (s : Sys (EncryptionCache G2 Gt) (DecryptionKey K G1 G3)) :
    List (Thread × FEvent K Gt Nonce) → List (RAct (DecryptionKey K G1 G3))
  | [] => []
  | (τ, ev) :: L => decAct lib s τ ev :: decActs lib (fstep lib s τ ev).1 L

theorem decActs_append (s : Sys (EncryptionCache G2 Gt) (DecryptionKey K G1 G3)) (L L' : List (Thread × FEvent K Gt Nonce)) :
    decActs lib s (L ++ L') = decActs lib s L ++ decActs lib (frun lib s L) L' := by
  induction L generalizing s with
  | nil => rfl
  | cons x L ih =>
    simp only [List.cons_append, decActs, ih, frun]

theorem decActs_run (s : Sys (EncryptionCache G2 Gt) (DecryptionKey K G1 G3)) (L : List (Thread × FEvent K Gt Nonce)) :
    (frun lib s L).decView = s.decView.acts (decActs lib s L) := by
  induction L generalizing s with
  | nil => rfl
  | cons x L ih =>
    obtain ⟨τ, ev⟩ := x
    simp only [frun, decActs]
    rw [ih, decAct_step]
    rfl

theorem decCreations_append (L L' : List (Thread × FEvent K Gt Nonce)) : decCreations (L ++ L') = decCreations L + decCreations L' := by
  induction L with
  | nil => simp [decCreations]
  | cons x L ih =>
    obtain ⟨τ, ev⟩ := x
    cases ev with
    | finish => simpa [decCreations] using ih
    | call c m => cases c <;> simp [decCreations, ih]; omega

theorem decActs_draws (s : Sys (EncryptionCache G2 Gt) (DecryptionKey K G1 G3)) (L : List (Thread × FEvent K Gt Nonce)) :
    draws (decActs lib s L) ≤ decCreations L := by
  induction L generalizing s with
  | nil => simp [decActs, draws, decCreations]
  | cons x L ih =>
    obtain ⟨τ, ev⟩ := x
    have h := ih (fstep lib s τ ev).1
    simp only [decActs]
    cases hA : decAct lib s τ ev with
    | draw τ' c m =>
      obtain ⟨_, _, a, rfl, _⟩ := decAct_draw hA
      simp only [draws, decCreations]
      omega
    | _ =>
      simp only [draws]
      refine h.trans ?_
      have := decCreations_append [(τ, ev)] L
      rw [List.singleton_append] at this
      omega

theorem inv_init_dec : (Sys.init : Sys (EncryptionCache G2 Gt) (DecryptionKey K G1 G3)).decView.Inv 0 :=
  ⟨rfl, fun _ _ h => (by cases h), fun _ _ _ _ h => (by cases h)⟩

/-- A creation under way stays until its thread finishes. -/
theorem pendDec_kept {s : Sys (EncryptionCache G2 Gt) (DecryptionKey K G1 G3)} {τ : Thread} {p : Pending (DecryptionKey K G1 G3)}
    (hp : s.pendDec τ = some p) {L : List (Thread × FEvent K Gt Nonce)} (hL : (τ, FEvent.finish) ∉ L) :
    (frun lib s L).pendDec τ = some p := by
  induction L generalizing s with
  | nil => exact hp
  | cons x L ih =>
    obtain ⟨τ', ev⟩ := x
    simp only [List.mem_cons, not_or] at hL
    refine ih ?_ hL.2
    have hv : (fstep lib s τ' ev).1.pendDec = (s.decView.act (decAct lib s τ' ev)).pend := by rw [← decAct_step]; rfl
    rw [hv]
    cases hA : decAct lib s τ' ev with
    | skip => exact hp
    | remove h => exact hp
    | commit τ'' =>
      obtain ⟨rfl, rfl, _⟩ := decAct_commit hA
      have hne : τ ≠ τ'' := fun e => hL.1 (by rw [e])
      simp only [RState.act]
      split
      · exact (upd_ne _ _ hne).trans hp
      · exact hp
    | draw τ'' c m =>
      obtain ⟨rfl, hi, _⟩ := decAct_draw hA
      have hne : τ ≠ τ'' := by
        rintro rfl
        rw [hi.2] at hp
        cases hp
      simp only [RState.act]
      exact (upd_ne _ _ hne).trans hp

/-- A thread creating a decryption cache does not start the creation of an encryption cache. -/
theorem pendEnc_none_kept {s : Sys (EncryptionCache G2 Gt) (DecryptionKey K G1 G3)} {τ : Thread} {p : Pending (DecryptionKey K G1 G3)}
    (hp : s.pendDec τ = some p) (he : s.pendEnc τ = none) {L : List (Thread × FEvent K Gt Nonce)} (hL : (τ, FEvent.finish) ∉ L) :
    (frun lib s L).pendEnc τ = none := by
  induction L generalizing s with
  | nil => exact he
  | cons x L ih =>
    obtain ⟨τ', ev⟩ := x
    have hp' : (frun lib s [(τ', ev)]).pendDec τ = some p := pendDec_kept hp (by
      intro h
      rw [List.mem_singleton] at h
      exact hL (by rw [h]; simp))
    simp only [List.mem_cons, not_or] at hL
    refine ih hp' ?_ hL.2
    have hv : (fstep lib s τ' ev).1.pendEnc = (s.encView.act (encAct lib s τ' ev)).pend := by rw [← encAct_step]; rfl
    rw [hv]
    cases hA : encAct lib s τ' ev with
    | skip => exact he
    | remove h => exact he
    | commit τ'' =>
      simp only [RState.act]
      split
      · simp only [Sys.upd]
        split
        · rfl
        · exact he
      · exact he
    | draw τ'' c m =>
      obtain ⟨rfl, hi, _⟩ := encAct_draw hA
      have hne : τ ≠ τ'' := by
        rintro rfl
        rw [hi.2] at hp
        cases hp
      simp only [RState.act]
      exact (upd_ne _ _ hne).trans he

/-- What the creation of a decryption cache does. -/
theorem createsDec {L1 L2 : List (Thread × FEvent K Gt Nonce)} {τ : Thread} {a : InBuf} {m : CMem} {h : Int32}
    (hc : CreatesHandle lib L1 τ (.createDecryptionCache a) m L2 h) :
    ∃ c, KeyDecodes lib a c ∧ decAct lib (frun lib Sys.init L1) τ (.call (.createDecryptionCache a) m) = .draw τ c m ∧
      h = Int32.ofNat (draws (decActs lib Sys.init L1)) ∧
      (frun lib Sys.init (L1 ++ (τ, .call (.createDecryptionCache a) m) :: L2)).pendDec τ = some ⟨h, c, m⟩ ∧
      (frun lib Sys.init (L1 ++ (τ, .call (.createDecryptionCache a) m) :: L2)).pendEnc τ = none := by
  obtain ⟨hi, hn, hL2, m', hf, hm'⟩ := hc
  rw [fstep_createDec _ τ a m hi] at hn
  have hstep := fstep_createDec (lib := lib) _ τ a m hi
  rcases startCreation_cases (frun lib Sys.init L1) τ m (const_prepareDecryptionCache (lib := lib) a) (fun s c =>
    { s with dec := s.dec.fetchAdd.2, pendDec := Sys.upd s.pendDec τ (some ⟨s.dec.fetchAdd.1, c, m⟩) }) with ⟨c, h1, h2⟩ | ⟨_, r, e, h2, _⟩
  · rw [h2] at hstep
    have hdec := prepareDecryptionCache_iff.1 h1
    have hA : decAct lib (frun lib Sys.init L1) τ (.call (.createDecryptionCache a) m) = .draw τ c m := by
      have hex : ∃ c, KeyDecodes lib a c := ⟨c, hdec⟩
      have hcc : Classical.choose hex = c :=
        pure_eq_pure.1 ((prepareDecryptionCache_iff.2 (Classical.choose_spec hex)).symm.trans h1)
      simp only [decAct]
      rw [dif_pos ⟨hi, hex⟩, hcc]
    have hid : (frun lib Sys.init L1).dec.next = Int32.ofNat (draws (decActs lib Sys.init L1)) := by
      have h1 : (frun lib Sys.init L1).dec = (frun lib Sys.init L1).decView.reg := rfl
      rw [h1, decActs_run, acts_next]
      exact Int32.zero_add _
    have hpend : (frun lib Sys.init (L1 ++ (τ, .call (.createDecryptionCache a) m) :: L2)).pendDec τ =
        some ⟨(frun lib Sys.init L1).dec.next, c, m⟩ := by
      rw [frun_append]
      simp only [frun]
      rw [hstep]
      exact pendDec_kept (upd_self _ _ _) hL2
    have hpe : (frun lib Sys.init (L1 ++ (τ, .call (.createDecryptionCache a) m) :: L2)).pendEnc τ = none := by
      rw [frun_append]
      simp only [frun]
      rw [hstep]
      refine pendEnc_none_kept (p := ⟨(frun lib Sys.init L1).dec.fetchAdd.1, c, m⟩) ?_ ?_ hL2
      · exact upd_self _ _ _
      · exact hi.1
    have hh : (frun lib Sys.init L1).dec.next = h := by
      simp only [fstep, hpend, hpe] at hf
      simp only [Option.some.injEq, Prod.mk.injEq] at hf
      obtain ⟨hf1, rfl⟩ := hf
      simp only [Prog.run, writeHandle] at hf1 hm'
      split at hf1
      · rename_i x hx
        rw [hx] at hm'
        exact Option.some.inj hm'
      · simp [finish] at hf1
    rw [hh] at hpend hid
    exact ⟨c, hdec, hA, hid, hpend, hpe⟩
  · rw [h2] at hn
    cases hn

theorem decActs_split {s : Sys (EncryptionCache G2 Gt) (DecryptionKey K G1 G3)} {L : List (Thread × FEvent K Gt Nonce)}
    {l1 l2 : List (RAct (DecryptionKey K G1 G3))} {x : RAct (DecryptionKey K G1 G3)} (h : decActs lib s L = l1 ++ x :: l2) :
    ∃ L1 τ ev L2, L = L1 ++ (τ, ev) :: L2 ∧ decActs lib s L1 = l1 ∧ decAct lib (frun lib s L1) τ ev = x ∧
      decActs lib (frun lib s (L1 ++ [(τ, ev)])) L2 = l2 := by
  induction l1 generalizing s L with
  | nil =>
    cases L with
    | nil => simp [decActs] at h
    | cons y L =>
      obtain ⟨τ, ev⟩ := y
      simp only [decActs, List.nil_append, List.cons.injEq] at h
      exact ⟨[], τ, ev, L, rfl, rfl, h.1, h.2⟩
  | cons a l1 ih =>
    cases L with
    | nil => simp [decActs] at h
    | cons y L =>
      obtain ⟨τ, ev⟩ := y
      simp only [decActs, List.cons_append, List.cons.injEq] at h
      obtain ⟨L1, τ', ev', L2, rfl, h1, h2, h3⟩ := ih h.2
      exact ⟨(τ, ev) :: L1, τ', ev', L2, rfl, by simp [decActs, h1, h.1], h2, h3⟩

theorem decActs_remove_iff {L0 L : List (Thread × FEvent K Gt Nonce)} {h : Int32} :
    RAct.remove h ∉ decActs lib (frun lib Sys.init L0) L ↔ KeptDec lib L0 h L := by
  constructor
  · rintro hr Ld τ m Le rfl hi
    apply hr
    rw [frun_append] at hi
    rw [decActs_append]
    simp only [decActs, decAct, if_pos hi]
    simp
  · intro hk hr
    obtain ⟨l1, l2, h1⟩ := List.append_of_mem hr
    obtain ⟨L1, τ, ev, L2, rfl, _, h3, _⟩ := decActs_split h1
    obtain ⟨h4, m, rfl⟩ := decAct_remove h3
    exact hk L1 τ m L2 rfl (by rw [frun_append]; exact h4)

end

end Abe
