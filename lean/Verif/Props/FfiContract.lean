import Verif.Proofs.FfiContract
import Verif.Props.FfiErrors
import Verif.Props.FfiThreads

/-!
# Memory safety of the C interface

Property C73: a caller who keeps the contract never meets undefined behaviour, and nothing is written outside of the announced buffers.
-/

namespace Abe

open Prog

set_option linter.unusedSectionVars false

variable {K G1 G2 G3 Gt Key Nonce : Type} [Field K] [DecidableEq K] (lib : FfiLib K G1 G2 G3 Gt Key Nonce)

abbrev FS (K G1 G2 G3 Gt : Type) [Field K] := FState (EncryptionCache G2 Gt) (DecryptionKey K G1 G3)

theorem tame_ffiRotate (p : Policy) (l : List Attribute) : Tame (ffiRotate (G1 := G1) (G2 := G2) (G3 := G3) lib p l) := by
  induction l generalizing p with
  | nil => exact tame_pure _
  | cons a l ih => exact (tame_unwrapOpt _ _).bind fun p => ih p

theorem orderly_finishEncryptHeader (ht : 31 ≤ lib.t.bits) (s : FS K G1 G2 G3 Gt) (hh : ∀ k, (s.mem.slots k).Honest)
    (hk : (s.mem.slots .symKey).mem ≠ none) (hd : (s.mem.slots .header).mem ≠ none) (cache : EncryptionCache G2 Gt) {a : EncHeaderArgs K Gt Nonce}
    (ha : HonestStr a.attributes) (hn : a.attributes ≠ none) (hu : a.uid.Honest) (hx : a.additional.Honest) :
    OrderlyPart s.mem (finishEncryptHeader lib cache a s) := by
  have h0 := since_refl s
  unfold finishEncryptHeader
  refine orderly_tame h0 (tame_readStr ha hn _) fun _ => orderly_tame h0 (tame_unwrapOpt _ _) fun _ => ?_
  refine orderly_tame h0 ?_ fun _ => orderly_tame h0 ?_ fun _ => orderly_tame h0 (tame_unwrap _ _) fun _ => ?_
  · split
    · exact tame_pure _
    · rename_i h
      exact tame_readIn hu fun e => h (.inl (by simp [e]))
  · split
    · exact tame_pure _
    · rename_i h
      exact (tame_readIn hx fun e => h (.inl (by simp [e]))).bind fun _ => tame_pure _
  · refine orderly_writeOut ht h0 (by simp) (hh _) hk fun s1 h1 => ?_
    exact orderly_writeOut ht h1 (by simp) (hh _) hd fun s2 h2 => orderly_pure h2 _

theorem orderly_finishDecryptHeader (ht : 31 ≤ lib.t.bits) (s : FS K G1 G2 G3 Gt) (hh : ∀ k, (s.mem.slots k).Honest)
    (hk : (s.mem.slots .symKey).mem ≠ none) (key : DecryptionKey K G1 G3) (header : Bytes) :
    OrderlyPart s.mem (finishDecryptHeader lib key header s) := by
  have h0 := since_refl s
  unfold finishDecryptHeader
  refine orderly_tame h0 (tame_unwrap _ _) fun h => ?_
  refine orderly_writeOut ht h0 (by simp) (hh _) hk fun s1 h1 => ?_
  have hlast : ∀ s2 : FS K G1 G2 G3 Gt, Since s.mem [.uid, .symKey] s2 → OrderlyPart s.mem ((ifExpected .additional (match h.metaData.additionalData with
    | some ad => writeOut lib.t .additional (tooSmall' "additional_data") ad
    | none => writeLen .additional 0) >>= fun _ => (pure 0 : Foreign K G1 G2 G3 Gt Int32)) s2) := by
    intro s2 h2
    refine orderly_ifExpected h2 (by simp) (hh _) (fun hg => ?_) (orderly_pure h2 _)
    split
    · exact orderly_writeOut ht h2 (by simp) (hh _) hg fun s3 h3 => orderly_pure h3 _
    · exact orderly_writeLen h2 (by simp) (hh _) hg fun s3 h3 => orderly_pure h3 _
  refine orderly_ifExpected h1 (by simp) (hh _) (fun hg => ?_) ?_
  · exact orderly_writeOut ht h1 (by simp) (hh _) hg fun s2 h2 => hlast s2 h2
  · exact hlast s1 (h1.mono (by simp))

theorem tame_readBlockArgs {a : BlockArgs} (hk : a.key.Honest) (hu : a.uid.Honest) (hd : a.data.Honest) :
    Tame (readBlockArgs (G1 := G1) (G2 := G2) (G3 := G3) lib a) := by
  unfold readBlockArgs
  refine tame_checkIn fun h1 => (tame_readIn hk h1).bind fun _ => Tame.bind ?_ fun _ => ?_
  · split
    · rename_i h
      exact tame_readIn hu fun e => by simp [e] at h
    · exact tame_pure _
  · exact tame_checkIn fun h2 => (tame_readIn hd h2).bind fun _ => (tame_unwrap _ _).bind fun _ => tame_pure _

theorem tame_prepareEncryptionCache {a : EncCacheArgs} (hp : HonestStr a.policy) (hk : a.publicKey.Honest) :
    Tame (prepareEncryptionCache (G1 := G1) (G3 := G3) lib a) := by
  unfold prepareEncryptionCache
  exact tame_notNull fun h1 => tame_checkIn fun h2 => (tame_readStr hp h1 _).bind fun _ => (tame_unwrapOpt _ _).bind fun _ =>
    (tame_readIn hk h2).bind fun _ => (tame_unwrap _ _).bind fun _ => tame_pure _

theorem tame_prepareDecryptionCache {k : InBuf} (hk : k.Honest) : Tame (prepareDecryptionCache (G2 := G2) lib k) := by
  unfold prepareDecryptionCache
  exact tame_checkIn fun h => (tame_readIn hk h).bind fun _ => tame_unwrap _ _

theorem orderly_prog (ht : 31 ≤ lib.t.bits) (c : FCall K Gt Nonce) (s : FS K G1 G2 G3 Gt) (h : Contract s.mem c) (hc : c ≠ .getLastError) :
    OrderlyPart s.mem (c.prog lib s) := by
  obtain ⟨hh, hi⟩ := h
  have h0 := since_refl s
  have n0 : ∀ k : Slot, k ∉ ([] : List Slot) := by simp
  cases c with
  | setError msg =>
    exact orderly_notNull h0 fun h => orderly_tame h0 (tame_readStr hi h _) fun _ => ⟨next_ne, h0.1⟩
  | getLastError => exact absurd rfl hc
  | generateMasterKeys p rnd y =>
    exact orderly_checkOut h0 (n0 _) (hh _) fun hg => orderly_notNull h0 fun h => orderly_tame h0 (tame_readStr hi h _) fun _ =>
      orderly_tame h0 (tame_unwrapOpt _ _) fun _ => orderly_tame h0 (tame_unwrap _ _) fun _ => orderly_tame h0 (tame_unwrap _ _) fun _ =>
      orderly_tame h0 (tame_unwrap _ _) fun _ => orderly_writeOut ht h0 (n0 _) (hh _) hg fun s' h' => orderly_pure h' _
  | generateUserPrivateKey priv ap p rnd =>
    exact orderly_checkOut h0 (n0 _) (hh _) fun hg => orderly_checkIn h0 fun h1 => orderly_notNull h0 fun h2 => orderly_notNull h0 fun h3 =>
      orderly_tame h0 (tame_readIn hi.1 h1) fun _ => orderly_tame h0 (tame_unwrap _ _) fun _ => orderly_tame h0 (tame_readStr hi.2.1 h2 _) fun _ =>
      orderly_tame h0 (tame_unwrapOpt _ _) fun _ => orderly_tame h0 (tame_readStr hi.2.2 h3 _) fun _ => orderly_tame h0 (tame_unwrapOpt _ _) fun _ =>
      orderly_tame h0 (tame_unwrap _ _) fun _ => orderly_tame h0 (tame_unwrap _ _) fun _ =>
      orderly_writeOut ht h0 (n0 _) (hh _) hg fun s' h' => orderly_pure h' _
  | rotateAttributes a p =>
    refine orderly_checkOut h0 (n0 _) (hh _) fun hg => orderly_notNull h0 fun h1 => orderly_notNull h0 fun h2 =>
      orderly_tame h0 (tame_readStr hi.1 h1 _) fun _ => orderly_tame h0 (tame_unwrapOpt _ _) fun _ => orderly_tame h0 (tame_readStr hi.2 h2 _) fun _ =>
      orderly_tame h0 (tame_unwrapOpt _ _) fun _ => orderly_tame h0 (tame_ffiRotate lib _ _) fun p' => ?_
    cases lib.serde.policyEnc p' with
    | none => exact ⟨panic_ne, h0.1⟩
    | some b => exact orderly_writeOut ht h0 (n0 _) (hh _) hg fun s' h' => orderly_pure h' _
  | createEncryptionCache a =>
    refine orderly_tame h0 (tame_prepareEncryptionCache lib hi.1 hi.2.1) fun c => ?_
    obtain ⟨x, hx⟩ := Option.ne_none_iff_exists'.1 hi.2.2
    show OrderlyPart s.mem (writeHandle s.enc.next { s with enc := s.enc.fetchAdd.2.insert s.enc.next c })
    unfold writeHandle
    rw [hx]
    exact ⟨next_ne, h0.1⟩
  | destroyEncryptionCache h => exact ⟨next_ne, h0.1⟩
  | encryptHeaderUsingCache h a =>
    show OrderlyPart s.mem (hEncryptHeaderUsingCache lib h a s)
    unfold hEncryptHeaderUsingCache checkEncryptHeaderOut
    rw [bind_assoc]
    refine orderly_checkOut h0 (n0 _) (hh _) fun h1 => orderly_checkOut h0 (n0 _) (hh _) fun h2 => orderly_notNull h0 fun h3 => ?_
    refine orderly_next (p := (fun s => (.next (s.enc.get h), s) : Foreign K G1 G2 G3 Gt (Option (EncryptionCache G2 Gt)))) (a := s.enc.get h) rfl ?_
    cases s.enc.get h with
    | none => exact orderly_bail h0 _
    | some c => exact orderly_finishEncryptHeader lib ht s hh h1 h2 c hi.1 h3 hi.2.1 hi.2.2
  | encryptHeader c a =>
    show OrderlyPart s.mem (hEncryptHeader lib c a s)
    unfold hEncryptHeader checkEncryptHeaderOut
    rw [bind_assoc]
    exact orderly_checkOut h0 (n0 _) (hh _) fun h1 => orderly_checkOut h0 (n0 _) (hh _) fun h2 => orderly_notNull h0 fun h3 => orderly_checkIn h0 fun h4 =>
      orderly_notNull h0 fun h5 => orderly_tame h0 (tame_readStr hi.1 h3 _) fun _ => orderly_tame h0 (tame_unwrapOpt _ _) fun _ =>
      orderly_tame h0 (tame_readIn hi.2.1 h4) fun _ => orderly_tame h0 (tame_unwrap _ _) fun _ =>
      orderly_finishEncryptHeader lib ht s hh h1 h2 _ hi.2.2.1 h5 hi.2.2.2.1 hi.2.2.2.2
  | createDecryptionCache k =>
    refine orderly_tame h0 (tame_prepareDecryptionCache lib hi.1) fun c => ?_
    obtain ⟨x, hx⟩ := Option.ne_none_iff_exists'.1 hi.2
    show OrderlyPart s.mem (writeHandle s.dec.next { s with dec := s.dec.fetchAdd.2.insert s.dec.next c })
    unfold writeHandle
    rw [hx]
    exact ⟨next_ne, h0.1⟩
  | destroyDecryptionCache h => exact ⟨next_ne, h0.1⟩
  | decryptHeaderUsingCache hd h =>
    show OrderlyPart s.mem (hDecryptHeaderUsingCache lib hd h s)
    unfold hDecryptHeaderUsingCache
    refine orderly_checkOut h0 (n0 _) (hh _) fun h1 => orderly_checkIn h0 fun h2 => orderly_tame h0 (tame_readIn hi h2) fun b => ?_
    refine orderly_next (p := (fun s => (.next (s.dec.get h), s) : Foreign K G1 G2 G3 Gt (Option (DecryptionKey K G1 G3)))) (a := s.dec.get h) rfl ?_
    cases s.dec.get h with
    | none => exact orderly_bail h0 _
    | some c => exact orderly_finishDecryptHeader lib ht s hh h1 c b
  | decryptHeader hd k =>
    exact orderly_checkOut h0 (n0 _) (hh _) fun h1 => orderly_checkIn h0 fun h2 => orderly_checkIn h0 fun h3 => orderly_tame h0 (tame_readIn hi.1 h2) fun b =>
      orderly_tame h0 (tame_readIn hi.2 h3) fun _ => orderly_tame h0 (tame_unwrap _ _) fun c => orderly_finishDecryptHeader lib ht s hh h1 c b
  | getEncryptedHeaderSize e =>
    exact orderly_checkIn h0 fun h => orderly_tame h0 (tame_readIn hi h) fun _ => orderly_tame h0 (tame_unwrap _ _) fun _ => orderly_pure h0 _
  | symmetricEncryptionOverhead => exact orderly_pure h0 _
  | encryptBlock a n =>
    exact orderly_checkOut h0 (n0 _) (hh _) fun hg => orderly_tame h0 (tame_readBlockArgs lib hi.1 hi.2.1 hi.2.2) fun _ =>
      orderly_tame h0 (tame_unwrap _ _) fun _ => orderly_writeBlock ht h0 (n0 _) (hh _) hg fun s' h' => orderly_pure h' _
  | decryptBlock a =>
    exact orderly_checkOut h0 (n0 _) (hh _) fun hg => orderly_tame h0 (tame_readBlockArgs lib hi.1 hi.2.1 hi.2.2) fun _ =>
      orderly_tame h0 (tame_unwrap _ _) fun _ => orderly_writeBlock ht h0 (n0 _) (hh _) hg fun s' h' => orderly_pure h' _

theorem getLastError_nul {E D : Type} (display : Option FormatErr → Bytes) (s : FState E D) {mem : Bytes} {n : Int32}
    (hm : s.mem.slots .out = ⟨some mem, some n⟩) (h1 : 1 ≤ n.toInt) {e : FfiError} (he : s.err = some e) (h0 : 0 ∈ e.text) :
    (hGetLastError display).run s =
      (.ret 1, { s with err := some (.generic (utf8 "failed to convert error to CString: " ++ display none)) }) := by
  unfold run hGetLastError
  rw [bind_next (x := outPtr .out) (a := some mem) (s' := s) (by simp only [outPtr, hm])]
  rw [if_neg (by simp)]
  rw [bind_next (x := fun s => (.next s, s)) (a := s) (s' := s) rfl]
  rw [if_neg (by rw [hm]; simp)]
  rw [bind_next (x := readLen .out) (a := n) (s' := s) (by simp only [readLen, hm])]
  rw [if_neg (by omega)]
  rw [bind_next (x := takeLastError) (a := s.err) (s' := { s with err := none }) rfl]
  simp only [he, Option.map_some, Option.getD_some]
  rw [if_pos h0]
  rfl

/-- **C48**, a message with a NUL byte inside: it is lost, `get_last_error` returns 1 and replaces it by another error. -/
theorem C48_nul {s : FS K G1 G2 G3 Gt} {mem : Bytes} {n : Int32} (hm : s.mem.slots .out = ⟨some mem, some n⟩) (h1 : 1 ≤ n.toInt) {e : FfiError}
    (he : s.err = some e) (h0 : 0 ∈ e.text) :
    ((FCall.getLastError : FCall K Gt Nonce).prog lib).run s =
      (.ret 1, { s with err := some (.generic (utf8 "failed to convert error to CString: " ++ lib.display none)) }) :=
  getLastError_nul lib.display s hm h1 he h0

/-- **C73.** A call of a caller who keeps the contract has no undefined behaviour, and writes within the announced buffers only. -/
theorem C73_call (ht : 31 ≤ lib.t.bits) (c : FCall K Gt Nonce) (s : FS K G1 G2 G3 Gt) (h : Contract s.mem c) :
    Orderly s.mem (((c.prog lib).run s).1, ((c.prog lib).run s).2.mem) := by
  by_cases hc : c = .getLastError
  · subst hc
    rcases h.1 .out with hb | ⟨b, n, hb, h0, h1⟩
    · rw [C49_get_last_error s (.inl hb)]
      exact ⟨ret_ne, (since_refl s).1⟩
    · by_cases hn : n.toInt < 1
      · rw [C49_get_last_error s (.inr (by rw [hb, int32_eq_zero.2 (by omega : n.toInt = 0)]))]
        exact ⟨ret_ne, (since_refl s).1⟩
      · by_cases hz : 0 ∈ (s.err.map FfiError.text).getD []
        · cases he : s.err with
          | none => simp [he] at hz
          | some e =>
            rw [he] at hz
            rw [C48_nul lib hb (by omega) he hz]
            exact ⟨ret_ne, (since_refl s).1⟩
        · rw [show ((FCall.getLastError : FCall K Gt Nonce).prog lib).run s = _ from getLastError_run lib.display s hb (by omega) h1 hz]
          refine ⟨ret_ne, ((since_refl s).setSlot .out (b := ⟨_, _⟩) ?_).1⟩
          rw [hb]
          refine ⟨fun h => by simp at h, fun m' n' h => ?_⟩
          simp only [OutBuf.mk.injEq, Option.some.injEq] at h
          obtain ⟨rfl, rfl⟩ := h
          generalize (s.err.map FfiError.text).getD [] = text
          have hlen : (text.take (n.toInt.toNat - 1) ++ List.replicate (n.toInt.toNat - (text.take (n.toInt.toNat - 1)).length) (0 : UInt8)).length =
              n.toInt.toNat := by
            rw [List.length_append, List.length_replicate, List.length_take]; omega
          refine ⟨_, rfl, ?_, ?_⟩
          · unfold errorBuffer
            rw [List.length_append, hlen, List.length_drop]; omega
          · unfold errorBuffer
            rw [List.drop_append, hlen, List.drop_of_length_le (by omega), List.nil_append, Nat.sub_self, List.drop_zero]
  · obtain ⟨h1, h2⟩ := orderly_prog lib ht c s h hc
    unfold Prog.run finish
    generalize c.prog lib s = x at *
    obtain ⟨f, s'⟩ := x
    cases f with
    | next a => exact ⟨ret_ne, h2⟩
    | ret a => exact ⟨h1, h2⟩
    | panic => exact ⟨h1, h2⟩
    | ub => exact ⟨h1, h2⟩

theorem pendEnc_step (s : Sys (EncryptionCache G2 Gt) (DecryptionKey K G1 G3)) (τ τ' : Thread) (ev : FEvent K Gt Nonce) {p}
    (h : (fstep lib s τ ev).1.pendEnc τ' = some p) :
    s.pendEnc τ' = some p ∨ (τ' = τ ∧ ∃ a, ev = .call (.createEncryptionCache a) p.mem) := by
  cases ev with
  | finish =>
    left
    unfold fstep at h
    simp only [] at h
    split at h
    · simp only [Sys.back, Sys.upd] at h
      split at h
      · simp at h
      · exact h
    · split at h
      · simp only [Sys.back] at h
        exact h
      · exact h
  | call c m =>
    by_cases hi : s.Idle τ
    · by_cases hc : ∃ a, c = .createEncryptionCache a
      · obtain ⟨a, rfl⟩ := hc
        rw [fstep_createEnc s τ a m hi] at h
        unfold startCreation at h
        split at h
        all_goals simp only [Sys.back] at h
        · by_cases hτ : τ' = τ
          · subst hτ
            rw [upd_self] at h
            simp only [Option.some.injEq] at h
            subst h
            exact .inr ⟨rfl, a, rfl⟩
          · rw [upd_ne _ _ hτ] at h
            exact .inl h
        all_goals exact .inl h
      · by_cases hc' : ∃ a, c = .createDecryptionCache a
        · obtain ⟨a, rfl⟩ := hc'
          rw [fstep_createDec s τ a m hi] at h
          unfold startCreation at h
          split at h
          all_goals simp only [Sys.back] at h
          all_goals exact .inl h
        · rw [fstep_other s τ c m hi (fun a e => hc ⟨a, e⟩) (fun a e => hc' ⟨a, e⟩)] at h
          exact .inl h
    · rw [fstep_busy s τ c m hi] at h
      exact .inl h

theorem pendDec_step (s : Sys (EncryptionCache G2 Gt) (DecryptionKey K G1 G3)) (τ τ' : Thread) (ev : FEvent K Gt Nonce) {p}
    (h : (fstep lib s τ ev).1.pendDec τ' = some p) :
    s.pendDec τ' = some p ∨ (τ' = τ ∧ ∃ a, ev = .call (.createDecryptionCache a) p.mem) := by
  cases ev with
  | finish =>
    left
    unfold fstep at h
    simp only [] at h
    split at h
    · simp only [Sys.back] at h
      exact h
    · split at h
      · simp only [Sys.back, Sys.upd] at h
        split at h
        · simp at h
        · exact h
      · exact h
  | call c m =>
    by_cases hi : s.Idle τ
    · by_cases hc : ∃ a, c = .createEncryptionCache a
      · obtain ⟨a, rfl⟩ := hc
        rw [fstep_createEnc s τ a m hi] at h
        unfold startCreation at h
        split at h
        all_goals simp only [Sys.back] at h
        all_goals exact .inl h
      · by_cases hc' : ∃ a, c = .createDecryptionCache a
        · obtain ⟨a, rfl⟩ := hc'
          rw [fstep_createDec s τ a m hi] at h
          unfold startCreation at h
          split at h
          all_goals simp only [Sys.back] at h
          · by_cases hτ : τ' = τ
            · subst hτ
              rw [upd_self] at h
              simp only [Option.some.injEq] at h
              subst h
              exact .inr ⟨rfl, a, rfl⟩
            · rw [upd_ne _ _ hτ] at h
              exact .inl h
          all_goals exact .inl h
        · rw [fstep_other s τ c m hi (fun a e => hc ⟨a, e⟩) (fun a e => hc' ⟨a, e⟩)] at h
          exact .inl h
    · rw [fstep_busy s τ c m hi] at h
      exact .inl h

theorem pend_contract {L : List (Thread × FEvent K Gt Nonce)} (hL : ∀ τ c m, (τ, FEvent.call c m) ∈ L → Contract m c) (τ : Thread) :
    (∀ p, (frun lib Sys.init L).pendEnc τ = some p → p.mem.handle ≠ none ∧ ∃ a, (τ, FEvent.call (.createEncryptionCache a) p.mem) ∈ L) ∧
    (∀ p, (frun lib Sys.init L).pendDec τ = some p → p.mem.handle ≠ none ∧ ∃ a, (τ, FEvent.call (.createDecryptionCache a) p.mem) ∈ L) := by
  induction L using List.reverseRecOn with
  | nil => exact ⟨fun p h => by simp [frun, Sys.init] at h, fun p h => by simp [frun, Sys.init] at h⟩
  | append_singleton L x ih =>
    obtain ⟨τ', ev⟩ := x
    obtain ⟨i1, i2⟩ := ih (fun τ c m h => hL τ c m (by simp [h]))
    rw [frun_append]
    refine ⟨fun p h => ?_, fun p h => ?_⟩
    · rcases pendEnc_step lib _ τ' τ ev h with h | ⟨rfl, a, rfl⟩
      · obtain ⟨j1, a, j2⟩ := i1 p h
        exact ⟨j1, a, by simp [j2]⟩
      · exact ⟨(hL τ (.createEncryptionCache a) p.mem (by simp)).2.2.2, a, by simp⟩
    · rcases pendDec_step lib _ τ' τ ev h with h | ⟨rfl, a, rfl⟩
      · obtain ⟨j1, a, j2⟩ := i2 p h
        exact ⟨j1, a, by simp [j2]⟩
      · exact ⟨(hL τ (.createDecryptionCache a) p.mem (by simp)).2.2, a, by simp⟩

theorem startCreation_orderly {α : Type} (s : Sys (EncryptionCache G2 Gt) (DecryptionKey K G1 G3)) (τ : Thread) (m : CMem) {prep : Foreign K G1 G2 G3 Gt α}
    (hp : Tame prep) (draw) {r : FReply} (h : (startCreation s τ m prep draw).2 = some r) : Orderly m r := by
  unfold startCreation at h
  rcases hp with ⟨a, rfl⟩ | ⟨e, rfl⟩ | rfl
  · simp [pure_def] at h
  · simp only [Option.some.injEq] at h
    subst h
    exact ⟨ret_ne, fun _ => .refl _⟩
  · simp only [panicked, Option.some.injEq] at h
    subst h
    exact ⟨panic_ne, fun _ => .refl _⟩

/-- **C73**, histories: with any number of threads, in any interleaving, if all calls are made by callers who keep the contract, every call ends in an
orderly way.  The reply of a call which creates a cache comes with its second part (`finish`). -/
theorem C73_history (ht : 31 ≤ lib.t.bits) {L : List (Thread × FEvent K Gt Nonce)} (hL : ∀ τ c m, (τ, FEvent.call c m) ∈ L → Contract m c)
    {L1 L2 : List (Thread × FEvent K Gt Nonce)} {τ : Thread} {ev : FEvent K Gt Nonce} (e : L = L1 ++ (τ, ev) :: L2) {r : FReply}
    (hr : (fstep lib (frun lib Sys.init L1) τ ev).2 = some r) :
    ∃ c m, (ev = .call c m ∨ (ev = .finish ∧ (τ, FEvent.call c m) ∈ L1)) ∧ Orderly m r := by
  subst e
  have hL1 : ∀ τ c m, (τ, FEvent.call c m) ∈ L1 → Contract m c := fun τ c m h => hL τ c m (by simp [h])
  cases ev with
  | call c m =>
    have hc : Contract m c := hL τ c m (by simp)
    refine ⟨c, m, .inl rfl, ?_⟩
    by_cases hi : (frun lib Sys.init L1).Idle τ
    · by_cases h1 : ∃ a, c = .createEncryptionCache a
      · obtain ⟨a, rfl⟩ := h1
        rw [fstep_createEnc _ τ a m hi] at hr
        exact startCreation_orderly _ τ m (tame_prepareEncryptionCache lib hc.2.1 hc.2.2.1) _ hr
      · by_cases h2 : ∃ a, c = .createDecryptionCache a
        · obtain ⟨a, rfl⟩ := h2
          rw [fstep_createDec _ τ a m hi] at hr
          exact startCreation_orderly _ τ m (tame_prepareDecryptionCache lib hc.2.1) _ hr
        · rw [fstep_other _ τ c m hi (fun a e => h1 ⟨a, e⟩) (fun a e => h2 ⟨a, e⟩)] at hr
          simp only [Option.some.injEq] at hr
          subst hr
          exact C73_call lib ht c ((frun lib Sys.init L1).view τ m) hc
    · rw [fstep_busy _ τ c m hi] at hr
      simp at hr
  | finish =>
    have key : ∀ (id : Int32) (m : CMem) (s : FS K G1 G2 G3 Gt), s.mem = m → m.handle ≠ none →
        Orderly m (((writeHandle id).run s).1, ((writeHandle id).run s).2.mem) := by
      rintro id m s rfl hm
      obtain ⟨x, hx⟩ := Option.ne_none_iff_exists'.1 hm
      unfold Prog.run writeHandle
      rw [hx]
      exact ⟨ret_ne, fun _ => .refl _⟩
    obtain ⟨p1, p2⟩ := pend_contract lib hL1 τ
    unfold fstep at hr
    simp only [] at hr
    split at hr
    · rename_i p hp
      obtain ⟨j1, a, j2⟩ := p1 p hp
      simp only [Option.some.injEq] at hr
      subst hr
      exact ⟨_, _, .inr ⟨rfl, j2⟩, key _ _ _ rfl j1⟩
    · split at hr
      · rename_i p hp
        obtain ⟨j1, a, j2⟩ := p2 p hp
        simp only [Option.some.injEq] at hr
        subst hr
        exact ⟨_, _, .inr ⟨rfl, j2⟩, key _ _ _ rfl j1⟩
      · simp at hr

namespace Demo

/-- Memory of 1000 bytes for each output, of which 990 are announced. -/
def memSpare : CMem := ⟨fun _ => buf 1000 990, some 0⟩

theorem spare_honest (k : Slot) : (memSpare.slots k).Honest := .inr ⟨_, 990, rfl, by decide, by rw [List.length_replicate]; decide⟩

theorem honest_input {b : Bytes} (h : b.length < 2 ^ 31) : (input b).Honest := .inr ⟨b, input_isIn h⟩

theorem honest_str (x : UInt8) (hx : x ≠ 0) : HonestStr (some [x, 0]) := .inr ⟨[x], [], rfl, by simpa using hx.symm⟩

theorem honest_cacheArgs : HonestStr cacheArgs.policy ∧ cacheArgs.publicKey.Honest :=
  ⟨honest_str 1 (by decide), honest_input (by rw [pubB_length]; decide)⟩

theorem contract_header : Contract memSpare (.encryptHeader cacheArgs (headerArgs 1) : FCall F F SymNonce) :=
  ⟨spare_honest, honest_cacheArgs.1, honest_cacheArgs.2, honest_str 1 (by decide), honest_input (by decide), honest_input (by decide)⟩

/-- **C73**: the encryption of a header succeeds, and keeps the last 10 bytes of the memory of both outputs. -/
example : ∃ s', ((FCall.encryptHeader cacheArgs (headerArgs 1) : FCall F F SymNonce).prog ffi).run (state fun _ => buf 1000 990) = (.ret 0, s') ∧
    ∀ k, ∃ m', (s'.mem.slots k).mem = some m' ∧ m'.length = 1000 ∧ m'.drop 990 = List.replicate 10 0 := by
  have h := C73_call ffi (by decide) (.encryptHeader cacheArgs (headerArgs 1)) (state fun _ => buf 1000 990) contract_header
  have hr : (((FCall.encryptHeader cacheArgs (headerArgs 1) : FCall F F SymNonce).prog ffi).run (state fun _ => buf 1000 990)).1 = .ret 0 := by
    decide +kernel
  generalize ((FCall.encryptHeader cacheArgs (headerArgs 1) : FCall F F SymNonce).prog ffi).run (state fun _ => buf 1000 990) = x at h hr
  obtain ⟨f, s'⟩ := x
  dsimp only at h hr
  refine ⟨s', by rw [hr], fun k => ?_⟩
  obtain ⟨m', h1, h2, h3⟩ := (h.2 k).2 (List.replicate 1000 0) 990 rfl
  rw [show (990 : Int32).toInt.toNat = 990 from rfl, List.drop_replicate] at h3
  exact ⟨m', h1, by rw [h2, List.length_replicate], h3⟩

/-- A history of calls keeping the contract: two threads create caches, a third one destroys, uses and reads errors. -/
def orderlyHistory : List (Thread × FEvent F F SymNonce) :=
  [(1, .call (.createEncryptionCache cacheArgs) memSpare), (2, .call (.createDecryptionCache (input userB)) memSpare), (2, .finish), (1, .finish),
    (3, .call (.encryptHeaderUsingCache 0 (headerArgs 1)) memSpare), (3, .call (.destroyEncryptionCache 0) memSpare),
    (2, .call (.encryptHeaderUsingCache 0 (headerArgs 1)) memSpare), (2, .call .getLastError memSpare)]

theorem orderlyHistory_contract : ∀ τ c m, (τ, FEvent.call c m) ∈ orderlyHistory → Contract m c := by
  intro τ c m h
  simp only [orderlyHistory, List.mem_cons, Prod.mk.injEq, FEvent.call.injEq, List.not_mem_nil, or_false, reduceCtorEq, and_false, false_or] at h
  have hh : (headerArgs 1).uid.Honest ∧ (headerArgs 1).additional.Honest := ⟨honest_input (by decide), honest_input (by decide)⟩
  rcases h with ⟨_, rfl, rfl⟩ | ⟨_, rfl, rfl⟩ | ⟨_, rfl, rfl⟩ | ⟨_, rfl, rfl⟩ | ⟨_, rfl, rfl⟩ | ⟨_, rfl, rfl⟩
  · exact ⟨spare_honest, honest_cacheArgs.1, honest_cacheArgs.2, by simp [memSpare]⟩
  · exact ⟨spare_honest, honest_input (by have := userB_length; omega), by simp [memSpare]⟩
  · exact ⟨spare_honest, honest_str 1 (by decide), hh⟩
  · exact ⟨spare_honest, trivial⟩
  · exact ⟨spare_honest, honest_str 1 (by decide), hh⟩
  · exact ⟨spare_honest, trivial⟩

/-- **C73**, histories: the use of the cache by the third thread succeeds, and ends in an orderly way. -/
example : ∃ r, (fstep ffi (frun ffi Sys.init (orderlyHistory.take 4)) 3 (.call (.encryptHeaderUsingCache 0 (headerArgs 1)) memSpare)).2 = some r ∧
    r.1 = .ret 0 ∧ Orderly memSpare r := by
  have hok : ((fstep ffi (frun ffi Sys.init (orderlyHistory.take 4)) 3 (.call (.encryptHeaderUsingCache 0 (headerArgs 1)) memSpare)).2.map (·.1)) =
      some (.ret 0) := by decide +kernel
  obtain ⟨r, hr, h0⟩ := Option.map_eq_some_iff.1 hok
  obtain ⟨c, m, h, ho⟩ := C73_history ffi (by decide) orderlyHistory_contract (L1 := orderlyHistory.take 4) (L2 := orderlyHistory.drop 5) rfl hr
  refine ⟨r, hr, h0, ?_⟩
  rcases h with h | ⟨h, _⟩
  · obtain ⟨rfl, rfl⟩ := FEvent.call.inj h
    exact ho
  · cases h

/-- The contract is needed: a capacity announced too large leads to undefined behaviour. -/
example : (((FCall.encryptHeader cacheArgs (headerArgs 1) : FCall F F SymNonce).prog ffi).run (state fun _ => buf 20 990)).1 = .ub := by decide +kernel

/-- **C48**: a message containing a zero byte is replaced. -/
example : ((FCall.getLastError : FCall F F SymNonce).prog ffi).run { state (fun _ => buf 20 20) with err := some (.generic [65, 0, 66]) } =
    (.ret 1, { state (fun _ => buf 20 20) with err := some (.generic (utf8 "failed to convert error to CString: " ++ utf8 "error")) }) :=
  C48_nul ffi (s := { state (fun _ => buf 20 20) with err := some (.generic [65, 0, 66]) }) (mem := List.replicate 20 0) (n := 20) rfl (by decide) rfl
    (by decide +kernel)

end Demo

end Abe
